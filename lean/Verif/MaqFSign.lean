import Verif.MaqFRound

/-!
# Quadrature in rounded arithmetic: the sign of the result
-/

namespace Slat.MaqF

open Dbl
open Slat.Maq (iter Method Outcome inc32 iter_inv)

attribute [local instance] Classical.propDecidable

/-- A result of `MAQ` is one of the early returns or that of the main loop on a bracket in order. -/
theorem returns_cases {α : Type} {A : Arith α} {N : ℕ} (G : Geometry A N) {f : α → α} {cfg : Cfg α} {rep : Report α}
    (hN : 4 * cfg.bineval ≤ N) (h : Returns A f cfg rep) :
    (rep.integral = A.lit 0 ∧ rep.outcome = .searchFail) ∨ (rep.integral = A.failed ∧ rep.outcome = .nan) ∨
    ∃ a b n fuel, (∀ fuel, cfg.bineval + 2 ≤ fuel → search A f cfg.method cfg.bineval fuel = some (.bracket a b n)) ∧ G.V a b ∧
      ¬ A.isNaN (transformedLeft A f a) ∧ ¬ A.isNaN (transformed A f b) ∧
      ¬ A.isNaN (transformed A f (mid A a b)) ∧ iter (loopStep A f cfg.tol cfg.maxeval) fuel (start A f a b n) = some rep := by
  obtain ⟨n₀, h⟩ := h
  obtain ⟨r, h1, h2⟩ := G.search_ok f cfg.method cfg.bineval hN
  have e := h (max n₀ (cfg.bineval + 2)) (le_max_left _ _)
  simp only [maq, h1 f (fun _ _ => rfl) _ (le_max_right _ _), Option.bind_some] at e
  cases r with
  | nothing n =>
    simp only [integrate, Option.some.injEq] at e
    subst e
    exact Or.inl ⟨rfl, rfl⟩
  | bracket a b n =>
    rw [integrate_bracket] at e
    split at e
    · rw [Option.some.injEq] at e; subst e; exact Or.inl ⟨rfl, rfl⟩
    split at e
    · rw [Option.some.injEq] at e; subst e; exact Or.inr (Or.inl ⟨rfl, rfl⟩)
    split at e
    · rw [Option.some.injEq] at e; subst e; exact Or.inr (Or.inl ⟨rfl, rfl⟩)
    split at e
    · rw [Option.some.injEq] at e; subst e; exact Or.inr (Or.inl ⟨rfl, rfl⟩)
    rename_i ha hb hc
    exact Or.inr (Or.inr ⟨a, b, n, _, h1 f (fun _ _ => rfl), h2.1, ha, hb, hc, e⟩)

/-- Not negative: NaN, infinite or at least zero. -/
def NN (v : Dbl) : Prop := ¬ v < .fin 0

theorem nn_fin {x : ℝ} : NN (.fin x) ↔ 0 ≤ x := by simp [NN]
theorem nn_nan : NN .nan := by simp [NN]
theorem nn_pinf : NN .pinf := by simp [NN]
theorem not_nn_ninf : ¬ NN .ninf := by simp [NN]

theorem nn_cases {v : Dbl} (h : NN v) : v = .nan ∨ v = .pinf ∨ ∃ x, 0 ≤ x ∧ v = .fin x := by
  cases v with
  | fin x => exact Or.inr (Or.inr ⟨x, nn_fin.1 h, rfl⟩)
  | nan => exact Or.inl rfl
  | pinf => exact Or.inr (Or.inl rfl)
  | ninf => exact absurd h not_nn_ninf

theorem nn_add {u v : Dbl} (hu : NN u) (hv : NN v) : NN (u + v) := by
  rcases nn_cases hu with rfl | rfl | ⟨x, hx, rfl⟩ <;> rcases nn_cases hv with rfl | rfl | ⟨y, hy, rfl⟩
  all_goals first
    | (rw [fin_add]; exact nn_fin.2 (by linarith))
    | (simp; exact nn_nan)
    | exact nn_pinf

theorem nn_infTimes {x : ℝ} (hx : 0 ≤ x) : NN (infTimes x) := by
  unfold infTimes
  split
  · exact nn_nan
  · rename_i h
    rw [if_pos (lt_of_le_of_ne hx (Ne.symm h))]
    exact nn_pinf

theorem nn_mul {u v : Dbl} (hu : NN u) (hv : NN v) : NN (u * v) := by
  rcases nn_cases hu with rfl | rfl | ⟨x, hx, rfl⟩ <;> rcases nn_cases hv with rfl | rfl | ⟨y, hy, rfl⟩
  all_goals first
    | (rw [fin_mul]; exact nn_fin.2 (mul_nonneg hx hy))
    | (simp; exact nn_nan)
    | exact nn_pinf
    | exact nn_infTimes ‹_›

theorem nn_div {u v : Dbl} (hu : NN u) (hv : NN v) : NN (u / v) := by
  rcases nn_cases hu with rfl | rfl | ⟨x, hx, rfl⟩ <;> rcases nn_cases hv with rfl | rfl | ⟨y, hy, rfl⟩
  · simp; exact nn_nan
  · simp; exact nn_nan
  · simp; exact nn_nan
  · simp; exact nn_nan
  · exact nn_nan
  · rw [pinf_div_fin, if_neg (not_lt.2 hy)]; exact nn_pinf
  · simp; exact nn_nan
  · exact nn_fin.2 le_rfl
  · rw [fin_div]
    split
    · exact nn_infTimes hx
    · exact nn_fin.2 (div_nonneg hx hy)

theorem nn_of_le {v : Dbl} (h : (.fin 0 : Dbl) ≤ v) : NN v := by
  cases v with
  | fin x => exact nn_fin.2 ((fin_le _ _).1 h)
  | nan => exact nn_nan
  | pinf => exact nn_pinf
  | ninf => exact absurd h (not_fin_le_ninf _)

namespace Rounding

variable (R : Rounding)

theorem nn_round {v : Dbl} (h : NN v) : NN (apply R.rnd v) := by
  rcases nn_cases h with rfl | rfl | ⟨x, hx, rfl⟩
  · exact nn_nan
  · exact nn_pinf
  · have := R.mono _ _ hx
    rw [show R.rnd 0 = .fin 0 from R.rep_zero] at this
    exact nn_of_le this

/-- Finite values are numbers of the format. -/
def Rounded (v : Dbl) : Prop := ∀ x, v = .fin x → R.Rep x

theorem rounded_round (v : Dbl) : R.Rounded (apply R.rnd v) := by
  intro x h
  cases v with
  | fin y => exact R.idem y x h
  | nan => exact absurd h (by simp [apply])
  | pinf => exact absurd h (by simp [apply])
  | ninf => exact absurd h (by simp [apply])

theorem nn_quad {a b c fa fb fc : Dbl} (h : R.Ordered a c b) (ha : NN fa) (hb : NN fb) (hc : NN fc) :
    NN (quad R.arith a b fa fb fc) := by
  obtain ⟨x, y, z, rfl, rfl, rfl, h0, h1, h2, h3, -⟩ := h
  unfold quad
  have h4 : NN (R.arith.lit 4) := by
    have := R.lit_nat 4 (by norm_num)
    rw [show R.arith.lit 4 = .fin (4 : ℕ) from mod_cast this]
    exact nn_fin.2 (by norm_num)
  have h6 : NN (R.arith.lit 6) := by
    have := R.lit_nat 6 (by norm_num)
    rw [show R.arith.lit 6 = .fin (6 : ℕ) from mod_cast this]
    exact nn_fin.2 (by norm_num)
  have hw : NN ((.fin z : Dbl) - .fin x) := by rw [fin_sub]; exact nn_fin.2 (by linarith)
  exact R.nn_round (nn_mul (R.nn_round (nn_div (R.nn_round hw) h6))
    (R.nn_round (nn_add (R.nn_round (nn_add ha (R.nn_round (nn_mul h4 hc)))) hb)))

/-- The tolerance test, passed on finite values: the difference is at most the quantity compared with. -/
theorem passed {τ q : ℝ} {w : Dbl} (hτ : |τ| ≤ 1) (hq0 : 0 ≤ q) (hq : R.Rep q)
    (hneg : R.Rep (-q)) (h : R.arith.le (R.arith.abs w) (R.arith.abs (R.arith.mul (.fin τ) (.fin q)))) :
    ∃ x, w = .fin x ∧ |x| ≤ q := by
  have b := abs_le.1 hτ
  obtain ⟨p, ep, p1, p2, -⟩ := R.between hneg hq (show -q ≤ τ * q by nlinarith) (show τ * q ≤ q by nlinarith)
  rw [mul_apply, ep] at h
  have h' : w.abs ≤ Dbl.abs (.fin p) := h
  rw [abs_fin] at h'
  cases w with
  | fin x =>
    rw [abs_fin, fin_le] at h'
    exact ⟨x, rfl, h'.trans (abs_le.2 ⟨p1, p2⟩)⟩
  | nan => exact absurd h' (not_nan_le _)
  | pinf => exact absurd h' (not_pinf_le_fin _)
  | ninf => exact absurd h' (not_pinf_le_fin _)

/-- The sum after an accepted region. -/
theorem nn_accept {I q1 q2 : Dbl} {τ : ℝ} (hτ : |τ| ≤ 1) (hI : NN I) (h2 : NN q2) (rI : R.Rounded I) (r2 : R.Rounded q2)
    (h : R.arith.le (R.arith.abs (R.arith.sub q2 q1)) (R.arith.abs (R.arith.mul (.fin τ) q2)) ∨
      R.arith.le (R.arith.abs (R.arith.sub q2 q1)) (R.arith.abs (R.arith.mul (.fin τ) I))) :
    NN (R.arith.add (R.arith.add I q2) (R.arith.div (R.arith.sub q2 q1) (R.arith.lit 15))) := by
  have l15 : R.arith.lit 15 = .fin 15 := by
    have := R.lit_nat 15 (by norm_num)
    exact_mod_cast this
  rw [l15]
  have top : ∀ v : Dbl, NN (R.arith.add .pinf v) := by
    intro v
    show NN (apply R.rnd (.pinf + v))
    cases v <;> exact nn_pinf
  rcases nn_cases hI with rfl | rfl | ⟨i, hi, rfl⟩
  · have : R.arith.add (R.arith.add .nan q2) (R.arith.div (R.arith.sub q2 q1) (.fin 15)) = .nan := by
      show apply R.rnd (apply R.rnd (.nan + q2) + _) = _
      rw [nan_add]
      show apply R.rnd (.nan + _) = _
      rw [nan_add]; rfl
    rw [this]; exact nn_nan
  · rcases nn_cases h2 with rfl | rfl | ⟨y, hy, rfl⟩
    · have : R.arith.add (R.arith.add .pinf .nan) (R.arith.div (R.arith.sub .nan q1) (.fin 15)) = .nan := by
        show apply R.rnd (apply R.rnd (.pinf + .nan) + _) = _
        rw [add_nan]
        show apply R.rnd (.nan + _) = _
        rw [nan_add]; rfl
      rw [this]; exact nn_nan
    · exact top _
    · exact top _
  · rcases nn_cases h2 with rfl | rfl | ⟨y, hy, rfl⟩
    · have : R.arith.add (R.arith.add (.fin i) .nan) (R.arith.div (R.arith.sub .nan q1) (.fin 15)) = .nan := by
        show apply R.rnd (apply R.rnd (.fin i + .nan) + _) = _
        rw [add_nan]
        show apply R.rnd (.nan + _) = _
        rw [nan_add]; rfl
      rw [this]; exact nn_nan
    · exact top _
    · have ri := rI i rfl
      have ry := r2 y rfl
      have key : ∃ x, R.arith.sub (.fin y) q1 = .fin x ∧ |x| ≤ max y i := by
        rcases h with h | h
        · obtain ⟨x, e, hx⟩ := R.passed hτ hy ry (R.minus y ry) h
          exact ⟨x, e, hx.trans (le_max_left _ _)⟩
        · obtain ⟨x, e, hx⟩ := R.passed hτ hi ri (R.minus i ri) h
          exact ⟨x, e, hx.trans (le_max_right _ _)⟩
      obtain ⟨x, ex, hx⟩ := key
      have rx : R.Rep x := R.rounded_round ((.fin y : Dbl) - q1) x ex
      rw [ex, add_apply, div_apply _ (by norm_num)]
      have hm : R.Rep (max y i) := by
        rcases max_cases y i with ⟨e, -⟩ | ⟨e, -⟩ <;> rw [e] <;> assumption
      have hs : (.fin (max y i) : Dbl) ≤ R.rnd (i + y) := by
        have := R.mono (max y i) (i + y) (max_le (by linarith) (by linarith))
        rwa [show R.rnd (max y i) = .fin (max y i) from hm] at this
      obtain ⟨lo, hi'⟩ := abs_le.1 hx
      have m0 : 0 ≤ max y i := hy.trans (le_max_left _ _)
      obtain ⟨w, ew, w1, w2, -⟩ := R.between (R.minus _ hm) hm (show -max y i ≤ x / 15 by linarith) (show x / 15 ≤ max y i by linarith)
      rw [ew]
      cases es : R.rnd (i + y) with
      | fin s =>
        rw [es, fin_le] at hs
        rw [add_apply]
        refine nn_of_le ?_
        have := R.mono 0 (s + w) (by linarith)
        rwa [show R.rnd 0 = .fin 0 from R.rep_zero] at this
      | pinf => exact top _
      | nan => rw [es] at hs; exact absurd hs (not_le_nan _)
      | ninf => rw [es] at hs; exact absurd hs (not_fin_le_ninf _)

/-- What is known of a waiting region. -/
def Good (t : Region Dbl) : Prop :=
  R.Ordered t.a t.c t.b ∧ NN t.fa ∧ NN t.fb ∧ NN t.fc

/-- Invariant of the main loop. -/
def SignOk (s : LoopState Dbl) : Prop := (∀ t ∈ s.stack, R.Good t) ∧ NN s.integral ∧ R.Rounded s.integral

theorem nn_transformed {f : Dbl → Dbl} (hf : ∀ x, (.fin 0 : Dbl) ≤ x → NN (f x)) {t : Dbl} (ht : R.InUnit t) :
    NN (transformed R.arith f t) ∧ NN (transformedLeft R.arith f t) := by
  have h := hf _ (R.argument_ok ht)
  obtain ⟨x, rfl, x0, x1, hx⟩ := ht
  have hm : NN (R.arith.mul (.fin x) (.fin x)) := by
    show NN (apply R.rnd (.fin x * .fin x))
    exact R.nn_round (nn_mul (nn_fin.2 x0) (nn_fin.2 x0))
  refine ⟨R.nn_round (nn_div h hm), R.nn_round (nn_div h ?_)⟩
  split
  · rw [R.lit_one]; exact nn_fin.2 zero_le_one
  · exact hm

theorem failed_nan : R.arith.failed = .nan := rfl

theorem loopStep_sign {f : Dbl → Dbl} (hf : ∀ x, (.fin 0 : Dbl) ≤ x → NN (f x)) {τ : ℝ} (hτ : |τ| ≤ 1) (maxeval : ℕ)
    (s : LoopState Dbl) (hs : R.SignOk s) :
    (∀ s', loopStep R.arith f (.fin τ) maxeval s = .inl s' → R.SignOk s') ∧
    (∀ r, loopStep R.arith f (.fin τ) maxeval s = .inr r → NN r.integral) := by
  obtain ⟨stack, I, k, calls⟩ := s
  obtain ⟨hst, hI, rI⟩ := hs
  dsimp only at hst hI rI
  cases stack with
  | nil =>
    refine ⟨fun s' h => by simp [loopStep] at h, fun r h => ?_⟩
    simp only [loopStep, Sum.inr.injEq] at h
    subst h
    exact hI
  | cons t rest =>
    obtain ⟨ho, ha, hb, hc⟩ := hst t (by simp)
    have hrest : ∀ u ∈ rest, R.Good u := fun u hu => hst u (by simp [hu])
    have hl := R.geometry.left ho
    have hrt := R.geometry.right ho
    have hd := (R.nn_transformed hf (R.geometry.ends hl).2.1).1
    have he := (R.nn_transformed hf (R.geometry.ends hrt).2.1).1
    have gl : R.Good ⟨t.a, t.c, mid R.arith t.a t.c, t.fa, t.fc, transformed R.arith f (mid R.arith t.a t.c),
        quad R.arith t.a t.c t.fa t.fc (transformed R.arith f (mid R.arith t.a t.c))⟩ :=
      ⟨hl, ha, hc, hd⟩
    have gr : R.Good ⟨t.c, t.b, mid R.arith t.b t.c, t.fc, t.fb, transformed R.arith f (mid R.arith t.b t.c),
        quad R.arith t.c t.b t.fc t.fb (transformed R.arith f (mid R.arith t.b t.c))⟩ :=
      ⟨hrt, hc, hb, he⟩
    simp only [loopStep]
    constructor
    · intro s' h
      split at h
      · simp at h
      split at h
      · simp at h
      split at h
      · simp at h
      split at h
      · rename_i hacc
        rw [Sum.inl.injEq] at h
        subst h
        refine ⟨hrest, ?_, R.rounded_round _⟩
        exact R.nn_accept hτ hI (R.nn_round (nn_add (R.nn_quad hl ha hc hd) (R.nn_quad hrt hc hb he))) rI (R.rounded_round _) hacc
      split at h
      · rw [Sum.inl.injEq] at h
        subst h
        refine ⟨fun u hu => ?_, hI, rI⟩
        simp only [List.mem_cons] at hu
        rcases hu with rfl | rfl | hu
        · exact gl
        · exact gr
        · exact hrest u hu
      · rw [Sum.inl.injEq] at h
        subst h
        refine ⟨fun u hu => ?_, hI, rI⟩
        simp only [List.mem_cons] at hu
        rcases hu with rfl | rfl | hu
        · exact gr
        · exact gl
        · exact hrest u hu
    · intro r h
      split at h
      · rw [Sum.inr.injEq] at h; subst h; exact nn_nan
      split at h
      · rw [Sum.inr.injEq] at h; subst h; exact nn_nan
      split at h
      · rw [Sum.inr.injEq] at h; subst h; exact nn_nan
      split at h
      · simp at h
      split at h <;> simp at h

end Rounding

end Slat.MaqF
