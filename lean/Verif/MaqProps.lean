import Verif.MaqLoop
import Mathlib.Analysis.SpecialFunctions.Integrals.Basic
import Mathlib.Topology.Algebra.Polynomial

/-!
# C30–C34: the adaptive quadrature
-/

namespace Slat.Maq

open Dbl

noncomputable section

/-! ### C30: termination and budget -/

theorem loopStep_counter (f : Dbl → Dbl) (tol : Dbl) (maxeval m : ℕ) (s : LoopState)
    (hm : maxeval < 2 ^ 32 - 1) (hm' : m < 2 ^ 32 - 1) (h1 : s.counter ≤ max maxeval m)
    (h2 : s.calls + m = 2 * s.counter) (h3 : m ≤ s.counter) :
    (∀ s', loopStep f tol maxeval s = .inl s' → s'.counter ≤ max maxeval m ∧ s'.calls + m = 2 * s'.counter ∧
      m ≤ s'.counter ∧ s'.counter = s.counter + 1 ∧ s'.counter ≤ maxeval) ∧
    (∀ r, loopStep f tol maxeval s = .inr r → r.result.evals ≤ max (maxeval + 1) (m + 1) ∧
      r.calls ≤ max (2 * maxeval) m) := by
  obtain ⟨stack, I, k, calls⟩ := s
  simp only at h1 h2 h3
  have hk : inc32 k = k + 1 := by unfold inc32; omega
  cases stack with
  | nil =>
    refine ⟨fun s' h => by simp [loopStep] at h, fun r h => ?_⟩
    simp only [loopStep, Sum.inr.injEq] at h
    subst h
    dsimp only
    omega
  | cons t rest =>
    simp only [loopStep, hk]
    constructor
    · intro s' h
      split at h
      · simp at h
      split at h
      · simp at h
      split at h
      · simp at h
      split at h
      · simp only [Sum.inl.injEq] at h; subst h; dsimp only; omega
      split at h
      · simp only [Sum.inl.injEq] at h; subst h; dsimp only; omega
      · simp only [Sum.inl.injEq] at h; subst h; dsimp only; omega
    · intro r h
      split at h
      · simp only [Sum.inr.injEq] at h; subst h; dsimp only; omega
      split at h
      · simp only [Sum.inr.injEq] at h; subst h; dsimp only; omega
      split at h
      · simp only [Sum.inr.injEq] at h; subst h; dsimp only; omega
      split at h
      · simp at h
      split at h <;> simp at h

/-- **C30** For every integrand, tolerance and search method, and limits that leave room in the 32-bit counter, a
call returns; the number of evaluations it reports is at most one more than the evaluation limit (or than what
the search used, plus three), and the integrand is evaluated at most twice as often. -/
theorem maq_terminates (f : Dbl → Dbl) (cfg : Cfg) (hs : 2 * cfg.bineval + 5 < 2 ^ 32 - 1)
    (hm : cfg.maxeval < 2 ^ 32 - 1) :
    ∃ rep, Returns f cfg rep ∧ rep.result.evals ≤ max (cfg.maxeval + 1) (2 * cfg.bineval + 6) ∧
      rep.calls ≤ max (2 * cfg.maxeval) (2 * cfg.bineval + 5) := by
  obtain ⟨r, h1, h2⟩ := search_ok f cfg.method cfg.bineval
  cases r with
  | nothing n =>
    have : n ≤ 2 * cfg.bineval + 2 := h2.2
    refine ⟨⟨.searchFail, ⟨0, true, n⟩, n⟩, ⟨cfg.bineval + 2, fun fuel hf => ?_⟩, by dsimp only; omega,
      by dsimp only; omega⟩
    simp only [maq, h1 fuel hf, Option.bind_some, integrate]
  | bracket a b n =>
    obtain ⟨hab, hn, hn'⟩ := h2
    have key : ∀ fuel, cfg.bineval + 2 ≤ fuel →
        maq f cfg fuel = integrate f cfg.tol cfg.maxeval (.bracket a b n) fuel := by
      intro fuel hf
      simp only [maq, h1 fuel hf, Option.bind_some]
    by_cases ha : isNaN (onUnit f a)
    · refine ⟨⟨.nan, ⟨.nan, false, n⟩, n + 2⟩, ⟨cfg.bineval + 2, fun fuel hf => ?_⟩, by dsimp only; omega,
        by dsimp only; omega⟩
      rw [key fuel hf, integrate_bracket f _ _ hab, if_pos ha]
    by_cases hb : isNaN (onUnit f b)
    · refine ⟨⟨.nan, ⟨.nan, false, n⟩, n + 2⟩, ⟨cfg.bineval + 2, fun fuel hf => ?_⟩, by dsimp only; omega,
        by dsimp only; omega⟩
      rw [key fuel hf, integrate_bracket f _ _ hab, if_neg ha, if_pos hb]
    by_cases hc : isNaN (onUnit f ((a + b) / 2))
    · refine ⟨⟨.nan, ⟨.nan, false, n⟩, n + 3⟩, ⟨cfg.bineval + 2, fun fuel hf => ?_⟩, by dsimp only; omega,
        by dsimp only; omega⟩
      rw [key fuel hf, integrate_bracket f _ _ hab, if_neg ha, if_neg hb, if_pos hc]
    have h32 : (n + 3) % 2 ^ 32 = n + 3 := Nat.mod_eq_of_lt (by omega)
    set s₀ : LoopState := ⟨[⟨a, b, (a + b) / 2, onUnit f a, onUnit f b, onUnit f ((a + b) / 2),
          quad a b (onUnit f a) (onUnit f b) (onUnit f ((a + b) / 2))⟩], 0, (n + 3) % 2 ^ 32, n + 3⟩ with hs₀
    let I : LoopState → Prop := fun s =>
      s.counter ≤ max cfg.maxeval (n + 3) ∧ s.calls + (n + 3) = 2 * s.counter ∧ n + 3 ≤ s.counter
    have hI : I s₀ := ⟨by simp only [hs₀, h32]; omega, by simp only [hs₀, h32]; omega, by simp only [hs₀, h32]; omega⟩
    obtain ⟨rep, hr⟩ := iter_terminates (step := loopStep f cfg.tol cfg.maxeval) I
      (fun s => cfg.maxeval - s.counter) (fun s s' hs' h => by
        obtain ⟨i1, i2, i3⟩ := hs'
        obtain ⟨j1, j2, j3, j4, j5⟩ :=
          (loopStep_counter f cfg.tol cfg.maxeval (n + 3) s hm (by omega) i1 i2 i3).1 s' h
        exact ⟨⟨j1, j2, j3⟩, by omega⟩) hI
    have hpost := iter_inv (step := loopStep f cfg.tol cfg.maxeval) I
      (fun r => r.result.evals ≤ max (cfg.maxeval + 1) (n + 3 + 1) ∧ r.calls ≤ max (2 * cfg.maxeval) (n + 3))
      (fun s s' hs' h => by
        obtain ⟨i1, i2, i3⟩ := hs'
        obtain ⟨j1, j2, j3, -⟩ :=
          (loopStep_counter f cfg.tol cfg.maxeval (n + 3) s hm (by omega) i1 i2 i3).1 s' h
        exact ⟨j1, j2, j3⟩)
      (fun s r hs' h => by
        obtain ⟨i1, i2, i3⟩ := hs'
        exact (loopStep_counter f cfg.tol cfg.maxeval (n + 3) s hm (by omega) i1 i2 i3).2 r h) hI hr
    refine ⟨rep, ⟨max (cfg.bineval + 2) (cfg.maxeval - s₀.counter + 1), fun fuel hf => ?_⟩, by omega, by omega⟩
    rw [key fuel (by omega), integrate_bracket f _ _ hab, if_neg ha, if_neg hb, if_neg hc]
    exact iter_mono hr (by omega)

/-- The default limits. -/
example (f : Dbl → Dbl) (m : Method) : ∃ rep, Returns f ⟨.fin (1 / 1000), 2048, 2048, m⟩ rep ∧
    rep.result.evals ≤ 4102 ∧ rep.calls ≤ 4101 := by
  obtain ⟨rep, h1, h2, h3⟩ := maq_terminates f ⟨.fin (1 / 1000), 2048, 2048, m⟩ (by norm_num) (by norm_num)
  exact ⟨rep, h1, by simpa using h2, by simpa using h3⟩

/-- A search that starts at a visible value keeps the whole range. -/
theorem finds_unit (f : Dbl → Dbl) (m : Method) (lim : ℕ)
    (h : ¬ (f (.fin 0) ≤ .fin eps ∧ f (.fin 1) ≤ .fin eps)) (fuel : ℕ) :
    search f m lim fuel = some (.bracket 0 1 2) := by
  have e1 : xFromT 1 = .fin 0 := by simp [xFromT]
  have e2 : xFromT (1 / 2) = .fin 1 := by norm_num [xFromT]
  have e3 : bracketOf (1 / 2) = (0, 1) := by norm_num [bracketOf]
  cases m <;>
    simp only [search, binarySubdivision, reverseSubdivision, lowFirstSubdivision, scatteredSearch, directedSearch,
      e1, e2, e3, if_neg h]

/-- **C30, what fails**: with the largest limit the counter can never exceed it, and a call on a constant (hence not
integrable) integrand never returns. -/
theorem unbounded_limit_fails (m : Method) (lim : ℕ) (fuel : ℕ) :
    maq (fun _ => .fin 1) ⟨.fin (1 / 1000), 2 ^ 32 - 1, lim, m⟩ fuel = none := by
  have he : eps < 1 := by norm_num [eps]
  simp only [maq]
  rw [finds_unit _ m lim (by simp [he])]
  simp only [Option.bind_some]
  have h0 : onUnit (fun _ => .fin 1) 0 = .fin 1 := by simp [onUnit, fin_div]
  have hp : ∀ t : ℝ, 0 < t → onUnit (fun _ => .fin 1) t = .fin (1 / t ^ 2) := by
    intro t ht
    rw [onUnit, if_neg ht.ne', fin_div_of_ne (by positivity), ← sq]
  rw [integrate_bracket _ _ _ valid_unit, if_neg (by simp [h0]), if_neg (by simp [hp]),
    if_neg (by rw [hp _ (by norm_num)]; simp)]
  have key : ∀ fuel (s : LoopState), (∃ h rest, 0 < h ∧ h ≤ 1 ∧ s.integral = 0 ∧
      s.stack = ⟨0, h, h / 2, .fin 1, onUnit (fun _ => .fin 1) h, onUnit (fun _ => .fin 1) (h / 2),
        est1 (onUnit (fun _ => .fin 1)) (0, h)⟩ :: rest) →
      iter (loopStep (fun _ => .fin 1) (.fin (1 / 1000)) (2 ^ 32 - 1)) fuel s = none := by
    intro fuel
    induction fuel with
    | zero => intro s _; rfl
    | succ fuel ih =>
      rintro ⟨stack, I, k, calls⟩ ⟨h, rest, hh, hle, hI, hst⟩
      simp only at hI hst
      subst hI hst
      have hreg : RegionOk (onUnit (fun _ => .fin 1)) ⟨0, h, h / 2, .fin 1, onUnit (fun _ => .fin 1) h,
          onUnit (fun _ => .fin 1) (h / 2), est1 (onUnit (fun _ => .fin 1)) (0, h)⟩ :=
        ⟨le_rfl, hh, by dsimp only; ring, h0.symm, rfl, rfl, rfl, by simp [h0], by simp [hp h hh],
          by simp [hp (h / 2) (by linarith)]⟩
      have q1 : est1 (onUnit (fun _ => .fin 1)) (0, h) = .fin (h / 6 + 17 / 6 / h) := by
        simp only [est1, h0, zero_add, hp h hh, hp (h / 2) (by linarith), fin_mul, fin_add]
        congr 1; field_simp; ring
      have q2 : est1 (onUnit (fun _ => .fin 1)) (0, h / 2) = .fin (h / 12 + 17 / 3 / h) := by
        simp only [est1, h0, zero_add, hp (h / 2) (by linarith), hp (h / 2 / 2) (by linarith), fin_mul, fin_add]
        congr 1; field_simp; ring
      have q3 : est1 (onUnit (fun _ => .fin 1)) (h / 2, h) = .fin (109 / 108 / h) := by
        simp only [est1, hp h hh, hp (h / 2) (by linarith), hp ((h / 2 + h) / 2) (by linarith), fin_mul, fin_add]
        congr 1; field_simp; ring
      have q4 : est2 (onUnit (fun _ => .fin 1)) (0, h) = .fin (h / 12 + 721 / 108 / h) := by
        simp only [est2, zero_add, q2, q3, fin_add]
        congr 1; ring
      have hi : 0 < 1 / h := by positivity
      have hpass : ¬ Passes (onUnit (fun _ => .fin 1)) (.fin (1 / 1000)) 0 (0, h) := by
        simp only [Passes, q1, q4, fin_sub, fin_mul, abs_fin, fin_le, zero_def, mul_zero, abs_zero]
        have e : h / 12 + 721 / 108 / h - (h / 6 + 17 / 6 / h) = 415 / 108 * (1 / h) - h / 12 := by ring
        rw [e]
        have hh1 : h ≤ 1 / h := by rw [le_div_iff₀ hh]; nlinarith
        rw [abs_of_pos (by linarith), abs_of_pos (by
          have : 721 / 108 / h = 721 / 108 * (1 / h) := by ring
          rw [this]; nlinarith)]
        have e2 : 721 / 108 / h = 721 / 108 * (1 / h) := by ring
        rw [e2]
        rintro (h' | h') <;> nlinarith
      simp only [iter]
      rw [loopStep_eq _ _ _ _ _ _ _ _ hreg]
      rw [if_neg (by simp only [inc32, not_lt, gt_iff_lt]; omega),
        if_neg (by simp only [zero_add]; rw [hp _ (by linarith)]; simp),
        if_neg (by rw [hp _ (by simp only; linarith)]; simp), if_neg (by exact hpass),
        if_pos (by
          simp only [q2, q3, abs_fin, fin_lt]
          have e2 : 109 / 108 / h = 109 / 108 * (1 / h) := by ring
          have e3 : 17 / 3 / h = 17 / 3 * (1 / h) := by ring
          rw [e2, e3, abs_of_pos (by positivity), abs_of_pos (by positivity)]
          linarith)]
      exact ih _ ⟨h / 2, _, by linarith, by linarith, rfl, by simp only [zero_add]; rfl⟩
  refine key fuel _ ⟨1, [], one_pos, le_rfl, rfl, ?_⟩
  simp only [zero_add, ← quad_eq]
  simp only [h0]

/-! ### C31: a successful integral is a composite rule -/

/-- The transformed integrand as a real function, given the integrand's values and its value at infinity. -/
def transform (φ : ℝ → ℝ) (φinf : ℝ) (t : ℝ) : ℝ := if t = 0 then φinf else φ (1 / t - 1) / t ^ 2

/-- Simpson's rule. -/
def simpson (g : ℝ → ℝ) (p : ℝ × ℝ) : ℝ := (p.2 - p.1) / 6 * (g p.1 + 4 * g ((p.1 + p.2) / 2) + g p.2)

/-- Simpson's rule on both halves. -/
def simpson2 (g : ℝ → ℝ) (p : ℝ × ℝ) : ℝ := simpson g (p.1, (p.1 + p.2) / 2) + simpson g ((p.1 + p.2) / 2, p.2)

/-- Boole's five-point rule. -/
def boole (g : ℝ → ℝ) (p : ℝ × ℝ) : ℝ :=
  (p.2 - p.1) / 90 * (7 * g p.1 + 32 * g (p.1 + (p.2 - p.1) / 4) + 12 * g ((p.1 + p.2) / 2) +
    32 * g (p.1 + 3 * (p.2 - p.1) / 4) + 7 * g p.2)

/-- Composite Boole rule. -/
def composite (g : ℝ → ℝ) (l : List (ℝ × ℝ)) : ℝ := (l.map (boole g)).sum

theorem onUnit_eq {f : Dbl → Dbl} {φ : ℝ → ℝ} {φinf : ℝ} (hf : ∀ x, 0 ≤ x → f (.fin x) = .fin (φ x))
    (hinf : f .pinf = .fin φinf) {t : ℝ} (h0 : 0 ≤ t) (h1 : t ≤ 1) : onUnit f t = .fin (transform φ φinf t) := by
  unfold onUnit transform
  split
  · rw [hinf, fin_div_of_ne one_ne_zero, div_one]
  · rename_i ht
    have ht : 0 < t := lt_of_le_of_ne h0 (Ne.symm ht)
    have : 0 ≤ 1 / t - 1 := by
      rw [sub_nonneg, le_div_iff₀ ht]; linarith
    rw [hf _ this, fin_div_of_ne (by positivity), sq]

theorem est1_fin {F : ℝ → Dbl} {g : ℝ → ℝ} {a b : ℝ} (hF : ∀ t, a ≤ t → t ≤ b → F t = .fin (g t)) {p : ℝ × ℝ}
    (h1 : a ≤ p.1) (h2 : p.1 < p.2) (h3 : p.2 ≤ b) : est1 F p = .fin (simpson g p) := by
  unfold est1 simpson
  rw [hF p.1 h1 (by linarith), hF p.2 (by linarith) h3, hF _ (by linarith) (by linarith)]
  simp only [fin_mul, fin_add]

theorem est2_fin {F : ℝ → Dbl} {g : ℝ → ℝ} {a b : ℝ} (hF : ∀ t, a ≤ t → t ≤ b → F t = .fin (g t)) {p : ℝ × ℝ}
    (h1 : a ≤ p.1) (h2 : p.1 < p.2) (h3 : p.2 ≤ b) : est2 F p = .fin (simpson2 g p) := by
  unfold est2 simpson2
  rw [est1_fin hF (by dsimp only; linarith) (by dsimp only; linarith) (by dsimp only; linarith),
    est1_fin hF (by dsimp only; linarith) (by dsimp only; linarith) (by dsimp only; linarith), fin_add]

theorem extrapolated (g : ℝ → ℝ) (p : ℝ × ℝ) :
    simpson2 g p + (simpson2 g p - simpson g p) / 15 = boole g p := by
  obtain ⟨u, v⟩ := p
  simp only [simpson2, simpson, boole]
  have e1 : (u + (u + v) / 2) / 2 = u + (v - u) / 4 := by ring
  have e2 : ((u + v) / 2 + v) / 2 = u + 3 * (v - u) / 4 := by ring
  rw [e1, e2]
  ring

theorem total_fin {F : ℝ → Dbl} {g : ℝ → ℝ} {a b : ℝ} (hF : ∀ t, a ≤ t → t ≤ b → F t = .fin (g t))
    (l : List (ℝ × ℝ)) (hl : ∀ p ∈ l, a ≤ p.1 ∧ p.1 < p.2 ∧ p.2 ≤ b) : total F l = .fin (composite g l) := by
  induction l using List.reverseRecOn with
  | nil => simp [total, composite]
  | append_singleton l p ih =>
    obtain ⟨h1, h2, h3⟩ := hl p (by simp)
    rw [total_append, ih (fun q hq => hl q (by simp [hq])), est1_fin hF h1 h2 h3, est2_fin hF h1 h2 h3,
      fin_sub, fin_div_of_ne (by norm_num), fin_add, fin_add, add_assoc, extrapolated]
    simp [composite]

/-- **C31** When an integrand with finite values is integrated successfully (the search having found something), the
integral is the composite Boole rule for the transformed integrand over intervals that tile the bracket exactly;
every interval passed the error test with respect to its own estimate or to what had been accumulated before;
and the number of evaluations reported is that of the search plus two plus two per interval. -/
theorem success_is_composite (f : Dbl → Dbl) (φ : ℝ → ℝ) (φinf τ : ℝ)
    (hf : ∀ x, 0 ≤ x → f (.fin x) = .fin (φ x)) (hinf : f .pinf = .fin φinf) (cfg : Cfg) (hτ : cfg.tol = .fin τ)
    (rep : Report) (h : Returns f cfg rep) (hs : rep.result.successful = true) (ho : rep.outcome ≠ .searchFail) :
    ∃ a b n, Finds f cfg (.bracket a b n) ∧ 0 ≤ a ∧ a < b ∧ b ≤ 1 ∧
    ∃ accepted leaves : List (ℝ × ℝ), Tiles a b leaves ∧ leaves.Perm accepted ∧
      rep.result.integral = .fin (composite (transform φ φinf) accepted) ∧
      (∀ l₁ p l₂, accepted = l₁ ++ p :: l₂ →
        |simpson2 (transform φ φinf) p - simpson (transform φ φinf) p| ≤ |τ * simpson2 (transform φ φinf) p| ∨
        |simpson2 (transform φ φinf) p - simpson (transform φ φinf) p| ≤ |τ * composite (transform φ φinf) l₁|) ∧
      rep.result.evals = (n + 2 + 2 * accepted.length) % 2 ^ 32 := by
  rcases maq_cases f cfg rep h with ⟨n, -, rfl⟩ | ⟨a, b, n, h1, h2, h3⟩
  · exact absurd rfl ho
  · rcases h3 with ⟨-, -, done, leaves, g1, g2, g3, g4, g5, g6, g7⟩ | ⟨h4, -⟩
    · obtain ⟨⟨b1, b2, b3⟩, -⟩ := h2
      have hF : ∀ t, a ≤ t → t ≤ b → onUnit f t = .fin (transform φ φinf t) :=
        fun t ht ht' => onUnit_eq hf hinf (by linarith) (by linarith)
      have hmem : ∀ p ∈ done, a ≤ p.1 ∧ p.1 < p.2 ∧ p.2 ≤ b := fun p hp => g1.mem (g2.mem_iff.2 hp)
      refine ⟨a, b, n, h1, b1, b2, b3, done, leaves, g1, g2, ?_, ?_, g6⟩
      · rw [g3, total_fin hF done hmem]
      · intro l₁ p l₂ hl
        have := g4 l₁ p l₂ hl
        obtain ⟨k1, k2, k3⟩ := hmem p (by simp [hl])
        rw [Passes, est1_fin hF k1 k2 k3, est2_fin hF k1 k2 k3,
          total_fin hF l₁ (fun q hq => hmem q (by simp [hl, hq])), hτ] at this
        simpa using this
    · rw [hs] at h4; cases h4

/-! ### C32: positivity -/

/-- **C32** For an integrand that is finite and non-negative, a successful integral is a non-negative number. -/
theorem nonneg_integral (f : Dbl → Dbl) (φ : ℝ → ℝ) (φinf τ : ℝ) (hf : ∀ x, 0 ≤ x → f (.fin x) = .fin (φ x))
    (hinf : f .pinf = .fin φinf) (hpos : ∀ x, 0 ≤ x → 0 ≤ φ x) (hpinf : 0 ≤ φinf) (cfg : Cfg)
    (hτ : cfg.tol = .fin τ) (rep : Report) (h : Returns f cfg rep) (hs : rep.result.successful = true) :
    ∃ v : ℝ, 0 ≤ v ∧ rep.result.integral = .fin v := by
  by_cases ho : rep.outcome = .searchFail
  · rcases maq_cases f cfg rep h with ⟨n, -, rfl⟩ | ⟨a, b, n, -, -, ⟨-, h4, -⟩ | ⟨-, -, h4 | h4⟩⟩
    · exact ⟨0, le_rfl, rfl⟩
    all_goals rw [ho] at h4; cases h4
  · obtain ⟨a, b, n, -, h1, h2, h3, acc, leaves, h4, h5, h6, -⟩ :=
      success_is_composite f φ φinf τ hf hinf cfg hτ rep h hs ho
    refine ⟨_, ?_, h6⟩
    apply List.sum_nonneg
    simp only [List.mem_map, forall_exists_index, and_imp]
    rintro _ p hp rfl
    obtain ⟨k1, k2, k3⟩ := h4.mem (h5.mem_iff.2 hp)
    have hg : ∀ t, a ≤ t → t ≤ b → 0 ≤ transform φ φinf t := by
      intro t ht ht'
      unfold transform
      split
      · exact hpinf
      · rename_i h0
        have ht0 : 0 < t := lt_of_le_of_ne (by linarith) (Ne.symm h0)
        refine div_nonneg (hpos _ ?_) (by positivity)
        rw [sub_nonneg, le_div_iff₀ ht0]; linarith
    have e1 := hg p.1 k1 (by linarith)
    have e2 := hg (p.1 + (p.2 - p.1) / 4) (by linarith) (by linarith)
    have e3 := hg ((p.1 + p.2) / 2) (by linarith) (by linarith)
    have e4 := hg (p.1 + 3 * (p.2 - p.1) / 4) (by linarith) (by linarith)
    have e5 := hg p.2 (by linarith) k3
    unfold boole
    apply mul_nonneg (by linarith)
    linarith

/-! ### C33: exactness -/

theorem boole_exact (p : Polynomial ℝ) (hp : p.natDegree ≤ 5) {g : ℝ → ℝ} {u v : ℝ} (huv : u < v)
    (hg : ∀ t, u ≤ t → t ≤ v → g t = p.eval t) : boole g (u, v) = ∫ t in u..v, p.eval t := by
  have ev : ∀ t, p.eval t = p.coeff 0 + p.coeff 1 * t + p.coeff 2 * t ^ 2 + p.coeff 3 * t ^ 3 + p.coeff 4 * t ^ 4 +
      p.coeff 5 * t ^ 5 := by
    intro t
    rw [Polynomial.eval_eq_sum_range' (show p.natDegree < 6 by omega)]
    simp [Finset.sum_range_succ]
  have hint : ∫ t in u..v, p.eval t = p.coeff 0 * (v - u) + p.coeff 1 * ((v ^ 2 - u ^ 2) / 2) +
      p.coeff 2 * ((v ^ 3 - u ^ 3) / 3) + p.coeff 3 * ((v ^ 4 - u ^ 4) / 4) + p.coeff 4 * ((v ^ 5 - u ^ 5) / 5) +
      p.coeff 5 * ((v ^ 6 - u ^ 6) / 6) := by
    have : ∀ t, HasDerivAt (fun t => p.coeff 0 * t + p.coeff 1 * (t ^ 2 / 2) + p.coeff 2 * (t ^ 3 / 3) +
        p.coeff 3 * (t ^ 4 / 4) + p.coeff 4 * (t ^ 5 / 5) + p.coeff 5 * (t ^ 6 / 6)) (p.eval t) t := by
      intro t
      have h1 := (hasDerivAt_id t).const_mul (p.coeff 0)
      have h2 := ((hasDerivAt_pow 2 t).div_const 2).const_mul (p.coeff 1)
      have h3 := ((hasDerivAt_pow 3 t).div_const 3).const_mul (p.coeff 2)
      have h4 := ((hasDerivAt_pow 4 t).div_const 4).const_mul (p.coeff 3)
      have h5 := ((hasDerivAt_pow 5 t).div_const 5).const_mul (p.coeff 4)
      have h6 := ((hasDerivAt_pow 6 t).div_const 6).const_mul (p.coeff 5)
      refine (((((h1.add h2).add h3).add h4).add h5).add h6).congr_deriv ?_
      rw [ev]
      norm_num
    rw [intervalIntegral.integral_eq_sub_of_hasDerivAt (fun t _ => this t)
      (p.continuous.intervalIntegrable _ _)]
    ring
  rw [hint]
  simp only [boole]
  rw [hg u le_rfl huv.le, hg v huv.le le_rfl, hg _ (by linarith) (by linarith), hg _ (by linarith) (by linarith),
    hg _ (by linarith) (by linarith)]
  simp only [ev]
  ring

theorem composite_exact (p : Polynomial ℝ) (hp : p.natDegree ≤ 5) {g : ℝ → ℝ} {l : List (ℝ × ℝ)} {a b : ℝ}
    (h : Tiles a b l) (hg : ∀ t, a ≤ t → t ≤ b → g t = p.eval t) : composite g l = ∫ t in a..b, p.eval t := by
  induction l generalizing a with
  | nil =>
    cases h
    simp [composite]
  | cons q l ih =>
    obtain ⟨u, v⟩ := q
    obtain ⟨rfl, h2, h3⟩ := h
    have := ih h3 (fun t ht ht' => hg t (by linarith) ht')
    simp only [composite, List.map_cons, List.sum_cons] at this ⊢
    rw [this, boole_exact p hp h2 (fun t ht ht' => hg t ht (by linarith [h3.le])),
      intervalIntegral.integral_add_adjacent_intervals (p.continuous.intervalIntegrable _ _)
        (p.continuous.intervalIntegrable _ _)]

/-- **C33** If the transformed integrand agrees on the bracket with a polynomial of degree at most five, a
successful integral is the exact integral over the bracket, whatever the tolerance. -/
theorem exact_for_quintics (f : Dbl → Dbl) (φ : ℝ → ℝ) (φinf τ : ℝ) (hf : ∀ x, 0 ≤ x → f (.fin x) = .fin (φ x))
    (hinf : f .pinf = .fin φinf) (cfg : Cfg) (hτ : cfg.tol = .fin τ) (p : Polynomial ℝ) (hp : p.natDegree ≤ 5)
    (a b : ℝ) (n : ℕ) (hb : Finds f cfg (.bracket a b n))
    (hg : ∀ t, a ≤ t → t ≤ b → transform φ φinf t = p.eval t)
    (rep : Report) (h : Returns f cfg rep) (hs : rep.result.successful = true) :
    rep.result.integral = .fin (∫ t in a..b, p.eval t) := by
  have huniq : ∀ r, Finds f cfg r → r = .bracket a b n := by
    rintro r ⟨N, hN⟩
    obtain ⟨M, hM⟩ := hb
    have := (hN (max N M) (le_max_left _ _)).symm.trans (hM (max N M) (le_max_right _ _))
    simpa using this
  have ho : rep.outcome ≠ .searchFail := by
    rcases maq_cases f cfg rep h with ⟨n, h1, rfl⟩ | ⟨a, b, n, -, -, ⟨-, h4, -⟩ | ⟨-, -, h4 | h4⟩⟩
    · exact absurd (huniq _ h1) (by simp)
    all_goals rw [h4]; simp
  obtain ⟨a', b', n', h1, h2, h3, h4, acc, leaves, h5, h6, h7, -⟩ :=
    success_is_composite f φ φinf τ hf hinf cfg hτ rep h hs ho
  have e := huniq _ h1
  simp only [SearchResult.bracket.injEq] at e
  obtain ⟨rfl, rfl, rfl⟩ := e
  rw [h7]
  congr 1
  rw [← composite_exact p hp h5 hg]
  exact ((h6.map _).sum_eq).symm

theorem simpson_exact_halves (p : Polynomial ℝ) (hp : p.natDegree ≤ 3) {g : ℝ → ℝ} {u v : ℝ} (huv : u < v)
    (hg : ∀ t, u ≤ t → t ≤ v → g t = p.eval t) : simpson2 g (u, v) = simpson g (u, v) := by
  have ev : ∀ t, p.eval t = p.coeff 0 + p.coeff 1 * t + p.coeff 2 * t ^ 2 + p.coeff 3 * t ^ 3 := by
    intro t
    rw [Polynomial.eval_eq_sum_range' (show p.natDegree < 4 by omega)]
    simp [Finset.sum_range_succ]
  simp only [simpson2, simpson]
  rw [hg u le_rfl huv.le, hg v huv.le le_rfl, hg _ (by linarith) (by linarith), hg _ (by linarith) (by linarith),
    hg _ (by linarith) (by linarith)]
  simp only [ev]
  ring

/-- **C33** If the transformed integrand agrees on the bracket with a cubic, the call succeeds in a single step
(four evaluations more than the search reports) with the exact integral, if the limit allows that step. -/
theorem exact_for_cubics (f : Dbl → Dbl) (φ : ℝ → ℝ) (φinf τ : ℝ) (hf : ∀ x, 0 ≤ x → f (.fin x) = .fin (φ x))
    (hinf : f .pinf = .fin φinf) (cfg : Cfg) (hτ : cfg.tol = .fin τ) (p : Polynomial ℝ) (hp : p.natDegree ≤ 3)
    (a b : ℝ) (n : ℕ) (hb : Finds f cfg (.bracket a b n)) (hn : n + 4 < 2 ^ 32) (hn' : n + 4 ≤ cfg.maxeval)
    (hg : ∀ t, a ≤ t → t ≤ b → transform φ φinf t = p.eval t) :
    Returns f cfg ⟨.success, ⟨.fin (∫ t in a..b, p.eval t), true, n + 4⟩, n + 5⟩ := by
  have hab : ValidBracket a b := by
    obtain ⟨r, h1, h2⟩ := search_ok f cfg.method cfg.bineval
    obtain ⟨M, hM⟩ := hb
    have := (h1 (max (cfg.bineval + 2) M) (le_max_left _ _)).symm.trans (hM _ (le_max_right _ _))
    simp only [Option.some.injEq] at this
    subst this
    exact h2.1
  obtain ⟨b1, b2, b3⟩ := id hab
  obtain ⟨M, hM⟩ := hb
  have hF : ∀ t, a ≤ t → t ≤ b → onUnit f t = .fin (transform φ φinf t) :=
    fun t ht ht' => onUnit_eq hf hinf (by linarith) (by linarith)
  refine ⟨max M 2, fun fuel hfuel => ?_⟩
  simp only [maq, hM fuel (by omega), Option.bind_some]
  have na := hF a le_rfl b2.le
  have nb := hF b b2.le le_rfl
  have nc := hF ((a + b) / 2) (by linarith) (by linarith)
  rw [integrate_bracket f _ _ hab, if_neg (by simp [na]), if_neg (by simp [nb]), if_neg (by simp [nc])]
  obtain ⟨m, rfl⟩ : ∃ m, fuel = m + 2 := ⟨fuel - 2, by omega⟩
  have hreg : RegionOk (onUnit f) ⟨a, b, (a + b) / 2, onUnit f a, onUnit f b, onUnit f ((a + b) / 2),
      quad a b (onUnit f a) (onUnit f b) (onUnit f ((a + b) / 2))⟩ :=
    ⟨b1, b2, rfl, rfl, rfl, rfl, rfl, by simp [na], by simp [nb], by simp [nc]⟩
  have h32 : (n + 3) % 2 ^ 32 = n + 3 := Nat.mod_eq_of_lt (by omega)
  have hinc : inc32 (n + 3) = n + 4 := by unfold inc32; omega
  have e1 := est1_fin hF (p := (a, b)) le_rfl b2 le_rfl
  have e2 := est2_fin hF (p := (a, b)) le_rfl b2 le_rfl
  have e3 := simpson_exact_halves p hp b2 hg
  have hpass : Passes (onUnit f) cfg.tol 0 (a, b) := by
    left
    rw [e1, e2, e3, hτ]
    simp only [fin_sub, sub_self, abs_fin, abs_zero, fin_mul, fin_le]
    positivity
  have hB : simpson (transform φ φinf) (a, b) = ∫ t in a..b, p.eval t := by
    rw [← boole_exact p (by omega) b2 hg, ← extrapolated, e3]; ring
  rw [h32]
  simp only [iter]
  rw [loopStep_eq _ _ _ _ _ _ _ _ hreg, hinc, if_neg (by simp only [gt_iff_lt, not_lt]; exact hn'),
    if_neg (by simp only; rw [hF _ (by linarith) (by linarith)]; simp),
    if_neg (by simp only; rw [hF _ (by linarith) (by linarith)]; simp), if_pos (by exact hpass)]
  simp only [loopStep, Region.iv, e1, e2, e3, hB, zero_def, fin_add, fin_sub, sub_self]
  rw [fin_div_of_ne (by norm_num), fin_add]
  simp

/-- The integrand `1/(1+x)^3` (0 at infinity): transformed, it is `t`.  Every method returns its integral over the
half line, 1/2, with six evaluations. -/
theorem inverse_cube (m : Method) : ∃ f : Dbl → Dbl, (∀ x, 0 ≤ x → f (.fin x) = .fin (1 / (1 + x) ^ 3)) ∧
    f .pinf = .fin 0 ∧
    Returns f ⟨.fin (1 / 1000), 2048, 2048, m⟩ ⟨.success, ⟨.fin (1 / 2), true, 6⟩, 7⟩ := by
  let f : Dbl → Dbl := fun x => match x with
    | .fin x => .fin (1 / (1 + x) ^ 3)
    | _ => .fin 0
  refine ⟨f, fun x _ => rfl, rfl, ?_⟩
  have hb : Finds f ⟨.fin (1 / 1000), 2048, 2048, m⟩ (.bracket 0 1 2) := by
    refine ⟨0, fun fuel _ => finds_unit f m 2048 ?_ fuel⟩
    simp only [f, fin_le, not_and_or, not_le]
    left
    norm_num [eps]
  have := exact_for_cubics f (fun x => 1 / (1 + x) ^ 3) 0 (1 / 1000) (fun x _ => rfl) rfl
    ⟨.fin (1 / 1000), 2048, 2048, m⟩ rfl Polynomial.X (by simp) 0 1 2 hb (by norm_num) (by norm_num) (by
      intro t h0 h1
      unfold transform
      split
      · simp_all
      · field_simp
        simp)
  have hi : ∫ t in (0 : ℝ)..1, (Polynomial.X : Polynomial ℝ).eval t = 1 / 2 := by
    simp
  rw [hi] at this
  exact this

/-- **C31, C32, C34, an instance**: `1/(1+x)^3` meets the hypotheses of `success_is_composite`, `nonneg_integral`
and `nan_iff_unsuccessful`. -/
example : ∃ (f : Dbl → Dbl) (φ : ℝ → ℝ) (rep : Report), (∀ x, 0 ≤ x → f (.fin x) = .fin (φ x)) ∧
    (∀ x, 0 ≤ x → 0 ≤ φ x) ∧ f .pinf = .fin 0 ∧ Returns f ⟨.fin (1 / 1000), 2048, 2048, .directed⟩ rep ∧
    rep.result.successful = true ∧ rep.outcome ≠ .searchFail ∧ rep.result.integral = .fin (1 / 2) := by
  obtain ⟨f, h1, h2, h3⟩ := inverse_cube .directed
  exact ⟨f, fun x => 1 / (1 + x) ^ 3, _, h1, fun x hx => by positivity, h2, h3, rfl, by simp, rfl⟩

/-! ### C34: NaN -/

/-- **C34** An unsuccessful result is always NaN; a successful one for an integrand with finite values is a number. -/
theorem nan_iff_unsuccessful (f : Dbl → Dbl) (φ : ℝ → ℝ) (φinf τ : ℝ) (hf : ∀ x, 0 ≤ x → f (.fin x) = .fin (φ x))
    (hinf : f .pinf = .fin φinf) (cfg : Cfg) (hτ : cfg.tol = .fin τ) (rep : Report) (h : Returns f cfg rep) :
    rep.result.integral = .nan ↔ rep.result.successful = false := by
  constructor
  · intro hn
    by_contra hs
    simp only [Bool.not_eq_false] at hs
    by_cases ho : rep.outcome = .searchFail
    · rcases maq_cases f cfg rep h with ⟨n, -, rfl⟩ | ⟨a, b, n, -, -, ⟨-, h4, -⟩ | ⟨-, -, h4 | h4⟩⟩
      · cases hn
      all_goals rw [ho] at h4; cases h4
    · obtain ⟨a, b, n, -, -, -, -, acc, leaves, -, -, h6, -⟩ :=
        success_is_composite f φ φinf τ hf hinf cfg hτ rep h hs ho
      rw [hn] at h6
      cases h6
  · intro hs
    rcases maq_cases f cfg rep h with ⟨n, -, rfl⟩ | ⟨a, b, n, -, -, ⟨h4, -⟩ | ⟨-, h4, -⟩⟩
    · cases hs
    · rw [hs] at h4; cases h4
    · exact h4

/-- **C34** For any integrand: a NaN met at any point used by the integration makes the call unsuccessful.  That is,
a call that succeeds after the search met no NaN at any of the five points of any of its intervals, and these
intervals tile the bracket. -/
theorem nan_never_hidden (f : Dbl → Dbl) (cfg : Cfg) (rep : Report) (h : Returns f cfg rep)
    (hs : rep.result.successful = true) (ho : rep.outcome ≠ .searchFail) :
    ∃ a b n, Finds f cfg (.bracket a b n) ∧ ∃ leaves, Tiles a b leaves ∧
      (∀ p ∈ leaves, ∀ t ∈ points p, ¬ isNaN (onUnit f t)) ∧
      rep.result.evals = (n + 2 + 2 * leaves.length) % 2 ^ 32 ∧ rep.calls = n + 1 + 4 * leaves.length := by
  rcases maq_cases f cfg rep h with ⟨n, -, rfl⟩ | ⟨a, b, n, h1, h2, h3⟩
  · exact absurd rfl ho
  · rcases h3 with ⟨-, -, done, leaves, g1, g2, g3, g4, g5, g6, g7⟩ | ⟨h4, -⟩
    · refine ⟨a, b, n, h1, leaves, g1, fun p hp => g5 p (g2.mem_iff.1 hp), ?_, ?_⟩
      · rw [g2.length_eq]; exact g6
      · rw [g2.length_eq]; omega
    · rw [hs] at h4; cases h4

open Classical in
/-- **C34, what fails**: infinite values of both signs can produce NaN with `successful` set.  The integrand is 1 at
0, infinite at 3/5, minus infinite at 7 and 0 elsewhere. -/
theorem infinite_values_fail (m : Method) : ∃ f : Dbl → Dbl, (∀ x, ¬ isNaN (f x)) ∧
    Returns f ⟨.fin (1 / 1000), 2048, 2048, m⟩ ⟨.success, ⟨.nan, true, 8⟩, 11⟩ := by
  let f : Dbl → Dbl := fun x =>
    if x = .fin 0 then .fin 1 else if x = .fin (3 / 5) then .pinf else if x = .fin 7 then .ninf else .fin 0
  have hnn : ∀ x, ¬ isNaN (f x) := by
    intro x
    simp only [f]
    split_ifs <;> simp
  refine ⟨f, hnn, 4, fun fuel hfuel => ?_⟩
  obtain ⟨k, rfl⟩ : ∃ k, fuel = k + 4 := ⟨fuel - 4, by omega⟩
  have hv : ∀ x, f (.fin x) = if x = 0 then .fin 1 else if x = 3 / 5 then .pinf else if x = 7 then .ninf else .fin 0 := by
    intro x; simp only [f, fin_inj]
  have F0 : onUnit f 0 = .fin 0 := by simp [onUnit, f, fin_div]
  have F1 : onUnit f (1 / 8) = .ninf := by simp only [onUnit, hv]; norm_num [ninf_div_fin]
  have F2 : onUnit f (1 / 4) = .fin 0 := by simp only [onUnit, hv]; norm_num [fin_div]
  have F3 : onUnit f (3 / 8) = .fin 0 := by simp only [onUnit, hv]; norm_num [fin_div]
  have F4 : onUnit f (1 / 2) = .fin 0 := by simp only [onUnit, hv]; norm_num [fin_div]
  have F5 : onUnit f (5 / 8) = .pinf := by simp only [onUnit, hv]; norm_num [pinf_div_fin]
  have F6 : onUnit f (3 / 4) = .fin 0 := by simp only [onUnit, hv]; norm_num [fin_div]
  have F7 : onUnit f (7 / 8) = .fin 0 := by simp only [onUnit, hv]; norm_num [fin_div]
  have F8 : onUnit f 1 = .fin 1 := by simp only [onUnit, hv]; norm_num [fin_div]
  have h01 : est1 (onUnit f) (0, 1) = .fin (1 / 6) := by
    simp only [est1, zero_add, F0, F4, F8, fin_mul, fin_add]; norm_num
  have h0h : est1 (onUnit f) (0, 1 / 2) = .fin 0 := by
    have e : (0 + 1 / 2 : ℝ) / 2 = 1 / 4 := by norm_num
    simp only [est1, e, F0, F2, F4, fin_mul, fin_add]; norm_num
  have hh1 : est1 (onUnit f) (1 / 2, 1) = .fin (1 / 12) := by
    have e : (1 / 2 + 1 : ℝ) / 2 = 3 / 4 := by norm_num
    simp only [est1, e, F4, F6, F8, fin_mul, fin_add]; norm_num
  have h34 : est1 (onUnit f) (1 / 2, 3 / 4) = .pinf := by
    have e : (1 / 2 + 3 / 4 : ℝ) / 2 = 5 / 8 := by norm_num
    have e4 : Dbl.fin 4 * .pinf = .pinf := by show infTimes 4 = _; norm_num [infTimes]
    have e5 : Dbl.fin ((3 / 4 - 1 / 2) / 6) * .pinf = .pinf := by
      show infTimes ((3 / 4 - 1 / 2) / 6) = _; norm_num [infTimes]
    simp only [est1, e, F4, F5, F6, e4, fin_add_pinf, pinf_add_fin, e5]
  have h341 : est1 (onUnit f) (3 / 4, 1) = .fin (1 / 24) := by
    have e : (3 / 4 + 1 : ℝ) / 2 = 7 / 8 := by norm_num
    simp only [est1, e, F6, F7, F8, fin_mul, fin_add]; norm_num
  have h014 : est1 (onUnit f) (0, 1 / 4) = .ninf := by
    have e : (0 + 1 / 4 : ℝ) / 2 = 1 / 8 := by norm_num
    have e4 : Dbl.fin 4 * .ninf = .ninf := by show neg (infTimes 4) = _; norm_num [infTimes]; rfl
    have e5 : Dbl.fin ((1 / 4 - 0) / 6) * .ninf = .ninf := by
      show neg (infTimes ((1 / 4 - 0) / 6)) = _; norm_num [infTimes]; rfl
    simp only [est1, e, F0, F1, F2, e4, fin_add_ninf, ninf_add_fin, e5]
  have h142 : est1 (onUnit f) (1 / 4, 1 / 2) = .fin 0 := by
    have e : (1 / 4 + 1 / 2 : ℝ) / 2 = 3 / 8 := by norm_num
    simp only [est1, e, F2, F3, F4, fin_mul, fin_add]; norm_num
  have t01 : est2 (onUnit f) (0, 1) = .fin (1 / 12) := by
    simp only [est2, zero_add, h0h, hh1, fin_add]
  have th1 : est2 (onUnit f) (1 / 2, 1) = .pinf := by
    have e : (1 / 2 + 1 : ℝ) / 2 = 3 / 4 := by norm_num
    simp only [est2, e, h34, h341, pinf_add_fin]
  have t0h : est2 (onUnit f) (0, 1 / 2) = .ninf := by
    have e : (0 + 1 / 2 : ℝ) / 2 = 1 / 4 := by norm_num
    simp only [est2, e, h014, h142, ninf_add_fin]
  have p01 : ¬ Passes (onUnit f) (.fin (1 / 1000)) (.fin 0) (0, 1) := by
    simp only [Passes, h01, t01, fin_sub, fin_mul, abs_fin, fin_le]
    norm_num
  have a1 : Dbl.abs .pinf = Dbl.pinf := rfl
  have a2 : Dbl.abs .ninf = Dbl.pinf := rfl
  have m1 : Dbl.fin (1 / 1000) * .pinf = .pinf := by show infTimes (1 / 1000) = _; norm_num [infTimes]
  have m2 : Dbl.fin (1 / 1000) * .ninf = .ninf := by
    show neg (infTimes (1 / 1000)) = _; norm_num [infTimes]; rfl
  have ph1 : Passes (onUnit f) (.fin (1 / 1000)) (.fin 0) (1 / 2, 1) := by
    left
    simp only [hh1, th1, pinf_sub_fin, m1, a1, pinf_le_pinf]
  have p0h : ∀ s, Passes (onUnit f) (.fin (1 / 1000)) s (0, 1 / 2) := by
    intro s
    left
    simp only [h0h, t0h, ninf_sub_fin, m2, a2, pinf_le_pinf]
  simp only [maq]
  rw [finds_unit f m 2048 (by simp only [hv]; norm_num [eps])]
  simp only [Option.bind_some]
  rw [integrate_bracket f _ _ valid_unit, zero_add, F0, F4, F8]
  simp only [isNaN_fin, if_false]
  have hq : quad 0 1 (.fin 0) (.fin 1) (.fin 0) = est1 (onUnit f) (0, 1) := by
    rw [← quad_eq, F0, F8, zero_add, F4]
  rw [hq]
  have i1 : inc32 5 = 6 := by norm_num [inc32]
  have i2 : inc32 6 = 7 := by norm_num [inc32]
  have i3 : inc32 7 = 8 := by norm_num [inc32]
  have c0 : (2 + 3) % 2 ^ 32 = 5 := by norm_num
  rw [c0]
  -- first iteration: split
  simp only [iter]
  rw [loopStep_eq f _ _ ⟨0, 1, 1 / 2, .fin 0, .fin 1, .fin 0, est1 (onUnit f) (0, 1)⟩ [] 0 5 _
    ⟨le_rfl, one_pos, by norm_num, F0.symm, F8.symm, F4.symm, rfl, by simp only [F0, isNaN_fin, not_false_eq_true], by simp only [F8, isNaN_fin, not_false_eq_true], by simp only [F4, isNaN_fin, not_false_eq_true]⟩]
  have d1 : (0 + 1 / 2 : ℝ) / 2 = 1 / 4 := by norm_num
  have d2 : (1 + 1 / 2 : ℝ) / 2 = 3 / 4 := by norm_num
  simp only [i1, d1, d2, F2, F6, isNaN_fin, if_false, Region.iv, zero_def, if_neg p01, h0h, hh1]
  rw [if_neg (by norm_num), if_neg (by simp only [abs_fin, fin_lt]; norm_num)]
  -- second: the right half is accepted with an infinite estimate
  simp only
  rw [loopStep_eq f _ _ ⟨1 / 2, 1, 3 / 4, .fin 0, .fin 1, .fin 0, .fin (1 / 12)⟩ _ _ 6 _
    ⟨by norm_num, by norm_num, by norm_num, F4.symm, F8.symm, F6.symm, hh1.symm, by simp only [F4, isNaN_fin, not_false_eq_true], by simp only [F8, isNaN_fin, not_false_eq_true], by simp only [F6, isNaN_fin, not_false_eq_true]⟩]
  have d3 : (1 / 2 + 3 / 4 : ℝ) / 2 = 5 / 8 := by norm_num
  have d4 : (1 + 3 / 4 : ℝ) / 2 = 7 / 8 := by norm_num
  have v1 : Dbl.pinf / .fin 15 = .pinf := by norm_num [pinf_div_fin]
  have v2 : Dbl.pinf + .pinf = .pinf := rfl
  simp only [i2, d3, d4, F5, F7, isNaN_fin, isNaN_pinf, if_false, Region.iv, if_pos ph1, hh1, th1, fin_add_pinf,
    pinf_sub_fin, v1, v2]
  rw [if_neg (by norm_num)]
  -- third: the left half is accepted with a minus infinite estimate
  simp only
  rw [loopStep_eq f _ _ ⟨0, 1 / 2, 1 / 4, .fin 0, .fin 0, .fin 0, .fin 0⟩ _ _ 7 _
    ⟨by norm_num, by norm_num, by norm_num, F0.symm, F4.symm, F2.symm, h0h.symm, by simp only [F0, isNaN_fin, not_false_eq_true], by simp only [F4, isNaN_fin, not_false_eq_true], by simp only [F2, isNaN_fin, not_false_eq_true]⟩]
  have d5 : (0 + 1 / 4 : ℝ) / 2 = 1 / 8 := by norm_num
  have d6 : (1 / 2 + 1 / 4 : ℝ) / 2 = 3 / 8 := by norm_num
  have v3 : Dbl.pinf + .ninf = .nan := rfl
  simp only [i3, d5, d6, F1, F3, isNaN_fin, isNaN_ninf, if_false, Region.iv, if_pos (p0h .pinf), h0h, t0h, v3, nan_add]
  rw [if_neg (by norm_num)]
  simp only [loopStep]

end

end Slat.Maq
