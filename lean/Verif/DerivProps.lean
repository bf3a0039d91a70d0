import Verif.DerivRound
import Mathlib.Analysis.Complex.ExponentialBounds
import Verif.FunctionsProps
import Verif.RatesGroup

/-!
# Derivatives of hazard and exceedance curves (C78)
-/

namespace Slat.Deriv

open Dbl Set LnF

noncomputable section

/-! ## Specification -/

/-- The step the calculations ask for. -/
def h : ℝ := 1 / 10 ^ 8

theorem h_pos : 0 < h := by rw [h]; norm_num

/-- `F 0, F 1, …, F n` are a function and its derivatives on `[a, b]`. -/
def Chain (F : ℕ → ℝ → ℝ) (n : ℕ) (a b : ℝ) : Prop := ∀ k < n, ∀ t ∈ Icc a b, HasDerivAt (F k) (F (k + 1) t) t

/-- `f` takes the finite values `F` on `[a, b]`. -/
def Computes (f : Dbl → Dbl) (F : ℝ → ℝ) (a b : ℝ) : Prop := ∀ t ∈ Icc a b, f (.fin t) = .fin (F t)

/-- `f` takes finite values within `η` of `F` on `[a, b]`. -/
def ComputesWithin (η : ℝ) (f : Dbl → Dbl) (F : ℝ → ℝ) (a b : ℝ) : Prop :=
  ∀ t ∈ Icc a b, ∃ v, f (.fin t) = .fin v ∧ |v - F t| ≤ η

/-! ## Without rounding -/

variable {L : Lib}

theorem exact_step (hL : Exact L) : L.step = .fin h := hL.rnd _

theorem deriv_of_central {f : Dbl → Dbl} {x r : ℝ} (e : L.central L.step f (.fin x) = .fin r) : L.derivativeAt f (.fin x) = .fin r := by
  unfold Lib.derivativeAt Rates.Gsl.deriv Lib.gsl
  simp [e]

/-- The numerical derivative of a function with five derivatives. -/
theorem derivative_close (hL : Exact L) (f : Dbl → Dbl) (F : ℕ → ℝ → ℝ) (x K : ℝ) (hF : Chain F 5 (x - h) (x + h))
    (hf : Computes f (F 0) (x - h) (x + h)) (hK : ∀ t ∈ Icc (x - h) (x + h), |F 5 t| ≤ K) :
    ∃ r, L.derivativeAt f (.fin x) = .fin r ∧ |r - F 1 x| ≤ K / 288 * h ^ 4 := by
  have K0 : 0 ≤ K := (abs_nonneg _).trans (hK x ⟨by linarith [h_pos], by linarith [h_pos]⟩)
  obtain ⟨h', p, q, e⟩ := central_exact hL h_pos (F := F 0) (fun t ht => hf t ht)
  rw [← exact_step hL] at e
  refine ⟨_, deriv_of_central e, ?_⟩
  have hS : Smooth F 5 x h := ⟨fun k hk t ht => hF k hk t ht⟩
  refine (quot_near p (hS.mono q) (fun t ht => hK t ⟨by linarith [ht.1], by linarith [ht.2]⟩)).trans ?_
  gcongr

/-- Polynomials of degree at most four are differentiated exactly. -/
theorem derivative_of_quartic (hL : Exact L) (f : Dbl → Dbl) (a b c d e x : ℝ)
    (hf : Computes f (fun t => a + b * t + c * t ^ 2 + d * t ^ 3 + e * t ^ 4) (x - h) (x + h)) :
    L.derivativeAt f (.fin x) = .fin (b + 2 * c * x + 3 * d * x ^ 2 + 4 * e * x ^ 3) := by
  obtain ⟨h', p, q, k⟩ := central_exact hL h_pos (fun t ht => hf t ht)
  rw [← exact_step hL] at k
  rw [deriv_of_central k, fin_inj, quot]
  field_simp
  ring

/-- Where two straight pieces meet the result is the mean of their slopes. -/
theorem derivative_at_kink (hL : Exact L) (f : Dbl → Dbl) (a b x y : ℝ)
    (hf : Computes f (fun t => if t ≤ x then y + a * (t - x) else y + b * (t - x)) (x - h) (x + h)) :
    L.derivativeAt f (.fin x) = .fin ((a + b) / 2) := by
  obtain ⟨h', p, q, k⟩ := central_exact hL h_pos (fun t ht => hf t ht)
  rw [← exact_step hL] at k
  rw [deriv_of_central k, fin_inj, quot, if_neg (by linarith), if_pos (by linarith), if_neg (by linarith), if_pos (by linarith)]
  field_simp
  ring

/-- The slope of the segment between two points of a table. -/
def slope (p q : ℝ × ℝ) : ℝ := (q.2 - p.2) / (q.1 - p.1)

/-- A function given by a table (`LinearInterpolatedFn`): the slope of the segment inside it, the mean of the two slopes at a point of
the table, half the slope at the ends, nothing beyond them; steps and distances of at least 1E-8. -/
theorem derivative_of_table (hL : Exact L) (pts : List (ℝ × ℝ)) (f : Dbl → Dbl) (hf : Functions.linearFn pts = some f) :
    (∀ l p q r, pts = l ++ p :: q :: r → ∀ x, p.1 + h ≤ x → x ≤ q.1 - h → L.derivativeAt f (.fin x) = .fin (slope p q)) ∧
    (∀ l p q s r, pts = l ++ p :: q :: s :: r → p.1 + h ≤ q.1 → q.1 + h ≤ s.1 →
      L.derivativeAt f (.fin q.1) = .fin ((slope p q + slope q s) / 2)) ∧
    (∀ p q r, pts = p :: q :: r → p.1 + h ≤ q.1 → L.derivativeAt f (.fin p.1) = .fin (slope p q / 2)) ∧
    (∀ l p q, pts = l ++ [p, q] → p.1 + h ≤ q.1 → L.derivativeAt f (.fin q.1) = .fin (slope p q / 2)) ∧
    (∀ a b, pts.head? = some a → pts.getLast? = some b → ∀ x, x + h ≤ a.1 ∨ b.1 + h ≤ x → L.derivativeAt f (.fin x) = .fin 0) := by
  obtain ⟨-, h2, h3, -⟩ := Functions.linear_faithful pts f hf
  have hok := (Functions.linear_constructs_iff pts).1 (by rw [hf]; rfl)
  have inc : ∀ l p q r, pts = l ++ p :: q :: r → p.1 < q.1 := fun l p q r e => by
    have := hok.2
    rw [e] at this
    exact Functions.pairwise_append_cell this
  have hp := h_pos
  refine ⟨?_, ?_, ?_, ?_, ?_⟩
  · intro l p q r e x h4 h5
    have i := inc l p q r e
    have := derivative_of_quartic hL f (p.2 - p.1 * slope p q) (slope p q) 0 0 0 x (fun t ht => by
      rw [h2 l p q r e t (by linarith [ht.1]) (by linarith [ht.2]), fin_inj, slope]; ring)
    rw [this]; simp
  · intro l p q s r e h4 h5
    have i := inc l p q (s :: r) e
    have j := inc (l ++ [p]) q s r (by simp [e])
    refine derivative_at_kink hL f (slope p q) (slope q s) q.1 q.2 (fun t ht => ?_)
    dsimp only
    split
    · rename_i h6
      rw [h2 l p q (s :: r) e t (by linarith [ht.1]) h6, fin_inj, slope]
      field_simp [sub_ne_zero.2 i.ne']
      ring
    · rename_i h6
      rw [h2 (l ++ [p]) q s r (by simp [e]) t (by linarith) (by linarith [ht.2]), fin_inj, slope]
      ring
  · intro p q r e h4
    have i := inc [] p q r e
    obtain ⟨b, hb⟩ : ∃ b, pts.getLast? = some b := by rw [e]; exact ⟨_, List.getLast?_eq_getLast_of_ne_nil (by simp)⟩
    have k := (h3 p b (by simp [e]) hb).1
    have := derivative_at_kink hL f 0 (slope p q) p.1 p.2 (fun t ht => by
      dsimp only
      split
      · rename_i h6
        rw [k t h6]; simp
      · rename_i h6
        rw [h2 [] p q r e t (by linarith) (by linarith [ht.2]), fin_inj, slope]
        ring)
    rw [this, zero_add]
  · intro l p q e h4
    have i := inc l p q [] e
    obtain ⟨a, ha⟩ : ∃ a, pts.head? = some a := by
      rw [e]; cases l with
      | nil => exact ⟨_, rfl⟩
      | cons c l => exact ⟨_, rfl⟩
    have k := (h3 a q ha (by simp [e])).2.1
    have := derivative_at_kink hL f (slope p q) 0 q.1 q.2 (fun t ht => by
      dsimp only
      split
      · rename_i h6
        rw [h2 l p q [] e t (by linarith [ht.1]) h6, fin_inj, slope]
        field_simp [sub_ne_zero.2 i.ne']
        ring
      · rename_i h6
        rw [k t (by linarith)]; simp)
    rw [this, add_zero]
  · intro a b ha hb x hx
    obtain ⟨k1, k2, -⟩ := h3 a b ha hb
    rcases hx with hx | hx
    · have := derivative_of_quartic hL f a.2 0 0 0 0 x (fun t ht => by rw [k1 t (by linarith [ht.2])]; simp)
      rw [this]; simp
    · have := derivative_of_quartic hL f b.2 0 0 0 0 x (fun t ht => by rw [k2 t (by linarith [ht.1])]; simp)
      rw [this]; simp

/-- The derivatives of `a t^b`. -/
def powers (a b : ℝ) (k : ℕ) (t : ℝ) : ℝ := a * (∏ i ∈ Finset.range k, (b - i)) * t ^ (b - k)

theorem powers_chain (a b : ℝ) (n : ℕ) {l r : ℝ} (hl : 0 < l) : Chain (powers a b) n l r := by
  intro k _ t ht
  have t0 : 0 < t := hl.trans_le ht.1
  have := (Real.hasDerivAt_rpow_const (x := t) (p := b - k) (Or.inl t0.ne')).const_mul (a * ∏ i ∈ Finset.range k, (b - i))
  refine this.congr_deriv ?_
  rw [powers, Finset.prod_range_succ, show b - ((k + 1 : ℕ) : ℝ) = b - k - 1 by push_cast; ring]
  ring

/-- A power law (`PowerLawParametricCurve`). -/
theorem derivative_of_power_law (hL : Exact L) (f : Dbl → Dbl) (a b x : ℝ) (hx : h < x) (hf : ∀ t, f (.fin t) = Functions.plc a b t) :
    ∃ r, L.derivativeAt f (.fin x) = .fin r ∧ |r - a * b * x ^ (b - 1)| ≤
      |a * (b * (b - 1) * (b - 2) * (b - 3) * (b - 4))| * max ((x - h) ^ (b - 5)) ((x + h) ^ (b - 5)) / 288 * h ^ 4 := by
  have hp := h_pos
  have l0 : 0 < x - h := by linarith
  have := derivative_close hL f (powers a b) x (|a * (b * (b - 1) * (b - 2) * (b - 3) * (b - 4))| * max ((x - h) ^ (b - 5)) ((x + h) ^ (b - 5)))
    (powers_chain a b 5 l0) (fun t ht => by
      rw [hf, Functions.plc, powers]; simp [Functions.powD, l0.trans_le ht.1]) (fun t ht => by
      have t0 : 0 < t := l0.trans_le ht.1
      rw [powers, abs_mul, abs_of_nonneg (Real.rpow_nonneg t0.le _)]
      simp only [Finset.prod_range_succ, Finset.prod_range_zero, one_mul, Nat.cast_zero, Nat.cast_one, Nat.cast_ofNat, sub_zero]
      refine mul_le_mul_of_nonneg_left ?_ (abs_nonneg _)
      rcases le_total 0 (b - 5) with c | c
      · exact le_max_of_le_right (Real.rpow_le_rpow t0.le ht.2 c)
      · exact le_max_of_le_left (Real.rpow_le_rpow_of_nonpos l0 ht.1 c))
  obtain ⟨r, e1, e2⟩ := this
  refine ⟨r, e1, ?_⟩
  simpa [powers] using e2

/-! ## The fallbacks -/

theorem nan_op (M : Machine) (v : Dbl) : M.add .nan v = .nan ∧ M.add v .nan = .nan ∧ M.sub .nan v = .nan ∧ M.sub v .nan = .nan ∧
    M.mul .nan v = .nan ∧ M.mul v .nan = .nan ∧ M.div .nan v = .nan := by
  cases v <;> exact ⟨rfl, rfl, rfl, rfl, rfl, rfl, rfl⟩

/-- A NaN among the outer values makes the central result NaN. -/
theorem central_nan (L : Lib) (f : Dbl → Dbl) (x s : Dbl) (hn : f (L.add x s) = .nan ∨ f (L.sub x s) = .nan) : L.central s f x = .nan := by
  have k3 : L.r3 f x s = .nan := by
    rw [Lib.r3]
    rcases hn with e | e
    · rw [e, (nan_op _ _).2.2.1, (nan_op _ _).2.2.2.2.2.1]
    · rw [e, (nan_op _ _).2.2.2.1, (nan_op _ _).2.2.2.2.2.1]
  have k5 : L.r5 f x s = .nan := by rw [Lib.r5, k3, (nan_op _ _).2.2.2.2.2.1, (nan_op _ _).2.2.2.1]
  have ke3 : L.e3 f x s = .nan := by
    have a : Dbl.abs .nan = .nan := rfl
    rw [Lib.e3]
    rcases hn with e | e
    · rw [e, a, (nan_op _ _).1, (nan_op _ _).2.2.2.2.1]
    · rw [e, a, (nan_op _ _).2.1, (nan_op _ _).2.2.2.2.1]
  have ke5 : L.e5 f x s = .nan := by rw [Lib.e5, ke3, (nan_op _ _).2.1]
  have kr : L.centralRound f x s = .nan := by
    rw [Lib.centralRound, ke5, (nan_op _ _).2.2.2.2.2.2]
    exact (nan_op _ _).1
  rw [Lib.central, choose_nan _ _ _ _ _ _ kr, Lib.centralResult, k5, (nan_op _ _).2.2.2.2.2.2]

/-- A NaN at the far end makes the one-sided result NaN. -/
theorem forward_nan (L : Lib) (f : Dbl → Dbl) (x s : Dbl) (hn : f (L.add x s) = .nan) : L.forward s f x = .nan := by
  have k2 : L.r2 f x s = .nan := by
    rw [Lib.r2, Lib.f4, hn, (nan_op _ _).2.2.1, (nan_op _ _).2.2.2.2.2.1]
  have k4 : L.r4 f x s = .nan := by
    rw [Lib.r4, Lib.f4, hn, (nan_op _ _).2.2.1, (nan_op _ _).2.2.2.2.2.1, (nan_op _ _).2.2.1, (nan_op _ _).1]
  have ke : L.e4 f x s = .nan := by
    have a : Dbl.abs .nan = .nan := rfl
    rw [Lib.e4, Lib.f4, hn, a, (nan_op _ _).1, (nan_op _ _).1, (nan_op _ _).1, (nan_op _ _).2.2.2.2.2.1, (nan_op _ _).2.2.2.2.1]
  have kr : L.forwardRound f x s = .nan := by
    rw [Lib.forwardRound, ke, (nan_op _ _).2.2.2.2.2.2]
    exact (nan_op _ _).1
  rw [Lib.forward, choose_nan _ _ _ _ _ _ kr, Lib.forwardResult, k4, (nan_op _ _).2.2.2.2.2.2]

/-- Next to 0, for a function that is NaN at negative arguments (the hyperbolic law, a power law): the forward difference. -/
theorem derivative_near_zero (hL : Exact L) (f : Dbl → Dbl) (F : ℕ → ℝ → ℝ) (x K : ℝ) (hx : 0 ≤ x) (hxh : x < h)
    (hn : ∀ t < 0, f (.fin t) = .nan) (hF : Chain F 4 x (x + h)) (hf : Computes f (F 0) x (x + h)) (hK : ∀ t ∈ Icc x (x + h), |F 4 t| ≤ K) :
    ∃ r, L.derivativeAt f (.fin x) = .fin r ∧ |r - F 1 x| ≤ 4 / 5 * K * h ^ 3 := by
  have hp := h_pos
  have K0 : 0 ≤ K := (abs_nonneg _).trans (hK x ⟨by linarith, by linarith⟩)
  have hb : between x h ⊆ Icc x (x + h) := by
    rintro t ⟨s, hs, rfl⟩
    exact ⟨by nlinarith [hs.1], by nlinarith [hs.2]⟩
  obtain ⟨p, p0, p1, e⟩ := forward_exact hL h_pos.ne' (fun t ht => hf t (hb ht))
  have hc : L.central L.step f (.fin x) = .nan :=
    central_nan L f _ _ (Or.inr (by rw [exact_step hL, hL.sub, fin_sub]; exact hn _ (by linarith)))
  rw [← exact_step hL] at e
  refine ⟨fquot (F 0) x (h * p), by
    unfold Lib.derivativeAt Rates.Gsl.deriv Lib.gsl
    simp [hc, e], ?_⟩
  have hs := between_mono (x := x) (h := h) p0.le p1
  refine (fquot_near (mul_ne_zero h_pos.ne' p0.ne') (fun k hk t ht => hF k hk t (hb (hs ht))) (fun t ht => hK t (hb (hs ht)))).trans ?_
  have : |h * p| ≤ h := by
    rw [abs_of_pos (by positivity)]; nlinarith
  gcongr

/-- At the right end of its domain, for a function that is NaN beyond: the backward difference. -/
theorem derivative_at_right_end (hL : Exact L) (f : Dbl → Dbl) (F : ℕ → ℝ → ℝ) (x b K : ℝ) (hx : x ≤ b) (hxh : b < x + h)
    (hn : ∀ t, b < t → f (.fin t) = .nan) (hF : Chain F 4 (x - h) x) (hf : Computes f (F 0) (x - h) x) (hK : ∀ t ∈ Icc (x - h) x, |F 4 t| ≤ K) :
    ∃ r, L.derivativeAt f (.fin x) = .fin r ∧ |r - F 1 x| ≤ 4 / 5 * K * h ^ 3 := by
  have hp := h_pos
  have K0 : 0 ≤ K := (abs_nonneg _).trans (hK x ⟨by linarith, by linarith⟩)
  have hb : between x (-h) ⊆ Icc (x - h) x := by
    rintro t ⟨s, hs, rfl⟩
    exact ⟨by nlinarith [hs.2], by nlinarith [hs.1]⟩
  have hh : -h ≠ 0 := by linarith
  obtain ⟨p, p0, p1, e⟩ := forward_exact hL hh (fun t ht => hf t (hb ht))
  have hv : f (L.add (.fin x) L.step) = .nan := by rw [exact_step hL, hL.add, fin_add]; exact hn _ hxh
  have hc : L.central L.step f (.fin x) = .nan := central_nan L f _ _ (Or.inl hv)
  have hw : L.forward L.step f (.fin x) = .nan := forward_nan L f _ _ hv
  have hs0 : L.sub 0 L.step = .fin (-h) := by rw [exact_step hL, hL.sub, zero_def, fin_sub, zero_sub]
  refine ⟨fquot (F 0) x (-h * p), by
    unfold Lib.derivativeAt Rates.Gsl.deriv Lib.gsl
    simp only [hc, hw, isNaN_nan, if_true, hs0, e], ?_⟩
  have hs := between_mono (x := x) (h := -h) p0.le p1
  refine (fquot_near (mul_ne_zero hh p0.ne') (fun k hk t ht => hF k hk t (hb (hs ht))) (fun t ht => hK t (hb (hs ht)))).trans ?_
  have : |-h * p| ≤ h := by
    rw [abs_mul, abs_neg, abs_of_pos hp, abs_of_pos p0]; nlinarith
  gcongr

/-- `EDP::DerivativeAt`: the derivative from the right. -/
theorem edp_derivative_close (hL : Exact L) (f : Dbl → Dbl) (F : ℕ → ℝ → ℝ) (x K : ℝ) (hF : Chain F 4 x (x + h))
    (hf : Computes f (F 0) x (x + h)) (hK : ∀ t ∈ Icc x (x + h), |F 4 t| ≤ K) :
    ∃ r, L.edpDerivativeAt f (.fin x) = .fin r ∧ |r - F 1 x| ≤ 4 / 5 * K * h ^ 3 := by
  have hp := h_pos
  have K0 : 0 ≤ K := (abs_nonneg _).trans (hK x ⟨by linarith, by linarith⟩)
  have hb : between x h ⊆ Icc x (x + h) := by
    rintro t ⟨s, hs, rfl⟩
    exact ⟨by nlinarith [hs.1], by nlinarith [hs.2]⟩
  obtain ⟨p, p0, p1, e⟩ := forward_exact hL h_pos.ne' (fun t ht => hf t (hb ht))
  refine ⟨_, by rw [Lib.edpDerivativeAt, exact_step hL, e], ?_⟩
  have hs := between_mono (x := x) (h := h) p0.le p1
  refine (fquot_near (mul_ne_zero h_pos.ne' p0.ne') (fun k hk t ht => hF k hk t (hb (hs ht))) (fun t ht => hK t (hb (hs ht)))).trans ?_
  have : |h * p| ≤ h := by
    rw [abs_of_pos (by positivity)]; nlinarith
  gcongr

/-! ## With rounding -/

/-- Machine epsilon of `double`. -/
def machineEps : ℝ := 1 / 2 ^ 52

theorem machine_step {u : ℝ} (hA : Accurate L.toMachine u) (hu : u ≤ machineEps / 2) :
    ∃ s, L.step = .fin s ∧ 999 / 1000 * h ≤ s ∧ s ≤ 1001 / 1000 * h := by
  refine ⟨L.toMachine.r h, rnd_eq hA _, ?_⟩
  have k := abs_le.1 (r_rel hA h)
  rw [abs_of_pos h_pos] at k
  have : u ≤ 1 / 1000 := hu.trans (by rw [machineEps]; norm_num)
  have := mul_le_mul_of_nonneg_right this h_pos.le
  constructor <;> linarith [k.1, k.2]

/-- With rounding, and a function computed with an error of at most `η`: arguments up to about 2E7, bounds on the function and its first,
third and fifth derivatives in a neighbourhood. -/
theorem derivative_machine {u : ℝ} (hA : Accurate L.toMachine u) (hu : u ≤ machineEps / 2) (f : Dbl → Dbl) (F : ℕ → ℝ → ℝ)
    (x η B C K₃ K₅ : ℝ) (hx : |x| ≤ 2 * 10 ^ 7) (hF : Chain F 5 (x - 3 * h) (x + 3 * h)) (hf : ComputesWithin η f (F 0) (x - 3 * h) (x + 3 * h))
    (hB : ∀ t ∈ Icc (x - 3 * h) (x + 3 * h), |F 0 t| ≤ B) (hC : ∀ t ∈ Icc (x - 3 * h) (x + 3 * h), |F 1 t| ≤ C)
    (h3 : ∀ t ∈ Icc (x - 3 * h) (x + 3 * h), |F 3 t| ≤ K₃) (h5 : ∀ t ∈ Icc (x - 3 * h) (x + 3 * h), |F 5 t| ≤ K₅) :
    ∃ r, L.derivativeAt f (.fin x) = .fin r ∧
      |r - F 1 x| ≤ 1 / 100 * K₅ * h ^ 4 + 2 * K₃ * h ^ 2 + (28 * η + 26 * (machineEps * B) + 63 * (machineEps * (C * (|x| + h)))) / h := by
  have hp := h_pos
  obtain ⟨s, es, s1, s2⟩ := machine_step hA hu
  have s0 : 0 < s := by linarith
  have sub : Icc (x - 2 * s) (x + 2 * s) ⊆ Icc (x - 3 * h) (x + 3 * h) := fun t ht => ⟨by linarith [ht.1], by linarith [ht.2]⟩
  have mx : x ∈ Icc (x - 3 * h) (x + 3 * h) := ⟨by linarith, by linarith⟩
  have B0 : 0 ≤ B := (abs_nonneg _).trans (hB x mx)
  have C0 : 0 ≤ C := (abs_nonneg _).trans (hC x mx)
  have K30 : 0 ≤ K₃ := (abs_nonneg _).trans (h3 x mx)
  have K50 : 0 ≤ K₅ := (abs_nonneg _).trans (h5 x mx)
  have η0 : 0 ≤ η := by
    obtain ⟨v, -, hv⟩ := hf x mx
    exact (abs_nonneg _).trans hv
  have e0 : 0 < machineEps := by rw [machineEps]; norm_num
  obtain ⟨r, er, hr⟩ := central_machine hA (ε := machineEps) rfl hu (x := x) s0 (by
      have k1 : machineEps * (|x| + s) ≤ machineEps * (2 * 10 ^ 7 + 1) := by
        gcongr
        rw [h] at s2
        norm_num at s2
        linarith
      refine k1.trans ?_
      rw [h] at s1
      rw [machineEps]
      norm_num at s1 ⊢
      linarith) (fun t ht => hf t (sub ht)) ⟨fun k hk t ht => hF k hk t (sub ht)⟩ (fun t ht => hB t (sub ht)) (fun t ht => hC t (sub ht))
    (fun t ht => h3 t (sub ht)) (fun t ht => h5 t (sub ht))
  rw [← es] at er
  refine ⟨r, deriv_of_central er, hr.trans ?_⟩
  have q4 : s ^ 4 ≤ (1001 / 1000 * h) ^ 4 := by gcongr
  have q2 : s ^ 2 ≤ (1001 / 1000 * h) ^ 2 := by gcongr
  refine add_le_add (add_le_add ?_ ?_) ?_
  · calc K₅ / 288 * s ^ 4 ≤ K₅ / 288 * (1001 / 1000 * h) ^ 4 := by gcongr
      _ = K₅ * h ^ 4 * ((1001 / 1000) ^ 4 / 288) := by ring
      _ ≤ K₅ * h ^ 4 * (1 / 100) := mul_le_mul_of_nonneg_left (by norm_num) (by positivity)
      _ = _ := by ring
  · calc 6 / 5 * K₃ * s ^ 2 ≤ 6 / 5 * K₃ * (1001 / 1000 * h) ^ 2 := by gcongr
      _ = K₃ * h ^ 2 * (6 / 5 * (1001 / 1000) ^ 2) := by ring
      _ ≤ K₃ * h ^ 2 * 2 := mul_le_mul_of_nonneg_left (by norm_num) (by positivity)
      _ = _ := by ring
  · rw [div_le_div_iff₀ s0 hp]
    have c1 : 0 ≤ machineEps * B := by positivity
    have c2 : machineEps * (C * (|x| + s)) ≤ 1001 / 1000 * (machineEps * (C * (|x| + h))) := by
      have : |x| + s ≤ 1001 / 1000 * (|x| + h) := by linarith [abs_nonneg x]
      calc machineEps * (C * (|x| + s)) ≤ machineEps * (C * (1001 / 1000 * (|x| + h))) := by gcongr
        _ = _ := by ring
    have c3 : 0 ≤ machineEps * (C * (|x| + h)) := by positivity
    have c4 : 27 * η + 25 * (machineEps * B) + 62 * (machineEps * (C * (|x| + s))) ≤
        999 / 1000 * (28 * η + 26 * (machineEps * B) + 63 * (machineEps * (C * (|x| + h)))) := by linarith
    have c5 : 0 ≤ 28 * η + 26 * (machineEps * B) + 63 * (machineEps * (C * (|x| + h))) := by positivity
    calc _ ≤ 999 / 1000 * (28 * η + 26 * (machineEps * B) + 63 * (machineEps * (C * (|x| + h)))) * h := by gcongr
      _ = (28 * η + 26 * (machineEps * B) + 63 * (machineEps * (C * (|x| + h)))) * (999 / 1000 * h) := by ring
      _ ≤ _ := by gcongr

/-! ## Large arguments -/

/-- `double` (exponents not bounded) with correctly rounded powers. -/
def double : Lib where
  toMachine := ieee
  cube y := .fin (nearest (y ^ (1 / 3 : ℝ)))
  square y := .fin (nearest (y ^ (1 / 2 : ℝ)))

theorem near_large {x δ : ℝ} (hx : nearest x = x) (hl : 2 ^ 27 < x) (hδ : |δ| < 1 / 2 ^ 26) : nearest (x + δ) = x := by
  have x0 : 0 < x := lt_trans (by norm_num) hl
  have d := abs_lt.1 hδ
  obtain ⟨m, m1, m2, e⟩ := nearPos_form x0
  rw [nearest, if_pos x0] at hx
  rw [hx] at e
  set k := Int.log 2 x - (52 : ℕ) with hk
  have two : (2 : ℝ) ≠ 0 := two_ne_zero
  obtain ⟨l1, l2⟩ := MaqF.log_bounds x0
  have hlog : Int.log 2 x = 52 + k := by rw [hk]; push_cast; ring
  rw [hlog] at l1 l2
  have kp : (0 : ℝ) < 2 ^ k := by positivity
  have s52 : (2 : ℝ) ^ (52 + k) = 2 ^ 52 * 2 ^ k := by rw [zpow_add₀ two]; norm_num
  have s53 : (2 : ℝ) ^ (52 + k + 1) = 2 ^ 53 * 2 ^ k := by
    rw [show 52 + k + 1 = 53 + k by ring, zpow_add₀ two]; norm_num
  -- the exponent
  have k25 : -25 ≤ k := by
    by_contra hc
    have : 52 + k + 1 ≤ 27 := by omega
    have := zpow_le_zpow_right₀ (by norm_num : (1 : ℝ) ≤ 2) this
    have e27 : (2 : ℝ) ^ (27 : ℤ) = 2 ^ 27 := by norm_num
    rw [e27] at this
    linarith
  have hk2 : (1 : ℝ) / 2 ^ 26 ≤ 2 ^ k / 2 := by
    have := zpow_le_zpow_right₀ (by norm_num : (1 : ℝ) ≤ 2) k25
    have e25 : (2 : ℝ) ^ (-25 : ℤ) = 2 * (1 / 2 ^ 26) := by norm_num
    rw [e25] at this
    linarith
  have hm : (m : ℝ) < 2 ^ 53 := by
    have : (m : ℝ) * 2 ^ k < 2 ^ 53 * 2 ^ k := by rw [← e, ← s53]; exact l2
    exact lt_of_mul_lt_mul_right this kp.le
  have hm' : m < 2 ^ 53 := by exact_mod_cast hm
  have hm1 : (m : ℝ) + 1 ≤ 2 ^ 53 := by exact_mod_cast hm'
  have up : x + 2 ^ k ≤ 2 ^ (53 + k) := by
    rw [show (53 : ℤ) + k = 52 + k + 1 by ring, s53, e]
    nlinarith
  by_cases hb : 2 ^ (52 + k) ≤ x + δ
  · rw [nearest_eval (x := x + δ) m k hb (by linarith) (by
      rw [← e, add_sub_cancel_left]; linarith)]
    exact e.symm
  · -- just below a power of two
    push Not at hb
    have hm52 : m = 2 ^ 52 := by
      by_contra hc
      have : 2 ^ 52 + 1 ≤ m := by omega
      have : (2 : ℝ) ^ 52 + 1 ≤ m := by exact_mod_cast this
      rw [s52] at hb
      have : (2 ^ 52 + 1) * (2 : ℝ) ^ k ≤ m * 2 ^ k := by gcongr
      rw [← e] at this
      linarith
    have hx2 : x = 2 ^ (52 + k) := by rw [e, hm52, s52]; norm_num
    have k24 : -24 ≤ k := by
      by_contra hc
      have : 52 + k ≤ 27 := by omega
      have := zpow_le_zpow_right₀ (by norm_num : (1 : ℝ) ≤ 2) this
      have e27 : (2 : ℝ) ^ (27 : ℤ) = 2 ^ 27 := by norm_num
      rw [e27, ← hx2] at this
      linarith
    have hk3 : (1 : ℝ) / 2 ^ 26 ≤ 2 ^ (k - 1) / 2 := by
      have := zpow_le_zpow_right₀ (by norm_num : (1 : ℝ) ≤ 2) (show (-25 : ℤ) ≤ k - 1 by omega)
      have e25 : (2 : ℝ) ^ (-25 : ℤ) = 2 * (1 / 2 ^ 26) := by norm_num
      rw [e25] at this
      linarith
    have ek : (2 : ℝ) ^ k = 2 * 2 ^ (k - 1) := by
      rw [← zpow_one_add₀ two]; congr 1; ring
    have eval := nearest_eval (x := x + δ) (2 ^ 53) (k - 1) (by
      have : (2 : ℝ) ^ (52 + (k - 1)) = 2 ^ 52 * 2 ^ (k - 1) := by rw [zpow_add₀ two]; norm_num
      rw [this]
      have : x = 2 ^ 52 * (2 * 2 ^ (k - 1)) := by rw [hx2, s52, ek]
      have p : (0 : ℝ) < 2 ^ (k - 1) := by positivity
      nlinarith [d.1]) (by
      rw [show (53 : ℤ) + (k - 1) = 52 + k by ring]; exact hb) (by
      have : ((2 ^ 53 : ℕ) : ℝ) * 2 ^ (k - 1) = x := by
        rw [hx2, s52, ek]; push_cast; ring
      rw [this, add_sub_cancel_left]
      linarith)
    rw [eval, hx2, s52, ek]
    push_cast
    ring

/-- Arguments above 2^27 (134 217 728): the steps do not change the argument, and the derivative of any function is 0. -/
theorem derivative_large_fails (f : Dbl → Dbl) (x v : ℝ) (hx : nearest x = x) (hl : 2 ^ 27 < x) (hf : f (.fin x) = .fin v) :
    double.derivativeAt f (.fin x) = .fin 0 := by
  have hp := h_pos
  obtain ⟨s, es, s1, s2⟩ := machine_step (L := double) ieee_accurate (by rw [machineEps]; norm_num)
  have hs : s < 1 / 2 ^ 26 := by
    refine s2.trans_lt ?_
    rw [h]; norm_num
  have s0 : 0 < s := by linarith
  have hh : |nearest (s / 2)| < 1 / 2 ^ 26 := by
    have k := nearest_near (s / 2)
    rw [abs_of_pos (by linarith : 0 < s / 2)] at k
    have k' := abs_le.1 k
    have : 1 / 2 ^ 53 * (s / 2) ≤ 1 * (s / 2) := by gcongr; norm_num
    rw [abs_lt]
    constructor <;> linarith [k'.1, k'.2]
  have A : Accurate double.toMachine (1 / 2 ^ 53) := ieee_accurate
  have a1 : double.add (.fin x) (.fin s) = .fin x := by
    rw [add_fin A, fin_inj]; exact near_large hx hl (by rwa [abs_of_pos s0])
  have a2 : double.sub (.fin x) (.fin s) = .fin x := by
    rw [sub_fin A, fin_inj, sub_eq_add_neg]; exact near_large hx hl (by rwa [abs_neg, abs_of_pos s0])
  have a0 : double.div (.fin s) (.fin 2) = .fin (nearest (s / 2)) := by
    rw [div_fin A _ two_ne_zero]; rfl
  have a3 : double.add (.fin x) (.fin (nearest (s / 2))) = .fin x := by
    rw [add_fin A, fin_inj]; exact near_large hx hl hh
  have a4 : double.sub (.fin x) (.fin (nearest (s / 2))) = .fin x := by
    rw [sub_fin A, fin_inj, sub_eq_add_neg]; exact near_large hx hl (by rwa [abs_neg])
  have z : double.toMachine.r 0 = 0 := r_zero A
  have k3 : double.r3 f (.fin x) (.fin s) = .fin 0 := by
    rw [Lib.r3, a1, a2, hf, sub_fin A, mul_fin A, sub_self, z, mul_zero, z]
  have k5 : double.r5 f (.fin x) (.fin s) = .fin 0 := by
    rw [Lib.r5, k3, a0, a3, a4, hf, sub_fin A, sub_self, z, div_fin A _ three_ne_zero, mul_fin A, mul_zero, z, one_def,
      div_fin A _ three_ne_zero, mul_fin A, mul_zero, z, sub_fin A, sub_self, z]
  have kr : double.centralResult f (.fin x) (.fin s) = .fin 0 := by
    rw [Lib.centralResult, k5, div_fin A _ s0.ne', zero_div, z]
  have kt : double.centralTrunc f (.fin x) (.fin s) = .fin 0 := by
    rw [Lib.centralTrunc, k5, k3, sub_fin A, sub_self, z, div_fin A _ s0.ne', zero_div, z, abs_fin, abs_zero]
  have kc : double.central double.step f (.fin x) = .fin 0 := by
    rw [es, Lib.central, kt, Lib.choose, if_neg, kr]
    rintro ⟨⟨-, -, h0⟩, -⟩
    rw [zero_def, fin_lt] at h0
    exact lt_irrefl _ h0
  exact deriv_of_central kc

/-- So demands above 2^27 add nothing to the expected cost of a group, whatever they cost. -/
theorem large_demand_costs_nothing_fails (g : Rates.Group) (im x c v : ℝ) (hx : nearest x = x) (hl : 2 ^ 27 < x)
    (hc : (g.cost (.fin x)).getMean = .fin c) (hv : g.guarded (.fin im) (.fin x) = .fin v) :
    Rates.costIntegrand double.gsl g (.fin im) (.fin x) = .fin 0 := by
  have x0 : 0 < x := lt_trans (by norm_num) hl
  have k : double.gsl.deriv (g.guarded (.fin im)) (.fin x) = .fin 0 := derivative_large_fails _ x v hx hl hv
  rw [Rates.costIntegrand, if_neg (Rates.nz x0), hc, k, abs_fin, fin_mul, abs_zero, mul_zero]

/-! ## Rates and costs from numerical derivatives -/

open MeasureTheory Rates Fates LogNormalDist

/-- The rate of exceeding a demand, calculated from a derivative of the hazard known up to `δ`: the error of the integrator plus the
integral of `δ`.  `exact` is the true derivative. -/
theorem demand_rate_error (exact deriv : Dbl → Dbl) (lam lam' : ℝ → ℝ) (l : ℝ) (hH : Hazard exact lam lam' l) (d δ : ℝ → ℝ)
    (hd : ∀ x, 0 < x → deriv (.fin x) = .fin (d x)) (hm : Measurable d) (hδ : ∀ x, 0 < x → |d x - lam' x| ≤ δ x)
    (hi : IntegrableOn δ (Ioi 0)) (e : Edp) (m s : ℝ → ℝ) (hD : Demands e m s) (c dm : Option (ℝ × ℝ)) (hc : ∀ p ∈ c, 0 < p.2)
    (hdm : ∀ p ∈ dm, 0 < p.2) (maq : Maq) (ε y : ℝ) (hy : 0 ≤ y)
    (hI : Integrates maq ε (lambdaIntegrand ⟨dist c, dist dm⟩ deriv e (.fin y))) :
    ∃ v, calcLambda maq ⟨dist c, dist dm⟩ deriv e (.fin y) = .fin v ∧
      |v - demandRate c dm m s lam' y| ≤ ε + ∫ x in Ioi (0 : ℝ), δ x := by
  have eq : ∀ x, 0 < x → lambdaIntegrand ⟨dist c, dist dm⟩ deriv e (.fin y) (.fin x) = .fin (weight c dm m s y x * |d x|) := by
    intro x hx
    simp only [lambdaIntegrand, zero_def, fin_feq, hx.ne', if_false, Edp.pExceedence, hD.eq x hx,
      (LogNormalDist.p_at_most_is_cdf (m x) (hD.pos x hx) hy).2, pRepair_eq hc hdm hx.le, hd x hx, one_def, fin_sub, fin_mul,
      fin_add, abs_fin, fin_inj, weight]
    ring
  have w0 : ∀ x, 0 ≤ weight c dm m s y x := fun x => (lost_nonneg c dm x).trans (weight_bounds c dm m s y x).1
  have w1 : ∀ x, weight c dm m s y x ≤ 1 := fun x => (weight_bounds c dm m s y x).2
  have int1 := weight_integrable hH hD c dm hy
  have int2 : IntegrableOn (fun x => weight c dm m s y x * |d x|) (Ioi 0) := by
    refine Integrable.mono' (hH.integrable.add hi) ((weight_measurable hD c dm hy).mul hm.abs.aestronglyMeasurable) ?_
    refine (ae_restrict_iff' measurableSet_Ioi).2 (ae_of_all _ fun x hx => ?_)
    rw [Real.norm_eq_abs, abs_mul, abs_abs, abs_of_nonneg (w0 x), Pi.add_apply]
    have := abs_sub_abs_le_abs_sub (d x) (lam' x)
    have := hδ x hx
    have := mul_le_of_le_one_left (abs_nonneg (d x)) (w1 x)
    linarith
  obtain ⟨v, h1, h2⟩ := hI _ eq int2
  refine ⟨v, by simp [calcLambda, orNaN, h1], ?_⟩
  have k : |(∫ x in Ioi (0 : ℝ), weight c dm m s y x * |d x|) - (∫ x in Ioi (0 : ℝ), weight c dm m s y x * |lam' x|)| ≤
      ∫ x in Ioi (0 : ℝ), δ x := by
    rw [← integral_sub int2 int1]
    have a : ∀ᵐ x ∂(volume.restrict (Ioi (0 : ℝ))), ‖weight c dm m s y x * |d x| - weight c dm m s y x * |lam' x|‖ ≤ δ x := by
      refine (ae_restrict_iff' measurableSet_Ioi).2 (ae_of_all _ fun x hx => ?_)
      rw [Real.norm_eq_abs, ← mul_sub, abs_mul, abs_of_nonneg (w0 x)]
      have := abs_abs_sub_abs_le (d x) (lam' x)
      exact (mul_le_of_le_one_left (abs_nonneg _) (w1 x)).trans (this.trans (hδ x hx))
    exact norm_integral_le_of_norm_le hi a
  have := abs_sub_le v (∫ x in Ioi (0 : ℝ), weight c dm m s y x * |d x|) (demandRate c dm m s lam' y)
  have e' : demandRate c dm m s lam' y = ∫ x in Ioi (0 : ℝ), weight c dm m s y x * |lam' x| := rfl
  rw [e'] at this ⊢
  linarith

/-- The expected cost of a group at an intensity, calculated from a derivative of the exceedance probability known up to `δ`. -/
theorem expected_cost_error (gsl : Gsl) (g : Group) (hn : 0 < g.count) (im m s : ℝ) (hs : 0 < s) (e σ : ℝ → ℝ) (hL : Losses g.cost e σ) (hi : Integrable e (LN m s))
    (d δ : ℝ → ℝ) (hd : ∀ x, 0 < x → gsl.deriv (g.guarded (.fin im)) (.fin x) = .fin (d x)) (hm : Measurable d)
    (hδ : ∀ x, 0 < x → ∀ D, HasDerivAt (fun y => 1 - Phi ((Real.log y - m) / s)) D x → |d x - D| ≤ δ x)
    (hem : Measurable e) (hiδ : IntegrableOn (fun x => |e x| * δ x) (Ioi 0)) (maq : Maq) (ε : ℝ)
    (hI : Integrates maq ε (costIntegrand gsl g (.fin im))) :
    ∃ v, eCostIM maq gsl g (.fin im) = .fin v ∧ |v - totalMean (LN m s) e| ≤ ε + ∫ x in Ioi (0 : ℝ), |e x| * δ x := by
  have hδ' : ∀ x, 0 < x → |(|d x|) - dens m s x| ≤ δ x := by
    intro x hx
    have k := hδ x hx _ (dens_hasDerivAt hs hx)
    have := abs_abs_sub_abs_le (d x) (-dens m s x)
    rw [abs_neg, abs_of_nonneg (dens_nonneg hs hx)] at this
    exact this.trans k
  have eq : ∀ x, 0 < x → costIntegrand gsl g (.fin im) (.fin x) = .fin (e x * |d x|) := by
    intro x hx
    unfold costIntegrand
    rw [if_neg (nz hx), (hL x hx).1, hd x hx, abs_fin, fin_mul]
  have int1 := (integrable_dens hs e).2 hi
  have dif : ∀ x, 0 < x → |e x * |d x| - e x * dens m s x| ≤ |e x| * δ x := by
    intro x hx
    rw [← mul_sub, abs_mul]
    exact mul_le_mul_of_nonneg_left (hδ' x hx) (abs_nonneg _)
  have int2 : IntegrableOn (fun x => e x * |d x|) (Ioi 0) := by
    refine Integrable.mono' (int1.abs.add hiδ) (hem.mul hm.abs).aestronglyMeasurable ?_
    refine (ae_restrict_iff' measurableSet_Ioi).2 (ae_of_all _ fun x hx => ?_)
    have k1 := dif x hx
    have k2 := abs_sub_abs_le_abs_sub (e x * |d x|) (e x * dens m s x)
    rw [Real.norm_eq_abs, Pi.add_apply]
    linarith
  obtain ⟨v, h1, h2⟩ := hI _ eq int2
  refine ⟨v, by unfold eCostIM; rw [if_pos hn, h1]; rfl, ?_⟩
  have k : |(∫ x in Ioi (0 : ℝ), e x * |d x|) - (∫ x in Ioi (0 : ℝ), e x * dens m s x)| ≤ ∫ x in Ioi (0 : ℝ), |e x| * δ x := by
    rw [← integral_sub int2 int1]
    have a : ∀ᵐ x ∂(volume.restrict (Ioi (0 : ℝ))), ‖e x * |d x| - e x * dens m s x‖ ≤ |e x| * δ x :=
      (ae_restrict_iff' measurableSet_Ioi).2 (ae_of_all _ fun x hx => dif x hx)
    exact norm_integral_le_of_norm_le hiδ a
  rw [integral_dens hs] at k
  have := abs_sub_le v (∫ x in Ioi (0 : ℝ), e x * |d x|) (∫ x, e x ∂(LN m s))
  rw [totalMean]
  linarith

/-! ## Instances -/

/-- The routines in exact arithmetic. -/
def real : Lib where
  rnd x := .fin x
  rexp x := .fin (Real.exp x)
  rlog x := .fin (Real.log x)
  cube y := .fin (y ^ (1 / 3 : ℝ))
  square y := .fin (y ^ (1 / 2 : ℝ))

theorem real_exact : Exact real where
  rnd _ := rfl
  cube y h0 h1 := ⟨_, rfl, Real.rpow_pos_of_pos h0 _, Real.rpow_le_one h0.le h1.le (by norm_num)⟩
  square y h0 h1 := ⟨_, rfl, Real.rpow_pos_of_pos h0 _, Real.rpow_le_one h0.le h1.le (by norm_num)⟩

/-- The hazard `exp(-x)` as a function. -/
def expFn : Dbl → Dbl
  | .fin x => .fin (Real.exp (-x))
  | _ => .nan

/-- Its derivatives. -/
def expChain (k : ℕ) (t : ℝ) : ℝ := (-1) ^ k * Real.exp (-t)

theorem expChain_ok (n : ℕ) (a b : ℝ) : Chain expChain n a b := fun k _ t _ => by
  have : HasDerivAt (fun t => Real.exp (-t)) (-Real.exp (-t)) t := by simpa using (hasDerivAt_neg t).exp
  refine (this.const_mul ((-1 : ℝ) ^ k)).congr_deriv ?_
  rw [expChain]; ring

theorem expChain_le (k : ℕ) {t : ℝ} (ht : -1 ≤ t) : |expChain k t| ≤ 3 := by
  rw [expChain, abs_mul, abs_pow, abs_neg, abs_one, one_pow, one_mul, Real.abs_exp]
  exact (Real.exp_le_exp.2 (by linarith : -t ≤ 1)).trans Real.exp_one_lt_three.le

/-- The numerical derivative of this hazard at 1 is right to 34 places. -/
example : ∃ r, real.derivativeAt expFn (.fin 1) = .fin r ∧ |r + Real.exp (-1)| ≤ 1 / 10 ^ 33 := by
  obtain ⟨r, e, k⟩ := derivative_close real_exact expFn expChain 1 3 (expChain_ok _ _ _) (fun t _ => by simp [expFn, expChain])
    (fun t ht => expChain_le _ (by have := ht.1; rw [h] at this; linarith))
  refine ⟨r, e, ?_⟩
  have k' : |r - expChain 1 1| ≤ 1 / 10 ^ 33 := k.trans (by rw [h]; norm_num)
  simpa [expChain] using k'

/-- Polynomials, and a kink. -/
example : (∀ f : Dbl → Dbl, (∀ t, f (.fin t) = .fin (1 + t + 3 * t ^ 4)) → real.derivativeAt f (.fin 2) = .fin 97) ∧
    ∀ f : Dbl → Dbl, (∀ t, f (.fin t) = .fin (if t ≤ 2 then 5 + 1 * (t - 2) else 5 + 3 * (t - 2))) → real.derivativeAt f (.fin 2) = .fin 2 := by
  refine ⟨fun f hf => ?_, fun f hf => ?_⟩
  · rw [derivative_of_quartic real_exact f 1 1 0 0 3 2 (fun t _ => by rw [hf, fin_inj]; ring), fin_inj]; norm_num
  · rw [derivative_at_kink real_exact f 1 3 2 5 (fun t _ => hf t), fin_inj]; norm_num

/-- A table with the points (0, 0), (1, 2), (3, 4): slopes 2 and 1. -/
example : ∃ f, Functions.linearFn [(0, 0), (1, 2), (3, 4)] = some f ∧ real.derivativeAt f (.fin (1 / 2)) = .fin 2 ∧
    real.derivativeAt f (.fin 1) = .fin (3 / 2) ∧ real.derivativeAt f (.fin 0) = .fin 1 ∧ real.derivativeAt f (.fin 3) = .fin (1 / 2) ∧
    real.derivativeAt f (.fin 4) = .fin 0 := by
  obtain ⟨f, hf⟩ := Option.isSome_iff_exists.1 ((Functions.linear_constructs_iff [(0, 0), (1, 2), (3, 4)]).2 (by norm_num))
  obtain ⟨h1, h2, h3, h4, h5⟩ := derivative_of_table real_exact _ f hf
  refine ⟨f, hf, ?_, ?_, ?_, ?_, ?_⟩
  · rw [h1 [] (0, 0) (1, 2) _ rfl (1 / 2) (by norm_num [h]) (by norm_num [h]), fin_inj]; norm_num [slope]
  · rw [h2 [] (0, 0) (1, 2) (3, 4) _ rfl (by norm_num [h]) (by norm_num [h]), fin_inj]; norm_num [slope]
  · rw [h3 (0, 0) (1, 2) _ rfl (by norm_num [h]), fin_inj]; norm_num [slope]
  · rw [h4 [(0, 0)] (1, 2) (3, 4) rfl (by norm_num [h]), fin_inj]; norm_num [slope]
  · exact h5 (0, 0) (3, 4) rfl rfl 4 (Or.inr (by norm_num [h]))

/-- The power law `2 t^6` at 1. -/
example (f : Dbl → Dbl) (hf : ∀ t, f (.fin t) = Functions.plc 2 6 t) :
    ∃ r, real.derivativeAt f (.fin 1) = .fin r ∧ |r - 12| ≤ 1 / 10 ^ 30 := by
  obtain ⟨r, e, k⟩ := derivative_of_power_law real_exact f 2 6 1 (by norm_num [h]) hf
  refine ⟨r, e, ?_⟩
  rw [show (6 : ℝ) - 5 = 1 by norm_num, Real.rpow_one, Real.rpow_one, max_eq_right (by linarith [h_pos]), Real.one_rpow] at k
  norm_num [h] at k ⊢
  linarith

/-- Right of 0, and left of the end of the domain. -/
example : (∃ r, real.derivativeAt (fun x => if x < 0 then .nan else expFn x) (.fin 0) = .fin r ∧ |r + 1| ≤ 1 / 10 ^ 22) ∧
    (∃ r, real.derivativeAt (fun x => if .fin 1 < x then .nan else expFn x) (.fin 1) = .fin r ∧ |r + Real.exp (-1)| ≤ 1 / 10 ^ 22) ∧
    ∃ r, real.edpDerivativeAt expFn (.fin 0) = .fin r ∧ |r + 1| ≤ 1 / 10 ^ 22 := by
  have b : ∀ t, -1 ≤ t → |expChain 4 t| ≤ 3 := fun t ht => expChain_le _ ht
  have c : 4 / 5 * 3 * h ^ 3 ≤ 1 / 10 ^ 22 := by rw [h]; norm_num
  have hp := h_pos
  have h1 : h < 1 := by rw [h]; norm_num
  refine ⟨?_, ?_, ?_⟩
  · obtain ⟨r, e, k⟩ := derivative_near_zero real_exact (fun x => if x < 0 then .nan else expFn x) expChain 0 3 le_rfl h_pos
      (fun t ht => by simp [ht]) (expChain_ok _ _ _) (fun t ht => by simp [expFn, expChain, ht.1]) (fun t ht => b t (by linarith [ht.1]))
    exact ⟨r, e, by simpa [expChain] using k.trans c⟩
  · obtain ⟨r, e, k⟩ := derivative_at_right_end real_exact (fun x => if .fin 1 < x then .nan else expFn x) expChain 1 1 3 le_rfl
      (by linarith) (fun t ht => by simp [ht]) (expChain_ok _ _ _) (fun t ht => by simp [expFn, expChain, ht.2])
      (fun t ht => b t (by linarith [ht.1]))
    exact ⟨r, e, by simpa [expChain] using k.trans c⟩
  · obtain ⟨r, e, k⟩ := edp_derivative_close real_exact expFn expChain 0 3 (expChain_ok _ _ _) (fun t ht => by simp [expFn, expChain])
      (fun t ht => b t (by linarith [ht.1]))
    exact ⟨r, e, by simpa [expChain] using k.trans c⟩

/-- In `double`: the correctly rounded hazard `exp(-x)` at 1. -/
example : ∃ r, double.derivativeAt (fun x => match x with | .fin t => .fin (nearest (Real.exp (-t))) | _ => .nan) (.fin 1) = .fin r ∧
    |r + Real.exp (-1)| ≤ 1 / 10 ^ 5 := by
  have hp := h_pos
  have h1 : 3 * h < 1 := by rw [h]; norm_num
  have b : ∀ k, ∀ t ∈ Icc (1 - 3 * h) (1 + 3 * h), |expChain k t| ≤ 3 := fun k t ht => expChain_le k (by linarith [ht.1])
  obtain ⟨r, e, k⟩ := derivative_machine (L := double) ieee_accurate (by rw [machineEps]; norm_num)
    (fun x => match x with | .fin t => .fin (nearest (Real.exp (-t))) | _ => .nan) expChain 1 (machineEps / 2 * 3) 3 3 3 3 (by norm_num)
    (expChain_ok _ _ _) (fun t ht => ⟨_, rfl, by
      have := nearest_near (Real.exp (-t))
      have b0 := b 0 t ht
      simp only [expChain, pow_zero, one_mul, machineEps] at b0 ⊢
      refine this.trans ?_
      rw [show (1 : ℝ) / 2 ^ 52 / 2 = 1 / 2 ^ 53 by norm_num]
      gcongr⟩) (b 0) (b 1) (b 3) (b 5)
  refine ⟨r, e, ?_⟩
  have : |r - expChain 1 1| ≤ 1 / 10 ^ 5 := k.trans (by rw [machineEps, h, abs_one]; norm_num)
  simpa [expChain] using this

/-- The identity at 2^28: its derivative is given as 0. -/
example : double.derivativeAt id (.fin (2 ^ 28)) = .fin 0 := by
  refine derivative_large_fails id _ (2 ^ 28) ?_ (by norm_num) rfl
  have := nearest_eval (x := 2 ^ 28) (2 ^ 52) (-24) (by norm_num) (by norm_num) (by norm_num)
  rw [this]; norm_num

/-- Three components that cost as much as the demand, which is of the order of 2^28. -/
example : Rates.costIntegrand double.gsl { Rates.three with edp := .plain (growing (2 ^ 28)) } (.fin 1) (.fin (2 ^ 28)) = .fin 0 := by
  refine large_demand_costs_nothing_fails { Rates.three with edp := .plain (growing (2 ^ 28)) } 1 (2 ^ 28) (2 ^ 28) _ ?_ (by norm_num)
    (three_costs (2 ^ 28) (by norm_num)).1 (by
      rw [Rates.Group.guarded, if_neg (by simp)]
      exact (LogNormalDist.p_at_most_is_cdf (Real.log (2 ^ 28 * 1)) (by norm_num : (0 : ℝ) < 1 / 2) (by norm_num : (0 : ℝ) ≤ 2 ^ 28)).2)
  have := nearest_eval (x := 2 ^ 28) (2 ^ 52) (-24) (by norm_num) (by norm_num) (by norm_num)
  rw [this]; norm_num

/-- A derivative of the hazard `exp(-x)` that is one per cent too large: the rate is at most 0.01 off. -/
example : ∃ v, calcLambda ideal ⟨dist (some (1, 1 / 2)), dist none⟩ (fun x => match x with | .fin t => .fin (-Real.exp (-t) * (101 / 100)) | _ => .nan)
      (.plain (growing 2)) (.fin 1) = .fin v ∧
    |v - demandRate (some (1, 1 / 2)) none (fun x => Real.log (2 * x)) (fun _ => 1 / 2) (fun x => -Real.exp (-x)) 1| ≤ 1 / 100 := by
  have tot : ∫ x in Ioi (0 : ℝ), Real.exp (-x) = 1 := by simpa using integral_exp_neg_Ioi_zero
  obtain ⟨v, e, k⟩ := demand_rate_error expHazard (fun x => match x with | .fin t => .fin (-Real.exp (-t) * (101 / 100)) | _ => .nan) _ _ _
    expHazard_ok (fun t => -Real.exp (-t) * (101 / 100)) (fun t => Real.exp (-t) / 100) (fun _ _ => rfl) (by fun_prop) (fun x _ => by
      rw [show -Real.exp (-x) * (101 / 100) - -Real.exp (-x) = -(Real.exp (-x) / 100) by ring, abs_neg, abs_of_pos (by positivity)])
    (Integrable.div_const (μ := volume.restrict (Ioi 0)) (f := fun x => Real.exp (-x)) (by simpa using expHazard_ok.integrable.neg.norm) 100)
    _ _ _ (growing_ok 2) (some (1, 1 / 2)) none (by simp) (by simp) ideal 0 1 zero_le_one (ideal_integrates _)
  refine ⟨v, e, k.trans ?_⟩
  rw [integral_div, tot, zero_add]

/-- Routines whose results are one per cent too large. -/
def off : Gsl where
  central f x := .fin (101 / 100) * idealGsl.central f x
  forward f x := .fin (101 / 100) * idealGsl.forward f x
  backward f x := .fin (101 / 100) * idealGsl.backward f x

/-- A derivative of the exceedance probability that is one per cent too large: the expected cost is at most one per cent off. -/
example : ∃ v, eCostIM ideal off Rates.three (.fin 1) = .fin v ∧
      |v - totalMean (LN (Real.log 2) (1 / 2)) id| ≤ 1 / 100 * totalMean (LN (Real.log 2) (1 / 2)) id := by
  have hs : (0 : ℝ) < 1 / 2 := by norm_num
  have md : Measurable (dens (Real.log 2) (1 / 2)) := by
    unfold dens
    exact ((ProbabilityTheory.measurable_gaussianPDFReal 0 1).comp (by fun_prop)).div (by fun_prop)
  have eqn : ∀ x ∈ Ioi (0 : ℝ), |id x| * (dens (Real.log 2) (1 / 2) x / 100) = 1 / 100 * (id x * dens (Real.log 2) (1 / 2) x) := by
    intro x hx
    rw [id, abs_of_pos hx]; ring
  have hg : ∀ x, 0 < x → off.deriv (Rates.three.guarded (.fin 1)) (.fin x) = .fin (-(101 / 100 * dens (Real.log 2) (1 / 2) x)) := by
    intro x hx
    have e : Rates.three.edp.at (.fin 1) = ⟨.fin (Real.log 2), .fin (1 / 2)⟩ := by
      rw [show Real.log 2 = Real.log (2 * 1) by rw [mul_one]]; rfl
    have := idealGsl_ok (Rates.three.guarded (.fin 1)) (fun y => 1 - Phi ((Real.log y - Real.log 2) / (1 / 2))) x _ hx (fun t ht => by
      simp only [Rates.Group.guarded, zero_def, fin_feq, fin_lt, one_ne_zero, not_lt.2 ht.le, or_self, if_false,
        Edp.pExceedence, e, pAtLeast_pos (Real.log 2) hs ht]) (dens_hasDerivAt hs hx)
    simp only [Gsl.deriv, idealGsl, isNaN_fin, if_false, fin_inj] at this
    simp only [Gsl.deriv, off, idealGsl, fin_mul, isNaN_fin, if_false, fin_inj]
    rw [this]
    ring
  obtain ⟨v, e, k⟩ := expected_cost_error off Rates.three (by norm_num [Rates.three]) 1 (Real.log 2) (1 / 2) hs id _ three_costs (integrable_id_LN _ _)
    (fun x => -(101 / 100 * dens (Real.log 2) (1 / 2) x)) (fun x => dens (Real.log 2) (1 / 2) x / 100) hg (md.const_mul _).neg
    (fun x hx D hD => by
      rw [hD.unique (dens_hasDerivAt hs hx)]
      have := dens_nonneg (m := Real.log 2) hs hx
      rw [show -(101 / 100 * dens (Real.log 2) (1 / 2) x) - -dens (Real.log 2) (1 / 2) x = -(dens (Real.log 2) (1 / 2) x / 100) by ring,
        abs_neg, abs_of_nonneg (by positivity)]) measurable_id
    (((integrable_dens hs id).2 (integrable_id_LN _ _)).const_mul (1 / 100) |>.congr
      ((ae_restrict_iff' measurableSet_Ioi).2 (ae_of_all _ fun x hx => (eqn x hx).symm))) ideal 0 (ideal_integrates _)
  refine ⟨v, e, k.trans (le_of_eq ?_)⟩
  rw [setIntegral_congr_fun measurableSet_Ioi eqn, integral_const_mul, integral_dens hs, zero_add, totalMean]

end

end Slat.Deriv
