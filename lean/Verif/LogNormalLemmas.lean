import Verif.LogNormalPhi

/-!
# Lemmas about the log-normal model
-/

namespace Slat

open Dbl

namespace LogNormalDist

/-- A usable distribution: numeric spread, and a location that is a number or (for a zero mean) `-inf`. -/
def Proper (d : LogNormalDist) : Prop :=
  ∃ s : ℝ, d.sigma = .fin s ∧ ((∃ m : ℝ, d.mu = .fin m) ∨ d.mu = .ninf)

/-- `exp(s²) - 1` is non-negative. -/
theorem expm1_nonneg (s : ℝ) : 0 ≤ Real.exp (s * s) - 1 := by
  have := Real.add_one_le_exp (s * s)
  nlinarith [mul_self_nonneg s]

theorem getMean_fin (m s : ℝ) : getMean ⟨.fin m, .fin s⟩ = .fin (Real.exp (m + s * s / 2)) := by
  simp [getMean]

theorem getMean_ninf (s : Dbl) : getMean ⟨.ninf, s⟩ = .fin 0 := by
  simp [getMean]

theorem getMean_nan (s : Dbl) : getMean ⟨.nan, s⟩ = .nan := by
  simp [getMean]

theorem getSigma_fin (m s : ℝ) : getSigma ⟨.fin m, .fin s⟩ =
    .fin (Real.exp (m + s * s / 2) * Real.sqrt (Real.exp (s * s) - 1)) := by
  simp only [getSigma, getMean_fin, getSigmaLn, not_fin_feq_ninf, if_false, fin_mul, exp_fin, one_def, fin_sub]
  rw [sqrt_fin (expm1_nonneg s)]
  simp

theorem getSigma_ninf (s : Dbl) : getSigma ⟨.ninf, s⟩ = .fin 0 := by
  simp [getSigma]

/-- Mean and standard deviation of a usable distribution. -/
theorem Proper.moments {d : LogNormalDist} (h : d.Proper) :
    ∃ m s : ℝ, 0 ≤ m ∧ 0 ≤ s ∧ d.getMean = .fin m ∧ d.getSigma = .fin s ∧ (m = 0 → s = 0) := by
  obtain ⟨s, hs, ⟨m, hm⟩ | hm⟩ := h
  · obtain ⟨mu, sg⟩ := d
    simp only at hs hm
    subst hs hm
    refine ⟨_, _, (Real.exp_pos _).le, ?_, getMean_fin m s, getSigma_fin m s, ?_⟩
    · exact mul_nonneg (Real.exp_pos _).le (Real.sqrt_nonneg _)
    · intro h; exact absurd h (Real.exp_pos _).ne'
  · obtain ⟨mu, sg⟩ := d
    simp only at hs hm
    subst hs hm
    exact ⟨0, 0, le_rfl, le_rfl, getMean_ninf _, getSigma_ninf _, fun _ => rfl⟩

/-- Log spread computed from positive mean and standard deviation. -/
theorem sigmaLn_pos {m : ℝ} (hm : m ≠ 0) (s : ℝ) :
    sigmaLnFromMeanSigma (.fin m) (.fin s) = .fin (Real.sqrt (Real.log (1 + s * s / (m * m)))) := by
  have hq : 0 ≤ s * s / (m * m) := div_nonneg (mul_self_nonneg s) (mul_self_nonneg m)
  simp only [sigmaLnFromMeanSigma, zero_def, fin_feq, hm, if_false, fin_mul, one_def]
  rw [fin_div_of_ne (mul_ne_zero hm hm), fin_add, log_pos (by linarith),
    sqrt_fin (Real.log_nonneg (by linarith))]

theorem sigmaLn_zero (s : Dbl) : sigmaLnFromMeanSigma (.fin 0) s = .fin 0 := by
  simp [sigmaLnFromMeanSigma]

/-- `ofMeanSigma` for a positive mean. -/
theorem ofMeanSigma_pos {m : ℝ} (hm : 0 < m) (s : ℝ) :
    ∃ t : ℝ, 0 ≤ t ∧ t * t = Real.log (1 + s * s / (m * m)) ∧
      ofMeanSigma (.fin m) (.fin s) = ⟨.fin (Real.log m - t * t / 2), .fin t⟩ := by
  have hq : 0 ≤ s * s / (m * m) := div_nonneg (mul_self_nonneg s) (mul_self_nonneg m)
  have hl : 0 ≤ Real.log (1 + s * s / (m * m)) := Real.log_nonneg (by linarith)
  refine ⟨Real.sqrt (Real.log (1 + s * s / (m * m))), Real.sqrt_nonneg _, Real.mul_self_sqrt hl, ?_⟩
  simp only [ofMeanSigma, sigmaLn_pos hm.ne', muFromMeanSigmaLn, log_pos hm, fin_mul, fin_div_two, fin_sub]

theorem ofMeanSigma_zero (s : Dbl) : ofMeanSigma (.fin 0) s = ⟨.ninf, .fin 0⟩ := by
  simp [ofMeanSigma, sigmaLn_zero, muFromMeanSigmaLn]

theorem ofMeanSigma_neg {m : ℝ} (hm : m < 0) (s : ℝ) : (ofMeanSigma (.fin m) (.fin s)).mu = .nan := by
  simp [ofMeanSigma, muFromMeanSigmaLn, log_neg hm]

theorem getMean_ofMeanSigma_pos {m : ℝ} (hm : 0 < m) (s : ℝ) :
    getMean (ofMeanSigma (.fin m) (.fin s)) = .fin m := by
  obtain ⟨t, -, -, h⟩ := ofMeanSigma_pos hm s
  rw [h, getMean_fin, sub_add_cancel, Real.exp_log hm]

theorem getSigma_ofMeanSigma_pos {m : ℝ} (hm : 0 < m) (s : ℝ) :
    getSigma (ofMeanSigma (.fin m) (.fin s)) = .fin |s| := by
  obtain ⟨t, -, ht, h⟩ := ofMeanSigma_pos hm s
  have hq : 0 ≤ s * s / (m * m) := div_nonneg (mul_self_nonneg s) (mul_self_nonneg m)
  rw [h, getSigma_fin, sub_add_cancel, Real.exp_log hm, ht, Real.exp_log (by linarith), add_sub_cancel_left]
  congr 1
  rw [Real.sqrt_div' _ (mul_self_nonneg m), Real.sqrt_mul_self hm.le, Real.sqrt_mul_self_eq_abs]
  field_simp

theorem getMean_ofMeanSigma {m : ℝ} (hm : 0 ≤ m) (s : ℝ) :
    getMean (ofMeanSigma (.fin m) (.fin s)) = .fin m := by
  rcases hm.lt_or_eq with h | h
  · exact getMean_ofMeanSigma_pos h s
  · rw [← h, ofMeanSigma_zero, getMean_ninf]

theorem proper_ofMeanSigma {m : ℝ} (hm : 0 ≤ m) (s : ℝ) : (ofMeanSigma (.fin m) (.fin s)).Proper := by
  rcases hm.lt_or_eq with h | h
  · obtain ⟨t, -, -, h⟩ := ofMeanSigma_pos h s
    rw [h]
    exact ⟨t, rfl, Or.inl ⟨_, rfl⟩⟩
  · rw [← h, ofMeanSigma_zero]
    exact ⟨0, rfl, Or.inr rfl⟩

end LogNormalDist

end Slat
