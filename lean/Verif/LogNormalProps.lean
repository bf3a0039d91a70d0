import Verif.LogNormalLemmas
import Mathlib.Probability.Moments.Variance

/-!
# Properties of `LogNormalDist` (C14-C18, C46, C47)

Specification side: the law `LN m s` of `exp(Z)` with `Z` Gaussian of mean `m` and standard deviation `s`,
its distribution function, mean and variance, and plain sums over lists of reals.
-/

namespace Slat

open Dbl MeasureTheory ProbabilityTheory

/-- The log-normal law: the law of `exp Z`, `Z` Gaussian with mean `m` and standard deviation `|s|`. -/
noncomputable def LN (m s : ℝ) : Measure ℝ :=
  (gaussianReal m (NNReal.mk (s ^ 2) (sq_nonneg s))).map Real.exp

namespace LogNormalDist

/-! ### C14: constructors and accessors -/

/-- Built from mean and standard deviation, a distribution reports both back exactly when the mean is
positive, or both are zero. -/
theorem mean_sd_roundtrip (m s : ℝ) (hs : 0 ≤ s) :
    ((ofMeanSigma (.fin m) (.fin s)).getMean = .fin m ∧ (ofMeanSigma (.fin m) (.fin s)).getSigma = .fin s)
      ↔ (0 < m ∨ (m = 0 ∧ s = 0)) := by
  rcases lt_trichotomy m 0 with h | h | h
  · have hn := ofMeanSigma_neg h s
    simp only [getMean, hn, not_nan_feq, if_false, nan_add, exp_nan, reduceCtorEq, false_and, false_iff]
    rintro (h1 | ⟨h1, -⟩) <;> linarith
  · subst h
    rw [ofMeanSigma_zero, getMean_ninf, getSigma_ninf]
    simp [eq_comm]
  · simp [getMean_ofMeanSigma_pos h, getSigma_ofMeanSigma_pos h, abs_of_nonneg hs, h]

/-- A non-trivial case: mean 2, standard deviation 3. -/
example : (ofMeanSigma (.fin 2) (.fin 3)).getMean = .fin 2 ∧ (ofMeanSigma (.fin 2) (.fin 3)).getSigma = .fin 3 :=
  (mean_sd_roundtrip 2 3 (by norm_num)).2 (Or.inl (by norm_num))

/-- Built from mean and log spread. -/
theorem mean_sdln_roundtrip (m s : ℝ) (hm : 0 < m) :
    (ofMeanSigmaLn (.fin m) (.fin s)).getMean = .fin m ∧
    (ofMeanSigmaLn (.fin m) (.fin s)).getSigmaLn = .fin s := by
  refine ⟨?_, rfl⟩
  simp only [ofMeanSigmaLn, muFromMeanSigmaLn, log_pos hm, fin_mul, fin_div_two, fin_sub]
  rw [getMean_fin, sub_add_cancel, Real.exp_log hm]

example : (ofMeanSigmaLn (.fin 5) (.fin (1/2))).getMean = .fin 5 := (mean_sdln_roundtrip 5 (1/2) (by norm_num)).1

/-- A zero mean stays a zero mean whatever the log spread, and has no spread. -/
theorem zero_mean_sdln (s : ℝ) :
    (ofMeanSigmaLn (.fin 0) (.fin s)).getMean = .fin 0 ∧ (ofMeanSigmaLn (.fin 0) (.fin s)).getSigma = .fin 0 ∧
    (ofMeanSigmaLn (.fin 0) (.fin s)).getMedian = .fin 0 := by
  simp [ofMeanSigmaLn, muFromMeanSigmaLn, getMean_ninf, getSigma_ninf, getMedian]

/-- Built from median and log spread. -/
theorem median_sdln_roundtrip (m s : ℝ) (hm : 0 < m) :
    (ofMedianSigmaLn (.fin m) (.fin s)).getMedian = .fin m ∧
    (ofMedianSigmaLn (.fin m) (.fin s)).getSigmaLn = .fin s := by
  simp [ofMedianSigmaLn, getMedian, getSigmaLn, log_pos hm, Real.exp_log hm]

example : (ofMedianSigmaLn (.fin 7) (.fin (1/3))).getMedian = .fin 7 := (median_sdln_roundtrip 7 (1/3) (by norm_num)).1

/-- All four ways of describing one distribution give the same object: taking the reported mean, standard
deviation, median and log spread of a distribution with non-negative log spread and rebuilding it from any
documented pair returns the same parameters. -/
theorem rebuild (m s : ℝ) (hs : 0 ≤ s) :
    let d := ofMuSigmaLn (.fin m) (.fin s)
    ofMuSigmaLn d.getMuLn d.getSigmaLn = d ∧ ofMedianSigmaLn d.getMedian d.getSigmaLn = d ∧
    ofMeanSigmaLn d.getMean d.getSigmaLn = d ∧ ofMeanSigma d.getMean d.getSigma = d := by
  refine ⟨rfl, ?_, ?_, ?_⟩
  · simp [ofMedianSigmaLn, ofMuSigmaLn, getMedian, getSigmaLn, log_pos (Real.exp_pos m)]
  · simp [ofMeanSigmaLn, ofMuSigmaLn, getMean_fin, getSigmaLn, muFromMeanSigmaLn, log_pos (Real.exp_pos _)]
  · simp only [ofMuSigmaLn]
    rw [getMean_fin, getSigma_fin]
    obtain ⟨t, ht, htt, h⟩ := ofMeanSigma_pos (Real.exp_pos (m + s * s / 2))
      (Real.exp (m + s * s / 2) * Real.sqrt (Real.exp (s * s) - 1))
    have hts : t * t = s * s := by
      rw [htt]
      have h1 := Real.mul_self_sqrt (expm1_nonneg s)
      have h2 := (Real.exp_pos (m + s * s / 2)).ne'
      rw [show Real.exp (m + s * s / 2) * Real.sqrt (Real.exp (s * s) - 1) *
          (Real.exp (m + s * s / 2) * Real.sqrt (Real.exp (s * s) - 1)) =
          (Real.exp (m + s * s / 2) * Real.exp (m + s * s / 2)) *
          (Real.sqrt (Real.exp (s * s) - 1) * Real.sqrt (Real.exp (s * s) - 1)) by ring, h1,
        mul_div_cancel_left₀ _ (mul_ne_zero h2 h2), add_sub_cancel, Real.log_exp]
    have hte : t = s := by
      rwa [mul_self_inj ht hs] at hts
    rw [h, hte, Real.log_exp, add_sub_cancel_right]

example : ofMeanSigma (ofMuSigmaLn (.fin 1) (.fin 2)).getMean (ofMuSigmaLn (.fin 1) (.fin 2)).getSigma
    = ofMuSigmaLn (.fin 1) (.fin 2) := (rebuild 1 2 (by norm_num)).2.2.2

/-! ### C15: exceedance probabilities -/

/-- Argument of the normal distribution function for a positive amount. -/
theorem pAtMost_pos (m : ℝ) {s x : ℝ} (hs : 0 < s) (hx : 0 < x) :
    pAtMost ⟨.fin m, .fin s⟩ (.fin x) = .fin (Phi ((Real.log x - m) / s)) := by
  simp only [pAtMost, isNaN_fin, false_and, if_false, log_pos hx, fin_sub, fin_div_of_ne hs.ne', gslP, zero_def,
    fin_lt, (Phi_nonneg _).not_gt]

theorem pAtLeast_pos (m : ℝ) {s x : ℝ} (hs : 0 < s) (hx : 0 < x) :
    pAtLeast ⟨.fin m, .fin s⟩ (.fin x) = .fin (1 - Phi ((Real.log x - m) / s)) := by
  have : ¬ (1 - Phi ((Real.log x - m) / s) < 0) := by
    have := Phi_le_one ((Real.log x - m) / s)
    linarith
  simp only [pAtLeast, isNaN_fin, false_and, if_false, log_pos hx, fin_sub, fin_div_of_ne hs.ne', gslQ, zero_def,
    fin_lt, this]

theorem pAtMost_zero (m : ℝ) {s : ℝ} (hs : 0 < s) : pAtMost ⟨.fin m, .fin s⟩ (.fin 0) = .fin 0 := by
  simp [pAtMost, ninf_div_fin, hs.not_gt, gslP]

theorem pAtLeast_zero (m : ℝ) {s : ℝ} (hs : 0 < s) : pAtLeast ⟨.fin m, .fin s⟩ (.fin 0) = .fin 1 := by
  simp [pAtLeast, ninf_div_fin, hs.not_gt, gslQ]

/-- `p_at_most` is the distribution function of the log-normal law with the given parameters, and
`p_at_least` its complement, at every non-negative amount (no finite amount is excluded). -/
theorem p_at_most_is_cdf (m : ℝ) {s x : ℝ} (hs : 0 < s) (hx : 0 ≤ x) :
    pAtMost ⟨.fin m, .fin s⟩ (.fin x) = .fin ((LN m s).real (Set.Iic x)) ∧
    pAtLeast ⟨.fin m, .fin s⟩ (.fin x) = .fin ((LN m s).real (Set.Ici x)) := by
  have hne : NNReal.mk (s ^ 2) (sq_nonneg s) ≠ 0 := by
    rw [ne_eq, ← NNReal.coe_inj]
    simpa using hs.ne'
  rcases hx.lt_or_eq with h | h
  · have e1 : (LN m s).real (Set.Iic x) = Phi ((Real.log x - m) / s) := by
      rw [Phi_standardise m hs, LN, measureReal_def, measureReal_def,
        Measure.map_apply Real.measurable_exp measurableSet_Iic]
      congr 2
      ext y
      simp [Real.le_log_iff_exp_le h]
    have e2 : (LN m s).real (Set.Ici x) = 1 - Phi ((Real.log x - m) / s) := by
      rw [Phi_standardise m hs, LN, measureReal_def,
        Measure.map_apply Real.measurable_exp measurableSet_Ici, ← measureReal_def]
      have : Real.exp ⁻¹' Set.Ici x = Set.Ici (Real.log x) := by
        ext y
        simp [Real.log_le_iff_le_exp h]
      have hn := nullSingletonClass_gaussianReal (μ := m) hne
      rw [this, measureReal_congr (Iio_ae_eq_Iic.symm : Set.Iic (Real.log x) =ᵐ[_] _),
        ← probReal_compl_eq_one_sub measurableSet_Iio, Set.compl_Iio]
    rw [pAtMost_pos m hs h, pAtLeast_pos m hs h, e1, e2]
    exact ⟨rfl, rfl⟩
  · subst h
    rw [pAtMost_zero m hs, pAtLeast_zero m hs, LN, measureReal_def, measureReal_def,
      Measure.map_apply Real.measurable_exp measurableSet_Iic,
      Measure.map_apply Real.measurable_exp measurableSet_Ici]
    have e1 : Real.exp ⁻¹' Set.Iic 0 = ∅ := by
      ext y; simp [Real.exp_pos]
    have e2 : Real.exp ⁻¹' Set.Ici 0 = Set.univ := by
      ext y; simp [(Real.exp_pos y).le]
    simp [e1, e2]

example : pAtMost ⟨.fin 0, .fin 1⟩ (.fin 3) = .fin ((LN 0 1).real (Set.Iic 3)) :=
  (p_at_most_is_cdf 0 (by norm_num) (by norm_num)).1

/-- Both are probabilities, they sum to one, `p_at_most` does not decrease and `p_at_least` does not increase;
the median splits the probability in halves, nothing lies below 0 or above `+inf`. -/
theorem exceedance_is_probability (m : ℝ) {s : ℝ} (hs : 0 < s) :
    (∀ x : ℝ, 0 ≤ x → ∃ p : ℝ, 0 ≤ p ∧ p ≤ 1 ∧ pAtMost ⟨.fin m, .fin s⟩ (.fin x) = .fin p ∧
      pAtLeast ⟨.fin m, .fin s⟩ (.fin x) = .fin (1 - p)) ∧
    (∀ x y : ℝ, 0 ≤ x → x < y →
      pAtMost ⟨.fin m, .fin s⟩ (.fin x) < pAtMost ⟨.fin m, .fin s⟩ (.fin y) ∧
      pAtLeast ⟨.fin m, .fin s⟩ (.fin y) < pAtLeast ⟨.fin m, .fin s⟩ (.fin x)) ∧
    pAtMost ⟨.fin m, .fin s⟩ (getMedian ⟨.fin m, .fin s⟩) = .fin (1 / 2) ∧
    pAtMost ⟨.fin m, .fin s⟩ (.fin 0) = .fin 0 ∧ pAtMost ⟨.fin m, .fin s⟩ .pinf = .fin 1 ∧
    pAtLeast ⟨.fin m, .fin s⟩ .pinf = .fin 0 := by
  refine ⟨?_, ?_, ?_, pAtMost_zero m hs, ?_, ?_⟩
  · intro x hx
    rcases hx.lt_or_eq with h | h
    · exact ⟨_, Phi_nonneg _, Phi_le_one _, pAtMost_pos m hs h, pAtLeast_pos m hs h⟩
    · subst h
      exact ⟨0, le_rfl, zero_le_one, pAtMost_zero m hs, by rw [pAtLeast_zero m hs]; simp⟩
  · intro x y hx hxy
    have hy : 0 < y := lt_of_le_of_lt hx hxy
    rw [pAtMost_pos m hs hy, pAtLeast_pos m hs hy]
    rcases hx.lt_or_eq with h | h
    · rw [pAtMost_pos m hs h, pAtLeast_pos m hs h, fin_lt, fin_lt]
      have := Phi_strictMono (show (Real.log x - m) / s < (Real.log y - m) / s by
        have := Real.log_lt_log h hxy
        gcongr)
      constructor <;> linarith
    · subst h
      rw [pAtMost_zero m hs, pAtLeast_zero m hs, fin_lt, fin_lt]
      have := Phi_pos ((Real.log y - m) / s)
      constructor <;> linarith
  · rw [getMedian, exp_fin, pAtMost_pos m hs (Real.exp_pos m), Real.log_exp, sub_self, zero_div, Phi_zero]
  · simp [pAtMost, pinf_div_fin, hs.not_gt, gslP]
  · simp [pAtLeast, pinf_div_fin, hs.not_gt, gslQ]

example : pAtMost ⟨.fin 1, .fin 2⟩ (.fin 3) < pAtMost ⟨.fin 1, .fin 2⟩ (.fin 4) :=
  ((exceedance_is_probability 1 (by norm_num)).2.1 3 4 (by norm_num) (by norm_num)).1

/-- An unset distribution answers NaN. -/
theorem unset_answers_nan (x : Dbl) : unset.pAtMost x = .nan ∧ unset.pAtLeast x = .nan ∧
    unset.getMean = .nan ∧ unset.getMedian = .nan ∧ unset.getSigma = .nan := by
  simp [unset, pAtMost, pAtLeast, getMean, getMedian, getSigma]

/-- A cost that is always zero (zero mean) never exceeds a positive amount and is always at most that amount. -/
theorem zero_mean_never_exceeds {s x : ℝ} (hs : 0 ≤ s) (hx : 0 < x) :
    (ofMeanSigmaLn (.fin 0) (.fin s)).pAtLeast (.fin x) = .fin 0 ∧
    (ofMeanSigmaLn (.fin 0) (.fin s)).pAtMost (.fin x) = .fin 1 := by
  rcases hs.eq_or_lt with rfl | h
  · simp [ofMeanSigmaLn, muFromMeanSigmaLn, pAtLeast, pAtMost, log_pos hx, gslP, gslQ, pinf_div_fin]
  · simp [ofMeanSigmaLn, muFromMeanSigmaLn, pAtLeast, pAtMost, log_pos hx, gslP, gslQ, pinf_div_fin, h.not_gt]

example : (ofMeanSigmaLn (.fin 0) (.fin (1/2))).pAtLeast (.fin 3) = .fin 0 :=
  (zero_mean_never_exceeds (by norm_num) (by norm_num)).1

/-- A distribution whose location is not a number although its spread is one (built from a negative mean): it never
exceeds anything, but the complementary probability is not 1: it is not a number. -/
theorem half_set_complement_fails (m s : ℝ) (hm : m < 0) (x : Dbl) :
    (ofMeanSigmaLn (.fin m) (.fin s)).pAtLeast x = .fin 0 ∧ (ofMeanSigmaLn (.fin m) (.fin s)).pAtMost x = .nan := by
  have : (ofMeanSigmaLn (.fin m) (.fin s)) = ⟨.nan, .fin s⟩ := by
    simp [ofMeanSigmaLn, muFromMeanSigmaLn, log_neg hm]
  rw [this]
  constructor
  · simp [pAtLeast]
  · cases x <;> simp [pAtMost, gslP]

example : (ofMeanSigmaLn (.fin (-1)) (.fin (1/2))).pAtLeast (.fin 3) = .fin 0 :=
  (half_set_complement_fails (-1) _ (by norm_num) _).1

/-- Negative amounts are answered with NaN instead of probability 0. -/
theorem negative_amount_fails (m : ℝ) {s x : ℝ} (hx : x < 0) :
    pAtMost ⟨.fin m, .fin s⟩ (.fin x) = .nan ∧ pAtLeast ⟨.fin m, .fin s⟩ (.fin x) = .nan := by
  simp [pAtMost, pAtLeast, log_neg hx, gslP, gslQ]

example : pAtMost ⟨.fin 0, .fin 1⟩ (.fin (-1)) = .nan := (negative_amount_fails 0 (by norm_num)).1

/-- A distribution without spread (legal, e.g. a fixed cost) answers the right step function away from its
value, but NaN at its value. -/
theorem zero_spread_at_value_fails (m : ℝ) :
    pAtMost ⟨.fin m, .fin 0⟩ (getMedian ⟨.fin m, .fin 0⟩) = .nan ∧
    pAtLeast ⟨.fin m, .fin 0⟩ (getMedian ⟨.fin m, .fin 0⟩) = .nan ∧
    (∀ x : ℝ, 0 < x → x < Real.exp m → pAtMost ⟨.fin m, .fin 0⟩ (.fin x) = .fin 0 ∧
      pAtLeast ⟨.fin m, .fin 0⟩ (.fin x) = .fin 1) ∧
    (∀ x : ℝ, Real.exp m < x → pAtMost ⟨.fin m, .fin 0⟩ (.fin x) = .fin 1 ∧
      pAtLeast ⟨.fin m, .fin 0⟩ (.fin x) = .fin 0) := by
  refine ⟨?_, ?_, ?_, ?_⟩
  · simp [pAtMost, getMedian, log_pos (Real.exp_pos m), fin_div, infTimes, gslP]
  · simp [pAtLeast, getMedian, log_pos (Real.exp_pos m), fin_div, infTimes, gslQ]
  · intro x hx h
    have h1 : Real.log x < m := (Real.log_lt_iff_lt_exp hx).2 h
    have h2 : ¬ (0 < Real.log x - m) := by linarith
    have h3 : Real.log x - m ≠ 0 := by linarith
    simp [pAtMost, pAtLeast, log_pos hx, fin_div, infTimes, gslP, gslQ, h3, h1.not_gt]
  · intro x h
    have hx := (Real.exp_pos m).trans h
    have h1 : m < Real.log x := (Real.lt_log_iff_exp_lt hx).2 h
    have h3 : Real.log x - m ≠ 0 := by linarith
    simp [pAtMost, pAtLeast, log_pos hx, fin_div, infTimes, gslP, gslQ, h3, h1]

/-! ### C47: percentiles -/

/-- `x_at_p` inverts `p_at_most`: for `0 < p < 1` it returns the one positive amount not exceeded with
probability `p`; it returns 0 at 0 and `+inf` at 1. -/
theorem x_at_p_inverts (m : ℝ) {s p : ℝ} (hs : 0 < s) (h0 : 0 < p) (h1 : p < 1) :
    (∃ x : ℝ, 0 < x ∧ xAtP ⟨.fin m, .fin s⟩ (.fin p) = .fin x ∧ pAtMost ⟨.fin m, .fin s⟩ (.fin x) = .fin p ∧
      ∀ y : ℝ, 0 ≤ y → pAtMost ⟨.fin m, .fin s⟩ (.fin y) = .fin p → y = x) ∧
    xAtP ⟨.fin m, .fin s⟩ (.fin 0) = .fin 0 ∧ xAtP ⟨.fin m, .fin s⟩ (.fin 1) = .pinf := by
  have hinv : Phi (gslPinv p) = p := Function.invFun_eq (Phi_surj h0 h1)
  refine ⟨⟨Real.exp (m + s * gslPinv p), Real.exp_pos _, ?_, ?_, ?_⟩, ?_, ?_⟩
  · simp [xAtP, gslLogNormalPinv, h0, h1, h0.ne', h1.ne, (Real.exp_pos _).not_gt]
  · rw [pAtMost_pos m hs (Real.exp_pos _), Real.log_exp, add_sub_cancel_left, mul_div_cancel_left₀ _ hs.ne', hinv]
  · intro y hy hp
    rcases hy.lt_or_eq with h | h
    · rw [pAtMost_pos m hs h, fin_inj] at hp
      have := Phi_strictMono.injective (hp.trans hinv.symm)
      rw [div_eq_iff hs.ne'] at this
      rw [← Real.exp_log h, show Real.log y = m + s * gslPinv p by linarith]
    · subst h
      rw [pAtMost_zero m hs, fin_inj] at hp
      linarith
  · simp [xAtP, gslLogNormalPinv]
  · simp [xAtP, gslLogNormalPinv]

/-- The median is the 50th percentile. -/
example (m s : ℝ) (hs : 0 < s) : xAtP ⟨.fin m, .fin s⟩ (.fin (1/2)) = getMedian ⟨.fin m, .fin s⟩ := by
  obtain ⟨x, hx, hp, -, hu⟩ := (x_at_p_inverts m hs (p := 1/2) (by norm_num) (by norm_num)).1
  rw [hp, ← hu (Real.exp m) (Real.exp_pos m).le ((exceedance_is_probability m hs).2.2.1)]
  rfl

/-! ### C46: reported moments are the moments of the law -/

theorem integrable_LN (m s : ℝ) (t : ℝ) :
    Integrable (fun x => Real.exp (t * x)) (gaussianReal m (NNReal.mk (s ^ 2) (sq_nonneg s))) :=
  integrable_exp_mul_gaussianReal t

theorem integral_exp_gaussian (m s t : ℝ) :
    ∫ x, Real.exp (t * x) ∂gaussianReal m (NNReal.mk (s ^ 2) (sq_nonneg s)) = Real.exp (m * t + s ^ 2 * t ^ 2 / 2) := by
  have := congrFun (mgf_id_gaussianReal (μ := m) (v := NNReal.mk (s ^ 2) (sq_nonneg s))) t
  simpa [mgf] using this

/-- The reported mean and standard deviation are the mean and standard deviation of the log-normal law with
the distribution's parameters. -/
theorem moments_are_true_moments (m s : ℝ) :
    getMean ⟨.fin m, .fin s⟩ = .fin (∫ x, x ∂LN m s) ∧
    getSigma ⟨.fin m, .fin s⟩ = .fin (Real.sqrt (Var[fun x => x; LN m s])) := by
  have hm1 : ∫ x, x ∂LN m s = Real.exp (m + s * s / 2) := by
    rw [LN, integral_map Real.measurable_exp.aemeasurable (by fun_prop)]
    have := integral_exp_gaussian m s 1
    simp only [one_mul, mul_one, one_pow] at this
    rw [this, sq]
  have hm2 : ∫ x, x ^ 2 ∂LN m s = Real.exp (2 * m + 2 * (s * s)) := by
    rw [LN, integral_map Real.measurable_exp.aemeasurable (by fun_prop)]
    have := integral_exp_gaussian m s 2
    rw [show m * 2 + s ^ 2 * 2 ^ 2 / 2 = 2 * m + 2 * (s * s) by ring] at this
    rw [← this]
    congr 1
    ext x
    rw [← Real.exp_nat_mul]
    norm_num
  have hprob : IsProbabilityMeasure (LN m s) := by
    rw [LN]
    exact Measure.isProbabilityMeasure_map Real.measurable_exp.aemeasurable
  have hL : MemLp (fun x : ℝ => x) 2 (LN m s) := by
    rw [memLp_two_iff_integrable_sq (by fun_prop)]
    rw [LN, integrable_map_measure (by fun_prop) Real.measurable_exp.aemeasurable]
    have := integrable_LN m s 2
    refine this.congr (Filter.Eventually.of_forall fun x => ?_)
    simp only [Function.comp]
    rw [← Real.exp_nat_mul]
    norm_num
  refine ⟨by rw [getMean_fin, hm1], ?_⟩
  rw [getSigma_fin, variance_eq_sub hL]
  congr 1
  have : ((fun x : ℝ => x) ^ 2) = fun x : ℝ => x ^ 2 := rfl
  rw [this, hm2, hm1]
  rw [show Real.exp (2 * m + 2 * (s * s)) - Real.exp (m + s * s / 2) ^ 2 =
    Real.exp (m + s * s / 2) ^ 2 * (Real.exp (s * s) - 1) by
      rw [mul_sub, mul_one, ← Real.exp_nat_mul, ← Real.exp_add]; congr 2; push_cast; ring]
  rw [Real.sqrt_mul (sq_nonneg _), Real.sqrt_sq (Real.exp_pos _).le]

/-- With mean 2 and standard deviation 3 requested, the law described has mean 2 and variance 9. -/
example : ∃ m s : ℝ, ofMeanSigma (.fin 2) (.fin 3) = ⟨.fin m, .fin s⟩ ∧ ∫ x, x ∂LN m s = 2 := by
  obtain ⟨t, -, -, h⟩ := ofMeanSigma_pos (m := 2) (by norm_num) 3
  refine ⟨_, _, h, ?_⟩
  have h1 := getMean_ofMeanSigma_pos (m := 2) (by norm_num) 3
  rw [h, (moments_are_true_moments _ _).1, fin_inj] at h1
  exact h1

end LogNormalDist

end Slat
