import Verif.LogNormalModel

/-!
# Facts about the standard normal distribution function
-/

namespace Slat

open MeasureTheory ProbabilityTheory Set Filter Topology

theorem Phi_eq (u : ℝ) : Phi u = (gaussianReal 0 1).real (Iic u) := cdf_eq_real _ _

theorem Phi_nonneg (u : ℝ) : 0 ≤ Phi u := cdf_nonneg _ _

theorem Phi_le_one (u : ℝ) : Phi u ≤ 1 := cdf_le_one _ _

theorem Phi_mono : Monotone Phi := monotone_cdf _

theorem gaussian_Ioc_pos {a b : ℝ} (h : a < b) : 0 < (gaussianReal 0 1).real (Ioc a b) := by
  rw [measureReal_def, ENNReal.toReal_pos_iff]
  refine ⟨?_, measure_lt_top _ _⟩
  rw [pos_iff_ne_zero]
  intro h0
  have := gaussianReal_absolutelyContinuous' 0 (v := 1) one_ne_zero h0
  rw [Real.volume_Ioc, ENNReal.ofReal_eq_zero] at this
  linarith

theorem Phi_strictMono : StrictMono Phi := by
  intro a b h
  rw [Phi_eq, Phi_eq, ← Iic_union_Ioc_eq_Iic h.le,
    measureReal_union (Iic_disjoint_Ioc le_rfl) measurableSet_Ioc]
  have := gaussian_Ioc_pos h
  linarith

theorem Phi_pos (u : ℝ) : 0 < Phi u := lt_of_le_of_lt (Phi_nonneg (u - 1)) (Phi_strictMono (by linarith))

theorem Phi_lt_one (u : ℝ) : Phi u < 1 := lt_of_lt_of_le (Phi_strictMono (show u < u + 1 by linarith)) (Phi_le_one _)

theorem gaussian_Iic_eq_Iio (u : ℝ) : (gaussianReal 0 1).real (Iic u) = (gaussianReal 0 1).real (Iio u) := by
  have := nullSingletonClass_gaussianReal (μ := 0) (v := 1) one_ne_zero
  exact measureReal_congr Iio_ae_eq_Iic.symm

theorem Phi_neg (u : ℝ) : Phi (-u) = 1 - Phi u := by
  rw [Phi_eq, Phi_eq]
  have h1 : (gaussianReal 0 1).real (Iic (-u)) = (gaussianReal 0 1).real (Ici u) := by
    have h := gaussianReal_map_neg (μ := 0) (v := 1)
    rw [neg_zero] at h
    conv_lhs => rw [← h]
    rw [measureReal_def, Measure.map_apply measurable_neg measurableSet_Iic, ← measureReal_def]
    congr 1
    ext x
    simp
  rw [h1, gaussian_Iic_eq_Iio, ← probReal_compl_eq_one_sub measurableSet_Iio, compl_Iio]

theorem Phi_zero : Phi 0 = 1 / 2 := by
  have := Phi_neg 0
  rw [neg_zero] at this
  linarith

theorem Phi_continuous : Continuous Phi := by
  have hn := nullSingletonClass_gaussianReal (μ := 0) (v := 1) one_ne_zero
  rw [continuous_iff_continuousAt]
  intro x
  have hm : Monotone (cdf (gaussianReal 0 1)) := monotone_cdf _
  have h := (cdf (gaussianReal 0 1)).measure_singleton x
  rw [measure_cdf, measure_singleton] at h
  have h2 : Function.leftLim (cdf (gaussianReal 0 1)) x = cdf (gaussianReal 0 1) x := by
    apply le_antisymm (hm.leftLim_le le_rfl)
    have := ENNReal.ofReal_eq_zero.1 h.symm
    linarith
  show ContinuousAt (cdf (gaussianReal 0 1)) x
  rw [hm.continuousAt_iff_leftLim_eq_rightLim, h2, StieltjesFunction.rightLim_eq]

/-- Every probability strictly between 0 and 1 is attained. -/
theorem Phi_surj {p : ℝ} (h0 : 0 < p) (h1 : p < 1) : ∃ u, Phi u = p := by
  have hb : Tendsto Phi atBot (𝓝 0) := tendsto_cdf_atBot _
  have ht : Tendsto Phi atTop (𝓝 1) := tendsto_cdf_atTop _
  obtain ⟨a, ha⟩ := (hb.eventually (gt_mem_nhds h0)).exists
  obtain ⟨b, hb'⟩ := (ht.eventually (lt_mem_nhds h1)).exists
  exact mem_range_of_exists_le_of_exists_ge Phi_continuous ⟨a, ha.le⟩ ⟨b, hb'.le⟩

/-- Standardising: the standard normal distribution function at `(t - m) / s` is the distribution function
of the Gaussian with mean `m` and standard deviation `s`. -/
theorem Phi_standardise (m : ℝ) {s : ℝ} (hs : 0 < s) (t : ℝ) :
    Phi ((t - m) / s) = (gaussianReal m (NNReal.mk (s ^ 2) (sq_nonneg s))).real (Iic t) := by
  have h1 := gaussianReal_map_const_mul (μ := 0) (v := 1) s
  have h2 := gaussianReal_map_const_add (μ := 0) (v := (NNReal.mk (s ^ 2) (sq_nonneg s))) m
  rw [mul_zero, mul_one] at h1
  rw [zero_add] at h2
  rw [← h2, ← h1, Phi_eq, measureReal_def, measureReal_def,
    Measure.map_apply (by fun_prop) measurableSet_Iic,
    Measure.map_apply (by fun_prop) (measurableSet_Iic.preimage (by fun_prop))]
  congr 2
  ext x
  simp only [mem_preimage, mem_Iic]
  rw [le_div_iff₀ hs]
  constructor <;> intro h <;> linarith

end Slat
