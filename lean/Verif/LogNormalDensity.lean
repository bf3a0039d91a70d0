import Verif.LogNormalProps
import Mathlib.MeasureTheory.Function.JacobianOneDim
import Mathlib.MeasureTheory.Integral.IntervalIntegral.FundThmCalculus
import Mathlib.Probability.Distributions.Gaussian.Real

/-!
# Density of the log-normal law, and the probability that one log-normal amount is below another
-/

namespace Slat

open MeasureTheory ProbabilityTheory Set Filter Topology

noncomputable section

theorem Phi_hasDerivAt (u : ℝ) : HasDerivAt Phi (gaussianPDFReal 0 1 u) u := by
  have hc : Continuous (gaussianPDFReal 0 1) := by
    unfold gaussianPDFReal
    fun_prop
  have hi := integrable_gaussianPDFReal 0 1
  have h1 : ∀ x, Phi x = ∫ t in Iic x, gaussianPDFReal 0 1 t := by
    intro x
    rw [Phi_eq, measureReal_def, gaussianReal_apply_eq_integral _ one_ne_zero, ENNReal.toReal_ofReal]
    exact setIntegral_nonneg measurableSet_Iic fun t _ => gaussianPDFReal_nonneg _ _ _
  have h2 : Phi = fun x => Phi u + ∫ t in u..x, gaussianPDFReal 0 1 t := by
    funext x
    rw [h1 x, h1 u, ← intervalIntegral.integral_Iic_sub_Iic hi.integrableOn hi.integrableOn]
    ring
  rw [h2]
  have := (intervalIntegral.integral_hasDerivAt_right (hc.intervalIntegrable u u)
    hc.stronglyMeasurable.stronglyMeasurableAtFilter hc.continuousAt).const_add (Phi u)
  exact this

/-- Density of the log-normal law on the positive half line. -/
def dens (m s x : ℝ) : ℝ := gaussianPDFReal 0 1 ((Real.log x - m) / s) / (s * x)

theorem dens_nonneg {m s x : ℝ} (hs : 0 < s) (hx : 0 < x) : 0 ≤ dens m s x :=
  div_nonneg (gaussianPDFReal_nonneg _ _ _) (by positivity)

theorem dens_hasDerivAt {m s x : ℝ} (hs : 0 < s) (hx : 0 < x) :
    HasDerivAt (fun y => 1 - Phi ((Real.log y - m) / s)) (-dens m s x) x := by
  have h1 : HasDerivAt (fun y => (Real.log y - m) / s) (x⁻¹ / s) x :=
    ((Real.hasDerivAt_log hx.ne').sub_const m).div_const s
  have h2 := ((Phi_hasDerivAt _).comp x h1).const_sub 1
  refine h2.congr_deriv ?_
  simp only [dens, neg_inj]
  field_simp

theorem sq_ne {s : ℝ} (hs : 0 < s) : NNReal.mk (s ^ 2) (sq_nonneg s) ≠ 0 := by
  rw [ne_eq, ← NNReal.coe_inj]
  simpa using hs.ne'

theorem dens_exp {m s : ℝ} (hs : 0 < s) (z : ℝ) :
    Real.exp z * dens m s (Real.exp z) = gaussianPDFReal m (NNReal.mk (s ^ 2) (sq_nonneg s)) z := by
  have hz := Real.exp_pos z
  simp only [dens, Real.log_exp, gaussianPDFReal, NNReal.coe_one, NNReal.coe_mk, sub_zero, mul_one]
  rw [Real.sqrt_mul (by positivity) (s ^ 2), Real.sqrt_sq hs.le]
  have : -((z - m) / s) ^ 2 / 2 = -(z - m) ^ 2 / (2 * s ^ 2) := by
    rw [div_pow]; field_simp
  rw [this]
  field_simp

theorem exp_embedding : MeasurableEmbedding Real.exp := Real.isOpenEmbedding_exp.measurableEmbedding

theorem exp_image : Real.exp '' univ = Ioi 0 := by rw [image_univ, Real.range_exp]

/-- Expectations under the log-normal law are integrals against its density. -/
theorem integral_dens {m s : ℝ} (hs : 0 < s) (φ : ℝ → ℝ) :
    ∫ x in Ioi (0 : ℝ), φ x * dens m s x = ∫ x, φ x ∂(LN m s) := by
  rw [LN, exp_embedding.integral_map, integral_gaussianReal_eq_integral_smul (sq_ne hs), ← exp_image,
    integral_image_eq_integral_abs_deriv_smul MeasurableSet.univ
      (fun x _ => (Real.hasDerivAt_exp x).hasDerivWithinAt) Real.exp_injective.injOn, setIntegral_univ]
  refine integral_congr_ae (ae_of_all _ fun z => ?_)
  simp only [smul_eq_mul, abs_of_pos (Real.exp_pos z), ← dens_exp hs z]
  ring

theorem integrable_dens {m s : ℝ} (hs : 0 < s) (φ : ℝ → ℝ) :
    IntegrableOn (fun x => φ x * dens m s x) (Ioi 0) ↔ Integrable φ (LN m s) := by
  rw [LN, exp_embedding.integrable_map_iff, gaussianReal_of_var_ne_zero _ (sq_ne hs),
    integrable_withDensity_iff_integrable_smul' (measurable_gaussianPDF _ _) (ae_of_all _ fun x => gaussianPDF_lt_top),
    ← exp_image, integrableOn_image_iff_integrableOn_abs_deriv_smul MeasurableSet.univ
      (fun x _ => (Real.hasDerivAt_exp x).hasDerivWithinAt) Real.exp_injective.injOn, integrableOn_univ]
  refine integrable_congr (ae_of_all _ fun z => ?_)
  simp only [smul_eq_mul, abs_of_pos (Real.exp_pos z), toReal_gaussianPDF, ← dens_exp hs z, Function.comp]
  ring

/-- Probability that an amount with law `LN m₁ s₁` does not exceed an independent one with law `LN m₂ s₂`. -/
def below (m₁ s₁ m₂ s₂ : ℝ) : ℝ := ((LN m₁ s₁).prod (LN m₂ s₂)).real {p | p.1 ≤ p.2}

instance LN_prob (m s : ℝ) : IsProbabilityMeasure (LN m s) := by
  rw [LN]
  exact Measure.isProbabilityMeasure_map Real.measurable_exp.aemeasurable

theorem below_eq_integral (m₁ s₁ m₂ s₂ : ℝ) :
    below m₁ s₁ m₂ s₂ = ∫ x, (LN m₁ s₁).real (Iic x) ∂(LN m₂ s₂) := by
  have hm : MeasurableSet {p : ℝ × ℝ | p.1 ≤ p.2} := measurableSet_le measurable_fst measurable_snd
  have hmono : Monotone fun x => (LN m₁ s₁) (Iic x) := fun a b h => measure_mono (Iic_subset_Iic.2 h)
  rw [below, measureReal_def, Measure.prod_apply_symm hm]
  simp only [measureReal_def]
  rw [integral_toReal hmono.measurable.aemeasurable (ae_of_all _ fun x => measure_lt_top _ _)]
  rfl

/-- It is the standard normal distribution function at the difference of the parameters over the root of the sum of
squares. -/
theorem below_closed (m₁ : ℝ) {s₁ : ℝ} (hs₁ : 0 < s₁) (m₂ s₂ : ℝ) :
    below m₁ s₁ m₂ s₂ = Phi ((m₂ - m₁) / Real.sqrt (s₁ ^ 2 + s₂ ^ 2)) := by
  have hm : MeasurableSet {p : ℝ × ℝ | p.1 ≤ p.2} := measurableSet_le measurable_fst measurable_snd
  have hs : 0 < Real.sqrt (s₁ ^ 2 + s₂ ^ 2) := Real.sqrt_pos.2 (by positivity)
  have e0 : (m₂ - m₁) / Real.sqrt (s₁ ^ 2 + s₂ ^ 2) = (0 - (m₁ + -m₂)) / Real.sqrt (s₁ ^ 2 + s₂ ^ 2) := by ring
  rw [e0, Phi_standardise _ hs]
  have ev : NNReal.mk (Real.sqrt (s₁ ^ 2 + s₂ ^ 2) ^ 2) (sq_nonneg _) =
      NNReal.mk (s₁ ^ 2) (sq_nonneg _) + NNReal.mk (s₂ ^ 2) (sq_nonneg _) := by
    rw [← NNReal.coe_inj]
    push_cast
    exact Real.sq_sqrt (by positivity)
  rw [ev, ← gaussianReal_conv_gaussianReal, ← gaussianReal_map_neg, below, LN, LN,
    Measure.map_prod_map _ _ Real.measurable_exp Real.measurable_exp, measureReal_def, measureReal_def,
    Measure.map_apply (by fun_prop) hm, Measure.conv, Measure.map_apply (by fun_prop) measurableSet_Iic]
  congr 1
  nth_rw 2 [← Measure.map_id (μ := gaussianReal m₁ _)]
  rw [Measure.map_prod_map _ _ measurable_id measurable_neg,
    Measure.map_apply (by fun_prop) (measurableSet_Iic.preimage (by fun_prop))]
  congr 1
  ext p
  simp [Prod.map]

theorem below_nonneg (m₁ s₁ m₂ s₂ : ℝ) : 0 ≤ below m₁ s₁ m₂ s₂ := measureReal_nonneg

theorem below_le_one (m₁ s₁ m₂ s₂ : ℝ) : below m₁ s₁ m₂ s₂ ≤ 1 := measureReal_le_one

end

end Slat
