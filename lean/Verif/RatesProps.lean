import Verif.RatesModel
import Verif.FatesProps
import Verif.LogNormalDensity
import Verif.MaqOrigin
import Mathlib.MeasureTheory.Integral.IntegralEqImproper

/-!
# Rates of exceedance of intensity measures and demands (C55, C56)
-/

namespace Slat.Rates

open Slat Dbl LogNormalDist Fates MeasureTheory Set Filter Topology

noncomputable section

/-! ## Specification -/

/-- The integrator answers `f` with the integral over the positive half line up to an error of `ε`. -/
def Integrates (maq : Maq) (ε : ℝ) (f : Dbl → Dbl) : Prop :=
  ∀ φ : ℝ → ℝ, (∀ x, 0 < x → f (.fin x) = .fin (φ x)) → IntegrableOn φ (Ioi 0) →
    ∃ v, maq f = (true, .fin v) ∧ |v - ∫ x in Ioi (0 : ℝ), φ x| ≤ ε

/-- A hazard curve `lam` (rate at which an intensity is exceeded): it decreases from `lam 0` to `l`, and
`deriv` is its derivative. -/
structure Hazard (deriv : Dbl → Dbl) (lam lam' : ℝ → ℝ) (l : ℝ) : Prop where
  derivEq : ∀ x, 0 < x → deriv (.fin x) = .fin (lam' x)
  hasDeriv : ∀ x, 0 < x → HasDerivAt lam (lam' x) x
  nonpos : ∀ x, 0 < x → lam' x ≤ 0
  start : ContinuousWithinAt lam (Ici 0) 0
  limit : Tendsto lam atTop (𝓝 l)

/-- The demand at intensity `x` is log-normal with parameters `m x` and `s x`. -/
structure Demands (e : Edp) (m s : ℝ → ℝ) : Prop where
  eq : ∀ x, 0 < x → e.at (.fin x) = ⟨.fin (m x), .fin (s x)⟩
  pos : ∀ x, 0 < x → 0 < s x
  measM : Measurable m
  measS : Measurable s

/-- Probability that the structure cannot be repaired after an earthquake of intensity `x`: demolished or
collapsed if a demolition distribution is given, otherwise collapsed. -/
def lost (c d : Option (ℝ × ℝ)) (x : ℝ) : ℝ := if d.isSome then trigger d x else trigger c x

/-- Rate at which the structure is lost. -/
def lossRate (c d : Option (ℝ × ℝ)) (lam' : ℝ → ℝ) : ℝ := ∫ x in Ioi (0 : ℝ), lost c d x * |lam' x|

/-- Rate at which the structure is lost or the demand is at least `y`. -/
def demandRate (c d : Option (ℝ × ℝ)) (m s lam' : ℝ → ℝ) (y : ℝ) : ℝ :=
  ∫ x in Ioi (0 : ℝ), ((LN (m x) (s x)).real (Ici y) * (1 - lost c d x) + lost c d x) * |lam' x|

/-! ## Auxiliary facts -/

theorem lost_nonneg (c d : Option (ℝ × ℝ)) (x : ℝ) : 0 ≤ lost c d x := by
  unfold lost; split <;> exact trigger_nonneg _ _

theorem lost_le_one (c d : Option (ℝ × ℝ)) (x : ℝ) : lost c d x ≤ 1 := by
  unfold lost; split <;> exact trigger_le_one _ _

theorem trigger_mono (o : Option (ℝ × ℝ)) : Monotone (trigger o) := by
  intro a b h
  cases o with
  | none => exact le_rfl
  | some p => exact measureReal_mono (Iic_subset_Iic.2 h)

theorem lost_measurable (c d : Option (ℝ × ℝ)) : Measurable (lost c d) := by
  unfold lost
  split
  · exact (trigger_mono d).measurable
  · exact (trigger_mono c).measurable

theorem pRepair_eq {c d : Option (ℝ × ℝ)} (hc : ∀ p ∈ c, 0 < p.2) (hd : ∀ p ∈ d, 0 < p.2) {x : ℝ} (hx : 0 ≤ x) :
    pRepair ⟨dist c, dist d⟩ (.fin x) = .fin (1 - lost c d x) := by
  obtain ⟨pc, pd, pr, -, -, h3, h4, h5, h6, h7⟩ := fates_partition c d hc hd x hx
  rw [h3, fin_inj]
  unfold lost
  cases d with
  | none =>
    have := h6 rfl
    simp only [Option.isSome_none, Bool.false_eq_true, if_false]
    linarith
  | some p =>
    have := h7 rfl
    simp only [Option.isSome_some, if_true]
    linarith

theorem exceed_eq {m s y : ℝ} (hs : 0 < s) (hy : 0 ≤ y) :
    (LN m s).real (Ici y) = if y = 0 then 1 else 1 - Phi ((Real.log y - m) / s) := by
  have h := (p_at_most_is_cdf m hs hy).2
  rcases hy.eq_or_lt with rfl | h0
  · rw [pAtLeast_zero m hs, fin_inj] at h
    simp [← h]
  · rw [pAtLeast_pos m hs h0, fin_inj] at h
    rw [if_neg h0.ne', ← h]

theorem Hazard.integrable {deriv : Dbl → Dbl} {lam lam' : ℝ → ℝ} {l : ℝ} (h : Hazard deriv lam lam' l) :
    IntegrableOn (fun x => |lam' x|) (Ioi 0) :=
  (integrableOn_Ioi_deriv_of_nonpos h.start (fun x hx => h.hasDeriv x hx) (fun x hx => h.nonpos x hx) h.limit).abs

theorem Hazard.total {deriv : Dbl → Dbl} {lam lam' : ℝ → ℝ} {l : ℝ} (h : Hazard deriv lam lam' l) :
    ∫ x in Ioi (0 : ℝ), |lam' x| = lam 0 - l := by
  have h1 := integral_Ioi_of_hasDerivAt_of_nonpos h.start (fun x hx => h.hasDeriv x hx)
    (fun x hx => h.nonpos x hx) h.limit
  have h2 : ∫ x in Ioi (0 : ℝ), |lam' x| = ∫ x in Ioi (0 : ℝ), -lam' x :=
    setIntegral_congr_fun measurableSet_Ioi fun x hx => abs_of_nonpos (h.nonpos x hx)
  rw [h2, integral_neg, h1]
  ring

/-- A weight between 0 and 1 keeps the hazard integrable. -/
theorem Hazard.weighted {deriv : Dbl → Dbl} {lam lam' : ℝ → ℝ} {l : ℝ} (h : Hazard deriv lam lam' l) {w : ℝ → ℝ}
    (hw : AEStronglyMeasurable w (volume.restrict (Ioi 0))) (h0 : ∀ x, 0 < x → 0 ≤ w x)
    (h1 : ∀ x, 0 < x → w x ≤ 1) : IntegrableOn (fun x => w x * |lam' x|) (Ioi 0) := by
  refine Integrable.mono' h.integrable (hw.mul h.integrable.aestronglyMeasurable) ?_
  refine (ae_restrict_iff' measurableSet_Ioi).2 (ae_of_all _ fun x hx => ?_)
  rw [Real.norm_eq_abs, abs_mul, abs_abs, abs_of_nonneg (h0 x hx)]
  exact mul_le_of_le_one_left (abs_nonneg _) (h1 x hx)

theorem exceed_measurable {e : Edp} {m s : ℝ → ℝ} (h : Demands e m s) {y : ℝ} (hy : 0 ≤ y) :
    AEStronglyMeasurable (fun x => (LN (m x) (s x)).real (Ici y)) (volume.restrict (Ioi 0)) := by
  have hm : Measurable fun x => if y = 0 then (1 : ℝ) else 1 - Phi ((Real.log y - m x) / s x) := by
    split
    · exact measurable_const
    · exact measurable_const.sub (Phi_continuous.measurable.comp ((measurable_const.sub h.measM).div h.measS))
  refine hm.aestronglyMeasurable.congr ?_
  refine (ae_restrict_iff' measurableSet_Ioi).2 (ae_of_all _ fun x hx => ?_)
  exact (exceed_eq (h.pos x hx) hy).symm

/-- The weight in the rate of a demand. -/
def weight (c d : Option (ℝ × ℝ)) (m s : ℝ → ℝ) (y x : ℝ) : ℝ :=
  (LN (m x) (s x)).real (Ici y) * (1 - lost c d x) + lost c d x

theorem weight_bounds (c d : Option (ℝ × ℝ)) (m s : ℝ → ℝ) (y x : ℝ) :
    lost c d x ≤ weight c d m s y x ∧ weight c d m s y x ≤ 1 := by
  have h1 := lost_nonneg c d x
  have h2 := lost_le_one c d x
  have h3 : (LN (m x) (s x)).real (Ici y) ≤ 1 := measureReal_le_one
  have h4 : 0 ≤ (LN (m x) (s x)).real (Ici y) := measureReal_nonneg
  unfold weight
  constructor <;> nlinarith

theorem weight_measurable {e : Edp} {m s : ℝ → ℝ} (h : Demands e m s) (c d : Option (ℝ × ℝ)) {y : ℝ} (hy : 0 ≤ y) :
    AEStronglyMeasurable (weight c d m s y) (volume.restrict (Ioi 0)) :=
  ((exceed_measurable h hy).mul (measurable_const.sub (lost_measurable c d)).aestronglyMeasurable).add
    (lost_measurable c d).aestronglyMeasurable

theorem weight_integrable {deriv : Dbl → Dbl} {lam lam' : ℝ → ℝ} {l : ℝ} (h : Hazard deriv lam lam' l) {e : Edp}
    {m s : ℝ → ℝ} (hD : Demands e m s) (c d : Option (ℝ × ℝ)) {y : ℝ} (hy : 0 ≤ y) :
    IntegrableOn (fun x => weight c d m s y x * |lam' x|) (Ioi 0) :=
  h.weighted (weight_measurable hD c d hy)
    (fun x _ => (lost_nonneg c d x).trans (weight_bounds c d m s y x).1) (fun x _ => (weight_bounds c d m s y x).2)

theorem integrand_eq {deriv : Dbl → Dbl} {lam lam' : ℝ → ℝ} {l : ℝ} (h : Hazard deriv lam lam' l) {e : Edp}
    {m s : ℝ → ℝ} (hD : Demands e m s) {c d : Option (ℝ × ℝ)} (hc : ∀ p ∈ c, 0 < p.2) (hd : ∀ p ∈ d, 0 < p.2)
    {y : ℝ} (hy : 0 ≤ y) {x : ℝ} (hx : 0 < x) :
    lambdaIntegrand ⟨dist c, dist d⟩ deriv e (.fin y) (.fin x) = .fin (weight c d m s y x * |lam' x|) := by
  simp only [lambdaIntegrand, zero_def, fin_feq, hx.ne', if_false, Edp.pExceedence, hD.eq x hx,
    (p_at_most_is_cdf (m x) (hD.pos x hx) hy).2, pRepair_eq hc hd hx.le, h.derivEq x hx, one_def, fin_sub, fin_mul,
    fin_add, abs_fin, fin_inj, weight]
  ring

/-! ## C55 -/

/-- The rate of exceeding a demand `y` returned by `lambda` is, up to the error of the integrator, the rate at which
the structure is lost or the demand reaches `y`. -/
theorem edp_rate_is_rate (deriv : Dbl → Dbl) (lam lam' : ℝ → ℝ) (l : ℝ) (hH : Hazard deriv lam lam' l) (e : Edp)
    (m s : ℝ → ℝ) (hD : Demands e m s) (c d : Option (ℝ × ℝ)) (hc : ∀ p ∈ c, 0 < p.2) (hd : ∀ p ∈ d, 0 < p.2)
    (maq : Maq) (ε : ℝ) (y : ℝ) (hy : 0 ≤ y)
    (hI : Integrates maq ε (lambdaIntegrand ⟨dist c, dist d⟩ deriv e (.fin y))) :
    ∃ v, calcLambda maq ⟨dist c, dist d⟩ deriv e (.fin y) = .fin v ∧ |v - demandRate c d m s lam' y| ≤ ε := by
  obtain ⟨v, h1, h2⟩ := hI _ (fun x hx => integrand_eq hH hD hc hd hy hx) (weight_integrable hH hD c d hy)
  exact ⟨v, by simp [calcLambda, orNaN, h1], h2⟩

/-- The true rate decreases with the demand, begins at the rate of all earthquakes, and tends to the rate
of losing the structure, below which it never falls. -/
theorem demand_rate_curve (deriv : Dbl → Dbl) (lam lam' : ℝ → ℝ) (l : ℝ) (hH : Hazard deriv lam lam' l) (e : Edp)
    (m s : ℝ → ℝ) (hD : Demands e m s) (c d : Option (ℝ × ℝ)) :
    demandRate c d m s lam' 0 = lam 0 - l ∧
    (∀ y₁ y₂, 0 ≤ y₁ → y₁ ≤ y₂ → demandRate c d m s lam' y₂ ≤ demandRate c d m s lam' y₁) ∧
    (∀ y, 0 ≤ y → lossRate c d lam' ≤ demandRate c d m s lam' y) ∧
    Tendsto (demandRate c d m s lam') atTop (𝓝 (lossRate c d lam')) := by
  refine ⟨?_, ?_, ?_, ?_⟩
  · rw [← hH.total]
    refine setIntegral_congr_fun measurableSet_Ioi fun x hx => ?_
    show ((LN (m x) (s x)).real (Ici 0) * (1 - lost c d x) + lost c d x) * |lam' x| = |lam' x|
    rw [exceed_eq (hD.pos x hx) le_rfl, if_pos rfl]
    ring
  · intro y₁ y₂ h1 h2
    refine setIntegral_mono_on (weight_integrable hH hD c d (h1.trans h2)) (weight_integrable hH hD c d h1)
      measurableSet_Ioi fun x hx => ?_
    refine mul_le_mul_of_nonneg_right ?_ (abs_nonneg _)
    have h3 : (LN (m x) (s x)).real (Ici y₂) ≤ (LN (m x) (s x)).real (Ici y₁) :=
      measureReal_mono (Ici_subset_Ici.2 h2)
    have h4 := lost_le_one c d x
    nlinarith
  · intro y hy
    refine setIntegral_mono_on (hH.weighted (lost_measurable c d).aestronglyMeasurable
      (fun x _ => lost_nonneg c d x) (fun x _ => lost_le_one c d x)) (weight_integrable hH hD c d hy)
      measurableSet_Ioi fun x _ => ?_
    exact mul_le_mul_of_nonneg_right (weight_bounds c d m s y x).1 (abs_nonneg _)
  · refine tendsto_integral_filter_of_dominated_convergence (fun x => |lam' x|) ?_ ?_ hH.integrable ?_
    · filter_upwards [eventually_ge_atTop 0] with y hy
      exact (weight_integrable hH hD c d hy).aestronglyMeasurable
    · refine Eventually.of_forall fun y => ae_of_all _ fun x => ?_
      have := weight_bounds c d m s y x
      have h0 := lost_nonneg c d x
      unfold weight at this
      rw [Real.norm_eq_abs, abs_mul, abs_abs, abs_of_nonneg (h0.trans this.1)]
      exact mul_le_of_le_one_left (abs_nonneg _) this.2
    · refine (ae_restrict_iff' measurableSet_Ioi).2 (ae_of_all _ fun x hx => ?_)
      have hs := hD.pos x hx
      have ht : Tendsto (fun y => (LN (m x) (s x)).real (Ici y)) atTop (𝓝 0) := by
        have h1 : Tendsto (fun y : ℝ => 1 - Phi ((Real.log y - m x) / s x)) atTop (𝓝 (1 - 1)) := by
          refine tendsto_const_nhds.sub ?_
          refine (ProbabilityTheory.tendsto_cdf_atTop _).comp ?_
          exact ((tendsto_atTop_add_const_right _ _ Real.tendsto_log_atTop).atTop_div_const hs)
        rw [sub_self] at h1
        refine h1.congr' ?_
        filter_upwards [eventually_gt_atTop 0] with y hy
        rw [exceed_eq hs hy.le, if_neg hy.ne']
      have := ((ht.mul_const (1 - lost c d x)).add_const (lost c d x)).mul_const |lam' x|
      simpa using this

/-- What `lambda` returns is a rate curve up to the error of the integrator: decreasing, between the rate of losing
the structure and the rate of all earthquakes; it is the latter at 0. -/
theorem edp_rate_curve (deriv : Dbl → Dbl) (lam lam' : ℝ → ℝ) (l : ℝ) (hH : Hazard deriv lam lam' l) (e : Edp)
    (m s : ℝ → ℝ) (hD : Demands e m s) (c d : Option (ℝ × ℝ)) (hc : ∀ p ∈ c, 0 < p.2) (hd : ∀ p ∈ d, 0 < p.2)
    (maq : Maq) (ε : ℝ)
    (hI : ∀ y, 0 ≤ y → Integrates maq ε (lambdaIntegrand ⟨dist c, dist d⟩ deriv e (.fin y)))
    (y₁ y₂ : ℝ) (h0 : 0 ≤ y₁) (h12 : y₁ ≤ y₂) :
    ∃ v₀ v₁ v₂, calcLambda maq ⟨dist c, dist d⟩ deriv e (.fin 0) = .fin v₀ ∧
      calcLambda maq ⟨dist c, dist d⟩ deriv e (.fin y₁) = .fin v₁ ∧
      calcLambda maq ⟨dist c, dist d⟩ deriv e (.fin y₂) = .fin v₂ ∧
      |v₀ - (lam 0 - l)| ≤ ε ∧ v₂ ≤ v₁ + 2 * ε ∧ lossRate c d lam' - ε ≤ v₂ ∧ v₁ ≤ lam 0 - l + ε := by
  obtain ⟨v₀, a1, a2⟩ := edp_rate_is_rate deriv lam lam' l hH e m s hD c d hc hd maq ε 0 le_rfl (hI 0 le_rfl)
  obtain ⟨v₁, b1, b2⟩ := edp_rate_is_rate deriv lam lam' l hH e m s hD c d hc hd maq ε y₁ h0 (hI y₁ h0)
  obtain ⟨v₂, c1, c2⟩ :=
    edp_rate_is_rate deriv lam lam' l hH e m s hD c d hc hd maq ε y₂ (h0.trans h12) (hI y₂ (h0.trans h12))
  obtain ⟨t1, t2, t3, -⟩ := demand_rate_curve deriv lam lam' l hH e m s hD c d
  have t4 := t2 y₁ y₂ h0 h12
  have t5 := t2 0 y₁ le_rfl h0
  have t6 := t3 y₂ (h0.trans h12)
  rw [t1] at a2 t5
  rw [abs_le] at b2 c2
  exact ⟨v₀, v₁, v₂, a1, b1, c1, a2, by linarith [b2.1, c2.2], by linarith [c2.1], by linarith [b2.2]⟩

/-- `CollapseRate` and `DemolitionRate` together are the rate of losing the structure. -/
theorem collapse_and_demolition_rates (deriv : Dbl → Dbl) (lam lam' : ℝ → ℝ) (l : ℝ)
    (hH : Hazard deriv lam lam' l) (c d : Option (ℝ × ℝ)) (hc : ∀ p ∈ c, 0 < p.2) (hd : ∀ p ∈ d, 0 < p.2)
    (maq : Maq) (ε : ℝ)
    (hI₁ : Integrates maq ε fun x => abs (deriv x) * Fates.pCollapse ⟨dist c, dist d⟩ x)
    (hI₂ : Integrates maq ε fun x => abs (deriv x) * Fates.pDemolition ⟨dist c, dist d⟩ x) (hε : 0 ≤ ε) :
    ∃ u v, collapseRate maq ⟨dist c, dist d⟩ deriv = .fin u ∧ demolitionRate maq ⟨dist c, dist d⟩ deriv = .fin v ∧
      |u - (∫ x in Ioi (0 : ℝ), trigger c x * |lam' x|)| ≤ ε ∧ |u + v - lossRate c d lam'| ≤ 2 * ε ∧
      -ε ≤ u ∧ u ≤ lam 0 - l + ε := by
  have ic : IntegrableOn (fun x => trigger c x * |lam' x|) (Ioi 0) :=
    hH.weighted (trigger_mono c).measurable.aestronglyMeasurable (fun x _ => trigger_nonneg c x)
      (fun x _ => trigger_le_one c x)
  have il : IntegrableOn (fun x => lost c d x * |lam' x|) (Ioi 0) :=
    hH.weighted (lost_measurable c d).aestronglyMeasurable (fun x _ => lost_nonneg c d x)
      (fun x _ => lost_le_one c d x)
  have bounds : 0 ≤ ∫ x in Ioi (0 : ℝ), trigger c x * |lam' x| ∧
      ∫ x in Ioi (0 : ℝ), trigger c x * |lam' x| ≤ lam 0 - l := by
    constructor
    · exact setIntegral_nonneg measurableSet_Ioi fun x _ => mul_nonneg (trigger_nonneg c x) (abs_nonneg _)
    · rw [← hH.total]
      exact setIntegral_mono_on ic hH.integrable measurableSet_Ioi fun x _ =>
        mul_le_of_le_one_left (abs_nonneg _) (trigger_le_one c x)
  obtain ⟨u, hu, hu'⟩ : ∃ u, collapseRate maq ⟨dist c, dist d⟩ deriv = .fin u ∧
      |u - (∫ x in Ioi (0 : ℝ), trigger c x * |lam' x|)| ≤ ε := by
    cases c with
    | none => exact ⟨0, rfl, by simpa [trigger] using hε⟩
    | some p =>
      obtain ⟨u, h1, h2⟩ := hI₁ (fun x => trigger (some p) x * |lam' x|) (fun x hx => by
        dsimp only
        rw [hH.derivEq x hx, pCollapse_eq hc hx.le, abs_fin, fin_mul, mul_comm]) ic
      refine ⟨u, ?_, h2⟩
      show orNaN (maq fun x => abs (deriv x) * Fates.pCollapse ⟨dist (some p), dist d⟩ x) = _
      rw [h1]; rfl
  obtain ⟨v, hv, hv'⟩ : ∃ v, demolitionRate maq ⟨dist c, dist d⟩ deriv = .fin v ∧
      |v - (∫ x in Ioi (0 : ℝ), (lost c d x - trigger c x) * |lam' x|)| ≤ ε := by
    cases d with
    | none => exact ⟨0, rfl, by simpa [lost] using hε⟩
    | some p =>
      obtain ⟨v, h1, h2⟩ := hI₂ (fun x => (lost c (some p) x - trigger c x) * |lam' x|) (fun x hx => by
        obtain ⟨pc, pd, pr, -, g2, -, -, g5, -, g7⟩ := fates_partition c (some p) hc hd x hx.le
        dsimp only
        rw [hH.derivEq x hx, g2, abs_fin, fin_mul, mul_comm, fin_inj]
        congr 1
        have := g7 rfl
        simp only [lost, Option.isSome_some, if_true]
        linarith) (by simp only [sub_mul]; exact il.sub ic)
      refine ⟨v, ?_, h2⟩
      show orNaN (maq fun x => abs (deriv x) * Fates.pDemolition ⟨dist c, dist (some p)⟩ x) = _
      rw [h1]; rfl
  refine ⟨u, v, hu, hv, hu', ?_, ?_, ?_⟩
  · have : ∫ x in Ioi (0 : ℝ), (lost c d x - trigger c x) * |lam' x| =
        lossRate c d lam' - ∫ x in Ioi (0 : ℝ), trigger c x * |lam' x| := by
      rw [lossRate, ← integral_sub il ic]
      simp only [sub_mul]
    rw [this] at hv'
    rw [abs_le] at hu' hv' ⊢
    constructor <;> linarith [hu'.1, hu'.2, hv'.1, hv'.2]
  · rw [abs_le] at hu'
    linarith [hu'.1, bounds.1]
  · rw [abs_le] at hu'
    linarith [hu'.2, bounds.2]

/-- If the integration fails, the rates are not numbers (and never a wrong number). -/
theorem failed_rate_is_nan (maq : Maq) (f : Fates) (deriv : Dbl → Dbl) (e : Edp) (y : Dbl)
    (h : ∀ g, (maq g).1 = false) (hc : f.collapse.isSome) (hd : f.demolition.isSome) :
    calcLambda maq f deriv e y = .nan ∧ collapseRate maq f deriv = .nan ∧ demolitionRate maq f deriv = .nan := by
  obtain ⟨c, hc⟩ := Option.isSome_iff_exists.1 hc
  obtain ⟨d, hd⟩ := Option.isSome_iff_exists.1 hd
  simp [calcLambda, collapseRate, demolitionRate, orNaN, h, hc, hd]

/-! ### The actual integrator -/

open Classical in
/-- `Integration::MAQ` as it is (model in `MaqModel.lean`), with given settings. -/
def actual (cfg : Maq.Cfg) : Maq := fun f =>
  if h : ∃ rep, Maq.Returns f cfg rep then (h.choose.result.successful, h.choose.result.integral) else (false, .nan)

theorem actual_eq {cfg : Maq.Cfg} {f : Dbl → Dbl} {rep : Maq.Report} (h : Maq.Returns f cfg rep) :
    actual cfg f = (rep.result.successful, rep.result.integral) := by
  have hex : ∃ rep, Maq.Returns f cfg rep := ⟨rep, h⟩
  have : hex.choose = rep := by
    obtain ⟨N, hN⟩ := hex.choose_spec
    obtain ⟨K, hK⟩ := h
    have := (hN (max N K) (le_max_left _ _)).symm.trans (hK (max N K) (le_max_right _ _))
    simpa using this
  unfold actual
  rw [dif_pos hex, this]

/-- `MAQ` integrates the integrand of `lambda` in the sense used above, with an error that goes to zero with the widths
of the intervals it used, if the integrand, transformed to the unit interval, is smooth apart from its value at the
origin and visible at 1, and the call succeeds. -/
theorem actual_integrates (cfg : Maq.Cfg) (τ : ℝ) (hτ : cfg.tol = .fin τ) (f : Dbl → Dbl) (φ : ℝ → ℝ) (φinf : ℝ)
    (hf : ∀ x, 0 ≤ x → f (.fin x) = .fin (φ x)) (hinf : f .pinf = .fin φinf) (hvis : Maq.eps < φ 1)
    (G : ℝ → ℝ) (hG : ContDiff ℝ 6 G) (M₄ M₆ : ℝ) (hg : ∀ t, 0 ≤ t → t < 1 → Maq.transform φ φinf t = G t)
    (h4 : ∀ t, 0 ≤ t → t ≤ 1 → |iteratedDeriv 4 G t| ≤ M₄) (h6 : ∀ t, 0 ≤ t → t ≤ 1 → |iteratedDeriv 6 G t| ≤ M₆)
    (rep : Maq.Report) (h : Maq.Returns f cfg rep) (hs : rep.result.successful = true) :
    ∃ (u : ℝ) (leaves : List (ℝ × ℝ)), Maq.Tiles 0 1 leaves ∧ (u, 1) ∈ leaves ∧
      ∀ w, (∀ p ∈ leaves, p.2 - p.1 ≤ w) →
        Integrates (actual cfg) (M₆ / 60 * w ^ 6 + 7 / 90 * (1 - u) * |φ 0 - G 1|) f := by
  obtain ⟨v, u, leaves, h1, h2, h3, h5, -⟩ :=
    Maq.wrong_value_at_origin f φ φinf τ hf hinf cfg hτ (Or.inr hvis) G hG M₄ M₆ hg h4 h6 rep h hs
  refine ⟨u, leaves, h2, h3, fun w hw ψ hψ _ => ⟨v, by rw [actual_eq h, hs, h1], ?_⟩⟩
  have : ∫ x in Ioi (0 : ℝ), ψ x = ∫ x in Ioi (0 : ℝ), φ x :=
    setIntegral_congr_fun measurableSet_Ioi fun x hx => by
      have := (hψ x hx).symm.trans (hf x (le_of_lt hx))
      rwa [fin_inj] at this
  rw [this]
  exact h5 w hw

/-! ### Instances -/

/-- The hazard `exp(-x)`. -/
def expHazard : Dbl → Dbl
  | .fin x => .fin (-Real.exp (-x))
  | _ => .fin 0

theorem expHazard_ok : Hazard expHazard (fun x => Real.exp (-x)) (fun x => -Real.exp (-x)) 0 where
  derivEq _ _ := rfl
  hasDeriv x _ := by simpa using (hasDerivAt_neg x).exp
  nonpos x _ := by simpa using (Real.exp_pos (-x)).le
  start := by fun_prop
  limit := by simpa using Real.tendsto_exp_neg_atTop_nhds_zero

/-- A demand whose median grows with the intensity. -/
def growing (k : ℝ) : Demand
  | .fin x => ⟨.fin (Real.log (k * x)), .fin (1 / 2)⟩
  | _ => ⟨.fin 0, .fin (1 / 2)⟩

theorem growing_ok (k : ℝ) : Demands (.plain (growing k)) (fun x => Real.log (k * x)) (fun _ => 1 / 2) where
  eq _ _ := rfl
  pos _ _ := by norm_num
  measM := by fun_prop
  measS := measurable_const

open Classical in
/-- An integrator without error. -/
def ideal : Maq := fun f => (true, .fin (∫ x in Ioi (0 : ℝ), match f (.fin x) with | .fin v => v | _ => 0))

theorem ideal_integrates (f : Dbl → Dbl) : Integrates ideal 0 f := by
  intro φ h _
  refine ⟨_, rfl, ?_⟩
  have : ∫ x in Ioi (0 : ℝ), (match f (.fin x) with | .fin v => v | _ => 0) = ∫ x in Ioi (0 : ℝ), φ x :=
    setIntegral_congr_fun measurableSet_Ioi fun x hx => by simp only [h x hx]
  rw [this]
  simp

/-- With the hazard `exp(-x)`, a growing demand and a collapse distribution, the rate curve starts at 1 and is
decreasing. -/
example : calcLambda ideal ⟨dist (some (1, 1 / 2)), dist none⟩ expHazard (.plain (growing 2)) (.fin 0) = .fin 1 ∧
    ∃ v₁ v₂, calcLambda ideal ⟨dist (some (1, 1 / 2)), dist none⟩ expHazard (.plain (growing 2)) (.fin 1) = .fin v₁ ∧
      calcLambda ideal ⟨dist (some (1, 1 / 2)), dist none⟩ expHazard (.plain (growing 2)) (.fin 2) = .fin v₂ ∧
      v₂ ≤ v₁ := by
  obtain ⟨v₀, v₁, v₂, h0, h1, h2, h3, h4, -⟩ := edp_rate_curve _ _ _ _ expHazard_ok _ _ _ (growing_ok 2)
    (some (1, 1 / 2)) none (by simp) (by simp) ideal 0 (fun y _ => ideal_integrates _) 1 2 (by norm_num) (by norm_num)
  have : v₀ = 1 := by
    have := abs_nonpos_iff.1 h3
    simp only [neg_zero, Real.exp_zero] at this
    linarith
  exact ⟨by rw [h0, this], v₁, v₂, h1, h2, by linarith⟩

/-- And the rates of collapse and demolition exist, with both distributions. -/
example : ∃ u v, collapseRate ideal ⟨dist (some (1, 1 / 2)), dist (some (0, 1))⟩ expHazard = .fin u ∧
    demolitionRate ideal ⟨dist (some (1, 1 / 2)), dist (some (0, 1))⟩ expHazard = .fin v ∧ 0 ≤ u ∧ u ≤ 1 := by
  obtain ⟨u, v, h1, h2, -, -, h3, h4⟩ := collapse_and_demolition_rates _ _ _ _ expHazard_ok
    (some (1, 1 / 2)) (some (0, 1)) (by simp) (by simp) ideal 0 (ideal_integrates _) (ideal_integrates _) le_rfl
  simp only [neg_zero, Real.exp_zero, sub_zero, add_zero] at h3 h4
  exact ⟨u, v, h1, h2, h3, h4⟩

/-- The derivative of the hazard `1/(2(1+x)^2)`. -/
def cubeHazard : Dbl → Dbl
  | .fin x => .fin (-1 / (1 + x) ^ 3)
  | _ => .fin 0

/-- The actual integrator at work on this hazard: no collapse or demolition, demand 0, tolerance 1. -/
example : calcLambda (actual ⟨.fin 1, 2048, 2048, .directed⟩) ⟨none, none⟩ cubeHazard (.plain (growing 2)) (.fin 0) =
    .fin (19 / 45) := by
  have h := Maq.inverse_cube_origin .directed
    (lambdaIntegrand ⟨none, none⟩ cubeHazard (.plain (growing 2)) (.fin 0)) (fun x hx => by
      rcases hx.eq_or_lt with rfl | h0
      · simp [lambdaIntegrand, Maq.inverseCube]
      · simp only [lambdaIntegrand, zero_def, fin_feq, h0.ne', if_false, Edp.pExceedence, Edp.at, growing,
          pAtLeast_zero (Real.log (2 * x)) (show (0 : ℝ) < 1 / 2 by norm_num), Fates.pRepair, Fates.pDemolition,
          Fates.pCollapse, one_def, fin_add, fin_sub, fin_mul, cubeHazard, abs_fin, fin_inj, Maq.inverseCube]
        rw [neg_div, abs_neg, abs_of_pos (by positivity)]
        norm_num) (by
      simp only [lambdaIntegrand, zero_def, Edp.pExceedence, Edp.at, growing,
          pAtLeast_zero 0 (show (0 : ℝ) < 1 / 2 by norm_num), Fates.pRepair, Fates.pDemolition,
          Fates.pCollapse, one_def, fin_add, fin_sub, fin_mul, cubeHazard, abs_fin]
      simp)
  simp [calcLambda, actual_eq h, orNaN]

/-! ## C56: compound demands -/

/-- A compound demand is again a demand, so the theorems above hold for it. -/
theorem compound_is_demand (d₁ d₂ : Demand) (m₁ s₁ m₂ s₂ : ℝ → ℝ) (h₁ : Demands (.plain d₁) m₁ s₁)
    (h₂ : Demands (.plain d₂) m₂ s₂) :
    Demands (.compound d₁ d₂)
      (fun x => if m₂ x + s₂ x * s₂ x / 2 < m₁ x + s₁ x * s₁ x / 2 then m₁ x else m₂ x)
      (fun x => if m₂ x + s₂ x * s₂ x / 2 < m₁ x + s₁ x * s₁ x / 2 then s₁ x else s₂ x) := by
  have hm : MeasurableSet {x | m₂ x + s₂ x * s₂ x / 2 < m₁ x + s₁ x * s₁ x / 2} :=
    measurableSet_lt (h₂.measM.add ((h₂.measS.mul h₂.measS).div_const 2))
      (h₁.measM.add ((h₁.measS.mul h₁.measS).div_const 2))
  refine ⟨fun x hx => ?_, fun x hx => ?_, h₁.measM.ite hm h₂.measM, h₁.measS.ite hm h₂.measS⟩
  · have e₁ := h₁.eq x hx
    have e₂ := h₂.eq x hx
    simp only [Edp.at] at e₁ e₂ ⊢
    rw [e₁, e₂, getMean_fin, getMean_fin]
    simp only [fin_lt, Real.exp_lt_exp]
    split <;> rfl
  · split
    · exact h₁.pos x hx
    · exact h₂.pos x hx

/-- At every intensity a compound demand is the one of its two demands with the larger mean, and its mean is the larger
of the two means. -/
theorem compound_has_larger_mean (d₁ d₂ : Demand) (m₁ s₁ m₂ s₂ : ℝ → ℝ) (h₁ : Demands (.plain d₁) m₁ s₁)
    (h₂ : Demands (.plain d₂) m₂ s₂) (x : ℝ) (hx : 0 < x) :
    ∃ μ₁ μ₂, (Edp.plain d₁).mean (.fin x) = .fin μ₁ ∧ (Edp.plain d₂).mean (.fin x) = .fin μ₂ ∧
      (Edp.compound d₁ d₂).mean (.fin x) = .fin (max μ₁ μ₂) ∧
      ((Edp.compound d₁ d₂).at (.fin x) = (Edp.plain d₁).at (.fin x) ∨
        (Edp.compound d₁ d₂).at (.fin x) = (Edp.plain d₂).at (.fin x)) := by
  have e₁ := h₁.eq x hx
  have e₂ := h₂.eq x hx
  simp only [Edp.at] at e₁ e₂
  refine ⟨Real.exp (m₁ x + s₁ x * s₁ x / 2), Real.exp (m₂ x + s₂ x * s₂ x / 2), ?_, ?_, ?_, ?_⟩
  · simp only [Edp.mean, Edp.at, e₁, getMean_fin]
  · simp only [Edp.mean, Edp.at, e₂, getMean_fin]
  · simp only [Edp.mean, Edp.at, e₁, e₂, getMean_fin, fin_lt]
    split
    · rename_i h
      rw [getMean_fin, max_eq_left h.le]
    · rename_i h
      rw [getMean_fin, max_eq_right (not_lt.1 h)]
  · simp only [Edp.at]
    split
    · exact Or.inl rfl
    · exact Or.inr rfl

/-- When the two demands have the same spread, exceeding any level is, for the compound demand, as probable as for the
more demanding of the two.  (Missing: different spreads, see below.) -/
theorem compound_is_maximum_partial (d₁ d₂ : Demand) (m₁ s₁ m₂ s₂ : ℝ → ℝ) (h₁ : Demands (.plain d₁) m₁ s₁)
    (h₂ : Demands (.plain d₂) m₂ s₂) (x : ℝ) (hx : 0 < x) (hs : s₁ x = s₂ x) (y : ℝ) (hy : 0 ≤ y) :
    ∃ p₁ p₂, (Edp.plain d₁).pExceedence (.fin x) (.fin y) = .fin p₁ ∧
      (Edp.plain d₂).pExceedence (.fin x) (.fin y) = .fin p₂ ∧
      (Edp.compound d₁ d₂).pExceedence (.fin x) (.fin y) = .fin (max p₁ p₂) := by
  have hc := (compound_is_demand d₁ d₂ m₁ s₁ m₂ s₂ h₁ h₂).eq x hx
  have q₁ := (p_at_most_is_cdf (m₁ x) (h₁.pos x hx) hy).2
  have q₂ := (p_at_most_is_cdf (m₂ x) (h₂.pos x hx) hy).2
  have key : ∀ {a b s : ℝ}, 0 < s → a ≤ b → (LN a s).real (Ici y) ≤ (LN b s).real (Ici y) := by
    intro a b s h0 hab
    rw [exceed_eq h0 hy, exceed_eq h0 hy]
    split
    · exact le_rfl
    · have : Phi ((Real.log y - b) / s) ≤ Phi ((Real.log y - a) / s) := Phi_mono (by gcongr)
      linarith
  refine ⟨(LN (m₁ x) (s₁ x)).real (Ici y), (LN (m₂ x) (s₂ x)).real (Ici y), ?_, ?_, ?_⟩
  · simp only [Edp.pExceedence, h₁.eq x hx, q₁]
  · simp only [Edp.pExceedence, h₂.eq x hx, q₂]
  · simp only [Edp.pExceedence, hc]
    split
    · rename_i h
      rw [q₁, max_eq_left]
      rw [hs] at h ⊢
      exact key (h₂.pos x hx) (by linarith)
    · rename_i h
      rw [q₂, max_eq_right]
      rw [hs] at h ⊢
      exact key (h₂.pos x hx) (by linarith)

/-- **What fails**: the documentation promises the maximum of the two demands (src/relationships.h:237-238), but a
demand with the larger mean can be less likely to exceed a level than the other. -/
theorem compound_is_maximum_fails : ∃ (d₁ d₂ : Demand) (x y p p₁ : ℝ), 0 < x ∧ 0 < y ∧
    (Edp.plain d₁).pExceedence (.fin x) (.fin y) = .fin p₁ ∧
    (Edp.compound d₁ d₂).pExceedence (.fin x) (.fin y) = .fin p ∧ p < p₁ := by
  -- median 1 with spread 1, against a slightly smaller median with spread 2: the second has the larger mean
  refine ⟨fun _ => ⟨.fin 0, .fin 1⟩, fun _ => ⟨.fin (-1), .fin 2⟩, 1, 1, 1 - Phi ((Real.log 1 - -1) / 2),
    1 - Phi ((Real.log 1 - 0) / 1), one_pos, one_pos, ?_, ?_, ?_⟩
  · simp only [Edp.pExceedence, Edp.at, pAtLeast_pos 0 one_pos one_pos]
  · simp only [Edp.pExceedence, Edp.at, getMean_fin, fin_lt, Real.exp_lt_exp]
    rw [if_neg (by norm_num), pAtLeast_pos (-1) two_pos one_pos]
  · have : Phi ((Real.log 1 - 0) / 1) < Phi ((Real.log 1 - -1) / 2) := Phi_strictMono (by norm_num)
    linarith

/-- Two growing demands of the same spread: the compound one is the larger of the two at every intensity. -/
example (x : ℝ) (hx : 0 < x) : ∃ p₁ p₂, (Edp.plain (growing 2)).pExceedence (.fin x) (.fin 1) = .fin p₁ ∧
    (Edp.plain (growing 3)).pExceedence (.fin x) (.fin 1) = .fin p₂ ∧
    (Edp.compound (growing 2) (growing 3)).pExceedence (.fin x) (.fin 1) = .fin (max p₁ p₂) :=
  compound_is_maximum_partial _ _ _ _ _ _ (growing_ok 2) (growing_ok 3) x hx rfl 1 zero_le_one

/-- The rate curve of a compound demand. -/
example : ∃ v, calcLambda ideal ⟨none, none⟩ expHazard (.compound (growing 2) (growing 3)) (.fin 1) = .fin v := by
  obtain ⟨v, h, -⟩ := edp_rate_is_rate _ _ _ _ expHazard_ok _ _ _
    (compound_is_demand _ _ _ _ _ _ (growing_ok 2) (growing_ok 3)) none none (by simp) (by simp) ideal 0 1 zero_le_one
    (ideal_integrates _)
  exact ⟨v, h⟩

end

end Slat.Rates
