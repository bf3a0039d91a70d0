import Verif.RatesProps
import Verif.LogNormalSums

/-!
# Cost, delay and damage of a group of components by intensity (C57, C60, C61)
-/

namespace Slat.Rates

open Slat Dbl LogNormalDist Fates MeasureTheory Set Filter Topology

noncomputable section

/-! ## Specification -/

/-- The GSL routines differentiate exactly (functions differentiable on the positive half line). -/
def Differentiates (gsl : Gsl) : Prop :=
  ∀ (h : Dbl → Dbl) (H : ℝ → ℝ) (x d : ℝ), 0 < x → (∀ t, 0 < t → h (.fin t) = .fin (H t)) → HasDerivAt H d x →
    gsl.deriv h (.fin x) = .fin d

/-- The loss at demand `x` has mean `e x` and standard deviation `σ x`. -/
def Losses (loss : Dbl → LogNormalDist) (e σ : ℝ → ℝ) : Prop := ∀ x, 0 < x → (loss (.fin x)).Reports (e x) (σ x)

/-- Mean of a loss whose conditional mean is `e`, the demand having law `P`. -/
def totalMean (P : Measure ℝ) (e : ℝ → ℝ) : ℝ := ∫ x, e x ∂P

/-- Variance of a loss with conditional mean `e` and standard deviation `σ`: mean of the conditional variance plus
variance of the conditional mean. -/
def totalVariance (P : Measure ℝ) (e σ : ℝ → ℝ) : ℝ :=
  (∫ x, σ x ^ 2 ∂P) + ∫ x, (e x - totalMean P e) ^ 2 ∂P

/-! ## Auxiliary facts -/

theorem nz {x : ℝ} (hx : 0 < x) : ¬ feq (.fin x) 0 := by
  rw [zero_def, fin_feq]
  exact hx.ne'

theorem derivative_eq {gsl : Gsl} (hg : Differentiates gsl) {e : Edp} {im m s : ℝ}
    (he : e.at (.fin im) = ⟨.fin m, .fin s⟩) (hs : 0 < s) {x : ℝ} (hx : 0 < x) :
    abs (gsl.deriv (e.pExceedence (.fin im)) (.fin x)) = .fin (dens m s x) := by
  rw [hg _ (fun y => 1 - Phi ((Real.log y - m) / s)) x _ hx (fun t ht => by
    simp only [Edp.pExceedence, he, pAtLeast_pos m hs ht]) (dens_hasDerivAt hs hx), abs_fin, abs_neg,
    abs_of_nonneg (dens_nonneg hs hx)]

theorem guarded_derivative_eq {gsl : Gsl} (hg : Differentiates gsl) {g : Group} {im m s : ℝ} (him : 0 < im)
    (he : g.edp.at (.fin im) = ⟨.fin m, .fin s⟩) (hs : 0 < s) {x : ℝ} (hx : 0 < x) :
    abs (gsl.deriv (g.guarded (.fin im)) (.fin x)) = .fin (dens m s x) := by
  rw [hg _ (fun y => 1 - Phi ((Real.log y - m) / s)) x _ hx (fun t ht => by
    simp only [Group.guarded, zero_def, fin_feq, fin_lt, him.ne', not_lt.2 ht.le, or_self, if_false,
      Edp.pExceedence, he, pAtLeast_pos m hs ht]) (dens_hasDerivAt hs hx), abs_fin, abs_neg,
    abs_of_nonneg (dens_nonneg hs hx)]

/-- An integral of a conditional quantity against the density of the demand. -/
theorem integral_given_demand {maq : Maq} {ε : ℝ} {f : Dbl → Dbl} (hI : Integrates maq ε f) {m s : ℝ} (hs : 0 < s)
    {φ : ℝ → ℝ} (hφ : Integrable φ (LN m s)) (hf : ∀ x, 0 < x → f (.fin x) = .fin (φ x * dens m s x)) :
    ∃ v, maq f = (true, .fin v) ∧ |v - ∫ x, φ x ∂(LN m s)| ≤ ε := by
  obtain ⟨v, h1, h2⟩ := hI _ hf ((integrable_dens hs φ).2 hφ)
  exact ⟨v, h1, by rwa [integral_dens hs] at h2⟩

theorem second_eq {P : Measure ℝ} [IsProbabilityMeasure P] {e σ : ℝ → ℝ} (he : Integrable e P)
    (he2 : Integrable (fun x => e x ^ 2) P) (hσ : Integrable (fun x => σ x ^ 2) P) :
    ∫ x, (e x ^ 2 + σ x ^ 2) ∂P = totalVariance P e σ + totalMean P e ^ 2 := by
  have h : ∀ x, (e x - totalMean P e) ^ 2 = e x ^ 2 - 2 * totalMean P e * e x + totalMean P e ^ 2 := fun x => by ring
  simp only [totalVariance, h]
  rw [integral_add he2 hσ, integral_add (f := fun x => e x ^ 2 - 2 * totalMean P e * e x) (he2.sub (he.const_mul _)) (integrable_const _),
    integral_sub he2 (he.const_mul _), integral_const_mul, integral_const]
  simp only [probReal_univ, smul_eq_mul, one_mul]
  rw [show ∫ x, e x ∂P = totalMean P e from rfl]
  ring

theorem totalVariance_nonneg (P : Measure ℝ) (e σ : ℝ → ℝ) : 0 ≤ totalVariance P e σ :=
  add_nonneg (integral_nonneg fun _ => sq_nonneg _) (integral_nonneg fun _ => sq_nonneg _)

/-- The code's way from the second moment to the log spread. -/
theorem sdLnFrom_eq {S E V : ℝ} (hE : 0 < E) (hV : 0 ≤ V) (h : S = V + E ^ 2) :
    sdLnFrom (.fin S) (.fin E) = .fin (Real.sqrt (Real.log (1 + V / E ^ 2))) := by
  have h1 : S - E * E = V := by rw [h]; ring
  have h2 : Real.sqrt V * Real.sqrt V / (E * E) = V / E ^ 2 := by rw [Real.mul_self_sqrt hV, sq]
  have h3 : 0 ≤ V / E ^ 2 := by positivity
  have hE2 : E * E ≠ 0 := by positivity
  simp only [sdLnFrom, fin_mul, fin_sub, h1, sqrt_fin hV, isNaN_fin, if_false, fin_div_of_ne hE2, h2, one_def, fin_add,
    log_pos (show (0 : ℝ) < 1 + V / E ^ 2 by positivity), sqrt_fin (Real.log_nonneg (by linarith : 1 ≤ 1 + V / E ^ 2)),
    zero_def, fin_feq, hE.ne']

theorem reports_ofMeanSigmaLn {E V : ℝ} (hE : 0 < E) (hV : 0 ≤ V) :
    (ofMeanSigmaLn (.fin E) (.fin (Real.sqrt (Real.log (1 + V / E ^ 2))))).Reports E (Real.sqrt V) := by
  refine ⟨(mean_sdln_roundtrip E _ hE).1, ?_⟩
  have h3 : 0 ≤ V / E ^ 2 := by positivity
  simp only [ofMeanSigmaLn, muFromMeanSigmaLn, log_pos hE, fin_mul, fin_div_two, fin_sub]
  rw [getSigma_fin, sub_add_cancel, Real.exp_log hE, Real.mul_self_sqrt (Real.log_nonneg (by linarith)),
    Real.exp_log (by linarith), add_sub_cancel_left, Real.sqrt_div' _ (sq_nonneg E), Real.sqrt_sq hE.le,
    mul_div_cancel₀ _ hE.ne']

/-! ## C57: cost -/

/-- The expected cost at an intensity is, up to the error of the integrator, the mean of the cost over the demand. -/
theorem group_expected_cost (gsl : Gsl) (hg : Differentiates gsl) (g : Group) (hn : 0 < g.count) (im m s : ℝ)
    (him : 0 < im) (he : g.edp.at (.fin im) = ⟨.fin m, .fin s⟩) (hs : 0 < s) (e σ : ℝ → ℝ) (hL : Losses g.cost e σ)
    (hi : Integrable e (LN m s)) (maq : Maq) (ε : ℝ) (hI : Integrates maq ε (costIntegrand gsl g (.fin im))) :
    ∃ v, eCostIM maq gsl g (.fin im) = .fin v ∧ |v - totalMean (LN m s) e| ≤ ε := by
  unfold eCostIM
  rw [if_pos hn]
  obtain ⟨v, h1, h2⟩ := integral_given_demand hI hs hi (fun x hx => by
    unfold costIntegrand
    rw [if_neg (nz hx), (hL x hx).1, guarded_derivative_eq hg him he hs hx, fin_mul])
  exact ⟨v, by rw [h1]; rfl, h2⟩

/-- Mean and log spread from which the distribution of the cost is made. -/
theorem group_cost_parameters (gsl : Gsl) (hg : Differentiates gsl) (g : Group) (hn : 0 < g.count) (im m s : ℝ)
    (him : 0 < im) (he : g.edp.at (.fin im) = ⟨.fin m, .fin s⟩) (hs : 0 < s) (e σ : ℝ → ℝ) (hL : Losses g.cost e σ)
    (hi : Integrable e (LN m s)) (hi2 : Integrable (fun x => e x ^ 2) (LN m s))
    (hσ : Integrable (fun x => σ x ^ 2) (LN m s)) (hpos : 0 < totalMean (LN m s) e) (maq : Maq)
    (hI : Integrates maq 0 (costIntegrand gsl g (.fin im))) (hI₂ : Integrates maq 0 (costSquareIntegrand gsl g (.fin im))) :
    eCostIM maq gsl g (.fin im) = .fin (totalMean (LN m s) e) ∧ sdLnCostIM maq gsl g (.fin im) =
      .fin (Real.sqrt (Real.log (1 + totalVariance (LN m s) e σ / totalMean (LN m s) e ^ 2))) := by
  obtain ⟨v, h1, h2⟩ := group_expected_cost gsl hg g hn im m s him he hs e σ hL hi maq 0 hI
  have hv : v = totalMean (LN m s) e := by
    have := abs_nonpos_iff.1 h2
    linarith
  subst hv
  obtain ⟨w, h3, h4⟩ := integral_given_demand hI₂ hs (hi2.add hσ) (fun x hx => by
    unfold costSquareIntegrand
    rw [if_neg (nz hx), (hL x hx).1, (hL x hx).2, derivative_eq hg he hs hx, fin_mul, fin_mul, fin_add,
      fin_mul]
    simp only [Pi.add_apply, sq])
  have hw : w = totalVariance (LN m s) e σ + totalMean (LN m s) e ^ 2 := by
    rw [← second_eq hi hi2 hσ]
    have := abs_nonpos_iff.1 h4
    simp only [Pi.add_apply] at this
    linarith
  refine ⟨h1, ?_⟩
  unfold sdLnCostIM
  rw [if_pos hn]
  dsimp only
  rw [h3, h1]
  simp only [if_true]
  exact sdLnFrom_eq hpos (totalVariance_nonneg _ _ _) hw

/-- With an exact integrator, the distribution of the cost at an intensity has the mean of the cost over the demand
and the variance given by the law of total variance: what is uncertain about the demand and what is uncertain
about the cost given the demand both enter. -/
theorem group_cost_distribution (gsl : Gsl) (hg : Differentiates gsl) (g : Group) (hn : 0 < g.count) (im m s : ℝ)
    (him : 0 < im) (he : g.edp.at (.fin im) = ⟨.fin m, .fin s⟩) (hs : 0 < s) (e σ : ℝ → ℝ) (hL : Losses g.cost e σ)
    (hi : Integrable e (LN m s)) (hi2 : Integrable (fun x => e x ^ 2) (LN m s))
    (hσ : Integrable (fun x => σ x ^ 2) (LN m s)) (hpos : 0 < totalMean (LN m s) e) (maq : Maq)
    (hI : Integrates maq 0 (costIntegrand gsl g (.fin im))) (hI₂ : Integrates maq 0 (costSquareIntegrand gsl g (.fin im))) :
    (costDistIM maq gsl g (.fin im)).Reports (totalMean (LN m s) e) (Real.sqrt (totalVariance (LN m s) e σ)) := by
  obtain ⟨h1, h2⟩ := group_cost_parameters gsl hg g hn im m s him he hs e σ hL hi hi2 hσ hpos maq hI hI₂
  unfold costDistIM
  rw [h2, h1]
  exact reports_ofMeanSigmaLn hpos (totalVariance_nonneg _ _ _)

/-- Annual cost: the rate at which cost is incurred over all intensities. -/
theorem group_annual_cost (gsl : Gsl) (hg : Differentiates gsl) (g : Group) (hn : 0 < g.count) (m s : ℝ → ℝ)
    (hD : Demands g.edp m s) (e σ : ℝ → ℝ) (hL : Losses g.cost e σ) (hi : ∀ x, 0 < x → Integrable e (LN (m x) (s x)))
    (deriv : Dbl → Dbl) (lam lam' : ℝ → ℝ) (l : ℝ) (hH : Hazard deriv lam lam' l)
    (hi' : IntegrableOn (fun x => totalMean (LN (m x) (s x)) e * |lam' x|) (Ioi 0)) (maq : Maq)
    (hI : ∀ x, 0 < x → Integrates maq 0 (costIntegrand gsl g (.fin x)))
    (hI₂ : Integrates maq 0 (annualIntegrand maq gsl g deriv)) :
    eAnnualCost maq gsl g deriv = .fin (∫ x in Ioi (0 : ℝ), totalMean (LN (m x) (s x)) e * |lam' x|) := by
  unfold eAnnualCost
  rw [if_pos hn]
  obtain ⟨v, h1, h2⟩ := hI₂ _ (fun x hx => by
    obtain ⟨v, h1, h2⟩ := group_expected_cost gsl hg g hn x _ _ hx (hD.eq x hx) (hD.pos x hx) e σ hL (hi x hx) maq 0 (hI x hx)
    have hv : v = totalMean (LN (m x) (s x)) e := by
      have := abs_nonpos_iff.1 h2
      linarith
    unfold annualIntegrand
    rw [h1, hv, hH.derivEq x hx, abs_fin, fin_mul]) hi'
  rw [h1]
  have := abs_nonpos_iff.1 h2
  simp only [orZero, if_true, fin_inj]
  linarith

/-- Averaging over the hazard does not increase an error. -/
theorem averaged_error {deriv : Dbl → Dbl} {lam lam' : ℝ → ℝ} {l : ℝ} (hH : Hazard deriv lam lam' l) {c T : ℝ → ℝ} {ε : ℝ}
    (hc : AEStronglyMeasurable c (volume.restrict (Ioi 0))) (hT : IntegrableOn (fun x => T x * |lam' x|) (Ioi 0))
    (h : ∀ x, 0 < x → |c x - T x| ≤ ε) :
    IntegrableOn (fun x => c x * |lam' x|) (Ioi 0) ∧
      |(∫ x in Ioi (0 : ℝ), c x * |lam' x|) - (∫ x in Ioi (0 : ℝ), T x * |lam' x|)| ≤ ε * (lam 0 - l) := by
  have hlam := hH.integrable
  have hd : IntegrableOn (fun x => c x * |lam' x| - T x * |lam' x|) (Ioi 0) := by
    refine Integrable.mono' (g := fun x => ε * |lam' x|) (hlam.const_mul ε)
      ((hc.mul hlam.aestronglyMeasurable).sub hT.aestronglyMeasurable) ?_
    refine (ae_restrict_iff' measurableSet_Ioi).2 (ae_of_all _ fun x hx => ?_)
    rw [← sub_mul, Real.norm_eq_abs, abs_mul, abs_abs]
    exact mul_le_mul_of_nonneg_right (h x hx) (abs_nonneg _)
  have hi : IntegrableOn (fun x => c x * |lam' x|) (Ioi 0) := by
    refine (hd.add hT).congr (ae_of_all _ fun x => ?_)
    simp
  refine ⟨hi, ?_⟩
  rw [← integral_sub hi hT, ← hH.total, ← integral_const_mul]
  refine (abs_integral_le_integral_abs).trans ?_
  refine setIntegral_mono_on hd.abs (hlam.const_mul ε) measurableSet_Ioi fun x hx => ?_
  rw [← sub_mul, abs_mul, abs_abs]
  exact mul_le_mul_of_nonneg_right (h x hx) (abs_nonneg _)

/-- Annual cost with an inexact integrator: the error of the outer integration and the errors of the inner ones, weighted
by the rate of all earthquakes, add up. -/
theorem group_annual_cost_error (gsl : Gsl) (hg : Differentiates gsl) (g : Group) (hn : 0 < g.count) (m s : ℝ → ℝ)
    (hD : Demands g.edp m s) (e σ : ℝ → ℝ) (hL : Losses g.cost e σ) (hi : ∀ x, 0 < x → Integrable e (LN (m x) (s x)))
    (deriv : Dbl → Dbl) (lam lam' : ℝ → ℝ) (l : ℝ) (hH : Hazard deriv lam lam' l)
    (hi' : IntegrableOn (fun x => totalMean (LN (m x) (s x)) e * |lam' x|) (Ioi 0)) (maq : Maq) (ε ε' : ℝ) (c : ℝ → ℝ)
    (hc : Measurable c) (hcost : ∀ x, 0 < x → eCostIM maq gsl g (.fin x) = .fin (c x))
    (hI : ∀ x, 0 < x → Integrates maq ε (costIntegrand gsl g (.fin x)))
    (hI₂ : Integrates maq ε' (annualIntegrand maq gsl g deriv)) :
    ∃ v, eAnnualCost maq gsl g deriv = .fin v ∧
      |v - (∫ x in Ioi (0 : ℝ), totalMean (LN (m x) (s x)) e * |lam' x|)| ≤ ε' + ε * (lam 0 - l) := by
  obtain ⟨h1, h2⟩ := averaged_error hH (ε := ε) hc.aestronglyMeasurable hi' fun x hx => by
    obtain ⟨v, h1, h2⟩ := group_expected_cost gsl hg g hn x _ _ hx (hD.eq x hx) (hD.pos x hx) e σ hL (hi x hx) maq ε (hI x hx)
    rw [hcost x hx, fin_inj] at h1
    rwa [h1]
  obtain ⟨v, h3, h4⟩ := hI₂ _ (fun x hx => by
    unfold annualIntegrand
    rw [hcost x hx, hH.derivEq x hx, abs_fin, fin_mul]) h1
  refine ⟨v, ?_, ?_⟩
  · unfold eAnnualCost
    rw [if_pos hn, h3]
    rfl
  · rw [abs_le] at *
    constructor <;> linarith [h2.1, h2.2, h4.1, h4.2]

/-- A group without components costs nothing, delays nothing, at any intensity. -/
theorem empty_group_costs_nothing (gsl : Gsl) (g : Group) (hn : g.count ≤ 0) (deriv : Dbl → Dbl) (maq : Maq) (x : Dbl) :
    eCostIM maq gsl g x = 0 ∧ sdLnCostIM maq gsl g x = 0 ∧ eAnnualCost maq gsl g deriv = 0 ∧
      lambdaCost maq gsl g deriv x = 0 ∧ eDelayIM maq gsl g x = 0 ∧ sdLnDelayIM maq gsl g x = 0 ∧
      (costDistIM maq gsl g x).Reports 0 0 := by
  have h : ¬ 0 < g.count := not_lt.2 hn
  have h1 : eCostIM maq gsl g x = 0 := by simp [eCostIM, h]
  have h2 : sdLnCostIM maq gsl g x = 0 := by simp [sdLnCostIM, h]
  refine ⟨h1, h2, by simp [eAnnualCost, h], by simp [lambdaCost, h], by simp [eDelayIM, h], by simp [sdLnDelayIM, h], ?_⟩
  have := zero_mean_sdln 0
  rw [costDistIM, h1, h2]
  exact ⟨this.1, this.2.1⟩

/-! ## C60: damage states -/

/-- The probability of a damage state at an intensity is, up to the error of the integrator, the probability that the
capacity of the component is below the demand, the two being independent; in closed form, the standard normal
distribution function at the reliability index. -/
theorem damage_state_probability (gsl : Gsl) (hg : Differentiates gsl) (g : Group) (im m s : ℝ)
    (he : g.edp.at (.fin im) = ⟨.fin m, .fin s⟩) (hs : 0 < s) (mc sc : ℝ) (hsc : 0 < sc) (maq : Maq) (ε : ℝ)
    (hI : Integrates maq ε (stateIntegrand gsl g ⟨.fin mc, .fin sc⟩ (.fin im))) :
    ∃ v, pDSIMcalc maq gsl g ⟨.fin mc, .fin sc⟩ (.fin im) = .fin v ∧ |v - below mc sc m s| ≤ ε ∧
      below mc sc m s = Phi ((m - mc) / Real.sqrt (sc ^ 2 + s ^ 2)) := by
  have hmono : Monotone fun x => (LN mc sc).real (Iic x) := fun a b h => measureReal_mono (Iic_subset_Iic.2 h)
  have hi : Integrable (fun x => (LN mc sc).real (Iic x)) (LN m s) := by
    refine Integrable.of_bound hmono.measurable.aestronglyMeasurable 1 (ae_of_all _ fun x => ?_)
    rw [Real.norm_eq_abs, abs_of_nonneg measureReal_nonneg]
    exact measureReal_le_one
  obtain ⟨v, h1, h2⟩ := integral_given_demand hI hs hi (fun x hx => by
    unfold stateIntegrand
    rw [if_neg (nz hx), (p_at_most_is_cdf mc hsc hx.le).1, derivative_eq hg he hs hx, fin_mul])
  refine ⟨v, by unfold pDSIMcalc; rw [h1]; rfl, ?_, below_closed mc hsc m s⟩
  rwa [below_eq_integral]

/-- Rate at which a damage state is reached. -/
def stateRate (mc sc : ℝ) (m s lam' : ℝ → ℝ) : ℝ := ∫ x in Ioi (0 : ℝ), below mc sc (m x) (s x) * |lam' x|

theorem below_measurable {e : Edp} {m s : ℝ → ℝ} (hD : Demands e m s) (mc : ℝ) {sc : ℝ} (hsc : 0 < sc) :
    Measurable fun x => below mc sc (m x) (s x) := by
  simp only [below_closed mc hsc]
  have h1 := hD.measM
  have h2 := hD.measS
  exact Phi_continuous.measurable.comp (by fun_prop)

theorem stateRate_integrable {deriv : Dbl → Dbl} {lam lam' : ℝ → ℝ} {l : ℝ} (hH : Hazard deriv lam lam' l) {e : Edp}
    {m s : ℝ → ℝ} (hD : Demands e m s) (mc : ℝ) {sc : ℝ} (hsc : 0 < sc) :
    IntegrableOn (fun x => below mc sc (m x) (s x) * |lam' x|) (Ioi 0) :=
  hH.weighted (below_measurable hD mc hsc).aestronglyMeasurable (fun _ _ => below_nonneg _ _ _ _)
    (fun _ _ => below_le_one _ _ _ _)

/-- The rates of the damage states: each is the rate at which demand exceeds capacity, none exceeds the
rate of all earthquakes, and a state with a larger capacity of the same spread is reached less often. -/
theorem damage_state_rates (gsl : Gsl) (hg : Differentiates gsl) (g : Group) (m s : ℝ → ℝ) (hD : Demands g.edp m s)
    (deriv : Dbl → Dbl) (lam lam' : ℝ → ℝ) (l : ℝ) (hH : Hazard deriv lam lam' l) (caps : List (ℝ × ℝ))
    (hc : ∀ c ∈ caps, 0 < c.2) (hst : g.states = caps.map fun c => ⟨.fin c.1, .fin c.2⟩) (maq : Maq)
    (hI : ∀ x, 0 < x → ∀ d ∈ g.states, Integrates maq 0 (stateIntegrand gsl g d (.fin x)))
    (hI₂ : ∀ d ∈ g.states, Integrates maq 0 (rateIntegrand maq gsl g deriv d)) :
    calcRate maq gsl g deriv = caps.map (fun c => .fin (stateRate c.1 c.2 m s lam')) ∧
      (∀ c ∈ caps, 0 ≤ stateRate c.1 c.2 m s lam' ∧ stateRate c.1 c.2 m s lam' ≤ lam 0 - l) ∧
      ∀ c ∈ caps, ∀ c' ∈ caps, c.1 ≤ c'.1 → c.2 = c'.2 →
        stateRate c'.1 c'.2 m s lam' ≤ stateRate c.1 c.2 m s lam' := by
  refine ⟨?_, ?_, ?_⟩
  · rw [calcRate, hst, List.map_map]
    refine List.map_congr_left fun c hcm => ?_
    simp only [Function.comp]
    have hmem : (⟨.fin c.1, .fin c.2⟩ : LogNormalDist) ∈ g.states := by
      rw [hst]; exact List.mem_map_of_mem hcm
    obtain ⟨v, h1, h2⟩ := hI₂ _ hmem _ (fun x hx => by
      obtain ⟨v, h1, h2, -⟩ := damage_state_probability gsl hg g x _ _ (hD.eq x hx) (hD.pos x hx) c.1 c.2 (hc c hcm)
        maq 0 (hI x hx _ hmem)
      have hv : v = below c.1 c.2 (m x) (s x) := by
        have := abs_nonpos_iff.1 h2
        linarith
      unfold rateIntegrand
      rw [if_neg (nz hx), h1, hv, hH.derivEq x hx, abs_fin, fin_mul])
      (stateRate_integrable hH hD c.1 (hc c hcm))
    rw [h1]
    have := abs_nonpos_iff.1 h2
    simp only [orNaN, if_true, fin_inj, stateRate]
    linarith
  · intro c hcm
    constructor
    · exact setIntegral_nonneg measurableSet_Ioi fun x _ => mul_nonneg (below_nonneg _ _ _ _) (abs_nonneg _)
    · rw [← hH.total]
      exact setIntegral_mono_on (stateRate_integrable hH hD c.1 (hc c hcm)) hH.integrable measurableSet_Ioi
        fun x _ => mul_le_of_le_one_left (abs_nonneg _) (below_le_one _ _ _ _)
  · rintro ⟨a, t⟩ h1 ⟨b, t'⟩ h2 hab ht
    dsimp only at hab ht
    subst ht
    refine setIntegral_mono_on (stateRate_integrable hH hD b (hc _ h2)) (stateRate_integrable hH hD a (hc _ h1))
      measurableSet_Ioi fun x _ => mul_le_mul_of_nonneg_right ?_ (abs_nonneg _)
    rw [below_closed a (hc _ h1), below_closed b (hc _ h1)]
    exact Phi_mono (by gcongr)

/-- The rate of a damage state with an inexact integrator. -/
theorem damage_state_rate_error (gsl : Gsl) (hg : Differentiates gsl) (g : Group) (m s : ℝ → ℝ) (hD : Demands g.edp m s)
    (deriv : Dbl → Dbl) (lam lam' : ℝ → ℝ) (l : ℝ) (hH : Hazard deriv lam lam' l) (i : ℕ) (mc sc : ℝ) (hsc : 0 < sc)
    (hst : g.states[i]? = some ⟨.fin mc, .fin sc⟩) (maq : Maq) (ε ε' : ℝ) (c : ℝ → ℝ) (hc : Measurable c)
    (hp : ∀ x, 0 < x → pDSIMcalc maq gsl g ⟨.fin mc, .fin sc⟩ (.fin x) = .fin (c x))
    (hI : ∀ x, 0 < x → Integrates maq ε (stateIntegrand gsl g ⟨.fin mc, .fin sc⟩ (.fin x)))
    (hI₂ : Integrates maq ε' (rateIntegrand maq gsl g deriv ⟨.fin mc, .fin sc⟩)) :
    ∃ v, (calcRate maq gsl g deriv)[i]? = some (.fin v) ∧ |v - stateRate mc sc m s lam'| ≤ ε' + ε * (lam 0 - l) := by
  obtain ⟨h1, h2⟩ := averaged_error hH (ε := ε) hc.aestronglyMeasurable (stateRate_integrable hH hD mc hsc) fun x hx => by
    obtain ⟨v, h1, h2, -⟩ := damage_state_probability gsl hg g x _ _ (hD.eq x hx) (hD.pos x hx) mc sc hsc maq ε (hI x hx)
    rw [hp x hx, fin_inj] at h1
    rwa [h1]
  obtain ⟨v, h3, h4⟩ := hI₂ _ (fun x hx => by
    unfold rateIntegrand
    rw [if_neg (nz hx), hp x hx, hH.derivEq x hx, abs_fin, fin_mul]) h1
  refine ⟨v, ?_, ?_⟩
  · rw [calcRate, List.getElem?_map, hst, Option.map_some, h3]
    rfl
  · unfold stateRate
    rw [abs_le] at *
    constructor <;> linarith [h2.1, h2.2, h4.1, h4.2]

/-! ## C61: delay -/

/-- The expected delay at an intensity. -/
theorem group_expected_delay (gsl : Gsl) (hg : Differentiates gsl) (g : Group) (hn : 0 < g.count) (im m s : ℝ)
    (he : g.edp.at (.fin im) = ⟨.fin m, .fin s⟩) (hs : 0 < s) (e σ : ℝ → ℝ) (hL : Losses g.delay e σ)
    (hi : Integrable e (LN m s)) (maq : Maq) (ε : ℝ) (hI : Integrates maq ε (delayIntegrand gsl g (.fin im))) :
    ∃ v, eDelayIM maq gsl g (.fin im) = .fin v ∧ |v - totalMean (LN m s) e| ≤ ε := by
  unfold eDelayIM
  rw [if_pos hn]
  obtain ⟨v, h1, h2⟩ := integral_given_demand hI hs hi
    (fun x hx => by
      unfold delayIntegrand
      rw [if_neg (nz hx), (hL x hx).1, derivative_eq hg he hs hx, fin_mul])
  exact ⟨v, by rw [h1]; rfl, h2⟩

/-- What `SD_ln_delay_IM` computes for a group of `n` components: the log spread of a delay whose
conditional variance is `n²` times too large. -/
theorem group_delay_spread (gsl : Gsl) (hg : Differentiates gsl) (g : Group) (hn : 0 < g.count) (im m s : ℝ)
    (he : g.edp.at (.fin im) = ⟨.fin m, .fin s⟩) (hs : 0 < s) (e σ : ℝ → ℝ) (hL : Losses g.delay e σ)
    (hi : Integrable e (LN m s)) (hi2 : Integrable (fun x => e x ^ 2) (LN m s))
    (hσ : Integrable (fun x => σ x ^ 2) (LN m s)) (hpos : 0 < totalMean (LN m s) e) (maq : Maq)
    (hI : Integrates maq 0 (delayIntegrand gsl g (.fin im))) (hI₂ : Integrates maq 0 (delaySquareIntegrand gsl g (.fin im))) :
    sdLnDelayIM maq gsl g (.fin im) = .fin (Real.sqrt (Real.log
      (1 + totalVariance (LN m s) e (fun x => g.count * σ x) / totalMean (LN m s) e ^ 2))) := by
  set n : ℝ := (g.count : ℝ) with hnn
  have hn0 : 0 < n := by rw [hnn]; exact_mod_cast hn
  obtain ⟨v, h1, h2⟩ := group_expected_delay gsl hg g hn im m s he hs e σ hL hi maq 0 hI
  have hv : v = totalMean (LN m s) e := by
    have := abs_nonpos_iff.1 h2
    linarith
  subst hv
  have hie : Integrable (fun x => e x / n) (LN m s) := hi.div_const n
  have hie2 : Integrable (fun x => (e x / n) ^ 2) (LN m s) := by
    simp only [div_pow]
    exact hi2.div_const _
  obtain ⟨w, h3, h4⟩ := integral_given_demand hI₂ hs (hie2.add hσ) (fun x hx => by
    unfold delaySquareIntegrand
    dsimp only
    rw [← hnn, if_neg (nz hx), (hL x hx).1, (hL x hx).2, derivative_eq hg he hs hx,
      fin_div_of_ne hn0.ne', fin_mul, fin_mul, fin_add, fin_mul]
    simp only [Pi.add_apply, sq])
  have hmean : totalMean (LN m s) (fun x => e x / n) = totalMean (LN m s) e / n := integral_div _ _
  have hw : w = totalVariance (LN m s) (fun x => e x / n) σ + (totalMean (LN m s) e / n) ^ 2 := by
    rw [← hmean, ← second_eq hie hie2 hσ]
    have := abs_nonpos_iff.1 h4
    simp only [Pi.add_apply] at this
    linarith
  have hsc : totalVariance (LN m s) e (fun x => n * σ x) =
      n ^ 2 * totalVariance (LN m s) (fun x => e x / n) σ := by
    simp only [totalVariance, hmean, mul_pow, mul_add, ← integral_const_mul]
    congr 2
    funext x
    field_simp
  have hval : totalVariance (LN m s) (fun x => e x / n) σ / (totalMean (LN m s) e / n) ^ 2 =
      totalVariance (LN m s) e (fun x => n * σ x) / totalMean (LN m s) e ^ 2 := by
    rw [hsc]; field_simp
  unfold sdLnDelayIM
  rw [if_pos hn]
  dsimp only
  rw [← hnn, h3, h1, fin_div_of_ne hn0.ne']
  simp only [if_true]
  rw [sdLnFrom_eq (by positivity) (totalVariance_nonneg _ _ _) hw, hval]

/-- For a single component the spread is right: with the mean it gives the delay the variance of the law of
total variance.  (Missing: groups of several components, see below.) -/
theorem group_delay_distribution_partial (gsl : Gsl) (hg : Differentiates gsl) (g : Group) (hn : g.count = 1)
    (im m s : ℝ) (he : g.edp.at (.fin im) = ⟨.fin m, .fin s⟩) (hs : 0 < s) (e σ : ℝ → ℝ) (hL : Losses g.delay e σ)
    (hi : Integrable e (LN m s)) (hi2 : Integrable (fun x => e x ^ 2) (LN m s))
    (hσ : Integrable (fun x => σ x ^ 2) (LN m s)) (hpos : 0 < totalMean (LN m s) e) (maq : Maq)
    (hI : Integrates maq 0 (delayIntegrand gsl g (.fin im))) (hI₂ : Integrates maq 0 (delaySquareIntegrand gsl g (.fin im))) :
    (ofMeanSigmaLn (eDelayIM maq gsl g (.fin im)) (sdLnDelayIM maq gsl g (.fin im))).Reports (totalMean (LN m s) e)
      (Real.sqrt (totalVariance (LN m s) e σ)) := by
  have hn' : 0 < g.count := by omega
  obtain ⟨v, h1, h2⟩ := group_expected_delay gsl hg g hn' im m s he hs e σ hL hi maq 0 hI
  have hv : v = totalMean (LN m s) e := by
    have := abs_nonpos_iff.1 h2
    linarith
  subst hv
  rw [h1, group_delay_spread gsl hg g hn' im m s he hs e σ hL hi hi2 hσ hpos maq hI hI₂]
  simp only [hn, Int.cast_one, one_mul]
  exact reports_ofMeanSigmaLn hpos (totalVariance_nonneg _ _ _)

/-! ## Instances, and what fails -/

/-- Value of a finite number. -/
def val : Dbl → ℝ
  | .fin x => x
  | _ => 0

/-- Differentiation routines without error. -/
def idealGsl : Gsl where
  central h x := .fin (deriv (fun t => val (h (.fin t))) (val x))
  forward h x := .fin (deriv (fun t => val (h (.fin t))) (val x))
  backward h x := .fin (deriv (fun t => val (h (.fin t))) (val x))

theorem idealGsl_ok : Differentiates idealGsl := by
  intro h H x d hx hh hd
  have : HasDerivAt (fun t => val (h (.fin t))) d x := by
    refine hd.congr_of_eventuallyEq ?_
    filter_upwards [lt_mem_nhds hx] with t ht
    rw [hh t ht]
    rfl
  have e : fin (deriv (fun t => val (h (.fin t))) x) = fin d := by rw [this.deriv]
  simpa [Gsl.deriv, idealGsl, val] using e

/-- Three components whose cost grows with the demand and whose delay is 1 with standard deviation 1. -/
def three : Group where
  edp := .plain (growing 2)
  states := [⟨.fin 0, .fin (1 / 2)⟩, ⟨.fin 1, .fin (1 / 2)⟩]
  count := 3
  cost := fun x => .ofMeanSigma x (.fin 2)
  delay := fun _ => .ofMeanSigma (.fin 1) (.fin 1)

theorem three_costs : Losses three.cost id fun _ => 2 := fun x hx =>
  (mean_sd_roundtrip x 2 (by norm_num)).2 (Or.inl hx)

theorem three_delays : Losses three.delay (fun _ => 1) fun _ => 1 := fun _ _ =>
  (mean_sd_roundtrip 1 1 (by norm_num)).2 (Or.inl one_pos)

theorem integrable_id_LN (m s : ℝ) : Integrable id (LN m s) := by
  rw [LN, exp_embedding.integrable_map_iff]
  simpa using integrable_LN m s 1

theorem integrable_sq_LN (m s : ℝ) : Integrable (fun x => id x ^ 2) (LN m s) := by
  rw [LN, exp_embedding.integrable_map_iff]
  refine (integrable_LN m s 2).congr (ae_of_all _ fun x => ?_)
  simp only [Function.comp, id, ← Real.exp_nat_mul]
  norm_num

theorem totalMean_id_pos (m s : ℝ) : 0 < totalMean (LN m s) id := by
  have h := (moments_are_true_moments m s).1
  rw [getMean_fin, fin_inj] at h
  have : totalMean (LN m s) id = ∫ x, x ∂LN m s := rfl
  rw [this, ← h]
  exact Real.exp_pos _

/-- The cost distribution of the three components at intensity 1. -/
example : (costDistIM ideal idealGsl three (.fin 1)).Reports (totalMean (LN (Real.log (2 * 1)) (1 / 2)) id)
    (Real.sqrt (totalVariance (LN (Real.log (2 * 1)) (1 / 2)) id fun _ => 2)) :=
  group_cost_distribution idealGsl idealGsl_ok three (by norm_num [three]) 1 _ _ one_pos rfl (by norm_num) id _
    three_costs (integrable_id_LN _ _) (integrable_sq_LN _ _) (integrable_const _) (totalMean_id_pos _ _) ideal
    (ideal_integrates _) (ideal_integrates _)

/-- Expected cost and the probability of the first damage state at intensity 1: the median of the demand is 2, that of the
capacity 1. -/
example : (∃ v, eCostIM ideal idealGsl three (.fin 1) = .fin v ∧
      |v - totalMean (LN (Real.log (2 * 1)) (1 / 2)) id| ≤ 0) ∧
    ∃ v, pDSIMcalc ideal idealGsl three ⟨.fin 0, .fin (1 / 2)⟩ (.fin 1) = .fin v ∧
      |v - below 0 (1 / 2) (Real.log (2 * 1)) (1 / 2)| ≤ 0 ∧ below 0 (1 / 2) (Real.log (2 * 1)) (1 / 2) =
        Phi ((Real.log (2 * 1) - 0) / Real.sqrt ((1 / 2) ^ 2 + (1 / 2) ^ 2)) :=
  ⟨group_expected_cost idealGsl idealGsl_ok three (by norm_num [three]) 1 _ _ one_pos rfl (by norm_num) id _ three_costs
      (integrable_id_LN _ _) ideal 0 (ideal_integrates _),
    damage_state_probability idealGsl idealGsl_ok three 1 _ _ rfl (by norm_num) 0 (1 / 2) (by norm_num) ideal 0
      (ideal_integrates _)⟩

/-- Expected delay of the three components, and the same group without components. -/
example : (∃ v, eDelayIM ideal idealGsl three (.fin 1) = .fin v ∧
      |v - totalMean (LN (Real.log (2 * 1)) (1 / 2)) fun _ => 1| ≤ 0) ∧
    (costDistIM ideal idealGsl { three with count := 0 } (.fin 1)).Reports 0 0 :=
  ⟨group_expected_delay idealGsl idealGsl_ok three (by norm_num [three]) 1 _ _ rfl (by norm_num) _ _ three_delays
      (integrable_const _) ideal 0 (ideal_integrates _),
    (empty_group_costs_nothing idealGsl { three with count := 0 } le_rfl expHazard ideal (.fin 1)).2.2.2.2.2.2⟩

/-- The two damage states: rates in decreasing order. -/
example : ∃ r₁ r₂ : ℝ, calcRate ideal idealGsl three expHazard = [.fin r₁, .fin r₂] ∧ 0 ≤ r₂ ∧ r₂ ≤ r₁ ∧ r₁ ≤ 1 := by
  obtain ⟨h1, h2, h3⟩ := damage_state_rates idealGsl idealGsl_ok three _ _ (growing_ok 2) _ _ _ _ expHazard_ok
    [(0, 1 / 2), (1, 1 / 2)] (by simp) rfl ideal
    (fun _ _ _ _ => ideal_integrates _) fun _ _ => ideal_integrates _
  refine ⟨_, _, h1, (h2 (1, 1 / 2) (by simp)).1, h3 (0, 1 / 2) (by simp) (1, 1 / 2) (by simp) (by norm_num) rfl, ?_⟩
  simpa using (h2 (0, 1 / 2) (by simp)).2

/-- The annual cost of three components with a constant cost of 5. -/
example : eAnnualCost ideal idealGsl { three with cost := fun _ => .ofMeanSigma (.fin 5) (.fin 2) } expHazard =
    .fin 5 := by
  have := group_annual_cost idealGsl idealGsl_ok { three with cost := fun _ => .ofMeanSigma (.fin 5) (.fin 2) }
    (by norm_num [three]) _ _ (growing_ok 2) (fun _ => 5) (fun _ => 2)
    (fun _ _ => (mean_sd_roundtrip 5 2 (by norm_num)).2 (Or.inl (by norm_num))) (fun _ _ => integrable_const _) _ _ _ _
    expHazard_ok (by
      simp only [totalMean, integral_const, probReal_univ, smul_eq_mul, one_mul]
      exact expHazard_ok.integrable.const_mul 5) ideal (fun _ _ => ideal_integrates _) (ideal_integrates _)
  rw [this]
  have h := expHazard_ok.total
  simp only [totalMean, integral_const, probReal_univ, smul_eq_mul, one_mul, integral_const_mul, h]
  simp

/-- A single component: the delay distribution is right. -/
example : (ofMeanSigmaLn (eDelayIM ideal idealGsl { three with count := 1 } (.fin 1))
    (sdLnDelayIM ideal idealGsl { three with count := 1 } (.fin 1))).Reports
      (totalMean (LN (Real.log (2 * 1)) (1 / 2)) fun _ => 1)
      (Real.sqrt (totalVariance (LN (Real.log (2 * 1)) (1 / 2)) (fun _ => 1) fun _ => 1)) :=
  group_delay_distribution_partial idealGsl idealGsl_ok { three with count := 1 } rfl 1 _ _ rfl (by norm_num) _ _
    three_delays (integrable_const _) (integrable_const _) (integrable_const _) (by simp [totalMean]) ideal
    (ideal_integrates _) (ideal_integrates _)

/-- **C61, what fails**: for three components whose delay is 1 with standard deviation 1, the log spread reported is
that of a standard deviation 3; with the reported mean it does not give back the standard deviation. -/
theorem group_delay_distribution_fails :
    ∃ (g : Group) (m s : ℝ) (e σ : ℝ → ℝ), 0 < s ∧ g.edp.at (.fin 1) = ⟨.fin m, .fin s⟩ ∧ Losses g.delay e σ ∧
      totalMean (LN m s) e = 1 ∧ totalVariance (LN m s) e σ = 1 ∧
      (ofMeanSigmaLn (eDelayIM ideal idealGsl g (.fin 1)) (sdLnDelayIM ideal idealGsl g (.fin 1))).Reports 1 3 := by
  refine ⟨three, Real.log (2 * 1), 1 / 2, fun _ => 1, fun _ => 1, by norm_num, rfl, three_delays, by simp [totalMean],
    by simp [totalMean, totalVariance], ?_⟩
  have hm : totalMean (LN (Real.log (2 * 1)) (1 / 2)) (fun _ => 1) = 1 := by simp [totalMean]
  obtain ⟨v, h1, h2⟩ := group_expected_delay idealGsl idealGsl_ok three (by norm_num [three]) 1 (Real.log (2 * 1)) (1 / 2)
    rfl (by norm_num) (fun _ => 1) (fun _ => 1) three_delays (integrable_const _) ideal 0 (ideal_integrates _)
  have hv : v = 1 := by
    have := abs_nonpos_iff.1 h2
    rw [hm] at this
    linarith
  rw [h1, hv, group_delay_spread idealGsl idealGsl_ok three (by norm_num [three]) 1 (Real.log (2 * 1)) (1 / 2) rfl
    (by norm_num) (fun _ => 1) (fun _ => 1) three_delays (integrable_const _) (integrable_const _) (integrable_const _)
    (by rw [hm]; exact one_pos) ideal (ideal_integrates _) (ideal_integrates _), hm]
  have hV : totalVariance (LN (Real.log (2 * 1)) (1 / 2)) (fun _ => 1) (fun _ => (three.count : ℝ) * 1) = 3 ^ 2 := by
    norm_num [totalVariance, totalMean, three]
  rw [hV]
  have := reports_ofMeanSigmaLn (E := 1) (V := 3 ^ 2) one_pos (by norm_num)
  rwa [Real.sqrt_sq (by norm_num)] at this

/-- **C57, what fails**: with the actual integrator and a small evaluation limit the integration of a cost whose mean
is 5 fails, and the group reports an expected cost of 0, as if there were no cost; the rate of a
demand would be reported as not a number. -/
theorem failed_cost_is_zero_fails : ∃ (cfg : Maq.Cfg) (g : Group) (m s : ℝ) (e σ : ℝ → ℝ), 0 < g.count ∧ 0 < s ∧
    g.edp.at (.fin 1) = ⟨.fin m, .fin s⟩ ∧ Losses g.cost e σ ∧ Integrable e (LN m s) ∧ totalMean (LN m s) e = 5 ∧
    eCostIM (actual cfg) idealGsl g (.fin 1) = .fin 0 ∧
    (∀ f, (actual cfg f).1 = false → orNaN (actual cfg f) = .nan) := by
  let g : Group := { three with edp := .plain (growing 1), cost := fun _ => .ofMeanSigma (.fin 5) (.fin 2) }
  have hL : Losses g.cost (fun _ => 5) (fun _ => 2) :=
    fun _ _ => (mean_sd_roundtrip 5 2 (by norm_num)).2 (Or.inl (by norm_num))
  have hat : g.edp.at (.fin 1) = ⟨.fin 0, .fin (1 / 2)⟩ := by simp [g, Edp.at, growing]
  refine ⟨⟨.fin (1 / 1000), 5, 2048, .directed⟩, g, 0, 1 / 2, fun _ => 5, fun _ => 2, by norm_num [g, three],
    by norm_num, hat, hL, integrable_const _, by simp [totalMean], ?_, fun f h => by rw [orNaN, if_neg (by rw [h]; decide)]⟩
  have h1 : costIntegrand idealGsl g (.fin 1) (.fin 1) = .fin (5 * dens 0 (1 / 2) 1) := by
    unfold costIntegrand
    rw [if_neg (nz one_pos), (hL 1 one_pos).1,
      guarded_derivative_eq idealGsl_ok one_pos hat (by norm_num) one_pos, fin_mul]
  have hd : Maq.eps < 5 * dens 0 (1 / 2) 1 := by
    simp only [dens, Real.log_one, sub_zero, zero_div, mul_one, ProbabilityTheory.gaussianPDFReal]
    have hp := Real.pi_le_four
    have h3 : Real.sqrt (2 * Real.pi * 1) ≤ 3 := by
      rw [Real.sqrt_le_left (by norm_num)]
      linarith
    have h0 : 0 < Real.sqrt (2 * Real.pi * 1) := Real.sqrt_pos.2 (by positivity)
    have h4 : (1 : ℝ) / 3 ≤ (Real.sqrt (2 * Real.pi * 1))⁻¹ := by
      rw [one_div]; exact inv_anti₀ h0 h3
    norm_num [Maq.eps] at h4 ⊢
    linarith
  obtain ⟨rep, hr, hs⟩ := Maq.limit_too_small (costIntegrand idealGsl g (.fin 1)) ⟨.fin (1 / 1000), 5, 2048, .directed⟩ 2
    ⟨0, fun fuel _ => Maq.finds_unit _ _ _ (by
      rw [not_and_or, h1, fin_le]
      right
      linarith) fuel⟩ (by norm_num) (by norm_num)
  unfold eCostIM
  rw [if_pos (by norm_num [g, three]), actual_eq hr, hs]
  rfl

end

end Slat.Rates
