import Verif.RatesGroup
import Mathlib.MeasureTheory.Integral.Layercake
import Mathlib.MeasureTheory.Integral.Prod

/-!
# The rate at which the cost of a group exceeds a value (C66)
-/

namespace Slat.Rates

open Slat Dbl LogNormalDist Fates MeasureTheory ProbabilityTheory Set Filter Topology

noncomputable section

/-! ## Specification -/

/-- A log-normal law with mean `E` and variance `V`. -/
def IsCostLaw (P : Measure ℝ) (E V : ℝ) : Prop :=
  ∃ m s : ℝ, 0 < s ∧ P = LN m s ∧ ∫ x, x ∂P = E ∧ Var[fun x => x; P] = V

/-- The rate of earthquakes after which a cost is at least `c`, the cost at intensity `x` having law `P x`. -/
def exceedRate (P : ℝ → Measure ℝ) (lam' : ℝ → ℝ) (c : ℝ) : ℝ :=
  ∫ x in Ioi (0 : ℝ), (P x).real (Ici c) * |lam' x|

/-! ## Auxiliary facts -/

/-- The parameters of a log-normal law from its mean and variance. -/
theorem costLaw_parameters {P : Measure ℝ} {E V : ℝ} (h : IsCostLaw P E V) :
    0 < E ∧ 0 < V ∧ 0 < Real.sqrt (Real.log (1 + V / E ^ 2)) ∧
      P = LN (Real.log E - Real.sqrt (Real.log (1 + V / E ^ 2)) * Real.sqrt (Real.log (1 + V / E ^ 2)) / 2)
        (Real.sqrt (Real.log (1 + V / E ^ 2))) := by
  obtain ⟨m, s, hs, rfl, hE, hV⟩ := h
  obtain ⟨h1, h2⟩ := moments_are_true_moments m s
  rw [getMean_fin, hE, fin_inj] at h1
  rw [getSigma_fin, hV, fin_inj] at h2
  have hE0 : 0 < E := h1 ▸ Real.exp_pos _
  have hx : 0 < Real.exp (s * s) - 1 := by
    have : 0 < s * s := mul_pos hs hs
    have := Real.add_one_lt_exp this.ne'
    linarith
  have hV0 : 0 < V := by
    by_contra hn
    rw [Real.sqrt_eq_zero_of_nonpos (not_lt.1 hn)] at h2
    have : 0 < Real.exp (m + s * s / 2) * Real.sqrt (Real.exp (s * s) - 1) :=
      mul_pos (Real.exp_pos _) (Real.sqrt_pos.2 hx)
    linarith
  have hVe : V = E ^ 2 * (Real.exp (s * s) - 1) := by
    have := congrArg (· ^ 2) h2
    rw [Real.sq_sqrt hV0.le, mul_pow, Real.sq_sqrt hx.le, h1] at this
    exact this.symm
  have hd : 1 + V / E ^ 2 = Real.exp (s * s) := by
    rw [hVe]
    field_simp
    ring
  have hs' : Real.sqrt (Real.log (1 + V / E ^ 2)) = s := by
    rw [hd, Real.log_exp, Real.sqrt_mul_self hs.le]
  refine ⟨hE0, hV0, by rw [hs']; exact hs, ?_⟩
  rw [hs', ← h1, Real.log_exp, add_sub_cancel_right]

/-- A log-normal law as image of the standard normal law. -/
theorem integral_LN_standard (m s : ℝ) {f : ℝ → ℝ} (hf : Measurable f) :
    ∫ x, f x ∂LN m s = ∫ z, f (Real.exp (m + s * z)) ∂gaussianReal 0 1 := by
  have h : LN m s = (gaussianReal 0 1).map fun z => Real.exp (m + s * z) := by
    have e : (fun z => Real.exp (m + s * z)) = Real.exp ∘ (fun y => m + y) ∘ fun z => s * z := rfl
    rw [e, ← Measure.map_map Real.measurable_exp (by fun_prop), ← Measure.map_map (by fun_prop) (by fun_prop),
      gaussianReal_map_const_mul, gaussianReal_map_const_add, LN]
    congr 2
    · simp
    · simp
  rw [h, integral_map (by fun_prop) hf.aestronglyMeasurable]

theorem totalMean_measurable {m s e : ℝ → ℝ} (hm : Measurable m) (hs : Measurable s) (he : Measurable e) :
    Measurable fun x => totalMean (LN (m x) (s x)) e := by
  have : (fun x => totalMean (LN (m x) (s x)) e) =
      fun x => ∫ z, (fun p : ℝ × ℝ => e (Real.exp (m p.1 + s p.1 * p.2))) (x, z) ∂gaussianReal 0 1 :=
    funext fun x => integral_LN_standard _ _ he
  rw [this]
  have hf : Measurable (fun p : ℝ × ℝ => e (Real.exp (m p.1 + s p.1 * p.2))) :=
    he.comp (Real.measurable_exp.comp ((hm.comp measurable_fst).add ((hs.comp measurable_fst).mul measurable_snd)))
  exact (hf.stronglyMeasurable.integral_prod_right' (ν := gaussianReal 0 1)).measurable

theorem totalVariance_measurable {m s e σ : ℝ → ℝ} (hm : Measurable m) (hs : Measurable s) (he : Measurable e)
    (hσ : Measurable σ) : Measurable fun x => totalVariance (LN (m x) (s x)) e σ := by
  refine (totalMean_measurable hm hs (hσ.pow_const 2)).add ?_
  have : (fun x => ∫ y, (e y - totalMean (LN (m x) (s x)) e) ^ 2 ∂LN (m x) (s x)) =
      fun x => ∫ z, (fun p : ℝ × ℝ => (e (Real.exp (m p.1 + s p.1 * p.2)) - totalMean (LN (m p.1) (s p.1)) e) ^ 2)
        (x, z) ∂gaussianReal 0 1 :=
    funext fun x => integral_LN_standard _ _ ((he.sub measurable_const).pow_const 2)
  rw [this]
  have hf : Measurable (fun p : ℝ × ℝ => (e (Real.exp (m p.1 + s p.1 * p.2)) - totalMean (LN (m p.1) (s p.1)) e) ^ 2) :=
    ((he.comp (Real.measurable_exp.comp
    ((hm.comp measurable_fst).add ((hs.comp measurable_fst).mul measurable_snd)))).sub
    ((totalMean_measurable hm hs he).comp measurable_fst)).pow_const 2
  exact (hf.stronglyMeasurable.integral_prod_right' (ν := gaussianReal 0 1)).measurable


theorem mean_eq_area (m s : ℝ) :
    IntegrableOn (fun c => (LN m s).real (Ici c)) (Ioi 0) ∧
      ∫ c in Ioi (0 : ℝ), (LN m s).real (Ici c) = ∫ y, y ∂LN m s := by
  have hi : Integrable (fun y : ℝ => y) (LN m s) := integrable_id_LN _ _
  have hnn : 0 ≤ᵐ[LN m s] (fun y : ℝ => y) := by
    rw [LN]
    refine (ae_map_iff Real.measurable_exp.aemeasurable (measurableSet_le measurable_const measurable_id)).2 ?_
    exact ae_of_all _ fun y => (Real.exp_pos y).le
  refine ⟨?_, (Integrable.integral_eq_integral_meas_le hi hnn).symm⟩
  have hm : Measurable fun c => (LN m s).real (Ici c) :=
    (show Antitone fun c => (LN m s).real (Ici c) from
      fun a b hab => measureReal_mono (Ici_subset_Ici.2 hab)).measurable
  refine ⟨hm.aestronglyMeasurable, ?_⟩
  rw [hasFiniteIntegral_iff_ofReal (ae_of_all _ fun c => measureReal_nonneg)]
  have h := lintegral_eq_lintegral_meas_le (LN m s) hnn hi.aemeasurable
  have h2 : ∫⁻ c in Ioi (0 : ℝ), ENNReal.ofReal ((LN m s).real (Ici c)) =
      ∫⁻ t in Ioi (0 : ℝ), (LN m s) {a | t ≤ a} :=
    lintegral_congr fun c => ofReal_measureReal (measure_ne_top _ _)
  rw [h2, ← h]
  exact (hasFiniteIntegral_iff_ofReal hnn).1 hi.2

/-- The area under the curve of rates is the rate of the mean. -/
theorem area_under_rates {m s : ℝ → ℝ} {e : Edp} (hD : Demands e m s) {deriv : Dbl → Dbl} {lam lam' : ℝ → ℝ} {l : ℝ}
    (hH : Hazard deriv lam lam' l) (hi : IntegrableOn (fun x => (∫ y, y ∂LN (m x) (s x)) * |lam' x|) (Ioi 0)) :
    IntegrableOn (exceedRate (fun x => LN (m x) (s x)) lam') (Ioi 0) ∧
    ∫ c in Ioi (0 : ℝ), exceedRate (fun x => LN (m x) (s x)) lam' c =
      ∫ x in Ioi (0 : ℝ), (∫ y, y ∂LN (m x) (s x)) * |lam' x| := by
  have hP : Measurable fun p : ℝ × ℝ => 1 - Phi ((Real.log p.2 - m p.1) / s p.1) :=
    measurable_const.sub (Phi_continuous.measurable.comp
      (((Real.measurable_log.comp measurable_snd).sub (hD.measM.comp measurable_fst)).div
        (hD.measS.comp measurable_fst)))
  have hF : AEStronglyMeasurable (fun p : ℝ × ℝ => (LN (m p.1) (s p.1)).real (Ici p.2) * |lam' p.1|)
      ((volume.restrict (Ioi 0)).prod (volume.restrict (Ioi 0))) := by
    have h1 : AEStronglyMeasurable (fun p : ℝ × ℝ => |lam' p.1|)
        ((volume.restrict (Ioi 0)).prod (volume.restrict (Ioi (0 : ℝ)))) :=
      hH.integrable.aestronglyMeasurable.comp_fst
    refine (hP.aestronglyMeasurable.mul h1).congr ?_
    rw [Measure.prod_restrict]
    refine (ae_restrict_iff' (measurableSet_Ioi.prod measurableSet_Ioi)).2 (ae_of_all _ fun p hp => ?_)
    have hp2 : 0 < p.2 := hp.2
    simp only [Pi.mul_apply]
    rw [exceed_eq (hD.pos p.1 hp.1) hp2.le, if_neg hp2.ne']
  have hint : Integrable (fun p : ℝ × ℝ => (LN (m p.1) (s p.1)).real (Ici p.2) * |lam' p.1|)
      ((volume.restrict (Ioi 0)).prod (volume.restrict (Ioi 0))) := by
    rw [integrable_prod_iff hF]
    refine ⟨ae_of_all _ fun x => (mean_eq_area (m x) (s x)).1.mul_const |lam' x|, ?_⟩
    refine hi.congr (ae_of_all _ fun x => ?_)
    have : (fun c => ‖(LN (m x) (s x)).real (Ici c) * |lam' x|‖) = fun c => (LN (m x) (s x)).real (Ici c) * |lam' x| :=
      funext fun c => Real.norm_of_nonneg (mul_nonneg measureReal_nonneg (abs_nonneg _))
    simp only [this]
    rw [integral_mul_const, (mean_eq_area (m x) (s x)).2]
  refine ⟨hint.integral_prod_right, ?_⟩
  have := integral_integral_swap (f := fun x c => (LN (m x) (s x)).real (Ici c) * |lam' x|) hint
  show ∫ c in Ioi (0 : ℝ), ∫ x in Ioi (0 : ℝ), (LN (m x) (s x)).real (Ici c) * |lam' x| = _
  rw [← this]
  refine integral_congr_ae (ae_of_all _ fun x => ?_)
  simp only
  rw [integral_mul_const, (mean_eq_area (m x) (s x)).2]

/-- The parameters of the cost at an intensity, as functions of the intensity. -/
theorem cost_demands {m s e σ : ℝ → ℝ} (hm : Measurable m) (hs : Measurable s) (he : Measurable e)
    (hσ : Measurable σ) {P : ℝ → Measure ℝ}
    (hP : ∀ x, 0 < x → IsCostLaw (P x) (totalMean (LN (m x) (s x)) e) (totalVariance (LN (m x) (s x)) e σ)) :
    ∃ (d : Edp) (μ τ : ℝ → ℝ), Demands d μ τ ∧ ∀ x, 0 < x → P x = LN (μ x) (τ x) ∧
      τ x = Real.sqrt (Real.log (1 + totalVariance (LN (m x) (s x)) e σ / totalMean (LN (m x) (s x)) e ^ 2)) ∧
      μ x = Real.log (totalMean (LN (m x) (s x)) e) - τ x * τ x / 2 ∧ 0 < totalMean (LN (m x) (s x)) e := by
  let τ : ℝ → ℝ := fun x =>
    Real.sqrt (Real.log (1 + totalVariance (LN (m x) (s x)) e σ / totalMean (LN (m x) (s x)) e ^ 2))
  let μ : ℝ → ℝ := fun x => Real.log (totalMean (LN (m x) (s x)) e) - τ x * τ x / 2
  have h1 := totalMean_measurable hm hs he
  have h2 := totalVariance_measurable hm hs he hσ
  have hτ : Measurable τ := ((measurable_const.add (h2.div (h1.pow_const 2))).log).sqrt
  have hμ : Measurable μ := h1.log.sub ((hτ.mul hτ).div_const 2)
  refine ⟨.plain fun im => match im with | .fin x => ⟨.fin (μ x), .fin (τ x)⟩ | _ => ⟨.nan, .nan⟩, μ, τ,
    ⟨fun _ _ => rfl, fun x hx => (costLaw_parameters (hP x hx)).2.2.1, hμ, hτ⟩, fun x hx => ?_⟩
  obtain ⟨a, -, -, b⟩ := costLaw_parameters (hP x hx)
  exact ⟨b, rfl, rfl, a⟩

theorem exceedRate_congr {P Q : ℝ → Measure ℝ} (h : ∀ x, 0 < x → P x = Q x) (lam' : ℝ → ℝ) (c : ℝ) :
    exceedRate P lam' c = exceedRate Q lam' c :=
  setIntegral_congr_fun measurableSet_Ioi fun x hx => by
    simp only [h x hx]

theorem exceedRate_demand (m s lam' : ℝ → ℝ) :
    exceedRate (fun x => LN (m x) (s x)) lam' = demandRate none none m s lam' := by
  funext c
  simp [exceedRate, demandRate, lost, trigger]

/-! ## C66 -/

/-- What `lambda_cost` returns for a cost `c` is, up to the error of the integrator, the rate of earthquakes after which
the cost of the group is at least `c`, the cost at an intensity being log-normal with the mean and the variance that
the uncertainty of the demand and of the cost give it. -/
theorem cost_rate_is_rate (gsl : Gsl) (hg : Differentiates gsl) (g : Group) (hn : 0 < g.count) (m s : ℝ → ℝ)
    (hD : Demands g.edp m s) (e σ : ℝ → ℝ) (he : Measurable e) (hσ : Measurable σ) (hL : Losses g.cost e σ)
    (hi : ∀ x, 0 < x → Integrable e (LN (m x) (s x)))
    (hi2 : ∀ x, 0 < x → Integrable (fun y => e y ^ 2) (LN (m x) (s x)))
    (hσi : ∀ x, 0 < x → Integrable (fun y => σ y ^ 2) (LN (m x) (s x)))
    (P : ℝ → Measure ℝ)
    (hP : ∀ x, 0 < x → IsCostLaw (P x) (totalMean (LN (m x) (s x)) e) (totalVariance (LN (m x) (s x)) e σ))
    (deriv : Dbl → Dbl) (lam lam' : ℝ → ℝ) (l : ℝ) (hH : Hazard deriv lam lam' l) (maq : Maq) (ε : ℝ)
    (hI : ∀ x, 0 < x → Integrates maq 0 (costIntegrand gsl g (.fin x)))
    (hI₂ : ∀ x, 0 < x → Integrates maq 0 (costSquareIntegrand gsl g (.fin x))) (c : ℝ) (hc : 0 ≤ c)
    (hI₃ : Integrates maq ε fun im => (costDistIM maq gsl g im).pAtLeast (.fin c) * abs (deriv im)) :
    ∃ v, lambdaCost maq gsl g deriv (.fin c) = .fin v ∧ |v - exceedRate P lam' c| ≤ ε := by
  obtain ⟨d, μ, τ, hd, hp⟩ := cost_demands hD.measM hD.measS he hσ hP
  obtain ⟨v, h1, h2⟩ := hI₃ (fun x => (LN (μ x) (τ x)).real (Ici c) * |lam' x|) (fun x hx => by
    obtain ⟨-, q2, q3, q4⟩ := hp x hx
    obtain ⟨a1, a2⟩ := group_cost_parameters gsl hg g hn x _ _ hx (hD.eq x hx) (hD.pos x hx) e σ hL (hi x hx) (hi2 x hx)
      (hσi x hx) q4 maq (hI x hx) (hI₂ x hx)
    simp only [costDistIM]
    rw [a1, a2, ← q2, hH.derivEq x hx, abs_fin]
    simp only [ofMeanSigmaLn, muFromMeanSigmaLn, log_pos q4, fin_mul, fin_div_two, fin_sub]
    rw [← q3,
      (p_at_most_is_cdf (μ x) (hd.pos x hx) hc).2, fin_mul])
    (hH.weighted (exceed_measurable hd hc) (fun _ _ => measureReal_nonneg) fun _ _ => measureReal_le_one)
  refine ⟨v, ?_, ?_⟩
  · unfold lambdaCost
    rw [if_pos hn]
    unfold costDistIM at h1
    rw [h1]
    rfl
  · rw [exceedRate_congr (fun x hx => (hp x hx).1)]
    exact h2

/-- The true rates of costs begin at the rate of all earthquakes, never increase with the cost and tend to 0; the area
under them is the cost per year. -/
theorem cost_rate_curve (deriv : Dbl → Dbl) (lam lam' : ℝ → ℝ) (l : ℝ) (hH : Hazard deriv lam lam' l)
    (m s e σ : ℝ → ℝ) (hm : Measurable m) (hs : Measurable s) (he : Measurable e) (hσ : Measurable σ)
    (P : ℝ → Measure ℝ)
    (hP : ∀ x, 0 < x → IsCostLaw (P x) (totalMean (LN (m x) (s x)) e) (totalVariance (LN (m x) (s x)) e σ))
    (hi : IntegrableOn (fun x => totalMean (LN (m x) (s x)) e * |lam' x|) (Ioi 0)) :
    exceedRate P lam' 0 = lam 0 - l ∧
    (∀ a b, 0 ≤ a → a ≤ b → exceedRate P lam' b ≤ exceedRate P lam' a) ∧
    Tendsto (exceedRate P lam') atTop (𝓝 0) ∧
    IntegrableOn (exceedRate P lam') (Ioi 0) ∧
    ∫ c in Ioi (0 : ℝ), exceedRate P lam' c = ∫ x in Ioi (0 : ℝ), totalMean (LN (m x) (s x)) e * |lam' x| := by
  obtain ⟨d, μ, τ, hd, hp⟩ := cost_demands hm hs he hσ hP
  have hr : exceedRate P lam' = exceedRate (fun x => LN (μ x) (τ x)) lam' :=
    funext fun c => exceedRate_congr (fun x hx => (hp x hx).1) _ _
  have hmean : ∀ x, 0 < x → ∫ y, y ∂LN (μ x) (τ x) = totalMean (LN (m x) (s x)) e := by
    intro x hx
    obtain ⟨_, _, _, _, h3, _⟩ := hP x hx
    rw [← (hp x hx).1, h3]
  obtain ⟨a1, a2, -, a4⟩ := demand_rate_curve deriv lam lam' l hH d μ τ hd none none
  have h0 : lossRate none none lam' = 0 := by simp [lossRate, lost, trigger]
  rw [h0] at a4
  obtain ⟨b1, b2⟩ := area_under_rates hd hH
    (hi.congr_fun (fun x hx => by simp only [hmean x hx]) measurableSet_Ioi)
  rw [hr]
  refine ⟨?_, ?_, ?_, b1, ?_⟩
  · rw [exceedRate_demand, a1]
  · rw [exceedRate_demand]
    exact a2
  · rw [exceedRate_demand]
    exact a4
  · rw [b2]
    exact setIntegral_congr_fun measurableSet_Ioi fun x hx => by simp only [hmean x hx]

/-- **C66**: with an exact integrator the curve of rates printed for a group and its annual cost fit together: the rates
are a decreasing curve from the rate of all earthquakes to 0 and the area under the curve is what
`E_annual_cost` returns. -/
theorem cost_rates_and_annual_cost (gsl : Gsl) (hg : Differentiates gsl) (g : Group) (hn : 0 < g.count) (m s : ℝ → ℝ)
    (hD : Demands g.edp m s) (e σ : ℝ → ℝ) (he : Measurable e) (hσ : Measurable σ) (hL : Losses g.cost e σ)
    (hi : ∀ x, 0 < x → Integrable e (LN (m x) (s x)))
    (hi2 : ∀ x, 0 < x → Integrable (fun y => e y ^ 2) (LN (m x) (s x)))
    (hσi : ∀ x, 0 < x → Integrable (fun y => σ y ^ 2) (LN (m x) (s x)))
    (P : ℝ → Measure ℝ)
    (hP : ∀ x, 0 < x → IsCostLaw (P x) (totalMean (LN (m x) (s x)) e) (totalVariance (LN (m x) (s x)) e σ))
    (deriv : Dbl → Dbl) (lam lam' : ℝ → ℝ) (l : ℝ) (hH : Hazard deriv lam lam' l)
    (hi' : IntegrableOn (fun x => totalMean (LN (m x) (s x)) e * |lam' x|) (Ioi 0)) (maq : Maq)
    (hI : ∀ f, Integrates maq 0 f) :
    ∃ r : ℝ → ℝ, (∀ c, 0 ≤ c → lambdaCost maq gsl g deriv (.fin c) = .fin (r c)) ∧ r 0 = lam 0 - l ∧
      (∀ a b, 0 ≤ a → a ≤ b → r b ≤ r a) ∧ Tendsto r atTop (𝓝 0) ∧ IntegrableOn r (Ioi 0) ∧
      eAnnualCost maq gsl g deriv = .fin (∫ c in Ioi (0 : ℝ), r c) := by
  obtain ⟨a1, a2, a3, a4, a5⟩ := cost_rate_curve deriv lam lam' l hH m s e σ hD.measM hD.measS he hσ P hP hi'
  refine ⟨exceedRate P lam', fun c hc => ?_, a1, a2, a3, a4, ?_⟩
  · obtain ⟨v, h1, h2⟩ := cost_rate_is_rate gsl hg g hn m s hD e σ he hσ hL hi hi2 hσi P hP deriv lam lam' l hH maq 0
      (fun _ _ => hI _) (fun _ _ => hI _) c hc (hI _)
    have := abs_nonpos_iff.1 h2
    rw [h1, fin_inj]
    linarith
  · rw [a5]
    exact group_annual_cost gsl hg g hn m s hD e σ hL hi deriv lam lam' l hH hi' maq (fun _ _ => hI _) (hI _)

/-! ## Examples -/

/-- A log-normal law with given mean and variance exists. -/
theorem costLaw_exists {E V : ℝ} (hE : 0 < E) (hV : 0 < V) : ∃ P, IsCostLaw P E V := by
  have hd : 1 < 1 + V / E ^ 2 := by
    have : 0 < V / E ^ 2 := by positivity
    linarith
  set τ := Real.sqrt (Real.log (1 + V / E ^ 2)) with hτ
  have hl : 0 < Real.log (1 + V / E ^ 2) := Real.log_pos hd
  have ht : τ * τ = Real.log (1 + V / E ^ 2) := Real.mul_self_sqrt hl.le
  obtain ⟨h1, h2⟩ := moments_are_true_moments (Real.log E - τ * τ / 2) τ
  refine ⟨LN (Real.log E - τ * τ / 2) τ, _, τ, Real.sqrt_pos.2 hl, rfl, ?_, ?_⟩
  · rw [getMean_fin, fin_inj, sub_add_cancel, Real.exp_log hE] at h1
    exact h1.symm
  · rw [getSigma_fin, fin_inj, sub_add_cancel, Real.exp_log hE] at h2
    have h3 := congrArg (· ^ 2) h2
    simp only [mul_pow] at h3
    have h4 : Real.exp (τ * τ) = 1 + V / E ^ 2 := by rw [ht, Real.exp_log (by linarith)]
    rw [h4, Real.sq_sqrt (by linarith), Real.sq_sqrt (variance_nonneg _ _)] at h3
    rw [← h3]
    field_simp
    ring

/-- Three components with a constant cost of 5 and standard deviation 2. -/
def fixed : Group := ⟨.plain (growing 2), three.states, 3, fun _ => .ofMeanSigma (.fin 5) (.fin 2), three.delay⟩

/-- Its rates start at 1 earthquake per year and the area under them is the annual cost. -/
example : ∃ r : ℝ → ℝ, (∀ c, 0 ≤ c → lambdaCost ideal idealGsl fixed expHazard (.fin c) = .fin (r c)) ∧ r 0 = 1 ∧
    Tendsto r atTop (𝓝 0) ∧ eAnnualCost ideal idealGsl fixed expHazard = .fin (∫ c in Ioi (0 : ℝ), r c) := by
  obtain ⟨P, hP⟩ := costLaw_exists (E := 5) (V := 4) (by norm_num) (by norm_num)
  obtain ⟨r, h1, h2, -, h4, -, h6⟩ := cost_rates_and_annual_cost idealGsl idealGsl_ok fixed (by norm_num [fixed]) _ _
    (growing_ok 2) (fun _ => 5) (fun _ => 2) measurable_const measurable_const
    (fun _ _ => (mean_sd_roundtrip 5 2 (by norm_num)).2 (Or.inl (by norm_num))) (fun _ _ => integrable_const _)
    (fun _ _ => integrable_const _) (fun _ _ => integrable_const _) (fun _ => P)
    (fun x _ => by
      have h1 : totalMean (LN (Real.log (2 * x)) (1 / 2)) (fun _ => 5) = 5 := by simp [totalMean]
      have h2 : totalVariance (LN (Real.log (2 * x)) (1 / 2)) (fun _ => 5) (fun _ => 2) = 4 := by
        norm_num [totalMean, totalVariance]
      rw [h1, h2]
      exact hP) expHazard _ _ _ expHazard_ok
    (by
      simp only [totalMean, integral_const, probReal_univ, smul_eq_mul, one_mul]
      exact expHazard_ok.integrable.const_mul 5) ideal ideal_integrates
  exact ⟨r, h1, by rw [h2]; simp, h4, h6⟩

end

end Slat.Rates
