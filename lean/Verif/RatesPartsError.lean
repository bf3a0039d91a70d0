import Verif.RatesParts

/-!
# The cost of a group and the rates of its damage states, with an inexact integrator (C67)
-/

namespace Slat.Rates

open Slat Dbl LogNormalDist Fates MeasureTheory ProbabilityTheory Set Filter Topology

noncomputable section

/-! ## Specification -/

/-- By how much the unit costs change from each damage state to the next, starting from no damage and no cost. -/
def swing : ℝ → List ℝ → ℝ
  | _, [] => 0
  | u, u' :: us => |u' - u| + swing u' us

/-! ## Auxiliary facts -/

theorem swing_nonneg (u : ℝ) (us : List ℝ) : 0 ≤ swing u us := by
  induction us generalizing u with
  | nil => exact le_rfl
  | cons a us ih => exact add_nonneg (abs_nonneg _) (ih a)

/-- What is paid hardly depends on small errors of the rates. -/
theorem paid_near {us rs qs : List ℝ} {δ : ℝ} (hl : us.length = rs.length)
    (h : List.Forall₂ (fun r q => |r - q| ≤ δ) rs qs) : |paid us rs - paid us qs| ≤ δ * swing 0 us := by
  have key : ∀ (us rs qs : List ℝ) (u : ℝ), us.length = rs.length → List.Forall₂ (fun r q => |r - q| ≤ δ) rs qs →
      |(paid us rs - u * rs.headD 0) - (paid us qs - u * qs.headD 0)| ≤ δ * swing u us := by
    intro us
    induction us with
    | nil =>
      intro rs qs u hl h
      obtain rfl : rs = [] := List.eq_nil_of_length_eq_zero hl.symm
      cases h
      simp [paid, swing]
    | cons a us ih =>
      intro rs qs u hl h
      cases h with
      | nil => simp at hl
      | @cons r q rs qs h1 h2 =>
        have h0 := ih rs qs a (by simpa using hl) h2
        have h3 : |(a - u) * (r - q)| ≤ δ * |a - u| := by
          rw [abs_mul, mul_comm]
          exact mul_le_mul_of_nonneg_right h1 (abs_nonneg _)
        have hp : ∀ (x : ℝ) (xs : List ℝ), us.length = xs.length →
            paid (a :: us) (x :: xs) = a * x + (paid us xs - a * xs.headD 0) := by
          intro x xs hx
          match us, xs, hx with
          | [], [], _ => simp [paid]
          | _ :: _, y :: ys, _ => simp only [paid, List.headD_cons]; ring
        rw [hp r rs (by simpa using hl), hp q qs (by rw [← h2.length_eq]; simpa using hl)]
        simp only [List.headD_cons, swing]
        refine (le_of_eq ?_).trans ((abs_add_le _ _).trans ((add_le_add h3 h0).trans (le_of_eq (by ring))))
        congr 1
        ring
  simpa using key us rs qs 0 hl h

/-! ## C67 -/

/-- **C67** with an integrator that is off by up to `ε`: the expected cost reported differs from what is paid for the
damage-state probabilities reported by at most `ε`, and `ε` times the changes of the cost of the components. -/
theorem cost_from_states_error_partial (gsl : Gsl) (hg : Differentiates gsl) (g : Group) (hn : 0 < g.count)
    (im m s : ℝ) (him : 0 < im) (he : g.edp.at (.fin im) = ⟨.fin m, .fin s⟩) (hs : 0 < s)
    (caps : List (ℝ × ℝ)) (s₀ : ℝ) (hO : Ordered caps s₀)
    (hst : g.states = caps.map fun c => ⟨.fin c.1, .fin c.2⟩) (cost : LossFn) (us : List ℝ)
    (hU : UnitCosts cost g.count us) (hlen : us.length = caps.length) (adj : ℝ) (ha : 0 ≤ adj)
    (hC : CostsBy g cost adj) (maq : Maq) (ε : ℝ) (hI : Integrates maq ε (costIntegrand gsl g (.fin im)))
    (hI' : ∀ d ∈ g.states, Integrates maq ε (stateIntegrand gsl g d (.fin im))) :
    ∃ (ps : List ℝ) (v : ℝ), pDSIM maq gsl g (.fin im) = ps.map Dbl.fin ∧ eCostIM maq gsl g (.fin im) = .fin v ∧
      |v - g.count * adj * paid us ps| ≤ ε * (1 + g.count * adj * swing 0 us) := by
  obtain ⟨σ, hσ⟩ := cost_at_demand g hn.le caps s₀ hO hst cost us hU hlen adj ha hC
  obtain ⟨h1, h2⟩ := paid_integral (μ := LN m s) us caps (fun c y => (LN c.1 c.2).real (Iic y))
    (fun c _ => reached_integrable _ _ _ _)
  obtain ⟨v, h3, h4⟩ := group_expected_cost gsl hg g hn im m s him he hs _ σ hσ (h1.const_mul _) maq ε hI
  simp only [totalMean, integral_const_mul, h2] at h4
  obtain ⟨ps, p1, p2⟩ : ∃ ps : List ℝ, (caps.map fun c => pDSIMcalc maq gsl g ⟨.fin c.1, .fin c.2⟩ (.fin im)) =
      ps.map Dbl.fin ∧ List.Forall₂ (fun r q => |r - q| ≤ ε) ps
        (caps.map fun c => ∫ y, (LN c.1 c.2).real (Iic y) ∂LN m s) := by
    have hc : ∀ c ∈ caps, ∃ w, pDSIMcalc maq gsl g ⟨.fin c.1, .fin c.2⟩ (.fin im) = .fin w ∧
        |w - ∫ y, (LN c.1 c.2).real (Iic y) ∂LN m s| ≤ ε := by
      intro c hc
      obtain ⟨w, a1, a2, -⟩ := damage_state_probability gsl hg g im m s he hs c.1 c.2
        (by rw [hO.common c hc]; exact hO.pos) maq ε (hI' _ (by rw [hst]; exact List.mem_map_of_mem hc))
      rw [below_eq_integral] at a2
      exact ⟨w, a1, a2⟩
    clear hO hst hlen h1 h2 h4 hσ
    induction caps with
    | nil => exact ⟨[], rfl, .nil⟩
    | cons c caps ih =>
      obtain ⟨w, a1, a2⟩ := hc c (by simp)
      obtain ⟨ps, b1, b2⟩ := ih fun d hd => hc d (List.mem_cons_of_mem _ hd)
      exact ⟨w :: ps, by simp only [List.map_cons, a1, b1], .cons a2 b2⟩
  refine ⟨ps, v, ?_, h3, ?_⟩
  · rw [pDSIM, hst, List.map_map]
    exact p1
  · have h5 := paid_near (us := us) (by rw [p2.length_eq, List.length_map, hlen]) p2
    have hk : (0 : ℝ) ≤ g.count * adj := mul_nonneg (by exact_mod_cast hn.le) ha
    have h6 := mul_le_mul_of_nonneg_left h5 hk
    rw [← abs_of_nonneg hk, ← abs_mul, abs_of_nonneg hk, mul_sub] at h6
    rw [abs_le] at *
    constructor <;> nlinarith [h6.1, h6.2, h4.1, h4.2]

/-- **C67** with an integrator that is off by up to `ε` at an intensity and by up to `ε'` over the intensities: the
annual cost reported differs from what is paid at the damage-state rates reported by at most the resulting error of a
rate, and this error times the changes of the cost of the components. -/
theorem annual_cost_from_rates_error_partial (gsl : Gsl) (hg : Differentiates gsl) (g : Group) (hn : 0 < g.count)
    (m s : ℝ → ℝ) (hD : Demands g.edp m s) (caps : List (ℝ × ℝ)) (s₀ : ℝ) (hO : Ordered caps s₀)
    (hst : g.states = caps.map fun c => ⟨.fin c.1, .fin c.2⟩) (cost : LossFn) (us : List ℝ)
    (hU : UnitCosts cost g.count us) (hlen : us.length = caps.length) (adj : ℝ) (ha : 0 ≤ adj)
    (hC : CostsBy g cost adj) (deriv : Dbl → Dbl) (lam lam' : ℝ → ℝ) (l : ℝ) (hH : Hazard deriv lam lam' l)
    (maq : Maq) (ε ε' : ℝ) (c : ℝ → ℝ) (hc : Measurable c)
    (hcost : ∀ x, 0 < x → eCostIM maq gsl g (.fin x) = .fin (c x)) (p : ℝ × ℝ → ℝ → ℝ)
    (hp : ∀ d ∈ caps, Measurable (p d) ∧
      ∀ x, 0 < x → pDSIMcalc maq gsl g ⟨.fin d.1, .fin d.2⟩ (.fin x) = .fin (p d x))
    (hI : ∀ x, 0 < x → Integrates maq ε (costIntegrand gsl g (.fin x)) ∧
      ∀ d ∈ g.states, Integrates maq ε (stateIntegrand gsl g d (.fin x)))
    (hI' : Integrates maq ε' (annualIntegrand maq gsl g deriv) ∧
      ∀ d ∈ g.states, Integrates maq ε' (rateIntegrand maq gsl g deriv d)) :
    ∃ (rs : List ℝ) (v : ℝ), calcRate maq gsl g deriv = rs.map Dbl.fin ∧ eAnnualCost maq gsl g deriv = .fin v ∧
      |v - g.count * adj * paid us rs| ≤ (ε' + ε * (lam 0 - l)) * (1 + g.count * adj * swing 0 us) := by
  obtain ⟨σ, hσ⟩ := cost_at_demand g hn.le caps s₀ hO hst cost us hU hlen adj ha hC
  have hpos : ∀ c ∈ caps, 0 < c.2 := fun c hc => by rw [hO.common c hc]; exact hO.pos
  have hmean : ∀ x, totalMean (LN (m x) (s x))
        (fun y => g.count * adj * paid us (caps.map fun c => (LN c.1 c.2).real (Iic y))) * |lam' x| =
      g.count * adj * paid us (caps.map fun c => below c.1 c.2 (m x) (s x) * |lam' x|) := by
    intro x
    have h2 := (paid_integral (μ := LN (m x) (s x)) us caps (fun c y => (LN c.1 c.2).real (Iic y))
      (fun c _ => reached_integrable _ _ _ _)).2
    have h3 := paid_mul us (caps.map fun c => below c.1 c.2 (m x) (s x)) |lam' x|
    rw [List.map_map] at h3
    simp only [Function.comp_def] at h3
    rw [h3]
    simp only [totalMean, integral_const_mul, h2, below_eq_integral]
    ring
  obtain ⟨h1, h2⟩ := paid_integral (μ := volume.restrict (Ioi (0 : ℝ))) us caps
    (fun c x => below c.1 c.2 (m x) (s x) * |lam' x|) (fun c hc => stateRate_integrable hH hD c.1 (hpos c hc))
  obtain ⟨v, h3, h4⟩ := group_annual_cost_error gsl hg g hn m s hD _ σ hσ
    (fun x _ => ((paid_integral (μ := LN (m x) (s x)) us caps (fun c y => (LN c.1 c.2).real (Iic y))
      (fun c _ => reached_integrable _ _ _ _)).1.const_mul _)) deriv lam lam' l hH
    (by simp only [hmean]; exact h1.const_mul _) maq ε ε' c hc hcost (fun x hx => (hI x hx).1) hI'.1
  simp only [hmean, integral_const_mul, h2] at h4
  have hr : ∀ d ∈ caps, ∃ w, orNaN (maq (rateIntegrand maq gsl g deriv ⟨.fin d.1, .fin d.2⟩)) = .fin w ∧
      |w - (∫ x in Ioi (0 : ℝ), below d.1 d.2 (m x) (s x) * |lam' x|)| ≤ ε' + ε * (lam 0 - l) := by
    intro d hd
    have hmem : (⟨.fin d.1, .fin d.2⟩ : LogNormalDist) ∈ g.states := by rw [hst]; exact List.mem_map_of_mem hd
    obtain ⟨i, hi, hi'⟩ := List.getElem_of_mem hmem
    obtain ⟨w, w1, w2⟩ := damage_state_rate_error gsl hg g m s hD deriv lam lam' l hH i d.1 d.2 (hpos d hd)
      (by rw [List.getElem?_eq_getElem hi, hi']) maq ε ε' (p d) (hp d hd).1 (hp d hd).2
      (fun x hx => (hI x hx).2 _ hmem) (hI'.2 _ hmem)
    refine ⟨w, ?_, w2⟩
    rw [calcRate, List.getElem?_map, List.getElem?_eq_getElem hi, hi', Option.map_some, Option.some.injEq] at w1
    exact w1
  obtain ⟨rs, p1, p2⟩ : ∃ rs : List ℝ,
      (caps.map fun d => orNaN (maq (rateIntegrand maq gsl g deriv ⟨.fin d.1, .fin d.2⟩))) = rs.map Dbl.fin ∧
      List.Forall₂ (fun r q => |r - q| ≤ ε' + ε * (lam 0 - l)) rs
        (caps.map fun d => ∫ x in Ioi (0 : ℝ), below d.1 d.2 (m x) (s x) * |lam' x|) := by
    clear hO hst hlen h1 h2 h4 hσ hmean hpos hp
    induction caps with
    | nil => exact ⟨[], rfl, .nil⟩
    | cons d caps ih =>
      obtain ⟨w, a1, a2⟩ := hr d (by simp)
      obtain ⟨rs, b1, b2⟩ := ih fun d hd => hr d (List.mem_cons_of_mem _ hd)
      exact ⟨w :: rs, by simp only [List.map_cons, a1, b1], .cons a2 b2⟩
  refine ⟨rs, v, ?_, h3, ?_⟩
  · rw [calcRate, hst, List.map_map]
    exact p1
  · have h5 := paid_near (us := us) (by rw [p2.length_eq, List.length_map, hlen]) p2
    have hk : (0 : ℝ) ≤ g.count * adj := mul_nonneg (by exact_mod_cast hn.le) ha
    have h6 := mul_le_mul_of_nonneg_left h5 hk
    rw [← abs_of_nonneg hk, ← abs_mul, abs_of_nonneg hk, mul_sub] at h6
    rw [abs_le] at *
    constructor <;> nlinarith [h6.1, h6.2, h4.1, h4.2]

/-! ## Examples -/

/-- An integrator whose answers are too large by `e`. -/
def slack (e : ℝ) : Maq := fun f => ((ideal f).1, (ideal f).2 + .fin e)

theorem slack_integrates {e : ℝ} (he : 0 ≤ e) (f : Dbl → Dbl) : Integrates (slack e) e f := by
  intro φ h hi
  obtain ⟨v, h1, h2⟩ := ideal_integrates f φ h hi
  refine ⟨v + e, by simp [slack, h1], ?_⟩
  have := sub_eq_zero.1 (abs_nonpos_iff.1 h2)
  rw [← this, add_sub_cancel_left, abs_of_nonneg he]

/-- The costs of the two damage states. -/
def repairs : LossFn := .simple [.ofMeanSigma (.fin 10) (.fin 1), .ofMeanSigma (.fin 40) (.fin 1)]

theorem repairs_units : UnitCosts repairs (repaired repairs).count [10, 40] := by
  refine ⟨[(10, 1), (40, 1)], ?_, ?_, rfl⟩
  · intro d hd
    simp only [List.mem_cons, List.not_mem_nil, or_false] at hd
    rcases hd with rfl | rfl
    · exact proper_ofMeanSigma (by norm_num) _
    · exact proper_ofMeanSigma (by norm_num) _
  · exact .cons ((mean_sd_roundtrip 10 1 (by norm_num)).2 (Or.inl (by norm_num)))
      (.cons ((mean_sd_roundtrip 40 1 (by norm_num)).2 (Or.inl (by norm_num))) .nil)

theorem repairs_cost : CostsBy (repaired repairs) repairs 2 := by
  intro y _
  simp only [repaired]
  cases h : lossEdpDist (some repairs) [⟨.fin 0, .fin (1 / 2)⟩, ⟨.fin 1, .fin (1 / 2)⟩] 3 (.fin 2) (.fin y) with
  | ok d => rfl
  | throws =>
    simp only [repairs, lossEdpDist, LossFn.calculate, Loss.simple_loss_rejects] at h
    exact absurd rfl h
  | undefined =>
    simp only [repairs, lossEdpDist, LossFn.calculate, Loss.simple] at h
    split at h <;> simp at h

/-- With answers too large by 1/1000, the cost of the group at an intensity is at most 0.241 away from the sum over the
probabilities reported. -/
example : ∃ (ps : List ℝ) (v : ℝ),
    pDSIM (slack (1 / 1000)) idealGsl (repaired repairs) (.fin 1) = ps.map Dbl.fin ∧
    eCostIM (slack (1 / 1000)) idealGsl (repaired repairs) (.fin 1) = .fin v ∧
    |v - 3 * 2 * paid [10, 40] ps| ≤ 241 / 1000 := by
  obtain ⟨ps, v, h1, h2, h3⟩ := cost_from_states_error_partial idealGsl idealGsl_ok (repaired repairs)
    (by norm_num [repaired]) 1 (Real.log (2 * 1)) (1 / 2) one_pos rfl (by norm_num) _ _ repaired_states rfl repairs _
    repairs_units rfl 2 (by norm_num) repairs_cost (slack (1 / 1000)) (1 / 1000) (slack_integrates (by norm_num) _)
    fun _ _ => slack_integrates (by norm_num) _
  refine ⟨ps, v, h1, h2, ?_⟩
  have h4 : ((repaired repairs).count : ℝ) = 3 := by simp [repaired]
  rw [h4] at h3
  refine h3.trans (le_of_eq ?_)
  norm_num [swing]

theorem slack_state (e : ℝ) (mc sc : ℝ) (hsc : 0 < sc) {x : ℝ} (hx : 0 < x) :
    pDSIMcalc (slack e) idealGsl (repaired repairs) ⟨.fin mc, .fin sc⟩ (.fin x) =
      .fin (below mc sc (Real.log (2 * x)) (1 / 2) + e) := by
  obtain ⟨w, a1, a2, -⟩ := damage_state_probability idealGsl idealGsl_ok (repaired repairs) x _ _
    ((growing_ok 2).eq x hx) ((growing_ok 2).pos x hx) mc sc hsc ideal 0 (ideal_integrates _)
  have h : pDSIMcalc (slack e) idealGsl (repaired repairs) ⟨.fin mc, .fin sc⟩ (.fin x) =
      pDSIMcalc ideal idealGsl (repaired repairs) ⟨.fin mc, .fin sc⟩ (.fin x) + .fin e := rfl
  rw [h, a1, fin_add, sub_eq_zero.1 (abs_nonpos_iff.1 a2)]

theorem slack_cost (e : ℝ) {x : ℝ} (hx : 0 < x) : eCostIM (slack e) idealGsl (repaired repairs) (.fin x) =
    .fin (3 * 2 * (10 * (below 0 (1 / 2) (Real.log (2 * x)) (1 / 2) - below 1 (1 / 2) (Real.log (2 * x)) (1 / 2)) +
      40 * below 1 (1 / 2) (Real.log (2 * x)) (1 / 2)) + e) := by
  obtain ⟨ps, h1, h2⟩ := cost_from_states_partial idealGsl idealGsl_ok (repaired repairs) (by norm_num [repaired]) x _ _
    hx ((growing_ok 2).eq x hx) ((growing_ok 2).pos x hx) _ _ repaired_states rfl repairs _ repairs_units rfl 2
    (by norm_num) repairs_cost ideal ideal_integrates
  have hz : slack 0 = ideal := by
    funext f
    simp [slack, ideal]
  have h3 : pDSIM ideal idealGsl (repaired repairs) (.fin x) =
      [.fin (below 0 (1 / 2) (Real.log (2 * x)) (1 / 2)), .fin (below 1 (1 / 2) (Real.log (2 * x)) (1 / 2))] := by
    have a := slack_state 0 0 (1 / 2) (by norm_num) hx
    have b := slack_state 0 1 (1 / 2) (by norm_num) hx
    rw [hz, add_zero] at a b
    simp only [pDSIM, repaired, List.map_cons, List.map_nil]
    exact congrArg₂ _ a (congrArg₂ _ b rfl)
  have h : eCostIM (slack e) idealGsl (repaired repairs) (.fin x) =
      eCostIM ideal idealGsl (repaired repairs) (.fin x) + .fin e := rfl
  rw [h3] at h1
  match ps, h1 with
  | [a, b], h1 =>
    simp only [List.map_cons, List.map_nil, List.cons.injEq, fin_inj, and_true] at h1
    rw [h, h2, fin_add, ← h1.1, ← h1.2]
    simp [repaired, paid]

/-- With answers too large by 1/1000 and the hazard `exp(-x)`, the annual cost of the group is at most 0.482 away from
the sum over the rates reported. -/
example : ∃ (rs : List ℝ) (v : ℝ),
    calcRate (slack (1 / 1000)) idealGsl (repaired repairs) expHazard = rs.map Dbl.fin ∧
    eAnnualCost (slack (1 / 1000)) idealGsl (repaired repairs) expHazard = .fin v ∧
    |v - 3 * 2 * paid [10, 40] rs| ≤ 482 / 1000 := by
  have hm : ∀ mc sc : ℝ, 0 < sc → Measurable fun x : ℝ => below mc sc (Real.log (2 * x)) (1 / 2) :=
    fun mc sc h => below_measurable (growing_ok 2) mc h
  obtain ⟨rs, v, h1, h2, h3⟩ := annual_cost_from_rates_error_partial idealGsl idealGsl_ok (repaired repairs)
    (by norm_num [repaired]) _ _ (growing_ok 2) _ _ repaired_states rfl repairs _
    repairs_units rfl 2 (by norm_num) repairs_cost _ _ _ _ expHazard_ok (slack (1 / 1000)) (1 / 1000) (1 / 1000) _
    (((((hm 0 (1 / 2) (by norm_num)).sub (hm 1 (1 / 2) (by norm_num))).const_mul 10).add
      ((hm 1 (1 / 2) (by norm_num)).const_mul 40)).const_mul (3 * 2) |>.add_const (1 / 1000))
    (fun x hx => slack_cost _ hx)
    (fun d x => below d.1 d.2 (Real.log (2 * x)) (1 / 2) + 1 / 1000)
    (fun d hd => by
      have : 0 < d.2 := by rw [repaired_states.common d hd]; norm_num
      exact ⟨(hm d.1 d.2 this).add_const _, fun x hx => slack_state _ _ _ this hx⟩)
    (fun x _ => ⟨slack_integrates (by norm_num) _, fun _ _ => slack_integrates (by norm_num) _⟩)
    ⟨slack_integrates (by norm_num) _, fun _ _ => slack_integrates (by norm_num) _⟩
  refine ⟨rs, v, h1, h2, ?_⟩
  have h4 : ((repaired repairs).count : ℝ) = 3 := by simp [repaired]
  rw [h4] at h3
  refine h3.trans (le_of_eq ?_)
  norm_num [swing]

end

end Slat.Rates
