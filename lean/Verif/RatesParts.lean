import Verif.RatesCost
import Verif.FragilityProps

/-!
# The cost of a group and the rates of its damage states (C67)
-/

namespace Slat.Rates

open Slat Dbl LogNormalDist Fates MeasureTheory ProbabilityTheory Set Filter Topology

noncomputable section

/-! ## Specification -/

/-- A cost `cᵢ` is paid when damage state `i` is the worst one reached; state `i` is reached with probability (or at
rate) `rᵢ`.  What is paid: `c₁ (r₁ - r₂) + c₂ (r₂ - r₃) + … + cₙ rₙ`. -/
def paid : List ℝ → List ℝ → ℝ
  | c :: cs, r :: r' :: rs => c * (r - r') + paid cs (r' :: rs)
  | c :: _, [r] => c * r
  | _, _ => 0

/-- The mean costs of one component per damage state: of the given distributions, or of the two-level costs for a
number of components. -/
def UnitCosts : LossFn → ℤ → List ℝ → Prop
  | .simple ds, _, us => ∃ ms, (∀ d ∈ ds, d.Proper) ∧ ReportsAll ds ms ∧ us = ms.map Prod.fst
  | .biLevel ls, n, us => Loss.inInt n ∧ List.Forall₂ (fun (l : Loss.BiLevel) u => ∃ a b sg : ℝ,
      l = ⟨l.countMin, l.countMax, .fin a, .fin b, .fin sg⟩ ∧ 0 ≤ a ∧ 0 ≤ b ∧ 0 ≤ l.countMin ∧
      Loss.inInt l.countMax ∧ l.unitMean n = some (.fin u)) ls us

/-- The group has the cost function `cost`, with the adjustment factor `adj`. -/
def CostsBy (g : Group) (cost : LossFn) (adj : ℝ) : Prop :=
  ∀ y, 0 < y → lossEdpDist (some cost) g.states g.count (.fin adj) (.fin y) = .ok (g.cost (.fin y))

/-- Damage states of a common dispersion and increasing medians: `(mᵢ, s)`. -/
structure Ordered (caps : List (ℝ × ℝ)) (s : ℝ) : Prop where
  pos : 0 < s
  common : ∀ c ∈ caps, c.2 = s
  increasing : caps.Pairwise fun p q => p.1 < q.1

/-! ## Auxiliary facts -/

theorem paid_succDiff (us ps : List ℝ) :
    (List.zipWith (fun u p => p * u) us (Fragility.succDiff ps)).sum = paid us ps := by
  induction us generalizing ps with
  | nil => cases ps <;> simp [paid]
  | cons u us ih =>
    match ps with
    | [] => simp [paid, Fragility.succDiff]
    | [p] => simp [paid, Fragility.succDiff, mul_comm]
    | p :: q :: ps =>
      have := ih (q :: ps)
      simp only [paid, Fragility.succDiff, List.zipWith_cons_cons, List.sum_cons] at this ⊢
      rw [this, mul_comm]

theorem paid_integral {α : Type} {μ : Measure ℝ} (us : List ℝ) (caps : List α) (f : α → ℝ → ℝ)
    (h : ∀ c ∈ caps, Integrable (f c) μ) :
    Integrable (fun x => paid us (caps.map fun c => f c x)) μ ∧
      ∫ x, paid us (caps.map fun c => f c x) ∂μ = paid us (caps.map fun c => ∫ x, f c x ∂μ) := by
  induction us generalizing caps with
  | nil => cases caps <;> simp [paid]
  | cons u us ih =>
    match caps, h with
    | [], _ => simp [paid]
    | [c], h =>
      have := h c (by simp)
      simp only [List.map_cons, List.map_nil, paid]
      exact ⟨this.const_mul u, integral_const_mul _ _⟩
    | c :: d :: caps, h =>
      have h1 := h c (by simp)
      have h2 := h d (by simp)
      obtain ⟨a, b⟩ := ih (d :: caps) (fun e he => h e (List.mem_cons_of_mem _ he))
      simp only [List.map_cons, paid] at a b ⊢
      refine ⟨((h1.sub h2).const_mul u).add a, ?_⟩
      have h3 : Integrable (fun x => u * (f c x - f d x)) μ := (h1.sub h2).const_mul u
      rw [integral_add h3 a, b, integral_const_mul, integral_sub h1 h2]

theorem paid_mul (us rs : List ℝ) (k : ℝ) : paid us (rs.map fun r => r * k) = paid us rs * k := by
  induction us generalizing rs with
  | nil => cases rs <;> simp [paid]
  | cons u us ih =>
    match rs with
    | [] => simp [paid]
    | [r] => simp [paid, mul_assoc]
    | r :: r' :: rs =>
      have := ih (r' :: rs)
      simp only [List.map_cons, paid] at this ⊢
      rw [this]
      ring

/-- The loss for given probabilities, for both kinds of cost functions. -/
theorem unitCosts_loss {cost : LossFn} {n : ℤ} {us : List ℝ} (hU : UnitCosts cost n us) (hn : 0 ≤ n) {adj : ℝ}
    (ha : 0 ≤ adj) {ps : List ℝ} (hl : us.length = ps.length) (hp : ∀ p ∈ ps, 0 ≤ p) (h1 : ps.sum ≤ 1) :
    ∃ d s, cost.calculate (ps.map Dbl.fin) n (.fin adj) = .ok d ∧
      d.Reports (n * adj * (List.zipWith (fun u p => p * u) us ps).sum) s := by
  cases cost with
  | simple ds =>
    obtain ⟨ms, q1, q2, rfl⟩ := hU
    obtain ⟨d, s, f1, -, -, -, f4⟩ := Loss.simple_loss ds q1 ms q2 ps
      (by rw [List.Forall₂.length_eq q2]; simpa using hl) hp h1 n hn adj ha
    refine ⟨d, n * adj * s, f1, ?_⟩
    rw [List.zipWith_map_left]
    exact f4
  | biLevel ls =>
    obtain ⟨hi, hf⟩ := hU
    obtain ⟨units, d, s, e1, e2, -, e4⟩ := Loss.two_level_loss ls (fun l hl' => by
      obtain ⟨u, hu⟩ : ∃ u, ∃ a b sg : ℝ,
          l = ⟨l.countMin, l.countMax, .fin a, .fin b, .fin sg⟩ ∧ 0 ≤ a ∧ 0 ≤ b ∧ 0 ≤ l.countMin ∧
          Loss.inInt l.countMax ∧ l.unitMean n = some (.fin u) := by
        clear hl
        induction hf with
        | nil => simp at hl'
        | cons h _ ih =>
          rcases List.mem_cons.1 hl' with rfl | h'
          · exact ⟨_, h⟩
          · exact ih h'
      obtain ⟨a, b, sg, x1, x2, x3, x4, x5, -⟩ := hu
      exact ⟨a, b, sg, x1, x2, x3, x4, x5⟩) ps (by rw [List.Forall₂.length_eq hf, hl]) hp h1 n hn hi adj ha
    have : units = us := by
      clear e2 e4 hl hp h1
      induction hf generalizing units with
      | nil => cases e1; rfl
      | cons h _ ih =>
        cases e1 with
        | cons h1 h2 =>
          obtain ⟨_, _, _, _, _, _, _, _, h⟩ := h
          rw [h, Option.some.injEq, fin_inj] at h1
          rw [h1, ih _ h2]
    subst this
    exact ⟨d, s, e2, e4⟩

theorem reached_integrable (m s mc sc : ℝ) : Integrable (fun x => (LN mc sc).real (Iic x)) (LN m s) := by
  have hmono : Monotone fun x => (LN mc sc).real (Iic x) := fun a b h => measureReal_mono (Iic_subset_Iic.2 h)
  refine Integrable.of_bound hmono.measurable.aestronglyMeasurable 1 (ae_of_all _ fun x => ?_)
  rw [Real.norm_eq_abs, abs_of_nonneg measureReal_nonneg]
  exact measureReal_le_one

/-! ## C67 -/

/-- At a demand, the mean cost of the group is that of its components, each in the worst damage state it has reached. -/
theorem cost_at_demand (g : Group) (hn : 0 ≤ g.count) (caps : List (ℝ × ℝ)) (s₀ : ℝ) (hO : Ordered caps s₀)
    (hst : g.states = caps.map fun c => ⟨.fin c.1, .fin c.2⟩) (cost : LossFn) (us : List ℝ)
    (hU : UnitCosts cost g.count us) (hlen : us.length = caps.length) (adj : ℝ) (ha : 0 ≤ adj)
    (hC : CostsBy g cost adj) :
    ∃ σ, Losses g.cost (fun y => g.count * adj * paid us (caps.map fun c => (LN c.1 c.2).real (Iic y))) σ := by
  have key : ∀ y : ℝ, 0 < y → ∃ s, (g.cost (.fin y)).Reports
      (g.count * adj * paid us (caps.map fun c => (LN c.1 c.2).real (Iic y))) s := by
    intro y hy
    have hpos : ∀ c ∈ caps, 0 < c.2 := fun c hc => by rw [hO.common c hc]; exact hO.pos
    have he : Fragility.pExceeded g.states (.fin y) = (caps.map fun c => (LN c.1 c.2).real (Iic y)).map Dbl.fin := by
      rw [Fragility.pExceeded, hst, List.map_map, List.map_map]
      exact List.map_congr_left fun c hc => (p_at_most_is_cdf c.1 (hpos c hc) hy.le).1
    have hanti := Fragility.phi_antitone_of_same_sigma caps s₀ hO.pos hO.common hO.increasing y hy _ (by rw [← hst]; exact he)
    have hh : Fragility.pHighest g.states (.fin y) =
        (Fragility.succDiff (caps.map fun c => (LN c.1 c.2).real (Iic y))).map Dbl.fin := by
      rw [Fragility.pHighest, he, Fragility.differences_of_antitone _ hanti]
    have hq : ∀ ps : List ℝ, ps.Pairwise (fun a b => b ≤ a) → (∀ p ∈ ps, 0 ≤ p) →
        (∀ q ∈ Fragility.succDiff ps, 0 ≤ q) ∧ (Fragility.succDiff ps).length = ps.length := by
      intro ps
      induction ps with
      | nil => intro _ _; simp [Fragility.succDiff]
      | cons a ps ih =>
        intro h1 h2
        cases ps with
        | nil => simpa [Fragility.succDiff] using h2
        | cons b ps =>
          obtain ⟨i1, i2⟩ := ih (List.pairwise_cons.1 h1).2 fun p hp => h2 p (List.mem_cons_of_mem _ hp)
          simp only [Fragility.succDiff, List.mem_cons, List.length_cons] at i1 i2 ⊢
          refine ⟨?_, by omega⟩
          rintro q (rfl | hq)
          · have := (List.pairwise_cons.1 h1).1 b (by simp)
            linarith
          · exact i1 q (by simpa using hq)
    obtain ⟨q1, q2⟩ := hq _ hanti (fun p hp => by
      obtain ⟨c, -, rfl⟩ := List.mem_map.1 hp
      exact measureReal_nonneg)
    have hsum : (Fragility.succDiff (caps.map fun c => (LN c.1 c.2).real (Iic y))).sum ≤ 1 := by
      cases caps with
      | nil => simp [Fragility.succDiff]
      | cons c caps =>
        rw [List.map_cons, Fragility.sum_succDiff]
        exact measureReal_le_one
    obtain ⟨d, s, f1, f2⟩ := unitCosts_loss hU hn ha (by rw [q2, hlen, List.length_map]) q1 hsum
    have h3 := hC y hy
    simp only [lossEdpDist, hh, f1] at h3
    injection h3 with h3
    rw [← h3]
    rw [paid_succDiff] at f2
    exact ⟨s, f2⟩
  choose! σ hσ using key
  exact ⟨σ, hσ⟩

/-- At an intensity, the expected cost is what is paid for the damage-state probabilities the group reports. -/
theorem cost_from_states_partial (gsl : Gsl) (hg : Differentiates gsl) (g : Group) (hn : 0 < g.count) (im m s : ℝ)
    (him : 0 < im) (he : g.edp.at (.fin im) = ⟨.fin m, .fin s⟩) (hs : 0 < s)
    (caps : List (ℝ × ℝ)) (s₀ : ℝ) (hO : Ordered caps s₀)
    (hst : g.states = caps.map fun c => ⟨.fin c.1, .fin c.2⟩) (cost : LossFn) (us : List ℝ)
    (hU : UnitCosts cost g.count us) (hlen : us.length = caps.length) (adj : ℝ) (ha : 0 ≤ adj)
    (hC : CostsBy g cost adj) (maq : Maq) (hI : ∀ f, Integrates maq 0 f) :
    ∃ ps : List ℝ, pDSIM maq gsl g (.fin im) = ps.map Dbl.fin ∧
      eCostIM maq gsl g (.fin im) = .fin (g.count * adj * paid us ps) := by
  obtain ⟨σ, hσ⟩ := cost_at_demand g hn.le caps s₀ hO hst cost us hU hlen adj ha hC
  obtain ⟨h1, h2⟩ := paid_integral (μ := LN m s) us caps (fun c y => (LN c.1 c.2).real (Iic y))
    (fun c _ => reached_integrable _ _ _ _)
  obtain ⟨v, h3, h4⟩ := group_expected_cost gsl hg g hn im m s him he hs _ σ hσ (h1.const_mul _) maq 0 (hI _)
  refine ⟨caps.map fun c => below c.1 c.2 m s, ?_, ?_⟩
  · rw [pDSIM, hst, List.map_map, List.map_map]
    refine List.map_congr_left fun c hc => ?_
    obtain ⟨w, a1, a2, -⟩ := damage_state_probability gsl hg g im m s he hs c.1 c.2
      (by rw [hO.common c hc]; exact hO.pos) maq 0 (hI _)
    have := abs_nonpos_iff.1 a2
    simp only [Function.comp]
    rw [a1, fin_inj]
    linarith
  · have := abs_nonpos_iff.1 h4
    rw [h3, fin_inj]
    simp only [totalMean, integral_const_mul, h2] at this
    simp only [below_eq_integral]
    linarith

/-- **C67**: the annual cost of a group and the rates of its damage states fit together: per component, each state's
cost is paid at the rate at which that state, but not the next, is reached. -/
theorem annual_cost_from_rates_partial (gsl : Gsl) (hg : Differentiates gsl) (g : Group) (hn : 0 < g.count)
    (m s : ℝ → ℝ) (hD : Demands g.edp m s) (caps : List (ℝ × ℝ)) (s₀ : ℝ) (hO : Ordered caps s₀)
    (hst : g.states = caps.map fun c => ⟨.fin c.1, .fin c.2⟩) (cost : LossFn) (us : List ℝ)
    (hU : UnitCosts cost g.count us) (hlen : us.length = caps.length) (adj : ℝ) (ha : 0 ≤ adj)
    (hC : CostsBy g cost adj) (deriv : Dbl → Dbl) (lam lam' : ℝ → ℝ) (l : ℝ) (hH : Hazard deriv lam lam' l)
    (maq : Maq) (hI : ∀ f, Integrates maq 0 f) :
    ∃ rs : List ℝ, calcRate maq gsl g deriv = rs.map Dbl.fin ∧
      eAnnualCost maq gsl g deriv = .fin (g.count * adj * paid us rs) := by
  obtain ⟨σ, hσ⟩ := cost_at_demand g hn.le caps s₀ hO hst cost us hU hlen adj ha hC
  have hpos : ∀ c ∈ caps, 0 < c.2 := fun c hc => by rw [hO.common c hc]; exact hO.pos
  have hmean : ∀ x, totalMean (LN (m x) (s x))
        (fun y => g.count * adj * paid us (caps.map fun c => (LN c.1 c.2).real (Iic y))) * |lam' x| =
      g.count * adj * paid us (caps.map fun c => below c.1 c.2 (m x) (s x) * |lam' x|) := by
    intro x
    have h2 := (paid_integral (μ := LN (m x) (s x)) us caps (fun c y => (LN c.1 c.2).real (Iic y))
      (fun c _ => reached_integrable _ _ _ _)).2
    have h3 := paid_mul us (caps.map fun c => below c.1 c.2 (m x) (s x)) |lam' x|
    rw [List.map_map] at h3
    simp only [Function.comp_def] at h3
    rw [h3]
    simp only [totalMean, integral_const_mul, h2, below_eq_integral]
    ring
  obtain ⟨h1, h2⟩ := paid_integral (μ := volume.restrict (Ioi (0 : ℝ))) us caps
    (fun c x => below c.1 c.2 (m x) (s x) * |lam' x|) (fun c hc => stateRate_integrable hH hD c.1 (hpos c hc))
  have hc := group_annual_cost gsl hg g hn m s hD _ σ hσ
    (fun x _ => ((paid_integral (μ := LN (m x) (s x)) us caps (fun c y => (LN c.1 c.2).real (Iic y))
      (fun c _ => reached_integrable _ _ _ _)).1.const_mul _)) deriv lam lam' l hH
    (by simp only [hmean]; exact h1.const_mul _) maq (fun _ _ => hI _) (hI _)
  obtain ⟨hr, -, -⟩ := damage_state_rates gsl hg g m s hD deriv lam lam' l hH caps hpos hst maq
    (fun _ _ _ _ => hI _) fun _ _ => hI _
  refine ⟨caps.map fun c => stateRate c.1 c.2 m s lam', by rw [hr, List.map_map]; rfl, ?_⟩
  rw [hc, fin_inj]
  simp only [hmean, integral_const_mul, h2, stateRate]

/-! ## What fails -/

/-- A group whose damage states have different dispersions: the second is more likely than the first at small
demands. -/
def crossing : Group where
  edp := .plain (growing 2)
  states := [⟨.fin 0, .fin (1 / 2)⟩, ⟨.fin 1, .fin 2⟩]
  count := 1
  cost := fun y => match lossEdpDist (some (.simple [.ofMeanSigma (.fin 1) (.fin 1), .ofMeanSigma (.fin 2) (.fin 1)]))
      [⟨.fin 0, .fin (1 / 2)⟩, ⟨.fin 1, .fin 2⟩] 1 (.fin 1) y with
    | .ok d => d
    | _ => .unset
  delay := fun _ => .unset

theorem crossing_units : UnitCosts (.simple [.ofMeanSigma (.fin 1) (.fin 1), .ofMeanSigma (.fin 2) (.fin 1)]) 1 [1, 2] := by
  refine ⟨[(1, 1), (2, 1)], ?_, ?_, rfl⟩
  · intro d hd
    simp only [List.mem_cons, List.not_mem_nil, or_false] at hd
    rcases hd with rfl | rfl
    · exact proper_ofMeanSigma (by norm_num) _
    · exact proper_ofMeanSigma (by norm_num) _
  · exact .cons ((mean_sd_roundtrip 1 1 (by norm_num)).2 (Or.inl (by norm_num)))
      (.cons ((mean_sd_roundtrip 2 1 (by norm_num)).2 (Or.inl (by norm_num))) .nil)

/-- Its mean cost at a demand. -/
theorem crossing_costs : ∃ σ, Losses crossing.cost (fun y =>
    max 0 ((LN 0 (1 / 2)).real (Iic y) - (LN 1 2).real (Iic y)) + 2 * (LN 1 2).real (Iic y)) σ := by
  have key : ∀ y : ℝ, 0 < y → ∃ s, (crossing.cost (.fin y)).Reports
      (max 0 ((LN 0 (1 / 2)).real (Iic y) - (LN 1 2).real (Iic y)) + 2 * (LN 1 2).real (Iic y)) s := by
    intro y hy
    set F := (LN 0 (1 / 2)).real (Iic y) with hF
    set G := (LN 1 2).real (Iic y) with hG
    have hF1 : F ≤ 1 := measureReal_le_one
    have hG1 : G ≤ 1 := measureReal_le_one
    have hF0 : 0 ≤ F := measureReal_nonneg
    have hG0 : 0 ≤ G := measureReal_nonneg
    have hh : Fragility.pHighest [⟨.fin 0, .fin (1 / 2)⟩, ⟨.fin 1, .fin 2⟩] (.fin y) =
        [max 0 (F - G), G].map Dbl.fin := by
      simp only [Fragility.pHighest, Fragility.pExceeded, List.map_cons, List.map_nil,
        (p_at_most_is_cdf 0 (show (0 : ℝ) < 1 / 2 by norm_num) hy.le).1,
        (p_at_most_is_cdf 1 (show (0 : ℝ) < 2 by norm_num) hy.le).1, ← hF, ← hG, Fragility.differences, fin_sub,
        zero_def, fin_lt]
      split
      · rename_i h
        rw [max_eq_left h.le]
      · rename_i h
        rw [max_eq_right (not_lt.1 h)]
    obtain ⟨d, s, f1, f2⟩ := unitCosts_loss crossing_units (by norm_num) (adj := 1) (by norm_num)
      (ps := [max 0 (F - G), G]) rfl
      (by
        intro p hp
        simp only [List.mem_cons, List.not_mem_nil, or_false] at hp
        rcases hp with rfl | rfl
        · exact le_max_left _ _
        · exact hG0)
      (by
        simp only [List.sum_cons, List.sum_nil, add_zero]
        rcases le_total 0 (F - G) with h | h
        · rw [max_eq_right h]; linarith
        · rw [max_eq_left h]; linarith)
    refine ⟨s, ?_⟩
    have : crossing.cost (.fin y) = d := by
      simp only [crossing, lossEdpDist, hh, f1]
    rw [this]
    have e : max 0 (F - G) + 2 * G = (1 : ℤ) * 1 *
        (List.zipWith (fun u p => p * u) [1, 2] [max 0 (F - G), G]).sum := by
      simp [mul_comm]
    rw [e]
    exact f2
  choose! σ hσ using key
  exact ⟨σ, hσ⟩

/-- **C67, what fails**: an accepted group whose damage states differ in dispersion costs more than what is paid for
the damage-state probabilities it reports. -/
theorem cost_from_states_fails :
    (Fragility.construct crossing.states).isSome = true ∧
    UnitCosts (.simple [.ofMeanSigma (.fin 1) (.fin 1), .ofMeanSigma (.fin 2) (.fin 1)]) crossing.count [1, 2] ∧
    CostsBy crossing (.simple [.ofMeanSigma (.fin 1) (.fin 1), .ofMeanSigma (.fin 2) (.fin 1)]) 1 ∧
    ∃ (ps : List ℝ) (v : ℝ), pDSIM ideal idealGsl crossing (.fin 1) = ps.map Dbl.fin ∧
      eCostIM ideal idealGsl crossing (.fin 1) = .fin v ∧ crossing.count * 1 * paid [1, 2] ps < v := by
  refine ⟨?_, crossing_units, ?_, ?_⟩
  · simp [Fragility.construct, crossing, Fragility.check, getMuLn]
  · intro y hy
    simp only [crossing]
    cases h : lossEdpDist (some (.simple [.ofMeanSigma (.fin 1) (.fin 1), .ofMeanSigma (.fin 2) (.fin 1)]))
      [⟨.fin 0, .fin (1 / 2)⟩, ⟨.fin 1, .fin 2⟩] 1 (.fin 1) (.fin y) with
    | ok d => rfl
    | throws =>
      exfalso
      simp only [lossEdpDist, LossFn.calculate, Loss.simple_loss_rejects] at h
      exact h rfl
    | undefined =>
      exfalso
      simp only [lossEdpDist, LossFn.calculate, Loss.simple] at h
      split at h <;> simp at h
  · obtain ⟨σ, hσ⟩ := crossing_costs
    have hat : crossing.edp.at (.fin 1) = ⟨.fin (Real.log (2 * 1)), .fin (1 / 2)⟩ := rfl
    set P := LN (Real.log (2 * 1)) (1 / 2) with hP
    have i1 : Integrable (fun y => (LN 0 (1 / 2)).real (Iic y)) P := reached_integrable _ _ _ _
    have i2 : Integrable (fun y => (LN 1 2).real (Iic y)) P := reached_integrable _ _ _ _
    have i3 : Integrable (fun y => max 0 ((LN 0 (1 / 2)).real (Iic y) - (LN 1 2).real (Iic y))) P := by
      have := (i1.sub i2).pos_part
      refine this.congr (ae_of_all _ fun y => ?_)
      simp [max_comm]
    have i4 : Integrable (fun y => 2 * (LN 1 2).real (Iic y)) P := i2.const_mul 2
    obtain ⟨v, h1, h2⟩ := group_expected_cost idealGsl idealGsl_ok crossing (by norm_num [crossing]) 1 _ _ one_pos hat
      (by norm_num) _ σ hσ (i3.add i4) ideal 0 (ideal_integrates _)
    have hv : v = ∫ y, max 0 ((LN 0 (1 / 2)).real (Iic y) - (LN 1 2).real (Iic y)) + 2 * (LN 1 2).real (Iic y) ∂P := by
      have := abs_nonpos_iff.1 h2
      simp only [totalMean, ← hP] at this
      exact sub_eq_zero.1 this
    have hps : ∀ mc sc : ℝ, 0 < sc → pDSIMcalc ideal idealGsl crossing ⟨.fin mc, .fin sc⟩ (.fin 1) =
        .fin (∫ y, (LN mc sc).real (Iic y) ∂P) := by
      intro mc sc hsc
      obtain ⟨w, a1, a2, -⟩ := damage_state_probability idealGsl idealGsl_ok crossing 1 _ _ hat (by norm_num) mc sc hsc
        ideal 0 (ideal_integrates _)
      rw [below_eq_integral, ← hP] at a2
      rw [a1, sub_eq_zero.1 (abs_nonpos_iff.1 a2)]
    refine ⟨[∫ y, (LN 0 (1 / 2)).real (Iic y) ∂P, ∫ y, (LN 1 2).real (Iic y) ∂P], v, ?_, h1, ?_⟩
    · simp only [pDSIM, crossing, List.map_cons, List.map_nil]
      exact congrArg₂ _ (hps 0 (1 / 2) (by norm_num)) (congrArg₂ _ (hps 1 2 (by norm_num)) rfl)
    · have hpaid : (crossing.count : ℝ) * 1 * paid [1, 2]
          [∫ y, (LN 0 (1 / 2)).real (Iic y) ∂P, ∫ y, (LN 1 2).real (Iic y) ∂P] =
          ∫ y, ((LN 0 (1 / 2)).real (Iic y) - (LN 1 2).real (Iic y)) + 2 * (LN 1 2).real (Iic y) ∂P := by
        have i5 : Integrable (fun y => (LN 0 (1 / 2)).real (Iic y) - (LN 1 2).real (Iic y)) P := i1.sub i2
        rw [integral_add i5 i4, integral_sub i1 i2, integral_const_mul]
        simp [paid, crossing]
      have i6 : Integrable (fun y => max 0 ((LN 0 (1 / 2)).real (Iic y) - (LN 1 2).real (Iic y)) +
          2 * (LN 1 2).real (Iic y)) P := i3.add i4
      have i7 : Integrable (fun y => ((LN 0 (1 / 2)).real (Iic y) - (LN 1 2).real (Iic y)) +
          2 * (LN 1 2).real (Iic y)) P := (i1.sub i2).add i4
      rw [hpaid, hv, ← sub_pos, ← integral_sub i6 i7]
      have hnn : ∀ y, 0 ≤ (max 0 ((LN 0 (1 / 2)).real (Iic y) - (LN 1 2).real (Iic y)) + 2 * (LN 1 2).real (Iic y)) -
          (((LN 0 (1 / 2)).real (Iic y) - (LN 1 2).real (Iic y)) + 2 * (LN 1 2).real (Iic y)) := by
        intro y
        have := le_max_right 0 ((LN 0 (1 / 2)).real (Iic y) - (LN 1 2).real (Iic y))
        linarith
      refine (integral_pos_iff_support_of_nonneg hnn (i6.sub i7)).2 ?_
      have hy : ∀ y : ℝ, 0 < y → Real.log y < -1 / 3 → (LN 0 (1 / 2)).real (Iic y) < (LN 1 2).real (Iic y) := by
        intro y h0 hl
        have e1 := (p_at_most_is_cdf 0 (show (0 : ℝ) < 1 / 2 by norm_num) h0.le).1
        have e2 := (p_at_most_is_cdf 1 (show (0 : ℝ) < 2 by norm_num) h0.le).1
        rw [pAtMost_pos _ (by norm_num) h0, fin_inj] at e1 e2
        rw [← e1, ← e2]
        refine Phi_strictMono ?_
        linarith
      refine lt_of_lt_of_le (b := P (Ioc 0 (Real.exp (-1)))) ?_ (measure_mono fun y hy' => ?_)
      · rw [hP, LN, Measure.map_apply Real.measurable_exp measurableSet_Ioc]
        have : Real.exp ⁻¹' Ioc 0 (Real.exp (-1)) = Iic (-1) := by
          ext z
          simp [Real.exp_pos]
        rw [this]
        have hr : 0 < (gaussianReal (Real.log (2 * 1)) (NNReal.mk ((1 / 2 : ℝ) ^ 2) (sq_nonneg _))).real (Iic (-1)) := by
          rw [← Phi_standardise _ (show (0 : ℝ) < 1 / 2 by norm_num)]
          exact Phi_pos _
        exact (ENNReal.toReal_pos_iff.1 hr).1
      · have := hy y hy'.1 (by
          have := Real.log_le_log hy'.1 hy'.2
          rw [Real.log_exp] at this
          linarith)
        rw [Function.mem_support, max_eq_left (by linarith)]
        linarith

/-! ## The differentiation routines -/

/-- A routine whose answers, where they are numbers, are right (one that fails answers NaN). -/
def RightOrNaN (routine : (Dbl → Dbl) → Dbl → Dbl) : Prop :=
  ∀ (h : Dbl → Dbl) (H : ℝ → ℝ) (x d : ℝ), 0 < x → (∀ t, 0 < t → h (.fin t) = .fin (H t)) → HasDerivAt H d x →
    routine h (.fin x) = .nan ∨ routine h (.fin x) = .fin d

/-- With three such routines, one of which succeeds at each point, the code differentiates correctly: a failed routine
is replaced by the next. -/
theorem fallbacks_differentiate (gsl : Gsl) (h1 : RightOrNaN gsl.central) (h2 : RightOrNaN gsl.forward)
    (h3 : RightOrNaN gsl.backward)
    (hs : ∀ (h : Dbl → Dbl) (x : ℝ), 0 < x → gsl.central h (.fin x) ≠ .nan ∨ gsl.forward h (.fin x) ≠ .nan ∨
      gsl.backward h (.fin x) ≠ .nan) : Differentiates gsl := by
  intro h H x d hx hh hd
  unfold Gsl.deriv
  rcases h1 h H x d hx hh hd with a | a <;> rcases h2 h H x d hx hh hd with b | b <;>
    rcases h3 h H x d hx hh hd with c | c <;> rcases hs h x hx with k | k | k <;> simp_all [isNaN]

/-- Only the backward difference works. -/
def lastResort : Gsl := ⟨fun _ _ => .nan, fun _ _ => .nan, idealGsl.backward⟩

example : Differentiates lastResort := by
  refine fallbacks_differentiate lastResort (fun _ _ _ _ _ _ _ => Or.inl rfl) (fun _ _ _ _ _ _ _ => Or.inl rfl) ?_ ?_
  · intro h H x d hx hh hd
    have := idealGsl_ok h H x d hx hh hd
    right
    simpa [Gsl.deriv, idealGsl, isNaN, lastResort] using this
  · intro h x _
    exact Or.inr (Or.inr (by simp [lastResort, idealGsl]))

/-! ## Examples -/

/-- Three components with two damage states of the same dispersion, costing 10 and 40 each, or, in the second case, less
the more there are. -/
def repaired (cost : LossFn) : Group where
  edp := .plain (growing 2)
  states := [⟨.fin 0, .fin (1 / 2)⟩, ⟨.fin 1, .fin (1 / 2)⟩]
  count := 3
  cost := fun y => match lossEdpDist (some cost) [⟨.fin 0, .fin (1 / 2)⟩, ⟨.fin 1, .fin (1 / 2)⟩] 3 (.fin 2) y with
    | .ok d => d
    | _ => .unset
  delay := fun _ => .unset

theorem repaired_states : Ordered [((0 : ℝ), (1 / 2 : ℝ)), (1, 1 / 2)] (1 / 2) where
  pos := by norm_num
  common := by simp
  increasing := by simp

example : ∃ r₁ r₂ : ℝ,
    let g := repaired (.simple [.ofMeanSigma (.fin 10) (.fin 1), .ofMeanSigma (.fin 40) (.fin 1)])
    calcRate ideal idealGsl g expHazard = [.fin r₁, .fin r₂] ∧
    eAnnualCost ideal idealGsl g expHazard = .fin (3 * 2 * (10 * (r₁ - r₂) + 40 * r₂)) := by
  set cost : LossFn := .simple [.ofMeanSigma (.fin 10) (.fin 1), .ofMeanSigma (.fin 40) (.fin 1)] with hcost
  have hU : UnitCosts cost (repaired cost).count [10, 40] := by
    refine ⟨[(10, 1), (40, 1)], ?_, ?_, rfl⟩
    · intro d hd
      simp only [List.mem_cons, List.not_mem_nil, or_false] at hd
      rcases hd with rfl | rfl
      · exact proper_ofMeanSigma (by norm_num) _
      · exact proper_ofMeanSigma (by norm_num) _
    · exact .cons ((mean_sd_roundtrip 10 1 (by norm_num)).2 (Or.inl (by norm_num)))
        (.cons ((mean_sd_roundtrip 40 1 (by norm_num)).2 (Or.inl (by norm_num))) .nil)
  have hC : CostsBy (repaired cost) cost 2 := by
    intro y _
    simp only [repaired]
    cases h : lossEdpDist (some cost) [⟨.fin 0, .fin (1 / 2)⟩, ⟨.fin 1, .fin (1 / 2)⟩] 3 (.fin 2) (.fin y) with
    | ok d => rfl
    | throws =>
      simp only [hcost, lossEdpDist, LossFn.calculate, Loss.simple_loss_rejects] at h
      exact absurd rfl h
    | undefined =>
      simp only [hcost, lossEdpDist, LossFn.calculate, Loss.simple] at h
      split at h <;> simp at h
  obtain ⟨rs, h1, h2⟩ := annual_cost_from_rates_partial idealGsl idealGsl_ok (repaired cost) (by norm_num [repaired]) _ _
    (growing_ok 2) _ _ repaired_states rfl cost _ hU rfl 2 (by norm_num) hC _ _ _ _ expHazard_ok ideal ideal_integrates
  have hl : rs.length = 2 := by
    have := congrArg List.length h1
    simpa [calcRate, repaired] using this.symm
  match rs, hl with
  | [r₁, r₂], _ => exact ⟨r₁, r₂, h1, by rw [h2]; simp [paid, repaired]⟩

/-- Two-level costs: for 3 components, between 100 each for at most 2 and 50 each for at least 4. -/
example : UnitCosts (.biLevel [⟨2, 4, .fin 100, .fin 50, .fin 1⟩]) 3 [75] :=
  ⟨by simp [Loss.inInt], .cons ⟨100, 50, 1, rfl, by norm_num, by norm_num, by norm_num, by simp [Loss.inInt], by
    simp [Loss.BiLevel.unitMean, Loss.subInt, Loss.inInt]
    norm_num [fin_div_of_ne]⟩ .nil⟩

end

end Slat.Rates
