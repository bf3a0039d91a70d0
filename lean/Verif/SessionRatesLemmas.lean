import Verif.SessionGroupProps
import Verif.SessionRates
import Verif.SessionRatesSpec
import Verif.SessionMemorySim
import Verif.RatesGroup
import Mathlib.Analysis.SpecialFunctions.SmoothTransition

/-!
# Helper lemmas: sessions and integration
-/

namespace Slat.Session

open MeasureTheory Set Filter Topology

noncomputable section

open Interp (Mu Sd)

/-- The rate of collapse does not depend on demolition (/repo/src/relationships.cpp:153-177). -/
theorem integrated_separate (maq : Rates.Maq) (gsl : Rates.Gsl) : (integrated maq gsl).Separate := fun _ _ _ => rfl

theorem Spec.Answers.nonneg {maq : Rates.Maq} {ε : ℝ} {φ : ℝ → ℝ} (h : Spec.Answers maq ε φ) : 0 ≤ ε := by
  obtain ⟨v, -, h1⟩ := h.answer (fun x => match x with
    | .fin x => .fin (φ x)
    | _ => 0) fun _ _ => rfl
  exact (abs_nonneg _).trans h1

/-- Every function with these values is answered. -/
theorem Spec.Answers.integrates {maq : Rates.Maq} {ε : ℝ} {φ : ℝ → ℝ} (h : Spec.Answers maq ε φ) {f : Dbl → Dbl}
    (hf : ∀ x, 0 < x → f (.fin x) = .fin (φ x)) : Rates.Integrates maq ε f := by
  intro ψ hψ _
  obtain ⟨v, h1, h2⟩ := h.answer f hf
  refine ⟨v, h1, ?_⟩
  have : ∫ x in Ioi (0 : ℝ), ψ x = ∫ x in Ioi (0 : ℝ), φ x := by
    refine setIntegral_congr_fun measurableSet_Ioi fun x hx => ?_
    have := hψ x hx
    rw [hf x hx] at this
    exact (Dbl.fin.inj this).symm
  rwa [this]

theorem density_eq (m : ℝ × ℝ) (y : ℝ) : Spec.density m y = dens m.1 m.2 y := by
  simp only [Spec.density, dens, ProbabilityTheory.gaussianPDFReal, NNReal.coe_one, mul_one, sub_zero]
  congr 1
  rw [div_eq_inv_mul]

/-- The pairs of a fate. -/
def pairOf (q : Mu × Sd × ℝ × ℝ) : ℝ × ℝ := Spec.logPair q.1 q.2.1 q.2.2.1 q.2.2.2

theorem fate_dist {c : Option (Mu × Sd × ℝ × ℝ)}
    (h : ∀ q ∈ c, Spec.Meant q.1 q.2.1 q.2.2.1 q.2.2.2 ∧ 0 < q.2.2.2) :
    c.map made = Fates.dist (c.map pairOf) ∧ ∀ p ∈ c.map pairOf, 0 < p.2 := by
  cases c with
  | none => exact ⟨rfl, by intro p hp; cases hp⟩
  | some q =>
    obtain ⟨mu, sp, a, b⟩ := q
    obtain ⟨h1, h2⟩ := h _ rfl
    refine ⟨?_, ?_⟩
    · rw [Option.map_some, made_eq h1]
      rfl
    · intro p hp
      simp only [Option.map_some, Option.mem_def, Option.some.injEq] at hp
      subst hp
      exact logPair_pos h1 h2

theorem trigger_eq {c : Option (Mu × Sd × ℝ × ℝ)} (hc : ∀ p ∈ c.map pairOf, 0 < p.2) {x : ℝ} (hx : 0 < x) :
    Fates.trigger (c.map pairOf) x = Spec.pCollapse c x := by
  cases c with
  | none => rfl
  | some q =>
    have h := (LogNormalDist.p_at_most_is_cdf (pairOf q).1 (hc _ rfl) hx.le).1
    rw [LogNormalDist.pAtMost_pos _ (hc _ rfl) hx, Dbl.fin_inj] at h
    exact h.symm

theorem lost_eq {c d : Option (Mu × Sd × ℝ × ℝ)} (hc : ∀ p ∈ c.map pairOf, 0 < p.2)
    (hd : ∀ p ∈ d.map pairOf, 0 < p.2) {x : ℝ} (hx : 0 < x) :
    Rates.lost (c.map pairOf) (d.map pairOf) x = Spec.pLost c d x := by
  unfold Rates.lost Spec.pLost
  cases d with
  | none =>
    simp only [Option.map_none, Option.isSome_none, Bool.false_eq_true, if_false]
    rw [trigger_eq hc hx]
    simp [Spec.pDemolition]
  | some q =>
    rw [if_pos (by simp), trigger_eq hd hx]
    simp [Spec.pDemolition, Spec.pCollapse]

/-- The fates of an intensity measure, in formulas. -/
theorem fates_eq {c d : Option (Mu × Sd × ℝ × ℝ)} {F : Fates}
    (hc : ∀ q ∈ c, Spec.Meant q.1 q.2.1 q.2.2.1 q.2.2.2 ∧ 0 < q.2.2.2)
    (hd : ∀ q ∈ d, Spec.Meant q.1 q.2.1 q.2.2.1 q.2.2.2 ∧ 0 < q.2.2.2)
    (h1 : F.collapse = c.map made) (h2 : F.demolition = d.map made) {x : ℝ} (hx : 0 < x) :
    F.pCollapse (.fin x) = .fin (Spec.pCollapse c x) ∧ F.pDemolition (.fin x) = .fin (Spec.pDemolition c d x) ∧
      F.pRepair (.fin x) = .fin (1 - Spec.pLost c d x) := by
  obtain ⟨F1, F2⟩ := F
  simp only at h1 h2
  subst h1 h2
  obtain ⟨e1, p1⟩ := fate_dist hc
  obtain ⟨e2, p2⟩ := fate_dist hd
  have hC : Fates.pCollapse ⟨c.map made, d.map made⟩ (.fin x) = .fin (Spec.pCollapse c x) := by
    rw [e1, e2, Fates.pCollapse_eq p1 hx.le, trigger_eq p1 hx]
  refine ⟨hC, ?_, ?_⟩
  · unfold Fates.pDemolition
    rw [hC]
    cases d with
    | none => rfl
    | some q =>
      simp only [Option.map_some]
      rw [made_below (hd q rfl) hx]
      rfl
  · rw [e1, e2, Rates.pRepair_eq p1 p2 hx.le, lost_eq p1 p2 hx]

theorem law_at {L : Spec.Law} {f g : Dbl → Dbl} (hm : L.Meant) (hf : Agree f L.f) (hg : Agree g L.g) {x : ℝ}
    (hx : 0 < x) : lawAt L.mu L.sp f g (.fin x) = ⟨.fin (L.at_ x).1, .fin (L.at_ x).2⟩ ∧ 0 < (L.at_ x).2 :=
  ⟨lawAt_eq (hf x hx) (hg x hx) (hm x hx).1, logPair_pos (hm x hx).1 (hm x hx).2⟩

/-- The slope of a hazard curve. -/
theorem slope {gsl : Rates.Gsl} (hg : Rates.Differentiates gsl) {curve : Dbl → Dbl} {h h' : ℝ → ℝ}
    (ha : Agree curve h) (hd : ∀ x, 0 < x → HasDerivAt h (h' x) x) {x : ℝ} (hx : 0 < x) :
    Dbl.abs (gsl.deriv curve (.fin x)) = .fin |h' x| := by
  rw [hg curve h x (h' x) hx ha (hd x hx), Dbl.abs_fin]

/-- The rate of a demand. -/
theorem rate_found {maq : Rates.Maq} {gsl : Rates.Gsl} {ε : ℝ} {curve f g : Dbl → Dbl} {h h' : ℝ → ℝ} {L : Spec.Law}
    {c d : Option (Mu × Sd × ℝ × ℝ)} {F : Fates} {y : ℝ} (hg : Rates.Differentiates gsl) (ha : Agree curve h)
    (hd : ∀ x, 0 < x → HasDerivAt h (h' x) x) (hm : L.Meant) (hf : Agree f L.f) (hg' : Agree g L.g)
    (hcm : ∀ q ∈ c, Spec.Meant q.1 q.2.1 q.2.2.1 q.2.2.2 ∧ 0 < q.2.2.2)
    (hdm : ∀ q ∈ d, Spec.Meant q.1 q.2.1 q.2.2.1 q.2.2.2 ∧ 0 < q.2.2.2)
    (h1 : F.collapse = c.map made) (h2 : F.demolition = d.map made) (hy : 0 < y)
    (hI : Spec.Answers maq ε (Spec.demandRate c d L h' y)) :
    ∃ v, (integrated maq gsl).edpRate curve F (lawAt L.mu L.sp f g) (.fin y) = .fin v ∧
      |v - ∫ x in Ioi (0 : ℝ), Spec.demandRate c d L h' y x| ≤ ε := by
  obtain ⟨v, e1, e2⟩ := hI.answer (Rates.lambdaIntegrand F (gsl.deriv curve) (.plain (lawAt L.mu L.sp f g)) (.fin y)) (by
    intro x hx
    obtain ⟨l1, l2⟩ := law_at hm hf hg' hx
    unfold Rates.lambdaIntegrand
    rw [if_neg (Rates.nz hx), slope hg ha hd hx, (fates_eq hcm hdm h1 h2 hx).2.2]
    simp only [Rates.Edp.pExceedence, Rates.Edp.at, l1]
    rw [LogNormalDist.pAtLeast_pos _ l2 hy]
    simp only [Dbl.one_def, Dbl.fin_mul, Dbl.fin_add, Dbl.fin_sub, Dbl.fin_inj, Spec.demandRate, Spec.below]
    ring)
  refine ⟨v, ?_, e2⟩
  show Rates.orNaN _ = _
  rw [e1]
  rfl

/-- The rates of collapse and demolition. -/
theorem loss_found {maq : Rates.Maq} {gsl : Rates.Gsl} {ε : ℝ} {curve : Dbl → Dbl} {h h' : ℝ → ℝ}
    {c d : Option (Mu × Sd × ℝ × ℝ)} {F : Fates} (hg : Rates.Differentiates gsl) (ha : Agree curve h)
    (hd : ∀ x, 0 < x → HasDerivAt h (h' x) x)
    (hcm : ∀ q ∈ c, Spec.Meant q.1 q.2.1 q.2.2.1 q.2.2.2 ∧ 0 < q.2.2.2)
    (hdm : ∀ q ∈ d, Spec.Meant q.1 q.2.1 q.2.2.1 q.2.2.2 ∧ 0 < q.2.2.2)
    (h1 : F.collapse = c.map made) (h2 : F.demolition = d.map made)
    (hI : Spec.Answers maq ε (Spec.collapseRate c h'))
    (hJ : Spec.Answers maq ε (Spec.demolitionRate c d h')) :
    ∃ u v, (integrated maq gsl).collapseRate curve F = .fin u ∧ (integrated maq gsl).demolitionRate curve F = .fin v ∧
      |u - ∫ x in Ioi (0 : ℝ), Spec.collapseRate c h' x| ≤ ε ∧
      |v - ∫ x in Ioi (0 : ℝ), Spec.demolitionRate c d h' x| ≤ ε := by
  obtain ⟨u, e1, e2⟩ := hI.answer (fun x => Dbl.abs (gsl.deriv curve x) * F.pCollapse x) (by
    intro x hx
    rw [slope hg ha hd hx, (fates_eq hcm hdm h1 h2 hx).1, Dbl.fin_mul, mul_comm]
    rfl)
  obtain ⟨v, e3, e4⟩ := hJ.answer (fun x => Dbl.abs (gsl.deriv curve x) * F.pDemolition x) (by
    intro x hx
    rw [slope hg ha hd hx, (fates_eq hcm hdm h1 h2 hx).2.1, Dbl.fin_mul, mul_comm]
    rfl)
  have hu : ∃ u, (integrated maq gsl).collapseRate curve F = .fin u ∧
      |u - ∫ x in Ioi (0 : ℝ), Spec.collapseRate c h' x| ≤ ε := by
    show ∃ u, Rates.collapseRate maq F (gsl.deriv curve) = .fin u ∧ _
    unfold Rates.collapseRate
    rw [h1]
    cases c with
    | none => exact ⟨0, rfl, by simpa [Spec.collapseRate, Spec.pCollapse] using hI.nonneg⟩
    | some q => exact ⟨u, by simp only [Option.map_some, e1]; rfl, e2⟩
  have hv : ∃ v, (integrated maq gsl).demolitionRate curve F = .fin v ∧
      |v - ∫ x in Ioi (0 : ℝ), Spec.demolitionRate c d h' x| ≤ ε := by
    show ∃ v, Rates.demolitionRate maq F (gsl.deriv curve) = .fin v ∧ _
    unfold Rates.demolitionRate
    rw [h2]
    cases d with
    | none => exact ⟨0, rfl, by simpa [Spec.demolitionRate, Spec.pDemolition] using hI.nonneg⟩
    | some q => exact ⟨v, by simp only [Option.map_some, e3]; rfl, e4⟩
  obtain ⟨u, e1, e2⟩ := hu
  obtain ⟨v, e3, e4⟩ := hv
  exact ⟨u, v, e1, e3, e2, e4⟩

/-- The probability of a damage state. -/
theorem state_found {maq : Rates.Maq} {gsl : Rates.Gsl} {ε : ℝ} {g : Group} {G : Spec.Components} {x : ℝ}
    {q : Mu × Sd × ℝ × ℝ} (hg : Rates.Differentiates gsl) (hG : g.Is G) (hm : G.law.Meant) (hx : 0 < x)
    (hq : Spec.Meant q.1 q.2.1 q.2.2.1 q.2.2.2 ∧ 0 < q.2.2.2)
    (hI : Spec.Answers maq ε fun y => Spec.below (pairOf q) y * Spec.density (G.law.at_ x) y) :
    ∃ v, ((integrated maq gsl).group g).pDsIm (made q) (.fin x) = .fin v ∧
      |v - Spec.reachedAt (pairOf q) (G.law.at_ x)| ≤ ε := by
  obtain ⟨-, -, -, -, -, -, -, -, hmu, hsp, hf, hgg, -⟩ := hG
  obtain ⟨l1, l2⟩ := law_at hm hf hgg hx
  have hp : 0 < (pairOf q).2 := logPair_pos hq.1 hq.2
  have hmd : made q = ⟨.fin (pairOf q).1, .fin (pairOf q).2⟩ := by
    obtain ⟨mu, sp, a, b⟩ := q
    exact made_eq hq.1
  have hat : g.read.edp.at (.fin x) = ⟨.fin (G.law.at_ x).1, .fin (G.law.at_ x).2⟩ := by
    simp only [Group.read, Rates.Edp.at, hmu, hsp]
    exact l1
  obtain ⟨v, e1, e2, e3⟩ := Rates.damage_state_probability gsl hg g.read x _ _ hat l2 (pairOf q).1 (pairOf q).2 hp maq ε
    (hI.integrates (by
      intro y hy
      unfold Rates.stateIntegrand
      rw [if_neg (Rates.nz hy), Rates.derivative_eq hg hat l2 hy, LogNormalDist.pAtMost_pos _ hp hy, Dbl.fin_mul,
        density_eq]
      rfl))
  refine ⟨v, by rw [hmd]; exact e1, ?_⟩
  rw [e3] at e2
  exact e2

/-- The expected cost and delay. -/
theorem mean_found {maq : Rates.Maq} {gsl : Rates.Gsl} {ε : ℝ} {g : Group} {G : Spec.Components} {x : ℝ}
    (hg : Rates.Differentiates gsl) (hG : g.Is G) (hm : G.law.Meant) (hx : 0 < x) (hn : 0 < G.count)
    (hon : ∀ q ∈ G.onsets, Spec.Meant q.1 q.2.1 q.2.2.1 q.2.2.2 ∧ 0 < q.2.2.2)
    (hcr : ∀ y, 0 < y → (Spec.reached G.onsets y).Pairwise (fun a b => b ≤ a)) :
    (Spec.Fits G G.cost → G.cost.Meant → 0 ≤ G.costFactor →
      (Spec.Answers maq ε fun y => Spec.expected G G.cost G.costFactor y * Spec.density (G.law.at_ x) y) →
      ∃ v, ((integrated maq gsl).group g).eCostIm (.fin x) = .fin v ∧
        |v - ∫ y in Ioi (0 : ℝ), Spec.expected G G.cost G.costFactor y * Spec.density (G.law.at_ x) y| ≤ ε) ∧
    ∀ L : Spec.Losses, G.delay = some L → Spec.Fits G L → L.Meant → 0 ≤ G.delayFactor →
      (Spec.Answers maq ε fun y => Spec.expected G L G.delayFactor y * Spec.density (G.law.at_ x) y) →
      ∃ v, ((integrated maq gsl).group g).eDelayIm (.fin x) = .fin v ∧
        |v - ∫ y in Ioi (0 : ℝ), Spec.expected G L G.delayFactor y * Spec.density (G.law.at_ x) y| ≤ ε := by
  have hG' := hG
  obtain ⟨-, gc, gd, gn, ga, gb, -, -, hmu, hsp, hf, hgg, -⟩ := hG
  obtain ⟨l1, l2⟩ := law_at hm hf hgg hx
  have hat : g.read.edp.at (.fin x) = ⟨.fin (G.law.at_ x).1, .fin (G.law.at_ x).2⟩ := by
    simp only [Group.read, Rates.Edp.at, hmu, hsp]
    exact l1
  have hcount : 0 < g.read.count := by
    simp only [Group.read, gn]
    exact_mod_cast hn
  refine ⟨?_, ?_⟩
  · intro hfit hme hfa hI
    obtain ⟨v, e1, e2⟩ := hI.answer (Rates.costIntegrand gsl g.read (.fin x)) (by
      intro y hy
      unfold Rates.costIntegrand
      rw [if_neg (Rates.nz hy), Rates.guarded_derivative_eq hg hx hat l2 hy, density_eq]
      simp only [Group.read]
      rw [gc, ga, group_loss hG' hon hy (hcr y hy) hfit hme hfa, Dbl.fin_mul])
    refine ⟨v, ?_, e2⟩
    show Rates.eCostIM maq gsl g.read (.fin x) = _
    unfold Rates.eCostIM
    rw [if_pos hcount, e1]
    rfl
  · intro L hd hfit hme hfa hI
    obtain ⟨v, e1, e2⟩ := hI.answer (Rates.delayIntegrand gsl g.read (.fin x)) (by
      intro y hy
      unfold Rates.delayIntegrand
      rw [if_neg (Rates.nz hy), Rates.derivative_eq hg hat l2 hy, density_eq]
      simp only [Group.read]
      rw [gd, hd, gb, Option.map_some, Option.getD_some, group_loss hG' hon hy (hcr y hy) hfit hme hfa, Dbl.fin_mul])
    refine ⟨v, ?_, e2⟩
    show Rates.eDelayIM maq gsl g.read (.fin x) = _
    unfold Rates.eDelayIM
    rw [if_pos hcount, e1]
    rfl

theorem sdLnFrom_fin (s m : ℝ) : Rates.sdLnFrom (.fin s) (.fin m) = .fin (Spec.logSpread m (max s (m ^ 2))) := by
  unfold Rates.sdLnFrom Spec.logSpread
  by_cases hm : m = 0
  · simp [hm]
  have hm2 : m * m ≠ 0 := mul_ne_zero hm hm
  have hp : 0 < m * m := mul_self_pos.2 hm
  simp only [Dbl.zero_def, Dbl.fin_feq, hm, if_false, Dbl.fin_mul, Dbl.fin_sub]
  have key : ∀ t : ℝ, 0 ≤ t → Dbl.sqrt (Dbl.log (1 + Dbl.fin (t * t) / Dbl.fin (m * m))) =
      .fin (Real.sqrt (Real.log (1 + t * t / (m * m)))) := by
    intro t _
    have hq : 0 ≤ t * t / (m * m) := div_nonneg (mul_self_nonneg t) hp.le
    rw [Dbl.fin_div_of_ne hm2, Dbl.one_def, Dbl.fin_add, Dbl.log_pos (by linarith),
      Dbl.sqrt_fin (Real.log_nonneg (by linarith))]
  by_cases hs : m * m ≤ s
  · rw [Dbl.sqrt_fin (by linarith)]
    simp only [Dbl.isNaN_fin, if_false, Dbl.fin_mul]
    rw [key _ (Real.sqrt_nonneg _), Real.mul_self_sqrt (by linarith), max_eq_left (by rw [pow_two]; exact hs), pow_two]
    congr 3
    field_simp
    ring
  · have h : Dbl.sqrt (.fin (s - m * m)) = .nan := by
      simp only [Dbl.sqrt]
      rw [if_neg (by linarith)]
    have hnan : Dbl.isNaN .nan := trivial
    rw [h, if_pos hnan, Dbl.fin_mul, key 0 le_rfl, max_eq_right (by rw [pow_two]; linarith), pow_two, div_self hm2]
    simp

/-- The mean and the log-spread of the cost at an intensity. -/
theorem cost_found {maq : Rates.Maq} {gsl : Rates.Gsl} {ε : ℝ} {g : Group} {G : Spec.Components} {x : ℝ}
    (hg : Rates.Differentiates gsl) (hG : g.Is G) (hm : G.law.Meant) (hx : 0 < x) (hn : 0 < G.count)
    (hon : ∀ q ∈ G.onsets, Spec.Meant q.1 q.2.1 q.2.2.1 q.2.2.2 ∧ 0 < q.2.2.2)
    (hcr : ∀ y, 0 < y → (Spec.reached G.onsets y).Pairwise (fun a b => b ≤ a))
    (hfit : Spec.Fits G G.cost) (hme : G.cost.Meant) (hfa : 0 ≤ G.costFactor)
    (hI : Spec.Answers maq ε fun y => Spec.expected G G.cost G.costFactor y * Spec.density (G.law.at_ x) y)
    (hJ : Spec.Answers maq ε fun y => Spec.expectedSquare G G.cost G.costFactor y * Spec.density (G.law.at_ x) y) :
    ∃ m s, ((integrated maq gsl).group g).eCostIm (.fin x) = .fin m ∧
      ((integrated maq gsl).group g).sdLnCostIm (.fin x) = .fin (Spec.logSpread m (max s (m ^ 2))) ∧
      Spec.Finds maq (fun y => Spec.expected G G.cost G.costFactor y * Spec.density (G.law.at_ x) y) m ∧
      Spec.Finds maq (fun y => Spec.expectedSquare G G.cost G.costFactor y * Spec.density (G.law.at_ x) y) s := by
  have hG' := hG
  obtain ⟨-, gc, gd, gn, ga, gb, -, -, hmu, hsp, hf, hgg, -⟩ := hG
  obtain ⟨l1, l2⟩ := law_at hm hf hgg hx
  have hat : g.read.edp.at (.fin x) = ⟨.fin (G.law.at_ x).1, .fin (G.law.at_ x).2⟩ := by
    simp only [Group.read, Rates.Edp.at, hmu, hsp]
    exact l1
  have hcount : 0 < g.read.count := by
    simp only [Group.read, gn]
    exact_mod_cast hn
  have k1 : ∀ y, 0 < y → Rates.costIntegrand gsl g.read (.fin x) (.fin y) =
      .fin (Spec.expected G G.cost G.costFactor y * Spec.density (G.law.at_ x) y) := by
    intro y hy
    unfold Rates.costIntegrand
    rw [if_neg (Rates.nz hy), Rates.guarded_derivative_eq hg hx hat l2 hy, density_eq]
    simp only [Group.read]
    rw [gc, ga, group_loss hG' hon hy (hcr y hy) hfit hme hfa, Dbl.fin_mul]
  have k2 : ∀ y, 0 < y → Rates.costSquareIntegrand gsl g.read (.fin x) (.fin y) =
      .fin (Spec.expectedSquare G G.cost G.costFactor y * Spec.density (G.law.at_ x) y) := by
    intro y hy
    obtain ⟨e1, -, s, e2, e3⟩ := group_moments hG' hon hy (hcr y hy) hfit hme hfa
    unfold Rates.costSquareIntegrand
    rw [if_neg (Rates.nz hy), Rates.derivative_eq hg hat l2 hy, density_eq]
    simp only [Group.read]
    rw [gc, ga, e1, e2, Dbl.fin_mul, Dbl.fin_mul, Dbl.fin_add, Dbl.fin_mul, ← e3, pow_two, pow_two]
  obtain ⟨m, e1, -⟩ := hI.answer _ k1
  obtain ⟨s, e3, -⟩ := hJ.answer _ k2
  have hE : Rates.eCostIM maq gsl g.read (.fin x) = .fin m := by
    unfold Rates.eCostIM
    rw [if_pos hcount, e1]
    rfl
  refine ⟨m, s, hE, ?_, ⟨_, k1, e1⟩, ⟨_, k2, e3⟩⟩
  show Rates.sdLnCostIM maq gsl g.read (.fin x) = _
  unfold Rates.sdLnCostIM
  rw [if_pos hcount, e3, hE]
  simp only [if_true]
  exact sdLnFrom_fin s m

/-- The mean and, of a single component, the log-spread of the delay at an intensity. -/
theorem delay_found {maq : Rates.Maq} {gsl : Rates.Gsl} {ε : ℝ} {g : Group} {G : Spec.Components} {L : Spec.Losses} {x : ℝ}
    (hg : Rates.Differentiates gsl) (hG : g.Is G) (hm : G.law.Meant) (hx : 0 < x) (hn : G.count = 1)
    (hon : ∀ q ∈ G.onsets, Spec.Meant q.1 q.2.1 q.2.2.1 q.2.2.2 ∧ 0 < q.2.2.2)
    (hcr : ∀ y, 0 < y → (Spec.reached G.onsets y).Pairwise (fun a b => b ≤ a)) (hL : G.delay = some L)
    (hfit : Spec.Fits G L) (hme : L.Meant) (hfa : 0 ≤ G.delayFactor)
    (hI : Spec.Answers maq ε fun y => Spec.expected G L G.delayFactor y * Spec.density (G.law.at_ x) y)
    (hJ : Spec.Answers maq ε fun y => Spec.expectedSquare G L G.delayFactor y * Spec.density (G.law.at_ x) y) :
    ∃ m s, ((integrated maq gsl).group g).eDelayIm (.fin x) = .fin m ∧
      ((integrated maq gsl).group g).sdLnDelayIm (.fin x) = .fin (Spec.logSpread m (max s (m ^ 2))) ∧
      Spec.Finds maq (fun y => Spec.expected G L G.delayFactor y * Spec.density (G.law.at_ x) y) m ∧
      Spec.Finds maq (fun y => Spec.expectedSquare G L G.delayFactor y * Spec.density (G.law.at_ x) y) s := by
  have hG' := hG
  obtain ⟨-, gc, gd, gn, ga, gb, -, -, hmu, hsp, hf, hgg, -⟩ := hG
  obtain ⟨l1, l2⟩ := law_at hm hf hgg hx
  have hat : g.read.edp.at (.fin x) = ⟨.fin (G.law.at_ x).1, .fin (G.law.at_ x).2⟩ := by
    simp only [Group.read, Rates.Edp.at, hmu, hsp]
    exact l1
  have hone : g.read.count = 1 := by
    simp only [Group.read, gn, hn]
    rfl
  have hcount : 0 < g.read.count := by rw [hone]; norm_num
  have hdel : g.read.delay = g.loss (lossMade L) G.delayFactor := by
    simp only [Group.read]
    rw [gd, hL, gb, Option.map_some, Option.getD_some]
  have k1 : ∀ y, 0 < y → Rates.delayIntegrand gsl g.read (.fin x) (.fin y) =
      .fin (Spec.expected G L G.delayFactor y * Spec.density (G.law.at_ x) y) := by
    intro y hy
    unfold Rates.delayIntegrand
    rw [if_neg (Rates.nz hy), Rates.derivative_eq hg hat l2 hy, density_eq, hdel,
      group_loss hG' hon hy (hcr y hy) hfit hme hfa, Dbl.fin_mul]
  have k2 : ∀ y, 0 < y → Rates.delaySquareIntegrand gsl g.read (.fin x) (.fin y) =
      .fin (Spec.expectedSquare G L G.delayFactor y * Spec.density (G.law.at_ x) y) := by
    intro y hy
    obtain ⟨e1, -, s, e2, e3⟩ := group_moments hG' hon hy (hcr y hy) hfit hme hfa
    unfold Rates.delaySquareIntegrand
    rw [if_neg (Rates.nz hy), Rates.derivative_eq hg hat l2 hy, density_eq, hdel, hone]
    simp only [Int.cast_one]
    rw [e1, e2, Dbl.fin_div_of_ne one_ne_zero, div_one, Dbl.fin_mul, Dbl.fin_mul, Dbl.fin_add, Dbl.fin_mul, ← e3, pow_two,
      pow_two]
  obtain ⟨m, e1, -⟩ := hI.answer _ k1
  obtain ⟨s, e3, -⟩ := hJ.answer _ k2
  have hE : Rates.eDelayIM maq gsl g.read (.fin x) = .fin m := by
    unfold Rates.eDelayIM
    rw [if_pos hcount, e1]
    rfl
  refine ⟨m, s, hE, ?_, ⟨_, k1, e1⟩, ⟨_, k2, e3⟩⟩
  show Rates.sdLnDelayIM maq gsl g.read (.fin x) = _
  unfold Rates.sdLnDelayIM
  rw [if_pos hcount]
  simp only [e3, hE, hone, if_true, Int.cast_one]
  rw [Dbl.fin_div_of_ne one_ne_zero, div_one]
  exact sdLnFrom_fin s m

theorem Spec.Finds.near {maq : Rates.Maq} {ε : ℝ} {φ : ℝ → ℝ} {v : ℝ} (h : Spec.Finds maq φ v)
    (hI : Spec.Answers maq ε φ) : |v - ∫ x in Ioi (0 : ℝ), φ x| ≤ ε := by
  obtain ⟨f, h1, h2⟩ := h
  obtain ⟨w, h3, h4⟩ := hI.answer f h1
  rw [h2] at h3
  cases h3
  exact h4

/-- Integrals of integrals. -/
theorem Spec.Nested.near {maq : Rates.Maq} {ε ε' : ℝ} {φ : ℝ → ℝ → ℝ} {w : ℝ → ℝ} (h : Spec.Nested maq ε ε' φ w)
    {c : ℝ → ℝ} (hc : ∀ x, 0 < x → Spec.Finds maq (φ x) (c x)) {f : Dbl → Dbl}
    (hf : ∀ x, 0 < x → f (.fin x) = .fin (c x * w x)) :
    ∃ v, maq f = (true, .fin v) ∧ |v - ∫ x in Ioi (0 : ℝ), (∫ y in Ioi (0 : ℝ), φ x y) * w x| ≤
      ε' + ε * ∫ x in Ioi (0 : ℝ), |w x| := by
  have hA := h.outer c hc
  obtain ⟨v, e1, e2⟩ := hA.answer f hf
  refine ⟨v, e1, ?_⟩
  have hd : |(∫ x in Ioi (0 : ℝ), c x * w x) - ∫ x in Ioi (0 : ℝ), (∫ y in Ioi (0 : ℝ), φ x y) * w x| ≤
      ε * ∫ x in Ioi (0 : ℝ), |w x| := by
    rw [← integral_sub hA.integrable h.whole, ← integral_const_mul]
    refine (abs_integral_le_integral_abs).trans ?_
    refine setIntegral_mono_on (hA.integrable.sub h.whole).abs (h.weight.abs.const_mul ε) measurableSet_Ioi fun x hx => ?_
    rw [← sub_mul, abs_mul]
    exact mul_le_mul_of_nonneg_right ((hc x hx).near (h.inner x hx)) (abs_nonneg _)
  rw [abs_le] at *
  constructor <;> linarith [hd.1, hd.2, e2.1, e2.2]

theorem reachedAt_integral {q m : ℝ × ℝ} (hq : 0 < q.2) (hm : 0 < m.2) :
    ∫ y in Ioi (0 : ℝ), Spec.below q y * Spec.density m y = Spec.reachedAt q m := by
  have h : ∫ y in Ioi (0 : ℝ), Spec.below q y * Spec.density m y =
      ∫ y in Ioi (0 : ℝ), (LN q.1 q.2).real (Iic y) * dens m.1 m.2 y := by
    refine setIntegral_congr_fun measurableSet_Ioi fun y hy => ?_
    have h1 := (LogNormalDist.p_at_most_is_cdf q.1 hq (le_of_lt hy)).1
    rw [LogNormalDist.pAtMost_pos _ hq hy, Dbl.fin_inj] at h1
    rw [density_eq, ← h1]
    rfl
  rw [h, integral_dens hm, ← below_eq_integral, below_closed _ hq]
  rfl

/-- The rate of a damage state. -/
theorem stateRate_found {maq : Rates.Maq} {gsl : Rates.Gsl} {ε ε' : ℝ} {g : Group} {G : Spec.Components} {h h' : ℝ → ℝ}
    {q : Mu × Sd × ℝ × ℝ} (hg : Rates.Differentiates gsl) (hG : g.Is G) (hm : G.law.Meant)
    (hq : Spec.Meant q.1 q.2.1 q.2.2.1 q.2.2.2 ∧ 0 < q.2.2.2) (ha : Agree g.curve h)
    (hd : ∀ x, 0 < x → HasDerivAt h (h' x) x)
    (hI : Spec.Nested maq ε ε' (fun x y => Spec.below (pairOf q) y * Spec.density (G.law.at_ x) y) fun x => |h' x|) :
    ∃ v, ((integrated maq gsl).group g).rate (made q) = .fin v ∧
      |v - ∫ x in Ioi (0 : ℝ), Spec.stateRate (pairOf q) G.law h' x| ≤
        ε' + ε * ∫ x in Ioi (0 : ℝ), |h' x| := by
  obtain ⟨-, -, -, -, -, -, -, -, hmu, hsp, hf, hgg, -⟩ := hG
  have hp : 0 < (pairOf q).2 := logPair_pos hq.1 hq.2
  have hmd : made q = ⟨.fin (pairOf q).1, .fin (pairOf q).2⟩ := by
    obtain ⟨mu, sp, a, b⟩ := q
    exact made_eq hq.1
  have k1 : ∀ x, 0 < x → ∀ y, 0 < y → Rates.stateIntegrand gsl g.read (made q) (.fin x) (.fin y) =
      .fin (Spec.below (pairOf q) y * Spec.density (G.law.at_ x) y) := by
    intro x hx y hy
    obtain ⟨l1, l2⟩ := law_at hm hf hgg hx
    have hat : g.read.edp.at (.fin x) = ⟨.fin (G.law.at_ x).1, .fin (G.law.at_ x).2⟩ := by
      simp only [Group.read, Rates.Edp.at, hmu, hsp]
      exact l1
    unfold Rates.stateIntegrand
    rw [if_neg (Rates.nz hy), Rates.derivative_eq hg hat l2 hy, hmd, LogNormalDist.pAtMost_pos _ hp hy, Dbl.fin_mul,
      density_eq]
    rfl
  have k2 : ∀ x, 0 < x → ∃ c, Rates.pDSIMcalc maq gsl g.read (made q) (.fin x) = .fin c ∧
      Spec.Finds maq (fun y => Spec.below (pairOf q) y * Spec.density (G.law.at_ x) y) c := by
    intro x hx
    obtain ⟨c, e1, -⟩ := (hI.inner x hx).answer _ (k1 x hx)
    exact ⟨c, by unfold Rates.pDSIMcalc; rw [e1]; rfl, _, k1 x hx, e1⟩
  obtain ⟨v, e1, e2⟩ := hI.near (c := fun x => Rates.val (Rates.pDSIMcalc maq gsl g.read (made q) (.fin x))) (by
      intro x hx
      obtain ⟨c, e1, e2⟩ := k2 x hx
      rw [e1]
      exact e2) (f := Rates.rateIntegrand maq gsl g.read (gsl.deriv g.curve) (made q)) (by
      intro x hx
      obtain ⟨c, e1, e2⟩ := k2 x hx
      unfold Rates.rateIntegrand
      rw [if_neg (Rates.nz hx), slope hg ha hd hx, e1, Dbl.fin_mul]
      rfl)
  refine ⟨v, ?_, ?_⟩
  · show Rates.orNaN _ = _
    rw [e1]
    rfl
  · have : ∫ x in Ioi (0 : ℝ), Spec.stateRate (pairOf q) G.law h' x =
        ∫ x in Ioi (0 : ℝ), (∫ y in Ioi (0 : ℝ), Spec.below (pairOf q) y * Spec.density (G.law.at_ x) y) * |h' x| := by
      refine setIntegral_congr_fun measurableSet_Ioi fun x hx => ?_
      beta_reduce
      rw [Spec.stateRate, reachedAt_integral hp (law_at hm hf hgg hx).2]
    rw [this]
    simpa only [abs_abs] using e2

theorem logSpread_pos {m s : ℝ} (hm : 0 < m) (hs : m ^ 2 < s) : 0 < Spec.logSpread m s := by
  rw [Spec.logSpread, if_neg hm.ne']
  exact Real.sqrt_pos.2 (Real.log_pos ((one_lt_div (by positivity)).2 hs))

/-- The distribution that the code makes of a mean and a log-spread is more than `z` with the probability meant. -/
theorem pAtLeast_exceeds {m s z : ℝ} (hz : 0 < z) (hm : 0 ≤ m) (hv : s ≤ m ^ 2 → m ≠ z) :
    (LogNormalDist.ofMeanSigmaLn (.fin m) (.fin (Spec.logSpread m (max s (m ^ 2))))).pAtLeast (.fin z) =
      .fin (Spec.exceeds m s z) := by
  rcases hm.eq_or_lt with rfl | h1
  · rw [Spec.exceeds, if_pos rfl]
    exact (LogNormalDist.zero_mean_never_exceeds (by simp [Spec.logSpread]) hz).1
  rw [Spec.exceeds, if_neg h1.ne']
  by_cases h2 : s ≤ m ^ 2
  · have e : Spec.logSpread m (max s (m ^ 2)) = 0 := by
      rw [max_eq_right h2, Spec.logSpread, if_neg h1.ne', div_self (by positivity), Real.log_one, Real.sqrt_zero]
    rw [e, if_pos h2]
    simp only [LogNormalDist.ofMeanSigmaLn, LogNormalDist.muFromMeanSigmaLn, Dbl.log_pos h1, Dbl.fin_mul,
      Dbl.fin_div_two, Dbl.fin_sub, mul_zero, zero_div, sub_zero]
    obtain ⟨-, -, k1, k2⟩ := LogNormalDist.zero_spread_at_value_fails (Real.log m)
    rw [Real.exp_log h1] at k1 k2
    rcases (hv h2).lt_or_gt with h | h
    · rw [(k2 z h).2, if_neg h.not_gt]
    · rw [(k1 z hz h).2, if_pos h]
  · rw [if_neg h2]
    rw [not_le] at h2
    rw [max_eq_left h2.le]
    simp only [LogNormalDist.ofMeanSigmaLn, LogNormalDist.muFromMeanSigmaLn, Dbl.log_pos h1, Dbl.fin_mul,
      Dbl.fin_div_two, Dbl.fin_sub]
    rw [LogNormalDist.pAtLeast_pos _ (logSpread_pos h1 h2) hz]
    simp only [Spec.below, pow_two]

/-- The rate at which a cost is exceeded. -/
theorem costRate_found {maq : Rates.Maq} {gsl : Rates.Gsl} {ε' : ℝ} {g : Group} {G : Spec.Components} {h h' : ℝ → ℝ}
    {z : ℝ} {m s : ℝ → ℝ} (hz : 0 < z)
    (hg : Rates.Differentiates gsl) (hG : g.Is G) (hn : 0 < G.count) (ha : Agree g.curve h)
    (hd : ∀ x, 0 < x → HasDerivAt h (h' x) x)
    (hm : ∀ x, 0 < x → ((integrated maq gsl).group g).eCostIm (.fin x) = .fin (m x))
    (hs : ∀ x, 0 < x → ((integrated maq gsl).group g).sdLnCostIm (.fin x) =
      .fin (Spec.logSpread (m x) (max (s x) (m x ^ 2))))
    (hv : ∀ x, 0 < x → 0 ≤ m x ∧ (s x ≤ m x ^ 2 → m x ≠ z))
    (hI : Spec.Answers maq ε' (Spec.costRate m s h' z)) :
    ∃ v, ((integrated maq gsl).group g).lambdaCost (.fin z) = .fin v ∧
      |v - ∫ x in Ioi (0 : ℝ), Spec.costRate m s h' z x| ≤ ε' := by
  obtain ⟨-, -, -, gn, -⟩ := hG
  have hcount : 0 < g.read.count := by
    simp only [Group.read, gn]
    exact_mod_cast hn
  obtain ⟨v, e1, e2⟩ := hI.answer (fun im => (LogNormalDist.ofMeanSigmaLn (Rates.eCostIM maq gsl g.read im)
      (Rates.sdLnCostIM maq gsl g.read im)).pAtLeast (.fin z) * Dbl.abs (gsl.deriv g.curve im)) (by
    intro x hx
    obtain ⟨h1, h2⟩ := hv x hx
    have a1 : Rates.eCostIM maq gsl g.read (.fin x) = .fin (m x) := hm x hx
    have a2 : Rates.sdLnCostIM maq gsl g.read (.fin x) = .fin (Spec.logSpread (m x) (max (s x) (m x ^ 2))) := hs x hx
    rw [slope hg ha hd hx, a1, a2, pAtLeast_exceeds hz h1 h2, Dbl.fin_mul]
    rfl)
  refine ⟨v, ?_, e2⟩
  show Rates.lambdaCost maq gsl g.read (gsl.deriv g.curve) (.fin z) = _
  unfold Rates.lambdaCost
  rw [if_pos hcount, e1]
  rfl

end

end Slat.Session
