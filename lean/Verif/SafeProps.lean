import Verif.SafeLemmas

/-!
# C82: every query on a complete model returns

What a model must have for a query to be answered is stated on its parts, without the calculations: the pairs of
meanings of a probabilistic function, the number of distributions of a loss function and of damage states, the
ranges of `int`, the presence of an intensity measure.  The theorems hold for every integration and differentiation
routine, all functions, distributions, counts and arguments.
-/

namespace Slat.Safe

open Slat Dbl Classical

/-! ## Loss functions -/

/-- A loss function answers exactly if it fits the number of probabilities. -/
theorem loss_returns_iff (l : Loss) (ps : List Dbl) (count : ℤ) (adj : Dbl) :
    Returns (l.calculate ps count adj) ↔ l.Fits ps.length count :=
  loss_returns l ps count adj

example : Returns ((Loss.simple [LogNormalDist.unset, LogNormalDist.unset]).calculate [0, 1] 3 1) ∧
    ¬ Returns ((Loss.simple [LogNormalDist.unset]).calculate [0, 1] 3 1) := by
  rw [loss_returns_iff, loss_returns_iff]
  simp [Loss.Fits]

/-! ## Intensity measures -/

/-- An intensity measure that was made answers everything. -/
theorem im_returns (E : Env) (m : Im) (x : Dbl) :
    Returns (m.lambda x) ∧ Returns (m.derivativeAt E x) ∧ Returns (m.collapseRate E) ∧
      Returns (m.demolitionRate E) := by
  refine ⟨returns_ok _, im_derivative_returns E m x, ?_, ?_⟩
  · unfold Im.collapseRate
    cases m.fates.collapse with
    | none => exact returns_ok _
    | some d =>
      simp only [returns_bind_pure]
      exact run_returns _ _ fun x => (returns_bind_pure _ _).2 (im_derivative_returns E m x)
  · unfold Im.demolitionRate
    cases m.fates.demolition with
    | none => exact returns_ok _
    | some d =>
      simp only [returns_bind_pure]
      exact run_returns _ _ fun x => (returns_bind_pure _ _).2 (im_derivative_returns E m x)

/-- Surroundings in order: an integration that looks at 1 and answers with the value there, differences that look at
the point. -/
def sampleEnv : Env :=
  ⟨.ask 1 fun y => .done (true, y), fun x => .ask x fun y => .done y, fun x => .ask x fun y => .done y, 4⟩

theorem sampleEnv_works : sampleEnv.Works :=
  ⟨le_refl _, Or.inl (by simp [Dbl.one_def, Dbl.zero_def]), fun _ => trivial, fun _ => trivial⟩

/-- An intensity measure with a possibility of collapse. -/
noncomputable def sampleIm : Im := ⟨0, fun _ => 1, ⟨some (LogNormalDist.ofMuSigmaLn 0 1), none⟩⟩

example : Returns (sampleIm.collapseRate sampleEnv) := (im_returns sampleEnv sampleIm 0).2.2.1

/-! ## EDPs -/

/-- An EDP answers a query exactly if its functions are sound; otherwise no query on it ever returns. -/
theorem edp_returns_iff (E : Env) (hE : E.Works) (e : Edp) (he : e.Made) (q : EdpQuery) :
    Returns (e.ask E q) ↔ e.Sound := by
  cases q with
  | get f x => simp only [Edp.ask, returns_map, Edp.get, returns_bind_pure, edp_dist_returns E hE e he]
  | pExceedence x y => simp only [Edp.ask, returns_map, edp_pExceedence_returns E hE e he]
  | xAtExceedence x p =>
    simp only [Edp.ask, returns_map, Edp.xAtExceedence, returns_bind_pure, edp_dist_returns E hE e he]
  | lambda y => simp only [Edp.ask, returns_map, edp_lambda_returns E hE e he]
  | derivativeAt y =>
    simp only [Edp.ask, returns_map, Edp.derivativeAt]
    exact run_returns_iff _ (hE.forward y) _ _ fun x => edp_lambda_returns E hE e he x

/-- An EDP given by its median and the standard deviation of the logarithm. -/
noncomputable def sampleEdp : Edp := ⟨sampleIm, ⟨fun x => x, fun _ => 1, .medianX, .sigmaLnX⟩, none⟩

theorem sampleEdp_made : sampleEdp.Made := ⟨⟨by simp [sampleEdp], by simp [sampleEdp]⟩, by simp [sampleEdp]⟩
theorem sampleEdp_sound : sampleEdp.Sound := ⟨Or.inl rfl, by simp [sampleEdp]⟩

example : Returns (sampleEdp.ask sampleEnv (.lambda 1)) :=
  (edp_returns_iff sampleEnv sampleEnv_works sampleEdp sampleEdp_made _).2 sampleEdp_sound

/-! ## Component groups -/

/-- A query on a component group returns exactly if what it needs is there. -/
theorem group_returns_iff (E : Env) (hE : E.Works) (g : Group) (hg : g.edp.Made) (q : GroupQuery) :
    Returns (g.ask E q) ↔ g.Needs q := by
  have hc : ∀ x, Returns (g.costEdp x) ↔ g.CostFits := fun x => group_loss_returns g g.cost g.costAdj x
  have hd : ∀ x, Returns (g.delayEdp x) ↔ g.DelayFits := fun x => group_loss_returns g g.delay g.delayAdj x
  have hm : ∀ x, Returns (g.eCostIm E x) ↔ (0 < g.count → g.edp.Sound ∧ g.CostFits) :=
    fun x => group_mean_returns E hE g hg _ _ hc x
  have hs : ∀ x, Returns (g.sdCostIm E x) ↔ (0 < g.count → g.edp.Sound ∧ g.CostFits) :=
    fun x => group_sd_returns E hE g hg _ _ hc 1 x
  cases q with
  | costEdp x => simp only [Group.ask, Group.Needs, returns_map, hc]
  | delayEdp x => simp only [Group.ask, Group.Needs, returns_map, hd]
  | eCostIm x => simp only [Group.ask, Group.Needs, returns_map, hm]
  | sdCostIm x => simp only [Group.ask, Group.Needs, returns_map, hs]
  | eDelayIm x =>
    simp only [Group.ask, Group.Needs, returns_map, Group.eDelayIm]
    exact group_mean_returns E hE g hg _ _ hd x
  | sdDelayIm x =>
    simp only [Group.ask, Group.Needs, returns_map, Group.sdDelayIm]
    exact group_sd_returns E hE g hg _ _ hd _ x
  | costDistIm x => simp only [Group.ask, Group.Needs, returns_map, group_costDist_returns E hE g hg]
  | annualCost =>
    simp only [Group.ask, Group.Needs, returns_map, Group.annualCost]
    by_cases hcount : 0 < g.count
    · rw [if_pos hcount, returns_bind_pure]
      refine run_returns_iff _ hE.maq.asks _ _ fun x => ?_
      rw [returns_bind_const _ _ True fun a => by
        rw [returns_bind_pure]; simp only [iff_true]; exact im_derivative_returns E _ x, hm, and_true]
    · simp [hcount]
  | lambdaCost c =>
    simp only [Group.ask, Group.Needs, returns_map, Group.lambdaCost]
    by_cases hcount : 0 < g.count
    · rw [if_pos hcount, returns_bind_pure]
      refine run_returns_iff _ hE.maq.asks _ _ fun x => ?_
      rw [returns_bind_const _ _ (0 < g.count → g.edp.Sound ∧ g.CostFits) fun a => by
        rw [returns_bind_const _ _ True fun b => by
          rw [returns_bind_pure]; simp only [iff_true]; exact im_derivative_returns E _ x, hs, and_true],
        hm, and_self]
    · simp [hcount]
  | pDs x =>
    simp only [Group.ask, Group.Needs, returns_map, Group.pDs, mapM_returns, group_pDsOne_returns E hE g hg]
    exact forall_mem_const _ _
  | rate =>
    simp only [Group.ask, Group.Needs, returns_map, Group.rate, mapM_returns]
    rw [← forall_mem_const]
    refine forall₂_congr fun d _ => ?_
    rw [returns_bind_pure]
    refine run_skip_iff _ hE.maq _ _ fun x => ?_
    rw [returns_ite]
    by_cases hx : x = 0
    · simp [hx]
    · simp only [hx, false_and, not_false_eq_true, true_and, false_or]
      rw [returns_bind_const _ _ g.edp.Sound fun s => by rw [returns_bind_pure, group_pDsOne_returns E hE g hg]]
      exact and_iff_right (im_derivative_returns E g.edp.im x)

/-- Two damage states, one cost distribution for each, no delay function. -/
noncomputable def sampleGroup : Group :=
  ⟨7, sampleEdp, [LogNormalDist.ofMuSigmaLn 0 1, LogNormalDist.ofMuSigmaLn 1 1],
    some (.simple [LogNormalDist.ofMuSigmaLn 0 1, LogNormalDist.ofMuSigmaLn 1 1]), none, 3, 1, 1⟩

theorem sampleGroup_fits : sampleGroup.CostFits := by simp [Group.CostFits, sampleGroup, Loss.Fits]

example : Returns (sampleGroup.ask sampleEnv (.lambdaCost (.fin 5))) :=
  (group_returns_iff sampleEnv sampleEnv_works sampleGroup sampleEdp_made _).2
    fun _ => ⟨sampleEdp_sound, sampleGroup_fits⟩

/-- Printing a component group works exactly if it has both loss functions. -/
theorem print_returns_iff (g : Group) : Returns g.print ↔ g.cost ≠ none ∧ g.delay ≠ none := by
  unfold Group.print
  cases g.cost <;> cases g.delay <;> simp

/-- Hence a component group without a delay function, which all calculations accept, cannot be printed. -/
theorem print_fails : (∀ q, Returns (sampleGroup.ask sampleEnv q)) ∧ sampleGroup.print = .error .null := by
  constructor
  · intro q
    rw [group_returns_iff sampleEnv sampleEnv_works sampleGroup sampleEdp_made]
    have hd : sampleGroup.DelayFits := by simp [Group.DelayFits, sampleGroup]
    cases q <;> simp only [Group.Needs]
    all_goals first
      | exact sampleGroup_fits
      | exact hd
      | exact fun _ => ⟨sampleEdp_sound, sampleGroup_fits⟩
      | exact fun _ => ⟨sampleEdp_sound, hd⟩
      | exact fun _ => sampleEdp_sound
  · rfl

/-! ## Structures -/

/-- A query on a structure returns exactly if what it needs is there. -/
theorem building_returns_iff (E : Env) (hE : E.Works) (s : Building) (hs : ∀ g ∈ s.comps, g.edp.Made) (q : Query) :
    Returns (s.ask E q) ↔ s.Needs q := by
  have ht := building_total_returns E hE s hs
  have hdist := building_dists_returns E hE s hs
  have hannual : Returns (s.annualCost E) ↔ (s.comps ≠ [] → s.Ready ∧ s.im ≠ none) := by
    unfold Building.annualCost
    by_cases hc : s.comps = []
    · simp [hc]
    · have hlen : 0 < s.comps.length := List.length_pos_iff.2 hc
      simp only [hlen, if_true, ne_eq, hc, not_false_eq_true, true_implies]
      rw [returns_bind_const _ _ (s.Ready ∧ s.im ≠ none)]
      · rw [run_returns_iff _ hE.maq.asks _ (s.Ready ∧ s.im ≠ none)]
        · simp
        · intro x
          rw [returns_bind_const _ _ (s.im ≠ none) fun t => by
            rw [returns_bind_pure, building_derivative_returns], ht]
          tauto
      · intro r
        rw [returns_bind_pure, run_returns_iff _ hE.maq.asks _ (s.Ready ∧ s.im ≠ none)]
        intro x
        rw [returns_bind_const _ _ (s.Ready ∧ s.im ≠ none) fun t => by
          rw [returns_bind_const _ _ (s.im ≠ none) fun t => by
            rw [returns_bind_pure, building_derivative_returns], ht]
          tauto, ht, and_self]
  cases q with
  | cost x c =>
    simp only [Building.ask, Building.Needs, returns_map, Building.cost]
    rw [returns_bind_const _ _ True]
    · unfold Building.costNC
      rw [returns_bind_pure, hdist, and_true]
    · intro nc
      cases c with
      | false => simp
      | true =>
        cases h : s.im with
        | none => simp
        | some m => simp [LogNormalDist.addWeighted]
  | totalCost x => simp only [Building.ask, Building.Needs, returns_map, ht]
  | deaggregated x =>
    simp only [Building.ask, Building.Needs, returns_map, Building.deaggregated]
    rw [returns_bind_const _ _ (s.im ≠ none), hdist]
    intro ds
    cases h : s.im with
    | none => simp [Building.known, StructCosts.deaggregated, h]
    | some m => simp [Building.known, StructCosts.deaggregated, h]
  | costsByFate x =>
    simp only [Building.ask, Building.Needs, returns_map, Building.costsByFate]
    cases h : s.im with
    | none => simp
    | some m =>
      simp only [returns_bind_pure, hdist, ne_eq, reduceCtorEq, not_false_eq_true, true_implies]
  | pdf x =>
    simp only [Building.ask, Building.Needs, returns_map, Building.pdf]
    rw [returns_bind_const _ _ (s.im ≠ none) fun t => by rw [returns_bind_pure, building_derivative_returns], ht]
    tauto
  | annualCost => simp only [Building.ask, Building.Needs, returns_map, hannual]
  | eCost y r =>
    simp only [Building.ask, Building.Needs, returns_map, Building.eCost, returns_bind_pure, hannual]

/-- A structure without component groups answers the costs, the costs by fate and the annual cost, but the total cost,
the separated costs and the density use a null pointer. -/
theorem empty_fails (x : Dbl) :
    (∀ c, Returns (Building.init.ask sampleEnv (.cost x c))) ∧ Returns (Building.init.ask sampleEnv .annualCost) ∧
      Returns (Building.init.ask sampleEnv (.costsByFate x)) ∧
      Building.init.ask sampleEnv (.totalCost x) = .error .null ∧
      Building.init.ask sampleEnv (.deaggregated x) = .error .null ∧
      Building.init.ask sampleEnv (.pdf x) = .error .null := by
  have h : ∀ q, Returns (Building.init.ask sampleEnv q) ↔ Building.init.Needs q :=
    building_returns_iff sampleEnv sampleEnv_works Building.init (by simp [Building.init])
  refine ⟨fun c => (h _).2 (by simp [Building.Needs, Building.Ready, Building.init]),
    (h _).2 (by simp [Building.Needs, Building.init]), (h _).2 (by simp [Building.Needs, Building.init]), rfl, rfl, rfl⟩

/-! ## Sessions -/

/-- After any sequence of additions and removals of complete component groups with one intensity measure, every
operation has returned, and a query returns unless it is one of the three that use the intensity measure without
looking and no group was ever added.  Removing all groups again does no harm. -/
theorem session_returns_iff (E : Env) (hE : E.Works) (id : ℕ) (ops : List Op) (h : AllComplete id ops) (q : Query) :
    (Building.init.steps ops).2 = .ok () ∧
      (Returns ((Building.init.steps ops).1.ask E q) ↔ (q.Bare → SomeAdded ops)) := by
  obtain ⟨h1, h2, h3, h4⟩ := steps_complete id ops Building.init h (by simp [Building.init])
    (by simp [Building.init]) (by simp [Building.init])
  refine ⟨h1, ?_⟩
  rw [building_returns_iff E hE _ fun g hg => (h2 g hg).1]
  have hr : (Building.init.steps ops).1.Ready := fun g hg _ => ⟨(h2 g hg).2.1, (h2 g hg).2.2.1⟩
  have him : (Building.init.steps ops).1.im ≠ none ↔ SomeAdded ops := by
    rw [h4]; simp [Building.init]
  cases q with
  | cost x c => simp only [Building.Needs, Query.Bare, hr, false_implies]
  | totalCost x => simp only [Building.Needs, Query.Bare, hr, true_and, true_implies, him]
  | deaggregated x => simp only [Building.Needs, Query.Bare, hr, true_and, true_implies, him]
  | pdf x => simp only [Building.Needs, Query.Bare, hr, true_and, true_implies, him]
  | costsByFate x => simp only [Building.Needs, Query.Bare, hr, false_implies, implies_true]
  | annualCost =>
    simp only [Building.Needs, Query.Bare, hr, true_and, false_implies, iff_true]; exact h3
  | eCost y r =>
    simp only [Building.Needs, Query.Bare, hr, true_and, false_implies, iff_true]; exact h3

/-- A group added and removed again: the total cost is answered. -/
example : Returns ((Building.init.steps [.add sampleGroup, .remove 7]).1.ask sampleEnv (.totalCost 1)) := by
  have h : AllComplete 0 [.add sampleGroup, .remove 7] := by
    intro g hg
    have : g = sampleGroup := by simpa using hg
    subst this
    exact ⟨⟨sampleEdp_made, sampleEdp_sound, sampleGroup_fits, by simp [Group.DelayFits, sampleGroup]⟩, rfl⟩
  exact (session_returns_iff sampleEnv sampleEnv_works 0 _ h _).2.2 fun _ => ⟨sampleGroup, by simp⟩

/-! ## What goes wrong -/

/-- A cost function with fewer distributions than there are damage states is accepted everywhere when the model is
built; the first question about costs then ends the process, from a loss curve of the group as from the
structure's annual cost.  Only a group of no components is spared. -/
theorem mismatch_fails (ds : List LogNormalDist) (hne : ds.length ≠ 2) (count : ℤ) :
    (Building.init.steps [.add { sampleGroup with cost := some (.simple ds), count := count }]).2 = .ok () ∧
      ¬ Returns ({ sampleGroup with cost := some (.simple ds), count := count }.ask sampleEnv (.costEdp 1)) ∧
      (Returns ((Building.init.steps [.add { sampleGroup with cost := some (.simple ds), count := count }]).1.ask
        sampleEnv .annualCost) ↔ count ≤ 0) := by
  have hmade : ({ sampleGroup with cost := some (.simple ds), count := count } : Group).edp.Made := sampleEdp_made
  have hnot : ¬ ({ sampleGroup with cost := some (.simple ds), count := count } : Group).CostFits := by
    simpa [Group.CostFits, sampleGroup, Loss.Fits] using hne
  have hstep : Building.init.steps [.add { sampleGroup with cost := some (.simple ds), count := count }] =
      (⟨[{ sampleGroup with cost := some (.simple ds), count := count }], some sampleIm, LogNormalDist.unset,
        LogNormalDist.unset⟩, .ok ()) := by
    simp [Building.steps, Building.step, Building.add, Building.init, sampleGroup, sampleEdp]
  refine ⟨by rw [hstep], ?_, ?_⟩
  · rw [group_returns_iff sampleEnv sampleEnv_works _ hmade]
    exact hnot
  · rw [hstep, building_returns_iff sampleEnv sampleEnv_works _ (by
      intro g hg
      rw [List.mem_singleton.1 hg]
      exact hmade)]
    simp only [Building.Needs, Building.Ready, ne_eq, List.cons_ne_self, not_false_eq_true, true_implies,
      reduceCtorEq, and_true, List.mem_singleton, forall_eq]
    constructor
    · intro h
      by_contra hc
      exact hnot (h (not_le.1 hc)).2
    · intro h h'
      exact absurd h' (not_lt.2 h)

example : ¬ Returns ((Building.init.steps [.add { sampleGroup with cost := some (.simple []), count := 1 }]).1.ask
    sampleEnv .annualCost) := by
  rw [(mismatch_fails [] (by simp) 1).2.2]
  decide

/-- A probabilistic function given by median and plain standard deviation is accepted when the EDP, the group and the
structure are made; no query on the EDP ever returns. -/
theorem unsound_fails (E : Env) (hE : E.Works) (mu sigma : Dbl → Dbl) (q : EdpQuery) :
    (LogNormalFn.construct .medianX .sigmaX).isSome = true ∧
      ¬ Returns (Edp.ask E ⟨sampleIm, ⟨mu, sigma, .medianX, .sigmaX⟩, none⟩ q) := by
  refine ⟨rfl, ?_⟩
  rw [edp_returns_iff E hE _ ⟨⟨by simp, by simp⟩, by simp⟩]
  simp [Edp.Sound, ProbFn.Sound]

example : ¬ Returns (Edp.ask sampleEnv ⟨sampleIm, ⟨fun x => x, fun _ => 1, .medianX, .sigmaX⟩, none⟩ (.lambda 1)) :=
  (unsound_fails sampleEnv sampleEnv_works _ _ _).2

/-- Two groups of different intensity measures: the second addition ends the process. -/
theorem wrong_im_fails (g h : Group) (hne : h.edp.im.id ≠ g.edp.im.id) :
    (Building.init.steps [.add g, .add h]).2 = .error .thrown := by
  simp [Building.steps, Building.step, Building.add, Building.init, hne]

example : (Building.init.steps [.add sampleGroup,
    .add { sampleGroup with edp := { sampleEdp with im := { sampleIm with id := 5 } } }]).2 = .error .thrown :=
  wrong_im_fails _ _ (by simp [sampleGroup, sampleEdp, sampleIm])

end Slat.Safe
