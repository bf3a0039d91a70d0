import Verif.SafeSpec
import Verif.LogNormalFnProps

/-!
# Lemmas on calls that return
-/

namespace Slat.Safe

open Slat Dbl Classical

@[simp] theorem returns_ok {α : Type} (a : α) : Returns (.ok a : Run α) := ⟨a, rfl⟩
@[simp] theorem returns_pure {α : Type} (a : α) : Returns (pure a : Run α) := ⟨a, rfl⟩
@[simp] theorem returns_error {α : Type} (e : Fault) : ¬ Returns (.error e : Run α) := by
  rintro ⟨a, h⟩; cases h

@[simp] theorem returns_map {α β : Type} (r : Run α) (f : α → β) : Returns (Except.map f r) ↔ Returns r := by
  cases r <;> simp [Except.map]

theorem returns_bind {α β : Type} (r : Run α) (k : α → Run β) :
    Returns (r >>= k) ↔ ∃ a, r = .ok a ∧ Returns (k a) := by
  cases r with
  | error e =>
    constructor
    · intro h; exact absurd h (returns_error e)
    · rintro ⟨a, h, _⟩; cases h
  | ok a =>
    constructor
    · intro h; exact ⟨a, rfl, h⟩
    · rintro ⟨b, h, hb⟩; cases h; exact hb

theorem returns_bind_pure {α β : Type} (r : Run α) (k : α → β) :
    Returns (r >>= fun a => pure (k a)) ↔ Returns r := by
  rw [returns_bind]
  constructor
  · rintro ⟨a, h, _⟩; exact ⟨a, h⟩
  · rintro ⟨a, h⟩; exact ⟨a, h, returns_pure _⟩

theorem returns_bind_const {α β : Type} (r : Run α) (k : α → Run β) (P : Prop) (h : ∀ a, Returns (k a) ↔ P) :
    Returns (r >>= k) ↔ Returns r ∧ P := by
  rw [returns_bind]
  constructor
  · rintro ⟨a, h1, h2⟩; exact ⟨⟨a, h1⟩, (h a).1 h2⟩
  · rintro ⟨⟨a, h1⟩, h2⟩; exact ⟨a, h1, (h a).2 h2⟩

theorem Probe.Tries.asks {α : Type} {p : Probe α} (h : p.Tries) : p.Asks := by
  cases p with
  | done a => exact h
  | ask x next => trivial

theorem run_returns {α : Type} (p : Probe α) (f : Dbl → Run Dbl) (h : ∀ x, Returns (f x)) : Returns (p.run f) := by
  induction p with
  | done a => exact returns_ok a
  | ask x next ih =>
    obtain ⟨y, hy⟩ := h x
    simp only [Probe.run, hy]
    exact ih y

/-- A function that returns either everywhere or nowhere. -/
theorem run_returns_iff {α : Type} (p : Probe α) (hp : p.Asks) (f : Dbl → Run Dbl) (P : Prop)
    (h : ∀ x, Returns (f x) ↔ P) : Returns (p.run f) ↔ P := by
  constructor
  · intro hr
    cases p with
    | done a => exact absurd hp (by simp [Probe.Asks])
    | ask x next =>
      rw [← h x]
      simp only [Probe.run] at hr
      cases hf : f x with
      | ok y => exact returns_ok y
      | error e => rw [hf] at hr; exact absurd hr (returns_error e)
  · intro hP
    exact run_returns p f fun x => (h x).2 hP

/-- A function that returns at 0, and elsewhere either everywhere or nowhere. -/
theorem run_skip_iff {α : Type} (p : Probe α) (hp : p.Tries) (f : Dbl → Run Dbl) (P : Prop)
    (h : ∀ x, Returns (f x) ↔ (x = 0 ∨ P)) : Returns (p.run f) ↔ P := by
  constructor
  · induction p with
    | done a => exact absurd hp (by simp [Probe.Tries])
    | ask x next ih =>
      intro hr
      simp only [Probe.run] at hr
      cases hf : f x with
      | error e => rw [hf] at hr; exact absurd hr (returns_error e)
      | ok y =>
        rw [hf] at hr
        rcases hp with hx | hn
        · have := (h x).1 ⟨y, hf⟩
          exact this.resolve_left hx
        · exact ih y (hn y) hr
  · intro hP
    exact run_returns p f fun x => (h x).2 (Or.inr hP)

theorem mapM_returns {α β : Type} (f : α → Run β) : ∀ l : List α,
    Returns (l.mapM f) ↔ ∀ a ∈ l, Returns (f a)
  | [] => by simp
  | a :: l => by
    rw [List.mapM_cons, returns_bind]
    constructor
    · rintro ⟨b, hb, h⟩
      rw [returns_bind_pure, mapM_returns f l] at h
      intro x hx
      rcases List.mem_cons.1 hx with rfl | hx
      · exact ⟨b, hb⟩
      · exact h x hx
    · intro h
      obtain ⟨b, hb⟩ := h a (by simp)
      refine ⟨b, hb, ?_⟩
      rw [returns_bind_pure, mapM_returns f l]
      exact fun x hx => h x (by simp [hx])

theorem returns_ite {α : Type} (c : Prop) [Decidable c] (a b : Run α) :
    Returns (if c then a else b) ↔ (c ∧ Returns a) ∨ (¬c ∧ Returns b) := by
  by_cases h : c <;> simp [h]

theorem probFn_returns (E : Env) (hE : E.Works) (p : ProbFn) (hv : p.mt ≠ .invalid ∧ p.st ≠ .invalid) (x : Dbl) :
    Returns (p.dist E x) ↔ (p.st = .sigmaLnX ∨ p.mt = .meanX) := by
  obtain ⟨n, hn⟩ := Nat.exists_eq_add_of_le' hE.depth
  constructor
  · intro h
    by_contra hc
    simp only [not_or] at hc
    have hst : p.st = .sigmaX := by
      cases h1 : p.st <;> simp_all
    have hmt : p.mt = .meanLnX ∨ p.mt = .medianX := by
      cases h1 : p.mt <;> simp_all
    have := (LogNormalFn.sigma_x_needs_mean_fails p.mt hmt (p.mu x) (p.sigma x)).2 E.depth
    rw [ProbFn.dist, hst, this] at h
    exact returns_error _ h
  · intro h
    have hu : LogNormalFn.Usable p.mt p.st := by
      rcases h with h | h
      · exact Or.inl ⟨hv.1, h⟩
      · cases h1 : p.st
        · exact Or.inl ⟨hv.1, rfl⟩
        · exact Or.inr ⟨h, rfl⟩
        · exact absurd h1 hv.2
    have := (LogNormalFn.usable_terminates p.mt p.st hu (p.mu x) (p.sigma x) n).1
    rw [← hn] at this
    obtain ⟨d, hd⟩ := Option.isSome_iff_exists.1 this
    simp [ProbFn.dist, hd]

theorem im_derivative_returns (E : Env) (m : Im) (x : Dbl) : Returns (m.derivativeAt E x) :=
  run_returns _ _ fun _ => returns_ok _

theorem pHighest_length (states : List LogNormalDist) (x : Dbl) :
    (Fragility.pHighest states x).length = states.length := by
  have key : ∀ l : List Dbl, (Fragility.differences l).length = l.length := by
    intro l
    induction l with
    | nil => rfl
    | cons a t ih =>
      cases t with
      | nil => rfl
      | cons b t => simp only [Fragility.differences, List.length_cons] at ih ⊢; rw [ih]
  simp [Fragility.pHighest, key, Fragility.pExceeded]

theorem forCount_isSome (l : Slat.Loss.BiLevel) (count : ℤ) :
    (l.forCount count).isSome = true ↔
      (count ≤ l.countMin ∨ l.countMax ≤ count ∨ Slat.Loss.inInt (l.countMax - l.countMin)) := by
  unfold Slat.Loss.BiLevel.forCount Slat.Loss.BiLevel.unitMean
  by_cases h1 : count ≤ l.countMin
  · simp [h1]
  · by_cases h2 : l.countMax ≤ count
    · simp [h1, h2]
    · simp only [h1, h2, if_false, false_or]
      by_cases h3 : Slat.Loss.inInt (l.countMax - l.countMin)
      · have h4 : Slat.Loss.inInt (count - l.countMin) := by
          unfold Slat.Loss.inInt at h3 ⊢; omega
        simp [Slat.Loss.subInt, h3, h4]
      · by_cases h4 : Slat.Loss.inInt (count - l.countMin) <;> simp [Slat.Loss.subInt, h3, h4]

theorem option_mapM_isSome {α β : Type} (f : α → Option β) : ∀ l : List α,
    (l.mapM f).isSome = true ↔ ∀ a ∈ l, (f a).isSome = true
  | [] => by simp
  | a :: l => by
    have ih := option_mapM_isSome f l
    rw [List.mapM_cons]
    cases h : f a with
    | none => simp [h]
    | some b =>
      cases h2 : l.mapM f with
      | none => rw [h2] at ih; simp only [Option.isSome_none, Bool.false_eq_true, false_iff] at ih; simp [h, ih]
      | some bs => rw [h2] at ih; simp only [Option.isSome_some, true_iff] at ih; simpa [h] using ih

theorem option_mapM_length {α β : Type} (f : α → Option β) : ∀ (l : List α) (r : List β),
    l.mapM f = some r → r.length = l.length
  | [], r, h => by simp at h; subst h; rfl
  | a :: l, r, h => by
    rw [List.mapM_cons] at h
    cases h1 : f a with
    | none => simp [h1] at h
    | some b =>
      cases h2 : l.mapM f with
      | none => simp [h1, h2] at h
      | some bs =>
        simp [h1, h2] at h
        subst h
        simp [option_mapM_length f l bs h2]

theorem simple_returns (ds : List LogNormalDist) (ps : List Dbl) (count : ℤ) (adj : Dbl) :
    Returns (ofOutcome (Slat.Loss.simple ds ps count adj)) ↔ ds.length = ps.length := by
  unfold Slat.Loss.simple LogNormalDist.addWeighted
  by_cases h : ds.length = ps.length <;> simp [h, ofOutcome]

theorem biLevel_returns (ls : List Slat.Loss.BiLevel) (ps : List Dbl) (count : ℤ) (adj : Dbl) :
    Returns (ofOutcome (Slat.Loss.biLevel ls ps count adj)) ↔
      (ls.length = ps.length ∧ ∀ l ∈ ls,
        (count ≤ l.countMin ∨ l.countMax ≤ count ∨ Slat.Loss.inInt (l.countMax - l.countMin))) := by
  unfold Slat.Loss.biLevel
  by_cases h : ps.length ≠ ls.length
  · have h' : ¬ ls.length = ps.length := fun e => h e.symm
    simp [h, h', ofOutcome]
  · have h' : ls.length = ps.length := by simp only [ne_eq, not_not] at h; exact h.symm
    rw [if_neg h]
    simp only [h', true_and]
    have key := option_mapM_isSome (fun l : Slat.Loss.BiLevel => l.forCount count) ls
    simp only [forCount_isSome] at key
    cases hm : ls.mapM (fun l => l.forCount count) with
    | none =>
      rw [hm] at key
      simp only [Option.isSome_none, Bool.false_eq_true, false_iff] at key
      simp [ofOutcome, key]
    | some ds =>
      rw [hm] at key
      simp only [Option.isSome_some, true_iff] at key
      have := option_mapM_length _ _ _ hm
      simp only [simple_returns, this, h']
      simpa using key

theorem loss_returns (l : Loss) (ps : List Dbl) (count : ℤ) (adj : Dbl) :
    Returns (l.calculate ps count adj) ↔ l.Fits ps.length count := by
  cases l with
  | base => simp [Loss.calculate, Loss.Fits]
  | simple ds => simp only [Loss.calculate, Loss.Fits, simple_returns]
  | biLevel ls => simp only [Loss.calculate, Loss.Fits, biLevel_returns]

theorem edp_dist_returns (E : Env) (hE : E.Works) (e : Edp) (he : e.Made) (x : Dbl) :
    Returns (e.dist E x) ↔ e.Sound := by
  unfold Edp.dist Edp.Sound
  have h1 := probFn_returns E hE e.dep he.1 x
  cases hs : e.second with
  | none => simp only [Option.mem_def, reduceCtorEq, false_implies, implies_true, and_true]; exact h1
  | some q =>
    have h2 := probFn_returns E hE q (he.2 q hs) x
    simp only [Option.mem_def, Option.some.injEq, forall_eq']
    rw [returns_bind]
    constructor
    · rintro ⟨a, ha, h⟩
      rw [returns_bind] at h
      obtain ⟨b, hb, -⟩ := h
      exact ⟨h1.1 ⟨a, ha⟩, h2.1 ⟨b, hb⟩⟩
    · rintro ⟨g1, g2⟩
      obtain ⟨a, ha⟩ := h1.2 g1
      obtain ⟨b, hb⟩ := h2.2 g2
      refine ⟨a, ha, ?_⟩
      rw [returns_bind]
      refine ⟨b, hb, ?_⟩
      rw [returns_ite]
      by_cases hc : b.getMean < a.getMean
      · exact Or.inl ⟨hc, h1.2 g1⟩
      · exact Or.inr ⟨hc, h2.2 g2⟩

theorem edp_pExceedence_returns (E : Env) (hE : E.Works) (e : Edp) (he : e.Made) (x y : Dbl) :
    Returns (e.pExceedence E x y) ↔ e.Sound := by
  unfold Edp.pExceedence
  rw [returns_bind_pure, edp_dist_returns E hE e he]

theorem edp_lambda_returns (E : Env) (hE : E.Works) (e : Edp) (he : e.Made) (y : Dbl) :
    Returns (e.lambda E y) ↔ e.Sound := by
  unfold Edp.lambda
  rw [returns_bind_pure]
  refine run_skip_iff _ hE.maq _ _ fun x => ?_
  rw [returns_ite]
  by_cases hx : x = 0
  · simp [hx]
  · simp only [hx, false_and, not_false_eq_true, true_and, false_or]
    rw [returns_bind_const _ _ e.Sound fun d => by rw [returns_bind_pure, edp_pExceedence_returns E hE e he]]
    exact and_iff_right (im_derivative_returns E e.im x)

theorem group_slope_returns (E : Env) (hE : E.Works) (g : Group) (hg : g.edp.Made) (im x : Dbl) :
    Returns (g.slope E im x) ↔ g.edp.Sound :=
  run_returns_iff _ (hE.deriv x) _ _ fun y => edp_pExceedence_returns E hE g.edp hg im y

theorem group_loss_returns (g : Group) (fn : Option Loss) (adj x : Dbl) :
    Returns (g.lossEdp fn adj x) ↔ ∀ l ∈ fn, l.Fits g.states.length g.count := by
  unfold Group.lossEdp
  cases fn with
  | none => simp
  | some l => simp only [loss_returns, pHighest_length, Option.mem_def, Option.some.injEq, forall_eq']

theorem group_mean_returns (E : Env) (hE : E.Works) (g : Group) (hg : g.edp.Made) (loss : Dbl → Run LogNormalDist)
    (P : Prop) (hl : ∀ x, Returns (loss x) ↔ P) (im : Dbl) :
    Returns (g.meanIm E loss im) ↔ (0 < g.count → g.edp.Sound ∧ P) := by
  unfold Group.meanIm
  by_cases hc : 0 < g.count
  · simp only [hc, if_true, true_implies]
    rw [returns_bind_pure]
    refine run_skip_iff _ hE.maq _ _ fun x => ?_
    rw [returns_ite]
    by_cases hx : x = 0
    · simp [hx]
    · simp only [hx, false_and, not_false_eq_true, true_and, false_or]
      rw [returns_bind_const _ _ P fun d => by rw [returns_bind_pure, hl], group_slope_returns E hE g hg]
  · simp [hc]

theorem group_sd_returns (E : Env) (hE : E.Works) (g : Group) (hg : g.edp.Made) (loss : Dbl → Run LogNormalDist)
    (P : Prop) (hl : ∀ x, Returns (loss x) ↔ P) (div im : Dbl) :
    Returns (g.sdIm E loss div im) ↔ (0 < g.count → g.edp.Sound ∧ P) := by
  unfold Group.sdIm
  by_cases hc : 0 < g.count
  · simp only [hc, if_true, true_implies]
    have hrun : Returns (E.maq.run fun x =>
        if x = 0 then .ok 0
        else do
          let d ← g.slope E im x
          let l ← loss x
          let m := l.getMean / div
          let l ← loss x
          let s := l.getSigma
          return (m * m + s * s) * abs d) ↔ (g.edp.Sound ∧ P) := by
      refine run_skip_iff _ hE.maq _ _ fun x => ?_
      rw [returns_ite]
      by_cases hx : x = 0
      · simp [hx]
      · simp only [hx, false_and, not_false_eq_true, true_and, false_or]
        rw [returns_bind_const _ _ P fun d => by
          rw [returns_bind_const _ _ P fun l => by rw [returns_bind_pure, hl], hl, and_self],
          group_slope_returns E hE g hg]
    rw [returns_bind]
    constructor
    · rintro ⟨r, hr, -⟩
      exact hrun.1 ⟨r, hr⟩
    · intro h
      obtain ⟨r, hr⟩ := hrun.2 h
      refine ⟨r, hr, ?_⟩
      rw [returns_ite]
      by_cases hs : r.1 = true
      · refine Or.inl ⟨hs, ?_⟩
        rw [returns_bind_pure, group_mean_returns E hE g hg loss P hl]
        exact fun _ => h
      · exact Or.inr ⟨hs, returns_pure _⟩
  · simp [hc]

theorem group_costDist_returns (E : Env) (hE : E.Works) (g : Group) (hg : g.edp.Made) (im : Dbl) :
    Returns (g.costDistIm E im) ↔ (0 < g.count → g.edp.Sound ∧ g.CostFits) := by
  unfold Group.costDistIm
  have hl : ∀ x, Returns (g.costEdp x) ↔ g.CostFits := fun x => group_loss_returns g g.cost g.costAdj x
  rw [returns_bind_const _ _ (0 < g.count → g.edp.Sound ∧ g.CostFits) fun m => by
    rw [returns_bind_pure]; exact group_sd_returns E hE g hg _ _ hl 1 im]
  unfold Group.eCostIm
  rw [group_mean_returns E hE g hg _ _ hl, and_self]

theorem group_pDsOne_returns (E : Env) (hE : E.Works) (g : Group) (hg : g.edp.Made) (d : LogNormalDist) (im : Dbl) :
    Returns (g.pDsOne E d im) ↔ g.edp.Sound := by
  unfold Group.pDsOne
  rw [returns_bind_pure]
  refine run_skip_iff _ hE.maq _ _ fun x => ?_
  rw [returns_ite]
  by_cases hx : x = 0
  · simp [hx]
  · simp only [hx, false_and, not_false_eq_true, true_and, false_or]
    rw [returns_bind_pure, group_slope_returns E hE g hg]

theorem forall_mem_const {α : Type} (l : List α) (P : Prop) : (∀ a ∈ l, P) ↔ (l ≠ [] → P) := by
  cases l with
  | nil => simp
  | cons a l => exact ⟨fun h _ => h a (by simp), fun h _ _ => h (by simp)⟩

theorem building_derivative_returns (E : Env) (s : Building) (x : Dbl) :
    Returns (s.derivativeAt E x) ↔ s.im ≠ none := by
  unfold Building.derivativeAt
  cases s.im with
  | none => simp
  | some m => simp only [ne_eq, reduceCtorEq, not_false_eq_true, iff_true]; exact im_derivative_returns E m x

theorem building_dists_returns (E : Env) (hE : E.Works) (s : Building) (hs : ∀ g ∈ s.comps, g.edp.Made) (x : Dbl) :
    Returns (s.comps.mapM fun g => g.costDistIm E x) ↔ s.Ready := by
  rw [mapM_returns]
  exact forall₂_congr fun g hg => group_costDist_returns E hE g (hs g hg) x

theorem building_total_returns (E : Env) (hE : E.Works) (s : Building) (hs : ∀ g ∈ s.comps, g.edp.Made) (x : Dbl) :
    Returns (s.totalCost E x) ↔ s.Ready ∧ s.im ≠ none := by
  unfold Building.totalCost
  rw [returns_bind_const _ _ (s.im ≠ none), building_dists_returns E hE s hs]
  intro ds
  cases h : s.im with
  | none => simp [Building.known, StructCosts.totalCost, h]
  | some m => simp [Building.known, StructCosts.totalCost, h]

theorem mem_removeFirst (id : ℕ) (g : Group) : ∀ l : List Group, g ∈ removeFirst id l → g ∈ l
  | [], h => h
  | a :: l, h => by
    unfold removeFirst at h
    split at h
    · exact List.mem_cons_of_mem _ h
    · rcases List.mem_cons.1 h with rfl | h
      · simp
      · exact List.mem_cons_of_mem _ (mem_removeFirst id g l h)

theorem steps_complete (id : ℕ) : ∀ (ops : List Op) (s : Building), AllComplete id ops →
    (∀ g ∈ s.comps, g.Complete) → (s.comps ≠ [] → s.im ≠ none) → (∀ m, s.im = some m → m.id = id) →
    (s.steps ops).2 = .ok () ∧ (∀ g ∈ (s.steps ops).1.comps, g.Complete) ∧
      ((s.steps ops).1.comps ≠ [] → (s.steps ops).1.im ≠ none) ∧
      ((s.steps ops).1.im ≠ none ↔ (s.im ≠ none ∨ SomeAdded ops))
  | [], s, _, h1, h2, _ => ⟨rfl, h1, h2, by simp [Building.steps, SomeAdded]⟩
  | .remove r :: ops, s, ha, h1, h2, h3 => by
    have ha' : AllComplete id ops := fun g hg => ha g (List.mem_cons_of_mem _ hg)
    obtain ⟨i1, i2, i3, i4⟩ := steps_complete id ops (s.remove r) ha'
      (fun g hg => h1 g (mem_removeFirst r g _ hg))
      (fun hne => h2 (fun hnil => hne (by simp [Building.remove, hnil, removeFirst])))
      h3
    have hs : s.steps (.remove r :: ops) = (s.remove r).steps ops := rfl
    rw [hs]
    refine ⟨i1, i2, i3, ?_⟩
    rw [i4]
    have : SomeAdded (.remove r :: ops) ↔ SomeAdded ops := by simp [SomeAdded]
    rw [this]
    rfl
  | .add g :: ops, s, ha, h1, h2, h3 => by
    have ha' : AllComplete id ops := fun g hg => ha g (List.mem_cons_of_mem _ hg)
    obtain ⟨hgc, hgi⟩ := ha g (by simp)
    obtain ⟨s', hadd, hc', him'⟩ : ∃ s', s.step (.add g) = (s', .ok ()) ∧ s'.comps = s.comps ++ [g] ∧
        ∃ m, s'.im = some m ∧ m.id = id := by
      by_cases hnil : s.comps = []
      · refine ⟨{ s with im := some g.edp.im, comps := [g] }, ?_, by simp [hnil], g.edp.im, rfl, hgi⟩
        simp [Building.step, Building.add, hnil]
      · obtain ⟨m, hm⟩ := Option.ne_none_iff_exists'.1 (h2 hnil)
        refine ⟨{ s with comps := s.comps ++ [g] }, ?_, rfl, m, hm, h3 m hm⟩
        have hlen : s.comps.length ≠ 0 := by simpa using hnil
        simp [Building.step, Building.add, hlen, hm, hgi, h3 m hm]
    obtain ⟨m, hm, hmid⟩ := him'
    obtain ⟨i1, i2, i3, i4⟩ := steps_complete id ops s' ha'
      (by
        intro a hmem
        rw [hc'] at hmem
        rcases List.mem_append.1 hmem with hmem | hmem
        · exact h1 a hmem
        · rw [List.mem_singleton.1 hmem]; exact hgc)
      (fun _ => by simp [hm])
      (fun m' hm' => by rw [hm] at hm'; cases hm'; exact hmid)
    have hs : s.steps (.add g :: ops) = s'.steps ops := by
      simp only [Building.steps, hadd]
    rw [hs]
    refine ⟨i1, i2, i3, ?_⟩
    rw [i4]
    constructor
    · intro _; exact Or.inr ⟨g, by simp⟩
    · intro _; exact Or.inl (by simp [hm])

end Slat.Safe
