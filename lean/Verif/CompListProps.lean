import Verif.CompListModel

/-!
# Properties of the component list (C29, C52)
-/

namespace Slat.CompList

/-! ### Specification: a plain list of groups -/

/-- What a user of the documentation expects of additions and removals. -/
inductive UserOp where
  | add (g : Cg)
  | remove (g : Cg)

/-- Expected effect: a group is accepted iff it shares the IM of the groups present; removal deletes the first
occurrence. -/
def specStep (imOf : Cg → Im) (l : List Cg) : UserOp → List Cg × Bool
  | .add g => if ∀ h ∈ l, imOf h = imOf g then (l ++ [g], true) else (l, false)
  | .remove g => (l.erase g, true)

/-- A history on the specification. -/
def specRun (imOf : Cg → Im) (l : List Cg) : List UserOp → List Cg × List Bool
  | [] => (l, [])
  | op :: ops =>
    let r := specStep imOf l op
    let rs := specRun imOf r.1 ops
    (rs.1, r.2 :: rs.2)

/-- The same operation on the model. -/
def UserOp.toOp : UserOp → Op
  | .add g => .add g
  | .remove g => .remove g

theorem removeFirst_eq (g : Cg) (l : List Cg) : removeFirst g l = l.erase g := by
  induction l with
  | nil => rfl
  | cons h t ih => simp [removeFirst, List.erase_cons, ih]

/-- All groups present share the structure's IM. -/
def Uniform (s : State) : Prop := ∀ g ∈ s.comps, s.im = some (s.imOf g)

theorem add_spec (s : State) (hu : Uniform s) (g : Cg) :
    (add s g).1.comps = (specStep s.imOf s.comps (.add g)).1 ∧ (add s g).2 = (specStep s.imOf s.comps (.add g)).2 ∧
    (add s g).1.imOf = s.imOf ∧ Uniform (add s g).1 := by
  by_cases h0 : s.comps = []
  · have : (add s g) = ({ s with im := some (s.imOf g), subs := s.subs ++ [s.imOf g], comps := [g] }, true) := by
      simp [add, h0]
    rw [this]
    simp [specStep, h0, Uniform]
  · obtain ⟨h, t, e⟩ := List.exists_cons_of_ne_nil h0
    have him : s.im = some (s.imOf h) := hu h (by simp [e])
    have hlen : s.comps.length ≠ 0 := by simp [e]
    by_cases hg : s.imOf g = s.imOf h
    · have hall : ∀ k ∈ s.comps, s.imOf k = s.imOf g := by
        intro k hk
        have := hu k hk
        rw [him, Option.some.injEq] at this
        rw [hg, this]
      have : add s g = ({ s with comps := s.comps ++ [g] }, true) := by
        simp only [add, hlen, if_false]
        simp [him, hg]
      rw [this]
      simp only [specStep, if_pos hall, Uniform, true_and]
      intro k hk
      simp only [List.mem_append, List.mem_singleton] at hk
      rcases hk with hk | rfl
      · exact hu k hk
      · rw [him, hg]
    · have hall : ¬ ∀ k ∈ s.comps, s.imOf k = s.imOf g := by
        intro h'
        exact hg (h' h (by simp [e])).symm
      have : add s g = (s, false) := by
        simp only [add, hlen, if_false]
        simp [him, hg]
      rw [this]
      simp only [specStep, hall, if_false, true_and]
      exact hu

theorem run_spec (s : State) (hu : Uniform s) (ops : List UserOp) :
    components (run s (ops.map UserOp.toOp)).1 = (specRun s.imOf s.comps ops).1 ∧
    (run s (ops.map UserOp.toOp)).2 = (specRun s.imOf s.comps ops).2 ∧
    Uniform (run s (ops.map UserOp.toOp)).1 ∧ (run s (ops.map UserOp.toOp)).1.imOf = s.imOf := by
  induction ops generalizing s with
  | nil => exact ⟨rfl, rfl, hu, rfl⟩
  | cons op ops ih =>
    cases op with
    | add g =>
      obtain ⟨h1, h2, h3, h4⟩ := add_spec s hu g
      obtain ⟨i1, i2, i3, i4⟩ := ih (add s g).1 h4
      simp only [List.map_cons, UserOp.toOp, run, step, specRun]
      rw [h3, h1] at i1 i2
      rw [h3] at i4
      exact ⟨i1, by rw [i2, h2], i3, i4⟩
    | remove g =>
      have hu' : Uniform (remove s g) := by
        intro k hk
        simp only [remove, removeFirst_eq] at hk
        exact hu k (List.mem_of_mem_erase hk)
      obtain ⟨i1, i2, i3, i4⟩ := ih (remove s g) hu'
      have e : (remove s g).comps = s.comps.erase g := removeFirst_eq g s.comps
      simp only [List.map_cons, UserOp.toOp, run, step, specRun]
      have e2 : (remove s g).imOf = s.imOf := rfl
      rw [e, e2] at i1 i2
      exact ⟨i1, by rw [i2]; rfl, i3, i4⟩

/-- **C29** For every history of additions and removals on a new structure, the reported components and the
exceptions are those of the plain list, and all components share one IM, which is the structure's. -/
theorem components_refine_list (imOf : Cg → Im) (ops : List UserOp) :
    components (run (init imOf) (ops.map UserOp.toOp)).1 = (specRun imOf [] ops).1 ∧
    (run (init imOf) (ops.map UserOp.toOp)).2 = (specRun imOf [] ops).2 ∧
    ∀ g ∈ components (run (init imOf) (ops.map UserOp.toOp)).1,
      (run (init imOf) (ops.map UserOp.toOp)).1.im = some (imOf g) := by
  obtain ⟨h1, h2, h3, h4⟩ := run_spec (init imOf) (by intro g hg; simp [init] at hg) ops
  refine ⟨h1, h2, fun g hg => ?_⟩
  have := h3 g hg
  rw [h4] at this
  exact this

/-- Groups 1, 2, 1 on IM 7 and 3 on IM 8: the third is refused, the first occurrence of 1 removed. -/
example : (run (init (fun g => if g = 3 then 8 else 7))
    [.add 1, .add 2, .add 3, .add 1, .remove 1]).1.comps = [2, 1] ∧
    (run (init (fun g => if g = 3 then 8 else 7))
    [.add 1, .add 2, .add 3, .add 1, .remove 1]).2 = [true, true, false, true, true] := by decide

/-! ### C52: the structure follows replacements -/

/-- Operations that keep the IM of a structure consistent: no operation re-uses an emptied structure for
another IM, and a group is only replaced by one with the same IM. -/
def Guarded (s : State) : Op → Prop
  | .add g => s.comps = [] → ∀ i, s.im = some i → s.imOf g = i
  | .replaceCg o n => s.imOf n = s.imOf o
  | _ => True

/-- A guarded history. -/
def GuardedRun (s : State) : List Op → Prop
  | [] => True
  | op :: ops => Guarded s op ∧ GuardedRun (step s op).1 ops

/-- Invariant: components share the structure's IM, and callbacks are installed on that IM only. -/
def Good (s : State) : Prop :=
  Uniform s ∧ (∀ i ∈ s.subs, s.im = some i) ∧ (∀ i, s.im = some i → i ∈ s.subs)

theorem good_step (s : State) (hg : Good s) (op : Op) (h : Guarded s op) : Good (step s op).1 := by
  obtain ⟨hu, h1, h2⟩ := hg
  cases op with
  | add g =>
    refine ⟨(add_spec s hu g).2.2.2, ?_⟩
    by_cases h0 : s.comps = []
    · have : (add s g) = ({ s with im := some (s.imOf g), subs := s.subs ++ [s.imOf g], comps := [g] }, true) := by
        simp [add, h0]
      simp only [step, this]
      refine ⟨?_, ?_⟩
      · intro i hi
        simp only [List.mem_append, List.mem_singleton] at hi
        rcases hi with hi | rfl
        · rw [h h0 i (h1 i hi)]
        · rfl
      · intro i hi
        simp only [Option.some.injEq] at hi
        simp [hi]
    · have hlen : s.comps.length ≠ 0 := by simpa using h0
      simp only [step, add, hlen, if_false]
      split
      · exact ⟨h1, h2⟩
      · exact ⟨h1, h2⟩
  | remove g =>
    refine ⟨?_, h1, h2⟩
    intro k hk
    simp only [step, remove, removeFirst_eq] at hk
    exact hu k (List.mem_of_mem_erase hk)
  | replaceCg o n =>
    refine ⟨?_, h1, h2⟩
    intro k hk
    simp only [step, replaceCg, List.mem_map] at hk
    obtain ⟨k', hk', e⟩ := hk
    have := hu k' hk'
    simp only [step, replaceCg]
    split at e
    · rename_i hko
      subst hko e
      rw [this]
      congr 1
      exact h.symm
    · subst e; exact this
  | replaceIm o n =>
    simp only [step, replaceIm]
    refine ⟨?_, ?_, ?_⟩
    · intro k hk
      have := hu k hk
      simp only
      by_cases ho : o ∈ s.subs
      · have := h1 o ho
        simp_all
      · have : s.imOf k ≠ o := by
          intro e
          exact ho (h2 o (by rw [this, e]))
        simp_all
    · intro i hi
      simp only [List.mem_map] at hi
      obtain ⟨j, hj, e⟩ := hi
      have := h1 j hj
      simp only
      split at e
      · rename_i hjo
        subst hjo e
        simp [hj]
      · rename_i hjo
        subst e
        have : o ∉ s.subs := by
          intro ho
          have h3 := h1 o ho
          rw [this] at h3
          exact hjo (Option.some.inj h3)
        simp_all
    · intro i hi
      simp only [List.mem_map] at hi ⊢
      split at hi
      · rename_i ho
        exact ⟨o, ho, by simpa using hi⟩
      · rename_i ho
        exact ⟨i, h2 i hi, by
          rw [if_neg]
          rintro rfl
          exact ho (h2 i hi)⟩

/-- **C52** Through every guarded history of additions, removals and replacements, every component's IM is the
structure's IM. -/
theorem im_follows_partial (imOf : Cg → Im) (ops : List Op) (h : GuardedRun (init imOf) ops) :
    ∀ g ∈ components (run (init imOf) ops).1,
      (run (init imOf) ops).1.im = some ((run (init imOf) ops).1.imOf g) := by
  have key : ∀ (ops : List Op) (s : State), Good s → GuardedRun s ops → Good (run s ops).1 := by
    intro ops
    induction ops with
    | nil => intro s hs _; exact hs
    | cons op ops ih => intro s hs h; exact ih _ (good_step s hs op h.1) h.2
  exact (key ops (init imOf) ⟨by intro g hg; simp [init] at hg, by simp [init], by simp [init]⟩ h).1

/-- Two groups on IM 7, IM 7 replaced by 9, a third group on 9 added, group 2 replaced by 4. -/
example : GuardedRun (init (fun g => if g = 3 then 9 else 7))
    [.add 1, .add 2, .replaceIm 7 9, .add 3, .replaceCg 2 4, .remove 1] := by
  simp [GuardedRun, Guarded, init, step, add, replaceIm]

/-- **C52, what fails (1)**: an emptied structure keeps its callbacks on the old IM.  After re-use with a group on
IM 8, replacing IM 7 (no longer related to the structure) by 9 moves the structure to 9, and a further group
on IM 8 is refused. -/
theorem emptied_structure_fails : ∃ (imOf : Cg → Im) (ops : List Op),
    (run (init imOf) ops).1.comps = [2] ∧ (run (init imOf) ops).1.imOf 2 = 8 ∧
    (run (init imOf) ops).1.im = some 9 ∧ (add (run (init imOf) ops).1 2).2 = false :=
  ⟨fun g => if g = 1 then 7 else 8, [.add 1, .remove 1, .add 2, .replaceIm 7 9], by decide⟩

/-- **C52, what fails (2)**: replacing a group by one on another IM is not checked. -/
theorem replace_group_unchecked_fails : ∃ (imOf : Cg → Im) (ops : List Op),
    (run (init imOf) ops).1.comps = [1, 3] ∧ (run (init imOf) ops).1.imOf 1 ≠ (run (init imOf) ops).1.imOf 3 :=
  ⟨fun g => if g = 3 then 8 else 7, [.add 1, .add 2, .replaceCg 2 3], by decide⟩

end Slat.CompList
