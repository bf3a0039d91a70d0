import Verif.NamesSteps

/-!
# Names and redefinitions (C69)

`sheet` is a list of definitions without objects (NamesSpec.lean); the theorems say what the names of a running script
refer to.  Limits (`Tidy`, `Collects`) are stated in NamesSpec.lean; what happens outside them is in NamesFails.lean.
-/

namespace Slat.Names

open Slat.Graph

variable {V L X Y : Type}

theorem meaning_of_link {C : Calc V L X Y} {st : Py V L X Y} {S : Sheet V L} (h : Link C st S) :
    ∀ (d : ℕ) {k : Kind} {id : Name} {n : ℕ}, k ≠ .str → st.defs k id = some n →
      treeOf (Graph.abs st.world.heap) d n = S.meaning d k id
  | 0, _, _, _, _, _ => rfl
  | d + 1, k, id, n, hk, hn => by
    cases hf : S.defs k id with
    | none => rw [h.undef k id hk hf] at hn; cases hn
    | some f =>
      obtain ⟨-, m, h1, h2⟩ := h.obj k id f hk hf
      rw [hn] at h1; cases h1
      rw [treeOf_succ_some h2]
      simp only [Sheet.meaning, hf]
      congr 1
      funext s
      cases hl : f.args.lookup s with
      | none => rfl
      | some a =>
        simp only [Option.bind_some]
        cases hd : st.defs s.target a with
        | none =>
          have h3 := h.closed k id f hf _ (lookup_mem hl)
          rw [← h.known (target_ne_str s), hd] at h3
          cases h3
        | some m =>
          exact meaning_of_link h d (target_ne_str s) hd

/-- C69: a name refers to the object that its last definition describes, in which every name refers to the object of the last
definition of that name, and so on. -/
theorem late_binding_partial (C : Calc V L X Y) (cs : List (Cmd V L X)) (st : Py V L X Y)
    (ht : TidyAll (Sheet.init V L) cs) (hc : Collects C (Py.init V L X Y) cs)
    (hs : script C (Py.init V L X Y) cs = (st, none)) (k : Kind) (hk : k ≠ .str) (id : Name) :
    (st.defs k id).map (tree (Graph.abs st.world.heap)) = ((sheet cs).defs k id).map fun _ => (sheet cs).meaning 6 k id := by
  have h : Link C st (sheet cs) := link_script cs (Link.init C) ht hc hs
  cases hn : st.defs k id with
  | none =>
    have := h.known hk id
    rw [hn] at this
    cases hd : (sheet cs).defs k id with
    | none => rfl
    | some f => rw [hd] at this; cases this
  | some n =>
    have := h.known hk id
    rw [hn] at this
    cases hd : (sheet cs).defs k id with
    | none => rw [hd] at this; cases this
    | some f =>
      simp only [Option.map_some, Option.some.injEq]
      exact meaning_of_link h 6 hk hn

/-- C69: what an EDP or a component group reports is calculated from the definitions as they are now, however often they were
changed and results were asked for. -/
theorem results_of_names_partial (C : Calc V L X Y) (cs : List (Cmd V L X)) (st : Py V L X Y)
    (ht : TidyAll (Sheet.init V L) cs) (hc : Collects C (Py.init V L X Y) cs)
    (hs : script C (Py.init V L X Y) cs = (st, none)) (k : Kind) (hk : k = .edp ∨ k = .cg) (id : Name) (n : ℕ)
    (hn : st.defs k id = some n) (c : CacheId) (hcache : c.owner = k) (x : X) :
    view C st.world.heap n c x = fresh C ((sheet cs).meaning 6 k id) c x := by
  have h : Link C st (sheet cs) := link_script cs (Link.init C) ht hc hs
  have hks : k ≠ .str := by rintro rfl; rcases hk with hk | hk <;> cases hk
  obtain ⟨o, ho, hok⟩ := kindAt_some (h.kindAt hn)
  rw [← meaning_of_link h 6 hks hn]
  refine view_eq_fresh h.inv.coh n o ho c (by rw [hcache, hok]) ?_ x
  rw [hcache]
  rcases hk with rfl | rfl
  · exact Or.inl rfl
  · exact Or.inr rfl

/-- C69: only the definitions in force matter.  Two scripts that end with the same definitions report the same results for
the same names, whatever was defined, replaced or asked for on the way. -/
theorem only_last_definitions_partial (C : Calc V L X Y) (cs cs' : List (Cmd V L X)) (st st' : Py V L X Y)
    (ht : TidyAll (Sheet.init V L) cs) (hc : Collects C (Py.init V L X Y) cs)
    (hs : script C (Py.init V L X Y) cs = (st, none))
    (ht' : TidyAll (Sheet.init V L) cs') (hc' : Collects C (Py.init V L X Y) cs')
    (hs' : script C (Py.init V L X Y) cs' = (st', none))
    (hd : (sheet cs).defs = (sheet cs').defs) (hcol : (sheet cs).collapse = (sheet cs').collapse)
    (hdem : (sheet cs).demolition = (sheet cs').demolition)
    (k : Kind) (hk : k = .edp ∨ k = .cg) (id : Name) (n n' : ℕ)
    (hn : st.defs k id = some n) (hn' : st'.defs k id = some n') (c : CacheId) (hcache : c.owner = k) (x : X) :
    view C st.world.heap n c x = view C st'.world.heap n' c x := by
  rw [results_of_names_partial C cs st ht hc hs k hk id n hn c hcache x,
    results_of_names_partial C cs' st' ht' hc' hs' k hk id n' hn' c hcache x]
  have : ∀ d k i, (sheet cs).meaning d k i = (sheet cs').meaning d k i := by
    intro d
    induction d with
    | zero => intros; rfl
    | succ d ih =>
      intro k i
      simp only [Sheet.meaning, hd, hcol, hdem]
      cases (sheet cs').defs k i with
      | none => rfl
      | some f =>
        simp only
        congr 1
        funext s
        cases f.args.lookup s with
        | none => rfl
        | some a => exact ih _ _
  rw [this]

/-- C69: a structure consists of the groups added to it by name and not removed, in order; a group defined again takes the
place of the earlier one. -/
theorem structure_groups_partial (C : Calc V L X Y) (cs : List (Cmd V L X)) (st : Py V L X Y)
    (ht : TidyAll (Sheet.init V L) cs) (hc : Collects C (Py.init V L X Y) cs)
    (hs : script C (Py.init V L X Y) cs = (st, none)) (id : Name) (gs : List Name)
    (hg : (sheet cs).groups id = some gs) :
    ∃ n o, st.defs .str id = some n ∧ Graph.abs st.world.heap n = some o ∧
      (o.entries.map fun k => (o.slots (.entry k)).map (tree (Graph.abs st.world.heap))) =
        gs.map fun g => some ((sheet cs).meaning 6 .cg g) := by
  have h : Link C st (sheet cs) := link_script cs (Link.init C) ht hc hs
  obtain ⟨n, o, h1, h2, -, h4, h5, -⟩ := h.strSome id gs hg
  refine ⟨n, o, h1, h2, ?_⟩
  have e : (o.entries.map fun k => (o.slots (.entry k)).map (tree (Graph.abs st.world.heap))) =
      (o.entries.map fun k => o.slots (.entry k)).map (Option.map (tree (Graph.abs st.world.heap))) := by
    rw [List.map_map]; rfl
  rw [e, h4, List.map_map]
  refine List.map_congr_left fun g hgm => ?_
  obtain ⟨m, hm⟩ := Option.isSome_iff_exists.1 (h5 g hgm)
  simp only [Function.comp_apply, hm, Option.map_some, Option.some.injEq]
  exact meaning_of_link h 6 (by simp) hm

/-- C69: no callback is run on a destroyed object. -/
theorem names_no_dangling_partial (C : Calc V L X Y) (cs : List (Cmd V L X)) (st : Py V L X Y)
    (ht : TidyAll (Sheet.init V L) cs) (hc : Collects C (Py.init V L X Y) cs)
    (hs : script C (Py.init V L X Y) cs = (st, none)) : st.world.ub = false :=
  (link_script cs (Link.init C) ht hc hs).inv.s.ub

theorem resolve_none_iff (st : Py V L X Y) : ∀ args : List (Slot × Name),
    resolve st args = none ↔ ∃ a ∈ args, st.defs a.1.target a.2 = none
  | [] => by simp [resolve]
  | (s, a) :: rest => by
    have ih := resolve_none_iff st rest
    cases hd : st.defs s.target a with
    | none => simp [resolve, hd]
    | some n =>
      cases hr : resolve st rest with
      | none =>
        obtain ⟨b, hb, hb'⟩ := ih.1 hr
        simp only [resolve, hd, hr, true_iff]
        exact ⟨b, List.mem_cons_of_mem _ hb, hb'⟩
      | some ns =>
        simp only [resolve, hd, hr, reduceCtorEq, false_iff]
        rintro ⟨b, hb, hb'⟩
        rcases List.mem_cons.1 hb with rfl | hb
        · rw [hd] at hb'; cases hb'
        · have := ih.2 ⟨b, hb, hb'⟩
          rw [hr] at this; cases this

/-- C69: a definition is refused exactly when it uses a name that has no definition of the class needed; it then changes
nothing. -/
theorem definition_refused_partial (C : Calc V L X Y) (cs : List (Cmd V L X)) (st : Py V L X Y)
    (ht : TidyAll (Sheet.init V L) cs) (hc : Collects C (Py.init V L X Y) cs)
    (hs : script C (Py.init V L X Y) cs = (st, none)) (id : Name) (f : Form V) :
    ((∃ a ∈ f.args, (sheet cs).defs a.1.target a.2 = none) → exec C st (.define id f) = (st, some .unknownName)) ∧
    ((∀ a ∈ f.args, (sheet cs).defs a.1.target a.2 ≠ none) → ∃ st', exec C st (.define id f) = (st', none)) := by
  have h : Link C st (sheet cs) := link_script cs (Link.init C) ht hc hs
  constructor
  · rintro ⟨a, ha, hn⟩
    have : resolve st f.args = none := (resolve_none_iff st f.args).2 ⟨a, ha, h.undef _ _ (target_ne_str _) hn⟩
    simp [exec, define, this]
  · intro ha
    cases hr : resolve st f.args with
    | none =>
      obtain ⟨a, h1, h2⟩ := (resolve_none_iff st f.args).1 hr
      have h3 := h.known (target_ne_str a.1) a.2
      rw [h2] at h3
      exact absurd (by simpa using h3.symm) (ha a h1)
    | some deps => exact ⟨_, by simp only [exec, define, hr]; rfl⟩

end Slat.Names
