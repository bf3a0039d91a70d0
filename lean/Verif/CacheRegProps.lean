import Verif.CacheRegModel

/-!
# The registry of caches (property C10)
-/

namespace Slat.CacheReg

/-- The registry lists exactly the live caches, once each, with their own clear functions. -/
structure Inv (s : St) : Prop where
  keys : (s.reg.map Prod.fst).Nodup
  own : ∀ e ∈ s.reg, e.2 = e.1
  live : ∀ a, (∃ e ∈ s.reg, e.1 = a) ↔ (s.heap a).isSome = true
  ok : s.fault = false

theorem regSet_new (a : ℕ) (l : List (ℕ × ℕ)) (h : ∀ e ∈ l, e.1 ≠ a) : regSet a a l = l ++ [(a, a)] := by
  induction l with
  | nil => rfl
  | cons e l ih =>
    have h1 := h e List.mem_cons_self
    simp only [regSet, h1, if_false, List.cons_append]
    rw [ih (fun e he => h e (List.mem_cons_of_mem _ he))]

/-- Effect of running a list of clear functions on live, distinct caches. -/
theorem foldl_runClear (l : List (ℕ × ℕ)) (s : St) (hl : ∀ e ∈ l, (s.heap e.2).isSome = true)
    (hn : (l.map Prod.snd).Nodup) :
    let s' := l.foldl (fun s e => runClear s e.2) s
    s'.reg = s.reg ∧ s'.fault = s.fault ∧
    ∀ a, s'.heap a = if a ∈ l.map Prod.snd then (s.heap a).map (fun o => ⟨0, o.clears + 1⟩) else s.heap a := by
  induction l generalizing s with
  | nil => simp
  | cons e l ih =>
    obtain ⟨o, ho⟩ := Option.isSome_iff_exists.1 (hl e List.mem_cons_self)
    simp only [List.map_cons, List.nodup_cons] at hn
    have hr : runClear s e.2 = { s with heap := Function.update s.heap e.2 (some ⟨0, o.clears + 1⟩) } := by
      simp [runClear, ho]
    have hne : ∀ e' ∈ l, e'.2 ≠ e.2 := fun e' he' hh =>
      hn.1 (List.mem_map.2 ⟨e', he', hh⟩)
    have := ih (runClear s e.2) (by
      intro e' he'
      rw [hr]
      simp only [Function.update_of_ne (hne e' he')]
      exact hl e' (List.mem_cons_of_mem _ he')) hn.2
    simp only [List.foldl_cons]
    obtain ⟨h1, h2, h3⟩ := this
    refine ⟨by rw [h1, hr], by rw [h2, hr], ?_⟩
    intro a
    rw [h3 a, hr]
    simp only [List.map_cons, List.mem_cons]
    by_cases ha : a = e.2
    · subst ha
      simp [hn.1, ho]
    · by_cases hm : a ∈ l.map Prod.snd
      · rw [if_pos hm, if_pos (Or.inr hm), Function.update_of_ne ha]
      · rw [if_neg hm, if_neg (by simp [ha, hm]), Function.update_of_ne ha]

theorem inv_step {s s' : St} (h : Inv s) (op : Op) (hs : step s op = some s') : Inv s' := by
  obtain ⟨hk, ho, hl, hf⟩ := h
  cases op with
  | construct a =>
    simp only [step] at hs
    split at hs <;> simp only [Option.some.injEq, reduceCtorEq] at hs
    rename_i hh
    have hno : ∀ e ∈ s.reg, e.1 ≠ a := by
      intro e he hea
      have := (hl a).1 ⟨e, he, hea⟩
      simp [hh] at this
    subst hs
    rw [regSet_new a s.reg hno]
    refine ⟨?_, ?_, ?_, hf⟩
    · simp only [List.map_append, List.map_cons, List.map_nil]
      refine List.Nodup.append hk (by simp) ?_
      simp only [List.disjoint_singleton, List.mem_map, not_exists, not_and]
      exact fun e he hh => hno e he hh
    · intro e he
      rcases List.mem_append.1 he with he | he
      · exact ho e he
      · simp at he; simp [he]
    · intro b
      by_cases hb : b = a
      · subst hb; simp
      · simp only [Function.update_of_ne hb]
        rw [← hl b]
        simp [Ne.symm hb]
  | destroy a =>
    simp only [step] at hs
    split at hs <;> simp only [Option.some.injEq, reduceCtorEq] at hs
    subst hs
    refine ⟨?_, ?_, ?_, hf⟩
    · exact hk.sublist (List.filter_sublist.map _)
    · intro e he; exact ho e (List.mem_of_mem_filter he)
    · intro b
      by_cases hb : b = a
      · subst hb; simp [regErase]
      · simp only [Function.update_of_ne hb]
        rw [← hl b]
        constructor
        · rintro ⟨e, he, rfl⟩; exact ⟨e, List.mem_of_mem_filter he, rfl⟩
        · rintro ⟨e, he, rfl⟩; exact ⟨e, List.mem_filter.2 ⟨he, by simpa using hb⟩, rfl⟩
  | store a =>
    simp only [step] at hs
    split at hs <;> simp only [Option.some.injEq, reduceCtorEq] at hs
    rename_i o hh
    subst hs
    refine ⟨hk, ho, ?_, hf⟩
    intro b
    by_cases hb : b = a
    · subst hb; rw [hl b]; simp [hh]
    · simp only [Function.update_of_ne hb]; exact hl b
  | clearAll order =>
    simp only [step] at hs
    split at hs <;> simp only [Option.some.injEq, reduceCtorEq] at hs
    rename_i hp
    have hlive : ∀ e ∈ order, (s.heap e.2).isSome = true := by
      intro e he
      have he' := hp.mem_iff.2 he
      rw [ho e he']
      exact (hl e.1).1 ⟨e, he', rfl⟩
    have hsnd : order.map Prod.snd = order.map Prod.fst :=
      List.map_congr_left (fun e he => ho e (hp.mem_iff.2 he))
    have hnd : (order.map Prod.snd).Nodup := by
      rw [hsnd]; exact (hp.map Prod.fst).nodup_iff.1 hk
    obtain ⟨h1, h2, h3⟩ := foldl_runClear order s hlive hnd
    rw [hs] at h1 h2 h3
    refine ⟨by rw [h1]; exact hk, by rw [h1]; exact ho, ?_, by rw [h2]; exact hf⟩
    intro a
    rw [h1, hl a, h3 a]
    split <;> simp

theorem inv_run {s s' : St} (h : Inv s) (ops : List Op) (hs : run s ops = some s') : Inv s' := by
  induction ops generalizing s with
  | nil => simp only [run, Option.some.injEq] at hs; subst hs; exact h
  | cons op ops ih =>
    simp only [run, Option.bind_eq_some_iff] at hs
    obtain ⟨s1, h1, h2⟩ := hs
    exact ih (inv_step h op h1) h2

/-- After any history of constructions, destructions (with reuse of addresses), stores and clearings,
`Clear_Caches` - in whatever order it visits its table - runs the clear function of every live cache exactly
once, leaving it empty, runs none of a destroyed cache, and touches nothing else. -/
theorem clear_caches_exact (ops : List Op) (s s' : St) (order : List (ℕ × ℕ))
    (h : run init ops = some s) (hc : step s (.clearAll order) = some s') :
    s'.fault = false ∧
    ∀ a, s'.heap a = (s.heap a).map (fun o => ⟨0, o.clears + 1⟩) := by
  have hi := inv_run (s := init) ⟨by simp [init], by simp [init], by simp [init], rfl⟩ ops h
  have hi' := inv_step hi _ hc
  refine ⟨hi'.ok, ?_⟩
  simp only [step] at hc
  split at hc <;> simp only [Option.some.injEq, reduceCtorEq] at hc
  rename_i hp
  have hlive : ∀ e ∈ order, (s.heap e.2).isSome = true := by
    intro e he
    have he' := hp.mem_iff.2 he
    rw [hi.own e he']
    exact (hi.live e.1).1 ⟨e, he', rfl⟩
  have hsnd : order.map Prod.snd = order.map Prod.fst :=
    List.map_congr_left (fun e he => hi.own e (hp.mem_iff.2 he))
  have hnd : (order.map Prod.snd).Nodup := by
    rw [hsnd]; exact (hp.map Prod.fst).nodup_iff.1 hi.keys
  obtain ⟨-, -, h3⟩ := foldl_runClear order s hlive hnd
  rw [hc] at h3
  intro a
  rw [h3 a]
  split
  · rfl
  · rename_i hna
    cases hh : s.heap a with
    | none => rfl
    | some o =>
      exfalso
      obtain ⟨e, he, hea⟩ := (hi.live a).2 (by simp [hh])
      apply hna
      rw [hsnd]
      exact List.mem_map.2 ⟨e, hp.mem_iff.1 he, hea⟩

/-- `Clear_Caches` can always run, in any order of its table. -/
theorem clear_caches_total (ops : List Op) (s : St) (h : run init ops = some s)
    (order : List (ℕ × ℕ)) (hp : s.reg.Perm order) :
    (step s (.clearAll order)).isSome = true ∧
    (∀ a, (s.heap a).isSome = true ↔ ∃ e ∈ order, e.1 = a) := by
  have hi := inv_run (s := init) ⟨by simp [init], by simp [init], by simp [init], rfl⟩ ops h
  refine ⟨by simp [step, hp], fun a => ?_⟩
  rw [← hi.live a]
  constructor <;> rintro ⟨e, he, rfl⟩
  · exact ⟨e, hp.mem_iff.1 he, rfl⟩
  · exact ⟨e, hp.mem_iff.2 he, rfl⟩

/-- Construct two caches, destroy the first, reuse its address, store results, clear in reverse order. -/
example : ((run init [.construct 1, .construct 2, .store 1, .destroy 1, .construct 1, .store 2,
      .store 2]).map (fun s => decide (s.reg = [(2, 2), (1, 1)] ∧ s.heap 2 = some ⟨2, 0⟩))) = some true ∧
    ((run init [.construct 1, .construct 2, .store 1, .destroy 1, .construct 1, .store 2,
      .store 2, .clearAll [(1, 1), (2, 2)]]).map (fun s => decide (s.fault = false ∧
        s.heap 2 = some ⟨0, 1⟩ ∧ s.heap 1 = some ⟨0, 1⟩))) = some true := by
  decide

end Slat.CacheReg
