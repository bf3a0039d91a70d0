import Verif.ParForModel
import Verif.CacheFnProps
import Verif.CacheValProps
import Mathlib.Data.List.Perm.Basic

/-! Proof support for the parallel loops: what a loop needs from the object its body calls (`Serves`), and that
the three kinds of objects provide it (helper file). -/

namespace Slat.ParFor

variable {Tid A V X R : Type} [DecidableEq Tid]

/-- The object answers calls with `F` (`none`: the call throws), in at most `B` statements each, and some call
can always go on unless one that throws is pending. -/
structure Serves (S : Svc Tid V X) (F : V → Option X) (Inv : S.St → Prop) (busy : S.St → Tid → Option V)
    (rank : S.St → ℕ) (B : ℕ) : Prop where
  callable : ∀ s t v, Inv s → busy s t = none → ∃ s', S.call s t v = some s'
  call : ∀ s t v s', Inv s → S.call s t v = some s' →
    Inv s' ∧ busy s' = Function.update (busy s) t (some v) ∧ rank s' ≤ rank s + B
  run : ∀ s t s' o, Inv s → S.run s t = some (s', o) → Inv s' ∧ rank s' < rank s ∧
    ∃ v, busy s t = some v ∧
      ((o = .busy ∧ busy s' = busy s) ∨
       (∃ x, o = .done x ∧ F v = some x ∧ busy s' = Function.update (busy s) t none) ∨
       (o = .threw ∧ F v = none))
  live : ∀ s, Inv s → (∀ t v, busy s t = some v → F v ≠ none) → (∃ t, busy s t ≠ none) →
    ∃ t r, S.run s t = some r

/-- What is true at every moment of a loop. -/
structure LInv (L : Loop A V X R) (S : Svc Tid V X) (F : V → Option X) (Inv : S.St → Prop)
    (busy : S.St → Tid → Option V) (s : LSt S.St R Tid) : Prop where
  svc : Inv s.svc
  calling : s.crashed = false → ∀ t i, s.work t = .calling i →
    ∃ a, L.args[i]? = some a ∧ busy s.svc t = some (L.arg a)
  others : s.crashed = false → ∀ t, (∀ i, s.work t ≠ .calling i) → busy s.svc t = none
  storing : ∀ t i r, s.work t = .storing i r →
    ∃ a x, L.args[i]? = some a ∧ F (L.arg a) = some x ∧ r = L.post a x
  length : s.result.length = L.args.length
  handed : (s.started ++ s.pool).Perm (List.range L.args.length)
  covered : ∀ i a, L.args[i]? = some a → i ∈ s.pool ∨ (∃ t, s.work t = .calling i) ∨
    (∃ t r, s.work t = .storing i r) ∨ ∃ x, F (L.arg a) = some x ∧ s.result[i]? = some (L.post a x)
  crash : s.crashed = true → ∃ a ∈ L.args, F (L.arg a) = none

/-- Whether a thread is inside an iteration. -/
def Work.inside : Work R → Bool
  | .idle => false
  | _ => true

/-- Threads inside an iteration. -/
def active [Fintype Tid] (w : Tid → Work R) : Finset Tid :=
  Finset.univ.filter (fun t => (w t).inside = true)

/-- Steps still to be made at most. -/
def measure [Fintype Tid] {S : Type} (rank : S → ℕ) (B : ℕ) (s : LSt S R Tid) : ℕ :=
  (B + 2) * s.pool.length + rank s.svc + (active s.work).card

section
variable {L : Loop A V X R} {S : Svc Tid V X} {F : V → Option X} {Inv : S.St → Prop}
  {busy : S.St → Tid → Option V} {rank : S.St → ℕ} {B : ℕ}

theorem linv_begin (s : S.St) (hi : Inv s) (hb : ∀ t, busy s t = none) :
    LInv L S F Inv busy (begin L S s) where
  svc := hi
  calling := by intro _ t i h; cases h
  others := fun _ t _ => hb t
  storing := by intro t i r h; cases h
  length := by simp [begin]
  handed := by simp [begin]
  covered := by
    intro i a ha
    left
    simp only [begin, List.mem_range]
    exact (List.getElem?_eq_some_iff.1 ha).1
  crash := by simp [begin]

theorem linv_step (hS : Serves S F Inv busy rank B) {s s' : LSt S.St R Tid} {l : Lbl Tid}
    (h : LInv L S F Inv busy s) (hs : step L S s l = some s') : LInv L S F Inv busy s' := by
  obtain ⟨hsvc, hcall, hoth, hsto, hlen, hhand, hcov, hcr⟩ := h
  unfold step at hs
  split at hs
  · cases hs
  rename_i hnc
  have hnc : s.crashed = false := by simpa using hnc
  have hcall := hcall hnc
  have hoth := hoth hnc
  cases l with
  | take t i =>
    simp only at hs
    split at hs <;> try (cases hs; done)
    rename_i hw
    split at hs <;> try (cases hs; done)
    rename_i hi
    split at hs <;> try (cases hs; done)
    rename_i a ha
    simp only [Option.map_eq_some_iff] at hs
    obtain ⟨v', hv', rfl⟩ := hs
    obtain ⟨hi', hb', -⟩ := hS.call _ _ _ _ hsvc hv'
    refine ⟨hi', ?_, ?_, ?_, hlen, ?_, ?_, hcr⟩
    · intro _ u j hu
      dsimp only at hu ⊢
      rw [hb']
      by_cases hut : u = t
      · subst hut
        simp only [Function.update_self, Work.calling.injEq] at hu ⊢
        subst hu
        exact ⟨a, ha, rfl⟩
      · rw [Function.update_of_ne hut] at hu ⊢
        exact hcall u j hu
    · intro _ u hu
      dsimp only at hu ⊢
      rw [hb']
      by_cases hut : u = t
      · subst hut
        exact absurd (by simp) (hu i)
      · rw [Function.update_of_ne hut] at hu ⊢
        exact hoth u hu
    · intro u j r hu
      dsimp only at hu
      by_cases hut : u = t
      · subst hut
        simp at hu
      · rw [Function.update_of_ne hut] at hu
        exact hsto u j r hu
    · dsimp only
      refine List.Perm.trans ?_ hhand
      have := (List.perm_cons_erase hi).symm
      exact (List.perm_middle.symm.trans (List.Perm.append_left _ this))
    · intro j b hb
      dsimp only
      rcases hcov j b hb with hp | ⟨u, hu⟩ | ⟨u, r, hu⟩ | hd
      · by_cases hij : j = i
        · subst hij
          exact .inr (.inl ⟨t, by simp⟩)
        · exact .inl ((List.mem_erase_of_ne hij).2 hp)
      · refine .inr (.inl ⟨u, ?_⟩)
        have hut : u ≠ t := by rintro rfl; rw [hw] at hu; cases hu
        rw [Function.update_of_ne hut]; exact hu
      · refine .inr (.inr (.inl ⟨u, r, ?_⟩))
        have hut : u ≠ t := by rintro rfl; rw [hw] at hu; cases hu
        rw [Function.update_of_ne hut]; exact hu
      · exact .inr (.inr (.inr hd))
  | run t =>
    simp only at hs
    split at hs <;> try (cases hs; done)
    rename_i i hw
    obtain ⟨a, ha, hba⟩ := hcall t i hw
    split at hs
    · rename_i v' hv'
      simp only [Option.some.injEq] at hs; subst hs
      obtain ⟨hi', -, v, hbv, h | ⟨x, h, -⟩ | ⟨h, -⟩⟩ := hS.run _ _ _ _ hsvc hv' <;> try (cases h; done)
      refine ⟨hi', ?_, ?_, hsto, hlen, hhand, hcov, hcr⟩
      · intro _; dsimp only; rw [h.2]; exact hcall
      · intro _; dsimp only; rw [h.2]; exact hoth
    · rename_i v' x hv'
      rw [ha] at hs
      simp only [Option.some.injEq] at hs; subst hs
      obtain ⟨hi', -, v, hbv, ⟨h, -⟩ | ⟨x', h, hF, hb'⟩ | ⟨h, -⟩⟩ := hS.run _ _ _ _ hsvc hv' <;>
        try (cases h; done)
      cases h
      rw [hba] at hbv
      cases hbv
      refine ⟨hi', ?_, ?_, ?_, hlen, hhand, ?_, hcr⟩
      · intro _ u j hu
        dsimp only at hu ⊢
        rw [hb']
        by_cases hut : u = t
        · subst hut
          simp at hu
        · rw [Function.update_of_ne hut] at hu ⊢
          exact hcall u j hu
      · intro _ u hu
        dsimp only at hu ⊢
        rw [hb']
        by_cases hut : u = t
        · subst hut
          simp
        · rw [Function.update_of_ne hut] at hu ⊢
          exact hoth u hu
      · intro u j r hu
        dsimp only at hu
        by_cases hut : u = t
        · subst hut
          simp only [Function.update_self, Work.storing.injEq] at hu
          obtain ⟨rfl, rfl⟩ := hu
          exact ⟨a, x, ha, hF, rfl⟩
        · rw [Function.update_of_ne hut] at hu
          exact hsto u j r hu
      · intro j b hb
        dsimp only
        rcases hcov j b hb with hp | ⟨u, hu⟩ | ⟨u, r, hu⟩ | hd
        · exact .inl hp
        · by_cases hut : u = t
          · subst hut
            rw [hw] at hu
            cases hu
            exact .inr (.inr (.inl ⟨u, _, Function.update_self ..⟩))
          · refine .inr (.inl ⟨u, ?_⟩)
            rw [Function.update_of_ne hut]; exact hu
        · refine .inr (.inr (.inl ⟨u, r, ?_⟩))
          have hut : u ≠ t := by rintro rfl; rw [hw] at hu; cases hu
          rw [Function.update_of_ne hut]; exact hu
        · exact .inr (.inr (.inr hd))
    · rename_i v' hv'
      simp only [Option.some.injEq] at hs; subst hs
      obtain ⟨hi', -, v, hbv, ⟨h, -⟩ | ⟨x', h, -⟩ | ⟨-, hF⟩⟩ := hS.run _ _ _ _ hsvc hv' <;>
        try (cases h; done)
      rw [hba] at hbv
      cases hbv
      refine ⟨hi', by simp, by simp, hsto, hlen, hhand, hcov, ?_⟩
      intro _
      exact ⟨a, List.mem_of_getElem? ha, hF⟩
    · cases hs
  | store t =>
    simp only at hs
    split at hs <;> try (cases hs; done)
    rename_i i r hw
    simp only [Option.some.injEq] at hs; subst hs
    obtain ⟨a, x, ha, hF, rfl⟩ := hsto t i r hw
    refine ⟨hsvc, ?_, ?_, ?_, by simpa using hlen, hhand, ?_, hcr⟩
    · intro _ u j hu
      dsimp only at hu ⊢
      by_cases hut : u = t
      · subst hut; simp at hu
      · rw [Function.update_of_ne hut] at hu
        exact hcall u j hu
    · intro _ u hu
      dsimp only at hu ⊢
      by_cases hut : u = t
      · subst hut
        exact hoth u (by rw [hw]; simp)
      · rw [Function.update_of_ne hut] at hu
        exact hoth u hu
    · intro u j r hu
      dsimp only at hu
      by_cases hut : u = t
      · subst hut; simp at hu
      · rw [Function.update_of_ne hut] at hu
        exact hsto u j r hu
    · intro j b hb
      dsimp only
      by_cases hij : j = i
      · subst hij
        rw [ha] at hb
        cases hb
        refine .inr (.inr (.inr ⟨x, hF, ?_⟩))
        rw [List.getElem?_set_self]
        rw [hlen]
        exact (List.getElem?_eq_some_iff.1 ha).1
      · rcases hcov j b hb with hp | ⟨u, hu⟩ | ⟨u, r, hu⟩ | hd
        · exact .inl hp
        · refine .inr (.inl ⟨u, ?_⟩)
          have hut : u ≠ t := by rintro rfl; rw [hw] at hu; cases hu
          rw [Function.update_of_ne hut]; exact hu
        · refine .inr (.inr (.inl ⟨u, r, ?_⟩))
          have hut : u ≠ t := by
            rintro rfl; rw [hw] at hu; cases hu; exact hij rfl
          rw [Function.update_of_ne hut]; exact hu
        · refine .inr (.inr (.inr ?_))
          rw [List.getElem?_set_ne (Ne.symm hij)]
          exact hd

theorem linv_exec (hS : Serves S F Inv busy rank B) {s s' : LSt S.St R Tid} {ls : List (Lbl Tid)}
    (he : Exec L S s ls s') (h : LInv L S F Inv busy s) : LInv L S F Inv busy s' := by
  induction he with
  | nil => exact h
  | cons hs _ ih => exact ih (linv_step hS h hs)

theorem mem_active [Fintype Tid] (w : Tid → Work R) (t : Tid) : t ∈ active w ↔ (w t).inside = true := by
  simp [active]

theorem active_enter [Fintype Tid] (w : Tid → Work R) (t : Tid) (p : Work R) :
    (active (Function.update w t p)).card ≤ (active w).card + 1 := by
  have : active (Function.update w t p) ⊆ insert t (active w) := by
    intro u hu
    by_cases hut : u = t
    · subst hut; simp
    · rw [mem_active, Function.update_of_ne hut] at hu
      exact Finset.mem_insert_of_mem ((mem_active w u).2 hu)
  exact (Finset.card_le_card this).trans (Finset.card_insert_le _ _)

theorem active_move [Fintype Tid] (w : Tid → Work R) (t : Tid) (p : Work R) (i : ℕ)
    (hw : w t = .calling i) : (active (Function.update w t p)).card ≤ (active w).card := by
  refine Finset.card_le_card ?_
  intro u hu
  by_cases hut : u = t
  · subst hut; rw [mem_active, hw]; rfl
  · rw [mem_active, Function.update_of_ne hut] at hu
    exact (mem_active w u).2 hu

theorem active_leave [Fintype Tid] (w : Tid → Work R) (t : Tid) (i : ℕ) (r : R)
    (hw : w t = .storing i r) : (active (Function.update w t .idle)).card + 1 ≤ (active w).card := by
  have : active (Function.update w t .idle) ⊆ (active w).erase t := by
    intro u hu
    by_cases hut : u = t
    · subst hut
      rw [mem_active, Function.update_self] at hu
      cases hu
    · rw [mem_active, Function.update_of_ne hut] at hu
      exact Finset.mem_erase.2 ⟨hut, (mem_active w u).2 hu⟩
  have h1 := Finset.card_le_card this
  have h2 : t ∈ active w := by rw [mem_active, hw]; rfl
  rw [Finset.card_erase_of_mem h2] at h1
  have := Finset.card_pos.2 ⟨t, h2⟩
  omega

theorem measure_step [Fintype Tid] (hS : Serves S F Inv busy rank B) {s s' : LSt S.St R Tid} {l : Lbl Tid}
    (h : LInv L S F Inv busy s) (hs : step L S s l = some s') :
    measure rank B s' < measure rank B s := by
  have hsvc := h.svc
  show (B + 2) * s'.pool.length + rank s'.svc + (active s'.work).card <
    (B + 2) * s.pool.length + rank s.svc + (active s.work).card
  unfold step at hs
  split at hs
  · cases hs
  cases l with
  | take t i =>
    simp only at hs
    split at hs <;> try (cases hs; done)
    rename_i hw
    split at hs <;> try (cases hs; done)
    rename_i hi
    split at hs <;> try (cases hs; done)
    simp only [Option.map_eq_some_iff] at hs
    obtain ⟨v', hv', rfl⟩ := hs
    obtain ⟨-, -, hr⟩ := hS.call _ _ _ _ hsvc hv'
    have h1 := active_enter s.work t (.calling i)
    have h2 : (s.pool.erase i).length + 1 = s.pool.length := by
      rw [List.length_erase_of_mem hi]
      have := List.length_pos_of_mem hi
      omega
    dsimp only
    rw [← h2, Nat.mul_add]
    omega
  | run t =>
    simp only at hs
    split at hs <;> try (cases hs; done)
    rename_i i hw
    split at hs
    · rename_i v' hv'
      simp only [Option.some.injEq] at hs; subst hs
      have := (hS.run _ _ _ _ hsvc hv').2.1
      dsimp only; omega
    · rename_i v' x hv'
      split at hs <;> try (cases hs; done)
      rename_i a ha
      simp only [Option.some.injEq] at hs; subst hs
      have := (hS.run _ _ _ _ hsvc hv').2.1
      have := active_move s.work t (.storing i (L.post a x)) i hw
      dsimp only; omega
    · rename_i v' hv'
      simp only [Option.some.injEq] at hs; subst hs
      have := (hS.run _ _ _ _ hsvc hv').2.1
      dsimp only; omega
    · cases hs
  | store t =>
    simp only at hs
    split at hs <;> try (cases hs; done)
    rename_i i r hw
    simp only [Option.some.injEq] at hs; subst hs
    have := active_leave s.work t i r hw
    dsimp only; omega

theorem measure_exec [Fintype Tid] (hS : Serves S F Inv busy rank B) {s s' : LSt S.St R Tid}
    {ls : List (Lbl Tid)} (he : Exec L S s ls s') (h : LInv L S F Inv busy s) :
    ls.length + measure rank B s' ≤ measure rank B s := by
  induction he with
  | nil => simp
  | cons hs _ ih =>
    have := ih (linv_step hS h hs)
    have := measure_step hS h hs
    simp only [List.length_cons]; omega

/-- A loop that can make no step has finished or was ended by an exception. -/
theorem stuck_finished [Nonempty Tid] (hS : Serves S F Inv busy rank B)
    (hF : ∀ a ∈ L.args, F (L.arg a) ≠ none) {s : LSt S.St R Tid}
    (h : LInv L S F Inv busy s) (hst : ∀ l, step L S s l = none) : Finished s := by
  have hnc : s.crashed = false := by
    cases hc : s.crashed with
    | false => rfl
    | true => obtain ⟨a, ha, hn⟩ := h.crash hc; exact absurd hn (hF a ha)
  have hnos : ∀ t i r, s.work t ≠ .storing i r := by
    intro t i r hw
    have := hst (.store t)
    simp [step, hnc, hw] at this
  have hnoc : ∀ t i, s.work t ≠ .calling i := by
    intro t i hw
    obtain ⟨a, ha, hb⟩ := h.calling hnc t i hw
    obtain ⟨u, ⟨s', o⟩, hr⟩ := hS.live s.svc h.svc (by
      intro u v hv
      by_cases hu : ∃ j, s.work u = .calling j
      · obtain ⟨j, hj⟩ := hu
        obtain ⟨b, hb, hbb⟩ := h.calling hnc u j hj
        rw [hbb] at hv; cases hv
        exact hF b (List.mem_of_getElem? hb)
      · have := h.others hnc u (by push Not at hu; exact hu)
        rw [this] at hv; cases hv) ⟨t, by simp [hb]⟩
    obtain ⟨-, -, v, hv, ho⟩ := hS.run _ _ _ _ h.svc hr
    by_cases hu : ∃ j, s.work u = .calling j
    · obtain ⟨j, hj⟩ := hu
      obtain ⟨b, hb, -⟩ := h.calling hnc u j hj
      have := hst (.run u)
      simp only [step, hnc, hj, hr, hb] at this
      cases o <;> simp at this
    · have := h.others hnc u (by push Not at hu; exact hu)
      rw [this] at hv; cases hv
  have hidle : ∀ t, s.work t = .idle := by
    intro t
    cases hw : s.work t with
    | idle => rfl
    | calling i => exact absurd hw (hnoc t i)
    | storing i r => exact absurd hw (hnos t i r)
  refine ⟨hnc, ?_, hidle⟩
  by_contra hp
  obtain ⟨i, hi⟩ := List.exists_mem_of_ne_nil _ hp
  have hlt : i < L.args.length := by
    have := h.handed.subset (List.mem_append_right _ hi)
    simpa using this
  obtain ⟨t⟩ := (inferInstance : Nonempty Tid)
  obtain ⟨s', hs'⟩ := hS.callable s.svc t (L.arg L.args[i]) h.svc
    (h.others hnc t (by simp [hidle t]))
  have := hst (.take t i)
  simp [step, hnc, hidle t, hi, hlt, hs'] at this

/-- The result of a finished loop. -/
theorem finished_result {s : LSt S.St R Tid} (h : LInv L S F Inv busy s) (hf : Finished s) :
    s.result.map some = L.args.map (fun a => (F (L.arg a)).map (L.post a)) ∧
    s.started.Perm (List.range L.args.length) := by
  obtain ⟨-, hp, hw⟩ := hf
  refine ⟨?_, by simpa [hp] using h.handed⟩
  apply List.ext_getElem?
  intro i
  rw [List.getElem?_map, List.getElem?_map]
  cases ha : L.args[i]? with
  | none =>
    have : L.args.length ≤ i := List.getElem?_eq_none_iff.1 ha
    have : s.result[i]? = none := List.getElem?_eq_none_iff.2 (by rw [h.length]; exact this)
    simp [this]
  | some a =>
    rcases h.covered i a ha with hh | ⟨t, hh⟩ | ⟨t, r, hh⟩ | ⟨x, hF, hr⟩
    · simp [hp] at hh
    · simp [hw t] at hh
    · simp [hw t] at hh
    · simp [hF, hr]

end

/-! ## The three kinds of objects -/

theorem pure_serves [Fintype Tid] (f : V → Option X) :
    Serves (pureSvc Tid f) f (fun _ => True) (fun (s : Tid → Option V) => s)
      (fun (s : Tid → Option V) => (Finset.univ.filter (fun t => (s t).isSome)).card) 1 := by
  constructor
  · intro (s : Tid → Option V) t v _ (hb : s t = none)
    exact ⟨Function.update s t (some v), by show pureCall s t v = _; rw [pureCall, hb]; rfl⟩
  · intro (s : Tid → Option V) t v (s' : Tid → Option V) _ (hs : pureCall s t v = some s')
    unfold pureCall at hs
    split at hs <;> simp only [Option.some.injEq, reduceCtorEq] at hs
    subst hs
    refine ⟨trivial, rfl, ?_⟩
    have : Finset.univ.filter (fun u => (Function.update s t (some v) u).isSome) ⊆
        insert t (Finset.univ.filter (fun u => (s u).isSome)) := by
      intro u hu
      by_cases hut : u = t
      · subst hut; simp
      · simpa [Function.update_of_ne hut, hut] using hu
    exact (Finset.card_le_card this).trans (Finset.card_insert_le _ _)
  · intro (s : Tid → Option V) t (s' : Tid → Option V) o _ (hs : pureRun f s t = some (s', o))
    unfold pureRun at hs
    split at hs <;> simp only [Option.some.injEq, reduceCtorEq, Prod.mk.injEq] at hs
    rename_i v ht
    obtain ⟨rfl, rfl⟩ := hs
    refine ⟨trivial, ?_, v, ht, ?_⟩
    · have h1 : Finset.univ.filter (fun u => (Function.update s t none u).isSome) ⊂
          Finset.univ.filter (fun u => (s u).isSome) := by
        refine ⟨?_, ?_⟩
        · intro u hu
          by_cases hut : u = t
          · subst hut; simp at hu
          · simpa [Function.update_of_ne hut] using hu
        · intro hsub
          have : t ∈ Finset.univ.filter (fun u => (s u).isSome) := by simp [ht]
          have := hsub this
          simp at this
      exact Finset.card_lt_card h1
    · cases hv : f v with
      | none => exact .inr (.inr ⟨rfl, rfl⟩)
      | some x => exact .inr (.inl ⟨x, rfl, rfl, rfl⟩)
  · intro (s : Tid → Option V) _ _ ⟨t, ht⟩
    cases hv : s t with
    | none => exact absurd hv ht
    | some v => exact ⟨t, _, by show pureRun f s t = _; rw [pureRun, hv]; rfl⟩

theorem fn_threw [DecidableEq V] [Inhabited X] {c : CacheFn.Cfg V X} {s s' : CacheFn.St Tid V X} {t u : Tid}
    {v : V} (hs : CacheFn.stepThread c s t = some s') (hl : s'.log = .threw u v :: s.log) :
    c.func v = none := by
  have hne : ∀ l : List (CacheFn.Ev Tid V X), l ≠ .threw u v :: l := fun l h => by
    have := congrArg List.length h
    simp at this
  unfold CacheFn.stepThread at hs
  split at hs
  all_goals (try unfold CacheFn.St.acquire at hs)
  all_goals (try unfold CacheFn.St.release at hs)
  all_goals grind [CacheFn.St.goto, CacheFn.St.die]

theorem fn_serves [Fintype Tid] [DecidableEq V] [Inhabited X] (c : CacheFn.Cfg V X) :
    Serves (fnSvc Tid c) c.func (fun s => CacheFn.Inv c s) (fun s t => (s.pc t).arg)
      (fun s => ∑ t, (s.pc t).rank) 11 := by
  have hidle : ∀ p : CacheFn.Pc V X, p.arg = none → p = .idle := by
    intro p h; cases p <;> simp [CacheFn.Pc.arg] at h ⊢
  constructor
  · intro s t v hi hb
    have := hidle _ hb
    exact ⟨_, by simp only [fnSvc, CacheFn.step, hi.noFault, this]; rfl⟩
  · intro (s : CacheFn.St Tid V X) t v (s' : CacheFn.St Tid V X) hi
      (hs : CacheFn.step c s (.call t v) = some s')
    refine ⟨CacheFn.inv_step hi _ (by simp) hs, ?_⟩
    simp only [CacheFn.step, hi.noFault, Option.isSome_none, Bool.false_eq_true, if_false] at hs
    split at hs <;> simp only [Option.some.injEq, reduceCtorEq] at hs
    rename_i hpc
    subst hs
    refine ⟨?_, ?_⟩
    · funext u
      by_cases hut : u = t
      · subst hut; simp [CacheFn.St.goto, CacheFn.Pc.arg]
      · simp [CacheFn.St.goto, Function.update_of_ne hut]
    · have := CacheFn.sum_rank_update s.pc t (.start v)
      have h11 : (CacheFn.Pc.start v : CacheFn.Pc V X).rank = 11 := rfl
      have h0 : (CacheFn.Pc.idle : CacheFn.Pc V X).rank = 0 := rfl
      rw [hpc, h11, h0] at this
      simp only [CacheFn.St.goto]
      omega
  · intro (s : CacheFn.St Tid V X) t (s' : CacheFn.St Tid V X) o hi (hs : fnRun c s t = some (s', o))
    unfold fnRun at hs
    split at hs <;> simp only [Option.some.injEq, reduceCtorEq, Prod.mk.injEq] at hs
    rename_i s1 hs1
    obtain ⟨rfl, rfl⟩ := hs
    have hi' := CacheFn.inv_step hi _ (by simp) hs1
    simp only [CacheFn.step, hi.noFault, Option.isSome_none, Bool.false_eq_true, if_false] at hs1
    obtain ⟨v, p, hv, hpc, hr, hlog⟩ := CacheFn.stepThread_shape hi t hs1
    have hrank := CacheFn.sum_rank_update s.pc t p
    refine ⟨hi', by rw [hpc]; omega, v, hv, ?_⟩
    have hpt : s1.pc t = p := by rw [hpc]; simp
    have hbusy : p.arg = some v → (fun u => (s1.pc u).arg) = fun u => (s.pc u).arg := by
      intro hp; funext u
      by_cases hut : u = t
      · subst hut; rw [hpt, hp, hv]
      · rw [hpc, Function.update_of_ne hut]
    have hdone : p = .idle → (fun u => (s1.pc u).arg) = Function.update (fun u => (s.pc u).arg) t none := by
      intro hp; funext u
      by_cases hut : u = t
      · subst hut; rw [hpt, hp]; simp [CacheFn.Pc.arg]
      · rw [hpc, Function.update_of_ne hut, Function.update_of_ne hut]
    have hnot : p.arg = some v → p ≠ .idle := by rintro h rfl; simp [CacheFn.Pc.arg] at h
    rcases hlog with ⟨hp, -⟩ | ⟨hp, -⟩ | ⟨hp, hlog⟩ | ⟨hp, -, x, hlog⟩ | ⟨hp, -, x, hlog⟩
    · exact .inl ⟨by rw [hpt]; have := hnot hp; cases p <;> simp at this ⊢, hbusy hp⟩
    · exact .inl ⟨by rw [hpt]; have := hnot hp; cases p <;> simp at this ⊢, hbusy hp⟩
    · exact .inr (.inr ⟨by rw [hpt, hp, hlog]; rfl, fn_threw hs1 hlog⟩)
    · exact .inr (.inl ⟨x, by rw [hpt, hp, hlog]; rfl, hi'.rets t v x (by simp [hlog]), hdone hp⟩)
    · exact .inr (.inl ⟨x, by rw [hpt, hp, hlog]; rfl, hi'.rets t v x (by simp [hlog]), hdone hp⟩)
  · intro (s : CacheFn.St Tid V X) hi hF ⟨t, ht⟩
    by_contra hno
    push Not at hno
    have hst : ∀ u, CacheFn.stepThread c s u = none := by
      intro u
      cases hu : CacheFn.stepThread c s u with
      | none => rfl
      | some s' =>
        have hstep : CacheFn.step c s (.run u) = some s' := by
          simp [CacheFn.step, hi.noFault, hu]
        exact absurd (show fnRun c s u = some (s', _) by rw [fnRun, hstep]) (hno u _)
    rcases CacheFn.stuck_shape hi hst t with h | ⟨w, g, hw, hf⟩
    · simp [h, CacheFn.Pc.arg] at ht
    · exact hF t w (by simp [hw, CacheFn.Pc.arg]) hf

/-- What a loop over a `CachedValue` that was never cleared relies on: what the value is computed from has
been `w` all along. -/
structure ValInv {W : Type} (c : CacheVal.Cfg W X) (w : W) (s : CacheVal.St Tid W X) : Prop where
  inv : CacheVal.Inv s
  world : s.world = w
  outcomes : ∀ o ∈ CacheVal.outcomes s.log, o = c.func w

/-- Pending calls of a `CachedValue`. -/
def valBusy {W : Type} (s : CacheVal.St Tid W X) (t : Tid) : Option Unit :=
  match s.pc t with
  | .idle => none
  | _ => some ()

theorem valBusy_none {W : Type} (s : CacheVal.St Tid W X) (t : Tid) : valBusy s t = none ↔ s.pc t = .idle := by
  unfold valBusy; split <;> simp_all

theorem valBusy_some {W : Type} (s : CacheVal.St Tid W X) (t : Tid) :
    valBusy s t = some () ↔ s.pc t ≠ .idle := by
  unfold valBusy; split <;> simp_all

/-- What a statement does to world and outcomes. -/
theorem val_effect {W : Type} {c : CacheVal.Cfg W X} {s s' : CacheVal.St Tid W X} {t : Tid}
    (hs : CacheVal.stepThread c s t = some s') :
    s'.world = s.world ∧ (CacheVal.outcomes s'.log = CacheVal.outcomes s.log ∨
      CacheVal.outcomes s'.log = c.func s.world :: CacheVal.outcomes s.log) ∧
    ((∃ u, s'.log = .threw u :: s.log) → c.func s.world = none) := by
  have hne : ∀ (l : List (CacheVal.Ev Tid X)) u, l ≠ .threw u :: l := fun l u h => by
    have := congrArg List.length h
    simp at this
  unfold CacheVal.stepThread at hs
  split at hs
  all_goals (try unfold CacheVal.St.acquire at hs)
  all_goals (try unfold CacheVal.St.release at hs)
  all_goals (try unfold CacheVal.St.releaseWaiting at hs)
  all_goals grind [CacheVal.St.goto, CacheVal.St.die, CacheVal.outcomes]

theorem val_serves [Fintype Tid] {W : Type} (c : CacheVal.Cfg W X) (w : W) :
    Serves (valSvc Tid c) (fun _ => c.func w) (fun s => ValInv c w s) (fun s => valBusy s)
      (fun s => ∑ t, (s.pc t).rank) 11 := by
  constructor
  · intro (s : CacheVal.St Tid W X) t v hi (hb : valBusy s t = none)
    have := (valBusy_none s t).1 hb
    exact ⟨_, by simp only [valSvc, CacheVal.step, hi.inv.noFault, this]; rfl⟩
  · intro (s : CacheVal.St Tid W X) t v (s' : CacheVal.St Tid W X) hi
      (hs : CacheVal.step c s (.call t) = some s')
    have hi' := CacheVal.inv_step hi.inv _ (by simp) hs
    simp only [CacheVal.step, hi.inv.noFault, Option.isSome_none, Bool.false_eq_true, if_false] at hs
    split at hs <;> simp only [Option.some.injEq, reduceCtorEq] at hs
    rename_i hpc
    subst hs
    refine ⟨⟨hi', hi.world, by simpa [CacheVal.outcomes] using hi.outcomes⟩, ?_, ?_⟩
    · funext u
      by_cases hut : u = t
      · subst hut; simp [CacheVal.St.goto, valBusy]
      · simp [CacheVal.St.goto, Function.update_of_ne hut, valBusy]
    · have := CacheVal.sum_rank_update s.pc t .start
      have h11 : (CacheVal.Pc.start : CacheVal.Pc X).rank = 11 := rfl
      have h0 : (CacheVal.Pc.idle : CacheVal.Pc X).rank = 0 := rfl
      rw [hpc, h11, h0] at this
      simp only [CacheVal.St.goto]
      omega
  · intro (s : CacheVal.St Tid W X) t (s' : CacheVal.St Tid W X) o hi (hs : valRun c s t = some (s', o))
    unfold valRun at hs
    split at hs <;> simp only [Option.some.injEq, reduceCtorEq, Prod.mk.injEq] at hs
    rename_i s1 hs1
    obtain ⟨rfl, rfl⟩ := hs
    have hi' := CacheVal.inv_step hi.inv _ (by simp) hs1
    simp only [CacheVal.step, hi.inv.noFault, Option.isSome_none, Bool.false_eq_true, if_false] at hs1
    obtain ⟨p, hv, hpc, hr, hlog⟩ := CacheVal.stepThread_shape t hs1 hi'.noFault
    obtain ⟨hw, ho, hth⟩ := val_effect hs1
    rw [hi.world] at hw ho hth
    have hrank := CacheVal.sum_rank_update s.pc t p
    have hV : ValInv c w s1 := by
      refine ⟨hi', hw, ?_⟩
      intro o hmem
      rcases ho with h | h <;> rw [h] at hmem
      · exact hi.outcomes o hmem
      · rcases List.mem_cons.1 hmem with h | h
        · exact h
        · exact hi.outcomes o h
    refine ⟨hV, by rw [hpc]; omega, (), (valBusy_some s t).2 hv, ?_⟩
    have hpt : s1.pc t = p := by rw [hpc]; simp
    have hbusy : p ≠ .idle → valBusy s1 = valBusy s := by
      intro hp; funext u
      by_cases hut : u = t
      · subst hut
        rw [(valBusy_some s u).2 hv, (valBusy_some s1 u).2 (by rw [hpt]; exact hp)]
      · simp [valBusy, hpc, Function.update_of_ne hut]
    have hdone : p = .idle → valBusy s1 = Function.update (valBusy s) t none := by
      intro hp; funext u
      by_cases hut : u = t
      · subst hut; rw [Function.update_self, valBusy_none, hpt, hp]
      · simp [valBusy, hpc, Function.update_of_ne hut]
    rcases hlog with ⟨hp, -⟩ | ⟨hp, -⟩ | ⟨hp, hlog | ⟨x, hlog⟩⟩
    · exact .inl ⟨by rw [hpt]; cases p <;> simp at hp ⊢, hbusy hp⟩
    · exact .inl ⟨by rw [hpt]; cases p <;> simp at hp ⊢, hbusy hp⟩
    · exact .inr (.inr ⟨by rw [hpt, hp, hlog]; rfl, hth ⟨t, hlog⟩⟩)
    · refine .inr (.inl ⟨x, by rw [hpt, hp, hlog]; rfl, ?_, hdone hp⟩)
      obtain ⟨hval, rfl⟩ := hi'.rets t x (by simp [hlog])
      have := hi'.valid hval
      exact (hV.outcomes (some s1.value) (by simp [this])).symm
  · intro (s : CacheVal.St Tid W X) hi hF ⟨t, ht⟩
    by_contra hno
    push Not at hno
    have hst : ∀ u, CacheVal.stepThread c s u = none := by
      intro u
      cases hu : CacheVal.stepThread c s u with
      | none => rfl
      | some s' =>
        have hstep : CacheVal.step c s (.run u) = some s' := by
          simp [CacheVal.step, hi.inv.noFault, hu]
        exact absurd (show valRun c s u = some (s', _) by rw [valRun, hstep]) (hno u _)
    have hfn : c.func w ≠ none := by
      refine hF t () ?_
      show valBusy s t = some ()
      cases hb : valBusy s t with
      | none => exact absurd hb ht
      | some u => rfl
    refine ht ((valBusy_none s t).2 (CacheVal.stuck_shape hi.inv ?_ hst t))
    intro hn
    exact hfn (hi.outcomes none hn).symm

end Slat.ParFor
