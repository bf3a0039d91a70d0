import Verif.GraphCoh

/-! The invariant of careful histories of the object graph. -/

namespace Slat.Graph

variable {V L X Y : Type}

/-- Structural invariant: members refer to live objects of the right class and are registered with them,
and nothing else is registered. -/
structure SInv (w : World V L X Y) : Prop where
  lt : ∀ n o, w.heap n = some o → n < w.next
  wf : WF w.heap
  entryLt : ∀ n o k m, w.heap n = some o → o.slots (.entry k) = some m → k < w.next
  entrySlot : ∀ n o k, w.heap n = some o → k ∈ o.entries → (o.slots (.entry k)).isSome
  reg : ∀ n o s t, w.heap n = some o → o.slots s = some t →
    (o.ids s, (⟨n, s⟩ : Client)) ∈ (w.cbs t).callbacks
  own : ∀ t id n s, (id, (⟨n, s⟩ : Client)) ∈ (w.cbs t).callbacks →
    ∃ o, w.heap n = some o ∧ o.slots s = some t ∧ o.ids s = id
  keys : ∀ t, Replaceable.SortedKeys (w.cbs t).callbacks
  ub : w.ub = false
  cown : ∀ n o c x y, w.heap n = some o → o.cache c x = some y → c.owner = o.kind

theorem SInv.live {w : World V L X Y} (h : SInv w) : Live w := by
  intro t id c hc
  obtain ⟨o, ho, _⟩ := h.own t id c.node c.slot hc
  simp [ho]

theorem SInv.reg' {w : World V L X Y} (h : SInv w) : ∀ n q s t, w.heap n = some q → q.slots s = some t →
    ∃ id, (id, (⟨n, s⟩ : Client)) ∈ (w.cbs t).callbacks := fun n q s t hq hs =>
  ⟨_, h.reg n q s t hq hs⟩

theorem key_unique {C : Type} {m : List (ℕ × C)} (h : Replaceable.SortedKeys m) {id : ℕ} {c c' : C}
    (h₁ : (id, c) ∈ m) (h₂ : (id, c') ∈ m) : c = c' := by
  induction m with
  | nil => simp at h₁
  | cons e m ih =>
    unfold Replaceable.SortedKeys at h ih
    simp only [List.map_cons, List.pairwise_cons, List.mem_map] at h
    rcases List.mem_cons.1 h₁ with e₁ | h₁
    · rcases List.mem_cons.1 h₂ with e₂ | h₂
      · rw [← e₁] at e₂; exact (Prod.mk.inj e₂).2.symm
      · have := h.1 id ⟨(id, c'), h₂, rfl⟩
        rw [← e₁] at this; simp at this
    · rcases List.mem_cons.1 h₂ with e₂ | h₂
      · have := h.1 id ⟨(id, c), h₁, rfl⟩
        rw [← e₂] at this; simp at this
      · exact ih h.2 h₁ h₂

/-- Changes that keep members and registrations. -/
theorem SInv.soft {w w' : World V L X Y} (hw : SInv w) (hn : w'.next = w.next) (hc : w'.cbs = w.cbs)
    (hu : w'.ub = w.ub)
    (H : ∀ n, (w.heap n = none ∧ w'.heap n = none) ∨ ∃ p q, w.heap n = some p ∧ w'.heap n = some q ∧
      q.kind = p.kind ∧ q.slots = p.slots ∧ q.ids = p.ids ∧ (∀ k ∈ q.entries, k ∈ p.entries) ∧
      ∀ c x y, q.cache c x = some y → c.owner = q.kind) : SInv w' := by
  have fwd : ∀ n q, w'.heap n = some q → ∃ p, w.heap n = some p ∧ q.kind = p.kind ∧ q.slots = p.slots ∧
      q.ids = p.ids ∧ (∀ k ∈ q.entries, k ∈ p.entries) ∧ ∀ c x y, q.cache c x = some y → c.owner = q.kind := by
    intro n q hq
    rcases H n with ⟨_, e⟩ | ⟨p, q', e₁, e₂, r⟩
    · rw [hq] at e; cases e
    · rw [hq] at e₂; cases e₂; exact ⟨p, e₁, r⟩
  have bwd : ∀ n p, w.heap n = some p → ∃ q, w'.heap n = some q ∧ q.kind = p.kind ∧ q.slots = p.slots ∧
      q.ids = p.ids := by
    intro n p hp
    rcases H n with ⟨e, _⟩ | ⟨p', q, e₁, e₂, k, s, i, _⟩
    · rw [hp] at e; cases e
    · rw [hp] at e₁; cases e₁; exact ⟨q, e₂, k, s, i⟩
  constructor
  · intro n q hq
    obtain ⟨p, hp, _⟩ := fwd n q hq
    rw [hn]; exact hw.lt n p hp
  · intro n q s m hq hs
    obtain ⟨p, hp, hk, hsl, _⟩ := fwd n q hq
    rw [hsl] at hs
    obtain ⟨a, pm, hpm, hkm⟩ := hw.wf n p s m hp hs
    obtain ⟨qm, hqm, hkq, _⟩ := bwd m pm hpm
    exact ⟨by rw [hk]; exact a, qm, hqm, by rw [hkq]; exact hkm⟩
  · intro n q k m hq hs
    obtain ⟨p, hp, _, hsl, _⟩ := fwd n q hq
    rw [hsl] at hs
    rw [hn]; exact hw.entryLt n p k m hp hs
  · intro n q k hq hk
    obtain ⟨p, hp, _, hsl, _, hen, _⟩ := fwd n q hq
    rw [hsl]; exact hw.entrySlot n p k hp (hen k hk)
  · intro n q s t hq hs
    obtain ⟨p, hp, _, hsl, hid, _⟩ := fwd n q hq
    rw [hsl] at hs
    rw [hid, hc]; exact hw.reg n p s t hp hs
  · intro t id n s h
    rw [hc] at h
    obtain ⟨p, hp, hs, hi⟩ := hw.own t id n s h
    obtain ⟨q, hq, _, hsl, hid⟩ := bwd n p hp
    exact ⟨q, hq, by rw [hsl]; exact hs, by rw [hid]; exact hi⟩
  · intro t; rw [hc]; exact hw.keys t
  · rw [hu]; exact hw.ub
  · intro n q c x y hq hy
    obtain ⟨p, hp, _, _, _, _, hca⟩ := fwd n q hq
    exact hca c x y hy

theorem SInv.le {w w' : World V L X Y} (hw : SInv w) (h : Le w w') : SInv w' := by
  refine hw.soft h.next h.cbs h.ub ?_
  intro n
  rcases h.heap n with e | ⟨p, q, e₁, e₂, sk, ids, ca⟩
  · exact Or.inl e
  · refine Or.inr ⟨p, q, e₁, e₂, by rw [sk], by rw [sk], ids, by rw [sk]; simp, fun c x y hy => ?_⟩
    rcases ca c x with e | e
    · rw [e] at hy; cases hy
    · rw [e] at hy
      rw [sk]; exact hw.cown n p c x y e₁ hy

/-- Modifying one object softly. -/
theorem SInv.set {w : World V L X Y} (hw : SInv w) {n : ℕ} {o q : Obj V L X Y} (ho : w.heap n = some o)
    (hk : q.kind = o.kind) (hs : q.slots = o.slots) (hi : q.ids = o.ids) (he : ∀ k ∈ q.entries, k ∈ o.entries)
    (hc : ∀ c x y, q.cache c x = some y → c.owner = q.kind) : SInv (w.set n q) := by
  refine hw.soft rfl rfl rfl ?_
  intro m
  by_cases hm : m = n
  · subst hm
    exact Or.inr ⟨o, q, ho, by simp [World.set], hk, hs, hi, he, hc⟩
  · have e : (w.set n q).heap m = w.heap m := by simp [World.set, hm]
    rw [e]
    cases hwm : w.heap m with
    | none => exact Or.inl ⟨rfl, rfl⟩
    | some p => exact Or.inr ⟨p, p, rfl, rfl, rfl, rfl, rfl, fun k h => h,
        fun c x y hy => hw.cown m p c x y hwm hy⟩

/-! ### Registration and construction -/

theorem register_heap_self (w : World V L X Y) (n : ℕ) (s : Slot) (t : ℕ) (o : Obj V L X Y)
    (ho : w.heap n = some o) : (register w n s t).heap n = some
      { o with slots := fun s' => if s' = s then some t else o.slots s'
               ids := fun s' => if s' = s then (w.cbs t).idCounter + 1 else o.ids s' } := by
  simp [register, ho, World.set, Replaceable.addCallbacks]

theorem register_heap_ne (w : World V L X Y) (n : ℕ) (s : Slot) (t m : ℕ) (h : m ≠ n) :
    (register w n s t).heap m = w.heap m := by
  unfold register
  cases hn : w.heap n <;> simp [World.set, h]

theorem register_next (w : World V L X Y) (n : ℕ) (s : Slot) (t : ℕ) :
    (register w n s t).next = w.next := by
  unfold register
  cases hn : w.heap n <;> simp [World.set]

theorem register_ub (w : World V L X Y) (n : ℕ) (s : Slot) (t : ℕ) :
    (register w n s t).ub = w.ub := by
  unfold register
  cases hn : w.heap n <;> simp [World.set]

theorem register_cbs (w : World V L X Y) (n : ℕ) (s : Slot) (t : ℕ) :
    (register w n s t).cbs = (Replaceable.addCallbacks w.cbs t ⟨n, s⟩).1 := by
  unfold register
  cases hn : w.heap n <;> simp [World.set]

theorem register_cbs_self (w : World V L X Y) (n : ℕ) (s : Slot) (t : ℕ) (hr : RoomAt w t) :
    ((register w n s t).cbs t).callbacks = (w.cbs t).callbacks ++ [((w.cbs t).idCounter + 1, ⟨n, s⟩)] ∧
    ((register w n s t).cbs t).idCounter = (w.cbs t).idCounter + 1 := by
  rw [register_cbs]
  simp only [Replaceable.addCallbacks, Function.update_self, and_true]
  exact Replaceable.mapSet_append_of_lt _ _ _ (fun e he => by have := hr e he; omega)

theorem register_cbs_ne (w : World V L X Y) (n : ℕ) (s : Slot) (t t' : ℕ) (h : t' ≠ t) :
    (register w n s t).cbs t' = w.cbs t' := by
  rw [register_cbs]
  simp [Replaceable.addCallbacks, h]

theorem register_room (w : World V L X Y) (n : ℕ) (s : Slot) (t t' : ℕ) (hr : RoomAt w t)
    (hr' : RoomAt w t') : RoomAt (register w n s t) t' := by
  intro e he
  by_cases h : t' = t
  · subst h
    obtain ⟨e₁, e₂⟩ := register_cbs_self w n s t' hr
    rw [e₁] at he
    rw [e₂]
    rcases List.mem_append.1 he with he | he
    · have := hr e he; omega
    · simp only [List.mem_singleton] at he; rw [he]
  · rw [register_cbs_ne w n s t t' h] at he ⊢
    exact hr' e he

theorem SInv.register {w : World V L X Y} (hw : SInv w) {n t : ℕ} {s : Slot} {o p : Obj V L X Y}
    (ho : w.heap n = some o) (hfree : o.slots s = none) (hown : s.owner = o.kind)
    (hp : w.heap t = some p) (hkt : p.kind = s.target) (hr : RoomAt w t)
    (hent : ∀ k, s = .entry k → k < w.next) : SInv (register w n s t) := by
  obtain ⟨hcb, hcnt⟩ := register_cbs_self w n s t hr
  have hself := register_heap_self w n s t o ho
  have hne := fun m (h : m ≠ n) => register_heap_ne w n s t m h
  have hcne := fun t' (h : t' ≠ t) => register_cbs_ne w n s t t' h
  -- each object of the new heap comes from the old heap
  have old : ∀ m q, (Slat.Graph.register w n s t).heap m = some q → ∃ q₀, w.heap m = some q₀ ∧ q.kind = q₀.kind ∧
      q.entries = q₀.entries ∧ q.cache = q₀.cache ∧ (∀ s', (m = n ∧ s' = s) ∨ (q.slots s' = q₀.slots s' ∧
      q.ids s' = q₀.ids s')) := by
    intro m q hq
    by_cases hm : m = n
    · subst hm
      rw [hself] at hq
      cases hq
      refine ⟨o, ho, rfl, rfl, rfl, fun s' => ?_⟩
      by_cases h : s' = s
      · exact Or.inl ⟨rfl, h⟩
      · exact Or.inr (by simp [h])
    · rw [hne m hm] at hq
      exact ⟨q, hq, rfl, rfl, rfl, fun s' => Or.inr ⟨rfl, rfl⟩⟩
  have new : ∀ m q₀, w.heap m = some q₀ → ∃ q, (Slat.Graph.register w n s t).heap m = some q ∧ q.kind = q₀.kind ∧
      ∀ s', (m = n ∧ s' = s) ∨ (q.slots s' = q₀.slots s' ∧ q.ids s' = q₀.ids s') := by
    intro m q₀ hq₀
    by_cases hm : m = n
    · subst hm
      rw [ho] at hq₀; cases hq₀
      refine ⟨_, hself, rfl, fun s' => ?_⟩
      by_cases h : s' = s
      · exact Or.inl ⟨rfl, h⟩
      · exact Or.inr (by simp [h])
    · exact ⟨q₀, by rw [hne m hm]; exact hq₀, rfl, fun s' => Or.inr ⟨rfl, rfl⟩⟩
  constructor
  · intro m q hq
    obtain ⟨q₀, h₀, _⟩ := old m q hq
    rw [register_next]; exact hw.lt m q₀ h₀
  · intro m q s' m' hq hs'
    obtain ⟨q₀, h₀, hk, _, _, hsl⟩ := old m q hq
    rcases hsl s' with ⟨rfl, rfl⟩ | ⟨e, _⟩
    · rw [hself] at hq; cases hq
      simp at hs'
      subst hs'
      obtain ⟨q', h', hk', _⟩ := new t p hp
      exact ⟨hown, q', h', by rw [hk']; exact hkt⟩
    · rw [e] at hs'
      obtain ⟨a, pm, hpm, hkm⟩ := hw.wf m q₀ s' m' h₀ hs'
      obtain ⟨q', h', hk', _⟩ := new m' pm hpm
      exact ⟨by rw [hk]; exact a, q', h', by rw [hk']; exact hkm⟩
  · intro m q k m' hq hs'
    obtain ⟨q₀, h₀, hk, _, _, hsl⟩ := old m q hq
    rw [register_next]
    rcases hsl (.entry k) with ⟨_, e⟩ | ⟨e, _⟩
    · exact hent k e.symm
    · rw [e] at hs'; exact hw.entryLt m q₀ k m' h₀ hs'
  · intro m q k hq hk
    obtain ⟨q₀, h₀, _, hen, _, hsl⟩ := old m q hq
    rw [hen] at hk
    have := hw.entrySlot m q₀ k h₀ hk
    rcases hsl (.entry k) with ⟨rfl, e⟩ | ⟨e, _⟩
    · rw [ho] at h₀; cases h₀
      rw [e, hfree] at this; cases this
    · rw [e]; exact this
  · intro m q s' t' hq hs'
    obtain ⟨q₀, h₀, _, _, _, hsl⟩ := old m q hq
    rcases hsl s' with ⟨rfl, rfl⟩ | ⟨e, e'⟩
    · rw [hself] at hq; cases hq
      simp at hs'
      subst hs'
      rw [hcb]; simp
    · rw [e] at hs'
      have := hw.reg m q₀ s' t' h₀ hs'
      rw [e']
      by_cases ht : t' = t
      · subst ht; rw [hcb]; simp [this]
      · rw [hcne t' ht]; exact this
  · intro t' id m s' h
    by_cases ht : t' = t
    · subst ht
      rw [hcb] at h
      rcases List.mem_append.1 h with h | h
      · obtain ⟨q₀, h₀, hs₀, hi₀⟩ := hw.own t' id m s' h
        obtain ⟨q, hq, _, hsl⟩ := new m q₀ h₀
        rcases hsl s' with ⟨rfl, rfl⟩ | ⟨e, e'⟩
        · rw [ho] at h₀; cases h₀
          rw [hfree] at hs₀; cases hs₀
        · exact ⟨q, hq, by rw [e]; exact hs₀, by rw [e']; exact hi₀⟩
      · simp only [List.mem_singleton, Prod.mk.injEq, Client.mk.injEq] at h
        obtain ⟨rfl, rfl, rfl⟩ := h
        exact ⟨_, hself, by simp, by simp⟩
    · rw [hcne t' ht] at h
      obtain ⟨q₀, h₀, hs₀, hi₀⟩ := hw.own t' id m s' h
      obtain ⟨q, hq, _, hsl⟩ := new m q₀ h₀
      rcases hsl s' with ⟨rfl, rfl⟩ | ⟨e, e'⟩
      · rw [ho] at h₀; cases h₀
        rw [hfree] at hs₀; cases hs₀
      · exact ⟨q, hq, by rw [e]; exact hs₀, by rw [e']; exact hi₀⟩
  · intro t'
    by_cases ht : t' = t
    · subst ht
      rw [hcb]
      exact Replaceable.sortedKeys_append (hw.keys t') (fun e he => by have := hr e he; omega)
    · rw [hcne t' ht]; exact hw.keys t'
  · rw [register_ub]; exact hw.ub
  · intro m q c x y hq hy
    obtain ⟨q₀, h₀, hk, _, hca, _⟩ := old m q hq
    rw [hca] at hy
    rw [hk]; exact hw.cown m q₀ c x y h₀ hy

end Slat.Graph
