import Verif.GraphSteps3
import Verif.NamesSpec

/-! Lemmas about names (C69): which ids stay unused, and what the dictionaries refer to. -/

namespace Slat.Names

open Slat.Graph

variable {V L X Y : Type}

/-! ### Ids -/

theorem room_of_cbs {w w' : World V L X Y} {t : ℕ} (h : w'.cbs t = w.cbs t) (hr : RoomAt w t) : RoomAt w' t := by
  intro e he
  rw [h] at he ⊢
  exact hr e he

theorem room_registers (n t : ℕ) : ∀ (ds : List (Slot × ℕ)) (w : World V L X Y), (∀ d ∈ ds, RoomAt w d.2) → RoomAt w t →
    RoomAt (ds.foldl (fun w d => register w n d.1 d.2) w) t
  | [], _, _, hr => hr
  | d :: ds, w, hd, hr => by
    have h0 := hd d (by simp)
    exact room_registers n t ds _ (fun e he => register_room w n d.1 d.2 e.2 h0 (hd e (by simp [he])))
      (register_room w n d.1 d.2 t h0 hr)

theorem room_removeAll (o : Obj V L X Y) (t : ℕ) : ∀ (ss : List Slot) (cbs : Replaceable.World Client),
    (∀ e ∈ (cbs t).callbacks, e.1 ≤ (cbs t).idCounter) →
    let cbs' := ss.foldl (fun cbs s =>
        match o.slots s with
        | none => cbs
        | some t => Replaceable.removeCallbacks cbs t (o.ids s)) cbs
    ∀ e ∈ (cbs' t).callbacks, e.1 ≤ (cbs' t).idCounter
  | [], _, h => h
  | s :: ss, cbs, h => by
    refine room_removeAll o t ss _ ?_
    cases hs : o.slots s with
    | none => simpa only [hs] using h
    | some u =>
      simp only [hs, Replaceable.removeCallbacks]
      by_cases ht : t = u
      · subst ht
        simp only [Function.update_self, Replaceable.mapErase]
        intro e he
        exact h e (List.mem_of_mem_filter he)
      · simpa only [Function.update_of_ne ht] using h

theorem room_step {C : Calc V L X Y} {w : World V L X Y} (hw : SInv w) {op : Op V L X} (hg : Good w op) {t : ℕ}
    (ht : ∀ o, op ≠ .replace o t) (hr : RoomAt w t) : RoomAt (step C w op) t := by
  cases op with
  | new k v ds =>
    simp only [step, construct]
    exact room_registers _ _ _ _ (fun d hd => room_of_cbs rfl (hg.2 d hd)) (room_of_cbs rfl hr)
  | replace o o' =>
    obtain ⟨hne, _, hsec⟩ := hg.2
    have hc := (replace_spec w o o' hne hw.live hsec).1
    have hto : t ≠ o' := fun h => ht o (by rw [h])
    intro e he
    simp only [step] at he ⊢
    rw [hc] at he ⊢
    simp only [Replaceable.replaceObj] at he ⊢
    by_cases h : t = o
    · subst h; simp at he
    · rw [Function.update_of_ne h, Function.update_of_ne hto] at he ⊢
      exact hr e he
  | setCollapse n d =>
    obtain ⟨o, ho, -⟩ := kindAt_some hg.1
    simp only [step, setCollapse, ho]
    have hs1 : SInv (w.set n { o.clear [.collapseRate] with dist₁ := d }) := by
      refine hw.set ho rfl rfl rfl (fun _ h => h) ?_
      intro c x y hy
      simp only [Obj.clear] at hy
      by_cases h : c ∈ [CacheId.collapseRate]
      · rw [if_pos h] at hy; cases hy
      · rw [if_neg h] at hy; exact hw.cown n o c x y ho hy
    refine room_of_cbs (w := w) ?_ hr
    rw [(notify_spec depth _ n hs1.live).1.cbs]
    rfl
  | setDemolition n d =>
    obtain ⟨o, ho, -⟩ := kindAt_some hg.1
    simp only [step, setDemolition, ho]
    have hs1 : SInv (w.set n { o.clear [.demolitionRate] with dist₂ := d }) := by
      refine hw.set ho rfl rfl rfl (fun _ h => h) ?_
      intro c x y hy
      simp only [Obj.clear] at hy
      by_cases h : c ∈ [CacheId.demolitionRate]
      · rw [if_pos h] at hy; cases hy
      · rw [if_neg h] at hy; exact hw.cown n o c x y ho hy
    refine room_of_cbs (w := w) ?_ hr
    rw [(notify_spec depth _ n hs1.live).1.cbs]
    rfl
  | addComp n g =>
    simp only [step, addComp]
    cases hn : w.heap n with
    | none => exact hr
    | some o =>
      cases hi : getIM (abs w.heap) g with
      | none => exact hr
      | some i =>
        simp only
        have hr1 : ∀ u, RoomAt w u → RoomAt (if o.entries = [] then register w n .sim i else w) u := by
          intro u hu
          by_cases he : o.entries = []
          · rw [if_pos he]
            exact register_room w n .sim i u ((hg.2.2 o hn he).2 i hi) hu
          · rw [if_neg he]; exact hu
        generalize (if o.entries = [] then register w n .sim i else w) = w₁ at hr1
        split
        · have hr2 : RoomAt (register { w₁ with next := w₁.next + 1 } n (.entry w₁.next) g) t :=
            register_room { w₁ with next := w₁.next + 1 } n _ g t (room_of_cbs (w := w₁) rfl (hr1 g hg.2.1))
              (room_of_cbs (w := w₁) rfl (hr1 t hr))
          cases (register { w₁ with next := w₁.next + 1 } n (.entry w₁.next) g).heap n with
          | none => exact hr2
          | some o₂ => exact room_of_cbs (by rfl) hr2
        · exact hr1 t hr
  | removeComp n g => 
    simp only [step, removeComp]
    split <;> exact hr
  | setRebuild n d =>
    simp only [step, setRebuild]
    split <;> exact hr
  | setDemoCost n d =>
    simp only [step, setDemoCost]
    split <;> exact hr
  | destroy n =>
    simp only [step, destroy]
    split
    · exact hr
    · exact room_removeAll _ t _ w.cbs hr
  | query n sel =>
    simp only [step, memo]
    split <;> exact hr

/-- An unused address has no clients. -/
theorem next_free {w : World V L X Y} (hw : SInv w) : (w.cbs w.next).callbacks = [] := by
  rw [List.eq_nil_iff_forall_not_mem]
  rintro ⟨id, n, s⟩ he
  obtain ⟨o, ho, hs, -⟩ := hw.own _ _ _ _ he
  obtain ⟨-, p, hp, -⟩ := hw.wf n o s _ ho hs
  exact absurd (hw.lt _ _ hp) (lt_irrefl _)

theorem room_next {w : World V L X Y} (hw : SInv w) : RoomAt w w.next := by
  intro e he
  rw [next_free hw] at he
  cases he

/-! ### Dictionaries -/

theorem resolve_some {st : Py V L X Y} : ∀ {args : List (Slot × Name)} {deps : List (Slot × ℕ)}, resolve st args = some deps →
    (∀ s, deps.lookup s = (args.lookup s).bind (st.defs s.target)) ∧
      ∀ d ∈ deps, ∃ a, (d.1, a) ∈ args ∧ st.defs d.1.target a = some d.2
  | [], deps, h => by
    simp only [resolve, Option.some.injEq] at h
    subst h
    simp
  | (s, a) :: rest, deps, h => by
    simp only [resolve] at h
    cases ha : st.defs s.target a with
    | none => simp [ha] at h
    | some n =>
      cases hrest : resolve st rest with
      | none => simp [ha, hrest] at h
      | some ns =>
        simp only [ha, hrest, Option.some.injEq] at h
        subst h
        obtain ⟨h1, h2⟩ := resolve_some hrest
        constructor
        · intro s'
          by_cases hs : s' = s
          · subst hs; simp [ha]
          · have : (s' == s) = false := by simp [hs]
            simp only [List.lookup, this]
            exact h1 s'
        · intro d hd
          rcases List.mem_cons.1 hd with rfl | hd
          · exact ⟨a, by simp, ha⟩
          · obtain ⟨b, hb1, hb2⟩ := h2 d hd
            exact ⟨b, by simp [hb1], hb2⟩

/-- The lookups succeed exactly if all names are known. -/
theorem resolve_known {st : Py V L X Y} : ∀ {args : List (Slot × Name)} {deps : List (Slot × ℕ)}, resolve st args = some deps →
    ∀ a ∈ args, (st.defs a.1.target a.2).isSome
  | [], _, _, a, h => by cases h
  | (s, a) :: rest, deps, h, b, hb => by
    simp only [resolve] at h
    cases ha : st.defs s.target a with
    | none => simp [ha] at h
    | some n =>
      cases hrest : resolve st rest with
      | none => simp [ha, hrest] at h
      | some ns =>
        rcases List.mem_cons.1 hb with rfl | hb
        · simp [ha]
        · exact resolve_known hrest b hb

theorem resolve_ctor {st : Py V L X Y} (f : Form V) {deps : List (Slot × ℕ)} (h : resolve st f.args = some deps) :
    CtorDeps f.kind deps := by
  have two : ∀ {s1 s2 : Slot} {a1 a2 : Name} {deps : List (Slot × ℕ)}, resolve st [(s1, a1), (s2, a2)] = some deps →
      ∃ n1 n2, deps = [(s1, n1), (s2, n2)] := by
    intro s1 s2 a1 a2 deps h
    simp only [resolve] at h
    cases h1 : st.defs s1.target a1 <;> cases h2 : st.defs s2.target a2 <;> simp [h1, h2] at h
    exact ⟨_, _, h.symm⟩
  cases f with
  | det v => simp only [Form.args, resolve, Option.some.injEq] at h; subst h; exact .det
  | frag v => simp only [Form.args, resolve, Option.some.injEq] at h; subst h; exact .frag
  | loss v => simp only [Form.args, resolve, Option.some.injEq] at h; subst h; exact .loss
  | prob v m s => obtain ⟨n1, n2, rfl⟩ := two h; exact .prob n1 n2
  | edp v i p => obtain ⟨n1, n2, rfl⟩ := two h; exact .edp n1 n2
  | im v d =>
    simp only [Form.args, resolve] at h
    cases h1 : st.defs Slot.f.target d <;> simp [h1] at h
    subst h; exact .im _
  | group v e r c d =>
    simp only [Form.args, resolve] at h
    cases h1 : st.defs Slot.edp.target e <;> cases h2 : st.defs Slot.frag.target r <;>
      cases h3 : st.defs Slot.cost.target c <;> cases h4 : st.defs Slot.delay.target d <;> simp [h1, h2, h3, h4] at h
    subst h; exact .cg _ _ (some _) (some _)

/-- Members never refer to structures. -/
theorem target_ne_str (s : Slot) : s.target ≠ .str := by cases s <;> simp [Slot.target]

/-- Neither the definitions of a class nor its members refer to the class. -/
theorem args_owner (f : Form V) : ∀ a ∈ f.args, a.1.owner = f.kind := by
  cases f <;> simp [Form.args, Form.kind, Slot.owner]

theorem lookup_mem {args : List (Slot × Name)} {s : Slot} {a : Name} (h : args.lookup s = some a) : (s, a) ∈ args := by
  induction args with
  | nil => simp at h
  | cons e rest ih =>
    obtain ⟨s', a'⟩ := e
    by_cases hs : s = s'
    · subst hs
      simp at h
      simp [h]
    · have : (s == s') = false := by simp [hs]
      simp only [List.lookup, this] at h
      simp [ih h]

/-- What links the state to the sheet. -/
structure Link (C : Calc V L X Y) (st : Py V L X Y) (S : Sheet V L) : Prop where
  inv : Inv C st.world ⟨Graph.abs st.world.heap, st.world.next⟩
  undef : ∀ k id, k ≠ .str → S.defs k id = none → st.defs k id = none
  obj : ∀ k id f, k ≠ .str → S.defs k id = some f → f.kind = k ∧ ∃ n, st.defs k id = some n ∧
    Graph.abs st.world.heap n = some ⟨k, f.content, fun s => (f.args.lookup s).bind (st.defs s.target),
      if k = .im then S.collapse id else none, if k = .im then S.demolition id else none, []⟩
  closed : ∀ k id f, S.defs k id = some f → ∀ a ∈ f.args, (S.defs a.1.target a.2).isSome
  strNone : ∀ id, S.groups id = none → st.defs .str id = none
  strSome : ∀ id gs, S.groups id = some gs → ∃ n o, st.defs .str id = some n ∧ Graph.abs st.world.heap n = some o ∧
    o.kind = .str ∧ o.entries.map (fun k => o.slots (.entry k)) = gs.map (st.defs .cg) ∧
    (∀ g ∈ gs, (st.defs .cg g).isSome) ∧ (S.thinned id = false → gs = [] → o.slots .sim = none)
  strs : ∀ n o, Graph.abs st.world.heap n = some o → o.kind = .str → ∃ id, st.defs .str id = some n
  inj : ∀ k id id' n, st.defs k id = some n → st.defs k id' = some n → id = id'
  room : ∀ k id n, st.defs k id = some n → S.redefined k id = false → RoomAt st.world n

theorem Link.known {C : Calc V L X Y} {st : Py V L X Y} {S : Sheet V L} (h : Link C st S) {k : Kind} (hk : k ≠ .str)
    (id : Name) : (st.defs k id).isSome = (S.defs k id).isSome := by
  cases hd : S.defs k id with
  | none => rw [h.undef k id hk hd]; rfl
  | some f => obtain ⟨-, n, hn, -⟩ := h.obj k id f hk hd; rw [hn]; rfl

/-- The object of a name has the class of the dictionary. -/
theorem Link.kind {C : Calc V L X Y} {st : Py V L X Y} {S : Sheet V L} (h : Link C st S) {k : Kind} {id : Name} {n : ℕ}
    (hn : st.defs k id = some n) : ∃ o, Graph.abs st.world.heap n = some o ∧ o.kind = k := by
  by_cases hk : k = .str
  · subst hk
    cases hd : S.groups id with
    | none => rw [h.strNone id hd] at hn; cases hn
    | some gs =>
      obtain ⟨m, o, hm, ho, hko, -⟩ := h.strSome id gs hd
      rw [hn] at hm; cases hm
      exact ⟨o, ho, hko⟩
  · cases hd : S.defs k id with
    | none => rw [h.undef k id hk hd] at hn; cases hn
    | some f =>
      obtain ⟨-, m, hm, ho⟩ := h.obj k id f hk hd
      rw [hn] at hm; cases hm
      exact ⟨_, ho, rfl⟩

theorem Link.kindAt {C : Calc V L X Y} {st : Py V L X Y} {S : Sheet V L} (h : Link C st S) {k : Kind} {id : Name} {n : ℕ}
    (hn : st.defs k id = some n) : kindAt st.world n = some k := by
  obtain ⟨o, ho, hk⟩ := h.kind hn
  simp only [Graph.abs] at ho
  cases hw : st.world.heap n with
  | none => simp [hw] at ho
  | some q =>
    simp only [hw, Option.map_some, Option.some.injEq] at ho
    simp [Graph.kindAt, hw, ← hk, ← ho]

theorem Link.lt {C : Calc V L X Y} {st : Py V L X Y} {S : Sheet V L} (h : Link C st S) {k : Kind} {id : Name} {n : ℕ}
    (hn : st.defs k id = some n) : n < st.world.next := by
  obtain ⟨o, ho, -⟩ := kindAt_some (h.kindAt hn)
  exact h.inv.s.lt n o ho

/-- One object has one name. -/
theorem Link.inj' {C : Calc V L X Y} {st : Py V L X Y} {S : Sheet V L} (h : Link C st S) {k k' : Kind} {id id' : Name} {n : ℕ}
    (h1 : st.defs k id = some n) (h2 : st.defs k' id' = some n) : k = k' ∧ id = id' := by
  have e : k = k' := by
    have := h.kindAt h1
    rw [h.kindAt h2] at this
    exact (Option.some.inj this).symm
  subst e
  exact ⟨rfl, h.inj k id id' n h1 h2⟩

theorem Link.init (C : Calc V L X Y) : Link C (Py.init V L X Y) (Sheet.init V L) where
  inv := by
    have h := inv_init C
    have e : (⟨Graph.abs (Py.init V L X Y).world.heap, (Py.init V L X Y).world.next⟩ : AWorld V L) = aInit V L := by
      simp only [Py.init, aInit]
      congr 1
    rw [e]; exact h
  undef := by intros; rfl
  obj := by intro k id f _ h; simp [Sheet.init] at h
  closed := by intro k id f h; simp [Sheet.init] at h
  strNone := by intros; rfl
  strSome := by intro id gs h; simp [Sheet.init] at h
  strs := by intro n o h; simp [Py.init, Graph.init, Graph.abs] at h
  inj := by intro k id id' n h; simp [Py.init] at h
  room := by intro k id n h; simp [Py.init] at h

end Slat.Names
