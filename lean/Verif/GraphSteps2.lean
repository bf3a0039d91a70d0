import Verif.GraphSteps

/-! The invariant of careful histories is preserved by every operation (continued). -/

namespace Slat.Graph

variable {V L X Y : Type}

/-! ### Replacement -/

theorem inv_replace {C : Calc V L X Y} {w : World V L X Y} {a : AWorld V L} (hi : Inv C w a) (o o' : ℕ)
    (hg : Good w (.replace o o')) :
    Inv C (step C w (.replace o o')) (aStep a (.replace o o' : Op V L X)) := by
  obtain ⟨⟨k, hkstr, hko, hko'⟩, hne, hempty, hsec⟩ := hg
  have hw := hi.s
  obtain ⟨po, hpo, hpok⟩ := kindAt_some hko
  obtain ⟨po', hpo', hpok'⟩ := kindAt_some hko'
  have hsp := replace_spec w o o' hne hw.live hsec
  simp only [step]
  obtain ⟨v, hv⟩ : ∃ v, v = replace w o o' := ⟨_, rfl⟩
  rw [← hv] at hsp ⊢
  obtain ⟨hcbs, hnext, hub, done, hdone, hmv, hnote⟩ := hsp
  rw [← hcbs] at hnote
  -- the clients of `o` are exactly the members that refer to it
  have hiff : ∀ n p s, w.heap n = some p → ((⟨n, s⟩ : Client) ∈ done ↔ p.slots s = some o) := by
    intro n p s hp
    rw [hdone]
    constructor
    · rintro ⟨id, h⟩
      obtain ⟨p', hp', hs, _⟩ := hw.own o id n s h
      rw [hp] at hp'; cases hp'; exact hs
    · intro h; exact ⟨_, hw.reg n p s o hp h⟩
  have fwd : ∀ n q, v.heap n = some q → ∃ p, w.heap n = some p ∧ q.kind = p.kind ∧
      q.content = p.content ∧ q.dist₁ = p.dist₁ ∧ q.dist₂ = p.dist₂ ∧ q.entries = p.entries ∧ q.ids = p.ids ∧
      (∀ s, q.slots s = if p.slots s = some o then some o' else p.slots s) ∧
      ∀ c x, q.cache c x = none ∨ q.cache c x = p.cache c x := by
    intro n q hq
    rcases hmv n with ⟨_, e⟩ | ⟨p, q', e₁, e₂, k, c, d1, d2, en, ids, sl, ca⟩
    · rw [hq] at e; cases e
    · rw [hq] at e₂; cases e₂
      refine ⟨p, e₁, k, c, d1, d2, en, ids, fun s => ?_, ca⟩
      rw [sl s]
      by_cases h : p.slots s = some o
      · rw [if_pos ((hiff n p s e₁).2 h), if_pos h]
      · rw [if_neg (fun hd => h ((hiff n p s e₁).1 hd)), if_neg h]
  have bwd : ∀ n p, w.heap n = some p → ∃ q, v.heap n = some q ∧ q.kind = p.kind := by
    intro n p hp
    rcases hmv n with ⟨e, _⟩ | ⟨p', q, e₁, e₂, k, _⟩
    · rw [hp] at e; cases e
    · rw [hp] at e₁; cases e₁; exact ⟨q, e₂, k⟩
  have cb_o : (v.cbs o).callbacks = [] := by rw [hcbs]; simp [Replaceable.replaceObj]
  have cb_o' : (v.cbs o').callbacks = (w.cbs o).callbacks := by
    rw [hcbs]; simp [Replaceable.replaceObj, hne, Ne.symm hne]
  have cb_ne : ∀ t, t ≠ o → t ≠ o' → v.cbs t = w.cbs t := by
    intro t h1 h2; rw [hcbs]; simp [Replaceable.replaceObj, h1, h2]
  have hsv : SInv v := by
    constructor
    · intro n q hq
      obtain ⟨p, hp, _⟩ := fwd n q hq
      rw [hnext]; exact hw.lt n p hp
    · intro n q s m hq hs
      obtain ⟨p, hp, hk, _, _, _, _, _, sl, _⟩ := fwd n q hq
      rw [sl s] at hs
      by_cases h : p.slots s = some o
      · rw [if_pos h] at hs; cases hs
        obtain ⟨ow, pm, hpm, hkm⟩ := hw.wf n p s o hp h
        rw [hpo] at hpm; cases hpm
        obtain ⟨q', hq', hkq'⟩ := bwd o' po' hpo'
        exact ⟨by rw [hk]; exact ow, q', hq', by rw [hkq', hpok', ← hpok]; exact hkm⟩
      · rw [if_neg h] at hs
        obtain ⟨ow, pm, hpm, hkm⟩ := hw.wf n p s m hp hs
        obtain ⟨q', hq', hkq'⟩ := bwd m pm hpm
        exact ⟨by rw [hk]; exact ow, q', hq', by rw [hkq']; exact hkm⟩
    · intro n q k m hq hs
      obtain ⟨p, hp, _, _, _, _, _, _, sl, _⟩ := fwd n q hq
      rw [sl] at hs
      rw [hnext]
      by_cases h : p.slots (.entry k) = some o
      · exact hw.entryLt n p k o hp h
      · rw [if_neg h] at hs; exact hw.entryLt n p k m hp hs
    · intro n q k hq hk
      obtain ⟨p, hp, _, _, _, _, en, _, sl, _⟩ := fwd n q hq
      rw [en] at hk
      have := hw.entrySlot n p k hp hk
      rw [sl]
      split
      · rfl
      · exact this
    · intro n q s t hq hs
      obtain ⟨p, hp, _, _, _, _, _, ids, sl, _⟩ := fwd n q hq
      rw [sl] at hs
      rw [ids]
      by_cases h : p.slots s = some o
      · rw [if_pos h] at hs; cases hs
        rw [cb_o']; exact hw.reg n p s o hp h
      · rw [if_neg h] at hs
        have hr := hw.reg n p s t hp hs
        have h1 : t ≠ o := by rintro rfl; exact h hs
        have h2 : t ≠ o' := by rintro rfl; rw [hempty] at hr; cases hr
        rw [cb_ne t h1 h2]; exact hr
    · intro t id n s h
      by_cases h1 : t = o
      · subst h1; rw [cb_o] at h; cases h
      · by_cases h2 : t = o'
        · subst h2
          rw [cb_o'] at h
          obtain ⟨p, hp, hs, hid⟩ := hw.own o id n s h
          obtain ⟨q, hq, _⟩ := bwd n p hp
          obtain ⟨p', hp', _, _, _, _, _, ids, sl, _⟩ := fwd n q hq
          rw [hp] at hp'; cases hp'
          exact ⟨q, hq, by rw [sl, if_pos hs], by rw [ids]; exact hid⟩
        · rw [cb_ne t h1 h2] at h
          obtain ⟨p, hp, hs, hid⟩ := hw.own t id n s h
          obtain ⟨q, hq, _⟩ := bwd n p hp
          obtain ⟨p', hp', _, _, _, _, _, ids, sl, _⟩ := fwd n q hq
          rw [hp] at hp'; cases hp'
          refine ⟨q, hq, ?_, by rw [ids]; exact hid⟩
          rw [sl, if_neg]
          · exact hs
          · rw [hs]; simpa using h1
    · intro t
      by_cases h1 : t = o
      · subst h1; rw [cb_o]; simp [Replaceable.SortedKeys]
      · by_cases h2 : t = o'
        · subst h2; rw [cb_o']; exact hw.keys o
        · rw [cb_ne t h1 h2]; exact hw.keys t
    · rw [hub]; exact hw.ub
    · intro n q c x y hq hy
      obtain ⟨p, hp, hk, _, _, _, _, _, _, ca⟩ := fwd n q hq
      rcases ca c x with e | e
      · rw [e] at hy; cases hy
      · rw [e] at hy; rw [hk]; exact hw.cown n p c x y hp hy
  refine ⟨hsv, ?_, ?_, by rw [hnext]; exact hi.next⟩
  · refine coh_step (cbs := v.cbs) hw.wf ?_ hsv.reg' ?_ (fun n q c x y => hsv.cown n q c x y) ?_ hi.coh
    · intro n p q s m hp _ hq hs
      obtain ⟨_, pm, hpm, _⟩ := hw.wf n p s m hp hs
      obtain ⟨q', hq', _⟩ := bwd m pm hpm
      simp [hq']
    · intro n p q hp hq hl
      obtain ⟨p', hp', hk, hc, d1, d2, en, _, sl, _⟩ := fwd n q hq
      rw [hp] at hp'; cases hp'
      by_cases h : ∃ s, p.slots s = some o
      · right
        obtain ⟨s, hs⟩ := h
        have hd := hnote ⟨n, s⟩ ((hiff n p s hp).2 hs)
        refine hd.2 ?_
        have how := (hw.wf n p s o hp hs).1
        have hrep : ∀ s : Slot, level s.owner ≤ 2 → (onReplace s).notifies = true := by
          intro s h; cases s <;> simp [Slot.owner, level] at h <;> rfl
        exact hrep s (by rw [how]; exact hl)
      · left
        push Not at h
        exact skel_ext hk hc (fun s => by rw [sl s, if_neg (h s)]) d1 d2 en
    · intro n q hq _
      right
      obtain ⟨p, hp, hk, hc, d1, d2, en, _, sl, ca⟩ := fwd n q hq
      refine ⟨p, hp, hk.symm, hc, d1, d2, en, ca, fun s => ?_⟩
      by_cases h : p.slots s = some o
      · right
        intro c hown hs
        exact (hnote ⟨n, s⟩ ((hiff n p s hp).2 h)).1 c (replace_clears hown hs)
      · left; rw [sl s, if_neg h]
  · funext n
    simp only [aStep]
    rw [← hi.heap]
    rcases hmv n with ⟨e₁, e₂⟩ | ⟨p, q, e₁, e₂, _⟩
    · simp [abs, e₁, e₂]
    · obtain ⟨p', hp', hk, hc, d1, d2, en, _, sl, _⟩ := fwd n q e₂
      rw [e₁] at hp'; cases hp'
      simp only [abs, e₁, e₂, Option.map_some, Option.some.injEq]
      exact skel_ext hk hc sl d1 d2 en

/-! ### Collapse and demolition settings -/

theorem set_heap_self (w : World V L X Y) (n : ℕ) (o : Obj V L X Y) : (w.set n o).heap n = some o := by
  simp [World.set]

theorem set_heap_ne (w : World V L X Y) (n m : ℕ) (o : Obj V L X Y) (h : m ≠ n) :
    (w.set n o).heap m = w.heap m := by
  simp [World.set, h]

/-- Assigning to an IM and notifying its clients. -/
theorem inv_im {C : Calc V L X Y} {w : World V L X Y} {a : AWorld V L} (hi : Inv C w a) (n : ℕ)
    (o q : Obj V L X Y) (f : Skel V L → Skel V L) (ho : w.heap n = some o) (hk : o.kind = .im)
    (hqk : q.kind = o.kind) (hqs : q.slots = o.slots) (hqi : q.ids = o.ids) (hqe : q.entries = o.entries)
    (hqc : ∀ c x, q.cache c x = none ∨ q.cache c x = o.cache c x) (hf : q.toSkel = f o.toSkel) :
    Inv C (notify depth (w.set n q) n) (a.modify n f) := by
  have hw := hi.s
  have hs1 : SInv (w.set n q) := hw.set ho hqk hqs hqi (by rw [hqe]; simp) (by
    intro c x y hy
    rcases hqc c x with e | e
    · rw [e] at hy; cases hy
    · rw [e] at hy; rw [hqk]; exact hw.cown n o c x y ho hy)
  have hsp := notify_spec depth (w.set n q) n hs1.live
  obtain ⟨v, hv⟩ : ∃ v, v = notify depth (w.set n q) n := ⟨_, rfl⟩
  rw [← hv] at hsp ⊢
  have hsv := hs1.le hsp.1
  have habs : abs v.heap = abs (w.set n q).heap := hsp.1.heap.abs_eq
  have fwd : ∀ m p', v.heap m = some p' → ∃ p, w.heap m = some p ∧ p'.kind = p.kind ∧
      p'.slots = p.slots ∧ (m ≠ n → p'.toSkel = p.toSkel) ∧
      ∀ c x, p'.cache c x = none ∨ p'.cache c x = p.cache c x := by
    intro m p' hp'
    rcases hsp.1.heap m with ⟨_, e⟩ | ⟨r, r', e₁, e₂, sk, _, ca⟩
    · rw [hp'] at e; cases e
    · rw [hp'] at e₂; cases e₂
      by_cases hm : m = n
      · subst hm
        rw [set_heap_self] at e₁; cases e₁
        refine ⟨o, ho, by rw [sk]; exact hqk, by rw [sk]; exact hqs, fun h => absurd rfl h, fun c x => ?_⟩
        rcases ca c x with e | e
        · exact Or.inl e
        · rw [e]; exact hqc c x
      · rw [set_heap_ne _ _ _ _ hm] at e₁
        exact ⟨r, e₁, by rw [sk], by rw [sk], fun _ => sk, ca⟩
  have bwd : ∀ m p, w.heap m = some p → (v.heap m).isSome := by
    intro m p hp
    rw [hsp.1.heap.isSome]
    by_cases hm : m = n
    · subst hm; rw [set_heap_self]; rfl
    · rw [set_heap_ne _ _ _ _ hm, hp]; rfl
  refine ⟨hsv, ?_, ?_, ?_⟩
  · refine coh_step (cbs := v.cbs) hw.wf ?_ hsv.reg' ?_ (fun n q c x y => hsv.cown n q c x y) ?_ hi.coh
    · intro m p p' s t hp _ _ hs
      obtain ⟨_, pm, hpm, _⟩ := hw.wf m p s t hp hs
      exact bwd t pm hpm
    · intro m p p' hp hp' _
      by_cases hm : m = n
      · right
        subst hm
        rw [hsp.1.cbs]; exact hsp.2
      · left
        obtain ⟨r, hr, _, _, hsk, _⟩ := fwd m p' hp'
        rw [hp] at hr; cases hr
        exact hsk hm
    · intro m p' hp' hkk
      right
      obtain ⟨r, hr, hkr, _, hsk, ca⟩ := fwd m p' hp'
      have hm : m ≠ n := by
        rintro rfl
        rw [ho] at hr; cases hr
        rw [hkr, hk] at hkk
        rcases hkk with e | e <;> cases e
      have hsk := hsk hm
      exact ⟨r, hr, hkr.symm, by rw [hsk], by rw [hsk], by rw [hsk], by rw [hsk], ca,
        fun s => Or.inl (by rw [hsk])⟩
  · rw [habs]
    funext m
    simp only [AWorld.modify, ← hi.heap]
    by_cases hm : m = n
    · subst hm
      simp only [abs, set_heap_self, ho, Option.map_some, Function.update_self, hf]
    · rw [Function.update_of_ne hm]
      simp only [abs, set_heap_ne _ _ _ _ hm]
  · rw [hsp.1.next]; exact hi.next

theorem inv_setCollapse {C : Calc V L X Y} {w : World V L X Y} {a : AWorld V L} (hi : Inv C w a) (n : ℕ)
    (d : Option L) (hg : Good w (.setCollapse n d)) :
    Inv C (step C w (.setCollapse n d)) (aStep a (.setCollapse n d : Op V L X)) := by
  obtain ⟨o, ho, hk⟩ := kindAt_some hg.1
  have : step C w (.setCollapse n d) =
      notify depth (w.set n { o.clear [.collapseRate] with dist₁ := d }) n := by
    simp only [step, setCollapse, ho]
  rw [this]
  refine inv_im hi n o _ (fun k => { k with dist₁ := d }) ho hk rfl rfl rfl rfl ?_ rfl
  intro c x
  by_cases h : c ∈ [CacheId.collapseRate]
  · exact Or.inl (by simp only [Obj.clear, if_pos h])
  · exact Or.inr (by simp only [Obj.clear, if_neg h])

theorem inv_setDemolition {C : Calc V L X Y} {w : World V L X Y} {a : AWorld V L} (hi : Inv C w a) (n : ℕ)
    (d : Option L) (hg : Good w (.setDemolition n d)) :
    Inv C (step C w (.setDemolition n d)) (aStep a (.setDemolition n d : Op V L X)) := by
  obtain ⟨o, ho, hk⟩ := kindAt_some hg.1
  have : step C w (.setDemolition n d) =
      notify depth (w.set n { o.clear [.demolitionRate] with dist₂ := d }) n := by
    simp only [step, setDemolition, ho]
  rw [this]
  refine inv_im hi n o _ (fun k => { k with dist₂ := d }) ho hk rfl rfl rfl rfl ?_ rfl
  intro c x
  by_cases h : c ∈ [CacheId.demolitionRate]
  · exact Or.inl (by simp only [Obj.clear, if_pos h])
  · exact Or.inr (by simp only [Obj.clear, if_neg h])

/-! ### Operations on structures -/

/-- Assigning to a structure. -/
theorem inv_str {C : Calc V L X Y} {w : World V L X Y} {a : AWorld V L} (hi : Inv C w a) (n : ℕ)
    (o q : Obj V L X Y) (f : Skel V L → Skel V L) (ho : w.heap n = some o) (hk : o.kind = .str)
    (hqk : q.kind = o.kind) (hqs : q.slots = o.slots) (hqi : q.ids = o.ids)
    (hqe : ∀ k ∈ q.entries, k ∈ o.entries)
    (hqc : ∀ c x, q.cache c x = none ∨ q.cache c x = o.cache c x) (hf : q.toSkel = f o.toSkel) :
    Inv C (w.set n q) (a.modify n f) := by
  have hw := hi.s
  have hs1 : SInv (w.set n q) := hw.set ho hqk hqs hqi hqe (by
    intro c x y hy
    rcases hqc c x with e | e
    · rw [e] at hy; cases hy
    · rw [e] at hy; rw [hqk]; exact hw.cown n o c x y ho hy)
  refine ⟨hs1, ?_, ?_, hi.next⟩
  · refine coh_frame hw hs1 ?_ ?_ hi.coh
    · intro m p' hp' hstr
      right
      have hm : m ≠ n := by
        rintro rfl
        rw [set_heap_self] at hp'; cases hp'
        exact hstr (hqk.trans hk)
      rw [set_heap_ne _ _ _ _ hm] at hp'
      exact ⟨p', hp', rfl, fun _ _ => Or.inr rfl⟩
    · intro m p p' hp hp'
      by_cases hm : m = n
      · subst hm
        rw [set_heap_self] at hp'; cases hp'
        rw [ho] at hp; cases hp; exact hqk
      · rw [set_heap_ne _ _ _ _ hm, hp] at hp'; cases hp'; rfl
  · funext m
    simp only [AWorld.modify, ← hi.heap]
    by_cases hm : m = n
    · subst hm
      simp only [abs, set_heap_self, ho, Option.map_some, Function.update_self, hf]
    · rw [Function.update_of_ne hm]
      simp only [abs, set_heap_ne _ _ _ _ hm]

theorem inv_setRebuild {C : Calc V L X Y} {w : World V L X Y} {a : AWorld V L} (hi : Inv C w a) (n : ℕ)
    (d : Option L) (hg : Good w (.setRebuild n d)) :
    Inv C (step C w (.setRebuild n d)) (aStep a (.setRebuild n d : Op V L X)) := by
  obtain ⟨o, ho, hk⟩ := kindAt_some hg.1
  have : step C w (.setRebuild n d) = w.set n { o with dist₁ := d } := by
    simp only [step, setRebuild, ho]
  rw [this]
  exact inv_str hi n o _ (fun k => { k with dist₁ := d }) ho hk rfl rfl rfl (fun _ h => h)
    (fun _ _ => Or.inr rfl) rfl

theorem inv_setDemoCost {C : Calc V L X Y} {w : World V L X Y} {a : AWorld V L} (hi : Inv C w a) (n : ℕ)
    (d : Option L) (hg : Good w (.setDemoCost n d)) :
    Inv C (step C w (.setDemoCost n d)) (aStep a (.setDemoCost n d : Op V L X)) := by
  obtain ⟨o, ho, hk⟩ := kindAt_some hg.1
  have : step C w (.setDemoCost n d) = w.set n { o with dist₂ := d } := by
    simp only [step, setDemoCost, ho]
  rw [this]
  exact inv_str hi n o _ (fun k => { k with dist₂ := d }) ho hk rfl rfl rfl (fun _ h => h)
    (fun _ _ => Or.inr rfl) rfl

theorem inv_removeComp {C : Calc V L X Y} {w : World V L X Y} {a : AWorld V L} (hi : Inv C w a) (n g : ℕ)
    (hg : Good w (.removeComp n g)) :
    Inv C (step C w (.removeComp n g)) (aStep a (.removeComp n g : Op V L X)) := by
  obtain ⟨o, ho, hk⟩ := kindAt_some hg.1.1
  have : step C w (.removeComp n g) =
      w.set n { o with entries := o.entries.eraseP (fun k => o.slots (.entry k) = some g) } := by
    simp only [step, removeComp, ho]
  rw [this]
  exact inv_str hi n o _
    (fun k => { k with entries := k.entries.eraseP (fun e => k.slots (.entry e) = some g) }) ho hk rfl rfl rfl
    (fun k h => List.mem_of_mem_eraseP h) (fun _ _ => Or.inr rfl) rfl

/-! ### Queries -/

theorem inv_query {C : Calc V L X Y} {w : World V L X Y} {a : AWorld V L} (hi : Inv C w a) (n : ℕ)
    (sel : CacheId → X → Bool) :
    Inv C (step C w (.query n sel)) (aStep a (.query n sel : Op V L X)) := by
  have hw := hi.s
  cases ho : w.heap n with
  | none => simp only [step, memo, ho]; exact hi
  | some o =>
    obtain ⟨q, hq⟩ : ∃ q : Obj V L X Y, q = ⟨o.toSkel, o.ids, fun c x =>
      if sel c x = true ∧ c.owner = o.kind then some (view C w.heap n c x) else o.cache c x⟩ := ⟨_, rfl⟩
    have hst : step C w (.query n sel) = w.set n q := by
      simp only [step, memo, ho, hq]
    rw [hst]
    have hs1 : SInv (w.set n q) := hw.set ho (by rw [hq]) (by rw [hq]) (by rw [hq])
      (by rw [hq]; exact fun _ h => h) (by
        intro c x y hy
        rw [hq] at hy ⊢
        simp only at hy ⊢
        by_cases h : sel c x = true ∧ c.owner = o.kind
        · exact h.2
        · rw [if_neg h] at hy; exact hw.cown n o c x y ho hy)
    have habs : abs (w.set n q).heap = abs w.heap := by
      funext m
      by_cases hm : m = n
      · subst hm; simp only [abs, set_heap_self, ho, Option.map_some, hq]
      · simp only [abs, set_heap_ne _ _ _ _ hm]
    refine ⟨hs1, ?_, habs.trans hi.heap, hi.next⟩
    intro m p hp hk c x y hy
    rw [habs]
    by_cases hm : m = n
    · subst hm
      rw [set_heap_self] at hp; cases hp
      rw [hq] at hy hk
      simp only at hy hk
      by_cases h : sel c x = true ∧ c.owner = o.kind
      · rw [if_pos h] at hy
        cases hy
        exact view_eq_fresh hi.coh m o ho c h.2 (by rw [h.2]; exact hk) x
      · rw [if_neg h] at hy
        exact hi.coh m o ho hk c x y hy
    · rw [set_heap_ne _ _ _ _ hm] at hp
      exact hi.coh m p hp hk c x y hy

end Slat.Graph
