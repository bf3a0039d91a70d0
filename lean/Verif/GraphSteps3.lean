import Verif.GraphSteps2

/-! The invariant of careful histories is preserved by every operation (conclusion). -/

namespace Slat.Graph

variable {V L X Y : Type}

/-! ### Destruction -/

theorem mem_removeAll (o : Obj V L X Y) : ∀ (ss : List Slot) (cbs : Replaceable.World Client) (t id : ℕ)
    (c : Client),
    (id, c) ∈ ((ss.foldl (fun cbs s =>
        match o.slots s with
        | none => cbs
        | some t => Replaceable.removeCallbacks cbs t (o.ids s)) cbs) t).callbacks ↔
      (id, c) ∈ (cbs t).callbacks ∧ ∀ s ∈ ss, o.slots s = some t → o.ids s ≠ id
  | [], cbs, t, id, c => by simp
  | s :: ss, cbs, t, id, c => by
    rw [List.foldl_cons, mem_removeAll o ss]
    cases hs : o.slots s with
    | none =>
      simp only [List.mem_cons, forall_eq_or_imp, hs]
      simp
    | some t' =>
      simp only [List.mem_cons, forall_eq_or_imp, hs, Option.some.injEq]
      by_cases ht : t = t'
      · subst ht
        simp only [Replaceable.removeCallbacks, Function.update_self, Replaceable.mem_mapErase, forall_const]
        constructor
        · rintro ⟨⟨a, b⟩, c⟩; exact ⟨a, fun e => b e.symm, c⟩
        · rintro ⟨a, b, c⟩; exact ⟨⟨a, fun e => b e.symm⟩, c⟩
      · simp only [Replaceable.removeCallbacks, Function.update_of_ne ht]
        constructor
        · rintro ⟨a, b⟩; exact ⟨a, fun e => absurd e.symm ht, b⟩
        · rintro ⟨a, _, b⟩; exact ⟨a, b⟩

theorem sorted_removeAll (o : Obj V L X Y) : ∀ (ss : List Slot) (cbs : Replaceable.World Client),
    (∀ t, Replaceable.SortedKeys (cbs t).callbacks) → ∀ t, Replaceable.SortedKeys ((ss.foldl (fun cbs s =>
        match o.slots s with
        | none => cbs
        | some t => Replaceable.removeCallbacks cbs t (o.ids s)) cbs) t).callbacks
  | [], cbs, h, t => h t
  | s :: ss, cbs, h, t => by
    rw [List.foldl_cons]
    refine sorted_removeAll o ss _ ?_ t
    intro t'
    cases hs : o.slots s with
    | none => exact h t'
    | some u =>
      by_cases ht : t' = u
      · subst ht
        simp only [Replaceable.removeCallbacks, Function.update_self]
        exact Replaceable.sortedKeys_mapErase (h t')
      · simp only [Replaceable.removeCallbacks, Function.update_of_ne ht]
        exact h t'

theorem dtor_complete (s : Slot) (h : s.owner ≠ .str) : s ∈ dtorSlots s.owner := by
  cases s <;> simp [Slot.owner, dtorSlots] at h ⊢

theorem inv_destroy {C : Calc V L X Y} {w : World V L X Y} {a : AWorld V L} (hi : Inv C w a) (n : ℕ)
    (hg : Good w (.destroy n)) :
    Inv C (step C w (.destroy n)) (aStep a (.destroy n : Op V L X)) := by
  obtain ⟨⟨hsome, hnoref⟩, hkind⟩ := hg
  have hw := hi.s
  obtain ⟨o, ho⟩ := Option.isSome_iff_exists.1 hsome
  obtain ⟨v, hv⟩ : ∃ v, v = destroy w n := ⟨_, rfl⟩
  have hheap : v.heap = Function.update w.heap n none := by rw [hv]; simp only [destroy, ho]
  have hcb : v.cbs = (dtorSlots o.kind).foldl (fun cbs s =>
        match o.slots s with
        | none => cbs
        | some t => Replaceable.removeCallbacks cbs t (o.ids s)) w.cbs := by
    rw [hv]; simp only [destroy, ho]; rfl
  have hnext : v.next = w.next := by rw [hv]; simp only [destroy, ho]
  have hub : v.ub = w.ub := by rw [hv]; simp only [destroy, ho]
  have hmem : ∀ t id c, (id, c) ∈ (v.cbs t).callbacks ↔
      (id, c) ∈ (w.cbs t).callbacks ∧ ∀ s ∈ dtorSlots o.kind, o.slots s = some t → o.ids s ≠ id := by
    intro t id c; rw [hcb]; exact mem_removeAll o _ _ t id c
  have hkstr : o.kind ≠ .str := by
    intro e; apply hkind; simp [kindAt, ho, e]
  have hof : ∀ m q, v.heap m = some q → m ≠ n ∧ w.heap m = some q := by
    intro m q hq
    by_cases hm : m = n
    · subst hm; rw [hheap] at hq; simp at hq
    · rw [hheap, Function.update_of_ne hm] at hq; exact ⟨hm, hq⟩
  have hto : ∀ m, m ≠ n → v.heap m = w.heap m := by
    intro m hm; rw [hheap, Function.update_of_ne hm]
  have hsv : SInv v := by
    constructor
    · intro m q hq; rw [hnext]; exact hw.lt m q (hof m q hq).2
    · intro m q s t hq hs
      obtain ⟨hm, hq⟩ := hof m q hq
      obtain ⟨ow, p, hp, hk⟩ := hw.wf m q s t hq hs
      have ht : t ≠ n := by rintro rfl; exact hnoref m q s hq hs
      exact ⟨ow, p, by rw [hto t ht]; exact hp, hk⟩
    · intro m q k t hq hs; rw [hnext]; exact hw.entryLt m q k t (hof m q hq).2 hs
    · intro m q k hq hk; exact hw.entrySlot m q k (hof m q hq).2 hk
    · intro m q s t hq hs
      obtain ⟨hm, hq⟩ := hof m q hq
      have hr := hw.reg m q s t hq hs
      rw [hmem]
      refine ⟨hr, fun s' _ hs' e => ?_⟩
      have hr' := hw.reg n o s' t ho hs'
      rw [e] at hr'
      have := key_unique (hw.keys t) hr hr'
      simp only [Client.mk.injEq] at this
      exact hm this.1
    · intro t id m s h
      rw [hmem] at h
      obtain ⟨q, hq, hs, hid⟩ := hw.own t id m s h.1
      have hm : m ≠ n := by
        rintro rfl
        rw [ho] at hq; cases hq
        have how := (hw.wf m o s t ho hs).1
        exact h.2 s (by rw [← how]; exact dtor_complete s (by rw [how]; exact hkstr)) hs hid
      exact ⟨q, by rw [hto m hm]; exact hq, hs, hid⟩
    · intro t; rw [hcb]; exact sorted_removeAll o _ _ hw.keys t
    · rw [hub]; exact hw.ub
    · intro m q c x y hq hy; exact hw.cown m q c x y (hof m q hq).2 hy
  have hstep : step C w (.destroy n) = v := by rw [hv]; rfl
  rw [hstep]
  refine ⟨hsv, ?_, ?_, by rw [hnext]; exact hi.next⟩
  · refine coh_frame hw hsv ?_ ?_ hi.coh
    · intro m q hq _
      exact Or.inr ⟨q, (hof m q hq).2, rfl, fun _ _ => Or.inr rfl⟩
    · intro m p q hp hq
      have := (hof m q hq).2
      rw [hp] at this; cases this; rfl
  · funext m
    simp only [aStep]
    by_cases hm : m = n
    · subst hm; simp [abs, hheap]
    · rw [Function.update_of_ne hm, ← hi.heap]
      simp only [abs, hto m hm]

/-! ### Adding a component group -/

theorem getIM_some {w : World V L X Y} (hw : SInv w) {g i : ℕ} (h : getIM (abs w.heap) g = some i) :
    ∃ p, w.heap i = some p ∧ p.kind = .im := by
  simp only [getIM, abs, Option.bind_eq_some_iff, Option.map_eq_some_iff] at h
  obtain ⟨k, ⟨og, hog, rfl⟩, e, he, k', ⟨oe, hoe, rfl⟩, hb⟩ := h
  obtain ⟨_, p, hp, hk⟩ := hw.wf e oe .base i hoe hb
  exact ⟨p, hp, hk⟩

theorem inv_addComp {C : Calc V L X Y} {w : World V L X Y} {a : AWorld V L} (hi : Inv C w a) (n g : ℕ)
    (hg : Good w (.addComp n g)) :
    Inv C (step C w (.addComp n g)) (aStep a (.addComp n g : Op V L X)) := by
  obtain ⟨⟨hkn, hkg⟩, hroomg, hcare⟩ := hg
  have hw := hi.s
  obtain ⟨o, ho, hok⟩ := kindAt_some hkn
  obtain ⟨og, hog, hogk⟩ := kindAt_some hkg
  have hgn : g ≠ n := by rintro rfl; rw [ho] at hog; cases hog; rw [hok] at hogk; cases hogk
  have hao : a.heap n = some o.toSkel := by rw [← hi.heap]; simp [abs, ho]
  simp only [step, aStep, addComp, aAddComp, ho, hao]
  rw [← hi.heap]
  cases hIM : getIM (abs w.heap) g with
  | none => simp only; exact hi
  | some i =>
    simp only
    obtain ⟨pim, hpim, hpimk⟩ := getIM_some hw hIM
    -- after the registration with the IM
    obtain ⟨w₁, hw₁⟩ : ∃ w₁, w₁ = (if o.entries = [] then register w n .sim i else w) := ⟨_, rfl⟩
    rw [← hw₁]
    have hstage : SInv w₁ ∧ w₁.next = w.next ∧ (∀ m, m ≠ n → w₁.heap m = w.heap m) ∧ RoomAt w₁ g ∧
        ∃ o₁, w₁.heap n = some o₁ ∧ o₁.kind = o.kind ∧ o₁.content = o.content ∧ o₁.dist₁ = o.dist₁ ∧
          o₁.dist₂ = o.dist₂ ∧ o₁.entries = o.entries ∧ o₁.cache = o.cache ∧
          ∀ s, o₁.slots s = if o.entries = [] ∧ s = .sim then some i else o.slots s := by
      by_cases he : o.entries = []
      · rw [if_pos he] at hw₁
        obtain ⟨hsim, hroomi⟩ := hcare o ho he
        have hroomi := hroomi i hIM
        subst hw₁
        refine ⟨hw.register ho hsim (by rw [hok]; rfl) hpim hpimk hroomi (by simp), register_next w n .sim i,
          fun m hm => register_heap_ne w n .sim i m hm, register_room w n .sim i g hroomi hroomg, _,
          register_heap_self w n .sim i o ho, rfl, rfl, rfl, rfl, rfl, rfl, ?_⟩
        intro s
        simp [he]
      · rw [if_neg he] at hw₁
        subst hw₁
        exact ⟨hw, rfl, fun _ _ => rfl, hroomg, o, ho, rfl, rfl, rfl, rfl, rfl, rfl, by simp [he]⟩
    obtain ⟨hs₁, hn₁, hne₁, hr₁, o₁, ho₁, k₁, c₁, d₁, d₂, e₁, ca₁, sl₁⟩ := hstage
    simp only [ho₁, Option.bind_some]
    have hsim₁ : o₁.slots .sim = some i ↔ (o.entries = [] ∨ o.slots .sim = some i) := by
      rw [sl₁]; by_cases he : o.entries = [] <;> simp [he]
    by_cases hc : o₁.slots .sim = some i
    · rw [if_pos hc, if_pos (hsim₁.1 hc)]
      -- reserve the entry name
      have hs₂ : SInv { w₁ with next := w₁.next + 1 } := by
        refine ⟨fun m q h => ?_, hs₁.wf, fun m q k t h hs => ?_, hs₁.entrySlot, hs₁.reg, hs₁.own, hs₁.keys,
          hs₁.ub, hs₁.cown⟩
        · have := hs₁.lt m q h; simp only; omega
        · have := hs₁.entryLt m q k t h hs; simp only; omega
      have hfree : o₁.slots (.entry w₁.next) = none := by
        cases h : o₁.slots (.entry w₁.next) with
        | none => rfl
        | some t => exact absurd (hs₁.entryLt n o₁ _ t ho₁ h) (by omega)
      have hog₁ : ({ w₁ with next := w₁.next + 1 } : World V L X Y).heap g = some og := by
        simp only; rw [hne₁ g hgn]; exact hog
      have hreg := hs₂.register (n := n) (t := g) (s := .entry w₁.next) (o := o₁) (p := og) ho₁ hfree
        (by rw [k₁, hok]; rfl) hog₁ hogk hr₁ (by
          intro k hk; simp only [Slot.entry.injEq] at hk; subst hk; simp)
      have hself := register_heap_self { w₁ with next := w₁.next + 1 } n (.entry w₁.next) g o₁ ho₁
      obtain ⟨w₂, hw₂⟩ : ∃ w₂, w₂ = register { w₁ with next := w₁.next + 1 } n (.entry w₁.next) g := ⟨_, rfl⟩
      have hne₂ : ∀ m, m ≠ n → w₂.heap m = w.heap m := by
        intro m hm; rw [hw₂, register_heap_ne _ _ _ _ _ hm]; exact hne₁ m hm
      have hn₂ : w₂.next = w.next + 1 := by rw [hw₂, register_next, ← hn₁]
      rw [← hw₂] at hreg hself ⊢
      obtain ⟨o₂, ho₂⟩ : ∃ o₂, w₂.heap n = some o₂ := ⟨_, hself⟩
      rw [ho₂] at hself
      simp only [Option.some.injEq] at hself
      simp only [ho₂]
      obtain ⟨q, hq⟩ : ∃ q : Obj V L X Y, q = { o₂.clear [.annualCost] with
        entries := o₂.entries ++ [w₁.next] } := ⟨_, rfl⟩
      have hs₃ : SInv (w₂.set n q) := by
        -- an entry with a member is added
        have hbase : SInv (w₂.set n (o₂.clear [.annualCost])) := by
          refine hreg.set ho₂ rfl rfl rfl (fun _ h => h) ?_
          intro c x y hy
          simp only [Obj.clear] at hy
          by_cases h : c ∈ [CacheId.annualCost]
          · rw [if_pos h] at hy; cases hy
          · rw [if_neg h] at hy; exact hreg.cown n o₂ c x y ho₂ hy
        have hsame : ∀ m p, (w₂.set n q).heap m = some p → ∃ p',
            (w₂.set n (o₂.clear [.annualCost])).heap m = some p' ∧ p.kind = p'.kind ∧ p.slots = p'.slots ∧
            p.ids = p'.ids ∧ p.cache = p'.cache ∧ (∀ k ∈ p.entries, (p.slots (.entry k)).isSome) := by
          intro m p hp
          by_cases hm : m = n
          · subst hm
            rw [set_heap_self] at hp; cases hp
            refine ⟨_, set_heap_self _ _ _, by rw [hq], by rw [hq], by rw [hq], by rw [hq], ?_⟩
            intro k hk
            rw [hq] at hk
            simp only [List.mem_append, List.mem_singleton] at hk
            have hsl : q.slots = o₂.slots := by rw [hq]; rfl
            rw [hsl]
            rcases hk with hk | hk
            · exact hreg.entrySlot m o₂ k ho₂ hk
            · rw [hk, hself]; simp
          · rw [set_heap_ne _ _ _ _ hm] at hp
            exact ⟨p, by rw [set_heap_ne _ _ _ _ hm]; exact hp, rfl, rfl, rfl, rfl,
              fun k hk => hreg.entrySlot m p k hp hk⟩
        have hback : ∀ m p', (w₂.set n (o₂.clear [.annualCost])).heap m = some p' → ∃ p,
            (w₂.set n q).heap m = some p ∧ p.kind = p'.kind ∧ p.slots = p'.slots ∧ p.ids = p'.ids := by
          intro m p' hp'
          by_cases hm : m = n
          · subst hm
            rw [set_heap_self] at hp'; cases hp'
            exact ⟨q, set_heap_self _ _ _, by rw [hq], by rw [hq], by rw [hq]⟩
          · rw [set_heap_ne _ _ _ _ hm] at hp'
            exact ⟨p', by rw [set_heap_ne _ _ _ _ hm]; exact hp', rfl, rfl, rfl⟩
        constructor
        · intro m p hp
          obtain ⟨p', hp', _⟩ := hsame m p hp
          exact hbase.lt m p' hp'
        · intro m p s t hp hs
          obtain ⟨p', hp', hk, hsl, _⟩ := hsame m p hp
          obtain ⟨ow, r, hr, hrk⟩ := hbase.wf m p' s t hp' (by rw [← hsl]; exact hs)
          obtain ⟨r', hr', hrk', _⟩ := hback t r hr
          exact ⟨by rw [hk]; exact ow, r', hr', by rw [hrk']; exact hrk⟩
        · intro m p k t hp hs
          obtain ⟨p', hp', _, hsl, _⟩ := hsame m p hp
          exact hbase.entryLt m p' k t hp' (by rw [← hsl]; exact hs)
        · intro m p k hp hk
          obtain ⟨p', hp', _, _, _, _, he⟩ := hsame m p hp
          exact he k hk
        · intro m p s t hp hs
          obtain ⟨p', hp', _, hsl, hid, _⟩ := hsame m p hp
          rw [hid]
          exact hbase.reg m p' s t hp' (by rw [← hsl]; exact hs)
        · intro t id m s h
          obtain ⟨p', hp', hs, hid⟩ := hbase.own t id m s h
          obtain ⟨p, hp, _, hsl, hids⟩ := hback m p' hp'
          exact ⟨p, hp, by rw [hsl]; exact hs, by rw [hids]; exact hid⟩
        · exact hbase.keys
        · exact hbase.ub
        · intro m p c x y hp hy
          obtain ⟨p', hp', hk, _, _, hca, _⟩ := hsame m p hp
          rw [hk]
          exact hbase.cown m p' c x y hp' (by rw [← hca]; exact hy)
      have hqk : q.kind = .str := by
        rw [hq]; show o₂.kind = _; rw [hself]; exact k₁.trans hok
      have hres : ∀ m, m ≠ n → (w₂.set n q).heap m = w.heap m := by
        intro m hm; rw [set_heap_ne _ _ _ _ hm]; exact hne₂ m hm
      have hgoal : Inv C (w₂.set n q)
          { heap := Function.update (abs w.heap) n (some { o.toSkel with
              slots := fun s => if s = .entry a.next then some g else if s = .sim then some i else o.slots s
              entries := o.entries ++ [a.next] })
            next := a.next + 1 } := by
        refine ⟨hs₃, ?_, ?_, ?_⟩
        · refine coh_frame hw hs₃ ?_ ?_ hi.coh
          · intro m p hp hstr
            right
            have hm : m ≠ n := by
              rintro rfl; rw [set_heap_self] at hp; cases hp; exact hstr hqk
            rw [hres m hm] at hp
            exact ⟨p, hp, rfl, fun _ _ => Or.inr rfl⟩
          · intro m p p' hp hp'
            by_cases hm : m = n
            · subst hm
              rw [set_heap_self] at hp'; cases hp'
              rw [ho] at hp; cases hp
              rw [hqk, hok]
            · rw [hres m hm, hp] at hp'; cases hp'; rfl
        · funext m
          by_cases hm : m = n
          · subst hm
            simp only [Function.update_self, abs, set_heap_self, Option.map_some, Option.some.injEq]
            have hnx : w₁.next = a.next := hn₁.trans hi.next
            rw [hq, hself]
            apply skel_ext
            · exact k₁
            · exact c₁
            · intro s
              simp only [Obj.clear, hnx]
              by_cases h : s = .entry a.next
              · simp [h]
              · simp only [h, if_false, sl₁]
                by_cases h' : s = .sim
                · subst h'
                  have := hsim₁.1 hc
                  by_cases he : o.entries = []
                  · simp [he]
                  · simp only [he, false_and, if_false]
                    rcases this with h | h
                    · exact absurd h he
                    · simp [h]
                · simp [h']
            · exact d₁
            · exact d₂
            · simp only [Obj.clear, hnx, e₁]
          · simp only [Function.update_of_ne hm, abs, hres m hm]
        · show w₂.next = a.next + 1
          rw [hn₂, hi.next]
      rw [hq] at hgoal
      exact hgoal
    · rw [if_neg hc, if_neg (fun h => hc (hsim₁.2 h))]
      have he : o.entries ≠ [] := fun h => hc (hsim₁.2 (Or.inl h))
      rw [if_neg he] at hw₁
      rw [hw₁]
      exact hi

/-! ### Histories -/

theorem inv_step {C : Calc V L X Y} {w : World V L X Y} {a : AWorld V L} (hi : Inv C w a) (op : Op V L X)
    (hg : Good w op) : Inv C (step C w op) (aStep a op) := by
  cases op with
  | new k v ds => exact inv_new hi k v ds hg
  | replace o o' => exact inv_replace hi o o' hg
  | setCollapse n d => exact inv_setCollapse hi n d hg
  | setDemolition n d => exact inv_setDemolition hi n d hg
  | addComp n g => exact inv_addComp hi n g hg
  | removeComp n g => exact inv_removeComp hi n g hg
  | setRebuild n d => exact inv_setRebuild hi n d hg
  | setDemoCost n d => exact inv_setDemoCost hi n d hg
  | destroy n => exact inv_destroy hi n hg
  | query n sel => exact inv_query hi n sel

theorem inv_run {C : Calc V L X Y} : ∀ (ops : List (Op V L X)) (w : World V L X Y) (a : AWorld V L), Inv C w a →
    Along C Good w ops → Inv C (run C w ops) (aRun a ops)
  | [], _, _, hi, _ => hi
  | op :: ops, w, a, hi, hg => inv_run ops (step C w op) (aStep a op) (inv_step hi op hg.1) hg.2

end Slat.Graph
