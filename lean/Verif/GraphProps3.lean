import Verif.GraphProps2

/-!
# Object graph: whole histories for the rates (C40) and the annual cost (C41)

An operation leaves a stored rate or annual cost right if it touches nothing the quantity depends on, if it
clears the cache, or if nothing was stored.
-/

namespace Slat.Graph

variable {V L X Y : Type}

/-! ### Where stored values come from -/

theorem view_cached {C : Calc V L X Y} {h : ℕ → Option (Obj V L X Y)} {n : ℕ} {c : CacheId} {x : X} {y : Y}
    (hc : cacheAt h n c x = some y) : view C h n c x = y := by
  rw [view, hc]

/-- Caches keep their values or lose them. -/
def CacheLe (h h' : ℕ → Option (Obj V L X Y)) : Prop :=
  ∀ n c x, cacheAt h' n c x = none ∨ cacheAt h' n c x = cacheAt h n c x

theorem CacheLe.refl (h : ℕ → Option (Obj V L X Y)) : CacheLe h h := fun _ _ _ => Or.inr rfl

theorem CacheLe.trans {h₁ h₂ h₃ : ℕ → Option (Obj V L X Y)} (a : CacheLe h₁ h₂) (b : CacheLe h₂ h₃) :
    CacheLe h₁ h₃ := by
  intro n c x
  rcases b n c x with e | e
  · exact Or.inl e
  · rw [e]; exact a n c x

theorem cacheLe_set (w : World V L X Y) (n : ℕ) (q : Obj V L X Y)
    (h : ∀ c x, q.cache c x = none ∨ q.cache c x = cacheAt w.heap n c x) : CacheLe w.heap (w.set n q).heap := by
  intro m c x
  by_cases hm : m = n
  · subst hm
    simp only [cacheAt, set_heap_self, Option.bind_some]
    exact h c x
  · right; simp only [cacheAt, set_heap_ne _ _ _ _ hm]

theorem cacheLe_set_some (w : World V L X Y) (n : ℕ) (o q : Obj V L X Y) (ho : w.heap n = some o)
    (h : ∀ c x, q.cache c x = none ∨ q.cache c x = o.cache c x) : CacheLe w.heap (w.set n q).heap :=
  cacheLe_set w n q fun c x => by simp only [cacheAt, ho, Option.bind_some]; exact h c x

theorem clear_cache (o : Obj V L X Y) (cs : List CacheId) (c : CacheId) (x : X) :
    (o.clear cs).cache c x = none ∨ (o.clear cs).cache c x = o.cache c x := by
  by_cases h : c ∈ cs
  · exact Or.inl (by simp only [Obj.clear, if_pos h])
  · exact Or.inr (by simp only [Obj.clear, if_neg h])

theorem cacheLe_register (w : World V L X Y) (n : ℕ) (s : Slot) (t : ℕ) :
    CacheLe w.heap (register w n s t).heap := by
  intro m c x
  right
  by_cases hm : m = n
  · subst hm
    cases ho : w.heap m with
    | none => simp [cacheAt, register, ho]
    | some o => simp only [cacheAt, register_heap_self w m s t o ho, ho, Option.bind_some]
  · simp only [cacheAt, register_heap_ne w n s t m hm]

theorem cacheLe_notify (k : ℕ) (w : World V L X Y) (n : ℕ) (hl : Live w) :
    CacheLe w.heap (notify k w n).heap := by
  intro m c x
  rcases (notify_spec k w n hl).1.heap m with ⟨_, e⟩ | ⟨r, r', e₁, e₂, _, _, ca⟩
  · left; simp [cacheAt, e]
  · simp only [cacheAt, e₁, e₂, Option.bind_some]; exact ca c x

theorem cacheLe_foldl_register (n : ℕ) : ∀ (ds : List (Slot × ℕ)) (w : World V L X Y),
    CacheLe w.heap (ds.foldl (fun w d => register w n d.1 d.2) w).heap
  | [], w => CacheLe.refl _
  | d :: ds, w => (cacheLe_register w n d.1 d.2).trans (cacheLe_foldl_register n ds _)

/-- No operation but a query stores anything, and a query stores what it read. -/
theorem cache_origin {C : Calc V L X Y} {w : World V L X Y} {a : AWorld V L} (hi : Inv C w a) (op : Op V L X)
    (hg : Good w op) (n : ℕ) (c : CacheId) (x : X) (y : Y) (hy : cacheAt (step C w op).heap n c x = some y) :
    cacheAt w.heap n c x = some y ∨ (y = view C w.heap n c x ∧ ∃ m sel, op = .query m sel) := by
  have hw := hi.s
  have fin : CacheLe w.heap (step C w op).heap → cacheAt w.heap n c x = some y := by
    intro h
    rcases h n c x with e | e
    · rw [e] at hy; cases hy
    · rw [← e]; exact hy
  cases op with
  | new k v ds =>
    left
    refine fin ?_
    have hnew : w.heap w.next = none := by
      cases h : w.heap w.next with
      | none => rfl
      | some p => exact absurd (hw.lt _ p h) (by omega)
    exact (cacheLe_set w w.next _ fun _ _ => Or.inl rfl).trans (cacheLe_foldl_register _ _ _)
  | replace o o' =>
    left
    refine fin ?_
    obtain ⟨_, hne, hempty, hsec⟩ := hg
    obtain ⟨_, _, _, done, _, hmv, _⟩ := replace_spec w o o' hne hw.live hsec
    intro m c x
    rcases hmv m with ⟨_, e⟩ | ⟨p, q', e₁, e₂, _, _, _, _, _, _, _, ca⟩
    · left; simp only [step, cacheAt, e]; rfl
    · simp only [step, cacheAt, e₁, e₂, Option.bind_some]; exact ca c x
  | setCollapse m d =>
    left
    refine fin ?_
    obtain ⟨o, ho, hk⟩ := kindAt_some hg.1
    simp only [step, setCollapse, ho]
    have hs1 : SInv (w.set m { o.clear [.collapseRate] with dist₁ := d }) := by
      refine hw.set ho rfl rfl rfl (fun _ h => h) ?_
      intro c x y hy
      rcases clear_cache o [.collapseRate] c x with e | e
      · exact absurd hy (by simp only [e]; simp)
      · simp only [e] at hy; exact hw.cown m o c x y ho hy
    refine CacheLe.trans ?_ (cacheLe_notify _ _ _ hs1.live)
    exact cacheLe_set_some w m o _ ho fun c x => clear_cache o [.collapseRate] c x
  | setDemolition m d =>
    left
    refine fin ?_
    obtain ⟨o, ho, hk⟩ := kindAt_some hg.1
    simp only [step, setDemolition, ho]
    have hs1 : SInv (w.set m { o.clear [.demolitionRate] with dist₂ := d }) := by
      refine hw.set ho rfl rfl rfl (fun _ h => h) ?_
      intro c x y hy
      rcases clear_cache o [.demolitionRate] c x with e | e
      · exact absurd hy (by simp only [e]; simp)
      · simp only [e] at hy; exact hw.cown m o c x y ho hy
    refine CacheLe.trans ?_ (cacheLe_notify _ _ _ hs1.live)
    exact cacheLe_set_some w m o _ ho fun c x => clear_cache o [.demolitionRate] c x
  | addComp m g =>
    left
    refine fin ?_
    simp only [step, addComp]
    split
    · next o i ho hIM =>
      have h₁ : CacheLe w.heap (if o.entries = [] then register w m .sim i else w).heap := by
        split
        · exact cacheLe_register _ _ _ _
        · exact CacheLe.refl _
      obtain ⟨w₁, hw₁⟩ : ∃ w₁, w₁ = (if o.entries = [] then register w m .sim i else w) := ⟨_, rfl⟩
      rw [← hw₁] at h₁ ⊢
      split
      · have h₂ := h₁.trans (cacheLe_register { w₁ with next := w₁.next + 1 } m (.entry w₁.next) g)
        split
        · exact h₂
        · next o₂ ho₂ =>
          exact h₂.trans (cacheLe_set_some _ m o₂ _ ho₂ fun c x => clear_cache o₂ _ c x)
      · exact h₁
    · exact CacheLe.refl _
  | removeComp m g =>
    left
    refine fin ?_
    simp only [step, removeComp]
    split
    · exact CacheLe.refl _
    · next o ho => exact cacheLe_set_some w m o _ ho fun _ _ => Or.inr rfl
  | setRebuild m d =>
    left
    refine fin ?_
    simp only [step, setRebuild]
    split
    · exact CacheLe.refl _
    · next o ho => exact cacheLe_set_some w m o _ ho fun _ _ => Or.inr rfl
  | setDemoCost m d =>
    left
    refine fin ?_
    simp only [step, setDemoCost]
    split
    · exact CacheLe.refl _
    · next o ho => exact cacheLe_set_some w m o _ ho fun _ _ => Or.inr rfl
  | destroy m =>
    left
    refine fin ?_
    simp only [step, destroy]
    split
    · exact CacheLe.refl _
    · next o ho =>
      intro m' c x
      by_cases hm : m' = m
      · left; simp [cacheAt, hm]
      · right; simp [cacheAt, hm]
  | query m sel =>
    cases ho : w.heap m with
    | none => left; simpa only [step, memo, ho] using hy
    | some o =>
      simp only [step, memo, ho] at hy
      by_cases hm : n = m
      · subst hm
        simp only [cacheAt, set_heap_self, Option.bind_some] at hy
        split at hy
        · right; exact ⟨by simpa using hy.symm, _, _, rfl⟩
        · left; simp only [cacheAt, ho, Option.bind_some]; exact hy
      · left
        simp only [cacheAt, set_heap_ne _ _ _ _ hm] at hy
        exact hy

/-- A right value stays right across an operation that does not change the answer. -/
theorem stays_right {C : Calc V L X Y} {w : World V L X Y} {a : AWorld V L} (hi : Inv C w a) (op : Op V L X)
    (hg : Good w op) (n : ℕ) (c : CacheId) (hcs : c.owner = .im ∨ c.owner = .str)
    (hk : kindAt (step C w op) n = some c.owner) (x : X)
    (hr : cacheAt w.heap n c x = none ∨ view C w.heap n c x = answer C a n c x)
    (hs : cacheAt w.heap n c x = none ∨ answer C (aStep a op) n c x = answer C a n c x)
    (hq : ∀ m sel, op = .query m sel → view C w.heap n c x = answer C a n c x) :
    view C (step C w op).heap n c x = answer C (aStep a op) n c x := by
  obtain ⟨o, ho, hok⟩ := kindAt_some hk
  cases hy : cacheAt (step C w op).heap n c x with
  | none => exact unread_right (inv_step hi op hg) n c o ho hok hcs x hy
  | some y =>
    rw [view_cached hy]
    rcases cache_origin hi op hg n c x y hy with e | ⟨e, m, sel, rfl⟩
    · rw [e] at hr hs
      rw [hs.resolve_left (by simp), ← hr.resolve_left (by simp)]
      exact (view_cached e).symm
    · rw [e]; exact hq m sel rfl

/-! ### What an operation can change -/

/-- The objects an operation assigns to. -/
def Touches (w : World V L X Y) : Op V L X → ℕ → Prop
  | .replace o _, m => ∃ p s, w.heap m = some p ∧ p.slots s = some o
  | .setCollapse n _, m => m = n
  | .setDemolition n _, m => m = n
  | .addComp n _, m => m = n
  | .removeComp n _, m => m = n
  | .setRebuild n _, m => m = n
  | .setDemoCost n _, m => m = n
  | .destroy n, m => m = n
  | .new _ _ _, _ => False
  | .query _ _, _ => False

/-- `m` is reachable from `n` through members. -/
inductive Under (w : World V L X Y) : ℕ → ℕ → Prop
  | refl (n : ℕ) : Under w n n
  | member (n m k : ℕ) (o : Obj V L X Y) (s : Slot) : w.heap n = some o → o.slots s = some m → Under w m k →
      Under w n k

theorem untouched {C : Calc V L X Y} {w : World V L X Y} {a : AWorld V L} (hi : Inv C w a) (op : Op V L X)
    (m : ℕ) (o : Obj V L X Y) (ho : w.heap m = some o) (hm : ¬ Touches w op m) :
    (aStep a op).heap m = a.heap m := by
  have hao : a.heap m = some o.toSkel := by rw [← hi.heap]; simp [abs, ho]
  cases op with
  | new k v ds =>
    have := hi.s.lt m o ho
    simp only [aStep]
    rw [Function.update_of_ne]
    rw [← hi.next]; omega
  | replace r r' =>
    simp only [aStep, hao, Option.map_some, Option.some.injEq, redirect]
    apply skel_ext <;> try rfl
    intro s
    simp only
    rw [if_neg]
    intro h
    exact hm ⟨o, s, ho, h⟩
  | addComp n g =>
    simp only [Touches] at hm
    simp only [aStep, aAddComp]
    split
    · split
      · simp only; rw [Function.update_of_ne hm]
      · rfl
    · rfl
  | query n sel => rfl
  | destroy n => simp only [Touches] at hm; simp only [aStep, Function.update_of_ne hm]
  | _ => simp only [Touches] at hm; simp only [aStep, AWorld.modify, Function.update_of_ne hm]

theorem tree_same {C : Calc V L X Y} {w : World V L X Y} {a : AWorld V L} (hi : Inv C w a) (op : Op V L X) :
    ∀ (k n : ℕ), (w.heap n).isSome → (∀ m, Under w n m → ¬ Touches w op m) →
      treeOf (aStep a op).heap k n = treeOf a.heap k n
  | 0, _, _, _ => rfl
  | k + 1, n, hn, h => by
    obtain ⟨o, ho⟩ := Option.isSome_iff_exists.1 hn
    have e := untouched hi op n o ho (h n (.refl n))
    have hao : a.heap n = some o.toSkel := by rw [← hi.heap]; simp [abs, ho]
    rw [treeOf_succ_some hao, treeOf_succ_some (e.trans hao)]
    congr 1
    funext s
    cases hs : o.slots s with
    | none => rfl
    | some m =>
      obtain ⟨_, p, hp, _⟩ := hi.s.wf n o s m ho hs
      exact tree_same hi op k m (by simp [hp]) fun j hj => h j (.member n m j o s ho hs hj)

theorem answer_same {C : Calc V L X Y} {w : World V L X Y} {a : AWorld V L} (hi : Inv C w a) (op : Op V L X)
    (n : ℕ) (hn : (w.heap n).isSome) (h : ∀ m, Under w n m → ¬ Touches w op m) (c : CacheId) (x : X) :
    answer C (aStep a op) n c x = answer C a n c x := by
  rw [answer, answer, tree, tree, tree_same hi op 6 n hn h]

/-! ### C40: rates over whole histories -/

/-- No hazard curve is replaced. -/
def HazardKept (w : World V L X Y) : Op V L X → Prop
  | .replace o _ => ∀ m p, w.heap m = some p → p.slots .f ≠ some o
  | _ => True

/-- Collapse is not set on an intensity measure whose demolition rate has been read. -/
def CollapseFirst (w : World V L X Y) : Op V L X → Prop
  | .setCollapse n _ => ∀ x, cacheAt w.heap n .demolitionRate x = none
  | _ => True

theorem under_det {w : World V L X Y} (hw : SInv w) {n m : ℕ} {o : Obj V L X Y} (ho : w.heap n = some o)
    (hk : o.kind = .det) (h : Under w n m) : m = n := by
  cases h with
  | refl => rfl
  | member _ m' _ o' s ho' hs _ =>
    rw [ho] at ho'; cases ho'
    have := (hw.wf n o s m' ho hs).1
    rw [hk] at this
    cases s <;> simp [Slot.owner] at this

theorem im_slot {w : World V L X Y} (hw : SInv w) {n m : ℕ} {o : Obj V L X Y} (ho : w.heap n = some o)
    (hk : o.kind = .im) {s : Slot} (hs : o.slots s = some m) : s = .f := by
  have := (hw.wf n o s m ho hs).1
  rw [hk] at this
  cases s <;> simp [Slot.owner] at this ⊢

theorem quiet_im {C : Calc V L X Y} {w : World V L X Y} {a : AWorld V L} (hi : Inv C w a) (op : Op V L X)
    (hg : Good w op) (hh : HazardKept w op) (n : ℕ) (o : Obj V L X Y) (ho : w.heap n = some o) (hk : o.kind = .im)
    (hk' : kindAt (step C w op) n = some .im) (h1 : ∀ d, op ≠ .setCollapse n d)
    (h2 : ∀ d, op ≠ .setDemolition n d) : ∀ m, Under w n m → ¬ Touches w op m := by
  have hw := hi.s
  -- what `m` can be
  have hcase : ∀ m, Under w n m → m = n ∨ ∃ p, w.heap m = some p ∧ p.kind = .det ∧ o.slots .f = some m := by
    intro m hm
    cases hm with
    | refl => exact Or.inl rfl
    | member _ m' _ o' s ho' hs hu =>
      rw [ho] at ho'; cases ho'
      have hf := im_slot hw ho hk hs
      subst hf
      obtain ⟨_, p, hp, hpk⟩ := hw.wf n o _ m' ho hs
      have := under_det hw hp hpk hu
      subst this
      exact Or.inr ⟨p, hp, hpk, hs⟩
  -- an object of another class is neither
  have hcls : ∀ m k, Under w n m → kindAt w m = some k → k = .im ∧ m = n ∨ k = .det := by
    intro m k hm hkm
    rcases hcase m hm with rfl | ⟨p, hp, hpk, _⟩
    · simp only [kindAt, ho, Option.map_some, Option.some.injEq] at hkm
      exact Or.inl ⟨by rw [← hkm, hk], rfl⟩
    · simp only [kindAt, hp, Option.map_some, Option.some.injEq] at hkm
      exact Or.inr (by rw [← hkm, hpk])
  intro m hm ht
  cases op with
  | new k v ds => exact ht
  | query m' sel => exact ht
  | replace r r' =>
    obtain ⟨p, s, hp, hs⟩ := ht
    rcases hcase m hm with rfl | ⟨p', hp', hpk', _⟩
    · rw [ho] at hp; cases hp
      have hf := im_slot hw ho hk hs
      subst hf
      exact hh m o ho hs
    · rw [hp] at hp'; cases hp'
      have := (hw.wf m p s r hp hs).1
      rw [hpk'] at this
      cases s <;> simp [Slot.owner] at this
  | setCollapse m' d =>
    have ht : m = m' := ht
    subst ht
    rcases hcls m _ hm hg.1 with ⟨_, e⟩ | e
    · subst e; exact h1 d rfl
    · cases e
  | setDemolition m' d =>
    have ht : m = m' := ht
    subst ht
    rcases hcls m _ hm hg.1 with ⟨_, e⟩ | e
    · subst e; exact h2 d rfl
    · cases e
  | addComp m' g =>
    have ht : m = m' := ht
    subst ht
    rcases hcls m _ hm hg.1.1 with ⟨e, _⟩ | e <;> cases e
  | removeComp m' g =>
    have ht : m = m' := ht
    subst ht
    rcases hcls m _ hm hg.1.1 with ⟨e, _⟩ | e <;> cases e
  | setRebuild m' d =>
    have ht : m = m' := ht
    subst ht
    rcases hcls m _ hm hg.1 with ⟨e, _⟩ | e <;> cases e
  | setDemoCost m' d =>
    have ht : m = m' := ht
    subst ht
    rcases hcls m _ hm hg.1 with ⟨e, _⟩ | e <;> cases e
  | destroy m' =>
    have ht : m = m' := ht
    subst ht
    rcases hcase m hm with rfl | ⟨p, hp, hpk, hs⟩
    · simp [step, destroy, ho, kindAt] at hk'
    · exact hg.1.2 n o .f ho hs

theorem cache_kind {w : World V L X Y} (hw : SInv w) {n : ℕ} {c : CacheId} {x : X} {y : Y}
    (h : cacheAt w.heap n c x = some y) : ∃ o, w.heap n = some o ∧ o.kind = c.owner := by
  simp only [cacheAt, Option.bind_eq_some_iff] at h
  obtain ⟨o, ho, hy⟩ := h
  exact ⟨o, ho, (hw.cown n o c x y ho hy).symm⟩

theorem kind_query {C : Calc V L X Y} {w : World V L X Y} {m : ℕ} {sel : CacheId → X → Bool} {n : ℕ} :
    kindAt (step C w (.query m sel)) n = kindAt w n := by
  simp only [step, memo]
  cases ho : w.heap m with
  | none => rfl
  | some o =>
    by_cases hm : n = m
    · subst hm; simp only [kindAt, set_heap_self, ho, Option.map_some]
    · simp only [kindAt, set_heap_ne _ _ _ _ hm]

/-- The collapse rate does not depend on the demolition setting. -/
theorem collapse_demolition {C : Calc V L X Y} {w : World V L X Y} {a : AWorld V L} (hi : Inv C w a) (n : ℕ)
    (o : Obj V L X Y) (ho : w.heap n = some o) (hk : o.kind = .im) (d : Option L) (x : X) :
    answer C (aStep a (.setDemolition n d : Op V L X)) n .collapseRate x = answer C a n .collapseRate x := by
  have hao : a.heap n = some o.toSkel := by rw [← hi.heap]; simp [abs, ho]
  have hao' : (aStep a (.setDemolition n d : Op V L X)).heap n = some { o.toSkel with dist₂ := d } := by
    simp [aStep, AWorld.modify, hao]
  rw [answer, answer, fresh, fresh]
  congr 1
  · rw [tree, tree, treeOf_succ_some hao, treeOf_succ_some hao']
    simp only [mask, if_true, Tree.node.injEq, true_and]
    funext s
    by_cases hs : s ∈ uses .collapseRate
    · simp only [hs, if_true]
      cases hm : o.slots s with
      | none => rfl
      | some m =>
        simp only
        obtain ⟨_, p, hp, hpk⟩ := hi.s.wf n o s m ho hm
        have hpk : p.kind = .det := by
          simp only [uses, List.mem_singleton] at hs
          subst hs; exact hpk
        refine tree_same hi _ 5 m (by simp [hp]) ?_
        intro j hj
        have := under_det hi.s hp hpk hj
        subst this
        rintro rfl
        rw [ho] at hp; cases hp
        rw [hk] at hpk; cases hpk
    · simp only [hs, if_false]
  · funext c' hc' x'
    simp [ownReads] at hc'
  · funext k c' hc' x'
    simp [subReads] at hc'

/-- One step of the history theorems: whatever is stored before the operation is right. -/
theorem right_step {C : Calc V L X Y} {ops : List (Op V L X)} {op : Op V L X}
    (hg : Along C Good (init V L X Y) (ops ++ [op])) {n : ℕ} {c : CacheId}
    (hcs : c.owner = .im ∨ c.owner = .str)
    (ih : kindAt (run C (init V L X Y) ops) n = some c.owner → ∀ x,
      view C (run C (init V L X Y) ops).heap n c x = answer C (aRun (aInit V L) ops) n c x)
    (hk : kindAt (run C (init V L X Y) (ops ++ [op])) n = some c.owner) (x : X)
    (hs : ∀ o, (run C (init V L X Y) ops).heap n = some o → o.kind = c.owner →
      cacheAt (run C (init V L X Y) ops).heap n c x = none ∨
        answer C (aStep (aRun (aInit V L) ops) op) n c x = answer C (aRun (aInit V L) ops) n c x) :
    view C (run C (init V L X Y) (ops ++ [op])).heap n c x =
      answer C (aRun (aInit V L) (ops ++ [op])) n c x := by
  obtain ⟨hg0, hg1⟩ := along_snoc hg
  have hi := inv_run ops _ _ (inv_init C) hg0
  rw [run_snoc] at hk ⊢
  have harun : aRun (aInit V L) (ops ++ [op]) = aStep (aRun (aInit V L) ops) op := by simp [aRun]
  rw [harun]
  refine stays_right hi op hg1 n c hcs hk x ?_ ?_ ?_
  · cases hy : cacheAt (run C (init V L X Y) ops).heap n c x with
    | none => exact Or.inl rfl
    | some y =>
      obtain ⟨o, ho, hok⟩ := cache_kind hi.s hy
      exact Or.inr (ih (by simp [kindAt, ho, hok]) x)
  · cases hy : cacheAt (run C (init V L X Y) ops).heap n c x with
    | none => exact Or.inl rfl
    | some y =>
      obtain ⟨o, ho, hok⟩ := cache_kind hi.s hy
      rw [← hy]
      exact hs o ho hok
  · rintro m sel rfl
    rw [kind_query] at hk
    exact ih hk x

theorem along_weaken {C : Calc V L X Y} {P Q : World V L X Y → Op V L X → Prop} (hPQ : ∀ w op, P w op → Q w op) :
    ∀ {ops : List (Op V L X)} {w : World V L X Y}, Along C P w ops → Along C Q w ops
  | [], _, _ => trivial
  | _ :: _, _, h => ⟨hPQ _ _ h.1, along_weaken hPQ h.2⟩

/-- C40: as long as no hazard curve is replaced, the collapse rate is never stale.  Missing: histories that
replace a hazard curve (there it fails, see `collapse_rate_after_hazard_fails`). -/
theorem collapse_rate_never_stale_partial (C : Calc V L X Y) (ops : List (Op V L X))
    (hg : Along C (fun w op => Good w op ∧ HazardKept w op) (init V L X Y) ops) (n : ℕ)
    (hk : kindAt (run C (init V L X Y) ops) n = some .im) (x : X) :
    view C (run C (init V L X Y) ops).heap n .collapseRate x =
      answer C (aRun (aInit V L) ops) n .collapseRate x := by
  induction ops using List.reverseRecOn generalizing x with
  | nil => simp [run, init, kindAt] at hk
  | append_singleton ops op ih =>
    obtain ⟨hg0, hg1, hh⟩ := along_snoc hg
    have hgood := along_weaken (fun _ _ h => h.1) hg
    have hi := inv_run ops _ _ (inv_init C) (along_weaken (fun _ _ h => h.1) hg0)
    by_cases h1 : ∃ d, op = .setCollapse n d
    · obtain ⟨d, rfl⟩ := h1
      exact collapse_rate_after_set_partial C ops n d hgood hk x
    · refine right_step hgood (Or.inl rfl) (fun hk x => ih hg0 hk x) hk x ?_
      intro o ho hok
      right
      by_cases h2 : ∃ d, op = .setDemolition n d
      · obtain ⟨d, rfl⟩ := h2
        exact collapse_demolition hi n o ho hok d x
      · push Not at h1 h2
        rw [run_snoc] at hk
        exact answer_same hi op n (by simp [ho]) (quiet_im hi op hg1 hh n o ho hok hk h1 h2) _ x

/-- C40: as long as no hazard curve is replaced and collapse is set before the demolition rate is read, the
demolition rate is never stale.  Missing: the other histories, for which it fails
(`demolition_rate_after_hazard_fails`, `demolition_rate_after_collapse_fails`). -/
theorem demolition_rate_never_stale_partial (C : Calc V L X Y) (ops : List (Op V L X))
    (hg : Along C (fun w op => Good w op ∧ HazardKept w op ∧ CollapseFirst w op) (init V L X Y) ops) (n : ℕ)
    (hk : kindAt (run C (init V L X Y) ops) n = some .im) (x : X) :
    view C (run C (init V L X Y) ops).heap n .demolitionRate x =
      answer C (aRun (aInit V L) ops) n .demolitionRate x := by
  induction ops using List.reverseRecOn generalizing x with
  | nil => simp [run, init, kindAt] at hk
  | append_singleton ops op ih =>
    obtain ⟨hg0, hg1, hh, hf⟩ := along_snoc hg
    have hgood := along_weaken (fun _ _ h => h.1) hg
    have hi := inv_run ops _ _ (inv_init C) (along_weaken (fun _ _ h => h.1) hg0)
    by_cases h2 : ∃ d, op = .setDemolition n d
    · obtain ⟨d, rfl⟩ := h2
      exact demolition_rate_after_set_partial C ops n d hgood hk x
    · refine right_step hgood (Or.inl rfl) (fun hk x => ih hg0 hk x) hk x ?_
      intro o ho hok
      by_cases h1 : ∃ d, op = .setCollapse n d
      · obtain ⟨d, rfl⟩ := h1
        exact Or.inl (hf x)
      · right
        push Not at h1 h2
        rw [run_snoc] at hk
        exact answer_same hi op n (by simp [ho]) (quiet_im hi op hg1 hh n o ho hok hk h1 h2) _ x

/-! ### C41: the annual cost over whole histories -/

/-- The operation does not touch anything the structure is built from, is one the structure is told of, or
comes before the annual cost is read. -/
def Told (w : World V L X Y) (n : ℕ) (op : Op V L X) : Prop :=
  (∀ m, Under w n m → ¬ Touches w op m) ∨ Reaches w n op ∨ (∃ g, op = .addComp n g) ∨
    ∀ x, cacheAt w.heap n .annualCost x = none

/-- C41: as long as every operation that touches something a structure is built from is one the structure is
told of (collapse or demolition settings of its intensity measure, replacement of that measure, of its
hazard curve or of a group, addition of a group) or comes before the annual cost is first read, the annual
cost is never stale.  Missing: the other operations, for which it fails (`annual_cost_after_..._fails`). -/
theorem annual_cost_never_stale_partial (C : Calc V L X Y) (ops : List (Op V L X))
    (hg : Along C (fun w op => Good w op ∧ ∀ n, kindAt w n = some .str → Told w n op) (init V L X Y) ops)
    (n : ℕ) (hk : kindAt (run C (init V L X Y) ops) n = some .str) (x : X) :
    view C (run C (init V L X Y) ops).heap n .annualCost x =
      answer C (aRun (aInit V L) ops) n .annualCost x := by
  induction ops using List.reverseRecOn generalizing x with
  | nil => simp [run, init, kindAt] at hk
  | append_singleton ops op ih =>
    obtain ⟨hg0, hg1, ht⟩ := along_snoc hg
    have hgood := along_weaken (fun _ _ h => h.1) hg
    have hi := inv_run ops _ _ (inv_init C) (along_weaken (fun _ _ h => h.1) hg0)
    by_cases hr : Reaches (run C (init V L X Y) ops) n op
    · exact annual_cost_after_change_partial C ops n op hgood hr hk x
    · by_cases ha : ∃ g, op = .addComp n g
      · obtain ⟨g, rfl⟩ := ha
        obtain ⟨o, ho, hok⟩ := kindAt_some hg1.1.1
        have hao : (aRun (aInit V L) ops).heap n = some o.toSkel := by rw [← hi.heap]; simp [abs, ho]
        by_cases hadd : aStep (aRun (aInit V L) ops) (.addComp n g : Op V L X) = aRun (aInit V L) ops
        · refine right_step hgood (Or.inr rfl) (fun hk x => ih hg0 hk x) hk x fun _ _ _ => Or.inr ?_
          rw [hadd]
        · refine annual_cost_after_add_partial C ops n g hgood hk ?_ x
          intro o₁ o' ho₁ ho'
          rw [ho] at ho₁; cases ho₁
          have hi' := inv_step hi _ hg1
          rw [run_snoc] at ho'
          have hao' : (aStep (aRun (aInit V L) ops) (.addComp n g : Op V L X)).heap n = some o'.toSkel := by
            rw [← hi'.heap]; simp [abs, ho']
          simp only [aStep, aAddComp, hao] at hadd hao'
          split at hao'
          · next o₂ i e₁ e₂ =>
            cases e₁
            split at hao'
            · simp only [Function.update_self, Option.some.injEq] at hao'
              rw [← hao']; simp
            · next hc => simp only [e₂, if_neg hc] at hadd; exact absurd trivial hadd
          · next hc =>
            exfalso
            apply hadd
            cases e : getIM (aRun (aInit V L) ops).heap g with
            | none => rfl
            | some i => exact absurd e (hc _ i rfl)
      · refine right_step hgood (Or.inr rfl) (fun hk x => ih hg0 hk x) hk x ?_
        intro o ho hok
        rcases ht n (by simp [kindAt, ho, hok, CacheId.owner]) with h | h | h | h
        · exact Or.inr (answer_same hi op n (by simp [ho]) h _ x)
        · exact absurd h hr
        · exact absurd h ha
        · exact Or.inl (h x)

end Slat.Graph
