import Verif.GraphProps

/-!
# Collapse and demolition rates of an IM, annual cost of a structure: what holds (C40, C41)

These caches are not cleared by every change below them (`GraphFails.lean`).  What holds: a value that is not
stored is calculated correctly, and the changes listed here do clear the stored value.
-/

namespace Slat.Graph

variable {V L X Y : Type}

/-- Unfolding deeper than the classes reach changes nothing. -/
theorem treeOf_stable {h : ℕ → Option (Obj V L X Y)} (wf : WF h) : ∀ (k n : ℕ) (o : Obj V L X Y), h n = some o →
    level o.kind < k → treeOf (abs h) (k + 1) n = treeOf (abs h) k n
  | 0, _, _, _, hl => by omega
  | k + 1, n, o, ho, hl => by
    have e : abs h n = some o.toSkel := by simp [abs, ho]
    rw [treeOf_succ_some e, treeOf_succ_some e]
    congr 1
    funext s
    cases hs : o.slots s with
    | none => rfl
    | some m =>
      simp only
      obtain ⟨how, p, hp, hk⟩ := wf n o s m ho hs
      have := level_slot s
      refine treeOf_stable wf k m p hp ?_
      rw [hk]; rw [how] at this; omega

/-- A quantity of an IM or a structure that is not stored is calculated correctly. -/
theorem unread_right {C : Calc V L X Y} {w : World V L X Y} {a : AWorld V L} (hi : Inv C w a) (n : ℕ)
    (c : CacheId) (o : Obj V L X Y) (ho : w.heap n = some o) (hc : o.kind = c.owner)
    (hcs : c.owner = .im ∨ c.owner = .str) (x : X) (hun : cacheAt w.heap n c x = none) :
    view C w.heap n c x = answer C a n c x := by
  rw [answer, ← hi.heap, view, hun, fresh]
  simp only
  have hown : ownReads c = [] := by
    cases c <;> simp [CacheId.owner, ownReads] at hcs ⊢
  congr 1
  · funext c' hc' x'
    rw [hown] at hc'; cases hc'
  · funext k c' hc' x'
    have hstr : c = .annualCost := by
      cases c <;> simp [CacheId.owner, subReads] at hcs hc' ⊢
    subst hstr
    have hkstr : o.kind = .str := hc
    have e : abs w.heap n = some o.toSkel := by simp [abs, ho]
    have ht : (tree (abs w.heap) n).entryChild k =
        if k ∈ o.entries then (match o.slots (.entry k) with
          | none => Tree.none
          | some m => treeOf (abs w.heap) 5 m) else Tree.none := by
      rw [tree, treeOf_succ_some e]; rfl
    by_cases hk : k ∈ o.entries
    · obtain ⟨m, hm⟩ := Option.isSome_iff_exists.1 (hi.s.entrySlot n o k ho hk)
      obtain ⟨_, p, hp, hpk⟩ := hi.s.wf n o (.entry k) m ho hm
      have hpk : p.kind = .cg := hpk
      have hent : entryOf w.heap n k = some m := by
        simp [entryOf, ho, hk, hm]
      have hcg : c'.owner = .cg := by
        simp [subReads] at hc'; rcases hc' with rfl | rfl <;> rfl
      have hst : treeOf (abs w.heap) 6 m = treeOf (abs w.heap) 5 m :=
        treeOf_stable hi.s.wf 5 m p hp (by rw [hpk]; simp [level])
      have em : abs w.heap m = some p.toSkel := by simp [abs, hp]
      rw [ht, if_pos hk, hm, hent]
      simp only [Option.map_some]
      rw [view_eq_fresh hi.coh m p hp c' (by rw [hcg, hpk]) (Or.inr hcg) x', tree, hst]
      rw [treeOf_succ_some em]
    · have hent : entryOf w.heap n k = none := by
        simp [entryOf, ho, hk]
      rw [ht, if_neg hk, hent]
      rfl

theorem run_snoc (C : Calc V L X Y) (w : World V L X Y) (ops : List (Op V L X)) (op : Op V L X) :
    run C w (ops ++ [op]) = step C (run C w ops) op := by
  simp [run]

theorem along_snoc {C : Calc V L X Y} {P : World V L X Y → Op V L X → Prop} :
    ∀ {ops : List (Op V L X)} {w : World V L X Y} {op : Op V L X}, Along C P w (ops ++ [op]) →
      Along C P w ops ∧ P (run C w ops) op
  | [], _, _, h => ⟨trivial, h.1⟩
  | o :: ops, w, op, h => by
    have := along_snoc (ops := ops) (w := step C w o) (op := op) h.2
    exact ⟨⟨h.1, this.1⟩, this.2⟩

/-- C40, C41: a rate or an annual cost that has not been read yet, or was cleared, is right. -/
theorem unread_right_partial (C : Calc V L X Y) (ops : List (Op V L X))
    (hg : Along C Good (init V L X Y) ops) (n : ℕ) (c : CacheId)
    (hk : kindAt (run C (init V L X Y) ops) n = some c.owner) (hcs : c.owner = .im ∨ c.owner = .str) (x : X)
    (hun : cacheAt (run C (init V L X Y) ops).heap n c x = none) :
    view C (run C (init V L X Y) ops).heap n c x = answer C (aRun (aInit V L) ops) n c x := by
  obtain ⟨o, ho, hok⟩ := kindAt_some hk
  exact unread_right (inv_run ops _ _ (inv_init C) hg) n c o ho hok hcs x hun

theorem cleared_answer {C : Calc V L X Y} {ops : List (Op V L X)} {op : Op V L X}
    (hg : Along C Good (init V L X Y) (ops ++ [op])) {n : ℕ} {c : CacheId}
    (hk : kindAt (run C (init V L X Y) (ops ++ [op])) n = some c.owner)
    (hcs : c.owner = .im ∨ c.owner = .str)
    (hcl : Cleared (step C (run C (init V L X Y) ops) op).heap n c) (x : X) :
    view C (run C (init V L X Y) (ops ++ [op])).heap n c x =
      answer C (aRun (aInit V L) (ops ++ [op])) n c x :=
  unread_right_partial C _ hg n c hk hcs x (by rw [run_snoc]; exact hcl x)

/-- C40: right after `SetCollapse` the collapse rate is right. -/
theorem collapse_rate_after_set_partial (C : Calc V L X Y) (ops : List (Op V L X)) (n : ℕ) (d : Option L)
    (hg : Along C Good (init V L X Y) (ops ++ [.setCollapse n d]))
    (hk : kindAt (run C (init V L X Y) (ops ++ [.setCollapse n d])) n = some .im) (x : X) :
    view C (run C (init V L X Y) (ops ++ [.setCollapse n d])).heap n .collapseRate x =
      answer C (aRun (aInit V L) (ops ++ [.setCollapse n d])) n .collapseRate x := by
  refine cleared_answer hg hk (Or.inl rfl) ?_ x
  obtain ⟨hg0, hg1⟩ := along_snoc hg
  have hi := inv_run ops _ _ (inv_init C) hg0
  obtain ⟨o, ho, hok⟩ := kindAt_some hg1.1
  have hst : step C (run C (init V L X Y) ops) (.setCollapse n d) =
      notify depth ((run C (init V L X Y) ops).set n { o.clear [.collapseRate] with dist₁ := d }) n := by
    simp only [step, setCollapse, ho]
  rw [hst]
  have hs1 : SInv ((run C (init V L X Y) ops).set n { o.clear [.collapseRate] with dist₁ := d }) := by
    refine hi.s.set ho rfl rfl rfl (fun _ h => h) ?_
    intro c x y hy
    simp only [Obj.clear] at hy
    by_cases h : c ∈ [CacheId.collapseRate]
    · rw [if_pos h] at hy; cases hy
    · rw [if_neg h] at hy; exact hi.s.cown n o c x y ho hy
  refine (notify_spec depth _ n hs1.live).1.heap.cleared ?_
  intro x
  simp [cacheAt, World.set, Obj.clear]

/-- C40: right after `SetDemolition` the demolition rate is right. -/
theorem demolition_rate_after_set_partial (C : Calc V L X Y) (ops : List (Op V L X)) (n : ℕ) (d : Option L)
    (hg : Along C Good (init V L X Y) (ops ++ [.setDemolition n d]))
    (hk : kindAt (run C (init V L X Y) (ops ++ [.setDemolition n d])) n = some .im) (x : X) :
    view C (run C (init V L X Y) (ops ++ [.setDemolition n d])).heap n .demolitionRate x =
      answer C (aRun (aInit V L) (ops ++ [.setDemolition n d])) n .demolitionRate x := by
  refine cleared_answer hg hk (Or.inl rfl) ?_ x
  obtain ⟨hg0, hg1⟩ := along_snoc hg
  have hi := inv_run ops _ _ (inv_init C) hg0
  obtain ⟨o, ho, hok⟩ := kindAt_some hg1.1
  have hst : step C (run C (init V L X Y) ops) (.setDemolition n d) =
      notify depth ((run C (init V L X Y) ops).set n { o.clear [.demolitionRate] with dist₂ := d }) n := by
    simp only [step, setDemolition, ho]
  rw [hst]
  have hs1 : SInv ((run C (init V L X Y) ops).set n { o.clear [.demolitionRate] with dist₂ := d }) := by
    refine hi.s.set ho rfl rfl rfl (fun _ h => h) ?_
    intro c x y hy
    simp only [Obj.clear] at hy
    by_cases h : c ∈ [CacheId.demolitionRate]
    · rw [if_pos h] at hy; cases hy
    · rw [if_neg h] at hy; exact hi.s.cown n o c x y ho hy
  refine (notify_spec depth _ n hs1.live).1.heap.cleared ?_
  intro x
  simp [cacheAt, World.set, Obj.clear]

/-- The changes that reach a structure `n` in state `w`: settings of its IM, replacement of its IM, of its
IM's hazard curve, or of a group it contains. -/
inductive Reaches (w : World V L X Y) (n : ℕ) : Op V L X → Prop
  | collapse (o : Obj V L X Y) (i : ℕ) (d : Option L) : w.heap n = some o → o.slots .sim = some i →
      Reaches w n (.setCollapse i d)
  | demolition (o : Obj V L X Y) (i : ℕ) (d : Option L) : w.heap n = some o → o.slots .sim = some i →
      Reaches w n (.setDemolition i d)
  | im (o : Obj V L X Y) (i i' : ℕ) : w.heap n = some o → o.slots .sim = some i → Reaches w n (.replace i i')
  | hazard (o oi : Obj V L X Y) (i f f' : ℕ) : w.heap n = some o → o.slots .sim = some i →
      w.heap i = some oi → oi.slots .f = some f → Reaches w n (.replace f f')
  | group (o : Obj V L X Y) (k g g' : ℕ) : w.heap n = some o → o.slots (.entry k) = some g →
      Reaches w n (.replace g g')

theorem setIM_cleared {w : World V L X Y} (hs : SInv w) {n i : ℕ} {o oi q : Obj V L X Y} (ho : w.heap n = some o)
    (hsim : o.slots .sim = some i) (hoi : w.heap i = some oi) (hk : q.kind = oi.kind)
    (hsl : q.slots = oi.slots) (hids : q.ids = oi.ids) (hen : q.entries = oi.entries)
    (hca : ∀ c x, q.cache c x = none ∨ q.cache c x = oi.cache c x) :
    Cleared (notify depth (w.set i q) i).heap n .annualCost := by
  have hs1 : SInv (w.set i q) := hs.set hoi hk hsl hids (by rw [hen]; simp) (by
    intro c x y hy
    rcases hca c x with e | e
    · rw [e] at hy; cases hy
    · rw [e] at hy; rw [hk]; exact hs.cown i oi c x y hoi hy)
  have hsp := (notify_spec depth (w.set i q) i hs1.live).2
  have hreg := hs.reg n o .sim i ho hsim
  exact (hsp _ ⟨n, .sim⟩ hreg).1 .annualCost (by simp [onChange])

/-- C41: right after a change that reaches the structure its annual cost is right. -/
theorem annual_cost_after_change_partial (C : Calc V L X Y) (ops : List (Op V L X)) (n : ℕ) (op : Op V L X)
    (hg : Along C Good (init V L X Y) (ops ++ [op])) (hr : Reaches (run C (init V L X Y) ops) n op)
    (hk : kindAt (run C (init V L X Y) (ops ++ [op])) n = some .str) (x : X) :
    view C (run C (init V L X Y) (ops ++ [op])).heap n .annualCost x =
      answer C (aRun (aInit V L) (ops ++ [op])) n .annualCost x := by
  refine cleared_answer hg hk (Or.inr rfl) ?_ x
  obtain ⟨hg0, hg1⟩ := along_snoc hg
  have hi := inv_run ops _ _ (inv_init C) hg0
  obtain ⟨w, hw⟩ : ∃ w, w = run C (init V L X Y) ops := ⟨_, rfl⟩
  rw [← hw] at hi hr hg1 ⊢
  cases hr with
  | collapse o i d ho hsim =>
    obtain ⟨_, p, hp, _⟩ := hi.s.wf n o .sim i ho hsim
    have hst : step C w (.setCollapse i d) =
        notify depth (w.set i { p.clear [.collapseRate] with dist₁ := d }) i := by
      simp only [step, setCollapse, hp]
    rw [hst]
    refine setIM_cleared hi.s ho hsim hp rfl rfl rfl rfl ?_
    intro c x
    by_cases h : c ∈ [CacheId.collapseRate]
    · exact Or.inl (by simp only [Obj.clear, if_pos h])
    · exact Or.inr (by simp only [Obj.clear, if_neg h])
  | demolition o i d ho hsim =>
    obtain ⟨_, p, hp, _⟩ := hi.s.wf n o .sim i ho hsim
    have hst : step C w (.setDemolition i d) =
        notify depth (w.set i { p.clear [.demolitionRate] with dist₂ := d }) i := by
      simp only [step, setDemolition, hp]
    rw [hst]
    refine setIM_cleared hi.s ho hsim hp rfl rfl rfl rfl ?_
    intro c x
    by_cases h : c ∈ [CacheId.demolitionRate]
    · exact Or.inl (by simp only [Obj.clear, if_pos h])
    · exact Or.inr (by simp only [Obj.clear, if_neg h])
  | im o i i' ho hsim =>
    obtain ⟨_, hne, hempty, hsec⟩ := hg1
    obtain ⟨_, _, _, done, hdone, _, hnote⟩ := replace_spec w i i' hne hi.s.live hsec
    exact (hnote ⟨n, .sim⟩ ((hdone _).2 ⟨_, hi.s.reg n o .sim i ho hsim⟩)).1 .annualCost (by simp [onReplace])
  | hazard o oi i f f' ho hsim hoi hf =>
    obtain ⟨⟨k, _, hkf, hkf'⟩, hne, hempty, hsec⟩ := hg1
    obtain ⟨_, _, _, done, hdone, _, hnote⟩ := replace_spec w f f' hne hi.s.live hsec
    have hnot := (hnote ⟨i, .f⟩ ((hdone _).2 ⟨_, hi.s.reg i oi .f f hoi hf⟩)).2 rfl
    obtain ⟨_, pf, hpf, hpfk⟩ := hi.s.wf i oi .f f hoi hf
    obtain ⟨_, pi, hpi, hpik⟩ := hi.s.wf n o .sim i ho hsim
    have hkdet : k = .det := by
      simp only [kindAt, hpf, Option.map_some, Option.some.injEq] at hkf
      rw [← hkf]; exact hpfk
    have hif : i ≠ f := by
      rintro rfl; rw [hpi] at hpf; cases hpf; rw [hpik] at hpfk; cases hpfk
    have hif' : i ≠ f' := by
      rintro rfl
      simp only [kindAt, hpi, Option.map_some, Option.some.injEq] at hkf'
      rw [hpik, hkdet] at hkf'; cases hkf'
    have hcb : (Replaceable.replaceObj w.cbs f f').1 i = w.cbs i := by
      simp [Replaceable.replaceObj, hif, hif']
    have hreg := hi.s.reg n o .sim i ho hsim
    rw [← hcb] at hreg
    exact (hnot _ ⟨n, .sim⟩ hreg).1 .annualCost (by simp [onChange])
  | group o k g g' ho hs =>
    obtain ⟨_, hne, hempty, hsec⟩ := hg1
    obtain ⟨_, _, _, done, hdone, _, hnote⟩ := replace_spec w g g' hne hi.s.live hsec
    exact (hnote ⟨n, .entry k⟩ ((hdone _).2 ⟨_, hi.s.reg n o (.entry k) g ho hs⟩)).1 .annualCost
      (by simp [onReplace])

/-- C41: right after a group was added the annual cost is right. -/
theorem annual_cost_after_add_partial (C : Calc V L X Y) (ops : List (Op V L X)) (n g : ℕ)
    (hg : Along C Good (init V L X Y) (ops ++ [.addComp n g]))
    (hk : kindAt (run C (init V L X Y) (ops ++ [.addComp n g])) n = some .str)
    (hadd : ∀ o o', (run C (init V L X Y) ops).heap n = some o →
      (run C (init V L X Y) (ops ++ [.addComp n g])).heap n = some o' →
      o'.entries.length = o.entries.length + 1) (x : X) :
    view C (run C (init V L X Y) (ops ++ [.addComp n g])).heap n .annualCost x =
      answer C (aRun (aInit V L) (ops ++ [.addComp n g])) n .annualCost x := by
  refine cleared_answer hg hk (Or.inr rfl) ?_ x
  obtain ⟨o', ho', _⟩ := kindAt_some hk
  rw [run_snoc] at ho' hadd
  obtain ⟨w, hw⟩ : ∃ w, w = run C (init V L X Y) ops := ⟨_, rfl⟩
  rw [← hw] at ho' hadd ⊢
  intro x
  cases hn : w.heap n with
  | none =>
    have : step C w (.addComp n g) = w := by simp only [step, addComp, hn]
    rw [this, hn] at ho'; cases ho'
  | some o =>
    have hadd := hadd o o' hn ho'
    cases hIM : getIM (abs w.heap) g with
    | none =>
      have : step C w (.addComp n g) = w := by simp only [step, addComp, hn, hIM]
      rw [this, hn] at ho'; cases ho'; omega
    | some i =>
      obtain ⟨w₁, hw₁⟩ : ∃ w₁, w₁ = (if o.entries = [] then register w n .sim i else w) := ⟨_, rfl⟩
      have ho₁ : ∃ o₁, w₁.heap n = some o₁ ∧ o₁.entries = o.entries := by
        by_cases he : o.entries = []
        · rw [if_pos he] at hw₁
          subst hw₁
          exact ⟨_, register_heap_self w n .sim i o hn, rfl⟩
        · rw [if_neg he] at hw₁
          subst hw₁
          exact ⟨o, hn, rfl⟩
      obtain ⟨o₁, ho₁, hen₁⟩ := ho₁
      by_cases hc : (w₁.heap n).bind (fun o => o.slots .sim) = some i
      · have hself := register_heap_self { w₁ with next := w₁.next + 1 } n (.entry w₁.next) g o₁ ho₁
        have hst : step C w (.addComp n g) =
            (register { w₁ with next := w₁.next + 1 } n (.entry w₁.next) g).set n
              { Obj.clear [.annualCost] ⟨{ o₁.toSkel with
                    slots := fun s' => if s' = .entry w₁.next then some g else o₁.slots s' },
                  fun s' => if s' = .entry w₁.next then (w₁.cbs g).idCounter + 1 else o₁.ids s', o₁.cache⟩
                with entries := o₁.entries ++ [w₁.next] } := by
          simp only [step, addComp, hn, hIM, ← hw₁, if_pos hc, hself]
        rw [hst]
        simp [cacheAt, World.set, Obj.clear]
      · have : step C w (.addComp n g) = w₁ := by
          simp only [step, addComp, hn, hIM, ← hw₁, if_neg hc]
        rw [this, ho₁] at ho'; cases ho'
        rw [hen₁] at hadd; omega

end Slat.Graph
