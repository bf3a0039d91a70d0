import Verif.GraphLemmas

/-! Helper lemmas for the object graph: what a replacement does. -/

namespace Slat.Graph

variable {V L X Y : Type}

theorem Notified.mono' {cbs : Replaceable.World Client} {h h' : ℕ → Option (Obj V L X Y)}
    (a : ∀ n c, Cleared h n c → Cleared h' n c) :
    ∀ {j m : ℕ}, Notified cbs h j m → Notified cbs h' j m
  | 0, _, _ => trivial
  | _ + 1, _, hn => fun id c hc =>
      ⟨fun ci hci => a _ _ ((hn id c hc).1 ci hci), fun hnot => Notified.mono' a ((hn id c hc).2 hnot)⟩

/-- The heap after some replace callbacks: the members of the processed clients point to `o'`, everything
else is the same, caches may have been emptied. -/
def Moved (o' : ℕ) (done : List Client) (h h' : ℕ → Option (Obj V L X Y)) : Prop :=
  ∀ n, (h n = none ∧ h' n = none) ∨ ∃ p q, h n = some p ∧ h' n = some q ∧ q.kind = p.kind ∧
    q.content = p.content ∧ q.dist₁ = p.dist₁ ∧ q.dist₂ = p.dist₂ ∧ q.entries = p.entries ∧ q.ids = p.ids ∧
    (∀ s, q.slots s = if (⟨n, s⟩ : Client) ∈ done then some o' else p.slots s) ∧
    ∀ c x, q.cache c x = none ∨ q.cache c x = p.cache c x

theorem Moved.refl (o' : ℕ) (h : ℕ → Option (Obj V L X Y)) : Moved o' [] h h := by
  intro n
  cases hn : h n with
  | none => exact Or.inl ⟨rfl, rfl⟩
  | some o => exact Or.inr ⟨o, o, rfl, rfl, rfl, rfl, rfl, rfl, rfl, rfl, by simp, fun _ _ => Or.inr rfl⟩

theorem Moved.isSome {o' : ℕ} {d : List Client} {h h' : ℕ → Option (Obj V L X Y)} (m : Moved o' d h h')
    (n : ℕ) : (h' n).isSome = (h n).isSome := by
  rcases m n with ⟨e₁, e₂⟩ | ⟨p, q, e₁, e₂, _⟩ <;> simp [e₁, e₂]

theorem Moved.le {o' : ℕ} {d : List Client} {h h' h'' : ℕ → Option (Obj V L X Y)} (m : Moved o' d h h')
    (l : LeH h' h'') : Moved o' d h h'' := by
  intro n
  rcases m n with ⟨e₁, e₂⟩ | ⟨p, q, e₁, e₂, k, c, d₁, d₂, en, ids, sl, ca⟩
  · rcases l n with ⟨_, e₃⟩ | ⟨_, _, e, _⟩
    · exact Or.inl ⟨e₁, e₃⟩
    · rw [e₂] at e; cases e
  · rcases l n with ⟨e, _⟩ | ⟨a, b, f₁, f₂, sk, ids', ca'⟩
    · rw [e₂] at e; cases e
    · rw [e₂] at f₁; cases f₁
      refine Or.inr ⟨p, b, e₁, f₂, ?_, ?_, ?_, ?_, ?_, ids'.trans ids, ?_, ?_⟩
      · rw [sk]; exact k
      · rw [sk]; exact c
      · rw [sk]; exact d₁
      · rw [sk]; exact d₂
      · rw [sk]; exact en
      · rw [sk]; exact sl
      · intro c x
        rcases ca' c x with h | h
        · exact Or.inl h
        · rw [h]; exact ca c x

theorem onReplace_target : ∀ s : Slot, s ≠ .second → (onReplace s).target = s := by
  intro s; cases s <;> simp [onReplace]

/-- One replace callback. -/
theorem runReplaced_spec (w₀ w : World V L X Y) (o' : ℕ) (done : List Client) (c : Client)
    (hm : Moved o' done w₀.heap w.heap) (hcbs : w.cbs = w₀.cbs) (hl : Live w₀)
    (hlive : (w₀.heap c.node).isSome) (hsec : c.slot ≠ .second) :
    let v := runReplaced w c o'
    Moved o' (c :: done) w₀.heap v.heap ∧ v.cbs = w.cbs ∧ v.next = w.next ∧ v.ub = w.ub ∧
    (∀ n ci, Cleared w.heap n ci → Cleared v.heap n ci) ∧
    (∀ ci ∈ (onReplace c.slot).clears, Cleared v.heap c.node ci) ∧
    ((onReplace c.slot).notifies = true → Notified w₀.cbs v.heap depth c.node) := by
  have hs : (w.heap c.node).isSome := by rw [hm.isSome]; exact hlive
  obtain ⟨o, ho⟩ := Option.isSome_iff_exists.1 hs
  obtain ⟨q, hq⟩ : ∃ q, q = (o.clear (onReplace c.slot).clears).setSlot (onReplace c.slot).target o' :=
    ⟨_, rfl⟩
  have hrun : runReplaced w c o' =
      if (onReplace c.slot).notifies then notify depth (w.set c.node q) c.node else w.set c.node q := by
    simp only [runReplaced, ho, hq]
  have htarget := onReplace_target c.slot hsec
  have hmove : Moved o' (c :: done) w₀.heap (w.set c.node q).heap := by
    intro n
    by_cases hn : n = c.node
    · subst hn
      rcases hm c.node with ⟨_, e₂⟩ | ⟨p, q', e₁, e₂, k, co, d₁, d₂, en, ids, sl, ca⟩
      · rw [ho] at e₂; cases e₂
      · rw [ho] at e₂; cases e₂
        refine Or.inr ⟨p, q, e₁, by simp [World.set], ?_, ?_, ?_, ?_, ?_, ?_, ?_, ?_⟩
        · rw [hq]; exact k
        · rw [hq]; exact co
        · rw [hq]; exact d₁
        · rw [hq]; exact d₂
        · rw [hq]; exact en
        · rw [hq]; exact ids
        · intro s
          rw [hq]
          simp only [Obj.setSlot, Obj.clear, htarget, List.mem_cons]
          by_cases h : s = c.slot
          · subst h; simp
          · have : (⟨c.node, s⟩ : Client) ≠ c := by
              intro e; exact h (by rw [← e])
            simp only [h, this, if_false, false_or]
            exact sl s
        · intro ci x
          rw [hq]
          simp only [Obj.setSlot, Obj.clear]
          by_cases h : ci ∈ (onReplace c.slot).clears
          · simp [h]
          · simp only [h, if_false]; exact ca ci x
    · have he : (w.set c.node q).heap n = w.heap n := by simp [World.set, hn]
      rw [he]
      rcases hm n with h | ⟨p, q', e₁, e₂, k, co, d₁, d₂, en, ids, sl, ca⟩
      · exact Or.inl h
      · refine Or.inr ⟨p, q', e₁, e₂, k, co, d₁, d₂, en, ids, ?_, ca⟩
        intro s
        have : (⟨n, s⟩ : Client) ≠ c := by
          intro e; exact hn (by rw [← e])
        simp only [List.mem_cons, this, false_or]
        exact sl s
  have hclr : ∀ ci ∈ (onReplace c.slot).clears, Cleared (w.set c.node q).heap c.node ci := by
    intro ci hci x
    simp [cacheAt, World.set, hq, Obj.setSlot, Obj.clear, hci]
  have hkeep : ∀ n ci, Cleared w.heap n ci → Cleared (w.set c.node q).heap n ci := by
    intro n ci h x
    by_cases hn : n = c.node
    · subst hn
      have h' := h x
      simp only [cacheAt, ho, Option.bind_some] at h'
      simp only [cacheAt, World.set, Function.update_self, Option.bind_some, hq, Obj.setSlot, Obj.clear, h']
      split <;> rfl
    · have he : (w.set c.node q).heap n = w.heap n := by simp [World.set, hn]
      simp only [cacheAt, he]
      exact h x
  have hlive' : Live (w.set c.node q) := by
    intro t id d hd
    have : (w.set c.node q).cbs = w₀.cbs := hcbs
    rw [this] at hd
    rw [hmove.isSome]
    exact hl t id d hd
  intro v
  by_cases hnot : (onReplace c.slot).notifies = true
  · have hv : v = notify depth (w.set c.node q) c.node := by
      show runReplaced w c o' = _
      rw [hrun, if_pos hnot]
    have hsp := notify_spec depth (w.set c.node q) c.node hlive'
    rw [← hv] at hsp
    have hcb : (w.set c.node q).cbs = w₀.cbs := hcbs
    refine ⟨hmove.le hsp.1.heap, hsp.1.cbs, hsp.1.next, hsp.1.ub,
      fun n ci h => hsp.1.heap.cleared (hkeep n ci h), fun ci hci => hsp.1.heap.cleared (hclr ci hci), ?_⟩
    intro _
    rw [hcb] at hsp
    exact hsp.2
  · have hv : v = w.set c.node q := by
      show runReplaced w c o' = _
      rw [hrun, if_neg hnot]
    rw [hv]
    exact ⟨hmove, rfl, rfl, rfl, hkeep, hclr, fun h => absurd h hnot⟩

/-- A whole replacement. -/
theorem replace_spec (w : World V L X Y) (o o' : ℕ) (hne : o ≠ o')
    (hl : Live w) (hsec : ∀ e ∈ (w.cbs o).callbacks, e.2.slot ≠ .second) :
    let v := replace w o o'
    let cbs' := (Replaceable.replaceObj w.cbs o o').1
    v.cbs = cbs' ∧ v.next = w.next ∧ v.ub = w.ub ∧
    ∃ done : List Client, (∀ c, c ∈ done ↔ ∃ id, (id, c) ∈ (w.cbs o).callbacks) ∧
      Moved o' done w.heap v.heap ∧
      ∀ c ∈ done, (∀ ci ∈ (onReplace c.slot).clears, Cleared v.heap c.node ci) ∧
        ((onReplace c.slot).notifies = true → Notified cbs' v.heap depth c.node) := by
  obtain ⟨cbs', hcbs'⟩ : ∃ x, x = (Replaceable.replaceObj w.cbs o o').1 := ⟨_, rfl⟩
  have hevs : (Replaceable.replaceObj w.cbs o o').2 =
      (w.cbs o).callbacks.map (fun e => Replaceable.Event.replaced e.2 o') := by
    simp only [Replaceable.replaceObj]
    rw [Function.update_of_ne hne]
  have hl0 : Live ({ w with cbs := cbs' } : World V L X Y) := by
    intro t id c hc
    simp only [hcbs', Replaceable.replaceObj] at hc
    by_cases ht : t = o
    · subst ht; simp at hc
    · rw [Function.update_of_ne ht] at hc
      by_cases ht' : t = o'
      · subst ht'; simp at hc; exact hl o id c hc
      · rw [Function.update_of_ne ht'] at hc
        exact hl t id c hc
  -- fold over the entries
  have key : ∀ (l : List (ℕ × Client)) (v : World V L X Y) (done : List Client),
      (∀ e ∈ l, (w.heap e.2.node).isSome ∧ e.2.slot ≠ .second) →
      Moved o' done w.heap v.heap → v.cbs = cbs' →
      (∀ c ∈ done, (∀ ci ∈ (onReplace c.slot).clears, Cleared v.heap c.node ci) ∧
        ((onReplace c.slot).notifies = true → Notified cbs' v.heap depth c.node)) →
      let u := (l.map (fun e => Replaceable.Event.replaced e.2 o')).foldl (fun w ev =>
        match ev with
        | .changed _ => w
        | .replaced c m => runReplaced w c m) v
      u.cbs = v.cbs ∧ u.next = v.next ∧ u.ub = v.ub ∧
      ∃ done' : List Client, (∀ c, c ∈ done' ↔ c ∈ done ∨ ∃ id, (id, c) ∈ l) ∧
        Moved o' done' w.heap u.heap ∧
        ∀ c ∈ done', (∀ ci ∈ (onReplace c.slot).clears, Cleared u.heap c.node ci) ∧
          ((onReplace c.slot).notifies = true → Notified cbs' u.heap depth c.node) := by
    intro l
    induction l with
    | nil => intro v done _ hm hc hd; exact ⟨rfl, rfl, rfl, done, by simp, hm, hd⟩
    | cons e l ih =>
      intro v done hlv hm hc hd
      obtain ⟨id, c⟩ := e
      have hce := hlv (id, c) (by simp)
      have hstep := runReplaced_spec { w with cbs := cbs' } v o' done c hm hc hl0 hce.1 hce.2
      obtain ⟨m1, c1, n1, u1, keep, clr, note⟩ := hstep
      simp only [List.map_cons, List.foldl_cons]
      have hrest := ih (runReplaced v c o') (c :: done) (fun e he => hlv e (by simp [he])) m1
        (c1.trans hc) (by
          intro d hdm
          rcases List.mem_cons.1 hdm with rfl | hdm
          · exact ⟨clr, note⟩
          · exact ⟨fun ci hci => keep _ _ ((hd d hdm).1 ci hci),
              fun h => ((hd d hdm).2 h).mono' keep⟩)
      obtain ⟨a1, a2, a3, done', hdm, hmv, hdd⟩ := hrest
      refine ⟨a1.trans c1, a2.trans n1, a3.trans u1, done', ?_, hmv, hdd⟩
      intro d
      rw [hdm d]
      simp only [List.mem_cons, Prod.mk.injEq]
      constructor
      · rintro ((rfl | h) | ⟨i, h⟩)
        · exact Or.inr ⟨id, Or.inl ⟨rfl, rfl⟩⟩
        · exact Or.inl h
        · exact Or.inr ⟨i, Or.inr h⟩
      · rintro (h | ⟨i, ⟨_, rfl⟩ | h⟩)
        · exact Or.inl (Or.inr h)
        · exact Or.inl (Or.inl rfl)
        · exact Or.inr ⟨i, h⟩
  have hfin := key (w.cbs o).callbacks { w with cbs := cbs' } []
    (fun e he => ⟨hl o e.1 e.2 he, hsec e he⟩) (Moved.refl o' w.heap) rfl (by simp)
  have hv : replace w o o' = ((w.cbs o).callbacks.map (fun e => Replaceable.Event.replaced e.2 o')).foldl
      (fun w ev =>
        match ev with
        | .changed _ => w
        | .replaced c m => runReplaced w c m) { w with cbs := cbs' } := by
    simp only [replace, hevs, hcbs']
    rfl
  obtain ⟨b1, b2, b3, done, hd, hm, hdd⟩ := hfin
  intro v cbs2
  have hc2 : cbs2 = cbs' := hcbs'.symm
  have hvv : v = replace w o o' := rfl
  rw [hvv, hc2, hv]
  exact ⟨b1, b2, b3, done, by simpa using hd, hm, hdd⟩

end Slat.Graph
