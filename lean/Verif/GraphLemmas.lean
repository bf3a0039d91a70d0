import Verif.GraphSpec
import Verif.ReplaceableLemmas

/-! Helper lemmas for the object graph: what a notification does. -/

namespace Slat.Graph

variable {V L X Y : Type}

/-- A cache is empty. -/
def Cleared (h : ℕ → Option (Obj V L X Y)) (n : ℕ) (c : CacheId) : Prop := ∀ x, cacheAt h n c x = none

/-- Same objects, caches possibly emptied. -/
def LeH (h h' : ℕ → Option (Obj V L X Y)) : Prop :=
  ∀ n, (h n = none ∧ h' n = none) ∨ ∃ o o', h n = some o ∧ h' n = some o' ∧ o'.toSkel = o.toSkel ∧
    o'.ids = o.ids ∧ ∀ c x, o'.cache c x = none ∨ o'.cache c x = o.cache c x

theorem LeH.refl (h : ℕ → Option (Obj V L X Y)) : LeH h h := by
  intro n
  cases hn : h n with
  | none => exact Or.inl ⟨rfl, rfl⟩
  | some o => exact Or.inr ⟨o, o, rfl, rfl, rfl, rfl, fun _ _ => Or.inr rfl⟩

theorem LeH.trans {h₁ h₂ h₃ : ℕ → Option (Obj V L X Y)} (a : LeH h₁ h₂) (b : LeH h₂ h₃) : LeH h₁ h₃ := by
  intro n
  rcases a n with ⟨e₁, e₂⟩ | ⟨o, o', e₁, e₂, sk, ids, ca⟩
  · rcases b n with ⟨_, e₃⟩ | ⟨_, _, e, _⟩
    · exact Or.inl ⟨e₁, e₃⟩
    · rw [e₂] at e; cases e
  · rcases b n with ⟨e, _⟩ | ⟨p, p', f₁, f₂, sk', ids', ca'⟩
    · rw [e₂] at e; cases e
    · rw [e₂] at f₁; cases f₁
      refine Or.inr ⟨o, p', e₁, f₂, sk'.trans sk, ids'.trans ids, fun c x => ?_⟩
      rcases ca' c x with h | h
      · exact Or.inl h
      · rw [h]; exact ca c x

theorem LeH.abs_eq {h h' : ℕ → Option (Obj V L X Y)} (a : LeH h h') : abs h' = abs h := by
  funext n
  rcases a n with ⟨e₁, e₂⟩ | ⟨o, o', e₁, e₂, sk, _, _⟩
  · simp [abs, e₁, e₂]
  · simp [abs, e₁, e₂, sk]

theorem LeH.cleared {h h' : ℕ → Option (Obj V L X Y)} (a : LeH h h') {n : ℕ} {c : CacheId}
    (hc : Cleared h n c) : Cleared h' n c := by
  intro x
  have := hc x
  rcases a n with ⟨e₁, e₂⟩ | ⟨o, o', e₁, e₂, _, _, ca⟩
  · simp [cacheAt, e₂]
  · simp only [cacheAt, e₁, e₂, Option.bind_some] at this ⊢
    rcases ca c x with h | h
    · exact h
    · rw [h, this]

theorem LeH.isSome {h h' : ℕ → Option (Obj V L X Y)} (a : LeH h h') (n : ℕ) :
    (h' n).isSome = (h n).isSome := by
  rcases a n with ⟨e₁, e₂⟩ | ⟨o, o', e₁, e₂, _⟩ <;> simp [e₁, e₂]

/-- The object's clients have been told of a change, `j` levels deep: each has cleared the caches its
change callback clears and, if that callback notifies, told its own clients. -/
def Notified (cbs : Replaceable.World Client) (h : ℕ → Option (Obj V L X Y)) : ℕ → ℕ → Prop
  | 0, _ => True
  | j + 1, m => ∀ id c, (id, c) ∈ (cbs m).callbacks →
      (∀ ci ∈ (onChange c.slot).clears, Cleared h c.node ci) ∧
      ((onChange c.slot).notifies = true → Notified cbs h j c.node)

theorem Notified.mono {cbs : Replaceable.World Client} {h h' : ℕ → Option (Obj V L X Y)} (a : LeH h h') :
    ∀ {j m : ℕ}, Notified cbs h j m → Notified cbs h' j m
  | 0, _, _ => trivial
  | _ + 1, _, hn => fun id c hc =>
      ⟨fun ci hci => a.cleared ((hn id c hc).1 ci hci), fun hnot => Notified.mono a ((hn id c hc).2 hnot)⟩

theorem Notified.le {cbs : Replaceable.World Client} {h : ℕ → Option (Obj V L X Y)} :
    ∀ {j k m : ℕ}, k ≤ j → Notified cbs h j m → Notified cbs h k m
  | _, 0, _, _, _ => trivial
  | 0, _ + 1, _, hk, _ => absurd hk (by omega)
  | _ + 1, _ + 1, _, hk, hn => fun id c hc =>
      ⟨(hn id c hc).1, fun hnot => Notified.le (by omega) ((hn id c hc).2 hnot)⟩

/-- Every registered client is a live object. -/
def Live (w : World V L X Y) : Prop :=
  ∀ t id c, (id, c) ∈ (w.cbs t).callbacks → (w.heap c.node).isSome

/-- Same world with caches possibly emptied. -/
structure Le (w w' : World V L X Y) : Prop where
  heap : LeH w.heap w'.heap
  next : w'.next = w.next
  cbs : w'.cbs = w.cbs
  ub : w'.ub = w.ub

theorem Le.refl (w : World V L X Y) : Le w w := ⟨LeH.refl _, rfl, rfl, rfl⟩

theorem Le.trans {a b c : World V L X Y} (h₁ : Le a b) (h₂ : Le b c) : Le a c :=
  ⟨h₁.heap.trans h₂.heap, h₂.next.trans h₁.next, h₂.cbs.trans h₁.cbs, h₂.ub.trans h₁.ub⟩

theorem Le.live {w w' : World V L X Y} (h : Le w w') (hl : Live w) : Live w' := by
  intro t id c hc
  rw [h.cbs] at hc
  rw [h.heap.isSome]
  exact hl t id c hc

theorem le_clear (w : World V L X Y) (n : ℕ) (o : Obj V L X Y) (ho : w.heap n = some o)
    (cs : List CacheId) : Le w (w.set n (o.clear cs)) := by
  refine ⟨?_, rfl, rfl, rfl⟩
  intro m
  by_cases hm : m = n
  · subst hm
    refine Or.inr ⟨o, o.clear cs, ho, by simp [World.set], rfl, rfl, fun c x => ?_⟩
    by_cases h : c ∈ cs <;> simp [Obj.clear, h]
  · have : (w.set n (o.clear cs)).heap m = w.heap m := by simp [World.set, hm]
    rw [this]
    exact LeH.refl w.heap m

theorem cleared_clear (w : World V L X Y) (n : ℕ) (o : Obj V L X Y) (cs : List CacheId) (c : CacheId)
    (hc : c ∈ cs) : Cleared (w.set n (o.clear cs)).heap n c := by
  intro x
  simp [cacheAt, World.set, Obj.clear, hc]

theorem notify_spec : ∀ (k : ℕ) (w : World V L X Y) (n : ℕ), Live w →
    Le w (notify k w n) ∧ Notified w.cbs (notify k w n).heap k n
  | 0, w, n, _ => ⟨Le.refl w, trivial⟩
  | k + 1, w, n, hl => by
    -- process a list of events all of whose clients are live
    have key : ∀ (l : List (Replaceable.Event Client)) (v : World V L X Y), Le w v →
        (∀ ev ∈ l, ∃ c, ev = .changed c ∧ (w.heap c.node).isSome) →
        let v' := l.foldl (fun w ev =>
          match ev with
          | .changed c =>
            match w.heap c.node with
            | none => { w with ub := true }
            | some o =>
              let w₁ := w.set c.node (o.clear (onChange c.slot).clears)
              if (onChange c.slot).notifies then notify k w₁ c.node else w₁
          | .replaced _ _ => w) v
        Le v v' ∧ ∀ c, Replaceable.Event.changed c ∈ l →
          (∀ ci ∈ (onChange c.slot).clears, Cleared v'.heap c.node ci) ∧
          ((onChange c.slot).notifies = true → Notified w.cbs v'.heap k c.node) := by
      intro l
      induction l with
      | nil => intro v _ _; exact ⟨Le.refl v, by simp⟩
      | cons ev l ih =>
        intro v hv hlive
        obtain ⟨c, rfl, hsome⟩ := hlive ev (by simp)
        have hvs : (v.heap c.node).isSome := by rw [hv.heap.isSome]; exact hsome
        obtain ⟨o, ho⟩ := Option.isSome_iff_exists.1 hvs
        simp only [List.foldl_cons, ho]
        -- the world after the first event
        obtain ⟨u, hu⟩ : ∃ u, u = (if (onChange c.slot).notifies then
            notify k (v.set c.node (o.clear (onChange c.slot).clears)) c.node
            else v.set c.node (o.clear (onChange c.slot).clears)) := ⟨_, rfl⟩
        rw [← hu]
        have l1 := le_clear v c.node o ho (onChange c.slot).clears
        have hcl : ∀ ci ∈ (onChange c.slot).clears,
            Cleared (v.set c.node (o.clear (onChange c.slot).clears)).heap c.node ci :=
          fun ci hci => cleared_clear v c.node o _ ci hci
        have hfirst : Le v u ∧ (∀ ci ∈ (onChange c.slot).clears, Cleared u.heap c.node ci) ∧
            ((onChange c.slot).notifies = true → Notified w.cbs u.heap k c.node) := by
          by_cases hnot : (onChange c.slot).notifies = true
          · rw [if_pos hnot] at hu
            have hlv : Live (v.set c.node (o.clear (onChange c.slot).clears)) :=
              (hv.trans l1).live hl
            have hsp := notify_spec k (v.set c.node (o.clear (onChange c.slot).clears)) c.node hlv
            rw [← hu] at hsp
            refine ⟨l1.trans hsp.1, fun ci hci => hsp.1.heap.cleared (hcl ci hci), fun _ => ?_⟩
            have := hsp.2
            rw [l1.cbs, hv.cbs] at this
            exact this
          · rw [if_neg hnot] at hu
            subst hu
            exact ⟨l1, hcl, fun h => absurd h hnot⟩
        have hrest := ih u (hv.trans hfirst.1) (fun ev hev => hlive ev (by simp [hev]))
        refine ⟨hfirst.1.trans hrest.1, fun d hd => ?_⟩
        rcases List.mem_cons.1 hd with heq | hd
        · cases heq
          exact ⟨fun ci hci => hrest.1.heap.cleared (hfirst.2.1 ci hci),
            fun hnot => (hfirst.2.2 hnot).mono hrest.1.heap⟩
        · exact hrest.2 d hd
    have hev : ∀ ev ∈ Replaceable.notifyChange w.cbs n, ∃ c, ev = .changed c ∧ (w.heap c.node).isSome := by
      intro ev hev
      simp only [Replaceable.notifyChange, List.mem_map] at hev
      obtain ⟨⟨id, c⟩, hc, rfl⟩ := hev
      exact ⟨c, rfl, hl n id c hc⟩
    have := key (Replaceable.notifyChange w.cbs n) w (Le.refl w) hev
    refine ⟨this.1, fun id c hc => ?_⟩
    have hmem : Replaceable.Event.changed c ∈ Replaceable.notifyChange w.cbs n := by
      simp only [Replaceable.notifyChange, List.mem_map]
      exact ⟨(id, c), hc, rfl⟩
    exact this.2 c hmem

end Slat.Graph
