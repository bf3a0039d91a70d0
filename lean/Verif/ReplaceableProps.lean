import Verif.ReplaceableLemmas

/-!
# Properties of `Replaceable<T>`: C11, C12, C13

The specification is an abstract observer list: registration appends a client together with the handle
it was given, removal deletes the client with that handle.
-/

namespace Slat.Replaceable

variable {C : Type}

/-! ## Specification -/

/-- The operations allowed on a single object that never takes part in a replacement. -/
inductive LocalOp (C : Type) where
  | add (c : C)
  | remove (id : ℕ)
  | notify

/-- A local operation seen as an operation on the heap object `o`. -/
def LocalOp.at (o : ℕ) : LocalOp C → Op C
  | .add c => .add o c
  | .remove id => .remove o id
  | .notify => .notify o

/-- Abstract observer list: the clients registered now, in registration order, each with the handle its
registration returned.  `hs` are the handles the implementation returned, one entry per operation. -/
def specClients : List (LocalOp C × Option ℕ) → List (ℕ × C) → List (ℕ × C)
  | [], cl => cl
  | (.add c, some h) :: rest, cl => specClients rest (cl ++ [(h, c)])
  | (.add _, none) :: rest, cl => specClients rest cl
  | (.remove id, _) :: rest, cl => specClients rest (cl.filter (fun e => e.1 ≠ id))
  | (.notify, _) :: rest, cl => specClients rest cl

/-- The operations paired with the handles that the implementation returned for them. -/
def withHandles (o : ℕ) (w : World C) (ops : List (LocalOp C)) : List (LocalOp C × Option ℕ) :=
  ops.zip ((run w (ops.map (LocalOp.at o))).2.map Obs.handle)

/-! ## C11 -/

/-- Invariant of an object that no replacement has written to. -/
structure Own (x : RObj C) : Prop where
  sorted : SortedKeys x.callbacks
  bound : ∀ e ∈ x.callbacks, e.1 ≤ x.idCounter

theorem own_new : Own (RObj.new C) := ⟨by simp [SortedKeys, RObj.new], by simp [RObj.new]⟩

theorem own_add {w : World C} {o : ℕ} {c : C} (h : Own (w o)) :
    Own ((addCallbacks w o c).1 o) ∧
    ((addCallbacks w o c).1 o).callbacks = (w o).callbacks ++ [((w o).idCounter + 1, c)] := by
  have hlt : ∀ e ∈ (w o).callbacks, e.1 < (w o).idCounter + 1 :=
    fun e he => Nat.lt_succ_of_le (h.bound e he)
  have heq : ((addCallbacks w o c).1 o).callbacks
      = (w o).callbacks ++ [((w o).idCounter + 1, c)] := by
    simp [addCallbacks, mapSet_append_of_lt _ _ _ hlt]
  refine ⟨⟨?_, ?_⟩, heq⟩
  · rw [heq]; exact sortedKeys_append h.sorted hlt
  · rw [heq]
    intro e he
    simp only [addCallbacks, Function.update_self]
    rcases List.mem_append.1 he with he | he
    · exact Nat.le_succ_of_le (h.bound e he)
    · simp only [List.mem_singleton] at he; subst he; exact le_rfl

theorem own_remove {w : World C} {o id : ℕ} (h : Own (w o)) : Own ((removeCallbacks w o id) o) := by
  constructor
  · simpa [removeCallbacks] using sortedKeys_mapErase (id := id) h.sorted
  · intro e he
    simp only [removeCallbacks, Function.update_self] at he ⊢
    exact h.bound e (mem_mapErase.1 he).1

theorem local_refines (o : ℕ) (ops : List (LocalOp C)) (w : World C) (h : Own (w o)) :
    ((run w (ops.map (LocalOp.at o))).1 o).callbacks
      = specClients (withHandles o w ops) (w o).callbacks ∧
    Own ((run w (ops.map (LocalOp.at o))).1 o) := by
  induction ops generalizing w with
  | nil => exact ⟨rfl, h⟩
  | cons op ops ih =>
    cases op with
    | add c =>
      have ha := own_add (c := c) h
      have := ih (addCallbacks w o c).1 ha.1
      refine ⟨?_, this.2⟩
      have h1 := this.1
      rw [ha.2] at h1
      have hid : (addCallbacks w o c).2 = (w o).idCounter + 1 := rfl
      simpa [withHandles, run, LocalOp.at, step, specClients, hid] using h1
    | remove id =>
      have ha := own_remove (id := id) h
      have := ih (removeCallbacks w o id) ha
      refine ⟨?_, this.2⟩
      have h1 := this.1
      simpa [withHandles, run, LocalOp.at, step, specClients, removeCallbacks, mapErase] using h1
    | notify =>
      have := ih w h
      refine ⟨?_, this.2⟩
      have h1 := this.1
      simpa [withHandles, run, LocalOp.at, step, specClients] using h1

/-- **C11.** After any history of registrations and removals (of known, unknown or repeated ids) on an
object that takes no part in a replacement, `notify_change` runs the change callback of each client
registered now exactly once, in registration order, and no other callback. -/
theorem notify_exact (o : ℕ) (ops : List (LocalOp C)) :
    notifyChange (run (init C) (ops.map (LocalOp.at o))).1 o
      = (specClients (withHandles o (init C) ops) []).map (fun e => Event.changed e.2) := by
  have := (local_refines o ops (init C) own_new).1
  rw [notifyChange, this]
  rfl

/-- Three registrations, the middle one withdrawn (twice): the other two are notified, in order. -/
example : notifyChange (run (init String)
    ([.add "a", .add "b", .add "c", .remove 2, .remove 2, .remove 9].map (LocalOp.at 7))).1 7
      = [.changed "a", .changed "c"] := by decide

/-! ## C12 -/

/-- The object was never the target of a replacement in the history. -/
def NeverTarget (o : ℕ) (ops : List (Op C)) : Prop := ∀ s, Op.replace s o ∉ ops

theorem own_step {w : World C} {o : ℕ} (op : Op C) (hop : ∀ s, op ≠ Op.replace s o) (h : Own (w o)) :
    Own ((step w op).1 o) := by
  cases op with
  | add p c =>
    by_cases hp : o = p
    · subst hp; exact (own_add h).1
    · simpa [step, addCallbacks, Function.update_of_ne hp] using h
  | remove p id =>
    by_cases hp : o = p
    · subst hp; exact own_remove h
    · simpa [step, removeCallbacks, Function.update_of_ne hp] using h
  | notify p => exact h
  | replace s t =>
    have ht : o ≠ t := fun e => hop s (by rw [e])
    by_cases hs : o = s
    · subst hs
      simp only [step, replaceObj, Function.update_self]
      exact ⟨by simp [SortedKeys], by simp⟩
    · simpa [step, replaceObj, Function.update_of_ne hs, Function.update_of_ne ht] using h

theorem own_run {w : World C} {o : ℕ} (ops : List (Op C)) (hops : NeverTarget o ops) (h : Own (w o)) :
    Own ((run w ops).1 o) := by
  induction ops generalizing w with
  | nil => exact h
  | cons op ops ih =>
    refine ih (fun s hs => hops s (by simp [hs])) ?_
    exact own_step op (fun s e => hops s (by simp [e])) h

/-- The handles returned by the registrations on object `o`, in order. -/
def handlesOn (o : ℕ) : List (Op C) → List (Obs C) → List ℕ
  | .add p _ :: ops, ob :: obs =>
    (if p = o then ob.handle.toList else []) ++ handlesOn o ops obs
  | _ :: ops, _ :: obs => handlesOn o ops obs
  | _, _ => []

theorem handlesOn_gt {w : World C} {o : ℕ} (ops : List (Op C)) :
    (∀ h ∈ handlesOn o ops (run w ops).2, (w o).idCounter < h) ∧
    (handlesOn o ops (run w ops).2).Pairwise (· < ·) := by
  induction ops generalizing w with
  | nil => simp [handlesOn]
  | cons op ops ih =>
    have key := ih (w := (step w op).1)
    cases op with
    | add p c =>
      simp only [run, step, handlesOn, addCallbacks] at key ⊢
      by_cases hp : p = o
      · subst hp
        simp only [Function.update_self] at key
        simp only [if_true, Option.toList_some, List.singleton_append, List.mem_cons,
          List.pairwise_cons]
        refine ⟨?_, key.1, key.2⟩
        rintro h (rfl | hh)
        · exact Nat.lt_succ_self _
        · exact lt_trans (Nat.lt_succ_self _) (key.1 h hh)
      · rw [Function.update_of_ne (Ne.symm hp)] at key
        simpa [hp] using key
    | remove p id =>
      have hc : ((step w (.remove p id : Op C)).1 o).idCounter = (w o).idCounter := by
        by_cases hp : o = p
        · subst hp; simp [step, removeCallbacks]
        · simp [step, removeCallbacks, Function.update_of_ne hp]
      rw [hc] at key
      simpa [run, handlesOn] using key
    | notify p => simpa [run, handlesOn, step] using key
    | replace s t =>
      have hc : ((step w (.replace s t : Op C)).1 o).idCounter = (w o).idCounter := by
        by_cases hs : o = s
        · subst hs
          by_cases ht : o = t
          · subst ht; simp [step, replaceObj]
          · simp [step, replaceObj, Function.update_of_ne ht]
        · by_cases ht : o = t
          · subst ht; simp [step, replaceObj, Function.update_of_ne hs]
          · simp [step, replaceObj, Function.update_of_ne hs, Function.update_of_ne ht]
      rw [hc] at key
      simpa [run, handlesOn] using key

/-- **C12, first half.** In every history, over any number of objects and replacements, the ids returned
by registrations on one object are pairwise distinct. -/
theorem handles_distinct (o : ℕ) (ops : List (Op C)) :
    (handlesOn o ops (run (init C) ops).2).Nodup :=
  ((handlesOn_gt ops).2).imp (fun h => Nat.ne_of_lt h)

example : handlesOn 0 [.add 0 "a", .remove 0 1, .add 0 "b", .add 1 "x", .replace 0 1, .add 0 "c"]
    (run (init String) [.add 0 "a", .remove 0 1, .add 0 "b", .add 1 "x", .replace 0 1, .add 0 "c"]).2
      = [1, 2, 3] := by decide

/-- **C12 (partial).** On an object that was never the target of a replacement, a registration evicts no
client, and removing the returned id afterwards removes exactly the new client.
Missing for the full property: objects that were the target of a replacement, where it is false
(`handle_identifies_fails`). -/
theorem handle_identifies_partial (o : ℕ) (ops : List (Op C)) (hops : NeverTarget o ops) (c : C) :
    let w := (run (init C) ops).1
    let r := addCallbacks w o c
    notifyChange r.1 o = notifyChange w o ++ [Event.changed c] ∧
    notifyChange (removeCallbacks r.1 o r.2) o = notifyChange w o := by
  intro w r
  have hown : Own (w o) := own_run ops hops own_new
  have ha := own_add (c := c) hown
  constructor
  · simp only [notifyChange, r, ha.2, List.map_append, List.map_cons, List.map_nil]
  · have hid : r.2 = (w o).idCounter + 1 := rfl
    have hfil : (w o).callbacks.filter (fun e => decide (e.1 ≠ (w o).idCounter + 1))
        = (w o).callbacks := by
      rw [List.filter_eq_self]
      intro e he
      have := hown.bound e he
      simp only [decide_eq_true_eq]; omega
    have : (removeCallbacks r.1 o r.2 o).callbacks = (w o).callbacks := by
      simp only [removeCallbacks, Function.update_self, mapErase]
      rw [show (r.1 o).callbacks = _ from ha.2, hid, List.filter_append, hfil]
      simp
    simp only [notifyChange, this]

example : NeverTarget 0 ([.add 0 "a", .replace 0 1, .add 0 "b"] : List (Op String)) := by
  intro s; simp

/-- Statement of C12 in full: a registration never evicts another client. -/
def HandleIdentifies (C : Type) : Prop :=
  ∀ (o : ℕ) (ops : List (Op C)) (c : C),
    let w := (run (init C) ops).1
    ∀ d, Event.changed d ∈ notifyChange w o → Event.changed d ∈ notifyChange (addCallbacks w o c).1 o

/-- **C12 fails in full.** Register `1` on object 0, replace object 0 by object 1, register `2` on object
1: the new registration gets the id of the transferred client and evicts it. -/
theorem handle_identifies_fails : ¬ HandleIdentifies ℕ := by
  intro h
  have := h 1 [.add 0 1, .replace 0 1] 2 1 (by decide)
  revert this
  decide

/-! ## C13 -/

/-- **C13 (partial).** In every reachable heap, replacing `o` by a different object `o'` runs every
client's replace callback exactly once (in order, with the new object), leaves `o` without clients, and
from then on a notification on `o'` reaches exactly the clients `o` had; other objects are untouched.
Missing for the full property: clients `o'` had before are lost (`replace_keeps_own_clients_fails`), and
`o = o'` loses every client (`replace_self_fails`). -/
theorem replace_hands_over_partial (ops : List (Op C)) (o o' : ℕ) (hne : o ≠ o') :
    let w := (run (init C) ops).1
    let r := replaceObj w o o'
    r.2.map (fun | .replaced c n => (Event.changed c, some n) | e => (e, none))
        = (notifyChange w o).map (fun e => (e, some o')) ∧
    notifyChange r.1 o = [] ∧
    notifyChange r.1 o' = notifyChange w o ∧
    ∀ p, p ≠ o → p ≠ o' → r.1 p = w p := by
  intro w r
  refine ⟨?_, ?_, ?_, ?_⟩
  · simp [r, replaceObj, notifyChange, Function.update_of_ne hne]
  · simp [r, replaceObj, notifyChange]
  · simp [r, replaceObj, notifyChange, Function.update_of_ne (Ne.symm hne)]
  · intro p hp hp'
    simp [r, replaceObj, Function.update_of_ne hp, Function.update_of_ne hp']

example : (replaceObj (run (init String) [.add 0 "a", .add 0 "b"]).1 0 5).2
    = [.replaced "a" 5, .replaced "b" 5] := by decide

/-- A chain of replacements `o → o₁ → o₂ → …` through distinct fresh objects keeps every client: a
notification on the last object reaches exactly the clients of the first. -/
theorem replace_chain_keeps_clients (w : World C) (o : ℕ) (chain : List ℕ)
    (hnd : (o :: chain).Nodup) :
    notifyChange (run w (List.zipWith Op.replace (o :: chain) chain)).1
        ((o :: chain).getLast (by simp)) = notifyChange w o := by
  induction chain generalizing w o with
  | nil => rfl
  | cons a chain ih =>
    have hne : o ≠ a := by
      intro e; subst e; simp at hnd
    have hnd' : (a :: chain).Nodup := (List.nodup_cons.1 hnd).2
    have h1 := ih (replaceObj w o a).1 a hnd'
    have h2 : notifyChange (replaceObj w o a).1 a = notifyChange w o := by
      simp [replaceObj, notifyChange, Function.update_of_ne (Ne.symm hne)]
    rw [h2] at h1
    simpa [run, step] using h1

example : (([3, 8, 1, 4] : List ℕ)).Nodup := by decide

/-- **C13 fails for self-replacement**: the only client is dropped. -/
theorem replace_self_fails : ¬ ∀ (ops : List (Op ℕ)) (o : ℕ),
    notifyChange (replaceObj (run (init ℕ) ops).1 o o).1 o = notifyChange (run (init ℕ) ops).1 o := by
  intro h
  have := h [.add 0 1] 0
  revert this; decide

/-- **C13 fails for clients the replacement already had**: they are no longer notified. -/
theorem replace_keeps_own_clients_fails : ¬ ∀ (ops : List (Op ℕ)) (o o' : ℕ) (d : ℕ), o ≠ o' →
    Event.changed d ∈ notifyChange (run (init ℕ) ops).1 o' →
    Event.changed d ∈ notifyChange (replaceObj (run (init ℕ) ops).1 o o').1 o' := by
  intro h
  have := h [.add 0 1, .add 1 2] 0 1 2 (by decide) (by decide)
  revert this; decide

end Slat.Replaceable
