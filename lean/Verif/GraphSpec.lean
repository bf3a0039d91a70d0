import Verif.GraphModel

/-!
# Specification for the object graph (C38-C42, C54)

A machine without callbacks and without caches.  Replacing an object re-points every member that refers to
it; every answer is calculated from scratch from the objects as they are now.
-/

namespace Slat.Graph

variable {V L X Y : Type}

/-- The specification's heap. -/
structure AWorld (V L : Type) where
  heap : ℕ → Option (Skel V L)
  next : ℕ

/-- The empty heap. -/
def aInit (V L : Type) : AWorld V L := ⟨fun _ => none, 0⟩

/-- Modify one object if it exists. -/
def AWorld.modify (a : AWorld V L) (n : ℕ) (f : Skel V L → Skel V L) : AWorld V L :=
  { a with heap := Function.update a.heap n ((a.heap n).map f) }

/-- Re-point every member referring to `o`. -/
def redirect (o o' : ℕ) (k : Skel V L) : Skel V L :=
  { k with slots := fun s => if k.slots s = some o then some o' else k.slots s }

/-- The constructed object. -/
def built (k : Kind) (v : V) (deps : List (Slot × ℕ)) : Skel V L :=
  ⟨k, v, fun s => deps.lookup s, none, none, []⟩

/-- Adding a group to a structure: the first group determines the IM, and later groups must have the same
one. -/
def aAddComp (a : AWorld V L) (n g : ℕ) : AWorld V L :=
  match a.heap n, getIM a.heap g with
  | some o, some i =>
    if o.entries = [] ∨ o.slots .sim = some i then
      { heap := Function.update a.heap n (some { o with
          slots := fun s => if s = .entry a.next then some g else if s = .sim then some i else o.slots s
          entries := o.entries ++ [a.next] })
        next := a.next + 1 }
    else a
  | _, _ => a

/-- One operation of the specification. -/
def aStep (a : AWorld V L) : Op V L X → AWorld V L
  | .new k v deps => ⟨Function.update a.heap a.next (some (built k v deps)), a.next + 1⟩
  | .replace o o' => { a with heap := fun n => (a.heap n).map (redirect o o') }
  | .setCollapse n d => a.modify n fun k => { k with dist₁ := d }
  | .setDemolition n d => a.modify n fun k => { k with dist₂ := d }
  | .addComp n g => aAddComp a n g
  | .removeComp n g => a.modify n fun k =>
      { k with entries := k.entries.eraseP (fun e => k.slots (.entry e) = some g) }
  | .setRebuild n d => a.modify n fun k => { k with dist₁ := d }
  | .setDemoCost n d => a.modify n fun k => { k with dist₂ := d }
  | .destroy n => { a with heap := Function.update a.heap n none }
  | .query _ _ => a

/-- A history. -/
def aRun (a : AWorld V L) (ops : List (Op V L X)) : AWorld V L := ops.foldl aStep a

/-- The group in an entry of a structure's tree. -/
def Tree.entryChild : Tree V L → ℕ → Tree V L
  | .none, _ => .none
  | .node _ _ _ es ch, k => if k ∈ es then ch (.entry k) else .none

/-- The value calculated from scratch. -/
def fresh (C : Calc V L X Y) (t : Tree V L) (c : CacheId) (x : X) : Y :=
  C c (mask c t) (fun c' _ x' => fresh C t c' x')
    (fun k c' _ x' =>
      match t.entryChild k with
      | .none => none
      | .node v d₁ d₂ es ch => some (fresh C (.node v d₁ d₂ es ch) c' x')) x
termination_by rank c
decreasing_by
  · exact rank_own c c' ‹_›
  · exact rank_sub c c' ‹_›

/-- The specification's answer: object `n`'s quantity `c` at `x`, calculated from the current objects. -/
def answer (C : Calc V L X Y) (a : AWorld V L) (n : ℕ) (c : CacheId) (x : X) : Y :=
  fresh C (tree a.heap n) c x

/-- Ids in the callback map of `t` are at most its `id_counter`, so the next registration gets an unused
id.  True of every object that has not taken over the clients of another one. -/
def RoomAt (w : World V L X Y) (t : ℕ) : Prop :=
  ∀ e ∈ (w.cbs t).callbacks, e.1 ≤ (w.cbs t).idCounter

/-- The usage discipline under which replacement works (outside it, see the `_fails` theorems):
replacements are other objects without clients of their own; new clients register only with objects whose
ids are not exhausted; the second demand function of a compound EDP is not replaced; a structure that was
emptied is not refilled; structures are not destroyed. -/
def Careful (w : World V L X Y) : Op V L X → Prop
  | .new _ _ deps => ∀ d ∈ deps, RoomAt w d.2
  | .replace o o' => o ≠ o' ∧ (w.cbs o').callbacks = [] ∧
      ∀ e ∈ (w.cbs o).callbacks, e.2.slot ≠ .second
  | .addComp n g => RoomAt w g ∧ ∀ o, w.heap n = some o → o.entries = [] →
      o.slots .sim = none ∧ ∀ i, getIM (abs w.heap) g = some i → RoomAt w i
  | .destroy n => kindAt w n ≠ some .str
  | _ => True

/-- A permitted operation used with care. -/
def Good (w : World V L X Y) (op : Op V L X) : Prop := Allowed w op ∧ Careful w op

end Slat.Graph
