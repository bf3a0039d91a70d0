import Mathlib.Data.List.Sort
import Mathlib.Logic.Function.Basic

/-!
# Model of `Replaceable<T>` (src/replaceable.h)

A heap of replaceable objects.  Clients (pairs of callbacks) are opaque values of type `C`; running a
callback is recorded as an event.  What callbacks do in turn (clear caches, notify further objects) is
modelled in `GraphModel.lean`.
-/

namespace Slat.Replaceable

/-- Insertion into a `std::map<int, callback_struct>` through `callbacks[id] = v`
(src/replaceable.h:67, 87): overwrite an existing key, otherwise insert in ascending key order.
The map is the list of its entries in iteration order. -/
def mapSet {C : Type} (id : ℕ) (c : C) : List (ℕ × C) → List (ℕ × C)
  | [] => [(id, c)]
  | (k, d) :: rest =>
    if id < k then (id, c) :: (k, d) :: rest
    else if id = k then (id, c) :: rest
    else (k, d) :: mapSet id c rest

/-- `callbacks.erase(id)` (src/replaceable.h:94): remove the entry with that key, if any. -/
def mapErase {C : Type} (id : ℕ) (m : List (ℕ × C)) : List (ℕ × C) :=
  m.filter (fun e => e.1 ≠ id)

/-- The data members of one `Replaceable` (src/replaceable.h:67, 75).  Simplified: `id_counter` is
unbounded (C++ `int` overflows after 2^31-1 registrations), and the lock is omitted because each method
runs from lock to unlock (src/replaceable.h:85-88, 93-95, 99-103, 107-113). -/
structure RObj (C : Type) where
  callbacks : List (ℕ × C)
  idCounter : ℕ

/-- Constructor `Replaceable()` (src/replaceable.h:77-80). -/
def RObj.new (C : Type) : RObj C := ⟨[], 0⟩

/-- All objects, by address.  Unallocated addresses hold a freshly constructed object. -/
abbrev World (C : Type) := ℕ → RObj C

/-- Callback invocations: `changed_cb()` (src/replaceable.h:101) and
`replace_cb(replacement)` (src/replaceable.h:110). -/
inductive Event (C : Type) where
  | changed (c : C)
  | replaced (c : C) (newObj : ℕ)
deriving DecidableEq

/-- Public operations of the class, on the object at a given address. -/
inductive Op (C : Type) where
  | add (o : ℕ) (c : C)
  | remove (o : ℕ) (id : ℕ)
  | notify (o : ℕ)
  | replace (o o' : ℕ)

/-- What an operation lets its caller observe: a returned id and the callbacks run. -/
structure Obs (C : Type) where
  handle : Option ℕ
  events : List (Event C)

/-- `add_callbacks` (src/replaceable.h:82-90). -/
def addCallbacks {C : Type} (w : World C) (o : ℕ) (c : C) : World C × ℕ :=
  let id := (w o).idCounter + 1
  (Function.update w o ⟨mapSet id c (w o).callbacks, id⟩, id)

/-- `remove_callbacks` (src/replaceable.h:92-96). -/
def removeCallbacks {C : Type} (w : World C) (o : ℕ) (id : ℕ) : World C :=
  Function.update w o ⟨mapErase id (w o).callbacks, (w o).idCounter⟩

/-- `notify_change` (src/replaceable.h:98-104): run every change callback in key order. -/
def notifyChange {C : Type} (w : World C) (o : ℕ) : List (Event C) :=
  (w o).callbacks.map (fun e => Event.changed e.2)

/-- `replace` (src/replaceable.h:106-114).  First the callback map is copied over the replacement's
own map (line 108; the replacement's `id_counter` is untouched), then each entry of this object's map is
called and erased (lines 109-112).  `o = o'` is allowed, as in the code. -/
def replaceObj {C : Type} (w : World C) (o o' : ℕ) : World C × List (Event C) :=
  let w₁ := Function.update w o' ⟨(w o).callbacks, (w o').idCounter⟩
  let evs := (w₁ o).callbacks.map (fun e => Event.replaced e.2 o')
  (Function.update w₁ o ⟨[], (w₁ o).idCounter⟩, evs)

/-- One operation. -/
def step {C : Type} (w : World C) : Op C → World C × Obs C
  | .add o c => let r := addCallbacks w o c; (r.1, ⟨some r.2, []⟩)
  | .remove o id => (removeCallbacks w o id, ⟨none, []⟩)
  | .notify o => (w, ⟨none, notifyChange w o⟩)
  | .replace o o' => let r := replaceObj w o o'; (r.1, ⟨none, r.2⟩)

/-- The initial heap: every object freshly constructed. -/
def init (C : Type) : World C := fun _ => RObj.new C

/-- Run a history of operations, collecting the observations. -/
def run {C : Type} (w : World C) : List (Op C) → World C × List (Obs C)
  | [] => (w, [])
  | op :: ops =>
    let r := step w op
    let rs := run r.1 ops
    (rs.1, r.2 :: rs.2)

end Slat.Replaceable
