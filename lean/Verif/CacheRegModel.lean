import Mathlib.Logic.Function.Basic
import Mathlib.Data.List.Nodup
import Mathlib.Data.List.Perm.Basic

/-!
# Model of the registry of caches (src/caching.cpp:23-74)

`Private::caches` is an `unordered_map` from the address of a cache to its clear function.  It is modelled
as an association list; the iteration order of `Clear_Caches` is an arbitrary permutation chosen by the
environment.  The registry lock only serialises the operations; one operation is one step here.
`Init_Caching`'s unsynchronised `first_call` flag is not modelled.
-/

namespace Slat.CacheReg

/-- A cache object in memory: how many results it holds, and how often its clear function has run. -/
structure Obj where
  entries : ℕ
  clears : ℕ
deriving DecidableEq

/-- Memory (live objects by address) and registry.  The clear function stored for a cache is
`[this] { this->ClearCache(); }` (src/caching.h:127-128, 399-400), i.e. the address it was built with. -/
structure St where
  heap : ℕ → Option Obj
  reg : List (ℕ × ℕ)
  fault : Bool

/-- Nothing constructed yet. -/
def init : St := ⟨fun _ => none, [], false⟩

/-- `caches[cache] = clear_func` (src/caching.cpp:50). -/
def regSet (k v : ℕ) : List (ℕ × ℕ) → List (ℕ × ℕ)
  | [] => [(k, v)]
  | (k', v') :: l => if k' = k then (k, v) :: l else (k', v') :: regSet k v l

/-- `caches.erase(cache)` (src/caching.cpp:60). -/
def regErase (k : ℕ) (l : List (ℕ × ℕ)) : List (ℕ × ℕ) := l.filter (fun e => e.1 ≠ k)

/-- Operations: construction of a cache at an address (the allocator gives an address that is not in
use), destruction, storing a result, and `Clear_Caches` with the iteration order it happens to use. -/
inductive Op where
  | construct (a : ℕ)
  | destroy (a : ℕ)
  | store (a : ℕ)
  | clearAll (order : List (ℕ × ℕ))

/-- Run one stored clear function (src/caching.cpp:71, src/caching.h:287-289, 487-489).  Calling it on a
destroyed object is a use after free. -/
def runClear (s : St) (a : ℕ) : St :=
  match s.heap a with
  | some o => { s with heap := Function.update s.heap a (some ⟨0, o.clears + 1⟩) }
  | none => { s with fault := true }

/-- One operation (`none`: not possible for a correct client or allocator). -/
def step (s : St) : Op → Option St
  -- src/caching.h:106-129 and 373-401, src/caching.cpp:48-52
  | .construct a => match s.heap a with
    | none => some { s with heap := Function.update s.heap a (some ⟨0, 0⟩), reg := regSet a a s.reg }
    | some _ => none
  -- src/caching.h:134-136 and 406-408, src/caching.cpp:58-62
  | .destroy a => match s.heap a with
    | some _ => some { s with reg := regErase a s.reg, heap := Function.update s.heap a none }
    | none => none
  -- src/caching.h:245 and 464
  | .store a => match s.heap a with
    | some o => some { s with heap := Function.update s.heap a (some { o with entries := o.entries + 1 }) }
    | none => none
  -- src/caching.cpp:68-74
  | .clearAll order => if s.reg.Perm order then some (order.foldl (fun s e => runClear s e.2) s) else none

/-- A whole history. -/
def run (s : St) : List Op → Option St
  | [] => some s
  | op :: ops => (step s op).bind (fun s' => run s' ops)

end Slat.CacheReg
