import Mathlib.Data.List.Basic

/-!
# Model of the component list of a `Structure` (src/structure.cpp)

Component groups and intensity measures are opaque identities (addresses).
-/

namespace Slat.CompList

/-- A component group (address). -/
abbrev Cg := ℕ
/-- An intensity measure (address). -/
abbrev Im := ℕ

/-- The structure's members `components` and `im` (src/structure.h:56-57), the intensity measures on which the
structure has installed its callbacks (one entry per installation, src/structure.cpp:47-54), and the current
result of `getIM()` for every group (src/comp_group.h:197: `edp->Base_Rate()`). -/
structure State where
  comps : List Cg
  im : Option Im
  subs : List Im
  imOf : Cg → Im

/-- A new structure (src/structure.cpp:23-26; src/structure.h:56-57), in a world where each group is
based on some intensity measure. -/
def init (imOf : Cg → Im) : State := ⟨[], none, [], imOf⟩

/-- `Structure::AddCompGroup` (src/structure.cpp:43-70): new state, and whether it returned normally
(`false` is the exception "WRONG IM", line 57).  The callbacks on the group are part of `replaceCg`. -/
def add (s : State) (g : Cg) : State × Bool :=
  let s₁ := if s.comps.length = 0 then { s with im := some (s.imOf g), subs := s.subs ++ [s.imOf g] } else s
  if some (s₁.imOf g) ≠ s₁.im then (s₁, false)
  else ({ s₁ with comps := s₁.comps ++ [g] }, true)

/-- The loop of `RemoveCompGroup` (src/structure.cpp:74-80): erase the first equal entry. -/
def removeFirst (g : Cg) : List Cg → List Cg
  | [] => []
  | h :: t => if h = g then t else h :: removeFirst g t

/-- `Structure::RemoveCompGroup` (src/structure.cpp:72-81).  Callbacks stay installed. -/
def remove (s : State) (g : Cg) : State := { s with comps := removeFirst g s.comps }

/-- `old->replace(new)` on an intensity measure: every group based on it (through its EDP's callback,
src/relationships.cpp:251-255) and the structure, if it has installed a callback on it
(src/structure.cpp:51-54), move to the new one.  Simplified: the callback tables of C11/C13 never collide. -/
def replaceIm (s : State) (old new : Im) : State :=
  { s with
    imOf := fun g => if s.imOf g = old then new else s.imOf g
    im := if old ∈ s.subs then some new else s.im
    subs := s.subs.map (fun i => if i = old then new else i) }

/-- `old->replace(new)` on a component group (src/structure.cpp:64-67): the entries holding it now hold the
new one. -/
def replaceCg (s : State) (old new : Cg) : State :=
  { s with comps := s.comps.map (fun g => if g = old then new else g) }

/-- Operations of a client. -/
inductive Op where
  | add (g : Cg)
  | remove (g : Cg)
  | replaceIm (old new : Im)
  | replaceCg (old new : Cg)

/-- One operation; the flag is `false` for an exception. -/
def step (s : State) : Op → State × Bool
  | .add g => add s g
  | .remove g => (remove s g, true)
  | .replaceIm o n => (replaceIm s o n, true)
  | .replaceCg o n => (replaceCg s o n, true)

/-- A history: final state and the flags. -/
def run (s : State) : List Op → State × List Bool
  | [] => (s, [])
  | op :: ops =>
    let r := step s op
    let rs := run r.1 ops
    (rs.1, r.2 :: rs.2)

/-- `Structure::Components` (src/structure.cpp:28-35). -/
def components (s : State) : List Cg := s.comps

end Slat.CompList
