import Mathlib.Data.List.Infix

/-!
# Log contexts (src/context.h, src/context.cpp)

Every calculation opens a `TempContext` that describes it; `GetText` puts the open descriptions in front of a message.  Contexts
opened by different threads are kept apart in a tree of `Context` objects indexed by OpenMP thread numbers.

An implicit task of OpenMP is named by its thread numbers, outermost region first; `[]` is the initial task.  `teams p` is the size of
the team that task `p` has formed and waits for.  Teams of one thread are inactive regions.  All operations hold `Context::lock`, so
they are atomic.
-/

namespace Slat.Context

/-- An implicit task: thread numbers at the nesting levels 1, 2, … (`omp_get_ancestor_thread_num`). -/
abbrev Task := List ℕ

/-- Position of a `Context` object below the instance: indices into `threads`. -/
abbrev Key := List ℕ

variable {T : Type}

/-- The `Context` objects (src/context.h:33-34): text stack and size of `threads`.  `threads[k] == NULL` is `none` at the position one
further down; as nothing else owns an object, it disappears with the entry of `threads` that holds it. -/
abbrev Tree (T : Type) := Key → Option (List T × ℕ)

/-- The program state: objects, teams, and `TempContext` objects alive with the tasks that made them, newest first (ghost).
`faulted`: an access outside `threads`; `complained`: "stack already empty" was printed (src/context.cpp:144). -/
structure St (T : Type) where
  tree : Tree T
  teams : Task → Option ℕ
  opened : List (Task × T)
  faulted : Bool
  complained : Bool

/-- `Context::Initialise` (src/context.cpp:8-12) in the initial task. -/
def init : St T where
  tree κ := if κ = [] then some ([], 0) else none
  teams _ := none
  opened := []
  faulted := false
  complained := false

/-- The task exists: each of its ancestors waits for a team that has this thread number. -/
def alive (teams : Task → Option ℕ) (p : Task) : Bool :=
  (List.range p.length).all fun i =>
    match teams (p.take i), p[i]? with
    | some n, some k => decide (k < n)
    | _, _ => false

/-- Thread number and team size at nesting level `i + 1` of a task (`omp_get_ancestor_thread_num`, `omp_get_team_size`). -/
def level (teams : Task → Option ℕ) (p : Task) (i : ℕ) : ℕ × ℕ := (p[i]?.getD 0, (teams (p.take i)).getD 1)

/-- Nesting levels 0, 1, …: level 0 is the initial task, number 0 in a team of one. -/
def levels (teams : Task → Option ℕ) (p : Task) : List (ℕ × ℕ) := (0, 1) :: (List.range p.length).map (level teams p)

/-- `omp_get_active_level`: regions around the task with more than one thread. -/
def activeLevel (teams : Task → Option ℕ) (p : Task) : ℕ :=
  (levels teams p).countP fun x => decide (1 < x.2)

/-- The levels visited by `LockContext` (src/context.cpp:29-30). -/
def lockPath (teams : Task → Option ℕ) (p : Task) : List (ℕ × ℕ) :=
  if 0 < activeLevel teams p then (levels teams p).take (activeLevel teams p + 1) else []

/-- The loop of `LockContext` (src/context.cpp:30-42): `none` is an access outside `threads`. -/
def descend (m : Tree T) (κ : Key) : List (ℕ × ℕ) → Option (Tree T × Key)
  | [] => some (m, κ)
  | (k, n) :: rest =>
    match m κ with
    | none => none
    | some (ts, size) =>
      let size' := if size = 0 then n else size
      if k < size' then
        let m₁ : Tree T := Function.update m κ (some (ts, size'))
        let m₂ : Tree T := if (m₁ (κ ++ [k])).isNone then Function.update m₁ (κ ++ [k]) (some ([], 0)) else m₁
        descend m₂ (κ ++ [k]) rest
      else none

/-- New texts of an object and `threads.resize(0)` (src/context.cpp:92-93, 141-142). -/
def replaceAt (m : Tree T) (κ : Key) (ts : List T) : Tree T := fun x =>
  if x = κ then some (ts, 0) else if κ <+: x then none else m x

/-- Texts of the object at a position. -/
def look (m : Tree T) (κ : Key) : List T := ((m κ).map Prod.fst).getD []

/-- `PushText` (src/context.cpp:88-116). -/
def push (s : St T) (p : Task) (t : T) : St T :=
  match descend s.tree [] (lockPath s.teams p) with
  | none => { s with faulted := true }
  | some (m, κ) => { s with tree := replaceAt m κ (look m κ ++ [t]), opened := (p, t) :: s.opened }

/-- `PopText` (src/context.cpp:125-147), in the destructor of the task's newest `TempContext` (src/context.h:52-54). -/
def pop (s : St T) (p : Task) : St T :=
  match descend s.tree [] (lockPath s.teams p) with
  | none => { s with faulted := true }
  | some (m, κ) =>
    if look m κ = [] then { s with tree := m, opened := s.opened.eraseP (fun e => e.1 = p), complained := true }
    else { s with tree := replaceAt m κ (look m κ).dropLast, opened := s.opened.eraseP (fun e => e.1 = p) }

/-- The second loop of `GetText` (src/context.cpp:169-184): texts with the number of slashes of the separator after each;
`none` is an access outside `threads`. -/
def gather (m : Tree T) (κ : Key) (slashes : ℕ) : List (ℕ × ℕ) → Option (List (T × ℕ))
  | [] => some []
  | (k, _) :: rest =>
    match m κ with
    | none => none
    | some (_, size) =>
      if size = 0 then some []
      else if k < size then
        match m (κ ++ [k]) with
        | none => some []
        | some (ts, _) => (gather m (κ ++ [k]) (slashes + 1) rest).map (ts.map (fun t => (t, slashes)) ++ ·)
      else none

/-- `GetText` (src/context.cpp:150-189). -/
def getText (s : St T) (p : Task) : Option (List (T × ℕ)) :=
  (gather s.tree [] 2 ((levels s.teams p).take (activeLevel s.teams p + 1))).map
    ((look s.tree []).map (fun t => (t, 1)) ++ ·)

/-- What a running task can do. -/
inductive Ev (T : Type) where
  /-- construct a `TempContext` (src/context.h:44-50) -/
  | push (p : Task) (t : T)
  /-- destroy the newest one of the task (src/context.h:52-54) -/
  | pop (p : Task)
  /-- enter a parallel region with a team of `n` -/
  | fork (p : Task) (n : ℕ)
  /-- the barrier at the end of the region: every thread has destroyed its `TempContext` objects -/
  | join (p : Task)

/-- The task runs (it exists and does not wait for a team). -/
def running (s : St T) (p : Task) : Bool := alive s.teams p && (s.teams p).isNone

/-- One event; `none`: it cannot happen.  After a fault nothing is said. -/
def step (s : St T) : Ev T → Option (St T)
  | .push p t => if s.faulted = false ∧ running s p then some (push s p t) else none
  | .pop p => if s.faulted = false ∧ running s p ∧ p ∈ s.opened.map Prod.fst then some (pop s p) else none
  | .fork p n =>
    if s.faulted = false ∧ running s p ∧ 0 < n then some { s with teams := Function.update s.teams p (some n) } else none
  | .join p =>
    match s.teams p with
    | none => none
    | some n =>
      if s.faulted = false ∧ alive s.teams p ∧
          (List.range n).all (fun k => (s.teams (p ++ [k])).isNone && decide (p ++ [k] ∉ s.opened.map Prod.fst)) then
        some { s with teams := Function.update s.teams p none }
      else none

/-- A history of events. -/
def exec (s : St T) : List (Ev T) → Option (St T)
  | [] => some s
  | e :: es => (step s e).bind (exec · es)

end Slat.Context
