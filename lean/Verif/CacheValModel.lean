import Mathlib.Logic.Function.Basic
import Mathlib.Data.Fintype.Basic

/-!
# Model of `Caching::CachedValue<T>` (src/caching.h:346-490)

As for `CachedFunction`: one step per statement that touches shared state, any number of threads.
-/

namespace Slat.CacheVal

/-- Program counter inside `operator()` (src/caching.h:415-482). -/
inductive Pc (T : Type) where
  /-- not inside a call -/
  | idle
  /-- line 425, `omp_set_lock(&lock)` -/
  | start
  /-- lock held, lines 426-439: decide -/
  | locked
  /-- line 440, `omp_unset_lock(&lock)` -/
  | waitRel
  /-- line 441, `omp_set_lock(&waiting_lock)` -/
  | waitSet
  /-- line 442, `omp_unset_lock(&waiting_lock)` -/
  | waitUnset
  /-- line 443, `omp_set_lock(&lock)` -/
  | waitObj
  /-- line 448, `in_process = true` -/
  | begin
  /-- line 449, `omp_unset_lock(&lock)` -/
  | beginRel
  /-- line 451, `func()` -/
  | calc
  /-- line 453, `omp_set_lock(&lock)` -/
  | calcObj (r : T)
  /-- lines 458-461, duplicate check -/
  | check (r : T)
  /-- lines 464-466, store -/
  | store (r : T)
  /-- line 467, `omp_unset_lock(&waiting_lock)` -/
  | release
  /-- line 478, `T result = cached_value` -/
  | read
  /-- lines 479-481 -/
  | unlock (r : T)
deriving DecidableEq

/-- Fatal outcomes. -/
inductive Fault where
  /-- `raise(SIGINT)`, line 460 -/
  | duplicate
  /-- releasing a lock that is not held (undefined in OpenMP) -/
  | badUnset
deriving DecidableEq

/-- Observable events, most recent first. -/
inductive Ev (Tid T : Type) where
  /-- a thread entered `operator()` -/
  | called (t : Tid)
  /-- the wrapped function was invoked and returned `x` -/
  | eval (t : Tid) (x : T)
  /-- the wrapped function was invoked and threw -/
  | threw (t : Tid)
  /-- the call returned `x` -/
  | ret (t : Tid) (x : T)
  /-- `ClearCache` completed -/
  | cleared
deriving DecidableEq

/-- Members of the object (src/caching.h:348-363), the threads, and `world`, the state of whatever the
wrapped function reads.  `waiting = some none` means that the lock is still held since construction
(line 389); OpenMP locks are treated as transferable in this one case. -/
structure St (Tid W T : Type) where
  lock : Option Tid
  waiting : Option (Option Tid)
  inProcess : Bool
  valid : Bool
  value : T
  world : W
  pc : Tid → Pc T
  log : List (Ev Tid T)
  fault : Option Fault

/-- The wrapped function (`none`: throws), and whether releasing a lock that is not held is treated as
fatal (the OpenMP specification) or as having no effect (what common run times do). -/
structure Cfg (W T : Type) where
  func : W → Option T
  strict : Bool

/-- Scheduler choices. `change` modifies what the function depends on; `clear` is `ClearCache`
(src/caching.h:487-489), which takes no lock. -/
inductive Lbl (Tid W : Type) where
  | call (t : Tid)
  | run (t : Tid)
  | clear
  | change (w : W)
deriving DecidableEq

variable {Tid W T : Type} [DecidableEq Tid]

/-- State after the constructor (src/caching.h:373-401); `cached_value` is not initialised (`junk`). -/
def init (Tid : Type) (w : W) (junk : T) : St Tid W T where
  lock := none
  waiting := some none
  inProcess := false
  valid := false
  value := junk
  world := w
  pc := fun _ => .idle
  log := []
  fault := none

/-- Set a program counter. -/
def St.goto (s : St Tid W T) (t : Tid) (p : Pc T) : St Tid W T :=
  { s with pc := Function.update s.pc t p }

/-- Stop with a fault. -/
def St.die (s : St Tid W T) (f : Fault) : St Tid W T := { s with fault := some f }

/-- `omp_set_lock(&lock)`. -/
def St.acquire (s : St Tid W T) (t : Tid) (p : Pc T) : Option (St Tid W T) :=
  match s.lock with
  | none => some { (s.goto t p) with lock := some t }
  | some _ => none

/-- `omp_unset_lock(&lock)`. -/
def St.release (s : St Tid W T) (t : Tid) (p : Pc T) : St Tid W T :=
  if s.lock = some t then { (s.goto t p) with lock := none } else s.die .badUnset

/-- `omp_unset_lock(&waiting_lock)`. -/
def St.releaseWaiting (c : Cfg W T) (s : St Tid W T) (t : Tid) (p : Pc T) : St Tid W T :=
  if c.strict = true ∧ s.waiting ≠ some none ∧ s.waiting ≠ some (some t) then s.die .badUnset
  else { (s.goto t p) with waiting := none }

/-- The next statement of thread `t`. -/
def stepThread (c : Cfg W T) (s : St Tid W T) (t : Tid) : Option (St Tid W T) :=
  match s.pc t with
  | .idle => none
  -- line 425
  | .start => s.acquire t .locked
  -- lines 433, 439
  | .locked =>
    if s.valid then some (s.goto t .read)
    else if s.inProcess then some (s.goto t .waitRel)
    else some (s.goto t .begin)
  -- line 440
  | .waitRel => some (s.release t .waitSet)
  -- line 441
  | .waitSet =>
    match s.waiting with
    | none => some { (s.goto t .waitUnset) with waiting := some (some t) }
    | some _ => none
  -- line 442
  | .waitUnset => some (s.releaseWaiting c t .waitObj)
  -- line 443
  | .waitObj => s.acquire t .read
  -- line 448
  | .begin => some { (s.goto t .beginRel) with inProcess := true }
  -- line 449
  | .beginRel => some (s.release t .calc)
  -- line 451
  | .calc =>
    match c.func s.world with
    | some r => some { (s.goto t (.calcObj r)) with log := .eval t r :: s.log }
    | none => some { (s.goto t .idle) with log := .threw t :: s.log }
  -- line 453
  | .calcObj r => s.acquire t (.check r)
  -- lines 458-461
  | .check r => if s.valid then some (s.die .duplicate) else some (s.goto t (.store r))
  -- lines 464-466
  | .store r => some { (s.goto t .release) with value := r, valid := true, inProcess := false }
  -- line 467
  | .release => some (s.releaseWaiting c t .read)
  -- line 478
  | .read => some (s.goto t (.unlock s.value))
  -- lines 479-481
  | .unlock r =>
    if s.lock = some t then
      some { (s.goto t .idle) with lock := none, log := .ret t r :: s.log }
    else some (s.die .badUnset)

/-- One scheduler choice.  A faulted program makes no further step. -/
def step (c : Cfg W T) (s : St Tid W T) (l : Lbl Tid W) : Option (St Tid W T) :=
  if s.fault.isSome then none else
  match l with
  | .call t => match s.pc t with
    | .idle => some { (s.goto t .start) with log := .called t :: s.log }
    | _ => none
  | .run t => stepThread c s t
  -- line 488
  | .clear => some { s with valid := false, log := .cleared :: s.log }
  | .change w => some { s with world := w }

/-- Executions. -/
inductive Exec (c : Cfg W T) : St Tid W T → List (Lbl Tid W) → St Tid W T → Prop where
  | nil (s) : Exec c s [] s
  | cons {s s' s'' l ls} : step c s l = some s' → Exec c s' ls s'' → Exec c s (l :: ls) s''

end Slat.CacheVal
