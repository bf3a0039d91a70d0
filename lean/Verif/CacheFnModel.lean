import Mathlib.Logic.Function.Basic
import Mathlib.Data.Fintype.Basic
import Mathlib.Data.Int.Order.Basic

/-!
# Model of `Caching::CachedFunction<T,V>` (src/caching.h:96-323)

A step relation for any number of threads.  Each step is one source statement (or a few consecutive
statements that touch only thread-local data) of `operator()`; locks are modelled by their owner.
-/

namespace Slat.CacheFn

/-- `struct WAITING` (src/caching.h:304-307): the lock (its owner, if set) and the number of waiting
clients.  `gen` identifies the map node, so that a stale `calc_lock` pointer can be recognised. -/
structure WaitRec (Tid : Type) where
  owner : Option Tid
  count : ℤ
  gen : ℕ
deriving DecidableEq

/-- Program counter of a thread inside `operator()` (src/caching.h:144-282). -/
inductive Pc (V T : Type) where
  /-- not inside a call -/
  | idle
  /-- at line 154, `omp_set_lock(&lock)` -/
  | start (v : V)
  /-- lock held, lines 155-188: decide which branch to take -/
  | locked (v : V)
  /-- line 261, cache hit -/
  | hit (v : V)
  /-- lines 195-196: announce interest in a running computation -/
  | join (v : V)
  /-- line 197: release the object lock; `g` is the node the `calc_lock` pointer refers to -/
  | joinRel (v : V) (g : ℕ)
  /-- line 198, `omp_set_lock(calc_lock)` -/
  | waitCalc (v : V) (g : ℕ)
  /-- line 209, `omp_set_lock(&lock)` -/
  | waitObj (v : V) (g : ℕ)
  /-- lines 210-215 -/
  | leave (v : V) (g : ℕ)
  /-- lines 223-225: create the record of a new computation -/
  | begin (v : V)
  /-- line 226: release the object lock -/
  | beginRel (v : V)
  /-- line 228, `func(v)` -/
  | calc (v : V)
  /-- line 230, `omp_set_lock(&lock)` -/
  | calcObj (v : V) (r : T)
  /-- lines 239-243: duplicate check -/
  | check (v : V) (r : T)
  /-- line 245, `cache[v] = result` -/
  | store (v : V) (r : T)
  /-- lines 253-257 -/
  | finish (v : V)
  /-- line 268, `T result = cache[v]` -/
  | read (v : V)
  /-- lines 269-271: release the object lock and return -/
  | unlock (v : V) (r : T)
  /-- line 277: cache not used; release the object lock -/
  | bypass (v : V)
  /-- line 278, `func(v)` without caching -/
  | bypassCalc (v : V)
deriving DecidableEq

/-- Fatal outcomes. -/
inductive Fault where
  /-- `raise(SIGINT)` at line 242 -/
  | duplicate
  /-- `omp_unset_lock` on a lock the thread does not own (undefined in OpenMP) -/
  | badUnset
  /-- `in_process[v]` used although there is no such record: `operator[]` inserts one whose lock was
  never initialised -/
  | missingRecord
  /-- `calc_lock` points to an erased map node -/
  | dangling
  /-- `cache.clear()` (line 288) while another thread is inside the critical section -/
  | dataRace
deriving DecidableEq

/-- Observable events, most recent first. -/
inductive Ev (Tid V T : Type) where
  /-- a thread entered `operator()` with argument `v` -/
  | called (t : Tid) (v : V)
  /-- the wrapped function was invoked at `v` and returned -/
  | eval (t : Tid) (v : V)
  /-- the wrapped function was invoked at `v` and threw; the exception left `operator()` -/
  | threw (t : Tid) (v : V)
  /-- the call returned `r` -/
  | ret (t : Tid) (v : V) (r : T)
  /-- `ClearCache` completed -/
  | cleared
deriving DecidableEq

/-- Shared and per-thread state.  `lock` (line 313), `cache` (line 295), `in_process` (line 310).
The counters `hits`, `total_calls` (lines 321-322) only feed diagnostics and are left out. -/
structure St (Tid V T : Type) where
  lock : Option Tid
  cache : V → Option T
  inProc : V → Option (WaitRec Tid)
  nextGen : ℕ
  pc : Tid → Pc V T
  log : List (Ev Tid V T)
  fault : Option Fault

/-- What the template is instantiated with: the function (`none` models an exception), the NaN test of
line 164 and the `cache_active` flag (line 301). -/
structure Cfg (V T : Type) where
  func : V → Option T
  isNaN : V → Bool
  active : Bool

/-- Condition of line 164. -/
def Cfg.useCache {V T : Type} (c : Cfg V T) (v : V) : Bool := c.active && !c.isNaN v

/-- Scheduler choices: a thread outside any call starts one, a thread inside a call performs its next
statement, or some thread runs `ClearCache` (src/caching.h:287-289), which takes no lock. -/
inductive Lbl (Tid V : Type) where
  | call (t : Tid) (v : V)
  | run (t : Tid)
  | clear
deriving DecidableEq

variable {Tid V T : Type} [DecidableEq Tid] [DecidableEq V]

/-- State right after construction (src/caching.h:106-129). -/
def init (Tid V T : Type) : St Tid V T where
  lock := none
  cache := fun _ => none
  inProc := fun _ => none
  nextGen := 0
  pc := fun _ => .idle
  log := []
  fault := none

/-- Set the program counter of a thread. -/
def St.goto (s : St Tid V T) (t : Tid) (p : Pc V T) : St Tid V T :=
  { s with pc := Function.update s.pc t p }

/-- Stop with a fault. -/
def St.die (s : St Tid V T) (f : Fault) : St Tid V T := { s with fault := some f }

/-- `omp_set_lock(&lock)`: not enabled while the lock is held (by anyone). -/
def St.acquire (s : St Tid V T) (t : Tid) (p : Pc V T) : Option (St Tid V T) :=
  match s.lock with
  | none => some { (s.goto t p) with lock := some t }
  | some _ => none

/-- `omp_unset_lock(&lock)`. -/
def St.release (s : St Tid V T) (t : Tid) (p : Pc V T) : St Tid V T :=
  if s.lock = some t then { (s.goto t p) with lock := none } else s.die .badUnset

/-- The next statement of thread `t` (`none`: blocked or not inside a call).
`[Inhabited T]` is the default constructor used by `cache[v]` (line 268). -/
def stepThread [Inhabited T] (c : Cfg V T) (s : St Tid V T) (t : Tid) : Option (St Tid V T) :=
  match s.pc t with
  | .idle => none
  -- line 154
  | .start v => s.acquire t (.locked v)
  -- lines 164, 176-188
  | .locked v =>
    if c.useCache v then
      if (s.cache v).isSome then some (s.goto t (.hit v))
      else if (s.inProc v).isSome then some (s.goto t (.join v))
      else some (s.goto t (.begin v))
    else some (s.goto t (.bypass v))
  -- line 261
  | .hit v => some (s.goto t (.read v))
  -- lines 195-196
  | .join v =>
    match s.inProc v with
    | none => some (s.die .missingRecord)
    | some r => some { (s.goto t (.joinRel v r.gen)) with
        inProc := Function.update s.inProc v (some { r with count := r.count + 1 }) }
  -- line 197
  | .joinRel v g => some (s.release t (.waitCalc v g))
  -- line 198
  | .waitCalc v g =>
    match s.inProc v with
    | none => some (s.die .dangling)
    | some r =>
      if r.gen = g then
        match r.owner with
        | none => some { (s.goto t (.waitObj v g)) with
            inProc := Function.update s.inProc v (some { r with owner := some t }) }
        | some _ => none
      else some (s.die .dangling)
  -- line 209
  | .waitObj v g => s.acquire t (.leave v g)
  -- lines 210-215
  | .leave v _ =>
    match s.inProc v with
    | none => some (s.die .missingRecord)
    | some r =>
      if r.count - 1 > 0 then
        if r.owner = some t then some { (s.goto t (.read v)) with
            inProc := Function.update s.inProc v
              (some { r with count := r.count - 1, owner := none }) }
        else some (s.die .badUnset)
      else some { (s.goto t (.read v)) with inProc := Function.update s.inProc v none }
  -- lines 223-225
  | .begin v => some { (s.goto t (.beginRel v)) with
      inProc := Function.update s.inProc v (some ⟨some t, 0, s.nextGen⟩)
      nextGen := s.nextGen + 1 }
  -- line 226
  | .beginRel v => some (s.release t (.calc v))
  -- line 228
  | .calc v =>
    match c.func v with
    | some r => some { (s.goto t (.calcObj v r)) with log := .eval t v :: s.log }
    | none => some { (s.goto t .idle) with log := .threw t v :: s.log }
  -- line 230
  | .calcObj v r => s.acquire t (.check v r)
  -- lines 239-243
  | .check v r => if (s.cache v).isSome then some (s.die .duplicate) else some (s.goto t (.store v r))
  -- line 245
  | .store v r => some { (s.goto t (.finish v)) with cache := Function.update s.cache v (some r) }
  -- lines 253-257
  | .finish v =>
    match s.inProc v with
    | none => some (s.die .missingRecord)
    | some r =>
      if r.count = 0 then
        some { (s.goto t (.read v)) with inProc := Function.update s.inProc v none }
      else if r.owner = some t then some { (s.goto t (.read v)) with
          inProc := Function.update s.inProc v (some { r with owner := none }) }
      else some (s.die .badUnset)
  -- line 268: `cache[v]` inserts a default value when the key is absent
  | .read v =>
    match s.cache v with
    | some r => some (s.goto t (.unlock v r))
    | none => some { (s.goto t (.unlock v default)) with
        cache := Function.update s.cache v (some default) }
  -- lines 269-271
  | .unlock v r =>
    if s.lock = some t then
      some { (s.goto t .idle) with lock := none, log := .ret t v r :: s.log }
    else some (s.die .badUnset)
  -- line 277
  | .bypass v => some (s.release t (.bypassCalc v))
  -- lines 278-280
  | .bypassCalc v =>
    match c.func v with
    | some r => some { (s.goto t .idle) with log := .ret t v r :: .eval t v :: s.log }
    | none => some { (s.goto t .idle) with log := .threw t v :: s.log }

/-- One scheduler choice (`none`: not possible now).  A faulted program makes no further step. -/
def step [Inhabited T] (c : Cfg V T) (s : St Tid V T) (l : Lbl Tid V) : Option (St Tid V T) :=
  if s.fault.isSome then none else
  match l with
  | .call t v => match s.pc t with
    | .idle => some { (s.goto t (.start v)) with log := .called t v :: s.log }
    | _ => none
  | .run t => stepThread c s t
  -- line 288
  | .clear => match s.lock with
    | none => some { s with cache := fun _ => none, log := .cleared :: s.log }
    | some _ => some (s.die .dataRace)

/-- Executions: a list of scheduler choices, each possible in turn. -/
inductive Exec [Inhabited T] (c : Cfg V T) : St Tid V T → List (Lbl Tid V) → St Tid V T → Prop where
  | nil (s) : Exec c s [] s
  | cons {s s' s'' l ls} : step c s l = some s' → Exec c s' ls s'' → Exec c s (l :: ls) s''

end Slat.CacheFn
