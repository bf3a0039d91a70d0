import Verif.ParForModel

/-!
# Model of caches whose calculations query other caches

`Structure::AnnualCost` (src/structure.h:40) is computed from `CompGroup::E_cost_IM` and `SD_ln_cost_IM`
(src/comp_group.h:111-116) of every group, these from `cost_EDP_dist` (:142), and this from
`BiLevelLoss::LossFunctionsForCount` (src/loss_functions.h:77); on the way teams of threads are formed
(src/structure.cpp:87, src/comp_group.cpp:267).  Each cache is the statement-level model of
`CacheFnModel.lean` or `CacheValModel.lean`; a calculation is a program that may call caches and run
parallel regions, and only what it does between those is left abstract.
-/

namespace Slat.Nest

open ParFor (Out)

/-- A cache as seen by the calculations: threads enter it and are executed statement by statement (`none`: not
possible now); `needs`: the next statement of the thread is the call of the wrapped function, whose outcome
(`none`: it throws) is then passed to `run`. -/
structure Obj (Tid V T : Type) where
  St : Type
  call : St → Tid → V → Option St
  needs : St → Tid → Bool
  run : St → Tid → Option T → Option (St × Out T)

/-- A calculation: it ends with a value or an exception, or calls a cache, or executes `n` blocks in parallel (a
`parallel for` of `n` iterations or `parallel sections`), whose results it then uses.  Exceptions are never
caught (there is no `catch` in the library). -/
inductive Prog (C V T : Type) where
  | ret (r : Option T)
  | call (c : C) (v : V) (k : T → Prog C V T)
  | par (n : ℕ) (ts : ℕ → Prog C V T) (k : List T → Prog C V T)

/-- On whose behalf a piece of program is executed: a client's query, the calculation of a cache at an argument, or
a block of a parallel region. -/
inductive Kind (C V T : Type) where
  | client (p : Prog C V T)
  | cache (c : C) (v : V)
  | task (j i : ℕ)

/-- What an activation is about to do: a statement of the cache (src/caching.h:144-282, 415-482), the rest of a
program, or to wait at the end of a parallel region. -/
inductive Code (C V T : Type) where
  | protocol
  | run (p : Prog C V T)
  | join (j : ℕ) (k : List T → Prog C V T)

/-- An entry of a thread's call stack: a call in progress of `operator()` of a cache (src/caching.h:144, 415), a block
of a parallel region or a client's query. -/
structure Act (C V T : Type) where
  kind : Kind C V T
  code : Code C V T

/-- A parallel region being executed (src/structure.cpp:87-90, src/comp_group.cpp:267-277): its blocks, those not
started yet and the results so far.  How OpenMP distributes the blocks is left open: any available thread may take any
of them. -/
structure Job (C V T : Type) where
  n : ℕ
  ts : ℕ → Prog C V T
  pool : List ℕ
  res : ℕ → Option T

/-- What makes the model stop. -/
inductive Bad where
  /-- a thread entered a cache it is already inside (not modelled further) -/
  | reentered
  /-- an exception left a parallel region: `std::terminate` -/
  | terminated
deriving DecidableEq

/-- Observable events: a client's query and its outcome, most recent first. -/
inductive Ev (Tid C V T : Type) where
  | started (t : Tid) (p : Prog C V T)
  | ended (t : Tid) (p : Prog C V T) (r : Option T)

/-- The caches, and the calculation each of them wraps (`func`, src/caching.h:292, 348; the calculations are listed in
`NestSlat.lean`). -/
structure Sys (Tid C V T : Type) where
  obj : C → Obj Tid V T
  body : C → V → Prog C V T

/-- State (src/caching.h:290-322, 348-363 for each cache, and the OpenMP run time): the caches, the call stacks (innermost activation first), the parallel regions and the events. -/
structure St {Tid C V T : Type} (sys : Sys Tid C V T) where
  objs : ∀ c, (sys.obj c).St
  stack : Tid → List (Act C V T)
  jobs : ℕ → Job C V T
  nextJob : ℕ
  log : List (Ev Tid C V T)
  bad : Option Bad

/-- Scheduler choices.  `ClearCache` (src/caching.h:287-289, 487-489) is not among them: these executions lie between
two changes of the model. -/
inductive Lbl (Tid C V T : Type) where
  /-- a client's thread starts a query -/
  | start (t : Tid) (p : Prog C V T)
  /-- thread `t` makes its next step -/
  | run (t : Tid)
  /-- block `i` of region `j` is given to thread `t` -/
  | take (t : Tid) (j i : ℕ)

variable {Tid C V T : Type} [DecidableEq Tid] [DecidableEq C]

/-- The caller goes on with the outcome of the cache it called, or the exception leaves it too (there is no `catch` in
src/). -/
def resume (r : Option T) : List (Act C V T) → List (Act C V T)
  | ⟨kd, .run (.call _ _ k)⟩ :: rest =>
    ⟨kd, .run (match r with | some x => k x | none => .ret none)⟩ :: rest
  | l => l

variable {sys : Sys Tid C V T}

/-- Replace the stack of a thread (model only). -/
def St.goto (s : St sys) (t : Tid) (l : List (Act C V T)) : St sys := { s with stack := Function.update s.stack t l }

/-- A statement of cache `c`, called with `v`, by the innermost activation of thread `t`; `r` is the outcome of the
wrapped function. -/
def runObj (s : St sys) (t : Tid) (c : C) (v : V) (rest : List (Act C V T)) (r : Option T) : Option (St sys) :=
  match (sys.obj c).run (s.objs c) t r with
  | none => none
  | some (o, .busy) => some { s.goto t (⟨.cache c v, .protocol⟩ :: rest) with objs := Function.update s.objs c o }
  | some (o, .done x) => some { s.goto t (resume (some x) rest) with objs := Function.update s.objs c o }
  | some (o, .threw) => some { s.goto t (resume none rest) with objs := Function.update s.objs c o }

/-- The vector `f 0, ..., f (n-1)` (`dists`, src/structure.cpp:84), if all its elements are there. -/
def collect (f : ℕ → Option T) : ℕ → Option (List T)
  | 0 => some []
  | n + 1 =>
    match collect f n, f n with
    | some xs, some x => some (xs ++ [x])
    | _, _ => none

/-- The results of a region, if all of them are there: the barrier at its end (src/structure.cpp:90,
src/comp_group.cpp:277). -/
def Job.results (j : Job C V T) : Option (List T) := collect j.res j.n

/-- The next step of a thread (`none`: it waits, or has nothing to do): a statement of a cache (src/caching.h:144-282,
415-482), a call, or the begin or end of a region (src/structure.cpp:86-91, src/comp_group.cpp:266-279); an exception
that leaves a block of a region terminates the program (OpenMP). -/
def stepThread (s : St sys) (t : Tid) : Option (St sys) :=
  match s.stack t with
  | [] => none
  | ⟨kd, .protocol⟩ :: rest =>
    match kd with
    | .cache c v =>
      if (sys.obj c).needs (s.objs c) t then some (s.goto t (⟨kd, .run (sys.body c v)⟩ :: rest))
      else runObj s t c v rest none
    | _ => none
  | ⟨kd, .run (.ret r)⟩ :: rest =>
    match kd with
    | .client p => some { s.goto t rest with log := .ended t p r :: s.log }
    | .cache c v => runObj s t c v rest r
    | .task j i =>
      match r with
      | some x => some { s.goto t rest with
          jobs := Function.update s.jobs j { s.jobs j with res := Function.update (s.jobs j).res i (some x) } }
      | none => some { s with bad := some .terminated }
  | ⟨kd, .run (.call c v k)⟩ :: rest =>
    match (sys.obj c).call (s.objs c) t v with
    | some o => some { s.goto t (⟨.cache c v, .protocol⟩ :: ⟨kd, .run (.call c v k)⟩ :: rest) with
        objs := Function.update s.objs c o }
    | none => some { s with bad := some .reentered }
  | ⟨kd, .run (.par n ts k)⟩ :: rest =>
    some { s.goto t (⟨kd, .join s.nextJob k⟩ :: rest) with
      jobs := Function.update s.jobs s.nextJob ⟨n, ts, List.range n, fun _ => none⟩
      nextJob := s.nextJob + 1 }
  | ⟨kd, .join j k⟩ :: rest =>
    match (s.jobs j).results with
    | some xs => some (s.goto t (⟨kd, .run (k xs)⟩ :: rest))
    | none => none

/-- Who may execute blocks of region `j` (src/structure.cpp:86, src/comp_group.cpp:266): a thread without other work, or
the one that waits for the region.  Every team OpenMP can form is covered, also when nested regions are executed by one
thread. -/
def available (l : List (Act C V T)) (j : ℕ) : Bool :=
  match l with
  | [] => true
  | ⟨_, .join j' _⟩ :: _ => decide (j' = j)
  | _ => false

/-- One scheduler choice (`none`: not possible now). -/
def step (s : St sys) (l : Lbl Tid C V T) : Option (St sys) :=
  if s.bad.isSome then none else
  match l with
  | .start t p =>
    match s.stack t with
    | [] => some { s.goto t [⟨.client p, .run p⟩] with log := .started t p :: s.log }
    | _ => none
  | .run t => stepThread s t
  | .take t j i =>
    if j < s.nextJob ∧ i ∈ (s.jobs j).pool ∧ available (s.stack t) j = true then
      some { s.goto t (⟨.task j i, .run ((s.jobs j).ts i)⟩ :: s.stack t) with
        jobs := Function.update s.jobs j { s.jobs j with pool := (s.jobs j).pool.erase i } }
    else none

/-- Executions. -/
inductive Exec : St sys → List (Lbl Tid C V T) → St sys → Prop where
  | nil (s) : Exec s [] s
  | cons {s s' s'' l ls} : step s l = some s' → Exec s' ls s'' → Exec s (l :: ls) s''

/-- State before the first query; `o`: the caches as constructed (src/caching.h:106-130, 373-401). -/
def init (sys : Sys Tid C V T) (o : ∀ c, (sys.obj c).St) : St sys where
  objs := o
  stack := fun _ => []
  jobs := fun _ => ⟨0, fun _ => .ret none, [], fun _ => none⟩
  nextJob := 0
  log := []
  bad := none

/-! ## The two kinds of caches -/

/-- A `CachedFunction` (src/caching.h:144-282, model in `CacheFnModel.lean`), with its NaN test and its flag. -/
def fnObj (Tid : Type) [DecidableEq Tid] [DecidableEq V] [Inhabited T] (isNaN : V → Bool) (active : Bool) : Obj Tid V T where
  St := CacheFn.St Tid V T
  call s t v := CacheFn.step ⟨fun _ => none, isNaN, active⟩ s (.call t v)
  needs s t := match s.pc t with | .calc _ => true | .bypassCalc _ => true | _ => false
  run s t r := ParFor.fnRun ⟨fun _ => r, isNaN, active⟩ s t

/-- A `CachedValue` (src/caching.h:415-482, model in `CacheValModel.lean`). -/
def valObj (Tid V : Type) [DecidableEq Tid] (strict : Bool) : Obj Tid V T where
  St := CacheVal.St Tid Unit T
  call s t _ := CacheVal.step ⟨fun _ => none, strict⟩ s (.call t)
  needs s t := match s.pc t with | .calc => true | _ => false
  run s t r := ParFor.valRun ⟨fun _ => r, strict⟩ s t

end Slat.Nest
