import Verif.CacheFnModel
import Verif.CacheValModel

/-!
# Model of the parallel loops behind the vector queries

`std::vector<double> result(x.size());  #pragma omp parallel for  for (i ...) result[i] = F(x[i]);`
src/relationships.cpp:66-104 (`IM::lambda`, `pCollapse`, `pDemolition`, `pRepair`), :306-386
(`EDP::par_lambda`, `MeanLn`, `Median`, `Mean`, `SD_ln`, `SD`), src/structure.cpp:83-92 (`CostNC`), :154-163
(`E_cost`), src/pyslatcore.cpp:393-401, 438-487 (`get_lambda`, `bulk_*`).

The body is split at every statement of the object it calls (`Svc`); threads are interleaved in any way, and
iterations are handed to threads in any way (this covers every OpenMP schedule kind).
-/

namespace Slat.ParFor

/-- What one statement of a call leads to. -/
inductive Out (X : Type) where
  /-- the call is still going on -/
  | busy
  /-- the call returned -/
  | done (x : X)
  /-- the call threw -/
  | threw

/-- An object shared by the threads: calls are entered and then executed statement by statement
(`none`: not possible now). -/
structure Svc (Tid V X : Type) where
  St : Type
  call : St → Tid → V → Option St
  run : St → Tid → Option (St × Out X)

/-- A loop: the input vector, what each iteration passes to the object, and what it makes of the answer
(`zero`: the initial elements of `std::vector<double> result(n)`, src/relationships.cpp:68). -/
structure Loop (A V X R : Type) where
  args : List A
  arg : A → V
  post : A → X → R
  zero : R

/-- What a thread of the team is doing. -/
inductive Work (R : Type) where
  /-- between iterations -/
  | idle
  /-- in iteration `i`, inside the call (right-hand side of src/relationships.cpp:71) -/
  | calling (i : ℕ)
  /-- in iteration `i`, about to store (left-hand side of src/relationships.cpp:71) -/
  | storing (i : ℕ) (r : R)

/-- State of a loop.  `pool`: iterations not handed out yet; `started` (ghost): iterations handed out.
An exception that leaves an iteration ends the program (`std::terminate`, required by OpenMP). -/
structure LSt (S R Tid : Type) where
  svc : S
  pool : List ℕ
  work : Tid → Work R
  result : List R
  started : List ℕ
  crashed : Bool

/-- Scheduler choices. -/
inductive Lbl (Tid : Type) where
  /-- hand iteration `i` to thread `t`, which enters the call -/
  | take (t : Tid) (i : ℕ)
  /-- next statement of the call thread `t` is in -/
  | run (t : Tid)
  /-- `result[i] = ...` -/
  | store (t : Tid)

variable {Tid A V X R : Type} [DecidableEq Tid]

/-- State at the start of the loop (src/relationships.cpp:68-70). -/
def begin (L : Loop A V X R) (S : Svc Tid V X) (s : S.St) : LSt S.St R Tid where
  svc := s
  pool := List.range L.args.length
  work := fun _ => .idle
  result := List.replicate L.args.length L.zero
  started := []
  crashed := false

/-- One scheduler choice (src/relationships.cpp:69-72). -/
def step (L : Loop A V X R) (S : Svc Tid V X) (s : LSt S.St R Tid) (l : Lbl Tid) :
    Option (LSt S.St R Tid) :=
  if s.crashed then none else
  match l with
  | .take t i =>
    match s.work t with
    | .idle =>
      if i ∈ s.pool then
        match L.args[i]? with
        | some a => (S.call s.svc t (L.arg a)).map fun s' =>
            { s with svc := s', pool := s.pool.erase i, work := Function.update s.work t (.calling i),
                     started := i :: s.started }
        | none => none
      else none
    | _ => none
  | .run t =>
    match s.work t with
    | .calling i =>
      match S.run s.svc t with
      | some (s', .busy) => some { s with svc := s' }
      | some (s', .done x) =>
        match L.args[i]? with
        | some a => some { s with svc := s', work := Function.update s.work t (.storing i (L.post a x)) }
        | none => none
      | some (s', .threw) => some { s with svc := s', crashed := true }
      | none => none
    | _ => none
  | .store t =>
    match s.work t with
    | .storing i r => some { s with result := s.result.set i r, work := Function.update s.work t .idle }
    | _ => none

/-- Executions of the loop. -/
inductive Exec (L : Loop A V X R) (S : Svc Tid V X) :
    LSt S.St R Tid → List (Lbl Tid) → LSt S.St R Tid → Prop where
  | nil (s) : Exec L S s [] s
  | cons {s s' s'' l ls} : step L S s l = some s' → Exec L S s' ls s'' → Exec L S s (l :: ls) s''

/-- The barrier at the end of the loop is passed: all iterations handed out, all threads through
(src/relationships.cpp:72-73). -/
def Finished (s : LSt S R Tid) : Prop :=
  s.crashed = false ∧ s.pool = [] ∧ ∀ t, s.work t = .idle

/-! ## The objects called by the bodies -/

/-- Entering a body that touches no shared mutable state; the state records the pending calls. -/
def pureCall (s : Tid → Option V) (t : Tid) (v : V) : Option (Tid → Option V) :=
  match s t with
  | none => some (Function.update s t (some v))
  | some _ => none

/-- Executing such a body in one statement (`f v = none`: throws). -/
def pureRun (f : V → Option X) (s : Tid → Option V) (t : Tid) : Option ((Tid → Option V) × Out X) :=
  match s t with
  | none => none
  | some v => some (Function.update s t none, match f v with
    | some x => .done x
    | none => .threw)

/-- A body that touches no shared mutable state: `IM::lambda`, `pCollapse`, `pDemolition`, `pRepair`,
`EDP::Mean`, ... (src/relationships.cpp:71, 81, 91, 101, 326-384).  Simplification: the index cache inside
GSL's interpolation accelerators (src/functions.cpp:224, 273), which concurrent evaluations share, is left out here;
see `AccelModel`. -/
def pureSvc (Tid : Type) [DecidableEq Tid] (f : V → Option X) : Svc Tid V X where
  St := Tid → Option V
  call := pureCall
  run := pureRun f

/-- How the newest event of a `CachedFunction` log ends a call. -/
def fnOut : List (CacheFn.Ev Tid V X) → Out X
  | .ret _ _ x :: _ => .done x
  | .threw _ _ :: _ => .threw
  | _ => .busy

/-- Next statement of a call of a `CachedFunction` (`CacheFn.step`, src/caching.h:144-282). -/
def fnRun [DecidableEq V] [Inhabited X] (c : CacheFn.Cfg V X) (s : CacheFn.St Tid V X) (t : Tid) :
    Option (CacheFn.St Tid V X × Out X) :=
  match CacheFn.step c s (.run t) with
  | none => none
  | some s' => some (s', match s'.pc t with
    | .idle => fnOut s'.log
    | _ => .busy)

/-- A body that calls a `CachedFunction`: `EDP::par_lambda` (src/relationships.cpp:311),
`EDP::get_lambda(vector)` (src/pyslatcore.cpp:398); statement by statement as in `CacheFn.step`. -/
def fnSvc (Tid : Type) [DecidableEq Tid] [DecidableEq V] [Inhabited X] (c : CacheFn.Cfg V X) :
    Svc Tid V X where
  St := CacheFn.St Tid V X
  call s t v := CacheFn.step c s (.call t v)
  run := fnRun c

/-- How the newest event of a `CachedValue` log ends a call. -/
def valOut : List (CacheVal.Ev Tid X) → Out X
  | .ret _ x :: _ => .done x
  | .threw _ :: _ => .threw
  | _ => .busy

/-- Next statement of a call of a `CachedValue` (`CacheVal.step`, src/caching.h:415-482). -/
def valRun {W : Type} (c : CacheVal.Cfg W X) (s : CacheVal.St Tid W X) (t : Tid) :
    Option (CacheVal.St Tid W X × Out X) :=
  match CacheVal.step c s (.run t) with
  | none => none
  | some s' => some (s', match s'.pc t with
    | .idle => valOut s'.log
    | _ => .busy)

/-- A body that calls a `CachedValue`: `Structure::E_cost(vector)` uses `AnnualCost()` for every year
(src/structure.cpp:152, 160); statement by statement as in `CacheVal.step`. -/
def valSvc (Tid : Type) [DecidableEq Tid] {W : Type} (c : CacheVal.Cfg W X) : Svc Tid Unit X where
  St := CacheVal.St Tid W X
  call s t _ := CacheVal.step c s (.call t)
  run := valRun c

end Slat.ParFor
