import Verif.FunctionsModel
import Verif.ParForModel

/-!
# Interpolated functions evaluated by several threads (src/functions.cpp:177-278)

`FunctionsModel` describes one evaluation at a time.  The object keeps a `gsl_interp_accel` (src/functions.h:257, 302), the index of
the interval used last, and every evaluation reads and writes it without a lock, also from the parallel loops of
src/relationships.cpp:66-74, 306-386.  The GSL is external; `bsearch`, `find` and `piece` transcribe `gsl_interp_bsearch`,
`gsl_interp_accel_find` (gsl_interp.h) and `linear_eval` (interpolation/linear.c) of GSL 1.16-2.x, which end in

    size_t x_index = a->cache;
    if (x < xa[x_index])           { a->miss_count++; a->cache = gsl_interp_bsearch(xa, x, 0, x_index); }
    else if (x >= xa[x_index + 1]) { a->miss_count++; a->cache = gsl_interp_bsearch(xa, x, x_index, len-1); }
    else                           { a->hit_count++; }
    return a->cache;

Whether the last line reads the memory again or uses the value just read or stored is up to the compiler: `rereads`.  The
counters of hits and misses are left out.
-/

namespace Slat.Accel

open Slat Dbl Functions

noncomputable section

/-- `gsl_interp_bsearch` (external); `none`: an access outside the table. -/
def bsearch (pts : List (ℝ × ℝ)) (x : Dbl) (lo hi : ℕ) : Option ℕ :=
  if lo + 1 < hi then
    match pts[(hi + lo) / 2]? with
    | none => none
    | some p => if x < .fin p.1 then bsearch pts x lo ((hi + lo) / 2) else bsearch pts x ((hi + lo) / 2) hi
  else some lo
termination_by hi - lo

/-- What `gsl_interp_accel_find` does after reading index `i` from the accelerator: the index to store, if any (external). -/
def find (pts : List (ℝ × ℝ)) (x : Dbl) (i : ℕ) : Option (Option ℕ) :=
  match pts[i]? with
  | none => none
  | some p =>
    if x < .fin p.1 then (bsearch pts x 0 i).map some
    else match pts[i + 1]? with
      | none => none
      | some q => if .fin q.1 ≤ x then (bsearch pts x i (pts.length - 1)).map some else some none

/-- `linear_eval` with index `i` (external). -/
def piece (pts : List (ℝ × ℝ)) (x : Dbl) (i : ℕ) : Option Dbl :=
  match pts[i]?, pts[i + 1]? with
  | some p, some q =>
    some (if p.1 < q.1 then .fin p.2 + (x - .fin p.1) / .fin (q.1 - p.1) * .fin (q.2 - p.2) else .fin 0)
  | _, _ => none

/-- The parts of a `LinearInterpolatedFn` or `LogLogInterpolatedFn` (src/functions.h:183-303): the ends stored by the base
constructor, the table given to the GSL, and what is applied before and after the interpolation. -/
structure Obj where
  first : ℝ × ℝ
  last : ℝ × ℝ
  pts : List (ℝ × ℝ)
  into : Dbl → Dbl
  out : Dbl → Dbl

/-- `LinearInterpolatedFn` (src/functions.cpp:177-200, 213-227). -/
def linearObj (first last : ℝ × ℝ) (pts : List (ℝ × ℝ)) : Obj := ⟨first, last, pts, id, id⟩

/-- `LogLogInterpolatedFn` (src/functions.cpp:177-186, 234-248, 265-278). -/
def logLogObj (first last : ℝ × ℝ) (pts : List (ℝ × ℝ)) : Obj := ⟨first, last, logTable pts, Dbl.log, Dbl.exp⟩

/-- Where a thread is in `Evaluate`. -/
inductive Pc where
  | idle
  /-- about to compare with the ends and to read the accelerator -/
  | entered (x : Dbl)
  /-- read index `i`; `w` is to be stored -/
  | searched (x : Dbl) (i : ℕ) (w : Option ℕ)
  /-- about to return from `gsl_interp_accel_find`; `i` is the value read or stored by this thread -/
  | returning (x : Dbl) (i : ℕ)

/-- The accelerator and the threads. -/
structure St (Tid : Type) where
  cache : ℕ
  pc : Tid → Pc

/-- After construction (`gsl_interp_accel_alloc` sets the index to 0, src/functions.cpp:197, 237). -/
def init (Tid : Type) : St Tid := ⟨0, fun _ => .idle⟩

variable {Tid : Type} [DecidableEq Tid]

/-- Entering `Evaluate` (src/functions.cpp:213, 265). -/
def call (s : St Tid) (t : Tid) (x : Dbl) : Option (St Tid) :=
  match s.pc t with
  | .idle => some { s with pc := Function.update s.pc t (.entered x) }
  | _ => none

/-- The next access of a thread to the accelerator (src/functions.cpp:215-227, 267-278).  Accesses outside the table are the
outcome `threw`. -/
def run (o : Obj) (rereads : Bool) (s : St Tid) (t : Tid) : Option (St Tid × ParFor.Out Dbl) :=
  match s.pc t with
  | .idle => none
  | .entered x =>
    if x < .fin o.first.1 then some (⟨s.cache, Function.update s.pc t .idle⟩, .done (.fin o.first.2))
    else if .fin o.last.1 < x then some (⟨s.cache, Function.update s.pc t .idle⟩, .done (.fin o.last.2))
    else match find o.pts (o.into x) s.cache with
      | none => some (s, .threw)
      | some w => some (⟨s.cache, Function.update s.pc t (.searched x s.cache w)⟩, .busy)
  | .searched x i w =>
    match w with
    | none => some (⟨s.cache, Function.update s.pc t (.returning x i)⟩, .busy)
    | some j => some (⟨j, Function.update s.pc t (.returning x j)⟩, .busy)
  | .returning x i =>
    match piece o.pts (o.into x) (if rereads then s.cache else i) with
    | none => some (s, .threw)
    | some y => some (⟨s.cache, Function.update s.pc t .idle⟩, .done (o.out y))

/-- The object as the parallel loops see it: `IM::lambda` of a vector with an interpolated hazard curve
(src/relationships.cpp:61-74). -/
def svc (Tid : Type) [DecidableEq Tid] (o : Obj) (rereads : Bool) : ParFor.Svc Tid Dbl Dbl where
  St := St Tid
  call := call
  run := run o rereads

end

end Slat.Accel
