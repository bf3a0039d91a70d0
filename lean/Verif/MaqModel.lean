import Verif.Dbl

/-!
# Model of the adaptive quadrature (src/maq.cpp)

The integrand is a pure function `Dbl → Dbl` (external).  Abscissae in the transformed domain `t = 1/(1+x)` are
real numbers: they are dyadic fractions in [0,1], never NaN.  Simplified: `float(i)` is exact (true up to
2^24), `int i` does not overflow (true for search limits up to 2^30).
-/

namespace Slat.Maq

open Dbl

noncomputable section

/-! ### Loops -/

/-- A `while` loop with a step bound: `none` when the bound is exhausted, so "for every bound, `none`" is
non-termination.  `Sum.inr` leaves the loop.  (No source counterpart: C++ iteration.) -/
def iter {S R : Type} (step : S → S ⊕ R) : ℕ → S → Option R
  | 0, _ => none
  | n + 1, s =>
    match step s with
    | .inr r => some r
    | .inl s' => iter step n s'

/-! ### Settings and results -/

/-- `IntegrationSettings::METHOD_TYPE` (src/maq.h:34-39). -/
inductive Method where
  | binary | reverse | lowFirst | scattered | directed
deriving DecidableEq

/-- The settings read by `MAQ` (src/maq.cpp:561-563, 585): tolerance, evaluation limit, search limit, method. -/
structure Cfg where
  tol : Dbl
  maxeval : ℕ
  bineval : ℕ
  method : Method

/-- `numeric_limits<double>::epsilon()`. -/
def eps : ℝ := 1 / 2 ^ 52

/-- `x_from_t` (src/maq.cpp:176). -/
def xFromT (t : ℝ) : Dbl := if t = 0 then .pinf else .fin (1 / t - 1)

/-- `search_result_t` (src/maq.cpp:182): `{NAN, NAN, n}` or a bracket `{a, b, n}`. -/
inductive SearchResult where
  | nothing (n : ℕ)
  | bracket (a b : ℝ) (n : ℕ)

/-- `r.evaluations`. -/
def SearchResult.evals : SearchResult → ℕ
  | .nothing n => n
  | .bracket _ _ n => n

/-! ### The three subdivision searches -/

/-- Abscissae used for interval `i` of `n`: the point examined and the bracket around it. -/
structure Dir where
  c : ℕ → ℕ → ℝ
  a : ℕ → ℕ → ℝ
  b : ℕ → ℕ → ℝ

/-- src/maq.cpp:205, 211-212. -/
def forward : Dir where
  c i n := (i : ℝ) / n
  a i n := ((i : ℝ) - 1) / n
  b i n := ((i : ℝ) + 1) / n

/-- src/maq.cpp:247, 253-254 (and 290, 296-297, 307, 313-314). -/
def backward : Dir where
  c i n := 1 - (i : ℝ) / n
  a i n := 1 - ((i : ℝ) + 1) / n
  b i n := 1 - ((i : ℝ) - 1) / n

/-- Local variables of the subdivision searches. -/
structure Sub where
  a : ℝ
  b : ℝ
  fc : Dbl
  evals : ℕ

/-- The inner `for` loop (src/maq.cpp:204-215, 246-257, 289-300, 306-317): `rest` iterations remain, starting
at `i`, step 2; leaves early when a value above epsilon is found. -/
def scan (f : Dbl → Dbl) (dir : Dir) (n : ℕ) : ℕ → ℕ → Sub → Sub
  | 0, _, s => s
  | rest + 1, i, s =>
    let fc := f (xFromT (dir.c i n))
    if Dbl.fin eps < fc then ⟨dir.a i n, dir.b i n, fc, s.evals + 1⟩
    else scan f dir n rest (i + 2) { s with fc := fc, evals := s.evals + 1 }

/-- One iteration of the `while` loops (src/maq.cpp:203-217, 245-259, 288-302, 305-319): the inner loop runs
`for (i = lo; i < hi; i += 2)`, then the number of intervals doubles. -/
def subStep (f : Dbl → Dbl) (dir : Dir) (lim : ℕ) (lo hi : ℕ → ℕ) (s : ℕ × Sub) : (ℕ × Sub) ⊕ Sub :=
  if s.2.evals < lim ∧ s.2.fc ≤ .fin eps then
    .inl (2 * s.1, scan f dir s.1 ((hi s.1 - lo s.1 + 1) / 2) (lo s.1) s.2)
  else .inr s.2

/-- End of the subdivision searches (src/maq.cpp:219-221, 261-263, 320-322). -/
def subResult (s : Sub) : SearchResult :=
  if s.fc ≤ .fin eps then .nothing s.evals else .bracket s.a s.b s.evals

/-- `binary_subdivision` (src/maq.cpp:188-225). -/
def binarySubdivision (f : Dbl → Dbl) (lim fuel : ℕ) : Option SearchResult :=
  let fb := f (xFromT 1)
  let fc := f (xFromT (1 / 2))
  if fb ≤ .fin eps ∧ fc ≤ .fin eps then
    (iter (subStep f forward lim (fun _ => 1) (fun n => n)) fuel (4, ⟨0, 1, fc, 2⟩)).map subResult
  else some (.bracket 0 1 2)

/-- `reverse_binary_subdivision` (src/maq.cpp:230-268). -/
def reverseSubdivision (f : Dbl → Dbl) (lim fuel : ℕ) : Option SearchResult :=
  let fb := f (xFromT 1)
  let fc := f (xFromT (1 / 2))
  if fb ≤ .fin eps ∧ fc ≤ .fin eps then
    (iter (subStep f backward lim (fun _ => 1) (fun n => n)) fuel (4, ⟨0, 1, fc, 2⟩)).map subResult
  else some (.bracket 0 1 2)

/-- `low_first_reverse_binary_subdivision` (src/maq.cpp:273-327). -/
def lowFirstSubdivision (f : Dbl → Dbl) (lim fuel : ℕ) : Option SearchResult :=
  let fb := f (xFromT 1)
  let fc := f (xFromT (1 / 2))
  if fb ≤ .fin eps ∧ fc ≤ .fin eps then
    (iter (subStep f backward (lim / 2) (fun _ => 1) (fun n => n / 2)) fuel (4, ⟨0, 1, fc, 2⟩)).bind fun s =>
    (iter (subStep f backward lim (fun n => 1 + n / 2) (fun n => n)) fuel (4, s)).map subResult
  else some (.bracket 0 1 2)

/-! ### Scattered and directed search -/

/-- Point, value and evaluation count. -/
structure Probe where
  c : ℝ
  fc : Dbl
  evals : ℕ

/-- The two tests by which the scattered search (epsilon: src/maq.cpp:350, 356, 367) and the first phase of the
directed search (zero: src/maq.cpp:423, 429, 440) differ: continue searching, and found. -/
structure Tests where
  cont : Dbl → Prop
  found : Dbl → Prop

/-- src/maq.cpp:350, 356, 367. -/
def epsTests : Tests := ⟨fun v => v ≤ .fin eps, fun v => Dbl.fin eps < v⟩
/-- src/maq.cpp:423, 429, 440. -/
def zeroTests : Tests := ⟨fun v => feq v 0, fun v => 0 < v⟩

open Classical in
/-- Inner `while` (src/maq.cpp:362-372, 435-445); state `i`, `p`, probe. -/
def innerStep (f : Dbl → Dbl) (T : Tests) (lim n : ℕ) (s : ℕ × ℕ × Probe) : (ℕ × ℕ × Probe) ⊕ Probe :=
  if s.1 < n ∧ s.2.2.evals < lim then
    let c : ℝ := 1 - (s.1 : ℝ) / n
    let fc := f (xFromT c)
    let q : Probe := ⟨c, fc, s.2.2.evals + 1⟩
    if T.found fc then .inr q
    else .inl (s.1 + s.2.1 * 2, s.2.1 * 2, q)
  else .inr s.2.2

/-- Doubling of `intervals` with the reset when twice the number would be 0 modulo 2^64
(src/maq.cpp:373-383, 446-456; `init_i` is always 1, so its branch is dead and `init_intervals` stays 4). -/
def nextIntervals (n : ℕ) : ℕ := if (n * 2 * 2) % 2 ^ 64 = 0 then 4 else n * 2

open Classical in
/-- Outer `while` (src/maq.cpp:350-384, 423-457); state `intervals`, `k`, probe.  `none` in the result is an
inner loop that did not finish within `fuel`. -/
def scatStep (f : Dbl → Dbl) (T : Tests) (lim fuel : ℕ) (s : ℕ × ℕ × Probe) :
    (ℕ × ℕ × Probe) ⊕ Option Probe :=
  if s.2.2.evals < lim ∧ T.cont s.2.2.fc then
    let c : ℝ := 1 - (1 : ℝ) / s.1
    let fc := f (xFromT c)
    let q : Probe := ⟨c, fc, s.2.2.evals + 1⟩
    if T.found fc then .inr (some q)
    else
      let p := 2 + 2 * s.2.1
      match iter (innerStep f T lim s.1) fuel (1 + p, p, q) with
      | none => .inr none
      | some q' => .inl (nextIntervals s.1, s.2.1 + 2, q')
  else .inr (some s.2.2)

/-- The bracket around `c` (src/maq.cpp:385-391, 464-470, 517-523). -/
def bracketOf (c : ℝ) : ℝ × ℝ := if c < 1 / 2 then (0, 2 * c) else (2 * c - 1, 1)

/-- `scattered_search` (src/maq.cpp:332-399). -/
def scatteredSearch (f : Dbl → Dbl) (lim fuel : ℕ) : Option SearchResult :=
  let fb := f (xFromT 1)
  let fc := f (xFromT (1 / 2))
  if fb ≤ .fin eps ∧ fc ≤ .fin eps then
    (iter (scatStep f epsTests lim fuel) fuel (4, 0, ⟨1 / 2, fc, 2⟩)).join.map fun q =>
      if q.fc ≤ .fin eps then .nothing q.evals
      else .bracket (bracketOf q.c).1 (bracketOf q.c).2 q.evals
  else some (.bracket 0 1 2)

/-- Local variables of the second phase of the directed search. -/
structure Refine where
  a : ℝ
  b : ℝ
  c : ℝ
  fc : Dbl
  evals : ℕ

/-- Second phase of the directed search (src/maq.cpp:473-510). -/
def refineStep (f : Dbl → Dbl) (lim : ℕ) (s : Refine) : Refine ⊕ Refine :=
  if s.fc ≤ .fin eps ∧ s.evals < lim ∧ eps < s.b - s.a then
    let d := (s.a + s.c) / 2
    let fd := f (xFromT d)
    if Dbl.fin eps < fd then .inr { s with c := d, fc := fd, evals := s.evals + 1 }
    else
      let s₁ : Refine :=
        if fd ≤ s.fc then { s with a := d, evals := s.evals + 1 }
        else { s with b := s.c, c := d, fc := fd, evals := s.evals + 1 }
      let e := (s₁.c + s₁.b) / 2
      let fe := f (xFromT e)
      if Dbl.fin eps < fe then .inr { s₁ with c := e, fc := fe, evals := s₁.evals + 1 }
      else if fe < s₁.fc then .inl { s₁ with b := e, evals := s₁.evals + 1 }
      else .inl { s₁ with a := s₁.c, c := e, fc := fe, evals := s₁.evals + 1 }
  else .inr s

/-- `directed_search` (src/maq.cpp:404-526).  The enclosing `while` of the first phase (line 418) is entered
once: when its body ends, its condition is false.  The final bracket is recomputed in every case. -/
def directedSearch (f : Dbl → Dbl) (lim fuel : ℕ) : Option SearchResult :=
  let fb := f (xFromT 1)
  let fc := f (xFromT (1 / 2))
  if fb ≤ .fin eps ∧ fc ≤ .fin eps then
    (iter (scatStep f zeroTests lim fuel) fuel (4, 0, ⟨1 / 2, fc, 2⟩)).join.bind fun q =>
      if feq q.fc 0 then some (.nothing q.evals)
      else
        (iter (refineStep f lim) fuel ⟨(bracketOf q.c).1, (bracketOf q.c).2, q.c, q.fc, q.evals⟩).map fun s =>
          .bracket (bracketOf s.c).1 (bracketOf s.c).2 s.evals
  else some (.bracket (bracketOf (1 / 2)).1 (bracketOf (1 / 2)).2 2)

/-- Choice of the search (src/maq.cpp:585-601). -/
def search (f : Dbl → Dbl) (m : Method) (lim fuel : ℕ) : Option SearchResult :=
  match m with
  | .binary => binarySubdivision f lim fuel
  | .reverse => reverseSubdivision f lim fuel
  | .lowFirst => lowFirstSubdivision f lim fuel
  | .scattered => scatteredSearch f lim fuel
  | .directed => directedSearch f lim fuel

/-! ### Integration -/

/-- `quad` (src/maq.cpp:531-535); the midpoint argument is unused there too. -/
def quad (a b : ℝ) (fa fb fc : Dbl) : Dbl := .fin ((b - a) / 6) * (fa + .fin 4 * fc + fb)

/-- Transformed integrand at an interior point or right end: `integrand(x_from_t(t))/(t*t)`
(src/maq.cpp:621, 643, 709-710). -/
def transformed (f : Dbl → Dbl) (t : ℝ) : Dbl := f (xFromT t) / .fin (t * t)

/-- Transformed integrand at the left end (src/maq.cpp:620): no division at `t = 0`. -/
def transformedLeft (f : Dbl → Dbl) (t : ℝ) : Dbl := f (xFromT t) / .fin (if t = 0 then 1 else t * t)

/-- `maq_todo` (src/maq.cpp:571-575). -/
structure Region where
  a : ℝ
  b : ℝ
  c : ℝ
  fa : Dbl
  fb : Dbl
  fc : Dbl
  r : Dbl

/-- `MAQ_RESULT` (src/maq.h:76-80). -/
structure Result where
  integral : Dbl
  successful : Bool
  evals : ℕ

/-- Which statistic the call is counted under (src/maq.cpp:610, 627/636/647/715/724, 753, 756). -/
inductive Outcome where
  | searchFail | nan | success | integrationFail
deriving DecidableEq

/-- What a call did: its outcome, its result, and (ghost) the number of times the integrand was evaluated. -/
structure Report where
  outcome : Outcome
  result : Result
  calls : ℕ

/-- Variables of the main loop; `calls` is a ghost variable counting evaluations of the integrand. -/
structure LoopState where
  stack : List Region
  integral : Dbl
  counter : ℕ
  calls : ℕ

/-- `unsigned int` increment. -/
def inc32 (n : ℕ) : ℕ := (n + 1) % 2 ^ 32

/-- One iteration of the main loop, and the code after it (src/maq.cpp:659-761). -/
def loopStep (f : Dbl → Dbl) (tol : Dbl) (maxeval : ℕ) (s : LoopState) : LoopState ⊕ Report :=
  match s.stack with
  | [] => .inr ⟨.success, ⟨s.integral, true, s.counter⟩, s.calls⟩
  | t :: rest =>
    let counter := inc32 s.counter
    if counter > maxeval then .inr ⟨.integrationFail, ⟨.nan, false, counter⟩, s.calls⟩
    else
      let d := (t.a + t.c) / 2
      let e := (t.b + t.c) / 2
      let fd := transformed f d
      let fe := transformed f e
      if isNaN fd then .inr ⟨.nan, ⟨.nan, false, counter⟩, s.calls + 2⟩
      else if isNaN fe then .inr ⟨.nan, ⟨.nan, false, counter⟩, s.calls + 2⟩
      else
        let r2 := quad t.a t.c t.fa t.fc fd
        let r3 := quad t.c t.b t.fc t.fb fe
        let q1 := t.r
        let q2 := r2 + r3
        let abserr := abs (q2 - q1)
        let left : Region := ⟨t.a, t.c, d, t.fa, t.fc, fd, r2⟩
        let right : Region := ⟨t.c, t.b, e, t.fc, t.fb, fe, r3⟩
        if abserr ≤ abs (tol * q2) ∨ abserr ≤ abs (tol * s.integral) then
          .inl ⟨rest, s.integral + q2 + (q2 - q1) / .fin 15, counter, s.calls + 2⟩
        else if abs r3 < abs r2 then
          .inl ⟨left :: right :: rest, s.integral, counter, s.calls + 2⟩
        else
          .inl ⟨right :: left :: rest, s.integral, counter, s.calls + 2⟩

/-- `MAQ` after the search (src/maq.cpp:608-761). -/
def integrate (f : Dbl → Dbl) (tol : Dbl) (maxeval : ℕ) (r : SearchResult) (fuel : ℕ) : Option Report :=
  match r with
  | .nothing n => some ⟨.searchFail, ⟨0, true, n⟩, n⟩
  | .bracket a b n =>
    let fa := transformedLeft f a
    let fb := transformed f b
    if isNaN fa then some ⟨.nan, ⟨.nan, false, n⟩, n + 2⟩
    else if isNaN fb then some ⟨.nan, ⟨.nan, false, n⟩, n + 2⟩
    else
      let c := (a + b) / 2
      let fc := transformed f c
      if isNaN fc then some ⟨.nan, ⟨.nan, false, n⟩, n + 3⟩
      else
        iter (loopStep f tol maxeval) fuel
          ⟨[⟨a, b, c, fa, fb, fc, quad a b fa fb fc⟩], 0, (n + 3) % 2 ^ 32, n + 3⟩

/-- `MAQ` (src/maq.cpp:548-762), without the statistics. -/
def maq (f : Dbl → Dbl) (cfg : Cfg) (fuel : ℕ) : Option Report :=
  (search f cfg.method cfg.bineval fuel).bind fun r => integrate f cfg.tol cfg.maxeval r fuel

end

end Slat.Maq
