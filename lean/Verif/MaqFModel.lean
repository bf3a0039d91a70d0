import Verif.MaqModel

/-!
# The adaptive quadrature over an arbitrary arithmetic (src/maq.cpp:176-762)

`MaqModel` computes with exact numbers.  Here the same code is transcribed over any type of numbers with any operations, so that
rounding, overflow and underflow are covered: `Arith` says nothing about the operations except that `x > y` and `x <= y` are never
both true.  `rounded` is the instance of IEEE type: the exact operation followed by a rounding function.  The order of operations
and conversions is that of the source (`float(i)/intervals` is a division of single precision, `(float(i) + 1.0)/intervals` one of
double precision).
-/

namespace Slat.MaqF

open Slat.Maq (iter Method Outcome inc32 nextIntervals)

noncomputable section

/-- A machine arithmetic: operations of `double` and conversions as used in src/maq.cpp:176-762. -/
structure Arith (α : Type) where
  add : α → α → α
  sub : α → α → α
  mul : α → α → α
  div : α → α → α
  abs : α → α
  le : α → α → Prop
  lt : α → α → Prop
  /-- `x == 0` -/
  isZero : α → Prop
  isNaN : α → Prop
  /-- `INFINITY` (src/maq.cpp:176) -/
  infinity : α
  /-- numerical constants -/
  lit : ℚ → α
  /-- `float(i)`, converted to `double` (src/maq.cpp:211-212) -/
  single : ℕ → α
  /-- `float(i)/intervals`, a division of `float`s, converted to `double` (src/maq.cpp:205) -/
  ratio : ℕ → ℕ → α
  /-- `intervals` converted to `double` (src/maq.cpp:211-212) -/
  whole : ℕ → α
  lt_not_le : ∀ x y, lt x y → ¬ le y x

attribute [local instance] Classical.propDecidable

variable {α : Type} (A : Arith α)

/-- `numeric_limits<double>::epsilon()`. -/
def Arith.eps : α := A.lit (1 / 2 ^ 52)

/-- `v <= epsilon` (src/maq.cpp:199 and others). -/
def Arith.small (v : α) : Prop := A.le v A.eps

/-- `v > epsilon` (src/maq.cpp:209 and others). -/
def Arith.visible (v : α) : Prop := A.lt A.eps v

/-- `x_from_t` (src/maq.cpp:176). -/
def xFromT (t : α) : α := if A.isZero t then A.infinity else A.sub (A.div (A.lit 1) t) (A.lit 1)

/-- `search_result_t` (src/maq.cpp:182). -/
inductive SearchResult (α : Type) where
  | nothing (n : ℕ)
  | bracket (a b : α) (n : ℕ)

/-- Abscissae used for interval `i` of `n`: the point examined and the bracket around it. -/
structure Dir (α : Type) where
  c : ℕ → ℕ → α
  a : ℕ → ℕ → α
  b : ℕ → ℕ → α

/-- src/maq.cpp:205, 211-212. -/
def forward : Dir α where
  c i n := A.ratio i n
  a i n := A.div (A.sub (A.single i) (A.lit 1)) (A.whole n)
  b i n := A.div (A.add (A.single i) (A.lit 1)) (A.whole n)

/-- src/maq.cpp:247, 253-254 (and 290, 296-297, 307, 313-314). -/
def backward : Dir α where
  c i n := A.sub (A.lit 1) (A.ratio i n)
  a i n := A.sub (A.lit 1) (A.div (A.add (A.single i) (A.lit 1)) (A.whole n))
  b i n := A.sub (A.lit 1) (A.div (A.sub (A.single i) (A.lit 1)) (A.whole n))

/-- Local variables of the subdivision searches (src/maq.cpp:190-197). -/
structure Sub (α : Type) where
  a : α
  b : α
  fc : α
  evals : ℕ

/-- The inner `for` loop (src/maq.cpp:204-215, 246-257, 289-300, 306-317), as `Maq.scan`. -/
def scan (f : α → α) (dir : Dir α) (n : ℕ) : ℕ → ℕ → Sub α → Sub α
  | 0, _, s => s
  | rest + 1, i, s =>
    let fc := f (xFromT A (dir.c i n))
    if A.visible fc then ⟨dir.a i n, dir.b i n, fc, s.evals + 1⟩
    else scan f dir n rest (i + 2) { s with fc := fc, evals := s.evals + 1 }

/-- One iteration of the `while` loops (src/maq.cpp:203-217, 245-259, 288-302, 305-319), as `Maq.subStep`. -/
def subStep (f : α → α) (dir : Dir α) (lim : ℕ) (lo hi : ℕ → ℕ) (s : ℕ × Sub α) : (ℕ × Sub α) ⊕ Sub α :=
  if s.2.evals < lim ∧ A.small s.2.fc then
    .inl (2 * s.1, scan A f dir s.1 ((hi s.1 - lo s.1 + 1) / 2) (lo s.1) s.2)
  else .inr s.2

/-- End of the subdivision searches (src/maq.cpp:219-221, 261-263, 320-322). -/
def subResult (s : Sub α) : SearchResult α :=
  if A.small s.fc then .nothing s.evals else .bracket s.a s.b s.evals

/-- `(a + b)/2.0` of the initial range (src/maq.cpp:192, 336, 408). -/
def middle : α := A.div (A.add (A.lit 0) (A.lit 1)) (A.lit 2)

/-- `1.0 - (a + b)/2.0` of the initial range (src/maq.cpp:234, 277). -/
def middle' : α := A.sub (A.lit 1) (middle A)

/-- The guard common to the searches (src/maq.cpp:194-200, 236-242, 279-285, 338-344, 410-416). -/
def nothingVisible (f : α → α) (c : α) : Prop := A.small (f (xFromT A (A.lit 1))) ∧ A.small (f (xFromT A c))

/-- `binary_subdivision` (src/maq.cpp:188-225). -/
def binarySubdivision (f : α → α) (lim fuel : ℕ) : Option (SearchResult α) :=
  if nothingVisible A f (middle A) then
    (iter (subStep A f (forward A) lim (fun _ => 1) (fun n => n)) fuel
      (4, ⟨A.lit 0, A.lit 1, f (xFromT A (middle A)), 2⟩)).map (subResult A)
  else some (.bracket (A.lit 0) (A.lit 1) 2)

/-- `reverse_binary_subdivision` (src/maq.cpp:230-268). -/
def reverseSubdivision (f : α → α) (lim fuel : ℕ) : Option (SearchResult α) :=
  if nothingVisible A f (middle' A) then
    (iter (subStep A f (backward A) lim (fun _ => 1) (fun n => n)) fuel
      (4, ⟨A.lit 0, A.lit 1, f (xFromT A (middle' A)), 2⟩)).map (subResult A)
  else some (.bracket (A.lit 0) (A.lit 1) 2)

/-- `low_first_reverse_binary_subdivision` (src/maq.cpp:273-327). -/
def lowFirstSubdivision (f : α → α) (lim fuel : ℕ) : Option (SearchResult α) :=
  if nothingVisible A f (middle' A) then
    (iter (subStep A f (backward A) (lim / 2) (fun _ => 1) (fun n => n / 2)) fuel
      (4, ⟨A.lit 0, A.lit 1, f (xFromT A (middle' A)), 2⟩)).bind fun s =>
    (iter (subStep A f (backward A) lim (fun n => 1 + n / 2) (fun n => n)) fuel (4, s)).map (subResult A)
  else some (.bracket (A.lit 0) (A.lit 1) 2)

/-- Point, value and evaluation count (src/maq.cpp:332-399). -/
structure Probe (α : Type) where
  c : α
  fc : α
  evals : ℕ

/-- The tests by which the scattered search and the first phase of the directed search differ, as `Maq.Tests`. -/
structure Tests (α : Type) where
  cont : α → Prop
  found : α → Prop

/-- src/maq.cpp:350, 356, 367. -/
def epsTests : Tests α := ⟨A.small, A.visible⟩
/-- src/maq.cpp:423, 429, 440. -/
def zeroTests : Tests α := ⟨A.isZero, fun v => A.lt (A.lit 0) v⟩

/-- Inner `while` (src/maq.cpp:362-372, 435-445). -/
def innerStep (f : α → α) (T : Tests α) (lim n : ℕ) (s : ℕ × ℕ × Probe α) : (ℕ × ℕ × Probe α) ⊕ Probe α :=
  if s.1 < n ∧ s.2.2.evals < lim then
    let c := A.sub (A.lit 1) (A.ratio s.1 n)
    let fc := f (xFromT A c)
    let q : Probe α := ⟨c, fc, s.2.2.evals + 1⟩
    if T.found fc then .inr q
    else .inl (s.1 + s.2.1 * 2, s.2.1 * 2, q)
  else .inr s.2.2

/-- Outer `while` (src/maq.cpp:350-384, 423-457). -/
def scatStep (f : α → α) (T : Tests α) (lim fuel : ℕ) (s : ℕ × ℕ × Probe α) :
    (ℕ × ℕ × Probe α) ⊕ Option (Probe α) :=
  if s.2.2.evals < lim ∧ T.cont s.2.2.fc then
    let c := A.sub (A.lit 1) (A.ratio 1 s.1)
    let fc := f (xFromT A c)
    let q : Probe α := ⟨c, fc, s.2.2.evals + 1⟩
    if T.found fc then .inr (some q)
    else
      let p := 2 + 2 * s.2.1
      match iter (innerStep A f T lim s.1) fuel (1 + p, p, q) with
      | none => .inr none
      | some q' => .inl (nextIntervals s.1, s.2.1 + 2, q')
  else .inr (some s.2.2)

/-- The bracket around `c` (src/maq.cpp:385-391, 464-470, 517-523). -/
def bracketOf (c : α) : α × α :=
  if A.lt c (A.lit (1 / 2)) then (A.lit 0, A.mul (A.lit 2) c) else (A.sub (A.mul (A.lit 2) c) (A.lit 1), A.lit 1)

/-- `scattered_search` (src/maq.cpp:332-399). -/
def scatteredSearch (f : α → α) (lim fuel : ℕ) : Option (SearchResult α) :=
  if nothingVisible A f (middle A) then
    (iter (scatStep A f (epsTests A) lim fuel) fuel (4, 0, ⟨middle A, f (xFromT A (middle A)), 2⟩)).join.map fun q =>
      if A.small q.fc then .nothing q.evals
      else .bracket (bracketOf A q.c).1 (bracketOf A q.c).2 q.evals
  else some (.bracket (A.lit 0) (A.lit 1) 2)

/-- Local variables of the second phase of the directed search (src/maq.cpp:473-510). -/
structure Refine (α : Type) where
  a : α
  b : α
  c : α
  fc : α
  evals : ℕ

/-- Second phase of the directed search (src/maq.cpp:473-510). -/
def refineStep (f : α → α) (lim : ℕ) (s : Refine α) : Refine α ⊕ Refine α :=
  if A.small s.fc ∧ s.evals < lim ∧ A.visible (A.sub s.b s.a) then
    let d := A.div (A.add s.a s.c) (A.lit 2)
    let fd := f (xFromT A d)
    if A.visible fd then .inr { s with c := d, fc := fd, evals := s.evals + 1 }
    else
      let s₁ : Refine α :=
        if A.le fd s.fc then { s with a := d, evals := s.evals + 1 }
        else { s with b := s.c, c := d, fc := fd, evals := s.evals + 1 }
      let e := A.div (A.add s₁.c s₁.b) (A.lit 2)
      let fe := f (xFromT A e)
      if A.visible fe then .inr { s₁ with c := e, fc := fe, evals := s₁.evals + 1 }
      else if A.lt fe s₁.fc then .inl { s₁ with b := e, evals := s₁.evals + 1 }
      else .inl { s₁ with a := s₁.c, c := e, fc := fe, evals := s₁.evals + 1 }
  else .inr s

/-- `directed_search` (src/maq.cpp:404-526), as `Maq.directedSearch`. -/
def directedSearch (f : α → α) (lim fuel : ℕ) : Option (SearchResult α) :=
  if nothingVisible A f (middle A) then
    (iter (scatStep A f (zeroTests A) lim fuel) fuel (4, 0, ⟨middle A, f (xFromT A (middle A)), 2⟩)).join.bind fun q =>
      if A.isZero q.fc then some (.nothing q.evals)
      else
        (iter (refineStep A f lim) fuel ⟨(bracketOf A q.c).1, (bracketOf A q.c).2, q.c, q.fc, q.evals⟩).map fun s =>
          .bracket (bracketOf A s.c).1 (bracketOf A s.c).2 s.evals
  else some (.bracket (bracketOf A (middle A)).1 (bracketOf A (middle A)).2 2)

/-- Choice of the search (src/maq.cpp:585-601). -/
def search (f : α → α) (m : Method) (lim fuel : ℕ) : Option (SearchResult α) :=
  match m with
  | .binary => binarySubdivision A f lim fuel
  | .reverse => reverseSubdivision A f lim fuel
  | .lowFirst => lowFirstSubdivision A f lim fuel
  | .scattered => scatteredSearch A f lim fuel
  | .directed => directedSearch A f lim fuel

/-- `quad` (src/maq.cpp:531-535). -/
def quad (a b fa fb fc : α) : α :=
  A.mul (A.div (A.sub b a) (A.lit 6)) (A.add (A.add fa (A.mul (A.lit 4) fc)) fb)

/-- `integrand(x_from_t(t))/(t*t)` (src/maq.cpp:621, 643, 709-710). -/
def transformed (f : α → α) (t : α) : α := A.div (f (xFromT A t)) (A.mul t t)

/-- The same at the left end (src/maq.cpp:620). -/
def transformedLeft (f : α → α) (t : α) : α :=
  A.div (f (xFromT A t)) (if A.isZero t then A.lit 1 else A.mul t t)

/-- `maq_todo` (src/maq.cpp:571-575). -/
structure Region (α : Type) where
  a : α
  b : α
  c : α
  fa : α
  fb : α
  fc : α
  r : α

/-- What a call did, as `Maq.Report`: outcome, `MAQ_RESULT` (src/maq.h:76-80), and (ghost) number of evaluations of the integrand. -/
structure Report (α : Type) where
  outcome : Outcome
  integral : α
  successful : Bool
  evals : ℕ
  calls : ℕ

/-- Variables of the main loop (src/maq.cpp:565-579); `calls` is a ghost. -/
structure LoopState (α : Type) where
  stack : List (Region α)
  integral : α
  counter : ℕ
  calls : ℕ

/-- `NAN` as returned by `MAQ` for failures (src/maq.cpp:629 and others): any value will do. -/
def Arith.failed : α := A.sub A.infinity A.infinity

/-- One iteration of the main loop, and the code after it (src/maq.cpp:659-761). -/
def loopStep (f : α → α) (tol : α) (maxeval : ℕ) (s : LoopState α) : LoopState α ⊕ Report α :=
  match s.stack with
  | [] => .inr ⟨.success, s.integral, true, s.counter, s.calls⟩
  | t :: rest =>
    let counter := inc32 s.counter
    if counter > maxeval then .inr ⟨.integrationFail, A.failed, false, counter, s.calls⟩
    else
      let d := A.div (A.add t.a t.c) (A.lit 2)
      let e := A.div (A.add t.b t.c) (A.lit 2)
      let fd := transformed A f d
      let fe := transformed A f e
      if A.isNaN fd then .inr ⟨.nan, A.failed, false, counter, s.calls + 2⟩
      else if A.isNaN fe then .inr ⟨.nan, A.failed, false, counter, s.calls + 2⟩
      else
        let r2 := quad A t.a t.c t.fa t.fc fd
        let r3 := quad A t.c t.b t.fc t.fb fe
        let q1 := t.r
        let q2 := A.add r2 r3
        let abserr := A.abs (A.sub q2 q1)
        let left : Region α := ⟨t.a, t.c, d, t.fa, t.fc, fd, r2⟩
        let right : Region α := ⟨t.c, t.b, e, t.fc, t.fb, fe, r3⟩
        if A.le abserr (A.abs (A.mul tol q2)) ∨ A.le abserr (A.abs (A.mul tol s.integral)) then
          .inl ⟨rest, A.add (A.add s.integral q2) (A.div (A.sub q2 q1) (A.lit 15)), counter, s.calls + 2⟩
        else if A.lt (A.abs r3) (A.abs r2) then
          .inl ⟨left :: right :: rest, s.integral, counter, s.calls + 2⟩
        else
          .inl ⟨right :: left :: rest, s.integral, counter, s.calls + 2⟩

/-- `MAQ` after the search (src/maq.cpp:608-761). -/
def integrate (f : α → α) (tol : α) (maxeval : ℕ) (r : SearchResult α) (fuel : ℕ) : Option (Report α) :=
  match r with
  | .nothing n => some ⟨.searchFail, A.lit 0, true, n, n⟩
  | .bracket a b n =>
    if A.isNaN a then some ⟨.searchFail, A.lit 0, true, n, n⟩
    else
      let fa := transformedLeft A f a
      let fb := transformed A f b
      if A.isNaN fa then some ⟨.nan, A.failed, false, n, n + 2⟩
      else if A.isNaN fb then some ⟨.nan, A.failed, false, n, n + 2⟩
      else
        let c := A.div (A.add a b) (A.lit 2)
        let fc := transformed A f c
        if A.isNaN fc then some ⟨.nan, A.failed, false, n, n + 3⟩
        else
          iter (loopStep A f tol maxeval) fuel
            ⟨[⟨a, b, c, fa, fb, fc, quad A a b fa fb fc⟩], A.lit 0, (n + 3) % 2 ^ 32, n + 3⟩

/-- The settings read by `MAQ` (src/maq.cpp:561-563, 585). -/
structure Cfg (α : Type) where
  tol : α
  maxeval : ℕ
  bineval : ℕ
  method : Method

/-- `MAQ` (src/maq.cpp:548-762), without the statistics. -/
def maq (f : α → α) (cfg : Cfg α) (fuel : ℕ) : Option (Report α) :=
  (search A f cfg.method cfg.bineval fuel).bind fun r => integrate A f cfg.tol cfg.maxeval r fuel

/-! ### Rounded arithmetic -/

/-- A rounding to `double` and to `float`: monotone, exact on what it returns, on small whole numbers and on some constants.  Results
may be infinite (overflow) or zero (underflow).  The laws hold for the formats and all rounding directions of IEEE-754; they are
assumptions, not code. -/
structure Rounding where
  /-- the `double` for a real number -/
  rnd : ℝ → Dbl
  /-- the `float` for a real number, as a `double` -/
  rnd32 : ℝ → Dbl
  mono : ∀ x y, x ≤ y → rnd x ≤ rnd y
  mono32 : ∀ x y, x ≤ y → rnd32 x ≤ rnd32 y
  idem : ∀ x y, rnd x = .fin y → rnd y = .fin y
  narrow : ∀ x y, rnd32 x = .fin y → rnd y = .fin y
  nat : ∀ n : ℕ, n ≤ 2 ^ 53 → rnd n = .fin n
  nat32 : ∀ n : ℕ, n ≤ 2 ^ 24 → rnd32 n = .fin n
  pow32 : ∀ k : ℕ, k < 64 → rnd32 (2 ^ k) = .fin (2 ^ k)
  half : rnd (1 / 2) = .fin (1 / 2)
  minus : ∀ x, rnd x = .fin x → rnd (-x) = .fin (-x)
  twice : ∀ x, 0 ≤ x → x ≤ 1 → rnd x = .fin x → rnd (2 * x) = .fin (2 * x)

namespace Rounding

/-- Rounding of the result of an exact operation; special values stay. -/
def apply (g : ℝ → Dbl) : Dbl → Dbl
  | .fin x => g x
  | v => v

/-- The arithmetic with rounding: every operation is the exact one (`Dbl`) followed by rounding. -/
def arith (R : Rounding) : Arith Dbl where
  add x y := apply R.rnd (x + y)
  sub x y := apply R.rnd (x - y)
  mul x y := apply R.rnd (x * y)
  div x y := apply R.rnd (x / y)
  abs x := x.abs
  le x y := x ≤ y
  lt x y := x < y
  isZero x := Dbl.feq x 0
  isNaN x := Dbl.isNaN x
  infinity := .pinf
  lit q := R.rnd q
  single i := R.rnd32 i
  ratio i n := apply R.rnd32 (R.rnd32 i / R.rnd32 n)
  whole n := R.rnd n
  lt_not_le := by
    intro x y h1 h2
    cases x with
    | fin a =>
      cases y with
      | fin b => exact absurd ((Dbl.fin_le _ _).1 h2) (not_le.2 ((Dbl.fin_lt _ _).1 h1))
      | pinf => exact Dbl.not_pinf_le_fin _ h2
      | nan => exact Dbl.not_lt_nan _ h1
      | ninf => exact Dbl.not_lt_ninf _ h1
    | nan => exact Dbl.not_nan_lt _ h1
    | pinf => exact Dbl.not_pinf_lt _ h1
    | ninf =>
      cases y with
      | fin b => exact Dbl.not_fin_le_ninf _ h2
      | pinf => rcases h2 with h | h <;> exact h
      | nan => exact Dbl.not_lt_nan _ h1
      | ninf => exact Dbl.not_lt_ninf _ h1

end Rounding

end

end Slat.MaqF
