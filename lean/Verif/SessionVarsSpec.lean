import Verif.SessionModel

/-!
# Writing out a script

The numbers of a script can be given by variables and by Python expressions (/repo/slat-lang.org: "set").  `Out.writtenOut` puts
the numbers themselves in their places and leaves out the `set` commands; it does not run the script.
-/

namespace Slat.Session.Out

open Interp (Val Num Sc Sc2 Param SetArg IntArg At Col Cmd RecBody Bilevel PrintWhat Err)

/-- The numbers and lists of numbers that variables are known to stand for. -/
abbrev Known := String → Option Val

/-- A number as it is written. -/
def digits : Val → Option Num
  | .int (.ofNat n) => some (.int n)
  | .flt x => some (.flt x)
  | _ => none

/-- A whole number as it is written. -/
def whole : Val → Option ℕ
  | .int (.ofNat n) => some n
  | _ => none

/-- A number in a list. -/
def decimal : Val → Option ℚ
  | .flt x => some x
  | _ => none

/-- Arguments of a recorder as they are written. -/
def points : Val → Option At
  | .list l => (l.mapM decimal).map .floats
  | .frange a b i => some (.range a i b)
  | .linrange a b n => some (.counted a b false n)
  | .logrange a b n => some (.counted a b true n)
  | _ => none

/-- The value of an expression, if it can be written with `f`. -/
def expression {α : Type} (ev : String → Except Err Val) (f : Val → Option α) (e : String) : Option α :=
  match ev e with
  | .ok v => f v
  | .error _ => none

variable (ev : String → Except Err Val) (ρ : Known)

/-- A number, written out.  An expression whose value cannot be written stays. -/
def number : Num → Option Num
  | .var x => (ρ x).bind digits
  | .py e => some ((expression ev digits e).getD (.py e))
  | n => some n

/-- A scalar, written out. -/
def scalar : Sc → Option Sc
  | .num n => (number ev ρ n).map .num
  | s => some s

/-- A pair, written out. -/
def pair (p : Sc2) : Option Sc2 := do
  return ⟨← scalar ev ρ p.fst, ← scalar ev ρ p.snd⟩

/-- The numbers of a two-level loss, written out. -/
def level (b : Bilevel) : Option Bilevel := do
  return ⟨← number ev ρ b.a, ← number ev ρ b.b, ← number ev ρ b.c, ← number ev ρ b.d, ← number ev ρ b.e⟩

/-- A whole number, written out. -/
def integer : IntArg → Option IntArg
  | .var x => ((ρ x).bind whole).map .int
  | .py e => some (((expression ev whole e).map .int).getD (.py e))
  | n => some n

/-- The arguments of a recorder, written out. -/
def at_ : At → Option At
  | .var x => (ρ x).bind points
  | .py e => some ((expression ev points e).getD (.py e))
  | a => some a

/-- A column, written out. -/
def column : Col → Option Col
  | .scalar s => (scalar ev ρ s).map .scalar
  | c => some c

/-- The columns, written out. -/
def columns : Option (List Col) → Option (Option (List Col))
  | none => some none
  | some l => (l.mapM (column ev ρ)).map some

/-- A recorder, written out. -/
def body : RecBody → Option RecBody
  | .fn t i a cs => do return .fn t i (← at_ ev ρ a) (← columns ev ρ cs)
  | .rates t i a => do return .rates t i (← at_ ev ρ a)
  | .pdf i a n => do return .pdf i (← at_ ev ρ a) n
  | .by_ t i a cs => do return .by_ t i (← at_ ev ρ a) (← columns ev ρ cs)
  | .annual i o cs => do return .annual i o (← columns ev ρ cs)
  | b => some b

/-- A command, written out.  A variable cannot be written out in a message, or as the name of a function. -/
def command : Cmd → Option Cmd
  | .detfnHyperbolic i p q => do return .detfnHyperbolic i (← pair ev ρ p) (← scalar ev ρ q)
  | .detfnPowerlaw i p => do return .detfnPowerlaw i (← pair ev ρ p)
  | .detfnLoglog i l => do return .detfnLoglog i (← l.mapM (pair ev ρ))
  | .detfnLinear i l => do return .detfnLinear i (← l.mapM (pair ev ρ))
  | .probfn _ (.var _) _ _ => none
  | .probfn _ _ (.var _) _ => none
  | .dist k i p o => do return .dist k i (← pair ev ρ p) o
  | .fragfnUser i l o => do return .fragfnUser i (← l.mapM (pair ev ρ)) o
  | .lossSimple i l o => do return .lossSimple i (← l.mapM (pair ev ρ)) o
  | .lossBilevel i l => do return .lossBilevel i (← l.mapM (level ev ρ))
  | .print (.messageVar _) _ => none
  | .integration a n none => do return .integration (← number ev ρ a) (← integer ev ρ n) none
  | .integration a n (some s) => do return .integration (← number ev ρ a) (← integer ev ρ n) (some (s.1, ← integer ev ρ s.2))
  | .recorder r b o => do return .recorder r (← body ev ρ b) o
  | .set _ _ => none
  | m => some m

/-- A number in a list that is assigned. -/
def item : Param → Option Val
  | .int n => some (.int n)
  | .flt x => some (.flt x)
  | _ => none

/-- What a variable stands for after `set`: known or not.  Nothing if the script stops there. -/
def assigned : SetArg → Option (Option Val)
  | .py e => match ev e with
    | .ok v => some (some v)
    | .error _ => none
  | .var x => some (ρ x)
  | .params (.one p) => some (item p)
  | .params (.arr l) => some ((l.mapM item).map .list)
  | .params (.dict _) => some none

/-- A script, written out. -/
def writtenOut : Known → List Cmd → Option (List Cmd)
  | _, [] => some []
  | ρ, .set x a :: l => do
    let v ← assigned ev ρ a
    writtenOut (fun y => if y = x then v else ρ y) l
  | ρ, m :: l => do
    let m' ← command ev ρ m
    let l' ← writtenOut ρ l
    return m' :: l'

end Slat.Session.Out
