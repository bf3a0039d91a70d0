import Verif.SessionTextModel

/-!
# What printing a definition should tell

Texts in terms of the calls that a script makes: what a definition was made from, by the names used there.
-/

namespace Slat.Session.Spec

open Interp (Call)

/-- Kind and name of what a call defines (/repo/slat-lang.org, the commands of these names). -/
def defined : Call → Option (String × String)
  | .detfn id .. => some ("detfn", id)
  | .probfn id .. => some ("probfn", id)
  | .importProbfn id _ => some ("probfn", id)
  | .im id _ => some ("im", id)
  | .importIm id _ => some ("im", id)
  | .edp id .. => some ("edp", id)
  | .fragfnDb id .. => some ("fragfn", id)
  | .fragfnUser id .. => some ("fragfn", id)
  | .simpleLoss id .. => some ("lossfn", id)
  | .bilevelLoss id _ => some ("lossfn", id)
  | .compgroup id .. => some ("compgroup", id)
  | _ => none

/-- Is there a definition of a name? -/
def known (k id : String) (l : List Call) : Bool := l.any fun x => defined x = some (k, id)

/-- What is told about a definition, after the calls `l` (the texts of /repo/src/pyslat.py:421-425, 546-551, 685-689,
839-841, 917-918, 940-944, 1029-1030, 1066-1067, 1230-1239, in the words of the script): all that it was made from. -/
def sentence (P : Py) (l : List Call) : Call → String
  | .detfn id type v => "Deterministic Function '" ++ id ++ "', of type '" ++ type ++ "', from parameters " ++ P.text v ++ "."
  | .probfn id mu f sp g => "Probabilistic function '" ++ id ++ "' of type " ++ "lognormal" ++
      ", using the deterministic function " ++ f ++
      " for " ++ P.mu mu ++ ", and the deterministic function " ++ g ++ " for " ++ P.sp sp ++ "."
  | .importProbfn id _ => "Probabilistic function '" ++ id ++
      "' of type " ++ "lognormal" ++ ", using the deterministic function " ++ "None" ++ " for " ++ P.mu (some .median) ++
      ", and the deterministic function " ++ "None" ++ " for " ++ P.sp (some .sdLn) ++ "."
  | .im id fn => "Intensity measure '" ++ id ++ "', based on the deterministic function '" ++ fn ++ "'."
  | .importIm id _ => "Intensity measure '" ++ id ++ "', based on the deterministic function '" ++ "None" ++ "'."
  | .edp id i fn => "Engineering Demand Parameter '" ++ id ++ "' using the intensity measure '" ++ i ++
      "', and the probabilistic function " ++ fn ++ "."
  | .fragfnDb id key file => "Fragility Function '" ++ id ++ "', from database: " ++ P.text (.dbParams key file) ++ "."
  | .fragfnUser id mu sp v => "User-defined Fragility Function '" ++ id ++ "', built from " ++ P.text v ++
      " using options '" ++ P.text (.opts mu sp) ++ "'."
  | .simpleLoss id mu sp v => "Loss Function '" ++ id ++ "', from " ++ P.text v ++ " as " ++ P.text (.opts mu sp) ++ "."
  | .bilevelLoss id v => "Loss Function '" ++ id ++ "', from " ++ P.text v ++ " as " ++ P.text .none ++ "."
  | .compgroup id e f k d n x y => "Component Group '" ++ id ++ "' using " ++ e ++ ", " ++ f ++ ", " ++ k ++ ", and " ++
      (match d with
        | some s => if known "lossfn" s l then s else "None"
        | none => "None") ++
      " (" ++ P.text (.int n) ++ " component(s); adjustments: " ++ P.text (.flt x) ++ " and " ++ P.text (.flt y) ++ ")"
  | _ => ""

/-- The last definition of a name tells; `told P k id l s C` after the calls `l`, when `s` was told, and `C`. -/
def told (P : Py) (k id : String) : List Call → String → List Call → String
  | _, s, [] => s
  | l, s, x :: C => told P k id (l ++ [x]) (if defined x = some (k, id) then sentence P l x else s) C

end Slat.Session.Spec
