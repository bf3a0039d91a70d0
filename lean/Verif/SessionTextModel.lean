import Verif.SessionModel

/-!
# The texts of definitions

`print` writes `"{}".format(object)` (`/repo/src/SlatInterpreter.py:435`), for the objects of `pyslat` their `__str__`.  What these
texts are made of, the attributes of the objects, is kept here next to any library.  How Python writes numbers, lists and
dictionaries is a parameter (`Py`), as is the text of an object made by SWIG.
-/

namespace Slat.Session

open Interp (Val Call Mu Sd)

/-- `"{}".format(v)` of values, of the constants of `LOGNORMAL_MU_TYPE` and `LOGNORMAL_SIGMA_TYPE`
(/repo/src/pyslat.py:112-128) and of a `pyslatcore.LogNormalDist`.  External; the last one shows an address in
reality. -/
structure Py where
  text : Val → String
  mu : Option Mu → String
  sp : Option Sd → String
  dist : String

/-- Attributes of the objects of `pyslat` which `__str__` reads: `detfn` (/repo/src/pyslat.py:389-391), `probfn`
(471-474; of the functions their names), `im` (584-587; of the function its name; whether `_collapse` is set, 652),
`edp` (718-720, names), `fragfn_db` (869, 914), `fragfn_user` (932-933), `simplelossfn` (1014-1015) and `bilevellossfn`
(1047-1048), `compgroup` (1108-1115, names). -/
inductive Attrs
  | detfn (id type : String) (parameters : Val)
  | probfn (id type : String) (mu : Option Mu) (mufn : String) (sp : Option Sd) (spfn : String)
  | im (id fn : String) (collapse : Bool)
  | edp (id im fn : String)
  | fragDb (id : String) (params : Val)
  | fragUser (id : String) (scalars options : Val)
  | loss (id : String) (data options : Val)
  | group (id edp frag : String) (cost delay : Option String) (count : ℕ) (costAdj delayAdj : ℚ)

/-- `id()` (/repo/src/pyslat.py:407-408, 492-493, 614-615, 747-748, 889-890, 997-998, 1225-1226). -/
def Attrs.ident : Attrs → String
  | .detfn i .. => i | .probfn i .. => i | .im i .. => i | .edp i .. => i | .fragDb i _ => i | .fragUser i .. => i
  | .loss i .. => i | .group i .. => i

/-- A name, or `None`, in `"{}".format(x and x.id())` (/repo/src/pyslat.py:1235-1236). -/
def orNone (s : Option String) : String := s.getD "None"

/-- `detfn.__str__` (/repo/src/pyslat.py:421-425): `format` belongs to the second string only, whose only field takes
the first argument. -/
def detfnText (id : String) : String :=
  "Deterministic Function '{}', of type '{}', " ++ ("from parameters " ++ id ++ ".")

/-- `__str__` (/repo/src/pyslat.py:421-425, 546-551, 685-689, 839-841, 917-918, 940-944, 1029-1030, 1066-1067,
1230-1239). -/
def Attrs.text (P : Py) : Attrs → String
  | .detfn id _ _ => detfnText id
  | .probfn id type mu f sp g => "Probabilistic function '" ++ id ++ "' of type " ++ type ++
      ", using the deterministic function " ++ f ++ " for " ++ P.mu mu ++ ", and the deterministic function " ++ g ++
      " for " ++ P.sp sp ++ "."
  | .im id fn true => "Intensity measure '" ++ id ++ "', based on the deterministic function '" ++ detfnText fn ++
      "', with " ++ P.dist
  | .im id fn false => "Intensity measure '" ++ id ++ "', based on the deterministic function '" ++ fn ++ "'."
  | .edp id i fn => "Engineering Demand Parameter '" ++ id ++ "' using the intensity measure '" ++ i ++
      "', and the probabilistic function " ++ fn ++ "."
  | .fragDb id v => "Fragility Function '" ++ id ++ "', from database: " ++ P.text v ++ "."
  | .fragUser id v o => "User-defined Fragility Function '" ++ id ++ "', built from " ++ P.text v ++ " using options '" ++
      P.text o ++ "'."
  | .loss id v o => "Loss Function '" ++ id ++ "', from " ++ P.text v ++ " as " ++ P.text o ++ "."
  | .group id e f k d n x y => "Component Group '" ++ id ++ "' using " ++ e ++ ", " ++ f ++ ", " ++ orNone k ++ ", and " ++
      orNone d ++ " (" ++ P.text (.int n) ++ " component(s); adjustments: " ++ P.text (.flt x) ++ " and " ++ P.text (.flt y) ++ ")"

/-- The dictionaries `defs` (/repo/src/pyslat.py:350, 432, 559, 696, 848, 953, 1074): registry and name. -/
abbrev Tags := String → String → Option Attrs

/-- `defs[id] = self` (/repo/src/pyslat.py:399, 480, 594, 733, 874, 988, 1128). -/
def Tags.set (t : Tags) (k id : String) (a : Attrs) : Tags :=
  fun k' id' => if k' = k ∧ id' = id then some a else t k' id'

/-- The constructors, and `SetCollapse` (/repo/src/pyslat.py:377-399, 469-480, 583-594, 651-653, 717-733, 913-915,
931-938, 1013-1024, 1046-1062, 1107-1128, 1960-2007), called by `/repo/src/SlatInterpreter.py:79-102, 199-256,
299-368, 690-705`.  `None` has no methods: the name of a function, intensity measure, demand or fragility function that
is not defined raises; a cost function that is not defined is refused by SWIG (/repo/src/pyslatcore.cpp:718); the functions
of imported ones have no name. -/
def Tags.call (t : Tags) : Call → Option Tags
  | .detfn id type v => some (t.set "detfn" id (.detfn id type v))
  | .probfn id mu f sp g => match t "detfn" f, t "detfn" g with
    | some a, some b => some (t.set "probfn" id (.probfn id "lognormal" mu a.ident sp b.ident))
    | _, _ => none
  | .importProbfn id _ => some (t.set "probfn" id (.probfn id "lognormal" (some .median) "None" (some .sdLn) "None"))
  | .im id fn => match t "detfn" fn with
    | some a => some (t.set "im" id (.im id a.ident false))
    | none => none
  | .importIm id _ => some (t.set "im" id (.im id "None" false))
  | .dist .collapse id _ _ _ _ => match t "im" id with
    | some (.im i fn _) => some (t.set "im" id (.im i fn true))
    | _ => none
  | .edp id i fn => match t "im" i, t "probfn" fn with
    | some a, some b => some (t.set "edp" id (.edp id a.ident b.ident))
    | _, _ => none
  | .fragfnDb id key file => some (t.set "fragfn" id (.fragDb id (.dbParams key file)))
  | .fragfnUser id mu sp v => some (t.set "fragfn" id (.fragUser id v (.opts mu sp)))
  | .simpleLoss id mu sp v => some (t.set "lossfn" id (.loss id v (.opts mu sp)))
  | .bilevelLoss id v => some (t.set "lossfn" id (.loss id v .none))
  | .compgroup id e f k d n x y => match t "edp" e, t "fragfn" f, t "lossfn" k with
    | some a, some b, some c => some (t.set "compgroup" id
        (.group id a.ident b.ident (some c.ident) (d.bind fun s => (t "lossfn" s).map Attrs.ident) n x y))
    | _, _, _ => none
  | _ => some t

variable {W : Type}

/-- A library with the texts of its objects: `None` is printed for a name that is not defined
(/repo/src/SlatInterpreter.py:399-446). -/
def scribe (P : Py) (L : Lib W) : Lib (W × Tags) where
  call w c := match L.call w.1 c, w.2.call c with
    | .ok v, some t => .ok (v, t)
    | .ok _, none => .error .raised
    | .error e, _ => .error e
  find w := L.find w.1
  obj w := L.obj w.1
  describe w
    | .value (.str s) => s
    | .value v => P.text v
    | .titles ts => String.join (ts.map fun t => "\n" ++ t)
    | .definition k id => match w.2 k id with
      | some a => a.text P
      | none => "None"
    | .unknown => "unknown"

end Slat.Session
