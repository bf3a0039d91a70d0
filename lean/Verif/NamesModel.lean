import Verif.GraphModel

/-!
# Model of the names of pyslat (src/pyslat.py): definitions, redefinitions, structures

Every class of `pyslat.py` keeps a dictionary `defs` from names to its objects.  An object of `pyslat.py` wraps one
C++ object for its whole life (`_func`, `_structure`), so it is identified with the address of that object; the C++
objects are those of `GraphModel.lean`.

Simplified: arguments of constructors are given by name, as in scripts; an object made without a name counts as one with
a name of its own.  `MakeCompGroup` makes such an object when no delay function is given (/repo/src/pyslat.py:231-233).
`CompoundEDP` (not available in scripts), `fragfn_db` (which wraps no object) and recorders are left out.
-/

namespace Slat.Names

open Slat.Graph

/-- Names of objects. -/
abbrev Name := String

variable {V L X Y : Type}

/-- What is written in a definition: `detfn` (/repo/src/pyslat.py:377-399), `probfn` (469-483), `im` (583-594), `edp`
with one demand function (717-733), `fragfn_user` (931-937), `simplelossfn` and `bilevellossfn` (1013-1024, 1046-1062),
`compgroup` (1107-1128).  `v` stands for the parameters that are not objects. -/
inductive Form (V : Type)
  | det (v : V)
  | prob (v : V) (mu sigma : Name)
  | im (v : V) (f : Name)
  | edp (v : V) (im fn : Name)
  | frag (v : V)
  | loss (v : V)
  | group (v : V) (edp frag cost delay : Name)

/-- The class defined. -/
def Form.kind : Form V → Kind
  | .det _ => .det | .prob _ _ _ => .prob | .im _ _ => .im | .edp _ _ _ => .edp | .frag _ => .frag
  | .loss _ => .loss | .group _ _ _ _ _ => .cg

/-- The parameters that are not objects. -/
def Form.content : Form V → V
  | .det v => v | .prob v _ _ => v | .im v _ => v | .edp v _ _ => v | .frag v => v
  | .loss v => v | .group v _ _ _ _ => v

/-- The members given by name, in the order in which the constructors register (`Slat.Graph.CtorDeps`). -/
def Form.args : Form V → List (Slot × Name)
  | .det _ => []
  | .prob _ m s => [(.mu, m), (.sigma, s)]
  | .im _ f => [(.f, f)]
  | .edp _ i p => [(.base, i), (.first, p)]
  | .frag _ => []
  | .loss _ => []
  | .group _ e f c d => [(.edp, e), (.frag, f), (.cost, c), (.delay, d)]

/-- State of `pyslat.py`.  `defs`: the dictionaries (/repo/src/pyslat.py:350, 432, 559, 696, 848, 953, 1074, 1246).
`attrs`: the attributes of an object that hold other objects of `pyslat.py` (`_im`, `_edp`, ...), set by its constructor
only.  `strIm`: attribute `_im` of structures (1267). -/
structure Py (V L X Y : Type) where
  world : World V L X Y
  defs : Kind → Name → Option ℕ
  attrs : ℕ → Slot → Option ℕ
  strIm : ℕ → Option ℕ

/-- Nothing is defined. -/
def Py.init (V L X Y : Type) : Py V L X Y := ⟨Graph.init V L X Y, fun _ _ => none, fun _ _ => none, fun _ => none⟩

/-- How a command ends if it does not return. -/
inductive Err
  /-- A method is called on `None`, the result of an unsuccessful `lookup` (`AttributeError`). -/
  | unknownName
  /-- `AddCompGroup` (/repo/src/pyslat.py:1303-1306): the operands of the error message cannot be combined
  (`TypeError`). -/
  | typeError
  /-- A C++ exception in a function called from Python (pyslatcore.i has no `%exception`): the program is ended. -/
  | abort
deriving DecidableEq

/-- Commands, as methods of `pyslat.py`.  `define`: the constructors listed at `Form`; `collapse`, `demolition`:
`im.SetCollapse`, `im.SetDemolition`; `struct`: the constructor of `structure`; `add`, `remove`:
`structure.AddCompGroup`, `RemoveCompGroup`; `rebuild`, `demoCost`: `setRebuildCost`, `setDemolitionCost`; `ask`: a query that
evaluates cached quantities of an object; `collect`: a C++ object to which nothing refers is destroyed (the garbage collector
and reference counts decide when). -/
inductive Cmd (V L X : Type)
  | define (id : Name) (f : Form V)
  | collapse (im : Name) (d : L)
  | demolition (im : Name) (d : L)
  | struct (id : Name) (v : V)
  | add (s g : Name)
  | remove (s g : Name)
  | rebuild (s : Name) (d : L)
  | demoCost (s : Name) (d : L)
  | ask (n : ℕ) (sel : CacheId → X → Bool)
  | collect (n : ℕ)

/-- `lookup` of all arguments and `function()` of the results (for instance /repo/src/SlatInterpreter.py:208, 214, 244,
336-343). -/
def resolve (st : Py V L X Y) : List (Slot × Name) → Option (List (Slot × ℕ))
  | [] => some []
  | (s, a) :: rest =>
    match st.defs s.target a, resolve st rest with
    | some n, some ns => some ((s, n) :: ns)
    | _, _ => none

/-- Classes whose constructor replaces the object that had the name before: `im` (/repo/src/pyslat.py:590-594), `edp`
(729-733), `fragfn` (868-874), `lossfn` (982-988), `compgroup` (1124-1128); not `detfn` (398-399), `probfn` (479-480),
`structure` (1268-1269). -/
def replaces : Kind → Bool
  | .im | .edp | .frag | .loss | .cg => true
  | .det | .prob | .str => false

/-- Entry in a dictionary. -/
def setDef (d : Kind → Name → Option ℕ) (k : Kind) (id : Name) (n : ℕ) : Kind → Name → Option ℕ :=
  fun k' id' => if k' = k ∧ id' = id then some n else d k' id'

/-- The constructors of `pyslat.py` (places listed at `Form`): make the C++ object, replace the one that had the name,
enter the new one into the dictionary. -/
def define (C : Calc V L X Y) (st : Py V L X Y) (id : Name) (f : Form V) : Py V L X Y × Option Err :=
  match resolve st f.args with
  | none => (st, some .unknownName)
  | some deps =>
    let n := st.world.next
    let w₁ := step C st.world (.new f.kind f.content deps)
    let w₂ := match st.defs f.kind id with
      | some old => if replaces f.kind then step C w₁ (.replace old n) else w₁
      | none => w₁
    ({ st with
        world := w₂
        defs := setDef st.defs f.kind id n
        attrs := Function.update st.attrs n fun s => deps.lookup s }, none)

/-- `structure.__init__` (/repo/src/pyslat.py:1264-1269). -/
def struct (C : Calc V L X Y) (st : Py V L X Y) (id : Name) (v : V) : Py V L X Y × Option Err :=
  ({ st with
      world := step C st.world (.new .str v [])
      defs := setDef st.defs .str id st.world.next
      strIm := Function.update st.strIm st.world.next none }, none)

/-- `compgroup.get_IM` (/repo/src/pyslat.py:1142-1143) with `edp.get_IM` (761-762). -/
def pyIM (st : Py V L X Y) (g : ℕ) : Option ℕ := (st.attrs g .edp).bind fun e => st.attrs e .base

/-- Whether `Structure::AddCompGroup` throws (/repo/src/structure.cpp:55-57): it has components, and another IM. -/
def refused (w : World V L X Y) (n g : ℕ) : Bool :=
  match w.heap n with
  | none => true
  | some o => match getIM (abs w.heap) g with
    | none => true
    | some i => o.entries ≠ [] ∧ o.slots .sim ≠ some i

/-- `structure.AddCompGroup` (/repo/src/pyslat.py:1298-1306): the C++ structure takes the group first, then the IMs are
compared. -/
def add (C : Calc V L X Y) (st : Py V L X Y) (s g : Name) : Py V L X Y × Option Err :=
  match st.defs .str s, st.defs .cg g with
  | some n, some m =>
    let st₁ := { st with world := step C st.world (.addComp n m) }
    if refused st.world n m then (st₁, some .abort)
    else match st.strIm n with
      | none => ({ st₁ with strIm := Function.update st.strIm n (pyIM st m) }, none)
      | some i => if pyIM st m = some i then (st₁, none) else (st₁, some .typeError)
  | _, _ => (st, some .unknownName)

/-- A method of a named object that does one operation of the object graph. -/
def onNamed (C : Calc V L X Y) (st : Py V L X Y) (k : Kind) (id : Name) (op : ℕ → Op V L X) : Py V L X Y × Option Err :=
  match st.defs k id with
  | none => (st, some .unknownName)
  | some n => ({ st with world := step C st.world (op n) }, none)

/-- `structure.RemoveCompGroup` (/repo/src/pyslat.py:1311-1312). -/
def remove (C : Calc V L X Y) (st : Py V L X Y) (s g : Name) : Py V L X Y × Option Err :=
  match st.defs .cg g with
  | none => (st, some .unknownName)
  | some m => onNamed C st .str s fun n => .removeComp n m

/-- One command: `im.SetCollapse` (/repo/src/pyslat.py:651-653), `im.SetDemolition` (673-675), `structure.setRebuildCost`
(1317-1318), `setDemolitionCost` (1327-1328), and those above. -/
def exec (C : Calc V L X Y) (st : Py V L X Y) : Cmd V L X → Py V L X Y × Option Err
  | .define id f => define C st id f
  | .collapse id d => onNamed C st .im id fun n => .setCollapse n (some d)
  | .demolition id d => onNamed C st .im id fun n => .setDemolition n (some d)
  | .struct id v => struct C st id v
  | .add s g => add C st s g
  | .remove s g => remove C st s g
  | .rebuild s d => onNamed C st .str s fun n => .setRebuild n (some d)
  | .demoCost s d => onNamed C st .str s fun n => .setDemoCost n (some d)
  | .ask n sel => ({ st with world := step C st.world (.query n sel) }, none)
  | .collect n => ({ st with world := step C st.world (.destroy n) }, none)

/-- A script: the first error ends it. -/
def script (C : Calc V L X Y) : Py V L X Y → List (Cmd V L X) → Py V L X Y × Option Err
  | st, [] => (st, none)
  | st, c :: cs =>
    match exec C st c with
    | (st', none) => script C st' cs
    | (st', some e) => (st', some e)

end Slat.Names
