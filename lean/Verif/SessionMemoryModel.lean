import Verif.SessionPlain

/-!
# Sessions of a program that remembers results

`SessionPlain` computes rates and annual costs when they are asked for.  The program remembers some of them: the rates of
collapse and demolition of an intensity measure (/repo/src/relationships.h:104, 128), the rates of exceedance of a demand (152), and
the annual cost of a structure (/repo/src/structure.h:40).  This module adds what is remembered, when it is asked for
(an analysis) and when it is forgotten (changes of fates and of groups).

Simplified: the memories of component groups are left out, since nothing in a session of `SessionPlain` changes a group or what
it depends on; threads and concurrent calls are the subject of `CacheFnModel` and `CacheValModel`, the callbacks that
forget are that of `GraphModel`.
-/

namespace Slat.Session

noncomputable section

open Interp (Val Call Cmd Cfg Err)
open Output (Path Files)

/-- What is remembered of the object with a number: `IM::CollapseRate`, `IM::DemolitionRate`
(/repo/src/relationships.h:104, 128), `EDP::lambda` at an argument (152), `Structure::AnnualCost`
(/repo/src/structure.h:40). -/
structure Memory where
  collapseRate : ℕ → Option Dbl := fun _ => none
  demolitionRate : ℕ → Option Dbl := fun _ => none
  lambda : ℕ → Dbl → Option Dbl := fun _ _ => none
  annual : ℕ → Option LogNormalDist := fun _ => none

/-- An object as a recorder sees it: what is remembered counts (/repo/src/caching.h:144-282, 415-489).  `E_cost`
takes the mean of `AnnualCost()` (/repo/src/structure.cpp:150-153). -/
def Memory.recalled (m : Memory) (n : ℕ) : Rec.Obj → Rec.Obj
  | .im i => .im { i with
      collapseRate := (m.collapseRate n).getD i.collapseRate
      demolitionRate := (m.demolitionRate n).getD i.demolitionRate }
  | .edp e => .edp { e with lambda := fun x => (m.lambda n x).getD (e.lambda x) }
  | .struct s => .struct { s with
      annualCost := (m.annual n).getD s.annualCost
      eCost := fun y r => discounted ((m.annual n).getD s.annualCost).getMean y r }
  | o => o

/-- An intensity measure tells its clients that it has changed (/repo/src/relationships.h:74-118): demands forget their
rates (/repo/src/relationships.cpp:246-250) and tell their groups, structures forget their annual cost
(/repo/src/structure.cpp:46-50; they are told through their first group's intensity measure, 44-45). -/
def Memory.told (m : Memory) (w : World) (n : ℕ) : Memory where
  collapseRate := m.collapseRate
  demolitionRate := m.demolitionRate
  lambda k x := match w.things[k]? with
    | some (.edp _ n' ..) => if n' = n then none else m.lambda k x
    | _ => m.lambda k x
  annual k := match w.things[k]? with
    | some (.building b) => match b.groups.head? with
      | some g => if w.find "im" g.imId = some n then none else m.annual k
      | none => m.annual k
    | _ => m.annual k

/-- What is forgotten at a call that succeeds: `SetCollapse` forgets the rate of collapse (/repo/src/relationships.h:74-86),
`SetDemolition` that of demolition (106-118), both tell the clients; `AddCompGroup` forgets the annual cost
(/repo/src/structure.cpp:69); `setRebuildCost` and `setDemolitionCost` forget nothing
(/repo/src/structure.h:42-46). -/
def Memory.after (m : Memory) (w : World) : Call → Memory
  | .dist .collapse id .. => match w.find "im" id with
    | some n => { m.told w n with collapseRate := Function.update m.collapseRate n none }
    | none => m
  | .dist .demolition id .. => match w.find "im" id with
    | some n => { m.told w n with demolitionRate := Function.update m.demolitionRate n none }
    | none => m
  | .addCompGroup id _ => match w.find "structure" id with
    | some n => { m with annual := Function.update m.annual n none }
    | none => m
  | _ => m

/-- The library of `SessionPlain` with its memory. -/
def remembering (N : Numerics) (describe : World → Interp.Printed → String) : Lib (World × Memory) where
  call p x := match p.1.call x with
    | .ok w => .ok (w, p.2.after p.1 x)
    | .error e => .error e
  find p := p.1.find
  obj p n := p.2.recalled n ((plain N describe).obj p.1 n)
  describe p := describe p.1

/-- What is remembered after a recorder was run: those of type `collrate` ask for both rates
(/repo/src/pyslat.py:1710-1711), `edprate` for the rate at each argument (1556), `structcost --annual` for the annual
cost (1748), `structcost --npv` for it in each year (1904). -/
def Memory.asked (m : Memory) (N : Numerics) (describe : World → Interp.Printed → String) (w : World) (h : Held) :
    Memory :=
  match h.target with
  | none => m
  | some n => match m.recalled n ((plain N describe).obj w n), h.parts.kind, h.parts.opts.structType with
    | .im i, .collrate, _ => { m with
        collapseRate := Function.update m.collapseRate n (some i.collapseRate)
        demolitionRate := Function.update m.demolitionRate n (some i.demolitionRate) }
    | .edp e, .edprate, _ => { m with
        lambda := fun k x => open Classical in
          if k = n ∧ x ∈ h.parts.at_.map Rec.Num.toDbl then some (e.lambda x) else m.lambda k x }
    | .struct s, .structcost, some .annual => { m with annual := Function.update m.annual n (some s.annualCost) }
    | .struct s, .structcost, some .npv =>
      if h.parts.at_ = [] then m else { m with annual := Function.update m.annual n (some s.annualCost) }
    | _, _, _ => m

/-- One call.  Simplified: an analysis that raises has asked every recorder; the session ends there. -/
def execR (N : Numerics) (describe : World → Interp.Printed → String) (M : Machine) (σ : State (World × Memory)) :
    Call → State (World × Memory) × Option Stop
  | .analyze =>
    let r := analyze (remembering N describe) M σ
    ({ r.1 with lib := (σ.lib.1, σ.recs.foldl (fun m e => m.asked N describe σ.lib.1 e.2) σ.lib.2) }, r.2)
  | x => exec (remembering N describe) M σ x

/-- The calls of one handler, see `execAll` (/repo/src/SlatInterpreter.py:381-396). -/
def execAllR (N : Numerics) (describe : World → Interp.Printed → String) (M : Machine) :
    List Call → State (World × Memory) → State (World × Memory) × Option Stop
  | [], σ => (σ, none)
  | x :: k, σ => match execR N describe M σ x with
    | (σ', none) => execAllR N describe M k σ'
    | (σ', some e) => (σ', some e)

/-- The commands of a script, see `run` (/repo/src/SlatInterpreter.py:742-745). -/
def runR (N : Numerics) (describe : World → Interp.Printed → String) (M : Machine) (c : Cfg) :
    List Cmd → Interp.St → State (World × Memory) → State (World × Memory) × Option Stop
  | [], _, σ => (σ, none)
  | m :: l, s, σ => match Interp.walkCommand c m { s with calls := [] } with
    | .error _ => (σ, some .raised)
    | .ok s' => match execAllR N describe M s'.calls σ with
      | (σ', none) => runR N describe M c l s' σ'
      | (σ', some e) => (σ', some e)

/-- `main` on the text of a script, see `session` (/repo/src/SlatInterpreter.py:735-745). -/
def sessionR (N : Numerics) (describe : World → Interp.Printed → String) (M : Machine) (ev : String → Except Err Val)
    (σ : State (World × Memory)) (text : List Char) : State (World × Memory) × Option Stop :=
  match Gram.parse (Lex.tokens (Lex.lex text)) with
  | none => (σ, some .refused)
  | some l => runR N describe M ⟨ev, Gram.preprocessString⟩ l {} σ

end

end Slat.Session
