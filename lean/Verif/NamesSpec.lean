import Verif.GraphSpec
import Verif.NamesModel

/-!
# Specification for names (C69)

A sheet of definitions without objects: a later definition of a name takes the place of an earlier one, and what a name
means is found by looking up the names in its definition, as they are defined now.
-/

namespace Slat.Names

open Slat.Graph

variable {V L X Y : Type}

/-- The definitions in force.  `redefined` and `thinned` remember for `Tidy` which names were defined again and from which
structures groups were removed. -/
structure Sheet (V L : Type) where
  defs : Kind → Name → Option (Form V)
  collapse : Name → Option L
  demolition : Name → Option L
  groups : Name → Option (List Name)
  redefined : Kind → Name → Bool
  thinned : Name → Bool

/-- The empty sheet. -/
def Sheet.init (V L : Type) : Sheet V L :=
  ⟨fun _ _ => none, fun _ => none, fun _ => none, fun _ => none, fun _ _ => false, fun _ => false⟩

/-- Write a command on the sheet. -/
def Sheet.enter (S : Sheet V L) : Cmd V L X → Sheet V L
  | .define id f =>
    { S with
      defs := fun k i => if k = f.kind ∧ i = id then some f else S.defs k i
      collapse := fun i => if f.kind = .im ∧ i = id then none else S.collapse i
      demolition := fun i => if f.kind = .im ∧ i = id then none else S.demolition i
      redefined := fun k i => S.redefined k i || (decide (k = f.kind ∧ i = id) && (S.defs k i).isSome) }
  | .collapse id d => { S with collapse := Function.update S.collapse id (some d) }
  | .demolition id d => { S with demolition := Function.update S.demolition id (some d) }
  | .struct id _ => { S with groups := Function.update S.groups id (some []) }
  | .add s g => { S with groups := Function.update S.groups s ((S.groups s).map (· ++ [g])) }
  | .remove s g =>
    { S with
      groups := Function.update S.groups s ((S.groups s).map (·.erase g))
      thinned := Function.update S.thinned s true }
  | _ => S

/-- The sheet after a script. -/
def sheet (cs : List (Cmd V L X)) : Sheet V L := cs.foldl Sheet.enter (Sheet.init V L)

/-- What a name means: its definition with the names in it looked up in turn. -/
def Sheet.meaning (S : Sheet V L) : ℕ → Kind → Name → Tree V L
  | 0, _, _ => .none
  | n + 1, k, id =>
    match S.defs k id with
    | none => .none
    | some f =>
      .node f.content (if k = .im then S.collapse id else none) (if k = .im then S.demolition id else none) [] fun s =>
        match f.args.lookup s with
        | none => .none
        | some a => S.meaning n s.target a

/-- The name of a group's intensity measure. -/
def Sheet.imOf (S : Sheet V L) (g : Name) : Option Name :=
  (S.defs .cg g).bind fun f => (f.args.lookup .edp).bind fun e =>
    (S.defs .edp e).bind fun f' => f'.args.lookup .base

/-- Commands for which names work (outside, see the `_fails` theorems): definitions use names that were not defined a second
time; functions and structures are not defined a second time; groups are not added to structures after some were removed. -/
def Tidy (S : Sheet V L) : Cmd V L X → Prop
  | .define id f => (∀ a ∈ f.args, S.redefined a.1.target a.2 = false) ∧
      (f.kind = .det ∨ f.kind = .prob → S.defs f.kind id = none)
  | .struct id _ => S.groups id = none
  | .add s g => S.redefined .cg g = false ∧ S.thinned s = false ∧
      (S.groups s = some [] → ∀ i, S.imOf g = some i → S.redefined .im i = false)
  | _ => True

/-- Every command is tidy. -/
def TidyAll : Sheet V L → List (Cmd V L X) → Prop
  | _, [] => True
  | S, c :: cs => Tidy S c ∧ TidyAll (S.enter c) cs

/-- Objects are destroyed only when neither a C++ object nor a dictionary refers to them. -/
def Collects (C : Calc V L X Y) : Py V L X Y → List (Cmd V L X) → Prop
  | _, [] => True
  | st, c :: cs => (∀ n, c = .collect n → Allowed st.world (.destroy n : Op V L X) ∧ ∀ k id, st.defs k id ≠ some n) ∧
      Collects C (exec C st c).1 cs

end Slat.Names
