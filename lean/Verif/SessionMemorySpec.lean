import Verif.SessionModel

/-!
# Scripts in which nothing remembered goes stale

In terms of the commands: what an analysis has asked for, and the commands after which it would have to be asked again but is
not.
-/

namespace Slat.Session.Spec

open Interp (Cmd RecBody)

/-- A recorder of this kind was there at some analysis. -/
def Asked (b : RecBody) (l : List Cmd) : Prop :=
  ∃ A B i po, l = A ++ .analyze :: B ∧ Cmd.recorder i b po ∈ A

/-- Reports of the annual cost of a structure. -/
def Yearwise (id : String) : RecBody → Prop
  | .annual i .. => i = id
  | .npv i .. => i = id
  | _ => False

/-- After an analysis that reports its annual cost, a structure does not get another cost of rebuilding or
demolition; after one that reports its rates, an intensity measure does not get another probability of collapse. -/
def Settled (l : List Cmd) : Prop :=
  ∀ A B k id p o, l = A ++ .dist k id p o :: B → match k with
    | .collapse => ¬ Asked (.collrate id) A
    | .demolition => True
    | _ => ∀ b, Yearwise id b → ¬ Asked b A

end Slat.Session.Spec
