import Verif.LogNormalModel

/-!
# Model of the fate probabilities of `IM` (src/relationships.h)
-/

namespace Slat

open Dbl

noncomputable section

/-- The members `collapse` and `demolition` of `IM` (src/relationships.h:37-38): `none` is a null pointer.
The hazard curve and the caches are modelled elsewhere. -/
structure Fates where
  collapse : Option LogNormalDist
  demolition : Option LogNormalDist

namespace Fates

/-- A newly constructed `IM` (src/relationships.h:37-38, both pointers `NULL`). -/
def init : Fates := ⟨none, none⟩

/-- `IM::SetCollapse` (src/relationships.h:74-86), data member only. -/
def setCollapse (f : Fates) (d : LogNormalDist) : Fates := { f with collapse := some d }

/-- `IM::SetDemolition` (src/relationships.h:106-118), data member only. -/
def setDemolition (f : Fates) (d : LogNormalDist) : Fates := { f with demolition := some d }

/-- `IM::pCollapse` (src/relationships.h:88-94). -/
def pCollapse (f : Fates) (im : Dbl) : Dbl :=
  match f.collapse with
  | some d => d.pAtMost im
  | none => 0

/-- `IM::pDemolition` (src/relationships.h:120-126). -/
def pDemolition (f : Fates) (im : Dbl) : Dbl :=
  match f.demolition with
  | some d => d.pAtMost im - f.pCollapse im
  | none => 0

/-- `IM::pRepair` (src/relationships.h:100-102). -/
def pRepair (f : Fates) (im : Dbl) : Dbl := 1 - (f.pDemolition im + f.pCollapse im)

end Fates

end

end Slat
