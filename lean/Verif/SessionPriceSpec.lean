import Verif.SessionStructSpec

/-!
# Specification: costs that are not given
-/

namespace Slat.Session.Spec

noncomputable section

open Interp (Mu Sd)

/-- Laws that can be meant so; nothing is said about which costs are given. -/
structure Lawful (c d r k : Option (Mu × Sd × ℝ × ℝ)) : Prop where
  collapse : ∀ q ∈ c, Meant q.1 q.2.1 q.2.2.1 q.2.2.2 ∧ 0 < q.2.2.2
  demolition : ∀ q ∈ d, Meant q.1 q.2.1 q.2.2.1 q.2.2.2 ∧ 0 < q.2.2.2
  rebuild : ∀ q ∈ r, Meant q.1 q.2.1 q.2.2.1 q.2.2.2
  clear : ∀ q ∈ k, Meant q.1 q.2.1 q.2.2.1 q.2.2.2

/-- At an intensity something can happen for which no cost is given. -/
def Unpriced (c d r k : Option (Mu × Sd × ℝ × ℝ)) (x : ℝ) : Prop :=
  (0 < pCollapse c x ∧ r = none) ∨ (0 < pDemolition c d x ∧ k = none)

/-- A cost weighted with a probability, as it is reported: not a number if the cost is not given. -/
def share (q : Option (Mu × Sd × ℝ × ℝ)) (w : ℝ) : Dbl :=
  match q with
  | none => .nan
  | some _ => .fin (w * (costOf q).1)

end

end Slat.Session.Spec
