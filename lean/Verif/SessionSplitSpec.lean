import Verif.SessionStructSpec

/-!
# Specification: the costs of a structure by demand and by fragility function
-/

namespace Slat.Session.Spec

noncomputable section

/-- What the costs are split by. -/
inductive Split
  | demand | fragility

/-- Its word in the language (/repo/slat-lang.org, "Structure Cost"). -/
def Split.word : Split → Interp.ByType
  | .demand => .edp
  | .fragility => .frag

/-- The part that a group belongs to. -/
def Split.of (t : Split) (G : Components) : String :=
  match t with
  | .demand => G.demand
  | .fragility => G.fragility

/-- The parts in alphabetical order. -/
def Parts (t : Split) (Gs : List Components) (cats : List String) : Prop :=
  cats.Pairwise (· < ·) ∧ ∀ n, n ∈ cats ↔ ∃ G ∈ Gs, t.of G = n

/-- The costs of the groups of a part. -/
def part (t : Split) (Gs : List Components) (l : List (ℝ × ℝ)) (n : String) : List (ℝ × ℝ) :=
  ((Gs.zip l).filter fun e => t.of e.1 = n).map (·.2)

/-- The columns of a report on costs by parts: the mean alone, unless they are chosen, for each part. -/
def splitColumns (cats : List String) (cs : Option (List Interp.Col)) (v : String → ℝ → ℝ × ℝ) :
    List (String × (ℝ → ℝ)) :=
  cats.flatMap fun n => ((cs.getD [.placement .mean]).filterMap
    (momentColumn (fun x => (v n x).1) fun x => logSpread (v n x).1 (v n x).2)).map fun c => (n ++ "." ++ c.1, c.2)

end

end Slat.Session.Spec
