import Verif.SessionPlainSpec
import Verif.RatesModel
import Verif.LogNormalModel
import Mathlib.MeasureTheory.Integral.IntegralEqImproper

/-!
# Specification: what is found by integration, in formulas
-/

namespace Slat.Session.Spec

open MeasureTheory Set

noncomputable section

open Interp (Mu Sd)

/-- The integrator can find the integral of `φ` over the positive numbers up to an error of `ε`: whatever function with
the values of `φ` it is given, it succeeds. -/
structure Answers (maq : Rates.Maq) (ε : ℝ) (φ : ℝ → ℝ) : Prop where
  integrable : IntegrableOn φ (Ioi 0)
  answer : ∀ f : Dbl → Dbl, (∀ x, 0 < x → f (.fin x) = .fin (φ x)) →
    ∃ v, maq f = (true, .fin v) ∧ |v - ∫ x in Ioi (0 : ℝ), φ x| ≤ ε

/-- The integrator finds `v` for a function with the values of `φ`. -/
def Finds (maq : Rates.Maq) (φ : ℝ → ℝ) (v : ℝ) : Prop :=
  ∃ f : Dbl → Dbl, (∀ x, 0 < x → f (.fin x) = .fin (φ x)) ∧ maq f = (true, .fin v)

/-- The integrator can find the integral of `(∫ φ x y dy) w x`: up to an error of `ε` the inner ones, and up to an error of
`ε'` that of what it finds for them. -/
structure Nested (maq : Rates.Maq) (ε ε' : ℝ) (φ : ℝ → ℝ → ℝ) (w : ℝ → ℝ) : Prop where
  inner : ∀ x, 0 < x → Answers maq ε (φ x)
  weight : IntegrableOn w (Ioi 0)
  whole : IntegrableOn (fun x => (∫ y in Ioi (0 : ℝ), φ x y) * w x) (Ioi 0)
  outer : ∀ c : ℝ → ℝ, (∀ x, 0 < x → Finds maq (φ x) (c x)) → Answers maq ε' fun x => c x * w x

/-- The law of a demand at an intensity: mean and standard deviation of the logarithm. -/
def Law.at_ (L : Law) (x : ℝ) : ℝ × ℝ := logPair L.mu L.sp (L.f x) (L.g x)

/-- A law at every intensity. -/
def Law.Meant (L : Law) : Prop := ∀ x, 0 < x → Spec.Meant L.mu L.sp (L.f x) (L.g x) ∧ 0 < L.g x

/-- The probability that the structure collapses or is demolished. -/
def pLost (c d : Option (Mu × Sd × ℝ × ℝ)) (x : ℝ) : ℝ := pCollapse c x + pDemolition c d x

/-- The annual rate of earthquakes in which the structure is lost or a demand is exceeded, by intensity; `h'` is the
slope of the hazard curve (/repo/src/relationships.cpp:276-287). -/
def demandRate (c d : Option (Mu × Sd × ℝ × ℝ)) (L : Law) (h' : ℝ → ℝ) (y x : ℝ) : ℝ :=
  (pLost c d x + (1 - pLost c d x) * (1 - below (L.at_ x) y)) * |h' x|

/-- The same by the document (/repo/slat-lang.org:619-623), which knows nothing of lost structures. -/
def documentedRate (L : Law) (h' : ℝ → ℝ) (y x : ℝ) : ℝ := (1 - below (L.at_ x) y) * |h' x|

/-- The annual rate of collapse, by intensity. -/
def collapseRate (c : Option (Mu × Sd × ℝ × ℝ)) (h' : ℝ → ℝ) (x : ℝ) : ℝ := pCollapse c x * |h' x|

/-- The annual rate of demolition, by intensity. -/
def demolitionRate (c d : Option (Mu × Sd × ℝ × ℝ)) (h' : ℝ → ℝ) (x : ℝ) : ℝ := pDemolition c d x * |h' x|

/-- The density of the log-normal law. -/
def density (m : ℝ × ℝ) (y : ℝ) : ℝ :=
  Real.exp (-((Real.log y - m.1) / m.2) ^ 2 / 2) / Real.sqrt (2 * Real.pi) / (m.2 * y)

/-- The probability that a demand reaches the onset of a damage state, both log-normal and independent
(/repo/slat-lang.org:715-719). -/
def reachedAt (q m : ℝ × ℝ) : ℝ := Phi ((m.1 - q.1) / Real.sqrt (q.2 ^ 2 + m.2 ^ 2))

open Classical in
/-- The probability that a lognormal loss with a mean and a mean square is more than `z`. A loss of nothing is never
more; one whose mean square is not above that of its mean (by an error of the integrator at most) is its mean. -/
def exceeds (m s z : ℝ) : ℝ :=
  if m = 0 then 0
  else if s ≤ m ^ 2 then (if z < m then 1 else 0)
  else 1 - below (Real.log m - logSpread m s ^ 2 / 2, logSpread m s) z

/-- The annual rate at which a damage state is reached, by intensity. -/
def stateRate (q : ℝ × ℝ) (L : Law) (h' : ℝ → ℝ) (x : ℝ) : ℝ := reachedAt q (L.at_ x) * |h' x|

/-- The annual rate at which a cost of repair is exceeded, by intensity; `m` and `s` are its mean and mean square. -/
def costRate (m s h' : ℝ → ℝ) (z x : ℝ) : ℝ := exceeds (m x) (s x) z * |h' x|

/-- The columns of a report on damage, for given probabilities of the states. -/
def stateColumns (n : ℕ) (v : ℕ → ℝ → ℝ) : List (String × (ℝ → ℝ)) :=
  ((List.range n).map fun i => (s!"DS{i + 1}", v i)) ++ [("E(DS)", fun x => ((List.range n).map fun i => v i x).sum)]

end

end Slat.Session.Spec
