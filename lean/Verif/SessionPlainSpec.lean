import Verif.SessionSpec
import Verif.LogNormalModel

/-!
# What the names of a script stand for

After `/repo/slat-lang.org` (156-260): the latest definition of a name counts, and it speaks about the
names as they were defined before it.  The lists of commands in this file have the newest command first.
Nothing here uses the library.
-/

namespace Slat.Session.Spec

noncomputable section

open Interp (Cmd Mu Sd DistCmd Sc)

/-- A number that is written out. -/
def literal : Sc → Option ℝ
  | .num (.int n) => some (n : ℝ)
  | .num (.flt x) => some (x : ℝ)
  | _ => none

/-- `y = a x^b` (/repo/slat-lang.org:188-191). -/
def powerLaw (a b x : ℝ) : ℝ := a * x ^ b

/-- `y = v exp(alpha / ln(x / im))` below `im`, nothing from there on (/repo/slat-lang.org:175-178).  The order of the
numbers is that of the program, not of the document (`Make.hyperbolic_order_fails`). -/
def hyperbolic (alpha im v x : ℝ) : ℝ :=
  if x < im then v * Real.exp (alpha / Real.log (x / im)) else 0

/-- The name that a command defines as a deterministic function, and the function, if it is written out. -/
def curve : Cmd → Option (String × Option (ℝ → ℝ))
  | .detfnPowerlaw i p => some (i, do return powerLaw (← literal p.fst) (← literal p.snd))
  | .detfnHyperbolic i p q =>
    some (i, do return hyperbolic (← literal p.fst) (← literal p.snd) (← literal q))
  | .detfnLoglog i _ => some (i, none)
  | .detfnLinear i _ => some (i, none)
  | _ => none

/-- The deterministic function with a name. -/
def curveOf : List Cmd → String → Option (ℝ → ℝ)
  | [], _ => none
  | m :: l, i => match curve m with
    | some (j, f) => if j = i then f else curveOf l i
    | none => curveOf l i

/-- A log-normal law at every `x`: how its two functions are meant, and the functions. -/
structure Law where
  mu : Mu
  sp : Sd
  f : ℝ → ℝ
  g : ℝ → ℝ

/-- The probabilistic function with a name. -/
def lawOf : List Cmd → String → Option Law
  | [], _ => none
  | .probfn j a b o :: l, i =>
    if j = i then
      match a, b, o.mu, o.sd with
      | .id a, .id b, some mu, some sp => do return ⟨mu, sp, ← curveOf l a, ← curveOf l b⟩
      | _, _, _, _ => none
    else lawOf l i
  | _ :: l, i => lawOf l i

/-- The hazard curve of the intensity measure with a name. -/
def hazardOf : List Cmd → String → Option (ℝ → ℝ)
  | [], _ => none
  | .im j f :: l, i => if j = i then curveOf l f else hazardOf l i
  | _ :: l, i => hazardOf l i

/-- The intensity measure and the law of the demand with a name. -/
def demandOf : List Cmd → String → Option (String × Law)
  | [], _ => none
  | .edp j m f :: l, i => if j = i then do return (m, ← lawOf l f) else demandOf l i
  | _ :: l, i => demandOf l i

/-- The distribution set for collapse or demolition, or for the cost of rebuilding or demolition: not set (`some none`),
set to two numbers with a meaning, or not written out (`none`). -/
def fateOf (k : DistCmd) : List Cmd → String → Option (Option (Mu × Sd × ℝ × ℝ))
  | [], _ => some none
  | .dist k' j p o :: l, i =>
    if k' = k ∧ j = i then
      match o.mu, o.sd with
      | some mu, some sp => do return some (mu, sp, ← literal p.fst, ← literal p.snd)
      | _, _ => none
    else fateOf k l i
  | _ :: l, i => fateOf k l i

/-- Two numbers for each damage state, with their meaning. -/
def states (mu : Mu) (sp : Sd) : List Interp.Sc2 → Option (List (Mu × Sd × ℝ × ℝ))
  | [] => some []
  | p :: l => do return (mu, sp, ← literal p.fst, ← literal p.snd) :: (← states mu sp l)

/-- The onsets of the damage states of the fragility function with a name (/repo/slat-lang.org, "Fragility
functions"). -/
def fragOf : List Cmd → String → Option (List (Mu × Sd × ℝ × ℝ))
  | [], _ => none
  | .fragfnUser j ps o :: l, i =>
    if j = i then
      match o.mu, o.sd with
      | some mu, some sp => states mu sp ps
      | _, _ => none
    else fragOf l i
  | .fragfnDb j _ _ :: l, i => if j = i then none else fragOf l i
  | _ :: l, i => fragOf l i

/-- A loss for each damage state: a distribution, or two limits of the number of components, the loss per component up
to the first and from the second on, and the log-spread. -/
inductive Losses
  | fixed (qs : List (Mu × Sd × ℝ × ℝ))
  | scaled (qs : List (ℤ × ℤ × ℝ × ℝ × ℝ))

/-- The number of damage states. -/
def Losses.size : Losses → ℕ
  | .fixed qs => qs.length
  | .scaled qs => qs.length

/-- A whole number that is written out. -/
def whole : Interp.Num → Option ℤ
  | .int n => some n
  | _ => none

/-- Five numbers for each damage state. -/
def limits : List Interp.Bilevel → Option (List (ℤ × ℤ × ℝ × ℝ × ℝ))
  | [] => some []
  | b :: l => do
    return (← whole b.a, ← whole b.b, ← literal (.num b.c), ← literal (.num b.d), ← literal (.num b.e)) ::
      (← limits l)

/-- The losses of the loss function with a name (/repo/slat-lang.org, "Loss functions"). -/
def lossOf : List Cmd → String → Option Losses
  | [], _ => none
  | .lossSimple j ps o :: l, i =>
    if j = i then
      match o.mu, o.sd with
      | some mu, some sp => do return .fixed (← states mu sp ps)
      | _, _ => none
    else lossOf l i
  | .lossBilevel j bs :: l, i => if j = i then do return .scaled (← limits bs) else lossOf l i
  | _ :: l, i => lossOf l i

/-- A component group: the demand that damages it (intensity measure and law), onsets of its damage states, cost, delay,
number of components and adjustment factors, and the names of the demand and of the fragility function. -/
structure Components where
  im : String
  law : Law
  onsets : List (Mu × Sd × ℝ × ℝ)
  cost : Losses
  delay : Option Losses
  count : ℕ
  costFactor : ℝ
  delayFactor : ℝ
  demand : String
  fragility : String

/-- The component group with a name (/repo/slat-lang.org, "Component groups"): the factors are one unless they are
given. -/
def groupOf : List Cmd → String → Option Components
  | [], _ => none
  | .compgroup j e f k d n fs :: l, i =>
    if j = i then do
      let (m, L) ← demandOf l e
      return ⟨m, L, ← fragOf l f, ← lossOf l k,
        ← match d with
          | none => some none
          | some d => (lossOf l d).map some, n, (fs[0]?.getD 1 : ℚ), (fs[1]?.getD 1 : ℚ), e, f⟩
    else groupOf l i
  | _ :: l, i => groupOf l i

/-- The component groups of the structure with a name (/repo/slat-lang.org, "Structures"). -/
def structOf : List Cmd → String → Option (List Components)
  | [], _ => none
  | .structure_ j gs :: l, i => if j = i then gs.mapM (groupOf l) else structOf l i
  | _ :: l, i => structOf l i

/-- Mean and standard deviation of the logarithm, from two numbers and their meaning (the standard deviation itself
only together with the mean). -/
def logPair (mu : Mu) (sp : Sd) (a b : ℝ) : ℝ × ℝ :=
  let s := match sp with
    | .sdLn => b
    | .sd => Real.sqrt (Real.log (1 + b ^ 2 / a ^ 2))
  (match mu with
    | .meanLn => a
    | .median => Real.log a
    | .mean => Real.log a - s ^ 2 / 2, s)

/-- Numbers that can be meant so: the standard deviation of X itself needs the mean, and a mean or median of X is
positive. -/
def Meant (mu : Mu) (sp : Sd) (a b : ℝ) : Prop :=
  (sp = .sdLn ∨ (mu = .mean ∧ 0 ≤ b)) ∧ (mu = .meanLn ∨ 0 < a)

/-- The mean of a log-normal law. -/
def mean (m : ℝ × ℝ) : ℝ := Real.exp (m.1 + m.2 ^ 2 / 2)

/-- The probability of staying below `x`. -/
def below (m : ℝ × ℝ) (x : ℝ) : ℝ := Phi ((Real.log x - m.1) / m.2)

/-- Onsets that can be meant so, later states at greater demands. -/
def Onsets (qs : List (Mu × Sd × ℝ × ℝ)) : Prop :=
  qs ≠ [] ∧ (∀ q ∈ qs, Meant q.1 q.2.1 q.2.2.1 q.2.2.2) ∧
    (qs.map fun q => (logPair q.1 q.2.1 q.2.2.1 q.2.2.2).1).Pairwise (· < ·)

/-- A number for which the program has room. -/
def Small (z : ℤ) : Prop := -2147483648 ≤ z ∧ z ≤ 2147483647

/-- Losses for as many states as there are onsets, with limits that are not negative. -/
def Fits (G : Components) (L : Losses) : Prop :=
  L.size = G.onsets.length ∧ match L with
    | .fixed _ => True
    | .scaled qs => ∀ q ∈ qs, 0 ≤ q.1

/-- The columns of a report on a cost or delay. -/
def Moments (cs : Option (List Interp.Col)) : Prop :=
  ∀ l ∈ cs, ∀ c ∈ l, c = .placement .mean ∨ c = .spread .sdLn

/-- A structure with at least one group. -/
def Stands (l : List Cmd) (i : String) : Prop := ∃ G Gs, structOf l i = some (G :: Gs)

/-- A report on what has been defined that is no table of functions: without arguments, or about the cost of a
structure. -/
def Bare (M : Machine) (l : List Cmd) : Interp.RecBody → Prop
  | .collrate i => (hazardOf l i).isSome
  | .dsrate i => (groupOf l i).isSome
  | .annual i ⟨some _, some _⟩ none => Stands l i
  | .npv i f g n r => Stands l i ∧ (request M (.npv i f g n r)).isSome
  | .by_ t i a cs => Stands l i ∧ Moments cs ∧ cs ≠ some [] ∧ (request M (.by_ t i a cs)).isSome
  | .pdf i a false => Stands l i ∧ (request M (.pdf i a false)).isSome
  | _ => False

/-- A command that can be carried out after the commands before it. -/
def Fine (M : Machine) (l : List Cmd) : Cmd → Prop
  | .title _ => True
  | .inputdir _ => True
  | .outputdir _ => True
  | .detfnPowerlaw _ p => (literal p.fst).isSome ∧ (literal p.snd).isSome
  | .detfnHyperbolic _ p q => (literal p.fst).isSome ∧ (literal p.snd).isSome ∧ (literal q).isSome
  | .probfn _ (.id a) (.id b) ⟨some mu, some sp⟩ =>
    (curveOf l a).isSome ∧ (curveOf l b).isSome ∧ (sp = .sdLn ∨ mu = .mean)
  | .im i f => (curveOf l f).isSome ∧ ∀ g, Cmd.im i g ∉ l
  | .edp e i p => (hazardOf l i).isSome ∧ (lawOf l p).isSome ∧ ∀ j q, Cmd.edp e j q ∉ l
  | .dist .rebuildCost i p ⟨some _, some _⟩ => (literal p.fst).isSome ∧ (literal p.snd).isSome ∧ (structOf l i).isSome
  | .dist .demolitionCost i p ⟨some _, some _⟩ => (literal p.fst).isSome ∧ (literal p.snd).isSome ∧
    (structOf l i).isSome
  | .dist k i p ⟨some _, some _⟩ => (k = .collapse ∨ k = .demolition) ∧ (literal p.fst).isSome ∧
    (literal p.snd).isSome ∧ (hazardOf l i).isSome
  | .fragfnUser i ps ⟨some mu, some sp⟩ => (∃ qs, states mu sp ps = some qs ∧ Onsets qs) ∧
    ∀ ps o, Cmd.fragfnUser i ps o ∉ l
  | .lossSimple i ps ⟨some mu, some sp⟩ => (states mu sp ps).isSome ∧ ps ≠ [] ∧
    (∀ ps o, Cmd.lossSimple i ps o ∉ l) ∧ ∀ bs, Cmd.lossBilevel i bs ∉ l
  | .lossBilevel i bs => (∃ qs, limits bs = some qs ∧ qs ≠ [] ∧ ∀ q ∈ qs, Small q.1 ∧ Small q.2.1) ∧
    (∀ ps o, Cmd.lossSimple i ps o ∉ l) ∧ ∀ bs, Cmd.lossBilevel i bs ∉ l
  | .compgroup i e f k d n _ => (demandOf l e).isSome ∧ (fragOf l f).isSome ∧ (lossOf l k).isSome ∧
    (∀ s ∈ d, (lossOf l s).isSome) ∧ Small n ∧ ∀ e f k d n fs, Cmd.compgroup i e f k d n fs ∉ l
  | .structure_ i gs => (∃ im, ∀ k ∈ gs, ∃ G, groupOf l k = some G ∧ G.im = im) ∧ ∀ gs', Cmd.structure_ i gs' ∉ l
  | .recorder _ b (some _) => Bare M l b ∨ (∃ k cols at_, order M b = some (k, cols, at_) ∧ Rec.Spec.Working k cols) ∧
    match b with
    | .fn .detfn i _ _ => (curveOf l i).isSome
    | .fn .imrate i _ _ => (hazardOf l i).isSome
    | .fn .edpim i _ _ => (demandOf l i).isSome
    | .fn .edprate i _ _ => (demandOf l i).isSome
    | .rates .collapse i _ => (hazardOf l i).isSome
    | .fn .dsedp i _ _ => (groupOf l i).isSome
    | .fn .dsim i _ _ => (groupOf l i).isSome
    | .rates .costrate i _ => ∃ G, groupOf l i = some G ∧ Fits G G.cost
    | .rates .totalcost i _ => Stands l i
    | .fn .costedp i _ cs => (∃ G, groupOf l i = some G ∧ Fits G G.cost) ∧ Moments cs
    | .fn .costim i _ cs => (∃ G, groupOf l i = some G ∧ Fits G G.cost) ∧ Moments cs
    | .fn .delayim i _ cs => (∃ G L, groupOf l i = some G ∧ G.delay = some L ∧ Fits G L) ∧ Moments cs
    | .fn .delayedp i _ cs => (∃ G L, groupOf l i = some G ∧ G.delay = some L ∧ Fits G L) ∧ Moments cs
    | _ => False
  | .analyze => ∀ i b po, Cmd.recorder i b (some po) ∈ l →
    M.openable (Output.fullPath (Output.dirOf (directory l.reverse)) po.file.toList) = true
  | .print .emptyMessage po => ∀ q ∈ po, M.openable q.file.toList = true
  | .print (.message _) po => ∀ q ∈ po, M.openable q.file.toList = true
  | .print .title po => ∀ q ∈ po, M.openable q.file.toList = true
  | .print (.function _ _) po => ∀ q ∈ po, M.openable q.file.toList = true
  | _ => False

/-- A script every command of which can be carried out. -/
def WellFormed (M : Machine) : List Cmd → Prop
  | [] => True
  | m :: l => Fine M l m ∧ WellFormed M l

/-- A table: a line of headings, then a line for each argument. -/
def tableOf (x : String) (cs : List (String × (ℝ → ℝ))) (xs : List ℝ) : List Rec.Row :=
  (.text x :: cs.map fun c => .text c.1) ::
    xs.map fun a => .num (.fin a) :: cs.map fun c => .num (.fin (c.2 a))

/-- The probability of collapse: none unless a distribution is set (/repo/slat-lang.org, "Collapse"). -/
def pCollapse (c : Option (Mu × Sd × ℝ × ℝ)) (x : ℝ) : ℝ :=
  match c with
  | none => 0
  | some (mu, sp, a, b) => below (logPair mu sp a b) x

/-- The probability of demolition, without that of collapse. -/
def pDemolition (c d : Option (Mu × Sd × ℝ × ℝ)) (x : ℝ) : ℝ :=
  match d with
  | none => 0
  | some (mu, sp, a, b) => below (logPair mu sp a b) x - pCollapse c x

/-- A column of a report on a demand: heading and value. -/
def demandColumn (L : Law) : Interp.Col → Option (String × (ℝ → ℝ))
  | .placement .mean => some ("mean_x", fun x => mean (logPair L.mu L.sp (L.f x) (L.g x)))
  | .spread .sdLn => some ("sd_ln_x", fun x => (logPair L.mu L.sp (L.f x) (L.g x)).2)
  | _ => none

/-- The probabilities that the damage states are reached at a demand. -/
def reached (qs : List (Mu × Sd × ℝ × ℝ)) (x : ℝ) : List ℝ :=
  qs.map fun q => below (logPair q.1 q.2.1 q.2.2.1 q.2.2.2) x

/-- The columns of a report on damage: one for each state, and the expected number of states reached. -/
def damageColumns (qs : List (Mu × Sd × ℝ × ℝ)) : List (String × (ℝ → ℝ)) :=
  (qs.zipIdx.map fun q => (s!"DS{q.2 + 1}", below (logPair q.1.1 q.1.2.1 q.1.2.2.1 q.1.2.2.2))) ++
    [("E(DS)", fun x => (reached qs x).sum)]

/-- The mean loss of one component in each state, if there are `n` components. -/
def Losses.means (n : ℕ) : Losses → List ℝ
  | .fixed qs => qs.map fun q => mean (logPair q.1 q.2.1 q.2.2.1 q.2.2.2)
  | .scaled qs => qs.map fun q =>
    if (n : ℤ) ≤ q.1 then q.2.2.1
    else if q.2.1 ≤ (n : ℤ) then q.2.2.2.1
    else (q.2.2.1 * (q.2.1 - n) + q.2.2.2.1 * (n - q.1)) / (q.2.1 - q.1)

/-- Numbers that can be meant so.  A first number that is zero is refused: it makes every loss of the function not a
number (`Make.loss_zero_state_fails`). -/
def Losses.Meant : Losses → Prop
  | .fixed qs => ∀ q ∈ qs, q.2.2.1 ≠ 0 ∧ Spec.Meant q.1 q.2.1 q.2.2.1 q.2.2.2
  | .scaled qs => ∀ q ∈ qs, 0 ≤ q.1 ∧ Small q.2.1 ∧ 0 ≤ q.2.2.1 ∧ 0 ≤ q.2.2.2.1

/-- The expected loss per component: each state, if it is the worst that is reached, with its mean loss. -/
def perComponent : List ℝ → List ℝ → ℝ
  | p :: p' :: ps, m :: ms => (p - p') * m + perComponent (p' :: ps) ms
  | [p], m :: _ => p * m
  | _, _ => 0

/-- The expected loss of a group at a demand. -/
def expected (G : Components) (L : Losses) (factor : ℝ) (x : ℝ) : ℝ :=
  G.count * factor * perComponent (reached G.onsets x) (L.means G.count)

/-- The log-spread of the loss of one component in each state. -/
def Losses.spreads : Losses → List ℝ
  | .fixed qs => qs.map fun q => (logPair q.1 q.2.1 q.2.2.1 q.2.2.2).2
  | .scaled qs => qs.map fun q => q.2.2.2.2

/-- The mean square of the loss of one component in each state: of a lognormal loss with mean `m` and log-spread `s`,
`m² exp(s²)`. -/
def Losses.squares (n : ℕ) (L : Losses) : List ℝ :=
  List.zipWith (fun m s => m ^ 2 * Real.exp (s ^ 2)) (L.means n) L.spreads

/-- The mean square of the loss of a group at a demand: all components fare alike. -/
def expectedSquare (G : Components) (L : Losses) (factor : ℝ) (x : ℝ) : ℝ :=
  (G.count * factor) ^ 2 * perComponent (reached G.onsets x) (L.squares G.count)

/-- The log-spread of the lognormal loss with a mean and a mean square; a loss that is certainly nothing has none. -/
def logSpread (m s : ℝ) : ℝ := open Classical in if m = 0 then 0 else Real.sqrt (Real.log (s / m ^ 2))

/-- The log-spread of the loss of a group at a demand: that of one component, as all fare alike. -/
def spread (G : Components) (L : Losses) (x : ℝ) : ℝ :=
  logSpread (perComponent (reached G.onsets x) (L.means G.count)) (perComponent (reached G.onsets x) (L.squares G.count))

/-- A column of a report on a loss with a mean and a log-spread: heading and value. -/
def momentColumn (mean logSpread : ℝ → ℝ) : Interp.Col → Option (String × (ℝ → ℝ))
  | .placement .mean => some ("mean_x", mean)
  | .spread .sdLn => some ("sd_ln_x", logSpread)
  | _ => none

/-- The columns of a report on a loss: both, unless they are chosen. -/
def momentColumns (mean logSpread : ℝ → ℝ) (cs : Option (List Interp.Col)) : Option (List (String × (ℝ → ℝ))) :=
  (cs.getD [.placement .mean, .spread .sdLn]).mapM (momentColumn mean logSpread)

end

end Slat.Session.Spec
