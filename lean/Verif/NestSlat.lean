import Verif.NestProps

/-!
# The caches of the library (C58)

The caches declared in src/comp_group.h:111-157, src/loss_functions.h:77, src/relationships.h:104-152 and
src/structure.h:40 and which of them the calculation of each one calls.  The calls are without cycles, so the theorems
of `NestProps.lean` apply to any structures sharing groups, demands and loss functions.
-/

namespace Slat.Nest

/-- The caches of a model with structures `S`, intensity measures `I`, demand parameters `E`, component groups `G` and
two-level loss functions `L`. -/
inductive SlatCache (S I E G L : Type) where
  /-- `Structure::AnnualCost`, src/structure.h:40 -/
  | annualCost (s : S)
  /-- `IM::CollapseRate`, src/relationships.h:104 -/
  | collapseRate (i : I)
  /-- `IM::DemolitionRate`, src/relationships.h:128 -/
  | demolitionRate (i : I)
  /-- `EDP::lambda`, src/relationships.h:152 -/
  | edpLambda (e : E)
  /-- `CompGroup::E_cost_IM`, src/comp_group.h:111 -/
  | eCostIM (g : G)
  /-- `CompGroup::SD_ln_cost_IM`, src/comp_group.h:116 -/
  | sdCostIM (g : G)
  /-- `CompGroup::E_delay_IM`, src/comp_group.h:121 -/
  | eDelayIM (g : G)
  /-- `CompGroup::SD_ln_delay_IM`, src/comp_group.h:126 -/
  | sdDelayIM (g : G)
  /-- `CompGroup::E_annual_cost`, src/comp_group.h:132 -/
  | eAnnualCost (g : G)
  /-- `CompGroup::lambda_cost`, src/comp_group.h:137 -/
  | lambdaCost (g : G)
  /-- `CompGroup::cost_EDP_dist`, src/comp_group.h:142 -/
  | costDist (g : G)
  /-- `CompGroup::delay_EDP_dist`, src/comp_group.h:147 -/
  | delayDist (g : G)
  /-- `CompGroup::Rate`, src/comp_group.h:157 -/
  | rate (g : G)
  /-- `BiLevelLoss::LossFunctionsForCount`, src/loss_functions.h:77 -/
  | lossFor (l : L)
deriving DecidableEq

variable {S I E G L V T : Type}

/-- Which caches the calculation of a cache may call, read off the source; those not listed call none
(`CollapseRate_calc`, src/relationships.cpp:153-177; `DemolitionRate_calc`, :179-203; `calc_lambda`, :269-294;
`calc_Rate`, src/comp_group.cpp:616-646, which uses `pDS_IM_calc`, :568-605, directly; `LossFunctionsForCount_calc`,
src/loss_functions.cpp:104-115).  In particular `EDP::lambda` is not called by any of them: `IM::lambda` and
`IM::DerivativeAt` (src/relationships.cpp:61, 123) are not cached. -/
inductive Calls : SlatCache S I E G L → SlatCache S I E G L → Prop where
  /-- src/structure.cpp:187-231 through `TotalCost` (:109), `CostNC` (:82-92) and `CostDist_IM`
  (src/comp_group.cpp:265-280) -/
  | annualE (s : S) (g : G) : Calls (.annualCost s) (.eCostIM g)
  | annualSd (s : S) (g : G) : Calls (.annualCost s) (.sdCostIM g)
  /-- src/comp_group.cpp:313 through `E_cost_EDP` (:217) -/
  | eCost (g : G) : Calls (.eCostIM g) (.costDist g)
  /-- src/comp_group.cpp:360-362, 368 -/
  | sdCostDist (g : G) : Calls (.sdCostIM g) (.costDist g)
  | sdCostE (g : G) : Calls (.sdCostIM g) (.eCostIM g)
  /-- src/comp_group.cpp:396 -/
  | eAnnual (g : G) : Calls (.eAnnualCost g) (.eCostIM g)
  /-- src/comp_group.cpp:419-421 -/
  | lambdaE (g : G) : Calls (.lambdaCost g) (.eCostIM g)
  | lambdaSd (g : G) : Calls (.lambdaCost g) (.sdCostIM g)
  /-- src/comp_group.cpp:437-477 -/
  | eDelay (g : G) : Calls (.eDelayIM g) (.delayDist g)
  /-- src/comp_group.cpp:479-535 -/
  | sdDelayDist (g : G) : Calls (.sdDelayIM g) (.delayDist g)
  | sdDelayE (g : G) : Calls (.sdDelayIM g) (.eDelayIM g)
  /-- src/comp_group.cpp:52-69 through `CalculateLoss` and src/loss_functions.cpp:131 -/
  | cost (g : G) (l : L) : Calls (.costDist g) (.lossFor l)
  | delay (g : G) (l : L) : Calls (.delayDist g) (.lossFor l)

/-- Which template each cache is an instance of (same lines as in `SlatCache`); all are switched on, and only NaN
arguments bypass them. -/
def slatShape (isNaN : V → Bool) (strict : Bool) : SlatCache S I E G L → Shape V
  | .annualCost _ | .collapseRate _ | .demolitionRate _ | .eAnnualCost _ | .rate _ => .value strict
  | _ => .function isNaN true

/-- Every cache the program calls satisfies `may`. -/
def Within {C : Type} (may : C → Prop) : Prog C V T → Prop
  | .ret _ => True
  | .call c _ k => may c ∧ ∀ x, Within may (k x)
  | .par n ts k => (∀ i, i < n → Within may (ts i)) ∧ ∀ xs, Within may (k xs)

/-- Levels of the call graph (helper). -/
def slatRank : SlatCache S I E G L → ℕ
  | .lossFor _ => 0
  | .costDist _ | .delayDist _ => 1
  | .eCostIM _ | .eDelayIM _ => 2
  | .sdCostIM _ | .sdDelayIM _ => 3
  | _ => 4

theorem below_of_within {C : Type} {may : C → Prop} {rank : C → ℕ} {b : ℕ} (h : ∀ c, may c → rank c < b)
    {p : Prog C V T} (hp : Within may p) : Below rank b p := by
  induction p with
  | ret => trivial
  | call c v k ih => exact ⟨h c hp.1, fun x => ih x (hp.2 x)⟩
  | par n ts k ih1 ih2 => exact ⟨fun i hi => ih1 i (hp.1 i hi), fun xs => ih2 xs (hp.2 xs)⟩

theorem calls_rank {c d : SlatCache S I E G L} (h : Calls c d) : slatRank d < slatRank c := by
  cases h <;> simp [slatRank]

theorem slat_ranked {body : SlatCache S I E G L → V → Prog (SlatCache S I E G L) V T}
    (h : ∀ c v, Within (Calls c) (body c v)) : Ranked body slatRank 5 where
  lt c := by cases c <;> simp [slatRank]
  below c v := below_of_within (fun _ => calls_rank) (h c v)

section Slat

variable {Tid : Type} [DecidableEq Tid] [Fintype Tid] [DecidableEq V] [Inhabited T]
  [DecidableEq S] [DecidableEq I] [DecidableEq E] [DecidableEq G] [DecidableEq L]

/-- The library: if the calculations only make the calls found in the source and those of the `CachedValue`s ignore the
argument, then, for any number of threads querying any of the caches at once, every answer is the one computed without
caches and threads; the program is terminated only if some query ends with an exception; otherwise all queries are
answered, after a number of steps that does not depend on the schedule; and nothing is computed twice. -/
theorem slat_queries (isNaN : V → Bool) (strict : Bool)
    (body : SlatCache S I E G L → V → Prog (SlatCache S I E G L) V T)
    (hc : ∀ c v, Within (Calls c) (body c v)) (hv : ValueLike (slatShape isNaN strict) body) :
    ∃ cost : Prog (SlatCache S I E G L) V T → ℕ,
      ∀ (ls : List (Lbl Tid (SlatCache S I E G L) V T)) (s : St (system Tid (slatShape isNaN strict) body)),
        Exec (start Tid (slatShape isNaN strict) body) ls s →
          (∀ t p r l, (.ended t p r :: l) <:+ s.log → pending t l = some p ∧ Runs body p r) ∧
          (∀ c, ¬ faulty (slatShape isNaN strict c) (s.objs c) ∧
            ∀ v, isNaN v = false → completed (slatShape isNaN strict c) v (s.objs c) ≤ 1) ∧
          ((∀ t p, .started t p ∈ s.log → ¬ Runs body p none) →
            s.bad = none ∧ moves ls ≤ total cost ls ∧
            ((∀ t, step s (.run t) = none ∧ ∀ j i, step s (.take t j i) = none) → ∀ t, pending t s.log = none)) := by
  have hr := slat_ranked hc
  obtain ⟨cost, hcost⟩ := nested_terminates (Tid := Tid) hr hv
  refine ⟨cost, fun ls s he => ⟨fun t p r l => nested_answers hr hv ls s he t p r l, fun c => ?_, fun hg => ?_⟩⟩
  · obtain ⟨h1, h2⟩ := nested_once hr hv ls s he c
    refine ⟨h1, fun v hn => h2 v ?_⟩
    cases c <;> simp [slatShape, Shape.keeps, hn]
  · have hb : s.bad = none := by
      rcases nested_never_bad hr hv ls s he with h | ⟨_, t, p, h1, h2⟩
      · exact h
      · exact (hg t p h1 h2).elim
    exact ⟨hb, hcost ls s he hb, nested_complete hr hv ls s he hg⟩

end Slat

/-! ## Examples -/

section Examples

/-- Execute up to `n` steps, each the first possible one of the list. -/
def drive {Tid C V T : Type} [DecidableEq Tid] [DecidableEq C] {sys : Sys Tid C V T} (cands : List (Lbl Tid C V T)) :
    ℕ → St sys → St sys
  | 0, s => s
  | n + 1, s => match cands.findSome? (step s) with | some s' => drive cands n s' | none => s

theorem exec_drive {Tid C V T : Type} [DecidableEq Tid] [DecidableEq C] {sys : Sys Tid C V T}
    (cands : List (Lbl Tid C V T)) (n : ℕ) (s : St sys) : ∃ ls, Exec s ls (drive cands n s) := by
  induction n generalizing s with
  | zero => exact ⟨[], .nil s⟩
  | succ n ih =>
    unfold drive
    split
    · rename_i s' hs
      obtain ⟨l, _, hl⟩ := List.exists_of_findSome?_eq_some hs
      obtain ⟨ls, h⟩ := ih s'
      exact ⟨l :: ls, .cons hl h⟩
    · exact ⟨[], .nil s⟩

/-- Annual cost of a structure with two groups, as in src/structure.cpp:82-92 and src/comp_group.cpp:265-280, with sums
for the numerical parts (`eCostIM` is queried by the block of the first section and by `sdCostIM`). -/
def demo : SlatCache Unit Unit Unit Bool Unit → ℕ → Prog (SlatCache Unit Unit Unit Bool Unit) ℕ ℕ
  | .annualCost _, _ => .par 2
      (fun i => .par 2 (fun j => if j = 0 then .call (.eCostIM (i == 0)) 3 (fun x => .ret (some x))
        else .call (.sdCostIM (i == 0)) 3 (fun x => .ret (some x))) (fun xs => .ret (some xs.sum)))
      (fun xs => .ret (some xs.sum))
  | .eCostIM g, v => .call (.costDist g) v fun x => .ret (some (x + 1))
  | .sdCostIM g, v => .call (.costDist g) v fun x => .call (.eCostIM g) v fun y => .ret (some (x + y))
  | .costDist _, v => .call (.lossFor ()) 1 fun x => .ret (some (v * x))
  | .lossFor _, v => .ret (some (10 * v))
  | _, _ => .ret none

theorem demo_within (c : SlatCache Unit Unit Unit Bool Unit) (v : ℕ) : Within (Calls c) (demo c v) := by
  cases c <;> simp only [demo, Within]
  · refine ⟨fun i _ => ⟨fun j _ => ?_, fun _ => trivial⟩, fun _ => trivial⟩
    split
    · exact ⟨.annualE _ _, fun _ => trivial⟩
    · exact ⟨.annualSd _ _, fun _ => trivial⟩
  · exact ⟨.eCost _, fun _ => trivial⟩
  · exact ⟨.sdCostDist _, fun _ => ⟨.sdCostE _, fun _ => trivial⟩⟩
  · exact ⟨.cost _ _, fun _ => trivial⟩

theorem demo_valueLike : ValueLike (slatShape (fun _ => false) true) demo := by
  intro c b h v w
  cases c <;> simp_all [slatShape, demo]

/-- The hypotheses of `slat_queries`, `nested_answers`, `nested_never_bad`, `nested_complete`, `nested_terminates` and
`nested_once` hold for the example. -/
example : Ranked demo slatRank 5 ∧ ValueLike (slatShape (fun _ => false) true) demo :=
  ⟨slat_ranked demo_within, demo_valueLike⟩

abbrev demoQuery : Prog (SlatCache Unit Unit Unit Bool Unit) ℕ ℕ := .call (.annualCost ()) 0 fun x => .ret (some x)

/-- Thread 0, then thread 1, asks for the annual cost. -/
def demoAsked : St (system (Fin 3) (slatShape (fun _ => false) true) demo) :=
  drive [.start 1 demoQuery] 1 (drive [.start 0 demoQuery] 1 (start (Fin 3) (slatShape (fun _ => false) true) demo))

/-- The scheduler prefers threads that can go on; thread 2 helps with the parallel regions. -/
def demoChoices : List (Lbl (Fin 3) (SlatCache Unit Unit Unit Bool Unit) ℕ ℕ) :=
  [.run 0, .run 1, .run 2] ++ (do let t ← [2, 1, 0]; let j ← List.range 4; let i ← [0, 1]; [.take t j i])

/-- Everything has been executed. -/
def demoState : St (system (Fin 3) (slatShape (fun _ => false) true) demo) := drive demoChoices 200 demoAsked

theorem exec_append {Tid C V T : Type} [DecidableEq Tid] [DecidableEq C] {sys : Sys Tid C V T} {s s' s'' : St sys}
    {ls ls' : List (Lbl Tid C V T)} (h1 : Exec s ls s') (h2 : Exec s' ls' s'') : Exec s (ls ++ ls') s'' := by
  induction h1 with
  | nil => exact h2
  | cons hs _ ih => exact .cons hs (ih h2)

theorem demo_reach : ∃ ls, Exec (start (Fin 3) (slatShape (fun _ => false) true) demo) ls demoState := by
  obtain ⟨l1, h1⟩ := exec_drive [.start 0 demoQuery] 1 (start (Fin 3) (slatShape (fun _ => false) true) demo)
  obtain ⟨l2, h2⟩ := exec_drive [.start 1 demoQuery] 1 (drive [.start 0 demoQuery] 1
    (start (Fin 3) (slatShape (fun _ => false) true) demo))
  obtain ⟨l3, h3⟩ := exec_drive demoChoices 200 demoAsked
  exact ⟨_, exec_append (exec_append h1 h2) h3⟩

/-- Both threads are answered; `184` is what the calculations give without caches. -/
example : demoState.log.map (fun e => match e with | .started t _ => (t, none) | .ended t _ r => (t, some r)) =
    [(1, some (some 184)), (0, some (some 184)), (1, none), (0, none)] ∧ demoState.bad = none := by
  decide +kernel

/-- `nested_answers` applied to that execution. -/
example : ∃ t p r l, (.ended t p r :: l) <:+ demoState.log ∧ Runs demo p r := by
  obtain ⟨ls, h⟩ := demo_reach
  have hne : ∃ t p r l, demoState.log = .ended t p r :: l := by
    have : (match demoState.log with | .ended _ _ _ :: _ => true | _ => false) = true := by decide +kernel
    split at this
    · rename_i t p r l hl; exact ⟨t, p, r, l, hl⟩
    · cases this
  obtain ⟨t, p, r, l, hl⟩ := hne
  refine ⟨t, p, r, l, hl ▸ List.suffix_refl _, ?_⟩
  exact (nested_answers (slat_ranked demo_within) demo_valueLike ls _ h t p r l (hl ▸ List.suffix_refl _)).2

/-- The losses do not match the damage states: the calculation throws. -/
def demoThrow : SlatCache Unit Unit Unit Bool Unit → ℕ → Prog (SlatCache Unit Unit Unit Bool Unit) ℕ ℕ
  | .costDist _, _ => .ret none
  | c, v => demo c v

/-- The second case of `nested_never_bad` occurs: the query ends with an exception inside a parallel region, and the
program is terminated instead of reporting it. -/
example : (drive [.run 0, .take 0 0 0, .take 0 1 0] 100 (drive [.start 0 demoQuery] 1
    (start (Fin 3) (slatShape (fun _ => false) true) demoThrow))).bad = some .terminated := by
  decide +kernel

end Examples

end Slat.Nest
