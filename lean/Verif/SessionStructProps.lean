import Verif.SessionStructSample
import Verif.RangesProps

/-!
# Sessions and structures (C92): what a structure costs, in the files

The library is `plain`, with the rates, expected losses and annual costs of `integrated`.  The theorems say what a session that
ends leaves in the file of a `totalcost`, `structcost --by_fate`, `structcost --annual`, `structcost --npv` or `pdf` recorder, in
terms of the script: the costs of the groups are integrals up to the error of the integrator, and the rest is what follows from
them, from the laws for collapse and demolition and from the costs of rebuilding and demolition that are set before the
analysis.  The full statement has the same of every recorder of a structure and of every analysis; the costs by
demand and by fragility function are in `SessionSplitProps`, normalised densities in `SessionNormalProps`.  A group
may be found to cost nothing; missing are annual costs that are found to be nothing, costs that the integrator finds to be
negative, the error of the differentiation routines, and what goes stale after an analysis (a new cost of rebuilding does not reach an annual cost that was computed before).
-/

namespace Slat.Session

open MeasureTheory Set Filter Topology

noncomputable section

open Interp (Val Call Cmd Cfg Err Mu Sd DistCmd Sc)
open Output (Path Files)

variable {rd : Rec.Row → String}

variable {maq : Rates.Maq} {gsl : Rates.Gsl} {ε ε' : ℝ} {ds : World → Interp.Printed → String} {M : Machine}
  {ev : String → Except Err Val} {p : Gram.Pen} {ls : List (Gram.Style × Cmd)} {text : List Char}
  {A B C : List Cmd} {rid file id : String} {a : Interp.At} {fs : Files} {τ : State (World × Memory)} {xs : List ℝ}
  {G : Spec.Components} {Gs : List Spec.Components} {h h' : ℝ → ℝ} {c d r k : Option (Mu × Sd × ℝ × ℝ)}

/-- **C92.** The file of a `totalcost` recorder: for each intensity the mean cost of the structure and its log-spread.  With the
probabilities of the three fates at that intensity the structure is repaired, at the cost of its groups, demolished, or rebuilt
after a collapse. -/
theorem total_cost_file_partial
    (hok : ∀ c ∈ ls, Gram.OkCmd p c.2) (ht : Lex.Written (Gram.toks (Gram.writeScript p ls)) text)
    (hl : ls.map (·.2) =
      A ++ .recorder rid (.rates .totalcost id a) (some ⟨file, false⟩) :: B ++ .analyze :: C)
    (hs : ∀ m ∈ A ++ .recorder rid (.rates .totalcost id a) (some ⟨file, false⟩) :: B ++ C,
      m.sound = true)
    (hr : sessionR (integrated maq gsl) ds M ev (start ({}, {}) fs) text = (τ, none))
    (hset : Spec.Settled (ls.map (·.2))) (hB : ∀ b' po, Cmd.recorder rid b' po ∉ B)
    (hal : Spec.Alone (Output.dirOf (Spec.directory (A ++ B))) rid file (A ++ B))
    (hu : Spec.Untouched (Output.fullPath (Output.dirOf (Spec.directory (A ++ B))) file.toList)
      (A ++ .recorder rid (.rates .totalcost id a) (some ⟨file, false⟩) :: B ++ [.analyze]) C)
    (hone : ∀ gs, Cmd.structure_ id gs ∉ B)
    (hde : Spec.Described A.reverse
      (A ++ .recorder rid (.rates .totalcost id a) (some ⟨file, false⟩) :: B).reverse id G Gs h c d r k)
    (hcov : Spec.Covered c d r k) (hg : Rates.Differentiates gsl)
    (ha : Spec.arguments M a = some (xs.map Dbl.fin)) (hx : ∀ x ∈ xs, 0 < x)
    (hfa : ∀ x ∈ xs, 0 ≤ Spec.pDemolition c d x) (hpay : ∀ x ∈ xs, ∀ g ∈ G :: Gs, Spec.Payable maq ε x g) :
    ∃ l : ℝ → List (ℝ × ℝ), (∀ x ∈ xs, Spec.Near ε x (G :: Gs) (l x) ∧
        |(Spec.total c d r k x (l x)).1 - Spec.meanTotal c d r k (G :: Gs) x| ≤ (G :: Gs).length * ε) ∧
      τ.files (Output.fullPath (Output.dirOf (Spec.directory (A ++ B))) file.toList) =
        some ((Spec.tableOf G.im [("mean_x", fun x => (Spec.total c d r k x (l x)).1),
          ("sd_ln_x", fun x => Spec.logSpread (Spec.total c d r k x (l x)).1 (Spec.total c d r k x (l x)).2)] xs).map
            M.render) := by
  obtain ⟨σ, hr, hτ⟩ := forget (integrated_separate maq gsl) hok ht hl hs hr hset
  rw [hτ]
  obtain ⟨σA, σZ, hA, hZ, hMA, hMZ, hL⟩ := setup hok ht hl hs hr
  obtain ⟨b, b0, cv, F, hG, hseen, hseen0, hne0, him0, him, hme, hcv, hF1, hF2, hb1, hb2⟩ :=
    structure_at (fun m hm => hs m (List.mem_append_left _ hm)) hA hZ hMA hMZ hL hde.groups (by intro gs; simp) hone hde.hazard
      hde.collapse hde.demolition hde.rebuild hde.clear
  have hval := fun x (hx' : x ∈ xs) =>
    total_found (maq := maq) (gsl := gsl) hg hG (hx x hx') (hpay x hx') hF1 hF2 hb1 hb2 hcov (hfa x hx')
  choose! l e1 e2 e4 _ _ _ using hval
  refine ⟨l, fun x hx' => ⟨near_of (hpay x hx') (e1 x hx'), ?_⟩, ?_⟩
  · obtain ⟨-, f1, f2⟩ := fate_range (hx x hx') hcov.demolition (hfa x hx')
    exact total_near (e1 x hx') (hpay x hx') f1 f2
  have hord : Spec.order M (.rates .totalcost id a) = some (.totalcost, none, xs.map Dbl.fin) := by
    simp [Spec.order, ha, Spec.kindAt]
  refine session_table_partial hok ht hl hs hr hB hal hu hord trivial hA hZ ?_
    (by intro g g' _ _ hk; rcases hk with hk | hk <;> cases hk)
    (by intro g x _ hk; cases hk)
  show Rec.Spec.table _ (seen (plain (integrated maq gsl) ds) σZ.lib
    ((plain (integrated maq gsl) ds).find σA.lib "structure" id)) _ _ = _
  rw [hseen]
  have ho : ∀ x ∈ xs, (b.obj (integrated maq gsl) σZ.lib).totalCost (.fin x) =
      lognormal (Spec.total c d r k x (l x)).1 (Spec.total c d r k x (l x)).2 := by
    intro x hx'
    simp only [Building.obj, him, Option.bind_some, hme, Option.map_some, e4 x hx', Option.getD_some]
  have hi : (b.obj (integrated maq gsl) σZ.lib).imId = some G.im := him
  simp only [Rec.Spec.table, Rec.Spec.argument, Rec.Spec.columns, hi, Option.bind_eq_bind,
    Option.bind_some, Option.pure_def, Option.map_some, Spec.tableOf, List.map_cons, List.map_nil, List.map_map,
    Option.some.injEq, List.cons.injEq, true_and]
  have hc : Rec.Spec.chosen (Rec.Spec.ofDist (b.obj (integrated maq gsl) σZ.lib).totalCost)
      ((none : Option (List Rec.Col)).getD [.name "mean_x", .name "sd_ln_x"]) =
      some [(.text "mean_x", fun x => ((b.obj (integrated maq gsl) σZ.lib).totalCost x).getMean),
        (.text "sd_ln_x", fun x => ((b.obj (integrated maq gsl) σZ.lib).totalCost x).getSigmaLn)] := rfl
  rw [hc]
  simp only [Option.bind_some, List.map_cons, List.map_nil, Option.some.injEq, List.cons.injEq, true_and]
  apply List.map_congr_left
  intro x hx'
  simp only [Function.comp, ho x hx', (lognormal_reports (e2 x hx')).2.1]
  rfl
example (ds : World → Interp.Printed → String) (ev : String → Except Err Val) (fs : Files) :
    ∃ text σ, sessionR (integrated Rates.ideal Rates.idealGsl) ds (bench rd) ev (start ({}, {}) fs) text = (σ, none) ∧
      σ.files "out/p1.csv".toList = some ((Spec.tableOf "i" [("mean_x", fun x => (damages x).1),
        ("sd_ln_x", fun x => Spec.logSpread (damages x).1 (damages x).2)] [1/2, 2]).map (bench rd).render) := by
  obtain ⟨p, text, σ, hok, ht, hr⟩ := deed_session (rd := rd) (integrated_separate Rates.ideal Rates.idealGsl) ds ev fs
  have hf := total_cost_file_partial (ε := 0) (A := estate) (B := [claim2, claim3, claim4, claim5, razing]) (rid := "t1") (file := "p1") (id := "st")
    (a := .floats [1/2, 2])
    hok ht (by simp [deed, claims, claim1]) (C := []) (by
      intro m hm
      exact claims_sound m (by simpa [claims, claim1] using hm)) hr
    deed_settled (by simp [claim2, claim3, claim4, claim5, razing])
    (alone_of (d := "out".toList) (fun _ _ _ => claims_homes) (by simp [claims]; rfl) rfl (by decide))
    trivial (G := ours) (Gs := [single]) (h := fall) (c := crash) (d := wreck) (r := rebuilt) (k := razed)
    (by simp [claim2, claim3, claim4, claim5, razing]) ⟨rfl, rfl, rfl, rfl, rfl, rfl⟩ claims_covered Rates.idealGsl_ok
    (xs := [1/2, 2]) (by simp [Spec.arguments]) (by simp) (fun x _ => claims_fates x) (fun x _ => claims_payable x)
  obtain ⟨l, h1, h2⟩ := hf
  refine ⟨text, σ, hr, h2.trans ?_⟩
  have : ∀ x ∈ [(1/2 : ℝ), 2], l x = shares x := fun x hx => near_zero (h1 x hx).1
  simp only [Spec.tableOf, List.map_cons, List.map_nil, this (1/2) (by simp), this 2 (by simp)]
  rfl

/-- **C92.** The file of a `structcost --by_fate` recorder: for each intensity the mean costs of repair, of demolition and of
rebuilding, each weighted with the probability of that fate. -/
theorem fate_cost_file_partial
    (hok : ∀ c ∈ ls, Gram.OkCmd p c.2) (ht : Lex.Written (Gram.toks (Gram.writeScript p ls)) text)
    (hl : ls.map (·.2) =
      A ++ .recorder rid (.by_ .fate id a none) (some ⟨file, false⟩) :: B ++ .analyze :: C)
    (hs : ∀ m ∈ A ++ .recorder rid (.by_ .fate id a none) (some ⟨file, false⟩) :: B ++ C,
      m.sound = true)
    (hr : sessionR (integrated maq gsl) ds M ev (start ({}, {}) fs) text = (τ, none))
    (hset : Spec.Settled (ls.map (·.2))) (hB : ∀ b' po, Cmd.recorder rid b' po ∉ B)
    (hal : Spec.Alone (Output.dirOf (Spec.directory (A ++ B))) rid file (A ++ B))
    (hu : Spec.Untouched (Output.fullPath (Output.dirOf (Spec.directory (A ++ B))) file.toList)
      (A ++ .recorder rid (.by_ .fate id a none) (some ⟨file, false⟩) :: B ++ [.analyze]) C)
    (hone : ∀ gs, Cmd.structure_ id gs ∉ B)
    (hde : Spec.Described A.reverse
      (A ++ .recorder rid (.by_ .fate id a none) (some ⟨file, false⟩) :: B).reverse id G Gs h c d r k)
    (hcov : Spec.Covered c d r k) (hg : Rates.Differentiates gsl)
    (ha : Spec.arguments M a = some (xs.map Dbl.fin)) (hx : ∀ x ∈ xs, 0 < x)
    (hfa : ∀ x ∈ xs, 0 ≤ Spec.pDemolition c d x) (hpay : ∀ x ∈ xs, ∀ g ∈ G :: Gs, Spec.Payable maq ε x g)
    (hrs : r.isSome) (hks : k.isSome) :
    ∃ l : ℝ → List (ℝ × ℝ), (∀ x ∈ xs, Spec.Near ε x (G :: Gs) (l x)) ∧
      τ.files (Output.fullPath (Output.dirOf (Spec.directory (A ++ B))) file.toList) =
        some ((Spec.tableOf G.im
          [("repair.mean_x", fun x => (1 - Spec.pLost c d x) * ((l x).map (·.1)).sum),
            ("demo.mean_x", fun x => Spec.pDemolition c d x * (Spec.costOf k).1),
            ("coll.mean_x", fun x => Spec.pCollapse c x * (Spec.costOf r).1)] xs).map M.render) := by
  obtain ⟨σ, hr, hτ⟩ := forget (integrated_separate maq gsl) hok ht hl hs hr hset
  rw [hτ]
  obtain ⟨σA, σZ, hA, hZ, hMA, hMZ, hL⟩ := setup hok ht hl hs hr
  obtain ⟨b, b0, cv, F, hG, hseen, hseen0, hne0, him0, him, hme, hcv, hF1, hF2, hb1, hb2⟩ :=
    structure_at (fun m hm => hs m (List.mem_append_left _ hm)) hA hZ hMA hMZ hL hde.groups (by intro gs; simp) hone hde.hazard
      hde.collapse hde.demolition hde.rebuild hde.clear
  have hval := fun x (hx' : x ∈ xs) =>
    total_found (maq := maq) (gsl := gsl) hg hG (hx x hx') (hpay x hx') hF1 hF2 hb1 hb2 hcov (hfa x hx')
  choose! l e1 e2 e4 e5 e6 e7 using hval
  refine ⟨l, fun x hx' => near_of (hpay x hx') (e1 x hx'), ?_⟩
  obtain ⟨σA', σZ', rc, h1, h2, h3, -, h5⟩ := session_report_partial hok ht hl hs hr hB hal hu (b := .by_ .fate id a none) (by simp only [Spec.request, ha]; rfl)
  obtain rfl : σA = σA' := by rw [hA] at h1; exact (Prod.mk.inj h1).1
  obtain rfl : σZ = σZ' := by rw [hZ] at h2; exact (Prod.mk.inj h2).1
  rw [h5]
  have hs1 : seen (plain (integrated maq gsl) ds) σZ.lib ((plain (integrated maq gsl) ds).find σA.lib
      (Interp.RecBody.registry (.by_ .fate id a none)) (Interp.RecBody.id (.by_ .fate id a none))) = _ := hseen
  have hs2 : seen (plain (integrated maq gsl) ds) σA.lib ((plain (integrated maq gsl) ds).find σA.lib
      (Interp.RecBody.registry (.by_ .fate id a none)) (Interp.RecBody.id (.by_ .fate id a none))) = _ := hseen0
  rw [hs2] at h3
  rw [hs1]
  have hr' : rc = ⟨.structcost, .struct (b0.obj (integrated maq gsl) σA.lib), { structType := some (Spec.costs .fate) },
      some ([Rec.CostColumn.mean].map fun c => .name c.name), (xs.map Dbl.fin).map .flt⟩ := by
    simpa [Rec.make, Rec.mkBase, Rec.defaultColumns, pure, Except.pure, Bind.bind, Except.bind, eq_comm, Spec.costs,
      Rec.CostColumn.name] using h3
  subst hr'
  have hi : (b.obj (integrated maq gsl) σZ.lib).imId = some G.im := him
  have ho : ∀ x, (b.obj (integrated maq gsl) σZ.lib).costsByFate x = (b.costs (integrated maq gsl) (some F)).costsByFate x := by
    intro x
    simp only [Building.obj, him, Option.bind_some, hme, Option.map_some]
  have hp := fate_prints hi { structType := some (Spec.costs .fate) } rfl [.mean] (xs.map Dbl.fin)
  show some ((Rec.printed (Rec.output ⟨.structcost, .struct (b.obj (integrated maq gsl) σZ.lib), _, _, _⟩)).1.map M.render) = _
  rw [hp]
  congr 2
  simp only [Rec.costTable, Spec.tableOf, List.flatMap_cons, List.flatMap_nil, List.map_cons, List.map_nil, List.map_map,
    List.append_nil, List.cons_append, List.nil_append]
  congr 1
  apply List.map_congr_left
  intro x hx'
  have n1 : ("demo" : String) ≠ "repair" := by decide
  have n2 : ("coll" : String) ≠ "repair" := by decide
  have n3 : ("coll" : String) ≠ "demo" := by decide
  simp only [Function.comp, Rec.CostColumn.of, if_true, if_neg n1, if_neg n2, if_neg n3, ho, e5 x hx', e6 x hx' hks, e7 x hx' hrs]
  rfl
example (ds : World → Interp.Printed → String) (ev : String → Except Err Val) (fs : Files) :
    ∃ text σ, sessionR (integrated Rates.ideal Rates.idealGsl) ds (bench rd) ev (start ({}, {}) fs) text = (σ, none) ∧
      σ.files "out/p2.csv".toList = some ((Spec.tableOf "i"
        [("repair.mean_x", fun x => (1 - Spec.pLost crash wreck x) * (billMean x * (17/15))),
          ("demo.mean_x", fun x => Spec.pDemolition crash wreck x * 800),
          ("coll.mean_x", fun x => Spec.pCollapse crash x * 1000)] [1/2, 2]).map (bench rd).render) := by
  obtain ⟨p, text, σ, hok, ht, hr⟩ := deed_session (rd := rd) (integrated_separate Rates.ideal Rates.idealGsl) ds ev fs
  have hf := fate_cost_file_partial (ε := 0) (A := estate ++ [claim1]) (B := [claim3, claim4, claim5, razing]) (rid := "t2") (file := "p2") (id := "st")
    (a := .floats [1/2, 2])
    hok ht (by simp [deed, claims, claim2]) (C := []) (by
      intro m hm
      exact claims_sound m (by simpa [claims, claim2] using hm)) hr
    deed_settled (by simp [claim3, claim4, claim5, razing])
    (alone_of (d := "out".toList) (fun _ _ _ => claims_homes) (by simp [claims]; rfl) rfl (by decide))
    trivial (G := ours) (Gs := [single]) (h := fall) (c := crash) (d := wreck) (r := rebuilt) (k := razed)
    (by simp [claim3, claim4, claim5, razing]) ⟨rfl, rfl, rfl, rfl, rfl, rfl⟩ claims_covered Rates.idealGsl_ok
    (xs := [1/2, 2]) (by simp [Spec.arguments]) (by simp) (fun x _ => claims_fates x) (fun x _ => claims_payable x)
    rfl rfl
  obtain ⟨l, h1, h2⟩ := hf
  refine ⟨text, σ, hr, h2.trans ?_⟩
  have e : ∀ x ∈ [(1/2 : ℝ), 2], ((l x).map (·.1)).sum = billMean x * (17/15) := by
    intro x hx
    rw [near_zero (h1 x hx)]
    simp only [shares, List.map_cons, List.map_nil, List.sum_cons, List.sum_nil]
    ring
  simp only [Spec.tableOf, List.map_cons, List.map_nil, e (1/2) (by simp), e 2 (by simp), razed_mean, rebuilt_mean]
  rfl

/-- **C92.** The file of a `structcost --annual` recorder: what is reported of the annual cost, which is taken to be lognormal; its
mean and mean square are those of the total cost at an intensity, weighted with the slope of the hazard curve. -/
theorem annual_cost_file_partial {mu : Mu} {sp : Sd}
    (hok : ∀ c ∈ ls, Gram.OkCmd p c.2) (ht : Lex.Written (Gram.toks (Gram.writeScript p ls)) text)
    (hl : ls.map (·.2) =
      A ++ .recorder rid (.annual id ⟨some mu, some sp⟩ none) (some ⟨file, false⟩) :: B ++ .analyze :: C)
    (hs : ∀ m ∈ A ++ .recorder rid (.annual id ⟨some mu, some sp⟩ none) (some ⟨file, false⟩) :: B ++ C,
      m.sound = true)
    (hr : sessionR (integrated maq gsl) ds M ev (start ({}, {}) fs) text = (τ, none))
    (hset : Spec.Settled (ls.map (·.2))) (hB : ∀ b' po, Cmd.recorder rid b' po ∉ B)
    (hal : Spec.Alone (Output.dirOf (Spec.directory (A ++ B))) rid file (A ++ B))
    (hu : Spec.Untouched (Output.fullPath (Output.dirOf (Spec.directory (A ++ B))) file.toList)
      (A ++ .recorder rid (.annual id ⟨some mu, some sp⟩ none) (some ⟨file, false⟩) :: B ++ [.analyze]) C)
    (hone : ∀ gs, Cmd.structure_ id gs ∉ B)
    (hde : Spec.Described A.reverse
      (A ++ .recorder rid (.annual id ⟨some mu, some sp⟩ none) (some ⟨file, false⟩) :: B).reverse id G Gs h c d r k)
    (hcov : Spec.Covered c d r k) (hg : Rates.Differentiates gsl)
    (hslope : ∀ x, 0 < x → HasDerivAt h (h' x) x)
    (hfa : ∀ x, 0 < x → 0 ≤ Spec.pDemolition c d x) (hpay : ∀ x, 0 < x → ∀ g ∈ G :: Gs, Spec.Payable maq ε x g)
    (hI : Spec.Yearly maq ε' c d r k (G :: Gs) h') :
    ∃ (l : ℝ → List (ℝ × ℝ)) (m q : ℝ), (∀ x, 0 < x → Spec.Near ε x (G :: Gs) (l x)) ∧ 0 ≤ m ∧
      |m - Spec.perYear (fun x => (Spec.total c d r k x (l x)).1) h'| ≤ ε' ∧
      |q - Spec.perYear (fun x => (Spec.total c d r k x (l x)).2) h'| ≤ ε' ∧
      |m - Spec.perYear (Spec.meanTotal c d r k (G :: Gs)) h'| ≤
        ε' + (G :: Gs).length * ε * ∫ x in Ioi (0 : ℝ), |h' x| ∧
      τ.files (Output.fullPath (Output.dirOf (Spec.directory (A ++ B))) file.toList) =
        some (([[.text (Spec.placed m (m ^ 2 + |q - m ^ 2|) mu).1, .text (Spec.spreadOf m (m ^ 2 + |q - m ^ 2|) sp).1],
          [.num (Spec.placed m (m ^ 2 + |q - m ^ 2|) mu).2,
            .num (Spec.spreadOf m (m ^ 2 + |q - m ^ 2|) sp).2]] : List Rec.Row).map M.render) := by
  obtain ⟨σ, hr, hτ⟩ := forget (integrated_separate maq gsl) hok ht hl hs hr hset
  rw [hτ]
  obtain ⟨σA, σZ, hA, hZ, hMA, hMZ, hL⟩ := setup hok ht hl hs hr
  obtain ⟨b, b0, cv, F, hG, hseen, hseen0, hne0, him0, him, hme, hcv, hF1, hF2, hb1, hb2⟩ :=
    structure_at (fun m hm => hs m (List.mem_append_left _ hm)) hA hZ hMA hMZ hL hde.groups (by intro gs; simp) hone hde.hazard
      hde.collapse hde.demolition hde.rebuild hde.clear
  obtain ⟨l, e1, m, q, m0, hann, b1, b2, b3⟩ := yearly_found hg hG hcv hslope hpay hF1 hF2 hb1 hb2 hcov hfa hI
  refine ⟨l, m, q, fun x hx => near_of (hpay x hx) (e1 x hx), m0, b1, b2, b3, ?_⟩
  obtain ⟨σA', σZ', rc, h1, h2, h3, -, h5⟩ := session_report_partial hok ht hl hs hr hB hal hu (b := .annual id ⟨some mu, some sp⟩ none) rfl
  obtain rfl : σA = σA' := by rw [hA] at h1; exact (Prod.mk.inj h1).1
  obtain rfl : σZ = σZ' := by rw [hZ] at h2; exact (Prod.mk.inj h2).1
  rw [h5]
  have hs1 : seen (plain (integrated maq gsl) ds) σZ.lib ((plain (integrated maq gsl) ds).find σA.lib
      (Interp.RecBody.registry (.annual id ⟨some mu, some sp⟩ none)) (Interp.RecBody.id (.annual id ⟨some mu, some sp⟩ none))) = _ := hseen
  have hs2 : seen (plain (integrated maq gsl) ds) σA.lib ((plain (integrated maq gsl) ds).find σA.lib
      (Interp.RecBody.registry (.annual id ⟨some mu, some sp⟩ none)) (Interp.RecBody.id (.annual id ⟨some mu, some sp⟩ none))) = _ := hseen0
  rw [hs2] at h3
  rw [hs1]
  have hr' : rc = ⟨.structcost, .struct (b0.obj (integrated maq gsl) σA.lib), { structType := some .annual },
      some (Spec.attributes mu sp), []⟩ := by
    simpa [Rec.make, Rec.mkBase, Rec.defaultColumns, pure, Except.pure, Bind.bind, Except.bind, eq_comm, Spec.attributes]
      using h3
  subst hr'
  have ho : (b.obj (integrated maq gsl) σZ.lib).annualCost = lognormal m (m ^ 2 + |q - m ^ 2|) := by
    simp only [Building.obj, him, Option.bind_some, hme, Option.map_some, Option.getD_some]
    exact hann
  show some ((Rec.printed (Rec.output ⟨.structcost, .struct (b.obj (integrated maq gsl) σZ.lib), _, _, _⟩)).1.map M.render) = _
  rw [annual_prints _ _ rfl, ho]
  congr 2
  rw [reported_place m0 (le_add_of_nonneg_right (abs_nonneg _)), reported_spread m0 (le_add_of_nonneg_right (abs_nonneg _))]
  cases mu <;> cases sp <;> rfl
example (ds : World → Interp.Printed → String) (ev : String → Except Err Val) (fs : Files) :
    ∃ text σ, sessionR (integrated Rates.ideal Rates.idealGsl) ds (bench rd) ev (start ({}, {}) fs) text = (σ, none) ∧
      ∃ m q : ℝ, m = Spec.perYear (fun x => (damages x).1) fall' ∧ q = Spec.perYear (fun x => (damages x).2) fall' ∧ 0 < m ∧
        σ.files "out/p3.csv".toList = some (([[.text "mean_x", .text "sd_ln_x"],
          [.num (.fin m), .num (.fin (Spec.logSpread m (m ^ 2 + |q - m ^ 2|)))]] : List Rec.Row).map (bench rd).render) := by
  obtain ⟨p, text, σ, hok, ht, hr⟩ := deed_session (rd := rd) (integrated_separate Rates.ideal Rates.idealGsl) ds ev fs
  have hf := annual_cost_file_partial (ε := 0) (ε' := 0) (h' := fall') (A := estate ++ [claim1, claim2]) (B := [claim4, claim5, razing]) (rid := "t3") (file := "p3") (id := "st")
    (mu := .mean) (sp := .sdLn)
    hok ht (by simp [deed, claims, claim3]) (C := []) (by
      intro m hm
      exact claims_sound m (by simpa [claims, claim3] using hm)) hr
    deed_settled (by simp [claim4, claim5, razing])
    (alone_of (d := "out".toList) (fun _ _ _ => claims_homes) (by simp [claims]; rfl) rfl (by decide))
    trivial (G := ours) (Gs := [single]) (h := fall) (c := crash) (d := wreck) (r := rebuilt) (k := razed)
    (by simp [claim4, claim5, razing]) ⟨rfl, rfl, rfl, rfl, rfl, rfl⟩ claims_covered Rates.idealGsl_ok
    (fun x hx => fall_deriv hx) (fun x _ => claims_fates x) (fun x _ => claims_payable x) claims_yearly
  obtain ⟨l, m, q, h1, h2, h3, h4, -, h5⟩ := hf
  have e : ∀ x, 0 < x → Spec.total crash wreck rebuilt razed x (l x) = damages x := fun x hx => by
    rw [near_zero (h1 x hx)]
    rfl
  have hm : m = Spec.perYear (fun x => (damages x).1) fall' := by
    rw [sub_eq_zero.1 (abs_nonpos_iff.1 h3)]
    exact setIntegral_congr_fun measurableSet_Ioi fun x hx => by
      beta_reduce
      rw [e x hx]
  refine ⟨text, σ, hr, m, q, hm, ?_, hm ▸ damages_yearly rebuilt, h5⟩
  · rw [sub_eq_zero.1 (abs_nonpos_iff.1 h4)]
    exact setIntegral_congr_fun measurableSet_Ioi fun x hx => by
      beta_reduce
      rw [e x hx]

/-- See `present_cost_file_partial`; without a memory. -/
theorem present_cost_computed {σ : State World} {first incr last : ℕ} {rate : ℚ}
    (hok : ∀ c ∈ ls, Gram.OkCmd p c.2) (ht : Lex.Written (Gram.toks (Gram.writeScript p ls)) text)
    (hl : ls.map (·.2) =
      A ++ .recorder rid (.npv id first incr last rate) (some ⟨file, false⟩) :: B ++ .analyze :: C)
    (hs : ∀ m ∈ A ++ .recorder rid (.npv id first incr last rate) (some ⟨file, false⟩) :: B ++ C,
      m.sound = true)
    (hr : session (plain (integrated maq gsl) ds) M ev (start {} fs) text = (σ, none))
    (hB : ∀ b' po, Cmd.recorder rid b' po ∉ B)
    (hal : Spec.Alone (Output.dirOf (Spec.directory (A ++ B))) rid file (A ++ B))
    (hu : Spec.Untouched (Output.fullPath (Output.dirOf (Spec.directory (A ++ B))) file.toList)
      (A ++ .recorder rid (.npv id first incr last rate) (some ⟨file, false⟩) :: B ++ [.analyze]) C)
    (hone : ∀ gs, Cmd.structure_ id gs ∉ B)
    (hde : Spec.Described A.reverse
      (A ++ .recorder rid (.npv id first incr last rate) (some ⟨file, false⟩) :: B).reverse id G Gs h c d r k)
    (hcov : Spec.Covered c d r k) (hg : Rates.Differentiates gsl)
    (hslope : ∀ x, 0 < x → HasDerivAt h (h' x) x)
    (hfa : ∀ x, 0 < x → 0 ≤ Spec.pDemolition c d x) (hpay : ∀ x, 0 < x → ∀ g ∈ G :: Gs, Spec.Payable maq ε x g)
    (hI : Spec.Yearly maq ε' c d r k (G :: Gs) h') (hinc : 0 < incr) (hrate : rate ≠ 0) :
    ∃ (m : ℝ) (ys : List ℕ), 0 ≤ m ∧ |m - Spec.perYear (Spec.meanTotal c d r k (G :: Gs)) h'| ≤
        ε' + (G :: Gs).length * ε * ∫ x in Ioi (0 : ℝ), |h' x| ∧
      ys.Pairwise (· < ·) ∧ (∀ y, y ∈ ys ↔ first ≤ y ∧ y < last ∧ incr ∣ y - first) ∧
      σ.files (Output.fullPath (Output.dirOf (Spec.directory (A ++ B))) file.toList) =
        some (([.text "Year", .text "E[ALt]"] :: ys.map fun y : ℕ =>
          [.int y, .num (.fin (∫ t in (0 : ℝ)..y, m * Real.exp (-rate * t)))] : List Rec.Row).map M.render) := by
  obtain ⟨σA, σZ, hA, hZ, hMA, hMZ, hL⟩ := setup hok ht hl hs hr
  obtain ⟨b, b0, cv, F, hG, hseen, hseen0, hne0, him0, him, hme, hcv, hF1, hF2, hb1, hb2⟩ :=
    structure_at (fun m hm => hs m (List.mem_append_left _ hm)) hA hZ hMA hMZ hL hde.groups (by intro gs; simp) hone hde.hazard
      hde.collapse hde.demolition hde.rebuild hde.clear
  obtain ⟨l, e1, m, q, m0, hann, b1, b2, b3⟩ := yearly_found hg hG hcv hslope hpay hF1 hF2 hb1 hb2 hcov hfa hI
  obtain ⟨ys, hy, hy1, hy2⟩ := Ranges.years_partial first incr last hinc
  refine ⟨m, ys, m0, b3, hy1, hy2, ?_⟩
  obtain ⟨σA', σZ', rc, h1, h2, h3, -, h5⟩ := session_report_partial hok ht hl hs hr hB hal hu (b := .npv id first incr last rate) (by simp only [Spec.request, hy]; rfl)
  obtain rfl : σA = σA' := by rw [hA] at h1; exact (Prod.mk.inj h1).1
  obtain rfl : σZ = σZ' := by rw [hZ] at h2; exact (Prod.mk.inj h2).1
  rw [h5]
  have hs1 : seen (plain (integrated maq gsl) ds) σZ.lib ((plain (integrated maq gsl) ds).find σA.lib
      (Interp.RecBody.registry (.npv id first incr last rate)) (Interp.RecBody.id (.npv id first incr last rate))) = _ := hseen
  have hs2 : seen (plain (integrated maq gsl) ds) σA.lib ((plain (integrated maq gsl) ds).find σA.lib
      (Interp.RecBody.registry (.npv id first incr last rate)) (Interp.RecBody.id (.npv id first incr last rate))) = _ := hseen0
  rw [hs2] at h3
  rw [hs1]
  have hr' : rc = ⟨.structcost, .struct (b0.obj (integrated maq gsl) σA.lib),
      { structType := some .npv, discountRate := some (.fin rate) }, some [.name "mean_x"], ys.map fun (y : ℕ) => .int y⟩ := by
    simpa [Rec.make, Rec.mkBase, Rec.defaultColumns, pure, Except.pure, Bind.bind, Except.bind, eq_comm] using h3
  subst hr'
  have hp := npv_prints (b.obj (integrated maq gsl) σZ.lib) (.fin rate)
    { structType := some .npv, discountRate := some (.fin rate) } rfl rfl (some [.name "mean_x"]) ys
  show some ((Rec.printed (Rec.output ⟨.structcost, .struct (b.obj (integrated maq gsl) σZ.lib), _, _, _⟩)).1.map M.render) = _
  rw [hp]
  have ho : (b.obj (integrated maq gsl) σZ.lib).annualCost = lognormal m (m ^ 2 + |q - m ^ 2|) := by
    simp only [Building.obj, him, Option.bind_some, hme, Option.map_some, Option.getD_some]
    exact hann
  have he : ∀ y : ℕ, (b.obj (integrated maq gsl) σZ.lib).eCost y (.fin rate) =
      .fin (∫ t in (0 : ℝ)..y, m * Real.exp (-rate * t)) := by
    intro y
    show discounted (b.obj (integrated maq gsl) σZ.lib).annualCost.getMean y (.fin rate) = _
    rw [ho, show LogNormalDist.getMean (lognormal m (m ^ 2 + |q - m ^ 2|)) = .fin m from
        reported_place (mu := .mean) m0 (le_add_of_nonneg_right (abs_nonneg _)),
      discounted_is_present_value m rate y (by exact_mod_cast hrate)]
    push_cast
    rfl
  simp only [he]

/-- **C92.** The file of a `structcost --npv` recorder: for each year the cost up to it, with a constant yearly cost that is
discounted continuously. -/
theorem present_cost_file_partial {first incr last : ℕ} {rate : ℚ}
    (hok : ∀ c ∈ ls, Gram.OkCmd p c.2) (ht : Lex.Written (Gram.toks (Gram.writeScript p ls)) text)
    (hl : ls.map (·.2) =
      A ++ .recorder rid (.npv id first incr last rate) (some ⟨file, false⟩) :: B ++ .analyze :: C)
    (hs : ∀ m ∈ A ++ .recorder rid (.npv id first incr last rate) (some ⟨file, false⟩) :: B ++ C,
      m.sound = true)
    (hr : sessionR (integrated maq gsl) ds M ev (start ({}, {}) fs) text = (τ, none))
    (hset : Spec.Settled (ls.map (·.2))) (hB : ∀ b' po, Cmd.recorder rid b' po ∉ B)
    (hal : Spec.Alone (Output.dirOf (Spec.directory (A ++ B))) rid file (A ++ B))
    (hu : Spec.Untouched (Output.fullPath (Output.dirOf (Spec.directory (A ++ B))) file.toList)
      (A ++ .recorder rid (.npv id first incr last rate) (some ⟨file, false⟩) :: B ++ [.analyze]) C)
    (hone : ∀ gs, Cmd.structure_ id gs ∉ B)
    (hde : Spec.Described A.reverse
      (A ++ .recorder rid (.npv id first incr last rate) (some ⟨file, false⟩) :: B).reverse id G Gs h c d r k)
    (hcov : Spec.Covered c d r k) (hg : Rates.Differentiates gsl)
    (hslope : ∀ x, 0 < x → HasDerivAt h (h' x) x)
    (hfa : ∀ x, 0 < x → 0 ≤ Spec.pDemolition c d x) (hpay : ∀ x, 0 < x → ∀ g ∈ G :: Gs, Spec.Payable maq ε x g)
    (hI : Spec.Yearly maq ε' c d r k (G :: Gs) h') (hinc : 0 < incr) (hrate : rate ≠ 0) :
    ∃ (m : ℝ) (ys : List ℕ), 0 ≤ m ∧ |m - Spec.perYear (Spec.meanTotal c d r k (G :: Gs)) h'| ≤
        ε' + (G :: Gs).length * ε * ∫ x in Ioi (0 : ℝ), |h' x| ∧
      ys.Pairwise (· < ·) ∧ (∀ y, y ∈ ys ↔ first ≤ y ∧ y < last ∧ incr ∣ y - first) ∧
      τ.files (Output.fullPath (Output.dirOf (Spec.directory (A ++ B))) file.toList) =
        some (([.text "Year", .text "E[ALt]"] :: ys.map fun y : ℕ =>
          [.int y, .num (.fin (∫ t in (0 : ℝ)..y, m * Real.exp (-rate * t)))] : List Rec.Row).map M.render) := by
  obtain ⟨σ, hr, hτ⟩ := forget (integrated_separate maq gsl) hok ht hl hs hr hset
  rw [hτ]
  exact present_cost_computed hok ht hl hs hr hB hal hu hone hde hcov hg hslope hfa hpay hI hinc hrate
example (ds : World → Interp.Printed → String) (ev : String → Except Err Val) (fs : Files) :
    ∃ text σ, sessionR (integrated Rates.ideal Rates.idealGsl) ds (bench rd) ev (start ({}, {}) fs) text = (σ, none) ∧
      ∃ m : ℝ, 0 < m ∧ m = Spec.perYear (fun x => (damages x).1) fall' ∧
        σ.files "out/p4.csv".toList = some (([[.text "Year", .text "E[ALt]"],
          [.int 10, .num (.fin (∫ t in (0 : ℝ)..10, m * Real.exp (-(1/10) * t)))],
          [.int 20, .num (.fin (∫ t in (0 : ℝ)..20, m * Real.exp (-(1/10) * t)))],
          [.int 30, .num (.fin (∫ t in (0 : ℝ)..30, m * Real.exp (-(1/10) * t)))]] : List Rec.Row).map (bench rd).render) := by
  obtain ⟨p, text, σ, hok, ht, hr⟩ := deed_session (rd := rd) (integrated_separate Rates.ideal Rates.idealGsl) ds ev fs
  have hf := present_cost_file_partial (ε := 0) (ε' := 0) (h' := fall') (A := estate ++ [claim1, claim2, claim3]) (B := [claim5, razing]) (rid := "t4") (file := "p4") (id := "st")
    (first := 10) (incr := 10) (last := 40) (rate := 1/10)
    hok ht (by simp [deed, claims, claim4]) (C := []) (by
      intro m hm
      exact claims_sound m (by simpa [claims, claim4] using hm)) hr
    deed_settled (by simp [claim5, razing])
    (alone_of (d := "out".toList) (fun _ _ _ => claims_homes) (by simp [claims]; rfl) rfl (by decide))
    trivial (G := ours) (Gs := [single]) (h := fall) (c := crash) (d := wreck) (r := rebuilt) (k := razed)
    (by simp [claim5, razing]) ⟨rfl, rfl, rfl, rfl, rfl, rfl⟩ claims_covered Rates.idealGsl_ok
    (fun x hx => fall_deriv hx) (fun x _ => claims_fates x) (fun x _ => claims_payable x) claims_yearly
    (by norm_num) (by norm_num)
  obtain ⟨m, ys, m0, h1, h2, h3, h4⟩ := hf
  have hys : ys = [10, 20, 30] := by
    refine List.Perm.eq_of_pairwise (le := (· < ·)) (by intro a b _ _ h1 h2; omega) h2 (by decide) ?_
    refine (List.perm_ext_iff_of_nodup (h2.imp fun h => ne_of_lt h) (by decide)).2 fun y => ?_
    rw [h3]
    simp only [List.mem_cons, List.not_mem_nil, or_false]
    omega
  subst hys
  have hm : m = Spec.perYear (fun x => (damages x).1) fall' := by
    rw [mul_zero, zero_mul, add_zero] at h1
    rw [sub_eq_zero.1 (abs_nonpos_iff.1 h1)]
    simp only [Spec.perYear, damages_mean, damages]
  refine ⟨text, σ, hr, m, hm ▸ damages_yearly rebuilt, hm, h4.trans ?_⟩
  norm_num

/-- **C92.** The file of a `pdf` recorder: for each intensity the mean cost of the structure times the slope of the hazard curve, without
sign.  The heading has the first six characters of the name of the intensity measure. -/
theorem density_file_partial
    (hok : ∀ c ∈ ls, Gram.OkCmd p c.2) (ht : Lex.Written (Gram.toks (Gram.writeScript p ls)) text)
    (hl : ls.map (·.2) =
      A ++ .recorder rid (.pdf id a false) (some ⟨file, false⟩) :: B ++ .analyze :: C)
    (hs : ∀ m ∈ A ++ .recorder rid (.pdf id a false) (some ⟨file, false⟩) :: B ++ C,
      m.sound = true)
    (hr : sessionR (integrated maq gsl) ds M ev (start ({}, {}) fs) text = (τ, none))
    (hset : Spec.Settled (ls.map (·.2))) (hB : ∀ b' po, Cmd.recorder rid b' po ∉ B)
    (hal : Spec.Alone (Output.dirOf (Spec.directory (A ++ B))) rid file (A ++ B))
    (hu : Spec.Untouched (Output.fullPath (Output.dirOf (Spec.directory (A ++ B))) file.toList)
      (A ++ .recorder rid (.pdf id a false) (some ⟨file, false⟩) :: B ++ [.analyze]) C)
    (hone : ∀ gs, Cmd.structure_ id gs ∉ B)
    (hde : Spec.Described A.reverse
      (A ++ .recorder rid (.pdf id a false) (some ⟨file, false⟩) :: B).reverse id G Gs h c d r k)
    (hcov : Spec.Covered c d r k) (hg : Rates.Differentiates gsl)
    (ha : Spec.arguments M a = some (xs.map Dbl.fin)) (hx : ∀ x ∈ xs, 0 < x)
    (hslope : ∀ x, 0 < x → HasDerivAt h (h' x) x)
    (hfa : ∀ x ∈ xs, 0 ≤ Spec.pDemolition c d x) (hpay : ∀ x ∈ xs, ∀ g ∈ G :: Gs, Spec.Payable maq ε x g) :
    ∃ l : ℝ → List (ℝ × ℝ), (∀ x ∈ xs, Spec.Near ε x (G :: Gs) (l x) ∧
        |(Spec.total c d r k x (l x)).1 - Spec.meanTotal c d r k (G :: Gs) x| ≤ (G :: Gs).length * ε) ∧
      τ.files (Output.fullPath (Output.dirOf (Spec.directory (A ++ B))) file.toList) =
        some ((Spec.tableOf (String.ofList (G.im.toList.take 6))
          [("pdf", fun x => (Spec.total c d r k x (l x)).1 * |h' x|)] xs).map M.render) := by
  obtain ⟨σ, hr, hτ⟩ := forget (integrated_separate maq gsl) hok ht hl hs hr hset
  rw [hτ]
  obtain ⟨σA, σZ, hA, hZ, hMA, hMZ, hL⟩ := setup hok ht hl hs hr
  obtain ⟨b, b0, cv, F, hG, hseen, hseen0, hne0, him0, him, hme, hcv, hF1, hF2, hb1, hb2⟩ :=
    structure_at (fun m hm => hs m (List.mem_append_left _ hm)) hA hZ hMA hMZ hL hde.groups (by intro gs; simp) hone hde.hazard
      hde.collapse hde.demolition hde.rebuild hde.clear
  have hval := fun x (hx' : x ∈ xs) =>
    total_found (maq := maq) (gsl := gsl) hg hG (hx x hx') (hpay x hx') hF1 hF2 hb1 hb2 hcov (hfa x hx')
  choose! l e1 e2 e4 _ _ _ using hval
  refine ⟨l, fun x hx' => ⟨near_of (hpay x hx') (e1 x hx'), ?_⟩, ?_⟩
  · obtain ⟨-, f1, f2⟩ := fate_range (hx x hx') hcov.demolition (hfa x hx')
    exact total_near (e1 x hx') (hpay x hx') f1 f2
  obtain ⟨σA', σZ', rc, h1, h2, h3, -, h5⟩ := session_report_partial hok ht hl hs hr hB hal hu (b := .pdf id a false) (by simp only [Spec.request, ha]; rfl)
  obtain rfl : σA = σA' := by rw [hA] at h1; exact (Prod.mk.inj h1).1
  obtain rfl : σZ = σZ' := by rw [hZ] at h2; exact (Prod.mk.inj h2).1
  rw [h5]
  have hs1 : seen (plain (integrated maq gsl) ds) σZ.lib ((plain (integrated maq gsl) ds).find σA.lib
      (Interp.RecBody.registry (.pdf id a false)) (Interp.RecBody.id (.pdf id a false))) = _ := hseen
  have hs2 : seen (plain (integrated maq gsl) ds) σA.lib ((plain (integrated maq gsl) ds).find σA.lib
      (Interp.RecBody.registry (.pdf id a false)) (Interp.RecBody.id (.pdf id a false))) = _ := hseen0
  rw [hs2] at h3
  rw [hs1]
  have hr' : rc = ⟨.pdf, .struct (b0.obj (integrated maq gsl) σA.lib), { normalise := false }, none,
      (xs.map Dbl.fin).map .flt⟩ := by
    simpa [Rec.make, Rec.mkBase, Rec.defaultColumns, pure, Except.pure, Bind.bind, Except.bind, eq_comm] using h3
  subst hr'
  have hi : (b.obj (integrated maq gsl) σZ.lib).imId = some G.im := him
  have hp := pdf_prints (xs := xs.map Dbl.fin) hi { normalise := false } rfl none
  show some ((Rec.printed (Rec.output ⟨.pdf, .struct (b.obj (integrated maq gsl) σZ.lib), _, _, _⟩)).1.map M.render) = _
  rw [hp]
  congr 2
  simp only [Spec.tableOf, List.map_cons, List.map_nil, List.map_map, List.cons.injEq, true_and]
  apply List.map_congr_left
  intro x hx'
  have ho : (b.obj (integrated maq gsl) σZ.lib).pdf (.fin x) = .fin ((Spec.total c d r k x (l x)).1 * |h' x|) := by
    simp only [Building.obj, him, Option.bind_some, hme, Option.map_some, Option.getD_some, StructCosts.pdf, e4 x hx',
      (lognormal_reports (e2 x hx')).2.1]
    show Dbl.fin _ * Dbl.abs (gsl.deriv cv (.fin x)) = _
    rw [hg cv h x (h' x) (hx x hx') hcv (hslope x (hx x hx'))]
    rfl
  simp only [Function.comp, ho]
  congr 3
  show Dbl.fin _ / Dbl.fin 1 = _
  rw [Dbl.fin_div_of_ne one_ne_zero, div_one]
example (ds : World → Interp.Printed → String) (ev : String → Except Err Val) (fs : Files) :
    ∃ text σ, sessionR (integrated Rates.ideal Rates.idealGsl) ds (bench rd) ev (start ({}, {}) fs) text = (σ, none) ∧
      σ.files "out/p5.csv".toList = some ((Spec.tableOf "i" [("pdf", fun x => (damages x).1 * |fall' x|)]
        [1/2, 2]).map (bench rd).render) := by
  obtain ⟨p, text, σ, hok, ht, hr⟩ := deed_session (rd := rd) (integrated_separate Rates.ideal Rates.idealGsl) ds ev fs
  have hf := density_file_partial (ε := 0) (h' := fall') (A := estate ++ [claim1, claim2, claim3, claim4]) (B := [razing]) (rid := "t5") (file := "p5") (id := "st")
    (a := .floats [1/2, 2])
    hok ht (by simp [deed, claims, claim5]) (C := []) (by
      intro m hm
      exact claims_sound m (by simpa [claims, claim5] using hm)) hr
    deed_settled (by simp [razing])
    (alone_of (d := "out".toList) (fun _ _ _ => claims_homes) (by simp [claims]; rfl) rfl (by decide))
    trivial (G := ours) (Gs := [single]) (h := fall) (c := crash) (d := wreck) (r := rebuilt) (k := razed)
    (by simp [razing]) ⟨rfl, rfl, rfl, rfl, rfl, rfl⟩ claims_covered Rates.idealGsl_ok
    (xs := [1/2, 2]) (by simp [Spec.arguments]) (by simp) (fun x hx => fall_deriv hx) (fun x _ => claims_fates x)
    (fun x _ => claims_payable x)
  obtain ⟨l, h1, h2⟩ := hf
  refine ⟨text, σ, hr, h2.trans ?_⟩
  have : ∀ x ∈ [(1/2 : ℝ), 2], l x = shares x := fun x hx => near_zero (h1 x hx).1
  simp only [Spec.tableOf, List.map_cons, List.map_nil, this (1/2) (by simp), this 2 (by simp)]
  rfl

end

end Slat.Session
