import Verif.SessionPriceLemmas
import Verif.SessionStructProps

/-!
# Costs that are not given are reported as missing

C96: if a structure can collapse or be demolished and the cost of that is not given, what is written of its total, annual and
discounted costs and of the density of its cost is not a number; it is never the cost without that part.  A normalised density
stops the session.
-/

namespace Slat.Session

open MeasureTheory Set Filter Topology

noncomputable section

open Interp (Val Call Cmd Cfg Err Mu Sd DistCmd Sc)
open Output (Path Files)

variable {rd : Rec.Row → String}

variable {maq : Rates.Maq} {gsl : Rates.Gsl} {ε : ℝ} {ds : World → Interp.Printed → String} {M : Machine}
  {ev : String → Except Err Val} {p : Gram.Pen} {ls : List (Gram.Style × Cmd)} {text : List Char}
  {A B C : List Cmd} {rid file id : String} {a : Interp.At} {fs : Files} {τ : State (World × Memory)} {xs : List ℝ}
  {G : Spec.Components} {Gs : List Spec.Components} {h : ℝ → ℝ} {c d r k : Option (Mu × Sd × ℝ × ℝ)}

/-- **C96.** The file of a `totalcost` recorder, if the structure can collapse or be demolished at each of the intensities and
no cost is given for it: there is no number for the mean cost, nor for the spread, whatever the groups cost and whatever the
integrator finds. -/
theorem missing_price_total_partial
    (hok : ∀ c ∈ ls, Gram.OkCmd p c.2) (ht : Lex.Written (Gram.toks (Gram.writeScript p ls)) text)
    (hl : ls.map (·.2) =
      A ++ .recorder rid (.rates .totalcost id a) (some ⟨file, false⟩) :: B ++ .analyze :: C)
    (hs : ∀ m ∈ A ++ .recorder rid (.rates .totalcost id a) (some ⟨file, false⟩) :: B ++ C,
      m.sound = true)
    (hr : sessionR (integrated maq gsl) ds M ev (start ({}, {}) fs) text = (τ, none))
    (hset : Spec.Settled (ls.map (·.2))) (hB : ∀ b' po, Cmd.recorder rid b' po ∉ B)
    (hal : Spec.Alone (Output.dirOf (Spec.directory (A ++ B))) rid file (A ++ B))
    (hu : Spec.Untouched (Output.fullPath (Output.dirOf (Spec.directory (A ++ B))) file.toList)
      (A ++ .recorder rid (.rates .totalcost id a) (some ⟨file, false⟩) :: B ++ [.analyze]) C)
    (hone : ∀ gs, Cmd.structure_ id gs ∉ B)
    (hde : Spec.Described A.reverse
      (A ++ .recorder rid (.rates .totalcost id a) (some ⟨file, false⟩) :: B).reverse id G Gs h c d r k)
    (hlaw : Spec.Lawful c d r k)
    (ha : Spec.arguments M a = some (xs.map Dbl.fin)) (hx : ∀ x ∈ xs, 0 < x) (hun : ∀ x ∈ xs, Spec.Unpriced c d r k x) :
    τ.files (Output.fullPath (Output.dirOf (Spec.directory (A ++ B))) file.toList) =
      some (([.text G.im, .text "mean_x", .text "sd_ln_x"] ::
        xs.map fun x => [.num (.fin x), .num .nan, .num .nan] : List Rec.Row).map M.render) := by
  obtain ⟨σ, hr, hτ⟩ := forget (integrated_separate maq gsl) hok ht hl hs hr hset
  rw [hτ]
  obtain ⟨σA, σZ, hA, hZ, hMA, hMZ, hL⟩ := setup hok ht hl hs hr
  obtain ⟨b, b0, cv, F, hG, hseen, hseen0, hne0, him0, him, hme, hcv, hF1, hF2, hb1, hb2⟩ :=
    structure_at (fun m hm => hs m (List.mem_append_left _ hm)) hA hZ hMA hMZ hL hde.groups (by intro gs; simp) hone hde.hazard
      hde.collapse hde.demolition hde.rebuild hde.clear
  have hord : Spec.order M (.rates .totalcost id a) = some (.totalcost, none, xs.map Dbl.fin) := by
    simp [Spec.order, ha, Spec.kindAt]
  refine session_table_partial hok ht hl hs hr hB hal hu hord trivial hA hZ ?_
    (by intro g g' _ _ hk; rcases hk with hk | hk <;> cases hk)
    (by intro g x _ hk; cases hk)
  show Rec.Spec.table _ (seen (plain (integrated maq gsl) ds) σZ.lib
    ((plain (integrated maq gsl) ds).find σA.lib "structure" id)) _ _ = _
  rw [hseen]
  have ho : ∀ x ∈ xs, (b.obj (integrated maq gsl) σZ.lib).totalCost (.fin x) = LogNormalDist.unset := by
    intro x hx'
    simp only [Building.obj, him, Option.bind_some, hme, Option.map_some,
      unpriced_building (hx x hx') hlaw hF1 hF2 hb1 hb2 (hun x hx'), Option.getD_some]
  have hi : (b.obj (integrated maq gsl) σZ.lib).imId = some G.im := him
  simp only [Rec.Spec.table, Rec.Spec.argument, Rec.Spec.columns, hi, Option.bind_eq_bind,
    Option.bind_some, Option.pure_def, Option.map_some, List.map_cons, List.map_nil, List.map_map,
    Option.some.injEq, List.cons.injEq, true_and]
  have hc : Rec.Spec.chosen (Rec.Spec.ofDist (b.obj (integrated maq gsl) σZ.lib).totalCost)
      ((none : Option (List Rec.Col)).getD [.name "mean_x", .name "sd_ln_x"]) =
      some [(.text "mean_x", fun x => ((b.obj (integrated maq gsl) σZ.lib).totalCost x).getMean),
        (.text "sd_ln_x", fun x => ((b.obj (integrated maq gsl) σZ.lib).totalCost x).getSigmaLn)] := rfl
  rw [hc]
  simp only [Option.bind_some, List.map_cons, List.map_nil, Option.some.injEq, List.cons.injEq, true_and]
  apply List.map_congr_left
  intro x hx'
  simp only [Function.comp, ho x hx', unset_mean]
  rfl
example (ds : World → Interp.Printed → String) (ev : String → Except Err Val) (fs : Files) :
    ∃ text σ, sessionR (integrated Rates.ideal Rates.idealGsl) ds (bench rd) ev (start ({}, {}) fs) text = (σ, none) ∧
      σ.files "out/p1.csv".toList = some (([[.text "i", .text "mean_x", .text "sd_ln_x"], [.num (.fin (1/2)), .num .nan, .num .nan],
        [.num (.fin 2), .num .nan, .num .nan]] : List Rec.Row).map (bench rd).render) := by
  obtain ⟨p, text, σ, hok, ht, hr⟩ := bare_session (integrated_separate Rates.ideal Rates.idealGsl) rd ds ev fs
  have hf := missing_price_total_partial (A := estate) (B := [claim2, claim3, claim4, claim5]) (rid := "t1") (file := "p1") (id := "st")
    (a := .floats [1/2, 2])
    hok ht (by simp [bareScript, bare, claim1]) (C := []) (by
      intro m hm
      exact bare_sound m (by simpa [bare, claim1] using hm)) hr
    bare_settled (by simp [claim2, claim3, claim4, claim5])
    (alone_of (d := "out".toList) (fun _ _ _ => bare_homes) (by simp [bare]; rfl) rfl (by decide))
    trivial (G := ours) (Gs := [single]) (h := fall) (c := crash) (d := wreck) (r := rebuilt) (k := none)
    (by simp [claim2, claim3, claim4, claim5]) ⟨rfl, rfl, rfl, rfl, rfl, rfl⟩ bare_lawful (xs := [1/2, 2]) (by simp [Spec.arguments]) (by simp)
    (fun x _ => bare_unpriced x)
  exact ⟨text, σ, hr, hf⟩

/-- **C96.** The file of a `structcost --annual` recorder, if the structure can collapse or be demolished at the intensity 1 and
no cost is given for it: there are no numbers.  The integrator is one that does not take what is not a number at 1 for a
success (`Maq.nan_noticed`). -/
theorem missing_price_annual_partial {mu : Mu} {sp : Sd}
    (hok : ∀ c ∈ ls, Gram.OkCmd p c.2) (ht : Lex.Written (Gram.toks (Gram.writeScript p ls)) text)
    (hl : ls.map (·.2) =
      A ++ .recorder rid (.annual id ⟨some mu, some sp⟩ none) (some ⟨file, false⟩) :: B ++ .analyze :: C)
    (hs : ∀ m ∈ A ++ .recorder rid (.annual id ⟨some mu, some sp⟩ none) (some ⟨file, false⟩) :: B ++ C,
      m.sound = true)
    (hr : sessionR (integrated maq gsl) ds M ev (start ({}, {}) fs) text = (τ, none))
    (hset : Spec.Settled (ls.map (·.2))) (hB : ∀ b' po, Cmd.recorder rid b' po ∉ B)
    (hal : Spec.Alone (Output.dirOf (Spec.directory (A ++ B))) rid file (A ++ B))
    (hu : Spec.Untouched (Output.fullPath (Output.dirOf (Spec.directory (A ++ B))) file.toList)
      (A ++ .recorder rid (.annual id ⟨some mu, some sp⟩ none) (some ⟨file, false⟩) :: B ++ [.analyze]) C)
    (hone : ∀ gs, Cmd.structure_ id gs ∉ B)
    (hde : Spec.Described A.reverse
      (A ++ .recorder rid (.annual id ⟨some mu, some sp⟩ none) (some ⟨file, false⟩) :: B).reverse id G Gs h c d r k)
    (hlaw : Spec.Lawful c d r k)
    (hn : ∀ f : Dbl → Dbl, f (.fin 1) = .nan → (maq f).1 = false) (hun : Spec.Unpriced c d r k 1) :
    τ.files (Output.fullPath (Output.dirOf (Spec.directory (A ++ B))) file.toList) =
      some (([[.text (Spec.placed 0 0 mu).1, .text (Spec.spreadOf 0 0 sp).1], [.num .nan, .num .nan]] : List Rec.Row).map
        M.render) := by
  obtain ⟨σ, hr, hτ⟩ := forget (integrated_separate maq gsl) hok ht hl hs hr hset
  rw [hτ]
  obtain ⟨σA, σZ, hA, hZ, hMA, hMZ, hL⟩ := setup hok ht hl hs hr
  obtain ⟨b, b0, cv, F, hG, hseen, hseen0, hne0, him0, him, hme, hcv, hF1, hF2, hb1, hb2⟩ :=
    structure_at (fun m hm => hs m (List.mem_append_left _ hm)) hA hZ hMA hMZ hL hde.groups (by intro gs; simp) hone hde.hazard
      hde.collapse hde.demolition hde.rebuild hde.clear
  obtain ⟨σA', σZ', rc, h1, h2, h3, -, h5⟩ := session_report_partial hok ht hl hs hr hB hal hu (b := .annual id ⟨some mu, some sp⟩ none) rfl
  obtain rfl : σA = σA' := by rw [hA] at h1; exact (Prod.mk.inj h1).1
  obtain rfl : σZ = σZ' := by rw [hZ] at h2; exact (Prod.mk.inj h2).1
  rw [h5]
  have hs1 : seen (plain (integrated maq gsl) ds) σZ.lib ((plain (integrated maq gsl) ds).find σA.lib
      (Interp.RecBody.registry (.annual id ⟨some mu, some sp⟩ none)) (Interp.RecBody.id (.annual id ⟨some mu, some sp⟩ none))) = _ := hseen
  have hs2 : seen (plain (integrated maq gsl) ds) σA.lib ((plain (integrated maq gsl) ds).find σA.lib
      (Interp.RecBody.registry (.annual id ⟨some mu, some sp⟩ none)) (Interp.RecBody.id (.annual id ⟨some mu, some sp⟩ none))) = _ := hseen0
  rw [hs2] at h3
  rw [hs1]
  have hr' : rc = ⟨.structcost, .struct (b0.obj (integrated maq gsl) σA.lib), { structType := some .annual },
      some (Spec.attributes mu sp), []⟩ := by
    simpa [Rec.make, Rec.mkBase, Rec.defaultColumns, pure, Except.pure, Bind.bind, Except.bind, eq_comm, Spec.attributes]
      using h3
  subst hr'
  have ho : (b.obj (integrated maq gsl) σZ.lib).annualCost = LogNormalDist.unset := by
    simp only [Building.obj, him, Option.bind_some, hme, Option.map_some, Option.getD_some]
    exact annual_unpriced hn (by rw [unpriced_building one_pos hlaw hF1 hF2 hb1 hb2 hun]; rfl)
  show some ((Rec.printed (Rec.output ⟨.structcost, .struct (b.obj (integrated maq gsl) σZ.lib), _, _, _⟩)).1.map M.render) = _
  rw [annual_prints _ _ rfl, ho, unset_place, unset_width]
example (ds : World → Interp.Printed → String) (ev : String → Except Err Val) (fs : Files) :
    ∃ text σ, sessionR (integrated noticing Rates.idealGsl) ds (bench rd) ev (start ({}, {}) fs) text = (σ, none) ∧
      σ.files "out/p3.csv".toList = some (([[.text "mean_x", .text "sd_ln_x"], [.num .nan, .num .nan]] : List Rec.Row).map (bench rd).render) := by
  obtain ⟨p, text, σ, hok, ht, hr⟩ := bare_session (integrated_separate noticing Rates.idealGsl) rd ds ev fs
  have hf := missing_price_annual_partial (A := estate ++ [claim1, claim2]) (B := [claim4, claim5]) (rid := "t3") (file := "p3") (id := "st")
    (mu := .mean) (sp := .sdLn)
    hok ht (by simp [bareScript, bare, claim3]) (C := []) (by
      intro m hm
      exact bare_sound m (by simpa [bare, claim3] using hm)) hr
    bare_settled (by simp [claim4, claim5])
    (alone_of (d := "out".toList) (fun _ _ _ => bare_homes) (by simp [bare]; rfl) rfl (by decide))
    trivial (G := ours) (Gs := [single]) (h := fall) (c := crash) (d := wreck) (r := rebuilt) (k := none)
    (by simp [claim4, claim5]) ⟨rfl, rfl, rfl, rfl, rfl, rfl⟩ bare_lawful noticing_notices (bare_unpriced 1)
  exact ⟨text, σ, hr, hf⟩

/-- **C96.** The file of a `structcost --npv` recorder, if the structure can collapse or be demolished at the intensity 1 and
no cost is given for it: there is no number for any year. -/
theorem missing_price_present_partial {first incr last : ℕ} {rate : ℚ}
    (hok : ∀ c ∈ ls, Gram.OkCmd p c.2) (ht : Lex.Written (Gram.toks (Gram.writeScript p ls)) text)
    (hl : ls.map (·.2) =
      A ++ .recorder rid (.npv id first incr last rate) (some ⟨file, false⟩) :: B ++ .analyze :: C)
    (hs : ∀ m ∈ A ++ .recorder rid (.npv id first incr last rate) (some ⟨file, false⟩) :: B ++ C,
      m.sound = true)
    (hr : sessionR (integrated maq gsl) ds M ev (start ({}, {}) fs) text = (τ, none))
    (hset : Spec.Settled (ls.map (·.2))) (hB : ∀ b' po, Cmd.recorder rid b' po ∉ B)
    (hal : Spec.Alone (Output.dirOf (Spec.directory (A ++ B))) rid file (A ++ B))
    (hu : Spec.Untouched (Output.fullPath (Output.dirOf (Spec.directory (A ++ B))) file.toList)
      (A ++ .recorder rid (.npv id first incr last rate) (some ⟨file, false⟩) :: B ++ [.analyze]) C)
    (hone : ∀ gs, Cmd.structure_ id gs ∉ B)
    (hde : Spec.Described A.reverse
      (A ++ .recorder rid (.npv id first incr last rate) (some ⟨file, false⟩) :: B).reverse id G Gs h c d r k)
    (hlaw : Spec.Lawful c d r k)
    (hn : ∀ f : Dbl → Dbl, f (.fin 1) = .nan → (maq f).1 = false) (hun : Spec.Unpriced c d r k 1) (hinc : 0 < incr) :
    ∃ ys : List ℕ, ys.Pairwise (· < ·) ∧ (∀ y, y ∈ ys ↔ first ≤ y ∧ y < last ∧ incr ∣ y - first) ∧
      τ.files (Output.fullPath (Output.dirOf (Spec.directory (A ++ B))) file.toList) =
        some (([.text "Year", .text "E[ALt]"] :: ys.map fun y : ℕ => [.int y, .num .nan] : List Rec.Row).map M.render) := by
  obtain ⟨σ, hr, hτ⟩ := forget (integrated_separate maq gsl) hok ht hl hs hr hset
  rw [hτ]
  obtain ⟨σA, σZ, hA, hZ, hMA, hMZ, hL⟩ := setup hok ht hl hs hr
  obtain ⟨b, b0, cv, F, hG, hseen, hseen0, hne0, him0, him, hme, hcv, hF1, hF2, hb1, hb2⟩ :=
    structure_at (fun m hm => hs m (List.mem_append_left _ hm)) hA hZ hMA hMZ hL hde.groups (by intro gs; simp) hone hde.hazard
      hde.collapse hde.demolition hde.rebuild hde.clear
  obtain ⟨ys, hy, hy1, hy2⟩ := Ranges.years_partial first incr last hinc
  refine ⟨ys, hy1, hy2, ?_⟩
  obtain ⟨σA', σZ', rc, h1, h2, h3, -, h5⟩ := session_report_partial hok ht hl hs hr hB hal hu (b := .npv id first incr last rate) (by simp only [Spec.request, hy]; rfl)
  obtain rfl : σA = σA' := by rw [hA] at h1; exact (Prod.mk.inj h1).1
  obtain rfl : σZ = σZ' := by rw [hZ] at h2; exact (Prod.mk.inj h2).1
  rw [h5]
  have hs1 : seen (plain (integrated maq gsl) ds) σZ.lib ((plain (integrated maq gsl) ds).find σA.lib
      (Interp.RecBody.registry (.npv id first incr last rate)) (Interp.RecBody.id (.npv id first incr last rate))) = _ := hseen
  have hs2 : seen (plain (integrated maq gsl) ds) σA.lib ((plain (integrated maq gsl) ds).find σA.lib
      (Interp.RecBody.registry (.npv id first incr last rate)) (Interp.RecBody.id (.npv id first incr last rate))) = _ := hseen0
  rw [hs2] at h3
  rw [hs1]
  have hr' : rc = ⟨.structcost, .struct (b0.obj (integrated maq gsl) σA.lib),
      { structType := some .npv, discountRate := some (.fin rate) }, some [.name "mean_x"], ys.map fun (y : ℕ) => .int y⟩ := by
    simpa [Rec.make, Rec.mkBase, Rec.defaultColumns, pure, Except.pure, Bind.bind, Except.bind, eq_comm] using h3
  subst hr'
  have hp := npv_prints (b.obj (integrated maq gsl) σZ.lib) (.fin rate)
    { structType := some .npv, discountRate := some (.fin rate) } rfl rfl (some [.name "mean_x"]) ys
  show some ((Rec.printed (Rec.output ⟨.structcost, .struct (b.obj (integrated maq gsl) σZ.lib), _, _, _⟩)).1.map M.render) = _
  rw [hp]
  have ho : (b.obj (integrated maq gsl) σZ.lib).annualCost = LogNormalDist.unset := by
    simp only [Building.obj, him, Option.bind_some, hme, Option.map_some, Option.getD_some]
    exact annual_unpriced hn (by rw [unpriced_building one_pos hlaw hF1 hF2 hb1 hb2 hun]; rfl)
  have he : ∀ y : ℕ, (b.obj (integrated maq gsl) σZ.lib).eCost y (.fin rate) = .nan := by
    intro y
    show discounted (b.obj (integrated maq gsl) σZ.lib).annualCost.getMean y (.fin rate) = _
    rw [ho, unset_mean, discounted, Dbl.mul_nan]
  simp only [he]
example (ds : World → Interp.Printed → String) (ev : String → Except Err Val) (fs : Files) :
    ∃ text σ, sessionR (integrated noticing Rates.idealGsl) ds (bench rd) ev (start ({}, {}) fs) text = (σ, none) ∧
      σ.files "out/p4.csv".toList = some (([[.text "Year", .text "E[ALt]"], [.int 10, .num .nan], [.int 20, .num .nan],
        [.int 30, .num .nan]] : List Rec.Row).map (bench rd).render) := by
  obtain ⟨p, text, σ, hok, ht, hr⟩ := bare_session (integrated_separate noticing Rates.idealGsl) rd ds ev fs
  have hf := missing_price_present_partial (A := estate ++ [claim1, claim2, claim3]) (B := [claim5]) (rid := "t4") (file := "p4") (id := "st")
    (first := 10) (incr := 10) (last := 40) (rate := 1/10)
    hok ht (by simp [bareScript, bare, claim4]) (C := []) (by
      intro m hm
      exact bare_sound m (by simpa [bare, claim4] using hm)) hr
    bare_settled (by simp [claim5])
    (alone_of (d := "out".toList) (fun _ _ _ => bare_homes) (by simp [bare]; rfl) rfl (by decide))
    trivial (G := ours) (Gs := [single]) (h := fall) (c := crash) (d := wreck) (r := rebuilt) (k := none)
    (by simp [claim5]) ⟨rfl, rfl, rfl, rfl, rfl, rfl⟩ bare_lawful noticing_notices (bare_unpriced 1) (by norm_num)
  obtain ⟨ys, h2, h3, h4⟩ := hf
  refine ⟨text, σ, hr, ?_⟩
  have : ys = [10, 20, 30] := by
    refine List.Perm.eq_of_pairwise (le := (· < ·)) (by intro a b _ _ h1 h2; omega) h2 (by decide) ?_
    refine (List.perm_ext_iff_of_nodup (h2.imp fun h => ne_of_lt h) (by decide)).2 fun y => ?_
    rw [h3]
    simp only [List.mem_cons, List.not_mem_nil, or_false]
    omega
  subst this
  exact h4

/-- **C96.** The file of a `structcost --by_fate` recorder, whatever costs are given: the cost of repair is a number, those of
demolition and of rebuilding are numbers exactly if they are given. -/
theorem fate_shares_file_partial
    (hok : ∀ c ∈ ls, Gram.OkCmd p c.2) (ht : Lex.Written (Gram.toks (Gram.writeScript p ls)) text)
    (hl : ls.map (·.2) =
      A ++ .recorder rid (.by_ .fate id a none) (some ⟨file, false⟩) :: B ++ .analyze :: C)
    (hs : ∀ m ∈ A ++ .recorder rid (.by_ .fate id a none) (some ⟨file, false⟩) :: B ++ C,
      m.sound = true)
    (hr : sessionR (integrated maq gsl) ds M ev (start ({}, {}) fs) text = (τ, none))
    (hset : Spec.Settled (ls.map (·.2))) (hB : ∀ b' po, Cmd.recorder rid b' po ∉ B)
    (hal : Spec.Alone (Output.dirOf (Spec.directory (A ++ B))) rid file (A ++ B))
    (hu : Spec.Untouched (Output.fullPath (Output.dirOf (Spec.directory (A ++ B))) file.toList)
      (A ++ .recorder rid (.by_ .fate id a none) (some ⟨file, false⟩) :: B ++ [.analyze]) C)
    (hone : ∀ gs, Cmd.structure_ id gs ∉ B)
    (hde : Spec.Described A.reverse
      (A ++ .recorder rid (.by_ .fate id a none) (some ⟨file, false⟩) :: B).reverse id G Gs h c d r k)
    (hlaw : Spec.Lawful c d r k)
    (hg : Rates.Differentiates gsl)
    (ha : Spec.arguments M a = some (xs.map Dbl.fin)) (hx : ∀ x ∈ xs, 0 < x)
    (hfa : ∀ x ∈ xs, 0 ≤ Spec.pDemolition c d x) (hpay : ∀ x ∈ xs, ∀ g ∈ G :: Gs, Spec.Payable maq ε x g) :
    ∃ l : ℝ → List (ℝ × ℝ), (∀ x ∈ xs, Spec.Near ε x (G :: Gs) (l x)) ∧
      τ.files (Output.fullPath (Output.dirOf (Spec.directory (A ++ B))) file.toList) =
        some (([.text G.im, .text "repair.mean_x", .text "demo.mean_x", .text "coll.mean_x"] ::
          xs.map fun x => [.num (.fin x), .num (.fin ((1 - Spec.pLost c d x) * ((l x).map (·.1)).sum)),
            .num (Spec.share k (Spec.pDemolition c d x)), .num (Spec.share r (Spec.pCollapse c x))] : List Rec.Row).map
              M.render) := by
  obtain ⟨σ, hr, hτ⟩ := forget (integrated_separate maq gsl) hok ht hl hs hr hset
  rw [hτ]
  obtain ⟨σA, σZ, hA, hZ, hMA, hMZ, hL⟩ := setup hok ht hl hs hr
  obtain ⟨b, b0, cv, F, hG, hseen, hseen0, hne0, him0, him, hme, hcv, hF1, hF2, hb1, hb2⟩ :=
    structure_at (fun m hm => hs m (List.mem_append_left _ hm)) hA hZ hMA hMZ hL hde.groups (by intro gs; simp) hone hde.hazard
      hde.collapse hde.demolition hde.rebuild hde.clear
  have hval := fun x (hx' : x ∈ xs) => shares_found (maq := maq) (gsl := gsl) hg hG (hx x hx') (hpay x hx') hF1 hF2
    hb1 hb2 hlaw (hfa x hx')
  choose! l e1 e5 e6 e7 using hval
  refine ⟨l, fun x hx' => near_of (hpay x hx') (e1 x hx'), ?_⟩
  obtain ⟨σA', σZ', rc, h1, h2, h3, -, h5⟩ := session_report_partial hok ht hl hs hr hB hal hu (b := .by_ .fate id a none) (by simp only [Spec.request, ha]; rfl)
  obtain rfl : σA = σA' := by rw [hA] at h1; exact (Prod.mk.inj h1).1
  obtain rfl : σZ = σZ' := by rw [hZ] at h2; exact (Prod.mk.inj h2).1
  rw [h5]
  have hs1 : seen (plain (integrated maq gsl) ds) σZ.lib ((plain (integrated maq gsl) ds).find σA.lib
      (Interp.RecBody.registry (.by_ .fate id a none)) (Interp.RecBody.id (.by_ .fate id a none))) = _ := hseen
  have hs2 : seen (plain (integrated maq gsl) ds) σA.lib ((plain (integrated maq gsl) ds).find σA.lib
      (Interp.RecBody.registry (.by_ .fate id a none)) (Interp.RecBody.id (.by_ .fate id a none))) = _ := hseen0
  rw [hs2] at h3
  rw [hs1]
  have hr' : rc = ⟨.structcost, .struct (b0.obj (integrated maq gsl) σA.lib), { structType := some (Spec.costs .fate) },
      some ([Rec.CostColumn.mean].map fun c => .name c.name), (xs.map Dbl.fin).map .flt⟩ := by
    simpa [Rec.make, Rec.mkBase, Rec.defaultColumns, pure, Except.pure, Bind.bind, Except.bind, eq_comm, Spec.costs,
      Rec.CostColumn.name] using h3
  subst hr'
  have hi : (b.obj (integrated maq gsl) σZ.lib).imId = some G.im := him
  have ho : ∀ x, (b.obj (integrated maq gsl) σZ.lib).costsByFate x = (b.costs (integrated maq gsl) (some F)).costsByFate x := by
    intro x
    simp only [Building.obj, him, Option.bind_some, hme, Option.map_some]
  have hp := fate_prints hi { structType := some (Spec.costs .fate) } rfl [.mean] (xs.map Dbl.fin)
  show some ((Rec.printed (Rec.output ⟨.structcost, .struct (b.obj (integrated maq gsl) σZ.lib), _, _, _⟩)).1.map M.render) = _
  rw [hp]
  congr 2
  simp only [Rec.costTable, List.flatMap_cons, List.flatMap_nil, List.map_cons, List.map_nil, List.map_map,
    List.append_nil, List.cons_append, List.nil_append]
  congr 1
  apply List.map_congr_left
  intro x hx'
  have n1 : ("demo" : String) ≠ "repair" := by decide
  have n2 : ("coll" : String) ≠ "repair" := by decide
  have n3 : ("coll" : String) ≠ "demo" := by decide
  simp only [Function.comp, Rec.CostColumn.of, if_true, if_neg n1, if_neg n2, if_neg n3, ho, e5 x hx', e6 x hx', e7 x hx']
example (ds : World → Interp.Printed → String) (ev : String → Except Err Val) (fs : Files) :
    ∃ text σ, sessionR (integrated Rates.ideal Rates.idealGsl) ds (bench rd) ev (start ({}, {}) fs) text = (σ, none) ∧
      σ.files "out/p2.csv".toList = some (([.text "i", .text "repair.mean_x", .text "demo.mean_x", .text "coll.mean_x"] ::
        [1/2, 2].map fun x => [.num (.fin x), .num (.fin ((1 - Spec.pLost crash wreck x) * (billMean x * (17/15)))),
          .num .nan, .num (.fin (Spec.pCollapse crash x * 1000))] : List Rec.Row).map (bench rd).render) := by
  obtain ⟨p, text, σ, hok, ht, hr⟩ := bare_session (integrated_separate Rates.ideal Rates.idealGsl) rd ds ev fs
  have hf := fate_shares_file_partial (ε := 0) (A := estate ++ [claim1]) (B := [claim3, claim4, claim5]) (rid := "t2") (file := "p2") (id := "st")
    (a := .floats [1/2, 2])
    hok ht (by simp [bareScript, bare, claim2]) (C := []) (by
      intro m hm
      exact bare_sound m (by simpa [bare, claim2] using hm)) hr
    bare_settled (by simp [claim3, claim4, claim5])
    (alone_of (d := "out".toList) (fun _ _ _ => bare_homes) (by simp [bare]; rfl) rfl (by decide))
    trivial (G := ours) (Gs := [single]) (h := fall) (c := crash) (d := wreck) (r := rebuilt) (k := none)
    (by simp [claim3, claim4, claim5]) ⟨rfl, rfl, rfl, rfl, rfl, rfl⟩ bare_lawful Rates.idealGsl_ok
    (xs := [1/2, 2]) (by simp [Spec.arguments]) (by simp) (fun x _ => claims_fates x) (fun x _ => claims_payable x)
  obtain ⟨l, h1, h2⟩ := hf
  refine ⟨text, σ, hr, h2.trans ?_⟩
  have e : ∀ x ∈ [(1/2 : ℝ), 2], ((l x).map (·.1)).sum = billMean x * (17/15) := by
    intro x hx
    rw [near_zero (h1 x hx)]
    simp only [shares, List.map_cons, List.map_nil, List.sum_cons, List.sum_nil]
    ring
  have e2 : ∀ w, Spec.share rebuilt w = .fin (w * 1000) := by
    intro w
    show Dbl.fin (w * (Spec.costOf rebuilt).1) = _
    rw [rebuilt_mean]
  simp only [List.map_cons, List.map_nil, e (1/2) (by simp), e 2 (by simp), e2]
  rfl

/-- **C96.** The file of a `pdf` recorder that is not normalised, if the structure can collapse or be demolished at each of the
intensities and no cost is given for it: there is no number for the density, whatever the groups cost, whatever the integrator
finds and whatever the slope of the hazard curve is taken to be. -/
theorem missing_price_density_partial
    (hok : ∀ c ∈ ls, Gram.OkCmd p c.2) (ht : Lex.Written (Gram.toks (Gram.writeScript p ls)) text)
    (hl : ls.map (·.2) =
      A ++ .recorder rid (.pdf id a false) (some ⟨file, false⟩) :: B ++ .analyze :: C)
    (hs : ∀ m ∈ A ++ .recorder rid (.pdf id a false) (some ⟨file, false⟩) :: B ++ C,
      m.sound = true)
    (hr : sessionR (integrated maq gsl) ds M ev (start ({}, {}) fs) text = (τ, none))
    (hset : Spec.Settled (ls.map (·.2))) (hB : ∀ b' po, Cmd.recorder rid b' po ∉ B)
    (hal : Spec.Alone (Output.dirOf (Spec.directory (A ++ B))) rid file (A ++ B))
    (hu : Spec.Untouched (Output.fullPath (Output.dirOf (Spec.directory (A ++ B))) file.toList)
      (A ++ .recorder rid (.pdf id a false) (some ⟨file, false⟩) :: B ++ [.analyze]) C)
    (hone : ∀ gs, Cmd.structure_ id gs ∉ B)
    (hde : Spec.Described A.reverse
      (A ++ .recorder rid (.pdf id a false) (some ⟨file, false⟩) :: B).reverse id G Gs h c d r k)
    (hlaw : Spec.Lawful c d r k)
    (ha : Spec.arguments M a = some (xs.map Dbl.fin)) (hx : ∀ x ∈ xs, 0 < x) (hun : ∀ x ∈ xs, Spec.Unpriced c d r k x) :
    τ.files (Output.fullPath (Output.dirOf (Spec.directory (A ++ B))) file.toList) =
      some (([.text (String.ofList (G.im.toList.take 6)), .text "pdf"] ::
        xs.map fun x => [.num (.fin x), .num .nan] : List Rec.Row).map M.render) := by
  obtain ⟨σ, hr, hτ⟩ := forget (integrated_separate maq gsl) hok ht hl hs hr hset
  rw [hτ]
  obtain ⟨σA, σZ, hA, hZ, hMA, hMZ, hL⟩ := setup hok ht hl hs hr
  obtain ⟨b, b0, cv, F, hG, hseen, hseen0, hne0, him0, him, hme, hcv, hF1, hF2, hb1, hb2⟩ :=
    structure_at (fun m hm => hs m (List.mem_append_left _ hm)) hA hZ hMA hMZ hL hde.groups (by intro gs; simp) hone hde.hazard
      hde.collapse hde.demolition hde.rebuild hde.clear
  obtain ⟨σA', σZ', rc, h1, h2, h3, -, h5⟩ := session_report_partial hok ht hl hs hr hB hal hu (b := .pdf id a false) (by simp only [Spec.request, ha]; rfl)
  obtain rfl : σA = σA' := by rw [hA] at h1; exact (Prod.mk.inj h1).1
  obtain rfl : σZ = σZ' := by rw [hZ] at h2; exact (Prod.mk.inj h2).1
  rw [h5]
  have hs1 : seen (plain (integrated maq gsl) ds) σZ.lib ((plain (integrated maq gsl) ds).find σA.lib
      (Interp.RecBody.registry (.pdf id a false)) (Interp.RecBody.id (.pdf id a false))) = _ := hseen
  have hs2 : seen (plain (integrated maq gsl) ds) σA.lib ((plain (integrated maq gsl) ds).find σA.lib
      (Interp.RecBody.registry (.pdf id a false)) (Interp.RecBody.id (.pdf id a false))) = _ := hseen0
  rw [hs2] at h3
  rw [hs1]
  have hr' : rc = ⟨.pdf, .struct (b0.obj (integrated maq gsl) σA.lib), { normalise := false }, none,
      (xs.map Dbl.fin).map .flt⟩ := by
    simpa [Rec.make, Rec.mkBase, Rec.defaultColumns, pure, Except.pure, Bind.bind, Except.bind, eq_comm] using h3
  subst hr'
  have hi : (b.obj (integrated maq gsl) σZ.lib).imId = some G.im := him
  have hp := pdf_prints (xs := xs.map Dbl.fin) hi { normalise := false } rfl none
  show some ((Rec.printed (Rec.output ⟨.pdf, .struct (b.obj (integrated maq gsl) σZ.lib), _, _, _⟩)).1.map M.render) = _
  rw [hp]
  congr 2
  simp only [List.map_map, List.cons.injEq, true_and]
  apply List.map_congr_left
  intro x hx'
  have ho : (b.obj (integrated maq gsl) σZ.lib).pdf (.fin x) = .nan := by
    simp only [Building.obj, him, Option.bind_some, hme, Option.map_some, Option.getD_some, StructCosts.pdf,
      unpriced_building (hx x hx') hlaw hF1 hF2 hb1 hb2 (hun x hx'), unset_mean, Dbl.nan_mul]
  simp only [Function.comp, ho, Dbl.nan_div]
example (ds : World → Interp.Printed → String) (ev : String → Except Err Val) (fs : Files) :
    ∃ text σ, sessionR (integrated Rates.ideal Rates.idealGsl) ds (bench rd) ev (start ({}, {}) fs) text = (σ, none) ∧
      σ.files "out/p5.csv".toList = some (([[.text "i", .text "pdf"], [.num (.fin (1/2)), .num .nan],
        [.num (.fin 2), .num .nan]] : List Rec.Row).map (bench rd).render) := by
  obtain ⟨p, text, σ, hok, ht, hr⟩ := bare_session (integrated_separate Rates.ideal Rates.idealGsl) rd ds ev fs
  have hf := missing_price_density_partial (A := estate ++ [claim1, claim2, claim3, claim4]) (B := []) (rid := "t5") (file := "p5")
    (id := "st") (a := .floats [1/2, 2])
    hok ht (by simp [bareScript, bare, claim5]) (C := []) (by
      intro m hm
      exact bare_sound m (by simpa [bare, claim5] using hm)) hr
    bare_settled (by simp)
    (alone_of (d := "out".toList) (fun _ _ _ => bare_homes) (by simp [bare]; tauto) rfl (by decide))
    trivial (G := ours) (Gs := [single]) (h := fall) (c := crash) (d := wreck) (r := rebuilt) (k := none)
    (by simp) ⟨rfl, rfl, rfl, rfl, rfl, rfl⟩ bare_lawful (xs := [1/2, 2]) (by simp [Spec.arguments]) (by simp)
    (fun x _ => bare_unpriced x)
  exact ⟨text, σ, hr, hf⟩

/-- **C96.** A `pdf` recorder with `--normalise` of such a structure stops the session: the largest of the densities counts as
nothing and a division by it raises (/repo/src/pyslat.py:1925-1937).  No cost without the missing part is written. -/
theorem missing_price_normal_partial
    (hok : ∀ c ∈ ls, Gram.OkCmd p c.2) (ht : Lex.Written (Gram.toks (Gram.writeScript p ls)) text)
    (hl : ls.map (·.2) =
      A ++ .recorder rid (.pdf id a true) (some ⟨file, false⟩) :: B ++ .analyze :: C)
    (hs : ∀ m ∈ A ++ .recorder rid (.pdf id a true) (some ⟨file, false⟩) :: B ++ C,
      m.sound = true)
    (hset : Spec.Settled (ls.map (·.2))) (hB : ∀ b' po, Cmd.recorder rid b' po ∉ B)
    (hal : Spec.Alone (Output.dirOf (Spec.directory (A ++ B))) rid file (A ++ B))
    (hu : Spec.Untouched (Output.fullPath (Output.dirOf (Spec.directory (A ++ B))) file.toList)
      (A ++ .recorder rid (.pdf id a true) (some ⟨file, false⟩) :: B ++ [.analyze]) C)
    (hone : ∀ gs, Cmd.structure_ id gs ∉ B)
    (hde : Spec.Described A.reverse
      (A ++ .recorder rid (.pdf id a true) (some ⟨file, false⟩) :: B).reverse id G Gs h c d r k)
    (hlaw : Spec.Lawful c d r k)
    (ha : Spec.arguments M a = some (xs.map Dbl.fin)) (hne : xs ≠ []) (hx : ∀ x ∈ xs, 0 < x)
    (hun : ∀ x ∈ xs, Spec.Unpriced c d r k x) :
    (sessionR (integrated maq gsl) ds M ev (start ({}, {}) fs) text).2 ≠ none := by
  intro hnone
  have hr : sessionR (integrated maq gsl) ds M ev (start ({}, {}) fs) text =
      ((sessionR (integrated maq gsl) ds M ev (start ({}, {}) fs) text).1, none) := Prod.ext rfl hnone
  obtain ⟨σ, hr, hτ⟩ := forget (integrated_separate maq gsl) hok ht hl hs hr hset
  obtain ⟨σA, σZ, hA, hZ, hMA, hMZ, hL⟩ := setup hok ht hl hs hr
  obtain ⟨b, b0, cv, F, hG, hseen, hseen0, hne0, him0, him, hme, hcv, hF1, hF2, hb1, hb2⟩ :=
    structure_at (fun m hm => hs m (List.mem_append_left _ hm)) hA hZ hMA hMZ hL hde.groups (by intro gs; simp) hone hde.hazard
      hde.collapse hde.demolition hde.rebuild hde.clear
  obtain ⟨σA', σZ', rc, h1, h2, h3, h4, -⟩ := session_report_partial hok ht hl hs hr hB hal hu (b := .pdf id a true) (by simp only [Spec.request, ha]; rfl)
  obtain rfl : σA = σA' := by rw [hA] at h1; exact (Prod.mk.inj h1).1
  obtain rfl : σZ = σZ' := by rw [hZ] at h2; exact (Prod.mk.inj h2).1
  have hs1 : seen (plain (integrated maq gsl) ds) σZ.lib ((plain (integrated maq gsl) ds).find σA.lib
      (Interp.RecBody.registry (.pdf id a true)) (Interp.RecBody.id (.pdf id a true))) = _ := hseen
  have hs2 : seen (plain (integrated maq gsl) ds) σA.lib ((plain (integrated maq gsl) ds).find σA.lib
      (Interp.RecBody.registry (.pdf id a true)) (Interp.RecBody.id (.pdf id a true))) = _ := hseen0
  rw [hs2] at h3
  rw [hs1] at h4
  have hr' : rc = ⟨.pdf, .struct (b0.obj (integrated maq gsl) σA.lib), { normalise := true }, none,
      (xs.map Dbl.fin).map .flt⟩ := by
    simpa [Rec.make, Rec.mkBase, Rec.defaultColumns, pure, Except.pure, Bind.bind, Except.bind, eq_comm] using h3
  subst hr'
  have hi : (b.obj (integrated maq gsl) σZ.lib).imId = some G.im := him
  have hz := unset_normal hi hne fun x hx' => by
    simp only [Building.obj, him, Option.bind_some, hme, Option.map_some, Option.getD_some, StructCosts.pdf,
      unpriced_building (hx x hx') hlaw hF1 hF2 hb1 hb2 (hun x hx'), unset_mean, Dbl.nan_mul]
  have h4' : (Rec.printed (Rec.output ⟨.pdf, .struct (b.obj (integrated maq gsl) σZ.lib), { normalise := true }, none,
      (xs.map Dbl.fin).map .flt⟩)).2 = none := h4
  rw [hz] at h4'
  cases h4'
/-- The structure of `bare` with a normalised density. -/
example (maq : Rates.Maq) (gsl : Rates.Gsl) (ds : World → Interp.Printed → String) (ev : String → Except Err Val) (fs : Files) :
    ∃ (p : Gram.Pen) (text : List Char), Lex.Written (Gram.toks (Gram.writeScript p
        ((estate ++ [Cmd.recorder "t5" (.pdf "st" (.floats [1/2, 2]) true) (some ⟨"p5", false⟩), .analyze]).map fun c => ({}, c)))) text ∧
      (sessionR (integrated maq gsl) ds (bench rd) ev (start ({}, {}) fs) text).2 ≠ none := by
  obtain ⟨p, hi, hf⟩ := Gram.pen_exists
  have old := deed_ok hi hf
  have hold : ∀ m ∈ claims, Gram.OkCmd p m := fun m hm => old ({}, m) (List.mem_map.2 ⟨m, by simp [hm], rfl⟩)
  set ls : List (Gram.Style × Cmd) :=
    (estate ++ [Cmd.recorder "t5" (.pdf "st" (.floats [1/2, 2]) true) (some ⟨"p5", false⟩), .analyze]).map fun c => ({}, c) with hls
  have hok : ∀ c ∈ ls, Gram.OkCmd p c.2 := by
    intro c hc
    obtain ⟨m, hm, rfl⟩ := List.mem_map.1 hc
    simp only [List.mem_append, List.mem_cons, List.not_mem_nil, or_false] at hm
    rcases hm with hm | rfl | rfl
    · exact hold m (by simp [claims, hm])
    · exact hold claim5 (by simp [claims])
    · trivial
  have e : ls.map (·.2) = (estate ++ [Cmd.recorder "t5" (.pdf "st" (.floats [1/2, 2]) true) (some ⟨"p5", false⟩)]) ++ [.analyze] := by
    simp [hls, Function.comp_def]
  refine ⟨p, _, Gram.script_writable hok, ?_⟩
  exact missing_price_normal_partial (A := estate) (B := []) (rid := "t5") (file := "p5") (id := "st") (a := .floats [1/2, 2])
    hok (Gram.script_writable hok) (by rw [e]) (C := []) (by
      intro m hm
      simp only [List.append_nil, List.mem_append, List.mem_singleton] at hm
      rcases hm with hm | rfl
      · exact claims_sound m (by simp [claims, hm])
      · rfl)
    (by rw [e]; exact settled_once (by simp [estate, posted])) (by simp)
    (by
      intro i b po hm
      exfalso
      revert hm
      simp [estate, posted])
    trivial (G := ours) (Gs := [single]) (h := fall) (c := crash) (d := wreck) (r := rebuilt) (k := none)
    (by simp) ⟨rfl, rfl, rfl, rfl, rfl, rfl⟩ bare_lawful (xs := [1/2, 2]) (by simp [Spec.arguments]) (by simp) (by simp)
    (fun x _ => bare_unpriced x)

end

end Slat.Session
