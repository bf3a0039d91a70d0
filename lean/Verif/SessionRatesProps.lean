import Verif.SessionRatesSample

/-!
# Sessions and integration (C91): rates, damage and losses at an intensity in the files

The library is `plain`, with the rates and expected losses of `integrated`.  The theorems say what a session that ends
leaves in the file of an `edprate`, `collrate`, `dsim`, `dsrate`, `costim`, `delayim` or `costrate` recorder, in terms of
the script: integrals, up to the error of the integrator.  The full statement has the same of every recorder; missing are
the log-spread of the delay of several components (the code has it wrong, C61), the error of the differentiation routines,
and commands after an analysis (the caches are not part of the model of a session).  Structures are in `SessionStructProps`.
-/

namespace Slat.Session

open MeasureTheory Set Filter Topology

noncomputable section

open Interp (Val Call Cmd Cfg Err Mu Sd DistCmd Sc)
open Output (Path Files)

variable {rd : Rec.Row → String}

variable {maq : Rates.Maq} {gsl : Rates.Gsl} {ε : ℝ} {ds : World → Interp.Printed → String} {M : Machine}
  {ev : String → Except Err Val} {p : Gram.Pen} {ls : List (Gram.Style × Cmd)} {text : List Char}
  {A B C : List Cmd} {rid file id : String} {a : Interp.At} {fs : Files} {τ : State (World × Memory)} {xs : List ℝ}

/-- **C91.** The file of an `edprate` recorder: for each demand the annual rate at which it is exceeded or the structure is lost,
by what was set before the analysis. -/
theorem demand_rate_file_partial {im : String} {L : Spec.Law} {h h' : ℝ → ℝ} {c d : Option (Mu × Sd × ℝ × ℝ)}
    (hok : ∀ c ∈ ls, Gram.OkCmd p c.2) (ht : Lex.Written (Gram.toks (Gram.writeScript p ls)) text)
    (hl : ls.map (·.2) =
      A ++ .recorder rid (.fn .edprate id a none) (some ⟨file, false⟩) :: B ++ .analyze :: C)
    (hs : ∀ m ∈ A ++ .recorder rid (.fn .edprate id a none) (some ⟨file, false⟩) :: B ++ C,
      m.sound = true)
    (hr : sessionR (integrated maq gsl) ds M ev (start ({}, {}) fs) text = (τ, none))
    (hset : Spec.Settled (ls.map (·.2))) (hB : ∀ b' po, Cmd.recorder rid b' po ∉ B)
    (hal : Spec.Alone (Output.dirOf (Spec.directory (A ++ B))) rid file (A ++ B))
    (hu : Spec.Untouched (Output.fullPath (Output.dirOf (Spec.directory (A ++ B))) file.toList)
      (A ++ .recorder rid (.fn .edprate id a none) (some ⟨file, false⟩) :: B ++ [.analyze]) C)
    (ha : Spec.arguments M a = some (xs.map Dbl.fin)) (hx : ∀ x ∈ xs, 0 < x)
    (hc : Spec.demandOf A.reverse id = some (im, L)) (hi : Spec.hazardOf A.reverse im = some h)
    (hfc : Spec.fateOf .collapse
      (A ++ .recorder rid (.fn .edprate id a none) (some ⟨file, false⟩) :: B).reverse im = some c)
    (hfd : Spec.fateOf .demolition
      (A ++ .recorder rid (.fn .edprate id a none) (some ⟨file, false⟩) :: B).reverse im = some d)
    (hcm : ∀ q ∈ c, Spec.Meant q.1 q.2.1 q.2.2.1 q.2.2.2 ∧ 0 < q.2.2.2)
    (hdm : ∀ q ∈ d, Spec.Meant q.1 q.2.1 q.2.2.1 q.2.2.2 ∧ 0 < q.2.2.2)
    (hslope : ∀ x, 0 < x → HasDerivAt h (h' x) x) (hg : Rates.Differentiates gsl)
    (hm : L.Meant) (hI : ∀ y ∈ xs, Spec.Answers maq ε (Spec.demandRate c d L h' y)) :
    ∃ v : ℝ → ℝ, (∀ y ∈ xs, |v y - ∫ x in Ioi (0 : ℝ), Spec.demandRate c d L h' y x| ≤ ε) ∧
      τ.files (Output.fullPath (Output.dirOf (Spec.directory (A ++ B))) file.toList) =
        some ((Spec.tableOf "EDP" [("lambda", v)] xs).map M.render) := by
  obtain ⟨σ, hr, hτ⟩ := forget (integrated_separate maq gsl) hok ht hl hs hr hset
  rw [hτ]
  obtain ⟨σA, σZ, hA, hZ, hMA, hM, hL⟩ := setup hok ht hl hs hr
  obtain ⟨n, cv, f, g, hth, hag, hbg, hfn, d0, him⟩ := hMA.demand _ _ _ hc
  obtain ⟨cv', d1, him', hcv⟩ := hMA.hazard _ _ hi
  rw [him] at him'
  cases him'
  obtain ⟨n', t', -, -, hsame, hseen⟩ := seen_later (N := integrated maq gsl) (ds := ds) hL hth
  cases hsame
  have himn : σA.lib.things[n]? = some (.im im cv d0) := by
    have := him
    rw [World.thing, hfn] at this
    exact this
  obtain ⟨t'', ht'', d', rfl⟩ := hL.things n _ himn
  have hend : σZ.lib.thing "im" im = some (.im im cv d') := by
    simp [World.thing, hL.im _ _ hfn, ht'']
  have hfates : σZ.lib.fates n = d' := by simp [World.fates, ht'']
  obtain ⟨k1, k2⟩ := hM.fate _ _ _ hend
  have hval : ∀ y ∈ xs, ∃ v, (integrated maq gsl).edpRate cv d' (lawAt L.mu L.sp f g) (.fin y) = .fin v ∧
      |v - ∫ x in Ioi (0 : ℝ), Spec.demandRate c d L h' y x| ≤ ε := fun y hy =>
    rate_found hg hcv hslope hm hag hbg hcm hdm (k1 _ hfc) (k2 _ hfd) (hx y hy) (hI y hy)
  refine ⟨fun y => Rates.val ((integrated maq gsl).edpRate cv d' (lawAt L.mu L.sp f g) (.fin y)), ?_, ?_⟩
  · intro y hy
    obtain ⟨v, e1, e2⟩ := hval y hy
    beta_reduce
    rw [e1]
    exact e2
  have hord : Spec.order M (.fn .edprate id a none) = some (.edprate, none, xs.map Dbl.fin) := by
    simp [Spec.order, ha, Spec.kind]
  refine session_table_partial hok ht hl hs hr hB hal hu hord rfl hA hZ ?_
    (by intro g g' _ _ hk; rcases hk with hk | hk <;> cases hk)
    (by intro g x _ hk; cases hk)
  show Rec.Spec.table _ (seen (plain (integrated maq gsl) ds) σZ.lib
    ((plain (integrated maq gsl) ds).find σA.lib "edp" id)) _ _ = _
  rw [hseen]
  simp only [Thing.obj, Group.obj, Rec.Spec.table, Rec.Spec.argument, Rec.Spec.columns, Option.bind_eq_bind,
    Option.bind_some, Option.pure_def, Spec.tableOf, List.map_cons, List.map_nil, List.map_map,
    Option.some.injEq, List.cons.injEq, true_and, hfates]
  apply List.map_congr_left
  intro y hy
  obtain ⟨v, e1, -⟩ := hval y hy
  simp only [Function.comp, e1]
  rfl
/-- The rates of the script above. -/
example (ds : World → Interp.Printed → String) (ev : String → Except Err Val) (fs : Files) :
    ∃ text σ, sessionR (integrated Rates.ideal Rates.idealGsl) ds (bench rd) ev (start ({}, {}) fs) text = (σ, none) ∧
      σ.files "out/g1.csv".toList = some ((Spec.tableOf "EDP" [("lambda", fun y =>
        ∫ x in Ioi (0 : ℝ), Spec.demandRate crash wreck ours.law fall' y x)] [1/2, 2]).map (bench rd).render) := by
  obtain ⟨p, text, σ, hok, ht, hr⟩ := bill_session (integrated_separate Rates.ideal Rates.idealGsl) ds ev fs
  obtain ⟨v, hv, h⟩ := demand_rate_file_partial (ε := 0) (A := posted) (B := [want2, want3, want4, want5, want6, want7, want8]) (rid := "w1") (file := "g1")
    hok ht (by simp [bill, orders, want1]) (C := []) orders_sound hr
    bill_settled
    (by simp [want2, want3, want4, want5, want6, want7, want8])
    (alone_of (d := "out".toList) (fun _ _ _ => orders_homes) (by simp [orders]; rfl) rfl (by decide))
    trivial (xs := [1/2, 2]) (by simp [Spec.arguments]) (by simp) (im := "i") (L := ours.law) (h := fall) rfl rfl
    (c := crash) (d := wreck) rfl rfl
    (by
      intro q hq
      simp only [crash, Option.mem_def, Option.some.injEq] at hq
      subst hq
      exact ⟨⟨Or.inl rfl, Or.inr (by norm_num)⟩, by norm_num⟩)
    (by
      intro q hq
      simp only [wreck, Option.mem_def, Option.some.injEq] at hq
      subst hq
      exact ⟨⟨Or.inl rfl, Or.inr (by norm_num)⟩, by norm_num⟩)
    (fun x hx => fall_deriv hx) Rates.idealGsl_ok ours_law (fun y _ => exceed_answers y)
  refine ⟨text, σ, hr, h.trans ?_⟩
  have : ∀ y ∈ [(1/2 : ℝ), 2], v y = ∫ x in Ioi (0 : ℝ), Spec.demandRate crash wreck ours.law fall' y x :=
    fun y hy => sub_eq_zero.1 (abs_nonpos_iff.1 (hv y hy))
  simp only [Spec.tableOf, List.map_cons, List.map_nil, this (1/2) (by simp), this 2 (by simp)]

/-- **C91.** The document leaves out that the structure may be lost: there is a script that ends and for which the file holds
a greater rate. -/
theorem documented_rate_fails (rd : Rec.Row → String) (ds : World → Interp.Printed → String) (ev : String → Except Err Val) (fs : Files) :
    ∃ (ls : List (Gram.Style × Cmd)) (p : Gram.Pen) (text : List Char) (σ : State (World × Memory)) (v : ℝ → ℝ),
      Lex.Written (Gram.toks (Gram.writeScript p ls)) text ∧ Spec.demandOf (ls.map (·.2)).reverse "e" = some ("i", ours.law) ∧
      sessionR (integrated Rates.ideal Rates.idealGsl) ds (bench rd) ev (start ({}, {}) fs) text = (σ, none) ∧
      σ.files "out/g1.csv".toList = some ((Spec.tableOf "EDP" [("lambda", v)] [1/2, 2]).map (bench rd).render) ∧
      ∀ y ∈ [(1/2 : ℝ), 2], ∫ x in Ioi (0 : ℝ), Spec.documentedRate ours.law fall' y x < v y := by
  obtain ⟨p, text, σ, hok, ht, hr⟩ := bill_session (integrated_separate Rates.ideal Rates.idealGsl) ds ev fs
  obtain ⟨v, hv, h⟩ := demand_rate_file_partial (ε := 0) (A := posted) (B := [want2, want3, want4, want5, want6, want7, want8]) (rid := "w1") (file := "g1")
    hok ht (by simp [bill, orders, want1]) (C := []) orders_sound hr
    bill_settled
    (by simp [want2, want3, want4, want5, want6, want7, want8])
    (alone_of (d := "out".toList) (fun _ _ _ => orders_homes) (by simp [orders]; rfl) rfl (by decide))
    trivial (xs := [1/2, 2]) (by simp [Spec.arguments]) (by simp) (im := "i") (L := ours.law) (h := fall) rfl rfl
    (c := crash) (d := wreck) rfl rfl
    (by
      intro q hq
      simp only [crash, Option.mem_def, Option.some.injEq] at hq
      subst hq
      exact ⟨⟨Or.inl rfl, Or.inr (by norm_num)⟩, by norm_num⟩)
    (by
      intro q hq
      simp only [wreck, Option.mem_def, Option.some.injEq] at hq
      subst hq
      exact ⟨⟨Or.inl rfl, Or.inr (by norm_num)⟩, by norm_num⟩)
    (fun x hx => fall_deriv hx) Rates.idealGsl_ok ours_law (fun y _ => exceed_answers y)
  refine ⟨bill, p, text, σ, v, ht, rfl, hr, h, fun y hy => ?_⟩
  rw [sub_eq_zero.1 (abs_nonpos_iff.1 (hv y hy))]
  exact exceed_more y

/-- **C91.** The file of a `collrate` recorder: the annual rates of demolition and of collapse. -/
theorem loss_rate_file_partial {h h' : ℝ → ℝ} {c d : Option (Mu × Sd × ℝ × ℝ)}
    (hok : ∀ c ∈ ls, Gram.OkCmd p c.2) (ht : Lex.Written (Gram.toks (Gram.writeScript p ls)) text)
    (hl : ls.map (·.2) =
      A ++ .recorder rid (.collrate id) (some ⟨file, false⟩) :: B ++ .analyze :: C)
    (hs : ∀ m ∈ A ++ .recorder rid (.collrate id) (some ⟨file, false⟩) :: B ++ C,
      m.sound = true)
    (hr : sessionR (integrated maq gsl) ds M ev (start ({}, {}) fs) text = (τ, none))
    (hset : Spec.Settled (ls.map (·.2))) (hB : ∀ b' po, Cmd.recorder rid b' po ∉ B)
    (hal : Spec.Alone (Output.dirOf (Spec.directory (A ++ B))) rid file (A ++ B))
    (hu : Spec.Untouched (Output.fullPath (Output.dirOf (Spec.directory (A ++ B))) file.toList)
      (A ++ .recorder rid (.collrate id) (some ⟨file, false⟩) :: B ++ [.analyze]) C)
    (hi : Spec.hazardOf A.reverse id = some h)
    (hfc : Spec.fateOf .collapse
      (A ++ .recorder rid (.collrate id) (some ⟨file, false⟩) :: B).reverse id = some c)
    (hfd : Spec.fateOf .demolition
      (A ++ .recorder rid (.collrate id) (some ⟨file, false⟩) :: B).reverse id = some d)
    (hcm : ∀ q ∈ c, Spec.Meant q.1 q.2.1 q.2.2.1 q.2.2.2 ∧ 0 < q.2.2.2)
    (hdm : ∀ q ∈ d, Spec.Meant q.1 q.2.1 q.2.2.1 q.2.2.2 ∧ 0 < q.2.2.2)
    (hslope : ∀ x, 0 < x → HasDerivAt h (h' x) x) (hg : Rates.Differentiates gsl)
    (hI : Spec.Answers maq ε (Spec.collapseRate c h')) (hJ : Spec.Answers maq ε (Spec.demolitionRate c d h')) :
    ∃ u v : ℝ, |u - ∫ x in Ioi (0 : ℝ), Spec.collapseRate c h' x| ≤ ε ∧
      |v - ∫ x in Ioi (0 : ℝ), Spec.demolitionRate c d h' x| ≤ ε ∧
      τ.files (Output.fullPath (Output.dirOf (Spec.directory (A ++ B))) file.toList) =
        some (([[.text "IM", .text "rate(Demolition)", .text "rate(Collapse)"],
          [.text id, .num (.fin v), .num (.fin u)]] : List Rec.Row).map M.render) := by
  obtain ⟨σ, hr, hτ⟩ := forget (integrated_separate maq gsl) hok ht hl hs hr hset
  rw [hτ]
  obtain ⟨σA, σZ, hA, hZ, hMA, hM, hL⟩ := setup hok ht hl hs hr
  obtain ⟨f, d0, hf, hag⟩ := hMA.hazard _ _ hi
  obtain ⟨n, t', hn, htn, ⟨d', rfl⟩, hseen⟩ := seen_later (N := integrated maq gsl) (ds := ds) hL hf
  obtain ⟨n2, t2, hn2, htn2, ⟨d2, rfl⟩, hseen2⟩ := seen_later (N := integrated maq gsl) (ds := ds) (Later.refl σA.lib) hf
  have hend : σZ.lib.thing "im" id = some (.im id f d') := by
    simp [World.thing, hL.im _ _ hn, htn]
  obtain ⟨k1, k2⟩ := hM.fate _ _ _ hend
  obtain ⟨u, v, e1, e2, e3, e4⟩ := loss_found hg hag hslope hcm hdm (k1 _ hfc) (k2 _ hfd) hI hJ
  refine ⟨u, v, e3, e4, ?_⟩
  obtain ⟨σA', σZ', r, h1, h2, h3, -, h5⟩ := session_report_partial hok ht hl hs hr hB hal hu (b := .collrate id) rfl
  obtain rfl : σA = σA' := by rw [hA] at h1; exact (Prod.mk.inj h1).1
  obtain rfl : σZ = σZ' := by rw [hZ] at h2; exact (Prod.mk.inj h2).1
  rw [h5]
  have hs1 : seen (plain (integrated maq gsl) ds) σZ.lib ((plain (integrated maq gsl) ds).find σA.lib
      (Interp.RecBody.collrate id).registry (Interp.RecBody.collrate id).id) = _ := hseen
  have hs2 : seen (plain (integrated maq gsl) ds) σA.lib ((plain (integrated maq gsl) ds).find σA.lib
      (Interp.RecBody.collrate id).registry (Interp.RecBody.collrate id).id) = _ := hseen2
  rw [hs2] at h3
  rw [hs1]
  have hr' : r = ⟨.collrate, Thing.obj (integrated maq gsl) σA.lib (.im id f d2), {}, none, []⟩ := by
    simpa [Rec.make, Rec.mkBase, Rec.defaultColumns, Thing.obj, Group.obj, pure, Except.pure, Bind.bind, Except.bind, eq_comm]
      using h3
  subst hr'
  simp only [Thing.obj, e1, e2]
  rfl
example (ds : World → Interp.Printed → String) (ev : String → Except Err Val) (fs : Files) :
    ∃ text σ, sessionR (integrated Rates.ideal Rates.idealGsl) ds (bench rd) ev (start ({}, {}) fs) text = (σ, none) ∧
      σ.files "out/g2.csv".toList = some (([[.text "IM", .text "rate(Demolition)", .text "rate(Collapse)"],
        [.text "i", .num (.fin (∫ x in Ioi (0 : ℝ), Spec.demolitionRate crash wreck fall' x)),
          .num (.fin (∫ x in Ioi (0 : ℝ), Spec.collapseRate crash fall' x))]] : List Rec.Row).map (bench rd).render) := by
  obtain ⟨p, text, σ, hok, ht, hr⟩ := bill_session (integrated_separate Rates.ideal Rates.idealGsl) ds ev fs
  obtain ⟨u, v, hu, hv, h⟩ := loss_rate_file_partial (ε := 0) (A := posted ++ [want1]) (B := [want3, want4, want5, want6, want7, want8]) (rid := "w2") (file := "g2")
    hok ht (by simp [bill, orders, want2]) (C := []) orders_sound hr
    bill_settled
    (by simp [want3, want4, want5, want6, want7, want8])
    (alone_of (d := "out".toList) (fun _ _ _ => orders_homes) (by simp [orders]; rfl) rfl (by decide))
    trivial (h := fall) rfl (c := crash) (d := wreck) rfl rfl
    (by
      intro q hq
      simp only [crash, Option.mem_def, Option.some.injEq] at hq
      subst hq
      exact ⟨⟨Or.inl rfl, Or.inr (by norm_num)⟩, by norm_num⟩)
    (by
      intro q hq
      simp only [wreck, Option.mem_def, Option.some.injEq] at hq
      subst hq
      exact ⟨⟨Or.inl rfl, Or.inr (by norm_num)⟩, by norm_num⟩)
    (fun x hx => fall_deriv hx) Rates.idealGsl_ok crash_answers wreck_answers
  rw [sub_eq_zero.1 (abs_nonpos_iff.1 hu), sub_eq_zero.1 (abs_nonpos_iff.1 hv)] at h
  exact ⟨text, σ, hr, h⟩

/-- **C91.** The file of a `dsim` recorder: for each damage state the probability that the demand at the intensity reaches its onset,
and the sum. -/
theorem state_file_partial {G : Spec.Components}
    (hok : ∀ c ∈ ls, Gram.OkCmd p c.2) (ht : Lex.Written (Gram.toks (Gram.writeScript p ls)) text)
    (hl : ls.map (·.2) =
      A ++ .recorder rid (.fn .dsim id a none) (some ⟨file, false⟩) :: B ++ .analyze :: C)
    (hs : ∀ m ∈ A ++ .recorder rid (.fn .dsim id a none) (some ⟨file, false⟩) :: B ++ C,
      m.sound = true)
    (hr : sessionR (integrated maq gsl) ds M ev (start ({}, {}) fs) text = (τ, none))
    (hset : Spec.Settled (ls.map (·.2))) (hB : ∀ b' po, Cmd.recorder rid b' po ∉ B)
    (hal : Spec.Alone (Output.dirOf (Spec.directory (A ++ B))) rid file (A ++ B))
    (hu : Spec.Untouched (Output.fullPath (Output.dirOf (Spec.directory (A ++ B))) file.toList)
      (A ++ .recorder rid (.fn .dsim id a none) (some ⟨file, false⟩) :: B ++ [.analyze]) C)
    (ha : Spec.arguments M a = some (xs.map Dbl.fin)) (hx : ∀ x ∈ xs, 0 < x)
    (hc : Spec.groupOf A.reverse id = some G)
    (hon : ∀ q ∈ G.onsets, Spec.Meant q.1 q.2.1 q.2.2.1 q.2.2.2 ∧ 0 < q.2.2.2)
    (hm : G.law.Meant) (hg : Rates.Differentiates gsl)
    (hI : ∀ x ∈ xs, ∀ q ∈ G.onsets, Spec.Answers maq ε fun y =>
      Spec.below (Spec.logPair q.1 q.2.1 q.2.2.1 q.2.2.2) y * Spec.density (G.law.at_ x) y) :
    ∃ v : ℕ → ℝ → ℝ, (∀ x ∈ xs, ∀ i q, G.onsets[i]? = some q →
        |v i x - Spec.reachedAt (Spec.logPair q.1 q.2.1 q.2.2.1 q.2.2.2) (G.law.at_ x)| ≤ ε) ∧
      τ.files (Output.fullPath (Output.dirOf (Spec.directory (A ++ B))) file.toList) =
        some ((Spec.tableOf G.im (Spec.stateColumns G.onsets.length v) xs).map M.render) := by
  obtain ⟨σ, hr, hτ⟩ := forget (integrated_separate maq gsl) hok ht hl hs hr hset
  rw [hτ]
  obtain ⟨σA, σZ, hA, hZ, -, -, hL⟩ := setup hok ht hl hs hr
  obtain ⟨hne, g, hf, hG, -⟩ := (stock_at (fun m hm => hs m (by simp [hm])) hA).group _ _ hc
  obtain ⟨n, t', -, -, hsame, hseen⟩ := seen_later (N := integrated maq gsl) (ds := ds) hL hf
  cases hsame
  obtain ⟨n', t'', -, -, hsame', hseen'⟩ := seen_later (N := integrated maq gsl) (ds := ds) (Later.refl σA.lib) hf
  cases hsame'
  have hval : ∀ x ∈ xs, ∀ q ∈ G.onsets, ∃ v, ((integrated maq gsl).group g).pDsIm (made q) (.fin x) = .fin v ∧
      |v - Spec.reachedAt (pairOf q) (G.law.at_ x)| ≤ ε := fun x hx' q hq =>
    state_found hg hG hm (hx x hx') (hon q hq) (hI x hx' q hq)
  set v : ℕ → ℝ → ℝ := fun i x => match G.onsets[i]? with
    | some q => Rates.val (((integrated maq gsl).group g).pDsIm (made q) (.fin x))
    | none => 0 with hv
  refine ⟨v, ?_, ?_⟩
  · intro x hx' i q hq
    obtain ⟨w, e1, e2⟩ := hval x hx' q (List.mem_of_getElem? hq)
    simp only [hv, hq, e1]
    exact e2
  have hlist : ∀ x ∈ xs, (g.states.map fun d => ((integrated maq gsl).group g).pDsIm d (.fin x)) =
      ((List.range G.onsets.length).map fun i => v i x).map Dbl.fin := by
    intro x hx'
    rw [hG.1, List.map_map, List.map_map]
    apply List.ext_getElem
    · simp
    · intro i h1 h2
      have hi : i < G.onsets.length := by simpa using h1
      obtain ⟨w, e1, -⟩ := hval x hx' _ (List.getElem_mem hi)
      simp only [List.getElem_map, Function.comp, List.getElem_range, hv, List.getElem?_eq_getElem hi, e1]
      rfl
  have hord : Spec.order M (.fn .dsim id a none) = some (.dsim, none, xs.map Dbl.fin) := by
    simp [Spec.order, ha, Spec.kind]
  have hlen : g.states.length = G.onsets.length := by rw [hG.1]; simp
  have hsum : ∀ (l : List ℝ) (z : ℝ), (l.map Dbl.fin).foldl (· + ·) (.fin z) = .fin (z + l.sum) := by
    intro l
    induction l with
    | nil => intro z; simp
    | cons b l ih =>
      intro z
      rw [List.map_cons, List.foldl_cons, Dbl.fin_add, ih, List.sum_cons, add_assoc]
  refine session_table_partial hok ht hl hs hr hB hal hu hord rfl hA hZ ?_ ?_ ?_
  · show Rec.Spec.table _ (seen (plain (integrated maq gsl) ds) σZ.lib
      ((plain (integrated maq gsl) ds).find σA.lib "compgroup" id)) _ _ = _
    rw [hseen]
    simp only [Thing.obj, Group.obj, Rec.Spec.table, Rec.Spec.argument, Rec.Spec.columns, Option.bind_eq_bind,
      Option.bind_some, Option.pure_def, Spec.tableOf, Option.some.injEq, List.map_map, List.cons.injEq]
    refine ⟨⟨by rw [hG.2.2.2.2.2.2.2.1], ?_⟩, ?_⟩
    · rw [hlen]
      simp [Rec.Spec.stateColumns, Spec.stateColumns]
    · apply List.map_congr_left
      intro x hx'
      simp only [Function.comp, List.cons.injEq, true_and]
      rw [hlen]
      simp only [Rec.Spec.stateColumns, Spec.stateColumns, List.map_append, List.map_map, List.map_cons, List.map_nil,
        hlist x hx']
      congr 1
      · apply List.map_congr_left
        intro i hi
        have hi' : i < G.onsets.length := by simpa using hi
        have := congrArg (fun l => l[i]?.getD Dbl.nan) (hlist x hx')
        simp only [List.getElem?_map, List.getElem?_range hi', Option.map_some, Option.getD_some] at this
        simpa using this
      · simp only [List.cons.injEq, and_true, Rec.Cell.num.injEq]
        have := hsum ((List.range G.onsets.length).map fun i => v i x) 0
        rw [zero_add] at this
        rw [← this, Dbl.zero_def, List.map_map]
  · intro g1 g2 e1 e2 _
    have e1' : seen (plain (integrated maq gsl) ds) σA.lib
      ((plain (integrated maq gsl) ds).find σA.lib "compgroup" id) = .group g1 := e1
    have e2' : seen (plain (integrated maq gsl) ds) σZ.lib
      ((plain (integrated maq gsl) ds).find σA.lib "compgroup" id) = .group g2 := e2
    rw [hseen'] at e1'
    rw [hseen] at e2'
    cases e1'
    cases e2'
    refine ⟨?_, rfl⟩
    show g.states ≠ []
    rw [hG.1]
    simpa using hne
  · intro g2 x e2 _
    have e2' : seen (plain (integrated maq gsl) ds) σZ.lib
      ((plain (integrated maq gsl) ds).find σA.lib "compgroup" id) = .group g2 := e2
    rw [hseen] at e2'
    cases e2'
    simp [Group.obj]
example (ds : World → Interp.Printed → String) (ev : String → Except Err Val) (fs : Files) :
    ∃ text σ, sessionR (integrated Rates.ideal Rates.idealGsl) ds (bench rd) ev (start ({}, {}) fs) text = (σ, none) ∧
      ∃ v : ℕ → ℝ → ℝ, (∀ x ∈ [(1/2 : ℝ), 2], ∀ i q, ours.onsets[i]? = some q →
        |v i x - Spec.reachedAt (Spec.logPair q.1 q.2.1 q.2.2.1 q.2.2.2) (ours.law.at_ x)| ≤ 0) ∧
      σ.files "out/g3.csv".toList = some ((Spec.tableOf "i" (Spec.stateColumns 2 v) [1/2, 2]).map (bench rd).render) := by
  obtain ⟨p, text, σ, hok, ht, hr⟩ := bill_session (integrated_separate Rates.ideal Rates.idealGsl) ds ev fs
  obtain h := state_file_partial (ε := 0) (A := posted ++ [want1, want2]) (B := [want4, want5, want6, want7, want8]) (rid := "w3") (file := "g3")
    hok ht (by simp [bill, orders, want3]) (C := []) orders_sound hr
    bill_settled
    (by simp [want4, want5, want6, want7, want8])
    (alone_of (d := "out".toList) (fun _ _ _ => orders_homes) (by simp [orders]; rfl) rfl (by decide))
    trivial (xs := [1/2, 2]) (by simp [Spec.arguments]) (by simp) (G := ours) rfl ours_onsets ours_law
    Rates.idealGsl_ok (fun x _ q _ => bounded_answers (ours_spread x) (below_meas _) (K := 1) fun y => by
      rw [abs_of_nonneg (below_range _ _).1]
      exact (below_range _ _).2)
  exact ⟨text, σ, hr, h⟩

theorem moments_chosen {e s : ℝ → ℝ} {cs : Option (List Interp.Col)} (h : Spec.Moments cs) :
    ∃ vs, Spec.momentColumns e s cs = some vs := by
  have key : ∀ l : List Interp.Col, (∀ c ∈ l, c = .placement .mean ∨ c = .spread .sdLn) →
      ∃ vs, l.mapM (Spec.momentColumn e s) = some vs := by
    intro l
    induction l with
    | nil => exact fun _ => ⟨[], rfl⟩
    | cons c l ih =>
      intro hl
      obtain ⟨vs, hvs⟩ := ih fun c hc => hl c (List.mem_cons_of_mem _ hc)
      rcases hl c List.mem_cons_self with rfl | rfl <;>
        exact ⟨_ :: vs, by simp only [List.mapM_cons, hvs, Spec.momentColumn]; rfl⟩
  cases cs with
  | none => exact ⟨_, rfl⟩
  | some l => exact key l (h l rfl)

/-- **C91.** The file of a `costim` recorder: the mean cost of repair at the intensity, over the demands it causes, and
the log-spread of the lognormal cost with that mean and the mean square. -/
theorem intensity_cost_file_partial {G : Spec.Components} {cs : Option (List Interp.Col)}
    (hok : ∀ c ∈ ls, Gram.OkCmd p c.2) (ht : Lex.Written (Gram.toks (Gram.writeScript p ls)) text)
    (hl : ls.map (·.2) =
      A ++ .recorder rid (.fn .costim id a cs) (some ⟨file, false⟩) :: B ++ .analyze :: C)
    (hs : ∀ m ∈ A ++ .recorder rid (.fn .costim id a cs) (some ⟨file, false⟩) :: B ++ C,
      m.sound = true)
    (hr : sessionR (integrated maq gsl) ds M ev (start ({}, {}) fs) text = (τ, none))
    (hset : Spec.Settled (ls.map (·.2))) (hB : ∀ b' po, Cmd.recorder rid b' po ∉ B)
    (hal : Spec.Alone (Output.dirOf (Spec.directory (A ++ B))) rid file (A ++ B))
    (hu : Spec.Untouched (Output.fullPath (Output.dirOf (Spec.directory (A ++ B))) file.toList)
      (A ++ .recorder rid (.fn .costim id a cs) (some ⟨file, false⟩) :: B ++ [.analyze]) C)
    (ha : Spec.arguments M a = some (xs.map Dbl.fin)) (hx : ∀ x ∈ xs, 0 < x)
    (hc : Spec.groupOf A.reverse id = some G) (hcs : Spec.Moments cs)
    (hon : ∀ q ∈ G.onsets, Spec.Meant q.1 q.2.1 q.2.2.1 q.2.2.2 ∧ 0 < q.2.2.2)
    (hcr : ∀ y, 0 < y → (Spec.reached G.onsets y).Pairwise (fun a b => b ≤ a))
    (hfit : Spec.Fits G G.cost) (hme : G.cost.Meant) (hf : 0 ≤ G.costFactor) (hn : 0 < G.count)
    (hm : G.law.Meant) (hg : Rates.Differentiates gsl)
    (hI : ∀ x ∈ xs, Spec.Answers maq ε fun y =>
      Spec.expected G G.cost G.costFactor y * Spec.density (G.law.at_ x) y)
    (hJ : ∀ x ∈ xs, Spec.Answers maq ε fun y =>
      Spec.expectedSquare G G.cost G.costFactor y * Spec.density (G.law.at_ x) y) :
    ∃ (m s : ℝ → ℝ) (vs : List (String × (ℝ → ℝ))), (∀ x ∈ xs, |m x - ∫ y in Ioi (0 : ℝ),
        Spec.expected G G.cost G.costFactor y * Spec.density (G.law.at_ x) y| ≤ ε) ∧
      (∀ x ∈ xs, |s x - ∫ y in Ioi (0 : ℝ),
        Spec.expectedSquare G G.cost G.costFactor y * Spec.density (G.law.at_ x) y| ≤ ε) ∧
      Spec.momentColumns m (fun x => Spec.logSpread (m x) (max (s x) (m x ^ 2))) cs = some vs ∧
      τ.files (Output.fullPath (Output.dirOf (Spec.directory (A ++ B))) file.toList) =
        some ((Spec.tableOf G.im vs xs).map M.render) := by
  obtain ⟨σ, hr, hτ⟩ := forget (integrated_separate maq gsl) hok ht hl hs hr hset
  rw [hτ]
  obtain ⟨σA, σZ, hA, hZ, -, -, hL⟩ := setup hok ht hl hs hr
  obtain ⟨-, g, hth, hG, -⟩ := (stock_at (fun m hm => hs m (by simp [hm])) hA).group _ _ hc
  obtain ⟨n, t', -, -, hsame, hseen⟩ := seen_later (N := integrated maq gsl) (ds := ds) hL hth
  cases hsame
  have hval := fun x (hx' : x ∈ xs) =>
    cost_found (maq := maq) hg hG hm (hx x hx') hn hon hcr hfit hme hf (hI x hx') (hJ x hx')
  choose! m s e1 e2 e3 e4 using hval
  obtain ⟨vs, hv⟩ := moments_chosen (e := m) (s := fun x => Spec.logSpread (m x) (max (s x) (m x ^ 2))) hcs
  refine ⟨m, s, vs, fun x hx' => (e3 x hx').near (hI x hx'), fun x hx' => (e4 x hx').near (hJ x hx'), hv, ?_⟩
  obtain ⟨rc, ws, hord, k1, k2, k3⟩ := moment_order (E := ((integrated maq gsl).group g).eCostIm)
    (S := ((integrated maq gsl).group g).sdLnCostIm) e1 e2 hv (t := .costim) (id := id) ha
  have htab : Rec.Spec.table .costim (seen (plain (integrated maq gsl) ds) σZ.lib
      ((plain (integrated maq gsl) ds).find σA.lib "compgroup" id)) rc (xs.map Dbl.fin) = some (Spec.tableOf G.im vs xs) := by
    rw [hseen]
    simp only [Thing.obj, Group.obj, Rec.Spec.table, Rec.Spec.argument, Rec.Spec.columns, Option.bind_eq_bind,
      Option.bind_some, Option.pure_def, Spec.tableOf, hG.2.2.2.2.2.2.2.1, k1, k2, List.map_map,
      Option.some.injEq, List.cons.injEq, true_and]
    apply List.map_congr_left
    intro x hx'
    simp only [Function.comp_apply, List.cons.injEq, true_and]
    exact k3 x hx'
  exact session_table_partial hok ht hl hs hr hB hal hu hord trivial hA hZ htab
    (by intro g g' _ _ hk; rcases hk with hk | hk <;> cases hk)
    (by intro g x _ hk; cases hk)
example (ds : World → Interp.Printed → String) (ev : String → Except Err Val) (fs : Files) :
    ∃ text σ, sessionR (integrated Rates.ideal Rates.idealGsl) ds (bench rd) ev (start ({}, {}) fs) text = (σ, none) ∧
      σ.files "out/g4.csv".toList = some ((Spec.tableOf "i" [("mean_x", billMean),
        ("sd_ln_x", fun x => Spec.logSpread (billMean x) (billSquare x))] [1/2, 2]).map (bench rd).render) := by
  obtain ⟨p, text, σ, hok, ht, hr⟩ := bill_session (integrated_separate Rates.ideal Rates.idealGsl) ds ev fs
  obtain ⟨m, s, vs, h1, h2, h3, h⟩ := intensity_cost_file_partial (ε := 0) (A := posted ++ [want1, want2, want3])
    (B := [want5, want6, want7, want8]) (rid := "w4") (file := "g4")
    hok ht (by simp [bill, orders, want4]) (C := []) orders_sound hr
    bill_settled (by simp [want5, want6, want7, want8])
    (alone_of (d := "out".toList) (fun _ _ _ => orders_homes) (by simp [orders]; rfl) rfl (by decide))
    trivial (xs := [1/2, 2]) (by simp [Spec.arguments]) (by simp) (G := ours) rfl (by intro l hl; cases hl) ours_onsets
    (fun y _ => ours_sorted y)
    ⟨rfl, trivial⟩ (by
      intro q hq
      simp only [List.mem_cons, List.not_mem_nil, or_false] at hq
      rcases hq with rfl | rfl <;> exact ⟨by norm_num, Or.inl rfl, Or.inr (by norm_num)⟩)
    (by norm_num [ours]) (by norm_num [ours]) ours_law Rates.idealGsl_ok
    (fun x _ => loss_answers _ _ (ours_spread x)) (fun x _ => square_answers _ _ (ours_spread x))
  refine ⟨text, σ, hr, h.trans ?_⟩
  obtain rfl : [("mean_x", m), ("sd_ln_x", fun x => Spec.logSpread (m x) (max (s x) (m x ^ 2)))] = vs := Option.some.inj h3
  have a1 : m (1/2) = billMean (1/2) := sub_eq_zero.1 (abs_nonpos_iff.1 (h1 (1/2) (by simp)))
  have a2 : m 2 = billMean 2 := sub_eq_zero.1 (abs_nonpos_iff.1 (h1 2 (by simp)))
  have b1 : s (1/2) = billSquare (1/2) := sub_eq_zero.1 (abs_nonpos_iff.1 (h2 (1/2) (by simp)))
  have b2 : s 2 = billSquare 2 := sub_eq_zero.1 (abs_nonpos_iff.1 (h2 2 (by simp)))
  simp only [Spec.tableOf, List.map_cons, List.map_nil, a1, a2, b1, b2, max_eq_left (bill_moments _).2.le]
  rfl

/-- **C91.** The same for the delay, of a group with a delay function. -/
theorem intensity_delay_file_partial {G : Spec.Components} {K : Spec.Losses}
    (hok : ∀ c ∈ ls, Gram.OkCmd p c.2) (ht : Lex.Written (Gram.toks (Gram.writeScript p ls)) text)
    (hl : ls.map (·.2) =
      A ++ .recorder rid (.fn .delayim id a (some [.placement .mean])) (some ⟨file, false⟩) :: B ++ .analyze :: C)
    (hs : ∀ m ∈ A ++ .recorder rid (.fn .delayim id a (some [.placement .mean])) (some ⟨file, false⟩) :: B ++ C,
      m.sound = true)
    (hr : sessionR (integrated maq gsl) ds M ev (start ({}, {}) fs) text = (τ, none))
    (hset : Spec.Settled (ls.map (·.2))) (hB : ∀ b' po, Cmd.recorder rid b' po ∉ B)
    (hal : Spec.Alone (Output.dirOf (Spec.directory (A ++ B))) rid file (A ++ B))
    (hu : Spec.Untouched (Output.fullPath (Output.dirOf (Spec.directory (A ++ B))) file.toList)
      (A ++ .recorder rid (.fn .delayim id a (some [.placement .mean])) (some ⟨file, false⟩) :: B ++ [.analyze]) C)
    (ha : Spec.arguments M a = some (xs.map Dbl.fin)) (hx : ∀ x ∈ xs, 0 < x)
    (hc : Spec.groupOf A.reverse id = some G) (hK : G.delay = some K)
    (hon : ∀ q ∈ G.onsets, Spec.Meant q.1 q.2.1 q.2.2.1 q.2.2.2 ∧ 0 < q.2.2.2)
    (hcr : ∀ y, 0 < y → (Spec.reached G.onsets y).Pairwise (fun a b => b ≤ a))
    (hfit : Spec.Fits G K) (hme : K.Meant) (hf : 0 ≤ G.delayFactor) (hn : 0 < G.count)
    (hm : G.law.Meant) (hg : Rates.Differentiates gsl)
    (hI : ∀ x ∈ xs, Spec.Answers maq ε fun y =>
      Spec.expected G K G.delayFactor y * Spec.density (G.law.at_ x) y) :
    ∃ v : ℝ → ℝ, (∀ x ∈ xs, |v x - ∫ y in Ioi (0 : ℝ),
        Spec.expected G K G.delayFactor y * Spec.density (G.law.at_ x) y| ≤ ε) ∧
      τ.files (Output.fullPath (Output.dirOf (Spec.directory (A ++ B))) file.toList) =
        some ((Spec.tableOf G.im [("mean_x", v)] xs).map M.render) := by
  obtain ⟨σ, hr, hτ⟩ := forget (integrated_separate maq gsl) hok ht hl hs hr hset
  rw [hτ]
  obtain ⟨σA, σZ, hA, hZ, -, -, hL⟩ := setup hok ht hl hs hr
  obtain ⟨-, g, hth, hG, -⟩ := (stock_at (fun m hm => hs m (by simp [hm])) hA).group _ _ hc
  obtain ⟨n, t', -, -, hsame, hseen⟩ := seen_later (N := integrated maq gsl) (ds := ds) hL hth
  cases hsame
  have hval := fun x (hx' : x ∈ xs) => (mean_found (maq := maq) (ε := ε) hg hG hm (hx x hx') hn hon hcr).2 K hK hfit hme hf (hI x hx')
  refine ⟨fun x => Rates.val (((integrated maq gsl).group g).eDelayIm (.fin x)), ?_, ?_⟩
  · intro x hx'
    obtain ⟨v, e1, e2⟩ := hval x hx'
    beta_reduce
    rw [e1]
    exact e2
  have hord : Spec.order M (.fn .delayim id a (some [.placement .mean])) =
      some (.delayim, some [.name "mean_x"], xs.map Dbl.fin) := by
    simp [Spec.order, ha, Spec.kind, Spec.column]
  refine session_table_partial hok ht hl hs hr hB hal hu hord trivial hA hZ ?_
    (by intro g g' _ _ hk; rcases hk with hk | hk <;> cases hk)
    (by intro g x _ hk; cases hk)
  show Rec.Spec.table _ (seen (plain (integrated maq gsl) ds) σZ.lib
    ((plain (integrated maq gsl) ds).find σA.lib "compgroup" id)) _ _ = _
  rw [hseen]
  simp only [Thing.obj, Group.obj, Rec.Spec.table, Rec.Spec.argument, Rec.Spec.columns, Option.bind_eq_bind,
    Option.bind_some, Option.pure_def, Spec.tableOf, List.map_cons, List.map_nil, List.map_map,
    Option.getD_some, Rec.Spec.chosen, Rec.Spec.moment, List.lookup, beq_self_eq_true,
    Option.some.injEq, List.cons.injEq, true_and, hG.2.2.2.2.2.2.2.1]
  apply List.map_congr_left
  intro x hx'
  obtain ⟨v, e1, -⟩ := hval x hx'
  simp only [Function.comp, e1]
  rfl
example (ds : World → Interp.Printed → String) (ev : String → Except Err Val) (fs : Files) :
    ∃ text σ, sessionR (integrated Rates.ideal Rates.idealGsl) ds (bench rd) ev (start ({}, {}) fs) text = (σ, none) ∧
      σ.files "out/g5.csv".toList = some ((Spec.tableOf "i" [("mean_x", fun x => ∫ y in Ioi (0 : ℝ),
        Spec.expected ours (.scaled [(2, 10, ((3 : ℚ) : ℝ), ((1 : ℚ) : ℝ), ((2/5 : ℚ) : ℝ)),
          (2, 10, ((8 : ℚ) : ℝ), ((4 : ℚ) : ℝ), ((2/5 : ℚ) : ℝ))]) ours.delayFactor y * Spec.density (ours.law.at_ x) y)]
          [1/2, 2]).map (bench rd).render) := by
  obtain ⟨p, text, σ, hok, ht, hr⟩ := bill_session (integrated_separate Rates.ideal Rates.idealGsl) ds ev fs
  obtain ⟨v, hv, h⟩ := intensity_delay_file_partial (ε := 0) (A := posted ++ [want1, want2, want3, want4])
    (B := [want6, want7, want8]) (rid := "w5") (file := "g5")
    hok ht (by simp [bill, orders, want5]) (C := []) orders_sound hr
    bill_settled (by simp [want6, want7, want8])
    (alone_of (d := "out".toList) (fun _ _ _ => orders_homes) (by simp [orders]; rfl) rfl (by decide))
    trivial (xs := [1/2, 2]) (by simp [Spec.arguments]) (by simp) (G := ours) (K := .scaled [(2, 10, ((3 : ℚ) : ℝ), ((1 : ℚ) : ℝ), ((2/5 : ℚ) : ℝ)),
      (2, 10, ((8 : ℚ) : ℝ), ((4 : ℚ) : ℝ), ((2/5 : ℚ) : ℝ))]) rfl rfl ours_onsets
    (fun y _ => ours_sorted y)
    ⟨rfl, by
      intro q hq
      simp only [List.mem_cons, List.not_mem_nil, or_false] at hq
      rcases hq with rfl | rfl <;> norm_num⟩ (by
      intro q hq
      simp only [List.mem_cons, List.not_mem_nil, or_false] at hq
      rcases hq with rfl | rfl <;> norm_num [Spec.Small])
    (by norm_num [ours]) (by norm_num [ours]) ours_law Rates.idealGsl_ok
    (fun x _ => loss_answers _ _ (ours_spread x))
  refine ⟨text, σ, hr, h.trans ?_⟩
  have a1 := sub_eq_zero.1 (abs_nonpos_iff.1 (hv (1/2) (by simp)))
  have a2 := sub_eq_zero.1 (abs_nonpos_iff.1 (hv 2 (by simp)))
  simp only [Spec.tableOf, List.map_cons, List.map_nil, a1, a2]
  rfl

/-- **C91.** With the log-spread, for a single component; of several components the code has it wrong
(`Rates.group_delay_distribution_fails`, C61). -/
theorem intensity_delay_moments_partial {G : Spec.Components} {K : Spec.Losses} {cs : Option (List Interp.Col)}
    (hok : ∀ c ∈ ls, Gram.OkCmd p c.2) (ht : Lex.Written (Gram.toks (Gram.writeScript p ls)) text)
    (hl : ls.map (·.2) =
      A ++ .recorder rid (.fn .delayim id a cs) (some ⟨file, false⟩) :: B ++ .analyze :: C)
    (hs : ∀ m ∈ A ++ .recorder rid (.fn .delayim id a cs) (some ⟨file, false⟩) :: B ++ C,
      m.sound = true)
    (hr : sessionR (integrated maq gsl) ds M ev (start ({}, {}) fs) text = (τ, none))
    (hset : Spec.Settled (ls.map (·.2))) (hB : ∀ b' po, Cmd.recorder rid b' po ∉ B)
    (hal : Spec.Alone (Output.dirOf (Spec.directory (A ++ B))) rid file (A ++ B))
    (hu : Spec.Untouched (Output.fullPath (Output.dirOf (Spec.directory (A ++ B))) file.toList)
      (A ++ .recorder rid (.fn .delayim id a cs) (some ⟨file, false⟩) :: B ++ [.analyze]) C)
    (ha : Spec.arguments M a = some (xs.map Dbl.fin)) (hx : ∀ x ∈ xs, 0 < x)
    (hc : Spec.groupOf A.reverse id = some G) (hK : G.delay = some K) (hcs : Spec.Moments cs)
    (hon : ∀ q ∈ G.onsets, Spec.Meant q.1 q.2.1 q.2.2.1 q.2.2.2 ∧ 0 < q.2.2.2)
    (hcr : ∀ y, 0 < y → (Spec.reached G.onsets y).Pairwise (fun a b => b ≤ a))
    (hfit : Spec.Fits G K) (hme : K.Meant) (hf : 0 ≤ G.delayFactor) (hn : G.count = 1)
    (hm : G.law.Meant) (hg : Rates.Differentiates gsl)
    (hI : ∀ x ∈ xs, Spec.Answers maq ε fun y =>
      Spec.expected G K G.delayFactor y * Spec.density (G.law.at_ x) y)
    (hJ : ∀ x ∈ xs, Spec.Answers maq ε fun y =>
      Spec.expectedSquare G K G.delayFactor y * Spec.density (G.law.at_ x) y) :
    ∃ (m s : ℝ → ℝ) (vs : List (String × (ℝ → ℝ))), (∀ x ∈ xs, |m x - ∫ y in Ioi (0 : ℝ),
        Spec.expected G K G.delayFactor y * Spec.density (G.law.at_ x) y| ≤ ε) ∧
      (∀ x ∈ xs, |s x - ∫ y in Ioi (0 : ℝ),
        Spec.expectedSquare G K G.delayFactor y * Spec.density (G.law.at_ x) y| ≤ ε) ∧
      Spec.momentColumns m (fun x => Spec.logSpread (m x) (max (s x) (m x ^ 2))) cs = some vs ∧
      τ.files (Output.fullPath (Output.dirOf (Spec.directory (A ++ B))) file.toList) =
        some ((Spec.tableOf G.im vs xs).map M.render) := by
  obtain ⟨σ, hr, hτ⟩ := forget (integrated_separate maq gsl) hok ht hl hs hr hset
  rw [hτ]
  obtain ⟨σA, σZ, hA, hZ, -, -, hL⟩ := setup hok ht hl hs hr
  obtain ⟨-, g, hth, hG, -⟩ := (stock_at (fun m hm => hs m (by simp [hm])) hA).group _ _ hc
  obtain ⟨n, t', -, -, hsame, hseen⟩ := seen_later (N := integrated maq gsl) (ds := ds) hL hth
  cases hsame
  have hval := fun x (hx' : x ∈ xs) =>
    delay_found (maq := maq) hg hG hm (hx x hx') hn hon hcr hK hfit hme hf (hI x hx') (hJ x hx')
  choose! m s e1 e2 e3 e4 using hval
  obtain ⟨vs, hv⟩ := moments_chosen (e := m) (s := fun x => Spec.logSpread (m x) (max (s x) (m x ^ 2))) hcs
  refine ⟨m, s, vs, fun x hx' => (e3 x hx').near (hI x hx'), fun x hx' => (e4 x hx').near (hJ x hx'), hv, ?_⟩
  obtain ⟨rc, ws, hord, k1, k2, k3⟩ := moment_order (E := ((integrated maq gsl).group g).eDelayIm)
    (S := ((integrated maq gsl).group g).sdLnDelayIm) e1 e2 hv (t := .delayim) (id := id) ha
  have htab : Rec.Spec.table .delayim (seen (plain (integrated maq gsl) ds) σZ.lib
      ((plain (integrated maq gsl) ds).find σA.lib "compgroup" id)) rc (xs.map Dbl.fin) = some (Spec.tableOf G.im vs xs) := by
    rw [hseen]
    simp only [Thing.obj, Group.obj, Rec.Spec.table, Rec.Spec.argument, Rec.Spec.columns, Option.bind_eq_bind,
      Option.bind_some, Option.pure_def, Spec.tableOf, hG.2.2.2.2.2.2.2.1, k1, k2, List.map_map,
      Option.some.injEq, List.cons.injEq, true_and]
    apply List.map_congr_left
    intro x hx'
    simp only [Function.comp_apply, List.cons.injEq, true_and]
    exact k3 x hx'
  exact session_table_partial hok ht hl hs hr hB hal hu hord trivial hA hZ htab
    (by intro g g' _ _ hk; rcases hk with hk | hk <;> cases hk)
    (by intro g x _ hk; cases hk)
/-- The delay of the single component `hh` of the script above. -/
example (ds : World → Interp.Printed → String) (ev : String → Except Err Val) (fs : Files) :
    ∃ text σ, sessionR (integrated Rates.ideal Rates.idealGsl) ds (bench rd) ev (start ({}, {}) fs) text = (σ, none) ∧
      ∃ m s : ℝ → ℝ, (∀ x ∈ [(1/2 : ℝ), 2], |m x - ∫ y in Ioi (0 : ℝ),
          Spec.expected single slow single.delayFactor y * Spec.density (single.law.at_ x) y| ≤ 0) ∧
        (∀ x ∈ [(1/2 : ℝ), 2], |s x - ∫ y in Ioi (0 : ℝ),
          Spec.expectedSquare single slow single.delayFactor y * Spec.density (single.law.at_ x) y| ≤ 0) ∧
        σ.files "out/g6.csv".toList = some ((Spec.tableOf "i"
          [("sd_ln_x", fun x => Spec.logSpread (m x) (max (s x) (m x ^ 2))), ("mean_x", m)] [1/2, 2]).map (bench rd).render) := by
  obtain ⟨p, text, σ, hok, ht, hr⟩ := bill_session (integrated_separate Rates.ideal Rates.idealGsl) ds ev fs
  obtain ⟨m, s, vs, h1, h2, h3, h⟩ := intensity_delay_moments_partial (ε := 0)
    (A := posted ++ [want1, want2, want3, want4, want5]) (B := [want7, want8]) (rid := "w6") (file := "g6")
    hok ht (by simp [bill, orders, want6]) (C := []) orders_sound hr
    bill_settled (by simp [want7, want8])
    (alone_of (d := "out".toList) (fun _ _ _ => orders_homes) (by simp [orders]; rfl) rfl (by decide))
    trivial (xs := [1/2, 2]) (by simp [Spec.arguments]) (by simp) (G := single) (K := slow) rfl rfl
    (by
      intro l hl c hc
      simp only [Option.mem_def, Option.some.injEq] at hl
      subst hl
      simp only [List.mem_cons, List.not_mem_nil, or_false] at hc
      exact hc.symm)
    ours_onsets (fun y _ => ours_sorted y)
    ⟨rfl, by
      intro q hq
      simp only [List.mem_cons, List.not_mem_nil, or_false] at hq
      rcases hq with rfl | rfl <;> norm_num⟩ (by
      intro q hq
      simp only [List.mem_cons, List.not_mem_nil, or_false] at hq
      rcases hq with rfl | rfl <;> norm_num [Spec.Small])
    (by norm_num [single]) rfl ours_law Rates.idealGsl_ok
    (fun x _ => loss_answers _ _ (ours_spread x)) (fun x _ => square_answers _ _ (ours_spread x))
  cases h3
  exact ⟨text, σ, hr, m, s, h1, h2, h⟩

/-- **C91.** The file of a `dsrate` recorder: the annual rate at which each damage state is reached.  What the integrator
finds is integrated once more, so that its error counts twice. -/
theorem state_rate_file_partial {G : Spec.Components} {ε' : ℝ} {h h' : ℝ → ℝ}
    (hok : ∀ c ∈ ls, Gram.OkCmd p c.2) (ht : Lex.Written (Gram.toks (Gram.writeScript p ls)) text)
    (hl : ls.map (·.2) =
      A ++ .recorder rid (.dsrate id) (some ⟨file, false⟩) :: B ++ .analyze :: C)
    (hs : ∀ m ∈ A ++ .recorder rid (.dsrate id) (some ⟨file, false⟩) :: B ++ C,
      m.sound = true)
    (hr : sessionR (integrated maq gsl) ds M ev (start ({}, {}) fs) text = (τ, none))
    (hset : Spec.Settled (ls.map (·.2))) (hB : ∀ b' po, Cmd.recorder rid b' po ∉ B)
    (hal : Spec.Alone (Output.dirOf (Spec.directory (A ++ B))) rid file (A ++ B))
    (hu : Spec.Untouched (Output.fullPath (Output.dirOf (Spec.directory (A ++ B))) file.toList)
      (A ++ .recorder rid (.dsrate id) (some ⟨file, false⟩) :: B ++ [.analyze]) C)
    (hc : Spec.groupOf A.reverse id = some G) (hi : Spec.hazardOf A.reverse G.im = some h)
    (hon : ∀ q ∈ G.onsets, Spec.Meant q.1 q.2.1 q.2.2.1 q.2.2.2 ∧ 0 < q.2.2.2)
    (hslope : ∀ x, 0 < x → HasDerivAt h (h' x) x) (hm : G.law.Meant) (hg : Rates.Differentiates gsl)
    (hI : ∀ q ∈ G.onsets, Spec.Nested maq ε ε' (fun x y =>
      Spec.below (Spec.logPair q.1 q.2.1 q.2.2.1 q.2.2.2) y * Spec.density (G.law.at_ x) y) fun x => |h' x|) :
    ∃ v : List ℝ, List.Forall₂ (fun r q =>
        |r - ∫ x in Ioi (0 : ℝ), Spec.stateRate (Spec.logPair q.1 q.2.1 q.2.2.1 q.2.2.2) G.law h' x| ≤
          ε' + ε * ∫ x in Ioi (0 : ℝ), |h' x|) v G.onsets ∧
      τ.files (Output.fullPath (Output.dirOf (Spec.directory (A ++ B))) file.toList) =
        some (([(List.range G.onsets.length).map fun i => .text s!"DS{i + 1}",
          v.map fun r => .num (.fin r)] : List Rec.Row).map M.render) := by
  obtain ⟨σ, hr, hτ⟩ := forget (integrated_separate maq gsl) hok ht hl hs hr hset
  rw [hτ]
  obtain ⟨σA, σZ, hA, hZ, hMA, -, hL⟩ := setup hok ht hl hs hr
  obtain ⟨-, g, hth, hG, d, him⟩ := (stock_at (fun m hm => hs m (by simp [hm])) hA).group _ _ hc
  obtain ⟨cv, d', him', hcv⟩ := hMA.hazard _ _ hi
  rw [him] at him'
  cases him'
  obtain ⟨n, t', -, -, hsame, hseen⟩ := seen_later (N := integrated maq gsl) (ds := ds) hL hth
  cases hsame
  obtain ⟨n', t'', -, -, hsame', hseen'⟩ := seen_later (N := integrated maq gsl) (ds := ds) (Later.refl σA.lib) hth
  cases hsame'
  have hval : ∀ q ∈ G.onsets, ∃ r, ((integrated maq gsl).group g).rate (made q) = .fin r ∧
      |r - ∫ x in Ioi (0 : ℝ), Spec.stateRate (pairOf q) G.law h' x| ≤ ε' + ε * ∫ x in Ioi (0 : ℝ), |h' x| := fun q hq =>
    stateRate_found hg hG hm (hon q hq) hcv hslope (hI q hq)
  obtain ⟨v, hv1, hv2⟩ : ∃ v : List ℝ, G.onsets.map (fun q => ((integrated maq gsl).group g).rate (made q)) = v.map Dbl.fin ∧
      List.Forall₂ (fun r q => |r - ∫ x in Ioi (0 : ℝ), Spec.stateRate (pairOf q) G.law h' x| ≤
        ε' + ε * ∫ x in Ioi (0 : ℝ), |h' x|) v G.onsets := by
    clear hc hi hon hm hI hG him hMA
    generalize G.onsets = l at hval
    induction l with
    | nil => exact ⟨[], rfl, .nil⟩
    | cons q l ih =>
      obtain ⟨r, r1, r2⟩ := hval q List.mem_cons_self
      obtain ⟨v, v1, v2⟩ := ih fun q hq => hval q (List.mem_cons_of_mem _ hq)
      exact ⟨r :: v, by rw [List.map_cons, r1, v1, List.map_cons], .cons r2 v2⟩
  refine ⟨v, hv2, ?_⟩
  obtain ⟨σA', σZ', r, h1, h2, h3, -, h5⟩ := session_report_partial hok ht hl hs hr hB hal hu (b := .dsrate id) rfl
  obtain rfl : σA = σA' := by rw [hA] at h1; exact (Prod.mk.inj h1).1
  obtain rfl : σZ = σZ' := by rw [hZ] at h2; exact (Prod.mk.inj h2).1
  rw [h5]
  have hs1 : seen (plain (integrated maq gsl) ds) σZ.lib ((plain (integrated maq gsl) ds).find σA.lib
      (Interp.RecBody.dsrate id).registry (Interp.RecBody.dsrate id).id) = _ := hseen
  have hs2 : seen (plain (integrated maq gsl) ds) σA.lib ((plain (integrated maq gsl) ds).find σA.lib
      (Interp.RecBody.dsrate id).registry (Interp.RecBody.dsrate id).id) = _ := hseen'
  rw [hs2] at h3
  rw [hs1]
  have hr' : r = ⟨.dsrate, Thing.obj (integrated maq gsl) σA.lib (.group g), {}, none, []⟩ := by
    simpa [Rec.make, Rec.mkBase, Rec.defaultColumns, Thing.obj, Group.obj, pure, Except.pure, Bind.bind, Except.bind, eq_comm]
      using h3
  subst hr'
  have hst : g.states.map ((integrated maq gsl).group g).rate = v.map Dbl.fin := by
    rw [hG.1, List.map_map]
    exact hv1
  have hlen : (g.states.map ((integrated maq gsl).group g).rate).length = G.onsets.length := by rw [hG.1]; simp
  congr 2
  show [(List.range (g.states.map ((integrated maq gsl).group g).rate).length).map (fun i => Rec.Cell.text s!"DS{i + 1}"),
    (g.states.map ((integrated maq gsl).group g).rate).map Rec.Cell.num] = _
  rw [hlen, hst, List.map_map]
  rfl
example (ds : World → Interp.Printed → String) (ev : String → Except Err Val) (fs : Files) :
    ∃ text σ, sessionR (integrated Rates.ideal Rates.idealGsl) ds (bench rd) ev (start ({}, {}) fs) text = (σ, none) ∧
      ∃ u v : ℝ,
        u = ∫ x in Ioi (0 : ℝ), Spec.stateRate (Real.log ((1/2 : ℚ) : ℝ), ((3/10 : ℚ) : ℝ)) ours.law fall' x ∧
        v = ∫ x in Ioi (0 : ℝ), Spec.stateRate (Real.log ((1 : ℚ) : ℝ), ((3/10 : ℚ) : ℝ)) ours.law fall' x ∧
        σ.files "out/g7.csv".toList = some (([[.text "DS1", .text "DS2"], [.num (.fin u), .num (.fin v)]] :
          List Rec.Row).map (bench rd).render) := by
  obtain ⟨p, text, σ, hok, ht, hr⟩ := bill_session (integrated_separate Rates.ideal Rates.idealGsl) ds ev fs
  obtain ⟨l, hv, h⟩ := state_rate_file_partial (ε := 0) (ε' := 0)
    (A := posted ++ [want1, want2, want3, want4, want5, want6]) (B := [want8]) (rid := "w7") (file := "g7")
    hok ht (by simp [bill, orders, want7]) (C := []) orders_sound hr
    bill_settled (by simp [want8])
    (alone_of (d := "out".toList) (fun _ _ _ => orders_homes) (by simp [orders]; rfl) rfl (by decide))
    trivial (G := ours) (h := fall) rfl rfl ours_onsets (fun x hx => fall_deriv hx) ours_law Rates.idealGsl_ok
    (fun q hq => ideal_nested (logPair_pos (ours_onsets q hq).1 (ours_onsets q hq).2))
  rcases hv with _ | ⟨hu, _ | ⟨hv, _ | _⟩⟩
  rename_i u v
  rw [zero_mul, add_zero] at hu hv
  exact ⟨text, σ, hr, u, v, sub_eq_zero.1 (abs_nonpos_iff.1 hu), sub_eq_zero.1 (abs_nonpos_iff.1 hv), h⟩

/-- **C91.** The file of a `costrate` recorder: for each cost the annual rate at which it is exceeded, if at every
intensity the cost is lognormal with the mean and the mean square that the integrator finds there. It may be found to
be nothing, or to have no spread as long as it is not one of the costs asked for (`zero_spread_at_value_fails`). -/
theorem cost_rate_file_partial {G : Spec.Components} {ε' : ℝ} {h h' : ℝ → ℝ}
    (hok : ∀ c ∈ ls, Gram.OkCmd p c.2) (ht : Lex.Written (Gram.toks (Gram.writeScript p ls)) text)
    (hl : ls.map (·.2) =
      A ++ .recorder rid (.rates .costrate id a) (some ⟨file, false⟩) :: B ++ .analyze :: C)
    (hs : ∀ m ∈ A ++ .recorder rid (.rates .costrate id a) (some ⟨file, false⟩) :: B ++ C,
      m.sound = true)
    (hr : sessionR (integrated maq gsl) ds M ev (start ({}, {}) fs) text = (τ, none))
    (hset : Spec.Settled (ls.map (·.2))) (hB : ∀ b' po, Cmd.recorder rid b' po ∉ B)
    (hal : Spec.Alone (Output.dirOf (Spec.directory (A ++ B))) rid file (A ++ B))
    (hu : Spec.Untouched (Output.fullPath (Output.dirOf (Spec.directory (A ++ B))) file.toList)
      (A ++ .recorder rid (.rates .costrate id a) (some ⟨file, false⟩) :: B ++ [.analyze]) C)
    (ha : Spec.arguments M a = some (xs.map Dbl.fin)) (hx : ∀ z ∈ xs, 0 < z)
    (hc : Spec.groupOf A.reverse id = some G) (hi : Spec.hazardOf A.reverse G.im = some h)
    (hon : ∀ q ∈ G.onsets, Spec.Meant q.1 q.2.1 q.2.2.1 q.2.2.2 ∧ 0 < q.2.2.2)
    (hcr : ∀ y, 0 < y → (Spec.reached G.onsets y).Pairwise (fun a b => b ≤ a))
    (hfit : Spec.Fits G G.cost) (hme : G.cost.Meant) (hf : 0 ≤ G.costFactor) (hn : 0 < G.count)
    (hslope : ∀ x, 0 < x → HasDerivAt h (h' x) x) (hm : G.law.Meant) (hg : Rates.Differentiates gsl)
    (hI : ∀ x, 0 < x → Spec.Answers maq ε fun y =>
      Spec.expected G G.cost G.costFactor y * Spec.density (G.law.at_ x) y)
    (hJ : ∀ x, 0 < x → Spec.Answers maq ε fun y =>
      Spec.expectedSquare G G.cost G.costFactor y * Spec.density (G.law.at_ x) y)
    (hK : ∀ m s : ℝ → ℝ,
      (∀ x, 0 < x → Spec.Finds maq
        (fun y => Spec.expected G G.cost G.costFactor y * Spec.density (G.law.at_ x) y) (m x)) →
      (∀ x, 0 < x → Spec.Finds maq
        (fun y => Spec.expectedSquare G G.cost G.costFactor y * Spec.density (G.law.at_ x) y) (s x)) →
      ∀ z ∈ xs, (∀ x, 0 < x → 0 ≤ m x ∧ (s x ≤ m x ^ 2 → m x ≠ z)) ∧ Spec.Answers maq ε' (Spec.costRate m s h' z)) :
    ∃ m s v : ℝ → ℝ, (∀ x, 0 < x → |m x - ∫ y in Ioi (0 : ℝ),
        Spec.expected G G.cost G.costFactor y * Spec.density (G.law.at_ x) y| ≤ ε) ∧
      (∀ x, 0 < x → |s x - ∫ y in Ioi (0 : ℝ),
        Spec.expectedSquare G G.cost G.costFactor y * Spec.density (G.law.at_ x) y| ≤ ε) ∧
      (∀ z ∈ xs, |v z - ∫ x in Ioi (0 : ℝ), Spec.costRate m s h' z x| ≤ ε') ∧
      τ.files (Output.fullPath (Output.dirOf (Spec.directory (A ++ B))) file.toList) =
        some ((Spec.tableOf "t" [("Rate", v)] xs).map M.render) := by
  obtain ⟨σ, hr, hτ⟩ := forget (integrated_separate maq gsl) hok ht hl hs hr hset
  rw [hτ]
  obtain ⟨σA, σZ, hA, hZ, hMA, -, hL⟩ := setup hok ht hl hs hr
  obtain ⟨-, g, hth, hG, d, him⟩ := (stock_at (fun m hm => hs m (by simp [hm])) hA).group _ _ hc
  obtain ⟨cv, d', him', hcv⟩ := hMA.hazard _ _ hi
  rw [him] at him'
  cases him'
  obtain ⟨n, t', -, -, hsame, hseen⟩ := seen_later (N := integrated maq gsl) (ds := ds) hL hth
  cases hsame
  have hval := fun x (hx' : 0 < x) =>
    cost_found (maq := maq) hg hG hm hx' hn hon hcr hfit hme hf (hI x hx') (hJ x hx')
  choose! m s e1 e2 e3 e4 using hval
  have hrate : ∀ z ∈ xs, ∃ v, ((integrated maq gsl).group g).lambdaCost (.fin z) = .fin v ∧
      |v - ∫ x in Ioi (0 : ℝ), Spec.costRate m s h' z x| ≤ ε' := fun z hz =>
    costRate_found (hx z hz) hg hG hn hcv hslope e1 e2 (hK m s e3 e4 z hz).1 (hK m s e3 e4 z hz).2
  choose! v v1 v2 using hrate
  refine ⟨m, s, v, fun x hx' => (e3 x hx').near (hI x hx'), fun x hx' => (e4 x hx').near (hJ x hx'), v2, ?_⟩
  have hord : Spec.order M (.rates .costrate id a) = some (.costrate, none, xs.map Dbl.fin) := by
    simp [Spec.order, ha, Spec.kindAt]
  refine session_table_partial hok ht hl hs hr hB hal hu hord trivial hA hZ ?_
    (by intro g g' _ _ hk; rcases hk with hk | hk <;> cases hk)
    (by intro g x _ hk; cases hk)
  show Rec.Spec.table _ (seen (plain (integrated maq gsl) ds) σZ.lib
    ((plain (integrated maq gsl) ds).find σA.lib "compgroup" id)) _ _ = _
  rw [hseen]
  simp only [Thing.obj, Group.obj, Rec.Spec.table, Rec.Spec.argument, Rec.Spec.columns, Option.bind_eq_bind,
    Option.bind_some, Option.pure_def, Spec.tableOf, List.map_cons, List.map_nil, List.map_map,
    Option.some.injEq, List.cons.injEq, true_and]
  apply List.map_congr_left
  intro z hz
  simp only [Function.comp, v1 z hz]
example (ds : World → Interp.Printed → String) (ev : String → Except Err Val) (fs : Files) :
    ∃ text σ, sessionR (integrated Rates.ideal Rates.idealGsl) ds (bench rd) ev (start ({}, {}) fs) text = (σ, none) ∧
      σ.files "out/g8.csv".toList = some ((Spec.tableOf "t" [("Rate", fun z =>
        ∫ x in Ioi (0 : ℝ), Spec.costRate billMean billSquare fall' z x)] [10, 100]).map (bench rd).render) := by
  obtain ⟨p, text, σ, hok, ht, hr⟩ := bill_session (integrated_separate Rates.ideal Rates.idealGsl) ds ev fs
  obtain ⟨m, s, v, h1, h2, h3, h⟩ := cost_rate_file_partial (ε := 0) (ε' := 0)
    (A := posted ++ [want1, want2, want3, want4, want5, want6, want7]) (B := []) (rid := "w8") (file := "g8")
    hok ht (by simp [bill, orders, want8]) (C := []) orders_sound hr
    bill_settled (by simp)
    (alone_of (d := "out".toList) (fun _ _ _ => orders_homes) (by simp [orders]; rfl) rfl (by decide))
    trivial (xs := [10, 100]) (by simp [Spec.arguments]) (by simp) (G := ours) (h := fall) rfl rfl ours_onsets
    (fun y _ => ours_sorted y)
    ⟨rfl, trivial⟩ (by
      intro q hq
      simp only [List.mem_cons, List.not_mem_nil, or_false] at hq
      rcases hq with rfl | rfl <;> exact ⟨by norm_num, Or.inl rfl, Or.inr (by norm_num)⟩)
    (by norm_num [ours]) (by norm_num [ours]) (fun x hx => fall_deriv hx) ours_law Rates.idealGsl_ok
    (fun x _ => loss_answers _ _ (ours_spread x)) (fun x _ => square_answers _ _ (ours_spread x))
    (fun m s hm hs z _ => bill_answers hm hs z)
  refine ⟨text, σ, hr, h.trans ?_⟩
  have em : ∀ x, 0 < x → m x = billMean x := fun x hx => sub_eq_zero.1 (abs_nonpos_iff.1 (h1 x hx))
  have es : ∀ x, 0 < x → s x = billSquare x := fun x hx => sub_eq_zero.1 (abs_nonpos_iff.1 (h2 x hx))
  have ev' : ∀ z ∈ [(10 : ℝ), 100], v z = ∫ x in Ioi (0 : ℝ), Spec.costRate billMean billSquare fall' z x := by
    intro z hz
    rw [sub_eq_zero.1 (abs_nonpos_iff.1 (h3 z hz))]
    refine setIntegral_congr_fun measurableSet_Ioi fun x hx => ?_
    simp only [Spec.costRate, em x hx, es x hx]
  simp only [Spec.tableOf, List.map_cons, List.map_nil, ev' 10 (by simp), ev' 100 (by simp)]

end

end Slat.Session
