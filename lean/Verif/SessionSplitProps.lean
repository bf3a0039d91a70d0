import Verif.SessionSplitSample

/-!
# Sessions and structures (C92): costs by demand and by fragility function, in the files

What a session that ends leaves in the file of a `structcost --by_edp` or `structcost --by_frag` recorder.  The full statement has
the same of every column and every analysis; missing are other columns than `mean_x` and `sd_ln_x` and costs that
the integrator finds to be negative.
-/

namespace Slat.Session

open MeasureTheory Set Filter Topology

noncomputable section

open Interp (Val Call Cmd Cfg Err Mu Sd DistCmd Sc)
open Output (Path Files)

variable {rd : Rec.Row → String}

variable {maq : Rates.Maq} {gsl : Rates.Gsl} {ε : ℝ} {ds : World → Interp.Printed → String} {M : Machine}
  {ev : String → Except Err Val} {p : Gram.Pen} {ls : List (Gram.Style × Cmd)} {text : List Char}
  {A B C : List Cmd} {rid file id : String} {a : Interp.At} {fs : Files} {τ : State (World × Memory)} {xs : List ℝ}
  {G : Spec.Components} {Gs : List Spec.Components} {cs : Option (List Interp.Col)}

/-- **C92.** The file of a `structcost` recorder by demand or by fragility function: for each demand or fragility function of the
groups, in alphabetical order, the mean repair cost of its groups and the log-spread of that cost; the means of a line add up to
the mean repair cost of the structure.  The names are those of the script. -/
theorem split_cost_file_partial (t : Spec.Split)
    (hok : ∀ c ∈ ls, Gram.OkCmd p c.2) (ht : Lex.Written (Gram.toks (Gram.writeScript p ls)) text)
    (hl : ls.map (·.2) =
      A ++ .recorder rid (.by_ t.word id a cs) (some ⟨file, false⟩) :: B ++ .analyze :: C)
    (hs : ∀ m ∈ A ++ .recorder rid (.by_ t.word id a cs) (some ⟨file, false⟩) :: B ++ C,
      m.sound = true)
    (hr : sessionR (integrated maq gsl) ds M ev (start ({}, {}) fs) text = (τ, none))
    (hset : Spec.Settled (ls.map (·.2))) (hB : ∀ b' po, Cmd.recorder rid b' po ∉ B)
    (hal : Spec.Alone (Output.dirOf (Spec.directory (A ++ B))) rid file (A ++ B))
    (hu : Spec.Untouched (Output.fullPath (Output.dirOf (Spec.directory (A ++ B))) file.toList)
      (A ++ .recorder rid (.by_ t.word id a cs) (some ⟨file, false⟩) :: B ++ [.analyze]) C)
    (hone : ∀ gs, Cmd.structure_ id gs ∉ B) (hst : Spec.structOf A.reverse id = some (G :: Gs))
    (hcs : Spec.Moments cs) (hne : cs ≠ some []) (hg : Rates.Differentiates gsl)
    (ha : Spec.arguments M a = some (xs.map Dbl.fin)) (hx : ∀ x ∈ xs, 0 < x)
    (hpay : ∀ x ∈ xs, ∀ g ∈ G :: Gs, Spec.Payable maq ε x g) :
    ∃ (l : ℝ → List (ℝ × ℝ)) (cats : List String), Spec.Parts t (G :: Gs) cats ∧
      (∀ x ∈ xs, Spec.Near ε x (G :: Gs) (l x) ∧
        (cats.map fun n => ((Spec.part t (G :: Gs) (l x) n).map (·.1)).sum).sum = ((l x).map (·.1)).sum) ∧
      τ.files (Output.fullPath (Output.dirOf (Spec.directory (A ++ B))) file.toList) =
        some ((Spec.tableOf G.im (Spec.splitColumns cats cs fun n x => Spec.sumOf (Spec.part t (G :: Gs) (l x) n)) xs).map
          M.render) := by
  obtain ⟨σ, hr, hτ⟩ := forget (integrated_separate maq gsl) hok ht hl hs hr hset
  rw [hτ]
  obtain ⟨σA, σZ, hA, hZ, hMA, hMZ, hL⟩ := setup hok ht hl hs hr
  obtain ⟨b, b0, hG, hseen, hseen0, him, hkey⟩ :=
    groups_at (fun m hm => hs m (List.mem_append_left _ hm)) hA hZ hL hst (by intro gs; simp) hone
  have hval := fun x (hx' : x ∈ xs) => groups_found (maq := maq) (gsl := gsl) hg hG (hx x hx') (hpay x hx')
  choose! l e1 e2 e3 using hval
  -- the columns
  obtain ⟨cc, cols, hreq, hcols, hcc0, hcc, hf⟩ : ∃ (cc : List Rec.CostColumn) (cols : Option (List Rec.Col)),
      Spec.request M (.by_ t.word id a cs) = some (.structcost, cols, some ((xs.map Dbl.fin).map .flt),
        { structType := some (Spec.costs t.word) }) ∧
      cols.getD [.name "mean_x"] = cc.map (fun c => Rec.Col.name c.name) ∧ cc ≠ [] ∧ (∀ c ∈ cc, c = .mean ∨ c = .sdLn) ∧
      ∀ mean spread : ℝ → ℝ, (cs.getD [.placement .mean]).filterMap (Spec.momentColumn mean spread) =
        cc.map fun c => (c.name, if c = .mean then mean else spread) := by
    cases cs with
    | none =>
      exact ⟨[.mean], none, by simp only [Spec.request, ha]; rfl, rfl, by simp, by simp, by intros; rfl⟩
    | some cs =>
      obtain ⟨cc, k1, k2, k3, k4⟩ := split_columns (hcs cs rfl)
      refine ⟨cc, some (cc.map fun c => .name c.name), by simp only [Spec.request, ha, k1]; rfl, rfl, ?_, k3, k4⟩
      rintro rfl
      exact hne (by rw [List.length_eq_zero_iff.1 (k2.symm.trans rfl)])
  obtain ⟨σA', σZ', rc, h1, h2, h3, -, h5⟩ := session_report_partial hok ht hl hs hr hB hal hu hreq
  obtain rfl : σA = σA' := by rw [hA] at h1; exact (Prod.mk.inj h1).1
  obtain rfl : σZ = σZ' := by rw [hZ] at h2; exact (Prod.mk.inj h2).1
  have hs1 : seen (plain (integrated maq gsl) ds) σZ.lib ((plain (integrated maq gsl) ds).find σA.lib
      (Interp.RecBody.registry (.by_ t.word id a cs)) (Interp.RecBody.id (.by_ t.word id a cs))) = _ := hseen
  have hs2 : seen (plain (integrated maq gsl) ds) σA.lib ((plain (integrated maq gsl) ds).find σA.lib
      (Interp.RecBody.registry (.by_ t.word id a cs)) (Interp.RecBody.id (.by_ t.word id a cs))) = _ := hseen0
  rw [hs2, make_split hcc0 hcols] at h3
  obtain rfl := Except.ok.inj h3
  rw [hs1] at h5
  -- the table
  have hi : (b.obj (integrated maq gsl) σZ.lib).imId = some G.im := him
  have parts : ∀ (key : Rec.GroupObj → ℕ) (name : Rec.GroupObj → Option (Option String)) (nm : Group → String),
      (∀ g, name (g.obj (integrated maq gsl)) = some (some (nm g))) →
      (∀ g ∈ b.groups, ∀ g' ∈ b.groups, nm g = nm g' ↔
        key (g.obj (integrated maq gsl)) = key (g'.obj (integrated maq gsl))) →
      (∀ g G, Group.Is g G → nm g = t.of G) →
      ∃ cats, Spec.Parts t (G :: Gs) cats ∧
        Rec.printed (Rec.byName (b.obj (integrated maq gsl) σZ.lib) key name (cc.map fun c => .name c.name)
          ((xs.map Dbl.fin).map .flt)) =
          (Spec.tableOf G.im (Spec.splitColumns cats cs fun n x => Spec.sumOf (Spec.part t (G :: Gs) (l x) n)) xs, none) := by
    intro key name nm hname hkey hof
    obtain ⟨cats, c1, c2, c3⟩ := Rec.byName_prints (b.obj (integrated maq gsl) σZ.lib) G.im hi key name cc (xs.map Dbl.fin)
      (by
        intro g hg'
        obtain ⟨g', -, rfl⟩ := List.mem_map.1 hg'
        exact ⟨_, hname g'⟩)
      (by
        intro g hg1 g' hg2
        obtain ⟨g1, k1, rfl⟩ := List.mem_map.1 hg1
        obtain ⟨g2, k2, rfl⟩ := List.mem_map.1 hg2
        rw [hname, hname, ← hkey g1 k1 g2 k2]
        simp)
    have hmem : ∀ n, n ∈ cats ↔ ∃ G' ∈ G :: Gs, t.of G' = n := by
      intro n
      rw [c2]
      have hb : ∀ n, (∃ g ∈ b.groups, nm g = n) ↔ ∃ G' ∈ G :: Gs, t.of G' = n := by
        intro n
        clear * - hG hof
        generalize b.groups = gs at hG
        generalize G :: Gs = Gs' at hG
        induction hG with
        | nil => simp
        | @cons g G gs Gs h1 h2 ih => simp only [List.mem_cons, exists_eq_or_imp, ih, hof g G h1]
      rw [← hb]
      constructor
      · rintro ⟨g, hg', hn⟩
        obtain ⟨g', k, rfl⟩ := List.mem_map.1 hg'
        rw [hname] at hn
        exact ⟨g', k, Option.some.inj (Option.some.inj hn)⟩
      · rintro ⟨g, k, hn⟩
        exact ⟨_, List.mem_map.2 ⟨g, k, rfl⟩, by rw [hname, hn]⟩
    refine ⟨cats, ⟨c1, hmem⟩, ?_⟩
    rw [c3, split_table hcc hf]
    intro n hn x hx'
    have := add_lognormals (l := Spec.part t (G :: Gs) (l x) n) fun v hv => e2 x hx' v (part_sub hv)
    refine ⟨?_, this.2⟩
    rw [← this.1]
    have hp := part_eq hG t nm hof (fun g => g.costAt (integrated maq gsl) (.fin x))
      (fun v => lognormal v.1 (Spec.squareFor v)) n (l x) (e3 x hx')
    rw [← hp]
    show LogNormalDist.addDistributions (List.map _ (List.filter _ (List.map _ b.groups))) = _
    rw [List.filter_map, List.map_map]
    congr 1
    have hq : (fun g : Group => decide (nm g = n)) =
        (fun g : Rec.GroupObj => decide (name g = some (some n))) ∘ Group.obj (integrated maq gsl) := by
      funext g
      simp [hname]
    rw [hq]
    rfl
  obtain ⟨cats, k1, k2⟩ : ∃ cats, Spec.Parts t (G :: Gs) cats ∧
      Rec.printed (Rec.output ⟨.structcost, .struct (b.obj (integrated maq gsl) σZ.lib),
        { structType := some (Spec.costs t.word) }, some (cc.map fun c => .name c.name), (xs.map Dbl.fin).map .flt⟩) =
          (Spec.tableOf G.im (Spec.splitColumns cats cs fun n x => Spec.sumOf (Spec.part t (G :: Gs) (l x) n)) xs, none) := by
    cases t with
    | demand =>
      exact parts Rec.GroupObj.edpKey Rec.GroupObj.edpName (fun g => g.edp.2) (fun _ => rfl)
        (fun g hg' g' hg'' => (hkey g hg' g' hg'').1) fun g G h => h.2.2.2.2.2.2.2.2.2.2.2.2.1
    | fragility =>
      exact parts Rec.GroupObj.fragKey Rec.GroupObj.fragName (fun g => g.frag.2) (fun _ => rfl)
        (fun g hg' g' hg'' => (hkey g hg' g' hg'').2) fun g G h => h.2.2.2.2.2.2.2.2.2.2.2.2.2
  refine ⟨l, cats, k1, fun x hx' => ⟨near_of (hpay x hx') (e1 x hx'), ?_⟩, ?_⟩
  · exact part_sum (e1 x hx').length_eq (k1.1.imp fun h => ne_of_lt h) fun G' hG' => (k1.2 _).2 ⟨G', hG', rfl⟩
  · rw [h5, k2]

/-- The parts of the sample are known. -/
private theorem parts_known {t : Spec.Split} {cats want : List String} (h : Spec.Parts t [ours, newcomer, single] cats)
    (hw : want.Pairwise (· < ·)) (hm : ∀ n, n ∈ want ↔ ∃ G ∈ [ours, newcomer, single], t.of G = n) : cats = want := by
  refine List.Perm.eq_of_pairwise (fun a b _ _ h1 h2 => absurd (lt_trans h1 h2) (lt_irrefl _)) h.1 hw ?_
  exact (List.perm_ext_iff_of_nodup (h.1.imp fun h => ne_of_lt h) (hw.imp fun h => ne_of_lt h)).2
    fun n => (h.2 n).trans (hm n).symm

example (ds : World → Interp.Printed → String) (ev : String → Except Err Val) (fs : Files) :
    ∃ text σ, sessionR (integrated Rates.ideal Rates.idealGsl) ds (bench rd) ev (start ({}, {}) fs) text = (σ, none) ∧
      σ.files "out/v1.csv".toList = some ((Spec.tableOf "i"
        [("e.sd_ln_x", fun x => Spec.logSpread (Spec.sumOf [(billMean x, billSquare x), (billMean x / (15/2), billSquare x / (15/2) ^ 2)]).1
          (Spec.sumOf [(billMean x, billSquare x), (billMean x / (15/2), billSquare x / (15/2) ^ 2)]).2),
        ("e.mean_x", fun x => billMean x + billMean x / (15/2)),
        ("e2.sd_ln_x", fun x => Spec.logSpread (Spec.sumOf [(billMean x / (15/2), billSquare x / (15/2) ^ 2)]).1
          (Spec.sumOf [(billMean x / (15/2), billSquare x / (15/2) ^ 2)]).2),
        ("e2.mean_x", fun x => billMean x / (15/2))] [1/2, 2]).map (bench rd).render) := by
  obtain ⟨p, text, σ, hok, ht, hr⟩ := roll_session (rd := rd) (integrated_separate Rates.ideal Rates.idealGsl) ds ev fs
  have hf := split_cost_file_partial .demand (ε := 0) (A := parish) (B := [tithe2]) (rid := "u1") (file := "v1") (id := "st")
    (a := .floats [1/2, 2]) (cs := some [.spread .sdLn, .placement .mean])
    hok ht (by simp [roll, tithes, tithe1, Spec.Split.word]) (C := []) (by
      intro m hm
      exact tithes_sound m (by simpa [tithes, tithe1, Spec.Split.word] using hm)) hr
    roll_settled (by simp [tithe2])
    (alone_of (d := "out".toList) (fun _ _ _ => tithes_homes) (by simp [tithes]; rfl) rfl (by decide))
    trivial (by simp [tithe2]) (G := ours) (Gs := [newcomer, single]) rfl
    (by
      intro l hl c hc
      simp only [Option.mem_def, Option.some.injEq] at hl
      subst hl
      simp only [List.mem_cons, List.not_mem_nil, or_false] at hc
      exact hc.symm) (by simp) Rates.idealGsl_ok
    (xs := [1/2, 2]) (by simp [Spec.arguments]) (by simp) (fun x _ => tithes_payable x)
  obtain ⟨l, cats, h1, h2, h3⟩ := hf
  refine ⟨text, σ, hr, h3.trans ?_⟩
  obtain rfl : cats = ["e", "e2"] := parts_known h1 (by decide) (by
    intro n
    simp only [List.mem_cons, List.not_mem_nil, or_false, exists_eq_or_imp, exists_eq_left, Spec.Split.of, ours, newcomer, single]
    tauto)
  have : ∀ x ∈ [(1/2 : ℝ), 2], l x = dues x := fun x hx => dues_near (h2 x hx).1
  simp only [Spec.tableOf, Spec.splitColumns, Option.getD_some, List.flatMap_cons, List.flatMap_nil, List.filterMap_cons,
    List.filterMap_nil, Spec.momentColumn, List.map_cons, List.map_nil, this (1/2) (by simp), this 2 (by simp),
    Spec.part, dues, Spec.Split.of, ours, newcomer, single, List.zip_cons_cons, List.zip_nil_left, List.filter_cons, List.filter_nil,
    List.append_nil, List.cons_append, List.nil_append]
  simp [Spec.sumOf]

example (ds : World → Interp.Printed → String) (ev : String → Except Err Val) (fs : Files) :
    ∃ text σ, sessionR (integrated Rates.ideal Rates.idealGsl) ds (bench rd) ev (start ({}, {}) fs) text = (σ, none) ∧
      σ.files "out/v2.csv".toList = some ((Spec.tableOf "i"
        [("ff.mean_x", fun x => billMean x + billMean x / (15/2)), ("fg.mean_x", fun x => billMean x / (15/2))]
        [1/2, 2]).map (bench rd).render) := by
  obtain ⟨p, text, σ, hok, ht, hr⟩ := roll_session (rd := rd) (integrated_separate Rates.ideal Rates.idealGsl) ds ev fs
  have hf := split_cost_file_partial .fragility (ε := 0) (A := parish ++ [tithe1]) (B := []) (rid := "u2") (file := "v2") (id := "st")
    (a := .floats [1/2, 2]) (cs := none)
    hok ht (by simp [roll, tithes, tithe2, Spec.Split.word]) (C := []) (by
      intro m hm
      exact tithes_sound m (by simpa [tithes, tithe2, Spec.Split.word] using hm)) hr
    roll_settled (by simp)
    (alone_of (d := "out".toList) (fun _ _ _ => tithes_homes) (by simp [tithes]; tauto) rfl (by decide))
    trivial (by simp) (G := ours) (Gs := [newcomer, single]) rfl
    (by intro l hl; cases hl) (by simp) Rates.idealGsl_ok
    (xs := [1/2, 2]) (by simp [Spec.arguments]) (by simp) (fun x _ => tithes_payable x)
  obtain ⟨l, cats, h1, h2, h3⟩ := hf
  refine ⟨text, σ, hr, h3.trans ?_⟩
  obtain rfl : cats = ["ff", "fg"] := parts_known h1 (by decide) (by
    intro n
    simp only [List.mem_cons, List.not_mem_nil, or_false, exists_eq_or_imp, exists_eq_left, Spec.Split.of, ours, newcomer, single]
    tauto)
  have : ∀ x ∈ [(1/2 : ℝ), 2], l x = dues x := fun x hx => dues_near (h2 x hx).1
  simp only [Spec.tableOf, Spec.splitColumns, Option.getD_none, List.flatMap_cons, List.flatMap_nil, List.filterMap_cons,
    List.filterMap_nil, Spec.momentColumn, List.map_cons, List.map_nil, this (1/2) (by simp), this 2 (by simp),
    Spec.part, dues, Spec.Split.of, ours, newcomer, single, List.zip_cons_cons, List.zip_nil_left, List.filter_cons, List.filter_nil,
    List.append_nil, List.cons_append, List.nil_append]
  simp [Spec.sumOf]

end

end Slat.Session
