import Verif.SessionStructProps
import Verif.SessionLedgerLemmas
import Verif.RecOther

/-!
# Sessions and structures (C92): normalised densities

As `SessionStructProps`, for `pdf` recorders with `--normalise`.  A script whose density is zero at all intensities does not get to
its end (C65).
-/

namespace Slat.Session

open MeasureTheory Set Filter Topology

noncomputable section

open Interp (Val Call Cmd Cfg Err Mu Sd DistCmd Sc)
open Output (Path Files)

variable {rd : Rec.Row → String}

variable {maq : Rates.Maq} {gsl : Rates.Gsl} {ε ε' : ℝ} {ds : World → Interp.Printed → String} {M : Machine}
  {ev : String → Except Err Val} {p : Gram.Pen} {ls : List (Gram.Style × Cmd)} {text : List Char}
  {A B C : List Cmd} {rid file id : String} {a : Interp.At} {fs : Files} {τ : State (World × Memory)} {xs : List ℝ}
  {G : Spec.Components} {Gs : List Spec.Components} {h h' : ℝ → ℝ} {c d r k : Option (Mu × Sd × ℝ × ℝ)}

/-- What a normalised density recorder prints: it does not raise only if the greatest value is positive. -/
theorem normal_prints (s : Rec.StructObj) (im : String) (him : s.imId = some im) (o : Rec.Opts) (ho : o.normalise = true)
    (cols : Option (List Rec.Col)) (p : ℝ → ℝ) (hp : ∀ x ∈ xs, s.pdf (.fin x) = .fin (p x))
    (hn : (Rec.printed (Rec.output ⟨.pdf, .struct s, o, cols, (xs.map Dbl.fin).map .flt⟩)).2 = none) :
    ∃ top, (∀ x ∈ xs, p x ≤ top) ∧ (xs ≠ [] → 0 < top ∧ ∃ x ∈ xs, p x = top) ∧
      (Rec.printed (Rec.output ⟨.pdf, .struct s, o, cols, (xs.map Dbl.fin).map .flt⟩)).1 =
        Spec.tableOf (String.ofList (im.toList.take 6)) [("pdf", fun x => p x / top)] xs := by
  obtain ⟨h0, h1, h2⟩ := Rec.foldl_max_spec (xs.map p) 0
  have hmax : Rec.maxPdf ((xs.map Dbl.fin).map s.pdf) = .fin ((xs.map p).foldl max 0) := by
    rw [← Rec.maxPdf_fin, List.map_map, List.map_map]
    exact congrArg _ (List.map_congr_left hp)
  by_cases hxs : xs = []
  · subst hxs
    refine ⟨1, by simp, by simp, ?_⟩
    simp only [Rec.output, Rec.pdfOutput, Rec.Obj.imId, him, Bind.bind, Except.bind, Rec.fmt6, pure, Except.pure, Rec.lines]
    rfl
  by_cases hz : (xs.map p).foldl max 0 = 0
  · exfalso
    obtain ⟨x, t, rfl⟩ := List.exists_cons_of_ne_nil hxs
    have e : (((x :: t).map Dbl.fin).map Rec.Num.flt).map (fun x => s.pdf x.toDbl) = ((x :: t).map Dbl.fin).map s.pdf := by
      rw [List.map_map]; rfl
    have hf : Dbl.feq (.fin 0) 0 := rfl
    rw [hz] at hmax
    simp only [Rec.output, Rec.pdfOutput, Rec.Obj.imId, him, Bind.bind, Except.bind, Rec.fmt6, pure, Except.pure, Rec.lines, ho, if_true,
      e, hmax, if_pos hf] at hn
    simp [Rec.printed] at hn
  have hpos : 0 < (xs.map p).foldl max 0 := lt_of_le_of_ne h0 (Ne.symm hz)
  refine ⟨(xs.map p).foldl max 0, fun x hx => h1 _ (List.mem_map_of_mem hx), fun _ => ⟨hpos, ?_⟩, ?_⟩
  · rcases h2 with h2 | h2
    · exact absurd h2 hz
    · obtain ⟨x, hx, e⟩ := List.mem_map.1 h2
      exact ⟨x, hx, e⟩
  · rw [Rec.pdf_prints s im him o cols _ _ hpos.ne' (by rw [ho, if_pos rfl]; exact hmax)]
    simp only [Spec.tableOf, List.map_cons, List.map_nil, List.map_map, List.cons.injEq, true_and]
    refine List.map_congr_left fun x hx => ?_
    simp only [Function.comp, hp x hx, Dbl.fin_div_of_ne hpos.ne']

/-- What a structure answers at the state of an analysis. -/
theorem pdf_found {σA σZ : State World} {m : Cmd} (hs : ∀ m' ∈ A ++ m :: B, m'.sound = true)
    (hA : run (plain (integrated maq gsl) ds) M ⟨ev, Gram.preprocessString⟩ A {} (start {} fs) = (σA, none))
    (hZ : run (plain (integrated maq gsl) ds) M ⟨ev, Gram.preprocessString⟩ (A ++ m :: B) {} (start {} fs) = (σZ, none))
    (hMA : Meets A.reverse σA.lib) (hMZ : Meets (A ++ m :: B).reverse σZ.lib) (hL : Later σA.lib σZ.lib)
    (hm : ∀ gs, m ≠ .structure_ id gs) (hone : ∀ gs, Cmd.structure_ id gs ∉ B)
    (hde : Spec.Described A.reverse (A ++ m :: B).reverse id G Gs h c d r k)
    (hcov : Spec.Covered c d r k) (hg : Rates.Differentiates gsl) (hx : ∀ x ∈ xs, 0 < x)
    (hslope : ∀ x, 0 < x → HasDerivAt h (h' x) x)
    (hfa : ∀ x ∈ xs, 0 ≤ Spec.pDemolition c d x) (hpay : ∀ x ∈ xs, ∀ g ∈ G :: Gs, Spec.Payable maq ε x g) :
    ∃ (l : ℝ → List (ℝ × ℝ)) (s s0 : Rec.StructObj), (∀ x ∈ xs, List.Forall₂ (Spec.FindsCost maq x) (G :: Gs) (l x) ∧
        Spec.Near ε x (G :: Gs) (l x) ∧
        |(Spec.total c d r k x (l x)).1 - Spec.meanTotal c d r k (G :: Gs) x| ≤ (G :: Gs).length * ε ∧
        s.pdf (.fin x) = .fin ((Spec.total c d r k x (l x)).1 * |h' x|)) ∧ s.imId = some G.im ∧
      seen (plain (integrated maq gsl) ds) σZ.lib ((plain (integrated maq gsl) ds).find σA.lib "structure" id) = .struct s ∧
      seen (plain (integrated maq gsl) ds) σA.lib ((plain (integrated maq gsl) ds).find σA.lib "structure" id) = .struct s0 := by
  obtain ⟨b, b0, cv, F, hG, hseen, hseen0, hne0, him0, him, hme, hcv, hF1, hF2, hb1, hb2⟩ :=
    structure_at hs hA hZ hMA hMZ hL hde.groups hm hone hde.hazard hde.collapse hde.demolition hde.rebuild hde.clear
  have hval := fun x (hx' : x ∈ xs) =>
    total_found (maq := maq) (gsl := gsl) hg hG (hx x hx') (hpay x hx') hF1 hF2 hb1 hb2 hcov (hfa x hx')
  choose! l e1 e2 e4 _ _ _ using hval
  refine ⟨l, b.obj (integrated maq gsl) σZ.lib, b0.obj (integrated maq gsl) σA.lib, fun x hx' => ⟨e1 x hx', near_of (hpay x hx') (e1 x hx'), ?_, ?_⟩, him, hseen, hseen0⟩
  · obtain ⟨-, f1, f2⟩ := fate_range (hx x hx') hcov.demolition (hfa x hx')
    exact total_near (e1 x hx') (hpay x hx') f1 f2
  · simp only [Building.obj, him, Option.bind_some, hme, Option.map_some, Option.getD_some, StructCosts.pdf, e4 x hx',
      (lognormal_reports (e2 x hx')).2.1]
    show Dbl.fin _ * Dbl.abs (gsl.deriv cv (.fin x)) = _
    rw [hg cv h x (h' x) (hx x hx') hcv (hslope x (hx x hx'))]
    rfl

/-- **C92.** The file of a `pdf` recorder with `--normalise`: the mean cost times the slope of the hazard curve at each intensity,
divided by the greatest of them. -/
theorem normal_density_file_partial
    (hok : ∀ c ∈ ls, Gram.OkCmd p c.2) (ht : Lex.Written (Gram.toks (Gram.writeScript p ls)) text)
    (hl : ls.map (·.2) =
      A ++ .recorder rid (.pdf id a true) (some ⟨file, false⟩) :: B ++ .analyze :: C)
    (hs : ∀ m ∈ A ++ .recorder rid (.pdf id a true) (some ⟨file, false⟩) :: B ++ C,
      m.sound = true)
    (hr : sessionR (integrated maq gsl) ds M ev (start ({}, {}) fs) text = (τ, none))
    (hset : Spec.Settled (ls.map (·.2))) (hB : ∀ b' po, Cmd.recorder rid b' po ∉ B)
    (hal : Spec.Alone (Output.dirOf (Spec.directory (A ++ B))) rid file (A ++ B))
    (hu : Spec.Untouched (Output.fullPath (Output.dirOf (Spec.directory (A ++ B))) file.toList)
      (A ++ .recorder rid (.pdf id a true) (some ⟨file, false⟩) :: B ++ [.analyze]) C)
    (hone : ∀ gs, Cmd.structure_ id gs ∉ B)
    (hde : Spec.Described A.reverse
      (A ++ .recorder rid (.pdf id a true) (some ⟨file, false⟩) :: B).reverse id G Gs h c d r k)
    (hcov : Spec.Covered c d r k) (hg : Rates.Differentiates gsl)
    (ha : Spec.arguments M a = some (xs.map Dbl.fin)) (hx : ∀ x ∈ xs, 0 < x)
    (hslope : ∀ x, 0 < x → HasDerivAt h (h' x) x)
    (hfa : ∀ x ∈ xs, 0 ≤ Spec.pDemolition c d x) (hpay : ∀ x ∈ xs, ∀ g ∈ G :: Gs, Spec.Payable maq ε x g) :
    ∃ (l : ℝ → List (ℝ × ℝ)) (top : ℝ), (∀ x ∈ xs, Spec.Near ε x (G :: Gs) (l x) ∧
        |(Spec.total c d r k x (l x)).1 - Spec.meanTotal c d r k (G :: Gs) x| ≤ (G :: Gs).length * ε ∧
        (Spec.total c d r k x (l x)).1 * |h' x| ≤ top) ∧
      (xs ≠ [] → 0 < top ∧ ∃ x ∈ xs, (Spec.total c d r k x (l x)).1 * |h' x| = top) ∧
      τ.files (Output.fullPath (Output.dirOf (Spec.directory (A ++ B))) file.toList) =
        some ((Spec.tableOf (String.ofList (G.im.toList.take 6))
          [("pdf", fun x => (Spec.total c d r k x (l x)).1 * |h' x| / top)] xs).map M.render) := by
  obtain ⟨σ, hr, hτ⟩ := forget (integrated_separate maq gsl) hok ht hl hs hr hset
  rw [hτ]
  obtain ⟨σA, σZ, hA, hZ, hMA, hMZ, hL⟩ := setup hok ht hl hs hr
  obtain ⟨l, s, s0, hv, him, hs1, hs2⟩ := pdf_found (ε := ε) (fun m hm => hs m (List.mem_append_left _ hm)) hA hZ hMA hMZ hL
    (by intro gs; simp) hone hde hcov hg hx hslope hfa hpay
  obtain ⟨σA', σZ', rc, h1, h2, h3, h4, h5⟩ := session_report_partial hok ht hl hs hr hB hal hu (b := .pdf id a true) (by simp only [Spec.request, ha]; rfl)
  obtain rfl : σA = σA' := by rw [hA] at h1; exact (Prod.mk.inj h1).1
  obtain rfl : σZ = σZ' := by rw [hZ] at h2; exact (Prod.mk.inj h2).1
  have hs1' : seen (plain (integrated maq gsl) ds) σZ.lib ((plain (integrated maq gsl) ds).find σA.lib
      (Interp.RecBody.registry (.pdf id a true)) (Interp.RecBody.id (.pdf id a true))) = _ := hs1
  have hs2' : seen (plain (integrated maq gsl) ds) σA.lib ((plain (integrated maq gsl) ds).find σA.lib
      (Interp.RecBody.registry (.pdf id a true)) (Interp.RecBody.id (.pdf id a true))) = _ := hs2
  rw [hs2'] at h3
  rw [hs1'] at h4 h5
  have hr' : rc = ⟨.pdf, .struct s0, { normalise := true }, none, (xs.map Dbl.fin).map .flt⟩ := by
    simpa [Rec.make, Rec.mkBase, Rec.defaultColumns, pure, Except.pure, Bind.bind, Except.bind, eq_comm] using h3
  subst hr'
  obtain ⟨top, t1, t2, t3⟩ := normal_prints s G.im him { normalise := true } rfl none
    (fun x => (Spec.total c d r k x (l x)).1 * |h' x|) (fun x hx' => (hv x hx').2.2.2) h4
  refine ⟨l, top, fun x hx' => ⟨(hv x hx').2.1, (hv x hx').2.2.1, t1 x hx'⟩, t2, ?_⟩
  rw [h5]
  exact congrArg (fun t => some (t.map M.render)) t3

/-! ## A script with a normalised density -/

theorem run_join {W : Type} {L : Lib W} {M : Machine} {c : Cfg} {l₁ : List Cmd} {s : Interp.St} {σ σ₁ : State W}
    (hm : ∀ m ∈ l₁, m.sound = true) (hs : s.saved = []) (h : run L M c l₁ s σ = (σ₁, none)) :
    ∃ s₁, s₁.saved = [] ∧ ∀ l₂, run L M c (l₁ ++ l₂) s σ = run L M c l₂ s₁ σ₁ := by
  induction l₁ generalizing s σ with
  | nil => cases h; exact ⟨s, hs, fun _ => rfl⟩
  | cons m l₁ ih =>
    obtain ⟨k, s₀, σ₀, k1, k2, k3, k4, k5⟩ := run_cons (hm m (by simp)) hs h
    have hstep : ∀ l, run L M c (m :: l) s σ = run L M c l { saved := s.saved, vars := s₀.vars, titles := s₀.titles, calls := k } σ₀ := by
      intro l
      rw [run, Interp.command_means_partial c m (hm m (by simp)) { s with calls := [] } hs]
      simp only [k1, Interp.ok_bind, Interp.St.env, k5, Interp.after, List.nil_append, k3]
    rw [hstep] at h
    obtain ⟨s₁, h1, h2⟩ := ih (s := { saved := s.saved, vars := s₀.vars, titles := s₀.titles, calls := k }) (σ := σ₀)
      (fun x hx => hm x (by simp [hx])) hs h
    exact ⟨s₁, h1, fun l₂ => by rw [List.cons_append, hstep, h2]⟩

/-- A script that ends with a normalised density, somewhere positive, and its analysis. -/
theorem normal_ends {σA : State World} {c' : Cfg} (hc' : c' = ⟨ev, Gram.preprocessString⟩) (hs : ∀ m ∈ A, m.sound = true)
    (hA : run (plain (integrated maq gsl) ds) M c' A {} (start {} fs) = (σA, none)) (hn : Spec.names A = [])
    (hop : M.openable (Output.fullPath (Output.dirOf (Spec.directory A)) file.toList) = true)
    (hde : Spec.Described A.reverse (A ++ [Cmd.recorder rid (.pdf id a true) (some ⟨file, false⟩)]).reverse id G Gs h c d r k)
    (hcov : Spec.Covered c d r k) (hg : Rates.Differentiates gsl)
    (ha : Spec.arguments M a = some (xs.map Dbl.fin)) (hx : ∀ x ∈ xs, 0 < x)
    (hslope : ∀ x, 0 < x → HasDerivAt h (h' x) x)
    (hfa : ∀ x ∈ xs, 0 ≤ Spec.pDemolition c d x) (hpay : ∀ x ∈ xs, ∀ g ∈ G :: Gs, Spec.Payable maq ε x g)
    (hpos : ∃ x ∈ xs, h' x ≠ 0 ∧ ∀ l, List.Forall₂ (Spec.FindsCost maq x) (G :: Gs) l → 0 < (Spec.total c d r k x l).1) :
    ∃ σ, run (plain (integrated maq gsl) ds) M c'
      (A ++ [.recorder rid (.pdf id a true) (some ⟨file, false⟩), .analyze]) {} (start {} fs) = (σ, none) := by
  subst hc'
  obtain ⟨s₁, hs₁, hj⟩ := run_join hs rfl hA
  have hbk := books hs hA
  have hrec : σA.recs = [] := by
    have := hbk.keys
    rw [hn] at this
    exact List.map_eq_nil_iff.1 this
  set m : Cmd := .recorder rid (.pdf id a true) (some ⟨file, false⟩) with hm
  have hq : Spec.request M (.pdf id a true) = some (.pdf, none, some ((xs.map Dbl.fin).map .flt), { normalise := true }) := by
    simp only [Spec.request, ha]
    rfl
  obtain ⟨cv, av, e1, e2, e3, e4, e5⟩ := request_values hq ⟨ev, Gram.preprocessString⟩ s₁.vars (some ⟨file, false⟩)
  -- the object
  have hMA : Meets A.reverse σA.lib := by simpa using (Meets.init).run (σ := start {} fs) hs rfl hA
  obtain ⟨b0, hb0, -⟩ := (built_at hs hA).struct _ _ hde.groups
  obtain ⟨n, hn1, hn2⟩ := Option.bind_eq_some_iff.1 hb0
  have hfind : (plain (integrated maq gsl) ds).find σA.lib "structure" id = some n := hn1
  have hsn : seen (plain (integrated maq gsl) ds) σA.lib (some n) = .struct (b0.obj (integrated maq gsl) σA.lib) := by
    simp [seen, plain, hn2, Thing.obj]
  set held : Held := ⟨⟨.pdf, .struct (b0.obj (integrated maq gsl) σA.lib), { normalise := true }, none,
    (xs.map Dbl.fin).map .flt⟩, some n, some file.toList, false⟩ with hheld
  have hrecd : record (plain (integrated maq gsl) ds) M σA rid "pdf" "structure" id
      ((Interp.RecBody.pdf id a true).options (some ⟨file, false⟩)) cv av = .ok { σA with recs := [(rid, held)] } := by
    have e4' : kindOf "pdf" = some .pdf := e4
    simp only [record, e2, e3, e4', e5, Bind.bind, Except.bind, hfind, hsn]
    rw [Rec.make_pdf, hrec]
    rfl
  have hex : execAll (plain (integrated maq gsl) ds) M
      [.recorder rid "pdf" "structure" id ((Interp.RecBody.pdf id a true).options (some ⟨file, false⟩)) cv av] σA =
      ({ σA with recs := [(rid, held)] }, none) := by
    simp only [execAll, exec, hrecd]
  have hk : m.calls ⟨ev, Gram.preprocessString⟩ s₁.vars s₁.titles =
      .ok [.recorder rid "pdf" "structure" id ((Interp.RecBody.pdf id a true).options (some ⟨file, false⟩)) cv av] := by
    rw [hm, Interp.Cmd.calls, e1]
    rfl
  have hmS : m.sound = true := rfl
  have hfor : ∀ l, ∃ s₂ : Interp.St, s₂.saved = [] ∧ run (plain (integrated maq gsl) ds) M ⟨ev, Gram.preprocessString⟩ (A ++ m :: l) {}
      (start {} fs) = run (plain (integrated maq gsl) ds) M ⟨ev, Gram.preprocessString⟩ l s₂ { σA with recs := [(rid, held)] } := by
    intro l
    obtain ⟨s₂, h1, h2⟩ := run_cons' (L := plain (integrated maq gsl) ds) (M := M) (l := l) hmS hs₁ hk rfl hex
    exact ⟨s₂, h1, by rw [hj, h2]⟩
  obtain ⟨s₀, -, hZ⟩ := hfor []
  have hall : ∀ m' ∈ A ++ [m], m'.sound = true := by
    intro m' h
    rcases List.mem_append.1 h with h | h
    · exact hs m' h
    · rw [List.mem_singleton.1 h]; exact hmS
  obtain ⟨l, s, s0, hv, him, hs1, -⟩ := pdf_found (ε := ε) (m := m) (B := []) hall hA hZ hMA
    (by simpa using (Meets.init).run (σ := start {} fs) hall rfl hZ) (Later.refl _) (by intro gs; simp [hm]) (by simp)
    hde hcov hg hx hslope hfa hpay
  obtain ⟨s₂, h1, h2⟩ := hfor [.analyze]
  obtain ⟨x0, hx0, hne, htot⟩ := hpos
  have hmax : Rec.maxPdf ((xs.map Dbl.fin).map s.pdf) =
      .fin ((xs.map fun x => (Spec.total c d r k x (l x)).1 * |h' x|).foldl max 0) := by
    rw [← Rec.maxPdf_fin, List.map_map, List.map_map]
    exact congrArg _ (List.map_congr_left fun x hx' => (hv x hx').2.2.2)
  have hD : 0 < (xs.map fun x => (Spec.total c d r k x (l x)).1 * |h' x|).foldl max 0 :=
    lt_of_lt_of_le (mul_pos (htot _ (hv x0 hx0).1) (abs_pos.2 hne))
      ((Rec.foldl_max_spec _ 0).2.1 _ (List.mem_map_of_mem (f := fun x => (Spec.total c d r k x (l x)).1 * |h' x|) hx0))
  have hpr := Rec.pdf_prints s G.im him { normalise := true } none (xs.map Dbl.fin) _ hD.ne'
    (by rw [if_pos rfl]; exact hmax)
  have hs1' : seen (plain (integrated maq gsl) ds) σA.lib (some n) = .struct s := by rw [← hfind]; exact hs1
  have hfin := Output.analyze_finishes (Output.dirOf σA.outDir) M.openable
    ([(rid, held)].map fun p => p.2.run (plain (integrated maq gsl) ds) M σA.lib) (by
      intro y hy
      obtain rfl := List.mem_singleton.1 hy
      refine ⟨?_, file.toList, rfl, ?_⟩
      · simp only [Held.run, hheld, hs1', hpr]
        rfl
      · rw [hbk.dir]; exact hop) σA.files
  have hexa : execAll (plain (integrated maq gsl) ds) M [.analyze] { σA with recs := [(rid, held)] } =
      ({ σA with
          recs := [(rid, held)]
          files := (Output.analyze (Output.dirOf σA.outDir) M.openable σA.files
            ([(rid, held)].map fun p => p.2.run (plain (integrated maq gsl) ds) M σA.lib)).1 }, none) := by
    simp only [execAll, exec, analyze, hfin, if_true]
  obtain ⟨s₃, -, h3⟩ := run_cons' (L := plain (integrated maq gsl) ds) (M := M) (c := ⟨ev, Gram.preprocessString⟩) (m := .analyze)
    (l := []) (s := s₂) rfl h1 rfl rfl hexa
  exact ⟨_, h2.trans h3⟩

/-- Its slope is nowhere zero before it gets to zero. -/
theorem fall_falls {x : ℝ} (hx : 0 < x) (h3 : x < 3) : fall' x ≠ 0 := by
  have hl : ∀ t : ℝ, 0 < t → t < 3 → Real.log (t / 3) < 0 := fun t h1 h2 =>
    Real.log_neg (by positivity) ((div_lt_one (by norm_num)).2 h2)
  have he : fall =ᶠ[𝓝 x] fun t => (1/10 : ℝ) * Real.exp ((5/2) / Real.log (t / 3)) := by
    filter_upwards [lt_mem_nhds hx, gt_mem_nhds h3] with t h1 h2
    have := hl t h1 h2
    rw [fall_eq h1, expNegInvGlue, if_neg (by
      push_cast
      exact not_le.2 (div_pos (by linarith) (by norm_num)))]
    push_cast
    congr 2
    field_simp
  have hd : HasDerivAt (fun t : ℝ => (1/10 : ℝ) * Real.exp ((5/2) / Real.log (t / 3)))
      ((1/10) * (Real.exp ((5/2) / Real.log (x / 3)) *
        ((0 * Real.log (x / 3) - (5/2) * (1 / 3 / (x / 3))) / Real.log (x / 3) ^ 2))) x :=
    ((HasDerivAt.div (hasDerivAt_const x (5/2 : ℝ)) (HasDerivAt.log ((hasDerivAt_id x).div_const 3)
      (by positivity)) (hl x hx h3).ne).exp).const_mul _
  rw [fall', he.deriv_eq, hd.deriv]
  have h1 := Real.exp_pos ((5/2) / Real.log (x / 3))
  have h2 := (hl x hx h3).ne
  have h4 : (1 : ℝ) / 3 / (x / 3) ≠ 0 := by positivity
  refine mul_ne_zero (by norm_num) (mul_ne_zero h1.ne' (div_ne_zero ?_ (pow_ne_zero 2 h2)))
  rw [zero_mul, zero_sub, neg_ne_zero]
  exact mul_ne_zero (by norm_num) h4

/-- A script:

    (the commands of `estate`)
    democost st 800.0, 0.4 --mu mean_x --sd sd_ln_x;
    recorder t5 pdf st --normalise --at 0.5, 2.0 --file p5;
    analyze;
-/
def scaled : List (Gram.Style × Cmd) :=
  (estate ++ [razing] ++ [Cmd.recorder "t5" (.pdf "st" (.floats [1/2, 2]) true) (some ⟨"p5", false⟩), .analyze]).map fun c => ({}, c)

theorem scaled_settled : Spec.Settled (scaled.map (·.2)) := by
  have e : scaled.map (·.2) = (estate ++ [razing] ++ [Cmd.recorder "t5" (.pdf "st" (.floats [1/2, 2]) true) (some ⟨"p5", false⟩)]) ++
      [.analyze] := by simp [scaled, Function.comp_def]
  rw [e]
  exact settled_once (by simp [estate, posted, razing])

theorem scaled_session (ds : World → Interp.Printed → String) (ev : String → Except Err Val) (fs : Files) :
    ∃ (p : Gram.Pen) (text : List Char) (τ : State (World × Memory)), (∀ c ∈ scaled, Gram.OkCmd p c.2) ∧
      Lex.Written (Gram.toks (Gram.writeScript p scaled)) text ∧
      sessionR (integrated Rates.ideal Rates.idealGsl) ds (bench rd) ev (start ({}, {}) fs) text = (τ, none) := by
  obtain ⟨p, hi, hf⟩ := Gram.pen_exists
  have old := deed_ok hi hf
  have hold : ∀ m ∈ claims, Gram.OkCmd p m := fun m hm => old ({}, m) (List.mem_map.2 ⟨m, by simp [hm], rfl⟩)
  have hok : ∀ c ∈ scaled, Gram.OkCmd p c.2 := by
    intro c hc
    obtain ⟨m, hm, rfl⟩ := List.mem_map.1 hc
    simp only [List.mem_append, List.mem_cons, List.not_mem_nil, or_false] at hm
    rcases hm with (hm | rfl) | rfl | rfl
    · exact hold m (by simp [claims, hm])
    · exact hold razing (by simp [claims])
    · exact hold claim5 (by simp [claims])
    · trivial
  have hsound : ∀ m ∈ estate ++ [razing], m.sound = true := by
    intro m hm
    refine claims_sound m ?_
    simp only [List.mem_append, List.mem_singleton] at hm
    rcases hm with hm | rfl
    · simp [claims, hm]
    · simp [claims]
  have hw : Spec.WellFormed (bench rd) (estate ++ [razing]).reverse := by
    have h := claims_fine (rd := rd)
    have e : (deed.map (·.2)).reverse = [.analyze, razing, claim5, claim4, claim3, claim2, claim1] ++ estate.reverse := by
      simp [deed, claims]
    rw [e] at h
    rw [List.reverse_append]
    exact ⟨⟨rfl, rfl, rfl⟩, wellFormed_suffix h⟩
  obtain ⟨σA, hA⟩ := ends (N := integrated Rates.ideal Rates.idealGsl) (ds := ds) (M := bench rd) (c := ⟨ev, Gram.preprocessString⟩)
    (l := []) (l' := estate ++ [razing]) (σ := start {} fs) (s := {}) (by simpa using hw) Meets.init Stock.init Built.init
    (Kept.init _ _) (by intro e he; cases he) rfl
  obtain ⟨σ, hr⟩ := normal_ends (ε := 0) (h' := fall') (rid := "t5") (file := "p5") (id := "st") (a := .floats [1/2, 2])
    rfl hsound hA rfl rfl
    (G := ours) (Gs := [single]) (h := fall) (c := crash) (d := wreck) (r := rebuilt) (k := razed)
    ⟨rfl, rfl, rfl, rfl, rfl, rfl⟩ claims_covered Rates.idealGsl_ok
    (xs := [1/2, 2]) (by simp [Spec.arguments]) (by simp) (fun x hx => fall_deriv hx) (fun x _ => claims_fates x)
    (fun x _ => claims_payable x) ⟨2, by simp, fall_falls (by norm_num) (by norm_num), fun l hl => shares_only hl ▸ damages_positive rebuilt 2⟩
  obtain ⟨τ, hτ⟩ := recalls (N := integrated Rates.ideal Rates.idealGsl) (ds := ds) (M := bench rd) (ev := ev) (fs := fs) (σ := σ)
    (integrated_separate _ _) hok (Gram.script_writable hok) (by
      intro m hm
      simp only [scaled, List.map_map, Function.comp_def, List.map_id', List.mem_append, List.mem_cons, List.not_mem_nil,
        or_false] at hm
      rcases hm with hm | rfl | rfl
      · exact hsound m (by simpa using hm)
      · rfl
      · rfl) (by
      rw [session, Gram.script_read hok (Gram.script_writable hok)]
      rw [← hr]
      simp [scaled, Function.comp_def]) scaled_settled
  exact ⟨p, _, τ, hok, Gram.script_writable hok, hτ⟩

example (ds : World → Interp.Printed → String) (ev : String → Except Err Val) (fs : Files) :
    ∃ text σ top, sessionR (integrated Rates.ideal Rates.idealGsl) ds (bench rd) ev (start ({}, {}) fs) text = (σ, none) ∧
      top = max ((damages (1/2)).1 * |fall' (1/2)|) ((damages 2).1 * |fall' 2|) ∧
      σ.files "out/p5.csv".toList = some ((Spec.tableOf "i" [("pdf", fun x => (damages x).1 * |fall' x| / top)]
        [1/2, 2]).map (bench rd).render) := by
  obtain ⟨p, text, σ, hok, ht, hr⟩ := scaled_session (rd := rd) ds ev fs
  have hf := normal_density_file_partial (ε := 0) (h' := fall') (A := estate ++ [razing]) (B := []) (rid := "t5") (file := "p5") (id := "st")
    (a := .floats [1/2, 2])
    hok ht (by simp [scaled, Function.comp_def]) (C := []) (by
      intro m hm
      simp only [List.append_nil, List.mem_append, List.mem_singleton] at hm
      rcases hm with (hm | rfl) | rfl
      · exact claims_sound m (by simp [claims, hm])
      · rfl
      · rfl) hr
    scaled_settled (by simp)
    (by
      intro i b po hm
      exfalso
      revert hm
      simp [estate, posted, razing])
    trivial (G := ours) (Gs := [single]) (h := fall) (c := crash) (d := wreck) (r := rebuilt) (k := razed)
    (by simp) ⟨rfl, rfl, rfl, rfl, rfl, rfl⟩ claims_covered Rates.idealGsl_ok
    (xs := [1/2, 2]) (by simp [Spec.arguments]) (by simp) (fun x hx => fall_deriv hx) (fun x _ => claims_fates x)
    (fun x _ => claims_payable x)
  obtain ⟨l, top, h1, h2, h3⟩ := hf
  have : ∀ x ∈ [(1/2 : ℝ), 2], l x = shares x := fun x hx => near_zero (h1 x hx).1
  refine ⟨text, σ, top, hr, ?_, h3.trans ?_⟩
  · have a1 := (h1 (1/2) (by simp)).2.2
    have a2 := (h1 2 (by simp)).2.2
    rw [this _ (by simp)] at a1 a2
    obtain ⟨x, hx, e⟩ := (h2 (by simp)).2
    rw [this x hx] at e
    refine le_antisymm ?_ (max_le a1 a2)
    rw [← e]
    simp only [List.mem_cons, List.not_mem_nil, or_false] at hx
    rcases hx with rfl | rfl
    · exact le_max_left _ _
    · exact le_max_right _ _
  · simp only [Spec.tableOf, List.map_cons, List.map_nil, this (1/2) (by simp), this 2 (by simp)]
    rfl

end

end Slat.Session
