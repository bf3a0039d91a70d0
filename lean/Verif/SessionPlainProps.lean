import Verif.SessionEnds
import Verif.LogNormalFnProps

/-!
# Sessions with functions, intensity measures and demands (C88): the numbers in the files

The library is `plain`.  `curve_file_partial`, `hazard_file_partial`, `fate_file_partial` and
`demand_file_partial`: what a session that ends leaves in the file of a recorder, in formulas.
`well_formed_ends_partial`: a session whose names are defined before they are used does end.  The full
statement has the same of every recorder and every command of the language; missing are structures
(for component groups see `SessionGroupProps`), what is found by integration, interpolated functions and the forms that do not work.
-/

namespace Slat.Session

noncomputable section

open Interp (Val Call Cmd Cfg Err Mu Sd DistCmd Sc)
open Output (Path Files)

/-! ## Laws -/

theorem lawAt_eq {mu : Mu} {sp : Sd} {f g : Dbl → Dbl} {x : Dbl} {a b : ℝ} (hf : f x = .fin a)
    (hg : g x = .fin b) (h : Spec.Meant mu sp a b) :
    lawAt mu sp f g x = ⟨.fin (Spec.logPair mu sp a b).1, .fin (Spec.logPair mu sp a b).2⟩ := by
  unfold lawAt
  rw [hf, hg]
  obtain ⟨h1, h2⟩ := h
  cases sp with
  | sdLn =>
    cases mu with
    | meanLn => rfl
    | median =>
      rcases h2 with h2 | h2
      · cases h2
      · simp [mtype, stype, LogNormalFn.distribution, LogNormalFn.eval, Dbl.log_pos h2, Spec.logPair,
          LogNormalDist.ofMuSigmaLn]
    | mean =>
      rcases h2 with h2 | h2
      · cases h2
      · simp [mtype, stype, LogNormalFn.distribution, LogNormalFn.eval, Dbl.log_pos h2, Spec.logPair,
          LogNormalDist.ofMuSigmaLn, pow_two]
  | sd =>
    obtain ⟨rfl, hb⟩ : mu = .mean ∧ 0 ≤ b := by
      rcases h1 with h1 | h1
      · cases h1
      · exact h1
    rcases h2 with h2 | h2
    · cases h2
    · have hq : 0 ≤ b * b / (a * a) := div_nonneg (mul_self_nonneg b) (mul_self_nonneg a)
      have hl : 0 ≤ Real.log (1 + b * b / (a * a)) := Real.log_nonneg (by linarith)
      have hp : 0 < 1 + b * b / (a * a) := by linarith
      simp [mtype, stype, LogNormalFn.distribution, LogNormalFn.eval, Dbl.log_pos h2, Spec.logPair,
        LogNormalDist.ofMuSigmaLn, pow_two, Dbl.fin_div_of_ne (mul_pos h2 h2).ne', Dbl.log_pos hp,
        Dbl.sqrt_fin hl]

theorem logPair_pos {mu : Mu} {sp : Sd} {a b : ℝ} (h : Spec.Meant mu sp a b) (hb : 0 < b) :
    0 < (Spec.logPair mu sp a b).2 := by
  cases sp with
  | sdLn => exact hb
  | sd =>
    have ha : 0 < a := by
      obtain ⟨h1 | ⟨rfl, -⟩, h2 | h2⟩ := h
      · cases h1
      · cases h1
      · cases h2
      · exact h2
    simp only [Spec.logPair]
    apply Real.sqrt_pos.2
    apply Real.log_pos
    have : 0 < b ^ 2 / a ^ 2 := by positivity
    linarith

/-! ## The state before the recorder and the state at the end -/

theorem setup {N : Numerics} {ds : World → Interp.Printed → String} {M : Machine}
    {ev : String → Except Err Val} {p : Gram.Pen}
    {ls : List (Gram.Style × Cmd)} {text : List Char} {A B C : List Cmd} {m : Cmd} {fs : Files}
    {σ : State World}
    (hok : ∀ c ∈ ls, Gram.OkCmd p c.2) (ht : Lex.Written (Gram.toks (Gram.writeScript p ls)) text)
    (hl : ls.map (·.2) = A ++ m :: B ++ .analyze :: C) (hs : ∀ m' ∈ A ++ m :: B ++ C, m'.sound = true)
    (hr : session (plain N ds) M ev (start {} fs) text = (σ, none)) :
    ∃ σA σZ, run (plain N ds) M ⟨ev, Gram.preprocessString⟩ A {} (start {} fs) = (σA, none) ∧
      run (plain N ds) M ⟨ev, Gram.preprocessString⟩ (A ++ m :: B) {} (start {} fs) = (σZ, none) ∧
      Meets A.reverse σA.lib ∧ Meets (A ++ m :: B).reverse σZ.lib ∧ Later σA.lib σZ.lib := by
  rw [session, Gram.script_read hok ht, hl] at hr
  have hall : ∀ m' ∈ A ++ m :: B, m'.sound = true := fun m' h => hs m' (List.mem_append_left _ h)
  obtain ⟨sZ, σZ, -, hZ, -⟩ := run_append hall rfl hr
  have hend : Meets (A ++ m :: B).reverse σZ.lib := by
    simpa using (Meets.init).run (σ := start {} fs) hall rfl hZ
  obtain ⟨sA, σA, h1, h2, h3⟩ := run_append (fun m hm => hall m (by simp [hm])) rfl hZ
  refine ⟨σA, σZ, h2, hZ, ?_, hend, later_run (fun m' hm' => hall m' (List.mem_append_right _ hm')) h1 h3⟩
  simpa using (Meets.init).run (σ := start {} fs) (fun m hm => hall m (by simp [hm])) rfl h2

/-- What a recorder sees at the end. -/
theorem seen_later {N : Numerics} {ds : World → Interp.Printed → String} {w w' : World} {r i : String}
    {t : Thing} (h : Later w w') (ht : w.thing r i = some t) :
    ∃ n t', w.find r i = some n ∧ w'.things[n]? = some t' ∧ t.Same t' ∧
      seen (plain N ds) w' ((plain N ds).find w r i) = t'.obj N w' := by
  obtain ⟨n, hn, h1⟩ := Option.bind_eq_some_iff.1 ht
  obtain ⟨t', h2, h3⟩ := h.things n t h1
  refine ⟨n, t', hn, h2, h3, ?_⟩
  have hn' : (plain N ds).find w r i = some n := hn
  rw [hn']
  simp [seen, plain, h2]

/-! ## Sessions that end -/

/-- **C88.** A script in which names are defined before they are used, numbers are written out and reports are of the
kinds that work ends without an exception, if the files can be opened. -/
theorem well_formed_ends_partial {N : Numerics} {ds : World → Interp.Printed → String} {M : Machine}
    {p : Gram.Pen} {ls : List (Gram.Style × Cmd)} {text : List Char}
    (hok : ∀ c ∈ ls, Gram.OkCmd p c.2) (ht : Lex.Written (Gram.toks (Gram.writeScript p ls)) text)
    (hw : Spec.WellFormed M (ls.map (·.2)).reverse)
    (ev : String → Except Err Val) (fs : Files) :
    ∃ σ, session (plain N ds) M ev (start {} fs) text = (σ, none) := by
  rw [session, Gram.script_read hok ht]
  exact ends (l := []) (by simpa using hw) Meets.init Stock.init Built.init (Kept.init _ _) (by intro e he; cases he) rfl

/-- A script:

    outputdir out;
    detfn h hyperbolic -2.5, 3.0, 0.1;
    detfn a powerlaw 0.1, 1.5;
    detfn s powerlaw 0.4, 0.0;
    probfn pf lognormal a, s --mu median_x --sd sd_ln_x;
    im i h;
    edp e i pf;
    recorder r1 detfn a --at 0.5, 2.0 --file f1;
    recorder r2 imrate i --at 0.5, 2.0 --file f2;
    recorder r3 collapse i --at 0.5, 2.0 --file f3;
    recorder r4 edpim e --at 0.5, 2.0 --cols sd_ln_x, mean_x --file f4;
    collapse i 1.2, 0.4 --mu median_x --sd sd_ln_x;
    detfn a powerlaw 7, 7;
-/
def early : List Cmd :=
  [.outputdir "out",
    .detfnHyperbolic "h" ⟨.num (.flt (-5/2)), .num (.flt 3)⟩ (.num (.flt (1/10))),
    .detfnPowerlaw "a" ⟨.num (.flt (1/10)), .num (.flt (3/2))⟩,
    .detfnPowerlaw "s" ⟨.num (.flt (2/5)), .num (.flt 0)⟩,
    .probfn "pf" (.id "a") (.id "s") ⟨some .median, some .sdLn⟩,
    .im "i" "h",
    .edp "e" "i" "pf"]

/-- See `early`. -/
def rec1 : Cmd := .recorder "r1" (.fn .detfn "a" (.floats [1/2, 2]) none) (some ⟨"f1", false⟩)
/-- See `early`. -/
def rec2 : Cmd := .recorder "r2" (.fn .imrate "i" (.floats [1/2, 2]) none) (some ⟨"f2", false⟩)
/-- See `early`. -/
def rec3 : Cmd := .recorder "r3" (.rates .collapse "i" (.floats [1/2, 2])) (some ⟨"f3", false⟩)
/-- See `early`. -/
def rec4 : Cmd := .recorder "r4"
  (.fn .edpim "e" (.floats [1/2, 2]) (some [.spread .sdLn, .placement .mean])) (some ⟨"f4", false⟩)

/-- See `early`. -/
def late : List Cmd :=
  [.dist .collapse "i" ⟨.num (.flt (6/5)), .num (.flt (2/5))⟩ ⟨some .median, some .sdLn⟩,
    .detfnPowerlaw "a" ⟨.num (.int 7), .num (.int 7)⟩]

/-- See `early`. -/
def sample : List Cmd := early ++ rec1 :: rec2 :: rec3 :: rec4 :: late

/-- A machine without rounding on which every file can be opened, with some way of writing rows. -/
def bench (rd : Rec.Row → String) : Machine := ⟨id, 100, fun _ => true, rd⟩

variable {rd : Rec.Row → String}

/-- The script written down. -/
def page : List (Gram.Style × Cmd) := (sample ++ [Cmd.analyze]).map fun c => ({}, c)

theorem page_ok {p : Gram.Pen} (hi : ∀ n, p.OkI n) (hf : ∀ x, Gram.Decimal x → p.OkF x) :
    ∀ c ∈ page, Gram.OkCmd p c.2 := by
  have n : ∀ s ∈ ["out", "h", "a", "s", "pf", "i", "e", "r1", "r2", "r3", "r4", "f1", "f2", "f3", "f4"],
      Gram.OkName s := by
    have h : ∀ s ∈ ["out", "h", "a", "s", "pf", "i", "e", "r1", "r2", "r3", "r4", "f1", "f2", "f3", "f4"],
        (match s.toList with
        | [] => false
        | c :: r => Lex.nondigit c && r.all fun d => Lex.nondigit d || Lex.digit d) = true ∧
        (∀ q ∈ Lex.vocabulary, q.2.toList ≠ s.toList) ∧ ¬ "loglog".toList <+: s.toList := by
      decide +kernel
    exact fun s hs => Gram.okName (h s hs).1 (h s hs).2.1 (h s hs).2.2
  have fl : ∀ s ∈ ["out", "f1", "f2", "f3", "f4"], Gram.OkFile s := by
    intro s hs
    have h1 : ∀ s ∈ ["out", "f1", "f2", "f3", "f4"], '/' ∉ s.toList := by decide
    unfold Gram.OkFile
    rw [if_neg (h1 s hs)]
    exact n s (by revert s; decide)
  have hto : ∀ s ∈ ["f1", "f2", "f3", "f4"], Gram.OkTo (some ⟨s, false⟩) := by
    intro s hs q hq
    simp only [Option.mem_def, Option.some.injEq] at hq
    subst hq
    exact fl s (by revert s; decide)
  have dec : ∀ z : ℤ, ∀ x : ℚ, x = z / 10 → p.OkF x := fun z x h => hf x ⟨z, 1, by rw [h]; norm_num⟩
  have hat : Gram.OkAt p (.floats [1/2, 2]) := by
    refine ⟨by simp, ?_⟩
    intro x hx
    simp only [List.mem_cons, List.not_mem_nil, or_false] at hx
    rcases hx with rfl | rfl
    · exact dec 5 _ (by norm_num)
    · exact dec 20 _ (by norm_num)
  intro c hc
  simp only [page, sample, early, late, rec1, rec2, rec3, rec4, List.cons_append, List.nil_append,
    List.map_cons, List.map_nil, List.mem_cons, List.not_mem_nil, or_false] at hc
  rcases hc with rfl | rfl | rfl | rfl | rfl | rfl | rfl | rfl | rfl | rfl | rfl | rfl | rfl | rfl
  · exact fl _ (by decide)
  · exact ⟨n _ (by decide), ⟨dec (-25) _ (by norm_num), dec 30 _ (by norm_num)⟩, dec 1 _ (by norm_num)⟩
  · exact ⟨n _ (by decide), dec 1 _ (by norm_num), dec 15 _ (by norm_num)⟩
  · exact ⟨n _ (by decide), dec 4 _ (by norm_num), dec 0 _ (by norm_num)⟩
  · exact ⟨n _ (by decide), n _ (by decide), n _ (by decide)⟩
  · exact ⟨n _ (by decide), n _ (by decide)⟩
  · exact ⟨n _ (by decide), n _ (by decide), n _ (by decide)⟩
  · exact ⟨n _ (by decide), ⟨n _ (by decide), hat, by intro l hl; cases hl⟩, hto _ (by decide)⟩
  · exact ⟨n _ (by decide), ⟨n _ (by decide), hat, by intro l hl; cases hl⟩, hto _ (by decide)⟩
  · exact ⟨n _ (by decide), ⟨n _ (by decide), hat⟩, hto _ (by decide)⟩
  · refine ⟨n _ (by decide), ⟨n _ (by decide), hat, ?_⟩, hto _ (by decide)⟩
    intro l hl
    simp only [Option.mem_def, Option.some.injEq] at hl
    subst hl
    simp [Gram.OkCol]
  · exact ⟨n _ (by decide), dec 12 _ (by norm_num), dec 4 _ (by norm_num)⟩
  · exact ⟨n _ (by decide), hi 7, hi 7⟩
  · trivial

theorem sample_fine : Spec.WellFormed (bench rd) (page.map (·.2)).reverse := by
  have e : (page.map (·.2)).reverse = .analyze :: sample.reverse := by simp [page]
  rw [e]
  have hw : ∀ b : Interp.RecBody, ∀ k cols at_, Spec.order (bench rd) b = some (k, cols, at_) →
      Rec.Spec.Working k cols → ∃ k cols at_, Spec.order (bench rd) b = some (k, cols, at_) ∧
        Rec.Spec.Working k cols := fun b k cols at_ h1 h2 => ⟨k, cols, at_, h1, h2⟩
  have h4 : Rec.Spec.Working .edpim (some [.name "sd_ln_x", .name "mean_x"]) :=
    ⟨_, rfl, by simp, by simp⟩
  refine ⟨?_, ?_, ?_, ?_, ?_, ?_, ?_, ?_, ?_, ?_, ?_, ?_, ?_, ?_, trivial⟩
  · intro i b po _; rfl
  · exact ⟨rfl, rfl⟩
  · exact ⟨Or.inl rfl, rfl, rfl, rfl⟩
  · exact Or.inr ⟨hw _ _ _ _ rfl h4, rfl⟩
  · exact Or.inr ⟨hw _ _ _ _ rfl trivial, rfl⟩
  · exact Or.inr ⟨hw _ _ _ _ rfl trivial, rfl⟩
  · exact Or.inr ⟨hw _ _ _ _ rfl rfl, rfl⟩
  · exact ⟨rfl, rfl, by intro j q; simp⟩
  · exact ⟨rfl, by intro g; simp⟩
  · exact ⟨rfl, rfl, Or.inl rfl⟩
  · exact ⟨rfl, rfl⟩
  · exact ⟨rfl, rfl⟩
  · exact ⟨rfl, rfl, rfl⟩
  · trivial

theorem page_session (N : Numerics) (ds : World → Interp.Printed → String) (ev : String → Except Err Val)
    (fs : Files) : ∃ (p : Gram.Pen) (text : List Char) (σ : State World), (∀ c ∈ page, Gram.OkCmd p c.2) ∧
      Lex.Written (Gram.toks (Gram.writeScript p page)) text ∧
      session (plain N ds) (bench rd) ev (start {} fs) text = (σ, none) := by
  obtain ⟨p, hi, hf⟩ := Gram.pen_exists
  obtain ⟨σ, h⟩ := well_formed_ends_partial (N := N) (ds := ds) (M := bench rd) (page_ok hi hf)
    (Gram.script_writable (page_ok hi hf)) sample_fine ev fs
  exact ⟨p, _, σ, page_ok hi hf, Gram.script_writable (page_ok hi hf), h⟩

theorem sample_sound : ∀ m ∈ sample, m.sound = true := by
  simp [sample, early, late, rec1, rec2, rec3, rec4, Interp.Cmd.sound, Interp.FnRef.plain]

/-- The files of the recorders. -/
def homes : List (String × String) := [("r1", "f1"), ("r2", "f2"), ("r3", "f3"), ("r4", "f4")]

theorem sample_homes {i : String} {b : Interp.RecBody} {po : Interp.PrintOpts}
    (hm : Cmd.recorder i b (some po) ∈ sample) : (i, po.file) ∈ homes := by
  simp only [sample, early, late, rec1, rec2, rec3, rec4, List.mem_cons, List.not_mem_nil,
    List.cons_append, List.nil_append, reduceCtorEq, Cmd.recorder.injEq, Option.some.injEq, false_or,
    or_false] at hm
  rcases hm with ⟨rfl, rfl, rfl⟩ | ⟨rfl, rfl, rfl⟩ | ⟨rfl, rfl, rfl⟩ | ⟨rfl, rfl, rfl⟩ <;> simp [homes]

theorem alone_of {A B S : List Cmd} {rid file : String} {d : Path} {homes : List (String × String)}
    (hh : ∀ i b po, Cmd.recorder i b (some po) ∈ S → (i, po.file) ∈ homes)
    {r : Cmd} (hS : S = A ++ r :: B) (hd : Output.dirOf (Spec.directory (A ++ B)) = d)
    (h : ∀ q ∈ homes, q.1 ≠ rid → Output.fullPath d q.2.toList ≠ Output.fullPath d file.toList) :
    Spec.Alone (Output.dirOf (Spec.directory (A ++ B))) rid file (A ++ B) := by
  subst hd
  intro i b po hm hi
  refine h (i, po.file) (hh i b po ?_) hi
  rw [hS]
  exact ((List.Sublist.refl A).append (List.sublist_cons_self r B)).subset hm

example : ∃ (p : Gram.Pen) (text : List Char), (∀ c ∈ page, Gram.OkCmd p c.2) ∧
    Lex.Written (Gram.toks (Gram.writeScript p page)) text ∧ Spec.WellFormed (bench rd) (page.map (·.2)).reverse := by
  obtain ⟨p, hi, hf⟩ := Gram.pen_exists
  exact ⟨p, _, page_ok hi hf, Gram.script_writable (page_ok hi hf), sample_fine⟩

variable {N : Numerics} {ds : World → Interp.Printed → String} {M : Machine}
  {ev : String → Except Err Val} {p : Gram.Pen} {ls : List (Gram.Style × Cmd)} {text : List Char}
  {A B C : List Cmd} {rid file id : String} {a : Interp.At} {fs : Files} {σ : State World} {xs : List ℝ}

/-- **C88.** The file of a `detfn` recorder: the formula of the function. -/
theorem curve_file_partial {h : ℝ → ℝ}
    (hok : ∀ c ∈ ls, Gram.OkCmd p c.2) (ht : Lex.Written (Gram.toks (Gram.writeScript p ls)) text)
    (hl : ls.map (·.2) = A ++ .recorder rid (.fn .detfn id a none) (some ⟨file, false⟩) :: B ++ .analyze :: C)
    (hs : ∀ m ∈ A ++ .recorder rid (.fn .detfn id a none) (some ⟨file, false⟩) :: B ++ C, m.sound = true)
    (hr : session (plain N ds) M ev (start {} fs) text = (σ, none))
    (hB : ∀ b' po, Cmd.recorder rid b' po ∉ B)
    (hal : Spec.Alone (Output.dirOf (Spec.directory (A ++ B))) rid file (A ++ B))
    (hu : Spec.Untouched (Output.fullPath (Output.dirOf (Spec.directory (A ++ B))) file.toList)
      (A ++ .recorder rid (.fn .detfn id a none) (some ⟨file, false⟩) :: B ++ [.analyze]) C)
    (ha : Spec.arguments M a = some (xs.map Dbl.fin)) (hx : ∀ x ∈ xs, 0 < x)
    (hc : Spec.curveOf A.reverse id = some h) :
    σ.files (Output.fullPath (Output.dirOf (Spec.directory (A ++ B))) file.toList) =
      some ((Spec.tableOf "x" [("y", h)] xs).map M.render) := by
  obtain ⟨σA, σZ, hA, hZ, hMA, -, hL⟩ := setup hok ht hl hs hr
  obtain ⟨f, hf, hag⟩ := hMA.curve _ _ hc
  obtain ⟨n, t', -, -, hsame, hseen⟩ := seen_later (N := N) (ds := ds) hL hf
  cases hsame
  have hord : Spec.order M (.fn .detfn id a none) = some (.detfn, none, xs.map Dbl.fin) := by
    simp [Spec.order, ha, Spec.kind]
  have htab : Rec.Spec.table .detfn (seen (plain N ds) σZ.lib ((plain N ds).find σA.lib "detfn" id)) none
      (xs.map Dbl.fin) = some (Spec.tableOf "x" [("y", h)] xs) := by
    rw [hseen]
    simp only [Thing.obj, Rec.Spec.table, Rec.Spec.argument, Rec.Spec.columns, Option.bind_eq_bind,
      Option.bind_some, Option.pure_def, Spec.tableOf, List.map_cons, List.map_nil, List.map_map,
      Option.some.injEq, List.cons.injEq, true_and]
    apply List.map_congr_left
    intro x hx'
    simp [hag x (hx x hx')]
  exact session_table_partial hok ht hl hs hr hB hal hu hord rfl hA hZ htab
    (by intro g g' _ _ hk; rcases hk with hk | hk <;> cases hk)
    (by intro g x _ hk; cases hk)

example (N : Numerics) (ds : World → Interp.Printed → String) (ev : String → Except Err Val) (fs : Files) :
    ∃ text σ, session (plain N ds) (bench rd) ev (start {} fs) text = (σ, none) ∧
      σ.files "out/f1.csv".toList = some ((Spec.tableOf "x" [("y", Spec.powerLaw ((1/10 : ℚ) : ℝ) ((3/2 : ℚ) : ℝ))] [1/2, 2]).map (bench rd).render) := by
  obtain ⟨p, text, σ, hok, ht, hr⟩ := page_session N ds ev fs
  have h := curve_file_partial (A := early) (B := rec2 :: rec3 :: rec4 :: late) (rid := "r1") (file := "f1")  hok ht
    (by simp [page, sample, rec1]) (C := []) sample_sound hr
    (by simp [late, rec2, rec3, rec4])
    (alone_of (d := "out".toList) (fun _ _ _ => sample_homes) (by simp [sample]; rfl) rfl (by decide))
    trivial (xs := [1/2, 2]) (by simp [Spec.arguments]) (by simp)
    (h := Spec.powerLaw ((1/10 : ℚ) : ℝ) ((3/2 : ℚ) : ℝ)) rfl
  exact ⟨text, σ, hr, h⟩

/-- **C88.** The file of an `imrate` recorder: the hazard curve. -/
theorem hazard_file_partial {h : ℝ → ℝ}
    (hok : ∀ c ∈ ls, Gram.OkCmd p c.2) (ht : Lex.Written (Gram.toks (Gram.writeScript p ls)) text)
    (hl : ls.map (·.2) = A ++ .recorder rid (.fn .imrate id a none) (some ⟨file, false⟩) :: B ++ .analyze :: C)
    (hs : ∀ m ∈ A ++ .recorder rid (.fn .imrate id a none) (some ⟨file, false⟩) :: B ++ C, m.sound = true)
    (hr : session (plain N ds) M ev (start {} fs) text = (σ, none))
    (hB : ∀ b' po, Cmd.recorder rid b' po ∉ B)
    (hal : Spec.Alone (Output.dirOf (Spec.directory (A ++ B))) rid file (A ++ B))
    (hu : Spec.Untouched (Output.fullPath (Output.dirOf (Spec.directory (A ++ B))) file.toList)
      (A ++ .recorder rid (.fn .imrate id a none) (some ⟨file, false⟩) :: B ++ [.analyze]) C)
    (ha : Spec.arguments M a = some (xs.map Dbl.fin)) (hx : ∀ x ∈ xs, 0 < x)
    (hc : Spec.hazardOf A.reverse id = some h) :
    σ.files (Output.fullPath (Output.dirOf (Spec.directory (A ++ B))) file.toList) =
      some ((Spec.tableOf id [("lambda", h)] xs).map M.render) := by
  obtain ⟨σA, σZ, hA, hZ, hMA, -, hL⟩ := setup hok ht hl hs hr
  obtain ⟨f, d, hf, hag⟩ := hMA.hazard _ _ hc
  obtain ⟨n, t', -, -, ⟨d', rfl⟩, hseen⟩ := seen_later (N := N) (ds := ds) hL hf
  have hord : Spec.order M (.fn .imrate id a none) = some (.imrate, none, xs.map Dbl.fin) := by
    simp [Spec.order, ha, Spec.kind]
  have htab : Rec.Spec.table .imrate (seen (plain N ds) σZ.lib ((plain N ds).find σA.lib "im" id)) none
      (xs.map Dbl.fin) = some (Spec.tableOf id [("lambda", h)] xs) := by
    rw [hseen]
    simp only [Thing.obj, Rec.Spec.table, Rec.Spec.argument, Rec.Spec.columns, Option.bind_eq_bind,
      Option.bind_some, Option.pure_def, Spec.tableOf, List.map_cons, List.map_nil, List.map_map,
      Option.some.injEq, List.cons.injEq, true_and]
    apply List.map_congr_left
    intro x hx'
    simp [hag x (hx x hx')]
  exact session_table_partial hok ht hl hs hr hB hal hu hord trivial hA hZ htab
    (by intro g g' _ _ hk; rcases hk with hk | hk <;> cases hk)
    (by intro g x _ hk; cases hk)

example (N : Numerics) (ds : World → Interp.Printed → String) (ev : String → Except Err Val) (fs : Files) :
    ∃ text σ, session (plain N ds) (bench rd) ev (start {} fs) text = (σ, none) ∧
      σ.files "out/f2.csv".toList = some ((Spec.tableOf "i" [("lambda",
        Spec.hyperbolic ((-5/2 : ℚ) : ℝ) ((3 : ℚ) : ℝ) ((1/10 : ℚ) : ℝ))] [1/2, 2]).map (bench rd).render) := by
  obtain ⟨p, text, σ, hok, ht, hr⟩ := page_session N ds ev fs
  have h := hazard_file_partial (A := early ++ [rec1]) (B := rec3 :: rec4 :: late) (rid := "r2") (file := "f2")  hok ht
    (by simp [page, sample, rec2]) (C := []) sample_sound hr
    (by simp [late, rec3, rec4])
    (alone_of (d := "out".toList) (fun _ _ _ => sample_homes) (by simp [sample]; rfl) rfl (by decide))
    trivial (xs := [1/2, 2]) (by simp [Spec.arguments]) (by simp)
    rfl
  exact ⟨text, σ, hr, h⟩

/-- **C88.** The file of a `collapse` recorder: the probabilities of demolition and collapse, of the distributions
set last before the analysis, even those set after the recorder was made. -/
theorem fate_file_partial {h : ℝ → ℝ} {c d : Option (Mu × Sd × ℝ × ℝ)}
    (hok : ∀ c ∈ ls, Gram.OkCmd p c.2) (ht : Lex.Written (Gram.toks (Gram.writeScript p ls)) text)
    (hl : ls.map (·.2) = A ++ .recorder rid (.rates .collapse id a) (some ⟨file, false⟩) :: B ++ .analyze :: C)
    (hs : ∀ m ∈ A ++ .recorder rid (.rates .collapse id a) (some ⟨file, false⟩) :: B ++ C, m.sound = true)
    (hr : session (plain N ds) M ev (start {} fs) text = (σ, none))
    (hB : ∀ b' po, Cmd.recorder rid b' po ∉ B)
    (hal : Spec.Alone (Output.dirOf (Spec.directory (A ++ B))) rid file (A ++ B))
    (hu : Spec.Untouched (Output.fullPath (Output.dirOf (Spec.directory (A ++ B))) file.toList)
      (A ++ .recorder rid (.rates .collapse id a) (some ⟨file, false⟩) :: B ++ [.analyze]) C)
    (ha : Spec.arguments M a = some (xs.map Dbl.fin)) (hx : ∀ x ∈ xs, 0 < x)
    (hi : Spec.hazardOf A.reverse id = some h)
    (hc : Spec.fateOf .collapse
      (A ++ .recorder rid (.rates .collapse id a) (some ⟨file, false⟩) :: B).reverse id = some c)
    (hd : Spec.fateOf .demolition
      (A ++ .recorder rid (.rates .collapse id a) (some ⟨file, false⟩) :: B).reverse id = some d)
    (hcm : ∀ q ∈ c, Spec.Meant q.1 q.2.1 q.2.2.1 q.2.2.2 ∧ 0 < q.2.2.2)
    (hdm : ∀ q ∈ d, Spec.Meant q.1 q.2.1 q.2.2.1 q.2.2.2 ∧ 0 < q.2.2.2) :
    σ.files (Output.fullPath (Output.dirOf (Spec.directory (A ++ B))) file.toList) =
      some ((Spec.tableOf id [("p(Demolition)", Spec.pDemolition c d), ("p(Collapse)", Spec.pCollapse c)]
        xs).map M.render) := by
  obtain ⟨σA, σZ, hA, hZ, hMA, hM, hL⟩ := setup hok ht hl hs hr
  obtain ⟨f, d0, hf, hag⟩ := hMA.hazard _ _ hi
  obtain ⟨n, t', hn, htn, ⟨d', rfl⟩, hseen⟩ := seen_later (N := N) (ds := ds) hL hf
  have hend : σZ.lib.thing "im" id = some (.im id f d') := by
    simp [World.thing, hL.im _ _ hn, htn]
  have hfc := (hM.fate _ _ _ hend).1 _ hc
  have hfd := (hM.fate _ _ _ hend).2 _ hd
  have hord : Spec.order M (.rates .collapse id a) = some (.collapse, none, xs.map Dbl.fin) := by
    simp [Spec.order, ha, Spec.kindAt]
  have pm : ∀ (q : Mu × Sd × ℝ × ℝ) (x : ℝ), Spec.Meant q.1 q.2.1 q.2.2.1 q.2.2.2 ∧ 0 < q.2.2.2 → 0 < x →
      (made q).pAtMost (.fin x) = .fin (Spec.below (Spec.logPair q.1 q.2.1 q.2.2.1 q.2.2.2) x) := by
    rintro ⟨mu, sp, u, v⟩ x ⟨h1, h2⟩ hx
    rw [made_eq h1, LogNormalDist.pAtMost_pos _ (logPair_pos h1 h2) hx]
    rfl
  have pc : ∀ x : ℝ, 0 < x → d'.pCollapse (.fin x) = .fin (Spec.pCollapse c x) := by
    intro x hx
    unfold Fates.pCollapse
    rw [hfc]
    cases c with
    | none => rfl
    | some q => exact pm q x (hcm q rfl) hx
  have pd : ∀ x : ℝ, 0 < x → d'.pDemolition (.fin x) = .fin (Spec.pDemolition c d x) := by
    intro x hx
    unfold Fates.pDemolition
    rw [hfd]
    cases d with
    | none => rfl
    | some q =>
      simp only [Option.map_some]
      rw [pm q x (hdm q rfl) hx, pc x hx]
      rfl
  have htab : Rec.Spec.table .collapse (seen (plain N ds) σZ.lib ((plain N ds).find σA.lib "im" id)) none
      (xs.map Dbl.fin) = some (Spec.tableOf id
        [("p(Demolition)", Spec.pDemolition c d), ("p(Collapse)", Spec.pCollapse c)] xs) := by
    rw [hseen]
    simp only [Thing.obj, Rec.Spec.table, Rec.Spec.argument, Rec.Spec.columns, Option.bind_eq_bind,
      Option.bind_some, Option.pure_def, Spec.tableOf, List.map_cons, List.map_nil, List.map_map,
      Option.some.injEq, List.cons.injEq, true_and]
    apply List.map_congr_left
    intro x hx'
    simp [pc x (hx x hx'), pd x (hx x hx')]
  exact session_table_partial hok ht hl hs hr hB hal hu hord trivial hA hZ htab
    (by intro g g' _ _ hk; rcases hk with hk | hk <;> cases hk)
    (by intro g x _ hk; cases hk)

example (N : Numerics) (ds : World → Interp.Printed → String) (ev : String → Except Err Val) (fs : Files) :
    ∃ text σ, session (plain N ds) (bench rd) ev (start {} fs) text = (σ, none) ∧
      σ.files "out/f3.csv".toList = some ((Spec.tableOf "i" [("p(Demolition)", fun _ => 0),
        ("p(Collapse)", Spec.below (Real.log ((6/5 : ℚ) : ℝ), ((2/5 : ℚ) : ℝ)))] [1/2, 2]).map (bench rd).render) := by
  obtain ⟨p, text, σ, hok, ht, hr⟩ := page_session N ds ev fs
  have h := fate_file_partial (A := early ++ [rec1, rec2]) (B := rec4 :: late) (rid := "r3") (file := "f3")  hok ht
    (by simp [page, sample, rec3]) (C := []) sample_sound hr
    (by simp [late, rec4])
    (alone_of (d := "out".toList) (fun _ _ _ => sample_homes) (by simp [sample]; rfl) rfl (by decide))
    trivial (xs := [1/2, 2]) (by simp [Spec.arguments]) (by simp)
    rfl (c := some (.median, .sdLn, ((6/5 : ℚ) : ℝ), ((2/5 : ℚ) : ℝ))) (d := none) rfl rfl
    (by
      intro q hq
      simp only [Option.mem_def, Option.some.injEq] at hq
      subst hq
      exact ⟨⟨Or.inl rfl, Or.inr (by norm_num)⟩, by norm_num⟩)
    (by intro q hq; cases hq)
  exact ⟨text, σ, hr, h⟩

/-- **C88.** The file of an `edpim` recorder with the columns that work: mean and log-spread of the demand at every
intensity. -/
theorem demand_file_partial {im : String} {L : Spec.Law} {cs : List Interp.Col}
    {vs : List (String × (ℝ → ℝ))}
    (hok : ∀ c ∈ ls, Gram.OkCmd p c.2) (ht : Lex.Written (Gram.toks (Gram.writeScript p ls)) text)
    (hl : ls.map (·.2) =
      A ++ .recorder rid (.fn .edpim id a (some cs)) (some ⟨file, false⟩) :: B ++ .analyze :: C)
    (hs : ∀ m ∈ A ++ .recorder rid (.fn .edpim id a (some cs)) (some ⟨file, false⟩) :: B ++ C, m.sound = true)
    (hr : session (plain N ds) M ev (start {} fs) text = (σ, none))
    (hB : ∀ b' po, Cmd.recorder rid b' po ∉ B)
    (hal : Spec.Alone (Output.dirOf (Spec.directory (A ++ B))) rid file (A ++ B))
    (hu : Spec.Untouched (Output.fullPath (Output.dirOf (Spec.directory (A ++ B))) file.toList)
      (A ++ .recorder rid (.fn .edpim id a (some cs)) (some ⟨file, false⟩) :: B ++ [.analyze]) C)
    (ha : Spec.arguments M a = some (xs.map Dbl.fin)) (hx : ∀ x ∈ xs, 0 < x)
    (hc : Spec.demandOf A.reverse id = some (im, L)) (hne : cs ≠ [])
    (hv : cs.mapM (Spec.demandColumn L) = some vs)
    (hm : ∀ x ∈ xs, Spec.Meant L.mu L.sp (L.f x) (L.g x)) :
    σ.files (Output.fullPath (Output.dirOf (Spec.directory (A ++ B))) file.toList) =
      some ((Spec.tableOf im vs xs).map M.render) := by
  obtain ⟨σA, σZ, hA, hZ, hMA, -, hL⟩ := setup hok ht hl hs hr
  obtain ⟨_, cv, f, g, hf, hag, hbg, -⟩ := hMA.demand _ _ _ hc
  obtain ⟨n, t', -, -, hsame, hseen⟩ := seen_later (N := N) (ds := ds) hL hf
  cases hsame
  -- columns
  have key : ∀ (cs : List Interp.Col) (vs : List (String × (ℝ → ℝ))), cs.mapM (Spec.demandColumn L) = some vs →
      ∃ rc ws, cs.mapM Spec.column = some rc ∧ (∀ c ∈ rc, c = .name "mean_x" ∨ c = .name "sd_ln_x") ∧
        rc.length = cs.length ∧
        Rec.Spec.chosen (Rec.Spec.statistic (stats (lawAt L.mu L.sp f g))) rc = some ws ∧
        ws.map Prod.fst = vs.map (fun v => Rec.Cell.text v.1) ∧
        ∀ x ∈ xs, ws.map (fun w => Rec.Cell.num (w.2 (.fin x))) = vs.map fun v => .num (.fin (v.2 x)) := by
    intro cs
    induction cs with
    | nil =>
      intro vs h
      cases h
      exact ⟨[], [], rfl, by simp, rfl, rfl, rfl, fun _ _ => rfl⟩
    | cons c cs ih =>
      intro vs h
      rw [List.mapM_cons] at h
      obtain ⟨v, hv, h⟩ := Option.bind_eq_some_iff.1 h
      obtain ⟨vs', hvs', h⟩ := Option.bind_eq_some_iff.1 h
      cases h
      obtain ⟨rc, ws, h1, h2, h3, h4, h5, h6⟩ := ih vs' hvs'
      have law : ∀ x ∈ xs, lawAt L.mu L.sp f g (.fin x) =
          ⟨.fin (Spec.logPair L.mu L.sp (L.f x) (L.g x)).1, .fin (Spec.logPair L.mu L.sp (L.f x) (L.g x)).2⟩ :=
        fun x hx' => lawAt_eq (hag x (hx x hx')) (hbg x (hx x hx')) (hm x hx')
      cases c with
      | placement m =>
        cases m with
        | mean =>
          cases hv
          refine ⟨.name "mean_x" :: rc,
            (.text "mean_x", fun x => (lawAt L.mu L.sp f g x).getMean) :: ws, ?_, ?_, ?_, ?_, ?_, ?_⟩
          · rw [List.mapM_cons, h1]; rfl
          · intro c hc
            rcases List.mem_cons.1 hc with rfl | hc
            · exact Or.inl rfl
            · exact h2 c hc
          · simp [h3]
          · rw [Rec.Spec.chosen, h4]; rfl
          · simp [h5]
          · intro x hx'
            rw [List.map_cons, List.map_cons, h6 x hx']
            simp only [law x hx', LogNormalDist.getMean_fin]
            simp [Spec.mean, pow_two]
        | median => cases hv
        | meanLn => cases hv
      | spread d =>
        cases d with
        | sdLn =>
          cases hv
          refine ⟨.name "sd_ln_x" :: rc,
            (.text "sd_ln_x", fun x => (lawAt L.mu L.sp f g x).getSigmaLn) :: ws, ?_, ?_, ?_, ?_, ?_, ?_⟩
          · rw [List.mapM_cons, h1]; rfl
          · intro c hc
            rcases List.mem_cons.1 hc with rfl | hc
            · exact Or.inr rfl
            · exact h2 c hc
          · simp [h3]
          · rw [Rec.Spec.chosen, h4]; rfl
          · simp [h5]
          · intro x hx'
            rw [List.map_cons, List.map_cons, h6 x hx']
            simp only [law x hx']
            rfl
        | sd => cases hv
      | scalar s => cases hv
  obtain ⟨rc, ws, h1, h2, h3, h4, h5, h6⟩ := key cs vs hv
  have hord : Spec.order M (.fn .edpim id a (some cs)) = some (.edpim, some rc, xs.map Dbl.fin) := by
    simp [Spec.order, ha, Spec.kind, h1]
  have hwork : Rec.Spec.Working .edpim (some rc) := by
    refine ⟨rc, rfl, ?_, h2⟩
    rintro rfl
    exact hne (List.length_eq_zero_iff.1 h3.symm)
  have htab : Rec.Spec.table .edpim (seen (plain N ds) σZ.lib ((plain N ds).find σA.lib "edp" id)) (some rc)
      (xs.map Dbl.fin) = some (Spec.tableOf im vs xs) := by
    rw [hseen]
    simp only [Thing.obj, Rec.Spec.table, Rec.Spec.argument, Rec.Spec.columns, Option.bind_eq_bind,
      Option.bind_some, Option.pure_def, Option.getD_some, h4, Spec.tableOf, List.map_map, h5,
      Option.some.injEq, List.cons.injEq, true_and]
    apply List.map_congr_left
    intro x hx'
    simp only [Function.comp_apply, List.cons.injEq, true_and]
    exact h6 x hx'
  exact session_table_partial hok ht hl hs hr hB hal hu hord hwork hA hZ htab
    (by intro g g' _ _ hk; rcases hk with hk | hk <;> cases hk)
    (by intro g x _ hk; cases hk)

example (N : Numerics) (ds : World → Interp.Printed → String) (ev : String → Except Err Val) (fs : Files) :
    ∃ text σ, session (plain N ds) (bench rd) ev (start {} fs) text = (σ, none) ∧
      σ.files "out/f4.csv".toList = some ((Spec.tableOf "i"
        [("sd_ln_x", Spec.powerLaw ((2/5 : ℚ) : ℝ) ((0 : ℚ) : ℝ)),
          ("mean_x", fun x => Spec.mean (Real.log (Spec.powerLaw ((1/10 : ℚ) : ℝ) ((3/2 : ℚ) : ℝ) x),
            Spec.powerLaw ((2/5 : ℚ) : ℝ) ((0 : ℚ) : ℝ) x))] [1/2, 2]).map (bench rd).render) := by
  obtain ⟨p, text, σ, hok, ht, hr⟩ := page_session N ds ev fs
  have h := demand_file_partial (A := early ++ [rec1, rec2, rec3]) (B := late) (rid := "r4") (file := "f4")  hok ht
    (by simp [page, sample, rec4]) (C := []) sample_sound hr
    (by simp [late])
    (alone_of (d := "out".toList) (fun _ _ _ => sample_homes) (by simp [sample]; rfl) rfl (by decide))
    trivial (xs := [1/2, 2]) (by simp [Spec.arguments]) (by simp)
    (L := ⟨.median, .sdLn, Spec.powerLaw ((1/10 : ℚ) : ℝ) ((3/2 : ℚ) : ℝ),
      Spec.powerLaw ((2/5 : ℚ) : ℝ) ((0 : ℚ) : ℝ)⟩) rfl (by simp) rfl
    (by
      intro x hx
      refine ⟨Or.inl rfl, Or.inr ?_⟩
      have : 0 < x := by
        simp only [List.mem_cons, List.not_mem_nil, or_false] at hx
        rcases hx with rfl | rfl <;> norm_num
      simp only [Spec.powerLaw]
      positivity)
  exact ⟨text, σ, hr, h⟩

end

end Slat.Session
