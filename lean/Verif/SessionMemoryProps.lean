import Verif.SessionMemorySim
import Verif.SessionStructSample
import Verif.SessionVarsProps

/-!
# C95: a program that remembers results leaves the files of one that computes them again
-/

namespace Slat.Session

noncomputable section

open MeasureTheory Set

open Interp (Val Call Cmd Cfg Err Mu Sd DistCmd Sc)
open Output (Path Files)

variable {N : Numerics} {ds : World → Interp.Printed → String} {M : Machine} {p : Gram.Pen}
  {ls : List (Gram.Style × Cmd)} {text : List Char}

/-- **C95.** A session of the program that remembers rates and annual costs ends like one of the program that computes them whenever
they are asked for: with the same outcome, files, definitions, recorders and output directory, whatever is analysed and changed in
between, as long as no structure gets another cost of rebuilding or demolition after its annual cost was reported and no
intensity measure another probability of collapse after its rates were.  Missing: variables as in C42 and redefinitions, which
end a session of `SessionPlain`. -/
theorem remembered_partial (hN : N.Separate) (hok : ∀ c ∈ ls, Gram.OkCmd p c.2)
    (ht : Lex.Written (Gram.toks (Gram.writeScript p ls)) text) (hs : ∀ c ∈ ls, c.2.sound = true)
    (hset : Spec.Settled (ls.map (·.2))) (ev : String → Except Err Val) (fs : Files) :
    let τ := session (plain N ds) M ev (start {} fs) text
    let τ' := sessionR N ds M ev (start ({}, {}) fs) text
    τ'.2 = τ.2 ∧ τ'.1.files = τ.1.files ∧ τ'.1.lib.1 = τ.1.lib ∧ τ'.1.recs = τ.1.recs ∧ τ'.1.outDir = τ.1.outDir := by
  obtain ⟨m', h'⟩ := sessionR_same (ds := ds) (M := M) hN hok ht (by
    intro x hx
    obtain ⟨c, hc, rfl⟩ := List.mem_map.1 hx
    exact hs c hc) hset ev fs
  dsimp only
  rw [h']
  exact ⟨rfl, rfl, rfl, rfl, rfl⟩

/-- The script of `claims` with a report of rates, an analysis, another distribution for demolition, and another
analysis. -/
def appeal : List (Gram.Style × Cmd) :=
  (claims ++ [want2, .analyze, .dist .demolition "i" ⟨.num (.flt (7/10)), .num (.flt (2/5))⟩ ⟨some .median, some .sdLn⟩,
    .analyze]).map fun c => ({}, c)

theorem appeal_ok (hi : ∀ n, p.OkI n) (hf : ∀ x, Gram.Decimal x → p.OkF x) : ∀ c ∈ appeal, Gram.OkCmd p c.2 := by
  intro c hc
  obtain ⟨m, hm, rfl⟩ := List.mem_map.1 hc
  rcases List.mem_append.1 hm with hm | hm
  · exact deed_ok hi hf ({}, m) (List.mem_map.2 ⟨m, by simp [hm], rfl⟩)
  · have old : ∀ m ∈ orders, Gram.OkCmd p m := fun m hm => bill_ok hi hf ({}, m) (List.mem_map.2 ⟨m, by simp [hm], rfl⟩)
    simp only [List.mem_cons, List.not_mem_nil, or_false] at hm
    rcases hm with rfl | rfl | rfl | rfl
    · exact old _ (by simp [orders])
    · trivial
    · have h := old (.dist .demolition "i" ⟨.num (.flt (4/5)), .num (.flt (2/5))⟩ ⟨some .median, some .sdLn⟩)
        (by simp [orders, posted])
      exact ⟨h.1, hf _ ⟨7, 1, by norm_num⟩, h.2.2⟩
    · trivial

theorem appeal_fine {rd : Rec.Row → String} : Spec.WellFormed (bench rd) (appeal.map (·.2)).reverse := by
  have base : Spec.WellFormed (bench rd) claims.reverse := by
    have h := claims_fine (rd := rd)
    have e' : (deed.map (·.2)).reverse = [.analyze] ++ claims.reverse := by
      simp [deed]
    rw [e'] at h
    exact wellFormed_suffix h
  have e : (appeal.map (·.2)).reverse = .analyze ::
      .dist .demolition "i" ⟨.num (.flt (7/10)), .num (.flt (2/5))⟩ ⟨some .median, some .sdLn⟩ :: .analyze :: want2 :: claims.reverse := by
    simp [appeal]
  rw [e]
  refine ⟨?_, ⟨Or.inr rfl, rfl, rfl, rfl⟩, ?_, Or.inl rfl, base⟩
  · intro i b po _; rfl
  · intro i b po _; rfl

theorem appeal_settled : Spec.Settled (appeal.map (·.2)) := by
  intro A B k id q o h
  have hB : appeal.map (·.2) = claims ++ want2 :: .analyze ::
      .dist .demolition "i" ⟨.num (.flt (7/10)), .num (.flt (2/5))⟩ ⟨some .median, some .sdLn⟩ :: [.analyze] := by simp [appeal]
  rw [hB] at h
  have hcl : Cmd.analyze ∉ claims := by
    simp [claims, estate, posted, claim1, claim2, claim3, claim4, claim5, razing]
  have short : A.length < claims.length → ∀ b, ¬ Spec.Asked b A := by
    rintro hlt b ⟨A', B', i, po, rfl, -⟩
    apply hcl
    have : claims <+: claims ++ want2 :: .analyze ::
        .dist .demolition "i" ⟨.num (.flt (7/10)), .num (.flt (2/5))⟩ ⟨some .median, some .sdLn⟩ :: [.analyze] := List.prefix_append ..
    have h2 : (A' ++ .analyze :: B') <+: claims := by
      refine List.prefix_of_prefix_length_le (l₃ := claims ++ want2 :: .analyze ::
        .dist .demolition "i" ⟨.num (.flt (7/10)), .num (.flt (2/5))⟩ ⟨some .median, some .sdLn⟩ :: [.analyze]) ?_ this hlt.le
      rw [h]
      exact List.prefix_append ..
    exact h2.subset (by simp)
  by_cases hlt : A.length < claims.length
  · cases k
    · exact short hlt _
    · trivial
    · exact fun b _ => short hlt b
    · exact fun b _ => short hlt b
  · have hge : claims.length ≤ A.length := not_lt.1 hlt
    obtain ⟨A', rfl⟩ : ∃ A', A = claims ++ A' := by
      have h1 : A <+: A ++ Cmd.dist k id q o :: B := List.prefix_append ..
      rw [← h] at h1
      obtain ⟨t, ht⟩ := List.prefix_of_prefix_length_le (List.prefix_append claims _) h1 hge
      exact ⟨t, ht.symm⟩
    rw [List.append_assoc, List.append_cancel_left_eq] at h
    rcases A' with _ | ⟨a, _ | ⟨b, _ | ⟨c, _ | ⟨d, A'⟩⟩⟩⟩
    · cases h
    · cases h
    · cases h; trivial
    · cases h
    · simp at h

theorem appeal_sound : ∀ m ∈ appeal.map (·.2), m.sound = true := by
  intro m hm
  obtain ⟨c, hc, rfl⟩ := List.mem_map.1 hm
  obtain ⟨m, hm', rfl⟩ := List.mem_map.1 hc
  rcases List.mem_append.1 hm' with hm | hm
  · exact claims_sound _ hm
  · simp only [List.mem_cons, List.not_mem_nil, or_false] at hm
    rcases hm with rfl | rfl | rfl | rfl <;> rfl

/-- What the script says between the recorder of the loss rates and its last analysis. -/
def revision : List Cmd :=
  [.analyze, .dist .demolition "i" ⟨.num (.flt (7/10)), .num (.flt (2/5))⟩ ⟨some .median, some .sdLn⟩]

/-- When the structure of the script is demolished in the end. -/
def wreck' : Option (Mu × Sd × ℝ × ℝ) := some (.median, .sdLn, ((7/10 : ℚ) : ℝ), ((2/5 : ℚ) : ℝ))

theorem appeal_answers : Spec.Answers Rates.ideal 0 (Spec.demolitionRate crash wreck' fall') := by
  refine ideal_answers (((fall_weighted (below_meas (Spec.logPair .median .sdLn ((7/10 : ℚ) : ℝ) ((2/5 : ℚ) : ℝ)))
    (below_range _)).sub (fall_weighted (below_meas (Spec.logPair .median .sdLn ((6/5 : ℚ) : ℝ) ((2/5 : ℚ) : ℝ)))
      (below_range _))).congr ?_)
  refine ae_of_all _ fun x => ?_
  simp only [Pi.sub_apply, Spec.demolitionRate, Spec.pDemolition, Spec.pCollapse, wreck', crash]
  ring

theorem crash_meant : ∀ q ∈ crash, Spec.Meant q.1 q.2.1 q.2.2.1 q.2.2.2 ∧ 0 < q.2.2.2 := by
  intro q hq
  simp only [crash, Option.mem_def, Option.some.injEq] at hq
  subst hq
  exact ⟨⟨Or.inl rfl, Or.inr (by norm_num)⟩, by norm_num⟩

example (ds : World → Interp.Printed → String) (ev : String → Except Err Val) (fs : Files) (rd : Rec.Row → String) :
    ∃ p text σ τ, Lex.Written (Gram.toks (Gram.writeScript p appeal)) text ∧
      session (plain (integrated Rates.ideal Rates.idealGsl) ds) (bench rd) ev (start {} fs) text = (σ, none) ∧
      sessionR (integrated Rates.ideal Rates.idealGsl) ds (bench rd) ev (start ({}, {}) fs) text = (τ, none) ∧
      τ.files = σ.files ∧
      τ.files "out/g2.csv".toList = some (([[.text "IM", .text "rate(Demolition)", .text "rate(Collapse)"],
        [.text "i", .num (.fin (∫ x in Ioi (0 : ℝ), Spec.demolitionRate crash wreck' fall' x)),
          .num (.fin (∫ x in Ioi (0 : ℝ), Spec.collapseRate crash fall' x))]] : List Rec.Row).map rd) := by
  obtain ⟨p, hi, hf⟩ := Gram.pen_exists
  have hok := appeal_ok hi hf
  obtain ⟨text, ht⟩ : ∃ text, Lex.Written (Gram.toks (Gram.writeScript p appeal)) text := ⟨_, Gram.script_writable hok⟩
  obtain ⟨σ, hr⟩ := well_formed_ends_partial (N := integrated Rates.ideal Rates.idealGsl) (ds := ds) (M := bench rd)
    hok ht appeal_fine ev fs
  have h := remembered_partial (ds := ds) (M := bench rd) (integrated_separate Rates.ideal Rates.idealGsl) hok ht
    (fun c hc => appeal_sound _ (List.mem_map.2 ⟨c, hc, rfl⟩)) appeal_settled ev fs
  obtain ⟨τ, hτ⟩ := recalls (integrated_separate _ _) hok ht appeal_sound hr appeal_settled
  have hl : appeal.map (·.2) = claims ++ .recorder "w2" (.collrate "i") (some ⟨"g2", false⟩) ::
      revision ++ .analyze :: [] := by
    simp [appeal, want2, revision]
  have g1 : Spec.hazardOf claims.reverse "i" = some fall := rfl
  have g2 : Spec.fateOf .collapse (claims ++ Cmd.recorder "w2" (.collrate "i") (some ⟨"g2", false⟩) ::
      revision).reverse "i" =
      some crash := rfl
  have g3 : Spec.fateOf .demolition (claims ++ Cmd.recorder "w2" (.collrate "i") (some ⟨"g2", false⟩) ::
      revision).reverse "i" =
      some wreck' := rfl
  have g4 : Output.dirOf (Spec.directory (claims ++
      revision)) = "out".toList := rfl
  have g5 : ∀ b' po, Cmd.recorder "w2" b' po ∉ revision := by simp [revision]
  have g6 : Spec.Alone (Output.dirOf (Spec.directory (claims ++ revision))) "w2" "g2" (claims ++ revision) := by
    rw [g4]
    intro i b po hm hi
    have hm' : Cmd.recorder i b (some po) ∈ claims := by simpa [revision] using hm
    have hh := claims_homes hm'
    have hall : ∀ q ∈ [("t1", "p1"), ("t2", "p2"), ("t3", "p3"), ("t4", "p4"), ("t5", "p5")],
        Output.fullPath "out".toList q.2.toList ≠ Output.fullPath "out".toList "g2".toList := by decide
    exact hall (i, po.file) hh
  have g7 : ∀ m ∈ claims ++ Cmd.recorder "w2" (.collrate "i") (some ⟨"g2", false⟩) :: revision ++ [],
      m.sound = true := by
    intro m hm
    refine appeal_sound m ?_
    rw [hl]
    simp only [List.append_nil] at hm
    exact List.mem_append_left _ hm
  have g8 : ∀ q ∈ wreck', Spec.Meant q.1 q.2.1 q.2.2.1 q.2.2.2 ∧ 0 < q.2.2.2 := by
    intro q hq
    simp only [wreck', Option.mem_def, Option.some.injEq] at hq
    subst hq
    exact ⟨⟨Or.inl rfl, Or.inr (by norm_num)⟩, by norm_num⟩
  have g9 := loss_rate_file_partial (ε := 0) hok ht hl g7 hτ appeal_settled g5 g6 trivial g1 g2 g3 crash_meant g8
    (fun x hx => fall_deriv hx) Rates.idealGsl_ok crash_answers appeal_answers
  obtain ⟨u, v, hu, hv, h5⟩ := g9
  rw [sub_eq_zero.1 (abs_nonpos_iff.1 hu), sub_eq_zero.1 (abs_nonpos_iff.1 hv)] at h5
  rw [g4] at h5
  rw [hr, hτ] at h
  exact ⟨p, text, σ, τ, ht, hr, hτ, h.2.1, h5⟩

/-- A script:

    detfn h hyperbolic 2.5, 3.0, 0.1;
    im i h;
    demolition i 0.8, 0.4 --mu median_x --sd sd_ln_x;
    recorder w2 collrate i --file g2;
    analyze;
    collapse i 1.2, 0.4 --mu median_x --sd sd_ln_x;
    analyze;
-/
def belated : List (Gram.Style × Cmd) :=
  [.detfnHyperbolic "h" ⟨.num (.flt (5/2)), .num (.flt 3)⟩ (.num (.flt (1/10))),
    .im "i" "h",
    .dist .demolition "i" ⟨.num (.flt (4/5)), .num (.flt (2/5))⟩ ⟨some .median, some .sdLn⟩,
    want2,
    .analyze,
    .dist .collapse "i" ⟨.num (.flt (6/5)), .num (.flt (2/5))⟩ ⟨some .median, some .sdLn⟩,
    .analyze].map fun c => ({}, c)

theorem belated_ok (hi : ∀ n, p.OkI n) (hf : ∀ x, Gram.Decimal x → p.OkF x) : ∀ c ∈ belated, Gram.OkCmd p c.2 := by
  intro c hc
  obtain ⟨m, hm, rfl⟩ := List.mem_map.1 hc
  have old : ∀ m ∈ orders, Gram.OkCmd p m := fun m hm => bill_ok hi hf ({}, m) (List.mem_map.2 ⟨m, by simp [hm], rfl⟩)
  simp only [List.mem_cons, List.not_mem_nil, or_false] at hm
  rcases hm with rfl | rfl | rfl | rfl | rfl | rfl | rfl
  · exact old _ (by simp [orders, posted])
  · exact old _ (by simp [orders, posted])
  · exact old _ (by simp [orders, posted])
  · exact old _ (by simp [orders])
  · trivial
  · exact old _ (by simp [orders, posted])
  · trivial

/-- What a report of rates says. -/
def toll (M : Machine) (d c : Dbl) : List String :=
  ([[.text "IM", .text "rate(Demolition)", .text "rate(Collapse)"], [.text "i", .num d, .num c]] : List Rec.Row).map M.render

/-- The hazard curve of the script. -/
theorem belated_curve : ∃ f, Make.detfn "hyperbolic" (.numbers [((5/2 : ℚ) : ℝ), ((3 : ℚ) : ℝ), ((1/10 : ℚ) : ℝ)]) = .value (some f) :=
  ⟨_, rfl⟩

theorem belated_runs {f : Dbl → Dbl}
    (hf : Make.detfn "hyperbolic" (.numbers [((5/2 : ℚ) : ℝ), ((3 : ℚ) : ℝ), ((1/10 : ℚ) : ℝ)]) = .value (some f))
    (N : Numerics) (ev : String → Except Err Val) (fs : Files) (rd : Rec.Row → String) :
    let τ := run (plain N ds) (bench rd) ⟨ev, Gram.preprocessString⟩ (belated.map (·.2)) {} (start {} fs)
    let τ' := runR N ds (bench rd) ⟨ev, Gram.preprocessString⟩ (belated.map (·.2)) {} (start ({}, {}) fs)
    τ.2 = none ∧ τ'.2 = none ∧
    τ.1.files "./g2.csv".toList = some (toll (bench rd) (N.demolitionRate f ⟨crash.map made, wreck.map made⟩)
      (N.collapseRate f ⟨crash.map made, wreck.map made⟩)) ∧
    τ'.1.files "./g2.csv".toList = some (toll (bench rd) (N.demolitionRate f ⟨none, wreck.map made⟩)
      (N.collapseRate f ⟨crash.map made, wreck.map made⟩)) := by
  cases hf
  exact ⟨rfl, rfl, rfl, rfl⟩

theorem belated_answers : Spec.Answers Rates.ideal 0 (Spec.demolitionRate none wreck fall') := by
  refine ideal_answers ((fall_weighted (below_meas (Spec.logPair .median .sdLn ((4/5 : ℚ) : ℝ) ((2/5 : ℚ) : ℝ)))
    (below_range _)).congr (ae_of_all _ fun x => ?_))
  simp only [Spec.demolitionRate, Spec.pDemolition, Spec.pCollapse, wreck, sub_zero]

/-- Without collapse, demolition is more frequent by the frequency of collapse. -/
theorem belated_more : ∫ x in Ioi (0 : ℝ), Spec.demolitionRate none wreck fall' x =
    (∫ x in Ioi (0 : ℝ), Spec.demolitionRate crash wreck fall' x) + ∫ x in Ioi (0 : ℝ), Spec.collapseRate crash fall' x := by
  rw [← integral_add wreck_answers.1 crash_answers.1]
  refine integral_congr_ae (ae_of_all _ fun x => ?_)
  simp only [Spec.demolitionRate, Spec.pDemolition, Spec.collapseRate, wreck, Spec.pCollapse]
  ring

theorem wreck_meant : ∀ q ∈ wreck, Spec.Meant q.1 q.2.1 q.2.2.1 q.2.2.2 ∧ 0 < q.2.2.2 := by
  intro q hq
  simp only [wreck, Option.mem_def, Option.some.injEq] at hq
  subst hq
  exact ⟨⟨Or.inl rfl, Or.inr (by norm_num)⟩, by norm_num⟩

/-- Collapse is possible. -/
theorem crash_pos : 0 < ∫ x in Ioi (0 : ℝ), Spec.collapseRate crash fall' x := by
  have h4 : ∀ x, 0 < Spec.pCollapse crash x := fun x => Phi_pos _
  have h5 : ∀ x, 0 ≤ Spec.collapseRate crash fall' x := fun x => mul_nonneg (h4 x).le (abs_nonneg _)
  refine lt_of_le_of_ne (integral_nonneg h5) fun h0 => ?_
  have h6 := (integral_eq_zero_iff_of_nonneg (μ := volume.restrict (Ioi (0 : ℝ))) h5 crash_answers.1).1 h0.symm
  have h7 : ∫ x in Ioi (0 : ℝ), |fall' x| = 0 := by
    refine integral_eq_zero_of_ae ?_
    filter_upwards [h6] with x hx
    exact (mul_eq_zero.1 hx).resolve_left (h4 x).ne'
  rw [fall_hazard.total, Function.update_self] at h7
  norm_num at h7

/-- **C95.** Not when the probability of collapse is set after an analysis that reports the rates of an intensity measure:
`SetCollapse` does not forget the rate of demolition (/repo/src/relationships.h:74-86), so the next report has that of
the time when there was no collapse.  With integrals and derivatives without error it is too high by all of the rate of
collapse. -/
theorem remembered_fails (ds : World → Interp.Printed → String) (ev : String → Except Err Val) (fs : Files) (rd : Rec.Row → String) :
    ∃ (p : Gram.Pen) (ls : List (Gram.Style × Cmd)) (text : List Char) (d c : ℝ),
      (∀ q ∈ ls, Gram.OkCmd p q.2) ∧ Lex.Written (Gram.toks (Gram.writeScript p ls)) text ∧ (∀ q ∈ ls, q.2.sound = true) ∧ 0 < c ∧
      let τ := session (plain (integrated Rates.ideal Rates.idealGsl) ds) (bench rd) ev (start {} fs) text
      let τ' := sessionR (integrated Rates.ideal Rates.idealGsl) ds (bench rd) ev (start ({}, {}) fs) text
      τ.2 = none ∧ τ'.2 = none ∧
      τ.1.files "./g2.csv".toList =
        some (([[.text "IM", .text "rate(Demolition)", .text "rate(Collapse)"], [.text "i", .num (.fin d), .num (.fin c)]] :
          List Rec.Row).map rd) ∧
      τ'.1.files "./g2.csv".toList =
        some (([[.text "IM", .text "rate(Demolition)", .text "rate(Collapse)"], [.text "i", .num (.fin (d + c)), .num (.fin c)]] :
          List Rec.Row).map rd) := by
  obtain ⟨p, hi, hf⟩ := Gram.pen_exists
  have hok := belated_ok (p := p) hi hf
  obtain ⟨f, hmk⟩ := belated_curve
  have hag : Agree f fall := hyperbolic_agree hmk
  obtain ⟨u, v, e1, e2, e3, e4⟩ := loss_found (F := ⟨crash.map made, wreck.map made⟩) Rates.idealGsl_ok hag (fun x hx => fall_deriv hx)
    crash_meant wreck_meant rfl rfl crash_answers wreck_answers
  obtain ⟨-, v', -, e2', -, e4'⟩ := loss_found (c := none) (F := ⟨none, wreck.map made⟩) Rates.idealGsl_ok hag (fun x hx => fall_deriv hx)
    (by simp) wreck_meant rfl rfl (ε := 0) (maq := Rates.ideal)
    (ideal_answers (integrableOn_zero.congr (ae_of_all _ fun x => (zero_mul _).symm))) belated_answers
  have hc := sub_eq_zero.1 (abs_nonpos_iff.1 e3)
  have hd := sub_eq_zero.1 (abs_nonpos_iff.1 e4)
  have hd' := sub_eq_zero.1 (abs_nonpos_iff.1 e4')
  rw [belated_more, ← hc, ← hd] at hd'
  obtain ⟨h1, h2, h3, h4⟩ := belated_runs (ds := ds) hmk (integrated Rates.ideal Rates.idealGsl) ev fs rd
  rw [e1, e2] at h3
  rw [e1, e2', hd'] at h4
  refine ⟨p, belated, _, v, u, hok, Gram.script_writable hok, ?_, ?_, ?_⟩
  · intro q hq
    obtain ⟨m, hm, rfl⟩ := List.mem_map.1 hq
    simp only [List.mem_cons, List.not_mem_nil, or_false] at hm
    rcases hm with rfl | rfl | rfl | rfl | rfl | rfl | rfl <;> rfl
  · rw [hc]
    exact crash_pos
  · rw [session, sessionR, Gram.script_read hok (Gram.script_writable hok)]
    exact ⟨h1, h2, h3, h4⟩

end

end Slat.Session
