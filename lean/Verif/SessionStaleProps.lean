import Verif.SessionStaleLemmas
import Verif.SessionMemoryProps
import Verif.SessionStructProps

/-!
# Annual costs that are out of date

C95: after an analysis that reports the annual cost of a structure, other costs of rebuilding or demolition do not reach the
reports.
-/

namespace Slat.Session

open MeasureTheory Set Filter Topology

noncomputable section

open Interp (Val Call Cmd Cfg Err Mu Sd DistCmd Sc)
open Output (Path Files)

variable {N : Numerics} {ds : World → Interp.Printed → String} {M : Machine} {ev : String → Except Err Val}

/-- **C95.** Whatever costs of rebuilding and demolition are set after an analysis, the next one writes to the file of an annual
cost what the first one wrote: `setRebuildCost` and `setDemolitionCost` do not forget the annual cost
(/repo/src/structure.h:42-46). -/
theorem stale_cost_file {p : Gram.Pen} {ls ls₀ : List (Gram.Style × Cmd)} {text text₀ : List Char} {A B C : List Cmd}
    {rid file id : String} {b : Interp.RecBody} {fs : Files} {τ : State (World × Memory)} (hN : N.Separate)
    (hok : ∀ c ∈ ls, Gram.OkCmd p c.2) (ht : Lex.Written (Gram.toks (Gram.writeScript p ls)) text)
    (hl : ls.map (·.2) = A ++ .recorder rid b (some ⟨file, false⟩) :: B ++ .analyze :: (C ++ [.analyze]))
    (hok₀ : ∀ c ∈ ls₀, Gram.OkCmd p c.2) (ht₀ : Lex.Written (Gram.toks (Gram.writeScript p ls₀)) text₀)
    (hl₀ : ls₀.map (·.2) = A ++ .recorder rid b (some ⟨file, false⟩) :: B ++ [.analyze])
    (hs : ∀ m ∈ A ++ .recorder rid b (some ⟨file, false⟩) :: B ++ C, m.sound = true)
    (hset : Spec.Settled (ls₀.map (·.2))) (hy : Spec.Yearwise id b) (hC : ∀ m ∈ C, Priced m)
    (hB : ∀ b' po, Cmd.recorder rid b' po ∉ B)
    (hal : Spec.Alone (Output.dirOf (Spec.directory (A ++ B))) rid file (A ++ B))
    (hr : sessionR N ds M ev (start ({}, {}) fs) text = (τ, none)) :
    ∃ τ₀, sessionR N ds M ev (start ({}, {}) fs) text₀ = (τ₀, none) ∧
      τ.files (Output.fullPath (Output.dirOf (Spec.directory (A ++ B))) file.toList) =
        τ₀.files (Output.fullPath (Output.dirOf (Spec.directory (A ++ B))) file.toList) := by
  rw [sessionR, Gram.script_read hok ht, hl] at hr
  have hsX : ∀ m ∈ A ++ Cmd.recorder rid b (some ⟨file, false⟩) :: B, m.sound = true := fun m hm => hs m (List.mem_append_left _ hm)
  have e : A ++ Cmd.recorder rid b (some ⟨file, false⟩) :: B ++ Cmd.analyze :: (C ++ [Cmd.analyze]) =
      (A ++ Cmd.recorder rid b (some ⟨file, false⟩) :: B ++ [Cmd.analyze]) ++ (C ++ [Cmd.analyze]) := by simp
  rw [e] at hr
  obtain ⟨s₂, τ₀, hs₂, hr₀, hr₂⟩ := runR_append (by
    intro m hm
    rcases List.mem_append.1 hm with h | h
    · exact hsX m h
    · rw [List.mem_singleton.1 h]; rfl) rfl hr
  refine ⟨τ₀, by rw [sessionR, Gram.script_read hok₀ ht₀, hl₀]; exact hr₀, ?_⟩
  obtain ⟨s₁, σ₁, hs₁, hX, hr₁⟩ := runR_append hsX rfl hr₀
  -- the state before the first analysis
  obtain ⟨m₁, hm₁⟩ := runR_same (ds := ds) (M := M) (c := ⟨ev, Gram.preprocessString⟩) hN (A := []) hsX (by
    intro A' B' k id p o he
    rw [hl₀] at hset
    exact hset A' (B' ++ [.analyze]) k id p o (by rw [show A ++ Cmd.recorder rid b (some ⟨file, false⟩) :: B = _ from he]; simp))
    (s := {}) rfl (σ := start {} fs) (m := {}) Keeps.init Noted.init
  have hst : lift (start {} fs) {} = start ({}, {}) fs := rfl
  rw [hst, hX] at hm₁
  obtain ⟨e1, e2⟩ := Prod.mk.inj hm₁
  have hpl : run (plain N ds) M ⟨ev, Gram.preprocessString⟩ (A ++ .recorder rid b (some ⟨file, false⟩) :: B) {} (start {} fs) =
      ((run (plain N ds) M ⟨ev, Gram.preprocessString⟩ (A ++ .recorder rid b (some ⟨file, false⟩) :: B) {} (start {} fs)).1, none) :=
    Prod.ext rfl e2.symm
  generalize (run (plain N ds) M ⟨ev, Gram.preprocessString⟩ (A ++ .recorder rid b (some ⟨file, false⟩) :: B) {} (start {} fs)).1 = σB at hpl e1
  subst e1
  obtain ⟨sA, σA, hA1, hA2, hA3⟩ := run_append (fun m hm => hsX m (by simp [hm])) rfl hpl
  obtain ⟨k, s₃, σ₃, h1, h2, h3, h4, -⟩ := run_cons (hsX _ (by simp)) hA1 hA3
  have hKA : Kept A σA := by
    simpa using (Kept.init (W := World) {} fs).run (fun m hm => hsX m (by simp [hm])) rfl hA2
  have hK1 := hKA.step h1 h3
  obtain ⟨cv, av, hcv, rfl⟩ := recorder_calls h1
  simp only [execAll, exec] at h3
  cases hrec : record (plain N ds) M σA rid b.type b.registry b.id (b.options (some ⟨file, false⟩)) cv av with
  | error e => rw [hrec] at h3; cases h3
  | ok σ₂ =>
    rw [hrec] at h3
    cases h3
    obtain ⟨k, cs, as, r, hcs, has, hk, hmk, e⟩ := record_ok hrec
    have hKB : Kept (A ++ [.recorder rid b (some ⟨file, false⟩)] ++ B) σB := hK1.run (fun m hm => hsX m (by simp [hm])) h2 h4
    have hin : (rid, Held.mk r ((plain N ds).find σA.lib b.registry b.id) (some file.toList) false) ∈ σB.recs := by
      refine stays hK1 (fun m hm => hsX m (by simp [hm])) h2 h4 hB ?_
      rw [e]
      exact (dictSet_mem hKA.nodup _ _ _ _).2 (Or.inl ⟨rfl, by simp [Interp.RecBody.options]⟩)
    have hdir : Output.dirOf σB.outDir = Output.dirOf (Spec.directory (A ++ B)) := by
      rw [hKB.dir]
      simp [Spec.directory, List.filterMap_append]
    have halone : ∀ i hd, (i, hd) ∈ σB.recs → i ≠ rid → ∀ p, hd.file = some p →
        Output.fullPath (Output.dirOf (Spec.directory (A ++ B))) p ≠
          Output.fullPath (Output.dirOf (Spec.directory (A ++ B))) file.toList := by
      intro i hd hi hne p hp
      obtain ⟨b', po, hb', rfl⟩ := hKB.files i hd hi p hp
      refine hal i b' po ?_ hne
      simp only [List.mem_append, List.mem_singleton, Cmd.recorder.injEq] at hb'
      rcases hb' with (hb' | hb') | hb'
      · simp [hb']
      · exact absurd hb'.1 hne
      · simp [hb']
    obtain ⟨p1, p2⟩ := make_parts hmk
    have hkind : r.kind = .structcost ∧ (r.opts.structType = some .annual ∨ r.opts.structType = some .npv) := by
      rw [p1, p2]
      have hst : kindOf "structcost" = some .structcost := by decide
      cases b with
      | annual i po cs => exact ⟨Option.some.inj (hk.symm.trans hst), Or.inl rfl⟩
      | npv i => exact ⟨Option.some.inj (hk.symm.trans hst), Or.inr rfl⟩
      | _ => cases hy
    -- the two analyses
    obtain ⟨τ₁, ha₁, hτ₀⟩ := analysis_ends hs₁ hr₁
    obtain ⟨f1, f2, f3, f4⟩ := analyze_writes ha₁ hdir hKB.nodup hin rfl rfl halone
    obtain ⟨s₄, w', hs₄, hr₄, hkeep⟩ := priced_keeps (fun x hx => ⟨hC x hx, hs x (List.mem_append_right _ hx)⟩) hs₂ hr₂
    obtain ⟨τ₂, ha₂, hτ⟩ := analysis_ends hs₄ hr₄
    subst hτ₀
    subst hτ
    obtain ⟨g1, -⟩ := analyze_writes (dir := Output.dirOf (Spec.directory (A ++ B))) ha₂ (by
      show Output.dirOf τ₁.outDir = _
      rw [f4]
      exact hdir) (by
      show (τ₁.recs.map Prod.fst).Nodup
      rw [f3]
      exact hKB.nodup) (by
      show _ ∈ τ₁.recs
      rw [f3]
      exact hin) rfl rfl (by
      intro i hd hi
      refine halone i hd ?_
      have : (i, hd) ∈ τ₁.recs := hi
      rw [f3] at this
      exact this)
    show τ₂.files _ = τ₁.files _
    rw [g1, f1]
    exact congrArg (fun x => some x.out) (stale_run hkind.1 hkind.2 hin hkeep f2)

/-- A script:

    (the commands of `estate`)
    recorder t4 structcost st --npv 10, 10, 40, 0.1 --file p4;
    democost st 800.0, 0.4 --mu mean_x --sd sd_ln_x;
-/
def lone : List Cmd := estate ++ [claim4, razing]

/-- Then:

    analyze;
    rebcost st 2000.0, 0.4 --mu mean_x --sd sd_ln_x;
    analyze;
-/
def reprice : Cmd := .dist .rebuildCost "st" ⟨.num (.flt 2000), .num (.flt (2/5))⟩ ⟨some .mean, some .sdLn⟩

/-- See `reprice`. -/
def repriced : List (Gram.Style × Cmd) := (lone ++ [Cmd.analyze] ++ [reprice, Cmd.analyze]).map fun c => ({}, c)

/-- Up to the first analysis. -/
def priced : List (Gram.Style × Cmd) := (lone ++ [Cmd.analyze]).map fun c => ({}, c)

theorem repriced_ok {p : Gram.Pen} (hi : ∀ n, p.OkI n) (hf : ∀ x, Gram.Decimal x → p.OkF x) :
    ∀ c ∈ repriced, Gram.OkCmd p c.2 := by
  intro c hc
  obtain ⟨m, hm, rfl⟩ := List.mem_map.1 hc
  have old : ∀ m ∈ claims, Gram.OkCmd p m := fun m hm => deed_ok hi hf ({}, m) (List.mem_map.2 ⟨m, by simp [hm], rfl⟩)
  have hst : Gram.OkCmd p razing := old _ (by simp [claims])
  simp only [lone, List.append_assoc, List.cons_append, List.nil_append, List.mem_append, List.mem_cons, List.not_mem_nil,
    or_false] at hm
  rcases hm with hm | rfl | rfl | rfl | rfl | rfl
  · exact old _ (by simp [claims, hm])
  · exact old _ (by simp [claims])
  · exact hst
  · trivial
  · exact ⟨hst.1, hf _ ⟨20000, 1, by norm_num⟩, hst.2.2⟩
  · trivial

theorem lone_fine {rd : Rec.Row → String} : Spec.WellFormed (bench rd) (repriced.map (·.2)).reverse := by
  have e : (repriced.map (·.2)).reverse = .analyze :: reprice :: .analyze :: lone.reverse := by simp [repriced]
  rw [e]
  have base : Spec.WellFormed (bench rd) estate.reverse := by
    have h := claims_fine (rd := rd)
    have e' : (deed.map (·.2)).reverse = [.analyze, razing, claim5, claim4, claim3, claim2, claim1] ++ estate.reverse := by
      simp [deed, claims]
    rw [e'] at h
    exact wellFormed_suffix h
  have e2 : lone.reverse = razing :: claim4 :: estate.reverse := by simp [lone]
  rw [e2]
  refine ⟨?_, ?_, ?_, ?_, ?_, base⟩
  · intro i b po _; rfl
  · exact ⟨rfl, rfl, rfl⟩
  · intro i b po _; rfl
  · exact ⟨rfl, rfl, rfl⟩
  · exact Or.inl ⟨⟨ours, [single], rfl⟩, rfl⟩

theorem lone_sound : ∀ m ∈ lone, m.sound = true := fun m hm => claims_sound m (by
  simp only [lone, List.mem_append, List.mem_cons, List.not_mem_nil, or_false] at hm
  simp only [claims, List.mem_append, List.mem_cons, List.not_mem_nil, or_false]
  tauto)

theorem lone_recs {i : String} {b : Interp.RecBody} {po : Option Interp.PrintOpts} (h : Cmd.recorder i b po ∈ lone) :
    i = "t4" ∧ b = .npv "st" 10 10 40 (1/10) ∧ po = some ⟨"p4", false⟩ := by
  simpa [lone, estate, posted, claim4, razing] using h

theorem priced_settled : Spec.Settled (lone ++ [.analyze]) :=
  settled_once (by simp [lone, estate, posted, claim4, razing])

/-- The cost of rebuilding in the end. -/
def rebuilt' : Option (Mu × Sd × ℝ × ℝ) := some (.mean, .sdLn, ((2000 : ℚ) : ℝ), ((2/5 : ℚ) : ℝ))

theorem repriced_covered : Spec.Covered crash wreck rebuilt' razed where
  collapse := claims_covered.collapse
  demolition := claims_covered.demolition
  rebuild := by
    intro q hq
    simp only [rebuilt', Option.mem_def, Option.some.injEq] at hq
    subst hq
    exact ⟨Or.inr (by norm_num), Or.inr (by norm_num)⟩
  clear := claims_covered.clear
  price _ := rfl
  fee _ := rfl

theorem rebuilt'_mean : (Spec.costOf rebuilt').1 = 2000 := by
  simp only [rebuilt', Spec.costOf, Spec.mean, Spec.logPair]
  norm_num [Real.exp_log]

/-- The difference in the price counts as often as the structure collapses. -/
theorem repriced_more : Spec.perYear (Spec.meanTotal crash wreck rebuilt' razed [ours, single]) fall' =
    Spec.perYear (Spec.meanTotal crash wreck rebuilt razed [ours, single]) fall' +
      1000 * ∫ x in Ioi (0 : ℝ), Spec.collapseRate crash fall' x := by
  rw [← integral_const_mul, Spec.perYear, Spec.perYear, ← integral_add (by
    simp only [damages_mean]
    exact (damages_integrable rebuilt).1) (crash_answers.1.const_mul 1000)]
  refine integral_congr_ae (ae_of_all _ fun x => ?_)
  simp only [Spec.meanTotal, rebuilt_mean, rebuilt'_mean, Spec.collapseRate]
  ring

/-- The table of discounted costs. -/
def discounts (rd : Rec.Row → String) (m : ℝ) : List String :=
  ([[.text "Year", .text "E[ALt]"],
    [.int 10, .num (.fin (∫ t in (0 : ℝ)..10, m * Real.exp (-(1/10) * t)))],
    [.int 20, .num (.fin (∫ t in (0 : ℝ)..20, m * Real.exp (-(1/10) * t)))],
    [.int 30, .num (.fin (∫ t in (0 : ℝ)..30, m * Real.exp (-(1/10) * t)))]] : List Rec.Row).map rd

theorem three_years {ys : List ℕ} (h2 : ys.Pairwise (· < ·)) (h3 : ∀ y, y ∈ ys ↔ 10 ≤ y ∧ y < 40 ∧ 10 ∣ y - 10) :
    ys = [10, 20, 30] := by
  refine List.Perm.eq_of_pairwise (le := (· < ·)) (by intro a b _ _ h1 h2; omega) h2 (by decide) ?_
  refine (List.perm_ext_iff_of_nodup (h2.imp fun h => ne_of_lt h) (by decide)).2 fun y => ?_
  rw [h3]
  simp only [List.mem_cons, List.not_mem_nil, or_false]
  omega

theorem discounts_eq (rd : Rec.Row → String) (m : ℝ) :
    (([.text "Year", .text "E[ALt]"] :: [10, 20, 30].map fun y : ℕ =>
      [.int y, .num (.fin (∫ t in (0 : ℝ)..y, m * Real.exp (-((1/10 : ℚ) : ℝ) * t)))] : List Rec.Row).map rd) =
      discounts rd m := by
  simp only [List.map_cons, List.map_nil, discounts]
  norm_num

theorem lone_eq : lone = estate ++ .recorder "t4" (.npv "st" 10 10 40 (1/10)) (some ⟨"p4", false⟩) :: [razing] := by
  simp [lone, claim4]

theorem repriced_sound : ∀ m ∈ lone ++ [Cmd.analyze, reprice], m.sound = true := by
  intro m hm
  rcases List.mem_append.1 hm with h | h
  · exact lone_sound m h
  · simp only [List.mem_cons, List.not_mem_nil, or_false] at h
    rcases h with rfl | rfl <;> rfl

theorem lone_alone {B : List Cmd} (hB : ∀ i b po, Cmd.recorder i b po ∉ B) (dir : List Char) :
    Spec.Alone dir "t4" "p4" (estate ++ B) := by
  intro i b po hm hne
  rcases List.mem_append.1 hm with h | h
  · exact absurd (lone_recs (List.mem_append_left _ h)).1 hne
  · exact absurd h (hB _ _ _)

theorem repriced_cmds : repriced.map (·.2) = lone ++ [.analyze] ++ [reprice, .analyze] := by simp [repriced]

theorem priced_cmds : priced.map (·.2) = lone ++ [.analyze] := by simp [priced]

/-- What the file should be. -/
theorem repriced_plain {ds : World → Interp.Printed → String} {ev : String → Except Err Val} {fs : Files}
    {rd : Rec.Row → String} {p : Gram.Pen} {text : List Char} {σ : State World} (hok : ∀ c ∈ repriced, Gram.OkCmd p c.2)
    (ht : Lex.Written (Gram.toks (Gram.writeScript p repriced)) text)
    (hσ : session (plain (integrated Rates.ideal Rates.idealGsl) ds) (bench rd) ev (start {} fs) text = (σ, none)) :
    σ.files "out/p4.csv".toList =
      some (discounts rd (Spec.perYear (Spec.meanTotal crash wreck rebuilt' razed [ours, single]) fall')) := by
  have hno : ∀ i b po, Cmd.recorder i b po ∉ [razing, .analyze, reprice] := by simp [razing, reprice]
  obtain ⟨m, ys, _, a1, a2, a3, a4⟩ := present_cost_computed (ε := 0) (ε' := 0) (h' := fall') (A := estate)
    (B := [razing, .analyze, reprice]) (C := []) (rid := "t4") (file := "p4") (id := "st")
    (first := 10) (incr := 10) (last := 40) (rate := 1/10)
    hok ht (by rw [repriced_cmds, lone_eq]; simp) (by
      intro m hm
      refine repriced_sound m ?_
      rw [lone_eq]
      simpa using hm) hσ
    (fun b po => hno "t4" b po) (lone_alone hno _) trivial (G := ours) (Gs := [single]) (h := fall) (c := crash) (d := wreck)
    (r := rebuilt') (k := razed) (by simp [razing, reprice]) ⟨rfl, rfl, rfl, rfl, rfl, rfl⟩ repriced_covered Rates.idealGsl_ok
    (fun x hx => fall_deriv hx) (fun x _ => claims_fates x) (fun x _ => claims_payable x) (yearly_by rebuilt')
    (by norm_num) (by norm_num)
  rw [three_years a2 a3] at a4
  rw [mul_zero, zero_mul, add_zero] at a1
  rw [← sub_eq_zero.1 (abs_nonpos_iff.1 a1), ← discounts_eq]
  exact a4

/-- What it was. -/
theorem priced_file {ds : World → Interp.Printed → String} {ev : String → Except Err Val} {fs : Files}
    {rd : Rec.Row → String} {p : Gram.Pen} {text : List Char} {τ : State (World × Memory)}
    (hok : ∀ c ∈ priced, Gram.OkCmd p c.2) (ht : Lex.Written (Gram.toks (Gram.writeScript p priced)) text)
    (hτ : sessionR (integrated Rates.ideal Rates.idealGsl) ds (bench rd) ev (start ({}, {}) fs) text = (τ, none)) :
    ∃ m : ℝ, 0 < m ∧ m = Spec.perYear (Spec.meanTotal crash wreck rebuilt razed [ours, single]) fall' ∧
      τ.files "out/p4.csv".toList = some (discounts rd m) := by
  have hno : ∀ i b po, Cmd.recorder i b po ∉ [razing] := by simp [razing]
  obtain ⟨m, ys, _, b1, b2, b3, b4⟩ := present_cost_file_partial (ε := 0) (ε' := 0) (h' := fall') (A := estate)
    (B := [razing]) (C := []) (rid := "t4") (file := "p4") (id := "st")
    (first := 10) (incr := 10) (last := 40) (rate := 1/10)
    hok ht (by rw [priced_cmds, lone_eq]) (by
      intro m hm
      refine lone_sound m ?_
      rw [lone_eq]
      simpa using hm) hτ (by rw [priced_cmds]; exact priced_settled)
    (fun b po => hno "t4" b po) (lone_alone hno _) trivial (G := ours) (Gs := [single]) (h := fall) (c := crash) (d := wreck)
    (r := rebuilt) (k := razed) (by simp [razing]) ⟨rfl, rfl, rfl, rfl, rfl, rfl⟩ claims_covered Rates.idealGsl_ok
    (fun x hx => fall_deriv hx) (fun x _ => claims_fates x) (fun x _ => claims_payable x) claims_yearly
    (by norm_num) (by norm_num)
  rw [three_years b2 b3] at b4
  rw [mul_zero, zero_mul, add_zero] at b1
  have hm := sub_eq_zero.1 (abs_nonpos_iff.1 b1)
  refine ⟨m, ?_, hm, ?_⟩
  · rw [hm]
    simp only [Spec.perYear, damages_mean]
    exact damages_yearly rebuilt
  rw [← discounts_eq]
  exact b4

/-- The script ends, with and without memory. -/
theorem repriced_ends {p : Gram.Pen} {text : List Char} (hok : ∀ c ∈ repriced, Gram.OkCmd p c.2)
    (ht : Lex.Written (Gram.toks (Gram.writeScript p repriced)) text) (ds : World → Interp.Printed → String)
    (ev : String → Except Err Val) (fs : Files) (rd : Rec.Row → String) :
    (∃ σ, session (plain (integrated Rates.ideal Rates.idealGsl) ds) (bench rd) ev (start {} fs) text = (σ, none)) ∧
      ∃ τ, sessionR (integrated Rates.ideal Rates.idealGsl) ds (bench rd) ev (start ({}, {}) fs) text = (τ, none) := by
  obtain ⟨σ, hσ⟩ := well_formed_ends_partial (N := integrated Rates.ideal Rates.idealGsl) (ds := ds) (M := bench rd)
    hok ht lone_fine ev fs
  refine ⟨⟨σ, hσ⟩, ?_⟩
  have h := hσ
  rw [session, Gram.script_read hok ht, repriced_cmds] at h
  rw [sessionR, Gram.script_read hok ht, repriced_cmds]
  refine yearly_ends (integrated_separate _ _) lone_sound trivial rfl priced_settled ?_ h
  intro i b po hm
  rw [(lone_recs hm).2.1]
  rfl

/-- What is left is what the first analysis wrote. -/
theorem repriced_stale {ds : World → Interp.Printed → String} {ev : String → Except Err Val} {fs : Files}
    {rd : Rec.Row → String} {p : Gram.Pen} {text text₀ : List Char} {τ : State (World × Memory)}
    (hok : ∀ c ∈ repriced, Gram.OkCmd p c.2) (ht : Lex.Written (Gram.toks (Gram.writeScript p repriced)) text)
    (hok₀ : ∀ c ∈ priced, Gram.OkCmd p c.2) (ht₀ : Lex.Written (Gram.toks (Gram.writeScript p priced)) text₀)
    (hτ : sessionR (integrated Rates.ideal Rates.idealGsl) ds (bench rd) ev (start ({}, {}) fs) text = (τ, none)) :
    ∃ τ₀, sessionR (integrated Rates.ideal Rates.idealGsl) ds (bench rd) ev (start ({}, {}) fs) text₀ = (τ₀, none) ∧
      τ.files "out/p4.csv".toList = τ₀.files "out/p4.csv".toList := by
  have hno : ∀ i b po, Cmd.recorder i b po ∉ [razing] := by simp [razing]
  exact stale_cost_file (ls₀ := priced) (text₀ := text₀) (A := estate) (B := [razing]) (C := [reprice])
    (rid := "t4") (file := "p4") (id := "st") (b := .npv "st" 10 10 40 (1/10)) (integrated_separate _ _) hok ht
    (by rw [repriced_cmds, lone_eq]; simp) hok₀ ht₀ (by rw [priced_cmds, lone_eq]) (by
      intro m hm
      refine repriced_sound m ?_
      rw [lone_eq]
      simp only [List.mem_append, List.mem_cons, List.not_mem_nil, or_false] at hm ⊢
      tauto) (by rw [priced_cmds]; exact priced_settled) rfl (by
      intro m hm
      rw [List.mem_singleton.1 hm]
      trivial) (fun b po => hno "t4" b po) (lone_alone hno _) hτ

/-- `stale_cost_file`, for the script: there is such a text, the session ends, and the file is that of the script up to the first
analysis. -/
example (ds : World → Interp.Printed → String) (ev : String → Except Err Val) (fs : Files) (rd : Rec.Row → String) :
    ∃ (p : Gram.Pen) (text text₀ : List Char) (τ τ₀ : State (World × Memory)),
      Lex.Written (Gram.toks (Gram.writeScript p repriced)) text ∧ Lex.Written (Gram.toks (Gram.writeScript p priced)) text₀ ∧
      sessionR (integrated Rates.ideal Rates.idealGsl) ds (bench rd) ev (start ({}, {}) fs) text = (τ, none) ∧
      sessionR (integrated Rates.ideal Rates.idealGsl) ds (bench rd) ev (start ({}, {}) fs) text₀ = (τ₀, none) ∧
      τ.files "out/p4.csv".toList = τ₀.files "out/p4.csv".toList := by
  obtain ⟨p, hi, hf⟩ := Gram.pen_exists
  have hok := repriced_ok hi hf
  have hok₀ : ∀ c ∈ priced, Gram.OkCmd p c.2 := by
    intro c hc
    refine hok c ?_
    rw [repriced, List.map_append]
    exact List.mem_append_left _ hc
  have ht := Gram.script_writable hok
  have ht₀ := Gram.script_writable hok₀
  obtain ⟨-, τ, hτ⟩ := repriced_ends hok ht ds ev fs rd
  obtain ⟨τ₀, h₀, hf⟩ := repriced_stale hok ht hok₀ ht₀ hτ
  exact ⟨p, _, _, τ, τ₀, ht, ht₀, hτ, h₀, hf⟩

/-- **C95.** Not when the cost of rebuilding is set after an analysis that reports the annual cost: the next report has
the old one.  In the script it is doubled from 1000 to 2000, and the costs reported then are too low by 1000 for every collapse
to be expected. -/
theorem remembered_cost_fails (ds : World → Interp.Printed → String) (ev : String → Except Err Val) (fs : Files)
    (rd : Rec.Row → String) :
    ∃ (p : Gram.Pen) (ls : List (Gram.Style × Cmd)) (text : List Char) (m c : ℝ),
      (∀ q ∈ ls, Gram.OkCmd p q.2) ∧ Lex.Written (Gram.toks (Gram.writeScript p ls)) text ∧ (∀ q ∈ ls, q.2.sound = true) ∧
      0 < m ∧ 0 < c ∧
      let τ := session (plain (integrated Rates.ideal Rates.idealGsl) ds) (bench rd) ev (start {} fs) text
      let τ' := sessionR (integrated Rates.ideal Rates.idealGsl) ds (bench rd) ev (start ({}, {}) fs) text
      τ.2 = none ∧ τ'.2 = none ∧ τ.1.files "out/p4.csv".toList = some (discounts rd (m + 1000 * c)) ∧
      τ'.1.files "out/p4.csv".toList = some (discounts rd m) := by
  obtain ⟨p, hi, hf⟩ := Gram.pen_exists
  have hok := repriced_ok hi hf
  have hok₀ : ∀ c ∈ priced, Gram.OkCmd p c.2 := by
    intro c hc
    refine hok c ?_
    rw [repriced, List.map_append]
    exact List.mem_append_left _ hc
  obtain ⟨text, ht⟩ : ∃ text, Lex.Written (Gram.toks (Gram.writeScript p repriced)) text := ⟨_, Gram.script_writable hok⟩
  obtain ⟨text₀, ht₀⟩ : ∃ text, Lex.Written (Gram.toks (Gram.writeScript p priced)) text := ⟨_, Gram.script_writable hok₀⟩
  obtain ⟨⟨σ, hσ⟩, τ, hτ⟩ := repriced_ends hok ht ds ev fs rd
  obtain ⟨τ₀, hτ₀, hfile⟩ := repriced_stale hok ht hok₀ ht₀ hτ
  obtain ⟨m, m0, hm, hold⟩ := priced_file hok₀ ht₀ hτ₀
  have hnew := repriced_plain hok ht hσ
  rw [repriced_more, ← hm] at hnew
  refine ⟨p, repriced, text, m, ∫ x in Ioi (0 : ℝ), Spec.collapseRate crash fall' x, hok, ht, ?_, m0, crash_pos, ?_⟩
  · intro q hq
    have : q.2 ∈ repriced.map (·.2) := List.mem_map.2 ⟨q, hq, rfl⟩
    rw [repriced_cmds] at this
    have h2 : q.2 ∈ lone ++ [Cmd.analyze, reprice] := by
      simp only [List.mem_append, List.mem_cons, List.not_mem_nil, or_false] at this ⊢
      tauto
    exact repriced_sound _ h2
  · rw [hσ, hτ]
    exact ⟨rfl, rfl, hnew, hfile.trans hold⟩

end

end Slat.Session
