import Verif.SessionSplitLemmas

/-!
# Helper lemmas: a script with costs by demand and by fragility function

The examples of `SessionSplitProps` use it.
-/

namespace Slat.Session

open MeasureTheory Set Filter Topology

noncomputable section

open Interp (Val Call Cmd Cfg Err Mu Sd DistCmd Sc)
open Output (Path Files)

variable {rd : Rec.Row → String}

/-- A script:

    (the commands of `posted`)
    edp e2 i pf;
    fragfn fg [0.5, 0.3], [1.0, 0.3] --mu median_x --sd sd_ln_x;
    compgroup jj e2 fg kk dd 1;
    structure st --cg gg jj hh;
    recorder u1 structcost st --by_edp --at 0.5, 2.0 --cols sd_ln_x, mean_x --file v1;
    recorder u2 structcost st --by_frag --at 0.5, 2.0 --file v2;
-/
def parish : List Cmd := posted ++
  [.edp "e2" "i" "pf",
    .fragfnUser "fg" [⟨.num (.flt (1/2)), .num (.flt (3/10))⟩, ⟨.num (.flt 1), .num (.flt (3/10))⟩]
      ⟨some .median, some .sdLn⟩,
    .compgroup "jj" "e2" "fg" "kk" (some "dd") 1 [],
    .structure_ "st" ["gg", "jj", "hh"]]

/-- See `parish`. -/
def tithe1 : Cmd :=
  .recorder "u1" (.by_ .edp "st" (.floats [1/2, 2]) (some [.spread .sdLn, .placement .mean])) (some ⟨"v1", false⟩)
/-- See `parish`. -/
def tithe2 : Cmd := .recorder "u2" (.by_ .frag "st" (.floats [1/2, 2]) none) (some ⟨"v2", false⟩)

/-- See `parish`. -/
def tithes : List Cmd := parish ++ [tithe1, tithe2]

/-- The script written down. -/
def roll : List (Gram.Style × Cmd) := (tithes ++ [Cmd.analyze]).map fun c => ({}, c)

/-- The group with the second demand and the second fragility function. -/
def newcomer : Spec.Components := { single with demand := "e2", fragility := "fg" }

theorem roll_ok {p : Gram.Pen} (hi : ∀ n, p.OkI n) (hf : ∀ x, Gram.Decimal x → p.OkF x) :
    ∀ c ∈ roll, Gram.OkCmd p c.2 := by
  have n : ∀ s ∈ ["e2", "i", "pf", "fg", "jj", "kk", "dd", "st", "gg", "hh", "u1", "u2", "v1", "v2"], Gram.OkName s := by
    have h : ∀ s ∈ ["e2", "i", "pf", "fg", "jj", "kk", "dd", "st", "gg", "hh", "u1", "u2", "v1", "v2"],
        (match s.toList with
        | [] => false
        | c :: r => Lex.nondigit c && r.all fun d => Lex.nondigit d || Lex.digit d) = true ∧
        (∀ q ∈ Lex.vocabulary, q.2.toList ≠ s.toList) ∧ ¬ "loglog".toList <+: s.toList := by
      decide +kernel
    exact fun s hs => Gram.okName (h s hs).1 (h s hs).2.1 (h s hs).2.2
  have hto : ∀ s ∈ ["v1", "v2"], Gram.OkTo (some ⟨s, false⟩) := by
    intro s hs q hq
    simp only [Option.mem_def, Option.some.injEq] at hq
    subst hq
    have h1 : ∀ s ∈ ["v1", "v2"], '/' ∉ s.toList := by decide
    show Gram.OkFile s
    unfold Gram.OkFile
    rw [if_neg (h1 s hs)]
    exact n s (by revert s; decide)
  have dec : ∀ z : ℤ, ∀ x : ℚ, x = z / 10 → p.OkF x := fun z x h => hf x ⟨z, 1, by rw [h]; norm_num⟩
  have hat : Gram.OkAt p (.floats [1/2, 2]) := by
    refine ⟨by simp, ?_⟩
    intro x hx
    simp only [List.mem_cons, List.not_mem_nil, or_false] at hx
    rcases hx with rfl | rfl
    · exact dec 5 _ (by norm_num)
    · exact dec 20 _ (by norm_num)
  have old : ∀ m ∈ posted, Gram.OkCmd p m := fun m hm =>
    bill_ok hi hf ({}, m) (List.mem_map.2 ⟨m, by simp [orders, hm], rfl⟩)
  have hff : ∀ i, Gram.OkName i → Gram.OkCmd p (.fragfnUser i [⟨.num (.flt (1/2)), .num (.flt (3/10))⟩,
      ⟨.num (.flt 1), .num (.flt (3/10))⟩] ⟨some .median, some .sdLn⟩) := by
    intro i hi'
    obtain ⟨-, h⟩ := old (.fragfnUser "ff" [⟨.num (.flt (1/2)), .num (.flt (3/10))⟩,
      ⟨.num (.flt 1), .num (.flt (3/10))⟩] ⟨some .median, some .sdLn⟩) (by simp [posted])
    exact ⟨hi', h⟩
  have hcg : ∀ i e f k d, Gram.OkName i → Gram.OkName e → Gram.OkName f → Gram.OkName k → Gram.OkName d →
      Gram.OkCmd p (.compgroup i e f k (some d) 1 []) := by
    intro i e f k d h1 h2 h3 h4 h5
    have := old (.compgroup "hh" "e" "ff" "kk" (some "dd") 1 []) (by simp [posted])
    simp only [Gram.OkCmd] at this ⊢
    simp_all
  intro c hc
  obtain ⟨m, hm, rfl⟩ := List.mem_map.1 hc
  simp only [tithes, parish, tithe1, tithe2, List.append_assoc, List.cons_append,
    List.nil_append, List.mem_append, List.mem_cons, List.not_mem_nil, or_false] at hm
  rcases hm with hm | rfl | rfl | rfl | rfl | rfl | rfl | rfl
  · exact old _ hm
  · exact ⟨n _ (by decide), n _ (by decide), n _ (by decide)⟩
  · exact hff _ (n _ (by decide))
  · exact hcg _ _ _ _ _ (n _ (by decide)) (n _ (by decide)) (n _ (by decide)) (n _ (by decide)) (n _ (by decide))
  · refine ⟨n _ (by decide), by simp, ?_⟩
    intro g hg
    simp only [List.mem_cons, List.not_mem_nil, or_false] at hg
    rcases hg with rfl | rfl | rfl <;> exact n _ (by decide)
  · refine ⟨n _ (by decide), ⟨n _ (by decide), hat, ?_⟩, hto _ (by decide)⟩
    intro l hl
    simp only [Option.mem_def, Option.some.injEq] at hl
    subst hl
    simp
    trivial
  · exact ⟨n _ (by decide), ⟨n _ (by decide), hat, by intro l hl; cases hl⟩, hto _ (by decide)⟩
  · trivial

theorem tithes_fine : Spec.WellFormed (bench rd) (roll.map (·.2)).reverse := by
  have e : (roll.map (·.2)).reverse = .analyze :: tithes.reverse := by simp [roll]
  rw [e]
  have base : Spec.WellFormed (bench rd) posted.reverse := by
    have h := orders_fine (rd := rd)
    have e' : (bill.map (·.2)).reverse =
        [.analyze, want8, want7, want6, want5, want4, want3, want2, want1] ++ posted.reverse := by
      simp [bill, orders]
    rw [e'] at h
    exact wellFormed_suffix h
  refine ⟨?_, ?_, ?_, ?_, ?_, ?_, ?_, base⟩
  · intro i b po _; rfl
  · exact Or.inl ⟨⟨ours, [newcomer, single], rfl⟩, (fun l hl => by cases hl), by simp, rfl⟩
  · refine Or.inl ⟨⟨ours, [newcomer, single], rfl⟩, ?_, by simp, rfl⟩
    intro l hl c hc
    simp only [Option.mem_def, Option.some.injEq] at hl
    subst hl
    simp only [List.mem_cons, List.not_mem_nil, or_false] at hc
    exact hc.symm
  · refine ⟨⟨"i", ?_⟩, fun gs h => by
      revert h
      simp [posted]⟩
    intro k hk
    simp only [List.mem_cons, List.not_mem_nil, or_false] at hk
    rcases hk with rfl | rfl | rfl
    · exact ⟨ours, rfl, rfl⟩
    · exact ⟨newcomer, rfl, rfl⟩
    · exact ⟨single, rfl, rfl⟩
  · refine ⟨rfl, rfl, rfl, ?_, by norm_num [Spec.Small], by simp [posted]⟩
    intro s hs
    simp only [Option.mem_def, Option.some.injEq] at hs
    subst hs
    rfl
  · refine ⟨⟨_, rfl, by simp, ?_, ?_⟩, by simp [posted]⟩
    · intro q hq
      simp only [List.mem_cons, List.not_mem_nil, or_false] at hq
      rcases hq with rfl | rfl <;> exact ⟨Or.inl rfl, Or.inr (by norm_num)⟩
    · simp only [List.map_cons, List.map_nil, List.pairwise_cons, List.mem_singleton, forall_eq, List.not_mem_nil,
        false_implies, implies_true, List.Pairwise.nil, and_true, Spec.logPair]
      exact Real.log_lt_log (by norm_num) (by norm_num)
  · exact ⟨rfl, rfl, by simp [posted]⟩

theorem tithes_sound : ∀ m ∈ tithes, m.sound = true := by
  simp [tithes, parish, posted, tithe1, tithe2, Interp.Cmd.sound, Interp.FnRef.plain]

theorem roll_settled : Spec.Settled (roll.map (·.2)) := by
  have e : roll.map (·.2) = tithes ++ [.analyze] := by simp [roll]
  rw [e]
  exact settled_once (by simp [tithes, parish, posted, tithe1, tithe2])

theorem roll_session {N : Numerics} (hN : N.Separate) (ds : World → Interp.Printed → String) (ev : String → Except Err Val)
    (fs : Files) : ∃ (p : Gram.Pen) (text : List Char) (τ : State (World × Memory)), (∀ c ∈ roll, Gram.OkCmd p c.2) ∧
      Lex.Written (Gram.toks (Gram.writeScript p roll)) text ∧
      sessionR N ds (bench rd) ev (start ({}, {}) fs) text = (τ, none) := by
  obtain ⟨p, hi, hf⟩ := Gram.pen_exists
  obtain ⟨σ, h⟩ := well_formed_ends_partial (N := N) (ds := ds) (M := bench rd) (roll_ok hi hf)
    (Gram.script_writable (roll_ok hi hf)) tithes_fine ev fs
  obtain ⟨τ, h'⟩ := recalls hN (roll_ok hi hf) (Gram.script_writable (roll_ok hi hf)) (by
    have e : roll.map (·.2) = tithes ++ [.analyze] := by simp [roll]
    rw [e]
    intro m hm
    rcases List.mem_append.1 hm with h | h
    · exact tithes_sound m h
    · rw [List.mem_singleton.1 h]; rfl) h roll_settled
  exact ⟨p, _, τ, roll_ok hi hf, Gram.script_writable (roll_ok hi hf), h'⟩

theorem tithes_homes {i : String} {b : Interp.RecBody} {po : Interp.PrintOpts}
    (hm : Cmd.recorder i b (some po) ∈ tithes) :
    (i, po.file) ∈ [("u1", "v1"), ("u2", "v2")] := by
  simp only [tithes, parish, posted, tithe1, tithe2, List.mem_cons, List.not_mem_nil,
    List.cons_append, List.nil_append, reduceCtorEq, Cmd.recorder.injEq, Option.some.injEq, false_or,
    or_false] at hm
  rcases hm with ⟨rfl, rfl, rfl⟩ | ⟨rfl, rfl, rfl⟩ <;> simp

/-- The costs of the groups. -/
def dues (x : ℝ) : List (ℝ × ℝ) :=
  [(billMean x, billSquare x), (billMean x / (15/2), billSquare x / (15/2) ^ 2),
    (billMean x / (15/2), billSquare x / (15/2) ^ 2)]

theorem newcomer_payable {x : ℝ} : Spec.Payable Rates.ideal 0 x newcomer := by
  obtain ⟨h1, h2, h3, h4, h5, h6, h7, h8, h9, h10⟩ := single_payable (x := x)
  exact ⟨h1, h2, h3, h4, h5, h6, h7, h8, h9, h10⟩

theorem tithes_payable (x : ℝ) : ∀ g ∈ [ours, newcomer, single], Spec.Payable Rates.ideal 0 x g := by
  intro g hg
  simp only [List.mem_cons, List.not_mem_nil, or_false] at hg
  rcases hg with rfl | rfl | rfl
  · exact ours_payable
  · exact newcomer_payable
  · exact single_payable

theorem dues_near {x : ℝ} {l : List (ℝ × ℝ)} (h : Spec.Near 0 x [ours, newcomer, single] l) : l = dues x := by
  rcases h with _ | ⟨h1, _ | ⟨h2, _ | ⟨h3, _ | _⟩⟩⟩
  rename_i u v w
  obtain ⟨u1, u2⟩ := u
  obtain ⟨v1, v2⟩ := v
  obtain ⟨w1, w2⟩ := w
  have e1 : Spec.groupMean newcomer x = Spec.groupMean single x := rfl
  have e2 : Spec.groupSquare newcomer x = Spec.groupSquare single x := rfl
  have a1 : u1 = billMean x := sub_eq_zero.1 (abs_nonpos_iff.1 h1.1)
  have a2 : u2 = billSquare x := sub_eq_zero.1 (abs_nonpos_iff.1 h1.2)
  have a3 := sub_eq_zero.1 (abs_nonpos_iff.1 h2.1)
  have a4 := sub_eq_zero.1 (abs_nonpos_iff.1 h2.2)
  have a5 := sub_eq_zero.1 (abs_nonpos_iff.1 h3.1)
  have a6 := sub_eq_zero.1 (abs_nonpos_iff.1 h3.2)
  simp only [e1, (single_found x).1] at a3 a5
  simp only [e2, (single_found x).2] at a4 a6
  rw [a1, a2, a3, a4, a5, a6]
  rfl

end

end Slat.Session
