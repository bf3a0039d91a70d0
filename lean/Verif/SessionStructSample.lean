import Verif.SessionStructLemmas

/-!
# Helper lemmas: a script with a structure

The script of `posted` with a structure, the costs of rebuilding and of demolition, and recorders of the costs.  The examples of
`SessionStructProps` use it.
-/

namespace Slat.Session

open MeasureTheory Set Filter Topology

noncomputable section

open Interp (Val Call Cmd Cfg Err Mu Sd DistCmd Sc)
open Output (Path Files)

variable {rd : Rec.Row → String}

/-- A script:

    (the commands of `posted`)
    structure st --cg gg hh;
    rebcost st 1000.0, 0.4 --mu mean_x --sd sd_ln_x;
    recorder t1 totalcost st --at 0.5, 2.0 --file p1;
    recorder t2 structcost st --by_fate --at 0.5, 2.0 --file p2;
    recorder t3 structcost st --annual --mu mean_x --sd sd_ln_x --file p3;
    recorder t4 structcost st --npv 10, 10, 40, 0.1 --file p4;
    recorder t5 pdf st --at 0.5, 2.0 --file p5;
    democost st 800.0, 0.4 --mu mean_x --sd sd_ln_x;
-/
def estate : List Cmd := posted ++
  [.structure_ "st" ["gg", "hh"],
    .dist .rebuildCost "st" ⟨.num (.flt 1000), .num (.flt (2/5))⟩ ⟨some .mean, some .sdLn⟩]

/-- See `estate`. -/
def claim1 : Cmd := .recorder "t1" (.rates .totalcost "st" (.floats [1/2, 2])) (some ⟨"p1", false⟩)
/-- See `estate`. -/
def claim2 : Cmd := .recorder "t2" (.by_ .fate "st" (.floats [1/2, 2]) none) (some ⟨"p2", false⟩)
/-- See `estate`. -/
def claim3 : Cmd := .recorder "t3" (.annual "st" ⟨some .mean, some .sdLn⟩ none) (some ⟨"p3", false⟩)
/-- See `estate`. -/
def claim4 : Cmd := .recorder "t4" (.npv "st" 10 10 40 (1/10)) (some ⟨"p4", false⟩)
/-- See `estate`. -/
def claim5 : Cmd := .recorder "t5" (.pdf "st" (.floats [1/2, 2]) false) (some ⟨"p5", false⟩)
/-- See `estate`. -/
def razing : Cmd := .dist .demolitionCost "st" ⟨.num (.flt 800), .num (.flt (2/5))⟩ ⟨some .mean, some .sdLn⟩

/-- See `estate`. -/
def claims : List Cmd := estate ++ [claim1, claim2, claim3, claim4, claim5, razing]

/-- The script written down. -/
def deed : List (Gram.Style × Cmd) := (claims ++ [Cmd.analyze]).map fun c => ({}, c)

theorem deed_ok {p : Gram.Pen} (hi : ∀ n, p.OkI n) (hf : ∀ x, Gram.Decimal x → p.OkF x) :
    ∀ c ∈ deed, Gram.OkCmd p c.2 := by
  have n : ∀ s ∈ ["st", "gg", "hh", "t1", "t2", "t3", "t4", "t5", "p1", "p2", "p3", "p4", "p5"], Gram.OkName s := by
    have h : ∀ s ∈ ["st", "gg", "hh", "t1", "t2", "t3", "t4", "t5", "p1", "p2", "p3", "p4", "p5"],
        (match s.toList with
        | [] => false
        | c :: r => Lex.nondigit c && r.all fun d => Lex.nondigit d || Lex.digit d) = true ∧
        (∀ q ∈ Lex.vocabulary, q.2.toList ≠ s.toList) ∧ ¬ "loglog".toList <+: s.toList := by
      decide +kernel
    exact fun s hs => Gram.okName (h s hs).1 (h s hs).2.1 (h s hs).2.2
  have hto : ∀ s ∈ ["p1", "p2", "p3", "p4", "p5"], Gram.OkTo (some ⟨s, false⟩) := by
    intro s hs q hq
    simp only [Option.mem_def, Option.some.injEq] at hq
    subst hq
    have h1 : ∀ s ∈ ["p1", "p2", "p3", "p4", "p5"], '/' ∉ s.toList := by decide
    show Gram.OkFile s
    unfold Gram.OkFile
    rw [if_neg (h1 s hs)]
    exact n s (by revert s; decide)
  have dec : ∀ z : ℤ, ∀ x : ℚ, x = z / 10 → p.OkF x := fun z x h => hf x ⟨z, 1, by rw [h]; norm_num⟩
  have hat : Gram.OkAt p (.floats [1/2, 2]) := by
    refine ⟨by simp, ?_⟩
    intro x hx
    simp only [List.mem_cons, List.not_mem_nil, or_false] at hx
    rcases hx with rfl | rfl
    · exact dec 5 _ (by norm_num)
    · exact dec 20 _ (by norm_num)
  have old : ∀ m ∈ posted, Gram.OkCmd p m := fun m hm =>
    bill_ok hi hf ({}, m) (List.mem_map.2 ⟨m, by simp [orders, hm], rfl⟩)
  intro c hc
  obtain ⟨m, hm, rfl⟩ := List.mem_map.1 hc
  simp only [claims, estate, claim1, claim2, claim3, claim4, claim5, razing, List.append_assoc, List.cons_append,
    List.nil_append, List.mem_append, List.mem_cons, List.not_mem_nil, or_false] at hm
  rcases hm with hm | rfl | rfl | rfl | rfl | rfl | rfl | rfl | rfl | rfl
  · exact old _ hm
  · refine ⟨n _ (by decide), by simp, ?_⟩
    intro g hg
    simp only [List.mem_cons, List.not_mem_nil, or_false] at hg
    rcases hg with rfl | rfl <;> exact n _ (by decide)
  · exact ⟨n _ (by decide), dec 10000 _ (by norm_num), dec 4 _ (by norm_num)⟩
  · exact ⟨n _ (by decide), ⟨n _ (by decide), hat⟩, hto _ (by decide)⟩
  · exact ⟨n _ (by decide), ⟨n _ (by decide), hat, by intro l hl; cases hl⟩, hto _ (by decide)⟩
  · exact ⟨n _ (by decide), ⟨n _ (by decide), by intro l hl; cases hl⟩, hto _ (by decide)⟩
  · exact ⟨n _ (by decide), ⟨n _ (by decide), hi _, hi _, hi _, dec 1 _ (by norm_num)⟩, hto _ (by decide)⟩
  · exact ⟨n _ (by decide), ⟨n _ (by decide), hat⟩, hto _ (by decide)⟩
  · exact ⟨n _ (by decide), dec 8000 _ (by norm_num), dec 4 _ (by norm_num)⟩
  · trivial

theorem wellFormed_suffix {M : Machine} {l l' : List Cmd} (h : Spec.WellFormed M (l' ++ l)) : Spec.WellFormed M l := by
  induction l' with
  | nil => exact h
  | cons m l' ih => exact ih h.2

theorem claims_fine : Spec.WellFormed (bench rd) (deed.map (·.2)).reverse := by
  have e : (deed.map (·.2)).reverse = .analyze :: claims.reverse := by simp [deed]
  rw [e]
  have base : Spec.WellFormed (bench rd) posted.reverse := by
    have h := orders_fine (rd := rd)
    have e' : (bill.map (·.2)).reverse =
        [.analyze, want8, want7, want6, want5, want4, want3, want2, want1] ++ posted.reverse := by
      simp [bill, orders]
    rw [e'] at h
    exact wellFormed_suffix h
  refine ⟨?_, ?_, ?_, ?_, ?_, ?_, ?_, ?_, ?_, base⟩
  · intro i b po _; rfl
  · exact ⟨rfl, rfl, rfl⟩
  · exact Or.inl ⟨⟨ours, [single], rfl⟩, rfl⟩
  · exact Or.inl ⟨⟨ours, [single], rfl⟩, rfl⟩
  · exact Or.inl ⟨ours, [single], rfl⟩
  · exact Or.inl ⟨⟨ours, [single], rfl⟩, (fun l hl => by cases hl), by simp, rfl⟩
  · exact Or.inr ⟨⟨_, _, _, rfl, trivial⟩, ⟨ours, [single], rfl⟩⟩
  · exact ⟨rfl, rfl, rfl⟩
  · refine ⟨⟨"i", ?_⟩, fun gs h => by
      revert h
      simp⟩
    intro k hk
    simp only [List.mem_cons, List.not_mem_nil, or_false] at hk
    rcases hk with rfl | rfl
    · exact ⟨ours, rfl, rfl⟩
    · exact ⟨single, rfl, rfl⟩

theorem claims_sound : ∀ m ∈ claims, m.sound = true := by
  simp [claims, estate, posted, claim1, claim2, claim3, claim4, claim5, razing, Interp.Cmd.sound, Interp.FnRef.plain]

theorem deed_settled : Spec.Settled (deed.map (·.2)) := by
  have e : deed.map (·.2) = claims ++ [.analyze] := by simp [deed]
  rw [e]
  exact settled_once (by simp [claims, estate, posted, claim1, claim2, claim3, claim4, claim5, razing])

theorem deed_session {N : Numerics} (hN : N.Separate) (ds : World → Interp.Printed → String) (ev : String → Except Err Val)
    (fs : Files) : ∃ (p : Gram.Pen) (text : List Char) (τ : State (World × Memory)), (∀ c ∈ deed, Gram.OkCmd p c.2) ∧
      Lex.Written (Gram.toks (Gram.writeScript p deed)) text ∧
      sessionR N ds (bench rd) ev (start ({}, {}) fs) text = (τ, none) := by
  obtain ⟨p, hi, hf⟩ := Gram.pen_exists
  obtain ⟨σ, h⟩ := well_formed_ends_partial (N := N) (ds := ds) (M := bench rd) (deed_ok hi hf)
    (Gram.script_writable (deed_ok hi hf)) claims_fine ev fs
  obtain ⟨τ, h'⟩ := recalls hN (deed_ok hi hf) (Gram.script_writable (deed_ok hi hf)) (by
    have e : deed.map (·.2) = claims ++ [.analyze] := by simp [deed]
    rw [e]
    intro m hm
    rcases List.mem_append.1 hm with h | h
    · exact claims_sound m h
    · rw [List.mem_singleton.1 h]; rfl) h deed_settled
  exact ⟨p, _, τ, deed_ok hi hf, Gram.script_writable (deed_ok hi hf), h'⟩

theorem claims_homes {i : String} {b : Interp.RecBody} {po : Interp.PrintOpts}
    (hm : Cmd.recorder i b (some po) ∈ claims) :
    (i, po.file) ∈ [("t1", "p1"), ("t2", "p2"), ("t3", "p3"), ("t4", "p4"), ("t5", "p5")] := by
  simp only [claims, estate, posted, claim1, claim2, claim3, claim4, claim5, razing, List.mem_cons, List.not_mem_nil,
    List.cons_append, List.nil_append, reduceCtorEq, Cmd.recorder.injEq, Option.some.injEq, false_or,
    or_false] at hm
  rcases hm with ⟨rfl, rfl, rfl⟩ | ⟨rfl, rfl, rfl⟩ | ⟨rfl, rfl, rfl⟩ | ⟨rfl, rfl, rfl⟩ | ⟨rfl, rfl, rfl⟩ <;> simp

/-! ## What the structure of the script costs -/

/-- The cost of rebuilding. -/
def rebuilt : Option (Mu × Sd × ℝ × ℝ) := some (.mean, .sdLn, ((1000 : ℚ) : ℝ), ((2/5 : ℚ) : ℝ))

/-- The cost of demolition. -/
def razed : Option (Mu × Sd × ℝ × ℝ) := some (.mean, .sdLn, ((800 : ℚ) : ℝ), ((2/5 : ℚ) : ℝ))

theorem claims_covered : Spec.Covered crash wreck rebuilt razed where
  collapse := by
    intro q hq
    simp only [crash, Option.mem_def, Option.some.injEq] at hq
    subst hq
    exact ⟨⟨Or.inl rfl, Or.inr (by norm_num)⟩, by norm_num⟩
  demolition := by
    intro q hq
    simp only [wreck, Option.mem_def, Option.some.injEq] at hq
    subst hq
    exact ⟨⟨Or.inl rfl, Or.inr (by norm_num)⟩, by norm_num⟩
  rebuild := by
    intro q hq
    simp only [rebuilt, Option.mem_def, Option.some.injEq] at hq
    subst hq
    exact ⟨Or.inl rfl, Or.inr (by norm_num)⟩
  clear := by
    intro q hq
    simp only [razed, Option.mem_def, Option.some.injEq] at hq
    subst hq
    exact ⟨Or.inl rfl, Or.inr (by norm_num)⟩
  price := fun _ => rfl
  fee := fun _ => rfl

/-- What does not collapse may be demolished. -/
theorem claims_fates (x : ℝ) : 0 ≤ Spec.pDemolition crash wreck x := by
  simp only [Spec.pDemolition, Spec.pCollapse, wreck, crash, Spec.below, Spec.logPair, sub_nonneg]
  refine Phi_strictMono.monotone (div_le_div_of_nonneg_right (sub_le_sub_left ?_ _) (by norm_num))
  exact Real.log_le_log (by norm_num) (by norm_num)

theorem single_cost (y : ℝ) :
    Spec.expected single single.cost single.costFactor y = Spec.expected ours ours.cost ours.costFactor y / (15/2) ∧
    Spec.expectedSquare single single.cost single.costFactor y =
      Spec.expectedSquare ours ours.cost ours.costFactor y / (15/2) ^ 2 := by
  have e1 : (single.count : ℝ) * single.costFactor = 1 := by norm_num [single]
  have e2 : (ours.count : ℝ) * ours.costFactor = 15 / 2 := by norm_num [ours]
  have e3 : single.cost.means single.count = ours.cost.means ours.count := rfl
  have e4 : single.cost.squares single.count = ours.cost.squares ours.count := rfl
  have e5 : single.onsets = ours.onsets := rfl
  rw [Spec.expected, Spec.expectedSquare, Spec.expected, Spec.expectedSquare, e1, e2, e3, e4, e5]
  constructor
  · ring
  · ring

theorem ours_payable {x : ℝ} : Spec.Payable Rates.ideal 0 x ours where
  count := by norm_num [ours]
  law := ours_law
  onsets := ours_onsets
  order := fun y _ => ours_sorted y
  fits := ⟨rfl, trivial⟩
  cost := by
    intro q hq
    simp only [List.mem_cons, List.not_mem_nil, or_false] at hq
    rcases hq with rfl | rfl <;> exact ⟨by norm_num, Or.inl rfl, Or.inr (by norm_num)⟩
  factor := by norm_num [ours]
  mean := loss_answers _ _ (ours_spread x)
  square := square_answers _ _ (ours_spread x)
  some_ := by
    intro v hv
    rw [ideal_finds hv (loss_answers _ _ (ours_spread x))]
    exact (bill_moments x).1.le

theorem single_found (x : ℝ) : Spec.groupMean single x = billMean x / (15/2) ∧
    Spec.groupSquare single x = billSquare x / (15/2) ^ 2 := by
  have e : single.law = ours.law := rfl
  unfold Spec.groupMean Spec.groupSquare billMean billSquare
  rw [← integral_div, ← integral_div]
  constructor
  · congr 1
    funext y
    rw [Spec.costOver, (single_cost y).1, e]
    ring
  · congr 1
    funext y
    rw [Spec.squareOver, (single_cost y).2, e]
    ring

theorem single_payable {x : ℝ} : Spec.Payable Rates.ideal 0 x single where
  count := by norm_num [single]
  law := ours_law
  onsets := ours_onsets
  order := fun y _ => ours_sorted y
  fits := ⟨rfl, trivial⟩
  cost := by
    intro q hq
    simp only [List.mem_cons, List.not_mem_nil, or_false] at hq
    rcases hq with rfl | rfl <;> exact ⟨by norm_num, Or.inl rfl, Or.inr (by norm_num)⟩
  factor := by norm_num [single]
  mean := loss_answers _ _ (ours_spread x)
  square := square_answers _ _ (ours_spread x)
  some_ := by
    intro v hv
    rw [ideal_finds hv (loss_answers (G := single) _ _ (ours_spread x))]
    have := (single_found x).1
    unfold Spec.groupMean at this
    rw [this]
    exact (div_pos (bill_moments x).1 (by norm_num)).le

/-- Components that cost nothing are repaired for nothing. -/
example (x : ℝ) : Spec.Payable Rates.ideal 0 x { ours with costFactor := 0 } ∧
    Spec.groupMean { ours with costFactor := 0 } x = 0 := by
  have e1 : ∀ y, Spec.costOver { ours with costFactor := 0 } x y = 0 := fun y => by
    simp [Spec.costOver, Spec.expected]
  have e2 : ∀ y, Spec.squareOver { ours with costFactor := 0 } x y = 0 := fun y => by
    simp [Spec.squareOver, Spec.expectedSquare]
  have a1 : Spec.Answers Rates.ideal 0 (Spec.costOver { ours with costFactor := 0 } x) :=
    ideal_answers (by simp only [funext e1]; exact integrableOn_zero)
  have a2 : Spec.Answers Rates.ideal 0 (Spec.squareOver { ours with costFactor := 0 } x) :=
    ideal_answers (by simp only [funext e2]; exact integrableOn_zero)
  have h := ours_payable (x := x)
  have z : Spec.groupMean { ours with costFactor := 0 } x = 0 := by simp [Spec.groupMean, e1]
  refine ⟨⟨h.count, h.law, h.onsets, h.order, h.fits, h.cost, le_rfl, a1, a2, fun v hv => ?_⟩, z⟩
  rw [ideal_finds hv a1]
  exact z.ge

theorem claims_payable (x : ℝ) : ∀ G ∈ [ours, single], Spec.Payable Rates.ideal 0 x G := by
  intro G hG
  simp only [List.mem_cons, List.not_mem_nil, or_false] at hG
  rcases hG with rfl | rfl
  · exact ours_payable
  · exact single_payable

/-- What the groups of the script cost. -/
def shares (x : ℝ) : List (ℝ × ℝ) :=
  [(billMean x, billSquare x), (billMean x / (15/2), billSquare x / (15/2) ^ 2)]

theorem shares_only {x : ℝ} {l : List (ℝ × ℝ)} (h : List.Forall₂ (Spec.FindsCost Rates.ideal x) [ours, single] l) :
    l = shares x := by
  rcases h with _ | ⟨h1, _ | ⟨h2, _ | _⟩⟩
  rename_i u v
  obtain ⟨u1, u2⟩ := u
  obtain ⟨v1, v2⟩ := v
  have a1 := ideal_finds h1.1 (loss_answers _ _ (ours_spread x))
  have a2 := ideal_finds h1.2 (square_answers _ _ (ours_spread x))
  have a3 := ideal_finds h2.1 (loss_answers (G := single) _ _ (ours_spread x))
  have a4 := ideal_finds h2.2 (square_answers (G := single) _ _ (ours_spread x))
  have b1 := (single_found x).1
  have b2 := (single_found x).2
  unfold Spec.groupMean at b1
  unfold Spec.groupSquare at b2
  simp only at a1 a2 a3 a4
  rw [b1] at a3
  rw [b2] at a4
  rw [a1, a2, a3, a4]
  rfl

/-- What the structure of the script costs at an intensity, by the cost of rebuilding. -/
def damagesBy (r : Option (Mu × Sd × ℝ × ℝ)) (x : ℝ) : ℝ × ℝ := Spec.total crash wreck r razed x (shares x)

/-- The same. -/
def damages : ℝ → ℝ × ℝ := damagesBy rebuilt

theorem damages_mean (r : Option (Mu × Sd × ℝ × ℝ)) (x : ℝ) : Spec.meanTotal crash wreck r razed [ours, single] x = (damagesBy r x).1 := by
  have e : Spec.groupMean ours x = billMean x := rfl
  simp only [Spec.meanTotal, damagesBy, Spec.total, Spec.sumOf, shares, List.map_cons, List.map_nil, (single_found x).1, e]

theorem shares_bound : ∃ K : ℝ, 0 < K ∧ ∀ x, billMean x ≤ K ∧ billSquare x ≤ K := by
  have key : ∀ (φ : ℝ → ℝ) (C : ℝ), 0 ≤ C → (∀ y, |φ y| ≤ C) → ∀ x : ℝ,
      ∫ y in Ioi (0 : ℝ), φ y * Spec.density (ours.law.at_ x) y ≤ C := by
    intro φ C hC h x
    simp only [density_eq, integral_dens (ours_spread x)]
    have := norm_integral_le_of_norm_le_const (μ := LN (ours.law.at_ x).1 (ours.law.at_ x).2)
      (f := φ) (C := C) (ae_of_all _ h)
    simp only [probReal_univ, mul_one] at this
    exact (le_abs_self _).trans this
  set C1 := |(ours.count : ℝ) * ours.costFactor| * ((ours.cost.means ours.count).map fun m => |m|).sum
  set C2 := |((ours.count : ℝ) * ours.costFactor) ^ 2| * ((ours.cost.squares ours.count).map fun m => |m|).sum
  have nn : ∀ l : List ℝ, 0 ≤ (l.map fun m => |m|).sum := fun l => List.sum_nonneg (by simp)
  have c1 : 0 ≤ C1 := mul_nonneg (abs_nonneg _) (nn _)
  have c2 : 0 ≤ C2 := mul_nonneg (abs_nonneg _) (nn _)
  refine ⟨C1 + C2 + 1, by linarith, fun x => ⟨?_, ?_⟩⟩
  · have := key (Spec.expected ours ours.cost ours.costFactor) C1 c1 (fun y => by
      rw [Spec.expected, abs_mul]
      exact mul_le_mul_of_nonneg_left (perComponent_bound _ _ reached_bounds) (abs_nonneg _)) x
    unfold billMean
    linarith
  · have := key (Spec.expectedSquare ours ours.cost ours.costFactor) C2 c2 (fun y => by
      rw [Spec.expectedSquare, abs_mul]
      exact mul_le_mul_of_nonneg_left (perComponent_bound _ _ reached_bounds) (abs_nonneg _)) x
    unfold billSquare
    linarith

theorem fall_bounded {w : ℝ → ℝ} (hm : Measurable w) {K : ℝ} (hK : 0 < K) (h : ∀ x, 0 ≤ w x ∧ w x ≤ K) :
    IntegrableOn (fun x => w x * |fall' x|) (Ioi 0) := by
  have := (fall_weighted (w := fun x => w x / K) (hm.div_const K) fun x =>
    ⟨div_nonneg (h x).1 hK.le, (div_le_one hK).2 (h x).2⟩).const_mul K
  refine IntegrableOn.congr_fun this (fun x _ => ?_) measurableSet_Ioi
  field_simp

theorem lost_eq' (x : ℝ) : Spec.pLost crash wreck x =
    Spec.below (Spec.logPair .median .sdLn ((4/5 : ℚ) : ℝ) ((2/5 : ℚ) : ℝ)) x := by
  simp only [Spec.pLost, Spec.pDemolition, wreck]
  ring

/-- A mixture of bounded costs. -/
theorem mixture_bounded {a : ℝ → ℝ} (ha : Measurable a) {K k r : ℝ} (hK : 0 < K) (h : ∀ x, 0 ≤ a x ∧ a x ≤ K)
    (hk : 0 ≤ k) (hr : 0 ≤ r) :
    IntegrableOn (fun x => ((1 - Spec.pLost crash wreck x) * a x + Spec.pDemolition crash wreck x * k +
      Spec.pCollapse crash x * r) * |fall' x|) (Ioi 0) := by
  have hlost : Measurable fun x => Spec.pLost crash wreck x := by
    have e : (fun x => Spec.pLost crash wreck x) = _ := funext lost_eq'
    rw [e]
    exact below_meas _
  have hcol : Measurable fun x => Spec.pCollapse crash x := below_meas _
  have hdem : Measurable fun x => Spec.pDemolition crash wreck x := by
    have e : (fun x => Spec.pDemolition crash wreck x) = fun x => Spec.pLost crash wreck x - Spec.pCollapse crash x := by
      funext x
      simp only [Spec.pLost]
      ring
    rw [e]
    exact hlost.sub hcol
  refine fall_bounded (((measurable_const.sub hlost).mul ha).add (hdem.mul_const k) |>.add (hcol.mul_const r))
    (K := K + k + r) (by linarith) fun x => ?_
  obtain ⟨l0, l1⟩ := below_range (Spec.logPair .median .sdLn ((4/5 : ℚ) : ℝ) ((2/5 : ℚ) : ℝ)) x
  rw [← lost_eq'] at l0 l1
  obtain ⟨c0, c1⟩ : 0 ≤ Spec.pCollapse crash x ∧ Spec.pCollapse crash x ≤ 1 := below_range _ x
  have d0 := claims_fates x
  have d1 : Spec.pDemolition crash wreck x ≤ 1 := by
    have : Spec.pLost crash wreck x = Spec.pCollapse crash x + Spec.pDemolition crash wreck x := rfl
    linarith
  obtain ⟨a0, a1⟩ := h x
  have h1 : 0 ≤ (1 - Spec.pLost crash wreck x) * a x := mul_nonneg (by linarith) a0
  have h2 : (1 - Spec.pLost crash wreck x) * a x ≤ K := (mul_le_of_le_one_left a0 (by linarith)).trans a1
  have h3 := mul_nonneg d0 hk
  have h4 : Spec.pDemolition crash wreck x * k ≤ k := mul_le_of_le_one_left hk d1
  have h5 := mul_nonneg c0 hr
  have h6 : Spec.pCollapse crash x * r ≤ r := mul_le_of_le_one_left hr c1
  constructor <;> linarith

theorem cost_nonneg (q : Option (Mu × Sd × ℝ × ℝ)) : 0 ≤ (Spec.costOf q).1 ∧ 0 ≤ (Spec.costOf q).2 := by
  rcases q with _ | ⟨mu, sp, a, b⟩
  · exact ⟨le_rfl, le_rfl⟩
  · exact ⟨(Real.exp_pos _).le, mul_nonneg (sq_nonneg _) (Real.exp_pos _).le⟩

theorem damages_integrable (r : Option (Mu × Sd × ℝ × ℝ)) : IntegrableOn (fun x => (damagesBy r x).1 * |fall' x|) (Ioi 0) ∧
    IntegrableOn (fun x => (damagesBy r x).2 * |fall' x|) (Ioi 0) := by
  obtain ⟨K, hK, hb⟩ := shares_bound
  obtain ⟨m1, m2⟩ := bill_meas
  have e1 : ∀ x, (Spec.sumOf (shares x)).1 = billMean x * (17/15) := by
    intro x
    simp only [Spec.sumOf, shares, List.map_cons, List.map_nil, List.sum_cons, List.sum_nil]
    ring
  have e2 : ∀ x, (Spec.sumOf (shares x)).2 = (billMean x * (17/15)) ^ 2 +
      (billSquare x - billMean x ^ 2) * (1 + 4/225) := by
    intro x
    have h1 := (bill_moments x).2
    have h2 : (billMean x / (15/2)) ^ 2 ≤ billSquare x / (15/2) ^ 2 := by
      rw [div_pow]
      exact div_le_div_of_nonneg_right h1.le (by norm_num)
    have h3 := (bill_moments x).1.ne'
    have h4 := (div_pos (bill_moments x).1 (show (0 : ℝ) < 15/2 by norm_num)).ne'
    simp only [Spec.sumOf, Spec.squareFor, shares, List.map_cons, List.map_nil, List.sum_cons, List.sum_nil, h3, h4, if_false,
      max_eq_left h1.le, max_eq_left h2]
    ring
  constructor
  · refine mixture_bounded (a := fun x => (Spec.sumOf (shares x)).1) (K := K * (17/15)) ?_ (by linarith) ?_
      (cost_nonneg _).1 (cost_nonneg _).1
    · simp only [e1]
      exact m1.mul_const _
    · intro x
      simp only [e1]
      have := (bill_moments x).1
      exact ⟨by linarith, by linarith [(hb x).1]⟩
  · refine mixture_bounded (a := fun x => (Spec.sumOf (shares x)).2) (K := (K * (17/15)) ^ 2 + K * 2) ?_ (by positivity) ?_
      (cost_nonneg _).2 (cost_nonneg _).2
    · simp only [e2]
      exact ((m1.mul_const _).pow_const 2).add ((m2.sub (m1.pow_const 2)).mul_const _)
    · intro x
      simp only [e2]
      obtain ⟨h1, h2⟩ := bill_moments x
      obtain ⟨h3, h4⟩ := hb x
      constructor
      · have := sq_nonneg (billMean x * (17/15))
        linarith
      · have h5 : (billMean x * (17/15)) ^ 2 ≤ (K * (17/15)) ^ 2 :=
          pow_le_pow_left₀ (by linarith) (by linarith) 2
        have h6 := sq_nonneg (billMean x)
        linarith

theorem damages_positive (r : Option (Mu × Sd × ℝ × ℝ)) (x : ℝ) : 0 < (damagesBy r x).1 := by
  have h1 := (bill_moments x).1
  have hs : 0 < (Spec.sumOf (shares x)).1 := by
    simp only [Spec.sumOf, shares, List.map_cons, List.map_nil, List.sum_cons, List.sum_nil]
    linarith [div_pos h1 (show (0 : ℝ) < 15/2 by norm_num)]
  have hl : Spec.pLost crash wreck x < 1 := by
    rw [lost_eq']
    exact Phi_lt_one _
  have := mul_pos (sub_pos.2 hl) hs
  have h2 : 0 ≤ Spec.pDemolition crash wreck x * (Spec.costOf razed).1 :=
    mul_nonneg (claims_fates x) (Real.exp_pos _).le
  have h3 : 0 ≤ Spec.pCollapse crash x * (Spec.costOf r).1 := mul_nonneg (Phi_nonneg _) (cost_nonneg _).1
  simp only [damagesBy, Spec.total]
  linarith

theorem totals_only {r : Option (Mu × Sd × ℝ × ℝ)} {T : ℝ → ℝ × ℝ} (h : Spec.Totals Rates.ideal crash wreck r razed [ours, single] T) :
    ∀ x, 0 < x → T x = damagesBy r x := by
  intro x hx
  obtain ⟨l, h1, h2⟩ := h x hx
  rw [h2, shares_only h1]
  rfl

theorem damages_yearly (r : Option (Mu × Sd × ℝ × ℝ)) : 0 < Spec.perYear (fun x => (damagesBy r x).1) fall' := by
  have hnn : ∀ x, 0 ≤ (damagesBy r x).1 * |fall' x| := fun x => mul_nonneg (damages_positive r x).le (abs_nonneg _)
  refine lt_of_le_of_ne (integral_nonneg hnn) fun h0 => ?_
  have h6 := (integral_eq_zero_iff_of_nonneg (μ := volume.restrict (Ioi (0 : ℝ))) hnn (damages_integrable r).1).1 h0.symm
  have h7 : ∫ x in Ioi (0 : ℝ), |fall' x| = 0 := by
    refine integral_eq_zero_of_ae ?_
    filter_upwards [h6] with x hx
    rcases mul_eq_zero.1 hx with h | h
    · exact absurd h (damages_positive r x).ne'
    · exact h
  rw [fall_hazard.total, Function.update_self] at h7
  norm_num at h7

theorem yearly_by (r : Option (Mu × Sd × ℝ × ℝ)) : Spec.Yearly Rates.ideal 0 crash wreck r razed [ours, single] fall' where
  weight := by
    have := fall_weighted (w := fun _ => 1) measurable_const fun x => ⟨zero_le_one, le_rfl⟩
    simpa using this
  whole := by
    simp only [damages_mean]
    exact (damages_integrable r).1
  mean T hT := ideal_answers ((damages_integrable r).1.congr_fun (fun x hx => by
    beta_reduce
    rw [totals_only hT x hx]) measurableSet_Ioi)
  square T hT := ideal_answers ((damages_integrable r).2.congr_fun (fun x hx => by
    beta_reduce
    rw [totals_only hT x hx]) measurableSet_Ioi)
  some_ T v hT hv := by
    have hA : Spec.Answers Rates.ideal 0 fun x => (T x).1 * |fall' x| :=
      ideal_answers ((damages_integrable r).1.congr_fun (fun x hx => by
        beta_reduce
        rw [totals_only hT x hx]) measurableSet_Ioi)
    rw [ideal_finds hv hA]
    have e : ∫ x in Ioi (0 : ℝ), (T x).1 * |fall' x| = ∫ x in Ioi (0 : ℝ), (damagesBy r x).1 * |fall' x| :=
      setIntegral_congr_fun measurableSet_Ioi fun x hx => by
        beta_reduce
        rw [totals_only hT x hx]
    rw [e]
    exact (damages_yearly r).le

/-- A structure of components that cost nothing, and that cannot be lost, costs nothing in a year. -/
example : Spec.Yearly Rates.ideal 0 none none none none [{ ours with costFactor := 0 }] fall' ∧
    Spec.perYear (Spec.meanTotal none none none none [{ ours with costFactor := 0 }]) fall' = 0 := by
  have e1 : ∀ x y, Spec.costOver { ours with costFactor := 0 } x y = 0 := fun x y => by
    simp [Spec.costOver, Spec.expected]
  have a1 : ∀ x, Spec.Answers Rates.ideal 0 (Spec.costOver { ours with costFactor := 0 } x) := fun x =>
    ideal_answers (by simp only [funext (e1 x)]; exact integrableOn_zero)
  have z : ∀ x, Spec.groupMean { ours with costFactor := 0 } x = 0 := fun x => by simp [Spec.groupMean, e1]
  have zt : ∀ x, Spec.meanTotal none none none none [{ ours with costFactor := 0 }] x = 0 := fun x => by
    simp [Spec.meanTotal, z, Spec.pDemolition, Spec.pCollapse]
  have only : ∀ T, Spec.Totals Rates.ideal none none none none [{ ours with costFactor := 0 }] T →
      ∀ x, 0 < x → T x = (0, 0) := by
    intro T hT x hx
    obtain ⟨l, h1, h2⟩ := hT x hx
    rcases h1 with _ | ⟨h1, _ | _⟩
    rename_i u
    have h0 : u.1 = 0 := (ideal_finds h1.1 (a1 x)).trans (z x)
    rw [h2]
    simp [Spec.total, Spec.sumOf, Spec.squareFor, h0, Spec.pDemolition, Spec.pCollapse]
  have ans : ∀ T, Spec.Totals Rates.ideal none none none none [{ ours with costFactor := 0 }] T →
      Spec.Answers Rates.ideal 0 (fun x => (T x).1 * |fall' x|) ∧
      Spec.Answers Rates.ideal 0 (fun x => (T x).2 * |fall' x|) := by
    intro T hT
    constructor <;>
    · refine ideal_answers ((integrableOn_zero (s := Ioi (0 : ℝ)) (μ := volume)).congr_fun (fun x hx => ?_)
        measurableSet_Ioi)
      rw [only T hT x hx, zero_mul]
  refine ⟨⟨(yearly_by none).weight, ?_, fun T hT => (ans T hT).1, fun T hT => (ans T hT).2, fun T v hT hv => ?_⟩, ?_⟩
  · simp only [zt, zero_mul]
    exact integrableOn_zero
  · rw [ideal_finds hv (ans T hT).1]
    refine (setIntegral_nonneg measurableSet_Ioi fun x hx => ?_)
    rw [only T hT x hx, zero_mul]
  · simp [Spec.perYear, zt]

theorem claims_yearly : Spec.Yearly Rates.ideal 0 crash wreck rebuilt razed [ours, single] fall' := yearly_by rebuilt

theorem near_zero {x : ℝ} {l : List (ℝ × ℝ)} (h : Spec.Near 0 x [ours, single] l) : l = shares x := by
  rcases h with _ | ⟨h1, _ | ⟨h2, _ | _⟩⟩
  rename_i u v
  obtain ⟨u1, u2⟩ := u
  obtain ⟨v1, v2⟩ := v
  have a1 : u1 = billMean x := sub_eq_zero.1 (abs_nonpos_iff.1 h1.1)
  have a2 : u2 = billSquare x := sub_eq_zero.1 (abs_nonpos_iff.1 h1.2)
  have a3 := sub_eq_zero.1 (abs_nonpos_iff.1 h2.1)
  have a4 := sub_eq_zero.1 (abs_nonpos_iff.1 h2.2)
  simp only [(single_found x).1] at a3
  simp only [(single_found x).2] at a4
  rw [a1, a2, a3, a4]
  rfl

theorem rebuilt_mean : (Spec.costOf rebuilt).1 = 1000 := by
  simp only [rebuilt, Spec.costOf, Spec.mean, Spec.logPair]
  norm_num [Real.exp_log]

theorem razed_mean : (Spec.costOf razed).1 = 800 := by
  simp only [razed, Spec.costOf, Spec.mean, Spec.logPair]
  norm_num [Real.exp_log]

end

end Slat.Session
