import Verif.SessionPriceSpec
import Verif.SessionStructSample
import Verif.MaqModel

/-!
# Helper lemmas: costs that are not given
-/

namespace Slat

open Dbl

theorem unset_mean : LogNormalDist.unset.getMean = .nan := by
  simp [LogNormalDist.unset, LogNormalDist.getMean]

theorem ofMeanSigma_nan (s : Dbl) : LogNormalDist.ofMeanSigma .nan s = LogNormalDist.unset := by
  simp [LogNormalDist.ofMeanSigma, LogNormalDist.unset, LogNormalDist.sigmaLnFromMeanSigma, LogNormalDist.muFromMeanSigmaLn]

theorem unset_adjust (w : Dbl) : (LogNormalDist.unset.adjust w).getMean = .nan := by
  simp [LogNormalDist.adjust, unset_mean, LogNormalDist.ofMeanSigmaLn, LogNormalDist.muFromMeanSigmaLn, LogNormalDist.getMean,
    LogNormalDist.unset, LogNormalDist.getSigmaLn]

/-- The total cost is not a number if something can happen whose cost is not given. -/
theorem total_unpriced {s : StructCosts} {F : Fates} {x : Dbl} (hF : s.im = some F)
    (h : (0 < F.pCollapse x ∧ s.rebuild = LogNormalDist.unset) ∨ (0 < F.pDemolition x ∧ s.demolition = LogNormalDist.unset)) :
    s.totalCost x = some LogNormalDist.unset := by
  simp only [StructCosts.totalCost, hF, Option.some.injEq]
  rcases h with ⟨h1, h2⟩ | ⟨h1, h2⟩
  · simp only [h1, h2, if_true, unset_mean, nan_mul, add_nan, ofMeanSigma_nan]
  · simp only [h1, h2, if_true, unset_mean, nan_mul, add_nan, nan_add, ite_self, ofMeanSigma_nan]

/-- The annual cost is not a number if the total cost at the intensity 1 is not and the integrator notices it. -/
theorem annual_unpriced {maq : (Dbl → Dbl) → Bool × Dbl} (hn : ∀ f, f (.fin 1) = .nan → (maq f).1 = false)
    {total : Dbl → LogNormalDist} {deriv : Dbl → Dbl} (h : total (.fin 1) = LogNormalDist.unset) :
    calcAnnualCost maq true total deriv = LogNormalDist.unset := by
  have h1 := hn (fun x => (total x).getMean * abs (deriv x)) (by simp [h, unset_mean])
  simp only [calcAnnualCost, if_true, h1, Bool.false_eq_true, if_false, ofMeanSigma_nan]

namespace Maq

/-- The modelled integrator notices: it looks at the intensity 1 first (/repo/src/maq.cpp:188-195, 641-650). -/
theorem nan_noticed {f : Dbl → Dbl} (h : f (.fin 1) = .nan) {cfg : Cfg} {fuel : ℕ} {rep : Report}
    (hr : maq f cfg fuel = some rep) : rep.result.successful = false := by
  have e : f (xFromT (1 / 2)) = .nan := by
    rw [← h]
    norm_num [xFromT]
  have hs : search f cfg.method cfg.bineval fuel = some (.bracket 0 1 2) := by
    have e2 : (bracketOf (1 / 2)).1 = 0 ∧ (bracketOf (1 / 2)).2 = 1 := by norm_num [bracketOf]
    cases cfg.method <;>
      simp only [search, binarySubdivision, reverseSubdivision, lowFirstSubdivision, scatteredSearch, directedSearch, e,
        not_nan_le, and_false, if_false, e2.1, e2.2]
  rw [maq, hs, Option.bind_some, integrate] at hr
  simp only at hr
  have ec : transformed f ((0 + 1) / 2) = .nan := by
    rw [transformed, zero_add, e]
    simp
  split_ifs at hr with h1 h2 h3
  · cases hr; rfl
  · cases hr; rfl
  · cases hr; rfl
  · rw [ec] at h3
    simp at h3

end Maq

namespace Session

open MeasureTheory Set Filter Topology

noncomputable section

open Interp (Val Call Cmd Cfg Err Mu Sd DistCmd Sc)
open Output (Path Files)

variable {maq : Rates.Maq} {gsl : Rates.Gsl} {ε : ℝ} {Gs : List Spec.Components} {c d r k : Option (Mu × Sd × ℝ × ℝ)}

/-- What is missing in the script is missing in the structure. -/
theorem unpriced_building {b : Building} {F : Fates} {N : Numerics} {x : ℝ} (hx : 0 < x) (hlaw : Spec.Lawful c d r k)
    (hF1 : F.collapse = c.map made) (hF2 : F.demolition = d.map made)
    (hb1 : b.rebuild = (r.map made).getD LogNormalDist.unset) (hb2 : b.demolition = (k.map made).getD LogNormalDist.unset)
    (hun : Spec.Unpriced c d r k x) : (b.costs N (some F)).totalCost (.fin x) = some LogNormalDist.unset := by
  obtain ⟨f1, f2, -⟩ := fates_eq hlaw.collapse hlaw.demolition hF1 hF2 hx
  refine total_unpriced rfl ?_
  rcases hun with ⟨h1, h2⟩ | ⟨h1, h2⟩
  · refine Or.inl ⟨?_, ?_⟩
    · rw [f1]; exact h1
    · show b.rebuild = _
      rw [hb1, h2]; rfl
  · refine Or.inr ⟨?_, ?_⟩
    · rw [f2]; exact h1
    · show b.demolition = _
      rw [hb2, h2]; rfl

theorem unset_place (mu : Mu) : placeOf LogNormalDist.unset mu = .nan := by
  cases mu <;> simp [placeOf, LogNormalDist.unset, LogNormalDist.getMean, LogNormalDist.getMedian, LogNormalDist.getMuLn]

theorem unset_width (sp : Sd) : widthOf LogNormalDist.unset sp = .nan := by
  cases sp <;> simp [widthOf, LogNormalDist.unset, LogNormalDist.getSigma, LogNormalDist.getSigmaLn]

/-- The largest of values that are not numbers counts as nothing, and a division by it raises. -/
theorem unset_normal {s : Rec.StructObj} {im : String} (him : s.imId = some im) {xs : List ℝ} (hne : xs ≠ [])
    (h : ∀ x ∈ xs, s.pdf (.fin x) = .nan) :
    (Rec.printed (Rec.output ⟨.pdf, .struct s, { normalise := true }, none, (xs.map Dbl.fin).map .flt⟩)).2 =
      some .zeroDivision := by
  have e : ((xs.map Dbl.fin).map Rec.Num.flt).map (fun x => s.pdf x.toDbl) = xs.map fun _ => Dbl.nan := by
    rw [List.map_map, List.map_map]
    exact List.map_congr_left fun x hx => h x hx
  have m : ∀ ys : List ℝ, Rec.maxPdf (ys.map fun _ => Dbl.nan) = 0 := by
    intro ys
    unfold Rec.maxPdf
    induction ys with
    | nil => rfl
    | cons y ys ih => simpa using ih
  obtain ⟨x, ys, rfl⟩ := List.exists_cons_of_ne_nil hne
  have hf : Dbl.feq 0 0 := by simp [Dbl.feq]
  simp only [Rec.output, Rec.pdfOutput, Rec.Obj.imId, him, Bind.bind, Except.bind, Rec.fmt6, pure, Except.pure, Rec.lines, e, m,
    if_true, if_pos hf]
  simp [Rec.printed]

/-- The costs by fate, whatever costs are given. -/
theorem shares_found {b : Building} {x : ℝ} {F : Fates} (hg : Rates.Differentiates gsl)
    (hG : List.Forall₂ Group.Is b.groups Gs) (hx : 0 < x) (hp : ∀ G ∈ Gs, Spec.Payable maq ε x G)
    (hF1 : F.collapse = c.map made) (hF2 : F.demolition = d.map made)
    (hr : b.rebuild = (r.map made).getD LogNormalDist.unset) (hk : b.demolition = (k.map made).getD LogNormalDist.unset)
    (hlaw : Spec.Lawful c d r k) (hpd : 0 ≤ Spec.pDemolition c d x) :
    ∃ l : List (ℝ × ℝ), List.Forall₂ (Spec.FindsCost maq x) Gs l ∧
      ((b.costs (integrated maq gsl) (some F)).costsByFate (.fin x)).1.getMean =
        .fin ((1 - Spec.pLost c d x) * (l.map (·.1)).sum) ∧
      ((b.costs (integrated maq gsl) (some F)).costsByFate (.fin x)).2.1.getMean =
        Spec.share k (Spec.pDemolition c d x) ∧
      ((b.costs (integrated maq gsl) (some F)).costsByFate (.fin x)).2.2.getMean = Spec.share r (Spec.pCollapse c x) := by
  -- a structure with some cost for everything
  let z : Mu × Sd × ℝ × ℝ := (.mean, .sdLn, 1, 1)
  have hz : Spec.Meant z.1 z.2.1 z.2.2.1 z.2.2.2 := ⟨Or.inr (by norm_num [z]), Or.inr (by norm_num [z])⟩
  let r' := some (r.getD z)
  let k' := some (k.getD z)
  have hcov : Spec.Covered c d r' k' :=
    { collapse := hlaw.collapse
      demolition := hlaw.demolition
      rebuild := by
        intro q hq
        cases hr' : r with
        | none => simp only [r', hr', Option.getD_none, Option.mem_def, Option.some.injEq] at hq; subst hq; exact hz
        | some q' => simp only [r', hr', Option.getD_some, Option.mem_def, Option.some.injEq] at hq; exact hlaw.rebuild q (by rw [hr', hq]; rfl)
      clear := by
        intro q hq
        cases hk' : k with
        | none => simp only [k', hk', Option.getD_none, Option.mem_def, Option.some.injEq] at hq; subst hq; exact hz
        | some q' => simp only [k', hk', Option.getD_some, Option.mem_def, Option.some.injEq] at hq; exact hlaw.clear q (by rw [hk', hq]; rfl)
      price := fun _ => rfl
      fee := fun _ => rfl }
  obtain ⟨l, e1, -, -, e5, e6, e7⟩ := total_found (maq := maq) (gsl := gsl)
    (b := { b with rebuild := (r'.map made).getD LogNormalDist.unset, demolition := (k'.map made).getD LogNormalDist.unset })
    hg hG hx hp hF1 hF2 rfl rfl hcov hpd
  refine ⟨l, e1, e5, ?_, ?_⟩
  · cases hk' : k with
    | none =>
      show (b.demolition.adjust (F.pDemolition (.fin x))).getMean = _
      rw [hk, hk']
      exact unset_adjust _
    | some q =>
      have := e6 rfl
      simp only [k', hk', Option.getD_some] at this
      refine Eq.trans ?_ this
      show (b.demolition.adjust (F.pDemolition (.fin x))).getMean = _
      rw [hk, hk']
      rfl
  · cases hr' : r with
    | none =>
      show (b.rebuild.adjust (F.pCollapse (.fin x))).getMean = _
      rw [hr, hr']
      exact unset_adjust _
    | some q =>
      have := e7 rfl
      simp only [r', hr', Option.getD_some] at this
      refine Eq.trans ?_ this
      show (b.rebuild.adjust (F.pCollapse (.fin x))).getMean = _
      rw [hr, hr']
      rfl

/-! ## A script without the cost of demolition -/

/-- The script of `claims` without the cost of demolition:

    (the commands of `estate`)
    recorder t1 totalcost st --at 0.5, 2.0 --file p1;
    recorder t2 structcost st --by_fate --at 0.5, 2.0 --file p2;
    recorder t3 structcost st --annual --mu mean_x --sd sd_ln_x --file p3;
    recorder t4 structcost st --npv 10, 10, 40, 0.1 --file p4;
    recorder t5 pdf st --at 0.5, 2.0 --file p5;
-/
def bare : List Cmd := estate ++ [claim1, claim2, claim3, claim4, claim5]

/-- Written down. -/
def bareScript : List (Gram.Style × Cmd) := (bare ++ [Cmd.analyze]).map fun c => ({}, c)

theorem bare_ok {p : Gram.Pen} (hi : ∀ n, p.OkI n) (hf : ∀ x, Gram.Decimal x → p.OkF x) :
    ∀ c ∈ bareScript, Gram.OkCmd p c.2 := by
  intro c hc
  refine deed_ok hi hf c ?_
  obtain ⟨m, hm, rfl⟩ := List.mem_map.1 hc
  refine List.mem_map.2 ⟨m, ?_, rfl⟩
  simp only [bare, claims, List.mem_append, List.mem_cons, List.not_mem_nil, or_false] at hm ⊢
  tauto

theorem bare_sound : ∀ m ∈ bare, m.sound = true := fun m hm => claims_sound m (by
  simp only [bare, claims, List.mem_append, List.mem_cons, List.not_mem_nil, or_false] at hm ⊢
  tauto)

theorem bare_homes {i : String} {b : Interp.RecBody} {po : Interp.PrintOpts} (hm : Cmd.recorder i b (some po) ∈ bare) :
    (i, po.file) ∈ [("t1", "p1"), ("t2", "p2"), ("t3", "p3"), ("t4", "p4"), ("t5", "p5")] := claims_homes (by
  simp only [bare, claims, List.mem_append, List.mem_cons, List.not_mem_nil, or_false] at hm ⊢
  tauto)

theorem bare_settled : Spec.Settled (bareScript.map (·.2)) := by
  have e : bareScript.map (·.2) = bare ++ [.analyze] := by simp [bareScript]
  rw [e]
  exact settled_once (by simp [bare, estate, posted, claim1, claim2, claim3, claim4, claim5])

theorem bare_session {N : Numerics} (hN : N.Separate) (rd : Rec.Row → String) (ds : World → Interp.Printed → String)
    (ev : String → Except Err Val) (fs : Files) :
    ∃ (p : Gram.Pen) (text : List Char) (τ : State (World × Memory)), (∀ c ∈ bareScript, Gram.OkCmd p c.2) ∧
      Lex.Written (Gram.toks (Gram.writeScript p bareScript)) text ∧
      sessionR N ds (bench rd) ev (start ({}, {}) fs) text = (τ, none) := by
  obtain ⟨p, hi, hf⟩ := Gram.pen_exists
  have hfine : Spec.WellFormed (bench rd) (bareScript.map (·.2)).reverse := by
    have h := claims_fine (rd := rd)
    have e : (deed.map (·.2)).reverse = [.analyze, razing] ++ (bare.reverse) := by simp [deed, claims, bare]
    rw [e] at h
    have e' : (bareScript.map (·.2)).reverse = .analyze :: bare.reverse := by simp [bareScript]
    rw [e']
    exact ⟨by intro i b po _; rfl, wellFormed_suffix h⟩
  obtain ⟨σ, h⟩ := well_formed_ends_partial (N := N) (ds := ds) (M := bench rd) (bare_ok hi hf)
    (Gram.script_writable (bare_ok hi hf)) hfine ev fs
  obtain ⟨τ, h'⟩ := recalls hN (bare_ok hi hf) (Gram.script_writable (bare_ok hi hf)) (by
    have e : bareScript.map (·.2) = bare ++ [.analyze] := by simp [bareScript]
    rw [e]
    intro m hm
    rcases List.mem_append.1 hm with h | h
    · exact bare_sound m h
    · rw [List.mem_singleton.1 h]; rfl) h bare_settled
  exact ⟨p, _, τ, bare_ok hi hf, Gram.script_writable (bare_ok hi hf), h'⟩

theorem bare_lawful : Spec.Lawful crash wreck rebuilt none where
  collapse := claims_covered.collapse
  demolition := claims_covered.demolition
  rebuild := claims_covered.rebuild
  clear := by intro q hq; cases hq

/-- Demolition is possible at every intensity. -/
theorem wreck_pos (x : ℝ) : 0 < Spec.pDemolition crash wreck x := by
  simp only [Spec.pDemolition, Spec.pCollapse, wreck, crash, Spec.below, Spec.logPair, sub_pos]
  refine Phi_strictMono (div_lt_div_of_pos_right (sub_lt_sub_left ?_ _) (by norm_num))
  exact Real.log_lt_log (by norm_num) (by norm_num)

theorem bare_unpriced (x : ℝ) : Spec.Unpriced crash wreck rebuilt none x := Or.inr ⟨wreck_pos x, rfl⟩

open Classical in
/-- An integrator without error that notices what is not a number at 1. -/
def noticing : Rates.Maq := fun f => if f (.fin 1) = .nan then (false, .nan) else Rates.ideal f

theorem noticing_notices (f : Dbl → Dbl) (h : f (.fin 1) = .nan) : (noticing f).1 = false := by
  simp [noticing, h]

end

end Session

end Slat
