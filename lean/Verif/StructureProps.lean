import Verif.StructureModel
import Verif.FatesProps
import Verif.LogNormalSums
import Mathlib.Analysis.SpecialFunctions.Integrals.Basic

/-!
# Properties of structure costs (C27, C28, C50)
-/

namespace Slat

open Dbl LogNormalDist Fates

namespace StructCosts

/-- What is known about the cost of one fate that happens with probability `p`: a usable distribution
reporting the given moments; nothing need be known when it cannot happen. -/
def Known (p : ℝ) (d : LogNormalDist) (m s : ℝ) : Prop := 0 < p → d.Proper ∧ d.Reports m s

/-- Spec: mean of the mixture. -/
def mix3 (pr pd pc m1 m2 m3 : ℝ) : ℝ := pr * m1 + pd * m2 + pc * m3

theorem proper_const (m s : ℝ) (hm : 0 < m) (hs : 0 ≤ s) :
    (ofMeanSigma (.fin m) (.fin s)).Proper ∧ (ofMeanSigma (.fin m) (.fin s)).Reports m s :=
  ⟨proper_ofMeanSigma hm.le s, getMean_ofMeanSigma_pos hm s, by rw [getSigma_ofMeanSigma_pos hm, abs_of_nonneg hs]⟩

/-- A stand-in for a distribution that does not matter. -/
theorem Known.standin {p : ℝ} {d : LogNormalDist} {m s : ℝ} (h : Known p d m s) (hp : 0 ≤ p) :
    ∃ d' : LogNormalDist, ∃ m' s' : ℝ, d'.Proper ∧ d'.Reports m' s' ∧ (0 < p → m' = m ∧ s' = s ∧ d' = d) ∧
      (p = 0 ∨ 0 < p) := by
  rcases hp.lt_or_eq with h1 | h1
  · exact ⟨d, m, s, (h h1).1, (h h1).2, fun _ => ⟨rfl, rfl, rfl⟩, Or.inr h1⟩
  · exact ⟨_, 1, 0, (proper_const 1 0 one_pos le_rfl).1, (proper_const 1 0 one_pos le_rfl).2,
      fun h => absurd h (by rw [← h1]; exact lt_irrefl _), Or.inl h1.symm⟩

/-- Total cost as a weighted sum, once the fate probabilities are known. -/
theorem totalCost_eq (s : StructCosts) (f : Fates) (hf : s.im = some f) (x : Dbl) (pr pd pc : ℝ)
    (hpr : f.pRepair x = .fin pr) (hpd : f.pDemolition x = .fin pd) (hpc : f.pCollapse x = .fin pc)
    (h0d : 0 ≤ pd) (h0c : 0 ≤ pc) (m1 s1 m2 s2 m3 s3 : ℝ) (h1 : (s.costNC x).Reports m1 s1)
    (h2 : 0 < pd → s.demolition.Reports m2 s2) (h3 : 0 < pc → s.rebuild.Reports m3 s3)
    (hv : 0 ≤ mix3 pr pd pc (m1 ^ 2 + s1 ^ 2) (m2 ^ 2 + s2 ^ 2) (m3 ^ 2 + s3 ^ 2) - mix3 pr pd pc m1 m2 m3 ^ 2) :
    s.totalCost x = some (ofMeanSigma (.fin (mix3 pr pd pc m1 m2 m3))
      (.fin (Real.sqrt (mix3 pr pd pc (m1 ^ 2 + s1 ^ 2) (m2 ^ 2 + s2 ^ 2) (m3 ^ 2 + s3 ^ 2) -
        mix3 pr pd pc m1 m2 m3 ^ 2)))) := by
  have e1 : (if (0 : Dbl) < .fin pd then (s.costNC x).getMean * .fin pr + s.demolition.getMean * .fin pd
      else (s.costNC x).getMean * .fin pr) = .fin (pr * m1 + pd * m2) := by
    rw [h1.1]; simp only [zero_def, fin_lt]
    split
    · rename_i h
      rw [(h2 h).1, fin_mul, fin_mul, fin_add]
      congr 1; ring
    · rename_i h
      have : pd = 0 := le_antisymm (not_lt.1 h) h0d
      subst this
      rw [fin_mul]; congr 1; ring
  have e2 : (if (0 : Dbl) < .fin pc then .fin (pr * m1 + pd * m2) + s.rebuild.getMean * .fin pc
      else .fin (pr * m1 + pd * m2)) = .fin (mix3 pr pd pc m1 m2 m3) := by
    simp only [zero_def, fin_lt]
    split
    · rename_i h
      rw [(h3 h).1, fin_mul, fin_add, mix3]
      congr 1; ring
    · rename_i h
      have : pc = 0 := le_antisymm (not_lt.1 h) h0c
      subst this
      rw [mix3]; congr 1; ring
  have e3 : (if (0 : Dbl) < .fin pd then
      ((s.costNC x).getMean * (s.costNC x).getMean + (s.costNC x).getSigma * (s.costNC x).getSigma) * .fin pr +
        (s.demolition.getMean * s.demolition.getMean + s.demolition.getSigma * s.demolition.getSigma) * .fin pd
      else ((s.costNC x).getMean * (s.costNC x).getMean + (s.costNC x).getSigma * (s.costNC x).getSigma) * .fin pr)
      = .fin (pr * (m1 ^ 2 + s1 ^ 2) + pd * (m2 ^ 2 + s2 ^ 2)) := by
    rw [h1.1, h1.2]; simp only [zero_def, fin_lt]
    split
    · rename_i h
      rw [(h2 h).1, (h2 h).2]
      simp only [fin_mul, fin_add]
      congr 1; ring
    · rename_i h
      have : pd = 0 := le_antisymm (not_lt.1 h) h0d
      subst this
      simp only [fin_mul, fin_add]; congr 1; ring
  have e4 : (if (0 : Dbl) < .fin pc then .fin (pr * (m1 ^ 2 + s1 ^ 2) + pd * (m2 ^ 2 + s2 ^ 2)) +
        (s.rebuild.getMean * s.rebuild.getMean + s.rebuild.getSigma * s.rebuild.getSigma) * .fin pc
      else .fin (pr * (m1 ^ 2 + s1 ^ 2) + pd * (m2 ^ 2 + s2 ^ 2)))
      = .fin (mix3 pr pd pc (m1 ^ 2 + s1 ^ 2) (m2 ^ 2 + s2 ^ 2) (m3 ^ 2 + s3 ^ 2)) := by
    simp only [zero_def, fin_lt]
    split
    · rename_i h
      rw [(h3 h).1, (h3 h).2, mix3]
      simp only [fin_mul, fin_add]
      congr 1; ring
    · rename_i h
      have : pc = 0 := le_antisymm (not_lt.1 h) h0c
      subst this
      rw [mix3]; congr 1; ring
  simp only [totalCost, hf, hpr, hpd, hpc]
  simp only [e1, e2, e3, e4]
  rw [fin_mul, fin_sub, ← sq, sqrt_fin hv]

/-- **C27** The total cost at an intensity is the mixture of repair, demolition and rebuilding costs over the
three fates: its mean is the expectation and its variance the mixture variance.  Costs of fates that cannot
happen need not be set.  `ms` are mean and standard deviation of the component groups. -/
theorem total_cost_is_mixture (s : StructCosts) (c d : Option (ℝ × ℝ)) (hc : ∀ p ∈ c, 0 < p.2)
    (hd : ∀ p ∈ d, 0 < p.2) (x : ℝ) (hx : 0 ≤ x) (hcd : d = none ∨ trigger c x ≤ trigger d x)
    (him : s.im = some ⟨dist c, dist d⟩)
    (ms : List (ℝ × ℝ)) (hp : ∀ g ∈ s.comps (.fin x), g.Proper) (hms : ReportsAll (s.comps (.fin x)) ms)
    (m2 s2 m3 s3 : ℝ) :
    ∃ pr pd pc : ℝ,
      pRepair ⟨dist c, dist d⟩ (.fin x) = .fin pr ∧ pDemolition ⟨dist c, dist d⟩ (.fin x) = .fin pd ∧
      pCollapse ⟨dist c, dist d⟩ (.fin x) = .fin pc ∧
      (Known pd s.demolition m2 s2 → Known pc s.rebuild m3 s3 →
      ∃ t σ, s.totalCost (.fin x) = some t ∧ t.Proper ∧ t.Reports (pr * sumMean ms + pd * m2 + pc * m3) σ ∧ 0 ≤ σ ∧
        σ ^ 2 = pr * (sumMean ms ^ 2 + sumVar ms) + pd * (m2 ^ 2 + s2 ^ 2) + pc * (m3 ^ 2 + s3 ^ 2)
          - (pr * sumMean ms + pd * m2 + pc * m3) ^ 2) := by
  obtain ⟨pc, pd, pr, h1, h2, h3, h4, -⟩ := fates_partition c d hc hd x hx
  obtain ⟨pc', pd', pr', g1, g2, g3, g4, g5, g6, g7, g8, g9⟩ :=
    (fates_are_probabilities_iff c d hc hd x hx).2 hcd
  rw [h1, fin_inj] at g1
  rw [h2, fin_inj] at g2
  rw [h3, fin_inj] at g3
  subst g1 g2 g3
  refine ⟨pr, pd, pc, h3, h2, h1, fun kd kc => ?_⟩
  obtain ⟨p1, σ1, r1, hσ1, q1⟩ := add_adds_moments _ hp ms hms
  obtain ⟨dd, md, sd, pD, rD, eD, cD⟩ := kd.standin g6
  obtain ⟨dc, mc, sc, pC, rC, eC, cC⟩ := kc.standin g4
  have hR : ReportsAll [s.costNC (.fin x), dd, dc] [(sumMean ms, σ1), (md, sd), (mc, sc)] :=
    List.Forall₂.cons r1 (List.Forall₂.cons rD (List.Forall₂.cons rC List.Forall₂.nil))
  have hP : ∀ g ∈ [s.costNC (.fin x), dd, dc], g.Proper := by
    intro g hg
    simp only [List.mem_cons, List.not_mem_nil, or_false] at hg
    rcases hg with rfl | rfl | rfl
    exacts [p1, pD, pC]
  obtain ⟨hv, t, σ, e, pt, rt, hσ, qσ⟩ := mixture_of_probabilities _ hP _ hR [pr, pd, pc] rfl
    (by simp [g8, g6, g4]) (by simp; linarith)
  have f1 : pd * md = pd * m2 := by
    rcases cD with h | h
    · rw [h]; ring
    · rw [(eD h).1]
  have f2 : pd * (md ^ 2 + sd ^ 2) = pd * (m2 ^ 2 + s2 ^ 2) := by
    rcases cD with h | h
    · rw [h]; ring
    · rw [(eD h).1, (eD h).2.1]
  have f3 : pc * mc = pc * m3 := by
    rcases cC with h | h
    · rw [h]; ring
    · rw [(eC h).1]
  have f4 : pc * (mc ^ 2 + sc ^ 2) = pc * (m3 ^ 2 + s3 ^ 2) := by
    rcases cC with h | h
    · rw [h]; ring
    · rw [(eC h).1, (eC h).2.1]
  have emean : mixMean [(sumMean ms, σ1), (md, sd), (mc, sc)] [pr, pd, pc] = mix3 pr pd pc (sumMean ms) m2 m3 := by
    simp only [mixMean, List.zipWith_cons_cons, List.zipWith_nil_right, List.sum_cons, List.sum_nil, mix3]
    linarith [f1, f3]
  have esec : mixSecond [(sumMean ms, σ1), (md, sd), (mc, sc)] [pr, pd, pc] =
      mix3 pr pd pc (sumMean ms ^ 2 + σ1 ^ 2) (m2 ^ 2 + s2 ^ 2) (m3 ^ 2 + s3 ^ 2) := by
    simp only [mixSecond, List.zipWith_cons_cons, List.zipWith_nil_right, List.sum_cons, List.sum_nil, mix3]
    linarith [f2, f4]
  rw [emean, esec] at hv qσ
  rw [emean] at rt
  have ht := totalCost_eq s _ him (.fin x) pr pd pc h3 h2 h1 g6 g4 _ _ m2 s2 m3 s3 r1
    (fun h => (kd h).2) (fun h => (kc h).2) hv
  rw [mixture_eq _ _ hR [pr, pd, pc] rfl, emean, esec, abs_of_nonneg hv] at e
  rw [← ht] at e
  refine ⟨t, σ, e, pt, rt, hσ, ?_⟩
  rw [qσ, q1]
  rfl

/-- **C27** The means of the three costs by fate are the three terms of the total mean. -/
theorem costs_by_fate_sum (s : StructCosts) (c d : Option (ℝ × ℝ)) (hc : ∀ p ∈ c, 0 < p.2)
    (hd : ∀ p ∈ d, 0 < p.2) (x : ℝ) (hx : 0 ≤ x) (hcd : d = none ∨ trigger c x ≤ trigger d x)
    (him : s.im = some ⟨dist c, dist d⟩)
    (ms : List (ℝ × ℝ)) (hp : ∀ g ∈ s.comps (.fin x), g.Proper) (hms : ReportsAll (s.comps (.fin x)) ms)
    (hpd : s.demolition.Proper) (hpc : s.rebuild.Proper) :
    ∃ m1 m2 m3 m : ℝ, ∃ t, s.totalCost (.fin x) = some t ∧ t.getMean = .fin m ∧
      (s.costsByFate (.fin x)).1.getMean = .fin m1 ∧ (s.costsByFate (.fin x)).2.1.getMean = .fin m2 ∧
      (s.costsByFate (.fin x)).2.2.getMean = .fin m3 ∧ m = m1 + m2 + m3 := by
  obtain ⟨md, sd, -, -, d1, d2, -⟩ := hpd.moments
  obtain ⟨mc, sc, -, -, c1, c2, -⟩ := hpc.moments
  obtain ⟨pc', pd', pr', g1, g2, g3, g4, g5, g6, g7, g8, g9⟩ :=
    (fates_are_probabilities_iff c d hc hd x hx).2 hcd
  obtain ⟨pr, pd, pc, e1, e2, e3, h⟩ := total_cost_is_mixture s c d hc hd x hx hcd him ms hp hms md sd mc sc
  rw [e3, fin_inj] at g1
  rw [e2, fin_inj] at g2
  rw [e1, fin_inj] at g3
  subst g1 g2 g3
  obtain ⟨t, σ, et, -, rt, -, -⟩ := h (fun _ => ⟨hpd, d1, d2⟩) (fun _ => ⟨hpc, c1, c2⟩)
  obtain ⟨p1, σ1, r1, -, -⟩ := add_adds_moments _ hp ms hms
  have scale : ∀ (g : LogNormalDist) (p m v : ℝ), g.Proper → g.Reports m v → 0 ≤ p →
      (g.adjust (.fin p)).getMean = .fin (p * m) := by
    intro g p m v hg hr hp
    rcases hp.lt_or_eq with h | h
    · exact (scaling g hg p m v h hr).1.1
    · subst h
      rw [(scaling g hg 1 m v one_pos hr).2.2.2.2.1, zero_mul]
  refine ⟨pr * sumMean ms, pd * md, pc * mc, _, t, et, rt.1, ?_, ?_, ?_, rfl⟩
  · simp only [costsByFate, him, e1]
    exact scale _ _ _ _ p1 r1 g8
  · simp only [costsByFate, him, e2]
    exact scale _ _ _ _ hpd ⟨d1, d2⟩ g6
  · simp only [costsByFate, him, e3]
    exact scale _ _ _ _ hpc ⟨c1, c2⟩ g4

/-- Two groups (mean 2 and 3, deviations 1 and 2), rebuilding 100 ± 10, collapse median `e`, no demolition. -/
noncomputable def exampleStructure : StructCosts where
  comps := fun _ => [ofMeanSigma (.fin 2) (.fin 1), ofMeanSigma (.fin 3) (.fin 2)]
  im := some ⟨dist (some (1, 1/2)), dist none⟩
  rebuild := ofMeanSigma (.fin 100) (.fin 10)
  demolition := unset

theorem example_comps : (∀ g ∈ exampleStructure.comps (.fin 1), g.Proper) ∧
    ReportsAll (exampleStructure.comps (.fin 1)) [(2, 1), (3, 2)] := by
  constructor
  · intro g hg
    simp only [exampleStructure, List.mem_cons, List.not_mem_nil, or_false] at hg
    rcases hg with rfl | rfl
    exacts [(proper_const 2 1 (by norm_num) (by norm_num)).1, (proper_const 3 2 (by norm_num) (by norm_num)).1]
  · exact List.Forall₂.cons (proper_const 2 1 (by norm_num) (by norm_num)).2
      (List.Forall₂.cons (proper_const 3 2 (by norm_num) (by norm_num)).2 List.Forall₂.nil)

theorem example_total : ∃ p t, pCollapse ⟨dist (some (1, 1/2)), dist none⟩ (.fin 1) = .fin p ∧ p = trigger (some (1, 1/2)) 1 ∧
    exampleStructure.totalCost (.fin 1) = some t ∧ t.getMean = .fin ((1 - p) * 5 + p * 100) := by
  obtain ⟨pc, pd, pr, g1, g2, g3, g4, g5, g6, -⟩ :=
    fates_partition (some (1, 1/2)) none (by simp) (by simp) 1 (by norm_num)
  obtain ⟨pr', pd', pc', h1, h2, h3, h⟩ := total_cost_is_mixture exampleStructure (some (1, 1/2)) none (by simp)
    (by simp) 1 (by norm_num) (Or.inl rfl) rfl _ example_comps.1 example_comps.2 0 0 100 10
  rw [g1, fin_inj] at h3
  rw [g2, fin_inj] at h2
  rw [g3, fin_inj] at h1
  subst h1 h2 h3
  have h0 := g6 rfl
  obtain ⟨t, σ, et, -, rt, -⟩ := h (fun h => absurd h (by rw [h0]; exact lt_irrefl _))
    (fun _ => proper_const 100 10 (by norm_num) (by norm_num))
  refine ⟨pc, t, g1, g5, et, ?_⟩
  rw [rt.1, fin_inj, h0, show pr = 1 - pc by linarith]
  norm_num [sumMean]

/-- The mean is `5 (1 - p) + 100 p` with `p` the collapse probability, although no demolition cost is set. -/
example : ∃ p t, pCollapse ⟨dist (some (1, 1/2)), dist none⟩ (.fin 1) = .fin p ∧
    exampleStructure.totalCost (.fin 1) = some t ∧ t.getMean = .fin ((1 - p) * 5 + p * 100) :=
  example_total.imp fun _ h => h.imp fun _ h => ⟨h.1, h.2.2⟩

/-- **C27, what fails**: if demolition is triggered later than collapse, the (negative) demolition term is
dropped while the repair probability is not reduced.  Although every fate costs exactly 1, the answer is NaN. -/
theorem total_cost_unordered_fails (s : StructCosts) (mc md sc : ℝ) (hs : 0 < sc) (hlt : mc < md)
    (him : s.im = some ⟨dist (some (mc, sc)), dist (some (md, sc))⟩) (x : ℝ) (hx : 0 < x)
    (hr : s.rebuild = ofMeanSigma (.fin 1) (.fin 0)) (hd : s.demolition = ofMeanSigma (.fin 1) (.fin 0))
    (hn : s.comps (.fin x) = [ofMeanSigma (.fin 1) (.fin 0)]) :
    ∃ t, s.totalCost (.fin x) = some t ∧ t.getMean = .nan := by
  have k1 := pAtMost_pos mc hs hx
  have k2 := pAtMost_pos md hs hx
  set a := Phi ((Real.log x - mc) / sc) with ha
  set b := Phi ((Real.log x - md) / sc) with hb
  have hab : b < a := Phi_strictMono (by gcongr)
  have hb0 : 0 ≤ b := Phi_nonneg _
  have e1 : pCollapse ⟨dist (some (mc, sc)), dist (some (md, sc))⟩ (.fin x) = .fin a := by
    exact k1
  have e2 : pDemolition ⟨dist (some (mc, sc)), dist (some (md, sc))⟩ (.fin x) = .fin (b - a) := by
    show LogNormalDist.pAtMost ⟨.fin md, .fin sc⟩ (.fin x) - pCollapse _ _ = _
    rw [e1, k2, fin_sub]
  have e3 : pRepair ⟨dist (some (mc, sc)), dist (some (md, sc))⟩ (.fin x) = .fin (1 - b) := by
    simp only [pRepair, e1, e2]; simp
  obtain ⟨-, σ, r, hσ, q⟩ := add_adds_moments (s.comps (.fin x)) (by
    rw [hn]; intro g hg; simp only [List.mem_singleton] at hg; subst hg
    exact (proper_const 1 0 one_pos le_rfl).1) [(1, 0)] (by
    rw [hn]; exact List.Forall₂.cons (proper_const 1 0 one_pos le_rfl).2 List.Forall₂.nil)
  have hσ0 : σ = 0 := by
    simpa [sumVar] using q
  subst hσ0
  have hm : (s.costNC (.fin x)).getMean = .fin 1 := by
    have := r.1
    simpa [sumMean, costNC] using this
  have hsd : (s.costNC (.fin x)).getSigma = .fin 0 := r.2
  have hrm : s.rebuild.getMean = .fin 1 := by rw [hr]; exact (proper_const 1 0 one_pos le_rfl).2.1
  have hrs : s.rebuild.getSigma = .fin 0 := by rw [hr]; exact (proper_const 1 0 one_pos le_rfl).2.2
  simp only [totalCost, him, e1, e2, e3, zero_def, fin_lt, hm, hsd, hrm, hrs, show ¬ (0 < b - a) by linarith,
    show (0 : ℝ) < a by linarith, if_true, if_false, fin_mul, fin_add, fin_sub, one_mul, mul_zero, add_zero]
  refine ⟨_, rfl, ?_⟩
  rw [sqrt_neg (by nlinarith)]
  simp [ofMeanSigma, sigmaLnFromMeanSigma, muFromMeanSigmaLn, show 1 - b + a ≠ 0 by linarith, getMean]

/-- A structure as in the hypotheses. -/
example : ∃ t, totalCost ⟨fun _ => [ofMeanSigma (.fin 1) (.fin 0)], some ⟨dist (some (0, 1)), dist (some (1, 1))⟩,
    ofMeanSigma (.fin 1) (.fin 0), ofMeanSigma (.fin 1) (.fin 0)⟩ (.fin 2) = some t ∧ t.getMean = .nan :=
  total_cost_unordered_fails _ 0 1 1 one_pos one_pos rfl 2 (by norm_num) rfl rfl rfl

/-- A structure without components has no intensity measure: asking its total cost uses a null pointer,
while its costs by fate are unset. -/
theorem empty_total_cost_fails (x : Dbl) : init.totalCost x = none ∧ init.costsByFate x = (unset, unset, unset) :=
  ⟨rfl, rfl⟩

/-! ### C50: cost with and without collapse -/

/-- Without collapse the cost is the sum of the component costs; with collapse it is the mixture of that and
the rebuilding cost, and equals the total cost if no demolition distribution is set; its mean is the sum of
the two deaggregated means. -/
theorem cost_with_collapse (s : StructCosts) (c : Option (ℝ × ℝ)) (hc : ∀ p ∈ c, 0 < p.2)
    (x : ℝ) (hx : 0 ≤ x) (him : s.im = some ⟨dist c, dist none⟩)
    (ms : List (ℝ × ℝ)) (hp : ∀ g ∈ s.comps (.fin x), g.Proper) (hms : ReportsAll (s.comps (.fin x)) ms)
    (m3 s3 : ℝ) (hb : s.rebuild.Proper) (hr : s.rebuild.Reports m3 s3) :
    ∃ t t0 : LogNormalDist, ∃ d : LogNormalDist × LogNormalDist, ∃ σ p m1 m2 : ℝ,
      s.cost (.fin x) false = some t0 ∧ t0.getMean = .fin (sumMean ms) ∧
      pCollapse ⟨dist c, dist none⟩ (.fin x) = .fin p ∧
      s.cost (.fin x) true = some t ∧ t.Reports ((1 - p) * sumMean ms + p * m3) σ ∧ 0 ≤ σ ∧
      σ ^ 2 = (1 - p) * (sumMean ms ^ 2 + sumVar ms) + p * (m3 ^ 2 + s3 ^ 2) - ((1 - p) * sumMean ms + p * m3) ^ 2 ∧
      s.totalCost (.fin x) = some t ∧
      s.deaggregated (.fin x) = some d ∧ d.1.getMean = .fin m1 ∧ d.2.getMean = .fin m2 ∧
      t.getMean = .fin (m1 + m2) := by
  obtain ⟨pc, pd, pr, h1, h2, h3, h4, -, h5, -⟩ := fates_partition c none hc (by simp) x hx
  obtain ⟨pc', pd', pr', g1, g2, g3, g4, g5, -⟩ :=
    (fates_are_probabilities_iff c none hc (by simp) x hx).2 (Or.inl rfl)
  rw [h1, fin_inj] at g1
  subst g1
  have h0 := h5 rfl
  subst h0
  have hpr : pr = 1 - pc := by linarith
  subst hpr
  obtain ⟨p1, σ1, r1, hσ1, q1⟩ := add_adds_moments _ hp ms hms
  have hR : ReportsAll [s.costNC (.fin x), s.rebuild] [(sumMean ms, σ1), (m3, s3)] :=
    List.Forall₂.cons r1 (List.Forall₂.cons hr List.Forall₂.nil)
  have hP : ∀ g ∈ [s.costNC (.fin x), s.rebuild], g.Proper := by
    intro g hg
    simp only [List.mem_cons, List.not_mem_nil, or_false] at hg
    rcases hg with rfl | rfl
    exacts [p1, hb]
  obtain ⟨hv, t, σ, e, pt, rt, hσ, qσ⟩ := mixture_of_probabilities _ hP _ hR [1 - pc, pc] rfl
    (by simp [g4, g5]) (by simp)
  have emean : mixMean [(sumMean ms, σ1), (m3, s3)] [1 - pc, pc] = (1 - pc) * sumMean ms + pc * m3 := by
    simp [mixMean]
  have esec : mixSecond [(sumMean ms, σ1), (m3, s3)] [1 - pc, pc] =
      (1 - pc) * (sumMean ms ^ 2 + σ1 ^ 2) + pc * (m3 ^ 2 + s3 ^ 2) := by
    simp [mixSecond]
  rw [emean, esec] at hv qσ
  rw [emean] at rt
  have hm3 : mix3 (1 - pc) 0 pc (sumMean ms) 0 m3 = (1 - pc) * sumMean ms + pc * m3 := by simp [mix3]
  have hs3 : mix3 (1 - pc) 0 pc (sumMean ms ^ 2 + σ1 ^ 2) (0 ^ 2 + 0 ^ 2) (m3 ^ 2 + s3 ^ 2) =
      (1 - pc) * (sumMean ms ^ 2 + σ1 ^ 2) + pc * (m3 ^ 2 + s3 ^ 2) := by simp [mix3]
  have ht := totalCost_eq s _ him (.fin x) (1 - pc) 0 pc h3 h2 h1 le_rfl g4 _ _ 0 0 m3 s3 r1
    (fun h => absurd h (lt_irrefl _)) (fun _ => hr) (by rw [hm3, hs3]; exact hv)
  rw [hm3, hs3] at ht
  have scale : ∀ (g : LogNormalDist) (p m v : ℝ), g.Proper → g.Reports m v → 0 ≤ p →
      (g.adjust (.fin p)).getMean = .fin (p * m) := by
    intro g p m v hg hr hp
    rcases hp.lt_or_eq with h | h
    · exact (scaling g hg p m v h hr).1.1
    · subst h
      rw [(scaling g hg 1 m v one_pos hr).2.2.2.2.1, zero_mul]
  refine ⟨t, _, ((s.costNC (.fin x)).adjust (.fin (1 - pc)), s.rebuild.adjust (.fin pc)), σ, pc, (1 - pc) * sumMean ms, pc * m3, rfl, r1.1, h1, ?_, rt, hσ, ?_, ?_, ?_, ?_, ?_, rt.1⟩
  · simp only [cost, him, h1, if_true, one_def, fin_sub]
    exact e
  · rw [qσ, q1]
  · rw [ht]
    rw [mixture_eq _ _ hR [1 - pc, pc] rfl, emean, esec, abs_of_nonneg hv] at e
    exact e
  · simp [deaggregated, him, h1]
  · exact scale _ _ _ _ p1 r1 (by linarith)
  · exact scale _ _ _ _ hb hr g4

example : ∃ t, exampleStructure.cost (.fin 1) true = some t ∧ exampleStructure.totalCost (.fin 1) = some t := by
  obtain ⟨t, -, -, -, -, -, -, -, -, -, h1, -, -, -, h2, -⟩ := cost_with_collapse exampleStructure (some (1, 1/2))
    (by simp) 1 (by norm_num) rfl _ example_comps.1 example_comps.2 100 10
    (proper_const 100 10 (by norm_num) (by norm_num)).1 (proper_const 100 10 (by norm_num) (by norm_num)).2
  exact ⟨t, h1, h2⟩

end StructCosts

/-! ### C28: discounting -/

theorem discounted_eq (a r : ℝ) (y : ℤ) (hr : r ≠ 0) :
    discounted (.fin a) y (.fin r) = .fin ((1 - Real.exp (-r * y)) / r * a) := by
  simp [discounted, fin_div_of_ne hr]

/-- The present value of a constant stream of `a` per year over `y` years at rate `r`: the integral of
`a exp(-rt)` over the period. -/
theorem discounted_is_present_value (a r : ℝ) (y : ℤ) (hr : r ≠ 0) :
    discounted (.fin a) y (.fin r) = .fin (∫ t in (0 : ℝ)..y, a * Real.exp (-r * t)) := by
  rw [discounted_eq a r y hr, intervalIntegral.integral_const_mul,
    intervalIntegral.integral_comp_mul_left (f := Real.exp) (neg_ne_zero.2 hr), integral_exp]
  congr 1
  simp only [mul_zero, Real.exp_zero, smul_eq_mul]
  field_simp
  ring

/-- **C28** With a positive rate and a non-negative annual cost: nothing at year 0, more in later years, at
most `a` per year, below the perpetuity `a / r` and tending to it; periods compose. -/
theorem discounted_grows (a r : ℝ) (ha : 0 ≤ a) (hr : 0 < r) :
    discounted (.fin a) 0 (.fin r) = .fin 0 ∧
    (∀ y z : ℤ, y ≤ z → discounted (.fin a) y (.fin r) ≤ discounted (.fin a) z (.fin r)) ∧
    (∀ y : ℤ, 0 ≤ y → discounted (.fin a) y (.fin r) ≤ .fin (a * y)) ∧
    (0 < a → ∀ y : ℤ, discounted (.fin a) y (.fin r) < .fin (a / r)) ∧
    (∀ y z : ℤ, discounted (.fin a) (y + z) (.fin r) =
      discounted (.fin a) y (.fin r) + .fin (Real.exp (-r * y)) * discounted (.fin a) z (.fin r)) ∧
    (∀ ε : ℝ, 0 < ε → ∃ y : ℤ, Dbl.fin (a / r - ε) < discounted (.fin a) y (.fin r)) := by
  refine ⟨?_, ?_, ?_, ?_, ?_, ?_⟩
  · rw [discounted_eq _ _ _ hr.ne']; simp
  · intro y z h
    rw [discounted_eq _ _ _ hr.ne', discounted_eq _ _ _ hr.ne', fin_le]
    have : Real.exp (-r * z) ≤ Real.exp (-r * y) := by
      apply Real.exp_le_exp.2
      have : (y : ℝ) ≤ z := by exact_mod_cast h
      nlinarith
    gcongr
  · intro y h
    rw [discounted_eq _ _ _ hr.ne', fin_le]
    have := Real.add_one_le_exp (-r * y)
    have h2 : (1 - Real.exp (-r * y)) / r ≤ y := by
      rw [div_le_iff₀ hr]; linarith
    nlinarith
  · intro ha y
    rw [discounted_eq _ _ _ hr.ne', fin_lt]
    have := Real.exp_pos (-r * y)
    rw [div_mul_eq_mul_div]
    gcongr
    nlinarith
  · intro y z
    simp only [discounted_eq _ _ _ hr.ne', fin_mul, fin_add, fin_inj]
    rw [show -r * ((y + z : ℤ) : ℝ) = -r * y + -r * z by push_cast; ring, Real.exp_add]
    field_simp
    ring
  · intro ε hε
    obtain ⟨n, hn⟩ := exists_nat_gt (a / (r * ε) / r)
    refine ⟨n, ?_⟩
    rw [discounted_eq _ _ _ hr.ne', fin_lt]
    have h1 : a / (r * ε) < r * n := by
      rw [div_lt_iff₀ hr] at hn; linarith
    have h2 : Real.exp (-r * n) * (a / r) < ε := by
      have h3 := Real.add_one_le_exp (r * n)
      have h4 : Real.exp (-r * n) * Real.exp (r * n) = 1 := by
        rw [← Real.exp_add]; simp
      have h5 := Real.exp_pos (-r * n)
      have h6 : a / r < Real.exp (r * n) * ε := by
        have : a / r = a / (r * ε) * ε := by field_simp
        rw [this]
        gcongr
        linarith
      calc Real.exp (-r * n) * (a / r) < Real.exp (-r * n) * (Real.exp (r * n) * ε) := by gcongr
        _ = ε := by rw [← mul_assoc, h4, one_mul]
    have : (1 - Real.exp (-r * n)) / r * a = a / r - Real.exp (-r * n) * (a / r) := by ring
    push_cast
    linarith

example : discounted (.fin 1000) 10 (.fin (3/50)) ≤ discounted (.fin 1000) 20 (.fin (3/50)) :=
  (discounted_grows 1000 (3/50) (by norm_num) (by norm_num)).2.1 10 20 (by norm_num)

/-- **C28, what fails**: at rate zero the answer is NaN instead of annual cost × years. -/
theorem zero_rate_fails (a : ℝ) (y : ℤ) : discounted (.fin a) y (.fin 0) = .nan := by
  simp [discounted, fin_div, infTimes]

/-! ### C51: annual cost -/

/-- When both integrations succeed with a positive mean, the annual cost reports the first integral as its mean
and its variance is the absolute difference between the second integral and the squared mean. -/
theorem annual_cost_reports (maq : (Dbl → Dbl) → Bool × Dbl) (total : Dbl → LogNormalDist) (deriv : Dbl → Dbl)
    (m q : ℝ) (hm : 0 < m) (h1 : maq (fun x => (total x).getMean * abs (deriv x)) = (true, .fin m))
    (h2 : maq (fun x => ((total x).getMean * (total x).getMean + (total x).getSigma * (total x).getSigma) *
      abs (deriv x)) = (true, .fin q)) :
    ∃ s : ℝ, (calcAnnualCost maq true total deriv).Reports m s ∧ 0 ≤ s ∧ s ^ 2 = |q - m ^ 2| := by
  refine ⟨Real.sqrt |q - m ^ 2|, ?_, Real.sqrt_nonneg _, Real.sq_sqrt (abs_nonneg _)⟩
  simp only [calcAnnualCost, h1, h2, if_true, fin_mul, fin_sub, abs_fin, ← sq]
  rw [sqrt_fin (abs_nonneg _)]
  exact ⟨getMean_ofMeanSigma_pos hm _, by
    rw [getSigma_ofMeanSigma_pos hm, abs_of_nonneg (Real.sqrt_nonneg _)]⟩

/-- No components, or a failed integration of the mean: the mean annual cost is NaN, and so is every discounted
cost. -/
theorem annual_cost_nan (maq : (Dbl → Dbl) → Bool × Dbl) (total : Dbl → LogNormalDist) (deriv : Dbl → Dbl)
    (nonempty : Bool)
    (h : nonempty = false ∨ (maq (fun x => (total x).getMean * abs (deriv x))).1 = false) :
    (calcAnnualCost maq nonempty total deriv).getMean = .nan ∧
    ∀ y r, discounted (calcAnnualCost maq nonempty total deriv).getMean y r = .nan := by
  have key : (calcAnnualCost maq nonempty total deriv).getMean = .nan := by
    rcases h with h | h
    · simp [calcAnnualCost, h, ofMeanSigma, muFromMeanSigmaLn, getMean]
    · have hn : ∀ v, (ofMeanSigma .nan v).getMean = .nan := by
        intro v; simp [ofMeanSigma, muFromMeanSigmaLn, getMean]
      cases nonempty
      · exact hn _
      · simp only [calcAnnualCost, h, if_true]
        exact hn _
  refine ⟨key, fun y r => ?_⟩
  rw [key, discounted, mul_nan]

example : (calcAnnualCost (fun _ => (true, .fin 7)) true (fun _ => unset) (fun _ => .fin 1)).getMean = .fin 7 := by
  obtain ⟨s, h, -⟩ := annual_cost_reports (fun _ => (true, .fin 7)) (fun _ => unset) (fun _ => .fin 1) 7 7
    (by norm_num) rfl rfl
  exact h.1

/-- `pdf` is what the annual cost integrates: if both integrations succeed, its integral is the mean annual cost. -/
theorem annual_cost_integrates_pdf (maq : (Dbl → Dbl) → Bool × Dbl) (s : StructCosts) (deriv g : Dbl → Dbl)
    (total : Dbl → LogNormalDist) (ht : ∀ x, s.totalCost x = some (total x)) (hg : ∀ x, s.pdf deriv x = some (g x))
    (m q : ℝ) (hm : 0 < m) (h1 : maq g = (true, .fin m))
    (h2 : maq (fun x => ((total x).getMean * (total x).getMean + (total x).getSigma * (total x).getSigma) *
      abs (deriv x)) = (true, .fin q)) : (calcAnnualCost maq true total deriv).getMean = .fin m := by
  have he : (fun x => (total x).getMean * abs (deriv x)) = g := by
    funext x
    have := hg x
    simpa [StructCosts.pdf, ht x] using this
  obtain ⟨_, h, -⟩ := annual_cost_reports maq total deriv m q hm (he ▸ h1) h2
  exact h.1

/-- For a non-negative expected cost it is non-negative, whatever the sign of the derivative of the hazard curve: the
expected cost times the rate density of the intensity. -/
theorem pdf_nonneg (s : StructCosts) (deriv : Dbl → Dbl) (x : Dbl) (d : LogNormalDist) (m y : ℝ)
    (ht : s.totalCost x = some d) (hd : d.getMean = .fin m) (hm : 0 ≤ m) (hy : deriv x = .fin y) :
    ∃ z, s.pdf deriv x = some (.fin z) ∧ 0 ≤ z ∧ (y ≤ 0 → z = m * -y) := by
  refine ⟨m * |y|, ?_, mul_nonneg hm (abs_nonneg _), fun h => by rw [abs_of_nonpos h]⟩
  simp [StructCosts.pdf, ht, hd, hy, fin_mul]

/-- The structure of the examples above, on a hazard curve of slope -2. -/
example : ∃ p z, p = trigger (some (1, 1/2)) 1 ∧ StructCosts.exampleStructure.pdf (fun _ => .fin (-2)) (.fin 1) =
    some (.fin z) ∧    z = 2 * ((1 - p) * 5 + p * 100) := by
  obtain ⟨p, t, -, hp, ht, hm⟩ := StructCosts.example_total
  have h0 := trigger_nonneg (some (1, 1/2)) 1
  have h1 := trigger_le_one (some (1, 1/2)) 1
  obtain ⟨z, hz, -, h⟩ := pdf_nonneg StructCosts.exampleStructure (fun _ => .fin (-2)) (.fin 1) t _ (-2) ht hm
    (by rw [hp]; nlinarith) rfl
  exact ⟨p, z, hp, hz, by rw [h (by norm_num)]; ring⟩

/-- When only the integration for the spread fails, the mean that was found is lost. -/
theorem annual_cost_nan_without_spread (maq : (Dbl → Dbl) → Bool × Dbl) (total : Dbl → LogNormalDist) (deriv : Dbl → Dbl)
    (m : ℝ) (hm : m ≠ 0) (h1 : maq (fun x => (total x).getMean * abs (deriv x)) = (true, .fin m))
    (h2 : (maq (fun x => ((total x).getMean * (total x).getMean + (total x).getSigma * (total x).getSigma) *
      abs (deriv x))).1 = false) : (calcAnnualCost maq true total deriv).getMean = .nan := by
  simp only [calcAnnualCost, h1, h2, if_true]
  simp [ofMeanSigma, sigmaLnFromMeanSigma, muFromMeanSigmaLn, getMean, hm]

open Classical in
/-- Only the first of the two integrands, which is 7 everywhere, can be integrated. -/
example : (calcAnnualCost (fun f => (decide (f 0 = .fin 7), .fin 7)) true (fun _ => ofMeanSigma (.fin 7) (.fin 1))
    (fun _ => .fin 1)).getMean = .nan := by
  have hg := getMean_ofMeanSigma_pos (m := 7) (by norm_num) 1
  have hs := getSigma_ofMeanSigma_pos (m := 7) (by norm_num) 1
  refine annual_cost_nan_without_spread _ _ _ 7 (by norm_num) ?_ ?_
  · simp [hg]
  · simp [hg, hs]; norm_num

end Slat
