import Verif.FatesModel
import Verif.LogNormalProps

/-!
# Properties of the fate probabilities (C26)
-/

namespace Slat.Fates

open Dbl LogNormalDist

/-- Spec: probability that the intensity needed to trigger the fate (log-normal with the given parameters)
is at most `x`; never for an unset distribution. -/
noncomputable def trigger (o : Option (ℝ × ℝ)) (x : ℝ) : ℝ :=
  match o with
  | none => 0
  | some (m, s) => (LN m s).real (Set.Iic x)

/-- The distribution with given parameters. -/
def dist (o : Option (ℝ × ℝ)) : Option LogNormalDist := o.map (fun p => ⟨.fin p.1, .fin p.2⟩)

theorem pCollapse_eq {c d : Option (ℝ × ℝ)} (hc : ∀ p ∈ c, 0 < p.2) {x : ℝ} (hx : 0 ≤ x) :
    pCollapse ⟨dist c, dist d⟩ (.fin x) = .fin (trigger c x) := by
  cases c with
  | none => rfl
  | some p =>
    simp only [pCollapse, dist, Option.map_some, trigger]
    exact (p_at_most_is_cdf p.1 (hc p rfl) hx).1

/-- At every non-negative intensity the three probabilities are numbers adding up to 1, collapse has the
probability given by its distribution, and repair plus demolition the rest; with a demolition distribution,
demolition or collapse together have the probability given by it. -/
theorem fates_partition (c d : Option (ℝ × ℝ)) (hc : ∀ p ∈ c, 0 < p.2) (hd : ∀ p ∈ d, 0 < p.2) (x : ℝ) (hx : 0 ≤ x) :
    ∃ pc pd pr : ℝ,
      pCollapse ⟨dist c, dist d⟩ (.fin x) = .fin pc ∧ pDemolition ⟨dist c, dist d⟩ (.fin x) = .fin pd ∧
      pRepair ⟨dist c, dist d⟩ (.fin x) = .fin pr ∧
      pr + pd + pc = 1 ∧ pc = trigger c x ∧
      (d = none → pd = 0) ∧ (d.isSome → pd + pc = trigger d x) := by
  cases d with
  | none =>
    refine ⟨trigger c x, 0, 1 - trigger c x, pCollapse_eq hc hx, rfl, ?_, by ring, rfl, fun _ => rfl, by simp⟩
    have h2 : pDemolition ⟨dist c, dist none⟩ (.fin x) = .fin 0 := rfl
    simp only [pRepair, pCollapse_eq hc hx, h2]
    simp
  | some q =>
    have h1 := (p_at_most_is_cdf q.1 (hd q rfl) hx).1
    have h2 : pDemolition ⟨dist c, dist (some q)⟩ (.fin x) = .fin (trigger (some q) x - trigger c x) := by
      show LogNormalDist.pAtMost ⟨.fin q.1, .fin q.2⟩ (.fin x) - pCollapse ⟨dist c, dist (some q)⟩ (.fin x) = _
      rw [h1, pCollapse_eq hc hx, fin_sub]
      rfl
    refine ⟨trigger c x, trigger (some q) x - trigger c x, 1 - trigger (some q) x, pCollapse_eq hc hx, h2, ?_,
      by ring, rfl, by simp, fun _ => by ring⟩
    simp only [pRepair, pCollapse_eq hc hx, h2]
    simp

/-- A building that collapses at a median intensity of `e` and is demolished at a median of 1. -/
example : ∃ pc pd pr : ℝ,
    pCollapse ⟨dist (some (1, 1/2)), dist (some (0, 1/2))⟩ (.fin 2) = .fin pc ∧
    pDemolition ⟨dist (some (1, 1/2)), dist (some (0, 1/2))⟩ (.fin 2) = .fin pd ∧
    pRepair ⟨dist (some (1, 1/2)), dist (some (0, 1/2))⟩ (.fin 2) = .fin pr ∧ pr + pd + pc = 1 := by
  obtain ⟨pc, pd, pr, h1, h2, h3, h4, -⟩ := fates_partition (some (1, 1/2)) (some (0, 1/2))
    (by simp) (by simp) 2 (by norm_num)
  exact ⟨pc, pd, pr, h1, h2, h3, h4⟩

theorem trigger_nonneg (o : Option (ℝ × ℝ)) (x : ℝ) : 0 ≤ trigger o x := by
  cases o with
  | none => exact le_rfl
  | some p => exact MeasureTheory.measureReal_nonneg

theorem trigger_le_one (o : Option (ℝ × ℝ)) (x : ℝ) : trigger o x ≤ 1 := by
  cases o with
  | none => exact zero_le_one
  | some p =>
    have : MeasureTheory.IsProbabilityMeasure (LN p.1 p.2) := by
      rw [LN]
      exact MeasureTheory.Measure.isProbabilityMeasure_map Real.measurable_exp.aemeasurable
    exact MeasureTheory.measureReal_le_one

/-- They are probabilities exactly when no demolition distribution is set or, at that intensity, demolition or
collapse is at least as likely as collapse. -/
theorem fates_are_probabilities_iff (c d : Option (ℝ × ℝ)) (hc : ∀ p ∈ c, 0 < p.2) (hd : ∀ p ∈ d, 0 < p.2)
    (x : ℝ) (hx : 0 ≤ x) :
    (∃ pc pd pr : ℝ,
      pCollapse ⟨dist c, dist d⟩ (.fin x) = .fin pc ∧ pDemolition ⟨dist c, dist d⟩ (.fin x) = .fin pd ∧
      pRepair ⟨dist c, dist d⟩ (.fin x) = .fin pr ∧
      0 ≤ pc ∧ pc ≤ 1 ∧ 0 ≤ pd ∧ pd ≤ 1 ∧ 0 ≤ pr ∧ pr ≤ 1) ↔ (d = none ∨ trigger c x ≤ trigger d x) := by
  obtain ⟨pc, pd, pr, h1, h2, h3, h4, h5, h6, h7⟩ := fates_partition c d hc hd x hx
  have hc0 := trigger_nonneg c x
  have hc1 := trigger_le_one c x
  have hd0 := trigger_nonneg d x
  have hd1 := trigger_le_one d x
  constructor
  · rintro ⟨pc', pd', pr', g1, g2, g3, -, -, g4, -⟩
    rw [h2, fin_inj] at g2
    cases d with
    | none => exact Or.inl rfl
    | some q =>
      right
      have := h7 rfl
      linarith
  · intro h
    refine ⟨pc, pd, pr, h1, h2, h3, ?_⟩
    cases d with
    | none =>
      have := h6 rfl
      refine ⟨?_, ?_, ?_, ?_, ?_, ?_⟩ <;> linarith
    | some q =>
      have := h7 rfl
      have h := h.resolve_left (by simp)
      refine ⟨?_, ?_, ?_, ?_, ?_, ?_⟩ <;> linarith

example : ∃ pc pd pr : ℝ, pCollapse ⟨dist (some (1, 1/2)), dist none⟩ (.fin 2) = .fin pc ∧
    pDemolition ⟨dist (some (1, 1/2)), dist none⟩ (.fin 2) = .fin pd ∧
    pRepair ⟨dist (some (1, 1/2)), dist none⟩ (.fin 2) = .fin pr ∧
    0 ≤ pc ∧ pc ≤ 1 ∧ 0 ≤ pd ∧ pd ≤ 1 ∧ 0 ≤ pr ∧ pr ≤ 1 :=
  (fates_are_probabilities_iff (some (1, 1/2)) none (by simp) (by simp) 2 (by norm_num)).2 (Or.inl rfl)

/-- With both distributions set, demolition never gets a negative probability exactly when the two have the
same dispersion and the demolition median is not above the collapse median: with different dispersions
there is always an intensity at which `pDemolition` is negative. -/
theorem demolition_nonneg_iff (mc sc md sd : ℝ) (hc : 0 < sc) (hd : 0 < sd) :
    (∀ x : ℝ, 0 ≤ x → (0 : Dbl) ≤ pDemolition ⟨dist (some (mc, sc)), dist (some (md, sd))⟩ (.fin x)) ↔
      (sd = sc ∧ md ≤ mc) := by
  have key : ∀ x : ℝ, 0 < x →
      pDemolition ⟨dist (some (mc, sc)), dist (some (md, sd))⟩ (.fin x) =
        .fin (Phi ((Real.log x - md) / sd) - Phi ((Real.log x - mc) / sc)) := by
    intro x hx
    simp only [pDemolition, pCollapse, dist, Option.map_some]
    rw [pAtMost_pos md hd hx, pAtMost_pos mc hc hx, fin_sub]
  constructor
  · intro h
    have h' : ∀ y : ℝ, (y - mc) / sc ≤ (y - md) / sd := by
      intro y
      have := h (Real.exp y) (Real.exp_pos y).le
      rw [key _ (Real.exp_pos y), zero_def, fin_le, Real.log_exp, sub_nonneg] at this
      exact Phi_strictMono.le_iff_le.1 this
    have h2 : ∀ y : ℝ, (y - mc) * sd ≤ (y - md) * sc := by
      intro y
      have := h' y
      rwa [div_le_div_iff₀ hc hd] at this
    have hs : sd = sc := by
      by_contra hne
      have hne' : sd - sc ≠ 0 := sub_ne_zero.2 hne
      have := h2 ((mc * sd - md * sc + 1) / (sd - sc))
      have e : (mc * sd - md * sc + 1) / (sd - sc) * (sd - sc) = mc * sd - md * sc + 1 := div_mul_cancel₀ _ hne'
      nlinarith
    refine ⟨hs, ?_⟩
    have := h2 0
    rw [hs] at this
    nlinarith
  · rintro ⟨hs, hm⟩ x hx
    subst hs
    rcases hx.lt_or_eq with h | h
    · rw [key x h, zero_def, fin_le, sub_nonneg]
      apply Phi_strictMono.monotone
      gcongr
    · subst h
      simp only [pDemolition, pCollapse, dist, Option.map_some]
      rw [pAtMost_zero md hc, pAtMost_zero mc hc]
      simp

/-- Different dispersions: some intensity has a negative demolition probability. -/
example : ∃ x : ℝ, 0 ≤ x ∧
    ¬ (0 : Dbl) ≤ pDemolition ⟨dist (some (1, 1/2)), dist (some (0, 2/5))⟩ (.fin x) := by
  have := (demolition_nonneg_iff 1 (1/2) 0 (2/5) (by norm_num) (by norm_num)).not.2 (by norm_num)
  push Not at this
  exact this

/-- The last setting of each distribution is the one in force, in whatever order they were set. -/
theorem settings_independent (f : Fates) (c c' d : LogNormalDist) (x : Dbl) :
    (((f.setCollapse c').setDemolition d).setCollapse c).pDemolition x = d.pAtMost x - c.pAtMost x ∧
    (((f.setCollapse c').setCollapse c).setDemolition d).pDemolition x = d.pAtMost x - c.pAtMost x ∧
    (init.setDemolition d).pCollapse x = 0 ∧ (init.setCollapse c).pDemolition x = 0 ∧ init.pRepair x = 1 := by
  refine ⟨rfl, rfl, rfl, rfl, ?_⟩
  simp [init, pRepair, pDemolition, pCollapse]

end Slat.Fates
