import Verif.LogNormalLemmas

/-!
# Sums, mixtures and scaling of log-normal distributions (C16-C18)
-/

namespace Slat

open Dbl

namespace LogNormalDist

/-- What a client reads off a distribution: mean `m` and standard deviation `s`. -/
def Reports (d : LogNormalDist) (m s : ℝ) : Prop := d.getMean = .fin m ∧ d.getSigma = .fin s

/-- A list of distributions reports a list of (mean, standard deviation) pairs. -/
def ReportsAll (ds : List LogNormalDist) (ms : List (ℝ × ℝ)) : Prop :=
  List.Forall₂ (fun d p => d.Reports p.1 p.2) ds ms

/-- Spec: sum of the means. -/
def sumMean (ms : List (ℝ × ℝ)) : ℝ := (ms.map (fun p => p.1)).sum
/-- Spec: sum of the variances. -/
def sumVar (ms : List (ℝ × ℝ)) : ℝ := (ms.map (fun p => p.2 ^ 2)).sum
/-- Spec: weighted mean. -/
def mixMean (ms : List (ℝ × ℝ)) (ws : List ℝ) : ℝ := (List.zipWith (fun p w => w * p.1) ms ws).sum
/-- Spec: weighted second moment. -/
def mixSecond (ms : List (ℝ × ℝ)) (ws : List ℝ) : ℝ :=
  (List.zipWith (fun p w => w * (p.1 ^ 2 + p.2 ^ 2)) ms ws).sum

/-! ### C16 -/

theorem offDiagonal_eq (sdi var : ℝ) (ds : List LogNormalDist) (ms : List (ℝ × ℝ)) (h : ReportsAll ds ms) :
    offDiagonal (.fin sdi) (.fin var) ds = .fin var := by
  induction h generalizing var with
  | nil => rfl
  | cons h1 _ ih =>
    simp only [offDiagonal, List.foldl_cons, h1.2] at ih ⊢
    simp only [zero_def, fin_mul, fin_add, zero_mul, add_zero] at ih ⊢
    exact ih var

theorem addLoop_eq (ds : List LogNormalDist) (ms : List (ℝ × ℝ)) (h : ReportsAll ds ms) (mean var : ℝ) :
    addLoop ds (.fin mean) (.fin var) = (.fin (mean + sumMean ms), .fin (var + sumVar ms)) := by
  induction h generalizing mean var with
  | nil => simp [addLoop, sumMean, sumVar]
  | cons h1 h2 ih =>
    simp only [addLoop, h1.1, h1.2, fin_add, fin_mul]
    rw [offDiagonal_eq _ _ _ _ h2, ih]
    simp only [sumMean, sumVar, List.map_cons, List.sum_cons, Prod.mk.injEq, fin_inj]
    constructor <;> ring

theorem sumVar_nonneg (ms : List (ℝ × ℝ)) : 0 ≤ sumVar ms := by
  apply List.sum_nonneg
  intro x hx
  obtain ⟨p, -, rfl⟩ := List.mem_map.1 hx
  positivity

theorem add_eq (ds : List LogNormalDist) (ms : List (ℝ × ℝ)) (h : ReportsAll ds ms) :
    addDistributions ds = ofMeanSigma (.fin (sumMean ms)) (.fin (Real.sqrt (sumVar ms))) := by
  have := addLoop_eq ds ms h 0 0
  simp only [zero_add] at this
  simp only [addDistributions, zero_def, this, sqrt_fin (sumVar_nonneg ms)]

/-- Every usable list reports moments, with zero spread where the mean is zero. -/
theorem exists_reports (ds : List LogNormalDist) (h : ∀ d ∈ ds, d.Proper) :
    ∃ ms, ReportsAll ds ms ∧ ∀ p ∈ ms, 0 ≤ p.1 ∧ 0 ≤ p.2 ∧ (p.1 = 0 → p.2 = 0) := by
  induction ds with
  | nil => exact ⟨[], List.Forall₂.nil, by simp⟩
  | cons d ds ih =>
    obtain ⟨ms, h1, h2⟩ := ih (fun d hd => h d (List.mem_cons_of_mem _ hd))
    obtain ⟨m, s, hm, hs, e1, e2, h0⟩ := (h d List.mem_cons_self).moments
    refine ⟨(m, s) :: ms, List.Forall₂.cons ⟨e1, e2⟩ h1, ?_⟩
    intro p hp
    rcases List.mem_cons.1 hp with rfl | hp
    · exact ⟨hm, hs, h0⟩
    · exact h2 p hp

theorem reportsAll_unique {ds : List LogNormalDist} {ms ns : List (ℝ × ℝ)} (h : ReportsAll ds ms)
    (h' : ReportsAll ds ns) : ms = ns := by
  induction h generalizing ns with
  | nil => cases h'; rfl
  | cons h1 _ ih =>
    cases h' with
    | cons h1' h2' =>
      rename_i d p l1 l2 hh q l3
      rw [ih h2']
      congr 1
      have e1 := h1.1.symm.trans h1'.1
      have e2 := h1.2.symm.trans h1'.2
      exact Prod.ext (fin_injective e1) (fin_injective e2)

theorem sumMean_nonneg {ms : List (ℝ × ℝ)} (h : ∀ p ∈ ms, 0 ≤ p.1) : 0 ≤ sumMean ms := by
  apply List.sum_nonneg
  intro x hx
  obtain ⟨p, hp, rfl⟩ := List.mem_map.1 hx
  exact h p hp

theorem sumVar_zero {ms : List (ℝ × ℝ)} (h : ∀ p ∈ ms, 0 ≤ p.1 ∧ (p.1 = 0 → p.2 = 0)) (h0 : sumMean ms = 0) :
    sumVar ms = 0 := by
  induction ms with
  | nil => rfl
  | cons p ms ih =>
    have h1 := h p List.mem_cons_self
    have h2 := sumMean_nonneg (fun p hp => (h p (List.mem_cons_of_mem _ hp)).1)
    simp only [sumMean, sumVar, List.map_cons, List.sum_cons] at h0 h2 ih ⊢
    have hp : p.1 = 0 := by linarith [h1.1]
    rw [ih (fun p hp => h p (List.mem_cons_of_mem _ hp)) (by linarith), h1.2 hp]
    norm_num

theorem reportsAll_moment_facts {ds : List LogNormalDist} {ms : List (ℝ × ℝ)} (hd : ∀ d ∈ ds, d.Proper)
    (h : ReportsAll ds ms) : ∀ p ∈ ms, 0 ≤ p.1 ∧ 0 ≤ p.2 ∧ (p.1 = 0 → p.2 = 0) := by
  obtain ⟨ns, h1, h2⟩ := exists_reports ds hd
  rw [reportsAll_unique h h1]
  exact h2

/-- Adding usable distributions gives a usable distribution whose mean is the sum of the means and whose
variance is the sum of the variances. -/
theorem add_adds_moments (ds : List LogNormalDist) (hd : ∀ d ∈ ds, d.Proper) (ms : List (ℝ × ℝ))
    (h : ReportsAll ds ms) :
    (addDistributions ds).Proper ∧
    ∃ s : ℝ, (addDistributions ds).Reports (sumMean ms) s ∧ 0 ≤ s ∧ s ^ 2 = sumVar ms := by
  have hf := reportsAll_moment_facts hd h
  have hm := sumMean_nonneg (fun p hp => (hf p hp).1)
  rw [add_eq ds ms h]
  refine ⟨proper_ofMeanSigma hm _, ?_⟩
  rcases hm.lt_or_eq with h1 | h1
  · exact ⟨Real.sqrt (sumVar ms), ⟨getMean_ofMeanSigma hm _, by
      rw [getSigma_ofMeanSigma_pos h1, abs_of_nonneg (Real.sqrt_nonneg _)]⟩, Real.sqrt_nonneg _,
      Real.sq_sqrt (sumVar_nonneg ms)⟩
  · have hv := sumVar_zero (fun p hp => ⟨(hf p hp).1, (hf p hp).2.2⟩) h1.symm
    refine ⟨0, ?_, le_rfl, by rw [hv]; norm_num⟩
    rw [← h1, ofMeanSigma_zero]
    exact ⟨getMean_ninf _, getSigma_ninf _⟩

theorem sumMean_perm {ms ns : List (ℝ × ℝ)} (h : ms.Perm ns) : sumMean ms = sumMean ns ∧ sumVar ms = sumVar ns :=
  ⟨(h.map _).sum_eq, (h.map _).sum_eq⟩

theorem reportsAll_perm {ds es : List LogNormalDist} (hp : ds.Perm es) {ms : List (ℝ × ℝ)}
    (h : ReportsAll ds ms) : ∃ ns, ReportsAll es ns ∧ ms.Perm ns := by
  induction hp generalizing ms with
  | nil => exact ⟨ms, h, List.Perm.refl _⟩
  | cons x _ ih =>
    cases h with
    | cons h1 h2 =>
      obtain ⟨ns, a, b⟩ := ih h2
      exact ⟨_, List.Forall₂.cons h1 a, b.cons _⟩
  | swap x y l =>
    cases h with
    | cons h1 h2 =>
      cases h2 with
      | cons h3 h4 => exact ⟨_, List.Forall₂.cons h3 (List.Forall₂.cons h1 h4), List.Perm.swap _ _ _⟩
  | trans _ _ ih1 ih2 =>
    obtain ⟨ns, a, b⟩ := ih1 h
    obtain ⟨ns', a', b'⟩ := ih2 a
    exact ⟨ns', a', b.trans b'⟩

/-- The order of the list does not matter. -/
theorem add_order_irrelevant (ds es : List LogNormalDist) (hd : ∀ d ∈ ds, d.Proper) (hp : ds.Perm es) :
    addDistributions ds = addDistributions es := by
  obtain ⟨ms, h1, -⟩ := exists_reports ds hd
  obtain ⟨ns, h2, h3⟩ := reportsAll_perm hp h1
  obtain ⟨e1, e2⟩ := sumMean_perm h3
  rw [add_eq ds ms h1, add_eq es ns h2, e1, e2]

/-- Non-vacuity: three distributions, one of them a certain zero; mean 1 + 2 + 0, variance 4 + 9 + 0. -/
example : ∃ s, (addDistributions [ofMeanSigma (.fin 1) (.fin 2), ofMeanSigma (.fin 2) (.fin 3),
    ofMeanSigma (.fin 0) (.fin 0)]).Reports 3 s ∧ s ^ 2 = 13 := by
  have h := add_adds_moments [ofMeanSigma (.fin 1) (.fin 2), ofMeanSigma (.fin 2) (.fin 3),
      ofMeanSigma (.fin 0) (.fin 0)] (by
      intro d hd
      simp only [List.mem_cons, List.not_mem_nil, or_false] at hd
      rcases hd with rfl | rfl | rfl <;> exact proper_ofMeanSigma (by norm_num) _)
    [(1, 2), (2, 3), (0, 0)] (by
      refine List.Forall₂.cons ⟨getMean_ofMeanSigma_pos (by norm_num) _, ?_⟩ (List.Forall₂.cons
        ⟨getMean_ofMeanSigma_pos (by norm_num) _, ?_⟩ (List.Forall₂.cons ⟨?_, ?_⟩ List.Forall₂.nil))
      · rw [getSigma_ofMeanSigma_pos (by norm_num)]; norm_num
      · rw [getSigma_ofMeanSigma_pos (by norm_num)]; norm_num
      · rw [ofMeanSigma_zero, getMean_ninf]
      · rw [ofMeanSigma_zero, getSigma_ninf])
  obtain ⟨-, s, h1, -, h2⟩ := h
  norm_num [sumMean, sumVar] at h1 h2
  exact ⟨s, h1, h2⟩

/-! ### C17 -/

theorem weighted_foldl (ds : List LogNormalDist) (ms : List (ℝ × ℝ)) (h : ReportsAll ds ms) (ws : List ℝ)
    (hl : ds.length = ws.length) (a b : ℝ) :
    (ds.zip (ws.map Dbl.fin)).foldl weightedStep (.fin a, .fin b) =
      (.fin (a + mixMean ms ws), .fin (b + mixSecond ms ws)) := by
  induction h generalizing ws a b with
  | nil => cases ws <;> simp [mixMean, mixSecond] at hl ⊢
  | cons h1 _ ih =>
    cases ws with
    | nil => simp at hl
    | cons w ws =>
      simp only [List.length_cons, add_left_inj] at hl
      simp only [List.map_cons, List.zip_cons_cons, List.foldl_cons, weightedStep, h1.1, h1.2, fin_mul, fin_add]
      rw [ih ws hl]
      simp only [mixMean, mixSecond, List.zipWith_cons_cons, List.sum_cons, Prod.mk.injEq, fin_inj]
      constructor <;> ring

/-- Lists of different lengths are rejected, all others accepted. -/
theorem mixture_rejects_iff (ds : List LogNormalDist) (ws : List Dbl) :
    addWeighted ds ws = none ↔ ds.length ≠ ws.length := by
  unfold addWeighted
  split <;> simp_all

theorem mixture_eq (ds : List LogNormalDist) (ms : List (ℝ × ℝ)) (h : ReportsAll ds ms) (ws : List ℝ)
    (hl : ds.length = ws.length) :
    addWeighted ds (ws.map Dbl.fin) = some (ofMeanSigma (.fin (mixMean ms ws))
      (.fin (Real.sqrt |mixSecond ms ws - mixMean ms ws ^ 2|))) := by
  have hf := weighted_foldl ds ms h ws hl 0 0
  simp only [zero_add] at hf
  unfold addWeighted
  rw [if_neg (by simpa using hl)]
  simp only [zero_def, hf, fin_mul, fin_sub, abs_fin, sqrt_fin (abs_nonneg _)]
  rw [sq]

/-- Whatever the weights: if the weighted mean is positive and the weighted variance non-negative, the result
reports exactly these. -/
theorem mixture_moments (ds : List LogNormalDist) (ms : List (ℝ × ℝ)) (h : ReportsAll ds ms) (ws : List ℝ)
    (hl : ds.length = ws.length) (hm : 0 < mixMean ms ws) (hv : 0 ≤ mixSecond ms ws - mixMean ms ws ^ 2) :
    ∃ d s, addWeighted ds (ws.map Dbl.fin) = some d ∧ d.Reports (mixMean ms ws) s ∧ 0 ≤ s ∧
      s ^ 2 = mixSecond ms ws - mixMean ms ws ^ 2 := by
  refine ⟨_, _, mixture_eq ds ms h ws hl, ⟨getMean_ofMeanSigma_pos hm _, getSigma_ofMeanSigma_pos hm _⟩,
    abs_nonneg _, ?_⟩
  rw [abs_of_nonneg (Real.sqrt_nonneg _), Real.sq_sqrt (abs_nonneg _), abs_of_nonneg hv]

/-- A negative weighted variance (possible when the weights sum to more than one) is silently reported as its
absolute value: the variance the weights define is then not what the result has. -/
theorem mixture_negative_variance_fails :
    ∃ (ds : List LogNormalDist) (ms : List (ℝ × ℝ)) (ws : List ℝ) (d : LogNormalDist) (s : ℝ),
      ReportsAll ds ms ∧ (∀ w ∈ ws, 0 ≤ w) ∧ ds.length = ws.length ∧
      addWeighted ds (ws.map Dbl.fin) = some d ∧ d.Reports (mixMean ms ws) s ∧
      mixSecond ms ws - mixMean ms ws ^ 2 < 0 ∧ s ^ 2 = -(mixSecond ms ws - mixMean ms ws ^ 2) := by
  have h : ReportsAll [ofMeanSigma (.fin 1) (.fin 0)] [(1, 0)] := List.Forall₂.cons
    ⟨getMean_ofMeanSigma_pos (by norm_num) _, by
      rw [getSigma_ofMeanSigma_pos (by norm_num), abs_zero]⟩ List.Forall₂.nil
  have hm : mixMean [(1, 0)] [2] = 2 := by norm_num [mixMean]
  have hv : mixSecond [(1, 0)] [2] = 2 := by norm_num [mixSecond]
  refine ⟨[ofMeanSigma (.fin 1) (.fin 0)], [(1, 0)], [2], _, Real.sqrt 2, h, by simp, rfl,
    mixture_eq _ _ h [2] rfl, ⟨?_, ?_⟩, ?_, ?_⟩
  · rw [hm]; exact getMean_ofMeanSigma_pos (by norm_num) _
  · rw [hm, hv, getSigma_ofMeanSigma_pos (by norm_num), abs_of_nonneg (Real.sqrt_nonneg _)]
    norm_num
  · rw [hm, hv]; norm_num
  · rw [hm, hv, Real.sq_sqrt (by norm_num)]; norm_num

theorem mixMean_nonneg {ms : List (ℝ × ℝ)} {ws : List ℝ} (hm : ∀ p ∈ ms, 0 ≤ p.1) (hw : ∀ w ∈ ws, 0 ≤ w) :
    0 ≤ mixMean ms ws := by
  apply List.sum_nonneg
  intro x hx
  obtain ⟨i, hi, rfl⟩ := List.mem_iff_getElem.1 hx
  simp only [List.getElem_zipWith]
  exact mul_nonneg (hw _ (List.getElem_mem _)) (hm _ (List.getElem_mem _))

theorem mixSecond_nonneg {ms : List (ℝ × ℝ)} {ws : List ℝ} (hw : ∀ w ∈ ws, 0 ≤ w) : 0 ≤ mixSecond ms ws := by
  apply List.sum_nonneg
  intro x hx
  obtain ⟨i, hi, rfl⟩ := List.mem_iff_getElem.1 hx
  simp only [List.getElem_zipWith]
  exact mul_nonneg (hw _ (List.getElem_mem _)) (by positivity)

/-- Cauchy-Schwarz: squared weighted mean ≤ total weight × weighted second moment. -/
theorem mix_cauchy (ms : List (ℝ × ℝ)) (ws : List ℝ) (hl : ms.length = ws.length) (hw : ∀ w ∈ ws, 0 ≤ w) :
    mixMean ms ws ^ 2 ≤ ws.sum * mixSecond ms ws := by
  induction ms generalizing ws with
  | nil => cases ws <;> simp [mixMean, mixSecond] at hl ⊢
  | cons p ms ih =>
    cases ws with
    | nil => simp at hl
    | cons w ws =>
      simp only [List.length_cons, add_left_inj] at hl
      have hw' : ∀ w ∈ ws, 0 ≤ w := fun w h => hw w (List.mem_cons_of_mem _ h)
      have h1 := ih ws hl hw'
      have h2 : 0 ≤ mixSecond ms ws := mixSecond_nonneg hw'
      have h3 : 0 ≤ ws.sum := List.sum_nonneg hw'
      have h4 := hw w List.mem_cons_self
      have e1 : mixMean (p :: ms) (w :: ws) = w * p.1 + mixMean ms ws := by simp [mixMean]
      have e2 : mixSecond (p :: ms) (w :: ws) = w * (p.1 ^ 2 + p.2 ^ 2) + mixSecond ms ws := by simp [mixSecond]
      rw [e1, e2, List.sum_cons]
      generalize mixMean ms ws = B at *
      generalize mixSecond ms ws = C at *
      generalize ws.sum = A at *
      obtain ⟨m, s⟩ := p
      simp only
      have key : 2 * (m * B) ≤ A * m ^ 2 + C := by
        by_contra hh
        push Not at hh
        have h5 : (A * m ^ 2 + C) ^ 2 < (2 * (m * B)) ^ 2 :=
          pow_lt_pow_left₀ hh (by positivity) two_ne_zero
        nlinarith [sq_nonneg (A * m ^ 2 - C), mul_le_mul_of_nonneg_left h1 (sq_nonneg m)]
      nlinarith [mul_le_mul_of_nonneg_left key h4, mul_nonneg h4 (sq_nonneg s), mul_nonneg (mul_nonneg h4 h4) (sq_nonneg s),
        mul_nonneg (mul_nonneg h3 h4) (sq_nonneg s)]

/-- For non-negative weights summing to at most one - a probability mixture, the rest being a certain zero - the
result is usable, its mean is the weighted mean and its variance the mixture's variance. -/
theorem mixture_of_probabilities (ds : List LogNormalDist) (hd : ∀ d ∈ ds, d.Proper) (ms : List (ℝ × ℝ))
    (h : ReportsAll ds ms) (ws : List ℝ) (hl : ds.length = ws.length) (hw : ∀ w ∈ ws, 0 ≤ w) (h1 : ws.sum ≤ 1) :
    0 ≤ mixSecond ms ws - mixMean ms ws ^ 2 ∧
    ∃ d s, addWeighted ds (ws.map Dbl.fin) = some d ∧ d.Proper ∧ d.Reports (mixMean ms ws) s ∧ 0 ≤ s ∧
      s ^ 2 = mixSecond ms ws - mixMean ms ws ^ 2 := by
  have hf := reportsAll_moment_facts hd h
  have hlm : ms.length = ws.length := by rw [← hl]; exact (List.Forall₂.length_eq h).symm
  have hm := mixMean_nonneg (fun p hp => (hf p hp).1) hw
  have hs : 0 ≤ mixSecond ms ws := mixSecond_nonneg hw
  have hv : 0 ≤ mixSecond ms ws - mixMean ms ws ^ 2 := by
    have := mix_cauchy ms ws hlm hw
    nlinarith
  refine ⟨hv, ?_⟩
  rcases hm.lt_or_eq with hp | hp
  · obtain ⟨d, s, e1, e2, e3, e4⟩ := mixture_moments ds ms h ws hl hp hv
    refine ⟨d, s, e1, ?_, e2, e3, e4⟩
    rw [mixture_eq ds ms h ws hl] at e1
    cases e1
    exact proper_ofMeanSigma hm _
  · -- zero mean: every term with positive weight has zero mean, hence no spread
    have hz : mixSecond ms ws = 0 := by
      clear h hl h1 hv hs
      induction ms generalizing ws with
      | nil => simp [mixSecond]
      | cons p ms ih =>
        cases ws with
        | nil => simp [mixSecond]
        | cons w ws =>
          have hw' : ∀ w ∈ ws, 0 ≤ w := fun w h => hw w (List.mem_cons_of_mem _ h)
          have hf' := fun q hq => hf q (List.mem_cons_of_mem p hq)
          have hm' := mixMean_nonneg (fun q hq => (hf' q hq).1) hw'
          have h4 := hw w List.mem_cons_self
          have h5 := hf p List.mem_cons_self
          have e1 : mixMean (p :: ms) (w :: ws) = w * p.1 + mixMean ms ws := by simp [mixMean]
          have e2 : mixSecond (p :: ms) (w :: ws) = w * (p.1 ^ 2 + p.2 ^ 2) + mixSecond ms ws := by simp [mixSecond]
          rw [e1] at hp
          have h6 := mul_nonneg h4 h5.1
          rw [e2, ih ws hw' hf' (by simpa using hlm) hm' (by linarith)]
          have h7 : w * p.1 = 0 := by linarith
          rcases mul_eq_zero.1 h7 with h8 | h8
          · rw [h8]; ring
          · rw [h8, h5.2.2 h8]; ring
    refine ⟨_, 0, mixture_eq ds ms h ws hl, proper_ofMeanSigma hm _, ?_, le_rfl, ?_⟩
    · rw [← hp, ofMeanSigma_zero]
      exact ⟨getMean_ninf _, getSigma_ninf _⟩
    · rw [hz, ← hp]; norm_num

/-- Non-vacuity: weights 1/2 and 1/4 on means 2 and 4 with standard deviations 1 and 0. -/
example : ∃ d s, addWeighted [ofMeanSigma (.fin 2) (.fin 1), ofMeanSigma (.fin 4) (.fin 0)]
    [.fin (1/2), .fin (1/4)] = some d ∧ d.Reports 2 s ∧ s ^ 2 = 5/2 := by
  have h : ReportsAll [ofMeanSigma (.fin 2) (.fin 1), ofMeanSigma (.fin 4) (.fin 0)] [(2, 1), (4, 0)] :=
    List.Forall₂.cons ⟨getMean_ofMeanSigma_pos (by norm_num) _, by
      rw [getSigma_ofMeanSigma_pos (by norm_num)]; norm_num⟩
    (List.Forall₂.cons ⟨getMean_ofMeanSigma_pos (by norm_num) _, by
      rw [getSigma_ofMeanSigma_pos (by norm_num)]; norm_num⟩ List.Forall₂.nil)
  obtain ⟨-, d, s, e1, -, e2, -, e4⟩ := mixture_of_probabilities _ (by
      intro d hd
      simp only [List.mem_cons, List.not_mem_nil, or_false] at hd
      rcases hd with rfl | rfl <;> exact proper_ofMeanSigma (by norm_num) _) _ h [1/2, 1/4] rfl (by
      intro w hw
      simp only [List.mem_cons, List.not_mem_nil, or_false] at hw
      rcases hw with rfl | rfl <;> norm_num) (by norm_num)
  refine ⟨d, s, e1, ?_, ?_⟩
  · rwa [show mixMean [(2, 1), (4, 0)] [1/2, 1/4] = 2 by norm_num [mixMean]] at e2
  · rw [e4]; norm_num [mixMean, mixSecond]

/-! ### C18 -/

/-- Scaling a usable distribution by `k > 0` scales mean, median and standard deviation by `k`, keeps the log
spread, and is usable again; scaling by 0 gives mean and standard deviation 0. -/
theorem scaling (d : LogNormalDist) (hd : d.Proper) (k m s : ℝ) (hk : 0 < k) (hr : d.Reports m s) :
    (d.adjust (.fin k)).Reports (k * m) (k * s) ∧ (d.adjust (.fin k)).getSigmaLn = d.getSigmaLn ∧
    (d.adjust (.fin k)).getMedian = .fin k * d.getMedian ∧
    (d.adjust (.fin k)).Proper ∧ (d.adjust (.fin 0)).Reports 0 0 := by
  obtain ⟨s', hs', ⟨m', hm'⟩ | hm'⟩ := hd <;> obtain ⟨mu, sg⟩ := d <;> simp only at hs' hm' <;> subst hs' hm'
  · obtain ⟨h1, h2⟩ := hr
    rw [getMean_fin, fin_inj] at h1
    rw [getSigma_fin, fin_inj] at h2
    have hpos : 0 < k * Real.exp (m' + s' * s' / 2) := mul_pos hk (Real.exp_pos _)
    have he : adjust ⟨.fin m', .fin s'⟩ (.fin k) = ⟨.fin (Real.log k + m'), .fin s'⟩ := by
      simp only [adjust, ofMeanSigmaLn, getMean_fin, getSigmaLn, fin_mul, muFromMeanSigmaLn, log_pos hpos,
        fin_div_two, fin_sub]
      rw [Real.log_mul hk.ne' (Real.exp_pos _).ne', Real.log_exp]
      congr 2
      ring
    have he0 : adjust ⟨.fin m', .fin s'⟩ (.fin 0) = ⟨.ninf, .fin s'⟩ := by
      simp [adjust, ofMeanSigmaLn, getMean_fin, getSigmaLn, muFromMeanSigmaLn]
    have hexp : Real.exp (Real.log k + m' + s' * s' / 2) = k * m := by
      rw [add_assoc, Real.exp_add, Real.exp_log hk, h1]
    rw [he, he0]
    refine ⟨⟨?_, ?_⟩, rfl, ?_, ⟨s', rfl, Or.inl ⟨_, rfl⟩⟩, getMean_ninf _, getSigma_ninf _⟩
    · rw [getMean_fin, hexp]
    · rw [getSigma_fin, hexp, ← h2, ← h1]; congr 1; ring
    · simp [getMedian, Real.exp_add, Real.exp_log hk]
  · obtain ⟨h1, h2⟩ := hr
    rw [getMean_ninf, fin_inj] at h1
    rw [getSigma_ninf, fin_inj] at h2
    subst h1 h2
    have he : ∀ j : ℝ, adjust ⟨.ninf, .fin s'⟩ (.fin j) = ⟨.ninf, .fin s'⟩ := by
      intro j
      simp [adjust, ofMeanSigmaLn, getMean_ninf, getSigmaLn, muFromMeanSigmaLn]
    rw [he, he, mul_zero]
    exact ⟨⟨getMean_ninf _, getSigma_ninf _⟩, rfl, by simp [getMedian], ⟨s', rfl, Or.inr rfl⟩,
      getMean_ninf _, getSigma_ninf _⟩

/-- Scalings compose multiplicatively. -/
theorem scaling_composes (d : LogNormalDist) (hd : d.Proper) (j k : ℝ) (hj : 0 ≤ j) (hk : 0 ≤ k) :
    (d.adjust (.fin j)).adjust (.fin k) = d.adjust (.fin (j * k)) := by
  obtain ⟨m, s, hm, -, e1, -, -⟩ := hd.moments
  obtain ⟨s', hs', -⟩ := hd
  have hmean : (d.adjust (.fin j)).getMean = .fin (j * m) := by
    have hjm := mul_nonneg hj hm
    simp only [adjust, e1, fin_mul, getSigmaLn, hs', ofMeanSigmaLn, muFromMeanSigmaLn, fin_div_two]
    rcases hjm.lt_or_eq with h | h
    · rw [log_pos h, fin_sub, getMean_fin, sub_add_cancel, Real.exp_log h]
    · rw [← h, log_zero, ninf_sub_fin, getMean_ninf]
  have hsl : (d.adjust (.fin j)).getSigmaLn = d.getSigmaLn := rfl
  unfold adjust at hmean hsl ⊢
  rw [hmean, hsl, e1, fin_mul, fin_mul]
  congr 2
  ring

example : ((ofMeanSigma (.fin 3) (.fin 4)).adjust (.fin 2)).Reports 6 8 := by
  have := (scaling (ofMeanSigma (.fin 3) (.fin 4)) (proper_ofMeanSigma (by norm_num) _) 2 3 4 (by norm_num)
    ⟨getMean_ofMeanSigma_pos (by norm_num) _, by rw [getSigma_ofMeanSigma_pos (by norm_num)]; norm_num⟩).1
  norm_num at this
  exact this

example : ((ofMeanSigma (.fin 3) (.fin 4)).adjust (.fin 2)).adjust (.fin 5) =
    (ofMeanSigma (.fin 3) (.fin 4)).adjust (.fin 10) := by
  have := scaling_composes (ofMeanSigma (.fin 3) (.fin 4)) (proper_ofMeanSigma (by norm_num) _) 2 5
    (by norm_num) (by norm_num)
  norm_num at this
  exact this

end LogNormalDist

end Slat
