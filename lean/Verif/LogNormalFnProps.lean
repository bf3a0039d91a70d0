import Verif.LogNormalFnModel
import Verif.LogNormalProps

/-!
# Parameterisations of log-normal functions (C19)
-/

namespace Slat.LogNormalFn

open Slat Dbl LogNormalDist

/-- The constructor accepts every pair of valid interpretations and rejects the others. -/
theorem construct_accepts_iff (mt : MType) (st : SType) :
    (construct mt st).isSome = true ↔ mt ≠ .invalid ∧ st ≠ .invalid := by
  cases mt <;> cases st <;> simp [construct]

/-- Mean-of-log or median combined with plain standard deviation: no query ever returns, whatever the two
functions yield. -/
theorem sigma_x_needs_mean_fails (mt : MType) (hmt : mt = .meanLnX ∨ mt = .medianX) (mu sigma : Dbl) :
    (construct mt .sigmaX).isSome = true ∧ ∀ n, distribution mt .sigmaX mu sigma n = none := by
  refine ⟨by rcases hmt with rfl | rfl <;> rfl, ?_⟩
  have key : ∀ n, eval mt .sigmaX mu sigma n .sdLn = none ∧ eval mt .sigmaX mu sigma n .mean = none := by
    intro n
    induction n with
    | zero => exact ⟨rfl, rfl⟩
    | succ n ih =>
      constructor
      · simp only [eval, ih.2]
        cases eval mt .sigmaX mu sigma n .sd <;> rfl
      · rcases hmt with rfl | rfl <;> simp only [eval, ih.1] <;>
          cases eval _ .sigmaX mu sigma n .meanLn <;> rfl
  intro n
  simp only [distribution, (key n).1]
  cases eval mt .sigmaX mu sigma n .meanLn <;> rfl

/-- Both defective combinations are accepted by the constructor. -/
example : ∀ n, distribution .medianX .sigmaX (.fin 2) (.fin 1) n = none :=
  (sigma_x_needs_mean_fails .medianX (Or.inr rfl) _ _).2

/-- The combinations that are not defective. -/
def Usable (mt : MType) (st : SType) : Prop :=
  (mt ≠ .invalid ∧ st = .sigmaLnX) ∨ (mt = .meanX ∧ st = .sigmaX)

/-- Every query on a usable combination ends, whatever the two functions yield (NaN and infinities
included), after at most four nested calls. -/
theorem usable_terminates (mt : MType) (st : SType) (h : Usable mt st) (mu sigma : Dbl) (n : ℕ) :
    (distribution mt st mu sigma (n + 4)).isSome = true ∧
    ∀ q, (eval mt st mu sigma (n + 4) q).isSome = true := by
  rcases h with ⟨h1, rfl⟩ | ⟨rfl, rfl⟩
  · refine ⟨?_, fun q => ?_⟩
    · cases mt <;> simp [distribution, eval] at h1 ⊢
    · cases mt <;> cases q <;> simp [eval] at h1 ⊢
  · refine ⟨?_, fun q => ?_⟩
    · simp [distribution, eval]
    · cases q <;> simp [eval]

example : (distribution .meanX .sigmaX .nan .pinf 4).isSome = true :=
  (usable_terminates .meanX .sigmaX (Or.inr ⟨rfl, rfl⟩) _ _ 0).1

/-- What the client supplied is what the function reports, on the usable combinations: the first function's
value as mean of log, mean or median, the second's as log spread or standard deviation. -/
theorem reports_supplied_partial (m s : ℝ) (n : ℕ) :
    (∃ d, distribution .meanLnX .sigmaLnX (.fin m) (.fin s) (n + 4) = some d ∧
      d.getMuLn = .fin m ∧ d.getSigmaLn = .fin s) ∧
    (0 < m → ∃ d, distribution .meanX .sigmaLnX (.fin m) (.fin s) (n + 4) = some d ∧
      d.getMean = .fin m ∧ d.getSigmaLn = .fin s) ∧
    (0 < m → ∃ d, distribution .medianX .sigmaLnX (.fin m) (.fin s) (n + 4) = some d ∧
      d.getMedian = .fin m ∧ d.getSigmaLn = .fin s) ∧
    (0 < m → 0 ≤ s → ∃ d, distribution .meanX .sigmaX (.fin m) (.fin s) (n + 4) = some d ∧
      d.getMean = .fin m ∧ d.getSigma = .fin s) := by
  refine ⟨⟨_, rfl, rfl, rfl⟩, ?_, ?_, ?_⟩
  · intro hm
    exact ⟨ofMeanSigmaLn (.fin m) (.fin s), rfl, (mean_sdln_roundtrip m s hm).1, rfl⟩
  · intro hm
    exact ⟨ofMedianSigmaLn (.fin m) (.fin s), rfl, (median_sdln_roundtrip m s hm).1, rfl⟩
  · intro hm hs
    refine ⟨ofMeanSigma (.fin m) (.fin s), ?_, (mean_sd_roundtrip m s hs).2 (Or.inl hm)⟩
    simp [distribution, eval, ofMeanSigma, sigmaLnFromMeanSigma, ofMuSigmaLn, muFromMeanSigmaLn, hm.ne']

example : ∃ d, distribution .meanX .sigmaX (.fin 2) (.fin 3) 4 = some d ∧
    d.getMean = .fin 2 ∧ d.getSigma = .fin 3 :=
  (reports_supplied_partial 2 3 0).2.2.2 (by norm_num) (by norm_num)

/-- The lambdas themselves agree with the queries: each of the five quantities computed directly is the one
read off the distribution (usable combinations, positive mean or median). -/
theorem lambdas_agree (m s : ℝ) (hm : 0 < m) (hs : 0 ≤ s) (mt : MType) (st : SType) (h : Usable mt st) (n : ℕ) :
    ∃ d, distribution mt st (.fin m) (.fin s) (n + 4) = some d ∧
      eval mt st (.fin m) (.fin s) (n + 4) .meanLn = some d.getMuLn ∧
      eval mt st (.fin m) (.fin s) (n + 4) .median = some d.getMedian ∧
      eval mt st (.fin m) (.fin s) (n + 4) .mean = some d.getMean ∧
      eval mt st (.fin m) (.fin s) (n + 4) .sdLn = some d.getSigmaLn ∧
      eval mt st (.fin m) (.fin s) (n + 4) .sd = some d.getSigma := by
  rcases h with ⟨h1, rfl⟩ | ⟨rfl, rfl⟩
  · cases mt
    · refine ⟨_, rfl, rfl, rfl, ?_, rfl, ?_⟩
      · simp [eval, getMean_fin, ofMuSigmaLn]
      · simp [eval, getSigma_fin, ofMuSigmaLn, sqrt_fin (expm1_nonneg s)]
    · have hr := mean_sdln_roundtrip m s hm
      refine ⟨ofMeanSigmaLn (.fin m) (.fin s), rfl, rfl, rfl, ?_, rfl, ?_⟩
      · rw [hr.1]; rfl
      · have hn : ¬ feq (ofMeanSigmaLn (.fin m) (.fin s)).mu .ninf := by
          simp [ofMeanSigmaLn, muFromMeanSigmaLn, log_pos hm]
        rw [getSigma, if_neg hn, hr.1, hr.2]; rfl
    · refine ⟨ofMedianSigmaLn (.fin m) (.fin s), rfl, rfl, ?_, ?_, rfl, ?_⟩
      · rw [(median_sdln_roundtrip m s hm).1]; rfl
      · simp [eval, ofMedianSigmaLn, log_pos hm, getMean_fin]
      · simp [eval, ofMedianSigmaLn, log_pos hm, getSigma_fin, sqrt_fin (expm1_nonneg s)]
    · exact absurd rfl h1
  · have hr := (mean_sd_roundtrip m s hs).2 (Or.inl hm)
    have he : distribution .meanX .sigmaX (.fin m) (.fin s) (n + 4) = some (ofMeanSigma (.fin m) (.fin s)) := by
      simp [distribution, eval, ofMeanSigma, sigmaLnFromMeanSigma, ofMuSigmaLn, muFromMeanSigmaLn, hm.ne']
    refine ⟨_, he, ?_, ?_, ?_, ?_, ?_⟩
    · simp [eval, ofMeanSigma, sigmaLnFromMeanSigma, muFromMeanSigmaLn, hm.ne', getMuLn]
    · simp [eval, ofMeanSigma, sigmaLnFromMeanSigma, muFromMeanSigmaLn, hm.ne', getMedian]
    · rw [hr.1]; rfl
    · simp [eval, ofMeanSigma, sigmaLnFromMeanSigma, hm.ne', getSigmaLn]
    · rw [hr.2]; rfl

example : ∃ d, distribution .medianX .sigmaLnX (.fin 2) (.fin 1) 4 = some d ∧
    eval .medianX .sigmaLnX (.fin 2) (.fin 1) 4 .mean = some d.getMean := by
  obtain ⟨d, h1, -, -, h2, -⟩ := lambdas_agree 2 1 (by norm_num) (by norm_num) .medianX .sigmaLnX
    (Or.inl ⟨by simp, rfl⟩) 0
  exact ⟨d, h1, h2⟩

/-- Zero demand (mean 0) with plain standard deviation 0 - e.g. a power law at intensity 0 - gives an unset
distribution instead of a certain zero, unlike `LogNormalDist`'s own constructor. -/
theorem zero_mean_sigma_x_fails (n : ℕ) :
    distribution .meanX .sigmaX (.fin 0) (.fin 0) (n + 4) = some LogNormalDist.unset ∧
    (LogNormalDist.ofMeanSigma (.fin 0) (.fin 0)).getMean = .fin 0 := by
  constructor
  · simp [distribution, eval, fin_div, infTimes, ofMuSigmaLn, unset]
  · rw [ofMeanSigma_zero, getMean_ninf]

end Slat.LogNormalFn
