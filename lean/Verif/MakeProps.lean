import Verif.MakeModel
import Verif.FragilityProps
import Verif.FunctionsProps

/-!
# C70: a function or distribution is what its parameters say, or it is refused

Specification side: `MuIs` and `SdIs` say in terms of the log-normal law what the two numbers given for a distribution
mean; `Fits` says which parameters a deterministic function of a given type needs.
-/

namespace Slat.Make

open Slat Dbl LogNormalDist MeasureTheory ProbabilityTheory

/-! ### Distributions -/

/-- Spec: the first number `v` describes the law of `exp Z`, `Z` Gaussian with mean `m` and standard deviation `s`. -/
def MuIs (t : MuType) (v m s : ℝ) : Prop :=
  match t with
  | .meanX => ∫ x, x ∂LN m s = v
  | .medianX => (LN m s).real (Set.Iic v) = 1 / 2 ∧ 0 ≤ v
  | .meanLnX => ∫ x, Real.log x ∂LN m s = v

/-- Spec: the second number `v` describes the law. -/
def SdIs (t : SigmaType) (v m s : ℝ) : Prop :=
  match t with
  | .sdX => Real.sqrt (Var[fun x => x; LN m s]) = v
  | .sdLnX => Real.sqrt (Var[fun x => Real.log x; LN m s]) = v

/-- Spec: the combinations the documentation supports (slat-lang.org, "Lognormal Distributions": the standard deviation
of X only together with the mean of X). -/
def Supported (mt : MuType) (st : SigmaType) : Prop := st = .sdLnX ∨ mt = .meanX

theorem log_moments (m s : ℝ) :
    ∫ x, Real.log x ∂LN m s = m ∧ Var[fun x => Real.log x; LN m s] = s ^ 2 := by
  constructor
  · rw [LN, integral_map Real.measurable_exp.aemeasurable Real.measurable_log.aestronglyMeasurable]
    simp only [Real.log_exp]
    exact integral_id_gaussianReal
  · rw [LN, variance_map Real.measurable_log.aemeasurable Real.measurable_exp.aemeasurable]
    have : (fun x => Real.log x) ∘ Real.exp = fun x : ℝ => x := by
      funext x
      simp
    rw [this, variance_fun_id_gaussianReal]
    rfl

theorem mean_eq (m s : ℝ) : ∫ x, x ∂LN m s = Real.exp (m + s * s / 2) := by
  have h := (moments_are_true_moments m s).1
  rw [getMean_fin, fin_inj] at h
  exact h.symm

theorem sd_eq (m s : ℝ) : Real.sqrt (Var[fun x => x; LN m s]) =
    Real.exp (m + s * s / 2) * Real.sqrt (Real.exp (s * s) - 1) := by
  have h := (moments_are_true_moments m s).2
  rw [getSigma_fin, fin_inj] at h
  exact h.symm

theorem median_iff {m s v : ℝ} (hs : 0 < s) : ((LN m s).real (Set.Iic v) = 1 / 2 ∧ 0 ≤ v) ↔ v = Real.exp m := by
  constructor
  · rintro ⟨h, hv⟩
    rcases hv.lt_or_eq with hv | hv
    · have h1 := (p_at_most_is_cdf m hs hv.le).1
      rw [pAtMost_pos m hs hv, fin_inj, h, ← Phi_zero] at h1
      have := Phi_strictMono.injective h1
      rw [div_eq_zero_iff] at this
      rcases this with h2 | h2
      · rw [← sub_eq_zero.1 h2, Real.exp_log hv]
      · exact absurd h2 hs.ne'
    · subst hv
      have h1 := (p_at_most_is_cdf m hs le_rfl).1
      rw [pAtMost_zero m hs, fin_inj, h] at h1
      norm_num at h1
  · rintro rfl
    have hv := Real.exp_pos m
    have h1 := (p_at_most_is_cdf m hs hv.le).1
    rw [pAtMost_pos m hs hv, fin_inj, Real.log_exp, sub_self, zero_div, Phi_zero] at h1
    exact ⟨h1.symm, hv.le⟩

/-- The parameters `m`, `s` of the law fitting the given numbers. -/
theorem describes_iff (mt : MuType) (st : SigmaType) {mu sigma m s : ℝ} (hs : 0 < s) :
    (MuIs mt mu m s ∧ SdIs st sigma m s) ↔
      ((match mt with
        | .meanX => Real.exp (m + s * s / 2) = mu
        | .medianX => mu = Real.exp m
        | .meanLnX => m = mu) ∧
       (match st with
        | .sdX => Real.exp (m + s * s / 2) * Real.sqrt (Real.exp (s * s) - 1) = sigma
        | .sdLnX => s = sigma)) := by
  refine and_congr ?_ ?_
  · cases mt
    · simp only [MuIs, mean_eq]
    · simp only [MuIs]
      exact median_iff hs
    · simp only [MuIs, (log_moments m s).1]
  · cases st
    · simp only [SdIs, sd_eq]
    · simp only [SdIs, (log_moments m s).2, Real.sqrt_sq hs.le]

/-- A distribution made from a supported combination, with a positive spread and (unless it is the mean of the logarithm) a
positive location, is the log-normal law the two numbers describe, and the only one they describe. -/
theorem dist_is_described_partial (mt : MuType) (st : SigmaType) (mu sigma : ℝ) (hsup : Supported mt st)
    (hs : 0 < sigma) (hm : mt ≠ .meanLnX → 0 < mu) :
    ∃ m s : ℝ, 0 < s ∧ logNormalDist (.fin mu) mt (.fin sigma) st = ⟨.fin m, .fin s⟩ ∧
      MuIs mt mu m s ∧ SdIs st sigma m s ∧
      ∀ m' s', 0 < s' → MuIs mt mu m' s' → SdIs st sigma m' s' → m' = m ∧ s' = s := by
  cases st with
  | sdLnX =>
    cases mt with
    | meanX =>
      have hmu := hm (by simp)
      refine ⟨Real.log mu - sigma * sigma / 2, sigma, hs, ?_, ?_⟩
      · simp [logNormalDist, ofMeanSigmaLn, muFromMeanSigmaLn, log_pos hmu]
      · have h := (describes_iff .meanX .sdLnX (mu := mu) (sigma := sigma) (m := Real.log mu - sigma * sigma / 2)
          hs).2 ⟨by simp [Real.exp_log hmu], rfl⟩
        refine ⟨h.1, h.2, fun m' s' hs' h1 h2 => ?_⟩
        obtain ⟨e1, e2⟩ := (describes_iff .meanX .sdLnX hs').1 ⟨h1, h2⟩
        simp only at e1 e2
        subst e2
        refine ⟨?_, rfl⟩
        rw [← e1, Real.log_exp]
        ring
    | medianX =>
      have hmu := hm (by simp)
      refine ⟨Real.log mu, sigma, hs, ?_, ?_⟩
      · simp [logNormalDist, ofMedianSigmaLn, log_pos hmu]
      · have h := (describes_iff .medianX .sdLnX (mu := mu) (sigma := sigma) (m := Real.log mu) hs).2
          ⟨(Real.exp_log hmu).symm, rfl⟩
        refine ⟨h.1, h.2, fun m' s' hs' h1 h2 => ?_⟩
        obtain ⟨e1, e2⟩ := (describes_iff .medianX .sdLnX hs').1 ⟨h1, h2⟩
        simp only at e1 e2
        exact ⟨by rw [e1, Real.log_exp], e2⟩
    | meanLnX =>
      refine ⟨mu, sigma, hs, rfl, ?_⟩
      have h := (describes_iff .meanLnX .sdLnX (mu := mu) (sigma := sigma) (m := mu) hs).2 ⟨rfl, rfl⟩
      refine ⟨h.1, h.2, fun m' s' hs' h1 h2 => ?_⟩
      obtain ⟨e1, e2⟩ := (describes_iff .meanLnX .sdLnX hs').1 ⟨h1, h2⟩
      exact ⟨e1, e2⟩
  | sdX =>
    rcases hsup with h | h
    · cases h
    · subst h
      have hmu := hm (by simp)
      obtain ⟨t, ht, htt, he⟩ := ofMeanSigma_pos hmu sigma
      have htp : 0 < t := by
        rcases ht.lt_or_eq with h | h
        · exact h
        · exfalso
          rw [← h, mul_zero] at htt
          have : 0 < Real.log (1 + sigma * sigma / (mu * mu)) := Real.log_pos (by
            have : 0 < sigma * sigma / (mu * mu) := by positivity
            linarith)
          linarith
      have g1 := getMean_ofMeanSigma_pos hmu sigma
      have g2 := getSigma_ofMeanSigma_pos hmu sigma
      rw [he] at g1 g2
      rw [getMean_fin, fin_inj] at g1
      rw [getSigma_fin, fin_inj, abs_of_pos hs] at g2
      refine ⟨_, t, htp, by simp only [logNormalDist]; exact he, ?_⟩
      have h := (describes_iff .meanX .sdX (mu := mu) (sigma := sigma) htp).2 ⟨g1, g2⟩
      refine ⟨h.1, h.2, fun m' s' hs' h1 h2 => ?_⟩
      obtain ⟨e1, e2⟩ := (describes_iff .meanX .sdX hs').1 ⟨h1, h2⟩
      simp only at e1 e2
      rw [e1] at e2
      rw [g1] at g2
      have h3 : Real.sqrt (Real.exp (s' * s') - 1) = Real.sqrt (Real.exp (t * t) - 1) :=
        mul_left_cancel₀ hmu.ne' (e2.trans g2.symm)
      have h4 : Real.exp (s' * s') - 1 = Real.exp (t * t) - 1 :=
        (Real.sqrt_inj (expm1_nonneg s') (expm1_nonneg t)).1 h3
      have h5 : s' * s' = t * t := Real.exp_injective (by linarith)
      have h6 : s' = t := by
        rcases mul_self_eq_mul_self_iff.1 h5 with h | h
        · exact h
        · linarith
      subst h6
      refine ⟨?_, rfl⟩
      have := Real.exp_injective (e1.trans g1.symm)
      linarith

/-- Mean 2 and standard deviation 3. -/
example : ∃ m s : ℝ, logNormalDist (.fin 2) .meanX (.fin 3) .sdX = ⟨.fin m, .fin s⟩ ∧ ∫ x, x ∂LN m s = 2 := by
  obtain ⟨m, s, -, h, h1, -⟩ := dist_is_described_partial .meanX .sdX 2 3 (Or.inr rfl) (by norm_num)
    (fun _ => by norm_num)
  exact ⟨m, s, h, h1⟩

/-- Median 2 and log spread 1/2. -/
example : ∃ m s : ℝ, logNormalDist (.fin 2) .medianX (.fin (1/2)) .sdLnX = ⟨.fin m, .fin s⟩ ∧
    (LN m s).real (Set.Iic 2) = 1 / 2 := by
  obtain ⟨m, s, -, h, h1, -⟩ := dist_is_described_partial .medianX .sdLnX 2 (1/2) (Or.inl rfl) (by norm_num)
    (fun _ => by norm_num)
  exact ⟨m, s, h, h1.1⟩

/-- An unsupported combination is not refused: whatever the numbers, the result is a distribution all of whose answers are
not numbers — although a log-normal law with exactly these parameters may exist (mean of the logarithm 0, standard deviation
1). -/
theorem dist_unsupported_fails (mt : MuType) (st : SigmaType) (h : ¬ Supported mt st) (mu sigma x : Dbl) :
    (logNormalDist mu mt sigma st).getMean = .nan ∧ (logNormalDist mu mt sigma st).getSigma = .nan ∧
    (logNormalDist mu mt sigma st).getMedian = .nan ∧ (logNormalDist mu mt sigma st).pAtLeast x = .nan ∧
    (logNormalDist mu mt sigma st).pAtMost x = .nan := by
  have he : logNormalDist mu mt sigma st = LogNormalDist.unset := by
    cases mt <;> cases st <;> first
      | rfl
      | exact absurd (Or.inl rfl) h
      | exact absurd (Or.inr rfl) h
  rw [he]
  obtain ⟨h1, h2, h3, h4, h5⟩ := unset_answers_nan x
  exact ⟨h3, h5, h4, h2, h1⟩

example : (logNormalDist (.fin 2) .medianX (.fin 1) .sdX).getMedian = .nan :=
  (dist_unsupported_fails .medianX .sdX (by simp [Supported]) _ _ 0).2.2.1

/-! ### Fragility functions -/

/-- The parameters of the law of each damage state. -/
theorem states_described (mt : MuType) (st : SigmaType) (hsup : Supported mt st) (scalars : List (ℝ × ℝ))
    (hs : ∀ p ∈ scalars, 0 < p.2) (hm : mt ≠ .meanLnX → ∀ p ∈ scalars, 0 < p.1) :
    ∃ ps : List (ℝ × ℝ), (∀ p ∈ ps, 0 < p.2) ∧
      List.Forall₂ (fun g p => MuIs mt g.1 p.1 p.2 ∧ SdIs st g.2 p.1 p.2) scalars ps ∧
      scalars.mapM (fromOptions ⟨some mt, some st⟩) = some (ps.map (fun p => ⟨.fin p.1, .fin p.2⟩)) := by
  induction scalars with
  | nil => exact ⟨[], by simp, .nil, rfl⟩
  | cons g l ih =>
    obtain ⟨ps, h1, h2, h3⟩ := ih (fun p hp => hs p (List.mem_cons_of_mem _ hp))
      (fun h p hp => hm h p (List.mem_cons_of_mem _ hp))
    obtain ⟨m, s, g1, g2, g3, g4, -⟩ := dist_is_described_partial mt st g.1 g.2 hsup (hs g List.mem_cons_self)
      (fun h => hm h g List.mem_cons_self)
    refine ⟨(m, s) :: ps, ?_, .cons ⟨g3, g4⟩ h2, ?_⟩
    · intro p hp
      rcases List.mem_cons.1 hp with rfl | hp
      · exact g1
      · exact h1 p hp
    · have : fromOptions ⟨some mt, some st⟩ g = some ⟨.fin m, .fin s⟩ := by
        simp only [fromOptions, g2]
      rw [List.mapM_cons, this, h3]
      rfl

/-- A fragility function made from supported options and usable numbers: there are laws described by the numbers, one per
damage state; the function is made exactly when there is a state and the logarithmic means (hence the medians) strictly
increase, and then the probability that a state is reached at a demand is the probability the state's law gives to demands up
to that one; otherwise the process ends. -/
theorem fragility_is_described_partial (mt : MuType) (st : SigmaType) (hsup : Supported mt st)
    (scalars : List (ℝ × ℝ)) (hs : ∀ p ∈ scalars, 0 < p.2) (hm : mt ≠ .meanLnX → ∀ p ∈ scalars, 0 < p.1) :
    ∃ ps : List (ℝ × ℝ), (∀ p ∈ ps, 0 < p.2) ∧
      List.Forall₂ (fun g p => MuIs mt g.1 p.1 p.2 ∧ SdIs st g.2 p.1 p.2) scalars ps ∧
      (scalars ≠ [] ∧ ps.Pairwise (fun p q => p.1 < q.1) →
        ∃ states, fragfnUser ⟨some mt, some st⟩ scalars = .value states ∧
          ∀ x : ℝ, 0 ≤ x → Fragility.pExceeded states (.fin x) =
            ps.map (fun p => .fin ((LN p.1 p.2).real (Set.Iic x)))) ∧
      (¬ (scalars ≠ [] ∧ ps.Pairwise (fun p q => p.1 < q.1)) → fragfnUser ⟨some mt, some st⟩ scalars = .dies) := by
  obtain ⟨ps, h1, h2, h3⟩ := states_described mt st hsup scalars hs hm
  refine ⟨ps, h1, h2, ?_⟩
  have hn : ∀ d ∈ ps.map (fun p => (⟨.fin p.1, .fin p.2⟩ : LogNormalDist)), ¬ isNaN d.mu := by
    intro d hd
    obtain ⟨p, -, rfl⟩ := List.mem_map.1 hd
    simp
  obtain ⟨hc, hc2⟩ := Fragility.construct_iff_increasing _ hn
  have hl := h2.length_eq
  have hiff : (Fragility.construct (ps.map (fun p => (⟨.fin p.1, .fin p.2⟩ : LogNormalDist)))).isSome = true ↔
      (scalars ≠ [] ∧ ps.Pairwise (fun p q => p.1 < q.1)) := by
    rw [hc, List.pairwise_map]
    refine and_congr ?_ ?_
    · rw [ne_eq, ne_eq, ← List.length_eq_zero_iff, List.length_map, ← hl, List.length_eq_zero_iff]
    · simp [getMedian, fin_lt]
  constructor
  · intro h
    obtain ⟨states, hst⟩ := Option.isSome_iff_exists.1 (hiff.2 h)
    refine ⟨states, ?_, ?_⟩
    · simp only [fragfnUser, h3, hst]
    · intro x hx
      rw [(hc2 states hst).1, Fragility.pExceeded, List.map_map]
      refine List.map_congr_left fun p hp => ?_
      exact (p_at_most_is_cdf p.1 (h1 p hp) hx).1
  · intro h
    have hnone : Fragility.construct (ps.map (fun p => (⟨.fin p.1, .fin p.2⟩ : LogNormalDist))) = none := by
      rw [← Option.not_isSome_iff_eq_none, hiff]
      exact h
    simp only [fragfnUser, h3, hnone]

/-- Medians 1 and 2 (log spread 1/2): half of the components have reached the first state at demand 1. -/
example : ∃ states q, fragfnUser ⟨some .medianX, some .sdLnX⟩ [(1, 1/2), (2, 1/2)] = .value states ∧
    Fragility.pExceeded states (.fin 1) = [.fin (1/2), q] := by
  obtain ⟨ps, h1, h2, h3, -⟩ := fragility_is_described_partial .medianX .sdLnX (Or.inl rfl) [(1, 1/2), (2, 1/2)]
    (by simp) (by simp)
  cases h2 with
  | cons a l =>
    rename_i p ps
    cases l with
    | cons b l =>
      rename_i q ps
      cases l
      have hp := h1 p (by simp)
      have hq := h1 q (by simp)
      have e1 := (median_iff hp).1 a.1
      have e2 := (median_iff hq).1 b.1
      obtain ⟨states, g1, g2⟩ := h3 ⟨by simp, by
        simp only [List.pairwise_cons, List.mem_singleton, forall_eq, List.not_mem_nil, false_imp_iff, implies_true,
          List.Pairwise.nil, and_true]
        rw [← Real.exp_lt_exp, ← e1, ← e2]
        norm_num⟩
      refine ⟨states, .fin ((LN q.1 q.2).real (Set.Iic 1)), g1, ?_⟩
      rw [g2 1 zero_le_one]
      simp only [List.map_cons, List.map_nil]
      rw [a.1.1]

/-- With an unsupported combination of options any number of damage states (at least one), in any order, is accepted, and
every probability is then not a number. -/
theorem fragility_unsupported_fails (mt : MuType) (st : SigmaType) (h : ¬ Supported mt st)
    (scalars : List (ℝ × ℝ)) (hne : scalars ≠ []) :
    ∃ states, fragfnUser ⟨some mt, some st⟩ scalars = .value states ∧
      ∀ x, Fragility.pExceeded states x = scalars.map (fun _ => .nan) := by
  have he : ∀ g : ℝ × ℝ, fromOptions ⟨some mt, some st⟩ g = some LogNormalDist.unset := by
    intro g
    cases mt <;> cases st <;> first
      | rfl
      | exact absurd (Or.inl rfl) h
      | exact absurd (Or.inr rfl) h
  have hm : scalars.mapM (fromOptions ⟨some mt, some st⟩) = some (scalars.map (fun _ => LogNormalDist.unset)) := by
    clear hne
    induction scalars with
    | nil => rfl
    | cons g l ih => rw [List.mapM_cons, he, ih]; rfl
  have hck : ∀ (mean : Dbl) (l : List (ℝ × ℝ)), Fragility.check mean (l.map (fun _ => LogNormalDist.unset)) =
      some (l.map (fun _ => LogNormalDist.unset)) := by
    intro mean l
    induction l generalizing mean with
    | nil => rfl
    | cons g l ih =>
      simp only [List.map_cons, Fragility.check]
      rw [if_neg (by simp [getMuLn, LogNormalDist.unset]), ih]
      rfl
  refine ⟨scalars.map (fun _ => LogNormalDist.unset), ?_, ?_⟩
  · simp only [fragfnUser, hm, Fragility.construct]
    rw [if_neg (by simpa using hne), hck]
  · intro x
    rw [Fragility.pExceeded, List.map_map]
    refine List.map_congr_left fun g _ => ?_
    exact (unset_answers_nan x).1

/-- Decreasing medians with `sd_x`: accepted. -/
example : ∃ states, fragfnUser ⟨some .medianX, some .sdX⟩ [(2, 1), (1, 1)] = .value states :=
  (fragility_unsupported_fails .medianX .sdX (by simp [Supported]) _ (by simp)).imp fun _ h => h.1

/-- A missing option is refused as soon as there is a damage state. -/
theorem fragility_missing_option (o : Options) (h : o.mu = none ∨ o.sd = none) (scalars : List (ℝ × ℝ))
    (hne : scalars ≠ []) : fragfnUser o scalars = .raises := by
  have he : ∀ g, fromOptions o g = none := by
    intro g
    unfold fromOptions
    rcases h with h | h
    · rw [h]
    · rw [h]; cases o.mu <;> rfl
  cases scalars with
  | nil => exact absurd rfl hne
  | cons g l =>
    simp only [fragfnUser, List.mapM_cons, he]
    rfl

example : fragfnUser ⟨none, some .sdLnX⟩ [(1, 1)] = .raises := fragility_missing_option _ (Or.inl rfl) _ (by simp)

/-! ### Loss functions -/

theorem mapM_lossState (o : Options) (data : List (ℝ × ℝ)) (h : ∀ p ∈ data, p.1 ≠ 0) :
    data.mapM (lossState o) = data.mapM (fromOptions o) := by
  induction data with
  | nil => rfl
  | cons g l ih =>
    have : lossState o g = fromOptions o g := by
      simp only [lossState]
      rw [if_pos (h g List.mem_cons_self)]
    rw [List.mapM_cons, List.mapM_cons, this, ih (fun p hp => h p (List.mem_cons_of_mem _ hp))]

/-- A simple loss function made from supported options and usable numbers, none of whose first numbers is zero: the loss of
`count` components is, on average, `count × factor × Σ p_i × (mean of the law described for state i)`. -/
theorem loss_is_described_partial (mt : MuType) (st : SigmaType) (hsup : Supported mt st) (data : List (ℝ × ℝ))
    (hne : data ≠ []) (hs : ∀ p ∈ data, 0 < p.2) (hm : mt ≠ .meanLnX → ∀ p ∈ data, 0 < p.1)
    (hz : ∀ p ∈ data, p.1 ≠ 0) :
    ∃ (ds : List LogNormalDist) (ps : List (ℝ × ℝ)), simplelossfn ⟨some mt, some st⟩ data = .value ds ∧
      List.Forall₂ (fun g p => MuIs mt g.1 p.1 p.2 ∧ SdIs st g.2 p.1 p.2) data ps ∧
      ∀ (probs : List ℝ), probs.length = data.length → (∀ p ∈ probs, 0 ≤ p) → probs.sum ≤ 1 →
        ∀ (count : ℤ), 0 ≤ count → ∀ adj : ℝ, 0 ≤ adj →
          ∃ d, Loss.simple ds (probs.map Dbl.fin) count (.fin adj) = .ok d ∧
            d.getMean = .fin (count * adj * (List.zipWith (fun (p : ℝ × ℝ) w => w * ∫ x, x ∂LN p.1 p.2) ps probs).sum) := by
  obtain ⟨ps, h1, h2, h3⟩ := states_described mt st hsup data hs hm
  refine ⟨ps.map (fun p => ⟨.fin p.1, .fin p.2⟩), ps, ?_, h2, ?_⟩
  · simp only [simplelossfn, mapM_lossState _ _ hz, h3, Loss.construct, List.length_map, ← h2.length_eq]
    rw [if_neg (by simpa using hne)]
  · intro probs hl hp hsum count hc adj ha
    have hr : ReportsAll (ps.map (fun p => (⟨.fin p.1, .fin p.2⟩ : LogNormalDist)))
        (ps.map (fun p => (∫ x, x ∂LN p.1 p.2, Real.sqrt (Var[fun x => x; LN p.1 p.2])))) := by
      rw [ReportsAll]
      clear h1 h2 h3 hl hp hsum
      induction ps with
      | nil => exact .nil
      | cons p ps ih => exact .cons (moments_are_true_moments p.1 p.2) ih
    have hpr : ∀ d ∈ ps.map (fun p => (⟨.fin p.1, .fin p.2⟩ : LogNormalDist)), d.Proper := by
      intro d hd
      obtain ⟨p, -, rfl⟩ := List.mem_map.1 hd
      exact ⟨p.2, rfl, Or.inl ⟨p.1, rfl⟩⟩
    obtain ⟨d, s, e1, -, -, -, e2⟩ := Loss.simple_loss _ hpr _ hr probs
      (by rw [List.length_map, ← h2.length_eq, hl]) hp hsum count hc adj ha
    refine ⟨d, e1, ?_⟩
    rw [e2.1, mixMean, List.zipWith_map_left]

/-- Means 10 and 20, probabilities 1/2 and 1/4, three components: 30 on average. -/
example : ∃ ds d, simplelossfn ⟨some .meanX, some .sdLnX⟩ [(10, 1/2), (20, 1/2)] = .value ds ∧
    Loss.simple ds [.fin (1/2), .fin (1/4)] 3 (.fin 1) = .ok d ∧ d.getMean = .fin 30 := by
  obtain ⟨ds, ps, h1, h2, h3⟩ := loss_is_described_partial .meanX .sdLnX (Or.inl rfl) [(10, 1/2), (20, 1/2)]
    (by simp) (by simp) (by simp) (by simp)
  obtain ⟨d, e1, e2⟩ := h3 [1/2, 1/4] rfl (by simp) (by norm_num) 3 (by norm_num) 1 (by norm_num)
  refine ⟨ds, d, h1, by simpa using e1, ?_⟩
  cases h2 with
  | cons a l =>
    cases l with
    | cons b l =>
      cases l
      rw [e2]
      simp only [List.zipWith_cons_cons, List.zipWith_nil_left]
      rw [show (∫ x, x ∂LN _ _ : ℝ) = _ from a.1, show (∫ x, x ∂LN _ _ : ℝ) = _ from b.1]
      norm_num

theorem weighted_nan (l : List (LogNormalDist × Dbl)) (acc : Dbl × Dbl)
    (h : acc.1 = .nan ∨ ∃ e ∈ l, e.1 = LogNormalDist.unset) : (l.foldl weightedStep acc).1 = .nan := by
  induction l generalizing acc with
  | nil =>
    rcases h with h | ⟨e, he, -⟩
    · exact h
    · cases he
  | cons e l ih =>
    rw [List.foldl_cons]
    apply ih
    rcases h with h | ⟨e', he', hu⟩
    · left
      simp only [weightedStep, h, nan_add]
    · rcases List.mem_cons.1 he' with rfl | he'
      · left
        simp only [weightedStep, hu, (unset_answers_nan 0).2.2.1, nan_mul, add_nan]
      · exact Or.inr ⟨e', he', hu⟩

theorem simple_nan (ds : List LogNormalDist) (ws : List Dbl) (hl : ds.length = ws.length)
    (h : LogNormalDist.unset ∈ ds) (count : ℤ) (adj : Dbl) :
    ∃ d, Loss.simple ds ws count adj = .ok d ∧ d.getMean = .nan := by
  have h1 : ((ds.zip ws).foldl weightedStep (0, 0)).1 = .nan := by
    apply weighted_nan
    right
    obtain ⟨i, hi, he⟩ := List.mem_iff_getElem.1 h
    refine ⟨(ds[i], ws[i]'(hl ▸ hi)), ?_, he⟩
    rw [List.mem_iff_getElem]
    exact ⟨i, by simpa [hl] using hl ▸ hi, by simp⟩
  refine ⟨((ofMeanSigma ((ds.zip ws).foldl weightedStep (0, 0)).1
    (sqrt (abs (((ds.zip ws).foldl weightedStep (0, 0)).2 - ((ds.zip ws).foldl weightedStep (0, 0)).1 *
      ((ds.zip ws).foldl weightedStep (0, 0)).1)))).adjust (.fin (count : ℝ))).adjust adj, ?_, ?_⟩
  · simp only [Loss.simple, addWeighted, hl, ne_eq, not_true, if_false]
  · have : ∀ s : Dbl, (ofMeanSigma .nan s).getMean = .nan := by
      intro s
      simp [ofMeanSigma, muFromMeanSigmaLn, getMean]
    have hadj : ∀ (d : LogNormalDist) (k : Dbl), d.getMean = .nan → (d.adjust k).getMean = .nan := by
      intro d k hd
      rw [adjust, hd]
      simp [ofMeanSigmaLn, muFromMeanSigmaLn, getMean]
    rw [h1]
    exact hadj _ _ (hadj _ _ (this _))

/-- A damage state that costs nothing (first number zero) makes every expected loss of the function not a number, whatever
the probabilities — even when the state has probability zero — and whatever the other states cost. -/
theorem loss_zero_state_fails (mt : MuType) (st : SigmaType) (data : List (ℝ × ℝ)) (s : ℝ) (h : (0, s) ∈ data) :
    ∃ ds, simplelossfn ⟨some mt, some st⟩ data = .value ds ∧
      ∀ (probs : List Dbl), probs.length = data.length → ∀ (count : ℤ) (adj : Dbl),
        ∃ d, Loss.simple ds probs count adj = .ok d ∧ d.getMean = .nan := by
  have hm : ∃ ds, data.mapM (lossState ⟨some mt, some st⟩) = some ds ∧ ds.length = data.length ∧
      ((∃ s, (0, s) ∈ data) → LogNormalDist.unset ∈ ds) := by
    clear h
    induction data with
    | nil => exact ⟨[], rfl, rfl, by simp⟩
    | cons g l ih =>
      obtain ⟨ds, h1, h2, h3⟩ := ih
      by_cases hg : g.1 = 0
      · refine ⟨LogNormalDist.unset :: ds, ?_, by simp [h2], fun _ => by simp⟩
        have : lossState ⟨some mt, some st⟩ g = some LogNormalDist.unset := by
          simp [lossState, hg, defaultDist]
        rw [List.mapM_cons, this, h1]
        rfl
      · refine ⟨logNormalDist (.fin g.1) mt (.fin g.2) st :: ds, ?_, by simp [h2], ?_⟩
        · have : lossState ⟨some mt, some st⟩ g = some (logNormalDist (.fin g.1) mt (.fin g.2) st) := by
            simp [lossState, hg, fromOptions]
          rw [List.mapM_cons, this, h1]
          rfl
        · rintro ⟨s, hs⟩
          rcases List.mem_cons.1 hs with rfl | hs
          · exact absurd rfl hg
          · exact List.mem_cons_of_mem _ (h3 ⟨s, hs⟩)
  obtain ⟨ds, h1, h2, h3⟩ := hm
  have hu := h3 ⟨s, h⟩
  refine ⟨ds, ?_, ?_⟩
  · simp only [simplelossfn, h1, Loss.construct]
    rw [if_neg (by
      intro e
      rw [List.length_eq_zero_iff.1 e] at hu
      cases hu)]
  · intro probs hl count adj
    exact simple_nan ds probs (by rw [h2, hl]) hu count adj

/-- Two damage states, the first one free of cost; the library itself accepts a distribution with mean 0. -/
example : (∃ ds, simplelossfn ⟨some .meanX, some .sdLnX⟩ [(0, 1/2), (100, 1/2)] = .value ds ∧
      ∃ d, Loss.simple ds [.fin 0, .fin 1] 1 (.fin 1) = .ok d ∧ d.getMean = .nan) ∧
    (logNormalDist (.fin 0) .meanX (.fin (1/2)) .sdLnX).getMean = .fin 0 := by
  constructor
  · obtain ⟨ds, h1, h2⟩ := loss_zero_state_fails .meanX .sdLnX [(0, 1/2), (100, 1/2)] (1/2) (by simp)
    exact ⟨ds, h1, h2 _ rfl 1 _⟩
  · exact (zero_mean_sdln (1/2)).1

/-- The zero is also replaced when it is a mean of the logarithm, where it stands for a median of 1: not a number instead of
`e^(1/8)`. -/
theorem loss_zero_log_mean_fails :
    (logNormalDist (.fin 0) .meanLnX (.fin (1/2)) .sdLnX).getMean = .fin (Real.exp (1/8)) ∧
    ∃ ds d, simplelossfn ⟨some .meanLnX, some .sdLnX⟩ [(0, 1/2)] = .value ds ∧
      Loss.simple ds [.fin 1] 1 (.fin 1) = .ok d ∧ d.getMean = .nan := by
  constructor
  · rw [logNormalDist, ofMuSigmaLn, getMean_fin]
    norm_num
  · obtain ⟨ds, h1, h2⟩ := loss_zero_state_fails .meanLnX .sdLnX [(0, 1/2)] (1/2) (by simp)
    obtain ⟨d, h3, h4⟩ := h2 [.fin 1] rfl 1 (.fin 1)
    exact ⟨ds, d, h1, h3, h4⟩

/-- Two-level losses: the documentation of the class says that the costs are medians (src/pyslat.py:1044); they are used as
means, so that the median of the unit cost is strictly smaller than the given cost whenever there is a dispersion. -/
theorem bilevel_costs_are_medians_fails (lo hi : ℤ) (a b disp : ℝ) (ha : 0 < a) (hd : disp ≠ 0) :
    ∃ l, bilevellossfn [([lo, hi], [a, b, disp])] = .value [l] ∧
      ∃ d r, l.forCount lo = some d ∧ d.getMean = .fin a ∧ d.getMedian = .fin r ∧ r < a := by
  refine ⟨⟨lo, hi, .fin a, .fin b, .fin disp⟩, rfl, ?_⟩
  refine ⟨ofMeanSigmaLn (.fin a) (.fin disp), a * Real.exp (-(disp * disp / 2)), ?_, ?_, ?_, ?_⟩
  · simp [Loss.BiLevel.forCount, Loss.BiLevel.unitMean]
  · exact (mean_sdln_roundtrip a disp ha).1
  · simp [ofMeanSigmaLn, muFromMeanSigmaLn, log_pos ha, getMedian, Real.exp_sub, Real.exp_log ha, Real.exp_neg,
      div_eq_mul_inv]
  · have h : Real.exp (-(disp * disp / 2)) < 1 := by
      rw [Real.exp_lt_one_iff]
      have := mul_self_pos.2 hd
      linarith
    nlinarith

example : ∃ l, bilevellossfn [([1, 10], [20, 15, 1/2])] = .value [l] :=
  (bilevel_costs_are_medians_fails 1 10 20 15 (1/2) (by norm_num) (by norm_num)).imp fun _ h => h.1

/-! ### No delay function -/

theorem pHighest_length (states : List LogNormalDist) (x : Dbl) :
    (Fragility.pHighest states x).length = states.length := by
  have : ∀ l : List Dbl, (Fragility.differences l).length = l.length := by
    intro l
    induction l with
    | nil => rfl
    | cons a l ih =>
      cases l with
      | nil => rfl
      | cons b l => simpa [Fragility.differences] using ih
  rw [Fragility.pHighest, this, Fragility.pExceeded, List.length_map]

/-- A component group without a delay function (it is optional) does not report a delay of zero: a group with one damage
state reports a delay that is not a number, and asking a group with several damage states ends the process. -/
theorem no_delay_fails (states : List LogNormalDist) (count : ℤ) (adj edp : Dbl) :
    (states.length = 1 → expected (lossAtEdp states (delayFn none) count adj edp) = .value .nan) ∧
    (states.length ≠ 1 → expected (lossAtEdp states (delayFn none) count adj edp) = .dies) := by
  constructor
  · intro h
    obtain ⟨d, h1, h2⟩ := simple_nan [LogNormalDist.unset] (Fragility.pHighest states edp)
      (by rw [pHighest_length, h]; rfl) (by simp) count adj
    simp only [lossAtEdp, delayFn, defaultDist, h1, ofOutcome, expected, h2]
  · intro h
    have := (Loss.simple_loss_rejects [LogNormalDist.unset] (Fragility.pHighest states edp) count adj).2
      (by rw [pHighest_length]; exact fun e => h e.symm)
    simp only [lossAtEdp, delayFn, defaultDist, this, ofOutcome, expected]

/-- Two damage states. -/
example : expected (lossAtEdp [ofMedianSigmaLn (.fin 1) (.fin 1), ofMedianSigmaLn (.fin 2) (.fin 1)] (delayFn none) 10
    (.fin 1) (.fin 1)) = .dies := (no_delay_fails _ _ _ _).2 (by simp)

/-- A group with a delay function made from supported options and usable numbers, none zero: where its damage states have the
probabilities `probs`, the delay reported is `count × factor × Σ p_i × (mean of the law described for state i)`. -/
theorem delay_is_described_partial (mt : MuType) (st : SigmaType) (hsup : Supported mt st) (data : List (ℝ × ℝ))
    (hne : data ≠ []) (hs : ∀ p ∈ data, 0 < p.2) (hm : mt ≠ .meanLnX → ∀ p ∈ data, 0 < p.1)
    (hz : ∀ p ∈ data, p.1 ≠ 0) :
    ∃ (ds : List LogNormalDist) (ps : List (ℝ × ℝ)), simplelossfn ⟨some mt, some st⟩ data = .value ds ∧
      List.Forall₂ (fun g p => MuIs mt g.1 p.1 p.2 ∧ SdIs st g.2 p.1 p.2) data ps ∧
      ∀ (states : List LogNormalDist) (edp : Dbl) (probs : List ℝ), Fragility.pHighest states edp = probs.map Dbl.fin →
        states.length = data.length → (∀ p ∈ probs, 0 ≤ p) → probs.sum ≤ 1 →
        ∀ (count : ℤ), 0 ≤ count → ∀ adj : ℝ, 0 ≤ adj →
          expected (lossAtEdp states (delayFn (some ds)) count (.fin adj) edp) =
            .value (.fin (count * adj * (List.zipWith (fun (p : ℝ × ℝ) w => w * ∫ x, x ∂LN p.1 p.2) ps probs).sum)) := by
  obtain ⟨ds, ps, h1, h2, h3⟩ := loss_is_described_partial mt st hsup data hne hs hm hz
  refine ⟨ds, ps, h1, h2, ?_⟩
  intro states edp probs hph hl hp hsum count hc adj ha
  have hlen : probs.length = data.length := by
    have := pHighest_length states edp
    rw [hph, List.length_map] at this
    rw [this, hl]
  obtain ⟨d, e1, e2⟩ := h3 probs hlen hp hsum count hc adj ha
  simp only [lossAtEdp, delayFn, hph, e1, ofOutcome, expected, e2]

/-- One damage state with a median of 1: at a demand of 1 it is reached with probability 1/2, two components with a mean delay
of 7 each take 7 on average. -/
example : ∃ ds, simplelossfn ⟨some .meanX, some .sdLnX⟩ [(7, 1/2)] = .value ds ∧
    expected (lossAtEdp [ofMedianSigmaLn (.fin 1) (.fin 1)] (delayFn (some ds)) 2 (.fin 1) (.fin 1)) = .value (.fin 7) := by
  obtain ⟨ds, ps, h1, h2, h3⟩ := delay_is_described_partial .meanX .sdLnX (Or.inl rfl) [(7, 1/2)]
    (by simp) (by simp) (by simp) (by simp)
  have hp : Fragility.pHighest [ofMedianSigmaLn (.fin 1) (.fin 1)] (.fin 1) = [1/2].map Dbl.fin := by
    have h0 : ofMedianSigmaLn (.fin 1) (.fin 1) = ⟨.fin 0, .fin 1⟩ := by simp [ofMedianSigmaLn, log_pos]
    rw [h0]
    simp [Fragility.pHighest, Fragility.pExceeded, Fragility.differences, pAtMost_pos, Phi_zero]
  refine ⟨ds, h1, ?_⟩
  rw [h3 _ _ [1/2] hp rfl (by simp) (by norm_num) 2 (by norm_num) 1 (by norm_num)]
  cases h2 with
  | cons a l =>
    cases l
    simp only [List.zipWith_cons_cons, List.zipWith_nil_left]
    rw [show (∫ x, x ∂LN _ _ : ℝ) = _ from a.1]
    norm_num

/-! ### Deterministic functions -/

/-- Spec: the parameters a deterministic function of each type needs: at least two numbers for a power law, three for the
hyperbolic law, for an interpolated function two lists of the same length with at least two strictly increasing abscissae. -/
def Fits (type : String) (p : Params) : Prop :=
  (type = "power law" ∧ ∃ a b l, p = .numbers (a :: b :: l)) ∨
  (type = "hyperbolic" ∧ ∃ a b c l, p = .numbers (a :: b :: c :: l)) ∨
  ((type = "linear" ∨ type = "loglog") ∧ ∃ x y l, p = .lists (x :: y :: l) ∧ x.length = y.length ∧ 2 ≤ x.length ∧
    x.Pairwise (· < ·))

/-- The data of a log-log function (first two lists) are positive. -/
def PosData : Params → Prop
  | .lists (x :: y :: _) => (∀ a ∈ x, 0 < a) ∧ ∀ a ∈ y, 0 < a
  | _ => True

theorem zip_pairwise (x y : List ℝ) (h : x.length = y.length) :
    (x.zip y).Pairwise (fun p q => p.1 < q.1) ↔ x.Pairwise (· < ·) := by
  have : x = (x.zip y).map Prod.fst := by
    rw [List.map_fst_zip]
    omega
  conv_rhs => rw [this, List.pairwise_map]

theorem factory3_lin (x y : List ℝ) (h : x.length = y.length) (h2 : 2 ≤ x.length) :
    (x.Pairwise (· < ·) → ∃ f, Functions.linearFn (x.zip y) = some f ∧ factory3 .lin x y = .value (some f)) ∧
    (¬ x.Pairwise (· < ·) → factory3 .lin x y = .dies) := by
  have hc := Functions.linear_constructs_iff (x.zip y)
  have hlen : (x.zip y).length = x.length := by simp [h]
  rw [hlen, zip_pairwise x y h] at hc
  have hif : ¬ (x.length < 2 ∨ x.length ≠ y.length) := by omega
  constructor
  · intro hp
    obtain ⟨f, hf⟩ := Option.isSome_iff_exists.1 (hc.2 ⟨h2, hp⟩)
    refine ⟨f, hf, ?_⟩
    simp only [factory3]
    rw [if_neg hif, hf]
  · intro hp
    have hf : Functions.linearFn (x.zip y) = none := by
      rw [← Option.not_isSome_iff_eq_none, hc]
      exact fun h => hp h.2
    simp only [factory3]
    rw [if_neg hif, hf]

theorem factory3_loglog (x y : List ℝ) (h : x.length = y.length) (h2 : 2 ≤ x.length) (hx : ∀ a ∈ x, 0 < a)
    (hy : ∀ a ∈ y, 0 < a) :
    (x.Pairwise (· < ·) → ∃ f, Functions.logLogFn (x.zip y) = some f ∧ factory3 .loglog x y = .value (some f)) ∧
    (¬ x.Pairwise (· < ·) → factory3 .loglog x y = .dies) := by
  have hlen : (x.zip y).length = x.length := by simp [h]
  have hif : ¬ (x.length < 2 ∨ x.length ≠ y.length) := by omega
  have hpos : ∀ p ∈ x.zip y, 0 < p.1 ∧ 0 < p.2 := by
    rintro ⟨a, b⟩ hp
    have := List.of_mem_zip hp
    exact ⟨hx _ this.1, hy _ this.2⟩
  constructor
  · intro hp
    obtain ⟨f, hf, -⟩ := Functions.logLog_faithful (x.zip y) hpos (by rw [hlen]; exact h2)
      ((zip_pairwise x y h).2 hp)
    refine ⟨f, hf, ?_⟩
    simp only [factory3]
    rw [if_neg hif, hf]
  · intro hp
    have hf : Functions.logLogFn (x.zip y) = none := by
      rw [Functions.logLogFn, if_neg]
      rintro ⟨-, ht⟩
      apply hp
      rw [← zip_pairwise x y h]
      rw [Functions.logTable, List.pairwise_map] at ht
      refine ht.imp_of_mem ?_
      intro p q hp hq hlt
      exact (Real.log_lt_log_iff (hpos p hp).1 (hpos q hq).1).1 hlt
    simp only [factory3]
    rw [if_neg hif, hf]

theorem valueAt_value (w : Wrapped) (x : Dbl) : (∃ v, valueAt w x = .value v) ↔ ∃ f, w = some f := by
  cases w <;> simp [valueAt]

/-- A deterministic function answers a question exactly when its parameters fit its type. -/
theorem detfn_answers_iff (type : String) (p : Params) (hpos : type = "loglog" → PosData p) (x : Dbl) :
    (∃ v, detfnAt type p x = .value v) ↔ Fits type p := by
  by_cases h1 : type = "power law"
  · subst h1
    cases p with
    | numbers l =>
      rcases l with _ | ⟨a, _ | ⟨b, l⟩⟩
      · simp only [detfnAt, detfn, fnType, if_true, fromNumbers, factory2, reduceCtorEq, exists_false, false_iff]
        simp [Fits]
      · simp only [detfnAt, detfn, fnType, if_true, fromNumbers, factory2, reduceCtorEq, exists_false, false_iff]
        simp [Fits]
      · simp only [detfnAt, detfn, fnType, if_true, fromNumbers, factory2, valueAt]
        exact ⟨fun _ => Or.inl ⟨rfl, a, b, l, rfl⟩, fun _ => ⟨_, rfl⟩⟩
    | lists l =>
      cases l <;>
      · simp only [detfnAt, detfn, fnType, if_true, fromNumbers, factory2, reduceCtorEq, exists_false, false_iff]
        simp [Fits]
  by_cases h2 : type = "hyperbolic"
  · subst h2
    have hf : fnType "hyperbolic" = some .nlh := by simp [fnType]
    cases p with
    | numbers l =>
      rcases l with _ | ⟨a, _ | ⟨b, _ | ⟨c, l⟩⟩⟩
      · simp only [detfnAt, detfn, hf, fromNumbers, factory2, reduceCtorEq, exists_false, false_iff]
        simp [Fits]
      · simp only [detfnAt, detfn, hf, fromNumbers, factory2, reduceCtorEq, exists_false, false_iff]
        simp [Fits]
      · simp only [detfnAt, detfn, hf, fromNumbers, factory2, reduceCtorEq, exists_false, false_iff]
        simp [Fits]
      · simp only [detfnAt, detfn, hf, fromNumbers, factory2, valueAt]
        exact ⟨fun _ => Or.inr (Or.inl ⟨rfl, a, b, c, l, rfl⟩), fun _ => ⟨_, rfl⟩⟩
    | lists l =>
      cases l <;>
      · simp only [detfnAt, detfn, hf, fromNumbers, factory2, reduceCtorEq, exists_false, false_iff]
        simp [Fits]
  by_cases h3 : type = "loglog"
  · subst h3
    have hf : fnType "loglog" = some .loglog := by simp [fnType]
    have hpos := hpos rfl
    cases p with
    | numbers l =>
      simp only [detfnAt, detfn, hf, fromLists, reduceCtorEq, exists_false, false_iff]
      simp [Fits]
    | lists l =>
      rcases l with _ | ⟨a, _ | ⟨b, l⟩⟩
      · simp only [detfnAt, detfn, hf, fromLists, reduceCtorEq, exists_false, false_iff]
        simp [Fits]
      · simp only [detfnAt, detfn, hf, fromLists, reduceCtorEq, exists_false, false_iff]
        simp [Fits]
      · simp only [detfnAt, detfn, hf, fromLists]
        by_cases hc : a.length < 2 ∨ a.length ≠ b.length
        · have : factory3 .loglog a b = .value none := by simp only [factory3]; rw [if_pos hc]
          simp only [this, valueAt, reduceCtorEq, exists_false, false_iff]
          intro h
          simp [Fits] at h
          omega
        · have hl : a.length = b.length := by omega
          have hg : 2 ≤ a.length := by omega
          obtain ⟨g1, g2⟩ := factory3_loglog a b hl hg hpos.1 hpos.2
          by_cases hi : a.Pairwise (· < ·)
          · obtain ⟨f, -, hf⟩ := g1 hi
            simp only [hf, valueAt]
            exact ⟨fun _ => Or.inr (Or.inr ⟨Or.inr rfl, a, b, l, rfl, hl, hg, hi⟩), fun _ => ⟨_, rfl⟩⟩
          · simp only [g2 hi, reduceCtorEq, exists_false, false_iff]
            simp [Fits, hi]
  by_cases h4 : type = "linear"
  · subst h4
    have hf : fnType "linear" = some .lin := by simp [fnType]
    cases p with
    | numbers l =>
      simp only [detfnAt, detfn, hf, fromLists, reduceCtorEq, exists_false, false_iff]
      simp [Fits]
    | lists l =>
      rcases l with _ | ⟨a, _ | ⟨b, l⟩⟩
      · simp only [detfnAt, detfn, hf, fromLists, reduceCtorEq, exists_false, false_iff]
        simp [Fits]
      · simp only [detfnAt, detfn, hf, fromLists, reduceCtorEq, exists_false, false_iff]
        simp [Fits]
      · simp only [detfnAt, detfn, hf, fromLists]
        by_cases hc : a.length < 2 ∨ a.length ≠ b.length
        · have : factory3 .lin a b = .value none := by simp only [factory3]; rw [if_pos hc]
          simp only [this, valueAt, reduceCtorEq, exists_false, false_iff]
          intro h
          simp [Fits] at h
          omega
        · have hl : a.length = b.length := by omega
          have hg : 2 ≤ a.length := by omega
          obtain ⟨g1, g2⟩ := factory3_lin a b hl hg
          by_cases hi : a.Pairwise (· < ·)
          · obtain ⟨f, -, hf⟩ := g1 hi
            simp only [hf, valueAt]
            exact ⟨fun _ => Or.inr (Or.inr ⟨Or.inl rfl, a, b, l, rfl, hl, hg, hi⟩), fun _ => ⟨_, rfl⟩⟩
          · simp only [g2 hi, reduceCtorEq, exists_false, false_iff]
            simp [Fits, hi]
  · have hf : fnType type = none := by simp [fnType, h1, h2, h3, h4]
    simp only [detfnAt, detfn, hf, reduceCtorEq, exists_false, false_iff]
    simp [Fits, h1, h2, h3, h4]

example : ∃ v, detfnAt "linear" (.lists [[1, 2], [3, 5]]) (.fin 1) = .value v :=
  (detfn_answers_iff _ _ (by simp) _).2 (Or.inr (Or.inr ⟨Or.inl rfl, [1, 2], [3, 5], [], rfl, rfl, by simp, by norm_num⟩))

/-- And then the answer is that of the formula or table: a power law `a x^b`, `r exp(p / ln(x/q))` below `q` (and 0 from
there on) from the numbers `p, q, r` of a hyperbolic function, the table's value at each of its abscissae. -/
theorem detfn_is_described :
    (∀ (a b : ℝ) (l : List ℝ) (x : ℝ), 0 < x → detfnAt "power law" (.numbers (a :: b :: l)) (.fin x) =
      .value (.fin (a * x ^ b))) ∧
    (∀ (p q r : ℝ) (l : List ℝ) (x : ℝ), 0 < x → x < q →
      detfnAt "hyperbolic" (.numbers (p :: q :: r :: l)) (.fin x) = .value (.fin (r * Real.exp (p / Real.log (x / q))))) ∧
    (∀ (p q r : ℝ) (l : List ℝ) (x : ℝ), q ≤ x →
      detfnAt "hyperbolic" (.numbers (p :: q :: r :: l)) (.fin x) = .value (.fin 0)) ∧
    (∀ (type : String) (x y : List ℝ) (l : List (List ℝ)), type = "linear" ∨ type = "loglog" →
      (type = "loglog" → PosData (.lists (x :: y :: l))) → Fits type (.lists (x :: y :: l)) →
      ∀ e ∈ x.zip y, detfnAt type (.lists (x :: y :: l)) (.fin e.1) = .value (.fin e.2)) := by
  refine ⟨?_, ?_, ?_, ?_⟩
  · intro a b l x hx
    simp [detfnAt, detfn, fnType, fromNumbers, factory2, valueAt, plcFn, Functions.plc, Functions.powD, hx]
  · intro p q r l x hx hq
    have hf : fnType "hyperbolic" = some .nlh := by simp [fnType]
    simp only [detfnAt, detfn, hf, fromNumbers, factory2, valueAt, Functions.nlh_inside hx hq]
  · intro p q r l x hq
    have hf : fnType "hyperbolic" = some .nlh := by simp [fnType]
    simp only [detfnAt, detfn, hf, fromNumbers, factory2, valueAt, Functions.nlh_outside hq]
  · intro type x y l ht hpos hfit e he
    obtain ⟨h, h2, hi⟩ : x.length = y.length ∧ 2 ≤ x.length ∧ x.Pairwise (· < ·) := by
      rcases hfit with ⟨-, _, _, _, h⟩ | ⟨-, _, _, _, _, h⟩ | ⟨-, x', y', l', h, h1⟩
      · cases h
      · cases h
      · cases h
        exact h1
    rcases ht with rfl | rfl
    · have hf : fnType "linear" = some .lin := by simp [fnType]
      obtain ⟨f, g1, g2⟩ := (factory3_lin x y h h2).1 hi
      simp only [detfnAt, detfn, hf, fromLists, g2, valueAt, (Functions.linear_faithful _ f g1).1 e he]
    · have hf : fnType "loglog" = some .loglog := by simp [fnType]
      have hp := hpos rfl
      obtain ⟨f, g1, g2⟩ := (factory3_loglog x y h h2 hp.1 hp.2).1 hi
      obtain ⟨f', k1, k2, -⟩ := Functions.logLog_faithful (x.zip y) (by
        rintro ⟨a, b⟩ hab
        have := List.of_mem_zip hab
        exact ⟨hp.1 _ this.1, hp.2 _ this.2⟩) (by simpa [h] using h ▸ h2) ((zip_pairwise x y h).2 hi)
      rw [g1, Option.some.injEq] at k1
      subst k1
      simp only [detfnAt, detfn, hf, fromLists, g2, valueAt, k2 e he]

example : detfnAt "power law" (.numbers [1/10, 2]) (.fin 3) = .value (.fin (9/10)) := by
  rw [detfn_is_described.1 _ _ _ _ (by norm_num)]
  norm_num

/-- Parameters that do not fit are not always refused: an interpolated function of two lists of different lengths is made,
and evaluating it dereferences a null pointer; a power law or a hyperbolic function with too few numbers reads beyond its
list. -/
theorem detfn_refused_fails :
    (∀ x y : List ℝ, x.length ≠ y.length → detfn "linear" (.lists [x, y]) = .value none ∧
      detfn "loglog" (.lists [x, y]) = .value none ∧ ∀ v, detfnAt "linear" (.lists [x, y]) v = .undefined) ∧
    (∀ a : ℝ, detfn "power law" (.numbers [a]) = .undefined) ∧
    (∀ a b : ℝ, detfn "hyperbolic" (.numbers [a, b]) = .undefined) := by
  refine ⟨?_, ?_, ?_⟩
  · intro x y h
    have hf : fnType "linear" = some .lin := by simp [fnType]
    have hg : fnType "loglog" = some .loglog := by simp [fnType]
    have h1 : factory3 .lin x y = .value none := by simp only [factory3]; rw [if_pos (Or.inr h)]
    have h2 : factory3 .loglog x y = .value none := by simp only [factory3]; rw [if_pos (Or.inr h)]
    simp only [detfnAt, detfn, hf, hg, fromLists, h1, h2, valueAt, and_self, implies_true]
  · intro a
    simp [detfn, fnType, fromNumbers, factory2]
  · intro a b
    simp [detfn, fnType, fromNumbers, factory2]

example : ∀ v, detfnAt "linear" (.lists [[1, 2, 3], [1, 2]]) v = .undefined :=
  (detfn_refused_fails.1 _ _ (by simp)).2.2

/-- The documentation of the language (slat-lang.org, "Intensity Measures": "expects three numbers: v_asy, im_asy, and alpha,
in that order", `y = v_asy · exp(alpha / ln(x / im_asy))`) is not what the command does: the first number is used as alpha and
the third as v_asy.  With three numbers as in the documentation's example the answer differs from the documented formula at
every intensity below `im_asy`, because the value close to zero tends to the third number instead of the first. -/
theorem hyperbolic_order_fails (v im alpha : ℝ) (hv : alpha < v) (ha : 0 < alpha) (x : ℝ) (hx : 0 < x) (hxi : x < im) :
    commandAt (.hyperbolic v im alpha) (.fin x) = .value (.fin (alpha * Real.exp (v / Real.log (x / im)))) ∧
    alpha * Real.exp (v / Real.log (x / im)) < v * Real.exp (alpha / Real.log (x / im)) := by
  constructor
  · have := detfn_is_described.2.1 v im alpha [] x hx hxi
    simpa only [commandAt, command, detfnAt] using this
  · have him : 0 < im := hx.trans hxi
    have hl : Real.log (x / im) < 0 := Real.log_neg (div_pos hx him) ((div_lt_one him).2 hxi)
    have he : Real.exp (v / Real.log (x / im)) < Real.exp (alpha / Real.log (x / im)) := by
      rw [Real.exp_lt_exp]
      exact div_lt_div_of_neg_of_lt hl hv
    calc alpha * Real.exp (v / Real.log (x / im)) < alpha * Real.exp (alpha / Real.log (x / im)) := by
          exact mul_lt_mul_of_pos_left he ha
      _ < v * Real.exp (alpha / Real.log (x / im)) := mul_lt_mul_of_pos_right hv (Real.exp_pos _)

/-- The documentation's own example, `hyperbolic 1221, 29.8, 62.2`. -/
example : ∃ r, commandAt (.hyperbolic 1221 (298/10) (622/10)) (.fin 1) = .value (.fin r) ∧
    r < 1221 * Real.exp (622/10 / Real.log (1 / (298/10))) :=
  ⟨_, hyperbolic_order_fails 1221 (298/10) (622/10) (by norm_num) (by norm_num) 1 (by norm_num) (by norm_num)⟩

/-- The command `powerlaw a, b` of the language defines the function `a x^b`. -/
theorem power_law_command (a b x : ℝ) (hx : 0 < x) : commandAt (.powerlaw a b) (.fin x) = .value (.fin (a * x ^ b)) := by
  have := detfn_is_described.1 a b [] x hx
  simpa only [commandAt, command, detfnAt] using this

example : commandAt (.powerlaw (1/10) 2) (.fin 3) = .value (.fin (9/10)) := by
  rw [power_law_command _ _ _ (by norm_num)]
  norm_num

/-- An interpolated function cannot be defined in the language at all: the command always raises. -/
theorem interpolated_command_fails (pts : List (ℝ × ℝ)) (x : Dbl) :
    commandAt (.linear pts) x = .raises ∧ commandAt (.loglog pts) x = .raises ∧
    (2 ≤ pts.length → pts.Pairwise (fun p q => p.1 < q.1) →
      ∃ v, detfnAt "linear" (.lists [pts.map Prod.fst, pts.map Prod.snd]) x = .value v) := by
  refine ⟨rfl, rfl, fun h2 hp => ?_⟩
  exact (detfn_answers_iff _ _ (by simp) _).2
    (Or.inr (Or.inr ⟨Or.inl rfl, _, _, _, rfl, by simp, by simpa using h2, by rw [List.pairwise_map]; exact hp⟩))

example : commandAt (.linear [(1, 2), (3, 4)]) (.fin 2) = .raises := (interpolated_command_fails _ _).1

end Slat.Make
