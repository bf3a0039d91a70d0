import Verif.FragilityModel
import Verif.LogNormalProps
import Verif.LogNormalSums

/-!
# Fragility functions (C22, C23) and loss functions (C24, C25)
-/

namespace Slat

open Dbl LogNormalDist

namespace Fragility

/-! ### C22 -/

theorem check_some {mean : Dbl} {ds l : List LogNormalDist} (h : check mean ds = some l) : l = ds := by
  induction ds generalizing mean l with
  | nil => simp [check] at h; exact h
  | cons d ds ih =>
    simp only [check] at h
    split at h
    · simp at h
    · obtain ⟨l', h1, rfl⟩ := Option.map_eq_some_iff.1 h
      rw [ih h1]

/-- On numbers (infinities included) the order of log-medians is the order of medians, and is total. -/
theorem median_lt_iff {a b : LogNormalDist} (ha : ¬ isNaN a.mu) (hb : ¬ isNaN b.mu) :
    a.getMedian < b.getMedian ↔ ¬ b.getMuLn ≤ a.getMuLn := by
  obtain ⟨ma, sa⟩ := a
  obtain ⟨mb, sb⟩ := b
  have h1 : ∀ r : ℝ, ¬ ninf ≤ fin r → False := fun r h => h (Or.inl trivial)
  have h2 : ¬ (fin 0 < fin 0) := lt_irrefl (0 : ℝ)
  have h3 : (ninf : Dbl) ≤ ninf := Or.inr trivial
  have h4 : (ninf : Dbl) ≤ pinf := Or.inl trivial
  have h5 : ¬ (pinf : Dbl) ≤ ninf := by rintro (h | h) <;> exact h
  have h6 : ∀ r : ℝ, ninf ≤ fin r := fun r => Or.inl trivial
  cases ma <;> cases mb <;>
    simp_all [getMedian, getMuLn, Real.exp_pos, (Real.exp_pos _).le, (Real.exp_pos _).not_gt]

theorem le_of_not_le {a b : Dbl} (ha : ¬ isNaN a) (hb : ¬ isNaN b) (h : ¬ a ≤ b) : b < a := by
  cases a <;> cases b <;> first
    | exact absurd trivial ha
    | exact absurd trivial hb
    | (simp at h ⊢; exact h)
    | trivial
    | exact absurd (Or.inr trivial) h
    | exact absurd (Or.inl trivial) h

theorem check_isSome_iff (mean : Dbl) (ds : List LogNormalDist) (hn : ∀ d ∈ ds, ¬ isNaN d.mu) :
    (check mean ds).isSome = true ↔
      (∀ d, ds.head? = some d → ¬ d.getMuLn ≤ mean) ∧ ds.IsChain (fun a b => ¬ b.getMuLn ≤ a.getMuLn) := by
  induction ds generalizing mean with
  | nil => simp [check]
  | cons d ds ih =>
    simp only [check]
    have ih' := ih d.getMuLn (fun e he => hn e (List.mem_cons_of_mem _ he))
    split
    · rename_i h
      simp [h]
    · rename_i h
      simp only [Option.isSome_map, ih', List.head?_cons, Option.some.injEq, forall_eq', h, not_false_iff,
        true_and]
      cases ds <;> simp

/-- For onsets whose location is not NaN: a fragility function is created iff there is at least one onset and
the medians strictly increase; its states are then the onsets, in order. -/
theorem construct_iff_increasing (onsets : List LogNormalDist) (hn : ∀ d ∈ onsets, ¬ isNaN d.mu) :
    ((construct onsets).isSome = true ↔
      onsets ≠ [] ∧ onsets.Pairwise (fun a b => a.getMedian < b.getMedian)) ∧
    ∀ states, construct onsets = some states → states = onsets ∧ nStates states = onsets.length := by
  constructor
  · unfold construct
    split
    · rename_i h
      simp [List.length_eq_zero_iff.1 h]
    · rename_i h
      rw [check_isSome_iff _ _ hn]
      simp only [not_le_nan, not_false_iff, implies_true, true_and]
      have hne : onsets ≠ [] := fun e => h (by simp [e])
      simp only [ne_eq, hne, not_false_iff, true_and]
      have htr : Trans (fun a b : LogNormalDist => a.getMedian < b.getMedian)
          (fun a b : LogNormalDist => a.getMedian < b.getMedian)
          (fun a b : LogNormalDist => a.getMedian < b.getMedian) := by
        constructor
        intro a b c h1 h2
        revert h1 h2
        generalize a.getMedian = x
        generalize b.getMedian = y
        generalize c.getMedian = z
        intro h1 h2
        cases x <;> cases y <;> cases z <;> first
          | trivial
          | exact lt_trans (a := (_ : ℝ)) h1 h2
          | exact absurd h1 (by simp)
          | exact absurd h2 (by simp)
          | exact absurd h1 id
          | exact absurd h2 id
      rw [← List.isChain_iff_pairwise]
      constructor
      · intro hc
        refine hc.imp_of_mem_imp ?_
        intro a b ha hb hab
        exact (median_lt_iff (hn a ha) (hn b hb)).2 hab
      · intro hc
        refine hc.imp_of_mem_imp ?_
        intro a b ha hb hab
        exact (median_lt_iff (hn a ha) (hn b hb)).1 hab
  · intro states h
    unfold construct at h
    split at h
    · simp at h
    · have := check_some h
      exact ⟨this, by rw [this]; rfl⟩

/-- Two onsets with medians 1 < 2 are accepted, in the opposite order rejected. -/
example : (construct [ofMedianSigmaLn (.fin 1) (.fin 1), ofMedianSigmaLn (.fin 2) (.fin 1)]).isSome = true ∧
    construct [ofMedianSigmaLn (.fin 2) (.fin 1), ofMedianSigmaLn (.fin 1) (.fin 1)] = none := by
  have hn : ∀ m : ℝ, 0 < m → ¬ isNaN (ofMedianSigmaLn (.fin m) (.fin 1)).mu := by
    intro m hm
    simp [ofMedianSigmaLn, log_pos hm]
  have hm : ∀ m : ℝ, 0 < m → (ofMedianSigmaLn (.fin m) (.fin 1)).getMedian = .fin m := fun m hm =>
    (median_sdln_roundtrip m 1 hm).1
  constructor
  · refine (construct_iff_increasing _ ?_).1.2 ⟨by simp, ?_⟩
    · intro d hd
      simp only [List.mem_cons, List.not_mem_nil, or_false] at hd
      rcases hd with rfl | rfl <;> exact hn _ (by norm_num)
    · simp [hm]
  · rw [← Option.not_isSome_iff_eq_none, (construct_iff_increasing _ ?_).1]
    · simp [hm]
    · intro d hd
      simp only [List.mem_cons, List.not_mem_nil, or_false] at hd
      rcases hd with rfl | rfl <;> exact hn _ (by norm_num)

/-- An unset (NaN) onset defeats the check: medians 5, unset, 1 are accepted. -/
theorem construct_nan_fails :
    construct [ofMedianSigmaLn (.fin 5) (.fin 1), unset, ofMedianSigmaLn (.fin 1) (.fin 1)] =
      some [ofMedianSigmaLn (.fin 5) (.fin 1), unset, ofMedianSigmaLn (.fin 1) (.fin 1)] ∧
    (ofMedianSigmaLn (.fin 1) (.fin 1)).getMedian < (ofMedianSigmaLn (.fin 5) (.fin 1)).getMedian := by
  constructor
  · simp [construct, check, getMuLn, unset]
  · rw [(median_sdln_roundtrip 1 1 (by norm_num)).1, (median_sdln_roundtrip 5 1 (by norm_num)).1]
    simp

/-! ### C23 -/

/-- Spec: damage-state probabilities from exceedance probabilities `ps` (reals): successive differences, the
last one unchanged. -/
def succDiff : List ℝ → List ℝ
  | a :: b :: l => (a - b) :: succDiff (b :: l)
  | l => l

theorem differences_spec (ps : List ℝ) (h : ∀ p ∈ ps, 0 ≤ p ∧ p ≤ 1) :
    ∃ qs : List ℝ, differences (ps.map Dbl.fin) = qs.map Dbl.fin ∧ qs.length = ps.length ∧
      (∀ q ∈ qs, 0 ≤ q ∧ q ≤ 1) ∧
      (∀ i (hi : i < qs.length) (hp : i < ps.length), qs[i] ≤ ps[i]) ∧
      (∀ i (hi : i < qs.length) (hp : i + 1 < ps.length), qs[i] = max 0 (ps[i] - ps[i + 1])) ∧
      (∀ (h0 : ps ≠ []), ∃ h1 : qs ≠ [], qs.getLast h1 = ps.getLast h0) := by
  induction ps with
  | nil => exact ⟨[], rfl, rfl, by simp, by simp, by simp, by simp⟩
  | cons a l ih =>
    cases l with
    | nil =>
      exact ⟨[a], rfl, rfl, by simpa using h, by simp, by simp, by simp⟩
    | cons b l =>
      obtain ⟨qs, h1, h2, h3, h4, h5, h6⟩ := ih (fun p hp => h p (List.mem_cons_of_mem _ hp))
      have ha := h a List.mem_cons_self
      have hb := h b (List.mem_cons_of_mem _ List.mem_cons_self)
      refine ⟨max 0 (a - b) :: qs, ?_, by simp [h2], ?_, ?_, ?_, ?_⟩
      · simp only [List.map_cons] at h1 ⊢
        rw [differences, h1]
        simp only [fin_sub, zero_def, fin_lt]
        congr 1
        split
        · rename_i hlt; rw [max_eq_left hlt.le]
        · rename_i hlt; rw [max_eq_right (not_lt.1 hlt)]
      · intro q hq
        rcases List.mem_cons.1 hq with rfl | hq
        · exact ⟨le_max_left _ _, max_le zero_le_one (by linarith)⟩
        · exact h3 q hq
      · intro i hi hp
        cases i with
        | zero => exact max_le ha.1 (by simp; linarith)
        | succ i => simpa using h4 i (by simpa using hi) (by simpa using hp)
      · intro i hi hp
        cases i with
        | zero => rfl
        | succ i => exact h5 i (by simpa using hi) (by simpa using hp)
      · intro h0
        obtain ⟨hq, he⟩ := h6 (List.cons_ne_nil b l)
        refine ⟨List.cons_ne_nil _ _, ?_⟩
        rw [List.getLast_cons hq, he]
        rfl

theorem sum_succDiff (p : ℝ) (l : List ℝ) : (succDiff (p :: l)).sum = p := by
  induction l generalizing p with
  | nil => simp [succDiff]
  | cons b l ih => simp [succDiff, ih b]

theorem differences_of_antitone (ps : List ℝ) (h : ps.Pairwise (fun a b => b ≤ a)) :
    differences (ps.map Dbl.fin) = (succDiff ps).map Dbl.fin := by
  induction ps with
  | nil => rfl
  | cons a l ih =>
    cases l with
    | nil => rfl
    | cons b l =>
      have hab := (List.pairwise_cons.1 h).1 b List.mem_cons_self
      have := ih (List.pairwise_cons.1 h).2
      simp only [List.map_cons] at this ⊢
      rw [differences, this]
      simp [hab.not_gt, hab, succDiff]

/-- Exceedance probabilities of well-formed states (numeric location, positive spread) at a non-negative
demand are probabilities. -/
theorem pExceeded_spec (ps : List (ℝ × ℝ)) (h : ∀ p ∈ ps, 0 < p.2) (x : ℝ) (hx : 0 ≤ x) :
    ∃ es : List ℝ, es.length = ps.length ∧ (∀ e ∈ es, 0 ≤ e ∧ e ≤ 1) ∧
      pExceeded (ps.map (fun p => ⟨.fin p.1, .fin p.2⟩)) (.fin x) = es.map Dbl.fin ∧
      ∀ i (h1 : i < es.length) (h2 : i < ps.length), es[i] = (LN ps[i].1 ps[i].2).real (Set.Iic x) := by
  induction ps with
  | nil => exact ⟨[], rfl, by simp, rfl, by simp⟩
  | cons p ps ih =>
    obtain ⟨es, h1, h2, h3, h4⟩ := ih (fun q hq => h q (List.mem_cons_of_mem _ hq))
    have hp := h p List.mem_cons_self
    have hcdf := (p_at_most_is_cdf p.1 hp hx).1
    obtain ⟨q, hq0, hq1, he, -⟩ := (exceedance_is_probability p.1 hp).1 x hx
    rw [hcdf, fin_inj] at he
    refine ⟨(LN p.1 p.2).real (Set.Iic x) :: es, by simp [h1], ?_, ?_, ?_⟩
    · intro e hh
      rcases List.mem_cons.1 hh with rfl | hh
      · rw [he]; exact ⟨hq0, hq1⟩
      · exact h2 e hh
    · simp only [pExceeded, List.map_cons, List.map_map] at h3 ⊢
      rw [hcdf]
      congr 1
    · intro i hi hi'
      cases i with
      | zero => rfl
      | succ i => simpa using h4 i (by simpa using hi) (by simpa using hi')

/-- Every damage-state probability lies in [0,1], there is one per state, the last one is the probability of
reaching the last state, the others are the positive parts of the differences of the exceedance
probabilities. -/
theorem pHighest_are_probabilities (ps : List (ℝ × ℝ)) (h : ∀ p ∈ ps, 0 < p.2) (x : ℝ) (hx : 0 ≤ x) :
    ∃ es qs : List ℝ,
      pExceeded (ps.map (fun p => ⟨.fin p.1, .fin p.2⟩)) (.fin x) = es.map Dbl.fin ∧
      pHighest (ps.map (fun p => ⟨.fin p.1, .fin p.2⟩)) (.fin x) = qs.map Dbl.fin ∧
      es.length = ps.length ∧ qs.length = ps.length ∧
      (∀ q ∈ qs, 0 ≤ q ∧ q ≤ 1) ∧
      (∀ i (hi : i < qs.length) (hp : i + 1 < es.length), qs[i] = max 0 (es[i] - es[i + 1])) ∧
      (∀ (h0 : es ≠ []), ∃ h1 : qs ≠ [], qs.getLast h1 = es.getLast h0) := by
  obtain ⟨es, h1, h2, h3, -⟩ := pExceeded_spec ps h x hx
  obtain ⟨qs, g1, g2, g3, -, g5, g6⟩ := differences_spec es h2
  exact ⟨es, qs, h3, by rw [pHighest, h3, g1], h1, g2.trans h1, g3, g5, g6⟩

/-- When the exceedance probabilities do not increase from state to state, the damage-state probabilities are
their successive differences and sum to the probability of reaching the first state, hence to at most 1. -/
theorem pHighest_sum_partial (ps : List (ℝ × ℝ)) (h : ∀ p ∈ ps, 0 < p.2) (x : ℝ) (hx : 0 ≤ x)
    (e : ℝ) (es : List ℝ)
    (he : pExceeded (ps.map (fun p => ⟨.fin p.1, .fin p.2⟩)) (.fin x) = (e :: es).map Dbl.fin)
    (hmono : (e :: es).Pairwise (fun a b => b ≤ a)) :
    ∃ qs : List ℝ, pHighest (ps.map (fun p => ⟨.fin p.1, .fin p.2⟩)) (.fin x) = qs.map Dbl.fin ∧
      qs = succDiff (e :: es) ∧ qs.sum = e ∧ qs.sum ≤ 1 := by
  refine ⟨_, by rw [pHighest, he, differences_of_antitone _ hmono], rfl, sum_succDiff e es, ?_⟩
  rw [sum_succDiff]
  obtain ⟨es', -, h2, h3, -⟩ := pExceeded_spec ps h x hx
  rw [h3] at he
  have := List.map_injective_iff.2 Dbl.fin_injective he
  exact (h2 e (by rw [this]; simp)).2

theorem phi_antitone_of_same_sigma (ps : List (ℝ × ℝ)) (s : ℝ) (hs : 0 < s) (h : ∀ p ∈ ps, p.2 = s)
    (hinc : ps.Pairwise (fun p q => p.1 < q.1)) (x : ℝ) (hx : 0 < x) (es : List ℝ)
    (he : pExceeded (ps.map (fun p => ⟨.fin p.1, .fin p.2⟩)) (.fin x) = es.map Dbl.fin) :
    es.Pairwise (fun a b => b ≤ a) := by
  have : es = ps.map (fun p => Phi ((Real.log x - p.1) / s)) := by
    apply List.map_injective_iff.2 Dbl.fin_injective
    rw [← he, pExceeded, List.map_map, List.map_map]
    refine List.map_congr_left fun p hp => ?_
    simp only [Function.comp]
    rw [h p hp, pAtMost_pos p.1 hs hx]
  rw [this, List.pairwise_map]
  refine hinc.imp ?_
  intro p q hpq
  apply Phi_mono
  gcongr

/-- In particular with a common dispersion (the curves do not cross) the probabilities always sum to at most
1: together with "no damage" they form a distribution. -/
theorem pHighest_sum_common_dispersion (ps : List (ℝ × ℝ)) (hne : ps ≠ []) (s : ℝ) (hs : 0 < s)
    (h : ∀ p ∈ ps, p.2 = s) (hinc : ps.Pairwise (fun p q => p.1 < q.1)) (x : ℝ) (hx : 0 < x) :
    ∃ qs : List ℝ, pHighest (ps.map (fun p => ⟨.fin p.1, .fin p.2⟩)) (.fin x) = qs.map Dbl.fin ∧
      (∀ q ∈ qs, 0 ≤ q) ∧ qs.sum ≤ 1 := by
  have hs' : ∀ p ∈ ps, 0 < p.2 := fun p hp => by rw [h p hp]; exact hs
  obtain ⟨es, qs, h1, h2, h3, h4, h5, -⟩ := pHighest_are_probabilities ps hs' x hx.le
  cases es with
  | nil => exact absurd (List.length_eq_zero_iff.1 h3.symm) hne
  | cons e es =>
    obtain ⟨qs', g1, -, -, g4⟩ := pHighest_sum_partial ps hs' x hx.le e es h1
      (phi_antitone_of_same_sigma ps s hs h hinc x hx _ h1)
    rw [h2] at g1
    have := List.map_injective_iff.2 Dbl.fin_injective g1
    subst this
    exact ⟨qs, h2, fun q hq => (h5 q hq).1, g4⟩

example : ∃ qs : List ℝ, pHighest ([(0, 1), (1, 1), (2, 1)].map (fun p : ℝ × ℝ => ⟨.fin p.1, .fin p.2⟩))
    (.fin 3) = qs.map Dbl.fin ∧ (∀ q ∈ qs, 0 ≤ q) ∧ qs.sum ≤ 1 :=
  pHighest_sum_common_dispersion _ (by simp) 1 (by norm_num) (by simp) (by norm_num) 3 (by norm_num)

/-- With different dispersions the curves can cross and the damage-state probabilities sum to more than 1:
three states with increasing medians (accepted by the constructor) and a demand at which they sum to 6/5. -/
theorem pHighest_sum_fails :
    ∃ ps : List (ℝ × ℝ), (∀ p ∈ ps, 0 < p.2) ∧ ps.Pairwise (fun p q => p.1 < q.1) ∧
      (construct (ps.map (fun p => ⟨.fin p.1, .fin p.2⟩))).isSome = true ∧
      ∃ qs : List ℝ, pHighest (ps.map (fun p => ⟨.fin p.1, .fin p.2⟩)) (.fin 1) = qs.map Dbl.fin ∧
        qs.sum = 6 / 5 := by
  obtain ⟨u, hu⟩ := Phi_surj (p := 9/10) (by norm_num) (by norm_num)
  obtain ⟨v, hv⟩ := Phi_surj (p := 6/10) (by norm_num) (by norm_num)
  have hu0 : 0 < u := by
    by_contra hh
    have := Phi_mono (not_lt.1 hh)
    rw [hu, Phi_zero] at this
    norm_num at this
  have hv0 : 0 < v := by
    by_contra hh
    have := Phi_mono (not_lt.1 hh)
    rw [hv, Phi_zero] at this
    norm_num at this
  have e1 : (Real.log 1 - -3) / (3 / u) = u := by
    rw [Real.log_one]; field_simp; norm_num
  have e2 : (Real.log 1 - -2) / (2 / v) = v := by
    rw [Real.log_one]; field_simp; norm_num
  have e3 : (Real.log 1 - -1) / (1 / u) = u := by
    rw [Real.log_one]; field_simp; norm_num
  refine ⟨[(-3, 3 / u), (-2, 2 / v), (-1, 1 / u)], ?_, by norm_num, ?_, [3/10, 0, 9/10], ?_, by norm_num⟩
  · intro p hp
    simp only [List.mem_cons, List.not_mem_nil, or_false] at hp
    rcases hp with rfl | rfl | rfl <;> positivity
  · norm_num [construct, check, getMuLn]
  · simp only [pHighest, pExceeded, List.map_cons, List.map_nil]
    rw [pAtMost_pos (-3) (by positivity) one_pos, pAtMost_pos (-2) (by positivity) one_pos,
      pAtMost_pos (-1) (by positivity) one_pos, e1, e2, e3, hu, hv]
    simp only [differences, fin_sub, zero_def, fin_lt]
    norm_num

end Fragility

namespace Loss

/-! ### C24 -/

/-- The mean unit cost of a two-level loss with numeric costs: the low-count cost up to the lower count, the
high-count cost from the upper count on (when it lies above the lower count), in between the straight line;
it never divides by zero and stays between the two costs. -/
theorem two_level_interpolates (lo hi : ℤ) (a b : ℝ) (disp : Dbl) (count : ℤ) (h0 : 0 ≤ lo) (hi' : inInt hi)
    (hc : inInt count) :
    ∃ m : ℝ, (BiLevel.mk lo hi (.fin a) (.fin b) disp).unitMean count = some (.fin m) ∧
      (count ≤ lo → m = a) ∧ (lo < count → hi ≤ count → m = b) ∧
      (lo < count → count < hi → m * (hi - lo) = a * (hi - count) + b * (count - lo)) ∧
      min a b ≤ m ∧ m ≤ max a b := by
  unfold BiLevel.unitMean
  by_cases h1 : count ≤ lo
  · refine ⟨a, by simp [h1], fun _ => rfl, fun h => absurd h1 h.not_ge, fun h => absurd h1 h.not_ge,
      min_le_left _ _, le_max_left _ _⟩
  · by_cases h2 : hi ≤ count
    · exact ⟨b, by simp [h1, h2], fun h => absurd h h1, fun _ _ => rfl, fun _ h => absurd h2 h.not_ge,
        min_le_right _ _, le_max_right _ _⟩
    · push Not at h1 h2
      have hr1 : inInt (count - lo) := by unfold inInt at *; omega
      have hr2 : inInt (hi - lo) := by unfold inInt at *; omega
      have hd : (0 : ℝ) < (hi : ℝ) - lo := by
        have : (lo : ℝ) < hi := by exact_mod_cast h1.trans h2
        linarith
      have hn : (0 : ℝ) < (count : ℝ) - lo := by
        have : (lo : ℝ) < count := by exact_mod_cast h1
        linarith
      have hn' : (count : ℝ) < hi := by exact_mod_cast h2
      refine ⟨a + ((count : ℝ) - lo) / ((hi : ℝ) - lo) * (b - a), ?_, fun h => absurd h1 h.not_gt,
        fun _ h => absurd h2 h.not_gt, fun _ _ => by field_simp; ring, ?_⟩
      · have : ((hi - lo : ℤ) : ℝ) ≠ 0 := by push_cast; exact hd.ne'
        simp only [h1.not_ge, h2.not_ge, if_false, subInt, hr1, hr2, if_true, Option.bind_eq_bind,
          Option.bind_some, fin_div_of_ne this, fin_sub, fin_mul, fin_add]
        push_cast
        rfl
      · have t0 : 0 < ((count : ℝ) - lo) / ((hi : ℝ) - lo) := div_pos hn hd
        have t1 : ((count : ℝ) - lo) / ((hi : ℝ) - lo) < 1 := (div_lt_one hd).2 (by linarith)
        generalize ((count : ℝ) - lo) / ((hi : ℝ) - lo) = t at *
        constructor
        · rcases le_total a b with hab | hab
          · rw [min_eq_left hab]; nlinarith
          · rw [min_eq_right hab]; nlinarith
        · rcases le_total a b with hab | hab
          · rw [max_eq_right hab]; nlinarith
          · rw [max_eq_left hab]; nlinarith

/-- Bulk discount: if the cost at the upper count is not above the cost at the lower, the unit cost never rises
with the count. -/
theorem two_level_monotone (lo hi : ℤ) (a b : ℝ) (hab : b ≤ a) (disp : Dbl) (c d : ℤ) (h0 : 0 ≤ lo)
    (hi' : inInt hi) (hc : inInt c) (hd : inInt d) (hcd : c ≤ d) :
    ∃ m n : ℝ, (BiLevel.mk lo hi (.fin a) (.fin b) disp).unitMean c = some (.fin m) ∧
      (BiLevel.mk lo hi (.fin a) (.fin b) disp).unitMean d = some (.fin n) ∧ n ≤ m := by
  obtain ⟨m, hm, m1, m2, m3, m4, m5⟩ := two_level_interpolates lo hi a b disp c h0 hi' hc
  obtain ⟨n, hn, n1, n2, n3, n4, n5⟩ := two_level_interpolates lo hi a b disp d h0 hi' hd
  refine ⟨m, n, hm, hn, ?_⟩
  rw [min_eq_right hab] at m4 n4
  rw [max_eq_left hab] at m5 n5
  rcases le_or_gt c lo with h1 | h1
  · rw [m1 h1]; exact n5
  · rcases le_or_gt hi d with h2 | h2
    · rw [n2 (by omega) h2]; exact m4
    · have e1 := m3 h1 (by omega)
      have e2 := n3 (by omega) h2
      have hpos : (0 : ℝ) < (hi : ℝ) - lo := by
        have : (lo : ℝ) < hi := by exact_mod_cast (by omega : lo < hi)
        linarith
      have hcd' : (c : ℝ) ≤ d := by exact_mod_cast hcd
      by_contra hh
      push Not at hh
      nlinarith

/-- Counts 10 to 20, costs 100 down to 50: unit cost 75 at 15. -/
example : (BiLevel.mk 10 20 (.fin 100) (.fin 50) (.fin 1)).unitMean 15 = some (.fin 75) := by
  obtain ⟨m, hm, -, -, h, -⟩ := two_level_interpolates 10 20 100 50 (.fin 1) 15 (by norm_num)
    (by unfold inInt; norm_num) (by unfold inInt; norm_num)
  rw [hm]
  have := h (by norm_num) (by norm_num)
  norm_num at this
  congr 2
  linarith

/-- Extreme limits overflow `int`: a lower count below 0 can make the subtraction undefined. -/
theorem two_level_overflow_fails :
    (BiLevel.mk (-2147483648) 2147483647 (.fin 1) (.fin 2) (.fin 1)).unitMean 0 = none := by
  simp [BiLevel.unitMean, subInt, inInt]

/-! ### C25 -/

/-- Loss functions need at least one distribution. -/
theorem construct_iff {α : Type} (ds : List α) : (construct ds).isSome = true ↔ ds ≠ [] := by
  cases ds <;> simp [construct]

theorem scaled (d : LogNormalDist) (hd : d.Proper) (m s k : ℝ) (hr : d.Reports m s) (hk : 0 ≤ k) :
    (d.adjust (.fin k)).Reports (k * m) (k * s) ∧ (d.adjust (.fin k)).Proper := by
  rcases hk.lt_or_eq with h | h
  · obtain ⟨h1, -, -, h2, -⟩ := scaling d hd k m s h hr
    exact ⟨h1, h2⟩
  · subst h
    obtain ⟨-, -, -, -, h2⟩ := scaling d hd 1 m s one_pos hr
    refine ⟨by simpa using h2, ?_⟩
    obtain ⟨s', hs', -⟩ := hd
    refine ⟨s', hs', Or.inr ?_⟩
    simp [adjust, ofMeanSigmaLn, muFromMeanSigmaLn, getSigmaLn, hs', hr.1]

/-- The loss of `count` components: for usable state losses with (mean, sd) `ms`, probabilities `ps` of the
states summing to at most 1, non-negative count and adjustment factor, `CalculateLoss` returns a usable
distribution with mean `count × adjustment × Σ p_i m_i` and standard deviation `count × adjustment` times that
of the mixture. -/
theorem simple_loss (ds : List LogNormalDist) (hd : ∀ d ∈ ds, d.Proper) (ms : List (ℝ × ℝ))
    (h : ReportsAll ds ms) (ps : List ℝ) (hl : ds.length = ps.length) (hp : ∀ p ∈ ps, 0 ≤ p) (h1 : ps.sum ≤ 1)
    (count : ℤ) (hc : 0 ≤ count) (adj : ℝ) (ha : 0 ≤ adj) :
    ∃ d s, simple ds (ps.map Dbl.fin) count (.fin adj) = .ok d ∧ d.Proper ∧ 0 ≤ s ∧
      s ^ 2 = mixSecond ms ps - mixMean ms ps ^ 2 ∧
      d.Reports (count * adj * mixMean ms ps) (count * adj * s) := by
  obtain ⟨-, d, s, e1, e2, e3, e4, e5⟩ := mixture_of_probabilities ds hd ms h ps hl hp h1
  obtain ⟨r1, q1⟩ := scaled d e2 _ _ (count : ℝ) e3 (by exact_mod_cast hc)
  obtain ⟨r2, q2⟩ := scaled _ q1 _ _ adj r1 ha
  refine ⟨_, s, by simp only [simple, e1], q2, e4, e5, ?_⟩
  convert r2 using 1 <;> ring

/-- Probability vectors of the wrong length are rejected, and only these. -/
theorem simple_loss_rejects (ds : List LogNormalDist) (ps : List Dbl) (count : ℤ) (adj : Dbl) :
    simple ds ps count adj = .throws ↔ ds.length ≠ ps.length := by
  rw [← mixture_rejects_iff]
  unfold simple
  split
  · rename_i h; simp [h]
  · rename_i h; simp [h]

/-- Two damage states, means 2 and 4 (sd 1 and 0), probabilities 1/2 and 1/4, 3 components, factor 2. -/
example : ∃ d s, simple [ofMeanSigma (.fin 2) (.fin 1), ofMeanSigma (.fin 4) (.fin 0)]
    [.fin (1/2), .fin (1/4)] 3 (.fin 2) = .ok d ∧ d.Reports 12 s := by
  have h : ReportsAll [ofMeanSigma (.fin 2) (.fin 1), ofMeanSigma (.fin 4) (.fin 0)] [(2, 1), (4, 0)] :=
    List.Forall₂.cons ⟨getMean_ofMeanSigma_pos (by norm_num) _, by
      rw [getSigma_ofMeanSigma_pos (by norm_num)]; norm_num⟩
    (List.Forall₂.cons ⟨getMean_ofMeanSigma_pos (by norm_num) _, by
      rw [getSigma_ofMeanSigma_pos (by norm_num)]; norm_num⟩ List.Forall₂.nil)
  obtain ⟨d, s, e1, -, -, -, e2⟩ := simple_loss _ (by
      intro d hd
      simp only [List.mem_cons, List.not_mem_nil, or_false] at hd
      rcases hd with rfl | rfl <;> exact proper_ofMeanSigma (by norm_num) _) _ h [1/2, 1/4] rfl (by
      intro w hw
      simp only [List.mem_cons, List.not_mem_nil, or_false] at hw
      rcases hw with rfl | rfl <;> norm_num) (by norm_num) 3 (by norm_num) 2 (by norm_num)
  refine ⟨d, ((3 : ℤ) : ℝ) * 2 * s, e1, ?_⟩
  have h3 : ((3 : ℤ) : ℝ) * 2 * mixMean [(2, 1), (4, 0)] [1/2, 1/4] = 12 := by norm_num [mixMean]
  rwa [h3] at e2

theorem forCount_reports (l : BiLevel) (a b sg : ℝ) (hl : l = ⟨l.countMin, l.countMax, .fin a, .fin b, .fin sg⟩)
    (h0 : 0 ≤ l.countMin) (hi : inInt l.countMax) (hab : 0 ≤ a ∧ 0 ≤ b) (count : ℤ) (hc : inInt count) :
    ∃ (d : LogNormalDist) (m s : ℝ), l.forCount count = some d ∧ l.unitMean count = some (.fin m) ∧ 0 ≤ m ∧
      d.Proper ∧ d.Reports m s := by
  obtain ⟨m, hm, -, -, -, h4, -⟩ := two_level_interpolates l.countMin l.countMax a b (.fin sg) count h0 hi hc
  rw [← hl] at hm
  have hm0 : 0 ≤ m := (le_min hab.1 hab.2).trans h4
  have hdisp : l.dispersion = .fin sg := by rw [hl]
  have hd : l.forCount count = some (ofMeanSigmaLn (.fin m) (.fin sg)) := by
    simp [BiLevel.forCount, hm, hdisp]
  have hpr : (ofMeanSigmaLn (.fin m) (.fin sg)).Proper := by
    rcases hm0.lt_or_eq with h | h
    · exact ⟨sg, rfl, Or.inl ⟨Real.log m - sg * sg / 2, by simp only [ofMeanSigmaLn, muFromMeanSigmaLn,
        log_pos h, fin_mul, fin_div_two, fin_sub]⟩⟩
    · subst h
      exact ⟨sg, rfl, Or.inr (by simp [ofMeanSigmaLn, muFromMeanSigmaLn])⟩
  obtain ⟨m', s, -, -, e1, e2, -⟩ := hpr.moments
  have hmean : (ofMeanSigmaLn (.fin m) (.fin sg)).getMean = .fin m := by
    rcases hm0.lt_or_eq with h | h
    · exact (mean_sdln_roundtrip m sg h).1
    · subst h; exact (zero_mean_sdln sg).1
  exact ⟨_, m, s, hd, hm, hm0, hpr, hmean, e2⟩

/-- Two-level losses: same statement, the state means being the unit costs for the actual count. -/
theorem two_level_loss (ls : List BiLevel)
    (hl : ∀ l ∈ ls, ∃ a b sg : ℝ, l = ⟨l.countMin, l.countMax, .fin a, .fin b, .fin sg⟩ ∧ 0 ≤ a ∧ 0 ≤ b ∧
      0 ≤ l.countMin ∧ inInt l.countMax)
    (ps : List ℝ) (hlen : ls.length = ps.length) (hp : ∀ p ∈ ps, 0 ≤ p) (h1 : ps.sum ≤ 1)
    (count : ℤ) (hc : 0 ≤ count) (hci : inInt count) (adj : ℝ) (ha : 0 ≤ adj) :
    ∃ (units : List ℝ) (d : LogNormalDist) (s : ℝ),
      List.Forall₂ (fun (l : BiLevel) m => l.unitMean count = some (.fin m)) ls units ∧
      biLevel ls (ps.map Dbl.fin) count (.fin adj) = .ok d ∧ d.Proper ∧
      d.Reports (count * adj * (List.zipWith (fun m p => p * m) units ps).sum) s := by
  have key : ∃ (ds : List LogNormalDist) (ms : List (ℝ × ℝ)), ls.mapM (fun l => l.forCount count) = some ds ∧
      (∀ d ∈ ds, d.Proper) ∧ ReportsAll ds ms ∧ ds.length = ls.length ∧
      List.Forall₂ (fun (l : BiLevel) (m : ℝ × ℝ) => l.unitMean count = some (.fin m.1)) ls ms := by
    clear hlen
    induction ls with
    | nil => exact ⟨[], [], rfl, by simp, List.Forall₂.nil, rfl, List.Forall₂.nil⟩
    | cons l ls ih =>
      obtain ⟨ds, ms, e1, e2, e3, e4, e5⟩ := ih (fun l' h => hl l' (List.mem_cons_of_mem _ h))
      obtain ⟨a, b, sg, q1, q2, q3, q4, q5⟩ := hl l List.mem_cons_self
      obtain ⟨d, m, s, f1, f2, -, f3, f4⟩ := forCount_reports l a b sg q1 q4 q5 ⟨q2, q3⟩ count hci
      refine ⟨d :: ds, (m, s) :: ms, ?_, ?_, List.Forall₂.cons f4 e3, by simp [e4], List.Forall₂.cons f2 e5⟩
      · simp [List.mapM_cons, f1, e1]
      · intro d' hd'
        rcases List.mem_cons.1 hd' with rfl | hd'
        · exact f3
        · exact e2 d' hd'
  obtain ⟨ds, ms, e1, e2, e3, e4, e5⟩ := key
  obtain ⟨d, s, f1, f2, -, -, f4⟩ := simple_loss ds e2 ms e3 ps (by rw [e4, hlen]) hp h1 count hc adj ha
  refine ⟨ms.map Prod.fst, d, count * adj * s, ?_, ?_, f2, ?_⟩
  · rw [List.forall₂_map_right_iff]; exact e5
  · simp only [biLevel, List.length_map, hlen, ne_eq, not_true_eq_false, if_false, e1, f1]
  · rw [show (List.zipWith (fun m p => p * m) (ms.map Prod.fst) ps).sum = mixMean ms ps by
      simp [mixMean, List.zipWith_map_left]]
    exact f4

/-- Wrong lengths are rejected. -/
theorem two_level_loss_rejects (ls : List BiLevel) (ps : List Dbl) (count : ℤ) (adj : Dbl)
    (h : ps.length ≠ ls.length) : biLevel ls ps count adj = .throws := by
  simp [biLevel, h]

example : ∃ d s, biLevel [⟨10, 20, .fin 100, .fin 50, .fin 1⟩] [.fin (1/2)] 15 (.fin 2) = .ok d ∧
    d.Reports 1125 s := by
  obtain ⟨units, d, s, h1, h2, -, h3⟩ := two_level_loss [⟨10, 20, .fin 100, .fin 50, .fin 1⟩]
    (by
      intro l hl
      simp only [List.mem_singleton] at hl
      subst hl
      exact ⟨100, 50, 1, rfl, by norm_num, by norm_num, by norm_num, by unfold inInt; norm_num⟩)
    [1/2] rfl (by simp) (by norm_num) 15 (by norm_num) (by unfold inInt; norm_num) 2 (by norm_num)
  cases h1 with
  | cons h4 h5 =>
    cases h5
    rename_i u
    obtain ⟨m, hm, -, -, hh, -⟩ := two_level_interpolates 10 20 100 50 (.fin 1) 15 (by norm_num)
      (by unfold inInt; norm_num) (by unfold inInt; norm_num)
    rw [hm, Option.some.injEq, fin_inj] at h4
    have hm75 := hh (by norm_num) (by norm_num)
    norm_num at hm75
    have : m = 75 := by linarith
    subst h4
    subst this
    refine ⟨d, s, h2, ?_⟩
    norm_num at h3
    exact h3

end Loss

end Slat
