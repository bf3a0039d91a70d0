import Verif.MaqModel

/-!
# Loops and searches: termination, evaluation bounds, brackets
-/

namespace Slat.Maq

open Dbl

/-! ### The loop combinator -/

theorem iter_inl {S R : Type} {step : S → S ⊕ R} {s s' : S} (h : step s = .inl s') (n : ℕ) :
    iter step (n + 1) s = iter step n s' := by simp only [iter, h]

theorem iter_inr {S R : Type} {step : S → S ⊕ R} {s : S} {r : R} (h : step s = .inr r) (n : ℕ) :
    iter step (n + 1) s = some r := by simp only [iter, h]

theorem iter_mono {S R : Type} {step : S → S ⊕ R} {n m : ℕ} {s : S} {r : R} (h : iter step n s = some r)
    (hnm : n ≤ m) : iter step m s = some r := by
  induction n generalizing m s with
  | zero => simp [iter] at h
  | succ n ih =>
    obtain ⟨k, rfl⟩ : ∃ k, m = k + 1 := ⟨m - 1, by omega⟩
    simp only [iter] at h ⊢
    cases hs : step s with
    | inr r' => simpa [hs] using h
    | inl s' =>
      simp only [hs] at h ⊢
      exact ih h (by omega)

theorem iter_inv {S R : Type} {step : S → S ⊕ R} (I : S → Prop) (P : R → Prop)
    (hl : ∀ s s', I s → step s = .inl s' → I s') (hr : ∀ s r, I s → step s = .inr r → P r)
    {n : ℕ} {s : S} {r : R} (hs : I s) (h : iter step n s = some r) : P r := by
  induction n generalizing s with
  | zero => simp [iter] at h
  | succ n ih =>
    simp only [iter] at h
    cases hst : step s with
    | inr r' =>
      simp only [hst, Option.some.injEq] at h
      subst h
      exact hr s _ hs hst
    | inl s' =>
      simp only [hst] at h
      exact ih (hl s s' hs hst) h

theorem iter_terminates {S R : Type} {step : S → S ⊕ R} (I : S → Prop) (μ : S → ℕ)
    (hl : ∀ s s', I s → step s = .inl s' → I s' ∧ μ s' < μ s) {s : S} (hs : I s) :
    ∃ r, iter step (μ s + 1) s = some r := by
  generalize hm : μ s = m
  induction m using Nat.strong_induction_on generalizing s with
  | _ m ih =>
    cases hst : step s with
    | inr r => exact ⟨r, by simp [iter, hst]⟩
    | inl s' =>
      obtain ⟨h1, h2⟩ := hl s s' hs hst
      obtain ⟨r, hr⟩ := ih (μ s') (by omega) h1 rfl
      exact ⟨r, by
        simp only [iter, hst]
        exact iter_mono hr (by omega)⟩

/-! ### Specification of a search -/

/-- A usable bracket. -/
def ValidBracket (a b : ℝ) : Prop := 0 ≤ a ∧ a < b ∧ b ≤ 1

/-- What every search guarantees about its result. -/
def SearchResult.Ok (lim : ℕ) : SearchResult → Prop
  | .nothing n => 2 ≤ n ∧ n ≤ 2 * lim + 2
  | .bracket a b n => ValidBracket a b ∧ 2 ≤ n ∧ n ≤ 2 * lim + 2

/-- Brackets in a search direction are valid. -/
def Dir.Valid (dir : Dir) : Prop := ∀ i n : ℕ, 1 ≤ i → i + 1 ≤ n → ValidBracket (dir.a i n) (dir.b i n)

theorem forward_valid : forward.Valid := by
  intro i n h1 h2
  have h1' : (1 : ℝ) ≤ i := by exact_mod_cast h1
  have h2' : (i : ℝ) + 1 ≤ n := by exact_mod_cast h2
  have hn : (0 : ℝ) < n := by linarith
  simp only [forward, ValidBracket]
  refine ⟨div_nonneg (by linarith) hn.le, ?_, (div_le_one hn).2 h2'⟩
  gcongr
  linarith

theorem backward_valid : backward.Valid := by
  intro i n h1 h2
  have h1' : (1 : ℝ) ≤ i := by exact_mod_cast h1
  have h2' : (i : ℝ) + 1 ≤ n := by exact_mod_cast h2
  have hn : (0 : ℝ) < n := by linarith
  simp only [backward, ValidBracket]
  refine ⟨by linarith [(div_le_one hn).2 h2'], ?_, by
    linarith [div_nonneg (show (0 : ℝ) ≤ i - 1 by linarith) hn.le]⟩
  gcongr
  linarith

theorem scan_spec (f : Dbl → Dbl) (dir : Dir) (hd : dir.Valid) (n : ℕ) (rest i : ℕ) (s : Sub) (h1 : 1 ≤ i)
    (h2 : i + 2 * rest ≤ n + 1) (hb : ValidBracket s.a s.b) :
    ValidBracket (scan f dir n rest i s).a (scan f dir n rest i s).b ∧
    s.evals ≤ (scan f dir n rest i s).evals ∧ (scan f dir n rest i s).evals ≤ s.evals + rest ∧
    ((scan f dir n rest i s).fc ≤ .fin eps → (scan f dir n rest i s).evals = s.evals + rest) := by
  induction rest generalizing i s with
  | zero => exact ⟨hb, le_rfl, le_rfl, fun _ => rfl⟩
  | succ rest ih =>
    simp only [scan]
    split
    · rename_i h
      refine ⟨hd i n h1 (by omega), by simp, by simp, ?_⟩
      intro h'
      exfalso
      generalize f (xFromT (dir.c i n)) = v at h h'
      cases v with
      | fin v => simp only [fin_lt, fin_le] at h h'; linarith
      | nan => simp at h
      | pinf => simp at h'
      | ninf => simp at h
    · obtain ⟨i1, i2, i3, i4⟩ := ih (i + 2) { s with fc := f (xFromT (dir.c i n)), evals := s.evals + 1 }
        (by omega) (by omega) hb
      simp only at i2 i3 i4
      exact ⟨i1, by omega, by omega, fun h => by rw [i4 h]; omega⟩

/-- The invariant of a subdivision loop: a valid bracket, and enough evaluations made so far for the next round
not to double them more than once. -/
def SubInv (k lim e : ℕ) (s : ℕ × Sub) : Prop :=
  ValidBracket s.2.a s.2.b ∧ e ≤ s.2.evals ∧ 4 ≤ s.1 ∧ 4 ∣ s.1 ∧ s.2.evals ≤ 2 * lim + 2 ∧
    (s.2.fc ≤ .fin eps → s.1 ≤ k * s.2.evals)

/-- What the ranges of the inner loops have in common: `k` times the number of points is the number of intervals. -/
def RangeOk (k : ℕ) (lo hi : ℕ → ℕ) : Prop :=
  ∀ n, 4 ≤ n → 4 ∣ n → 1 ≤ lo n ∧ lo n + 2 * ((hi n - lo n + 1) / 2) ≤ n + 1 ∧ 1 ≤ (hi n - lo n + 1) / 2 ∧
    n = k * ((hi n - lo n + 1) / 2)

theorem rangeOk_full : RangeOk 2 (fun _ => 1) (fun n => n) := by
  intro n h1 h2
  dsimp only
  omega

theorem rangeOk_low : RangeOk 4 (fun _ => 1) (fun n => n / 2) := by
  intro n h1 h2
  dsimp only
  omega

theorem rangeOk_high : RangeOk 4 (fun n => 1 + n / 2) (fun n => n) := by
  intro n h1 h2
  dsimp only
  omega

theorem subStep_inv (f : Dbl → Dbl) (dir : Dir) (hd : dir.Valid) (lim : ℕ) (lo hi : ℕ → ℕ) (k : ℕ)
    (hr : RangeOk k lo hi) (hk : 0 < k) (e : ℕ) (s s' : ℕ × Sub) (hs : SubInv k lim e s)
    (h : subStep f dir lim lo hi s = .inl s') :
    SubInv k lim e s' ∧ s.2.evals < lim ∧ s.2.fc ≤ .fin eps ∧ (s'.2.fc ≤ .fin eps → s.2.evals < s'.2.evals) := by
  obtain ⟨n, u⟩ := s
  obtain ⟨b1, b2, b3, b4, b6, b5⟩ := hs
  simp only [subStep] at h
  split at h
  · rename_i hc
    obtain ⟨c1, c2⟩ := hc
    simp only [Sum.inl.injEq] at h
    subst h
    obtain ⟨r1, r2, r3, r4⟩ := hr n b3 b4
    obtain ⟨q1, q2, q3, q4⟩ := scan_spec f dir hd n _ (lo n) u r1 r2 b1
    have b5' := b5 c2
    simp only at b2 b5'
    set m := (hi n - lo n + 1) / 2
    have hm : m ≤ u.evals := by
      have : k * m ≤ k * u.evals := by omega
      exact Nat.le_of_mul_le_mul_left this hk
    refine ⟨⟨q1, ?_, ?_, ?_, ?_, ?_⟩, c1, c2, ?_⟩
    · dsimp only; omega
    · dsimp only; omega
    · dsimp only; omega
    · dsimp only; omega
    · intro h
      have h' := q4 h
      dsimp only
      rw [h']
      have : k * (u.evals + m) = k * u.evals + n := by rw [mul_add, ← r4]
      omega
    · intro h
      have h' := q4 h
      dsimp only
      omega
  · simp at h

open Classical in
theorem subLoop_spec (f : Dbl → Dbl) (dir : Dir) (hd : dir.Valid) (lim : ℕ) (lo hi : ℕ → ℕ) (k : ℕ)
    (hr : RangeOk k lo hi) (hk : 2 ≤ k) (s : Sub) (hb : ValidBracket s.a s.b) (h2 : 2 ≤ s.evals)
    (hl : s.evals ≤ 2 * lim + 2) :
    ∃ r, (∀ fuel, lim + 2 ≤ fuel → iter (subStep f dir lim lo hi) fuel (4, s) = some r) ∧
      ValidBracket r.a r.b ∧ s.evals ≤ r.evals ∧ r.evals ≤ 2 * lim + 2 := by
  have h0 : SubInv k lim s.evals (4, s) :=
    ⟨hb, le_rfl, le_rfl, dvd_rfl, hl, fun _ => by
      dsimp only
      calc 4 = 2 * 2 := rfl
        _ ≤ k * s.evals := Nat.mul_le_mul hk h2⟩
  obtain ⟨r, hr'⟩ := iter_terminates (step := subStep f dir lim lo hi) (SubInv k lim s.evals)
    (fun t => if t.2.fc ≤ .fin eps then lim - t.2.evals + 1 else 0)
    (by
      intro t t' ht h
      obtain ⟨i1, i2, i3, i4⟩ := subStep_inv f dir hd lim lo hi k hr (by omega) _ t t' ht h
      refine ⟨i1, ?_⟩
      rw [if_pos i3]
      split
      · rename_i h'
        have := i4 h'
        omega
      · omega) h0
  refine ⟨r, fun fuel hf => iter_mono hr' (by split <;> omega), ?_⟩
  have := iter_inv (step := subStep f dir lim lo hi) (SubInv k lim s.evals)
    (fun r => ValidBracket r.a r.b ∧ s.evals ≤ r.evals ∧ r.evals ≤ 2 * lim + 2)
    (fun t t' ht h => (subStep_inv f dir hd lim lo hi k hr (by omega) _ t t' ht h).1)
    (by
      intro t r ht h
      simp only [subStep] at h
      split at h
      · simp at h
      · simp only [Sum.inr.injEq] at h
        subst h
        exact ⟨ht.1, ht.2.1, ht.2.2.2.2.1⟩) h0 hr'
  exact this

theorem subResult_ok {s : Sub} {lim : ℕ} (hb : ValidBracket s.a s.b) (h2 : 2 ≤ s.evals)
    (hl : s.evals ≤ 2 * lim + 2) : (subResult s).Ok lim := by
  unfold subResult
  split
  · exact ⟨h2, hl⟩
  · exact ⟨hb, h2, hl⟩

theorem valid_unit : ValidBracket 0 1 := ⟨le_rfl, one_pos, le_rfl⟩

theorem binary_ok (f : Dbl → Dbl) (lim : ℕ) :
    ∃ r, (∀ fuel, lim + 2 ≤ fuel → binarySubdivision f lim fuel = some r) ∧ r.Ok lim := by
  simp only [binarySubdivision]
  by_cases hg : f (xFromT 1) ≤ .fin eps ∧ f (xFromT (1 / 2)) ≤ .fin eps
  · simp only [if_pos hg]
    obtain ⟨r, h1, h2, h3, h4⟩ := subLoop_spec f forward forward_valid lim _ _ 2 rangeOk_full le_rfl
      ⟨0, 1, f (xFromT (1 / 2)), 2⟩ valid_unit le_rfl (by dsimp only; omega)
    exact ⟨subResult r, fun fuel hf => by rw [h1 fuel hf]; rfl, subResult_ok h2 h3 h4⟩
  · simp only [if_neg hg]
    exact ⟨_, fun _ _ => rfl, valid_unit, le_rfl, by omega⟩

theorem reverse_ok (f : Dbl → Dbl) (lim : ℕ) :
    ∃ r, (∀ fuel, lim + 2 ≤ fuel → reverseSubdivision f lim fuel = some r) ∧ r.Ok lim := by
  simp only [reverseSubdivision]
  by_cases hg : f (xFromT 1) ≤ .fin eps ∧ f (xFromT (1 / 2)) ≤ .fin eps
  · simp only [if_pos hg]
    obtain ⟨r, h1, h2, h3, h4⟩ := subLoop_spec f backward backward_valid lim _ _ 2 rangeOk_full le_rfl
      ⟨0, 1, f (xFromT (1 / 2)), 2⟩ valid_unit le_rfl (by dsimp only; omega)
    exact ⟨subResult r, fun fuel hf => by rw [h1 fuel hf]; rfl, subResult_ok h2 h3 h4⟩
  · simp only [if_neg hg]
    exact ⟨_, fun _ _ => rfl, valid_unit, le_rfl, by omega⟩

theorem lowFirst_ok (f : Dbl → Dbl) (lim : ℕ) :
    ∃ r, (∀ fuel, lim + 2 ≤ fuel → lowFirstSubdivision f lim fuel = some r) ∧ r.Ok lim := by
  simp only [lowFirstSubdivision]
  by_cases hg : f (xFromT 1) ≤ .fin eps ∧ f (xFromT (1 / 2)) ≤ .fin eps
  · simp only [if_pos hg]
    obtain ⟨r, h1, h2, h3, h4⟩ := subLoop_spec f backward backward_valid (lim / 2) _ _ 4 rangeOk_low (by omega)
      ⟨0, 1, f (xFromT (1 / 2)), 2⟩ valid_unit le_rfl (by dsimp only; omega)
    simp only at h3
    obtain ⟨r', g1, g2, g3, g4⟩ := subLoop_spec f backward backward_valid lim _ _ 4 rangeOk_high (by omega)
      r h2 h3 (by omega)
    exact ⟨subResult r', fun fuel hf => by
      rw [h1 fuel (by omega)]
      simp only [Option.bind_some]
      rw [g1 fuel hf]; rfl, subResult_ok g2 (by omega) g4⟩
  · simp only [if_neg hg]
    exact ⟨_, fun _ _ => rfl, valid_unit, le_rfl, by omega⟩

/-! ### Scattered and directed searches -/

/-- Invariant: the probe lies strictly inside the unit interval. -/
def ProbeOk (lim : ℕ) (q : Probe) : Prop := 0 < q.c ∧ q.c < 1 ∧ 2 ≤ q.evals ∧ q.evals ≤ max 2 lim

theorem bracketOf_valid {c : ℝ} (h0 : 0 < c) (h1 : c < 1) : ValidBracket (bracketOf c).1 (bracketOf c).2 := by
  unfold bracketOf ValidBracket
  split
  · dsimp only; refine ⟨le_rfl, by linarith, by linarith⟩
  · dsimp only; refine ⟨by linarith, by linarith, le_rfl⟩

theorem point_ok {i n : ℕ} (h1 : 1 ≤ i) (h2 : i < n) : 0 < 1 - (i : ℝ) / n ∧ 1 - (i : ℝ) / n < 1 := by
  have h1' : (0 : ℝ) < i := by exact_mod_cast h1
  have h2' : (i : ℝ) < n := by exact_mod_cast h2
  have hn : (0 : ℝ) < n := h1'.trans h2'
  have := (div_lt_one hn).2 h2'
  have := div_pos h1' hn
  constructor <;> linarith

theorem inner_spec (f : Dbl → Dbl) (T : Tests) (lim n : ℕ) (s : ℕ × ℕ × Probe) (h1 : 1 ≤ s.1)
    (hq : ProbeOk lim s.2.2) :
    ∃ r, (∀ fuel, lim + 1 ≤ fuel → iter (innerStep f T lim n) fuel s = some r) ∧ ProbeOk lim r ∧
      s.2.2.evals ≤ r.evals := by
  have inv : ∀ t t' : ℕ × ℕ × Probe, (1 ≤ t.1 ∧ ProbeOk lim t.2.2 ∧ s.2.2.evals ≤ t.2.2.evals) →
      innerStep f T lim n t = .inl t' →
      (1 ≤ t'.1 ∧ ProbeOk lim t'.2.2 ∧ s.2.2.evals ≤ t'.2.2.evals) ∧
        lim - t'.2.2.evals < lim - t.2.2.evals := by
    rintro ⟨i, p, q⟩ t' ⟨i1, ⟨-, -, i2, i3⟩, i5⟩ h
    simp only [innerStep] at h
    simp only at i1 i2 i3 i5
    split at h
    · rename_i hc
      split at h
      · simp at h
      · simp only [Sum.inl.injEq] at h
        subst h
        have := point_ok i1 hc.1
        have := hc.2
        simp only at this ⊢
        refine ⟨⟨by omega, ⟨by simp_all, by simp_all, by dsimp only; omega, by dsimp only; omega⟩, by omega⟩, by omega⟩
    · simp at h
  obtain ⟨r, hr⟩ := iter_terminates (step := innerStep f T lim n) _ (fun t => lim - t.2.2.evals) inv
    ⟨h1, hq, le_rfl⟩
  refine ⟨r, fun fuel hf => iter_mono hr (by omega), ?_⟩
  refine iter_inv (step := innerStep f T lim n) _ (fun r => ProbeOk lim r ∧ s.2.2.evals ≤ r.evals)
    (fun t t' ht h => (inv t t' ht h).1) ?_ ⟨h1, hq, le_rfl⟩ hr
  rintro ⟨i, p, q⟩ r ⟨i1, hq', i5⟩ h
  obtain ⟨-, -, i2, i3⟩ := id hq'
  simp only [innerStep] at h
  simp only at i1 i2 i3 i5
  split at h
  · rename_i hc
    split at h
    · simp only [Sum.inr.injEq] at h
      subst h
      have := point_ok i1 hc.1
      have := hc.2
      simp only at this ⊢
      exact ⟨⟨by simp_all, by simp_all, by dsimp only; omega, by dsimp only; omega⟩, by omega⟩
    · simp at h
  · simp only [Sum.inr.injEq] at h
    subst h
    exact ⟨hq', i5⟩

theorem nextIntervals_ge {n : ℕ} (h : 4 ≤ n) : 4 ≤ nextIntervals n := by
  unfold nextIntervals
  split <;> omega

theorem scat_spec (f : Dbl → Dbl) (T : Tests) (lim : ℕ) (s : ℕ × ℕ × Probe) (h1 : 4 ≤ s.1)
    (hq : ProbeOk lim s.2.2) :
    ∃ r, (∀ fuel, lim + 1 ≤ fuel → iter (scatStep f T lim fuel) fuel s = some (some r)) ∧ ProbeOk lim r := by
  have inv : ∀ fuel, lim + 1 ≤ fuel → ∀ t t' : ℕ × ℕ × Probe, (4 ≤ t.1 ∧ ProbeOk lim t.2.2) →
      scatStep f T lim fuel t = .inl t' →
      (4 ≤ t'.1 ∧ ProbeOk lim t'.2.2) ∧ lim - t'.2.2.evals < lim - t.2.2.evals := by
    rintro fuel hf ⟨n, k, q⟩ t' ⟨i1, -, -, i2, i3⟩ h
    simp only [scatStep] at h
    simp only at i1 i2 i3
    split at h
    · rename_i hc
      split at h
      · simp at h
      · have hp := point_ok (i := 1) le_rfl (show 1 < n by omega)
        have := hc.1
        simp only [Nat.cast_one] at hp this
        obtain ⟨r, g1, g2, g3⟩ := inner_spec f T lim n
          (1 + (2 + 2 * k), 2 + 2 * k, ⟨1 - 1 / n, f (xFromT (1 - 1 / n)), q.evals + 1⟩) (by dsimp only; omega)
          ⟨hp.1, hp.2, by dsimp only; omega, by dsimp only; omega⟩
        rw [g1 fuel hf] at h
        simp only [Sum.inl.injEq] at h
        subst h
        simp only at g3 ⊢
        exact ⟨⟨nextIntervals_ge i1, g2⟩, by omega⟩
    · simp at h
  have post : ∀ fuel, lim + 1 ≤ fuel → ∀ t r, (4 ≤ t.1 ∧ ProbeOk lim t.2.2) →
      scatStep f T lim fuel t = .inr r → ∃ q, r = some q ∧ ProbeOk lim q := by
    rintro fuel hf ⟨n, k, q⟩ r ⟨i1, hq'⟩ h
    obtain ⟨-, -, i2, i3⟩ := id hq'
    simp only [scatStep] at h
    simp only at i1 i2 i3
    split at h
    · rename_i hc
      have hp := point_ok (i := 1) le_rfl (show 1 < n by omega)
      have := hc.1
      simp only [Nat.cast_one] at hp this
      split at h
      · simp only [Sum.inr.injEq] at h
        subst h
        exact ⟨_, rfl, hp.1, hp.2, by dsimp only; omega, by dsimp only; omega⟩
      · obtain ⟨r, g1, g2, g3⟩ := inner_spec f T lim n
          (1 + (2 + 2 * k), 2 + 2 * k, ⟨1 - 1 / n, f (xFromT (1 - 1 / n)), q.evals + 1⟩) (by dsimp only; omega)
          ⟨hp.1, hp.2, by dsimp only; omega, by dsimp only; omega⟩
        rw [g1 fuel hf] at h
        simp at h
    · simp only [Sum.inr.injEq] at h
      subst h
      exact ⟨_, rfl, hq'⟩
  have ex : ∀ fuel, lim + 1 ≤ fuel → ∃ r, iter (scatStep f T lim fuel) (lim + 1) s = some (some r) ∧ ProbeOk lim r := by
    intro fuel hf
    obtain ⟨r, hr⟩ := iter_terminates (step := scatStep f T lim fuel) _ (fun t => lim - t.2.2.evals)
      (inv fuel hf) ⟨h1, hq⟩
    obtain ⟨q, rfl, hq'⟩ := iter_inv (step := scatStep f T lim fuel) _ (fun r => ∃ q, r = some q ∧ ProbeOk lim q)
      (fun t t' ht h => (inv fuel hf t t' ht h).1) (post fuel hf) ⟨h1, hq⟩ hr
    exact ⟨q, iter_mono hr (by omega), hq'⟩
  -- the step function does not depend on the (sufficient) inner bound
  have indep : ∀ fuel, lim + 1 ≤ fuel → ∀ n t, (4 ≤ t.1 ∧ ProbeOk lim t.2.2) →
      iter (scatStep f T lim fuel) n t = iter (scatStep f T lim (lim + 1)) n t := by
    intro fuel hf n
    induction n with
    | zero => intro t _; rfl
    | succ n ih =>
      intro t ht
      have hstep : scatStep f T lim fuel t = scatStep f T lim (lim + 1) t := by
        obtain ⟨m, k, q⟩ := t
        obtain ⟨i1, -, -, i2, i3⟩ := ht
        simp only at i1 i2 i3
        simp only [scatStep]
        split
        · rename_i hc
          split
          · rfl
          · have hp := point_ok (i := 1) le_rfl (show 1 < m by omega)
            have := hc.1
            simp only [Nat.cast_one] at hp this
            obtain ⟨r, g1, g2, g3⟩ := inner_spec f T lim m
              (1 + (2 + 2 * k), 2 + 2 * k, ⟨1 - 1 / m, f (xFromT (1 - 1 / m)), q.evals + 1⟩) (by dsimp only; omega)
              ⟨hp.1, hp.2, by dsimp only; omega, by dsimp only; omega⟩
            rw [g1 fuel hf, g1 (lim + 1) le_rfl]
        · rfl
      simp only [iter, hstep]
      cases hst : scatStep f T lim (lim + 1) t with
      | inr r => rfl
      | inl t' => exact ih t' (inv (lim + 1) le_rfl t t' ht hst).1
  obtain ⟨r, hr, hr'⟩ := ex (lim + 1) le_rfl
  refine ⟨r, fun fuel hf => ?_, hr'⟩
  rw [indep fuel hf fuel s ⟨h1, hq⟩]
  exact iter_mono hr hf

theorem scattered_ok (f : Dbl → Dbl) (lim : ℕ) :
    ∃ r, (∀ fuel, lim + 2 ≤ fuel → scatteredSearch f lim fuel = some r) ∧ r.Ok lim := by
  simp only [scatteredSearch]
  by_cases hg : f (xFromT 1) ≤ .fin eps ∧ f (xFromT (1 / 2)) ≤ .fin eps
  · simp only [if_pos hg]
    obtain ⟨q, h1, h2, h3, h4, h5⟩ := scat_spec f epsTests lim (4, 0, ⟨1 / 2, f (xFromT (1 / 2)), 2⟩) le_rfl
      ⟨by norm_num, by norm_num, le_rfl, le_max_left _ _⟩
    refine ⟨if q.fc ≤ .fin eps then .nothing q.evals
      else .bracket (bracketOf q.c).1 (bracketOf q.c).2 q.evals, fun fuel hf => ?_, ?_⟩
    · rw [h1 fuel (by omega)]
      rfl
    · split
      · exact ⟨h4, by omega⟩
      · exact ⟨bracketOf_valid h2 h3, h4, by omega⟩
  · simp only [if_neg hg]
    exact ⟨_, fun _ _ => rfl, valid_unit, le_rfl, by omega⟩

/-- Invariant of the refinement phase. -/
def RefineOk (lim : ℕ) (s : Refine) : Prop :=
  0 ≤ s.a ∧ s.a < s.c ∧ s.c < s.b ∧ s.b ≤ 1 ∧ 2 ≤ s.evals ∧ s.evals ≤ 2 * lim + 2

theorem refineStep_ok (f : Dbl → Dbl) (lim : ℕ) (s : Refine) (hs : RefineOk lim s) :
    (∀ s', refineStep f lim s = .inl s' → RefineOk lim s' ∧ s.evals < lim ∧ s.evals < s'.evals) ∧
    (∀ r, refineStep f lim s = .inr r → RefineOk lim r) := by
  obtain ⟨a, b, c, fc, n⟩ := s
  obtain ⟨h1, h2, h3, h4, h5, h6⟩ := hs
  simp only at h1 h2 h3 h4 h5 h6
  simp only [refineStep]
  constructor
  · intro s' h
    split at h
    · rename_i hc
      obtain ⟨-, c2, -⟩ := hc
      split at h
      · simp at h
      · split at h <;> split at h
        · simp at h
        · split at h
          · simp only [Sum.inl.injEq] at h
            subst h
            exact ⟨⟨by dsimp only; linarith, by dsimp only; linarith, by dsimp only; linarith, by dsimp only; linarith,
              by dsimp only; omega, by dsimp only; omega⟩, c2, by dsimp only; omega⟩
          · simp only [Sum.inl.injEq] at h
            subst h
            exact ⟨⟨by dsimp only; linarith, by dsimp only; linarith, by dsimp only; linarith, by dsimp only; linarith,
              by dsimp only; omega, by dsimp only; omega⟩, c2, by dsimp only; omega⟩
        · simp at h
        · split at h
          · simp only [Sum.inl.injEq] at h
            subst h
            exact ⟨⟨by dsimp only; linarith, by dsimp only; linarith, by dsimp only; linarith, by dsimp only; linarith,
              by dsimp only; omega, by dsimp only; omega⟩, c2, by dsimp only; omega⟩
          · simp only [Sum.inl.injEq] at h
            subst h
            exact ⟨⟨by dsimp only; linarith, by dsimp only; linarith, by dsimp only; linarith, by dsimp only; linarith,
              by dsimp only; omega, by dsimp only; omega⟩, c2, by dsimp only; omega⟩
    · simp at h
  · intro s' h
    split at h
    · rename_i hc
      obtain ⟨-, c2, -⟩ := hc
      split at h
      · simp only [Sum.inr.injEq] at h
        subst h
        exact ⟨by dsimp only; linarith, by dsimp only; linarith, by dsimp only; linarith, by dsimp only; linarith,
              by dsimp only; omega, by dsimp only; omega⟩
      · split at h <;> split at h
        · simp only [Sum.inr.injEq] at h
          subst h
          exact ⟨by dsimp only; linarith, by dsimp only; linarith, by dsimp only; linarith, by dsimp only; linarith,
              by dsimp only; omega, by dsimp only; omega⟩
        · split at h <;> simp at h
        · simp only [Sum.inr.injEq] at h
          subst h
          exact ⟨by dsimp only; linarith, by dsimp only; linarith, by dsimp only; linarith, by dsimp only; linarith,
              by dsimp only; omega, by dsimp only; omega⟩
        · split at h <;> simp at h
    · simp only [Sum.inr.injEq] at h
      subst h
      exact ⟨h1, h2, h3, h4, h5, h6⟩

theorem refine_spec (f : Dbl → Dbl) (lim : ℕ) (s : Refine) (hs : RefineOk lim s) :
    ∃ r, (∀ fuel, lim + 1 ≤ fuel → iter (refineStep f lim) fuel s = some r) ∧ RefineOk lim r := by
  obtain ⟨r, hr⟩ := iter_terminates (step := refineStep f lim) (RefineOk lim) (fun s => lim - s.evals)
    (fun t t' ht h => by
      obtain ⟨h1, h2, h3⟩ := (refineStep_ok f lim t ht).1 t' h
      exact ⟨h1, by omega⟩) hs
  exact ⟨r, fun fuel hf => iter_mono hr (by omega),
    iter_inv (step := refineStep f lim) (RefineOk lim) (RefineOk lim)
      (fun t t' ht h => ((refineStep_ok f lim t ht).1 t' h).1) (fun t r ht h => (refineStep_ok f lim t ht).2 r h)
      hs hr⟩

theorem directed_ok (f : Dbl → Dbl) (lim : ℕ) :
    ∃ r, (∀ fuel, lim + 2 ≤ fuel → directedSearch f lim fuel = some r) ∧ r.Ok lim := by
  simp only [directedSearch]
  by_cases hg : f (xFromT 1) ≤ .fin eps ∧ f (xFromT (1 / 2)) ≤ .fin eps
  · simp only [if_pos hg]
    obtain ⟨q, h1, h2, h3, h4, h5⟩ := scat_spec f zeroTests lim (4, 0, ⟨1 / 2, f (xFromT (1 / 2)), 2⟩) le_rfl
      ⟨by norm_num, by norm_num, le_rfl, le_max_left _ _⟩
    by_cases hz : feq q.fc 0
    · refine ⟨.nothing q.evals, fun fuel hf => ?_, h4, by omega⟩
      rw [h1 fuel (by omega)]
      simp only [Option.join_some, Option.bind_some]
      rw [if_pos hz]
    · obtain ⟨g1, g2, g3⟩ := bracketOf_valid h2 h3
      obtain ⟨r, k1, k2⟩ := refine_spec f lim ⟨(bracketOf q.c).1, (bracketOf q.c).2, q.c, q.fc, q.evals⟩
        ⟨g1, by
          dsimp only
          unfold bracketOf
          split
          · dsimp only; linarith
          · dsimp only; linarith, by
          dsimp only
          unfold bracketOf
          split
          · dsimp only; linarith
          · dsimp only; linarith, g3, h4, by dsimp only; omega⟩
      obtain ⟨m1, m2, m3, m4, m5, m6⟩ := k2
      refine ⟨.bracket (bracketOf r.c).1 (bracketOf r.c).2 r.evals, fun fuel hf => ?_,
        bracketOf_valid (by linarith) (by linarith), m5, m6⟩
      rw [h1 fuel (by omega)]
      simp only [Option.join_some, Option.bind_some]
      rw [if_neg hz, k1 fuel (by omega)]
      rfl
  · simp only [if_neg hg]
    exact ⟨_, fun _ _ => rfl, bracketOf_valid (by norm_num) (by norm_num), le_rfl, by omega⟩

/-- Every search, for every function, ends within `lim + 2` iterations of each loop with an acceptable result. -/
theorem search_ok (f : Dbl → Dbl) (m : Method) (lim : ℕ) :
    ∃ r, (∀ fuel, lim + 2 ≤ fuel → search f m lim fuel = some r) ∧ r.Ok lim := by
  cases m with
  | binary => exact binary_ok f lim
  | reverse => exact reverse_ok f lim
  | lowFirst => exact lowFirst_ok f lim
  | scattered => exact scattered_ok f lim
  | directed => exact directed_ok f lim

end Slat.Maq
