import Verif.RangesModel

/-!
# Ranges of arguments (C68)
-/

namespace Slat.Ranges

noncomputable section

/-! ## Specification -/

/-- Rounding changes numbers up to `M` in size by at most `δ`. -/
def Rounds (rnd : ℝ → ℝ) (M δ : ℝ) : Prop := ∀ x, |x| ≤ M → |rnd x - x| ≤ δ

/-- A list of `N + 1` numbers from `a` in equal steps up to `b`, each within the tolerance; the first is exact. -/
def Evenly (a b : ℝ) (N : ℕ) (tol : ℝ) (l : List ℝ) : Prop :=
  l.length = N + 1 ∧ l[0]? = some a ∧ ∀ k (h : k < l.length), |l[k] - (a + k * ((b - a) / N))| ≤ tol

/-! ## Auxiliary facts -/

/-- The values of the loop variable. -/
def iter (rnd : ℝ → ℝ) (step i : ℝ) : ℕ → ℝ
  | 0 => i
  | k + 1 => rnd (iter rnd step i k + step)

theorem iter_shift (rnd : ℝ → ℝ) (step i : ℝ) (k : ℕ) :
    iter rnd step (rnd (i + step)) k = iter rnd step i (k + 1) := by
  induction k with
  | zero => rfl
  | succ k ih => rw [iter, ih]; rfl

theorem loop_eq (rnd : ℝ → ℝ) (limit step : ℝ) (n : ℕ) : ∀ (i : ℝ), (∀ k, k ≤ n → iter rnd step i k ≤ limit) →
    ¬ iter rnd step i (n + 1) ≤ limit →
    loop rnd limit step i (n + 2) = some ((List.range (n + 1)).map (iter rnd step i)) := by
  induction n with
  | zero =>
    intro i h1 h2
    have := h1 0 le_rfl
    simp only [iter] at this h2
    simp [loop, this, h2, iter]
  | succ n ih =>
    intro i h1 h2
    have h0 := h1 0 (Nat.zero_le _)
    simp only [iter] at h0
    rw [loop, if_pos h0, ih (rnd (i + step)) (fun k hk => by rw [iter_shift]; exact h1 (k + 1) (by omega))
      (by rw [iter_shift]; exact h2), List.range_succ_eq_map (n := n + 1)]
    simp [iter_shift, Function.comp_def, iter]

theorem iter_close {rnd : ℝ → ℝ} {M δ : ℝ} (hr : Rounds rnd M δ) (hδ : 0 ≤ δ) {start step : ℝ} (hs : 0 ≤ step) (n : ℕ)
    (hM : |start| + n * (step + δ) ≤ M) : ∀ k, k ≤ n → |iter rnd step start k - (start + k * step)| ≤ k * δ := by
  intro k
  induction k with
  | zero => intro _; simp [iter]
  | succ k ih =>
    intro hk
    have h1 := ih (by omega)
    have hkn : ((k : ℝ) + 1) ≤ n := by exact_mod_cast hk
    have h2 : |iter rnd step start k + step| ≤ M := by
      have e : iter rnd step start k + step = (iter rnd step start k - (start + k * step)) + (start + (k + 1) * step) := by
        ring
      rw [e]
      have a1 : |start + (k + 1) * step| ≤ |start| + (k + 1) * step :=
        (abs_add_le _ _).trans (by rw [abs_of_nonneg (by positivity : 0 ≤ ((k : ℝ) + 1) * step)])
      have a2 := abs_add_le (iter rnd step start k - (start + k * step)) (start + (k + 1) * step)
      nlinarith
    have h3 := hr _ h2
    rw [iter, abs_le] at *
    push_cast
    constructor <;> nlinarith [h1.1, h1.2, h3.1, h3.2]

/-- A range whose end is a whole number of steps away, nearly. -/
theorem frange_ends {rnd : ℝ → ℝ} {M δ : ℝ} (hr : Rounds rnd M δ) (hδ : 0 ≤ δ) {start stop step η : ℝ} {N : ℕ}
    (hs : 0 < step) (hη : |start + N * step - stop| ≤ η) (hM : |start| + (N + 1) * (step + δ) ≤ M)
    (hM2 : |stop| + step + δ ≤ M) (hsmall : (N + 3) * δ + η < step / 2) :
    ∃ l, frange rnd start stop step (N + 2) = some l ∧ l.length = N + 1 ∧ l[0]? = some start ∧
      ∀ k (h : k < l.length), |l[k] - (start + k * step)| ≤ k * δ := by
  have hc := iter_close hr hδ hs.le (N + 1) (start := start) (by push_cast; exact hM)
  have l1 : |rnd (step / 2) - step / 2| ≤ δ := hr _ (by
    rw [abs_of_pos (by linarith)]
    have := abs_nonneg stop
    linarith)
  rw [abs_le] at l1
  have l2 : |rnd (stop + rnd (step / 2)) - (stop + rnd (step / 2))| ≤ δ := hr _ (by
    have h1 := abs_add_le stop (rnd (step / 2))
    have h2 : |rnd (step / 2)| ≤ step + δ := by
      rw [abs_le]
      constructor <;> linarith [l1.1, l1.2]
    linarith)
  rw [abs_le] at l2 hη
  refine ⟨_, loop_eq rnd _ step N start ?_ ?_, by simp, by simp [List.range_succ_eq_map, iter], ?_⟩
  · intro k hk
    have h1 := hc k (by omega)
    rw [abs_le] at h1
    have hkN : (k : ℝ) ≤ N := by exact_mod_cast hk
    nlinarith [h1.2, hη.2, l2.1, l1.1]
  · have h1 := hc (N + 1) le_rfl
    rw [abs_le] at h1
    push_cast at h1
    rw [not_le]
    nlinarith [h1.1, hη.1, l2.2, l1.2]
  · intro k h
    simp only [List.length_map, List.length_range] at h
    simpa using hc k (by omega)

/-! ## C68 -/

/-- Three numbers `start:step:end`, the end being `N` steps away: the values are `start`, `start + step`, …, `end`, all
`N + 1` of them, although the sums are rounded. -/
theorem colon_range_partial (rnd : ℝ → ℝ) (M δ : ℝ) (hr : Rounds rnd M δ) (hδ : 0 ≤ δ) (start stop step : ℝ) (N : ℕ)
    (hN : 0 < N) (hs : 0 < step) (he : stop = start + N * step) (hM : |start| + (N + 2) * (step + δ) ≤ M)
    (hsmall : (N + 3) * δ < step / 2) :
    ∃ tests l, colons rnd start step stop tests = some l ∧ Evenly start stop N (N * δ) l := by
  have hstop : |stop| ≤ |start| + N * step := by
    rw [he]
    exact (abs_add_le _ _).trans (by rw [abs_of_nonneg (by positivity : 0 ≤ (N : ℝ) * step)])
  obtain ⟨l, h1, h2, h3, h4⟩ := frange_ends hr hδ (start := start) (stop := stop) (η := 0) (N := N) hs (by rw [he]; simp)
    (by nlinarith) (by nlinarith) (by linarith)
  refine ⟨N + 2, l, h1, h2, h3, fun k h => ?_⟩
  have e : (stop - start) / N = step := by
    rw [he]
    have : (N : ℝ) ≠ 0 := by positivity
    field_simp
    ring
  rw [e]
  refine (h4 k h).trans ?_
  have : (k : ℝ) ≤ N := by
    have : k ≤ N := by omega
    exact_mod_cast this
  nlinarith

/-- `start:end --linear count`: that many values from start to end in equal steps. -/
theorem linear_range_partial (rnd : ℝ → ℝ) (M δ : ℝ) (hr : Rounds rnd M δ) (hδ : 0 ≤ δ) (start stop : ℝ) (N : ℕ)
    (hN : 0 < N) (hse : start < stop) (hM : |start| + 2 * (N + 2) * (stop - start + δ) ≤ M)
    (hsmall : (6 * N + 12) * δ < (stop - start) / N) :
    ∃ tests l, linrange rnd start stop (N + 1) tests = .list l ∧ Evenly start stop N (3 * N * δ) l := by
  have hN1 : (1 : ℝ) ≤ N := by exact_mod_cast hN
  set D := stop - start with hD
  have hD0 : 0 < D := by linarith
  have hDN : D / N ≤ D := div_le_self hD0.le hN1
  have hMD : 2 * D ≤ M ∧ D + δ ≤ M := by
    have := abs_nonneg start
    constructor <;> nlinarith
  have r1 : |rnd D - D| ≤ δ := hr D (by rw [abs_of_pos hD0]; linarith [hMD.1])
  have r1' : |rnd D / N - D / N| ≤ δ := by
    rw [← sub_div, abs_div, abs_of_pos (by linarith : (0 : ℝ) < N)]
    exact (div_le_self (abs_nonneg _) hN1).trans r1
  have r2 : |rnd (rnd D / N) - rnd D / N| ≤ δ := hr _ (by
    have h1 : |rnd D / N| ≤ D + δ := by
      rw [abs_le] at r1' ⊢
      have : 0 ≤ D / N := by positivity
      constructor <;> linarith [r1'.1, r1'.2]
    linarith [hMD.2])
  set step := rnd (rnd D / N) with hst
  have r3 : |step - D / N| ≤ 2 * δ := by
    rw [abs_le] at r1' r2 ⊢
    constructor <;> linarith [r1'.1, r1'.2, r2.1, r2.2]
  have hδ1 : 12 * δ ≤ D / N := by nlinarith
  rw [abs_le] at r3
  have hs : 0 < step := by
    have : 0 < D / N := by positivity
    linarith [r3.1]
  have hNd : N * (D / N) = D := by field_simp
  have hη : |start + N * step - stop| ≤ 2 * N * δ := by
    have e : start + N * step - stop = N * (step - D / N) := by
      rw [mul_sub, hNd, hD]
      ring
    rw [e, abs_mul, abs_of_pos (by linarith : (0 : ℝ) < N)]
    have : |step - D / N| ≤ 2 * δ := by rw [abs_le]; exact r3
    nlinarith
  have hup : step ≤ 2 * D := by linarith [r3.2]
  have hstop : |stop| ≤ |start| + D := by
    have : stop = start + D := by rw [hD]; ring
    rw [this]
    exact (abs_add_le _ _).trans (by rw [abs_of_pos hD0])
  obtain ⟨l, h1, h2, h3, h4⟩ := frange_ends hr hδ (N := N) hs hη (by nlinarith) (by nlinarith) (by nlinarith [r3.1])
  refine ⟨N + 2, l, ?_, h2, h3, fun k h => ?_⟩
  · have : ((N : ℤ) + 1 - 1 : ℤ) = N := by ring
    rw [linrange, this, if_neg (by exact_mod_cast hN.ne'), Int.cast_natCast, ← hD, ← hst, h1]
    rfl
  · have hk : (k : ℝ) ≤ N := by
      have : k ≤ N := by omega
      exact_mod_cast this
    have h5 := h4 k h
    have h6 : |(k : ℝ) * (step - D / N)| ≤ k * (2 * δ) := by
      rw [abs_mul, Nat.abs_cast]
      exact mul_le_mul_of_nonneg_left (abs_le.2 r3) (Nat.cast_nonneg _)
    rw [abs_le] at *
    constructor <;> nlinarith [h5.1, h5.2, h6.1, h6.2]

/-- `start:end --log count`, upwards or downwards: that many values, beginning at start, ending at end, each the same
multiple of the one before. -/
theorem log_range (start stop : ℝ) (h0 : 0 < start) (h1 : 0 < stop) (N : ℕ) (hN : 0 < N) :
    ∃ (l : List ℝ) (q : ℝ), logrange start stop (N + 1) = .list (l.map Dbl.fin) ∧ l.length = N + 1 ∧
      l[0]? = some start ∧ l[N]? = some stop ∧ 0 < q ∧
      (∀ k (h : k + 1 < l.length), l[k + 1] = q * l[k]) ∧ (1 < q ↔ start < stop) := by
  have hN0 : (N : ℝ) ≠ 0 := by positivity
  have hq : 0 < stop / start := div_pos h1 h0
  refine ⟨(List.range (N + 1)).map fun k : ℕ => Real.exp (Real.log start + k * Real.log (stop / start) / N),
    Real.exp (Real.log (stop / start) / N), ?_, by simp, ?_, ?_, Real.exp_pos _, ?_, ?_⟩
  · rw [logrange, if_neg (by push Not; exact ⟨h0, hq⟩), List.map_map]
    congr 1
    refine List.map_congr_left fun k _ => ?_
    simp [logValue, hN.ne']
  · simp [List.range_succ_eq_map, Real.exp_log h0]
  · simp only [List.getElem?_map, List.getElem?_range (show N < N + 1 by omega), Option.map_some, Option.some.injEq]
    rw [mul_div_cancel_left₀ _ hN0, ← Real.log_mul h0.ne' hq.ne', Real.exp_log (mul_pos h0 hq)]
    field_simp
  · intro k h
    simp only [List.getElem_map, List.getElem_range]
    rw [← Real.exp_add]
    congr 1
    push_cast
    ring
  · rw [Real.one_lt_exp_iff, div_pos_iff_of_pos_right (by positivity), Real.log_pos_iff hq.le, one_lt_div h0]

/-- The years of `--npv first:incr:last`: from the first on, in equal steps, as long as they are before the last. -/
theorem years_partial (first incr last : ℕ) (hi : 0 < incr) :
    ∃ l, years first incr last = .list l ∧ l.Pairwise (· < ·) ∧
      ∀ y, y ∈ l ↔ first ≤ y ∧ y < last ∧ incr ∣ y - first := by
  refine ⟨_, by rw [years, if_neg hi.ne'], ?_, fun y => ?_⟩
  · rw [List.pairwise_map]
    refine List.Pairwise.imp (fun {a b} h => ?_) List.pairwise_lt_range
    have := Nat.mul_lt_mul_of_pos_right h hi
    omega
  · simp only [List.mem_map, List.mem_range]
    constructor
    · rintro ⟨k, hk, rfl⟩
      rw [Nat.lt_iff_add_one_le, Nat.le_div_iff_mul_le hi] at hk
      have : (k + 1) * incr = k * incr + incr := by ring
      refine ⟨by omega, by omega, ?_⟩
      rw [Nat.add_sub_cancel_left]
      exact Dvd.intro_left k rfl
    · rintro ⟨h1, h2, d, hd⟩
      refine ⟨d, ?_, ?_⟩
      · rw [Nat.lt_iff_add_one_le, Nat.le_div_iff_mul_le hi]
        have : (d + 1) * incr = incr * d + incr := by ring
        omega
      · have : d * incr = incr * d := by ring
        omega

/-! ## What fails -/

/-- **C68, what fails**: the reference promises that `0.0:1.0:0.1` means the values from 0 to 1 in steps of 0.1; only the value
0 is recorded. -/
theorem colon_order_fails : colons id 0 1 (1 / 10) 2 = some [0] := by
  norm_num [colons, frange, loop]

/-- **C68, what fails**: a linear range downwards is empty, although the logarithmic one is not. -/
theorem descending_linear_fails (start stop : ℝ) (h : stop < start) (N : ℕ) (hN : 0 < N) :
    linrange id start stop (N + 1) 1 = .list [] := by
  have hN0 : (0 : ℝ) < N := by exact_mod_cast hN
  have : ((N : ℤ) + 1 - 1 : ℤ) = N := by ring
  rw [linrange, this, if_neg (by exact_mod_cast hN.ne')]
  simp only [frange, loop, id]
  rw [if_neg]
  · rfl
  · have : (stop - start) / ((N : ℤ) : ℝ) < 0 := div_neg_of_neg_of_pos (by linarith) (by exact_mod_cast hN)
    linarith

/-- **C68, what fails**: a linear range from a value to itself, and one of zero values upwards, never ends; one of a single
value is an exception, and a logarithmic one of a single value contains NaN. -/
theorem degenerate_ranges_fails (start stop : ℝ) (h : start ≤ stop) (count : ℤ) (hc : count ≠ 1) :
    (∀ tests, linrange id start start count tests = .running) ∧
    (∀ tests, linrange id start stop 0 tests = .running) ∧
    (∀ tests, linrange id start stop 1 tests = .error) ∧
    (0 < start → logrange start stop 1 = .list [.nan]) := by
  have key : ∀ (n : ℕ) (limit step i : ℝ), step ≤ 0 → i ≤ limit → loop id limit step i n = none := by
    intro n
    induction n with
    | zero => intros; rfl
    | succ n ih =>
      intro limit step i hs hi
      rw [loop, if_pos hi, ih limit step _ hs (by simp only [id]; linarith)]
      rfl
  refine ⟨fun n => ?_, fun n => ?_, fun n => ?_, fun h0 => ?_⟩
  · rw [linrange, if_neg (by omega), frange, key _ _ _ _ (by simp) (by simp)]
    rfl
  · rw [linrange, if_neg (by omega), frange, key _ _ _ _ (by simp; linarith) (by simp; linarith)]
    rfl
  · simp [linrange]
  · have h1 : 0 < stop / start := div_pos (by linarith) h0
    rw [logrange, if_neg (by push Not; exact ⟨h0, h1⟩)]
    simp [logValue]

/-- **C68, what fails**: `--npv 1:1:100` is documented as each of the next hundred years; the hundredth is missing. -/
theorem last_year_fails : ∃ l, years 1 1 100 = .list l ∧ l.length = 99 ∧ 100 ∉ l :=
  ⟨_, rfl, by simp, by simp; omega⟩

/-! ## Examples -/

/-- Rounding to multiples of 1/1000. -/
def mills (x : ℝ) : ℝ := ⌊x * 1000⌋ / 1000

theorem mills_rounds (M : ℝ) : Rounds mills M (1 / 1000) := by
  intro x _
  have h1 := Int.floor_le (x * 1000)
  have h2 := Int.lt_floor_add_one (x * 1000)
  unfold mills
  rw [abs_le]
  constructor <;> linarith

/-- `0.0:0.1:1.0` with a rough arithmetic gives eleven values. -/
example : ∃ tests l, colons mills 0 (1 / 10) 1 tests = some l ∧ Evenly 0 1 10 (((10 : ℕ) : ℝ) * (1 / 1000)) l :=
  colon_range_partial mills 100 (1 / 1000) (mills_rounds _) (by norm_num) 0 1 (1 / 10) 10 (by norm_num) (by norm_num)
    (by norm_num) (by norm_num) (by norm_num)

/-- `0.01:3.0 --linear 199`, the range of the example project, in exact arithmetic. -/
example : ∃ tests l, linrange id (1 / 100) 3 ((198 : ℕ) + 1) tests = .list l ∧
    Evenly (1 / 100) 3 198 (3 * ((198 : ℕ) : ℝ) * 0) l :=
  linear_range_partial id 10000 0 (by intro x _; simp) le_rfl (1 / 100) 3 198 (by norm_num) (by norm_num)
    (by norm_num [abs_of_pos]) (by norm_num)

/-- Downwards from 8 to 1 in three factors of one half. -/
example : ∃ (l : List ℝ) (q : ℝ), logrange 8 1 4 = .list (l.map Dbl.fin) ∧ l.length = 4 ∧
    l[0]? = some 8 ∧ l[3]? = some 1 ∧ ¬ 1 < q := by
  obtain ⟨l, q, h1, h2, h3, h4, -, -, h7⟩ := log_range 8 1 (by norm_num) (by norm_num) 3 (by norm_num)
  exact ⟨l, q, h1, h2, h3, h4, fun h => by have := h7.1 h; norm_num at this⟩

example : ∃ l, years 1 10 100 = .list l ∧ 91 ∈ l ∧ 95 ∉ l := by
  obtain ⟨l, h1, -, h2⟩ := years_partial 1 10 100 (by norm_num)
  exact ⟨l, h1, (h2 91).2 (by norm_num), fun h => by have := (h2 95).1 h; norm_num at this⟩

end

end Slat.Ranges
