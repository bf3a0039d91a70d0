import Verif.LnFRound
import Verif.CurveFShape

/-!
# Binary64 with overflow and gradual underflow (helper file for C79)

Rounding to nearest, ties to even, with 53 significant bits, smallest exponent `e` and numbers below `2 ^ 1024`; `exp`, `log`,
`pow` and the Gaussian cdfs correctly rounded.  A `Platform` that satisfies the `Laws`.
-/

namespace Slat.CurveF

open Dbl
open LnF (halfEven halfEven_near le_halfEven halfEven_le halfEven_int halfEven_eq)

noncomputable section

theorem halfEven_mono {x y : ℝ} (h : x ≤ y) : halfEven x ≤ halfEven y := by
  rcases (Int.floor_mono h).eq_or_lt with k | k
  · unfold halfEven
    rw [← k]
    split_ifs <;> first | omega | linarith
  · have h1 : halfEven x ≤ ⌊x⌋ + 1 := halfEven_le (by push_cast; exact (Int.lt_floor_add_one x).le)
    have h2 : ⌊y⌋ ≤ halfEven y := le_halfEven (Int.floor_le y)
    omega

theorem two_mono {a b : ℤ} (h : a ≤ b) : (2 : ℝ) ^ a ≤ 2 ^ b := zpow_le_zpow_right₀ one_le_two h

theorem two_add (a b : ℤ) : (2 : ℝ) ^ (a + b) = 2 ^ a * 2 ^ b := zpow_add₀ two_ne_zero a b

theorem two_mul_neg (a : ℤ) : (2 : ℝ) ^ a * 2 ^ (-a) = 1 := by rw [← two_add]; simp

section

variable (e : ℤ)

/-- Exponent of the last bit kept. -/
def quantum (x : ℝ) : ℤ := max (Int.log 2 x - 52) e

/-- Rounding of a positive number. -/
def posR (x : ℝ) : ℝ := (halfEven (x * 2 ^ (-quantum e x)) : ℝ) * 2 ^ quantum e x

/-- Rounding without overflow. -/
def near (x : ℝ) : ℝ := if 0 < x then posR e x else if x < 0 then -posR e (-x) else 0

/-- Rounding. -/
def round (x : ℝ) : Dbl :=
  if (2 : ℝ) ^ (1024 : ℤ) ≤ near e x then .pinf else if near e x ≤ -(2 : ℝ) ^ (1024 : ℤ) then .ninf else .fin (near e x)

variable {e}

theorem near_zero : near e 0 = 0 := by simp [near]

theorem near_pos {x : ℝ} (h : 0 < x) : near e x = posR e x := by rw [near, if_pos h]

theorem near_neg (x : ℝ) : near e (-x) = -near e x := by
  unfold near
  rcases lt_trichotomy x 0 with h | h | h
  · rw [if_pos (by linarith), if_neg (by linarith), if_pos h, neg_neg]
  · subst h; simp
  · rw [if_neg (by linarith), if_pos (by linarith), if_pos h, neg_neg]

theorem quantum_mono {x y : ℝ} (h0 : 0 < x) (h : x ≤ y) : quantum e x ≤ quantum e y := by
  unfold quantum
  have := Int.log_mono_right (b := 2) h0 h
  omega

theorem below_quantum {x : ℝ} (_ : 0 < x) : x < 2 ^ (quantum e x + 53) := by
  have h2 := Int.lt_zpow_succ_log_self (b := 2) one_lt_two x
  push_cast at h2
  refine h2.trans_le (two_mono ?_)
  unfold quantum
  omega

theorem above_quantum {x : ℝ} (h : 0 < x) (hq : e < quantum e x) : 2 ^ (quantum e x + 52) ≤ x := by
  have h1 := Int.zpow_log_le_self (b := 2) one_lt_two h
  push_cast at h1
  refine le_trans (two_mono ?_) h1
  unfold quantum at *
  omega

theorem posR_form {x : ℝ} (h : 0 < x) : ∃ m : ℕ, m ≤ 2 ^ 53 ∧ posR e x = m * 2 ^ quantum e x := by
  have h1 : ((2 ^ 53 : ℕ) : ℤ) ≥ halfEven (x * 2 ^ (-quantum e x)) := by
    refine halfEven_le ?_
    have := (below_quantum (e := e) h).le
    rw [two_add] at this
    have t : (0 : ℝ) < 2 ^ (-quantum e x) := by positivity
    have k := mul_le_mul_of_nonneg_right this t.le
    have r : (2 : ℝ) ^ quantum e x * 2 ^ (53 : ℤ) * 2 ^ (-quantum e x) = 2 ^ (53 : ℤ) := by
      rw [mul_right_comm, two_mul_neg, one_mul]
    rw [r] at k
    calc x * 2 ^ (-quantum e x) ≤ 2 ^ (53 : ℤ) := k
      _ = (((2 ^ 53 : ℕ) : ℤ) : ℝ) := by norm_num
  have h0 : 0 ≤ halfEven (x * 2 ^ (-quantum e x)) := le_halfEven (by push_cast; positivity)
  obtain ⟨m, hm⟩ := Int.eq_ofNat_of_zero_le h0
  refine ⟨m, ?_, ?_⟩
  · rw [hm] at h1; exact_mod_cast h1
  · unfold posR; rw [hm]; push_cast; rfl

theorem posR_top {x : ℝ} (h : 0 < x) : posR e x ≤ 2 ^ (quantum e x + 53) := by
  obtain ⟨m, hm, he⟩ := posR_form (e := e) h
  rw [he, two_add, mul_comm]
  have t : (0 : ℝ) < 2 ^ quantum e x := by positivity
  refine mul_le_mul_of_nonneg_left ?_ t.le
  calc (m : ℝ) ≤ ((2 ^ 53 : ℕ) : ℝ) := by exact_mod_cast hm
    _ = 2 ^ (53 : ℤ) := by norm_num

theorem posR_bottom {x : ℝ} (h : 0 < x) (hq : e < quantum e x) : 2 ^ (quantum e x + 52) ≤ posR e x := by
  have h1 : ((2 ^ 52 : ℕ) : ℤ) ≤ halfEven (x * 2 ^ (-quantum e x)) := by
    refine le_halfEven ?_
    have := above_quantum h hq
    rw [two_add] at this
    have t : (0 : ℝ) < 2 ^ (-quantum e x) := by positivity
    have k := mul_le_mul_of_nonneg_right this t.le
    have r : (2 : ℝ) ^ quantum e x * 2 ^ (52 : ℤ) * 2 ^ (-quantum e x) = 2 ^ (52 : ℤ) := by
      rw [mul_right_comm, two_mul_neg, one_mul]
    rw [r] at k
    calc (((2 ^ 52 : ℕ) : ℤ) : ℝ) = 2 ^ (52 : ℤ) := by norm_num
      _ ≤ _ := k
  unfold posR
  rw [two_add, mul_comm]
  have t : (0 : ℝ) < 2 ^ quantum e x := by positivity
  refine mul_le_mul_of_nonneg_right ?_ t.le
  calc (2 : ℝ) ^ (52 : ℤ) = (((2 ^ 52 : ℕ) : ℤ) : ℝ) := by norm_num
    _ ≤ _ := by exact_mod_cast h1

theorem posR_nonneg {x : ℝ} (h : 0 < x) : 0 ≤ posR e x := by
  obtain ⟨m, -, he⟩ := posR_form (e := e) h
  rw [he]; positivity

theorem posR_mono {x y : ℝ} (h0 : 0 < x) (h : x ≤ y) : posR e x ≤ posR e y := by
  have hy := h0.trans_le h
  rcases (quantum_mono (e := e) h0 h).eq_or_lt with k | k
  · unfold posR
    rw [← k]
    have t : (0 : ℝ) < 2 ^ quantum e x := by positivity
    have t' : (0 : ℝ) < 2 ^ (-quantum e x) := by positivity
    refine mul_le_mul_of_nonneg_right ?_ t.le
    exact_mod_cast halfEven_mono (mul_le_mul_of_nonneg_right h t'.le)
  · have l : e ≤ quantum e x := by unfold quantum; omega
    exact (posR_top h0).trans ((two_mono (by omega)).trans (posR_bottom hy (by omega)))

theorem near_mono {x y : ℝ} (h : x ≤ y) : near e x ≤ near e y := by
  rcases lt_trichotomy x 0 with hx | hx | hx
  · have ex : near e x = -posR e (-x) := by rw [near, if_neg (by linarith), if_pos hx]
    rcases lt_trichotomy y 0 with hy | hy | hy
    · have ey : near e y = -posR e (-y) := by rw [near, if_neg (by linarith), if_pos hy]
      rw [ex, ey]
      exact neg_le_neg (posR_mono (by linarith) (by linarith))
    · subst hy
      rw [ex, near_zero]
      have := posR_nonneg (e := e) (x := -x) (by linarith)
      linarith
    · rw [ex, near_pos hy]
      have := posR_nonneg (e := e) (x := -x) (by linarith)
      have := posR_nonneg (e := e) hy
      linarith
  · subst hx
    rw [near_zero]
    rcases h.eq_or_lt with hy | hy
    · rw [← hy, near_zero]
    · rw [near_pos hy]; exact posR_nonneg hy
  · rw [near_pos hx, near_pos (hx.trans_le h)]
    exact posR_mono hx h

/-- Numbers with 53 bits are kept. -/
theorem posR_fix (m : ℕ) (k : ℤ) (h0 : 0 < m) (h : m ≤ 2 ^ 53) (hk : e ≤ k) : posR e (m * 2 ^ k) = m * 2 ^ k := by
  have main : ∀ (m : ℕ) (k : ℤ), 0 < m → m < 2 ^ 53 → e ≤ k → posR e (m * 2 ^ k) = m * 2 ^ k := by
    intro m k h0 h hk
    have p : (0 : ℝ) < m * 2 ^ k := by positivity
    have hq : quantum e (m * 2 ^ k) ≤ k := by
      unfold quantum
      have : Int.log 2 ((m : ℝ) * 2 ^ k) < k + 53 := by
        rw [← Int.lt_zpow_iff_log_lt (b := 2) one_lt_two p]
        push_cast
        rw [two_add, mul_comm]
        have t : (0 : ℝ) < 2 ^ k := by positivity
        refine mul_lt_mul_of_pos_left ?_ t
        calc (m : ℝ) < ((2 ^ 53 : ℕ) : ℝ) := by exact_mod_cast h
          _ = 2 ^ (53 : ℤ) := by norm_num
      omega
    unfold posR
    generalize quantum e (m * 2 ^ k) = q at *
    obtain ⟨j, rfl⟩ : ∃ j : ℕ, k = q + j := ⟨(k - q).toNat, by omega⟩
    have e1 : (m : ℝ) * 2 ^ (q + (j : ℤ)) * 2 ^ (-q) = ((m * 2 ^ j : ℕ) : ℤ) := by
      rw [two_add]
      push_cast
      have := two_mul_neg q
      rw [zpow_natCast]
      linear_combination (m : ℝ) * 2 ^ j * this
    rw [e1, halfEven_int, two_add]
    push_cast
    rw [zpow_natCast]
    ring
  rcases h.eq_or_lt with r | r
  · have e1 : (m : ℝ) * 2 ^ k = ((2 ^ 52 : ℕ) : ℝ) * 2 ^ (k + 1) := by
      rw [two_add, r]; push_cast; ring
    rw [e1]
    exact main _ _ (by norm_num) (by norm_num) (by omega)
  · exact main m k h0 r hk

theorem near_fix (m : ℕ) (k : ℤ) (h : m ≤ 2 ^ 53) (hk : e ≤ k) : near e (m * 2 ^ k) = m * 2 ^ k := by
  rcases m.eq_zero_or_pos with r | r
  · subst r; simp [near_zero]
  · rw [near_pos (by positivity), posR_fix m k r h hk]

theorem near_again (x : ℝ) : near e (near e x) = near e x := by
  have key : ∀ x : ℝ, 0 < x → near e (posR e x) = posR e x := by
    intro x hx
    obtain ⟨m, h2, he⟩ := posR_form (e := e) hx
    rw [he]
    exact near_fix m _ h2 (by unfold quantum; omega)
  rcases lt_trichotomy x 0 with hx | hx | hx
  · have ex : near e x = -posR e (-x) := by rw [near, if_neg (by linarith), if_pos hx]
    rw [ex, near_neg, key _ (by linarith)]
  · subst hx; simp [near_zero]
  · rw [near_pos hx, key _ hx]

/-! ## With overflow -/

theorem big_pos : (0 : ℝ) < 2 ^ (1024 : ℤ) := by positivity

theorem round_fin {x : ℝ} (h : |near e x| < 2 ^ (1024 : ℤ)) : round e x = .fin (near e x) := by
  have := abs_lt.1 h
  rw [round, if_neg (not_le.2 this.2), if_neg (not_le.2 this.1)]

theorem round_eq {x y : ℝ} (h : round e x = .fin y) : near e x = y ∧ |y| < 2 ^ (1024 : ℤ) := by
  unfold round at h
  split_ifs at h with a b
  rw [fin_inj] at h
  subst h
  exact ⟨rfl, abs_lt.2 ⟨not_le.1 b, not_le.1 a⟩⟩

theorem round_mono {x y : ℝ} (h : x ≤ y) : round e x ≤ round e y := by
  have m := near_mono (e := e) h
  have b := big_pos
  unfold round
  split_ifs with h1 h2 h3 h4 h5 h6 h7 h8
  all_goals first
    | (rw [le_cases]; trivial)
    | (exfalso; linarith)

theorem round_idem {x y : ℝ} (h : round e x = .fin y) : round e y = .fin y := by
  obtain ⟨h1, h2⟩ := round_eq h
  subst h1
  have : near e (near e x) = near e x := near_again x
  rw [round_fin (by rwa [this]), this]

theorem round_zero : round e 0 = .fin 0 := by
  rw [round_fin (by rw [near_zero, abs_zero]; exact big_pos), near_zero]

theorem round_num (m : ℕ) (k : ℤ) (h : m ≤ 2 ^ 53) (hk : e ≤ k) (h' : (m : ℝ) * 2 ^ k < 2 ^ (1024 : ℤ)) :
    round e (m * 2 ^ k) = .fin (m * 2 ^ k) := by
  have := near_fix m k h hk
  rw [round_fin (by rw [this, abs_of_nonneg (by positivity)]; exact h'), this]

theorem round_neg {x : ℝ} (h : round e x = .fin x) : round e (-x) = .fin (-x) := by
  obtain ⟨h1, h2⟩ := round_eq h
  rw [round_fin (by rw [near_neg, h1, abs_neg]; exact h2), near_neg, h1]

/-- The form of a positive number of the format. -/
theorem rep_form {x : ℝ} (h : round e x = .fin x) (h0 : 0 < x) : ∃ m : ℕ, m ≤ 2 ^ 53 ∧ x = m * 2 ^ quantum e x := by
  obtain ⟨h1, -⟩ := round_eq h
  rw [near_pos h0] at h1
  obtain ⟨m, h2, h3⟩ := posR_form (e := e) h0
  exact ⟨m, h2, by rw [← h3, h1]⟩

/-- Neighbours are not too close. -/
theorem gap {x y : ℝ} (hx : round e x = .fin x) (hy : round e y = .fin y) (h0 : 0 < x) (h : x < y) : x ≤ y * (1 - 2 ^ (-53 : ℤ)) := by
  have y0 := h0.trans h
  obtain ⟨m, hm, ex⟩ := rep_form hx h0
  obtain ⟨n, hn, ey⟩ := rep_form hy y0
  have hm' : (m : ℝ) < 2 ^ 53 := by
    have := below_quantum (e := e) h0
    rw [two_add] at this
    have t : (0 : ℝ) < 2 ^ quantum e x := by positivity
    have k : (2 : ℝ) ^ quantum e x * m < 2 ^ quantum e x * 2 ^ (53 : ℤ) := by
      calc (2 : ℝ) ^ quantum e x * m = x := by rw [mul_comm]; exact ex.symm
        _ < _ := this
    have := lt_of_mul_lt_mul_left k t.le
    calc (m : ℝ) < 2 ^ (53 : ℤ) := this
      _ = 2 ^ 53 := by norm_num
  have hm1 : (m : ℝ) ≤ 2 ^ 53 - 1 := by
    have : m + 1 ≤ 2 ^ 53 := by exact_mod_cast hm'
    have : ((m + 1 : ℕ) : ℝ) ≤ ((2 ^ 53 : ℕ) : ℝ) := by exact_mod_cast this
    push_cast at this
    linarith
  have hn' : (n : ℝ) ≤ 2 ^ 53 := by exact_mod_cast hn
  have z : (2 : ℝ) ^ (-53 : ℤ) = (2 ^ 53)⁻¹ := by norm_num
  rcases (quantum_mono (e := e) h0 h.le).eq_or_lt with k | k
  · rw [← k] at ey
    have t : (0 : ℝ) < 2 ^ quantum e x := by positivity
    generalize (2 : ℝ) ^ quantum e x = g at *
    have mn : (m : ℝ) < n := by
      rw [ex, ey] at h
      exact lt_of_mul_lt_mul_right h t.le
    have mn1 : (m : ℝ) + 1 ≤ n := by exact_mod_cast mn
    rw [ey, z, ex]
    have : (n : ℝ) * (2 ^ 53)⁻¹ ≤ 1 := by
      rw [← div_eq_mul_inv, div_le_one (by positivity)]; exact hn'
    nlinarith
  · have l : e ≤ quantum e x := by unfold quantum; omega
    have a := above_quantum y0 (show e < quantum e y by omega)
    have b : x ≤ (2 ^ 53 - 1) * 2 ^ (quantum e y - 1) := by
      rw [ex]
      refine mul_le_mul hm1 (two_mono (by omega)) (by positivity) (by norm_num)
    have c : (2 ^ 53 - 1) * (2 : ℝ) ^ (quantum e y - 1) = (1 - (2 ^ 53)⁻¹) * 2 ^ (quantum e y + 52) := by
      rw [show quantum e y + 52 = (quantum e y - 1) + 53 by ring, two_add]
      norm_num
      ring
    rw [z]
    rw [c] at b
    have : (0 : ℝ) ≤ 1 - (2 ^ 53)⁻¹ := by norm_num
    nlinarith

theorem le_quantum (x : ℝ) : e ≤ quantum e x := by unfold quantum; omega

/-- Numbers of the format are multiples of the smallest one. -/
theorem rep_multiple {x : ℝ} (h : round e x = .fin x) : ∃ a : ℤ, x = a * 2 ^ e := by
  have key : ∀ x : ℝ, round e x = .fin x → 0 < x → ∃ a : ℤ, x = a * 2 ^ e := by
    intro x h h0
    obtain ⟨m, -, ex⟩ := rep_form h h0
    obtain ⟨j, hj⟩ : ∃ j : ℕ, quantum e x = e + j := ⟨(quantum e x - e).toNat, by have := le_quantum (e := e) x; omega⟩
    refine ⟨m * 2 ^ j, ?_⟩
    rw [hj, two_add, zpow_natCast] at ex
    rw [ex]
    push_cast
    ring
  rcases lt_trichotomy x 0 with hx | hx | hx
  · obtain ⟨a, ha⟩ := key _ (round_neg h) (by linarith)
    exact ⟨-a, by push_cast; linarith⟩
  · exact ⟨0, by simp [hx]⟩
  · exact key x h hx

theorem posR_error {x : ℝ} (h : 0 < x) : |posR e x - x| ≤ 2 ^ quantum e x / 2 := by
  have t : (0 : ℝ) < 2 ^ quantum e x := by positivity
  have n := halfEven_near (x * 2 ^ (-quantum e x))
  have ex : x = x * 2 ^ (-quantum e x) * 2 ^ quantum e x := by
    rw [mul_assoc, mul_comm ((2 : ℝ) ^ (-quantum e x)), two_mul_neg, mul_one]
  unfold posR
  generalize halfEven (x * 2 ^ (-quantum e x)) = a at *
  generalize x * 2 ^ (-quantum e x) = b at *
  generalize (2 : ℝ) ^ quantum e x = g at *
  subst ex
  rw [← sub_mul, abs_mul, abs_of_pos t]
  nlinarith

theorem posR_rel {x : ℝ} (h : 0 < x) (hq : e < quantum e x) : |posR e x - x| ≤ 2 ^ (-53 : ℤ) * x := by
  refine (posR_error h).trans ?_
  have a := above_quantum h hq
  have z : (2 : ℝ) ^ (-53 : ℤ) * 2 ^ (quantum e x + 52) = 2 ^ quantum e x / 2 := by
    rw [← two_add, show (-53 : ℤ) + (quantum e x + 52) = quantum e x - 1 by ring, sub_eq_add_neg, two_add, zpow_neg_one]
    ring
  rw [← z]
  have : (0 : ℝ) < 2 ^ (-53 : ℤ) := by positivity
  exact mul_le_mul_of_nonneg_left a this.le

theorem near_error (x : ℝ) : |near e x - x| ≤ 2 ^ (-53 : ℤ) * |x| + 2 ^ e / 2 := by
  have t : (0 : ℝ) < 2 ^ e := by positivity
  have key : ∀ x : ℝ, 0 < x → |posR e x - x| ≤ 2 ^ (-53 : ℤ) * x + 2 ^ e / 2 := by
    intro x h
    rcases (le_quantum (e := e) x).eq_or_lt with k | k
    · have := posR_error (e := e) h
      rw [← k] at this
      have : (0 : ℝ) < 2 ^ (-53 : ℤ) * x := by positivity
      linarith
    · have := posR_rel h k
      have t2 : (0 : ℝ) ≤ 2 ^ e / 2 := by positivity
      exact this.trans (le_add_of_nonneg_right t2)
  rcases lt_trichotomy x 0 with hx | hx | hx
  · have ex : near e x = -posR e (-x) := by rw [near, if_neg (by linarith), if_pos hx]
    have := key (-x) (by linarith)
    rw [ex, abs_of_neg hx, show -posR e (-x) - x = -(posR e (-x) - -x) by ring, abs_neg]
    exact this
  · subst hx; simp [near_zero]; positivity
  · rw [near_pos hx, abs_of_pos hx]; exact key x hx

/-- Sums and differences of numbers of the format do not suffer from underflow. -/
theorem near_multiple {x : ℝ} (a : ℤ) (h : x = a * 2 ^ e) : |near e x - x| ≤ 2 ^ (-53 : ℤ) * |x| := by
  have key : ∀ (x : ℝ) (a : ℤ), x = a * 2 ^ e → 0 < x → |posR e x - x| ≤ 2 ^ (-53 : ℤ) * x := by
    intro x a h h0
    rcases (le_quantum (e := e) x).eq_or_lt with k | k
    · have : posR e x = x := by
        unfold posR
        rw [← k]
        have : x * 2 ^ (-e) = a := by rw [h, mul_assoc, two_mul_neg, mul_one]
        rw [this, halfEven_int, h]
      rw [this, sub_self, abs_zero]; positivity
    · exact posR_rel h0 k
  rcases lt_trichotomy x 0 with hx | hx | hx
  · have ex : near e x = -posR e (-x) := by rw [near, if_neg (by linarith), if_pos hx]
    have := key (-x) (-a) (by rw [h]; push_cast; ring) (by linarith)
    rw [ex, abs_of_neg hx, show -posR e (-x) - x = -(posR e (-x) - -x) by ring, abs_neg]
    exact this
  · subst hx; simp [near_zero]
  · rw [near_pos hx, abs_of_pos hx]; exact key x a h hx

theorem round_apart {x y : ℝ} (hx : round e x = .fin x) (hy : round e y = .fin y) (h : x < y) (he : e < 1024) : .fin 0 < round e (y - x) := by
  obtain ⟨a, ha⟩ := rep_multiple hx
  obtain ⟨b, hb⟩ := rep_multiple hy
  have t : (0 : ℝ) < 2 ^ e := by positivity
  have ab : a < b := by
    rw [ha, hb] at h
    exact_mod_cast lt_of_mul_lt_mul_right h t.le
  have ab1 : (1 : ℝ) ≤ b - a := by
    have : (1 : ℤ) ≤ b - a := by omega
    exact_mod_cast this
  have low : ((1 : ℕ) : ℝ) * 2 ^ e ≤ y - x := by
    rw [ha, hb]; push_cast; nlinarith
  have m := round_mono (e := e) low
  rw [round_num 1 e (by norm_num) le_rfl (by
    rw [Nat.cast_one, one_mul]; exact zpow_lt_zpow_right₀ one_lt_two he)] at m
  have p : (0 : ℝ) < ((1 : ℕ) : ℝ) * 2 ^ e := by rw [Nat.cast_one, one_mul]; exact t
  rw [le_cases] at m
  cases k : round e (y - x) with
  | nan => rw [k] at m; exact m.elim
  | pinf => exact trivial
  | ninf => rw [k] at m; exact m.elim
  | fin r =>
    rw [k] at m
    rw [fin_lt]
    exact p.trans_le m

/-- Differences of numbers within a factor of two are exact. -/
theorem round_close {x y : ℝ} (hx : round e x = .fin x) (hy : round e y = .fin y) (x0 : 0 < x) (y0 : 0 < y) (h1 : x ≤ 2 * y) (h2 : y ≤ 2 * x) :
    round e (x - y) = .fin (x - y) := by
  have key : ∀ x y : ℝ, round e x = .fin x → round e y = .fin y → 0 < y → y ≤ x → x ≤ 2 * y → round e (x - y) = .fin (x - y) := by
    intro x y hx hy y0 h1 h2
    obtain ⟨m, -, ex⟩ := rep_form hx (y0.trans_le h1)
    obtain ⟨n, hn, ey⟩ := rep_form hy y0
    obtain ⟨-, hx'⟩ := round_eq hx
    obtain ⟨j, hj⟩ : ∃ j : ℕ, quantum e x = quantum e y + j :=
      ⟨(quantum e x - quantum e y).toNat, by have := quantum_mono (e := e) y0 h1; omega⟩
    rw [hj, two_add, zpow_natCast] at ex
    have q0 := le_quantum (e := e) y
    have t : (0 : ℝ) < 2 ^ quantum e y := by positivity
    have ex' : x = ((m * 2 ^ j : ℕ) : ℝ) * 2 ^ quantum e y := by rw [ex]; push_cast; ring
    have d : ((m * 2 ^ j : ℕ) : ℝ) * 2 ^ quantum e y - n * 2 ^ quantum e y = x - y := by rw [← ex', ← ey]
    have c1 : n ≤ m * 2 ^ j := by
      have : (n : ℝ) * 2 ^ quantum e y ≤ ((m * 2 ^ j : ℕ) : ℝ) * 2 ^ quantum e y := by rw [← ex', ← ey]; exact h1
      exact_mod_cast le_of_mul_le_mul_right this t
    have c2 : m * 2 ^ j ≤ 2 * n := by
      have : ((m * 2 ^ j : ℕ) : ℝ) * 2 ^ quantum e y ≤ 2 * (n : ℝ) * 2 ^ quantum e y := by rw [← ex', mul_assoc, ← ey]; exact h2
      exact_mod_cast le_of_mul_le_mul_right this t
    replace d : x - y = ((m * 2 ^ j - n : ℕ) : ℝ) * 2 ^ quantum e y := by
      rw [Nat.cast_sub c1, sub_mul]; exact d.symm
    rw [d]
    refine round_num _ _ (by omega) q0 ?_
    rw [← d]
    exact lt_of_le_of_lt (sub_le_self x y0.le) (abs_lt.1 hx').2
  rcases le_total y x with h | h
  · exact key x y hx hy y0 h h1
  · have := round_neg (key y x hy hx x0 h h2)
    rwa [neg_sub] at this

end

/-- Binary64 with correctly rounded library functions. -/
def double : Platform where
  rnd := round (-1074)
  rexp x := round (-1074) (Real.exp x)
  rlog x := round (-1074) (Real.log x)
  rpow x b := round (-1074) (x ^ b)
  rP x := round (-1074) (Phi x)
  rQ x := round (-1074) (1 - Phi x)

theorem double_num (m : ℕ) (k : ℤ) (h : m ≤ 2 ^ 53) (hk : -1074 ≤ k) (hk' : k ≤ 970) : Rep double (m * 2 ^ k) := by
  refine round_num m k h hk ?_
  have a : (m : ℝ) ≤ 2 ^ (53 : ℤ) := by
    calc (m : ℝ) ≤ ((2 ^ 53 : ℕ) : ℝ) := by exact_mod_cast h
      _ = 2 ^ (53 : ℤ) := by norm_num
  calc (m : ℝ) * 2 ^ k ≤ 2 ^ (53 : ℤ) * 2 ^ k := by gcongr
    _ = 2 ^ (53 + k) := (two_add _ _).symm
    _ < 2 ^ (1024 : ℤ) := zpow_lt_zpow_right₀ one_lt_two (by omega)

theorem double_int (m : ℕ) (h : m ≤ 2 ^ 53) : Rep double m := by
  have := double_num m 0 h (by norm_num) (by norm_num)
  rwa [zpow_zero, mul_one] at this

theorem double_pred : Rep double (1 - 2 ^ (-53 : ℤ)) := by
  have := double_num (2 ^ 53 - 1) (-53) (by norm_num) (by norm_num) (by norm_num)
  have e : ((2 ^ 53 - 1 : ℕ) : ℝ) * 2 ^ (-53 : ℤ) = 1 - 2 ^ (-53 : ℤ) := by norm_num
  rwa [e] at this

theorem Phi_mono {x y : ℝ} (h : x ≤ y) : Phi x ≤ Phi y := ProbabilityTheory.monotone_cdf _ h
theorem Phi_nonneg (x : ℝ) : 0 ≤ Phi x := ProbabilityTheory.cdf_nonneg _ x
theorem Phi_le_one (x : ℝ) : Phi x ≤ 1 := ProbabilityTheory.cdf_le_one _ x

theorem double_one : round (-1074) 1 = .fin 1 := by
  have := double_int 1 (by norm_num)
  rwa [Nat.cast_one] at this

theorem round_nonneg {e : ℤ} {x : ℝ} (h : 0 ≤ x) : .fin 0 ≤ round e x := by
  have := round_mono (e := e) h
  rwa [round_zero] at this

theorem round_le_one {x : ℝ} (h : x ≤ 1) : round (-1074) x ≤ .fin 1 := by
  have := round_mono (e := -1074) h
  rwa [double_one] at this

theorem double_laws : Laws double where
  mono x y h := round_mono h
  idem x y h := round_idem h
  zero := round_zero
  one := double_one
  minus x h := round_neg h
  below x y hx hy h0 h := by
    have y0 := h0.trans h
    have g := gap hx hy h0 h
    have k : x / y ≤ 1 - 2 ^ (-53 : ℤ) := by rw [div_le_iff₀ y0, mul_comm]; exact g
    have a := round_mono (e := -1074) k
    have b := round_nonneg (e := -1074) (div_nonneg h0.le y0.le)
    have c : round (-1074) (1 - 2 ^ (-53 : ℤ)) = .fin (1 - 2 ^ (-53 : ℤ)) := double_pred
    rw [c] at a
    obtain ⟨w, e, -, hw⟩ := sandwich b a
    have : (0 : ℝ) < 2 ^ (-53 : ℤ) := by positivity
    exact ⟨w, e, by linarith⟩
  apart x y hx hy h := round_apart hx hy h (by norm_num)
  expMono x y h := round_mono (Real.exp_le_exp.2 h)
  expZero := by
    have : round (-1074) (Real.exp 0) = .fin 1 := by rw [Real.exp_zero, double_one]
    exact this
  expNonneg x := round_nonneg (Real.exp_pos x).le
  expRounded x y h := round_idem h
  logMono x y h0 h := round_mono (Real.log_le_log h0 h)
  logOne := by
    have : round (-1074) (Real.log 1) = .fin 0 := by rw [Real.log_one, round_zero]
    exact this
  logNeg x h0 h hx := by
    have g := gap hx double_one h0 h
    rw [one_mul] at g
    have p : (0 : ℝ) < 2 ^ (-53 : ℤ) := by positivity
    have l : Real.log x ≤ -2 ^ (-53 : ℤ) := by
      have := Real.log_le_sub_one_of_pos h0
      linarith
    have m := round_mono (e := -1074) l
    have d : Rep double (2 ^ (-53 : ℤ)) := by
      have := double_num 1 (-53) (by norm_num) (by norm_num) (by norm_num)
      rwa [Nat.cast_one, one_mul] at this
    have d' : round (-1074) (-2 ^ (-53 : ℤ)) = .fin (-2 ^ (-53 : ℤ)) := round_neg d
    rw [d', le_cases] at m
    show round (-1074) (Real.log x) < .fin 0
    cases k : round (-1074) (Real.log x) with
    | nan => rw [k] at m; exact m.elim
    | pinf => rw [k] at m; exact m.elim
    | ninf => exact trivial
    | fin r =>
      rw [k] at m
      rw [fin_lt]
      exact lt_of_le_of_lt m (by linarith)
  logRounded x h0 hx := by
    obtain ⟨-, hb⟩ := round_eq hx
    have l2 : Real.log 2 ≤ 1 := by
      have := Real.log_le_sub_one_of_pos (show (0 : ℝ) < 2 by norm_num)
      linarith
    have up : Real.log x ≤ ((1024 : ℕ) : ℝ) := by
      rw [abs_of_pos h0] at hb
      have h1 := Real.log_le_log h0 hb.le
      rw [Real.log_zpow] at h1
      push_cast at h1 ⊢
      linarith
    have lo : -((1074 : ℕ) : ℝ) ≤ Real.log x := by
      obtain ⟨a, ha⟩ := rep_multiple hx
      have t : (0 : ℝ) < 2 ^ (-1074 : ℤ) := by positivity
      have a1 : (1 : ℝ) ≤ a := by
        have : (0 : ℝ) < a := by
          rw [ha] at h0
          exact pos_of_mul_pos_left h0 t.le
        have : (0 : ℤ) < a := by exact_mod_cast this
        exact_mod_cast this
      have : (2 : ℝ) ^ (-1074 : ℤ) ≤ x := by rw [ha]; nlinarith
      have h1 := Real.log_le_log t this
      rw [Real.log_zpow] at h1
      push_cast at h1 ⊢
      linarith
    obtain ⟨w, ew, -⟩ := sandwich (by
      have := round_mono (e := -1074) lo
      rwa [round_neg (double_int 1074 (by norm_num))] at this) (by
      have := round_mono (e := -1074) up
      have d : round (-1074) ((1024 : ℕ) : ℝ) = _ := double_int 1024 (by norm_num)
      rwa [d] at this)
    exact ⟨w, ew, round_idem ew⟩
  powMono x y b h0 h hb := round_mono (Real.rpow_le_rpow h0.le h hb)
  powNonneg x b h := round_nonneg (Real.rpow_nonneg h.le b)
  pMono x y h := round_mono (Phi_mono h)
  pNonneg x := round_nonneg (Phi_nonneg x)
  pLeOne x := round_le_one (Phi_le_one x)
  pRounded x y h := round_idem h
  qMono x y h := round_mono (by have := Phi_mono h; linarith)
  qNonneg x := round_nonneg (by have := Phi_le_one x; linarith)
  qLeOne x := round_le_one (by have := Phi_nonneg x; linarith)

theorem double_precise : Precise double (1 / 2 ^ 53) (2 ^ (-1075 : ℤ)) where
  u0 := by positivity
  u1 := by norm_num
  eta0 := by positivity
  eta1 := by
    have : (2 : ℝ) ^ (-1075 : ℤ) ≤ 2 ^ (-7 : ℤ) := two_mono (by norm_num)
    refine this.trans ?_
    norm_num
  near x y h := by
    obtain ⟨h1, -⟩ := round_eq h
    have := near_error (e := -1074) x
    rw [h1] at this
    have z : (2 : ℝ) ^ (-53 : ℤ) = 1 / 2 ^ 53 := by norm_num
    have z' : (2 : ℝ) ^ (-1074 : ℤ) / 2 = 2 ^ (-1075 : ℤ) := by
      rw [show (-1075 : ℤ) = -1074 + -1 by norm_num, two_add, zpow_neg_one]; rfl
    rwa [z, z'] at this
  sum x y z hx hy h := by
    obtain ⟨h1, -⟩ := round_eq h
    obtain ⟨a, ha⟩ := rep_multiple hx
    obtain ⟨b, hb⟩ := rep_multiple hy
    have := near_multiple (e := -1074) (x := x + y) (a + b) (by rw [ha, hb]; push_cast; ring)
    rw [h1] at this
    have z : (2 : ℝ) ^ (-53 : ℤ) = 1 / 2 ^ 53 := by norm_num
    rwa [z] at this
  close x y hx hy x0 y0 h1 h2 := round_close hx hy x0 y0 h1 h2

end

end Slat.CurveF
