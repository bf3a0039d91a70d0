import Verif.LnFLemmas
import Verif.MaqFTrunc

/-!
# Rounding to nearest, ties to even, with 53 significant bits (helper file for C77)

IEEE 754 binary64 without bounds on the exponents, as a `Machine`; `exp` and `log` correctly rounded.
-/

namespace Slat.LnF

open Real (exp log)
open MaqF (log_bounds scaled_bounds scale_back)

noncomputable section

/-- Nearest integer, ties to even. -/
def halfEven (y : ℝ) : ℤ :=
  if y - ⌊y⌋ < 1 / 2 then ⌊y⌋ else if 1 / 2 < y - ⌊y⌋ then ⌊y⌋ + 1 else if Even ⌊y⌋ then ⌊y⌋ else ⌊y⌋ + 1

theorem halfEven_near (y : ℝ) : |(halfEven y : ℝ) - y| ≤ 1 / 2 := by
  have h1 := Int.floor_le y
  have h2 := Int.lt_floor_add_one y
  unfold halfEven
  split_ifs with a b c
  · rw [abs_le]; constructor <;> linarith
  · push_cast; rw [abs_le]; constructor <;> linarith
  · rw [abs_le]; constructor <;> linarith
  · push_cast; rw [abs_le]; constructor <;> linarith

theorem halfEven_eq {y : ℝ} {n : ℤ} (h : |y - n| < 1 / 2) : halfEven y = n := by
  have h1 := abs_lt.1 h
  have h2 := abs_le.1 (halfEven_near y)
  have h3 : (halfEven y : ℝ) < n + 1 := by linarith
  have h4 : (n : ℝ) - 1 < halfEven y := by linarith
  have h5 : halfEven y < n + 1 := by exact_mod_cast h3
  have h6 : n - 1 < halfEven y := by exact_mod_cast h4
  omega

/-- A tie. -/
theorem halfEven_tie {n : ℤ} (h : Even n) : halfEven (n + 1 / 2) = n := by
  have e : ⌊(n : ℝ) + 1 / 2⌋ = n := by
    rw [Int.floor_eq_iff]
    constructor <;> linarith
  unfold halfEven
  rw [e, if_neg (by simp), if_neg (by simp), if_pos h]

theorem halfEven_int (n : ℤ) : halfEven n = n := halfEven_eq (by simp)

theorem le_halfEven {y : ℝ} {n : ℤ} (h : n ≤ y) : n ≤ halfEven y := by
  have h2 := abs_le.1 (halfEven_near y)
  have h4 : (n : ℝ) - 1 < halfEven y := by linarith
  have h6 : n - 1 < halfEven y := by exact_mod_cast h4
  omega

theorem halfEven_le {y : ℝ} {n : ℤ} (h : y ≤ n) : halfEven y ≤ n := by
  have h2 := abs_le.1 (halfEven_near y)
  have h4 : (halfEven y : ℝ) < n + 1 := by linarith
  have h6 : halfEven y < n + 1 := by exact_mod_cast h4
  omega

/-- Rounding of a positive number to 53 significant bits. -/
def nearPos (x : ℝ) : ℝ := (halfEven (x * 2 ^ ((52 : ℕ) - Int.log 2 x)) : ℝ) * 2 ^ (Int.log 2 x - (52 : ℕ))

/-- Rounding to 53 significant bits. -/
def nearest (x : ℝ) : ℝ := if 0 < x then nearPos x else if x < 0 then -nearPos (-x) else 0

theorem nearest_zero : nearest 0 = 0 := by simp [nearest]

theorem nearest_neg (x : ℝ) : nearest (-x) = -nearest x := by
  unfold nearest
  rcases lt_trichotomy x 0 with h | h | h
  · rw [if_pos (by linarith), if_neg (by linarith), if_pos h, neg_neg]
  · subst h; simp
  · rw [if_neg (by linarith), if_pos (by linarith), if_pos h, neg_neg]

theorem nearPos_near {x : ℝ} (h : 0 < x) : |nearPos x - x| ≤ 1 / 2 ^ 53 * x := by
  have e := scale_back 52 x
  have hp : (0 : ℝ) < 2 ^ (Int.log 2 x - (52 : ℕ)) := by positivity
  have k := halfEven_near (x * 2 ^ ((52 : ℕ) - Int.log 2 x))
  have h1 : nearPos x - x = ((halfEven (x * 2 ^ ((52 : ℕ) - Int.log 2 x)) : ℝ) - x * 2 ^ ((52 : ℕ) - Int.log 2 x)) *
      2 ^ (Int.log 2 x - (52 : ℕ)) := by
    rw [sub_mul, ← e]; rfl
  have h2 : (2 : ℝ) ^ (Int.log 2 x - (52 : ℕ)) ≤ x / 2 ^ 52 := by
    rw [zpow_sub₀ (by norm_num : (2 : ℝ) ≠ 0), zpow_natCast]
    gcongr
    exact (log_bounds h).1
  rw [h1, abs_mul, abs_of_pos hp]
  calc _ ≤ 1 / 2 * (x / 2 ^ 52) := by gcongr
    _ = _ := by ring

theorem nearest_near (x : ℝ) : |nearest x - x| ≤ 1 / 2 ^ 53 * |x| := by
  rcases lt_trichotomy x 0 with hx | hx | hx
  · have := nearPos_near (show 0 < -x by linarith)
    rw [nearest, if_neg (by linarith), if_pos hx, abs_of_neg hx, ← abs_neg]
    convert this using 2
    ring
  · subst hx; simp [nearest_zero]
  · rw [nearest, if_pos hx, abs_of_pos hx]; exact nearPos_near hx

theorem nearPos_fix (m : ℕ) (k : ℤ) (hm : 0 < m) (h : m < 2 ^ 53) : nearPos (m * 2 ^ k) = m * 2 ^ k := by
  have hx : (0 : ℝ) < m * 2 ^ k := by
    have : (0 : ℝ) < m := by exact_mod_cast hm
    positivity
  have hlt : Int.log 2 ((m : ℝ) * 2 ^ k) < 53 + k := by
    have h1 := (log_bounds hx).1
    have h2 : (m : ℝ) * 2 ^ k < 2 ^ ((53 : ℤ) + k) := by
      rw [zpow_add₀ (by norm_num : (2 : ℝ) ≠ 0) (53 : ℤ)]
      gcongr
      have : ((2 : ℝ) ^ (53 : ℤ)) = 2 ^ 53 := by norm_num
      rw [this]
      exact_mod_cast h
    exact (zpow_lt_zpow_iff_right₀ (by norm_num : (1 : ℝ) < 2)).1 (h1.trans_lt h2)
  obtain ⟨j, hj⟩ := Int.eq_ofNat_of_zero_le (show 0 ≤ k + ((52 : ℕ) - Int.log 2 ((m : ℝ) * 2 ^ k)) by push_cast; omega)
  have e : (m : ℝ) * 2 ^ k * 2 ^ ((52 : ℕ) - Int.log 2 ((m : ℝ) * 2 ^ k)) = ((m * 2 ^ j : ℕ) : ℤ) := by
    rw [mul_assoc, ← zpow_add₀ (by norm_num : (2 : ℝ) ≠ 0), hj]
    push_cast
    rw [zpow_natCast]
  unfold nearPos
  conv_rhs => rw [scale_back 52 ((m : ℝ) * 2 ^ k)]
  rw [e, halfEven_int]

/-- Numbers with at most 53 bits stay. -/
theorem nearest_fix (m : ℕ) (k : ℤ) (h : m ≤ 2 ^ 53) : nearest (m * 2 ^ k) = m * 2 ^ k := by
  rcases Nat.eq_zero_or_pos m with h0 | h0
  · subst h0; simp [nearest_zero]
  · have : (0 : ℝ) < m * 2 ^ k := by
      have : (0 : ℝ) < m := by exact_mod_cast h0
      positivity
    rw [nearest, if_pos this]
    rcases h.lt_or_eq with h | h
    · exact nearPos_fix m k h0 h
    · have e : (m : ℝ) * 2 ^ k = (1 : ℕ) * 2 ^ (53 + k) := by
        rw [h, zpow_add₀ (by norm_num : (2 : ℝ) ≠ 0)]
        norm_num
      rw [e]
      exact nearPos_fix 1 _ one_pos (by norm_num)

theorem nearPos_form {x : ℝ} (h : 0 < x) :
    ∃ m : ℕ, 2 ^ 52 ≤ m ∧ m ≤ 2 ^ 53 ∧ nearPos x = m * 2 ^ (Int.log 2 x - (52 : ℕ)) := by
  obtain ⟨h1, h2⟩ := scaled_bounds 52 h
  have f0 : ((2 ^ 52 : ℕ) : ℤ) ≤ halfEven (x * 2 ^ ((52 : ℕ) - Int.log 2 x)) := le_halfEven (by exact_mod_cast h1)
  have f1 : halfEven (x * 2 ^ ((52 : ℕ) - Int.log 2 x)) ≤ ((2 ^ 53 : ℕ) : ℤ) := halfEven_le (by exact_mod_cast h2.le)
  obtain ⟨m, hm⟩ := Int.eq_ofNat_of_zero_le (le_trans (by positivity) f0)
  refine ⟨m, ?_, ?_, ?_⟩
  · rw [hm] at f0; exact_mod_cast f0
  · rw [hm] at f1; exact_mod_cast f1
  · unfold nearPos
    rw [hm]
    push_cast
    rfl

theorem nearest_again (x : ℝ) : nearest (nearest x) = nearest x := by
  have key : ∀ x : ℝ, 0 < x → nearest (nearPos x) = nearPos x := by
    intro x hx
    obtain ⟨m, -, h2, e⟩ := nearPos_form hx
    rw [e]
    exact nearest_fix m _ h2
  rcases lt_trichotomy x 0 with hx | hx | hx
  · have e : nearest x = -nearPos (-x) := by rw [nearest, if_neg (by linarith), if_pos hx]
    rw [e, nearest_neg, key _ (by linarith)]
  · subst hx; simp [nearest_zero]
  · have e : nearest x = nearPos x := by rw [nearest, if_pos hx]
    rw [e, key _ hx]

theorem nearest_one {x : ℝ} (h : 1 ≤ x) : 1 ≤ nearest x := by
  have hx : 0 < x := by linarith
  obtain ⟨m, h1, -, e⟩ := nearPos_form hx
  rw [nearest, if_pos hx, e]
  have h1' : (2 : ℝ) ^ 52 ≤ m := by exact_mod_cast h1
  have hl : 0 ≤ Int.log 2 x := by
    rw [Int.log_of_one_le_right 2 h]; positivity
  calc (1 : ℝ) ≤ 2 ^ Int.log 2 x := one_le_zpow₀ (by norm_num) hl
    _ = 2 ^ 52 * 2 ^ (Int.log 2 x - (52 : ℕ)) := by
        rw [← zpow_natCast, ← zpow_add₀ (by norm_num : (2 : ℝ) ≠ 0)]
        congr 1
        ring
    _ ≤ _ := by gcongr

/-- Evaluation. -/
theorem nearest_eval {x : ℝ} (m : ℕ) (k : ℤ) (h1 : (2 : ℝ) ^ (52 + k) ≤ x) (h2 : x < 2 ^ (53 + k)) (h : |x - m * 2 ^ k| < 2 ^ k / 2) :
    nearest x = m * 2 ^ k := by
  have hk : (0 : ℝ) < 2 ^ k := by positivity
  have hx : 0 < x := lt_of_lt_of_le (by positivity) h1
  have hl : Int.log 2 x = 52 + k := by
    obtain ⟨l1, l2⟩ := log_bounds hx
    have a1 := (zpow_lt_zpow_iff_right₀ (by norm_num : (1 : ℝ) < 2)).1 (l1.trans_lt h2)
    have a2 := (zpow_lt_zpow_iff_right₀ (by norm_num : (1 : ℝ) < 2)).1 (h1.trans_lt l2)
    omega
  rw [nearest, if_pos hx, nearPos, hl]
  have e : ((52 : ℕ) : ℤ) - (52 + k) = -k := by push_cast; ring
  have e' : (52 + k) - ((52 : ℕ) : ℤ) = k := by push_cast; ring
  rw [e, e']
  congr 1
  have : halfEven (x * 2 ^ (-k)) = (m : ℤ) := by
    refine halfEven_eq ?_
    have : x * 2 ^ (-k) - ((m : ℤ) : ℝ) = (x - m * 2 ^ k) * 2 ^ (-k) := by
      rw [zpow_neg]
      field_simp
      push_cast
      ring
    rw [this, abs_mul, abs_of_pos (by positivity : (0 : ℝ) < 2 ^ (-k)), zpow_neg]
    rw [← div_eq_mul_inv, div_lt_iff₀ hk]
    linarith
  rw [this]
  push_cast
  rfl

/-- Evaluation of a tie. -/
theorem nearest_tie (m : ℕ) (k : ℤ) (hm : Even m) (h1 : 2 ^ 52 ≤ m) (h2 : m < 2 ^ 53) :
    nearest ((m + 1 / 2) * 2 ^ k) = m * 2 ^ k := by
  have hk : (0 : ℝ) < 2 ^ k := by positivity
  have h1' : (2 : ℝ) ^ 52 ≤ m := by exact_mod_cast h1
  have h2' : (m : ℝ) + 1 ≤ 2 ^ 53 := by exact_mod_cast h2
  have hx : (0 : ℝ) < (m + 1 / 2) * 2 ^ k := by positivity
  have hl : Int.log 2 (((m : ℝ) + 1 / 2) * 2 ^ k) = 52 + k := by
    obtain ⟨l1, l2⟩ := log_bounds hx
    have b1 : (2 : ℝ) ^ (52 + k) ≤ (m + 1 / 2) * 2 ^ k := by
      rw [zpow_add₀ (by norm_num : (2 : ℝ) ≠ 0)]
      gcongr
      have e : ((2 : ℝ) ^ (52 : ℤ)) = 2 ^ 52 := by norm_num
      rw [e]
      linarith
    have b2 : ((m : ℝ) + 1 / 2) * 2 ^ k < 2 ^ (53 + k) := by
      rw [zpow_add₀ (by norm_num : (2 : ℝ) ≠ 0)]
      gcongr
      have e : ((2 : ℝ) ^ (53 : ℤ)) = 2 ^ 53 := by norm_num
      rw [e]
      linarith
    have a1 := (zpow_lt_zpow_iff_right₀ (by norm_num : (1 : ℝ) < 2)).1 (l1.trans_lt b2)
    have a2 := (zpow_lt_zpow_iff_right₀ (by norm_num : (1 : ℝ) < 2)).1 (b1.trans_lt l2)
    omega
  rw [nearest, if_pos hx, nearPos, hl]
  have e : ((52 : ℕ) : ℤ) - (52 + k) = -k := by push_cast; ring
  have e' : (52 + k) - ((52 : ℕ) : ℤ) = k := by push_cast; ring
  rw [e, e', mul_assoc, ← zpow_add₀ (by norm_num : (2 : ℝ) ≠ 0), add_neg_cancel, zpow_zero, mul_one]
  have hm' : Even (m : ℤ) := by exact_mod_cast hm
  have := halfEven_tie hm'
  push_cast at this
  rw [this]
  push_cast
  rfl

/-- IEEE 754 binary64 with unbounded exponents and correctly rounded `exp` and `log`. -/
def ieee : Machine where
  rnd x := .fin (nearest x)
  rexp x := .fin (nearest (exp x))
  rlog x := .fin (nearest (log x))

theorem ieee_accurate : Accurate ieee (1 / 2 ^ 53) where
  nonneg := by positivity
  small := by norm_num
  rnd x := ⟨_, rfl, nearest_near x⟩
  again x y h := by
    have h' : Dbl.fin (nearest x) = .fin y := h
    rw [Dbl.fin_inj] at h'
    show Dbl.fin (nearest y) = .fin y
    rw [Dbl.fin_inj, ← h', nearest_again]
  one x y h1 h := by
    have h' : Dbl.fin (nearest x) = .fin y := h
    rw [Dbl.fin_inj] at h'
    rw [← h']
    exact nearest_one h1
  exp x := ⟨_, rfl, by have := nearest_near (exp x); rwa [abs_of_pos (Real.exp_pos x)] at this,
    fun h => nearest_one (Real.one_le_exp h)⟩
  log x _ := ⟨_, rfl, nearest_near (log x)⟩

theorem ieee_r (x : ℝ) : ieee.r x = nearest x := rfl
theorem ieee_e (x : ℝ) : ieee.e x = nearest (exp x) := rfl
theorem ieee_l (x : ℝ) : ieee.l x = nearest (log x) := rfl

end

end Slat.LnF
