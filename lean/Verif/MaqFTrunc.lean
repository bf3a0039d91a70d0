import Verif.MaqFRound
import Mathlib.Data.Int.Log

/-!
# A rounding: truncation to 53 and 24 significant bits

An instance of `Rounding`, so that theorems about every rounding speak of something other than exact arithmetic.  It is not the
rounding of the machine (which rounds to nearest and has bounded exponents).
-/

namespace Slat.MaqF

noncomputable section

/-- Truncation of a positive number to `p + 1` significant bits. -/
def truncPos (p : ℕ) (x : ℝ) : ℝ := (⌊x * 2 ^ ((p : ℤ) - Int.log 2 x)⌋ : ℝ) * 2 ^ (Int.log 2 x - p)

/-- Truncation to `p + 1` significant bits. -/
def trunc (p : ℕ) (x : ℝ) : ℝ := if 0 < x then truncPos p x else if x < 0 then -truncPos p (-x) else 0

/-- Numbers with `p + 1` significant bits. -/
def Short (p : ℕ) (x : ℝ) : Prop := ∃ (m : ℕ) (k : ℤ), m < 2 ^ (p + 1) ∧ (x = m * 2 ^ k ∨ x = -(m * 2 ^ k))

theorem log_bounds {x : ℝ} (h : 0 < x) : (2 : ℝ) ^ Int.log 2 x ≤ x ∧ x < 2 ^ (Int.log 2 x + 1) := by
  constructor
  · exact_mod_cast Int.zpow_log_le_self (b := 2) (by norm_num) h
  · exact_mod_cast Int.lt_zpow_succ_log_self (b := 2) (by norm_num) x

theorem scaled_bounds (p : ℕ) {x : ℝ} (h : 0 < x) :
    (2 : ℝ) ^ p ≤ x * 2 ^ ((p : ℤ) - Int.log 2 x) ∧ x * 2 ^ ((p : ℤ) - Int.log 2 x) < 2 ^ (p + 1) := by
  obtain ⟨h1, h2⟩ := log_bounds h
  have hp : (0 : ℝ) < 2 ^ ((p : ℤ) - Int.log 2 x) := by positivity
  constructor
  · calc (2 : ℝ) ^ p = 2 ^ Int.log 2 x * 2 ^ ((p : ℤ) - Int.log 2 x) := by
          rw [← zpow_add₀ (by norm_num : (2 : ℝ) ≠ 0), add_sub_cancel, zpow_natCast]
      _ ≤ _ := by gcongr
  · calc x * 2 ^ ((p : ℤ) - Int.log 2 x) < 2 ^ (Int.log 2 x + 1) * 2 ^ ((p : ℤ) - Int.log 2 x) := by gcongr
      _ = 2 ^ (p + 1) := by
          rw [← zpow_add₀ (by norm_num : (2 : ℝ) ≠ 0), ← zpow_natCast]
          congr 1
          push_cast
          ring

theorem truncPos_short (p : ℕ) {x : ℝ} (h : 0 < x) :
    ∃ m : ℕ, 2 ^ p ≤ m ∧ m < 2 ^ (p + 1) ∧ truncPos p x = m * 2 ^ (Int.log 2 x - p) := by
  obtain ⟨h1, h2⟩ := scaled_bounds p h
  have f0 : (2 ^ p : ℤ) ≤ ⌊x * 2 ^ ((p : ℤ) - Int.log 2 x)⌋ := by
    rw [Int.le_floor]
    push_cast
    exact h1
  have f1 : ⌊x * 2 ^ ((p : ℤ) - Int.log 2 x)⌋ < (2 ^ (p + 1) : ℤ) := by
    rw [Int.floor_lt]
    push_cast
    exact h2
  obtain ⟨m, hm⟩ := Int.eq_ofNat_of_zero_le (le_trans (by positivity) f0)
  refine ⟨m, ?_, ?_, ?_⟩
  · rw [hm] at f0; exact_mod_cast f0
  · rw [hm] at f1; exact_mod_cast f1
  · unfold truncPos
    rw [hm]
    push_cast
    rfl

theorem scale_back (p : ℕ) (x : ℝ) : x = x * 2 ^ ((p : ℤ) - Int.log 2 x) * 2 ^ (Int.log 2 x - p) := by
  rw [mul_assoc, ← zpow_add₀ (by norm_num : (2 : ℝ) ≠ 0)]
  simp

theorem truncPos_le (p : ℕ) {x : ℝ} : truncPos p x ≤ x := by
  conv_rhs => rw [scale_back p x]
  unfold truncPos
  gcongr
  exact Int.floor_le _

theorem le_truncPos (p : ℕ) {x : ℝ} (h : 0 < x) : (2 : ℝ) ^ Int.log 2 x ≤ truncPos p x := by
  obtain ⟨m, h1, -, e⟩ := truncPos_short p h
  rw [e]
  have h1' : (2 : ℝ) ^ p ≤ m := by exact_mod_cast h1
  calc (2 : ℝ) ^ Int.log 2 x = 2 ^ p * 2 ^ (Int.log 2 x - p) := by
        rw [← zpow_natCast, ← zpow_add₀ (by norm_num : (2 : ℝ) ≠ 0)]
        congr 1
        ring
    _ ≤ _ := by gcongr

theorem truncPos_pos (p : ℕ) {x : ℝ} (h : 0 < x) : 0 < truncPos p x := lt_of_lt_of_le (by positivity) (le_truncPos p h)

theorem truncPos_near (p : ℕ) {x : ℝ} (h : 0 < x) : x - truncPos p x ≤ 1 / 2 ^ p * x := by
  have e := scale_back p x
  have hf := Int.lt_floor_add_one (x * 2 ^ ((p : ℤ) - Int.log 2 x))
  have hp : (0 : ℝ) < 2 ^ (Int.log 2 x - p) := by positivity
  have : x - truncPos p x ≤ 2 ^ (Int.log 2 x - p) := by
    unfold truncPos
    nlinarith
  refine this.trans ?_
  rw [zpow_sub₀ (by norm_num : (2 : ℝ) ≠ 0), zpow_natCast, div_eq_mul_inv, mul_comm, one_div]
  gcongr
  exact (log_bounds h).1

theorem truncPos_mono (p : ℕ) {x y : ℝ} (hx : 0 < x) (h : x ≤ y) : truncPos p x ≤ truncPos p y := by
  have hy := hx.trans_le h
  have hl : Int.log 2 x ≤ Int.log 2 y := Int.log_mono_right hx h
  rcases hl.eq_or_lt with e | e
  · unfold truncPos
    rw [e]
    gcongr
  · calc truncPos p x ≤ x := truncPos_le p
      _ ≤ 2 ^ (Int.log 2 x + 1) := (log_bounds hx).2.le
      _ ≤ 2 ^ Int.log 2 y := zpow_le_zpow_right₀ (by norm_num) e
      _ ≤ truncPos p y := le_truncPos p hy

theorem truncPos_fix (p m : ℕ) (k : ℤ) (hm : 0 < m) (h : m < 2 ^ (p + 1)) : truncPos p (m * 2 ^ k) = m * 2 ^ k := by
  have hx : (0 : ℝ) < m * 2 ^ k := by
    have : (0 : ℝ) < m := by exact_mod_cast hm
    positivity
  have hlt : Int.log 2 ((m : ℝ) * 2 ^ k) < p + 1 + k := by
    have h1 := (log_bounds hx).1
    have h2 : (m : ℝ) * 2 ^ k < 2 ^ ((p : ℤ) + 1 + k) := by
      rw [zpow_add₀ (by norm_num : (2 : ℝ) ≠ 0) ((p : ℤ) + 1)]
      gcongr
      have : ((2 : ℝ) ^ ((p : ℤ) + 1)) = 2 ^ (p + 1) := by
        rw [← zpow_natCast]; push_cast; rfl
      rw [this]
      exact_mod_cast h
    exact (zpow_lt_zpow_iff_right₀ (by norm_num : (1 : ℝ) < 2)).1 (h1.trans_lt h2)
  obtain ⟨j, hj⟩ := Int.eq_ofNat_of_zero_le (show 0 ≤ k + (p - Int.log 2 ((m : ℝ) * 2 ^ k)) by omega)
  have e : (m : ℝ) * 2 ^ k * 2 ^ ((p : ℤ) - Int.log 2 ((m : ℝ) * 2 ^ k)) = ((m * 2 ^ j : ℕ) : ℤ) := by
    rw [mul_assoc, ← zpow_add₀ (by norm_num : (2 : ℝ) ≠ 0), hj]
    push_cast
    rw [zpow_natCast]
  unfold truncPos
  conv_rhs => rw [scale_back p ((m : ℝ) * 2 ^ k)]
  rw [e, Int.floor_intCast]

theorem trunc_zero (p : ℕ) : trunc p 0 = 0 := by simp [trunc]

theorem trunc_neg (p : ℕ) (x : ℝ) : trunc p (-x) = -trunc p x := by
  unfold trunc
  rcases lt_trichotomy x 0 with h | h | h
  · rw [if_pos (by linarith), if_neg (by linarith), if_pos h, neg_neg]
  · subst h; simp
  · rw [if_neg (by linarith), if_pos (by linarith), if_pos h, neg_neg]

theorem trunc_fix (p : ℕ) {x : ℝ} (h : Short p x) : trunc p x = x := by
  obtain ⟨m, k, hm, h⟩ := h
  have key : trunc p (m * 2 ^ k) = m * 2 ^ k := by
    rcases Nat.eq_zero_or_pos m with h0 | h0
    · subst h0; simp [trunc_zero]
    · have : (0 : ℝ) < m * 2 ^ k := by
        have : (0 : ℝ) < m := by exact_mod_cast h0
        positivity
      rw [trunc, if_pos this, truncPos_fix p m k h0 hm]
  rcases h with rfl | rfl
  · exact key
  · rw [trunc_neg, key]

theorem trunc_short (p : ℕ) (x : ℝ) : Short p (trunc p x) := by
  unfold trunc
  split
  · obtain ⟨m, -, h2, e⟩ := truncPos_short p ‹0 < x›
    exact ⟨m, _, h2, Or.inl e⟩
  split
  · obtain ⟨m, -, h2, e⟩ := truncPos_short p (show 0 < -x by linarith)
    exact ⟨m, _, h2, Or.inr (by rw [e])⟩
  · exact ⟨0, 0, by positivity, by simp⟩

theorem trunc_eq_iff (p : ℕ) (x : ℝ) : trunc p x = x ↔ Short p x :=
  ⟨fun h => h ▸ trunc_short p x, trunc_fix p⟩

theorem trunc_mono (p : ℕ) {x y : ℝ} (h : x ≤ y) : trunc p x ≤ trunc p y := by
  rcases lt_trichotomy x 0 with hx | hx | hx
  · have ex : trunc p x = -truncPos p (-x) := by rw [trunc, if_neg (by linarith), if_pos hx]
    have hn := truncPos_pos p (show 0 < -x by linarith)
    rcases lt_trichotomy y 0 with hy | hy | hy
    · have ey : trunc p y = -truncPos p (-y) := by rw [trunc, if_neg (by linarith), if_pos hy]
      rw [ex, ey, neg_le_neg_iff]
      exact truncPos_mono p (by linarith) (by linarith)
    · rw [hy, trunc_zero, ex]; linarith
    · have ey : trunc p y = truncPos p y := by rw [trunc, if_pos hy]
      have := truncPos_pos p hy
      rw [ex, ey]; linarith
  · rw [hx, trunc_zero]
    rcases (hx ▸ h).eq_or_lt with hy | hy
    · rw [← hy, trunc_zero]
    · rw [trunc, if_pos hy]; exact (truncPos_pos p hy).le
  · rw [trunc, if_pos hx, trunc, if_pos (hx.trans_le h)]
    exact truncPos_mono p hx h

theorem trunc_near (p : ℕ) (x : ℝ) : |trunc p x - x| ≤ 1 / 2 ^ p * |x| := by
  rcases lt_trichotomy x 0 with hx | hx | hx
  · have ex : trunc p x = -truncPos p (-x) := by rw [trunc, if_neg (by linarith), if_pos hx]
    have := truncPos_near p (show 0 < -x by linarith)
    have h2 := truncPos_le p (x := -x)
    rw [ex, abs_of_neg hx, abs_of_nonneg (by linarith)]
    linarith
  · subst hx; simp [trunc_zero]
  · have := truncPos_near p hx
    have h2 := truncPos_le p (x := x)
    rw [trunc, if_pos hx, abs_of_pos hx, abs_of_nonpos (by linarith)]
    linarith

theorem short_nat (p n : ℕ) (h : n ≤ 2 ^ (p + 1)) : Short p n := by
  rcases h.eq_or_lt with e | e
  · exact ⟨1, (p + 1 : ℕ), Nat.one_lt_two_pow (by omega), Or.inl (by rw [e, zpow_natCast]; push_cast; ring)⟩
  · exact ⟨n, 0, e, Or.inl (by simp)⟩

theorem short_pow (p : ℕ) (k : ℤ) : Short p (2 ^ k) := ⟨1, k, Nat.one_lt_two_pow (by omega), Or.inl (by simp)⟩

/-- Truncation of `double`s to 53 bits and of `float`s to 24 bits, with unbounded exponents. -/
def truncation : Rounding where
  rnd x := .fin (trunc 52 x)
  rnd32 x := .fin (trunc 23 x)
  mono x y h := (Dbl.fin_le _ _).2 (trunc_mono _ h)
  mono32 x y h := (Dbl.fin_le _ _).2 (trunc_mono _ h)
  idem x y h := by
    rw [Dbl.fin_inj] at h ⊢
    rw [← h]
    exact trunc_fix _ (trunc_short _ _)
  narrow x y h := by
    rw [Dbl.fin_inj] at h ⊢
    obtain ⟨m, k, hm, e⟩ := trunc_short 23 x
    rw [← h]
    exact trunc_fix _ ⟨m, k, hm.trans (by norm_num), e⟩
  nat n h := by rw [trunc_fix _ (short_nat 52 n h)]
  nat32 n h := by rw [trunc_fix _ (short_nat 23 n h)]
  pow32 k _ := by
    have := trunc_fix 23 (short_pow 23 k)
    rw [zpow_natCast] at this
    rw [this]
  half := by
    have := trunc_fix 52 (short_pow 52 (-1))
    have e : ((2 : ℝ) ^ (-1 : ℤ)) = 1 / 2 := by norm_num
    rw [e] at this
    rw [this]
  minus x h := by
    rw [Dbl.fin_inj] at h ⊢
    rw [trunc_neg, h]
  twice x _ _ h := by
    rw [Dbl.fin_inj] at h ⊢
    obtain ⟨m, k, hm, e⟩ := (trunc_eq_iff _ _).1 h
    refine trunc_fix _ ⟨m, k + 1, hm, ?_⟩
    rw [zpow_add_one₀ (by norm_num : (2 : ℝ) ≠ 0)]
    rcases e with e | e
    · exact Or.inl (by rw [e]; ring)
    · exact Or.inr (by rw [e]; ring)

/-- It does round. -/
theorem truncation_inexact : truncation.rnd (1 / 3) ≠ .fin (1 / 3) := by
  intro h
  have h' : trunc 52 (1 / 3) = 1 / 3 := by
    have : (Dbl.fin (trunc 52 (1 / 3))) = .fin (1 / 3) := h
    rwa [Dbl.fin_inj] at this
  obtain ⟨m, k, -, e⟩ := (trunc_eq_iff _ _).1 h'
  have e1 : (1 : ℝ) / 3 = m * 2 ^ k := by
    rcases e with e | e
    · exact e
    · have : (0 : ℝ) ≤ m * 2 ^ k := by positivity
      linarith
  have h3 : (1 : ℝ) = (m * 3) * 2 ^ k := by linarith
  obtain ⟨j, hj | hj⟩ := Int.eq_nat_or_neg k
  · rw [hj, zpow_natCast] at h3
    have : 1 = (m * 3) * 2 ^ j := by exact_mod_cast h3
    have h4 : 3 ∣ 1 := ⟨m * 2 ^ j, by rw [this]; ring⟩
    omega
  · rw [hj, zpow_neg, zpow_natCast] at h3
    have h4 : (2 : ℝ) ^ j = m * 3 := by field_simp at h3; linarith
    have h5 : 2 ^ j = m * 3 := by exact_mod_cast h4
    have h6 : 3 ∣ 2 ^ j := ⟨m, by rw [h5]; ring⟩
    have := Nat.Prime.dvd_of_dvd_pow Nat.prime_three h6
    omega

end

end Slat.MaqF
