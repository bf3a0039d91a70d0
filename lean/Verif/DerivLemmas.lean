import Verif.DerivModel
import Verif.LnFLemmas
import Mathlib.Analysis.Calculus.MeanValue

/-! Differences of smooth functions and the GSL's routines without rounding (helper file for C78). -/

namespace Slat.Deriv

open Dbl Set

noncomputable section

/-! ### Taylor estimates -/

/-- A function vanishing at 0 whose derivative is at most `C tⁿ`. -/
theorem grow {h C : ℝ} {g g' : ℝ → ℝ} (n : ℕ) (h0 : g 0 = 0) (hg : ∀ t ∈ Icc 0 h, HasDerivAt g (g' t) t)
    (hb : ∀ t ∈ Icc 0 h, |g' t| ≤ C * t ^ n) : ∀ t ∈ Icc 0 h, |g t| ≤ C / (n + 1) * t ^ (n + 1) := by
  intro t ht
  have hB : ∀ s, HasDerivAt (fun t : ℝ => C / (n + 1) * t ^ (n + 1)) (C * s ^ n) s := by
    intro s
    have h1 := (hasDerivAt_pow (n + 1) s).const_mul (C / (n + 1))
    refine h1.congr_deriv ?_
    have : ((n : ℝ) + 1) ≠ 0 := by positivity
    push_cast
    rw [← mul_assoc, div_mul_cancel₀ _ this]
  have key := image_norm_le_of_norm_deriv_right_le_deriv_boundary (f := g) (f' := g') (a := 0) (b := h)
    (B := fun t => C / (n + 1) * t ^ (n + 1)) (B' := fun s => C * s ^ n)
    (fun s hs => (hg s hs).continuousAt.continuousWithinAt)
    (fun s hs => (hg s (Ico_subset_Icc_self hs)).hasDerivWithinAt)
    (by simp [h0]) (fun s => hB s) (fun s hs => by simpa using hb s (Ico_subset_Icc_self hs))
  simpa using key ht

/-- The derivatives up to the fifth on `[x - h, x + h]`. -/
structure Smooth (F : ℕ → ℝ → ℝ) (n : ℕ) (x h : ℝ) : Prop where
  deriv : ∀ k < n, ∀ t ∈ Icc (x - h) (x + h), HasDerivAt (F k) (F (k + 1) t) t

theorem Smooth.mono {F : ℕ → ℝ → ℝ} {x h h' : ℝ} {m : ℕ} (hF : Smooth F m x h) (hh : h' ≤ h) : Smooth F m x h' :=
  ⟨fun k hk t ht => hF.deriv k hk t ⟨by linarith [ht.1], by linarith [ht.2]⟩⟩

/-- One side: derivative of `t ↦ G (x + σ t)`. -/
theorem shifted {G G' : ℝ → ℝ} {x t : ℝ} (σ : ℝ) (h : HasDerivAt G (G' (x + σ * t)) (x + σ * t)) :
    HasDerivAt (fun s => G (x + σ * s)) (σ * G' (x + σ * t)) t := by
  have h1 : HasDerivAt (fun s => x + σ * s) σ t := by
    have := ((hasDerivAt_id t).const_mul σ).const_add x
    simpa using this
  have := h.comp t h1
  rwa [mul_comm] at this

/-- The odd part of a function with five derivatives. -/
theorem odd_part {F : ℕ → ℝ → ℝ} {x h K : ℝ} (hF : Smooth F 5 x h) (hK : ∀ t ∈ Icc (x - h) (x + h), |F 5 t| ≤ K) :
    ∀ t ∈ Icc 0 h, |F 0 (x + t) - F 0 (x - t) - 2 * t * F 1 x - t ^ 3 / 3 * F 3 x| ≤ K / 60 * t ^ 5 := by
  have inn : ∀ t ∈ Icc 0 h, x + 1 * t ∈ Icc (x - h) (x + h) ∧ x + (-1) * t ∈ Icc (x - h) (x + h) := fun t ht =>
    ⟨⟨by linarith [ht.1, ht.2], by linarith [ht.1, ht.2]⟩, ⟨by linarith [ht.1, ht.2], by linarith [ht.1, ht.2]⟩⟩
  have d : ∀ k < 5, ∀ t ∈ Icc 0 h, HasDerivAt (fun s => F k (x + 1 * s)) (1 * F (k + 1) (x + 1 * t)) t ∧
      HasDerivAt (fun s => F k (x + (-1) * s)) (-1 * F (k + 1) (x + (-1) * t)) t := fun k hk t ht =>
    ⟨shifted 1 (hF.deriv k hk _ (inn t ht).1), shifted (-1) (hF.deriv k hk _ (inn t ht).2)⟩
  -- fourth
  have g4 := grow (h := h) (C := 2 * K) (g := fun t => F 4 (x + 1 * t) - F 4 (x + (-1) * t))
    (g' := fun t => 1 * F 5 (x + 1 * t) - -1 * F 5 (x + (-1) * t)) 0 (by simp)
    (fun t ht => (d 4 (by norm_num) t ht).1.sub (d 4 (by norm_num) t ht).2)
    (fun t ht => by
      have h1 := abs_le.1 (hK _ (inn t ht).1)
      have h2 := abs_le.1 (hK _ (inn t ht).2)
      rw [pow_zero, mul_one, abs_le]
      constructor <;> linarith [h1.1, h1.2, h2.1, h2.2])
  -- third
  have g3 := grow (h := h) (C := 2 * K) (g := fun t => F 3 (x + 1 * t) + F 3 (x + (-1) * t) - 2 * F 3 x)
    (g' := fun t => 1 * F 4 (x + 1 * t) + -1 * F 4 (x + (-1) * t)) 1 (by simp; ring)
    (fun t ht => by
      have := ((d 3 (by norm_num) t ht).1.add (d 3 (by norm_num) t ht).2).sub_const (2 * F 3 x)
      exact this)
    (fun t ht => by
      have := g4 t ht
      rw [show 1 * F 4 (x + 1 * t) + -1 * F 4 (x + (-1) * t) = F 4 (x + 1 * t) - F 4 (x + (-1) * t) by ring]
      refine this.trans_eq ?_
      norm_num)
  -- second
  have g2 := grow (h := h) (C := K) (g := fun t => F 2 (x + 1 * t) - F 2 (x + (-1) * t) - 2 * F 3 x * t)
    (g' := fun t => 1 * F 3 (x + 1 * t) - -1 * F 3 (x + (-1) * t) - 2 * F 3 x * 1) 2 (by simp)
    (fun t ht => ((d 2 (by norm_num) t ht).1.sub (d 2 (by norm_num) t ht).2).sub ((hasDerivAt_id t).const_mul (2 * F 3 x)))
    (fun t ht => by
      have := g3 t ht
      rw [show 1 * F 3 (x + 1 * t) - -1 * F 3 (x + (-1) * t) - 2 * F 3 x * 1 = F 3 (x + 1 * t) + F 3 (x + (-1) * t) - 2 * F 3 x by ring]
      refine this.trans_eq ?_
      norm_num)
  -- first
  have g1 := grow (h := h) (C := K / 3) (g := fun t => F 1 (x + 1 * t) + F 1 (x + (-1) * t) - 2 * F 1 x - F 3 x * t ^ 2)
    (g' := fun t => 1 * F 2 (x + 1 * t) + -1 * F 2 (x + (-1) * t) - F 3 x * (2 * t)) 3 (by simp; ring)
    (fun t ht => by
      have h2 : HasDerivAt (fun t : ℝ => F 3 x * t ^ 2) (F 3 x * (2 * t)) t := by
        have := (hasDerivAt_pow 2 t).const_mul (F 3 x)
        simpa using this
      exact (((d 1 (by norm_num) t ht).1.add (d 1 (by norm_num) t ht).2).sub_const (2 * F 1 x)).sub h2)
    (fun t ht => by
      have := g2 t ht
      rw [show 1 * F 2 (x + 1 * t) + -1 * F 2 (x + (-1) * t) - F 3 x * (2 * t) = F 2 (x + 1 * t) - F 2 (x + (-1) * t) - 2 * F 3 x * t by ring]
      refine this.trans_eq ?_
      norm_num)
  have g0 := grow (h := h) (C := K / 12) (g := fun t => F 0 (x + 1 * t) - F 0 (x + (-1) * t) - 2 * F 1 x * t - F 3 x / 3 * t ^ 3)
    (g' := fun t => 1 * F 1 (x + 1 * t) - -1 * F 1 (x + (-1) * t) - 2 * F 1 x * 1 - F 3 x / 3 * (3 * t ^ 2)) 4 (by simp)
    (fun t ht => by
      have h2 : HasDerivAt (fun t : ℝ => F 3 x / 3 * t ^ 3) (F 3 x / 3 * (3 * t ^ 2)) t := by
        have := (hasDerivAt_pow 3 t).const_mul (F 3 x / 3)
        simpa using this
      exact (((d 0 (by norm_num) t ht).1.sub (d 0 (by norm_num) t ht).2).sub ((hasDerivAt_id t).const_mul (2 * F 1 x))).sub h2)
    (fun t ht => by
      have := g1 t ht
      rw [show 1 * F 1 (x + 1 * t) - -1 * F 1 (x + (-1) * t) - 2 * F 1 x * 1 - F 3 x / 3 * (3 * t ^ 2) =
        F 1 (x + 1 * t) + F 1 (x + (-1) * t) - 2 * F 1 x - F 3 x * t ^ 2 by ring]
      refine this.trans_eq ?_
      push_cast
      ring)
  intro t ht
  have := g0 t ht
  rw [show x + t = x + 1 * t by ring, show x - t = x + (-1) * t by ring,
    show F 0 (x + 1 * t) - F 0 (x + (-1) * t) - 2 * t * F 1 x - t ^ 3 / 3 * F 3 x =
      F 0 (x + 1 * t) - F 0 (x + (-1) * t) - 2 * F 1 x * t - F 3 x / 3 * t ^ 3 by ring]
  refine this.trans_eq ?_
  push_cast
  ring

/-- The five-point quotient. -/
def quot (F : ℝ → ℝ) (x h : ℝ) : ℝ := (8 * (F (x + h / 2) - F (x - h / 2)) - (F (x + h) - F (x - h))) / (6 * h)

theorem quot_near {F : ℕ → ℝ → ℝ} {x h K : ℝ} (h0 : 0 < h) (hF : Smooth F 5 x h) (hK : ∀ t ∈ Icc (x - h) (x + h), |F 5 t| ≤ K) :
    |quot (F 0) x h - F 1 x| ≤ K / 288 * h ^ 4 := by
  have h1 := abs_le.1 (odd_part hF hK h ⟨h0.le, le_rfl⟩)
  have h2 := abs_le.1 (odd_part hF hK (h / 2) ⟨by linarith, by linarith⟩)
  have e : quot (F 0) x h - F 1 x = (8 * (F 0 (x + h / 2) - F 0 (x - h / 2) - 2 * (h / 2) * F 1 x - (h / 2) ^ 3 / 3 * F 3 x) -
      (F 0 (x + h) - F 0 (x - h) - 2 * h * F 1 x - h ^ 3 / 3 * F 3 x)) / (6 * h) := by
    rw [quot]
    field_simp
    ring
  rw [e, abs_div, abs_of_pos (by linarith : 0 < 6 * h), div_le_iff₀ (by linarith), abs_le]
  constructor <;> nlinarith [h1.1, h1.2, h2.1, h2.2]

/-! ### Without rounding -/

variable {L : Lib}

theorem Exact.fix (hL : Exact L) (v : Dbl) : L.fix v = v := by
  cases v <;> simp [LnF.Machine.fix, hL.rnd]

theorem Exact.add (hL : Exact L) (a b : Dbl) : L.add a b = a + b := hL.fix _
theorem Exact.sub (hL : Exact L) (a b : Dbl) : L.sub a b = a - b := hL.fix _
theorem Exact.mul (hL : Exact L) (a b : Dbl) : L.mul a b = a * b := hL.fix _
theorem Exact.div (hL : Exact L) (a b : Dbl) : L.div a b = a / b := hL.fix _

/-- `f` takes the finite values `F` on `[x - h, x + h]`. -/
def Values (f : Dbl → Dbl) (F : ℝ → ℝ) (x h : ℝ) : Prop := ∀ t ∈ Icc (x - h) (x + h), f (.fin t) = .fin (F t)

theorem Values.mono {f : Dbl → Dbl} {F : ℝ → ℝ} {x h h' : ℝ} (hf : Values f F x h) (hh : h' ≤ h) : Values f F x h' :=
  fun t ht => hf t ⟨by linarith [ht.1], by linarith [ht.2]⟩

theorem gslMax_fin (a b : ℝ) : Lib.gslMax (.fin a) (.fin b) = .fin (max a b) := by
  unfold Lib.gslMax
  by_cases h : b < a
  · rw [if_pos ((fin_lt b a).2 h), max_eq_left h.le]
  · rw [if_neg (mt (fin_lt b a).1 h), max_eq_right (not_lt.1 h)]

theorem central_parts (hL : Exact L) {f : Dbl → Dbl} {F : ℝ → ℝ} {x h : ℝ} (h0 : 0 < h) (hf : Values f F x h) :
    L.centralResult f (.fin x) (.fin h) = .fin (quot F x h) ∧ (∃ r, L.centralRound f (.fin x) (.fin h) = .fin r) ∧
      ∃ t, L.centralTrunc f (.fin x) (.fin h) = .fin t := by
  have hn : h ≠ 0 := h0.ne'
  have e1 : f (.fin (x + h)) = .fin (F (x + h)) := hf _ ⟨by linarith, by linarith⟩
  have e2 : f (.fin (x - h)) = .fin (F (x - h)) := hf _ ⟨by linarith, by linarith⟩
  have e3 : f (.fin (x + h / 2)) = .fin (F (x + h / 2)) := hf _ ⟨by linarith, by linarith⟩
  have e4 : f (.fin (x - h / 2)) = .fin (F (x - h / 2)) := hf _ ⟨by linarith, by linarith⟩
  have k3 : L.r3 f (.fin x) (.fin h) = .fin (1 / 2 * (F (x + h) - F (x - h))) := by
    simp only [Lib.r3, hL.add, hL.sub, hL.mul, fin_add, fin_sub, fin_mul, e1, e2]
  have two : (2 : ℝ) ≠ 0 := two_ne_zero
  have three : (3 : ℝ) ≠ 0 := three_ne_zero
  have k5 : L.r5 f (.fin x) (.fin h) =
      .fin (4 / 3 * (F (x + h / 2) - F (x - h / 2)) - 1 / 3 * (1 / 2 * (F (x + h) - F (x - h)))) := by
    simp only [Lib.r5, hL.add, hL.sub, hL.mul, hL.div, one_def, fin_div_of_ne two, fin_div_of_ne three, fin_add, fin_sub, fin_mul, e3,
      e4, k3]
  refine ⟨?_, ?_, ?_⟩
  · rw [Lib.centralResult, k5, hL.div, fin_div_of_ne hn, fin_inj, quot]
    field_simp
    ring
  · simp only [Lib.centralRound, Lib.e5, Lib.e3, Lib.dy, hL.add, hL.sub, hL.mul, hL.div, k3, k5, fin_div_of_ne two, fin_div_of_ne hn, fin_add,
      fin_sub, fin_mul, e1, e2, e3, e4, abs_fin, gslMax_fin, Lib.epsilon]
    exact ⟨_, rfl⟩
  · simp only [Lib.centralTrunc, hL.sub, hL.div, k3, k5, fin_sub, fin_div_of_ne hn, abs_fin]
    exact ⟨_, rfl⟩

/-- The result is the five-point quotient for some step that is not larger. -/
theorem central_exact (hL : Exact L) {f : Dbl → Dbl} {F : ℝ → ℝ} {x h : ℝ} (h0 : 0 < h) (hf : Values f F x h) :
    ∃ h', 0 < h' ∧ h' ≤ h ∧ L.central (.fin h) f (.fin x) = .fin (quot F x h') := by
  obtain ⟨k1, ⟨r, k2⟩, ⟨t, k3⟩⟩ := central_parts hL h0 hf
  rw [Lib.central, Lib.choose]
  split
  · rename_i hc
    rw [k2, k3, fin_lt, zero_def, fin_lt, fin_lt] at hc
    obtain ⟨⟨c1, c2, c3⟩, -⟩ := hc
    have hy : 0 < r / (2 * t) := by positivity
    have hy1 : r / (2 * t) < 1 := by rw [div_lt_one (by positivity)]; linarith
    obtain ⟨p, e, p0, p1⟩ := hL.cube _ hy hy1
    have e' : L.mul (.fin h) (L.pow3 (L.div (L.centralRound f (.fin x) (.fin h)) (L.mul (.fin 2) (L.centralTrunc f (.fin x) (.fin h))))) =
        .fin (h * p) := by
      rw [k2, k3, hL.mul, hL.mul, hL.div, fin_mul, fin_div_of_ne (by positivity : 2 * t ≠ 0), Lib.pow3, e, fin_mul]
    refine ⟨h * p, by positivity, by nlinarith, ?_⟩
    rw [e']
    exact (central_parts hL (by positivity) (hf.mono (by nlinarith))).1
  · exact ⟨h, h0, le_rfl, k1⟩

/-- The result away from the second step: with a NaN among the results nothing is chosen. -/
theorem choose_nan (r round trunc r' round' trunc' : Dbl) (h : round = .nan) : L.choose r round trunc r' round' trunc' = r := by
  rw [Lib.choose, if_neg]
  rintro ⟨⟨h1, -⟩, -⟩
  rw [h] at h1
  exact not_nan_lt _ h1

/-! ### One-sided differences -/

/-- The four-point quotient of `forward_deriv`. -/
def fquot (F : ℝ → ℝ) (x h : ℝ) : ℝ :=
  (22 * (F (x + h) - F (x + 3 / 4 * h)) - 62 * (F (x + 3 / 4 * h) - F (x + h / 2)) + 52 * (F (x + h / 2) - F (x + h / 4))) / (3 * h)

/-- The points between `x` and `x + h`. -/
def between (x h : ℝ) : Set ℝ := {t | ∃ s ∈ Icc (0 : ℝ) 1, t = x + s * h}

/-- The derivatives up to the `n`-th between `x` and `x + h`. -/
def SmoothTo (F : ℕ → ℝ → ℝ) (n : ℕ) (x h : ℝ) : Prop := ∀ k < n, ∀ t ∈ between x h, HasDerivAt (F k) (F (k + 1) t) t

theorem between_mono {x h p : ℝ} (p0 : 0 ≤ p) (p1 : p ≤ 1) : between x (h * p) ⊆ between x h := by
  rintro t ⟨s, hs, rfl⟩
  exact ⟨s * p, ⟨mul_nonneg hs.1 p0, by nlinarith [hs.1, hs.2]⟩, by ring⟩

theorem one_side {F : ℕ → ℝ → ℝ} {x h K : ℝ} (hF : SmoothTo F 4 x h) (hK : ∀ t ∈ between x h, |F 4 t| ≤ K) :
    ∀ s ∈ Icc (0 : ℝ) 1, |F 0 (x + s * h) - F 0 x - s * h * F 1 x - (s * h) ^ 2 / 2 * F 2 x - (s * h) ^ 3 / 6 * F 3 x| ≤
      K * h ^ 4 / 24 * s ^ 4 := by
  have inn : ∀ s ∈ Icc (0 : ℝ) 1, x + h * s ∈ between x h := fun s hs => ⟨s, hs, by ring⟩
  have d : ∀ k < 4, ∀ s ∈ Icc (0 : ℝ) 1, HasDerivAt (fun s => F k (x + h * s)) (h * F (k + 1) (x + h * s)) s := fun k hk s hs =>
    shifted h (hF k hk _ (inn s hs))
  have g3 := grow (h := 1) (C := K * |h|) (g := fun s => F 3 (x + h * s) - F 3 x) (g' := fun s => h * F 4 (x + h * s)) 0 (by simp)
    (fun s hs => (d 3 (by norm_num) s hs).sub_const _)
    (fun s hs => by
      rw [abs_mul, pow_zero, mul_one, mul_comm]
      exact mul_le_mul_of_nonneg_right (hK _ (inn s hs)) (abs_nonneg h))
  have g2 := grow (h := 1) (C := K * |h| ^ 2) (g := fun s => F 2 (x + h * s) - F 2 x - h * F 3 x * s)
    (g' := fun s => h * F 3 (x + h * s) - h * F 3 x * 1) 1 (by simp)
    (fun s hs => ((d 2 (by norm_num) s hs).sub_const _).sub ((hasDerivAt_id s).const_mul _))
    (fun s hs => by
      rw [show h * F 3 (x + h * s) - h * F 3 x * 1 = h * (F 3 (x + h * s) - F 3 x) by ring, abs_mul]
      refine (mul_le_mul_of_nonneg_left (g3 s hs) (abs_nonneg h)).trans_eq ?_
      push_cast
      ring)
  have g1 := grow (h := 1) (C := K * |h| ^ 3 / 2) (g := fun s => F 1 (x + h * s) - F 1 x - h * F 2 x * s - h ^ 2 * F 3 x / 2 * s ^ 2)
    (g' := fun s => h * F 2 (x + h * s) - h * F 2 x * 1 - h ^ 2 * F 3 x / 2 * (2 * s)) 2 (by simp)
    (fun s hs => by
      have h2 : HasDerivAt (fun t : ℝ => h ^ 2 * F 3 x / 2 * t ^ 2) (h ^ 2 * F 3 x / 2 * (2 * s)) s := by
        simpa using (hasDerivAt_pow 2 s).const_mul (h ^ 2 * F 3 x / 2)
      exact (((d 1 (by norm_num) s hs).sub_const _).sub ((hasDerivAt_id s).const_mul _)).sub h2)
    (fun s hs => by
      rw [show h * F 2 (x + h * s) - h * F 2 x * 1 - h ^ 2 * F 3 x / 2 * (2 * s) = h * (F 2 (x + h * s) - F 2 x - h * F 3 x * s) by ring, abs_mul]
      refine (mul_le_mul_of_nonneg_left (g2 s hs) (abs_nonneg h)).trans_eq ?_
      push_cast
      ring)
  have g0 := grow (h := 1) (C := K * |h| ^ 4 / 6)
    (g := fun s => F 0 (x + h * s) - F 0 x - h * F 1 x * s - h ^ 2 * F 2 x / 2 * s ^ 2 - h ^ 3 * F 3 x / 6 * s ^ 3)
    (g' := fun s => h * F 1 (x + h * s) - h * F 1 x * 1 - h ^ 2 * F 2 x / 2 * (2 * s) - h ^ 3 * F 3 x / 6 * (3 * s ^ 2)) 3 (by simp)
    (fun s hs => by
      have h2 : HasDerivAt (fun t : ℝ => h ^ 2 * F 2 x / 2 * t ^ 2) (h ^ 2 * F 2 x / 2 * (2 * s)) s := by
        simpa using (hasDerivAt_pow 2 s).const_mul (h ^ 2 * F 2 x / 2)
      have h3 : HasDerivAt (fun t : ℝ => h ^ 3 * F 3 x / 6 * t ^ 3) (h ^ 3 * F 3 x / 6 * (3 * s ^ 2)) s := by
        simpa using (hasDerivAt_pow 3 s).const_mul (h ^ 3 * F 3 x / 6)
      exact ((((d 0 (by norm_num) s hs).sub_const _).sub ((hasDerivAt_id s).const_mul _)).sub h2).sub h3)
    (fun s hs => by
      rw [show h * F 1 (x + h * s) - h * F 1 x * 1 - h ^ 2 * F 2 x / 2 * (2 * s) - h ^ 3 * F 3 x / 6 * (3 * s ^ 2) =
        h * (F 1 (x + h * s) - F 1 x - h * F 2 x * s - h ^ 2 * F 3 x / 2 * s ^ 2) by ring, abs_mul]
      refine (mul_le_mul_of_nonneg_left (g1 s hs) (abs_nonneg h)).trans_eq ?_
      push_cast
      ring)
  intro s hs
  have := g0 s hs
  rw [show s * h = h * s by ring, show F 0 (x + h * s) - F 0 x - h * s * F 1 x - (h * s) ^ 2 / 2 * F 2 x - (h * s) ^ 3 / 6 * F 3 x =
    F 0 (x + h * s) - F 0 x - h * F 1 x * s - h ^ 2 * F 2 x / 2 * s ^ 2 - h ^ 3 * F 3 x / 6 * s ^ 3 by ring]
  refine this.trans_eq ?_
  have : |h| ^ 4 = h ^ 4 := by rw [show (4 : ℕ) = 2 * 2 from rfl, pow_mul, sq_abs, ← pow_mul]
  push_cast
  rw [this]
  ring

theorem fquot_near {F : ℕ → ℝ → ℝ} {x h K : ℝ} (h0 : h ≠ 0) (hF : SmoothTo F 4 x h) (hK : ∀ t ∈ between x h, |F 4 t| ≤ K) :
    |fquot (F 0) x h - F 1 x| ≤ 4 / 5 * K * |h| ^ 3 := by
  have k := one_side hF hK
  have K0 : 0 ≤ K := (abs_nonneg _).trans (hK x ⟨0, by norm_num, by ring⟩)
  have e1 := abs_le.1 (k (1 / 4) (by norm_num))
  have e2 := abs_le.1 (k (1 / 2) (by norm_num))
  have e3 := abs_le.1 (k (3 / 4) (by norm_num))
  have e4 := abs_le.1 (k 1 (by norm_num))
  rw [show x + 1 / 4 * h = x + h / 4 by ring] at e1
  rw [show x + 1 / 2 * h = x + h / 2 by ring] at e2
  rw [one_mul] at e4
  have e : fquot (F 0) x h - F 1 x = (22 * (F 0 (x + h) - F 0 x - h * F 1 x - h ^ 2 / 2 * F 2 x - h ^ 3 / 6 * F 3 x)
      - 84 * (F 0 (x + 3 / 4 * h) - F 0 x - 3 / 4 * h * F 1 x - (3 / 4 * h) ^ 2 / 2 * F 2 x - (3 / 4 * h) ^ 3 / 6 * F 3 x)
      + 114 * (F 0 (x + h / 2) - F 0 x - 1 / 2 * h * F 1 x - (1 / 2 * h) ^ 2 / 2 * F 2 x - (1 / 2 * h) ^ 3 / 6 * F 3 x)
      - 52 * (F 0 (x + h / 4) - F 0 x - 1 / 4 * h * F 1 x - (1 / 4 * h) ^ 2 / 2 * F 2 x - (1 / 4 * h) ^ 3 / 6 * F 3 x)) / (3 * h) := by
    rw [fquot]
    field_simp
    ring
  have hp : 0 < |h| := abs_pos.2 h0
  have h4 : h ^ 4 = |h| ^ 3 * |h| := by
    rw [← pow_succ, show (3 + 1 : ℕ) = 2 * 2 from rfl, pow_mul, sq_abs, ← pow_mul]
  have hq : 0 ≤ K * h ^ 4 := by positivity
  rw [e, abs_div, abs_mul, abs_of_pos (by norm_num : (0 : ℝ) < 3), div_le_iff₀ (by positivity), show 4 / 5 * K * |h| ^ 3 * (3 * |h|) = 12 / 5 * (K * h ^ 4) by rw [h4]; ring,
    abs_le]
  constructor <;> linarith [e1.1, e1.2, e2.1, e2.2, e3.1, e3.2, e4.1, e4.2]

theorem forward_parts (hL : Exact L) {f : Dbl → Dbl} {F : ℝ → ℝ} {x h : ℝ} (h0 : h ≠ 0) (hf : ∀ t ∈ between x h, f (.fin t) = .fin (F t)) :
    L.forwardResult f (.fin x) (.fin h) = .fin (fquot F x h) ∧ (∃ r, L.forwardRound f (.fin x) (.fin h) = .fin r) ∧
      ∃ t, L.forwardTrunc f (.fin x) (.fin h) = .fin t := by
  have two : (2 : ℝ) ≠ 0 := two_ne_zero
  have three : (3 : ℝ) ≠ 0 := three_ne_zero
  have four : (4 : ℝ) ≠ 0 := four_ne_zero
  have e1 : L.f1 f (.fin x) (.fin h) = .fin (F (x + h / 4)) := by
    rw [Lib.f1, hL.add, hL.div, fin_div_of_ne four, fin_add]; exact hf _ ⟨1 / 4, by norm_num, by ring⟩
  have e2 : L.f2 f (.fin x) (.fin h) = .fin (F (x + h / 2)) := by
    rw [Lib.f2, hL.add, hL.div, fin_div_of_ne two, fin_add]; exact hf _ ⟨1 / 2, by norm_num, by ring⟩
  have e3 : L.f3 f (.fin x) (.fin h) = .fin (F (x + 3 / 4 * h)) := by
    rw [Lib.f3, hL.add, hL.div, hL.mul, fin_div_of_ne four, fin_mul, fin_add]; exact hf _ ⟨3 / 4, by norm_num, by ring⟩
  have e4 : L.f4 f (.fin x) (.fin h) = .fin (F (x + h)) := by
    rw [Lib.f4, hL.add, fin_add]; exact hf _ ⟨1, by norm_num, by ring⟩
  have k2 : L.r2 f (.fin x) (.fin h) = .fin (2 * (F (x + h) - F (x + h / 2))) := by
    rw [Lib.r2, e4, e2, hL.sub, hL.mul, fin_sub, fin_mul]
  have k4 : L.r4 f (.fin x) (.fin h) = .fin (22 / 3 * (F (x + h) - F (x + 3 / 4 * h)) - 62 / 3 * (F (x + 3 / 4 * h) - F (x + h / 2)) +
      52 / 3 * (F (x + h / 2) - F (x + h / 4))) := by
    simp only [Lib.r4, e1, e2, e3, e4, hL.add, hL.sub, hL.mul, hL.div, fin_div_of_ne three, fin_add, fin_sub, fin_mul]
  refine ⟨?_, ?_, ?_⟩
  · rw [Lib.forwardResult, k4, hL.div, fin_div_of_ne h0, fin_inj, fquot]
    field_simp
  · simp only [Lib.forwardRound, Lib.e4, Lib.dyF, hL.add, hL.sub, hL.mul, hL.div, k2, k4, e1, e2, e3, e4, fin_div_of_ne h0, fin_add, fin_sub,
      fin_mul, abs_fin, gslMax_fin, Lib.epsilon]
    exact ⟨_, rfl⟩
  · simp only [Lib.forwardTrunc, hL.sub, hL.div, k2, k4, fin_sub, fin_div_of_ne h0, abs_fin]
    exact ⟨_, rfl⟩

theorem forward_exact (hL : Exact L) {f : Dbl → Dbl} {F : ℝ → ℝ} {x h : ℝ} (h0 : h ≠ 0) (hf : ∀ t ∈ between x h, f (.fin t) = .fin (F t)) :
    ∃ p, 0 < p ∧ p ≤ 1 ∧ L.forward (.fin h) f (.fin x) = .fin (fquot F x (h * p)) := by
  obtain ⟨k1, ⟨r, k2⟩, ⟨t, k3⟩⟩ := forward_parts hL h0 hf
  rw [Lib.forward, Lib.choose]
  split
  · rename_i hc
    rw [k2, k3, fin_lt, zero_def, fin_lt, fin_lt] at hc
    obtain ⟨⟨c1, c2, c3⟩, -⟩ := hc
    have hy : 0 < r / t := by positivity
    have hy1 : r / t < 1 := by rw [div_lt_one (by positivity)]; linarith
    obtain ⟨p, e, p0, p1⟩ := hL.square _ hy hy1
    have e' : L.mul (.fin h) (L.pow2 (L.div (L.forwardRound f (.fin x) (.fin h)) (L.forwardTrunc f (.fin x) (.fin h)))) = .fin (h * p) := by
      rw [k2, k3, hL.mul, hL.div, fin_div_of_ne (by positivity : t ≠ 0), Lib.pow2, e, fin_mul]
    refine ⟨p, p0, p1, ?_⟩
    rw [e']
    exact (forward_parts hL (mul_ne_zero h0 p0.ne') fun t ht => hf t (between_mono p0.le p1 ht)).1
  · exact ⟨1, one_pos, le_rfl, by rw [mul_one]; exact k1⟩

end

end Slat.Deriv
