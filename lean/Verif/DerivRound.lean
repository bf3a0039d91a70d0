import Verif.DerivLemmas
import Verif.LnFRound

/-! The GSL's central differences with rounding (helper file for C78). -/

namespace Slat.Deriv

open Dbl Set LnF

noncomputable section

/-- The odd part of a function with three derivatives. -/
theorem odd_part3 {F : ℕ → ℝ → ℝ} {x h K : ℝ} (hF : Smooth F 3 x h) (hK : ∀ t ∈ Icc (x - h) (x + h), |F 3 t| ≤ K) :
    ∀ t ∈ Icc 0 h, |F 0 (x + t) - F 0 (x - t) - 2 * t * F 1 x| ≤ K / 3 * t ^ 3 := by
  have inn : ∀ t ∈ Icc 0 h, x + 1 * t ∈ Icc (x - h) (x + h) ∧ x + (-1) * t ∈ Icc (x - h) (x + h) := fun t ht =>
    ⟨⟨by linarith [ht.1, ht.2], by linarith [ht.1, ht.2]⟩, ⟨by linarith [ht.1, ht.2], by linarith [ht.1, ht.2]⟩⟩
  have d : ∀ k < 3, ∀ t ∈ Icc 0 h, HasDerivAt (fun s => F k (x + 1 * s)) (1 * F (k + 1) (x + 1 * t)) t ∧
      HasDerivAt (fun s => F k (x + (-1) * s)) (-1 * F (k + 1) (x + (-1) * t)) t := fun k hk t ht =>
    ⟨shifted 1 (hF.deriv k hk _ (inn t ht).1), shifted (-1) (hF.deriv k hk _ (inn t ht).2)⟩
  have g2 := grow (h := h) (C := 2 * K) (g := fun t => F 2 (x + 1 * t) - F 2 (x + (-1) * t))
    (g' := fun t => 1 * F 3 (x + 1 * t) - -1 * F 3 (x + (-1) * t)) 0 (by simp)
    (fun t ht => (d 2 (by norm_num) t ht).1.sub (d 2 (by norm_num) t ht).2)
    (fun t ht => by
      have h1 := abs_le.1 (hK _ (inn t ht).1)
      have h2 := abs_le.1 (hK _ (inn t ht).2)
      rw [pow_zero, mul_one, abs_le]
      constructor <;> linarith [h1.1, h1.2, h2.1, h2.2])
  have g1 := grow (h := h) (C := 2 * K) (g := fun t => F 1 (x + 1 * t) + F 1 (x + (-1) * t) - 2 * F 1 x)
    (g' := fun t => 1 * F 2 (x + 1 * t) + -1 * F 2 (x + (-1) * t)) 1 (by simp; ring)
    (fun t ht => ((d 1 (by norm_num) t ht).1.add (d 1 (by norm_num) t ht).2).sub_const (2 * F 1 x))
    (fun t ht => by
      have := g2 t ht
      rw [show 1 * F 2 (x + 1 * t) + -1 * F 2 (x + (-1) * t) = F 2 (x + 1 * t) - F 2 (x + (-1) * t) by ring]
      refine this.trans_eq ?_
      norm_num)
  have g0 := grow (h := h) (C := K) (g := fun t => F 0 (x + 1 * t) - F 0 (x + (-1) * t) - 2 * F 1 x * t)
    (g' := fun t => 1 * F 1 (x + 1 * t) - -1 * F 1 (x + (-1) * t) - 2 * F 1 x * 1) 2 (by simp)
    (fun t ht => ((d 0 (by norm_num) t ht).1.sub (d 0 (by norm_num) t ht).2).sub ((hasDerivAt_id t).const_mul (2 * F 1 x)))
    (fun t ht => by
      have := g1 t ht
      rw [show 1 * F 1 (x + 1 * t) - -1 * F 1 (x + (-1) * t) - 2 * F 1 x * 1 = F 1 (x + 1 * t) + F 1 (x + (-1) * t) - 2 * F 1 x by ring]
      refine this.trans_eq ?_
      norm_num)
  intro t ht
  have := g0 t ht
  rw [show x + t = x + 1 * t by ring, show x - t = x + (-1) * t by ring,
    show F 0 (x + 1 * t) - F 0 (x + (-1) * t) - 2 * t * F 1 x = F 0 (x + 1 * t) - F 0 (x + (-1) * t) - 2 * F 1 x * t by ring]
  refine this.trans_eq ?_
  push_cast
  ring

variable {L : Lib} {u : ℝ}

/-- One rounded operation. -/
theorem r_abs (hA : Accurate L.toMachine u) (hu : u ≤ 1 / 1000) {y Y e : ℝ} (h : |y - Y| ≤ e) :
    |L.toMachine.r y - Y| ≤ 1001 / 1000 * e + u * |Y| := by
  have h1 := r_rel hA y
  have h0 := hA.nonneg
  have e0 : 0 ≤ e := (abs_nonneg _).trans h
  have h2 : |y| ≤ |Y| + e := by
    have := abs_sub_abs_le_abs_sub y Y
    linarith
  have h3 : |L.toMachine.r y - Y| ≤ |L.toMachine.r y - y| + |y - Y| := abs_sub_le _ _ _
  have h4 : u * |y| ≤ u * (|Y| + e) := by gcongr
  nlinarith [mul_le_mul_of_nonneg_right hu e0]

theorem r_size (hA : Accurate L.toMachine u) (hu : u ≤ 1 / 1000) {y e : ℝ} (h : |y| ≤ e) : |L.toMachine.r y| ≤ 1001 / 1000 * e := by
  have h1 := r_abs hA hu (y := y) (Y := 0) (e := e) (by simpa using h)
  simpa using h1

/-- A computed function with its error: finite values within `η` of `F` on `[x - 2h, x + 2h]`. -/
def Within (f : Dbl → Dbl) (F : ℝ → ℝ) (x h η : ℝ) : Prop :=
  ∀ t ∈ Icc (x - 2 * h) (x + 2 * h), ∃ v, f (.fin t) = .fin v ∧ |v - F t| ≤ η

/-- The value at a rounded argument. -/
theorem at_rounded {f : Dbl → Dbl} {F : ℝ → ℝ} {x h η C B a t p : ℝ} (hf : Within f F x h η)
    (hC : ∀ s ∈ Icc (x - 2 * h) (x + 2 * h), ∀ t ∈ Icc (x - 2 * h) (x + 2 * h), |F s - F t| ≤ C * |s - t|)
    (hB : ∀ t ∈ Icc (x - 2 * h) (x + 2 * h), |F t| ≤ B) (hC0 : 0 ≤ C) (ha : a ≤ h) (ht : |t - x| ≤ h) (hp : |p - t| ≤ a) :
    ∃ v, f (.fin p) = .fin v ∧ |v - F t| ≤ η + C * a ∧ |v| ≤ B + η := by
  have h1 := abs_le.1 ht
  have h2 := abs_le.1 hp
  have mp : p ∈ Icc (x - 2 * h) (x + 2 * h) := ⟨by linarith [h1.1, h2.1], by linarith [h1.2, h2.2]⟩
  have a0 : 0 ≤ a := (abs_nonneg _).trans hp
  have mt : t ∈ Icc (x - 2 * h) (x + 2 * h) := ⟨by linarith [h1.1], by linarith [h1.2]⟩
  obtain ⟨v, e, hv⟩ := hf p mp
  refine ⟨v, e, ?_, ?_⟩
  · have := hC p mp t mt
    have k : C * |p - t| ≤ C * a := by gcongr
    have := abs_sub_le v (F p) (F t)
    linarith
  · have := hB p mp
    have := abs_sub_abs_le_abs_sub v (F p)
    linarith

/-- `r5` from the four values, in machine arithmetic. -/
def R3 (L : Lib) (v1 v2 : ℝ) : ℝ := L.toMachine.r (1 / 2 * L.toMachine.r (v1 - v2))
/-- See `R3`. -/
def R5 (L : Lib) (v1 v2 v3 v4 : ℝ) : ℝ :=
  L.toMachine.r (L.toMachine.r (L.toMachine.r (4 / 3) * L.toMachine.r (v3 - v4)) - L.toMachine.r (L.toMachine.r (1 / 3) * R3 L v1 v2))

theorem const_mul (hA : Accurate L.toMachine u) (hu' : u ≤ 1 / 1000) {c e y Y : ℝ} (hc : 0 < c) (hy : |y - Y| ≤ e) :
    |L.toMachine.r c * y - c * Y| ≤ 1001 / 1000 * c * e + c * (u * |Y|) := by
  have u0 := hA.nonneg
  have k := r_rel hA c
  rw [abs_of_pos hc] at k
  have k' := abs_le.1 k
  have e0 : 0 ≤ e := (abs_nonneg _).trans hy
  have k1 : |L.toMachine.r c| ≤ 1001 / 1000 * c := by rw [abs_le]; constructor <;> nlinarith [k'.1, k'.2]
  have : L.toMachine.r c * y - c * Y = L.toMachine.r c * (y - Y) + (L.toMachine.r c - c) * Y := by ring
  rw [this]
  refine (abs_add_le _ _).trans (add_le_add ?_ ?_)
  · rw [abs_mul]; gcongr
  · rw [abs_mul, ← mul_assoc, mul_comm c u]; gcongr

theorem R3_near (hA : Accurate L.toMachine u) (hu' : u ≤ 1 / 1000) {v1 v2 D1 z c w : ℝ} (hw : u * c ≤ w) (q1 : |v1 - v2 - D1| ≤ 2 * z)
    (l1 : |D1| ≤ 2 * c) : |R3 L v1 v2 - 1 / 2 * D1| ≤ 1003 / 1000 * z + 2002 / 1000 * w := by
  have u0 := hA.nonneg
  have z0 : 0 ≤ z := by linarith [(abs_nonneg _).trans q1]
  have w0 : 0 ≤ w := (mul_nonneg u0 (by linarith [(abs_nonneg _).trans l1])).trans hw
  have q2 := r_abs hA hu' q1
  have q2' : u * |D1| ≤ 2 * w := by nlinarith
  have q3 : |1 / 2 * L.toMachine.r (v1 - v2) - 1 / 2 * D1| ≤ 1001 / 1000 * z + w := by
    rw [← mul_sub, abs_mul, abs_of_pos (by norm_num : (0 : ℝ) < 1 / 2)]; linarith
  have q4 := r_abs hA hu' q3
  have q4' : u * |1 / 2 * D1| ≤ w := by
    rw [abs_mul, abs_of_pos (by norm_num : (0 : ℝ) < 1 / 2)]; linarith
  rw [R3]
  linarith

theorem R5_near (hA : Accurate L.toMachine u) (hu' : u ≤ 1 / 1000) {v1 v2 v3 v4 D1 D2 z c w : ℝ} (hw : u * c ≤ w)
    (q1 : |v1 - v2 - D1| ≤ 2 * z) (q5 : |v3 - v4 - D2| ≤ 2 * z) (l1 : |D1| ≤ 2 * c) (l2 : |D2| ≤ c) :
    |R5 L v1 v2 v3 v4 - (4 / 3 * D2 - 1 / 3 * (1 / 2 * D1))| ≤ 302 / 100 * z + 703 / 100 * w := by
  have u0 := hA.nonneg
  have z0 : 0 ≤ z := by linarith [(abs_nonneg _).trans q1]
  have w0 : 0 ≤ w := (mul_nonneg u0 ((abs_nonneg _).trans l2)).trans hw
  have q4 := R3_near hA hu' hw q1 l1
  have q6 := r_abs hA hu' q5
  have q6' : u * |D2| ≤ w := by nlinarith
  have q1' : u * |D1| ≤ 2 * w := by nlinarith
  have q7 := const_mul hA hu' (by norm_num : (0 : ℝ) < 4 / 3) q6
  have q8 := r_abs hA hu' q7
  have q8' : u * |4 / 3 * D2| ≤ 4 / 3 * w := by
    rw [abs_mul, abs_of_pos (by norm_num : (0 : ℝ) < 4 / 3)]; linarith
  have q9 := const_mul hA hu' (by norm_num : (0 : ℝ) < 1 / 3) q4
  have q9' : u * |1 / 2 * D1| ≤ w := by
    rw [abs_mul, abs_of_pos (by norm_num : (0 : ℝ) < 1 / 2)]; linarith
  have q10 := r_abs hA hu' q9
  have q10' : u * |1 / 3 * (1 / 2 * D1)| ≤ 1 / 3 * w := by
    rw [abs_mul, abs_of_pos (by norm_num : (0 : ℝ) < 1 / 3)]; linarith
  rw [R5]
  generalize L.toMachine.r (L.toMachine.r (4 / 3) * L.toMachine.r (v3 - v4)) = P1 at q8 ⊢
  generalize L.toMachine.r (L.toMachine.r (1 / 3) * R3 L v1 v2) = P2 at q10 ⊢
  have q8'' : |P1 - 4 / 3 * D2| ≤ 268 / 100 * z + 401 / 100 * w := by linarith
  have q10'' : |P2 - 1 / 3 * (1 / 2 * D1)| ≤ 336 / 1000 * z + 134 / 100 * w := by linarith
  have q11 : |P1 - P2 - (4 / 3 * D2 - 1 / 3 * (1 / 2 * D1))| ≤ 3016 / 1000 * z + 535 / 100 * w := by
    have k1 := abs_le.1 q8''
    have k2 := abs_le.1 q10''
    rw [abs_le]; constructor <;> linarith [k1.1, k1.2, k2.1, k2.2]
  have lS : |4 / 3 * D2 - 1 / 3 * (1 / 2 * D1)| ≤ 5 / 3 * c := by
    have k1 := abs_le.1 l1
    have k2 := abs_le.1 l2
    rw [abs_le]; constructor <;> linarith [k1.1, k1.2, k2.1, k2.2]
  have q12 := r_abs hA hu' q11
  have q12' : u * |4 / 3 * D2 - 1 / 3 * (1 / 2 * D1)| ≤ 5 / 3 * w := by nlinarith
  linarith

/-- `e5` from the four values. -/
def E5 (L : Lib) (ε v1 v2 v3 v4 : ℝ) : ℝ :=
  L.toMachine.r (L.toMachine.r (L.toMachine.r (2 * L.toMachine.r (|v3| + |v4|)) * ε) + L.toMachine.r (L.toMachine.r (|v1| + |v2|) * ε))

theorem E5_size (hA : Accurate L.toMachine u) (hu' : u ≤ 1 / 1000) {ε v1 v2 v3 v4 b : ℝ} (ε0 : 0 < ε) (s1 : |v1| ≤ b) (s2 : |v2| ≤ b)
    (s3 : |v3| ≤ b) (s4 : |v4| ≤ b) : |E5 L ε v1 v2 v3 v4| ≤ 6026 / 1000 * (b * ε) := by
  have b0 : 0 ≤ b := (abs_nonneg _).trans s1
  have g1 : |L.toMachine.r (|v1| + |v2|)| ≤ 1001 / 1000 * (2 * b) := r_size hA hu' (by
    rw [abs_of_nonneg (by positivity)]; linarith)
  have g2 : |L.toMachine.r (L.toMachine.r (|v1| + |v2|) * ε)| ≤ 1001 / 1000 * (1001 / 1000 * (2 * b) * ε) := r_size hA hu' (by
    rw [abs_mul, abs_of_pos ε0]; gcongr)
  have g3 : |L.toMachine.r (|v3| + |v4|)| ≤ 1001 / 1000 * (2 * b) := r_size hA hu' (by
    rw [abs_of_nonneg (by positivity)]; linarith)
  have g4 : |L.toMachine.r (2 * L.toMachine.r (|v3| + |v4|))| ≤ 1001 / 1000 * (2 * (1001 / 1000 * (2 * b))) := r_size hA hu' (by
    rw [abs_mul, abs_of_pos (by norm_num : (0 : ℝ) < 2)]; gcongr)
  have g5 : |L.toMachine.r (L.toMachine.r (2 * L.toMachine.r (|v3| + |v4|)) * ε)| ≤
      1001 / 1000 * (1001 / 1000 * (2 * (1001 / 1000 * (2 * b))) * ε) := r_size hA hu' (by
    rw [abs_mul, abs_of_pos ε0]; gcongr)
  have hbe : 0 ≤ b * ε := by positivity
  rw [E5]
  refine (r_size hA hu' ((abs_add_le _ _).trans (add_le_add g5 g2))).trans ?_
  nlinarith

/-- The four values. -/
theorem four_values (hA : Accurate L.toMachine u) {ε : ℝ} (hu : u ≤ ε / 2) (hu' : u ≤ 1 / 1000) {f : Dbl → Dbl} {F : ℝ → ℝ}
    {x h η C B : ℝ} (h0 : 0 < h) (hx : ε * (|x| + h) ≤ h / 2) (hf : Within f F x h η)
    (hC : ∀ s ∈ Icc (x - 2 * h) (x + 2 * h), ∀ t ∈ Icc (x - 2 * h) (x + 2 * h), |F s - F t| ≤ C * |s - t|)
    (hB : ∀ t ∈ Icc (x - 2 * h) (x + 2 * h), |F t| ≤ B) (hC0 : 0 ≤ C) :
    ∃ v1 v2 v3 v4, f (L.add (.fin x) (.fin h)) = .fin v1 ∧ f (L.sub (.fin x) (.fin h)) = .fin v2 ∧
      f (L.add (.fin x) (L.div (.fin h) (.fin 2))) = .fin v3 ∧ f (L.sub (.fin x) (L.div (.fin h) (.fin 2))) = .fin v4 ∧
      |v1 - v2 - (F (x + h) - F (x - h))| ≤ 2 * (η + C * (ε * (|x| + h))) ∧
      |v3 - v4 - (F (x + h / 2) - F (x - h / 2))| ≤ 2 * (η + C * (ε * (|x| + h))) ∧
      |v1| ≤ B + η ∧ |v2| ≤ B + η ∧ |v3| ≤ B + η ∧ |v4| ≤ B + η := by
  have u0 := hA.nonneg
  have ax := abs_nonneg x
  have ua : u * (|x| + h) ≤ ε * (|x| + h) / 2 := by nlinarith
  have ah : ε * (|x| + h) ≤ h := by linarith
  have a0 : 0 ≤ ε * (|x| + h) := by nlinarith
  generalize ε * (|x| + h) = a at *
  have rel : ∀ y, |y| ≤ |x| + h → |L.toMachine.r y - y| ≤ u * (|x| + h) := fun y hy => (r_rel hA y).trans (by gcongr)
  have p1 := at_rounded (p := L.toMachine.r (x + h)) (t := x + h) hf hC hB hC0 ah (by rw [add_sub_cancel_left, abs_of_pos h0])
    ((rel _ ((abs_add_le _ _).trans (by rw [abs_of_pos h0]))).trans (by linarith))
  have p2 := at_rounded (p := L.toMachine.r (x - h)) (t := x - h) hf hC hB hC0 ah (by rw [sub_sub_cancel_left, abs_neg, abs_of_pos h0])
    ((rel _ ((abs_sub _ _).trans (by rw [abs_of_pos h0]))).trans (by linarith))
  have hh : |L.toMachine.r (h / 2) - h / 2| ≤ u * (h / 2) := by
    have := r_rel hA (h / 2)
    rwa [abs_of_pos (by linarith : 0 < h / 2)] at this
  have hh' := abs_le.1 hh
  have uh : u * (h / 2) ≤ h / 2 := by nlinarith
  have ux : 0 ≤ u * |x| := mul_nonneg u0 ax
  have uh0 : 0 ≤ u * h := mul_nonneg u0 h0.le
  have small : |L.toMachine.r (h / 2)| ≤ h := by rw [abs_le]; constructor <;> linarith [hh'.1, hh'.2]
  have p3 := at_rounded (p := L.toMachine.r (x + L.toMachine.r (h / 2))) (t := x + h / 2) hf hC hB hC0 ah
    (by rw [add_sub_cancel_left, abs_of_pos (half_pos h0)]; linarith) (by
      have k2 := rel (x + L.toMachine.r (h / 2)) ((abs_add_le _ _).trans (by linarith))
      have k3 := abs_sub_le (L.toMachine.r (x + L.toMachine.r (h / 2))) (x + L.toMachine.r (h / 2)) (x + h / 2)
      rw [show x + L.toMachine.r (h / 2) - (x + h / 2) = L.toMachine.r (h / 2) - h / 2 by ring] at k3
      linarith)
  have p4 := at_rounded (p := L.toMachine.r (x - L.toMachine.r (h / 2))) (t := x - h / 2) hf hC hB hC0 ah
    (by rw [sub_sub_cancel_left, abs_neg, abs_of_pos (half_pos h0)]; linarith) (by
      have k2 := rel (x - L.toMachine.r (h / 2)) ((abs_sub _ _).trans (by linarith))
      have k3 := abs_sub_le (L.toMachine.r (x - L.toMachine.r (h / 2))) (x - L.toMachine.r (h / 2)) (x - h / 2)
      rw [show x - L.toMachine.r (h / 2) - (x - h / 2) = -(L.toMachine.r (h / 2) - h / 2) by ring, abs_neg] at k3
      linarith)
  obtain ⟨v1, e1, d1, s1⟩ := p1
  obtain ⟨v2, e2, d2, s2⟩ := p2
  obtain ⟨v3, e3, d3, s3⟩ := p3
  obtain ⟨v4, e4, d4, s4⟩ := p4
  refine ⟨v1, v2, v3, v4, ?_, ?_, ?_, ?_, ?_, ?_, s1, s2, s3, s4⟩
  · rw [add_fin hA, e1]
  · rw [sub_fin hA, e2]
  · rw [div_fin hA _ two_ne_zero, add_fin hA, e3]
  · rw [div_fin hA _ two_ne_zero, sub_fin hA, e4]
  · have k1 := abs_le.1 d1
    have k2 := abs_le.1 d2
    rw [abs_le]; constructor <;> linarith [k1.1, k1.2, k2.1, k2.2]
  · have k1 := abs_le.1 d3
    have k2 := abs_le.1 d4
    rw [abs_le]; constructor <;> linarith [k1.1, k1.2, k2.1, k2.2]

theorem trunc_size (hA : Accurate L.toMachine u) (hu' : u ≤ 1 / 1000) {r3 r5 D1 D2 z c w h T : ℝ} (h0 : 0 < h) (hw : u * c ≤ w)
    (n3 : |r3 - 1 / 2 * D1| ≤ 1003 / 1000 * z + 2002 / 1000 * w)
    (n5 : |r5 - (4 / 3 * D2 - 1 / 3 * (1 / 2 * D1))| ≤ 302 / 100 * z + 703 / 100 * w) (l1 : |D1| ≤ 2 * c) (l2 : |D2| ≤ c)
    (hT : |4 / 3 * (D2 - 1 / 2 * D1)| ≤ T) (z0 : 0 ≤ z) (w0 : 0 ≤ w) :
    |L.toMachine.r (L.toMachine.r (r5 - r3) / h)| ≤ (1001 / 1000 * T + 404 / 100 * z + 118 / 10 * w) / h := by
  have u0 := hA.nonneg
  have t1 : |r5 - r3 - 4 / 3 * (D2 - 1 / 2 * D1)| ≤ 4023 / 1000 * z + 9032 / 1000 * w := by
    have k1 := abs_le.1 n5
    have k2 := abs_le.1 n3
    rw [abs_le]; constructor <;> linarith [k1.1, k1.2, k2.1, k2.2]
  have lT : |4 / 3 * (D2 - 1 / 2 * D1)| ≤ 8 / 3 * c := by
    have k1 := abs_le.1 l1
    have k2 := abs_le.1 l2
    rw [abs_le]; constructor <;> linarith [k1.1, k1.2, k2.1, k2.2]
  have t2 := r_abs hA hu' t1
  have t2' : u * |4 / 3 * (D2 - 1 / 2 * D1)| ≤ 8 / 3 * w := by
    calc u * |4 / 3 * (D2 - 1 / 2 * D1)| ≤ u * (8 / 3 * c) := by gcongr
      _ ≤ 8 / 3 * w := by linarith
  have t3 : |L.toMachine.r (r5 - r3)| ≤ T + (4028 / 1000 * z + 1171 / 100 * w) := by
    have := abs_sub_abs_le_abs_sub (L.toMachine.r (r5 - r3)) (4 / 3 * (D2 - 1 / 2 * D1))
    linarith
  have t4 : |L.toMachine.r (r5 - r3) / h| ≤ (T + (4028 / 1000 * z + 1171 / 100 * w)) / h := by
    rw [abs_div, abs_of_pos h0]; exact div_le_div_of_nonneg_right t3 h0.le
  refine (r_size hA hu' t4).trans ?_
  rw [← mul_div_assoc]
  refine div_le_div_of_nonneg_right ?_ h0.le
  linarith

/-- The parts of `central_deriv` in machine arithmetic: result, rounding and truncation error. -/
theorem central_rounded (hA : Accurate L.toMachine u) {ε : ℝ} (hε : ε = 1 / 2 ^ 52) (hu : u ≤ ε / 2) {f : Dbl → Dbl} {F : ℝ → ℝ}
    {x h η C B T : ℝ} (h0 : 0 < h) (hx : ε * (|x| + h) ≤ h / 2) (hf : Within f F x h η)
    (hC : ∀ s ∈ Icc (x - 2 * h) (x + 2 * h), ∀ t ∈ Icc (x - 2 * h) (x + 2 * h), |F s - F t| ≤ C * |s - t|)
    (hB : ∀ t ∈ Icc (x - 2 * h) (x + 2 * h), |F t| ≤ B) (hC0 : 0 ≤ C)
    (hT : |4 / 3 * ((F (x + h / 2) - F (x - h / 2)) - 1 / 2 * (F (x + h) - F (x - h)))| ≤ T) :
    ∃ r a b, L.centralResult f (.fin x) (.fin h) = .fin r ∧ L.centralRound f (.fin x) (.fin h) = .fin a ∧
      L.centralTrunc f (.fin x) (.fin h) = .fin b ∧
      |r - quot F x h| ≤ (31 / 10 * (η + C * (ε * (|x| + h))) + 9 * (ε / 2 * (C * h))) / h ∧
      |a| ≤ (612 / 100 * ((B + η) * ε) + 17 / 10 * (ε * |x| * C) + 16 / 10 * (η + C * (ε * (|x| + h))) +
        36 / 10 * (ε / 2 * (C * h))) / h ∧
      |b| ≤ (1001 / 1000 * T + 404 / 100 * (η + C * (ε * (|x| + h))) + 118 / 10 * (ε / 2 * (C * h))) / h := by
  have ε0 : 0 < ε := by rw [hε]; norm_num
  have ε1 : ε ≤ 1 / 1000 := by rw [hε]; norm_num
  have kε : Lib.epsilon = .fin ε := by rw [hε]; rfl
  clear hε
  have hu' : u ≤ 1 / 1000 := by linarith
  have u0 := hA.nonneg
  have ax := abs_nonneg x
  have hn : h ≠ 0 := h0.ne'
  obtain ⟨v1, v2, v3, v4, e1, e2, e3, e4, q1, q5, s1, s2, s3, s4⟩ := four_values hA hu hu' h0 hx hf hC hB hC0
  have mem : ∀ t, |t - x| ≤ h → t ∈ Icc (x - 2 * h) (x + 2 * h) := fun t ht => by
    have := abs_le.1 ht
    exact ⟨by linarith [this.1], by linarith [this.2]⟩
  have l1 : |F (x + h) - F (x - h)| ≤ 2 * (C * h) := by
    refine (hC _ (mem _ (by rw [add_sub_cancel_left, abs_of_pos h0])) _ (mem _ (by rw [sub_sub_cancel_left, abs_neg, abs_of_pos h0]))).trans_eq ?_
    rw [show x + h - (x - h) = 2 * h by ring, abs_of_pos (by linarith)]
    ring
  have l2 : |F (x + h / 2) - F (x - h / 2)| ≤ C * h := by
    refine (hC _ (mem _ (by rw [add_sub_cancel_left, abs_of_pos (half_pos h0)]; linarith)) _
      (mem _ (by rw [sub_sub_cancel_left, abs_neg, abs_of_pos (half_pos h0)]; linarith))).trans_eq ?_
    rw [show x + h / 2 - (x - h / 2) = h by ring, abs_of_pos h0]
  have eS : (4 / 3 * (F (x + h / 2) - F (x - h / 2)) - 1 / 3 * (1 / 2 * (F (x + h) - F (x - h)))) / h = quot F x h := by
    rw [quot]; field_simp; ring
  have c0 : 0 ≤ C * h := by positivity
  have hxC : ε * |x| / h ≤ 1 / 2 := by
    rw [div_le_iff₀ h0]; nlinarith
  generalize F (x + h) - F (x - h) = D1 at *
  generalize F (x + h / 2) - F (x - h / 2) = D2 at *
  generalize hz : η + C * (ε * (|x| + h)) = z at *
  generalize B + η = b at *
  generalize hc : C * h = c at *
  have hw : u * c ≤ ε / 2 * c := by gcongr
  have w0 : 0 ≤ ε / 2 * c := by positivity
  generalize ε / 2 * c = w at *
  have z0 : 0 ≤ z := by linarith [(abs_nonneg _).trans q1]
  have b0 : 0 ≤ b := (abs_nonneg _).trans s1
  have n3 := R3_near hA hu' hw q1 l1
  have n5 := R5_near hA hu' hw q1 q5 l1 l2
  have nE := E5_size hA hu' ε0 s1 s2 s3 s4
  have k3 : L.r3 f (.fin x) (.fin h) = .fin (R3 L v1 v2) := by
    rw [Lib.r3, e1, e2, sub_fin hA, mul_fin hA, R3]
  have k5 : L.r5 f (.fin x) (.fin h) = .fin (R5 L v1 v2 v3 v4) := by
    rw [Lib.r5, e3, e4, sub_fin hA, div_fin hA _ three_ne_zero, mul_fin hA, k3, one_def, div_fin hA _ three_ne_zero, mul_fin hA, sub_fin hA, R5]
  have kE : L.e5 f (.fin x) (.fin h) = .fin (E5 L ε v1 v2 v3 v4) := by
    rw [Lib.e5, Lib.e3, e1, e2, e3, e4, kε]
    simp only [abs_fin, add_fin hA, mul_fin hA]
    rfl
  have kdy : L.dy f (.fin x) (.fin h) = .fin (L.toMachine.r (L.toMachine.r (max |L.toMachine.r (R3 L v1 v2 / h)| |L.toMachine.r (R5 L v1 v2 v3 v4 / h)| *
      L.toMachine.r (|x| / h)) * ε)) := by
    rw [Lib.dy, k3, k5, div_fin hA _ hn, div_fin hA _ hn, abs_fin, abs_fin, gslMax_fin, abs_fin, div_fin hA _ hn, mul_fin hA, kε, mul_fin hA]
  have kr : L.centralResult f (.fin x) (.fin h) = .fin (L.toMachine.r (R5 L v1 v2 v3 v4 / h)) := by
    rw [Lib.centralResult, k5, div_fin hA _ hn]
  have kb : L.centralTrunc f (.fin x) (.fin h) = .fin |L.toMachine.r (L.toMachine.r (R5 L v1 v2 v3 v4 - R3 L v1 v2) / h)| := by
    rw [Lib.centralTrunc, k5, k3, sub_fin hA, div_fin hA _ hn, abs_fin]
  have ka : L.centralRound f (.fin x) (.fin h) = .fin (L.toMachine.r (|L.toMachine.r (E5 L ε v1 v2 v3 v4 / h)| +
      L.toMachine.r (L.toMachine.r (max |L.toMachine.r (R3 L v1 v2 / h)| |L.toMachine.r (R5 L v1 v2 v3 v4 / h)| *
      L.toMachine.r (|x| / h)) * ε))) := by
    rw [Lib.centralRound, kE, div_fin hA _ hn, abs_fin, kdy, add_fin hA]
  clear k3 k5 kE kdy
  generalize R3 L v1 v2 = r3 at *
  generalize R5 L v1 v2 v3 v4 = r5 at *
  generalize E5 L ε v1 v2 v3 v4 = e5 at *
  clear e1 e2 e3 e4 q1 q5 s1 s2 s3 s4 hf hC hB
  have dz : ∀ {y e : ℝ}, |y| ≤ e → |y / h| ≤ e / h := fun {y e} hy => by
    rw [abs_div, abs_of_pos h0]; gcongr
  have lS : |4 / 3 * D2 - 1 / 3 * (1 / 2 * D1)| ≤ 5 / 3 * c := by
    have k1 := abs_le.1 l1
    have k2 := abs_le.1 l2
    rw [abs_le]; constructor <;> linarith [k1.1, k1.2, k2.1, k2.2]
  have l1' : |1 / 2 * D1| ≤ c := by
    rw [abs_mul, abs_of_pos (by norm_num : (0 : ℝ) < 1 / 2)]; linarith
  have z3 : |r3| ≤ c + (1003 / 1000 * z + 2002 / 1000 * w) := by
    have := abs_sub_abs_le_abs_sub r3 (1 / 2 * D1); linarith
  have z5 : |r5| ≤ 5 / 3 * c + (302 / 100 * z + 703 / 100 * w) := by
    have := abs_sub_abs_le_abs_sub r5 (4 / 3 * D2 - 1 / 3 * (1 / 2 * D1)); linarith
  refine ⟨_, _, _, kr, ka, kb, ?_, ?_, ?_⟩
  · have k0 : |r5 / h - quot F x h| ≤ (302 / 100 * z + 703 / 100 * w) / h := by
      rw [← eS, ← sub_div, abs_div, abs_of_pos h0]; exact div_le_div_of_nonneg_right n5 h0.le
    have k1 := r_abs hA hu' k0
    have k2 : u * |quot F x h| ≤ 5 / 3 * w / h := by
      rw [← eS, abs_div, abs_of_pos h0, ← mul_div_assoc]
      refine div_le_div_of_nonneg_right ?_ h0.le
      nlinarith
    have k3 : 1001 / 1000 * ((302 / 100 * z + 703 / 100 * w) / h) + 5 / 3 * w / h = (1001 / 1000 * (302 / 100 * z + 703 / 100 * w) + 5 / 3 * w) / h := by ring
    refine k1.trans ((add_le_add le_rfl k2).trans (k3.le.trans ?_))
    refine div_le_div_of_nonneg_right ?_ h0.le
    linarith
  · have m3 := r_size hA hu' (dz z3)
    have m5 := r_size hA hu' (dz z5)
    have gE := r_size hA hu' (dz nE)
    generalize L.toMachine.r (r3 / h) = A3 at *
    generalize L.toMachine.r (r5 / h) = A5 at *
    generalize L.toMachine.r (e5 / h) = AE at *
    have m : max |A3| |A5| ≤ 1001 / 1000 * ((5 / 3 * c + (302 / 100 * z + 703 / 100 * w)) / h) := by
      refine max_le (m3.trans ?_) m5
      gcongr ?_ * (?_ / h)
      linarith
    have m0 : 0 ≤ max |A3| |A5| := le_max_of_le_left (abs_nonneg _)
    have mx : |L.toMachine.r (|x| / h)| ≤ 1001 / 1000 * (|x| / h) := r_size hA hu' (by rw [abs_of_nonneg (by positivity)])
    generalize max |A3| |A5| = A at *
    have n1 := r_size hA hu' (y := A * L.toMachine.r (|x| / h))
      (e := 1001 / 1000 * ((5 / 3 * c + (302 / 100 * z + 703 / 100 * w)) / h) * (1001 / 1000 * (|x| / h))) (by
        rw [abs_mul, abs_of_nonneg m0]; gcongr)
    have n2 := r_size hA hu' (y := L.toMachine.r (A * L.toMachine.r (|x| / h)) * ε)
      (e := 1001 / 1000 * (1001 / 1000 * ((5 / 3 * c + (302 / 100 * z + 703 / 100 * w)) / h) * (1001 / 1000 * (|x| / h))) * ε) (by
        rw [abs_mul, abs_of_pos ε0]; gcongr)
    generalize L.toMachine.r (L.toMachine.r (A * L.toMachine.r (|x| / h)) * ε) = Y at *
    have k2 : 0 ≤ ε * |x| * C := by positivity
    have n3 : |Y| ≤ (1675 / 1000 * (ε * |x| * C) + 153 / 100 * z + 355 / 100 * w) / h := by
      refine n2.trans ?_
      have e : 1001 / 1000 * (1001 / 1000 * (1001 / 1000 * ((5 / 3 * c + (302 / 100 * z + 703 / 100 * w)) / h) * (1001 / 1000 * (|x| / h))) * ε) =
          (1001 / 1000) ^ 4 * ((5 / 3 * (ε * |x| * C)) + (302 / 100 * z + 703 / 100 * w) * (ε * |x| / h)) / h := by
        rw [← hc]
        field_simp
      rw [e]
      gcongr ?_ / h
      have k1 : (302 / 100 * z + 703 / 100 * w) * (ε * |x| / h) ≤ (302 / 100 * z + 703 / 100 * w) * (1 / 2) := by gcongr
      nlinarith
    rw [← abs_abs AE] at gE
    refine (r_size hA hu' ((abs_add_le _ _).trans (add_le_add gE n3))).trans ?_
    have e : 1001 / 1000 * (1001 / 1000 * (6026 / 1000 * (b * ε) / h) + (1675 / 1000 * (ε * |x| * C) + 153 / 100 * z + 355 / 100 * w) / h) =
      (1001 / 1000 * (1001 / 1000 * (6026 / 1000 * (b * ε)) + (1675 / 1000 * (ε * |x| * C) + 153 / 100 * z + 355 / 100 * w))) / h := by ring
    rw [e]
    refine div_le_div_of_nonneg_right ?_ h0.le
    have k1 : 0 ≤ b * ε := by positivity
    linarith
  · rw [abs_abs]
    exact trunc_size hA hu' h0 hw n3 n5 l1 l2 hT z0 w0

/-- What the choice of a second step can change. -/
theorem choose_near (hA : Accurate L.toMachine u) (hu' : u ≤ 1 / 1000) (r a b : ℝ) (r' a' b' : Dbl) :
    ∃ s, L.choose (.fin r) (.fin a) (.fin b) r' a' b' = .fin s ∧ |s - r| ≤ 402 / 100 * (|a| + |b|) := by
  have u0 := hA.nonneg
  have p : 0 ≤ 402 / 100 * (|a| + |b|) := by positivity
  rw [Lib.choose]
  split
  · rename_i hc
    have hd := hc.2.2
    have k : L.mul (.fin 4) (L.add (.fin a) (.fin b)) = .fin (L.toMachine.r (4 * L.toMachine.r (a + b))) := by
      rw [add_fin hA, mul_fin hA]
    rw [k] at hd
    cases r' with
    | fin s =>
      refine ⟨s, rfl, ?_⟩
      rw [sub_fin hA, abs_fin, fin_lt] at hd
      have k1 := abs_le.1 (r_rel hA (s - r))
      have k2 := (abs_le.1 (r_size hA hu' (abs_add_le a b))).2
      have k3 := r_size hA hu' (y := 4 * L.toMachine.r (a + b)) (e := 4 * (1001 / 1000 * (|a| + |b|))) (by
        rw [abs_mul, abs_of_pos (by norm_num : (0 : ℝ) < 4)]
        gcongr
        exact r_size hA hu' (abs_add_le a b))
      have k4 := (abs_le.1 k3).2
      have k5 := abs_sub_abs_le_abs_sub (s - r) (L.toMachine.r (s - r))
      rw [abs_sub_comm (s - r) (L.toMachine.r (s - r))] at k5
      have k6 := r_rel hA (s - r)
      have k7 : u * |s - r| ≤ 1 / 1000 * |s - r| := by gcongr
      have k8 : 999 / 1000 * |s - r| ≤ 1001 / 1000 * (4 * (1001 / 1000 * (|a| + |b|))) := by linarith
      have : 0 ≤ |a| + |b| := by positivity
      linarith
    | nan => simp [Machine.sub, Machine.fix] at hd
    | pinf => simp [Machine.sub, Machine.fix, Dbl.abs] at hd
    | ninf => simp [Machine.sub, Machine.fix, Dbl.abs] at hd
  · exact ⟨r, rfl, by simpa using p⟩

/-- Central differences in machine arithmetic. -/
theorem central_machine (hA : Accurate L.toMachine u) {ε : ℝ} (hε : ε = 1 / 2 ^ 52) (hu : u ≤ ε / 2) {f : Dbl → Dbl} {F : ℕ → ℝ → ℝ}
    {x h η B C K₃ K₅ : ℝ} (h0 : 0 < h) (hx : ε * (|x| + h) ≤ h / 2) (hf : Within f (F 0) x h η) (hF : Smooth F 5 x (2 * h))
    (hB : ∀ t ∈ Icc (x - 2 * h) (x + 2 * h), |F 0 t| ≤ B) (hC : ∀ t ∈ Icc (x - 2 * h) (x + 2 * h), |F 1 t| ≤ C)
    (h3 : ∀ t ∈ Icc (x - 2 * h) (x + 2 * h), |F 3 t| ≤ K₃) (h5 : ∀ t ∈ Icc (x - 2 * h) (x + 2 * h), |F 5 t| ≤ K₅) :
    ∃ r, L.central (.fin h) f (.fin x) = .fin r ∧
      |r - F 1 x| ≤ K₅ / 288 * h ^ 4 + 6 / 5 * K₃ * h ^ 2 + (27 * η + 25 * (ε * B) + 62 * (ε * (C * (|x| + h)))) / h := by
  have ε0 : 0 < ε := by rw [hε]; norm_num
  have ε1 : ε ≤ 1 / 1000 := by rw [hε]; norm_num
  have hu' : u ≤ 1 / 1000 := by linarith
  have mx : x ∈ Icc (x - 2 * h) (x + 2 * h) := ⟨by linarith, by linarith⟩
  have C0 : 0 ≤ C := (abs_nonneg _).trans (hC x mx)
  have B0 : 0 ≤ B := (abs_nonneg _).trans (hB x mx)
  have K0 : 0 ≤ K₃ := (abs_nonneg _).trans (h3 x mx)
  have η0 : 0 ≤ η := by
    obtain ⟨v, -, hv⟩ := hf x mx
    exact (abs_nonneg _).trans hv
  have ax := abs_nonneg x
  have sub : Icc (x - h) (x + h) ⊆ Icc (x - 2 * h) (x + 2 * h) := fun t ht => ⟨by linarith [ht.1], by linarith [ht.2]⟩
  have lip : ∀ s ∈ Icc (x - 2 * h) (x + 2 * h), ∀ t ∈ Icc (x - 2 * h) (x + 2 * h), |F 0 s - F 0 t| ≤ C * |s - t| := by
    intro s hs t ht
    have := Convex.norm_image_sub_le_of_norm_hasDerivWithin_le (f := F 0) (f' := F 1) (C := C) (s := Icc (x - 2 * h) (x + 2 * h))
      (fun y hy => (hF.deriv 0 (by norm_num) y hy).hasDerivWithinAt) (fun y hy => by simpa using hC y hy) (convex_Icc _ _) ht hs
    simpa using this
  have hF' : Smooth F 5 x h := hF.mono (by linarith)
  have hF3 : Smooth F 3 x h := ⟨fun k hk => hF'.deriv k (by omega)⟩
  have o := odd_part3 hF3 (fun t ht => h3 t (sub ht))
  have o1 := abs_le.1 (o h ⟨h0.le, le_rfl⟩)
  have o2 := abs_le.1 (o (h / 2) ⟨by linarith, by linarith⟩)
  have T : |4 / 3 * ((F 0 (x + h / 2) - F 0 (x - h / 2)) - 1 / 2 * (F 0 (x + h) - F 0 (x - h)))| ≤ 5 / 18 * (K₃ * h ^ 3) := by
    rw [abs_le]; constructor <;> nlinarith [o1.1, o1.2, o2.1, o2.2]
  obtain ⟨r, a, b, e1, e2, e3, b1, b2, b3⟩ := central_rounded hA hε hu h0 hx hf lip hB C0 T
  have q := quot_near h0 hF' (fun t ht => h5 t (sub ht))
  rw [Lib.central]
  rw [e1, e2, e3]
  obtain ⟨s, es, hs⟩ := choose_near hA hu' r a b _ _ _
  refine ⟨s, es, ?_⟩
  have t1 := abs_sub_le s r (quot (F 0) x h)
  have t2 := abs_sub_le s (quot (F 0) x h) (F 1 x)
  set z := η + C * (ε * (|x| + h)) with hz
  set w := ε / 2 * (C * h) with hw
  have p1 : 0 ≤ ε * B := by positivity
  have p2 : 0 ≤ ε * (C * |x|) := by positivity
  have p3 : 0 ≤ ε * (C * h) := by positivity
  have p4 : 0 ≤ ε * η := by positivity
  have p5 : ε * η ≤ 1 / 1000 * η := by gcongr
  have key : |s - quot (F 0) x h| ≤ 6 / 5 * K₃ * h ^ 2 + (27 * η + 25 * (ε * B) + 62 * (ε * (C * (|x| + h)))) / h := by
    have e : 6 / 5 * K₃ * h ^ 2 + (27 * η + 25 * (ε * B) + 62 * (ε * (C * (|x| + h)))) / h =
        (6 / 5 * (K₃ * h ^ 3) + (27 * η + 25 * (ε * B) + 62 * (ε * (C * (|x| + h))))) / h := by
      field_simp
    rw [e, le_div_iff₀ h0]
    rw [le_div_iff₀ h0] at b1 b2 b3
    have t3 : |s - quot (F 0) x h| * h ≤ (402 / 100 * (|a| + |b|) + |r - quot (F 0) x h|) * h := by
      gcongr
      linarith
    have p6 : 0 ≤ K₃ * h ^ 3 := by positivity
    have e4 : (402 / 100 * (|a| + |b|) + |r - quot (F 0) x h|) * h = 402 / 100 * (|a| * h + |b| * h) + |r - quot (F 0) x h| * h := by ring
    rw [e4] at t3
    have hz' : z = η + ε * (C * |x|) + ε * (C * h) := by rw [hz]; ring
    have hw' : w = 1 / 2 * (ε * (C * h)) := by rw [hw]; ring
    have e5 : (B + η) * ε = ε * B + ε * η := by ring
    have e6 : ε * |x| * C = ε * (C * |x|) := by ring
    have e7 : ε * (C * (|x| + h)) = ε * (C * |x|) + ε * (C * h) := by ring
    rw [hz', hw'] at b1 b3
    rw [hz', hw', e5, e6] at b2
    rw [e7]
    linarith
  linarith

end

end Slat.Deriv
