import Verif.DiscModel
import Verif.CurveFRound
import Mathlib.Analysis.Complex.ExponentialBounds

/-!
# C80: discounted costs in machine arithmetic
-/

namespace Slat.CurveF

open Dbl

noncomputable section

theorem mul_pos_mono {C : Platform} (hC : Laws C) {p q : Dbl} {a : ℝ} (a0 : 0 < a) (h0 : .fin 0 ≤ p) (h : p ≤ q) :
    .fin 0 ≤ C.mul p (.fin a) ∧ C.mul p (.fin a) ≤ C.mul q (.fin a) := by
  have e : Dbl.pinf * .fin a = .pinf := by
    show Dbl.infTimes a = .pinf
    rw [Dbl.infTimes, if_neg a0.ne', if_pos a0]
  constructor
  · have : C.fix (.fin 0) ≤ C.fix (p * .fin a) := by
      refine fix_mono hC ?_
      rw [le_cases] at h0 ⊢
      cases p <;> simp_all
    have z : C.fix (.fin 0) = .fin 0 := hC.zero
    rwa [z] at this
  · refine fix_mono hC ?_
    rw [le_cases] at h0 h ⊢
    cases p <;> cases q <;> simp_all

theorem neg_fin_mul {C : Platform} (r : ℝ) (t : ℤ) : C.mul (-(.fin r)) (.fin t) = C.rnd (-(r * t)) := by
  show C.rnd (-r * t) = _
  rw [neg_mul]

/-- The part of a payment of one that is lost to discounting, in machine arithmetic. -/
theorem discount_part {C : Platform} (hC : Laws C) {r : ℝ} (r0 : 0 < r) : ∃ d : ℤ → ℝ,
    (∀ t : ℤ, 0 ≤ t → C.sub 1 (C.exp (C.mul (-(.fin r)) (.fin t))) = .fin (d t) ∧ 0 ≤ d t ∧ d t ≤ 1) ∧
    (∀ t t' : ℤ, 0 ≤ t → t ≤ t' → d t ≤ d t') ∧ d 0 = 0 := by
  have key : ∀ t : ℤ, ∃ d e : ℝ, 0 ≤ t → C.exp (C.mul (-(.fin r)) (.fin t)) = .fin e ∧ C.rnd (1 - e) = .fin d ∧ 0 ≤ d ∧ d ≤ 1 := by
    intro t
    by_cases h : 0 ≤ t
    · have tr : (0 : ℝ) ≤ t := by exact_mod_cast h
      have z : C.mul (-(.fin r)) (.fin t) ≤ .fin 0 := by
        have := hC.mono (-(r * t)) 0 (by have := mul_nonneg r0.le tr; linarith)
        rwa [hC.zero, ← neg_fin_mul] at this
      obtain ⟨e, ee, e0, e1⟩ := exp_unit hC z
      obtain ⟨d, ed, d0, d1, -⟩ := between hC hC.zero hC.one (show 0 ≤ 1 - e by linarith) (by linarith)
      exact ⟨d, e, fun _ => ⟨ee, ed, d0, d1⟩⟩
    · exact ⟨0, 0, fun k => absurd k h⟩
  choose d e h using key
  refine ⟨d, fun t h0 => ?_, fun t t' h0 hh => ?_, ?_⟩
  · obtain ⟨ee, ed, d0, d1⟩ := h t h0
    rw [ee, one_def, sub_fin_eq hC, ed]
    exact ⟨rfl, d0, d1⟩
  · obtain ⟨ee, ed, -, -⟩ := h t h0
    obtain ⟨ee', ed', -, -⟩ := h t' (h0.trans hh)
    have hr : (t : ℝ) ≤ t' := by exact_mod_cast hh
    have m : C.mul (-(.fin r)) (.fin t') ≤ C.mul (-(.fin r)) (.fin t) := by
      rw [neg_fin_mul, neg_fin_mul]
      exact hC.mono _ _ (by have := mul_le_mul_of_nonneg_left hr r0.le; linarith)
    have := exp_mono hC m
    rw [ee, ee', fin_le] at this
    have := hC.mono (1 - e t) (1 - e t') (by linarith)
    rwa [ed, ed', fin_le] at this
  · obtain ⟨ee, ed, -, -⟩ := h 0 le_rfl
    rw [neg_fin_mul, Int.cast_zero, mul_zero, neg_zero, hC.zero] at ee
    have x1 : C.exp (.fin 0) = .fin 1 := hC.expZero
    rw [x1, fin_inj] at ee
    rw [← ee, sub_self, hC.zero, fin_inj] at ed
    exact ed.symm

/-- **Shape of discounted costs**: for a positive discount rate and a positive mean annual cost the discounted cost is 0 for a span of no years, never
negative or NaN, never falls with the number of years, and never exceeds that of a perpetuity. -/
theorem discounted_rounded {C : Platform} (hC : Laws C) {r a : ℝ} (r0 : 0 < r) (a0 : 0 < a) :
    C.discounted (.fin a) 0 (.fin r) = .fin 0 ∧
    ∀ t t' : ℤ, 0 ≤ t → t ≤ t' → .fin 0 ≤ C.discounted (.fin a) t (.fin r) ∧
      C.discounted (.fin a) t (.fin r) ≤ C.discounted (.fin a) t' (.fin r) ∧
      C.discounted (.fin a) t' (.fin r) ≤ C.mul (C.div 1 (.fin r)) (.fin a) := by
  obtain ⟨d, hd, hm, hz⟩ := discount_part hC r0
  constructor
  · rw [Platform.discounted, (hd 0 le_rfl).1, hz, div_fin_eq hC r0.ne', zero_div, hC.zero, mul_fin_eq hC, zero_mul, hC.zero]
  · intro t t' h0 h
    have h0' := h0.trans h
    rw [Platform.discounted, Platform.discounted, (hd t h0).1, (hd t' h0').1]
    have q0 : .fin 0 ≤ C.div (.fin (d t)) (.fin r) := by
      rw [div_fin_eq hC r0.ne']
      have := hC.mono 0 (d t / r) (div_nonneg (hd t h0).2.1 r0.le)
      rwa [hC.zero] at this
    have q1 := div_mono hC r0 ((fin_le _ _).2 (hm t t' h0 h))
    have q2 : C.div (.fin (d t')) (.fin r) ≤ C.div 1 (.fin r) := div_mono hC r0 ((fin_le _ _).2 (hd t' h0').2.2)
    exact ⟨(mul_pos_mono hC a0 q0 q1).1, (mul_pos_mono hC a0 q0 q1).2, (mul_pos_mono hC a0 (le_tr q0 q1) q2).2⟩

/-- Fifty and a hundred years at five per cent in binary64. -/
example : .fin 0 ≤ double.discounted (.fin 1000) 50 (.fin (1 / 20)) ∧
    double.discounted (.fin 1000) 50 (.fin (1 / 20)) ≤ double.discounted (.fin 1000) 100 (.fin (1 / 20)) ∧
    double.discounted (.fin 1000) 100 (.fin (1 / 20)) ≤ double.mul (double.div 1 (.fin (1 / 20))) (.fin 1000) :=
  (discounted_rounded double_laws (by norm_num) (by norm_num)).2 50 100 (by norm_num) (by norm_num)

/-- **Series of years**: for years in order the discounted costs come in order too, one for each year. -/
theorem discountedAll_rounded {C : Platform} (hC : Laws C) {r a : ℝ} (r0 : 0 < r) (a0 : 0 < a) {years : List ℤ} (h0 : ∀ t ∈ years, 0 ≤ t)
    (h : years.Pairwise (· ≤ ·)) : (C.discountedAll (.fin a) years (.fin r)).length = years.length ∧
    (C.discountedAll (.fin a) years (.fin r)).Pairwise (· ≤ ·) ∧ ∀ v ∈ C.discountedAll (.fin a) years (.fin r), .fin 0 ≤ v := by
  refine ⟨List.length_map _, ?_, ?_⟩
  · rw [Platform.discountedAll, List.pairwise_map]
    refine h.imp_of_mem fun {t t'} ht _ k => ((discounted_rounded hC r0 a0).2 t t' (h0 t ht) k).2.1
  · intro v hv
    obtain ⟨t, ht, rfl⟩ := List.mem_map.1 hv
    exact ((discounted_rounded hC r0 a0).2 t t (h0 t ht) le_rfl).1

example : (double.discountedAll (.fin 1000) [0, 10, 50] (.fin (1 / 20))).Pairwise (· ≤ ·) :=
  (discountedAll_rounded double_laws (by norm_num) (by norm_num) (by simp) (by simp)).2.1

/-! ## Error -/

/-- The discounted cost in exact arithmetic: the integral of the annual cost over the years with continuous discounting. -/
def discountedExact (a r t : ℝ) : ℝ := (1 - Real.exp (-(r * t))) / r * a

/-- **Relative error of discounted costs**, without overflow and underflow: a few units of rounding divided by the part lost to
discounting, `1 - exp(-rate * years)`. -/
theorem discounted_accurate {C : Platform} {u : ℝ} (h : LnF.Accurate C.toMachine u) (hu : u ≤ 1 / 100) {r a : ℝ} {t : ℤ} (r0 : 0 < r) (t0 : 0 < t) :
    ∃ w, C.discounted (.fin a) t (.fin r) = .fin w ∧
      |w - discountedExact a r t| ≤ (4 * u / (1 - Real.exp (-(r * t))) + 4 * u) * |discountedExact a r t| := by
  have u0 := h.nonneg
  have tr : (0 : ℝ) < t := by exact_mod_cast t0
  have y0 : 0 < r * t := mul_pos r0 tr
  generalize hy : r * (t : ℝ) = y at *
  have E1 : Real.exp (-y) < 1 := by rw [Real.exp_lt_one_iff]; linarith
  have E0 := Real.exp_pos (-y)
  -- exponent
  have b1 := LnF.r_rel h (-y)
  rw [abs_neg, abs_of_pos y0] at b1
  have c1 := abs_le.1 b1
  generalize hY : C.r (-y) = Y at *
  have Yneg : Y ≤ -(99 / 100 * y) := by nlinarith
  have ex : |Real.exp Y - Real.exp (-y)| ≤ u := by
    have lip : |Real.exp Y - Real.exp (-y)| ≤ u * y * Real.exp (-(99 / 100 * y)) := by
      have g : ∀ p q : ℝ, p ≤ q → q ≤ -(99 / 100 * y) → Real.exp q - Real.exp p ≤ (q - p) * Real.exp (-(99 / 100 * y)) := by
        intro p q hpq hq
        have e1 : Real.exp p = Real.exp q * Real.exp (p - q) := by rw [← Real.exp_add]; congr 1; ring
        have e2 := Real.add_one_le_exp (p - q)
        have e3 := Real.exp_le_exp.2 hq
        have e4 := (Real.exp_pos q).le
        have : Real.exp q - Real.exp p ≤ Real.exp q * (q - p) := by
          rw [e1]; nlinarith
        refine this.trans ?_
        rw [mul_comm]
        exact mul_le_mul_of_nonneg_left e3 (by linarith)
      have e0 := (Real.exp_pos (-(99 / 100 * y))).le
      rcases le_total Y (-y) with k | k
      · have := g Y (-y) k (by linarith)
        rw [abs_sub_comm, abs_of_nonneg (by have := Real.exp_le_exp.2 k; linarith)]
        refine this.trans (mul_le_mul_of_nonneg_right ?_ e0)
        linarith
      · have := g (-y) Y k Yneg
        rw [abs_of_nonneg (by have := Real.exp_le_exp.2 k; linarith)]
        refine this.trans (mul_le_mul_of_nonneg_right ?_ e0)
        linarith
    have small : y * Real.exp (-(99 / 100 * y)) ≤ 1 := by
      have p1 := Real.add_one_le_exp (99 / 100 * y - 1)
      have p2 := Real.exp_one_gt_d9
      have p3 : Real.exp (99 / 100 * y - 1) * Real.exp 1 * Real.exp (-(99 / 100 * y)) = 1 := by
        rw [← Real.exp_add, ← Real.exp_add]
        rw [Real.exp_eq_one_iff]; ring
      have p4 := Real.exp_pos (-(99 / 100 * y))
      have p5 : y ≤ Real.exp (99 / 100 * y - 1) * Real.exp 1 := by nlinarith
      calc y * Real.exp (-(99 / 100 * y)) ≤ Real.exp (99 / 100 * y - 1) * Real.exp 1 * Real.exp (-(99 / 100 * y)) := mul_le_mul_of_nonneg_right p5 p4.le
        _ = 1 := p3
    calc |Real.exp Y - Real.exp (-y)| ≤ u * (y * Real.exp (-(99 / 100 * y))) := by rw [← mul_assoc]; exact lip
      _ ≤ u * 1 := mul_le_mul_of_nonneg_left small u0
      _ = u := mul_one u
  -- exponential
  have eY1 : Real.exp Y ≤ 1 := by rw [Real.exp_le_one_iff]; nlinarith
  have b2 : |C.e Y - Real.exp Y| ≤ u := by
    obtain ⟨z, hz, hr, -⟩ := h.exp Y
    have : C.e Y = z := by rw [LnF.Machine.e, hz]; rfl
    rw [this]
    exact hr.trans (mul_le_of_le_one_right u0 eY1)
  generalize hD : 1 - Real.exp (-y) = D at *
  have D0 : 0 < D := by linarith
  have D1 : D < 1 := by linarith
  have b3 : |(1 - C.e Y) - D| ≤ 2 * u := by
    rw [← hD]
    have := abs_le.1 ex
    have := abs_le.1 b2
    rw [abs_le]; constructor <;> linarith
  have b4 := LnF.r_rel h (1 - C.e Y)
  generalize hd : C.r (1 - C.e Y) = d at *
  have b5 : |d - D| ≤ 101 / 100 * (2 * u) + u * D := by
    have g : |1 - C.e Y| ≤ D + 2 * u := by
      have := abs_le.1 b3
      rw [abs_le]; constructor <;> linarith
    have := mul_le_mul_of_nonneg_left g u0
    have uu : u * (2 * u) ≤ 1 / 100 * (2 * u) := by gcongr
    calc |d - D| = |(d - (1 - C.e Y)) + ((1 - C.e Y) - D)| := by ring_nf
      _ ≤ |d - (1 - C.e Y)| + |(1 - C.e Y) - D| := abs_add_le _ _
      _ ≤ _ := by nlinarith
  -- quotient
  have b6 := LnF.r_rel h (d / r)
  have b7 : |d / r - D / r| ≤ (101 / 100 * (2 * u) / D + u) * (D / r) := by
    rw [← sub_div, abs_div, abs_of_pos r0, div_le_iff₀ r0]
    have : (101 / 100 * (2 * u) / D + u) * (D / r) * r = 101 / 100 * (2 * u) + u * D := by field_simp
    rw [this]; exact b5
  have uD : 0 ≤ u / D := div_nonneg u0 D0.le
  have Dr : 0 < D / r := div_pos D0 r0
  have e1 : 101 / 100 * (2 * u) / D = 202 / 100 * (u / D) := by ring
  rw [e1] at b7
  generalize hq : C.r (d / r) = q at *
  generalize hG : D / r = G at *
  have e2 : 4 * u / D = 4 * (u / D) := by ring
  rw [e2]
  generalize u / D = v at *
  have b8 : |q - G| ≤ (205 / 100 * v + 203 / 100 * u) * G := by
    have g : |d / r| ≤ G + (202 / 100 * v + u) * G := by
      have := abs_le.1 b7
      rw [abs_le]
      constructor <;> nlinarith [mul_nonneg uD Dr.le, mul_nonneg u0 Dr.le]
    have := mul_le_mul_of_nonneg_left g u0
    have k1 : u * (v * G) ≤ 1 / 100 * (v * G) := by gcongr
    have k2 : u * (u * G) ≤ 1 / 100 * (u * G) := by gcongr
    calc |q - G| = |(q - d / r) + (d / r - G)| := by ring_nf
      _ ≤ |q - d / r| + |d / r - G| := abs_add_le _ _
      _ ≤ _ := by nlinarith [mul_nonneg uD Dr.le, mul_nonneg u0 Dr.le]
  have b9 := LnF.r_rel h (q * a)
  refine ⟨C.r (q * a), ?_, ?_⟩
  · have : C.mul (-(.fin r)) (.fin t) = .fin Y := by
      show C.rnd (-r * t) = _
      rw [neg_mul, hy, LnF.rnd_eq h, hY]
    rw [Platform.discounted, this, LnF.exp_fin h, one_def, LnF.sub_fin h, hd, LnF.div_fin h _ r0.ne', hq, LnF.mul_fin h]
  · have A0 := abs_nonneg a
    have xe : discountedExact a r t = G * a := by
      rw [discountedExact, hy, hD, hG]
    rw [xe, abs_mul, abs_of_pos Dr]
    have m1 : |q * a - G * a| ≤ (205 / 100 * v + 203 / 100 * u) * G * |a| := by
      rw [← sub_mul, abs_mul]
      exact mul_le_mul_of_nonneg_right b8 A0
    have m2 : |q * a| ≤ G * |a| + (205 / 100 * v + 203 / 100 * u) * G * |a| := by
      calc |q * a| = |G * a + (q * a - G * a)| := by ring_nf
        _ ≤ |G * a| + |q * a - G * a| := abs_add_le _ _
        _ ≤ _ := by rw [abs_mul, abs_of_pos Dr]; linarith
    have GA : 0 ≤ G * |a| := mul_nonneg Dr.le A0
    have m3 := mul_le_mul_of_nonneg_left m2 u0
    have k1 : u * (v * (G * |a|)) ≤ 1 / 100 * (v * (G * |a|)) := by gcongr
    have k2 : u * (u * (G * |a|)) ≤ 1 / 100 * (u * (G * |a|)) := by gcongr
    calc |C.r (q * a) - G * a| = |(C.r (q * a) - q * a) + (q * a - G * a)| := by ring_nf
      _ ≤ |C.r (q * a) - q * a| + |q * a - G * a| := abs_add_le _ _
      _ ≤ u * (G * |a| + (205 / 100 * v + 203 / 100 * u) * G * |a|) + (205 / 100 * v + 203 / 100 * u) * G * |a| := by linarith
      _ = u * (G * |a|) + 205 / 100 * (u * (v * (G * |a|))) + 203 / 100 * (u * (u * (G * |a|))) + 205 / 100 * (v * (G * |a|)) + 203 / 100 * (u * (G * |a|)) := by ring
      _ ≤ 4 * (v * (G * |a|)) + 4 * (u * (G * |a|)) := by
        have := mul_nonneg uD GA
        have := mul_nonneg u0 GA
        linarith
      _ = _ := by ring

/-- Fifty years at one in sixteen, in double precision without overflow and underflow: an error of less than ten units of rounding. -/
example : ∃ C : Platform, LnF.Accurate C.toMachine (1 / 2 ^ 53) ∧ ∃ w, C.discounted (.fin 1000) 50 (.fin (1 / 16)) = .fin w ∧
    |w - discountedExact 1000 (1 / 16) 50| ≤ 10 * (1 / 2 ^ 53) * |discountedExact 1000 (1 / 16) 50| := by
  let C : Platform := { toMachine := LnF.ieee, rpow := fun _ _ => .nan, rP := fun _ => .nan, rQ := fun _ => .nan }
  have hC : LnF.Accurate C.toMachine (1 / 2 ^ 53) := LnF.ieee_accurate
  obtain ⟨w, hw, e⟩ := discounted_accurate hC (by norm_num) (r := 1 / 16) (a := 1000) (t := 50) (by norm_num) (by norm_num)
  refine ⟨C, hC, w, hw, e.trans (mul_le_mul_of_nonneg_right ?_ (abs_nonneg _))⟩
  have small : Real.exp (-(1 / 16 * ((50 : ℤ) : ℝ))) ≤ 1 / 3 := by
    have h1 := Real.add_one_le_exp (1 / 16 * ((50 : ℤ) : ℝ))
    rw [Real.exp_neg, inv_le_comm₀ (Real.exp_pos _) (by norm_num)]
    norm_num at h1 ⊢
    linarith
  have u0 : (0 : ℝ) < 1 / 2 ^ 53 := by positivity
  generalize (1 : ℝ) / 2 ^ 53 = u at *
  generalize Real.exp (-(1 / 16 * ((50 : ℤ) : ℝ))) = z at *
  have : 4 * u / (1 - z) ≤ 6 * u := by
    rw [div_le_iff₀ (by linarith)]
    nlinarith
  linarith

/-! ## Small discount rates -/

theorem round_to_one {x : ℝ} (h : 1 - 2 ^ (-55 : ℤ) ≤ x) (h' : x ≤ 1) : round (-1074) x = .fin 1 := by
  have one := double_one
  rcases eq_or_lt_of_le h' with rfl | lt
  · exact one
  have s55 : (0 : ℝ) < 2 ^ (-55 : ℤ) := by positivity
  have s1 : (2 : ℝ) ^ (-55 : ℤ) < 1 := by norm_num
  have x0 : 0 < x := by linarith
  have q : quantum (-1074) x ≤ -53 := by
    by_contra k
    push Not at k
    have := above_quantum (e := -1074) x0 (by omega)
    have : (2 : ℝ) ^ (0 : ℤ) ≤ 2 ^ (quantum (-1074) x + 52) := two_mono (by omega)
    rw [zpow_zero] at this
    linarith
  have err := posR_error (e := -1074) x0
  have qq : (2 : ℝ) ^ quantum (-1074) x ≤ 2 ^ (-53 : ℤ) := two_mono q
  have m := round_mono (e := -1074) h'
  rw [one] at m
  have near1 : near (-1074) x ≤ 1 := by
    have := near_mono (e := -1074) h'
    rwa [(round_eq one).1] at this
  rw [near_pos x0] at near1
  have low : 1 - 2 ^ (-55 : ℤ) - 2 ^ (-53 : ℤ) / 2 ≤ posR (-1074) x := by
    have k := (abs_le.1 err).1
    clear s1 s55
    generalize (2 : ℝ) ^ quantum (-1074) x = c at *
    generalize (2 : ℝ) ^ (-55 : ℤ) = a at *
    generalize (2 : ℝ) ^ (-53 : ℤ) = b at *
    linarith
  have fin : round (-1074) x = .fin (posR (-1074) x) := by
    rw [← near_pos x0]
    refine round_fin ?_
    rw [near_pos x0, abs_of_nonneg (posR_nonneg x0)]
    have : (2 : ℝ) ^ (1 : ℤ) ≤ 2 ^ (1024 : ℤ) := two_mono (by norm_num)
    rw [zpow_one] at this
    exact lt_of_lt_of_le (lt_of_le_of_lt near1 one_lt_two) this
  rw [fin, fin_inj]
  by_contra ne
  have lt1 : posR (-1074) x < 1 := lt_of_le_of_ne near1 ne
  have pos : 0 < posR (-1074) x := by
    have : (2 : ℝ) ^ (-53 : ℤ) < 1 := by norm_num
    have : (2 : ℝ) ^ (-55 : ℤ) ≤ 1 / 4 := by norm_num
    linarith
  have g := gap (round_idem fin) one pos lt1
  rw [one_mul] at g
  have : (2 : ℝ) ^ (-53 : ℤ) = 4 * 2 ^ (-55 : ℤ) := by norm_num
  rw [this] at g low
  generalize (2 : ℝ) ^ (-55 : ℤ) = c at *
  linarith

/-- **Small discount rates are not handled**: in binary64 a rate of `2^-60` makes the discounted cost of any annual cost 0 over up to 32
years, although it is more than nine tenths of the undiscounted sum; so a larger rate gives a larger cost.  A rate of 0 gives NaN. -/
theorem discounted_fails :
    (∀ (a : ℝ) (t : ℤ), 0 ≤ t → t ≤ 32 → double.discounted (.fin a) t (.fin (2 ^ (-60 : ℤ))) = .fin 0) ∧
    (∀ (a : ℝ) (t : ℤ), 0 ≤ a → 0 ≤ t → t ≤ 32 → 9 / 10 * (a * t) ≤ discountedExact a (2 ^ (-60 : ℤ)) t) ∧
    .fin 0 < double.discounted (.fin 1) 1 (.fin 1) ∧
    ∀ (a : ℝ) (t : ℤ), double.discounted (.fin a) t (.fin 0) = .nan := by
  have tiny : (0 : ℝ) < 2 ^ (-60 : ℤ) := by positivity
  refine ⟨fun a t t0 t1 => ?_, fun a t a0 t0 t1 => ?_, ?_, fun a t => ?_⟩
  · have rep : round (-1074) (2 ^ (-60 : ℤ) * t) = .fin (2 ^ (-60 : ℤ) * t) := by
      have := double_num t.toNat (-60) (by omega) (by norm_num) (by norm_num)
      have e : ((t.toNat : ℕ) : ℝ) = t := by
        have : ((t.toNat : ℤ) : ℝ) = t := by rw [Int.toNat_of_nonneg t0]
        exact_mod_cast this
      rw [e, mul_comm] at this
      exact this
    have p : double.mul (-(.fin (2 ^ (-60 : ℤ)))) (.fin t) = .fin (-(2 ^ (-60 : ℤ) * t)) := by
      rw [neg_fin_mul]
      exact round_neg rep
    have tr : (0 : ℝ) ≤ t := by exact_mod_cast t0
    have tr' : (t : ℝ) ≤ 32 := by exact_mod_cast t1
    have x : double.exp (.fin (-(2 ^ (-60 : ℤ) * t))) = .fin 1 := by
      refine round_to_one ?_ ?_
      · have := Real.add_one_le_exp (-(2 ^ (-60 : ℤ) * (t : ℝ)))
        have k : (2 : ℝ) ^ (-60 : ℤ) * t ≤ 2 ^ (-60 : ℤ) * 32 := by gcongr
        have k' : (2 : ℝ) ^ (-60 : ℤ) * 32 = 2 ^ (-55 : ℤ) := by norm_num
        linarith
      · rw [Real.exp_le_one_iff]
        have := mul_nonneg tiny.le tr
        linarith
    rw [Platform.discounted, p, x, one_def, sub_fin_eq double_laws, sub_self, double_laws.zero, div_fin_eq double_laws tiny.ne', zero_div,
      double_laws.zero, mul_fin_eq double_laws, zero_mul, double_laws.zero]
  · have tr : (0 : ℝ) ≤ t := by exact_mod_cast t0
    have tr' : (t : ℝ) ≤ 32 := by exact_mod_cast t1
    have r1 : (2 : ℝ) ^ (-60 : ℤ) * 320 ≤ 1 := by norm_num
    generalize (2 : ℝ) ^ (-60 : ℤ) = r at *
    have y0 : 0 ≤ r * t := mul_nonneg tiny.le tr
    have y1 : r * t ≤ 1 / 10 := by nlinarith
    have ex : 9 / 10 * (r * t) ≤ 1 - Real.exp (-(r * t)) := by
      have h1 := Real.add_one_le_exp (r * t)
      have h2 : Real.exp (-(r * t)) ≤ 1 / (1 + r * t) := by
        rw [Real.exp_neg, one_div]
        exact inv_anti₀ (by linarith) (by linarith)
      have h3 : 1 / (1 + r * t) ≤ 1 - 9 / 10 * (r * t) := by
        rw [div_le_iff₀ (by linarith)]
        nlinarith
      linarith
    have : 9 / 10 * (t : ℝ) ≤ (1 - Real.exp (-(r * t))) / r := by
      rw [le_div_iff₀ tiny]
      linarith
    have := mul_le_mul_of_nonneg_right this a0
    rw [discountedExact]
    linarith
  · have one := double_one
    have half : round (-1074) (1 / 2) = .fin (1 / 2) := by
      have := double_num 1 (-1) (by norm_num) (by norm_num) (by norm_num)
      norm_num at this
      exact this
    have p : double.mul (-(.fin 1)) (.fin ((1 : ℤ) : ℝ)) = .fin (-1) := by
      rw [neg_fin_mul, Int.cast_one, mul_one]
      exact round_neg one
    obtain ⟨e, he, e0, e1⟩ := exp_unit double_laws (show Dbl.fin (-1) ≤ .fin 0 by rw [fin_le]; norm_num)
    have eh : e ≤ 1 / 2 := by
      have k : Real.exp (-1) ≤ 1 / 2 := by
        have := Real.exp_one_gt_d9
        rw [Real.exp_neg, inv_le_comm₀ (Real.exp_pos _) (by norm_num)]
        norm_num
        linarith
      have m := round_mono (e := -1074) k
      have he' : round (-1074) (Real.exp (-1)) = .fin e := he
      rwa [he', half, fin_le] at m
    obtain ⟨d, hd, d0, d1, -⟩ := between double_laws (show Rep double (1 / 2) from half) double_laws.one (show 1 / 2 ≤ 1 - e by linarith) (by linarith)
    have rd : double.rnd d = .fin d := double_laws.idem _ _ hd
    rw [Platform.discounted, p, he, one_def, sub_fin_eq double_laws, hd, div_fin_eq double_laws one_ne_zero, div_one, rd, mul_fin_eq double_laws,
      mul_one, rd, fin_lt]
    linarith
  · have p : double.mul (-(.fin 0)) (.fin t) = .fin 0 := by
      rw [neg_fin_mul, zero_mul, neg_zero]
      exact double_laws.zero
    have x : double.exp (.fin 0) = .fin 1 := double_laws.expZero
    rw [Platform.discounted, p, x, one_def, sub_fin_eq double_laws, sub_self, double_laws.zero]
    have : (Dbl.fin 0 : Dbl) / .fin 0 = .nan := by
      simp [Dbl.fin_div, Dbl.infTimes]
    rw [LnF.Machine.div, this]
    rfl

end

end Slat.CurveF
