import Verif.CurveFRound
import Mathlib.Analysis.Complex.ExponentialBounds

/-!
# C79: rate and probability curves survive rounding

With overflow, underflow and rounding of every operation (`CurveFModel`), for every platform that satisfies the `Laws`
(`CurveFRound`: binary64 does).
-/

namespace Slat.CurveF

open Dbl

noncomputable section

/-! ## The hyperbolic hazard curve -/

/-- A hyperbolic hazard curve: finite rates between zero and the asymptote, never rising, the asymptote at zero, and nothing from the
other asymptote on. -/
theorem hazard_rounded {C : Platform} (hC : Laws C) {v im al : ℝ} (hv : Rep C v) (hi : Rep C im) (v0 : 0 ≤ v) (a0 : 0 ≤ al) :
    ∃ rate : ℝ → ℝ, (∀ x, 0 ≤ x → Rep C x → C.nlh (.fin v) (.fin im) (.fin al) (.fin x) = .fin (rate x) ∧ 0 ≤ rate x ∧ rate x ≤ v) ∧
      (∀ x y, 0 ≤ x → x ≤ y → Rep C x → Rep C y → rate y ≤ rate x) ∧ (0 < im → rate 0 = v) ∧ ∀ x, 0 ≤ x → Rep C x → im ≤ x → rate x = 0 := by
  have key : ∀ x, ∃ r : ℝ, 0 ≤ x → Rep C x → C.nlh (.fin v) (.fin im) (.fin al) (.fin x) = .fin r ∧ 0 ≤ r ∧ r ≤ v := by
    intro x
    by_cases h : 0 ≤ x ∧ Rep C x
    · by_cases k : im ≤ x
      · exact ⟨0, fun _ _ => ⟨by rw [Platform.nlh, if_pos ((fin_le _ _).2 k)]; rfl, le_rfl, v0⟩⟩
      · obtain ⟨q, eq, q0, q1, rq⟩ := quotient_ok hC h.2 hi h.1 (not_le.1 k)
        obtain ⟨t, et, t0, t1⟩ := exp_unit hC (exponent_ok hC a0 (log_below hC q0 q1 rq))
        obtain ⟨w, ew, w0, w1, -⟩ := scaled hC hv v0 t0 t1
        exact ⟨w, fun _ _ => ⟨by rw [Platform.nlh, if_neg (fun c => k ((fin_le _ _).1 c)), eq, et, ew], w0, w1⟩⟩
    · exact ⟨0, fun a b => absurd ⟨a, b⟩ h⟩
  choose rate hr using key
  refine ⟨rate, hr, fun x y h0 h hx hy => ?_, fun i0 => ?_, fun x h0 hx h => ?_⟩
  · have y0 := h0.trans h
    by_cases k : im ≤ y
    · have := (hr y y0 hy).1
      rw [Platform.nlh, if_pos ((fin_le _ _).2 k)] at this
      have e : rate y = 0 := by
        have : Dbl.fin 0 = Dbl.fin (rate y) := this
        rw [fin_inj] at this
        exact this.symm
      rw [e]
      exact (hr x h0 hx).2.1
    · have k' : ¬ im ≤ x := fun c => k (c.trans h)
      have i0 : 0 < im := y0.trans_lt (not_le.1 k)
      obtain ⟨q, eq, q0, q1, rq⟩ := quotient_ok hC hx hi h0 (not_le.1 k')
      obtain ⟨q', eq', q0', q1', rq'⟩ := quotient_ok hC hy hi y0 (not_le.1 k)
      have qq : q ≤ q' := by
        have := hC.mono _ _ (div_le_div_of_nonneg_right h i0.le)
        rw [← div_fin_eq hC i0.ne', ← div_fin_eq hC i0.ne', eq, eq', fin_le] at this
        exact this
      have n := log_below hC q0 q1 rq
      have n' := log_below hC q0' q1' rq'
      have ex := exp_mono hC (exponent_anti hC a0 n n' (log_mono hC q0 qq))
      obtain ⟨t, et, t0, t1⟩ := exp_unit hC (exponent_ok hC a0 n)
      obtain ⟨t', et', t0', t1'⟩ := exp_unit hC (exponent_ok hC a0 n')
      rw [et, et', fin_le] at ex
      have e1 := (hr x h0 hx).1
      have e2 := (hr y y0 hy).1
      rw [Platform.nlh, if_neg (fun c => k' ((fin_le _ _).1 c)), eq, et, mul_fin_eq hC] at e1
      rw [Platform.nlh, if_neg (fun c => k ((fin_le _ _).1 c)), eq', et', mul_fin_eq hC] at e2
      have := hC.mono _ _ (mul_le_mul_of_nonneg_left ex v0)
      rwa [e1, e2, fin_le] at this
  · have e := (hr 0 le_rfl hC.zero).1
    rw [Platform.nlh, if_neg (fun c => absurd ((fin_le _ _).1 c) (not_le.2 i0)), div_fin_eq hC i0.ne', zero_div, hC.zero] at e
    have l : C.log (.fin 0) = .ninf := by
      unfold LnF.Machine.log
      dsimp only
      rw [if_neg (lt_irrefl _), Dbl.log_zero]
    have d : C.div (.fin al) .ninf = C.rnd 0 := rfl
    have x1 : C.exp (.fin 0) = .fin 1 := hC.expZero
    rw [l, d, hC.zero, x1, mul_fin_eq hC, mul_one, hv, fin_inj] at e
    exact e.symm
  · have e := (hr x h0 hx).1
    rw [Platform.nlh, if_pos ((fin_le _ _).2 h)] at e
    have : Dbl.fin 0 = Dbl.fin (rate x) := e
    rw [fin_inj] at this
    exact this.symm

/-- The hazard curve of the examples of the project, in binary64: a rate, and not the asymptote, at an intensity of one. -/
example : ∃ rate : ℝ → ℝ, (∀ x, 0 ≤ x → Rep double x → double.nlh (.fin 1221) (.fin 30) (.fin 62) (.fin x) = .fin (rate x) ∧ 0 ≤ rate x ∧ rate x ≤ 1221) ∧
    (∀ x y, 0 ≤ x → x ≤ y → Rep double x → Rep double y → rate y ≤ rate x) ∧ (0 < (30 : ℝ) → rate 0 = 1221) ∧
    ∀ x, 0 ≤ x → Rep double x → 30 ≤ x → rate x = 0 :=
  hazard_rounded double_laws (by simpa using double_int 1221 (by norm_num)) (by simpa using double_int 30 (by norm_num)) (by norm_num) (by norm_num)

/-- The hyperbolic law in exact arithmetic. -/
def hyperbola (v im al x : ℝ) : ℝ := v * Real.exp (al / Real.log (x / im))

/-- **Relative error of the hazard curve** where no operation overflows or underflows: the error `rho` of the logarithm (large near the
asymptote, where the logarithm is small) enters multiplied by the exponent. -/
theorem hazard_accurate {C : Platform} {u : ℝ} (h : LnF.Accurate C.toMachine u) {v im al x : ℝ} (v0 : 0 ≤ v) (a0 : 0 ≤ al) (x0 : 0 < x) (xi : x < im)
    {rho : ℝ} (hr : LnF.eps u + u * (Real.log (im / x) + LnF.eps u) ≤ rho * Real.log (im / x)) (hr1 : rho < 1) :
    ∃ w, C.nlh (.fin v) (.fin im) (.fin al) (.fin x) = .fin w ∧
      LnF.Near (2 * LnF.eps u + ((1 - rho)⁻¹ * (1 - u)⁻¹ - 1) * (al / Real.log (im / x))) w (hyperbola v im al x) := by
  have i0 : 0 < im := x0.trans xi
  have q0 : 0 < x / im := div_pos x0 i0
  have u1 := h.small
  have u0 := h.nonneg
  have e0 := LnF.eps_nonneg u0 u1
  have L0 : 0 < Real.log (im / x) := Real.log_pos ((one_lt_div x0).2 xi)
  have lq : Real.log (x / im) = -Real.log (im / x) := by rw [← Real.log_inv, inv_div]
  generalize hL : Real.log (im / x) = L at *
  -- quotient and logarithm
  have nq := LnF.r_near h q0.le
  have rq0 : 0 < C.r (x / im) := nq.pos q0
  have d1 := nq.abs_log q0
  rw [lq] at d1
  have d2 := LnF.l_rel h rq0
  have d3 : |(-C.l (C.r (x / im))) - L| ≤ rho * |L| := by
    rw [abs_of_pos L0]
    refine le_trans ?_ hr
    have t : |Real.log (C.r (x / im))| ≤ L + LnF.eps u := by
      have := abs_le.1 d1
      rw [abs_le]; constructor <;> linarith
    have t' := mul_le_mul_of_nonneg_left t u0
    have := abs_le.1 d1
    have := abs_le.1 d2
    rw [abs_le]; constructor <;> linarith
  have nl := LnF.near_rel hr1 L0.le d3
  have l0 : 0 < -C.l (C.r (x / im)) := nl.pos L0
  -- exponent
  have na : LnF.Near 0 al al := LnF.Near.refl le_rfl a0
  have nz := na.div nl a0 L0
  have z0 : 0 ≤ al / -C.l (C.r (x / im)) := div_nonneg a0 l0.le
  have rz : |(-C.r (al / C.l (C.r (x / im)))) - al / -C.l (C.r (x / im))| ≤ u * |al / -C.l (C.r (x / im))| := by
    have := LnF.r_rel h (al / C.l (C.r (x / im)))
    rw [div_neg, abs_neg, show -C.r (al / C.l (C.r (x / im))) - -(al / C.l (C.r (x / im))) = -(C.r (al / C.l (C.r (x / im))) - al / C.l (C.r (x / im))) by ring, abs_neg]
    exact this
  have ne := (LnF.near_rel u1 z0 rz).trans nz
  have rho0 : 0 ≤ rho := by
    by_contra c
    have := mul_pos_of_neg_of_neg (not_le.1 c) (neg_lt_zero.2 L0)
    nlinarith [mul_nonneg u0 (add_nonneg L0.le e0)]
  have er0 := LnF.eps_nonneg rho0 hr1
  have dist := ne.abs_sub (by linarith) (div_nonneg a0 L0.le)
  have fac : Real.exp (LnF.eps u + (0 + LnF.eps rho)) = (1 - rho)⁻¹ * (1 - u)⁻¹ := by
    rw [zero_add, Real.exp_add, LnF.exp_eps u1, LnF.exp_eps hr1, mul_comm]
  rw [fac] at dist
  have ex : |C.r (al / C.l (C.r (x / im))) - al / Real.log (x / im)| ≤ ((1 - rho)⁻¹ * (1 - u)⁻¹ - 1) * (al / L) := by
    rw [lq, div_neg, ← abs_neg]
    refine le_trans (le_of_eq ?_) dist
    congr 1
    ring
  have nx := (LnF.e_near h (C.r (al / C.l (C.r (x / im))))).trans (LnF.Near.of_exp ex)
  have nv : LnF.Near 0 v v := LnF.Near.refl le_rfl v0
  have fin := LnF.near_mul h nv nx v0 (Real.exp_pos _).le
  refine ⟨C.r (v * C.e (C.r (al / C.l (C.r (x / im))))), ?_, ?_⟩
  · rw [Platform.nlh, if_neg (fun c => absurd ((fin_le _ _).1 c) (not_le.2 xi)), LnF.div_fin h _ i0.ne', LnF.log_fin h rq0,
      LnF.div_fin h _ (by linarith : C.l (C.r (x / im)) < 0).ne, LnF.exp_fin h, LnF.mul_fin h]
  · rw [show 2 * LnF.eps u + ((1 - rho)⁻¹ * (1 - u)⁻¹ - 1) * (al / L) = 0 + (LnF.eps u + ((1 - rho)⁻¹ * (1 - u)⁻¹ - 1) * (al / L)) + LnF.eps u by ring]
    exact fin

/-- A hazard curve with 53 significant bits at an intensity of a quarter of the asymptote: twelve digits. -/
example (C : Platform) (hC : C.toMachine = LnF.ieee) : ∃ w, C.nlh (.fin 1221) (.fin 4) (.fin 62) (.fin 1) = .fin w ∧
    LnF.Near (1 / 10 ^ 12) w (hyperbola 1221 4 62 1) := by
  have h : LnF.Accurate C.toMachine (1 / 2 ^ 53) := by rw [hC]; exact LnF.ieee_accurate
  have lb := Real.log_two_gt_d9
  have ub := Real.log_two_lt_d9
  have l4 : Real.log (4 / 1) = 2 * Real.log 2 := by
    rw [show (4 / 1 : ℝ) = 2 ^ 2 by norm_num, Real.log_pow]; norm_num
  have e1 : LnF.eps (1 / 2 ^ 53) ≤ 1 / 2 ^ 52 := by
    rw [LnF.eps, ← Real.log_inv]
    refine (Real.log_le_sub_one_of_pos (by norm_num)).trans ?_
    norm_num
  have e0 := LnF.eps_nonneg (u := 1 / 2 ^ 53) (by norm_num) (by norm_num)
  obtain ⟨w, ew, hw⟩ := hazard_accurate h (v := 1221) (im := 4) (al := 62) (x := 1) (rho := 1 / 2 ^ 51) (by norm_num) (by norm_num) (by norm_num) (by norm_num)
    (by
      rw [l4]
      generalize LnF.eps (1 / 2 ^ 53) = e at *
      generalize Real.log 2 = K at *
      norm_num at *
      linarith) (by norm_num)
  refine ⟨w, ew, hw.mono ?_ (by unfold hyperbola; positivity)⟩
  rw [l4]
  have k : 62 / (2 * Real.log 2) ≤ 50 := by
    rw [div_le_iff₀ (by linarith)]; linarith
  have k0 : 0 ≤ 62 / (2 * Real.log 2) := by
    have : 0 < Real.log 2 := by linarith
    positivity
  generalize 62 / (2 * Real.log 2) = K at *
  generalize LnF.eps (1 / 2 ^ 53) = e at *
  norm_num at *
  nlinarith

/-! ## The power law -/

/-- A power law with positive coefficients: never negative, never falling, zero at zero; it may reach infinity. -/
theorem power_rounded {C : Platform} (hC : Laws C) {a b : ℝ} (a0 : 0 < a) (b0 : 0 < b) :
    C.plc a b 0 = .fin 0 ∧ ∀ x y, 0 ≤ x → x ≤ y → .fin 0 ≤ C.plc a b x ∧ C.plc a b x ≤ C.plc a b y := by
  have mul_mono : ∀ {p q : Dbl}, .fin 0 ≤ p → p ≤ q → .fin 0 ≤ C.mul (.fin a) p ∧ C.mul (.fin a) p ≤ C.mul (.fin a) q := by
    intro p q h0 h
    have e : Dbl.fin a * .pinf = .pinf := by
      show Dbl.infTimes a = .pinf
      rw [Dbl.infTimes, if_neg a0.ne', if_pos a0]
    constructor
    · have : C.fix (.fin 0) ≤ C.fix (Dbl.fin a * p) := by
        refine fix_mono hC ?_
        rw [le_cases] at h0 ⊢
        cases p <;> simp_all
      have z : C.fix (.fin 0) = .fin 0 := hC.zero
      rwa [z] at this
    · refine fix_mono hC ?_
      rw [le_cases] at h0 h ⊢
      cases p <;> cases q <;> simp_all
  have pow0 : C.pow 0 b = .fin 0 := by
    rw [Platform.pow, if_neg (lt_irrefl _), if_pos rfl, if_pos b0]; rfl
  refine ⟨?_, fun x y h0 h => ?_⟩
  · rw [Platform.plc, pow0, mul_fin_eq hC, mul_zero, hC.zero]
  · have pn : ∀ x, 0 ≤ x → .fin 0 ≤ C.pow x b := by
      intro x h0
      rcases h0.eq_or_lt with rfl | h0
      · rw [pow0]; exact (fin_le _ _).2 le_rfl
      · rw [Platform.pow, if_pos h0]; exact hC.powNonneg x b h0
    have pm : C.pow x b ≤ C.pow y b := by
      rcases h0.eq_or_lt with rfl | h0
      · rw [pow0]; exact pn y h
      · rw [Platform.pow, if_pos h0, Platform.pow, if_pos (h0.trans_le h)]; exact hC.powMono x y b h0 h b0.le
    exact mul_mono (pn x h0) pm

/-- A demand curve in binary64. -/
example : double.plc (1 / 10) (3 / 2) 0 = .fin 0 ∧ ∀ x y, 0 ≤ x → x ≤ y →
    .fin 0 ≤ double.plc (1 / 10) (3 / 2) x ∧ double.plc (1 / 10) (3 / 2) x ≤ double.plc (1 / 10) (3 / 2) y :=
  power_rounded double_laws (by norm_num) (by norm_num)

/-- The coefficient zero does not give the function zero: NaN where the power overflows. -/
theorem power_fails : double.plc 0 1024 2 = .nan ∧ double.plc 0 1024 1 = .fin 0 := by
  have top : round (-1074) ((2 : ℝ) ^ (1024 : ℤ)) = .pinf := by
    have n : near (-1074) ((1 : ℕ) * (2 : ℝ) ^ (1024 : ℤ)) = (1 : ℕ) * (2 : ℝ) ^ (1024 : ℤ) := near_fix 1 1024 (by norm_num) (by norm_num)
    rw [Nat.cast_one, one_mul] at n
    rw [round, n, if_pos le_rfl]
  constructor
  · have p : double.pow 2 1024 = .pinf := by
      rw [Platform.pow, if_pos (by norm_num : (0 : ℝ) < 2)]
      show round (-1074) ((2 : ℝ) ^ (1024 : ℝ)) = .pinf
      rw [← top]
      congr 1
      rw [← Real.rpow_intCast]
      norm_num
    rw [Platform.plc, p]
    have : (Dbl.fin 0 : Dbl) * .pinf = .nan := by
      show Dbl.infTimes 0 = .nan
      simp [Dbl.infTimes]
    rw [LnF.Machine.mul, this]
    rfl
  · have p : double.pow 1 1024 = .fin 1 := by
      rw [Platform.pow, if_pos one_pos]
      show round (-1074) ((1 : ℝ) ^ (1024 : ℝ)) = .fin 1
      rw [Real.one_rpow]
      exact double_one
    rw [Platform.plc, p, mul_fin_eq double_laws, mul_one]
    exact double_laws.zero

end

end Slat.CurveF
