import Verif.LnFModel
import Verif.LnFSpec
import Mathlib.Tactic.Linarith
import Mathlib.Tactic.Positivity
import Mathlib.Tactic.FieldSimp
import Mathlib.Tactic.Ring
import Mathlib.Tactic.GCongr

/-! Numbers that agree up to a factor, and the operations of a machine (helper file). -/

namespace Slat.LnF

open Real (exp log sqrt exp_pos)

noncomputable section

namespace Near

variable {η θ x y z v w : ℝ}

theorem refl (hη : 0 ≤ η) (hx : 0 ≤ x) : Near η x x := by
  have : 1 ≤ exp η := Real.one_le_exp hη
  exact ⟨by nlinarith, by nlinarith⟩

theorem symm (h : Near η x y) : Near η y x := ⟨h.2, h.1⟩

theorem trans (h : Near η x y) (k : Near θ y z) : Near (η + θ) x z := by
  have e1 := exp_pos η
  have e2 := exp_pos θ
  refine ⟨?_, ?_⟩
  · calc x ≤ y * exp η := h.1
      _ ≤ z * exp θ * exp η := by gcongr; exact k.1
      _ = z * exp (η + θ) := by rw [Real.exp_add]; ring
  · calc z ≤ y * exp θ := k.2
      _ ≤ x * exp η * exp θ := by gcongr; exact h.2
      _ = x * exp (η + θ) := by rw [Real.exp_add]; ring

theorem nonneg (h : Near η x y) (hy : 0 ≤ y) : 0 ≤ x := by
  have := h.2
  have e1 := exp_pos η
  by_contra hx
  push Not at hx
  nlinarith

theorem pos (h : Near η x y) (hy : 0 < y) : 0 < x := by
  have := h.2
  have e1 := exp_pos η
  by_contra hx
  push Not at hx
  nlinarith

theorem mono (h : Near η x y) (hθ : η ≤ θ) (hy : 0 ≤ y) : Near θ x y := by
  have hx := h.nonneg hy
  have : exp η ≤ exp θ := Real.exp_le_exp.2 hθ
  exact ⟨h.1.trans (by gcongr), h.2.trans (by gcongr)⟩

theorem mul (h : Near η x y) (k : Near θ v w) (hy : 0 ≤ y) (hw : 0 ≤ w) : Near (η + θ) (x * v) (y * w) := by
  have hx := h.nonneg hy
  have hv := k.nonneg hw
  have e1 := exp_pos η
  refine ⟨?_, ?_⟩
  · calc x * v ≤ (y * exp η) * (w * exp θ) := mul_le_mul h.1 k.1 hv (by positivity)
      _ = y * w * exp (η + θ) := by rw [Real.exp_add]; ring
  · calc y * w ≤ (x * exp η) * (v * exp θ) := mul_le_mul h.2 k.2 hw (by positivity)
      _ = x * v * exp (η + θ) := by rw [Real.exp_add]; ring

theorem add (h : Near η x y) (k : Near η v w) : Near η (x + v) (y + w) := by
  refine ⟨?_, ?_⟩
  · have := h.1; have := k.1; nlinarith
  · have := h.2; have := k.2; nlinarith

theorem inv (h : Near η x y) (hy : 0 < y) : Near η x⁻¹ y⁻¹ := by
  have hx := h.pos hy
  refine ⟨?_, ?_⟩
  · rw [inv_le_iff_one_le_mul₀ hx]
    rw [show y⁻¹ * exp η * x = (x * exp η) / y by field_simp]
    rw [le_div_iff₀ hy, one_mul]
    exact h.2
  · rw [inv_le_iff_one_le_mul₀ hy]
    rw [show x⁻¹ * exp η * y = (y * exp η) / x by field_simp]
    rw [le_div_iff₀ hx, one_mul]
    exact h.1

theorem div (h : Near η x y) (k : Near θ v w) (hy : 0 ≤ y) (hw : 0 < w) : Near (η + θ) (x / v) (y / w) := by
  rw [div_eq_mul_inv, div_eq_mul_inv]
  exact h.mul (k.inv hw) hy (by positivity)

theorem sqrt (h : Near η x y) (hη : 0 ≤ η) (hy : 0 ≤ y) : Near η (sqrt x) (sqrt y) := by
  have hx := h.nonneg hy
  have e1 : 1 ≤ exp η := Real.one_le_exp hη
  have key : ∀ a b : ℝ, 0 ≤ b → a ≤ b * exp η → Real.sqrt a ≤ Real.sqrt b * exp η := by
    intro a b hb hab
    calc Real.sqrt a ≤ Real.sqrt (b * (exp η) ^ 2) := Real.sqrt_le_sqrt (by nlinarith [mul_nonneg hb (show 0 ≤ exp η * (exp η - 1) by nlinarith)])
      _ = Real.sqrt b * exp η := by
        rw [Real.sqrt_mul hb, Real.sqrt_sq (by positivity)]
  exact ⟨key _ _ hy h.1, key _ _ hx h.2⟩

theorem sq (h : Near η x y) (hy : 0 ≤ y) : Near (2 * η) (x ^ 2) (y ^ 2) := by
  rw [pow_two, pow_two, two_mul]
  exact h.mul h hy hy

theorem abs_log (h : Near η x y) (hy : 0 < y) : |log x - log y| ≤ η := by
  have hx := h.pos hy
  rw [abs_le]
  constructor
  · have := Real.log_le_log hy h.2
    rw [Real.log_mul hx.ne' (exp_pos η).ne', Real.log_exp] at this
    linarith
  · have := Real.log_le_log hx h.1
    rw [Real.log_mul hy.ne' (exp_pos η).ne', Real.log_exp] at this
    linarith

theorem of_exp {a b : ℝ} (h : |a - b| ≤ η) : Near η (exp a) (exp b) := by
  rw [abs_le] at h
  constructor
  · rw [← Real.exp_add]; exact Real.exp_le_exp.2 (by linarith)
  · rw [← Real.exp_add]; exact Real.exp_le_exp.2 (by linarith)

theorem abs_sub (h : Near η x y) (hη : 0 ≤ η) (hy : 0 ≤ y) : |x - y| ≤ (exp η - 1) * y := by
  have e1 : 1 ≤ exp η := Real.one_le_exp hη
  have hx := h.nonneg hy
  rw [abs_le]
  constructor
  · have h2 := h.2
    have h3 : y * exp (-η) ≤ x := by
      rw [Real.exp_neg, ← div_eq_mul_inv, div_le_iff₀ (exp_pos η)]; exact h2
    have h4 : 2 ≤ exp η + exp (-η) := by
      have : exp η * exp (-η) = 1 := by rw [← Real.exp_add]; simp
      nlinarith [sq_nonneg (exp η - 1), exp_pos (-η), exp_pos η]
    nlinarith
  · have := h.1; linarith

end Near

theorem exp_eps {u : ℝ} (h : u < 1) : exp (eps u) = (1 - u)⁻¹ := by
  rw [eps, Real.exp_neg, Real.exp_log (by linarith)]

theorem eps_nonneg {u : ℝ} (h0 : 0 ≤ u) (h : u < 1) : 0 ≤ eps u := by
  have := Real.log_nonpos (show 0 ≤ 1 - u by linarith) (by linarith)
  rw [eps]; linarith

theorem one_add_le {u : ℝ} (h : u < 1) : 1 + u ≤ exp (eps u) := by
  rw [exp_eps h, ← one_div, le_div_iff₀ (by linarith)]
  nlinarith [sq_nonneg u]

theorem near_rel {u x y : ℝ} (h : u < 1) (hx : 0 ≤ x) (hy : |y - x| ≤ u * |x|) : Near (eps u) y x := by
  rw [abs_of_nonneg hx, abs_le] at hy
  constructor
  · have := one_add_le h
    nlinarith
  · rw [exp_eps h, ← div_eq_mul_inv, le_div_iff₀ (by linarith)]
    nlinarith

/-! ### Operations on finite numbers -/

/-- The number of a finite `double`. -/
def val : Dbl → ℝ
  | .fin x => x
  | _ => 0

variable {M : Machine} {u : ℝ}

/-- Rounding as a function on numbers. -/
def Machine.r (M : Machine) (x : ℝ) : ℝ := val (M.rnd x)
/-- `exp` as a function on numbers. -/
def Machine.e (M : Machine) (x : ℝ) : ℝ := val (M.rexp x)
/-- `log` as a function on numbers. -/
def Machine.l (M : Machine) (x : ℝ) : ℝ := val (M.rlog x)

theorem rnd_eq (h : Accurate M u) (x : ℝ) : M.rnd x = .fin (M.r x) := by
  obtain ⟨y, hy, -⟩ := h.rnd x
  rw [Machine.r, hy]; rfl

theorem r_rel (h : Accurate M u) (x : ℝ) : |M.r x - x| ≤ u * |x| := by
  obtain ⟨y, hy, hr⟩ := h.rnd x
  rw [Machine.r, hy]; exact hr

theorem r_near (h : Accurate M u) {x : ℝ} (hx : 0 ≤ x) : Near (eps u) (M.r x) x := near_rel h.small hx (r_rel h x)

theorem r_zero (h : Accurate M u) : M.r 0 = 0 := by
  have := r_rel h 0
  simpa using this

theorem r_again (h : Accurate M u) (x : ℝ) : M.r (M.r x) = M.r x := by
  have := h.again x _ (rnd_eq h x)
  rw [rnd_eq h] at this
  simpa using this

theorem r_one (h : Accurate M u) {x : ℝ} (hx : 1 ≤ x) : 1 ≤ M.r x := h.one x _ hx (rnd_eq h x)

theorem rexp_eq (h : Accurate M u) (x : ℝ) : M.rexp x = .fin (M.e x) := by
  obtain ⟨y, hy, -⟩ := h.exp x
  rw [Machine.e, hy]; rfl

theorem e_near (h : Accurate M u) (x : ℝ) : Near (eps u) (M.e x) (exp x) := by
  obtain ⟨y, hy, hr, -⟩ := h.exp x
  rw [Machine.e, hy]
  exact near_rel h.small (exp_pos x).le (by rw [abs_of_pos (exp_pos x)]; exact hr)

theorem e_one (h : Accurate M u) {x : ℝ} (hx : 0 ≤ x) : 1 ≤ M.e x := by
  obtain ⟨y, hy, -, hr⟩ := h.exp x
  rw [Machine.e, hy]; exact hr hx

theorem rlog_eq (h : Accurate M u) {x : ℝ} (hx : 0 < x) : M.rlog x = .fin (M.l x) := by
  obtain ⟨y, hy, -⟩ := h.log x hx
  rw [Machine.l, hy]; rfl

theorem l_rel (h : Accurate M u) {x : ℝ} (hx : 0 < x) : |M.l x - log x| ≤ u * |log x| := by
  obtain ⟨y, hy, hr⟩ := h.log x hx
  rw [Machine.l, hy]; exact hr

theorem add_fin (h : Accurate M u) (x y : ℝ) : M.add (.fin x) (.fin y) = .fin (M.r (x + y)) := rnd_eq h _
theorem sub_fin (h : Accurate M u) (x y : ℝ) : M.sub (.fin x) (.fin y) = .fin (M.r (x - y)) := by
  rw [Machine.sub, Dbl.fin_sub]; exact rnd_eq h _
theorem mul_fin (h : Accurate M u) (x y : ℝ) : M.mul (.fin x) (.fin y) = .fin (M.r (x * y)) := rnd_eq h _
theorem div_fin (h : Accurate M u) (x : ℝ) {y : ℝ} (hy : y ≠ 0) : M.div (.fin x) (.fin y) = .fin (M.r (x / y)) := by
  rw [Machine.div, Dbl.fin_div_of_ne hy]; exact rnd_eq h _
theorem sqrt_fin (h : Accurate M u) {x : ℝ} (hx : 0 ≤ x) : M.sqrt (.fin x) = .fin (M.r (sqrt x)) := by
  rw [Machine.sqrt, Dbl.sqrt_fin hx]; exact rnd_eq h _
theorem exp_fin (h : Accurate M u) (x : ℝ) : M.exp (.fin x) = .fin (M.e x) := rexp_eq h x
theorem log_fin (h : Accurate M u) {x : ℝ} (hx : 0 < x) : M.log (.fin x) = .fin (M.l x) := by
  rw [Machine.log, if_pos hx]; exact rlog_eq h hx

/-- Rounded sum of numbers that are not negative. -/
theorem near_add (h : Accurate M u) {η a b x y : ℝ} (ha : Near η a x) (hb : Near η b y) (hx : 0 ≤ x) (hy : 0 ≤ y) :
    Near (η + eps u) (M.r (a + b)) (x + y) := by
  have := (r_near h (add_nonneg (ha.nonneg hx) (hb.nonneg hy))).trans (ha.add hb)
  rwa [add_comm (eps u)] at this

/-- Rounded product of numbers that are not negative. -/
theorem near_mul (h : Accurate M u) {η θ a b x y : ℝ} (ha : Near η a x) (hb : Near θ b y) (hx : 0 ≤ x) (hy : 0 ≤ y) :
    Near (η + θ + eps u) (M.r (a * b)) (x * y) := by
  have := (r_near h (mul_nonneg (ha.nonneg hx) (hb.nonneg hy))).trans (ha.mul hb hx hy)
  rwa [add_comm (eps u)] at this

end

end Slat.LnF
