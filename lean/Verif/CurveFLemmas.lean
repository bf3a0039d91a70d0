import Verif.CurveFModel

/-!
# Order and rounding (helper file for C79)
-/

namespace Slat.CurveF

open Dbl

noncomputable section

theorem le_cases {a b : Dbl} : a ≤ b ↔ match a, b with
    | .fin x, .fin y => x ≤ y
    | .ninf, .fin _ => True
    | .ninf, .pinf => True
    | .ninf, .ninf => True
    | .fin _, .pinf => True
    | .pinf, .pinf => True
    | _, _ => False := by
  cases a <;> cases b <;> simp <;> first | exact Or.inl trivial | exact Or.inr trivial | (rintro (h | h) <;> exact h)

theorem le_tr {a b c : Dbl} (h : a ≤ b) (k : b ≤ c) : a ≤ c := by
  rw [le_cases] at *
  cases a <;> cases b <;> cases c <;> simp_all
  linarith

theorem le_self {a : Dbl} (h : ¬ isNaN a) : a ≤ a := by
  rw [le_cases]
  cases a <;> simp_all

theorem not_nan_left {a b : Dbl} (h : a ≤ b) : ¬ isNaN a := by
  rw [le_cases] at h
  cases a <;> cases b <;> simp_all

theorem not_nan_right {a b : Dbl} (h : a ≤ b) : ¬ isNaN b := by
  rw [le_cases] at h
  cases a <;> cases b <;> simp_all

/-- A value between finite values. -/
theorem sandwich {a : Dbl} {x y : ℝ} (h : .fin x ≤ a) (k : a ≤ .fin y) : ∃ w, a = .fin w ∧ x ≤ w ∧ w ≤ y := by
  rw [le_cases] at h k
  cases a <;> simp_all

variable {C : Platform} (hC : Laws C)
include hC

/-- A number of the format. -/
def Rep (C : Platform) (x : ℝ) : Prop := C.rnd x = .fin x

theorem rnd_ok (x : ℝ) : ¬ isNaN (C.rnd x) := not_nan_left (hC.mono x x le_rfl)

theorem between {x v y : ℝ} (hx : Rep C x) (hy : Rep C y) (h1 : x ≤ v) (h2 : v ≤ y) :
    ∃ w, C.rnd v = .fin w ∧ x ≤ w ∧ w ≤ y ∧ Rep C w := by
  have m1 := hC.mono _ _ h1
  have m2 := hC.mono _ _ h2
  rw [hx] at m1
  rw [hy] at m2
  obtain ⟨w, e, a, b⟩ := sandwich m1 m2
  exact ⟨w, e, a, b, hC.idem _ _ e⟩

theorem fix_mono {a b : Dbl} (h : a ≤ b) : C.fix a ≤ C.fix b := by
  have ha := not_nan_left h
  have hb := not_nan_right h
  rw [le_cases] at h
  cases a with
  | nan => exact absurd trivial ha
  | fin x =>
    cases b with
    | nan => exact absurd trivial hb
    | fin y => exact hC.mono _ _ h
    | pinf =>
      have := rnd_ok hC x
      rw [le_cases]
      show match C.rnd x, Dbl.pinf with | _, _ => _
      cases e : C.rnd x <;> simp_all [LnF.Machine.fix]
    | ninf => exact h.elim
  | pinf => cases b <;> simp_all [LnF.Machine.fix]
  | ninf =>
    cases b with
    | nan => exact absurd trivial hb
    | fin y =>
      have := rnd_ok hC y
      rw [le_cases]
      cases e : C.rnd y <;> simp_all [LnF.Machine.fix]
    | pinf => exact Or.inl trivial
    | ninf => exact Or.inr trivial

theorem exp_mono {a b : Dbl} (h : a ≤ b) : C.exp a ≤ C.exp b := by
  rw [le_cases] at h
  have n : ∀ x, ¬ isNaN (C.rexp x) := fun x => not_nan_right (hC.expNonneg x)
  cases a with
  | nan => cases b <;> exact h.elim
  | fin x =>
    cases b with
    | fin y => exact hC.expMono _ _ h
    | pinf =>
      have := n x
      rw [le_cases]
      show match C.rexp x, Dbl.pinf with | _, _ => _
      cases e : C.rexp x <;> simp_all [LnF.Machine.exp]
    | nan => exact h.elim
    | ninf => exact h.elim
  | pinf => cases b <;> simp_all [LnF.Machine.exp]
  | ninf =>
    cases b with
    | nan => exact h.elim
    | fin y => exact hC.expNonneg y
    | pinf => simp [LnF.Machine.exp]
    | ninf => simp [LnF.Machine.exp]

theorem exp_nonneg {a : Dbl} (h : ¬ isNaN a) : .fin 0 ≤ C.exp a := by
  cases a with
  | nan => exact absurd trivial h
  | fin x => exact hC.expNonneg x
  | pinf => simp [LnF.Machine.exp]
  | ninf => simp [LnF.Machine.exp]

theorem log_mono {x y : ℝ} (h0 : 0 ≤ x) (h : x ≤ y) : C.log (.fin x) ≤ C.log (.fin y) := by
  unfold LnF.Machine.log
  dsimp only
  rcases h0.eq_or_lt with rfl | h0
  · rw [if_neg (lt_irrefl _), Dbl.log_zero]
    split_ifs with k
    · have := not_nan_left (hC.logMono y y k le_rfl)
      rw [le_cases]
      cases e : C.rlog y <;> simp_all
    · rw [show y = 0 by linarith, Dbl.log_zero]; exact Or.inr trivial
  · rw [if_pos h0, if_pos (h0.trans_le h)]
    exact hC.logMono x y h0 h

end

end Slat.CurveF
