import Mathlib.Analysis.SpecialFunctions.Exp
import Mathlib.Analysis.SpecialFunctions.Log.Basic
import Mathlib.Analysis.SpecialFunctions.Sqrt

/-!
# C++ `double`

`fin r` is a finite double holding the real `r`; `nan`, `pinf`, `ninf` are the special values.  Operations
follow IEEE-754 on the special values.  Simplifications: no rounding, no overflow or underflow of finite
values, a single zero (a zero divisor counts as `+0`).  There is no source file to cite: this is the
semantics of `double` and of `<cmath>`'s `exp`, `log`, `sqrt`, `abs` used throughout /repo/src.
-/

namespace Slat

/-- A C++ `double`. -/
inductive Dbl where
  | fin (r : ℝ)
  | nan
  | pinf
  | ninf

namespace Dbl

noncomputable section

/-- The infinity with the sign of a non-zero real, `nan` for zero (`inf * r`). -/
def infTimes (r : ℝ) : Dbl := if r = 0 then nan else if 0 < r then pinf else ninf

/-- Change of sign. -/
def neg : Dbl → Dbl
  | fin a => fin (-a)
  | nan => nan
  | pinf => ninf
  | ninf => pinf

/-- `a + b`. -/
def add : Dbl → Dbl → Dbl
  | fin a, fin b => fin (a + b)
  | nan, _ => nan
  | _, nan => nan
  | pinf, ninf => nan
  | ninf, pinf => nan
  | pinf, _ => pinf
  | _, pinf => pinf
  | ninf, _ => ninf
  | _, ninf => ninf

/-- `a * b`. -/
def mul : Dbl → Dbl → Dbl
  | fin a, fin b => fin (a * b)
  | nan, _ => nan
  | _, nan => nan
  | pinf, fin b => infTimes b
  | fin a, pinf => infTimes a
  | ninf, fin b => neg (infTimes b)
  | fin a, ninf => neg (infTimes a)
  | pinf, pinf => pinf
  | ninf, ninf => pinf
  | pinf, ninf => ninf
  | ninf, pinf => ninf

/-- `a / b`; dividing by zero counts as dividing by `+0`. -/
def div : Dbl → Dbl → Dbl
  | fin a, fin b => if b = 0 then infTimes a else fin (a / b)
  | nan, _ => nan
  | _, nan => nan
  | pinf, fin b => if b < 0 then ninf else pinf
  | ninf, fin b => if b < 0 then pinf else ninf
  | fin _, _ => fin 0
  | _, _ => nan

instance : Neg Dbl := ⟨neg⟩
instance : Add Dbl := ⟨add⟩
instance : Sub Dbl := ⟨fun a b => add a (neg b)⟩
instance : Mul Dbl := ⟨mul⟩
instance : Div Dbl := ⟨div⟩
instance : Zero Dbl := ⟨fin 0⟩
instance : One Dbl := ⟨fin 1⟩

/-- `exp`. -/
def exp : Dbl → Dbl
  | fin a => fin (Real.exp a)
  | nan => nan
  | pinf => pinf
  | ninf => fin 0

/-- `log`: `-inf` at zero, `nan` below. -/
def log : Dbl → Dbl
  | fin a => if 0 < a then fin (Real.log a) else if a = 0 then ninf else nan
  | nan => nan
  | pinf => pinf
  | ninf => nan

/-- `sqrt`: `nan` for negative arguments. -/
def sqrt : Dbl → Dbl
  | fin a => if 0 ≤ a then fin (Real.sqrt a) else nan
  | nan => nan
  | pinf => pinf
  | ninf => nan

/-- `std::abs`. -/
def abs : Dbl → Dbl
  | fin a => fin |a|
  | nan => nan
  | pinf => pinf
  | ninf => pinf

/-- `a < b` (false when either is `nan`). -/
def lt : Dbl → Dbl → Prop
  | fin a, fin b => a < b
  | ninf, fin _ => True
  | ninf, pinf => True
  | fin _, pinf => True
  | _, _ => False

/-- `a == b` (false when either is `nan`). -/
def feq : Dbl → Dbl → Prop
  | fin a, fin b => a = b
  | pinf, pinf => True
  | ninf, ninf => True
  | _, _ => False

/-- `a <= b` (false when either is `nan`). -/
def le (a b : Dbl) : Prop := lt a b ∨ feq a b

/-- `std::isnan`. -/
def isNaN : Dbl → Prop
  | nan => True
  | _ => False

instance : LT Dbl := ⟨lt⟩
instance : LE Dbl := ⟨le⟩
instance (a b : Dbl) : Decidable (a < b) := Classical.propDecidable _
instance (a b : Dbl) : Decidable (a ≤ b) := Classical.propDecidable _
instance (a b : Dbl) : Decidable (feq a b) := Classical.propDecidable _
instance (a : Dbl) : Decidable (isNaN a) := Classical.propDecidable _

/-! ### Computation rules on finite values -/

@[simp] theorem zero_def : (0 : Dbl) = fin 0 := rfl
@[simp] theorem one_def : (1 : Dbl) = fin 1 := rfl
@[simp] theorem fin_add (a b : ℝ) : fin a + fin b = fin (a + b) := rfl
@[simp] theorem fin_neg (a : ℝ) : -fin a = fin (-a) := rfl
@[simp] theorem fin_sub (a b : ℝ) : fin a - fin b = fin (a - b) := by
  show fin (a + -b) = _
  rw [sub_eq_add_neg]
@[simp] theorem fin_mul (a b : ℝ) : fin a * fin b = fin (a * b) := rfl
theorem fin_div (a b : ℝ) : fin a / fin b = if b = 0 then infTimes a else fin (a / b) := rfl
theorem fin_div_of_ne {a b : ℝ} (h : b ≠ 0) : fin a / fin b = fin (a / b) := by simp [fin_div, h]
@[simp] theorem fin_div_two (a : ℝ) : fin a / fin 2 = fin (a / 2) := fin_div_of_ne two_ne_zero
@[simp] theorem exp_fin (a : ℝ) : exp (fin a) = fin (Real.exp a) := rfl
@[simp] theorem exp_ninf : exp ninf = fin 0 := rfl
@[simp] theorem exp_nan : exp nan = nan := rfl
@[simp] theorem exp_pinf : exp pinf = pinf := rfl
theorem log_fin (a : ℝ) : log (fin a) = if 0 < a then fin (Real.log a) else if a = 0 then ninf else nan := rfl
@[simp] theorem log_zero : log (fin 0) = ninf := by simp [log_fin]
theorem log_pos {a : ℝ} (h : 0 < a) : log (fin a) = fin (Real.log a) := by simp [log_fin, h]
theorem log_neg {a : ℝ} (h : a < 0) : log (fin a) = nan := by
  simp [log_fin, h.le.not_gt, h.ne]
@[simp] theorem log_nan : log nan = nan := rfl
@[simp] theorem log_pinf : log pinf = pinf := rfl
theorem sqrt_fin {a : ℝ} (h : 0 ≤ a) : sqrt (fin a) = fin (Real.sqrt a) := by simp [sqrt, h]
theorem sqrt_neg {a : ℝ} (h : a < 0) : sqrt (fin a) = nan := by simp [sqrt, h.not_ge]
@[simp] theorem sqrt_nan : sqrt nan = nan := rfl
@[simp] theorem abs_fin (a : ℝ) : abs (fin a) = fin |a| := rfl
@[simp] theorem abs_nan : abs nan = nan := rfl
@[simp] theorem fin_lt (a b : ℝ) : fin a < fin b ↔ a < b := Iff.rfl
@[simp] theorem fin_feq (a b : ℝ) : feq (fin a) (fin b) ↔ a = b := Iff.rfl
@[simp] theorem fin_le (a b : ℝ) : fin a ≤ fin b ↔ a ≤ b := by
  show (a < b ∨ a = b) ↔ _
  exact le_iff_lt_or_eq.symm
@[simp] theorem fin_inj (a b : ℝ) : fin a = fin b ↔ a = b := by simp
@[simp] theorem nan_add (a : Dbl) : nan + a = nan := by cases a <;> rfl
@[simp] theorem add_nan (a : Dbl) : a + nan = nan := by cases a <;> rfl
@[simp] theorem nan_sub (a : Dbl) : nan - a = nan := by cases a <;> rfl
@[simp] theorem sub_nan (a : Dbl) : a - nan = nan := by cases a <;> rfl
@[simp] theorem nan_mul (a : Dbl) : nan * a = nan := by cases a <;> rfl
@[simp] theorem mul_nan (a : Dbl) : a * nan = nan := by cases a <;> rfl
@[simp] theorem nan_div (a : Dbl) : nan / a = nan := by cases a <;> rfl
@[simp] theorem div_nan (a : Dbl) : a / nan = nan := by cases a <;> rfl
@[simp] theorem ninf_sub_fin (a : ℝ) : ninf - fin a = ninf := rfl
@[simp] theorem pinf_sub_fin (a : ℝ) : pinf - fin a = pinf := rfl
@[simp] theorem fin_sub_ninf (a : ℝ) : fin a - ninf = pinf := rfl
@[simp] theorem fin_sub_pinf (a : ℝ) : fin a - pinf = ninf := rfl
@[simp] theorem ninf_add_fin (a : ℝ) : ninf + fin a = ninf := rfl
@[simp] theorem pinf_add_fin (a : ℝ) : pinf + fin a = pinf := rfl
@[simp] theorem fin_add_ninf (a : ℝ) : fin a + ninf = ninf := rfl
@[simp] theorem fin_add_pinf (a : ℝ) : fin a + pinf = pinf := rfl
theorem ninf_div_fin (b : ℝ) : ninf / fin b = if b < 0 then pinf else ninf := rfl
theorem pinf_div_fin (b : ℝ) : pinf / fin b = if b < 0 then ninf else pinf := rfl
@[simp] theorem isNaN_fin (a : ℝ) : isNaN (fin a) ↔ False := Iff.rfl
@[simp] theorem isNaN_nan : isNaN nan ↔ True := Iff.rfl
@[simp] theorem isNaN_ninf : isNaN ninf ↔ False := Iff.rfl
@[simp] theorem isNaN_pinf : isNaN pinf ↔ False := Iff.rfl
@[simp] theorem not_nan_lt (a : Dbl) : ¬ nan < a := by cases a <;> exact id
@[simp] theorem not_lt_nan (a : Dbl) : ¬ a < nan := by cases a <;> exact id
@[simp] theorem not_nan_le (a : Dbl) : ¬ nan ≤ a := by cases a <;> rintro (h | h) <;> exact h
@[simp] theorem not_le_nan (a : Dbl) : ¬ a ≤ nan := by cases a <;> rintro (h | h) <;> exact h
@[simp] theorem not_fin_feq_ninf (a : ℝ) : ¬ feq (fin a) ninf := id
@[simp] theorem not_nan_feq (a : Dbl) : ¬ feq nan a := by cases a <;> exact id
@[simp] theorem ninf_feq : feq ninf ninf := trivial
@[simp] theorem not_pinf_feq_ninf : ¬ feq pinf ninf := id
@[simp] theorem fin_lt_pinf (a : ℝ) : fin a < pinf := trivial
@[simp] theorem ninf_lt_fin (a : ℝ) : ninf < fin a := trivial
@[simp] theorem not_pinf_lt (a : Dbl) : ¬ pinf < a := by cases a <;> exact id
@[simp] theorem not_lt_ninf (a : Dbl) : ¬ a < ninf := by cases a <;> exact id
@[simp] theorem fin_le_pinf (a : ℝ) : fin a ≤ pinf := Or.inl trivial
@[simp] theorem not_pinf_le_fin (a : ℝ) : ¬ pinf ≤ fin a := by rintro (h | h) <;> exact h
@[simp] theorem not_fin_le_ninf (a : ℝ) : ¬ fin a ≤ ninf := by rintro (h | h) <;> exact h
@[simp] theorem pinf_le_pinf : pinf ≤ pinf := Or.inr trivial

theorem fin_injective : Function.Injective fin := fun _ _ h => by injection h

end

end Dbl

end Slat
