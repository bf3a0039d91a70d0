import Verif.SettingsModel
import Verif.MaqProps

/-!
# Properties of `IntegrationSettings` (C37)
-/

namespace Slat.Settings

open Dbl Maq

noncomputable section

/-! ### Specification: each setting is the value of the last request that was acceptable -/

/-- The tolerance an operation puts in force, if any. -/
def tolRequest : Op → Option Dbl
  | .setTolerance t | .both t _ => if 0 < t then some t else none
  | .useDefaultTolerance | .reset => some (.fin (1 / 1000))
  | _ => none

/-- The evaluation limit an operation puts in force, if any. -/
def evalRequest : Op → Option ℕ
  | .setEvalLimit n | .both _ n => if n.val = 0 then none else some n
  | .useDefaultEvalLimit | .reset => some 2048
  | _ => none

/-- The search limit an operation puts in force, if any. -/
def searchRequest : Op → Option ℕ
  | .setSearchLimit n => if n.val = 0 then none else some n
  | .reset => some 2048
  | _ => none

/-- The method an operation puts in force, if any. -/
def methodRequest : Op → Option Method
  | .setMethod m => some m
  | .reset => some .directed
  | _ => none

/-- The last request of a history, or the default. -/
def lastRequest {α : Type} (req : Op → Option α) (default : α) (ops : List Op) : α :=
  (ops.filterMap req).getLastD default

theorem lastRequest_append {α : Type} (req : Op → Option α) (d : α) (ops : List Op) (op : Op) :
    lastRequest req d (ops ++ [op]) = (req op).getD (lastRequest req d ops) := by
  unfold lastRequest
  rw [List.filterMap_append]
  cases h : req op <;> simp [h]

theorem run_append (ops : List Op) (op : Op) : run (ops ++ [op]) = step (run ops) op := by
  simp [run, List.foldl_append]

/-- **C37** After any history of setter calls with any arguments (NaN, infinities and zero included), each setting is
the last acceptable request for it, or its documented default; in particular a rejected value changes nothing
and setting one value never disturbs another. -/
theorem settings_are_last_requests (ops : List Op) :
    (run ops).tol = lastRequest tolRequest (.fin (1 / 1000)) ops ∧
    (run ops).maxeval = lastRequest evalRequest 2048 ops ∧
    (run ops).bineval = lastRequest searchRequest 2048 ops ∧
    (run ops).method = lastRequest methodRequest .directed ops := by
  induction ops using List.reverseRecOn with
  | nil => exact ⟨rfl, rfl, rfl, rfl⟩
  | append_singleton ops op ih =>
    obtain ⟨h1, h2, h3, h4⟩ := ih
    rw [run_append, lastRequest_append, lastRequest_append, lastRequest_append, lastRequest_append, ← h1, ← h2, ← h3,
      ← h4]
    have hpos : ∀ n : ℕ, 0 < n ↔ ¬ n = 0 := fun n => Nat.pos_iff_ne_zero
    cases op <;>
      simp only [step, setTolerance, setEvalLimit, setSearchLimit, setMethod, useDefaultTolerance, useDefaultEvalLimit,
        reset, tolRequest, evalRequest, searchRequest, methodRequest, hpos, Option.getD_none, Option.getD_some,
        and_self, true_and, and_true]
    all_goals
      repeat' split
      all_goals simp_all

/-- **C37** Whatever the history, the tolerance in force is a positive number (or infinite), and both limits are
positive. -/
theorem settings_valid (ops : List Op) :
    0 < (run ops).tol ∧ 0 < (run ops).maxeval ∧ 0 < (run ops).bineval := by
  induction ops using List.reverseRecOn with
  | nil => simp only [run, List.foldl_nil, initial, zero_def, fin_lt]; norm_num
  | append_singleton ops op ih =>
    obtain ⟨h1, h2, h3⟩ := ih
    have hd : (0 : Dbl) < .fin (1 / 1000) := by simp only [zero_def, fin_lt]; norm_num
    rw [run_append]
    cases op <;>
      simp only [step, setTolerance, setEvalLimit, setSearchLimit, setMethod, useDefaultTolerance, useDefaultEvalLimit,
        reset]
    all_goals
      repeat' split
      all_goals first
        | exact ⟨h1, h2, h3⟩
        | (refine ⟨?_, ?_, ?_⟩ <;> first | assumption | omega)

/-- **C37** `Reset` restores the documented defaults from any state: tolerance 1E-3, both limits 2048, directed
search. -/
theorem reset_restores (ops : List Op) : run (ops ++ [.reset]) = ⟨.fin (1 / 1000), 2048, 2048, .directed⟩ := by
  rw [run_append]; rfl

/-- **C37** NaN, zero and negative tolerances are rejected; every positive one, even an infinite one, is accepted. -/
theorem tolerance_accepted_iff (ops : List Op) (t : Dbl) :
    (0 < t → (run (ops ++ [.setTolerance t])).tol = t) ∧ (¬ 0 < t → run (ops ++ [.setTolerance t]) = run ops) ∧
    ¬ (0 : Dbl) < .nan ∧ (0 : Dbl) < .pinf ∧ ∀ r : ℝ, (0 : Dbl) < .fin r ↔ 0 < r := by
  refine ⟨fun h => ?_, fun h => ?_, by simp, by simp, fun r => by simp⟩
  · rw [run_append]; simp only [step, setTolerance, if_pos h]
  · rw [run_append]; simp only [step, setTolerance, if_neg h]

/-- **C37** Under any settings reachable with limits below 2^31 - 4 and 2^32 - 1, integration returns. -/
theorem reachable_settings_terminate (ops : List Op) (f : Dbl → Dbl)
    (hs : ∀ op ∈ ops, ∀ n, searchRequest op = some n → 2 * n + 5 < 2 ^ 32 - 1)
    (hm : ∀ op ∈ ops, ∀ n, evalRequest op = some n → n < 2 ^ 32 - 1) :
    ∃ rep, Returns f (run ops) rep := by
  obtain ⟨-, h2, h3, -⟩ := settings_are_last_requests ops
  have key : ∀ (req : Op → Option ℕ) (d : ℕ), lastRequest req d ops = d ∨
      ∃ op ∈ ops, req op = some (lastRequest req d ops) := by
    intro req d
    unfold lastRequest
    rcases List.eq_nil_or_concat (ops.filterMap req) with h | ⟨l, x, h⟩
    · left; rw [h]; rfl
    · right
      have hx : x ∈ ops.filterMap req := by rw [h]; simp
      obtain ⟨op, h1, h2⟩ := List.mem_filterMap.1 hx
      exact ⟨op, h1, by rw [h, h2]; simp⟩
  have e1 : 2 * (run ops).bineval + 5 < 2 ^ 32 - 1 := by
    rw [h3]
    rcases key searchRequest 2048 with h | ⟨op, ho, h⟩
    · rw [h]; norm_num
    · exact hs op ho _ h
  have e2 : (run ops).maxeval < 2 ^ 32 - 1 := by
    rw [h2]
    rcases key evalRequest 2048 with h | ⟨op, ho, h⟩
    · rw [h]; norm_num
    · exact hm op ho _ h
  obtain ⟨rep, h, -⟩ := maq_terminates f (run ops) e1 e2
  exact ⟨rep, h⟩

/-- A history with rejected and accepted requests. -/
example : run [.setTolerance (.fin (1 / 2)), .setTolerance .nan, .setEvalLimit 7, .setEvalLimit 0, .setMethod .binary,
    .both (.fin (-1)) 9] = ⟨.fin (1 / 2), 9, 2048, .binary⟩ := by
  have h1 : (0 : Dbl) < .fin (1 / 2) := by simp
  have h2 : ¬ (0 : Dbl) < .fin (-1) := by simp only [zero_def, fin_lt]; norm_num
  have h3 : ¬ (0 : Dbl) < .nan := by simp
  have e0 : ((0 : Fin (2 ^ 32)) : ℕ) = 0 := rfl
  have e7 : ((7 : Fin (2 ^ 32)) : ℕ) = 7 := rfl
  have e9 : ((9 : Fin (2 ^ 32)) : ℕ) = 9 := rfl
  simp only [run, List.foldl, step, setTolerance, setEvalLimit, setMethod, if_pos h1, if_neg h2, if_neg h3, initial, e0,
    e7, e9, lt_irrefl, if_false, Nat.ofNat_pos, if_true]

/-- It meets the hypotheses of `reachable_settings_terminate`. -/
example (f : Dbl → Dbl) : ∃ rep, Returns f (run [.setTolerance (.fin (1 / 2)), .setEvalLimit 7]) rep := by
  apply reachable_settings_terminate
  · intro op ho n hn
    simp only [List.mem_cons, List.not_mem_nil, or_false] at ho
    rcases ho with rfl | rfl <;> simp [searchRequest] at hn
  · intro op ho n hn
    simp only [List.mem_cons, List.not_mem_nil, or_false] at ho
    have e7 : ((7 : Fin (2 ^ 32)) : ℕ) = 7 := rfl
    rcases ho with rfl | rfl <;> simp [evalRequest, e7] at hn
    omega

end

end Slat.Settings
