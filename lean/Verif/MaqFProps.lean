import Verif.MaqFError
import Verif.MaqFTrunc
import Verif.MaqFExact

/-!
# C74: the adaptive quadrature in machine arithmetic
-/

namespace Slat.MaqF

open Dbl
open Slat.Maq (iter Method Outcome inc32 iter_inv)

attribute [local instance] Classical.propDecidable

/-- A call has at most one result. -/
theorem returns_unique {α : Type} {A : Arith α} {f : α → α} {cfg : Cfg α} {r r' : Report α} (h : Returns A f cfg r)
    (h' : Returns A f cfg r') : r = r' := by
  obtain ⟨n, h⟩ := h
  obtain ⟨m, h'⟩ := h'
  have e1 := h (max n m) (le_max_left _ _)
  have e2 := h' (max n m) (le_max_right _ _)
  rw [e1] at e2
  exact Option.some.inj e2

/-- **C74** Whatever the operations of the machine return, the call ends, with the evaluation counts bounded as in exact
arithmetic. -/
theorem float_terminates {α : Type} (A : Arith α) (f : α → α) (cfg : Cfg α) (hs : 2 * cfg.bineval + 5 < 2 ^ 32 - 1)
    (hm : cfg.maxeval < 2 ^ 32 - 1) :
    ∃ rep, Returns A f cfg rep ∧ rep.evals ≤ max (cfg.maxeval + 1) (2 * cfg.bineval + 6) ∧
      rep.calls ≤ max (2 * cfg.maxeval) (2 * cfg.bineval + 5) := by
  obtain ⟨rep, h1, h2⟩ := maq_ok (anyGeometry A (4 * cfg.bineval)) f cfg le_rfl hs hm
  exact ⟨rep, h1 f (fun _ _ => rfl), h2⟩

/-- **C74** With rounding, the integrand is evaluated only at arguments that are not negative and not NaN: two integrands that agree
there have the same result. -/
theorem float_domain (R : Rounding) (f g : Dbl → Dbl) (hfg : ∀ x : Dbl, (.fin 0 : Dbl) ≤ x → f x = g x) (cfg : Cfg Dbl)
    (hb : cfg.bineval ≤ 2 ^ 22) (hm : cfg.maxeval < 2 ^ 32 - 1) (rep : Report Dbl) (h : Returns R.arith f cfg rep) :
    Returns R.arith g cfg rep := by
  obtain ⟨rep', h1, -⟩ := maq_ok R.geometry f cfg (by omega) (by omega) hm
  have e := returns_unique h (h1 f (fun _ _ => rfl))
  rw [e]
  exact h1 g (fun t ht => hfg _ (R.argument_ok ht))

/-- **C74** With rounding, the integral of an integrand that is never negative is never reported as negative. -/
theorem float_nonneg (R : Rounding) (f : Dbl → Dbl) (hf : ∀ x : Dbl, (.fin 0 : Dbl) ≤ x → ¬ f x < .fin 0) (cfg : Cfg Dbl) (τ : ℝ)
    (hτ : cfg.tol = .fin τ) (hτ1 : |τ| ≤ 1) (hb : cfg.bineval ≤ 2 ^ 22) (rep : Report Dbl) (h : Returns R.arith f cfg rep) :
    ¬ rep.integral < .fin 0 := by
  rcases returns_cases R.geometry (by omega) h with ⟨e, -⟩ | ⟨e, -⟩ | ⟨a, b, n, fuel, -, hv, ha, hb', hc, he⟩
  · rw [e, R.lit_zero]; simp
  · rw [e, R.failed_nan]; simp
  · rw [hτ] at he
    refine iter_inv (step := loopStep R.arith f (.fin τ) cfg.maxeval) R.SignOk (fun r => NN r.integral)
      (fun s s' hs hst => (R.loopStep_sign hf hτ1 cfg.maxeval s hs).1 s' hst)
      (fun s r hs hst => (R.loopStep_sign hf hτ1 cfg.maxeval s hs).2 r hst) ?_ he
    obtain ⟨pa, pc, pb⟩ := R.geometry.ends hv
    refine ⟨?_, ?_, ?_⟩
    · intro t ht
      simp only [start, List.mem_singleton] at ht
      subst ht
      exact ⟨hv, (R.nn_transformed hf pa).2, (R.nn_transformed hf pb).1, (R.nn_transformed hf pc).1⟩
    · show NN (R.arith.lit 0)
      rw [R.lit_zero]
      exact nn_fin.2 le_rfl
    · intro x hx
      have : R.arith.lit 0 = .fin x := hx
      rw [R.lit_zero, fin_inj] at this
      rw [← this]
      exact R.rep_zero

/-- **C74** With rounding of relative error `u`, a finite integral found by the main loop is the extrapolated Simpson rule over
tiles that follow each other from end to end of the bracket, with inner points at the rounded midpoints and the values of the
integrand at these points, up to a relative error (in the sum of moduli) of `8 + 2·n` roundings for `n` tiles. -/
theorem float_accuracy (R : Rounding) (u : ℝ) (hu : 0 ≤ u) (hR : R.Relative u) (f : Dbl → Dbl) (cfg : Cfg Dbl)
    (hb : cfg.bineval ≤ 2 ^ 22) (rep : Report Dbl) (h : Returns R.arith f cfg rep) (hs : rep.outcome = .success) (i : ℝ)
    (hi : rep.integral = .fin i) :
    ∃ (x z : ℝ) (n : ℕ) (tiles : List Tile),
      (∀ fuel, cfg.bineval + 2 ≤ fuel → search R.arith f cfg.method cfg.bineval fuel = some (.bracket (.fin x) (.fin z) n)) ∧
      0 ≤ x ∧ x ≤ z ∧ z ≤ 1 ∧ Joined x z tiles ∧ (∀ t ∈ tiles, R.Halved t ∧ R.Sampled f t) ∧
      |i - (tiles.map Tile.rule).sum| ≤ ((1 + u) ^ (8 + 2 * tiles.length) - 1) * (tiles.map Tile.size).sum := by
  rcases returns_cases R.geometry (by omega) h with ⟨-, e⟩ | ⟨-, e⟩ | ⟨a, b, n, fuel, hf, hv, -, -, -, he⟩
  · rw [hs] at e; cases e
  · rw [hs] at e; cases e
  · obtain ⟨x, z, tiles, rfl, rfl, h⟩ := Rounding.loop_accumulated hu hR f cfg.tol cfg.maxeval n fuel hv he hi
    exact ⟨x, z, n, tiles, hf, h⟩

/-- **C74** Without rounding these are the results of the model in exact arithmetic (C30 to C33), for every number of iterations
allowed. -/
theorem float_exact (f : Dbl → Dbl) (cfg : Maq.Cfg) (fuel : ℕ) :
    maq exactly.arith f (ofCfg cfg) fuel = (Maq.maq f cfg fuel).map ofReport := maq_same f cfg fuel

/-! ### The hypotheses can be met -/

/-- Truncation has relative errors below `2^-52`. -/
theorem truncation_relative : truncation.Relative (1 / 2 ^ 52) := fun x => ⟨trunc 52 x, rfl, trunc_near 52 x⟩

/-- An integrand whose transform is the constant 1 at the five points of the unit interval. -/
noncomputable def steps : Dbl → Dbl
  | .fin x => if x ≤ 0 then .fin 1 else if x < 1 then .fin (9 / 16) else if x < 2 then .fin (1 / 4) else .fin (1 / 16)
  | .pinf => .fin 1
  | _ => .fin 0

/-- Its settings: tolerance 1, at most 100 evaluations. -/
def loose : Cfg Dbl := ⟨.fin 1, 100, 10, .binary⟩

theorem short_quarters (m : ℕ) (k : ℕ) (h : m < 2 ^ 53) : truncation.Rep ((m : ℝ) / 2 ^ k) := by
  show Dbl.fin (trunc 52 _) = .fin _
  rw [fin_inj]
  refine trunc_fix 52 ⟨m, -(k : ℤ), h, Or.inl ?_⟩
  rw [zpow_neg, zpow_natCast, div_eq_mul_inv]

theorem tr {x : ℝ} (m k : ℕ) (e : x = (m : ℝ) / 2 ^ k) (h : m < 2 ^ 53) : truncation.rnd x = .fin x := by
  rw [e]; exact short_quarters m k h

/-- The value used at a point where the transform is 1. -/
theorem steps_inner {t v x : ℝ} (h0 : t ≠ 0) (hx : truncation.arith.sub (truncation.arith.div (.fin 1) (.fin t)) (.fin 1) = .fin x)
    (hv : steps (.fin x) = .fin v) (ht : truncation.rnd (t * t) = .fin (t * t)) (hvt : v = t * t) :
    transformed truncation.arith steps (.fin t) = .fin 1 := by
  unfold transformed xFromT
  have hz : truncation.arith.isZero (.fin t) ↔ t = 0 := Iff.rfl
  have htt : t * t ≠ 0 := mul_ne_zero h0 h0
  rw [if_neg (fun k => h0 (hz.1 k)), truncation.lit_one, hx, hv, Rounding.mul_apply, ht, Rounding.div_apply _ htt, hvt, div_self htt]
  exact truncation.rep_one

theorem steps_one : transformed truncation.arith steps (.fin 1) = .fin 1 := by
  refine steps_inner (x := 0) (v := 1) one_ne_zero ?_ ?_ ?_ ?_
  · rw [Rounding.div_apply _ one_ne_zero, div_one, show truncation.rnd 1 = .fin 1 from truncation.rep_one, Rounding.sub_apply, sub_self]
    exact truncation.rep_zero
  · simp [steps]
  · rw [mul_one]; exact truncation.rep_one
  · norm_num

theorem steps_half : transformed truncation.arith steps (.fin (1 / 2)) = .fin 1 := by
  refine steps_inner (x := 1) (v := 1 / 4) (by norm_num) ?_ ?_ ?_ ?_
  · rw [Rounding.div_apply _ (by norm_num), show (1 : ℝ) / (1 / 2) = 2 by norm_num, show truncation.rnd 2 = .fin 2 from truncation.rep_two,
      Rounding.sub_apply, show (2 : ℝ) - 1 = 1 by norm_num]
    exact truncation.rep_one
  · simp [steps]
  · exact tr 1 2 (by norm_num) (by norm_num)
  · norm_num

theorem steps_quarter : transformed truncation.arith steps (.fin (1 / 4)) = .fin 1 := by
  refine steps_inner (x := 3) (v := 1 / 16) (by norm_num) ?_ ?_ ?_ ?_
  · rw [Rounding.div_apply _ (by norm_num), show (1 : ℝ) / (1 / 4) = 4 by norm_num, tr (x := 4) 4 0 (by norm_num) (by norm_num),
      Rounding.sub_apply, show (4 : ℝ) - 1 = 3 by norm_num]
    exact tr 3 0 (by norm_num) (by norm_num)
  · simp [steps]; norm_num
  · exact tr 1 4 (by norm_num) (by norm_num)
  · norm_num

theorem steps_threequarters : transformed truncation.arith steps (.fin (3 / 4)) = .fin 1 := by
  obtain ⟨w, ew, w1, w2, -⟩ := truncation.between (x := 5 / 4) (v := 1 / (3 / 4)) (y := 3 / 2) (tr 5 2 (by norm_num) (by norm_num))
    (tr 3 1 (by norm_num) (by norm_num)) (by norm_num) (by norm_num)
  obtain ⟨x, ex, x1, x2, -⟩ := truncation.between (x := 1 / 4) (v := w - 1) (y := 1 / 2) (tr 1 2 (by norm_num) (by norm_num))
    (tr 1 1 (by norm_num) (by norm_num)) (by linarith) (by linarith)
  refine steps_inner (x := x) (v := 9 / 16) (by norm_num) ?_ ?_ ?_ ?_
  · rw [Rounding.div_apply _ (by norm_num), ew, Rounding.sub_apply, ex]
  · simp only [steps]
    rw [if_neg (by linarith), if_pos (by linarith)]
  · exact tr 9 4 (by norm_num) (by norm_num)
  · norm_num

theorem steps_zero : transformedLeft truncation.arith steps (.fin 0) = .fin 1 := by
  unfold transformedLeft xFromT
  have hz : truncation.arith.isZero (.fin 0) := (rfl : (0 : ℝ) = 0)
  rw [if_pos hz, if_pos hz, truncation.lit_one]
  show truncation.arith.div (.fin 1) (.fin 1) = _
  rw [Rounding.div_apply _ one_ne_zero, div_one]
  exact truncation.rep_one

/-- Simpson's rule for the constant 1 on an interval whose length is a power of two. -/
theorem quad_one {a b : ℝ} (k : ℕ) (hab : b - a = 1 / 2 ^ k) :
    ∃ r, quad truncation.arith (.fin a) (.fin b) (.fin 1) (.fin 1) (.fin 1) = .fin r ∧ 3 / 4 / 2 ^ k ≤ r ∧ r ≤ 3 / 2 / 2 ^ k ∧
      truncation.Rep r := by
  unfold quad
  have pk : (0 : ℝ) < 2 ^ k := by positivity
  have e1 : truncation.rnd (b - a) = .fin (1 / 2 ^ k) := by
    rw [hab]; exact tr 1 k (by norm_num) (by norm_num)
  obtain ⟨w, ew, w1, w2, -⟩ := truncation.between (x := 1 / 8 / 2 ^ k) (v := 1 / 2 ^ k / 6) (y := 1 / 4 / 2 ^ k)
    (tr 1 (k + 3) (by rw [pow_add]; field_simp; norm_num) (by norm_num)) (tr 1 (k + 2) (by rw [pow_add]; field_simp; norm_num) (by norm_num))
    (by rw [div_div, div_div, mul_comm]; exact one_div_le_one_div_of_le (by positivity) (by linarith))
    (by rw [div_div, div_div, mul_comm]; exact one_div_le_one_div_of_le (by positivity) (by linarith))
  have w1' : 3 / 4 / 2 ^ k ≤ w * 6 := by
    have : (3 : ℝ) / 4 / 2 ^ k = 1 / 8 / 2 ^ k * 6 := by ring
    linarith
  have w2' : w * 6 ≤ 3 / 2 / 2 ^ k := by
    have : (3 : ℝ) / 2 / 2 ^ k = 1 / 4 / 2 ^ k * 6 := by ring
    linarith
  obtain ⟨r, er, r1, r2, r3⟩ := truncation.between (x := 3 / 4 / 2 ^ k) (v := w * 6) (y := 3 / 2 / 2 ^ k)
    (tr 3 (k + 2) (by rw [pow_add]; field_simp; norm_num) (by norm_num)) (tr 3 (k + 1) (by rw [pow_add]; field_simp; norm_num) (by norm_num))
    w1' w2'
  refine ⟨r, ?_, r1, r2, r3⟩
  rw [truncation.lit_four, truncation.lit_six, Rounding.sub_apply, e1, Rounding.div_apply _ (by norm_num), ew, Rounding.mul_apply,
    show (4 : ℝ) * 1 = 4 by norm_num, tr (x := 4) 4 0 (by norm_num) (by norm_num), Rounding.add_apply, show (1 : ℝ) + 4 = 5 by norm_num,
    tr (x := 5) 5 0 (by norm_num) (by norm_num), Rounding.add_apply, show (5 : ℝ) + 1 = 6 by norm_num,
    tr (x := 6) 6 0 (by norm_num) (by norm_num), Rounding.mul_apply]
  exact er

theorem tmid {x y z : ℝ} (h : x + y = 2 * z) (m k : ℕ) (e : x + y = (m : ℝ) / 2 ^ k) (hm : m < 2 ^ 53) (hz : truncation.Rep z) :
    mid truncation.arith (.fin x) (.fin y) = .fin z := by
  unfold mid
  rw [Rounding.add_apply, tr m k e hm, truncation.lit_two, Rounding.div_apply _ two_ne_zero, h, mul_div_cancel_left₀ _ two_ne_zero]
  exact hz

/-- The integration of `steps` succeeds, with inexact operations. -/
theorem steps_integral : ∃ rep i, Returns truncation.arith steps loose rep ∧ rep.outcome = .success ∧ rep.integral = .fin i := by
  obtain ⟨r1, e1, a1, b1, p1⟩ := quad_one (a := 0) (b := 1) 0 (by norm_num)
  obtain ⟨r2, e2, a2, b2, p2⟩ := quad_one (a := 0) (b := 1 / 2) 1 (by norm_num)
  obtain ⟨r3, e3, a3, b3, p3⟩ := quad_one (a := 1 / 2) (b := 1) 1 (by norm_num)
  norm_num at a1 b1 a2 b2 a3 b3
  obtain ⟨q2, eq2, aq, bq, pq⟩ := truncation.between (x := 3 / 4) (v := r2 + r3) (y := 3 / 2) (tr 3 2 (by norm_num) (by norm_num))
    (tr 3 1 (by norm_num) (by norm_num)) (by linarith) (by linarith)
  obtain ⟨δ, eδ, d1, d2, pδ⟩ := truncation.between (x := -(3 / 4)) (v := q2 - r1) (y := 3 / 4)
    (truncation.minus _ (tr 3 2 (by norm_num) (by norm_num))) (tr 3 2 (by norm_num) (by norm_num)) (by linarith) (by linarith)
  have hq2 : truncation.arith.add (.fin r2) (.fin r3) = .fin q2 := by rw [Rounding.add_apply, eq2]
  have hδ : truncation.arith.sub (.fin q2) (.fin r1) = .fin δ := by rw [Rounding.sub_apply, eδ]
  have fin : ∀ x, ∃ y, truncation.rnd x = .fin y := fun x => ⟨_, rfl⟩
  obtain ⟨s, es⟩ := fin (0 + q2)
  obtain ⟨w, ew⟩ := fin (δ / 15)
  obtain ⟨i, ei⟩ := fin (s + w)
  have m01 : mid truncation.arith (.fin 0) (.fin 1) = .fin (1 / 2) :=
    tmid (by norm_num) 1 0 (by norm_num) (by norm_num) (tr 1 1 (by norm_num) (by norm_num))
  have m0h : mid truncation.arith (.fin 0) (.fin (1 / 2)) = .fin (1 / 4) :=
    tmid (by norm_num) 1 1 (by norm_num) (by norm_num) (tr 1 2 (by norm_num) (by norm_num))
  have m1h : mid truncation.arith (.fin 1) (.fin (1 / 2)) = .fin (3 / 4) :=
    tmid (by norm_num) 3 1 (by norm_num) (by norm_num) (tr 3 2 (by norm_num) (by norm_num))
  refine ⟨⟨.success, .fin i, true, 6, 7⟩, i, ⟨2, fun fuel hf => ?_⟩, rfl, rfl⟩
  have hx1 : xFromT truncation.arith (truncation.arith.lit 1) = .fin 0 := by
    unfold xFromT
    rw [truncation.lit_one, if_neg (show ¬ truncation.arith.isZero (.fin 1) from one_ne_zero), Rounding.div_apply _ one_ne_zero, div_one,
      show truncation.rnd 1 = .fin 1 from truncation.rep_one, Rounding.sub_apply, sub_self]
    exact truncation.rep_zero
  have heps : truncation.arith.eps = .fin (1 / 2 ^ 52) := by
    show truncation.rnd (((1 / 2 ^ 52 : ℚ)) : ℝ) = _
    have : (((1 / 2 ^ 52 : ℚ)) : ℝ) = 1 / 2 ^ 52 := by norm_num
    rw [this]
    exact tr 1 52 (by norm_num) (by norm_num)
  have hsearch : search truncation.arith steps loose.method loose.bineval fuel = some (.bracket (.fin 0) (.fin 1) 2) := by
    show binarySubdivision truncation.arith steps 10 fuel = _
    unfold binarySubdivision
    rw [if_neg, truncation.lit_zero, truncation.lit_one]
    rintro ⟨h, -⟩
    rw [hx1] at h
    have h' : steps (.fin 0) ≤ truncation.arith.eps := h
    rw [heps] at h'
    simp only [steps, le_refl, if_true, fin_le] at h'
    norm_num at h'
  obtain ⟨fuel, rfl⟩ : ∃ k, fuel = k + 2 := ⟨fuel - 2, by omega⟩
  simp only [maq, hsearch, Option.bind_some]
  rw [integrate_bracket, if_neg (show ¬ truncation.arith.isNaN (.fin 0) from id), steps_zero, if_neg (show ¬ truncation.arith.isNaN (.fin 1) from id),
    steps_one, if_neg (show ¬ truncation.arith.isNaN (.fin 1) from id), m01, steps_half, if_neg (show ¬ truncation.arith.isNaN (.fin 1) from id)]
  have hst : start truncation.arith steps (.fin 0) (.fin 1) 2 =
      ⟨[⟨.fin 0, .fin 1, .fin (1 / 2), .fin 1, .fin 1, .fin 1, .fin r1⟩], .fin 0, 5, 5⟩ := by
    unfold start
    rw [steps_zero, steps_one, m01, steps_half, e1, truncation.lit_zero]
    rfl
  have hstep : loopStep truncation.arith steps loose.tol loose.maxeval
      ⟨[⟨.fin 0, .fin 1, .fin (1 / 2), .fin 1, .fin 1, .fin 1, .fin r1⟩], .fin 0, 5, 5⟩ = .inl ⟨[], .fin i, 6, 7⟩ := by
    have m0h' : truncation.arith.div (truncation.arith.add (.fin 0) (.fin (1 / 2))) (truncation.arith.lit 2) = .fin (1 / 4) := m0h
    have m1h' : truncation.arith.div (truncation.arith.add (.fin 1) (.fin (1 / 2))) (truncation.arith.lit 2) = .fin (3 / 4) := m1h
    have hinc : inc32 5 = 6 := by decide
    simp only [loopStep, m0h', m1h', steps_quarter, steps_threequarters, hinc, e2, e3, hq2, hδ, loose]
    have ht : truncation.arith.mul (.fin 1) (.fin q2) = .fin q2 := by
      rw [Rounding.mul_apply, one_mul]; exact pq
    rw [if_neg (by norm_num), if_neg (show ¬ truncation.arith.isNaN (.fin 1) from id),
      if_neg (show ¬ truncation.arith.isNaN (.fin 1) from id), if_pos]
    · rw [truncation.lit_fifteen, Rounding.add_apply, es, Rounding.div_apply _ (by norm_num), ew, Rounding.add_apply, ei]
    · left
      rw [ht]
      show Dbl.abs (.fin δ) ≤ Dbl.abs (.fin q2)
      rw [abs_fin, abs_fin, fin_le, abs_of_nonneg (show 0 ≤ q2 by linarith)]
      exact (abs_le.2 ⟨d1, d2⟩).trans aq
  rw [hst]
  simp only [iter, hstep]
  rfl

/-- `float_accuracy`, `float_nonneg` and `float_domain` apply to it. -/
example : ∃ (rep : Report Dbl) (i : ℝ), Returns truncation.arith steps loose rep ∧ rep.outcome = .success ∧ rep.integral = .fin i ∧
    truncation.Relative (1 / 2 ^ 52) ∧ (∀ x : Dbl, (.fin 0 : Dbl) ≤ x → ¬ steps x < .fin 0) ∧ loose.bineval ≤ 2 ^ 22 ∧
    loose.maxeval < 2 ^ 32 - 1 ∧ |(1 : ℝ)| ≤ 1 ∧ truncation.rnd (1 / 3) ≠ .fin (1 / 3) := by
  obtain ⟨rep, i, h1, h2, h3⟩ := steps_integral
  refine ⟨rep, i, h1, h2, h3, truncation_relative, ?_, by norm_num [loose], by norm_num [loose], by norm_num, truncation_inexact⟩
  intro x _
  cases x with
  | fin x =>
    simp only [steps]
    split
    · rw [fin_lt]; norm_num
    split
    · rw [fin_lt]; norm_num
    split <;> rw [fin_lt] <;> norm_num
  | nan => simp [steps]
  | pinf => simp [steps]
  | ninf => simp [steps]

/-- The same integrand, changed for negative arguments, satisfies the hypothesis of `float_domain` without being equal. -/
example : (∀ x : Dbl, (.fin 0 : Dbl) ≤ x → steps x = (fun y => if y < .fin 0 then .nan else steps y) x) ∧
    steps ≠ fun y => if y < .fin 0 then .nan else steps y := by
  constructor
  · intro x hx
    dsimp only
    rw [if_neg]
    cases x with
    | fin x => simpa using hx
    | nan => simp
    | pinf => simp
    | ninf => exact absurd hx (not_fin_le_ninf _)
  · intro h
    have := congrFun h (.fin (-1))
    simp [steps] at this

/-- `float_terminates`: an arithmetic in which every operation returns NaN. -/
example : ∃ rep, Returns (α := Dbl) ⟨fun _ _ => .nan, fun _ _ => .nan, fun _ _ => .nan, fun _ _ => .nan, id, fun _ _ => True,
    fun _ _ => False, fun _ => False, fun _ => True, .nan, fun _ => .nan, fun _ => .nan, fun _ _ => .nan, fun _ => .nan,
    fun _ _ h => h.elim⟩ (fun _ => .nan) loose rep :=
  (float_terminates _ _ _ (by norm_num [loose]) (by norm_num [loose])).imp fun _ h => h.1

end Slat.MaqF
