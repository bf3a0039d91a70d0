import Verif.MaqProps
import Mathlib.MeasureTheory.Function.Jacobian
import Mathlib.MeasureTheory.Integral.IntegralEqImproper
import Mathlib.Analysis.Calculus.Taylor

/-!
# C35, C53: what the result has to do with the integral over the half line
-/

namespace Slat.Maq

open Dbl MeasureTheory Set

noncomputable section

/-- The transformation is right: the integral of the integrand over the half line is that of the transformed
integrand over the unit interval. -/
theorem change_of_variable (φ : ℝ → ℝ) (φinf : ℝ) :
    ∫ x in Ioi (0 : ℝ), φ x = ∫ t in (0 : ℝ)..1, transform φ φinf t := by
  have himg : (fun t : ℝ => 1 / t - 1) '' Ioo 0 1 = Ioi 0 := by
    ext x
    simp only [mem_image, mem_Ioo, mem_Ioi]
    constructor
    · rintro ⟨t, ⟨h0, h1⟩, rfl⟩
      rw [sub_pos, lt_div_iff₀ h0]; linarith
    · intro hx
      refine ⟨1 / (1 + x), ⟨by positivity, ?_⟩, by field_simp; ring⟩
      rw [div_lt_one (by linarith)]; linarith
  have hder : ∀ t ∈ Ioo (0 : ℝ) 1, HasDerivWithinAt (fun t : ℝ => 1 / t - 1) (-1 / t ^ 2) (Ioo 0 1) t := by
    intro t ht
    have := ((hasDerivAt_inv ht.1.ne').sub_const 1).hasDerivWithinAt (s := Ioo 0 1)
    simp only [one_div]
    refine this.congr_deriv ?_
    rw [neg_div, one_div]
  have hinj : InjOn (fun t : ℝ => 1 / t - 1) (Ioo 0 1) := by
    intro s hs t ht h
    simp only [one_div, sub_left_inj, inv_inj] at h
    exact h
  rw [← himg, integral_image_eq_integral_abs_deriv_smul measurableSet_Ioo hder hinj,
    intervalIntegral.integral_of_le zero_le_one, ← integral_Ioc_eq_integral_Ioo,
    integral_Ioc_eq_integral_Ioo, integral_Ioc_eq_integral_Ioo]
  refine setIntegral_congr_fun measurableSet_Ioo (fun t ht => ?_)
  have h0 : t ≠ 0 := ht.1.ne'
  simp only [transform, if_neg h0, smul_eq_mul]
  rw [abs_of_neg (by
    have : 0 < t ^ 2 := by positivity
    rw [neg_div]; simp [this])]
  field_simp

/-! ### C53: error bound for smooth integrands -/

theorem taylor_poly (G : ℝ → ℝ) (s : Set ℝ) (u : ℝ) :
    ∃ p : Polynomial ℝ, p.natDegree ≤ 5 ∧ ∀ x, p.eval x = taylorWithinEval G 5 s u x := by
  refine ⟨∑ k ∈ Finset.range 6, Polynomial.C ((k.factorial : ℝ)⁻¹ * iteratedDerivWithin k G s u) *
    (Polynomial.X - Polynomial.C u) ^ k, ?_, ?_⟩
  · refine Polynomial.natDegree_sum_le_of_forall_le _ _ (fun k hk => ?_)
    refine (Polynomial.natDegree_C_mul_le _ _).trans ?_
    refine (Polynomial.natDegree_pow_le).trans ?_
    rw [Polynomial.natDegree_X_sub_C, mul_one]
    have := Finset.mem_range.1 hk
    omega
  · intro x
    rw [taylor_within_apply, Polynomial.eval_finsetSum]
    refine Finset.sum_congr rfl (fun k _ => ?_)
    simp only [Polynomial.eval_mul, Polynomial.eval_C, Polynomial.eval_pow, Polynomial.eval_sub, Polynomial.eval_X,
      smul_eq_mul]
    ring

theorem boole_error (G : ℝ → ℝ) (hG : ContDiff ℝ 6 G) {u v M : ℝ} (huv : u < v)
    (hM : ∀ t, u ≤ t → t ≤ v → |iteratedDeriv 6 G t| ≤ M) :
    |boole G (u, v) - ∫ t in u..v, G t| ≤ M / 60 * (v - u) ^ 7 := by
  have hM0 : 0 ≤ M := (abs_nonneg _).trans (hM u le_rfl huv.le)
  obtain ⟨p, hp, hev⟩ := taylor_poly G (Icc u v) u
  have hR : ∀ t, u ≤ t → t ≤ v → |G t - p.eval t| ≤ M * (v - u) ^ 6 / 120 := by
    intro t h1 h2
    have := taylor_mean_remainder_bound (f := G) (n := 5) (C := M) huv.le (by
      have : ((5 : ℕ) : WithTop ℕ∞) + 1 = 6 := by norm_num
      rw [this]; exact hG.contDiffOn) ⟨h1, h2⟩ (by
      intro y hy
      rw [iteratedDerivWithin_eq_iteratedDeriv (uniqueDiffOn_Icc huv) hG.contDiffAt hy]
      exact hM y hy.1 hy.2)
    rw [hev]
    refine (this : |_| ≤ _).trans ?_
    have e : ((Nat.factorial 5 : ℕ) : ℝ) = 120 := by norm_num [Nat.factorial]
    rw [e]
    have : (t - u) ^ (5 + 1) ≤ (v - u) ^ 6 := pow_le_pow_left₀ (by linarith) (by linarith) 6
    gcongr
  set ε := M * (v - u) ^ 6 / 120 with hε
  have hint : |(∫ t in u..v, p.eval t) - ∫ t in u..v, G t| ≤ ε * (v - u) := by
    rw [← intervalIntegral.integral_sub (p.continuous.intervalIntegrable _ _)
      (hG.continuous.intervalIntegrable _ _)]
    have := intervalIntegral.norm_integral_le_of_norm_le_const (a := u) (b := v) (C := ε)
      (f := fun t => p.eval t - G t) (by
        intro t ht
        rw [uIoc_of_le huv.le] at ht
        rw [Real.norm_eq_abs, abs_sub_comm]
        exact hR t ht.1.le ht.2)
    rwa [Real.norm_eq_abs, abs_of_pos (show 0 < v - u by linarith)] at this
  have hbo : |boole G (u, v) - boole (fun t => p.eval t) (u, v)| ≤ ε * (v - u) := by
    have b1 := abs_le.1 (hR u le_rfl huv.le)
    have b2 := abs_le.1 (hR (u + (v - u) / 4) (by linarith) (by linarith))
    have b3 := abs_le.1 (hR ((u + v) / 2) (by linarith) (by linarith))
    have b4 := abs_le.1 (hR (u + 3 * (v - u) / 4) (by linarith) (by linarith))
    have b5 := abs_le.1 (hR v huv.le le_rfl)
    have e : boole G (u, v) - boole (fun t => p.eval t) (u, v) = (v - u) / 90 *
        (7 * (G u - p.eval u) + 32 * (G (u + (v - u) / 4) - p.eval (u + (v - u) / 4)) +
          12 * (G ((u + v) / 2) - p.eval ((u + v) / 2)) +
          32 * (G (u + 3 * (v - u) / 4) - p.eval (u + 3 * (v - u) / 4)) + 7 * (G v - p.eval v)) := by
      simp only [boole]; ring
    rw [e, abs_mul, abs_of_pos (show 0 < (v - u) / 90 by linarith)]
    have : |7 * (G u - p.eval u) + 32 * (G (u + (v - u) / 4) - p.eval (u + (v - u) / 4)) +
          12 * (G ((u + v) / 2) - p.eval ((u + v) / 2)) +
          32 * (G (u + 3 * (v - u) / 4) - p.eval (u + 3 * (v - u) / 4)) + 7 * (G v - p.eval v)| ≤ 90 * ε := by
      rw [abs_le]
      constructor <;> linarith [b1.1, b1.2, b2.1, b2.2, b3.1, b3.2, b4.1, b4.2, b5.1, b5.2]
    calc (v - u) / 90 * _ ≤ (v - u) / 90 * (90 * ε) := by gcongr
      _ = ε * (v - u) := by ring
  have hex := boole_exact p hp (g := fun t => p.eval t) huv (fun _ _ _ => rfl)
  calc |boole G (u, v) - ∫ t in u..v, G t|
      = |(boole G (u, v) - boole (fun t => p.eval t) (u, v)) +
          ((∫ t in u..v, p.eval t) - ∫ t in u..v, G t)| := by rw [hex]; congr 1; ring
    _ ≤ ε * (v - u) + ε * (v - u) := (abs_add_le _ _).trans (add_le_add hbo hint)
    _ = M / 60 * (v - u) ^ 7 := by rw [hε]; ring

/-- Sum of the seventh powers of the widths. -/
def widths7 (l : List (ℝ × ℝ)) : ℝ := (l.map fun p => (p.2 - p.1) ^ 7).sum

theorem composite_error (G : ℝ → ℝ) (hG : ContDiff ℝ 6 G) {M : ℝ} {l : List (ℝ × ℝ)} {a b : ℝ} {g : ℝ → ℝ}
    (h : Tiles a b l) (hM : ∀ t, a ≤ t → t ≤ b → |iteratedDeriv 6 G t| ≤ M)
    (hg : ∀ t, a ≤ t → t ≤ b → g t = G t) :
    |composite g l - ∫ t in a..b, G t| ≤ M / 60 * widths7 l := by
  induction l generalizing a with
  | nil => cases h; simp [composite, widths7]
  | cons q l ih =>
    obtain ⟨u, v⟩ := q
    obtain ⟨rfl, h2, h3⟩ := h
    have i1 := ih h3 (fun t ht ht' => hM t (by linarith) ht') (fun t ht ht' => hg t (by linarith) ht')
    have hv := h3.le
    have i2 := boole_error G hG h2 (fun t ht ht' => hM t ht (by linarith))
    have e : boole g (u, v) = boole G (u, v) := by
      simp only [boole]
      rw [hg u le_rfl (by linarith), hg v (by linarith) hv, hg _ (by linarith) (by linarith),
        hg _ (by linarith) (by linarith), hg _ (by linarith) (by linarith)]
    rw [← intervalIntegral.integral_add_adjacent_intervals (hG.continuous.intervalIntegrable u v)
      (hG.continuous.intervalIntegrable v b)]
    simp only [composite, widths7, List.map_cons, List.sum_cons] at i1 ⊢
    rw [e, mul_add]
    calc _ = |(boole G (u, v) - ∫ t in u..v, G t) + ((l.map (boole g)).sum - ∫ t in v..b, G t)| := by congr 1; ring
      _ ≤ _ := (abs_add_le _ _).trans (add_le_add i2 i1)

theorem widths7_le {l : List (ℝ × ℝ)} {a b w : ℝ} (h : Tiles a b l) (hw : ∀ p ∈ l, p.2 - p.1 ≤ w) :
    widths7 l ≤ w ^ 6 * (b - a) := by
  induction l generalizing a with
  | nil => cases h; simp [widths7]
  | cons q l ih =>
    obtain ⟨u, v⟩ := q
    obtain ⟨rfl, h2, h3⟩ := h
    have i1 := ih h3 (fun p hp => hw p (by simp [hp]))
    have i2 : v - u ≤ w := hw (u, v) (by simp)
    simp only [widths7, List.map_cons, List.sum_cons] at i1 ⊢
    have : (v - u) ^ 7 ≤ w ^ 6 * (v - u) := by
      have := pow_le_pow_left₀ (show 0 ≤ v - u by linarith) i2 6
      calc (v - u) ^ 7 = (v - u) ^ 6 * (v - u) := by ring
        _ ≤ w ^ 6 * (v - u) := by gcongr
    linarith

/-- **C53** If the transformed integrand is six times continuously differentiable with sixth derivative at most `M`
on the bracket, a successful result differs from the integral over the bracket by at most `M/60` times the
sum of the seventh powers of the widths of the intervals used; hence by at most `M w⁶ (b-a) / 60` when no
interval is wider than `w`. -/
theorem error_bound (f : Dbl → Dbl) (φ : ℝ → ℝ) (φinf τ : ℝ) (hf : ∀ x, 0 ≤ x → f (.fin x) = .fin (φ x))
    (hinf : f .pinf = .fin φinf) (cfg : Cfg) (hτ : cfg.tol = .fin τ) (a b : ℝ) (n : ℕ)
    (hb : Finds f cfg (.bracket a b n)) (G : ℝ → ℝ) (hG : ContDiff ℝ 6 G) (M : ℝ)
    (hg : ∀ t, a ≤ t → t ≤ b → transform φ φinf t = G t) (hM : ∀ t, a ≤ t → t ≤ b → |iteratedDeriv 6 G t| ≤ M)
    (rep : Report) (h : Returns f cfg rep) (hs : rep.result.successful = true) :
    ∃ (v : ℝ) (leaves : List (ℝ × ℝ)), rep.result.integral = .fin v ∧ Tiles a b leaves ∧
      rep.result.evals = (n + 2 + 2 * leaves.length) % 2 ^ 32 ∧
      |v - ∫ t in a..b, G t| ≤ M / 60 * widths7 leaves ∧
      ∀ w, (∀ p ∈ leaves, p.2 - p.1 ≤ w) → |v - ∫ t in a..b, G t| ≤ M / 60 * (w ^ 6 * (b - a)) := by
  have huniq : ∀ r, Finds f cfg r → r = .bracket a b n := by
    rintro r ⟨N, hN⟩
    obtain ⟨K, hK⟩ := hb
    have := (hN (max N K) (le_max_left _ _)).symm.trans (hK (max N K) (le_max_right _ _))
    simpa using this
  have ho : rep.outcome ≠ .searchFail := by
    rcases maq_cases f cfg rep h with ⟨n, h1, rfl⟩ | ⟨a, b, n, -, -, ⟨-, h4, -⟩ | ⟨-, -, h4 | h4⟩⟩
    · exact absurd (huniq _ h1) (by simp)
    all_goals rw [h4]; simp
  obtain ⟨a', b', n', h1, h2, h3, h4, acc, leaves, h5, h6, h7, -, h8⟩ :=
    success_is_composite f φ φinf τ hf hinf cfg hτ rep h hs ho
  have e := huniq _ h1
  simp only [SearchResult.bracket.injEq] at e
  obtain ⟨rfl, rfl, rfl⟩ := e
  have hc := composite_error G hG h5 hM hg
  have hsum : composite (transform φ φinf) acc = composite (transform φ φinf) leaves := (h6.map _).sum_eq.symm
  have hM0 : 0 ≤ M := (abs_nonneg _).trans (hM a' le_rfl h3.le)
  refine ⟨_, leaves, h7, h5, by rw [h8, h6.length_eq], by rw [hsum]; exact hc, fun w hw => ?_⟩
  rw [hsum]
  exact hc.trans (by gcongr; exact widths7_le h5 hw)

/-- `1/(1+x)^3` meets the hypotheses of `error_bound` with `G t = t` and `M = 0`. -/
example : ∃ (f : Dbl → Dbl) (rep : Report), Finds f ⟨.fin (1 / 1000), 2048, 2048, .directed⟩ (.bracket 0 1 2) ∧
    (∀ t : ℝ, 0 ≤ t → t ≤ 1 → transform (fun x => 1 / (1 + x) ^ 3) 0 t = id t) ∧
    (∀ t : ℝ, |iteratedDeriv 6 (id : ℝ → ℝ) t| ≤ 0) ∧
    Returns f ⟨.fin (1 / 1000), 2048, 2048, .directed⟩ rep ∧ rep.result.successful = true := by
  obtain ⟨f, h1, h2, h3⟩ := inverse_cube .directed
  refine ⟨f, _, ⟨0, fun fuel _ => finds_unit f _ _ ?_ fuel⟩, ?_, ?_, h3, rfl⟩
  · rw [h1 0 le_rfl, h1 1 zero_le_one]
    simp only [fin_le, not_and_or, not_le]
    left
    norm_num [eps]
  · intro t h0 h1
    unfold transform
    split
    · simp_all
    · field_simp
      simp
  · intro t
    simp [iteratedDeriv_succ']

/-! ### C35: coverage of the half line -/

/-- **C35** If the integrand is visible (above epsilon) at 0 or at 1, the whole half line is integrated, whatever the
method: a successful result is the composite rule over a tiling of the full transformed range, whose exact
integral is the integral over the half line; for a transformed integrand that is a polynomial of degree at most
five it *is* the integral over the half line.  (Missing: integrands not visible at 0 or 1, see below.) -/
theorem whole_half_line_partial (f : Dbl → Dbl) (φ : ℝ → ℝ) (φinf τ : ℝ)
    (hf : ∀ x, 0 ≤ x → f (.fin x) = .fin (φ x)) (hinf : f .pinf = .fin φinf) (cfg : Cfg) (hτ : cfg.tol = .fin τ)
    (hvis : eps < φ 0 ∨ eps < φ 1) (rep : Report) (h : Returns f cfg rep) (hs : rep.result.successful = true) :
    Finds f cfg (.bracket 0 1 2) ∧
    (∃ leaves, Tiles 0 1 leaves ∧ rep.result.integral = .fin (composite (transform φ φinf) leaves)) ∧
    ∫ x in Ioi (0 : ℝ), φ x = ∫ t in (0 : ℝ)..1, transform φ φinf t ∧
    ∀ p : Polynomial ℝ, p.natDegree ≤ 5 → (∀ t, 0 ≤ t → t ≤ 1 → transform φ φinf t = p.eval t) →
      rep.result.integral = .fin (∫ x in Ioi (0 : ℝ), φ x) := by
  have hb : Finds f cfg (.bracket 0 1 2) := by
    refine ⟨0, fun fuel _ => finds_unit f cfg.method cfg.bineval ?_ fuel⟩
    rw [hf 0 le_rfl, hf 1 zero_le_one]
    simp only [fin_le, not_and_or, not_le]
    exact hvis
  have huniq : ∀ r, Finds f cfg r → r = .bracket 0 1 2 := by
    rintro r ⟨N, hN⟩
    obtain ⟨K, hK⟩ := hb
    have := (hN (max N K) (le_max_left _ _)).symm.trans (hK (max N K) (le_max_right _ _))
    simpa using this
  have ho : rep.outcome ≠ .searchFail := by
    rcases maq_cases f cfg rep h with ⟨n, h1, rfl⟩ | ⟨a, b, n, -, -, ⟨-, h4, -⟩ | ⟨-, -, h4 | h4⟩⟩
    · exact absurd (huniq _ h1) (by simp)
    all_goals rw [h4]; simp
  refine ⟨hb, ?_, change_of_variable φ φinf, ?_⟩
  · obtain ⟨a', b', n', h1, h2, h3, h4, acc, leaves, h5, h6, h7, -⟩ :=
      success_is_composite f φ φinf τ hf hinf cfg hτ rep h hs ho
    have e := huniq _ h1
    simp only [SearchResult.bracket.injEq] at e
    obtain ⟨rfl, rfl, rfl⟩ := e
    refine ⟨leaves, h5, ?_⟩
    rw [h7]
    congr 1
    exact (h6.map _).sum_eq.symm
  · intro p hp hg
    rw [exact_for_quintics f φ φinf τ hf hinf cfg hτ p hp 0 1 2 hb hg rep h hs, change_of_variable φ φinf]
    congr 1
    refine intervalIntegral.integral_congr (fun t ht => ?_)
    rw [uIcc_of_le zero_le_one] at ht
    exact (hg t ht.1 ht.2).symm

/-- **C53** For an integrand visible at 0 or 1 whose transform is six times continuously differentiable, a successful
result is within `M w⁶ / 60` of the integral over the half line, `w` being the widest interval used. -/
theorem half_line_error (f : Dbl → Dbl) (φ : ℝ → ℝ) (φinf τ : ℝ)
    (hf : ∀ x, 0 ≤ x → f (.fin x) = .fin (φ x)) (hinf : f .pinf = .fin φinf) (cfg : Cfg) (hτ : cfg.tol = .fin τ)
    (hvis : eps < φ 0 ∨ eps < φ 1) (G : ℝ → ℝ) (hG : ContDiff ℝ 6 G) (M : ℝ)
    (hg : ∀ t, 0 ≤ t → t ≤ 1 → transform φ φinf t = G t) (hM : ∀ t, 0 ≤ t → t ≤ 1 → |iteratedDeriv 6 G t| ≤ M)
    (rep : Report) (h : Returns f cfg rep) (hs : rep.result.successful = true) :
    ∃ (v : ℝ) (leaves : List (ℝ × ℝ)), rep.result.integral = .fin v ∧ Tiles 0 1 leaves ∧
      ∀ w, (∀ p ∈ leaves, p.2 - p.1 ≤ w) → |v - ∫ x in Ioi (0 : ℝ), φ x| ≤ M / 60 * w ^ 6 := by
  obtain ⟨hb, -, hcv, -⟩ := whole_half_line_partial f φ φinf τ hf hinf cfg hτ hvis rep h hs
  obtain ⟨v, leaves, h1, h2, -, -, h5⟩ := error_bound f φ φinf τ hf hinf cfg hτ 0 1 2 hb G hG M hg hM rep h hs
  refine ⟨v, leaves, h1, h2, fun w hw => ?_⟩
  have hi : ∫ t in (0 : ℝ)..1, transform φ φinf t = ∫ t in (0 : ℝ)..1, G t := by
    refine intervalIntegral.integral_congr (fun t ht => ?_)
    rw [uIcc_of_le zero_le_one] at ht
    exact hg t ht.1 ht.2
  rw [hcv, hi]
  simpa using h5 w hw

/-- `1/(1+x)^3` is visible at 0 and its transform is `t`: the result 1/2 is its integral over the half line. -/
example : ∫ x in Ioi (0 : ℝ), 1 / (1 + x) ^ 3 = 1 / 2 := by
  obtain ⟨f, h1, h2, h3⟩ := inverse_cube .directed
  have := (whole_half_line_partial f (fun x => 1 / (1 + x) ^ 3) 0 (1 / 1000) h1 h2
    ⟨.fin (1 / 1000), 2048, 2048, .directed⟩ rfl (Or.inl (by norm_num [eps])) _ h3 rfl).2.2.2 Polynomial.X (by simp) (by
      intro t h0 h1
      unfold transform
      split
      · simp_all
      · field_simp
        simp)
  simp only [fin_inj] at this
  exact this.symm

/-- Where the searches go when 0 and 1 are invisible but 1/3 and 3 are not. -/
theorem finds_half (f : Dbl → Dbl) (v0 v1 v2 : ℝ) (h0 : f (.fin 0) = .fin v0) (h1 : f (.fin 1) = .fin 0)
    (h2 : f (.fin (1 / 3)) = .fin v1) (h3 : f (.fin 3) = .fin v2) (hv0 : v0 ≤ eps) (hv1 : eps < v1) (hv2 : eps < v2)
    (m : Method) (lim : ℕ) (hlim : 6 ≤ lim) (fuel : ℕ) (hf : 2 ≤ fuel) :
    search f m lim fuel = some (if m = .binary then .bracket 0 (1 / 2) 3 else .bracket (1 / 2) 1 3) := by
  have he : 0 < eps := by norm_num [eps]
  obtain ⟨k, rfl⟩ : ∃ k, fuel = k + 2 := ⟨fuel - 2, by omega⟩
  have e1 : xFromT 1 = .fin 0 := by simp [xFromT]
  have e2 : xFromT (1 / 2) = .fin 1 := by norm_num [xFromT]
  have e3 : xFromT (3 / 4) = .fin (1 / 3) := by norm_num [xFromT]
  have e4 : xFromT (1 / 4) = .fin 3 := by norm_num [xFromT]
  have hg : f (xFromT 1) ≤ .fin eps ∧ f (xFromT (1 / 2)) ≤ .fin eps := by
    rw [e1, e2, h0, h1]
    exact ⟨by simpa using hv0, by simpa using he.le⟩
  have b1 : bracketOf (3 / 4) = (1 / 2, 1) := by norm_num [bracketOf]
  have c1 : (1 - (1 : ℝ) / (4 : ℕ)) = 3 / 4 := by norm_num
  have d1 : backward.c 1 4 = 3 / 4 := by norm_num [backward]
  have d2 : backward.a 1 4 = 1 / 2 := by norm_num [backward]
  have d3 : backward.b 1 4 = 1 := by norm_num [backward]
  have d4 : forward.c 1 4 = 1 / 4 := by norm_num [forward]
  have d5 : forward.a 1 4 = 0 := by norm_num [forward]
  have d6 : forward.b 1 4 = 1 / 2 := by norm_num [forward]
  have s1 : scan f forward 4 2 1 ⟨0, 1, .fin 0, 2⟩ = ⟨0, 1 / 2, .fin v2, 3⟩ := by
    simp only [scan, d4, d5, d6, e4, h3, fin_lt, hv2, if_true]
  have s2 : scan f backward 4 2 1 ⟨0, 1, .fin 0, 2⟩ = ⟨1 / 2, 1, .fin v1, 3⟩ := by
    simp only [scan, d1, d2, d3, e3, h2, fin_lt, hv1, if_true]
  have s3 : scan f backward 4 1 1 ⟨0, 1, .fin 0, 2⟩ = ⟨1 / 2, 1, .fin v1, 3⟩ := by
    simp only [scan, d1, d2, d3, e3, h2, fin_lt, hv1, if_true]
  have nv1 : ¬ (v1 ≤ eps) := by linarith
  have nv2 : ¬ (v2 ≤ eps) := by linarith
  have hc : 2 < lim ∧ Dbl.fin 0 ≤ .fin eps := ⟨by omega, by simpa using he.le⟩
  have hc' : 2 < lim / 2 ∧ Dbl.fin 0 ≤ .fin eps := ⟨by omega, by simpa using he.le⟩
  cases m with
  | binary =>
    have t1 : subStep f forward lim (fun _ => 1) (fun n => n) (4, ⟨0, 1, .fin 0, 2⟩) =
        .inl (8, ⟨0, 1 / 2, .fin v2, 3⟩) := by
      rw [← s1]; exact if_pos hc
    have t2 : subStep f forward lim (fun _ => 1) (fun n => n) (8, ⟨0, 1 / 2, .fin v2, 3⟩) =
        .inr ⟨0, 1 / 2, .fin v2, 3⟩ := if_neg (by simp [nv2])
    simp only [search, binarySubdivision, if_pos hg]
    rw [e2, h1, iter_inl t1, iter_inr t2]
    simp only [Option.map_some, subResult, fin_le, nv2, if_false, if_true]
  | reverse =>
    have t1 : subStep f backward lim (fun _ => 1) (fun n => n) (4, ⟨0, 1, .fin 0, 2⟩) =
        .inl (8, ⟨1 / 2, 1, .fin v1, 3⟩) := by
      rw [← s2]; exact if_pos hc
    have t2 : subStep f backward lim (fun _ => 1) (fun n => n) (8, ⟨1 / 2, 1, .fin v1, 3⟩) =
        .inr ⟨1 / 2, 1, .fin v1, 3⟩ := if_neg (by simp [nv1])
    simp only [search, reverseSubdivision, if_pos hg]
    rw [e2, h1, iter_inl t1, iter_inr t2]
    simp only [Option.map_some, subResult, fin_le, nv1, if_false, reduceCtorEq]
  | lowFirst =>
    have t1 : subStep f backward (lim / 2) (fun _ => 1) (fun n => n / 2) (4, ⟨0, 1, .fin 0, 2⟩) =
        .inl (8, ⟨1 / 2, 1, .fin v1, 3⟩) := by
      rw [← s3]; exact if_pos hc'
    have t2 : subStep f backward (lim / 2) (fun _ => 1) (fun n => n / 2) (8, ⟨1 / 2, 1, .fin v1, 3⟩) =
        .inr ⟨1 / 2, 1, .fin v1, 3⟩ := if_neg (by simp [nv1])
    have t3 : subStep f backward lim (fun n => 1 + n / 2) (fun n => n) (4, ⟨1 / 2, 1, .fin v1, 3⟩) =
        .inr ⟨1 / 2, 1, .fin v1, 3⟩ := if_neg (by simp [nv1])
    simp only [search, lowFirstSubdivision, if_pos hg]
    rw [e2, h1, iter_inl t1, iter_inr t2, Option.bind_some, iter_inr t3]
    simp only [Option.map_some, subResult, fin_le, nv1, if_false, reduceCtorEq]
  | scattered =>
    have t1 : scatStep f epsTests lim (k + 2) (4, 0, ⟨1 / 2, .fin 0, 2⟩) = .inr (some ⟨3 / 4, .fin v1, 3⟩) := by
      simp only [scatStep]
      rw [if_pos (show 2 < lim ∧ epsTests.cont (.fin 0) from hc), c1, e3, h2,
        if_pos (show epsTests.found (.fin v1) from hv1)]
    simp only [search, scatteredSearch, if_pos hg]
    rw [e2, h1, iter_inr t1]
    simp only [Option.join_some, Option.map_some, fin_le, nv1, if_false, b1, reduceCtorEq]
  | directed =>
    have hz : ¬ feq (.fin v1) 0 := by simp only [zero_def, fin_feq]; linarith
    have t1 : scatStep f zeroTests lim (k + 2) (4, 0, ⟨1 / 2, .fin 0, 2⟩) = .inr (some ⟨3 / 4, .fin v1, 3⟩) := by
      simp only [scatStep]
      rw [if_pos (show 2 < lim ∧ zeroTests.cont (.fin 0) from ⟨hc.1, by simp [zeroTests]⟩), c1, e3, h2,
        if_pos (show zeroTests.found (.fin v1) from he.trans hv1)]
    have t2 : refineStep f lim ⟨1 / 2, 1, 3 / 4, .fin v1, 3⟩ = .inr ⟨1 / 2, 1, 3 / 4, .fin v1, 3⟩ :=
      if_neg (by simp [nv1])
    simp only [search, directedSearch, if_pos hg]
    rw [e2, h1, iter_inr t1]
    simp only [Option.join_some, Option.bind_some, if_neg hz, b1]
    rw [iter_inr t2]
    simp only [Option.map_some, b1, reduceCtorEq, if_false]

/-- The integrand of the next finding: continuous, non-negative, zero at 0, 1 and infinity. -/
def twoHumps (x : ℝ) : ℝ := if x ≤ 1 then x * (1 - x) / (1 + x) ^ 4 else (x - 1) / (1 + x) ^ 4

theorem twoHumps_low {t : ℝ} (h0 : 1 / 2 ≤ t) (_h1 : t ≤ 1) :
    transform twoHumps 0 t = (1 - t) * (2 * t - 1) := by
  have ht : 0 < t := by linarith
  have hx : 1 / t - 1 ≤ 1 := by
    rw [sub_le_iff_le_add, div_le_iff₀ ht]; linarith
  rw [transform, if_neg ht.ne', twoHumps, if_pos hx]
  field_simp
  ring

theorem twoHumps_high {t : ℝ} (h0 : 0 ≤ t) (h1 : t ≤ 1 / 2) : transform twoHumps 0 t = t * (1 - 2 * t) := by
  rcases h0.eq_or_lt with rfl | ht
  · simp [transform]
  · rcases h1.eq_or_lt with rfl | h1
    · norm_num [transform, twoHumps]
    · have hx : ¬ (1 / t - 1 ≤ 1) := by
        rw [not_le, lt_sub_iff_add_lt, lt_div_iff₀ ht]; linarith
      rw [transform, if_neg ht.ne', twoHumps, if_neg hx]
      field_simp
      ring

theorem twoHumps_continuous : Continuous fun x : ℝ => twoHumps |x| := by
  have hpos : ∀ x : ℝ, (1 + |x|) ^ 4 ≠ 0 := fun x => by positivity
  unfold twoHumps
  refine Continuous.if_le ?_ ?_ continuous_abs continuous_const ?_
  · exact ((continuous_abs.mul (continuous_const.sub continuous_abs)).div
      ((continuous_const.add continuous_abs).pow 4) hpos)
  · exact ((continuous_abs.sub continuous_const).div ((continuous_const.add continuous_abs).pow 4) hpos)
  · intro x hx
    rw [hx]
    norm_num

/-- The true integral of `twoHumps`. -/
theorem twoHumps_integral : ∫ x in Ioi (0 : ℝ), twoHumps x = 1 / 12 := by
  rw [change_of_variable twoHumps 0]
  have hc1 : ∀ t ∈ uIcc (0 : ℝ) (1 / 2), transform twoHumps 0 t = t * (1 - 2 * t) := fun t ht => by
    rw [uIcc_of_le (by norm_num)] at ht
    exact twoHumps_high ht.1 ht.2
  have hc2 : ∀ t ∈ uIcc (1 / 2 : ℝ) 1, transform twoHumps 0 t = (1 - t) * (2 * t - 1) := fun t ht => by
    rw [uIcc_of_le (by norm_num)] at ht
    exact twoHumps_low ht.1 ht.2
  have hi1 : IntervalIntegrable (fun t : ℝ => t * (1 - 2 * t)) volume 0 (1 / 2) :=
    (by fun_prop : Continuous fun t : ℝ => t * (1 - 2 * t)).intervalIntegrable _ _
  have hi2 : IntervalIntegrable (fun t : ℝ => (1 - t) * (2 * t - 1)) volume (1 / 2) 1 :=
    (by fun_prop : Continuous fun t : ℝ => (1 - t) * (2 * t - 1)).intervalIntegrable _ _
  rw [← intervalIntegral.integral_add_adjacent_intervals (b := 1 / 2)
    (hi1.congr_uIoo fun t ht => (hc1 t (uIoo_subset_uIcc_self ht)).symm)
    (hi2.congr_uIoo fun t ht => (hc2 t (uIoo_subset_uIcc_self ht)).symm),
    intervalIntegral.integral_congr hc1, intervalIntegral.integral_congr hc2]
  have d1 : ∀ t : ℝ, HasDerivAt (fun t => t ^ 2 / 2 - 2 * (t ^ 3 / 3)) (t * (1 - 2 * t)) t := fun t => by
    refine (((hasDerivAt_pow 2 t).div_const 2).sub (((hasDerivAt_pow 3 t).div_const 3).const_mul 2)).congr_deriv ?_
    norm_num; ring
  have d2 : ∀ t : ℝ, HasDerivAt (fun t => 3 * (t ^ 2 / 2) - 2 * (t ^ 3 / 3) - t) ((1 - t) * (2 * t - 1)) t := fun t => by
    refine (((((hasDerivAt_pow 2 t).div_const 2).const_mul 3).sub
      (((hasDerivAt_pow 3 t).div_const 3).const_mul 2)).sub (hasDerivAt_id t)).congr_deriv ?_
    norm_num; ring
  rw [intervalIntegral.integral_eq_sub_of_hasDerivAt (fun t _ => d1 t) hi1,
    intervalIntegral.integral_eq_sub_of_hasDerivAt (fun t _ => d2 t) hi2]
  norm_num

/-- **C35, what fails (1)**: the integral of `twoHumps`, a continuous non-negative function, is 1/12, but every
search method, with the default settings, leads to a "successful" result of 1/24: one of the two humps is
dropped. -/
theorem dropped_mass_fails (m : Method) : ∃ f : Dbl → Dbl,
    (∀ x, 0 ≤ x → f (.fin x) = .fin (twoHumps x)) ∧ f .pinf = .fin 0 ∧
    ∫ x in Ioi (0 : ℝ), twoHumps x = 1 / 12 ∧
    Returns f ⟨.fin (1 / 1000), 2048, 2048, m⟩ ⟨.success, ⟨.fin (1 / 24), true, 7⟩, 8⟩ := by
  let f : Dbl → Dbl := fun x => match x with
    | .fin x => .fin (twoHumps x)
    | _ => .fin 0
  refine ⟨f, fun _ _ => rfl, rfl, twoHumps_integral, ?_⟩
  have hfind : Finds f ⟨.fin (1 / 1000), 2048, 2048, m⟩
      (if m = .binary then .bracket 0 (1 / 2) 3 else .bracket (1 / 2) 1 3) :=
    ⟨2, fun fuel hf => finds_half f (twoHumps 0) (twoHumps (1 / 3)) (twoHumps 3) rfl
      (by show Dbl.fin (twoHumps 1) = _; norm_num [twoHumps]) rfl rfl (by norm_num [twoHumps, eps])
      (by norm_num [twoHumps, eps]) (by norm_num [twoHumps, eps]) m 2048 (by norm_num) fuel hf⟩
  have ev : ∀ (p : Polynomial ℝ), p.natDegree ≤ 3 → ∀ a b : ℝ, Finds f ⟨.fin (1 / 1000), 2048, 2048, m⟩ (.bracket a b 3) →
      (∀ t, a ≤ t → t ≤ b → transform twoHumps 0 t = p.eval t) → ∫ t in a..b, p.eval t = 1 / 24 →
      Returns f ⟨.fin (1 / 1000), 2048, 2048, m⟩ ⟨.success, ⟨.fin (1 / 24), true, 7⟩, 8⟩ := by
    intro p hp a b hb hg hi
    have := exact_for_cubics f twoHumps 0 (1 / 1000) (fun _ _ => rfl) rfl ⟨.fin (1 / 1000), 2048, 2048, m⟩ rfl
      p hp a b 3 hb (by norm_num) (by norm_num) hg
    rw [hi] at this
    exact this
  have hder : ∀ c d e : ℝ, ∀ a b, ∫ t in a..b, (Polynomial.C c + Polynomial.C d * Polynomial.X +
      Polynomial.C e * Polynomial.X ^ 2 : Polynomial ℝ).eval t =
      c * (b - a) + d * ((b ^ 2 - a ^ 2) / 2) + e * ((b ^ 3 - a ^ 3) / 3) := by
    intro c d e a b
    have : ∀ t, HasDerivAt (fun t => c * t + d * (t ^ 2 / 2) + e * (t ^ 3 / 3)) ((Polynomial.C c +
        Polynomial.C d * Polynomial.X + Polynomial.C e * Polynomial.X ^ 2 : Polynomial ℝ).eval t) t := by
      intro t
      refine ((((hasDerivAt_id t).const_mul c).add (((hasDerivAt_pow 2 t).div_const 2).const_mul d)).add
        (((hasDerivAt_pow 3 t).div_const 3).const_mul e)).congr_deriv ?_
      simp
    rw [intervalIntegral.integral_eq_sub_of_hasDerivAt (fun t _ => this t)
      ((Polynomial.continuous _).intervalIntegrable _ _)]
    ring
  have hdeg : ∀ c d e : ℝ, (Polynomial.C c + Polynomial.C d * Polynomial.X +
      Polynomial.C e * Polynomial.X ^ 2 : Polynomial ℝ).natDegree ≤ 3 := by
    intro c d e
    have : (Polynomial.C c + Polynomial.C d * Polynomial.X +
      Polynomial.C e * Polynomial.X ^ 2 : Polynomial ℝ).natDegree ≤ 2 := by compute_degree
    omega
  by_cases hm : m = .binary
  · rw [if_pos hm] at hfind
    refine ev (Polynomial.C 0 + Polynomial.C 1 * Polynomial.X + Polynomial.C (-2) * Polynomial.X ^ 2)
      (hdeg _ _ _) 0 (1 / 2) hfind (fun t h0 h1 => ?_) (by rw [hder]; norm_num)
    rw [twoHumps_high h0 h1]
    simp
    ring
  · rw [if_neg hm] at hfind
    refine ev (Polynomial.C (-1) + Polynomial.C 3 * Polynomial.X + Polynomial.C (-2) * Polynomial.X ^ 2)
      (hdeg _ _ _) (1 / 2) 1 hfind (fun t h0 h1 => ?_) (by rw [hder]; norm_num)
    rw [twoHumps_low h0 h1]
    simp
    ring

theorem scan_small (f : Dbl → Dbl) (hf : ∀ x, f x ≤ .fin eps) (dir : Dir) (n rest i : ℕ) (s : Sub)
    (hs : s.fc ≤ .fin eps) : (scan f dir n rest i s).fc ≤ .fin eps := by
  induction rest generalizing i s with
  | zero => exact hs
  | succ rest ih =>
    simp only [scan]
    rw [if_neg]
    · exact ih _ _ (hf _)
    · intro h
      have := hf (xFromT (dir.c i n))
      generalize f (xFromT (dir.c i n)) = v at h this
      cases v with
      | fin v => simp only [fin_lt, fin_le] at h this; linarith
      | nan => simp at h
      | pinf => simp at this
      | ninf => simp at h

theorem subLoop_small (f : Dbl → Dbl) (hf : ∀ x, f x ≤ .fin eps) (dir : Dir) (lim : ℕ) (lo hi : ℕ → ℕ) (s r : Sub)
    (hs : s.fc ≤ .fin eps) (fuel n : ℕ) (h : iter (subStep f dir lim lo hi) fuel (n, s) = some r) :
    r.fc ≤ .fin eps := by
  refine iter_inv (step := subStep f dir lim lo hi) (fun s => s.2.fc ≤ .fin eps) (fun r => r.fc ≤ .fin eps)
    ?_ ?_ hs h
  · rintro s s' hs h
    simp only [subStep] at h
    split at h
    · simp only [Sum.inl.injEq] at h
      subst h
      exact scan_small f hf _ _ _ _ _ hs
    · simp at h
  · rintro s r hs h
    simp only [subStep] at h
    split at h
    · simp at h
    · simp only [Sum.inr.injEq] at h
      subst h
      exact hs

theorem scat_small (f : Dbl → Dbl) (hf : ∀ x, f x ≤ .fin eps) (lim fuel n : ℕ) (s : ℕ × ℕ × Probe) (r : Probe)
    (hs : s.2.2.fc ≤ .fin eps) (h : iter (scatStep f epsTests lim fuel) n s = some (some r)) : r.fc ≤ .fin eps := by
  have inner : ∀ n (s : ℕ × ℕ × Probe) (r : Probe), s.2.2.fc ≤ .fin eps → ∀ k,
      iter (innerStep f epsTests lim n) k s = some r → r.fc ≤ .fin eps := by
    intro n s r hs k h
    refine iter_inv (step := innerStep f epsTests lim n) (fun s => s.2.2.fc ≤ .fin eps) (fun r => r.fc ≤ .fin eps)
      ?_ ?_ hs h
    · rintro s s' hs h
      simp only [innerStep] at h
      split at h
      · split at h
        · simp at h
        · simp only [Sum.inl.injEq] at h
          subst h
          exact hf _
      · simp at h
    · rintro s r hs h
      simp only [innerStep] at h
      split at h
      · split at h
        · simp only [Sum.inr.injEq] at h
          subst h
          exact hf _
        · simp at h
      · simp only [Sum.inr.injEq] at h
        subst h
        exact hs
  have := iter_inv (step := scatStep f epsTests lim fuel) (fun s => s.2.2.fc ≤ .fin eps)
    (fun r => ∀ q, r = some q → q.fc ≤ .fin eps) (by
      rintro s s' hs h
      simp only [scatStep] at h
      split at h
      · split at h
        · simp at h
        · split at h
          · simp at h
          · rename_i hi
            simp only [Sum.inl.injEq] at h
            subst h
            exact inner _ _ _ (hf _) _ hi
      · simp at h) (by
      rintro s r hs h q rfl
      simp only [scatStep] at h
      split at h
      · split at h
        · simp only [Sum.inr.injEq, Option.some.injEq] at h
          subst h
          exact hf _
        · split at h
          · simp at h
          · simp at h
      · simp only [Sum.inr.injEq, Option.some.injEq] at h
        subst h
        exact hs) hs h
  exact this r rfl

/-- **C35, what fails (2)**: an integrand that nowhere exceeds epsilon (2^-52), for instance any negative one, is
"successfully" integrated to 0 by all methods but the directed search, whatever its integral. -/
theorem small_or_negative_fails (f : Dbl → Dbl) (hf : ∀ x, f x ≤ .fin eps) (cfg : Cfg) (hm : cfg.method ≠ .directed)
    (rep : Report) (h : Returns f cfg rep) :
    rep.outcome = .searchFail ∧ rep.result.integral = 0 ∧ rep.result.successful = true := by
  rcases maq_cases f cfg rep h with ⟨n, -, rfl⟩ | ⟨a, b, n, ⟨N, hN⟩, -⟩
  · exact ⟨rfl, rfl, rfl⟩
  · exfalso
    have hN := hN N le_rfl
    have hg : f (xFromT 1) ≤ .fin eps ∧ f (xFromT (1 / 2)) ≤ .fin eps := ⟨hf _, hf _⟩
    have hsub : ∀ s, s.fc ≤ .fin eps → subResult s ≠ .bracket a b n := by
      intro s hs
      rw [subResult, if_pos hs]
      simp
    cases hmm : cfg.method with
    | directed => exact hm hmm
    | binary =>
      simp only [search, hmm, binarySubdivision, if_pos hg, Option.map_eq_some_iff] at hN
      obtain ⟨s, h1, h2⟩ := hN
      exact hsub s (subLoop_small f hf _ _ _ _ _ s (hf _) _ _ h1) h2
    | reverse =>
      simp only [search, hmm, reverseSubdivision, if_pos hg, Option.map_eq_some_iff] at hN
      obtain ⟨s, h1, h2⟩ := hN
      exact hsub s (subLoop_small f hf _ _ _ _ _ s (hf _) _ _ h1) h2
    | lowFirst =>
      simp only [search, hmm, lowFirstSubdivision, if_pos hg, Option.map_eq_some_iff, Option.bind_eq_some_iff] at hN
      obtain ⟨s, h1, s', h2, h3⟩ := hN
      exact hsub s' (subLoop_small f hf _ _ _ _ _ s' (subLoop_small f hf _ _ _ _ _ s (hf _) _ _ h1) _ _ h2) h3
    | scattered =>
      simp only [search, hmm, scatteredSearch, if_pos hg, Option.map_eq_some_iff, Option.join_eq_some_iff] at hN
      obtain ⟨q, h1, h2⟩ := hN
      have := scat_small f hf _ _ _ _ _ (by exact hf _) h1
      rw [if_pos this] at h2
      simp at h2

/-- `-1/(1+x)^3`, with integral -1/2, integrates to 0 "successfully". -/
example : ∃ (f : Dbl → Dbl) (rep : Report), (∀ x, 0 ≤ x → f (.fin x) = .fin (-(1 / (1 + x) ^ 3))) ∧
    Returns f ⟨.fin (1 / 1000), 2048, 2048, .scattered⟩ rep ∧ rep.result.integral = 0 ∧
    rep.result.successful = true := by
  let f : Dbl → Dbl := fun x => match x with
    | .fin x => if 0 ≤ x then .fin (-(1 / (1 + x) ^ 3)) else .fin 0
    | _ => .fin 0
  have he : 0 < eps := by norm_num [eps]
  obtain ⟨rep, h1, -⟩ := maq_terminates f ⟨.fin (1 / 1000), 2048, 2048, .scattered⟩ (by norm_num) (by norm_num)
  refine ⟨f, rep, fun x hx => if_pos hx, h1, ?_⟩
  refine (small_or_negative_fails f (fun x => ?_) _ (by simp) rep h1).2
  cases x with
  | fin x =>
    by_cases hx : 0 ≤ x
    · simp only [f, if_pos hx, fin_le]
      have : 0 < 1 / (1 + x) ^ 3 := by positivity
      linarith
    · simp only [f, if_neg hx, fin_le]; exact he.le
  | nan => simp only [f, fin_le]; exact he.le
  | pinf => simp only [f, fin_le]; exact he.le
  | ninf => simp only [f, fin_le]; exact he.le

end

end Slat.Maq
