import Verif.LnFRound
import Mathlib.Analysis.Complex.ExponentialBounds

/-!
# C77: sums, mixtures and total costs in machine arithmetic

C46 and C50 say what the exact formulas give.  The theorems here are about the code with every operation rounded: mean and mean square
of `AddDistributions`, `AddWeightedDistributions`, `Structure::Cost` and `Structure::TotalCost` are those of the sum or mixture up to a
relative error, for every machine whose operations have a relative error of at most `u` (no overflow, no underflow).  For `TotalCost`
this needs a mixture with some spread: otherwise the difference under the square root can be negative and the result is NaN.
-/

namespace Slat.LnF

open Real (exp log)

noncomputable section

variable {M : Machine} {u : ℝ}

/-! ### General bounds -/

/-- `AddDistributions`: mean and mean square of the sum. -/
theorem sum_accurate (h : Accurate M u) {H : ℝ} (hH0 : 0 ≤ H) (ds : List LogNormalDist) (hd : ∀ d ∈ ds, Regular d)
    (hH : ∀ d ∈ ds, size d ≤ H) :
    Right u (ds.length * eps u + meanErr u H) ((2 * ds.length + 5) * eps u + 4 * meanErr u H) (M.addDistributions ds)
      (sumMean ds) (sumSquare ds) := sum_right h hH0 ds hd hH

/-- `AddWeightedDistributions`: mean and mean square of the mixture; the weights may be off a sum of one. -/
theorem mixture_accurate (h : Accurate M u) {H ω : ℝ} (hH0 : 0 ≤ H) (es : List (LogNormalDist × ℝ)) (hd : ∀ e ∈ es, Regular e.1)
    (hH : ∀ e ∈ es, size e.1 ≤ H) (hw : ∀ e ∈ es, 0 ≤ e.2) (hω : 0 ≤ ω) (hs : (es.map (·.2)).sum ≤ exp ω) :
    Right u ((es.length + 1) * eps u + meanErr u H)
      ((7 * es.length + 29) * eps u + 16 * meanErr u H + 2 * ω)
      (M.addWeighted (es.map fun e => (e.1, .fin e.2))) (mixMean es) (mixSquare es) := by
  have := mix_right h hH0 es hd hH hw hω hs
  convert this using 1
  ring

theorem pair_nonneg {nc rb : LogNormalDist} {x y : ℝ} (hx : 0 ≤ x) (hy : 0 ≤ y) : ∀ e ∈ [(nc, x), (rb, y)], 0 ≤ e.2 := by
  simp [hx, hy]

/-- `Structure::Cost` with collapse: mean and mean square of the mixture with the exact weights `1 - p` and `p`. -/
theorem cost_accurate (h : Accurate M u) {H : ℝ} {nc rb : LogNormalDist} (hn : Regular nc) (hr : Regular rb) (Hn : size nc ≤ H)
    (Hr : size rb ≤ H) {p : ℝ} (p0 : 0 ≤ p) (p1 : p ≤ 1) :
    Right u (4 * eps u + meanErr u H) (50 * eps u + 16 * meanErr u H) (M.costWithCollapse nc rb (.fin p))
      (mixMean [(nc, 1 - p), (rb, p)]) (mixSquare [(nc, 1 - p), (rb, p)]) := by
  have he := eps_pos h
  have hH0 := (size_nonneg nc).trans Hn
  have hE := meanErr_nonneg h hH0
  have nw := r_near h (show 0 ≤ 1 - p by linarith)
  have w0 := nw.nonneg (by linarith)
  have hreg : ∀ e ∈ [(nc, M.r (1 - p)), (rb, p)], Regular e.1 := by simp [hn, hr]
  have hreg' : ∀ e ∈ [(nc, 1 - p), (rb, p)], Regular e.1 := by simp [hn, hr]
  have hsz : ∀ e ∈ [(nc, M.r (1 - p)), (rb, p)], size e.1 ≤ H := by simp [Hn, Hr]
  obtain ⟨a, q, e, k1, k2⟩ := weightedLoop_near h hH0 _ hreg hsz (pair_nonneg w0 p0) 0 (a := 0) (A := 0) (q := 0) (Q := 0) le_rfl le_rfl
    (by simp [Near]) (by simp [Near])
  rw [zero_add, zero_add] at k1 k2
  have hw := pair_nonneg (nc := nc) (rb := rb) (show 0 ≤ 1 - p by linarith) p0
  have hA := mixMean_nonneg _ hw
  have hQ := mixSquare_nonneg _ hw
  have j1 : Near (eps u) (mixMean [(nc, M.r (1 - p)), (rb, p)]) (mixMean [(nc, 1 - p), (rb, p)]) := by
    have a1 := (Near.refl le_rfl (mean_nonneg nc)).mul nw (mean_nonneg nc) (show 0 ≤ 1 - p by linarith)
    rw [zero_add] at a1
    have := a1.add (Near.refl he (mul_nonneg (mean_nonneg rb) p0))
    simpa [mixMean] using this
  have j2 : Near (eps u) (mixSquare [(nc, M.r (1 - p)), (rb, p)]) (mixSquare [(nc, 1 - p), (rb, p)]) := by
    have a1 := (Near.refl le_rfl (meanSquare_nonneg nc)).mul nw (meanSquare_nonneg nc) (show 0 ≤ 1 - p by linarith)
    rw [zero_add] at a1
    have := a1.add (Near.refl he (mul_nonneg (meanSquare_nonneg rb) p0))
    simpa [mixSquare] using this
  have m1 : Near (4 * eps u + meanErr u H) a (mixMean [(nc, 1 - p), (rb, p)]) := by
    refine (k1.trans j1).mono ?_ hA
    simp only [List.length_cons, List.length_nil]
    push_cast
    linarith
  have m2 : Near (10 * eps u + 4 * meanErr u H) q (mixSquare [(nc, 1 - p), (rb, p)]) := by
    refine (k2.trans j2).mono ?_ hQ
    simp only [List.length_cons, List.length_nil]
    push_cast
    linarith
  have hle : mixMean [(nc, 1 - p), (rb, p)] ^ 2 ≤ exp 0 * mixSquare [(nc, 1 - p), (rb, p)] := by
    have := (mix_cauchy _ hw).1
    simpa using this
  have := mix_finish h hA (by linarith) (by linarith) le_rfl m1 m2 hQ hle (mix_zero _ hreg' hw)
  have e2 : M.costWithCollapse nc rb (.fin p) =
      M.ofMeanSigma (.fin a) (M.sqrt (Dbl.abs (M.sub (.fin q) (M.mul (.fin a) (.fin a))))) := by
    have e' : M.weightedLoop [(nc, .fin (M.r (1 - p))), (rb, .fin p)] 0 0 = (.fin a, .fin q) := e
    rw [Machine.costWithCollapse, Machine.addWeighted, Dbl.one_def, sub_fin h, e']
  rw [e2]
  convert this using 1
  ring

/-- `Structure::TotalCost`: mean and mean square of the mixture of repair, demolition and rebuilding.  Partial: only for mixtures whose
mean square exceeds the squared mean by a factor a little above one (see `totalCost_fails_rounding`). -/
theorem totalCost_accurate_partial (h : Accurate M u) {H : ℝ} {r d c : LogNormalDist} (hr : Regular r) (hd : Regular d) (hc : Regular c)
    (Hr : size r ≤ H) (Hd : size d ≤ H) (Hc : size c ≤ H) {pR pD pC : ℝ} (hpR : 0 ≤ pR)
    (hvar : mixMean [(r, pR), (d, max 0 pD), (c, max 0 pC)] ^ 2 * exp (16 * eps u + 6 * meanErr u H) ≤
      mixSquare [(r, pR), (d, max 0 pD), (c, max 0 pC)]) :
    Right u (3 * eps u + meanErr u H) (11 * eps u + 4 * meanErr u H) (M.totalCost r d c (.fin pR) (.fin pD) (.fin pC))
      (mixMean [(r, pR), (d, max 0 pD), (c, max 0 pC)]) (mixSquare [(r, pR), (d, max 0 pD), (c, max 0 pC)]) :=
  total_right h hr hd hc Hr Hd Hc hpR hvar

/-- The three probabilities of `TotalCost` add up to one up to three roundings. -/
theorem fates_rounded (h : Accurate M u) (hu : u ≤ 1 / 8) {a c : ℝ} (a0 : 0 ≤ a) (a1 : a ≤ 1) (c0 : 0 ≤ c) (c1 : c ≤ 1) :
    ∃ pD pR, M.pDemolition (some (.fin a)) (.fin c) = .fin pD ∧ M.pRepair (some (.fin a)) (.fin c) = .fin pR ∧
      |pR + pD + c - 1| ≤ 3 * u := by
  have h0 := h.nonneg
  have e1 : M.pDemolition (some (.fin a)) (.fin c) = .fin (M.r (a - c)) := by rw [Machine.pDemolition, sub_fin h]
  refine ⟨M.r (a - c), M.r (1 - M.r (M.r (a - c) + c)), e1, ?_, ?_⟩
  · rw [Machine.pRepair, e1, add_fin h, Dbl.one_def, sub_fin h]
  · have h1 := r_rel h (a - c)
    set d := M.r (a - c)
    have h2 := r_rel h (d + c)
    set x := M.r (d + c)
    have h3 := r_rel h (1 - x)
    set y := M.r (1 - x)
    have b1 : |a - c| ≤ 1 := by rw [abs_le]; constructor <;> linarith
    have b2 : |d - (a - c)| ≤ u := h1.trans (by nlinarith)
    have b3 := abs_le.1 b2
    have b4 : |d + c| ≤ 1 + u := by rw [abs_le]; constructor <;> linarith
    have b5 : |x - (d + c)| ≤ u * (1 + u) := h2.trans (mul_le_mul_of_nonneg_left b4 h0)
    have b6 := abs_le.1 b5
    have b7 := abs_le.1 b4
    have b8 : |1 - x| ≤ 1 + 2 * u + u ^ 2 := by rw [abs_le]; constructor <;> nlinarith
    have b9 : |y - (1 - x)| ≤ u * (1 + 2 * u + u ^ 2) := h3.trans (mul_le_mul_of_nonneg_left b8 h0)
    have b10 := abs_le.1 b9
    have b11 : u * (1 + 2 * u + u ^ 2) + u * (1 + u) ≤ 3 * u := by nlinarith [mul_nonneg h0 h0]
    rw [abs_le]
    constructor <;> linarith

/-! ### In numbers, for `double` -/

theorem eps_le (hu : u ≤ 1 / 2 ^ 52) : eps u ≤ 23 / 10 ^ 17 := by
  have h1 : (0 : ℝ) < 1 - u := by norm_num at hu; linarith
  have h2 := Real.log_le_sub_one_of_pos (inv_pos.2 h1)
  rw [Real.log_inv] at h2
  have h3 : (1 - u)⁻¹ - 1 ≤ 23 / 10 ^ 17 := by
    have : (1 - u)⁻¹ ≤ 1 + 23 / 10 ^ 17 := by
      rw [inv_le_iff_one_le_mul₀ h1]
      norm_num at hu ⊢
      nlinarith
    linarith
  exact h2.trans h3

theorem exp_le_of {x : ℝ} (h1 : x ≤ 1 / 2) : exp x ≤ 1 + 2 * |x| := by
  rcases le_total x 0 with h | h
  · have := Real.exp_le_one_iff.2 h
    have := abs_nonneg x
    linarith
  · have := Real.abs_exp_sub_one_le (x := x) (by rw [abs_of_nonneg h]; linarith)
    have := (abs_le.1 this).2
    linarith

theorem three_le (hu0 : 0 ≤ u) (hu : u ≤ 1 / 2 ^ 52) : three u ≤ 138 / 10 ^ 17 := by
  have h1 := eps_le hu
  have h0 : 0 ≤ eps u := eps_nonneg hu0 (by norm_num at hu; linarith)
  have := exp_le_of (x := 3 * eps u) (by norm_num at h1 ⊢; linarith)
  rw [abs_of_nonneg (by linarith)] at this
  rw [three]
  linarith

theorem near_close {η δ x A : ℝ} (h : Near η x A) (hA : 0 ≤ A) (h0 : 0 ≤ η) (h1 : 2 * η ≤ δ) (h2 : δ ≤ 1) : |x - A| ≤ δ * A := by
  refine (h.abs_sub h0 hA).trans (mul_le_mul_of_nonneg_right ?_ hA)
  have := exp_le_of (x := η) (by linarith)
  rw [abs_of_nonneg h0] at this
  linarith

theorem near_zero {η x : ℝ} (h : Near η x 0) : x = 0 := by
  have h1 := h.1
  have h2 := h.2
  rw [zero_mul] at h1
  have := pos_of_mul_pos_left (a := x) (b := exp η)
  by_contra hx
  have : x < 0 := lt_of_le_of_ne h1 hx
  have := mul_neg_of_neg_of_pos this (Real.exp_pos η)
  linarith

/-- The general bounds in numbers. -/
theorem right_close (hu0 : 0 ≤ u) (hu : u ≤ 1 / 2 ^ 52) {α θ A Q : ℝ} {d : LogNormalDist} (h : Right u α θ d A Q) (hα0 : 0 ≤ α)
    (hα : α ≤ 2 / 10 ^ 12) (hθ0 : 0 ≤ θ) (hθ : θ ≤ 20 / 10 ^ 12) (hA : 0 ≤ A) (hQ : 0 ≤ Q)
    (hl : A ≠ 0 → |log A| ≤ 1000 ∧ |log (Q / A ^ 2)| ≤ 1000) (h0 : A = 0 → Q = 0) : Close (1 / 10 ^ 10) d A Q := by
  obtain ⟨-, n1, n2⟩ := h
  by_cases hz : A = 0
  · have hq := h0 hz
    subst hz hq
    rw [Close, near_zero n1, near_zero n2]
    simp
  obtain ⟨l1, l2⟩ := hl hz
  have e0 : 0 ≤ eps u := eps_nonneg hu0 (by norm_num at hu; linarith)
  have e1 := eps_le hu
  have t1 := three_le hu0 hu
  have t0 : 0 ≤ three u := by
    have := Real.one_le_exp (show 0 ≤ 3 * eps u by linarith)
    rw [three]; linarith
  set lam := 6 * eps u + θ + 2 * α with hlam
  have lam0 : 0 ≤ lam := by rw [hlam]; linarith
  have lam1 : lam ≤ 25 / 10 ^ 12 := by rw [hlam]; norm_num at e1 hα hθ ⊢; linarith
  have r0 : 0 ≤ ratioErr u α θ A Q := by
    rw [ratioErr, ← hlam]
    have := mul_nonneg t0 (add_nonneg (abs_nonneg (log (Q / A ^ 2))) lam0)
    linarith
  have r1 : ratioErr u α θ A Q ≤ 27 / 10 ^ 12 := by
    rw [ratioErr, ← hlam]
    have : three u * (|log (Q / A ^ 2)| + lam) ≤ 138 / 10 ^ 17 * 1001 := by
      refine mul_le_mul t1 ?_ (by positivity) (by positivity)
      norm_num at lam1; linarith
    norm_num at this lam1 ⊢
    linarith
  have m0 : 0 ≤ resultErr u α θ A Q := by
    rw [resultErr, ← hlam]
    positivity
  have m1 : resultErr u α θ A Q ≤ 5 / 10 ^ 12 := by
    rw [resultErr, ← hlam]
    have : three u * (|log A| + α + (1 + three u) * (|log (Q / A ^ 2)| + lam) / 2) ≤ 138 / 10 ^ 17 * 2100 := by
      refine mul_le_mul t1 ?_ (by positivity) (by positivity)
      have k : (1 + three u) * (|log (Q / A ^ 2)| + lam) ≤ 2 * 1001 := by
        refine mul_le_mul ?_ ?_ (by positivity) (by norm_num)
        · norm_num at t1; linarith
        · norm_num at lam1; linarith
      norm_num at hα
      linarith
    norm_num at this hα ⊢
    linarith
  exact ⟨near_close n1 hA m0 (by norm_num at m1 ⊢; linarith) (by norm_num),
    near_close n2 hQ (by linarith) (by norm_num at m1 r1 ⊢; linarith) (by norm_num)⟩

theorem meanErr_le (hu0 : 0 ≤ u) (hu : u ≤ 1 / 2 ^ 52) {H : ℝ} (h0 : 0 ≤ H) (h1 : H ≤ 500) : meanErr u H ≤ 7 / 10 ^ 13 := by
  have e1 := eps_le hu
  have t1 := three_le hu0 hu
  rw [meanErr]
  have : three u * H ≤ 138 / 10 ^ 17 * 500 := mul_le_mul t1 h1 h0 (by positivity)
  norm_num at this e1 ⊢
  linarith

theorem mean_lower {d : LogNormalDist} (h : mean d ≠ 0) : exp (-size d) ≤ mean d := by
  obtain ⟨mu, sigma⟩ := d
  cases mu <;> cases sigma <;> simp_all [mean, size]
  rename_i m s
  have := neg_abs_le m
  nlinarith [sq_nonneg s]

theorem mean_upper (d : LogNormalDist) : mean d ≤ exp (size d) := by
  obtain ⟨mu, sigma⟩ := d
  cases mu <;> cases sigma <;> simp [mean, size, Real.exp_nonneg]
  rename_i m s
  exact le_abs_self m

theorem meanSquare_upper (d : LogNormalDist) : meanSquare d ≤ exp (2 * size d) * mean d ^ 2 := by
  obtain ⟨mu, sigma⟩ := d
  cases mu <;> cases sigma <;> simp [mean, meanSquare, size]
  rename_i m s
  rw [← Real.exp_nat_mul, ← Real.exp_add]
  refine Real.exp_le_exp.2 ?_
  have := abs_nonneg m
  push_cast
  nlinarith

/-- The logarithms of a sum are bounded. -/
theorem sum_logs {H : ℝ} (hH0 : 0 ≤ H) (ds : List LogNormalDist) (hH : ∀ d ∈ ds, size d ≤ H) (hA : sumMean ds ≠ 0) :
    exp (-H) ≤ sumMean ds ∧ sumMean ds ≤ ds.length * exp H ∧ sumMean ds ^ 2 ≤ sumSquare ds ∧
      sumSquare ds ≤ exp (2 * H) * sumMean ds ^ 2 := by
  have hE : 1 ≤ exp (2 * H) := Real.one_le_exp (by linarith)
  refine ⟨?_, ?_, ?_, ?_⟩
  · have : ∃ d ∈ ds, mean d ≠ 0 := by
      by_contra hc
      push Not at hc
      refine hA (List.sum_eq_zero ?_)
      simp only [List.mem_map]
      rintro _ ⟨d, hd, rfl⟩
      exact hc d hd
    obtain ⟨d, hd, hm⟩ := this
    have h1 : mean d ≤ sumMean ds := by
      refine List.single_le_sum ?_ _ (List.mem_map_of_mem hd)
      simp only [List.mem_map]
      rintro _ ⟨d, -, rfl⟩
      exact mean_nonneg d
    have h2 := mean_lower hm
    have h3 := Real.exp_le_exp.2 (show -H ≤ -size d by have := hH d hd; linarith)
    linarith
  · have : ∀ ds : List LogNormalDist, (∀ d ∈ ds, size d ≤ H) → sumMean ds ≤ ds.length * exp H := by
      intro ds
      induction ds with
      | nil => intro _; simp [sumMean]
      | cons d ds ih =>
        intro hs
        have h1 := ih fun d hd => hs d (List.mem_cons_of_mem _ hd)
        have h2 := (mean_upper d).trans (Real.exp_le_exp.2 (hs d List.mem_cons_self))
        have h3 : sumMean (d :: ds) = mean d + sumMean ds := by simp [sumMean]
        rw [h3, List.length_cons]
        push_cast
        linarith
    exact this ds hH
  · have : 0 ≤ (ds.map fun d => meanSquare d - mean d ^ 2).sum := by
      refine List.sum_nonneg ?_
      simp only [List.mem_map]
      rintro _ ⟨d, -, rfl⟩
      have := mean_sq_le d
      linarith
    rw [sumSquare]; linarith
  · have : ∀ ds : List LogNormalDist, (∀ d ∈ ds, size d ≤ H) → sumSquare ds ≤ exp (2 * H) * sumMean ds ^ 2 := by
      intro ds
      induction ds with
      | nil => intro _; simp [sumMean, sumSquare]
      | cons d ds ih =>
        intro hs
        have h1 := ih fun d hd => hs d (List.mem_cons_of_mem _ hd)
        have h2 : meanSquare d ≤ exp (2 * H) * mean d ^ 2 := by
          refine (meanSquare_upper d).trans (mul_le_mul_of_nonneg_right (Real.exp_le_exp.2 ?_) (sq_nonneg _))
          have := hs d List.mem_cons_self
          linarith
        have h3 : sumMean (d :: ds) = mean d + sumMean ds := by simp [sumMean]
        have h4 := mul_nonneg (mean_nonneg d) (sumMean_nonneg ds)
        rw [sumSquare_cons, h3]
        nlinarith
    exact this ds hH

/-- At most a thousand costs with `|mu| + sigma²/2 ≤ 500`: `AddDistributions` is right to ten digits. -/
theorem sum_accurate_double (h : Accurate M u) (hu : u ≤ 1 / 2 ^ 52) (ds : List LogNormalDist) (hn : ds.length ≤ 1000)
    (hd : ∀ d ∈ ds, Regular d) (hH : ∀ d ∈ ds, size d ≤ 500) :
    Close (1 / 10 ^ 10) (M.addDistributions ds) (sumMean ds) (sumSquare ds) := by
  have he := eps_pos h
  have e1 := eps_le hu
  have m1 := meanErr_le h.nonneg hu (H := 500) (by norm_num) le_rfl
  have m0 := meanErr_nonneg h (H := 500) (by norm_num)
  have hn' : (ds.length : ℝ) ≤ 1000 := by exact_mod_cast hn
  have hne : (ds.length : ℝ) * eps u ≤ 1000 * (23 / 10 ^ 17) := mul_le_mul hn' e1 he (by norm_num)
  refine right_close h.nonneg hu (sum_accurate h (by norm_num) ds hd hH) (by positivity) ?_ (by positivity) ?_ (sumMean_nonneg ds)
    (sumSquare_nonneg ds) ?_ (sum_zero ds hd)
  · norm_num at hne m1 ⊢
    linarith
  · norm_num at hne m1 e1 ⊢
    nlinarith
  · intro hA
    obtain ⟨k1, k2, k3, k4⟩ := sum_logs (by norm_num) ds hH hA
    have hpos : 0 < sumMean ds := lt_of_le_of_ne (sumMean_nonneg ds) (Ne.symm hA)
    have l1 : -500 ≤ log (sumMean ds) := by rw [Real.le_log_iff_exp_le hpos]; exact k1
    have l2 : log (sumMean ds) ≤ 1000 := by
      rw [Real.log_le_iff_le_exp hpos]
      refine k2.trans ?_
      have : (1000 : ℝ) ≤ exp 500 := by
        have := Real.add_one_le_exp (500 : ℝ)
        have h2 : exp (500 : ℝ) = exp 250 * exp 250 := by rw [← Real.exp_add]; norm_num
        have h3 := Real.add_one_le_exp (250 : ℝ)
        nlinarith
      have e : exp (1000 : ℝ) = exp 500 * exp 500 := by rw [← Real.exp_add]; norm_num
      rw [e]
      gcongr
      exact hn'.trans this
    have hq : 1 ≤ sumSquare ds / sumMean ds ^ 2 := by rw [le_div_iff₀ (by positivity)]; linarith
    have hq2 : sumSquare ds / sumMean ds ^ 2 ≤ exp 1000 := by
      rw [div_le_iff₀ (by positivity)]
      have e : (2 : ℝ) * 500 = 1000 := by norm_num
      rwa [e] at k4
    refine ⟨abs_le.2 ⟨by linarith, l2⟩, ?_⟩
    rw [abs_of_nonneg (Real.log_nonneg hq), Real.log_le_iff_le_exp (by linarith)]
    exact hq2

/-- Cost with collapse in numbers. -/
theorem cost_accurate_double (h : Accurate M u) (hu : u ≤ 1 / 2 ^ 52) {nc rb : LogNormalDist} (hn : Regular nc) (hr : Regular rb)
    (Hn : size nc ≤ 500) (Hr : size rb ≤ 500) {p : ℝ} (p0 : 0 ≤ p) (p1 : p ≤ 1)
    (hl : mixMean [(nc, 1 - p), (rb, p)] ≠ 0 → |log (mixMean [(nc, 1 - p), (rb, p)])| ≤ 1000 ∧
      |log (mixSquare [(nc, 1 - p), (rb, p)] / mixMean [(nc, 1 - p), (rb, p)] ^ 2)| ≤ 1000) :
    Close (1 / 10 ^ 10) (M.costWithCollapse nc rb (.fin p)) (mixMean [(nc, 1 - p), (rb, p)]) (mixSquare [(nc, 1 - p), (rb, p)]) := by
  have he := eps_pos h
  have e1 := eps_le hu
  have m1 := meanErr_le h.nonneg hu (H := 500) (by norm_num) le_rfl
  have m0 := meanErr_nonneg h (H := 500) (by norm_num)
  have hw := pair_nonneg (nc := nc) (rb := rb) (show 0 ≤ 1 - p by linarith) p0
  refine right_close h.nonneg hu (cost_accurate h hn hr Hn Hr p0 p1) (by positivity) ?_ (by positivity) ?_ (mixMean_nonneg _ hw)
    (mixSquare_nonneg _ hw) hl (mix_zero _ (by simp [hn, hr]) hw)
  · norm_num at m1 e1 ⊢
    linarith
  · norm_num at m1 e1 ⊢
    linarith

/-! ### Where it fails -/

/-- The costs of the counterexample: `exp 1` without spread. -/
def certain : LogNormalDist := ⟨.fin 1, .fin 0⟩

theorem ieee_short (m : ℕ) (k : ℤ) (h : m ≤ 2 ^ 53) {x : ℝ} (e : x = m * 2 ^ k) : ieee.r x = x := by
  rw [ieee_r, e, nearest_fix m k h]

theorem nearest_e : nearest (exp 1) = 6121026514868073 / 2 ^ 51 := by
  have h := abs_le.1 Real.exp_one_near_20
  have : nearest (exp 1) = (6121026514868073 : ℕ) * 2 ^ (-51 : ℤ) := by
    refine nearest_eval _ _ ?_ ?_ (abs_lt.2 ⟨?_, ?_⟩) <;> norm_num at h ⊢ <;> linarith
  rw [this]
  norm_num

theorem certain_mean : ieee.getMean certain = .fin (6121026514868073 / 2 ^ 51) := by
  have h := ieee_accurate
  have e0 : ieee.r (0 : ℝ) = 0 := r_zero h
  have e1 : ieee.r (1 : ℝ) = 1 := ieee_short 1 0 (by norm_num) (by norm_num)
  rw [Machine.getMean, certain, if_neg (show ¬ Dbl.feq (.fin 1) .ninf from fun k => k)]
  dsimp only
  rw [mul_fin h, zero_mul, e0, div_fin h _ two_ne_zero, zero_div, e0, add_fin h, add_zero, e1, exp_fin h, ieee_e, nearest_e]

theorem certain_sigma : ieee.getSigma certain = .fin 0 := by
  have h := ieee_accurate
  have e0 : ieee.r (0 : ℝ) = 0 := r_zero h
  have e1 : ieee.r (1 : ℝ) = 1 := ieee_short 1 0 (by norm_num) (by norm_num)
  have e2 : ieee.e (0 : ℝ) = 1 := by rw [ieee_e, Real.exp_zero, ← ieee_r, e1]
  rw [Machine.getSigma, certain, if_neg (show ¬ Dbl.feq (.fin 1) .ninf from fun k => k), ← certain, certain_mean]
  simp only [certain]
  rw [mul_fin h, mul_zero, e0, exp_fin h, e2, Dbl.one_def, sub_fin h, sub_self, e0, sqrt_fin h le_rfl, Real.sqrt_zero, e0, mul_fin h,
    mul_zero, e0]

theorem certain_square : ieee.square certain = .fin (8319337573440941 / 2 ^ 50) := by
  have h := ieee_accurate
  have e0 : ieee.r (0 : ℝ) = 0 := r_zero h
  have e1 : ieee.r (6121026514868073 / 2 ^ 51 * (6121026514868073 / 2 ^ 51)) = 8319337573440941 / 2 ^ 50 := by
    rw [ieee_r, nearest_eval 8319337573440941 (-50) (by norm_num) (by norm_num) (by norm_num [abs_lt])]
    norm_num
  rw [Machine.square, certain_mean, certain_sigma, mul_fin h, mul_fin h, add_fin h, mul_zero, e0, add_zero, e1,
    ieee_short 8319337573440941 (-50) (by norm_num) (by norm_num)]

/-- Repairing and rebuilding both cost `e` for certain, the probability of collapse is 7/16 and there is no demolition: so the
total cost is `e` for certain.  In `double` the mean square falls short of the squared mean by one unit, the square root is taken of a
negative number, and the total cost is not a number. -/
theorem totalCost_fails_rounding :
    ∃ (M : Machine) (c d : LogNormalDist) (pC pR : ℝ), Accurate M (1 / 2 ^ 53) ∧ Regular c ∧ Regular d ∧
      M.pRepair none (.fin pC) = .fin pR ∧ 0 ≤ pR ∧ 0 ≤ pC ∧ pR + pC = 1 ∧
      mixMean [(c, pR), (d, 0), (c, pC)] = exp 1 ∧ mixSquare [(c, pR), (d, 0), (c, pC)] = exp 1 ^ 2 ∧
      M.totalCost c d c (.fin pR) 0 (.fin pC) = ⟨.nan, .nan⟩ := by
  have h := ieee_accurate
  have hq : mean certain = exp 1 := by rw [certain, mean_fin]; norm_num
  have hq2 : meanSquare certain = exp 1 ^ 2 := by rw [certain, meanSquare_fin, ← Real.exp_nat_mul]; norm_num
  have e7 : ieee.r (7 / 16 : ℝ) = 7 / 16 := ieee_short 7 (-4) (by norm_num) (by norm_num)
  have e9 : ieee.r (9 / 16 : ℝ) = 9 / 16 := ieee_short 9 (-4) (by norm_num) (by norm_num)
  refine ⟨ieee, certain, ⟨.fin 0, .fin 0⟩, 7 / 16, 9 / 16, h, ⟨0, rfl, .inl ⟨1, rfl⟩⟩, ⟨0, rfl, .inl ⟨0, rfl⟩⟩, ?_, by norm_num, by norm_num,
    by norm_num, ?_, ?_, ?_⟩
  · rw [Machine.pRepair, Machine.pDemolition, Dbl.zero_def, add_fin h, zero_add, e7, Dbl.one_def, sub_fin h,
      show (1 : ℝ) - 7 / 16 = 9 / 16 by norm_num, e9]
  · simp [mixMean, hq]; ring
  · simp [mixSquare, hq2]; ring
  · have a1 : ieee.r (6121026514868073 / 2 ^ 51 * (9 / 16)) = 6886154829226582 / 2 ^ 52 := by
      rw [ieee_r, nearest_eval 6886154829226582 (-52) (by norm_num) (by norm_num) (by norm_num [abs_lt])]
      norm_num
    have a2 : ieee.r (6121026514868073 / 2 ^ 51 * (7 / 16)) = 5355898200509564 / 2 ^ 52 := by
      rw [ieee_r, nearest_eval 5355898200509564 (-52) (by norm_num) (by norm_num) (by norm_num [abs_lt])]
      norm_num
    have a3 : ieee.r (6886154829226582 / 2 ^ 52 + 5355898200509564 / 2 ^ 52) = 6121026514868073 / 2 ^ 51 := by
      rw [ieee_r, nearest_eval 6121026514868073 (-51) (by norm_num) (by norm_num) (by norm_num [abs_lt])]
      norm_num
    have b1 : ieee.r (8319337573440941 / 2 ^ 50 * (9 / 16)) = 4679627385060529 / 2 ^ 50 := by
      rw [ieee_r, nearest_eval 4679627385060529 (-50) (by norm_num) (by norm_num) (by norm_num [abs_lt])]
      norm_num
    have b2 : ieee.r (8319337573440941 / 2 ^ 50 * (7 / 16)) = 7279420376760823 / 2 ^ 51 := by
      rw [ieee_r, nearest_eval 7279420376760823 (-51) (by norm_num) (by norm_num) (by norm_num [abs_lt])]
      norm_num
    have b3 : ieee.r (4679627385060529 / 2 ^ 50 + 7279420376760823 / 2 ^ 51) = 8319337573440940 / 2 ^ 50 := by
      have := nearest_tie 8319337573440940 (-50) (by decide) (by norm_num) (by norm_num)
      rw [ieee_r]
      norm_num at this ⊢
      exact this
    have c1 : ieee.r (6121026514868073 / 2 ^ 51 * (6121026514868073 / 2 ^ 51)) = 8319337573440941 / 2 ^ 50 := by
      rw [ieee_r, nearest_eval 8319337573440941 (-50) (by norm_num) (by norm_num) (by norm_num [abs_lt])]
      norm_num
    have c2 : ieee.r (8319337573440940 / 2 ^ 50 - 8319337573440941 / 2 ^ 50) = -(1 / 2 ^ 50) := by
      rw [ieee_r, show (8319337573440940 / 2 ^ 50 - 8319337573440941 / 2 ^ 50 : ℝ) = -((1 : ℕ) * 2 ^ (-50 : ℤ)) by norm_num, nearest_neg,
        nearest_fix 1 _ (by norm_num)]
      norm_num
    have p7 : (0 : Dbl) < .fin (7 / 16) := by
      have : (0 : ℝ) < 7 / 16 := by norm_num
      exact this
    have p0 : ¬ (0 : Dbl) < 0 := fun hh => lt_irrefl (0 : ℝ) hh
    have e : ieee.addIf (ieee.addIf (ieee.mul (ieee.getMean certain) (.fin (9 / 16))) (ieee.getMean ⟨.fin 0, .fin 0⟩) 0)
        (ieee.getMean certain) (.fin (7 / 16)) = .fin (6121026514868073 / 2 ^ 51) := by
      rw [Machine.addIf, Machine.addIf, if_neg p0, if_pos p7, certain_mean, mul_fin h, mul_fin h, a1, a2, add_fin h, a3]
    have q : ieee.addIf (ieee.addIf (ieee.mul (ieee.square certain) (.fin (9 / 16))) (ieee.square ⟨.fin 0, .fin 0⟩) 0)
        (ieee.square certain) (.fin (7 / 16)) = .fin (8319337573440940 / 2 ^ 50) := by
      rw [Machine.addIf, Machine.addIf, if_neg p0, if_pos p7, certain_square, mul_fin h, mul_fin h, b1, b2, add_fin h, b3]
    have s : ieee.sqrt (.fin (-(1 / 2 ^ 50))) = .nan := by
      rw [Machine.sqrt, Dbl.sqrt_neg (by norm_num)]
      rfl
    rw [Machine.totalCost, e, q, mul_fin h, c1, sub_fin h, c2, s]
    have n1 : ieee.sigmaLn (.fin (6121026514868073 / 2 ^ 51)) .nan = .nan := by
      have hne : ¬ Dbl.feq (.fin (6121026514868073 / 2 ^ 51)) 0 := by
        intro hh
        have : (6121026514868073 / 2 ^ 51 : ℝ) = 0 := hh
        norm_num at this
      rw [Machine.sigmaLn, if_neg hne, mul_fin h]
      rfl
    rw [Machine.ofMeanSigma, n1, Machine.muLn, log_fin h (by norm_num)]
    rfl

/-- The spread of a nearly certain cost is lost: a mean of 1 and a standard deviation of 2⁻³⁰ give the certain cost 1.  So only the mean
square, and not the variance, can be right to a relative error. -/
theorem spread_fails_small : ∃ M : Machine, Accurate M (1 / 2 ^ 53) ∧
    M.ofMeanSigma (.fin 1) (.fin (1 / 2 ^ 30)) = ⟨.fin 0, .fin 0⟩ := by
  have h := ieee_accurate
  have e0 : ieee.r (0 : ℝ) = 0 := r_zero h
  have e1 : ieee.r (1 : ℝ) = 1 := ieee_short 1 0 (by norm_num) (by norm_num)
  have a1 : ieee.r (1 / 2 ^ 30 * (1 / 2 ^ 30)) = 1 / 2 ^ 60 := by
    rw [ieee_short 1 (-60) (by norm_num) (by norm_num)]
    norm_num
  have a2 : ieee.r (1 / 2 ^ 60 / 1) = 1 / 2 ^ 60 := by
    rw [ieee_short 1 (-60) (by norm_num) (by norm_num)]
    norm_num
  have a3 : ieee.r (1 + 1 / 2 ^ 60) = 1 := by
    rw [ieee_r, nearest_eval (2 ^ 52) (-52) (by norm_num) (by norm_num) (by norm_num [abs_lt])]
    norm_num
  have l1 : ieee.l 1 = 0 := by rw [ieee_l, Real.log_one, nearest_zero]
  have s : ieee.sigmaLn (.fin 1) (.fin (1 / 2 ^ 30)) = .fin 0 := by
    rw [Machine.sigmaLn, if_neg (show ¬ Dbl.feq (.fin 1) 0 from one_ne_zero), mul_fin h, mul_fin h, mul_one, e1, a1,
      div_fin h _ one_ne_zero, a2, Dbl.one_def, add_fin h, a3, log_fin h one_pos, l1, sqrt_fin h le_rfl, Real.sqrt_zero, e0]
  refine ⟨ieee, h, ?_⟩
  rw [Machine.ofMeanSigma, s, Machine.muLn, log_fin h one_pos, l1, mul_fin h, mul_zero, e0, div_fin h _ two_ne_zero, zero_div, e0, sub_fin h,
    sub_zero, e0]

/-! ### Cases -/

theorem sample_regular (m s : ℝ) : Regular ⟨.fin m, .fin s⟩ := ⟨s, rfl, .inl ⟨m, rfl⟩⟩

theorem sample_size (m s : ℝ) (h : |m| + s ^ 2 / 2 ≤ 500) : size ⟨.fin m, .fin s⟩ ≤ 500 := h

/-- Two different costs and one of zero. -/
example : Close (1 / 10 ^ 10) (ieee.addDistributions [⟨.fin 3, .fin 1⟩, ⟨.ninf, .fin 0⟩, ⟨.fin (-2), .fin 0⟩])
    (exp (3 + 1 ^ 2 / 2) + exp (-2))
    (sumSquare [⟨.fin 3, .fin 1⟩, ⟨.ninf, .fin 0⟩, ⟨.fin (-2), .fin 0⟩]) := by
  have := sum_accurate_double ieee_accurate (by norm_num) [⟨.fin 3, .fin 1⟩, ⟨.ninf, .fin 0⟩, ⟨.fin (-2), .fin 0⟩] (by simp)
    (by
      simp only [List.mem_cons, List.not_mem_nil, or_false, forall_eq_or_imp, forall_eq]
      exact ⟨sample_regular 3 1, ⟨0, rfl, .inr rfl⟩, sample_regular (-2) 0⟩)
    (by
      simp only [List.mem_cons, List.not_mem_nil, or_false, forall_eq_or_imp, forall_eq]
      exact ⟨sample_size 3 1 (by norm_num), by norm_num [size], sample_size (-2) 0 (by norm_num)⟩)
  simpa [sumMean, mean] using this

/-- A mixture with weights adding up to a little more than one. -/
example : ∃ α θ, Right (1 / 2 ^ 53) α θ (ieee.addWeighted [(⟨.fin 3, .fin 1⟩, .fin (1 / 2)), (⟨.fin 1, .fin 0⟩, .fin (3 / 5))])
    (mixMean [(⟨.fin 3, .fin 1⟩, 1 / 2), (⟨.fin 1, .fin 0⟩, 3 / 5)]) (mixSquare [(⟨.fin 3, .fin 1⟩, 1 / 2), (⟨.fin 1, .fin 0⟩, 3 / 5)]) :=
  ⟨_, _, mixture_accurate ieee_accurate (H := 500) (ω := 1) (by norm_num) [(⟨.fin 3, .fin 1⟩, 1 / 2), (⟨.fin 1, .fin 0⟩, 3 / 5)]
    (by
      simp only [List.mem_cons, List.not_mem_nil, or_false, forall_eq_or_imp, forall_eq]
      exact ⟨sample_regular 3 1, sample_regular 1 0⟩)
    (by
      simp only [List.mem_cons, List.not_mem_nil, or_false, forall_eq_or_imp, forall_eq]
      exact ⟨sample_size 3 1 (by norm_num), sample_size 1 0 (by norm_num)⟩)
    (by norm_num) zero_le_one (by
      have := Real.add_one_le_exp (1 : ℝ)
      norm_num
      linarith)⟩

/-- The certain cost `e` of the counterexample is no problem for `Structure::Cost`. -/
example : Close (1 / 10 ^ 10) (ieee.costWithCollapse certain certain (.fin (7 / 16))) (exp 1) (exp 1 ^ 2) := by
  have hq : mean certain = exp 1 := by rw [certain, mean_fin]; norm_num
  have hq2 : meanSquare certain = exp 1 ^ 2 := by rw [certain, meanSquare_fin, ← Real.exp_nat_mul]; norm_num
  have hA : mixMean [(certain, 1 - 7 / 16), (certain, (7 / 16 : ℝ))] = exp 1 := by simp [mixMean, hq]; ring
  have hQ : mixSquare [(certain, 1 - 7 / 16), (certain, (7 / 16 : ℝ))] = exp 1 ^ 2 := by simp [mixSquare, hq2]; ring
  have := cost_accurate_double ieee_accurate (by norm_num) (sample_regular 1 0) (sample_regular 1 0) (sample_size 1 0 (by norm_num))
    (sample_size 1 0 (by norm_num)) (p := 7 / 16) (by norm_num) (by norm_num) (fun _ => by
      have e1 := hA
      have e2 := hQ
      unfold certain at e1 e2
      rw [e1, e2, div_self (by positivity), Real.log_exp, Real.log_one]
      norm_num)
  have e1 := hA
  have e2 := hQ
  unfold certain at e1 e2
  rwa [e1, e2] at this

/-- Three different costs with a spread. -/
example : ∃ α θ, Right (1 / 2 ^ 53) α θ
    (ieee.totalCost ⟨.fin 0, .fin 0⟩ ⟨.fin 0, .fin 0⟩ ⟨.fin 2, .fin 0⟩ (.fin (1 / 4)) (.fin (-1)) (.fin (1 / 2)))
    (mixMean [(⟨.fin 0, .fin 0⟩, 1 / 4), (⟨.fin 0, .fin 0⟩, 0), (⟨.fin 2, .fin 0⟩, 1 / 2)])
    (mixSquare [(⟨.fin 0, .fin 0⟩, 1 / 4), (⟨.fin 0, .fin 0⟩, 0), (⟨.fin 2, .fin 0⟩, 1 / 2)]) := by
  have m0 : max 0 (-1 : ℝ) = 0 := by norm_num
  have m1 : max 0 (1 / 2 : ℝ) = 1 / 2 := by norm_num
  have := totalCost_accurate_partial ieee_accurate (H := 500) (sample_regular 0 0) (sample_regular 0 0) (sample_regular 2 0)
    (sample_size 0 0 (by norm_num)) (sample_size 0 0 (by norm_num)) (sample_size 2 0 (by norm_num)) (pR := 1 / 4) (pD := -1) (pC := 1 / 2)
    (by norm_num) (by
      have he := eps_le (u := 1 / 2 ^ 53) (by norm_num)
      have hm := meanErr_le (u := 1 / 2 ^ 53) (by norm_num) (by norm_num) (H := 500) (by norm_num) le_rfl
      have h1 : exp (16 * eps (1 / 2 ^ 53) + 6 * meanErr (1 / 2 ^ 53) 500) ≤ exp (1 / 4) := by
        refine Real.exp_le_exp.2 ?_
        norm_num at he hm ⊢
        linarith
      have h2 : exp (1 / 4 : ℝ) ≤ 1 + 2 * |1 / 4| := exp_le_of (by norm_num)
      rw [abs_of_pos (by norm_num)] at h2
      have h3 := Real.add_one_le_exp (2 : ℝ)
      have e4 : exp (4 : ℝ) = exp 2 ^ 2 := by rw [← Real.exp_nat_mul]; norm_num
      rw [m0, m1]
      simp only [mixMean, mixSquare, mean_fin, meanSquare_fin, List.map_cons, List.map_nil, List.sum_cons, List.sum_nil]
      norm_num [e4]
      have h4 : exp (16 * eps (1 / 2 ^ 53) + 6 * meanErr (1 / 2 ^ 53) 500) ≤ 3 / 2 := by linarith
      norm_num at h4
      have h5 : (0 : ℝ) ≤ 1 / 4 + exp 2 * (1 / 2) := by positivity
      nlinarith [sq_nonneg (exp 2)])
  rw [m0, m1] at this
  exact ⟨_, _, this⟩

/-- Distribution functions with values 3/4 and 1/2. -/
example : ∃ pD pR, ieee.pDemolition (some (.fin (3 / 4))) (.fin (1 / 2)) = .fin pD ∧
    ieee.pRepair (some (.fin (3 / 4))) (.fin (1 / 2)) = .fin pR ∧ |pR + pD + 1 / 2 - 1| ≤ 3 * (1 / 2 ^ 53) :=
  fates_rounded ieee_accurate (by norm_num) (by norm_num) (by norm_num) (by norm_num) (by norm_num)

end

end Slat.LnF
