import Verif.LnFNear

/-! Moments, sums, mixtures and total costs in machine arithmetic (helper file). -/

namespace Slat.LnF

open Real (exp log sqrt exp_pos)

noncomputable section

variable {M : Machine} {u : ℝ}

theorem eps_pos (h : Accurate M u) : 0 ≤ eps u := eps_nonneg h.nonneg h.small

theorem three_nonneg (h : Accurate M u) : 0 ≤ three u := by
  have := Real.one_le_exp (show 0 ≤ 3 * eps u by have := eps_pos h; linarith)
  rw [three]; linarith

theorem meanErr_nonneg (h : Accurate M u) {H : ℝ} (hH : 0 ≤ H) : 0 ≤ meanErr u H := by
  have := eps_pos h
  have := mul_nonneg (three_nonneg h) hH
  rw [meanErr]; linarith

/-- A rounded sum of two terms known up to one and two roundings. -/
theorem combine (h : Accurate M u) {x y q t : ℝ} (hx : |x - y| ≤ u * |y|) (hq : |q - t| ≤ (exp (2 * eps u) - 1) * |t|) :
    |M.r (x + q) - (y + t)| ≤ three u * (|y| + |t|) := by
  have h0 := h.nonneg
  have e1 : 1 + u ≤ exp (eps u) := one_add_le h.small
  have e2 : exp (2 * eps u) = exp (eps u) ^ 2 := by rw [← Real.exp_nat_mul]; norm_num
  have e3 : exp (3 * eps u) = exp (eps u) ^ 3 := by rw [← Real.exp_nat_mul]; norm_num
  set E := exp (eps u) with hE
  have hr := r_rel h (x + q)
  have hx' : |x| ≤ (1 + u) * |y| := by
    have := abs_sub_abs_le_abs_sub x y
    linarith
  have hq' : |q| ≤ E ^ 2 * |t| := by
    have := abs_sub_abs_le_abs_sub q t
    rw [e2] at hq
    linarith
  have hxq := abs_add_le x q
  have h1 : |M.r (x + q) - (y + t)| ≤ u * |x + q| + (u * |y| + (E ^ 2 - 1) * |t|) := by
    have : M.r (x + q) - (y + t) = (M.r (x + q) - (x + q)) + ((x - y) + (q - t)) := by ring
    rw [this]
    refine (abs_add_le _ _).trans (add_le_add hr ((abs_add_le _ _).trans (add_le_add hx ?_)))
    rwa [e2] at hq
  have h2 : u * |x + q| ≤ u * ((1 + u) * |y| + E ^ 2 * |t|) := by
    gcongr
    linarith
  have y0 := abs_nonneg y
  have t0 := abs_nonneg t
  have E1 : 1 ≤ E := by linarith
  have k1 : u * (1 + u) + u ≤ E ^ 3 - 1 := by
    have : (1 + u) ^ 2 ≤ E ^ 2 := by gcongr
    have : E ^ 2 ≤ E ^ 3 := by nlinarith [sq_nonneg E]
    nlinarith
  have k2 : u * E ^ 2 + (E ^ 2 - 1) ≤ E ^ 3 - 1 := by
    have : (1 + u) * E ^ 2 ≤ E * E ^ 2 := by gcongr
    nlinarith
  rw [three, e3]
  nlinarith [mul_le_mul_of_nonneg_right k1 y0, mul_le_mul_of_nonneg_right k2 t0]

theorem half_square (h : Accurate M u) (s : ℝ) :
    |M.r (M.r (s * s) / 2) - s ^ 2 / 2| ≤ (exp (2 * eps u) - 1) * |s ^ 2 / 2| := by
  have h1 := r_near h (mul_self_nonneg s)
  have h2 : Near (eps u) (M.r (s * s) / 2) (s ^ 2 / 2) := by
    rw [pow_two]
    exact ⟨by have := h1.1; linarith, by have := h1.2; linarith⟩
  have h3 := (r_near h (h2.nonneg (by positivity))).trans h2
  rw [abs_of_nonneg (show 0 ≤ s ^ 2 / 2 by positivity), two_mul]
  exact h3.abs_sub (by have := eps_pos h; linarith) (by positivity)

/-! ### Mean and standard deviation of a distribution -/

theorem mean_fin (m s : ℝ) : mean ⟨.fin m, .fin s⟩ = exp (m + s ^ 2 / 2) := rfl
theorem meanSquare_fin (m s : ℝ) : meanSquare ⟨.fin m, .fin s⟩ = exp (2 * m + 2 * s ^ 2) := rfl
theorem mean_ninf (s : Dbl) : mean ⟨.ninf, s⟩ = 0 := rfl
theorem meanSquare_ninf (s : Dbl) : meanSquare ⟨.ninf, s⟩ = 0 := rfl

theorem mean_nonneg (d : LogNormalDist) : 0 ≤ mean d := by
  unfold mean; split
  · exact (exp_pos _).le
  · exact le_rfl

theorem meanSquare_nonneg (d : LogNormalDist) : 0 ≤ meanSquare d := by
  unfold meanSquare; split
  · exact (exp_pos _).le
  · exact le_rfl

theorem mean_sq_le (d : LogNormalDist) : mean d ^ 2 ≤ meanSquare d := by
  unfold mean meanSquare
  split
  · rw [← Real.exp_nat_mul]
    refine Real.exp_le_exp.2 ?_
    rename_i m s _ _
    push_cast
    nlinarith [sq_nonneg s]
  · simp

theorem size_nonneg (d : LogNormalDist) : 0 ≤ size d := by
  unfold size; split
  · positivity
  · positivity
  · exact le_rfl

/-- What the accessors return. -/
theorem parts (h : Accurate M u) {d : LogNormalDist} (hd : Regular d) {H : ℝ} (hH : size d ≤ H) :
    ∃ a b s, M.getMean d = .fin a ∧ M.getSigma d = .fin s ∧ 0 ≤ a ∧ 0 ≤ b ∧ 0 ≤ s ∧ Near (meanErr u H) a (mean d) ∧
      Near (4 * meanErr u H) (a ^ 2 * (1 + b)) (meanSquare d) ∧ Near (2 * eps u) s (a * sqrt b) := by
  have he := eps_pos h
  have hH0 := (size_nonneg d).trans hH
  obtain ⟨mu, sigma⟩ := d
  obtain ⟨s, hs, hm⟩ := hd
  dsimp only at hs hm
  subst hs
  rcases hm with ⟨m, rfl⟩ | rfl
  · have hsz : |m| + s ^ 2 / 2 ≤ H := hH
    have g1 : M.getMean ⟨.fin m, .fin s⟩ = .fin (M.e (M.r (m + M.r (M.r (s * s) / 2)))) := by
      rw [Machine.getMean, if_neg (show ¬ Dbl.feq (.fin m) .ninf from fun k => k)]
      dsimp only
      rw [mul_fin h, div_fin h _ two_ne_zero, add_fin h, exp_fin h]
    set a := M.e (M.r (m + M.r (M.r (s * s) / 2))) with ha
    set c := M.e (M.r (s * s)) with hc
    have hss := r_near h (mul_self_nonneg s)
    have c1 : 1 ≤ c := e_one h (hss.nonneg (mul_self_nonneg s))
    have hb := r_near h (show 0 ≤ c - 1 by linarith)
    set b := M.r (c - 1) with hbdef
    have b0 : 0 ≤ b := hb.nonneg (by linarith)
    have near_a : Near (meanErr u H) a (mean ⟨.fin m, .fin s⟩) := by
      have h1 := combine h (x := m) (y := m) (by simpa using mul_nonneg h.nonneg (abs_nonneg m)) (half_square h s)
      rw [abs_of_nonneg (show 0 ≤ s ^ 2 / 2 by positivity)] at h1
      have h2 := (e_near h (M.r (m + M.r (M.r (s * s) / 2)))).trans (Near.of_exp h1)
      rw [mean_fin]
      refine h2.mono ?_ (exp_pos _).le
      rw [meanErr]
      have := mul_le_mul_of_nonneg_left hsz (three_nonneg h)
      linarith
    have a0 : 0 ≤ a := near_a.nonneg (mean_nonneg _)
    have g2 : M.getSigma ⟨.fin m, .fin s⟩ = .fin (M.r (a * M.r (sqrt b))) := by
      rw [Machine.getSigma, if_neg (show ¬ Dbl.feq (.fin m) .ninf from fun k => k)]
      dsimp only
      rw [g1, mul_fin h, exp_fin h, Dbl.one_def, sub_fin h, sqrt_fin h b0, mul_fin h]
    have hsq := r_near h (Real.sqrt_nonneg b)
    have hsd := near_mul h (Near.refl le_rfl a0) hsq a0 (Real.sqrt_nonneg b)
    have hsd' : Near (2 * eps u) (M.r (a * M.r (sqrt b))) (a * sqrt b) := by
      refine hsd.mono (by linarith) (mul_nonneg a0 (Real.sqrt_nonneg b))
    refine ⟨a, b, _, g1, g2, a0, b0, hsd'.nonneg (mul_nonneg a0 (Real.sqrt_nonneg b)), near_a, ?_, hsd'⟩
    -- the mean square
    have hbc : Near (eps u) (1 + b) c := by
      have := (Near.refl he (zero_le_one (α := ℝ))).add hb
      rwa [show 1 + (c - 1) = c by ring] at this
    have hce : Near (eps u + (exp (eps u) - 1) * (s * s)) c (exp (s * s)) :=
      (e_near h _).trans (Near.of_exp (hss.abs_sub he (mul_self_nonneg s)))
    have e13 : exp (eps u) - 1 ≤ three u := by
      rw [three]
      have := Real.exp_le_exp.2 (show eps u ≤ 3 * eps u by linarith)
      linarith
    have hbe : Near (2 * meanErr u H) (1 + b) (exp (s * s)) := by
      refine (hbc.trans hce).mono ?_ (exp_pos _).le
      have k1 : (exp (eps u) - 1) * (s * s) ≤ three u * (2 * H) := by
        refine mul_le_mul e13 ?_ (mul_self_nonneg s) (three_nonneg h)
        have := abs_nonneg m
        nlinarith
      rw [meanErr]
      linarith
    have hall := (near_a.sq (mean_nonneg _)).mul hbe (by positivity) (exp_pos _).le
    have e : mean ⟨.fin m, .fin s⟩ ^ 2 * exp (s * s) = meanSquare ⟨.fin m, .fin s⟩ := by
      rw [mean_fin, meanSquare_fin, ← Real.exp_nat_mul, ← Real.exp_add]
      congr 1
      push_cast
      ring
    rw [e] at hall
    exact hall.mono (by linarith) (meanSquare_nonneg _)
  · refine ⟨0, 0, 0, ?_, ?_, le_rfl, le_rfl, le_rfl, ?_, ?_, ?_⟩
    · rw [Machine.getMean, if_pos (show Dbl.feq .ninf .ninf from trivial)]; rfl
    · rw [Machine.getSigma, if_pos (show Dbl.feq .ninf .ninf from trivial)]; rfl
    · rw [mean_ninf]; exact Near.refl (meanErr_nonneg h hH0) le_rfl
    · rw [meanSquare_ninf]
      have := Near.refl (x := (0 : ℝ)) (show 0 ≤ 4 * meanErr u H by have := meanErr_nonneg h hH0; linarith) le_rfl
      simpa using this
    · have := Near.refl (x := (0 : ℝ)) (show 0 ≤ 2 * eps u by linarith) le_rfl
      simpa using this

/-! ### The result -/

/-- Making a distribution from its mean and a variance. -/
theorem finish (h : Accurate M u) {a v A Q α θ : ℝ} (hA : 0 ≤ A) (hα : 0 ≤ α) (hθ : 0 ≤ θ) (ha : Near α a A) (hv : 0 ≤ v)
    (hQ : Near θ (v + a ^ 2) Q) (h0 : A = 0 → Q = 0) :
    Right u α θ (M.ofMeanSigma (.fin a) (M.sqrt (.fin v))) A Q := by
  have he := eps_pos h
  have hk := three_nonneg h
  have a0 := ha.nonneg hA
  rcases hA.eq_or_lt with hA0 | hApos
  · -- nothing
    have hA0 := hA0.symm
    have haz : a = 0 := le_antisymm (by have := ha.1; rw [hA0] at this; simpa using this) a0
    have hQ0 := h0 hA0
    subst hA0 haz hQ0
    have e : M.ofMeanSigma (.fin 0) (M.sqrt (.fin v)) = ⟨.ninf, .fin 0⟩ := by
      have e1 : M.sigmaLn (.fin 0) (M.sqrt (.fin v)) = .fin 0 := by
        rw [Machine.sigmaLn, if_pos (show Dbl.feq (.fin 0) 0 from rfl)]; rfl
      rw [Machine.ofMeanSigma, e1, Machine.muLn, mul_fin h, div_fin h _ two_ne_zero, Machine.log, if_neg (lt_irrefl _), Dbl.log_zero]
      rfl
    rw [e]
    refine ⟨⟨0, rfl, .inr rfl⟩, ?_, ?_⟩
    · rw [mean_ninf]
      exact ⟨by simp, by simp⟩
    · rw [meanSquare_ninf]
      exact ⟨by simp, by simp⟩
  · have apos := ha.pos hApos
    have vpos : 0 < v + a ^ 2 := by positivity
    have Qpos : 0 < Q := hQ.symm.pos vpos
    set lam := 6 * eps u + θ + 2 * α with hlam
    have hlam0 : 0 ≤ lam := by rw [hlam]; linarith
    -- the ratio
    set sd := M.r (sqrt v) with hsd
    have n1 : Near (eps u) sd (sqrt v) := r_near h (Real.sqrt_nonneg v)
    have n2 : Near (3 * eps u) (M.r (sd * sd)) v := by
      have := near_mul h n1 n1 (Real.sqrt_nonneg v) (Real.sqrt_nonneg v)
      rw [Real.mul_self_sqrt hv] at this
      exact this.mono (by linarith) hv
    have n3 : Near (eps u) (M.r (a * a)) (a * a) := r_near h (mul_self_nonneg a)
    have aa : 0 < a * a := by positivity
    have n3' := n3.pos aa
    have n4 : Near (5 * eps u) (M.r (M.r (sd * sd) / M.r (a * a))) (v / (a * a)) := by
      have k := n2.div n3 hv aa
      have := (r_near h (k.nonneg (by positivity))).trans k
      exact this.mono (by linarith) (by positivity)
    set q := M.r (M.r (sd * sd) / M.r (a * a)) with hq
    have q0 : 0 ≤ q := n4.nonneg (by positivity)
    have n5 : Near (6 * eps u) (M.r (1 + q)) (1 + v / (a * a)) := by
      have k := near_add h ((Near.refl (by linarith : 0 ≤ 5 * eps u) zero_le_one)) n4 zero_le_one (by positivity)
      exact k.mono (by linarith) (by positivity)
    set w := M.r (1 + q) with hw
    have w1 : 1 ≤ w := r_one h (by linarith)
    have n6 : Near lam w (Q / A ^ 2) := by
      have k := hQ.div (ha.sq hA) Qpos.le (by positivity)
      have e : (v + a ^ 2) / a ^ 2 = 1 + v / (a * a) := by field_simp; ring
      rw [e] at k
      refine (n5.trans k).mono ?_ (by positivity)
      rw [hlam]; linarith
    have QA : 0 < Q / A ^ 2 := by positivity
    have lw0 : 0 ≤ log w := Real.log_nonneg w1
    set K := |log (Q / A ^ 2)| + lam with hK
    have lwK : log w ≤ K := by
      have := n6.abs_log QA
      have h2 := le_abs_self (log (Q / A ^ 2))
      have h3 := abs_le.1 this
      rw [hK]; linarith
    -- the spread
    have wpos : 0 < w := by linarith
    have n7 : Near (eps u) (M.l w) (log w) := near_rel h.small lw0 (l_rel h wpos)
    have l0 := n7.nonneg lw0
    set s := M.r (sqrt (M.l w)) with hs
    have n8 : Near (3 * eps u) (s ^ 2) (log w) := by
      have k := (r_near h (Real.sqrt_nonneg (M.l w))).sq (Real.sqrt_nonneg _)
      rw [Real.sq_sqrt l0] at k
      exact (k.trans n7).mono (by linarith) lw0
    have es : M.sigmaLn (.fin a) (M.sqrt (.fin v)) = .fin s := by
      rw [Machine.sigmaLn, if_neg (show ¬ Dbl.feq (.fin a) 0 from apos.ne'), sqrt_fin h hv, ← hsd, mul_fin h, mul_fin h, div_fin h _ n3'.ne', Dbl.one_def,
        add_fin h, log_fin h wpos, sqrt_fin h l0]
    set m := M.r (M.l a - M.r (M.r (s * s) / 2)) with hm
    have em : M.muLn (.fin a) (.fin s) = .fin m := by
      rw [Machine.muLn, log_fin h apos, mul_fin h, div_fin h _ two_ne_zero, sub_fin h]
    have e : M.ofMeanSigma (.fin a) (M.sqrt (.fin v)) = ⟨.fin m, .fin s⟩ := by
      rw [Machine.ofMeanSigma, es, em]
    -- errors
    have d1 : |m - (log a - s ^ 2 / 2)| ≤ three u * (|log a| + s ^ 2 / 2) := by
      have := combine h (x := M.l a) (y := log a) (q := -M.r (M.r (s * s) / 2)) (t := -(s ^ 2 / 2)) (l_rel h apos) (by
        rw [abs_neg, show -M.r (M.r (s * s) / 2) - -(s ^ 2 / 2) = -(M.r (M.r (s * s) / 2) - s ^ 2 / 2) by ring, abs_neg]
        exact half_square h s)
      rw [abs_neg, abs_of_nonneg (show 0 ≤ s ^ 2 / 2 by positivity), ← sub_eq_add_neg, ← sub_eq_add_neg] at this
      exact this
    have d2 : |s ^ 2 - log w| ≤ three u * K := by
      have k := n8.abs_sub (by linarith) lw0
      exact k.trans (mul_le_mul_of_nonneg_left lwK hk)
    have d3 : s ^ 2 ≤ (1 + three u) * K := by
      have := (abs_le.1 d2).2
      linarith
    have d4 : |log a| ≤ |log A| + α := by
      have k := ha.abs_log hApos
      have := abs_sub_abs_le_abs_sub (log a) (log A)
      linarith
    have Rm : Near (resultErr u α θ A Q) (mean ⟨.fin m, .fin s⟩) A := by
      have k1 : Near (three u * (|log a| + s ^ 2 / 2)) (exp (m + s ^ 2 / 2)) a := by
        have := Near.of_exp (show |(m + s ^ 2 / 2) - log a| ≤ three u * (|log a| + s ^ 2 / 2) by
          rw [show m + s ^ 2 / 2 - log a = m - (log a - s ^ 2 / 2) by ring]; exact d1)
        rwa [Real.exp_log apos] at this
      rw [mean_fin]
      refine (k1.trans ha).mono ?_ hA
      have k2 : three u * (|log a| + s ^ 2 / 2) ≤ three u * (|log A| + α + (1 + three u) * K / 2) :=
        mul_le_mul_of_nonneg_left (by linarith) hk
      rw [resultErr, ← hlam, ← hK]
      linarith
    refine e ▸ ⟨⟨s, rfl, .inl ⟨m, rfl⟩⟩, Rm, ?_⟩
    have Rs : Near (ratioErr u α θ A Q) (exp (s ^ 2)) (Q / A ^ 2) := by
      have k := Near.of_exp d2
      rw [Real.exp_log wpos] at k
      refine (k.trans n6).mono ?_ QA.le
      rw [ratioErr, ← hlam, ← hK]
      linarith
    have k := (Rm.sq hA).mul Rs (by positivity) QA.le
    have e1 : mean ⟨.fin m, .fin s⟩ ^ 2 * exp (s ^ 2) = meanSquare ⟨.fin m, .fin s⟩ := by
      rw [mean_fin, meanSquare_fin, ← Real.exp_nat_mul, ← Real.exp_add]
      congr 1
      push_cast
      ring
    have e2 : A ^ 2 * (Q / A ^ 2) = Q := by field_simp
    rwa [e1, e2] at k

/-! ### Sums -/

theorem sumSquare_cons (d : LogNormalDist) (ds : List LogNormalDist) :
    sumSquare (d :: ds) = meanSquare d + 2 * mean d * sumMean ds + sumSquare ds := by
  simp only [sumSquare, sumMean, List.map_cons, List.sum_cons]
  ring

theorem sumMean_nonneg (ds : List LogNormalDist) : 0 ≤ sumMean ds := by
  refine List.sum_nonneg ?_
  simp only [List.mem_map]
  rintro _ ⟨d, -, rfl⟩
  exact mean_nonneg d

theorem sumSquare_nonneg (ds : List LogNormalDist) : 0 ≤ sumSquare ds := by
  refine add_nonneg (List.sum_nonneg ?_) (sq_nonneg _)
  simp only [List.mem_map]
  rintro _ ⟨d, -, rfl⟩
  have := mean_sq_le d
  linarith

theorem sum_zero (ds : List LogNormalDist) (hd : ∀ d ∈ ds, Regular d) (h : sumMean ds = 0) : sumSquare ds = 0 := by
  induction ds with
  | nil => simp [sumSquare, sumMean]
  | cons d ds ih =>
    have h1 : mean d + sumMean ds = 0 := by simpa [sumMean] using h
    have h2 := mean_nonneg d
    have h3 := sumMean_nonneg ds
    have h4 : mean d = 0 := by linarith
    have h5 : sumMean ds = 0 := by linarith
    have h6 : meanSquare d = 0 := by
      obtain ⟨mu, sigma⟩ := d
      obtain ⟨s, hs, ⟨m, hm⟩ | hm⟩ := hd _ List.mem_cons_self
      · dsimp only at hs hm
        subst hs hm
        rw [mean_fin] at h4
        exact absurd h4 (exp_pos _).ne'
      · dsimp only at hm
        subst hm
        rfl
    rw [sumSquare_cons, h6, h4, h5, ih (fun d hd' => hd d (List.mem_cons_of_mem _ hd')) h5]
    ring

theorem offDiagonal_eq (h : Accurate M u) (sd v : ℝ) (hv : M.r v = v) (ds : List LogNormalDist)
    (hd : ∀ d ∈ ds, Regular d) : M.offDiagonal (.fin sd) (.fin v) ds = .fin v := by
  unfold Machine.offDiagonal
  induction ds with
  | nil => rfl
  | cons d ds ih =>
    obtain ⟨a, b, s, -, h2, -⟩ := parts h (hd d List.mem_cons_self) le_rfl
    have e : M.add (.fin v) (M.mul (M.mul 0 (.fin sd)) (.fin s)) = .fin v := by
      rw [Dbl.zero_def, mul_fin h, zero_mul, r_zero h, mul_fin h, zero_mul, r_zero h, add_fin h, add_zero, hv]
    rw [List.foldl_cons, h2, e]
    exact ih fun d hd' => hd d (List.mem_cons_of_mem _ hd')

theorem addLoop_near (h : Accurate M u) {H : ℝ} (ds : List LogNormalDist) (hd : ∀ d ∈ ds, Regular d) (hH : ∀ d ∈ ds, size d ≤ H)
    (k : ℕ) {a A v V : ℝ} (hA : 0 ≤ A) (hV : 0 ≤ V) (ha : Near (k * eps u) a A) (hv : Near ((k + 5) * eps u) v V) (hr : M.r v = v) :
    ∃ a' v' X Y, M.addLoop ds (.fin a) (.fin v) = (.fin a', .fin v') ∧ 0 ≤ X ∧ 0 ≤ Y ∧
      Near ((k + ds.length : ℕ) * eps u) a' (A + X) ∧ Near (((k + ds.length : ℕ) + 5) * eps u) v' (V + Y) ∧
      Near (meanErr u H) X (sumMean ds) ∧ Near (4 * meanErr u H) (Y + X ^ 2) (sumSquare ds) := by
  have he := eps_pos h
  induction ds generalizing k a A v V with
  | nil =>
    refine ⟨a, v, 0, 0, rfl, le_rfl, le_rfl, by simpa using ha, by simpa using hv, ?_, ?_⟩
    · simp [sumMean, Near]
    · simp [sumSquare, sumMean, Near]
  | cons d ds ih =>
    obtain ⟨m, b, s, e1, e2, m0, b0, s0, n1, n2, n3⟩ := parts h (hd d List.mem_cons_self) (hH d List.mem_cons_self)
    have hs2 : Near (5 * eps u) (M.r (s * s)) (m ^ 2 * b) := by
      have hp := mul_nonneg m0 (Real.sqrt_nonneg b)
      have := near_mul h n3 n3 hp hp
      rw [show m * sqrt b * (m * sqrt b) = m ^ 2 * b by
        rw [show m * sqrt b * (m * sqrt b) = m ^ 2 * (sqrt b * sqrt b) by ring, Real.mul_self_sqrt b0]] at this
      exact this.mono (by linarith) (by positivity)
    have ha' : Near ((k + 1 : ℕ) * eps u) (M.r (a + m)) (A + m) := by
      have := near_add h ha (Near.refl (by positivity) m0) hA m0
      exact this.mono (by push_cast; linarith) (by positivity)
    have hv' : Near (((k + 1 : ℕ) + 5) * eps u) (M.r (v + M.r (s * s))) (V + m ^ 2 * b) := by
      have hs3 : Near ((k + 5) * eps u) (M.r (s * s)) (m ^ 2 * b) := hs2.mono (by nlinarith [(Nat.cast_nonneg k : (0 : ℝ) ≤ k)]) (by positivity)
      have := near_add h hv hs3 hV (by positivity)
      exact this.mono (by push_cast; linarith) (by positivity)
    have hmem := fun d' (hd' : d' ∈ ds) => hd d' (List.mem_cons_of_mem _ hd')
    obtain ⟨a', v', X, Y, e3, X0, Y0, k1, k2, k3, k4⟩ := ih hmem (fun d' hd' => hH d' (List.mem_cons_of_mem _ hd')) (k + 1)
      (by positivity) (by positivity) ha' hv' (r_again h _)
    refine ⟨a', v', m + X, m ^ 2 * b + Y, ?_, by positivity, by positivity, ?_, ?_, ?_, ?_⟩
    · rw [Machine.addLoop, e1, e2, add_fin h, mul_fin h, add_fin h, offDiagonal_eq h _ _ (r_again h _) _ hmem, e3]
    · rw [← add_assoc, List.length_cons, show k + (ds.length + 1) = k + 1 + ds.length by ring]; exact k1
    · rw [← add_assoc, List.length_cons, show k + (ds.length + 1) = k + 1 + ds.length by ring]; exact k2
    · have := n1.add k3
      simpa [sumMean] using this
    · have hE : 0 ≤ meanErr u H := by
        have := meanErr_nonneg h ((size_nonneg d).trans (hH d List.mem_cons_self))
        exact this
      have k5 : Near (4 * meanErr u H) (2 * m * X) (2 * mean d * sumMean ds) := by
        have h1 := n1.mul k3 (mean_nonneg d) (sumMean_nonneg ds)
        have h2 := h1.mono (show meanErr u H + meanErr u H ≤ 4 * meanErr u H by linarith)
          (mul_nonneg (mean_nonneg d) (sumMean_nonneg ds))
        have h3 := h2.add h2
        rwa [show m * X + m * X = 2 * m * X by ring,
          show mean d * sumMean ds + mean d * sumMean ds = 2 * mean d * sumMean ds by ring] at h3
      have := (n2.add k5).add k4
      rw [sumSquare_cons]
      rwa [show m ^ 2 * (1 + b) + 2 * m * X + (Y + X ^ 2) = m ^ 2 * b + Y + (m + X) ^ 2 by ring] at this

/-- `AddDistributions`. -/
theorem sum_right (h : Accurate M u) {H : ℝ} (hH0 : 0 ≤ H) (ds : List LogNormalDist) (hd : ∀ d ∈ ds, Regular d) (hH : ∀ d ∈ ds, size d ≤ H) :
    Right u (ds.length * eps u + meanErr u H) ((2 * ds.length + 5) * eps u + 4 * meanErr u H) (M.addDistributions ds)
      (sumMean ds) (sumSquare ds) := by
  have he := eps_pos h
  have hE := meanErr_nonneg h hH0
  obtain ⟨a, v, X, Y, e, X0, Y0, k1, k2, k3, k4⟩ := addLoop_near h ds hd hH 0 (a := 0) (A := 0) (v := 0) (V := 0) le_rfl le_rfl
    (by simp [Near]) (by simp [Near]) (r_zero h)
  rw [zero_add, zero_add] at k1 k2
  rw [Machine.addDistributions, Dbl.zero_def, e]
  have v0 := k2.nonneg Y0
  refine finish h (sumMean_nonneg ds) (by positivity) (by positivity) (k1.trans k3) v0 ?_ (sum_zero ds hd)
  have k5 : Near ((2 * ds.length + 5) * eps u) (v + a ^ 2) (Y + X ^ 2) := by
    refine Near.add (k2.mono ?_ Y0) ((k1.sq X0).mono ?_ (sq_nonneg X))
    · nlinarith [(Nat.cast_nonneg ds.length : (0 : ℝ) ≤ ds.length)]
    · nlinarith [(Nat.cast_nonneg ds.length : (0 : ℝ) ≤ ds.length)]
  exact k5.trans k4

/-! ### Mixtures -/

theorem mixMean_nonneg (es : List (LogNormalDist × ℝ)) (hw : ∀ e ∈ es, 0 ≤ e.2) : 0 ≤ mixMean es := by
  refine List.sum_nonneg ?_
  simp only [List.mem_map]
  rintro _ ⟨e, he, rfl⟩
  exact mul_nonneg (mean_nonneg e.1) (hw e he)

theorem mixSquare_nonneg (es : List (LogNormalDist × ℝ)) (hw : ∀ e ∈ es, 0 ≤ e.2) : 0 ≤ mixSquare es := by
  refine List.sum_nonneg ?_
  simp only [List.mem_map]
  rintro _ ⟨e, he, rfl⟩
  exact mul_nonneg (meanSquare_nonneg e.1) (hw e he)

theorem mean_zero {d : LogNormalDist} (hd : Regular d) (h : mean d = 0) : meanSquare d = 0 := by
  obtain ⟨mu, sigma⟩ := d
  obtain ⟨s, hs, ⟨m, hm⟩ | hm⟩ := hd
  · dsimp only at hs hm
    subst hs hm
    rw [mean_fin] at h
    exact absurd h (exp_pos _).ne'
  · dsimp only at hm
    subst hm
    rfl

theorem mix_zero (es : List (LogNormalDist × ℝ)) (hd : ∀ e ∈ es, Regular e.1) (hw : ∀ e ∈ es, 0 ≤ e.2) (h : mixMean es = 0) :
    mixSquare es = 0 := by
  induction es with
  | nil => rfl
  | cons e es ih =>
    have hw' := fun e' (he' : e' ∈ es) => hw e' (List.mem_cons_of_mem _ he')
    have h1 : mean e.1 * e.2 + mixMean es = 0 := by simpa [mixMean] using h
    have h2 := mul_nonneg (mean_nonneg e.1) (hw e List.mem_cons_self)
    have h3 := mixMean_nonneg es hw'
    have h4 : mean e.1 * e.2 = 0 := by linarith
    have h5 := ih (fun e' he' => hd e' (List.mem_cons_of_mem _ he')) hw' (by linarith)
    have h6 : meanSquare e.1 * e.2 = 0 := by
      rcases mul_eq_zero.1 h4 with h7 | h7
      · rw [mean_zero (hd e List.mem_cons_self) h7, zero_mul]
      · rw [h7, mul_zero]
    have : mixSquare (e :: es) = meanSquare e.1 * e.2 + mixSquare es := by simp [mixSquare]
    rw [this, h6, h5, add_zero]

/-- The squared mean is at most the sum of weights times the mean square. -/
theorem mix_cauchy (es : List (LogNormalDist × ℝ)) (hw : ∀ e ∈ es, 0 ≤ e.2) :
    mixMean es ^ 2 ≤ (es.map (·.2)).sum * mixSquare es ∧ 0 ≤ (es.map (·.2)).sum := by
  induction es with
  | nil => simp [mixMean, mixSquare]
  | cons e es ih =>
    have hw' := fun e' (he' : e' ∈ es) => hw e' (List.mem_cons_of_mem _ he')
    obtain ⟨i1, i2⟩ := ih hw'
    have w0 := hw e List.mem_cons_self
    have m0 := mean_nonneg e.1
    have mq := mean_sq_le e.1
    have a0 := mixMean_nonneg es hw'
    have q0 := mixSquare_nonneg es hw'
    have e1 : mixMean (e :: es) = mean e.1 * e.2 + mixMean es := by simp [mixMean]
    have e2 : mixSquare (e :: es) = meanSquare e.1 * e.2 + mixSquare es := by simp [mixSquare]
    have e3 : ((e :: es).map (·.2)).sum = e.2 + (es.map (·.2)).sum := by simp
    rw [e1, e2, e3]
    refine ⟨?_, by positivity⟩
    generalize mean e.1 = m at *
    generalize meanSquare e.1 = m2 at *
    generalize e.2 = w at *
    generalize mixMean es = A at *
    generalize mixSquare es = Q at *
    generalize (es.map (·.2)).sum = W at *
    have k : 2 * m * A ≤ Q + W * m ^ 2 := by
      have : (2 * m * A) ^ 2 ≤ (Q + W * m ^ 2) ^ 2 := by
        have h1 : m ^ 2 * A ^ 2 ≤ m ^ 2 * (W * Q) := mul_le_mul_of_nonneg_left i1 (sq_nonneg m)
        nlinarith [sq_nonneg (Q - W * m ^ 2)]
      exact (abs_le.1 (abs_le_of_sq_le_sq this (by positivity))).2
    have k1 := mul_le_mul_of_nonneg_left k w0
    have k2 : w * w * m ^ 2 ≤ w * w * m2 := mul_le_mul_of_nonneg_left mq (by positivity)
    have k3 : W * w * m ^ 2 ≤ W * w * m2 := mul_le_mul_of_nonneg_left mq (by positivity)
    nlinarith

/-- One term of the mean and of the mean square. -/
theorem square_near (h : Accurate M u) {d : LogNormalDist} {a b s : ℝ} (e1 : M.getMean d = .fin a) (e2 : M.getSigma d = .fin s)
    (a0 : 0 ≤ a) (b0 : 0 ≤ b) (n : Near (2 * eps u) s (a * sqrt b)) :
    ∃ q, M.square d = .fin q ∧ Near (6 * eps u) q (a ^ 2 * (1 + b)) := by
  have he := eps_pos h
  have hs2 : Near (5 * eps u) (M.r (s * s)) (a ^ 2 * b) := by
    have hp := mul_nonneg a0 (Real.sqrt_nonneg b)
    have := near_mul h n n hp hp
    rw [show a * sqrt b * (a * sqrt b) = a ^ 2 * b by
      rw [show a * sqrt b * (a * sqrt b) = a ^ 2 * (sqrt b * sqrt b) by ring, Real.mul_self_sqrt b0]] at this
    exact this.mono (by linarith) (by positivity)
  have ha2 : Near (5 * eps u) (M.r (a * a)) (a ^ 2) := by
    have := r_near h (mul_self_nonneg a)
    rw [← pow_two] at this ⊢
    exact this.mono (by linarith) (sq_nonneg a)
  have k := near_add h ha2 hs2 (sq_nonneg a) (by positivity)
  refine ⟨_, by rw [Machine.square, e1, e2, mul_fin h, mul_fin h, add_fin h], ?_⟩
  rw [show a ^ 2 * (1 + b) = a ^ 2 + a ^ 2 * b by ring]
  exact k.mono (by linarith) (by positivity)

theorem term_near (h : Accurate M u) {d : LogNormalDist} (hd : Regular d) {H w : ℝ} (hH : size d ≤ H) (hw : 0 ≤ w) :
    ∃ x y, M.mul (M.getMean d) (.fin w) = .fin x ∧ M.mul (M.square d) (.fin w) = .fin y ∧
      Near (eps u + meanErr u H) x (mean d * w) ∧ Near (7 * eps u + 4 * meanErr u H) y (meanSquare d * w) := by
  have he := eps_pos h
  obtain ⟨a, b, s, e1, e2, a0, b0, s0, n1, n2, n3⟩ := parts h hd hH
  obtain ⟨q, e3, n4⟩ := square_near h e1 e2 a0 b0 n3
  refine ⟨_, _, by rw [e1, mul_fin h], by rw [e3, mul_fin h], ?_, ?_⟩
  · have := near_mul h n1 (Near.refl le_rfl hw) (mean_nonneg d) hw
    exact this.mono (by linarith) (mul_nonneg (mean_nonneg d) hw)
  · have := near_mul h (n4.trans n2) (Near.refl le_rfl hw) (meanSquare_nonneg d) hw
    exact this.mono (by linarith) (mul_nonneg (meanSquare_nonneg d) hw)

theorem weightedLoop_near (h : Accurate M u) {H : ℝ} (hH0 : 0 ≤ H) (es : List (LogNormalDist × ℝ)) (hd : ∀ e ∈ es, Regular e.1)
    (hH : ∀ e ∈ es, size e.1 ≤ H) (hw : ∀ e ∈ es, 0 ≤ e.2) (k : ℕ) {a A q Q : ℝ} (hA : 0 ≤ A) (hQ : 0 ≤ Q)
    (ha : Near ((k + 1) * eps u + meanErr u H) a A) (hq : Near ((k + 7) * eps u + 4 * meanErr u H) q Q) :
    ∃ a' q', M.weightedLoop (es.map fun e => (e.1, .fin e.2)) (.fin a) (.fin q) = (.fin a', .fin q') ∧
      Near (((k + es.length : ℕ) + 1) * eps u + meanErr u H) a' (A + mixMean es) ∧
      Near (((k + es.length : ℕ) + 7) * eps u + 4 * meanErr u H) q' (Q + mixSquare es) := by
  have he := eps_pos h
  induction es generalizing k a A q Q with
  | nil => exact ⟨a, q, rfl, by simpa [mixMean] using ha, by simpa [mixSquare] using hq⟩
  | cons e es ih =>
    have w0 := hw e List.mem_cons_self
    obtain ⟨x, y, e1, e2, n1, n2⟩ := term_near h (hd e List.mem_cons_self) (hH e List.mem_cons_self) w0
    have k0 := mul_nonneg (Nat.cast_nonneg k : (0 : ℝ) ≤ k) he
    have x0 := mul_nonneg (mean_nonneg e.1) w0
    have y0 := mul_nonneg (meanSquare_nonneg e.1) w0
    have ha' : Near (((k + 1 : ℕ) + 1) * eps u + meanErr u H) (M.r (a + x)) (A + mean e.1 * e.2) := by
      have := near_add h ha (n1.mono (by linarith) x0) hA x0
      exact this.mono (by push_cast; linarith) (by positivity)
    have hq' : Near (((k + 1 : ℕ) + 7) * eps u + 4 * meanErr u H) (M.r (q + y)) (Q + meanSquare e.1 * e.2) := by
      have := near_add h hq (n2.mono (by linarith) y0) hQ y0
      exact this.mono (by push_cast; linarith) (by positivity)
    obtain ⟨a', q', e3, k1, k2⟩ := ih (fun e' he' => hd e' (List.mem_cons_of_mem _ he')) (fun e' he' => hH e' (List.mem_cons_of_mem _ he'))
      (fun e' he' => hw e' (List.mem_cons_of_mem _ he')) (k + 1) (by positivity) (by positivity) ha' hq'
    refine ⟨a', q', ?_, ?_, ?_⟩
    · rw [List.map_cons, Machine.weightedLoop]
      dsimp only
      rw [e1, e2, add_fin h, add_fin h, e3]
    · rw [List.length_cons, show k + (es.length + 1) = k + 1 + es.length by ring]
      simpa [mixMean, add_assoc] using k1
    · rw [List.length_cons, show k + (es.length + 1) = k + 1 + es.length by ring]
      simpa [mixSquare, add_assoc] using k2

theorem abs_r_near (h : Accurate M u) (x : ℝ) : Near (eps u) |M.r x| |x| := by
  refine near_rel h.small (abs_nonneg x) ?_
  rw [abs_abs]
  exact (abs_abs_sub_abs_le _ _).trans (r_rel h x)

/-- From mean and mean square to the result, with `abs`. -/
theorem mix_finish (h : Accurate M u) {a q A Q α ρ ω : ℝ} (hA : 0 ≤ A) (hα : 0 ≤ α) (hρ : 0 ≤ ρ) (hω : 0 ≤ ω) (ha : Near α a A)
    (hq : Near ρ q Q) (hQ : 0 ≤ Q) (hle : A ^ 2 ≤ exp ω * Q) (h0 : A = 0 → Q = 0) :
    Right u α (2 * eps u + 2 * (eps u + 2 * α + ω + ρ) + ρ)
      (M.ofMeanSigma (.fin a) (M.sqrt (Dbl.abs (M.sub (.fin q) (M.mul (.fin a) (.fin a)))))) A Q := by
  have he := eps_pos h
  rw [mul_fin h, sub_fin h, Dbl.abs_fin]
  refine finish h hA hα (by linarith) ha (abs_nonneg _) ?_ h0
  set P := M.r (a * a) with hP
  set τ := eps u + 2 * α + ω + ρ with hτ
  have hτ0 : 0 ≤ τ := by rw [hτ]; linarith
  have nP : Near (eps u) P (a ^ 2) := by rw [pow_two]; exact r_near h (mul_self_nonneg a)
  have q0 := hq.nonneg hQ
  have P0 := nP.nonneg (sq_nonneg a)
  have Pq : P ≤ q * exp τ := by
    have k1 := (nP.trans (ha.sq hA)).1
    have k2 : A ^ 2 * exp (eps u + 2 * α) ≤ exp ω * Q * exp (eps u + 2 * α) := by gcongr
    have k3 : exp ω * Q * exp (eps u + 2 * α) ≤ exp ω * (q * exp ρ) * exp (eps u + 2 * α) := by
      gcongr; exact hq.2
    have k4 : exp ω * (q * exp ρ) * exp (eps u + 2 * α) = q * exp τ := by
      have : exp τ = exp ω * exp ρ * exp (eps u + 2 * α) := by
        rw [← Real.exp_add, ← Real.exp_add]; congr 1; rw [hτ]; ring
      rw [this]; ring
    linarith
  have n1 : Near (2 * τ) (|q - P| + P) q := by
    have t1 : 1 ≤ exp τ := Real.one_le_exp hτ0
    have t2 : exp (2 * τ) = exp τ ^ 2 := by rw [← Real.exp_nat_mul]; norm_num
    rcases le_total P q with hle' | hle'
    · rw [abs_of_nonneg (by linarith), sub_add_cancel]
      exact Near.refl (by linarith) q0
    · rw [abs_of_nonpos (by linarith)]
      constructor
      · rw [t2]
        nlinarith [mul_nonneg q0 (sq_nonneg (exp τ - 1))]
      · rw [t2]
        have : q ≤ -(q - P) + P := by linarith
        have h1 : 1 ≤ exp τ ^ 2 := one_le_pow₀ t1
        nlinarith
  have n2 : Near (eps u) (|M.r (q - P)| + P) (|q - P| + P) := (abs_r_near h _).add (Near.refl he P0)
  have n3 : Near (eps u) (|M.r (q - P)| + a ^ 2) (|M.r (q - P)| + P) := (Near.refl he (abs_nonneg _)).add nP.symm
  have := ((n3.trans n2).trans n1).trans hq
  exact this.mono (by linarith) hQ

/-- `AddWeightedDistributions`. -/
theorem mix_right (h : Accurate M u) {H ω : ℝ} (hH0 : 0 ≤ H) (es : List (LogNormalDist × ℝ)) (hd : ∀ e ∈ es, Regular e.1)
    (hH : ∀ e ∈ es, size e.1 ≤ H) (hw : ∀ e ∈ es, 0 ≤ e.2) (hω : 0 ≤ ω) (hs : (es.map (·.2)).sum ≤ exp ω) :
    Right u ((es.length + 1) * eps u + meanErr u H)
      (2 * eps u + 2 * (eps u + 2 * ((es.length + 1) * eps u + meanErr u H) + ω + ((es.length + 7) * eps u + 4 * meanErr u H)) +
        ((es.length + 7) * eps u + 4 * meanErr u H))
      (M.addWeighted (es.map fun e => (e.1, .fin e.2))) (mixMean es) (mixSquare es) := by
  have he := eps_pos h
  have hE := meanErr_nonneg h hH0
  obtain ⟨a, q, e, k1, k2⟩ := weightedLoop_near h hH0 es hd hH hw 0 (a := 0) (A := 0) (q := 0) (Q := 0) le_rfl le_rfl
    (by simp [Near]) (by simp [Near])
  rw [zero_add, zero_add] at k1 k2
  rw [Machine.addWeighted, Dbl.zero_def, e]
  have hA := mixMean_nonneg es hw
  have hQ := mixSquare_nonneg es hw
  refine mix_finish h hA (by positivity) (by positivity) hω k1 k2 hQ ?_ (mix_zero es hd hw)
  exact (mix_cauchy es hw).1.trans (mul_le_mul_of_nonneg_right hs hQ)

/-! ### Total cost -/

/-- The weights that count. -/
theorem addIf_near (h : Accurate M u) {η θ x X v V p : ℝ} {y : Dbl} (hx : Near η x X) (hX : 0 ≤ X) (hV : 0 ≤ V) (hη : θ ≤ η)
    (hv : 0 ≤ p → ∃ z, M.mul y (.fin p) = .fin z ∧ Near θ z (V * p)) (hη0 : 0 ≤ η) (hvv : v = max 0 p) :
    ∃ z, M.addIf (.fin x) y (.fin p) = .fin z ∧ Near (η + eps u) z (X + V * v) := by
  have he := eps_pos h
  subst hvv
  rw [Machine.addIf]
  by_cases hp : 0 < p
  · have hp' : (0 : Dbl) < .fin p := hp
    rw [if_pos hp', max_eq_right hp.le]
    obtain ⟨z, e, n⟩ := hv hp.le
    rw [e, add_fin h]
    have := near_add h hx (n.mono hη (by positivity)) hX (by positivity)
    exact ⟨_, rfl, this.mono (by linarith) (by positivity)⟩
  · have hp' : ¬ (0 : Dbl) < .fin p := hp
    rw [if_neg hp', max_eq_left (not_lt.1 hp), mul_zero, add_zero]
    exact ⟨x, rfl, hx.mono (by linarith) hX⟩

theorem total_right (h : Accurate M u) {H : ℝ} {r d c : LogNormalDist} (hr : Regular r) (hd : Regular d) (hc : Regular c)
    (Hr : size r ≤ H) (Hd : size d ≤ H) (Hc : size c ≤ H) {pR pD pC : ℝ} (hpR : 0 ≤ pR)
    (hvar : mixMean [(r, pR), (d, max 0 pD), (c, max 0 pC)] ^ 2 * exp (16 * eps u + 6 * meanErr u H) ≤
      mixSquare [(r, pR), (d, max 0 pD), (c, max 0 pC)]) :
    Right u (3 * eps u + meanErr u H) (11 * eps u + 4 * meanErr u H) (M.totalCost r d c (.fin pR) (.fin pD) (.fin pC))
      (mixMean [(r, pR), (d, max 0 pD), (c, max 0 pC)]) (mixSquare [(r, pR), (d, max 0 pD), (c, max 0 pC)]) := by
  have he := eps_pos h
  have hE := meanErr_nonneg h ((size_nonneg r).trans Hr)
  set es : List (LogNormalDist × ℝ) := [(r, pR), (d, max 0 pD), (c, max 0 pC)] with hes
  have eA : mixMean es = mean r * pR + mean d * max 0 pD + mean c * max 0 pC := by simp [hes, mixMean, add_assoc]
  have eQ : mixSquare es = meanSquare r * pR + meanSquare d * max 0 pD + meanSquare c * max 0 pC := by
    simp [hes, mixSquare, add_assoc]
  have hreg : ∀ e ∈ es, Regular e.1 := by simp [hes, hr, hd, hc]
  have hw : ∀ e ∈ es, 0 ≤ e.2 := by simp [hes, hpR]
  have hA := mixMean_nonneg es hw
  have hQ := mixSquare_nonneg es hw
  obtain ⟨x, y, e1, e2, n1, n2⟩ := term_near h hr Hr hpR
  have x0 := mul_nonneg (mean_nonneg r) hpR
  have y0 := mul_nonneg (meanSquare_nonneg r) hpR
  have md := mean_nonneg d
  have mc := mean_nonneg c
  have qd := meanSquare_nonneg d
  have qc := meanSquare_nonneg c
  have pD0 : 0 ≤ max 0 pD := le_max_left _ _
  obtain ⟨x2, e3, n3⟩ := addIf_near h (y := M.getMean d) (V := mean d) (p := pD) n1 x0 md le_rfl
    (fun hp => by obtain ⟨z, _, f1, _, f2, _⟩ := term_near h hd Hd hp; exact ⟨z, f1, f2⟩) (by linarith) rfl
  obtain ⟨x3, e4, n4⟩ := addIf_near h (y := M.getMean c) (V := mean c) (p := pC) n3 (by positivity) mc
    (show eps u + meanErr u H ≤ _ by linarith)
    (fun hp => by obtain ⟨z, _, f1, _, f2, _⟩ := term_near h hc Hc hp; exact ⟨z, f1, f2⟩) (by linarith) rfl
  obtain ⟨y2, e5, n5⟩ := addIf_near h (y := M.square d) (V := meanSquare d) (p := pD) n2 y0 qd le_rfl
    (fun hp => by obtain ⟨_, z, _, f1, _, f2⟩ := term_near h hd Hd hp; exact ⟨z, f1, f2⟩) (by linarith) rfl
  obtain ⟨y3, e6, n6⟩ := addIf_near h (y := M.square c) (V := meanSquare c) (p := pC) n5 (by positivity) qc
    (show 7 * eps u + 4 * meanErr u H ≤ _ by linarith)
    (fun hp => by obtain ⟨_, z, _, f1, _, f2⟩ := term_near h hc Hc hp; exact ⟨z, f1, f2⟩) (by linarith) rfl
  rw [← eA] at n4
  rw [← eQ] at n6
  have nA : Near (3 * eps u + meanErr u H) x3 (mixMean es) := n4.mono (by linarith) hA
  have nQ : Near (9 * eps u + 4 * meanErr u H) y3 (mixSquare es) := n6.mono (by linarith) hQ
  have e : M.totalCost r d c (.fin pR) (.fin pD) (.fin pC) =
      M.ofMeanSigma (.fin x3) (M.sqrt (.fin (M.r (y3 - M.r (x3 * x3))))) := by
    rw [Machine.totalCost, e1, e2, e3, e4, e5, e6, mul_fin h, sub_fin h]
  rw [e]
  set P := M.r (x3 * x3) with hP
  have nP : Near (eps u) P (x3 ^ 2) := by rw [pow_two]; exact r_near h (mul_self_nonneg x3)
  have P0 := nP.nonneg (sq_nonneg x3)
  have Pq : P ≤ y3 := by
    have k1 := (nP.trans (nA.sq hA)).1
    have k2 : mixMean es ^ 2 * exp (eps u + 2 * (3 * eps u + meanErr u H)) * exp (9 * eps u + 4 * meanErr u H) ≤ mixSquare es := by
      rw [mul_assoc, ← Real.exp_add]
      convert hvar using 3
      ring
    have k3 := k2.trans nQ.2
    have := (mul_le_mul_iff_of_pos_right (exp_pos (9 * eps u + 4 * meanErr u H))).1 k3
    linarith
  have nd : Near (eps u) (M.r (y3 - P)) (y3 - P) := r_near h (by linarith)
  refine finish h hA (by linarith) (by linarith) nA (nd.nonneg (by linarith)) ?_ (mix_zero es hreg hw)
  have k1 : Near (eps u) (M.r (y3 - P) + x3 ^ 2) (M.r (y3 - P) + P) := (Near.refl he (nd.nonneg (by linarith))).add nP.symm
  have k2 : Near (eps u) (M.r (y3 - P) + P) y3 := by
    have := nd.add (Near.refl he P0)
    rwa [sub_add_cancel] at this
  exact ((k1.trans k2).trans nQ).mono (by linarith) hQ

end

end Slat.LnF
