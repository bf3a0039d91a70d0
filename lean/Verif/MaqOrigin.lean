import Verif.MaqCover

/-!
# Integrands with a wrong value at the origin (C59)

The integrands handed to `MAQ` by `EDP::calc_lambda` (src/relationships.cpp:278-279) and by the component groups
(src/comp_group.cpp:293-294, 336-337, 447-448, 489-490, 579-580, 628-629) return 0 at 0, whatever their limit there.
-/

namespace Slat.Maq

open Dbl MeasureTheory Set

noncomputable section

/-! ## Auxiliary facts -/

/-- The last interval of a tiling. -/
theorem Tiles.last {a b : ℝ} {l : List (ℝ × ℝ)} (h : Tiles a b l) (hab : a < b) :
    ∃ l₀ u, l = l₀ ++ [(u, b)] ∧ a ≤ u ∧ u < b ∧ Tiles a u l₀ := by
  induction l generalizing a with
  | nil => exact absurd h hab.ne
  | cons q l ih =>
    obtain ⟨u, v⟩ := q
    obtain ⟨rfl, h2, h3⟩ := h
    rcases h3.le.eq_or_lt with rfl | hv
    · cases l with
      | nil => exact ⟨[], u, rfl, le_rfl, h2, rfl⟩
      | cons q l =>
        obtain ⟨s, t⟩ := q
        obtain ⟨rfl, g2, g3⟩ := h3
        exact absurd g3.le (not_le.2 g2)
    · obtain ⟨l₀, u', e, i1, i2, i3⟩ := ih h3 hv
      exact ⟨(u, v) :: l₀, u', by rw [e]; rfl, by linarith, i2, rfl, h2, i3⟩

theorem boole_congr {g G : ℝ → ℝ} {u v : ℝ} (huv : u < v) (hg : ∀ t, u ≤ t → t ≤ v → g t = G t) :
    boole g (u, v) = boole G (u, v) := by
  simp only [boole]
  rw [hg u le_rfl huv.le, hg v huv.le le_rfl, hg _ (by linarith) (by linarith),
    hg _ (by linarith) (by linarith), hg _ (by linarith) (by linarith)]

theorem composite_congr {g G : ℝ → ℝ} {a b : ℝ} {l : List (ℝ × ℝ)} (h : Tiles a b l)
    (hg : ∀ t, a ≤ t → t ≤ b → g t = G t) : composite g l = composite G l := by
  simp only [composite]
  congr 1
  refine List.map_congr_left fun p hp => ?_
  obtain ⟨h1, h2, h3⟩ := h.mem hp
  exact boole_congr h2 fun t ht ht' => hg t (by linarith) (by linarith)

/-- Only the last interval feels the value at the right end. -/
theorem composite_end {g G : ℝ → ℝ} {a b : ℝ} {l : List (ℝ × ℝ)} (h : Tiles a b l) (hab : a < b)
    (hg : ∀ t, a ≤ t → t < b → g t = G t) :
    ∃ u, (u, b) ∈ l ∧ a ≤ u ∧ u < b ∧
      composite g l = composite G l + 7 / 90 * (b - u) * (g b - G b) := by
  obtain ⟨l₀, u, rfl, h1, h2, h3⟩ := h.last hab
  refine ⟨u, by simp, h1, h2, ?_⟩
  have e := composite_congr h3 (g := g) (G := G) fun t ht ht' => hg t ht (by linarith)
  simp only [composite] at e ⊢
  simp only [List.map_append, List.sum_append, e, List.map_cons, List.map_nil, List.sum_cons, List.sum_nil, boole]
  rw [hg u h1 h2, hg _ (by linarith) (by linarith), hg ((u + b) / 2) (by linarith) (by linarith),
    hg (u + 3 * (b - u) / 4) (by linarith) (by linarith)]
  ring

/-- The difference of the two estimates on an interval feels the value at its right end. -/
theorem difference_end {g G : ℝ → ℝ} {u v : ℝ} (huv : u < v) (hg : ∀ t, u ≤ t → t < v → g t = G t) :
    simpson2 g (u, v) - simpson g (u, v) = simpson2 G (u, v) - simpson G (u, v) - (v - u) / 12 * (g v - G v) := by
  simp only [simpson2, simpson]
  rw [hg u le_rfl huv, hg ((u + v) / 2) (by linarith) (by linarith),
    hg ((u + (u + v) / 2) / 2) (by linarith) (by linarith), hg (((u + v) / 2 + v) / 2) (by linarith) (by linarith)]
  ring

theorem taylor_poly3 (G : ℝ → ℝ) (s : Set ℝ) (u : ℝ) :
    ∃ p : Polynomial ℝ, p.natDegree ≤ 3 ∧ ∀ x, p.eval x = taylorWithinEval G 3 s u x := by
  refine ⟨∑ k ∈ Finset.range 4, Polynomial.C ((k.factorial : ℝ)⁻¹ * iteratedDerivWithin k G s u) *
    (Polynomial.X - Polynomial.C u) ^ k, ?_, ?_⟩
  · refine Polynomial.natDegree_sum_le_of_forall_le _ _ (fun k hk => ?_)
    refine (Polynomial.natDegree_C_mul_le _ _).trans ?_
    refine (Polynomial.natDegree_pow_le).trans ?_
    rw [Polynomial.natDegree_X_sub_C, mul_one]
    have := Finset.mem_range.1 hk
    omega
  · intro x
    rw [taylor_within_apply, Polynomial.eval_finsetSum]
    refine Finset.sum_congr rfl (fun k _ => ?_)
    simp only [Polynomial.eval_mul, Polynomial.eval_C, Polynomial.eval_pow, Polynomial.eval_sub, Polynomial.eval_X,
      smul_eq_mul]
    ring

/-- For a smooth function the two estimates differ by the fifth power of the width. -/
theorem difference_smooth (G : ℝ → ℝ) (hG : ContDiff ℝ 6 G) {u v M : ℝ} (huv : u < v)
    (hM : ∀ t, u ≤ t → t ≤ v → |iteratedDeriv 4 G t| ≤ M) :
    |simpson2 G (u, v) - simpson G (u, v)| ≤ M / 3 * (v - u) ^ 5 := by
  have hM0 : 0 ≤ M := (abs_nonneg _).trans (hM u le_rfl huv.le)
  obtain ⟨p, hp, hev⟩ := taylor_poly3 G (Icc u v) u
  have hG4 : ContDiff ℝ 4 G := hG.of_le (by norm_num)
  have hR : ∀ t, u ≤ t → t ≤ v → |G t - p.eval t| ≤ M * (v - u) ^ 4 / 6 := by
    intro t h1 h2
    have := taylor_mean_remainder_bound (f := G) (n := 3) (C := M) huv.le (by
      have : ((3 : ℕ) : WithTop ℕ∞) + 1 = 4 := by norm_num
      rw [this]; exact hG4.contDiffOn) ⟨h1, h2⟩ (by
      intro y hy
      rw [iteratedDerivWithin_eq_iteratedDeriv (uniqueDiffOn_Icc huv) hG4.contDiffAt hy]
      exact hM y hy.1 hy.2)
    rw [hev]
    refine (this : |_| ≤ _).trans ?_
    have e : ((Nat.factorial 3 : ℕ) : ℝ) = 6 := by norm_num [Nat.factorial]
    rw [e]
    have : (t - u) ^ (3 + 1) ≤ (v - u) ^ 4 := pow_le_pow_left₀ (by linarith) (by linarith) 4
    gcongr
  have hz := simpson_exact_halves p hp (g := fun t => p.eval t) huv (fun _ _ _ => rfl)
  set ε := M * (v - u) ^ 4 / 6 with hε
  have b1 := abs_le.1 (hR u le_rfl huv.le)
  have b2 := abs_le.1 (hR ((u + (u + v) / 2) / 2) (by linarith) (by linarith))
  have b3 := abs_le.1 (hR ((u + v) / 2) (by linarith) (by linarith))
  have b4 := abs_le.1 (hR (((u + v) / 2 + v) / 2) (by linarith) (by linarith))
  have b5 := abs_le.1 (hR v huv.le le_rfl)
  have e : simpson2 G (u, v) - simpson G (u, v) = (v - u) / 12 *
      (-(G u - p.eval u) + 4 * (G ((u + (u + v) / 2) / 2) - p.eval ((u + (u + v) / 2) / 2)) -
        6 * (G ((u + v) / 2) - p.eval ((u + v) / 2)) +
        4 * (G (((u + v) / 2 + v) / 2) - p.eval (((u + v) / 2 + v) / 2)) - (G v - p.eval v)) := by
    simp only [simpson2, simpson] at hz ⊢
    linear_combination hz
  rw [e, abs_mul, abs_of_pos (show 0 < (v - u) / 12 by linarith)]
  have h16 : |-(G u - p.eval u) + 4 * (G ((u + (u + v) / 2) / 2) - p.eval ((u + (u + v) / 2) / 2)) -
        6 * (G ((u + v) / 2) - p.eval ((u + v) / 2)) +
        4 * (G (((u + v) / 2 + v) / 2) - p.eval (((u + v) / 2 + v) / 2)) - (G v - p.eval v)| ≤ 16 * ε := by
    rw [abs_le]
    constructor <;> linarith [b1.1, b1.2, b2.1, b2.2, b3.1, b3.2, b4.1, b4.2, b5.1, b5.2]
  have hw : 0 < v - u := by linarith
  calc (v - u) / 12 * _ ≤ (v - u) / 12 * (16 * ε) := by gcongr
    _ = 2 / 9 * (M * (v - u) ^ 5) := by rw [hε]; ring
    _ ≤ M / 3 * (v - u) ^ 5 := by
      have : 0 ≤ M * (v - u) ^ 5 := by positivity
      linarith

/-- If the first interval passes the error test, the call succeeds at once. -/
theorem single_step (f : Dbl → Dbl) (φ : ℝ → ℝ) (φinf τ : ℝ) (hf : ∀ x, 0 ≤ x → f (.fin x) = .fin (φ x))
    (hinf : f .pinf = .fin φinf) (cfg : Cfg) (hτ : cfg.tol = .fin τ) (n : ℕ)
    (hb : Finds f cfg (.bracket 0 1 n)) (hn : n + 4 < 2 ^ 32) (hn' : n + 4 ≤ cfg.maxeval)
    (hp : |simpson2 (transform φ φinf) (0, 1) - simpson (transform φ φinf) (0, 1)| ≤
      |τ * simpson2 (transform φ φinf) (0, 1)|) :
    Returns f cfg ⟨.success, ⟨.fin (boole (transform φ φinf) (0, 1)), true, n + 4⟩, n + 5⟩ := by
  have hab : ValidBracket 0 1 := ⟨le_rfl, by norm_num, le_rfl⟩
  obtain ⟨M, hM⟩ := hb
  have hF : ∀ t, 0 ≤ t → t ≤ 1 → onUnit f t = .fin (transform φ φinf t) :=
    fun t ht ht' => onUnit_eq hf hinf ht ht'
  refine ⟨max M 2, fun fuel hfuel => ?_⟩
  simp only [maq, hM fuel (by omega), Option.bind_some]
  have na := hF 0 le_rfl zero_le_one
  have nb := hF 1 zero_le_one le_rfl
  have nc := hF ((0 + 1) / 2) (by norm_num) (by norm_num)
  rw [integrate_bracket f _ _ hab, if_neg (by simp [na]), if_neg (by simp [nb]), if_neg (by rw [nc]; simp)]
  obtain ⟨m, rfl⟩ : ∃ m, fuel = m + 2 := ⟨fuel - 2, by omega⟩
  have hreg : RegionOk (onUnit f) ⟨0, 1, (0 + 1) / 2, onUnit f 0, onUnit f 1, onUnit f ((0 + 1) / 2),
      quad 0 1 (onUnit f 0) (onUnit f 1) (onUnit f ((0 + 1) / 2))⟩ :=
    ⟨le_rfl, by norm_num, rfl, rfl, rfl, rfl, rfl, by simp [na], by simp [nb], by rw [nc]; simp⟩
  have h32 : (n + 3) % 2 ^ 32 = n + 3 := Nat.mod_eq_of_lt (by omega)
  have hinc : inc32 (n + 3) = n + 4 := by unfold inc32; omega
  have e1 := est1_fin hF (p := (0, 1)) le_rfl zero_lt_one le_rfl
  have e2 := est2_fin hF (p := (0, 1)) le_rfl zero_lt_one le_rfl
  have hpass : Passes (onUnit f) cfg.tol 0 (0, 1) := by
    left
    rw [e1, e2, hτ]
    simpa only [fin_sub, abs_fin, fin_mul, fin_le] using hp
  have hB := extrapolated (transform φ φinf) (0, 1)
  rw [h32]
  simp only [iter]
  rw [loopStep_eq _ _ _ _ _ _ _ _ hreg, hinc, if_neg (by simp only [gt_iff_lt, not_lt]; exact hn'),
    if_neg (by simp only; rw [hF _ (by norm_num) (by norm_num)]; simp),
    if_neg (by simp only; rw [hF _ (by norm_num) (by norm_num)]; simp), if_pos (by exact hpass)]
  simp only [loopStep, Region.iv, e1, e2, zero_def, fin_add, fin_sub]
  rw [fin_div_of_ne (by norm_num), fin_add]
  simp only [fin_add, zero_add, hB]

/-- If the limit does not allow the first step, the call fails, whatever the integrand. -/
theorem limit_too_small (f : Dbl → Dbl) (cfg : Cfg) (n : ℕ) (hb : Finds f cfg (.bracket 0 1 n)) (hn : n + 4 < 2 ^ 32)
    (hm : cfg.maxeval < n + 4) : ∃ rep, Returns f cfg rep ∧ rep.result.successful = false := by
  have hab : ValidBracket 0 1 := ⟨le_rfl, by norm_num, le_rfl⟩
  obtain ⟨M, hM⟩ := hb
  have h32 : (n + 3) % 2 ^ 32 = n + 3 := Nat.mod_eq_of_lt (by omega)
  have hinc : inc32 (n + 3) = n + 4 := by unfold inc32; omega
  have key : ∀ rep, (∀ fuel, max M 1 ≤ fuel → integrate f cfg.tol cfg.maxeval (.bracket 0 1 n) fuel = some rep) →
      Returns f cfg rep := fun rep h => ⟨max M 1, fun fuel hf => by
    simp only [maq, hM fuel (by omega), Option.bind_some]
    exact h fuel hf⟩
  by_cases na : isNaN (onUnit f 0)
  · exact ⟨_, key _ fun fuel _ => by rw [integrate_bracket f _ _ hab, if_pos na], rfl⟩
  by_cases nb : isNaN (onUnit f 1)
  · exact ⟨_, key _ fun fuel _ => by rw [integrate_bracket f _ _ hab, if_neg na, if_pos nb], rfl⟩
  by_cases nc : isNaN (onUnit f ((0 + 1) / 2))
  · exact ⟨_, key _ fun fuel _ => by rw [integrate_bracket f _ _ hab, if_neg na, if_neg nb, if_pos nc], rfl⟩
  refine ⟨⟨.integrationFail, ⟨.nan, false, n + 4⟩, n + 3⟩, key _ fun fuel hf => ?_, rfl⟩
  rw [integrate_bracket f _ _ hab, if_neg na, if_neg nb, if_neg nc]
  obtain ⟨m, rfl⟩ : ∃ m, fuel = m + 1 := ⟨fuel - 1, by omega⟩
  have hreg : RegionOk (onUnit f) ⟨0, 1, (0 + 1) / 2, onUnit f 0, onUnit f 1, onUnit f ((0 + 1) / 2),
      quad 0 1 (onUnit f 0) (onUnit f 1) (onUnit f ((0 + 1) / 2))⟩ :=
    ⟨le_rfl, by norm_num, rfl, rfl, rfl, rfl, rfl, na, nb, nc⟩
  rw [h32]
  simp only [iter]
  rw [loopStep_eq _ _ _ _ _ _ _ _ hreg, hinc, if_pos hm]

/-! ## C59 -/

/-- **C59** An integrand with a wrong value at 0 (the callers write 0 there) but otherwise smooth: a successful result
differs from the integral over the half line by the error of the rule and by at most 7/90 of the width of the last
interval times the error of the value; and that width is small, for the error test had to be passed there. -/
theorem wrong_value_at_origin (f : Dbl → Dbl) (φ : ℝ → ℝ) (φinf τ : ℝ)
    (hf : ∀ x, 0 ≤ x → f (.fin x) = .fin (φ x)) (hinf : f .pinf = .fin φinf) (cfg : Cfg) (hτ : cfg.tol = .fin τ)
    (hvis : eps < φ 0 ∨ eps < φ 1) (G : ℝ → ℝ) (hG : ContDiff ℝ 6 G) (M₄ M₆ : ℝ)
    (hg : ∀ t, 0 ≤ t → t < 1 → transform φ φinf t = G t)
    (h4 : ∀ t, 0 ≤ t → t ≤ 1 → |iteratedDeriv 4 G t| ≤ M₄) (h6 : ∀ t, 0 ≤ t → t ≤ 1 → |iteratedDeriv 6 G t| ≤ M₆)
    (rep : Report) (h : Returns f cfg rep) (hs : rep.result.successful = true) :
    ∃ (v u : ℝ) (leaves : List (ℝ × ℝ)), rep.result.integral = .fin v ∧ Tiles 0 1 leaves ∧ (u, 1) ∈ leaves ∧
      (∀ w, (∀ p ∈ leaves, p.2 - p.1 ≤ w) →
        |v - ∫ x in Ioi (0 : ℝ), φ x| ≤ M₆ / 60 * w ^ 6 + 7 / 90 * (1 - u) * |φ 0 - G 1|) ∧
      ∃ before, (1 - u) / 12 * |φ 0 - G 1| ≤ M₄ / 3 * (1 - u) ^ 5 +
        max |τ * simpson2 (transform φ φinf) (u, 1)| |τ * composite (transform φ φinf) before| ∧
        (u, 1) :: before ⊆ leaves := by
  obtain ⟨hb, -, hcv, -⟩ := whole_half_line_partial f φ φinf τ hf hinf cfg hτ hvis rep h hs
  have huniq : ∀ r, Finds f cfg r → r = .bracket 0 1 2 := by
    rintro r ⟨N, hN⟩
    obtain ⟨K, hK⟩ := hb
    have := (hN (max N K) (le_max_left _ _)).symm.trans (hK (max N K) (le_max_right _ _))
    simpa using this
  have ho : rep.outcome ≠ .searchFail := by
    rcases maq_cases f cfg rep h with ⟨n, h1, rfl⟩ | ⟨a, b, n, -, -, ⟨-, h4, -⟩ | ⟨-, -, h4 | h4⟩⟩
    · exact absurd (huniq _ h1) (by simp)
    all_goals rw [h4]; simp
  obtain ⟨a, b, n, h1, -, -, -, acc, leaves, t1, t2, t3, t4, -⟩ :=
    success_is_composite f φ φinf τ hf hinf cfg hτ rep h hs ho
  have e := huniq _ h1
  simp only [SearchResult.bracket.injEq] at e
  obtain ⟨rfl, rfl, rfl⟩ := e
  have hsum : composite (transform φ φinf) acc = composite (transform φ φinf) leaves := (t2.map _).sum_eq.symm
  obtain ⟨u, u1, u2, u3, u4⟩ := composite_end t1 zero_lt_one hg
  have hone : transform φ φinf 1 = φ 0 := by simp [transform]
  rw [hone] at u4
  have hM0 : 0 ≤ M₆ := (abs_nonneg _).trans (h6 0 le_rfl zero_le_one)
  refine ⟨_, u, leaves, t3, t1, u1, ?_, ?_⟩
  · intro w hw
    have hc := composite_error G hG t1 h6 (g := G) (fun _ _ _ => rfl)
    have hi : ∫ t in (0 : ℝ)..1, transform φ φinf t = ∫ t in (0 : ℝ)..1, G t := by
      rw [intervalIntegral.integral_of_le zero_le_one, intervalIntegral.integral_of_le zero_le_one,
        integral_Ioc_eq_integral_Ioo, integral_Ioc_eq_integral_Ioo]
      exact setIntegral_congr_fun measurableSet_Ioo fun t ht => hg t ht.1.le ht.2
    have h7 := widths7_le t1 hw
    rw [hsum, hcv, hi, u4]
    calc _ = |(composite G leaves - ∫ t in (0 : ℝ)..1, G t) + 7 / 90 * (1 - u) * (φ 0 - G 1)| := by congr 1; ring
      _ ≤ M₆ / 60 * widths7 leaves + 7 / 90 * (1 - u) * |φ 0 - G 1| := by
        refine (abs_add_le _ _).trans (add_le_add hc ?_)
        rw [abs_mul, abs_of_nonneg (by linarith)]
      _ ≤ _ := by
        have : M₆ / 60 * widths7 leaves ≤ M₆ / 60 * w ^ 6 := by
          gcongr
          simpa using h7
        linarith
  · obtain ⟨l₁, l₂, hl⟩ := List.append_of_mem (t2.mem_iff.1 u1)
    refine ⟨l₁, ?_, ?_⟩
    · have hd := difference_end (g := transform φ φinf) (G := G) u3 fun t ht ht' => hg t (by linarith) ht'
      rw [hone] at hd
      have hsm := difference_smooth G hG u3 fun t ht ht' => h4 t (by linarith) ht'
      have hmax : |simpson2 (transform φ φinf) (u, 1) - simpson (transform φ φinf) (u, 1)| ≤
          max |τ * simpson2 (transform φ φinf) (u, 1)| |τ * composite (transform φ φinf) l₁| :=
        (t4 l₁ (u, 1) l₂ hl).elim (fun h => h.trans (le_max_left _ _)) (fun h => h.trans (le_max_right _ _))
      have he : (1 - u) / 12 * |φ 0 - G 1| = |(1 - u) / 12 * (φ 0 - G 1)| := by
        rw [abs_mul, abs_of_nonneg (by linarith : 0 ≤ (1 - u) / 12)]
      rw [he]
      calc _ = |(simpson2 G (u, 1) - simpson G (u, 1)) -
            (simpson2 (transform φ φinf) (u, 1) - simpson (transform φ φinf) (u, 1))| := by
            rw [hd]; congr 1; ring
        _ ≤ _ := (abs_sub _ _).trans (add_le_add hsm hmax)
    · intro p hp
      refine t2.mem_iff.2 ?_
      rw [hl]
      simp only [List.mem_cons] at hp
      simp only [List.mem_append, List.mem_cons]
      tauto

/-- `1/(1+x)^3` with the value 0 at the origin. -/
def inverseCube (x : ℝ) : ℝ := if x = 0 then 0 else 1 / (1 + x) ^ 3

theorem transform_inverseCube {t : ℝ} (h0 : 0 ≤ t) (h1 : t < 1) : transform inverseCube 0 t = id t := by
  unfold transform
  split
  · simp_all
  · rename_i ht
    have ht : 0 < t := lt_of_le_of_ne h0 (Ne.symm ht)
    have : 1 / t - 1 ≠ 0 := by
      intro h
      have : 1 / t = 1 := by linarith
      rw [div_eq_one_iff_eq ht.ne'] at this
      linarith
    simp only [inverseCube, if_neg this]
    field_simp
    simp

/-- `1/(1+x)^3` with the value 0 at the origin, as the callers write it, and a tolerance of 1: the call succeeds with
19/45, which is 7/90 less than the integral 1/2. -/
theorem inverse_cube_origin (m : Method) (f : Dbl → Dbl) (hf : ∀ x, 0 ≤ x → f (.fin x) = .fin (inverseCube x))
    (hinf : f .pinf = .fin 0) :
    Returns f ⟨.fin 1, 2048, 2048, m⟩ ⟨.success, ⟨.fin (19 / 45), true, 6⟩, 7⟩ := by
  have h1 : transform inverseCube 0 1 = 0 := by simp [transform, inverseCube]
  have hb : Finds f ⟨.fin 1, 2048, 2048, m⟩ (.bracket 0 1 2) := by
    refine ⟨0, fun fuel _ => finds_unit f m 2048 ?_ fuel⟩
    rw [hf 0 le_rfl, hf 1 zero_le_one]
    simp only [fin_le, not_and_or, not_le]
    right
    norm_num [eps, inverseCube]
  have t1 := transform_inverseCube le_rfl zero_lt_one
  have t2 := transform_inverseCube (t := 1 / 2) (by norm_num) (by norm_num)
  have t3 := transform_inverseCube (t := 1 / 4) (by norm_num) (by norm_num)
  have t4 := transform_inverseCube (t := 3 / 4) (by norm_num) (by norm_num)
  simp only [id] at t1 t2 t3 t4
  have hs : simpson (transform inverseCube 0) (0, 1) = 1 / 3 := by
    simp only [simpson, zero_add, t1, t2, h1]; norm_num
  have hs2 : simpson2 (transform inverseCube 0) (0, 1) = 5 / 12 := by
    have a1 : ((0 : ℝ) + 1) / 2 = 1 / 2 := by norm_num
    have a2 : ((0 : ℝ) + 1 / 2) / 2 = 1 / 4 := by norm_num
    have a3 : ((1 : ℝ) / 2 + 1) / 2 = 3 / 4 := by norm_num
    simp only [simpson2, simpson, a1, a2, a3, t1, t2, t3, t4, h1]; norm_num
  have := single_step f inverseCube 0 1 hf hinf ⟨.fin 1, 2048, 2048, m⟩ rfl 2 hb (by norm_num) (by norm_num)
    (by rw [hs, hs2]; norm_num)
  have hB : boole (transform inverseCube 0) (0, 1) = 19 / 45 := by
    rw [← extrapolated, hs, hs2]; norm_num
  rwa [hB] at this

/-- It meets the hypotheses of `wrong_value_at_origin`, with `G t = t`. -/
example : ∃ v u : ℝ, |v - ∫ x in Ioi (0 : ℝ), 1 / (1 + x) ^ 3| ≤ 7 / 90 * (1 - u) ∧ v = 19 / 45 ∧ 0 ≤ u := by
  let f : Dbl → Dbl := fun x => match x with
    | .fin x => .fin (inverseCube x)
    | _ => .fin 0
  obtain ⟨v, u, leaves, e1, e2, e3, e4, -⟩ := wrong_value_at_origin f inverseCube 0 1 (fun _ _ => rfl) rfl _ rfl
    (Or.inr (by norm_num [eps, inverseCube])) id contDiff_id 0 0 (fun t h0 h1 => transform_inverseCube h0 h1)
    (fun t _ _ => by simp [iteratedDeriv_succ']) (fun t _ _ => by simp [iteratedDeriv_succ']) _
    (inverse_cube_origin .directed f (fun _ _ => rfl) rfl) rfl
  have he : ∫ x in Ioi (0 : ℝ), inverseCube x = ∫ x in Ioi (0 : ℝ), 1 / (1 + x) ^ 3 :=
    setIntegral_congr_fun measurableSet_Ioi fun x hx => if_neg (ne_of_gt hx)
  have h3 : inverseCube 0 = 0 := by simp [inverseCube]
  refine ⟨v, u, ?_, ?_, (e2.mem e3).1⟩
  · have := e4 1 fun p hp => by
      obtain ⟨g1, g2, g3⟩ := e2.mem hp
      linarith
    rw [he, h3] at this
    simpa using this
  · simpa using e1.symm

end

end Slat.Maq
