import Verif.MaqFLoop

/-!
# Quadrature in rounded arithmetic: abscissae stay in the unit interval and in order
-/

namespace Slat.MaqF

open Dbl

attribute [local instance] Classical.propDecidable

namespace Rounding

variable (R : Rounding)

/-- A number of the format. -/
def Rep (x : ℝ) : Prop := R.rnd x = .fin x

theorem rep_nat (n : ℕ) (h : n ≤ 2 ^ 53) : R.Rep n := R.nat n h
theorem rep_zero : R.Rep 0 := by
  have := R.nat 0 (by norm_num)
  simpa [Rep] using this
theorem rep_one : R.Rep 1 := by
  have := R.nat 1 (by norm_num)
  simpa [Rep] using this
theorem rep_two : R.Rep 2 := by
  have := R.nat 2 (by norm_num)
  simpa [Rep] using this

theorem between {x v y : ℝ} (hx : R.Rep x) (hy : R.Rep y) (h1 : x ≤ v) (h2 : v ≤ y) :
    ∃ w, R.rnd v = .fin w ∧ x ≤ w ∧ w ≤ y ∧ R.Rep w := by
  have m1 := R.mono _ _ h1
  have m2 := R.mono _ _ h2
  rw [hx] at m1
  rw [hy] at m2
  cases e : R.rnd v with
  | fin w =>
    rw [e] at m1 m2
    exact ⟨w, rfl, (fin_le _ _).1 m1, (fin_le _ _).1 m2, R.idem _ _ e⟩
  | nan => rw [e] at m1; exact absurd m1 (not_le_nan _)
  | pinf => rw [e] at m2; exact absurd m2 (not_pinf_le_fin _)
  | ninf => rw [e] at m1; exact absurd m1 (not_fin_le_ninf _)

theorem between32 {x v y : ℝ} (hx : R.rnd32 x = .fin x) (hy : R.rnd32 y = .fin y) (h1 : x ≤ v) (h2 : v ≤ y) :
    ∃ w, R.rnd32 v = .fin w ∧ x ≤ w ∧ w ≤ y ∧ R.Rep w := by
  have m1 := R.mono32 _ _ h1
  have m2 := R.mono32 _ _ h2
  rw [hx] at m1
  rw [hy] at m2
  cases e : R.rnd32 v with
  | fin w =>
    rw [e] at m1 m2
    exact ⟨w, rfl, (fin_le _ _).1 m1, (fin_le _ _).1 m2, R.narrow _ _ e⟩
  | nan => rw [e] at m1; exact absurd m1 (not_le_nan _)
  | pinf => rw [e] at m2; exact absurd m2 (not_pinf_le_fin _)
  | ninf => rw [e] at m1; exact absurd m1 (not_fin_le_ninf _)

theorem lit_zero : R.arith.lit 0 = .fin 0 := by
  show R.rnd ((0 : ℚ) : ℝ) = _
  rw [Rat.cast_zero]; exact R.rep_zero
theorem lit_one : R.arith.lit 1 = .fin 1 := by
  show R.rnd ((1 : ℚ) : ℝ) = _
  rw [Rat.cast_one]; exact R.rep_one
theorem lit_nat (n : ℕ) (h : n ≤ 2 ^ 53) : R.arith.lit n = .fin n := by
  show R.rnd ((n : ℚ) : ℝ) = _
  rw [Rat.cast_natCast]; exact R.nat n h
theorem lit_two : R.arith.lit 2 = .fin 2 := by simpa using R.lit_nat 2 (by norm_num)
theorem lit_half : R.arith.lit (1 / 2) = .fin (1 / 2) := by
  show R.rnd (((1 / 2 : ℚ)) : ℝ) = _
  have : (((1 / 2 : ℚ)) : ℝ) = 1 / 2 := by norm_num
  rw [this]; exact R.half

/-- Half of a sum lies between. -/
theorem mid_between {x y : ℝ} (hx : R.Rep x) (hy : R.Rep y) (h0 : 0 ≤ x) (h1 : x ≤ y) (h2 : y ≤ 1) :
    ∃ w, mid R.arith (.fin x) (.fin y) = .fin w ∧ mid R.arith (.fin y) (.fin x) = .fin w ∧ x ≤ w ∧ w ≤ y ∧ R.Rep w := by
  obtain ⟨s, e1, s1, s2, -⟩ := R.between (R.twice x h0 (h1.trans h2) hx) (R.twice y (h0.trans h1) h2 hy)
    (show 2 * x ≤ x + y by linarith) (show x + y ≤ 2 * y by linarith)
  obtain ⟨w, e2, w1, w2, w3⟩ := R.between hx hy (show x ≤ s / 2 by linarith) (show s / 2 ≤ y by linarith)
  have key : ∀ u v : ℝ, u + v = x + y → mid R.arith (.fin u) (.fin v) = .fin w := by
    intro u v huv
    unfold mid
    rw [R.lit_two]
    show apply R.rnd (apply R.rnd (.fin u + .fin v) / .fin 2) = _
    rw [fin_add, huv]
    simp only [apply, e1, fin_div_two, e2]
  exact ⟨w, key x y rfl, key y x (add_comm _ _), w1, w2, w3⟩

/-- A range of numbers of the format in the unit interval with an inner point. -/
def Ordered (a c b : Dbl) : Prop :=
  ∃ x y z : ℝ, a = .fin x ∧ c = .fin y ∧ b = .fin z ∧ 0 ≤ x ∧ x ≤ y ∧ y ≤ z ∧ z ≤ 1 ∧ R.Rep x ∧ R.Rep y ∧ R.Rep z

/-- A number of the format in the unit interval. -/
def InUnit (t : Dbl) : Prop := ∃ x : ℝ, t = .fin x ∧ 0 ≤ x ∧ x ≤ 1 ∧ R.Rep x

theorem ordered_mid {x z : ℝ} (h0 : 0 ≤ x) (h1 : x ≤ z) (h2 : z ≤ 1) (hx : R.Rep x) (hz : R.Rep z) :
    R.Ordered (.fin x) (mid R.arith (.fin x) (.fin z)) (.fin z) := by
  obtain ⟨w, e, -, w1, w2, w3⟩ := R.mid_between hx hz h0 h1 h2
  exact ⟨x, w, z, rfl, e, rfl, h0, w1, w2, h2, hx, w3, hz⟩

theorem sub_apply (x y : ℝ) : R.arith.sub (.fin x) (.fin y) = R.rnd (x - y) := by
  show apply R.rnd (.fin x - .fin y) = _
  rw [fin_sub]; rfl
theorem add_apply (x y : ℝ) : R.arith.add (.fin x) (.fin y) = R.rnd (x + y) := by
  show apply R.rnd (.fin x + .fin y) = _
  rw [fin_add]; rfl
theorem mul_apply (x y : ℝ) : R.arith.mul (.fin x) (.fin y) = R.rnd (x * y) := by
  show apply R.rnd (.fin x * .fin y) = _
  rw [fin_mul]; rfl
theorem div_apply {x y : ℝ} (h : y ≠ 0) : R.arith.div (.fin x) (.fin y) = R.rnd (x / y) := by
  show apply R.rnd (.fin x / .fin y) = _
  rw [fin_div_of_ne h]; rfl

/-- `1 - w` for a number of the unit interval. -/
theorem one_sub {w : ℝ} (h0 : 0 ≤ w) (h1 : w ≤ 1) :
    ∃ v, R.arith.sub (R.arith.lit 1) (.fin w) = .fin v ∧ 0 ≤ v ∧ v ≤ 1 ∧ R.Rep v := by
  rw [R.lit_one, sub_apply]
  exact R.between R.rep_zero R.rep_one (by linarith) (by linarith)

theorem ratio_ok {i n k : ℕ} (hi : i < n) (hk : k < 64) (hn : n = 2 ^ k) :
    ∃ w, R.arith.ratio i n = .fin w ∧ 0 ≤ w ∧ w ≤ 1 ∧ R.Rep w := by
  have z32 : R.rnd32 0 = .fin 0 := by simpa using R.nat32 0 (by norm_num)
  have o32 : R.rnd32 1 = .fin 1 := by simpa using R.nat32 1 (by norm_num)
  have hn' : (n : ℝ) = 2 ^ k := by rw [hn]; push_cast; rfl
  have en : R.rnd32 (n : ℝ) = .fin (n : ℝ) := by rw [hn']; exact R.pow32 k hk
  have npos : (0 : ℝ) < n := by rw [hn']; positivity
  obtain ⟨v, e1, v1, v2, -⟩ := R.between32 z32 en (Nat.cast_nonneg i) (by exact_mod_cast hi.le)
  obtain ⟨w, e2, w1, w2, w3⟩ := R.between32 z32 o32 (div_nonneg v1 npos.le) ((div_le_one npos).2 v2)
  refine ⟨w, ?_, w1, w2, w3⟩
  show apply R.rnd32 (R.rnd32 i / R.rnd32 n) = _
  rw [e1, en, fin_div_of_ne npos.ne']
  exact e2

theorem ends_ok {i n : ℕ} (h1 : 1 ≤ i) (h2 : i + 1 ≤ n) (hn : n ≤ 2 ^ 24) :
    ∃ u v, R.arith.div (R.arith.sub (R.arith.single i) (R.arith.lit 1)) (R.arith.whole n) = .fin u ∧
      R.arith.div (R.arith.add (R.arith.single i) (R.arith.lit 1)) (R.arith.whole n) = .fin v ∧
      0 ≤ u ∧ u ≤ v ∧ v ≤ 1 ∧ R.Rep u ∧ R.Rep v := by
  have es : R.arith.single i = .fin (i : ℝ) := R.nat32 i (by omega)
  have ew : R.arith.whole n = .fin (n : ℝ) := R.nat n (le_trans hn (by norm_num))
  have h1' : (1 : ℝ) ≤ i := by exact_mod_cast h1
  have h2' : (i : ℝ) + 1 ≤ n := by exact_mod_cast h2
  have npos : (0 : ℝ) < n := by linarith
  have e1 : R.rnd ((i : ℝ) - 1) = .fin ((i : ℝ) - 1) := by
    have := R.nat (i - 1) (by
      have : (2 : ℕ) ^ 24 ≤ 2 ^ 53 := by norm_num
      omega)
    rwa [Nat.cast_sub h1, Nat.cast_one] at this
  have e2 : R.rnd ((i : ℝ) + 1) = .fin ((i : ℝ) + 1) := by
    have := R.nat (i + 1) (by
      have : (2 : ℕ) ^ 24 ≤ 2 ^ 53 := by norm_num
      omega)
    rwa [Nat.cast_add, Nat.cast_one] at this
  rw [es, ew, R.lit_one, sub_apply, add_apply, e1, e2, div_apply _ npos.ne', div_apply _ npos.ne']
  have a0 : 0 ≤ ((i : ℝ) - 1) / n := div_nonneg (by linarith) npos.le
  have ab : ((i : ℝ) - 1) / n ≤ ((i : ℝ) + 1) / n := by gcongr; linarith
  have b1 : ((i : ℝ) + 1) / n ≤ 1 := (div_le_one npos).2 h2'
  obtain ⟨u, eu, u1, u2, u3⟩ := R.between R.rep_zero R.rep_one a0 (ab.trans b1)
  obtain ⟨v, ev, v1, v2, v3⟩ := R.between R.rep_zero R.rep_one (a0.trans ab) b1
  have := R.mono _ _ ab
  rw [eu, ev, fin_le] at this
  exact ⟨u, v, eu, ev, u1, this, v2, u3, v3⟩

theorem around_ok {c : Dbl} (h : R.InUnit c) :
    R.Ordered (bracketOf R.arith c).1 c (bracketOf R.arith c).2 ∧
    R.Ordered (bracketOf R.arith c).1 (mid R.arith (bracketOf R.arith c).1 (bracketOf R.arith c).2) (bracketOf R.arith c).2 := by
  obtain ⟨x, rfl, x0, x1, hx⟩ := h
  have e2 : R.arith.mul (R.arith.lit 2) (.fin x) = .fin (2 * x) := by
    rw [R.lit_two, mul_apply]; exact R.twice x x0 x1 hx
  have r2 : R.Rep (2 * x) := R.twice x x0 x1 hx
  unfold bracketOf
  rw [R.lit_half, R.lit_zero, R.lit_one, e2, sub_apply]
  have hlt : R.arith.lt (.fin x) (.fin (1 / 2)) ↔ x < 1 / 2 := Iff.rfl
  by_cases hc : x < 1 / 2
  · rw [if_pos (hlt.2 hc)]
    refine ⟨⟨0, x, 2 * x, rfl, rfl, rfl, le_rfl, x0, by linarith, by linarith, R.rep_zero, hx, r2⟩, ?_⟩
    exact R.ordered_mid le_rfl (by linarith) (by linarith) R.rep_zero r2
  · rw [if_neg (fun h => hc (hlt.1 h))]
    have hc' : 1 / 2 ≤ x := not_lt.1 hc
    obtain ⟨w, ew, w1, w2, w3⟩ := R.between R.rep_zero hx (show 0 ≤ 2 * x - 1 by linarith) (show 2 * x - 1 ≤ x by linarith)
    rw [ew]
    exact ⟨⟨w, x, 1, rfl, rfl, rfl, w1, w2, x1, le_rfl, w3, hx, R.rep_one⟩,
      R.ordered_mid w1 (w2.trans x1) le_rfl w3 R.rep_one⟩

/-- Rounding keeps abscissae in the unit interval and in order, for search grids up to 2^24. -/
def geometry : Geometry R.arith (2 ^ 24) where
  Pt := R.InUnit
  J := R.Ordered
  ends := by
    rintro a c b ⟨x, y, z, rfl, rfl, rfl, h0, h1, h2, h3, hx, hy, hz⟩
    exact ⟨⟨x, rfl, h0, by linarith, hx⟩, ⟨y, rfl, by linarith, by linarith, hy⟩, ⟨z, rfl, by linarith, h3, hz⟩⟩
  left := by
    rintro a c b ⟨x, y, z, rfl, rfl, rfl, h0, h1, h2, h3, hx, hy, hz⟩
    exact R.ordered_mid h0 h1 (h2.trans h3) hx hy
  right := by
    rintro a c b ⟨x, y, z, rfl, rfl, rfl, h0, h1, h2, h3, hx, hy, hz⟩
    obtain ⟨w, -, e, w1, w2, w3⟩ := R.mid_between hy hz (h0.trans h1) h2 h3
    exact ⟨y, w, z, rfl, e, rfl, h0.trans h1, w1, w2, h3, hy, w3, hz⟩
  right' := by
    rintro a c b ⟨x, y, z, rfl, rfl, rfl, h0, h1, h2, h3, hx, hy, hz⟩
    exact R.ordered_mid (h0.trans h1) h2 h3 hy hz
  shrinkL := by
    rintro a c b ⟨x, y, z, rfl, rfl, rfl, h0, h1, h2, h3, hx, hy, hz⟩
    obtain ⟨w, e, -, w1, w2, w3⟩ := R.mid_between hx hy h0 h1 (h2.trans h3)
    exact ⟨w, y, z, e, rfl, rfl, h0.trans w1, w2, h2, h3, w3, hy, hz⟩
  shrinkR := by
    rintro a c b ⟨x, y, z, rfl, rfl, rfl, h0, h1, h2, h3, hx, hy, hz⟩
    obtain ⟨w, e, -, w1, w2, w3⟩ := R.mid_between hy hz (h0.trans h1) h2 h3
    exact ⟨x, y, w, rfl, rfl, e, h0, h1, w1, w2.trans h3, hx, hy, w3⟩
  unit := by
    rw [R.lit_zero, R.lit_one]
    exact R.ordered_mid le_rfl zero_le_one le_rfl R.rep_zero R.rep_one
  fwd := by
    intro i n k h1 h2 hn hk
    have hk64 : k < 64 := by
      by_contra h
      have : 2 ^ 64 ≤ 2 ^ k := Nat.pow_le_pow_right (by norm_num) (not_lt.1 h)
      rw [← hk] at this
      have : (2 : ℕ) ^ 24 < 2 ^ 64 := by norm_num
      omega
    obtain ⟨w, e, w1, w2, w3⟩ := R.ratio_ok (show i < n by omega) hk64 hk
    obtain ⟨u, v, e1, e2, u0, uv, v1, hu, hv⟩ := R.ends_ok h1 h2 hn
    refine ⟨⟨w, e, w1, w2, w3⟩, ?_⟩
    simp only [forward]
    rw [e1, e2]
    exact R.ordered_mid u0 uv v1 hu hv
  bwd := by
    intro i n k h1 h2 hn hk
    have hk64 : k < 64 := by
      by_contra h
      have : 2 ^ 64 ≤ 2 ^ k := Nat.pow_le_pow_right (by norm_num) (not_lt.1 h)
      rw [← hk] at this
      have : (2 : ℕ) ^ 24 < 2 ^ 64 := by norm_num
      omega
    obtain ⟨w, e, w1, w2, w3⟩ := R.ratio_ok (show i < n by omega) hk64 hk
    obtain ⟨u, v, e1, e2, u0, uv, v1, hu, hv⟩ := R.ends_ok h1 h2 hn
    simp only [backward]
    rw [e, e1, e2]
    obtain ⟨p, ep, p0, p1, hp⟩ := R.one_sub w1 w2
    obtain ⟨a, ea, a0, a1, ha⟩ := R.one_sub (u0.trans uv) v1
    obtain ⟨b, eb, b0, b1, hb⟩ := R.one_sub u0 (uv.trans v1)
    refine ⟨⟨p, ep, p0, p1, hp⟩, ?_⟩
    rw [ea, eb]
    have hab : a ≤ b := by
      rw [R.lit_one, sub_apply] at ea eb
      have := R.mono (1 - v) (1 - u) (by linarith)
      rw [ea, eb, fin_le] at this
      exact this
    exact R.ordered_mid a0 hab b1 ha hb
  point := by
    intro i n k h1 h2 hk hn
    obtain ⟨w, e, w1, w2, w3⟩ := R.ratio_ok h2 hk hn
    rw [e]
    obtain ⟨p, ep, p0, p1, hp⟩ := R.one_sub w1 w2
    exact ⟨p, ep, p0, p1, hp⟩
  around := fun h => R.around_ok h
  middle' := by
    obtain ⟨w, e, -, w1, w2, w3⟩ := R.mid_between R.rep_zero R.rep_one le_rfl zero_le_one le_rfl
    obtain ⟨p, ep, p0, p1, hp⟩ := R.one_sub w1 w2
    refine ⟨p, ?_, p0, p1, hp⟩
    unfold MaqF.middle' middle
    rw [R.lit_zero]
    have e' : R.arith.div (R.arith.add (.fin 0) (R.arith.lit 1)) (R.arith.lit 2) = .fin w := by
      rw [R.lit_one]; exact e
    rw [e']
    exact ep

/-- The argument at which the integrand is evaluated for an abscissa of the unit interval: not negative, possibly infinite, never
NaN. -/
theorem argument_ok {t : Dbl} (h : R.InUnit t) : (.fin 0 : Dbl) ≤ xFromT R.arith t := by
  obtain ⟨x, rfl, x0, x1, hx⟩ := h
  unfold xFromT
  have hz : R.arith.isZero (.fin x) ↔ x = 0 := Iff.rfl
  by_cases hc : x = 0
  · rw [if_pos (hz.2 hc)]
    exact fin_le_pinf _
  · rw [if_neg (fun h => hc (hz.1 h)), R.lit_one, div_apply _ hc]
    have hpos : 0 < x := lt_of_le_of_ne x0 (Ne.symm hc)
    have h1 : (1 : ℝ) ≤ 1 / x := by rw [le_div_iff₀ hpos]; linarith
    have m := R.mono _ _ h1
    rw [show R.rnd 1 = .fin 1 from R.rep_one] at m
    cases e : R.rnd (1 / x) with
    | fin w =>
      rw [e, fin_le] at m
      rw [sub_apply]
      have := R.mono 0 (w - 1) (by linarith)
      rwa [show R.rnd 0 = .fin 0 from R.rep_zero] at this
    | nan => rw [e] at m; exact absurd m (not_le_nan _)
    | ninf => rw [e] at m; exact absurd m (not_fin_le_ninf _)
    | pinf => exact fin_le_pinf _

end Rounding

end Slat.MaqF
