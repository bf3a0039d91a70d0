import Verif.MaqFSign

/-!
# Quadrature in rounded arithmetic: accumulated rounding errors
-/

namespace Slat.MaqF

open Dbl
open Slat.Maq (iter Method Outcome inc32 iter_inv)

attribute [local instance] Classical.propDecidable

/-! ### Specification -/

/-- A subinterval with three inner points and the values of the transformed integrand at the five points. -/
structure Tile where
  a : ℝ
  d : ℝ
  c : ℝ
  e : ℝ
  b : ℝ
  va : ℝ
  vd : ℝ
  vc : ℝ
  ve : ℝ
  vb : ℝ

namespace Tile

/-- Simpson's rule with the points `a`, `c`, `b`. -/
noncomputable def coarse (t : Tile) : ℝ := (t.b - t.a) / 6 * (t.va + 4 * t.vc + t.vb)

/-- Simpson's rule on both parts. -/
noncomputable def fine (t : Tile) : ℝ :=
  (t.c - t.a) / 6 * (t.va + 4 * t.vd + t.vc) + (t.b - t.c) / 6 * (t.vc + 4 * t.ve + t.vb)

/-- The extrapolated rule, in exact arithmetic. -/
noncomputable def rule (t : Tile) : ℝ := t.fine + (t.fine - t.coarse) / 15

/-- The same points with absolute values. -/
noncomputable def absolute (t : Tile) : Tile := { t with va := |t.va|, vd := |t.vd|, vc := |t.vc|, ve := |t.ve|, vb := |t.vb| }

/-- Sum of the moduli of the terms of the rule. -/
noncomputable def size (t : Tile) : ℝ := t.absolute.fine + (t.absolute.fine + t.absolute.coarse) / 15

end Tile

/-- The tiles follow each other from `a` to `b`, with their points in order. -/
def Joined : ℝ → ℝ → List Tile → Prop
  | a, b, [] => a = b
  | a, b, t :: l => t.a = a ∧ t.a ≤ t.d ∧ t.d ≤ t.c ∧ t.c ≤ t.e ∧ t.e ≤ t.b ∧ Joined t.b b l

/-- The value used for an abscissa: the integrand at `1/t - 1`, divided by `t²`, every operation rounded; at zero the (rounded) value
at infinity. -/
noncomputable def Rounding.sample (R : Rounding) (f : Dbl → Dbl) (t : ℝ) : Dbl :=
  if t = 0 then R.arith.div (f .pinf) (.fin 1)
  else R.arith.div (f (R.arith.sub (R.arith.div (.fin 1) (.fin t)) (.fin 1))) (R.rnd (t * t))

/-- The values of the tile are those of the integrand. -/
def Rounding.Sampled (R : Rounding) (f : Dbl → Dbl) (t : Tile) : Prop :=
  R.sample f t.a = .fin t.va ∧ R.sample f t.d = .fin t.vd ∧ R.sample f t.c = .fin t.vc ∧ R.sample f t.e = .fin t.ve ∧
    R.sample f t.b = .fin t.vb

/-- The inner points are the (rounded) midpoints. -/
def Rounding.Halved (R : Rounding) (t : Tile) : Prop :=
  R.arith.div (R.arith.add (.fin t.a) (.fin t.b)) (.fin 2) = .fin t.c ∧
  R.arith.div (R.arith.add (.fin t.a) (.fin t.c)) (.fin 2) = .fin t.d ∧
  R.arith.div (R.arith.add (.fin t.c) (.fin t.b)) (.fin 2) = .fin t.e

/-- No overflow or underflow: every rounding has a small relative error. -/
def Rounding.Relative (R : Rounding) (u : ℝ) : Prop := ∀ x, ∃ y, R.rnd x = .fin y ∧ |y - x| ≤ u * |x|

/-! ### Propagation of errors -/

/-- `v` approximates `x` after `k` roundings, relative to `X`. -/
def Near (u : ℝ) (k : ℕ) (x v X : ℝ) : Prop := |v - x| ≤ ((1 + u) ^ k - 1) * X ∧ |x| ≤ X

section

variable {u : ℝ} (hu : 0 ≤ u)

include hu

theorem one_le_pow (k : ℕ) : 1 ≤ (1 + u) ^ k := one_le_pow₀ (by linarith)

omit hu in
theorem Near.nonneg {k : ℕ} {x v X : ℝ} (h : Near u k x v X) : 0 ≤ X := (abs_nonneg _).trans h.2

theorem Near.mono {k l : ℕ} {x v X : ℝ} (h : Near u k x v X) (hkl : k ≤ l) : Near u l x v X := by
  refine ⟨h.1.trans ?_, h.2⟩
  have : (1 + u) ^ k ≤ (1 + u) ^ l := pow_le_pow_right₀ (by linarith) hkl
  have := h.nonneg
  gcongr

omit hu in
theorem Near.value {k : ℕ} {x v X : ℝ} (h : Near u k x v X) : |v| ≤ (1 + u) ^ k * X := by
  have : |v| ≤ |v - x| + |x| := by
    have := abs_add_le (v - x) x
    simpa using this
  have h1 := h.1
  have h2 := h.2
  nlinarith

theorem Near.exact (k : ℕ) (x : ℝ) : Near u k x x |x| := by
  refine ⟨?_, le_rfl⟩
  rw [sub_self, abs_zero]
  exact mul_nonneg (by linarith [one_le_pow hu k]) (abs_nonneg _)

theorem Near.round {k : ℕ} {x v w X : ℝ} (h : Near u k x v X) (hw : |w - v| ≤ u * |v|) : Near u (k + 1) x w X := by
  refine ⟨?_, h.2⟩
  have h1 : |w - x| ≤ |w - v| + |v - x| := by
    have := abs_add_le (w - v) (v - x)
    simpa using this
  have h2 := h.1
  have h3 := mul_le_mul_of_nonneg_left (h.value) hu
  have : (1 + u) ^ (k + 1) = (1 + u) ^ k + u * (1 + u) ^ k := by ring
  rw [this]
  nlinarith

theorem Near.add {k l : ℕ} {x y v w X Y : ℝ} (h : Near u k x v X) (h' : Near u l y w Y) :
    Near u (max k l) (x + y) (v + w) (X + Y) := by
  obtain ⟨a1, a2⟩ := h.mono hu (le_max_left k l)
  obtain ⟨b1, b2⟩ := h'.mono hu (le_max_right k l)
  constructor
  · have : |v + w - (x + y)| ≤ |v - x| + |w - y| := by
      have := abs_add_le (v - x) (w - y)
      rwa [show v - x + (w - y) = v + w - (x + y) by ring] at this
    linarith
  · exact (abs_add_le _ _).trans (add_le_add a2 b2)

omit hu in
theorem Near.neg {k : ℕ} {x v X : ℝ} (h : Near u k x v X) : Near u k (-x) (-v) X := by
  refine ⟨?_, by rw [abs_neg]; exact h.2⟩
  rw [show -v - -x = -(v - x) by ring, abs_neg]
  exact h.1

theorem Near.sub {k l : ℕ} {x y v w X Y : ℝ} (h : Near u k x v X) (h' : Near u l y w Y) :
    Near u (max k l) (x - y) (v - w) (X + Y) := by
  rw [sub_eq_add_neg, sub_eq_add_neg]
  exact h.add hu h'.neg

theorem Near.mul {k l : ℕ} {x y v w X Y : ℝ} (h : Near u k x v X) (h' : Near u l y w Y) :
    Near u (k + l) (x * y) (v * w) (X * Y) := by
  have X0 := h.nonneg
  have Y0 := h'.nonneg
  constructor
  · have e : v * w - x * y = (v - x) * w + x * (w - y) := by ring
    have h1 : |v * w - x * y| ≤ |v - x| * |w| + |x| * |w - y| := by
      rw [e]
      refine (abs_add_le _ _).trans ?_
      rw [abs_mul, abs_mul]
    have h2 : |v - x| * |w| ≤ (((1 + u) ^ k - 1) * X) * ((1 + u) ^ l * Y) :=
      mul_le_mul h.1 (h'.value) (abs_nonneg _) (mul_nonneg (by linarith [one_le_pow hu k]) X0)
    have h3 : |x| * |w - y| ≤ X * (((1 + u) ^ l - 1) * Y) := mul_le_mul h.2 h'.1 (abs_nonneg _) X0
    have e2 : (1 + u) ^ (k + l) = (1 + u) ^ k * (1 + u) ^ l := pow_add _ _ _
    rw [e2]
    linarith
  · rw [abs_mul]
    exact mul_le_mul h.2 h'.2 (abs_nonneg _) X0

omit hu in
theorem Near.div {k : ℕ} {x v X c : ℝ} (h : Near u k x v X) (hc : 0 < c) : Near u k (x / c) (v / c) (X / c) := by
  constructor
  · rw [← sub_div, abs_div, abs_of_pos hc, ← mul_div_assoc]
    exact div_le_div_of_nonneg_right h.1 hc.le
  · rw [abs_div, abs_of_pos hc]
    exact div_le_div_of_nonneg_right h.2 hc.le

end

/-! ### Finite results have finite operands -/

namespace Rounding

variable (R : Rounding)

theorem finite_of_apply {v : Dbl} {x : ℝ} (h : apply R.rnd v = .fin x) : ∃ y, v = .fin y := by
  cases v with
  | fin y => exact ⟨y, rfl⟩
  | nan => exact absurd h (by simp [apply])
  | pinf => exact absurd h (by simp [apply])
  | ninf => exact absurd h (by simp [apply])

theorem finite_add {v w : Dbl} {x : ℝ} (h : R.arith.add v w = .fin x) : ∃ y z, v = .fin y ∧ w = .fin z := by
  obtain ⟨s, e⟩ := R.finite_of_apply h
  cases v <;> cases w <;> first | exact ⟨_, _, rfl, rfl⟩ | exact Dbl.noConfusion e

theorem finite_sub {v w : Dbl} {x : ℝ} (h : R.arith.sub v w = .fin x) : ∃ y z, v = .fin y ∧ w = .fin z := by
  obtain ⟨s, e⟩ := R.finite_of_apply h
  cases v <;> cases w <;> first | exact ⟨_, _, rfl, rfl⟩ | exact Dbl.noConfusion e

theorem finite_mul {v : Dbl} {y x : ℝ} (h : R.arith.mul (.fin y) v = .fin x) : ∃ z, v = .fin z := by
  obtain ⟨s, e⟩ := R.finite_of_apply h
  have inf : ∀ r : ℝ, infTimes r ≠ .fin s := by
    intro r
    unfold infTimes
    split
    · exact Dbl.noConfusion
    split <;> exact Dbl.noConfusion
  have inf' : ∀ r : ℝ, -infTimes r ≠ .fin s := by
    intro r
    unfold infTimes
    split
    · exact Dbl.noConfusion
    split <;> exact Dbl.noConfusion
  cases v with
  | fin z => exact ⟨z, rfl⟩
  | nan => exact Dbl.noConfusion e
  | pinf => exact absurd e (inf _)
  | ninf => first | exact absurd e (inf _) | exact absurd e (inf' _)

theorem finite_div {v : Dbl} {c x : ℝ} (h : R.arith.div v (.fin c) = .fin x) : ∃ z, v = .fin z := by
  obtain ⟨s, e⟩ := R.finite_of_apply h
  cases v with
  | fin z => exact ⟨z, rfl⟩
  | nan => exact Dbl.noConfusion e
  | pinf => rw [pinf_div_fin] at e; split at e <;> exact Dbl.noConfusion e
  | ninf => rw [ninf_div_fin] at e; split at e <;> exact Dbl.noConfusion e

variable {R} {u : ℝ}

theorem Relative.of (hR : R.Relative u) {x y : ℝ} (h : R.rnd x = .fin y) : |y - x| ≤ u * |x| := by
  obtain ⟨z, e, hz⟩ := hR x
  rw [h] at e
  cases e
  exact hz

theorem Relative.add (hu : 0 ≤ u) (hR : R.Relative u) {k l : ℕ} {x y v w r X Y : ℝ} (h : Near u k x v X) (h' : Near u l y w Y)
    (e : R.arith.add (.fin v) (.fin w) = .fin r) : Near u (max k l + 1) (x + y) r (X + Y) := by
  rw [add_apply] at e
  exact (h.add hu h').round hu (hR.of e)

theorem Relative.sub (hu : 0 ≤ u) (hR : R.Relative u) {k l : ℕ} {x y v w r X Y : ℝ} (h : Near u k x v X) (h' : Near u l y w Y)
    (e : R.arith.sub (.fin v) (.fin w) = .fin r) : Near u (max k l + 1) (x - y) r (X + Y) := by
  rw [sub_apply] at e
  exact (h.sub hu h').round hu (hR.of e)

theorem Relative.mul (hu : 0 ≤ u) (hR : R.Relative u) {k l : ℕ} {x y v w r X Y : ℝ} (h : Near u k x v X) (h' : Near u l y w Y)
    (e : R.arith.mul (.fin v) (.fin w) = .fin r) : Near u (k + l + 1) (x * y) r (X * Y) := by
  rw [mul_apply] at e
  exact (h.mul hu h').round hu (hR.of e)

theorem Relative.div (hu : 0 ≤ u) (hR : R.Relative u) {k : ℕ} {x v r X c : ℝ} (h : Near u k x v X) (hc : 0 < c)
    (e : R.arith.div (.fin v) (.fin c) = .fin r) : Near u (k + 1) (x / c) r (X / c) := by
  rw [div_apply _ hc.ne'] at e
  exact (h.div hc).round hu (hR.of e)

variable (R) in
theorem lit_four : R.arith.lit 4 = .fin 4 := by exact_mod_cast R.lit_nat 4 (by norm_num)
variable (R) in
theorem lit_six : R.arith.lit 6 = .fin 6 := by exact_mod_cast R.lit_nat 6 (by norm_num)
variable (R) in
theorem lit_fifteen : R.arith.lit 15 = .fin 15 := by exact_mod_cast R.lit_nat 15 (by norm_num)

/-- Simpson's rule in rounded arithmetic: six roundings. -/
theorem Relative.quad (hu : 0 ≤ u) (hR : R.Relative u) {a b r : ℝ} {fa fb fc : Dbl} (hab : a ≤ b)
    (e : quad R.arith (.fin a) (.fin b) fa fb fc = .fin r) :
    ∃ va vb vc : ℝ, fa = .fin va ∧ fb = .fin vb ∧ fc = .fin vc ∧
      Near u 6 ((b - a) / 6 * (va + 4 * vc + vb)) r ((b - a) / 6 * (|va| + 4 * |vc| + |vb|)) := by
  unfold MaqF.quad at e
  rw [R.lit_four, R.lit_six] at e
  obtain ⟨w, ew, -⟩ := hR (b - a)
  have ew' : R.arith.sub (.fin b) (.fin a) = .fin w := by rw [sub_apply]; exact ew
  obtain ⟨w6, e6, -⟩ := hR (w / 6)
  have e6' : R.arith.div (.fin w) (.fin 6) = .fin w6 := by rw [div_apply _ (by norm_num)]; exact e6
  rw [ew', e6'] at e
  obtain ⟨s, es⟩ := R.finite_mul e
  obtain ⟨p, vb, ep, rfl⟩ := R.finite_add es
  obtain ⟨va, q, rfl, eq⟩ := R.finite_add ep
  obtain ⟨vc, rfl⟩ := R.finite_mul eq
  rw [es] at e
  rw [ep] at es
  rw [eq] at ep
  have n1 := hR.sub hu (Near.exact hu 0 b) (Near.exact hu 0 a) ew'
  have n1' : Near u 1 (b - a) w (b - a) := by
    refine ⟨?_, by rw [abs_of_nonneg (by linarith)]⟩
    have := hR.of ew
    rw [abs_of_nonneg (show 0 ≤ b - a by linarith)] at this
    simpa using this
  have n2 := hR.div hu n1' (by norm_num : (0 : ℝ) < 6) e6'
  have n3 := hR.mul hu (Near.exact hu 0 4) (Near.exact hu 0 vc) eq
  have n4 := hR.add hu (Near.exact hu 0 va) n3 ep
  have n5 := hR.add hu n4 (Near.exact hu 0 vb) es
  have n6 := hR.mul hu n2 n5 e
  refine ⟨va, vb, vc, rfl, rfl, rfl, ?_⟩
  have : |(4 : ℝ)| = 4 := by norm_num
  rw [this] at n6
  exact n6

/-- An accepted region: all five values are finite, and the sum is that of the exact rule with two more roundings. -/
theorem Relative.accept (hu : 0 ≤ u) (hR : R.Relative u) {a b c d e : ℝ} {fa fb fc fd fe I r1 : Dbl} {s : ℝ}
    (hac : a ≤ c) (hcb : c ≤ b) (h1 : r1 = MaqF.quad R.arith (.fin a) (.fin b) fa fb fc)
    (h : R.arith.add (R.arith.add I (R.arith.add (MaqF.quad R.arith (.fin a) (.fin c) fa fc fd) (MaqF.quad R.arith (.fin c) (.fin b) fc fb fe)))
      (R.arith.div (R.arith.sub (R.arith.add (MaqF.quad R.arith (.fin a) (.fin c) fa fc fd) (MaqF.quad R.arith (.fin c) (.fin b) fc fb fe)) r1)
        (R.arith.lit 15)) = .fin s) :
    ∃ (i : ℝ) (t : Tile), I = .fin i ∧ t.a = a ∧ t.d = d ∧ t.c = c ∧ t.e = e ∧ t.b = b ∧ fa = .fin t.va ∧ fd = .fin t.vd ∧
      fc = .fin t.vc ∧ fe = .fin t.ve ∧ fb = .fin t.vb ∧
      ∀ k x X, 8 ≤ k → Near u k x i X → Near u (k + 2) (x + t.rule) s (X + t.size) := by
  obtain ⟨p, q, ep, eq⟩ := R.finite_add h
  obtain ⟨i, q2, rfl, e2⟩ := R.finite_add ep
  rw [R.lit_fifteen] at eq h
  obtain ⟨δ, eδ⟩ := R.finite_div eq
  obtain ⟨q2', q1, e2', e1⟩ := R.finite_sub eδ
  rw [e2] at e2'
  cases e2'
  obtain ⟨r2, r3, er2, er3⟩ := R.finite_add e2
  rw [h1] at e1
  obtain ⟨va, vc, vd, rfl, rfl, rfl, n2⟩ := hR.quad hu hac er2
  obtain ⟨vc', vb, ve, e', rfl, rfl, n3⟩ := hR.quad hu hcb er3
  cases e'
  obtain ⟨va', vb', vc', e', e'', e''', n1⟩ := hR.quad hu (hac.trans hcb) e1
  cases e'; cases e''; cases e'''
  refine ⟨i, ⟨a, d, c, e, b, va, vd, vc, ve, vb⟩, rfl, rfl, rfl, rfl, rfl, rfl, rfl, rfl, rfl, rfl, rfl, fun k x X hk hI => ?_⟩
  rw [ep, eq] at h
  rw [eδ] at eq
  rw [h1, e2, e1] at eδ
  rw [e2] at ep
  rw [er2, er3] at e2
  have m2 := hR.add hu n2 n3 e2
  have m3 := hR.sub hu m2 n1 eδ
  have m4 := hR.div hu m3 (by norm_num : (0 : ℝ) < 15) eq
  have m5 := hR.add hu hI m2 ep
  have m6 := hR.add hu m5 m4 h
  have m7 := m6.mono hu (show _ ≤ k + 2 by simp only [max_def]; split_ifs <;> omega)
  rw [add_assoc x, add_assoc X] at m7
  exact m7

/-- Once lost, the sum stays non-finite. -/
theorem lost {I v w : Dbl} {s : ℝ} (h : R.arith.add (R.arith.add I v) w = .fin s) : ∃ i, I = .fin i := by
  obtain ⟨p, q, ep, -⟩ := R.finite_add h
  obtain ⟨i, -, e, -⟩ := R.finite_add ep
  exact ⟨i, e⟩

/-- Values computed at abscissae are the samples, when finite. -/
theorem sample_left (f : Dbl → Dbl) (t : ℝ) : transformedLeft R.arith f (.fin t) = R.sample f t := by
  unfold transformedLeft sample xFromT
  have hz : R.arith.isZero (.fin t) ↔ t = 0 := Iff.rfl
  by_cases h : t = 0
  · rw [if_pos (hz.2 h), if_pos (hz.2 h), if_pos h, R.lit_one]; rfl
  · rw [if_neg (fun h' => h (hz.1 h')), if_neg (fun h' => h (hz.1 h')), if_neg h, R.lit_one, mul_apply]

theorem sample_inner (f : Dbl → Dbl) (t v : ℝ) (h : transformed R.arith f (.fin t) = .fin v) : R.sample f t = .fin v := by
  rw [← sample_left, ← h]
  unfold transformedLeft transformed
  have hz : R.arith.isZero (.fin t) ↔ t = 0 := Iff.rfl
  by_cases h0 : t = 0
  · exfalso
    subst h0
    unfold transformed at h
    rw [mul_apply, mul_zero, show R.rnd 0 = .fin 0 from R.rep_zero] at h
    obtain ⟨z, ez⟩ := R.finite_div h
    rw [ez] at h
    obtain ⟨y, ey⟩ := R.finite_of_apply h
    rw [fin_div, if_pos rfl] at ey
    unfold infTimes at ey
    split at ey
    · exact Dbl.noConfusion ey
    split at ey <;> exact Dbl.noConfusion ey
  · rw [if_neg (fun h' => h0 (hz.1 h'))]

/-! ### The main loop -/

/-- Intervals following each other. -/
def Chain : ℝ → ℝ → List (ℝ × ℝ) → Prop
  | a, b, [] => a = b
  | a, b, (x, z) :: l => x = a ∧ x ≤ z ∧ Chain z b l

theorem chain_split {a b x z m : ℝ} {l₁ l₂ : List (ℝ × ℝ)} (h : Chain a b (l₁ ++ (x, z) :: l₂)) (h1 : x ≤ m) (h2 : m ≤ z) :
    Chain a b (l₁ ++ (x, m) :: (m, z) :: l₂) := by
  induction l₁ generalizing a with
  | nil =>
    obtain ⟨rfl, -, h3⟩ := h
    exact ⟨rfl, h1, rfl, h2, h3⟩
  | cons q l ih =>
    obtain ⟨rfl, h2, h3⟩ := h
    exact ⟨rfl, h2, ih h3⟩

theorem perm_lift {α β : Type} (g : α → β) {l : List β} {m : List β} (h : l.Perm m) :
    ∀ {n : List α}, n.map g = m → ∃ n' : List α, n'.Perm n ∧ n'.map g = l := by
  induction h with
  | nil => intro n hn; exact ⟨n, .refl _, hn⟩
  | cons x _ ih =>
    intro n hn
    cases n with
    | nil => simp at hn
    | cons y n =>
      simp only [List.map_cons, List.cons.injEq] at hn
      obtain ⟨n', p, e⟩ := ih hn.2
      exact ⟨y :: n', p.cons y, by simp [hn.1, e]⟩
  | swap x y l =>
    intro n hn
    match n, hn with
    | [], hn => simp at hn
    | [_], hn => simp at hn
    | p :: q :: n, hn =>
      simp only [List.map_cons, List.cons.injEq] at hn
      exact ⟨q :: p :: n, .swap p q n, by simp [hn.1, hn.2.1, hn.2.2]⟩
  | trans _ _ ih₁ ih₂ =>
    intro n hn
    obtain ⟨n', p, e⟩ := ih₂ hn
    obtain ⟨n'', p', e'⟩ := ih₁ e
    exact ⟨n'', p'.trans p, e'⟩

theorem mid_comm (x y : ℝ) : mid R.arith (.fin x) (.fin y) = mid R.arith (.fin y) (.fin x) := by
  unfold mid
  rw [add_apply, add_apply, add_comm]

/-- A waiting region with the interval `p`. -/
def Waiting (R : Rounding) (f : Dbl → Dbl) (t : Region Dbl) (p : ℝ × ℝ) : Prop :=
  ∃ y, t.a = .fin p.1 ∧ t.c = .fin y ∧ t.b = .fin p.2 ∧ R.Ordered t.a t.c t.b ∧ mid R.arith (.fin p.1) (.fin p.2) = .fin y ∧
    (∀ v, t.fa = .fin v → R.sample f p.1 = .fin v) ∧ (∀ v, t.fb = .fin v → R.sample f p.2 = .fin v) ∧
    (∀ v, t.fc = .fin v → R.sample f y = .fin v) ∧ t.r = MaqF.quad R.arith t.a t.b t.fa t.fb t.fc

/-- The interval of a tile. -/
def iv (t : Tile) : ℝ × ℝ := (t.a, t.b)

/-- A tile as required. -/
def Proper (R : Rounding) (f : Dbl → Dbl) (t : Tile) : Prop :=
  t.a ≤ t.d ∧ t.d ≤ t.c ∧ t.c ≤ t.e ∧ t.e ≤ t.b ∧ R.Halved t ∧ R.Sampled f t

/-- The invariant of the main loop. -/
def Accumulated (R : Rounding) (u : ℝ) (f : Dbl → Dbl) (a b : ℝ) (s : LoopState Dbl) : Prop :=
  ∃ (waiting done leaves : List (ℝ × ℝ)), List.Forall₂ (Waiting R f) s.stack waiting ∧ Chain a b leaves ∧
    leaves.Perm (done ++ waiting) ∧
    ∀ i, s.integral = .fin i → ∃ tiles : List Tile, tiles.map iv = done ∧ (∀ t ∈ tiles, Proper R f t) ∧
      Near u (8 + 2 * tiles.length) (tiles.map Tile.rule).sum i (tiles.map Tile.size).sum

theorem loopStep_accumulated (hu : 0 ≤ u) (hR : R.Relative u) (f : Dbl → Dbl) (tol : Dbl) (maxeval : ℕ) (a b : ℝ)
    (s s' : LoopState Dbl) (hs : Accumulated R u f a b s) (h : loopStep R.arith f tol maxeval s = .inl s') :
    Accumulated R u f a b s' := by
  obtain ⟨stack, I, k, calls⟩ := s
  obtain ⟨waiting, done, leaves, hw, hc, hp, hI⟩ := hs
  dsimp only at hw hI
  cases stack with
  | nil => simp [loopStep] at h
  | cons t rest =>
    cases hw with
    | @cons _ p _ rest' ht hrest =>
    obtain ⟨y, ea, ec, eb, ho, hm, sa, sb, sc, hr⟩ := ht
    obtain ⟨ta, tb, tc, fa, fb, fc, r⟩ := t
    obtain ⟨x, z⟩ := p
    dsimp only at ea ec eb ho hm sa sb sc hr
    subst ea ec eb
    obtain ⟨x', y', z', e1, e2, e3, h0, h1, h2, h3, rx, ry, rz⟩ := ho
    cases e1; cases e2; cases e3
    obtain ⟨d, ed, ed', d1, d2, rd⟩ := R.mid_between rx ry h0 h1 (h2.trans h3)
    obtain ⟨e, ee', ee, e1, e2, re⟩ := R.mid_between ry rz (h0.trans h1) h2 h3
    have hd := sample_inner (R := R) f d
    have he := sample_inner (R := R) f e
    obtain ⟨l₁, l₂, rfl⟩ : ∃ l₁ l₂, leaves = l₁ ++ (x, z) :: l₂ := List.append_of_mem (hp.mem_iff.2 (by simp))
    have hp' : (l₁ ++ l₂).Perm (done ++ rest') := by
      have q1 : ((x, z) :: (l₁ ++ l₂)).Perm ((x, z) :: (done ++ rest')) :=
        List.perm_middle.symm.trans (hp.trans List.perm_middle)
      exact q1.cons_inv
    have hsplit := chain_split hc h1 h2
    have hsplitP : (l₁ ++ (x, y) :: (y, z) :: l₂).Perm (done ++ (x, y) :: (y, z) :: rest') := by
      have q1 : (l₁ ++ (x, y) :: (y, z) :: l₂).Perm ((x, y) :: (y, z) :: (l₁ ++ l₂)) :=
        List.perm_middle.trans (List.Perm.cons _ List.perm_middle)
      have q2 : (done ++ (x, y) :: (y, z) :: rest').Perm ((x, y) :: (y, z) :: (done ++ rest')) :=
        List.perm_middle.trans (List.Perm.cons _ List.perm_middle)
      exact q1.trans (((hp'.cons _).cons _).trans q2.symm)
    have hsplitP' : (l₁ ++ (x, y) :: (y, z) :: l₂).Perm (done ++ (y, z) :: (x, y) :: rest') :=
      hsplitP.trans (List.Perm.append_left _ (.swap _ _ _))
    have wl : Waiting R f ⟨.fin x, .fin y, mid R.arith (.fin x) (.fin y), fa, fc, transformed R.arith f (mid R.arith (.fin x) (.fin y)),
        MaqF.quad R.arith (.fin x) (.fin y) fa fc (transformed R.arith f (mid R.arith (.fin x) (.fin y)))⟩ (x, y) := by
      refine ⟨d, rfl, ed, rfl, ⟨x, d, y, rfl, ed, rfl, h0, d1, d2, h2.trans h3, rx, rd, ry⟩, ed, sa, sc, ?_, rfl⟩
      intro v hv
      dsimp only at hv
      rw [ed] at hv
      exact hd v hv
    have wr : Waiting R f ⟨.fin y, .fin z, mid R.arith (.fin z) (.fin y), fc, fb, transformed R.arith f (mid R.arith (.fin z) (.fin y)),
        MaqF.quad R.arith (.fin y) (.fin z) fc fb (transformed R.arith f (mid R.arith (.fin z) (.fin y)))⟩ (y, z) := by
      refine ⟨e, rfl, ee, rfl, ⟨y, e, z, rfl, ee, rfl, h0.trans h1, e1, e2, h3, ry, re, rz⟩, ee', sc, sb, ?_, rfl⟩
      intro v hv
      dsimp only at hv
      rw [ee] at hv
      exact he v hv
    simp only [loopStep] at h
    split at h
    · simp at h
    split at h
    · simp at h
    split at h
    · simp at h
    split at h
    · rw [Sum.inl.injEq] at h
      subst h
      refine ⟨rest', done ++ [(x, z)], _, hrest, hc, by simpa using hp, fun i' hi' => ?_⟩
      dsimp only at hi'
      have hmd : R.arith.div (R.arith.add (.fin x) (.fin y)) (R.arith.lit 2) = .fin d := ed
      have hme : R.arith.div (R.arith.add (.fin z) (.fin y)) (R.arith.lit 2) = .fin e := ee
      rw [hmd, hme] at hi'
      obtain ⟨i, t, rfl, t1, t2, t3, t4, t5, va, vd, vc, ve, vb, key⟩ := hR.accept hu (d := d) (e := e) h1 h2 hr hi'
      obtain ⟨tiles, g1, g2, g3⟩ := hI i rfl
      refine ⟨tiles ++ [t], by simp [g1, iv, t1, t5], ?_, ?_⟩
      · intro t' ht'
        rcases List.mem_append.1 ht' with h' | h'
        · exact g2 t' h'
        · rw [List.mem_singleton] at h'
          subst h'
          refine ⟨by rw [t1, t2]; exact d1, by rw [t2, t3]; exact d2, by rw [t3, t4]; exact e1, by rw [t4, t5]; exact e2, ⟨?_, ?_, ?_⟩,
            ?_, ?_, ?_, ?_, ?_⟩
          · rw [t1, t5, t3, ← R.lit_two]; exact hm
          · rw [t1, t3, t2, ← R.lit_two]; exact ed
          · rw [t3, t5, t4, ← R.lit_two]; exact ee'
          · rw [t1]; exact sa _ va
          · rw [t2]; exact hd _ vd
          · rw [t3]; exact sc _ vc
          · rw [t4]; exact he _ ve
          · rw [t5]; exact sb _ vb
      · have := key _ _ _ (by omega) g3
        simp only [List.map_append, List.map_cons, List.map_nil, List.sum_append, List.sum_cons, List.sum_nil, add_zero,
          List.length_append, List.length_cons, List.length_nil]
        exact this
    split at h
    · rw [Sum.inl.injEq] at h
      subst h
      exact ⟨(x, y) :: (y, z) :: rest', done, _, .cons wl (.cons wr hrest), hsplit, hsplitP, hI⟩
    · rw [Sum.inl.injEq] at h
      subst h
      exact ⟨(y, z) :: (x, y) :: rest', done, _, .cons wr (.cons wl hrest), hsplit, hsplitP', hI⟩

theorem joined_of_chain {a b : ℝ} {tiles : List Tile} (h : Chain a b (tiles.map iv)) (f : Dbl → Dbl)
    (hp : ∀ t ∈ tiles, Proper R f t) : Joined a b tiles := by
  induction tiles generalizing a with
  | nil => exact h
  | cons t l ih =>
    obtain ⟨h1, -, h3⟩ := h
    obtain ⟨p1, p2, p3, p4, -⟩ := hp t (by simp)
    exact ⟨h1, p1, p2, p3, p4, ih h3 (fun t' ht' => hp t' (by simp [ht']))⟩

theorem loop_accumulated (hu : 0 ≤ u) (hR : R.Relative u) (f : Dbl → Dbl) (tol : Dbl) (maxeval : ℕ) {a b : Dbl} (n fuel : ℕ)
    (hab : R.geometry.V a b) {rep : Report Dbl} {i : ℝ}
    (h : iter (loopStep R.arith f tol maxeval) fuel (start R.arith f a b n) = some rep) (hi : rep.integral = .fin i) :
    ∃ (x z : ℝ) (tiles : List Tile), a = .fin x ∧ b = .fin z ∧ 0 ≤ x ∧ x ≤ z ∧ z ≤ 1 ∧ Joined x z tiles ∧ (∀ t ∈ tiles, R.Halved t ∧ R.Sampled f t) ∧
      |i - (tiles.map Tile.rule).sum| ≤ ((1 + u) ^ (8 + 2 * tiles.length) - 1) * (tiles.map Tile.size).sum := by
  obtain ⟨x, y, z, e1, e2, e3, h0, h1, h2, h3, rx, ry, rz⟩ := id hab
  subst e1 e3
  refine ⟨x, z, ?_⟩
  have post := iter_inv (step := loopStep R.arith f tol maxeval) (Accumulated R u f x z)
    (fun r => ∀ i, r.integral = .fin i → ∃ tiles : List Tile, Chain x z (tiles.map iv) ∧ (∀ t ∈ tiles, Proper R f t) ∧
      Near u (8 + 2 * tiles.length) (tiles.map Tile.rule).sum i (tiles.map Tile.size).sum)
    (fun s s' hs hst => loopStep_accumulated hu hR f tol maxeval x z s s' hs hst)
    (fun s r hs hst i hi => by
      obtain ⟨stack, I, k, calls⟩ := s
      cases stack with
      | nil =>
        simp only [loopStep, Sum.inr.injEq] at hst
        subst hst
        obtain ⟨waiting, done, leaves, hw, hc, hp, hI⟩ := hs
        cases hw
        obtain ⟨tiles, g1, g2, g3⟩ := hI i hi
        rw [List.append_nil] at hp
        obtain ⟨tiles', q1, q2⟩ := perm_lift iv hp g1
        refine ⟨tiles', by rw [q2]; exact hc, fun t ht => g2 t (q1.mem_iff.1 ht), ?_⟩
        rw [q1.length_eq, (q1.map Tile.rule).sum_eq, (q1.map Tile.size).sum_eq]
        exact g3
      | cons t rest =>
        simp only [loopStep] at hst
        split at hst
        · rw [Sum.inr.injEq] at hst; subst hst; exact Dbl.noConfusion hi
        split at hst
        · rw [Sum.inr.injEq] at hst; subst hst; exact Dbl.noConfusion hi
        split at hst
        · rw [Sum.inr.injEq] at hst; subst hst; exact Dbl.noConfusion hi
        split at hst
        · simp at hst
        split at hst <;> simp at hst)
    (s := start R.arith f (.fin x) (.fin z) n) ?_ h i hi
  · obtain ⟨tiles, g1, g2, g3⟩ := post
    exact ⟨tiles, rfl, rfl, h0, h1.trans h2, h3, joined_of_chain g1 f g2, fun t ht => ⟨(g2 t ht).2.2.2.2.1, (g2 t ht).2.2.2.2.2⟩, g3.1⟩
  · refine ⟨[(x, z)], [], [(x, z)], .cons ⟨y, rfl, e2, rfl, hab, e2, ?_, ?_, ?_, rfl⟩ .nil, ⟨rfl, h1.trans h2, rfl⟩, .refl _, ?_⟩
    · intro v hv
      rw [← hv]
      exact (sample_left f x).symm
    · exact fun v hv => sample_inner f z v hv
    · intro v hv
      dsimp only [start] at hv
      rw [e2] at hv
      exact sample_inner f y v hv
    · intro i hi
      have : i = 0 := by
        have : R.arith.lit 0 = .fin i := hi
        rw [R.lit_zero] at this
        exact ((fin_inj _ _).1 this).symm
      subst this
      refine ⟨[], rfl, by simp, ?_⟩
      simp [Near]

end Rounding

end Slat.MaqF
