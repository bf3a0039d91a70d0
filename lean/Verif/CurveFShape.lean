import Verif.CurveFLemmas

/-!
# Pieces of the curves in machine arithmetic (helper file for C79)
-/

namespace Slat.CurveF

open Dbl

noncomputable section

set_option linter.unusedSectionVars false

variable {C : Platform} (hC : Laws C)
include hC

theorem div_fin_eq {x y : ℝ} (hy : y ≠ 0) : C.div (.fin x) (.fin y) = C.rnd (x / y) := by
  rw [LnF.Machine.div, fin_div_of_ne hy]; rfl
theorem sub_fin_eq (x y : ℝ) : C.sub (.fin x) (.fin y) = C.rnd (x - y) := by
  rw [LnF.Machine.sub, fin_sub]; rfl
theorem mul_fin_eq (x y : ℝ) : C.mul (.fin x) (.fin y) = C.rnd (x * y) := rfl
theorem add_fin_eq (x y : ℝ) : C.add (.fin x) (.fin y) = C.rnd (x + y) := rfl

/-! ## The hyperbolic law -/

/-- Arguments below the asymptote: the quotient stays below one. -/
theorem quotient_ok {x im : ℝ} (hx : Rep C x) (hi : Rep C im) (h0 : 0 ≤ x) (h1 : x < im) :
    ∃ q, C.div (.fin x) (.fin im) = .fin q ∧ 0 ≤ q ∧ q < 1 ∧ Rep C q := by
  have i0 : 0 < im := h0.trans_lt h1
  rw [div_fin_eq hC i0.ne']
  rcases h0.eq_or_lt with rfl | h0
  · rw [zero_div]; exact ⟨0, hC.zero, le_rfl, one_pos, hC.zero⟩
  · obtain ⟨q, e, hq⟩ := hC.below x im hx hi h0 h1
    obtain ⟨w, e', w0, -, r⟩ := between hC hC.zero hC.one (div_nonneg h0.le i0.le) ((div_le_one i0).2 h1.le)
    have : q = w := by rw [e, fin_inj] at e'; exact e'
    subst this
    exact ⟨q, e, w0, hq, r⟩

/-- The logarithm of a number below one. -/
def Neg (v : Dbl) : Prop := v = .ninf ∨ ∃ l < 0, v = .fin l

theorem log_below {q : ℝ} (h0 : 0 ≤ q) (h1 : q < 1) (hq : Rep C q) : Neg (C.log (.fin q)) := by
  unfold LnF.Machine.log
  dsimp only
  rcases h0.eq_or_lt with rfl | h0
  · rw [if_neg (lt_irrefl _), Dbl.log_zero]; exact Or.inl rfl
  · rw [if_pos h0]
    obtain ⟨l, e, -⟩ := hC.logRounded q h0 hq
    have := hC.logNeg q h0 h1 hq
    rw [e] at this
    exact Or.inr ⟨l, this, e⟩

theorem exponent_ok {al : ℝ} (ha : 0 ≤ al) {v : Dbl} (hv : Neg v) : C.div (.fin al) v ≤ .fin 0 := by
  rcases hv with rfl | ⟨l, hl, rfl⟩
  · have : C.div (.fin al) .ninf = C.rnd 0 := rfl
    rw [this, hC.zero, fin_le]
  · rw [div_fin_eq hC hl.ne]
    have := hC.mono _ _ (div_nonpos_of_nonneg_of_nonpos ha hl.le)
    rwa [hC.zero] at this

theorem exponent_anti {al : ℝ} (ha : 0 ≤ al) {v w : Dbl} (hv : Neg v) (hw : Neg w) (h : v ≤ w) :
    C.div (.fin al) w ≤ C.div (.fin al) v := by
  rcases hv with rfl | ⟨l, hl, rfl⟩
  · have : C.div (.fin al) .ninf = C.rnd 0 := rfl
    rw [this, hC.zero]
    exact exponent_ok hC ha hw
  · rcases hw with rfl | ⟨m, hm, rfl⟩
    · exact absurd h (not_fin_le_ninf _)
    · rw [div_fin_eq hC hl.ne, div_fin_eq hC hm.ne]
      refine hC.mono _ _ ?_
      rw [fin_le] at h
      have := div_le_div_of_nonneg_left ha (neg_pos.2 hm) (neg_le_neg h)
      rw [div_neg, div_neg] at this
      linarith

theorem exp_unit {z : Dbl} (hz : z ≤ .fin 0) : ∃ e, C.exp z = .fin e ∧ 0 ≤ e ∧ e ≤ 1 := by
  have h1 := exp_mono hC hz
  have h0 := exp_nonneg hC (not_nan_left hz)
  have : C.exp (.fin 0) = .fin 1 := hC.expZero
  rw [this] at h1
  exact sandwich h0 h1

/-- A number times a factor of the unit interval. -/
theorem scaled {v e : ℝ} (hv : Rep C v) (h : 0 ≤ v) (h0 : 0 ≤ e) (h1 : e ≤ 1) :
    ∃ w, C.mul (.fin v) (.fin e) = .fin w ∧ 0 ≤ w ∧ w ≤ v ∧ Rep C w :=
  between hC hC.zero hv (mul_nonneg h h0) (mul_le_of_le_one_right h h1)

/-! ## Interpolation -/

/-- An interval of a table: numbers of the format, in order, with finite differences. -/
structure Cell (C : Platform) (p q : ℝ × ℝ) : Prop where
  lt : p.1 < q.1
  px : Rep C p.1
  qx : Rep C q.1
  py : Rep C p.2
  qy : Rep C q.2
  dx : ∃ d, C.rnd (q.1 - p.1) = .fin d
  dy : ∃ d, C.rnd (q.2 - p.2) = .fin d

omit hC in
/-- A point of a table. -/
def pt (p : ℝ × ℝ) : Dbl × Dbl := (.fin p.1, .fin p.2)

/-- Differences of numbers that are not negative are finite. -/
theorem cell_of_nonneg {p q : ℝ × ℝ} (h : p.1 < q.1) (px : Rep C p.1) (qx : Rep C q.1) (py : Rep C p.2) (qy : Rep C q.2)
    (h0 : 0 ≤ p.1) (h1 : 0 ≤ p.2) (h2 : 0 ≤ q.2) : Cell C p q := by
  refine ⟨h, px, qx, py, qy, ?_, ?_⟩
  · obtain ⟨w, e, -⟩ := between hC hC.zero qx (show 0 ≤ q.1 - p.1 by linarith) (by linarith)
    exact ⟨w, e⟩
  · obtain ⟨w, e, -⟩ := between hC (hC.minus _ py) qy (show -p.2 ≤ q.2 - p.2 by linarith) (by linarith)
    exact ⟨w, e⟩

/-- The weight of the right end, in machine arithmetic. -/
theorem weight_ok {p q : ℝ × ℝ} (hc : Cell C p q) : ∃ d, C.rnd (q.1 - p.1) = .fin d ∧ 0 < d ∧ ∃ t : ℝ → ℝ,
    (∀ x, p.1 ≤ x → x ≤ q.1 → C.div (C.sub (.fin x) (.fin p.1)) (.fin d) = .fin (t x) ∧ 0 ≤ t x ∧ t x ≤ 1) ∧
    (∀ x y, p.1 ≤ x → x ≤ y → y ≤ q.1 → t x ≤ t y) ∧ t p.1 = 0 ∧ t q.1 = 1 := by
  obtain ⟨d, ed⟩ := hc.dx
  have d0 : 0 < d := by
    have := hC.apart _ _ hc.px hc.qx hc.lt
    rwa [ed, fin_lt] at this
  have rd : Rep C d := hC.idem _ _ ed
  have key : ∀ x, ∃ t : ℝ, p.1 ≤ x → x ≤ q.1 → ∃ s, C.rnd (x - p.1) = .fin s ∧ C.rnd (s / d) = .fin t ∧ 0 ≤ t ∧ t ≤ 1 := by
    intro x
    by_cases h : p.1 ≤ x ∧ x ≤ q.1
    · have a := hC.mono 0 (x - p.1) (by linarith)
      have b := hC.mono (x - p.1) (q.1 - p.1) (by linarith)
      rw [hC.zero] at a
      rw [ed] at b
      obtain ⟨s, es, s0, s1⟩ := sandwich a b
      obtain ⟨t, et, t0, t1, -⟩ := between hC hC.zero hC.one (div_nonneg s0 d0.le) ((div_le_one d0).2 s1)
      exact ⟨t, fun _ _ => ⟨s, es, et, t0, t1⟩⟩
    · exact ⟨0, fun h1 h2 => absurd ⟨h1, h2⟩ h⟩
  choose t ht using key
  refine ⟨d, ed, d0, t, fun x h1 h2 => ?_, fun x y h1 h2 h3 => ?_, ?_, ?_⟩
  · obtain ⟨s, es, et, t0, t1⟩ := ht x h1 h2
    rw [sub_fin_eq hC, es, div_fin_eq hC d0.ne', et]
    exact ⟨rfl, t0, t1⟩
  · obtain ⟨s, es, et, -⟩ := ht x h1 (h2.trans h3)
    obtain ⟨s', es', et', -⟩ := ht y (h1.trans h2) h3
    have a := hC.mono (x - p.1) (y - p.1) (by linarith)
    rw [es, es', fin_le] at a
    have b := hC.mono (s / d) (s' / d) (by gcongr)
    rwa [et, et', fin_le] at b
  · obtain ⟨s, es, et, -⟩ := ht p.1 le_rfl hc.lt.le
    rw [sub_self, hC.zero, fin_inj] at es
    subst es
    rw [zero_div, hC.zero, fin_inj] at et
    exact et.symm
  · obtain ⟨s, es, et, -⟩ := ht q.1 hc.lt.le le_rfl
    rw [ed, fin_inj] at es
    subst es
    rw [div_self d0.ne', hC.one, fin_inj] at et
    exact et.symm

/-- The value on an interval: a rounded step from the left end. -/
theorem cell_value {p q : ℝ × ℝ} (hc : Cell C p q) : ∃ (E : ℝ) (W : ℝ → ℝ), C.rnd (q.2 - p.2) = .fin E ∧
    (∀ x, p.1 ≤ x → x ≤ q.1 → C.cell (pt p) (pt q) (.fin x) = C.rnd (p.2 + W x)) ∧
    (∀ x, p.1 ≤ x → x ≤ q.1 → min 0 E ≤ W x ∧ W x ≤ max 0 E) ∧ W p.1 = 0 ∧ W q.1 = E ∧
    (0 ≤ E → ∀ x y, p.1 ≤ x → x ≤ y → y ≤ q.1 → W x ≤ W y) ∧ (E ≤ 0 → ∀ x y, p.1 ≤ x → x ≤ y → y ≤ q.1 → W y ≤ W x) := by
  obtain ⟨d, ed, d0, t, h1, h2, h3, h4⟩ := weight_ok hC hc
  obtain ⟨E, eE⟩ := hc.dy
  have rE : Rep C E := hC.idem _ _ eE
  have key : ∀ x, ∃ w : ℝ, p.1 ≤ x → x ≤ q.1 → C.rnd (t x * E) = .fin w ∧ min 0 E ≤ w ∧ w ≤ max 0 E := by
    intro x
    by_cases h : p.1 ≤ x ∧ x ≤ q.1
    · obtain ⟨-, t0, t1⟩ := h1 x h.1 h.2
      rcases le_total 0 E with k | k
      · obtain ⟨w, e, w0, w1, -⟩ := between hC hC.zero rE (mul_nonneg t0 k) (mul_le_of_le_one_left k t1)
        exact ⟨w, fun _ _ => ⟨e, by rwa [min_eq_left k], by rwa [max_eq_right k]⟩⟩
      · obtain ⟨w, e, w0, w1, -⟩ := between hC rE hC.zero (by nlinarith : E ≤ t x * E) (mul_nonpos_of_nonneg_of_nonpos t0 k)
        exact ⟨w, fun _ _ => ⟨e, by rwa [min_eq_right k], by rwa [max_eq_left k]⟩⟩
    · exact ⟨0, fun h1 h2 => absurd ⟨h1, h2⟩ h⟩
  choose W hW using key
  refine ⟨E, W, eE, fun x a b => ?_, fun x a b => (hW x a b).2, ?_, ?_, fun k x y a b c => ?_, fun k x y a b c => ?_⟩
  · have e1 : C.sub (pt q).1 (pt p).1 = .fin d := by rw [pt, pt, sub_fin_eq hC, ed]
    have e2 : C.sub (pt q).2 (pt p).2 = .fin E := by rw [pt, pt, sub_fin_eq hC, eE]
    rw [Platform.cell, e1, e2, if_pos (show (0 : Dbl) < .fin d from (fin_lt _ _).2 d0)]
    rw [pt]
    rw [(h1 x a b).1, mul_fin_eq hC, (hW x a b).1, add_fin_eq hC]
  · have := (hW p.1 le_rfl hc.lt.le).1
    rw [h3, zero_mul, hC.zero, fin_inj] at this
    exact this.symm
  · have := (hW q.1 hc.lt.le le_rfl).1
    rw [h4, one_mul, rE, fin_inj] at this
    exact this.symm
  · have := hC.mono _ _ (mul_le_mul_of_nonneg_right (h2 x y a b c) k)
    rwa [(hW x a (b.trans c)).1, (hW y (a.trans b) c).1, fin_le] at this
  · have := hC.mono _ _ (mul_le_mul_of_nonpos_right (h2 x y a b c) k)
    rwa [(hW x a (b.trans c)).1, (hW y (a.trans b) c).1, fin_le] at this

/-- The sign of the difference survives. -/
theorem step_sign {p q : ℝ × ℝ} {E : ℝ} (eE : C.rnd (q.2 - p.2) = .fin E) : (p.2 ≤ q.2 → 0 ≤ E) ∧ (q.2 ≤ p.2 → E ≤ 0) := by
  constructor <;> intro h
  · have := hC.mono 0 (q.2 - p.2) (by linarith)
    rwa [hC.zero, eE, fin_le] at this
  · have := hC.mono (q.2 - p.2) 0 (by linarith)
    rwa [hC.zero, eE, fin_le] at this

omit hC in
/-- Which interval is used. -/
theorem interp_at (l : List (ℝ × ℝ)) (p q : ℝ × ℝ) (r : List (ℝ × ℝ)) (hs : (l ++ p :: q :: r).Pairwise (fun a b => a.1 < b.1)) (x : ℝ)
    (h1 : p.1 ≤ x) (h2 : x < q.1 ∨ r = []) : C.interp ((l ++ p :: q :: r).map pt) (.fin x) = C.cell (pt p) (pt q) (.fin x) := by
  induction l with
  | nil =>
    simp only [List.nil_append, List.map_cons, Platform.interp]
    rw [if_pos]
    rcases h2 with h | h
    · exact Or.inl h
    · exact Or.inr (by rw [h]; rfl)
  | cons a l ih =>
    have hs' := (List.pairwise_cons.1 hs).2
    have lt := (List.pairwise_cons.1 hs).1
    cases l with
    | nil =>
      simp only [List.nil_append, List.cons_append, List.map_cons, Platform.interp] at ih ⊢
      rw [if_neg]
      · exact ih hs'
      · rintro (h | h)
        · exact absurd ((fin_lt _ _).1 h) (not_lt.2 h1)
        · cases h
    | cons b l =>
      simp only [List.cons_append, List.map_cons] at ih ⊢
      rw [Platform.interp, if_neg]
      · exact ih hs'
      · rintro (h | h)
        · have hb : b.1 < p.1 := (List.pairwise_cons.1 hs').1 p (by simp)
          exact absurd ((fin_lt _ _).1 h) (not_lt.2 (hb.le.trans h1))
        · simp at h

/-! ## The log-normal law -/

theorem sub_mono {a b : Dbl} {m : ℝ} (h : a ≤ b) : C.sub a (.fin m) ≤ C.sub b (.fin m) := by
  refine fix_mono hC ?_
  rw [le_cases] at h ⊢
  cases a <;> cases b <;> simp_all

theorem div_mono {a b : Dbl} {s : ℝ} (hs : 0 < s) (h : a ≤ b) : C.div a (.fin s) ≤ C.div b (.fin s) := by
  refine fix_mono hC ?_
  have k : ¬ s < 0 := not_lt.2 hs.le
  have e1 : Dbl.pinf / Dbl.fin s = .pinf := by rw [pinf_div_fin, if_neg k]
  have e2 : Dbl.ninf / Dbl.fin s = .ninf := by rw [ninf_div_fin, if_neg k]
  have e3 : ∀ x : ℝ, Dbl.fin x / Dbl.fin s = .fin (x / s) := fun x => fin_div_of_ne hs.ne'
  rw [le_cases] at h ⊢
  cases a <;> cases b <;> (try exact h.elim) <;> simp only [e1, e2, e3]
  exact div_le_div_of_nonneg_right h hs.le

theorem gaussP_mono {a b : Dbl} (h : a ≤ b) : C.gaussP a ≤ C.gaussP b := by
  have n := hC.pNonneg
  have o := hC.pLeOne
  rw [le_cases] at h
  cases a with
  | nan => cases b <;> exact h.elim
  | fin x =>
    cases b with
    | fin y => exact hC.pMono _ _ h
    | pinf => exact o x
    | nan => exact h.elim
    | ninf => exact h.elim
  | pinf => cases b <;> simp_all [Platform.gaussP]
  | ninf =>
    cases b with
    | nan => exact h.elim
    | fin y => exact n y
    | pinf => simp [Platform.gaussP]
    | ninf => simp [Platform.gaussP]

theorem gaussQ_anti {a b : Dbl} (h : a ≤ b) : C.gaussQ b ≤ C.gaussQ a := by
  have n := hC.qNonneg
  have o := hC.qLeOne
  rw [le_cases] at h
  cases a with
  | nan => cases b <;> exact h.elim
  | fin x =>
    cases b with
    | fin y => exact hC.qMono _ _ h
    | pinf => exact n x
    | nan => exact h.elim
    | ninf => exact h.elim
  | pinf => cases b <;> simp_all [Platform.gaussQ]
  | ninf =>
    cases b with
    | nan => exact h.elim
    | fin y => exact o y
    | pinf => simp [Platform.gaussQ]
    | ninf => simp [Platform.gaussQ]

theorem gaussP_unit {a : Dbl} (h : ¬ isNaN a) : ∃ p, C.gaussP a = .fin p ∧ 0 ≤ p ∧ p ≤ 1 ∧ Rep C p := by
  cases a with
  | nan => exact absurd trivial h
  | fin x =>
    obtain ⟨p, e, h0, h1⟩ := sandwich (hC.pNonneg x) (hC.pLeOne x)
    exact ⟨p, e, h0, h1, hC.pRounded x p e⟩
  | pinf => exact ⟨1, rfl, zero_le_one, le_rfl, hC.one⟩
  | ninf => exact ⟨0, rfl, le_rfl, zero_le_one, hC.zero⟩

theorem gaussQ_unit {a : Dbl} (h : ¬ isNaN a) : ∃ p, C.gaussQ a = .fin p ∧ 0 ≤ p ∧ p ≤ 1 := by
  cases a with
  | nan => exact absurd trivial h
  | fin x => exact sandwich (hC.qNonneg x) (hC.qLeOne x)
  | pinf => exact ⟨0, rfl, le_rfl, zero_le_one⟩
  | ninf => exact ⟨1, rfl, zero_le_one, le_rfl⟩

omit hC in
/-- The argument of the Gaussian cdf. -/
def score (C : Platform) (m s : ℝ) (x : Dbl) : Dbl := C.div (C.sub (C.log x) (.fin m)) (.fin s)

theorem score_mono {m s x y : ℝ} (hs : 0 < s) (h0 : 0 ≤ x) (h : x ≤ y) : score C m s (.fin x) ≤ score C m s (.fin y) :=
  div_mono hC hs (sub_mono hC (log_mono hC h0 h))

/-- A larger median gives a smaller score. -/
theorem score_anti {m m' s x : ℝ} (hs : 0 < s) (h0 : 0 ≤ x) (hx : Rep C x) (h : m ≤ m') : score C m' s (.fin x) ≤ score C m s (.fin x) := by
  refine div_mono hC hs (fix_mono hC ?_)
  have : C.log (.fin x) = .ninf ∨ ∃ l, C.log (.fin x) = .fin l := by
    unfold LnF.Machine.log
    dsimp only
    rcases h0.eq_or_lt with rfl | h0
    · rw [if_neg (lt_irrefl _), Dbl.log_zero]; exact Or.inl rfl
    · rw [if_pos h0]
      obtain ⟨l, e, -⟩ := hC.logRounded x h0 hx
      exact Or.inr ⟨l, e⟩
  rcases this with e | ⟨l, e⟩ <;> rw [e]
  · exact Or.inr trivial
  · rw [fin_sub, fin_sub, fin_le]; linarith

theorem pAtMost_eq {m s x : ℝ} (hs : 0 < s) (h0 : 0 ≤ x) : C.pAtMost ⟨.fin m, .fin s⟩ (.fin x) = C.gaussP (score C m s (.fin x)) := by
  obtain ⟨p, e, p0, -⟩ := gaussP_unit hC (not_nan_left (score_mono hC (m := m) hs h0 le_rfl))
  unfold Platform.pAtMost
  simp only [isNaN_fin, and_self, if_false]
  have e' : C.gaussP (C.div (C.sub (C.log (.fin x)) (.fin m)) (.fin s)) = .fin p := e
  rw [e', e, if_neg]
  rw [zero_def, fin_lt]; exact not_lt.2 p0

theorem pAtLeast_eq {m s x : ℝ} (hs : 0 < s) (h0 : 0 ≤ x) : C.pAtLeast ⟨.fin m, .fin s⟩ (.fin x) = C.gaussQ (score C m s (.fin x)) := by
  obtain ⟨p, e, p0, -⟩ := gaussQ_unit hC (not_nan_left (score_mono hC (m := m) hs h0 le_rfl))
  unfold Platform.pAtLeast
  simp only [isNaN_fin, and_self, if_false]
  have e' : C.gaussQ (C.div (C.sub (C.log (.fin x)) (.fin m)) (.fin s)) = .fin p := e
  rw [e', e, if_neg]
  rw [zero_def, fin_lt]; exact not_lt.2 p0

theorem score_zero {m s : ℝ} (hs : 0 < s) : score C m s (.fin 0) = .ninf := by
  have : C.log (.fin 0) = .ninf := by
    unfold LnF.Machine.log
    dsimp only
    rw [if_neg (lt_irrefl _), Dbl.log_zero]
  rw [score, this]
  have : C.sub .ninf (.fin m) = .ninf := rfl
  rw [this, LnF.Machine.div, ninf_div_fin, if_neg (not_lt.2 hs.le)]
  rfl

end

end Slat.CurveF
