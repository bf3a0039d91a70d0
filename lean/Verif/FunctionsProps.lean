import Verif.FunctionsModel
import Mathlib.Data.List.Pairwise
import Mathlib.Topology.Order.Basic

/-!
# Properties of the deterministic functions (C20, C21, C48, C49)
-/

namespace Slat.Functions

open Slat Dbl

/-! ### C20: hyperbolic hazard curve -/

theorem nlh_inside {v im al x : ℝ} (hx : 0 < x) (hxi : x < im) :
    nlh v im al (.fin x) = .fin (v * Real.exp (al / Real.log (x / im))) := by
  have him : 0 < im := hx.trans hxi
  have hq : 0 < x / im := div_pos hx him
  have hl : Real.log (x / im) < 0 := Real.log_neg hq ((div_lt_one him).2 hxi)
  simp [nlh, hxi, fin_div_of_ne him.ne', log_pos hq, fin_div_of_ne hl.ne]

theorem nlh_outside {v im al x : ℝ} (h : im ≤ x) : nlh v im al (.fin x) = .fin 0 := by
  simp [nlh, h]

/-- At zero intensity the curve takes its asymptotic value. -/
theorem nlh_zero {v im al : ℝ} (him : 0 < im) : nlh v im al (.fin 0) = .fin v := by
  have h : Dbl.fin al / Dbl.ninf = .fin 0 := rfl
  simp [nlh, him, fin_div_of_ne him.ne', h]

/-- The hazard curve on the half line as a real function. -/
theorem nlh_is_rate_curve {v im al : ℝ} (hv : 0 < v) (him : 0 < im) (hal : 0 < al) :
    ∃ h : ℝ → ℝ, (∀ x, 0 ≤ x → nlh v im al (.fin x) = .fin (h x)) ∧
      h 0 = v ∧ (∀ x, 0 ≤ x → x < im → 0 < h x) ∧ (∀ x, im ≤ x → h x = 0) ∧
      (∀ x, 0 < x → h x < v) ∧ (∀ x y, 0 ≤ x → x < y → y ≤ im → h y < h x) ∧
      (∀ x y, 0 ≤ x → x ≤ y → h y ≤ h x) := by
  classical
  let h : ℝ → ℝ := fun x => if im ≤ x then 0 else if x = 0 then v else v * Real.exp (al / Real.log (x / im))
  have hout : ∀ x, im ≤ x → h x = 0 := fun x hx => by simp [h, hx]
  have h0 : h 0 = v := by simp [h, him.not_ge]
  have hin : ∀ x, 0 < x → x < im → h x = v * Real.exp (al / Real.log (x / im)) := by
    intro x hx hxi
    simp [h, hxi.not_ge, hx.ne']
  have hneg : ∀ x, 0 < x → x < im → Real.log (x / im) < 0 := fun x hx hxi =>
    Real.log_neg (div_pos hx him) ((div_lt_one him).2 hxi)
  have hpos : ∀ x, 0 ≤ x → x < im → 0 < h x := by
    intro x hx hxi
    rcases hx.lt_or_eq with hx | hx
    · rw [hin x hx hxi]; positivity
    · rw [← hx, h0]; exact hv
  have hlt : ∀ x, 0 < x → h x < v := by
    intro x hx
    rcases lt_or_ge x im with hxi | hxi
    · rw [hin x hx hxi]
      have : Real.exp (al / Real.log (x / im)) < 1 := by
        rw [Real.exp_lt_one_iff]
        exact div_neg_of_pos_of_neg hal (hneg x hx hxi)
      nlinarith
    · rw [hout x hxi]; exact hv
  have hstrict : ∀ x y, 0 ≤ x → x < y → y ≤ im → h y < h x := by
    intro x y hx hxy hy
    have hy0 : 0 < y := lt_of_le_of_lt hx hxy
    rcases hx.lt_or_eq with hx | hx
    · rcases hy.lt_or_eq with hy | hy
      · rw [hin x hx (hxy.trans hy), hin y hy0 hy]
        have hl : Real.log (x / im) < Real.log (y / im) :=
          Real.log_lt_log (div_pos hx him) (by gcongr)
        have h1 := hneg y hy0 hy
        have h2 := hneg x hx (hxy.trans hy)
        have : al / Real.log (y / im) < al / Real.log (x / im) := by
          rw [div_lt_iff_of_neg h1, div_mul_eq_mul_div, div_lt_iff_of_neg h2]
          nlinarith
        have := Real.exp_lt_exp.2 this
        nlinarith
      · rw [hout y hy.ge]; exact hpos x hx.le (by linarith)
    · rw [← hx, h0]; exact hlt y hy0
  refine ⟨h, ?_, h0, hpos, hout, hlt, hstrict, ?_⟩
  · intro x hx
    rcases lt_or_ge x im with hxi | hxi
    · rcases hx.lt_or_eq with hx | hx
      · rw [nlh_inside hx hxi, hin x hx hxi]
      · rw [← hx, nlh_zero him, h0]
    · rw [nlh_outside hxi, hout x hxi]
  · intro x y hx hxy
    rcases hxy.lt_or_eq with hxy | hxy
    · rcases le_or_gt y im with hy | hy
      · exact (hstrict x y hx hxy hy).le
      · rw [hout y hy.le]
        rcases lt_or_ge x im with hxi | hxi
        · exact (hpos x hx hxi).le
        · rw [hout x hxi]
    · rw [hxy]

/-- The parameters of the repository's example hazard curve. -/
example : ∃ h : ℝ → ℝ, (∀ x, 0 ≤ x → nlh 1221 (2980/100) (6262/100) (.fin x) = .fin (h x)) ∧ h 0 = 1221 := by
  obtain ⟨h, h1, h2, -⟩ := nlh_is_rate_curve (v := 1221) (im := 2980/100) (al := 6262/100)
    (by norm_num) (by norm_num) (by norm_num)
  exact ⟨h, h1, h2⟩

/-- Negative intensities are answered with NaN. -/
theorem nlh_negative_fails {v im al x : ℝ} (him : 0 < im) (hx : x < 0) : nlh v im al (.fin x) = .nan := by
  have h1 : ¬ im ≤ x := by linarith
  have h2 : x / im < 0 := div_neg_of_neg_of_pos hx him
  simp [nlh, h1, fin_div_of_ne him.ne', log_neg h2]

example : nlh 1221 30 60 (.fin (-1)) = .nan := nlh_negative_fails (by norm_num) (by norm_num)

/-! ### C48: power law -/

/-- For positive coefficient and exponent, the power law starts at 0 and strictly increases; the general
homogeneity `f(k x) = k^b f(x)` holds for positive `k`. -/
theorem power_law {a b : ℝ} (ha : 0 < a) (hb : 0 < b) :
    ∃ f : ℝ → ℝ, (∀ x, 0 ≤ x → plc a b x = .fin (f x)) ∧ f 0 = 0 ∧ f 1 = a ∧
      (∀ x y, 0 ≤ x → x < y → f x < f y) ∧ (∀ k x, 0 < k → 0 ≤ x → f (k * x) = k ^ b * f x) := by
  refine ⟨fun x => a * x ^ b, ?_, ?_, ?_, ?_, ?_⟩
  · intro x hx
    rcases hx.lt_or_eq with hx | hx
    · simp [plc, powD, hx]
    · subst hx
      simp [plc, powD, hb, Real.zero_rpow hb.ne']
  · simp [Real.zero_rpow hb.ne']
  · simp
  · intro x y hx hxy
    have := Real.rpow_lt_rpow hx hxy hb
    nlinarith
  · intro k x hk hx
    simp only [Real.mul_rpow hk.le hx]
    ring

example : ∃ f : ℝ → ℝ, (∀ x, 0 ≤ x → plc (1/10) (3/2) x = .fin (f x)) ∧ f 1 = 1/10 := by
  obtain ⟨f, h1, -, h2, -⟩ := power_law (a := 1/10) (b := 3/2) (by norm_num) (by norm_num)
  exact ⟨f, h1, h2⟩

/-! ### C21: linear interpolation -/

/-- Head node. -/
theorem interp_head (p q : ℝ × ℝ) (l : List (ℝ × ℝ)) (h : p.1 < q.1) : interp (p :: q :: l) p.1 = p.2 := by
  rw [interp, if_pos (Or.inl h)]
  simp

/-- The interpolant at every node (table strictly increasing). -/
theorem interp_node (pts : List (ℝ × ℝ)) (hs : pts.Pairwise (fun p q => p.1 < q.1)) (p : ℝ × ℝ) (hp : p ∈ pts) :
    interp pts p.1 = p.2 := by
  induction pts with
  | nil => simp at hp
  | cons a l ih =>
    cases l with
    | nil =>
      simp only [List.mem_singleton] at hp
      subst hp
      rfl
    | cons q l =>
      rw [List.pairwise_cons] at hs
      have haq := hs.1 q List.mem_cons_self
      rcases List.mem_cons.1 hp with rfl | hp
      · exact interp_head _ _ _ haq
      · have hqp : ¬ p.1 < q.1 := by
          rcases List.mem_cons.1 hp with rfl | hp'
          · exact lt_irrefl _
          · exact ((List.pairwise_cons.1 hs.2).1 p hp').not_gt
        rw [interp]
        by_cases hl : l = []
        · subst hl
          simp only [List.mem_singleton] at hp
          subst hp
          rw [if_pos (Or.inr rfl), div_self (by linarith)]
          ring
        · rw [if_neg (by tauto)]
          exact ih hs.2 hp

/-- Between two consecutive nodes the interpolant is the straight line through them. -/
theorem interp_between (l : List (ℝ × ℝ)) (p q : ℝ × ℝ) (r : List (ℝ × ℝ))
    (hs : (l ++ p :: q :: r).Pairwise (fun p q => p.1 < q.1)) (x : ℝ) (h1 : p.1 ≤ x) (h2 : x ≤ q.1) :
    interp (l ++ p :: q :: r) x = p.2 + (x - p.1) / (q.1 - p.1) * (q.2 - p.2) := by
  induction l with
  | nil =>
    simp only [List.nil_append] at hs ⊢
    rw [List.pairwise_cons] at hs
    have hpq := hs.1 q List.mem_cons_self
    rw [interp]
    split
    · rfl
    · rename_i h
      push Not at h
      have hx : x = q.1 := le_antisymm h2 h.1
      subst hx
      rw [interp_node _ hs.2 q List.mem_cons_self, div_self (by linarith)]
      ring
  | cons a l ih =>
    have hs' := (List.pairwise_cons.1 hs).2
    cases l with
    | nil =>
      simp only [List.cons_append, List.nil_append] at hs' ih ⊢
      rw [interp, if_neg, ih hs']
      rintro (h | h)
      · linarith
      · cases h
    | cons b l =>
      simp only [List.cons_append] at hs' ih ⊢
      rw [interp, if_neg, ih hs']
      have : b.1 < p.1 := (List.pairwise_cons.1 hs').1 p (by simp)
      rintro (h | h)
      · linarith
      · simp at h

/-- Every argument in the range lies between two consecutive nodes. -/
theorem exists_cell (pts : List (ℝ × ℝ)) (hs : pts.Pairwise (fun p q => p.1 < q.1)) (a b : ℝ × ℝ)
    (ha : pts.head? = some a) (hb : pts.getLast? = some b) (h2 : 2 ≤ pts.length) (x : ℝ) (h1 : a.1 ≤ x)
    (h3 : x ≤ b.1) : ∃ l p q r, pts = l ++ p :: q :: r ∧ p.1 ≤ x ∧ x ≤ q.1 := by
  induction pts generalizing a with
  | nil => simp at h2
  | cons c l ih =>
    simp only [List.head?_cons, Option.some.injEq] at ha
    subst ha
    cases l with
    | nil => simp at h2
    | cons q l =>
      by_cases hx : x ≤ q.1
      · exact ⟨[], c, q, l, rfl, h1, hx⟩
      · push Not at hx
        cases l with
        | nil =>
          simp only [List.getLast?_cons_cons, List.getLast?_singleton, Option.some.injEq] at hb
          subst hb
          linarith
        | cons r l =>
          obtain ⟨l', p', q', r', e, h5, h6⟩ := ih (List.pairwise_cons.1 hs).2 q rfl
            (by simpa [List.getLast?_cons_cons] using hb) (by simp) hx.le
          exact ⟨c :: l', p', q', r', by rw [e]; rfl, h5, h6⟩

/-- A point of the segment between two values lies between bounds of both. -/
theorem segment_bounds {x p1 p2 q1 q2 lo hi : ℝ} (hpq : p1 < q1) (h1 : p1 ≤ x) (h2 : x ≤ q1) (hp : lo ≤ p2 ∧ p2 ≤ hi)
    (hq : lo ≤ q2 ∧ q2 ≤ hi) : lo ≤ p2 + (x - p1) / (q1 - p1) * (q2 - p2) ∧
      p2 + (x - p1) / (q1 - p1) * (q2 - p2) ≤ hi := by
  have hd : 0 < q1 - p1 := by linarith
  have t0 : 0 ≤ (x - p1) / (q1 - p1) := div_nonneg (by linarith) hd.le
  have t1 : (x - p1) / (q1 - p1) ≤ 1 := (div_le_one hd).2 (by linarith)
  generalize (x - p1) / (q1 - p1) = t at *
  constructor <;> nlinarith

theorem pairwise_append_cell {l r : List (ℝ × ℝ)} {p q : ℝ × ℝ} {R : (ℝ × ℝ) → (ℝ × ℝ) → Prop}
    (h : (l ++ p :: q :: r).Pairwise R) : R p q :=
  (List.pairwise_cons.1 (List.pairwise_append.1 h).2.1).1 q List.mem_cons_self

/-- Monotonicity of the interpolant on the table's range. -/
theorem interp_mono (pts : List (ℝ × ℝ)) (hs : pts.Pairwise (fun p q => p.1 < q.1))
    (hm : pts.Pairwise (fun p q => p.2 ≤ q.2)) (h2 : 2 ≤ pts.length) (a b : ℝ × ℝ) (ha : pts.head? = some a)
    (hb : pts.getLast? = some b) (x y : ℝ) (h1 : a.1 ≤ x) (hxy : x ≤ y) (hy : y ≤ b.1) :
    interp pts x ≤ interp pts y := by
  induction pts generalizing a x with
  | nil => simp at h2
  | cons c l ih =>
    cases l with
    | nil => simp at h2
    | cons q l =>
      simp only [List.head?_cons, Option.some.injEq] at ha
      subst ha
      have hcq := (List.pairwise_cons.1 hs).1 q List.mem_cons_self
      have hcq2 := (List.pairwise_cons.1 hm).1 q List.mem_cons_self
      have hd : 0 < q.1 - c.1 := by linarith
      by_cases hl : l = []
      · subst hl
        rw [interp, interp, if_pos (Or.inr rfl), if_pos (Or.inr rfl)]
        have : (x - c.1) / (q.1 - c.1) ≤ (y - c.1) / (q.1 - c.1) := by gcongr
        nlinarith
      · have hb' : (q :: l).getLast? = some b := by simpa [List.getLast?_cons_cons] using hb
        have hlen : 2 ≤ (q :: l).length := by
          cases l with
          | nil => exact absurd rfl hl
          | cons _ _ => simp
        by_cases hyq : y < q.1
        · rw [interp, interp, if_pos (Or.inl (lt_of_le_of_lt hxy hyq)), if_pos (Or.inl hyq)]
          have : (x - c.1) / (q.1 - c.1) ≤ (y - c.1) / (q.1 - c.1) := by gcongr
          nlinarith
        · push Not at hyq
          rw [show interp (c :: q :: l) y = interp (q :: l) y by
            rw [interp, if_neg (by push Not; exact ⟨hyq, hl⟩)]]
          by_cases hxq : x < q.1
          · rw [interp, if_pos (Or.inl hxq)]
            have e1 : c.2 + (x - c.1) / (q.1 - c.1) * (q.2 - c.2) ≤ q.2 :=
              (segment_bounds (lo := c.2) (hi := q.2) hcq h1 hxq.le ⟨le_rfl, hcq2⟩ ⟨hcq2, le_rfl⟩).2
            have e2 : q.2 ≤ interp (q :: l) y := by
              have e3 := interp_node (q :: l) (List.pairwise_cons.1 hs).2 q List.mem_cons_self
              rw [← e3]
              exact ih (List.pairwise_cons.1 hs).2 (List.pairwise_cons.1 hm).2 hlen q rfl hb' q.1 le_rfl hyq
            exact e1.trans e2
          · push Not at hxq
            rw [show interp (c :: q :: l) x = interp (q :: l) x by
              rw [interp, if_neg (by push Not; exact ⟨hxq, hl⟩)]]
            exact ih (List.pairwise_cons.1 hs).2 (List.pairwise_cons.1 hm).2 hlen q rfl hb' x hxq hxy

theorem tableOk_ends {pts : List (ℝ × ℝ)} (h : tableOk pts) :
    ∃ a b, pts.head? = some a ∧ pts.getLast? = some b ∧ a ∈ pts ∧ b ∈ pts ∧
      (∀ p ∈ pts, a.1 ≤ p.1) ∧ (∀ p ∈ pts, p.1 ≤ b.1) := by
  obtain ⟨h2, hs⟩ := h
  cases pts with
  | nil => simp at h2
  | cons a l =>
    refine ⟨a, (a :: l).getLast (by simp), rfl, List.getLast?_eq_some_getLast (by simp), List.mem_cons_self,
      List.getLast_mem _, ?_, ?_⟩
    · intro p hp
      rcases List.mem_cons.1 hp with rfl | hp
      · exact le_rfl
      · exact ((List.pairwise_cons.1 hs).1 p hp).le
    · intro p hp
      have hle : (a :: l).Pairwise (fun p q => p.1 ≤ q.1) := hs.imp le_of_lt
      rw [← List.dropLast_append_getLast (show a :: l ≠ [] by simp)] at hp hle
      rcases List.mem_append.1 hp with hp | hp
      · exact (List.pairwise_append.1 hle).2.2 p hp _ (by simp)
      · simp only [List.mem_singleton] at hp
        rw [hp]

/-- A linearly interpolated function exists exactly for tables of at least two points with strictly
increasing abscissae. -/
theorem linear_constructs_iff (pts : List (ℝ × ℝ)) :
    (linearFn pts).isSome = true ↔ 2 ≤ pts.length ∧ pts.Pairwise (fun p q => p.1 < q.1) := by
  unfold linearFn
  split
  · rename_i h
    obtain ⟨a, b, ha, hb, -⟩ := tableOk_ends h
    simp only [ha, hb, Option.isSome_some, true_iff]
    exact h
  · rename_i h
    simp only [Option.isSome_none, Bool.false_eq_true, false_iff]
    exact h

/-- Faithfulness of linear interpolation: exact at the nodes, straight between neighbours, constant beyond the
ends, within any bounds of the data, and monotone when the data are. -/
theorem linear_faithful (pts : List (ℝ × ℝ)) (f : Dbl → Dbl) (hf : linearFn pts = some f) :
    (∀ p ∈ pts, f (.fin p.1) = .fin p.2) ∧
    (∀ l p q r, pts = l ++ p :: q :: r → ∀ x : ℝ, p.1 ≤ x → x ≤ q.1 →
      f (.fin x) = .fin (p.2 + (x - p.1) / (q.1 - p.1) * (q.2 - p.2))) ∧
    (∀ a b, pts.head? = some a → pts.getLast? = some b →
      (∀ x : ℝ, x ≤ a.1 → f (.fin x) = .fin a.2) ∧ (∀ x : ℝ, b.1 ≤ x → f (.fin x) = .fin b.2) ∧
      f .pinf = .fin b.2 ∧ f .ninf = .fin a.2) ∧
    (∀ lo hi : ℝ, (∀ p ∈ pts, lo ≤ p.2 ∧ p.2 ≤ hi) → ∀ x : ℝ, ∃ y, f (.fin x) = .fin y ∧ lo ≤ y ∧ y ≤ hi) ∧
    (pts.Pairwise (fun p q => p.2 ≤ q.2) → ∀ x y : ℝ, x ≤ y → f (.fin x) ≤ f (.fin y)) ∧
    f .nan = .nan := by
  have hok : tableOk pts := (linear_constructs_iff pts).1 (by rw [hf]; rfl)
  obtain ⟨a, b, ha, hb, hma, hmb, hlo, hhi⟩ := tableOk_ends hok
  have hfe : f = linear a b pts := by
    unfold linearFn at hf
    rw [if_pos hok] at hf
    simp only [ha, hb, Option.some.injEq] at hf
    exact hf.symm
  obtain ⟨h2, hs⟩ := hok
  have hmid : ∀ x : ℝ, a.1 ≤ x → x ≤ b.1 → f (.fin x) = .fin (interp pts x) := by
    intro x h1 h3
    simp [hfe, linear, h1.not_gt, h3.not_gt]
  have hleft : ∀ x : ℝ, x ≤ a.1 → f (.fin x) = .fin a.2 := by
    intro x hx
    rcases hx.lt_or_eq with h | h
    · simp [hfe, linear, h]
    · rw [h, hmid a.1 le_rfl (hhi a hma), interp_node pts hs a hma]
  have hright : ∀ x : ℝ, b.1 ≤ x → f (.fin x) = .fin b.2 := by
    intro x hx
    rcases hx.lt_or_eq with h | h
    · have : ¬ x < a.1 := by have := hlo b hmb; linarith
      simp [hfe, linear, h, this]
    · rw [← h, hmid b.1 (hlo b hmb) le_rfl, interp_node pts hs b hmb]
  have hbetween : ∀ l p q r, pts = l ++ p :: q :: r → ∀ x : ℝ, p.1 ≤ x → x ≤ q.1 →
      f (.fin x) = .fin (p.2 + (x - p.1) / (q.1 - p.1) * (q.2 - p.2)) := by
    intro l p q r e x h1 h3
    have hp : p ∈ pts := by rw [e]; simp
    have hq : q ∈ pts := by rw [e]; simp
    rw [hmid x ((hlo p hp).trans h1) (h3.trans (hhi q hq))]
    subst e
    rw [interp_between l p q r hs x h1 h3]
  have hbound : ∀ lo hi : ℝ, (∀ p ∈ pts, lo ≤ p.2 ∧ p.2 ≤ hi) →
      ∀ x : ℝ, ∃ y, f (.fin x) = .fin y ∧ lo ≤ y ∧ y ≤ hi := by
    intro lo hi hb' x
    rcases le_or_gt x a.1 with h | h
    · exact ⟨_, hleft x h, hb' a hma⟩
    · rcases le_or_gt b.1 x with h' | h'
      · exact ⟨_, hright x h', hb' b hmb⟩
      · obtain ⟨l, p, q, r, e, h5, h6⟩ := exists_cell pts hs a b ha hb h2 x h.le h'.le
        refine ⟨_, hbetween l p q r e x h5 h6, ?_⟩
        have hp : p ∈ pts := by rw [e]; simp
        have hq : q ∈ pts := by rw [e]; simp
        subst e
        exact segment_bounds (pairwise_append_cell hs) h5 h6 (hb' p hp) (hb' q hq)
  refine ⟨?_, hbetween, ?_, hbound, ?_, ?_⟩
  · intro p hp
    rw [hmid p.1 (hlo p hp) (hhi p hp), interp_node pts hs p hp]
  · intro a' b' ha' hb'
    rw [ha] at ha'
    rw [hb] at hb'
    cases ha'
    cases hb'
    refine ⟨hleft, hright, ?_, ?_⟩
    · simp [hfe, linear]
    · simp [hfe, linear]
  · intro hm x y hxy
    have hpair : ∀ p ∈ pts, a.2 ≤ p.2 ∧ p.2 ≤ b.2 := by
      intro p hp
      have e1 := interp_node pts hs p hp
      have e2 := interp_node pts hs a hma
      have e3 := interp_node pts hs b hmb
      constructor
      · rw [← e1, ← e2]
        exact interp_mono pts hs hm h2 a b ha hb _ _ le_rfl (hlo p hp) (hhi p hp)
      · rw [← e1, ← e3]
        exact interp_mono pts hs hm h2 a b ha hb _ _ (hlo p hp) (hhi p hp) le_rfl
    obtain ⟨u, hu, hu1, hu2⟩ := hbound a.2 b.2 hpair x
    obtain ⟨v, hv, hv1, hv2⟩ := hbound a.2 b.2 hpair y
    rcases le_or_gt x a.1 with h | h
    · rw [hleft x h, hv, fin_le]; exact hv1
    · rcases le_or_gt b.1 y with h' | h'
      · rw [hright y h', hu, fin_le]; exact hu2
      · rw [hmid x h.le (hxy.trans h'.le), hmid y (h.le.trans hxy) h'.le, fin_le]
        exact interp_mono pts hs hm h2 a b ha hb x y h.le hxy h'.le
  · simp [hfe, linear]

/-- Non-vacuity: a table of three points; halfway between the last two. -/
example : ∃ f, linearFn [(0, 0), (1, 2), (3, 6)] = some f ∧ f (.fin 2) = .fin 4 ∧ f (.fin 7) = .fin 6 := by
  have h : (linearFn [(0, 0), (1, 2), (3, 6)]).isSome = true :=
    (linear_constructs_iff _).2 (by constructor <;> norm_num)
  obtain ⟨f, hf⟩ := Option.isSome_iff_exists.1 h
  have hh := linear_faithful _ f hf
  refine ⟨f, hf, ?_, ?_⟩
  · rw [hh.2.1 [(0, 0)] (1, 2) (3, 6) [] rfl 2 (by norm_num) (by norm_num)]; norm_num
  · exact (hh.2.2.1 (0, 0) (3, 6) rfl rfl).2.1 7 (by norm_num)

/-! ### C49: log-log interpolation -/

/-- Log-log interpolation over positive data: exact at the nodes, a power law between neighbours, constant
beyond the ends, positive and within any bounds of the data, monotone when the data are. -/
theorem logLog_faithful (pts : List (ℝ × ℝ)) (hpos : ∀ p ∈ pts, 0 < p.1 ∧ 0 < p.2) (h2 : 2 ≤ pts.length)
    (hs : pts.Pairwise (fun p q => p.1 < q.1)) :
    ∃ f, logLogFn pts = some f ∧
    (∀ p ∈ pts, f (.fin p.1) = .fin p.2) ∧
    (∀ l p q r, pts = l ++ p :: q :: r → ∀ x : ℝ, p.1 ≤ x → x ≤ q.1 →
      f (.fin x) = .fin (p.2 * (x / p.1) ^ (Real.log (q.2 / p.2) / Real.log (q.1 / p.1)))) ∧
    (∀ a b, pts.head? = some a → pts.getLast? = some b →
      (∀ x : ℝ, x ≤ a.1 → f (.fin x) = .fin a.2) ∧ (∀ x : ℝ, b.1 ≤ x → f (.fin x) = .fin b.2)) ∧
    (∀ lo hi : ℝ, 0 < lo → (∀ p ∈ pts, lo ≤ p.2 ∧ p.2 ≤ hi) →
      ∀ x : ℝ, ∃ y, f (.fin x) = .fin y ∧ lo ≤ y ∧ y ≤ hi) ∧
    (pts.Pairwise (fun p q => p.2 ≤ q.2) → ∀ x y : ℝ, x ≤ y → f (.fin x) ≤ f (.fin y)) := by
  -- the linear function over the table of logarithms
  have hls : (logTable pts).Pairwise (fun p q => p.1 < q.1) := by
    rw [logTable, List.pairwise_map]
    refine hs.imp_of_mem ?_
    intro p q hp hq h
    exact Real.log_lt_log (hpos p hp).1 h
  have hlok : tableOk (logTable pts) := ⟨by simpa [logTable] using h2, hls⟩
  obtain ⟨g, hg⟩ := Option.isSome_iff_exists.1 ((linear_constructs_iff (logTable pts)).2 hlok)
  obtain ⟨g1, g2, g3, g4, g5, -⟩ := linear_faithful (logTable pts) g hg
  obtain ⟨a, b, ha, hb, hma, hmb, hlo, hhi⟩ := tableOk_ends (pts := pts) ⟨h2, hs⟩
  have hlha : (logTable pts).head? = some (Real.log a.1, Real.log a.2) := by simp [logTable, ha]
  have hllb : (logTable pts).getLast? = some (Real.log b.1, Real.log b.2) := by simp [logTable, hb]
  have hge : g = linear (Real.log a.1, Real.log a.2) (Real.log b.1, Real.log b.2) (logTable pts) := by
    unfold linearFn at hg
    rw [if_pos hlok] at hg
    simp only [hlha, hllb, Option.some.injEq] at hg
    exact hg.symm
  have hfs : logLogFn pts = some (logLog a b pts) := by
    unfold logLogFn
    rw [if_pos hlok]
    simp only [ha, hb]
  have ha0 := hpos a hma
  have hb0 := hpos b hmb
  -- evaluation is the exponential of the linear function of the logarithm
  have key : ∀ x : ℝ, 0 < x → logLog a b pts (.fin x) = exp (g (.fin (Real.log x))) := by
    intro x hx
    rcases lt_or_ge x a.1 with h | h
    · rw [((g3 _ _ hlha hllb).1) _ (Real.log_le_log hx h.le)]
      simp [logLog, h, Real.exp_log ha0.2]
    · rcases lt_or_ge b.1 x with h' | h'
      · rw [((g3 _ _ hlha hllb).2.1) _ (Real.log_le_log hb0.1 h'.le)]
        simp [logLog, h', h.not_gt, Real.exp_log hb0.2]
      · have e1 : ¬ Real.log x < Real.log a.1 := (Real.log_le_log ha0.1 h).not_gt
        have e2 : ¬ Real.log b.1 < Real.log x := (Real.log_le_log hx h').not_gt
        simp [logLog, hge, linear, h.not_gt, h'.not_gt, log_pos hx, e1, e2]
  have kneg : ∀ x : ℝ, x ≤ 0 → logLog a b pts (.fin x) = .fin a.2 := by
    intro x hx
    have : x < a.1 := by linarith
    simp [logLog, this]
  have hbound : ∀ lo hi : ℝ, 0 < lo → (∀ p ∈ pts, lo ≤ p.2 ∧ p.2 ≤ hi) →
      ∀ x : ℝ, ∃ y, logLog a b pts (.fin x) = .fin y ∧ lo ≤ y ∧ y ≤ hi := by
    intro lo hi hl0 hb' x
    rcases le_or_gt x 0 with h | h
    · exact ⟨_, kneg x h, hb' a hma⟩
    · have hhi0 : 0 < hi := lt_of_lt_of_le hl0 ((hb' a hma).1.trans (hb' a hma).2)
      obtain ⟨y, hy, h3, h4⟩ := g4 (Real.log lo) (Real.log hi) (by
        intro p hp
        obtain ⟨p', hp', rfl⟩ := List.mem_map.1 hp
        exact ⟨Real.log_le_log hl0 (hb' p' hp').1, Real.log_le_log (hpos p' hp').2 (hb' p' hp').2⟩) (Real.log x)
      refine ⟨Real.exp y, by rw [key x h, hy, exp_fin], ?_, ?_⟩
      · rw [← Real.exp_log hl0]; exact Real.exp_le_exp.2 h3
      · rw [← Real.exp_log hhi0]; exact Real.exp_le_exp.2 h4
  refine ⟨_, hfs, ?_, ?_, ?_, hbound, ?_⟩
  · intro p hp
    have h0 := hpos p hp
    rw [key p.1 h0.1, g1 (Real.log p.1, Real.log p.2) (List.mem_map.2 ⟨p, hp, rfl⟩), exp_fin, Real.exp_log h0.2]
  · intro l p q r e x h1 h3
    have hp0 := hpos p (by rw [e]; simp)
    have hq0 := hpos q (by rw [e]; simp)
    have hx : 0 < x := lt_of_lt_of_le hp0.1 h1
    have hpq : p.1 < q.1 := by subst e; exact pairwise_append_cell hs
    have hl := g2 (l.map (fun p => (Real.log p.1, Real.log p.2))) (Real.log p.1, Real.log p.2)
      (Real.log q.1, Real.log q.2) (r.map (fun p => (Real.log p.1, Real.log p.2))) (by simp [logTable, e])
      (Real.log x) (Real.log_le_log hp0.1 h1) (Real.log_le_log hx h3)
    rw [key x hx, hl, exp_fin]
    congr 1
    rw [Real.exp_add, Real.exp_log hp0.2, Real.rpow_def_of_pos (div_pos hx hp0.1), Real.log_div hx.ne' hp0.1.ne',
      Real.log_div hq0.2.ne' hp0.2.ne', Real.log_div hq0.1.ne' hp0.1.ne']
    congr 2
    ring
  · intro a' b' ha' hb'
    rw [ha] at ha'
    rw [hb] at hb'
    cases ha'
    cases hb'
    constructor
    · intro x hx
      rcases le_or_gt x 0 with h | h
      · exact kneg x h
      · rw [key x h, ((g3 _ _ hlha hllb).1) _ (Real.log_le_log h hx), exp_fin, Real.exp_log ha0.2]
    · intro x hx
      rw [key x (lt_of_lt_of_le hb0.1 hx), ((g3 _ _ hlha hllb).2.1) _ (Real.log_le_log hb0.1 hx), exp_fin,
        Real.exp_log hb0.2]
  · intro hm x y hxy
    have hmlog : (logTable pts).Pairwise (fun p q => p.2 ≤ q.2) := by
      rw [logTable, List.pairwise_map]
      refine hm.imp_of_mem ?_
      intro p q hp hq h
      exact Real.log_le_log (hpos p hp).2 h
    rcases le_or_gt x 0 with h | h
    · have hall : ∀ p ∈ pts, a.2 ≤ p.2 ∧ p.2 ≤ b.2 := by
        intro p hp
        cases pts with
        | nil => simp at hp
        | cons c l =>
          simp only [List.head?_cons, Option.some.injEq] at ha
          subst ha
          refine ⟨?_, ?_⟩
          · rcases List.mem_cons.1 hp with rfl | hp
            · exact le_rfl
            · exact (List.pairwise_cons.1 hm).1 p hp
          · have hbb : b = (c :: l).getLast (by simp) := by
              rw [List.getLast?_eq_some_getLast (by simp)] at hb
              exact (Option.some.inj hb).symm
            rw [← List.dropLast_append_getLast (show c :: l ≠ [] by simp)] at hp hm
            rcases List.mem_append.1 hp with hp | hp
            · rw [hbb]; exact (List.pairwise_append.1 hm).2.2 p hp _ (by simp)
            · simp only [List.mem_singleton] at hp
              rw [hbb, ← hp]
      obtain ⟨v, hv, h3, -⟩ := hbound a.2 b.2 ha0.2 hall y
      rw [kneg x h, hv, fin_le]
      exact h3
    · have hy : 0 < y := lt_of_lt_of_le h hxy
      rw [key x h, key y hy]
      have h3 := g5 hmlog (Real.log x) (Real.log y) (Real.log_le_log h hxy)
      obtain ⟨u, hu, -⟩ : ∃ u, g (.fin (Real.log x)) = .fin u ∧ True := by
        rw [hge]; unfold linear
        split
        · exact ⟨_, rfl, trivial⟩
        · split
          · exact ⟨_, rfl, trivial⟩
          · exact ⟨_, rfl, trivial⟩
      obtain ⟨v, hv, -⟩ : ∃ u, g (.fin (Real.log y)) = .fin u ∧ True := by
        rw [hge]; unfold linear
        split
        · exact ⟨_, rfl, trivial⟩
        · split
          · exact ⟨_, rfl, trivial⟩
          · exact ⟨_, rfl, trivial⟩
      rw [hu, hv, fin_le] at h3
      rw [hu, hv, exp_fin, exp_fin, fin_le]
      exact Real.exp_le_exp.2 h3

/-- Non-vacuity: two points on a parabola; the interpolant is the parabola. -/
example : ∃ f, logLogFn [(1, 1), (4, 16)] = some f ∧ f (.fin 4) = .fin 16 := by
  obtain ⟨f, hf, h1, -⟩ := logLog_faithful [(1, 1), (4, 16)] (by simp) (by simp) (by simp)
  exact ⟨f, hf, h1 (4, 16) (by simp)⟩

end Slat.Functions
