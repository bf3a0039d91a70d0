import Verif.CurveFRound
import Mathlib.Analysis.Complex.ExponentialBounds

/-!
# C79, continued: interpolated curves
-/

namespace Slat.CurveF

open Dbl

noncomputable section

/-- The curve of a table with first point `a`. -/
def table (C : Platform) (a : ℝ × ℝ) (rest : List (ℝ × ℝ)) (x : ℝ) : Dbl :=
  C.linear (pt a) (pt ((a :: rest).getLast (List.cons_ne_nil _ _))) ((a :: rest).map pt) (.fin x)

/-- Consecutive points form intervals. -/
def Cells (C : Platform) (pts : List (ℝ × ℝ)) : Prop := pts.IsChain (Cell C)

theorem Cells.sorted {C : Platform} {pts : List (ℝ × ℝ)} (h : Cells C pts) : pts.Pairwise (fun a b => a.1 < b.1) := by
  have chain : pts.IsChain (fun a b : ℝ × ℝ => a.1 < b.1) := h.imp fun a b k => k.lt
  let _ : Trans (fun a b : ℝ × ℝ => a.1 < b.1) (fun a b : ℝ × ℝ => a.1 < b.1) (fun a b : ℝ × ℝ => a.1 < b.1) := ⟨fun a b => lt_trans a b⟩
  exact List.isChain_iff_pairwise.1 chain

theorem Cells.at {C : Platform} {l r : List (ℝ × ℝ)} {p q : ℝ × ℝ} (h : Cells C (l ++ p :: q :: r)) : Cell C p q := by
  have := (List.isChain_append.1 h).2.1
  exact (List.isChain_cons_cons.1 this).1

/-- The first abscissa is the smallest, the last one the greatest. -/
theorem first_le {a : ℝ × ℝ} {rest : List (ℝ × ℝ)} (h : (a :: rest).Pairwise (fun a b => a.1 < b.1)) {p : ℝ × ℝ} (hp : p ∈ a :: rest) : a.1 ≤ p.1 := by
  rcases List.mem_cons.1 hp with rfl | hp
  · exact le_rfl
  · exact ((List.pairwise_cons.1 h).1 p hp).le

theorem le_last {pts : List (ℝ × ℝ)} (h : pts.Pairwise (fun a b => a.1 < b.1)) (hn : pts ≠ []) {p : ℝ × ℝ} (hp : p ∈ pts) :
    p.1 ≤ (pts.getLast hn).1 := by
  induction pts generalizing p with
  | nil => exact absurd rfl hn
  | cons b l ih =>
    cases l with
    | nil =>
      simp only [List.mem_singleton] at hp
      subst hp
      simp
    | cons c l =>
      rw [List.getLast_cons (List.cons_ne_nil _ _)]
      rcases List.mem_cons.1 hp with rfl | hp
      · exact ((List.pairwise_cons.1 h).1 c (by simp)).le.trans (ih (List.pairwise_cons.1 h).2 (List.cons_ne_nil _ _) (by simp))
      · exact ih (List.pairwise_cons.1 h).2 (List.cons_ne_nil _ _) hp

/-- In the range of the table. -/
theorem table_interp {C : Platform} {a : ℝ × ℝ} {rest : List (ℝ × ℝ)} {x : ℝ} (h1 : a.1 ≤ x)
    (h2 : x ≤ ((a :: rest).getLast (List.cons_ne_nil _ _)).1) : table C a rest x = C.interp ((a :: rest).map pt) (.fin x) := by
  rw [table, Platform.linear, if_neg, if_neg]
  · exact fun c => absurd ((fin_lt _ _).1 c) (not_lt.2 h2)
  · exact fun c => absurd ((fin_lt _ _).1 c) (not_lt.2 h1)

/-- On one interval of the table. -/
theorem table_cell {C : Platform} {a : ℝ × ℝ} {rest l r : List (ℝ × ℝ)} {p q : ℝ × ℝ} (ht : Cells C (a :: rest)) (hs : a :: rest = l ++ p :: q :: r)
    {x : ℝ} (h1 : p.1 ≤ x) (h2 : x < q.1 ∨ r = [] ∧ x ≤ q.1) : table C a rest x = C.cell (pt p) (pt q) (.fin x) := by
  have sorted := ht.sorted
  have hp : p ∈ a :: rest := by rw [hs]; simp
  have hq : q ∈ a :: rest := by rw [hs]; simp
  rw [table_interp ((first_le sorted hp).trans h1)]
  · rw [hs]
    refine interp_at l p q r (hs ▸ sorted) x h1 ?_
    rcases h2 with h | h
    · exact Or.inl h
    · exact Or.inr h.1
  · refine le_trans ?_ (le_last sorted (List.cons_ne_nil _ _) hq)
    rcases h2 with h | h
    · exact h.le
    · exact h.2

/-- **Interpolated curves.**  On every interval of a table: the left point is met exactly; the curve is monotone from there in the
direction of the table; it is never NaN, and never negative if the table is not.  Outside the range the first and the last
ordinate. -/
theorem interpolated_rounded {C : Platform} (hC : Laws C) {a : ℝ × ℝ} {rest : List (ℝ × ℝ)} (ht : Cells C (a :: rest)) :
    (∀ x, x < a.1 → table C a rest x = .fin a.2) ∧
    (∀ x, ((a :: rest).getLast (List.cons_ne_nil _ _)).1 < x → table C a rest x = .fin ((a :: rest).getLast (List.cons_ne_nil _ _)).2) ∧
    ∀ l p q r, a :: rest = l ++ p :: q :: r → table C a rest p.1 = .fin p.2 ∧
      ∀ x y, p.1 ≤ x → x ≤ y → (y < q.1 ∨ r = [] ∧ y ≤ q.1) →
        (p.2 ≤ q.2 → .fin p.2 ≤ table C a rest x ∧ table C a rest x ≤ table C a rest y) ∧
        (q.2 ≤ p.2 → table C a rest y ≤ table C a rest x ∧ table C a rest x ≤ .fin p.2) ∧
        (0 ≤ p.2 → 0 ≤ q.2 → .fin 0 ≤ table C a rest x) := by
  have sorted := ht.sorted
  refine ⟨fun x h => ?_, fun x h => ?_, fun l p q r hs => ?_⟩
  · have h' : Dbl.fin x < (pt a).1 := (fin_lt _ _).2 h
    rw [table, Platform.linear, if_pos h']; rfl
  · have : a.1 ≤ ((a :: rest).getLast (List.cons_ne_nil _ _)).1 := first_le sorted (List.getLast_mem _)
    have h1 : ¬ Dbl.fin x < (pt a).1 := fun c => absurd ((fin_lt _ _).1 c) (not_lt.2 (this.trans h.le))
    have h2 : (pt ((a :: rest).getLast (List.cons_ne_nil _ _))).1 < Dbl.fin x := (fin_lt _ _).2 h
    rw [table, Platform.linear, if_neg h1, if_pos h2]; rfl
  · have hc : Cell C p q := (hs ▸ ht : Cells C (l ++ p :: q :: r)).at
    obtain ⟨E, W, eE, hv, hb, hl, -, up, down⟩ := cell_value hC hc
    refine ⟨?_, fun x y h1 h2 h3 => ?_⟩
    · rw [table_cell ht hs le_rfl (Or.inl hc.lt), hv p.1 le_rfl hc.lt.le, hl, add_zero]; exact hc.py
    · have hx : x < q.1 ∨ r = [] ∧ x ≤ q.1 := by
        rcases h3 with h | h
        · exact Or.inl (h2.trans_lt h)
        · exact Or.inr ⟨h.1, h2.trans h.2⟩
      have qx : x ≤ q.1 := by
        rcases hx with h | h
        · exact h.le
        · exact h.2
      have qy : y ≤ q.1 := by
        rcases h3 with h | h
        · exact h.le
        · exact h.2
      rw [table_cell ht hs h1 hx, table_cell ht hs (h1.trans h2) h3, hv x h1 qx, hv y (h1.trans h2) qy]
      obtain ⟨s1, s2⟩ := step_sign hC eE
      obtain ⟨b1, b2⟩ := hb x h1 qx
      refine ⟨fun k => ⟨?_, ?_⟩, fun k => ⟨?_, ?_⟩, fun k1 k2 => ?_⟩
      · rw [min_eq_left (s1 k)] at b1
        have := hC.mono p.2 (p.2 + W x) (by linarith)
        rwa [hc.py] at this
      · exact hC.mono _ _ (by have := up (s1 k) x y h1 h2 qy; linarith)
      · exact hC.mono _ _ (by have := down (s2 k) x y h1 h2 qy; linarith)
      · rw [max_eq_left (s2 k)] at b2
        have := hC.mono (p.2 + W x) p.2 (by linarith)
        rwa [hc.py] at this
      · have low : -p.2 ≤ E := by
          have := hC.mono (-p.2) (q.2 - p.2) (by linarith)
          rwa [hC.minus _ hc.py, eE, fin_le] at this
        have : -p.2 ≤ W x := le_trans (le_min (by linarith) low) b1
        have := hC.mono 0 (p.2 + W x) (by linarith)
        rwa [hC.zero] at this

/-! ## Monotone tables -/

theorem chain_and {α : Type} {R S : α → α → Prop} {l : List α} (h : l.IsChain R) (k : l.IsChain S) : l.IsChain fun a b => R a b ∧ S a b := by
  induction l with
  | nil => exact List.isChain_nil
  | cons a l ih =>
    cases l with
    | nil => exact List.isChain_singleton _
    | cons b l =>
      rw [List.isChain_cons_cons] at *
      exact ⟨⟨h.1, k.1⟩, ih h.2 k.2⟩

/-- A curve along a table that follows a relation on every interval. -/
theorem follow {C : Platform} (R : Dbl → Dbl → Prop) (tr : ∀ a b c, R a b → R b c → R a c)
    (pts : List (ℝ × ℝ)) (hn : pts ≠ []) (h2 : 2 ≤ pts.length) (hs : pts.IsChain (fun p q => p.1 < q.1))
    (hc : pts.IsChain (fun p q => ∀ x y, p.1 ≤ x → x ≤ y → y ≤ q.1 → R (.fin p.2) (C.cell (pt p) (pt q) (.fin x)) ∧
      R (C.cell (pt p) (pt q) (.fin x)) (C.cell (pt p) (pt q) (.fin y)) ∧ R (C.cell (pt p) (pt q) (.fin y)) (.fin q.2))) :
    ∀ x y, (pts.head hn).1 ≤ x → x ≤ y → y ≤ (pts.getLast hn).1 → R (.fin (pts.head hn).2) (C.interp (pts.map pt) (.fin x)) ∧
      R (C.interp (pts.map pt) (.fin x)) (C.interp (pts.map pt) (.fin y)) ∧ R (C.interp (pts.map pt) (.fin y)) (.fin (pts.getLast hn).2) := by
  induction pts with
  | nil => exact absurd rfl hn
  | cons p l ih =>
    cases l with
    | nil => simp at h2
    | cons q l =>
      rw [List.isChain_cons_cons] at hs hc
      intro x y h1 h3 h4
      rw [List.head_cons] at h1 ⊢
      cases l with
      | nil =>
        have e : ∀ z, C.interp ([p, q].map pt) z = C.cell (pt p) (pt q) z := by
          intro z
          simp only [List.map_cons, List.map_nil, Platform.interp]
          rw [if_pos (Or.inr trivial)]
        rw [e, e]
        exact hc.1 x y h1 h3 h4
      | cons r l =>
        have ih' := ih (List.cons_ne_nil _ _) (by simp) hs.2 hc.2
        rw [List.head_cons] at ih'
        rw [List.getLast_cons (List.cons_ne_nil _ _)] at h4 ⊢
        have e1 : ∀ z, z < q.1 → C.interp ((p :: q :: r :: l).map pt) (.fin z) = C.cell (pt p) (pt q) (.fin z) := by
          intro z hz
          simp only [List.map_cons, Platform.interp]
          have hz' : Dbl.fin z < (pt q).1 := (fin_lt _ _).2 hz
          rw [if_pos (Or.inl hz')]
        have e2 : ∀ z, q.1 ≤ z → C.interp ((p :: q :: r :: l).map pt) (.fin z) = C.interp ((q :: r :: l).map pt) (.fin z) := by
          intro z hz
          simp only [List.map_cons, Platform.interp]
          rw [if_neg]
          rintro (h | h)
          · exact absurd ((fin_lt _ _).1 h) (not_lt.2 hz)
          · cases h
        rcases lt_or_ge y q.1 with hy | hy
        · rw [e1 x (h3.trans_lt hy), e1 y hy]
          obtain ⟨a1, a2, a3⟩ := hc.1 x y h1 h3 hy.le
          have last : q.1 ≤ ((q :: r :: l).getLast (List.cons_ne_nil _ _)).1 := by
            let _ : Trans (fun a b : ℝ × ℝ => a.1 < b.1) (fun a b : ℝ × ℝ => a.1 < b.1) (fun a b : ℝ × ℝ => a.1 < b.1) := ⟨fun a b => lt_trans a b⟩
            exact le_last (List.isChain_iff_pairwise.1 hs.2) (List.cons_ne_nil _ _) (by simp)
          obtain ⟨b1, b2, b3⟩ := ih' q.1 q.1 le_rfl le_rfl last
          exact ⟨a1, a2, tr _ _ _ a3 (tr _ _ _ b1 b3)⟩
        · obtain ⟨b1, b2, b3⟩ := ih' y y hy le_rfl h4
          rw [e2 y hy]
          rcases lt_or_ge x q.1 with hx | hx
          · rw [e1 x hx]
            obtain ⟨a1, a2, a3⟩ := hc.1 x q.1 h1 hx.le le_rfl
            exact ⟨a1, tr _ _ _ (tr _ _ _ a2 a3) b1, b3⟩
          · rw [e2 x hx]
            obtain ⟨c1, c2, c3⟩ := ih' x y hx h3 h4
            obtain ⟨a1, a2, a3⟩ := hc.1 p.1 q.1 le_rfl hs.1.le le_rfl
            exact ⟨tr _ _ _ (tr _ _ _ (tr _ _ _ a1 a2) a3) c1, c2, c3⟩

/-- The interval of two points whose ordinates are within a factor of two. -/
theorem close_cell {C : Platform} (hC : Laws C) {u eta : ℝ} (hP : Precise C u eta) {p q : ℝ × ℝ} (hc : Cell C p q) (p0 : 0 < p.2) (q0 : 0 < q.2)
    (h1 : p.2 ≤ 2 * q.2) (h2 : q.2 ≤ 2 * p.2) : ∃ W : ℝ → ℝ,
    (∀ x, p.1 ≤ x → x ≤ q.1 → C.cell (pt p) (pt q) (.fin x) = C.rnd (p.2 + W x)) ∧ W p.1 = 0 ∧ W q.1 = q.2 - p.2 ∧
    (p.2 ≤ q.2 → ∀ x y, p.1 ≤ x → x ≤ y → y ≤ q.1 → W x ≤ W y) ∧ (q.2 ≤ p.2 → ∀ x y, p.1 ≤ x → x ≤ y → y ≤ q.1 → W y ≤ W x) := by
  obtain ⟨E, W, eE, hv, -, hl, hr, up, down⟩ := cell_value hC hc
  have := hP.close q.2 p.2 hc.qy hc.py q0 p0 h2 h1
  rw [eE, fin_inj] at this
  subst this
  exact ⟨W, hv, hl, hr, fun k => up (by linarith), fun k => down (by linarith)⟩

/-- **Finely sampled tables.**  If consecutive ordinates are positive and within a factor of two of each other, every point of the
table is met exactly, and the curve of a falling table falls everywhere, that of a rising table rises. -/
theorem fine_rounded {C : Platform} (hC : Laws C) {u eta : ℝ} (hP : Precise C u eta) {a : ℝ × ℝ} {rest : List (ℝ × ℝ)} (h2 : rest ≠ [])
    (ht : Cells C (a :: rest)) (hf : (a :: rest).IsChain fun p q => 0 < p.2 ∧ 0 < q.2 ∧ p.2 ≤ 2 * q.2 ∧ q.2 ≤ 2 * p.2) :
    (∀ p ∈ a :: rest, table C a rest p.1 = .fin p.2) ∧
    ((a :: rest).IsChain (fun p q => q.2 ≤ p.2) → ∀ x y, x ≤ y → table C a rest y ≤ table C a rest x) ∧
    ((a :: rest).IsChain (fun p q => p.2 ≤ q.2) → ∀ x y, x ≤ y → table C a rest x ≤ table C a rest y) := by
  have sorted := ht.sorted
  have hn := List.cons_ne_nil a rest
  have len : 2 ≤ (a :: rest).length := by
    rw [List.length_cons]
    have := List.length_pos_iff.2 h2
    omega
  have chain : (a :: rest).IsChain (fun p q => p.1 < q.1) := ht.imp fun p q k => k.lt
  have both := chain_and ht hf
  refine ⟨?_, fun hd => ?_, fun hd => ?_⟩
  · intro p hp
    obtain ⟨l, r, hs⟩ := List.append_of_mem hp
    cases r with
    | cons q r => exact ((interpolated_rounded hC ht).2.2 l p q r hs).1
    | nil =>
      rcases List.eq_nil_or_concat l with rfl | ⟨l, o, rfl⟩
      · rw [List.nil_append, List.cons.injEq] at hs
        exact absurd hs.2 h2
      · have hs' : a :: rest = l ++ o :: p :: [] := by rw [hs]; simp
        have hc : Cell C o p := (hs' ▸ ht : Cells C (l ++ o :: p :: [])).at
        obtain ⟨k1, k2, k3, k4⟩ : 0 < o.2 ∧ 0 < p.2 ∧ o.2 ≤ 2 * p.2 ∧ p.2 ≤ 2 * o.2 := by
          have := (List.isChain_append.1 (hs' ▸ hf)).2.1
          exact (List.isChain_cons_cons.1 this).1
        obtain ⟨W, hv, -, hr, -⟩ := close_cell hC hP hc k1 k2 k3 k4
        rw [table_cell ht hs' hc.lt.le (Or.inr ⟨rfl, le_rfl⟩), hv p.1 hc.lt.le le_rfl, hr, add_sub_cancel]
        exact hc.qy
  · have fl := follow (C := C) (fun a b => b ≤ a) (fun a b c h k => le_tr k h) (a :: rest) hn len chain
      ((chain_and both hd).imp fun p q ⟨⟨hc, k1, k2, k3, k4⟩, k⟩ x y h1 h3 h4 => by
        obtain ⟨W, hv, hl, hr, -, down⟩ := close_cell hC hP hc k1 k2 k3 k4
        rw [hv x h1 (h3.trans h4), hv y (h1.trans h3) h4]
        have d := down k
        refine ⟨?_, ?_, ?_⟩
        · have := hC.mono (p.2 + W x) p.2 (by have := d p.1 x le_rfl h1 (h3.trans h4); linarith)
          rwa [hc.py] at this
        · exact hC.mono _ _ (by have := d x y h1 h3 h4; linarith)
        · have := hC.mono q.2 (p.2 + W y) (by have := d y q.1 (h1.trans h3) h4 le_rfl; linarith)
          rwa [hc.qy] at this)
    rw [List.head_cons] at fl
    have al : a.1 ≤ ((a :: rest).getLast hn).1 := first_le sorted (List.getLast_mem _)
    obtain ⟨out1, out2, -⟩ := interpolated_rounded hC ht
    intro x y h
    rcases lt_or_ge y a.1 with hy | hy
    · rw [out1 x (h.trans_lt hy), out1 y hy, fin_le]
    · rcases le_or_gt y ((a :: rest).getLast hn).1 with hy' | hy'
      · rcases lt_or_ge x a.1 with hx | hx
        · rw [out1 x hx, table_interp hy hy']
          exact (fl y y hy le_rfl hy').1
        · rw [table_interp hy hy', table_interp hx (h.trans hy')]
          exact (fl x y hx h hy').2.1
      · rw [out2 y hy']
        rcases lt_or_ge x a.1 with hx | hx
        · rw [out1 x hx]
          obtain ⟨b1, b2, b3⟩ := fl a.1 a.1 le_rfl le_rfl al
          exact le_tr b3 b1
        · rcases le_or_gt x ((a :: rest).getLast hn).1 with hx' | hx'
          · rw [table_interp hx hx']
            exact (fl x x hx le_rfl hx').2.2
          · rw [out2 x hx', fin_le]
  · have fl := follow (C := C) (fun a b => a ≤ b) (fun a b c h k => le_tr h k) (a :: rest) hn len chain
      ((chain_and both hd).imp fun p q ⟨⟨hc, k1, k2, k3, k4⟩, k⟩ x y h1 h3 h4 => by
        obtain ⟨W, hv, hl, hr, up, -⟩ := close_cell hC hP hc k1 k2 k3 k4
        rw [hv x h1 (h3.trans h4), hv y (h1.trans h3) h4]
        have d := up k
        refine ⟨?_, ?_, ?_⟩
        · have := hC.mono p.2 (p.2 + W x) (by have := d p.1 x le_rfl h1 (h3.trans h4); linarith)
          rwa [hc.py] at this
        · exact hC.mono _ _ (by have := d x y h1 h3 h4; linarith)
        · have := hC.mono (p.2 + W y) q.2 (by have := d y q.1 (h1.trans h3) h4 le_rfl; linarith)
          rwa [hc.qy] at this)
    rw [List.head_cons] at fl
    have al : a.1 ≤ ((a :: rest).getLast hn).1 := first_le sorted (List.getLast_mem _)
    obtain ⟨out1, out2, -⟩ := interpolated_rounded hC ht
    intro x y h
    rcases lt_or_ge y a.1 with hy | hy
    · rw [out1 x (h.trans_lt hy), out1 y hy, fin_le]
    · rcases le_or_gt y ((a :: rest).getLast hn).1 with hy' | hy'
      · rcases lt_or_ge x a.1 with hx | hx
        · rw [out1 x hx, table_interp hy hy']
          exact (fl y y hy le_rfl hy').1
        · rw [table_interp hy hy', table_interp hx (h.trans hy')]
          exact (fl x y hx h hy').2.1
      · rw [out2 y hy']
        rcases lt_or_ge x a.1 with hx | hx
        · rw [out1 x hx]
          obtain ⟨b1, b2, b3⟩ := fl a.1 a.1 le_rfl le_rfl al
          exact le_tr b1 b3
        · rcases le_or_gt x ((a :: rest).getLast hn).1 with hx' | hx'
          · rw [table_interp hx hx']
            exact (fl x x hx le_rfl hx').2.2
          · rw [out2 x hx', fin_le]

theorem half (m : ℕ) (h : m ≤ 2 ^ 53) (k : ℕ) (hk : k ≤ 1000) : Rep double (m / 2 ^ k) := by
  have := double_num m (-k) h (by omega) (by omega)
  rwa [zpow_neg, zpow_natCast, ← div_eq_mul_inv] at this

/-- Three points of a hazard curve in binary64. -/
theorem example_cells : Cells double [(1, 1 / 2), (2, 3 / 8), (4, 1 / 4)] := by
  have r1 : Rep double 1 := by simpa using double_int 1 (by norm_num)
  have r2 : Rep double 2 := by simpa using double_int 2 (by norm_num)
  have r4 : Rep double 4 := by simpa using double_int 4 (by norm_num)
  have h1 : Rep double (1 / 2) := by simpa using half 1 (by norm_num) 1 (by norm_num)
  have h2 : Rep double (3 / 8) := by
    have := half 3 (by norm_num) 3 (by norm_num)
    norm_num at this
    exact this
  have h3 : Rep double (1 / 4) := by
    have := half 1 (by norm_num) 2 (by norm_num)
    norm_num at this ⊢
    exact this
  unfold Cells
  rw [List.isChain_cons_cons, List.isChain_cons_cons]
  refine ⟨cell_of_nonneg double_laws ?_ r1 r2 h1 h2 ?_ ?_ ?_, cell_of_nonneg double_laws ?_ r2 r4 h2 h3 ?_ ?_ ?_, List.isChain_singleton _⟩ <;> norm_num

example : table double (1, 1 / 2) [(2, 3 / 8), (4, 1 / 4)] 2 = .fin (3 / 8) ∧
    .fin 0 ≤ table double (1, 1 / 2) [(2, 3 / 8), (4, 1 / 4)] 3 := by
  have h := (interpolated_rounded double_laws example_cells).2.2 [(1, 1 / 2)] (2, 3 / 8) (4, 1 / 4) [] rfl
  exact ⟨h.1, (h.2 3 3 (by norm_num) le_rfl (by norm_num)).2.2 (by norm_num) (by norm_num)⟩

example : (∀ p ∈ [((1 : ℝ), (1 / 2 : ℝ)), (2, 3 / 8), (4, 1 / 4)], table double (1, 1 / 2) [(2, 3 / 8), (4, 1 / 4)] p.1 = .fin p.2) ∧
    ∀ x y, x ≤ y → table double (1, 1 / 2) [(2, 3 / 8), (4, 1 / 4)] y ≤ table double (1, 1 / 2) [(2, 3 / 8), (4, 1 / 4)] x := by
  have h := fine_rounded double_laws double_precise (by simp) example_cells (by simp; norm_num)
  exact ⟨h.1, h.2.1 (by simp; norm_num)⟩

/-! ## A rate that rises -/

/-- A falling table of two points in binary64: at the last abscissa the curve is below the last ordinate, so it rises behind it. -/
theorem interpolated_fails : let y : ℝ := 1 / 2 ^ 14 + 1 / 2 ^ 60
    Cells double [(1, 1), (2, y)] ∧ y < 1 ∧ table double (1, 1) [(2, y)] 2 = .fin (1 / 2 ^ 14) ∧ table double (1, 1) [(2, y)] 3 = .fin y ∧
      table double (1, 1) [(2, y)] 2 < table double (1, 1) [(2, y)] 3 := by
  intro y
  have r1 : Rep double 1 := by simpa using double_int 1 (by norm_num)
  have r2 : Rep double 2 := by simpa using double_int 2 (by norm_num)
  have ry : Rep double y := by
    have := half (2 ^ 46 + 1) (by norm_num) 60 (by norm_num)
    have e : (((2 ^ 46 + 1 : ℕ) : ℝ)) / 2 ^ 60 = y := by norm_num [y]
    rwa [e] at this
  have hy : y < 1 := by norm_num [y]
  have y0 : 0 ≤ y := by norm_num [y]
  have hc : Cell double (1, 1) (2, y) := cell_of_nonneg double_laws (by norm_num) r1 r2 r1 ry (by norm_num) (by norm_num) y0
  have ht : Cells double [(1, 1), (2, y)] := by
    unfold Cells
    rw [List.isChain_cons_cons]
    exact ⟨hc, List.isChain_singleton _⟩
  have step : double.rnd (y - 1) = .fin (1 / 2 ^ 14 - 1) := by
    have p : near (-1074) (1 - y) = 1 - 1 / 2 ^ 14 := by
      have y1 : (0 : ℝ) < 1 - y := by linarith
      rw [near_pos y1]
      have l : Int.log 2 (1 - y) = -1 := by
        have a : (-1 : ℤ) ≤ Int.log 2 (1 - y) := by
          rw [← Int.zpow_le_iff_le_log (b := 2) one_lt_two y1]
          norm_num [y]
        have b : Int.log 2 (1 - y) < 0 := by
          rw [← Int.lt_zpow_iff_log_lt (b := 2) one_lt_two y1]
          norm_num [y]
        omega
      have q : quantum (-1074) (1 - y) = -53 := by rw [quantum, l]; norm_num
      unfold posR
      rw [q]
      have hE : LnF.halfEven ((1 - y) * 2 ^ (-(-53 : ℤ))) = (2 ^ 53 - 2 ^ 39 : ℤ) := by
        refine LnF.halfEven_eq ?_
        rw [abs_lt]
        constructor <;> norm_num [y]
      rw [hE]
      norm_num
    have p' : near (-1074) (y - 1) = 1 / 2 ^ 14 - 1 := by
      have := near_neg (e := -1074) (1 - y)
      rw [p, neg_sub] at this
      rw [this]; ring
    have b : |near (-1074) (y - 1)| < 2 ^ (1024 : ℤ) := by
      rw [p']
      calc |(1 / 2 ^ 14 - 1 : ℝ)| < 2 ^ (0 : ℤ) := by rw [abs_lt]; constructor <;> norm_num
        _ ≤ 2 ^ (1024 : ℤ) := two_mono (by norm_num)
    show round (-1074) (y - 1) = _
    rw [round_fin b, p']
  have e2 : table double (1, 1) [(2, y)] 2 = .fin (1 / 2 ^ 14) := by
    obtain ⟨E, W, eE, hv, -, -, hr, -⟩ := cell_value double_laws hc
    have eE' : double.rnd (y - 1) = .fin E := eE
    rw [step, fin_inj] at eE'
    have := table_cell (x := 2) ht (l := []) (r := []) rfl (by norm_num) (Or.inr ⟨rfl, le_rfl⟩)
    rw [this]
    have h := hv 2 (by norm_num) le_rfl
    rw [h]
    have hr' : W 2 = E := hr
    rw [hr', ← eE', show (((1 : ℝ), (1 : ℝ)).2 + (1 / 2 ^ 14 - 1) : ℝ) = ((1 : ℕ) : ℝ) / 2 ^ 14 by norm_num]
    rw [half 1 (by norm_num) 14 (by norm_num), Nat.cast_one]
  have e3 : table double (1, 1) [(2, y)] 3 = .fin y := by
    have := (interpolated_rounded double_laws ht).2.1 3 (by norm_num)
    exact this
  refine ⟨ht, hy, e2, e3, ?_⟩
  rw [e2, e3, fin_lt]
  norm_num [y]

/-! ## How far from the exact curve -/

/-- The straight line through two points. -/
def line (p q : ℝ × ℝ) (x : ℝ) : ℝ := p.2 + (x - p.1) / (q.1 - p.1) * (q.2 - p.2)

/-- **Error of interpolation**: about seven units of rounding of the ordinates, plus underflow. -/
theorem interpolated_accurate {C : Platform} (hC : Laws C) {u eta : ℝ} (hP : Precise C u eta) {a : ℝ × ℝ} {rest l r : List (ℝ × ℝ)} {p q : ℝ × ℝ}
    (ht : Cells C (a :: rest)) (hs : a :: rest = l ++ p :: q :: r) {x w : ℝ} (hx : Rep C x) (h1 : p.1 ≤ x) (h2 : x < q.1 ∨ r = [] ∧ x ≤ q.1)
    (hw : table C a rest x = .fin w) : |w - line p q x| ≤ (6 * u + 2 * eta) * |q.2 - p.2| + u * |line p q x| + 2 * eta := by
  have hc : Cell C p q := (hs ▸ ht : Cells C (l ++ p :: q :: r)).at
  have h3 : x ≤ q.1 := by
    rcases h2 with h | h
    · exact h.le
    · exact h.2
  obtain ⟨d, ed⟩ := hc.dx
  obtain ⟨E, eE⟩ := hc.dy
  have d0 : 0 < d := by
    have := hC.apart _ _ hc.px hc.qx hc.lt
    rwa [ed, fin_lt] at this
  obtain ⟨u0, u1, n0, n1⟩ := And.intro hP.u0 (And.intro hP.u1 (And.intro hP.eta0 hP.eta1))
  obtain ⟨s, es, s0, s1⟩ : ∃ s, C.rnd (x - p.1) = .fin s ∧ 0 ≤ s ∧ s ≤ d := by
    have a := hC.mono 0 (x - p.1) (by linarith)
    have b := hC.mono (x - p.1) (q.1 - p.1) (by linarith)
    rw [hC.zero] at a
    rw [ed] at b
    exact sandwich a b
  obtain ⟨t, et, t0, t1, rt⟩ := between hC hC.zero hC.one (div_nonneg s0 d0.le) ((div_le_one d0).2 s1)
  have rE : Rep C E := hC.idem _ _ eE
  obtain ⟨v, ev, rv⟩ : ∃ v, C.rnd (t * E) = .fin v ∧ Rep C v := by
    rcases le_total 0 E with k | k
    · obtain ⟨v, e, -, -, rv⟩ := between hC hC.zero rE (mul_nonneg t0 k) (mul_le_of_le_one_left k t1)
      exact ⟨v, e, rv⟩
    · obtain ⟨v, e, -, -, rv⟩ := between hC rE hC.zero (by nlinarith : E ≤ t * E) (mul_nonpos_of_nonneg_of_nonpos t0 k)
      exact ⟨v, e, rv⟩
  have value : C.cell (pt p) (pt q) (.fin x) = C.rnd (p.2 + v) := by
    have e1 : C.sub (pt q).1 (pt p).1 = .fin d := by rw [pt, pt, sub_fin_eq hC, ed]
    have e2 : C.sub (pt q).2 (pt p).2 = .fin E := by rw [pt, pt, sub_fin_eq hC, eE]
    rw [Platform.cell, e1, e2, if_pos (show (0 : Dbl) < .fin d from (fin_lt _ _).2 d0)]
    rw [pt]
    rw [sub_fin_eq hC, es, div_fin_eq hC d0.ne', et, mul_fin_eq hC, ev, add_fin_eq hC]
  rw [table_cell ht hs h1 h2, value] at hw
  have diff : ∀ {x y z : ℝ}, Rep C x → Rep C y → C.rnd (x - y) = .fin z → |z - (x - y)| ≤ u * |x - y| := by
    intro x y z hx hy h
    rw [sub_eq_add_neg] at h ⊢
    exact hP.sum x (-y) z hx (hC.minus _ hy) h
  have b1 := diff hx hc.px es
  have b2 := diff hc.qx hc.px ed
  have b3 := hP.near _ _ et
  have b4 := diff hc.qy hc.py eE
  have b5 := hP.near _ _ ev
  have b6 := hP.sum _ _ _ hc.py rv hw
  have dx0 : 0 < q.1 - p.1 := by linarith [hc.lt]
  unfold line
  have τ0 : 0 ≤ (x - p.1) / (q.1 - p.1) := div_nonneg (by linarith) dx0.le
  have τ1 : (x - p.1) / (q.1 - p.1) ≤ 1 := (div_le_one dx0).2 (by linarith)
  rw [abs_of_nonneg (show 0 ≤ x - p.1 by linarith)] at b1
  rw [abs_of_pos dx0] at b2
  have ratio : |s / d - (x - p.1) / (q.1 - p.1)| ≤ 21 / 10 * u := by
    have e : x - p.1 = (x - p.1) / (q.1 - p.1) * (q.1 - p.1) := by rw [div_mul_cancel₀ _ dx0.ne']
    generalize (x - p.1) / (q.1 - p.1) = τ at *
    generalize q.1 - p.1 = D at *
    rw [e] at b1
    have c1 := abs_le.1 b1
    have c2 := abs_le.1 b2
    have dD : 99 / 100 * D ≤ d := by nlinarith
    rw [abs_le]
    constructor
    · rw [le_sub_iff_add_le, le_div_iff₀ d0]
      nlinarith [mul_nonneg u0 dx0.le, mul_nonneg (mul_nonneg u0 dx0.le) τ0, mul_nonneg (mul_nonneg u0 dx0.le) (sub_nonneg.2 τ1), mul_nonneg τ0 dx0.le, mul_le_mul_of_nonneg_left c2.2 τ0, mul_le_mul_of_nonneg_left dD u0]
    · rw [sub_le_iff_le_add, div_le_iff₀ d0]
      nlinarith [mul_nonneg u0 dx0.le, mul_nonneg (mul_nonneg u0 dx0.le) τ0, mul_nonneg (mul_nonneg u0 dx0.le) (sub_nonneg.2 τ1), mul_nonneg τ0 dx0.le, mul_le_mul_of_nonneg_left c2.1 τ0, mul_le_mul_of_nonneg_left dD u0]
  generalize (x - p.1) / (q.1 - p.1) = τ at *
  generalize q.2 - p.2 = Y at *
  rw [abs_of_nonneg (div_nonneg s0 d0.le)] at b3
  have sd : s / d ≤ 1 := (div_le_one d0).2 s1
  have c3 : |t - τ| ≤ 31 / 10 * u + eta := by
    calc |t - τ| = |(t - s / d) + (s / d - τ)| := by ring_nf
      _ ≤ |t - s / d| + |s / d - τ| := abs_add_le _ _
      _ ≤ _ := by nlinarith
  have Y0 := abs_nonneg Y
  have cE : |E| ≤ 101 / 100 * |Y| := by
    calc |E| = |(E - Y) + Y| := by ring_nf
      _ ≤ |E - Y| + |Y| := abs_add_le _ _
      _ ≤ _ := by nlinarith
  have E0 := abs_nonneg E
  have c4 : |t * E - τ * Y| ≤ (42 / 10 * u + 101 / 100 * eta) * |Y| := by
    calc |t * E - τ * Y| = |(t - τ) * E + τ * (E - Y)| := by ring_nf
      _ ≤ |(t - τ) * E| + |τ * (E - Y)| := abs_add_le _ _
      _ = |t - τ| * |E| + τ * |E - Y| := by rw [abs_mul, abs_mul, abs_of_nonneg τ0]
      _ ≤ (31 / 10 * u + eta) * (101 / 100 * |Y|) + 1 * (u * |Y|) := by gcongr
      _ ≤ _ := by nlinarith [mul_nonneg u0 Y0]
  have c5 : |v - τ * Y| ≤ (53 / 10 * u + 101 / 100 * eta) * |Y| + eta := by
    have tE : |t * E| ≤ |E| := by
      rw [abs_mul, abs_of_nonneg t0]
      exact mul_le_of_le_one_left E0 t1
    calc |v - τ * Y| = |(v - t * E) + (t * E - τ * Y)| := by ring_nf
      _ ≤ |v - t * E| + |t * E - τ * Y| := abs_add_le _ _
      _ ≤ _ := by nlinarith [mul_nonneg u0 Y0, mul_le_mul_of_nonneg_left (tE.trans cE) u0]
  have c6 : |p.2 + v| ≤ |p.2 + τ * Y| + ((53 / 10 * u + 101 / 100 * eta) * |Y| + eta) := by
    calc |p.2 + v| = |(p.2 + τ * Y) + (v - τ * Y)| := by ring_nf
      _ ≤ |p.2 + τ * Y| + |v - τ * Y| := abs_add_le _ _
      _ ≤ _ := by linarith
  calc |w - (p.2 + τ * Y)| = |(w - (p.2 + v)) + (v - τ * Y)| := by ring_nf
    _ ≤ |w - (p.2 + v)| + |v - τ * Y| := abs_add_le _ _
    _ ≤ u * (|p.2 + τ * Y| + ((53 / 10 * u + 101 / 100 * eta) * |Y| + eta)) + ((53 / 10 * u + 101 / 100 * eta) * |Y| + eta) := by
      have := mul_le_mul_of_nonneg_left c6 u0
      linarith
    _ ≤ _ := by
      have k1 := mul_nonneg u0 Y0
      have k2 := mul_nonneg n0 Y0
      have k3 : u * (53 / 10 * u * |Y|) ≤ 1 / 100 * (53 / 10 * u * |Y|) := by gcongr
      have k4 : u * (101 / 100 * eta * |Y|) ≤ 1 / 100 * (101 / 100 * eta * |Y|) := by gcongr
      have k5 : u * eta ≤ 1 / 100 * eta := by gcongr
      nlinarith

example : ∃ w, table double (1, 1 / 2) [(2, 3 / 8), (4, 1 / 4)] 3 = .fin w ∧ |w - 5 / 16| ≤ 1 / 2 ^ 50 := by
  have h := ((interpolated_rounded double_laws example_cells).2.2 [(1, 1 / 2)] (2, 3 / 8) (4, 1 / 4) [] rfl).2 3 3 (by norm_num) le_rfl (by norm_num)
  obtain ⟨w, e, -⟩ := sandwich (h.2.2 (by norm_num) (by norm_num)) (h.2.1 (by norm_num)).2
  refine ⟨w, e, ?_⟩
  have r3 : Rep double 3 := by simpa using double_int 3 (by norm_num)
  have b := interpolated_accurate double_laws double_precise example_cells (l := [(1, 1 / 2)]) (p := (2, 3 / 8)) (q := (4, 1 / 4)) (r := []) rfl
    r3 (by norm_num) (Or.inr ⟨rfl, by norm_num⟩) e
  have l : line (2, 3 / 8) (4, 1 / 4) 3 = 5 / 16 := by norm_num [line]
  rw [l] at b
  have t : (2 : ℝ) ^ (-1075 : ℤ) ≤ 1 / 2 ^ 60 := by
    have : (2 : ℝ) ^ (-1075 : ℤ) ≤ 2 ^ (-60 : ℤ) := two_mono (by norm_num)
    refine this.trans ?_
    norm_num
  have e1 : |((4 : ℝ), (1 / 4 : ℝ)).2 - ((2 : ℝ), (3 / 8 : ℝ)).2| = 1 / 8 := by norm_num
  have e2 : |(5 / 16 : ℝ)| = 5 / 16 := by norm_num
  rw [e1, e2] at b
  generalize (2 : ℝ) ^ (-1075 : ℤ) = z at *
  norm_num at *
  linarith

/-! ## Log-log interpolation -/

/-- The curve of a table in log scale. -/
def logTableCurve (C : Platform) (a : ℝ × ℝ) (rest : List (ℝ × ℝ)) (x : ℝ) : Dbl :=
  C.logLog (pt a) (pt ((a :: rest).getLast (List.cons_ne_nil _ _))) ((a :: rest).map pt) (.fin x)

/-- The rounded logarithms of a point. -/
def logPt (C : Platform) (p : ℝ × ℝ) : ℝ × ℝ := (C.l p.1, C.l p.2)

/-- The table is of positive numbers of the format. -/
def Positive (C : Platform) (pts : List (ℝ × ℝ)) : Prop := ∀ p ∈ pts, 0 < p.1 ∧ 0 < p.2 ∧ Rep C p.1 ∧ Rep C p.2

theorem log_fin {C : Platform} (hC : Laws C) {z : ℝ} (h : 0 < z) (hz : Rep C z) : C.log (.fin z) = .fin (C.l z) := by
  obtain ⟨s, e, -⟩ := hC.logRounded z h hz
  unfold LnF.Machine.log LnF.Machine.l
  dsimp only
  rw [if_pos h, e]
  rfl

theorem logs_map {C : Platform} (hC : Laws C) {pts : List (ℝ × ℝ)} (h : Positive C pts) : C.logTable (pts.map pt) = (pts.map (logPt C)).map pt := by
  rw [Platform.logTable, List.map_map, List.map_map]
  refine List.map_congr_left fun p hp => ?_
  obtain ⟨h1, h2, h3, h4⟩ := h p hp
  show (C.log (.fin p.1), C.log (.fin p.2)) = (Dbl.fin (C.l p.1), Dbl.fin (C.l p.2))
  rw [log_fin hC h1 h3, log_fin hC h2 h4]

theorem l_mono {C : Platform} (hC : Laws C) {x y : ℝ} (x0 : 0 < x) (h : x ≤ y) (hx : Rep C x) (hy : Rep C y) : C.l x ≤ C.l y := by
  have := log_mono hC x0.le h
  rwa [log_fin hC x0 hx, log_fin hC (x0.trans_le h) hy, fin_le] at this

/-- **Log-log curves.**  On an interval of a table of positive numbers whose logarithms still increase after rounding: never negative,
never NaN, and monotone in the direction of the table. -/
theorem loglog_rounded {C : Platform} (hC : Laws C) {a : ℝ × ℝ} {rest l r : List (ℝ × ℝ)} {p q : ℝ × ℝ} (hpos : Positive C (a :: rest))
    (sorted : (a :: rest).Pairwise (fun a b => a.1 < b.1)) (ht : Cells C ((a :: rest).map (logPt C))) (hs : a :: rest = l ++ p :: q :: r)
    {x y : ℝ} (h1 : p.1 ≤ x) (h2 : x ≤ y) (hx : Rep C x) (hy : Rep C y) (h3 : C.l y < C.l q.1 ∨ r = [] ∧ y ≤ q.1) :
    .fin 0 ≤ logTableCurve C a rest x ∧
    (p.2 ≤ q.2 → logTableCurve C a rest x ≤ logTableCurve C a rest y) ∧
    (q.2 ≤ p.2 → logTableCurve C a rest y ≤ logTableCurve C a rest x) := by
  have hp : p ∈ a :: rest := by rw [hs]; simp
  have hq : q ∈ a :: rest := by rw [hs]; simp
  obtain ⟨p0, p0', rp, rp'⟩ := hpos p hp
  obtain ⟨q0, q0', rq, rq'⟩ := hpos q hq
  have lastq := le_last sorted (List.cons_ne_nil _ _) hq
  have firstp := first_le sorted hp
  have x0 : 0 < x := p0.trans_le h1
  have y0 : 0 < y := x0.trans_le h2
  have yq : y ≤ q.1 := by
    rcases h3 with h | h
    · by_contra c
      exact absurd (l_mono hC q0 (not_le.1 c).le rq hy) (not_le.2 h)
    · exact h.2
  have inside : ∀ z, p.1 ≤ z → z ≤ q.1 → Rep C z →
      logTableCurve C a rest z = C.exp (C.interp (((a :: rest).map (logPt C)).map pt) (.fin (C.l z))) := by
    intro z h h' hz
    have n1 : ¬ Dbl.fin z < (pt a).1 := fun c => absurd ((fin_lt _ _).1 c) (not_lt.2 (firstp.trans h))
    have n2 : ¬ (pt ((a :: rest).getLast (List.cons_ne_nil _ _))).1 < Dbl.fin z := fun c => absurd ((fin_lt _ _).1 c) (not_lt.2 (h'.trans lastq))
    rw [logTableCurve, Platform.logLog, if_neg n1, if_neg n2, logs_map hC hpos, log_fin hC (p0.trans_le h) hz]
  have hs' : (a :: rest).map (logPt C) = l.map (logPt C) ++ logPt C p :: logPt C q :: r.map (logPt C) := by
    rw [hs, List.map_append, List.map_cons, List.map_cons]
  have hc : Cell C (logPt C p) (logPt C q) := (hs' ▸ ht : Cells C _).at
  have b1 : (logPt C p).1 ≤ C.l x := l_mono hC p0 h1 rp hx
  have b2 : C.l x ≤ C.l y := l_mono hC x0 h2 hx hy
  have b3 : C.l y < (logPt C q).1 ∨ r.map (logPt C) = [] := by
    rcases h3 with h | h
    · exact Or.inl h
    · exact Or.inr (by rw [h.1]; rfl)
  have b4 : C.l y ≤ (logPt C q).1 := l_mono hC y0 yq hy rq
  have b5 : C.l x < (logPt C q).1 ∨ r.map (logPt C) = [] := b3.imp_left fun h => b2.trans_lt h
  obtain ⟨E, W, eE, hv, -, -, -, up, down⟩ := cell_value hC hc
  obtain ⟨s1, s2⟩ := step_sign hC eE
  have val : ∀ z, (logPt C p).1 ≤ z → z ≤ (logPt C q).1 → (z < (logPt C q).1 ∨ r.map (logPt C) = []) →
      C.interp (((a :: rest).map (logPt C)).map pt) (.fin z) = C.rnd ((logPt C p).2 + W z) := by
    intro z k1 k2 k3
    rw [← hv z k1 k2, hs']
    exact interp_at _ _ _ _ (hs' ▸ ht.sorted) z k1 k3
  rw [inside x h1 (h2.trans yq) hx, inside y (h1.trans h2) yq hy, val _ b1 (b2.trans b4) b5, val _ (b1.trans b2) b4 b3]
  refine ⟨exp_nonneg hC (rnd_ok hC _), fun k => exp_mono hC (hC.mono _ _ ?_), fun k => exp_mono hC (hC.mono _ _ ?_)⟩
  · have := up (s1 (l_mono hC p0' k rp' rq')) _ _ b1 b2 b4
    linarith
  · have := down (s2 (l_mono hC q0' k rq' rp')) _ _ b1 b2 b4
    linarith

theorem l_two : 1 / 2 ≤ double.l 2 ∧ double.l 2 ≤ 1 ∧ double.l (1 / 2) ≤ 0 ∧ Rep double (double.l 2) ∧ Rep double (double.l (1 / 2)) ∧ Rep double 2 ∧
    Rep double (1 / 2) ∧ double.l 1 = 0 := by
  have r1 : Rep double 1 := double_one
  have r2 : Rep double 2 := by simpa using double_int 2 (by norm_num)
  have rh : Rep double (1 / 2) := by simpa using half 1 (by norm_num) 1 (by norm_num)
  have rep : ∀ z, 0 < z → Rep double z → Rep double (double.l z) := by
    intro z h hz
    obtain ⟨s, e, k⟩ := double_laws.logRounded z h hz
    have : double.l z = s := by unfold LnF.Machine.l; rw [e]; rfl
    rw [this]; exact k
  have lb := Real.log_two_gt_d9
  have ub := Real.log_two_lt_d9
  have one : double.l 1 = 0 := by unfold LnF.Machine.l; rw [double_laws.logOne]; rfl
  have two : double.rlog 2 = .fin (double.l 2) := by
    obtain ⟨s, e, -⟩ := double_laws.logRounded 2 two_pos r2
    unfold LnF.Machine.l; rw [e]; rfl
  have m1 := round_mono (e := -1074) (show (1 / 2 : ℝ) ≤ Real.log 2 by linarith)
  have m2 := round_mono (e := -1074) (show Real.log 2 ≤ 1 by linarith)
  have rh' : round (-1074) (1 / 2) = .fin (1 / 2) := rh
  have two' : round (-1074) (Real.log 2) = .fin (double.l 2) := two
  rw [rh', two', fin_le] at m1
  rw [double_one, two', fin_le] at m2
  have m3 := l_mono double_laws (by norm_num) (by norm_num : (1 / 2 : ℝ) ≤ 1) rh r1
  rw [one] at m3
  exact ⟨m1, m2, m3, rep 2 two_pos r2, rep _ (by norm_num) rh, r2, rh, one⟩

example : .fin 0 ≤ logTableCurve double (1, 1) [(2, 1 / 2)] (3 / 2) ∧
    logTableCurve double (1, 1) [(2, 1 / 2)] 2 ≤ logTableCurve double (1, 1) [(2, 1 / 2)] (3 / 2) := by
  obtain ⟨m1, m2, m3, k1, k2, r2, rh, one⟩ := l_two
  have r1 : Rep double 1 := double_one
  have r3 : Rep double (3 / 2) := by
    have := half 3 (by norm_num) 1 (by norm_num)
    norm_num at this
    exact this
  have r0 : Rep double 0 := double_laws.zero
  have h := loglog_rounded double_laws (a := (1, 1)) (rest := [(2, 1 / 2)]) (l := []) (p := (1, 1)) (q := (2, 1 / 2)) (r := []) (x := 3 / 2) (y := 2)
    (by
      intro p hp
      simp only [List.mem_cons, List.not_mem_nil, or_false] at hp
      rcases hp with rfl | rfl
      · exact ⟨by norm_num, by norm_num, r1, r1⟩
      · exact ⟨by norm_num, by norm_num, r2, rh⟩)
    (by simp) (by
      unfold Cells
      rw [List.map_cons, List.map_cons, List.map_nil, List.isChain_cons_cons]
      refine ⟨?_, List.isChain_singleton _⟩
      unfold logPt
      simp only [one]
      exact ⟨by simp only; linarith, r0, k1, r0, k2, ⟨_, by simp only [sub_zero]; exact k1⟩, ⟨_, by simp only [sub_zero]; exact k2⟩⟩)
    rfl (by norm_num) (by norm_num) r3 r2 (Or.inr ⟨rfl, by norm_num⟩)
  exact ⟨h.1, h.2.2 (by norm_num)⟩

/-- Different numbers of the format have the same logarithm after rounding.  For the abscissae of a log-log table this means that the
constructor hands a table to the GSL that does not increase, which its error handler answers by ending the process. -/
theorem abscissae_fails : ∃ x y, 0 < x ∧ x < y ∧ Rep double x ∧ Rep double y ∧ double.log (.fin x) = double.log (.fin y) := by
  -- three neighbours
  have numbers : ∀ i : ℕ, i ≤ 2 → Rep double (((2 ^ 52 + i : ℕ) : ℝ) * 2 ^ (48 : ℤ)) := fun i hi => double_num _ 48 (by omega) (by norm_num) (by norm_num)
  have logs : ∀ i : ℕ, i ≤ 2 → ∃ a : ℤ, double.l (((2 ^ 52 + i : ℕ) : ℝ) * 2 ^ (48 : ℤ)) = a * 2 ^ (-46 : ℤ) ∧
      |(a : ℝ) - (100 * Real.log 2) * 2 ^ 46| ≤ 1 / 2 + 1 / 32 := by
    intro i hi
    have hi' : (i : ℝ) ≤ 2 := by exact_mod_cast hi
    have i0 : (0 : ℝ) ≤ i := Nat.cast_nonneg i
    have pos : (0 : ℝ) < ((2 ^ 52 + i : ℕ) : ℝ) * 2 ^ (48 : ℤ) := by positivity
    have split : Real.log (((2 ^ 52 + i : ℕ) : ℝ) * 2 ^ (48 : ℤ)) = 100 * Real.log 2 + Real.log (1 + i / 2 ^ 52) := by
      rw [show ((2 ^ 52 + i : ℕ) : ℝ) * 2 ^ (48 : ℤ) = 2 ^ 100 * (1 + i / 2 ^ 52) by push_cast; norm_num; ring]
      rw [Real.log_mul (by positivity) (by positivity), Real.log_pow]
      norm_num
    have lo : 0 ≤ Real.log (1 + (i : ℝ) / 2 ^ 52) := Real.log_nonneg (by
      have : (0 : ℝ) ≤ i / 2 ^ 52 := by positivity
      linarith)
    have hi2 : Real.log (1 + (i : ℝ) / 2 ^ 52) ≤ 1 / 2 ^ 51 := by
      have := Real.log_le_sub_one_of_pos (show (0 : ℝ) < 1 + i / 2 ^ 52 by positivity)
      have : (i : ℝ) / 2 ^ 52 ≤ 2 / 2 ^ 52 := by gcongr
      norm_num at *
      linarith
    have lb := Real.log_two_gt_d9
    have ub := Real.log_two_lt_d9
    generalize hL : Real.log (((2 ^ 52 + i : ℕ) : ℝ) * 2 ^ (48 : ℤ)) = L at *
    have L0 : 0 < L := by rw [split]; linarith
    have lg : Int.log 2 L = 6 := by
      have a : (6 : ℤ) ≤ Int.log 2 L := by
        rw [← Int.zpow_le_iff_le_log (b := 2) one_lt_two L0, split]
        norm_num
        linarith
      have b : Int.log 2 L < 7 := by
        rw [← Int.lt_zpow_iff_log_lt (b := 2) one_lt_two L0, split]
        norm_num at hi2 ⊢
        linarith
      omega
    have q : quantum (-1074) L = -46 := by rw [quantum, lg]; norm_num
    have e : double.l (((2 ^ 52 + i : ℕ) : ℝ) * 2 ^ (48 : ℤ)) = near (-1074) L := by
      obtain ⟨s, es, -⟩ := double_laws.logRounded _ pos (numbers i hi)
      have k : double.l (((2 ^ 52 + i : ℕ) : ℝ) * 2 ^ (48 : ℤ)) = s := by unfold LnF.Machine.l; rw [es]; rfl
      have es' : round (-1074) (Real.log (((2 ^ 52 + i : ℕ) : ℝ) * 2 ^ (48 : ℤ))) = .fin s := es
      rw [hL] at es'
      rw [k, (round_eq es').1]
    refine ⟨LnF.halfEven (L * 2 ^ (46 : ℤ)), ?_, ?_⟩
    · rw [e, near_pos L0, posR, q]
      norm_num
    · have n := LnF.halfEven_near (L * 2 ^ (46 : ℤ))
      generalize (LnF.halfEven (L * 2 ^ (46 : ℤ)) : ℝ) = A at *
      rw [split] at n
      generalize Real.log (1 + (i : ℝ) / 2 ^ 52) = δ at *
      generalize Real.log 2 = K at *
      rw [abs_le] at n ⊢
      norm_num at n hi2 ⊢
      constructor <;> linarith
  have key : ∃ i j : ℕ, i ≤ 2 ∧ j ≤ 2 ∧ i ≠ j ∧
      double.l (((2 ^ 52 + i : ℕ) : ℝ) * 2 ^ (48 : ℤ)) = double.l (((2 ^ 52 + j : ℕ) : ℝ) * 2 ^ (48 : ℤ)) := by
    obtain ⟨a, ea, ha⟩ := logs 0 (by norm_num)
    obtain ⟨b, eb, hb⟩ := logs 1 (by norm_num)
    obtain ⟨c, ec, hc⟩ := logs 2 (by norm_num)
    have near2 : ∀ a b : ℤ, |(a : ℝ) - (100 * Real.log 2) * 2 ^ 46| ≤ 1 / 2 + 1 / 32 → |(b : ℝ) - (100 * Real.log 2) * 2 ^ 46| ≤ 1 / 2 + 1 / 32 → a < b + 2 := by
      intro a b ha hb
      have := abs_le.1 ha
      have := abs_le.1 hb
      have : (a : ℝ) < b + 2 := by linarith
      exact_mod_cast this
    have n1 := near2 a b ha hb
    have n2 := near2 b a hb ha
    have n3 := near2 a c ha hc
    have n4 := near2 c a hc ha
    have n5 := near2 b c hb hc
    have n6 := near2 c b hc hb
    rcases eq_or_ne a b with h | h
    · exact ⟨0, 1, by norm_num, by norm_num, by norm_num, by rw [ea, eb, h]⟩
    · rcases eq_or_ne b c with k | k
      · exact ⟨1, 2, by norm_num, by norm_num, by norm_num, by rw [eb, ec, k]⟩
      · exact ⟨0, 2, by norm_num, by norm_num, by norm_num, by rw [ea, ec, show a = c by omega]⟩
  obtain ⟨i, j, hi, hj, ne, e⟩ := key
  have pos : ∀ i : ℕ, (0 : ℝ) < ((2 ^ 52 + i : ℕ) : ℝ) * 2 ^ (48 : ℤ) := fun i => by positivity
  have lt : ∀ i j : ℕ, i < j → ((2 ^ 52 + i : ℕ) : ℝ) * 2 ^ (48 : ℤ) < ((2 ^ 52 + j : ℕ) : ℝ) * 2 ^ (48 : ℤ) := by
    intro i j h
    have : ((2 ^ 52 + i : ℕ) : ℝ) < ((2 ^ 52 + j : ℕ) : ℝ) := by exact_mod_cast Nat.add_lt_add_left h _
    gcongr
  rcases lt_or_gt_of_ne ne with h | h
  · exact ⟨_, _, pos i, lt i j h, numbers i hi, numbers j hj, by
      rw [log_fin double_laws (pos i) (numbers i hi), log_fin double_laws (pos j) (numbers j hj), e]⟩
  · exact ⟨_, _, pos j, lt j i h, numbers j hj, numbers i hi, by
      rw [log_fin double_laws (pos i) (numbers i hi), log_fin double_laws (pos j) (numbers j hj), e]⟩

/-- Different ordinates have the same logarithm after rounding: a log-log curve through two equal ordinates need not have that ordinate
between them, although it has it outside. -/
theorem loglog_fails : ∃ y, 0 < y ∧ Rep double y ∧ logTableCurve double (1, y) [(2, y)] (1 / 2) = .fin y ∧
    logTableCurve double (1, y) [(2, y)] 1 ≠ .fin y := by
  obtain ⟨m1, m2, m3, k1, k2, r2, rh, one⟩ := l_two
  have r1 : Rep double 1 := double_one
  -- the curve at the first point
  have curve : ∀ y, 0 < y → Rep double y → logTableCurve double (1, y) [(2, y)] 1 = double.exp (.fin (double.l y)) := by
    intro y y0 hy
    have ly : double.log (.fin y) = .fin (double.l y) := log_fin double_laws y0 hy
    have rl : Rep double (double.l y) := by
      obtain ⟨s, e, k⟩ := double_laws.logRounded y y0 hy
      have : double.l y = s := by unfold LnF.Machine.l; rw [e]; rfl
      rw [this]; exact k
    have n1 : ¬ Dbl.fin 1 < (pt ((1 : ℝ), y)).1 := fun c => absurd ((fin_lt _ _).1 c) (lt_irrefl _)
    have n2 : ¬ (pt ([((1 : ℝ), y), (2, y)].getLast (List.cons_ne_nil _ _))).1 < Dbl.fin 1 := by
      intro c
      have : (2 : ℝ) < 1 := (fin_lt _ _).1 c
      norm_num at this
    have pos : Positive double [(1, y), (2, y)] := by
      intro p hp
      simp only [List.mem_cons, List.not_mem_nil, or_false] at hp
      rcases hp with rfl | rfl
      · exact ⟨one_pos, y0, r1, hy⟩
      · exact ⟨two_pos, y0, r2, hy⟩
    rw [logTableCurve, Platform.logLog, if_neg n1, if_neg n2, logs_map double_laws pos, log_fin double_laws one_pos r1]
    congr 1
    have ch : [(1, y), (2, y)].map (logPt double) = [] ++ logPt double (1, y) :: logPt double (2, y) :: [] := rfl
    have hc : Cell double (logPt double (1, y)) (logPt double (2, y)) := by
      unfold logPt
      simp only [one]
      exact ⟨by simp only; linarith, double_laws.zero, k1, rl, rl, ⟨_, by simp only [sub_zero]; exact k1⟩, ⟨0, by simp only [sub_self]; exact double_laws.zero⟩⟩
    obtain ⟨E, W, -, hv, -, hl, -⟩ := cell_value double_laws hc
    rw [ch, interp_at [] _ _ [] (by simpa using hc.lt) _ (by exact le_rfl) (Or.inr rfl)]
    have := hv (logPt double (1, y)).1 le_rfl hc.lt.le
    rw [hl, add_zero] at this
    exact this.trans rl
  have outside : ∀ y, logTableCurve double (1, y) [(2, y)] (1 / 2) = .fin y := by
    intro y
    have n1 : Dbl.fin (1 / 2) < (pt ((1 : ℝ), y)).1 := (fin_lt _ _).2 (by norm_num)
    rw [logTableCurve, Platform.logLog, if_pos n1]; rfl
  obtain ⟨u, v, u0, uv, ru, rv, e⟩ := abscissae_fails
  have v0 := u0.trans uv
  rw [log_fin double_laws u0 ru, log_fin double_laws v0 rv, fin_inj] at e
  by_cases h : logTableCurve double (1, u) [(2, u)] 1 = .fin u
  · refine ⟨v, v0, rv, outside _, fun k => uv.ne ?_⟩
    rw [curve _ u0 ru, e] at h
    rw [curve _ v0 rv, h, fin_inj] at k
    exact k
  · exact ⟨u, u0, ru, outside _, h⟩

end

end Slat.CurveF
