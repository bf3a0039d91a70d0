import Verif.AccelModel
import Verif.FunctionsProps
import Verif.ParForLemmas

/-! Proof support for interpolated functions shared by threads (helper file). -/

namespace Slat.Accel

open Slat Dbl Functions

variable {Tid : Type} [DecidableEq Tid]

/-- Index `j` is the interval of the table for `x`: not left of it, and not right of it unless it is the last one. -/
def InCell (pts : List (ℝ × ℝ)) (x : Dbl) (j : ℕ) : Prop :=
  ∃ p q, pts[j]? = some p ∧ pts[j + 1]? = some q ∧ ¬ x < .fin p.1 ∧ (¬ .fin q.1 ≤ x ∨ j + 2 = pts.length)

theorem lt_not_le {x : Dbl} {a : ℝ} (h : x < .fin a) : ¬ Dbl.fin a ≤ x := by
  cases x with
  | fin r => rw [fin_lt] at h; rw [fin_le]; exact not_le.2 h
  | nan => exact absurd h (not_nan_lt _)
  | pinf => exact absurd h (not_pinf_lt _)
  | ninf => exact not_fin_le_ninf _

theorem bsearch_ok (pts : List (ℝ × ℝ)) (x : Dbl) (lo hi : ℕ) (h : lo < hi) (hl : hi < pts.length)
    (hp : ∀ p, pts[lo]? = some p → ¬ x < .fin p.1) :
    ∃ j, bsearch pts x lo hi = some j ∧ j < hi ∧ (∀ p, pts[j]? = some p → ¬ x < .fin p.1) ∧
      ((∃ q, pts[j + 1]? = some q ∧ x < .fin q.1) ∨ j + 1 = hi) := by
  induction hn : hi - lo using Nat.strong_induction_on generalizing lo hi with
  | _ n ih =>
    rw [bsearch]
    split
    · rename_i h1
      have hm : (hi + lo) / 2 < pts.length := by omega
      rw [List.getElem?_eq_getElem hm]
      dsimp only
      split
      · rename_i hx
        obtain ⟨j, h2, h3, h4, h5⟩ := ih _ (by omega) lo ((hi + lo) / 2) (by omega) hm hp rfl
        refine ⟨j, h2, by omega, h4, ?_⟩
        rcases h5 with h5 | h5
        · exact .inl h5
        · exact .inl ⟨_, by rw [h5, List.getElem?_eq_getElem hm], hx⟩
      · rename_i hx
        refine ih _ (by omega) ((hi + lo) / 2) hi (by omega) hl ?_ rfl
        intro p hp'
        rw [List.getElem?_eq_getElem hm] at hp'
        cases hp'
        exact hx
    · exact ⟨lo, rfl, h, hp, .inr (by omega)⟩

theorem find_ok (pts : List (ℝ × ℝ)) (x : Dbl) (i : ℕ) (h : i + 1 < pts.length)
    (h0 : ∀ p, pts[0]? = some p → ¬ x < .fin p.1) :
    ∃ w, find pts x i = some w ∧ InCell pts x (w.getD i) ∧ w.getD i + 1 < pts.length := by
  have hi : i < pts.length := by omega
  unfold find
  rw [List.getElem?_eq_getElem hi]
  dsimp only
  split
  · rename_i hx
    have hi0 : 0 < i := by
      rcases Nat.eq_zero_or_pos i with rfl | hh
      · exact absurd hx (h0 _ (List.getElem?_eq_getElem hi))
      · exact hh
    obtain ⟨j, h1, h2, h3, h4⟩ := bsearch_ok pts x 0 i hi0 hi h0
    have hj1 : j + 1 < pts.length := by omega
    have hj : j < pts.length := by omega
    refine ⟨some j, by rw [h1]; rfl, ⟨_, _, List.getElem?_eq_getElem hj, List.getElem?_eq_getElem hj1, ?_, ?_⟩, hj1⟩
    · exact h3 _ (List.getElem?_eq_getElem hj)
    · left
      rcases h4 with ⟨q, h4, h5⟩ | h4
      · rw [List.getElem?_eq_getElem hj1] at h4
        cases h4
        exact lt_not_le h5
      · subst h4
        exact lt_not_le hx
  · rename_i hx
    rw [List.getElem?_eq_getElem h]
    dsimp only
    split
    · obtain ⟨j, h1, h2, h3, h4⟩ := bsearch_ok pts x i (pts.length - 1) (by omega) (by omega) (by
        intro p hp
        rw [List.getElem?_eq_getElem hi] at hp
        cases hp
        exact hx)
      have hj1 : j + 1 < pts.length := by omega
      have hj : j < pts.length := by omega
      refine ⟨some j, by rw [h1]; rfl, ⟨_, _, List.getElem?_eq_getElem hj, List.getElem?_eq_getElem hj1, ?_, ?_⟩, hj1⟩
      · exact h3 _ (List.getElem?_eq_getElem hj)
      · rcases h4 with ⟨q, h4, h5⟩ | h4
        · left
          rw [List.getElem?_eq_getElem hj1] at h4
          cases h4
          exact lt_not_le h5
        · right
          simp only [Option.getD_some]
          omega
    · rename_i hx2
      exact ⟨none, rfl, ⟨_, _, List.getElem?_eq_getElem hi, List.getElem?_eq_getElem h, hx, .inl hx2⟩, h⟩

theorem piece_defined (pts : List (ℝ × ℝ)) (x : Dbl) (i : ℕ) (h : i + 1 < pts.length) : ∃ y, piece pts x i = some y := by
  unfold piece
  rw [List.getElem?_eq_getElem h, List.getElem?_eq_getElem (show i < pts.length by omega)]
  exact ⟨_, rfl⟩

/-- What the GSL is documented to compute for an argument in the range of the table. -/
noncomputable def tableValue (pts : List (ℝ × ℝ)) : Dbl → Dbl
  | .fin r => .fin (interp pts r)
  | _ => .nan

theorem split_at (pts : List (ℝ × ℝ)) (j : ℕ) (p q : ℝ × ℝ) (hp : pts[j]? = some p) (hq : pts[j + 1]? = some q) :
    pts = pts.take j ++ p :: q :: pts.drop (j + 2) := by
  obtain ⟨h1, rfl⟩ := List.getElem?_eq_some_iff.1 hp
  obtain ⟨h2, rfl⟩ := List.getElem?_eq_some_iff.1 hq
  conv_lhs => rw [← List.take_append_drop j pts]
  congr 1
  rw [List.drop_eq_getElem_cons h1, List.drop_eq_getElem_cons h2]

theorem piece_ok (pts : List (ℝ × ℝ)) (hs : pts.Pairwise (fun p q => p.1 < q.1)) (x : Dbl) (j : ℕ)
    (hx : x = .nan ∨ ∃ r, x = .fin r ∧ ∀ b, pts.getLast? = some b → r ≤ b.1) (h : InCell pts x j) :
    piece pts x j = some (tableValue pts x) := by
  obtain ⟨p, q, hp, hq, h1, h2⟩ := h
  have hpts := split_at pts j p q hp hq
  have hpq : p.1 < q.1 := by
    rw [hpts] at hs
    exact pairwise_append_cell hs
  unfold piece
  rw [hp, hq]
  dsimp only
  rw [if_pos hpq]
  rcases hx with rfl | ⟨r, rfl, hr⟩
  · rfl
  · have hpr : p.1 ≤ r := by rw [fin_lt] at h1; exact not_lt.1 h1
    have hrq : r ≤ q.1 := by
      rcases h2 with h2 | h2
      · rw [fin_le] at h2; exact (not_le.1 h2).le
      · refine hr q ?_
        rw [List.getLast?_eq_getElem?, ← h2]
        exact hq
    rw [tableValue]
    conv_rhs => rw [hpts]
    rw [interp_between _ p q _ (by rw [← hpts]; exact hs) r hpr hrq]
    simp only [fin_sub, fin_div_of_ne (sub_ne_zero.2 hpq.ne'), fin_mul, fin_add]

/-- Arguments that are not cut off at the ends (src/functions.cpp:217-222). -/
def Inside (o : Obj) (x : Dbl) : Prop := ¬ x < .fin o.first.1 ∧ ¬ .fin o.last.1 < x

/-- The value of the function, as `Functions.linear` and `Functions.logLog`. -/
noncomputable def value (o : Obj) (x : Dbl) : Dbl :=
  if x < .fin o.first.1 then .fin o.first.2
  else if .fin o.last.1 < x then .fin o.last.2
  else o.out (tableValue o.pts (o.into x))

/-- The table is one the GSL accepts, and covers the arguments that are not cut off. -/
structure Fit (o : Obj) : Prop where
  ok : tableOk o.pts
  covers : ∀ x, Inside o x → (∀ p, o.pts[0]? = some p → ¬ o.into x < .fin p.1) ∧
    (o.into x = .nan ∨ ∃ r, o.into x = .fin r ∧ ∀ b, o.pts.getLast? = some b → r ≤ b.1)

theorem inside_cases {o : Obj} {x : Dbl} (h : Inside o x) : x = .nan ∨ ∃ r, x = .fin r ∧ o.first.1 ≤ r ∧ r ≤ o.last.1 := by
  obtain ⟨h1, h2⟩ := h
  cases x with
  | fin r => exact .inr ⟨r, rfl, not_lt.1 (by rwa [fin_lt] at h1), not_lt.1 (by rwa [fin_lt] at h2)⟩
  | nan => exact .inl rfl
  | pinf => exact absurd trivial h2
  | ninf => exact absurd trivial h1

theorem head_get {pts : List (ℝ × ℝ)} {a p : ℝ × ℝ} (ha : pts.head? = some a) (hp : pts[0]? = some p) : p = a := by
  cases pts with
  | nil => cases ha
  | cons c l => simp_all

theorem fit_linear {pts : List (ℝ × ℝ)} {a b : ℝ × ℝ} (h : tableOk pts) (ha : pts.head? = some a) (hb : pts.getLast? = some b) :
    Fit (linearObj a b pts) := by
  refine ⟨h, ?_⟩
  intro x hx
  rcases inside_cases hx with rfl | ⟨r, rfl, h1, h2⟩
  · exact ⟨fun p _ => not_nan_lt _, .inl rfl⟩
  · refine ⟨?_, .inr ⟨r, rfl, ?_⟩⟩
    · intro p hp
      rw [head_get ha hp]
      show ¬ Dbl.fin r < _
      rw [fin_lt]
      exact not_lt.2 h1
    · intro b' hb'
      have : b' = b := by
        have := hb'.symm.trans hb
        exact Option.some.inj this
      rw [this]
      exact h2

theorem fit_logLog {pts : List (ℝ × ℝ)} {a b : ℝ × ℝ} (hpos : ∀ p ∈ pts, 0 < p.1) (h : tableOk (logTable pts))
    (ha : pts.head? = some a) (hb : pts.getLast? = some b) : Fit (logLogObj a b pts) := by
  have ha0 : 0 < a.1 := hpos a (List.mem_of_mem_head? ha)
  refine ⟨h, ?_⟩
  intro x hx
  rcases inside_cases hx with rfl | ⟨r, rfl, h1, h2⟩
  · exact ⟨fun p _ => not_nan_lt _, .inl rfl⟩
  · have hr : 0 < r := lt_of_lt_of_le ha0 h1
    have hl : (logLogObj a b pts).into (.fin r) = .fin (Real.log r) := log_pos hr
    rw [hl]
    refine ⟨?_, .inr ⟨_, rfl, ?_⟩⟩
    · intro p hp
      have hh : (logTable pts).head? = some (Real.log a.1, Real.log a.2) := by simp [logTable, ha]
      rw [head_get hh hp, fin_lt]
      exact (Real.log_le_log ha0 h1).not_gt
    · intro b' hb'
      have hh : (logTable pts).getLast? = some (Real.log b.1, Real.log b.2) := by simp [logTable, hb]
      have : b' = (Real.log b.1, Real.log b.2) := Option.some.inj (hb'.symm.trans hh)
      rw [this]
      exact Real.log_le_log hr h2

theorem value_linear (a b : ℝ × ℝ) (pts : List (ℝ × ℝ)) (x : Dbl) : value (linearObj a b pts) x = linear a b pts x := by
  unfold value linear
  show (if x < .fin a.1 then Dbl.fin a.2 else if .fin b.1 < x then .fin b.2 else tableValue pts x) = _
  cases x <;> rfl

theorem value_logLog (a b : ℝ × ℝ) (pts : List (ℝ × ℝ)) (x : Dbl) : value (logLogObj a b pts) x = logLog a b pts x := by
  unfold value logLog
  show (if x < .fin a.1 then Dbl.fin a.2 else if .fin b.1 < x then .fin b.2
    else Dbl.exp (tableValue (logTable pts) (Dbl.log x))) = _
  cases Dbl.log x <;> rfl

/-- Argument of the evaluation a thread is in. -/
def Pc.arg : Pc → Option Dbl
  | .idle => none
  | .entered x => some x
  | .searched x _ _ => some x
  | .returning x _ => some x

/-- Accesses a thread still has to make. -/
def Pc.rank : Pc → ℕ
  | .idle => 0
  | .entered _ => 3
  | .searched _ _ _ => 2
  | .returning _ _ => 1

/-- What is true of a thread. -/
def Pc.Good (o : Obj) : Pc → Prop
  | .idle => True
  | .entered _ => True
  | .searched x i w => Inside o x ∧ InCell o.pts (o.into x) (w.getD i) ∧ w.getD i + 1 < o.pts.length
  | .returning x i => Inside o x ∧ InCell o.pts (o.into x) i ∧ i + 1 < o.pts.length

/-- The index a thread has in hand. -/
def Pc.holds : Pc → Option ℕ
  | .searched _ i _ => some i
  | .returning _ i => some i
  | _ => none

/-- What is true at every moment. -/
structure Inv (o : Obj) (rr : Bool) (s : St Tid) : Prop where
  bounds : s.cache + 1 < o.pts.length
  good : ∀ t, (s.pc t).Good o
  same : rr = true → Subsingleton Tid → ∀ t i, (s.pc t).holds = some i → i = s.cache

omit [DecidableEq Tid] in
theorem inv_init {o : Obj} (h : Fit o) (rr : Bool) : Inv o rr (init Tid) where
  bounds := by have := h.ok.1; simp only [init]; omega
  good _ := trivial
  same _ _ t i hi := by cases hi

theorem inv_call {o : Obj} {rr : Bool} {s s' : St Tid} {t : Tid} {x : Dbl} (h : Inv o rr s) (hs : call s t x = some s') :
    Inv o rr s' ∧ s'.pc = Function.update s.pc t (.entered x) ∧ s.pc t = .idle := by
  unfold call at hs
  split at hs <;> simp only [Option.some.injEq, reduceCtorEq] at hs
  rename_i ht
  subst hs
  refine ⟨⟨h.bounds, ?_, ?_⟩, rfl, ht⟩
  · intro u
    by_cases hu : u = t
    · subst hu; simp only [Function.update_self]; trivial
    · simp only [Function.update_of_ne hu]; exact h.good u
  · intro hr hss u i hi
    have hu : u = t := Subsingleton.elim _ _
    subst hu
    simp [Pc.holds] at hi

/-- What one access leads to. -/
theorem inv_run {o : Obj} (hf : Fit o) {rr : Bool} {s s' : St Tid} {t : Tid} {out : ParFor.Out Dbl} (h : Inv o rr s)
    (hs : run o rr s t = some (s', out)) :
    Inv o rr s' ∧ (s'.pc t).rank < (s.pc t).rank ∧ (∀ u, u ≠ t → s'.pc u = s.pc u) ∧ ∃ x, (s.pc t).arg = some x ∧
      ((out = .busy ∧ (s'.pc t).arg = some x) ∨
        (∃ y, out = .done y ∧ s'.pc t = .idle ∧ (rr = false ∨ Subsingleton Tid → y = value o x))) := by
  have hsame : ∀ (c : ℕ) (p : Pc), (rr = true → Subsingleton Tid → ∀ i, p.holds = some i → i = c) →
      rr = true → Subsingleton Tid → ∀ u i, ((Function.update s.pc t p) u).holds = some i → i = c := by
    intro c p hp hr hss u i hi
    have hu : u = t := Subsingleton.elim _ _
    subst hu
    rw [Function.update_self] at hi
    exact hp hr hss i hi
  have hgood : ∀ p : Pc, p.Good o → ∀ u, ((Function.update s.pc t p) u).Good o := by
    intro p hp u
    by_cases hu : u = t
    · subst hu; simpa using hp
    · simp only [Function.update_of_ne hu]; exact h.good u
  have hne : ∀ p : Pc, ∀ u, u ≠ t → (Function.update s.pc t p) u = s.pc u := fun p u hu => Function.update_of_ne hu _ _
  cases hpc : s.pc t with
  | idle => simp only [run, hpc] at hs; cases hs
  | entered x =>
    simp only [run, hpc] at hs
    split at hs
    · rename_i hx
      simp only [Option.some.injEq, Prod.mk.injEq] at hs
      obtain ⟨rfl, rfl⟩ := hs
      refine ⟨⟨h.bounds, hgood _ trivial, hsame _ _ (by intro _ _ i hi; cases hi)⟩, by simp [Pc.rank], hne _, x, rfl,
        .inr ⟨_, rfl, by simp, fun _ => ?_⟩⟩
      rw [value, if_pos hx]
    · rename_i hx
      split at hs
      · rename_i hx2
        simp only [Option.some.injEq, Prod.mk.injEq] at hs
        obtain ⟨rfl, rfl⟩ := hs
        refine ⟨⟨h.bounds, hgood _ trivial, hsame _ _ (by intro _ _ i hi; cases hi)⟩, by simp [Pc.rank], hne _, x, rfl,
          .inr ⟨_, rfl, by simp, fun _ => ?_⟩⟩
        rw [value, if_neg hx, if_pos hx2]
      · rename_i hx2
        obtain ⟨w, hw, hc, hb⟩ := find_ok o.pts (o.into x) s.cache h.bounds (hf.covers x ⟨hx, hx2⟩).1
        rw [hw] at hs
        simp only [Option.some.injEq, Prod.mk.injEq] at hs
        obtain ⟨rfl, rfl⟩ := hs
        refine ⟨⟨h.bounds, hgood _ ⟨⟨hx, hx2⟩, hc, hb⟩, hsame _ _ ?_⟩, by simp [Pc.rank], hne _, x, rfl,
          .inl ⟨rfl, by simp [Pc.arg]⟩⟩
        intro _ _ i hi
        simp only [Pc.holds, Option.some.injEq] at hi
        exact hi.symm
  | searched x i w =>
    have hg := h.good t
    rw [hpc] at hg
    obtain ⟨hin, hc, hb⟩ := hg
    simp only [run, hpc] at hs
    cases w with
    | none =>
      simp only [Option.some.injEq, Prod.mk.injEq] at hs
      obtain ⟨rfl, rfl⟩ := hs
      refine ⟨⟨h.bounds, hgood _ ⟨hin, hc, hb⟩, hsame _ _ ?_⟩, by simp [Pc.rank], hne _, x, rfl, .inl ⟨rfl, by simp [Pc.arg]⟩⟩
      intro hr hss j hj
      simp only [Pc.holds, Option.some.injEq] at hj
      subst hj
      exact h.same hr hss t _ (by rw [hpc]; rfl)
    | some j =>
      simp only [Option.some.injEq, Prod.mk.injEq] at hs
      obtain ⟨rfl, rfl⟩ := hs
      refine ⟨⟨hb, hgood _ ⟨hin, hc, hb⟩, hsame _ _ ?_⟩, by simp [Pc.rank], hne _, x, rfl, .inl ⟨rfl, by simp [Pc.arg]⟩⟩
      intro hr hss k hk
      simp only [Pc.holds, Option.some.injEq] at hk
      exact hk.symm
  | returning x i =>
    have hg := h.good t
    rw [hpc] at hg
    obtain ⟨hin, hc, hb⟩ := hg
    have hidx : (if rr then s.cache else i) + 1 < o.pts.length := by
      split
      · exact h.bounds
      · exact hb
    obtain ⟨y, hy⟩ := piece_defined o.pts (o.into x) _ hidx
    simp only [run, hpc, hy, Option.some.injEq, Prod.mk.injEq] at hs
    obtain ⟨rfl, rfl⟩ := hs
    refine ⟨⟨h.bounds, hgood _ trivial, hsame _ _ (by intro _ _ i hi; cases hi)⟩, by simp [Pc.rank], hne _, x, rfl,
      .inr ⟨_, rfl, by simp, fun hr => ?_⟩⟩
    have hii : (if rr then s.cache else i) = i := by
      split
      · rename_i hrr
        rcases hr with hr | hr
        · rw [hrr] at hr; cases hr
        · exact (h.same hrr hr t i (by rw [hpc]; rfl)).symm
      · rfl
    rw [hii, piece_ok o.pts hf.ok.2 _ i (hf.covers x hin).2 hc] at hy
    cases hy
    rw [value, if_neg hin.1, if_neg hin.2]

theorem run_defined {o : Obj} (rr : Bool) {s : St Tid} {t : Tid} (h : s.pc t ≠ .idle) : ∃ r, run o rr s t = some r := by
  cases hpc : s.pc t with
  | idle => exact absurd hpc h
  | entered x =>
    simp only [run, hpc]
    split
    · exact ⟨_, rfl⟩
    · split
      · exact ⟨_, rfl⟩
      · split <;> exact ⟨_, rfl⟩
  | searched x i w => cases w <;> simp only [run, hpc] <;> exact ⟨_, rfl⟩
  | returning x i => simp only [run, hpc]; split <;> exact ⟨_, rfl⟩

theorem arg_none (p : Pc) : p.arg = none ↔ p = .idle := by cases p <;> simp [Pc.arg]

theorem sum_update_lt [Fintype Tid] (f g : Tid → ℕ) (t : Tid) (h : ∀ u, u ≠ t → f u = g u) (ht : f t < g t) :
    ∑ u, f u < ∑ u, g u := by
  refine Finset.sum_lt_sum (fun u _ => ?_) ⟨t, Finset.mem_univ _, ht⟩
  by_cases hu : u = t
  · subst hu; exact ht.le
  · exact (h u hu).le

theorem serves [Fintype Tid] {o : Obj} (hf : Fit o) {rr : Bool} (hr : rr = false ∨ Subsingleton Tid) :
    ParFor.Serves (svc Tid o rr) (fun x => some (value o x)) (fun s => Inv o rr s)
      (fun (s : St Tid) t => (s.pc t).arg) (fun (s : St Tid) => ∑ t, (s.pc t).rank) 3 := by
  constructor
  · intro (s : St Tid) t v _ hb
    have ht := (arg_none _).1 hb
    exact ⟨⟨s.cache, Function.update s.pc t (.entered v)⟩, by show call s t v = _; simp only [call, ht]; rfl⟩
  · intro (s : St Tid) t v (s' : St Tid) h (hs : call s t v = some s')
    obtain ⟨h1, h2, h3⟩ := inv_call h hs
    refine ⟨h1, ?_, ?_⟩
    · funext u
      by_cases hu : u = t
      · subst hu; simp [h2, Pc.arg]
      · simp [h2, Function.update_of_ne hu]
    · have : ∀ u, (s'.pc u).rank ≤ (s.pc u).rank + if u = t then 3 else 0 := by
        intro u
        by_cases hu : u = t
        · subst hu; simp [h2, Pc.rank]
        · simp [h2, hu]
      refine (Finset.sum_le_sum fun u _ => this u).trans ?_
      rw [Finset.sum_add_distrib]
      simp
  · intro (s : St Tid) t (s' : St Tid) out h (hs : run o rr s t = some (s', out))
    obtain ⟨h1, h2, h3, x, hx, h4⟩ := inv_run hf h hs
    refine ⟨h1, ?_, x, hx, ?_⟩
    · exact sum_update_lt _ _ t (fun u hu => by rw [h3 u hu]) h2
    · rcases h4 with ⟨rfl, h4⟩ | ⟨y, rfl, h4, h5⟩
      · refine .inl ⟨rfl, ?_⟩
        funext u
        by_cases hu : u = t
        · subst hu; exact h4.trans hx.symm
        · exact congrArg Pc.arg (h3 u hu)
      · refine .inr (.inl ⟨y, rfl, by rw [h5 hr], ?_⟩)
        funext u
        by_cases hu : u = t
        · subst hu; rw [Function.update_self, h4]; rfl
        · rw [Function.update_of_ne hu]; exact congrArg Pc.arg (h3 u hu)
  · intro (s : St Tid) _ _ ⟨t, ht⟩
    have : s.pc t ≠ .idle := fun hh => ht (by rw [hh]; rfl)
    obtain ⟨r, hr⟩ := run_defined (o := o) rr this
    exact ⟨t, r, hr⟩

end Slat.Accel
