import Verif.NestModel
import Mathlib.Tactic.Ring
import Mathlib.Algebra.BigOperators.Group.List.Basic

/-! What programs over caches mean without caches and threads, and how many steps they may take (specification `Runs`,
and helper lemmas). -/

namespace Slat.Nest

variable {C V T : Type}

/-- The outcome of a program when every call of a cache is simply the calculation it wraps, executed afresh, and the
blocks of a parallel region are executed one by one.  (`none`: an exception.) -/
inductive Runs (body : C → V → Prog C V T) : Prog C V T → Option T → Prop where
  | ret (r) : Runs body (.ret r) r
  | call {c v k x r} : Runs body (body c v) (some x) → Runs body (k x) r → Runs body (.call c v k) r
  | callThrow {c v k} : Runs body (body c v) none → Runs body (.call c v k) none
  | par {n ts k r} (xs : List T) (hn : xs.length = n) : (∀ i (h : i < xs.length), Runs body (ts i) (some xs[i])) →
      Runs body (k xs) r → Runs body (.par n ts k) r
  | parThrow {n ts k} (i : ℕ) (hi : i < n) : Runs body (ts i) none → Runs body (.par n ts k) none

/-- Every call of a cache in the program is of a cache with rank below `b`. -/
def Below (rank : C → ℕ) (b : ℕ) : Prog C V T → Prop
  | .ret _ => True
  | .call c _ k => rank c < b ∧ ∀ x, Below rank b (k x)
  | .par n ts k => (∀ i, i < n → Below rank b (ts i)) ∧ ∀ xs, Below rank b (k xs)

/-- Calculations only call caches of lower rank, and ranks are below `R`. -/
structure Ranked (body : C → V → Prog C V T) (rank : C → ℕ) (R : ℕ) : Prop where
  lt : ∀ c, rank c < R
  below : ∀ c v, Below rank (rank c) (body c v)

/-! ## Helper definitions -/

/-- Outcome of a program given the outcomes of the caches. -/
def eval (F : C → V → Option T) : Prog C V T → Option T
  | .ret r => r
  | .call c v k => match F c v with | some x => eval F (k x) | none => none
  | .par n ts k => match collect (fun i => eval F (ts i)) n with | some xs => eval F (k xs) | none => none

/-- Steps a program may take at most, given bounds for the calls of caches. -/
def pcost (F : C → V → Option T) (g : C → V → ℕ) : Prog C V T → ℕ
  | .ret _ => 1
  | .call c v k => 1 + g c v + match F c v with | some x => pcost F g (k x) | none => 1
  | .par n ts k => 2 + ((List.range n).map fun i => 1 + pcost F g (ts i)).sum +
      match collect (fun i => eval F (ts i)) n with | some xs => pcost F g (k xs) | none => 0

/-- Outcomes of the caches, by rank. -/
def denN (body : C → V → Prog C V T) : ℕ → C → V → Option T
  | 0 => fun _ _ => none
  | n + 1 => fun c v => eval (denN body n) (body c v)

/-- Outcome of a cache. -/
def den (body : C → V → Prog C V T) (rank : C → ℕ) (c : C) (v : V) : Option T := denN body (rank c + 1) c v

/-- Step bounds for calls of caches, by rank. -/
def costN (body : C → V → Prog C V T) (F : C → V → Option T) (B : C → ℕ) : ℕ → C → V → ℕ
  | 0 => fun _ _ => 0
  | n + 1 => fun c v => B c + 1 + pcost F (costN body F B n) (body c v)

/-- Step bound for the call of a cache. -/
def cost (body : C → V → Prog C V T) (F : C → V → Option T) (B : C → ℕ) (rank : C → ℕ) (c : C) (v : V) : ℕ :=
  costN body F B (rank c + 1) c v

/-! ## Lemmas -/

theorem collect_some {f : ℕ → Option T} {n : ℕ} {xs : List T} :
    collect f n = some xs ↔ xs.length = n ∧ ∀ i (h : i < xs.length), f i = some xs[i] := by
  induction n generalizing xs with
  | zero =>
    simp only [collect, Option.some.injEq]
    constructor
    · rintro rfl; simp
    · rintro ⟨h, -⟩; exact (List.eq_nil_of_length_eq_zero h).symm
  | succ n ih =>
    simp only [collect]
    constructor
    · intro h
      split at h <;> simp only [Option.some.injEq, reduceCtorEq] at h
      rename_i ys y h1 h2
      subst h
      obtain ⟨h3, h4⟩ := ih.1 h1
      refine ⟨by simp [h3], fun i hi => ?_⟩
      by_cases hin : i < ys.length
      · rw [h4 i hin, List.getElem_append_left hin]
      · have : i = n := by simp at hi; omega
        subst this
        rw [h2, List.getElem_append_right (by omega)]
        simp [h3]
    · rintro ⟨h1, h2⟩
      have hlen : n < xs.length := by omega
      have e1 : collect f n = some (xs.take n) := ih.2 ⟨by simp; omega, fun i hi => by
        simp only [List.length_take] at hi
        rw [h2 i (by omega), List.getElem_take]⟩
      rw [e1, h2 n hlen]
      simp only [Option.some.injEq]
      conv_rhs => rw [← List.take_append_drop n xs]
      rw [List.drop_eq_getElem_cons hlen, List.drop_of_length_le (by omega)]

theorem collect_none {f : ℕ → Option T} {n : ℕ} : collect f n = none ↔ ∃ i, i < n ∧ f i = none := by
  induction n with
  | zero => simp [collect]
  | succ n ih =>
    simp only [collect]
    constructor
    · intro h
      cases hf : f n with
      | none => exact ⟨n, by omega, hf⟩
      | some x =>
        cases hc : collect f n with
        | none => obtain ⟨i, h1, h2⟩ := ih.1 hc; exact ⟨i, by omega, h2⟩
        | some xs => simp [hf, hc] at h
    · rintro ⟨i, h1, h2⟩
      by_cases hi : i = n
      · subst hi
        rw [h2]
        cases collect f i <;> rfl
      · rw [ih.2 ⟨i, by omega, h2⟩]

theorem collect_congr {f g : ℕ → Option T} {n : ℕ} (h : ∀ i, i < n → f i = g i) : collect f n = collect g n := by
  induction n with
  | zero => rfl
  | succ n ih => simp only [collect, ih fun i hi => h i (by omega), h n (by omega)]

theorem eval_congr {rank : C → ℕ} {b : ℕ} {F G : C → V → Option T} (h : ∀ c v, rank c < b → F c v = G c v)
    {p : Prog C V T} (hp : Below rank b p) : eval F p = eval G p := by
  induction p with
  | ret r => rfl
  | call c v k ih =>
    simp only [eval, h c v hp.1]
    cases G c v with
    | none => rfl
    | some x => exact ih x (hp.2 x)
  | par n ts k ih1 ih2 =>
    simp only [eval, collect_congr fun i hi => ih1 i (hp.1 i hi)]
    cases collect (fun i => eval G (ts i)) n with
    | none => rfl
    | some xs => exact ih2 xs (hp.2 xs)

theorem pcost_congr {rank : C → ℕ} {b : ℕ} {F : C → V → Option T} {g g' : C → V → ℕ}
    (h : ∀ c v, rank c < b → g c v = g' c v) {p : Prog C V T} (hp : Below rank b p) : pcost F g p = pcost F g' p := by
  induction p with
  | ret r => rfl
  | call c v k ih =>
    simp only [pcost, h c v hp.1]
    cases F c v with
    | none => rfl
    | some x => simp only [ih x (hp.2 x)]
  | par n ts k ih1 ih2 =>
    have e : ((List.range n).map fun i => 1 + pcost F g (ts i)) = (List.range n).map fun i => 1 + pcost F g' (ts i) :=
      List.map_congr_left fun i hi => by rw [ih1 i (hp.1 i (List.mem_range.1 hi))]
    simp only [pcost, e]
    cases collect (fun i => eval F (ts i)) n with
    | none => rfl
    | some xs => simp only [ih2 xs (hp.2 xs)]

variable {body : C → V → Prog C V T} {rank : C → ℕ} {R : ℕ}

theorem denN_stable (h : Ranked body rank R) (n m : ℕ) (c : C) (v : V) (hn : rank c < n) (hm : rank c < m) :
    denN body n c v = denN body m c v := by
  induction n generalizing m c v with
  | zero => omega
  | succ n ih =>
    obtain ⟨m, rfl⟩ : ∃ k, m = k + 1 := ⟨m - 1, by omega⟩
    exact eval_congr (rank := rank) (b := rank c) (fun c' v' hc' => ih m c' v' (by omega) (by omega)) (h.below c v)

theorem den_eq (h : Ranked body rank R) (c : C) (v : V) : den body rank c v = eval (den body rank) (body c v) :=
  eval_congr (rank := rank) (b := rank c) (fun c' v' hc' => denN_stable h _ _ c' v' (by omega) (by omega)) (h.below c v)

theorem costN_stable (h : Ranked body rank R) (F : C → V → Option T) (B : C → ℕ) (n m : ℕ) (c : C) (v : V)
    (hn : rank c < n) (hm : rank c < m) : costN body F B n c v = costN body F B m c v := by
  induction n generalizing m c v with
  | zero => omega
  | succ n ih =>
    obtain ⟨m, rfl⟩ : ∃ k, m = k + 1 := ⟨m - 1, by omega⟩
    simp only [costN]
    rw [pcost_congr (rank := rank) (b := rank c) (fun c' v' hc' => ih m c' v' (by omega) (by omega)) (h.below c v)]

theorem cost_eq (h : Ranked body rank R) (F : C → V → Option T) (B : C → ℕ) (c : C) (v : V) :
    cost body F B rank c v = B c + 1 + pcost F (cost body F B rank) (body c v) := by
  have e : pcost F (costN body F B (rank c)) (body c v) = pcost F (cost body F B rank) (body c v) :=
    pcost_congr (rank := rank) (b := rank c)
      (fun c' v' hc' => costN_stable h F B _ _ c' v' (by omega) (by omega)) (h.below c v)
  show B c + 1 + pcost F (costN body F B (rank c)) (body c v) = _
  rw [e]

theorem runs_eval {F : C → V → Option T} {b : ℕ} (hF : ∀ c v, rank c < b → Runs body (body c v) (F c v))
    {p : Prog C V T} (hp : Below rank b p) : Runs body p (eval F p) := by
  induction p with
  | ret r => exact .ret r
  | call c v k ih =>
    have h1 := hF c v hp.1
    simp only [eval]
    cases hc : F c v with
    | none => rw [hc] at h1; exact .callThrow h1
    | some x => rw [hc] at h1; exact .call h1 (ih x (hp.2 x))
  | par n ts k ih1 ih2 =>
    simp only [eval]
    cases hc : collect (fun i => eval F (ts i)) n with
    | none =>
      obtain ⟨i, hi, hn⟩ := collect_none.1 hc
      have := ih1 i (hp.1 i hi)
      rw [hn] at this
      exact .parThrow i hi this
    | some xs =>
      obtain ⟨h1, h2⟩ := collect_some.1 hc
      refine .par xs h1 (fun i hi => ?_) (ih2 xs (hp.2 xs))
      rw [← h2 i hi]
      exact ih1 i (hp.1 i (by omega))

theorem runs_den (h : Ranked body rank R) (c : C) (v : V) : Runs body (body c v) (den body rank c v) := by
  rw [den_eq h]
  generalize hr : rank c = r
  induction r using Nat.strong_induction_on generalizing c v with
  | _ r ih =>
    refine runs_eval (rank := rank) (b := rank c) (fun c' v' hc' => ?_) (h.below c v)
    rw [den_eq h]
    exact ih (rank c') (by omega) c' v' rfl

/-- Every program has one outcome. -/
theorem runs_iff (h : Ranked body rank R) {p : Prog C V T} (hp : Below rank R p) (r : Option T) :
    Runs body p r ↔ r = eval (den body rank) p := by
  constructor
  · intro hr
    have key : ∀ q o, Runs body q o → o = eval (den body rank) q := by
      intro q o hq
      induction hq with
      | ret r => rfl
      | call _ _ ih1 ih2 => simp only [eval]; rw [den_eq h, ← ih1]; exact ih2
      | callThrow _ ih => simp only [eval]; rw [den_eq h, ← ih]
      | par xs hn _ _ ih1 ih2 =>
        simp only [eval]
        rw [collect_some.2 ⟨hn, fun i hi => (ih1 i hi).symm⟩]
        exact ih2
      | parThrow i hi _ ih =>
        simp only [eval]
        rw [collect_none.2 ⟨i, hi, ih.symm⟩]
    exact key p r hr
  · rintro rfl
    exact runs_eval (rank := rank) (b := R) (fun c v _ => runs_den h c v) hp

end Slat.Nest
