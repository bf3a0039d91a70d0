import Verif.CacheFnModel
import Mathlib.Data.Fintype.Card
import Mathlib.Algebra.BigOperators.Group.Finset.Basic
import Mathlib.Data.Fintype.BigOperators

/-! Inductive invariant of the `CachedFunction` model (helper file for `CacheFnProps.lean`). -/

namespace Slat.CacheFn

variable {Tid V T : Type} [DecidableEq Tid] [DecidableEq V]

/-- Program points at which the object lock is held. -/
def Pc.holdsObj : Pc V T → Bool
  | .locked _ | .hit _ | .join _ | .joinRel _ _ | .leave _ _ | .begin _ | .beginRel _ | .check _ _
  | .store _ _ | .finish _ | .read _ | .unlock _ _ | .bypass _ => true
  | _ => false

/-- Program points at which the thread is the one computing `v`. -/
def Pc.computing (v : V) : Pc V T → Bool
  | .beginRel w | .calc w | .calcObj w _ | .check w _ | .store w _ | .finish w => decide (w = v)
  | _ => false

/-- Program points before the value is stored. -/
def Pc.preStore (v : V) : Pc V T → Bool
  | .beginRel w | .calc w | .calcObj w _ | .check w _ | .store w _ => decide (w = v)
  | _ => false

/-- The function has been evaluated but its value is not stored yet. -/
def Pc.postCalc (v : V) : Pc V T → Bool
  | .calcObj w _ | .check w _ | .store w _ => decide (w = v)
  | _ => false

/-- Program points between joining and leaving a computation. -/
def Pc.waiting (v : V) : Pc V T → Bool
  | .joinRel w _ | .waitCalc w _ | .waitObj w _ | .leave w _ => decide (w = v)
  | _ => false

/-- Program points at which the record's lock is held. -/
def Pc.holdsCalc (v : V) : Pc V T → Bool
  | .beginRel w | .calc w | .calcObj w _ | .check w _ | .store w _ | .finish w => decide (w = v)
  | .waitObj w _ | .leave w _ => decide (w = v)
  | _ => false

/-- Threads waiting for `v`. -/
def waiters [Fintype Tid] (pc : Tid → Pc V T) (v : V) : Finset Tid :=
  Finset.univ.filter (fun t => (pc t).waiting v = true)

/-- Number of evaluations of `v` since the last clearing. -/
def evalsSince (v : V) : List (Ev Tid V T) → ℕ
  | [] => 0
  | .eval _ w :: l => (if w = v then 1 else 0) + evalsSince v l
  | .cleared :: _ => 0
  | _ :: l => evalsSince v l

/-- What is known about a single thread. -/
def threadOk (c : Cfg V T) (cache : V → Option T) (inProc : V → Option (WaitRec Tid)) :
    Pc V T → Prop
  | .hit v => (cache v).isSome ∧ c.useCache v
  | .join v => cache v = none ∧ (inProc v).isSome ∧ c.useCache v
  | .joinRel v g | .waitCalc v g => (∃ r, inProc v = some r ∧ r.gen = g) ∧ c.useCache v
  | .waitObj v g | .leave v g =>
      (∃ r, inProc v = some r ∧ r.gen = g) ∧ c.useCache v ∧ (c.func v).isSome
  | .begin v => cache v = none ∧ inProc v = none ∧ c.useCache v
  | .beginRel v | .calc v => cache v = none ∧ (inProc v).isSome ∧ c.useCache v
  | .calcObj v r | .check v r | .store v r =>
      cache v = none ∧ (inProc v).isSome ∧ c.useCache v ∧ c.func v = some r
  | .finish v => (cache v).isSome ∧ (inProc v).isSome ∧ c.useCache v
  | .read v => (cache v).isSome ∧ c.useCache v
  | .unlock v r => c.func v = some r ∧ c.useCache v
  | .bypass v | .bypassCalc v => c.useCache v = false
  | _ => True

/-- What is known about a computation record. -/
structure RecOk [Fintype Tid] (pc : Tid → Pc V T) (cache : V → Option T) (n : ℕ) (v : V)
    (r : WaitRec Tid) : Prop where
  owner : ∀ t, r.owner = some t ↔ (pc t).holdsCalc v = true
  count : r.count = ((waiters pc v).card : ℤ)
  done : (∀ t, (pc t).computing v = false) → (cache v).isSome ∧ 0 < r.count
  gen : r.gen < n

/-- The inductive invariant. -/
structure Inv [Fintype Tid] (c : Cfg V T) (s : St Tid V T) : Prop where
  noFault : s.fault = none
  lock : ∀ t, s.lock = some t ↔ (s.pc t).holdsObj = true
  thread : ∀ t, threadOk c s.cache s.inProc (s.pc t)
  record : ∀ v r, s.inProc v = some r → (c.func v).isSome = true → RecOk s.pc s.cache s.nextGen v r
  poison : ∀ v r, s.inProc v = some r → c.func v = none → r.owner.isSome = true
  cache : ∀ v x, s.cache v = some x → c.func v = some x ∧ c.useCache v
  evals : ∀ v, c.useCache v = true → evalsSince v s.log ≤
    if (s.cache v).isSome ∨ ∃ t, (s.pc t).postCalc v = true then 1 else 0
  rets : ∀ t v x, Ev.ret t v x ∈ s.log → c.func v = some x

theorem waiters_same [Fintype Tid] (pc : Tid → Pc V T) (t : Tid) (p : Pc V T) (v : V)
    (h : p.waiting v = (pc t).waiting v) :
    waiters (Function.update pc t p) v = waiters pc v := by
  ext u
  by_cases hu : u = t
  · subst hu; simp [waiters, h]
  · simp [waiters, Function.update_of_ne hu]

theorem waiters_join [Fintype Tid] (pc : Tid → Pc V T) (t : Tid) (p : Pc V T) (v : V)
    (h : p.waiting v = true) (h' : (pc t).waiting v = false) :
    (waiters (Function.update pc t p) v).card = (waiters pc v).card + 1 := by
  have : waiters (Function.update pc t p) v = insert t (waiters pc v) := by
    ext u
    by_cases hu : u = t
    · subst hu; simp [waiters, h]
    · simp [waiters, hu]
  rw [this, Finset.card_insert_of_notMem (by simp [waiters, h'])]

theorem waiters_leave [Fintype Tid] (pc : Tid → Pc V T) (t : Tid) (p : Pc V T) (v : V)
    (h : p.waiting v = false) (h' : (pc t).waiting v = true) :
    (waiters (Function.update pc t p) v).card + 1 = (waiters pc v).card := by
  have : waiters (Function.update pc t p) v = (waiters pc v).erase t := by
    ext u
    by_cases hu : u = t
    · subst hu; simp [waiters, h]
    · simp [waiters, hu]
  rw [this, Finset.card_erase_add_one (by simp [waiters, h'])]

theorem waiters_pos [Fintype Tid] (pc : Tid → Pc V T) (t : Tid) (v : V)
    (h : (pc t).waiting v = true) : 0 < (waiters pc v).card :=
  Finset.card_pos.2 ⟨t, by simp [waiters, h]⟩

theorem inv_init [Fintype Tid] (c : Cfg V T) : Inv c (init Tid V T) := by
  constructor <;> simp [init, Pc.holdsObj, threadOk, evalsSince, Pc.postCalc]

/-- A step that changes neither the cache nor the records nor the log, and moves between program points
with the same role, keeps the invariant. -/
theorem inv_move [Fintype Tid] {c : Cfg V T} {s : St Tid V T} (h : Inv c s) (t : Tid) (p : Pc V T)
    (lock : Option Tid)
    (hlock : (lock = s.lock ∧ p.holdsObj = (s.pc t).holdsObj) ∨
      (s.lock = none ∧ lock = some t ∧ p.holdsObj = true) ∨
      (s.lock = some t ∧ lock = none ∧ p.holdsObj = false))
    (hok : threadOk c s.cache s.inProc p)
    (hw : ∀ v, p.waiting v = (s.pc t).waiting v)
    (hc : ∀ v, p.computing v = (s.pc t).computing v)
    (hh : ∀ v, p.holdsCalc v = (s.pc t).holdsCalc v)
    (hp : ∀ v, p.postCalc v = (s.pc t).postCalc v) :
    Inv c { s with pc := Function.update s.pc t p, lock := lock } := by
  obtain ⟨h1, h2, h3, h4, h4p, h5, h6, h7⟩ := h
  constructor
  · exact h1
  · intro u
    have := h2 u
    have := h2 t
    simp only [Function.update_apply]
    grind
  · intro u
    by_cases hu : u = t
    · subst hu; simpa using hok
    · simpa [Function.update_of_ne hu] using h3 u
  · intro v r hr hfw
    obtain ⟨a, b, d, e⟩ := h4 v r hr hfw
    constructor
    · intro u
      simp only [Function.update_apply]
      grind
    · simp only [waiters_same _ _ _ _ (hw v)]; exact b
    · intro hall
      apply d
      intro u
      have := hall u
      simp only [Function.update_apply] at this
      grind
    · exact e
  · exact h4p
  · exact h5
  · intro v hv
    refine le_trans (h6 v hv) (le_of_eq ?_)
    have : (∃ u, (Function.update s.pc t p u).postCalc v = true) ↔
        ∃ u, (s.pc u).postCalc v = true := by
      constructor
      · rintro ⟨u, hu⟩
        refine ⟨u, ?_⟩
        simp only [Function.update_apply] at hu
        grind
      · rintro ⟨u, hu⟩
        refine ⟨u, ?_⟩
        simp only [Function.update_apply]
        grind
    simp only [this]
  · exact h7

set_option linter.unusedSimpArgs false
set_option linter.unusedTactic false
set_option linter.unreachableTactic false

section
variable [Fintype Tid] {c : Cfg V T} {s : St Tid V T}

/-- At most one thread computes or holds the record lock of an argument. -/
theorem holdsCalc_unique (h : Inv c s) {v : V} {r : WaitRec Tid} (hr : s.inProc v = some r)
    (hf : (c.func v).isSome = true) {t u : Tid} (ht : (s.pc t).holdsCalc v = true) (hu : (s.pc u).holdsCalc v = true) : t = u := by
  have a := ((h.record v r hr hf).owner t).2 ht
  have b := ((h.record v r hr hf).owner u).2 hu
  rw [a] at b
  exact Option.some.inj b

theorem holdsObj_unique (h : Inv c s) {t u : Tid} (ht : (s.pc t).holdsObj = true)
    (hu : (s.pc u).holdsObj = true) : t = u := by
  have a := (h.lock t).2 ht
  have b := (h.lock u).2 hu
  rw [a] at b
  exact Option.some.inj b

theorem waiters_two (pc : Tid → Pc V T) {t u : Tid} {v : V} (htu : t ≠ u)
    (ht : (pc t).waiting v = true) (hu : (pc u).waiting v = true) : 2 ≤ (waiters pc v).card := by
  have : ({t, u} : Finset Tid) ⊆ waiters pc v := by
    intro x hx
    simp only [Finset.mem_insert, Finset.mem_singleton] at hx
    rcases hx with rfl | rfl <;> simp [waiters, ht, hu]
  calc 2 = ({t, u} : Finset Tid).card := (Finset.card_pair htu).symm
    _ ≤ _ := Finset.card_le_card this

theorem inv_join (h : Inv c s) (t : Tid) (v : V) (r : WaitRec Tid) (hpc : s.pc t = .join v)
    (hr : s.inProc v = some r) :
    Inv c { (s.goto t (.joinRel v r.gen)) with
        inProc := Function.update s.inProc v (some { r with count := r.count + 1 }) } := by
  have h' := h
  obtain ⟨h1, h2, h3, h4, h4p, h5, h6, h7⟩ := h
  have h3t := h3 t
  rw [hpc] at h3t
  simp only [threadOk] at h3t
  simp only [St.goto]
  constructor
  · exact h1
  · intro u
    have := h2 u
    have := h2 t
    simp only [Function.update_apply]
    grind [Pc.holdsObj]
  · intro u
    by_cases hu : u = t
    · subst hu; simp [threadOk, h3t]
    · have := h3 u
      simp only [Function.update_of_ne hu]
      cases hp : s.pc u <;> simp only [hp, threadOk, Function.update_apply] at this ⊢ <;> grind [Pc.holdsObj]
  · intro w r' hr' hfw
    by_cases hw : w = v
    · subst hw
      obtain ⟨a, b, d, e⟩ := h4 w r hr hfw
      simp only [Function.update_self, Option.some.injEq] at hr'
      subst hr'
      constructor
      · intro u
        have := a u
        have := a t
        simp only [Function.update_apply]
        grind [Pc.holdsCalc]
      · rw [waiters_join _ _ _ _ (by simp [Pc.waiting]) (by simp [hpc, Pc.waiting])]
        simp [b]
      · intro hall
        have := d (by
          intro u
          have := hall u
          simp only [Function.update_apply] at this
          grind [Pc.computing])
        simp only [this.1, true_and]
        omega
      · exact e
    · simp only [Function.update_of_ne hw] at hr'
      obtain ⟨a, b, d, e⟩ := h4 w r' hr' hfw
      constructor
      · intro u
        have := a u
        have := a t
        simp only [Function.update_apply]
        grind [Pc.holdsCalc]
      · simp only [waiters_same s.pc t (.joinRel v r.gen) w (by simp [hpc, Pc.waiting, Ne.symm hw])]; exact b
      · intro hall
        apply d
        intro u
        have := hall u
        simp only [Function.update_apply] at this
        grind [Pc.computing]
      · exact e
  · intro w r' hr' hfw
    have hps := h4p w
    simp only [Function.update_apply] at hr'
    grind
  · exact h5
  · intro w hw
    refine le_trans (h6 w hw) (le_of_eq ?_)
    have : (∃ u, (Function.update s.pc t (.joinRel v r.gen) u).postCalc w = true) ↔
        ∃ u, (s.pc u).postCalc w = true := by
      refine exists_congr (fun u => ?_)
      simp only [Function.update_apply]
      grind [Pc.postCalc]
    simp only [this]
  · exact h7

theorem inv_waitCalc (h : Inv c s) (t : Tid) (v : V) (g : ℕ) (r : WaitRec Tid) (hpc : s.pc t = .waitCalc v g)
    (hr : s.inProc v = some r) (hg : r.gen = g) (ho : r.owner = none) :
    Inv c { (s.goto t (.waitObj v g)) with
        inProc := Function.update s.inProc v (some { r with owner := some t }) } := by
  have h' := h
  obtain ⟨h1, h2, h3, h4, h4p, h5, h6, h7⟩ := h
  have h3t := h3 t
  rw [hpc] at h3t
  simp only [threadOk] at h3t
  have hfv : (c.func v).isSome = true := by
    have := h4p v r hr
    cases hf : c.func v <;> simp_all
  simp only [St.goto]
  constructor
  · exact h1
  · intro u
    have := h2 u
    have := h2 t
    simp only [Function.update_apply]
    grind [Pc.holdsObj]
  · intro u
    by_cases hu : u = t
    · subst hu; simp [threadOk, h3t, hg, hfv]
    · have hthis := h3 u
      simp only [Function.update_of_ne hu]
      have hobj := fun a b => hu (holdsObj_unique h' (t := u) (u := t) a b)
      have hcalc := fun r' (hr' : s.inProc v = some r') a b =>
        hu (holdsCalc_unique h' hr' hfv (t := u) (u := t) a b)
      have hwt := waiters_pos s.pc u v
      cases hp : s.pc u <;>
        simp only [hp, hpc, threadOk, Function.update_apply, Pc.holdsObj, Pc.holdsCalc, Pc.waiting,
          decide_eq_true_eq] at hthis hobj hcalc hwt ⊢ <;>
        grind
  · intro w r' hr' hfw
    by_cases hw : w = v
    · subst hw
      obtain ⟨a, b, d, e⟩ := h4 w r hr hfw
      simp only [Function.update_self, Option.some.injEq] at hr'
      subst hr'
      constructor
      · intro u
        have := a u
        have := a t
        simp only [Function.update_apply]
        grind [Pc.holdsCalc]
      · simp only [waiters_same s.pc t (.waitObj w g) w (by simp [hpc, Pc.waiting])]; exact b
      · intro hall
        apply d
        intro u
        have := hall u
        simp only [Function.update_apply] at this
        grind [Pc.computing]
      · exact e
    · simp only [Function.update_of_ne hw] at hr'
      obtain ⟨a, b, d, e⟩ := h4 w r' hr' hfw
      constructor
      · intro u
        have := a u
        have := a t
        simp only [Function.update_apply]
        grind [Pc.holdsCalc]
      · simp only [waiters_same s.pc t (.waitObj v g) w (by simp [hpc, Pc.waiting, Ne.symm hw])]; exact b
      · intro hall
        apply d
        intro u
        have := hall u
        simp only [Function.update_apply] at this
        grind [Pc.computing]
      · first | exact e | exact Nat.lt_succ_of_lt e
  · intro w r' hr' hfw
    have hps := h4p w
    simp only [Function.update_apply] at hr'
    grind
  · exact h5
  · intro w hw
    refine le_trans (h6 w hw) (le_of_eq ?_)
    have : (∃ u, (Function.update s.pc t (.waitObj v g) u).postCalc w = true) ↔
        ∃ u, (s.pc u).postCalc w = true := by
      refine exists_congr (fun u => ?_)
      simp only [Function.update_apply]
      grind [Pc.postCalc]
    simp only [this]
  · exact h7

theorem inv_leave_more (h : Inv c s) (t : Tid) (v : V) (g : ℕ) (r : WaitRec Tid) (hpc : s.pc t = .leave v g)
    (hr : s.inProc v = some r) (hcnt : r.count - 1 > 0) :
    Inv c { (s.goto t (.read v)) with
        inProc := Function.update s.inProc v (some { r with count := r.count - 1, owner := none }) } := by
  have h' := h
  obtain ⟨h1, h2, h3, h4, h4p, h5, h6, h7⟩ := h
  have h3t := h3 t
  rw [hpc] at h3t
  simp only [threadOk] at h3t
  have hfv := h3t.2.2
  have hcomp : ∀ u, (s.pc u).computing v = false := by
    intro u
    by_contra hne
    have hu : (s.pc u).holdsCalc v = true := by
      revert hne
      cases s.pc u <;> simp [Pc.computing, Pc.holdsCalc]
    have := holdsCalc_unique h' hr hfv hu (by simp [hpc, Pc.holdsCalc] : (s.pc t).holdsCalc v = true)
    subst this
    simp [hpc, Pc.computing] at hne
  have hdone := (h4 v r hr hfv).done hcomp
  simp only [St.goto]
  constructor
  · exact h1
  · intro u
    have := h2 u
    have := h2 t
    simp only [Function.update_apply]
    grind [Pc.holdsObj]
  · intro u
    by_cases hu : u = t
    · subst hu; simp [threadOk, h3t, hdone.1]
    · have hthis := h3 u
      simp only [Function.update_of_ne hu]
      have hobj := fun a b => hu (holdsObj_unique h' (t := u) (u := t) a b)
      have hcalc := fun r' (hr' : s.inProc v = some r') a b =>
        hu (holdsCalc_unique h' hr' hfv (t := u) (u := t) a b)
      have hwt := waiters_pos s.pc u v
      cases hp : s.pc u <;>
        simp only [hp, hpc, threadOk, Function.update_apply, Pc.holdsObj, Pc.holdsCalc, Pc.waiting,
          decide_eq_true_eq] at hthis hobj hcalc hwt ⊢ <;>
        grind
  · intro w r' hr' hfw
    by_cases hw : w = v
    · subst hw
      obtain ⟨a, b, d, e⟩ := h4 w r hr hfw
      simp only [Function.update_self, Option.some.injEq] at hr'
      subst hr'
      constructor
      · intro u
        have := a u
        have := (a t).2 (by simp [hpc, Pc.holdsCalc])
        simp only [Function.update_apply]
        grind [Pc.holdsCalc]
      · have := waiters_leave s.pc t (.read w) w (by simp [Pc.waiting]) (by simp [hpc, Pc.waiting])
        simp only [b]
        omega
      · intro _
        exact ⟨hdone.1, hcnt⟩
      · exact e
    · simp only [Function.update_of_ne hw] at hr'
      obtain ⟨a, b, d, e⟩ := h4 w r' hr' hfw
      constructor
      · intro u
        have := a u
        have := a t
        simp only [Function.update_apply]
        grind [Pc.holdsCalc]
      · simp only [waiters_same s.pc t (.read v) w (by simp [hpc, Pc.waiting, Ne.symm hw])]; exact b
      · intro hall
        apply d
        intro u
        have := hall u
        simp only [Function.update_apply] at this
        grind [Pc.computing]
      · first | exact e | exact Nat.lt_succ_of_lt e
  · intro w r' hr' hfw
    have hps := h4p w
    simp only [Function.update_apply] at hr'
    grind
  · exact h5
  · intro w hw
    refine le_trans (h6 w hw) (le_of_eq ?_)
    have : (∃ u, (Function.update s.pc t (.read v) u).postCalc w = true) ↔
        ∃ u, (s.pc u).postCalc w = true := by
      refine exists_congr (fun u => ?_)
      simp only [Function.update_apply]
      grind [Pc.postCalc]
    simp only [this]
  · exact h7

theorem inv_leave_last (h : Inv c s) (t : Tid) (v : V) (g : ℕ) (r : WaitRec Tid) (hpc : s.pc t = .leave v g)
    (hr : s.inProc v = some r) (hcnt : ¬ r.count - 1 > 0) :
    Inv c { (s.goto t (.read v)) with inProc := Function.update s.inProc v none } := by
  have h' := h
  obtain ⟨h1, h2, h3, h4, h4p, h5, h6, h7⟩ := h
  have h3t := h3 t
  rw [hpc] at h3t
  simp only [threadOk] at h3t
  have hfv := h3t.2.2
  have hcomp : ∀ u, (s.pc u).computing v = false := by
    intro u
    by_contra hne
    have hu : (s.pc u).holdsCalc v = true := by
      revert hne
      cases s.pc u <;> simp [Pc.computing, Pc.holdsCalc]
    have := holdsCalc_unique h' hr hfv hu (by simp [hpc, Pc.holdsCalc] : (s.pc t).holdsCalc v = true)
    subst this
    simp [hpc, Pc.computing] at hne
  have hdone := (h4 v r hr hfv).done hcomp
  have hone : ∀ u, u ≠ t → (s.pc u).waiting v = false := by
    intro u hu
    by_contra hne
    have := waiters_two s.pc (t := t) (u := u) (v := v) (Ne.symm hu) (by simp [hpc, Pc.waiting])
      (by simpa using hne)
    have := (h4 v r hr hfv).count
    omega
  simp only [St.goto]
  constructor
  · exact h1
  · intro u
    have := h2 u
    have := h2 t
    simp only [Function.update_apply]
    grind [Pc.holdsObj]
  · intro u
    by_cases hu : u = t
    · subst hu; simp [threadOk, hdone.1, h3t]
    · have hthis := h3 u
      have hw1 := hone u hu
      have hc1 := hcomp u
      simp only [Function.update_of_ne hu]
      cases hp : s.pc u <;>
        simp only [hp, threadOk, Function.update_apply, Pc.waiting, Pc.computing,
          decide_eq_false_iff_not] at hthis hw1 hc1 ⊢ <;>
        grind
  · intro w r' hr' hfw
    by_cases hw : w = v
    · subst hw
      simp at hr'
    · simp only [Function.update_of_ne hw] at hr'
      obtain ⟨a, b, d, e⟩ := h4 w r' hr' hfw
      constructor
      · intro u
        have := a u
        have := a t
        simp only [Function.update_apply]
        grind [Pc.holdsCalc]
      · simp only [waiters_same s.pc t (.read v) w (by simp [hpc, Pc.waiting, Ne.symm hw])]; exact b
      · intro hall
        apply d
        intro u
        have := hall u
        simp only [Function.update_apply] at this
        grind [Pc.computing]
      · first | exact e | exact Nat.lt_succ_of_lt e
  · intro w r' hr' hfw
    have hps := h4p w
    simp only [Function.update_apply] at hr'
    grind
  · exact h5
  · intro w hw
    refine le_trans (h6 w hw) (le_of_eq ?_)
    have : (∃ u, (Function.update s.pc t (.read v) u).postCalc w = true) ↔
        ∃ u, (s.pc u).postCalc w = true := by
      refine exists_congr (fun u => ?_)
      simp only [Function.update_apply]
      grind [Pc.postCalc]
    simp only [this]
  · exact h7

theorem inv_begin (h : Inv c s) (t : Tid) (v : V) (hpc : s.pc t = .begin v) :
    Inv c { (s.goto t (.beginRel v)) with
        inProc := Function.update s.inProc v (some ⟨some t, 0, s.nextGen⟩)
        nextGen := s.nextGen + 1 } := by
  have h' := h
  obtain ⟨h1, h2, h3, h4, h4p, h5, h6, h7⟩ := h
  have h3t := h3 t
  rw [hpc] at h3t
  simp only [threadOk] at h3t
  have hno : ∀ u, (s.pc u).waiting v = false ∧ (s.pc u).holdsCalc v = false := by
    intro u
    have := h3 u
    cases hp : s.pc u <;> simp only [hp, threadOk, Pc.waiting, Pc.holdsCalc] at this ⊢ <;> grind
  simp only [St.goto]
  constructor
  · exact h1
  · intro u
    have := h2 u
    have := h2 t
    simp only [Function.update_apply]
    grind [Pc.holdsObj]
  · intro u
    by_cases hu : u = t
    · subst hu; simp [threadOk, h3t]
    · have hthis := h3 u
      have hobj := fun a b => hu (holdsObj_unique h' (t := u) (u := t) a b)
      simp only [Function.update_of_ne hu]
      cases hp : s.pc u <;>
        simp only [hp, hpc, threadOk, Function.update_apply, Pc.holdsObj] at hthis hobj ⊢ <;>
        grind
  · intro w r' hr' hfw
    by_cases hw : w = v
    · subst hw
      simp only [Function.update_self, Option.some.injEq] at hr'
      subst hr'
      constructor
      · intro u
        have := hno u
        simp only [Function.update_apply]
        grind [Pc.holdsCalc]
      · rw [waiters_same s.pc t (.beginRel w) w (by simp [hpc, Pc.waiting])]
        have : waiters s.pc w = ∅ := by
          ext u; simp [waiters, (hno u).1]
        simp [this]
      · intro hall
        have := hall t
        simp [Pc.computing] at this
      · exact Nat.lt_succ_self _
    · simp only [Function.update_of_ne hw] at hr'
      obtain ⟨a, b, d, e⟩ := h4 w r' hr' hfw
      constructor
      · intro u
        have := a u
        have := a t
        simp only [Function.update_apply]
        grind [Pc.holdsCalc]
      · simp only [waiters_same s.pc t (.beginRel v) w (by simp [hpc, Pc.waiting, Ne.symm hw])]; exact b
      · intro hall
        apply d
        intro u
        have := hall u
        simp only [Function.update_apply] at this
        grind [Pc.computing]
      · first | exact e | exact Nat.lt_succ_of_lt e
  · intro w r' hr' hfw
    have hps := h4p w
    simp only [Function.update_apply] at hr'
    grind
  · exact h5
  · intro w hw
    refine le_trans (h6 w hw) (le_of_eq ?_)
    have : (∃ u, (Function.update s.pc t (.beginRel v) u).postCalc w = true) ↔
        ∃ u, (s.pc u).postCalc w = true := by
      refine exists_congr (fun u => ?_)
      simp only [Function.update_apply]
      grind [Pc.postCalc]
    simp only [this]
  · exact h7

theorem inv_store (h : Inv c s) (t : Tid) (v : V) (x : T) (hpc : s.pc t = .store v x) :
    Inv c { (s.goto t (.finish v)) with cache := Function.update s.cache v (some x) } := by
  have h' := h
  obtain ⟨h1, h2, h3, h4, h4p, h5, h6, h7⟩ := h
  have h3t := h3 t
  rw [hpc] at h3t
  simp only [threadOk] at h3t
  have hfv : (c.func v).isSome = true := by simp [h3t.2.2.2]
  obtain ⟨r0, hr0⟩ := Option.isSome_iff_exists.1 h3t.2.1
  simp only [St.goto]
  constructor
  · exact h1
  · intro u
    have := h2 u
    have := h2 t
    simp only [Function.update_apply]
    grind [Pc.holdsObj]
  · intro u
    by_cases hu : u = t
    · subst hu; simp [threadOk, h3t]
    · have hthis := h3 u
      simp only [Function.update_of_ne hu]
      have hobj := fun a b => hu (holdsObj_unique h' (t := u) (u := t) a b)
      have hcalc := fun a b => hu (holdsCalc_unique h' hr0 hfv (t := u) (u := t) a b)
      have hwt := waiters_pos s.pc u v
      cases hp : s.pc u <;>
        simp only [hp, hpc, threadOk, Function.update_apply, Pc.holdsObj, Pc.holdsCalc, Pc.waiting,
          decide_eq_true_eq] at hthis hobj hcalc hwt ⊢ <;>
        grind
  · intro w r' hr' hfw
    obtain ⟨a, b, d, e⟩ := h4 w r' hr' hfw
    constructor
    · intro u
      have := a u
      have := a t
      simp only [Function.update_apply]
      grind [Pc.holdsCalc]
    · rw [waiters_same s.pc t (.finish v) w (by simp [hpc, Pc.waiting])]; exact b
    · intro hall
      by_cases hw : w = v
      · subst hw
        have := hall t
        simp [Pc.computing] at this
      · simp only [Function.update_of_ne hw]
        apply d
        intro u
        have := hall u
        simp only [Function.update_apply] at this
        grind [Pc.computing]
    · exact e
  · intro w r' hr' hfw
    have hps := h4p w
    simp only [Function.update_apply] at hr'
    grind
  · intro w y hy
    simp only [Function.update_apply] at hy
    grind
  · intro w hw
    refine le_trans (h6 w hw) (le_of_eq ?_)
    by_cases hwv : w = v
    · subst hwv
      have : ∃ u, (s.pc u).postCalc w = true := ⟨t, by simp [hpc, Pc.postCalc]⟩
      simp [this]
    · simp only [Function.update_of_ne hwv]
      have : (∃ u, (Function.update s.pc t (.finish v) u).postCalc w = true) ↔
          ∃ u, (s.pc u).postCalc w = true := by
        refine exists_congr (fun u => ?_)
        simp only [Function.update_apply]
        grind [Pc.postCalc]
      simp only [this]
  · exact h7

theorem inv_finish_last (h : Inv c s) (t : Tid) (v : V) (r : WaitRec Tid) (hpc : s.pc t = .finish v)
    (hr : s.inProc v = some r) (hcnt : r.count = 0) :
    Inv c { (s.goto t (.read v)) with inProc := Function.update s.inProc v none } := by
  have h' := h
  obtain ⟨h1, h2, h3, h4, h4p, h5, h6, h7⟩ := h
  have h3t := h3 t
  rw [hpc] at h3t
  simp only [threadOk] at h3t
  have hfv : (c.func v).isSome = true := by
    obtain ⟨y, hy⟩ := Option.isSome_iff_exists.1 h3t.1
    simp [(h5 v y hy).1]
  have hone : ∀ u, (s.pc u).waiting v = false := by
    intro u
    by_contra hne
    have := waiters_pos s.pc u v (by simpa using hne)
    have := (h4 v r hr hfv).count
    omega
  have hcomp : ∀ u, u ≠ t → (s.pc u).computing v = false := by
    intro u hut
    by_contra hne
    have hu : (s.pc u).holdsCalc v = true := by
      revert hne
      cases s.pc u <;> simp [Pc.computing, Pc.holdsCalc]
    exact hut (holdsCalc_unique h' hr hfv hu (by simp [hpc, Pc.holdsCalc]))
  simp only [St.goto]
  constructor
  · exact h1
  · intro u
    have := h2 u
    have := h2 t
    simp only [Function.update_apply]
    grind [Pc.holdsObj]
  · intro u
    by_cases hu : u = t
    · subst hu; simp [threadOk, h3t]
    · have hthis := h3 u
      have hw1 := hone u
      have hc1 := hcomp u hu
      simp only [Function.update_of_ne hu]
      cases hp : s.pc u <;>
        simp only [hp, threadOk, Function.update_apply, Pc.waiting, Pc.computing,
          decide_eq_false_iff_not] at hthis hw1 hc1 ⊢ <;>
        grind
  · intro w r' hr' hfw
    by_cases hw : w = v
    · subst hw
      simp at hr'
    · simp only [Function.update_of_ne hw] at hr'
      obtain ⟨a, b, d, e⟩ := h4 w r' hr' hfw
      constructor
      · intro u
        have := a u
        have := a t
        simp only [Function.update_apply]
        grind [Pc.holdsCalc]
      · simp only [waiters_same s.pc t (.read v) w (by simp [hpc, Pc.waiting, Ne.symm hw])]; exact b
      · intro hall
        apply d
        intro u
        have := hall u
        simp only [Function.update_apply] at this
        grind [Pc.computing]
      · first | exact e | exact Nat.lt_succ_of_lt e
  · intro w r' hr' hfw
    have hps := h4p w
    simp only [Function.update_apply] at hr'
    grind
  · exact h5
  · intro w hw
    refine le_trans (h6 w hw) (le_of_eq ?_)
    have : (∃ u, (Function.update s.pc t (.read v) u).postCalc w = true) ↔
        ∃ u, (s.pc u).postCalc w = true := by
      refine exists_congr (fun u => ?_)
      simp only [Function.update_apply]
      grind [Pc.postCalc]
    simp only [this]
  · exact h7

theorem inv_finish_more (h : Inv c s) (t : Tid) (v : V) (r : WaitRec Tid) (hpc : s.pc t = .finish v)
    (hr : s.inProc v = some r) (hcnt : r.count ≠ 0) :
    Inv c { (s.goto t (.read v)) with
        inProc := Function.update s.inProc v (some { r with owner := none }) } := by
  have h' := h
  obtain ⟨h1, h2, h3, h4, h4p, h5, h6, h7⟩ := h
  have h3t := h3 t
  rw [hpc] at h3t
  simp only [threadOk] at h3t
  have hfv : (c.func v).isSome = true := by
    obtain ⟨y, hy⟩ := Option.isSome_iff_exists.1 h3t.1
    simp [(h5 v y hy).1]
  simp only [St.goto]
  constructor
  · exact h1
  · intro u
    have := h2 u
    have := h2 t
    simp only [Function.update_apply]
    grind [Pc.holdsObj]
  · intro u
    by_cases hu : u = t
    · subst hu; simp [threadOk, h3t]
    · have hthis := h3 u
      simp only [Function.update_of_ne hu]
      have hobj := fun a b => hu (holdsObj_unique h' (t := u) (u := t) a b)
      have hcalc := fun r' (hr' : s.inProc v = some r') a b =>
        hu (holdsCalc_unique h' hr' hfv (t := u) (u := t) a b)
      have hwt := waiters_pos s.pc u v
      cases hp : s.pc u <;>
        simp only [hp, hpc, threadOk, Function.update_apply, Pc.holdsObj, Pc.holdsCalc, Pc.waiting,
          decide_eq_true_eq] at hthis hobj hcalc hwt ⊢ <;>
        grind
  · intro w r' hr' hfw
    by_cases hw : w = v
    · subst hw
      obtain ⟨a, b, d, e⟩ := h4 w r hr hfw
      simp only [Function.update_self, Option.some.injEq] at hr'
      subst hr'
      constructor
      · intro u
        have := a u
        have := (a t).2 (by simp [hpc, Pc.holdsCalc])
        simp only [Function.update_apply]
        grind [Pc.holdsCalc]
      · rw [waiters_same s.pc t (.read w) w (by simp [hpc, Pc.waiting])]; exact b
      · intro _
        refine ⟨h3t.1, ?_⟩
        have : (0:ℤ) ≤ r.count := by rw [b]; exact Int.natCast_nonneg _
        simp only
        omega
      · exact e
    · simp only [Function.update_of_ne hw] at hr'
      obtain ⟨a, b, d, e⟩ := h4 w r' hr' hfw
      constructor
      · intro u
        have := a u
        have := a t
        simp only [Function.update_apply]
        grind [Pc.holdsCalc]
      · simp only [waiters_same s.pc t (.read v) w (by simp [hpc, Pc.waiting, Ne.symm hw])]; exact b
      · intro hall
        apply d
        intro u
        have := hall u
        simp only [Function.update_apply] at this
        grind [Pc.computing]
      · first | exact e | exact Nat.lt_succ_of_lt e
  · intro w r' hr' hfw
    have hps := h4p w
    simp only [Function.update_apply] at hr'
    grind
  · exact h5
  · intro w hw
    refine le_trans (h6 w hw) (le_of_eq ?_)
    have : (∃ u, (Function.update s.pc t (.read v) u).postCalc w = true) ↔
        ∃ u, (s.pc u).postCalc w = true := by
      refine exists_congr (fun u => ?_)
      simp only [Function.update_apply]
      grind [Pc.postCalc]
    simp only [this]
  · exact h7

theorem inv_calc (h : Inv c s) (t : Tid) (v : V) (x : T) (hpc : s.pc t = .calc v) (hx : c.func v = some x) :
    Inv c { (s.goto t (.calcObj v x)) with log := .eval t v :: s.log } := by
  have h' := h
  obtain ⟨h1, h2, h3, h4, h4p, h5, h6, h7⟩ := h
  have h3t := h3 t
  rw [hpc] at h3t
  simp only [threadOk] at h3t
  have hfv : (c.func v).isSome = true := by simp [hx]
  simp only [St.goto]
  constructor
  · exact h1
  · intro u
    have := h2 u
    have := h2 t
    simp only [Function.update_apply]
    grind [Pc.holdsObj]
  · intro u
    by_cases hu : u = t
    · subst hu; simp [threadOk, h3t, hx]
    · simpa [Function.update_of_ne hu] using h3 u
  · intro w r' hr' hfw
    obtain ⟨a, b, d, e⟩ := h4 w r' hr' hfw
    constructor
    · intro u
      have := a u
      have := a t
      simp only [Function.update_apply]
      grind [Pc.holdsCalc]
    · rw [waiters_same s.pc t (.calcObj v x) w (by simp [hpc, Pc.waiting])]; exact b
    · intro hall
      apply d
      intro u
      have := hall u
      simp only [Function.update_apply] at this
      grind [Pc.computing]
    · exact e
  · intro w r' hr' hfw
    have hps := h4p w
    simp only [Function.update_apply] at hr'
    grind
  · exact h5
  · intro w hw
    by_cases hwv : w = v
    · subst hwv
      have hr : ∃ r, s.inProc w = some r := Option.isSome_iff_exists.1 h3t.2.1
      obtain ⟨r, hr⟩ := hr
      have hnot : ¬ ∃ u, (s.pc u).postCalc w = true := by
        rintro ⟨u, hu⟩
        have hu2 : (s.pc u).holdsCalc w = true := by
          revert hu
          cases s.pc u <;> simp [Pc.postCalc, Pc.holdsCalc]
        have := holdsCalc_unique h' hr hfv hu2 (by simp [hpc, Pc.holdsCalc] : (s.pc t).holdsCalc w = true)
        subst this
        simp [hpc, Pc.postCalc] at hu
      have hyes : ∃ u, (Function.update s.pc t (.calcObj w x) u).postCalc w = true :=
        ⟨t, by simp [Pc.postCalc]⟩
      have := h6 w hw
      simp only [hnot, h3t.1] at this
      simp only [evalsSince, hyes]
      simp at this ⊢
      omega
    · have : (∃ u, (Function.update s.pc t (.calcObj v x) u).postCalc w = true) ↔
          ∃ u, (s.pc u).postCalc w = true := by
        refine exists_congr (fun u => ?_)
        simp only [Function.update_apply]
        grind [Pc.postCalc]
      simp only [evalsSince, this, Ne.symm hwv, if_false, Nat.zero_add]
      exact h6 w hw
  · intro u w y hy
    simp only [List.mem_cons, reduceCtorEq, false_or] at hy
    exact h7 u w y hy

theorem inv_unlock (h : Inv c s) (t : Tid) (v : V) (x : T) (hpc : s.pc t = .unlock v x) :
    Inv c { (s.goto t .idle) with lock := none, log := .ret t v x :: s.log } := by
  have h' := h
  obtain ⟨h1, h2, h3, h4, h4p, h5, h6, h7⟩ := h
  have h3t := h3 t
  rw [hpc] at h3t
  simp only [threadOk] at h3t
  simp only [St.goto]
  constructor
  · exact h1
  · intro u
    have := h2 u
    have := h2 t
    simp only [Function.update_apply]
    grind [Pc.holdsObj]
  · intro u
    by_cases hu : u = t
    · subst hu; simp [threadOk]
    · simpa [Function.update_of_ne hu] using h3 u
  · intro w r' hr' hfw
    obtain ⟨a, b, d, e⟩ := h4 w r' hr' hfw
    constructor
    · intro u
      have := a u
      have := a t
      simp only [Function.update_apply]
      grind [Pc.holdsCalc]
    · rw [waiters_same s.pc t (.idle) w (by simp [hpc, Pc.waiting])]; exact b
    · intro hall
      apply d
      intro u
      have := hall u
      simp only [Function.update_apply] at this
      grind [Pc.computing]
    · exact e
  · intro w r' hr' hfw
    have hps := h4p w
    simp only [Function.update_apply] at hr'
    grind
  · exact h5
  · intro w hw
    simp only [evalsSince]
    have : (∃ u, (Function.update s.pc t (.idle) u).postCalc w = true) ↔
        ∃ u, (s.pc u).postCalc w = true := by
      refine exists_congr (fun u => ?_)
      simp only [Function.update_apply]
      grind [Pc.postCalc]
    simp only [this]
    exact h6 w hw
  · intro u w y hy
    rcases List.mem_cons.1 hy with hy | hy
    · grind
    · exact h7 u w y hy

theorem inv_bypassCalc (h : Inv c s) (t : Tid) (v : V) (x : T) (hpc : s.pc t = .bypassCalc v) (hx : c.func v = some x) :
    Inv c { (s.goto t .idle) with log := .ret t v x :: .eval t v :: s.log } := by
  have h' := h
  obtain ⟨h1, h2, h3, h4, h4p, h5, h6, h7⟩ := h
  have h3t := h3 t
  rw [hpc] at h3t
  simp only [threadOk] at h3t
  simp only [St.goto]
  constructor
  · exact h1
  · intro u
    have := h2 u
    have := h2 t
    simp only [Function.update_apply]
    grind [Pc.holdsObj]
  · intro u
    by_cases hu : u = t
    · subst hu; simp [threadOk]
    · simpa [Function.update_of_ne hu] using h3 u
  · intro w r' hr' hfw
    obtain ⟨a, b, d, e⟩ := h4 w r' hr' hfw
    constructor
    · intro u
      have := a u
      have := a t
      simp only [Function.update_apply]
      grind [Pc.holdsCalc]
    · rw [waiters_same s.pc t (.idle) w (by simp [hpc, Pc.waiting])]; exact b
    · intro hall
      apply d
      intro u
      have := hall u
      simp only [Function.update_apply] at this
      grind [Pc.computing]
    · exact e
  · intro w r' hr' hfw
    have hps := h4p w
    simp only [Function.update_apply] at hr'
    grind
  · exact h5
  · intro w hw
    have hwv : v ≠ w := by rintro rfl; simp [h3t] at hw
    simp only [evalsSince, if_neg hwv, Nat.zero_add]
    have : (∃ u, (Function.update s.pc t (.idle) u).postCalc w = true) ↔
        ∃ u, (s.pc u).postCalc w = true := by
      refine exists_congr (fun u => ?_)
      simp only [Function.update_apply]
      grind [Pc.postCalc]
    simp only [this]
    exact h6 w hw
  · intro u w y hy
    rcases List.mem_cons.1 hy with hy | hy
    · grind
    · simp only [List.mem_cons, reduceCtorEq, false_or] at hy
      exact h7 u w y hy

theorem inv_bypassThrow (h : Inv c s) (t : Tid) (v : V) (hpc : s.pc t = .bypassCalc v) :
    Inv c { (s.goto t .idle) with log := .threw t v :: s.log } := by
  have h' := h
  obtain ⟨h1, h2, h3, h4, h4p, h5, h6, h7⟩ := h
  have h3t := h3 t
  rw [hpc] at h3t
  simp only [threadOk] at h3t
  simp only [St.goto]
  constructor
  · exact h1
  · intro u
    have := h2 u
    have := h2 t
    simp only [Function.update_apply]
    grind [Pc.holdsObj]
  · intro u
    by_cases hu : u = t
    · subst hu; simp [threadOk]
    · simpa [Function.update_of_ne hu] using h3 u
  · intro w r' hr' hfw
    obtain ⟨a, b, d, e⟩ := h4 w r' hr' hfw
    constructor
    · intro u
      have := a u
      have := a t
      simp only [Function.update_apply]
      grind [Pc.holdsCalc]
    · rw [waiters_same s.pc t (.idle) w (by simp [hpc, Pc.waiting])]; exact b
    · intro hall
      apply d
      intro u
      have := hall u
      simp only [Function.update_apply] at this
      grind [Pc.computing]
    · exact e
  · intro w r' hr' hfw
    have hps := h4p w
    simp only [Function.update_apply] at hr'
    grind
  · exact h5
  · intro w hw
    simp only [evalsSince]
    have : (∃ u, (Function.update s.pc t (.idle) u).postCalc w = true) ↔
        ∃ u, (s.pc u).postCalc w = true := by
      refine exists_congr (fun u => ?_)
      simp only [Function.update_apply]
      grind [Pc.postCalc]
    simp only [this]
    exact h6 w hw
  · intro u w y hy
    simp only [List.mem_cons, reduceCtorEq, false_or] at hy
    exact h7 u w y hy

theorem inv_throw (h : Inv c s) (t : Tid) (v : V) (hpc : s.pc t = .calc v) (hx : c.func v = none) :
    Inv c { (s.goto t .idle) with log := .threw t v :: s.log } := by
  have h' := h
  obtain ⟨h1, h2, h3, h4, h4p, h5, h6, h7⟩ := h
  have h3t := h3 t
  rw [hpc] at h3t
  simp only [threadOk] at h3t
  simp only [St.goto]
  constructor
  · exact h1
  · intro u
    have := h2 u
    have := h2 t
    simp only [Function.update_apply]
    grind [Pc.holdsObj]
  · intro u
    by_cases hu : u = t
    · subst hu; simp [threadOk]
    · simpa [Function.update_of_ne hu] using h3 u
  · intro w r' hr' hfw
    obtain ⟨a, b, d, e⟩ := h4 w r' hr' hfw
    constructor
    · intro u
      have := a u
      have := a t
      have hne : v ≠ w := by rintro rfl; simp [hx] at hfw
      simp only [Function.update_apply]
      grind [Pc.holdsCalc]
    · rw [waiters_same s.pc t (.idle) w (by simp [hpc, Pc.waiting])]; exact b
    · intro hall
      apply d
      intro u
      have := hall u
      have hne : v ≠ w := by rintro rfl; simp [hx] at hfw
      simp only [Function.update_apply] at this
      grind [Pc.computing]
    · exact e
  · intro w r' hr' hfw
    have hps := h4p w
    simp only [Function.update_apply] at hr'
    grind
  · exact h5
  · intro w hw
    simp only [evalsSince]
    have : (∃ u, (Function.update s.pc t (.idle) u).postCalc w = true) ↔
        ∃ u, (s.pc u).postCalc w = true := by
      refine exists_congr (fun u => ?_)
      simp only [Function.update_apply]
      grind [Pc.postCalc]
    simp only [this]
    exact h6 w hw
  · intro u w y hy
    simp only [List.mem_cons, reduceCtorEq, false_or] at hy
    exact h7 u w y hy

end

/-- No thread is inside a call. -/
def Quiet (s : St Tid V T) : Prop := ∀ t, s.pc t = .idle

/-- Clearing is harmless now: nobody is inside a critical section, and no thread is still to be handed
the result of a computation that has already ended. -/
def SafeToClear (s : St Tid V T) : Prop :=
  s.lock = none ∧ ∀ t v, (s.pc t).waiting v = true → ∃ u, (s.pc u).computing v = true

theorem inv_clear [Fintype Tid] {c : Cfg V T} {s : St Tid V T} (h : Inv c s) (hq : SafeToClear s) :
    Inv c { s with cache := fun _ => none, log := .cleared :: s.log } := by
  obtain ⟨h1, h2, h3, h4, h4p, h5, h6, h7⟩ := h
  obtain ⟨hl, hw⟩ := hq
  constructor
  · exact h1
  · exact h2
  · intro t
    have h3t := h3 t
    have h2t := h2 t
    rw [hl] at h2t
    cases hp : s.pc t <;> simp only [hp, threadOk, Pc.holdsObj] at h3t h2t ⊢ <;> simp_all
  · intro v r hr hf
    obtain ⟨a, b, d, e⟩ := h4 v r hr hf
    refine ⟨a, b, ?_, e⟩
    intro hall
    have h0 := (d hall).2
    rw [b] at h0
    obtain ⟨t, ht⟩ := Finset.card_pos.1 (Int.natCast_pos.1 h0)
    simp only [waiters, Finset.mem_filter] at ht
    obtain ⟨u, hu⟩ := hw t v ht.2
    simp [hall u] at hu
  · exact h4p
  · simp
  · intro v _; simp [evalsSince]
  · intro t v x hx
    simp only [List.mem_cons, reduceCtorEq, false_or] at hx
    exact h7 t v x hx

theorem inv_called [Fintype Tid] {c : Cfg V T} {s : St Tid V T} (h : Inv c s) (t : Tid) (v : V) :
    Inv c { s with log := .called t v :: s.log } := by
  obtain ⟨h1, h2, h3, h4, h4p, h5, h6, h7⟩ := h
  refine ⟨h1, h2, h3, h4, h4p, h5, ?_, ?_⟩
  · intro w hw; simpa [evalsSince] using h6 w hw
  · intro u w x hx
    simp only [List.mem_cons, reduceCtorEq, false_or] at hx
    exact h7 u w x hx

/-- A quiet state is safe to clear. -/
theorem Quiet.safe [Fintype Tid] {c : Cfg V T} {s : St Tid V T} (h : Inv c s) (hq : Quiet s) :
    SafeToClear s := by
  refine ⟨?_, ?_⟩
  · cases hl : s.lock with
    | none => rfl
    | some t => have := (h.lock t).1 hl; simp [hq t, Pc.holdsObj] at this
  · intro t v ht; rw [hq t] at ht; simp [Pc.waiting] at ht

theorem inv_stepThread [Fintype Tid] [Inhabited T] {c : Cfg V T} {s s' : St Tid V T}
    (h : Inv c s) (t : Tid) (hs : stepThread c s t = some s') : Inv c s' := by
  have h3t := h.thread t
  have h2t := h.lock t
  unfold stepThread at hs
  split at hs <;> rename_i hpc <;> simp only [hpc, threadOk, Pc.holdsObj, iff_true] at h3t h2t
  · simp at hs
  · -- start
    rename_i v
    unfold St.acquire at hs
    split at hs <;> simp only [Option.some.injEq, reduceCtorEq] at hs
    subst hs
    exact inv_move h t (.locked v) (some t) (by simp_all [Pc.holdsObj]) (by simp [threadOk])
      (by simp [hpc, Pc.waiting]) (by simp [hpc, Pc.computing]) (by simp [hpc, Pc.holdsCalc])
      (by simp [hpc, Pc.postCalc])
  · -- locked
    rename_i v
    have key : ∀ p : Pc V T, p.holdsObj = true → threadOk c s.cache s.inProc p →
        (∀ v, p.waiting v = false) → (∀ v, p.computing v = false) → (∀ v, p.holdsCalc v = false) →
        (∀ v, p.postCalc v = false) → Inv c (s.goto t p) := by
      intro p a b d e f g
      exact inv_move h t p s.lock (.inl ⟨rfl, by rw [hpc, a]; rfl⟩) b (by intro v; rw [hpc, d]; rfl)
        (by intro v; rw [hpc, e]; rfl) (by intro v; rw [hpc, f]; rfl) (by intro v; rw [hpc, g]; rfl)
    split at hs
    · split at hs
      · simp only [Option.some.injEq] at hs; subst hs
        refine key _ rfl ?_ (fun _ => rfl) (fun _ => rfl) (fun _ => rfl) (fun _ => rfl)
        simp_all [threadOk]
      · split at hs <;> simp only [Option.some.injEq] at hs <;> subst hs <;>
        refine key _ rfl ?_ (fun _ => rfl) (fun _ => rfl) (fun _ => rfl) (fun _ => rfl) <;>
        simp_all [threadOk]
    · simp only [Option.some.injEq] at hs; subst hs
      refine key _ rfl ?_ (fun _ => rfl) (fun _ => rfl) (fun _ => rfl) (fun _ => rfl)
      simp_all [threadOk]
  · -- hit
    rename_i v
    simp only [Option.some.injEq] at hs; subst hs
    exact inv_move h t (.read v) s.lock (by simp [hpc, Pc.holdsObj]) (by simp [threadOk, h3t])
      (by simp [hpc, Pc.waiting]) (by simp [hpc, Pc.computing]) (by simp [hpc, Pc.holdsCalc])
      (by simp [hpc, Pc.postCalc])
  · -- join
    rename_i v
    split at hs
    · simp_all
    · rename_i r hr
      simp only [Option.some.injEq] at hs; subst hs
      exact inv_join h t v r hpc hr
  · -- joinRel
    rename_i v g
    simp only [Option.some.injEq, St.release, h2t, if_true] at hs; subst hs
    exact inv_move h t (.waitCalc v g) none (by simp [hpc, Pc.holdsObj, h2t]) (by simp [threadOk, h3t])
      (by simp [hpc, Pc.waiting]) (by simp [hpc, Pc.computing]) (by simp [hpc, Pc.holdsCalc])
      (by simp [hpc, Pc.postCalc])
  · -- waitCalc
    rename_i v g
    obtain ⟨⟨r, hr, hg⟩, hu⟩ := h3t
    subst hg
    simp only [hr, if_true] at hs
    split at hs <;> simp only [Option.some.injEq, reduceCtorEq] at hs
    rename_i ho
    subst hs
    exact inv_waitCalc h t v r.gen r hpc hr rfl ho
  · -- waitObj
    rename_i v g
    unfold St.acquire at hs
    split at hs <;> simp only [Option.some.injEq, reduceCtorEq] at hs
    subst hs
    exact inv_move h t (.leave v g) (some t) (by simp_all [Pc.holdsObj]) (by simp [threadOk, h3t])
      (by simp [hpc, Pc.waiting]) (by simp [hpc, Pc.computing]) (by simp [hpc, Pc.holdsCalc])
      (by simp [hpc, Pc.postCalc])
  · -- leave
    rename_i v g
    obtain ⟨⟨r, hr, hg⟩, hu, hf⟩ := h3t
    have how := ((h.record v r hr hf).owner t).2 (by simp [hpc, Pc.holdsCalc])
    simp only [hr, how, if_true] at hs
    split at hs <;> simp only [Option.some.injEq] at hs <;> subst hs
    · exact inv_leave_more h t v g r hpc hr (by assumption)
    · exact inv_leave_last h t v g r hpc hr (by assumption)
  · -- begin
    rename_i v
    simp only [Option.some.injEq] at hs; subst hs
    exact inv_begin h t v hpc
  · -- beginRel
    rename_i v
    simp only [Option.some.injEq, St.release, h2t, if_true] at hs; subst hs
    exact inv_move h t (.calc v) none (by simp [hpc, Pc.holdsObj, h2t]) (by simp [threadOk, h3t])
      (by simp [hpc, Pc.waiting]) (by simp [hpc, Pc.computing]) (by simp [hpc, Pc.holdsCalc])
      (by simp [hpc, Pc.postCalc])
  · -- calc
    rename_i v
    split at hs <;> simp only [Option.some.injEq] at hs <;> subst hs
    · exact inv_calc h t v _ hpc (by assumption)
    · exact inv_throw h t v hpc (by assumption)
  · -- calcObj
    rename_i v x
    unfold St.acquire at hs
    split at hs <;> simp only [Option.some.injEq, reduceCtorEq] at hs
    subst hs
    exact inv_move h t (.check v x) (some t) (by simp_all [Pc.holdsObj]) (by simp [threadOk, h3t])
      (by simp [hpc, Pc.waiting]) (by simp [hpc, Pc.computing]) (by simp [hpc, Pc.holdsCalc])
      (by simp [hpc, Pc.postCalc])
  · -- check
    rename_i v x
    simp only [h3t.1, Option.isSome_none, Bool.false_eq_true, if_false, Option.some.injEq] at hs
    subst hs
    exact inv_move h t (.store v x) s.lock (by simp [hpc, Pc.holdsObj]) (by simp [threadOk, h3t])
      (by simp [hpc, Pc.waiting]) (by simp [hpc, Pc.computing]) (by simp [hpc, Pc.holdsCalc])
      (by simp [hpc, Pc.postCalc])
  · -- store
    rename_i v x
    simp only [Option.some.injEq] at hs; subst hs
    exact inv_store h t v x hpc
  · -- finish
    rename_i v
    obtain ⟨r, hr⟩ := Option.isSome_iff_exists.1 h3t.2.1
    obtain ⟨y, hy⟩ := Option.isSome_iff_exists.1 h3t.1
    have how := ((h.record v r hr (by simp [(h.cache v y hy).1])).owner t).2 (by simp [hpc, Pc.holdsCalc])
    simp only [hr, how, if_true] at hs
    split at hs <;> simp only [Option.some.injEq] at hs <;> subst hs
    · exact inv_finish_last h t v r hpc hr (by assumption)
    · exact inv_finish_more h t v r hpc hr (by assumption)
  · -- read
    rename_i v
    obtain ⟨x, hx⟩ := Option.isSome_iff_exists.1 h3t.1
    simp only [hx, Option.some.injEq] at hs; subst hs
    exact inv_move h t (.unlock v x) s.lock (by simp [hpc, Pc.holdsObj])
      (by simp [threadOk, h3t, (h.cache v x hx).1])
      (by simp [hpc, Pc.waiting]) (by simp [hpc, Pc.computing]) (by simp [hpc, Pc.holdsCalc])
      (by simp [hpc, Pc.postCalc])
  · -- unlock
    rename_i v x
    simp only [h2t, if_true, Option.some.injEq] at hs; subst hs
    exact inv_unlock h t v x hpc
  · -- bypass
    rename_i v
    simp only [Option.some.injEq, St.release, h2t, if_true] at hs; subst hs
    exact inv_move h t (.bypassCalc v) none (by simp [hpc, Pc.holdsObj, h2t]) (by simp [threadOk, h3t])
      (by simp [hpc, Pc.waiting]) (by simp [hpc, Pc.computing]) (by simp [hpc, Pc.holdsCalc])
      (by simp [hpc, Pc.postCalc])
  · -- bypassCalc
    rename_i v
    split at hs <;> simp only [Option.some.injEq] at hs <;> subst hs
    · exact inv_bypassCalc h t v _ hpc (by assumption)
    · exact inv_bypassThrow h t v hpc

theorem inv_step [Fintype Tid] [Inhabited T] {c : Cfg V T} {s s' : St Tid V T}
    (h : Inv c s) (l : Lbl Tid V) (hl : l = .clear → SafeToClear s) (hs : step c s l = some s') : Inv c s' := by
  unfold step at hs
  simp only [h.noFault, Option.isSome_none, Bool.false_eq_true, if_false] at hs
  cases l with
  | call t v =>
    simp only at hs
    split at hs <;> simp only [Option.some.injEq, reduceCtorEq] at hs
    rename_i hpc
    subst hs
    exact inv_called (inv_move h t (.start v) s.lock (by simp [hpc, Pc.holdsObj]) (by simp [threadOk])
      (by simp [hpc, Pc.waiting]) (by simp [hpc, Pc.computing]) (by simp [hpc, Pc.holdsCalc])
      (by simp [hpc, Pc.postCalc])) t v
  | run t => exact inv_stepThread h t hs
  | clear =>
    have b := inv_clear h (hl rfl)
    simp only [(hl rfl).1, Option.some.injEq] at hs
    subst hs
    simpa [(hl rfl).1, h.noFault] using b
end Slat.CacheFn
