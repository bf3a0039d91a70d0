import Verif.CacheValModel
import Mathlib.Data.Fintype.BigOperators
import Mathlib.Algebra.BigOperators.Group.Finset.Basic

/-! Inductive invariant of the `CachedValue` model before the first clearing (helper file). -/

namespace Slat.CacheVal

variable {Tid W T : Type} [DecidableEq Tid]

/-- Program points at which the object lock is held. -/
def Pc.holdsObj : Pc T → Bool
  | .locked | .waitRel | .begin | .beginRel | .check _ | .store _ | .release | .read | .unlock _ => true
  | _ => false

/-- Program points of the computing thread before the store. -/
def Pc.computing : Pc T → Bool
  | .beginRel | .calc | .calcObj _ | .check _ | .store _ => true
  | _ => false

/-- The value a thread has computed but not stored yet. -/
def Pc.result : Pc T → Option T
  | .calcObj r | .check r | .store r => some r
  | _ => none

/-- Values the function has returned, and exceptions (`none`), since construction. -/
def outcomes : List (Ev Tid T) → List (Option T)
  | [] => []
  | .eval _ x :: l => some x :: outcomes l
  | .threw _ :: l => none :: outcomes l
  | _ :: l => outcomes l

/-- What is known about one thread. -/
def threadOk (s : St Tid W T) : Pc T → Prop
  | .read | .waitUnset | .waitObj => s.valid = true
  | .release => s.valid = true ∧ s.waiting = some none
  | .waitRel | .waitSet => s.valid = true ∨ s.inProcess = true
  | .begin => s.valid = false ∧ s.inProcess = false
  | .beginRel | .calc => s.valid = false ∧ s.inProcess = true ∧ outcomes s.log = []
  | .calcObj r | .check r | .store r => s.valid = false ∧ s.inProcess = true ∧ outcomes s.log = [some r]
  | .unlock r => s.valid = true ∧ r = s.value
  | _ => True

/-- The invariant. -/
structure Inv (s : St Tid W T) : Prop where
  noFault : s.fault = none
  lock : ∀ t, s.lock = some t ↔ (s.pc t).holdsObj = true
  thread : ∀ t, threadOk s (s.pc t)
  unique : ∀ t u, (s.pc t).computing = true → (s.pc u).computing = true → t = u
  busy : s.inProcess = true → (∃ t, (s.pc t).computing = true) ∨ outcomes s.log = [none]
  busyInvalid : s.inProcess = true → s.valid = false
  fresh : s.valid = false → s.inProcess = false → outcomes s.log = []
  valid : s.valid = true → outcomes s.log = [some s.value]
  waitInit : s.valid = false → s.waiting = some none
  waitCtor : s.waiting = some none → s.valid = true → ∃ t, s.pc t = .release
  waitOwner : ∀ t, s.waiting = some (some t) ↔ s.pc t = .waitUnset
  rets : ∀ t x, Ev.ret t x ∈ s.log → s.valid = true ∧ x = s.value

theorem inv_init (w : W) (junk : T) : Inv (init Tid w junk) := by
  constructor <;> simp [init, Pc.holdsObj, threadOk, outcomes, Pc.computing]

theorem holdsObj_unique {s : St Tid W T} (h : Inv s) {t u : Tid} (ht : (s.pc t).holdsObj = true)
    (hu : (s.pc u).holdsObj = true) : t = u := by
  have a := (h.lock t).2 ht
  have b := (h.lock u).2 hu
  rw [a] at b
  exact Option.some.inj b

/-- Everything but the thread-local facts of the other threads. -/
theorem inv_of {s s' : St Tid W T} (t : Tid) (p : Pc T) (hpc : s'.pc = Function.update s.pc t p)
    (hf : s'.fault = none) (hp : threadOk s' p)
    (hoth : ∀ u, u ≠ t → threadOk s' (s.pc u))
    (hlock : ∀ u, s'.lock = some u ↔ (Function.update s.pc t p u).holdsObj = true)
    (huni : ∀ u v, (Function.update s.pc t p u).computing = true →
      (Function.update s.pc t p v).computing = true → u = v)
    (hbusy : s'.inProcess = true → (∃ u, (Function.update s.pc t p u).computing = true) ∨
      outcomes s'.log = [none])
    (h1 : s'.inProcess = true → s'.valid = false)
    (h2 : s'.valid = false → s'.inProcess = false → outcomes s'.log = [])
    (h3 : s'.valid = true → outcomes s'.log = [some s'.value])
    (h4 : s'.valid = false → s'.waiting = some none)
    (h5 : s'.waiting = some none → s'.valid = true → ∃ u, Function.update s.pc t p u = .release)
    (h6 : ∀ u, s'.waiting = some (some u) ↔ Function.update s.pc t p u = .waitUnset)
    (h7 : ∀ u x, Ev.ret u x ∈ s'.log → s'.valid = true ∧ x = s'.value) : Inv s' := by
  refine ⟨hf, ?_, ?_, ?_, ?_, h1, h2, h3, h4, ?_, ?_, h7⟩
  · rw [hpc]; exact hlock
  · intro u
    rw [hpc]
    by_cases hu : u = t
    · subst hu; simpa using hp
    · rw [Function.update_of_ne hu]; exact hoth u hu
  · rw [hpc]; exact huni
  · rw [hpc]; exact hbusy
  · rw [hpc]; exact h5
  · rw [hpc]; exact h6

set_option maxHeartbeats 4000000 in
theorem inv_stepThread {c : Cfg W T} {s s' : St Tid W T} (h : Inv s) (t : Tid)
    (hs : stepThread c s t = some s') : Inv s' := by
  have h3t := h.thread t
  have h2t := h.lock t
  have hobj := fun u a b => holdsObj_unique h (t := u) (u := t) a b
  have hcomp : ∀ u, (s.pc u).computing = true → s.inProcess = true := by
    intro u hu
    have := h.thread u
    cases hp : s.pc u <;> simp [hp, Pc.computing, threadOk] at hu this <;> exact this.2.1
  obtain ⟨hf, hlock, hth, huni, hbusy, hbi, hfresh, hval, hwi, hwc, hwo, hret⟩ := h
  unfold stepThread at hs
  split at hs <;> rename_i hpc <;>
    simp only [hpc, threadOk, Pc.holdsObj, iff_true, Bool.false_eq_true, iff_false] at h3t h2t hobj
  all_goals (try (cases hs; done))
  all_goals (try unfold St.acquire at hs)
  all_goals (try unfold St.release at hs)
  all_goals (try unfold St.releaseWaiting at hs)
  all_goals (repeat' split at hs)
  all_goals (try (cases hs; done))
  all_goals simp only [Option.some.injEq] at hs
  all_goals subst hs
  all_goals (try (simp only [St.die]; exfalso; grind; done))
  all_goals
    refine inv_of t _ rfl (by simpa [St.goto] using hf) ?_ (by
      intro u hu
      have hu3 := hth u
      have hu1 := hobj u
      have hu2 := huni u t
      cases hp : s.pc u <;>
        simp only [hp, hpc, threadOk, St.goto, Pc.holdsObj, Pc.computing, outcomes] at hu3 hu1 hu2 ⊢ <;>
        grind) ?_ ?_ ?_ ?_ ?_ ?_ ?_ ?_ ?_ ?_
  all_goals (try simp only [St.goto, threadOk, Function.update_apply, outcomes])
  all_goals grind [Pc.holdsObj, Pc.computing]

end Slat.CacheVal
