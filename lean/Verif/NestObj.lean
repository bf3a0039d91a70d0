import Verif.NestInv
import Verif.ParForLemmas

/-! Both kinds of caches provide what nested calculations rely on (helper file for `NestProps.lean`). -/

namespace Slat.Nest

open ParFor (Out)

variable {Tid V T : Type} [DecidableEq Tid]

/-! ## `CachedFunction` -/

section Fn

variable [DecidableEq V] [Inhabited T]

/-- The wrapped function will not be called any more. -/
def fnSettled : CacheFn.Pc V T → Bool
  | .calcObj _ _ | .check _ _ | .store _ _ | .finish _ | .read _ | .unlock _ _ => true
  | _ => false

/-- The wrapped function is called next. -/
def fnNeeds : CacheFn.Pc V T → Bool
  | .calc _ | .bypassCalc _ => true
  | _ => false

theorem fnObj_needs (isNaN : V → Bool) (active : Bool) (s : CacheFn.St Tid V T) (t : Tid) :
    (fnObj (T := T) Tid isNaN active).needs s t = fnNeeds (s.pc t) := by
  show (match s.pc t with | .calc _ => true | .bypassCalc _ => true | _ => false) = _
  cases s.pc t <;> rfl

/-- Only the call of the wrapped function depends on it. -/
theorem fn_stepThread_eq (F : V → Option T) (isNaN : V → Bool) (active : Bool) (r : Option T) (s : CacheFn.St Tid V T)
    (t : Tid) (v : V) (hv : (s.pc t).arg = some v) (hr : fnNeeds (s.pc t) = true → r = F v) :
    CacheFn.stepThread ⟨fun _ => r, isNaN, active⟩ s t = CacheFn.stepThread ⟨F, isNaN, active⟩ s t := by
  unfold CacheFn.stepThread
  split <;> rename_i hpc <;> simp only [hpc, CacheFn.Pc.arg, fnNeeds, Option.some.injEq, reduceCtorEq, forall_const] at hv hr
  all_goals first
    | rfl
    | (subst hv; simp only [hr])

theorem fn_settled_step (c : CacheFn.Cfg V T) {s s' : CacheFn.St Tid V T} {t : Tid}
    (hs : CacheFn.stepThread c s t = some s') (h : fnSettled (s.pc t) = true ∨ fnNeeds (s.pc t) = true)
    (hf : s'.fault = none) (hi : s'.pc t ≠ .idle) : fnSettled (s'.pc t) = true := by
  unfold CacheFn.stepThread at hs
  split at hs <;> rename_i hpc <;> simp only [hpc, fnSettled, fnNeeds, Bool.false_eq_true, or_self] at h
  all_goals (try unfold CacheFn.St.acquire at hs)
  all_goals (try unfold CacheFn.St.release at hs)
  all_goals (repeat' split at hs)
  all_goals simp only [Option.some.injEq, reduceCtorEq] at hs
  all_goals subst hs
  all_goals simp_all [CacheFn.St.goto, CacheFn.St.die, fnSettled]

theorem fn_provides [Fintype Tid] (F : V → Option T) (isNaN : V → Bool) (active : Bool) :
    Provides (fnObj Tid isNaN active) F
      (fun a s => CacheFn.Inv ⟨F, isNaN, active⟩ s ∧ ∀ t, a t = (s.pc t).arg)
      (fun s t => ⟨(s.pc t).rank, fnSettled (s.pc t)⟩) 11 := by
  have hidle : ∀ p : CacheFn.Pc V T, p.arg = none → p = .idle := by
    intro p h; cases p <;> simp [CacheFn.Pc.arg] at h ⊢
  have hrun : ∀ (s : CacheFn.St Tid V T) t v r, CacheFn.Inv ⟨F, isNaN, active⟩ s → (s.pc t).arg = some v →
      (fnNeeds (s.pc t) = true → r = F v) →
      CacheFn.step ⟨fun _ => r, isNaN, active⟩ s (.run t) = CacheFn.stepThread ⟨F, isNaN, active⟩ s t := by
    intro s t v r hi hv hr
    simp only [CacheFn.step, hi.noFault, Option.isSome_none, Bool.false_eq_true, if_false]
    exact fn_stepThread_eq F isNaN active r s t v hv hr
  constructor
  · intro a (s : CacheFn.St Tid V T) t v ⟨hi, ha⟩ hb
    have := hidle _ ((ha t).symm.trans hb)
    exact ⟨_, by simp only [fnObj, CacheFn.step, hi.noFault, this]; rfl⟩
  · intro a (s : CacheFn.St Tid V T) t v (s' : CacheFn.St Tid V T) ⟨hi, ha⟩
      (hs : CacheFn.step ⟨fun _ => none, isNaN, active⟩ s (.call t v) = some s')
    have hs2 : CacheFn.step ⟨F, isNaN, active⟩ s (.call t v) = some s' := hs
    have hi' := CacheFn.inv_step hi _ (by simp) hs2
    simp only [CacheFn.step, hi.noFault, Option.isSome_none, Bool.false_eq_true, if_false] at hs
    split at hs <;> simp only [Option.some.injEq, reduceCtorEq] at hs
    rename_i hpc
    subst hs
    refine ⟨⟨hi', fun u => ?_⟩, ?_, fun u hu => ?_⟩
    · by_cases hut : u = t
      · subst hut; simp [CacheFn.St.goto, CacheFn.Pc.arg]
      · simp [CacheFn.St.goto, Function.update_of_ne hut, ha u]
    · simp [CacheFn.St.goto, CacheFn.Pc.rank]
    · rw [fnObj_needs, fnObj_needs]
      simp [CacheFn.St.goto, Function.update_of_ne hu]
  · intro a (s : CacheFn.St Tid V T) t v r (s' : CacheFn.St Tid V T) o ⟨hi, ha⟩ hv hr
      (hs : ParFor.fnRun ⟨fun _ => r, isNaN, active⟩ s t = some (s', o))
    rw [fnObj_needs] at hr
    have hav : (s.pc t).arg = some v := (ha t).symm.trans hv
    unfold ParFor.fnRun at hs
    split at hs <;> simp only [Option.some.injEq, reduceCtorEq, Prod.mk.injEq] at hs
    rename_i s1 hs1
    obtain ⟨rfl, rfl⟩ := hs
    rw [hrun s t v r hi hav hr] at hs1
    have hi' := CacheFn.inv_stepThread hi t hs1
    obtain ⟨v', p, hv', hpc, hrk, hlog⟩ := CacheFn.stepThread_shape hi t hs1
    rw [hav] at hv'
    cases hv'
    have hpt : s1.pc t = p := by rw [hpc]; simp
    refine ⟨fun u hu => ?_, ?_, ?_⟩
    · rw [fnObj_needs, fnObj_needs, hpc]; simp [Function.update_of_ne hu]
    · dsimp only; rw [hpt]; exact hrk
    have hnot : p.arg = some v → p ≠ .idle := by rintro h rfl; simp [CacheFn.Pc.arg] at h
    have hbusy : p.arg = some v → ∀ u, a u = (s1.pc u).arg := by
      intro hp u
      by_cases hut : u = t
      · subst hut; rw [hpt, hp, hv]
      · rw [hpc, Function.update_of_ne hut, ha u]
    have hdone : p = .idle → ∀ u, Function.update a t none u = (s1.pc u).arg := by
      intro hp u
      by_cases hut : u = t
      · subst hut; rw [hpt, hp]; simp [CacheFn.Pc.arg]
      · rw [hpc, Function.update_of_ne hut, Function.update_of_ne hut, ha u]
    have hset : p ≠ .idle → fnSettled (s.pc t) = true ∨ (fnObj (T := T) Tid isNaN active).needs s t = true →
        fnSettled (s1.pc t) = true := by
      intro hp hh
      rw [fnObj_needs] at hh
      exact fn_settled_step _ hs1 hh hi'.noFault (by rw [hpt]; exact hp)
    rcases hlog with ⟨hp, -⟩ | ⟨hp, -⟩ | ⟨hp, hlog⟩ | ⟨hp, -, x, hlog⟩ | ⟨hp, -, x, hlog⟩
    · exact .inl ⟨by rw [hpt]; have := hnot hp; cases p <;> simp at this ⊢, ⟨hi', hbusy hp⟩, hset (hnot hp)⟩
    · exact .inl ⟨by rw [hpt]; have := hnot hp; cases p <;> simp at this ⊢, ⟨hi', hbusy hp⟩, hset (hnot hp)⟩
    · exact .inr (.inr ⟨by rw [hpt, hp, hlog]; rfl, ParFor.fn_threw hs1 hlog, hi', hdone hp⟩)
    · exact .inr (.inl ⟨x, by rw [hpt, hp, hlog]; rfl, hi'.rets t v x (by simp [hlog]), hi', hdone hp⟩)
    · exact .inr (.inl ⟨x, by rw [hpt, hp, hlog]; rfl, hi'.rets t v x (by simp [hlog]), hi', hdone hp⟩)
  · intro a (s : CacheFn.St Tid V T) t _ hn
    rw [fnObj_needs] at hn
    show fnSettled (s.pc t) = false
    cases hp : s.pc t <;> simp [hp, fnNeeds, fnSettled] at hn ⊢
  · intro a (s : CacheFn.St Tid V T) t v r ⟨hi, ha⟩ hv hn
    rw [fnObj_needs] at hn
    show ∃ x, ParFor.fnRun ⟨fun _ => r, isNaN, active⟩ s t = some x
    unfold ParFor.fnRun
    simp only [CacheFn.step, hi.noFault, Option.isSome_none, Bool.false_eq_true, if_false]
    cases hp : s.pc t <;> simp [hp, fnNeeds] at hn
    all_goals cases r <;> simp [CacheFn.stepThread, hp]
  · intro a (s : CacheFn.St Tid V T) t ⟨hi, ha⟩ hF ht
    by_contra hno
    push Not at hno
    have hst : ∀ u, CacheFn.stepThread ⟨F, isNaN, active⟩ s u = none := by
      intro u
      by_cases hu : a u = none
      · have := hidle _ ((ha u).symm.trans hu)
        simp [CacheFn.stepThread, this]
      · obtain ⟨h1, h2⟩ := hno u hu
        rw [fnObj_needs] at h1
        obtain ⟨w, hw⟩ := Option.ne_none_iff_exists'.1 hu
        have hw' : (s.pc u).arg = some w := (ha u).symm.trans hw
        rw [← hrun s u w none hi hw' (fun h => absurd h h1)]
        cases hc : CacheFn.step ⟨fun _ => none, isNaN, active⟩ s (.run u) with
        | none => rfl
        | some s' =>
          exact absurd (show ParFor.fnRun ⟨fun _ => none, isNaN, active⟩ s u = some (s', _) by
            rw [ParFor.fnRun, hc]) (h2 _)
    rcases CacheFn.stuck_shape hi hst t with h | ⟨w, g, hw, hf⟩
    · exact ht (by rw [ha t, h]; rfl)
    · exact hF t w (by rw [ha t, hw]; rfl) hf

end Fn

/-! ## `CachedValue` -/

section Val

/-- The wrapped function will not be called any more. -/
def valSettled : CacheVal.Pc T → Bool
  | .calcObj _ | .check _ | .store _ | .release | .read | .unlock _ => true
  | _ => false

/-- The wrapped function is called next. -/
def valNeeds : CacheVal.Pc T → Bool
  | .calc => true
  | _ => false

theorem valObj_needs (strict : Bool) (s : CacheVal.St Tid Unit T) (t : Tid) :
    (valObj (T := T) Tid V strict).needs s t = valNeeds (s.pc t) := by
  show (match s.pc t with | .calc => true | _ => false) = _
  cases s.pc t <;> rfl

theorem val_stepThread_eq (q : Option T) (strict : Bool) (r : Option T) (s : CacheVal.St Tid Unit T)
    (t : Tid) (hr : valNeeds (s.pc t) = true → r = q) :
    CacheVal.stepThread ⟨fun _ => r, strict⟩ s t = CacheVal.stepThread ⟨fun _ => q, strict⟩ s t := by
  unfold CacheVal.stepThread
  split <;> rename_i hpc <;> simp only [hpc, valNeeds, forall_const] at hr
  all_goals first
    | rfl
    | simp only [hr]

theorem val_settled_step (c : CacheVal.Cfg Unit T) {s s' : CacheVal.St Tid Unit T} {t : Tid}
    (hs : CacheVal.stepThread c s t = some s') (h : valSettled (s.pc t) = true ∨ valNeeds (s.pc t) = true)
    (hf : s'.fault = none) (hi : s'.pc t ≠ .idle) : valSettled (s'.pc t) = true := by
  unfold CacheVal.stepThread at hs
  split at hs <;> rename_i hpc <;> simp only [hpc, valSettled, valNeeds, Bool.false_eq_true, or_self] at h
  all_goals (try unfold CacheVal.St.acquire at hs)
  all_goals (try unfold CacheVal.St.release at hs)
  all_goals (try unfold CacheVal.St.releaseWaiting at hs)
  all_goals (repeat' split at hs)
  all_goals simp only [Option.some.injEq, reduceCtorEq] at hs
  all_goals subst hs
  all_goals simp_all [CacheVal.St.goto, CacheVal.St.die, valSettled]

theorem val_provides [Fintype Tid] (F : V → Option T) (q : Option T) (hq : ∀ v, F v = q) (strict : Bool) :
    Provides (valObj Tid V strict) F
      (fun a s => ParFor.ValInv ⟨fun _ => q, strict⟩ () s ∧ ∀ t, a t = none ↔ s.pc t = .idle)
      (fun s t => ⟨(s.pc t).rank, valSettled (s.pc t)⟩) 11 := by
  have hrun : ∀ (s : CacheVal.St Tid Unit T) t r, CacheVal.Inv s →
      (valNeeds (s.pc t) = true → r = q) →
      CacheVal.step ⟨fun _ => r, strict⟩ s (.run t) = CacheVal.stepThread ⟨fun _ => q, strict⟩ s t := by
    intro s t r hi hr
    simp only [CacheVal.step, hi.noFault, Option.isSome_none, Bool.false_eq_true, if_false]
    exact val_stepThread_eq q strict r s t hr
  constructor
  · intro a (s : CacheVal.St Tid Unit T) t v ⟨hi, ha⟩ hb
    have := (ha t).1 hb
    exact ⟨_, by simp only [valObj, CacheVal.step, hi.inv.noFault, this]; rfl⟩
  · intro a (s : CacheVal.St Tid Unit T) t v (s' : CacheVal.St Tid Unit T) ⟨hi, ha⟩
      (hs : CacheVal.step ⟨fun _ => none, strict⟩ s (.call t) = some s')
    have hs2 : CacheVal.step ⟨fun _ => q, strict⟩ s (.call t) = some s' := hs
    have hi' := CacheVal.inv_step hi.inv _ (by simp) hs2
    simp only [CacheVal.step, hi.inv.noFault, Option.isSome_none, Bool.false_eq_true, if_false] at hs
    split at hs <;> simp only [Option.some.injEq, reduceCtorEq] at hs
    rename_i hpc
    subst hs
    refine ⟨⟨⟨hi', hi.world, by simpa [CacheVal.outcomes] using hi.outcomes⟩, fun u => ?_⟩, ?_, fun u hu => ?_⟩
    · by_cases hut : u = t
      · subst hut; simp [CacheVal.St.goto]
      · simp [CacheVal.St.goto, Function.update_of_ne hut, ha u]
    · simp [CacheVal.St.goto, CacheVal.Pc.rank]
    · rw [valObj_needs, valObj_needs]
      simp [CacheVal.St.goto, Function.update_of_ne hu]
  · intro a (s : CacheVal.St Tid Unit T) t v r (s' : CacheVal.St Tid Unit T) o ⟨hi, ha⟩ hv hr
      (hs : ParFor.valRun ⟨fun _ => r, strict⟩ s t = some (s', o))
    rw [valObj_needs, hq] at hr
    unfold ParFor.valRun at hs
    split at hs <;> simp only [Option.some.injEq, reduceCtorEq, Prod.mk.injEq] at hs
    rename_i s1 hs1
    obtain ⟨rfl, rfl⟩ := hs
    rw [hrun s t r hi.inv hr] at hs1
    have hi' := CacheVal.inv_stepThread hi.inv t hs1
    obtain ⟨p, hne, hpc, hrk, hlog⟩ := CacheVal.stepThread_shape t hs1 hi'.noFault
    obtain ⟨hw, ho, hth⟩ := ParFor.val_effect hs1
    rw [hi.world] at hw ho hth
    have hV : ParFor.ValInv ⟨fun _ => q, strict⟩ () s1 := by
      refine ⟨hi', hw, ?_⟩
      intro o hmem
      rcases ho with h | h <;> rw [h] at hmem
      · exact hi.outcomes o hmem
      · rcases List.mem_cons.1 hmem with h | h
        · exact h
        · exact hi.outcomes o h
    have hpt : s1.pc t = p := by rw [hpc]; simp
    refine ⟨fun u hu => ?_, ?_, ?_⟩
    · rw [valObj_needs, valObj_needs, hpc]; simp [Function.update_of_ne hu]
    · dsimp only; rw [hpt]; exact hrk
    have hbusy : p ≠ .idle → ∀ u, a u = none ↔ s1.pc u = .idle := by
      intro hp u
      by_cases hut : u = t
      · subst hut; rw [hpt, hv]; simp [hp]
      · rw [hpc, Function.update_of_ne hut, ha u]
    have hdone : p = .idle → ∀ u, Function.update a t none u = none ↔ s1.pc u = .idle := by
      intro hp u
      by_cases hut : u = t
      · subst hut; rw [hpt, hp]; simp
      · rw [hpc, Function.update_of_ne hut, Function.update_of_ne hut, ha u]
    have hset : p ≠ .idle → valSettled (s.pc t) = true ∨ (valObj (T := T) Tid V strict).needs s t = true →
        valSettled (s1.pc t) = true := by
      intro hp hh
      rw [valObj_needs] at hh
      exact val_settled_step _ hs1 hh hi'.noFault (by rw [hpt]; exact hp)
    rcases hlog with ⟨hp, -⟩ | ⟨hp, -⟩ | ⟨hp, hlog | ⟨x, hlog⟩⟩
    · exact .inl ⟨by rw [hpt]; cases p <;> simp at hp ⊢, ⟨hV, hbusy hp⟩, hset hp⟩
    · exact .inl ⟨by rw [hpt]; cases p <;> simp at hp ⊢, ⟨hV, hbusy hp⟩, hset hp⟩
    · exact .inr (.inr ⟨by rw [hpt, hp, hlog]; rfl, by rw [hq]; exact hth ⟨t, hlog⟩, hV, hdone hp⟩)
    · refine .inr (.inl ⟨x, by rw [hpt, hp, hlog]; rfl, ?_, hV, hdone hp⟩)
      obtain ⟨hval, rfl⟩ := hi'.rets t x (by simp [hlog])
      have := hi'.valid hval
      rw [hq]
      exact (hV.outcomes (some s1.value) (by simp [this])).symm
  · intro a (s : CacheVal.St Tid Unit T) t _ hn
    rw [valObj_needs] at hn
    show valSettled (s.pc t) = false
    cases hp : s.pc t <;> simp [hp, valNeeds, valSettled] at hn ⊢
  · intro a (s : CacheVal.St Tid Unit T) t v r ⟨hi, ha⟩ hv hn
    rw [valObj_needs] at hn
    show ∃ x, ParFor.valRun ⟨fun _ => r, strict⟩ s t = some x
    unfold ParFor.valRun
    simp only [CacheVal.step, hi.inv.noFault, Option.isSome_none, Bool.false_eq_true, if_false]
    cases hp : s.pc t <;> simp [hp, valNeeds] at hn
    all_goals cases r <;> simp [CacheVal.stepThread, hp]
  · intro a (s : CacheVal.St Tid Unit T) t ⟨hi, ha⟩ hF ht
    by_contra hno
    push Not at hno
    have hst : ∀ u, CacheVal.stepThread ⟨fun _ => q, strict⟩ s u = none := by
      intro u
      by_cases hu : a u = none
      · have := (ha u).1 hu
        simp [CacheVal.stepThread, this]
      · obtain ⟨h1, h2⟩ := hno u hu
        rw [valObj_needs] at h1
        rw [← hrun s u none hi.inv (fun h => absurd h h1)]
        cases hc : CacheVal.step ⟨fun _ => none, strict⟩ s (.run u) with
        | none => rfl
        | some s' =>
          exact absurd (show ParFor.valRun ⟨fun _ => none, strict⟩ s u = some (s', _) by
            rw [ParFor.valRun, hc]) (h2 _)
    have hfn : q ≠ none := by
      obtain ⟨w, hw⟩ := Option.ne_none_iff_exists'.1 ht
      rw [← hq w]
      exact hF t w hw
    refine ht ((ha t).2 (CacheVal.stuck_shape hi.inv ?_ hst t))
    intro hn
    exact hfn (hi.outcomes none hn).symm

end Val

end Slat.Nest
