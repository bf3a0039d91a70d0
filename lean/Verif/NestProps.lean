import Verif.NestLive
import Verif.NestObj
import Verif.CacheValProps

/-!
# Queries whose answers are computed from other cached values (C58)

The theorems speak about any collection of `CachedFunction`s and `CachedValue`s whose calculations call each other
without cycles and form teams of threads, used by any number of threads at once.  The last part shows that the caches
of the library are such a collection.
-/

namespace Slat.Nest

variable {Tid C V T : Type} [DecidableEq Tid] [DecidableEq C] [DecidableEq V] [Inhabited T]

/-- Which of the two templates a cache is: `CachedFunction` (src/caching.h:96-323) with its NaN test and its flag
`cache_active`, or `CachedValue` (src/caching.h:346-490; `strict` as in `CacheVal.Cfg`). -/
inductive Shape (V : Type) where
  | function (isNaN : V → Bool) (active : Bool)
  | value (strict : Bool)

/-- The cache at statement level (src/caching.h:144-282, 415-482). -/
def cacheObj (Tid : Type) [DecidableEq Tid] : Shape V → Obj Tid V T
  | .function isNaN active => fnObj Tid isNaN active
  | .value strict => valObj Tid V strict

/-- The cache as constructed (src/caching.h:106-130, 373-401; the uninitialised value is `default`). -/
def fresh (Tid : Type) [DecidableEq Tid] : ∀ k : Shape V, (cacheObj (T := T) Tid k).St
  | .function _ _ => CacheFn.init Tid V T
  | .value _ => CacheVal.init Tid () default

/-- The caches and their calculations. -/
def system (Tid : Type) [DecidableEq Tid] (shape : C → Shape V) (body : C → V → Prog C V T) : Sys Tid C V T :=
  ⟨fun c => cacheObj Tid (shape c), body⟩

/-- Before the first query. -/
def start (Tid : Type) [DecidableEq Tid] (shape : C → Shape V) (body : C → V → Prog C V T) :
    St (system Tid shape body) :=
  init (system Tid shape body) fun c => fresh Tid (shape c)

/-- The calculation of a `CachedValue` has no argument. -/
def ValueLike (shape : C → Shape V) (body : C → V → Prog C V T) : Prop :=
  ∀ c b, shape c = .value b → ∀ v w, body c v = body c w

/-! ## Helper lemmas -/

section Helpers

/-- Invariant of a cache whose calculation has the outcomes `F`. -/
def cacheInv [Fintype Tid] (F : V → Option T) : ∀ k : Shape V, (Tid → Option V) → (cacheObj (T := T) Tid k).St → Prop
  | .function isNaN active => fun a (s : CacheFn.St Tid V T) =>
      CacheFn.Inv ⟨F, isNaN, active⟩ s ∧ ∀ t, a t = (s.pc t).arg
  | .value strict => fun a (s : CacheVal.St Tid Unit T) =>
      ∃ q, (∀ v, F v = q) ∧ ParFor.ValInv ⟨fun _ => q, strict⟩ () s ∧ ∀ t, a t = none ↔ s.pc t = .idle

/-- Where a thread is. -/
def cachePos : ∀ k : Shape V, (cacheObj (T := T) Tid k).St → Tid → Pos
  | .function _ _ => fun (s : CacheFn.St Tid V T) t => ⟨(s.pc t).rank, fnSettled (s.pc t)⟩
  | .value _ => fun (s : CacheVal.St Tid Unit T) t => ⟨(s.pc t).rank, valSettled (s.pc t)⟩

theorem cache_provides [Fintype Tid] (F : V → Option T) (k : Shape V) :
    Provides (cacheObj Tid k) F (cacheInv F k) (cachePos k) 11 := by
  cases k with
  | function isNaN active => exact fn_provides F isNaN active
  | value strict =>
    constructor
    · rintro a s t v ⟨q, hq, h⟩; exact (val_provides F q hq strict).callable a s t v h
    · rintro a s t v s' ⟨q, hq, h⟩ hs
      obtain ⟨h1, h2⟩ := (val_provides F q hq strict).call a s t v s' h hs
      exact ⟨⟨q, hq, h1⟩, h2⟩
    · rintro a s t v r s' o ⟨q, hq, h⟩ ha hr hs
      obtain ⟨h1, h2, h3⟩ := (val_provides F q hq strict).run a s t v r s' o h ha hr hs
      refine ⟨h1, h2, ?_⟩
      rcases h3 with ⟨h4, h5, h6⟩ | ⟨x, h4, h5, h6⟩ | ⟨h4, h5, h6⟩
      · exact .inl ⟨h4, ⟨q, hq, h5⟩, h6⟩
      · exact .inr (.inl ⟨x, h4, h5, q, hq, h6⟩)
      · exact .inr (.inr ⟨h4, h5, q, hq, h6⟩)
    · rintro a s t ⟨q, hq, h⟩; exact (val_provides F q hq strict).settled a s t h
    · rintro a s t v r ⟨q, hq, h⟩; exact (val_provides F q hq strict).enabled a s t v r h
    · rintro a s t ⟨q, hq, h⟩; exact (val_provides F q hq strict).live a s t h

/-- The contracts. -/
def specOf [Fintype Tid] (shape : C → Shape V) (body : C → V → Prog C V T) (rank : C → ℕ) (R : ℕ) :
    Spec (system Tid shape body) where
  rank := rank
  R := R
  Inv c := cacheInv (den body rank c) (shape c)
  pos c := cachePos (shape c)
  B _ := 11

variable [Fintype Tid] {shape : C → Shape V} {body : C → V → Prog C V T} {rank : C → ℕ} {R : ℕ}

theorem specOf_ok (hr : Ranked body rank R) : (specOf (Tid := Tid) shape body rank R).Ok :=
  ⟨hr, fun c => cache_provides (den body rank c) (shape c)⟩

theorem fresh_inv (hr : Ranked body rank R) (hv : ValueLike shape body) (c : C) :
    cacheInv (Tid := Tid) (den body rank c) (shape c) (fun _ => none) (fresh Tid (shape c)) := by
  cases hk : shape c with
  | function isNaN active => exact ⟨CacheFn.inv_init _, fun _ => rfl⟩
  | value strict =>
    by_cases hV : Nonempty V
    · obtain ⟨w⟩ := hV
      refine ⟨den body rank c w, fun v => ?_, ⟨CacheVal.inv_init () default, rfl, by simp [fresh, CacheVal.init, CacheVal.outcomes]⟩,
        fun t => by simp [fresh, CacheVal.init]⟩
      rw [den_eq hr, den_eq hr, hv c strict hk v w]
    · exact ⟨none, fun v => (hV ⟨v⟩).elim, ⟨CacheVal.inv_init () default, rfl, by simp [fresh, CacheVal.init, CacheVal.outcomes]⟩,
        fun t => by simp [fresh, CacheVal.init]⟩

theorem reach_inv (hr : Ranked body rank R) (hv : ValueLike shape body) {ls : List (Lbl Tid C V T)}
    {s : St (system Tid shape body)} (he : Exec (start Tid shape body) ls s) :
    ∃ lim, NInv (specOf shape body rank R) lim s :=
  ninv_exec (specOf_ok hr) he ⟨fun _ => 0, ninv_init _ (fresh_inv hr hv) _⟩

omit [DecidableEq C] [DecidableEq V] [Inhabited T] in
theorem runs_of_eval (hr : Ranked body rank R) (p : Prog C V T) (r : Option T) :
    Runs body p r ↔ r = eval (den body rank) p :=
  runs_iff hr (by
    induction p with
    | ret => trivial
    | call c v k ih => exact ⟨hr.lt c, ih⟩
    | par n ts k ih1 ih2 => exact ⟨fun i _ => ih1 i, ih2⟩) r

omit [Inhabited T] [DecidableEq V] [Fintype Tid] in
/-- How a step can change a cache. -/
theorem objs_step {sys : Sys Tid C V T} {s s' : St sys} {l : Lbl Tid C V T} (hs : step s l = some s') (c : C) :
    s'.objs c = s.objs c ∨ (∃ t v, (sys.obj c).call (s.objs c) t v = some (s'.objs c)) ∨
      ∃ t r o, (sys.obj c).run (s.objs c) t r = some (s'.objs c, o) := by
  have hobj : ∀ (t : Tid) (c' : C) (v : V) (rest : List (Act C V T)) (r : Option T), runObj s t c' v rest r = some s' →
      s'.objs c = s.objs c ∨ (∃ t v, (sys.obj c).call (s.objs c) t v = some (s'.objs c)) ∨
        ∃ t r o, (sys.obj c).run (s.objs c) t r = some (s'.objs c, o) := by
    intro t c' v rest r h
    by_cases hc : c = c'
    · subst hc
      unfold runObj at h
      split at h <;> simp only [Option.some.injEq, reduceCtorEq] at h
      all_goals
        rename_i o ho
        subst h
        exact .inr (.inr ⟨t, r, _, by simpa [St.goto] using ho⟩)
    · left
      unfold runObj at h
      split at h <;> simp only [Option.some.injEq, reduceCtorEq] at h
      all_goals
        subst h
        simp [Function.update_of_ne hc]
  unfold step at hs
  split at hs
  · cases hs
  split at hs
  · split at hs <;> simp only [Option.some.injEq, reduceCtorEq] at hs
    subst hs; exact .inl rfl
  · rename_i t
    unfold stepThread at hs
    split at hs
    · cases hs
    · split at hs
      · split at hs
        · simp only [Option.some.injEq] at hs; subst hs; exact .inl rfl
        · exact hobj _ _ _ _ _ hs
      · cases hs
    · split at hs
      · simp only [Option.some.injEq] at hs; subst hs; exact .inl rfl
      · exact hobj _ _ _ _ _ hs
      · split at hs <;> (simp only [Option.some.injEq] at hs; subst hs; exact .inl rfl)
    · rename_i c' v k rest _
      split at hs
      · rename_i o ho
        simp only [Option.some.injEq] at hs
        subst hs
        by_cases hc : c = c'
        · subst hc
          exact .inr (.inl ⟨t, v, by simpa using ho⟩)
        · left; simp [Function.update_of_ne hc]
      · simp only [Option.some.injEq] at hs; subst hs; exact .inl rfl
    · simp only [Option.some.injEq] at hs; subst hs; exact .inl rfl
    · split at hs <;> simp only [Option.some.injEq, reduceCtorEq] at hs
      subst hs; exact .inl rfl
  · split at hs <;> simp only [Option.some.injEq, reduceCtorEq] at hs
    subst hs; exact .inl rfl

omit [Fintype Tid] in
theorem fn_log {c : CacheFn.Cfg V T} {s s' : CacheFn.St Tid V T} {t : Tid} (hs : CacheFn.stepThread c s t = some s')
    (h : CacheFn.Ev.cleared ∉ s.log) : CacheFn.Ev.cleared ∉ s'.log := by
  unfold CacheFn.stepThread at hs
  split at hs
  all_goals (try unfold CacheFn.St.acquire at hs)
  all_goals (try unfold CacheFn.St.release at hs)
  all_goals (repeat' split at hs)
  all_goals simp only [Option.some.injEq, reduceCtorEq] at hs
  all_goals subst hs
  all_goals simp [CacheFn.St.goto, CacheFn.St.die, h]

omit [Fintype Tid] in
theorem fn_call_uncleared {c : CacheFn.Cfg V T} {s s' : CacheFn.St Tid V T} {t : Tid} {v : V}
    (hs : CacheFn.step c s (.call t v) = some s') (h : CacheFn.Ev.cleared ∉ s.log) : CacheFn.Ev.cleared ∉ s'.log := by
  unfold CacheFn.step at hs
  split at hs
  · cases hs
  · dsimp only at hs
    split at hs <;> simp only [Option.some.injEq, reduceCtorEq] at hs
    subst hs
    simpa [CacheFn.St.goto] using h

omit [Fintype Tid] in
theorem fn_run_uncleared {c : CacheFn.Cfg V T} {s s' : CacheFn.St Tid V T} {t : Tid} {o : ParFor.Out T}
    (hs : ParFor.fnRun c s t = some (s', o)) (h : CacheFn.Ev.cleared ∉ s.log) : CacheFn.Ev.cleared ∉ s'.log := by
  unfold ParFor.fnRun at hs
  split at hs
  · cases hs
  · rename_i s1 hs1
    simp only [Option.some.injEq, Prod.mk.injEq] at hs
    obtain ⟨rfl, -⟩ := hs
    unfold CacheFn.step at hs1
    split at hs1
    · cases hs1
    · exact fn_log hs1 h

/-- A `CachedFunction` that was never cleared. -/
def Uncleared : ∀ k : Shape V, (cacheObj (T := T) Tid k).St → Prop
  | .function _ _ => fun (s : CacheFn.St Tid V T) => CacheFn.Ev.cleared ∉ s.log
  | .value _ => fun _ => True

omit [Fintype Tid] in
theorem uncleared_call (k : Shape V) {s s' : (cacheObj (T := T) Tid k).St} {t : Tid} {v : V}
    (hs : (cacheObj Tid k).call s t v = some s') (h : Uncleared k s) : Uncleared k s' := by
  cases k with
  | value => trivial
  | function n a => exact fn_call_uncleared (c := ⟨fun _ => none, n, a⟩) hs h

omit [Fintype Tid] in
theorem uncleared_run (k : Shape V) {s s' : (cacheObj (T := T) Tid k).St} {t : Tid} {r : Option T} {o : ParFor.Out T}
    (hs : (cacheObj Tid k).run s t r = some (s', o)) (h : Uncleared k s) : Uncleared k s' := by
  cases k with
  | value => trivial
  | function n a => exact fn_run_uncleared (c := ⟨fun _ => r, n, a⟩) hs h

omit [Fintype Tid] in
theorem reach_uncleared {ls : List (Lbl Tid C V T)} {s s' : St (system Tid shape body)} (he : Exec s ls s')
    (h : ∀ c, Uncleared (shape c) (s.objs c)) : ∀ c, Uncleared (shape c) (s'.objs c) := by
  induction he with
  | nil => exact h
  | cons hs _ ih =>
    refine ih fun c => ?_
    rcases objs_step hs c with h1 | ⟨t, v, h1⟩ | ⟨t, r, o, h1⟩
    · rw [h1]; exact h c
    · exact uncleared_call _ h1 (h c)
    · exact uncleared_run _ h1 (h c)

omit [Fintype Tid] [Inhabited T] [DecidableEq Tid] in
theorem evalsSince_count (v : V) (l : List (CacheFn.Ev Tid V T)) (h : CacheFn.Ev.cleared ∉ l) :
    CacheFn.evalsSince v l = l.countP fun e => match e with | .eval _ w => decide (w = v) | _ => false := by
  induction l with
  | nil => rfl
  | cons e l ih =>
    have := ih fun hh => h (List.mem_cons_of_mem _ hh)
    rw [List.countP_cons]
    cases e with
    | cleared => exact (h List.mem_cons_self).elim
    | eval t w => simp only [CacheFn.evalsSince, this, decide_eq_true_eq]; omega
    | _ => simp only [CacheFn.evalsSince, this]; simp

omit [Fintype Tid] [Inhabited T] [DecidableEq V] in
theorem value_invocations {s : CacheVal.St Tid Unit T} (hi : CacheVal.Inv s) : CacheVal.invocations s.log ≤ 1 := by
  rw [CacheVal.invocations_eq]
  cases hv : s.valid with
  | true => rw [hi.valid hv]; simp
  | false =>
    cases hb : s.inProcess with
    | false => rw [hi.fresh hv hb]; simp
    | true =>
      rcases hi.busy hb with ⟨t, ht⟩ | ho
      · have h3 := hi.thread t
        cases hp : s.pc t <;> simp only [hp, CacheVal.Pc.computing, CacheVal.threadOk, Bool.false_eq_true] at ht h3 <;>
          rw [h3.2.2] <;> simp
      · rw [ho]; simp

end Helpers

/-! ## C58 -/

variable [Fintype Tid] {shape : C → Shape V} {body : C → V → Prog C V T} {rank : C → ℕ} {R : ℕ}

/-- Every answer given to a client is the outcome of the query executed without caches and threads. -/
theorem nested_answers (hr : Ranked body rank R) (hv : ValueLike shape body) (ls : List (Lbl Tid C V T))
    (s : St (system Tid shape body)) (he : Exec (start Tid shape body) ls s) (t : Tid) (p : Prog C V T) (r : Option T)
    (l : List (Ev Tid C V T)) (hl : (.ended t p r :: l) <:+ s.log) : pending t l = some p ∧ Runs body p r := by
  obtain ⟨lim, h⟩ := reach_inv hr hv he
  obtain ⟨h1, h2⟩ := h.answers t p r l hl
  exact ⟨h1, (runs_of_eval hr p r).2 h2⟩

/-- No thread ever enters a cache it is inside already, and the program is only terminated when one of the queries
started ends with an exception anyway. -/
theorem nested_never_bad (hr : Ranked body rank R) (hv : ValueLike shape body) (ls : List (Lbl Tid C V T))
    (s : St (system Tid shape body)) (he : Exec (start Tid shape body) ls s) :
    s.bad = none ∨ s.bad = some .terminated ∧ ∃ t p, .started t p ∈ s.log ∧ Runs body p none := by
  obtain ⟨lim, h⟩ := reach_inv hr hv he
  rcases h.bad with h | ⟨h, t, p, h1, h2⟩
  · exact .inl h
  · exact .inr ⟨h, t, p, h1, (runs_of_eval hr p _).2 h2.symm⟩

/-- When no thread can make a step, every query has been answered, unless a query started ends with an exception. -/
theorem nested_complete (hr : Ranked body rank R) (hv : ValueLike shape body) (ls : List (Lbl Tid C V T))
    (s : St (system Tid shape body)) (he : Exec (start Tid shape body) ls s)
    (hgood : ∀ t p, .started t p ∈ s.log → ¬ Runs body p none)
    (hstuck : ∀ t, step s (.run t) = none ∧ ∀ j i, step s (.take t j i) = none) (t : Tid) : pending t s.log = none := by
  obtain ⟨lim, h⟩ := reach_inv hr hv he
  have hbad : s.bad = none := by
    rcases nested_never_bad hr hv ls s he with h | ⟨_, t, p, h1, h2⟩
    · exact h
    · exact (hgood t p h1 h2).elim
  by_contra hp
  have hne : s.stack t ≠ [] := by
    intro h0
    have := h.client t
    rw [h0] at this
    exact hp this.symm
  obtain ⟨l, s', hl, hs⟩ := progress (specOf_ok hr) h hbad (fun u p hu he => by
    exact hgood u p (pending_started hu) ((runs_of_eval hr p _).2 he.symm)) ⟨t, hne⟩
  cases l with
  | start u p => exact hl u p rfl
  | run u => rw [(hstuck u).1] at hs; cases hs
  | take u j i => rw [(hstuck u).2 j i] at hs; cases hs

/-- There is no livelock: each query adds a fixed number of steps, whatever the schedule. -/
theorem nested_terminates (hr : Ranked body rank R) (hv : ValueLike shape body) :
    ∃ cost : Prog C V T → ℕ, ∀ (ls : List (Lbl Tid C V T)) (s : St (system Tid shape body)),
      Exec (start Tid shape body) ls s → s.bad = none → moves ls ≤ total cost ls := by
  refine ⟨pcost (specOf (Tid := Tid) shape body rank R).F (specOf (Tid := Tid) shape body rank R).g, fun ls s he hb => ?_⟩
  have := pot_exec (specOf_ok (Tid := Tid) (shape := shape) hr) he ⟨fun _ => 0, ninv_init _ (fresh_inv hr hv) _⟩ hb
  have h0 : pot (specOf shape body rank R) (start Tid shape body) = 0 := by
    simp [pot, start, init, stackCost]
  omega

/-- The arguments for which the answer is kept: a `CachedFunction` keeps none for NaN or when it is switched off
(src/caching.h:157). -/
def Shape.keeps : Shape V → V → Bool
  | .function isNaN active, v => active && !isNaN v
  | .value _, _ => true

/-- How often the calculation of a cache has been completed for `v` (for a `CachedValue`: or thrown). -/
def completed : ∀ k : Shape V, V → (cacheObj (T := T) Tid k).St → ℕ
  | .function _ _, v => fun (s : CacheFn.St Tid V T) =>
      s.log.countP fun e => match e with | .eval _ w => decide (w = v) | _ => false
  | .value _, _ => fun (s : CacheVal.St Tid Unit T) => CacheVal.invocations s.log

/-- Whether a cache has detected a duplicate calculation, or a lock or a record was misused. -/
def faulty : ∀ k : Shape V, (cacheObj (T := T) Tid k).St → Prop
  | .function _ _ => fun (s : CacheFn.St Tid V T) => s.fault ≠ none
  | .value _ => fun (s : CacheVal.St Tid Unit T) => s.fault ≠ none

/-- However many queries need it, the calculation of a cache is completed at most once for each argument, and no cache
ever finds a duplicate or misuses a lock. -/
theorem nested_once (hr : Ranked body rank R) (hv : ValueLike shape body) (ls : List (Lbl Tid C V T))
    (s : St (system Tid shape body)) (he : Exec (start Tid shape body) ls s) (c : C) :
    ¬ faulty (shape c) (s.objs c) ∧ ∀ v, (shape c).keeps v = true → completed (shape c) v (s.objs c) ≤ 1 := by
  obtain ⟨lim, h⟩ := reach_inv hr hv he
  have hu := reach_uncleared he (fun c => by
    show Uncleared (shape c) (fresh Tid (shape c))
    cases shape c
    · simp [Uncleared, fresh, CacheFn.init]
    · trivial) c
  have hi : cacheInv (den body rank c) (shape c) _ (s.objs c) := h.objs c
  revert hu hi
  generalize s.objs c = o
  change (cacheObj Tid (shape c)).St at o
  revert o
  cases shape c with
  | function n a =>
    intro (o : CacheFn.St Tid V T) hu ⟨hi, _⟩
    refine ⟨fun hf => hf hi.noFault, fun v hk => ?_⟩
    show List.countP _ o.log ≤ 1
    rw [← evalsSince_count v o.log hu]
    have := hi.evals v hk
    split at this <;> omega
  | value b =>
    intro (o : CacheVal.St Tid Unit T) _ ⟨q, _, hi, _⟩
    refine ⟨fun hf => hf hi.inv.noFault, fun v hk => ?_⟩
    exact value_invocations hi.inv

end Slat.Nest
