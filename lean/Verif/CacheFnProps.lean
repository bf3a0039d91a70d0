import Verif.CacheFnLemmas
import Mathlib.Tactic.FinCases

/-!
# `CachedFunction` (properties C01-C07)

Any number of threads, any wrapped function (`none`: it throws), any schedule.  `log` is the list of
observable events, most recent first.
-/

namespace Slat.CacheFn

variable {Tid V T : Type} [DecidableEq Tid] [DecidableEq V]

/-! ## Specification vocabulary -/

/-- Schedules in which `ClearCache` runs only at moments when nobody is inside a critical section and no
thread is still to be handed the result of a computation that has already ended (in particular: whenever
no call is in flight). -/
inductive CalmExec [Inhabited T] (c : Cfg V T) : St Tid V T → List (Lbl Tid V) → St Tid V T → Prop where
  | nil (s) : CalmExec c s [] s
  | cons {s s' s'' l ls} : (l = .clear → SafeToClear s) → step c s l = some s' →
      CalmExec c s' ls s'' → CalmExec c s (l :: ls) s''

/-- Number of evaluations of the wrapped function at `v` in a piece of log. -/
def evalCount (v : V) (l : List (Ev Tid V T)) : ℕ :=
  l.countP (fun e => match e with | .eval _ w => decide (w = v) | _ => false)

/-- The argument of the call thread `t` has made and that has not been answered yet. -/
def pending (t : Tid) : List (Ev Tid V T) → Option V
  | [] => none
  | .called u v :: l => if u = t then some v else pending t l
  | .ret u _ _ :: l | .threw u _ :: l => if u = t then none else pending t l
  | _ :: l => pending t l

/-- Every answer and every evaluation belongs to the call its thread has pending, with that call's
argument, and no thread calls twice at a time. -/
def Matched : List (Ev Tid V T) → Prop
  | [] => True
  | .called t _ :: l => pending t l = none ∧ Matched l
  | .ret t v _ :: l | .threw t v :: l | .eval t v :: l => pending t l = some v ∧ Matched l
  | .cleared :: l => Matched l

/-! ## Proof support -/

theorem CalmExec.inv [Fintype Tid] [Inhabited T] {c : Cfg V T} {s s' : St Tid V T}
    {ls : List (Lbl Tid V)} (h : CalmExec c s ls s') (hi : Inv c s) : Inv c s' := by
  induction h with
  | nil => exact hi
  | cons hl hs _ ih => exact ih (inv_step hi _ hl hs)

/-- Induction principle: a predicate kept by every allowed step from invariant states. -/
theorem CalmExec.induct [Fintype Tid] [Inhabited T] {c : Cfg V T} (P : St Tid V T → Prop)
    (hstep : ∀ s l s', Inv c s → (l = .clear → SafeToClear s) → step c s l = some s' → P s → P s')
    {s s' : St Tid V T} {ls : List (Lbl Tid V)} (h : CalmExec c s ls s') (hi : Inv c s) (hp : P s) :
    P s' := by
  induction h with
  | nil => exact hp
  | cons hl hs _ ih => exact ih (inv_step hi _ hl hs) (hstep _ _ _ hi hl hs hp)

/-- What any allowed step does to the log. -/
theorem step_log [Fintype Tid] [Inhabited T] {c : Cfg V T} {s s' : St Tid V T} {l : Lbl Tid V}
    (hi : Inv c s) (hs : step c s l = some s') (hl : l = .clear → SafeToClear s) :
    (s'.log = .cleared :: s.log ∧ s'.pc = s.pc) ∨
    (∃ t v, s.pc t = .idle ∧ s'.log = .called t v :: s.log ∧
      s'.pc = Function.update s.pc t (.start v)) ∨
    (∃ t, stepThread c s t = some s') := by
  unfold step at hs
  simp only [hi.noFault, Option.isSome_none, Bool.false_eq_true, if_false] at hs
  cases l with
  | call t v =>
    simp only at hs
    split at hs <;> simp only [Option.some.injEq, reduceCtorEq] at hs
    rename_i hpc
    subst hs
    exact .inr (.inl ⟨t, v, hpc, rfl, rfl⟩)
  | run t => exact .inr (.inr ⟨t, hs⟩)
  | clear =>
    simp only [(hl rfl).1, Option.some.injEq] at hs
    subst hs
    exact .inl ⟨rfl, rfl⟩

theorem le_evalsSince (v : V) (l m : List (Ev Tid V T)) (h : Ev.cleared ∉ l) :
    evalCount v l ≤ evalsSince v (l ++ m) := by
  induction l with
  | nil => simp [evalCount]
  | cons e l ih =>
    have ih := ih (fun hh => h (List.mem_cons_of_mem _ hh))
    unfold evalCount at ih ⊢
    rw [List.countP_cons]
    cases e with
    | cleared => simp at h
    | eval t w =>
      simp only [List.cons_append, evalsSince, decide_eq_true_eq]
      omega
    | called t w => simpa [evalsSince] using ih
    | threw t w => simpa [evalsSince] using ih
    | ret t w x => simpa [evalsSince] using ih

theorem suffix_evals [Fintype Tid] [Inhabited T] {c : Cfg V T} {v : V} (hv : c.useCache v = true)
    {s : St Tid V T} {ls : List (Lbl Tid V)} (h : CalmExec c (init Tid V T) ls s) :
    ∀ m, m <:+ s.log → evalsSince v m ≤ 1 := by
  have hle : ∀ s : St Tid V T, Inv c s → evalsSince v s.log ≤ 1 := by
    intro s hi
    have := hi.evals v hv
    split at this <;> omega
  refine CalmExec.induct (fun s => ∀ m, m <:+ s.log → evalsSince v m ≤ 1) ?_ h (inv_init c) ?_
  · intro s l s' hi hl hs ih m hm
    have hi' := inv_step hi _ hl hs
    have hcons : ∀ e, s'.log = e :: s.log → evalsSince v m ≤ 1 := by
      intro e he
      rw [he] at hm
      rcases List.suffix_cons_iff.1 hm with hm | hm
      · rw [hm, ← he]; exact hle s' hi'
      · exact ih m hm
    rcases step_log hi hs hl with ⟨hlog, -⟩ | ⟨t, w, -, hlog, -⟩ | ⟨t, hst⟩
    · exact hcons _ hlog
    · exact hcons _ hlog
    · obtain ⟨w, p, -, -, -, h⟩ := stepThread_shape hi t hst
      rcases h with ⟨-, hlog⟩ | ⟨-, hlog⟩ | ⟨-, hlog⟩ | ⟨-, -, x, hlog⟩ | ⟨-, hw, x, hlog⟩
      · rw [hlog] at hm; exact ih m hm
      · exact hcons _ hlog
      · exact hcons _ hlog
      · exact hcons _ hlog
      · rw [hlog] at hm
        have hne : w ≠ v := by rintro rfl; simp [hv] at hw
        rcases List.suffix_cons_iff.1 hm with hm | hm
        · rw [hm, ← hlog]; exact hle s' hi'
        · rcases List.suffix_cons_iff.1 hm with hm | hm
          · rw [hm]; simpa [evalsSince, hne] using ih s.log (List.suffix_refl _)
          · exact ih m hm
  · intro m hm
    have : m = [] := by simpa [init] using hm
    simp [this, evalsSince]

theorem pending_matched [Fintype Tid] [Inhabited T] {c : Cfg V T}
    {s : St Tid V T} {ls : List (Lbl Tid V)} (h : CalmExec c (init Tid V T) ls s) :
    (∀ t, pending t s.log = (s.pc t).arg) ∧ Matched s.log := by
  refine CalmExec.induct (fun s => (∀ t, pending t s.log = (s.pc t).arg) ∧ Matched s.log) ?_ h
    (inv_init c) ?_
  · rintro s l s' hi hl hs ⟨ih, ihm⟩
    rcases step_log hi hs hl with ⟨hlog, hpc⟩ | ⟨t, w, hidle, hlog, hpc⟩ | ⟨t, hst⟩
    · rw [hlog, hpc]
      exact ⟨fun t => by simpa [pending] using ih t, ihm⟩
    · rw [hlog, hpc]
      refine ⟨fun u => ?_, by rw [ih t, hidle]; rfl, ihm⟩
      by_cases hu : u = t
      · subst hu; simp [pending, Pc.arg]
      · simp [pending, Function.update_of_ne hu, Ne.symm hu, ih u]
    · obtain ⟨w, p, harg, hpc, -, h⟩ := stepThread_shape hi t hst
      have hpt : pending t s.log = some w := by rw [ih t, harg]
      have hoth : ∀ u, u ≠ t → (s'.pc u).arg = pending u s.log := by
        intro u hu; rw [hpc, Function.update_of_ne hu, ih u]
      have hself : (s'.pc t).arg = p.arg := by rw [hpc, Function.update_self]
      rcases h with ⟨hp, hlog⟩ | ⟨hp, hlog⟩ | ⟨hp, hlog⟩ | ⟨hp, -, x, hlog⟩ | ⟨hp, hw, x, hlog⟩ <;>
        rw [hlog] <;> refine ⟨fun u => ?_, ?_⟩
      case inl.refine_2 => exact ihm
      case inl.refine_1 =>
        by_cases hu : u = t
        · rw [hu, hself, hp, hpt]
        · rw [hoth u hu]
      case inr.inl.refine_1 =>
        simp only [pending]
        by_cases hu : u = t
        · rw [hu, hself, hp, hpt]
        · rw [hoth u hu]
      all_goals first
        | (by_cases hu : u = t
           · rw [hu, hself]; simp [pending, hp, hpt, Pc.arg]
           · rw [hoth u hu]; simp [pending, Ne.symm hu])
        | simp [Matched, pending, hpt, ihm]
  · simp [init, pending, Matched, Pc.arg]

/-! ## C01 -/

/-- Between two clearings the wrapped function is evaluated at most once at each cached argument: in
every stretch of the log without a clearing there is at most one evaluation of `v`. -/
theorem evaluated_at_most_once [Fintype Tid] [Inhabited T] (c : Cfg V T) (ls : List (Lbl Tid V))
    (s : St Tid V T) (h : CalmExec c (init Tid V T) ls s) (v : V) (hv : c.useCache v = true)
    (newer stretch older : List (Ev Tid V T)) (hlog : s.log = newer ++ stretch ++ older)
    (hno : Ev.cleared ∉ stretch) : evalCount v stretch ≤ 1 := by
  refine le_trans (le_evalsSince v stretch older hno) (suffix_evals hv h _ ?_)
  exact ⟨newer, by rw [hlog, List.append_assoc]⟩

/-! ## C02 -/

/-- Every answer is the wrapped function's value at the argument of the very call it answers. -/
theorem returns_function_value [Fintype Tid] [Inhabited T] (c : Cfg V T) (ls : List (Lbl Tid V))
    (s : St Tid V T) (h : CalmExec c (init Tid V T) ls s) :
    Matched s.log ∧ ∀ t v x, Ev.ret t v x ∈ s.log → c.func v = some x :=
  ⟨(pending_matched h).2, (h.inv (inv_init c)).rets⟩

/-! ## C03 -/

/-- No schedule reaches the DUPLICATE abort, an illegal lock release, a missing or dangling record or a
clearing that races with a critical section. -/
theorem never_faults [Fintype Tid] [Inhabited T] (c : Cfg V T) (ls : List (Lbl Tid V))
    (s : St Tid V T) (h : CalmExec c (init Tid V T) ls s) : s.fault = none :=
  (h.inv (inv_init c)).noFault

/-! ## C04 -/

/-- Number of calls started / of statements executed in a schedule. -/
def callsIn : List (Lbl Tid V) → ℕ
  | [] => 0
  | .call _ _ :: ls => 1 + callsIn ls
  | _ :: ls => callsIn ls

/-- Number of statements executed in a schedule. -/
def runsIn : List (Lbl Tid V) → ℕ
  | [] => 0
  | .run _ :: ls => 1 + runsIn ls
  | _ :: ls => runsIn ls

theorem sum_rank_update [Fintype Tid] (pc : Tid → Pc V T) (t : Tid) (p : Pc V T) :
    (∑ u, (Function.update pc t p u).rank) + (pc t).rank = (∑ u, (pc u).rank) + p.rank := by
  have h1 := Finset.add_sum_erase Finset.univ (fun u => (Function.update pc t p u).rank)
    (Finset.mem_univ t)
  have h2 := Finset.add_sum_erase Finset.univ (fun u => (pc u).rank) (Finset.mem_univ t)
  have h3 : ∑ u ∈ Finset.univ.erase t, (Function.update pc t p u).rank =
      ∑ u ∈ Finset.univ.erase t, (pc u).rank := by
    refine Finset.sum_congr rfl (fun u hu => ?_)
    rw [Function.update_of_ne (Finset.ne_of_mem_erase hu)]
  simp only [Function.update_self] at h1
  omega

theorem run_budget [Fintype Tid] [Inhabited T] {c : Cfg V T} {s s' : St Tid V T}
    {ls : List (Lbl Tid V)} (h : CalmExec c s ls s') (hi : Inv c s) :
    runsIn ls + ∑ t, (s'.pc t).rank ≤ 11 * callsIn ls + ∑ t, (s.pc t).rank := by
  induction h with
  | nil => simp [runsIn, callsIn]
  | @cons s s1 s2 l ls hl hs _ ih =>
    have ih := ih (inv_step hi _ hl hs)
    have hf := hi.noFault
    cases l with
    | call t v =>
      simp only [step, hf, Option.isSome_none, Bool.false_eq_true, if_false] at hs
      split at hs <;> simp only [Option.some.injEq, reduceCtorEq] at hs
      rename_i hpc
      subst hs
      have := sum_rank_update s.pc t (.start v)
      have h11 : (Pc.start v : Pc V T).rank = 11 := rfl
      have h0 : (Pc.idle : Pc V T).rank = 0 := rfl
      rw [hpc, h11, h0] at this
      simp only [St.goto] at ih
      simp only [runsIn, callsIn]
      omega
    | run t =>
      simp only [step, hf, Option.isSome_none, Bool.false_eq_true, if_false] at hs
      obtain ⟨v, p, -, hpc, hr, -⟩ := stepThread_shape hi t hs
      have := sum_rank_update s.pc t p
      rw [hpc] at ih
      simp only [runsIn, callsIn]
      omega
    | clear =>
      simp only [step, hf, Option.isSome_none, Bool.false_eq_true, if_false, (hl rfl).1,
        Option.some.injEq] at hs
      subst hs
      simpa [runsIn, callsIn] using ih

/-- Every call completes: a schedule with `n` calls executes at most `11 n` statements, and when no
thread can execute a further statement no call is pending - except calls whose argument makes the
wrapped function throw (see C06). -/
theorem calls_complete [Fintype Tid] [Inhabited T] (c : Cfg V T) (ls : List (Lbl Tid V))
    (s : St Tid V T) (h : CalmExec c (init Tid V T) ls s) :
    runsIn ls ≤ 11 * callsIn ls ∧
    ((∀ t, step c s (.run t) = none) → ∀ t v, pending t s.log = some v → c.func v = none) := by
  have hi := h.inv (inv_init c)
  refine ⟨?_, ?_⟩
  · have := run_budget h (inv_init c)
    have h0 : ∑ t, ((init Tid V T).pc t).rank = 0 := by simp [init, Pc.rank]
    omega
  · intro hstuck t v hp
    have hst : ∀ t, stepThread c s t = none := by
      intro t
      simpa [step, hi.noFault] using hstuck t
    rw [(pending_matched h).1 t] at hp
    rcases stuck_shape hi hst t with hid | ⟨w, g, hw, hf⟩
    · simp [hid, Pc.arg] at hp
    · rw [hw] at hp
      simp only [Pc.arg, Option.some.injEq] at hp
      rw [← hp]; exact hf

/-! ## C07 -/

/-- An argument that must not be cached (NaN, or the cache is inactive): every answer comes directly
after an evaluation made by the same call, and nothing is ever stored under it. -/
theorem bypass_evaluates_afresh [Fintype Tid] [Inhabited T] (c : Cfg V T) (ls : List (Lbl Tid V))
    (s : St Tid V T) (h : CalmExec c (init Tid V T) ls s) (v : V)
    (hv : c.isNaN v = true ∨ c.active = false) :
    (∀ t x m, Ev.ret t v x :: m <:+ s.log → ∃ m', m = .eval t v :: m') ∧
    s.cache v = none := by
  have hv' : c.useCache v = false := by rcases hv with hv | hv <;> simp [Cfg.useCache, hv]
  have hi := h.inv (inv_init c)
  refine ⟨?_, ?_⟩
  · refine CalmExec.induct (fun s => ∀ t x m, Ev.ret t v x :: m <:+ s.log → ∃ m', m = .eval t v :: m')
      ?_ h (inv_init c) ?_
    · intro s l s' hi hl hs ih t x m hm
      rcases step_log hi hs hl with ⟨hlog, -⟩ | ⟨u, w, -, hlog, -⟩ | ⟨u, hst⟩
      · rw [hlog] at hm
        rcases List.suffix_cons_iff.1 hm with hm | hm
        · simp at hm
        · exact ih t x m hm
      · rw [hlog] at hm
        rcases List.suffix_cons_iff.1 hm with hm | hm
        · simp at hm
        · exact ih t x m hm
      · obtain ⟨w, p, -, -, -, h⟩ := stepThread_shape hi u hst
        rcases h with ⟨-, hlog⟩ | ⟨-, hlog⟩ | ⟨-, hlog⟩ | ⟨-, hw, y, hlog⟩ | ⟨-, -, y, hlog⟩ <;>
          rw [hlog] at hm
        · exact ih t x m hm
        · rcases List.suffix_cons_iff.1 hm with hm | hm
          · simp at hm
          · exact ih t x m hm
        · rcases List.suffix_cons_iff.1 hm with hm | hm
          · simp at hm
          · exact ih t x m hm
        · rcases List.suffix_cons_iff.1 hm with hm | hm
          · simp only [List.cons.injEq, Ev.ret.injEq] at hm
            rw [← hm.1.2.1, hv'] at hw
            cases hw
          · exact ih t x m hm
        · rcases List.suffix_cons_iff.1 hm with hm | hm
          · simp only [List.cons.injEq, Ev.ret.injEq] at hm
            obtain ⟨⟨rfl, rfl, -⟩, rfl⟩ := hm
            exact ⟨_, rfl⟩
          · rcases List.suffix_cons_iff.1 hm with hm | hm
            · simp at hm
            · exact ih t x m hm
    · intro t x m hm; simp [init] at hm
  · cases hc : s.cache v with
    | none => rfl
    | some x => have := (hi.cache v x hc).2; simp [hv'] at this

/-- Such a call never waits for somebody else's computation - the object lock being free (or its own) is
enough for it to proceed - and none of its steps touches the cache or the records. -/
theorem bypass_never_waits [Fintype Tid] [Inhabited T] (c : Cfg V T) (ls : List (Lbl Tid V))
    (s : St Tid V T) (h : CalmExec c (init Tid V T) ls s) (v : V)
    (hv : c.isNaN v = true ∨ c.active = false) (t : Tid) (hp : pending t s.log = some v) :
    (s.lock = none ∨ s.lock = some t → ∃ s', step c s (.run t) = some s') ∧
    ∀ s', step c s (.run t) = some s' → s'.cache = s.cache ∧ s'.inProc = s.inProc := by
  have hv' : c.useCache v = false := by rcases hv with hv | hv <;> simp [Cfg.useCache, hv]
  have hi := h.inv (inv_init c)
  rw [(pending_matched h).1 t] at hp
  have h3t := hi.thread t
  have h2t := hi.lock t
  have hpc : s.pc t = .start v ∨ s.pc t = .locked v ∨ s.pc t = .bypass v ∨ s.pc t = .bypassCalc v := by
    cases hpc : s.pc t <;> simp only [hpc, Pc.arg, threadOk, Option.some.injEq, reduceCtorEq] at hp h3t <;>
      (try subst hp) <;> simp_all
  rcases hpc with hpc | hpc | hpc | hpc <;>
    simp only [hpc, Pc.holdsObj, iff_true, Bool.false_eq_true, iff_false] at h2t <;>
    simp only [step, hi.noFault, stepThread, hpc, St.acquire, St.release, hv', h2t, if_true, if_false,
      Option.isSome_none, Bool.false_eq_true]
  · refine ⟨?_, ?_⟩
    · rintro (hl | hl)
      · simp [hl]
      · exact hl.elim
    · intro s' hs
      split at hs <;> simp only [Option.some.injEq, reduceCtorEq] at hs
      subst hs; exact ⟨rfl, rfl⟩
  · refine ⟨fun _ => ⟨_, rfl⟩, ?_⟩
    intro s' hs; simp only [Option.some.injEq] at hs; subst hs; exact ⟨rfl, rfl⟩
  · refine ⟨fun _ => ⟨_, rfl⟩, ?_⟩
    intro s' hs; simp only [Option.some.injEq] at hs; subst hs; exact ⟨rfl, rfl⟩
  · cases c.func v <;> refine ⟨fun _ => ⟨_, rfl⟩, ?_⟩ <;> intro s' hs <;>
      simp only [Option.some.injEq] at hs <;> subst hs <;> exact ⟨rfl, rfl⟩


/-! ## Running schedules -/

/-- Run a schedule (`none`: some choice was not possible). -/
def runL [Inhabited T] (c : Cfg V T) (s : St Tid V T) : List (Lbl Tid V) → Option (St Tid V T)
  | [] => some s
  | l :: ls => (step c s l).bind (fun s' => runL c s' ls)

theorem exec_of_runL [Inhabited T] {c : Cfg V T} {ls : List (Lbl Tid V)} {s s' : St Tid V T}
    (h : runL c s ls = some s') : Exec c s ls s' := by
  induction ls generalizing s with
  | nil => simp only [runL, Option.some.injEq] at h; subst h; exact .nil _
  | cons l ls ih =>
    simp only [runL, Option.bind_eq_some_iff] at h
    obtain ⟨s1, h1, h2⟩ := h
    exact .cons h1 (ih h2)

theorem calm_of_runL [Inhabited T] {c : Cfg V T} {ls : List (Lbl Tid V)} {s s' : St Tid V T}
    (hc : Lbl.clear ∉ ls) (h : runL c s ls = some s') : CalmExec c s ls s' := by
  induction ls generalizing s with
  | nil => simp only [runL, Option.some.injEq] at h; subst h; exact .nil _
  | cons l ls ih =>
    simp only [runL, Option.bind_eq_some_iff] at h
    obtain ⟨s1, h1, h2⟩ := h
    refine .cons ?_ h1 (ih (fun hh => hc (List.mem_cons_of_mem _ hh)) h2)
    rintro rfl
    exact absurd List.mem_cons_self hc

/-! ## C05 -/

/-- A function for the witnesses: `v ↦ v + 7`, defined everywhere except at 9, where it throws; 5 plays
the role of NaN. -/
def demo : Cfg ℕ ℕ := ⟨fun v => if v = 9 then none else some (v + 7), fun v => v == 5, true⟩

/-- Thread 0 computes at 0, thread 1 joins; thread 0 finishes. -/
def joinSchedule : List (Lbl (Fin 2) ℕ) :=
  [.call 0 0, .run 0, .run 0, .run 0, .run 0, .run 0,        -- thread 0 has evaluated
   .call 1 0, .run 1, .run 1, .run 1, .run 1,                -- thread 1 waits for the computation
   .run 0, .run 0, .run 0, .run 0, .run 0, .run 0,           -- thread 0 stores and returns
   .run 1]                                                   -- thread 1 is handed the record lock

/-- A clearing that overlaps with a waiter makes the waiter return the default value, and the default value
stays in the cache: a later call by thread 0 returns it too. -/
theorem overlapping_clear_fails :
    ∃ s, Exec demo (init (Fin 2) ℕ ℕ)
        (joinSchedule ++ [.clear] ++ [.run 1, .run 1, .run 1, .run 1] ++
          [.call 0 0, .run 0, .run 0, .run 0, .run 0, .run 0]) s ∧
      s.fault = none ∧ demo.func 0 = some 7 ∧ Ev.ret 1 0 0 ∈ s.log ∧ Ev.ret 0 0 0 ∈ s.log := by
  have h : (runL demo (init (Fin 2) ℕ ℕ)
        (joinSchedule ++ [.clear] ++ [.run 1, .run 1, .run 1, .run 1] ++
          [.call 0 0, .run 0, .run 0, .run 0, .run 0, .run 0])).map (fun s => decide
      (s.fault = none ∧ Ev.ret 1 0 0 ∈ s.log ∧ Ev.ret 0 0 0 ∈ s.log)) = some true := by decide
  obtain ⟨s, hs, hf⟩ := Option.map_eq_some_iff.1 h
  obtain ⟨h1, h2, h3⟩ := of_decide_eq_true hf
  exact ⟨s, exec_of_runL hs, h1, by decide, h2, h3⟩

/-- A clearing while another thread is inside its critical section is a data race on the cache. -/
theorem racing_clear_fails :
    ∃ s, Exec demo (init (Fin 2) ℕ ℕ) [.call 0 0, .run 0, .clear] s ∧ s.fault = some .dataRace := by
  have h : (runL demo (init (Fin 2) ℕ ℕ) [.call 0 0, .run 0, .clear]).map St.fault =
    some (some .dataRace) := by decide
  obtain ⟨s, hs, hf⟩ := Option.map_eq_some_iff.1 h
  exact ⟨s, exec_of_runL hs, hf⟩

/-- What does hold of C05: a clearing that overlaps running calls is harmless as long as no critical section
is open and no finished computation is waiting to be picked up - computations in progress, with or without
waiters, may be overlapped.  (Missing for the full claim: the other moments, see `overlapping_clear_fails`.) -/
theorem overlapping_clear_partial [Fintype Tid] [Inhabited T] (c : Cfg V T) (ls : List (Lbl Tid V))
    (s s' : St Tid V T) (h : CalmExec c (init Tid V T) ls s) (hlock : s.lock = none)
    (hhand : ∀ t v, (s.pc t).waiting v = true → ∃ u, (s.pc u).computing v = true)
    (hclear : step c s .clear = some s') (ls' : List (Lbl Tid V)) (s'' : St Tid V T)
    (h' : CalmExec c s' ls' s'') :
    s''.fault = none ∧ (∀ t v x, Ev.ret t v x ∈ s''.log → c.func v = some x) ∧ ∀ v, s'.cache v = none := by
  have hi := h.inv (inv_init c)
  have hi' := inv_step hi .clear (fun _ => ⟨hlock, hhand⟩) hclear
  refine ⟨(h'.inv hi').noFault, (h'.inv hi').rets, ?_⟩
  intro v
  simp only [step, hi.noFault, hlock, Option.isSome_none, Bool.false_eq_true, if_false,
    Option.some.injEq] at hclear
  subst hclear; rfl

/-! ## C06 -/

/-- The computation of `v` has been abandoned by an exception. -/
def Abandoned (v : V) (g : ℕ) (s : St Tid V T) : Prop :=
  (∃ r, s.inProc v = some r ∧ r.owner.isSome = true ∧ r.gen = g) ∧ s.cache v = none ∧
  ∀ t, (s.pc t).arg = some v → s.pc t = .start v ∨ s.pc t = .locked v ∨ s.pc t = .join v ∨
    s.pc t = .joinRel v g ∨ s.pc t = .waitCalc v g

theorem Abandoned.step [Inhabited T] {c : Cfg V T} {v : V} (hv : c.useCache v = true) {g : ℕ}
    {s s' : St Tid V T} (h : Abandoned v g s) (l : Lbl Tid V) (hs : step c s l = some s') :
    Abandoned v g s' ∧ ∀ t, (s.pc t).arg = some v → (s'.pc t).arg = some v := by
  obtain ⟨⟨r, hr, ho, hg⟩, hca, hpcs⟩ := h
  have hdie : ∀ f, Abandoned v g (s.die f) := fun f => ⟨⟨r, hr, ho, hg⟩, hca, hpcs⟩
  obtain ⟨u, hu⟩ := Option.isSome_iff_exists.1 ho
  -- a step of thread `t` away from `v`
  have hmove : ∀ (t : Tid) (p : Pc V T) (s1 : St Tid V T), s1.pc = Function.update s.pc t p →
      s1.inProc v = s.inProc v → s1.cache v = s.cache v → (s.pc t).arg ≠ some v →
      (p.arg = some v → p = .start v) →
      Abandoned v g s1 ∧ ∀ t, (s.pc t).arg = some v → (s1.pc t).arg = some v := by
    intro t p s1 h1 h2 h3 h4 h5
    refine ⟨⟨⟨r, by rw [h2]; exact hr, ho, hg⟩, by rw [h3]; exact hca, ?_⟩, ?_⟩
    · intro w hw
      rw [h1] at hw ⊢
      by_cases hwt : w = t
      · subst hwt; simp only [Function.update_self] at hw ⊢; exact .inl (h5 hw)
      · rw [Function.update_of_ne hwt] at hw ⊢; exact hpcs w hw
    · intro w hw
      rw [h1]
      by_cases hwt : w = t
      · subst hwt; exact absurd hw h4
      · rw [Function.update_of_ne hwt]; exact hw
  -- a step of thread `t` within the allowed positions for `v`
  have hstay : ∀ (t : Tid) (p : Pc V T) (s1 : St Tid V T), s1.pc = Function.update s.pc t p →
      (∃ r, s1.inProc v = some r ∧ r.owner.isSome = true ∧ r.gen = g) → s1.cache v = s.cache v →
      p.arg = some v → (p = .start v ∨ p = .locked v ∨ p = .join v ∨ p = .joinRel v g ∨ p = .waitCalc v g) →
      Abandoned v g s1 ∧ ∀ t, (s.pc t).arg = some v → (s1.pc t).arg = some v := by
    intro t p s1 h1 h2 h3 h4 h5
    refine ⟨⟨h2, by rw [h3]; exact hca, ?_⟩, ?_⟩
    · intro w hw
      rw [h1] at hw ⊢
      by_cases hwt : w = t
      · subst hwt; simp only [Function.update_self] at hw ⊢; exact h5
      · rw [Function.update_of_ne hwt] at hw ⊢; exact hpcs w hw
    · intro w hw
      rw [h1]
      by_cases hwt : w = t
      · subst hwt; simp only [Function.update_self]; exact h4
      · rw [Function.update_of_ne hwt]; exact hw
  unfold CacheFn.step at hs
  split at hs
  · cases hs
  cases l with
  | call t w =>
    simp only at hs
    split at hs <;> simp only [Option.some.injEq, reduceCtorEq] at hs
    rename_i hpc
    subst hs
    exact hmove t (.start w) _ rfl rfl rfl (by simp [hpc, Pc.arg]) (by simp [Pc.arg])
  | clear =>
    simp only at hs
    split at hs <;> simp only [Option.some.injEq] at hs <;> subst hs
    · exact ⟨⟨⟨r, hr, ho, hg⟩, rfl, hpcs⟩, fun _ h => h⟩
    · exact ⟨hdie _, fun _ h => h⟩
  | run t =>
    simp only at hs
    by_cases harg : (s.pc t).arg = some v
    · rcases hpcs t harg with hpc | hpc | hpc | hpc | hpc <;>
        simp only [stepThread, hpc, St.acquire, St.release, hv, hca, hr, hg, hu, if_true, Option.isSome_none,
          Option.isSome_some, Bool.false_eq_true, if_false] at hs
      · split at hs <;> simp only [Option.some.injEq, reduceCtorEq] at hs
        subst hs
        exact hstay t (.locked v) _ rfl ⟨r, hr, ho, hg⟩ rfl rfl (by simp)
      · simp only [Option.some.injEq] at hs; subst hs
        exact hstay t (.join v) _ rfl ⟨r, hr, ho, hg⟩ rfl rfl (by simp)
      · simp only [Option.some.injEq] at hs; subst hs
        exact hstay t (.joinRel v g) _ rfl ⟨_, Function.update_self _ _ _, by simp, rfl⟩ rfl rfl (by simp)
      · simp only [Option.some.injEq] at hs
        split at hs <;> subst hs
        · exact hstay t (.waitCalc v g) _ rfl ⟨r, hr, ho, hg⟩ rfl rfl (by simp)
        · exact ⟨hdie _, fun _ h => h⟩
      · cases hs
    · unfold stepThread at hs
      split at hs <;> rename_i hpc <;> simp only [hpc, Pc.arg, Option.some.injEq, reduceCtorEq,
        not_false_eq_true] at harg
      all_goals
        first
        | (cases hs; done)
        | skip
      all_goals
        (try unfold St.acquire at hs)
        (try unfold St.release at hs)
        repeat' split at hs
      all_goals (try (cases hs; done))
      all_goals
        simp only [Option.some.injEq] at hs
        subst hs
        first
        | exact ⟨hdie _, fun _ h => h⟩
        | exact hmove t _ _ rfl rfl rfl (by simp [hpc, Pc.arg, harg]) (by simp [Pc.arg, harg])
        | exact hmove t _ _ rfl (Function.update_of_ne (Ne.symm harg) _ _) rfl
            (by simp [hpc, Pc.arg, harg]) (by simp [Pc.arg, harg])
        | exact hmove t _ _ rfl rfl (Function.update_of_ne (Ne.symm harg) _ _)
            (by simp [hpc, Pc.arg, harg]) (by simp [Pc.arg, harg])

theorem Abandoned.exec [Inhabited T] {c : Cfg V T} {v : V} (hv : c.useCache v = true) {g : ℕ}
    {s s' : St Tid V T} {ls : List (Lbl Tid V)} (h : Abandoned v g s) (he : Exec c s ls s') :
    Abandoned v g s' ∧ ∀ t, (s.pc t).arg = some v → (s'.pc t).arg = some v := by
  induction he with
  | nil => exact ⟨h, fun _ h => h⟩
  | cons hs _ ih =>
    obtain ⟨a, b⟩ := h.step hv _ hs
    obtain ⟨a', b'⟩ := ih a
    exact ⟨a', fun t ht => b' t (b t ht)⟩

/-- C06 fails for every cache and every argument whose evaluation throws: the exception reaches the caller
(`threw`, nobody is inside a call), but from then on every call with that argument stays inside `operator()`
whatever all threads do, including clearing the cache. -/
theorem throw_blocks_later_calls_fails [Inhabited T] (c : Cfg V T) (v : V) (hv : c.useCache v = true)
    (hthrow : c.func v = none) (t0 : Tid) :
    ∃ ls s, CalmExec c (init Tid V T) ls s ∧ s.log = [.threw t0 v, .called t0 v] ∧ Quiet s ∧
      s.lock = none ∧ s.fault = none ∧
      ∀ t1 ls1 s1 ls2 s2, Exec c s ls1 s1 → s1.pc t1 = .start v → Exec c s1 ls2 s2 →
        s2.pc t1 ≠ .idle := by
  let r : WaitRec Tid := ⟨some t0, 0, 0⟩
  let s : St Tid V T := { init Tid V T with
    inProc := Function.update (fun _ => none) v (some r), nextGen := 1,
    log := [.threw t0 v, .called t0 v] }
  have hrun : runL c (init Tid V T) [.call t0 v, .run t0, .run t0, .run t0, .run t0, .run t0] = some s := by
    have hid : Function.update (fun _ : Tid => (Pc.idle : Pc V T)) t0 .idle = fun _ => .idle := by
      funext u; simp [Function.update_apply]
    simp [runL, step, init, stepThread, St.goto, St.acquire, St.release, hv, hthrow, hid, s, r]
  refine ⟨_, s, calm_of_runL (by simp) hrun, rfl, fun _ => rfl, rfl, rfl, ?_⟩
  intro t1 ls1 s1 ls2 s2 h1 hc h2
  have ha : Abandoned v 0 s :=
    ⟨⟨r, by simp [s], rfl, rfl⟩, rfl, fun t ht => by simp [s, init, Pc.arg] at ht⟩
  have ha1 := (ha.exec hv h1).1
  have := (ha1.exec hv h2).2 t1 (by rw [hc]; rfl)
  intro hidle
  rw [hidle] at this
  simp [Pc.arg] at this

/-- What does hold of C06: whatever evaluations throw, the exception answers the call (`Matched`), all answers
are right and no lock is misused, and every call whose argument does not make the function throw completes.
(Missing: calls repeated at a throwing argument, see `throw_blocks_later_calls_fails`.) -/
theorem throw_isolated_partial [Fintype Tid] [Inhabited T] (c : Cfg V T) (ls : List (Lbl Tid V))
    (s : St Tid V T) (h : CalmExec c (init Tid V T) ls s) :
    s.fault = none ∧ Matched s.log ∧ (∀ t v x, Ev.ret t v x ∈ s.log → c.func v = some x) ∧
    ((∀ t, step c s (.run t) = none) → ∀ t v, (c.func v).isSome = true → pending t s.log ≠ some v) := by
  refine ⟨never_faults c ls s h, (pending_matched h).2, (h.inv (inv_init c)).rets, ?_⟩
  intro hst t v hv hp
  rw [(calls_complete c ls s h).2 hst t v hp] at hv
  cases hv

/-! ## Cases meeting the hypotheses -/

/-- Two threads ask for the same argument at once; the second waits; both return 7, one evaluation was made. -/
example : ∃ s, CalmExec demo (init (Fin 2) ℕ ℕ)
    (joinSchedule ++ [.run 1, .run 1, .run 1, .run 1]) s ∧
    s.log = [.ret 1 0 7, .ret 0 0 7, .called 1 0, .eval 0 0, .called 0 0] ∧
    demo.useCache 0 = true := by
  have h : (runL demo (init (Fin 2) ℕ ℕ) (joinSchedule ++ [.run 1, .run 1, .run 1, .run 1])).map
    (fun s => decide (s.log = [.ret 1 0 7, .ret 0 0 7, .called 1 0, .eval 0 0, .called 0 0])) =
      some true := by decide
  obtain ⟨s, hs, hf⟩ := Option.map_eq_some_iff.1 h
  exact ⟨s, calm_of_runL (by decide) hs, of_decide_eq_true hf, by decide⟩

/-- A stuck state with no pending call (C04): nobody can run, everything was answered. -/
example : ∃ s, CalmExec demo (init (Fin 2) ℕ ℕ)
    (joinSchedule ++ [.run 1, .run 1, .run 1, .run 1]) s ∧ ∀ t, step demo s (.run t) = none := by
  have h : (runL demo (init (Fin 2) ℕ ℕ) (joinSchedule ++ [.run 1, .run 1, .run 1, .run 1])).map
    (fun s => decide (∀ t, (step demo s (.run t)).isNone = true)) = some true := by decide
  obtain ⟨s, hs, hf⟩ := Option.map_eq_some_iff.1 h
  exact ⟨s, calm_of_runL (by decide) hs, fun t => Option.isNone_iff_eq_none.1 (of_decide_eq_true hf t)⟩

/-- A call with the NaN-like argument 5 (C07). -/
example : ∃ s, CalmExec demo (init (Fin 2) ℕ ℕ) [.call 0 5, .run 0, .run 0, .run 0, .run 0] s ∧
    s.log = [.ret 0 5 12, .eval 0 5, .called 0 5] ∧ demo.isNaN 5 = true := by
  have h : (runL demo (init (Fin 2) ℕ ℕ) [.call 0 5, .run 0, .run 0, .run 0, .run 0]).map
    (fun s => decide (s.log = [.ret 0 5 12, .eval 0 5, .called 0 5])) = some true := by decide
  obtain ⟨s, hs, hf⟩ := Option.map_eq_some_iff.1 h
  exact ⟨s, calm_of_runL (by decide) hs, of_decide_eq_true hf, by decide⟩

/-- A clearing that overlaps with a computation in progress which has a waiter (C05): thread 0 is about to
evaluate, thread 1 waits for it. -/
example : ∃ s, CalmExec demo (init (Fin 2) ℕ ℕ)
    [.call 0 0, .run 0, .run 0, .run 0, .run 0, .call 1 0, .run 1, .run 1, .run 1, .run 1] s ∧
    s.lock = none ∧ (s.pc 1).waiting 0 = true ∧
    ∀ t v, (s.pc t).waiting v = true → ∃ u, (s.pc u).computing v = true := by
  have h : (runL demo (init (Fin 2) ℕ ℕ)
    [.call 0 0, .run 0, .run 0, .run 0, .run 0, .call 1 0, .run 1, .run 1, .run 1, .run 1]).map
    (fun s => decide (s.lock = none ∧ s.pc 0 = .calc 0 ∧ s.pc 1 = .waitCalc 0 0)) = some true := by decide
  obtain ⟨s, hs, hf⟩ := Option.map_eq_some_iff.1 h
  obtain ⟨h1, h2, h3⟩ := of_decide_eq_true hf
  refine ⟨s, calm_of_runL (by decide) hs, h1, by rw [h3]; decide, ?_⟩
  intro t v ht
  have : v = 0 := by
    fin_cases t
    · simp [h2, Pc.waiting] at ht
    · simp only [Fin.mk_one, Fin.isValue, h3, Pc.waiting, decide_eq_true_eq] at ht; exact ht.symm
  subst this
  exact ⟨0, by rw [h2]; decide⟩

/-- A throwing argument (C06). -/
example : demo.useCache 9 = true ∧ demo.func 9 = none := by decide

end Slat.CacheFn
