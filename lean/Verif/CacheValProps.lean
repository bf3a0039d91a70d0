import Verif.CacheValInv

/-!
# `CachedValue` (properties C08, C09)
-/

namespace Slat.CacheVal

variable {Tid W T : Type} [DecidableEq Tid]

/-! ## Specification vocabulary -/

/-- Number of invocations of the wrapped function in a log. -/
def invocations (l : List (Ev Tid T)) : ℕ :=
  l.countP (fun e => match e with | .eval _ _ => true | .threw _ => true | _ => false)

/-- Thread `t` has made a call that is not answered yet. -/
def pending (t : Tid) : List (Ev Tid T) → Bool
  | [] => false
  | .called u :: l => if u = t then true else pending t l
  | .ret u _ :: l | .threw u :: l => if u = t then false else pending t l
  | _ :: l => pending t l

/-- The value computed most recently, if no clearing came after it. -/
def current : List (Ev Tid T) → Option T
  | [] => none
  | .eval _ x :: _ => some x
  | .cleared :: _ => none
  | _ :: l => current l

/-- Calls started in a schedule. -/
def callsIn : List (Lbl Tid W) → ℕ
  | [] => 0
  | .call _ :: ls => 1 + callsIn ls
  | _ :: ls => callsIn ls

/-- Statements executed in a schedule. -/
def runsIn : List (Lbl Tid W) → ℕ
  | [] => 0
  | .run _ :: ls => 1 + runsIn ls
  | _ :: ls => runsIn ls

/-- No thread is inside a call. -/
def Quiet (s : St Tid W T) : Prop := ∀ t, s.pc t = .idle

/-- Sequential use: calls, clearings and changes happen only while no call is in flight. -/
inductive SeqExec (c : Cfg W T) : St Tid W T → List (Lbl Tid W) → St Tid W T → Prop where
  | nil (s) : SeqExec c s [] s
  | cons {s s' s'' l ls} : ((∀ t, l ≠ .run t) → Quiet s) → step c s l = some s' →
      SeqExec c s' ls s'' → SeqExec c s (l :: ls) s''

/-! ## Proof support -/

/-- Steps left in a call. -/
def Pc.rank : Pc T → ℕ
  | .idle => 0 | .unlock _ => 1 | .read => 2 | .waitObj => 3 | .waitUnset => 4 | .waitSet => 5
  | .waitRel => 6 | .release => 3 | .store _ => 4 | .check _ => 5 | .calcObj _ => 6 | .calc => 7
  | .beginRel => 8 | .begin => 9 | .locked => 10 | .start => 11

theorem inv_step {c : Cfg W T} {s s' : St Tid W T} (h : Inv s) (l : Lbl Tid W) (hl : l ≠ .clear)
    (hs : step c s l = some s') : Inv s' := by
  unfold step at hs
  simp only [h.noFault, Option.isSome_none, Bool.false_eq_true, if_false] at hs
  cases l with
  | clear => exact absurd rfl hl
  | run t => exact inv_stepThread h t hs
  | change w =>
    simp only [Option.some.injEq] at hs
    subst hs
    obtain ⟨hf, hlock, hth, huni, hbusy, hbi, hfresh, hval, hwi, hwc, hwo, hret⟩ := h
    refine ⟨rfl, hlock, ?_, huni, hbusy, hbi, hfresh, hval, hwi, hwc, hwo, hret⟩
    intro t
    have := hth t
    revert this
    cases hp : s.pc t <;> simp [hp, threadOk]
  | call t =>
    simp only at hs
    split at hs <;> simp only [Option.some.injEq, reduceCtorEq] at hs
    rename_i hpc
    subst hs
    obtain ⟨hf, hlock, hth, huni, hbusy, hbi, hfresh, hval, hwi, hwc, hwo, hret⟩ := h
    refine inv_of t _ rfl (by simpa [St.goto] using hf) ?_ (by
      intro u hu
      have hu3 := hth u
      cases hp : s.pc u <;> simp only [hp, threadOk, St.goto, outcomes] at hu3 ⊢ <;> grind)
      ?_ ?_ ?_ ?_ ?_ ?_ ?_ ?_ ?_ ?_
    all_goals (try simp only [St.goto, threadOk, Function.update_apply, outcomes])
    all_goals grind [Pc.holdsObj, Pc.computing]

theorem Exec.inv {c : Cfg W T} {s s' : St Tid W T} {ls : List (Lbl Tid W)} (h : Exec c s ls s')
    (hls : Lbl.clear ∉ ls) (hi : Inv s) : Inv s' := by
  induction h with
  | nil => exact hi
  | cons hs _ ih =>
    exact ih (fun hh => hls (List.mem_cons_of_mem _ hh))
      (inv_step hi _ (fun hh => hls (hh ▸ List.mem_cons_self)) hs)

theorem invocations_eq (l : List (Ev Tid T)) : invocations l = (outcomes l).length := by
  induction l with
  | nil => rfl
  | cons e l ih =>
    unfold invocations at ih ⊢
    rw [List.countP_cons, ih]
    cases e <;> simp [outcomes]

theorem eval_of_outcomes (l : List (Ev Tid T)) (x : T) (h : some x ∈ outcomes l) :
    ∃ t, Ev.eval t x ∈ l := by
  induction l with
  | nil => simp [outcomes] at h
  | cons e l ih =>
    have hmem : some x ∈ outcomes l → ∃ t, Ev.eval t x ∈ e :: l := fun hh =>
      (ih hh).elim (fun t ht => ⟨t, List.mem_cons_of_mem _ ht⟩)
    cases e with
    | eval t y =>
      simp only [outcomes, List.mem_cons, Option.some.injEq] at h
      rcases h with rfl | h
      · exact ⟨t, List.mem_cons_self⟩
      · exact hmem h
    | called t => exact hmem h
    | threw t => exact hmem (by simpa [outcomes] using h)
    | ret t y => exact hmem h
    | cleared => exact hmem h

theorem outcomes_of_threw (l : List (Ev Tid T)) (h : none ∈ outcomes l) : ∃ t, Ev.threw t ∈ l := by
  induction l with
  | nil => simp [outcomes] at h
  | cons e l ih =>
    have hmem : none ∈ outcomes l → ∃ t, Ev.threw t ∈ e :: l := fun hh =>
      (ih hh).elim (fun t ht => ⟨t, List.mem_cons_of_mem _ ht⟩)
    cases e with
    | threw t => exact ⟨t, List.mem_cons_self⟩
    | eval t y => exact hmem (by simpa [outcomes] using h)
    | called t => exact hmem h
    | ret t y => exact hmem h
    | cleared => exact hmem h

theorem stepThread_shape {c : Cfg W T} {s s' : St Tid W T} (t : Tid)
    (hs : stepThread c s t = some s') (hf : s'.fault = none) :
    ∃ p, s.pc t ≠ .idle ∧ s'.pc = Function.update s.pc t p ∧ p.rank < (s.pc t).rank ∧
      ((p ≠ .idle ∧ s'.log = s.log) ∨ (p ≠ .idle ∧ ∃ x, s'.log = .eval t x :: s.log) ∨
       (p = .idle ∧ (s'.log = .threw t :: s.log ∨ ∃ x, s'.log = .ret t x :: s.log))) := by
  unfold stepThread at hs
  split at hs <;> rename_i hpc
  all_goals (try (cases hs; done))
  all_goals (try unfold St.acquire at hs)
  all_goals (try unfold St.release at hs)
  all_goals (try unfold St.releaseWaiting at hs)
  all_goals (repeat' split at hs)
  all_goals (try (cases hs; done))
  all_goals simp only [Option.some.injEq] at hs
  all_goals subst hs
  all_goals first
    | (simp [St.die] at hf; done)
    | exact ⟨_, by simp [hpc], rfl, by simp [hpc, Pc.rank], .inl ⟨by simp, rfl⟩⟩
    | exact ⟨_, by simp [hpc], rfl, by simp [hpc, Pc.rank], .inr (.inl ⟨by simp, _, rfl⟩)⟩
    | exact ⟨_, by simp [hpc], rfl, by simp [hpc, Pc.rank], .inr (.inr ⟨rfl, .inl rfl⟩)⟩
    | exact ⟨_, by simp [hpc], rfl, by simp [hpc, Pc.rank], .inr (.inr ⟨rfl, .inr ⟨_, rfl⟩⟩)⟩

/-- `pending` follows the program counters. -/
theorem pending_step {c : Cfg W T} {s s' : St Tid W T} {l : Lbl Tid W} (hs : step c s l = some s')
    (hf : s'.fault = none) (ih : ∀ t, pending t s.log = true ↔ s.pc t ≠ .idle) :
    ∀ t, pending t s'.log = true ↔ s'.pc t ≠ .idle := by
  unfold step at hs
  split at hs
  · cases hs
  intro u
  cases l with
  | clear => simp only [Option.some.injEq] at hs; subst hs; simpa [pending] using ih u
  | change w => simp only [Option.some.injEq] at hs; subst hs; simpa using ih u
  | call t =>
    simp only at hs
    split at hs <;> simp only [Option.some.injEq, reduceCtorEq] at hs
    subst hs
    simp only [pending, St.goto, Function.update_apply]
    have := ih u
    by_cases hu : u = t
    · subst hu; simp
    · rw [if_neg (fun h => hu h.symm), if_neg hu]; exact this
  | run t =>
    obtain ⟨p, hni, hpc, -, h⟩ := stepThread_shape t hs hf
    clear hs hf
    have hu' := ih u
    have ht' := ih t
    rw [hpc, Function.update_apply]
    rcases h with ⟨hp, hlog⟩ | ⟨hp, x, hlog⟩ | ⟨hp, hlog | ⟨x, hlog⟩⟩ <;> rw [hlog] <;>
      (try simp only [pending]) <;> grind

theorem sum_rank_update [Fintype Tid] (pc : Tid → Pc T) (t : Tid) (p : Pc T) :
    (∑ u, (Function.update pc t p u).rank) + (pc t).rank = (∑ u, (pc u).rank) + p.rank := by
  have h1 := Finset.add_sum_erase Finset.univ (fun u => (Function.update pc t p u).rank)
    (Finset.mem_univ t)
  have h2 := Finset.add_sum_erase Finset.univ (fun u => (pc u).rank) (Finset.mem_univ t)
  have h3 : ∑ u ∈ Finset.univ.erase t, (Function.update pc t p u).rank =
      ∑ u ∈ Finset.univ.erase t, (pc u).rank := by
    refine Finset.sum_congr rfl (fun u hu => ?_)
    rw [Function.update_of_ne (Finset.ne_of_mem_erase hu)]
  simp only [Function.update_self] at h1
  omega

theorem run_budget [Fintype Tid] {c : Cfg W T} {s s' : St Tid W T}
    {ls : List (Lbl Tid W)} (h : Exec c s ls s') (hls : Lbl.clear ∉ ls) (hi : Inv s) :
    runsIn ls + ∑ t, (s'.pc t).rank ≤ 11 * callsIn ls + ∑ t, (s.pc t).rank := by
  induction h with
  | nil => simp [runsIn, callsIn]
  | @cons s s1 s2 l ls hs _ ih =>
    have hi1 := inv_step hi l (fun hh => hls (hh ▸ List.mem_cons_self)) hs
    have ih := ih (fun hh => hls (List.mem_cons_of_mem _ hh)) hi1
    simp only [step, hi.noFault, Option.isSome_none, Bool.false_eq_true, if_false] at hs
    cases l with
    | call t =>
      simp only at hs
      split at hs <;> simp only [Option.some.injEq, reduceCtorEq] at hs
      rename_i hpc
      subst hs
      have := sum_rank_update s.pc t .start
      have h11 : (Pc.start : Pc T).rank = 11 := rfl
      have h0 : (Pc.idle : Pc T).rank = 0 := rfl
      rw [hpc, h11, h0] at this
      simp only [St.goto] at ih
      simp only [runsIn, callsIn]
      omega
    | run t =>
      obtain ⟨p, -, hpc, hr, -⟩ := stepThread_shape t hs hi1.noFault
      have := sum_rank_update s.pc t p
      rw [hpc] at ih
      simp only [runsIn, callsIn]
      omega
    | clear => simp at hls
    | change w =>
      simp only [Option.some.injEq] at hs
      subst hs
      simpa [runsIn, callsIn] using ih

theorem enabled_of_free (c : Cfg W T) (s : St Tid W T) (t : Tid) (hidle : s.pc t ≠ .idle)
    (hobj : (s.pc t).holdsObj = true ∨ (s.lock = none ∧ s.pc t ≠ .waitSet)) :
    ∃ s', stepThread c s t = some s' := by
  unfold stepThread
  cases hp : s.pc t <;> simp only [hp, Pc.holdsObj, St.acquire] at hobj hidle ⊢ <;>
    first
    | exact absurd rfl hidle
    | exact ⟨_, rfl⟩
    | (split <;> first | exact ⟨_, rfl⟩ | (split <;> exact ⟨_, rfl⟩))
    | (simp at hobj; try simp [hobj])

theorem stuck_shape {c : Cfg W T} {s : St Tid W T} (h : Inv s)
    (hno : none ∉ outcomes s.log) (hstuck : ∀ t, stepThread c s t = none) (t : Tid) :
    s.pc t = .idle := by
  have hen := fun u hi ho => show False from (enabled_of_free c s u hi ho).elim (fun s' hs' => by
    rw [hstuck u] at hs'; cases hs')
  by_contra hidle
  have hlock : s.lock = none := by
    cases hl : s.lock with
    | none => rfl
    | some u =>
      have hu := (h.lock u).1 hl
      exact (hen u (by intro hh; simp [hh, Pc.holdsObj] at hu) (.inl hu)).elim
  by_cases hw : s.pc t = .waitSet
  · have h3t := h.thread t
    rw [hw] at h3t
    simp only [threadOk] at h3t
    have hst := hstuck t
    simp only [stepThread, hw] at hst
    cases hwl : s.waiting with
    | none => simp [hwl] at hst
    | some o =>
      cases o with
      | some u =>
        have hu := (h.waitOwner u).1 hwl
        exact hen u (by simp [hu]) (.inr ⟨hlock, by simp [hu]⟩)
      | none =>
        cases hv : s.valid with
        | true =>
          obtain ⟨u, hu⟩ := h.waitCtor hwl hv
          exact hen u (by simp [hu]) (.inl (by simp [hu, Pc.holdsObj]))
        | false =>
          have hb : s.inProcess = true := by simpa [hv] using h3t
          rcases h.busy hb with ⟨u, hu⟩ | ho
          · exact hen u (by intro hh; simp [hh, Pc.computing] at hu)
              (.inr ⟨hlock, by intro hh; simp [hh, Pc.computing] at hu⟩)
          · rw [ho] at hno; simp at hno
  · exact hen t hidle (.inr ⟨hlock, hw⟩)

/-! ## C08 -/

/-- Before the first clearing the function is invoked at most once, every answer is the value that
invocation returned, and no lock is misused (also under the strict reading of OpenMP). -/
theorem value_computed_once (c : Cfg W T) (w : W) (junk : T) (ls : List (Lbl Tid W)) (s : St Tid W T)
    (h : Exec c (init Tid w junk) ls s) (hls : Lbl.clear ∉ ls) :
    invocations s.log ≤ 1 ∧ s.fault = none ∧ ∀ t x, Ev.ret t x ∈ s.log → ∃ u, Ev.eval u x ∈ s.log := by
  have hi := h.inv hls (inv_init w junk)
  refine ⟨?_, hi.noFault, ?_⟩
  · rw [invocations_eq]
    cases hv : s.valid with
    | true => rw [hi.valid hv]; simp
    | false =>
      cases hb : s.inProcess with
      | false => rw [hi.fresh hv hb]; simp
      | true =>
        rcases hi.busy hb with ⟨t, ht⟩ | ho
        · have h3 := hi.thread t
          cases hp : s.pc t <;> simp only [hp, Pc.computing, threadOk, Bool.false_eq_true] at ht h3 <;>
            rw [h3.2.2] <;> simp
        · rw [ho]; simp
  · intro t x hx
    obtain ⟨hv, rfl⟩ := hi.rets t x hx
    exact eval_of_outcomes _ _ (by rw [hi.valid hv]; simp)

/-- All callers get the same value. -/
theorem value_shared (c : Cfg W T) (w : W) (junk : T) (ls : List (Lbl Tid W)) (s : St Tid W T)
    (h : Exec c (init Tid w junk) ls s) (hls : Lbl.clear ∉ ls) (t u : Tid) (x y : T)
    (hx : Ev.ret t x ∈ s.log) (hy : Ev.ret u y ∈ s.log) : x = y := by
  have hi := h.inv hls (inv_init w junk)
  rw [(hi.rets t x hx).2, (hi.rets u y hy).2]

/-- All calls complete: at most 11 statements per call, and when no thread can run and the function has not
thrown, no call is pending. -/
theorem value_calls_complete [Fintype Tid] (c : Cfg W T) (w : W) (junk : T) (ls : List (Lbl Tid W))
    (s : St Tid W T) (h : Exec c (init Tid w junk) ls s) (hls : Lbl.clear ∉ ls) :
    runsIn ls ≤ 11 * callsIn ls ∧
    ((∀ t, step c s (.run t) = none) → (∀ t, Ev.threw t ∉ s.log) → ∀ t, pending t s.log = false) := by
  have hi := h.inv hls (inv_init w junk)
  refine ⟨?_, ?_⟩
  · have := run_budget h hls (inv_init w junk)
    have h0 : ∑ t, ((init Tid w junk).pc t).rank = 0 := by simp [init, Pc.rank]
    omega
  · intro hst hno t
    have hp : ∀ t, pending t s.log = true ↔ s.pc t ≠ .idle := by
      have key : ∀ (s0 s1 : St Tid W T) ls, Exec c s0 ls s1 → Lbl.clear ∉ ls → Inv s0 →
          (∀ t, pending t s0.log = true ↔ s0.pc t ≠ .idle) →
          ∀ t, pending t s1.log = true ↔ s1.pc t ≠ .idle := by
        intro s0 s1 ls he
        induction he with
        | nil => exact fun _ _ h => h
        | cons hs _ ih =>
          intro hls hi h0
          have hi1 := inv_step hi _ (fun hh => hls (hh ▸ List.mem_cons_self)) hs
          exact ih (fun hh => hls (List.mem_cons_of_mem _ hh)) hi1 (pending_step hs hi1.noFault h0)
      exact key _ _ _ h hls (inv_init w junk) (by simp [init, pending])
    have hidle := stuck_shape (c := c) hi
      (fun hh => (outcomes_of_threw _ hh).elim (fun t ht => hno t ht))
      (fun t => by simpa [step, hi.noFault] using hst t) t
    have := (hp t).not.2 (by simp [hidle])
    simpa using this

/-! ## C09 -/

/-- Run a schedule. -/
def runL (c : Cfg W T) (s : St Tid W T) : List (Lbl Tid W) → Option (St Tid W T)
  | [] => some s
  | l :: ls => (step c s l).bind (fun s' => runL c s' ls)

theorem exec_of_runL {c : Cfg W T} {ls : List (Lbl Tid W)} {s s' : St Tid W T}
    (h : runL c s ls = some s') : Exec c s ls s' := by
  induction ls generalizing s with
  | nil => simp only [runL, Option.some.injEq] at h; subst h; exact .nil _
  | cons l ls ih =>
    simp only [runL, Option.bind_eq_some_iff] at h
    obtain ⟨s1, h1, h2⟩ := h
    exact .cons h1 (ih h2)

theorem seq_of_runL {c : Cfg W T} {ls : List (Lbl Tid W)} {s s' : St Tid W T}
    (hls : ∀ l ∈ ls, ∃ t, l = .run t) (h : runL c s ls = some s') : SeqExec c s ls s' := by
  induction ls generalizing s with
  | nil => simp only [runL, Option.some.injEq] at h; subst h; exact .nil _
  | cons l ls ih =>
    simp only [runL, Option.bind_eq_some_iff] at h
    obtain ⟨s1, h1, h2⟩ := h
    obtain ⟨t, rfl⟩ := hls l List.mem_cons_self
    exact .cons (fun hh => absurd rfl (hh t)) h1 (ih (fun l hl => hls l (List.mem_cons_of_mem _ hl)) h2)

theorem SeqExec.append {c : Cfg W T} {l1 l2 : List (Lbl Tid W)} {s1 s2 s3 : St Tid W T}
    (h1 : SeqExec c s1 l1 s2) (h2 : SeqExec c s2 l2 s3) : SeqExec c s1 (l1 ++ l2) s3 := by
  induction h1 with
  | nil => exact h2
  | cons a b _ ih => exact .cons a b (ih h2)

/-- Under the OpenMP rules, using a cache again after one clearing is always an error: the refill releases
the waiting lock, which nobody holds.  This happens for every function, already with a single thread. -/
theorem refill_after_clear_fails (c : Cfg W T) (hstrict : c.strict = true) (w : W) (junk x : T)
    (hx : c.func w = some x) (t : Tid) :
    ∃ ls s, SeqExec c (init Tid w junk) ls s ∧ s.fault = some .badUnset ∧
      s.log = [.eval t x, .called t, .cleared, .ret t x, .eval t x, .called t] := by
  have hid : Function.update (fun _ : Tid => (Pc.idle : Pc T)) t .idle = fun _ => .idle := by
    funext u; simp [Function.update_apply]
  let s0 : St Tid W T := { init Tid w junk with
    pc := Function.update (fun _ => .idle) t .start, log := [.called t] }
  let s1 : St Tid W T := { init Tid w junk with
    valid := true, value := x, waiting := none, log := [.ret t x, .eval t x, .called t] }
  let s2 : St Tid W T := { s1 with valid := false, log := .cleared :: s1.log }
  let s3 : St Tid W T := { s2 with
    pc := Function.update (fun _ => .idle) t .start, log := .called t :: s2.log }
  have h1 : runL c s0 (List.replicate 11 (.run t)) = some s1 := by
    simp [runL, step, init, stepThread, St.goto, St.acquire, St.release, St.releaseWaiting, hx, hid, s0, s1,
      List.replicate]
  have h2 : (runL c s3 (List.replicate 9 (.run t))).map (fun s => (s.fault, s.log)) =
      some (some .badUnset, [.eval t x, .called t, .cleared, .ret t x, .eval t x, .called t]) := by
    simp [runL, step, init, stepThread, St.goto, St.acquire, St.release, St.releaseWaiting, hx, s1, s2,
      s3, List.replicate, hstrict, St.die]
  obtain ⟨s4, h4, hs4⟩ := Option.map_eq_some_iff.1 h2
  simp only [Prod.mk.injEq] at hs4
  have hr : ∀ n, ∀ l ∈ List.replicate n (Lbl.run t : Lbl Tid W), ∃ t, l = .run t :=
    fun n l hl => ⟨t, List.eq_of_mem_replicate hl⟩
  have e1 : SeqExec c (init Tid w junk) [.call t] s0 :=
    .cons (fun _ _ => rfl) (by simp [step, init, s0, St.goto]) (.nil _)
  have e2 : SeqExec c s1 [.clear, .call t] s3 :=
    .cons (s' := s2) (fun _ _ => rfl) (by simp [step, init, s1, s2])
      (.cons (fun _ _ => rfl) (by simp [step, init, s1, s2, s3, St.goto]) (.nil _))
  exact ⟨_, s4, ((e1.append (seq_of_runL (hr 11) h1)).append e2).append (seq_of_runL (hr 9) h4), hs4.1, hs4.2⟩

/-- A function for the witnesses: it returns the state of the world; releasing a free lock has no effect. -/
def demo : Cfg ℕ ℕ := ⟨fun w => some w, false⟩

/-- Even where releasing a free lock has no effect, the refill is not protected: the world changes from 3 to
4, the cache is cleared, thread 0 starts to recompute, and thread 1 returns the old value 3. -/
theorem stale_after_clear_fails :
    ∃ s, Exec demo (init (Fin 2) 3 0)
        (([.call 0] ++ List.replicate 11 (.run 0)) ++ [.change 4, .clear] ++
         ([.call 0] ++ List.replicate 4 (.run 0)) ++ ([.call 1] ++ List.replicate 8 (.run 1))) s ∧
      s.fault = none ∧ s.world = 4 ∧
      s.log = [.ret 1 3, .called 1, .called 0, .cleared, .ret 0 3, .eval 0 3, .called 0] := by
  have h : (runL demo (init (Fin 2) 3 0)
        (([.call 0] ++ List.replicate 11 (.run 0)) ++ [.change 4, .clear] ++
         ([.call 0] ++ List.replicate 4 (.run 0)) ++ ([.call 1] ++ List.replicate 8 (.run 1)))).map
      (fun s => decide (s.fault = none ∧ s.world = 4 ∧
        s.log = [.ret 1 3, .called 1, .called 0, .cleared, .ret 0 3, .eval 0 3, .called 0])) = some true := by
    decide
  obtain ⟨s, hs, hf⟩ := Option.map_eq_some_iff.1 h
  exact ⟨s, exec_of_runL hs, of_decide_eq_true hf⟩

/-- What is known about the only active thread in sequential use. -/
def seqOk (s : St Tid W T) : Pc T → Prop
  | .idle => True
  | .start | .locked => s.inProcess = false
  | .waitRel | .waitSet | .waitUnset | .waitObj => False
  | .begin => s.inProcess = false ∧ s.valid = false
  | .beginRel | .calc => s.inProcess = true ∧ s.valid = false
  | .calcObj r | .check r | .store r => s.inProcess = true ∧ s.valid = false ∧ current s.log = some r
  | .release | .read => s.inProcess = false ∧ s.valid = true
  | .unlock r => s.inProcess = false ∧ s.valid = true ∧ current s.log = some r

/-- Every answer equals the latest evaluation, which no clearing has followed. -/
def FreshAnswers : List (Ev Tid T) → Prop
  | [] => True
  | .ret _ x :: l => current l = some x ∧ FreshAnswers l
  | _ :: l => FreshAnswers l

/-- Invariant of sequential use. -/
structure SeqInv (s : St Tid W T) : Prop where
  noFault : s.fault = none
  lock : ∀ t, s.lock = some t ↔ (s.pc t).holdsObj = true
  one : ∀ t u, s.pc t ≠ .idle → s.pc u ≠ .idle → t = u
  thread : ∀ t, seqOk s (s.pc t)
  quiet : (∀ t, s.pc t = .idle) → s.inProcess = false
  valid : s.valid = true → current s.log = some s.value
  fresh : FreshAnswers s.log

set_option maxHeartbeats 1000000 in
theorem seqInv_step {c : Cfg W T} (hlen : c.strict = false) (htot : ∀ w, (c.func w).isSome = true)
    {s s' : St Tid W T} (h : SeqInv s) (l : Lbl Tid W) (hl : (∀ t, l ≠ .run t) → Quiet s)
    (hs : step c s l = some s') : SeqInv s' := by
  obtain ⟨hf, hlock, hone, hth, hq, hval, hfr⟩ := h
  unfold step at hs
  simp only [hf, Option.isSome_none, Bool.false_eq_true, if_false] at hs
  cases l with
  | clear =>
    have hqu := hl (by simp)
    simp only [Option.some.injEq] at hs; subst hs
    exact ⟨rfl, hlock, hone, fun t => by rw [hqu t]; trivial, hq, by simp, hfr⟩
  | change w =>
    have hqu := hl (by simp)
    simp only [Option.some.injEq] at hs; subst hs
    exact ⟨rfl, hlock, hone, fun t => by rw [hqu t]; trivial, hq, hval, hfr⟩
  | call t =>
    have hqu := hl (by simp)
    simp only [hqu t, Option.some.injEq] at hs; subst hs
    refine ⟨by simpa [St.goto] using hf, ?_, ?_, ?_, ?_, ?_, ?_⟩
    · intro u
      have := hlock u
      simp only [St.goto, Function.update_apply]
      by_cases hu : u = t
      · subst hu; rw [this, hqu u]; simp [Pc.holdsObj]
      · rw [if_neg hu]; exact this
    · intro a b
      simp only [St.goto, Function.update_apply]
      have := hqu a
      have := hqu b
      grind
    · intro u
      simp only [St.goto, Function.update_apply]
      by_cases hu : u = t
      · rw [if_pos hu]; exact hq hqu
      · rw [if_neg hu, hqu u]; trivial
    · intro hall
      have := hall t
      simp [St.goto] at this
    · simpa [St.goto, current] using hval
    · simpa [FreshAnswers] using hfr
  | run t =>
    simp only at hs
    have hoth : ∀ u, u ≠ t → s.pc t ≠ .idle → s.pc u = .idle := by
      intro u hu ht
      by_contra hne
      exact hu (hone u t hne ht)
    have hl2 := hlock t
    have h3 := hth t
    -- generic closing step
    have close : ∀ (p : Pc T) (s1 : St Tid W T), s1.pc = Function.update s.pc t p → s1.fault = none →
        s.pc t ≠ .idle → (∀ u, u ≠ t → s1.lock ≠ some u) → (s1.lock = some t ↔ p.holdsObj = true) →
        seqOk s1 p → (p = .idle → s1.inProcess = false) →
        (s1.valid = true → current s1.log = some s1.value) → FreshAnswers s1.log → SeqInv s1 := by
      intro p s1 e1 e2 e3 e4 e5 e6 e7 e8 e9
      refine ⟨e2, ?_, ?_, ?_, ?_, e8, e9⟩
      · intro u
        rw [e1, Function.update_apply]
        by_cases hu : u = t
        · rw [if_pos hu, hu]; exact e5
        · rw [if_neg hu, hoth u hu e3]
          simpa [Pc.holdsObj] using e4 u hu
      · intro a b
        rw [e1]
        simp only [Function.update_apply]
        have := hoth a
        have := hoth b
        grind
      · intro u
        rw [e1, Function.update_apply]
        by_cases hu : u = t
        · rw [if_pos hu]; exact e6
        · rw [if_neg hu, hoth u hu e3]; trivial
      · intro hall
        apply e7
        have := hall t
        rwa [e1, Function.update_self] at this
    have hlo : ∀ u, u ≠ t → s.pc t ≠ .idle → s.lock ≠ some u := by
      intro u hu ht hh
      have := (hlock u).1 hh
      rw [hoth u hu ht] at this
      simp [Pc.holdsObj] at this
    obtain ⟨x, hx⟩ := Option.isSome_iff_exists.1 (htot s.world)
    unfold stepThread at hs
    split at hs <;> rename_i hpc <;>
      simp only [hpc, seqOk, Pc.holdsObj, iff_true, Bool.false_eq_true, iff_false] at h3 hl2
    all_goals (try (exact h3.elim))
    all_goals (try (cases hs; done))
    all_goals (try unfold St.acquire at hs)
    all_goals (try unfold St.release at hs)
    all_goals (try unfold St.releaseWaiting at hs)
    all_goals (repeat' split at hs)
    all_goals (try (cases hs; done))
    all_goals simp only [Option.some.injEq] at hs
    all_goals subst hs
    all_goals (try (simp only [St.die]; exfalso; simp_all; done))
    all_goals
      refine close _ _ rfl (by simpa [St.goto] using hf) (by simp [hpc]) ?_ ?_ ?_ ?_ ?_ ?_
    all_goals (try simp only [St.goto, seqOk, current, FreshAnswers, Pc.holdsObj])
    all_goals clear close hone hlock hth hoth
    all_goals grind [current]

theorem SeqExec.seqInv {c : Cfg W T} (hlen : c.strict = false) (htot : ∀ w, (c.func w).isSome = true)
    {s s' : St Tid W T} {ls : List (Lbl Tid W)} (h : SeqExec c s ls s') (h0 : SeqInv s) : SeqInv s' := by
  induction h with
  | nil => exact h0
  | cons hl hs _ ih => exact ih (seqInv_step hlen htot h0 _ hl hs)

/-- What does hold of C09: in sequential use (calls, clearings and changes one at a time) with a function that
does not throw, on a run time where releasing a free lock has no effect, every answer is the result of an
evaluation made after the last clearing, and nothing goes wrong.  (Missing: concurrent callers after a
clearing, see `stale_after_clear_fails`, and conformance to OpenMP, see `refill_after_clear_fails`.) -/
theorem refill_after_clear_partial (c : Cfg W T) (hlen : c.strict = false)
    (htot : ∀ w, (c.func w).isSome = true) (w : W) (junk : T) (ls : List (Lbl Tid W)) (s : St Tid W T)
    (h : SeqExec c (init Tid w junk) ls s) :
    s.fault = none ∧ ∀ t x m, Ev.ret t x :: m <:+ s.log → current m = some x := by
  have hi : SeqInv s := by
    have h0 : SeqInv (init Tid w junk : St Tid W T) := by
      constructor <;> simp [init, Pc.holdsObj, seqOk, FreshAnswers]
    exact h.seqInv hlen htot h0
  refine ⟨hi.noFault, ?_⟩
  have key : ∀ l : List (Ev Tid T), FreshAnswers l → ∀ t x m, Ev.ret t x :: m <:+ l → current m = some x := by
    intro l
    induction l with
    | nil => intro _ t x m hm; simp at hm
    | cons e l ih =>
      intro hl t x m hm
      rcases List.suffix_cons_iff.1 hm with hm | hm
      · cases hm; exact hl.1
      · refine ih ?_ t x m hm
        cases e <;> first | exact hl | exact hl.2
  exact key _ hi.fresh

/-! ## Cases meeting the hypotheses -/

/-- C08: thread 1 asks while thread 0 computes, and waits; both get 3 from one evaluation. -/
example : ∃ s, Exec demo (init (Fin 2) 3 0)
    ([.call 0] ++ List.replicate 5 (.run 0) ++ [.call 1, .run 1, .run 1, .run 1] ++
      List.replicate 6 (.run 0) ++ List.replicate 5 (.run 1)) s ∧
    s.log = [.ret 1 3, .ret 0 3, .called 1, .eval 0 3, .called 0] ∧ ∀ t, step demo s (.run t) = none := by
  have h : (runL demo (init (Fin 2) 3 0)
    ([.call 0] ++ List.replicate 5 (.run 0) ++ [.call 1, .run 1, .run 1, .run 1] ++
      List.replicate 6 (.run 0) ++ List.replicate 5 (.run 1))).map (fun s => decide
      (s.log = [.ret 1 3, .ret 0 3, .called 1, .eval 0 3, .called 0] ∧
        ∀ t, (step demo s (.run t)).isNone = true)) = some true := by decide
  obtain ⟨s, hs, hf⟩ := Option.map_eq_some_iff.1 h
  obtain ⟨h1, h2⟩ := of_decide_eq_true hf
  exact ⟨s, exec_of_runL hs, h1, fun t => Option.isNone_iff_eq_none.1 (h2 t)⟩

/-- C09: a sequential use with a change and a clearing between two calls. -/
example : ∃ s, SeqExec demo (init (Fin 2) 3 0) [.change 4, .clear, .call 0, .run 0] s ∧
    demo.strict = false ∧ ∀ w, (demo.func w).isSome = true :=
  ⟨_, .cons (fun _ _ => rfl) rfl (.cons (fun _ _ => rfl) rfl (.cons (fun _ _ => rfl) rfl
    (.cons (fun h => absurd rfl (h 0)) rfl (.nil _)))), rfl, fun _ => rfl⟩

end Slat.CacheVal
