import Verif.ContextLemmas

/-!
# Property C76: what stands in front of a log message

`Context::GetText` should give the descriptions of the calculations that enclose the place the message comes from: those the
thread has opened and not closed, and those opened by the threads that started its teams.  Other threads' calculations should not
show up, and neither opening nor closing a description may go wrong.

The specification replays the events and knows nothing of the tree of `Context` objects.
-/

namespace Slat.Context

variable {T : Type}

/-! ### Specification -/

/-- Descriptions opened and not yet closed, newest first. -/
def stillOpen : List (Ev T) → List (Task × T) → List (Task × T)
  | [], l => l
  | .push p t :: es, l => stillOpen es ((p, t) :: l)
  | .pop p :: es, l => stillOpen es (l.eraseP fun e => e.1 = p)
  | _ :: es, l => stillOpen es l

/-- Teams formed and not yet joined. -/
def teamsNow : List (Ev T) → (Task → Option ℕ) → Task → Option ℕ
  | [], f => f
  | .fork p n :: es, f => teamsNow es (Function.update f p (some n))
  | .join p :: es, f => teamsNow es (Function.update f p none)
  | _ :: es, f => teamsNow es f

/-- The task exists and does not wait. -/
def Runs (teams : Task → Option ℕ) (p : Task) : Prop :=
  teams p = none ∧ ∀ i k, p[i]? = some k → ∃ n, teams (p.take i) = some n ∧ k < n

/-- Teams of more than one thread around a task. -/
def around (teams : Task → Option ℕ) (p : Task) : ℕ :=
  ((List.range p.length).filter fun i => decide (1 < (teams (p.take i)).getD 1)).length

/-- Descriptions that enclose task `p` and were opened inside `d` teams, oldest first. -/
def enclosing (teams : Task → Option ℕ) (opened : List (Task × T)) (p : Task) (d : ℕ) : List T :=
  ((opened.reverse.filter fun e => e.1 <+: p ∧ around teams e.1 = d).map Prod.snd)

/-- The text in front of a message of task `p`: each description with the number of slashes after it. -/
def wanted (teams : Task → Option ℕ) (opened : List (Task × T)) (p : Task) : List (T × ℕ) :=
  (enclosing teams opened p 0).map (fun t => (t, 1)) ++
    (List.range (around teams p)).flatMap fun d => (enclosing teams opened p (d + 1)).map fun t => (t, d + 3)

/-- Teams at nesting level `d` have `sizes d` threads, at least two, down to level `M`; deeper ones have one thread
(`omp_get_max_active_levels` is `M` and the number of threads never changes). -/
def FixedTeams (M : ℕ) (sizes : ℕ → ℕ) (es : List (Ev T)) : Prop :=
  (∀ d, d < M → 2 ≤ sizes d) ∧ ∀ p n, Ev.fork p n ∈ es → n = if p.length < M then sizes p.length else 1

/-! ### Support -/

theorem around_eq (teams : Task → Option ℕ) (p : Task) : activeLevel teams p = around teams p := by
  unfold activeLevel levels around level
  rw [List.countP_cons, List.countP_map, List.countP_eq_length_filter]
  simp
  rfl

theorem step_ghost {s s' : St T} {e : Ev T} (h : step s e = some s') (hf : s'.faulted = false) :
    s'.opened = stillOpen [e] s.opened ∧ s'.teams = teamsNow [e] s.teams := by
  cases e with
  | push p t =>
    simp only [step] at h
    split at h
    · cases h
      unfold push at hf ⊢
      split at hf
      · simp at hf
      · exact ⟨rfl, rfl⟩
    · cases h
  | pop p =>
    simp only [step] at h
    split at h
    · cases h
      unfold pop at hf ⊢
      split at hf
      · simp at hf
      · split <;> exact ⟨rfl, rfl⟩
    · cases h
  | fork p n =>
    simp only [step] at h
    split at h
    · cases h; exact ⟨rfl, rfl⟩
    · cases h
  | join p =>
    simp only [step] at h
    split at h
    · cases h
    · split at h
      · cases h; exact ⟨rfl, rfl⟩
      · cases h

theorem fair_of_fixed {M : ℕ} {sizes : ℕ → ℕ} {es : List (Ev T)} (h : FixedTeams M sizes es) : ∀ e ∈ es, Fair M sizes e := by
  intro e he
  cases e with
  | fork p n => exact h.2 p n he
  | _ => trivial

theorem exec_ghost {M : ℕ} {sizes : ℕ → ℕ} (h2 : ∀ d, d < M → 2 ≤ sizes d) {es : List (Ev T)} {s s' : St T} (hi : Inv M sizes s)
    (hf : ∀ e ∈ es, Fair M sizes e) (h : exec s es = some s') :
    s'.opened = stillOpen es s.opened ∧ s'.teams = teamsNow es s.teams := by
  induction es generalizing s with
  | nil => cases h; exact ⟨rfl, rfl⟩
  | cons e es ih =>
    rw [exec] at h
    obtain ⟨s₁, h1, h3⟩ := Option.bind_eq_some_iff.1 h
    have hi₁ := inv_step h2 hi (hf e List.mem_cons_self) h1
    obtain ⟨h4, h5⟩ := step_ghost h1 hi₁.nofault
    obtain ⟨h6, h7⟩ := ih hi₁ (fun e he => hf e (List.mem_cons_of_mem _ he)) h3
    rw [h6, h7, h4, h5]
    cases e <;> exact ⟨rfl, rfl⟩

theorem runs_iff {s : St T} {p : Task} : Runs s.teams p ↔ running s p = true := by
  rw [running_iff, alive_iff, Runs, and_comm]

/-! ### Theorems -/

/-- C76, teams of fixed sizes: after every history each running task gets the descriptions that enclose it, grouped by nesting,
oldest first, each followed by its separator; no other task's.  No access outside `threads` has happened and the message "stack
already empty" has not been printed. -/
theorem log_contexts_partial {M : ℕ} {sizes : ℕ → ℕ} {es : List (Ev T)} (hfix : FixedTeams M sizes es) {s : St T}
    (hs : exec init es = some s) :
    s.faulted = false ∧ s.complained = false ∧
      ∀ p, Runs (teamsNow es fun _ => none) p →
        getText s p = some (wanted (teamsNow es fun _ => none) (stillOpen es []) p) := by
  have hi := inv_exec hfix.1 inv_init (fair_of_fixed hfix) hs
  obtain ⟨ho, ht⟩ := exec_ghost hfix.1 inv_init (fair_of_fixed hfix) hs
  refine ⟨hi.nofault, hi.quiet, fun p hp => ?_⟩
  have ht' : s.teams = teamsNow es fun _ => none := ht
  have ho' : s.opened = stillOpen es [] := ho
  rw [← ht'] at hp ⊢
  rw [← ho']
  obtain ⟨h3, h4⟩ := running_iff.1 (runs_iff.1 hp)
  rw [getText_inv hfix.1 hi h3 h4]
  unfold wanted enclosing
  simp only [← around_eq, List.filter_reverse, List.map_reverse]

/-- C76: with teams of fixed sizes a running task can always open a description, and close one it has open; nothing is refused
because of what other threads do. -/
theorem log_contexts_progress {M : ℕ} {sizes : ℕ → ℕ} {es : List (Ev T)} (hfix : FixedTeams M sizes es) {s : St T}
    (hs : exec init es = some s) {p : Task} (hp : Runs (teamsNow es fun _ => none) p) :
    (∀ t, ∃ s', exec init (es ++ [Ev.push p t]) = some s') ∧
      ((∃ t, (p, t) ∈ stillOpen es []) → ∃ s', exec init (es ++ [Ev.pop p]) = some s') := by
  have hi := inv_exec hfix.1 inv_init (fair_of_fixed hfix) hs
  obtain ⟨ho, ht⟩ := exec_ghost hfix.1 inv_init (fair_of_fixed hfix) hs
  have happ : ∀ e, exec init (es ++ [e]) = step s e := by
    have : ∀ (l : List (Ev T)) (s₀ : St T) e, exec s₀ (l ++ [e]) = (exec s₀ l).bind (step · e) := by
      intro l
      induction l with
      | nil => intro s₀ e; simp [exec]
      | cons a l ih =>
        intro s₀ e
        rw [List.cons_append, exec, exec, Option.bind_assoc]
        congr 1
        funext s₁
        exact ih s₁ e
    intro e
    rw [this, hs]
    rfl
  have hr : running s p = true := runs_iff.1 (by rw [ht]; exact hp)
  refine ⟨fun t => ⟨push s p t, ?_⟩, fun ⟨t, hm⟩ => ⟨pop s p, ?_⟩⟩
  · rw [happ, step, if_pos ⟨hi.nofault, hr⟩]
  · have hm' : (p, t) ∈ s.opened := by rw [ho]; exact hm
    rw [happ, step, if_pos ⟨hi.nofault, hr, List.mem_map.2 ⟨_, hm', rfl⟩⟩]

/-- C76: a description opened by a task comes last in its text, and closing it gives the text back as it was. -/
theorem log_contexts_scoped {M : ℕ} {sizes : ℕ → ℕ} {es : List (Ev T)} (hfix : FixedTeams M sizes es) {s : St T}
    (hs : exec init es = some s) {p : Task} (hp : Runs (teamsNow es fun _ => none) p) (t : T) :
    ∃ txt n s₁ s₂, getText s p = some txt ∧ step s (.push p t) = some s₁ ∧ getText s₁ p = some (txt ++ [(t, n)]) ∧
      step s₁ (.pop p) = some s₂ ∧ getText s₂ p = some txt := by
  have hi := inv_exec hfix.1 inv_init (fair_of_fixed hfix) hs
  obtain ⟨ho, ht⟩ := exec_ghost hfix.1 inv_init (fair_of_fixed hfix) hs
  have hr : running s p = true := runs_iff.1 (by rw [ht]; exact hp)
  obtain ⟨ha, hn⟩ := running_iff.1 hr
  have h1 : step s (.push p t) = some (push s p t) := by rw [step, if_pos ⟨hi.nofault, hr⟩]
  have hi₁ := inv_step hfix.1 hi (show Fair M sizes (Ev.push p t) from trivial) h1
  obtain ⟨ho₁, ht₁⟩ := step_ghost h1 hi₁.nofault
  simp only [stillOpen, teamsNow] at ho₁ ht₁
  have h2 : step (push s p t) (.pop p) = some (pop (push s p t) p) := by
    rw [step, if_pos]
    refine ⟨hi₁.nofault, ?_, ?_⟩
    · rw [running, ht₁]; exact hr
    · rw [ho₁]; simp
  have hi₂ := inv_step hfix.1 hi₁ (show Fair M sizes (Ev.pop p) from trivial) h2
  obtain ⟨ho₂, ht₂⟩ := step_ghost h2 hi₂.nofault
  simp only [stillOpen, teamsNow] at ho₂ ht₂
  rw [ho₁] at ho₂
  rw [ht₁] at ht₂
  have ho₂' : (pop (push s p t) p).opened = s.opened := by rw [ho₂]; simp
  have g := getText_inv hfix.1 hi ha hn
  have g₁ := getText_inv hfix.1 hi₁ (p := p) (by rw [ht₁]; exact ha) (by rw [ht₁]; exact hn)
  have g₂ := getText_inv hfix.1 hi₂ (p := p) (by rw [ht₂]; exact ha) (by rw [ht₂]; exact hn)
  rw [ho₁, ht₁] at g₁
  rw [ho₂', ht₂, ← g] at g₂
  refine ⟨_, if activeLevel s.teams p = 0 then 1 else activeLevel s.teams p + 2, _, _, g, h1, ?_, h2, g₂.trans g⟩
  rw [g₁]
  congr 1
  rcases hL : activeLevel s.teams p with _ | L
  · simp [hL]
  · have e0 : ∀ d, d ≠ L + 1 → ((p, t) :: s.opened).filter (fun e => e.1 <+: p ∧ activeLevel s.teams e.1 = d) =
        s.opened.filter (fun e => e.1 <+: p ∧ activeLevel s.teams e.1 = d) := by
      intro d hd
      rw [List.filter_cons_of_neg]
      simp only [hL, decide_eq_true_eq, not_and]
      intro _ h
      exact hd h.symm
    have e1 : ((p, t) :: s.opened).filter (fun e => e.1 <+: p ∧ activeLevel s.teams e.1 = L + 1) =
        (p, t) :: s.opened.filter (fun e => e.1 <+: p ∧ activeLevel s.teams e.1 = L + 1) := by
      rw [List.filter_cons_of_pos]
      simp [hL]
    rw [e0 0 (by omega), List.range_succ, List.flatMap_append, List.flatMap_append, List.append_assoc, List.append_assoc]
    congr 1
    congr 1
    · refine List.flatMap_congr fun d hd => ?_
      rw [e0 (d + 1) (by have := List.mem_range.1 hd; omega)]
    · rw [List.flatMap_cons, List.flatMap_cons, e1]
      simp

/-- C76 fails when teams differ: `CostDist_IM` runs two sections in a team of two, a later `parallel for` has three threads.  The
vector `threads` keeps the size of the first team, so the third thread indexes past its end. -/
theorem log_contexts_fails_sizes :
    (exec (init : St String)
      [.fork [] 2, .push [0] "E_cost_IM", .push [1] "SD_ln_cost_IM", .pop [0], .pop [1], .join [],
       .fork [] 3, .push [2] "lambda"]).map (fun s => s.faulted) = some true := by
  decide +kernel

/-- C76 fails when a region of one thread encloses one of two: both threads use the same object, so a message of one shows the
calculation of the other, and closing one's own description removes the other's. -/
theorem log_contexts_fails_nested :
    (exec (init : St String) [.fork [] 1, .fork [0] 2, .push [0, 0] "E_cost_IM"]).bind (fun s => getText s [0, 1]) =
        some [("E_cost_IM", 3)] ∧
      (exec (init : St String) [.fork [] 1, .fork [0] 2, .push [0, 0] "E_cost_IM", .push [0, 1] "SD_ln_cost_IM", .pop [0, 0]]).bind
        (fun s => getText s [0, 0]) = some [("E_cost_IM", 3)] := by
  constructor <;> decide +kernel

/-! ### Cases -/

/-- Two threads inside `AnnualCost`, one of which has passed an inactive region. -/
def twoThreads : List (Ev String) :=
  [.push [] "AnnualCost", .fork [] 2, .push [1] "lambda", .push [0] "E_cost_IM", .fork [0] 1, .push [0, 0] "fragility", .pop [1],
   .push [1] "E_cost_EDP"]

/-- One active level, two threads. -/
theorem twoThreads_fixed : FixedTeams 1 (fun _ => 2) twoThreads := by
  refine ⟨by simp, ?_⟩
  intro p n h
  simp only [twoThreads, List.mem_cons, Ev.fork.injEq, List.not_mem_nil, reduceCtorEq, false_or, or_false] at h
  rcases h with ⟨rfl, rfl⟩ | ⟨rfl, rfl⟩ <;> simp

example : (exec init twoThreads).isSome = true := by decide +kernel

/-- The thread inside the inactive region: three descriptions, those of level one together. -/
example (s : St String) (hs : exec init twoThreads = some s) :
    getText s [0, 0] = some [("AnnualCost", 1), ("E_cost_IM", 3), ("fragility", 3)] ∧
      getText s [1] = some [("AnnualCost", 1), ("E_cost_EDP", 3)] := by
  have h := (log_contexts_partial twoThreads_fixed hs).2.2
  constructor
  · rw [h [0, 0] ⟨rfl, fun i k hk => ?_⟩]
    · decide +kernel
    · match i, hk with
      | 0, hk => cases hk; exact ⟨2, rfl, by norm_num⟩
      | 1, hk => cases hk; exact ⟨1, rfl, by norm_num⟩
  · rw [h [1] ⟨rfl, fun i k hk => ?_⟩]
    · decide +kernel
    · match i, hk with
      | 0, hk => cases hk; exact ⟨2, rfl, by norm_num⟩

/-- Thread 1 may go on while thread 0 is in its inner region. -/
example (s : St String) (hs : exec init twoThreads = some s) : ∃ s', exec init (twoThreads ++ [.pop [1]]) = some s' := by
  refine (log_contexts_progress twoThreads_fixed hs (p := [1]) ⟨rfl, fun i k hk => ?_⟩).2 ⟨"E_cost_EDP", by decide +kernel⟩
  match i, hk with
  | 0, hk => cases hk; exact ⟨2, rfl, by norm_num⟩

/-- Opening and closing a further description in the inner region. -/
example (s : St String) (hs : exec init twoThreads = some s) :
    ∃ txt n s₁ s₂, getText s [0, 0] = some txt ∧ step s (.push [0, 0] "MAQ") = some s₁ ∧
      getText s₁ [0, 0] = some (txt ++ [("MAQ", n)]) ∧ step s₁ (.pop [0, 0]) = some s₂ ∧ getText s₂ [0, 0] = some txt := by
  refine log_contexts_scoped twoThreads_fixed hs (p := [0, 0]) ⟨rfl, fun i k hk => ?_⟩ "MAQ"
  match i, hk with
  | 0, hk => cases hk; exact ⟨2, rfl, by norm_num⟩
  | 1, hk => cases hk; exact ⟨1, rfl, by norm_num⟩

end Slat.Context
