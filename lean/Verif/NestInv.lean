import Verif.NestSem

/-! What is true at every moment of an execution of nested caches (helper file for `NestProps.lean`). -/

namespace Slat.Nest

open ParFor (Out)

variable {Tid C V T : Type} [DecidableEq Tid] [DecidableEq C]

/-- Where a thread is inside a cache: statements left at most, and whether the wrapped function will not be called
any more. -/
structure Pos where
  rank : ℕ
  settled : Bool

/-- What the calculations rely on about a cache: asked for `v` it answers `F v`, provided the wrapped function does;
`a t`: argument of the call thread `t` is in. -/
structure Provides (O : Obj Tid V T) (F : V → Option T) (Inv : (Tid → Option V) → O.St → Prop)
    (pos : O.St → Tid → Pos) (B : ℕ) : Prop where
  callable : ∀ a s t v, Inv a s → a t = none → ∃ s', O.call s t v = some s'
  call : ∀ a s t v s', Inv a s → O.call s t v = some s' →
    Inv (Function.update a t (some v)) s' ∧ (pos s' t).rank ≤ B ∧
      ∀ u, u ≠ t → pos s' u = pos s u ∧ O.needs s' u = O.needs s u
  run : ∀ a s t v r s' o, Inv a s → a t = some v → (O.needs s t = true → r = F v) → O.run s t r = some (s', o) →
    (∀ u, u ≠ t → pos s' u = pos s u ∧ O.needs s' u = O.needs s u) ∧ (pos s' t).rank < (pos s t).rank ∧
      ((o = .busy ∧ Inv a s' ∧ ((pos s t).settled = true ∨ O.needs s t = true → (pos s' t).settled = true)) ∨
       (∃ x, o = .done x ∧ F v = some x ∧ Inv (Function.update a t none) s') ∨
       (o = .threw ∧ F v = none ∧ Inv (Function.update a t none) s'))
  settled : ∀ a s t, Inv a s → O.needs s t = true → (pos s t).settled = false
  enabled : ∀ a s t v r, Inv a s → a t = some v → O.needs s t = true → ∃ x, O.run s t r = some x
  live : ∀ a s t, Inv a s → (∀ u v, a u = some v → F v ≠ none) → a t ≠ none →
    ∃ u, a u ≠ none ∧ (O.needs s u = true ∨ ∃ x, O.run s u none = some x)

/-- The data of the contracts of all caches. -/
structure Spec (sys : Sys Tid C V T) where
  rank : C → ℕ
  R : ℕ
  Inv : ∀ c, (Tid → Option V) → (sys.obj c).St → Prop
  pos : ∀ c, (sys.obj c).St → Tid → Pos
  B : C → ℕ

variable {sys : Sys Tid C V T}

/-- Outcomes of the caches. -/
def Spec.F (S : Spec sys) : C → V → Option T := den sys.body S.rank

/-- The contracts hold. -/
structure Spec.Ok (S : Spec sys) : Prop where
  ranked : Ranked sys.body S.rank S.R
  provides : ∀ c, Provides (sys.obj c) (S.F c) (S.Inv c) (S.pos c) (S.B c)

/-- The regions, as far as they do not change; `lim`: caches called by the blocks have rank below this. -/
structure Env (C V T : Type) where
  next : ℕ
  lim : ℕ → ℕ
  n : ℕ → ℕ
  ts : ℕ → ℕ → Prog C V T

/-- The regions of a state. -/
def env (lim : ℕ → ℕ) (s : St sys) : Env C V T := ⟨s.nextJob, lim, fun j => (s.jobs j).n, fun j => (s.jobs j).ts⟩

/-- Caches called by an activation have rank below this. -/
def bound (S : Spec sys) (E : Env C V T) : Kind C V T → ℕ
  | .client _ => S.R
  | .cache c _ => S.rank c
  | .task j _ => E.lim j

/-- The outcome an activation must have. -/
def want (S : Spec sys) (E : Env C V T) : Kind C V T → Option T
  | .client p => eval S.F p
  | .cache c v => S.F c v
  | .task j i => eval S.F (E.ts j i)

/-- Outcome of a region and what follows. -/
def after (S : Spec sys) (E : Env C V T) (j : ℕ) (k : List T → Prog C V T) : Option T :=
  match collect (fun i => eval S.F (E.ts j i)) (E.n j) with
  | some xs => eval S.F (k xs)
  | none => none

/-- An activation is on the way to its outcome. -/
def CodeOk (S : Spec sys) (E : Env C V T) (kd : Kind C V T) : Code C V T → Prop
  | .protocol => ∃ c v, kd = .cache c v
  | .run p => Below S.rank (bound S E kd) p ∧ eval S.F p = want S E kd
  | .join j k => j < E.next ∧ E.lim j ≤ bound S E kd ∧ (∀ xs, Below S.rank (bound S E kd) (k xs)) ∧
      after S E j k = want S E kd

/-- Regions waited for from here on are at least this. -/
def floor : List (Act C V T) → ℕ
  | [] => 0
  | a :: l => match a.kind with | .task j _ => j + 1 | _ => floor l

/-- How an activation came about. -/
def LinkOk (E : Env C V T) (a : Act C V T) (rest : List (Act C V T)) : Prop :=
  match a.kind with
  | .client _ => rest = []
  | .cache c v => ∃ b rest' k, rest = b :: rest' ∧ b.code = .run (.call c v k)
  | .task j i => j < E.next ∧ i < E.n j ∧ (rest = [] ∨ ∃ b rest' k, rest = b :: rest' ∧ b.code = .join j k)

/-- A call stack is in order. -/
def Chain (S : Spec sys) (E : Env C V T) : List (Act C V T) → Prop
  | [] => True
  | a :: rest => CodeOk S E a.kind a.code ∧ (∀ j k, a.code = .join j k → floor (a :: rest) ≤ j) ∧ LinkOk E a rest ∧
      Chain S E rest

/-- Argument of the call of cache `c` in a call stack. -/
def argIn (c : C) : List (Act C V T) → Option V
  | [] => none
  | a :: l => match a.kind with | .cache c' v => if c' = c then some v else argIn c l | _ => argIn c l

/-- The client's query a call stack belongs to. -/
def clientOf : List (Act C V T) → Option (Prog C V T)
  | [] => none
  | a :: l => match a.kind with | .client p => some p | _ => clientOf l

/-- The stack contains a block. -/
def HasTask (j i : ℕ) (l : List (Act C V T)) : Prop := ∃ a ∈ l, a.kind = .task j i

/-- The stack contains an activation waiting for a region. -/
def HasJoin (j : ℕ) (l : List (Act C V T)) : Prop := ∃ a ∈ l, ∃ k, a.code = .join j k

/-- The query of thread `t` that has not been answered. -/
def pending (t : Tid) : List (Ev Tid C V T) → Option (Prog C V T)
  | [] => none
  | .started u p :: l => if u = t then some p else pending t l
  | .ended u _ _ :: l => if u = t then none else pending t l

/-- The invariant. -/
structure NInv (S : Spec sys) (lim : ℕ → ℕ) (s : St sys) : Prop where
  objs : ∀ c, S.Inv c (fun t => argIn c (s.stack t)) (s.objs c)
  chain : ∀ t, Chain S (env lim s) (s.stack t)
  needs : ∀ t a c v, a ∈ s.stack t → a.kind = .cache c v → a.code ≠ .protocol →
    (sys.obj c).needs (s.objs c) t = true
  res : ∀ j i x, j < s.nextJob → i < (s.jobs j).n → (s.jobs j).res i = some x → eval S.F ((s.jobs j).ts i) = some x
  pool : ∀ j, j < s.nextJob → (s.jobs j).pool.Nodup ∧ ∀ i, i ∈ (s.jobs j).pool → i < (s.jobs j).n ∧ (s.jobs j).res i = none
  progs : ∀ j i, j < s.nextJob → i < (s.jobs j).n → Below S.rank (lim j) ((s.jobs j).ts i)
  tasks : ∀ t j i, HasTask j i (s.stack t) → j < s.nextJob ∧ i < (s.jobs j).n ∧ i ∉ (s.jobs j).pool ∧
    (s.jobs j).res i = none ∧ ∀ u, HasTask j i (s.stack u) → u = t
  cover : ∀ j i, j < s.nextJob → i < (s.jobs j).n → i ∈ (s.jobs j).pool ∨ (s.jobs j).res i ≠ none ∨
    ∃ t, HasTask j i (s.stack t)
  owner : ∀ j i, j < s.nextJob → i < (s.jobs j).n → (s.jobs j).res i = none → ∃ t, HasJoin j (s.stack t)
  client : ∀ t, clientOf (s.stack t) = pending t s.log
  answers : ∀ t p r l, (.ended t p r :: l) <:+ s.log → pending t l = some p ∧ r = eval S.F p
  bad : s.bad = none ∨ s.bad = some .terminated ∧ ∃ t p, .started t p ∈ s.log ∧ eval S.F p = none

/-! ## Stacks -/

variable {S : Spec sys} {E E' : Env C V T}

/-- Regions may be added. -/
structure Env.Le (E E' : Env C V T) : Prop where
  next : E.next ≤ E'.next
  lim : ∀ j, j < E.next → E'.lim j = E.lim j
  n : ∀ j, j < E.next → E'.n j = E.n j
  ts : ∀ j, j < E.next → E'.ts j = E.ts j

omit [DecidableEq Tid] [DecidableEq C] in
theorem codeOk_mono (h : E.Le E') {kd : Kind C V T} {code : Code C V T} (hk : ∀ j i, kd = .task j i → j < E.next)
    (hc : CodeOk S E kd code) : CodeOk S E' kd code := by
  have hb : bound S E' kd = bound S E kd := by
    cases kd with
    | task j i => exact h.lim j (hk j i rfl)
    | _ => rfl
  have hw : want S E' kd = want S E kd := by
    cases kd with
    | task j i => simp only [want, h.ts j (hk j i rfl)]
    | _ => rfl
  cases code with
  | protocol => exact hc
  | run p => simp only [CodeOk, hb, hw]; exact hc
  | join j k =>
    obtain ⟨h1, h2, h3, h4⟩ := hc
    simp only [CodeOk, hb, hw, h.lim j h1]
    refine ⟨lt_of_lt_of_le h1 h.next, h2, h3, ?_⟩
    rw [← h4]
    simp only [after, h.n j h1, h.ts j h1]

omit [DecidableEq Tid] [DecidableEq C] in
theorem chain_mono (h : E.Le E') {l : List (Act C V T)} (hc : Chain S E l) : Chain S E' l := by
  induction l with
  | nil => trivial
  | cons a rest ih =>
    obtain ⟨h1, h2, h3, h4⟩ := hc
    have hk : ∀ j i, a.kind = .task j i → j < E.next := by
      intro j i hk; simp only [LinkOk, hk] at h3; exact h3.1
    refine ⟨codeOk_mono h hk h1, h2, ?_, ih h4⟩
    unfold LinkOk at h3 ⊢
    split <;> rename_i hka <;> simp only [hka] at h3
    · exact h3
    · exact h3
    · rename_i j i
      exact ⟨lt_of_lt_of_le h3.1 h.next, by rw [h.n j h3.1]; exact h3.2.1, h3.2.2⟩

omit [DecidableEq Tid] [DecidableEq C] in
theorem bound_le_below {a b : Act C V T} {rest : List (Act C V T)} (hc : Chain S E (a :: b :: rest)) :
    bound S E a.kind ≤ bound S E b.kind ∧ ∀ c v, a.kind = .cache c v → bound S E a.kind < bound S E b.kind := by
  obtain ⟨-, -, h3, h4, -⟩ := hc
  unfold LinkOk at h3
  split at h3 <;> rename_i hk
  · cases h3
  · obtain ⟨b', r', k, he, hb⟩ := h3
    cases he
    rw [hb] at h4
    rw [hk]
    have := h4.1.1
    exact ⟨this.le, fun _ _ _ => this⟩
  · obtain ⟨-, -, h | ⟨b', r', k, he, hb⟩⟩ := h3
    · cases h
    · cases he
      rw [hb] at h4
      rw [hk]
      exact ⟨h4.2.1, fun c v h => by cases h⟩

omit [DecidableEq Tid] [DecidableEq C] in
theorem bound_le_all {a : Act C V T} {rest : List (Act C V T)} (hc : Chain S E (a :: rest)) :
    ∀ b ∈ rest, bound S E a.kind ≤ bound S E b.kind := by
  induction rest generalizing a with
  | nil => simp
  | cons b rest ih =>
    intro b' hb'
    have h1 := (bound_le_below hc).1
    rcases List.mem_cons.1 hb' with rfl | hb'
    · exact h1
    · exact h1.trans (ih hc.2.2.2 b' hb')

omit [DecidableEq Tid] in
theorem argIn_none {c : C} {l : List (Act C V T)} (h : ∀ a ∈ l, ∀ v, a.kind ≠ .cache c v) : argIn c l = none := by
  induction l with
  | nil => rfl
  | cons a l ih =>
    have h1 := h a (by simp)
    have h2 := ih fun b hb => h b (by simp [hb])
    unfold argIn
    split
    · rename_i c' v hk
      have : c' ≠ c := by rintro rfl; exact h1 v hk
      rw [if_neg this, h2]
    · exact h2

omit [DecidableEq Tid] in
theorem argIn_some {c : C} {l : List (Act C V T)} {v : V} (h : argIn c l = some v) :
    ∃ a ∈ l, a.kind = .cache c v := by
  induction l with
  | nil => cases h
  | cons a l ih =>
    unfold argIn at h
    split at h
    · rename_i c' v' hk
      split at h
      · rename_i hcc; subst hcc; cases h; exact ⟨a, by simp, hk⟩
      · obtain ⟨b, hb, hb'⟩ := ih h; exact ⟨b, by simp [hb], hb'⟩
    · obtain ⟨b, hb, hb'⟩ := ih h; exact ⟨b, by simp [hb], hb'⟩

omit [DecidableEq Tid] in
/-- A cache is not entered again below its own calculation. -/
theorem argIn_rest {c : C} {v : V} {code : Code C V T} {rest : List (Act C V T)}
    (hc : Chain S E (⟨.cache c v, code⟩ :: rest)) : argIn c rest = none := by
  cases rest with
  | nil => rfl
  | cons b rest =>
    have h1 := (bound_le_below hc).2 c v rfl
    refine argIn_none fun a ha w hk => ?_
    have h2 : bound S E b.kind ≤ bound S E a.kind := by
      rcases List.mem_cons.1 ha with rfl | ha
      · exact le_refl _
      · exact bound_le_all hc.2.2.2 a ha
    rw [hk] at h2
    simp only [bound] at h1 h2
    omega

omit [DecidableEq Tid] in
/-- The cache about to be called is not being called already. -/
theorem argIn_call {c : C} {v : V} {k : T → Prog C V T} {kd : Kind C V T} {rest : List (Act C V T)}
    (hc : Chain S E (⟨kd, .run (.call c v k)⟩ :: rest)) : argIn c (⟨kd, .run (.call c v k)⟩ :: rest) = none := by
  have h1 : S.rank c < bound S E kd := hc.1.1.1
  refine argIn_none fun a ha w hk => ?_
  have h2 : bound S E kd ≤ bound S E a.kind := by
    rcases List.mem_cons.1 ha with rfl | ha
    · exact le_refl _
    · exact bound_le_all hc a ha
  rw [hk] at h2
  have h3 : bound S E (.cache c w) = S.rank c := rfl
  omega

omit [DecidableEq Tid] [DecidableEq C] in
theorem floor_bound {l : List (Act C V T)} (hc : Chain S E l) {j i : ℕ} (ht : HasTask j i l) : j < floor l := by
  induction l with
  | nil => obtain ⟨a, ha, -⟩ := ht; simp at ha
  | cons a rest ih =>
    obtain ⟨b, hb, hk⟩ := ht
    rcases List.mem_cons.1 hb with rfl | hb
    · unfold floor; rw [hk]; simp
    · have h := ih hc.2.2.2 ⟨b, hb, hk⟩
      have hl := hc.2.2.1
      unfold floor
      split
      · rename_i j' i' hk'
        simp only [LinkOk, hk'] at hl
        obtain ⟨-, -, h' | ⟨d, r', k, he, hd⟩⟩ := hl
        · subst h'; simp at hb
        · have h5 := hc.2.2.2
          rw [he] at h5 h
          have := h5.2.1 j' k hd
          omega
      · exact h

omit [DecidableEq Tid] [DecidableEq C] in
/-- A block is not executed again below itself. -/
theorem no_task_below {j i : ℕ} {code : Code C V T} {rest : List (Act C V T)}
    (hc : Chain S E (⟨.task j i, code⟩ :: rest)) (i' : ℕ) : ¬ HasTask j i' rest := by
  intro ht
  have h := floor_bound hc.2.2.2 ht
  have hl := hc.2.2.1
  simp only [LinkOk] at hl
  obtain ⟨-, -, h' | ⟨d, r', k, he, hd⟩⟩ := hl
  · subst h'; obtain ⟨a, ha, -⟩ := ht; simp at ha
  · have h5 := hc.2.2.2
    rw [he] at h5 h
    have := h5.2.1 j k hd
    omega

omit [DecidableEq Tid] [DecidableEq C] in
theorem hasTask_code {kd : Kind C V T} {code code' : Code C V T} {rest : List (Act C V T)} {j i : ℕ} :
    HasTask j i (⟨kd, code⟩ :: rest) ↔ HasTask j i (⟨kd, code'⟩ :: rest) := by simp [HasTask]

omit [DecidableEq Tid] [DecidableEq C] in
theorem hasTask_cache {c : C} {v : V} {code : Code C V T} {rest : List (Act C V T)} {j i : ℕ} :
    HasTask j i (⟨.cache c v, code⟩ :: rest) ↔ HasTask j i rest := by simp [HasTask]

omit [DecidableEq Tid] [DecidableEq C] in
theorem hasTask_resume {r : Option T} {rest : List (Act C V T)} {j i : ℕ} :
    HasTask j i (resume r rest) ↔ HasTask j i rest := by
  unfold resume; split
  · exact hasTask_code
  · rfl

omit [DecidableEq Tid] [DecidableEq C] in
theorem hasJoin_resume {r : Option T} {rest : List (Act C V T)} {j : ℕ} :
    HasJoin j (resume r rest) ↔ HasJoin j rest := by
  unfold resume; split
  · simp [HasJoin]
  · rfl

omit [DecidableEq Tid] in
theorem argIn_resume {c : C} {r : Option T} {rest : List (Act C V T)} : argIn c (resume r rest) = argIn c rest := by
  unfold resume; split <;> rfl

omit [DecidableEq Tid] [DecidableEq C] in
theorem clientOf_resume {r : Option T} {rest : List (Act C V T)} : clientOf (resume r rest) = clientOf rest := by
  unfold resume; split <;> rfl

omit [DecidableEq Tid] [DecidableEq C] in
/-- Going on after a call of a cache. -/
theorem chain_resume {c : C} {v : V} {code : Code C V T} {rest : List (Act C V T)}
    (hc : Chain S E (⟨.cache c v, code⟩ :: rest)) {r : Option T} (hr : S.F c v = r) : Chain S E (resume r rest) := by
  obtain ⟨-, -, h3, h4⟩ := hc
  simp only [LinkOk] at h3
  obtain ⟨b, rest', k, rfl, hb⟩ := h3
  obtain ⟨kd, code'⟩ := b
  subst hb
  obtain ⟨⟨h5, h6⟩, h7, h8, h9⟩ := h4
  simp only [eval, hr] at h6
  refine ⟨?_, by simp, h8, h9⟩
  cases r with
  | none => exact ⟨trivial, h6⟩
  | some x => exact ⟨h5.2 x, h6⟩

omit [DecidableEq Tid] [DecidableEq C] in
/-- Changing what the innermost activation does next. -/
theorem chain_code {kd : Kind C V T} {code code' : Code C V T} {rest : List (Act C V T)}
    (hc : Chain S E (⟨kd, code⟩ :: rest)) (h : CodeOk S E kd code')
    (hj : ∀ j k, code' = .join j k → floor (⟨kd, code⟩ :: rest) ≤ j) : Chain S E (⟨kd, code'⟩ :: rest) :=
  ⟨h, fun j k he => hj j k he, hc.2.2.1, hc.2.2.2⟩

theorem argIn_update (c : C) (f : Tid → List (Act C V T)) (t : Tid) (l : List (Act C V T)) :
    (fun u => argIn c (Function.update f t l u)) = Function.update (fun u => argIn c (f u)) t (argIn c l) := by
  funext u
  by_cases h : u = t
  · subst h; simp
  · simp [Function.update_of_ne h]

omit [DecidableEq Tid] [DecidableEq C] in
theorem below_all (hS : Ranked sys.body S.rank S.R) (p : Prog C V T) : Below S.rank S.R p := by
  induction p with
  | ret r => trivial
  | call c v k ih => exact ⟨hS.lt c, ih⟩
  | par n ts k ih1 ih2 => exact ⟨fun i _ => ih1 i, ih2⟩

omit [DecidableEq C] in
theorem pending_started {t : Tid} {l : List (Ev Tid C V T)} {p : Prog C V T} (h : pending t l = some p) :
    .started t p ∈ l := by
  induction l with
  | nil => cases h
  | cons e l ih =>
    cases e with
    | started u q =>
      unfold pending at h
      split at h
      · rename_i hu; subst hu; cases h; simp
      · exact List.mem_cons_of_mem _ (ih h)
    | ended u q r =>
      unfold pending at h
      split at h
      · cases h
      · exact List.mem_cons_of_mem _ (ih h)

/-! ## The steps -/

variable {lim : ℕ → ℕ} {s s' : St sys}

/-- A step that changes the stack of one thread and possibly the caches. -/
theorem ninv_move (h : NInv S lim s) (t : Tid) (l : List (Act C V T)) (o : ∀ c, (sys.obj c).St)
    (ho : ∀ c, S.Inv c (Function.update (fun u => argIn c (s.stack u)) t (argIn c l)) (o c))
    (hn : ∀ c u, u ≠ t → (sys.obj c).needs (o c) u = (sys.obj c).needs (s.objs c) u)
    (hc : Chain S (env lim s) l)
    (hnt : ∀ a c v, a ∈ l → a.kind = .cache c v → a.code ≠ .protocol → (sys.obj c).needs (o c) t = true)
    (ht : ∀ j i, HasTask j i l ↔ HasTask j i (s.stack t))
    (hj : ∀ j, HasJoin j (s.stack t) → HasJoin j l ∨ ∀ i, i < (s.jobs j).n → (s.jobs j).res i ≠ none)
    (hcl : clientOf l = clientOf (s.stack t)) :
    NInv S lim { s with objs := o, stack := Function.update s.stack t l } := by
  have htask : ∀ u j i, HasTask j i (Function.update s.stack t l u) ↔ HasTask j i (s.stack u) := by
    intro u j i
    by_cases hu : u = t
    · subst hu; rw [Function.update_self]; exact ht j i
    · rw [Function.update_of_ne hu]
  constructor
  · intro c; dsimp only; rw [argIn_update]; exact ho c
  · intro u
    show Chain S (env lim s) (Function.update s.stack t l u)
    by_cases hu : u = t
    · subst hu; rw [Function.update_self]; exact hc
    · rw [Function.update_of_ne hu]; exact h.chain u
  · intro u a c v ha hk hp
    dsimp only at ha ⊢
    by_cases hu : u = t
    · subst hu; rw [Function.update_self] at ha; exact hnt a c v ha hk hp
    · rw [Function.update_of_ne hu] at ha; rw [hn c u hu]; exact h.needs u a c v ha hk hp
  · exact h.res
  · exact h.pool
  · exact h.progs
  · intro u j i hh
    have := h.tasks u j i ((htask u j i).1 hh)
    exact ⟨this.1, this.2.1, this.2.2.1, this.2.2.2.1, fun w hw => this.2.2.2.2 w ((htask w j i).1 hw)⟩
  · intro j i h1 h2
    rcases h.cover j i h1 h2 with h3 | h3 | ⟨u, h3⟩
    · exact .inl h3
    · exact .inr (.inl h3)
    · exact .inr (.inr ⟨u, (htask u j i).2 h3⟩)
  · intro j i h1 h2 h3
    obtain ⟨u, hu⟩ := h.owner j i h1 h2 h3
    by_cases hut : u = t
    · subst hut
      rcases hj j hu with h4 | h4
      · exact ⟨u, by dsimp only; rw [Function.update_self]; exact h4⟩
      · exact absurd h3 (h4 i h2)
    · exact ⟨u, by dsimp only; rw [Function.update_of_ne hut]; exact hu⟩
  · intro u
    dsimp only
    by_cases hu : u = t
    · subst hu; rw [Function.update_self, hcl]; exact h.client u
    · rw [Function.update_of_ne hu]; exact h.client u
  · exact h.answers
  · exact h.bad

/-- The caches are not touched. -/
theorem ninv_move' (h : NInv S lim s) (t : Tid) (l : List (Act C V T))
    (ho : ∀ c, argIn c l = argIn c (s.stack t))
    (hc : Chain S (env lim s) l)
    (hnt : ∀ a c v, a ∈ l → a.kind = .cache c v → a.code ≠ .protocol → (sys.obj c).needs (s.objs c) t = true)
    (ht : ∀ j i, HasTask j i l ↔ HasTask j i (s.stack t))
    (hj : ∀ j, HasJoin j (s.stack t) → HasJoin j l ∨ ∀ i, i < (s.jobs j).n → (s.jobs j).res i ≠ none)
    (hcl : clientOf l = clientOf (s.stack t)) : NInv S lim (s.goto t l) := by
  refine ninv_move h t l s.objs (fun c => ?_) (fun _ _ _ => rfl) hc hnt ht hj hcl
  rw [ho c, Function.update_eq_self t (fun u => argIn c (s.stack u))]
  exact h.objs c

/-- A statement of a cache. -/
theorem ninv_runObj (hS : S.Ok) (h : NInv S lim s) (t : Tid) (c : C) (v : V) (code : Code C V T)
    (rest : List (Act C V T)) (r : Option T) (hst : s.stack t = ⟨.cache c v, code⟩ :: rest)
    (hcode : ∀ j k, code ≠ .join j k)
    (hr : (sys.obj c).needs (s.objs c) t = true → r = S.F c v) (hs : runObj s t c v rest r = some s') :
    NInv S lim s' := by
  have hch := h.chain t
  rw [hst] at hch
  have harg : (fun u => argIn c (s.stack u)) t = some v := by simp [hst, argIn]
  have hnone := argIn_rest hch
  have hlink := hch.2.2.1
  simp only [LinkOk] at hlink
  have hneeds : ∀ a c' v', a ∈ rest → a.kind = .cache c' v' → a.code ≠ .protocol →
      c' ≠ c ∧ (sys.obj c').needs (s.objs c') t = true := by
    intro a c' v' ha hk hp
    refine ⟨?_, h.needs t a c' v' (by simp [hst, ha]) hk hp⟩
    rintro rfl
    obtain ⟨b, rest', k, rfl, hb⟩ := hlink
    have h1 := (bound_le_below hch).2 _ _ rfl
    have h2 : bound S (env lim s) b.kind ≤ bound S (env lim s) a.kind := by
      rcases List.mem_cons.1 ha with rfl | ha
      · exact le_refl _
      · exact bound_le_all hch.2.2.2 a ha
    rw [hk] at h2
    simp only [bound] at h1 h2
    omega
  have hupd : ∀ (o : (sys.obj c).St) c', c' ≠ c → Function.update s.objs c o c' = s.objs c' :=
    fun o c' hc' => Function.update_of_ne hc' _ _
  have hneeds' : ∀ o a c' v', a ∈ resume r rest ∨ a ∈ rest → a.kind = .cache c' v' → a.code ≠ .protocol →
      (sys.obj c').needs (Function.update s.objs c o c') t = true := by
    intro o a c' v' ha hk hp
    have : ∃ b ∈ rest, b.kind = a.kind ∧ b.code ≠ .protocol := by
      rcases ha with ha | ha
      · unfold resume at ha
        split at ha
        · rcases List.mem_cons.1 ha with rfl | ha
          · exact ⟨_, List.mem_cons_self, rfl, by simp⟩
          · exact ⟨a, by simp [ha], rfl, hp⟩
        · exact ⟨a, ha, rfl, hp⟩
      · exact ⟨a, ha, rfl, hp⟩
    obtain ⟨b, hb, hbk, hbp⟩ := this
    obtain ⟨h1, h2⟩ := hneeds b c' v' hb (hbk.trans hk) hbp
    rw [hupd _ _ h1]; exact h2
  have hpop : ∀ (o : (sys.obj c).St) (q : Option T), S.F c v = q →
      (∀ u, u ≠ t → (sys.obj c).needs o u = (sys.obj c).needs (s.objs c) u) →
      S.Inv c (Function.update (fun u => argIn c (s.stack u)) t none) o →
      NInv S lim { s.goto t (resume q rest) with objs := Function.update s.objs c o } := by
    intro o q hq hno hio
    refine ninv_move h t (resume q rest) (Function.update s.objs c o) ?_ ?_ (chain_resume hch hq) ?_ ?_ ?_ ?_
    · intro c'
      rw [argIn_resume]
      by_cases hc' : c' = c
      · subst hc'; rw [hnone, Function.update_self]; exact hio
      · rw [hupd _ _ hc']
        have e : argIn c' rest = (fun u => argIn c' (s.stack u)) t := by simp [hst, argIn, Ne.symm hc']
        rw [e, Function.update_eq_self]
        exact h.objs c'
    · intro c' u hu
      by_cases hc' : c' = c
      · subst hc'; rw [Function.update_self]; exact hno u hu
      · rw [hupd _ _ hc']
    · intro a c' v' ha hk hp
      have : ∃ b ∈ rest, b.kind = a.kind ∧ b.code ≠ .protocol := by
        unfold resume at ha
        split at ha
        · rcases List.mem_cons.1 ha with rfl | ha
          · exact ⟨_, List.mem_cons_self, rfl, by simp⟩
          · exact ⟨a, by simp [ha], rfl, hp⟩
        · exact ⟨a, ha, rfl, hp⟩
      obtain ⟨b, hb, hbk, hbp⟩ := this
      obtain ⟨h1, h2⟩ := hneeds b c' v' hb (hbk.trans hk) hbp
      rw [hupd _ _ h1]; exact h2
    · intro j i; rw [hasTask_resume, hst, hasTask_cache]
    · intro j hj
      refine .inl (hasJoin_resume.2 ?_)
      rw [hst] at hj
      obtain ⟨a, ha, k, hk⟩ := hj
      rcases List.mem_cons.1 ha with rfl | ha
      · exact absurd hk (hcode j k)
      · exact ⟨a, ha, k, hk⟩
    · rw [clientOf_resume, hst]; rfl
  unfold runObj at hs
  split at hs <;> simp only [Option.some.injEq, reduceCtorEq] at hs
  · rename_i o hrun
    obtain ⟨h1, h2, h3⟩ := (hS.provides c).run _ _ t v r o _ (h.objs c) harg hr hrun
    subst hs
    rcases h3 with ⟨-, h3, -⟩ | ⟨x, h3, -⟩ | ⟨h3, -⟩ <;> try cases h3
    refine ninv_move h t (⟨.cache c v, .protocol⟩ :: rest) (Function.update s.objs c o) ?_ ?_ ?_ ?_ ?_ ?_ ?_
    · intro c'
      have e : argIn c' (⟨.cache c v, .protocol⟩ :: rest : List (Act C V T)) =
          (fun u => argIn c' (s.stack u)) t := by simp [hst, argIn]
      rw [e, Function.update_eq_self]
      by_cases hc' : c' = c
      · subst hc'; rw [Function.update_self]; exact h3
      · rw [hupd _ _ hc']; exact h.objs c'
    · intro c' u hu
      by_cases hc' : c' = c
      · subst hc'; rw [Function.update_self]; exact (h1 u hu).2
      · rw [hupd _ _ hc']
    · exact chain_code hch ⟨c, v, rfl⟩ (by simp)
    · intro a c' v' ha hk hp
      rcases List.mem_cons.1 ha with rfl | ha
      · simp at hp
      · exact hneeds' o a c' v' (.inr ha) hk hp
    · intro j i; rw [hst, hasTask_cache, hasTask_cache]
    · intro j hj
      rw [hst] at hj
      obtain ⟨a, ha, k, hk⟩ := hj
      rcases List.mem_cons.1 ha with rfl | ha
      · exact absurd hk (hcode j k)
      · exact .inl ⟨a, by simp [ha], k, hk⟩
    · rw [hst]; rfl
  · rename_i o x hrun
    obtain ⟨h1, h2, h3⟩ := (hS.provides c).run _ _ t v r o _ (h.objs c) harg hr hrun
    subst hs
    rcases h3 with ⟨h3, -⟩ | ⟨x', h3, h4, h5⟩ | ⟨h3, -⟩ <;> try cases h3
    exact hpop o _ h4 (fun u hu => (h1 u hu).2) h5
  · rename_i o hrun
    obtain ⟨h1, h2, h3⟩ := (hS.provides c).run _ _ t v r o _ (h.objs c) harg hr hrun
    subst hs
    rcases h3 with ⟨h3, -⟩ | ⟨x, h3, -⟩ | ⟨-, h4, h5⟩ <;> try cases h3
    exact hpop o _ h4 (fun u hu => (h1 u hu).2) h5

end Slat.Nest
