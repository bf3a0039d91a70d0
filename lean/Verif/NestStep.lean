import Verif.NestInv

/-! Every step of nested caches keeps the invariant (helper file for `NestProps.lean`). -/

namespace Slat.Nest

open ParFor (Out)

variable {Tid C V T : Type} [DecidableEq Tid] [DecidableEq C] {sys : Sys Tid C V T} {S : Spec sys} {E E' : Env C V T}
  {lim : ℕ → ℕ} {s s' : St sys}

/-! ## Outcomes of pending activations -/

omit [DecidableEq Tid] [DecidableEq C] in
theorem chain_suffix {l1 l2 : List (Act C V T)} (h : Chain S E (l1 ++ l2)) : Chain S E l2 := by
  induction l1 with
  | nil => exact h
  | cons a l1 ih => exact ih h.2.2.2

omit [DecidableEq Tid] [DecidableEq C] in
theorem clientOf_suffix {l1 l2 : List (Act C V T)} (h : Chain S E (l1 ++ l2)) (hne : l2 ≠ []) :
    clientOf (l1 ++ l2) = clientOf l2 := by
  induction l1 with
  | nil => rfl
  | cons a l1 ih =>
    rw [← ih h.2.2.2]
    have hl := h.2.2.1
    show (match a.kind with | .client p => some p | _ => clientOf (l1 ++ l2)) = _
    split
    · rename_i p hk
      simp only [LinkOk, hk] at hl
      simp_all
    · rfl

omit [DecidableEq Tid] [DecidableEq C] in
theorem hasTask_suffix {l1 l2 : List (Act C V T)} {j i : ℕ} (h : HasTask j i l2) : HasTask j i (l1 ++ l2) := by
  obtain ⟨a, ha, hk⟩ := h
  exact ⟨a, by simp [ha], hk⟩

omit [DecidableEq Tid] [DecidableEq C] in
theorem chain_want {l : List (Act C V T)} (hc : Chain S E l)
    (ht : ∀ j i, HasTask j i l → eval S.F (E.ts j i) ≠ none) (hp : ∀ p, clientOf l = some p → eval S.F p ≠ none) :
    ∀ a ∈ l, want S E a.kind ≠ none := by
  induction l with
  | nil => simp
  | cons a rest ih =>
    have hl := hc.2.2.1
    have hrest : (∀ p, a.kind ≠ .client p) → ∀ b ∈ rest, want S E b.kind ≠ none := by
      intro hna
      refine ih hc.2.2.2 (fun j i h => ht j i (by obtain ⟨b, hb, hk⟩ := h; exact ⟨b, by simp [hb], hk⟩)) (fun p h => ?_)
      refine hp p ?_
      unfold clientOf
      split
      · rename_i q hk; exact absurd hk (hna q)
      · exact h
    intro b hb
    cases hk : a.kind with
    | client p =>
      simp only [LinkOk, hk] at hl
      subst hl
      simp only [List.mem_cons, List.not_mem_nil, or_false] at hb
      subst hb
      rw [hk]
      exact hp p (by simp [clientOf, hk])
    | task j i =>
      rcases List.mem_cons.1 hb with rfl | hb
      · rw [hk]; exact ht j i ⟨b, by simp, hk⟩
      · exact hrest (by simp [hk]) b hb
    | cache c v =>
      have hr := hrest (by simp [hk])
      rcases List.mem_cons.1 hb with rfl | hb
      · rw [hk]
        simp only [LinkOk, hk] at hl
        obtain ⟨d, rest', k, rfl, hd⟩ := hl
        have h1 := hr d (by simp)
        have h2 := hc.2.2.2.1
        rw [hd] at h2
        rw [← h2.2] at h1
        intro hn
        simp only [want] at hn
        simp [eval, hn] at h1
      · exact hr b hb

/-- Unless some client's query throws, nothing that is being executed throws. -/
theorem want_ok (h : NInv S lim s) (hgood : ∀ t p, pending t s.log = some p → eval S.F p ≠ none) (t : Tid) :
    ∀ a ∈ s.stack t, want S (env lim s) a.kind ≠ none := by
  have key : ∀ j i, (∃ t, HasTask j i (s.stack t)) → eval S.F ((s.jobs j).ts i) ≠ none := by
    intro j
    induction j using Nat.strong_induction_on with
    | _ j ih =>
      rintro i ⟨u, hu⟩
      obtain ⟨h1, h2, -, h4, -⟩ := h.tasks u j i hu
      obtain ⟨w, a, ha, k, hk⟩ := h.owner j i h1 h2 h4
      obtain ⟨l1, l2, he⟩ := List.append_of_mem ha
      have hc := h.chain w
      rw [he] at hc
      have hc' := chain_suffix hc
      have hfl := hc'.2.1 j k hk
      have hw : want S (env lim s) a.kind ≠ none := by
        refine chain_want hc' (fun j' i' ht => ?_) (fun p hp => ?_) a (by simp)
        · have := floor_bound hc' ht
          refine ih j' (by omega) i' ⟨w, ?_⟩
          rw [he]; exact hasTask_suffix ht
        · refine hgood w p ?_
          rw [← h.client w, he, clientOf_suffix hc (by simp)]
          exact hp
      have hcode := hc'.1
      rw [hk] at hcode
      obtain ⟨-, -, -, h5⟩ := hcode
      rw [← h5] at hw
      intro hn
      apply hw
      have e : collect (fun i => eval S.F ((env lim s).ts j i)) ((env lim s).n j) = none :=
        collect_none.2 ⟨i, h2, hn⟩
      simp only [after, e]
  refine chain_want (h.chain t) (fun j i ht => key j i ⟨t, ht⟩) (fun p hp => hgood t p ?_)
  rw [← h.client t]; exact hp

/-! ## The other steps -/

omit [DecidableEq Tid] [DecidableEq C] in
theorem bound_mono (h : E.Le E') {kd : Kind C V T} (hk : ∀ j i, kd = .task j i → j < E.next) :
    bound S E' kd = bound S E kd := by
  cases kd with
  | task j i => exact h.lim j (hk j i rfl)
  | _ => rfl

omit [DecidableEq Tid] [DecidableEq C] in
theorem want_mono (h : E.Le E') {kd : Kind C V T} (hk : ∀ j i, kd = .task j i → j < E.next) :
    want S E' kd = want S E kd := by
  cases kd with
  | task j i => simp only [want, h.ts j (hk j i rfl)]
  | _ => rfl

omit [DecidableEq Tid] [DecidableEq C] in
theorem floor_le {l : List (Act C V T)} (hc : Chain S E l) : floor l ≤ E.next := by
  induction l with
  | nil => exact Nat.zero_le _
  | cons a rest ih =>
    have hl := hc.2.2.1
    unfold floor
    split
    · rename_i j i hk
      simp only [LinkOk, hk] at hl
      exact hl.1
    · exact ih hc.2.2.2

theorem ninv_start (hS : S.Ok) (h : NInv S lim s) (t : Tid) (p : Prog C V T) (hst : s.stack t = []) :
    NInv S lim { s.goto t [⟨.client p, .run p⟩] with log := .started t p :: s.log } := by
  have hnt : ∀ j i, ¬ HasTask j i ([⟨.client p, .run p⟩] : List (Act C V T)) := by
    intro j i; simp [HasTask]
  have htask : ∀ u j i, HasTask j i (Function.update s.stack t [⟨.client p, .run p⟩] u) ↔ HasTask j i (s.stack u) := by
    intro u j i
    by_cases hu : u = t
    · subst hu; rw [Function.update_self, hst]; simp [HasTask]
    · rw [Function.update_of_ne hu]
  have hpend : pending t s.log = none := by rw [← h.client t, hst]; rfl
  constructor
  · intro c
    simp only [St.goto]
    rw [argIn_update]
    have e : argIn c ([⟨.client p, .run p⟩] : List (Act C V T)) = (fun u => argIn c (s.stack u)) t := by
      simp [hst, argIn]
    rw [e, Function.update_eq_self]
    exact h.objs c
  · intro u
    show Chain S (env lim s) (Function.update s.stack t _ u)
    by_cases hu : u = t
    · subst hu
      rw [Function.update_self]
      exact ⟨⟨below_all hS.ranked p, rfl⟩, by simp, rfl, trivial⟩
    · rw [Function.update_of_ne hu]; exact h.chain u
  · intro u a c v ha hk hp
    simp only [St.goto] at ha ⊢
    by_cases hu : u = t
    · subst hu
      rw [Function.update_self] at ha
      simp only [List.mem_cons, List.not_mem_nil, or_false] at ha
      subst ha
      cases hk
    · rw [Function.update_of_ne hu] at ha; exact h.needs u a c v ha hk hp
  · exact h.res
  · exact h.pool
  · exact h.progs
  · intro u j i hh
    have := h.tasks u j i ((htask u j i).1 hh)
    exact ⟨this.1, this.2.1, this.2.2.1, this.2.2.2.1, fun w hw => this.2.2.2.2 w ((htask w j i).1 hw)⟩
  · intro j i h1 h2
    rcases h.cover j i h1 h2 with h3 | h3 | ⟨u, h3⟩
    · exact .inl h3
    · exact .inr (.inl h3)
    · exact .inr (.inr ⟨u, (htask u j i).2 h3⟩)
  · intro j i h1 h2 h3
    obtain ⟨u, hu⟩ := h.owner j i h1 h2 h3
    refine ⟨u, ?_⟩
    have : u ≠ t := by
      rintro rfl
      rw [hst] at hu
      obtain ⟨a, ha, -⟩ := hu
      simp at ha
    simp only [St.goto]
    rw [Function.update_of_ne this]; exact hu
  · intro u
    simp only [St.goto, pending]
    by_cases hu : u = t
    · subst hu; rw [Function.update_self, if_pos rfl]; rfl
    · rw [Function.update_of_ne hu, if_neg (Ne.symm hu)]; exact h.client u
  · intro u q r l hl
    rcases List.suffix_cons_iff.1 hl with hl | hl
    · cases hl
    · exact h.answers u q r l hl
  · rcases h.bad with hb | ⟨hb, w, q, hq, hq'⟩
    · exact .inl hb
    · exact .inr ⟨hb, w, q, by simp [hq], hq'⟩

theorem ninv_clientRet (h : NInv S lim s) (t : Tid) (p : Prog C V T) (r : Option T) (rest : List (Act C V T))
    (hst : s.stack t = ⟨.client p, .run (.ret r)⟩ :: rest) :
    NInv S lim { s.goto t rest with log := .ended t p r :: s.log } := by
  have hch := h.chain t
  rw [hst] at hch
  have hrest : rest = [] := hch.2.2.1
  subst hrest
  have hr : r = eval S.F p := hch.1.2
  have htask : ∀ u j i, HasTask j i (Function.update s.stack t [] u) ↔ HasTask j i (s.stack u) := by
    intro u j i
    by_cases hu : u = t
    · subst hu; rw [Function.update_self, hst]; simp [HasTask]
    · rw [Function.update_of_ne hu]
  constructor
  · intro c
    simp only [St.goto]
    rw [argIn_update]
    have e : argIn c ([] : List (Act C V T)) = (fun u => argIn c (s.stack u)) t := by
      simp [hst, argIn]
    rw [e, Function.update_eq_self]
    exact h.objs c
  · intro u
    show Chain S (env lim s) (Function.update s.stack t _ u)
    by_cases hu : u = t
    · subst hu
      rw [Function.update_self]
      trivial
    · rw [Function.update_of_ne hu]; exact h.chain u
  · intro u a c v ha hk hp
    simp only [St.goto] at ha ⊢
    by_cases hu : u = t
    · subst hu
      rw [Function.update_self] at ha
      simp at ha
    · rw [Function.update_of_ne hu] at ha; exact h.needs u a c v ha hk hp
  · exact h.res
  · exact h.pool
  · exact h.progs
  · intro u j i hh
    have := h.tasks u j i ((htask u j i).1 hh)
    exact ⟨this.1, this.2.1, this.2.2.1, this.2.2.2.1, fun w hw => this.2.2.2.2 w ((htask w j i).1 hw)⟩
  · intro j i h1 h2
    rcases h.cover j i h1 h2 with h3 | h3 | ⟨u, h3⟩
    · exact .inl h3
    · exact .inr (.inl h3)
    · exact .inr (.inr ⟨u, (htask u j i).2 h3⟩)
  · intro j i h1 h2 h3
    obtain ⟨u, hu⟩ := h.owner j i h1 h2 h3
    refine ⟨u, ?_⟩
    have : u ≠ t := by
      rintro rfl
      rw [hst] at hu
      obtain ⟨a, ha, k, hk⟩ := hu
      simp only [List.mem_cons, List.not_mem_nil, or_false] at ha
      subst ha
      cases hk
    simp only [St.goto]
    rw [Function.update_of_ne this]; exact hu
  · intro u
    simp only [St.goto, pending]
    by_cases hu : u = t
    · subst hu; rw [Function.update_self, if_pos rfl]; rfl
    · rw [Function.update_of_ne hu, if_neg (Ne.symm hu)]; exact h.client u
  · intro u q r' l hl
    rcases List.suffix_cons_iff.1 hl with hl | hl
    · cases hl
      refine ⟨?_, hr⟩
      rw [← h.client t, hst]; rfl
    · exact h.answers u q r' l hl
  · rcases h.bad with hb | ⟨hb, w, q, hq, hq'⟩
    · exact .inl hb
    · exact .inr ⟨hb, w, q, by simp [hq], hq'⟩

theorem ninv_take (h : NInv S lim s) (t : Tid) (j i : ℕ) (hj : j < s.nextJob) (hi : i ∈ (s.jobs j).pool)
    (ha : available (s.stack t) j = true) :
    NInv S lim { s.goto t (⟨.task j i, .run ((s.jobs j).ts i)⟩ :: s.stack t) with
        jobs := Function.update s.jobs j { s.jobs j with pool := (s.jobs j).pool.erase i } } := by
  obtain ⟨hin, hires⟩ := (h.pool j hj).2 i hi
  have hnd := (h.pool j hj).1
  have hno : ∀ u, ¬ HasTask j i (s.stack u) := fun u hu => (h.tasks u j i hu).2.2.1 hi
  have hjob : ∀ j', (Function.update s.jobs j { s.jobs j with pool := (s.jobs j).pool.erase i } j').n = (s.jobs j').n ∧
      (Function.update s.jobs j { s.jobs j with pool := (s.jobs j).pool.erase i } j').ts = (s.jobs j').ts ∧
      (Function.update s.jobs j { s.jobs j with pool := (s.jobs j).pool.erase i } j').res = (s.jobs j').res ∧
      ∀ i', i' ∈ (Function.update s.jobs j { s.jobs j with pool := (s.jobs j).pool.erase i } j').pool ↔
        i' ∈ (s.jobs j').pool ∧ ¬ (j' = j ∧ i' = i) := by
    intro j'
    by_cases hjj : j' = j
    · subst hjj
      rw [Function.update_self]
      refine ⟨rfl, rfl, rfl, fun i' => ?_⟩
      rw [hnd.mem_erase_iff]
      simp [and_comm]
    · rw [Function.update_of_ne hjj]; simp [hjj]
  have hle : (env lim s).Le (env lim { s.goto t (⟨.task j i, .run ((s.jobs j).ts i)⟩ :: s.stack t) with
        jobs := Function.update s.jobs j { s.jobs j with pool := (s.jobs j).pool.erase i } }) :=
    ⟨le_refl _, fun _ _ => rfl, fun j' _ => (hjob j').1, fun j' _ => (hjob j').2.1⟩
  have htask : ∀ u j' i', HasTask j' i' (Function.update s.stack t (⟨.task j i, .run ((s.jobs j).ts i)⟩ :: s.stack t) u) ↔
      HasTask j' i' (s.stack u) ∨ (u = t ∧ j' = j ∧ i' = i) := by
    intro u j' i'
    by_cases hu : u = t
    · subst hu
      rw [Function.update_self]
      simp only [HasTask, List.mem_cons]
      constructor
      · rintro ⟨b, rfl | hb, hk⟩
        · cases hk; exact .inr ⟨trivial, rfl, rfl⟩
        · exact .inl ⟨b, hb, hk⟩
      · rintro (⟨b, hb, hk⟩ | ⟨-, rfl, rfl⟩)
        · exact ⟨b, .inr hb, hk⟩
        · exact ⟨_, .inl rfl, rfl⟩
    · rw [Function.update_of_ne hu]; simp [hu]
  constructor
  · intro c
    simp only [St.goto]
    rw [argIn_update]
    have e : argIn c (⟨.task j i, .run ((s.jobs j).ts i)⟩ :: s.stack t) = (fun u => argIn c (s.stack u)) t := by
      simp [argIn]
    rw [e, Function.update_eq_self]
    exact h.objs c
  · intro u
    refine chain_mono hle ?_
    show Chain S (env lim s) (Function.update s.stack t _ u)
    by_cases hu : u = t
    · subst hu
      rw [Function.update_self]
      refine ⟨⟨h.progs j i hj hin, rfl⟩, by simp, ?_, h.chain u⟩
      refine ⟨hj, hin, ?_⟩
      unfold available at ha
      split at ha <;> rename_i hst
      · exact .inl hst
      · rename_i kd j' k rest
        simp only [decide_eq_true_eq] at ha
        subst ha
        exact .inr ⟨_, _, k, hst, rfl⟩
      · cases ha
    · rw [Function.update_of_ne hu]; exact h.chain u
  · intro u a c v ha hk hp
    simp only [St.goto] at ha ⊢
    by_cases hu : u = t
    · subst hu
      rw [Function.update_self] at ha
      rcases List.mem_cons.1 ha with rfl | ha
      · cases hk
      · exact h.needs u a c v ha hk hp
    · rw [Function.update_of_ne hu] at ha; exact h.needs u a c v ha hk hp
  · intro j' i' x h1 h2 h3
    dsimp only [St.goto] at h1 h2 h3 ⊢
    rw [(hjob j').1] at h2
    rw [(hjob j').2.2.1] at h3
    rw [(hjob j').2.1]
    exact h.res j' i' x h1 h2 h3
  · intro j' hj'
    dsimp only [St.goto] at hj' ⊢
    refine ⟨?_, fun i' hi' => ?_⟩
    · by_cases hjj : j' = j
      · subst hjj; rw [Function.update_self]; exact hnd.erase i
      · rw [Function.update_of_ne hjj]; exact (h.pool j' hj').1
    · rw [(hjob j').1, (hjob j').2.2.1]
      exact (h.pool j' hj').2 i' (((hjob j').2.2.2 i').1 hi').1
  · intro j' i' h1 h2
    dsimp only [St.goto] at h1 h2 ⊢
    rw [(hjob j').1] at h2
    rw [(hjob j').2.1]
    exact h.progs j' i' h1 h2
  · intro u j' i' hh
    dsimp only [St.goto] at hh ⊢
    rw [(hjob j').1, (hjob j').2.2.1, (hjob j').2.2.2 i']
    rcases (htask u j' i').1 hh with hh' | ⟨rfl, rfl, rfl⟩
    · have := h.tasks u j' i' hh'
      refine ⟨this.1, this.2.1, fun hc => this.2.2.1 hc.1, this.2.2.2.1, fun w hw => ?_⟩
      rcases (htask w j' i').1 hw with hw | ⟨rfl, rfl, rfl⟩
      · exact this.2.2.2.2 w hw
      · exact absurd hh' (hno u)
    · refine ⟨hj, hin, by simp, hires, fun w hw => ?_⟩
      rcases (htask w _ _).1 hw with hw | ⟨hw, -⟩
      · exact absurd hw (hno w)
      · exact hw
  · intro j' i' h1 h2
    dsimp only [St.goto] at h1 h2 ⊢
    rw [(hjob j').1] at h2
    rw [(hjob j').2.2.1, (hjob j').2.2.2 i']
    by_cases hji : j' = j ∧ i' = i
    · exact .inr (.inr ⟨t, (htask t j' i').2 (.inr ⟨rfl, hji⟩)⟩)
    · rcases h.cover j' i' h1 h2 with h3 | h3 | ⟨u, h3⟩
      · exact .inl ⟨h3, hji⟩
      · exact .inr (.inl h3)
      · exact .inr (.inr ⟨u, (htask u j' i').2 (.inl h3)⟩)
  · intro j' i' h1 h2 h3
    dsimp only [St.goto] at h1 h2 h3 ⊢
    rw [(hjob j').1] at h2
    rw [(hjob j').2.2.1] at h3
    obtain ⟨u, hu⟩ := h.owner j' i' h1 h2 h3
    refine ⟨u, ?_⟩
    by_cases hut : u = t
    · subst hut
      rw [Function.update_self]
      obtain ⟨a, ha, hk⟩ := hu
      exact ⟨a, by simp [ha], hk⟩
    · rw [Function.update_of_ne hut]; exact hu
  · intro u
    simp only [St.goto]
    by_cases hu : u = t
    · subst hu; rw [Function.update_self]; exact h.client u
    · rw [Function.update_of_ne hu]; exact h.client u
  · exact h.answers
  · exact h.bad

theorem ninv_taskRet (h : NInv S lim s) (t : Tid) (j i : ℕ) (x : T) (rest : List (Act C V T))
    (hst : s.stack t = ⟨.task j i, .run (.ret (some x))⟩ :: rest) :
    NInv S lim { s.goto t rest with
          jobs := Function.update s.jobs j { s.jobs j with res := Function.update (s.jobs j).res i (some x) } } := by
  have hch := h.chain t
  rw [hst] at hch
  have hx : some x = eval S.F ((s.jobs j).ts i) := hch.1.2
  have hthis : HasTask j i (s.stack t) := by rw [hst]; exact ⟨_, List.mem_cons_self, rfl⟩
  obtain ⟨hj, hin, hip, hires, huniq⟩ := h.tasks t j i hthis
  have hjob : ∀ j', (Function.update s.jobs j { s.jobs j with res := Function.update (s.jobs j).res i (some x) } j').n = (s.jobs j').n ∧
      (Function.update s.jobs j { s.jobs j with res := Function.update (s.jobs j).res i (some x) } j').ts = (s.jobs j').ts ∧
      (Function.update s.jobs j { s.jobs j with res := Function.update (s.jobs j).res i (some x) } j').pool = (s.jobs j').pool ∧
      ∀ i', (Function.update s.jobs j { s.jobs j with res := Function.update (s.jobs j).res i (some x) } j').res i' =
        if j' = j ∧ i' = i then some x else (s.jobs j').res i' := by
    intro j'
    by_cases hjj : j' = j
    · subst hjj
      rw [Function.update_self]
      refine ⟨rfl, rfl, rfl, fun i' => ?_⟩
      dsimp only
      by_cases hii : i' = i
      · subst hii; simp
      · simp [hii]
    · rw [Function.update_of_ne hjj]; simp [hjj]
  have hle : (env lim s).Le (env lim { s.goto t rest with
        jobs := Function.update s.jobs j { s.jobs j with res := Function.update (s.jobs j).res i (some x) } }) :=
    ⟨le_refl _, fun _ _ => rfl, fun j' _ => (hjob j').1, fun j' _ => (hjob j').2.1⟩
  have hnt : ∀ i', ¬ HasTask j i' rest := no_task_below hch
  have htask : ∀ u j' i', HasTask j' i' (Function.update s.stack t rest u) ↔
      HasTask j' i' (s.stack u) ∧ ¬ (j' = j ∧ i' = i) := by
    intro u j' i'
    by_cases hu : u = t
    · subst hu
      rw [Function.update_self, hst]
      constructor
      · intro hh
        refine ⟨?_, ?_⟩
        · obtain ⟨b, hb, hk⟩ := hh; exact ⟨b, by simp [hb], hk⟩
        · rintro ⟨rfl, -⟩; exact hnt i' hh
      · rintro ⟨⟨b, hb, hk⟩, hne⟩
        rcases List.mem_cons.1 hb with rfl | hb
        · cases hk; exact absurd ⟨rfl, rfl⟩ hne
        · exact ⟨b, hb, hk⟩
    · rw [Function.update_of_ne hu]
      refine ⟨fun hh => ⟨hh, ?_⟩, fun hh => hh.1⟩
      rintro ⟨rfl, rfl⟩
      exact hu (huniq u hh)
  constructor
  · intro c
    simp only [St.goto]
    rw [argIn_update]
    have e : argIn c rest = (fun u => argIn c (s.stack u)) t := by
      simp [hst, argIn]
    rw [e, Function.update_eq_self]
    exact h.objs c
  · intro u
    refine chain_mono hle ?_
    show Chain S (env lim s) (Function.update s.stack t _ u)
    by_cases hu : u = t
    · subst hu
      rw [Function.update_self]
      exact hch.2.2.2
    · rw [Function.update_of_ne hu]; exact h.chain u
  · intro u a c v ha hk hp
    simp only [St.goto] at ha ⊢
    by_cases hu : u = t
    · subst hu
      rw [Function.update_self] at ha
      exact h.needs u a c v (by simp [hst, ha]) hk hp
    · rw [Function.update_of_ne hu] at ha; exact h.needs u a c v ha hk hp
  · intro j' i' y h1 h2 h3
    dsimp only [St.goto] at h1 h2 h3 ⊢
    rw [(hjob j').1] at h2
    rw [(hjob j').2.2.2] at h3
    rw [(hjob j').2.1]
    split at h3
    · rename_i hji
      obtain ⟨rfl, rfl⟩ := hji
      cases h3
      exact hx.symm
    · exact h.res j' i' y h1 h2 h3
  · intro j' hj'
    dsimp only [St.goto] at hj' ⊢
    rw [(hjob j').2.2.1, (hjob j').1]
    refine ⟨(h.pool j' hj').1, fun i' hi' => ?_⟩
    obtain ⟨h1, h2⟩ := (h.pool j' hj').2 i' hi'
    refine ⟨h1, ?_⟩
    rw [(hjob j').2.2.2, if_neg]
    · exact h2
    · rintro ⟨rfl, rfl⟩; exact hip hi'
  · intro j' i' h1 h2
    dsimp only [St.goto] at h1 h2 ⊢
    rw [(hjob j').1] at h2
    rw [(hjob j').2.1]
    exact h.progs j' i' h1 h2
  · intro u j' i' hh
    dsimp only [St.goto] at hh ⊢
    rw [(hjob j').1, (hjob j').2.2.1, (hjob j').2.2.2 i']
    obtain ⟨hh, hne⟩ := (htask u j' i').1 hh
    have := h.tasks u j' i' hh
    refine ⟨this.1, this.2.1, this.2.2.1, ?_, fun w hw => this.2.2.2.2 w ((htask w j' i').1 hw).1⟩
    rw [if_neg hne]; exact this.2.2.2.1
  · intro j' i' h1 h2
    dsimp only [St.goto] at h1 h2 ⊢
    rw [(hjob j').1] at h2
    rw [(hjob j').2.2.1, (hjob j').2.2.2 i']
    by_cases hji : j' = j ∧ i' = i
    · exact .inr (.inl (by rw [if_pos hji]; simp))
    · rw [if_neg hji]
      rcases h.cover j' i' h1 h2 with h3 | h3 | ⟨u, h3⟩
      · exact .inl h3
      · exact .inr (.inl h3)
      · exact .inr (.inr ⟨u, (htask u j' i').2 ⟨h3, hji⟩⟩)
  · intro j' i' h1 h2 h3
    dsimp only [St.goto] at h1 h2 h3 ⊢
    rw [(hjob j').1] at h2
    rw [(hjob j').2.2.2] at h3
    split at h3
    · cases h3
    obtain ⟨u, hu⟩ := h.owner j' i' h1 h2 h3
    refine ⟨u, ?_⟩
    by_cases hut : u = t
    · subst hut
      rw [Function.update_self]
      rw [hst] at hu
      obtain ⟨a, ha, k, hk⟩ := hu
      rcases List.mem_cons.1 ha with rfl | ha
      · cases hk
      · exact ⟨a, ha, k, hk⟩
    · rw [Function.update_of_ne hut]; exact hu
  · intro u
    simp only [St.goto]
    by_cases hu : u = t
    · subst hu; rw [Function.update_self, ← h.client u, hst]; rfl
    · rw [Function.update_of_ne hu]; exact h.client u
  · exact h.answers
  · exact h.bad

theorem ninv_fork (h : NInv S lim s) (t : Tid) (kd : Kind C V T) (n : ℕ) (ts : ℕ → Prog C V T)
    (k : List T → Prog C V T) (rest : List (Act C V T)) (hst : s.stack t = ⟨kd, .run (.par n ts k)⟩ :: rest) :
    NInv S (Function.update lim s.nextJob (bound S (env lim s) kd))
      { s.goto t (⟨kd, .join s.nextJob k⟩ :: rest) with
      jobs := Function.update s.jobs s.nextJob ⟨n, ts, List.range n, fun _ => none⟩
      nextJob := s.nextJob + 1 } := by
  have hch := h.chain t
  rw [hst] at hch
  obtain ⟨⟨hbt, hbk⟩, hev⟩ := hch.1
  have hold : ∀ j, j < s.nextJob → Function.update s.jobs s.nextJob ⟨n, ts, List.range n, fun _ => none⟩ j = s.jobs j :=
    fun j hj => Function.update_of_ne (by omega) _ _
  have hlim : ∀ j, j < s.nextJob → Function.update lim s.nextJob (bound S (env lim s) kd) j = lim j :=
    fun j hj => Function.update_of_ne (by omega) _ _
  have hkd : ∀ j i, kd = .task j i → j < (env lim s).next := by
    intro j i hk
    have hl := hch.2.2.1
    simp only [LinkOk, hk] at hl
    exact hl.1
  have hle : (env lim s).Le (env (Function.update lim s.nextJob (bound S (env lim s) kd))
      { s.goto t (⟨kd, .join s.nextJob k⟩ :: rest) with
      jobs := Function.update s.jobs s.nextJob ⟨n, ts, List.range n, fun _ => none⟩
      nextJob := s.nextJob + 1 }) := by
    refine ⟨Nat.le_succ _, hlim, fun j hj => ?_, fun j hj => ?_⟩
    · show (Function.update s.jobs s.nextJob _ j).n = _
      rw [hold j hj]; rfl
    · show (Function.update s.jobs s.nextJob _ j).ts = _
      rw [hold j hj]; rfl
  have htask : ∀ u j i, HasTask j i (Function.update s.stack t (⟨kd, .join s.nextJob k⟩ :: rest) u) ↔
      HasTask j i (s.stack u) := by
    intro u j i
    by_cases hu : u = t
    · subst hu; rw [Function.update_self, hst]; exact hasTask_code
    · rw [Function.update_of_ne hu]
  have hcase : ∀ j, j < s.nextJob + 1 → j < s.nextJob ∨ j = s.nextJob := fun j hj => by omega
  constructor
  · intro c
    simp only [St.goto]
    rw [argIn_update]
    have e : argIn c (⟨kd, .join s.nextJob k⟩ :: rest) = (fun u => argIn c (s.stack u)) t := by
      simp only [hst]; rfl
    rw [e, Function.update_eq_self]
    exact h.objs c
  · intro u
    by_cases hu : u = t
    · subst hu
      show Chain S _ (Function.update s.stack u _ u)
      rw [Function.update_self]
      have hm := chain_mono hle hch
      refine chain_code hm ?_ ?_
      · refine ⟨Nat.lt_succ_self _, ?_, fun xs => ?_, ?_⟩
        · rw [bound_mono hle hkd]
          show Function.update lim s.nextJob _ s.nextJob ≤ _
          rw [Function.update_self]
        · rw [bound_mono hle hkd]; exact hbk xs
        · rw [want_mono hle hkd, ← hev]
          unfold after
          simp only [env, Function.update_self, eval]
          cases collect (fun i => eval S.F (ts i)) n <;> rfl
      · intro j k' he
        cases he
        exact floor_le hch
    · refine chain_mono hle ?_
      show Chain S (env lim s) (Function.update s.stack t _ u)
      rw [Function.update_of_ne hu]; exact h.chain u
  · intro u a c v ha hk hp
    simp only [St.goto] at ha ⊢
    by_cases hu : u = t
    · subst hu
      rw [Function.update_self] at ha
      rcases List.mem_cons.1 ha with rfl | ha
      · exact h.needs u ⟨kd, .run (.par n ts k)⟩ c v (by rw [hst]; exact List.mem_cons_self) hk (by simp)
      · exact h.needs u a c v (by simp [hst, ha]) hk hp
    · rw [Function.update_of_ne hu] at ha; exact h.needs u a c v ha hk hp
  · intro j i y h1 h2 h3
    dsimp only [St.goto] at h1 h2 h3 ⊢
    rcases hcase j h1 with hj | rfl
    · rw [hold j hj] at h2 h3 ⊢; exact h.res j i y hj h2 h3
    · rw [Function.update_self] at h3; cases h3
  · intro j h1
    dsimp only [St.goto] at h1 ⊢
    rcases hcase j h1 with hj | rfl
    · rw [hold j hj]; exact h.pool j hj
    · rw [Function.update_self]
      exact ⟨List.nodup_range, fun i hi => ⟨List.mem_range.1 hi, rfl⟩⟩
  · intro j i h1 h2
    dsimp only [St.goto] at h1 h2 ⊢
    rcases hcase j h1 with hj | rfl
    · rw [hold j hj] at h2 ⊢; rw [hlim j hj]; exact h.progs j i hj h2
    · rw [Function.update_self] at h2 ⊢
      rw [Function.update_self]
      exact hbt i h2
  · intro u j i hh
    dsimp only [St.goto] at hh ⊢
    obtain ⟨h1, h2, h3, h4, h5⟩ := h.tasks u j i ((htask u j i).1 hh)
    rw [hold j h1]
    exact ⟨by omega, h2, h3, h4, fun w hw => h5 w ((htask w j i).1 hw)⟩
  · intro j i h1 h2
    dsimp only [St.goto] at h1 h2 ⊢
    rcases hcase j h1 with hj | rfl
    · rw [hold j hj] at h2 ⊢
      rcases h.cover j i hj h2 with h3 | h3 | ⟨u, h3⟩
      · exact .inl h3
      · exact .inr (.inl h3)
      · exact .inr (.inr ⟨u, (htask u j i).2 h3⟩)
    · rw [Function.update_self] at h2 ⊢
      exact .inl (List.mem_range.2 h2)
  · intro j i h1 h2 h3
    dsimp only [St.goto] at h1 h2 h3 ⊢
    rcases hcase j h1 with hj | rfl
    · rw [hold j hj] at h2 h3
      obtain ⟨u, hu⟩ := h.owner j i hj h2 h3
      refine ⟨u, ?_⟩
      by_cases hut : u = t
      · subst hut
        rw [Function.update_self]
        rw [hst] at hu
        obtain ⟨a, ha, k', hk⟩ := hu
        rcases List.mem_cons.1 ha with rfl | ha
        · cases hk
        · exact ⟨a, by simp [ha], k', hk⟩
      · rw [Function.update_of_ne hut]; exact hu
    · exact ⟨t, by rw [Function.update_self]; exact ⟨_, List.mem_cons_self, k, rfl⟩⟩
  · intro u
    simp only [St.goto]
    by_cases hu : u = t
    · subst hu; rw [Function.update_self, ← h.client u, hst]; rfl
    · rw [Function.update_of_ne hu]; exact h.client u
  · exact h.answers
  · exact h.bad

/-- The invariant is kept. -/
theorem ninv_step (hS : S.Ok) (h : NInv S lim s) {l : Lbl Tid C V T} (hs : step s l = some s') :
    ∃ lim', NInv S lim' s' := by
  unfold step at hs
  split at hs
  · cases hs
  rename_i hbad
  cases l with
  | start t p =>
    dsimp only at hs
    split at hs <;> simp only [Option.some.injEq, reduceCtorEq] at hs
    rename_i hst
    subst hs
    exact ⟨lim, ninv_start hS h t p hst⟩
  | take t j i =>
    dsimp only at hs
    split at hs <;> simp only [Option.some.injEq, reduceCtorEq] at hs
    rename_i hh
    subst hs
    exact ⟨lim, ninv_take h t j i hh.1 hh.2.1 hh.2.2⟩
  | run t =>
    dsimp only at hs
    have hch := h.chain t
    unfold stepThread at hs
    split at hs
    · cases hs
    · rename_i kd rest hst
      rw [hst] at hch
      split at hs
      · rename_i c v
        split at hs
        · rename_i hneed
          simp only [Option.some.injEq] at hs
          subst hs
          refine ⟨lim, ninv_move' h t _ (fun c' => by rw [hst]; rfl) ?_ ?_ ?_ ?_ (by rw [hst]; rfl)⟩
          · refine chain_code hch ⟨hS.ranked.below c v, ?_⟩ (by simp)
            exact (den_eq hS.ranked c v).symm
          · intro a c' v' ha hk hp
            rcases List.mem_cons.1 ha with rfl | ha
            · cases hk; exact hneed
            · exact h.needs t a c' v' (by simp [hst, ha]) hk hp
          · intro j i; rw [hst]; exact hasTask_code
          · intro j hj
            rw [hst] at hj
            obtain ⟨a, ha, k, hk⟩ := hj
            rcases List.mem_cons.1 ha with rfl | ha
            · cases hk
            · exact .inl ⟨a, by simp [ha], k, hk⟩
        · rename_i hneed
          exact ⟨lim, ninv_runObj hS h t c v .protocol rest none hst (by simp) (fun hc => absurd hc hneed) hs⟩
      · cases hs
    · rename_i kd r rest hst
      rw [hst] at hch
      split at hs
      · rename_i p
        simp only [Option.some.injEq] at hs
        subst hs
        exact ⟨lim, ninv_clientRet h t p r rest hst⟩
      · rename_i c v
        exact ⟨lim, ninv_runObj hS h t c v _ rest r hst (by simp) (fun _ => hch.1.2) hs⟩
      · rename_i j i
        split at hs <;> simp only [Option.some.injEq] at hs <;> subst hs
        · rename_i x
          exact ⟨lim, ninv_taskRet h t j i x rest hst⟩
        · refine ⟨lim, ⟨h.objs, h.chain, h.needs, h.res, h.pool, h.progs, h.tasks, h.cover, h.owner, h.client,
            h.answers, .inr ⟨rfl, ?_⟩⟩⟩
          by_contra hno
          push Not at hno
          refine want_ok h (fun u p hp => hno u p (pending_started hp)) t ⟨.task j i, .run (.ret none)⟩
            (by rw [hst]; simp) ?_
          exact hch.1.2.symm
    · rename_i kd c v k rest hst
      rw [hst] at hch
      have hnone : (fun u => argIn c (s.stack u)) t = none := by
        simp only [hst]; exact argIn_call hch
      split at hs
      · rename_i o ho
        simp only [Option.some.injEq] at hs
        subst hs
        obtain ⟨h1, h2, h3⟩ := (hS.provides c).call _ _ t v o (h.objs c) ho
        have hupd : ∀ c', c' ≠ c → Function.update s.objs c o c' = s.objs c' :=
          fun c' hc' => Function.update_of_ne hc' _ _
        refine ⟨lim, ninv_move h t _ (Function.update s.objs c o) ?_ ?_ ?_ ?_ ?_ ?_ ?_⟩
        · intro c'
          by_cases hc' : c' = c
          · subst hc'
            rw [Function.update_self]
            have e : argIn c' (⟨.cache c' v, .protocol⟩ :: ⟨kd, .run (.call c' v k)⟩ :: rest) = some v := by
              simp [argIn]
            rw [e]; exact h1
          · rw [hupd c' hc']
            have e : argIn c' (⟨.cache c v, .protocol⟩ :: ⟨kd, .run (.call c v k)⟩ :: rest) =
                (fun u => argIn c' (s.stack u)) t := by
              simp only [hst]
              show (if c = c' then _ else argIn c' _) = _
              rw [if_neg (Ne.symm hc')]
            rw [e, Function.update_eq_self]
            exact h.objs c'
        · intro c' u hu
          by_cases hc' : c' = c
          · subst hc'; rw [Function.update_self]; exact (h3 u hu).2
          · rw [hupd c' hc']
        · exact ⟨⟨c, v, rfl⟩, by simp, ⟨_, _, k, rfl, rfl⟩, hch⟩
        · intro a c' v' ha hk hp
          rcases List.mem_cons.1 ha with rfl | ha
          · simp at hp
          · have hc' : c' ≠ c := by
              rintro rfl
              have h1' : S.rank c' < bound S (env lim s) kd := hch.1.1.1
              have h2' : bound S (env lim s) kd ≤ bound S (env lim s) a.kind := by
                rcases List.mem_cons.1 ha with rfl | ha
                · exact le_refl _
                · exact bound_le_all hch a ha
              rw [hk] at h2'
              have h3' : bound S (env lim s) (.cache c' v') = S.rank c' := rfl
              omega
            rw [hupd c' hc']
            exact h.needs t a c' v' (by rw [hst]; exact ha) hk hp
        · intro j i; rw [hst]; exact hasTask_cache
        · intro j hj
          rw [hst] at hj
          obtain ⟨a, ha, hk⟩ := hj
          exact .inl ⟨a, List.mem_cons_of_mem _ ha, hk⟩
        · rw [hst]; rfl
      · rename_i ho
        obtain ⟨o, ho'⟩ := (hS.provides c).callable _ _ t v (h.objs c) hnone
        rw [ho] at ho'; cases ho'
    · rename_i kd n ts k rest hst
      simp only [Option.some.injEq] at hs
      subst hs
      exact ⟨_, ninv_fork h t kd n ts k rest hst⟩
    · rename_i kd j k rest hst
      rw [hst] at hch
      split at hs <;> simp only [Option.some.injEq, reduceCtorEq] at hs
      rename_i xs hxs
      subst hs
      obtain ⟨hjn, -, hbk, haf⟩ := hch.1
      obtain ⟨hlen, hres⟩ := collect_some.1 hxs
      refine ⟨lim, ninv_move' h t _ (fun c' => by rw [hst]; rfl) ?_ ?_ ?_ ?_ (by rw [hst]; rfl)⟩
      · refine chain_code hch ⟨hbk xs, ?_⟩ (by simp)
        rw [← haf]
        have e : collect (fun i => eval S.F ((env lim s).ts j i)) ((env lim s).n j) = some xs := by
          refine collect_some.2 ⟨hlen, fun i hi => ?_⟩
          exact h.res j i _ hjn (by omega) (hres i hi)
        simp only [after, e]
      · intro a c' v' ha hk hp
        rcases List.mem_cons.1 ha with rfl | ha
        · exact h.needs t ⟨kd, .join j k⟩ c' v' (by rw [hst]; exact List.mem_cons_self) hk (by simp)
        · exact h.needs t a c' v' (by simp [hst, ha]) hk hp
      · intro j i; rw [hst]; exact hasTask_code
      · intro j' hj'
        rw [hst] at hj'
        obtain ⟨a, ha, k', hk⟩ := hj'
        rcases List.mem_cons.1 ha with rfl | ha
        · cases hk
          exact .inr fun i hi => by rw [hres i (by omega)]; simp
        · exact .inl ⟨a, by simp [ha], k', hk⟩

theorem ninv_exec (hS : S.Ok) {ls : List (Lbl Tid C V T)} (he : Exec s ls s') (h : ∃ lim, NInv S lim s) :
    ∃ lim, NInv S lim s' := by
  induction he with
  | nil => exact h
  | cons hs _ ih =>
    obtain ⟨lim, h⟩ := h
    exact ih (ninv_step hS h hs)

theorem ninv_init (o : ∀ c, (sys.obj c).St) (ho : ∀ c, S.Inv c (fun _ => none) (o c)) (lim : ℕ → ℕ) :
    NInv S lim (init sys o) := by
  constructor <;> simp [init, argIn, Chain, HasTask, HasJoin, clientOf, pending, ho]

end Slat.Nest
