import Verif.NestStep
import Mathlib.Algebra.BigOperators.Group.Finset.Basic
import Mathlib.Algebra.Order.BigOperators.Group.List
import Mathlib.Data.Fintype.BigOperators
import Mathlib.Tactic.Linarith

/-! Nested caches do not block each other and come to an end (helper file for `NestProps.lean`). -/

namespace Slat.Nest

open ParFor (Out)

variable {Tid C V T : Type} [DecidableEq Tid] [DecidableEq C] {sys : Sys Tid C V T} {S : Spec sys} {E E' : Env C V T}
  {lim : ℕ → ℕ} {s s' : St sys}

/-! ## Progress -/

/-- Ordering of blocked threads. -/
def topM (S : Spec sys) (E : Env C V T) (a : Act C V T) : ℕ :=
  match a.code with
  | .join j _ => 2 * bound S E a.kind * (E.next + 1) + (E.next - j)
  | _ => (2 * bound S E a.kind + 1) * (E.next + 1)

omit [DecidableEq Tid] [DecidableEq C] in
theorem topM_join (S : Spec sys) (E : Env C V T) (kd : Kind C V T) (j : ℕ) (k : List T → Prog C V T) :
    topM S E ⟨kd, .join j k⟩ = 2 * bound S E kd * (E.next + 1) + (E.next - j) := rfl

omit [DecidableEq Tid] [DecidableEq C] in
theorem topM_protocol (S : Spec sys) (E : Env C V T) (kd : Kind C V T) :
    topM S E ⟨kd, .protocol⟩ = (2 * bound S E kd + 1) * (E.next + 1) := rfl

omit [DecidableEq Tid] [DecidableEq C] in
theorem topM_join_le (S : Spec sys) (E : Env C V T) (kd : Kind C V T) (j : ℕ) (k : List T → Prog C V T) {b : ℕ}
    (h : bound S E kd ≤ b) : topM S E ⟨kd, .join j k⟩ < (2 * b + 1) * (E.next + 1) := by
  rw [topM_join]
  have := Nat.mul_le_mul_right (E.next + 1) (Nat.mul_le_mul_left 2 h)
  have e : (2 * b + 1) * (E.next + 1) = 2 * b * (E.next + 1) + (E.next + 1) := by ring
  omega

/-- A thread that is executing its own code can go on. -/
theorem run_enabled (hS : S.Ok) (h : NInv S lim s) {t : Tid} {kd : Kind C V T} {p : Prog C V T}
    {rest : List (Act C V T)} (hst : s.stack t = ⟨kd, .run p⟩ :: rest) : ∃ s', stepThread s t = some s' := by
  unfold stepThread
  rw [hst]
  cases p with
  | call c v k =>
    dsimp only
    cases (sys.obj c).call (s.objs c) t v with
    | some o => exact ⟨_, rfl⟩
    | none => exact ⟨_, rfl⟩
  | par n ts k => exact ⟨_, rfl⟩
  | ret r =>
    cases kd with
    | client p => exact ⟨_, rfl⟩
    | task j i => cases r <;> exact ⟨_, rfl⟩
    | cache c v =>
      have hn := h.needs t ⟨.cache c v, .run (.ret r)⟩ c v (by rw [hst]; simp) rfl (by simp)
      obtain ⟨⟨o, x⟩, hx⟩ := (hS.provides c).enabled _ _ t v r (h.objs c) (by simp [hst, argIn]) hn
      dsimp only
      unfold runObj
      rw [hx]
      cases x <;> exact ⟨_, rfl⟩

/-- The innermost activation of a blocked thread, compared with one further out. -/
theorem top_below {a b : Act C V T} {rest : List (Act C V T)} (hc : Chain S E (a :: rest)) (hb : b ∈ rest) :
    bound S E a.kind ≤ bound S E b.kind ∧ (a.code = .protocol → bound S E a.kind < bound S E b.kind) := by
  refine ⟨bound_le_all hc b hb, fun hp => ?_⟩
  have h1 := hc.1
  rw [hp] at h1
  obtain ⟨c, v, hk⟩ := h1
  cases rest with
  | nil => simp at hb
  | cons d rest =>
    have h2 := (bound_le_below hc).2 c v hk
    rcases List.mem_cons.1 hb with rfl | hb
    · exact h2
    · exact lt_of_lt_of_le h2 (bound_le_all hc.2.2.2 b hb)

omit [DecidableEq Tid] [DecidableEq C] in
/-- Only the innermost activation is executing statements of a cache. -/
theorem protocol_top {a b : Act C V T} {rest : List (Act C V T)} (hc : Chain S E (a :: rest)) (hb : b ∈ rest) :
    b.code ≠ .protocol := by
  induction rest generalizing a with
  | nil => simp at hb
  | cons d rest ih =>
    rcases List.mem_cons.1 hb with rfl | hb
    · have hl := hc.2.2.1
      unfold LinkOk at hl
      split at hl
      · cases hl
      · obtain ⟨d', r', k, he, hd⟩ := hl
        cases he
        rw [hd]; simp
      · obtain ⟨-, -, hl | ⟨d', r', k, he, hd⟩⟩ := hl
        · cases hl
        · cases he
          rw [hd]; simp
    · exact ih hc.2.2.2 hb

/-- As long as there is work, and no pending query throws, some thread can go on. -/
theorem progress (hS : S.Ok) (h : NInv S lim s) (hbad : s.bad = none)
    (hgood : ∀ t p, pending t s.log = some p → eval S.F p ≠ none) (hwork : ∃ t, s.stack t ≠ []) :
    ∃ l s', (∀ t p, l ≠ .start t p) ∧ step s l = some s' := by
  by_contra hno
  push Not at hno
  have hrun : ∀ t, stepThread s t = none := by
    intro t
    cases hc : stepThread s t with
    | none => rfl
    | some s' =>
      exact absurd (show step s (.run t) = some s' by simp [step, hbad, hc]) (hno (.run t) s' (by simp))
  have htake : ∀ t j i, j < s.nextJob → i ∈ (s.jobs j).pool → available (s.stack t) j = true → False := by
    intro t j i h1 h2 h3
    have hstep : step s (.take t j i) ≠ none := by
      simp only [step, hbad, Option.isSome_none, Bool.false_eq_true, if_false]
      rw [if_pos ⟨h1, h2, h3⟩]
      simp
    obtain ⟨s', hs'⟩ := Option.ne_none_iff_exists'.1 hstep
    exact hno _ s' (by simp) hs'
  have hshape : ∀ t a rest, s.stack t = a :: rest → ∀ p, a.code ≠ .run p := by
    intro t a rest hst p hp
    obtain ⟨kd, code⟩ := a
    dsimp only at hp
    subst hp
    obtain ⟨s', hs'⟩ := run_enabled hS h hst
    rw [hrun t] at hs'; cases hs'
  have key : ∀ m t a rest, s.stack t = a :: rest → topM S (env lim s) a = m → False := by
    intro m
    induction m using Nat.strong_induction_on with
    | _ m ih =>
      intro t a rest hst hm
      have hch := h.chain t
      rw [hst] at hch
      obtain ⟨kd, code⟩ := a
      cases code with
      | run p => exact hshape t _ rest hst p rfl
      | protocol =>
        obtain ⟨c, v, hkd⟩ := hch.1
        dsimp only at hkd
        subst hkd
        rw [topM_protocol] at hm
        have hb : bound S (env lim s) (.cache c v) = S.rank c := rfl
        rw [hb] at hm
        have harg : (fun u => argIn c (s.stack u)) t ≠ none := by simp [hst, argIn]
        obtain ⟨u, hu, hux⟩ := (hS.provides c).live _ _ t (h.objs c) (by
          intro u w hw
          obtain ⟨a, ha, hk⟩ := argIn_some hw
          have := want_ok h hgood u a ha
          rw [hk] at this
          exact this) harg
        obtain ⟨w, hw⟩ := Option.ne_none_iff_exists'.1 hu
        obtain ⟨b, hbm, hbk⟩ := argIn_some hw
        -- where is the call of `c` in the stack of `u`?
        cases hsu : s.stack u with
        | nil => rw [hsu] at hbm; simp at hbm
        | cons d rest' =>
          have hcu := h.chain u
          rw [hsu] at hcu hbm
          rcases List.mem_cons.1 hbm with rfl | hbm
          · obtain ⟨kb, cb⟩ := b
            dsimp only at hbk
            subst hbk
            cases cb with
            | run p => exact hshape u _ rest' hsu p rfl
            | join j k =>
              refine ih _ ?_ u _ rest' hsu rfl
              rw [← hm]
              exact topM_join_le S _ _ j k (le_of_eq rfl)
            | protocol =>
              have hst' := hrun u
              unfold stepThread at hst'
              rw [hsu] at hst'
              dsimp only at hst'
              split at hst'
              · cases hst'
              · rename_i hn
                rcases hux with hux | ⟨⟨o, x⟩, hux⟩
                · exact hn hux
                · unfold runObj at hst'
                  rw [hux] at hst'
                  cases x <;> cases hst'
          · have hnp := protocol_top hcu hbm
            have htb := top_below hcu hbm
            have hbb : bound S (env lim s) b.kind = S.rank c := by rw [hbk]; rfl
            rw [hbb] at htb
            obtain ⟨kd, cd⟩ := d
            cases cd with
            | run p => exact hshape u _ rest' hsu p rfl
            | join j k =>
              refine ih _ ?_ u _ rest' hsu rfl
              rw [← hm]
              exact topM_join_le S _ _ j k htb.1
            | protocol =>
              refine ih _ ?_ u _ rest' hsu rfl
              rw [← hm, topM_protocol]
              have := htb.2 rfl
              dsimp only at this
              exact Nat.mul_lt_mul_of_pos_right (by omega) (Nat.succ_pos _)
      | join j k =>
        obtain ⟨hjn, hlim, -, -⟩ := hch.1
        dsimp only at hlim
        rw [topM_join] at hm
        have hnone : (s.jobs j).results = none := by
          have hst' := hrun t
          unfold stepThread at hst'
          rw [hst] at hst'
          dsimp only at hst'
          split at hst'
          · cases hst'
          · assumption
        obtain ⟨i, hi, hres⟩ := collect_none.1 hnone
        rcases h.cover j i hjn hi with hp | hp | ⟨u, hu⟩
        · refine htake t j i hjn hp ?_
          rw [hst]; simp [available]
        · exact hp hres
        · obtain ⟨b, hbm, hbk⟩ := id hu
          cases hsu : s.stack u with
          | nil => rw [hsu] at hbm; simp at hbm
          | cons d rest' =>
            have hcu := h.chain u
            rw [hsu] at hcu hbm hu
            have hfl := floor_bound hcu hu
            have hbb : bound S (env lim s) b.kind = lim j := by rw [hbk]; rfl
            have hdb : bound S (env lim s) d.kind ≤ lim j ∧ (d.code = .protocol → bound S (env lim s) d.kind < lim j) := by
              rcases List.mem_cons.1 hbm with rfl | hbm
              · rw [hbb]
                refine ⟨le_refl _, fun hp => ?_⟩
                have := hcu.1
                rw [hp, hbk] at this
                obtain ⟨c, v, hk⟩ := this
                cases hk
              · rw [← hbb]; exact top_below hcu hbm
            obtain ⟨kd', cd⟩ := d
            dsimp only at hdb
            have hlim' : lim j ≤ bound S (env lim s) kd := hlim
            cases cd with
            | run p => exact hshape u _ rest' hsu p rfl
            | protocol =>
              refine ih _ ?_ u _ rest' hsu rfl
              rw [← hm, topM_protocol]
              have h1 := hdb.2 rfl
              have h2 : (2 * bound S (env lim s) kd' + 1 + 1) * ((env lim s).next + 1) ≤
                  2 * bound S (env lim s) kd * ((env lim s).next + 1) := Nat.mul_le_mul_right _ (by omega)
              have e : (2 * bound S (env lim s) kd' + 1 + 1) * ((env lim s).next + 1) =
                (2 * bound S (env lim s) kd' + 1) * ((env lim s).next + 1) + ((env lim s).next + 1) := by ring
              omega
            | join j' k' =>
              refine ih _ ?_ u _ rest' hsu rfl
              rw [← hm, topM_join]
              have h1 := hcu.2.1 j' k' rfl
              have h2 : j' < (env lim s).next := hcu.1.1
              have h3 := Nat.mul_le_mul_right ((env lim s).next + 1)
                (Nat.mul_le_mul_left 2 (hdb.1.trans hlim'))
              omega
  obtain ⟨t, ht⟩ := hwork
  cases hst : s.stack t with
  | nil => exact ht hst
  | cons a rest => exact key _ t a rest hst rfl

/-! ## Termination -/

/-- Step bounds of the caches. -/
def Spec.g (S : Spec sys) : C → V → ℕ := cost sys.body S.F S.B S.rank

/-- Steps left after a call of a cache. -/
def tailCall (S : Spec sys) (c : C) (v : V) (k : T → Prog C V T) : ℕ :=
  match S.F c v with
  | some x => pcost S.F S.g (k x)
  | none => 1

/-- Steps left after a region. -/
def tailJoin (S : Spec sys) (E : Env C V T) (j : ℕ) (k : List T → Prog C V T) : ℕ :=
  match collect (fun i => eval S.F (E.ts j i)) (E.n j) with
  | some xs => pcost S.F S.g (k xs)
  | none => 0

/-- Steps an activation has left, besides those inside the cache; `sus`: it is waiting for a cache. -/
def codeCost (S : Spec sys) (E : Env C V T) (settled sus : Bool) (kd : Kind C V T) : Code C V T → ℕ
  | .protocol => match kd with
    | .cache c v => if settled then 0 else 1 + pcost S.F S.g (sys.body c v)
    | _ => 0
  | .run p => match sus, p with
    | true, .call c v k => tailCall S c v k
    | _, p => pcost S.F S.g p
  | .join j k => 1 + tailJoin S E j k

/-- Steps an activation has left. -/
def actCost (S : Spec sys) (E : Env C V T) (P : C → Pos) (sus : Bool) (a : Act C V T) : ℕ :=
  match a.kind with
  | .cache c _ => (P c).rank + codeCost S E (P c).settled sus a.kind a.code
  | _ => codeCost S E false sus a.kind a.code

/-- Whether the activation below is waiting for a cache. -/
def isCall (a : Act C V T) : Bool :=
  match a.kind with
  | .cache _ _ => true
  | _ => false

/-- Steps a stack has left. -/
def stackCost (S : Spec sys) (E : Env C V T) (P : C → Pos) : Bool → List (Act C V T) → ℕ
  | _, [] => 0
  | sus, a :: l => actCost S E P sus a + stackCost S E P (isCall a) l

/-- Steps the blocks not started yet need. -/
def poolCost (S : Spec sys) (j : Job C V T) : ℕ := (j.pool.map fun i => 1 + pcost S.F S.g (j.ts i)).sum

/-- Steps left. -/
def pot [Fintype Tid] (S : Spec sys) (s : St sys) : ℕ :=
  ∑ t, stackCost S (env (fun _ => 0) s) (fun c => S.pos c (s.objs c) t) false (s.stack t) +
    ∑ j ∈ Finset.range s.nextJob, poolCost S (s.jobs j)

omit [DecidableEq Tid] [DecidableEq C] in
theorem codeCost_run (S : Spec sys) (E : Env C V T) (b : Bool) (kd : Kind C V T) (p : Prog C V T) :
    codeCost S E b false kd (.run p) = pcost S.F S.g p := by cases p <;> rfl

omit [DecidableEq Tid] [DecidableEq C] in
theorem pcost_call (S : Spec sys) (c : C) (v : V) (k : T → Prog C V T) :
    pcost S.F S.g (.call c v k) = 1 + S.g c v + tailCall S c v k := by
  simp only [pcost, tailCall]
  cases S.F c v <;> rfl

omit [DecidableEq Tid] [DecidableEq C] in
theorem pcost_par (S : Spec sys) (n : ℕ) (ts : ℕ → Prog C V T) (k : List T → Prog C V T) (E : Env C V T) (j : ℕ)
    (hn : E.n j = n) (hts : E.ts j = ts) :
    pcost S.F S.g (.par n ts k) = 2 + poolCost S ⟨n, ts, List.range n, fun _ => none⟩ + tailJoin S E j k := by
  subst hn hts
  simp only [pcost, tailJoin, poolCost]
  cases collect (fun i => eval S.F (E.ts j i)) (E.n j) <;> rfl

omit [DecidableEq Tid] [DecidableEq C] in
theorem pcost_pos (F : C → V → Option T) (g : C → V → ℕ) (p : Prog C V T) : 0 < pcost F g p := by
  cases p <;> simp only [pcost] <;> omega

theorem g_eq (hS : S.Ok) (c : C) (v : V) : S.g c v = S.B c + 1 + pcost S.F S.g (sys.body c v) :=
  cost_eq hS.ranked _ _ c v

omit [DecidableEq Tid] [DecidableEq C] in
/-- Costs do not depend on regions that are not waited for. -/
theorem stackCost_env {P : C → Pos} (hn : ∀ j, j < E.next → E'.n j = E.n j) (hts : ∀ j, j < E.next → E'.ts j = E.ts j)
    {E0 : Env C V T} (h0 : E0.next = E.next) {l : List (Act C V T)} (hc : Chain S E0 l) (b : Bool) :
    stackCost S E' P b l = stackCost S E P b l := by
  induction l generalizing b with
  | nil => rfl
  | cons a rest ih =>
    simp only [stackCost, ih hc.2.2.2]
    congr 1
    have : ∀ x, codeCost S E' x b a.kind a.code = codeCost S E x b a.kind a.code := by
      intro x
      have hcode := hc.1
      cases hk : a.code with
      | protocol => rfl
      | run p => rfl
      | join j k =>
        rw [hk] at hcode
        have hj : j < E.next := h0 ▸ hcode.1
        simp only [codeCost, tailJoin, hn j hj, hts j hj]
    unfold actCost
    split <;> simp only [this]

omit [DecidableEq Tid] [DecidableEq C] in
/-- Costs depend only on the caches being called. -/
theorem stackCost_pos {P P' : C → Pos} {l : List (Act C V T)} (h : ∀ a ∈ l, ∀ c v, a.kind = .cache c v → P' c = P c)
    (b : Bool) : stackCost S E P' b l = stackCost S E P b l := by
  induction l generalizing b with
  | nil => rfl
  | cons a rest ih =>
    simp only [stackCost, ih fun d hd => h d (by simp [hd])]
    congr 1
    unfold actCost
    split
    · rename_i c v hk
      rw [h a (by simp) c v hk]
    · rfl

/-- One thread gets on, possibly at the expense of the blocks not started yet. -/
theorem pot_lt [Fintype Tid] (h : NInv S lim s) (t : Tid)
    (hother : ∀ u, u ≠ t → s'.stack u = s.stack u ∧ ∀ c, S.pos c (s'.objs c) u = S.pos c (s.objs c) u)
    (hn : ∀ j, j < s.nextJob → (s'.jobs j).n = (s.jobs j).n) (hts : ∀ j, j < s.nextJob → (s'.jobs j).ts = (s.jobs j).ts)
    (hlt : stackCost S (env (fun _ => 0) s') (fun c => S.pos c (s'.objs c) t) false (s'.stack t) +
        ∑ j ∈ Finset.range s'.nextJob, poolCost S (s'.jobs j) <
      stackCost S (env (fun _ => 0) s) (fun c => S.pos c (s.objs c) t) false (s.stack t) +
        ∑ j ∈ Finset.range s.nextJob, poolCost S (s.jobs j)) : pot S s' < pot S s := by
  unfold pot
  rw [← Finset.add_sum_erase _ _ (Finset.mem_univ t), ← Finset.add_sum_erase (a := t) _ _ (Finset.mem_univ t)]
  have e : ∑ u ∈ Finset.univ.erase t,
      stackCost S (env (fun _ => 0) s') (fun c => S.pos c (s'.objs c) u) false (s'.stack u) =
      ∑ u ∈ Finset.univ.erase t,
      stackCost S (env (fun _ => 0) s) (fun c => S.pos c (s.objs c) u) false (s.stack u) := by
    refine Finset.sum_congr rfl fun u hu => ?_
    obtain ⟨h1, h2⟩ := hother u (Finset.ne_of_mem_erase hu)
    rw [h1, stackCost_env (E := env (fun _ => 0) s) (E' := env (fun _ => 0) s') (E0 := env lim s) hn hts rfl (h.chain u)]
    simp only [h2]
  rw [e]
  omega

theorem pot_runObj [Fintype Tid] (hS : S.Ok) (h : NInv S lim s) (t : Tid) (c : C) (v : V) (code : Code C V T)
    (rest : List (Act C V T)) (r : Option T) (hst : s.stack t = ⟨.cache c v, code⟩ :: rest)
    (hcode : code = .protocol ∧ (sys.obj c).needs (s.objs c) t = false ∨
      code = .run (.ret r) ∧ (sys.obj c).needs (s.objs c) t = true ∧ r = S.F c v)
    (hs : runObj s t c v rest r = some s') : pot S s' < pot S s := by
  have hch := h.chain t
  rw [hst] at hch
  have harg : (fun u => argIn c (s.stack u)) t = some v := by simp [hst, argIn]
  have hr : (sys.obj c).needs (s.objs c) t = true → r = S.F c v := by
    rcases hcode with ⟨-, hf⟩ | ⟨-, -, hr⟩
    · intro hc; rw [hf] at hc; cases hc
    · exact fun _ => hr
  have hlink := hch.2.2.1
  simp only [LinkOk] at hlink
  obtain ⟨⟨kd, cd⟩, rest', k, rfl, hd⟩ := hlink
  dsimp only at hd
  subst hd
  have hupd : ∀ (o : (sys.obj c).St) c', c' ≠ c → Function.update s.objs c o c' = s.objs c' :=
    fun o c' hc' => Function.update_of_ne hc' _ _
  have hnot : ∀ a ∈ (⟨kd, .run (.call c v k)⟩ :: rest' : List (Act C V T)), ∀ c' v', a.kind = .cache c' v' → c' ≠ c := by
    rintro a ha c' v' hk rfl
    have h1 := (bound_le_below hch).2 _ _ rfl
    have h2 : bound S (env lim s) kd ≤ bound S (env lim s) a.kind := by
      rcases List.mem_cons.1 ha with rfl | ha
      · exact le_refl _
      · exact bound_le_all hch.2.2.2 a ha
    rw [hk] at h2
    have h3 : bound S (env lim s) (.cache c' v') = S.rank c' := rfl
    have h4 : bound S (env lim s) (.cache c' v) = S.rank c' := rfl
    dsimp only at h1
    omega
  have hother : ∀ (o : (sys.obj c).St), (∀ u, u ≠ t → S.pos c o u = S.pos c (s.objs c) u ∧
      (sys.obj c).needs o u = (sys.obj c).needs (s.objs c) u) → ∀ l u, u ≠ t →
      (Function.update s.stack t l) u = s.stack u ∧
        ∀ c', S.pos c' (Function.update s.objs c o c') u = S.pos c' (s.objs c') u := by
    intro o ho l u hu
    refine ⟨Function.update_of_ne hu _ _, fun c' => ?_⟩
    by_cases hc' : c' = c
    · subst hc'; rw [Function.update_self]; exact (ho u hu).1
    · rw [hupd _ _ hc']
  have hrestpos : ∀ (o : (sys.obj c).St) b, stackCost S (env (fun _ => 0) s)
      (fun c' => S.pos c' (Function.update s.objs c o c') t) b (⟨kd, .run (.call c v k)⟩ :: rest') =
      stackCost S (env (fun _ => 0) s) (fun c' => S.pos c' (s.objs c') t) b (⟨kd, .run (.call c v k)⟩ :: rest') := by
    intro o b
    refine stackCost_pos (fun a ha c' v' hk => ?_) b
    rw [hupd _ _ (hnot a ha c' v' hk)]
  -- the caller goes on at the cost that had been reserved
  have hpop : ∀ (o : (sys.obj c).St) (q : Option T), S.F c v = q →
      (∀ u, u ≠ t → S.pos c o u = S.pos c (s.objs c) u ∧ (sys.obj c).needs o u = (sys.obj c).needs (s.objs c) u) →
      (S.pos c o t).rank < (S.pos c (s.objs c) t).rank →
      pot S { s.goto t (resume q (⟨kd, .run (.call c v k)⟩ :: rest')) with objs := Function.update s.objs c o } < pot S s := by
    intro o q hq ho hrk
    refine pot_lt h t (fun u hu => hother o ho _ u hu) (fun _ _ => rfl) (fun _ _ => rfl) ?_
    have h1 := hrestpos o true
    simp only [St.goto, Function.update_self, hst]
    have e1 : stackCost S (env (fun _ => 0) s) (fun c' => S.pos c' (Function.update s.objs c o c') t) false
        (resume q (⟨kd, .run (.call c v k)⟩ :: rest')) =
      stackCost S (env (fun _ => 0) s) (fun c' => S.pos c' (Function.update s.objs c o c') t) true
        (⟨kd, .run (.call c v k)⟩ :: rest') := by
      cases q with
      | none =>
        have hc : ∀ x, codeCost S (env (fun _ => 0) s) x false kd (.run (.ret none)) =
            codeCost S (env (fun _ => 0) s) x true kd (.run (.call c v k)) := by
          intro x
          simp only [codeCost, tailCall, hq, pcost]
        simp only [resume, stackCost, actCost, isCall]
        cases kd <;> simp only [hc]
      | some x =>
        have hc : ∀ y, codeCost S (env (fun _ => 0) s) y false kd (.run (k x)) =
            codeCost S (env (fun _ => 0) s) y true kd (.run (.call c v k)) := by
          intro y
          rw [codeCost_run]
          simp only [codeCost, tailCall, hq]
        simp only [resume, stackCost, actCost, isCall]
        cases kd <;> simp only [hc]
    have e2 : stackCost S (env (fun _ => 0) s) (fun c' => S.pos c' (s.objs c') t) false
        (⟨.cache c v, code⟩ :: ⟨kd, .run (.call c v k)⟩ :: rest') =
        ((S.pos c (s.objs c) t).rank + codeCost S (env (fun _ => 0) s) (S.pos c (s.objs c) t).settled false (.cache c v) code) +
        stackCost S (env (fun _ => 0) s) (fun c' => S.pos c' (s.objs c') t) true (⟨kd, .run (.call c v k)⟩ :: rest') := rfl
    have e3 : (env (fun _ => 0) { s.goto t (resume q (⟨kd, .run (.call c v k)⟩ :: rest')) with
        objs := Function.update s.objs c o } : Env C V T) = env (fun _ => 0) s := rfl
    show stackCost S (env (fun _ => 0) s) _ false _ + _ < _
    rw [e1, h1, e2]
    omega
  unfold runObj at hs
  split at hs <;> simp only [Option.some.injEq, reduceCtorEq] at hs
  · rename_i o hrun
    obtain ⟨h1, h2, h3⟩ := (hS.provides c).run _ _ t v r o _ (h.objs c) harg hr hrun
    subst hs
    rcases h3 with ⟨-, -, h3⟩ | ⟨x, h3, -⟩ | ⟨h3, -⟩ <;> try cases h3
    refine pot_lt h t (fun u hu => hother o h1 _ u hu) (fun _ _ => rfl) (fun _ _ => rfl) ?_
    simp only [St.goto, Function.update_self, hst]
    show stackCost S (env (fun _ => 0) s) _ false _ + _ < _
    have e1 : ∀ P cd, stackCost S (env (fun _ => 0) s) P false
        (⟨.cache c v, cd⟩ :: ⟨kd, .run (.call c v k)⟩ :: rest') =
        ((P c).rank + codeCost S (env (fun _ => 0) s) (P c).settled false (.cache c v) cd) +
        stackCost S (env (fun _ => 0) s) P true (⟨kd, .run (.call c v k)⟩ :: rest') := fun _ _ => rfl
    rw [e1, e1, hrestpos o true, Function.update_self]
    have hcc : codeCost S (env (fun _ => 0) s) (S.pos c o t).settled false (.cache c v) .protocol ≤
        codeCost S (env (fun _ => 0) s) (S.pos c (s.objs c) t).settled false (.cache c v) code := by
      rcases hcode with ⟨rfl, -⟩ | ⟨rfl, hn, -⟩
      · simp only [codeCost]
        cases hsd : (S.pos c (s.objs c) t).settled with
        | true => rw [h3 (.inl hsd)]
        | false => split <;> simp
      · simp only [codeCost]
        rw [h3 (.inr hn)]
        simp
    omega
  · rename_i o x hrun
    obtain ⟨h1, h2, h3⟩ := (hS.provides c).run _ _ t v r o _ (h.objs c) harg hr hrun
    subst hs
    rcases h3 with ⟨h3, -⟩ | ⟨x', h3, h4, h5⟩ | ⟨h3, -⟩ <;> try cases h3
    exact hpop o _ h4 h1 h2
  · rename_i o hrun
    obtain ⟨h1, h2, h3⟩ := (hS.provides c).run _ _ t v r o _ (h.objs c) harg hr hrun
    subst hs
    rcases h3 with ⟨h3, -⟩ | ⟨x', h3, -⟩ | ⟨-, h4, h5⟩ <;> try cases h3
    exact hpop o _ h4 h1 h2

omit [DecidableEq Tid] [DecidableEq C] in
theorem sum_map_erase {l : List ℕ} {i : ℕ} (f : ℕ → ℕ) (h : i ∈ l) :
    ((l.erase i).map f).sum + f i = (l.map f).sum := by
  have := (List.perm_cons_erase h).map f
  rw [this.sum_eq]
  simp [add_comm]

/-- Every step of a thread brings the end nearer. -/
theorem pot_step [Fintype Tid] (hS : S.Ok) (h : NInv S lim s) {l : Lbl Tid C V T} (hs : step s l = some s')
    (hbad : s'.bad = none) (hl : ∀ t p, l ≠ .start t p) : pot S s' < pot S s := by
  have same : ∀ t (lst : List (Act C V T)) u, u ≠ t → (Function.update s.stack t lst) u = s.stack u ∧
      ∀ c, S.pos c (s.objs c) u = S.pos c (s.objs c) u := fun t lst u hu => ⟨Function.update_of_ne hu _ _, fun _ => rfl⟩
  unfold step at hs
  split at hs
  · cases hs
  cases l with
  | start t p => exact absurd rfl (hl t p)
  | take t j i =>
    dsimp only at hs
    split at hs <;> simp only [Option.some.injEq, reduceCtorEq] at hs
    rename_i hh
    obtain ⟨hj, hi, hav⟩ := hh
    subst hs
    have hn : ∀ j', (Function.update s.jobs j { s.jobs j with pool := (s.jobs j).pool.erase i } j').n = (s.jobs j').n := by
      intro j'
      by_cases hjj : j' = j
      · subst hjj; rw [Function.update_self]
      · rw [Function.update_of_ne hjj]
    have hts : ∀ j', (Function.update s.jobs j { s.jobs j with pool := (s.jobs j).pool.erase i } j').ts = (s.jobs j').ts := by
      intro j'
      by_cases hjj : j' = j
      · subst hjj; rw [Function.update_self]
      · rw [Function.update_of_ne hjj]
    refine pot_lt h t (fun u hu => same t _ u hu) (fun j' _ => hn j') (fun j' _ => hts j') ?_
    simp only [St.goto, Function.update_self, stackCost, actCost, codeCost_run, isCall]
    rw [stackCost_env (E := env (fun _ => 0) s) (E0 := env lim s) (fun j' _ => hn j') (fun j' _ => hts j') rfl (h.chain t)]
    rw [← Finset.add_sum_erase _ _ (Finset.mem_range.2 hj), ← Finset.add_sum_erase (a := j) _ _ (Finset.mem_range.2 hj)]
    have e : ∑ x ∈ (Finset.range s.nextJob).erase j,
        poolCost S (Function.update s.jobs j { s.jobs j with pool := (s.jobs j).pool.erase i } x) =
        ∑ x ∈ (Finset.range s.nextJob).erase j, poolCost S (s.jobs x) := by
      refine Finset.sum_congr rfl fun x hx => ?_
      rw [Function.update_of_ne (Finset.ne_of_mem_erase hx)]
    rw [e, Function.update_self]
    have hp := sum_map_erase (fun i => 1 + pcost S.F S.g ((s.jobs j).ts i)) hi
    simp only [poolCost]
    try dsimp only at hp
    omega
  | run t =>
    dsimp only at hs
    have hch := h.chain t
    unfold stepThread at hs
    split at hs
    · cases hs
    · rename_i kd rest hst
      rw [hst] at hch
      split at hs
      · rename_i c v
        split at hs
        · rename_i hneed
          simp only [Option.some.injEq] at hs
          subst hs
          refine pot_lt h t (fun u hu => same t _ u hu) (fun _ _ => rfl) (fun _ _ => rfl) ?_
          have hset := (hS.provides c).settled _ _ t (h.objs c) hneed
          show stackCost S (env (fun _ => 0) s) _ false _ + _ < _
          simp only [St.goto, Function.update_self, hst, stackCost, actCost, codeCost_run, isCall, codeCost, hset]
          simp
        · rename_i hneed
          exact pot_runObj hS h t c v .protocol rest none hst (.inl ⟨rfl, by simpa using hneed⟩) hs
      · cases hs
    · rename_i kd r rest hst
      rw [hst] at hch
      split at hs
      · rename_i p
        simp only [Option.some.injEq] at hs
        subst hs
        refine pot_lt h t (fun u hu => same t _ u hu) (fun _ _ => rfl) (fun _ _ => rfl) ?_
        have hrest : rest = [] := hch.2.2.1
        subst hrest
        simp only [St.goto, Function.update_self, hst, stackCost, actCost, codeCost_run, pcost]
        omega
      · rename_i c v
        refine pot_runObj hS h t c v _ rest r hst (.inr ⟨rfl, ?_, hch.1.2⟩) hs
        exact h.needs t ⟨.cache c v, .run (.ret r)⟩ c v (by rw [hst]; simp) rfl (by simp)
      · rename_i j i
        split at hs <;> simp only [Option.some.injEq] at hs <;> subst hs
        · rename_i x
          have hn : ∀ j', (Function.update s.jobs j { s.jobs j with res := Function.update (s.jobs j).res i (some x) } j').n = (s.jobs j').n := by
            intro j'
            by_cases hjj : j' = j
            · subst hjj; rw [Function.update_self]
            · rw [Function.update_of_ne hjj]
          have hts : ∀ j', (Function.update s.jobs j { s.jobs j with res := Function.update (s.jobs j).res i (some x) } j').ts = (s.jobs j').ts := by
            intro j'
            by_cases hjj : j' = j
            · subst hjj; rw [Function.update_self]
            · rw [Function.update_of_ne hjj]
          have hpc : ∀ j', poolCost S (Function.update s.jobs j { s.jobs j with res := Function.update (s.jobs j).res i (some x) } j') = poolCost S (s.jobs j') := by
            intro j'
            by_cases hjj : j' = j
            · subst hjj; rw [Function.update_self]; rfl
            · rw [Function.update_of_ne hjj]
          refine pot_lt h t (fun u hu => same t _ u hu) (fun j' _ => hn j') (fun j' _ => hts j') ?_
          simp only [St.goto, Function.update_self, hst, hpc, stackCost, actCost, codeCost_run, pcost, isCall]
          rw [stackCost_env (E := env (fun _ => 0) s) (E0 := env lim s) (fun j' _ => hn j') (fun j' _ => hts j') rfl hch.2.2.2]
          omega
        · cases hbad
    · rename_i kd c v k rest hst
      rw [hst] at hch
      split at hs
      · rename_i o ho
        simp only [Option.some.injEq] at hs
        subst hs
        obtain ⟨h1, h2, h3⟩ := (hS.provides c).call _ _ t v o (h.objs c) ho
        have hupd : ∀ c', c' ≠ c → Function.update s.objs c o c' = s.objs c' :=
          fun c' hc' => Function.update_of_ne hc' _ _
        refine pot_lt h t (fun u hu => ⟨Function.update_of_ne hu _ _, fun c' => ?_⟩) (fun _ _ => rfl) (fun _ _ => rfl) ?_
        · dsimp only [St.goto]
          by_cases hc' : c' = c
          · subst hc'; rw [Function.update_self]; exact (h3 u hu).1
          · rw [hupd c' hc']
        · show stackCost S (env (fun _ => 0) s) _ false _ + _ < _
          have hnone := argIn_call hch
          have hnot : ∀ a ∈ (⟨kd, .run (.call c v k)⟩ :: rest : List (Act C V T)), ∀ c' v', a.kind = .cache c' v' →
              c' ≠ c := by
            rintro a ha c' v' hk rfl
            have h1' : S.rank c' < bound S (env lim s) kd := hch.1.1.1
            have h2' : bound S (env lim s) kd ≤ bound S (env lim s) a.kind := by
              rcases List.mem_cons.1 ha with rfl | ha
              · exact le_refl _
              · exact bound_le_all hch a ha
            rw [hk] at h2'
            have h3' : bound S (env lim s) (.cache c' v') = S.rank c' := rfl
            omega
          have e0 : ∀ b, stackCost S (env (fun _ => 0) s)
              (fun c' => S.pos c' (Function.update s.objs c o c') t) b (⟨kd, .run (.call c v k)⟩ :: rest) =
              stackCost S (env (fun _ => 0) s) (fun c' => S.pos c' (s.objs c') t) b (⟨kd, .run (.call c v k)⟩ :: rest) := by
            intro b
            refine stackCost_pos (fun a ha c' v' hk => ?_) b
            rw [hupd _ (hnot a ha c' v' hk)]
          have e1 : ∀ P, stackCost S (env (fun _ => 0) s) P false
              (⟨.cache c v, .protocol⟩ :: ⟨kd, .run (.call c v k)⟩ :: rest) =
              ((P c).rank + codeCost S (env (fun _ => 0) s) (P c).settled false (.cache c v) .protocol) +
              stackCost S (env (fun _ => 0) s) P true (⟨kd, .run (.call c v k)⟩ :: rest) := fun _ => rfl
          have e2 : ∀ P, stackCost S (env (fun _ => 0) s) P false (⟨kd, .run (.call c v k)⟩ :: rest) =
              1 + S.g c v + stackCost S (env (fun _ => 0) s) P true (⟨kd, .run (.call c v k)⟩ :: rest) := by
            intro P
            have hc : ∀ x, codeCost S (env (fun _ => 0) s) x false kd (.run (.call c v k)) =
                1 + S.g c v + codeCost S (env (fun _ => 0) s) x true kd (.run (.call c v k)) := by
              intro x
              rw [codeCost_run, pcost_call]
              rfl
            simp only [stackCost, actCost, isCall]
            cases kd <;> simp only [hc] <;> omega
          simp only [St.goto, Function.update_self]
          rw [e1, e0, hst, e2, Function.update_self]
          have h4 : codeCost S (env (fun _ => 0) s) (S.pos c o t).settled false (.cache c v) .protocol ≤
              1 + pcost S.F S.g (sys.body c v) := by
            simp only [codeCost]
            split <;> omega
          have h5 := g_eq hS c v
          omega
      · simp only [Option.some.injEq] at hs
        subst hs
        cases hbad
    · rename_i kd n ts k rest hst
      rw [hst] at hch
      simp only [Option.some.injEq] at hs
      subst hs
      have hold : ∀ j, j < s.nextJob → Function.update s.jobs s.nextJob ⟨n, ts, List.range n, fun _ => none⟩ j = s.jobs j :=
        fun j hj => Function.update_of_ne (by omega) _ _
      have hn : ∀ j, j < s.nextJob →
          (Function.update s.jobs s.nextJob ⟨n, ts, List.range n, fun _ => none⟩ j).n = (s.jobs j).n :=
        fun j hj => by rw [hold j hj]
      have hts : ∀ j, j < s.nextJob →
          (Function.update s.jobs s.nextJob ⟨n, ts, List.range n, fun _ => none⟩ j).ts = (s.jobs j).ts :=
        fun j hj => by rw [hold j hj]
      refine pot_lt h t (fun u hu => same t _ u hu) hn hts ?_
      simp only [St.goto, Function.update_self, hst, Finset.sum_range_succ]
      have e : ∑ x ∈ Finset.range s.nextJob,
          poolCost S (Function.update s.jobs s.nextJob ⟨n, ts, List.range n, fun _ => none⟩ x) =
          ∑ x ∈ Finset.range s.nextJob, poolCost S (s.jobs x) := by
        refine Finset.sum_congr rfl fun x hx => ?_
        rw [hold x (Finset.mem_range.1 hx)]
      rw [e]
      simp only [stackCost]
      have hE : isCall (⟨kd, .join s.nextJob k⟩ : Act C V T) = isCall (⟨kd, .run (.par n ts k)⟩ : Act C V T) := rfl
      have hrest : ∀ En : Env C V T, (∀ j, j < s.nextJob → En.n j = (s.jobs j).n) →
          (∀ j, j < s.nextJob → En.ts j = (s.jobs j).ts) → ∀ P b,
          stackCost S En P b rest = stackCost S (env (fun _ => 0) s) P b rest := by
        intro En h1 h2 P b
        exact stackCost_env (E := env (fun _ => 0) s) (E0 := env lim s) h1 h2 rfl hch.2.2.2 b
      have hrest' := hrest (env (fun _ => 0) { s.goto t (⟨kd, .join s.nextJob k⟩ :: rest) with
        jobs := Function.update s.jobs s.nextJob ⟨n, ts, List.range n, fun _ => none⟩
        nextJob := s.nextJob + 1 }) hn hts (fun c => S.pos c (s.objs c) t) (isCall ⟨kd, .run (.par n ts k)⟩)
      simp only [St.goto] at hrest'
      rw [hE]
      generalize hEn : (env (fun _ => 0) { s.goto t (⟨kd, .join s.nextJob k⟩ :: rest) with
        jobs := Function.update s.jobs s.nextJob ⟨n, ts, List.range n, fun _ => none⟩
        nextJob := s.nextJob + 1 } : Env C V T) = En
      have hp := pcost_par S n ts k En s.nextJob (by subst hEn; simp [env]) (by subst hEn; simp [env])
      have hc : ∀ x y, codeCost S En x false kd (.join s.nextJob k) + poolCost S ⟨n, ts, List.range n, fun _ => none⟩ + 1 =
          codeCost S (env (fun _ => 0) s) y false kd (.run (.par n ts k)) := by
        intro x y
        rw [codeCost_run, hp]
        simp only [codeCost]
        omega
      have ha : actCost S En (fun c => S.pos c (s.objs c) t) false ⟨kd, .join s.nextJob k⟩ +
          poolCost S ⟨n, ts, List.range n, fun _ => none⟩ + 1 =
          actCost S (env (fun _ => 0) s) (fun c => S.pos c (s.objs c) t) false ⟨kd, .run (.par n ts k)⟩ := by
        simp only [actCost]
        cases kd with
        | cache c v =>
          have := hc (S.pos c (s.objs c) t).settled (S.pos c (s.objs c) t).settled
          dsimp only
          omega
        | _ => exact hc false false
      subst hEn
      have ha' := ha
      simp only [St.goto] at ha'
      omega
    · rename_i kd j k rest hst
      rw [hst] at hch
      split at hs <;> simp only [Option.some.injEq, reduceCtorEq] at hs
      rename_i xs hxs
      subst hs
      refine pot_lt h t (fun u hu => same t _ u hu) (fun _ _ => rfl) (fun _ _ => rfl) ?_
      show stackCost S (env (fun _ => 0) s) _ false _ + _ < _
      obtain ⟨hjn, -, -, -⟩ := hch.1
      obtain ⟨hlen, hres⟩ := collect_some.1 hxs
      have e : collect (fun i => eval S.F ((env (fun _ => 0) s).ts j i)) ((env (fun _ => 0) s).n j) = some xs := by
        refine collect_some.2 ⟨hlen, fun i hi => ?_⟩
        exact h.res j i _ hjn (by omega) (hres i hi)
      have hc : ∀ x, codeCost S (env (fun _ => 0) s) x false kd (.run (k xs)) + 1 =
          codeCost S (env (fun _ => 0) s) x false kd (.join j k) := by
        intro x
        rw [codeCost_run]
        simp only [codeCost, tailJoin, e]
        omega
      simp only [St.goto, Function.update_self, hst, stackCost]
      have hE : isCall (⟨kd, .join j k⟩ : Act C V T) = isCall (⟨kd, .run (k xs)⟩ : Act C V T) := rfl
      rw [hE]
      have ha : actCost S (env (fun _ => 0) s) (fun c => S.pos c (s.objs c) t) false ⟨kd, .run (k xs)⟩ + 1 =
          actCost S (env (fun _ => 0) s) (fun c => S.pos c (s.objs c) t) false ⟨kd, .join j k⟩ := by
        simp only [actCost]
        cases kd with
        | cache c v =>
          have := hc (S.pos c (s.objs c) t).settled
          dsimp only
          omega
        | _ => exact hc false
      omega

/-- A new query adds its own cost. -/
theorem pot_start [Fintype Tid] {t : Tid} {p : Prog C V T} (hs : step s (.start t p) = some s') :
    pot S s' = pot S s + pcost S.F S.g p := by
  unfold step at hs
  split at hs
  · cases hs
  dsimp only at hs
  split at hs <;> simp only [Option.some.injEq, reduceCtorEq] at hs
  rename_i hst
  subst hs
  unfold pot
  rw [← Finset.add_sum_erase _ _ (Finset.mem_univ t), ← Finset.add_sum_erase (a := t) _ _ (Finset.mem_univ t)]
  have e : ∑ u ∈ Finset.univ.erase t, stackCost S (env (fun _ => 0) s) (fun c => S.pos c (s.objs c) u) false
        (Function.update s.stack t [⟨.client p, .run p⟩] u) =
      ∑ u ∈ Finset.univ.erase t, stackCost S (env (fun _ => 0) s) (fun c => S.pos c (s.objs c) u) false (s.stack u) := by
    refine Finset.sum_congr rfl fun u hu => ?_
    rw [Function.update_of_ne (Finset.ne_of_mem_erase hu)]
  show (stackCost S (env (fun _ => 0) s) (fun c => S.pos c (s.objs c) t) false
      (Function.update s.stack t [⟨.client p, .run p⟩] t) +
    ∑ u ∈ Finset.univ.erase t, stackCost S (env (fun _ => 0) s) (fun c => S.pos c (s.objs c) u) false
        (Function.update s.stack t [⟨.client p, .run p⟩] u)) + _ = _
  rw [e, Function.update_self, hst]
  simp only [stackCost, actCost, codeCost_run, St.goto]
  omega

/-- Steps made by threads. -/
def moves : List (Lbl Tid C V T) → ℕ
  | [] => 0
  | .start _ _ :: ls => moves ls
  | _ :: ls => moves ls + 1

/-- Total of `f` over the queries started. -/
def total (f : Prog C V T → ℕ) : List (Lbl Tid C V T) → ℕ
  | [] => 0
  | .start _ p :: ls => f p + total f ls
  | _ :: ls => total f ls

theorem bad_of_exec {ls : List (Lbl Tid C V T)} (he : Exec s ls s') (h : s'.bad = none) : s.bad = none := by
  induction he with
  | nil => exact h
  | cons hs _ ih =>
    unfold step at hs
    split at hs
    · cases hs
    · rename_i hb
      simpa using hb

theorem pot_exec [Fintype Tid] (hS : S.Ok) {ls : List (Lbl Tid C V T)} (he : Exec s ls s') (h : ∃ lim, NInv S lim s)
    (hbad : s'.bad = none) : pot S s' + moves ls ≤ pot S s + total (pcost S.F S.g) ls := by
  induction he with
  | nil => simp [moves, total]
  | cons hs hx ih =>
    rename_i l ls
    have ih' := ih (by obtain ⟨lim, h⟩ := h; exact ninv_step hS h hs) hbad
    have hb := bad_of_exec hx hbad
    obtain ⟨lim, h⟩ := h
    cases l with
    | start t p =>
      have := pot_start (S := S) hs
      simp only [moves, total]
      omega
    | run t =>
      have := pot_step hS h hs hb (by simp)
      simp only [moves, total]
      omega
    | take t j i =>
      have := pot_step hS h hs hb (by simp)
      simp only [moves, total]
      omega

end Slat.Nest
