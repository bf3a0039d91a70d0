import Verif.SessionSpec
import Verif.InterpProps
import Verif.OutputProps
import Verif.RecProps

/-!
# Helper lemmas for sessions
-/

namespace Slat.Session

noncomputable section

open Interp (Val Call Cmd Cfg Err)
open Output (Path Files)

variable {W : Type}

/-! ## Dictionaries -/

theorem dictSet_keys {V : Type} (d : List (String × V)) (k : String) (v : V) :
    (Rec.dictSet d k v).map Prod.fst =
      if k ∈ d.map Prod.fst then d.map Prod.fst else d.map Prod.fst ++ [k] := by
  induction d with
  | nil => simp [Rec.dictSet]
  | cons e d ih =>
    obtain ⟨k', v'⟩ := e
    rw [Rec.dictSet]
    by_cases h : k' = k
    · simp [h]
    · rw [if_neg h, List.map_cons, ih, List.map_cons]
      have h' : k ≠ k' := fun e => h e.symm
      by_cases hm : k ∈ d.map Prod.fst
      · rw [if_pos hm, if_pos (List.mem_cons_of_mem _ hm)]
      · rw [if_neg hm, if_neg (by simp only [List.mem_cons, not_or]; exact ⟨h', hm⟩)]
        rfl

theorem dictSet_nodup {V : Type} {d : List (String × V)} (h : (d.map Prod.fst).Nodup) (k : String)
    (v : V) : ((Rec.dictSet d k v).map Prod.fst).Nodup := by
  rw [dictSet_keys]
  split
  · exact h
  · next hk => exact List.nodup_append.2 ⟨h, by simp, by
      intro a ha b hb
      simp only [List.mem_singleton] at hb
      subst hb
      rintro rfl
      exact hk ha⟩

theorem dictSet_mem {V : Type} {d : List (String × V)} (h : (d.map Prod.fst).Nodup) (k : String)
    (v : V) (i : String) (u : V) :
    (i, u) ∈ Rec.dictSet d k v ↔ (i = k ∧ u = v) ∨ (i ≠ k ∧ (i, u) ∈ d) := by
  induction d with
  | nil => simp [Rec.dictSet]
  | cons e d ih =>
    obtain ⟨k', v'⟩ := e
    rw [List.map_cons, List.nodup_cons] at h
    rw [Rec.dictSet]
    by_cases hk : k' = k
    · subst hk
      rw [if_pos rfl]
      simp only [List.mem_cons, Prod.mk.injEq]
      constructor
      · rintro (h1 | h1)
        · exact Or.inl h1
        · refine Or.inr ⟨?_, Or.inr h1⟩
          rintro rfl
          exact h.1 (List.mem_map.2 ⟨_, h1, rfl⟩)
      · rintro (h1 | ⟨h1, h2 | h2⟩)
        · exact Or.inl h1
        · exact absurd h2.1 h1
        · exact Or.inr h2
    · rw [if_neg hk]
      simp only [List.mem_cons, Prod.mk.injEq, ih h.2]
      constructor
      · rintro (⟨rfl, rfl⟩ | h1 | ⟨h1, h2⟩)
        · exact Or.inr ⟨hk, Or.inl ⟨rfl, rfl⟩⟩
        · exact Or.inl h1
        · exact Or.inr ⟨h1, Or.inr h2⟩
      · rintro (h1 | ⟨h1, h2 | h2⟩)
        · exact Or.inr (Or.inl h1)
        · exact Or.inl h2
        · exact Or.inr (Or.inr ⟨h1, h2⟩)

/-! ## Which calls a command makes -/

theorem bind_okE {α β : Type} {x : Except Err α} {f : α → Except Err β} {b : β}
    (h : (x >>= f) = .ok b) : ∃ a, x = .ok a ∧ f a = .ok b := by
  cases x with
  | error e => cases h
  | ok a => exact ⟨a, rfl, h⟩

/-- Calls that are neither about recorders nor about directories. -/
def Plain : Call → Prop
  | .recorder .. => False
  | .outputdir _ => False
  | _ => True

theorem calls_plain {c : Cfg} {ρ : Interp.Vars} {t : List String} {m : Cmd} {k : List Call}
    (h : m.calls c ρ t = .ok k) (h1 : ∀ i b po, m ≠ .recorder i b po) (h2 : ∀ d, m ≠ .outputdir d) :
    ∀ x ∈ k, Plain x := by
  have one : ∀ {x : Call}, Plain x → (Except.ok [x] : Except Err (List Call)) = .ok k →
      ∀ y ∈ k, Plain y := by
    intro x hx e
    cases e
    simpa using hx
  cases m with
  | recorder i b po => exact absurd rfl (h1 i b po)
  | outputdir d => exact absurd rfl (h2 d)
  | title _ => cases h; simp
  | set i a =>
    cases a with
    | py e => obtain ⟨_, -, h⟩ := bind_okE h; cases h; simp
    | var e => cases h; simp
    | params e => cases h; simp
  | detfnHyperbolic id p q =>
    obtain ⟨_, -, h⟩ := bind_okE h
    obtain ⟨_, -, h⟩ := bind_okE h
    exact one (x := .detfn ..) trivial h
  | detfnPowerlaw id p => obtain ⟨_, -, h⟩ := bind_okE h; exact one (x := .detfn ..) trivial h
  | detfnLoglog id p => obtain ⟨_, -, h⟩ := bind_okE h; exact one (x := .detfn ..) trivial h
  | detfnLinear id p => obtain ⟨_, -, h⟩ := bind_okE h; exact one (x := .detfn ..) trivial h
  | probfn id mu sg o =>
    obtain ⟨_, -, h⟩ := bind_okE h
    obtain ⟨_, -, h⟩ := bind_okE h
    exact one (x := .probfn ..) trivial h
  | im => exact one (x := .im ..) trivial h
  | edp => exact one (x := .edp ..) trivial h
  | dist => obtain ⟨_, -, h⟩ := bind_okE h; exact one (x := .dist ..) trivial h
  | fragfnDb => exact one (x := .fragfnDb ..) trivial h
  | fragfnUser => obtain ⟨_, -, h⟩ := bind_okE h; exact one (x := .fragfnUser ..) trivial h
  | lossSimple => obtain ⟨_, -, h⟩ := bind_okE h; exact one (x := .simpleLoss ..) trivial h
  | lossBilevel => obtain ⟨_, -, h⟩ := bind_okE h; exact one (x := .bilevelLoss ..) trivial h
  | compgroup id e f k d n fl =>
    rcases fl with _ | ⟨x, _ | ⟨y, fl⟩⟩ <;> exact one (x := .compgroup ..) trivial h
  | structure_ id g =>
    cases h
    intro x hx
    rcases List.mem_cons.1 hx with rfl | hx
    · trivial
    · obtain ⟨g, -, rfl⟩ := List.mem_map.1 hx
      trivial
  | print w po => obtain ⟨_, -, h⟩ := bind_okE h; exact one (x := .print ..) trivial h
  | integration p it se =>
    obtain ⟨_, -, h⟩ := bind_okE h
    obtain ⟨_, -, h⟩ := bind_okE h
    rcases se with _ | ⟨m, a⟩
    · exact one (x := .integrationSettings ..) trivial h
    · obtain ⟨_, -, h⟩ := bind_okE h
      cases h
      simp [Plain]
  | analyze => exact one (x := .analyze) trivial h
  | importProbfn => exact one (x := .importProbfn ..) trivial h
  | importIm => exact one (x := .importIm ..) trivial h
  | log b f =>
    cases h
    intro x hx
    rcases List.mem_append.1 hx with hx | hx <;> obtain ⟨_, -, rfl⟩ := List.mem_map.1 hx <;> trivial
  | intstatsPrint => exact one (x := .printStatistics) trivial h
  | intstatsReset => exact one (x := .resetStatistics) trivial h
  | inputdir => exact one (x := .inputdir ..) trivial h

/-! ## Steps -/

theorem exec_plain {L : Lib W} {M : Machine} {σ σ' : State W} {x : Call} (hx : Plain x)
    (h : exec L M σ x = (σ', none)) : σ'.recs = σ.recs ∧ σ'.outDir = σ.outDir := by
  have lib : ∀ x, (match L.call σ.lib x with
      | .ok w => (({ σ with lib := w } : State W), (none : Option Stop))
      | .error e => (σ, some e)) = (σ', none) → σ'.recs = σ.recs ∧ σ'.outDir = σ.outDir := by
    intro x h
    split at h
    · cases h; exact ⟨rfl, rfl⟩
    · cases h
  cases x with
  | recorder => cases hx
  | outputdir => cases hx
  | analyze =>
    simp only [exec, analyze, Prod.mk.injEq] at h
    rw [← h.1]
    exact ⟨rfl, rfl⟩
  | print w f a =>
    simp only [exec, print] at h
    split at h
    · cases h; exact ⟨rfl, rfl⟩
    · split at h
      · cases h; exact ⟨rfl, rfl⟩
      · cases h
  | _ => exact lib _ h

theorem execAll_plain {L : Lib W} {M : Machine} {k : List Call} (hk : ∀ x ∈ k, Plain x)
    {σ σ' : State W} (h : execAll L M k σ = (σ', none)) :
    σ'.recs = σ.recs ∧ σ'.outDir = σ.outDir := by
  induction k generalizing σ with
  | nil => cases h; exact ⟨rfl, rfl⟩
  | cons x k ih =>
    rw [execAll] at h
    rcases he : exec L M σ x with ⟨σ₁, _ | e⟩
    · rw [he] at h
      obtain ⟨h1, h2⟩ := exec_plain (hk x (by simp)) he
      obtain ⟨h3, h4⟩ := ih (fun y hy => hk y (by simp [hy])) h
      exact ⟨h3.trans h1, h4.trans h2⟩
    · rw [he] at h; cases h

theorem record_ok {L : Lib W} {M : Machine} {σ σ' : State W} {rid type registry id : String}
    {o : Interp.ROpts} {cols at_ : Option Val}
    (h : record L M σ rid type registry id o cols at_ = .ok σ') :
    ∃ k cs as r, colsOf cols = .ok cs ∧ atsOf M at_ = .ok as ∧ kindOf type = some k ∧
      Rec.make k (seen L σ.lib (L.find σ.lib registry id)) (optsOf o) cs as = .ok r ∧
      σ' = { σ with
        recs := Rec.dictSet σ.recs rid
          (Held.mk r (L.find σ.lib registry id) (o.filename.map String.toList) o.append) } := by
  unfold record at h
  cases hc : colsOf cols with
  | error e => rw [hc] at h; cases h
  | ok cs =>
    cases ha : atsOf M at_ with
    | error e => rw [hc, ha] at h; cases h
    | ok as =>
      rw [hc, ha] at h
      simp only [bind, Except.bind] at h
      split at h
      · cases h
      · next k hk =>
        split at h
        · cases h
        · next r hr => exact ⟨k, cs, as, r, rfl, rfl, hk, hr, (Except.ok.inj h).symm⟩

theorem recorder_calls {c : Cfg} {ρ : Interp.Vars} {t : List String} {rid : String}
    {b : Interp.RecBody} {po : Option Interp.PrintOpts} {k : List Call}
    (h : (Cmd.recorder rid b po).calls c ρ t = .ok k) : ∃ cols at_, b.colsAt c ρ = .ok (cols, at_) ∧
      k = [.recorder rid b.type b.registry b.id (b.options po) cols at_] := by
  obtain ⟨⟨cols, at_⟩, h1, h2⟩ := bind_okE h
  cases h2
  exact ⟨cols, at_, h1, rfl⟩

/-- One command of a session that goes on. -/
theorem run_cons {L : Lib W} {M : Machine} {c : Cfg} {m : Cmd} {l : List Cmd} {s : Interp.St}
    {σ σ' : State W} (hm : m.sound = true) (hs : s.saved = [])
    (h : run L M c (m :: l) s σ = (σ', none)) :
    ∃ k s₁ σ₁, m.calls c s.vars s.titles = .ok k ∧ s₁.saved = [] ∧ execAll L M k σ = (σ₁, none) ∧
      run L M c l s₁ σ₁ = (σ', none) ∧ m.env c ⟨s.vars, s.titles⟩ = .ok ⟨s₁.vars, s₁.titles⟩ := by
  rw [run, Interp.command_means_partial c m hm { s with calls := [] } hs] at h
  cases hk : m.calls c s.vars s.titles with
  | error e =>
    simp only [hk, Interp.error_bind] at h
    cases h
  | ok k =>
    cases hE : m.env c ⟨s.vars, s.titles⟩ with
    | error e =>
      simp only [hk, Interp.ok_bind, Interp.St.env, hE, Interp.error_bind] at h
      cases h
    | ok E =>
      simp only [hk, Interp.ok_bind, Interp.St.env, hE, Interp.after, List.nil_append] at h
      rcases he : execAll L M k σ with ⟨σ₁, _ | e⟩
      · rw [he] at h
        exact ⟨k, { saved := s.saved, vars := E.vars, titles := E.titles, calls := k }, σ₁, rfl, hs, he, h,
          rfl⟩
      · rw [he] at h; cases h

/-- A session that goes on can be cut anywhere. -/
theorem run_append {L : Lib W} {M : Machine} {c : Cfg} {l₁ l₂ : List Cmd} {s : Interp.St}
    {σ σ' : State W} (hm : ∀ m ∈ l₁, m.sound = true) (hs : s.saved = [])
    (h : run L M c (l₁ ++ l₂) s σ = (σ', none)) :
    ∃ s₁ σ₁, s₁.saved = [] ∧ run L M c l₁ s σ = (σ₁, none) ∧ run L M c l₂ s₁ σ₁ = (σ', none) := by
  induction l₁ generalizing s σ with
  | nil => exact ⟨s, σ, hs, rfl, h⟩
  | cons m l₁ ih =>
    have hwm := Interp.command_means_partial c m (hm m (by simp)) { s with calls := [] } hs
    rw [List.cons_append, run] at h
    rcases hw : Interp.walkCommand c m { s with calls := [] } with e | s₀
    · rw [hw] at h; cases h
    · rw [hw] at h
      dsimp only at h
      rcases he : execAll L M s₀.calls σ with ⟨σ₀, _ | e⟩
      · rw [he] at h
        have hs₀ : s₀.saved = [] := by
          rw [hw] at hwm
          obtain ⟨k, -, h2⟩ := bind_okE hwm.symm
          obtain ⟨E, -, h3⟩ := bind_okE h2
          cases h3
          exact hs
        obtain ⟨s₁, σ₁, h1, h2, h3⟩ := ih (fun x hx => hm x (by simp [hx])) hs₀ h
        refine ⟨s₁, σ₁, h1, ?_, h3⟩
        rw [run, hw]
        dsimp only
        rw [he]
        exact h2
      · rw [he] at h; cases h

/-! ## Invariants -/

/-- What is known about the recorders after a list of commands. -/
structure Kept (l : List Cmd) (σ : State W) : Prop where
  nodup : (σ.recs.map Prod.fst).Nodup
  dir : σ.outDir = Spec.directory l
  files : ∀ i h, (i, h) ∈ σ.recs → ∀ p, h.file = some p →
    ∃ b po, Cmd.recorder i b (some po) ∈ l ∧ p = po.file.toList

theorem Kept.init (w : W) (fs : Files) : Kept [] (⟨w, [], none, fs⟩ : State W) :=
  ⟨by simp, rfl, by simp⟩

theorem directory_append (l : List Cmd) (m : Cmd) : Spec.directory (l ++ [m]) =
    match m with
    | .outputdir d => some d.toList
    | _ => Spec.directory l := by
  unfold Spec.directory
  rw [List.filterMap_append]
  cases m <;> simp

theorem Kept.step {L : Lib W} {M : Machine} {c : Cfg} {l : List Cmd} {m : Cmd} {ρ : Interp.Vars}
    {t : List String} {k : List Call} {σ σ' : State W} (h : Kept l σ) (hk : m.calls c ρ t = .ok k)
    (he : execAll L M k σ = (σ', none)) : Kept (l ++ [m]) σ' := by
  by_cases h1 : ∃ i b po, m = .recorder i b po
  · obtain ⟨i, b, po, rfl⟩ := h1
    obtain ⟨cols, at_, -, rfl⟩ := recorder_calls hk
    simp only [execAll, exec] at he
    cases hr : record L M σ i b.type b.registry b.id (b.options po) cols at_ with
    | error e => rw [hr] at he; cases he
    | ok σ₁ =>
      rw [hr] at he
      cases he
      obtain ⟨k, cs, as, r, -, -, -, -, rfl⟩ := record_ok hr
      refine ⟨dictSet_nodup h.nodup _ _, by rw [directory_append]; exact h.dir, ?_⟩
      intro j hj hm p hp
      rcases (dictSet_mem h.nodup _ _ _ _).1 hm with ⟨rfl, rfl⟩ | ⟨-, hm⟩
      · rcases po with _ | po
        · simp [Interp.RecBody.options] at hp
        · simp only [Interp.RecBody.options, Option.map_some, Option.some.injEq] at hp
          exact ⟨b, po, by simp, hp.symm⟩
      · obtain ⟨b', po', h1, h2⟩ := h.files j hj hm p hp
        exact ⟨b', po', by simp [h1], h2⟩
  · push Not at h1
    by_cases h2 : ∃ d, m = .outputdir d
    · obtain ⟨d, rfl⟩ := h2
      cases hk
      simp only [execAll, exec, Prod.mk.injEq, and_true] at he
      subst he
      refine ⟨h.nodup, by rw [directory_append], ?_⟩
      intro j hj hm p hp
      obtain ⟨b', po', h1, h2⟩ := h.files j hj hm p hp
      exact ⟨b', po', by simp [h1], h2⟩
    · push Not at h2
      obtain ⟨e1, e2⟩ := execAll_plain (calls_plain hk h1 h2) he
      refine ⟨by rw [e1]; exact h.nodup, ?_, ?_⟩
      · rw [e2, h.dir, directory_append]
        cases m with
        | outputdir d => exact absurd rfl (h2 d)
        | _ => rfl
      · intro j hj hm p hp
        rw [e1] at hm
        obtain ⟨b', po', h1, h2⟩ := h.files j hj hm p hp
        exact ⟨b', po', by simp [h1], h2⟩

theorem Kept.run {L : Lib W} {M : Machine} {c : Cfg} {l l' : List Cmd} {s : Interp.St}
    {σ σ' : State W} (h : Kept l σ) (hm : ∀ m ∈ l', m.sound = true) (hs : s.saved = [])
    (hr : run L M c l' s σ = (σ', none)) : Kept (l ++ l') σ' := by
  induction l' generalizing l s σ with
  | nil => cases hr; simpa using h
  | cons m l' ih =>
    obtain ⟨k, s₁, σ₁, h1, h2, h3, h4, -⟩ := run_cons (hm m (by simp)) hs hr
    have := ih (h.step h1 h3) (fun x hx => hm x (by simp [hx])) h2 h4
    simpa using this

/-- A recorder stays until a recorder of the same name is made. -/
theorem stays {L : Lib W} {M : Machine} {c : Cfg} {l l' : List Cmd} {s : Interp.St} {σ σ' : State W}
    (h : Kept l σ) (hm : ∀ m ∈ l', m.sound = true) (hs : s.saved = [])
    (hr : Session.run L M c l' s σ = (σ', none)) {rid : String} {held : Held}
    (hn : ∀ b po, Cmd.recorder rid b po ∉ l') (hh : (rid, held) ∈ σ.recs) : (rid, held) ∈ σ'.recs := by
  induction l' generalizing l s σ with
  | nil => cases hr; exact hh
  | cons m l' ih =>
    obtain ⟨k, s₁, σ₁, h1, h2, h3, h4, -⟩ := run_cons (hm m (by simp)) hs hr
    refine ih (h.step h1 h3) (fun x hx => hm x (by simp [hx])) h2 h4
      (fun b po hb => hn b po (by simp [hb])) ?_
    by_cases hc : ∃ i b po, m = .recorder i b po
    · obtain ⟨i, b, po, rfl⟩ := hc
      obtain ⟨cols, at_, -, rfl⟩ := recorder_calls h1
      simp only [execAll, exec] at h3
      cases hrec : record L M σ i b.type b.registry b.id (b.options po) cols at_ with
      | error e => rw [hrec] at h3; cases h3
      | ok σ₂ =>
        rw [hrec] at h3
        cases h3
        obtain ⟨k, cs, as, r, -, -, -, -, rfl⟩ := record_ok hrec
        refine (dictSet_mem h.nodup _ _ _ _).2 (Or.inr ⟨?_, hh⟩)
        rintro rfl
        exact hn b po (by simp)
    · push Not at hc
      by_cases h2 : ∃ d, m = .outputdir d
      · obtain ⟨d, rfl⟩ := h2
        cases h1
        simp only [execAll, exec, Prod.mk.injEq, and_true] at h3
        subst h3
        exact hh
      · push Not at h2
        rw [(execAll_plain (calls_plain h1 hc h2) h3).1]
        exact hh

/-! ## Files that are left alone -/

/-- Calls that do not write files. -/
def Silent : Call → Prop
  | .analyze => False
  | .print .. => False
  | _ => True

theorem calls_silent {c : Cfg} {ρ : Interp.Vars} {t : List String} {m : Cmd} {k : List Call}
    (h : m.calls c ρ t = .ok k) (h1 : m ≠ .analyze) (h2 : ∀ w po, m ≠ .print w po) :
    ∀ x ∈ k, Silent x := by
  have one : ∀ {x : Call}, Silent x → (Except.ok [x] : Except Err (List Call)) = .ok k →
      ∀ y ∈ k, Silent y := by
    intro x hx e
    cases e
    simpa using hx
  cases m with
  | analyze => exact absurd rfl h1
  | print w po => exact absurd rfl (h2 w po)
  | recorder i b po =>
    obtain ⟨cols, at_, -, rfl⟩ := recorder_calls h
    simp [Silent]
  | outputdir d => exact one (x := .outputdir _) trivial h
  | title _ => cases h; simp
  | set i a =>
    cases a with
    | py e => obtain ⟨_, -, h⟩ := bind_okE h; cases h; simp
    | var e => cases h; simp
    | params e => cases h; simp
  | detfnHyperbolic id p q =>
    obtain ⟨_, -, h⟩ := bind_okE h
    obtain ⟨_, -, h⟩ := bind_okE h
    exact one (x := .detfn ..) trivial h
  | detfnPowerlaw id p => obtain ⟨_, -, h⟩ := bind_okE h; exact one (x := .detfn ..) trivial h
  | detfnLoglog id p => obtain ⟨_, -, h⟩ := bind_okE h; exact one (x := .detfn ..) trivial h
  | detfnLinear id p => obtain ⟨_, -, h⟩ := bind_okE h; exact one (x := .detfn ..) trivial h
  | probfn id mu sg o =>
    obtain ⟨_, -, h⟩ := bind_okE h
    obtain ⟨_, -, h⟩ := bind_okE h
    exact one (x := .probfn ..) trivial h
  | im => exact one (x := .im ..) trivial h
  | edp => exact one (x := .edp ..) trivial h
  | dist => obtain ⟨_, -, h⟩ := bind_okE h; exact one (x := .dist ..) trivial h
  | fragfnDb => exact one (x := .fragfnDb ..) trivial h
  | fragfnUser => obtain ⟨_, -, h⟩ := bind_okE h; exact one (x := .fragfnUser ..) trivial h
  | lossSimple => obtain ⟨_, -, h⟩ := bind_okE h; exact one (x := .simpleLoss ..) trivial h
  | lossBilevel => obtain ⟨_, -, h⟩ := bind_okE h; exact one (x := .bilevelLoss ..) trivial h
  | compgroup id e f k d n fl =>
    rcases fl with _ | ⟨x, _ | ⟨y, fl⟩⟩ <;> exact one (x := .compgroup ..) trivial h
  | structure_ id g =>
    cases h
    intro x hx
    rcases List.mem_cons.1 hx with rfl | hx
    · trivial
    · obtain ⟨g, -, rfl⟩ := List.mem_map.1 hx
      trivial
  | integration p it se =>
    obtain ⟨_, -, h⟩ := bind_okE h
    obtain ⟨_, -, h⟩ := bind_okE h
    rcases se with _ | ⟨m, a⟩
    · exact one (x := .integrationSettings ..) trivial h
    · obtain ⟨_, -, h⟩ := bind_okE h
      cases h
      simp [Silent]
  | importProbfn => exact one (x := .importProbfn ..) trivial h
  | importIm => exact one (x := .importIm ..) trivial h
  | log b f =>
    cases h
    intro x hx
    rcases List.mem_append.1 hx with hx | hx <;> obtain ⟨_, -, rfl⟩ := List.mem_map.1 hx <;> trivial
  | intstatsPrint => exact one (x := .printStatistics) trivial h
  | intstatsReset => exact one (x := .resetStatistics) trivial h
  | inputdir => exact one (x := .inputdir ..) trivial h

theorem exec_silent {L : Lib W} {M : Machine} {σ σ' : State W} {x : Call} (hx : Silent x)
    (h : exec L M σ x = (σ', none)) : σ'.files = σ.files := by
  have lib : ∀ x, (match L.call σ.lib x with
      | .ok w => (({ σ with lib := w } : State W), (none : Option Stop))
      | .error e => (σ, some e)) = (σ', none) → σ'.files = σ.files := by
    intro x h
    split at h
    · cases h; rfl
    · cases h
  cases x with
  | analyze => cases hx
  | print => cases hx
  | outputdir => cases h; rfl
  | recorder i ty r id o cols at_ =>
    simp only [exec] at h
    cases hr : record L M σ i ty r id o cols at_ with
    | error e => rw [hr] at h; cases h
    | ok σ₁ =>
      rw [hr] at h
      cases h
      obtain ⟨k, cs, as, r, -, -, -, -, rfl⟩ := record_ok hr
      rfl
  | _ => exact lib _ h

theorem execAll_silent {L : Lib W} {M : Machine} {k : List Call} (hk : ∀ x ∈ k, Silent x)
    {σ σ' : State W} (h : execAll L M k σ = (σ', none)) : σ'.files = σ.files := by
  induction k generalizing σ with
  | nil => cases h; rfl
  | cons x k ih =>
    rw [execAll] at h
    rcases he : exec L M σ x with ⟨σ₁, _ | e⟩
    · rw [he] at h
      exact (ih (fun y hy => hk y (by simp [hy])) h).trans (exec_silent (hk x (by simp)) he)
    · rw [he] at h; cases h

theorem untouched {L : Lib W} {M : Machine} {c : Cfg} {l C : List Cmd} {s : Interp.St} {σ σ' : State W}
    (h : Kept l σ) (hm : ∀ m ∈ C, m.sound = true) (hs : s.saved = [])
    (hr : Session.run L M c C s σ = (σ', none)) {p : Path} (hu : Spec.Untouched p l C) :
    σ'.files p = σ.files p := by
  induction C generalizing l s σ with
  | nil => cases hr; rfl
  | cons m C ih =>
    obtain ⟨k, s₁, σ₁, h1, h2, h3, h4, -⟩ := run_cons (hm m (by simp)) hs hr
    rw [ih (h.step h1 h3) (fun x hx => hm x (by simp [hx])) h2 h4 hu.2]
    by_cases ha : m = .analyze
    · subst ha
      cases h1
      simp only [execAll, exec, analyze] at h3
      split at h3
      · next σ₂ e =>
        cases h3
        simp only [Prod.mk.injEq] at e
        rw [← e.1]
        refine Output.other_files_untouched _ _ _ _ ?_ _
        intro x hx hF
        obtain ⟨⟨i, hd⟩, hq, rfl⟩ := List.mem_map.1 hx
        obtain ⟨q, hq1, hq2⟩ := hF
        obtain ⟨b, po, hb, rfl⟩ := h.files i hd hq q hq1
        rw [h.dir] at hq2
        exact hu.1 i b po hb hq2
      · cases h3
    · by_cases hp : ∃ w po, m = .print w po
      · obtain ⟨w, po, rfl⟩ := hp
        obtain ⟨o, -, h1⟩ := bind_okE h1
        cases h1
        cases po with
        | none =>
          simp only [execAll, exec, print, Option.map_none] at h3
          cases h3
          rfl
        | some po =>
          simp only [execAll, exec, print, Option.map_some] at h3
          split at h3
          · next σ₂ e =>
            cases h3
            split at e
            · cases e
              exact Function.update_of_ne (fun e => hu.1 e.symm) _ _
            · cases e
          · cases h3
      · push Not at hp
        rw [execAll_silent (calls_silent h1 ha hp) h3]

end

end Slat.Session
