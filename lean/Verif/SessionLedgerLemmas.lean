import Verif.SessionLedgerSpec
import Verif.SessionProps

/-!
# Helper lemmas: every file of a session
-/

namespace Slat.Session

noncomputable section

open Interp (Val Call Cmd Cfg Err)
open Output (Path Files)

variable {W : Type} {L : Lib W} {M : Machine} {c : Cfg}

theorem ledger_snoc (table : List Cmd → String → List String) (text : List Cmd → Interp.PrintWhat → String) (p : Path)
    (C : List Cmd) (m : Cmd) : ∀ (l : List Cmd) (old : Option (List String)),
    Spec.ledger table text p l old (C ++ [m]) = Spec.entry table text p (l ++ C) (Spec.ledger table text p l old C) m := by
  induction C with
  | nil => intro l old; simp [Spec.ledger]
  | cons a C ih => intro l old; simp [Spec.ledger, ih]

/-- A session that goes on can be cut anywhere; variables and titles are those of the first part. -/
theorem run_cut {l₁ l₂ : List Cmd} {s : Interp.St} {σ σ' : State W} (hm : ∀ m ∈ l₁, m.sound = true) (hs : s.saved = [])
    (h : run L M c (l₁ ++ l₂) s σ = (σ', none)) :
    ∃ s₁ σ₁, s₁.saved = [] ∧ run L M c l₁ s σ = (σ₁, none) ∧ run L M c l₂ s₁ σ₁ = (σ', none) ∧
      l₁.foldlM (fun E m => m.env c E) (⟨s.vars, s.titles⟩ : Interp.Env) = .ok ⟨s₁.vars, s₁.titles⟩ := by
  induction l₁ generalizing s σ with
  | nil => exact ⟨s, σ, hs, rfl, h, rfl⟩
  | cons m l₁ ih =>
    have hwm := Interp.command_means_partial c m (hm m (by simp)) { s with calls := [] } hs
    rw [List.cons_append, run] at h
    rcases hw : Interp.walkCommand c m { s with calls := [] } with e | s₀
    · rw [hw] at h; cases h
    · rw [hw] at h
      dsimp only at h
      rcases he : execAll L M s₀.calls σ with ⟨σ₀, _ | e⟩
      · rw [he] at h
        have hs₀ : s₀.saved = [] ∧ m.env c ⟨s.vars, s.titles⟩ = .ok ⟨s₀.vars, s₀.titles⟩ := by
          rw [hw] at hwm
          obtain ⟨k, -, h2⟩ := bind_okE hwm.symm
          obtain ⟨E, hE, h3⟩ := bind_okE h2
          cases h3
          exact ⟨hs, hE⟩
        obtain ⟨s₁, σ₁, h1, h2, h3, h4⟩ := ih (fun x hx => hm x (by simp [hx])) hs₀.1 h
        refine ⟨s₁, σ₁, h1, ?_, h3, ?_⟩
        · rw [run, hw]
          dsimp only
          rw [he]
          exact h2
        · rw [List.foldlM_cons, hs₀.2]
          exact h4
      · rw [he] at h; cases h

theorem names_snoc (l : List Cmd) (m : Cmd) : Spec.names (l ++ [m]) = match m with
    | .recorder i _ _ => if i ∈ Spec.names l then Spec.names l else Spec.names l ++ [i]
    | _ => Spec.names l := by
  unfold Spec.names
  rw [List.filterMap_append]
  cases m <;> simp [List.eraseDups_append, List.removeAll]
  split
  · next h => simp_all
  · next h =>
    rw [List.filter_cons_of_pos (by simpa using h)]
    simp [List.eraseDups_cons]

theorem home_snoc (i : String) (l : List Cmd) (m : Cmd) : Spec.home i (l ++ [m]) = match m with
    | .recorder j _ po => if j = i then po else Spec.home i l
    | _ => Spec.home i l := by
  unfold Spec.home
  rw [List.filterMap_append]
  cases m <;> simp
  split <;> simp

/-- What is known of a recorder that is kept. -/
def Entered (L : Lib W) (M : Machine) (c : Cfg) (w : W) (fs : Files) (l : List Cmd) (i : String) (h : Held) : Prop :=
  ∃ (A B : List Cmd) (b : Interp.RecBody) (po : Option Interp.PrintOpts), l = A ++ .recorder i b po :: B ∧
    (∀ b' po', Cmd.recorder i b' po' ∉ B) ∧
    ∃ (E : Interp.Env) (σA : State W) (k : Rec.Kind) (cv av : Option Val) (cs : Option (List Rec.Col))
      (as : Option (List Rec.Num)), Spec.environment c A = .ok E ∧ run L M c A {} (start w fs) = (σA, none) ∧
      b.colsAt c E.vars = .ok (cv, av) ∧ colsOf cv = .ok cs ∧ atsOf M av = .ok as ∧ kindOf b.type = some k ∧
      Rec.make k (seen L σA.lib (L.find σA.lib b.registry b.id)) (optsOf (b.options po)) cs as = .ok h.parts ∧
      h.target = L.find σA.lib b.registry b.id ∧ h.file = po.map (·.file.toList) ∧
      h.append = (po.map (·.append)).getD false

theorem Entered.home {w : W} {fs : Files} {l : List Cmd} {i : String} {h : Held} (he : Entered L M c w fs l i h) :
    h.file = (Spec.home i l).map (·.file.toList) ∧ h.append = ((Spec.home i l).map (·.append)).getD false := by
  obtain ⟨A, B, b, po, rfl, hB, -, -, -, -, -, -, -, -, -, -, -, -, -, -, -, h1, h2⟩ := he
  have : Spec.home i (A ++ .recorder i b po :: B) = po := by
    clear h1 h2
    induction B using List.reverseRecOn with
    | nil => rw [home_snoc]; simp
    | append_singleton B m ih =>
      have := ih fun b' po' hh => hB b' po' (by simp [hh])
      rw [← List.cons_append, ← List.append_assoc, home_snoc, this]
      cases m with
      | recorder j b' po' =>
        show (if j = i then po' else po) = po
        rw [if_neg]
        rintro rfl
        exact hB b' po' (by simp)
      | _ => rfl
  rw [this]
  exact ⟨h1, h2⟩

theorem Entered.later {w : W} {fs : Files} {l : List Cmd} {i : String} {h : Held} (he : Entered L M c w fs l i h) {m : Cmd}
    (hm : ∀ b po, m ≠ .recorder i b po) : Entered L M c w fs (l ++ [m]) i h := by
  obtain ⟨A, B, b, po, rfl, hB, r⟩ := he
  refine ⟨A, B ++ [m], b, po, by simp, ?_, r⟩
  intro b' po' hh
  rcases List.mem_append.1 hh with hh | hh
  · exact hB _ _ hh
  · exact hm _ _ (List.mem_singleton.1 hh).symm

/-- The recorders kept after the commands `l`. -/
structure Books (L : Lib W) (M : Machine) (c : Cfg) (w : W) (fs : Files) (l : List Cmd) (σ : State W) : Prop where
  keys : σ.recs.map Prod.fst = Spec.names l
  nodup : (σ.recs.map Prod.fst).Nodup
  dir : σ.outDir = Spec.directory l
  all : ∀ i h, (i, h) ∈ σ.recs → Entered L M c w fs l i h

theorem books {w : W} {fs : Files} {l : List Cmd} {σ : State W} (hm : ∀ m ∈ l, m.sound = true)
    (hr : run L M c l {} (start w fs) = (σ, none)) : Books L M c w fs l σ := by
  induction l using List.reverseRecOn generalizing σ with
  | nil => cases hr; exact ⟨rfl, by simp [start], rfl, by intro i h hh; cases hh⟩
  | append_singleton l m ih =>
    obtain ⟨s, σ₀, h1, h2, h3, hE⟩ := run_cut (fun x hx => hm x (by simp [hx])) rfl hr
    have hB := ih (fun x hx => hm x (by simp [hx])) h2
    obtain ⟨k, s₁, σ₁, k1, k2, k3, k4, -⟩ := run_cons (hm m (by simp)) h1 h3
    cases k4
    by_cases hc : ∃ i b po, m = .recorder i b po
    · obtain ⟨i, b, po, rfl⟩ := hc
      obtain ⟨cv, av, hcv, rfl⟩ := recorder_calls k1
      simp only [execAll, exec] at k3
      cases hrec : record L M σ₀ i b.type b.registry b.id (b.options po) cv av with
      | error e => rw [hrec] at k3; cases k3
      | ok σ₂ =>
        rw [hrec] at k3
        cases k3
        obtain ⟨k, cs, as, r, hcs, has, hk, hr', rfl⟩ := record_ok hrec
        refine ⟨?_, dictSet_nodup hB.nodup _ _, by rw [directory_append]; exact hB.dir, ?_⟩
        · rw [names_snoc, dictSet_keys, hB.keys]
        · intro j h hj
          rcases (dictSet_mem hB.nodup _ _ _ _).1 hj with ⟨rfl, rfl⟩ | ⟨hne, hj⟩
          · refine ⟨l, [], b, po, rfl, by simp, ⟨s.vars, s.titles⟩, σ₀, k, cv, av, cs, as, hE, h2, hcv, hcs, has, hk, hr', rfl, ?_, ?_⟩
            · cases b <;> cases po <;> rfl
            · cases b <;> cases po <;> rfl
          · refine (hB.all j h hj).later ?_
            rintro b' po' e
            cases e
            exact hne rfl
    · push Not at hc
      have hd := hB.dir
      have hn : Spec.names (l ++ [m]) = Spec.names l := by
        rw [names_snoc]
        cases m <;> first | rfl | exact absurd rfl (hc _ _ _)
      by_cases ho : ∃ d, m = .outputdir d
      · obtain ⟨d, rfl⟩ := ho
        cases k1
        simp only [execAll, exec] at k3
        cases k3
        exact ⟨hn ▸ hB.keys, hB.nodup, by rw [directory_append], fun i h hh => (hB.all i h hh).later (by simp)⟩
      · push Not at ho
        obtain ⟨e1, e2⟩ := execAll_plain (calls_plain k1 hc ho) k3
        refine ⟨by rw [e1, hn]; exact hB.keys, by rw [e1]; exact hB.nodup, ?_, ?_⟩
        · rw [e2, directory_append, hd]
          cases m <;> first | rfl | exact absurd rfl (ho _)
        · intro i h hh
          rw [e1] at hh
          exact (hB.all i h hh).later fun b po => hc i b po

theorem lookup_of {V : Type} {d : List (String × V)} {i : String} {v : V} (hn : (d.map Prod.fst).Nodup) (he : (i, v) ∈ d) :
    d.lookup i = some v := by
  induction d with
  | nil => cases he
  | cons a d ih =>
    obtain ⟨a, b⟩ := a
    rw [List.map_cons, List.nodup_cons] at hn
    rw [List.lookup_cons]
    rcases List.mem_cons.1 he with h | h
    · cases h; simp
    · have : i ≠ a := by
        rintro rfl
        exact hn.1 (List.mem_map.2 ⟨_, h, rfl⟩)
      rw [beq_false_of_ne this]
      exact ih hn.2 h

theorem analyze_file {dir : Path} {o : Path → Bool} (p : Path) (rs : List (String × Output.Rec)) : ∀ fs : Files,
    (Output.analyze dir o fs (rs.map (·.2))).2 = true →
    (∀ e ∈ rs, e.2.ok = true) ∧
    (Output.analyze dir o fs (rs.map (·.2))).1 p = rs.foldl (fun old e => match e.2.file with
      | some q => if Output.fullPath dir q = p then Spec.put e.2.append e.2.out old else old
      | none => old) (fs p) ∧ ∀ e ∈ rs, e.2.file.isSome := by
  induction rs with
  | nil => intro fs _; exact ⟨by simp, rfl, by simp⟩
  | cons e rs ih =>
    intro fs h
    obtain ⟨i, r⟩ := e
    simp only [List.map_cons, Output.analyze] at h ⊢
    split at h
    · next hy =>
      obtain ⟨h1, h2, h3⟩ := ih _ h
      rw [if_pos hy, h2]
      unfold Output.runRec at hy ⊢
      cases hf : r.file with
      | none => rw [hf] at hy; cases hy
      | some q =>
        rw [hf] at hy
        dsimp only at hy ⊢
        split at hy
        · next ho =>
          rw [if_pos ho]
          refine ⟨by simpa using ⟨hy, fun a b hh => h1 (a, b) hh⟩, ?_, by simpa [hf] using fun a b hh => h3 (a, b) hh⟩
          rw [List.foldl_cons]
          congr 1
          simp only [hf, Output.write, Spec.put]
          by_cases hq : Output.fullPath dir q = p
          · rw [if_pos hq, hq, Function.update_self]
          · rw [if_neg hq, Function.update_of_ne (fun e => hq e.symm)]
        · cases hy
    · cases h

/-- What a recorder prints after a list of commands (a name without a recorder prints nothing). -/
def tableAfter (L : Lib W) (M : Machine) (c : Cfg) (σ : State W) (l : List Cmd) (i : String) : List String :=
  let τ := (run L M c l {} σ).1
  match τ.recs.lookup i with
  | some h => (h.run L M τ.lib).out
  | none => []

/-- What a `print` command prints after a list of commands. -/
def textAfter (L : Lib W) (M : Machine) (c : Cfg) (σ : State W) (l : List Cmd) (w : Interp.PrintWhat) : String :=
  match Spec.environment c l with
  | .ok E => match w.object c E.vars E.titles with
    | .ok o => L.describe (run L M c l {} σ).1.lib o
    | .error _ => ""
  | .error _ => ""

theorem run_ledger {w : W} {fs : Files} {l : List Cmd} {σ : State W} (hm : ∀ m ∈ l, m.sound = true)
    (hr : run L M c l {} (start w fs) = (σ, none)) (p : Path) :
    σ.files p = Spec.ledger (tableAfter L M c (start w fs)) (textAfter L M c (start w fs)) p [] (fs p) l := by
  induction l using List.reverseRecOn generalizing σ with
  | nil => cases hr; rfl
  | append_singleton l m ih =>
    obtain ⟨s, σ₀, h1, h2, h3, hE⟩ := run_cut (fun x hx => hm x (by simp [hx])) rfl hr
    have hB := books (fun x hx => hm x (by simp [hx])) h2
    rw [ledger_snoc, List.nil_append, ← ih (fun x hx => hm x (by simp [hx])) h2]
    obtain ⟨k, s₁, σ₁, k1, k2, k3, k4, -⟩ := run_cons (hm m (by simp)) h1 h3
    cases k4
    by_cases ha : m = .analyze
    · subst ha
      cases k1
      simp only [execAll, exec, analyze] at k3
      split at k3
      · next σ₂ e =>
        cases k3
        simp only [Prod.mk.injEq, ite_eq_left_iff, reduceCtorEq, imp_false, Bool.not_eq_true, Bool.not_eq_false] at e
        obtain ⟨e1, e2⟩ := e
        rw [← e1]
        show (Output.analyze _ _ _ _).1 p = _
        have hmap : (σ₀.recs.map fun q => q.2.run L M σ₀.lib) =
            (σ₀.recs.map fun q => (q.1, q.2.run L M σ₀.lib)).map (·.2) := by simp
        rw [hmap] at e2 ⊢
        obtain ⟨-, h, -⟩ := analyze_file p _ _ e2
        rw [h, List.foldl_map]
        show _ = (Spec.names l).foldl _ _
        rw [← hB.keys, List.foldl_map]
        apply List.foldl_ext
        intro old e he
        obtain ⟨i, hd⟩ := e
        obtain ⟨f1, f2⟩ := (hB.all i hd he).home
        have hlook : σ₀.recs.lookup i = some hd := lookup_of hB.nodup he
        dsimp only [Held.run]
        rw [f1, f2, hB.dir]
        cases hh : Spec.home i l with
        | none => rfl
        | some po =>
          simp only [Option.map_some, Option.getD_some, tableAfter, h2, hlook, Held.run]
      · cases k3
    · by_cases hp : ∃ w po, m = .print w po
      · obtain ⟨v, po, rfl⟩ := hp
        obtain ⟨o, ho, k1⟩ := bind_okE k1
        cases k1
        cases po with
        | none =>
          simp only [execAll, exec, print, Option.map_none] at k3
          cases k3
          rfl
        | some po =>
          simp only [execAll, exec, print, Option.map_some] at k3
          split at k3
          · next σ₂ e =>
            cases k3
            split at e
            · cases e
              have ht : textAfter L M c (start w fs) l v = L.describe σ₀.lib o := by
                unfold textAfter Spec.environment
                have hE' : List.foldlM (fun E m => m.env c E) (⟨fun _ => none, []⟩ : Interp.Env) l = .ok ⟨s.vars, s.titles⟩ := hE
                rw [hE']
                simp only [ho, h2]
              simp only [Spec.entry, ht, Output.write, Spec.put, Option.getD_some]
              by_cases hpp : po.file.toList = p
              · rw [if_pos hpp, hpp, Function.update_self]
              · rw [if_neg hpp, Function.update_of_ne (fun e => hpp e.symm)]
            · cases e
          · cases k3
      · push Not at hp
        rw [execAll_silent (calls_silent k1 ha hp) k3]
        cases m with
        | print w po => exact absurd rfl (hp w po)
        | analyze => exact absurd rfl ha
        | _ => rfl

end

end Slat.Session
