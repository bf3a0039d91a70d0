import Verif.InterpBody

/-!
# Properties of the command interpreter (C43)
-/

namespace Slat.Interp

/-! ## Commands and scripts mean what they say -/

/-- A command does what it says, whatever was left on the stack before it: it makes the calls of
its meaning, changes variables and titles as they should be, and leaves both stacks empty; if a
part of it has no value, the first such error stops the script. -/
theorem command_means_partial (c : Cfg) (m : Cmd) (h : m.sound = true) (s : St)
    (hs : s.saved = []) :
    walkCommand c m s = (do
      let k ← m.calls c s.vars s.titles
      let E ← m.env c s.env
      .ok (after { s with stack := [] } k E)) := by
  simp only [walkCommand, body_eq c m h, St.env]
  cases m.calls c s.vars s.titles with
  | error e => rfl
  | ok k =>
      simp only [ok_bind]
      cases m.env c ⟨s.vars, s.titles⟩ with
      | error e => rfl
      | ok E => simp [exitCommand, after, hs]

example : (Cmd.recorder "R" (.by_ .fate "S" (.counted 0 1 true 10)
    (some [.placement .mean, .scalar (.num (.var "x"))])) (some ⟨"out", true⟩)).sound = true := rfl

example (c : Cfg) : (Cmd.set "d" (.params (.dict (.cons false "a" (.dict (.cons false "b"
    (.arr [.int 1, .int 2]) .nil)) .nil)))).calls c (fun _ => none) [] = .ok [] := rfl

/-- A script does what it says: running it makes exactly the calls of its meaning, in their
order, with variables and titles in effect from the command after the one setting them. -/
theorem script_means_partial (c : Cfg) (l : List Cmd) (h : ∀ m ∈ l, m.sound = true) :
    walkScript c l {} = (do
      let (ks, E) ← meaning c l ⟨fun _ => none, []⟩
      .ok { vars := E.vars, titles := E.titles, calls := ks }) := by
  suffices H : ∀ s : St, s.stack = [] → s.saved = [] → walkScript c l s = (do
      let (ks, E) ← meaning c l s.env
      .ok (after s ks E)) by
    rw [H {} rfl rfl]
    simp [after, St.env]
  induction l with
  | nil =>
      intro s _ _
      simp [walkScript, walkAll, meaning, after, St.env]
  | cons m l ih =>
      intro s h1 h2
      have ih' := ih (fun m hm => h m (by simp [hm]))
      simp only [walkScript, walkAll, command_means_partial c m (h m (by simp)) s h2, meaning,
        St.env]
      cases m.calls c s.vars s.titles with
      | error e => rfl
      | ok k =>
          simp only [ok_bind]
          cases m.env c ⟨s.vars, s.titles⟩ with
          | error e => rfl
          | ok E =>
              simp only [ok_bind]
              rw [← walkScript, ih' (after { s with stack := [] } k E) rfl (by simp [after, h2])]
              simp only [St.env, after]
              cases meaning c l ⟨E.vars, E.titles⟩ with
              | error e => rfl
              | ok r => simp [h1]

/-! ## A script stops only when a Python expression raises -/

/-- A script of sound commands ends in an error only if evaluating one of its Python expressions
raises that error: the interpreter never runs out of values, never leaves one behind, and never
meets a value of the wrong shape. -/
theorem script_errors_from_python_partial (c : Cfg) (l : List Cmd)
    (h : ∀ m ∈ l, m.sound = true) (e : Err) (he : walkScript c l {} = .error e) :
    ∃ expr, c.ev expr = .error e := by
  rw [script_means_partial c l h] at he
  rcases bind_err he with he | ⟨_, -, he⟩
  · clear * - he h
    generalize (⟨fun _ => none, []⟩ : Env) = E at he
    induction l generalizing E with
    | nil => simp [meaning] at he
    | cons m l ih =>
        rcases bind_err he with he | ⟨_, -, he⟩
        · exact calls_err (h m (by simp)) he
        rcases bind_err he with he | ⟨F, -, he⟩
        · exact env_err he
        rcases bind_err he with he | ⟨_, -, he⟩
        · exact ih (fun m hm => h m (by simp [hm])) F he
        · simp at he
  · simp at he

/-- A script whose Python expressions all raise fails with the error of the expression. -/
example : walkScript ⟨fun _ => .error (.raised "no"), id⟩
    [.title "t", .set "x" (.py "1/0"), .analyze] {} = .error (.raised "no") := rfl

/-! ## Variables -/

/-- A variable keeps the value of the last `set` for its name: later commands other than `set` of
the same name do not change it. -/
theorem variables_last_set_partial (c : Cfg) (pre post : List Cmd) (x : String) (a : SetArg)
    (hpre : ∀ m ∈ pre, m.sound = true) (ha : (Cmd.set x a).sound = true)
    (hpost : ∀ m ∈ post, m.sound = true ∧ ∀ b, m ≠ .set x b)
    (s : St) (hs : walkScript c (pre ++ .set x a :: post) {} = .ok s) :
    ∃ E ks v, meaning c pre ⟨fun _ => none, []⟩ = .ok (ks, E) ∧
      a.value c E.vars = .ok v ∧ s.vars x = some v := by
  rw [script_means_partial c _ (by
    intro m hm
    simp only [List.mem_append, List.mem_cons] at hm
    rcases hm with hm | rfl | hm
    · exact hpre m hm
    · exact ha
    · exact (hpost m hm).1)] at hs
  have keep : ∀ (l : List Cmd) (E F : Env) (ks : List Call), (∀ m ∈ l, ∀ b, m ≠ .set x b) →
      meaning c l E = .ok (ks, F) → F.vars x = E.vars x := by
    intro l
    induction l with
    | nil => intro E F ks _ h; simp [meaning] at h; rw [h.2]
    | cons m l ih =>
        intro E F ks hl h
        simp only [meaning] at h
        cases hk : m.calls c E.vars E.titles with
        | error e => simp [hk] at h
        | ok k =>
            cases hE : m.env c E with
            | error e => simp [hk, hE] at h
            | ok E' =>
                cases hr : meaning c l E' with
                | error e => simp [hk, hE, hr] at h
                | ok r =>
                    obtain ⟨ks', F'⟩ := r
                    simp only [hk, hE, hr, ok_bind, Except.ok.injEq, Prod.mk.injEq] at h
                    rw [← h.2, ih E' F' ks' (fun m hm => hl m (by simp [hm])) hr]
                    have hm := hl m (by simp)
                    cases m with
                    | set id b =>
                        simp only [Cmd.env] at hE
                        cases hv : b.value c E.vars with
                        | error e => simp [hv] at hE
                        | ok v =>
                            simp only [hv, ok_bind, Except.ok.injEq] at hE
                            have : x ≠ id := fun e => hm b (by rw [e])
                            rw [← hE]; simp [this]
                    | title t => simp only [Cmd.env, Except.ok.injEq] at hE; rw [← hE]
                    | _ => simp only [Cmd.env, Except.ok.injEq] at hE; rw [← hE]
  have app : ∀ (l r : List Cmd) (E : Env), meaning c (l ++ r) E = (do
      let (ks, F) ← meaning c l E
      let (ks', G) ← meaning c r F
      .ok (ks ++ ks', G)) := by
    intro l r
    induction l with
    | nil =>
        intro E
        simp only [List.nil_append, meaning, ok_bind]
        cases meaning c r E <;> simp
    | cons m l ih =>
        intro E
        simp only [List.cons_append, meaning]
        cases m.calls c E.vars E.titles with
        | error e => rfl
        | ok k =>
            simp only [ok_bind]
            cases m.env c E with
            | error e => rfl
            | ok E' =>
                simp only [ok_bind, ih]
                cases meaning c l E' with
                | error e => rfl
                | ok p =>
                    simp only [ok_bind]
                    cases meaning c r p.2 <;> simp
  rw [app] at hs
  cases h1 : meaning c pre ⟨fun _ => none, []⟩ with
  | error e => simp [h1] at hs
  | ok p =>
      obtain ⟨ks, E⟩ := p
      simp only [h1, ok_bind, meaning] at hs
      cases hk : (Cmd.set x a).calls c E.vars E.titles with
      | error e => simp [hk] at hs
      | ok k =>
          cases hv : a.value c E.vars with
          | error e => simp [hk, Cmd.env, hv] at hs
          | ok v =>
              refine ⟨E, ks, v, rfl, hv, ?_⟩
              simp only [hk, Cmd.env, hv, ok_bind] at hs
              cases hp : meaning c post ⟨fun y => if y = x then some v else E.vars y, E.titles⟩ with
              | error e => simp [hp] at hs
              | ok q =>
                  obtain ⟨ks', F⟩ := q
                  simp only [hp, ok_bind, Except.ok.injEq] at hs
                  have := keep post _ F ks' (fun m hm => (hpost m hm).2) hp
                  rw [← hs]
                  simpa using this

example : (walkScript ⟨fun _ => .error (.raised ""), id⟩
    [.set "x" (.params (.one (.int 3))), .set "y" (.var "x"),
     .detfnPowerlaw "f" ⟨.num (.var "y"), .num (.flt 2)⟩] {}).map (fun s => s.calls)
    = .ok [.detfn "f" "power law" (.list [.int 3, .flt 2])] := rfl

/-! ## Forms which the interpreter gets wrong -/

/-- `integration maq P $N` with a variable for the number of evaluations: the tolerance is set to
the number of evaluations and the number of evaluations to the tolerance. -/
theorem integration_variable_fails (c : Cfg) (p n : Val) :
    ∃ m : Cmd, ∀ s : St, s.saved = [] → s.vars "P" = some p → s.vars "N" = some n →
      m.calls c s.vars s.titles = .ok [.integrationSettings p n] ∧
      (walkCommand c m s).map (fun t => t.calls)
        = .ok (s.calls ++ [.integrationSettings n p]) := by
  refine ⟨.integration (.var "P") (.var "N") none, fun s h0 h1 h2 => ?_⟩
  simp [Cmd.calls, Num.value, IntArg.value, walkCommand, walkBody, walkNum, walkIntArg, exitVarRef,
    exitIntegration, h0, h1, h2, exitCommand, call, push, pop]

/-- Every `detfn … loglog` command ends in an error, whatever its points. -/
theorem detfn_loglog_fails (c : Cfg) (id : String) (l : List Sc2) (s : St) :
    ∃ e, walkCommand c (.detfnLoglog id l) s = .error e := by
  simp only [walkCommand, walkBody]
  cases walkLoglog c l { s with stack := [] } with
  | error e => exact ⟨e, rfl⟩
  | ok t =>
      simp only [ok_bind, exitDetfn]
      cases pop t with
      | error e => exact ⟨e, rfl⟩
      | ok v =>
          simp only [ok_bind, true_or, if_true]
          cases asPair v.1 <;> exact ⟨_, rfl⟩

/-- Every `detfn … linear` command ends in an error, whatever its points. -/
theorem detfn_linear_fails (c : Cfg) (id : String) (l : List Sc2) (s : St) :
    ∃ e, walkCommand c (.detfnLinear id l) s = .error e := by
  simp only [walkCommand, walkBody]
  cases walkLinear c l { s with stack := [] } with
  | error e => exact ⟨e, rfl⟩
  | ok t =>
      simp only [ok_bind, exitDetfn]
      cases pop t with
      | error e => exact ⟨e, rfl⟩
      | ok v =>
          simp only [ok_bind, or_true, if_true]
          cases asPair v.1 <;> exact ⟨_, rfl⟩

/-- A `probfn` command which names a function through a variable leaves the variable's value on
the stack and ends in the "stack not empty" error. -/
theorem probfn_variable_fails (c : Cfg) (id : String) (mu sg : FnRef) (o : LnOpts)
    (h : mu.plain = false ∨ sg.plain = false) (s : St) :
    walkCommand c (.probfn id mu sg o) s = .error .stackNotEmpty := by
  cases mu <;> cases sg <;> simp [FnRef.plain] at h <;>
    simp [walkCommand, walkBody, walkFnRef, exitVarRef, walkOpts, exitProbfn, asOpts, exitCommand,
      call, push, pop]

/-- A dictionary with a quoted key is an error. -/
theorem quoted_key_fails (c : Cfg) (x k : String) (p : Params) (hp : p.plainKeys = true)
    (r : Entries) (s : St) :
    walkCommand c (.set x (.params (.dict (.cons true k p r)))) s = .error .attributeError := by
  simp [walkCommand, walkBody, walkParams, walkEntries, walkParams_eq c p hp, exitEntry]

/-- The dictionary made from unquoted keys cannot be read by those keys: none of its keys is a
string. -/
theorem dictionary_keys_fails (c : Cfg) (d : Entries) (name : String) :
    ∀ e ∈ d.values c, e.1 ≠ .str name := by
  intro e he h
  obtain ⟨t, ht⟩ := entries_nodes c d e he
  simp [ht] at h

/-- `structcost … --annual` without a location attribute is an error. -/
theorem annual_without_mu_fails (c : Cfg) (rid i : String) (sd : Option Sd) (s : St) :
    walkCommand c (.recorder rid (.annual i ⟨none, sd⟩ none) none) s = .error .unboundLocal := by
  simp [walkCommand, walkBody, walkRecBody, walkOpts, walkCols, walkPrintOpts, exitRecorder, popIf,
    RecBody.hasCols, RecBody.hasAt, recSpecial, asOpts, annualCols]

/-- `structcost … --annual` with a location attribute only reports it twice. -/
theorem annual_without_sd_fails (c : Cfg) (rid i : String) (m : Mu) (s : St) (hs : s.saved = []) :
    (walkCommand c (.recorder rid (.annual i ⟨some m, none⟩ none) none) s).map (fun t => t.calls)
      = .ok (s.calls ++ [.recorder rid "structcost" "structure" i { structType := some "annual" }
          (some (.list [.str m.text, .str m.text])) none]) := by
  simp [walkCommand, walkBody, walkRecBody, walkOpts, walkCols, walkPrintOpts, exitRecorder, popIf,
    RecBody.hasCols, RecBody.hasAt, recSpecial, asOpts, annualCols, registryOf, RecBody.type,
    RecBody.id, exitCommand, call, hs]

end Slat.Interp
