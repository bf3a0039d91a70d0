import Verif.InterpLemmas

/-!
# Helper lemmas: commands, and where errors come from
-/

namespace Slat.Interp

/-- The state after a command or script with the given effect. -/
def after (s : St) (ks : List Call) (E : Env) : St :=
  { s with vars := E.vars, titles := E.titles, calls := s.calls ++ ks }

/-- The environment part of the listener's state. -/
def St.env (s : St) : Env := ⟨s.vars, s.titles⟩

theorem registry_eq (b : RecBody) : registryOf b.type = .ok b.registry := by
  cases b with
  | fn t i a k => cases t <;> simp [RecBody.type, RecBody.registry, registryOf, RecType.text]
  | rates t i a => cases t <;> simp [RecBody.type, RecBody.registry, registryOf]
  | _ => simp [RecBody.type, RecBody.registry, registryOf]

theorem walkGroups (id : String) (g : List String) (s : St) :
    walkAll (fun g s => .ok (call (.addCompGroup id g) s)) g s
      = .ok { s with calls := s.calls ++ g.map (.addCompGroup id) } := by
  induction g generalizing s with
  | nil => simp [walkAll]
  | cons a g ih =>
      simp only [walkAll, ok_bind, ih]
      simp [call]

theorem print_body (c : Cfg) (w : PrintWhat) (po : Option PrintOpts) (s : St) :
    walkBody c (.print w po) s = (do
      let k ← (Cmd.print w po).calls c s.vars s.titles
      .ok (after s k s.env)) := by
  cases po <;> cases w <;>
    simp only [walkBody, walkPrintWhat, exitPythonScript, exitVarRef, Cmd.calls, PrintWhat.object]
  case none.messagePy e =>
    cases c.ev e <;> simp [walkPrintOpts, exitPrint, printObject, call, after, St.env]
  case some.messagePy o e =>
    cases c.ev e <;>
      simp [walkPrintOpts, exitPrint, asPrintOpts, printObject, call, after, St.env]
  case none.function k id =>
    by_cases hk : k ∈ ["detfn", "probfn", "im", "edp", "fragfn", "lossfn", "compgroup"] <;>
      simp only [walkPrintOpts, exitPrint, printObject, hk, ok_bind, if_true, if_false,
        Option.isSome_none, Bool.false_eq_true] <;> simp [call, after, St.env]
  case some.function o k id =>
    by_cases hk : k ∈ ["detfn", "probfn", "im", "edp", "fragfn", "lossfn", "compgroup"] <;>
      simp only [walkPrintOpts, exitPrint, asPrintOpts, pop_push, printObject, hk, ok_bind,
        if_true, if_false, Option.isSome_some] <;> simp [call, after, St.env]
  all_goals simp [walkPrintOpts, exitPrint, asPrintOpts, printObject, call, after, St.env]

theorem integration_body (c : Cfg) (p : Num) (n : ℕ) (se : Option (Search × IntArg)) (s : St) :
    walkBody c (.integration p (.int n) se) s = (do
      let k ← (Cmd.integration p (.int n) se).calls c s.vars s.titles
      .ok (after s k s.env)) := by
  simp only [walkBody, walkNum_eq, Cmd.calls, IntArg.value, walkIntArg]
  cases p.value c s.vars with
  | error e => simp
  | ok v =>
      cases se with
      | none => simp [exitIntegration, call, after, St.env]
      | some q =>
          obtain ⟨m, a⟩ := q
          cases a with
          | int k =>
              simp [walkIntArg, exitIntegration, IntArg.value, call, after, St.env, push, pop]
          | var x =>
              simp [walkIntArg, exitVarRef, exitIntegration, IntArg.value, call, after, St.env,
                push, pop]
          | py e =>
              simp only [map_ok', ok_bind, walkIntArg, exitPythonScript, IntArg.value]
              cases c.ev e <;> simp [exitIntegration, call, after, St.env, push, pop]

theorem recorder_body (c : Cfg) (rid : String) (b : RecBody) (po : Option PrintOpts)
    (h : (Cmd.recorder rid b po).sound = true) (s : St) :
    walkBody c (.recorder rid b po) s = (do
      let k ← (Cmd.recorder rid b po).calls c s.vars s.titles
      .ok (after s k s.env)) := by
  have hreg := registry_eq b
  cases b with
  | fn t i a k =>
      simp only [walkBody, walkRecBody, walkAt_eq, Cmd.calls, RecBody.colsAt]
      cases a.value c s.vars with
      | error e => simp
      | ok v =>
          simp only [map_ok', ok_bind, walkCols_eq, push_vars]
          cases k with
          | none =>
              cases po <;>
              simp [colsValue, walkPrintOpts, exitRecorder, popIf, RecBody.hasCols,
                RecBody.hasAt, recSpecial, hreg, RecBody.options, asPrintOpts, call, after, St.env]
          | some l =>
              simp only [colsValue]
              cases values (Col.value c s.vars) l with
              | error e => simp
              | ok vs =>
                  cases po <;>
                  simp [walkPrintOpts, exitRecorder, popIf, RecBody.hasCols,
                    RecBody.hasAt, recSpecial, hreg, RecBody.options, asPrintOpts, call, after,
                    St.env]
  | by_ t i a k =>
      simp only [walkBody, walkRecBody, walkAt_eq, Cmd.calls, RecBody.colsAt]
      cases a.value c s.vars with
      | error e => simp
      | ok v =>
          simp only [map_ok', ok_bind, walkCols_eq, push_vars]
          cases k with
          | none =>
              cases po <;> cases t <;>
              simp [colsValue, walkPrintOpts, exitRecorder, popIf, RecBody.hasCols,
                RecBody.hasAt, recSpecial, hreg, RecBody.options, asPrintOpts, call, after, St.env]
          | some l =>
              simp only [colsValue]
              cases values (Col.value c s.vars) l with
              | error e => simp
              | ok vs =>
                  cases po <;> cases t <;>
                  simp [walkPrintOpts, exitRecorder, popIf, RecBody.hasCols,
                    RecBody.hasAt, recSpecial, hreg, RecBody.options, asPrintOpts, call, after,
                    St.env]
  | dsrate i =>
      cases po <;>
      simp [walkBody, walkRecBody, Cmd.calls, RecBody.colsAt, walkPrintOpts, exitRecorder, popIf,
        RecBody.hasCols, RecBody.hasAt, recSpecial, hreg, RecBody.options, asPrintOpts, call,
        after, St.env]
  | collrate i =>
      cases po <;>
      simp [walkBody, walkRecBody, Cmd.calls, RecBody.colsAt, walkPrintOpts, exitRecorder, popIf,
        RecBody.hasCols, RecBody.hasAt, recSpecial, hreg, RecBody.options, asPrintOpts, call,
        after, St.env]
  | npv i f inc l r =>
      cases po <;>
      simp [walkBody, walkRecBody, Cmd.calls, RecBody.colsAt, walkPrintOpts, exitRecorder, popIf,
        RecBody.hasCols, RecBody.hasAt, recSpecial, hreg, RecBody.options, asPrintOpts, call,
        after, St.env]
  | rates t i a =>
      simp only [walkBody, walkRecBody, walkAt_eq, Cmd.calls, RecBody.colsAt]
      cases a.value c s.vars with
      | error e => simp
      | ok v =>
          cases po <;>
          simp [walkPrintOpts, exitRecorder, popIf,
            RecBody.hasCols, RecBody.hasAt, recSpecial, hreg, RecBody.options, asPrintOpts, call,
            after, St.env]
  | pdf i a n =>
      simp only [walkBody, walkRecBody, walkAt_eq, Cmd.calls, RecBody.colsAt]
      cases a.value c s.vars with
      | error e => simp
      | ok v =>
          cases po <;> cases n <;>
          simp [walkPrintOpts, exitRecorder, popIf,
            RecBody.hasCols, RecBody.hasAt, recSpecial, hreg, RecBody.options, asPrintOpts, call,
            after, St.env]
  | annual i o k =>
      obtain ⟨mu, sd⟩ := o
      simp only [Cmd.sound, Bool.and_eq_true, Option.isSome_iff_exists] at h
      obtain ⟨⟨m, rfl⟩, ⟨d, rfl⟩⟩ := h
      simp only [walkBody, walkRecBody, walkOpts, ok_bind, walkCols_eq, push_vars, Cmd.calls,
        RecBody.colsAt]
      cases k with
      | none =>
          cases po <;>
          simp [colsValue, walkPrintOpts, exitRecorder, popIf, RecBody.hasCols, annualCols, asOpts,
            RecBody.hasAt, recSpecial, hreg, RecBody.options, asPrintOpts, call, after, St.env]
      | some l =>
          simp only [colsValue]
          cases values (Col.value c s.vars) l with
          | error e => simp
          | ok vs =>
              cases po <;>
              simp [walkPrintOpts, exitRecorder, popIf, RecBody.hasCols, annualCols, asOpts,
                RecBody.hasAt, recSpecial, hreg, RecBody.options, asPrintOpts, call, after,
                St.env]

theorem body_eq (c : Cfg) (m : Cmd) (h : m.sound = true) (s : St) :
    walkBody c m s = (do
      let k ← m.calls c s.vars s.titles
      let E ← m.env c s.env
      .ok (after s k E)) := by
  cases m with
  | title t => simp [walkBody, Cmd.calls, Cmd.env, after, St.env]
  | detfnHyperbolic id p q =>
      simp only [walkBody, walkSc3, walkSc2_eq, Sc2.value, Cmd.calls, Cmd.env, walkSc_eq]
      cases p.values c s.vars with
      | error e => simp
      | ok v =>
          obtain ⟨a, b⟩ := v
          simp only [ok_bind, map_ok', push_vars]
          cases q.value c s.vars <;> simp [exitDetfn, call, after, St.env]
  | detfnPowerlaw id p =>
      simp only [walkBody, walkSc2_eq, Sc2.value, Cmd.calls, Cmd.env]
      cases p.values c s.vars <;> simp [exitDetfn, call, after, St.env]
  | detfnLoglog id l => simp [Cmd.sound] at h
  | detfnLinear id l => simp [Cmd.sound] at h
  | probfn id mu sg o =>
      simp only [Cmd.sound, Bool.and_eq_true] at h
      cases mu <;> cases sg <;> simp [FnRef.plain] at h
      simp [walkBody, walkFnRef, walkOpts, exitProbfn, asOpts, FnRef.text, Cmd.calls, FnRef.name,
        Cmd.env, call, after, St.env]
  | im id fn => simp [walkBody, Cmd.calls, Cmd.env, call, after, St.env]
  | edp id i fn => simp [walkBody, Cmd.calls, Cmd.env, call, after, St.env]
  | dist k id p o =>
      simp only [walkBody, walkSc2_eq, Sc2.value, Cmd.calls, Cmd.env]
      cases p.values c s.vars <;>
        simp [walkOpts, exitDist, asPair, asOpts, call, after, St.env]
  | fragfnDb id f k => simp [walkBody, walkFragDb, Cmd.calls, Cmd.env, call, after, St.env]
  | fragfnUser id l o =>
      simp only [walkBody, walkSc2Seq_eq, Cmd.calls, Cmd.env]
      cases values (Sc2.value c s.vars) l <;>
        simp [walkOpts, exitOptsData, asOpts, call, after, St.env]
  | lossSimple id l o =>
      simp only [walkBody, walkSc2Seq_eq, Cmd.calls, Cmd.env]
      cases values (Sc2.value c s.vars) l <;>
        simp [walkOpts, exitOptsData, asOpts, call, after, St.env]
  | lossBilevel id l =>
      simp only [walkBody, walkBilevels_eq, Cmd.calls, Cmd.env]
      cases values (Bilevel.value c s.vars) l <;> simp [call, after, St.env]
  | compgroup id e f k d n fl =>
      rcases fl with _ | ⟨x, _ | ⟨y, fl⟩⟩ <;>
        simp [walkBody, exitCompgroup, Cmd.calls, Cmd.env, call, after, St.env]
  | structure_ id g =>
      simp only [walkBody, exitStructure, walkGroups, Cmd.calls, Cmd.env, ok_bind]
      simp [call, after, St.env]
  | print w po => rw [print_body]; rfl
  | integration p it se =>
      cases it with
      | int n => rw [integration_body]; rfl
      | var x => simp [Cmd.sound] at h
      | py e => simp [Cmd.sound] at h
  | recorder rid b po => rw [recorder_body c rid b po h]; rfl
  | analyze => simp [walkBody, Cmd.calls, Cmd.env, call, after, St.env]
  | set id a =>
      cases a with
      | py e =>
          simp only [walkBody, exitPythonScript, Cmd.calls, Cmd.env, SetArg.value]
          cases c.ev e <;> simp [exitSet, after, St.env]
      | var x => simp [walkBody, exitVarRef, Cmd.calls, Cmd.env, SetArg.value, exitSet, after,
          St.env]
      | params p =>
          have hp : p.plainKeys = true := h
          simp [walkBody, walkParams_eq c p hp, Cmd.calls, Cmd.env, SetArg.value, exitSet, after,
            St.env]
  | importProbfn id f => simp [walkBody, Cmd.calls, Cmd.env, call, after, St.env]
  | importIm id f => simp [walkBody, Cmd.calls, Cmd.env, call, after, St.env]
  | log b f =>
      cases b <;> cases f <;>
        simp [walkBody, exitLog, Cmd.calls, Cmd.env, call, after, St.env]
  | intstatsPrint => simp [walkBody, Cmd.calls, Cmd.env, call, after, St.env]
  | intstatsReset => simp [walkBody, Cmd.calls, Cmd.env, call, after, St.env]
  | inputdir d => simp [walkBody, Cmd.calls, Cmd.env, call, after, St.env]
  | outputdir d => simp [walkBody, Cmd.calls, Cmd.env, call, after, St.env]

theorem Num.err {c : Cfg} {ρ : Vars} {n : Num} {e : Err} (h : n.value c ρ = .error e) :
    ∃ x, c.ev x = .error e := by
  cases n <;> simp [Num.value] at h
  exact ⟨_, h⟩

theorem Sc.err {c : Cfg} {ρ : Vars} {n : Sc} {e : Err} (h : n.value c ρ = .error e) :
    ∃ x, c.ev x = .error e := by
  cases n <;> simp [Sc.value] at h
  exact Num.err h

theorem bind_err {α β : Type} {x : Except Err α} {f : α → Except Err β} {e : Err}
    (h : (x >>= f) = .error e) : x = .error e ∨ ∃ a, x = .ok a ∧ f a = .error e := by
  cases x with
  | error e' => exact .inl (by simpa using h)
  | ok a => exact .inr ⟨a, rfl, h⟩

theorem Sc2.err {c : Cfg} {ρ : Vars} {n : Sc2} {e : Err} (h : n.values c ρ = .error e) :
    ∃ x, c.ev x = .error e := by
  rcases bind_err h with h | ⟨a, -, h⟩
  · exact Sc.err h
  · rcases bind_err h with h | ⟨b, -, h⟩
    · exact Sc.err h
    · simp at h

theorem Sc2.err' {c : Cfg} {ρ : Vars} {n : Sc2} {e : Err} (h : n.value c ρ = .error e) :
    ∃ x, c.ev x = .error e := by
  rcases bind_err h with h | ⟨a, -, h⟩
  · exact Sc2.err h
  · simp at h

theorem Bilevel.err {c : Cfg} {ρ : Vars} {n : Bilevel} {e : Err} (h : n.value c ρ = .error e) :
    ∃ x, c.ev x = .error e := by
  rcases bind_err h with h | ⟨_, -, h⟩
  · exact Num.err h
  rcases bind_err h with h | ⟨_, -, h⟩
  · exact Num.err h
  rcases bind_err h with h | ⟨_, -, h⟩
  · exact Num.err h
  rcases bind_err h with h | ⟨_, -, h⟩
  · exact Num.err h
  rcases bind_err h with h | ⟨_, -, h⟩
  · exact Num.err h
  simp at h

theorem IntArg.err {c : Cfg} {ρ : Vars} {n : IntArg} {e : Err} (h : n.value c ρ = .error e) :
    ∃ x, c.ev x = .error e := by
  cases n <;> simp [IntArg.value] at h
  exact ⟨_, h⟩

theorem At.err {c : Cfg} {ρ : Vars} {n : At} {e : Err} (h : n.value c ρ = .error e) :
    ∃ x, c.ev x = .error e := by
  cases n with
  | counted a b l n => cases l <;> simp [At.value] at h
  | py x => exact ⟨x, h⟩
  | _ => simp [At.value] at h

theorem Col.err {c : Cfg} {ρ : Vars} {n : Col} {e : Err} (h : n.value c ρ = .error e) :
    ∃ x, c.ev x = .error e := by
  cases n <;> simp [Col.value] at h
  exact Sc.err h

theorem values_err {α β : Type} {f : α → Except Err β} {l : List α} {e : Err}
    (h : values f l = .error e) : ∃ a, f a = .error e := by
  induction l with
  | nil => simp [values] at h
  | cons a l ih =>
      rcases bind_err h with h | ⟨_, -, h⟩
      · exact ⟨a, h⟩
      rcases bind_err h with h | ⟨_, -, h⟩
      · exact ih h
      simp at h

theorem cols_err {c : Cfg} {ρ : Vars} {k : Option (List Col)} {e : Err}
    (h : colsValue c ρ k = .error e) : ∃ x, c.ev x = .error e := by
  cases k with
  | none => simp [colsValue] at h
  | some l =>
      rcases bind_err h with h | ⟨_, -, h⟩
      · obtain ⟨a, ha⟩ := values_err h
        exact Col.err ha
      · simp at h

theorem calls_err {c : Cfg} {ρ : Vars} {t : List String} {m : Cmd} (hm : m.sound = true) {e : Err}
    (h : m.calls c ρ t = .error e) : ∃ x, c.ev x = .error e := by
  cases m with
  | title t => simp [Cmd.calls] at h
  | detfnHyperbolic id p q =>
      rcases bind_err h with h | ⟨_, -, h⟩
      · exact Sc2.err h
      rcases bind_err h with h | ⟨_, -, h⟩
      · exact Sc.err h
      simp at h
  | detfnPowerlaw id p =>
      rcases bind_err h with h | ⟨_, -, h⟩
      · exact Sc2.err h
      simp at h
  | detfnLoglog id l => simp [Cmd.sound] at hm
  | detfnLinear id l => simp [Cmd.sound] at hm
  | probfn id mu sg o =>
      cases mu <;> cases sg <;> simp [Cmd.sound, FnRef.plain] at hm
      simp [Cmd.calls, FnRef.name] at h
  | dist k id p o =>
      rcases bind_err h with h | ⟨_, -, h⟩
      · exact Sc2.err h
      simp at h
  | fragfnUser id l o =>
      rcases bind_err h with h | ⟨_, -, h⟩
      · obtain ⟨a, ha⟩ := values_err h
        exact Sc2.err' ha
      simp at h
  | lossSimple id l o =>
      rcases bind_err h with h | ⟨_, -, h⟩
      · obtain ⟨a, ha⟩ := values_err h
        exact Sc2.err' ha
      simp at h
  | lossBilevel id l =>
      rcases bind_err h with h | ⟨_, -, h⟩
      · obtain ⟨a, ha⟩ := values_err h
        exact Bilevel.err ha
      simp at h
  | compgroup id e' f k d n fl => rcases fl with _ | ⟨x, _ | ⟨y, fl⟩⟩ <;> simp [Cmd.calls] at h
  | print w po =>
      rcases bind_err h with h | ⟨_, -, h⟩
      · cases w with
        | messagePy x =>
            rcases bind_err h with h | ⟨_, -, h⟩
            · exact ⟨x, h⟩
            · simp at h
        | function k i => simp only [PrintWhat.object] at h; split at h <;> simp at h
        | _ => simp [PrintWhat.object] at h
      simp at h
  | integration p it se =>
      rcases bind_err h with h | ⟨_, -, h⟩
      · exact Num.err h
      rcases bind_err h with h | ⟨_, -, h⟩
      · exact IntArg.err h
      cases se with
      | none => simp at h
      | some q =>
          rcases bind_err h with h | ⟨_, -, h⟩
          · exact IntArg.err h
          simp at h
  | recorder rid b po =>
      rcases bind_err h with h | ⟨_, -, h⟩
      · cases b with
        | fn t i a k =>
            rcases bind_err h with h | ⟨_, -, h⟩
            · exact At.err h
            rcases bind_err h with h | ⟨_, -, h⟩
            · exact cols_err h
            simp at h
        | by_ t i a k =>
            rcases bind_err h with h | ⟨_, -, h⟩
            · exact At.err h
            rcases bind_err h with h | ⟨_, -, h⟩
            · exact cols_err h
            simp at h
        | rates t i a =>
            rcases bind_err h with h | ⟨_, -, h⟩
            · exact At.err h
            simp at h
        | pdf i a n =>
            rcases bind_err h with h | ⟨_, -, h⟩
            · exact At.err h
            simp at h
        | annual i o k =>
            rcases bind_err h with h | ⟨_, -, h⟩
            · exact cols_err h
            simp at h
        | _ => simp [RecBody.colsAt] at h
      simp at h
  | set id a =>
      cases a with
      | py x =>
          rcases bind_err h with h | ⟨_, -, h⟩
          · exact ⟨x, h⟩
          simp at h
      | _ => simp [Cmd.calls] at h
  | _ => simp [Cmd.calls] at h

theorem env_err {c : Cfg} {E : Env} {m : Cmd} {e : Err}
    (h : m.env c E = .error e) : ∃ x, c.ev x = .error e := by
  cases m with
  | set id a =>
      rcases bind_err h with h | ⟨_, -, h⟩
      · cases a with
        | py x => exact ⟨x, h⟩
        | _ => simp [SetArg.value] at h
      simp at h
  | _ => simp [Cmd.env] at h

end Slat.Interp
