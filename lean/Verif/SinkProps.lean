import Verif.SinkLemmas
import Mathlib.Data.List.Induction

/-!
# C81: where log messages go
-/

namespace Slat.Sink

variable {P M : Type}

/-! ## Specification, on histories of calls -/

/-- The messages logged, in order. -/
def messages (ops : List (Op P M)) : List M := ops.filterMap fun
  | .log m => some m
  | _ => none

/-- The settings of the flag, in order. -/
def flags (ops : List (Op P M)) : List Bool := ops.filterMap fun
  | .logToStdErr b => some b
  | _ => none

/-- The log files set, in order. -/
def paths (ops : List (Op P M)) : List P := ops.filterMap fun
  | .setLogFile p => some p
  | _ => none

/-- What `LogToStdErr` is meant to do: standard error is on at first, then as last set. -/
def wanted (ops : List (Op P M)) : Bool := (flags ops).getLast?.getD true

/-- Copies of a message on standard error: one if standard error was never switched off, otherwise one for each time it was switched on
after it was first switched off. -/
def copies (ops : List (Op P M)) : ℕ := if false ∈ flags ops then ((flags ops).dropWhile id).count true else 1

theorem run_append [DecidableEq P] (files : P → Option (List M)) (ops : List (Op P M)) (o : Op P M) : run files (ops ++ [o]) = step (run files ops) o := by
  simp [run, List.foldl_append]

theorem dropWhile_nil {l : List Bool} : l.dropWhile id = [] ↔ ∀ x ∈ l, x = true := by
  induction l with
  | nil => simp
  | cons a l ih => cases a <;> simp [ih]

theorem dropWhile_snoc {l : List Bool} (b : Bool) (h : false ∈ l) : (l ++ [b]).dropWhile id = l.dropWhile id ++ [b] := by
  rw [List.dropWhile_append]
  rw [if_neg]
  intro c
  rw [List.isEmpty_iff, dropWhile_nil] at c
  exact Bool.noConfusion (c false h)

theorem copies_snoc (ops : List (Op P M)) (o : Op P M) : copies (ops ++ [o]) = match o with
    | .logToStdErr true => if false ∈ flags ops then copies ops + 1 else copies ops
    | .logToStdErr false => if false ∈ flags ops then copies ops else copies ops - 1
    | _ => copies ops := by
  have hf : flags (ops ++ [o]) = flags ops ++ flags [o] := List.filterMap_append
  cases o with
  | setLogFile p => simp only [copies, hf]; simp [flags]
  | log m => simp only [copies, hf]; simp [flags]
  | logToStdErr b =>
    have hb : flags [(.logToStdErr b : Op P M)] = [b] := rfl
    rw [hb] at hf
    by_cases h : false ∈ flags ops
    · have h' : false ∈ flags ops ++ [b] := List.mem_append_left _ h
      cases b
      · simp only [copies, hf, h, h', if_true]
        rw [dropWhile_snoc _ h, List.count_append]; simp
      · simp only [copies, hf, h, h', if_true]
        rw [dropWhile_snoc _ h, List.count_append]; simp
    · cases b
      · have h' : false ∈ flags ops ++ [false] := by simp
        simp only [copies, hf, h, h', if_true, if_false]
        have : ∀ x ∈ flags ops, id x = true := by
          intro x hx
          cases x
          · exact absurd hx h
          · rfl
        rw [List.dropWhile_append_of_pos this]
        rfl
      · have h' : false ∉ flags ops ++ [true] := by simpa using h
        simp only [copies, hf, h, h', if_false]

/-- The log file in use, and whether something has been logged since it was set. -/
def current : List (Op P M) → Option (P × Bool) → Option (P × Bool)
  | [], f => f
  | .setLogFile p :: ops, _ => current ops (some (p, false))
  | .log _ :: ops, f => current ops (f.map fun x => (x.1, true))
  | .logToStdErr _ :: ops, f => current ops f

theorem current_snoc (ops : List (Op P M)) (o : Op P M) : ∀ f, current (ops ++ [o]) f = current [o] (current ops f) := by
  induction ops with
  | nil => intro f; rfl
  | cons a ops ih => intro f; cases a <;> exact ih _

theorem paths_current (ops : List (Op P M)) : ∀ f, (current ops f).isNone = ((paths ops).isEmpty && f.isNone) := by
  induction ops with
  | nil => intro f; cases f <;> rfl
  | cons a ops ih =>
    intro f
    cases a with
    | setLogFile p => rw [current, ih]; simp [paths]
    | log m => rw [current, ih]; simp [paths]
    | logToStdErr b => rw [current, ih]; rfl

variable [DecidableEq P]

theorem inv_run (files : P → Option (List M)) (ops : List (Op P M)) :
    Inv (run files ops) (copies ops) (decide (false ∉ flags ops)) (current ops none) := by
  induction ops using List.reverseRecOn with
  | nil => exact inv_initialise files
  | append_singleton ops o ih =>
    rw [run_append, copies_snoc, current_snoc]
    have hf : flags (ops ++ [o]) = flags ops ++ flags [o] := List.filterMap_append
    cases o with
    | setLogFile p =>
      have : flags (ops ++ [.setLogFile p]) = flags ops := by rw [hf]; exact List.append_nil _
      rw [this]
      exact inv_setLogFile ih p
    | log m =>
      have : flags (ops ++ [.log m]) = flags ops := by rw [hf]; exact List.append_nil _
      rw [this]
      exact (inv_log ih m).1
    | logToStdErr b =>
      have hb : flags [(.logToStdErr b : Op P M)] = [b] := rfl
      rw [hf, hb]
      cases b
      · have h' : false ∈ flags ops ++ [false] := by simp
        have := inv_off ih
        by_cases h : false ∈ flags ops
        · simpa [h, step, current] using this
        · simpa [h, step, current] using this
      · have := inv_on ih
        by_cases h : false ∈ flags ops
        · simpa [h, step, current] using this
        · simpa [h, step, current] using this

/-- **Copies on standard error**: a message appears on standard error once if standard error was never switched off; otherwise once for each
time it was switched on after it was first switched off. -/
theorem stderr_copies (files : P → Option (List M)) (ops : List (Op P M)) (m : M) :
    (run files (ops ++ [.log m])).err = (run files ops).err ++ List.replicate (copies ops) m := by
  rw [run_append]
  exact (inv_log (inv_run files ops) m).2.1

example : (run (fun _ => none) [.logToStdErr false, .logToStdErr true, .log "a"] : St ℕ String).err = ["a"] :=
  stderr_copies (fun _ : ℕ => none) [.logToStdErr false, .logToStdErr true] "a"

/-- **Standard error follows the flag** as long as it is not switched on again after being switched off. -/
theorem stderr_partial (files : P → Option (List M)) (ops : List (Op P M)) (m : M) (h : true ∉ (flags ops).dropWhile id) :
    (run files (ops ++ [.log m])).err = (run files ops).err ++ if wanted ops then [m] else [] := by
  rw [stderr_copies]
  congr 1
  rw [copies]
  by_cases k : false ∈ flags ops
  · rw [if_pos k, List.count_eq_zero.2 h, wanted]
    have ne : flags ops ≠ [] := List.ne_nil_of_mem k
    have last : (flags ops).getLast? = some false := by
      have e := List.takeWhile_append_dropWhile (p := id) (l := flags ops)
      have dn : (flags ops).dropWhile id ≠ [] := by
        intro c
        rw [dropWhile_nil] at c
        exact Bool.noConfusion (c false k)
      rw [← e, List.getLast?_append_of_ne_nil _ dn, List.getLast?_eq_some_getLast dn]
      have := List.getLast_mem dn
      cases hh : ((flags ops).dropWhile id).getLast dn
      · rfl
      · rw [hh] at this
        exact absurd this h
    rw [last]
    rfl
  · rw [if_neg k, wanted]
    have : (flags ops).getLast?.getD true = true := by
      cases hh : (flags ops).getLast? with
      | none => rfl
      | some b =>
        cases b
        · exact absurd (List.mem_of_getLast? hh) k
        · rfl
    rw [this]
    rfl

example : (run (fun _ => none) [.log "a", .logToStdErr true, .setLogFile 7, .logToStdErr false, .log "b"] : St ℕ String).err = ["a"] :=
  stderr_partial (fun _ : ℕ => none) [.log "a", .logToStdErr true, .setLogFile 7, .logToStdErr false] "b" (by simp [flags])

/-- **Standard error cannot be switched off twice** and messages are duplicated: after off, on, off a message still appears; after off, on,
on it appears twice. -/
theorem stderr_fails (files : P → Option (List M)) (m : M) :
    wanted ([.logToStdErr false, .logToStdErr true, .logToStdErr false] : List (Op P M)) = false ∧
    (run files [.logToStdErr false, .logToStdErr true, .logToStdErr false, .log m]).err = [m] ∧
    (run files [.logToStdErr false, .logToStdErr true, .logToStdErr true, .log m]).err = [m, m] :=
  ⟨rfl, stderr_copies files [.logToStdErr false, .logToStdErr true, .logToStdErr false] m,
    stderr_copies files [.logToStdErr false, .logToStdErr true, .logToStdErr true] m⟩

/-- **Standard output** receives a message exactly if there is neither a log file nor a copy on standard error. -/
theorem stdout_exact (files : P → Option (List M)) (ops : List (Op P M)) (m : M) :
    (run files (ops ++ [.log m])).out = (run files ops).out ++ if copies ops = 0 ∧ paths ops = [] then [m] else [] := by
  rw [run_append]
  have h := (inv_log (inv_run files ops) m).2.2.1
  have e : current ops none = none ↔ paths ops = [] := by
    have := paths_current ops none
    rw [← Option.isNone_iff_eq_none, this]
    simp
  rw [show (step (run files ops) (.log m)).out = _ from h]
  congr 1
  exact if_congr (and_congr Iff.rfl e) rfl rfl

/-- **A message is never lost**: it is written somewhere, whatever was called before. -/
theorem never_lost (files : P → Option (List M)) (ops : List (Op P M)) (m : M) :
    m ∈ (run files (ops ++ [.log m])).err ∨ m ∈ (run files (ops ++ [.log m])).out ∨
    ∃ p ms, p ∈ paths ops ∧ (run files (ops ++ [.log m])).files p = some ms ∧ m ∈ ms := by
  by_cases c : copies ops = 0
  · right
    by_cases e : paths ops = []
    · left
      rw [stdout_exact, if_pos ⟨c, e⟩]
      simp
    · right
      have := paths_current ops none
      cases hc : current ops none with
      | none =>
        rw [hc] at this
        simp at this
        exact absurd this e
      | some q =>
        obtain ⟨p, o⟩ := q
        have mem : ∀ (ops : List (Op P M)) f, current ops f = some (p, o) → p ∈ paths ops ∨ ∃ o', f = some (p, o') := by
          intro ops
          induction ops with
          | nil => intro f h; exact Or.inr ⟨o, h⟩
          | cons a ops ih =>
            intro f h
            cases a with
            | setLogFile q =>
              rcases ih _ h with k | ⟨o', k⟩
              · exact Or.inl (List.mem_cons_of_mem _ k)
              · cases k
                exact Or.inl List.mem_cons_self
            | log m' =>
              rcases ih _ h with k | ⟨o', k⟩
              · exact Or.inl k
              · cases f with
                | none => cases k
                | some g => cases k; exact Or.inr ⟨g.2, rfl⟩
            | logToStdErr b => exact ih _ h
        have hp : p ∈ paths ops := by
          rcases mem ops none hc with k | ⟨o', k⟩
          · exact k
          · cases k
        have hw := (inv_log (inv_run files ops) m).2.2.2
        rw [hc] at hw
        refine ⟨p, (if o then ((run files ops).files p).getD [] else []) ++ [m], hp, ?_, ?_⟩
        · rw [run_append]
          show (log (run files ops) m).files p = _
          rw [hw, writeTo, write, Function.update_self]
        · simp
  · left
    rw [stderr_copies]
    refine List.mem_append_right _ ?_
    rw [List.mem_replicate]
    exact ⟨c, rfl⟩

/-- **Switching off is not silence**: without a log file, messages go to the standard output as soon as standard error is switched off. -/
theorem silence_fails (files : P → Option (List M)) (m : M) : (run files [.logToStdErr false, .log m]).out = [m] :=
  stdout_exact files [.logToStdErr false] m

example : (run (fun _ => none) [.logToStdErr false, .setLogFile 7, .log "a"] : St ℕ String).out = [] :=
  stdout_exact (fun _ : ℕ => none) [.logToStdErr false, .setLogFile 7] "a"

theorem files_quiet (files : P → Option (List M)) (pre : List (Op P M)) : ∀ post : List (Op P M), paths post = [] → ∀ p o, current pre none = some (p, o) →
    current (pre ++ post) none = some (p, o || !(messages post).isEmpty) ∧
    (run files (pre ++ post)).files = if messages post = [] then (run files pre).files else
      Function.update (run files pre).files p (some ((if o then ((run files pre).files p).getD [] else []) ++ messages post)) := by
  intro post
  induction post using List.reverseRecOn with
  | nil => intro _ p o h; simp [messages, h]
  | append_singleton post a ih =>
    intro hp p o h
    have hp' : paths post = [] ∧ paths [a] = [] := by
      have : paths (post ++ [a]) = paths post ++ paths [a] := List.filterMap_append
      rw [this] at hp
      exact List.append_eq_nil_iff.1 hp
    have hm : messages (post ++ [a]) = messages post ++ messages [a] := List.filterMap_append
    obtain ⟨i1, i2⟩ := ih hp'.1 p o h
    rw [← List.append_assoc, run_append, current_snoc, i1, hm]
    cases a with
    | setLogFile q => exact absurd hp'.2 (by simp [paths])
    | logToStdErr b =>
      have e : messages [(.logToStdErr b : Op P M)] = [] := rfl
      rw [e, List.append_nil]
      refine ⟨rfl, ?_⟩
      have : (step (run files (pre ++ post)) (.logToStdErr b)).files = (run files (pre ++ post)).files := by
        show (logToStdErr _ b).files = _
        unfold logToStdErr
        cases b <;> cases (run files (pre ++ post)).stdErrorSink <;> rfl
      rw [this, i2]
    | log m =>
      have e : messages [(.log m : Op P M)] = [m] := rfl
      rw [e]
      have hw := (inv_log (inv_run files (pre ++ post)) m).2.2.2
      rw [i1] at hw
      refine ⟨?_, ?_⟩
      · show some (p, true) = _
        have : (messages post ++ [m]).isEmpty = false := by cases messages post <;> rfl
        rw [this]
        simp
      rw [show (step (run files (pre ++ post)) (.log m)).files = _ from hw, i2,
        if_neg (show ¬(messages post ++ [m] = []) by simp), writeTo, write]
      by_cases k : messages post = []
      · cases o <;> simp [k]
      · simp [k]

/-- **Contents of log files**: the messages logged since `SetLogFile`, in order and each once, are the contents of the file, whatever happens to
standard error meanwhile; no other file changes.  A file that is set but receives no message is left as it was. -/
theorem file_contents (files : P → Option (List M)) (pre post : List (Op P M)) (p : P) (h : paths post = []) (q : P) :
    (run files (pre ++ .setLogFile p :: post)).files q =
      if q = p ∧ messages post ≠ [] then some (messages post) else (run files pre).files q := by
  have hc : current (pre ++ [.setLogFile p]) none = some (p, false) := current_snoc pre (.setLogFile p) none
  have h2 := (files_quiet files (pre ++ [.setLogFile p]) post h p false hc).2
  rw [List.append_assoc, List.singleton_append] at h2
  rw [h2, run_append]
  have e : (step (run files pre) (.setLogFile p)).files = (run files pre).files := by
    show (setLogFile _ p).files = _
    unfold setLogFile
    cases (run files pre).fileSink <;> rfl
  rw [e]
  by_cases k : messages post = []
  · simp [k]
  · by_cases kq : q = p
    · simp [k, kq]
    · simp [k, kq]

/-- Two files one after the other, and the first one again. -/
example : (run (fun _ => some ["old"]) [.setLogFile 1, .log "a", .setLogFile 2, .log "b", .logToStdErr false, .log "c"] : St ℕ String).files 2 = some ["b", "c"] :=
  file_contents (fun _ : ℕ => some ["old"]) [.setLogFile 1, .log "a"] [.log "b", .logToStdErr false, .log "c"] 2 rfl 2

/-- **Without `SetLogFile`** no file changes. -/
theorem files_kept (files : P → Option (List M)) (ops : List (Op P M)) (h : paths ops = []) : (run files ops).files = files := by
  induction ops using List.reverseRecOn with
  | nil => rfl
  | append_singleton ops a ih =>
    have hp' : paths ops = [] ∧ paths [a] = [] := by
      have : paths (ops ++ [a]) = paths ops ++ paths [a] := List.filterMap_append
      rw [this] at h
      exact List.append_eq_nil_iff.1 h
    rw [run_append]
    cases a with
    | setLogFile q => exact absurd hp'.2 (by simp [paths])
    | logToStdErr b =>
      refine Eq.trans ?_ (ih hp'.1)
      show (logToStdErr _ b).files = _
      unfold logToStdErr
      cases b <;> cases (run files ops).stdErrorSink <;> rfl
    | log m =>
      have hw := (inv_log (inv_run files ops) m).2.2.2
      have e : current ops none = none := by
        have := paths_current ops none
        rw [hp'.1] at this
        simpa using this
      rw [e] at hw
      exact hw.trans (ih hp'.1)

example : (run (fun _ => some ["old"]) [.log "a", .logToStdErr false, .log "b"] : St ℕ String).files 3 = some ["old"] := by
  rw [files_kept _ _ rfl]

/-- **Setting a log file does not empty it** (against the documentation of `SetLogFile`, src/pyslat.py:304): its old contents stay until the first
message. -/
theorem emptied_fails (files : P → Option (List M)) (p : P) : (run files [.setLogFile p]).files p = files p := by
  have := file_contents files [] [] p rfl p
  simpa [messages, run, initialise, init, add] using this

/-- **The `log` command of a script** with `--nostderr` and a file, if no earlier command switched standard error on again: from there on until the next
`log` command, messages go to the file and nowhere else. -/
theorem command_quiet (files : P → Option (List M)) (pre : List (Op P M)) (p : P) (ms : List M) (h : true ∉ (flags pre).dropWhile id) :
    (run files (pre ++ command (some .noStdErr) (some p) ++ ms.map .log)).err = (run files pre).err ∧
    (run files (pre ++ command (some .noStdErr) (some p) ++ ms.map .log)).out = (run files pre).out ∧
    (ms ≠ [] → (run files (pre ++ command (some .noStdErr) (some p) ++ ms.map .log)).files p = some ms) := by
  have e : (command (some .noStdErr) (some p) : List (Op P M)) = [.logToStdErr false, .setLogFile p] := rfl
  rw [e]
  have fm : ∀ ms : List M, flags (ms.map (.log : M → Op P M)) = [] := by
    intro ms
    induction ms with
    | nil => rfl
    | cons a ms ih => exact ih
  have mm : ∀ ms : List M, messages (ms.map (.log : M → Op P M)) = ms := by
    intro ms
    induction ms with
    | nil => rfl
    | cons a ms ih => exact congrArg (a :: ·) ih
  have pm : ∀ ms : List M, paths (ms.map (.log : M → Op P M)) = [] := by
    intro ms
    induction ms with
    | nil => rfl
    | cons a ms ih => exact ih
  have hfl : ∀ ms : List M, flags (pre ++ [.logToStdErr false, .setLogFile p] ++ ms.map (.log : M → Op P M)) = flags pre ++ [false] := by
    intro ms
    rw [flags, List.filterMap_append, List.filterMap_append]
    show flags pre ++ [false] ++ flags _ = _
    rw [fm, List.append_nil]
  have hpa : ∀ ms : List M, paths (pre ++ [.logToStdErr false, .setLogFile p] ++ ms.map (.log : M → Op P M)) ≠ [] := by
    intro ms
    rw [paths, List.filterMap_append, List.filterMap_append]
    show paths pre ++ [p] ++ paths _ ≠ _
    simp
  have hco : ∀ ms : List M, copies (pre ++ [.logToStdErr false, .setLogFile p] ++ ms.map (.log : M → Op P M)) = 0 := by
    intro ms
    rw [copies, hfl, if_pos (by simp), List.count_eq_zero]
    by_cases k : false ∈ flags pre
    · rw [dropWhile_snoc _ k]
      simpa using h
    · have : ∀ x ∈ flags pre, id x = true := by
        intro x hx
        cases x
        · exact absurd hx k
        · rfl
      rw [List.dropWhile_append_of_pos this]
      simp
  refine ⟨?_, ?_, ?_⟩
  · induction ms using List.reverseRecOn with
    | nil =>
      rw [List.map_nil, List.append_nil, ← List.singleton_append, ← List.append_assoc, run_append, run_append]
      show (setLogFile (logToStdErr _ false) p).err = _
      unfold setLogFile logToStdErr
      cases (run files pre).stdErrorSink <;> cases hh : (run files pre).fileSink <;> simp [remove, add, hh]
    | append_singleton ms m ih =>
      rw [List.map_append, ← List.append_assoc]
      show (run files (_ ++ [.log m])).err = _
      rw [stderr_copies, hco, ih, List.replicate_zero, List.append_nil]
  · induction ms using List.reverseRecOn with
    | nil =>
      rw [List.map_nil, List.append_nil, ← List.singleton_append, ← List.append_assoc, run_append, run_append]
      show (setLogFile (logToStdErr _ false) p).out = _
      unfold setLogFile logToStdErr
      cases (run files pre).stdErrorSink <;> cases hh : (run files pre).fileSink <;> simp [remove, add, hh]
    | append_singleton ms m ih =>
      rw [List.map_append, ← List.append_assoc]
      show (run files (_ ++ [.log m])).out = _
      rw [stdout_exact, if_neg (fun c => hpa ms c.2), ih, List.append_nil]
  · intro ne
    have := file_contents files (pre ++ [.logToStdErr false]) (ms.map .log) p (pm ms) p
    rw [mm, if_pos ⟨rfl, ne⟩] at this
    rw [← this]
    congr 2
    simp

example : (run (fun _ => none) ([.log "a"] ++ command (some .noStdErr) (some 4) ++ ["b", "c"].map .log) : St ℕ String).err = ["a"] :=
  (command_quiet (fun _ : ℕ => none) [.log "a"] 4 ["b", "c"] (by simp [flags])).1

end Slat.Sink
