import Verif.TallyModel
import Verif.StatsProps
import Verif.SettingsProps

/-!
# The report on the integrations (C97)
-/

namespace Slat.Tally

open Slat Stats

noncomputable section

/-! ## Specification -/

/-- The lines of a text. -/
def Spec.split : List Char → List Char → List (List Char)
  | line, [] => [line]
  | line, '\n' :: t => line :: Spec.split [] t
  | line, c :: t => Spec.split (line ++ [c]) t

/-- What stands behind a heading: the rest of the first line that starts with it and a colon. -/
def Spec.entry (heading : String) (text : List Char) : Option (List Char) :=
  (Spec.split [] text).findSome? fun l => (heading.toList ++ ": ".toList).isPrefixOf? l

/-- The number behind a heading. -/
def Spec.number (heading : String) (text : List Char) : Option ℕ :=
  (Spec.entry heading text).map fun l => l.foldl (fun n c => 10 * n + (c.toNat - '0'.toNat)) 0

/-- The names of the methods, for their numbers (/repo/src/pyslatcore.h:14-18). -/
def Spec.names : List String :=
  ["Binary Subdivision", "Reverse Binary Subdivision", "Low-First Reverse Binary Subdivision", "Scattered", "Directed"]

/-- The number of the method in force. -/
def Spec.methodIn : List Item → ℕ
  | [] => 4
  | .method k :: p => if k < 5 then k else Spec.methodIn p
  | .setting .reset :: _ => 4
  | .setting (.setMethod m) :: _ => match m with
    | .binary => 0 | .reverse => 1 | .lowFirst => 2 | .scattered => 3 | .directed => 4
  | _ :: p => Spec.methodIn p

/-- The requests for settings. -/
def Spec.requests (p : List Item) : List Settings.Op :=
  p.filterMap fun i => match i with | .setting op => some op | _ => none

/-- The `MAQ` calls since the last reset. -/
def Spec.since : List Item → List Call
  | [] => []
  | .resetStatistics :: _ => []
  | .calculation evs :: p => Spec.since p ++ started evs
  | _ :: p => Spec.since p

/-- All `MAQ` calls of a calculation have ended when it returns. -/
def Spec.Complete (p : List Item) : Prop :=
  ∀ q evs r, p = q ++ .calculation evs :: r → ∀ l ∈ (calls (run q).counters evs).running, l = []

/-- The `MAQ` calls of a calculation come one after the other. -/
def Spec.OneByOne (p : List Item) : Prop :=
  ∀ q evs r, p = q ++ .calculation evs :: r → ∀ l c t, evs = l ++ .start c :: t →
    ∀ x ∈ (calls (run q).counters l).running, x = []

/-! ## Lemmas -/

theorem split_line (a line t : List Char) (h : '\n' ∉ line) :
    Spec.split a (line ++ '\n' :: t) = (a ++ line) :: Spec.split [] t := by
  induction line generalizing a with
  | nil => simp [Spec.split]
  | cons c line ih =>
    rw [List.mem_cons, not_or] at h
    rw [List.cons_append, Spec.split, ih _ h.2, List.append_assoc, List.singleton_append]
    exact fun e => h.1 e.symm

theorem split_lines (ls : List (List Char)) (h : ∀ l ∈ ls, '\n' ∉ l) :
    Spec.split [] (ls.flatMap (· ++ ['\n'])) = ls ++ [[]] := by
  induction ls with
  | nil => rfl
  | cons l ls ih =>
    rw [List.flatMap_cons, List.append_assoc, List.singleton_append, split_line _ _ _ (h l List.mem_cons_self),
      ih fun m hm => h m (List.mem_cons_of_mem _ hm)]
    rfl

theorem decimal_line (n : ℕ) : '\n' ∉ decimal n := by
  intro h
  have := Nat.isDigit_of_mem_toDigits (by norm_num) (by norm_num) h
  revert this
  decide

theorem decimal_value (n : ℕ) : (decimal n).foldl (fun n c => 10 * n + (c.toNat - '0'.toNat)) 0 = n := by
  have := Nat.ofDigitChars_ten_toDigits (n := n)
  rw [Nat.ofDigitChars_eq_foldl] at this
  exact this

theorem method_line (m : Maq.Method) : '\n' ∉ methodText m := by cases m <;> decide

theorem lines_single {double : Dbl → List Char} (hd : ∀ t, '\n' ∉ double t) (c : Maq.Cfg) (s : Counters) :
    ∀ l ∈ lines double c s, '\n' ∉ l := by
  intro l hl
  simp only [lines, List.mem_cons, List.not_mem_nil, or_false] at hl
  rcases hl with rfl | rfl | rfl | rfl | rfl | rfl | rfl | rfl | rfl | rfl | rfl | rfl | rfl | rfl <;>
    (try simp only [List.mem_append, not_or]) <;>
    first
      | exact ⟨by decide, hd _⟩
      | exact ⟨by decide, method_line _⟩
      | exact ⟨by decide, decimal_line _⟩
      | decide

theorem entries (double : Dbl → List Char) (hd : ∀ t, '\n' ∉ double t) (c : Maq.Cfg) (s : Counters) :
    let text := (lines double c s).flatMap (· ++ ['\n'])
    Spec.entry "Search Algorithm" text = some (methodText c.method) ∧
    Spec.entry "Tolerance" text = some (double c.tol) ∧
    Spec.entry "Integration Eval Limit" text = some (decimal c.maxeval) ∧
    Spec.entry "Search Eval Limit" text = some (decimal c.bineval) ∧
    Spec.entry "Max Integration Evals" text = some (decimal s.maxInt) ∧
    Spec.entry "Integration Failures" text = some (decimal s.intFails) ∧
    Spec.entry "Total Integration Evals" text = some (decimal s.totalInt) ∧
    Spec.entry "Max Search Evals" text = some (decimal s.maxSearch) ∧
    Spec.entry "Number Search Fails" text = some (decimal s.searchFails) ∧
    Spec.entry "Total Search Evals" text = some (decimal s.totalSearch) ∧
    Spec.entry "Number of Calls" text = some (decimal s.calls) ∧
    Spec.entry "Successes" text = some (decimal s.successes) ∧
    Spec.entry "NANs" text = some (decimal s.nans) := by
  simp only [Spec.entry, split_lines _ (lines_single hd c s)]
  refine ⟨?_, ?_, ?_, ?_, ?_, ?_, ?_, ?_, ?_, ?_, ?_, ?_, ?_⟩ <;>
    simp [lines, List.isPrefixOf?]

/-! ### Counters -/

/-- A schedule of calls that come after `k` others. -/
def later (k : ℕ) : Ev → Ev
  | .start c => .start c
  | .step i => .step (k + i)

theorem next_later (c : Counters) (e r : List (List Act)) (ev : Ev) :
    next ⟨c, e ++ r⟩ (later e.length ev) = ⟨(next ⟨c, r⟩ ev).counters, e ++ (next ⟨c, r⟩ ev).running⟩ := by
  cases ev with
  | start c' => simp [next, later]
  | step i =>
    simp only [next, later]
    rw [List.getElem?_append_right (Nat.le_add_right _ _), Nat.add_sub_cancel_left]
    split
    · simp [List.set_append_right]
    · rfl

theorem calls_later (evs : List Ev) (c : Counters) (e r : List (List Act)) :
    (evs.map (later e.length)).foldl next ⟨c, e ++ r⟩ =
      ⟨(evs.foldl next ⟨c, r⟩).counters, e ++ (evs.foldl next ⟨c, r⟩).running⟩ := by
  induction evs generalizing c r with
  | nil => rfl
  | cons ev evs ih =>
    rw [List.map_cons, List.foldl_cons, next_later, ih]
    rfl

theorem started_later (k : ℕ) (evs : List Ev) : started (evs.map (later k)) = started evs := by
  induction evs with
  | nil => rfl
  | cons ev evs ih =>
    cases ev
    · simp only [started, List.map_cons, later, List.filterMap_cons] at ih ⊢
      rw [ih]
    · simp only [started, List.map_cons, later, List.filterMap_cons] at ih ⊢
      exact ih

theorem run_later (evs evs' : List Ev) :
    Stats.run (evs ++ evs'.map (later (Stats.run evs).running.length)) =
      ⟨(calls (Stats.run evs).counters evs').counters,
        (Stats.run evs).running ++ (calls (Stats.run evs).counters evs').running⟩ := by
  have := calls_later evs' (Stats.run evs).counters (Stats.run evs).running []
  rw [List.append_nil] at this
  rw [Stats.run, List.foldl_append]
  exact this

theorem map_later_start {k : ℕ} {evs l r : List Ev} {c : Call} (h : evs.map (later k) = l ++ .start c :: r) :
    ∃ l' r', evs = l' ++ .start c :: r' ∧ l = l'.map (later k) := by
  obtain ⟨l', t, rfl, h1, h2⟩ := List.map_eq_append_iff.1 h
  obtain ⟨e, r', rfl, h3, h4⟩ := List.map_eq_cons_iff.1 h2
  cases e with
  | start c' =>
    cases h3
    exact ⟨l', r', rfl, h1.symm⟩
  | step i => cases h3

theorem sequential_later {evs evs' : List Ev} (h1 : Sequential evs) (h2 : Quiescent (Stats.run evs))
    (h : ∀ l c t, evs' = l ++ .start c :: t → ∀ x ∈ (calls (Stats.run evs).counters l).running, x = []) :
    Sequential (evs ++ evs'.map (later (Stats.run evs).running.length)) := by
  intro l c r e
  rcases List.append_eq_append_iff.1 e with ⟨a, rfl, e'⟩ | ⟨a, e', e''⟩
  · obtain ⟨l', r', hl, rfl⟩ := map_later_start e'
    rw [run_later]
    intro x hx
    rcases List.mem_append.1 hx with hx | hx
    · exact h2 x hx
    · exact h _ _ _ hl x hx
  · cases a with
    | nil =>
      rw [List.append_nil] at e'
      rw [← e']
      exact h2
    | cons b a =>
      cases e''
      exact h1 l c a e'

/-- The counters are those of one schedule of all calls since the last reset. -/
theorem counters_since (p : List Item) (h : Spec.Complete p) :
    ∃ evs, (run p).counters = (Stats.run evs).counters ∧ Quiescent (Stats.run evs) ∧
      started evs = Spec.since p.reverse ∧ (Spec.OneByOne p → Sequential evs) := by
  have none_ : Sequential [] := by
    intro l c r e
    simp at e
  induction p using List.reverseRecOn with
  | nil => exact ⟨[], rfl, by simp [Quiescent, Stats.run, init], rfl, fun _ => none_⟩
  | append_singleton p i ih =>
    obtain ⟨evs, h1, h2, h3, h4⟩ := ih fun q e r hq => h q e (r ++ [i]) (by simp [hq])
    have hr : run (p ++ [i]) = step (run p) i := by simp [run, List.foldl_append]
    have ho : Spec.OneByOne (p ++ [i]) → Spec.OneByOne p := fun h q e r hq => h q e (r ++ [i]) (by simp [hq])
    rw [hr, List.reverse_append]
    cases i with
    | setting op => exact ⟨evs, h1, h2, h3, fun h => h4 (ho h)⟩
    | method k =>
      refine ⟨evs, ?_, h2, h3, fun h => h4 (ho h)⟩
      simp only [step]
      split <;> exact h1
    | resetStatistics => exact ⟨[], rfl, by simp [Quiescent, Stats.run, init], rfl, fun _ => none_⟩
    | query => exact ⟨evs, h1, h2, h3, fun h => h4 (ho h)⟩
    | calculation evs' =>
      have hc := h p evs' [] rfl
      have e := run_later evs evs'
      rw [← h1] at e
      refine ⟨evs ++ evs'.map (later (Stats.run evs).running.length), ?_, ?_, ?_, fun h' => ?_⟩
      · rw [e]
        rfl
      · rw [e]
        intro l hl
        rcases List.mem_append.1 hl with hl | hl
        · exact h2 l hl
        · exact hc l hl
      · have : started (evs ++ evs'.map (later (Stats.run evs).running.length)) = started evs ++ started evs' := by
          rw [← started_later (Stats.run evs).running.length evs']
          simp [started]
        rw [this, h3]
        rfl
      · exact sequential_later (h4 (ho h')) h2 (by rw [← h1]; exact h' p evs' [] rfl)

/-! ### Settings -/

theorem settings_in (p : List Item) :
    (run p).cfg.tol = Settings.lastRequest Settings.tolRequest (.fin (1 / 1000)) (Spec.requests p) ∧
    (run p).cfg.maxeval = Settings.lastRequest Settings.evalRequest 2048 (Spec.requests p) ∧
    (run p).cfg.bineval = Settings.lastRequest Settings.searchRequest 2048 (Spec.requests p) ∧
    some (methodText (run p).cfg.method) = (Spec.names[Spec.methodIn p.reverse]?).map String.toList := by
  induction p using List.reverseRecOn with
  | nil => exact ⟨rfl, rfl, rfl, rfl⟩
  | append_singleton p i ih =>
    obtain ⟨h1, h2, h3, h4⟩ := ih
    have hr : run (p ++ [i]) = step (run p) i := by simp [run, List.foldl_append]
    have hq : Spec.requests (p ++ [i]) = Spec.requests p ++ Spec.requests [i] := by simp [Spec.requests]
    rw [hr, hq, List.reverse_append]
    cases i with
    | setting op =>
      simp only [Spec.requests, List.filterMap_cons, List.filterMap_nil] at h1 h2 h3 ⊢
      rw [Settings.lastRequest_append, Settings.lastRequest_append, Settings.lastRequest_append, ← h1, ← h2, ← h3]
      cases op with
      | setTolerance t =>
        by_cases ht : Dbl.fin 0 < t <;>
          simpa [step, Settings.step, Settings.setTolerance, Settings.tolRequest, Settings.evalRequest,
            Settings.searchRequest, ht, Spec.methodIn] using h4
      | setEvalLimit n =>
        by_cases ht : n.val = 0 <;>
          simpa [step, Settings.step, Settings.setEvalLimit, Settings.tolRequest, Settings.evalRequest,
            Settings.searchRequest, ht, Nat.pos_iff_ne_zero, Spec.methodIn] using h4
      | setSearchLimit n =>
        by_cases ht : n.val = 0 <;>
          simpa [step, Settings.step, Settings.setSearchLimit, Settings.tolRequest, Settings.evalRequest,
            Settings.searchRequest, ht, Nat.pos_iff_ne_zero, Spec.methodIn] using h4
      | setMethod m =>
        refine ⟨rfl, rfl, rfl, ?_⟩
        cases m <;> rfl
      | useDefaultTolerance => exact ⟨rfl, rfl, rfl, h4⟩
      | useDefaultEvalLimit => exact ⟨rfl, rfl, rfl, h4⟩
      | reset => exact ⟨rfl, rfl, rfl, rfl⟩
      | both t n =>
        by_cases ht : Dbl.fin 0 < t <;> by_cases hn : n.val = 0 <;>
          simpa [step, Settings.step, Settings.setTolerance, Settings.setEvalLimit, Settings.tolRequest,
            Settings.evalRequest, Settings.searchRequest, ht, hn, Nat.pos_iff_ne_zero, Spec.methodIn] using h4
    | method k =>
      rw [show Spec.requests [Item.method k] = [] from rfl, List.append_nil]
      match k with
      | 0 | 1 | 2 | 3 | 4 => exact ⟨h1, h2, h3, rfl⟩
      | k + 5 =>
        refine ⟨h1, h2, h3, ?_⟩
        have : ¬ k + 5 < 5 := by omega
        simpa [step, chosen, Spec.methodIn, this] using h4
    | resetStatistics | query | calculation _ =>
      simp only [Spec.requests, List.filterMap_cons, List.filterMap_nil, List.append_nil] at h1 h2 h3 ⊢
      exact ⟨h1, h2, h3, h4⟩

/-! ## C97 -/

/-- **C97.** What `Format_Statistics` says about the settings: the text behind each heading is that of the setting in force,
whatever was set, refused, calculated, reset or reported before. -/
theorem report_settings (double : Dbl → List Char) (hd : ∀ t, '\n' ∉ double t) (p : List Item) :
    let text := (formatStatistics double (run p)).1
    Spec.entry "Search Algorithm" text = (Spec.names[Spec.methodIn p.reverse]?).map String.toList ∧
    Spec.entry "Tolerance" text =
      some (double (Settings.lastRequest Settings.tolRequest (.fin (1 / 1000)) (Spec.requests p))) ∧
    Spec.number "Integration Eval Limit" text =
      some (Settings.lastRequest Settings.evalRequest 2048 (Spec.requests p)) ∧
    Spec.number "Search Eval Limit" text =
      some (Settings.lastRequest Settings.searchRequest 2048 (Spec.requests p)) := by
  obtain ⟨h1, h2, h3, h4⟩ := settings_in p
  obtain ⟨e1, e2, e3, e4, -⟩ := entries double hd (getStatistics (run p)).copied (run p).counters
  refine ⟨e1.trans h4, ?_, ?_, ?_⟩
  · rw [← h1]
    exact e2
  · rw [← h2, Spec.number]
    exact (congrArg _ e3).trans (congrArg some (decimal_value _))
  · rw [← h3, Spec.number]
    exact (congrArg _ e4).trans (congrArg some (decimal_value _))

/-- **C97.** What `Format_Statistics` says about the integrations: the numbers behind the headings are those of all
integrations since the last reset, also of those that ran at the same time, as far as the counters go. The largest
numbers are ones that some integration had, or zero. -/
theorem report_counts (double : Dbl → List Char) (hd : ∀ t, '\n' ∉ double t) (p : List Item) (hp : Spec.Complete p) :
    let text := (formatStatistics double (run p)).1
    let since := Spec.since p.reverse
    Spec.number "Number of Calls" text = some (since.length % 2 ^ 32) ∧
    Spec.number "Successes" text = some (since.countP Call.isSuccess % 2 ^ 32) ∧
    Spec.number "Number Search Fails" text = some (since.countP Call.isSearchFail % 2 ^ 32) ∧
    Spec.number "Integration Failures" text = some (since.countP Call.isFail % 2 ^ 32) ∧
    Spec.number "NANs" text = some (since.countP Call.isNan % 2 ^ 32) ∧
    Spec.number "Total Search Evals" text = some ((since.filterMap Call.searchEvals).sum % 2 ^ 64) ∧
    Spec.number "Total Integration Evals" text = some ((since.filterMap Call.evals).sum % 2 ^ 64) ∧
    (∃ n, Spec.number "Max Search Evals" text = some n ∧ (n = 0 ∨ ∃ c ∈ since, c.searchEvals = some n)) ∧
    (∃ n, Spec.number "Max Integration Evals" text = some n ∧ (n = 0 ∨ ∃ c ∈ since, c.fullEvals = some n)) := by
  obtain ⟨evs, h1, h2, h3, -⟩ := counters_since p hp
  obtain ⟨c1, c2, c3, c4, c5, c6, c7⟩ := counters_are_exact evs h2
  have m1 := maxima_are_attained evs true
  have m2 := maxima_are_attained evs false
  rw [h3] at c1 c2 c3 c4 c5 c6 c7 m1 m2
  rw [← h1] at c1 c2 c3 c4 c5 c6 c7 m1 m2
  obtain ⟨-, -, -, -, e5, e6, e7, e8, e9, e10, e11, e12, e13⟩ :=
    entries double hd (getStatistics (run p)).copied (run p).counters
  have key : ∀ {s : String} {n : ℕ}, Spec.entry s (formatStatistics double (run p)).1 = some (decimal n) →
      Spec.number s (formatStatistics double (run p)).1 = some n := by
    intro s n h
    rw [Spec.number, h, Option.map_some, decimal_value]
  refine ⟨?_, ?_, ?_, ?_, ?_, ?_, ?_, ⟨_, key e8, m1⟩, ⟨_, key e5, m2⟩⟩
  · rw [← c1]; exact key e11
  · rw [← c2]; exact key e12
  · rw [← c3]; exact key e9
  · rw [← c4]; exact key e6
  · rw [← c5]; exact key e13
  · rw [← c6]; exact key e10
  · rw [← c7]; exact key e7

/-- **C97.** The largest numbers of the report, if no two integrations ran at the same time: the most evaluations of any
search that ended, and of any integration that did. -/
theorem report_maxima_partial (double : Dbl → List Char) (hd : ∀ t, '\n' ∉ double t) (p : List Item)
    (hp : Spec.Complete p) (ho : Spec.OneByOne p) :
    let text := (formatStatistics double (run p)).1
    Spec.number "Max Search Evals" text = some (((Spec.since p.reverse).filterMap Call.searchEvals).foldr max 0) ∧
    Spec.number "Max Integration Evals" text = some (((Spec.since p.reverse).filterMap Call.fullEvals).foldr max 0) := by
  obtain ⟨evs, h1, h2, h3, h4⟩ := counters_since p hp
  obtain ⟨c1, c2⟩ := maxima_exact_partial evs (h4 ho) h2
  rw [h3, ← h1] at c1 c2
  obtain ⟨-, -, -, -, e5, -, -, e8, -⟩ := entries double hd (getStatistics (run p)).copied (run p).counters
  constructor
  · rw [← largest, ← c1, Spec.number]
    exact (congrArg _ e8).trans (congrArg some (decimal_value _))
  · rw [← largest, ← c2, Spec.number]
    exact (congrArg _ e5).trans (congrArg some (decimal_value _))

/-- **C97, what fails**: after integrations at the same time the report can name a number that is too small. -/
theorem report_maximum_fails (double : Dbl → List Char) (hd : ∀ t, '\n' ∉ double t) : ∃ p, Spec.Complete p ∧
    Spec.since p.reverse = [.success 10 14, .success 5 9] ∧
    Spec.number "Max Search Evals" (formatStatistics double (run p)).1 = some 5 := by
  obtain ⟨evs, h1, h2, h3, -⟩ := maximum_race_fails
  refine ⟨[.calculation evs], ?_, h2, ?_⟩
  · intro q e r h
    rcases List.append_eq_cons_iff.1 h.symm with ⟨rfl, h⟩ | ⟨t, rfl, h⟩
    · cases h
      exact h1
    · simp at h
  · obtain ⟨-, -, -, -, -, -, -, e8, -⟩ :=
      entries double hd (getStatistics (run [.calculation evs])).copied (run [.calculation evs]).counters
    rw [Spec.number]
    refine (congrArg _ e8).trans ?_
    rw [Option.map_some, decimal_value]
    exact congrArg some h3

/-! ## A program -/

/-- Settings, one of them refused, a method that does not exist, integrations before and after a reset; those after it
overlap. -/
def sample : List Item :=
  [.setting (.setTolerance (.fin (1 / 100))), .setting (.setEvalLimit 512), .setting (.setEvalLimit 0), .method 1,
    .method 9, .calculation twoCalls, .query, .resetStatistics,
    .calculation [.start (.success 10 14), .start (.nan 5 7), .step 0, .step 1, .step 0, .step 1, .step 0, .step 1,
      .step 0, .step 1, .step 1, .step 1, .step 1, .step 0, .step 0, .step 0, .step 0, .step 0],
    .setting (.setSearchLimit 64)]

theorem sample_complete : Spec.Complete sample := by
  intro q evs r h
  have hq : q = sample.take q.length := by rw [h]; simp
  have hc : sample[q.length]? = some (.calculation evs) := by rw [h]; simp
  have hl : q.length < 10 := by
    have := congrArg List.length h
    simp [sample] at this
    omega
  rw [hq]
  generalize q.length = n at hl hc
  interval_cases n <;> simp [sample] at hc <;> subst hc
  · decide
  · decide

example (double : Dbl → List Char) (hd : ∀ t, '\n' ∉ double t) :
    let text := (formatStatistics double (run sample)).1
    Spec.entry "Search Algorithm" text = some "Reverse Binary Subdivision".toList ∧
    Spec.entry "Tolerance" text = some (double (.fin (1 / 100))) ∧
    Spec.number "Integration Eval Limit" text = some 512 ∧ Spec.number "Search Eval Limit" text = some 64 := by
  obtain ⟨h1, h2, h3, h4⟩ := report_settings double hd sample
  refine ⟨h1, h2.trans ?_, h3, h4⟩
  congr 2
  simp [Settings.lastRequest, Spec.requests, sample, Settings.tolRequest, List.filterMap_cons]

example (double : Dbl → List Char) (hd : ∀ t, '\n' ∉ double t) :
    let text := (formatStatistics double (run sample)).1
    Spec.number "Number of Calls" text = some 2 ∧ Spec.number "Successes" text = some 1 ∧
    Spec.number "NANs" text = some 1 ∧ Spec.number "Total Search Evals" text = some 15 ∧
    Spec.number "Total Integration Evals" text = some 21 := by
  obtain ⟨h1, h2, -, -, h5, h6, h7, -⟩ := report_counts double hd sample sample_complete
  exact ⟨h1, h2, h5, h6, h7⟩

/-- One call after the other. -/
theorem two_onebyone : Spec.OneByOne [.query, .calculation twoCalls] ∧ Spec.Complete [.query, .calculation twoCalls] := by
  have key : ∀ q evs r, [Item.query, .calculation twoCalls] = q ++ .calculation evs :: r → q = [.query] ∧ evs = twoCalls := by
    intro q evs r h
    match q with
    | [] => cases h
    | [_] =>
      cases h
      exact ⟨rfl, rfl⟩
    | _ :: _ :: _ => simp at h
  constructor
  · intro q evs r h
    obtain ⟨rfl, rfl⟩ := key q evs r h
    intro l c t hl
    have hl' : l = twoCalls.take l.length := by rw [hl]; simp
    have hlt : l.length < 14 := by
      have := congrArg List.length hl
      simp [twoCalls] at this
      omega
    have hc : twoCalls[l.length]? = some (.start c) := by rw [hl]; simp
    rw [hl']
    generalize l.length = n at hlt hc
    interval_cases n <;> first | (simp [twoCalls] at hc; done) | decide
  · intro q evs r h
    obtain ⟨rfl, rfl⟩ := key q evs r h
    decide

example (double : Dbl → List Char) (hd : ∀ t, '\n' ∉ double t) :
    let text := (formatStatistics double (run [.query, .calculation twoCalls])).1
    Spec.number "Max Search Evals" text = some 10 ∧ Spec.number "Max Integration Evals" text = some 9 :=
  report_maxima_partial double hd _ two_onebyone.2 two_onebyone.1

end

end Slat.Tally
