import Verif.StatsModel
import Verif.MaqProps
import Mathlib.Tactic.IntervalCases

/-!
# Properties of the integration statistics (C36)
-/

namespace Slat.Stats

/-! ### Specification: what was started, and what each call contributes -/

/-- The calls started in a schedule, in order. -/
def started (evs : List Ev) : List Call :=
  evs.filterMap fun e => match e with
    | .start c => some c
    | .step _ => none

/-- Evaluations of a completed search. -/
def Call.searchEvals : Call → Option ℕ
  | .searchThrows => none
  | .searchFail n | .integrationThrows n | .nan n _ | .success n _ | .fail n _ => some n

/-- Evaluations reported by an integration that ended, with or without a number. -/
def Call.evals : Call → Option ℕ
  | .nan _ c | .success _ c | .fail _ c => some c
  | _ => none

/-- Evaluations of an integration that ran to its end (NaN excluded). -/
def Call.fullEvals : Call → Option ℕ
  | .success _ c | .fail _ c => some c
  | _ => none

def Call.isSuccess : Call → Bool
  | .success _ _ => true
  | _ => false

def Call.isFail : Call → Bool
  | .fail _ _ => true
  | _ => false

def Call.isNan : Call → Bool
  | .nan _ _ => true
  | _ => false

def Call.isSearchFail : Call → Bool
  | .searchFail _ => true
  | _ => false

def Call.isThrow : Call → Bool
  | .searchThrows | .integrationThrows _ => true
  | _ => false

/-- All calls have finished. -/
def Quiescent (σ : State) : Prop := ∀ p ∈ σ.running, p = []

/-- No call starts before the previous ones have finished. -/
def Sequential (evs : List Ev) : Prop := ∀ l c r, evs = l ++ .start c :: r → Quiescent (run l)

/-- The largest number of a list, 0 if empty. -/
def largest (l : List ℕ) : ℕ := l.foldr max 0

/-! ### Lemmas -/

theorem run_append (evs : List Ev) (e : Ev) : run (evs ++ [e]) = next (run evs) e := by
  simp [run, List.foldl_append]

theorem started_start (evs : List Ev) (c : Call) : started (evs ++ [.start c]) = started evs ++ [c] := by
  simp [started]

theorem started_step (evs : List Ev) (i : ℕ) : started (evs ++ [.step i]) = started evs := by simp [started]

/-- Sum of a weight over everything still to do. -/
def pending (w : Act → ℕ) (l : List (List Act)) : ℕ := (l.map fun p => (p.map w).sum).sum

theorem pending_set (w : Act → ℕ) (l : List (List Act)) (i : ℕ) (p q : List Act) (h : l[i]? = some p) :
    pending w (l.set i q) + (p.map w).sum = pending w l + (q.map w).sum := by
  induction l generalizing i with
  | nil => simp at h
  | cons x l ih =>
    cases i with
    | zero =>
      simp only [List.getElem?_cons_zero, Option.some.injEq] at h
      subst h
      simp only [List.set_cons_zero, pending, List.map_cons, List.sum_cons]
      omega
    | succ i =>
      simp only [List.getElem?_cons_succ] at h
      have := ih i h
      simp only [List.set_cons_succ, pending, List.map_cons, List.sum_cons] at this ⊢
      omega

theorem pending_append (w : Act → ℕ) (l : List (List Act)) (p : List Act) :
    pending w (l ++ [p]) = pending w l + (p.map w).sum := by simp [pending]

theorem pending_quiescent (w : Act → ℕ) {l : List (List Act)} (h : ∀ p ∈ l, p = []) : pending w l = 0 := by
  induction l with
  | nil => rfl
  | cons x l ih =>
    have := ih fun p hp => h p (by simp [hp])
    have hx := h x (by simp)
    simp only [pending, List.map_cons, List.sum_cons, hx, List.map_nil, List.sum_nil] at this ⊢
    omega

/-- A counter that only accumulates: what it holds plus what is pending is what was started. -/
theorem additive (get : Counters → ℕ) (w : Act → ℕ) (M : ℕ)
    (hact : ∀ s a, get (act s a).1 % M = (get s + w a) % M) (hins : ∀ s a, ((act s a).2.map w).sum = 0)
    (h0 : get reset = 0) (evs : List Ev) :
    (get (run evs).counters + pending w (run evs).running) % M =
      ((started evs).map fun c => ((program c).map w).sum).sum % M := by
  induction evs using List.reverseRecOn with
  | nil => simp [run, init, pending, started, h0]
  | append_singleton evs e ih =>
    rw [run_append]
    cases e with
    | start c =>
      simp only [next, started_start, pending_append, List.map_append, List.sum_append, List.map_cons, List.map_nil,
        List.sum_cons, List.sum_nil, Nat.add_zero, ← Nat.add_assoc]
      rw [Nat.add_mod, ih, ← Nat.add_mod]
    | step i =>
      rw [started_step, ← ih]
      simp only [next]
      split
      · rename_i a rest h
        have h1 := pending_set w _ i _ ((act (run evs).counters a).2 ++ rest) h
        simp only [List.map_append, List.sum_append, hins, Nat.zero_add, List.map_cons, List.sum_cons] at h1
        have h2 := hact (run evs).counters a
        have h3 : pending w ((run evs).running.set i ((act (run evs).counters a).2 ++ rest)) + w a =
            pending w (run evs).running := by omega
        dsimp only
        rw [Nat.add_mod, h2, ← Nat.add_mod, ← h3]
        congr 1
        omega
      · rfl

theorem small (get : Counters → ℕ) (M : ℕ) (hM : 0 < M) (h0 : get reset = 0)
    (hact : ∀ s a, get s < M → get (act s a).1 < M) (evs : List Ev) : get (run evs).counters < M := by
  induction evs using List.reverseRecOn with
  | nil => simpa [run, init, h0] using hM
  | append_singleton evs e ih =>
    rw [run_append]
    cases e with
    | start c => exact ih
    | step i =>
      simp only [next]
      split
      · exact hact _ _ ih
      · exact ih

theorem additive_quiescent (get : Counters → ℕ) (w : Act → ℕ) (M : ℕ) (hM : 0 < M)
    (hact : ∀ s a, get (act s a).1 % M = (get s + w a) % M) (hsm : ∀ s a, get s < M → get (act s a).1 < M)
    (hins : ∀ s a, ((act s a).2.map w).sum = 0)
    (h0 : get reset = 0) (evs : List Ev) (hq : Quiescent (run evs)) :
    get (run evs).counters = ((started evs).map fun c => ((program c).map w).sum).sum % M := by
  rw [← additive get w M hact hins h0 evs, pending_quiescent w hq, Nat.add_zero,
    Nat.mod_eq_of_lt (small get M hM h0 hsm evs)]

theorem sum_ite_count (p : Call → Bool) (l : List Call) : (l.map fun c => if p c then 1 else 0).sum = l.countP p := by
  induction l with
  | nil => rfl
  | cons c l ih => rw [List.map_cons, List.sum_cons, ih, List.countP_cons, Nat.add_comm]

theorem sum_filterMap (f : Call → Option ℕ) (l : List Call) :
    (l.map fun c => (f c).getD 0).sum = (l.filterMap f).sum := by
  induction l with
  | nil => rfl
  | cons c l ih =>
    rw [List.map_cons, List.sum_cons, ih]
    cases h : f c <;> simp [h]

/-- **C36** Under any interleaving of any number of calls: once all calls have ended, the number of calls, of
successes, of search failures, of integration failures and of NaN results are the true ones (as 32-bit
numbers), and the two totals are the sums of the evaluations (as 64-bit numbers). -/
theorem counters_are_exact (evs : List Ev) (hq : Quiescent (run evs)) :
    (run evs).counters.calls = (started evs).length % 2 ^ 32 ∧
    (run evs).counters.successes = (started evs).countP Call.isSuccess % 2 ^ 32 ∧
    (run evs).counters.searchFails = (started evs).countP Call.isSearchFail % 2 ^ 32 ∧
    (run evs).counters.intFails = (started evs).countP Call.isFail % 2 ^ 32 ∧
    (run evs).counters.nans = (started evs).countP Call.isNan % 2 ^ 32 ∧
    (run evs).counters.totalSearch = ((started evs).filterMap Call.searchEvals).sum % 2 ^ 64 ∧
    (run evs).counters.totalInt = ((started evs).filterMap Call.evals).sum % 2 ^ 64 := by
  refine ⟨?_, ?_, ?_, ?_, ?_, ?_, ?_⟩
  · have := additive_quiescent Counters.calls (fun a => match a with | .incCalls => 1 | _ => 0) (2 ^ 32) (by norm_num)
      (fun s a => by cases a <;> simp [act, inc32]) (fun s a h => by cases a <;> simp [act, inc32] <;> omega)
      (fun s a => by cases a <;> simp only [act] <;> (try split) <;> simp) rfl evs hq
    rw [this]
    congr 1
    induction started evs with
    | nil => rfl
    | cons c l ih => rw [List.map_cons, List.sum_cons, ih, List.length_cons, Nat.add_comm]; cases c <;> rfl
  · have := additive_quiescent Counters.successes (fun a => match a with | .incSuccesses => 1 | _ => 0) (2 ^ 32)
      (by norm_num)
      (fun s a => by cases a <;> simp [act, inc32]) (fun s a h => by cases a <;> simp [act, inc32] <;> omega)
      (fun s a => by cases a <;> simp only [act] <;> (try split) <;> simp) rfl evs hq
    rw [this, ← sum_ite_count]
    congr 2
    exact List.map_congr_left fun c _ => by cases c <;> rfl
  · have := additive_quiescent Counters.searchFails (fun a => match a with | .incSearchFails => 1 | _ => 0) (2 ^ 32)
      (by norm_num)
      (fun s a => by cases a <;> simp [act, inc32]) (fun s a h => by cases a <;> simp [act, inc32] <;> omega)
      (fun s a => by cases a <;> simp only [act] <;> (try split) <;> simp) rfl evs hq
    rw [this, ← sum_ite_count]
    congr 2
    exact List.map_congr_left fun c _ => by cases c <;> rfl
  · have := additive_quiescent Counters.intFails (fun a => match a with | .incIntFails => 1 | _ => 0) (2 ^ 32)
      (by norm_num)
      (fun s a => by cases a <;> simp [act, inc32]) (fun s a h => by cases a <;> simp [act, inc32] <;> omega)
      (fun s a => by cases a <;> simp only [act] <;> (try split) <;> simp) rfl evs hq
    rw [this, ← sum_ite_count]
    congr 2
    exact List.map_congr_left fun c _ => by cases c <;> rfl
  · have := additive_quiescent Counters.nans (fun a => match a with | .incNans => 1 | _ => 0) (2 ^ 32)
      (by norm_num)
      (fun s a => by cases a <;> simp [act, inc32]) (fun s a h => by cases a <;> simp [act, inc32] <;> omega)
      (fun s a => by cases a <;> simp only [act] <;> (try split) <;> simp) rfl evs hq
    rw [this, ← sum_ite_count]
    congr 2
    exact List.map_congr_left fun c _ => by cases c <;> rfl
  · have := additive_quiescent Counters.totalSearch (fun a => match a with | .addSearch n => n | _ => 0) (2 ^ 64)
      (by norm_num)
      (fun s a => by cases a <;> simp [act, add64]) (fun s a h => by cases a <;> simp [act, add64] <;> omega)
      (fun s a => by cases a <;> simp only [act] <;> (try split) <;> simp) rfl evs hq
    rw [this, ← sum_filterMap]
    congr 2
    exact List.map_congr_left fun c _ => by cases c <;> simp [program, Call.searchEvals]
  · have := additive_quiescent Counters.totalInt (fun a => match a with | .addInt n => n | _ => 0) (2 ^ 64)
      (by norm_num)
      (fun s a => by cases a <;> simp [act, add64]) (fun s a h => by cases a <;> simp [act, add64] <;> omega)
      (fun s a => by cases a <;> simp only [act] <;> (try split) <;> simp) rfl evs hq
    rw [this, ← sum_filterMap]
    congr 2
    exact List.map_congr_left fun c _ => by cases c <;> simp [program, Call.evals]

/-- **C36** Hence, as long as fewer than 2^32 calls are made and no integrand throws, the calls are exactly the
successes, the search failures, the integration failures and the NaN results. -/
theorem outcomes_add_up (evs : List Ev) (hq : Quiescent (run evs)) (hn : (started evs).length < 2 ^ 32)
    (ht : ∀ c ∈ started evs, c.isThrow = false) :
    (run evs).counters.calls = (run evs).counters.successes + (run evs).counters.searchFails +
      (run evs).counters.intFails + (run evs).counters.nans := by
  obtain ⟨h1, h2, h3, h4, h5, -⟩ := counters_are_exact evs hq
  have key : ∀ l : List Call, (∀ c ∈ l, c.isThrow = false) → l.length = l.countP Call.isSuccess +
      l.countP Call.isSearchFail + l.countP Call.isFail + l.countP Call.isNan := by
    intro l hl
    induction l with
    | nil => rfl
    | cons c l ih =>
      have := ih fun c hc => hl c (by simp [hc])
      have hc := hl c (by simp)
      simp only [List.length_cons, List.countP_cons]
      cases c <;> simp [Call.isSuccess, Call.isSearchFail, Call.isFail, Call.isNan, Call.isThrow] at hc ⊢ <;> omega
  have := key _ ht
  rw [h1, h2, h3, h4, h5]
  rw [Nat.mod_eq_of_lt hn, Nat.mod_eq_of_lt (by omega), Nat.mod_eq_of_lt (by omega), Nat.mod_eq_of_lt (by omega),
    Nat.mod_eq_of_lt (by omega)]
  exact this

/-! ### The recorded maxima -/

/-- `true`: the search maximum; `false`: the integration maximum. -/
def maxOf : Bool → Counters → ℕ
  | true, s => s.maxSearch
  | false, s => s.maxInt

def testOf : Bool → ℕ → Act
  | true => .testSearch
  | false => .testInt

def setOf : Bool → ℕ → Act
  | true => .setSearch
  | false => .setInt

/-- The number an access to the maximum works with. -/
def kval : Bool → Act → Option ℕ
  | true, .testSearch n | true, .setSearch n | false, .testInt n | false, .setInt n => some n
  | _, _ => none

/-- What a call offers to the maximum. -/
def offered : Bool → Call → Option ℕ
  | true => Call.searchEvals
  | false => Call.fullEvals

theorem kval_cases (k : Bool) (a : Act) : kval k a = none ∨ ∃ n, a = testOf k n ∨ a = setOf k n := by
  cases k <;> cases a <;> simp [kval, testOf, setOf]

theorem kval_test (k : Bool) (n : ℕ) : kval k (testOf k n) = some n := by cases k <;> rfl
theorem kval_set (k : Bool) (n : ℕ) : kval k (setOf k n) = some n := by cases k <;> rfl

theorem act_other (k : Bool) (s : Counters) (a : Act) (h : kval k a = none) :
    maxOf k (act s a).1 = maxOf k s ∧ ∀ b ∈ (act s a).2, kval k b = none := by
  cases k <;> cases a <;> simp [kval, act, maxOf] at h ⊢

theorem act_test (k : Bool) (s : Counters) (n : ℕ) :
    act s (testOf k n) = (s, if maxOf k s < n then [setOf k n] else []) := by cases k <;> rfl

theorem act_set (k : Bool) (s : Counters) (n : ℕ) :
    maxOf k (act s (setOf k n)).1 = n ∧ (act s (setOf k n)).2 = [] := by cases k <;> exact ⟨rfl, rfl⟩

theorem program_kval (k : Bool) (c : Call) : (program c).filterMap (kval k) = (offered k c).toList := by
  cases k <;> cases c <;> rfl

/-- **C36** Under any interleaving, a recorded maximum is 0 or a number some call really had; so it never exceeds
the true maximum. -/
theorem maxima_are_attained (evs : List Ev) (k : Bool) :
    maxOf k (run evs).counters = 0 ∨ ∃ c ∈ started evs, offered k c = some (maxOf k (run evs).counters) := by
  suffices h : (maxOf k (run evs).counters = 0 ∨ ∃ c ∈ started evs, offered k c = some (maxOf k (run evs).counters)) ∧
      ∀ p ∈ (run evs).running, ∀ a ∈ p, ∀ n, kval k a = some n → ∃ c ∈ started evs, offered k c = some n from h.1
  induction evs using List.reverseRecOn with
  | nil => exact ⟨Or.inl (by cases k <;> rfl), by simp [run, init]⟩
  | append_singleton evs e ih =>
    obtain ⟨h1, h2⟩ := ih
    rw [run_append]
    cases e with
    | start c =>
      rw [started_start]
      refine ⟨?_, ?_⟩
      · rcases h1 with h1 | ⟨c', hc, h1⟩
        · exact Or.inl h1
        · exact Or.inr ⟨c', by simp [hc], h1⟩
      · intro p hp a ha n hn
        simp only [next, List.mem_append, List.mem_singleton] at hp
        rcases hp with hp | rfl
        · obtain ⟨c', hc, h⟩ := h2 p hp a ha n hn
          exact ⟨c', by simp [hc], h⟩
        · have : n ∈ (program c).filterMap (kval k) := List.mem_filterMap.2 ⟨a, ha, hn⟩
          rw [program_kval, Option.mem_toList] at this
          exact ⟨c, by simp, this⟩
    | step i =>
      rw [started_step]
      simp only [next]
      split
      · rename_i a rest hi
        have hmem : a :: rest ∈ (run evs).running := List.mem_of_getElem? hi
        have hrest : ∀ b ∈ rest, ∀ n, kval k b = some n → ∃ c ∈ started evs, offered k c = some n :=
          fun b hb => h2 _ hmem b (by simp [hb])
        have hset : ∀ ins : List Act, (∀ b ∈ ins, ∀ n, kval k b = some n → ∃ c ∈ started evs, offered k c = some n) →
            ∀ p ∈ (run evs).running.set i (ins ++ rest), ∀ b ∈ p, ∀ n, kval k b = some n →
              ∃ c ∈ started evs, offered k c = some n := by
          intro ins hins p hp b hb n hn
          rcases List.mem_or_eq_of_mem_set hp with hp | rfl
          · exact h2 p hp b hb n hn
          · rcases List.mem_append.1 hb with hb | hb
            · exact hins b hb n hn
            · exact hrest b hb n hn
        rcases kval_cases k a with ha | ⟨n, rfl | rfl⟩
        · obtain ⟨e1, e2⟩ := act_other k (run evs).counters a ha
          exact ⟨by rw [e1]; exact h1, hset _ (fun b hb n hn => by rw [e2 b hb] at hn; cases hn)⟩
        · have hn := h2 _ hmem (testOf k n) (by simp) n (kval_test k n)
          rw [act_test]
          refine ⟨h1, hset _ (fun b hb m hm => ?_)⟩
          dsimp only at hb
          split at hb
          · simp only [List.mem_singleton] at hb
            subst hb
            rw [kval_set, Option.some.injEq] at hm
            exact hm ▸ hn
          · simp at hb
        · have hn := h2 _ hmem (setOf k n) (by simp) n (kval_set k n)
          obtain ⟨e1, e2⟩ := act_set k (run evs).counters n
          exact ⟨Or.inr (by rw [e1]; exact hn), hset _ (by rw [e2]; simp)⟩
      · exact ⟨h1, h2⟩

theorem largest_append (l : List ℕ) (n : ℕ) : largest (l ++ [n]) = max (largest l) n := by
  unfold largest
  induction l with
  | nil => simp
  | cons x l ih => simp only [List.cons_append, List.foldr_cons, ih]; omega

/-- The calls before the last have ended; the last one's pending access to the maximum is the only one, and if it is
an assignment then the recorded maximum is still below it. -/
def SeqInv (k : Bool) (σ : State) (top : ℕ) : Prop :=
  ∃ (old : List (List Act)) (p : List Act), (∀ q ∈ old, q = []) ∧ (σ.running = old ++ [p] ∨ (σ.running = [] ∧ p = [])) ∧
    (p.filterMap (kval k)).length ≤ 1 ∧ max (maxOf k σ.counters) (largest (p.filterMap (kval k))) = top ∧
    ∀ n, setOf k n ∈ p → maxOf k σ.counters < n

theorem sequential_inv (k : Bool) (evs : List Ev) (hs : Sequential evs) :
    SeqInv k (run evs) (largest ((started evs).filterMap (offered k))) := by
  induction evs using List.reverseRecOn with
  | nil =>
    exact ⟨[], [], by simp, Or.inr ⟨rfl, rfl⟩, by simp, by cases k <;> simp [run, init, reset, maxOf, started, largest],
      by simp⟩
  | append_singleton evs e ih =>
    obtain ⟨old, p, h1, h2, h3, h4, h5⟩ := ih (fun l c r h => hs l c (r ++ [e]) (by simp [h]))
    rw [run_append]
    cases e with
    | start c =>
      have hq : Quiescent (run evs) := hs evs c [] (by simp)
      have hp : p = [] := by
        rcases h2 with h2 | ⟨-, h2⟩
        · exact hq p (by simp [h2])
        · exact h2
      subst hp
      rw [started_start, List.filterMap_append]
      refine ⟨(run evs).running, program c, hq, Or.inl rfl, ?_, ?_, ?_⟩
      · rw [program_kval]; cases offered k c <;> simp
      · rw [program_kval]
        have h4' : maxOf k (run evs).counters = largest ((started evs).filterMap (offered k)) := by
          rw [← h4]; simp [largest]
        simp only [next, h4']
        cases hc : offered k c with
        | none => simp [largest, hc]
        | some n =>
          rw [show List.filterMap (offered k) [c] = [n] by simp [hc], largest_append]
          simp [largest]
      · intro n hn
        exfalso
        cases k <;> cases c <;> simp [program, setOf] at hn
    | step i =>
      rw [started_step]
      simp only [next]
      split
      · rename_i a rest hi
        rcases h2 with h2 | ⟨h2, -⟩
        swap
        · simp [h2] at hi
        have hmem : (a :: rest) ∈ old ++ [p] := h2 ▸ List.mem_of_getElem? hi
        have hp : p = a :: rest := by
          rcases List.mem_append.1 hmem with h | h
          · exact absurd (h1 _ h) (by simp)
          · exact (List.mem_singleton.1 h).symm
        subst hp
        have hil : i = old.length := by
          rw [h2] at hi
          rcases Nat.lt_trichotomy i old.length with h | h | h
          · rw [List.getElem?_append_left h] at hi
            exact absurd (h1 _ (List.mem_of_getElem? hi)) (by simp)
          · exact h
          · rw [List.getElem?_eq_none (by simp; omega)] at hi; cases hi
        have hrun : ∀ q, (run evs).running.set i q = old ++ [q] := by
          intro q; rw [h2, hil]; simp
        rcases kval_cases k a with ha | ⟨n, rfl | rfl⟩
        · obtain ⟨e1, e2⟩ := act_other k (run evs).counters a ha
          have e3 : ((act (run evs).counters a).2 ++ rest).filterMap (kval k) = (a :: rest).filterMap (kval k) := by
            rw [List.filterMap_append, List.filterMap_cons, ha, List.filterMap_eq_nil_iff.2 e2]; rfl
          refine ⟨old, _, h1, Or.inl (hrun _), by rw [e3]; exact h3, by rw [e3, e1]; exact h4, ?_⟩
          intro n hn
          rw [e1]
          rcases List.mem_append.1 hn with hn | hn
          · have := e2 _ hn
            rw [kval_set] at this; cases this
          · exact h5 n (by simp [hn])
        · rw [act_test]
          rw [List.filterMap_cons, kval_test] at h3 h4
          simp only [List.length_cons] at h3
          have hnil : rest.filterMap (kval k) = [] := List.length_eq_zero_iff.1 (by omega)
          have hno : ∀ m, setOf k m ∉ rest := fun m hm => by
            have := List.filterMap_eq_nil_iff.1 hnil _ hm
            rw [kval_set] at this; cases this
          rw [hnil] at h4
          split
          · rename_i hlt
            refine ⟨old, _, h1, Or.inl (hrun _), ?_, ?_, ?_⟩
            · simp [kval_set, hnil]
            · rw [← h4]; simp [kval_set, hnil]
            · intro m hm
              simp only [List.cons_append, List.nil_append, List.mem_cons, hno, or_false] at hm
              have : m = n := by cases k <;> simpa [setOf] using hm
              exact this ▸ hlt
          · rename_i hlt
            refine ⟨old, _, h1, Or.inl (hrun _), ?_, ?_, ?_⟩
            · simp [hnil]
            · rw [← h4]
              simp only [List.nil_append, hnil, largest, List.foldr_cons, List.foldr_nil]
              omega
            · intro m hm
              exact absurd hm (hno m)
        · obtain ⟨e1, e2⟩ := act_set k (run evs).counters n
          have hlt := h5 n (by simp)
          rw [List.filterMap_cons, kval_set] at h3 h4
          simp only [List.length_cons] at h3
          have hnil : rest.filterMap (kval k) = [] := List.length_eq_zero_iff.1 (by omega)
          have hno : ∀ m, setOf k m ∉ rest := fun m hm => by
            have := List.filterMap_eq_nil_iff.1 hnil _ hm
            rw [kval_set] at this; cases this
          rw [hnil] at h4
          rw [e2]
          refine ⟨old, _, h1, Or.inl (hrun _), ?_, ?_, ?_⟩
          · simp [hnil]
          · rw [← h4, e1]
            simp only [List.nil_append, hnil, largest, List.foldr_cons, List.foldr_nil]
            omega
          · intro m hm
            exact absurd hm (hno m)
      · exact ⟨old, p, h1, h2, h3, h4, h5⟩

/-- **C36** When calls do not overlap, the recorded maxima are the true ones: the most evaluations of any completed
search, and of any integration that ran to its end.  Failed searches and failed integrations count too,
although the fields are called `max_successful_...`. -/
theorem maxima_exact_partial (evs : List Ev) (hs : Sequential evs) (hq : Quiescent (run evs)) :
    (run evs).counters.maxSearch = largest ((started evs).filterMap Call.searchEvals) ∧
    (run evs).counters.maxInt = largest ((started evs).filterMap Call.fullEvals) := by
  have key : ∀ k, maxOf k (run evs).counters = largest ((started evs).filterMap (offered k)) := by
    intro k
    obtain ⟨old, p, h1, h2, h3, h4, h5⟩ := sequential_inv k evs hs
    have hp : p = [] := by
      rcases h2 with h2 | ⟨-, h2⟩
      · exact hq p (by simp [h2])
      · exact h2
    subst hp
    rw [← h4]; simp [largest]
  exact ⟨key true, key false⟩

/-- The schedule of two calls one after the other (10 then 5 evaluations in the search). -/
def twoCalls : List Ev :=
  [.start (.searchFail 10), .step 0, .step 0, .step 0, .step 0, .step 0, .start (.success 5 9), .step 1, .step 1,
    .step 1, .step 1, .step 1, .step 1, .step 1]

/-- They do not overlap. -/
example : Sequential twoCalls := by
  intro l c r h
  have hl : l = twoCalls.take l.length := by rw [h]; simp
  have hlt : l.length < 14 := by
    have := congrArg List.length h
    simp [twoCalls] at this
    omega
  have hc : twoCalls[l.length]? = some (.start c) := by rw [h]; simp
  rw [hl]
  generalize l.length = n at hlt hc
  interval_cases n <;> first | (simp [twoCalls] at hc; done) | (unfold Quiescent; decide)

/-- Two calls in sequence: all counters are right; the maximum search is that of the failed one. -/
example : Quiescent (run twoCalls) ∧ (run twoCalls).counters = ⟨9, 0, 9, 10, 1, 15, 2, 1, 0⟩ := by
  constructor
  · unfold Quiescent; decide
  · decide

/-- **C36, what fails**: with two overlapping calls the recorded maximum can end up below the true one.  Both test
the old value 0, then the one with 10 evaluations stores 10 and the one with 5 stores 5. -/
theorem maximum_race_fails : ∃ evs : List Ev, Quiescent (run evs) ∧
    started evs = [.success 10 14, .success 5 9] ∧
    (run evs).counters.maxSearch = 5 ∧ (run evs).counters.maxInt = 14 := by
  refine ⟨[.start (.success 10 14), .start (.success 5 9), .step 0, .step 0, .step 0, .step 1, .step 1, .step 1,
    .step 0, .step 1, .step 1, .step 1, .step 1, .step 1, .step 0, .step 0, .step 0, .step 0], ?_, rfl, ?_, ?_⟩
  · unfold Quiescent; decide
  · decide
  · decide

/-! ### Connection with `MAQ` -/

/-- **C36** For any collection of `MAQ` calls, run in any interleaving: the results reported as successful are
counted by `successes` and `number_search_fails` together, and the total is the sum of the evaluations in the
returned results other than search failures. -/
theorem statistics_of_integrations (jobs : List ((Dbl → Dbl) × Maq.Cfg × Maq.SearchResult × Maq.Report))
    (hjobs : ∀ j ∈ jobs, Maq.Finds j.1 j.2.1 j.2.2.1 ∧ Maq.Returns j.1 j.2.1 j.2.2.2) (evs : List Ev)
    (hst : started evs = jobs.map fun j => callOf j.2.2.1 j.2.2.2) (hq : Quiescent (run evs))
    (hn : jobs.length < 2 ^ 32) :
    (run evs).counters.calls = jobs.length ∧
    (run evs).counters.successes + (run evs).counters.searchFails =
      jobs.countP (fun j => j.2.2.2.result.successful) ∧
    (run evs).counters.intFails + (run evs).counters.nans =
      jobs.countP (fun j => !j.2.2.2.result.successful) ∧
    (run evs).counters.totalSearch = (jobs.map fun j => j.2.2.1.evals).sum % 2 ^ 64 := by
  obtain ⟨h1, h2, h3, h4, h5, h6, -⟩ := counters_are_exact evs hq
  have hcase : ∀ j ∈ jobs, (j.2.2.2.result.successful = true ↔
      (j.2.2.2.outcome = .searchFail ∨ j.2.2.2.outcome = .success)) := by
    intro j hj
    rcases Maq.maq_cases _ _ _ (hjobs j hj).2 with ⟨n, -, h⟩ | ⟨a, b, n, -, -, ⟨e1, e2, -⟩ | ⟨e1, -, e2 | e2⟩⟩
    · rw [h]; simp
    all_goals simp [e1, e2]
  have key : ∀ l : List ((Dbl → Dbl) × Maq.Cfg × Maq.SearchResult × Maq.Report),
      (∀ j ∈ l, (j.2.2.2.result.successful = true ↔
        (j.2.2.2.outcome = .searchFail ∨ j.2.2.2.outcome = .success))) →
      (l.map fun j => callOf j.2.2.1 j.2.2.2).countP Call.isSuccess +
        (l.map fun j => callOf j.2.2.1 j.2.2.2).countP Call.isSearchFail =
          l.countP (fun j => j.2.2.2.result.successful) ∧
      (l.map fun j => callOf j.2.2.1 j.2.2.2).countP Call.isFail +
        (l.map fun j => callOf j.2.2.1 j.2.2.2).countP Call.isNan =
          l.countP (fun j => !j.2.2.2.result.successful) ∧
      ((l.map fun j => callOf j.2.2.1 j.2.2.2).filterMap Call.searchEvals).sum =
        (l.map fun j => j.2.2.1.evals).sum := by
    intro l hl
    induction l with
    | nil => exact ⟨rfl, rfl, rfl⟩
    | cons j l ih =>
      obtain ⟨i1, i2, i3⟩ := ih fun j hj => hl j (by simp [hj])
      have hj := hl j (by simp)
      simp only [List.map_cons, List.countP_cons, List.filterMap_cons, List.sum_cons]
      obtain ⟨c, hc⟩ : ∃ c, c = callOf j.2.2.1 j.2.2.2 := ⟨_, rfl⟩
      rw [← hc]
      cases ho : j.2.2.2.outcome <;> simp only [callOf, ho] at hc <;> cases hs : j.2.2.2.result.successful <;>
        simp [ho, hs] at hj <;> subst hc <;>
        simp only [Call.isSuccess, Call.isSearchFail, Call.isFail, Call.isNan, Call.searchEvals,
          Bool.not_false, Bool.not_true, if_true, if_false, Bool.false_eq_true, List.sum_cons] <;>
        refine ⟨?_, ?_, ?_⟩ <;> omega
  obtain ⟨k1, k2, k3⟩ := key jobs hcase
  have hle : ∀ (p : Call → Bool), (started evs).countP p % 2 ^ 32 = (started evs).countP p := by
    intro p
    apply Nat.mod_eq_of_lt
    refine lt_of_le_of_lt List.countP_le_length ?_
    rw [hst, List.length_map]; exact hn
  rw [h1, h2, h3, h4, h5, h6, hle, hle, hle, hle, hst]
  exact ⟨by rw [List.length_map]; exact Nat.mod_eq_of_lt hn, k1, k2, by rw [k3]⟩

/-- A successful integration as a job of the theorem above: two evaluations in the search, six in all. -/
example : ∃ (f : Dbl → Dbl) (cfg : Maq.Cfg) (r : Maq.SearchResult) (rep : Maq.Report),
    Maq.Finds f cfg r ∧ Maq.Returns f cfg rep ∧ callOf r rep = .success 2 6 := by
  obtain ⟨f, h1, -, h3⟩ := Maq.inverse_cube .directed
  refine ⟨f, _, .bracket 0 1 2, _, ⟨0, fun fuel _ => Maq.finds_unit f _ _ ?_ fuel⟩, h3, rfl⟩
  rw [h1 0 le_rfl, h1 1 zero_le_one]
  simp only [Dbl.fin_le, not_and_or, not_le]
  left
  norm_num [Maq.eps]

end Slat.Stats
