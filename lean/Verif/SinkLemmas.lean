import Verif.SinkModel
import Mathlib.Data.List.Nodup
import Mathlib.Tactic.Common

/-! # Lemmas on sinks -/

namespace Slat.Sink

variable {P M : Type}

def isConsole : ℕ × Dest P → Bool
  | (_, .console) => true
  | _ => false

def isFile : ℕ × Dest P → Bool
  | (_, .file _ _) => true
  | _ => false

theorem isFile_eq (x : ℕ × Dest P) : isFile x = !isConsole x := by
  rcases x with ⟨k, _ | _⟩ <;> rfl

/-- The pointer to the file sink and the file sinks of the core. -/
def fileOk (core : List (ℕ × Dest P)) : Option ℕ → Option (P × Bool) → Prop
  | none, none => core.filter isFile = []
  | some k, some (p, o) => core.filter isFile = [(k, .file p o)]
  | _, _ => False

/-- What matters of a state: consoles registered, whether the pointer to the first one is set, log file and whether it is open. -/
structure Inv (s : St P M) (n : ℕ) (on : Bool) (f : Option (P × Bool)) : Prop where
  fresh : ∀ x ∈ s.core, x.1 < s.made
  nodup : (s.core.map Prod.fst).Nodup
  count : s.core.countP isConsole = n
  err : match s.stdErrorSink with
    | some k => on = true ∧ (k, Dest.console) ∈ s.core
    | none => on = false
  file : fileOk s.core s.fileSink f

theorem fileOk_congr {l l' : List (ℕ × Dest P)} {k : Option ℕ} {f : Option (P × Bool)} (e : l'.filter isFile = l.filter isFile) (h : fileOk l k f) :
    fileOk l' k f := by
  cases k <;> cases f <;> simp only [fileOk] at h ⊢
  · rw [e]; exact h
  · rw [e]; exact h

theorem inv_initialise (files : P → Option (List M)) : Inv (initialise (init files)) 1 true none where
  fresh := by simp [initialise, init, add]
  nodup := by simp [initialise, init, add]
  count := by simp [initialise, init, add, isConsole]
  err := by simp [initialise, init, add]
  file := by show [((0 : ℕ), Dest.console)].filter isFile = []; rfl

theorem fresh_nodup {s : St P M} (d : Dest P) (h1 : ∀ x ∈ s.core, x.1 < s.made) (h2 : (s.core.map Prod.fst).Nodup) :
    (∀ x ∈ (add s d).core, x.1 < (add s d).made) ∧ ((add s d).core.map Prod.fst).Nodup := by
  constructor
  · intro x hx
    simp only [add, List.mem_append, List.mem_singleton] at hx ⊢
    rcases hx with hx | rfl
    · exact Nat.lt_succ_of_lt (h1 x hx)
    · exact Nat.lt_succ_self _
  · simp only [add, List.map_append, List.map_cons, List.map_nil]
    refine List.nodup_append.2 ⟨h2, List.nodup_singleton _, ?_⟩
    intro a ha b hb e
    obtain ⟨x, hx, rfl⟩ := List.mem_map.1 ha
    rw [List.mem_singleton] at hb
    have := h1 x hx
    omega

theorem remove_fresh {s : St P M} (k : ℕ) (h1 : ∀ x ∈ s.core, x.1 < s.made) (h2 : (s.core.map Prod.fst).Nodup) :
    (∀ x ∈ (remove s k).core, x.1 < (remove s k).made) ∧ ((remove s k).core.map Prod.fst).Nodup := by
  constructor
  · intro x hx
    exact h1 x (List.mem_filter.1 hx).1
  · exact h2.sublist (List.Sublist.map _ List.filter_sublist)

/-- Identities are unique. -/
theorem same_of_id {l : List (ℕ × Dest P)} (h : (l.map Prod.fst).Nodup) {x y : ℕ × Dest P} (hx : x ∈ l) (hy : y ∈ l) (e : x.1 = y.1) :
    x = y := List.inj_on_of_nodup_map h hx hy e

theorem inv_setLogFile {s : St P M} {n : ℕ} {on : Bool} {f : Option (P × Bool)} (h : Inv s n on f) (p : P) :
    Inv (setLogFile s p) n on (some (p, false)) := by
  -- without file sinks
  have key : ∀ s₁ : St P M, Inv s₁ n on none ∨ (∃ k, s₁.fileSink = some k ∧ s₁.core.filter isFile = [] ∧ Inv { s₁ with fileSink := none } n on none) →
      Inv { add s₁ (.file p false) with fileSink := some s₁.made } n on (some (p, false)) := by
    intro s₁ hs
    have h' : Inv { s₁ with fileSink := none } n on none := by
      rcases hs with h | ⟨k, -, -, h⟩
      · have : s₁.fileSink = none := by
          have := h.file
          cases e : s₁.fileSink with
          | none => rfl
          | some k => rw [e] at this; exact this.elim
        rw [← this]; exact h
      · exact h
    obtain ⟨a, b⟩ := fresh_nodup (s := { s₁ with fileSink := none }) (.file p false) h'.fresh h'.nodup
    refine ⟨a, b, ?_, ?_, ?_⟩
    · have := h'.count
      simp only [add, List.countP_append] at this ⊢
      simpa [isConsole] using this
    · have := h'.err
      simp only [add] at this ⊢
      cases e : s₁.stdErrorSink with
      | none => rw [e] at this; exact this
      | some k =>
        rw [e] at this
        exact ⟨this.1, List.mem_append_left _ this.2⟩
    · have := h'.file
      show (s₁.core ++ [(s₁.made, Dest.file p false)]).filter isFile = [(s₁.made, .file p false)]
      rw [List.filter_append, show s₁.core.filter isFile = [] from this]
      rfl
  unfold setLogFile
  cases e : s.fileSink with
  | none =>
    simp only
    refine key s (Or.inl ?_)
    have hf := h.file
    rw [e] at hf
    cases f with
    | none => exact h
    | some q => exact hf.elim
  | some k =>
    simp only
    have hf := h.file
    rw [e] at hf
    cases f with
    | none => exact hf.elim
    | some q =>
      obtain ⟨q, o⟩ := q
      have hf : s.core.filter isFile = [(k, .file q o)] := hf
      have mem : (k, Dest.file q o) ∈ s.core := by
        have : (k, Dest.file q o) ∈ s.core.filter isFile := by rw [hf]; exact List.mem_singleton_self _
        exact (List.mem_filter.1 this).1
      have gone : (remove s k).core.filter isFile = [] := by
        rw [remove, List.filter_filter, List.filter_eq_nil_iff]
        intro x hx c
        rw [Bool.and_eq_true] at c
        have : x ∈ s.core.filter isFile := List.mem_filter.2 ⟨hx, c.1⟩
        rw [hf, List.mem_singleton] at this
        rw [this] at c
        simp at c
      obtain ⟨a, b⟩ := remove_fresh k h.fresh h.nodup
      refine key (remove s k) (Or.inr ⟨k, e, gone, a, b, ?_, ?_, gone⟩)
      · rw [← h.count]
        show (s.core.filter fun x => x.1 != k).countP isConsole = _
        rw [List.countP_filter]
        refine List.countP_congr fun x hx => ?_
        constructor
        · intro c; rw [Bool.and_eq_true] at c; exact c.1
        · intro c
          rw [Bool.and_eq_true]
          refine ⟨c, ?_⟩
          rw [bne_iff_ne]
          intro ek
          have := same_of_id h.nodup hx mem ek
          rw [this] at c
          simp [isConsole] at c
      · have he := h.err
        show match s.stdErrorSink with
          | some k' => on = true ∧ (k', Dest.console) ∈ (remove s k).core
          | none => on = false
        cases e' : s.stdErrorSink with
        | none => rw [e'] at he; exact he
        | some k' =>
          rw [e'] at he
          refine ⟨he.1, List.mem_filter.2 ⟨he.2, ?_⟩⟩
          rw [bne_iff_ne]
          intro ek
          have := same_of_id h.nodup he.2 mem ek
          cases this

theorem countP_remove : ∀ {l : List (ℕ × Dest P)}, (l.map Prod.fst).Nodup → ∀ {k : ℕ}, (k, Dest.console) ∈ l →
    (l.filter fun x => x.1 != k).countP isConsole + 1 = l.countP isConsole := by
  intro l
  induction l with
  | nil => intro _ k hk; cases hk
  | cons x l ih =>
    intro nd k hk
    rw [List.map_cons, List.nodup_cons] at nd
    rcases List.mem_cons.1 hk with rfl | hk
    · have : (l.filter fun x => x.1 != k) = l := by
        rw [List.filter_eq_self]
        intro y hy
        rw [bne_iff_ne]
        rintro rfl
        exact nd.1 (List.mem_map.2 ⟨y, hy, rfl⟩)
      rw [List.filter_cons_of_neg (by simp), this, List.countP_cons_of_pos rfl]
    · have ne : x.1 ≠ k := by
        rintro rfl
        exact nd.1 (List.mem_map.2 ⟨_, hk, rfl⟩)
      rw [List.filter_cons_of_pos (by simpa using ne), List.countP_cons, List.countP_cons, ← ih nd.2 hk]
      omega

theorem inv_on {s : St P M} {n : ℕ} {on : Bool} {f : Option (P × Bool)} (h : Inv s n on f) :
    Inv (logToStdErr s true) (if on then n else n + 1) on f := by
  unfold logToStdErr
  have he := h.err
  cases e : s.stdErrorSink with
  | some k =>
    rw [e] at he
    simp only [he.1, if_true]
    rw [he.1] at h
    exact h
  | none =>
    rw [e] at he
    simp only at he
    simp only [if_true, he]
    obtain ⟨a, b⟩ := fresh_nodup .console h.fresh h.nodup
    refine ⟨a, b, ?_, ?_, ?_⟩
    · simp [add, List.countP_append, h.count, isConsole]
    · simp [add, e]
    · have hf := h.file
      have : (add s .console).core.filter isFile = s.core.filter isFile := by simp [add, isFile]
      exact fileOk_congr this hf

theorem inv_off {s : St P M} {n : ℕ} {on : Bool} {f : Option (P × Bool)} (h : Inv s n on f) :
    Inv (logToStdErr s false) (if on then n - 1 else n) false f := by
  unfold logToStdErr
  have he := h.err
  cases e : s.stdErrorSink with
  | none =>
    rw [e] at he
    simp only at he
    simp only [Bool.false_eq_true, if_false, he]
    rw [he] at h
    exact h
  | some k =>
    rw [e] at he
    simp only [Bool.false_eq_true, if_false, he.1, if_true]
    obtain ⟨a, b⟩ := remove_fresh k h.fresh h.nodup
    refine ⟨a, b, ?_, rfl, ?_⟩
    · have := countP_remove h.nodup he.2
      have hc := h.count
      show (s.core.filter fun x => x.1 != k).countP isConsole = _
      omega
    · have hf := h.file
      have : (remove s k).core.filter isFile = s.core.filter isFile := by
        show (s.core.filter _).filter isFile = _
        rw [List.filter_filter]
        refine List.filter_congr fun x hx => ?_
        by_cases ek : x.1 = k
        · have := same_of_id h.nodup hx he.2 ek
          rw [this]; simp [isFile]
        · simp [ek]
      exact fileOk_congr this hf

section

variable [DecidableEq P]

theorem deliver_err (m : M) : ∀ (l : List (ℕ × Dest P)) (w : List M × (P → Option (List M))),
    (deliver m w l).1.1 = w.1 ++ List.replicate (l.countP isConsole) m := by
  intro l
  induction l with
  | nil => intro w; simp [deliver]
  | cons x l ih =>
    intro w
    obtain ⟨k, d⟩ := x
    rw [deliver]
    simp only
    rw [ih]
    cases d with
    | console => rw [List.countP_cons_of_pos (by rfl), List.replicate_succ]; simp [consume]
    | file p o => rw [List.countP_cons_of_neg (by simp [isConsole])]; cases o <;> rfl

theorem deliver_ids (m : M) : ∀ (l : List (ℕ × Dest P)) (w : List M × (P → Option (List M))),
    (deliver m w l).2.map Prod.fst = l.map Prod.fst ∧ (deliver m w l).2.countP isConsole = l.countP isConsole ∧
    ∀ k, (k, Dest.console) ∈ l → (k, Dest.console) ∈ (deliver m w l).2 := by
  intro l
  induction l with
  | nil => intro w; simp [deliver]
  | cons x l ih =>
    intro w
    obtain ⟨k, d⟩ := x
    rw [deliver]
    simp only
    obtain ⟨a, b, c⟩ := ih (consume m w d).1
    refine ⟨by simp [a], ?_, ?_⟩
    · rw [List.countP_cons, List.countP_cons, b]
      cases d with
      | console => rfl
      | file p o => cases o <;> rfl
    · intro k' hk
      rcases List.mem_cons.1 hk with e | hk
      · cases e
        exact List.mem_cons_self
      · exact List.mem_cons_of_mem _ (c k' hk)

theorem deliver_none (m : M) : ∀ (l : List (ℕ × Dest P)) (w : List M × (P → Option (List M))), l.filter isFile = [] →
    (deliver m w l).1.2 = w.2 ∧ (deliver m w l).2.filter isFile = [] := by
  intro l
  induction l with
  | nil => intro w _; exact ⟨rfl, rfl⟩
  | cons x l ih =>
    intro w hl
    obtain ⟨k, d⟩ := x
    rw [deliver]
    simp only
    cases d with
    | file p o => simp [isFile] at hl
    | console =>
      have hl' : l.filter isFile = [] := by simpa [isFile] using hl
      obtain ⟨a, b⟩ := ih (consume m w .console).1 hl'
      exact ⟨a, by simpa [isFile, consume] using b⟩

/-- What a file sink makes of the files. -/
def write (files : P → Option (List M)) (p : P) (o : Bool) (m : M) : P → Option (List M) :=
  Function.update files p (some ((if o then (files p).getD [] else []) ++ [m]))

theorem deliver_one (m : M) {k : ℕ} {p : P} {o : Bool} : ∀ (l : List (ℕ × Dest P)) (w : List M × (P → Option (List M))),
    l.filter isFile = [(k, .file p o)] →
    (deliver m w l).1.2 = write w.2 p o m ∧ (deliver m w l).2.filter isFile = [(k, .file p true)] := by
  intro l
  induction l with
  | nil => intro w h; cases h
  | cons x l ih =>
    intro w hl
    obtain ⟨k', d⟩ := x
    rw [deliver]
    simp only
    cases d with
    | console =>
      have hl' : l.filter isFile = [(k, .file p o)] := by simpa [isFile] using hl
      obtain ⟨a, b⟩ := ih (consume m w .console).1 hl'
      exact ⟨a, by simpa [isFile, consume] using b⟩
    | file p' o' =>
      rw [List.filter_cons_of_pos rfl, List.cons.injEq] at hl
      obtain ⟨e, hl⟩ := hl
      cases e
      obtain ⟨a, b⟩ := deliver_none m l (consume m w (.file p o)).1 hl
      rw [a]
      cases o
      · exact ⟨by simp [consume, write], by rw [List.filter_cons_of_pos (by rfl), b]; rfl⟩
      · exact ⟨by simp [consume, write], by rw [List.filter_cons_of_pos (by rfl), b]; rfl⟩

/-- The files after a message, with the log file there is. -/
def writeTo (files : P → Option (List M)) (f : Option (P × Bool)) (m : M) : P → Option (List M) :=
  match f with
  | none => files
  | some (p, o) => write files p o m

theorem inv_log {s : St P M} {n : ℕ} {on : Bool} {f : Option (P × Bool)} (h : Inv s n on f) (m : M) :
    Inv (log s m) n on (f.map fun x => (x.1, true)) ∧ (log s m).err = s.err ++ List.replicate n m ∧
    (log s m).out = s.out ++ (if n = 0 ∧ f = none then [m] else []) ∧
    (log s m).files = writeTo s.files f m := by
  have hf := h.file
  have hc := h.count
  unfold log
  by_cases e : s.core = []
  · rw [if_pos (by rw [e]; rfl)]
    rw [e] at hf hc
    have n0 : n = 0 := by rw [← hc]; rfl
    have f0 : f = none := by
      cases f with
      | none => rfl
      | some q => cases e' : s.fileSink <;> rw [e'] at hf <;> simp [fileOk] at hf
    subst n0 f0
    exact ⟨⟨h.fresh, h.nodup, h.count, h.err, h.file⟩, by simp, by simp, rfl⟩
  · rw [if_neg (by simpa using e)]
    obtain ⟨a, b, c⟩ := deliver_ids m s.core (s.err, s.files)
    have ne : ¬(n = 0 ∧ f = none) := by
      rintro ⟨rfl, rfl⟩
      apply e
      have h1 : s.core.filter isFile = [] := by
        cases e' : s.fileSink with
        | none => rw [e'] at hf; exact hf
        | some k => rw [e'] at hf; exact hf.elim
      rw [List.eq_nil_iff_forall_not_mem]
      intro x hx
      have h2 := List.filter_eq_nil_iff.1 h1 x hx
      have h3 := List.countP_eq_zero.1 hc x hx
      rw [isFile_eq] at h2
      cases hh : isConsole x <;> rw [hh] at h2 h3 <;> simp at h2 h3
    rw [if_neg ne, List.append_nil]
    have inv : ∀ f', fileOk (deliver m (s.err, s.files) s.core).2 s.fileSink f' →
        Inv (St.mk (deliver m (s.err, s.files) s.core).2 s.stdErrorSink s.fileSink s.made (deliver m (s.err, s.files) s.core).1.1 s.out
          (deliver m (s.err, s.files) s.core).1.2) n on f' := by
      intro f' hf'
      refine ⟨?_, by show (List.map _ _).Nodup; rw [a]; exact h.nodup, by rw [← hc]; exact b, ?_, hf'⟩
      · intro x hx
        have : x.1 ∈ s.core.map Prod.fst := by rw [← a]; exact List.mem_map_of_mem hx
        obtain ⟨y, hy, ey⟩ := List.mem_map.1 this
        rw [← ey]
        exact h.fresh y hy
      · have he := h.err
        show match s.stdErrorSink with
          | some k => on = true ∧ (k, Dest.console) ∈ (deliver m (s.err, s.files) s.core).2
          | none => on = false
        cases e' : s.stdErrorSink with
        | none => rw [e'] at he; exact he
        | some k => rw [e'] at he; exact ⟨he.1, c k he.2⟩
    have he := deliver_err m s.core (s.err, s.files)
    rw [hc] at he
    cases f with
    | none =>
      have h1 : s.core.filter isFile = [] ∧ s.fileSink = none := by
        cases e' : s.fileSink with
        | none => rw [e'] at hf; exact ⟨hf, rfl⟩
        | some k => rw [e'] at hf; exact hf.elim
      obtain ⟨d1, d2⟩ := deliver_none m s.core (s.err, s.files) h1.1
      refine ⟨inv _ ?_, he, rfl, d1⟩
      rw [h1.2]
      exact d2
    | some q =>
      obtain ⟨p, o⟩ := q
      obtain ⟨k, e', hk⟩ : ∃ k, s.fileSink = some k ∧ s.core.filter isFile = [(k, .file p o)] := by
        cases e' : s.fileSink with
        | none => rw [e'] at hf; exact hf.elim
        | some k => rw [e'] at hf; exact ⟨k, rfl, hf⟩
      obtain ⟨d1, d2⟩ := deliver_one m s.core (s.err, s.files) hk
      refine ⟨inv _ ?_, he, rfl, d1⟩
      rw [e']
      exact d2

end

end Slat.Sink
