import Verif.CacheFnInv

/-! Helper lemmas for `CacheFnProps.lean`: bookkeeping of calls, progress and the step measure. -/

namespace Slat.CacheFn

variable {Tid V T : Type} [DecidableEq Tid] [DecidableEq V]

/-- Argument of the call a thread is in. -/
def Pc.arg : Pc V T → Option V
  | .idle => none
  | .start v | .locked v | .hit v | .join v | .joinRel v _ | .waitCalc v _ | .waitObj v _ | .leave v _
  | .begin v | .beginRel v | .calc v | .calcObj v _ | .check v _ | .store v _ | .finish v | .read v
  | .unlock v _ | .bypass v | .bypassCalc v => some v

/-- Steps a thread needs at most to complete its call. -/
def Pc.rank : Pc V T → ℕ
  | .idle => 0
  | .unlock _ _ => 1 | .read _ => 2 | .hit _ => 3 | .leave _ _ => 3 | .waitObj _ _ => 4
  | .waitCalc _ _ => 5 | .joinRel _ _ => 6 | .join _ => 7 | .finish _ => 3 | .store _ _ => 4
  | .check _ _ => 5 | .calcObj _ _ => 6 | .calc _ => 7 | .beginRel _ => 8 | .begin _ => 9
  | .locked _ => 10 | .start _ => 11 | .bypassCalc _ => 1 | .bypass _ => 2

/-- What a step of thread `t` does to the other threads, to its own position and to the log. -/
theorem stepThread_shape [Fintype Tid] [Inhabited T] {c : Cfg V T} {s s' : St Tid V T} (h : Inv c s)
    (t : Tid) (hs : stepThread c s t = some s') :
    ∃ v p, (s.pc t).arg = some v ∧ s'.pc = Function.update s.pc t p ∧ p.rank < (s.pc t).rank ∧
      ((p.arg = some v ∧ s'.log = s.log) ∨
       (p.arg = some v ∧ s'.log = .eval t v :: s.log) ∨
       (p = .idle ∧ s'.log = .threw t v :: s.log) ∨
       (p = .idle ∧ c.useCache v = true ∧ ∃ x, s'.log = .ret t v x :: s.log) ∨
       (p = .idle ∧ c.useCache v = false ∧ ∃ x, s'.log = .ret t v x :: .eval t v :: s.log)) := by
  have h3t := h.thread t
  have h2t := h.lock t
  unfold stepThread at hs
  split at hs <;> rename_i hpc <;> simp only [hpc, threadOk, Pc.holdsObj, iff_true] at h3t h2t
  · simp at hs
  · rename_i v
    unfold St.acquire at hs
    split at hs <;> simp only [Option.some.injEq, reduceCtorEq] at hs
    subst hs
    exact ⟨v, .locked v, by simp [hpc, Pc.arg], rfl, by simp [hpc, Pc.rank], .inl ⟨rfl, rfl⟩⟩
  · rename_i v
    split at hs
    · split at hs
      · simp only [Option.some.injEq] at hs; subst hs
        exact ⟨v, .hit v, by simp [hpc, Pc.arg], rfl, by simp [hpc, Pc.rank], .inl ⟨rfl, rfl⟩⟩
      · split at hs <;> simp only [Option.some.injEq] at hs <;> subst hs
        · exact ⟨v, .join v, by simp [hpc, Pc.arg], rfl, by simp [hpc, Pc.rank], .inl ⟨rfl, rfl⟩⟩
        · exact ⟨v, .begin v, by simp [hpc, Pc.arg], rfl, by simp [hpc, Pc.rank], .inl ⟨rfl, rfl⟩⟩
    · simp only [Option.some.injEq] at hs; subst hs
      exact ⟨v, .bypass v, by simp [hpc, Pc.arg], rfl, by simp [hpc, Pc.rank], .inl ⟨rfl, rfl⟩⟩
  · rename_i v
    simp only [Option.some.injEq] at hs; subst hs
    exact ⟨v, .read v, by simp [hpc, Pc.arg], rfl, by simp [hpc, Pc.rank], .inl ⟨rfl, rfl⟩⟩
  · rename_i v
    split at hs
    · simp_all
    · rename_i r hr
      simp only [Option.some.injEq] at hs; subst hs
      exact ⟨v, .joinRel v r.gen, by simp [hpc, Pc.arg], rfl, by simp [hpc, Pc.rank], .inl ⟨rfl, rfl⟩⟩
  · rename_i v g
    simp only [Option.some.injEq, St.release, h2t, if_true] at hs; subst hs
    exact ⟨v, .waitCalc v g, by simp [hpc, Pc.arg], rfl, by simp [hpc, Pc.rank], .inl ⟨rfl, rfl⟩⟩
  · rename_i v g
    obtain ⟨⟨r, hr, hg⟩, hu⟩ := h3t
    subst hg
    simp only [hr, if_true] at hs
    split at hs <;> simp only [Option.some.injEq, reduceCtorEq] at hs
    subst hs
    exact ⟨v, .waitObj v r.gen, by simp [hpc, Pc.arg], rfl, by simp [hpc, Pc.rank], .inl ⟨rfl, rfl⟩⟩
  · rename_i v g
    unfold St.acquire at hs
    split at hs <;> simp only [Option.some.injEq, reduceCtorEq] at hs
    subst hs
    exact ⟨v, .leave v g, by simp [hpc, Pc.arg], rfl, by simp [hpc, Pc.rank], .inl ⟨rfl, rfl⟩⟩
  · rename_i v g
    obtain ⟨⟨r, hr, hg⟩, hu, hf⟩ := h3t
    have how := ((h.record v r hr hf).owner t).2 (by simp [hpc, Pc.holdsCalc])
    simp only [hr, how, if_true] at hs
    split at hs <;> simp only [Option.some.injEq] at hs <;> subst hs <;>
    exact ⟨v, .read v, by simp [hpc, Pc.arg], rfl, by simp [hpc, Pc.rank], .inl ⟨rfl, rfl⟩⟩
  · rename_i v
    simp only [Option.some.injEq] at hs; subst hs
    exact ⟨v, .beginRel v, by simp [hpc, Pc.arg], rfl, by simp [hpc, Pc.rank], .inl ⟨rfl, rfl⟩⟩
  · rename_i v
    simp only [Option.some.injEq, St.release, h2t, if_true] at hs; subst hs
    exact ⟨v, .calc v, by simp [hpc, Pc.arg], rfl, by simp [hpc, Pc.rank], .inl ⟨rfl, rfl⟩⟩
  · rename_i v
    split at hs <;> simp only [Option.some.injEq] at hs <;> subst hs
    · rename_i r _
      exact ⟨v, .calcObj v r, by simp [hpc, Pc.arg], rfl, by simp [hpc, Pc.rank], .inr (.inl ⟨rfl, rfl⟩)⟩
    · exact ⟨v, .idle, by simp [hpc, Pc.arg], rfl, by simp [hpc, Pc.rank], .inr (.inr (.inl ⟨rfl, rfl⟩))⟩
  · rename_i v x
    unfold St.acquire at hs
    split at hs <;> simp only [Option.some.injEq, reduceCtorEq] at hs
    subst hs
    exact ⟨v, .check v x, by simp [hpc, Pc.arg], rfl, by simp [hpc, Pc.rank], .inl ⟨rfl, rfl⟩⟩
  · rename_i v x
    simp only [h3t.1, Option.isSome_none, Bool.false_eq_true, if_false, Option.some.injEq] at hs
    subst hs
    exact ⟨v, .store v x, by simp [hpc, Pc.arg], rfl, by simp [hpc, Pc.rank], .inl ⟨rfl, rfl⟩⟩
  · rename_i v x
    simp only [Option.some.injEq] at hs; subst hs
    exact ⟨v, .finish v, by simp [hpc, Pc.arg], rfl, by simp [hpc, Pc.rank], .inl ⟨rfl, rfl⟩⟩
  · rename_i v
    obtain ⟨r, hr⟩ := Option.isSome_iff_exists.1 h3t.2.1
    obtain ⟨y, hy⟩ := Option.isSome_iff_exists.1 h3t.1
    have how := ((h.record v r hr (by simp [(h.cache v y hy).1])).owner t).2
      (by simp [hpc, Pc.holdsCalc])
    simp only [hr, how, if_true] at hs
    split at hs <;> simp only [Option.some.injEq] at hs <;> subst hs <;>
    exact ⟨v, .read v, by simp [hpc, Pc.arg], rfl, by simp [hpc, Pc.rank], .inl ⟨rfl, rfl⟩⟩
  · rename_i v
    obtain ⟨x, hx⟩ := Option.isSome_iff_exists.1 h3t.1
    simp only [hx, Option.some.injEq] at hs; subst hs
    exact ⟨v, .unlock v x, by simp [hpc, Pc.arg], rfl, by simp [hpc, Pc.rank], .inl ⟨rfl, rfl⟩⟩
  · rename_i v x
    simp only [h2t, if_true, Option.some.injEq] at hs; subst hs
    exact ⟨v, .idle, by simp [hpc, Pc.arg], rfl, by simp [hpc, Pc.rank],
      .inr (.inr (.inr (.inl ⟨rfl, h3t.2, x, rfl⟩)))⟩
  · rename_i v
    simp only [Option.some.injEq, St.release, h2t, if_true] at hs; subst hs
    exact ⟨v, .bypassCalc v, by simp [hpc, Pc.arg], rfl, by simp [hpc, Pc.rank], .inl ⟨rfl, rfl⟩⟩
  · rename_i v
    split at hs <;> simp only [Option.some.injEq] at hs <;> subst hs
    · rename_i r _
      exact ⟨v, .idle, by simp [hpc, Pc.arg], rfl, by simp [hpc, Pc.rank],
        .inr (.inr (.inr (.inr ⟨rfl, h3t, r, rfl⟩)))⟩
    · exact ⟨v, .idle, by simp [hpc, Pc.arg], rfl, by simp [hpc, Pc.rank],
        .inr (.inr (.inl ⟨rfl, rfl⟩))⟩

/-- A thread whose next statement does not take a lock can always perform it. -/
theorem enabled_of_free [Inhabited T] (c : Cfg V T) (s : St Tid V T) (t : Tid) (hidle : s.pc t ≠ .idle)
    (hobj : (s.pc t).holdsObj = true ∨ (∃ v, s.pc t = .calc v) ∨ (∃ v, s.pc t = .bypassCalc v) ∨
      (s.lock = none ∧ ∀ v g, s.pc t ≠ .waitCalc v g)) :
    ∃ s', stepThread c s t = some s' := by
  unfold stepThread
  cases hp : s.pc t <;> simp only [hp, Pc.holdsObj, St.acquire] at hobj hidle ⊢ <;>
    first
    | exact absurd rfl hidle
    | exact ⟨_, rfl⟩
    | (split <;> first | exact ⟨_, rfl⟩ | (split <;> first | exact ⟨_, rfl⟩ | (split <;> exact ⟨_, rfl⟩)))
    | (simp at hobj
       try (obtain ⟨h1, h2⟩ := hobj; simp [h1])
       try simp [hobj])

/-- If no thread can move, every thread is idle or waits for a computation that threw. -/
theorem stuck_shape [Fintype Tid] [Inhabited T] {c : Cfg V T} {s : St Tid V T} (h : Inv c s)
    (hstuck : ∀ t, stepThread c s t = none) (t : Tid) :
    s.pc t = .idle ∨ ∃ v g, s.pc t = .waitCalc v g ∧ c.func v = none := by
  have hen := fun u hi ho => show False from (enabled_of_free c s u hi ho).elim (fun s' hs' => by
    rw [hstuck u] at hs'; cases hs')
  by_cases hidle : s.pc t = .idle
  · exact .inl hidle
  right
  have hlock : s.lock = none := by
    cases hl : s.lock with
    | none => rfl
    | some u =>
      have hu := (h.lock u).1 hl
      exact (hen u (by intro hh; simp [hh, Pc.holdsObj] at hu) (.inl hu)).elim
  by_cases hw : ∃ v g, s.pc t = .waitCalc v g
  · obtain ⟨v, g, hpc⟩ := hw
    refine ⟨v, g, hpc, ?_⟩
    have h3t := h.thread t
    rw [hpc] at h3t
    obtain ⟨⟨r, hr, hg⟩, -⟩ := h3t
    by_contra hf
    have hf' : (c.func v).isSome = true := Option.isSome_iff_ne_none.2 hf
    cases ho : r.owner with
    | none =>
      have := hstuck t
      simp [stepThread, hpc, hr, hg, ho] at this
    | some u =>
      have hu := ((h.record v r hr hf').owner u).1 ho
      refine hen u (by intro hh; simp [hh, Pc.holdsCalc] at hu) (.inr (.inr (.inr ⟨hlock, ?_⟩)))
      intro w g' hh
      simp [hh, Pc.holdsCalc] at hu
  · push Not at hw
    exact (hen t hidle (.inr (.inr (.inr ⟨hlock, hw⟩)))).elim

end Slat.CacheFn
