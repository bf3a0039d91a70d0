import Verif.DefineModel
import Mathlib.Data.List.Basic
import Mathlib.Data.List.Induction
import Mathlib.Tactic.Linarith

/-!
# A definition that is refused leaves the names as they were (C98)
-/

namespace Slat.Define

/-! ## Specification -/

/-- The class whose objects a call makes. -/
def Def.cls : Def → Cls
  | .detfn _ _ _ => .detfn | .probfn _ _ _ => .probfn | .im _ _ => .im | .edp _ _ => .edp
  | .fragUser _ _ => .fragfn | .fragDb _ => .fragfn | .lossfn _ _ => .lossfn | .compgroup _ _ => .compgroup
  | .struct _ _ => .struct

/-- The identifier given. -/
def Def.id : Def → Id
  | .detfn id _ _ => id | .probfn id _ _ => id | .im id _ => id | .edp id _ => id
  | .fragUser id _ => id | .fragDb id => id | .lossfn id _ => id | .compgroup id _ => id
  | .struct id _ => id

/-- The definition of a probabilistic function of a type that does not exist, with parameters that are right. -/
def Misnamed : Def → Prop
  | .probfn _ type .done => type ≠ "lognormal"
  | _ => False

/-- A definition with everything it needs: what the library object is made of, and a type that exists. -/
def Sound : Def → Prop
  | .detfn _ type m => m = .done ∧ (type = "power law" ∨ type = "hyperbolic" ∨ type = "loglog" ∨ type = "linear")
  | .probfn _ type m => m = .done ∧ type = "lognormal"
  | .im _ m | .edp _ m | .fragUser _ m | .lossfn _ m | .compgroup _ m | .struct _ m => m = .done
  | .fragDb _ => True

/-- Call number `n` is the last one that returned with an object of class `c` and name `x`. -/
def IsLast (h : List (Def × Outcome)) (c : Cls) (x : String) (n : ℕ) : Prop :=
  (∃ d, h[n]? = some (d, .returned) ∧ d.cls = c ∧ d.id = some x) ∧
    ∀ m d, n < m → h[m]? = some (d, .returned) → d.cls = c → d.id = some x → False

/-- The classes whose objects are replaced when their name is defined again. -/
def Follows (c : Cls) : Prop := c = .im ∨ c = .edp ∨ c = .fragfn ∨ c = .lossfn ∨ c = .compgroup

/-! ## Auxiliary facts -/

theorem last_lt {h : List (Def × Outcome)} {c : Cls} {x : String} {n : ℕ} (hl : IsLast h c x n) : n < h.length := by
  obtain ⟨⟨d, h1, -⟩, -⟩ := hl
  exact (List.getElem?_eq_some_iff.1 h1).1

theorem last_unique {h : List (Def × Outcome)} {c : Cls} {x : String} {m n : ℕ} (hm : IsLast h c x m)
    (hn : IsLast h c x n) : m = n := by
  obtain ⟨⟨d, a1, a2, a3⟩, a4⟩ := hm
  obtain ⟨⟨e, b1, b2, b3⟩, b4⟩ := hn
  rcases lt_trichotomy m n with h | h | h
  · exact (a4 n e h b1 b2 b3).elim
  · exact h
  · exact (b4 m d h a1 a2 a3).elim

theorem last_snoc_hit {h : List (Def × Outcome)} {d : Def} {c : Cls} {x : String} (h1 : d.cls = c) (h2 : d.id = some x)
    (n : ℕ) : IsLast (h ++ [(d, .returned)]) c x n ↔ n = h.length := by
  have key : IsLast (h ++ [(d, .returned)]) c x h.length := by
    refine ⟨⟨d, by simp, h1, h2⟩, fun m e hm he _ _ => ?_⟩
    have := (List.getElem?_eq_some_iff.1 he).1
    simp at this
    omega
  exact ⟨fun hn => last_unique hn key, fun hn => hn ▸ key⟩

theorem last_snoc_miss {h : List (Def × Outcome)} {d : Def} {o : Outcome} {c : Cls} {x : String}
    (hd : ¬(o = .returned ∧ d.cls = c ∧ d.id = some x)) (n : ℕ) : IsLast (h ++ [(d, o)]) c x n ↔ IsLast h c x n := by
  have get : ∀ (m : ℕ) (e : Def), e.cls = c → e.id = some x →
      ((h ++ [(d, o)])[m]? = some (e, .returned) ↔ h[m]? = some (e, .returned)) := by
    intro m e he1 he2
    rcases lt_trichotomy m h.length with hm | hm | hm
    · rw [List.getElem?_append_left hm]
    · subst hm
      simp only [List.getElem?_concat_length, Option.some.injEq, Prod.mk.injEq, List.getElem?_eq_none le_rfl,
        reduceCtorEq, iff_false]
      rintro ⟨rfl, rfl⟩
      exact hd ⟨rfl, he1, he2⟩
    · rw [List.getElem?_eq_none (by simp; omega), List.getElem?_eq_none hm.le]
  constructor
  · rintro ⟨⟨e, e1, e2, e3⟩, e4⟩
    exact ⟨⟨e, (get n e e2 e3).1 e1, e2, e3⟩, fun m e' hm he' k1 k2 => e4 m e' hm ((get m e' k1 k2).2 he') k1 k2⟩
  · rintro ⟨⟨e, e1, e2, e3⟩, e4⟩
    exact ⟨⟨e, (get n e e2 e3).2 e1, e2, e3⟩, fun m e' hm he' k1 k2 => e4 m e' hm ((get m e' k1 k2).1 he') k1 k2⟩

theorem succeed_cases (s : St) (c : Cls) (id : Id) (n : ℕ) {s' : St} {o : Outcome} (h : succeed s c id n = (s', o)) :
    (o = .returned ∧ s'.next = s.next ∧
      (∀ c' id', s'.defs c' id' = if c' = c ∧ id' = id then some n else s.defs c' id') ∧
      s'.calls = s.calls ++ ((s.defs c id).map fun a => (a, n)).toList) ∨ o ≠ .returned ∧ s' = s := by
  unfold succeed at h
  split at h
  · next hd =>
    cases h
    exact Or.inl ⟨rfl, rfl, fun _ _ => rfl, by simp [enter, hd]⟩
  · next old hd =>
    split at h
    · split at h
      · cases h
        exact Or.inl ⟨rfl, rfl, fun _ _ => rfl, by simp [enter, hd]⟩
      · cases h; exact Or.inr ⟨by simp, rfl⟩
    · cases h; exact Or.inr ⟨by simp, rfl⟩

/-- What a constructor leaves behind. -/
theorem exec_cases (s : St) (d : Def) {s' : St} {o : Outcome} (h : exec s d = (s', o)) :
    s'.next = s.next + 1 ∧
    (∀ c x, (c = .probfn → ¬ Misnamed d) → s'.defs c (some x) =
      if o = .returned ∧ d.cls = c ∧ d.id = some x then some s.next else s.defs c (some x)) ∧
    (∀ a b, (a, b) ∈ s'.calls ↔ (a, b) ∈ s.calls ∨
      o = .returned ∧ Follows d.cls ∧ b = s.next ∧ ∃ x, d.id = some x ∧ s.defs d.cls (some x) = some a) ∧
    (o = .raised → ¬ Misnamed d → s'.defs = s.defs ∧ s'.calls = s.calls) := by
  have reg : ∀ (c : Cls) (id : Id) (t : St), t.defs = s.defs → t.next = s.next + 1 → t.calls = s.calls → Follows c →
      d.cls = c → d.id = id → (id = none → c ≠ .edp → (s', o) = (t, .returned)) →
      (id = none → c = .edp → (s', o) = (enter t .edp none s.next, .returned)) →
      (id ≠ none → succeed t c id s.next = (s', o)) → s'.next = s.next + 1 ∧
      (∀ c x, (c = .probfn → ¬ Misnamed d) → s'.defs c (some x) =
        if o = .returned ∧ d.cls = c ∧ d.id = some x then some s.next else s.defs c (some x)) ∧
      (∀ a b, (a, b) ∈ s'.calls ↔ (a, b) ∈ s.calls ∨
        o = .returned ∧ Follows d.cls ∧ b = s.next ∧ ∃ x, d.id = some x ∧ s.defs d.cls (some x) = some a) ∧
      (o = .raised → ¬ Misnamed d → s'.defs = s.defs ∧ s'.calls = s.calls) := by
    intro c id t t1 t2 t3 hf hc hid k1 k2 k3
    subst hc hid
    cases hi : d.id with
    | none =>
      by_cases he : d.cls = .edp
      · have := k2 hi he
        simp only [Prod.mk.injEq] at this
        obtain ⟨rfl, rfl⟩ := this
        refine ⟨t2, fun c x _ => by simp [enter, t1], fun a b => by simp [enter, t3], by simp⟩
      · have := k1 hi he
        simp only [Prod.mk.injEq] at this
        obtain ⟨rfl, rfl⟩ := this
        exact ⟨t2, fun c x _ => by simp [t1], fun a b => by simp [t3], by simp⟩
    | some x =>
      have := k3 (by simp [hi])
      rw [hi] at this
      rcases succeed_cases _ _ _ _ this with ⟨rfl, b1, b2, b3⟩ | ⟨b1, rfl⟩
      · refine ⟨by rw [b1, t2], fun c y _ => ?_, fun a b => ?_, by simp⟩
        · rw [b2, t1]
          by_cases hc : c = d.cls
          · subst hc
            by_cases hy : y = x
            · simp [hy]
            · simp [hy, Ne.symm hy]
          · simp [hc, Ne.symm hc]
        · rw [b3, t1, t3, List.mem_append]
          cases hd : s.defs d.cls (some x) with
          | none => simp [hd]
          | some old =>
            simp only [Option.map_some, Option.toList_some, List.mem_singleton, Prod.mk.injEq, true_and,
              Option.some.injEq, exists_eq_left', hd]
            constructor
            · rintro (h | ⟨rfl, rfl⟩)
              · exact Or.inl h
              · exact Or.inr ⟨hf, rfl, rfl⟩
            · rintro (h | ⟨-, rfl, rfl⟩)
              · exact Or.inl h
              · exact Or.inr ⟨rfl, rfl⟩
      · refine ⟨t2, fun c y _ => by simp [b1, t1], fun a b => by simp [b1, t3], fun _ _ => ⟨t1, t3⟩⟩
  have none_ : ∀ t : St, t.defs = s.defs → t.next = s.next + 1 → t.calls = s.calls → o ≠ .returned → s' = t →
      s'.next = s.next + 1 ∧
      (∀ c x, (c = .probfn → ¬ Misnamed d) → s'.defs c (some x) =
        if o = .returned ∧ d.cls = c ∧ d.id = some x then some s.next else s.defs c (some x)) ∧
      (∀ a b, (a, b) ∈ s'.calls ↔ (a, b) ∈ s.calls ∨
        o = .returned ∧ Follows d.cls ∧ b = s.next ∧ ∃ x, d.id = some x ∧ s.defs d.cls (some x) = some a) ∧
      (o = .raised → ¬ Misnamed d → s'.defs = s.defs ∧ s'.calls = s.calls) := by
    rintro t t1 t2 t3 ho rfl
    exact ⟨t2, fun c x _ => by simp [ho, t1], fun a b => by simp [ho, t3], fun _ _ => ⟨t1, t3⟩⟩
  have rec_ : ∀ (c : Cls) (id : Id) (t : St), t.defs = s.defs → t.next = s.next + 1 → t.calls = s.calls → ¬ Follows c →
      d.cls = c → d.id = id → o = .returned → s' = record t c id s.next → s'.next = s.next + 1 ∧
      (∀ c x, (c = .probfn → ¬ Misnamed d) → s'.defs c (some x) =
        if o = .returned ∧ d.cls = c ∧ d.id = some x then some s.next else s.defs c (some x)) ∧
      (∀ a b, (a, b) ∈ s'.calls ↔ (a, b) ∈ s.calls ∨
        o = .returned ∧ Follows d.cls ∧ b = s.next ∧ ∃ x, d.id = some x ∧ s.defs d.cls (some x) = some a) ∧
      (o = .raised → ¬ Misnamed d → s'.defs = s.defs ∧ s'.calls = s.calls) := by
    rintro c id t t1 t2 t3 hf rfl rfl rfl rfl
    refine ⟨?_, fun c x _ => ?_, fun a b => ?_, by simp⟩
    · unfold record; split <;> simp [enter, t2]
    · unfold record
      cases hi : d.id with
      | none => simp [t1]
      | some y =>
        simp only [ne_eq, reduceCtorEq, not_false_eq_true, if_true, enter, t1, Option.some.injEq, true_and]
        by_cases hc : c = d.cls
        · subst hc
          by_cases hy : x = y
          · simp [hy]
          · simp [hy, Ne.symm hy]
        · simp [hc, Ne.symm hc]
    · have : (record t d.cls d.id s.next).calls = s.calls := by unfold record; split <;> simp [enter, t3]
      simp [this, hf]
  unfold exec at h
  set t : St := { s with next := s.next + 1, wraps := Function.update s.wraps s.next d.wraps } with ht
  have t1 : t.defs = s.defs := rfl
  have t2 : t.next = s.next + 1 := rfl
  have t3 : t.calls = s.calls := rfl
  clear_value t
  cases d with
  | detfn id type m =>
    simp only [body] at h
    split at h
    · cases m with
      | done => cases h; exact rec_ .detfn id t t1 t2 t3 (by simp [Follows]) rfl rfl rfl rfl
      | raises => cases h; exact none_ _ t1 t2 t3 (by simp) rfl
      | ends => cases h; exact none_ _ t1 t2 t3 (by simp) rfl
    · cases h; exact none_ _ t1 t2 t3 (by simp) rfl
  | probfn id type m =>
    simp only [body] at h
    cases m with
    | done =>
      simp only [after] at h
      split at h
      · cases h; exact rec_ .probfn id t t1 t2 t3 (by simp [Follows]) rfl rfl rfl rfl
      · next hm =>
        cases h
        refine ⟨?_, fun c x hc => ?_, fun a b => ?_, fun _ hn => absurd hm hn⟩
        · unfold record; split <;> simp [enter, t2]
        · have : c ≠ .probfn := fun e => hc e hm
          unfold record
          split <;> simp [enter, t1, this]
        · have : (record t .probfn id s.next).calls = s.calls := by unfold record; split <;> simp [enter, t3]
          simp [this]
    | raises => cases h; exact none_ _ t1 t2 t3 (by simp) rfl
    | ends => cases h; exact none_ _ t1 t2 t3 (by simp) rfl
  | struct id m =>
    cases m with
    | done => cases h; exact rec_ .struct id t t1 t2 t3 (by simp [Follows]) rfl rfl rfl rfl
    | raises => cases h; exact none_ _ t1 t2 t3 (by simp) rfl
    | ends => cases h; exact none_ _ t1 t2 t3 (by simp) rfl
  | fragDb id =>
    simp only [body, register] at h
    exact reg .fragfn id t t1 t2 t3 (by simp [Follows]) rfl rfl (fun hi _ => by simpa [hi] using h.symm) (by simp)
      fun hi => by simpa [hi] using h
  | im id m =>
    cases m with
    | done =>
      simp only [body, after, register] at h
      exact reg .im id t t1 t2 t3 (by simp [Follows]) rfl rfl (fun hi _ => by simpa [hi] using h.symm) (by simp)
        fun hi => by simpa [hi] using h
    | raises => cases h; exact none_ _ t1 t2 t3 (by simp) rfl
    | ends => cases h; exact none_ _ t1 t2 t3 (by simp) rfl
  | edp id m =>
    cases m with
    | done =>
      simp only [body, after] at h
      exact reg .edp id t t1 t2 t3 (by simp [Follows]) rfl rfl (by simp) (fun hi _ => by simpa [hi] using h.symm)
        fun hi => by simpa [hi] using h
    | raises => cases h; exact none_ _ t1 t2 t3 (by simp) rfl
    | ends => cases h; exact none_ _ t1 t2 t3 (by simp) rfl
  | fragUser id m =>
    cases m with
    | done =>
      simp only [body, after, register] at h
      exact reg .fragfn id t t1 t2 t3 (by simp [Follows]) rfl rfl (fun hi _ => by simpa [hi] using h.symm) (by simp)
        fun hi => by simpa [hi] using h
    | raises => cases h; exact none_ _ t1 t2 t3 (by simp) rfl
    | ends => cases h; exact none_ _ t1 t2 t3 (by simp) rfl
  | lossfn id m =>
    cases m with
    | done =>
      simp only [body, after, register] at h
      exact reg .lossfn id t t1 t2 t3 (by simp [Follows]) rfl rfl (fun hi _ => by simpa [hi] using h.symm) (by simp)
        fun hi => by simpa [hi] using h
    | raises => cases h; exact none_ _ t1 t2 t3 (by simp) rfl
    | ends => cases h; exact none_ _ t1 t2 t3 (by simp) rfl
  | compgroup id m =>
    cases m with
    | done =>
      simp only [body, after, register] at h
      exact reg .compgroup id t t1 t2 t3 (by simp [Follows]) rfl rfl (fun hi _ => by simpa [hi] using h.symm) (by simp)
        fun hi => by simpa [hi] using h
    | raises => cases h; exact none_ _ t1 t2 t3 (by simp) rfl
    | ends => cases h; exact none_ _ t1 t2 t3 (by simp) rfl

theorem Runs.next {h : List (Def × Outcome)} {s : St} (hr : Runs h s) : s.next = h.length := by
  induction hr with
  | start => rfl
  | call _ he _ ih => rw [(exec_cases _ _ he).1, ih]; simp

theorem exec_wraps (s : St) (d : Def) : (exec s d).1.wraps = Function.update s.wraps s.next d.wraps := by
  have hs : ∀ (t : St) c id n, (succeed t c id n).1.wraps = t.wraps := by
    intro t c id n
    unfold succeed
    split
    · rfl
    · split
      · split <;> rfl
      · rfl
  have ha : ∀ (t : St) m k, k.1.wraps = t.wraps → (after t m k).1.wraps = t.wraps := by
    intro t m k hk
    cases m <;> simp [after, hk]
  have hrec : ∀ (t : St) c id n, (record t c id n).wraps = t.wraps := by
    intro t c id n
    unfold record
    split <;> rfl
  have hreg : ∀ (t : St) c id n, (register t c id n).1.wraps = t.wraps := by
    intro t c id n
    unfold register
    split
    · exact hs _ _ _ _
    · rfl
  unfold exec
  cases d with
  | detfn id type m =>
    simp only [body]
    split
    · exact ha _ _ _ (hrec _ _ _ _)
    · rfl
  | probfn id type m =>
    refine ha _ _ _ ?_
    split <;> exact hrec _ _ _ _
  | im id m => exact ha _ _ _ (hreg _ _ _ _)
  | edp id m =>
    refine ha _ _ _ ?_
    split
    · exact hs _ _ _ _
    · rfl
  | fragUser id m => exact ha _ _ _ (hreg _ _ _ _)
  | fragDb id => exact hreg _ _ _ _
  | lossfn id m => exact ha _ _ _ (hreg _ _ _ _)
  | compgroup id m => exact ha _ _ _ (hreg _ _ _ _)
  | struct id m => exact ha _ _ _ (hrec _ _ _ _)

theorem Runs.wraps {h : List (Def × Outcome)} {s : St} (hr : Runs h s) {n : ℕ} {e : Def × Outcome}
    (he : h[n]? = some e) : s.wraps n = e.1.wraps := by
  induction hr with
  | start => simp at he
  | @call h s s' d o hr hx _ ih =>
    have := exec_wraps s d
    rw [hx] at this
    simp only at this
    rw [this, hr.next]
    rcases lt_trichotomy n h.length with hl | rfl | hl
    · rw [Function.update_of_ne hl.ne]
      exact ih (by rwa [List.getElem?_append_left hl] at he)
    · simp only [List.getElem?_concat_length, Option.some.injEq] at he
      simp [← he]
    · rw [List.getElem?_eq_none (by simp; omega)] at he
      simp at he

/-! ## C98 -/

/-- **C98**: a constructor that raises leaves all names as they were, and replaces nothing, unless it is that of a
probabilistic function of a wrong type. -/
theorem refused_changes_nothing_partial (s s' : St) (d : Def) (hd : ¬ Misnamed d) (h : exec s d = (s', .raised)) :
    (∀ c id, lookup s' c id = lookup s c id) ∧ s'.calls = s.calls := by
  obtain ⟨-, -, -, h4⟩ := exec_cases s d h
  obtain ⟨a, b⟩ := h4 rfl hd
  exact ⟨fun c id => by simp [lookup, a], b⟩

/-- **C98**: whatever was defined and refused before, a name stands for the object of the last definition of its class
with this name that returned; for probabilistic functions as long as none was given a wrong type. -/
theorem name_is_last_made_partial {h : List (Def × Outcome)} {s : St} (hr : Runs h s) (c : Cls)
    (hc : c = .probfn → ∀ d ∈ h, ¬ Misnamed d.1) (x : String) (n : ℕ) :
    lookup s c (some x) = some n ↔ IsLast h c x n := by
  induction hr generalizing n with
  | start => simp [lookup, St.init, IsLast]
  | @call h s s' d o hr he _ ih =>
    have hc' : c = .probfn → ¬ Misnamed d := fun e => hc e (d, o) (by simp)
    have ih := ih (fun e d hd => hc e d (by simp [hd])) n
    rw [lookup, (exec_cases s d he).2.1 c x hc']
    by_cases hh : o = .returned ∧ d.cls = c ∧ d.id = some x
    · rw [if_pos hh, hr.next, Option.some.injEq]
      obtain ⟨rfl, h1, h2⟩ := hh
      rw [last_snoc_hit h1 h2]
      exact eq_comm
    · rw [if_neg hh, last_snoc_miss hh]
      exact ih

/-- **C98**: the library is told to replace an object by another exactly when the second was defined under the name of
the first, both definitions returned, and none in between did; this for all classes but functions and structures. -/
theorem replaced_by_next_made {h : List (Def × Outcome)} {s : St} (hr : Runs h s) (a b : ℕ) :
    (a, b) ∈ s.calls ↔ ∃ d x, h[b]? = some (d, .returned) ∧ Follows d.cls ∧ d.id = some x ∧
      IsLast (h.take b) d.cls x a := by
  induction hr with
  | start => simp [St.init]
  | @call h s s' d o hr he _ ih =>
    have hp : ∀ c, Follows c → (c = .probfn → ∀ d ∈ h, ¬ Misnamed d.1) := by
      rintro c hf rfl
      simp [Follows] at hf
    rw [(exec_cases s d he).2.2.1, ih, hr.next]
    constructor
    · rintro (⟨e, x, h1, h2, h3, h4⟩ | ⟨rfl, hf, rfl, x, h1, h2⟩)
      · have hb := (List.getElem?_eq_some_iff.1 h1).1
        exact ⟨e, x, by rw [List.getElem?_append_left hb, h1], h2, h3, by rwa [List.take_append_of_le_length hb.le]⟩
      · exact ⟨d, x, by simp, hf, h1, by
          rw [List.take_left]
          exact (name_is_last_made_partial hr _ (hp _ hf) x a).1 h2⟩
    · rintro ⟨e, x, h1, h2, h3, h4⟩
      have hb := (List.getElem?_eq_some_iff.1 h1).1
      rw [List.length_append, List.length_singleton] at hb
      rcases Nat.lt_succ_iff_lt_or_eq.1 hb with hb | rfl
      · rw [List.getElem?_append_left hb] at h1
        rw [List.take_append_of_le_length hb.le] at h4
        exact Or.inl ⟨e, x, h1, h2, h3, h4⟩
      · simp only [List.getElem?_concat_length, Option.some.injEq, Prod.mk.injEq] at h1
        obtain ⟨rfl, rfl⟩ := h1
        rw [List.take_left] at h4
        exact Or.inr ⟨rfl, h2, rfl, x, h3, (name_is_last_made_partial hr _ (hp _ h2) x a).2 h4⟩

/-- **C98**: where no function was taken from the database, a definition is accepted if and only if it has everything
it needs, whatever its name stood for before. -/
theorem accepted_partial {h : List (Def × Outcome)} {s : St} (hr : Runs h s) (hh : ∀ e ∈ h, ∀ id, e.1 ≠ .fragDb id)
    (d : Def) (hd : ∀ id, d ≠ .fragDb id) : (exec s d).2 = .returned ↔ Sound d := by
  have hw : ∀ e : Def, (∀ id, e ≠ .fragDb id) → e.wraps = true := by
    intro e he
    cases e with
    | fragDb id => exact absurd rfl (he id)
    | _ => rfl
  have hdw := hw d hd
  have ok : ∀ (c : Cls) (x : String), c ≠ .probfn →
      (succeed { s with next := s.next + 1, wraps := Function.update s.wraps s.next d.wraps } c (some x) s.next).2 =
        .returned := by
    intro c x hc
    unfold succeed
    simp only
    split
    · rfl
    · next old ho =>
      obtain ⟨⟨e, h1, -⟩, -⟩ := (name_is_last_made_partial hr c (fun k => absurd k hc) x old).1 ho
      have h2 := hr.wraps h1
      rw [hw e (hh _ (List.mem_of_getElem? h1))] at h2
      have h3 : old ≠ s.next := by
        rw [hr.next]
        exact ((List.getElem?_eq_some_iff.1 h1).1).ne
      simp [Function.update_of_ne h3, h2, hdw]
  cases d with
  | detfn id type m =>
    by_cases ht : type ∈ detTypes
    · cases m <;> simp_all [exec, body, after, Sound, detTypes]
    · cases m <;> simp_all [exec, body, after, Sound, detTypes]
  | probfn id type m =>
    by_cases ht : type = "lognormal" <;> cases m <;> simp_all [exec, body, after, Sound]
  | fragDb id => exact absurd rfl (hd id)
  | struct id m => cases m <;> simp [exec, body, after, Sound]
  | im id m =>
    cases m <;> cases id <;> simp [exec, body, after, register, Sound]
    exact ok .im _ (by simp)
  | edp id m =>
    cases m <;> cases id <;> simp [exec, body, after, Sound]
    exact ok .edp _ (by simp)
  | fragUser id m =>
    cases m <;> cases id <;> simp [exec, body, after, register, Sound]
    exact ok .fragfn _ (by simp)
  | lossfn id m =>
    cases m <;> cases id <;> simp [exec, body, after, register, Sound]
    exact ok .lossfn _ (by simp)
  | compgroup id m =>
    cases m <;> cases id <;> simp [exec, body, after, register, Sound]
    exact ok .compgroup _ (by simp)

/-! ## What fails -/

/-- **C98, what fails**: a probabilistic function of a wrong type is refused but defined: from then on its name stands
for the refused function, and the one defined before under the name is not found any more. -/
theorem refused_probfn_fails (s : St) (x type : String) (ht : type ≠ "lognormal") :
    ∃ s', exec s (.probfn (some x) type .done) = (s', .raised) ∧ lookup s' .probfn (some x) = some s.next := by
  refine ⟨_, by simp only [exec, body, after, if_neg ht]; rfl, ?_⟩
  simp [lookup, record, enter]

/-- **C98, what fails**: once a fragility function has been defined from the database, no other can be defined under
its name: every attempt raises, whatever else is defined before and after. -/
theorem database_name_fails {h : List (Def × Outcome)} {s : St} (hr : Runs h s) (x : String) (n : ℕ)
    (hn : lookup s .fragfn (some x) = some n) (hd : ∃ id, (h[n]?).map Prod.fst = some (.fragDb id)) :
    ∀ h' s', Runs (h ++ h') s' → lookup s' .fragfn (some x) = some n ∧
      ∃ t, exec s' (.fragUser (some x) .done) = (t, .raised) := by
  have hw : ∀ {h : List (Def × Outcome)} {s : St}, Runs h s → ∀ n id, (h[n]?).map Prod.fst = some (.fragDb id) →
      s.wraps n = false := by
    intro h s hr n id hid
    obtain ⟨e, h1, h2⟩ := Option.map_eq_some_iff.1 hid
    rw [hr.wraps h1, h2]
    rfl
  have hnl : n < h.length := by
    obtain ⟨id, h1⟩ := hd
    by_contra hc
    rw [List.getElem?_eq_none (by omega)] at h1
    simp at h1
  have raises : ∀ s' : St, s'.defs .fragfn (some x) = some n → s'.wraps n = false → n < s'.next →
      ∀ d : Def, d.cls = .fragfn → d.id = some x → (exec s' d).2 ≠ .returned ∧
        (d = .fragUser (some x) .done → ∃ t, exec s' d = (t, .raised)) := by
    intro s' h1 h2 h3 d hc hi
    cases d with
    | fragUser id m =>
      simp only [Def.id] at hi
      subst hi
      cases m <;> simp [exec, body, after, register, succeed, h1, h2, Function.update_of_ne h3.ne]
    | fragDb id =>
      simp only [Def.id] at hi
      subst hi
      simp [exec, body, register, succeed, h1, h2, Function.update_of_ne h3.ne]
    | _ => simp [Def.cls] at hc
  obtain ⟨id, hid⟩ := hd
  intro h' 
  induction h' using List.reverseRecOn with
  | nil =>
    intro s' hr'
    have h1 : lookup s' .fragfn (some x) = some n := by
      rw [List.append_nil] at hr'
      rw [name_is_last_made_partial hr' _ (by simp)]
      rwa [name_is_last_made_partial hr _ (by simp)] at hn
    have hw' := hw hr' n id (by simpa using hid)
    exact ⟨h1, (raises s' h1 hw' (by rw [hr'.next]; simpa using hnl) _ rfl rfl).2 rfl⟩
  | append_singleton h' e ih =>
    intro s' hr'
    have hget : ((h ++ (h' ++ [e]))[n]?).map Prod.fst = some (.fragDb id) := by
      rw [List.getElem?_append_left hnl]; exact hid
    have hw' := hw hr' n id hget
    have hlt : n < s'.next := by rw [hr'.next, List.length_append]; omega
    have h1 : lookup s' .fragfn (some x) = some n := by
      rw [← List.append_assoc] at hr'
      generalize hg : h ++ h' ++ [e] = g at hr'
      cases hr' with
      | start => simp at hg
      | @call g s₀ _ d o hr₀ he ho =>
        obtain ⟨rfl, hg2⟩ := List.append_inj' hg rfl
        obtain ⟨a1, -⟩ := ih s₀ hr₀
        have a2 := hw hr₀ n id (by rw [List.getElem?_append_left hnl]; exact hid)
        have a3 : n < s₀.next := by rw [hr₀.next, List.length_append]; omega
        rw [lookup, (exec_cases _ _ he).2.1 _ _ (by simp), if_neg]
        · exact a1
        · rintro ⟨rfl, b1, b2⟩
          have := (raises s₀ a1 a2 a3 d b1 b2).1
          rw [he] at this
          exact this rfl
    exact ⟨h1, (raises s' h1 hw' hlt _ rfl rfl).2 rfl⟩

/-- **C98, what fails**: a name that stands for a fragility function cannot be defined from the database: the library is
given a null pointer. -/
theorem database_over_user_fails :
    ∃ s, Runs [(.fragUser (some "f") .done, .returned)] s ∧ (exec s (.fragDb (some "f"))).2 = .crashed := by
  refine ⟨_, .call (h := []) .start rfl (by decide), ?_⟩
  simp [exec, body, register, succeed, St.init, enter, Def.wraps, Function.update]

/-- **C98, what fails**: a demand defined without a name is found under the name `None`; objects of no other class
are. -/
theorem unnamed_edp_fails {h : List (Def × Outcome)} {s : St} (hr : Runs h s) :
    (∀ c, c ≠ .edp → lookup s c none = none) ∧
      ∃ s', exec s (.edp none .done) = (s', .returned) ∧ lookup s' .edp none = some s.next := by
  constructor
  · intro c hc
    induction hr with
    | start => rfl
    | @call h s s' d o _ he _ ih =>
      have hs : ∀ (t : St) c' x n, (succeed t c' (some x) n).1.defs c none = t.defs c none := by
        intro t c' x n
        unfold succeed
        split
        · simp [enter]
        · split
          · split <;> simp [enter]
          · rfl
      have ha : ∀ (t : St) m k, k.1.defs c none = t.defs c none → (after t m k).1.defs c none = t.defs c none := by
        intro t m k hk
        cases m <;> simp [after, hk]
      have hrec : ∀ (t : St) c' id n, (record t c' id n).defs c none = t.defs c none := by
        intro t c' id n
        cases id <;> simp [record, enter]
      have hreg : ∀ (t : St) c' id n, (register t c' id n).1.defs c none = t.defs c none := by
        intro t c' id n
        cases id with
        | none => simp [register]
        | some x => simpa [register] using hs t c' x n
      have key : (exec s d).1.defs c none = s.defs c none := by
        unfold exec
        cases d with
        | detfn id type m =>
          simp only [body]
          split
          · exact ha _ _ _ (hrec _ _ _ _)
          · rfl
        | probfn id type m =>
          refine ha _ _ _ ?_
          split <;> exact hrec _ _ _ _
        | im id m => exact ha _ _ _ (hreg _ _ _ _)
        | edp id m =>
          refine ha _ _ _ ?_
          cases id with
          | none => simp [enter, hc]
          | some x => simpa using hs _ .edp x _
        | fragUser id m => exact ha _ _ _ (hreg _ _ _ _)
        | fragDb id => exact hreg _ _ _ _
        | lossfn id m => exact ha _ _ _ (hreg _ _ _ _)
        | compgroup id m => exact ha _ _ _ (hreg _ _ _ _)
        | struct id m => exact ha _ _ _ (hrec _ _ _ _)
      rw [he] at key
      rw [lookup, key]
      exact ih
  · exact ⟨_, rfl, by simp [lookup, enter]⟩

/-! ## Examples -/

/-- A loss function is defined twice; in between, a definition with bad data is refused. -/
def attempts : List (Def × Outcome) :=
  [(.lossfn (some "l") .done, .returned), (.lossfn (some "l") .raises, .raised), (.detfn (some "l") "cubic" .done, .raised),
    (.lossfn (some "l") .done, .returned)]

theorem Runs.more {h : List (Def × Outcome)} {s : St} (hr : Runs h s) {d : Def} {o : Outcome} (ho : (exec s d).2 = o)
    (hc : o ≠ .crashed) : Runs (h ++ [(d, o)]) (exec s d).1 :=
  .call hr (Prod.ext rfl ho) hc

theorem attempts_run : ∃ s, Runs attempts s := by
  have h1 := Runs.start.more (d := .lossfn (some "l") .done) (o := .returned) rfl (by decide)
  have h2 := h1.more (d := .lossfn (some "l") .raises) (o := .raised) rfl (by decide)
  have h3 := h2.more (d := .detfn (some "l") "cubic" .done) (o := .raised)
    (by simp only [exec, body]; rw [if_neg (by decide)]) (by decide)
  exact ⟨_, h3.more (d := .lossfn (some "l") .done) (o := .returned)
    (by simp [exec, body, after, register, succeed, St.init, enter, Def.wraps, detTypes, Function.update]) (by decide)⟩

example : ∃ s, Runs attempts s ∧ lookup s .lossfn (some "l") = some 3 ∧ (0, 3) ∈ s.calls ∧ (0, 1) ∉ s.calls ∧
    lookup s .detfn (some "l") = none := by
  obtain ⟨s, hs⟩ := attempts_run
  have h0 : IsLast (attempts.take 3) .lossfn "l" 0 := by
    refine ⟨⟨_, rfl, rfl, rfl⟩, ?_⟩
    intro m d hm hd h1 h2
    match m, hm with
    | 1, _ => simp [attempts] at hd
    | 2, _ => simp [attempts] at hd
    | k + 3, _ => simp [attempts] at hd
  refine ⟨s, hs, ?_, ?_, ?_, ?_⟩
  · rw [name_is_last_made_partial hs _ (by simp)]
    exact (last_snoc_hit (h := attempts.take 3) rfl rfl 3).2 rfl
  · rw [replaced_by_next_made hs]
    exact ⟨_, "l", rfl, by simp [Follows, Def.cls], rfl, h0⟩
  · rw [replaced_by_next_made hs]
    rintro ⟨d, x, h1, -⟩
    simp [attempts] at h1
  · cases h : lookup s .detfn (some "l") with
    | none => rfl
    | some n =>
      rw [name_is_last_made_partial hs _ (by simp)] at h
      obtain ⟨⟨d, h1, h2, -⟩, -⟩ := h
      match n with
      | 0 => simp [attempts] at h1; simp [← h1, Def.cls] at h2
      | 1 => simp [attempts] at h1
      | 2 => simp [attempts] at h1
      | 3 => simp [attempts] at h1; simp [← h1, Def.cls] at h2
      | k + 4 => simp [attempts] at h1

/-- After these attempts, a demand function with linear data can be defined under the same name, one that is cubic
cannot. -/
example : ∃ s, Runs attempts s ∧ (exec s (.detfn (some "l") "linear" .done)).2 = .returned ∧
    (exec s (.detfn (some "l") "cubic" .done)).2 ≠ .returned := by
  obtain ⟨s, hs⟩ := attempts_run
  have hh : ∀ e ∈ attempts, ∀ id, e.1 ≠ .fragDb id := by simp [attempts]
  refine ⟨s, hs, (accepted_partial hs hh _ (by simp)).2 ⟨rfl, by simp⟩, fun h => ?_⟩
  have := (accepted_partial hs hh _ (by simp)).1 h
  simp [Sound] at this

/-- A refused redefinition of a loss function. -/
example (s : St) : ∃ s', exec s (.lossfn (some "l") .raises) = (s', .raised) ∧
    ∀ c id, lookup s' c id = lookup s c id :=
  ⟨_, rfl, (refused_changes_nothing_partial s _ (.lossfn (some "l") .raises) (by simp [Misnamed]) rfl).1⟩

/-- The good function "f" is lost. -/
example : ∃ s s', Runs [(.probfn (some "f") "lognormal" .done, .returned)] s ∧ lookup s .probfn (some "f") = some 0 ∧
    exec s (.probfn (some "f") "normal" .done) = (s', .raised) ∧ lookup s' .probfn (some "f") = some 1 := by
  have h : Runs [(.probfn (some "f") "lognormal" .done, .returned)] _ := .call (h := []) .start
    (show exec St.init (.probfn (some "f") "lognormal" .done) = (_, .returned) by
      simp only [exec, body, after, if_true]; rfl) (by decide)
  obtain ⟨s', h1, h2⟩ := refused_probfn_fails _ "f" "normal" (by decide)
  refine ⟨_, s', h, ?_, h1, ?_⟩
  · rw [name_is_last_made_partial h _ (by simp [Misnamed])]
    exact (last_snoc_hit (h := []) rfl rfl 0).2 rfl
  · rw [h2, h.next]
    rfl

/-- A name taken by the database. -/
example : ∃ s, Runs [(.fragDb (some "f"), .returned)] s ∧ lookup s .fragfn (some "f") = some 0 ∧
    ∃ t, exec s (.fragUser (some "f") .done) = (t, .raised) := by
  have h := Runs.start.more (d := .fragDb (some "f")) (o := .returned) rfl (by decide)
  have h1 := (name_is_last_made_partial h .fragfn (by simp) "f" 0).2 ((last_snoc_hit (h := []) rfl rfl 0).2 rfl)
  exact ⟨_, h, database_name_fails h "f" 0 h1 ⟨_, rfl⟩ [] _ (by simpa using h)⟩

/-- A demand without a name. -/
example : ∃ s, exec St.init (.edp none .done) = (s, .returned) ∧ lookup s .edp none = some 0 :=
  (unnamed_edp_fails .start).2

end Slat.Define
