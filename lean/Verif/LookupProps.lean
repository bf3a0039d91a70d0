import Verif.LookupModel
import Verif.DefineProps
import Mathlib.Data.List.Dedup

/-!
# Library objects are found under the names they have now (C100)
-/

namespace Slat.Define

/-! ## Specification -/

/-- Call number `n` is the last one that returned with a demand without a name. -/
def IsLastUnnamed (h : List (Def × Outcome)) (n : ℕ) : Prop :=
  (∃ m, h[n]? = some (.edp none m, .returned)) ∧ ∀ k m, n < k → h[k]? ≠ some (.edp none m, .returned)

/-! ## Auxiliary facts -/

theorem mem_values {s : St} {c : Cls} {vals : List ℕ} (hv : Values s c vals) (n : ℕ) :
    n ∈ vals ↔ ∃ id, s.defs c id = some n := by
  obtain ⟨ids, -, h, rfl⟩ := hv
  simp only [List.mem_filterMap]
  constructor
  · rintro ⟨id, -, e⟩
    exact ⟨id, e⟩
  · rintro ⟨id, e⟩
    exact ⟨id, (h id).2 (by simp [e]), e⟩

theorem scan_whole {s : St} {vals : List ℕ} (hw : ∀ m ∈ vals, s.wraps m = true) (n : ℕ) :
    lookupObj s vals n = if n ∈ vals then .found n else .nothing := by
  induction vals with
  | nil => simp [lookupObj]
  | cons m vals ih =>
    rw [lookupObj, if_neg (by simp [hw m (by simp)])]
    by_cases e : m = n
    · simp [e]
    · rw [if_neg e, ih fun k hk => hw k (by simp [hk])]
      have : n ≠ m := fun h => e h.symm
      simp [this]

theorem scan_stopped {s : St} {vals : List ℕ} {m n : ℕ} (hm : m ∈ vals) (hw : s.wraps m = false) (hn : n ∉ vals) :
    lookupObj s vals n = .raises := by
  induction vals with
  | nil => simp at hm
  | cons k vals ih =>
    simp only [List.mem_cons, not_or] at hn
    rw [lookupObj]
    by_cases e : s.wraps k = false
    · rw [if_pos e]
    · rw [if_neg e, if_neg fun h => hn.1 h.symm]
      refine ih ?_ hn.2
      rcases List.mem_cons.1 hm with rfl | h
      · exact (e hw).elim
      · exact h

theorem exec_unnamed (s : St) (d : Def) : (exec s d).1.defs .edp none = some s.next ∧ d = .edp none .done ∧
    (exec s d).2 = .returned ∨ (exec s d).1.defs .edp none = s.defs .edp none := by
  have hs : ∀ (t : St) c x n, (succeed t c (some x) n).1.defs .edp none = t.defs .edp none := by
    intro t c x n
    unfold succeed
    split
    · simp [enter]
    · split
      · split <;> simp [enter]
      · rfl
  have hreg : ∀ (t : St) c id n, (register t c id n).1.defs .edp none = t.defs .edp none := by
    intro t c id n
    cases id with
    | none => rfl
    | some x => exact hs t c x n
  have hrec : ∀ (t : St) c id n, (record t c id n).defs .edp none = t.defs .edp none := by
    intro t c id n
    cases id <;> simp [record, enter]
  have ha : ∀ (t : St) m (k : St × Outcome), k.1.defs .edp none = t.defs .edp none →
      (after t m k).1.defs .edp none = t.defs .edp none := by
    intro t m k hk
    cases m <;> simp [after, hk]
  cases d with
  | edp id m =>
    cases id with
    | none =>
      cases m with
      | done => left; exact ⟨by simp [exec, body, after, enter], rfl, rfl⟩
      | raises => right; rfl
      | ends => right; rfl
    | some x => right; exact ha _ _ _ (hs _ _ _ _)
  | detfn id type m =>
    right
    simp only [exec, body]
    split
    · exact ha _ _ _ (hrec _ _ _ _)
    · rfl
  | probfn id type m =>
    right
    refine ha _ _ _ ?_
    split <;> exact hrec _ _ _ _
  | im id m => right; exact ha _ _ _ (hreg _ _ _ _)
  | fragUser id m => right; exact ha _ _ _ (hreg _ _ _ _)
  | fragDb id => right; exact hreg _ _ _ _
  | lossfn id m => right; exact ha _ _ _ (hreg _ _ _ _)
  | compgroup id m => right; exact ha _ _ _ (hreg _ _ _ _)
  | struct id m => right; exact ha _ _ _ (hrec _ _ _ _)

theorem unnamed_made {h : List (Def × Outcome)} {s : St} (hr : Runs h s) {n : ℕ} (hn : s.defs .edp none = some n) :
    h[n]? = some (.edp none .done, .returned) := by
  induction hr generalizing n with
  | start => simp [St.init] at hn
  | @call h s s' d o hr he _ ih =>
    have hu := exec_unnamed s d
    rw [he] at hu
    rcases hu with ⟨h1, rfl, rfl⟩ | h1
    · rw [h1, Option.some.injEq, hr.next] at hn
      simp [← hn]
    · have := ih (h1 ▸ hn)
      rw [List.getElem?_append_left (List.getElem?_eq_some_iff.1 this).1]
      exact this

theorem unnamed_last {h : List (Def × Outcome)} {s : St} (hr : Runs h s) (n : ℕ) :
    s.defs .edp none = some n ↔ IsLastUnnamed h n := by
  induction hr with
  | start => simp [St.init, IsLastUnnamed]
  | @call h s s' d o hr he _ ih =>
    by_cases hd : d = .edp none .done
    · subst hd
      have e : s' = (exec s (.edp none .done)).1 ∧ o = .returned := by
        rw [he]
        exact ⟨rfl, congrArg Prod.snd he.symm⟩
      obtain ⟨rfl, rfl⟩ := e
      have h1 : (exec s (.edp none .done)).1.defs .edp none = some s.next := by simp [exec, body, after, enter]
      rw [h1, Option.some.injEq, hr.next]
      constructor
      · rintro rfl
        refine ⟨⟨.done, by simp⟩, fun k m hk => ?_⟩
        rw [List.getElem?_eq_none (by simp; omega)]
        simp
      · rintro ⟨⟨m, h2⟩, h3⟩
        have hl := (List.getElem?_eq_some_iff.1 h2).1
        rw [List.length_append, List.length_singleton] at hl
        by_contra hne
        exact h3 h.length .done (by omega) (by simp)
    · have h1 : s'.defs .edp none = s.defs .edp none := by
        have hu := exec_unnamed s d
        rw [he] at hu
        rcases hu with ⟨-, h2, -⟩ | h2
        · exact (hd h2).elim
        · exact h2
      have h2 : ∀ m, (d, o) ≠ (.edp none m, .returned) := by
        intro m hm
        cases hm
        cases m with
        | done => exact hd rfl
        | raises => simp [exec, body, after] at he
        | ends => simp [exec, body, after] at he
      have h3 : ∀ (k : ℕ) (m : Making), (h ++ [(d, o)])[k]? = some (Def.edp none m, Outcome.returned) ↔
          h[k]? = some (Def.edp none m, Outcome.returned) := by
        intro k m
        rcases lt_trichotomy k h.length with hl | rfl | hl
        · rw [List.getElem?_append_left hl]
        · simpa using h2 m
        · rw [List.getElem?_eq_none (by simp; omega), List.getElem?_eq_none (by omega)]
      rw [h1, ih]
      simp only [IsLastUnnamed, ne_eq, h3]

/-- The places where objects of a class are entered. -/
theorem entered {h : List (Def × Outcome)} {s : St} (hr : Runs h s) {c : Cls} (hc : c ≠ .probfn) {n : ℕ} {d : Def}
    {o : Outcome} (hn : h[n]? = some (d, o)) (hu : d.id ≠ none ∨ c ≠ .edp) :
    (∃ id, s.defs c id = some n) ↔ ∃ x, d.id = some x ∧ IsLast h c x n := by
  have hl := fun x => name_is_last_made_partial hr c (fun e => (hc e).elim) x n
  constructor
  · rintro ⟨id, e⟩
    cases id with
    | some x =>
      have h1 := (hl x).1 e
      obtain ⟨⟨d', h2, -, h3⟩, -⟩ := id h1
      rw [hn] at h2
      cases h2
      exact ⟨x, h3, h1⟩
    | none =>
      by_cases hce : c = .edp
      · subst hce
        have := unnamed_made hr e
        rw [hn] at this
        cases this
        simp [Def.id] at hu
      · have := (unnamed_edp_fails hr).1 c hce
        rw [lookup, e] at this
        cases this
  · rintro ⟨x, -, h1⟩
    exact ⟨some x, (hl x).2 h1⟩

/-- Every entry is the object of a call that returned, in its class. -/
theorem entry_made {h : List (Def × Outcome)} {s : St} (hr : Runs h s) {c : Cls} (hc : c ≠ .probfn) {id : Id} {n : ℕ}
    (he : s.defs c id = some n) : ∃ d, h[n]? = some (d, .returned) ∧ d.cls = c := by
  cases id with
  | some x =>
    obtain ⟨⟨d, h1, h2, -⟩, -⟩ := (name_is_last_made_partial hr c (fun e => (hc e).elim) x n).1 he
    exact ⟨d, h1, h2⟩
  | none =>
    by_cases hce : c = .edp
    · subst hce
      exact ⟨_, unnamed_made hr he, rfl⟩
    · have := (unnamed_edp_fails hr).1 c hce
      rw [lookup, he] at this
      cases this

/-- The dictionaries can be gone through: after any history they have finitely many names. -/
theorem values_exist {h : List (Def × Outcome)} {s : St} (hr : Runs h s) {c : Cls} (hc : c ≠ .probfn) :
    ∃ vals, Values s c vals := by
  refine ⟨_, ((none :: h.map (·.1.id)).filter fun id => (s.defs c id).isSome).dedup, List.nodup_dedup _, fun id => ?_, rfl⟩
  rw [List.mem_dedup, List.mem_filter, Option.isSome_iff_ne_none]
  refine ⟨fun h => h.2, fun hne => ⟨?_, hne⟩⟩
  obtain ⟨n, e⟩ := Option.ne_none_iff_exists'.1 hne
  cases id with
  | none => simp
  | some x =>
    obtain ⟨⟨d, h1, -, h3⟩, -⟩ := (name_is_last_made_partial hr c (fun e => (hc e).elim) x n).1 e
    exact List.mem_cons_of_mem _ (List.mem_map.2 ⟨_, List.mem_of_getElem? h1, h3⟩)

/-! ## C100 -/

/-- **C100**: whatever was defined and refused before, and in whatever order the dictionary is gone through, the library
object of a demand, a fragility function or a group leads back to the Python object that was made with it if that is
what its name stands for now, and to nothing if the name has been defined again or was not given.  For fragility
functions as long as none is from the database; for demands without a name see `unnamed_demand_found`. -/
theorem object_found_partial {h : List (Def × Outcome)} {s : St} (hr : Runs h s) (c : Cls)
    (hc : c = .edp ∨ c = .fragfn ∨ c = .compgroup) (hh : c = .fragfn → ∀ e ∈ h, ∀ id, e.1 ≠ .fragDb id)
    {vals : List ℕ} (hv : Values s c vals) {n : ℕ} {d : Def} {o : Outcome} (hn : h[n]? = some (d, o))
    (hu : d.id ≠ none ∨ c ≠ .edp) :
    ((∃ x, d.id = some x ∧ IsLast h c x n) → lookupObj s vals n = .found n) ∧
      ((¬ ∃ x, d.id = some x ∧ IsLast h c x n) → lookupObj s vals n = .nothing) := by
  have hp : c ≠ .probfn := by rcases hc with rfl | rfl | rfl <;> decide
  have hw : ∀ m ∈ vals, s.wraps m = true := by
    intro m hm
    obtain ⟨id, e⟩ := (mem_values hv m).1 hm
    obtain ⟨d', h1, h2⟩ := entry_made hr hp e
    rw [hr.wraps h1]
    cases d' with
    | fragDb id' => exact (hh h2.symm _ (List.mem_of_getElem? h1) id' rfl).elim
    | _ => rfl
  rw [scan_whole hw, ← entered hr hp hn hu, ← mem_values hv]
  exact ⟨fun h => if_pos h, fun h => if_neg h⟩

/-- **C100**: the library object of a demand without a name leads back to its Python object exactly as long as no other
demand without a name is defined. -/
theorem unnamed_demand_found {h : List (Def × Outcome)} {s : St} (hr : Runs h s) {vals : List ℕ}
    (hv : Values s .edp vals) {n : ℕ} {k : Making} {o : Outcome} (hn : h[n]? = some (.edp none k, o)) :
    (IsLastUnnamed h n → lookupObj s vals n = .found n) ∧ (¬ IsLastUnnamed h n → lookupObj s vals n = .nothing) := by
  have hw : ∀ m ∈ vals, s.wraps m = true := by
    intro m hm
    obtain ⟨id, e⟩ := (mem_values hv m).1 hm
    obtain ⟨d', h1, h2⟩ := entry_made hr (by decide) e
    rw [hr.wraps h1]
    cases d' with
    | fragDb id' => simp [Def.cls] at h2
    | _ => rfl
  have he : n ∈ vals ↔ IsLastUnnamed h n := by
    rw [mem_values hv, ← unnamed_last hr]
    constructor
    · rintro ⟨id, e⟩
      cases id with
      | none => exact e
      | some x =>
        obtain ⟨⟨d', h2, -, h3⟩, -⟩ := (name_is_last_made_partial hr .edp (by simp) x n).1 e
        rw [hn] at h2
        cases h2
        simp [Def.id] at h3
    · exact fun e => ⟨none, e⟩
  rw [scan_whole hw, ← he]
  exact ⟨fun h => if_pos h, fun h => if_neg h⟩

/-- **C100**: what is found is the object that was looked for, and different library objects that are found were given
different names: the columns of a report do not fall together. -/
theorem found_names_differ {h : List (Def × Outcome)} {s : St} (hr : Runs h s) (c : Cls)
    (hc : c = .edp ∨ c = .fragfn ∨ c = .compgroup) {vals : List ℕ} (hv : Values s c vals) {n n' k k' : ℕ}
    (hn : lookupObj s vals n = .found k) (hn' : lookupObj s vals n' = .found k') :
    k = n ∧ k' = n' ∧ ∃ d d', h[n]? = some (d, .returned) ∧ h[n']? = some (d', .returned) ∧ d.cls = c ∧ d'.cls = c ∧
      (d.id = d'.id → n = n') := by
  have hp : c ≠ .probfn := by rcases hc with rfl | rfl | rfl <;> decide
  have mem : ∀ (l : List ℕ) n k, lookupObj s l n = .found k → k = n ∧ n ∈ l := by
    intro l n k hk
    induction l with
    | nil => simp [lookupObj] at hk
    | cons m l ih =>
      rw [lookupObj] at hk
      split at hk
      · cases hk
      · split at hk
        · rename_i e
          cases hk
          exact ⟨e, by simp [e]⟩
        · exact ⟨(ih hk).1, by simp [(ih hk).2]⟩
  have own : ∀ n ∈ vals, ∃ d, h[n]? = some (d, .returned) ∧ d.cls = c ∧ s.defs c d.id = some n := by
    intro n hm
    obtain ⟨id, e⟩ := (mem_values hv n).1 hm
    cases id with
    | some x =>
      obtain ⟨⟨d, h1, h2, h3⟩, -⟩ := (name_is_last_made_partial hr c (fun e => (hp e).elim) x n).1 e
      exact ⟨d, h1, h2, h3 ▸ e⟩
    | none =>
      by_cases hce : c = .edp
      · subst hce
        exact ⟨_, unnamed_made hr e, rfl, e⟩
      · have := (unnamed_edp_fails hr).1 c hce
        rw [lookup, e] at this
        cases this
  obtain ⟨a1, a2⟩ := mem _ _ _ hn
  obtain ⟨b1, b2⟩ := mem _ _ _ hn'
  obtain ⟨d, h1, h2, h3⟩ := own n a2
  obtain ⟨d', h1', h2', h3'⟩ := own n' b2
  refine ⟨a1, b1, d, d', h1, h1', h2, h2', fun e => ?_⟩
  rw [e, h3'] at h3
  exact (Option.some.inj h3).symm

/-! ## What fails -/

/-- **C100, what fails**: with a fragility function from the database under some name, looking for one that has no name,
or whose name has been defined again, raises an exception instead of finding nothing, in every order. -/
theorem database_object_fails {h : List (Def × Outcome)} {s : St} (hr : Runs h s) {x : String} {m : ℕ}
    (hm : IsLast h .fragfn x m) (hd : (h[m]?).map Prod.fst = some (.fragDb (some x))) {vals : List ℕ}
    (hv : Values s .fragfn vals) {n : ℕ} {d : Def} {o : Outcome} (hn : h[n]? = some (d, o))
    (hu : ¬ ∃ y, d.id = some y ∧ IsLast h .fragfn y n) : lookupObj s vals n = .raises := by
  obtain ⟨e, h1, h2⟩ := Option.map_eq_some_iff.1 hd
  refine scan_stopped (m := m) ?_ ?_ ?_
  · exact (mem_values hv m).2 ⟨some x, (name_is_last_made_partial hr _ (by simp) x m).2 hm⟩
  · rw [hr.wraps h1, h2]
    rfl
  · rw [mem_values hv, entered hr (by decide) hn (.inr (by decide))]
    exact hu

/-! ## Examples -/

/-- A function from the database, and one of the user's. -/
def fromDatabase : List (Def × Outcome) :=
  [(.fragDb (some "f"), .returned), (.fragUser (some "g") .done, .returned)]

theorem fromDatabase_run : ∃ s, Runs fromDatabase s ∧ s.wraps 0 = false ∧ s.defs .fragfn (some "f") = some 0 ∧
    s.defs .fragfn (some "g") = some 1 ∧ ∀ id, id ≠ some "f" → id ≠ some "g" → s.defs .fragfn id = none := by
  have h1 := Runs.start.more (d := .fragDb (some "f")) (o := .returned) rfl (by decide)
  refine ⟨_, h1.more (d := .fragUser (some "g") .done) (o := .returned)
    (by simp [exec, body, after, register, succeed, St.init, enter, Def.wraps, Function.update]) (by decide), ?_⟩
  refine ⟨?_, ?_, ?_, ?_⟩
  · simp [exec, body, after, register, succeed, St.init, enter, Def.wraps, Function.update]
  · simp [exec, body, after, register, succeed, St.init, enter, Def.wraps, Function.update]
  · simp [exec, body, after, register, succeed, St.init, enter, Def.wraps, Function.update]
  · intro id h1 h2
    simp [exec, body, after, register, succeed, St.init, enter, Def.wraps, Function.update, h1, h2]

/-- **C100, what fails**: a function that still has its name is not found either, if one from the database comes first:
the names are gone through in the order in which they were entered. -/
theorem database_first_fails : ∃ s, Runs fromDatabase s ∧ IsLast fromDatabase .fragfn "g" 1 ∧ Values s .fragfn [0, 1] ∧
    lookupObj s [0, 1] 1 = .raises := by
  obtain ⟨s, hr, hw, hf, hg, ho⟩ := fromDatabase_run
  refine ⟨s, hr, (name_is_last_made_partial hr _ (by simp) "g" 1).1 hg, ⟨[some "f", some "g"], by simp, ?_, ?_⟩, ?_⟩
  · intro id
    by_cases h1 : id = some "f"
    · simp [h1, hf]
    · by_cases h2 : id = some "g"
      · simp [h2, hg]
      · simp [h1, h2, ho id h1 h2]
  · simp [hf, hg]
  · simp [lookupObj, hw]

/-- A group is defined twice: the library object of the first leads to nothing, that of the second to its Python object. -/
example : ∃ h s, Runs h s ∧ Values s .compgroup [1] ∧ lookupObj s [1] 1 = .found 1 ∧ lookupObj s [1] 0 = .nothing := by
  have h1 := Runs.start.more (d := .compgroup (some "a") .done) (o := .returned) rfl (by decide)
  have h2 := h1.more (d := .compgroup (some "a") .done) (o := .returned)
    (by simp [exec, body, after, register, succeed, St.init, enter, Def.wraps, Function.update]) (by decide)
  have hl := (last_snoc_hit (h := [] ++ [(Def.compgroup (some "a") .done, Outcome.returned)])
    (d := .compgroup (some "a") .done) (c := .compgroup) (x := "a") rfl rfl 1).2 rfl
  have hv : Values (exec (exec St.init (.compgroup (some "a") .done)).1 (.compgroup (some "a") .done)).1 .compgroup [1] := by
    refine ⟨[some "a"], by simp, ?_, ?_⟩
    · intro id
      by_cases h : id = some "a" <;>
        simp [exec, body, after, register, succeed, St.init, enter, Def.wraps, Function.update, h]
    · simp [exec, body, after, register, succeed, St.init, enter, Def.wraps, Function.update]
  refine ⟨_, _, h2, hv, ?_, ?_⟩
  · exact (object_found_partial h2 .compgroup (by simp) (by simp) hv (n := 1) (by rfl) (by simp)).1 ⟨"a", rfl, hl⟩
  · refine (object_found_partial h2 .compgroup (by simp) (by simp) hv (n := 0) (by rfl) (by simp)).2 ?_
    rintro ⟨x, hx, hl'⟩
    cases hx
    exact absurd (last_unique hl hl') (by decide)

/-- A demand without a name, and a second one. -/
example : ∃ h s, Runs h s ∧ Values s .edp [1] ∧ lookupObj s [1] 1 = .found 1 ∧ lookupObj s [1] 0 = .nothing := by
  have h1 := Runs.start.more (d := .edp none .done) (o := .returned) rfl (by decide)
  have h2 := h1.more (d := .edp none .done) (o := .returned) rfl (by decide)
  have hv : Values (exec (exec St.init (.edp none .done)).1 (.edp none .done)).1 .edp [1] := by
    refine ⟨[none], by simp, ?_, ?_⟩
    · intro id
      by_cases h : id = none <;> simp [exec, body, after, St.init, enter, h]
    · simp [exec, body, after, St.init, enter]
  have hl : IsLastUnnamed _ 1 := (unnamed_last h2 1).1 (by simp [exec, body, after, St.init, enter])
  refine ⟨_, _, h2, hv, (unnamed_demand_found h2 hv (n := 1) (by rfl)).1 hl,
    (unnamed_demand_found h2 hv (n := 0) (by rfl)).2 fun h => ?_⟩
  exact h.2 1 .done (by decide) rfl

/-- Two groups with names of their own are both found. -/
example : ∃ h s, Runs h s ∧ lookupObj s [0, 1] 0 = .found 0 ∧ lookupObj s [0, 1] 1 = .found 1 ∧
    Values s .compgroup [0, 1] := by
  have h1 := Runs.start.more (d := .compgroup (some "a") .done) (o := .returned) rfl (by decide)
  have h2 := h1.more (d := .compgroup (some "b") .done) (o := .returned)
    (by simp [exec, body, after, register, succeed, St.init, enter, Def.wraps, Function.update]) (by decide)
  refine ⟨_, _, h2, ?_, ?_, [some "a", some "b"], by simp, ?_, ?_⟩
  · simp [lookupObj, exec, body, after, register, succeed, St.init, enter, Def.wraps, Function.update]
  · simp [lookupObj, exec, body, after, register, succeed, St.init, enter, Def.wraps, Function.update]
  · intro id
    by_cases h : id = some "a"
    · simp [exec, body, after, register, succeed, St.init, enter, Def.wraps, Function.update, h]
    · by_cases h' : id = some "b" <;>
        simp [exec, body, after, register, succeed, St.init, enter, Def.wraps, Function.update, h, h']
  · simp [exec, body, after, register, succeed, St.init, enter, Def.wraps, Function.update]

/-- A function of the user's without a name beside one from the database. -/
example : ∃ h s vals, Runs h s ∧ Values s .fragfn vals ∧ lookupObj s vals 1 = .raises := by
  have h1 := Runs.start.more (d := .fragDb (some "f")) (o := .returned) rfl (by decide)
  have h2 := h1.more (d := .fragUser none .done) (o := .returned) rfl (by decide)
  have hm : IsLast _ .fragfn "f" 0 := (name_is_last_made_partial h2 .fragfn (by simp) "f" 0).1
    (by simp [lookup, exec, body, after, register, succeed, St.init, enter, Def.wraps, Function.update])
  have hv : Values (exec (exec St.init (.fragDb (some "f"))).1 (.fragUser none .done)).1 .fragfn [0] := by
    refine ⟨[some "f"], by simp, ?_, ?_⟩
    · intro id
      by_cases h : id = some "f" <;>
        simp [exec, body, after, register, succeed, St.init, enter, Def.wraps, Function.update, h]
    · simp [exec, body, after, register, succeed, St.init, enter, Def.wraps, Function.update]
  exact ⟨_, _, _, h2, hv, database_object_fails h2 hm rfl hv (n := 1) (by rfl) (by simp [Def.id])⟩

end Slat.Define
