import Verif.TuneModel
import Verif.GraphProps
import Verif.GraphProps3
import Verif.GraphFails

/-!
# C72: results belong to the integration settings in force

Specification: a machine without callbacks and caches that calculates every answer from scratch with the settings in force.
-/

namespace Slat.Tune

open Slat.Graph

variable {S V L X Y : Type}

/-- Spec: the objects after a history, without caches. -/
def sObjects (a : AWorld V L) : Op S V L X → AWorld V L
  | .op o => aStep a o
  | .tune _ => a
  | .clearCaches => a

/-- Spec: the settings after a history. -/
def sSetting (s : S) : Op S V L X → S
  | .tune s' => s'
  | _ => s

/-- Spec: what should be reported after a history. -/
def expected (C : S → Calc V L X Y) (s : S) (ops : List (Op S V L X)) (n : ℕ) (c : CacheId) (x : X) : Y :=
  answer (C (ops.foldl sSetting s)) (ops.foldl sObjects (aInit V L)) n c x

/-- Spec: is it a query of a result? -/
def IsQuery : Op S V L X → Prop
  | .op (.query _ _) => True
  | _ => False

/-- Every operation on objects is allowed and careful (`Good`, as for C38-C42) where it happens. -/
def AllGood (C : S → Calc V L X Y) : World S V L X Y → List (Op S V L X) → Prop
  | _, [] => True
  | w, .op o :: ops => Good w.objects o ∧ AllGood C (step C w (.op o)) ops
  | w, t :: ops => AllGood C (step C w t) ops

/-- Spec: settings change only while nothing has been calculated since the start or since the caches were last cleared, or are
followed immediately by `Clear_Caches`.  The flag says whether something may have been calculated. -/
def TunedSafely : Bool → List (Op S V L X) → Prop
  | _, [] => True
  | _, .op (.query _ _) :: ops => TunedSafely true ops
  | q, .op _ :: ops => TunedSafely q ops
  | _, .clearCaches :: ops => TunedSafely false ops
  | false, .tune _ :: ops => TunedSafely false ops
  | true, .tune _ :: .clearCaches :: ops => TunedSafely false ops
  | true, .tune _ :: _ => False

/-! ### Lemmas -/

/-- Nothing is cached. -/
def Clean (w : Graph.World V L X Y) : Prop := ∀ n c x, cacheAt w.heap n c x = none

theorem clean_inv {C C' : Calc V L X Y} {w : Graph.World V L X Y} {a : AWorld V L} (h : Inv C w a) (hc : Clean w) :
    Inv C' w a := by
  refine ⟨h.s, ?_, h.heap, h.next⟩
  intro n o ho _ c x y hy
  have := hc n c x
  rw [cacheAt, ho, Option.bind_some, hy] at this
  cases this

theorem clean_clear (w : Graph.World V L X Y) : Clean (clearCaches w) := by
  intro n c x
  simp only [cacheAt, clearCaches]
  cases w.heap n <;> rfl

theorem abs_clear (w : Graph.World V L X Y) : abs (clearCaches w).heap = abs w.heap := by
  funext n
  simp only [Graph.abs, clearCaches]
  cases w.heap n <;> rfl

theorem clear_obj {w : Graph.World V L X Y} {n : ℕ} {o : Obj V L X Y} (h : (clearCaches w).heap n = some o) :
    ∃ o', w.heap n = some o' ∧ o'.toSkel = o.toSkel ∧ o'.ids = o.ids ∧ o.cache = fun _ _ => none := by
  simp only [clearCaches, Option.map_eq_some_iff] at h
  obtain ⟨o', h1, rfl⟩ := h
  exact ⟨o', h1, rfl, rfl, rfl⟩

theorem inv_clear {C C' : Calc V L X Y} {w : Graph.World V L X Y} {a : AWorld V L} (h : Inv C w a) :
    Inv C' (clearCaches w) a := by
  have hs := h.s
  refine ⟨⟨?_, ?_, ?_, ?_, ?_, ?_, hs.keys, hs.ub, ?_⟩, ?_, ?_, h.next⟩
  · intro n o ho
    obtain ⟨o', h1, -⟩ := clear_obj ho
    exact hs.lt n o' h1
  · intro n o s m ho hm
    obtain ⟨o', h1, h2, -⟩ := clear_obj ho
    obtain ⟨h3, q, h4, h5⟩ := hs.wf n o' s m h1 (by rw [h2]; exact hm)
    refine ⟨by rw [← h2]; exact h3, { q with cache := fun _ _ => none }, ?_, h5⟩
    simp [clearCaches, h4]
  · intro n o k m ho hm
    obtain ⟨o', h1, h2, -⟩ := clear_obj ho
    exact hs.entryLt n o' k m h1 (by rw [h2]; exact hm)
  · intro n o k ho hk
    obtain ⟨o', h1, h2, -⟩ := clear_obj ho
    have := hs.entrySlot n o' k h1 (by rw [h2]; exact hk)
    rw [h2] at this
    exact this
  · intro n o s t ho ht
    obtain ⟨o', h1, h2, h3, -⟩ := clear_obj ho
    have := hs.reg n o' s t h1 (by rw [h2]; exact ht)
    rw [h3] at this
    exact this
  · intro t id n s hm
    obtain ⟨o, h1, h2, h3⟩ := hs.own t id n s hm
    exact ⟨{ o with cache := fun _ _ => none }, by simp [clearCaches, h1], h2, h3⟩
  · intro n o c x y ho hy
    obtain ⟨o', -, -, -, h4⟩ := clear_obj ho
    rw [h4] at hy
    cases hy
  · intro n o ho _ c x y hy
    obtain ⟨o', -, -, -, h4⟩ := clear_obj ho
    rw [h4] at hy
    cases hy
  · rw [abs_clear]; exact h.heap

theorem clean_step {C : Calc V L X Y} {w : Graph.World V L X Y} {a : AWorld V L} (h : Inv C w a) (hc : Clean w)
    (o : Graph.Op V L X) (hg : Good w o) (hq : ∀ m sel, o ≠ .query m sel) : Clean (Graph.step C w o) := by
  intro n c x
  cases hy : cacheAt (Graph.step C w o).heap n c x with
  | none => rfl
  | some y =>
    rcases cache_origin h o hg n c x y hy with h1 | ⟨-, m, sel, h2⟩
    · rw [hc n c x] at h1; cases h1
    · exact absurd h2 (hq m sel)

/-- The invariant of a safely tuned history: results in the caches are those of the settings in force, and there are none while
nothing has been calculated. -/
theorem tuned_inv (C : S → Calc V L X Y) : ∀ (k : ℕ) (ops : List (Op S V L X)), ops.length ≤ k → ∀ (q : Bool)
    (w : World S V L X Y) (a : AWorld V L), Inv (C w.setting) w.objects a → (q = false → Clean w.objects) →
    AllGood C w ops → TunedSafely q ops →
    Inv (C (run C w ops).setting) (run C w ops).objects (ops.foldl sObjects a) := by
  intro k
  induction k with
  | zero =>
    intro ops hl q w a hi hq hg ht
    rw [List.length_eq_zero_iff.1 (Nat.le_zero.1 hl)]
    exact hi
  | succ k ih =>
    intro ops hl q w a hi hq hg ht
    cases ops with
    | nil => exact hi
    | cons t ops =>
      have hl' : ops.length ≤ k := by simpa using hl
      cases t with
      | op o =>
        have hstep := inv_step hi o hg.1
        by_cases ho : ∃ m sel, o = .query m sel
        · obtain ⟨m, sel, rfl⟩ := ho
          exact ih ops hl' true (step C w (.op (.query m sel))) (aStep a (.query m sel)) hstep (by simp) hg.2
            (by cases q <;> exact ht)
        · have hne : ∀ m sel, o ≠ .query m sel := fun m sel e => ho ⟨m, sel, e⟩
          refine ih ops hl' q (step C w (.op o)) (aStep a o) hstep (fun e => clean_step hi (hq e) o hg.1 hne) hg.2 ?_
          cases o <;> first | (cases q <;> exact ht) | exact absurd rfl (hne _ _)
      | tune s =>
        cases q with
        | false =>
          exact ih ops hl' false (step C w (.tune s)) a (clean_inv hi (hq rfl)) (fun _ => hq rfl) hg
            (by cases ops with
                | nil => trivial
                | cons u ops => cases u <;> exact ht)
        | true =>
          cases ops with
          | nil => exact ht.elim
          | cons u ops =>
            cases u with
            | op _ => exact ht.elim
            | tune _ => exact ht.elim
            | clearCaches =>
              have hl2 : ops.length ≤ k := by
                simp only [List.length_cons] at hl'
                omega
              exact ih ops hl2 false (step C (step C w (.tune s)) .clearCaches) a (inv_clear hi)
                (fun _ => clean_clear _) hg ht
      | clearCaches =>
        exact ih ops hl' false (step C w .clearCaches) a (inv_clear hi) (fun _ => clean_clear _) hg
          (by cases q <;> exact ht)

theorem run_setting (C : S → Calc V L X Y) : ∀ (ops : List (Op S V L X)) (w : World S V L X Y),
    (run C w ops).setting = ops.foldl sSetting w.setting
  | [], _ => rfl
  | t :: ops, w => by
    have h : (run C w (t :: ops)).setting = ops.foldl sSetting (step C w t).setting := run_setting C ops (step C w t)
    rw [h]
    cases t <;> rfl

/-! ### Theorems -/

/-- If settings change only before the first calculation (or before the first one after `Clear_Caches`), or each change is followed
by `Clear_Caches`, then every EDP and component group reports its results calculated from scratch with the settings in force. -/
theorem retuned_partial (C : S → Calc V L X Y) (s : S) (ops : List (Op S V L X)) (hg : AllGood C (init V L X Y s) ops)
    (ht : TunedSafely false ops) (n : ℕ) (c : CacheId) (k : Kind)
    (hk : kindAt (run C (init V L X Y s) ops).objects n = some k) (hko : k = .edp ∨ k = .cg) (hc : c.owner = k) (x : X) :
    report C (run C (init V L X Y s) ops) n c x = expected C s ops n c x := by
  have hi := tuned_inv C ops.length ops le_rfl false (init V L X Y s) (aInit V L) (inv_init _)
    (fun _ n c x => rfl) hg ht
  obtain ⟨o, ho, hok⟩ := kindAt_some hk
  rw [report, expected, answer, ← hi.heap]
  rw [run_setting] at hi ⊢
  exact view_eq_fresh hi.coh n o ho c (by rw [hok]; exact hc) (by rw [hc]; exact hko) x

theorem safely_of_first : ∀ (ops : List (Op S V L X)) (q : Bool),
    (∀ pre s post, ops = pre ++ .tune s :: post → q = false ∧ ∀ t ∈ pre, ¬ IsQuery t) → TunedSafely q ops
  | [], _, _ => by simp [TunedSafely]
  | t :: ops, q, h => by
    have hrest : ∀ q', (q' = true → q = true ∨ IsQuery t) →
        TunedSafely q' ops := by
      intro q' hq'
      refine safely_of_first ops q' fun pre s post e => ?_
      obtain ⟨h1, h2⟩ := h (t :: pre) s post (by rw [e]; rfl)
      refine ⟨?_, fun u hu => h2 u (List.mem_cons_of_mem _ hu)⟩
      cases hq : q' with
      | false => rfl
      | true =>
        rcases hq' hq with h3 | h3
        · rw [h1] at h3; cases h3
        · exact absurd h3 (h2 t List.mem_cons_self)
    cases t with
    | op o =>
      by_cases ho : ∃ m sel, o = .query m sel
      · obtain ⟨m, sel, rfl⟩ := ho
        have := hrest true (fun _ => Or.inr trivial)
        cases q <;> exact this
      · have := hrest q (fun e => Or.inl e)
        cases o <;> first | (cases q <;> exact this) | exact absurd ⟨_, _, rfl⟩ ho
    | tune s =>
      obtain ⟨h1, -⟩ := h [] s ops rfl
      subst h1
      have := hrest false (by simp)
      cases ops with
      | nil => trivial
      | cons u ops => cases u <;> exact this
    | clearCaches =>
      have := hrest false (by simp)
      cases q <;> exact this

/-- What a Python program or a script can rely on: if no result is asked for before the last change of settings, the results are
those of the settings in force. -/
theorem settings_first_partial (C : S → Calc V L X Y) (s : S) (ops : List (Op S V L X))
    (hg : AllGood C (init V L X Y s) ops)
    (hfirst : ∀ pre s' post, ops = pre ++ .tune s' :: post → ∀ t ∈ pre, ¬ IsQuery t)
    (n : ℕ) (c : CacheId) (k : Kind) (hk : kindAt (run C (init V L X Y s) ops).objects n = some k)
    (hko : k = .edp ∨ k = .cg) (hc : c.owner = k) (x : X) :
    report C (run C (init V L X Y s) ops) n c x = expected C s ops n c x :=
  retuned_partial C s ops hg (safely_of_first ops false fun pre s' post e => ⟨rfl, hfirst pre s' post e⟩) n c k hk hko hc x

/-- A result that has been calculated does not change with the settings, for any objects, calculations and settings: after a query
that stored it, it is reported as before whatever the settings are made. -/
theorem retuned_ignored_fails (C : S → Calc V L X Y) (w : World S V L X Y) (n : ℕ) (c : CacheId)
    (hk : kindAt w.objects n = some c.owner) (x : X) (sel : CacheId → X → Bool) (hsel : sel c x = true) (ss : List S) :
    report C (run C w (.op (.query n sel) :: ss.map .tune)) n c x = report C w n c x := by
  have hrun : ∀ (ss : List S) (w : World S V L X Y), (run C w (ss.map .tune)).objects = w.objects := by
    intro ss
    induction ss with
    | nil => intro w; rfl
    | cons s ss ih => intro w; exact ih _
  obtain ⟨o, ho, hok⟩ := kindAt_some hk
  have hcache : cacheAt (run C w (.op (.query n sel) :: ss.map .tune)).objects.heap n c x =
      some (view (C w.setting) w.objects.heap n c x) := by
    rw [run, List.foldl_cons, ← run, hrun]
    simp only [step, Graph.step, memo, ho, cacheAt, set_heap_self, Option.bind_some]
    rw [if_pos ⟨hsel, hok.symm⟩]
  rw [report, view_cached hcache, report]

/-- An EDP read, then other settings. -/
def retuned : List (Op ℕ ℕ ℕ Unit) :=
  [.op (.new .det 10 []), .op (.new .im 11 [(.f, 0)]), .op (.new .det 12 []), .op (.new .det 13 []),
   .op (.new .prob 14 [(.mu, 2), (.sigma, 3)]), .op (.new .edp 15 [(.base, 1), (.first, 4)]),
   .op (.query 5 everything), .tune 2]

/-- A calculation whose result is the setting. -/
def tolerance : ℕ → Calc ℕ ℕ Unit (Option ℕ) := fun s => probe fun _ _ => some s

/-- The operations before the change of settings, as a history of the object graph. -/
def before : List (Graph.Op ℕ ℕ Unit) :=
  [.new .det 10 [], .new .im 11 [(.f, 0)], .new .det 12 [], .new .det 13 [], .new .prob 14 [(.mu, 2), (.sigma, 3)],
   .new .edp 15 [(.base, 1), (.first, 4)], .query 5 everything]

theorem before_good : Along (tolerance 1) Good Graph.empty before := checkB_sound before (inv_init _) (by decide +kernel)

theorem allGood_of_along (C : S → Calc V L X Y) : ∀ (ops : List (Graph.Op V L X)) (w : World S V L X Y) (rest : List (Op S V L X)),
    Along (C w.setting) Good w.objects ops → AllGood C (run C w (ops.map .op)) rest → AllGood C w (ops.map .op ++ rest)
  | [], _, _, _, h => h
  | o :: ops, w, rest, h, h' => ⟨h.1, allGood_of_along C ops (step C w (.op o)) rest h.2 h'⟩

theorem retuned_good : AllGood tolerance (init ℕ ℕ Unit (Option ℕ) 1) retuned :=
  allGood_of_along tolerance before (init ℕ ℕ Unit (Option ℕ) 1) [.tune 2] before_good trivial

/-- The reference manual (slat-lang.org, "analyze": "Changing the integration parameters will invalidate the cache") is wrong: the
results reported after a change need not be those of the new settings. -/
theorem settings_change_fails :
    ¬ ∀ (C : ℕ → Calc ℕ ℕ Unit (Option ℕ)) (s : ℕ) (ops : List (Op ℕ ℕ ℕ Unit)), AllGood C (init ℕ ℕ Unit (Option ℕ) s) ops →
      ∀ n, kindAt (run C (init ℕ ℕ Unit (Option ℕ) s) ops).objects n = some .edp →
        report C (run C (init ℕ ℕ Unit (Option ℕ) s) ops) n .lambda () = expected C s ops n .lambda () := by
  intro h
  have h1 := h tolerance 1 retuned retuned_good 5 (by decide +kernel)
  have e : cacheAt (run tolerance (init ℕ ℕ Unit (Option ℕ) 1) retuned).objects.heap 5 .lambda () = some (some 1) := by
    decide +kernel
  have e' : expected tolerance 1 retuned 5 .lambda () = some 2 := by
    rw [expected, answer]; unfold tolerance; rw [fresh_probe]; rfl
  rw [report, view_cached e, e'] at h1
  cases h1

/-- `retuned_partial` and `settings_first_partial`: settings changed before the first query, and again with `Clear_Caches`. -/
example : report tolerance (run tolerance (init ℕ ℕ Unit (Option ℕ) 1) (retuned ++ [.clearCaches])) 5 .lambda () =
    expected tolerance 1 (retuned ++ [.clearCaches]) 5 .lambda () :=
  retuned_partial tolerance 1 (retuned ++ [.clearCaches])
    (allGood_of_along tolerance before (init ℕ ℕ Unit (Option ℕ) 1) [.tune 2, .clearCaches] before_good trivial)
    (by simp [retuned, TunedSafely]) 5 .lambda .edp (by decide +kernel) (Or.inl rfl) rfl ()

example : report tolerance (run tolerance (init ℕ ℕ Unit (Option ℕ) 7) (.tune 1 :: before.map .op)) 5 .lambda () =
    expected tolerance 7 (.tune 1 :: before.map .op) 5 .lambda () := by
  refine settings_first_partial tolerance 7 (.tune 1 :: before.map .op) ?_ ?_ 5 .lambda .edp (by decide +kernel)
    (Or.inl rfl) rfl ()
  · have := allGood_of_along tolerance before (init ℕ ℕ Unit (Option ℕ) 1) [] before_good trivial
    rw [List.append_nil] at this
    exact this
  · intro pre s' post e t ht
    cases pre with
    | nil => cases ht
    | cons p pre =>
      exfalso
      simp only [List.cons_append, List.cons.injEq] at e
      have : (Op.tune s' : Op ℕ ℕ ℕ Unit) ∈ before.map Op.op := by rw [e.2]; simp
      simp at this

/-- `retuned_ignored_fails` on the same objects. -/
example (ss : List ℕ) : report tolerance (run tolerance (run tolerance (init ℕ ℕ Unit (Option ℕ) 1) (before.map .op))
    (.op (.query 5 everything) :: ss.map .tune)) 5 .lambda () =
    report tolerance (run tolerance (init ℕ ℕ Unit (Option ℕ) 1) (before.map .op)) 5 .lambda () :=
  retuned_ignored_fails tolerance _ 5 .lambda (by decide +kernel) () everything rfl ss

end Slat.Tune
