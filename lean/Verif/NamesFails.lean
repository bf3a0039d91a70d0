import Verif.NamesProps
import Verif.GraphFails

/-!
# Names: scripts for which the theorems hold, and scripts for which their claims fail (C69)
-/

namespace Slat.Names

open Slat.Graph

variable {V L X Y : Type}

/-! ## A checker for the hypotheses on concrete scripts -/

/-- Names given a meaning by a command. -/
def Cmd.names : Cmd V L X → List Name
  | .define id _ => [id]
  | .struct id _ => [id]
  | _ => []

/-- Checks `Tidy`. -/
def tidyB (S : Sheet V L) : Cmd V L X → Bool
  | .define id f => (f.args.all fun a => !S.redefined a.1.target a.2) &&
      (!decide (f.kind = .det ∨ f.kind = .prob) || (S.defs f.kind id).isNone)
  | .struct id _ => (S.groups id).isNone
  | .add s g => !S.redefined .cg g && !S.thinned s && (decide (S.groups s ≠ some []) ||
      match S.imOf g with
      | none => true
      | some i => !S.redefined .im i)
  | _ => true

theorem tidyB_sound {S : Sheet V L} {c : Cmd V L X} (h : tidyB S c = true) : Tidy S c := by
  cases c with
  | define id f =>
    simp only [tidyB, Bool.and_eq_true, List.all_eq_true, Bool.or_eq_true, Bool.not_eq_true', decide_eq_false_iff_not,
      Option.isNone_iff_eq_none] at h
    refine ⟨h.1, fun hk => ?_⟩
    rcases h.2 with h2 | h2
    · exact absurd hk h2
    · exact h2
  | struct id v => simpa [tidyB, Tidy] using h
  | add s g =>
    simp only [tidyB, Bool.and_eq_true, Bool.or_eq_true, Bool.not_eq_true', decide_eq_true_eq] at h
    refine ⟨h.1.1, h.1.2, fun hs i hi => ?_⟩
    rcases h.2 with h2 | h2
    · exact absurd hs h2
    · rw [hi] at h2; simpa using h2
  | _ => trivial

/-- All classes. -/
def kinds : List Kind := [.det, .prob, .im, .edp, .frag, .loss, .cg, .str]

/-- Checks the condition on destruction. -/
def collectB (names : List Name) (st : Py V L X Y) : Cmd V L X → Bool
  | .collect n => (st.world.heap n).isSome && !refsB st.world n &&
      kinds.all fun k => names.all fun i => decide (st.defs k i ≠ some n)
  | _ => true

/-- Checks that a script is tidy, destroys only what nothing refers to, and runs to its end. -/
def scriptB (C : Calc V L X Y) (names : List Name) : Py V L X Y → Sheet V L → List (Cmd V L X) → Bool
  | _, _, [] => true
  | st, S, c :: cs =>
    tidyB S c && (c.names.all fun i => decide (i ∈ names)) && decide ((exec C st c).2 = none) &&
    collectB names st c && scriptB C names (exec C st c).1 (S.enter c) cs

theorem exec_names (C : Calc V L X Y) (names : List Name) (st : Py V L X Y) (c : Cmd V L X)
    (h : ∀ k i, i ∉ names → st.defs k i = none) (hc : ∀ i ∈ c.names, i ∈ names) :
    ∀ k i, i ∉ names → (exec C st c).1.defs k i = none := by
  intro k i hi
  cases c with
  | define id f =>
    simp only [exec, define]
    split
    · exact h k i hi
    · simp only [setDef]
      rw [if_neg, h k i hi]
      rintro ⟨-, rfl⟩
      exact hi (hc _ (by simp [Cmd.names]))
  | struct id v =>
    simp only [exec, struct, setDef]
    rw [if_neg, h k i hi]
    rintro ⟨-, rfl⟩
    exact hi (hc _ (by simp [Cmd.names]))
  | collapse id d => simp only [exec, onNamed]; split <;> exact h k i hi
  | demolition id d => simp only [exec, onNamed]; split <;> exact h k i hi
  | rebuild id d => simp only [exec, onNamed]; split <;> exact h k i hi
  | demoCost id d => simp only [exec, onNamed]; split <;> exact h k i hi
  | ask n sel => exact h k i hi
  | collect n => exact h k i hi
  | add s g =>
    simp only [exec, add]
    split
    · split
      · exact h k i hi
      · split
        · exact h k i hi
        · split <;> exact h k i hi
    · exact h k i hi
  | remove s g =>
    simp only [exec, remove, onNamed]
    split
    · exact h k i hi
    · split <;> exact h k i hi

theorem scriptB_sound {C : Calc V L X Y} {names : List Name} : ∀ (cs : List (Cmd V L X)) {st : Py V L X Y} {S : Sheet V L},
    Link C st S → (∀ k i, i ∉ names → st.defs k i = none) → scriptB C names st S cs = true →
    TidyAll S cs ∧ Collects C st cs ∧ ∃ st', script C st cs = (st', none)
  | [], st, S, _, _, _ => ⟨trivial, trivial, st, rfl⟩
  | c :: cs, st, S, h, hn, hb => by
    rw [scriptB] at hb
    simp only [Bool.and_eq_true, List.all_eq_true, decide_eq_true_eq] at hb
    obtain ⟨⟨⟨⟨h1, h2⟩, h3⟩, h4⟩, h5⟩ := hb
    have hcol : ∀ n, c = .collect n → Allowed st.world (.destroy n : Op V L X) ∧ ∀ k id, st.defs k id ≠ some n := by
      rintro n rfl
      simp only [collectB, Bool.and_eq_true, Bool.not_eq_true', List.all_eq_true, decide_eq_true_eq] at h4
      refine ⟨⟨h4.1.1, refsB_sound h.inv.s h4.1.2⟩, fun k id hk => ?_⟩
      by_cases hid : id ∈ names
      · exact h4.2 k (by cases k <;> simp [kinds]) id hid hk
      · rw [hn k id hid] at hk; cases hk
    have hx : exec C st c = ((exec C st c).1, none) := Prod.ext rfl h3
    obtain ⟨g1, g2, st', g3⟩ := scriptB_sound cs (link_exec h c (tidyB_sound h1) hcol hx) (exec_names C names st c hn h2) h5
    exact ⟨⟨tidyB_sound h1, g1⟩, ⟨hcol, g2⟩, st', by rw [script, hx]; exact g3⟩

/-! ## An ordinary script -/

/-- The calculation of the concrete scripts. -/
abbrev report : Calc ℕ ℕ Unit (Option ℕ) := probe fun _ => contentOf

/-- Definitions as in the examples of the manual. -/
def model : List (Cmd ℕ ℕ Unit) :=
  [.define "hazard" (.det 10), .define "im" (.im 11 "hazard"), .define "mu" (.det 12), .define "sigma" (.det 13),
   .define "demand" (.prob 14 "mu" "sigma"), .define "drift" (.edp 15 "im" "demand"), .define "frag" (.frag 16),
   .define "cost" (.loss 17), .define "none" (.loss 18), .define "walls" (.group 19 "drift" "frag" "cost" "none"),
   .struct "house" 20, .add "house" "walls"]

/-- Results are read, then intensity measure, fragility function, EDP and group are defined again, and what was replaced
is dropped; collapse is set; the group is used in a second structure. -/
def revised : List (Cmd ℕ ℕ Unit) :=
  model ++ [.ask 5 everything, .ask 9 everything, .define "hazard2" (.det 30), .define "im" (.im 31 "hazard2"),
    .collect 1, .ask 9 everything, .define "frag" (.frag 36), .collapse "im" 5, .define "demand2" (.prob 34 "sigma" "mu"),
    .define "im2" (.im 32 "hazard"), .define "drift" (.edp 35 "im2" "demand2"), .ask 9 everything,
    .struct "barn" 40, .add "barn" "walls", .add "barn" "walls",
    .define "drift2" (.edp 37 "im2" "demand"), .define "frag2" (.frag 38),
    .define "walls" (.group 39 "drift2" "frag2" "cost" "none"), .collect 9, .remove "barn" "walls", .rebuild "barn" 7,
    .demoCost "barn" 8, .demolition "im2" 6]

/-- The names of the scripts. -/
def someNames : List Name :=
  ["hazard", "im", "mu", "sigma", "demand", "drift", "frag", "cost", "none", "walls", "house", "hazard2", "demand2", "im2",
   "barn", "drift2", "frag2"]

theorem revised_ok : TidyAll (Sheet.init ℕ ℕ) revised ∧ Collects report (Py.init ℕ ℕ Unit (Option ℕ)) revised ∧
    ∃ st, script report (Py.init ℕ ℕ Unit (Option ℕ)) revised = (st, none) :=
  scriptB_sound (names := someNames) revised (Link.init _) (fun _ _ _ => rfl) (by decide +kernel)

theorem model_ok : TidyAll (Sheet.init ℕ ℕ) model ∧ Collects report (Py.init ℕ ℕ Unit (Option ℕ)) model ∧
    ∃ st, script report (Py.init ℕ ℕ Unit (Option ℕ)) model = (st, none) :=
  scriptB_sound (names := someNames) model (Link.init _) (fun _ _ _ => rfl) (by decide +kernel)

/-- C69 (`late_binding_partial`): `walls` means the last definition, the EDP in it the last definition of `drift2`. -/
example (st : Py ℕ ℕ Unit (Option ℕ)) (hs : script report (Py.init ℕ ℕ Unit (Option ℕ)) revised = (st, none)) :
    ((st.defs .cg "walls").map fun n => contentOf ((tree (Graph.abs st.world.heap) n).child .edp)) = some (some 37) := by
  have h := late_binding_partial report revised st revised_ok.1 revised_ok.2.1 hs .cg (by simp) "walls"
  have h2 := congrArg (Option.map fun t => contentOf (t.child .edp)) h
  rw [Option.map_map, Option.map_map] at h2
  exact h2.trans (by decide +kernel)

/-- C69 (`results_of_names_partial`): all results of the group. -/
example (st : Py ℕ ℕ Unit (Option ℕ)) (hs : script report (Py.init ℕ ℕ Unit (Option ℕ)) revised = (st, none))
    (n : ℕ) (hn : st.defs .cg "walls" = some n) (x : Unit) :
    view report st.world.heap n .eAnnual x = fresh report ((sheet revised).meaning 6 .cg "walls") .eAnnual x :=
  results_of_names_partial report revised st revised_ok.1 revised_ok.2.1 hs .cg (Or.inr rfl) "walls" n hn .eAnnual rfl x

/-- C69 (`structure_groups_partial`): one of two walls was removed. -/
example (st : Py ℕ ℕ Unit (Option ℕ)) (hs : script report (Py.init ℕ ℕ Unit (Option ℕ)) revised = (st, none)) :
    ∃ n o, st.defs .str "barn" = some n ∧ Graph.abs st.world.heap n = some o ∧
      (o.entries.map fun k => (o.slots (.entry k)).map (tree (Graph.abs st.world.heap))) =
        [some ((sheet revised).meaning 6 .cg "walls")] :=
  structure_groups_partial report revised st revised_ok.1 revised_ok.2.1 hs "barn" ["walls"] (by decide +kernel)

/-- C69 (`names_no_dangling_partial`). -/
example (st : Py ℕ ℕ Unit (Option ℕ)) (hs : script report (Py.init ℕ ℕ Unit (Option ℕ)) revised = (st, none)) :
    st.world.ub = false :=
  names_no_dangling_partial report revised st revised_ok.1 revised_ok.2.1 hs

/-- C69 (`definition_refused_partial`): a misspelled name. -/
example (st : Py ℕ ℕ Unit (Option ℕ)) (hs : script report (Py.init ℕ ℕ Unit (Option ℕ)) model = (st, none)) :
    exec report st (.define "roof" (.group 50 "drft" "frag" "cost" "none")) = (st, some .unknownName) :=
  (definition_refused_partial report model st model_ok.1 model_ok.2.1 hs "roof" _).1
    ⟨(.edp, "drft"), by simp [Form.args], by decide +kernel⟩

/-- An intensity measure and an EDP on it; the intensity measure is then defined again. -/
def changed : List (Cmd ℕ ℕ Unit) :=
  [.define "h" (.det 10), .define "i" (.im 11 "h"), .define "d" (.prob 14 "h" "h"), .define "e" (.edp 15 "i" "d"),
   .ask 3 everything, .define "i" (.im 12 "h"), .ask 3 everything]

/-- The last definitions only. -/
def unchanged : List (Cmd ℕ ℕ Unit) :=
  [.define "h" (.det 10), .define "d" (.prob 14 "h" "h"), .define "i" (.im 12 "h"), .define "e" (.edp 15 "i" "d")]

theorem changed_ok : TidyAll (Sheet.init ℕ ℕ) changed ∧ Collects report (Py.init ℕ ℕ Unit (Option ℕ)) changed ∧
    ∃ st, script report (Py.init ℕ ℕ Unit (Option ℕ)) changed = (st, none) :=
  scriptB_sound (names := ["h", "i", "d", "e"]) changed (Link.init _) (fun _ _ _ => rfl) (by decide +kernel)

theorem unchanged_ok : TidyAll (Sheet.init ℕ ℕ) unchanged ∧ Collects report (Py.init ℕ ℕ Unit (Option ℕ)) unchanged ∧
    ∃ st, script report (Py.init ℕ ℕ Unit (Option ℕ)) unchanged = (st, none) :=
  scriptB_sound (names := ["h", "i", "d", "e"]) unchanged (Link.init _) (fun _ _ _ => rfl) (by decide +kernel)

/-- C69 (`only_last_definitions_partial`). -/
example (st st' : Py ℕ ℕ Unit (Option ℕ)) (hs : script report (Py.init ℕ ℕ Unit (Option ℕ)) changed = (st, none))
    (hs' : script report (Py.init ℕ ℕ Unit (Option ℕ)) unchanged = (st', none)) (n n' : ℕ)
    (hn : st.defs .edp "e" = some n) (hn' : st'.defs .edp "e" = some n') (x : Unit) :
    view report st.world.heap n .lambda x = view report st'.world.heap n' .lambda x := by
  refine only_last_definitions_partial report changed unchanged st st' changed_ok.1 changed_ok.2.1 hs unchanged_ok.1
    unchanged_ok.2.1 hs' ?_ ?_ ?_ .edp (Or.inl rfl) "e" n n' hn hn' .lambda rfl x
  · funext k i
    simp only [sheet, changed, unchanged, List.foldl, Sheet.enter, Form.kind, Sheet.init]
    by_cases h1 : k = .im ∧ i = "i"
    · obtain ⟨rfl, rfl⟩ := h1; simp
    · by_cases h2 : k = .edp ∧ i = "e"
      · obtain ⟨rfl, rfl⟩ := h2; simp
      · simp only [h1, h2, if_false]; rfl
  · funext i
    simp [sheet, changed, unchanged, Sheet.enter, Form.kind, Sheet.init]
  · funext i
    simp [sheet, changed, unchanged, Sheet.enter, Form.kind, Sheet.init]

/-! ## Scripts for which the claims fail -/

/-- C69: a function defined again is not used by the objects made with it before: the intensity measure keeps the old hazard
curve (10), while its definition refers to the new one (20).  (/repo/src/pyslat.py:398-399: `detfn` does not replace the
earlier function, unlike the other classes; /repo/slat-lang.org:920-936 says that it should.) -/
theorem function_redefined_fails : ∃ (cs : List (Cmd ℕ ℕ Unit)) (st : Py ℕ ℕ Unit (Option ℕ)),
    script report (Py.init ℕ ℕ Unit (Option ℕ)) cs = (st, none) ∧
    ((st.defs .im "i").map fun n => contentOf ((tree (Graph.abs st.world.heap) n).child .f)) = some (some 10) ∧
    contentOf (((sheet cs).meaning 6 .im "i").child .f) = some 20 :=
  ⟨[.define "h" (.det 10), .define "i" (.im 11 "h"), .define "h" (.det 20)], _, rfl, by decide +kernel, by decide +kernel⟩

/-- C69: an intensity measure is defined again, an EDP is defined on the new one, and the intensity measure is defined a third
time: the first EDP keeps the second definition (12), because the second EDP was registered under its id. -/
theorem third_definition_fails : ∃ (cs : List (Cmd ℕ ℕ Unit)) (st : Py ℕ ℕ Unit (Option ℕ)),
    script report (Py.init ℕ ℕ Unit (Option ℕ)) cs = (st, none) ∧
    ((st.defs .edp "e").map fun n => contentOf ((tree (Graph.abs st.world.heap) n).child .base)) = some (some 12) ∧
    contentOf (((sheet cs).meaning 6 .edp "e").child .base) = some 13 :=
  ⟨[.define "h" (.det 10), .define "i" (.im 11 "h"), .define "d" (.prob 14 "h" "h"), .define "e" (.edp 15 "i" "d"),
    .define "i" (.im 12 "h"), .define "e2" (.edp 16 "i" "d"), .define "i" (.im 13 "h")], _, rfl,
    by decide +kernel, by decide +kernel⟩

theorem collects_append (C : Calc V L X Y) : ∀ (xs ys : List (Cmd V L X)) (st : Py V L X Y), (∀ c ∈ xs, ∀ n, c ≠ .collect n) →
    Collects C (xs.foldl (fun st c => (exec C st c).1) st) ys → Collects C st (xs ++ ys)
  | [], _, _, _, h => h
  | c :: xs, ys, st, hx, h =>
    ⟨fun n hc => absurd hc (hx c (by simp) n), collects_append C xs ys _ (fun d hd => hx d (by simp [hd])) h⟩

theorem names_kept (C : Calc V L X Y) (names : List Name) : ∀ (cs : List (Cmd V L X)) (st : Py V L X Y),
    (∀ k i, i ∉ names → st.defs k i = none) → (∀ c ∈ cs, ∀ i ∈ c.names, i ∈ names) →
    ∀ k i, i ∉ names → (cs.foldl (fun st c => (exec C st c).1) st).defs k i = none
  | [], _, h, _ => h
  | c :: cs, st, h, hc => names_kept C names cs _ (exec_names C names st c h (hc c (by simp))) (fun d hd => hc d (by simp [hd]))

theorem script_foldl (C : Calc V L X Y) : ∀ (cs : List (Cmd V L X)) (st st' : Py V L X Y), script C st cs = (st', none) →
    cs.foldl (fun st c => (exec C st c).1) st = st'
  | [], st, st', h => by simpa [script] using h
  | c :: cs, st, st', h => by
    simp only [script] at h
    cases hx : exec C st c with
    | mk st1 e1 =>
      rw [hx] at h
      cases e1 with
      | some e => simp at h
      | none => rw [List.foldl_cons, hx]; exact script_foldl C cs st1 st' h

/-- C69: a structure is defined again and the earlier one, to which nothing refers, is dropped; defining one of its groups
again then runs a callback on the destroyed structure.  (/repo/src/structure.h:23: the destructor does not unregister.) -/
theorem structure_redefined_fails : ∃ (cs : List (Cmd ℕ ℕ Unit)) (st : Py ℕ ℕ Unit (Option ℕ)),
    Collects report (Py.init ℕ ℕ Unit (Option ℕ)) cs ∧
    script report (Py.init ℕ ℕ Unit (Option ℕ)) cs = (st, none) ∧ st.world.ub = true := by
  refine ⟨(model ++ [.struct "house" 21]) ++ [.collect 10, .define "walls" (.group 22 "drift" "frag" "cost" "none")], _, ?_, rfl,
    by decide +kernel⟩
  refine collects_append report _ _ _ ?_ ⟨?_, ?_⟩
  · intro c hc n
    simp only [model, List.cons_append, List.nil_append, List.mem_cons, List.not_mem_nil, or_false] at hc
    rcases hc with rfl | rfl | rfl | rfl | rfl | rfl | rfl | rfl | rfl | rfl | rfl | rfl | rfl <;> simp
  · intro n hn
    cases hn
    obtain ⟨m1, m2, st, m3⟩ := model_ok
    have hl : Link report st (sheet model) := link_script model (Link.init _) m1 m2 m3
    have hg : Good st.world (.new .str 21 [] : Op ℕ ℕ Unit) := ⟨⟨CtorDeps.str, by simp⟩, by intro d hd; cases hd⟩
    have hinv := (inv_good (C := report) hl.inv hg).1
    have hst := script_foldl _ _ _ _ m3
    have hf : ((model ++ [Cmd.struct "house" 21]).foldl (fun st c => (exec report st c).1) (Py.init ℕ ℕ Unit (Option ℕ))).world =
        step report st.world (.new .str 21 [] : Op ℕ ℕ Unit) := by
      rw [List.foldl_append, hst]; rfl
    refine ⟨⟨by decide +kernel, ?_⟩, ?_⟩
    · refine refsB_sound ?_ (by decide +kernel)
      rw [hf]; exact hinv.s
    · intro k i hk
      by_cases hi : i ∈ someNames
      · have : (kinds.all fun k => someNames.all fun i => decide (((model ++ [Cmd.struct "house" 21]).foldl
            (fun st c => (exec report st c).1) (Py.init ℕ ℕ Unit (Option ℕ))).defs k i ≠ some 10)) = true := by decide +kernel
        simp only [List.all_eq_true, decide_eq_true_eq] at this
        exact this k (by cases k <;> simp [kinds]) i hi hk
      · rw [names_kept report someNames _ _ (fun _ _ _ => rfl) ?_ k i hi] at hk
        · cases hk
        · intro c hc i hi
          simp only [model, List.cons_append, List.nil_append, List.mem_cons, List.not_mem_nil, or_false] at hc
          rcases hc with rfl | rfl | rfl | rfl | rfl | rfl | rfl | rfl | rfl | rfl | rfl | rfl | rfl <;>
            simp_all [Cmd.names, someNames]
  · exact ⟨fun n hc => (by cases hc), trivial⟩

/-- C69: `AddCompGroup` raises an exception although the structure has taken the group.  A group is added, then its intensity
measure is defined again, and an EDP and a group are defined on it; the C++ structure accepts the second group and
contains two groups now, but `pyslat.py` compares the intensity measures recorded at definition. -/
theorem add_raises_fails : ∃ (cs : List (Cmd ℕ ℕ Unit)) (st : Py ℕ ℕ Unit (Option ℕ)),
    script report (Py.init ℕ ℕ Unit (Option ℕ)) cs = (st, some .typeError) ∧
    ((st.defs .str "house").bind fun n => (st.world.heap n).map fun o => o.entries.length) = some 2 :=
  ⟨model ++ [.define "im" (.im 21 "hazard"), .define "drift2" (.edp 22 "im" "demand"),
    .define "roof" (.group 23 "drift2" "frag" "cost" "none"), .add "house" "roof"], _,
    Prod.ext rfl (by decide +kernel), by decide +kernel⟩

end Slat.Names
