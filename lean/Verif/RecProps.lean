import Verif.RecLemmas

/-!
# C62: a recorder prints the table asked for

The full statement: for every kind, object, columns and arguments for which the documentation gives a
table (`Spec.table` is defined), `MakeRecorder` succeeds and the recorder prints that table.  It does
not hold: see the theorems `…_fails`.  `prints_table_partial` proves it for the forms of the command in
`Spec.Working`.
-/

namespace Slat.Rec

open Spec

noncomputable section

/-- **C62.** The table asked for is printed, for the forms of the command that work, if the arguments are
floating-point numbers, the object is of the right class and, for damage states, there is at least
one. -/
theorem prints_table_partial (k : Kind) (fn : Obj) (o : Opts) (cols : Option (List Col))
    (at_ : List Dbl) (t : List Row) (hw : Working k cols) (ht : table k fn cols at_ = some t)
    (hn : ∀ g, fn = .group g → (k = .dsedp ∨ k = .dsim) → g.onsets ≠ [])
    (hp : ∀ g x, fn = .group g → k = .dsim → (g.pDsIm x).length = g.onsets.length) :
    ∃ r, make k fn o cols (some (at_.map Num.flt)) = .ok r ∧ printed (output r) = (t, none) := by
  obtain ⟨x0, hx0, cs, hcs, ht⟩ : ∃ x0, argument k fn = some x0 ∧ ∃ cs,
      columns k fn cols = some cs ∧
      (x0 :: cs.map Prod.fst) :: (at_.map fun a => Cell.num a :: cs.map fun c => .num (c.2 a)) = t := by
    cases hx0 : argument k fn with
    | none => rw [table, hx0] at ht; simp at ht
    | some x0 =>
      cases hcs : columns k fn cols with
      | none => rw [table, hx0, hcs] at ht; simp at ht
      | some cs =>
        rw [table, hx0, hcs] at ht
        simp only [Option.bind_eq_bind, Option.bind_some, Option.pure_def, Option.some.injEq] at ht
        exact ⟨x0, rfl, cs, rfl, ht⟩
  subst ht
  unfold columns at hcs
  split at hcs
  · -- detfn
    simp only [Option.some.injEq] at hcs; subst hcs
    simp only [Working] at hw; subst hw
    simp only [argument, Option.some.injEq] at hx0; subst hx0
    refine ⟨_, make_base _ _ o none none _ (by simp) rfl, ?_⟩
    exact prints_lines _ _ at_ _ _ rfl fun a => rfl
  · -- imrate
    rename_i i
    simp only [Option.some.injEq] at hcs; subst hcs
    simp only [argument, Option.some.injEq] at hx0; subst hx0
    refine ⟨_, make_base _ _ o cols cols _ (by simp) (by cases cols <;> rfl), ?_⟩
    show printed (.ok [.text i.id, .text "lambda"] :: ((at_.map Num.flt).zip
      (((at_.map Num.flt).map Num.toDbl).map i.lambda)).map fun p => numRow p.1 [p.2]) = _
    rw [List.map_map, List.map_map, List.zip_map', List.map_map]
    exact prints_zip (.text i.id) [.text "lambda"] at_ fun a => [i.lambda a]
  · -- edprate
    simp only [Option.some.injEq] at hcs; subst hcs
    simp only [Working] at hw; subst hw
    simp only [argument, Option.some.injEq] at hx0; subst hx0
    refine ⟨_, make_base _ _ o none none _ (by simp) rfl, ?_⟩
    exact prints_lines _ _ at_ _ _ rfl fun a => rfl
  · -- costrate
    simp only [Option.some.injEq] at hcs; subst hcs
    simp only [argument, Option.some.injEq] at hx0; subst hx0
    refine ⟨_, make_base _ _ o cols cols _ (by simp) (by cases cols <;> rfl), ?_⟩
    exact prints_lines _ _ at_ _ _ rfl fun a => rfl
  · -- collapse
    rename_i i
    simp only [Option.some.injEq] at hcs; subst hcs
    simp only [argument, Option.some.injEq] at hx0; subst hx0
    refine ⟨_, make_base _ _ o cols cols _ (by simp) (by cases cols <;> rfl), ?_⟩
    show printed (.ok [.text i.id, .text "p(Demolition)", .text "p(Collapse)"] ::
      ((at_.map Num.flt).zip ((((at_.map Num.flt).map Num.toDbl).map i.pDemolition).zip
        (((at_.map Num.flt).map Num.toDbl).map i.pCollapse))).map
          fun p => numRow p.1 [p.2.1, p.2.2]) = _
    simp only [List.map_map, List.zip_map']
    exact prints_zip (.text i.id) [.text "p(Demolition)", .text "p(Collapse)"] at_
      fun a => [i.pDemolition a, i.pCollapse a]
  · -- probfn
    exact hw.elim
  · -- edpim
    rename_i e
    simp only [argument, Option.some.injEq] at hx0; subst hx0
    obtain ⟨l, rfl, hl, hlc⟩ := hw
    obtain ⟨h1, h2, h3⟩ := chosen_spec _ _ cs hcs
    refine ⟨_, make_base _ _ o (some l) (some l) _ (by simp) rfl, ?_⟩
    simp only [Option.getD_some] at h1 h3
    have hh : header ⟨.edpim, .edp e, o, some l, at_.map Num.flt⟩ =
        .ok (.text e.imId :: l.map headCell) := fields_header e.imId l
    have hats : (at_.map Num.flt).map Num.toDbl = at_ := by
      rw [List.map_map]; exact List.map_id at_
    have ho : output ⟨.edpim, .edp e, o, some l, at_.map Num.flt⟩ =
        .ok (.text e.imId :: l.map headCell) ::
          ((at_.map Num.flt).zip (at_.map fun x => l.map fun c =>
            ((statistic e.stats c).getD id) x)).map fun p => numRow p.1 p.2 := by
      simp only [output, baseOutput, hh, hats, Option.getD_some, edpimColumns_ok e at_ l hlc]
      simp only [lines, bind, Except.bind, pure, Except.pure]
      rw [zipColumns_map at_ l (fun c => (statistic e.stats c).getD id) hl]
      rfl
    rw [ho, printed_head, printed_zip at_ Num.flt _ (fun a => a) fun _ => rfl, h1]
    simp [h3]
  · rename_i g
    simp only [argument, Option.some.injEq] at hx0; subst hx0
    exact prints_columns .costedp (.group g) o _ _ cols at_ _ _ cs (by simp [ByColumns]) rfl
      (by cases cols <;> rfl) rfl hcs fun x c v h => moment_value _ g _ _ x c v rfl rfl h
  · rename_i g
    simp only [argument, Option.some.injEq] at hx0; subst hx0
    exact prints_columns .costim (.group g) o _ _ cols at_ _ _ cs (by simp [ByColumns]) rfl
      (by cases cols <;> rfl) rfl hcs fun x c v h => moment_value _ g _ _ x c v rfl rfl h
  · rename_i g
    simp only [argument, Option.some.injEq] at hx0; subst hx0
    exact prints_columns .delayedp (.group g) o _ _ cols at_ _ _ cs (by simp [ByColumns]) rfl
      (by cases cols <;> rfl) rfl hcs fun x c v h => moment_value _ g _ _ x c v rfl rfl h
  · rename_i g
    simp only [argument, Option.some.injEq] at hx0; subst hx0
    exact prints_columns .delayim (.group g) o _ _ cols at_ _ _ cs (by simp [ByColumns]) rfl
      (by cases cols <;> rfl) rfl hcs fun x c v h => moment_value _ g _ _ x c v rfl rfl h
  · -- totalcost
    rename_i s
    simp only [argument] at hx0
    cases hi : s.imId with
    | none => rw [hi] at hx0; simp at hx0
    | some i =>
      rw [hi] at hx0
      simp only [Option.map_some, Option.some.injEq] at hx0; subst hx0
      exact prints_columns _ _ o _ _ cols at_ _ _ cs (by simp [ByColumns])
        (by simp only [xLabel, Obj.imId, hi]; rfl)
        (by cases cols <;> rfl) rfl hcs (ofDist_value s)
  · -- dsedp
    rename_i g
    simp only [Working] at hw; subst hw
    simp only [argument, Option.some.injEq] at hx0; subst hx0
    simp only [Option.some.injEq] at hcs; subst hcs
    refine prints_states .dsedp g o at_ _ _ (.inl rfl) rfl ?_ (hn g rfl (.inl rfl))
      (fun x => by simp [exceeded])
    intro r x h1 h2
    simp only [lineAt, h1, h2]; rfl
  · -- dsim
    rename_i g
    simp only [Working] at hw; subst hw
    simp only [argument, Option.some.injEq] at hx0; subst hx0
    simp only [Option.some.injEq] at hcs; subst hcs
    refine prints_states .dsim g o at_ _ _ (.inr rfl) rfl ?_ (hn g rfl (.inr rfl))
      (fun x => hp g x rfl rfl)
    intro r x h1 h2
    simp only [lineAt, h1, h2]; rfl
  · simp at hcs

/-! ## Forms that do not work -/

/-- The statement of C62 for one command. -/
def PrintsTable (k : Kind) (fn : Obj) (o : Opts) (cols : Option (List Col)) (at_ : List Dbl) : Prop :=
  ∀ t, table k fn cols at_ = some t →
    ∃ r, make k fn o cols (some (at_.map Num.flt)) = .ok r ∧ printed (output r) = (t, none)

/-- **C62.** An `edpim` recorder without chosen columns prints its headings and raises a `TypeError`,
whatever the demand and the arguments. -/
theorem edpim_default_fails (e : EdpObj) (o : Opts) (at_ : List Dbl) :
    (∃ r, make .edpim (.edp e) o none (some (at_.map Num.flt)) = .ok r ∧
      printed (output r) =
        ([[.text e.imId, .text "mean_ln_x", .text "sd_ln_x"]], some .typeError)) ∧
    ¬ PrintsTable .edpim (.edp e) o none at_ := by
  have hm := make_base .edpim (.edp e) o none (some [.name "mean_ln_x", .name "sd_ln_x"])
    (at_.map Num.flt) (by simp) rfl
  refine ⟨⟨_, hm, rfl⟩, ?_⟩
  intro h
  obtain ⟨r, hr, hp⟩ := h _ rfl
  rw [hm] at hr
  obtain rfl := Except.ok.inj hr
  have : (printed (output ⟨.edpim, .edp e, o, some [.name "mean_ln_x", .name "sd_ln_x"],
      at_.map Num.flt⟩)).2 = some .typeError := rfl
  rw [hp] at this
  simp at this

/-- **C62.** An `edpim` recorder with a probability among its columns (the example of the documentation)
leaves that column out: the lines have fewer fields than the headings, and no error is raised. -/
theorem edpim_probability_fails (e : EdpObj) (o : Opts) (p : Dbl) (at_ : List Dbl) (h : at_ ≠ []) :
    (∃ r, make .edpim (.edp e) o (some [.prob (.flt p), .name "mean_x"]) (some (at_.map Num.flt)) = .ok r ∧
      printed (output r) = ([.text e.imId, .num p, .text "mean_x"] ::
        at_.map (fun x => [.num x, .num (e.stats.mean x)]), none)) ∧
    ¬ PrintsTable .edpim (.edp e) o (some [.prob (.flt p), .name "mean_x"]) at_ := by
  have hm := make_base .edpim (.edp e) o (some [.prob (.flt p), .name "mean_x"])
    (some [.prob (.flt p), .name "mean_x"]) (at_.map Num.flt) (by simp) rfl
  have ho : printed (output ⟨.edpim, .edp e, o, some [.prob (.flt p), .name "mean_x"],
      at_.map Num.flt⟩) = ([.text e.imId, .num p, .text "mean_x"] ::
        at_.map (fun x => [.num x, .num (e.stats.mean x)]), none) := by
    have hats : (at_.map Num.flt).map Num.toDbl = at_ := by
      rw [List.map_map]; exact List.map_id at_
    show printed (.ok [.text e.imId, .num p, .text "mean_x"] ::
      ((at_.map Num.flt).zip (zipColumns ((at_.map Num.flt).map Num.toDbl).length
        [((at_.map Num.flt).map Num.toDbl).map e.stats.mean])).map fun p => numRow p.1 p.2) = _
    rw [hats]
    have := zipColumns_map at_ [.name "mean_x"] (fun _ => e.stats.mean) (by simp)
    simp only [List.map_cons, List.map_nil] at this
    rw [this, printed_head, printed_zip at_ Num.flt _ (fun a => a) fun _ => rfl]
    rfl
  refine ⟨⟨_, hm, ho⟩, ?_⟩
  intro hP
  obtain ⟨r, hr, hp⟩ := hP _ rfl
  rw [hm] at hr
  obtain rfl := Except.ok.inj hr
  rw [ho] at hp
  cases at_ with
  | nil => contradiction
  | cons a l => simp at hp

/-- **C62.** Chosen columns of a `dsedp` or `dsim` recorder change the headings only: each line still has
all damage states. -/
theorem states_columns_fails (g : GroupObj) (o : Opts) (z : ℤ) (hz : 1 ≤ z ∧ z ≤ g.onsets.length)
    (h2 : 2 ≤ g.onsets.length) (a : Dbl) (l : List Dbl) :
    (∃ r, make .dsedp (.group g) o (some [.prob (.int z)]) (some ((a :: l).map Num.flt)) = .ok r ∧
      ∃ rest, (printed (output r)).1 = [.text "EDP", .int z] ::
        (.num a :: (exceeded g.onsets a).map .num ++
          [.num ((exceeded g.onsets a).foldl (· + ·) 0)]) :: rest) ∧
    ¬ PrintsTable .dsedp (.group g) o (some [.prob (.int z)]) (a :: l) := by
  have hm := make_base .dsedp (.group g) o (some [.prob (.int z)]) (some [.prob (.int z)])
    ((a :: l).map Num.flt) (by simp) rfl
  have hne : exceeded g.onsets a ≠ [] := by
    intro h0
    have : (exceeded g.onsets a).length = 0 := by rw [h0]; rfl
    simp only [exceeded, List.length_map] at this
    omega
  have ho : ∃ rest, (printed (output ⟨.dsedp, .group g, o, some [.prob (.int z)],
      (a :: l).map Num.flt⟩)).1 = [.text "EDP", .int z] ::
        (.num a :: (exceeded g.onsets a).map .num ++
          [.num ((exceeded g.onsets a).foldl (· + ·) 0)]) :: rest := by
    refine ⟨(printed ((l.map Num.flt).map (lineAt ⟨.dsedp, .group g, o, some [.prob (.int z)],
      (a :: l).map Num.flt⟩))).1, ?_⟩
    show (printed (.ok [.text "EDP", .int z] :: dsRow (.flt a) (exceeded g.onsets a) :: _)).1 = _
    rw [dsRow_ok a _ hne]
    rfl
  refine ⟨⟨_, hm, ho⟩, ?_⟩
  intro hP
  have ht : table .dsedp (.group g) (some [.prob (.int z)]) (a :: l) =
      some ([.text "EDP", .int z] :: (a :: l).map fun x =>
        [.num x, .num ((exceeded g.onsets x).getD (z.toNat - 1) .nan)]) := by
    simp [table, argument, columns, chosen, columns.stateOf, hz]
  obtain ⟨r, hr, hp⟩ := hP _ ht
  rw [hm] at hr
  obtain rfl := Except.ok.inj hr
  obtain ⟨rest, ho⟩ := ho
  rw [hp] at ho
  simp only [List.map_cons, List.cons.injEq] at ho
  have := congrArg List.length ho.2.1
  simp only [exceeded, List.cons_append, List.length_cons, List.length_append, List.length_map,
    List.length_nil] at this
  omega

/-- **C62.** An `edprate` recorder with a chosen column prints that statistic under the heading
`lambda`. -/
theorem edprate_columns_fails (e : EdpObj) (o : Opts) (a : Dbl) (l : List Dbl)
    (h : e.stats.mean a ≠ e.lambda a) :
    (∃ r, make .edprate (.edp e) o (some [.name "mean_x"]) (some ((a :: l).map Num.flt)) = .ok r ∧
      printed (output r) = ([.text "EDP", .text "lambda"] ::
        (a :: l).map fun x => [.num x, .num (e.stats.mean x)], none)) ∧
    ¬ PrintsTable .edprate (.edp e) o (some [.name "mean_x"]) (a :: l) := by
  have hm := make_base .edprate (.edp e) o (some [.name "mean_x"]) (some [.name "mean_x"])
    ((a :: l).map Num.flt) (by simp) rfl
  have ho := prints_lines ⟨.edprate, .edp e, o, some [.name "mean_x"], (a :: l).map Num.flt⟩ _
    (a :: l) _ (fun x => [.num x, .num (e.stats.mean x)]) rfl fun x => rfl
  refine ⟨⟨_, hm, ho⟩, ?_⟩
  intro hP
  obtain ⟨r, hr, hp⟩ := hP _ rfl
  rw [hm] at hr
  obtain rfl := Except.ok.inj hr
  rw [ho] at hp
  simp at hp
  exact h hp.1

/-- **C62.** Columns of a `detfn` recorder, which the documentation calls irrelevant, make it fail. -/
theorem detfn_columns_fails (f : Dbl → Dbl) (o : Opts) (a : Dbl) (l : List Dbl) :
    (∃ r, make .detfn (.detfn f) o (some [.name "mean_x"]) (some ((a :: l).map Num.flt)) = .ok r ∧
      printed (output r) = ([[.text "x", .text "y"]], some .attributeError)) ∧
    ¬ PrintsTable .detfn (.detfn f) o (some [.name "mean_x"]) (a :: l) := by
  have hm := make_base .detfn (.detfn f) o (some [.name "mean_x"]) (some [.name "mean_x"])
    ((a :: l).map Num.flt) (by simp) rfl
  refine ⟨⟨_, hm, rfl⟩, ?_⟩
  intro hP
  obtain ⟨r, hr, hp⟩ := hP _ rfl
  rw [hm] at hr
  obtain rfl := Except.ok.inj hr
  have : (printed (output ⟨.detfn, .detfn f, o, some [.name "mean_x"],
      (a :: l).map Num.flt⟩)).2 = some .attributeError := rfl
  rw [hp] at this
  simp at this

/-- **C62.** The other statistics of the cost or delay of a component group, and probabilities, cannot be recorded:
the first raises an `AttributeError`, the second prints `----`. -/
theorem group_statistics_fails (k : Kind) (hk : k = .costedp ∨ k = .costim ∨ k = .delayedp ∨ k = .delayim)
    (g : GroupObj) (o : Opts) (c : String) (hc : c = "mean_ln_x" ∨ c = "median_x" ∨ c = "sd_x")
    (p a : Dbl) (l : List Dbl) :
    (∃ r h, make k (.group g) o (some [.name c]) (some ((a :: l).map Num.flt)) = .ok r ∧
      printed (output r) = ([[h, .text c]], some .attributeError)) ∧
    ∃ r h, make k (.group g) o (some [.prob (.flt p)]) (some ((a :: l).map Num.flt)) = .ok r ∧
      printed (output r) = ([h, .num p] :: (a :: l).map fun x => [.num x, .text "----"], none) := by
  constructor
  · refine ⟨_, if k = .costim ∨ k = .delayim then .text g.imId else .text "EDP",
      make_base k (.group g) o (some [.name c]) (some [.name c]) _ ?_ rfl, ?_⟩
    · rcases hk with rfl | rfl | rfl | rfl <;> simp
    · rcases hk with rfl | rfl | rfl | rfl <;> rcases hc with rfl | rfl | rfl <;> rfl
  · refine ⟨_, if k = .costim ∨ k = .delayim then .text g.imId else .text "EDP",
      make_base k (.group g) o (some [.prob (.flt p)]) (some [.prob (.flt p)]) _ ?_ rfl, ?_⟩
    · rcases hk with rfl | rfl | rfl | rfl <;> simp
    · rcases hk with rfl | rfl | rfl | rfl
      all_goals
        exact prints_lines _ _ (a :: l) (lineAt ⟨_, .group g, o, some [.prob (.flt p)], _⟩)
          (fun x => [.num x, .text "----"]) rfl fun x => rfl

/-- **C62.** A `deagg` recorder never prints a line of values: the method it calls does not exist. -/
theorem deagg_fails (fn : Obj) (o : Opts) (cols : Option (List Col)) (a : Num) (l : List Num) (r : Recorder)
    (h : make .deagg fn o cols (some (a :: l)) = .ok r) :
    (printed (output r)).1.length ≤ 1 ∧ (printed (output r)).2 ≠ none := by
  have hm : make .deagg fn o cols (some (a :: l)) = .ok ⟨.deagg, fn, o, cols, a :: l⟩ :=
    make_base _ _ _ _ _ _ (by simp) (by cases cols <;> rfl)
  rw [hm] at h
  obtain rfl := Except.ok.inj h
  simp only [output, baseOutput]
  rw [if_neg (by simp)]
  cases hh : header ⟨.deagg, fn, o, cols, a :: l⟩ with
  | error e => simp [printed]
  | ok h => cases a <;> simp [printed, lineAt, fmt6, bind, Except.bind]

/-- **C62.** A `lossds` recorder without chosen columns prints nothing and raises a `TypeError`. -/
theorem lossds_fails (fn : Obj) (o : Opts) (at_ : List Num) :
    ∃ r, make .lossds fn o none (some at_) = .ok r ∧ printed (output r) = ([], some .typeError) :=
  ⟨_, make_base _ _ _ _ _ _ (by simp) rfl, rfl⟩

/-- At most a line of headings, then an exception. -/
def Stops (r : Recorder) : Prop := (printed (output r)).1.length ≤ 1 ∧ (printed (output r)).2 ≠ none

theorem printed_error_head (h : Row) (x : Except PyErr Row) (l : List (Except PyErr Row))
    (hx : ∃ e, x = .error e) :
    (printed (.ok h :: x :: l)).1.length ≤ 1 ∧ (printed (.ok h :: x :: l)).2 ≠ none := by
  obtain ⟨e, rfl⟩ := hx
  simp [printed]

/-- **C62.** An integer as first argument stops every recorder of the base class and every `pdf`
recorder: the format of numbers does not take integers. -/
theorem integer_argument_fails (r : Recorder) (z : ℤ) (l : List Num) (hat : r.at_ = .int z :: l)
    (hk : r.kind ≠ .dsrate ∧ r.kind ≠ .collrate ∧ r.kind ≠ .structcost)
    (he : r.kind = .edpim → Working .edpim r.columns) : Stops r := by
  obtain ⟨k, fn, o, cols, at_⟩ := r
  simp only at hat hk he
  subst hat
  obtain ⟨h1, h2, h3⟩ := hk
  by_cases hp : k = .pdf
  · subst hp
    simp only [Stops, output, pdfOutput]
    cases hx : fn.imId with
    | error e => simp [lines, printed, bind, Except.bind]
    | ok x =>
      cases fn with
      | struct s =>
        simp only [lines, bind, Except.bind, fmt6, pure, Except.pure, List.map_cons, List.zip_cons_cons]
        refine printed_error_head _ _ _ ?_
        split <;> split <;> exact ⟨_, rfl⟩
      | _ => simp [lines, bind, Except.bind, fmt6, pure, Except.pure, printed]
  · have hb : output ⟨k, fn, o, cols, .int z :: l⟩ = baseOutput ⟨k, fn, o, cols, .int z :: l⟩ := by
      cases k <;> first | rfl | contradiction
    unfold Stops
    rw [hb]
    unfold baseOutput
    rw [if_neg h1]
    cases hh : header ⟨k, fn, o, cols, .int z :: l⟩ with
    | error e => simp [printed]
    | ok h =>
      have hline : ∀ r : Recorder, ∃ e, lineAt r (.int z) = .error e := by
        intro r
        unfold lineAt
        split
        all_goals first
          | (split <;> exact ⟨_, rfl⟩)
          | exact ⟨_, rfl⟩
      have hl : ∀ (r : Recorder), (printed (.ok h :: (Num.int z :: l).map (lineAt r))).1.length ≤ 1 ∧
          (printed (.ok h :: (Num.int z :: l).map (lineAt r))).2 ≠ none := by
        intro r
        obtain ⟨e, he⟩ := hline r
        rw [List.map_cons, he]
        simp [printed]
      cases k with
      | imrate => cases fn <;> simp [lines, printed, numRow, fmt6, bind, Except.bind]
      | collapse => cases fn <;> simp [lines, printed, numRow, fmt6, bind, Except.bind]
      | edpim =>
        obtain ⟨cs, rfl, hne, hcs⟩ := he rfl
        cases fn with
        | edp e =>
          simp only [Option.getD_some, edpimColumns_ok e _ cs hcs]
          simp only [lines, bind, Except.bind, pure, Except.pure]
          rw [zipColumns_map _ cs (fun c => (statistic e.stats c).getD id) hne]
          simp [printed, numRow, fmt6, bind, Except.bind]
        | _ =>
          cases cs with
          | nil => contradiction
          | cons c cs =>
            rcases hcs c List.mem_cons_self with rfl | rfl <;>
              simp [edpimColumns, edpimColumn, edpimColumn.bulk, lines, printed, bind, Except.bind]
      | _ => exact hl _

/-- **C63.** A recorder of an unknown object (the registry's `lookup` gave `None`) stops with an exception
before any value is printed, if its columns are names of statistics. -/
theorem unknown_object_partial (k : Kind) (o : Opts) (cols : Option (List Col)) (at_ : Option (List Num))
    (r : Recorder) (hm : make k .none o cols at_ = .ok r) (hat : ∀ l, at_ = some l → l ≠ [])
    (hc : ∀ l, cols = some l → l ≠ [] ∧ ∀ c ∈ l, c = .name "mean_x" ∨ c = .name "mean_ln_x" ∨
      c = .name "median_x" ∨ c = .name "sd_ln_x" ∨ c = .name "sd_x") : Stops r := by
  have five : ∀ c, (c = .name "mean_x" ∨ c = .name "mean_ln_x" ∨ c = .name "median_x" ∨
      c = .name "sd_ln_x" ∨ c = .name "sd_x") → ∀ k x, colValue k .none x c = .error .attributeError := by
    intro c hc k x
    rcases hc with rfl | rfl | rfl | rfl | rfl <;> cases k <;> rfl
  by_cases hs : k = .structcost
  · subst hs
    obtain ⟨t, cs, ht, rfl, h1, h2⟩ := make_struct_ok _ _ _ _ _ hm
    simp only [Stops, output, structOutput, ht]
    cases t with
    | npv =>
      cases hd : o.discountRate with
      | none => simp [printed]
      | some d =>
        cases at_ with
        | none => exact absurd rfl (h2 (by simp))
        | some l =>
          cases l with
          | nil => exact absurd rfl (hat _ rfl)
          | cons a l => simp [printed]
    | _ => simp [printed]
  · obtain ⟨cols', hd, rfl, h1⟩ := make_base_ok _ _ _ _ _ _ hs hm
    by_cases hsp : k = .dsrate ∨ k = .collrate ∨ k = .pdf
    · rcases hsp with rfl | rfl | rfl
      · simp [Stops, output, baseOutput, printed]
      · simp [Stops, output, collRateOutput, printed]
      · simp [Stops, output, pdfOutput, Obj.imId, lines, printed, bind, Except.bind]
    · push Not at hsp
      obtain ⟨l, rfl⟩ : ∃ l, at_ = some l := by
        cases at_ with
        | none => rcases h1 rfl with h | h <;> simp_all
        | some l => exact ⟨l, rfl⟩
      obtain ⟨a, l, rfl⟩ := List.exists_cons_of_ne_nil (hat l rfl)
      have hcs : ∀ cs, cols' = some cs → cs ≠ [] ∧ ∀ c ∈ cs, ∀ k x,
          colValue k .none x c = .error .attributeError := by
        intro cs hcs
        subst hcs
        cases cols with
        | some l' =>
          obtain rfl : l' = cs := by cases k <;> simpa [defaultColumns] using hd
          exact ⟨(hc _ rfl).1, fun c hcm k x => five c ((hc _ rfl).2 c hcm) k x⟩
        | none =>
          have : cs = [.name "mean_ln_x", .name "sd_ln_x"] ∨ cs = [.name "mean_x", .name "sd_ln_x"] := by
            cases k <;> simp_all [defaultColumns]
          rcases this with rfl | rfl
          · exact ⟨by simp, fun c hcm k x => five c (by simp at hcm; tauto) k x⟩
          · exact ⟨by simp, fun c hcm k x => five c (by simp at hcm; tauto) k x⟩
      have hline : ∀ at_, k ≠ .edpim → ∃ e, lineAt ⟨k, .none, o, cols', at_⟩ a = .error e := by
        intro at_ hk
        have hf : fmt6 (.num a) = .error .valueError ∨ ∃ v, fmt6 (.num a) = .ok v := by
          cases a
          · exact .inr ⟨_, rfl⟩
          · exact .inl rfl
        unfold lineAt
        rcases hf with hf | ⟨v, hf⟩
        · split
          all_goals first
            | (simp only [hf]; exact ⟨_, rfl⟩)
            | (split <;> simp only [hf] <;> exact ⟨_, rfl⟩)
        · split
          · simp only [hf]; exact ⟨_, rfl⟩
          · simp only [hf]; exact ⟨_, rfl⟩
          · simp only [hf]; exact ⟨_, rfl⟩
          · simp only [hf]; exact ⟨_, rfl⟩
          · split
            · rename_i cs hce
              obtain ⟨hne, hv⟩ := hcs cs hce
              obtain ⟨c, cs, rfl⟩ := List.exists_cons_of_ne_nil hne
              simp only [hf, fields, hv c List.mem_cons_self]
              exact ⟨_, rfl⟩
            · simp only [hf]; exact ⟨_, rfl⟩
      have hb : output ⟨k, .none, o, cols', (some (a :: l)).getD []⟩ =
          baseOutput ⟨k, .none, o, cols', a :: l⟩ := by
        obtain ⟨-, h2, h3⟩ := hsp
        cases k <;> first | rfl | contradiction
      unfold Stops
      rw [hb]
      unfold baseOutput
      rw [if_neg hsp.1]
      cases hh : header ⟨k, .none, o, cols', a :: l⟩ with
      | error e => simp [printed]
      | ok h =>
        have hi : k ≠ .edpim ∧ k ≠ .imrate ∧ k ≠ .collapse := by
          refine ⟨?_, ?_, ?_⟩ <;> rintro rfl <;> simp [header, xLabel, Obj.imId, bind, Except.bind] at hh
        obtain ⟨hi1, hi2, hi3⟩ := hi
        obtain ⟨e, he⟩ := hline (a :: l) hi1
        have : (printed (.ok h :: (a :: l).map (lineAt ⟨k, .none, o, cols', a :: l⟩))).1.length ≤ 1 ∧
            (printed (.ok h :: (a :: l).map (lineAt ⟨k, .none, o, cols', a :: l⟩))).2 ≠ none := by
          rw [List.map_cons]
          exact printed_error_head _ _ _ ⟨e, he⟩
        cases k <;> first | exact this | contradiction

/-- **C63.** With a probability as column, the recorder of an unknown object prints `----` for every argument
and raises nothing. -/
theorem unknown_object_fails (o : Opts) (p : Dbl) (at_ : List Dbl) :
    ∃ r, make .probfn .none o (some [.prob (.flt p)]) (some (at_.map Num.flt)) = .ok r ∧
      printed (output r) = ([.text "x", .num p] :: at_.map fun x => [.num x, .text "----"], none) :=
  ⟨_, make_base .probfn .none o (some [.prob (.flt p)]) (some [.prob (.flt p)]) _ (by simp) rfl,
    prints_lines _ _ at_ (lineAt ⟨_, .none, o, some [.prob (.flt p)], _⟩)
      (fun x => [.num x, .text "----"]) rfl fun _ => rfl⟩

/-- **C62.** No recorder of a probabilistic function prints a value, whatever columns are asked for: the
heading is printed, the first line raises. -/
theorem probfn_fails (s : Stats) (o : Opts) (cols : Option (List Col)) (a : Dbl) (at_ : List Dbl)
    (hne : cols ≠ some []) (h : (columns .probfn (.probfn s) cols).isSome) :
    (∃ r t, make .probfn (.probfn s) o cols (some ((a :: at_).map Num.flt)) = .ok r ∧
      table .probfn (.probfn s) cols (a :: at_) = some t ∧
      printed (output r) = (t.take 1, some .attributeError)) ∧
    ¬ PrintsTable .probfn (.probfn s) o cols (a :: at_) := by
  have hm : make .probfn (.probfn s) o cols (some ((a :: at_).map Num.flt)) =
      .ok ⟨.probfn, .probfn s, o, some (cols.getD [.name "mean_ln_x", .name "sd_ln_x"]),
        (a :: at_).map Num.flt⟩ := make_base _ _ o cols _ _ (by simp) (by cases cols <;> rfl)
  have hne : cols.getD [.name "mean_ln_x", .name "sd_ln_x"] ≠ [] := by
    cases cols <;> simp_all
  simp only [columns] at h
  obtain ⟨cs, hcs⟩ := Option.isSome_iff_exists.1 h
  have ht : table .probfn (.probfn s) cols (a :: at_) = some
      ((.text "x" :: cs.map Prod.fst) ::
        (a :: at_).map fun a => .num a :: cs.map fun c => .num (c.2 a)) := by
    simp [table, argument, columns, hcs]
  obtain ⟨h1, h2, -⟩ := chosen_spec _ _ cs hcs
  generalize cols.getD [.name "mean_ln_x", .name "sd_ln_x"] = l at *
  obtain _ | ⟨c, l⟩ := l
  · contradiction
  have hv : colValue .probfn (.probfn s) a c = .error .attributeError := by
    have hc := h2 c (by simp)
    rcases c with c | q
    · simp only [statistic, named, List.lookup] at hc
      repeat' split at hc
      all_goals simp_all [colValue, meanOf, meanLnOf, medianOf, sdLnOf, sdOf, statOf]
    · rfl
  have hp : printed (output ⟨.probfn, .probfn s, o, some (c :: l), (a :: at_).map Num.flt⟩) =
      ([.text "x" :: cs.map Prod.fst], some .attributeError) := by
    have hh : header ⟨.probfn, .probfn s, o, some (c :: l), (a :: at_).map Num.flt⟩ =
        .ok (.text "x" :: (c :: l).map headCell) := fields_header "x" (c :: l)
    have hl : lineAt ⟨.probfn, .probfn s, o, some (c :: l), (a :: at_).map Num.flt⟩ (.flt a) =
        .error .attributeError := by
      simp only [lineAt, fields, Num.toDbl, hv]
      rfl
    rw [List.map_cons] at hh hl
    simp [output, baseOutput, hh, printed, hl, h1]
  refine ⟨⟨_, _, hm, ht, hp⟩, ?_⟩
  intro hP
  obtain ⟨r, hr, hp'⟩ := hP _ ht
  rw [hm] at hr
  obtain rfl := Except.ok.inj hr
  rw [hp] at hp'
  simp at hp'

/-! ## Examples -/

/-- A probabilistic function with median `x` and dispersion 1/2. -/
def exampleStats : Stats where
  mean x := x * .fin 2
  meanLn x := x
  median x := x
  sdLn _ := .fin (1 / 2)
  sd x := x
  xAt x p := x * p

/-- Two damage states, with onset medians 1 and `e`. -/
def exampleGroup : GroupObj where
  imId := "im1"
  onsets := [⟨.fin 0, .fin 1⟩, ⟨.fin 1, .fin 1⟩]
  eCostEdp x := x
  sdLnCostEdp _ := 1
  eCostIm x := x * .fin 3
  sdLnCostIm _ := 1
  eDelayEdp x := x
  sdLnDelayEdp _ := 1
  eDelayIm x := x
  sdLnDelayIm _ := 1
  pDsIm x := [x, x]
  rate := [1, 0]
  lambdaCost x := x
  edpKey := 1
  fragKey := 1
  edpName := some (some "edp1")
  fragName := some (some "frag1")

/-- A `probfn` recorder with a name and a probability as columns, at 1 and 2: only the heading. -/
example : ∃ r, make .probfn (.probfn exampleStats) {} (some [.name "sd_ln_x", .prob (.flt (.fin (1 / 2)))])
      (some ([.fin 1, .fin 2].map Num.flt)) = .ok r ∧
    printed (output r) = ([[.text "x", .text "sd_ln_x", .num (.fin (1 / 2))]], some .attributeError) := by
  obtain ⟨⟨r, t, h1, h2, h3⟩, -⟩ := probfn_fails exampleStats {}
    (some [.name "sd_ln_x", .prob (.flt (.fin (1 / 2)))]) (.fin 1) [.fin 2] (by simp) rfl
  refine ⟨r, h1, h3.trans ?_⟩
  obtain rfl := Option.some.inj h2
  rfl

/-- A `costim` recorder with two columns, at 1 and 2. -/
example : ∃ r t, make .costim (.group exampleGroup) {} (some [.name "sd_ln_x", .name "mean_x"])
      (some ([.fin 1, .fin 2].map Num.flt)) = .ok r ∧
    table .costim (.group exampleGroup) (some [.name "sd_ln_x", .name "mean_x"]) [.fin 1, .fin 2] =
      some t ∧ printed (output r) = (t, none) := by
  obtain ⟨r, h1, h2⟩ := prints_table_partial .costim (.group exampleGroup) {}
    (some [.name "sd_ln_x", .name "mean_x"]) [.fin 1, .fin 2] _ trivial rfl (by simp) (by simp)
  exact ⟨r, _, h1, rfl, h2⟩

/-- The damage states of the example group. -/
example : ∃ r t, make .dsim (.group exampleGroup) {} none (some ([.fin 1].map Num.flt)) = .ok r ∧
    table .dsim (.group exampleGroup) none [.fin 1] = some t ∧ printed (output r) = (t, none) := by
  obtain ⟨r, h1, h2⟩ := prints_table_partial .dsim (.group exampleGroup) {} none [.fin 1] _ rfl rfl
    (by rintro g hg -; obtain rfl := Obj.group.inj hg; simp [exampleGroup])
    (by rintro g x hg -; obtain rfl := Obj.group.inj hg; simp [exampleGroup])
  exact ⟨r, _, h1, rfl, h2⟩

/-- The working `edpim` columns. -/
example : Working .edpim (some [.name "sd_ln_x", .name "mean_x"]) :=
  ⟨_, rfl, by simp, by simp⟩

/-- The documentation's `cols:[1, 4]`, cut down to two states. -/
example : ¬ PrintsTable .dsedp (.group exampleGroup) {} (some [.prob (.int 1)]) [.fin 1] :=
  (states_columns_fails exampleGroup {} 1 (by simp [exampleGroup]) (by simp [exampleGroup]) (.fin 1) []).2

/-- Integer arguments. -/
example : Stops ⟨.costrate, .group exampleGroup, {}, none, [.int 1, .int 2]⟩ :=
  integer_argument_fails _ 1 [.int 2] rfl (by simp) (by simp)

/-- An unknown component group. -/
example : ∃ r, make .costedp .none {} none (some [.flt (.fin 1)]) = .ok r ∧ Stops r :=
  ⟨_, rfl, unknown_object_partial .costedp {} none (some [.flt (.fin 1)]) _ rfl (by simp) (by simp)⟩

/-- The rate of exceedence and the mean of the example differ. -/
example : ¬ PrintsTable .edprate (.edp ⟨"im1", exampleStats, fun _ => .fin 0⟩) {} (some [.name "mean_x"])
    [.fin 1] :=
  (edprate_columns_fails _ {} (.fin 1) [] (by
    show (Dbl.fin 1 * .fin 2 : Dbl) ≠ .fin 0
    rw [Dbl.fin_mul]
    simp)).2

end

end Slat.Rec
