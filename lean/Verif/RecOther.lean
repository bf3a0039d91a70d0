import Verif.RecProps

/-!
# C65: annual costs, present values, densities and rates as recorded

The full statement: each of these recorders prints the values it is named after, under its headings.  It
holds but for columns of the annual cost that are not names of statistics, and for normalising a
density that is zero at all arguments.
-/

namespace Slat.Rec

noncomputable section

/-! ## Specification -/

/-- The statistics of the annual cost. -/
inductive Statistic
  | mean | meanLn | median | sdLn | sd

/-- Their names in the language (/repo/slat-lang.org:506-530). -/
def Statistic.name : Statistic → String
  | .mean => "mean_x"
  | .meanLn => "mean_ln_x"
  | .median => "median_x"
  | .sdLn => "sd_ln_x"
  | .sd => "sd_x"

/-- Their values. -/
def Statistic.of (d : LogNormalDist) : Statistic → Dbl
  | .mean => d.getMean
  | .meanLn => d.getMuLn
  | .median => d.getMedian
  | .sdLn => d.getSigmaLn
  | .sd => d.getSigma

/-! ## Theorems -/

theorem annualLines_names (d : LogNormalDist) (cols : List Statistic) : ∀ prev,
    annualLines d prev (cols.map fun c => .name c.name) =
      .ok (cols.map fun c => .text c.name, cols.map fun c => .num (c.of d)) := by
  induction cols with
  | nil => intro prev; rfl
  | cons c cs ih =>
    intro prev
    have : annualValue d prev (.name c.name) = some (c.of d) := by cases c <;> rfl
    simp only [List.map_cons, annualLines, Col.label, fmt, bind, Except.bind, this, ih, pure, Except.pure]

/-- **C65.** The annual cost: a line of names and a line with their values. -/
theorem annual_cost_partial (s : StructObj) (o : Opts) (ho : o.structType = some .annual)
    (cols : List Statistic) (hc : cols ≠ []) (at_ : Option (List Num)) :
    ∃ r, make .structcost (.struct s) o (some (cols.map fun c => .name c.name)) at_ = .ok r ∧
      printed (output r) = ([cols.map fun c => .text c.name,
        cols.map fun c => .num (c.of s.annualCost)], none) := by
  refine ⟨⟨.structcost, .struct s, o, some (cols.map fun c => .name c.name), at_.getD []⟩, ?_, ?_⟩
  · cases cols with
    | nil => contradiction
    | cons c cs => simp [make, ho, mkBase, defaultColumns, pure, Except.pure, bind, Except.bind]
  · simp only [output, structOutput, ho, Option.getD_some, annualLines_names, bind, Except.bind, lines, pure,
      Except.pure, printed]

/-- **C65.** A probability as column of the annual cost repeats the value to its left under its heading;
in the first column it stops the recorder before anything is printed. -/
theorem annual_cost_fails (s : StructObj) (o : Opts) (ho : o.structType = some .annual) (c : Statistic)
    (p : Dbl) :
    (∃ r, make .structcost (.struct s) o (some [.name c.name, .prob (.flt p)]) none = .ok r ∧
      printed (output r) = ([[.text c.name, .num p],
        [.num (c.of s.annualCost), .num (c.of s.annualCost)]], none)) ∧
    ∃ r, make .structcost (.struct s) o (some [.prob (.flt p)]) none = .ok r ∧
      printed (output r) = ([], some .unboundLocal) := by
  constructor
  · refine ⟨⟨.structcost, .struct s, o, some [.name c.name, .prob (.flt p)], []⟩, ?_, ?_⟩
    · simp [make, ho, mkBase, defaultColumns, pure, Except.pure, bind, Except.bind]
    · simp only [output, structOutput, ho, Option.getD_some]
      cases c <;> rfl
  · refine ⟨⟨.structcost, .struct s, o, some [.prob (.flt p)], []⟩, ?_, ?_⟩
    · simp [make, ho, mkBase, defaultColumns, pure, Except.pure, bind, Except.bind]
    · simp only [output, structOutput, ho, Option.getD_some, annualLines, Col.label, fmt, annualValue,
        bind, Except.bind, lines, printed]

/-- **C65.** The present value of the costs: one line per year. -/
theorem present_value (s : StructObj) (o : Opts) (ho : o.structType = some .npv) (rate : Dbl)
    (hr : o.discountRate = some rate) (cols : Option (List Col)) (years : List ℤ) :
    ∃ r, make .structcost (.struct s) o cols (some (years.map Num.int)) = .ok r ∧
      printed (output r) = ([.text "Year", .text "E[ALt]"] ::
        years.map fun y => [.int y, .num (s.eCost y rate)], none) := by
  obtain ⟨cs, hm⟩ : ∃ cs, make .structcost (.struct s) o cols (some (years.map Num.int)) =
      .ok ⟨.structcost, .struct s, o, some cs, years.map Num.int⟩ := by
    rcases cols with _ | (_ | ⟨c, cs⟩)
    all_goals
      simp [make, ho, mkBase, defaultColumns, pure, Except.pure, bind, Except.bind]
  refine ⟨_, hm, ?_⟩
  simp only [output, structOutput, ho, npvOutput, hr]
  rw [printed_head, printed_map_ok (years.map Num.int) _ fun
      | .int y => [.int y, .num (s.eCost y rate)]
      | .flt _ => []]
  · simp [List.map_map, Function.comp_def]
  · intro x hx
    obtain ⟨y, -, rfl⟩ := List.mem_map.1 hx
    rfl

/-- **C65, what fails**: years that are not integers; the lines of the integers before are printed, then an exception is
raised. -/
theorem present_value_fails (s : StructObj) (o : Opts) (ho : o.structType = some .npv) (rate : Dbl)
    (hr : o.discountRate = some rate) (cols : Option (List Col)) (years : List ℤ) (x : Dbl) (rest : List Num) :
    ∃ r, make .structcost (.struct s) o cols (some (years.map Num.int ++ .flt x :: rest)) = .ok r ∧
      printed (output r) = ([.text "Year", .text "E[ALt]"] ::
        years.map fun y => [.int y, .num (s.eCost y rate)], some .typeError) := by
  obtain ⟨cs, hm⟩ : ∃ cs, make .structcost (.struct s) o cols (some (years.map Num.int ++ .flt x :: rest)) =
      .ok ⟨.structcost, .struct s, o, some cs, years.map Num.int ++ .flt x :: rest⟩ := by
    rcases cols with _ | (_ | ⟨c, cs⟩)
    all_goals
      simp [make, ho, mkBase, defaultColumns, pure, Except.pure, bind, Except.bind]
  refine ⟨_, hm, ?_⟩
  simp only [output, structOutput, ho, npvOutput, hr]
  rw [printed_head]
  have : ∀ l : List ℤ, printed ((l.map Num.int ++ .flt x :: rest).map fun
      | .int y => .ok [.int y, .num (s.eCost y rate)]
      | .flt _ => .error .typeError) = (l.map fun y => [.int y, .num (s.eCost y rate)], some .typeError) := by
    intro l
    induction l with
    | nil => rfl
    | cons y l ih =>
      rw [List.map_cons, List.cons_append, List.map_cons, printed_head, ih]
      rfl
  have h := this years
  exact congrArg (fun p : List Row × Option PyErr => (([.text "Year", .text "E[ALt]"] : Row) :: p.1, p.2)) h

/-- **C65.** The annual rates of the damage states. -/
theorem damage_state_rates (g : GroupObj) (o : Opts) (cols : Option (List Col)) (at_ : Option (List Num)) :
    ∃ r, make .dsrate (.group g) o cols at_ = .ok r ∧
      printed (output r) = ([(List.range g.rate.length).map fun i => .text s!"DS{i + 1}",
        g.rate.map Cell.num], none) := by
  refine ⟨⟨.dsrate, .group g, o, cols, at_.getD []⟩, ?_, rfl⟩
  cases cols <;> simp [make, mkBase, defaultColumns, pure, Except.pure, bind, Except.bind]

/-- **C65.** The annual rates of demolition and collapse. -/
theorem collapse_rates (i : ImObj) (o : Opts) (cols : Option (List Col)) (at_ : Option (List Num)) :
    ∃ r, make .collrate (.im i) o cols at_ = .ok r ∧
      printed (output r) = ([[.text "IM", .text "rate(Demolition)", .text "rate(Collapse)"],
        [.text i.id, .num i.demolitionRate, .num i.collapseRate]], none) := by
  refine ⟨⟨.collrate, .im i, o, cols, at_.getD []⟩, ?_, rfl⟩
  cases cols <;> simp [make, mkBase, defaultColumns, pure, Except.pure, bind, Except.bind]

theorem make_pdf (s : StructObj) (o : Opts) (cols : Option (List Col)) (at_ : List Num) :
    make .pdf (.struct s) o cols (some at_) = .ok ⟨.pdf, .struct s, o, cols, at_⟩ := by
  cases cols <;> simp [make, mkBase, defaultColumns, pure, Except.pure, bind, Except.bind]

theorem pdf_prints (s : StructObj) (im : String) (him : s.imId = some im) (o : Opts)
    (cols : Option (List Col)) (at_ : List Dbl) (D : ℝ) (hD : D ≠ 0)
    (hd : (if o.normalise then maxPdf (at_.map s.pdf) else 1) = .fin D) :
    printed (output ⟨.pdf, .struct s, o, cols, at_.map Num.flt⟩) =
      ([.text (String.ofList (im.toList.take 6)), .text "pdf"] ::
        at_.map fun x => [.num x, .num (s.pdf x / .fin D)], none) := by
  have e : (at_.map Num.flt).map (fun x => s.pdf x.toDbl) = at_.map s.pdf := by
    rw [List.map_map]; rfl
  have hf : ¬ Dbl.feq (.fin D) 0 := by
    show ¬ D = 0
    exact hD
  simp only [output, pdfOutput, Obj.imId, him, fmt6, bind, Except.bind, lines, pure, Except.pure, e]
  rw [printed_head, List.zip_map', List.map_map, printed_map_ok at_ _
    (fun x => [.num x, .num (s.pdf x / .fin D)]) fun x _ => by
      simp only [Function.comp, hd, if_neg hf, numRow, fmt6, bind, Except.bind, pure, Except.pure,
        List.map_cons, List.map_nil]]
  rfl

theorem maxPdf_fin (l : List ℝ) : maxPdf (l.map Dbl.fin) = .fin (l.foldl max 0) := by
  have : ∀ m : ℝ, (l.map Dbl.fin).foldl (fun m y => if m < y then y else m) (.fin m) =
      .fin (l.foldl max m) := by
    induction l with
    | nil => intro m; rfl
    | cons a l ih =>
      intro m
      rw [List.map_cons, List.foldl_cons, List.foldl_cons]
      rcases lt_or_ge m a with h | h
      · rw [if_pos (show Dbl.fin m < .fin a from h), ih, max_eq_right h.le]
      · rw [if_neg (show ¬ Dbl.fin m < .fin a from not_lt.2 h), ih, max_eq_left h]
  exact this 0

theorem foldl_max_spec (l : List ℝ) : ∀ m, m ≤ l.foldl max m ∧ (∀ a ∈ l, a ≤ l.foldl max m) ∧
    (l.foldl max m = m ∨ l.foldl max m ∈ l) := by
  induction l with
  | nil => intro m; simp
  | cons a l ih =>
    intro m
    obtain ⟨h1, h2, h3⟩ := ih (max m a)
    rw [List.foldl_cons]
    refine ⟨(le_max_left _ _).trans h1, ?_, ?_⟩
    · intro b hb
      rcases List.mem_cons.1 hb with rfl | hb
      exacts [(le_max_right _ _).trans h1, h2 b hb]
    · rcases h3 with h | h
      · rw [h]
        rcases max_choice m a with h | h
        · exact Or.inl h
        · rw [h]; exact Or.inr List.mem_cons_self
      · exact Or.inr (List.mem_cons_of_mem _ h)

/-- **C65.** The density, at each argument. -/
theorem density (s : StructObj) (im : String) (him : s.imId = some im) (hl : im.length ≤ 6) (o : Opts)
    (ho : o.normalise = false) (cols : Option (List Col)) (at_ : List Dbl) (p : Dbl → ℝ)
    (hp : ∀ x ∈ at_, s.pdf x = .fin (p x)) :
    ∃ r, make .pdf (.struct s) o cols (some (at_.map Num.flt)) = .ok r ∧
      printed (output r) = ([.text im, .text "pdf"] ::
        at_.map fun x => [.num x, .num (.fin (p x))], none) := by
  refine ⟨_, make_pdf s o cols _, ?_⟩
  rw [pdf_prints s im him o cols at_ 1 one_ne_zero (by rw [ho]; rfl), List.take_of_length_le (by rw [String.length_toList]; exact hl)]
  congr 2
  · simp
  · refine List.map_congr_left fun x hx => ?_
    rw [hp x hx]
    simp [Dbl.fin_div]

/-- **C65.** The normalised density, if it is a number at all arguments and positive at one: it is in
proportion to the density, nowhere above 1, and 1 somewhere. -/
theorem density_normalised_partial (s : StructObj) (im : String) (him : s.imId = some im)
    (hl : im.length ≤ 6) (o : Opts) (ho : o.normalise = true) (cols : Option (List Col))
    (at_ : List Dbl) (p : Dbl → ℝ) (hp : ∀ x ∈ at_, s.pdf x = .fin (p x))
    (hpos : ∃ x ∈ at_, 0 < p x) :
    ∃ r, make .pdf (.struct s) o cols (some (at_.map Num.flt)) = .ok r ∧
    ∃ q : Dbl → ℝ, printed (output r) = ([.text im, .text "pdf"] ::
        at_.map fun x => [.num x, .num (.fin (q x))], none) ∧
      (∀ x ∈ at_, q x ≤ 1) ∧ (∃ x ∈ at_, q x = 1) ∧ (∀ x ∈ at_, ∀ y ∈ at_, q x * p y = q y * p x) ∧
      ∀ x ∈ at_, 0 < q x ↔ 0 < p x := by
  set M := (at_.map p).foldl max 0 with hM
  obtain ⟨h0, h1, h2⟩ := foldl_max_spec (at_.map p) 0
  rw [← hM] at h0 h1 h2
  obtain ⟨x0, hx0, hpx0⟩ := hpos
  have hMpos : 0 < M := lt_of_lt_of_le hpx0 (h1 _ (List.mem_map_of_mem hx0))
  have hmax : maxPdf (at_.map s.pdf) = .fin M := by
    rw [List.map_congr_left hp, hM, ← maxPdf_fin, List.map_map]; rfl
  refine ⟨_, make_pdf s o cols _, fun x => p x / M, ?_, ?_, ?_, ?_, ?_⟩
  · rw [pdf_prints s im him o cols at_ M hMpos.ne' (by rw [ho, if_pos rfl]; exact hmax),
      List.take_of_length_le (by rw [String.length_toList]; exact hl)]
    congr 2
    · simp
    · refine List.map_congr_left fun x hx => ?_
      rw [hp x hx, Dbl.fin_div_of_ne hMpos.ne']
  · exact fun x hx => (div_le_one hMpos).2 (h1 _ (List.mem_map_of_mem hx))
  · rcases h2 with h | h
    · exact absurd h hMpos.ne'
    · obtain ⟨x, hx, e⟩ := List.mem_map.1 h
      exact ⟨x, hx, by show p x / M = 1; rw [e, div_self hMpos.ne']⟩
  · intro x _ y _
    show p x / M * p y = p y / M * p x
    ring
  · exact fun x _ => div_pos_iff_of_pos_right hMpos

/-- **C65.** A density that is zero at all arguments, as below every loss, cannot be normalised: after the
headings, the recorder stops with a `ZeroDivisionError`. -/
theorem density_normalised_fails (s : StructObj) (im : String) (him : s.imId = some im)
    (hl : im.length ≤ 6) (o : Opts) (ho : o.normalise = true) (cols : Option (List Col))
    (at_ : List Dbl) (hat : at_ ≠ []) (hp : ∀ x ∈ at_, s.pdf x = 0) :
    ∃ r, make .pdf (.struct s) o cols (some (at_.map Num.flt)) = .ok r ∧
      printed (output r) = ([[.text im, .text "pdf"]], some .zeroDivision) := by
  refine ⟨_, make_pdf s o cols _, ?_⟩
  have hmax : maxPdf ((at_.map Num.flt).map fun x => s.pdf x.toDbl) = 0 := by
    have e : (at_.map Num.flt).map (fun x => s.pdf x.toDbl) = (at_.map fun _ => (0 : ℝ)).map Dbl.fin := by
      rw [List.map_map, List.map_map]
      exact List.map_congr_left hp
    rw [e, maxPdf_fin]
    show Dbl.fin _ = .fin 0
    congr 1
    clear e hat hp
    induction at_ with
    | nil => rfl
    | cons a l ih => simpa using ih
  simp only [output, pdfOutput, Obj.imId, him, fmt6, bind, Except.bind, lines, pure, Except.pure, ho, if_true,
    hmax, List.take_of_length_le (show im.toList.length ≤ 6 by rw [String.length_toList]; exact hl)]
  rw [printed_head]
  cases at_ with
  | nil => contradiction
  | cons a l =>
    rw [List.map_cons, List.map_cons, List.zip_cons_cons, List.map_cons]
    rw [if_pos (show Dbl.feq (0 : Dbl) 0 from rfl)]
    simp [printed]

/-- **C65.** The heading of a density is cut after six characters. -/
theorem density_heading_fails (s : StructObj) (im : String) (him : s.imId = some im)
    (hl : 6 < im.length) (o : Opts) (ho : o.normalise = false) (cols : Option (List Col)) (at_ : List Dbl) :
    ∃ r h rows, make .pdf (.struct s) o cols (some (at_.map Num.flt)) = .ok r ∧
      printed (output r) = ([.text h, .text "pdf"] :: rows, none) ∧ h ≠ im := by
  refine ⟨_, _, _, make_pdf s o cols _,
    pdf_prints s im him o cols at_ 1 one_ne_zero (by rw [ho]; rfl), ?_⟩
  intro h
  have := congrArg String.length h
  rw [String.length_ofList, List.length_take, String.length_toList] at this
  omega

/-! ## Examples -/

/-- A structure whose density at `x` is `x`. -/
def pdfStruct : StructObj where
  imId := some "im"
  groups := []
  totalCost := fun _ => LogNormalDist.unset
  annualCost := LogNormalDist.ofMeanSigmaLn (.fin 3) (.fin (1/2))
  costsByFate := fun _ => (LogNormalDist.unset, LogNormalDist.unset, LogNormalDist.unset)
  eCost := fun y _ => .fin (3 * y)
  pdf := fun x => x

example : ∃ r, make .structcost (.struct pdfStruct) { structType := some .annual }
      (some [.name "mean_x", .name "sd_ln_x"]) none = .ok r ∧
    printed (output r) = ([[.text "mean_x", .text "sd_ln_x"],
      [.num pdfStruct.annualCost.getMean, .num pdfStruct.annualCost.getSigmaLn]], none) :=
  annual_cost_partial pdfStruct _ rfl [.mean, .sdLn] (by simp) none

example : ∃ r, make .structcost (.struct pdfStruct) { structType := some .annual }
      (some [.name "mean_x", .prob (.flt (.fin (1/2)))]) none = .ok r ∧
    printed (output r) = ([[.text "mean_x", .num (.fin (1/2))],
      [.num pdfStruct.annualCost.getMean, .num pdfStruct.annualCost.getMean]], none) :=
  (annual_cost_fails pdfStruct _ rfl .mean (.fin (1/2))).1

example : ∃ r, make .structcost (.struct pdfStruct) { structType := some .npv, discountRate := some 0 }
      none (some [.int 1, .int 11]) = .ok r ∧
    printed (output r) = ([[.text "Year", .text "E[ALt]"], [.int 1, .num (.fin (3 * (1 : ℤ)))],
      [.int 11, .num (.fin (3 * (11 : ℤ)))]], none) :=
  present_value pdfStruct _ rfl 0 rfl none [1, 11]

/-- Years 1 and 1.5. -/
example : ∃ r, make .structcost (.struct pdfStruct) { structType := some .npv, discountRate := some 0 } none
      (some [.int 1, .flt (.fin (3 / 2))]) = .ok r ∧ (printed (output r)).2 = some .typeError := by
  obtain ⟨r, h1, h2⟩ := present_value_fails pdfStruct { structType := some .npv, discountRate := some 0 } rfl 0 rfl none
    [1] (.fin (3 / 2)) []
  exact ⟨r, h1, by rw [h2]⟩

example : ∃ r, make .dsrate (.group exampleGroup) {} none none = .ok r ∧ (printed (output r)).2 = none :=
  (damage_state_rates exampleGroup {} none none).imp fun _ h => ⟨h.1, by rw [h.2]⟩

example : ∃ r, make .collrate (.im ⟨"im", id, id, id, 1, 0⟩) {} none none = .ok r ∧
    printed (output r) = ([[.text "IM", .text "rate(Demolition)", .text "rate(Collapse)"],
      [.text "im", .num 1, .num 0]], none) :=
  collapse_rates _ {} none none

/-- Densities 1 and 2. -/
example : ∃ r, make .pdf (.struct pdfStruct) { normalise := false } none
      (some [.flt (.fin 1), .flt (.fin 2)]) = .ok r ∧
    printed (output r) = ([[.text "im", .text "pdf"], [.num (.fin 1), .num (.fin 1)],
      [.num (.fin 2), .num (.fin 2)]], none) := by
  obtain ⟨r, h1, h2⟩ := density pdfStruct "im" rfl (by decide) { normalise := false } rfl none [.fin 1, .fin 2]
    (fun | .fin v => v | _ => 0) (by simp [pdfStruct])
  exact ⟨r, h1, h2⟩

example : ∃ r, make .pdf (.struct pdfStruct) { normalise := true } none
      (some [.flt (.fin 1), .flt (.fin 2), .flt (.fin 4)]) = .ok r ∧ (printed (output r)).2 = none := by
  obtain ⟨r, h1, q, h2, -⟩ := density_normalised_partial pdfStruct "im" rfl (by decide) { normalise := true } rfl
    none [.fin 1, .fin 2, .fin 4] (fun | .fin v => v | _ => 0) (by simp [pdfStruct])
    ⟨.fin 2, by simp, by norm_num⟩
  exact ⟨r, h1, by rw [h2]⟩

example : ∃ r, make .pdf (.struct pdfStruct) { normalise := true } none (some [.flt 0, .flt 0]) = .ok r ∧
    printed (output r) = ([[.text "im", .text "pdf"]], some .zeroDivision) :=
  density_normalised_fails pdfStruct "im" rfl (by decide) { normalise := true } rfl none [0, 0] (by simp)
    (by intro x hx; simp at hx; exact hx)

example : ∃ r h rows, make .pdf (.struct { pdfStruct with imId := some "im_fema" }) {} none
      (some [.flt 0]) = .ok r ∧
    printed (output r) = ([.text h, .text "pdf"] :: rows, none) ∧ h ≠ "im_fema" :=
  density_heading_fails _ "im_fema" rfl (by decide) {} rfl none [0]

end

end Slat.Rec
