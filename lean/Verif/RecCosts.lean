import Verif.RecCostsLemmas
import Verif.StructureProps
import Verif.RecProps

/-!
# C64: the deaggregated costs of a structure add up
-/

namespace Slat.Rec

open Grouping LogNormalDist Fates

noncomputable section

/-! ## Specification -/

/-- A column of a cost distribution; these three work in the tables by EDP, fragility and fate. -/
inductive CostColumn
  | mean | sdLn | sd
  deriving DecidableEq

/-- Its name in the language. -/
def CostColumn.name : CostColumn → String
  | .mean => "mean_x"
  | .sdLn => "sd_ln_x"
  | .sd => "sd_x"

/-- The statistic it stands for. -/
def CostColumn.of (d : LogNormalDist) : CostColumn → Dbl
  | .mean => d.getMean
  | .sdLn => d.getSigmaLn
  | .sd => d.getSigma

/-- A table with a block of columns for each category, `d n x` being the distribution of the cost of
category `n` at `x`. -/
def costTable (xl : String) (cats : List String) (cols : List CostColumn) (at_ : List Dbl)
    (d : String → Dbl → LogNormalDist) : List Row :=
  (.text xl :: cats.flatMap fun n => cols.map fun c => .text (n ++ "." ++ c.name)) ::
    at_.map fun x => .num x :: cats.flatMap fun n => cols.map fun c => .num (c.of (d n x))

/-! ## Lemmas -/

theorem categoryTable_prints (xl : String) (cats : List String) (cols : List CostColumn)
    (at_ : List Dbl) (d : String → Dbl → LogNormalDist) :
    printed (categoryTable xl (cats.map fun n => (n, d n)) (cols.map fun c => .name c.name)
      (at_.map Num.flt)) = (costTable xl cats cols at_ d, none) := by
  have hcell : ∀ (f : Dbl → LogNormalDist) (c : CostColumn) (x : Dbl),
      fmt6 (distValue (f x) (.name c.name)) = .ok (.num (c.of (f x))) := by
    intro f c x; cases c <;> rfl
  unfold categoryTable
  rw [printed_head]
  rw [printed_map_ok (at_.map Num.flt) _ fun x => .num x.toDbl ::
    cats.flatMap fun n => cols.map fun c => .num (c.of (d n x.toDbl))]
  · simp only [costTable, List.flatMap_def, List.map_map]
    rfl
  · intro x' hx'
    obtain ⟨x, -, rfl⟩ := List.mem_map.1 hx'
    have : fields (fun p : (Dbl → LogNormalDist) × Col => fmt6 (distValue (p.1 x) p.2))
        ((cats.map fun n => (n, d n)).map fun c => (cols.map fun c => Col.name c.name).map
          fun y => (c.2, y)).flatten =
        .ok (cats.flatMap fun n => cols.map fun c => .num (c.of (d n x))) := by
      have hl : ((cats.map fun n => (n, d n)).map fun c => (cols.map fun c => Col.name c.name).map
          fun y => (c.2, y)).flatten =
          (cats.flatMap fun n => cols.map fun c => (n, c)).map fun p => (d p.1, Col.name p.2.name) := by
        simp [List.flatMap_def, List.map_map, List.map_flatten, Function.comp_def]
      rw [hl]
      have hr : (cats.flatMap fun n => cols.map fun c => Cell.num (c.of (d n x))) =
          (cats.flatMap fun n => cols.map fun c => (n, c)).map fun p => Cell.num (p.2.of (d p.1 x)) := by
        simp [List.flatMap_def, List.map_map, List.map_flatten, Function.comp_def]
      rw [hr]
      generalize (cats.flatMap fun n => cols.map fun c => (n, c)) = l
      induction l with
      | nil => rfl
      | cons p l ih =>
        simp only [List.map_cons, fields, hcell, ih]
        rfl
    simp only [Num.toDbl]
    rw [this]
    rfl

theorem components_facts {C : Type} (key : C → ℕ) (cs : List C) :
    (∀ c ∈ components key cs, c ≠ [] ∧ ∃ k, c = cs.filter (fun g => key g = k)) ∧
    (∀ g ∈ cs, ∃ c ∈ components key cs, g ∈ c) ∧
    (components key cs).Pairwise (fun a b => ∀ g ∈ a, ∀ h ∈ b, key g < key h) :=
  ⟨group_is_class key cs, fun g hg => by
    have := (groups_partition key cs).mem_iff.2 hg
    simpa using List.mem_flatten.1 this, groups_by_key key cs⟩

/-- The tables by EDP and by fragility function, if each EDP or fragility function has a name of its own:
one category per name, in alphabetical order, with the cost of the groups of that name. -/
theorem byName_prints (s : StructObj) (im : String) (him : s.imId = some im) (key : GroupObj → ℕ)
    (name : GroupObj → Option (Option String)) (cols : List CostColumn) (at_ : List Dbl)
    (hname : ∀ g ∈ s.groups, ∃ n, name g = some (some n))
    (hinj : ∀ g ∈ s.groups, ∀ h ∈ s.groups, name g = name h ↔ key g = key h) :
    ∃ cats : List String, cats.Pairwise (· < ·) ∧
      (∀ n, n ∈ cats ↔ ∃ g ∈ s.groups, name g = some (some n)) ∧
      printed (byName s key name (cols.map fun c => .name c.name) (at_.map Num.flt)) =
        (costTable im cats cols at_ fun n => sumOf (s.groups.filter fun g => name g = some (some n)),
          none) := by
  obtain ⟨hcl, hmem, hpw⟩ := components_facts key s.groups
  set l := components key s.groups with hl
  have hsub : ∀ c ∈ l, ∀ g ∈ c, g ∈ s.groups := by
    intro c hc g hg
    obtain ⟨-, k, rfl⟩ := hcl c hc
    exact (List.mem_filter.1 hg).1
  have hhead : ∀ c ∈ l, ∃ g t n, c = g :: t ∧ g ∈ s.groups ∧ name g = some (some n) ∧
      nameOf name c = some n := by
    intro c hc
    obtain ⟨g, t, rfl⟩ := List.exists_cons_of_ne_nil (hcl c hc).1
    have hg := hsub _ hc g List.mem_cons_self
    obtain ⟨n, hn⟩ := hname g hg
    exact ⟨g, t, n, rfl, hg, hn, by simp [nameOf, hn]⟩
  have hnd : (l.map (nameOf name)).Nodup := by
    rw [List.Nodup, List.pairwise_map]
    refine List.Pairwise.imp_of_mem (fun {a b} ha hb hab hne => ?_) hpw
    obtain ⟨g, t, n, rfl, hg, hgn, hgo⟩ := hhead a ha
    obtain ⟨g', t', n', rfl, hg', hgn', hgo'⟩ := hhead b hb
    rw [hgo, hgo'] at hne
    have : key g = key g' := (hinj g hg g' hg').1 (by rw [hgn, hgn', hne])
    exact absurd (hab g List.mem_cons_self g' List.mem_cons_self) (by omega)
  have hcls : ∀ c ∈ l, ∀ n, nameOf name c = some n →
      c = s.groups.filter fun g => name g = some (some n) := by
    intro c hc n hn
    obtain ⟨g, t, n', hct, hg, hgn, hgo⟩ := hhead c hc
    obtain rfl : n' = n := by rw [hn] at hgo; exact (Option.some.inj hgo).symm
    obtain ⟨-, k, hk⟩ := hcl c hc
    have hgk : key g = k := by
      have : g ∈ c := hct ▸ List.mem_cons_self
      rw [hk] at this
      simpa using (List.mem_filter.1 this).2
    rw [hk]
    refine List.filter_congr fun h hh => ?_
    rw [decide_eq_decide, ← hgk, ← hgn]
    exact ((hinj h hh g hg).symm)
  have hd : groupsByName name [] l = .ok (l.map fun c => (nameOf name c, c)) := by
    have := groupsByName_eq name l [] (fun c hc => by
      obtain ⟨g, t, n, h1, -, h2, -⟩ := hhead c hc
      exact ⟨g, t, some n, h1, h2⟩) hnd (by simp)
    simpa using this
  obtain ⟨cats, hsort, hcs, hcm⟩ := sortNames_spec (l.map (nameOf name))
    (by
      intro n hn
      obtain ⟨c, hc, rfl⟩ := List.mem_map.1 hn
      obtain ⟨g, t, n', -, -, -, h⟩ := hhead c hc
      simp [h]) hnd
  refine ⟨cats, hcs, ?_, ?_⟩
  · intro n
    rw [hcm]
    constructor
    · intro h
      obtain ⟨c, hc, hcn⟩ := List.mem_map.1 h
      obtain ⟨g, t, n', -, hg, hgn, hgo⟩ := hhead c hc
      rw [hcn] at hgo
      obtain rfl := Option.some.inj hgo
      exact ⟨g, hg, hgn⟩
    · rintro ⟨g, hg, hgn⟩
      obtain ⟨c, hc, hgc⟩ := hmem g hg
      obtain ⟨g', t, n', hct, hg', hgn', hgo⟩ := hhead c hc
      refine List.mem_map.2 ⟨c, hc, ?_⟩
      have := hcls c hc n' hgo
      rw [this] at hgc
      have := (List.mem_filter.1 hgc).2
      simp only [decide_eq_true_eq, hgn, Option.some.injEq] at this
      rw [hgo, ← this]
  · have hget : ∀ n ∈ cats, dictGet (l.map fun c => (nameOf name c, c)) (some n) =
        s.groups.filter fun g => name g = some (some n) := by
      intro n hn
      obtain ⟨c, hc, hcn⟩ := List.mem_map.1 ((hcm n).1 hn)
      have h1 := dictGet_map (nameOf name) l c hc hnd
      rw [hcn] at h1
      rw [h1]
      exact hcls c hc n hcn
    have hb : byName s key name (cols.map fun c => .name c.name) (at_.map Num.flt) =
        categoryTable im (cats.map fun n => (n, (fun n =>
          sumOf (s.groups.filter fun g => name g = some (some n))) n))
          (cols.map fun c => .name c.name) (at_.map Num.flt) := by
      unfold byName
      rw [← hl, hd]
      have : ((l.map fun c => (nameOf name c, c)).map Prod.fst) = l.map (nameOf name) := by
        rw [List.map_map]; rfl
      simp only [bind, Except.bind, Obj.imId, him, this, hsort, lines, pure, Except.pure]
      congr 1
      rw [List.map_map]
      refine List.map_congr_left fun n hn => ?_
      simp only [Function.comp, hget n hn, pyText]
    rw [hb]
    exact categoryTable_prints im cats cols at_ _

theorem proper_ofMeanSigmaLn (m σ : ℝ) (hm : 0 ≤ m) :
    (ofMeanSigmaLn (.fin m) (.fin σ)).Proper ∧ (ofMeanSigmaLn (.fin m) (.fin σ)).getMean = .fin m := by
  rcases hm.lt_or_eq with h | h
  · exact ⟨⟨σ, rfl, Or.inl ⟨Real.log m - σ * σ / 2, by simp only [ofMeanSigmaLn, muFromMeanSigmaLn,
      Dbl.log_pos h, Dbl.fin_mul, Dbl.fin_div_two, Dbl.fin_sub]⟩⟩, (mean_sdln_roundtrip m σ h).1⟩
  · subst h
    exact ⟨⟨σ, rfl, Or.inr (by simp [ofMeanSigmaLn, muFromMeanSigmaLn])⟩, (zero_mean_sdln σ).1⟩

theorem sumOf_mean (gs : List GroupObj) (x : Dbl) (m σ : GroupObj → ℝ)
    (hm : ∀ g ∈ gs, 0 ≤ m g ∧ g.eCostIm x = .fin (m g) ∧ g.sdLnCostIm x = .fin (σ g)) :
    (sumOf gs x).getMean = .fin (gs.map m).sum := by
  have key : ∃ ms : List (ℝ × ℝ), ReportsAll (gs.map fun g => ofMeanSigmaLn (g.eCostIm x) (g.sdLnCostIm x)) ms ∧
      sumMean ms = (gs.map m).sum := by
    induction gs with
    | nil => exact ⟨[], List.Forall₂.nil, rfl⟩
    | cons g gs ih =>
      obtain ⟨ms, h1, h2⟩ := ih fun g hg => hm g (List.mem_cons_of_mem _ hg)
      obtain ⟨h0, e1, e2⟩ := hm g List.mem_cons_self
      obtain ⟨hp, hmean⟩ := proper_ofMeanSigmaLn (m g) (σ g) h0
      obtain ⟨m', s', -, -, -, hs, -⟩ := hp.moments
      refine ⟨(m g, s') :: ms, List.Forall₂.cons ?_ h1, ?_⟩
      · simp only [e1, e2]; exact ⟨hmean, hs⟩
      · simp only [sumMean, List.map_cons, List.sum_cons] at h2 ⊢
        rw [h2]
  obtain ⟨ms, h1, h2⟩ := key
  obtain ⟨-, s, hr, -⟩ := add_adds_moments _ (by
    intro d hd
    obtain ⟨g, hg, rfl⟩ := List.mem_map.1 hd
    obtain ⟨h0, e1, e2⟩ := hm g hg
    rw [e1, e2]
    exact (proper_ofMeanSigmaLn _ _ h0).1) ms h1
  rw [← h2]
  exact hr.1

theorem sum_by_category (gs : List GroupObj) (cats : List String) (hc : cats.Nodup)
    (name : GroupObj → Option (Option String))
    (hn : ∀ g ∈ gs, ∃ n ∈ cats, name g = some (some n)) (m : GroupObj → ℝ) :
    (cats.map fun n => ((gs.filter fun g => name g = some (some n)).map m).sum).sum = (gs.map m).sum := by
  induction gs with
  | nil => simp
  | cons g gs ih =>
    rw [List.map_cons, List.sum_cons, ← ih fun g hg => hn g (List.mem_cons_of_mem _ hg)]
    obtain ⟨n, hnc, hgn⟩ := hn g List.mem_cons_self
    clear ih hn
    have h0 : ∀ l : List String, n ∉ l →
        (l.map fun k => (((g :: gs).filter fun g => name g = some (some k)).map m).sum) =
        l.map fun k => ((gs.filter fun g => name g = some (some k)).map m).sum := by
      intro l hl
      refine List.map_congr_left fun k hk => ?_
      rw [List.filter_cons_of_neg]
      simp only [hgn, decide_eq_true_eq, Option.some.injEq]
      rintro rfl
      exact hl hk
    induction cats with
    | nil => simp at hnc
    | cons k ks ih =>
      rw [List.nodup_cons] at hc
      simp only [List.map_cons, List.sum_cons]
      by_cases hk : n = k
      · subst hk
        rw [h0 ks hc.1, List.filter_cons_of_pos (by simp [hgn]), List.map_cons, List.sum_cons]
        ring
      · rw [ih hc.2 ((List.mem_cons.1 hnc).resolve_left hk), List.filter_cons_of_neg (by
          simp only [hgn, decide_eq_true_eq, Option.some.injEq]; exact hk)]
        ring

theorem make_costs (s : StructObj) (o : Opts) (t : CostType) (ht : o.structType = some t)
    (cols : List Col) (hc : cols ≠ []) (at_ : List Num) :
    make .structcost (.struct s) o (some cols) (some at_) =
      .ok ⟨.structcost, .struct s, o, some cols, at_⟩ := by
  cases cols with
  | nil => contradiction
  | cons c cs => simp [make, ht, mkBase, defaultColumns, pure, Except.pure, bind, Except.bind]

/-! ## Theorems -/

/-- Costs by demand or by fragility function of a structure whose groups have names as in `name`: the
recorder prints, for every intensity, the cost of each name; and if the groups' costs are numbers, the mean
of a name is the sum of the means of its groups, and all the means of a line add up to the sum over
all groups. -/
def AddsUp (s : StructObj) (name : GroupObj → Option (Option String)) (im : String)
    (cols : List CostColumn) (at_ : List Dbl) (out : List Row × Option PyErr) : Prop :=
  ∃ cats : List String, cats.Pairwise (· < ·) ∧
    (∀ n, n ∈ cats ↔ ∃ g ∈ s.groups, name g = some (some n)) ∧
    ∃ d : String → Dbl → LogNormalDist, out = (costTable im cats cols at_ d, none) ∧
      ∀ (x : Dbl) (m σ : GroupObj → ℝ),
        (∀ g ∈ s.groups, 0 ≤ m g ∧ g.eCostIm x = .fin (m g) ∧ g.sdLnCostIm x = .fin (σ g)) →
        ∃ c : String → ℝ, (∀ n, (d n x).getMean = .fin (c n)) ∧
          (∀ n, c n = ((s.groups.filter fun g => name g = some (some n)).map m).sum) ∧
          (cats.map c).sum = (s.groups.map m).sum

theorem byName_addsUp (s : StructObj) (im : String) (him : s.imId = some im) (key : GroupObj → ℕ)
    (name : GroupObj → Option (Option String)) (cols : List CostColumn) (at_ : List Dbl)
    (hname : ∀ g ∈ s.groups, ∃ n, name g = some (some n))
    (hinj : ∀ g ∈ s.groups, ∀ h ∈ s.groups, name g = name h ↔ key g = key h) :
    AddsUp s name im cols at_
      (printed (byName s key name (cols.map fun c => .name c.name) (at_.map Num.flt))) := by
  obtain ⟨cats, h1, h2, h3⟩ := byName_prints s im him key name cols at_ hname hinj
  refine ⟨cats, h1, h2, _, h3, ?_⟩
  intro x m σ hm
  refine ⟨fun n => ((s.groups.filter fun g => name g = some (some n)).map m).sum, ?_, fun n => rfl, ?_⟩
  · intro n
    exact sumOf_mean _ x m σ fun g hg => hm g (List.mem_filter.1 hg).1
  · refine sum_by_category _ cats (h1.imp fun h => ne_of_lt h) name ?_ m
    intro g hg
    obtain ⟨n, hn⟩ := hname g hg
    exact ⟨n, (h2 n).2 ⟨g, hg, hn⟩, hn⟩

/-- **C64.** Costs by demand, if the EDPs of the groups have names of their own. -/
theorem costs_by_edp_partial (s : StructObj) (im : String) (him : s.imId = some im) (o : Opts)
    (ho : o.structType = some .byEdp) (cols : List CostColumn) (hc : cols ≠ []) (at_ : List Dbl)
    (hname : ∀ g ∈ s.groups, ∃ n, g.edpName = some (some n))
    (hinj : ∀ g ∈ s.groups, ∀ h ∈ s.groups, g.edpName = h.edpName ↔ g.edpKey = h.edpKey) :
    ∃ r, make .structcost (.struct s) o (some (cols.map fun c => .name c.name))
        (some (at_.map Num.flt)) = .ok r ∧
      AddsUp s GroupObj.edpName im cols at_ (printed (output r)) := by
  refine ⟨_, make_costs s o _ ho _ (by simpa using hc) _, ?_⟩
  simp only [output, structOutput, ho, Option.getD_some]
  exact byName_addsUp s im him _ _ cols at_ hname hinj

/-- **C64.** Costs by fragility function, if the fragility functions of the groups have names of their own. -/
theorem costs_by_fragility_partial (s : StructObj) (im : String) (him : s.imId = some im) (o : Opts)
    (ho : o.structType = some .byFrag) (cols : List CostColumn) (hc : cols ≠ []) (at_ : List Dbl)
    (hname : ∀ g ∈ s.groups, ∃ n, g.fragName = some (some n))
    (hinj : ∀ g ∈ s.groups, ∀ h ∈ s.groups, g.fragName = h.fragName ↔ g.fragKey = h.fragKey) :
    ∃ r, make .structcost (.struct s) o (some (cols.map fun c => .name c.name))
        (some (at_.map Num.flt)) = .ok r ∧
      AddsUp s GroupObj.fragName im cols at_ (printed (output r)) := by
  refine ⟨_, make_costs s o _ ho _ (by simpa using hc) _, ?_⟩
  simp only [output, structOutput, ho, Option.getD_some]
  exact byName_addsUp s im him _ _ cols at_ hname hinj

theorem byName_collision (s : StructObj) (im : String) (him : s.imId = some im) (key : GroupObj → ℕ)
    (name : GroupObj → Option (Option String)) (g1 g2 : GroupObj) (hs : s.groups = [g1, g2])
    (hk : key g1 < key g2) (h1 : name g1 = some none) (h2 : name g2 = some none)
    (cols : List CostColumn) (at_ : List Dbl) :
    printed (byName s key name (cols.map fun c => .name c.name) (at_.map Num.flt)) =
      (costTable im ["None"] cols at_ fun _ => sumOf [g2], none) := by
  have hcomp : components key s.groups = [[g1], [g2]] := by
    rw [hs]
    simp [components, collect, mapPush, setInsert, mapGet, hk, hk.ne, not_lt_of_gt hk]
  have hb : byName s key name (cols.map fun c => .name c.name) (at_.map Num.flt) =
      categoryTable im (["None"].map fun n => (n, (fun _ => sumOf [g2]) n))
        (cols.map fun c => .name c.name) (at_.map Num.flt) := by
    simp only [byName, hcomp, groupsByName, h1, h2, dictSet, if_true, bind, Except.bind, Obj.imId, him,
      List.map_cons, List.map_nil, sortNames, List.length_singleton, lt_irrefl, false_and, if_false,
      lines, pure, Except.pure, List.mergeSort_singleton, pyText, dictGet]
  rw [hb]
  exact categoryTable_prints im ["None"] cols at_ _

/-- **C64.** Two fragility functions made without a name share a category, in which only the second is
counted. -/
theorem costs_by_fragility_fails (s : StructObj) (im : String) (him : s.imId = some im) (o : Opts)
    (ho : o.structType = some .byFrag) (g1 g2 : GroupObj) (hs : s.groups = [g1, g2])
    (hk : g1.fragKey < g2.fragKey) (h1 : g1.fragName = some none) (h2 : g2.fragName = some none)
    (x : Dbl) (m σ : GroupObj → ℝ) (h0 : 0 < m g1)
    (hm : ∀ g ∈ s.groups, 0 ≤ m g ∧ g.eCostIm x = .fin (m g) ∧ g.sdLnCostIm x = .fin (σ g)) :
    ∃ r c, make .structcost (.struct s) o (some [.name "mean_x"]) (some [.flt x]) = .ok r ∧
      printed (output r) = ([[.text im, .text "None.mean_x"], [.num x, .num (.fin c)]], none) ∧
      c < (s.groups.map m).sum := by
  refine ⟨_, m g2, make_costs s o _ ho _ (by simp) _, ?_, by simp [hs, h0]⟩
  simp only [output, structOutput, ho, Option.getD_some]
  have := byName_collision s im him GroupObj.fragKey GroupObj.fragName g1 g2 hs hk h1 h2 [.mean] [x]
  simp only [List.map_cons, List.map_nil, CostColumn.name] at this
  rw [this]
  have hm2 := sumOf_mean [g2] x m σ (fun g hg => hm g (by rw [hs]; exact List.mem_cons_of_mem _ hg))
  simp [costTable, CostColumn.of, CostColumn.name, hm2]

/-- **C64.** Costs by fate: three blocks of columns, whose means are numbers adding up to the mean that
the `totalcost` recorder prints. -/
theorem costs_by_fate_partial (s : StructObj) (im : String) (him : s.imId = some im) (o o' : Opts)
    (ho : o.structType = some .byFate) (cols : List CostColumn) (hc : cols ≠ []) (at_ : List Dbl)
    (sc : StructCosts) (hf : s.costsByFate = sc.costsByFate)
    (ht : ∀ x, ∀ t, sc.totalCost x = some t → s.totalCost x = t) :
    ∃ r r', make .structcost (.struct s) o (some (cols.map fun c => .name c.name))
        (some (at_.map Num.flt)) = .ok r ∧
      make .totalcost (.struct s) o' (some [.name "mean_x"]) (some (at_.map Num.flt)) = .ok r' ∧
    ∃ d : String → Dbl → LogNormalDist,
      printed (output r) = (costTable im ["repair", "demo", "coll"] cols at_ d, none) ∧
    ∃ t : Dbl → Dbl, printed (output r') =
        ([.text im, .text "mean_x"] :: at_.map fun x => [.num x, .num (t x)], none) ∧
    ∀ (x : ℝ) (c dm : Option (ℝ × ℝ)) (ms : List (ℝ × ℝ)), (∀ p ∈ c, 0 < p.2) → (∀ p ∈ dm, 0 < p.2) →
      0 ≤ x → (dm = none ∨ trigger c x ≤ trigger dm x) → sc.im = some ⟨dist c, dist dm⟩ →
      (∀ g ∈ sc.comps (.fin x), g.Proper) → ReportsAll (sc.comps (.fin x)) ms →
      sc.demolition.Proper → sc.rebuild.Proper →
      ∃ m1 m2 m3 : ℝ, (d "repair" (.fin x)).getMean = .fin m1 ∧ (d "demo" (.fin x)).getMean = .fin m2 ∧
        (d "coll" (.fin x)).getMean = .fin m3 ∧ t (.fin x) = .fin (m1 + m2 + m3) := by
  obtain ⟨r', hr', hp'⟩ := prints_table_partial .totalcost (.struct s) o' (some [.name "mean_x"]) at_ _
    trivial (by simp only [Spec.table, Spec.argument, him, Spec.columns, Spec.chosen, Spec.ofDist,
      Spec.named, Option.getD_some]; rfl) (by simp) (by simp)
  let d : String → Dbl → LogNormalDist := fun n x =>
    if n = "repair" then (s.costsByFate x).1
    else if n = "demo" then (s.costsByFate x).2.1 else (s.costsByFate x).2.2
  refine ⟨_, r', make_costs s o _ ho _ (by simpa using hc) _, hr', d, ?_, _, hp', ?_⟩
  · simp only [output, structOutput, ho, Option.getD_some, Obj.imId, him, bind, Except.bind, lines, pure,
      Except.pure]
    exact categoryTable_prints im ["repair", "demo", "coll"] cols at_ d
  · intro x c dm ms h1 h2 h3 h4 h5 h6 h7 h8 h9
    obtain ⟨m1, m2, m3, m, t, a1, a2, a3, a4, a5, rfl⟩ :=
      StructCosts.costs_by_fate_sum sc c dm h1 h2 x h3 h4 h5 ms h6 h7 h8 h9
    refine ⟨m1, m2, m3, ?_, ?_, ?_, ?_⟩
    · simpa [d, hf] using a3
    · simpa [d, hf] using a4
    · simpa [d, hf] using a5
    · show (s.totalCost (.fin x)).getMean = _
      rw [ht _ _ a1, a2]

theorem categoryTable_typeError (xl : String) (d : String × (Dbl → LogNormalDist))
    (l : List (String × (Dbl → LogNormalDist))) (c : String) (hc : c = "mean_ln_x" ∨ c = "median_x")
    (x : Dbl) (at_ : List Num) :
    printed (categoryTable xl (d :: l) [.name c] (.flt x :: at_)) =
      ([.text xl :: (d :: l).map fun n => .text (n.1 ++ "." ++ c)], some .typeError) := by
  have hh : ((d :: l).map fun n => [Col.name c].map (joined n.1)).flatten =
      (d :: l).map fun n => .text (n.1 ++ "." ++ c) := by
    generalize d :: l = k
    induction k with
    | nil => rfl
    | cons a k ih => rw [List.map_cons, List.flatten_cons, ih]; rfl
  unfold categoryTable
  rw [printed_head, hh]
  rcases hc with rfl | rfl <;> rfl

/-- **C64.** The median and the mean of the logarithm, which the language offers, cannot be recorded by fate:
after the headings, the first line stops with a `TypeError`. -/
theorem cost_columns_fails (s : StructObj) (im : String) (him : s.imId = some im) (o : Opts)
    (ho : o.structType = some .byFate) (c : String) (hc : c = "mean_ln_x" ∨ c = "median_x")
    (x : Dbl) (at_ : List Num) :
    ∃ r, make .structcost (.struct s) o (some [.name c]) (some (.flt x :: at_)) = .ok r ∧
      printed (output r) = ([[.text im, .text ("repair." ++ c), .text ("demo." ++ c),
        .text ("coll." ++ c)]], some .typeError) := by
  refine ⟨_, make_costs s o _ ho _ (by simp) _, ?_⟩
  simp only [output, structOutput, ho, Option.getD_some, Obj.imId, him, bind, Except.bind, lines, pure,
    Except.pure]
  rw [categoryTable_typeError im _ _ c hc x at_]
  rfl

/-! ## Examples -/

/-- A group with a mean cost of `m` at every intensity. -/
def costGroup (m : ℝ) (e f : ℕ) (en fn : Option String) : GroupObj where
  imId := "im"
  onsets := []
  eCostEdp := fun _ => .fin m
  sdLnCostEdp := fun _ => .fin (1/2)
  eCostIm := fun _ => .fin m
  sdLnCostIm := fun _ => .fin (1/2)
  eDelayEdp := fun _ => 0
  sdLnDelayEdp := fun _ => 0
  eDelayIm := fun _ => 0
  sdLnDelayIm := fun _ => 0
  pDsIm := fun _ => []
  rate := []
  lambdaCost := fun _ => 0
  edpKey := e
  fragKey := f
  edpName := some en
  fragName := some fn

/-- Three groups on two demands; the fragility functions of the last two have no names. -/
def costStruct : StructObj where
  imId := some "im"
  groups := [costGroup 2 7 1 (some "drift") (some "a"), costGroup 3 5 2 (some "accel") none,
    costGroup 4 7 3 (some "drift") none]
  totalCost := fun x => (StructCosts.exampleStructure.totalCost x).getD LogNormalDist.unset
  annualCost := ofMeanSigmaLn (.fin 3) (.fin (1/2))
  costsByFate := StructCosts.exampleStructure.costsByFate
  eCost := fun _ _ => 0
  pdf := fun _ => 1

/-- By demand, the table has columns for `accel` and `drift`. -/
example : ∃ r cats, make .structcost (.struct costStruct) { structType := some .byEdp }
      (some [.name "mean_x"]) (some [.flt 1]) = .ok r ∧ cats = ["accel", "drift"] ∧
    ∃ d, printed (output r) = (costTable "im" cats [.mean] [1] d, none) ∧
      (d "accel" 1).getMean = .fin 3 ∧ (d "drift" 1).getMean = .fin 6 := by
  obtain ⟨r, hr, cats, h1, h2, d, h3, h4⟩ := costs_by_edp_partial costStruct "im" rfl
    { structType := some .byEdp } rfl [.mean] (by simp) [1]
    (by intro g hg; simp [costStruct] at hg; rcases hg with rfl | rfl | rfl <;> exact ⟨_, rfl⟩)
    (by
      intro g hg h hh
      simp [costStruct] at hg hh
      rcases hg with rfl | rfl | rfl <;> rcases hh with rfl | rfl | rfl <;>
        simp [costGroup])
  refine ⟨r, cats, hr, ?_, d, h3, ?_⟩
  · have hm : ∀ n, n ∈ cats ↔ n ∈ ["accel", "drift"] := by
      intro n
      rw [h2]
      simp only [costStruct, costGroup, List.mem_cons, List.not_mem_nil, or_false, exists_eq_or_imp,
        exists_eq_left, Option.some.injEq]
      constructor
      · rintro (rfl | rfl | rfl) <;> simp
      · rintro (rfl | rfl) <;> simp
    refine List.Perm.eq_of_pairwise (le := (· < ·)) (fun a b _ _ h1 h2 => absurd h2 (lt_asymm h1)) h1
      (by decide) ((List.perm_ext_iff_of_nodup (h1.imp fun h => ne_of_lt h) (by decide)).2 hm)
  · obtain ⟨c, k1, k2, -⟩ := h4 1 (fun g => g.fragKey + 1) (fun _ => 1/2) (by
      intro g hg
      simp [costStruct] at hg
      rcases hg with rfl | rfl | rfl <;> norm_num [costGroup])
    rw [k1, k1, k2, k2]
    have h1 : ("drift" : String) ≠ "accel" := by decide
    norm_num [costStruct, costGroup, List.filter_cons, h1, h1.symm]

/-- By fragility function, a structure of the first group and a similar one with other fragility function. -/
example : ∃ r, make .structcost (.struct { costStruct with groups :=
      [costGroup 2 7 1 (some "drift") (some "a"), costGroup 3 7 2 (some "drift") (some "b")] })
      { structType := some .byFrag } (some [.name "mean_x"]) (some [.flt 1]) = .ok r ∧
    AddsUp { costStruct with groups :=
      [costGroup 2 7 1 (some "drift") (some "a"), costGroup 3 7 2 (some "drift") (some "b")] }
      GroupObj.fragName "im" [.mean] [1] (printed (output r)) :=
  costs_by_fragility_partial _ "im" rfl { structType := some .byFrag } rfl [.mean] (by simp) [1]
    (by intro g hg; simp at hg; rcases hg with rfl | rfl <;> exact ⟨_, rfl⟩)
    (by
      intro g hg h hh
      simp at hg hh
      rcases hg with rfl | rfl <;> rcases hh with rfl | rfl <;> simp [costGroup])

/-- The last two groups together cost 7; the recorder prints less. -/
example : ∃ r c, make .structcost (.struct { costStruct with groups := costStruct.groups.drop 1 })
      { structType := some .byFrag } (some [.name "mean_x"]) (some [.flt 1]) = .ok r ∧
    printed (output r) = ([[.text "im", .text "None.mean_x"], [.num 1, .num (.fin c)]], none) ∧ c < 7 := by
  obtain ⟨r, c, h1, h2, h3⟩ := costs_by_fragility_fails
    { costStruct with groups := costStruct.groups.drop 1 } "im" rfl { structType := some .byFrag } rfl
    (costGroup 3 5 2 (some "accel") none) (costGroup 4 7 3 (some "drift") none) rfl
    (by simp [costGroup]) rfl rfl 1 (fun g => g.fragKey + 1) (fun _ => 1/2) (by norm_num [costGroup]) (by
      intro g hg
      simp [costStruct] at hg
      rcases hg with rfl | rfl <;> norm_num [costGroup])
  refine ⟨r, c, h1, h2, ?_⟩
  norm_num [costStruct, costGroup] at h3
  exact h3

/-- The example of `StructureProps` with a demolition cost, as demolition is never considered there. -/
def demoCosts : StructCosts where
  comps := StructCosts.exampleStructure.comps
  im := StructCosts.exampleStructure.im
  rebuild := StructCosts.exampleStructure.rebuild
  demolition := ofMeanSigma (.fin 20) (.fin 4)

/-- A structure with these costs. -/
def demoStruct : StructObj where
  imId := some "im"
  groups := costStruct.groups
  totalCost := fun x => (demoCosts.totalCost x).getD LogNormalDist.unset
  annualCost := ofMeanSigmaLn (.fin 3) (.fin (1/2))
  costsByFate := demoCosts.costsByFate
  eCost := fun _ _ => 0
  pdf := fun _ => 1

example : ∃ r, make .structcost (.struct demoStruct) { structType := some .byFate }
      (some [.name "mean_x"]) (some [.flt (.fin 1)]) = .ok r ∧
    ∃ d, printed (output r) = (costTable "im" ["repair", "demo", "coll"] [.mean] [.fin 1] d, none) ∧
    ∃ m1 m2 m3 : ℝ, (d "repair" (.fin 1)).getMean = .fin m1 ∧ (d "demo" (.fin 1)).getMean = .fin m2 ∧
        (d "coll" (.fin 1)).getMean = .fin m3 := by
  obtain ⟨r, r', h1, -, d, h2, t, -, h3⟩ := costs_by_fate_partial demoStruct "im" rfl
    { structType := some .byFate } {} rfl [.mean] (by simp) [.fin 1] demoCosts rfl
    (fun x t h => by simp only [demoStruct, h, Option.getD_some])
  refine ⟨r, h1, d, h2, ?_⟩
  obtain ⟨m1, m2, m3, k1, k2, k3, -⟩ := h3 1 (some (1, 1/2)) none [(2, 1), (3, 2)] (by simp) (by simp)
    (by norm_num) (Or.inl rfl) rfl StructCosts.example_comps.1 StructCosts.example_comps.2
    (StructCosts.proper_const 20 4 (by norm_num) (by norm_num)).1
    (StructCosts.proper_const 100 10 (by norm_num) (by norm_num)).1
  exact ⟨m1, m2, m3, k1, k2, k3⟩

example : ∃ r, make .structcost (.struct costStruct) { structType := some .byFate } (some [.name "median_x"])
      (some [.flt 1]) = .ok r ∧ printed (output r) = ([[.text "im", .text "repair.median_x",
        .text "demo.median_x", .text "coll.median_x"]], some .typeError) :=
  cost_columns_fails costStruct "im" rfl { structType := some .byFate } rfl "median_x" (.inr rfl) 1 []

end

end Slat.Rec
