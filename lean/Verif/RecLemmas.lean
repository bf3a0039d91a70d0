import Verif.RecSpec

/-!
# Lemmas about the recorders
-/

namespace Slat.Rec

open Spec

noncomputable section

theorem printed_ok (l : List Row) : printed (l.map .ok) = (l, none) := by
  induction l with
  | nil => rfl
  | cons a l ih => simp [printed, ih]

theorem printed_head (h : Row) (l : List (Except PyErr Row)) :
    printed (.ok h :: l) = (h :: (printed l).1, (printed l).2) := rfl

theorem printed_map_ok {α : Type} (l : List α) (f : α → Except PyErr Row) (g : α → Row)
    (h : ∀ a ∈ l, f a = .ok (g a)) : printed (l.map f) = (l.map g, none) := by
  rw [List.map_congr_left h, ← printed_ok, List.map_map]; rfl

theorem fields_ok {α : Type} (f : α → Except PyErr Cell) (g : α → Cell) (l : List α)
    (h : ∀ a ∈ l, f a = .ok (g a)) : fields f l = .ok (l.map g) := by
  induction l with
  | nil => rfl
  | cons a l ih =>
    simp only [fields, h a List.mem_cons_self, ih fun b hb => h b (List.mem_cons_of_mem _ hb)]
    rfl

/-- The text of a heading. -/
def headCell : Col → Cell
  | .name s => .text s
  | .prob (.flt p) => .num p
  | .prob (.int z) => .int z

theorem fmt_label (c : Col) : fmt c.label = .ok (headCell c) := by
  rcases c with s | (p | z) <;> rfl

theorem chosen_spec (f : Col → Option (Dbl → Dbl)) (l : List Col) (cs : List (Cell × (Dbl → Dbl)))
    (h : chosen f l = some cs) :
    cs.map Prod.fst = l.map headCell ∧ (∀ c ∈ l, (f c).isSome) ∧
      ∀ x, cs.map (fun c => Cell.num (c.2 x)) = l.map (fun c => Cell.num (((f c).getD id) x)) := by
  induction l generalizing cs with
  | nil => simp only [chosen, Option.some.injEq] at h; subst h; simp
  | cons c l ih =>
    simp only [chosen, Option.bind_eq_bind] at h
    cases hf : f c with
    | none => rw [hf] at h; simp at h
    | some v =>
      cases hc : chosen f l with
      | none => rw [hf, hc] at h; simp at h
      | some vs =>
        rw [hf, hc] at h
        simp only [Option.bind_some, Option.pure_def, Option.some.injEq] at h
        subst h
        obtain ⟨h1, h2, h3⟩ := ih vs hc
        refine ⟨?_, ?_, ?_⟩
        · simp only [List.map_cons, h1]
          rcases c with s | (p | z) <;> rfl
        · intro d hd
          rcases List.mem_cons.1 hd with rfl | hd
          · simp [hf]
          · exact h2 d hd
        · intro x; simp [h3 x, hf]

theorem getD_map_ofList (p : List Dbl) :
    (List.range p.length).map (fun i => Cell.num (p.getD i .nan)) = p.map Cell.num := by
  apply List.ext_getElem <;> simp +contextual

/-- What the loop over the columns prints if each column has a value. -/
theorem lineAt_columns (r : Recorder) (cols : List Col) (hc : r.columns = some cols)
    (hk : r.kind ≠ .dsedp ∧ r.kind ≠ .dsim ∧ r.kind ≠ .costrate ∧ r.kind ≠ .deagg)
    (f : Col → Dbl → Dbl) (x : Dbl)
    (h : ∀ c ∈ cols, colValue r.kind r.fn x c = .ok (ret (f c x))) :
    lineAt r (.flt x) = .ok (.num x :: cols.map fun c => .num (f c x)) := by
  obtain ⟨h1, h2, h3, h4⟩ := hk
  have : fields (fun c => do fmt6 (← colValue r.kind r.fn x c)) cols =
      .ok (cols.map fun c => Cell.num (f c x)) :=
    fields_ok _ _ _ fun c hc => by rw [h c hc]; rfl
  unfold lineAt
  split
  · contradiction
  · contradiction
  · contradiction
  · contradiction
  · rw [hc]
    simp only [Num.toDbl]
    rw [this]
    rfl

/-- The kinds of which a line is a loop over columns. -/
def ByColumns (k : Kind) : Prop :=
  k = .probfn ∨ k = .costedp ∨ k = .costim ∨ k = .delayedp ∨ k = .delayim ∨ k = .totalcost

theorem fields_header (x0 : String) (cols : List Col) :
    fields fmt (.str x0 :: cols.map Col.label) = .ok (.text x0 :: cols.map headCell) := by
  have : fields fmt (cols.map Col.label) = .ok (cols.map headCell) := by
    induction cols with
    | nil => rfl
    | cons c cs ih => simp only [List.map_cons, fields, fmt_label, ih]; rfl
  simp only [fields, this]; rfl

/-- The output of these kinds. -/
theorem printed_byColumns (k : Kind) (fn : Obj) (o : Opts) (cols : List Col) (at_ : List Dbl)
    (x0 : String) (f : Col → Dbl → Dbl) (hk : ByColumns k) (hx : xLabel k fn = .ok (.str x0))
    (hv : ∀ x, ∀ c ∈ cols, colValue k fn x c = .ok (ret (f c x))) :
    printed (output ⟨k, fn, o, some cols, at_.map Num.flt⟩) =
      ((.text x0 :: cols.map headCell) :: at_.map fun x => .num x :: cols.map fun c => .num (f c x),
        none) := by
  have hh : header ⟨k, fn, o, some cols, at_.map Num.flt⟩ = .ok (.text x0 :: cols.map headCell) := by
    have hy : yLabels k (some cols) = .ok (cols.map Col.label) := by
      rcases hk with rfl | rfl | rfl | rfl | rfl | rfl <;> rfl
    show (do let x ← xLabel k fn; let ys ← yLabels k (some cols); fields fmt (x :: ys)) = _
    rw [hx, hy]
    exact fields_header x0 cols
  have ho : output ⟨k, fn, o, some cols, at_.map Num.flt⟩ =
      .ok (.text x0 :: cols.map headCell) ::
        (at_.map Num.flt).map (lineAt ⟨k, fn, o, some cols, at_.map Num.flt⟩) := by
    rcases hk with rfl | rfl | rfl | rfl | rfl | rfl <;> simp [output, baseOutput, hh]
  rw [ho, printed_head, List.map_map]
  rw [printed_map_ok at_ _ fun x => Cell.num x :: cols.map fun c => Cell.num (f c x)]
  intro x _
  refine lineAt_columns _ cols rfl ?_ f x (hv x)
  rcases hk with rfl | rfl | rfl | rfl | rfl | rfl <;> simp

theorem make_base (k : Kind) (fn : Obj) (o : Opts) (cols cols' : Option (List Col)) (at_ : List Num)
    (hk : k ≠ .structcost) (h : defaultColumns k fn cols = .ok cols') :
    make k fn o cols (some at_) = .ok ⟨k, fn, o, cols', at_⟩ := by
  simp only [make, hk, if_false, mkBase, Option.isNone_some, Bool.false_eq_true, false_and, h,
    Option.getD_some]
  rfl

/-- The kinds with columns: the table of the specification is what the loop prints. -/
theorem prints_columns (k : Kind) (fn : Obj) (o : Opts) (cols dflt : List Col)
    (ocols : Option (List Col)) (at_ : List Dbl) (x0 : String) (f : Col → Option (Dbl → Dbl))
    (cs : List (Cell × (Dbl → Dbl))) (hk : ByColumns k) (hx : xLabel k fn = .ok (.str x0))
    (hd : defaultColumns k fn ocols = .ok (some (ocols.getD dflt))) (hcols : cols = ocols.getD dflt)
    (hc : chosen f cols = some cs)
    (hv : ∀ x c v, f c = some v → colValue k fn x c = .ok (ret (v x))) :
    ∃ r, make k fn o ocols (some (at_.map Num.flt)) = .ok r ∧
      printed (output r) =
        ((.text x0 :: cs.map Prod.fst) :: at_.map fun a => .num a :: cs.map fun c => .num (c.2 a),
          none) := by
  obtain ⟨h1, h2, h3⟩ := chosen_spec f cols cs hc
  subst hcols
  refine ⟨_, make_base k fn o ocols _ _ ?_ hd, ?_⟩
  · rcases hk with rfl | rfl | rfl | rfl | rfl | rfl <;> simp
  rw [printed_byColumns k fn o (ocols.getD dflt) at_ x0 (fun c => (f c).getD id) hk hx ?_, h1]
  · simp only [h3]
  · intro x c hc
    obtain ⟨v, hfv⟩ := Option.isSome_iff_exists.1 (h2 c hc)
    rw [hv x c v hfv, hfv]; rfl

theorem ofDist_value (s : StructObj) (x : Dbl) (c : Col) (v : Dbl → Dbl)
    (h : ofDist s.totalCost c = some v) : colValue .totalcost (.struct s) x c = .ok (ret (v x)) := by
  rcases c with c | p
  · simp only [ofDist, named, List.lookup] at h
    repeat' split at h
    all_goals simp_all [colValue, meanOf, meanLnOf, medianOf, sdLnOf, sdOf, totalOf]
    all_goals subst h; rfl
  · simp [ofDist] at h

theorem moment_value (k : Kind) (g : GroupObj) (m sd : Dbl → Dbl) (x : Dbl) (c : Col) (v : Dbl → Dbl)
    (hm : meanOf k (.group g) x = .ok (ret (m x))) (hs : sdLnOf k (.group g) x = .ok (ret (sd x)))
    (h : moment m sd c = some v) : colValue k (.group g) x c = .ok (ret (v x)) := by
  rcases c with c | p
  · simp only [moment, List.lookup] at h
    repeat' split at h
    all_goals simp_all [colValue]
  · simp [moment] at h

/-- The columns of `edpim` that work. -/
theorem edpimColumns_ok (e : EdpObj) (ats : List Dbl) (l : List Col)
    (hl : ∀ c ∈ l, c = .name "mean_x" ∨ c = .name "sd_ln_x") :
    edpimColumns (.edp e) ats l =
      .ok (l.map fun c => ats.map ((statistic e.stats c).getD id)) := by
  induction l with
  | nil => rfl
  | cons c l ih =>
    have ih := ih fun d hd => hl d (List.mem_cons_of_mem _ hd)
    rcases hl c List.mem_cons_self with rfl | rfl <;>
    · simp only [edpimColumns, ih]; rfl

theorem foldl_min_const {α : Type} (l : List α) (n : ℕ) (f : α → List Dbl)
    (h : ∀ a ∈ l, (f a).length = n) :
    (l.map f).foldl (fun k l => min k l.length) n = n := by
  induction l with
  | nil => rfl
  | cons a l ih =>
    simp only [List.map_cons, List.foldl_cons, h a List.mem_cons_self, min_self]
    exact ih fun b hb => h b (List.mem_cons_of_mem _ hb)

/-- The rows of columns of equal length. -/
theorem zipColumns_map (ats : List Dbl) (l : List Col) (f : Col → Dbl → Dbl) (hl : l ≠ []) :
    zipColumns ats.length (l.map fun c => ats.map (f c)) = ats.map fun x => l.map fun c => f c x := by
  have hne : (l.map fun c => ats.map (f c)) ≠ [] := by simpa using hl
  unfold zipColumns
  rw [if_neg hne, foldl_min_const l ats.length _ (by simp)]
  apply List.ext_getElem
  · simp
  · intro i h1 h2
    simp only [List.length_map, List.length_range] at h1
    simp [h1]

theorem printed_zip {α : Type} (l : List α) (f : α → Num) (g : α → List Dbl) (h : α → Dbl)
    (hf : ∀ a, f a = .flt (h a)) :
    printed (((l.map f).zip (l.map g)).map fun p => numRow p.1 p.2) =
      (l.map fun a => .num (h a) :: (g a).map .num, none) := by
  have : (l.map f).zip (l.map g) = l.map fun a => (f a, g a) := by
    induction l with
    | nil => rfl
    | cons a l ih => simp [ih]
  rw [this, List.map_map]
  exact printed_map_ok l _ _ fun a _ => by simp only [Function.comp, hf]; rfl

theorem pySum_ne (l : List Dbl) (h : l ≠ []) : pySum l = .flt (l.foldl (· + ·) 0) := by
  cases l with
  | nil => contradiction
  | cons a l => rfl

theorem dsRow_ok (x : Dbl) (ys : List Dbl) (h : ys ≠ []) :
    dsRow (.flt x) ys = .ok (.num x :: ys.map .num ++ [.num (ys.foldl (· + ·) 0)]) := by
  unfold dsRow
  rw [pySum_ne ys h]
  rfl

theorem stateColumns_fst (n : ℕ) (p : Dbl → List Dbl) :
    (stateColumns n p).map Prod.fst = (dsColumns n).map headCell := by
  simp [stateColumns, dsColumns, headCell]

theorem stateColumns_snd (n : ℕ) (p : Dbl → List Dbl) (x : Dbl) (h : (p x).length = n) :
    (stateColumns n p).map (fun c => Cell.num (c.2 x)) =
      (p x).map .num ++ [.num ((p x).foldl (· + ·) 0)] := by
  subst h
  simp only [stateColumns, List.map_append, List.map_map, List.map_cons, List.map_nil]
  congr 1
  rw [← getD_map_ofList]
  rfl

/-- The damage states. -/
theorem prints_states (k : Kind) (g : GroupObj) (o : Opts) (at_ : List Dbl) (x0 : String)
    (p : Dbl → List Dbl) (hk : k = .dsedp ∨ k = .dsim) (hx : xLabel k (.group g) = .ok (.str x0))
    (hl : ∀ r x, r.kind = k → r.fn = .group g → lineAt r (.flt x) = dsRow (.flt x) (p x))
    (hn : g.onsets ≠ []) (hp : ∀ x, (p x).length = g.onsets.length) :
    ∃ r, make k (.group g) o none (some (at_.map Num.flt)) = .ok r ∧
      printed (output r) =
        ((.text x0 :: (stateColumns g.onsets.length p).map Prod.fst) ::
          at_.map fun a => .num a :: (stateColumns g.onsets.length p).map fun c => .num (c.2 a),
          none) := by
  have hm := make_base k (.group g) o none (some (dsColumns g.onsets.length)) (at_.map Num.flt)
    (by rcases hk with rfl | rfl <;> simp) (by rcases hk with rfl | rfl <;> rfl)
  refine ⟨_, hm, ?_⟩
  have hh : header ⟨k, .group g, o, some (dsColumns g.onsets.length), at_.map Num.flt⟩ =
      .ok (.text x0 :: (dsColumns g.onsets.length).map headCell) := by
    have hy : yLabels k (some (dsColumns g.onsets.length)) =
        .ok ((dsColumns g.onsets.length).map Col.label) := by
      rcases hk with rfl | rfl <;> rfl
    show (do let x ← xLabel k (.group g); let ys ← yLabels k (some (dsColumns g.onsets.length))
             fields fmt (x :: ys)) = _
    rw [hx, hy]
    exact fields_header x0 _
  have ho : output ⟨k, .group g, o, some (dsColumns g.onsets.length), at_.map Num.flt⟩ =
      .ok (.text x0 :: (dsColumns g.onsets.length).map headCell) :: (at_.map Num.flt).map
        (lineAt ⟨k, .group g, o, some (dsColumns g.onsets.length), at_.map Num.flt⟩) := by
    rcases hk with rfl | rfl <;> simp [output, baseOutput, hh]
  rw [ho, printed_head, List.map_map, stateColumns_fst]
  rw [printed_map_ok at_ _ fun a =>
    .num a :: (stateColumns g.onsets.length p).map fun c => .num (c.2 a)]
  intro a _
  have hne : p a ≠ [] := by
    intro h0
    have := hp a
    rw [h0] at this
    exact hn (List.length_eq_zero_iff.1 this.symm)
  simp only [Function.comp]
  rw [hl _ a rfl rfl, dsRow_ok a (p a) hne, stateColumns_snd _ _ _ (hp a)]
  rfl

theorem prints_lines (r : Recorder) (h : Row) (at_ : List Dbl) (f : Num → Except PyErr Row)
    (g : Dbl → Row) (ho : output r = .ok h :: (at_.map Num.flt).map f)
    (hf : ∀ a, f (.flt a) = .ok (g a)) : printed (output r) = (h :: at_.map g, none) := by
  rw [ho, printed_head, List.map_map, printed_map_ok at_ (f ∘ Num.flt) g fun a _ => hf a]

theorem prints_zip (x : Cell) (hs : Row) (at_ : List Dbl) (g : Dbl → List Dbl) :
    printed (.ok (x :: hs) :: at_.map fun a => numRow (.flt a) (g a)) =
      ((x :: hs) :: at_.map fun a => .num a :: (g a).map .num, none) := by
  rw [printed_head, printed_map_ok at_ (fun a => numRow (.flt a) (g a))
    (fun a => .num a :: (g a).map .num) fun a _ => rfl]

theorem make_base_ok (k : Kind) (fn : Obj) (o : Opts) (cols : Option (List Col))
    (at_ : Option (List Num)) (r : Recorder) (hk : k ≠ .structcost) (h : make k fn o cols at_ = .ok r) :
    ∃ cols', defaultColumns k fn cols = .ok cols' ∧ r = ⟨k, fn, o, cols', at_.getD []⟩ ∧
      (at_ = none → k = .dsrate ∨ k = .collrate) := by
  simp only [make, hk, if_false, mkBase] at h
  split at h
  · simp at h
  · rename_i hn
    cases hd : defaultColumns k fn cols with
    | error e => rw [hd] at h; simp [bind, Except.bind] at h
    | ok cols' =>
      rw [hd] at h
      simp only [bind, Except.bind, pure, Except.pure, Except.ok.injEq] at h
      refine ⟨cols', rfl, h.symm, fun ha => ?_⟩
      subst ha
      simp at hn
      by_contra hc
      push Not at hc
      exact hk (hn hc.1 hc.2)

theorem make_struct_ok (fn : Obj) (o : Opts) (cols : Option (List Col))
    (at_ : Option (List Num)) (r : Recorder) (h : make .structcost fn o cols at_ = .ok r) :
    ∃ t cs, o.structType = some t ∧ r = ⟨.structcost, fn, o, some cs, at_.getD []⟩ ∧ cs ≠ [] ∧
      (t ≠ .annual → at_ ≠ none) := by
  simp only [make, if_true] at h
  split at h
  · simp at h
  · rename_i t ht
    split at h
    · simp at h
    · rename_i hn
      rw [mkBase, if_neg (by simp)] at h
      refine ⟨t, _, ht, (Except.ok.inj h).symm, ?_, ?_⟩
      · rcases cols with _ | (_ | ⟨c, cs⟩) <;> simp
      · intro h1 h2
        exact hn ⟨h1, by simp [h2]⟩

end

end Slat.Rec
