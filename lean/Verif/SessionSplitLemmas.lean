import Verif.SessionSplitSpec
import Verif.SessionStructSample
import Verif.SessionNames

/-!
# Helper lemmas: the costs of a structure by demand and by fragility function
-/

namespace Slat.Session

open MeasureTheory Set Filter Topology

noncomputable section

open Interp (Val Call Cmd Cfg Err Mu Sd DistCmd Sc)
open Output (Path Files)

/-- A sum of lognormal costs. -/
theorem add_lognormals {l : List (ℝ × ℝ)} (hp : ∀ v ∈ l, 0 ≤ v.1) :
    LogNormalDist.addDistributions (l.map fun v => lognormal v.1 (Spec.squareFor v)) =
      lognormal (Spec.sumOf l).1 (Spec.sumOf l).2 ∧ Moments (Spec.sumOf l).1 (Spec.sumOf l).2 := by
  have hall : LogNormalDist.ReportsAll (l.map fun v => lognormal v.1 (Spec.squareFor v))
      (l.map fun v => (v.1, Real.sqrt (Spec.squareFor v - v.1 ^ 2))) := by
    rw [LogNormalDist.ReportsAll, List.forall₂_map_left_iff, List.forall₂_map_right_iff]
    exact List.forall₂_same.2 fun v hv => (lognormal_reports (squareFor_moments (hp v hv))).2
  have em : LogNormalDist.sumMean (l.map fun v => (v.1, Real.sqrt (Spec.squareFor v - v.1 ^ 2))) = (Spec.sumOf l).1 := by
    simp [LogNormalDist.sumMean, Spec.sumOf, Function.comp_def]
  have ev : LogNormalDist.sumVar (l.map fun v => (v.1, Real.sqrt (Spec.squareFor v - v.1 ^ 2))) =
      (Spec.sumOf l).2 - (Spec.sumOf l).1 ^ 2 := by
    simp only [LogNormalDist.sumVar, List.map_map, Function.comp_def, Spec.sumOf, add_sub_cancel_left]
    congr 1
    refine List.map_congr_left fun v hv => Real.sq_sqrt ?_
    linarith [(squareFor_moments (hp v hv)).2.1]
  rw [LogNormalDist.add_eq _ _ hall, em, ev]
  exact ⟨lognormal_eq (sum_moments hp), sum_moments hp⟩

/-- The groups of a part. -/
theorem part_eq {α : Type} {gs : List Group} {Gs : List Spec.Components} (hG : List.Forall₂ Group.Is gs Gs) (t : Spec.Split)
    (nm : Group → String) (hn : ∀ g G, Group.Is g G → nm g = t.of G) (f : Group → α) (q : ℝ × ℝ → α) (n : String) :
    ∀ l : List (ℝ × ℝ), gs.map f = l.map q → (gs.filter fun g => nm g = n).map f = (Spec.part t Gs l n).map q := by
  induction hG with
  | nil => intro l _; rfl
  | @cons g G gs Gs h1 h2 ih =>
    intro l hl
    cases l with
    | nil => cases hl
    | cons v l =>
      obtain ⟨e1, e2⟩ := List.cons.inj hl
      have := ih l e2
      unfold Spec.part at this ⊢
      rw [List.zip_cons_cons, List.filter_cons, List.filter_cons, hn g G h1]
      by_cases h : t.of G = n
      · simp only [h, decide_true, if_true, List.map_cons, e1, this]
      · simp only [h, decide_false, Bool.false_eq_true, if_false, this]

theorem part_sub {t : Spec.Split} {Gs : List Spec.Components} {l : List (ℝ × ℝ)} {n : String} {v : ℝ × ℝ}
    (h : v ∈ Spec.part t Gs l n) : v ∈ l := by
  obtain ⟨e, he, rfl⟩ := List.mem_map.1 h
  exact (List.of_mem_zip (List.mem_filter.1 he).1).2

/-- The parts add up. -/
theorem part_sum {t : Spec.Split} {Gs : List Spec.Components} {l : List (ℝ × ℝ)} (hl : Gs.length = l.length)
    {cats : List String} (hc : cats.Nodup) (hn : ∀ G ∈ Gs, t.of G ∈ cats) :
    (cats.map fun n => ((Spec.part t Gs l n).map (·.1)).sum).sum = (l.map (·.1)).sum := by
  induction Gs generalizing l with
  | nil =>
    cases l with
    | nil => simp [Spec.part]
    | cons v l => cases hl
  | cons G Gs ih =>
    cases l with
    | nil => cases hl
    | cons v l =>
      have ihl := ih (l := l) (by simpa using hl) fun G hG => hn G (List.mem_cons_of_mem _ hG)
      rw [List.map_cons, List.sum_cons, ← ihl]
      have e : ∀ n, ((Spec.part t (G :: Gs) (v :: l) n).map (·.1)).sum =
          (if t.of G = n then v.1 else 0) + ((Spec.part t Gs l n).map (·.1)).sum := by
        intro n
        unfold Spec.part
        rw [List.zip_cons_cons, List.filter_cons]
        by_cases h : t.of G = n
        · simp [h]
        · simp [h]
      simp only [e]
      rw [List.sum_map_add]
      congr 1
      have hG := hn G List.mem_cons_self
      clear ih ihl e hn hl
      induction cats with
      | nil => cases hG
      | cons k ks ih =>
        rw [List.nodup_cons] at hc
        rw [List.map_cons, List.sum_cons]
        rcases List.mem_cons.1 hG with h | h
        · rw [if_pos h]
          have : (ks.map fun n => if t.of G = n then v.1 else 0) = ks.map fun _ => (0 : ℝ) := by
            refine List.map_congr_left fun n hn => if_neg ?_
            rintro h'
            exact hc.1 (h ▸ h' ▸ hn)
          rw [this]
          simp
        · rw [if_neg (by rintro h'; exact hc.1 (h' ▸ h)), zero_add]
          exact ih hc.2 h

/-- The columns of a report on costs by parts. -/
theorem split_columns {cs : List Interp.Col} (h : ∀ c ∈ cs, c = .placement .mean ∨ c = .spread .sdLn) :
    ∃ cc : List Rec.CostColumn, cs.mapM Spec.column = some (cc.map fun c => .name c.name) ∧ cc.length = cs.length ∧
      (∀ c ∈ cc, c = .mean ∨ c = .sdLn) ∧
      ∀ mean spread : ℝ → ℝ, cs.filterMap (Spec.momentColumn mean spread) =
        cc.map fun c => (c.name, if c = .mean then mean else spread) := by
  induction cs with
  | nil => exact ⟨[], rfl, rfl, by simp, by simp⟩
  | cons c cs ih =>
    obtain ⟨cc, h1, h2, h3, h4⟩ := ih fun c hc => h c (List.mem_cons_of_mem _ hc)
    rcases h c List.mem_cons_self with rfl | rfl
    · refine ⟨.mean :: cc, ?_, by simp [h2], ?_, ?_⟩
      · rw [List.mapM_cons, h1]; rfl
      · intro c hc
        rcases List.mem_cons.1 hc with rfl | hc
        · exact Or.inl rfl
        · exact h3 c hc
      · intro m s
        simp only [List.filterMap_cons, Spec.momentColumn, h4, List.map_cons, if_true, Rec.CostColumn.name]
    · refine ⟨.sdLn :: cc, ?_, by simp [h2], ?_, ?_⟩
      · rw [List.mapM_cons, h1]; rfl
      · intro c hc
        rcases List.mem_cons.1 hc with rfl | hc
        · exact Or.inr rfl
        · exact h3 c hc
      · intro m s
        simp only [List.filterMap_cons, Spec.momentColumn, h4, List.map_cons, reduceCtorEq, if_false, Rec.CostColumn.name]

/-- The table of such a report. -/
theorem split_table {im : String} {cats : List String} {cc : List Rec.CostColumn} {cs : Option (List Interp.Col)}
    {xs : List ℝ} {d : String → Dbl → LogNormalDist} {v : String → ℝ → ℝ × ℝ} (hcc : ∀ c ∈ cc, c = .mean ∨ c = .sdLn)
    (hf : ∀ mean spread : ℝ → ℝ, (cs.getD [.placement .mean]).filterMap (Spec.momentColumn mean spread) =
        cc.map fun c => (c.name, if c = .mean then mean else spread))
    (hd : ∀ n ∈ cats, ∀ x ∈ xs, d n (.fin x) = lognormal (v n x).1 (v n x).2 ∧ Moments (v n x).1 (v n x).2) :
    Rec.costTable im cats cc (xs.map Dbl.fin) d = Spec.tableOf im (Spec.splitColumns cats cs v) xs := by
  simp only [Rec.costTable, Spec.tableOf, Spec.splitColumns, hf, List.map_map, List.map_flatMap, Function.comp_def]
  congr 1
  apply List.map_congr_left
  intro x hx
  congr 1
  simp only [List.flatMap_def]
  congr 1
  apply List.map_congr_left
  intro n hn
  apply List.map_congr_left
  intro c hc
  obtain ⟨e, h1⟩ := hd n hn x hx
  rw [e]
  rcases hcc c hc with rfl | rfl
  · simp only [Rec.CostColumn.of, (lognormal_reports h1).2.1, if_true]
  · simp only [Rec.CostColumn.of, reduceCtorEq, if_false]
    rfl

theorem make_split {s : Rec.StructObj} {t : Rec.CostType} {cc : List Rec.CostColumn} (hc : cc ≠ [])
    {cols : Option (List Rec.Col)} (h : cols.getD [.name "mean_x"] = cc.map fun c => .name c.name) (at_ : List Rec.Num) :
    Rec.make .structcost (.struct s) { structType := some t } cols (some at_) =
      .ok ⟨.structcost, .struct s, { structType := some t }, some (cc.map fun c => .name c.name), at_⟩ := by
  cases cols with
  | none =>
    have h' : [Rec.Col.name "mean_x"] = cc.map fun c => .name c.name := h
    rw [← h']
    simp [Rec.make, Rec.mkBase, Rec.defaultColumns, pure, Except.pure, Bind.bind, Except.bind]
  | some cols =>
    have h' : cols = cc.map fun c => .name c.name := h
    rw [h']
    exact Rec.make_costs _ _ _ rfl _ (by simpa using hc) _

variable {N : Numerics} {ds : World → Interp.Printed → String} {M : Machine} {ev : String → Except Interp.Err Interp.Val}
  {fs : Output.Files}

/-- The groups of a structure when it is analysed. -/
theorem groups_at {σA σZ : State World} {A B : List Cmd} {m : Cmd} {id : String} {G : Spec.Components}
    {Gs : List Spec.Components} (hs : ∀ m' ∈ A ++ m :: B, m'.sound = true)
    (hA : run (plain N ds) M ⟨ev, Gram.preprocessString⟩ A {} (start {} fs) = (σA, none))
    (hZ : run (plain N ds) M ⟨ev, Gram.preprocessString⟩ (A ++ m :: B) {} (start {} fs) = (σZ, none))
    (hL : Later σA.lib σZ.lib)
    (hst : Spec.structOf A.reverse id = some (G :: Gs)) (hm : ∀ gs, m ≠ .structure_ id gs)
    (hone : ∀ gs, Cmd.structure_ id gs ∉ B) :
    ∃ b b0 : Building, List.Forall₂ Group.Is b.groups (G :: Gs) ∧
      seen (plain N ds) σZ.lib ((plain N ds).find σA.lib "structure" id) = .struct (b.obj N σZ.lib) ∧
      seen (plain N ds) σA.lib ((plain N ds).find σA.lib "structure" id) = .struct (b0.obj N σA.lib) ∧
      b.groups.head?.map Group.imId = some G.im ∧
      (∀ g ∈ b.groups, ∀ g' ∈ b.groups, (g.edp.2 = g'.edp.2 ↔ g.edp.1 = g'.edp.1) ∧
        (g.frag.2 = g'.frag.2 ↔ g.frag.1 = g'.frag.1)) := by
  have hbA := built_at (fun m' hm' => hs m' (by simp [hm'])) hA
  have hbZ := built_at hs hZ
  obtain ⟨b0, h1, h2⟩ := hbA.struct _ _ hst
  obtain ⟨n, t', hn, htn, ⟨b, rfl, -⟩, hseen⟩ := seen_later (N := N) (ds := ds) hL h1
  obtain ⟨n2, t2, hn2, htn2, ⟨b2, rfl, -⟩, hseen2⟩ := seen_later (N := N) (ds := ds) (Later.refl σA.lib) h1
  have hth : σZ.lib.thing "structure" id = some (.building b) := by
    simp [World.thing, hL.built _ _ hn, htn]
  have hst' : Spec.structOf (A ++ m :: B).reverse id = some (G :: Gs) := by
    rw [structOf_later, hst]
    intro gs hgs
    rcases List.mem_cons.1 hgs with e | e
    · exact hm gs e.symm
    · exact hone gs e
  obtain ⟨b', h3, h4⟩ := hbZ.struct _ _ hst'
  rw [hth] at h3
  simp only [Option.some.injEq, Thing.building.injEq] at h3
  subst h3
  have hN : Named σZ.lib := named_run (σ := start {} fs) Named.init hs rfl hZ
  refine ⟨b, b2, h4, hseen, hseen2, ?_, ?_⟩
  · obtain ⟨groups, _, _⟩ := b
    simp only at h4
    cases h4 with
    | cons hg _ => simp [hg.2.2.2.2.2.2.2.1]
  · intro g hg g' hg'
    obtain ⟨k1, k2⟩ := hN.groups n _ htn g hg
    obtain ⟨k3, k4⟩ := hN.groups n _ htn g' hg'
    constructor
    · constructor
      · intro e
        rw [e, k3] at k1
        exact (Option.some.inj k1).symm
      · intro e
        rw [e] at k1
        exact hN.own _ _ _ _ k1 k3
    · constructor
      · intro e
        rw [e, k4] at k2
        exact (Option.some.inj k2).symm
      · intro e
        rw [e] at k2
        exact hN.own _ _ _ _ k2 k4

end

end Slat.Session
