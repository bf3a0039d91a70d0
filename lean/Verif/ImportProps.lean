import Verif.ImportModel
import Verif.MakeProps
import Verif.LogNormalFnProps

/-!
# C71: an imported function fits the rows of its file

Specification side: the results of a row that are not zero, their geometric mean and the sample standard deviation of their
logarithms.
-/

namespace Slat.Import

open Slat Dbl Slat.Make

/-- Spec: the results that are not collapses. -/
noncomputable def survivors (ys : List ℝ) : List ℝ := by
  classical exact ys.filter (fun y => decide (y ≠ 0))

/-- Spec: geometric mean. -/
noncomputable def geomMean (l : List ℝ) : ℝ := l.prod ^ (1 / (l.length : ℝ))

/-- Spec: sample standard deviation of the logarithms, around the logarithm of the geometric mean. -/
noncomputable def logSpread (l : List ℝ) : ℝ :=
  Real.sqrt ((l.map (fun y => Real.log (y / geomMean l) ^ 2)).sum / ((l.length : ℝ) - 1))

/-- Spec: a usable file: at least two rows of the same length, each an intensity and results; intensities positive and strictly
increasing; results not negative; at least two results per row that are not collapses. -/
structure Usable (file : List (List ℝ)) : Prop where
  two : 2 ≤ file.length
  same : ∃ n, ∀ r ∈ file, r.length = n
  rows : ∀ r ∈ file, ∃ x ys, r = x :: ys ∧ 0 < x ∧ (∀ y ∈ ys, 0 ≤ y) ∧ 2 ≤ (survivors ys).length
  inc : (file.map (fun r => r.headD 0)).Pairwise (· < ·)

/-! ### Rows -/

theorem lnValues_nonneg {ys : List ℝ} (h : ∀ y ∈ ys, 0 ≤ y) : lnValues ys = some ((survivors ys).map Real.log) := by
  induction ys with
  | nil => simp [lnValues, survivors]
  | cons y ys ih =>
    have ih' := ih (fun z hz => h z (List.mem_cons_of_mem _ hz))
    have hy := h y List.mem_cons_self
    simp only [lnValues]
    by_cases h0 : y = 0
    · rw [if_pos h0, ih']
      simp [survivors, h0]
    · rw [if_neg h0, if_neg hy.not_gt, ih']
      simp [survivors, h0]

theorem lnValues_neg {ys : List ℝ} (h : ∃ y ∈ ys, y < 0) : lnValues ys = none := by
  induction ys with
  | nil => obtain ⟨y, hy, -⟩ := h; cases hy
  | cons y ys ih =>
    simp only [lnValues]
    obtain ⟨z, hz, hlt⟩ := h
    by_cases h0 : y = 0
    · rw [if_pos h0]
      rcases List.mem_cons.1 hz with rfl | hz
      · exact absurd h0 hlt.ne
      · exact ih ⟨z, hz, hlt⟩
    · rw [if_neg h0]
      by_cases h1 : y < 0
      · rw [if_pos h1]
      · rw [if_neg h1]
        rcases List.mem_cons.1 hz with rfl | hz
        · exact absurd hlt h1
        · rw [ih ⟨z, hz, hlt⟩]; rfl

theorem survivors_pos {ys : List ℝ} (h : ∀ y ∈ ys, 0 ≤ y) : ∀ y ∈ survivors ys, 0 < y := by
  intro y hy
  simp only [survivors, List.mem_filter, decide_eq_true_eq] at hy
  exact (h y hy.1).lt_of_ne (Ne.symm hy.2)

theorem prod_pos_of {l : List ℝ} (h : ∀ y ∈ l, 0 < y) : 0 < l.prod := List.prod_pos h

theorem log_prod_of {l : List ℝ} (h : ∀ y ∈ l, 0 < y) : (l.map Real.log).sum = Real.log l.prod := by
  induction l with
  | nil => simp
  | cons y l ih =>
    have h1 := h y List.mem_cons_self
    have h2 := prod_pos_of (fun z hz => h z (List.mem_cons_of_mem _ hz))
    rw [List.map_cons, List.sum_cons, List.prod_cons, Real.log_mul h1.ne' h2.ne',
      ih (fun z hz => h z (List.mem_cons_of_mem _ hz))]

theorem geomMean_pos {l : List ℝ} (h : ∀ y ∈ l, 0 < y) : 0 < geomMean l := Real.rpow_pos_of_pos (prod_pos_of h) _

theorem log_geomMean {l : List ℝ} (h : ∀ y ∈ l, 0 < y) : Real.log (geomMean l) = meanR (l.map Real.log) := by
  rw [geomMean, Real.log_rpow (prod_pos_of h), ← log_prod_of h, meanR, List.length_map]
  ring

theorem mean_fin {l : List ℝ} (h : l ≠ []) : mean l = .fin (meanR l) := by
  have : (l.length : ℝ) ≠ 0 := by
    rw [Nat.cast_ne_zero, ne_eq, List.length_eq_zero_iff]
    exact h
  rw [mean, fin_div_of_ne this, meanR]

theorem point_usable {x : ℝ} {ys : List ℝ} (h : ∀ y ∈ ys, 0 ≤ y) (h2 : 2 ≤ (survivors ys).length) :
    point ⟨x, ys⟩ = some (x, .fin (geomMean (survivors ys)), .fin (logSpread (survivors ys))) := by
  have hp := survivors_pos h
  have hne : (survivors ys).map Real.log ≠ [] := by
    intro e
    rw [List.map_eq_nil_iff] at e
    rw [e] at h2
    simp at h2
  rw [point, lnValues_nonneg h, Option.map_some, mean_fin hne, exp_fin, std, List.length_map, if_neg (by omega),
    ← log_geomMean hp, Real.exp_log (geomMean_pos hp), logSpread, List.map_map]
  congr 6
  refine congrArg List.sum (List.map_congr_left fun y hy => ?_)
  simp only [Function.comp]
  rw [Real.log_div (hp y hy).ne' (geomMean_pos hp).ne']

/-! ### Tables -/

theorem interpD_fin (pts : List (ℝ × ℝ)) (hne : pts ≠ []) (x : ℝ) :
    interpD (pts.map (fun p => (p.1, Dbl.fin p.2))) x = .fin (Functions.interp pts x) := by
  induction pts with
  | nil => exact absurd rfl hne
  | cons p l ih =>
    cases l with
    | nil => rfl
    | cons q l =>
      simp only [List.map_cons, interpD, Functions.interp, List.length_map, List.length_eq_zero_iff, fin_sub, fin_mul,
        fin_add]
      have := ih (List.cons_ne_nil _ _)
      simp only [List.map_cons] at this
      rw [this]
      split <;> rfl

theorem linearFn_fin (pts : List (ℝ × ℝ)) (f : Dbl → Dbl) (h : Functions.linearFn pts = some f) :
    linearFn (pts.map (fun p => (p.1, Dbl.fin p.2))) = .value (some f) := by
  have hok : 2 ≤ pts.length ∧ pts.Pairwise (fun p q => p.1 < q.1) :=
    (Functions.linear_constructs_iff pts).1 (by rw [h]; rfl)
  obtain ⟨a, b, ha, hb, -⟩ := Functions.tableOk_ends hok
  have hfe : f = Functions.linear a b pts := by
    unfold Functions.linearFn at h
    rw [if_pos (show Functions.tableOk pts from hok)] at h
    simp only [ha, hb, Option.some.injEq] at h
    exact h.symm
  have hok' : tableOk (pts.map (fun p => (p.1, Dbl.fin p.2))) := by
    refine ⟨by simpa using hok.1, ?_⟩
    rw [List.pairwise_map]
    exact hok.2
  unfold linearFn
  rw [if_neg (by rw [List.length_map]; omega), if_pos hok', List.head?_map, List.getLast?_map, ha, hb]
  simp only [Option.map_some]
  rw [hfe]
  congr 2
  funext x
  have hne : pts ≠ [] := by
    rintro rfl
    simp at hok
  cases x with
  | fin r => simp only [linear, Functions.linear, interpD_fin pts hne]
  | nan => rfl
  | pinf => rfl
  | ninf => rfl

/-- The points of the table for the median and for the spread of a usable file. -/
noncomputable def medianPts (file : List (List ℝ)) : List (ℝ × ℝ) :=
  (0, 0) :: file.map (fun r => (r.headD 0, geomMean (survivors r.tail)))
noncomputable def spreadPts (file : List (List ℝ)) : List (ℝ × ℝ) :=
  (0, 0) :: file.map (fun r => (r.headD 0, logSpread (survivors r.tail)))

theorem loadtxt_usable {file : List (List ℝ)} (h : Usable file) :
    loadtxt file = .rows (file.map (fun s => ⟨s.headD 0, s.tail⟩)) := by
  obtain ⟨n, hn⟩ := h.same
  have htwo := h.two
  cases file with
  | nil => simp at htwo
  | cons r rs =>
    have hr := hn r List.mem_cons_self
    obtain ⟨x, ys, rfl, -, -, hs⟩ := h.rows r List.mem_cons_self
    have hys : 2 ≤ ys.length := le_trans hs (List.length_filter_le _ _)
    simp only [loadtxt]
    rw [if_pos, if_neg]
    · simp only [List.length_cons] at htwo ⊢
      omega
    · rw [List.all_eq_true]
      intro s hs
      rw [hn s (List.mem_cons_of_mem _ hs), hr]
      simp

theorem tables_usable {file : List (List ℝ)}
    (h : ∀ r ∈ file, ∃ x ys, r = x :: ys ∧ 0 < x ∧ (∀ y ∈ ys, 0 ≤ y) ∧ 2 ≤ (survivors ys).length) :
    tables (file.map (fun s => ⟨s.headD 0, s.tail⟩)) =
      some ((medianPts file).map (fun p => (p.1, Dbl.fin p.2)), (spreadPts file).map (fun p => (p.1, Dbl.fin p.2))) := by
  have : (file.map (fun s => (⟨s.headD 0, s.tail⟩ : Row))).mapM point =
      some (file.map (fun r => (r.headD 0, Dbl.fin (geomMean (survivors r.tail)),
        Dbl.fin (logSpread (survivors r.tail))))) := by
    induction file with
    | nil => rfl
    | cons r file ih =>
      obtain ⟨x, ys, rfl, -, h1, h2⟩ := h r List.mem_cons_self
      rw [List.map_cons, List.mapM_cons, ih (fun s hs => h s (List.mem_cons_of_mem _ hs))]
      simp only [List.headD_cons, List.tail_cons, point_usable h1 h2]
      rfl
  rw [tables, this]
  simp [medianPts, spreadPts, List.map_map, Function.comp_def]

theorem pts_ok {file : List (List ℝ)} (h : Usable file) (g : List ℝ → ℝ) :
    2 ≤ ((0, 0) :: file.map (fun r => (r.headD 0, g r))).length ∧
    ((0, 0) :: file.map (fun r => (r.headD 0, g r))).Pairwise (fun p q : ℝ × ℝ => p.1 < q.1) := by
  constructor
  · have := h.two
    simp only [List.length_cons, List.length_map]
    omega
  · rw [List.pairwise_cons]
    constructor
    · intro p hp
      obtain ⟨r, hr, rfl⟩ := List.mem_map.1 hp
      obtain ⟨x, ys, rfl, hx, -⟩ := h.rows r hr
      exact hx
    · have := h.inc
      rw [List.pairwise_map] at this ⊢
      exact this

/-- The two interpolated functions of a usable file. -/
theorem import_usable {file : List (List ℝ)} (h : Usable file) :
    ∃ f g, importProbFn file = .value (f, g) ∧ Functions.linearFn (medianPts file) = some f ∧
      Functions.linearFn (spreadPts file) = some g := by
  obtain ⟨f, hf⟩ := Option.isSome_iff_exists.1 ((Functions.linear_constructs_iff _).2
    (pts_ok h (fun r => geomMean (survivors r.tail))))
  obtain ⟨g, hg⟩ := Option.isSome_iff_exists.1 ((Functions.linear_constructs_iff _).2
    (pts_ok h (fun r => logSpread (survivors r.tail))))
  refine ⟨f, g, ?_, hf, hg⟩
  have e1 := linearFn_fin (medianPts file) f hf
  have e2 := linearFn_fin (spreadPts file) g hg
  simp only [importProbFn, loadtxt_usable h, tables_usable h.rows, e1, e2, probfn]

/-- A usable file is imported; at the intensity of each row the median demand is the geometric mean of the row's results that
are not zero and the dispersion the sample standard deviation of their logarithms; at intensity zero both are zero; between
the origin and the first row, and between neighbouring rows, both are straight; beyond the last row they keep its values. -/
theorem import_fits_rows_partial {file : List (List ℝ)} (h : Usable file) :
    ∃ f g, importProbFn file = .value (f, g) ∧
      (∀ x ys, (x :: ys) ∈ file → f (.fin x) = .fin (geomMean (survivors ys)) ∧
        g (.fin x) = .fin (logSpread (survivors ys))) ∧
      (f 0 = 0 ∧ g 0 = 0) ∧
      (∀ l x₁ ys₁ x₂ ys₂ r, file = l ++ (x₁ :: ys₁) :: (x₂ :: ys₂) :: r → ∀ t : ℝ, 0 ≤ t → t ≤ 1 →
        f (.fin ((1 - t) * x₁ + t * x₂)) = .fin ((1 - t) * geomMean (survivors ys₁) + t * geomMean (survivors ys₂)) ∧
        g (.fin ((1 - t) * x₁ + t * x₂)) = .fin ((1 - t) * logSpread (survivors ys₁) + t * logSpread (survivors ys₂))) ∧
      (∀ x₁ ys₁ r, file = (x₁ :: ys₁) :: r → ∀ t : ℝ, 0 ≤ t → t ≤ 1 →
        f (.fin (t * x₁)) = .fin (t * geomMean (survivors ys₁)) ∧
        g (.fin (t * x₁)) = .fin (t * logSpread (survivors ys₁))) ∧
      (∀ l x₁ ys₁, file = l ++ [x₁ :: ys₁] → ∀ x, x₁ ≤ x →
        f (.fin x) = .fin (geomMean (survivors ys₁)) ∧ g (.fin x) = .fin (logSpread (survivors ys₁))) := by
  obtain ⟨f, g, h0, hf, hg⟩ := import_usable h
  obtain ⟨f1, f2, f3, -⟩ := Functions.linear_faithful _ f hf
  obtain ⟨g1, g2, g3, -⟩ := Functions.linear_faithful _ g hg
  have hlt : ∀ l x₁ ys₁ x₂ ys₂ r, file = l ++ (x₁ :: ys₁) :: (x₂ :: ys₂) :: r → x₁ < x₂ := by
    intro l x₁ ys₁ x₂ ys₂ r e
    have := h.inc
    rw [e, List.map_append, List.pairwise_append] at this
    have := (List.pairwise_cons.1 this.2.1).1 x₂ (by simp)
    simpa using this
  refine ⟨f, g, h0, ?_, ?_, ?_, ?_, ?_⟩
  · intro x ys hm
    exact ⟨f1 (x, geomMean (survivors ys)) (List.mem_cons_of_mem _ (List.mem_map.2 ⟨_, hm, rfl⟩)),
      g1 (x, logSpread (survivors ys)) (List.mem_cons_of_mem _ (List.mem_map.2 ⟨_, hm, rfl⟩))⟩
  · exact ⟨f1 (0, 0) List.mem_cons_self, g1 (0, 0) List.mem_cons_self⟩
  · intro l x₁ ys₁ x₂ ys₂ r e t ht ht1
    have hx := hlt l x₁ ys₁ x₂ ys₂ r e
    have hd : x₂ - x₁ ≠ 0 := by linarith
    have a1 : x₁ ≤ (1 - t) * x₁ + t * x₂ := by nlinarith
    have a2 : (1 - t) * x₁ + t * x₂ ≤ x₂ := by nlinarith
    constructor
    · rw [f2 ((0, 0) :: l.map (fun r => (r.headD 0, geomMean (survivors r.tail)))) (x₁, geomMean (survivors ys₁))
        (x₂, geomMean (survivors ys₂)) (r.map (fun r => (r.headD 0, geomMean (survivors r.tail))))
        (by simp [medianPts, e]) _ a1 a2]
      congr 1
      field_simp
      ring
    · rw [g2 ((0, 0) :: l.map (fun r => (r.headD 0, logSpread (survivors r.tail)))) (x₁, logSpread (survivors ys₁))
        (x₂, logSpread (survivors ys₂)) (r.map (fun r => (r.headD 0, logSpread (survivors r.tail))))
        (by simp [spreadPts, e]) _ a1 a2]
      congr 1
      field_simp
      ring
  · intro x₁ ys₁ r e t ht ht1
    obtain ⟨x, ys, e', hx, -⟩ := h.rows (x₁ :: ys₁) (by rw [e]; simp)
    simp only [List.cons.injEq] at e'
    rw [← e'.1] at hx
    have hd : x₁ ≠ 0 := hx.ne'
    have a1 : 0 ≤ t * x₁ := mul_nonneg ht hx.le
    have a2 : t * x₁ ≤ x₁ := by nlinarith
    constructor
    · rw [f2 [] (0, 0) (x₁, geomMean (survivors ys₁)) (r.map (fun r => (r.headD 0, geomMean (survivors r.tail))))
        (by simp [medianPts, e]) _ a1 a2]
      congr 1
      field_simp
      ring
    · rw [g2 [] (0, 0) (x₁, logSpread (survivors ys₁)) (r.map (fun r => (r.headD 0, logSpread (survivors r.tail))))
        (by simp [spreadPts, e]) _ a1 a2]
      congr 1
      field_simp
      ring
  · intro l x₁ ys₁ e x hx
    constructor
    · exact (f3 (0, 0) (x₁, geomMean (survivors ys₁)) rfl (by simp [medianPts, e, List.getLast?_cons])).2.1 x hx
    · exact (g3 (0, 0) (x₁, logSpread (survivors ys₁)) rfl (by simp [spreadPts, e, List.getLast?_cons])).2.1 x hx

/-- The file of the examples: two rows; one result of the second row is a collapse. -/
theorem usable_example : Usable [[1, 2, 8, 1], [2, 3, 12, 0]] := by
  refine ⟨by simp, ⟨4, by simp⟩, ?_, by norm_num⟩
  intro r hr
  simp only [List.mem_cons, List.not_mem_nil, or_false] at hr
  rcases hr with rfl | rfl
  · exact ⟨1, [2, 8, 1], rfl, by norm_num, by simp, by simp [survivors]⟩
  · exact ⟨2, [3, 12, 0], rfl, by norm_num, by simp, by simp [survivors]⟩

/-- At intensity 2 the median demand is 6, the geometric mean of 3 and 12; at 5 as well. -/
example : ∃ f g, importProbFn [[1, 2, 8, 1], [2, 3, 12, 0]] = .value (f, g) ∧ f (.fin 2) = .fin 6 ∧
    f (.fin 5) = .fin 6 := by
  obtain ⟨f, g, h0, h1, -, -, -, h5⟩ := import_fits_rows_partial usable_example
  have hg : geomMean (survivors [3, 12, 0]) = 6 := by
    have : survivors [3, 12, 0] = [3, 12] := by simp [survivors]
    rw [this, geomMean]
    norm_num
  refine ⟨f, g, h0, ?_, ?_⟩
  · rw [(h1 2 [3, 12, 0] (by simp)).1, hg]
  · rw [(h5 [[1, 2, 8, 1]] 2 [3, 12, 0] rfl 5 (by norm_num)).1, hg]

/-- The demand at the intensity of a row: the probability of exceeding a positive value is that of the log-normal law with the
row's geometric mean as median and the row's logarithmic spread (if not all results are equal). -/
theorem import_demand_partial {file : List (List ℝ)} (h : Usable file) (x : ℝ) (ys : List ℝ) (hm : (x :: ys) ∈ file)
    (hs : 0 < logSpread (survivors ys)) :
    ∃ f, importProbFn file = .value f ∧ ∃ d, demandAt f (.fin x) = some d ∧
      ∀ y : ℝ, 0 ≤ y → d.pAtLeast (.fin y) =
        .fin ((LN (Real.log (geomMean (survivors ys))) (logSpread (survivors ys))).real (Set.Ici y)) := by
  obtain ⟨f, g, h0, h1, -⟩ := import_fits_rows_partial h
  obtain ⟨x', ys', e, -, hy, -⟩ := h.rows _ hm
  simp only [List.cons.injEq] at e
  rw [← e.2] at hy
  have hp := geomMean_pos (survivors_pos hy)
  refine ⟨_, h0, ⟨.fin (Real.log (geomMean (survivors ys))), .fin (logSpread (survivors ys))⟩, ?_, ?_⟩
  · simp only [demandAt, (h1 x ys hm).1, (h1 x ys hm).2, LogNormalFn.distribution, LogNormalFn.eval]
    rw [← log_pos hp]
    rfl
  · intro y hy
    exact (LogNormalDist.p_at_most_is_cdf _ hs hy).2

theorem logSpread_pos_example : 0 < logSpread (survivors [3, 12, 0]) := by
  have h : survivors [3, 12, 0] = [3, 12] := by simp [survivors]
  have hg : geomMean [3, 12] = 6 := by
    rw [geomMean]
    norm_num
  rw [h, logSpread, hg]
  apply Real.sqrt_pos.2
  simp only [List.map_cons, List.map_nil, List.sum_cons, List.sum_nil, List.length_cons, List.length_nil]
  norm_num
  have : 0 < Real.log 2 := Real.log_pos (by norm_num)
  positivity

example : ∃ f d, importProbFn [[1, 2, 8, 1], [2, 3, 12, 0]] = .value f ∧ demandAt f (.fin 2) = some d := by
  obtain ⟨f, h1, d, h2, -⟩ := import_demand_partial usable_example 2 [3, 12, 0] (by simp) logSpread_pos_example
  exact ⟨f, d, h1, h2⟩

/-! ### What does not matter -/

theorem lnValues_perm {ys zs : List ℝ} (hneg : (∃ y ∈ ys, y < 0) ↔ ∃ y ∈ zs, y < 0)
    (h : (survivors ys).Perm (survivors zs)) :
    (lnValues ys = none ∧ lnValues zs = none) ∨
      ∃ l m, lnValues ys = some l ∧ lnValues zs = some m ∧ l.Perm m := by
  by_cases hn : ∃ y ∈ ys, y < 0
  · exact Or.inl ⟨lnValues_neg hn, lnValues_neg (hneg.1 hn)⟩
  · have h1 : ∀ y ∈ ys, 0 ≤ y := fun y hy => not_lt.1 fun hlt => hn ⟨y, hy, hlt⟩
    have h2 : ∀ y ∈ zs, 0 ≤ y := fun y hy => not_lt.1 fun hlt => hn (hneg.2 ⟨y, hy, hlt⟩)
    exact Or.inr ⟨_, _, lnValues_nonneg h1, lnValues_nonneg h2, h.map _⟩

theorem survivors_neg {ys zs : List ℝ} (h : (survivors ys).Perm (survivors zs)) :
    (∃ y ∈ ys, y < 0) ↔ ∃ y ∈ zs, y < 0 := by
  have : ∀ l : List ℝ, (∃ y ∈ l, y < 0) ↔ ∃ y ∈ survivors l, y < 0 := by
    intro l
    constructor
    · rintro ⟨y, hy, hlt⟩
      exact ⟨y, by simp [survivors, hy, hlt.ne], hlt⟩
    · rintro ⟨y, hy, hlt⟩
      simp only [survivors, List.mem_filter] at hy
      exact ⟨y, hy.1, hlt⟩
  rw [this ys, this zs]
  constructor
  · rintro ⟨y, hy, hlt⟩; exact ⟨y, h.mem_iff.1 hy, hlt⟩
  · rintro ⟨y, hy, hlt⟩; exact ⟨y, h.mem_iff.2 hy, hlt⟩

theorem mean_perm {l m : List ℝ} (h : l.Perm m) : mean l = mean m ∧ std l = std m := by
  have h1 : l.sum = m.sum := h.sum_eq
  have h2 := h.length_eq
  have h3 : meanR l = meanR m := by rw [meanR, meanR, h1, h2]
  refine ⟨by rw [mean, mean, h1, h2], ?_⟩
  rw [std, std, h2, h3, (h.map (fun v => (v - meanR m) ^ 2)).sum_eq]

theorem point_perm {x : ℝ} {ys zs : List ℝ} (h : (survivors ys).Perm (survivors zs)) : point ⟨x, ys⟩ = point ⟨x, zs⟩ := by
  rcases lnValues_perm (survivors_neg h) h with ⟨h1, h2⟩ | ⟨l, m, h1, h2, h3⟩
  · rw [point, point, h1, h2]
  · rw [point, point, h1, h2, Option.map_some, Option.map_some, (mean_perm h3).1, (mean_perm h3).2]

theorem tables_perm (rows rows' : List Row)
    (h : List.Forall₂ (fun r s => r.x = s.x ∧ (survivors r.ys).Perm (survivors s.ys)) rows rows') :
    tables rows = tables rows' := by
  have : rows.mapM point = rows'.mapM point := by
    induction h with
    | nil => rfl
    | @cons r s rs ss hd _ ih =>
      obtain ⟨x, ys⟩ := r
      obtain ⟨x', zs⟩ := s
      obtain ⟨e, hp⟩ := hd
      simp only at e hp
      subst e
      rw [List.mapM_cons, List.mapM_cons, point_perm hp, ih]
  rw [tables, tables, this]

/-- Two rectangular files of at least two rows and two columns whose rows have the same intensities and, apart from their order
and from any number of zeros, the same results are imported alike: neither the order of the results nor the number of collapses
matters. -/
theorem import_results_unordered (file file' : List (List ℝ)) (n n' : ℕ) (hn : ∀ r ∈ file, r.length = n + 2)
    (hn' : ∀ r ∈ file', r.length = n' + 2) (h2 : 2 ≤ file.length)
    (h : List.Forall₂ (fun r s : List ℝ => r.headD 0 = s.headD 0 ∧ (survivors r.tail).Perm (survivors s.tail)) file file') :
    importProbFn file = importProbFn file' := by
  have hload : ∀ (file : List (List ℝ)) (n : ℕ), (∀ r ∈ file, r.length = n + 2) → 2 ≤ file.length →
      loadtxt file = .rows (file.map (fun s => ⟨s.headD 0, s.tail⟩)) := by
    intro file n hn h2
    cases file with
    | nil => simp at h2
    | cons r rs =>
      simp only [loadtxt]
      rw [if_pos, if_neg]
      · have := hn r List.mem_cons_self
        simp only [List.length_cons] at h2
        omega
      · rw [List.all_eq_true]
        intro s hs
        rw [hn s (List.mem_cons_of_mem _ hs), hn r List.mem_cons_self]
        simp
  have h2' : 2 ≤ file'.length := h.length_eq ▸ h2
  have ht := tables_perm (file.map (fun s => ⟨s.headD 0, s.tail⟩)) (file'.map (fun s => ⟨s.headD 0, s.tail⟩)) (by
    rw [List.forall₂_map_left_iff, List.forall₂_map_right_iff]
    exact h)
  simp only [importProbFn, hload file n hn h2, hload file' n' hn' h2', ht]

/-- Reordered results, and a further collapse in each row. -/
example : importProbFn [[1, 2, 8], [2, 3, 12]] = importProbFn [[1, 8, 0, 2], [2, 0, 3, 12]] := by
  apply import_results_unordered _ _ 1 2 (by simp) (by simp) (by simp)
  refine .cons ⟨rfl, ?_⟩ (.cons ⟨rfl, ?_⟩ .nil)
  · have h1 : survivors [2, 8] = [2, 8] := by simp [survivors]
    have h2 : survivors [8, 0, 2] = [8, 2] := by simp [survivors]
    simp only [List.tail_cons, h1, h2]
    exact List.Perm.swap _ _ _
  · have h1 : survivors [3, 12] = [3, 12] := by simp [survivors]
    have h2 : survivors [0, 3, 12] = [3, 12] := by simp [survivors]
    simp only [List.tail_cons, h1, h2]
    exact List.Perm.refl _

/-! ### Units -/

theorem interp_scale (k : ℝ) (pts : List (ℝ × ℝ)) (x : ℝ) :
    Functions.interp (pts.map (fun p => (p.1, k * p.2))) x = k * Functions.interp pts x := by
  induction pts with
  | nil => simp [Functions.interp]
  | cons p l ih =>
    cases l with
    | nil => rfl
    | cons q l =>
      simp only [List.map_cons, Functions.interp, List.map_eq_nil_iff]
      simp only [List.map_cons] at ih
      rw [ih]
      split
      · ring
      · rfl

theorem survivors_scale {k : ℝ} (hk : 0 < k) (ys : List ℝ) :
    survivors (ys.map (fun y => k * y)) = (survivors ys).map (fun y => k * y) := by
  induction ys with
  | nil => simp [survivors]
  | cons y ys ih =>
    by_cases h : y = 0
    · simpa [survivors, h] using ih
    · simpa [survivors, h, hk.ne'] using ih

theorem geomMean_scale {k : ℝ} (hk : 0 < k) {l : List ℝ} (h : ∀ y ∈ l, 0 < y) (hne : l ≠ []) :
    geomMean (l.map (fun y => k * y)) = k * geomMean l := by
  have hp : (l.map (fun y => k * y)).prod = k ^ l.length * l.prod := by
    rw [List.prod_map_mul]
    simp
  have hl : (l.length : ℝ) ≠ 0 := by
    rw [Nat.cast_ne_zero, ne_eq, List.length_eq_zero_iff]
    exact hne
  rw [geomMean, hp, List.length_map, Real.mul_rpow (by positivity) (prod_pos_of h).le, geomMean, ← Real.rpow_natCast_mul hk.le,
    mul_one_div_cancel hl, Real.rpow_one]

theorem logSpread_scale {k : ℝ} (hk : 0 < k) {l : List ℝ} (h : ∀ y ∈ l, 0 < y) (hne : l ≠ []) :
    logSpread (l.map (fun y => k * y)) = logSpread l := by
  rw [logSpread, logSpread, geomMean_scale hk h hne, List.map_map, List.length_map]
  congr 3
  refine List.map_congr_left fun y hy => ?_
  simp only [Function.comp]
  rw [mul_div_mul_left _ _ hk.ne']

/-- Results in other units (all multiplied by `k > 0`): the median is multiplied by `k` at every intensity, the dispersion is
unchanged. -/
theorem import_units {file : List (List ℝ)} (h : Usable file) {k : ℝ} (hk : 0 < k) :
    ∃ f g f' g', importProbFn file = .value (f, g) ∧
      importProbFn (file.map (fun r => r.headD 0 :: r.tail.map (fun y => k * y))) = .value (f', g') ∧
      ∀ x : ℝ, f' (.fin x) = .fin k * f (.fin x) ∧ g' (.fin x) = g (.fin x) := by
  have hsl : ∀ r ∈ file, (∀ y ∈ survivors r.tail, 0 < y) ∧ survivors r.tail ≠ [] := by
    intro r hr
    obtain ⟨x, ys, rfl, -, h1, h2⟩ := h.rows r hr
    refine ⟨survivors_pos h1, fun e => ?_⟩
    simp only [List.tail_cons] at e
    rw [e] at h2
    simp at h2
  have h' : Usable (file.map (fun r => r.headD 0 :: r.tail.map (fun y => k * y))) := by
    refine ⟨by simpa using h.two, ?_, ?_, ?_⟩
    · obtain ⟨n, hn⟩ := h.same
      refine ⟨n, ?_⟩
      intro r hr
      obtain ⟨s, hs, rfl⟩ := List.mem_map.1 hr
      obtain ⟨x, ys, rfl, -⟩ := h.rows s hs
      simpa using hn _ hs
    · intro r hr
      obtain ⟨s, hs, rfl⟩ := List.mem_map.1 hr
      obtain ⟨x, ys, rfl, hx, h1, h2⟩ := h.rows s hs
      refine ⟨x, _, rfl, hx, ?_, ?_⟩
      · intro y hy
        obtain ⟨z, hz, rfl⟩ := List.mem_map.1 hy
        exact mul_nonneg hk.le (h1 z hz)
      · rw [survivors_scale hk, List.length_map]
        exact h2
    · rw [List.map_map]
      exact h.inc
  obtain ⟨f, g, h0, hf, hg⟩ := import_usable h
  obtain ⟨f', g', h0', hf', hg'⟩ := import_usable h'
  refine ⟨f, g, f', g', h0, h0', ?_⟩
  have hm : medianPts (file.map (fun r => r.headD 0 :: r.tail.map (fun y => k * y))) =
      (medianPts file).map (fun p => (p.1, k * p.2)) := by
    simp only [medianPts, List.map_map, List.map_cons, mul_zero]
    congr 1
    refine List.map_congr_left fun r hr => ?_
    simp only [Function.comp, List.headD_cons, List.tail_cons]
    rw [survivors_scale hk, geomMean_scale hk (hsl r hr).1 (hsl r hr).2]
  have hs : spreadPts (file.map (fun r => r.headD 0 :: r.tail.map (fun y => k * y))) = spreadPts file := by
    simp only [spreadPts, List.map_map]
    congr 1
    refine List.map_congr_left fun r hr => ?_
    simp only [Function.comp, List.headD_cons, List.tail_cons]
    rw [survivors_scale hk, logSpread_scale hk (hsl r hr).1 (hsl r hr).2]
  rw [hs, hg] at hg'
  rw [hm] at hf'
  cases hg'
  intro x
  refine ⟨?_, rfl⟩
  have hok := pts_ok h (fun r => geomMean (survivors r.tail))
  obtain ⟨a, b, ha, hb, -⟩ := Functions.tableOk_ends hok
  have e1 : f = Functions.linear a b (medianPts file) := by
    unfold Functions.linearFn at hf
    rw [if_pos (show Functions.tableOk (medianPts file) from hok)] at hf
    change (match (medianPts file).head?, (medianPts file).getLast? with
      | some a, some b => some (Functions.linear a b (medianPts file))
      | _, _ => none) = some f at hf
    rw [show (medianPts file).head? = some a from ha, show (medianPts file).getLast? = some b from hb] at hf
    exact (Option.some.inj hf).symm
  have hok' : Functions.tableOk ((medianPts file).map (fun p => (p.1, k * p.2))) := by
    refine ⟨by simpa [medianPts] using hok.1, ?_⟩
    rw [List.pairwise_map]
    exact hok.2
  have e2 : f' = Functions.linear (a.1, k * a.2) (b.1, k * b.2) ((medianPts file).map (fun p => (p.1, k * p.2))) := by
    unfold Functions.linearFn at hf'
    rw [if_pos hok', List.head?_map, List.getLast?_map, show (medianPts file).head? = some a from ha,
      show (medianPts file).getLast? = some b from hb] at hf'
    exact (Option.some.inj hf').symm
  rw [e1, e2]
  simp only [Functions.linear, interp_scale]
  split
  · rfl
  · split <;> rfl

example : ∃ f g f' g', importProbFn [[1, 2, 8, 1], [2, 3, 12, 0]] = .value (f, g) ∧
    importProbFn [[1, 1000 * 2, 1000 * 8, 1000 * 1], [2, 1000 * 3, 1000 * 12, 1000 * 0]] = .value (f', g') ∧
      f' (.fin (3/2)) = .fin 1000 * f (.fin (3/2)) := by
  obtain ⟨f, g, f', g', h1, h2, h3⟩ := import_units usable_example (k := 1000) (by norm_num)
  exact ⟨f, g, f', g', h1, h2, (h3 _).1⟩

/-! ### Rows without enough results -/

theorem interpD_nan (l : List (ℝ × Dbl)) (p q : ℝ × Dbl) (r : List (ℝ × Dbl))
    (hs : (l ++ p :: q :: r).Pairwise (fun a b => a.1 < b.1)) (hq : q.2 = .nan) (x : ℝ) (h1 : p.1 ≤ x) (h2 : x ≤ q.1) :
    interpD (l ++ p :: q :: r) x = .nan := by
  induction l with
  | nil =>
    simp only [List.nil_append, interpD]
    split
    · rw [hq, nan_sub, mul_nan, add_nan]
    · rename_i h
      rw [not_or, not_lt] at h
      cases r with
      | nil => exact absurd rfl h.2
      | cons s r =>
        have hx : x = q.1 := le_antisymm h2 h.1
        have hqs : q.1 < s.1 := by
          have := (List.pairwise_cons.1 (List.pairwise_cons.1 hs).2).1 s (by simp)
          exact this
        rw [interpD, if_pos (Or.inl (hx ▸ hqs)), hq, nan_add]
  | cons a l ih =>
    have hs' := (List.pairwise_cons.1 hs).2
    have ih' := ih hs'
    cases l with
    | nil =>
      simp only [List.cons_append, List.nil_append, interpD] at ih' ⊢
      rw [if_neg (by
        rw [not_or, not_lt]
        exact ⟨h1, by simp⟩)]
      exact ih'
    | cons b l =>
      have hb : b.1 < p.1 := (List.pairwise_cons.1 hs').1 p (by simp)
      simp only [List.cons_append, interpD] at ih' ⊢
      rw [if_neg (by
        rw [not_or, not_lt]
        exact ⟨hb.le.trans h1, by simp⟩)]
      exact ih'

/-- A row with fewer than two results that are not collapses: whenever the file is imported at all, the dispersion is not a
number at the row's intensity, nor at any intensity from that of the preceding row (or from zero) on — although every other row
is usable and the file is accepted without complaint. -/
theorem import_collapsed_row_fails (before after : List (List ℝ)) (x : ℝ) (ys : List ℝ)
    (hfew : (survivors ys).length < 2) (f : (Dbl → Dbl) × (Dbl → Dbl))
    (h : importProbFn (before ++ (x :: ys) :: after) = .value f) :
    ∀ t : ℝ, (before.getLast?.map (fun r => r.headD 0)).getD 0 ≤ t → t ≤ x → f.2 (.fin t) = .nan := by
  intro t ht htx
  unfold importProbFn at h
  have hl : loadtxt (before ++ (x :: ys) :: after) = .rows ((before ++ (x :: ys) :: after).map
      (fun s => ⟨s.headD 0, s.tail⟩)) := by
    generalize hfile : before ++ (x :: ys) :: after = file at h ⊢
    cases file with
    | nil => simp at hfile
    | cons r rs =>
      simp only [loadtxt] at h ⊢
      split at h <;> rename_i hh
      · cases h
      · cases h
      · split at hh <;> rename_i hc
        · split at hh <;> rename_i hc2
          · cases hh
          · rw [if_pos hc, if_neg hc2]
        · cases hh
  rw [hl] at h
  simp only at h
  split at h <;> rename_i ht'
  · cases h
  rename_i tbl
  rw [tables, Option.map_eq_some_iff] at ht'
  obtain ⟨ps, hps, rfl⟩ := ht'
  simp only at h
  -- the point of the row
  have hmap : ∀ (file : List (List ℝ)) (ps : List (ℝ × Dbl × Dbl)),
      (file.map (fun s => (⟨s.headD 0, s.tail⟩ : Row))).mapM point = some ps →
      List.Forall₂ (fun s p => point ⟨s.headD 0, s.tail⟩ = some p) file ps := by
    intro file
    induction file with
    | nil =>
      intro ps h
      cases h
      exact .nil
    | cons s file ih =>
      intro ps h
      rw [List.map_cons, List.mapM_cons] at h
      cases hp : point ⟨s.headD 0, s.tail⟩ with
      | none => rw [hp] at h; cases h
      | some p =>
        rw [hp] at h
        cases hq : (file.map (fun s => (⟨s.headD 0, s.tail⟩ : Row))).mapM point with
        | none => rw [hq] at h; cases h
        | some qs =>
          rw [hq] at h
          cases h
          exact .cons hp (ih qs hq)
  have hall := hmap _ _ hps
  have hx1 : ∀ (s : List ℝ) (p : ℝ × Dbl × Dbl), point ⟨s.headD 0, s.tail⟩ = some p → p.1 = s.headD 0 := by
    intro s p hp
    rw [point, Option.map_eq_some_iff] at hp
    obtain ⟨l, -, rfl⟩ := hp
    rfl
  -- split the points as the rows
  obtain ⟨pb, pr, e1, e2, rfl⟩ : ∃ pb pr, List.Forall₂ (fun s p => point ⟨s.headD 0, s.tail⟩ = some p) before pb ∧
      List.Forall₂ (fun s p => point ⟨s.headD 0, s.tail⟩ = some p) ((x :: ys) :: after) pr ∧ ps = pb ++ pr := by
    refine ⟨ps.take before.length, ps.drop before.length, ?_, ?_, (List.take_append_drop _ _).symm⟩
    · have := List.forall₂_take before.length hall
      simpa using this
    · have := List.forall₂_drop before.length hall
      simpa using this
  cases e2 with
  | cons hp e3 =>
    rename_i p pa
    simp only [List.headD_cons, List.tail_cons] at hp
    have hpx : p.1 = x := hx1 (x :: ys) p hp
    have hpn : p.2.2 = .nan := by
      rw [point, Option.map_eq_some_iff] at hp
      obtain ⟨l, hl, rfl⟩ := hp
      have hlen : l.length = (survivors ys).length := by
        by_cases hn : ∃ y ∈ ys, y < 0
        · rw [lnValues_neg hn] at hl; cases hl
        · rw [lnValues_nonneg (fun y hy => not_lt.1 fun hlt => hn ⟨y, hy, hlt⟩)] at hl
          cases hl
          simp
      simp only [std]
      rw [if_pos (by omega)]
    -- the function of the spread
    have hspread : ∃ g, linearFn ((0, .fin 0) :: (pb ++ p :: pa).map (fun p => (p.1, p.2.2))) = .value (some g) ∧ f.2 = g := by
      revert h
      generalize linearFn ((0, Dbl.fin 0) :: (pb ++ p :: pa).map (fun p => (p.1, p.2.1))) = A
      generalize linearFn ((0, Dbl.fin 0) :: (pb ++ p :: pa).map (fun p => (p.1, p.2.2))) = B
      intro h
      unfold probfn at h
      split at h <;> try cases h
      exact ⟨_, rfl, rfl⟩
    obtain ⟨g, hg, hfg⟩ := hspread
    rw [hfg]
    unfold linearFn at hg
    rw [if_neg (by simp)] at hg
    split at hg
    swap
    · cases hg
    rename_i hok
    split at hg
    swap
    · cases hg
    rename_i a b ha hb
    cases hg
    -- the preceding point
    obtain ⟨l, q, hl, hq⟩ : ∃ l q, (0, Dbl.fin 0) :: pb.map (fun p => (p.1, p.2.2)) = l ++ [q] ∧
        q.1 = (before.getLast?.map (fun r => r.headD 0)).getD 0 := by
      rcases List.eq_nil_or_concat' pb with rfl | ⟨pb', q, rfl⟩
      · cases e1
        exact ⟨[], (0, .fin 0), rfl, rfl⟩
      · have hb0 : before ≠ [] := by
          rintro rfl
          cases pb' <;> cases e1
        obtain ⟨b', s, rfl⟩ := (List.eq_nil_or_concat' before).resolve_left hb0
        refine ⟨(0, .fin 0) :: pb'.map (fun p => (p.1, p.2.2)), (q.1, q.2.2), by simp, ?_⟩
        have hlen : b'.length = pb'.length := by
          have := e1.length_eq
          simpa using this
        have := List.forall₂_drop b'.length e1
        rw [List.drop_left, hlen, List.drop_left] at this
        cases this with
        | cons hh _ => simpa using hx1 s q hh
    have hsplit : (0, Dbl.fin 0) :: (pb ++ p :: pa).map (fun p => (p.1, p.2.2)) =
        l ++ q :: (p.1, p.2.2) :: pa.map (fun p => (p.1, p.2.2)) := by
      rw [List.map_append, List.map_cons, ← List.cons_append, hl, List.append_assoc]
      rfl
    have hi : interpD ((0, Dbl.fin 0) :: (pb ++ p :: pa).map (fun p => (p.1, p.2.2))) t = .nan := by
      rw [hsplit]
      apply interpD_nan _ _ _ _ _ hpn
      · rw [hq]; exact ht
      · rw [hpx]; exact htx
      · rw [← hsplit]; exact hok.2
    simp only [linear]
    rw [if_neg, if_neg, hi]
    · -- not beyond the last point
      rw [fin_lt, not_lt]
      have hmem : (p.1, p.2.2) ∈ (0, Dbl.fin 0) :: (pb ++ p :: pa).map (fun p => (p.1, p.2.2)) := by
        rw [hsplit]; simp
      have hbl : p.1 ≤ b.1 := by
        obtain ⟨ini, hini⟩ := List.getLast?_eq_some_iff.1 hb
        have hs := hok.2
        rw [hini] at hmem hs
        rcases List.mem_append.1 hmem with h | h
        · exact ((List.pairwise_append.1 hs).2.2 _ h b (by simp)).le
        · exact (congrArg Prod.fst (List.mem_singleton.1 h)).le
      exact htx.trans (hpx ▸ hbl)
    · -- not before the first point
      rw [fin_lt, not_lt]
      have ha0 : a = (0, .fin 0) := by
        simpa using ha.symm
      rw [ha0]
      refine le_trans ?_ ht
      rw [← hq]
      cases l with
      | nil =>
        simp only [List.nil_append, List.cons.injEq] at hl
        rw [← hl.1]
      | cons c l =>
        simp only [List.cons_append, List.cons.injEq] at hl
        have hs := hok.2
        rw [hsplit, ← hl.1] at hs
        exact ((List.pairwise_cons.1 hs).1 q (by simp)).le

/-- A file with a single row, or with intensities only, cannot be imported. -/
theorem import_single_row_fails (r : List ℝ) : importProbFn [r] = .raises ∧ importIMFn [r] = .raises := by
  simp [importProbFn, importIMFn, loadtxt]

/-! ### Hazard curves -/

/-- A hazard curve imported from at least two rows of positive numbers with strictly increasing intensities passes through the
rows, is a power law between neighbouring rows and keeps the first and last rates beyond the ends. -/
theorem import_hazard (file : List (List ℝ)) (h2 : 2 ≤ file.length) (n : ℕ) (hn : ∀ r ∈ file, r.length = n + 2)
    (hpos : ∀ r ∈ file, ∀ v ∈ r, 0 < v) (hinc : (file.map (fun r => r.headD 0)).Pairwise (· < ·)) :
    ∃ f, importIMFn file = .value f ∧
      (∀ x y l, (x :: y :: l) ∈ file → f (.fin x) = .fin y) ∧
      (∀ l x₁ y₁ l₁ x₂ y₂ l₂ r, file = l ++ (x₁ :: y₁ :: l₁) :: (x₂ :: y₂ :: l₂) :: r → ∀ x : ℝ, x₁ ≤ x → x ≤ x₂ →
        f (.fin x) = .fin (y₁ * (x / x₁) ^ (Real.log (y₂ / y₁) / Real.log (x₂ / x₁)))) ∧
      (∀ x₁ y₁ l₁ r, file = (x₁ :: y₁ :: l₁) :: r → ∀ x : ℝ, x ≤ x₁ → f (.fin x) = .fin y₁) ∧
      (∀ l x₁ y₁ l₁, file = l ++ [x₁ :: y₁ :: l₁] → ∀ x : ℝ, x₁ ≤ x → f (.fin x) = .fin y₁) := by
  have hrow : ∀ r ∈ file, ∃ x y l, r = x :: y :: l := by
    intro r hr
    have := hn r hr
    rcases r with _ | ⟨x, _ | ⟨y, l⟩⟩
    · simp at this
    · simp at this
    · exact ⟨x, y, l, rfl⟩
  have hload : loadtxt file = .rows (file.map (fun s => ⟨s.headD 0, s.tail⟩)) := by
    cases file with
    | nil => simp at h2
    | cons r rs =>
      simp only [loadtxt]
      rw [if_pos, if_neg]
      · have := hn r List.mem_cons_self
        simp only [List.length_cons] at h2
        omega
      · rw [List.all_eq_true]
        intro s hs
        rw [hn s (List.mem_cons_of_mem _ hs), hn r List.mem_cons_self]
        simp
  set pts : List (ℝ × ℝ) := file.map (fun s => (s.headD 0, s.tail.headD 0)) with hpts
  have hmap : (file.map (fun s => (⟨s.headD 0, s.tail⟩ : Row))).mapM (fun r => r.ys.head?.map (fun y => (r.x, y))) =
      some pts := by
    rw [hpts]
    clear hpts pts h2 hinc hload hpos
    induction file with
    | nil => rfl
    | cons r file ih =>
      obtain ⟨x, y, l, rfl⟩ := hrow r List.mem_cons_self
      rw [List.map_cons, List.mapM_cons, ih (fun r hr => hn r (List.mem_cons_of_mem _ hr))
        (fun r hr => hrow r (List.mem_cons_of_mem _ hr))]
      rfl
  have hp : ∀ p ∈ pts, 0 < p.1 ∧ 0 < p.2 := by
    intro p hp
    obtain ⟨r, hr, rfl⟩ := List.mem_map.1 hp
    obtain ⟨x, y, l, rfl⟩ := hrow r hr
    exact ⟨hpos _ hr x (by simp), hpos _ hr y (by simp)⟩
  have hs : pts.Pairwise (fun p q => p.1 < q.1) := by
    rw [hpts, List.pairwise_map]
    rw [List.pairwise_map] at hinc
    exact hinc
  have hlen : 2 ≤ pts.length := by rw [hpts, List.length_map]; exact h2
  obtain ⟨f, hf, f1, f2, f3, -⟩ := Functions.logLog_faithful pts hp hlen hs
  have hzip : (pts.map Prod.fst).zip (pts.map Prod.snd) = pts := by
    rw [List.zip_map']
    exact List.map_id' _
  refine ⟨f, ?_, ?_, ?_, ?_, ?_⟩
  · simp only [importIMFn, hload, hmap, factory3]
    rw [if_neg (by simp only [List.length_map]; omega), hzip, hf]
  · intro x y l hm
    exact f1 (x, y) (List.mem_map.2 ⟨_, hm, rfl⟩)
  · intro l x₁ y₁ l₁ x₂ y₂ l₂ r e x h1 h2
    exact f2 (l.map (fun s => (s.headD 0, s.tail.headD 0))) (x₁, y₁) (x₂, y₂)
      (r.map (fun s => (s.headD 0, s.tail.headD 0))) (by simp [hpts, e]) x h1 h2
  · intro x₁ y₁ l₁ r e x hx
    obtain ⟨b, hb⟩ : ∃ b, pts.getLast? = some b := by
      cases hg : pts.getLast? with
      | none =>
        rw [List.getLast?_eq_none_iff] at hg
        rw [hg] at hlen
        simp at hlen
      | some b => exact ⟨b, rfl⟩
    exact (f3 (x₁, y₁) b (by simp [hpts, e]) hb).1 x hx
  · intro l x₁ y₁ l₁ e x hx
    obtain ⟨a, ha⟩ : ∃ a, pts.head? = some a := by
      cases hg : pts.head? with
      | none =>
        rw [List.head?_eq_none_iff] at hg
        rw [hg] at hlen
        simp at hlen
      | some a => exact ⟨a, rfl⟩
    exact (f3 a (x₁, y₁) ha (by simp [hpts, e])).2 x hx

/-- The first rows of the Red Book hazard curve. -/
example : ∃ f, importIMFn [[1/10, 6/10], [2/10, 3/10], [3/10, 1/10]] = .value f ∧ f (.fin (2/10)) = .fin (3/10) := by
  obtain ⟨f, h1, h2, -⟩ := import_hazard [[1/10, 6/10], [2/10, 3/10], [3/10, 1/10]] (by simp) 0 (by simp)
    (by simp) (by norm_num)
  exact ⟨f, h1, h2 _ _ [] (by simp)⟩

/-! ### Which files are accepted -/

/-- A demand function is made exactly from files of at least two rows of the same length, at least two, without negative
results, with positive strictly increasing intensities. -/
theorem import_accepts_iff (file : List (List ℝ)) :
    (∃ f, importProbFn file = .value f) ↔
      2 ≤ file.length ∧ (∃ n, ∀ r ∈ file, r.length = n + 2) ∧ (∀ r ∈ file, ∀ y ∈ r.tail, 0 ≤ y) ∧
      (0 :: file.map (fun r => r.headD 0)).Pairwise (· < ·) := by
  have hpoint : ∀ (file : List (List ℝ)), (∀ r ∈ file, ∀ y ∈ r.tail, 0 ≤ y) →
      ∃ ps, (file.map (fun s => (⟨s.headD 0, s.tail⟩ : Row))).mapM point = some ps ∧
        ps.map (fun p => p.1) = file.map (fun r => r.headD 0) := by
    intro file h
    induction file with
    | nil => exact ⟨[], rfl, rfl⟩
    | cons r file ih =>
      obtain ⟨ps, h1, h2⟩ := ih (fun s hs => h s (List.mem_cons_of_mem _ hs))
      refine ⟨(r.headD 0, exp (mean ((survivors r.tail).map Real.log)), std ((survivors r.tail).map Real.log)) :: ps, ?_, ?_⟩
      · rw [List.map_cons, List.mapM_cons, h1]
        simp only [point, lnValues_nonneg (h r List.mem_cons_self)]
        rfl
      · simp [h2]
  have hpointN : ∀ (file : List (List ℝ)), ¬ (∀ r ∈ file, ∀ y ∈ r.tail, 0 ≤ y) →
      (file.map (fun s => (⟨s.headD 0, s.tail⟩ : Row))).mapM point = none := by
    intro file h
    induction file with
    | nil => simp at h
    | cons r file ih =>
      rw [List.map_cons, List.mapM_cons]
      by_cases hr : ∀ y ∈ r.tail, 0 ≤ y
      · have : ¬ (∀ r ∈ file, ∀ y ∈ r.tail, 0 ≤ y) := by
          intro hh
          apply h
          intro s hs
          rcases List.mem_cons.1 hs with rfl | hs
          · exact hr
          · exact hh s hs
        rw [ih this]
        cases point ⟨r.headD 0, r.tail⟩ <;> rfl
      · push Not at hr
        rw [point, lnValues_neg hr]
        rfl
  have hlin : ∀ (file : List (List ℝ)) (ps : List (ℝ × Dbl × Dbl)) (c : ℝ × Dbl × Dbl → Dbl), 1 ≤ ps.length →
      ps.map (fun p => p.1) = file.map (fun r => r.headD 0) →
      ((0 :: file.map (fun r => r.headD 0)).Pairwise (· < ·) →
        ∃ g, linearFn ((0, .fin 0) :: ps.map (fun p => (p.1, c p))) = .value (some g)) ∧
      (¬ (0 :: file.map (fun r => r.headD 0)).Pairwise (· < ·) →
        linearFn ((0, .fin 0) :: ps.map (fun p => (p.1, c p))) = .dies) := by
    intro file ps c hlen he
    have hpw : ((0, Dbl.fin 0) :: ps.map (fun p => (p.1, c p))).Pairwise (fun p q => p.1 < q.1) ↔
        (0 :: file.map (fun r => r.headD 0)).Pairwise (· < ·) := by
      rw [← he, ← List.pairwise_map (f := Prod.fst) (R := (· < ·)), List.map_cons, List.map_map]
      rfl
    have hl2 : 2 ≤ ((0, Dbl.fin 0) :: ps.map (fun p => (p.1, c p))).length := by
      simp only [List.length_cons, List.length_map]
      omega
    constructor
    · intro hp
      unfold linearFn
      rw [if_neg (by omega), if_pos ⟨hl2, hpw.2 hp⟩]
      cases hg : ((0, Dbl.fin 0) :: ps.map (fun p => (p.1, c p))).getLast? with
      | none => simp at hg
      | some b => exact ⟨_, rfl⟩
    · intro hp
      unfold linearFn
      rw [if_neg (by omega), if_neg]
      exact fun h => hp (hpw.1 h.2)
  cases file with
  | nil => simp [importProbFn, loadtxt, tables, linearFn, probfn]
  | cons r rs =>
    by_cases hrect : (rs.all (fun s => s.length == r.length)) = true
    · by_cases hflat : rs.length = 0 ∨ r.length < 2
      · have : importProbFn (r :: rs) = .raises := by
          simp only [importProbFn, loadtxt]
          rw [if_pos hrect, if_pos hflat]
        rw [this]
        simp only [reduceCtorEq, exists_false, false_iff]
        rintro ⟨h1, ⟨n, hn⟩, -⟩
        have := hn r List.mem_cons_self
        simp only [List.length_cons] at h1
        omega
      · have hlen : 2 ≤ (r :: rs).length := by
          simp only [List.length_cons]
          omega
        have hn : ∃ n, ∀ s ∈ r :: rs, s.length = n + 2 := by
          refine ⟨r.length - 2, fun s hs => ?_⟩
          rw [List.all_eq_true] at hrect
          rcases List.mem_cons.1 hs with rfl | hs
          · omega
          · have := hrect s hs
            simp only [beq_iff_eq] at this
            omega
        have hld : loadtxt (r :: rs) = .rows ((r :: rs).map (fun s => ⟨s.headD 0, s.tail⟩)) := by
          simp only [loadtxt]
          rw [if_pos hrect, if_neg hflat]
        by_cases hneg : ∀ s ∈ r :: rs, ∀ y ∈ s.tail, 0 ≤ y
        · obtain ⟨ps, h1, h2⟩ := hpoint (r :: rs) hneg
          have hl : 1 ≤ ps.length := by
            have := congrArg List.length h2
            simp only [List.length_map] at this
            omega
          have e : importProbFn (r :: rs) = probfn
              (linearFn ((0, .fin 0) :: ps.map (fun p => (p.1, p.2.1))))
              (linearFn ((0, .fin 0) :: ps.map (fun p => (p.1, p.2.2)))) := by
            simp only [importProbFn, hld, tables, h1, Option.map_some]
          rw [e]
          by_cases hp : (0 :: (r :: rs).map (fun r => r.headD 0)).Pairwise (· < ·)
          · obtain ⟨g1, e1⟩ := (hlin (r :: rs) ps (fun p => p.2.1) hl h2).1 hp
            obtain ⟨g2, e2⟩ := (hlin (r :: rs) ps (fun p => p.2.2) hl h2).1 hp
            rw [e1, e2]
            exact ⟨fun _ => ⟨hlen, hn, hneg, hp⟩, fun _ => ⟨_, rfl⟩⟩
          · rw [(hlin (r :: rs) ps (fun p => p.2.1) hl h2).2 hp, (hlin (r :: rs) ps (fun p => p.2.2) hl h2).2 hp]
            simp only [probfn, reduceCtorEq, exists_false, false_iff]
            exact fun h => hp h.2.2.2
        · have : importProbFn (r :: rs) = .raises := by
            simp only [importProbFn, hld, tables, hpointN _ hneg, Option.map_none]
          rw [this]
          simp only [reduceCtorEq, exists_false, false_iff]
          exact fun h => hneg h.2.2.1
    · have : importProbFn (r :: rs) = .raises := by
        simp only [importProbFn, loadtxt]
        rw [if_neg hrect]
      rw [this]
      simp only [reduceCtorEq, exists_false, false_iff]
      rintro ⟨-, ⟨n, hn⟩, -⟩
      apply hrect
      rw [List.all_eq_true]
      intro s hs
      rw [hn s (List.mem_cons_of_mem _ hs), hn r List.mem_cons_self]
      simp

example : ∃ f, importProbFn [[1, 2, 8], [2, 3, 0], [3, 4, 5]] = .value f :=
  (import_accepts_iff _).2 ⟨by simp, ⟨1, by simp⟩, by simp, by norm_num⟩

/-- `import_collapsed_row_fails`: the second of three rows has a single result that is not a collapse. -/
example : ∃ f, importProbFn [[1, 2, 8], [2, 3, 0], [3, 4, 5]] = .value f ∧ f.2 (.fin (3/2)) = .nan := by
  obtain ⟨f, hf⟩ := (import_accepts_iff [[1, 2, 8], [2, 3, 0], [3, 4, 5]]).2
    ⟨by simp, ⟨1, by simp⟩, by simp, by norm_num⟩
  refine ⟨f, hf, ?_⟩
  exact import_collapsed_row_fails [[1, 2, 8]] [[3, 4, 5]] 2 [3, 0] (by simp [survivors]) f hf (3/2)
    (by norm_num) (by norm_num)

end Slat.Import
