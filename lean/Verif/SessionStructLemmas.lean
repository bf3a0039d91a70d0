import Verif.SessionStructSpec
import Verif.SessionRatesProps
import Verif.StructureProps

/-!
# Helper lemmas: sessions and the costs of structures
-/

namespace Slat.Session

open MeasureTheory Set Filter Topology

noncomputable section

open Interp (Mu Sd Cmd)

/-- A lognormal cost with a mean and a mean square; see /repo/src/lognormaldist.cpp:26-38 for a mean of nothing. -/
def lognormal (m s : ℝ) : LogNormalDist :=
  ⟨if m = 0 then .ninf else .fin (Real.log m - Spec.logSpread m s ^ 2 / 2), .fin (Spec.logSpread m s)⟩

/-- A mean and a mean square of a loss. -/
def Moments (m s : ℝ) : Prop := 0 ≤ m ∧ m ^ 2 ≤ s ∧ (m = 0 → s = 0)

theorem Moments.of_pos {m s : ℝ} (hm : 0 < m) (hs : m ^ 2 ≤ s) : Moments m s := ⟨hm.le, hs, fun h => absurd h hm.ne'⟩

theorem squareFor_moments {v : ℝ × ℝ} (h : 0 ≤ v.1) : Moments v.1 (Spec.squareFor v) := by
  unfold Spec.squareFor
  refine ⟨h, ?_, fun e => by rw [if_pos e]⟩
  split_ifs with e
  · rw [e, zero_pow two_ne_zero]
  · exact le_max_right _ _

theorem logSpread_sq {m s : ℝ} (hm : 0 < m) (hs : m ^ 2 ≤ s) :
    Spec.logSpread m s = Real.sqrt (Real.log (1 + (s - m ^ 2) / m ^ 2)) := by
  rw [Spec.logSpread, if_neg hm.ne']
  congr 2
  field_simp
  ring

theorem lognormal_pos {m s : ℝ} (hm : 0 < m) (hs : m ^ 2 ≤ s) :
    LogNormalDist.ofMeanSigma (.fin m) (.fin (Real.sqrt (s - m ^ 2))) = lognormal m s := by
  have hm2 : m * m ≠ 0 := mul_ne_zero hm.ne' hm.ne'
  have hp : 0 < m * m := mul_self_pos.2 hm.ne'
  have hq : 0 ≤ (s - m ^ 2) / m ^ 2 := div_nonneg (by linarith) (sq_nonneg m)
  have e : LogNormalDist.sigmaLnFromMeanSigma (.fin m) (.fin (Real.sqrt (s - m ^ 2))) = .fin (Spec.logSpread m s) := by
    unfold LogNormalDist.sigmaLnFromMeanSigma
    simp only [Dbl.zero_def, Dbl.fin_feq, hm.ne', if_false, Dbl.fin_mul]
    rw [Real.mul_self_sqrt (by linarith), Dbl.fin_div_of_ne hm2, Dbl.one_def, Dbl.fin_add, ← pow_two,
      Dbl.log_pos (by linarith), Dbl.sqrt_fin (Real.log_nonneg (by linarith)), logSpread_sq hm hs]
  rw [LogNormalDist.ofMeanSigma, e]
  simp only [lognormal, LogNormalDist.muFromMeanSigmaLn, Dbl.log_pos hm, Dbl.fin_mul, Dbl.fin_div_two, Dbl.fin_sub,
    pow_two, hm.ne', if_false]

theorem lognormal_zero (s : ℝ) : lognormal 0 s = ⟨.ninf, .fin 0⟩ := by
  simp [lognormal, Spec.logSpread]

theorem lognormal_made {m s : ℝ} (h1 : 0 ≤ m) (h2 : m ^ 2 ≤ s) :
    LogNormalDist.ofMeanSigma (.fin m) (.fin (Real.sqrt (s - m ^ 2))) = lognormal m s := by
  rcases h1.lt_or_eq with hm | hm
  · exact lognormal_pos hm h2
  · subst hm
    rw [LogNormalDist.ofMeanSigma_zero, lognormal_zero]

theorem lognormal_eq {m s : ℝ} (h : Moments m s) :
    LogNormalDist.ofMeanSigma (.fin m) (.fin (Real.sqrt (s - m ^ 2))) = lognormal m s :=
  lognormal_made h.1 h.2.1

theorem lognormal_reports {m s : ℝ} (h : Moments m s) :
    (lognormal m s).Proper ∧ (lognormal m s).getMean = .fin m ∧ (lognormal m s).getSigma = .fin (Real.sqrt (s - m ^ 2)) := by
  rw [← lognormal_eq h]
  obtain ⟨h1, h2, h3⟩ := h
  refine ⟨LogNormalDist.proper_ofMeanSigma h1 _, ?_⟩
  rcases h1.lt_or_eq with hm | hm
  · refine ⟨LogNormalDist.getMean_ofMeanSigma_pos hm _, ?_⟩
    rw [LogNormalDist.getSigma_ofMeanSigma_pos hm, abs_of_nonneg (Real.sqrt_nonneg _)]
  · subst hm
    rw [LogNormalDist.ofMeanSigma_zero, LogNormalDist.getMean_ninf, LogNormalDist.getSigma_ninf, h3 rfl]
    simp

/-- The moments of a sum. -/
theorem sum_moments {l : List (ℝ × ℝ)} (h : ∀ v ∈ l, 0 ≤ v.1) : Moments (Spec.sumOf l).1 (Spec.sumOf l).2 := by
  have h1 : 0 ≤ (l.map (·.1)).sum := by
    refine List.sum_nonneg ?_
    intro a ha
    obtain ⟨v, hv, rfl⟩ := List.mem_map.1 ha
    exact h v hv
  have h2 : 0 ≤ (l.map fun v => Spec.squareFor v - v.1 ^ 2).sum := by
    refine List.sum_nonneg ?_
    intro a ha
    obtain ⟨v, hv, rfl⟩ := List.mem_map.1 ha
    linarith [(squareFor_moments (h v hv)).2.1]
  refine ⟨h1, ?_, fun h0 => ?_⟩
  · simp only [Spec.sumOf]
    linarith
  · have hz : ∀ v ∈ l, v.1 = 0 := by
      intro v hv
      refine le_antisymm (h0 ▸ List.single_le_sum (l := l.map (·.1)) ?_ _ (List.mem_map.2 ⟨v, hv, rfl⟩)) (h v hv)
      intro a ha
      obtain ⟨v, hv, rfl⟩ := List.mem_map.1 ha
      exact h v hv
    simp only [Spec.sumOf] at h0 ⊢
    rw [h0, zero_pow two_ne_zero, zero_add]
    refine List.sum_eq_zero ?_
    intro a ha
    obtain ⟨v, hv, rfl⟩ := List.mem_map.1 ha
    rw [Spec.squareFor, if_pos (hz v hv), hz v hv]
    norm_num

/-- What is set as a cost. -/
theorem cost_reports {r : Option (Mu × Sd × ℝ × ℝ)} (hr : ∀ q ∈ r, Spec.Meant q.1 q.2.1 q.2.2.1 q.2.2.2)
    (hs : r.isSome) : ((r.map made).getD LogNormalDist.unset).Proper ∧ ∃ σ : ℝ,
      ((r.map made).getD LogNormalDist.unset).Reports (Spec.costOf r).1 σ ∧
      (Spec.costOf r).1 ^ 2 + σ ^ 2 = (Spec.costOf r).2 := by
  obtain ⟨⟨mu, sp, a, b⟩, rfl⟩ := Option.isSome_iff_exists.1 hs
  have h := hr _ rfl
  simp only [Option.map_some, Option.getD_some, made_eq h, Spec.costOf]
  set p := Spec.logPair mu sp a b with hp
  have e : 0 ≤ Real.exp (p.2 * p.2) - 1 := LogNormalDist.expm1_nonneg _
  refine ⟨⟨_, rfl, Or.inl ⟨_, rfl⟩⟩, Spec.mean p * Real.sqrt (Real.exp (p.2 * p.2) - 1), ⟨?_, ?_⟩, ?_⟩
  · rw [LogNormalDist.getMean_fin, Spec.mean, pow_two]
  · rw [LogNormalDist.getSigma_fin, Spec.mean, pow_two]
  · rw [mul_pow, Real.sq_sqrt e, ← pow_two]
    ring

/-- The probabilities of the fates. -/
theorem fate_range {c d : Option (Mu × Sd × ℝ × ℝ)} {x : ℝ} (hx : 0 < x)
    (hd : ∀ q ∈ d, Spec.Meant q.1 q.2.1 q.2.2.1 q.2.2.2 ∧ 0 < q.2.2.2) (hp : 0 ≤ Spec.pDemolition c d x) :
    0 ≤ Spec.pCollapse c x ∧ 0 ≤ Spec.pLost c d x ∧ Spec.pLost c d x < 1 := by
  have h0 : 0 ≤ Spec.pCollapse c x ∧ Spec.pCollapse c x < 1 := by
    rcases c with _ | ⟨mu, sp, a, b⟩
    · exact ⟨le_rfl, zero_lt_one⟩
    · exact ⟨Phi_nonneg _, Phi_lt_one _⟩
  refine ⟨h0.1, add_nonneg h0.1 hp, ?_⟩
  rcases d with _ | ⟨mu, sp, a, b⟩
  · simpa [Spec.pLost, Spec.pDemolition] using h0.2
  · simpa [Spec.pLost, Spec.pDemolition, Spec.below] using
      Phi_lt_one ((Real.log x - (Spec.logPair mu sp a b).1) / (Spec.logPair mu sp a b).2)

/-- The costs of the groups. -/
theorem groups_found {maq : Rates.Maq} {gsl : Rates.Gsl} {ε : ℝ} {gs : List Group} {Gs : List Spec.Components} {x : ℝ}
    (hg : Rates.Differentiates gsl) (hG : List.Forall₂ Group.Is gs Gs) (hx : 0 < x)
    (hp : ∀ G ∈ Gs, Spec.Payable maq ε x G) :
    ∃ l : List (ℝ × ℝ), List.Forall₂ (Spec.FindsCost maq x) Gs l ∧
      (∀ v ∈ l, 0 ≤ v.1) ∧
      gs.map (fun g => g.costAt (integrated maq gsl) (.fin x)) = l.map fun v => lognormal v.1 (Spec.squareFor v) := by
  induction hG with
  | nil => exact ⟨[], .nil, by simp, rfl⟩
  | @cons g G gs Gs h1 h2 ih =>
    obtain ⟨l, i1, i2, i3⟩ := ih fun G hG => hp G (List.mem_cons_of_mem _ hG)
    obtain ⟨a1, a2, a3, a4, a5, a6, a7, a8, a9, a10⟩ := hp G List.mem_cons_self
    obtain ⟨m, s, e1, e2, e3, e4⟩ := cost_found (maq := maq) hg h1 a2 hx a1 a3 a4 a5 a6 a7 a8 a9
    refine ⟨(m, s) :: l, .cons ⟨e3, e4⟩ i1, ?_, ?_⟩
    · intro v hv
      rcases List.mem_cons.1 hv with rfl | hv
      · exact a10 _ e3
      · exact i2 v hv
    · rw [List.map_cons, List.map_cons, i3]
      congr 1
      rcases (a10 _ e3).lt_or_eq with hm | hm
      · simp only [Group.costAt, e1, e2, LogNormalDist.ofMeanSigmaLn, LogNormalDist.muFromMeanSigmaLn, Dbl.log_pos hm,
          Dbl.fin_mul, Dbl.fin_div_two, Dbl.fin_sub, lognormal, pow_two, Spec.squareFor, hm.ne', if_false]
      · subst hm
        rw [lognormal_zero]
        simp [Group.costAt, e1, e2, LogNormalDist.ofMeanSigmaLn, LogNormalDist.muFromMeanSigmaLn, Spec.logSpread]

theorem cost_nothing {p : ℝ} {r : Option (Mu × Sd × ℝ × ℝ)} (h : p * (Spec.costOf r).1 = 0) : p * (Spec.costOf r).2 = 0 := by
  rcases mul_eq_zero.1 h with h | h
  · rw [h, zero_mul]
  · rcases r with _ | ⟨mu, sp, a, b⟩
    · exact mul_zero _
    · exact absurd h (Real.exp_pos _).ne'

/-- The total cost of a structure. -/
theorem total_found {maq : Rates.Maq} {gsl : Rates.Gsl} {ε : ℝ} {b : Building} {Gs : List Spec.Components} {x : ℝ}
    {c d r k : Option (Mu × Sd × ℝ × ℝ)} {F : Fates}
    (hg : Rates.Differentiates gsl) (hG : List.Forall₂ Group.Is b.groups Gs) (hx : 0 < x)
    (hp : ∀ G ∈ Gs, Spec.Payable maq ε x G) (hF1 : F.collapse = c.map made) (hF2 : F.demolition = d.map made)
    (hr : b.rebuild = (r.map made).getD LogNormalDist.unset)
    (hk : b.demolition = (k.map made).getD LogNormalDist.unset) (hcov : Spec.Covered c d r k)
    (hpd : 0 ≤ Spec.pDemolition c d x) :
    ∃ l : List (ℝ × ℝ), List.Forall₂ (Spec.FindsCost maq x) Gs l ∧
      Moments (Spec.total c d r k x l).1 (Spec.total c d r k x l).2 ∧
      (b.costs (integrated maq gsl) (some F)).totalCost (.fin x) =
        some (lognormal (Spec.total c d r k x l).1 (Spec.total c d r k x l).2) ∧
      ((b.costs (integrated maq gsl) (some F)).costsByFate (.fin x)).1.getMean =
        .fin ((1 - Spec.pLost c d x) * (Spec.sumOf l).1) ∧
      (k.isSome → ((b.costs (integrated maq gsl) (some F)).costsByFate (.fin x)).2.1.getMean =
        .fin (Spec.pDemolition c d x * (Spec.costOf k).1)) ∧
      (r.isSome → ((b.costs (integrated maq gsl) (some F)).costsByFate (.fin x)).2.2.getMean =
        .fin (Spec.pCollapse c x * (Spec.costOf r).1)) := by
  obtain ⟨l, l1, l2, l3⟩ := groups_found hg hG hx hp
  obtain ⟨p1, p2, p3⟩ := fate_range (c := c) hx hcov.demolition hpd
  obtain ⟨f1, f2, f3⟩ := fates_eq hcov.collapse hcov.demolition hF1 hF2 hx
  set s := b.costs (integrated maq gsl) (some F) with hs
  have hcomps : s.comps (.fin x) = l.map fun v => lognormal v.1 (Spec.squareFor v) := l3
  have hprop : ∀ g ∈ s.comps (.fin x), g.Proper := by
    rw [hcomps]
    intro g hg
    obtain ⟨v, hv, rfl⟩ := List.mem_map.1 hg
    exact (lognormal_reports (squareFor_moments (l2 v hv))).1
  have hall : LogNormalDist.ReportsAll (s.comps (.fin x))
      (l.map fun v => (v.1, Real.sqrt (Spec.squareFor v - v.1 ^ 2))) := by
    rw [hcomps, LogNormalDist.ReportsAll, List.forall₂_map_left_iff, List.forall₂_map_right_iff]
    exact List.forall₂_same.2 fun v hv => (lognormal_reports (squareFor_moments (l2 v hv))).2
  obtain ⟨q1, σ1, q2, q3, q4⟩ := LogNormalDist.add_adds_moments _ hprop _ hall
  have em : LogNormalDist.sumMean (l.map fun v => (v.1, Real.sqrt (Spec.squareFor v - v.1 ^ 2))) = (Spec.sumOf l).1 := by
    simp [LogNormalDist.sumMean, Spec.sumOf, Function.comp_def]
  have ev : LogNormalDist.sumVar (l.map fun v => (v.1, Real.sqrt (Spec.squareFor v - v.1 ^ 2))) =
      (l.map fun v => Spec.squareFor v - v.1 ^ 2).sum := by
    simp only [LogNormalDist.sumVar, List.map_map, Function.comp_def]
    congr 1
    refine List.map_congr_left fun v hv => Real.sq_sqrt ?_
    linarith [(squareFor_moments (l2 v hv)).2.1]
  rw [em] at q2
  rw [ev] at q4
  have eq : (Spec.sumOf l).1 ^ 2 + σ1 ^ 2 = (Spec.sumOf l).2 := by
    rw [q4]
    rfl
  have hsum := sum_moments l2
  -- what is known of the other costs
  have hD : ∃ σ : ℝ, (0 < Spec.pDemolition c d x → s.demolition.Reports (Spec.costOf k).1 σ) ∧
      (Spec.costOf k).1 ^ 2 + σ ^ 2 = (Spec.costOf k).2 ∧ (k.isSome → s.demolition.Proper ∧ s.demolition.Reports (Spec.costOf k).1 σ) ∧
      0 ≤ (Spec.costOf k).1 := by
    cases hk' : k with
    | none =>
      refine ⟨0, fun h => ?_, by simp [Spec.costOf], by simp, le_rfl⟩
      exfalso
      cases hd' : d with
      | none => rw [hd'] at h; exact lt_irrefl _ h
      | some q =>
        have := hcov.fee (by rw [hd']; rfl)
        rw [hk'] at this
        cases this
    | some q =>
      obtain ⟨a, σ, a1, a2⟩ := cost_reports hcov.clear (by rw [hk']; rfl)
      rw [← hk] at a a1
      rw [hk'] at a1 a2
      exact ⟨σ, fun _ => a1, a2, fun _ => ⟨a, a1⟩, (Real.exp_pos _).le⟩
  have hR : ∃ σ : ℝ, (0 < Spec.pCollapse c x → s.rebuild.Reports (Spec.costOf r).1 σ) ∧
      (Spec.costOf r).1 ^ 2 + σ ^ 2 = (Spec.costOf r).2 ∧ (r.isSome → s.rebuild.Proper ∧ s.rebuild.Reports (Spec.costOf r).1 σ) ∧
      0 ≤ (Spec.costOf r).1 := by
    cases hr' : r with
    | none =>
      refine ⟨0, fun h => ?_, by simp [Spec.costOf], by simp, le_rfl⟩
      exfalso
      cases hc' : c with
      | none => rw [hc'] at h; exact lt_irrefl _ h
      | some q =>
        have := hcov.price (by rw [hc']; rfl)
        rw [hr'] at this
        cases this
    | some q =>
      obtain ⟨a, σ, a1, a2⟩ := cost_reports hcov.rebuild (by rw [hr']; rfl)
      rw [← hr] at a a1
      rw [hr'] at a1 a2
      exact ⟨σ, fun _ => a1, a2, fun _ => ⟨a, a1⟩, (Real.exp_pos _).le⟩
  obtain ⟨σ2, d1, d2, d3, d4⟩ := hD
  obtain ⟨σ3, r1, r2, r3, r4⟩ := hR
  have e1 : StructCosts.mix3 (1 - Spec.pLost c d x) (Spec.pDemolition c d x) (Spec.pCollapse c x) (Spec.sumOf l).1
      (Spec.costOf k).1 (Spec.costOf r).1 = (Spec.total c d r k x l).1 := rfl
  have e2 : StructCosts.mix3 (1 - Spec.pLost c d x) (Spec.pDemolition c d x) (Spec.pCollapse c x)
      ((Spec.sumOf l).1 ^ 2 + σ1 ^ 2) ((Spec.costOf k).1 ^ 2 + σ2 ^ 2) ((Spec.costOf r).1 ^ 2 + σ3 ^ 2) =
      (Spec.total c d r k x l).2 := by
    rw [eq, d2, r2]
    rfl
  have h1 : 0 ≤ (1 - Spec.pLost c d x) * (Spec.sumOf l).1 := mul_nonneg (by linarith) hsum.1
  have h2 := mul_nonneg hpd d4
  have h3 := mul_nonneg p1 r4
  have hpos : 0 ≤ (Spec.total c d r k x l).1 := by
    simp only [Spec.total]
    linarith
  have hsq : (Spec.total c d r k x l).1 ^ 2 ≤ (Spec.total c d r k x l).2 := by
    rw [← e2]
    simp only [StructCosts.mix3, Spec.total]
    have hsum1 : (1 - Spec.pLost c d x) + Spec.pDemolition c d x + Spec.pCollapse c x = 1 := by
      simp only [Spec.pLost]
      ring
    set u := 1 - Spec.pLost c d x
    set v := Spec.pDemolition c d x
    set w := Spec.pCollapse c x
    set A := (Spec.sumOf l).1
    set B := (Spec.costOf k).1
    set C := (Spec.costOf r).1
    have hu : 0 ≤ u := by show 0 ≤ 1 - Spec.pLost c d x; linarith
    have hw : w = 1 - u - v := by linarith
    have j1 := mul_nonneg (mul_nonneg hu hpd) (sq_nonneg (A - B))
    have j2 := mul_nonneg (mul_nonneg hu p1) (sq_nonneg (A - C))
    have j3 := mul_nonneg (mul_nonneg hpd p1) (sq_nonneg (B - C))
    have j4 := mul_nonneg hu (sq_nonneg σ1)
    have j5 := mul_nonneg hpd (sq_nonneg σ2)
    have j6 := mul_nonneg p1 (sq_nonneg σ3)
    have key : u * (A ^ 2 + σ1 ^ 2) + v * (B ^ 2 + σ2 ^ 2) + w * (C ^ 2 + σ3 ^ 2) - (u * A + v * B + w * C) ^ 2 =
        u * v * (A - B) ^ 2 + u * w * (A - C) ^ 2 + v * w * (B - C) ^ 2 + u * σ1 ^ 2 + v * σ2 ^ 2 + w * σ3 ^ 2 := by
      rw [hw]
      ring
    linarith
  have hzero : (Spec.total c d r k x l).1 = 0 → (Spec.total c d r k x l).2 = 0 := by
    intro h0
    have h0' : (1 - Spec.pLost c d x) * (Spec.sumOf l).1 + Spec.pDemolition c d x * (Spec.costOf k).1 +
      Spec.pCollapse c x * (Spec.costOf r).1 = 0 := h0
    have z1 : (1 - Spec.pLost c d x) * (Spec.sumOf l).1 = 0 := by linarith
    have z2 : Spec.pDemolition c d x * (Spec.costOf k).1 = 0 := by linarith
    have z3 : Spec.pCollapse c x * (Spec.costOf r).1 = 0 := by linarith
    have y1 : (Spec.sumOf l).2 = 0 := hsum.2.2 ((mul_eq_zero.1 z1).resolve_left (by linarith))
    have y2 : Spec.pDemolition c d x * (Spec.costOf k).2 = 0 := cost_nothing z2
    have y3 : Spec.pCollapse c x * (Spec.costOf r).2 = 0 := cost_nothing z3
    simp only [Spec.total, y1, y2, y3, mul_zero, add_zero]
  refine ⟨l, l1, ⟨hpos, hsq, hzero⟩, ?_, ?_, ?_, ?_⟩
  · have := StructCosts.totalCost_eq s F rfl (.fin x) _ _ _ f3 f2 f1 hpd p1 _ _ _ _ _ _ q2 d1 r1 (by
      rw [e1, e2]
      linarith)
    rw [this, e1, e2, lognormal_eq ⟨hpos, hsq, hzero⟩]
  all_goals
    have scale : ∀ (g : LogNormalDist) (p m v : ℝ), g.Proper → g.Reports m v → 0 ≤ p →
        (g.adjust (.fin p)).getMean = .fin (p * m) := by
      intro g p m v hg hr hp
      rcases hp.lt_or_eq with h | h
      · exact (LogNormalDist.scaling g hg p m v h hr).1.1
      · subst h
        rw [(LogNormalDist.scaling g hg 1 m v one_pos hr).2.2.2.2.1, zero_mul]
  · show ((s.costNC (.fin x)).adjust (F.pRepair (.fin x))).getMean = _
    rw [f3]
    exact scale _ _ _ _ q1 q2 (by linarith)
  · intro h
    show (s.demolition.adjust (F.pDemolition (.fin x))).getMean = _
    rw [f2]
    exact scale _ _ _ _ (d3 h).1 (d3 h).2 hpd
  · intro h
    show (s.rebuild.adjust (F.pCollapse (.fin x))).getMean = _
    rw [f1]
    exact scale _ _ _ _ (r3 h).1 (r3 h).2 p1

/-- What is found is near to what is meant. -/
theorem total_near {maq : Rates.Maq} {ε : ℝ} {Gs : List Spec.Components} {x : ℝ} {c d r k : Option (Mu × Sd × ℝ × ℝ)}
    {l : List (ℝ × ℝ)} (hl : List.Forall₂ (Spec.FindsCost maq x) Gs l) (hp : ∀ G ∈ Gs, Spec.Payable maq ε x G)
    (h0 : 0 ≤ Spec.pLost c d x) (h1 : Spec.pLost c d x < 1) :
    |(Spec.total c d r k x l).1 - Spec.meanTotal c d r k Gs x| ≤ Gs.length * ε := by
  have hs : |(l.map (·.1)).sum - (Gs.map fun G => Spec.groupMean G x).sum| ≤ Gs.length * ε := by
    induction hl with
    | nil => simp
    | @cons G v Gs l h2 h3 ih =>
      have h4 := ih fun G hG => hp G (List.mem_cons_of_mem _ hG)
      have h5 := h2.1.near (hp G List.mem_cons_self).mean
      simp only [List.map_cons, List.sum_cons, List.length_cons, Nat.cast_add, Nat.cast_one]
      have h5' : |v.1 - Spec.groupMean G x| ≤ ε := h5
      rw [abs_le] at *
      constructor <;> linarith [h4.1, h4.2, h5'.1, h5'.2]
  have e : (Spec.total c d r k x l).1 - Spec.meanTotal c d r k Gs x =
      (1 - Spec.pLost c d x) * ((l.map (·.1)).sum - (Gs.map fun G => Spec.groupMean G x).sum) := by
    simp only [Spec.total, Spec.meanTotal, Spec.sumOf]
    ring
  rw [e, abs_mul, abs_of_nonneg (by linarith)]
  exact (mul_le_of_le_one_left (abs_nonneg _) (by linarith)).trans hs

/-- The annual cost. -/
theorem annual_found {maq : Rates.Maq} {gsl : Rates.Gsl} {ε ε' : ℝ} {Gs : List Spec.Components} {h h' : ℝ → ℝ}
    {c d r k : Option (Mu × Sd × ℝ × ℝ)} {curve : Dbl → Dbl} {total : Dbl → LogNormalDist} {l : ℝ → List (ℝ × ℝ)}
    (hg : Rates.Differentiates gsl) (ha : Agree curve h) (hd : ∀ x, 0 < x → HasDerivAt h (h' x) x)
    (hp : ∀ x, 0 < x → ∀ G ∈ Gs, Spec.Payable maq ε x G)
    (hl : ∀ x, 0 < x → List.Forall₂ (Spec.FindsCost maq x) Gs (l x))
    (h2 : ∀ x, 0 < x → Moments (Spec.total c d r k x (l x)).1 (Spec.total c d r k x (l x)).2)
    (ht : ∀ x, 0 < x → total (.fin x) = lognormal (Spec.total c d r k x (l x)).1 (Spec.total c d r k x (l x)).2)
    (h0 : ∀ x, 0 < x → 0 ≤ Spec.pLost c d x ∧ Spec.pLost c d x < 1) (hI : Spec.Yearly maq ε' c d r k Gs h') :
    ∃ m q : ℝ, 0 ≤ m ∧ calcAnnualCost maq true total (gsl.deriv curve) = lognormal m (m ^ 2 + |q - m ^ 2|) ∧
      |m - Spec.perYear (fun x => (Spec.total c d r k x (l x)).1) h'| ≤ ε' ∧
      |q - Spec.perYear (fun x => (Spec.total c d r k x (l x)).2) h'| ≤ ε' ∧
      |m - Spec.perYear (Spec.meanTotal c d r k Gs) h'| ≤
        ε' + Gs.length * ε * ∫ x in Ioi (0 : ℝ), |h' x| := by
  have hT : Spec.Totals maq c d r k Gs fun x => Spec.total c d r k x (l x) := fun x hx => ⟨l x, hl x hx, rfl⟩
  have hA := hI.mean _ hT
  obtain ⟨m, m1, m2⟩ := hA.answer (fun x => (total x).getMean * Dbl.abs (gsl.deriv curve x)) (by
    intro x hx
    rw [ht x hx, (lognormal_reports (h2 x hx)).2.1, slope hg ha hd hx, Dbl.fin_mul])
  obtain ⟨q, q1, q2⟩ := (hI.square _ hT).answer (fun x => ((total x).getMean * (total x).getMean +
      (total x).getSigma * (total x).getSigma) * Dbl.abs (gsl.deriv curve x)) (by
    intro x hx
    obtain ⟨-, a1, a2⟩ := lognormal_reports (h2 x hx)
    rw [ht x hx, a1, a2, slope hg ha hd hx, Dbl.fin_mul, Dbl.fin_mul, Real.mul_self_sqrt (by linarith [(h2 x hx).2.1]),
      Dbl.fin_add, Dbl.fin_mul]
    congr 2
    ring)
  have hm : 0 ≤ m := hI.some_ _ m hT ⟨_, (by
    intro x hx
    rw [ht x hx, (lognormal_reports (h2 x hx)).2.1, slope hg ha hd hx, Dbl.fin_mul]), m1⟩
  refine ⟨m, q, hm, ?_, m2, q2, ?_⟩
  · have e := lognormal_made hm (show m ^ 2 ≤ m ^ 2 + |q - m ^ 2| by linarith [abs_nonneg (q - m ^ 2)])
    rw [add_sub_cancel_left] at e
    rw [← e]
    simp only [calcAnnualCost, m1, q1, if_true, Dbl.fin_mul, Dbl.fin_sub, Dbl.abs_fin, ← sq]
    rw [Dbl.sqrt_fin (abs_nonneg _)]
  · have hw := hI.weight
    have hdiff : |Spec.perYear (fun x => (Spec.total c d r k x (l x)).1) h' -
        Spec.perYear (Spec.meanTotal c d r k Gs) h'| ≤ Gs.length * ε * ∫ x in Ioi (0 : ℝ), |h' x| := by
      rw [Spec.perYear, Spec.perYear, ← integral_sub hA.integrable hI.whole, ← integral_const_mul]
      refine (abs_integral_le_integral_abs).trans ?_
      refine setIntegral_mono_on (hA.integrable.sub hI.whole).abs (hw.const_mul _) measurableSet_Ioi fun x hx => ?_
      rw [← sub_mul, abs_mul, abs_abs]
      exact mul_le_mul_of_nonneg_right (total_near (hl x hx) (hp x hx) (h0 x hx).1 (h0 x hx).2) (abs_nonneg _)
    have := abs_sub_le m (Spec.perYear (fun x => (Spec.total c d r k x (l x)).1) h')
      (Spec.perYear (Spec.meanTotal c d r k Gs) h')
    have m2' : |m - Spec.perYear (fun x => (Spec.total c d r k x (l x)).1) h'| ≤ ε' := m2
    linarith

/-! ## The structure of a session -/

variable {N : Numerics} {ds : World → Interp.Printed → String} {M : Machine} {ev : String → Except Interp.Err Interp.Val}
  {fs : Output.Files}

theorem built_at {σA : State World} {A : List Cmd} (hs : ∀ m ∈ A, m.sound = true)
    (hA : run (plain N ds) M ⟨ev, Gram.preprocessString⟩ A {} (start {} fs) = (σA, none)) :
    Built A.reverse σA.lib := by
  simpa using (Built.init).run (σ := start {} fs) Meets.init Stock.init hs rfl hA

theorem structOf_later {A B : List Cmd} {id : String} (h : ∀ gs, Cmd.structure_ id gs ∉ B) :
    Spec.structOf (A ++ B).reverse id = Spec.structOf A.reverse id := by
  rw [List.reverse_append]
  have h' : ∀ gs, Cmd.structure_ id gs ∉ B.reverse := by simpa using h
  revert h'
  generalize B.reverse = B'
  intro h'
  induction B' with
  | nil => rfl
  | cons m B' ih =>
    have ih := ih fun gs hgs => h' gs (List.mem_cons_of_mem _ hgs)
    rw [List.cons_append, ← ih]
    cases m with
    | structure_ j gs =>
      have : j ≠ id := by
        rintro rfl
        exact h' gs List.mem_cons_self
      rw [Spec.structOf, if_neg this]
    | _ => rfl

/-- A structure when it is analysed. -/
theorem structure_at {σA σZ : State World} {A B : List Cmd} {m : Cmd} {id : String} {G : Spec.Components}
    {Gs : List Spec.Components} {c d r k : Option (Mu × Sd × ℝ × ℝ)} {h : ℝ → ℝ}
    (hs : ∀ m' ∈ A ++ m :: B, m'.sound = true)
    (hA : run (plain N ds) M ⟨ev, Gram.preprocessString⟩ A {} (start {} fs) = (σA, none))
    (hZ : run (plain N ds) M ⟨ev, Gram.preprocessString⟩ (A ++ m :: B) {} (start {} fs) = (σZ, none))
    (hMA : Meets A.reverse σA.lib) (hMZ : Meets (A ++ m :: B).reverse σZ.lib) (hL : Later σA.lib σZ.lib)
    (hst : Spec.structOf A.reverse id = some (G :: Gs)) (hm : ∀ gs, m ≠ .structure_ id gs)
    (hone : ∀ gs, Cmd.structure_ id gs ∉ B) (hi : Spec.hazardOf A.reverse G.im = some h)
    (hfc : Spec.fateOf .collapse (A ++ m :: B).reverse G.im = some c)
    (hfd : Spec.fateOf .demolition (A ++ m :: B).reverse G.im = some d)
    (hfr : Spec.fateOf .rebuildCost (A ++ m :: B).reverse id = some r)
    (hfk : Spec.fateOf .demolitionCost (A ++ m :: B).reverse id = some k) :
    ∃ (b b0 : Building) (cv : Dbl → Dbl) (F : Fates), List.Forall₂ Group.Is b.groups (G :: Gs) ∧
      seen (plain N ds) σZ.lib ((plain N ds).find σA.lib "structure" id) = .struct (b.obj N σZ.lib) ∧
      seen (plain N ds) σA.lib ((plain N ds).find σA.lib "structure" id) = .struct (b0.obj N σA.lib) ∧
      b0.groups ≠ [] ∧ b0.groups.head?.map Group.imId = some G.im ∧
      b.groups.head?.map Group.imId = some G.im ∧ σZ.lib.measure G.im = some (cv, F) ∧ Agree cv h ∧
      F.collapse = c.map made ∧ F.demolition = d.map made ∧
      b.rebuild = (r.map made).getD LogNormalDist.unset ∧ b.demolition = (k.map made).getD LogNormalDist.unset := by
  have hbA := built_at (fun m' hm' => hs m' (by simp [hm'])) hA
  have hbZ := built_at hs hZ
  obtain ⟨b0, h1, h2⟩ := hbA.struct _ _ hst
  obtain ⟨n, t', hn, htn, ⟨b, rfl, -⟩, hseen⟩ := seen_later (N := N) (ds := ds) hL h1
  obtain ⟨n2, t2, hn2, htn2, ⟨b2, rfl, -⟩, hseen2⟩ := seen_later (N := N) (ds := ds) (Later.refl σA.lib) h1
  have hb2 : b2 = b0 := by
    have : σA.lib.thing "structure" id = some (.building b2) := by simp [World.thing, hn2, htn2]
    rw [h1] at this
    simpa using this.symm
  subst hb2
  have hth : σZ.lib.thing "structure" id = some (.building b) := by
    simp [World.thing, hL.built _ _ hn, htn]
  have hst' : Spec.structOf (A ++ m :: B).reverse id = some (G :: Gs) := by
    rw [structOf_later, hst]
    intro gs hgs
    rcases List.mem_cons.1 hgs with e | e
    · exact hm gs e.symm
    · exact hone gs e
  obtain ⟨b', h3, h4⟩ := hbZ.struct _ _ hst'
  rw [hth] at h3
  simp only [Option.some.injEq, Thing.building.injEq] at h3
  subst h3
  obtain ⟨k1, k2⟩ := hbZ.cost _ _ hth
  obtain ⟨f, d0, hf, hag⟩ := hMA.hazard _ _ hi
  obtain ⟨ni, hni, hti⟩ := Option.bind_eq_some_iff.1 hf
  obtain ⟨t3, h5, d', rfl⟩ := hL.things ni _ hti
  have him : σZ.lib.thing "im" G.im = some (.im G.im f d') := by
    simp [World.thing, hL.im _ _ hni, h5]
  obtain ⟨j1, j2⟩ := hMZ.fate _ _ _ him
  have head : ∀ b : Building, List.Forall₂ Group.Is b.groups (G :: Gs) →
      b.groups ≠ [] ∧ b.groups.head?.map Group.imId = some G.im := by
    intro b hb
    obtain ⟨groups, _, _⟩ := b
    simp only at hb
    cases hb with
    | cons hg _ => exact ⟨by simp, by simp [hg.2.2.2.2.2.2.2.1]⟩
  exact ⟨b, b2, f, d', h4, hseen, hseen2, (head _ h2).1, (head _ h2).2, (head _ h4).2,
    by simp [World.measure, him], hag, j1 _ hfc, j2 _ hfd, k1 _ hfr, k2 _ hfk⟩

theorem near_of {maq : Rates.Maq} {ε x : ℝ} {Gs : List Spec.Components} {l : List (ℝ × ℝ)}
    (hp : ∀ g ∈ Gs, Spec.Payable maq ε x g) (hl : List.Forall₂ (Spec.FindsCost maq x) Gs l) : Spec.Near ε x Gs l := by
  induction hl with
  | nil => exact .nil
  | cons h _ ih =>
    have hg := hp _ List.mem_cons_self
    exact .cons ⟨h.1.near hg.mean, h.2.near hg.square⟩ (ih fun g hg => hp g (List.mem_cons_of_mem _ hg))

theorem yearly_found {maq : Rates.Maq} {gsl : Rates.Gsl} {ε ε' : ℝ} {b : Building} {G : Spec.Components}
    {Gs : List Spec.Components} {h h' : ℝ → ℝ} {c d r k : Option (Mu × Sd × ℝ × ℝ)} {F : Fates} {curve : Dbl → Dbl}
    (hg : Rates.Differentiates gsl) (hG : List.Forall₂ Group.Is b.groups (G :: Gs)) (ha : Agree curve h)
    (hd : ∀ x, 0 < x → HasDerivAt h (h' x) x) (hp : ∀ x, 0 < x → ∀ g ∈ G :: Gs, Spec.Payable maq ε x g)
    (hF1 : F.collapse = c.map made) (hF2 : F.demolition = d.map made)
    (hr : b.rebuild = (r.map made).getD LogNormalDist.unset)
    (hk : b.demolition = (k.map made).getD LogNormalDist.unset) (hcov : Spec.Covered c d r k)
    (hpd : ∀ x, 0 < x → 0 ≤ Spec.pDemolition c d x) (hI : Spec.Yearly maq ε' c d r k (G :: Gs) h') :
    ∃ l : ℝ → List (ℝ × ℝ), (∀ x, 0 < x → List.Forall₂ (Spec.FindsCost maq x) (G :: Gs) (l x)) ∧ ∃ m q : ℝ, 0 ≤ m ∧
      (integrated maq gsl).annual curve
        (fun x => ((b.costs (integrated maq gsl) (some F)).totalCost x).getD LogNormalDist.unset) =
          lognormal m (m ^ 2 + |q - m ^ 2|) ∧
      |m - Spec.perYear (fun x => (Spec.total c d r k x (l x)).1) h'| ≤ ε' ∧
      |q - Spec.perYear (fun x => (Spec.total c d r k x (l x)).2) h'| ≤ ε' ∧
      |m - Spec.perYear (Spec.meanTotal c d r k (G :: Gs)) h'| ≤
        ε' + (G :: Gs).length * ε * ∫ x in Ioi (0 : ℝ), |h' x| := by
  have hval := fun x (hx : 0 < x) =>
    total_found (maq := maq) (gsl := gsl) hg hG hx (hp x hx) hF1 hF2 hr hk hcov (hpd x hx)
  choose! l e1 e2 e4 _ _ _ using hval
  exact ⟨l, e1, annual_found hg ha hd hp e1 e2 (fun x hx => by rw [e4 x hx, Option.getD_some])
    (fun x hx => (fate_range hx hcov.demolition (hpd x hx)).2) hI⟩

/-- A column that a word of the options names, of a distribution. -/
def placeOf (d : LogNormalDist) : Mu → Dbl
  | .mean => d.getMean
  | .median => d.getMedian
  | .meanLn => d.getMuLn

/-- See `placeOf`. -/
def widthOf (d : LogNormalDist) : Sd → Dbl
  | .sdLn => d.getSigmaLn
  | .sd => d.getSigma

theorem annual_prints (s : Rec.StructObj) (o : Rec.Opts) (ho : o.structType = some .annual) {mu : Mu} {sp : Sd} {at_ : List Rec.Num} :
    Rec.printed (Rec.output ⟨.structcost, .struct s, o, some (Spec.attributes mu sp), at_⟩) =
      ([[.text (Spec.placed 0 0 mu).1, .text (Spec.spreadOf 0 0 sp).1],
        [.num (placeOf s.annualCost mu), .num (widthOf s.annualCost sp)]], none) := by
  simp only [Rec.output, Rec.structOutput, ho]
  cases mu <;> cases sp <;> rfl

theorem reported_place {m s : ℝ} (hm : 0 ≤ m) (hs : m ^ 2 ≤ s) {mu : Mu} :
    placeOf (lognormal m s) mu = (Spec.placed m s mu).2 := by
  rcases hm.lt_or_eq with hm | rfl
  · cases mu with
    | mean => exact (lognormal_reports (.of_pos hm hs)).2.1
    | median => simp only [placeOf, lognormal, Spec.placed, hm.ne', if_false]; rfl
    | meanLn => simp only [placeOf, lognormal, Spec.placed, hm.ne', if_false]; rfl
  · rw [lognormal_zero]
    cases mu with
    | mean => exact LogNormalDist.getMean_ninf _
    | median => simp [placeOf, Spec.placed, LogNormalDist.getMedian]
    | meanLn => simp [placeOf, Spec.placed, LogNormalDist.getMuLn]

theorem reported_spread {m s : ℝ} (hm : 0 ≤ m) (hs : m ^ 2 ≤ s) {sp : Sd} :
    widthOf (lognormal m s) sp = (Spec.spreadOf m s sp).2 := by
  rcases hm.lt_or_eq with hm | rfl
  · cases sp with
    | sdLn => rfl
    | sd =>
      simp only [Spec.spreadOf, hm.ne', if_false]
      exact (lognormal_reports (.of_pos hm hs)).2.2
  · cases sp with
    | sdLn => rfl
    | sd =>
      rw [lognormal_zero]
      simp only [Spec.spreadOf, if_true]
      exact LogNormalDist.getSigma_ninf _

end

end Slat.Session
