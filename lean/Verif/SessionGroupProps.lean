import Verif.SessionPlainProps

/-!
# Sessions with component groups (C90): damage and losses in the files

The library is `plain`.  `damage_file_partial`: what a session that ends leaves in the file of a `dsedp` recorder,
in formulas.  `cost_file_partial` and `delay_file_partial`: the same for `costedp` and `delayedp` recorders.  The full
statement has the same of every recorder of a component group; missing are the reports at an intensity and the rates
(found by integration: C91), fragility curves that cross and losses whose first number is zero (`Make.loss_zero_state_fails`).
-/

namespace Slat.Session

noncomputable section

open Interp (Val Call Cmd Cfg Err Mu Sd DistCmd Sc)
open Output (Path Files)

variable {rd : Rec.Row → String}

/-! ## Groups -/

theorem made_below {q : Mu × Sd × ℝ × ℝ} {x : ℝ} (h : Spec.Meant q.1 q.2.1 q.2.2.1 q.2.2.2 ∧ 0 < q.2.2.2)
    (hx : 0 < x) :
    (made q).pAtMost (.fin x) = .fin (Spec.below (Spec.logPair q.1 q.2.1 q.2.2.1 q.2.2.2) x) := by
  obtain ⟨mu, sp, u, v⟩ := q
  rw [made_eq h.1, LogNormalDist.pAtMost_pos _ (logPair_pos h.1 h.2) hx]
  rfl

theorem exceeded_made {qs : List (Mu × Sd × ℝ × ℝ)} {x : ℝ}
    (h : ∀ q ∈ qs, Spec.Meant q.1 q.2.1 q.2.2.1 q.2.2.2 ∧ 0 < q.2.2.2) (hx : 0 < x) :
    Fragility.pExceeded (qs.map made) (.fin x) = (Spec.reached qs x).map Dbl.fin := by
  simp only [Fragility.pExceeded, Spec.reached, List.map_map]
  apply List.map_congr_left
  intro q hq
  exact made_below (h q hq) hx

theorem perComponent_eq (ps ms : List ℝ) (h : ms.length = ps.length) :
    Spec.perComponent ps ms = (List.zipWith (fun m p => p * m) ms (Fragility.succDiff ps)).sum := by
  induction ps generalizing ms with
  | nil =>
    cases ms with
    | nil => simp [Spec.perComponent, Fragility.succDiff]
    | cons m ms => simp at h
  | cons p ps ih =>
    cases ms with
    | nil => simp at h
    | cons m ms =>
      cases ps with
      | nil => 
        cases ms with
        | nil => simp [Spec.perComponent, Fragility.succDiff]
        | cons m ms => simp at h
      | cons p' ps =>
        rw [Spec.perComponent, Fragility.succDiff, ih ms (by simpa using h)]
        simp

theorem succDiff_length (ps : List ℝ) : (Fragility.succDiff ps).length = ps.length := by
  induction ps with
  | nil => rfl
  | cons p ps ih =>
    cases ps with
    | nil => rfl
    | cons p' ps => simpa [Fragility.succDiff] using ih

theorem succDiff_nonneg (ps : List ℝ) (h : ps.Pairwise (fun a b => b ≤ a)) (h0 : ∀ p ∈ ps, 0 ≤ p) :
    ∀ q ∈ Fragility.succDiff ps, 0 ≤ q := by
  induction ps with
  | nil => simp [Fragility.succDiff]
  | cons p ps ih =>
    cases ps with
    | nil => simpa [Fragility.succDiff] using h0
    | cons p' ps =>
      intro q hq
      rw [Fragility.succDiff] at hq
      rcases List.mem_cons.1 hq with rfl | hq
      · have := (List.pairwise_cons.1 h).1 p' List.mem_cons_self
        linarith
      · exact ih (List.pairwise_cons.1 h).2 (fun x hx => h0 x (by simp [hx])) q hq

theorem reached_bounds {qs : List (Mu × Sd × ℝ × ℝ)} {x : ℝ} : ∀ p ∈ Spec.reached qs x, 0 ≤ p ∧ p ≤ 1 := by
  intro p hp
  obtain ⟨q, -, rfl⟩ := List.mem_map.1 hp
  exact ⟨Phi_nonneg _, Phi_le_one _⟩

theorem sum_le_one {ps : List ℝ} (h : ∀ p ∈ ps, 0 ≤ p ∧ p ≤ 1) : (Fragility.succDiff ps).sum ≤ 1 := by
  cases ps with
  | nil => simp [Fragility.succDiff]
  | cons p ps => rw [Fragility.sum_succDiff]; exact (h p (by simp)).2

theorem lossMade_scaled {q : ℤ × ℤ × ℝ × ℝ × ℝ} {n : ℕ} (hn : n ≤ 2147483647)
    (h : 0 ≤ q.1 ∧ Spec.Small q.2.1 ∧ 0 ≤ q.2.2.1 ∧ 0 ≤ q.2.2.2.1) :
    ∃ d : LogNormalDist, (⟨q.1, q.2.1, .fin q.2.2.1, .fin q.2.2.2.1, .fin q.2.2.2.2⟩ : Loss.BiLevel).forCount (n : ℤ) = some d ∧
      d.Proper ∧ ∀ m ∈ (Spec.Losses.scaled [q]).means n,
        d.Reports m (m * Real.sqrt (Real.exp (q.2.2.2.2 * q.2.2.2.2) - 1)) := by
  obtain ⟨h1, h2, h3, h4⟩ := h
  have hci : Loss.inInt (n : ℤ) := by constructor <;> omega
  obtain ⟨m, k1, k2, k3, k4, k5, -⟩ := Loss.two_level_interpolates q.1 q.2.1 q.2.2.1 q.2.2.2.1
    (.fin q.2.2.2.2) (n : ℤ) h1 h2 hci
  have hm0 : 0 ≤ m := (le_min h3 h4).trans k5
  have hmean : ∀ m' ∈ (Spec.Losses.scaled [q]).means n, m' = m := by
    intro m' hm'
    simp only [Spec.Losses.means, List.map_cons, List.map_nil, List.mem_cons, List.not_mem_nil, or_false] at hm'
    rw [hm']
    split
    · next hc => exact (k2 hc).symm
    · next hc =>
      split
      · next hd => exact (k3 (not_le.1 hc) hd).symm
      · next hd =>
        have := k4 (not_le.1 hc) (not_le.1 hd)
        have hlt : (q.1 : ℝ) < q.2.1 := by
          exact_mod_cast (not_le.1 hc).trans (not_le.1 hd)
        rw [div_eq_iff (by linarith), this]
        push_cast
        ring
  refine ⟨LogNormalDist.ofMeanSigmaLn (.fin m) (.fin q.2.2.2.2), by simp [Loss.BiLevel.forCount, k1], ?_, ?_⟩
  · rcases hm0.lt_or_eq with h | h
    · exact ⟨_, rfl, Or.inl ⟨Real.log m - q.2.2.2.2 * q.2.2.2.2 / 2, by simp only [LogNormalDist.ofMeanSigmaLn,
        LogNormalDist.muFromMeanSigmaLn, Dbl.log_pos h, Dbl.fin_mul, Dbl.fin_div_two, Dbl.fin_sub]⟩⟩
    · subst h
      exact ⟨_, rfl, Or.inr (by simp [LogNormalDist.ofMeanSigmaLn, LogNormalDist.muFromMeanSigmaLn])⟩
  · intro m' hm'
    rw [hmean m' hm']
    rcases hm0.lt_or_eq with h | h
    · refine ⟨(LogNormalDist.mean_sdln_roundtrip m _ h).1, ?_⟩
      simp only [LogNormalDist.ofMeanSigmaLn, LogNormalDist.muFromMeanSigmaLn, Dbl.log_pos h, Dbl.fin_mul, Dbl.fin_div_two,
        Dbl.fin_sub]
      rw [LogNormalDist.getSigma_fin, sub_add_cancel, Real.exp_log h]
    · subst h
      have := LogNormalDist.zero_mean_sdln q.2.2.2.2
      exact ⟨this.1, by rw [this.2.1, zero_mul]⟩

theorem losses_length (L : Spec.Losses) (n : ℕ) : (L.means n).length = L.size ∧ L.spreads.length = L.size := by
  cases L <;> simp [Spec.Losses.means, Spec.Losses.spreads, Spec.Losses.size]

/-- The distributions from which the loss of a group is mixed. -/
theorem loss_units {L : Spec.Losses} (hm : L.Meant) {n : ℕ} (hn : n ≤ 2147483647) :
    ∃ ds : List LogNormalDist, (∀ (ps : List ℝ) (adj : Dbl), ps.length = L.size →
        (lossMade L).loss (ps.map Dbl.fin) (n : ℤ) adj = Loss.simple ds (ps.map Dbl.fin) (n : ℤ) adj) ∧
      (∀ d ∈ ds, d.Proper) ∧ LogNormalDist.ReportsAll ds
        (List.zipWith (fun m s => (m, m * Real.sqrt (Real.exp (s * s) - 1))) (L.means n) L.spreads) := by
  cases L with
  | fixed qs =>
    have hml : ∀ q ∈ qs, madeLoss q = ⟨.fin (Spec.logPair q.1 q.2.1 q.2.2.1 q.2.2.2).1,
        .fin (Spec.logPair q.1 q.2.1 q.2.2.1 q.2.2.2).2⟩ := by
      intro q hq
      obtain ⟨h1, h2⟩ := hm q hq
      rw [madeLoss, if_pos h1, made_eq h2]
    refine ⟨qs.map madeLoss, fun _ _ _ => rfl, ?_, ?_⟩
    · intro d hd
      obtain ⟨q, hq, rfl⟩ := List.mem_map.1 hd
      rw [hml q hq]
      exact ⟨_, rfl, Or.inl ⟨_, rfl⟩⟩
    · clear hm
      induction qs with
      | nil => exact List.Forall₂.nil
      | cons q l ih =>
        refine List.Forall₂.cons ⟨?_, ?_⟩ (ih fun q hq => hml q (by simp [hq]))
        · rw [hml q (by simp), LogNormalDist.getMean_fin, ← pow_two]
          rfl
        · rw [hml q (by simp), LogNormalDist.getSigma_fin]
          show _ = Dbl.fin (Spec.mean _ * _)
          rw [Spec.mean, pow_two]
  | scaled qs =>
    have key : ∃ ds : List LogNormalDist, (qs.map fun q => (⟨q.1, q.2.1, .fin q.2.2.1, .fin q.2.2.2.1,
          .fin q.2.2.2.2⟩ : Loss.BiLevel)).mapM (fun l => l.forCount (n : ℤ)) = some ds ∧
        (∀ d ∈ ds, d.Proper) ∧ LogNormalDist.ReportsAll ds
          (List.zipWith (fun m s => (m, m * Real.sqrt (Real.exp (s * s) - 1))) ((Spec.Losses.scaled qs).means n)
            (Spec.Losses.scaled qs).spreads) := by
      induction qs with
      | nil => exact ⟨[], rfl, by simp, List.Forall₂.nil⟩
      | cons q l ih =>
        obtain ⟨ds, e1, e2, e3⟩ := ih fun q hq => hm q (by simp [hq])
        obtain ⟨d, f1, f2, f3⟩ := lossMade_scaled hn (hm q (by simp))
        refine ⟨d :: ds, ?_, ?_, List.Forall₂.cons (f3 _ (by simp [Spec.Losses.means])) e3⟩
        · rw [List.map_cons, List.mapM_cons, f1, e1]; rfl
        · intro d' hd'
          rcases List.mem_cons.1 hd' with rfl | hd'
          · exact f2
          · exact e2 d' hd'
    obtain ⟨ds, e1, e2, e3⟩ := key
    refine ⟨ds, ?_, e2, e3⟩
    intro ps adj hl
    have : (ps.map Dbl.fin).length = (qs.map fun q => (⟨q.1, q.2.1, .fin q.2.2.1, .fin q.2.2.2.1,
        .fin q.2.2.2.2⟩ : Loss.BiLevel)).length := by simpa [Spec.Losses.size] using hl
    simp only [lossMade, LossFn.loss, Loss.biLevel]
    rw [if_neg (by simpa using this), e1]

theorem mixSecond_units (ms ss ws : List ℝ) :
    LogNormalDist.mixSecond (List.zipWith (fun m s => (m, m * Real.sqrt (Real.exp (s * s) - 1))) ms ss) ws =
      (List.zipWith (fun q p => p * q) (List.zipWith (fun m s => m ^ 2 * Real.exp (s ^ 2)) ms ss) ws).sum := by
  have e : (fun (a b w : ℝ) => w * (a ^ 2 + (a * Real.sqrt (Real.exp (b * b) - 1)) ^ 2)) =
      fun a b w => w * (a ^ 2 * Real.exp (b ^ 2)) := by
    funext a b w
    rw [mul_pow, Real.sq_sqrt (LogNormalDist.expm1_nonneg b), pow_two b]
    ring
  rw [LogNormalDist.mixSecond]
  congr 1
  induction ms generalizing ss ws with
  | nil => simp
  | cons m ms ih =>
    cases ss with
    | nil => simp
    | cons s ss =>
      cases ws with
      | nil => simp
      | cons w ws =>
        simp only [List.zipWith_cons_cons]
        rw [ih ss ws]
        exact congrArg₂ _ (congrFun (congrFun (congrFun e m) s) w) rfl

theorem mixMean_units (ms ss ws : List ℝ) (h : ms.length = ss.length) :
    LogNormalDist.mixMean (List.zipWith (fun m s => (m, m * Real.sqrt (Real.exp (s * s) - 1))) ms ss) ws =
      (List.zipWith (fun q p => p * q) ms ws).sum := by
  rw [LogNormalDist.mixMean]
  congr 1
  induction ms generalizing ss ws with
  | nil => simp
  | cons m ms ih =>
    cases ss with
    | nil => simp at h
    | cons s ss =>
      cases ws with
      | nil => simp
      | cons w ws =>
        simp only [List.zipWith_cons_cons]
        rw [ih ss ws (by simpa using h)]

/-- The mean and the log-spread of the loss of a group. -/
theorem group_moments {g : Group} {G : Spec.Components} {L : Spec.Losses} {factor x : ℝ} (hg : g.Is G)
    (hon : ∀ q ∈ G.onsets, Spec.Meant q.1 q.2.1 q.2.2.1 q.2.2.2 ∧ 0 < q.2.2.2) (hx : 0 < x)
    (hcr : (Spec.reached G.onsets x).Pairwise (fun a b => b ≤ a)) (hfit : Spec.Fits G L) (hm : L.Meant)
    (hf : 0 ≤ factor) :
    (g.loss (lossMade L) factor (.fin x)).getMean = .fin (Spec.expected G L factor x) ∧
      (g.loss (lossMade L) factor (.fin x)).getSigmaLn = .fin (Spec.spread G L x) ∧
      ∃ s, (g.loss (lossMade L) factor (.fin x)).getSigma = .fin s ∧
        Spec.expected G L factor x ^ 2 + s ^ 2 = Spec.expectedSquare G L factor x := by
  obtain ⟨g1, -, -, g4, -, -, g7, -⟩ := hg
  have hp : Fragility.pHighest g.states (.fin x) =
      (Fragility.succDiff (Spec.reached G.onsets x)).map Dbl.fin := by
    rw [Fragility.pHighest, g1, exceeded_made hon hx, Fragility.differences_of_antitone _ hcr]
  have hlen : (Fragility.succDiff (Spec.reached G.onsets x)).length = L.size := by
    rw [succDiff_length, hfit.1]; simp [Spec.reached]
  have hnn := succDiff_nonneg _ hcr fun p hp => (reached_bounds p hp).1
  have hs1 := sum_le_one (reached_bounds (qs := G.onsets) (x := x))
  obtain ⟨ds, u1, u2, u3⟩ := loss_units hm g7
  obtain ⟨l1, l2⟩ := losses_length L G.count
  have hdl : ds.length = (Fragility.succDiff (Spec.reached G.onsets x)).length := by
    rw [List.Forall₂.length_eq u3, List.length_zipWith, l1, l2, min_self, hlen]
  have hpl : (Spec.reached G.onsets x).length = L.size := by rw [hfit.1]; simp [Spec.reached]
  have hmean := perComponent_eq (Spec.reached G.onsets x) (L.means G.count) (by rw [l1, hpl])
  have hsq := perComponent_eq (Spec.reached G.onsets x) (L.squares G.count) (by
    rw [Spec.Losses.squares, List.length_zipWith, l1, l2, min_self, hpl])
  have hM := mixMean_units (L.means G.count) L.spreads (Fragility.succDiff (Spec.reached G.onsets x)) (by rw [l1, l2])
  have hS := mixSecond_units (L.means G.count) L.spreads (Fragility.succDiff (Spec.reached G.onsets x))
  rw [← hmean] at hM
  rw [← Spec.Losses.squares, ← hsq] at hS
  unfold Group.loss
  rw [hp, g4, u1 _ _ hlen]
  obtain ⟨d, s, e1, -, -, e3, e2⟩ := Loss.simple_loss ds u2 _ u3 _ hdl hnn hs1 (G.count : ℤ) (by positivity) factor hf
  refine ⟨?_, ?_, ?_⟩
  · rw [e1]
    simp only
    rw [e2.1, hM, Spec.expected]
    push_cast
    rfl
  · obtain ⟨hv, -⟩ := LogNormalDist.mixture_of_probabilities ds u2 _ u3 _ hdl hnn hs1
    rw [hM, hS] at hv
    simp only [Loss.simple, LogNormalDist.mixture_eq ds _ u3 _ hdl, hM, hS, abs_of_nonneg hv]
    show LogNormalDist.sigmaLnFromMeanSigma _ _ = _
    rw [Spec.spread, Spec.logSpread]
    split
    · next h0 => rw [h0]; exact LogNormalDist.sigmaLn_zero _
    · next h0 =>
      rw [LogNormalDist.sigmaLn_pos h0, Real.mul_self_sqrt hv]
      congr 3
      have : (Spec.perComponent (Spec.reached G.onsets x) (L.means G.count)) ^ 2 ≠ 0 := pow_ne_zero 2 h0
      field_simp
      ring
  · rw [e1]
    simp only
    refine ⟨_, e2.2, ?_⟩
    rw [hM, hS] at e3
    rw [Spec.expected, Spec.expectedSquare, mul_pow, mul_pow _ s, e3]
    push_cast
    ring

/-- The mean loss of a group. -/
theorem group_loss {g : Group} {G : Spec.Components} {L : Spec.Losses} {factor x : ℝ} (hg : g.Is G)
    (hon : ∀ q ∈ G.onsets, Spec.Meant q.1 q.2.1 q.2.2.1 q.2.2.2 ∧ 0 < q.2.2.2) (hx : 0 < x)
    (hcr : (Spec.reached G.onsets x).Pairwise (fun a b => b ≤ a)) (hfit : Spec.Fits G L) (hm : L.Meant)
    (hf : 0 ≤ factor) :
    (g.loss (lossMade L) factor (.fin x)).getMean = .fin (Spec.expected G L factor x) :=
  (group_moments hg hon hx hcr hfit hm hf).1

/-- The columns of a report on a loss. -/
theorem moment_columns {E S : Dbl → Dbl} {e s : ℝ → ℝ} {xs : List ℝ} (hE : ∀ x ∈ xs, E (.fin x) = .fin (e x))
    (hS : ∀ x ∈ xs, S (.fin x) = .fin (s x)) {cs : List Interp.Col} {vs : List (String × (ℝ → ℝ))}
    (hv : cs.mapM (Spec.momentColumn e s) = some vs) :
    ∃ rc ws, cs.mapM Spec.column = some rc ∧ Rec.Spec.chosen (Rec.Spec.moment E S) rc = some ws ∧
      ws.map Prod.fst = vs.map (fun v => Rec.Cell.text v.1) ∧
      ∀ x ∈ xs, ws.map (fun w => Rec.Cell.num (w.2 (.fin x))) = vs.map fun v => .num (.fin (v.2 x)) := by
  induction cs generalizing vs with
  | nil => cases hv; exact ⟨[], [], rfl, rfl, rfl, fun _ _ => rfl⟩
  | cons c cs ih =>
    rw [List.mapM_cons] at hv
    cases hc : Spec.momentColumn e s c with
    | none => rw [hc] at hv; cases hv
    | some v =>
      cases ht : cs.mapM (Spec.momentColumn e s) with
      | none => rw [hc, ht] at hv; cases hv
      | some vt =>
        rw [hc, ht] at hv
        cases hv
        obtain ⟨rc, ws, h1, h2, h3, h4⟩ := ih ht
        have : ∃ name F, Spec.column c = some (.name name) ∧ Rec.Spec.moment E S (.name name) = some F ∧ name = v.1 ∧
            ∀ x ∈ xs, F (.fin x) = .fin (v.2 x) := by
          unfold Spec.momentColumn at hc
          split at hc
          · cases hc; exact ⟨_, E, rfl, rfl, rfl, hE⟩
          · cases hc; exact ⟨_, S, rfl, rfl, rfl, hS⟩
          · cases hc
        obtain ⟨name, F, k1, k2, rfl, k3⟩ := this
        refine ⟨.name v.1 :: rc, (.text v.1, F) :: ws, ?_, ?_, ?_, ?_⟩
        · rw [List.mapM_cons, k1, h1]; rfl
        · rw [Rec.Spec.chosen, k2, h2]; rfl
        · simp [h3]
        · intro x hx
          rw [List.map_cons, List.map_cons, h4 x hx]
          simp only [k3 x hx]

/-- The same with the columns that are not chosen. -/
theorem moment_order {E S : Dbl → Dbl} {e s : ℝ → ℝ} {xs : List ℝ} (hE : ∀ x ∈ xs, E (.fin x) = .fin (e x))
    (hS : ∀ x ∈ xs, S (.fin x) = .fin (s x)) {cs : Option (List Interp.Col)} {vs : List (String × (ℝ → ℝ))}
    (hv : Spec.momentColumns e s cs = some vs) {M : Machine} {t : Interp.RecType} {id : String} {a : Interp.At}
    (ha : Spec.arguments M a = some (xs.map Dbl.fin)) :
    ∃ rc ws, Spec.order M (.fn t id a cs) = some (Spec.kind t, rc, xs.map Dbl.fin) ∧
      Rec.Spec.chosen (Rec.Spec.moment E S) (rc.getD [.name "mean_x", .name "sd_ln_x"]) = some ws ∧
      ws.map Prod.fst = vs.map (fun v => Rec.Cell.text v.1) ∧
      ∀ x ∈ xs, ws.map (fun w => Rec.Cell.num (w.2 (.fin x))) = vs.map fun v => .num (.fin (v.2 x)) := by
  obtain ⟨rc, ws, h1, h2, h3, h4⟩ := moment_columns hE hS hv
  cases cs with
  | none =>
    cases h1
    exact ⟨none, ws, by simp [Spec.order, ha], h2, h3, h4⟩
  | some cs =>
    rw [Option.getD_some] at h1
    exact ⟨some rc, ws, by simp [Spec.order, ha, h1], h2, h3, h4⟩

/-- A script, after the commands of `early`:

    fragfn ff [0.5, 0.3], [1.0, 0.3] --mu median_x --sd sd_ln_x;
    lossfn kk simple [10.0, 0.4], [25.0, 0.4] --mu mean_x --sd sd_ln_x;
    lossfn dd bilevel [2, 10, 3.0, 1.0, 0.4], [2, 10, 8.0, 4.0, 0.4];
    compgroup gg e ff kk dd 5 1.5 2.0;
    recorder q1 dsedp gg --at 0.5, 2.0 --file g1;
    recorder q2 costedp gg --at 0.5, 2.0 --file g2;
    recorder q3 delayedp gg --at 0.5, 2.0 --cols sd_ln_x, mean_x --file g3;
-/
def stocked : List Cmd := early ++
  [.fragfnUser "ff" [⟨.num (.flt (1/2)), .num (.flt (3/10))⟩, ⟨.num (.flt 1), .num (.flt (3/10))⟩]
      ⟨some .median, some .sdLn⟩,
    .lossSimple "kk" [⟨.num (.flt 10), .num (.flt (2/5))⟩, ⟨.num (.flt 25), .num (.flt (2/5))⟩]
      ⟨some .mean, some .sdLn⟩,
    .lossBilevel "dd" [⟨.int 2, .int 10, .flt 3, .flt 1, .flt (2/5)⟩, ⟨.int 2, .int 10, .flt 8, .flt 4, .flt (2/5)⟩],
    .compgroup "gg" "e" "ff" "kk" (some "dd") 5 [3/2, 2]]

/-- See `stocked`. -/
def ask1 : Cmd := .recorder "q1" (.fn .dsedp "gg" (.floats [1/2, 2]) none) (some ⟨"g1", false⟩)
/-- See `stocked`. -/
def ask2 : Cmd := .recorder "q2" (.fn .costedp "gg" (.floats [1/2, 2]) none) (some ⟨"g2", false⟩)
/-- See `stocked`. -/
def ask3 : Cmd := .recorder "q3" (.fn .delayedp "gg" (.floats [1/2, 2]) (some [.spread .sdLn, .placement .mean])) (some ⟨"g3", false⟩)

/-- See `stocked`. -/
def whole : List Cmd := stocked ++ [ask1, ask2, ask3]

/-- The script written down. -/
def sheet : List (Gram.Style × Cmd) := (whole ++ [Cmd.analyze]).map fun c => ({}, c)

/-- The group of the script. -/
def ours : Spec.Components :=
  ⟨"i", ⟨.median, .sdLn, Spec.powerLaw ((1/10 : ℚ) : ℝ) ((3/2 : ℚ) : ℝ), Spec.powerLaw ((2/5 : ℚ) : ℝ) ((0 : ℚ) : ℝ)⟩,
    [(.median, .sdLn, ((1/2 : ℚ) : ℝ), ((3/10 : ℚ) : ℝ)), (.median, .sdLn, ((1 : ℚ) : ℝ), ((3/10 : ℚ) : ℝ))],
    .fixed [(.mean, .sdLn, ((10 : ℚ) : ℝ), ((2/5 : ℚ) : ℝ)), (.mean, .sdLn, ((25 : ℚ) : ℝ), ((2/5 : ℚ) : ℝ))],
    some (.scaled [(2, 10, ((3 : ℚ) : ℝ), ((1 : ℚ) : ℝ), ((2/5 : ℚ) : ℝ)),
      (2, 10, ((8 : ℚ) : ℝ), ((4 : ℚ) : ℝ), ((2/5 : ℚ) : ℝ))]), 5, ((3/2 : ℚ) : ℝ), ((2 : ℚ) : ℝ), "e", "ff"⟩

theorem sheet_ok {p : Gram.Pen} (hi : ∀ n, p.OkI n) (hf : ∀ x, Gram.Decimal x → p.OkF x) :
    ∀ c ∈ sheet, Gram.OkCmd p c.2 := by
  have n : ∀ s ∈ ["e", "ff", "kk", "dd", "gg", "q1", "q2", "q3", "g1", "g2", "g3"], Gram.OkName s := by
    have h : ∀ s ∈ ["e", "ff", "kk", "dd", "gg", "q1", "q2", "q3", "g1", "g2", "g3"],
        (match s.toList with
        | [] => false
        | c :: r => Lex.nondigit c && r.all fun d => Lex.nondigit d || Lex.digit d) = true ∧
        (∀ q ∈ Lex.vocabulary, q.2.toList ≠ s.toList) ∧ ¬ "loglog".toList <+: s.toList := by
      decide +kernel
    exact fun s hs => Gram.okName (h s hs).1 (h s hs).2.1 (h s hs).2.2
  have hto : ∀ s ∈ ["g1", "g2", "g3"], Gram.OkTo (some ⟨s, false⟩) := by
    intro s hs q hq
    simp only [Option.mem_def, Option.some.injEq] at hq
    subst hq
    have h1 : ∀ s ∈ ["g1", "g2", "g3"], '/' ∉ s.toList := by decide
    show Gram.OkFile s
    unfold Gram.OkFile
    rw [if_neg (h1 s hs)]
    exact n s (by revert s; decide)
  have dec : ∀ z : ℤ, ∀ x : ℚ, x = z / 10 → p.OkF x := fun z x h => hf x ⟨z, 1, by rw [h]; norm_num⟩
  have hat : Gram.OkAt p (.floats [1/2, 2]) := by
    refine ⟨by simp, ?_⟩
    intro x hx
    simp only [List.mem_cons, List.not_mem_nil, or_false] at hx
    rcases hx with rfl | rfl
    · exact dec 5 _ (by norm_num)
    · exact dec 20 _ (by norm_num)
  have hcol : Gram.OkCols p (some [.spread .sdLn, .placement .mean]) := by
    intro l hl
    simp only [Option.mem_def, Option.some.injEq] at hl
    subst hl
    simp [Gram.OkCol]
  intro c hc
  obtain ⟨m, hm, rfl⟩ := List.mem_map.1 hc
  simp only [whole, stocked, List.append_assoc, List.mem_append] at hm
  rcases hm with hm | hm
  · exact page_ok hi hf ({}, m) (List.mem_map.2 ⟨m, by simp [sample, hm], rfl⟩)
  · simp only [List.mem_cons, List.not_mem_nil, or_false, or_assoc, ask1, ask2, ask3] at hm
    rcases hm with rfl | rfl | rfl | rfl | rfl | rfl | rfl | rfl
    · refine ⟨n _ (by decide), by simp, ?_⟩
      intro q hq
      simp only [List.mem_cons, List.not_mem_nil, or_false] at hq
      rcases hq with rfl | rfl
      · exact ⟨dec 5 _ (by norm_num), dec 3 _ (by norm_num)⟩
      · exact ⟨dec 10 _ (by norm_num), dec 3 _ (by norm_num)⟩
    · refine ⟨n _ (by decide), by simp, ?_⟩
      intro q hq
      simp only [List.mem_cons, List.not_mem_nil, or_false] at hq
      rcases hq with rfl | rfl
      · exact ⟨dec 100 _ (by norm_num), dec 4 _ (by norm_num)⟩
      · exact ⟨dec 250 _ (by norm_num), dec 4 _ (by norm_num)⟩
    · refine ⟨n _ (by decide), by simp, ?_⟩
      intro q hq
      simp only [List.mem_cons, List.not_mem_nil, or_false] at hq
      rcases hq with rfl | rfl
      · exact ⟨hi _, hi _, dec 30 _ (by norm_num), dec 10 _ (by norm_num), dec 4 _ (by norm_num)⟩
      · exact ⟨hi _, hi _, dec 80 _ (by norm_num), dec 40 _ (by norm_num), dec 4 _ (by norm_num)⟩
    · refine ⟨n _ (by decide), n _ (by decide), n _ (by decide), n _ (by decide), ?_, hi _, by simp, ?_⟩
      · intro s hs
        simp only [Option.mem_def, Option.some.injEq] at hs
        subst hs
        exact n _ (by decide)
      · intro x hx
        simp only [List.mem_cons, List.not_mem_nil, or_false] at hx
        rcases hx with rfl | rfl
        · exact dec 15 _ (by norm_num)
        · exact dec 20 _ (by norm_num)
    · exact ⟨n _ (by decide), ⟨n _ (by decide), hat, by intro l hl; cases hl⟩, hto _ (by decide)⟩
    · exact ⟨n _ (by decide), ⟨n _ (by decide), hat, by intro l hl; cases hl⟩, hto _ (by decide)⟩
    · exact ⟨n _ (by decide), ⟨n _ (by decide), hat, hcol⟩, hto _ (by decide)⟩
    · trivial

theorem whole_fine : Spec.WellFormed (bench rd) (sheet.map (·.2)).reverse := by
  have e : (sheet.map (·.2)).reverse = .analyze :: whole.reverse := by simp [sheet]
  rw [e]
  have hw : ∀ b : Interp.RecBody, ∀ k cols at_, Spec.order (bench rd) b = some (k, cols, at_) →
      Rec.Spec.Working k cols → ∃ k cols at_, Spec.order (bench rd) b = some (k, cols, at_) ∧
        Rec.Spec.Working k cols := fun b k cols at_ h1 h2 => ⟨k, cols, at_, h1, h2⟩
  have hmo : Spec.Moments (some [.spread .sdLn, .placement .mean]) := by
    intro l hl c hc
    simp only [Option.mem_def, Option.some.injEq] at hl
    subst hl
    simp only [List.mem_cons, List.not_mem_nil, or_false] at hc
    exact hc.symm
  refine ⟨?_, ?_, ?_, ?_, ?_, ?_, ?_, ?_, ?_⟩
  · intro i b po _; rfl
  · exact Or.inr ⟨hw _ _ _ _ rfl trivial, ⟨ours, _, rfl, rfl, rfl, by simp⟩, hmo⟩
  · exact Or.inr ⟨hw _ _ _ _ rfl trivial, ⟨ours, rfl, rfl, trivial⟩, by intro l hl; cases hl⟩
  · exact Or.inr ⟨hw _ _ _ _ rfl rfl, rfl⟩
  · refine ⟨rfl, rfl, rfl, ?_, by norm_num [Spec.Small], by intro e f k d n fs; simp⟩
    intro s hs
    simp only [Option.mem_def, Option.some.injEq] at hs
    subst hs
    rfl
  · refine ⟨⟨_, rfl, by simp, ?_⟩, by intro ps o; simp, by intro bs; simp⟩
    intro q hq
    simp only [List.mem_cons, List.not_mem_nil, or_false] at hq
    rcases hq with rfl | rfl <;> norm_num [Spec.Small]
  · exact ⟨rfl, by simp, by intro ps o; simp, by intro bs; simp⟩
  · refine ⟨⟨_, rfl, by simp, ?_, ?_⟩, by intro ps o; simp⟩
    · intro q hq
      simp only [List.mem_cons, List.not_mem_nil, or_false] at hq
      rcases hq with rfl | rfl <;> exact ⟨Or.inl rfl, Or.inr (by norm_num)⟩
    · simp only [List.map_cons, List.map_nil, List.pairwise_cons, List.mem_cons, List.not_mem_nil, or_false,
        forall_eq, Spec.logPair, false_imp_iff, implies_true, List.Pairwise.nil, and_true]
      exact Real.log_lt_log (by norm_num) (by norm_num)
  · have h := (sample_fine (rd := rd))
    have e : (page.map (·.2)).reverse = .analyze :: (late.reverse ++ [rec4, rec3, rec2, rec1]) ++ early.reverse := by
      simp [page, sample]
    rw [e] at h
    exact wellFormed_append h

theorem sheet_session (N : Numerics) (ds : World → Interp.Printed → String) (ev : String → Except Err Val)
    (fs : Files) : ∃ (p : Gram.Pen) (text : List Char) (σ : State World), (∀ c ∈ sheet, Gram.OkCmd p c.2) ∧
      Lex.Written (Gram.toks (Gram.writeScript p sheet)) text ∧
      session (plain N ds) (bench rd) ev (start {} fs) text = (σ, none) := by
  obtain ⟨p, hi, hf⟩ := Gram.pen_exists
  obtain ⟨σ, h⟩ := well_formed_ends_partial (N := N) (ds := ds) (M := bench rd) (sheet_ok hi hf)
    (Gram.script_writable (sheet_ok hi hf)) whole_fine ev fs
  exact ⟨p, _, σ, sheet_ok hi hf, Gram.script_writable (sheet_ok hi hf), h⟩

theorem whole_sound : ∀ m ∈ whole, m.sound = true := by
  simp [whole, stocked, early, ask1, ask2, ask3, Interp.Cmd.sound, Interp.FnRef.plain]

theorem whole_homes {i : String} {b : Interp.RecBody} {po : Interp.PrintOpts}
    (hm : Cmd.recorder i b (some po) ∈ whole) : (i, po.file) ∈ [("q1", "g1"), ("q2", "g2"), ("q3", "g3")] := by
  simp only [whole, stocked, early, ask1, ask2, ask3, List.mem_cons, List.not_mem_nil,
    List.cons_append, List.nil_append, reduceCtorEq, Cmd.recorder.injEq, Option.some.injEq, false_or,
    or_false] at hm
  rcases hm with ⟨rfl, rfl, rfl⟩ | ⟨rfl, rfl, rfl⟩ | ⟨rfl, rfl, rfl⟩ <;> simp

theorem ours_onsets : ∀ q ∈ ours.onsets, Spec.Meant q.1 q.2.1 q.2.2.1 q.2.2.2 ∧ 0 < q.2.2.2 := by
  intro q hq
  simp only [ours, List.mem_cons, List.not_mem_nil, or_false] at hq
  rcases hq with rfl | rfl <;> exact ⟨⟨Or.inl rfl, Or.inr (by norm_num)⟩, by norm_num⟩

/-- With a common log-spread the curves do not cross, at any demand. -/
theorem ours_sorted (x : ℝ) : (Spec.reached ours.onsets x).Pairwise (fun a b => b ≤ a) := by
  simp only [Spec.reached, ours, List.map_cons, List.map_nil, List.pairwise_cons, List.mem_cons, List.not_mem_nil,
    or_false, forall_eq, Spec.logPair, Spec.below, false_imp_iff, implies_true, List.Pairwise.nil, and_true]
  apply Phi_mono
  have : Real.log ((1/2 : ℚ) : ℝ) ≤ Real.log ((1 : ℚ) : ℝ) := Real.log_le_log (by norm_num) (by norm_num)
  have h3 : (0 : ℝ) < ((3/10 : ℚ) : ℝ) := by norm_num
  exact div_le_div_of_nonneg_right (by linarith) h3.le

variable {N : Numerics} {ds : World → Interp.Printed → String} {M : Machine}
  {ev : String → Except Err Val} {p : Gram.Pen} {ls : List (Gram.Style × Cmd)} {text : List Char}
  {A B C : List Cmd} {rid file id : String} {a : Interp.At} {fs : Files} {σ : State World} {xs : List ℝ}

/-- The group behind a name. -/
theorem stock_at {σA : State World} {A : List Cmd} (hs : ∀ m ∈ A, m.sound = true)
    (hA : run (plain N ds) M ⟨ev, Gram.preprocessString⟩ A {} (start {} fs) = (σA, none)) :
    Stock A.reverse σA.lib := by
  simpa using (Stock.init).run (σ := start {} fs) Meets.init hs rfl hA

/-- **C90.** The file of a `dsedp` recorder: for each damage state the probability that it is reached at the demand, and
the expected number of states reached. -/
theorem damage_file_partial {G : Spec.Components}
    (hok : ∀ c ∈ ls, Gram.OkCmd p c.2) (ht : Lex.Written (Gram.toks (Gram.writeScript p ls)) text)
    (hl : ls.map (·.2) = A ++ .recorder rid (.fn .dsedp id a none) (some ⟨file, false⟩) :: B ++ .analyze :: C)
    (hs : ∀ m ∈ A ++ .recorder rid (.fn .dsedp id a none) (some ⟨file, false⟩) :: B ++ C, m.sound = true)
    (hr : session (plain N ds) M ev (start {} fs) text = (σ, none))
    (hB : ∀ b' po, Cmd.recorder rid b' po ∉ B)
    (hal : Spec.Alone (Output.dirOf (Spec.directory (A ++ B))) rid file (A ++ B))
    (hu : Spec.Untouched (Output.fullPath (Output.dirOf (Spec.directory (A ++ B))) file.toList)
      (A ++ .recorder rid (.fn .dsedp id a none) (some ⟨file, false⟩) :: B ++ [.analyze]) C)
    (ha : Spec.arguments M a = some (xs.map Dbl.fin)) (hx : ∀ x ∈ xs, 0 < x)
    (hc : Spec.groupOf A.reverse id = some G)
    (hon : ∀ q ∈ G.onsets, Spec.Meant q.1 q.2.1 q.2.2.1 q.2.2.2 ∧ 0 < q.2.2.2) :
    σ.files (Output.fullPath (Output.dirOf (Spec.directory (A ++ B))) file.toList) =
      some ((Spec.tableOf "EDP" (Spec.damageColumns G.onsets) xs).map M.render) := by
  obtain ⟨σA, σZ, hA, hZ, -, -, hL⟩ := setup hok ht hl hs hr
  obtain ⟨hne, g, hf, hg, -⟩ := (stock_at (fun m hm => hs m (by simp [hm])) hA).group _ _ hc
  obtain ⟨n, t', -, -, hsame, hseen⟩ := seen_later (N := N) (ds := ds) hL hf
  cases hsame
  obtain ⟨n', t'', -, -, hsame', hseen'⟩ := seen_later (N := N) (ds := ds) (Later.refl σA.lib) hf
  cases hsame'
  have hord : Spec.order M (.fn .dsedp id a none) = some (.dsedp, none, xs.map Dbl.fin) := by
    simp [Spec.order, ha, Spec.kind]
  have hlen : g.states.length = G.onsets.length := by rw [hg.1]; simp
  have hex : ∀ x, 0 < x → Rec.Spec.exceeded g.states (.fin x) = (Spec.reached G.onsets x).map Dbl.fin := by
    intro x hx
    rw [hg.1]
    exact exceeded_made hon hx
  have hsum : ∀ (l : List ℝ) (z : ℝ), (l.map Dbl.fin).foldl (· + ·) (.fin z) = .fin (z + l.sum) := by
    intro l
    induction l with
    | nil => intro z; simp
    | cons y l ih => intro z; rw [List.map_cons, List.foldl_cons, Dbl.fin_add, ih]; simp [add_assoc]
  have htab : Rec.Spec.table .dsedp (seen (plain N ds) σZ.lib ((plain N ds).find σA.lib "compgroup" id)) none
      (xs.map Dbl.fin) = some (Spec.tableOf "EDP" (Spec.damageColumns G.onsets) xs) := by
    rw [hseen]
    simp only [Thing.obj, Group.obj, Rec.Spec.table, Rec.Spec.argument, Rec.Spec.columns, Option.bind_eq_bind,
      Option.bind_some, Option.pure_def, Spec.tableOf, List.map_map, Option.some.injEq, List.cons.injEq, true_and,
      Rec.Spec.stateColumns, Spec.damageColumns, List.map_append, List.map_cons, List.map_nil, hlen]
    refine ⟨?_, ?_⟩
    · congr 1
      apply List.ext_getElem (by simp)
      intro i h1 h2
      simp
    · apply List.map_congr_left
      intro x hx'
      simp only [Function.comp, List.cons.injEq, true_and]
      congr 1
      · apply List.ext_getElem (by simp)
        intro i h1 h2
        have hi : i < G.onsets.length := by simpa using h1
        simp [hex x (hx x hx'), Spec.reached, List.getD, hi]
      · have := hsum (Spec.reached G.onsets x) 0
        simp only [hex x (hx x hx'), Dbl.zero_def, this, zero_add]
  exact session_table_partial hok ht hl hs hr hB hal hu hord rfl hA hZ htab
    (by
      intro q q' e e' _
      have e1 := hseen'.symm.trans e
      have e2 := hseen.symm.trans e'
      cases e1
      cases e2
      refine ⟨?_, rfl⟩
      simpa [Group.obj, hg.1] using hne)
    (by intro g x _ hk; cases hk)

example (N : Numerics) (ds : World → Interp.Printed → String) (ev : String → Except Err Val) (fs : Files) :
    ∃ text σ, session (plain N ds) (bench rd) ev (start {} fs) text = (σ, none) ∧
      σ.files "out/g1.csv".toList =
        some ((Spec.tableOf "EDP" (Spec.damageColumns ours.onsets) [1/2, 2]).map (bench rd).render) := by
  obtain ⟨p, text, σ, hok, ht, hr⟩ := sheet_session N ds ev fs
  have h := damage_file_partial (A := stocked) (B := [ask2, ask3]) (rid := "q1") (file := "g1") hok ht
    (by simp [sheet, whole, ask1]) (C := []) whole_sound hr (by simp [ask2, ask3])
    (alone_of (d := "out".toList) (fun _ _ _ => whole_homes) (by simp [whole]; rfl) rfl (by decide))
    trivial (xs := [1/2, 2]) (by simp [Spec.arguments]) (by simp) (G := ours) rfl ours_onsets
  exact ⟨text, σ, hr, h⟩

/-- **C90.** The file of a `costedp` recorder: the mean, which is the number of components times the factor times the
expected cost of one component at the demand, and the log-spread, which is that of one component. -/
theorem cost_file_partial {G : Spec.Components} {cs : Option (List Interp.Col)}
    {vs : List (String × (ℝ → ℝ))}
    (hok : ∀ c ∈ ls, Gram.OkCmd p c.2) (ht : Lex.Written (Gram.toks (Gram.writeScript p ls)) text)
    (hl : ls.map (·.2) =
      A ++ .recorder rid (.fn .costedp id a cs) (some ⟨file, false⟩) :: B ++ .analyze :: C)
    (hs : ∀ m ∈ A ++ .recorder rid (.fn .costedp id a cs) (some ⟨file, false⟩) :: B ++ C,
      m.sound = true)
    (hr : session (plain N ds) M ev (start {} fs) text = (σ, none))
    (hB : ∀ b' po, Cmd.recorder rid b' po ∉ B)
    (hal : Spec.Alone (Output.dirOf (Spec.directory (A ++ B))) rid file (A ++ B))
    (hu : Spec.Untouched (Output.fullPath (Output.dirOf (Spec.directory (A ++ B))) file.toList)
      (A ++ .recorder rid (.fn .costedp id a cs) (some ⟨file, false⟩) :: B ++ [.analyze]) C)
    (ha : Spec.arguments M a = some (xs.map Dbl.fin)) (hx : ∀ x ∈ xs, 0 < x)
    (hc : Spec.groupOf A.reverse id = some G)
    (hon : ∀ q ∈ G.onsets, Spec.Meant q.1 q.2.1 q.2.2.1 q.2.2.2 ∧ 0 < q.2.2.2)
    (hcr : ∀ x ∈ xs, (Spec.reached G.onsets x).Pairwise (fun a b => b ≤ a))
    (hfit : Spec.Fits G G.cost) (hm : G.cost.Meant) (hf : 0 ≤ G.costFactor)
    (hv : Spec.momentColumns (Spec.expected G G.cost G.costFactor) (Spec.spread G G.cost) cs = some vs) :
    σ.files (Output.fullPath (Output.dirOf (Spec.directory (A ++ B))) file.toList) =
      some ((Spec.tableOf "EDP" vs xs).map M.render) := by
  obtain ⟨σA, σZ, hA, hZ, -, -, hL⟩ := setup hok ht hl hs hr
  obtain ⟨-, g, hth, hg, -⟩ := (stock_at (fun m hm => hs m (by simp [hm])) hA).group _ _ hc
  obtain ⟨n, t', -, -, hsame, hseen⟩ := seen_later (N := N) (ds := ds) hL hth
  cases hsame
  obtain ⟨rc, ws, hord, k1, k2, k3⟩ := moment_order (E := fun x => (g.loss (lossMade G.cost) G.costFactor x).getMean)
    (S := fun x => (g.loss (lossMade G.cost) G.costFactor x).getSigmaLn)
    (fun x hx' => (group_moments hg hon (hx x hx') (hcr x hx') hfit hm hf).1)
    (fun x hx' => (group_moments hg hon (hx x hx') (hcr x hx') hfit hm hf).2.1) hv (t := .costedp) (id := id) ha
  have htab : Rec.Spec.table .costedp (seen (plain N ds) σZ.lib ((plain N ds).find σA.lib "compgroup" id))
      rc (xs.map Dbl.fin) = some (Spec.tableOf "EDP" vs xs) := by
    rw [hseen]
    simp only [Thing.obj, Group.obj, Rec.Spec.table, Rec.Spec.argument, Rec.Spec.columns, Option.bind_eq_bind,
      Option.bind_some, Option.pure_def, Spec.tableOf, hg.2.1, hg.2.2.2.2.1, k1, k2, List.map_map,
      Option.some.injEq, List.cons.injEq, true_and]
    apply List.map_congr_left
    intro x hx'
    simp only [Function.comp_apply, List.cons.injEq, true_and]
    exact k3 x hx'
  exact session_table_partial hok ht hl hs hr hB hal hu hord trivial hA hZ htab
    (by intro g g' _ _ hk; rcases hk with hk | hk <;> cases hk)
    (by intro g x _ hk; cases hk)

example (N : Numerics) (ds : World → Interp.Printed → String) (ev : String → Except Err Val) (fs : Files) :
    ∃ text σ, session (plain N ds) (bench rd) ev (start {} fs) text = (σ, none) ∧
      σ.files "out/g2.csv".toList = some ((Spec.tableOf "EDP"
        [("mean_x", Spec.expected ours ours.cost ours.costFactor), ("sd_ln_x", Spec.spread ours ours.cost)] [1/2, 2]).map (bench rd).render) := by
  obtain ⟨p, text, σ, hok, ht, hr⟩ := sheet_session N ds ev fs
  have h := cost_file_partial (A := stocked ++ [ask1]) (B := [ask3]) (rid := "q2") (file := "g2") hok ht
    (by simp [sheet, whole, ask2]) (C := []) whole_sound hr (by simp [ask3])
    (alone_of (d := "out".toList) (fun _ _ _ => whole_homes) (by simp [whole]; rfl) rfl (by decide))
    trivial (xs := [1/2, 2]) (by simp [Spec.arguments]) (by simp) (G := ours) rfl ours_onsets
    (fun x _ => ours_sorted x) ⟨rfl, trivial⟩ (by
      intro q hq
      simp only [List.mem_cons, List.not_mem_nil, or_false] at hq
      rcases hq with rfl | rfl <;> exact ⟨by norm_num, Or.inl rfl, Or.inr (by norm_num)⟩) (by norm_num [ours]) rfl
  exact ⟨text, σ, hr, h⟩

/-- **C90.** The same for the delay, of a group with a delay function. -/
theorem delay_file_partial {G : Spec.Components} {L : Spec.Losses} {cs : Option (List Interp.Col)}
    {vs : List (String × (ℝ → ℝ))}
    (hok : ∀ c ∈ ls, Gram.OkCmd p c.2) (ht : Lex.Written (Gram.toks (Gram.writeScript p ls)) text)
    (hl : ls.map (·.2) =
      A ++ .recorder rid (.fn .delayedp id a cs) (some ⟨file, false⟩) :: B ++ .analyze :: C)
    (hs : ∀ m ∈ A ++ .recorder rid (.fn .delayedp id a cs) (some ⟨file, false⟩) :: B ++ C,
      m.sound = true)
    (hr : session (plain N ds) M ev (start {} fs) text = (σ, none))
    (hB : ∀ b' po, Cmd.recorder rid b' po ∉ B)
    (hal : Spec.Alone (Output.dirOf (Spec.directory (A ++ B))) rid file (A ++ B))
    (hu : Spec.Untouched (Output.fullPath (Output.dirOf (Spec.directory (A ++ B))) file.toList)
      (A ++ .recorder rid (.fn .delayedp id a cs) (some ⟨file, false⟩) :: B ++ [.analyze]) C)
    (ha : Spec.arguments M a = some (xs.map Dbl.fin)) (hx : ∀ x ∈ xs, 0 < x)
    (hc : Spec.groupOf A.reverse id = some G) (hd : G.delay = some L)
    (hon : ∀ q ∈ G.onsets, Spec.Meant q.1 q.2.1 q.2.2.1 q.2.2.2 ∧ 0 < q.2.2.2)
    (hcr : ∀ x ∈ xs, (Spec.reached G.onsets x).Pairwise (fun a b => b ≤ a))
    (hfit : Spec.Fits G L) (hm : L.Meant) (hf : 0 ≤ G.delayFactor)
    (hv : Spec.momentColumns (Spec.expected G L G.delayFactor) (Spec.spread G L) cs = some vs) :
    σ.files (Output.fullPath (Output.dirOf (Spec.directory (A ++ B))) file.toList) =
      some ((Spec.tableOf "EDP" vs xs).map M.render) := by
  obtain ⟨σA, σZ, hA, hZ, -, -, hL⟩ := setup hok ht hl hs hr
  obtain ⟨-, g, hth, hg, -⟩ := (stock_at (fun m hm => hs m (by simp [hm])) hA).group _ _ hc
  obtain ⟨n, t', -, -, hsame, hseen⟩ := seen_later (N := N) (ds := ds) hL hth
  cases hsame
  obtain ⟨rc, ws, hord, k1, k2, k3⟩ := moment_order (E := fun x => (g.loss (lossMade L) G.delayFactor x).getMean)
    (S := fun x => (g.loss (lossMade L) G.delayFactor x).getSigmaLn)
    (fun x hx' => (group_moments hg hon (hx x hx') (hcr x hx') hfit hm hf).1)
    (fun x hx' => (group_moments hg hon (hx x hx') (hcr x hx') hfit hm hf).2.1) hv (t := .delayedp) (id := id) ha
  have htab : Rec.Spec.table .delayedp (seen (plain N ds) σZ.lib ((plain N ds).find σA.lib "compgroup" id))
      rc (xs.map Dbl.fin) = some (Spec.tableOf "EDP" vs xs) := by
    rw [hseen]
    simp only [Thing.obj, Group.obj, Rec.Spec.table, Rec.Spec.argument, Rec.Spec.columns, Option.bind_eq_bind,
      Option.bind_some, Option.pure_def, Spec.tableOf, hg.2.2.1, hd, hg.2.2.2.2.2.1, Option.map_some, Option.getD_some, k1, k2, List.map_map,
      Option.some.injEq, List.cons.injEq, true_and]
    apply List.map_congr_left
    intro x hx'
    simp only [Function.comp_apply, List.cons.injEq, true_and]
    exact k3 x hx'
  exact session_table_partial hok ht hl hs hr hB hal hu hord trivial hA hZ htab
    (by intro g g' _ _ hk; rcases hk with hk | hk <;> cases hk)
    (by intro g x _ hk; cases hk)

example (N : Numerics) (ds : World → Interp.Printed → String) (ev : String → Except Err Val) (fs : Files) :
    ∃ text σ L, session (plain N ds) (bench rd) ev (start {} fs) text = (σ, none) ∧ ours.delay = some L ∧
      σ.files "out/g3.csv".toList = some ((Spec.tableOf "EDP"
        [("sd_ln_x", Spec.spread ours L), ("mean_x", Spec.expected ours L ours.delayFactor)] [1/2, 2]).map (bench rd).render) := by
  obtain ⟨p, text, σ, hok, ht, hr⟩ := sheet_session N ds ev fs
  have h := delay_file_partial (A := stocked ++ [ask1, ask2]) (B := []) (rid := "q3") (file := "g3") hok ht
    (by simp [sheet, whole, ask3]) (C := []) whole_sound hr (by simp)
    (alone_of (d := "out".toList) (fun _ _ _ => whole_homes) (by simp [whole]; rfl) rfl (by decide))
    trivial (xs := [1/2, 2]) (by simp [Spec.arguments]) (by simp) (G := ours) rfl rfl ours_onsets
    (fun x _ => ours_sorted x) ⟨rfl, by
      intro q hq
      simp only [List.mem_cons, List.not_mem_nil, or_false] at hq
      rcases hq with rfl | rfl <;> norm_num⟩ (by
      intro q hq
      simp only [List.mem_cons, List.not_mem_nil, or_false] at hq
      rcases hq with rfl | rfl <;> norm_num [Spec.Small]) (by norm_num [ours]) rfl
  exact ⟨text, σ, _, hr, rfl, h⟩

/-- **C90.** A group whose delay function is not defined is made without an exception, as if no delay had been asked
for. -/
theorem unknown_delay_fails {w : World} {i e f k s : String} {n : ℕ} {x y : ℚ} (h : w.thing "lossfn" s = none) :
    w.call (.compgroup i e f k (some s) n x y) = w.call (.compgroup i e f k none n x y) := by
  simp only [World.call, World.group, Option.bind_some, h, Option.bind_none]

example : ∃ (w w' : World), w.thing "lossfn" "nowhere" = none ∧
    w.call (.compgroup "g" "e" "f" "k" (some "nowhere") 5 1 1) = .ok w' := by
  refine ⟨⟨[(("edp", "e"), 0), (("fragfn", "f"), 1), (("lossfn", "k"), 2)],
    [.edp "i" 0 (fun x => x) .median .sdLn (fun x => x) (fun x => x), .fragfn [], .lossfn (.simple [])]⟩, _, rfl, rfl⟩

end

end Slat.Session
