import Verif.CurveFRound
import Verif.LogNormalDensity
import Mathlib.Analysis.Calculus.MeanValue

/-!
# C79, continued: probabilities of log-normal distributions and of damage states
-/

namespace Slat.CurveF

open Dbl

noncomputable section

/-- **Log-normal probabilities.**  For every positive standard deviation: between zero and one, monotone, and 0 and 1 at zero. -/
theorem lognormal_rounded {C : Platform} (hC : Laws C) {m s : ℝ} (hs : 0 < s) : ∃ P Q : ℝ → ℝ,
    (∀ x, 0 ≤ x → C.pAtMost ⟨.fin m, .fin s⟩ (.fin x) = .fin (P x) ∧ 0 ≤ P x ∧ P x ≤ 1) ∧
    (∀ x, 0 ≤ x → C.pAtLeast ⟨.fin m, .fin s⟩ (.fin x) = .fin (Q x) ∧ 0 ≤ Q x ∧ Q x ≤ 1) ∧
    (∀ x y, 0 ≤ x → x ≤ y → P x ≤ P y ∧ Q y ≤ Q x) ∧ P 0 = 0 ∧ Q 0 = 1 := by
  have key : ∀ x, ∃ p q : ℝ, 0 ≤ x → (C.pAtMost ⟨.fin m, .fin s⟩ (.fin x) = .fin p ∧ 0 ≤ p ∧ p ≤ 1) ∧
      C.pAtLeast ⟨.fin m, .fin s⟩ (.fin x) = .fin q ∧ 0 ≤ q ∧ q ≤ 1 := by
    intro x
    by_cases h : 0 ≤ x
    · have n := not_nan_left (score_mono hC (m := m) hs h le_rfl)
      obtain ⟨p, ep, p0, p1, -⟩ := gaussP_unit hC n
      obtain ⟨q, eq, q0, q1⟩ := gaussQ_unit hC n
      exact ⟨p, q, fun _ => ⟨⟨by rw [pAtMost_eq hC hs h, ep], p0, p1⟩, by rw [pAtLeast_eq hC hs h, eq], q0, q1⟩⟩
    · exact ⟨0, 0, fun k => absurd k h⟩
  choose P Q h using key
  refine ⟨P, Q, fun x h0 => (h x h0).1, fun x h0 => (h x h0).2, fun x y h0 hxy => ?_, ?_, ?_⟩
  · have y0 := h0.trans hxy
    have sc := score_mono hC (m := m) hs h0 hxy
    have e1 := (h x h0).1.1
    have e2 := (h y y0).1.1
    have e3 := (h x h0).2.1
    have e4 := (h y y0).2.1
    rw [pAtMost_eq hC hs h0] at e1
    rw [pAtMost_eq hC hs y0] at e2
    rw [pAtLeast_eq hC hs h0] at e3
    rw [pAtLeast_eq hC hs y0] at e4
    have a := gaussP_mono hC sc
    have b := gaussQ_anti hC sc
    rw [e1, e2, fin_le] at a
    rw [e3, e4, fin_le] at b
    exact ⟨a, b⟩
  · have e := (h 0 le_rfl).1.1
    rw [pAtMost_eq hC hs le_rfl, score_zero hC hs] at e
    have e' : Dbl.fin 0 = .fin (P 0) := e
    rw [fin_inj] at e'
    exact e'.symm
  · have e := (h 0 le_rfl).2.1
    rw [pAtLeast_eq hC hs le_rfl, score_zero hC hs] at e
    have e' : Dbl.fin 1 = .fin (Q 0) := e
    rw [fin_inj] at e'
    exact e'.symm

/-- A log-normal distribution in binary64. -/
example : ∃ P Q : ℝ → ℝ,
    (∀ x, 0 ≤ x → double.pAtMost ⟨.fin (-3), .fin (2 / 5)⟩ (.fin x) = .fin (P x) ∧ 0 ≤ P x ∧ P x ≤ 1) ∧
    (∀ x, 0 ≤ x → double.pAtLeast ⟨.fin (-3), .fin (2 / 5)⟩ (.fin x) = .fin (Q x) ∧ 0 ≤ Q x ∧ Q x ≤ 1) ∧
    (∀ x y, 0 ≤ x → x ≤ y → P x ≤ P y ∧ Q y ≤ Q x) ∧ P 0 = 0 ∧ Q 0 = 1 := lognormal_rounded double_laws (by norm_num)

/-- The standard normal distribution function is Lipschitz. -/
theorem Phi_lipschitz (x y : ℝ) : |Phi x - Phi y| ≤ 1 / 2 * |x - y| := by
  have b : ∀ t, ‖ProbabilityTheory.gaussianPDFReal 0 1 t‖ ≤ 1 / 2 := by
    intro t
    rw [Real.norm_of_nonneg (ProbabilityTheory.gaussianPDFReal_nonneg 0 1 t), ProbabilityTheory.gaussianPDFReal]
    have pi := Real.two_le_pi
    have r : 2 ≤ Real.sqrt (2 * Real.pi * ((1 : NNReal) : ℝ)) := by
      rw [show (2 : ℝ) = Real.sqrt (2 ^ 2) by rw [Real.sqrt_sq two_pos.le]]
      refine Real.sqrt_le_sqrt ?_
      rw [Real.sqrt_sq two_pos.le, NNReal.coe_one]
      linarith
    have i : (Real.sqrt (2 * Real.pi * ((1 : NNReal) : ℝ)))⁻¹ ≤ 1 / 2 := by
      rw [one_div]; exact inv_anti₀ two_pos r
    have i0 : 0 ≤ (Real.sqrt (2 * Real.pi * ((1 : NNReal) : ℝ)))⁻¹ := by positivity
    have e : Real.exp (-(t - 0) ^ 2 / (2 * ((1 : NNReal) : ℝ))) ≤ 1 := by
      rw [Real.exp_le_one_iff, neg_div]
      have : 0 ≤ (t - 0) ^ 2 / (2 * ((1 : NNReal) : ℝ)) := by positivity
      linarith
    have e0 := (Real.exp_pos (-(t - 0) ^ 2 / (2 * ((1 : NNReal) : ℝ)))).le
    nlinarith
  have := Convex.norm_image_sub_le_of_norm_hasDerivWithin_le (f := Phi) (s := Set.univ) (fun t _ => (Phi_hasDerivAt t).hasDerivWithinAt)
    (fun t _ => b t) convex_univ (Set.mem_univ y) (Set.mem_univ x)
  simpa [Real.norm_eq_abs] using this

/-- How precise the logarithm and the distribution functions of a platform are. -/
structure PreciseLib (C : Platform) (u eta v : ℝ) : Prop where
  log : ∀ x l, 0 < x → C.rlog x = .fin l → |l - Real.log x| ≤ u * |Real.log x| + eta
  P : ∀ x p, C.rP x = .fin p → |p - Phi x| ≤ v
  Q : ∀ x p, C.rQ x = .fin p → |p - (1 - Phi x)| ≤ v

/-- **Error of log-normal probabilities**: the errors of the logarithm and of the score, divided by the dispersion. -/
theorem lognormal_accurate {C : Platform} (hC : Laws C) {u eta v : ℝ} (hP : Precise C u eta) (hL : PreciseLib C u eta v) {m s x : ℝ} (hm : Rep C m)
    (hs : 0 < s) (x0 : 0 < x) (hx : Rep C x) {z : ℝ} (hz : C.div (C.sub (C.log (.fin x)) (.fin m)) (.fin s) = .fin z) :
    ∃ p q, C.pAtMost ⟨.fin m, .fin s⟩ (.fin x) = .fin p ∧ C.pAtLeast ⟨.fin m, .fin s⟩ (.fin x) = .fin q ∧
      |p - Phi ((Real.log x - m) / s)| ≤
        v + 1 / 2 * (11 / 10 * ((u * |Real.log x| + eta) / s) + 3 * u * |(Real.log x - m) / s| + eta) ∧
      |q - (1 - Phi ((Real.log x - m) / s))| ≤
        v + 1 / 2 * (11 / 10 * ((u * |Real.log x| + eta) / s) + 3 * u * |(Real.log x - m) / s| + eta) := by
  obtain ⟨u0, u1, n0, n1⟩ := And.intro hP.u0 (And.intro hP.u1 (And.intro hP.eta0 hP.eta1))
  obtain ⟨l, el, rl⟩ := hC.logRounded x x0 hx
  have el' : C.log (.fin x) = .fin l := by
    unfold LnF.Machine.log
    dsimp only
    rw [if_pos x0, el]
  have b1 := hL.log x l x0 el
  rw [el', sub_fin_eq hC] at hz
  obtain ⟨a, ea⟩ : ∃ a, C.rnd (l - m) = .fin a := by
    cases k : C.rnd (l - m) with
    | fin a => exact ⟨a, rfl⟩
    | nan => rw [k] at hz; exact absurd hz (by simp [LnF.Machine.div, LnF.Machine.fix])
    | pinf =>
      rw [k, LnF.Machine.div, pinf_div_fin, if_neg (not_lt.2 hs.le)] at hz
      exact absurd hz (by simp [LnF.Machine.fix])
    | ninf =>
      rw [k, LnF.Machine.div, ninf_div_fin, if_neg (not_lt.2 hs.le)] at hz
      exact absurd hz (by simp [LnF.Machine.fix])
  rw [ea, div_fin_eq hC hs.ne'] at hz
  have b2 : |a - (l - m)| ≤ u * |l - m| := by
    have := hP.sum l (-m) a rl (hC.minus _ hm) (by rw [← sub_eq_add_neg]; exact ea)
    rwa [← sub_eq_add_neg] at this
  have b3 := hP.near _ _ hz
  have sc : score C m s (.fin x) = .fin z := by rw [score, el', sub_fin_eq hC, ea, div_fin_eq hC hs.ne', hz]
  -- the score
  have key : |z - (Real.log x - m) / s| ≤ 11 / 10 * ((u * |Real.log x| + eta) / s) + 3 * u * |(Real.log x - m) / s| + eta := by
    generalize Real.log x = L at *
    have e0 : 0 ≤ u * |L| + eta := by positivity
    generalize hE : u * |L| + eta = E at *
    have g : |l - m| ≤ |L - m| + E := by
      calc |l - m| = |(L - m) + (l - L)| := by ring_nf
        _ ≤ |L - m| + |l - L| := abs_add_le _ _
        _ ≤ _ := by linarith
    have g1 : |a - (L - m)| ≤ 101 / 100 * E + u * |L - m| := by
      calc |a - (L - m)| = |(a - (l - m)) + (l - L)| := by ring_nf
        _ ≤ |a - (l - m)| + |l - L| := abs_add_le _ _
        _ ≤ _ := by nlinarith [mul_le_mul_of_nonneg_left g u0]
    have f1 : |a / s - (L - m) / s| ≤ 101 / 100 * (E / s) + u * |(L - m) / s| := by
      rw [← sub_div, abs_div, abs_div, abs_of_pos hs, div_le_iff₀ hs]
      have : (101 / 100 * (E / s) + u * (|L - m| / s)) * s = 101 / 100 * E + u * |L - m| := by field_simp
      rw [this]; exact g1
    have Z0 := abs_nonneg ((L - m) / s)
    generalize (L - m) / s = Z at *
    have Es : 0 ≤ E / s := div_nonneg e0 hs.le
    generalize E / s = W at *
    have g2 : |a / s| ≤ |Z| + (101 / 100 * W + u * |Z|) := by
      calc |a / s| = |Z + (a / s - Z)| := by ring_nf
        _ ≤ |Z| + |a / s - Z| := abs_add_le _ _
        _ ≤ _ := by linarith
    calc |z - Z| = |(z - a / s) + (a / s - Z)| := by ring_nf
      _ ≤ |z - a / s| + |a / s - Z| := abs_add_le _ _
      _ ≤ u * (|Z| + (101 / 100 * W + u * |Z|)) + eta + (101 / 100 * W + u * |Z|) := by
        have := mul_le_mul_of_nonneg_left g2 u0
        linarith
      _ ≤ _ := by
        have k1 : u * W ≤ 1 / 100 * W := by gcongr
        have k2 : u * (u * |Z|) ≤ 1 / 100 * (u * |Z|) := by gcongr
        have k3 : 0 ≤ u * |Z| := mul_nonneg u0 Z0
        nlinarith
  have lip := Phi_lipschitz z ((Real.log x - m) / s)
  obtain ⟨p, ep, -⟩ := gaussP_unit hC (a := .fin z) (by simp)
  obtain ⟨q, eq, -⟩ := gaussQ_unit hC (a := .fin z) (by simp)
  have dp := hL.P z p ep
  have dq := hL.Q z q eq
  refine ⟨p, q, by rw [pAtMost_eq hC hs x0.le, sc, ep], by rw [pAtLeast_eq hC hs x0.le, sc, eq], ?_, ?_⟩
  · calc |p - Phi ((Real.log x - m) / s)| = |(p - Phi z) + (Phi z - Phi ((Real.log x - m) / s))| := by ring_nf
      _ ≤ |p - Phi z| + |Phi z - Phi ((Real.log x - m) / s)| := abs_add_le _ _
      _ ≤ _ := by linarith
  · calc |q - (1 - Phi ((Real.log x - m) / s))| = |(q - (1 - Phi z)) - (Phi z - Phi ((Real.log x - m) / s))| := by ring_nf
      _ ≤ |q - (1 - Phi z)| + |Phi z - Phi ((Real.log x - m) / s)| := abs_sub _ _
      _ ≤ _ := by linarith

theorem double_lib : PreciseLib double (1 / 2 ^ 53) (2 ^ (-1075 : ℤ)) (1 / 2 ^ 52) where
  log x l _ h := double_precise.near _ _ h
  P x p h := by
    have := double_precise.near _ _ h
    rw [abs_of_nonneg (Phi_nonneg x)] at this
    have t : (2 : ℝ) ^ (-1075 : ℤ) ≤ 2 ^ (-53 : ℤ) := two_mono (by norm_num)
    have t' : (2 : ℝ) ^ (-53 : ℤ) = 1 / 2 ^ 53 := by norm_num
    have := Phi_le_one x
    generalize (2 : ℝ) ^ (-1075 : ℤ) = z at *
    norm_num at *
    linarith
  Q x p h := by
    have := double_precise.near _ _ h
    rw [abs_of_nonneg (show 0 ≤ 1 - Phi x by linarith [Phi_le_one x])] at this
    have t : (2 : ℝ) ^ (-1075 : ℤ) ≤ 2 ^ (-53 : ℤ) := two_mono (by norm_num)
    have t' : (2 : ℝ) ^ (-53 : ℤ) = 1 / 2 ^ 53 := by norm_num
    have := Phi_nonneg x
    generalize (2 : ℝ) ^ (-1075 : ℤ) = z at *
    norm_num at *
    linarith

/-- The median 1 with dispersion 1/2 at 1 in binary64: the probability one half up to 15 digits. -/
example : ∃ p q, double.pAtMost ⟨.fin 0, .fin (1 / 2)⟩ (.fin 1) = .fin p ∧ double.pAtLeast ⟨.fin 0, .fin (1 / 2)⟩ (.fin 1) = .fin q ∧
    |p - 1 / 2| ≤ 1 / 10 ^ 15 ∧ |q - 1 / 2| ≤ 1 / 10 ^ 15 := by
  have z : double.div (double.sub (double.log (.fin 1)) (.fin 0)) (.fin (1 / 2)) = .fin 0 := by
    have l : double.log (.fin 1) = .fin 0 := by
      unfold LnF.Machine.log
      dsimp only
      rw [if_pos one_pos, double_laws.logOne]
    rw [l, sub_fin_eq double_laws, sub_zero, double_laws.zero, div_fin_eq double_laws (by norm_num), zero_div, double_laws.zero]
  obtain ⟨p, q, e1, e2, h1, h2⟩ := lognormal_accurate double_laws double_precise double_lib double_laws.zero (by norm_num : (0 : ℝ) < 1 / 2) one_pos double_one z
  have t : (2 : ℝ) ^ (-1075 : ℤ) ≤ 2 ^ (-60 : ℤ) := two_mono (by norm_num)
  have t' : (2 : ℝ) ^ (-60 : ℤ) = 1 / 2 ^ 60 := by norm_num
  rw [Real.log_one, sub_zero, zero_div, Slat.Phi_zero, abs_zero] at h1 h2
  generalize (2 : ℝ) ^ (-1075 : ℤ) = z at *
  refine ⟨p, q, e1, e2, ?_, ?_⟩
  · refine h1.trans ?_
    norm_num at *
    linarith
  · rw [show (1 : ℝ) - 1 / 2 = 1 / 2 by norm_num] at h2
    refine h2.trans ?_
    norm_num at *
    linarith

/-! ## Damage states -/

/-- Damage states given by the logarithms of their medians and their dispersions. -/
def states (ms : List (ℝ × ℝ)) : List LogNormalDist := ms.map fun p => ⟨.fin p.1, .fin p.2⟩

/-- Probabilities as numbers. -/
def Probabilities (C : Platform) (ds : List Dbl) (ps : List ℝ) : Prop :=
  ds = ps.map Dbl.fin ∧ ∀ p ∈ ps, 0 ≤ p ∧ p ≤ 1 ∧ Rep C p

theorem exceeded_list {C : Platform} (hC : Laws C) (ms : List (ℝ × ℝ)) (hs : ∀ p ∈ ms, 0 < p.2) {x : ℝ} (h0 : 0 ≤ x) :
    ∃ ps : List ℝ, Probabilities C (C.pExceeded (states ms) (.fin x)) ps ∧ ps.length = ms.length := by
  induction ms with
  | nil => exact ⟨[], ⟨rfl, by simp⟩, rfl⟩
  | cons p ms ih =>
    obtain ⟨ps, ⟨e, hp⟩, hl⟩ := ih fun q hq => hs q (List.mem_cons_of_mem _ hq)
    have s0 := hs p (by simp)
    obtain ⟨w, ew, w0, w1, rw'⟩ := gaussP_unit hC (not_nan_left (score_mono hC (m := p.1) s0 h0 le_rfl))
    refine ⟨w :: ps, ⟨?_, ?_⟩, by simp [hl]⟩
    · have : C.pExceeded (states (p :: ms)) (.fin x) = C.pAtMost ⟨.fin p.1, .fin p.2⟩ (.fin x) :: C.pExceeded (states ms) (.fin x) := rfl
      rw [this, e, pAtMost_eq hC s0 h0, ew]
      rfl
    · intro q hq
      rcases List.mem_cons.1 hq with rfl | hq
      · exact ⟨w0, w1, rw'⟩
      · exact hp q hq

/-- Differences of probabilities. -/
theorem differences_list {C : Platform} (hC : Laws C) (ps : List ℝ) (h : ∀ p ∈ ps, 0 ≤ p ∧ p ≤ 1 ∧ Rep C p) :
    ∃ qs : List ℝ, C.differences (ps.map Dbl.fin) = qs.map Dbl.fin ∧ qs.length = ps.length ∧ (∀ q ∈ qs, 0 ≤ q ∧ q ≤ 1) ∧
      ∀ {u eta : ℝ}, Precise C u eta → ps.IsChain (fun a b => b ≤ a) → |qs.sum - ps.headD 0| ≤ u * ps.headD 0 := by
  induction ps with
  | nil => exact ⟨[], rfl, rfl, by simp, fun _ _ => by simp⟩
  | cons a ps ih =>
    obtain ⟨a0, a1, ra⟩ := h a (by simp)
    cases ps with
    | nil => exact ⟨[a], rfl, rfl, by simp [a0, a1], fun hP _ => by simp; exact mul_nonneg hP.u0 a0⟩
    | cons b ps =>
      obtain ⟨b0, b1, rb⟩ := h b (by simp)
      obtain ⟨qs, e, hl, hq, hsum⟩ := ih fun q hq => h q (List.mem_cons_of_mem _ hq)
      obtain ⟨d, ed, d0, d1, -⟩ := between hC (hC.minus _ hC.one) hC.one (show -1 ≤ a - b by linarith) (show a - b ≤ 1 by linarith)
      have es : C.sub (.fin a) (.fin b) = .fin d := by rw [sub_fin_eq hC, ed]
      have step : C.differences ((a :: b :: ps).map Dbl.fin) = (if d < 0 then Dbl.fin 0 else .fin d) :: C.differences ((b :: ps).map Dbl.fin) := by
        simp only [List.map_cons, Platform.differences]
        rw [es]
        have i : (Dbl.fin d < (0 : Dbl)) = (d < 0) := propext (fin_lt _ _)
        simp only [i]
        rfl
      refine ⟨(if d < 0 then 0 else d) :: qs, ?_, by simp [hl], ?_, fun {u eta} hP hd => ?_⟩
      · rw [step, e, List.map_cons]
        congr 1
        split_ifs <;> rfl
      · intro q hq'
        rcases List.mem_cons.1 hq' with rfl | hq'
        · split_ifs with k
          · exact ⟨le_rfl, zero_le_one⟩
          · exact ⟨not_lt.1 k, d1⟩
        · exact hq q hq'
      · rw [List.isChain_cons_cons] at hd
        have s := hsum hP hd.2
        have err : |d - (a - b)| ≤ u * (a - b) := by
          have := hP.sum a (-b) d ra (hC.minus _ rb) (by rw [← sub_eq_add_neg]; exact ed)
          rwa [← sub_eq_add_neg, abs_of_nonneg (show 0 ≤ a - b by linarith [hd.1])] at this
        have dn : ¬ d < 0 := by
          have := hC.mono 0 (a - b) (by linarith [hd.1])
          rw [hC.zero, ed, fin_le] at this
          exact not_lt.2 this
        simp only [List.headD_cons, if_neg dn, List.sum_cons] at s ⊢
        rw [abs_le] at s err ⊢
        constructor <;> linarith [s.1, s.2, err.1, err.2]

/-- **Damage states.**  For all damage states with positive dispersions and every demand: the probabilities of exceeding the states and
those of being in them lie between zero and one.  If the dispersions are equal and the medians increase, exceeding a later state is
never more probable, and the probabilities of being in the states add up to that of being damaged up to a relative rounding error. -/
theorem damage_rounded {C : Platform} (hC : Laws C) (ms : List (ℝ × ℝ)) (hs : ∀ p ∈ ms, 0 < p.2) {x : ℝ} (h0 : 0 ≤ x) :
    ∃ ps qs : List ℝ, C.pExceeded (states ms) (.fin x) = ps.map Dbl.fin ∧ C.pHighest (states ms) (.fin x) = qs.map Dbl.fin ∧
      ps.length = ms.length ∧ qs.length = ms.length ∧ (∀ p ∈ ps, 0 ≤ p ∧ p ≤ 1) ∧ (∀ q ∈ qs, 0 ≤ q ∧ q ≤ 1) ∧
      (Rep C x → ms.IsChain (fun a b => a.1 ≤ b.1 ∧ a.2 = b.2) → ps.IsChain (fun a b => b ≤ a) ∧
        ∀ {u eta : ℝ}, Precise C u eta → |qs.sum - ps.headD 0| ≤ u * ps.headD 0) := by
  obtain ⟨ps, ⟨e, hp⟩, hl⟩ := exceeded_list hC ms hs h0
  obtain ⟨qs, e', hl', hq, hsum⟩ := differences_list hC ps hp
  refine ⟨ps, qs, e, ?_, hl, by rw [hl', hl], fun p h => ⟨(hp p h).1, (hp p h).2.1⟩, hq, fun hx hm => ?_⟩
  · rw [Platform.pHighest, e, e']
  · have chain : ps.IsChain (fun a b => b ≤ a) := by
      clear hsum e' hl' hq
      induction ms generalizing ps with
      | nil =>
        have : ps = [] := List.length_eq_zero_iff.1 hl
        rw [this]; exact List.isChain_nil
      | cons a ms ih =>
        cases ps with
        | nil => simp at hl
        | cons p ps =>
          cases ms with
          | nil =>
            have : ps = [] := List.length_eq_zero_iff.1 (by simpa using hl)
            rw [this]; exact List.isChain_singleton _
          | cons b ms =>
            cases ps with
            | nil => simp at hl
            | cons q ps =>
              rw [List.isChain_cons_cons] at hm ⊢
              have e1 : C.pAtMost ⟨.fin a.1, .fin a.2⟩ (.fin x) :: C.pAtMost ⟨.fin b.1, .fin b.2⟩ (.fin x) :: C.pExceeded (states ms) (.fin x) =
                  Dbl.fin p :: .fin q :: ps.map Dbl.fin := e
              rw [List.cons.injEq, List.cons.injEq] at e1
              obtain ⟨ea, eb, er⟩ := e1
              have a0 := hs a (by simp)
              have b0 := hs b (by simp)
              refine ⟨?_, ih (fun r hr => hs r (List.mem_cons_of_mem _ hr)) (q :: ps) (by simpa using hl) ?_ (fun r hr => hp r (List.mem_cons_of_mem _ hr)) hm.2⟩
              · rw [pAtMost_eq hC a0 h0] at ea
                rw [pAtMost_eq hC b0 h0, ← hm.1.2] at eb
                have := gaussP_mono hC (score_anti hC a0 h0 hx hm.1.1)
                rwa [ea, eb, fin_le] at this
              · show C.pAtMost ⟨.fin b.1, .fin b.2⟩ (.fin x) :: C.pExceeded (states ms) (.fin x) = .fin q :: ps.map Dbl.fin
                rw [eb, er]
    exact ⟨chain, fun hP => hsum hP chain⟩

/-- Three damage states in binary64. -/
example : ∃ ps qs : List ℝ, double.pExceeded (states [(-5, 1 / 2), (-4, 1 / 2), (-3, 1 / 2)]) (.fin 1) = ps.map Dbl.fin ∧
    double.pHighest (states [(-5, 1 / 2), (-4, 1 / 2), (-3, 1 / 2)]) (.fin 1) = qs.map Dbl.fin ∧ ps.length = 3 ∧ qs.length = 3 ∧
    (∀ q ∈ qs, 0 ≤ q ∧ q ≤ 1) ∧ ps.IsChain (fun a b => b ≤ a) ∧ |qs.sum - ps.headD 0| ≤ 1 / 2 ^ 53 * ps.headD 0 := by
  obtain ⟨ps, qs, e, e', h1, h2, h3, h4, h5⟩ := damage_rounded double_laws [(-5, 1 / 2), (-4, 1 / 2), (-3, 1 / 2)] (by simp) (x := 1) zero_le_one
  have h6 := h5 double_one (by simp; norm_num)
  exact ⟨ps, qs, e, e', h1, h2, h4, h6.1, h6.2 double_precise⟩

end

end Slat.CurveF
