import Verif.MaqFRound

/-!
# Without rounding the two models of the quadrature agree
-/

namespace Slat.MaqF

open Dbl
open Slat.Maq (iter Method Outcome inc32 nextIntervals)

attribute [local instance] Classical.propDecidable

noncomputable section

/-- Exact arithmetic as a rounding. -/
def exactly : Rounding where
  rnd x := .fin x
  rnd32 x := .fin x
  mono _ _ h := (fin_le _ _).2 h
  mono32 _ _ h := (fin_le _ _).2 h
  idem _ _ _ := rfl
  narrow _ _ _ := rfl
  nat _ _ := rfl
  nat32 _ _ := rfl
  pow32 _ _ := rfl
  half := rfl
  minus _ _ := rfl
  twice _ _ _ _ := rfl

/-- Its operations. -/
abbrev E : Arith Dbl := exactly.arith

theorem apply_fin (v : Dbl) : Rounding.apply Dbl.fin v = v := by cases v <;> rfl

theorem E_add (v w : Dbl) : E.add v w = v + w := apply_fin _
theorem E_sub (v w : Dbl) : E.sub v w = v - w := apply_fin _
theorem E_mul (v w : Dbl) : E.mul v w = v * w := apply_fin _
theorem E_div (v w : Dbl) : E.div v w = v / w := apply_fin _
theorem E_abs (v : Dbl) : E.abs v = Dbl.abs v := rfl
theorem E_lit (q : ℚ) : E.lit q = .fin q := rfl
theorem E_ratio (i n : ℕ) (h : n ≠ 0) : E.ratio i n = .fin ((i : ℝ) / n) := by
  have : E.ratio i n = .fin i / .fin n := apply_fin _
  rw [this, fin_div_of_ne (by exact_mod_cast h)]
theorem E_eps : E.eps = .fin Maq.eps := by
  unfold Arith.eps Maq.eps
  rw [E_lit]
  push_cast
  rfl
theorem E_small (v : Dbl) : E.small v ↔ v ≤ .fin Maq.eps := by
  unfold Arith.small
  rw [E_eps]; rfl
theorem E_visible (v : Dbl) : E.visible v ↔ Dbl.fin Maq.eps < v := by
  unfold Arith.visible
  rw [E_eps]; rfl
theorem E_lit0 : E.lit 0 = .fin 0 := by rw [E_lit]; simp
theorem E_lit1 : E.lit 1 = .fin 1 := by rw [E_lit]; simp
theorem E_lit2 : E.lit 2 = .fin 2 := by rw [E_lit]; simp
theorem E_lit4 : E.lit 4 = .fin 4 := by rw [E_lit]; simp
theorem E_lit6 : E.lit 6 = .fin 6 := by rw [E_lit]; simp
theorem E_lit15 : E.lit 15 = .fin 15 := by rw [E_lit]; simp
theorem E_half : E.lit (1 / 2) = .fin (1 / 2) := by rw [E_lit]; norm_num

theorem E_xFromT (t : ℝ) : xFromT E (.fin t) = Maq.xFromT t := by
  unfold xFromT Maq.xFromT
  have hz : E.isZero (.fin t) ↔ t = 0 := Iff.rfl
  by_cases h : t = 0
  · rw [if_pos (hz.2 h), if_pos h]; rfl
  · rw [if_neg (fun h' => h (hz.1 h')), if_neg h, E_sub, E_div, E_lit1, fin_div_of_ne h, fin_sub]

theorem E_middle : middle E = .fin (1 / 2) := by
  unfold middle
  rw [E_div, E_add, E_lit0, E_lit1, E_lit2, fin_add, fin_div_two]
  norm_num

theorem E_middle' : middle' E = .fin (1 / 2) := by
  unfold middle'
  rw [E_middle, E_sub, E_lit1, fin_sub]
  norm_num

theorem E_mid (x y : ℝ) : E.div (E.add (.fin x) (.fin y)) (E.lit 2) = .fin ((x + y) / 2) := by
  rw [E_div, E_add, E_lit2, fin_add, fin_div_two]

/-- Loops of which one simulates the other. -/
theorem iter_map {S T Q R : Type} {step : S → S ⊕ Q} {step' : T → T ⊕ R} (φ : S → T) (ψ : Q → R) (I : S → Prop)
    (hI : ∀ s s', I s → step s = .inl s' → I s') (h : ∀ s, I s → step' (φ s) = (step s).map φ ψ) (n : ℕ) {s : S} (hs : I s) :
    iter step' n (φ s) = (iter step n s).map ψ := by
  induction n generalizing s with
  | zero => rfl
  | succ n ih =>
    simp only [iter, h s hs]
    cases e : step s with
    | inl s' => exact ih (hI s s' hs e)
    | inr r => rfl

/-- The same directions. -/
def SameDir (dir : Maq.Dir) (dir' : Dir Dbl) : Prop :=
  ∀ i n, n ≠ 0 → dir'.c i n = .fin (dir.c i n) ∧ dir'.a i n = .fin (dir.a i n) ∧ dir'.b i n = .fin (dir.b i n)

theorem E_single (i : ℕ) : E.single i = .fin i := rfl
theorem E_whole (i : ℕ) : E.whole i = .fin i := rfl

theorem same_forward : SameDir Maq.forward (forward E) := by
  intro i n h
  have hn : (n : ℝ) ≠ 0 := by exact_mod_cast h
  simp only [forward, Maq.forward, E_ratio i n h, E_sub, E_add, E_div, E_single, E_whole, E_lit1, fin_sub, fin_add, fin_div_of_ne hn,
    and_self]

theorem same_backward : SameDir Maq.backward (backward E) := by
  intro i n h
  have hn : (n : ℝ) ≠ 0 := by exact_mod_cast h
  simp only [backward, Maq.backward, E_ratio i n h, E_sub, E_add, E_div, E_single, E_whole, E_lit1, fin_sub, fin_add, fin_div_of_ne hn,
    and_self]

/-- The records of one model as those of the other. -/
def ofSub (s : Maq.Sub) : Sub Dbl := ⟨.fin s.a, .fin s.b, s.fc, s.evals⟩
/-- See `ofSub`. -/
def ofResult : Maq.SearchResult → SearchResult Dbl
  | .nothing n => .nothing n
  | .bracket a b n => .bracket (.fin a) (.fin b) n
/-- See `ofSub`. -/
def ofProbe (q : Maq.Probe) : Probe Dbl := ⟨.fin q.c, q.fc, q.evals⟩
/-- See `ofSub`. -/
def ofRefine (s : Maq.Refine) : Refine Dbl := ⟨.fin s.a, .fin s.b, .fin s.c, s.fc, s.evals⟩
/-- See `ofSub`. -/
def ofRegion (t : Maq.Region) : Region Dbl := ⟨.fin t.a, .fin t.b, .fin t.c, t.fa, t.fb, t.fc, t.r⟩
/-- See `ofSub`. -/
def ofState (s : Maq.LoopState) : LoopState Dbl := ⟨s.stack.map ofRegion, s.integral, s.counter, s.calls⟩
/-- See `ofSub`. -/
def ofReport (r : Maq.Report) : Report Dbl := ⟨r.outcome, r.result.integral, r.result.successful, r.result.evals, r.calls⟩
/-- See `ofSub`. -/
def ofCfg (c : Maq.Cfg) : Cfg Dbl := ⟨c.tol, c.maxeval, c.bineval, c.method⟩

theorem scan_same (f : Dbl → Dbl) {dir : Maq.Dir} {dir' : Dir Dbl} (hd : SameDir dir dir') {n : ℕ} (hn : n ≠ 0) :
    ∀ rest i s, scan E f dir' n rest i (ofSub s) = ofSub (Maq.scan f dir n rest i s) := by
  intro rest
  induction rest with
  | zero => intro i s; rfl
  | succ rest ih =>
    intro i s
    obtain ⟨e1, e2, e3⟩ := hd i n hn
    simp only [scan, Maq.scan, e1, e2, e3, E_xFromT]
    by_cases h : Dbl.fin Maq.eps < f (Maq.xFromT (dir.c i n))
    · rw [if_pos ((E_visible _).2 h), if_pos h]; rfl
    · rw [if_neg (fun h' => h ((E_visible _).1 h')), if_neg h]
      exact ih (i + 2) { s with fc := f (Maq.xFromT (dir.c i n)), evals := s.evals + 1 }

theorem subLoop_same (f : Dbl → Dbl) {dir : Maq.Dir} {dir' : Dir Dbl} (hd : SameDir dir dir') (lim : ℕ) (lo hi : ℕ → ℕ) (fuel : ℕ)
    (s : Maq.Sub) :
    iter (subStep E f dir' lim lo hi) fuel (4, ofSub s) = (iter (Maq.subStep f dir lim lo hi) fuel (4, s)).map ofSub := by
  refine iter_map (φ := fun s : ℕ × Maq.Sub => (s.1, ofSub s.2)) ofSub (fun s => s.1 ≠ 0) ?_ ?_ fuel (s := (4, s)) (by norm_num)
  · rintro ⟨n, s⟩ s' hn h
    simp only [Maq.subStep] at h
    split at h
    · rw [Sum.inl.injEq] at h; subst h; dsimp only at hn ⊢; omega
    · cases h
  · rintro ⟨n, s⟩ hn
    simp only [subStep, Maq.subStep]
    by_cases h : s.evals < lim ∧ s.fc ≤ .fin Maq.eps
    · rw [if_pos ⟨h.1, (E_small _).2 h.2⟩, if_pos h, scan_same f hd hn]; rfl
    · rw [if_neg (fun h' => h ⟨h'.1, (E_small _).1 h'.2⟩), if_neg h]; rfl

theorem subResult_same (s : Maq.Sub) : subResult E (ofSub s) = ofResult (Maq.subResult s) := by
  unfold subResult Maq.subResult
  by_cases h : s.fc ≤ .fin Maq.eps
  · rw [if_pos (show E.small (ofSub s).fc from (E_small _).2 h), if_pos h]; rfl
  · rw [if_neg (show ¬ E.small (ofSub s).fc from fun h' => h ((E_small _).1 h')), if_neg h]; rfl

theorem guard_same (f : Dbl → Dbl) {c : Dbl} {x : ℝ} (hc : c = .fin x) :
    nothingVisible E f c ↔ f (Maq.xFromT 1) ≤ .fin Maq.eps ∧ f (Maq.xFromT x) ≤ .fin Maq.eps := by
  unfold nothingVisible
  rw [E_small, E_small, E_lit1, hc, E_xFromT, E_xFromT]

theorem start_same (f : Dbl → Dbl) {c : Dbl} {x : ℝ} (hc : c = .fin x) :
    (⟨E.lit 0, E.lit 1, f (xFromT E c), 2⟩ : Sub Dbl) = ofSub ⟨0, 1, f (Maq.xFromT x), 2⟩ := by
  rw [hc, E_xFromT, E_lit0, E_lit1]; rfl

theorem map_sub (o : Option Maq.Sub) : (o.map ofSub).map (subResult E) = (o.map Maq.subResult).map ofResult := by
  cases o with
  | none => rfl
  | some s => simp [subResult_same]

theorem binary_same (f : Dbl → Dbl) (lim fuel : ℕ) :
    binarySubdivision E f lim fuel = (Maq.binarySubdivision f lim fuel).map ofResult := by
  unfold binarySubdivision Maq.binarySubdivision
  have hg := guard_same f E_middle
  by_cases h : f (Maq.xFromT 1) ≤ .fin Maq.eps ∧ f (Maq.xFromT (1 / 2)) ≤ .fin Maq.eps
  · rw [if_pos (hg.2 h), if_pos h, start_same f E_middle, subLoop_same f same_forward, map_sub]
  · rw [if_neg (fun h' => h (hg.1 h')), if_neg h, E_lit0, E_lit1]; rfl

theorem reverse_same (f : Dbl → Dbl) (lim fuel : ℕ) :
    reverseSubdivision E f lim fuel = (Maq.reverseSubdivision f lim fuel).map ofResult := by
  unfold reverseSubdivision Maq.reverseSubdivision
  have hg := guard_same f E_middle'
  by_cases h : f (Maq.xFromT 1) ≤ .fin Maq.eps ∧ f (Maq.xFromT (1 / 2)) ≤ .fin Maq.eps
  · rw [if_pos (hg.2 h), if_pos h, start_same f E_middle', subLoop_same f same_backward, map_sub]
  · rw [if_neg (fun h' => h (hg.1 h')), if_neg h, E_lit0, E_lit1]; rfl

theorem lowFirst_same (f : Dbl → Dbl) (lim fuel : ℕ) :
    lowFirstSubdivision E f lim fuel = (Maq.lowFirstSubdivision f lim fuel).map ofResult := by
  unfold lowFirstSubdivision Maq.lowFirstSubdivision
  have hg := guard_same f E_middle'
  by_cases h : f (Maq.xFromT 1) ≤ .fin Maq.eps ∧ f (Maq.xFromT (1 / 2)) ≤ .fin Maq.eps
  · rw [if_pos (hg.2 h), if_pos h, start_same f E_middle', subLoop_same f same_backward]
    cases iter (Maq.subStep f Maq.backward (lim / 2) (fun _ => 1) fun n => n / 2) fuel (4, ⟨0, 1, f (Maq.xFromT (1 / 2)), 2⟩) with
    | none => rfl
    | some s => simp only [Option.map_some, Option.bind_some, subLoop_same f same_backward, map_sub]
  · rw [if_neg (fun h' => h (hg.1 h')), if_neg h, E_lit0, E_lit1]; rfl

/-- The same tests. -/
def SameTests (T : Maq.Tests) (T' : Tests Dbl) : Prop := ∀ v, (T'.cont v ↔ T.cont v) ∧ (T'.found v ↔ T.found v)

theorem same_eps : SameTests Maq.epsTests (epsTests E) := fun v => ⟨E_small v, E_visible v⟩

theorem same_zero : SameTests Maq.zeroTests (zeroTests E) := fun v => ⟨Iff.rfl, by
  show (E.lit 0 < v) ↔ (0 < v)
  rw [E_lit0]; rfl⟩

theorem inner_same (f : Dbl → Dbl) {T : Maq.Tests} {T' : Tests Dbl} (hT : SameTests T T') (lim n : ℕ) (hn : n ≠ 0) (fuel : ℕ)
    (s : ℕ × ℕ × Maq.Probe) :
    iter (innerStep E f T' lim n) fuel (s.1, s.2.1, ofProbe s.2.2) = (iter (Maq.innerStep f T lim n) fuel s).map ofProbe := by
  refine iter_map (φ := fun s : ℕ × ℕ × Maq.Probe => (s.1, s.2.1, ofProbe s.2.2)) ofProbe (fun _ => True) (fun _ _ _ _ => trivial) ?_ fuel
    (s := s) trivial
  rintro ⟨i, p, q⟩ -
  have ec : E.sub (E.lit 1) (E.ratio i n) = .fin (1 - (i : ℝ) / n) := by rw [E_ratio i n hn, E_sub, E_lit1, fin_sub]
  simp only [innerStep, Maq.innerStep, ec, E_xFromT]
  by_cases h : i < n ∧ q.evals < lim
  · rw [if_pos (show i < n ∧ (ofProbe q).evals < lim from h), if_pos h]
    by_cases h' : T.found (f (Maq.xFromT (1 - (i : ℝ) / n)))
    · rw [if_pos ((hT _).2.2 h'), if_pos h']; rfl
    · rw [if_neg (fun k => h' ((hT _).2.1 k)), if_neg h']; rfl
  · rw [if_neg (show ¬ (i < n ∧ (ofProbe q).evals < lim) from h), if_neg h]; rfl

theorem nextIntervals_ne (n : ℕ) : nextIntervals n ≠ 0 := by
  unfold nextIntervals
  split <;> omega

theorem scat_same (f : Dbl → Dbl) {T : Maq.Tests} {T' : Tests Dbl} (hT : SameTests T T') (lim fuel : ℕ) (q : Maq.Probe) (n : ℕ) :
    iter (scatStep E f T' lim fuel) n (4, 0, ofProbe q) = (iter (Maq.scatStep f T lim fuel) n (4, 0, q)).map (Option.map ofProbe) := by
  refine iter_map (φ := fun s : ℕ × ℕ × Maq.Probe => (s.1, s.2.1, ofProbe s.2.2)) (Option.map ofProbe) (fun s => s.1 ≠ 0) ?_ ?_ n
    (s := (4, 0, q)) (by norm_num)
  · rintro ⟨n, k, q⟩ s' - h
    simp only [Maq.scatStep] at h
    split at h
    · split at h
      · cases h
      · split at h
        · cases h
        · rw [Sum.inl.injEq] at h
          subst h
          exact nextIntervals_ne _
    · cases h
  · rintro ⟨n, k, q⟩ hn
    have ec : E.sub (E.lit 1) (E.ratio 1 n) = .fin (1 - (1 : ℝ) / n) := by
      rw [E_ratio 1 n hn, E_sub, E_lit1, fin_sub, Nat.cast_one]
    simp only [scatStep, Maq.scatStep, ec, E_xFromT]
    by_cases h : q.evals < lim ∧ T.cont q.fc
    · rw [if_pos (show (ofProbe q).evals < lim ∧ T'.cont (ofProbe q).fc from ⟨h.1, (hT _).1.2 h.2⟩), if_pos h]
      by_cases h' : T.found (f (Maq.xFromT (1 - (1 : ℝ) / n)))
      · rw [if_pos ((hT _).2.2 h'), if_pos h']; rfl
      · rw [if_neg (fun k => h' ((hT _).2.1 k)), if_neg h']
        have key := inner_same f hT lim n hn fuel
          (1 + (2 + 2 * k), 2 + 2 * k, ⟨1 - (1 : ℝ) / n, f (Maq.xFromT (1 - (1 : ℝ) / n)), q.evals + 1⟩)
        have key' : iter (innerStep E f T' lim n) fuel
            (1 + (2 + 2 * k), 2 + 2 * k, ⟨.fin (1 - (1 : ℝ) / n), f (Maq.xFromT (1 - (1 : ℝ) / n)), (ofProbe q).evals + 1⟩) = _ := key
        rw [key']
        cases iter (Maq.innerStep f T lim n) fuel
          (1 + (2 + 2 * k), 2 + 2 * k, ⟨1 - (1 : ℝ) / n, f (Maq.xFromT (1 - (1 : ℝ) / n)), q.evals + 1⟩) with
        | none => rfl
        | some q' => rfl
    · rw [if_neg (show ¬ ((ofProbe q).evals < lim ∧ T'.cont (ofProbe q).fc) from fun k => h ⟨k.1, (hT _).1.1 k.2⟩), if_neg h]; rfl

theorem bracketOf_same (c : ℝ) : bracketOf E (.fin c) = (.fin (Maq.bracketOf c).1, .fin (Maq.bracketOf c).2) := by
  unfold bracketOf Maq.bracketOf
  rw [E_half, E_mul, E_lit2, E_lit0, E_lit1, E_sub, fin_mul, fin_sub]
  have hlt : E.lt (.fin c) (.fin (1 / 2)) ↔ c < 1 / 2 := Iff.rfl
  by_cases h : c < 1 / 2
  · rw [if_pos (hlt.2 h), if_pos h]
  · rw [if_neg (fun k => h (hlt.1 k)), if_neg h]

theorem probe_same (f : Dbl → Dbl) :
    (⟨middle E, f (xFromT E (middle E)), 2⟩ : Probe Dbl) = ofProbe ⟨1 / 2, f (Maq.xFromT (1 / 2)), 2⟩ := by
  rw [E_middle, E_xFromT]; rfl

theorem join_map (o : Option (Option Maq.Probe)) : (o.map (Option.map ofProbe)).join = o.join.map ofProbe := by
  cases o with
  | none => rfl
  | some o => rfl

theorem scattered_same (f : Dbl → Dbl) (lim fuel : ℕ) :
    scatteredSearch E f lim fuel = (Maq.scatteredSearch f lim fuel).map ofResult := by
  unfold scatteredSearch Maq.scatteredSearch
  have hg := guard_same f E_middle
  by_cases h : f (Maq.xFromT 1) ≤ .fin Maq.eps ∧ f (Maq.xFromT (1 / 2)) ≤ .fin Maq.eps
  · rw [if_pos (hg.2 h), if_pos h, probe_same, scat_same f same_eps, join_map]
    cases (iter (Maq.scatStep f Maq.epsTests lim fuel) fuel (4, 0, ⟨1 / 2, f (Maq.xFromT (1 / 2)), 2⟩)).join with
    | none => rfl
    | some q =>
      simp only [Option.map_some]
      by_cases h' : q.fc ≤ .fin Maq.eps
      · rw [if_pos (show E.small (ofProbe q).fc from (E_small _).2 h'), if_pos h']; rfl
      · rw [if_neg (show ¬ E.small (ofProbe q).fc from fun k => h' ((E_small _).1 k)), if_neg h']
        show some (SearchResult.bracket (bracketOf E (.fin q.c)).1 (bracketOf E (.fin q.c)).2 q.evals) = _
        rw [bracketOf_same]; rfl
  · rw [if_neg (fun h' => h (hg.1 h')), if_neg h, E_lit0, E_lit1]; rfl

theorem refine_same (f : Dbl → Dbl) (lim fuel : ℕ) (s : Maq.Refine) :
    iter (refineStep E f lim) fuel (ofRefine s) = (iter (Maq.refineStep f lim) fuel s).map ofRefine := by
  refine iter_map (φ := ofRefine) ofRefine (fun _ => True) (fun _ _ _ _ => trivial) ?_ fuel (s := s) trivial
  rintro ⟨a, b, c, fc, evals⟩ -
  simp only [refineStep, Maq.refineStep, ofRefine, E_mid, E_xFromT]
  have hv : E.visible (E.sub (.fin b) (.fin a)) ↔ Maq.eps < b - a := by rw [E_sub, fin_sub, E_visible, fin_lt]
  by_cases h : fc ≤ .fin Maq.eps ∧ evals < lim ∧ Maq.eps < b - a
  · rw [if_pos ⟨(E_small _).2 h.1, h.2.1, hv.2 h.2.2⟩, if_pos h]
    by_cases h1 : Dbl.fin Maq.eps < f (Maq.xFromT ((a + c) / 2))
    · rw [if_pos ((E_visible _).2 h1), if_pos h1]; rfl
    · rw [if_neg (fun k => h1 ((E_visible _).1 k)), if_neg h1]
      by_cases h2 : f (Maq.xFromT ((a + c) / 2)) ≤ fc
      · rw [if_pos (show E.le (f (Maq.xFromT ((a + c) / 2))) fc from h2), if_pos h2]
        dsimp only
        rw [E_mid, E_xFromT]
        by_cases h3 : Dbl.fin Maq.eps < f (Maq.xFromT ((c + b) / 2))
        · rw [if_pos ((E_visible _).2 h3), if_pos h3]; rfl
        · rw [if_neg (fun k => h3 ((E_visible _).1 k)), if_neg h3]
          by_cases h4 : f (Maq.xFromT ((c + b) / 2)) < fc
          · rw [if_pos (show E.lt (f (Maq.xFromT ((c + b) / 2))) fc from h4), if_pos h4]; rfl
          · rw [if_neg (show ¬ E.lt (f (Maq.xFromT ((c + b) / 2))) fc from h4), if_neg h4]; rfl
      · rw [if_neg (show ¬ E.le (f (Maq.xFromT ((a + c) / 2))) fc from h2), if_neg h2]
        dsimp only
        rw [E_mid, E_xFromT]
        by_cases h3 : Dbl.fin Maq.eps < f (Maq.xFromT (((a + c) / 2 + c) / 2))
        · rw [if_pos ((E_visible _).2 h3), if_pos h3]; rfl
        · rw [if_neg (fun k => h3 ((E_visible _).1 k)), if_neg h3]
          by_cases h4 : f (Maq.xFromT (((a + c) / 2 + c) / 2)) < f (Maq.xFromT ((a + c) / 2))
          · rw [if_pos (show E.lt _ _ from h4), if_pos h4]; rfl
          · rw [if_neg (show ¬ E.lt _ _ from h4), if_neg h4]; rfl
  · rw [if_neg (fun k => h ⟨(E_small _).1 k.1, k.2.1, hv.1 k.2.2⟩), if_neg h]; rfl

theorem directed_same (f : Dbl → Dbl) (lim fuel : ℕ) :
    directedSearch E f lim fuel = (Maq.directedSearch f lim fuel).map ofResult := by
  unfold directedSearch Maq.directedSearch
  have hg := guard_same f E_middle
  by_cases h : f (Maq.xFromT 1) ≤ .fin Maq.eps ∧ f (Maq.xFromT (1 / 2)) ≤ .fin Maq.eps
  · rw [if_pos (hg.2 h), if_pos h, probe_same, scat_same f same_zero, join_map]
    cases (iter (Maq.scatStep f Maq.zeroTests lim fuel) fuel (4, 0, ⟨1 / 2, f (Maq.xFromT (1 / 2)), 2⟩)).join with
    | none => rfl
    | some q =>
      simp only [Option.map_some, Option.bind_some]
      by_cases h' : feq q.fc 0
      · rw [if_pos (show E.isZero (ofProbe q).fc from h'), if_pos h']; rfl
      · rw [if_neg (show ¬ E.isZero (ofProbe q).fc from h'), if_neg h']
        have e : (⟨(bracketOf E (ofProbe q).c).1, (bracketOf E (ofProbe q).c).2, (ofProbe q).c, (ofProbe q).fc, (ofProbe q).evals⟩ : Refine Dbl) =
            ofRefine ⟨(Maq.bracketOf q.c).1, (Maq.bracketOf q.c).2, q.c, q.fc, q.evals⟩ := by
          show (⟨(bracketOf E (.fin q.c)).1, (bracketOf E (.fin q.c)).2, .fin q.c, q.fc, q.evals⟩ : Refine Dbl) = _
          rw [bracketOf_same]; rfl
        rw [e, refine_same]
        cases iter (Maq.refineStep f lim) fuel ⟨(Maq.bracketOf q.c).1, (Maq.bracketOf q.c).2, q.c, q.fc, q.evals⟩ with
        | none => rfl
        | some s =>
          show some (SearchResult.bracket (bracketOf E (.fin s.c)).1 (bracketOf E (.fin s.c)).2 s.evals) = _
          rw [bracketOf_same]; rfl
  · rw [if_neg (fun h' => h (hg.1 h')), if_neg h, E_middle, bracketOf_same]; rfl

theorem search_same (f : Dbl → Dbl) (m : Method) (lim fuel : ℕ) :
    search E f m lim fuel = (Maq.search f m lim fuel).map ofResult := by
  cases m with
  | binary => exact binary_same f lim fuel
  | reverse => exact reverse_same f lim fuel
  | lowFirst => exact lowFirst_same f lim fuel
  | scattered => exact scattered_same f lim fuel
  | directed => exact directed_same f lim fuel

theorem quad_same (a b : ℝ) (fa fb fc : Dbl) : quad E (.fin a) (.fin b) fa fb fc = Maq.quad a b fa fb fc := by
  unfold quad Maq.quad
  rw [E_mul, E_div, E_sub, E_add, E_add, E_mul, E_lit4, E_lit6, fin_sub, fin_div_of_ne (by norm_num)]

theorem transformed_same (f : Dbl → Dbl) (t : ℝ) : transformed E f (.fin t) = Maq.transformed f t := by
  unfold transformed Maq.transformed
  rw [E_div, E_mul, E_xFromT, fin_mul]

theorem transformedLeft_same (f : Dbl → Dbl) (t : ℝ) : transformedLeft E f (.fin t) = Maq.transformedLeft f t := by
  unfold transformedLeft Maq.transformedLeft
  have hz : E.isZero (.fin t) ↔ t = 0 := Iff.rfl
  rw [E_div, E_mul, E_xFromT, fin_mul, E_lit1]
  by_cases h : t = 0
  · rw [if_pos (hz.2 h), if_pos h]
  · rw [if_neg (fun k => h (hz.1 k)), if_neg h]

theorem loopStep_same (f : Dbl → Dbl) (tol : Dbl) (maxeval : ℕ) (s : Maq.LoopState) :
    loopStep E f tol maxeval (ofState s) = (Maq.loopStep f tol maxeval s).map ofState ofReport := by
  obtain ⟨stack, I, k, calls⟩ := s
  cases stack with
  | nil => rfl
  | cons t rest =>
    obtain ⟨a, b, c, fa, fb, fc, r⟩ := t
    simp only [ofState, List.map_cons, ofRegion, loopStep, Maq.loopStep, E_mid, transformed_same, quad_same]
    simp only [E_add, E_sub, E_mul, E_abs, E_lit15, E_div]
    have hf : E.failed = .nan := rfl
    rw [hf]
    by_cases h0 : inc32 k > maxeval
    · rw [if_pos h0, if_pos h0]; rfl
    rw [if_neg h0, if_neg h0]
    by_cases h1 : isNaN (Maq.transformed f ((a + c) / 2))
    · rw [if_pos (show E.isNaN _ from h1), if_pos h1]; rfl
    rw [if_neg (show ¬ E.isNaN _ from h1), if_neg h1]
    by_cases h2 : isNaN (Maq.transformed f ((b + c) / 2))
    · rw [if_pos (show E.isNaN _ from h2), if_pos h2]; rfl
    rw [if_neg (show ¬ E.isNaN _ from h2), if_neg h2]
    generalize Maq.quad a c fa fc (Maq.transformed f ((a + c) / 2)) = r2
    generalize Maq.quad c b fc fb (Maq.transformed f ((b + c) / 2)) = r3
    by_cases h3 : abs (r2 + r3 - r) ≤ abs (tol * (r2 + r3)) ∨ abs (r2 + r3 - r) ≤ abs (tol * I)
    · rw [if_pos (show E.le _ _ ∨ E.le _ _ from h3), if_pos h3]; rfl
    rw [if_neg (show ¬ (E.le _ _ ∨ E.le _ _) from h3), if_neg h3]
    by_cases h4 : abs r3 < abs r2
    · have h4' : E.lt (abs r3) (abs r2) := h4
      refine Eq.trans (if_pos h4') ?_
      rw [if_pos h4]; rfl
    · have h4' : ¬ E.lt (abs r3) (abs r2) := h4
      refine Eq.trans (if_neg h4') ?_
      rw [if_neg h4]; rfl

theorem integrate_same (f : Dbl → Dbl) (tol : Dbl) (maxeval : ℕ) (r : Maq.SearchResult) (fuel : ℕ) :
    integrate E f tol maxeval (ofResult r) fuel = (Maq.integrate f tol maxeval r fuel).map ofReport := by
  cases r with
  | nothing n =>
    show some (Report.mk _ (E.lit 0) _ _ _) = _
    rw [E_lit0]; rfl
  | bracket a b n =>
    simp only [ofResult, integrate, Maq.integrate, E_mid, transformed_same, transformedLeft_same, quad_same]
    have hf : E.failed = .nan := rfl
    rw [hf, if_neg (show ¬ E.isNaN (.fin a) from id)]
    by_cases h1 : isNaN (Maq.transformedLeft f a)
    · rw [if_pos (show E.isNaN _ from h1), if_pos h1]; rfl
    rw [if_neg (show ¬ E.isNaN _ from h1), if_neg h1]
    by_cases h2 : isNaN (Maq.transformed f b)
    · rw [if_pos (show E.isNaN _ from h2), if_pos h2]; rfl
    rw [if_neg (show ¬ E.isNaN _ from h2), if_neg h2]
    by_cases h3 : isNaN (Maq.transformed f ((a + b) / 2))
    · rw [if_pos (show E.isNaN _ from h3), if_pos h3]; rfl
    rw [if_neg (show ¬ E.isNaN _ from h3), if_neg h3, E_lit0]
    exact iter_map (φ := ofState) ofReport (fun _ => True) (fun _ _ _ _ => trivial) (fun s _ => loopStep_same f tol maxeval s) fuel
      (s := ⟨[⟨a, b, (a + b) / 2, Maq.transformedLeft f a, Maq.transformed f b, Maq.transformed f ((a + b) / 2),
        Maq.quad a b (Maq.transformedLeft f a) (Maq.transformed f b) (Maq.transformed f ((a + b) / 2))⟩], 0, (n + 3) % 2 ^ 32, n + 3⟩) trivial

/-- Without rounding, the transcription over an arbitrary arithmetic and the model with exact abscissae give the same reports. -/
theorem maq_same (f : Dbl → Dbl) (cfg : Maq.Cfg) (fuel : ℕ) :
    maq exactly.arith f (ofCfg cfg) fuel = (Maq.maq f cfg fuel).map ofReport := by
  unfold maq Maq.maq
  show (search E f cfg.method cfg.bineval fuel).bind _ = _
  rw [search_same]
  cases Maq.search f cfg.method cfg.bineval fuel with
  | none => rfl
  | some r => exact integrate_same f cfg.tol cfg.maxeval r fuel

end

end Slat.MaqF
