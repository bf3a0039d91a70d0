import Verif.MaqFSearch

/-!
# Quadrature over an arbitrary arithmetic: the main loop
-/

namespace Slat.MaqF

open Slat.Maq (iter Method Outcome inc32 nextIntervals iter_mono iter_inv iter_terminates)

attribute [local instance] Classical.propDecidable

variable {α : Type} {A : Arith α} {N : ℕ}

namespace Geometry

variable (G : Geometry A N)

theorem transformed_agree {f g : α → α} (hg : G.Agree f g) {t : α} (ht : G.Pt t) :
    transformed A f t = transformed A g t ∧ transformedLeft A f t = transformedLeft A g t := by
  simp only [transformed, transformedLeft, hg t ht, and_self]

/-- Every waiting region is in order. -/
def StackOk (s : LoopState α) : Prop := ∀ t ∈ s.stack, G.J t.a t.c t.b

theorem loopStep_stack (f : α → α) (tol : α) (maxeval : ℕ) (s s' : LoopState α) (hs : G.StackOk s)
    (h : loopStep A f tol maxeval s = .inl s') : G.StackOk s' := by
  obtain ⟨stack, I, k, calls⟩ := s
  cases stack with
  | nil => simp [loopStep] at h
  | cons t rest =>
    have ht : G.J t.a t.c t.b := hs t (by simp)
    have hrest : ∀ u ∈ rest, G.J u.a u.c u.b := fun u hu => hs u (by simp [hu])
    simp only [loopStep] at h
    split at h
    · simp at h
    split at h
    · simp at h
    split at h
    · simp at h
    split at h
    · rw [Sum.inl.injEq] at h
      subst h
      exact hrest
    split at h
    · rw [Sum.inl.injEq] at h
      subst h
      intro u hu
      simp only [List.mem_cons] at hu
      rcases hu with rfl | rfl | hu
      · exact G.left ht
      · exact G.right ht
      · exact hrest u hu
    · rw [Sum.inl.injEq] at h
      subst h
      intro u hu
      simp only [List.mem_cons] at hu
      rcases hu with rfl | rfl | hu
      · exact G.right ht
      · exact G.left ht
      · exact hrest u hu

theorem loopStep_agree (f g : α → α) (hg : G.Agree f g) (tol : α) (maxeval : ℕ) (s : LoopState α) (hs : G.StackOk s) :
    loopStep A f tol maxeval s = loopStep A g tol maxeval s := by
  obtain ⟨stack, I, k, calls⟩ := s
  cases stack with
  | nil => rfl
  | cons t rest =>
    have ht : G.J t.a t.c t.b := hs t (by simp)
    have hd : G.Pt (A.div (A.add t.a t.c) (A.lit 2)) := (G.ends (G.left ht)).2.1
    have he : G.Pt (A.div (A.add t.b t.c) (A.lit 2)) := (G.ends (G.right ht)).2.1
    simp only [loopStep, (G.transformed_agree hg hd).1, (G.transformed_agree hg he).1]

end Geometry

theorem loopStep_counter (f : α → α) (tol : α) (maxeval m : ℕ) (s : LoopState α)
    (hm : maxeval < 2 ^ 32 - 1) (hm' : m < 2 ^ 32 - 1) (h1 : s.counter ≤ max maxeval m)
    (h2 : s.calls + m = 2 * s.counter) (h3 : m ≤ s.counter) :
    (∀ s', loopStep A f tol maxeval s = .inl s' → s'.counter ≤ max maxeval m ∧ s'.calls + m = 2 * s'.counter ∧
      m ≤ s'.counter ∧ s'.counter = s.counter + 1 ∧ s'.counter ≤ maxeval) ∧
    (∀ r, loopStep A f tol maxeval s = .inr r → r.evals ≤ max (maxeval + 1) (m + 1) ∧
      r.calls ≤ max (2 * maxeval) m) := by
  obtain ⟨stack, I, k, calls⟩ := s
  simp only at h1 h2 h3
  have hk : inc32 k = k + 1 := by unfold inc32; omega
  cases stack with
  | nil =>
    refine ⟨fun s' h => by simp [loopStep] at h, fun r h => ?_⟩
    simp only [loopStep, Sum.inr.injEq] at h
    subst h
    dsimp only
    omega
  | cons t rest =>
    simp only [loopStep, hk]
    constructor
    · intro s' h
      split at h
      · simp at h
      split at h
      · simp at h
      split at h
      · simp at h
      split at h
      · simp only [Sum.inl.injEq] at h; subst h; dsimp only; omega
      split at h
      · simp only [Sum.inl.injEq] at h; subst h; dsimp only; omega
      · simp only [Sum.inl.injEq] at h; subst h; dsimp only; omega
    · intro r h
      split at h
      · simp only [Sum.inr.injEq] at h; subst h; dsimp only; omega
      split at h
      · simp only [Sum.inr.injEq] at h; subst h; dsimp only; omega
      split at h
      · simp only [Sum.inr.injEq] at h; subst h; dsimp only; omega
      split at h
      · simp at h
      split at h <;> simp at h

/-- `MAQ` returns `rep`: with every sufficient number of iterations. -/
def Returns (A : Arith α) (f : α → α) (cfg : Cfg α) (rep : Report α) : Prop :=
  ∃ n, ∀ fuel, n ≤ fuel → maq A f cfg fuel = some rep

/-- The state in which the main loop is entered. -/
noncomputable def start (A : Arith α) (f : α → α) (a b : α) (n : ℕ) : LoopState α :=
  ⟨[⟨a, b, mid A a b, transformedLeft A f a, transformed A f b, transformed A f (mid A a b),
    quad A a b (transformedLeft A f a) (transformed A f b) (transformed A f (mid A a b))⟩], A.lit 0, (n + 3) % 2 ^ 32, n + 3⟩

theorem integrate_bracket (f : α → α) (tol : α) (maxeval : ℕ) (a b : α) (n fuel : ℕ) :
    integrate A f tol maxeval (.bracket a b n) fuel =
      if A.isNaN a then some ⟨.searchFail, A.lit 0, true, n, n⟩
      else if A.isNaN (transformedLeft A f a) then some ⟨.nan, A.failed, false, n, n + 2⟩
      else if A.isNaN (transformed A f b) then some ⟨.nan, A.failed, false, n, n + 2⟩
      else if A.isNaN (transformed A f (mid A a b)) then some ⟨.nan, A.failed, false, n, n + 3⟩
      else iter (loopStep A f tol maxeval) fuel (start A f a b n) := rfl

/-- Termination with bounds, and the integrand is looked at only at points of the geometry. -/
theorem maq_ok (G : Geometry A N) (f : α → α) (cfg : Cfg α) (hN : 4 * cfg.bineval ≤ N)
    (hs : 2 * cfg.bineval + 5 < 2 ^ 32 - 1) (hm : cfg.maxeval < 2 ^ 32 - 1) :
    ∃ rep, (∀ g, G.Agree f g → Returns A g cfg rep) ∧ rep.evals ≤ max (cfg.maxeval + 1) (2 * cfg.bineval + 6) ∧
      rep.calls ≤ max (2 * cfg.maxeval) (2 * cfg.bineval + 5) := by
  obtain ⟨r, h1, h2⟩ := G.search_ok f cfg.method cfg.bineval hN
  cases r with
  | nothing n =>
    have : n ≤ 2 * cfg.bineval + 2 := h2.2
    refine ⟨⟨.searchFail, A.lit 0, true, n, n⟩, fun g hg => ⟨cfg.bineval + 2, fun fuel hf => ?_⟩, by dsimp only; omega,
      by dsimp only; omega⟩
    simp only [maq, h1 g hg fuel hf, Option.bind_some, integrate]
  | bracket a b n =>
    obtain ⟨hab, hn, hn'⟩ := h2
    obtain ⟨pa, pc, pb⟩ := G.ends hab
    have key : ∀ g, G.Agree f g → ∀ fuel, cfg.bineval + 2 ≤ fuel →
        maq A g cfg fuel = integrate A g cfg.tol cfg.maxeval (.bracket a b n) fuel := by
      intro g hg fuel hf
      simp only [maq, h1 g hg fuel hf, Option.bind_some]
    have ea : ∀ g, G.Agree f g → transformedLeft A g a = transformedLeft A f a := fun g hg => (G.transformed_agree hg pa).2.symm
    have eb : ∀ g, G.Agree f g → transformed A g b = transformed A f b := fun g hg => (G.transformed_agree hg pb).1.symm
    have ec : ∀ g, G.Agree f g → transformed A g (mid A a b) = transformed A f (mid A a b) :=
      fun g hg => (G.transformed_agree hg pc).1.symm
    have es : ∀ g, G.Agree f g → start A g a b n = start A f a b n := by
      intro g hg
      simp only [start, ea g hg, eb g hg, ec g hg]
    by_cases h0 : A.isNaN a
    · refine ⟨⟨.searchFail, A.lit 0, true, n, n⟩, fun g hg => ⟨cfg.bineval + 2, fun fuel hf => ?_⟩, by dsimp only; omega,
        by dsimp only; omega⟩
      rw [key g hg fuel hf, integrate_bracket, if_pos h0]
    by_cases ha : A.isNaN (transformedLeft A f a)
    · refine ⟨⟨.nan, A.failed, false, n, n + 2⟩, fun g hg => ⟨cfg.bineval + 2, fun fuel hf => ?_⟩, by dsimp only; omega,
        by dsimp only; omega⟩
      rw [key g hg fuel hf, integrate_bracket, if_neg h0, ea g hg, if_pos ha]
    by_cases hb : A.isNaN (transformed A f b)
    · refine ⟨⟨.nan, A.failed, false, n, n + 2⟩, fun g hg => ⟨cfg.bineval + 2, fun fuel hf => ?_⟩, by dsimp only; omega,
        by dsimp only; omega⟩
      rw [key g hg fuel hf, integrate_bracket, if_neg h0, ea g hg, if_neg ha, eb g hg, if_pos hb]
    by_cases hc : A.isNaN (transformed A f (mid A a b))
    · refine ⟨⟨.nan, A.failed, false, n, n + 3⟩, fun g hg => ⟨cfg.bineval + 2, fun fuel hf => ?_⟩, by dsimp only; omega,
        by dsimp only; omega⟩
      rw [key g hg fuel hf, integrate_bracket, if_neg h0, ea g hg, if_neg ha, eb g hg, if_neg hb, ec g hg, if_pos hc]
    have h32 : (n + 3) % 2 ^ 32 = n + 3 := Nat.mod_eq_of_lt (by omega)
    have hk0 : (start A f a b n).counter = n + 3 := h32
    have hc0 : (start A f a b n).calls = n + 3 := rfl
    let I : LoopState α → Prop := fun s =>
      s.counter ≤ max cfg.maxeval (n + 3) ∧ s.calls + (n + 3) = 2 * s.counter ∧ n + 3 ≤ s.counter
    have hI : I (start A f a b n) := ⟨by omega, by omega, by omega⟩
    obtain ⟨rep, hr⟩ := iter_terminates (step := loopStep A f cfg.tol cfg.maxeval) I
      (fun s => cfg.maxeval - s.counter) (fun s s' hs' h => by
        obtain ⟨i1, i2, i3⟩ := hs'
        obtain ⟨j1, j2, j3, j4, j5⟩ :=
          (loopStep_counter f cfg.tol cfg.maxeval (n + 3) s hm (by omega) i1 i2 i3).1 s' h
        exact ⟨⟨j1, j2, j3⟩, by omega⟩) hI
    have hpost := iter_inv (step := loopStep A f cfg.tol cfg.maxeval) I
      (fun r => r.evals ≤ max (cfg.maxeval + 1) (n + 3 + 1) ∧ r.calls ≤ max (2 * cfg.maxeval) (n + 3))
      (fun s s' hs' h => by
        obtain ⟨i1, i2, i3⟩ := hs'
        obtain ⟨j1, j2, j3, -⟩ :=
          (loopStep_counter f cfg.tol cfg.maxeval (n + 3) s hm (by omega) i1 i2 i3).1 s' h
        exact ⟨j1, j2, j3⟩)
      (fun s r hs' h => by
        obtain ⟨i1, i2, i3⟩ := hs'
        exact (loopStep_counter f cfg.tol cfg.maxeval (n + 3) s hm (by omega) i1 i2 i3).2 r h) hI hr
    refine ⟨rep, fun g hg => ⟨max (cfg.bineval + 2) (cfg.maxeval - (start A f a b n).counter + 1), fun fuel hf => ?_⟩,
      by omega, by omega⟩
    rw [key g hg fuel (by omega), integrate_bracket, if_neg h0, ea g hg, if_neg ha, eb g hg, if_neg hb, ec g hg, if_neg hc,
      es g hg]
    rw [← iter_congr (step := loopStep A f cfg.tol cfg.maxeval) G.StackOk
      (fun s s' hs' h => G.loopStep_stack f cfg.tol cfg.maxeval s s' hs' h)
      (fun s hs' => G.loopStep_agree f g hg cfg.tol cfg.maxeval s hs') fuel
      (show G.StackOk (start A f a b n) from fun t ht => by
        simp only [start, List.mem_singleton] at ht
        subst ht
        exact hab)]
    exact iter_mono hr (by omega)

/-- The geometry that keeps up nothing: any arithmetic. -/
def anyGeometry (A : Arith α) (N : ℕ) : Geometry A N where
  Pt _ := True
  J _ _ _ := True
  ends _ := ⟨trivial, trivial, trivial⟩
  left _ := trivial
  right _ := trivial
  right' _ := trivial
  shrinkL _ := trivial
  shrinkR _ := trivial
  unit := trivial
  fwd _ _ _ _ _ _ _ := ⟨trivial, trivial⟩
  bwd _ _ _ _ _ _ _ := ⟨trivial, trivial⟩
  point _ _ _ _ _ _ _ := trivial
  around _ := ⟨trivial, trivial⟩
  middle' := trivial

end Slat.MaqF
