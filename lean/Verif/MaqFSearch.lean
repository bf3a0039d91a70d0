import Verif.MaqFModel
import Verif.MaqSearch

/-!
# Quadrature over an arbitrary arithmetic: searches

One induction for all arithmetics: `Geometry` collects the facts about abscissae that are kept up (none at all for termination, "in
the unit interval and in order" for rounded arithmetic).
-/

namespace Slat.MaqF

open Slat.Maq (iter Method Outcome inc32 nextIntervals iter_mono iter_inv iter_terminates nextIntervals_ge RangeOk rangeOk_full
  rangeOk_low rangeOk_high)

attribute [local instance] Classical.propDecidable

variable {α : Type} {A : Arith α}

theorem iter_congr {S R : Type} {step step' : S → S ⊕ R} (I : S → Prop) (hl : ∀ s s', I s → step s = .inl s' → I s')
    (he : ∀ s, I s → step s = step' s) (n : ℕ) {s : S} (hs : I s) : iter step n s = iter step' n s := by
  induction n generalizing s with
  | zero => rfl
  | succ n ih =>
    simp only [iter, ← he s hs]
    cases h : step s with
    | inr r => rfl
    | inl s' => exact ih (hl s s' hs h)

/-- Half of a sum. -/
noncomputable def mid (A : Arith α) (x y : α) : α := A.div (A.add x y) (A.lit 2)

/-- Facts about abscissae kept up by the code. `Pt`: a point that may be evaluated; `J a c b`: a range with an inner point. -/
structure Geometry (A : Arith α) (N : ℕ) where
  Pt : α → Prop
  J : α → α → α → Prop
  ends : ∀ {a c b}, J a c b → Pt a ∧ Pt c ∧ Pt b
  left : ∀ {a c b}, J a c b → J a (mid A a c) c
  right : ∀ {a c b}, J a c b → J c (mid A b c) b
  right' : ∀ {a c b}, J a c b → J c (mid A c b) b
  shrinkL : ∀ {a c b}, J a c b → J (mid A a c) c b
  shrinkR : ∀ {a c b}, J a c b → J a c (mid A c b)
  unit : J (A.lit 0) (mid A (A.lit 0) (A.lit 1)) (A.lit 1)
  fwd : ∀ i n k, 1 ≤ i → i + 1 ≤ n → n ≤ N → n = 2 ^ k → Pt ((forward A).c i n) ∧
    J ((forward A).a i n) (mid A ((forward A).a i n) ((forward A).b i n)) ((forward A).b i n)
  bwd : ∀ i n k, 1 ≤ i → i + 1 ≤ n → n ≤ N → n = 2 ^ k → Pt ((backward A).c i n) ∧
    J ((backward A).a i n) (mid A ((backward A).a i n) ((backward A).b i n)) ((backward A).b i n)
  point : ∀ i n k, 1 ≤ i → i < n → k < 64 → n = 2 ^ k → Pt (A.sub (A.lit 1) (A.ratio i n))
  around : ∀ {c}, Pt c → J (bracketOf A c).1 c (bracketOf A c).2 ∧
    J (bracketOf A c).1 (mid A (bracketOf A c).1 (bracketOf A c).2) (bracketOf A c).2
  middle' : Pt (middle' A)

variable {N : ℕ}

namespace Geometry

/-- Two integrands that agree wherever the code may look. -/
def Agree (G : Geometry A N) (f g : α → α) : Prop := ∀ t, G.Pt t → f (xFromT A t) = g (xFromT A t)

/-- A usable bracket. -/
def V (G : Geometry A N) (a b : α) : Prop := G.J a (mid A a b) b

/-- What every search guarantees about its result. -/
def Ok (G : Geometry A N) (lim : ℕ) : SearchResult α → Prop
  | .nothing n => 2 ≤ n ∧ n ≤ 2 * lim + 2
  | .bracket a b n => G.V a b ∧ 2 ≤ n ∧ n ≤ 2 * lim + 2

/-- Brackets and points in a search direction are usable. -/
def ValidDir (G : Geometry A N) (dir : Dir α) : Prop :=
  ∀ i n k, 1 ≤ i → i + 1 ≤ n → n ≤ N → n = 2 ^ k → G.Pt (dir.c i n) ∧ G.V (dir.a i n) (dir.b i n)

variable (G : Geometry A N)

theorem middlePt : G.Pt (middle A) := (G.ends G.unit).2.1

theorem onePt : G.Pt (A.lit 1) := (G.ends G.unit).2.2

theorem scan_spec (f : α → α) (dir : Dir α) (hd : G.ValidDir dir) (n k : ℕ) (hn : n ≤ N) (hk : n = 2 ^ k) (rest i : ℕ)
    (s : Sub α) (h1 : 1 ≤ i) (h2 : i + 2 * rest ≤ n + 1) (hb : G.V s.a s.b) :
    G.V (scan A f dir n rest i s).a (scan A f dir n rest i s).b ∧
    s.evals ≤ (scan A f dir n rest i s).evals ∧ (scan A f dir n rest i s).evals ≤ s.evals + rest ∧
    (A.small (scan A f dir n rest i s).fc → (scan A f dir n rest i s).evals = s.evals + rest) ∧
    ∀ g, G.Agree f g → scan A g dir n rest i s = scan A f dir n rest i s := by
  induction rest generalizing i s with
  | zero => exact ⟨hb, le_rfl, le_rfl, fun _ => rfl, fun _ _ => rfl⟩
  | succ rest ih =>
    obtain ⟨d1, d2⟩ := hd i n k h1 (by omega) hn hk
    simp only [scan]
    by_cases hv : A.visible (f (xFromT A (dir.c i n)))
    · rw [if_pos hv]
      refine ⟨d2, by simp, by simp, fun h => absurd h (A.lt_not_le _ _ hv), fun g hg => ?_⟩
      rw [← hg _ d1, if_pos hv]
    · rw [if_neg hv]
      obtain ⟨i1, i2, i3, i4, i5⟩ := ih (i + 2) { s with fc := f (xFromT A (dir.c i n)), evals := s.evals + 1 }
        (by omega) (by omega) hb
      simp only at i2 i3 i4
      refine ⟨i1, by omega, by omega, fun h => by rw [i4 h]; omega, fun g hg => ?_⟩
      rw [← hg _ d1, if_neg hv]
      exact i5 g hg

/-- The invariant of a subdivision loop, as `Maq.SubInv`. -/
def SubInv (k lim e : ℕ) (s : ℕ × Sub α) : Prop :=
  G.V s.2.a s.2.b ∧ e ≤ s.2.evals ∧ (∃ j, 2 ≤ j ∧ s.1 = 2 ^ j) ∧ s.2.evals ≤ 2 * lim + 2 ∧
    (A.small s.2.fc → s.1 ≤ k * s.2.evals)

theorem pow_four {j : ℕ} (h : 2 ≤ j) : 4 ≤ 2 ^ j ∧ 4 ∣ 2 ^ j := by
  obtain ⟨i, rfl⟩ : ∃ i, j = i + 2 := ⟨j - 2, by omega⟩
  have e : (2 : ℕ) ^ (i + 2) = 2 ^ i * 4 := by rw [pow_add]; norm_num
  have : 0 < 2 ^ i := by positivity
  exact ⟨by omega, ⟨2 ^ i, by omega⟩⟩

theorem subStep_inv (f : α → α) (dir : Dir α) (hd : G.ValidDir dir) (lim : ℕ) (lo hi : ℕ → ℕ) (k : ℕ)
    (hr : RangeOk k lo hi) (hk : 0 < k) (hN : k * lim ≤ N) (e : ℕ) (s s' : ℕ × Sub α) (hs : G.SubInv k lim e s)
    (h : subStep A f dir lim lo hi s = .inl s') :
    G.SubInv k lim e s' ∧ s.2.evals < lim ∧ A.small s.2.fc ∧ (A.small s'.2.fc → s.2.evals < s'.2.evals) ∧
      ∀ g, G.Agree f g → subStep A g dir lim lo hi s = .inl s' := by
  obtain ⟨n, u⟩ := s
  obtain ⟨b1, b2, ⟨j, hj, b3⟩, b6, b5⟩ := hs
  simp only [subStep] at h
  by_cases hc : u.evals < lim ∧ A.small u.fc
  · rw [if_pos hc, Sum.inl.injEq] at h
    obtain ⟨c1, c2⟩ := hc
    simp only at b3
    obtain ⟨p1, p2⟩ := pow_four hj
    rw [← b3] at p1 p2
    obtain ⟨r1, r2, r3, r4⟩ := hr n p1 p2
    have b5' := b5 c2
    simp only at b2 b5'
    have hnN : n ≤ N := le_trans b5' (le_trans (Nat.mul_le_mul_left k c1.le) hN)
    obtain ⟨q1, q2, q3, q4, q5⟩ := G.scan_spec f dir hd n j hnN b3 _ (lo n) u r1 r2 b1
    subst h
    set m := (hi n - lo n + 1) / 2
    have hm : m ≤ u.evals := by
      have : k * m ≤ k * u.evals := by omega
      exact Nat.le_of_mul_le_mul_left this hk
    refine ⟨⟨q1, ?_, ⟨j + 1, by omega, ?_⟩, ?_, ?_⟩, c1, c2, ?_, ?_⟩
    · dsimp only; omega
    · dsimp only; rw [b3, pow_succ]; ring
    · dsimp only; omega
    · intro h
      have h' := q4 h
      dsimp only
      rw [h']
      have : k * (u.evals + m) = k * u.evals + n := by rw [mul_add, ← r4]
      omega
    · intro h
      have h' := q4 h
      dsimp only
      omega
    · intro g hg
      simp only [subStep]
      rw [if_pos ⟨c1, c2⟩, q5 g hg]
  · rw [if_neg hc] at h
    simp at h

theorem subStep_inr (f : α → α) (dir : Dir α) (lim : ℕ) (lo hi : ℕ → ℕ) (s : ℕ × Sub α) (r : Sub α)
    (h : subStep A f dir lim lo hi s = .inr r) : r = s.2 ∧ ∀ g, subStep A g dir lim lo hi s = .inr r := by
  simp only [subStep] at h ⊢
  by_cases hc : s.2.evals < lim ∧ A.small s.2.fc
  · rw [if_pos hc] at h; simp at h
  · rw [if_neg hc, Sum.inr.injEq] at h
    exact ⟨h.symm, fun g => by rw [if_neg hc, h]⟩

theorem subLoop_spec (f : α → α) (dir : Dir α) (hd : G.ValidDir dir) (lim : ℕ) (lo hi : ℕ → ℕ) (k : ℕ)
    (hr : RangeOk k lo hi) (hk : 2 ≤ k) (hN : k * lim ≤ N) (s : Sub α) (hb : G.V s.a s.b) (h2 : 2 ≤ s.evals)
    (hl : s.evals ≤ 2 * lim + 2) :
    ∃ r, (∀ g, G.Agree f g → ∀ fuel, lim + 2 ≤ fuel → iter (subStep A g dir lim lo hi) fuel (4, s) = some r) ∧
      G.V r.a r.b ∧ s.evals ≤ r.evals ∧ r.evals ≤ 2 * lim + 2 := by
  have h0 : G.SubInv k lim s.evals (4, s) :=
    ⟨hb, le_rfl, ⟨2, le_rfl, rfl⟩, hl, fun _ => by
      dsimp only
      calc 4 = 2 * 2 := rfl
        _ ≤ k * s.evals := Nat.mul_le_mul hk h2⟩
  obtain ⟨r, hr'⟩ := iter_terminates (step := subStep A f dir lim lo hi) (G.SubInv k lim s.evals)
    (fun t => if A.small t.2.fc then lim - t.2.evals + 1 else 0)
    (by
      intro t t' ht h
      obtain ⟨i1, i2, i3, i4, -⟩ := G.subStep_inv f dir hd lim lo hi k hr (by omega) hN _ t t' ht h
      refine ⟨i1, ?_⟩
      rw [if_pos i3]
      split
      · rename_i h'
        have := i4 h'
        omega
      · omega) h0
  have hinv : ∀ t t', G.SubInv k lim s.evals t → subStep A f dir lim lo hi t = .inl t' → G.SubInv k lim s.evals t' :=
    fun t t' ht h => (G.subStep_inv f dir hd lim lo hi k hr (by omega) hN _ t t' ht h).1
  refine ⟨r, fun g hg fuel hf => ?_, ?_⟩
  · rw [← iter_congr (step := subStep A f dir lim lo hi) _ hinv ?_ fuel h0]
    · exact iter_mono hr' (by split <;> omega)
    · intro t ht
      cases h : subStep A f dir lim lo hi t with
      | inl t' => exact ((G.subStep_inv f dir hd lim lo hi k hr (by omega) hN _ t t' ht h).2.2.2.2 g hg).symm
      | inr r => exact ((subStep_inr f dir lim lo hi t r h).2 g).symm
  · exact iter_inv (step := subStep A f dir lim lo hi) _
      (fun r => G.V r.a r.b ∧ s.evals ≤ r.evals ∧ r.evals ≤ 2 * lim + 2) hinv
      (by
        intro t r ht h
        obtain ⟨rfl, -⟩ := subStep_inr f dir lim lo hi t r h
        exact ⟨ht.1, ht.2.1, ht.2.2.2.1⟩) h0 hr'

theorem subResult_ok {s : Sub α} {lim : ℕ} (hb : G.V s.a s.b) (h2 : 2 ≤ s.evals)
    (hl : s.evals ≤ 2 * lim + 2) : G.Ok lim (subResult A s) := by
  unfold subResult
  split
  · exact ⟨h2, hl⟩
  · exact ⟨hb, h2, hl⟩

/-- What is proved of each search. -/
def Fine (lim : ℕ) (f : α → α) (srch : (α → α) → ℕ → Option (SearchResult α)) : Prop :=
  ∃ r, (∀ g, G.Agree f g → ∀ fuel, lim + 2 ≤ fuel → srch g fuel = some r) ∧ G.Ok lim r

theorem guard_agree {f g : α → α} (hg : G.Agree f g) {c : α} (hc : G.Pt c) :
    (nothingVisible A g c ↔ nothingVisible A f c) ∧ g (xFromT A c) = f (xFromT A c) := by
  unfold nothingVisible
  rw [hg _ G.onePt, hg _ hc]
  exact ⟨Iff.rfl, rfl⟩

theorem binary_ok (f : α → α) (lim : ℕ) (hN : 4 * lim ≤ N) : G.Fine lim f (fun g fuel => binarySubdivision A g lim fuel) := by
  simp only [Fine, binarySubdivision]
  by_cases hg : nothingVisible A f (middle A)
  · obtain ⟨r, h1, h2, h3, h4⟩ := G.subLoop_spec f (forward A) G.fwd lim _ _ 2 rangeOk_full le_rfl (by omega)
      ⟨A.lit 0, A.lit 1, f (xFromT A (middle A)), 2⟩ G.unit le_rfl (by dsimp only; omega)
    refine ⟨subResult A r, fun g hgf fuel hf => ?_, G.subResult_ok h2 h3 h4⟩
    rw [if_pos ((G.guard_agree hgf G.middlePt).1.2 hg), (G.guard_agree hgf G.middlePt).2, h1 g hgf fuel hf]; rfl
  · exact ⟨.bracket (A.lit 0) (A.lit 1) 2, fun g hgf _ _ => by
      rw [if_neg (fun h => hg ((G.guard_agree hgf G.middlePt).1.1 h))], G.unit, le_rfl, by omega⟩

theorem reverse_ok (f : α → α) (lim : ℕ) (hN : 4 * lim ≤ N) : G.Fine lim f (fun g fuel => reverseSubdivision A g lim fuel) := by
  simp only [Fine, reverseSubdivision]
  by_cases hg : nothingVisible A f (MaqF.middle' A)
  · obtain ⟨r, h1, h2, h3, h4⟩ := G.subLoop_spec f (backward A) G.bwd lim _ _ 2 rangeOk_full le_rfl (by omega)
      ⟨A.lit 0, A.lit 1, f (xFromT A (MaqF.middle' A)), 2⟩ G.unit le_rfl (by dsimp only; omega)
    refine ⟨subResult A r, fun g hgf fuel hf => ?_, G.subResult_ok h2 h3 h4⟩
    rw [if_pos ((G.guard_agree hgf G.middle').1.2 hg), (G.guard_agree hgf G.middle').2, h1 g hgf fuel hf]; rfl
  · exact ⟨.bracket (A.lit 0) (A.lit 1) 2, fun g hgf _ _ => by
      rw [if_neg (fun h => hg ((G.guard_agree hgf G.middle').1.1 h))], G.unit, le_rfl, by omega⟩

theorem lowFirst_ok (f : α → α) (lim : ℕ) (hN : 4 * lim ≤ N) : G.Fine lim f (fun g fuel => lowFirstSubdivision A g lim fuel) := by
  simp only [Fine, lowFirstSubdivision]
  by_cases hg : nothingVisible A f (MaqF.middle' A)
  · obtain ⟨r, h1, h2, h3, h4⟩ := G.subLoop_spec f (backward A) G.bwd (lim / 2) _ _ 4 rangeOk_low (by omega) (by omega)
      ⟨A.lit 0, A.lit 1, f (xFromT A (MaqF.middle' A)), 2⟩ G.unit le_rfl (by dsimp only; omega)
    simp only at h3
    obtain ⟨r', g1, g2, g3, g4⟩ := G.subLoop_spec f (backward A) G.bwd lim _ _ 4 rangeOk_high (by omega) (by omega)
      r h2 h3 (by omega)
    refine ⟨subResult A r', fun g hgf fuel hf => ?_, G.subResult_ok g2 (by omega) g4⟩
    rw [if_pos ((G.guard_agree hgf G.middle').1.2 hg), (G.guard_agree hgf G.middle').2, h1 g hgf fuel (by omega)]
    simp only [Option.bind_some]
    rw [g1 g hgf fuel hf]; rfl
  · exact ⟨.bracket (A.lit 0) (A.lit 1) 2, fun g hgf _ _ => by
      rw [if_neg (fun h => hg ((G.guard_agree hgf G.middle').1.1 h))], G.unit, le_rfl, by omega⟩

/-! ### Scattered and directed searches -/

/-- Invariant of a probe. -/
def ProbeOk (lim : ℕ) (q : Probe α) : Prop := G.Pt q.c ∧ 2 ≤ q.evals ∧ q.evals ≤ max 2 lim

theorem inner_step (f : α → α) (T : Tests α) (lim n k : ℕ) (hk : k < 64) (hn : n = 2 ^ k) (e : ℕ) (t : ℕ × ℕ × Probe α)
    (ht : 1 ≤ t.1 ∧ G.ProbeOk lim t.2.2 ∧ e ≤ t.2.2.evals) :
    (∀ t', innerStep A f T lim n t = .inl t' → (1 ≤ t'.1 ∧ G.ProbeOk lim t'.2.2 ∧ e ≤ t'.2.2.evals) ∧
        lim - t'.2.2.evals < lim - t.2.2.evals) ∧
    (∀ r, innerStep A f T lim n t = .inr r → G.ProbeOk lim r ∧ e ≤ r.evals) ∧
    ∀ g, G.Agree f g → innerStep A f T lim n t = innerStep A g T lim n t := by
  obtain ⟨i, p, q⟩ := t
  obtain ⟨i1, hq, i5⟩ := ht
  obtain ⟨-, i2, i3⟩ := id hq
  simp only at i1 i2 i3 i5
  simp only [innerStep]
  by_cases hc : i < n ∧ q.evals < lim
  · have hp := G.point i n k i1 hc.1 hk hn
    have := hc.2
    simp only [if_pos hc]
    by_cases hf : T.found (f (xFromT A (A.sub (A.lit 1) (A.ratio i n))))
    · rw [if_pos hf]
      refine ⟨fun t' h => by simp at h, fun r h => ?_, fun g hg => by rw [← hg _ hp, if_pos hf]⟩
      rw [Sum.inr.injEq] at h
      subst h
      exact ⟨⟨hp, by dsimp only; omega, by dsimp only; omega⟩, by dsimp only; omega⟩
    · rw [if_neg hf]
      refine ⟨fun t' h => ?_, fun r h => by simp at h, fun g hg => by rw [← hg _ hp, if_neg hf]⟩
      rw [Sum.inl.injEq] at h
      subst h
      exact ⟨⟨by dsimp only; omega, ⟨hp, by dsimp only; omega, by dsimp only; omega⟩, by dsimp only; omega⟩,
        by dsimp only; omega⟩
  · simp only [if_neg hc]
    refine ⟨fun t' h => by simp at h, fun r h => ?_, fun g hg => trivial⟩
    rw [Sum.inr.injEq] at h
    subst h
    exact ⟨hq, i5⟩

theorem inner_spec (f : α → α) (T : Tests α) (lim n k : ℕ) (hk : k < 64) (hn : n = 2 ^ k) (s : ℕ × ℕ × Probe α)
    (h1 : 1 ≤ s.1) (hq : G.ProbeOk lim s.2.2) :
    ∃ r, (∀ g, G.Agree f g → ∀ fuel, lim + 1 ≤ fuel → iter (innerStep A g T lim n) fuel s = some r) ∧ G.ProbeOk lim r ∧
      s.2.2.evals ≤ r.evals := by
  have st := fun t ht => G.inner_step f T lim n k hk hn s.2.2.evals t ht
  obtain ⟨r, hr⟩ := iter_terminates (step := innerStep A f T lim n) _ (fun t => lim - t.2.2.evals)
    (fun t t' ht h => (st t ht).1 t' h) ⟨h1, hq, le_rfl⟩
  refine ⟨r, fun g hg fuel hf => ?_, ?_⟩
  · rw [← iter_congr (step := innerStep A f T lim n) _ (fun t t' ht h => ((st t ht).1 t' h).1)
      (fun t ht => (st t ht).2.2 g hg) fuel ⟨h1, hq, le_rfl⟩]
    exact iter_mono hr (by omega)
  · exact iter_inv (step := innerStep A f T lim n) _ (fun r => G.ProbeOk lim r ∧ s.2.2.evals ≤ r.evals)
      (fun t t' ht h => ((st t ht).1 t' h).1) (fun t r ht h => (st t ht).2.1 r h) ⟨h1, hq, le_rfl⟩ hr

/-- The number of intervals of the scattered search: a power of two of 64 bits. -/
def Intervals (n : ℕ) : Prop := ∃ k, 2 ≤ k ∧ k < 64 ∧ n = 2 ^ k

theorem intervals_next {n : ℕ} (h : Intervals n) : Intervals (nextIntervals n) := by
  obtain ⟨k, h2, h3, rfl⟩ := h
  unfold nextIntervals
  split
  · exact ⟨2, le_rfl, by omega, rfl⟩
  · next hz =>
    refine ⟨k + 1, by omega, ?_, by rw [pow_succ]⟩
    by_contra hk
    have : k = 63 := by omega
    subst this
    norm_num at hz

theorem intervals_ge {n : ℕ} (h : Intervals n) : 4 ≤ n := by
  obtain ⟨k, h2, h3, rfl⟩ := h
  exact (pow_four h2).1

theorem scat_step (f : α → α) (T : Tests α) (lim fuel : ℕ) (hf : lim + 1 ≤ fuel) (t : ℕ × ℕ × Probe α)
    (ht : Intervals t.1 ∧ G.ProbeOk lim t.2.2) :
    (∀ t', scatStep A f T lim fuel t = .inl t' → (Intervals t'.1 ∧ G.ProbeOk lim t'.2.2) ∧
        lim - t'.2.2.evals < lim - t.2.2.evals) ∧
    (∀ r, scatStep A f T lim fuel t = .inr r → ∃ q, r = some q ∧ G.ProbeOk lim q) ∧
    ∀ g, G.Agree f g → ∀ fuel', lim + 1 ≤ fuel' → scatStep A f T lim fuel t = scatStep A g T lim fuel' t := by
  obtain ⟨n, k, q⟩ := t
  obtain ⟨i1, hq⟩ := ht
  obtain ⟨-, i2, i3⟩ := id hq
  obtain ⟨j, j2, j3, j4⟩ := id i1
  have n4 := intervals_ge i1
  simp only at i2 i3 j4 n4
  simp only [scatStep]
  by_cases hc : q.evals < lim ∧ T.cont q.fc
  · have hp := G.point 1 n j le_rfl (by omega) j3 j4
    have := hc.1
    simp only [if_pos hc]
    by_cases hfd : T.found (f (xFromT A (A.sub (A.lit 1) (A.ratio 1 n))))
    · rw [if_pos hfd]
      refine ⟨fun t' h => by simp at h, fun r h => ?_, fun g hg _ _ => by rw [← hg _ hp, if_pos hfd]⟩
      rw [Sum.inr.injEq] at h
      subst h
      exact ⟨_, rfl, hp, by dsimp only; omega, by dsimp only; omega⟩
    · rw [if_neg hfd]
      obtain ⟨r, g1, g2, g3⟩ := G.inner_spec f T lim n j j3 j4
        (1 + (2 + 2 * k), 2 + 2 * k, ⟨A.sub (A.lit 1) (A.ratio 1 n), f (xFromT A (A.sub (A.lit 1) (A.ratio 1 n))), q.evals + 1⟩)
        (by dsimp only; omega) ⟨hp, by dsimp only; omega, by dsimp only; omega⟩
      rw [g1 f (fun _ _ => rfl) fuel hf]
      refine ⟨fun t' h => ?_, fun r h => by simp at h, fun g hg fuel' hf' => ?_⟩
      · simp only [Sum.inl.injEq] at h
        subst h
        simp only at g3 ⊢
        exact ⟨⟨intervals_next i1, g2⟩, by omega⟩
      · rw [← hg _ hp, if_neg hfd, g1 g hg fuel' hf']
  · simp only [if_neg hc]
    refine ⟨fun t' h => by simp at h, fun r h => ?_, fun g hg _ _ => trivial⟩
    rw [Sum.inr.injEq] at h
    subst h
    exact ⟨_, rfl, hq⟩

theorem scat_spec (f : α → α) (T : Tests α) (lim : ℕ) (s : ℕ × ℕ × Probe α) (h1 : Intervals s.1)
    (hq : G.ProbeOk lim s.2.2) :
    ∃ r, (∀ g, G.Agree f g → ∀ fuel, lim + 1 ≤ fuel → iter (scatStep A g T lim fuel) fuel s = some (some r)) ∧
      G.ProbeOk lim r := by
  have st := fun t ht => G.scat_step f T lim (lim + 1) le_rfl t ht
  obtain ⟨r, hr⟩ := iter_terminates (step := scatStep A f T lim (lim + 1)) _ (fun t => lim - t.2.2.evals)
    (fun t t' ht h => (st t ht).1 t' h) ⟨h1, hq⟩
  obtain ⟨q, rfl, hq'⟩ := iter_inv (step := scatStep A f T lim (lim + 1)) _ (fun r => ∃ q, r = some q ∧ G.ProbeOk lim q)
    (fun t t' ht h => ((st t ht).1 t' h).1) (fun t r ht h => (st t ht).2.1 r h) ⟨h1, hq⟩ hr
  refine ⟨q, fun g hg fuel hf => ?_, hq'⟩
  rw [← iter_congr (step := scatStep A f T lim (lim + 1)) _ (fun t t' ht h => ((st t ht).1 t' h).1)
    (fun t ht => (st t ht).2.2 g hg fuel hf) fuel ⟨h1, hq⟩]
  exact iter_mono hr (by omega)

theorem intervals_four : Intervals 4 := ⟨2, le_rfl, by omega, rfl⟩

theorem scattered_ok (f : α → α) (lim : ℕ) : G.Fine lim f (fun g fuel => scatteredSearch A g lim fuel) := by
  simp only [Fine, scatteredSearch]
  by_cases hg : nothingVisible A f (middle A)
  · obtain ⟨q, h1, h2, h4, h5⟩ := G.scat_spec f (epsTests A) lim (4, 0, ⟨middle A, f (xFromT A (middle A)), 2⟩) intervals_four
      ⟨G.middlePt, le_rfl, le_max_left _ _⟩
    refine ⟨if A.small q.fc then .nothing q.evals
      else .bracket (bracketOf A q.c).1 (bracketOf A q.c).2 q.evals, fun g hgf fuel hf => ?_, ?_⟩
    · rw [if_pos ((G.guard_agree hgf G.middlePt).1.2 hg), (G.guard_agree hgf G.middlePt).2, h1 g hgf fuel (by omega)]
      rfl
    · split
      · exact ⟨h4, by omega⟩
      · exact ⟨(G.around h2).2, h4, by omega⟩
  · exact ⟨.bracket (A.lit 0) (A.lit 1) 2, fun g hgf _ _ => by
      rw [if_neg (fun h => hg ((G.guard_agree hgf G.middlePt).1.1 h))], G.unit, le_rfl, by omega⟩

/-- Invariant of the refinement phase. -/
def RefineOk (lim : ℕ) (s : Refine α) : Prop := G.J s.a s.c s.b ∧ 2 ≤ s.evals ∧ s.evals ≤ 2 * lim + 2

/-- The part of `refineStep` after the first test (src/maq.cpp:492-509). -/
noncomputable def secondHalf (A : Arith α) (f : α → α) (u : Refine α) : Refine α ⊕ Refine α :=
  let e := A.div (A.add u.c u.b) (A.lit 2)
  let fe := f (xFromT A e)
  if A.visible fe then .inr { u with c := e, fc := fe, evals := u.evals + 1 }
  else if A.lt fe u.fc then .inl { u with b := e, evals := u.evals + 1 }
  else .inl { u with a := u.c, c := e, fc := fe, evals := u.evals + 1 }

theorem refineStep_ok (f : α → α) (lim : ℕ) (s : Refine α) (hs : G.RefineOk lim s) :
    (∀ s', refineStep A f lim s = .inl s' → G.RefineOk lim s' ∧ lim - s'.evals < lim - s.evals) ∧
    (∀ r, refineStep A f lim s = .inr r → G.Pt r.c ∧ 2 ≤ r.evals ∧ r.evals ≤ 2 * lim + 2) ∧
    ∀ g, G.Agree f g → refineStep A f lim s = refineStep A g lim s := by
  obtain ⟨a, b, c, fc, n⟩ := s
  obtain ⟨hJ, h5, h6⟩ := hs
  simp only at hJ h5 h6
  simp only [refineStep]
  by_cases hc : A.small fc ∧ n < lim ∧ A.visible (A.sub b a)
  · simp only [if_pos hc]
    obtain ⟨-, c2, -⟩ := hc
    have hL := G.left hJ
    have hd : G.Pt (A.div (A.add a c) (A.lit 2)) := (G.ends hL).2.1
    by_cases hv : A.visible (f (xFromT A (A.div (A.add a c) (A.lit 2))))
    · simp only [if_pos hv]
      refine ⟨fun s' h => by simp at h, fun r h => ?_, fun g hg => by rw [← hg _ hd]; simp only [if_pos hv]⟩
      rw [Sum.inr.injEq] at h
      subst h
      exact ⟨hd, by dsimp only; omega, by dsimp only; omega⟩
    · simp only [if_neg hv]
      -- the second half, for either outcome of the first
      have half : ∀ (u : Refine α), G.J u.a u.c u.b → u.evals = n + 1 →
          (∀ s', secondHalf A f u = .inl s' → G.RefineOk lim s' ∧ lim - s'.evals < lim - n) ∧
          (∀ r, secondHalf A f u = .inr r → G.Pt r.c ∧ 2 ≤ r.evals ∧ r.evals ≤ 2 * lim + 2) ∧
          ∀ g, G.Agree f g → secondHalf A f u = secondHalf A g u := by
        intro u hu he
        have hR := G.right' hu
        have hpe : G.Pt (A.div (A.add u.c u.b) (A.lit 2)) := (G.ends hR).2.1
        refine ⟨fun s' h => ?_, fun r h => ?_, fun g hg => by simp only [secondHalf, hg _ hpe]⟩ <;>
          simp only [secondHalf] at h
        · split at h
          · simp at h
          · split at h
            · rw [Sum.inl.injEq] at h
              subst h
              exact ⟨⟨G.shrinkR hu, by dsimp only; omega, by dsimp only; omega⟩, by dsimp only; omega⟩
            · rw [Sum.inl.injEq] at h
              subst h
              exact ⟨⟨hR, by dsimp only; omega, by dsimp only; omega⟩, by dsimp only; omega⟩
        · split at h
          · rw [Sum.inr.injEq] at h
            subst h
            exact ⟨hpe, by dsimp only; omega, by dsimp only; omega⟩
          · split at h <;> simp at h
      by_cases hle : A.le (f (xFromT A (A.div (A.add a c) (A.lit 2)))) fc
      · simp only [if_pos hle]
        obtain ⟨k1, k2, k3⟩ := half ⟨A.div (A.add a c) (A.lit 2), b, c, fc, n + 1⟩ (G.shrinkL hJ) rfl
        refine ⟨k1, k2, fun g hg => ?_⟩
        simp only [← hg _ hd, if_neg hv, if_pos hle]
        exact k3 g hg
      · simp only [if_neg hle]
        obtain ⟨k1, k2, k3⟩ := half ⟨a, c, A.div (A.add a c) (A.lit 2), f (xFromT A (A.div (A.add a c) (A.lit 2))), n + 1⟩ hL rfl
        refine ⟨k1, k2, fun g hg => ?_⟩
        simp only [← hg _ hd, if_neg hv, if_neg hle]
        exact k3 g hg
  · simp only [if_neg hc]
    refine ⟨fun t' h => by simp at h, fun r h => ?_, fun g hg => trivial⟩
    rw [Sum.inr.injEq] at h
    subst h
    exact ⟨(G.ends hJ).2.1, h5, h6⟩

theorem refine_spec (f : α → α) (lim : ℕ) (s : Refine α) (hs : G.RefineOk lim s) :
    ∃ r, (∀ g, G.Agree f g → ∀ fuel, lim + 1 ≤ fuel → iter (refineStep A g lim) fuel s = some r) ∧
      G.Pt r.c ∧ 2 ≤ r.evals ∧ r.evals ≤ 2 * lim + 2 := by
  obtain ⟨r, hr⟩ := iter_terminates (step := refineStep A f lim) (G.RefineOk lim) (fun s => lim - s.evals)
    (fun t t' ht h => (G.refineStep_ok f lim t ht).1 t' h) hs
  refine ⟨r, fun g hg fuel hf => ?_, ?_⟩
  · rw [← iter_congr (step := refineStep A f lim) _ (fun t t' ht h => ((G.refineStep_ok f lim t ht).1 t' h).1)
      (fun t ht => (G.refineStep_ok f lim t ht).2.2 g hg) fuel hs]
    exact iter_mono hr (by omega)
  · exact iter_inv (step := refineStep A f lim) (G.RefineOk lim) _
      (fun t t' ht h => ((G.refineStep_ok f lim t ht).1 t' h).1) (fun t r ht h => (G.refineStep_ok f lim t ht).2.1 r h) hs hr

theorem directed_ok (f : α → α) (lim : ℕ) : G.Fine lim f (fun g fuel => directedSearch A g lim fuel) := by
  simp only [Fine, directedSearch]
  by_cases hg : nothingVisible A f (middle A)
  · obtain ⟨q, h1, h2, h4, h5⟩ := G.scat_spec f (zeroTests A) lim (4, 0, ⟨middle A, f (xFromT A (middle A)), 2⟩) intervals_four
      ⟨G.middlePt, le_rfl, le_max_left _ _⟩
    by_cases hz : A.isZero q.fc
    · refine ⟨.nothing q.evals, fun g hgf fuel hf => ?_, h4, by omega⟩
      rw [if_pos ((G.guard_agree hgf G.middlePt).1.2 hg), (G.guard_agree hgf G.middlePt).2, h1 g hgf fuel (by omega)]
      simp only [Option.join_some, Option.bind_some]
      rw [if_pos hz]
    · obtain ⟨r, k1, k2, k3, k4⟩ := G.refine_spec f lim ⟨(bracketOf A q.c).1, (bracketOf A q.c).2, q.c, q.fc, q.evals⟩
        ⟨(G.around h2).1, h4, by dsimp only; omega⟩
      refine ⟨.bracket (bracketOf A r.c).1 (bracketOf A r.c).2 r.evals, fun g hgf fuel hf => ?_, (G.around k2).2, k3, k4⟩
      rw [if_pos ((G.guard_agree hgf G.middlePt).1.2 hg), (G.guard_agree hgf G.middlePt).2, h1 g hgf fuel (by omega)]
      simp only [Option.join_some, Option.bind_some]
      rw [if_neg hz, k1 g hgf fuel (by omega)]
      rfl
  · exact ⟨.bracket (bracketOf A (middle A)).1 (bracketOf A (middle A)).2 2, fun g hgf _ _ => by
      rw [if_neg (fun h => hg ((G.guard_agree hgf G.middlePt).1.1 h))], (G.around G.middlePt).2, le_rfl, by omega⟩

/-- Every search, for every function, ends within `lim + 2` iterations of each loop with an acceptable result, and looks only at
points of the geometry. -/
theorem search_ok (f : α → α) (m : Method) (lim : ℕ) (hN : 4 * lim ≤ N) : G.Fine lim f (fun g fuel => search A g m lim fuel) := by
  cases m with
  | binary => exact G.binary_ok f lim hN
  | reverse => exact G.reverse_ok f lim hN
  | lowFirst => exact G.lowFirst_ok f lim hN
  | scattered => exact G.scattered_ok f lim
  | directed => exact G.directed_ok f lim

end Geometry

end Slat.MaqF
