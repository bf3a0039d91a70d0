import Verif.SessionMemoryModel
import Verif.SessionMemorySpec
import Verif.SessionNames

/-!
# Helper lemmas for sessions of a program that remembers
-/

namespace Slat.Session

noncomputable section

open Interp (Val Call Cmd Cfg Err Mu Sd DistCmd Sc)
open Output (Path Files)

variable {N : Numerics} {ds : World → Interp.Printed → String} {M : Machine}

/-- What is remembered is what would be computed now. -/
structure Fresh (N : Numerics) (w : World) (m : Memory) : Prop where
  collapse : ∀ n v, m.collapseRate n = some v → ∃ i c f, w.things[n]? = some (.im i c f) ∧ v = N.collapseRate c f
  demolition : ∀ n v, m.demolitionRate n = some v → ∃ i c f, w.things[n]? = some (.im i c f) ∧ v = N.demolitionRate c f
  lambda : ∀ n x v, m.lambda n x = some v → ∃ i k c mu sp f g, w.things[n]? = some (.edp i k c mu sp f g) ∧
    v = N.edpRate c (w.fates k) (lawAt mu sp f g) x
  annual : ∀ n d, m.annual n = some d → ∃ b, w.things[n]? = some (.building b) ∧ d = (b.obj N w).annualCost

/-- The intensity measures of groups are known. -/
structure Anchored (w : World) : Prop where
  edp : ∀ (n : ℕ) i k c mu sp f g, w.things[n]? = some (.edp i k c mu sp f g) → w.find "im" i ≠ none
  group : ∀ (n : ℕ) t, w.things[n]? = some t → ∀ g ∈ t.groups, w.find "im" g.imId ≠ none
  im : ∀ i n, w.find "im" i = some n → ∃ c f, w.things[n]? = some (.im i c f)

theorem Fresh.init (w : World) : Fresh N w {} where
  collapse := by intro n v h; cases h
  demolition := by intro n v h; cases h
  lambda := by intro n x v h; cases h
  annual := by intro n d h; cases h

theorem Anchored.init : Anchored {} where
  edp := by intro n i k c mu sp f g h; cases h
  group := by intro n t h; cases h
  im := by intro i n h; cases h

/-- Then nothing looks different. -/
theorem Fresh.recalled {w : World} {m : Memory} (h : Fresh N w m) (n : ℕ) :
    m.recalled n ((plain N ds).obj w n) = (plain N ds).obj w n := by
  simp only [plain]
  cases ht : w.things[n]? with
  | none => rfl
  | some t =>
    cases t with
    | im i c f =>
      have h1 : (m.collapseRate n).getD (N.collapseRate c f) = N.collapseRate c f := by
        cases hv : m.collapseRate n with
        | none => rfl
        | some v =>
          obtain ⟨i', c', f', e, rfl⟩ := h.collapse n v hv
          rw [ht] at e
          cases e
          rfl
      have h2 : (m.demolitionRate n).getD (N.demolitionRate c f) = N.demolitionRate c f := by
        cases hv : m.demolitionRate n with
        | none => rfl
        | some v =>
          obtain ⟨i', c', f', e, rfl⟩ := h.demolition n v hv
          rw [ht] at e
          cases e
          rfl
      simp only [Thing.obj, Memory.recalled, h1, h2]
    | edp i k c mu sp f g =>
      have h1 : (fun x => (m.lambda n x).getD (N.edpRate c (w.fates k) (lawAt mu sp f g) x)) =
          N.edpRate c (w.fates k) (lawAt mu sp f g) := by
        funext x
        cases hv : m.lambda n x with
        | none => rfl
        | some v =>
          obtain ⟨i', k', c', mu', sp', f', g', e, rfl⟩ := h.lambda n x v hv
          rw [ht] at e
          cases e
          rfl
      simp only [Thing.obj, Memory.recalled, h1]
    | building b =>
      have h1 : (m.annual n).getD (b.obj N w).annualCost = (b.obj N w).annualCost := by
        cases hv : m.annual n with
        | none => rfl
        | some v =>
          obtain ⟨b', e, rfl⟩ := h.annual n v hv
          rw [ht] at e
          cases e
          rfl
      simp only [Thing.obj, Memory.recalled, h1]
      rfl
    | _ => rfl

/-! ## Changes -/

theorem Fresh.sub {w : World} {m m' : Memory} (h : Fresh N w m)
    (h1 : ∀ n v, m'.collapseRate n = some v → m.collapseRate n = some v)
    (h2 : ∀ n v, m'.demolitionRate n = some v → m.demolitionRate n = some v)
    (h3 : ∀ n x v, m'.lambda n x = some v → m.lambda n x = some v)
    (h4 : ∀ n v, m'.annual n = some v → m.annual n = some v) : Fresh N w m' where
  collapse n v hv := h.collapse n v (h1 n v hv)
  demolition n v hv := h.demolition n v (h2 n v hv)
  lambda n x v hv := h.lambda n x v (h3 n x v hv)
  annual n v hv := h.annual n v (h4 n v hv)

theorem annual_congr {w w' : World} {b : Building} (h : ∀ g, b.groups.head? = some g → w'.measure g.imId = w.measure g.imId) :
    (b.obj N w').annualCost = (b.obj N w).annualCost := by
  have : (b.groups.head?.map Group.imId).bind w'.measure = (b.groups.head?.map Group.imId).bind w.measure := by
    cases hg : b.groups.head? with
    | none => rfl
    | some g => simpa using h g hg
  simp only [Building.obj, this]

/-- A new object. -/
theorem Fresh.add {w : World} {m : Memory} (h : Fresh N w m) (hw : w.Sound) (ha : Anchored w) {r i : String} {t : Thing}
    (hr : r = "im" → w.find "im" i = none) (ht : ∀ j c f, t = .im j c f → f = Fates.init) :
    Fresh N (w.add r i t) m := by
  have keep : ∀ (n : ℕ) u, w.things[n]? = some u → (w.add r i t).things[n]? = some u := by
    intro n u hu
    simp only [World.add]
    rw [List.getElem?_append_left (List.getElem?_eq_some_iff.1 hu).1, hu]
  have fates : ∀ k, (w.add r i t).fates k = w.fates k := by
    intro k
    simp only [World.fates, World.add]
    rcases lt_trichotomy k w.things.length with hk | hk | hk
    · rw [List.getElem?_append_left hk]
    · rw [List.getElem?_append_right hk.ge, List.getElem?_eq_none hk.ge, hk]
      simp only [Nat.sub_self, List.getElem?_cons_zero]
      cases t with
      | im j c f => exact ht j c f rfl
      | _ => rfl
    · rw [List.getElem?_eq_none (by simp; omega), List.getElem?_eq_none hk.le]
  constructor
  · intro n v hv
    obtain ⟨a, b, c, h1, h2⟩ := h.collapse n v hv
    exact ⟨a, b, c, keep _ _ h1, h2⟩
  · intro n v hv
    obtain ⟨a, b, c, h1, h2⟩ := h.demolition n v hv
    exact ⟨a, b, c, keep _ _ h1, h2⟩
  · intro n x v hv
    obtain ⟨a, b, c, mu, sp, f, g, h1, h2⟩ := h.lambda n x v hv
    exact ⟨a, b, c, mu, sp, f, g, keep _ _ h1, by rw [h2, fates]⟩
  · intro n d hd
    obtain ⟨b, h1, h2⟩ := h.annual n d hd
    refine ⟨b, keep _ _ h1, ?_⟩
    rw [h2]
    symm
    apply annual_congr
    intro g hg
    have hk := ha.group n _ h1 g (List.mem_of_mem_head? hg)
    simp only [World.measure]
    rw [World.thing_add hw, if_neg]
    rintro ⟨rfl, rfl⟩
    exact hk (hr rfl)

theorem Anchored.add {w : World} (ha : Anchored w) (hw : w.Sound) {r i : String} {t : Thing}
    (hr : r = "im" → w.find "im" i = none ∧ ∃ c f, t = .im i c f)
    (he : ∀ j k c mu sp f g, t = .edp j k c mu sp f g → w.find "im" j ≠ none)
    (hg : ∀ g ∈ t.groups, w.find "im" g.imId ≠ none) : Anchored (w.add r i t) := by
  have find : ∀ j, w.find "im" j ≠ none → (w.add r i t).find "im" j ≠ none := by
    intro j hj
    rw [World.find_add]
    split
    · simp
    · exact hj
  have old : ∀ (n : ℕ) u, (w.add r i t).things[n]? = some u → w.things[n]? = some u ∨ u = t := by
    intro n u hu
    simp only [World.add] at hu
    rcases lt_or_ge n w.things.length with hn | hn
    · rw [List.getElem?_append_left hn] at hu
      exact Or.inl hu
    · rw [List.getElem?_append_right hn, List.getElem?_singleton] at hu
      split at hu
      · cases hu; exact Or.inr rfl
      · cases hu
  constructor
  · intro n j k c mu sp f g hn
    rcases old n _ hn with h | h
    · exact find _ (ha.edp n j k c mu sp f g h)
    · exact find _ (he j k c mu sp f g h.symm)
  · intro n u hn g hgu
    rcases old n _ hn with h | h
    · exact find _ (ha.group n u h g hgu)
    · subst h
      exact find _ (hg g hgu)
  · intro j n hj
    rw [World.find_add] at hj
    split at hj
    · next e =>
      obtain ⟨rfl, rfl⟩ := e
      obtain ⟨-, c, f, rfl⟩ := hr rfl
      cases hj
      exact ⟨c, f, by simp [World.add]⟩
    · obtain ⟨c, f, h⟩ := ha.im j n hj
      refine ⟨c, f, ?_⟩
      simp only [World.add]
      rw [List.getElem?_append_left (List.getElem?_eq_some_iff.1 h).1, h]

theorem set_get {w : World} {n k : ℕ} {t u : Thing} (hne : k ≠ n) :
    ({ w with things := w.things.set n t } : World).things[k]? = some u ↔ w.things[k]? = some u := by
  simp [List.getElem?_set_ne hne.symm]

theorem Anchored.set {w : World} (ha : Anchored w) {n : ℕ} {t t' : Thing} (hn : w.things[n]? = some t) (hs : t.Same t')
    (he : ∀ j k c mu sp f g, t' ≠ .edp j k c mu sp f g) (hg : ∀ g ∈ t'.groups, w.find "im" g.imId ≠ none) :
    Anchored { w with things := w.things.set n t' } := by
  have hlt := (List.getElem?_eq_some_iff.1 hn).1
  have self : ({ w with things := w.things.set n t' } : World).things[n]? = some t' := by simp [hlt]
  constructor
  · intro k j q c mu sp f g hk
    by_cases e : k = n
    · subst e
      rw [self] at hk
      exact absurd (Option.some.inj hk) (he _ _ _ _ _ _ _)
    · exact ha.edp k j q c mu sp f g ((set_get e).1 hk)
  · intro k u hk g hgu
    by_cases e : k = n
    · subst e
      rw [self] at hk
      cases hk
      exact hg g hgu
    · exact ha.group k u ((set_get e).1 hk) g hgu
  · intro i k hk
    obtain ⟨c, f, h⟩ := ha.im i k hk
    by_cases e : k = n
    · subst e
      rw [hn] at h
      cases h
      obtain ⟨d, rfl⟩ := hs
      exact ⟨c, d, self⟩
    · exact ⟨c, f, (set_get e).2 h⟩

/-- A structure changes, and its annual cost is not remembered. -/
theorem Fresh.building {w : World} {m m' : Memory} (h : Fresh N w m) (ha : Anchored w) {n : ℕ} {b b' : Building}
    (hn : w.things[n]? = some (.building b)) (h0 : m'.annual n = none)
    (h1 : m'.collapseRate = m.collapseRate) (h2 : m'.demolitionRate = m.demolitionRate) (h3 : m'.lambda = m.lambda)
    (h4 : ∀ k, k ≠ n → m'.annual k = m.annual k) :
    Fresh N { w with things := w.things.set n (.building b') } m' := by
  have hlt := (List.getElem?_eq_some_iff.1 hn).1
  have other : ∀ {k : ℕ} {u : Thing}, w.things[k]? = some u → (∀ b, u ≠ .building b) →
      ({ w with things := w.things.set n (.building b') } : World).things[k]? = some u := by
    intro k u hu hb
    refine (set_get ?_).2 hu
    rintro rfl
    rw [hn] at hu
    exact hb b (Option.some.inj hu).symm
  have fates : ∀ k, ({ w with things := w.things.set n (.building b') } : World).fates k = w.fates k := by
    intro k
    simp only [World.fates]
    by_cases e : k = n
    · subst e; rw [hn, List.getElem?_set_self hlt]
    · rw [List.getElem?_set_ne (Ne.symm e)]
  have measure : ∀ i, ({ w with things := w.things.set n (.building b') } : World).measure i = w.measure i := by
    intro i
    simp only [World.measure]
    by_cases e : w.find "im" i = some n
    · obtain ⟨c, f, hc⟩ := ha.im i n e
      rw [hn] at hc
      cases hc
    · rw [thing_set_ne e]
  constructor
  · intro k v hv
    rw [h1] at hv
    obtain ⟨i, c, f, e1, e2⟩ := h.collapse k v hv
    exact ⟨i, c, f, other e1 (by simp), e2⟩
  · intro k v hv
    rw [h2] at hv
    obtain ⟨i, c, f, e1, e2⟩ := h.demolition k v hv
    exact ⟨i, c, f, other e1 (by simp), e2⟩
  · intro k x v hv
    rw [h3] at hv
    obtain ⟨i, q, c, mu, sp, f, g, e1, e2⟩ := h.lambda k x v hv
    exact ⟨i, q, c, mu, sp, f, g, other e1 (by simp), by rw [e2, fates]⟩
  · intro k d hd
    have hk : k ≠ n := by rintro rfl; rw [h0] at hd; cases hd
    rw [h4 k hk] at hd
    obtain ⟨q, e1, e2⟩ := h.annual k d hd
    exact ⟨q, (set_get hk).2 e1, by rw [e2]; exact (annual_congr fun g _ => measure _).symm⟩

/-- An intensity measure gets other fates, and its clients are told. -/
theorem Fresh.fates {w : World} {m m' : Memory} (h : Fresh N w m) (ha : Anchored w) {n : ℕ} {i : String} {c : Dbl → Dbl}
    {f f' : Fates} (hn : w.things[n]? = some (.im i c f)) 
    (h1 : m'.collapseRate n = none ∨ m'.collapseRate n = m.collapseRate n ∧ N.collapseRate c f' = N.collapseRate c f)
    (h2 : m'.demolitionRate n = none) (h3 : ∀ k, k ≠ n → m'.collapseRate k = m.collapseRate k) (h4 : ∀ k, k ≠ n → m'.demolitionRate k = m.demolitionRate k)
    (h5 : m'.lambda = (m.told w n).lambda) (h6 : m'.annual = (m.told w n).annual) :
    Fresh N { w with things := w.things.set n (.im i c f') } m' := by
  have other : ∀ {k : ℕ} {u : Thing}, w.things[k]? = some u → (∀ j c f, u ≠ .im j c f) →
      ({ w with things := w.things.set n (.im i c f') } : World).things[k]? = some u := by
    intro k u hu hb
    refine (set_get ?_).2 hu
    rintro rfl
    rw [hn] at hu
    exact hb i c f (Option.some.inj hu).symm
  constructor
  · intro k v hv
    by_cases hk : k = n
    · subst hk
      rcases h1 with h1 | ⟨h1, h1'⟩
      · rw [h1] at hv; cases hv
      · rw [h1] at hv
        obtain ⟨j, c', d, e1, e2⟩ := h.collapse k v hv
        rw [hn] at e1
        cases e1
        exact ⟨i, c, f', by simp [(List.getElem?_eq_some_iff.1 hn).1], by rw [e2, h1']⟩
    · rw [h3 k hk] at hv
      obtain ⟨j, c', d, e1, e2⟩ := h.collapse k v hv
      exact ⟨j, c', d, (set_get hk).2 e1, e2⟩
  · intro k v hv
    have hk : k ≠ n := by rintro rfl; rw [h2] at hv; cases hv
    rw [h4 k hk] at hv
    obtain ⟨j, c', d, e1, e2⟩ := h.demolition k v hv
    exact ⟨j, c', d, (set_get hk).2 e1, e2⟩
  · intro k x v hv
    rw [h5] at hv
    have hm : m.lambda k x = some v := by
      simp only [Memory.told] at hv
      split at hv
      · split at hv
        · cases hv
        · exact hv
      · exact hv
    obtain ⟨j, q, c', mu, sp, a, b, e1, e2⟩ := h.lambda k x v hm
    have hq : q ≠ n := by
      rintro rfl
      simp [Memory.told, e1] at hv
    refine ⟨j, q, c', mu, sp, a, b, other e1 (by simp), ?_⟩
    rw [e2]
    simp only [World.fates, List.getElem?_set_ne (Ne.symm hq)]
  · intro k d hd
    rw [h6] at hd
    have hm : m.annual k = some d := by
      simp only [Memory.told] at hd
      split at hd
      · split at hd
        · split at hd
          · cases hd
          · exact hd
        · exact hd
      · exact hd
    obtain ⟨b, e1, e2⟩ := h.annual k d hm
    refine ⟨b, other e1 (by simp), ?_⟩
    rw [e2]
    refine (annual_congr fun g hg => ?_).symm
    have : w.find "im" g.imId ≠ some n := by
      intro hf
      simp [Memory.told, e1, hg, hf] at hd
    simp only [World.measure]
    rw [thing_set_ne this]

/-- What is missing where a call forgets too little. -/
def Harmless (w : World) (m : Memory) : Call → Prop
  | .dist .collapse id .. => ∀ n, w.find "im" id = some n → m.demolitionRate n = none
  | .dist .rebuildCost id .. => ∀ n, w.find "structure" id = some n → m.annual n = none
  | .dist .demolitionCost id .. => ∀ n, w.find "structure" id = some n → m.annual n = none
  | _ => True

/-- The rate of collapse does not depend on demolition. -/
def Numerics.Separate (N : Numerics) : Prop := ∀ c f d, N.collapseRate c (Fates.setDemolition f d) = N.collapseRate c f

/-- What holds at every moment. -/
structure Keeps (N : Numerics) (w : World) (m : Memory) : Prop where
  fresh : Fresh N w m
  anchored : Anchored w
  named : Named w

theorem Keeps.init : Keeps N {} {} := ⟨Fresh.init _, Anchored.init, Named.init⟩

theorem Keeps.add {w : World} {m : Memory} (h : Keeps N w m) {r i : String} {t : Thing} (hn : Named (w.add r i t))
    (hr : r = "im" → w.find "im" i = none ∧ ∃ c, t = .im i c Fates.init) (ht : ∀ j c f, t = .im j c f → f = Fates.init)
    (he : ∀ j k c mu sp f g, t = .edp j k c mu sp f g → w.find "im" j ≠ none)
    (hg : ∀ g ∈ t.groups, w.find "im" g.imId ≠ none) : Keeps N (w.add r i t) m :=
  ⟨h.fresh.add h.named.sound h.anchored (fun e => (hr e).1) ht,
    h.anchored.add h.named.sound (fun e => ⟨(hr e).1, by obtain ⟨c, hc⟩ := (hr e).2; exact ⟨c, _, hc⟩⟩) he hg, hn⟩

theorem keeps_call (hN : N.Separate) {w w' : World} {m : Memory} {x : Call} (h : Keeps N w m) (hx : Harmless w m x)
    (hc : w.call x = .ok w') : Keeps N w' (m.after w x) := by
  have hn := named_call h.named hc
  have plainAdd : ∀ {r i t}, w' = w.add r i t → r ≠ "im" → (∀ j c f, t ≠ .im j c f) → (∀ j k c mu sp f g, t ≠ .edp j k c mu sp f g) →
      t.groups = [] → Keeps N w' m := by
    rintro r i t rfl hr h1 h2 h3
    exact h.add hn (fun e => absurd e hr) (fun j c f e => absurd e (h1 j c f)) (fun j k c mu sp f g e => absurd e (h2 j k c mu sp f g))
      (by simp [h3])
  cases x with
  | detfn i ty v =>
    obtain ⟨q, f, -, -, e⟩ := call_detfn hc
    exact plainAdd e (by decide) (by simp) (by simp) rfl
  | probfn i mu a sp b =>
    simp only [World.call] at hc
    split at hc
    · split at hc
      · split at hc
        · cases hc; exact plainAdd rfl (by decide) (by simp) (by simp) rfl
        · cases hc
      · cases hc
    · cases hc
  | im i a =>
    simp only [World.call] at hc
    split at hc
    · split at hc
      · next hf =>
        cases hc
        exact h.add hn (fun _ => ⟨hf, _, rfl⟩) (by rintro j c f ⟨⟩; rfl) (by simp) (by simp [Thing.groups])
      · cases hc
    · cases hc
  | edp i k a =>
    simp only [World.call] at hc
    split at hc
    · next n' j c d mu sp f g e1 e2 e3 =>
      split at hc
      · cases hc
        refine h.add hn (by simp) (by simp) ?_ (by simp [Thing.groups])
        rintro _ _ _ _ _ _ _ ⟨⟩
        obtain ⟨c', f', e4⟩ := h.anchored.im _ _ e1
        simp only [World.thing, e1, Option.bind_some, e4] at e2
        cases e2
        rw [e1]
        simp
      · cases hc
    · cases hc
  | dist k i u mo v so =>
    cases k with
    | collapse =>
      obtain ⟨a, b, mu, sp, n, j, cv, d, ha, hb, e1, e2, hf, ht, rfl⟩ := setFate_ok (w' := w') hc
      simp only [Memory.after, hf]
      refine ⟨h.fresh.fates h.anchored ht (Or.inl (by simp)) (hx n hf) (fun k hk => by simp [hk]) (fun k hk => rfl) rfl rfl,
        h.anchored.set ht ⟨_, rfl⟩ (by simp) (by simp [Thing.groups]), hn⟩
    | demolition =>
      obtain ⟨a, b, mu, sp, n, j, cv, d, ha, hb, e1, e2, hf, ht, rfl⟩ := setFate_ok (w' := w') hc
      simp only [Memory.after, hf]
      refine ⟨h.fresh.fates h.anchored ht (Or.inr ⟨rfl, hN _ _ _⟩) (by simp) (fun k hk => rfl) (fun k hk => by simp [hk]) rfl rfl,
        h.anchored.set ht ⟨_, rfl⟩ (by simp) (by simp [Thing.groups]), hn⟩
    | rebuildCost =>
      obtain ⟨a, b, mu, sp, n, s, -, -, -, -, hf, ht, rfl⟩ := setCost_ok (w' := w') (set := fun b d => { b with rebuild := d }) hc
      exact ⟨h.fresh.building h.anchored ht (hx n hf) rfl rfl rfl (fun _ _ => rfl),
        h.anchored.set ht ⟨_, rfl, List.prefix_rfl⟩ (by simp) (fun g hg => h.anchored.group n _ ht g hg), hn⟩
    | demolitionCost =>
      obtain ⟨a, b, mu, sp, n, s, -, -, -, -, hf, ht, rfl⟩ := setCost_ok (w' := w') (set := fun b d => { b with demolition := d }) hc
      exact ⟨h.fresh.building h.anchored ht (hx n hf) rfl rfl rfl (fun _ _ => rfl),
        h.anchored.set ht ⟨_, rfl, List.prefix_rfl⟩ (by simp) (fun g hg => h.anchored.group n _ ht g hg), hn⟩
  | structure_ i =>
    obtain ⟨-, e⟩ := call_structure hc
    exact plainAdd e (by decide) (by simp) (by simp) rfl
  | addCompGroup i k =>
    obtain ⟨n, b, g, hf, hb, hg, -, rfl⟩ := addGroup_ok hc
    simp only [Memory.after, hf]
    obtain ⟨n', -, hg'⟩ := Option.bind_eq_some_iff.1 hg
    refine ⟨h.fresh.building h.anchored hb (by simp) rfl rfl rfl (fun k hk => by simp [hk]),
      h.anchored.set hb ⟨_, rfl, List.prefix_append _ _⟩ (by simp) ?_, hn⟩
    intro q hq
    simp only [Thing.groups, List.mem_append, List.mem_singleton] at hq
    rcases hq with hq | rfl
    · exact h.anchored.group n _ hb q hq
    · exact h.anchored.group n' _ hg' q (by simp [Thing.groups])
  | fragfnUser =>
    obtain ⟨ps, ds, -, -, -, e⟩ := call_fragfn hc
    exact plainAdd e (by decide) (by simp) (by simp) rfl
  | simpleLoss =>
    obtain ⟨ps, ds, -, -, -, e⟩ := call_simpleLoss hc
    exact plainAdd e (by decide) (by simp) (by simp) rfl
  | bilevelLoss =>
    obtain ⟨ps, ds, -, -, -, e⟩ := call_bilevelLoss hc
    exact plainAdd e (by decide) (by simp) (by simp) rfl
  | compgroup =>
    obtain ⟨im, n', c, mu, sp, a, b, ds, L, g, he, e1, -, -, -, -, -, -, -, -, rfl, -⟩ := call_compgroup hc
    obtain ⟨q, -, he'⟩ := Option.bind_eq_some_iff.1 he
    refine h.add hn (by simp) (by simp) (by simp) ?_
    intro k hk
    simp only [Thing.groups, List.mem_singleton] at hk
    subst hk
    rw [e1]
    exact h.anchored.edp _ _ _ _ _ _ _ _ he'
  | inputdir d => cases hc; exact h
  | _ => cases hc

/-! ## Reports -/

/-- The same state, with a memory. -/
def lift (σ : State World) (m : Memory) : State (World × Memory) := ⟨(σ.lib, m), σ.recs, σ.outDir, σ.files⟩

theorem seen_same {w : World} {m : Memory} (h : Fresh N w m) (n : Option ℕ) :
    seen (remembering N ds) (w, m) n = seen (plain N ds) w n := by
  cases n with
  | none => rfl
  | some n => exact h.recalled n

theorem run_same_held {w : World} {m : Memory} (h : Fresh N w m) (q : Held) :
    q.run (remembering N ds) M (w, m) = q.run (plain N ds) M w := by
  simp only [Held.run, seen_same h]

theorem record_same {σ : State World} {m : Memory} (h : Fresh N σ.lib m) (rid ty r id : String) (o : Interp.ROpts)
    (cols at_ : Option Val) :
    record (remembering N ds) M (lift σ m) rid ty r id o cols at_ =
      (record (plain N ds) M σ rid ty r id o cols at_).map fun τ => lift τ m := by
  simp only [record]
  cases colsOf cols with
  | error e => rfl
  | ok cs =>
    cases atsOf M at_ with
    | error e => rfl
    | ok as =>
      simp only [Bind.bind, Except.bind]
      cases hk : kindOf ty with
      | none => rfl
      | some k =>
        have : seen (remembering N ds) (lift σ m).lib ((remembering N ds).find (lift σ m).lib r id) =
            seen (plain N ds) σ.lib ((plain N ds).find σ.lib r id) := seen_same h _
        simp only [this]
        cases Rec.make k (seen (plain N ds) σ.lib ((plain N ds).find σ.lib r id)) (optsOf o) cs as <;> rfl

theorem Fresh.rates {w : World} {m : Memory} (h : Fresh N w m) {n : ℕ} {i : String} {c : Dbl → Dbl} {f : Fates}
    (hn : w.things[n]? = some (.im i c f)) : Fresh N w { m with
      collapseRate := Function.update m.collapseRate n (some (N.collapseRate c f))
      demolitionRate := Function.update m.demolitionRate n (some (N.demolitionRate c f)) } where
  collapse k v hv := by
    by_cases hk : k = n
    · subst hk
      simp only [Function.update_self, Option.some.injEq] at hv
      exact ⟨i, c, f, hn, hv.symm⟩
    · simp only [Function.update_of_ne hk] at hv
      exact h.collapse k v hv
  demolition k v hv := by
    by_cases hk : k = n
    · subst hk
      simp only [Function.update_self, Option.some.injEq] at hv
      exact ⟨i, c, f, hn, hv.symm⟩
    · simp only [Function.update_of_ne hk] at hv
      exact h.demolition k v hv
  lambda := h.lambda
  annual := h.annual

theorem Fresh.cost {w : World} {m : Memory} (h : Fresh N w m) {n : ℕ} {b : Building}
    (hn : w.things[n]? = some (.building b)) :
    Fresh N w { m with annual := Function.update m.annual n (some (b.obj N w).annualCost) } where
  collapse := h.collapse
  demolition := h.demolition
  lambda := h.lambda
  annual k d hd := by
    by_cases hk : k = n
    · subst hk
      simp only [Function.update_self, Option.some.injEq] at hd
      exact ⟨b, hn, hd.symm⟩
    · simp only [Function.update_of_ne hk] at hd
      exact h.annual k d hd

theorem asked_keeps {w : World} {m : Memory} (h : Fresh N w m) (q : Held) : Fresh N w (m.asked N ds w q) := by
  unfold Memory.asked
  cases hq : q.target with
  | none => exact h
  | some n =>
    dsimp only
    rw [h.recalled]
    simp only [plain]
    cases ht : w.things[n]? with
    | none => exact h
    | some t =>
      cases t with
      | im i c f =>
        simp only [Thing.obj]
        cases q.parts.kind with
        | collrate => exact h.rates ht
        | _ => exact h
      | edp i k c mu sp f g =>
        simp only [Thing.obj]
        cases q.parts.kind with
        | edprate =>
          refine ⟨h.collapse, h.demolition, ?_, h.annual⟩
          intro k' x v hv
          dsimp only at hv
          split at hv
          · next hk =>
            obtain ⟨rfl, -⟩ := hk
            cases hv
            exact ⟨i, k, c, mu, sp, f, g, ht, rfl⟩
          · exact h.lambda k' x v hv
        | _ => exact h
      | building b =>
        simp only [Thing.obj]
        cases q.parts.kind with
        | structcost =>
          cases q.parts.opts.structType with
          | none => exact h
          | some ty =>
            cases ty with
            | annual => exact h.cost ht
            | npv =>
              dsimp only
              split
              · exact h
              · exact h.cost ht
            | _ => exact h
        | _ => exact h
      | _ => exact h

theorem asked_all {w : World} {m : Memory} (h : Fresh N w m) (qs : List (String × Held)) :
    Fresh N w (qs.foldl (fun m e => m.asked N ds w e.2) m) := by
  induction qs generalizing m with
  | nil => exact h
  | cons q qs ih => exact ih (asked_keeps h q.2)

/-- A call leaves the same, and says the same of its end. -/
theorem exec_same (hN : N.Separate) {σ : State World} {m : Memory} (h : Keeps N σ.lib m) {x : Call} (hx : Harmless σ.lib m x) :
    ∃ m', execR N ds M (lift σ m) x = (lift (exec (plain N ds) M σ x).1 m', (exec (plain N ds) M σ x).2) ∧
      Keeps N (exec (plain N ds) M σ x).1.lib m' ∧
      (m' = m ∨ m' = m.after σ.lib x ∨ x = .analyze ∧ m' = σ.recs.foldl (fun m e => m.asked N ds σ.lib e.2) m) := by
  have lib : ∀ x, Harmless σ.lib m x →
      (∀ w, (plain N ds).call σ.lib x = .ok w → exec (plain N ds) M σ x = ({ σ with lib := w }, none)) →
      (∀ e, (plain N ds).call σ.lib x = .error e → exec (plain N ds) M σ x = (σ, some e)) →
      (∀ p, (remembering N ds).call (lift σ m).lib x = .ok p →
        execR N ds M (lift σ m) x = ({ lift σ m with lib := p }, none)) →
      (∀ e, (remembering N ds).call (lift σ m).lib x = .error e → execR N ds M (lift σ m) x = (lift σ m, some e)) →
      ∃ m', execR N ds M (lift σ m) x = (lift (exec (plain N ds) M σ x).1 m', (exec (plain N ds) M σ x).2) ∧
        Keeps N (exec (plain N ds) M σ x).1.lib m' ∧
        (m' = m ∨ m' = m.after σ.lib x ∨ x = .analyze ∧ m' = σ.recs.foldl (fun m e => m.asked N ds σ.lib e.2) m) := by
    intro x hx e1 e2 e3 e4
    cases hc : σ.lib.call x with
    | ok w =>
      have : (remembering N ds).call (lift σ m).lib x = .ok (w, m.after σ.lib x) := by simp only [remembering, lift, hc]
      rw [e1 w hc, e3 _ this]
      exact ⟨_, rfl, keeps_call hN h hx hc, Or.inr (Or.inl rfl)⟩
    | error e =>
      have : (remembering N ds).call (lift σ m).lib x = .error e := by simp only [remembering, lift, hc]
      rw [e2 e hc, e4 e this]
      exact ⟨m, rfl, h, Or.inl rfl⟩
  cases x with
  | analyze =>
    refine ⟨σ.recs.foldl (fun m e => m.asked N ds σ.lib e.2) m, ?_,
      (show Keeps N σ.lib _ from ⟨asked_all (ds := ds) h.fresh σ.recs, h.anchored, h.named⟩), Or.inr (Or.inr ⟨rfl, rfl⟩)⟩
    have : ((lift σ m).recs.map fun p => p.2.run (remembering N ds) M (lift σ m).lib) =
        σ.recs.map fun p => p.2.run (plain N ds) M σ.lib :=
      List.map_congr_left fun p _ => run_same_held h.fresh p.2
    simp only [execR, exec, Session.analyze, this]
    rfl
  | recorder rid ty r id o cols at_ =>
    refine ⟨m, ?_, ?_, Or.inl rfl⟩
    · simp only [execR, exec, record_same h.fresh]
      cases record (plain N ds) M σ rid ty r id o cols at_ <;> rfl
    · simp only [exec]
      cases hr : record (plain N ds) M σ rid ty r id o cols at_ with
      | error e => exact h
      | ok τ =>
        obtain ⟨k, cs, as, r, -, -, -, -, rfl⟩ := record_ok hr
        exact h
  | outputdir d => exact ⟨m, rfl, h, Or.inl rfl⟩
  | print v f a =>
    refine ⟨m, ?_, ?_, Or.inl rfl⟩
    · simp only [execR, exec, print]
      cases f with
      | none => rfl
      | some f =>
        dsimp only
        split <;> rfl
    · simp only [exec, print]
      cases f with
      | none => exact h
      | some f =>
        dsimp only
        split <;> exact h
  | _ =>
    refine lib _ hx ?_ ?_ ?_ ?_ <;> intro w hw <;> simp only [execR, exec, hw]

end

end Slat.Session
