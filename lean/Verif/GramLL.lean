import Verif.GramModel

/-!
# Grammars in general: the parser is right, and grammars of a certain form are unambiguous
-/

namespace Slat.Gram

open Slat.Lex (Kind)
open Slat.Interp G

/-! ## Dictionaries of any depth -/

theorem Parses.mono {D D' : List Tok → Entries → Prop} {α : Type} (g : G α) :
    ∀ {u : List Tok} {a : α}, (∀ v e, v.length ≤ u.length → D v e → D' v e) →
      Parses D g u a → Parses D' g u a := by
  induction g with
  | tok k => intro u a _ h; exact h
  | eps b => intro u a _ h; exact h
  | seq g h ihg ihh =>
    rintro u a H ⟨v, w, rfl, hv, hw⟩
    refine ⟨v, w, rfl, ihg (fun x e hx => H x e ?_) hv, ihh (fun x e hx => H x e ?_) hw⟩ <;>
      simp only [List.length_append] <;> omega
  | alt g h ihg ihh =>
    rintro u a H (hu | hu)
    · exact .inl (ihg H hu)
    · exact .inr (ihh H hu)
  | star g ih =>
    rintro u l H ⟨us, rfl, hf⟩
    refine ⟨us, rfl, ?_⟩
    induction hf with
    | nil => exact .nil
    | @cons v a us l hv _ ih' =>
      refine .cons ⟨hv.1, ih (fun x e hx => H x e ?_) hv.2⟩ (ih' fun x e hx => H x e ?_) <;>
        simp only [List.flatten_cons, List.length_append] <;> omega
  | map f g ih =>
    rintro u b H ⟨a, ha, rfl⟩
    exact ⟨a, ih H ha, rfl⟩
  | dict => intro u e H h; exact H u e (Nat.le_refl _) h

theorem DictN.succ {n : Nat} : ∀ {u : List Tok} {e : Entries}, DictN n u e → DictN (n + 1) u e := by
  induction n with
  | zero => intro u e h; exact h.elim
  | succ n ih =>
    rintro u e ⟨t, v, rfl, h⟩
    exact ⟨t, v, rfl, Parses.mono _ (fun _ _ _ h => ih h) h⟩

theorem DictN.le {n m : Nat} (h : n ≤ m) {u : List Tok} {e : Entries} (hd : DictN n u e) :
    DictN m u e := by
  induction h with
  | refl => exact hd
  | step _ ih => exact ih.succ

/-- The depth is at most the number of tokens. -/
theorem DictN.bound {n : Nat} : ∀ {u : List Tok} {e : Entries}, DictN n u e → DictN u.length u e := by
  induction n with
  | zero => intro u e h; exact h.elim
  | succ n ih =>
    rintro u e ⟨t, v, rfl, h⟩
    exact ⟨t, v, rfl, Parses.mono _ (fun x e hx h => DictN.le hx (ih h)) h⟩

theorem Derives.bound {α : Type} {g : G α} {u : List Tok} {a : α} (h : Derives g u a) :
    Parses (DictN u.length) g u a := by
  obtain ⟨n, h⟩ := h
  exact Parses.mono _ (fun v e hv h => DictN.le hv h.bound) h

/-! ## The parser -/

theorem iter_iff {α : Type} {f : List Tok → List (α × List Tok)} {P : List Tok → α → Prop}
    (h : ∀ ts a r, (a, r) ∈ f ts ↔ ∃ u, ts = u ++ r ∧ P u a) :
    ∀ n ts l r, (l, r) ∈ iter f n ts ↔ ∃ us : List (List Tok), us.length ≤ n ∧
      ts = us.flatten ++ r ∧ List.Forall₂ (fun v a => v ≠ [] ∧ P v a) us l := by
  intro n
  induction n with
  | zero =>
    intro ts l r
    simp only [iter, List.mem_singleton, Prod.mk.injEq]
    constructor
    · rintro ⟨rfl, rfl⟩; exact ⟨[], by simp⟩
    · rintro ⟨us, hl, rfl, hf⟩
      have : us = [] := by cases us <;> simp_all
      subst this
      cases hf
      simp
  | succ n ih =>
    intro ts l r
    simp only [iter, List.mem_cons, Prod.mk.injEq, List.mem_flatMap]
    constructor
    · rintro (⟨rfl, rfl⟩ | ⟨⟨a, r'⟩, ha, hm⟩)
      · exact ⟨[], by simp⟩
      · split at hm
        · rename_i hlt
          obtain ⟨⟨l', r''⟩, hq, he⟩ := List.mem_map.1 hm
          simp only [Prod.mk.injEq] at he
          obtain ⟨rfl, rfl⟩ := he
          obtain ⟨u, hu, hp⟩ := (h _ _ _).1 ha
          obtain ⟨us, hl, hr', hf⟩ := (ih _ _ _).1 hq
          refine ⟨u :: us, by simp; omega, ?_, .cons ⟨?_, hp⟩ hf⟩
          · simp only at hr'
            rw [hu, hr', List.flatten_cons, List.append_assoc]
          · rintro rfl
            simp [hu] at hlt
        · cases hm
    · rintro ⟨us, hl, rfl, hf⟩
      cases hf with
      | nil => left; simp
      | @cons v a us l hv hf =>
        right
        refine ⟨(a, us.flatten ++ r), (h _ _ _).2 ⟨v, by simp, hv.2⟩, ?_⟩
        have hlen : 0 < v.length := List.length_pos_of_ne_nil hv.1
        rw [if_pos (by simp only [List.flatten_cons, List.length_append]; omega)]
        exact List.mem_map.2 ⟨(l, r), (ih _ _ _).2 ⟨us, by simpa using hl, rfl, hf⟩, rfl⟩

theorem flatten_length {us : List (List Tok)} (h : ∀ v ∈ us, v ≠ []) :
    us.length ≤ us.flatten.length := by
  induction us with
  | nil => simp
  | cons v us ih =>
    have h1 : 0 < v.length := List.length_pos_of_ne_nil (h v (by simp))
    have h2 := ih fun w hw => h w (by simp [hw])
    simp only [List.length_cons, List.flatten_cons, List.length_append]
    omega

theorem runs_iff {S : List Tok → List (Entries × List Tok)} {D : List Tok → Entries → Prop}
    (hS : ∀ ts e r, (e, r) ∈ S ts ↔ ∃ u, ts = u ++ r ∧ D u e) {α : Type} (g : G α) :
    ∀ ts a r, (a, r) ∈ runs S g ts ↔ ∃ u, ts = u ++ r ∧ Parses D g u a := by
  induction g with
  | tok k =>
    intro ts a r
    cases ts with
    | nil =>
      simp only [runs, List.not_mem_nil, false_iff, Parses, not_exists, not_and]
      rintro u hu t rfl
      simp at hu
    | cons p ts =>
      obtain ⟨k', t⟩ := p
      simp only [runs, Parses]
      split
      · subst k'
        simp only [List.mem_singleton, Prod.mk.injEq]
        constructor
        · rintro ⟨rfl, rfl⟩; exact ⟨[(k, t)], rfl, t, rfl, rfl⟩
        · rintro ⟨u, hu, t', rfl, rfl⟩; simp at hu; simp [hu]
      · rename_i hk
        simp only [List.not_mem_nil, false_iff, not_exists, not_and]
        rintro u hu t' rfl
        simp at hu
        exact absurd hu.1.1 hk
  | eps b =>
    intro ts a r
    simp only [runs, List.mem_singleton, Prod.mk.injEq, Parses]
    constructor
    · rintro ⟨rfl, rfl⟩; exact ⟨[], rfl, rfl, rfl⟩
    · rintro ⟨u, rfl, rfl, rfl⟩; simp
  | seq g h ihg ihh =>
    intro ts a r
    simp only [runs, List.mem_flatMap, List.mem_map, Parses]
    constructor
    · rintro ⟨⟨x, r1⟩, h1, ⟨y, r2⟩, h2, he⟩
      simp only [Prod.mk.injEq] at he
      obtain ⟨rfl, rfl⟩ := he
      obtain ⟨u, rfl, hu⟩ := (ihg _ _ _).1 h1
      obtain ⟨v, hv, hv'⟩ := (ihh _ _ _).1 h2
      simp only at hv
      subst hv
      exact ⟨u ++ v, by simp, u, v, rfl, hu, hv'⟩
    · rintro ⟨_, rfl, v, w, rfl, hv, hw⟩
      exact ⟨(a.1, w ++ r), (ihg _ _ _).2 ⟨v, by simp, hv⟩, (a.2, r), (ihh _ _ _).2 ⟨w, rfl, hw⟩, rfl⟩
  | alt g h ihg ihh =>
    intro ts a r
    simp only [runs, List.mem_append, Parses, ihg, ihh]
    constructor
    · rintro (⟨u, h1, h2⟩ | ⟨u, h1, h2⟩)
      · exact ⟨u, h1, .inl h2⟩
      · exact ⟨u, h1, .inr h2⟩
    · rintro ⟨u, h1, h2 | h2⟩
      · exact .inl ⟨u, h1, h2⟩
      · exact .inr ⟨u, h1, h2⟩
  | star g ih =>
    intro ts l r
    simp only [runs, Parses, iter_iff ih]
    constructor
    · rintro ⟨us, -, h, hf⟩; exact ⟨_, h, us, rfl, hf⟩
    · rintro ⟨_, h, us, rfl, hf⟩
      refine ⟨us, ?_, h, hf⟩
      have : us.length ≤ us.flatten.length := flatten_length fun v hv => by
        clear h
        induction hf with
        | nil => cases hv
        | cons h1 _ ih' =>
          rcases List.mem_cons.1 hv with rfl | hv
          · exact h1.1
          · exact ih' hv
      rw [h, List.length_append]; omega
  | map f g ih =>
    intro ts b r
    simp only [runs, List.mem_map, Prod.mk.injEq, Parses]
    constructor
    · rintro ⟨⟨a, r'⟩, h1, rfl, rfl⟩
      obtain ⟨u, h2, h3⟩ := (ih _ _ _).1 h1
      exact ⟨u, h2, a, h3, rfl⟩
    · rintro ⟨u, h2, a, h3, rfl⟩
      exact ⟨(a, r), (ih _ _ _).2 ⟨u, h2, h3⟩, rfl, rfl⟩
  | dict => intro ts e r; exact hS ts e r

theorem dictRuns_iff : ∀ n ts e r, (e, r) ∈ dictRuns n ts ↔ ∃ u, ts = u ++ r ∧ DictN n u e := by
  intro n
  induction n with
  | zero => intro ts e r; simp [dictRuns, DictN]
  | succ n ih =>
    intro ts e r
    cases ts with
    | nil =>
      simp only [dictRuns, List.not_mem_nil, DictN, false_iff, not_exists, not_and]
      rintro u hu t v rfl
      simp at hu
    | cons p ts =>
      obtain ⟨k, t⟩ := p
      simp only [dictRuns, DictN]
      split
      · subst k
        rw [runs_iff ih]
        constructor
        · rintro ⟨u, rfl, h⟩; exact ⟨(.LPAREN, t) :: u, rfl, t, u, rfl, h⟩
        · rintro ⟨_, h, t', v, rfl, h'⟩
          simp at h
          exact ⟨v, h.2, h'⟩
      · rename_i hk
        simp only [List.not_mem_nil, false_iff, not_exists, not_and]
        rintro u hu t' v rfl
        simp at hu
        exact absurd hu.1.1 hk

/-- What the parser finds is derived by the grammar. -/
theorem parseAs_sound {α : Type} {g : G α} {ts : List Tok} {a : α} (h : parseAs g ts = some a) :
    Derives g ts a := by
  unfold parseAs at h
  obtain ⟨⟨b, r⟩, hb, rfl⟩ := Option.map_eq_some_iff.1 h
  have hm := List.mem_of_mem_head? hb
  obtain ⟨hm, hr⟩ := List.mem_filter.1 hm
  have hr : r = [] := by simpa using hr
  subst hr
  obtain ⟨u, hu, hp⟩ := (runs_iff (dictRuns_iff _) g _ _ _).1 hm
  simp at hu; subst hu
  exact ⟨_, hp⟩

/-- What the grammar derives, the parser finds. -/
theorem parseAs_complete {α : Type} {g : G α} {ts : List Tok} {a : α} (h : Derives g ts a) :
    ∃ b, parseAs g ts = some b := by
  have hm := (runs_iff (dictRuns_iff _) g ts a []).2 ⟨ts, by simp, h.bound⟩
  have : (a, []) ∈ (runs (dictRuns ts.length) g ts).filter fun p => p.2.isEmpty :=
    List.mem_filter.2 ⟨hm, rfl⟩
  unfold parseAs
  cases hh : ((runs (dictRuns ts.length) g ts).filter fun p => p.2.isEmpty) with
  | nil => rw [hh] at this; cases this
  | cons p l => exact ⟨p.1, rfl⟩

/-! ## Grammars that can be read from left to right -/

/-- Can the grammar derive no token at all? -/
def nullable : {α : Type} → G α → Bool
  | _, .tok _ => false
  | _, .eps _ => true
  | _, .seq g h => nullable g && nullable h
  | _, .alt g h => nullable g || nullable h
  | _, .star _ => true
  | _, .map _ g => nullable g
  | _, .dict => false

/-- The types of the tokens that can come first. -/
def first : {α : Type} → G α → List Kind
  | _, .tok k => [k]
  | _, .eps _ => []
  | _, .seq g h => first g ++ if nullable g then first h else []
  | _, .alt g h => first g ++ first h
  | _, .star g => first g
  | _, .map _ g => first g
  | _, .dict => [.LPAREN]

/-- The types of the tokens that can be met where `g` is expected and `F` may follow. -/
def predict {α : Type} (g : G α) (F : List Kind) : List Kind :=
  first g ++ if nullable g then F else []

/-- No common element. -/
def disj (l l' : List Kind) : Bool := l.all fun k => !l'.elem k

theorem disj_false {l l' : List Kind} (h : disj l l' = true) {k : Kind} (h1 : k ∈ l)
    (h2 : k ∈ l') : False := by
  have := List.all_eq_true.1 h k h1
  simp only [Bool.not_eq_true', List.elem_eq_contains] at this
  rw [List.contains_iff_mem.2 h2] at this
  cases this

/-- Two alternatives can be told apart by the next token. -/
def apart {α β : Type} (g : G α) (h : G β) (F : List Kind) : Bool :=
  !(nullable g && nullable h) && disj (predict g F) (predict h F)

/-- The same derivations with the same values. -/
def Eqv {α : Type} (g h : G α) : Prop := ∀ D u a, Parses D g u a ↔ Parses D h u a

/-- Grammars that can be read from left to right, up to a change of form, when what follows starts
with one of `F`. -/
inductive LL : {α : Type} → G α → List Kind → Prop
  | tok {k F} : LL (.tok k) F
  | eps {α : Type} {a : α} {F} : LL (.eps a) F
  | seq {α β : Type} {g : G α} {h : G β} {F} : LL g (predict h F) → LL h F → LL (.seq g h) F
  | alt {α : Type} {g h : G α} {F} : apart g h F = true → LL g F → LL h F → LL (.alt g h) F
  | star {α : Type} {g : G α} {F} : disj (first g) F = true → LL g (first g ++ F) → LL (.star g) F
  | map {α β : Type} {f : α → β} {g : G α} {F} : LL g F → LL (.map f g) F
  | dict {F} : LL .dict F
  | eqv {α : Type} {g h : G α} {F} : Eqv g h → LL h F → LL g F

/-- The tokens start with one of `F`, or there are none. -/
def Fol (F : List Kind) (r : List Tok) : Prop := ∀ p v, r = p :: v → p.1 ∈ F

/-- Of all the ways to read a start of a row of tokens, so that what is left starts with one of `F`,
there is at most one. -/
def Det (D : List Tok → Entries → Prop) {α : Type} (g : G α) (F : List Kind) : Prop :=
  ∀ u a r u' a' r', Parses D g u a → Parses D g u' a' → u ++ r = u' ++ r' → Fol F r → Fol F r' →
    u = u' ∧ a = a'

/-- What is needed of dictionaries. -/
structure DOk (D : List Tok → Entries → Prop) : Prop where
  start : ∀ {u e}, D u e → ∃ t v, u = (Kind.LPAREN, t) :: v
  det : ∀ {u e r u' e' r'}, D u e → D u' e' → u ++ r = u' ++ r' → u = u' ∧ e = e'

theorem head_first {D : List Tok → Entries → Prop} (hD : DOk D) {α : Type} (g : G α) :
    ∀ {u a}, Parses D g u a →
      (u = [] ∧ nullable g = true) ∨ ∃ p v, u = p :: v ∧ p.1 ∈ first g := by
  induction g with
  | tok k => rintro u a ⟨t, rfl, -⟩; exact .inr ⟨_, _, rfl, by simp [first]⟩
  | eps b => rintro u a ⟨rfl, -⟩; exact .inl ⟨rfl, rfl⟩
  | seq g h ihg ihh =>
    rintro u a ⟨v, w, rfl, hv, hw⟩
    rcases ihg hv with ⟨rfl, hn⟩ | ⟨p, v', rfl, hp⟩
    · rcases ihh hw with ⟨rfl, hn'⟩ | ⟨p, w', rfl, hp⟩
      · exact .inl ⟨rfl, by simp [nullable, hn, hn']⟩
      · exact .inr ⟨p, w', rfl, by simp [first, hn, hp]⟩
    · exact .inr ⟨p, v' ++ w, rfl, by simp [first, hp]⟩
  | alt g h ihg ihh =>
    rintro u a (hu | hu)
    · rcases ihg hu with ⟨rfl, hn⟩ | ⟨p, v, rfl, hp⟩
      · exact .inl ⟨rfl, by simp [nullable, hn]⟩
      · exact .inr ⟨p, v, rfl, by simp [first, hp]⟩
    · rcases ihh hu with ⟨rfl, hn⟩ | ⟨p, v, rfl, hp⟩
      · exact .inl ⟨rfl, by simp [nullable, hn]⟩
      · exact .inr ⟨p, v, rfl, by simp [first, hp]⟩
  | star g ih =>
    rintro u l ⟨us, rfl, hf⟩
    cases hf with
    | nil => exact .inl ⟨rfl, rfl⟩
    | @cons v a us l hv hf =>
      rcases ih hv.2 with ⟨rfl, -⟩ | ⟨p, v', rfl, hp⟩
      · exact absurd rfl hv.1
      · exact .inr ⟨p, v' ++ us.flatten, rfl, hp⟩
  | map f g ih => rintro u b ⟨a, ha, rfl⟩; exact ih ha
  | dict =>
    intro u e h
    obtain ⟨t, v, rfl⟩ := hD.start h
    exact .inr ⟨_, v, rfl, by simp [first]⟩

theorem predict_head {D : List Tok → Entries → Prop} (hD : DOk D) {α : Type} {g : G α}
    {F : List Kind} {u a r} (h : Parses D g u a) (hr : Fol F r) : Fol (predict g F) (u ++ r) := by
  intro p v e
  unfold predict
  rcases head_first hD g h with ⟨rfl, hn⟩ | ⟨q, w, rfl, hq⟩
  · simp only [List.nil_append] at e
    rw [hn, if_pos rfl]
    exact List.mem_append_right _ (hr p v e)
  · simp only [List.cons_append, List.cons.injEq] at e
    rw [← e.1]
    exact List.mem_append_left _ hq

theorem apart_false {D : List Tok → Entries → Prop} (hD : DOk D) {α β : Type} {g : G α} {h : G β}
    {F : List Kind} (hap : apart g h F = true) {u a r u' a' r'} (hg : Parses D g u a)
    (hh : Parses D h u' a') (e : u ++ r = u' ++ r') (hr : Fol F r) (hr' : Fol F r') : False := by
  simp only [apart, Bool.and_eq_true] at hap
  have h1 := predict_head hD hg hr
  have h2 := predict_head hD hh hr'
  cases hu : u ++ r with
  | nil =>
    have hu0 : u = [] := (List.append_eq_nil_iff.1 hu).1
    have hu0' : u' = [] := (List.append_eq_nil_iff.1 (e ▸ hu)).1
    subst hu0 hu0'
    rcases head_first hD g hg with ⟨-, n1⟩ | ⟨_, _, e1, _⟩
    · rcases head_first hD h hh with ⟨-, n2⟩ | ⟨_, _, e2, _⟩
      · simp [n1, n2] at hap
      · cases e2
    · cases e1
  | cons p v =>
    exact disj_false hap.2 (h1 p v hu) (h2 p v (e ▸ hu))

/-- Grammars that can be read from left to right are read in one way only. -/
theorem LL.det {D : List Tok → Entries → Prop} (hD : DOk D) {α : Type} {g : G α} {F : List Kind}
    (h : LL g F) : Det D g F := by
  induction h with
  | tok =>
    rintro u a r u' a' r' ⟨t, rfl, rfl⟩ ⟨t', rfl, rfl⟩ e - -
    simp at e
    simp [e.1]
  | eps =>
    rintro u a r u' a' r' ⟨rfl, rfl⟩ ⟨rfl, rfl⟩ - - -
    exact ⟨rfl, rfl⟩
  | @seq α β g h F _ _ ihg ihh =>
    rintro u ⟨a, b⟩ r u' ⟨a', b'⟩ r' ⟨v, w, rfl, hv, hw⟩ ⟨v', w', rfl, hv', hw'⟩ e hr hr'
    simp only [List.append_assoc] at e
    obtain ⟨rfl, ha⟩ := ihg _ _ _ _ _ _ hv hv' e (predict_head hD hw hr) (predict_head hD hw' hr')
    obtain ⟨rfl, hb⟩ := ihh _ _ _ _ _ _ hw hw' (List.append_cancel_left e) hr hr'
    exact ⟨rfl, Prod.ext ha hb⟩
  | @alt α g h F hap _ _ ihg ihh =>
    rintro u a r u' a' r' (hu | hu) (hu' | hu') e hr hr'
    · exact ihg _ _ _ _ _ _ hu hu' e hr hr'
    · exact (apart_false hD hap hu hu' e hr hr').elim
    · exact (apart_false hD hap hu' hu e.symm hr' hr).elim
    · exact ihh _ _ _ _ _ _ hu hu' e hr hr'
  | @star α g F hd _ ih =>
    rintro u l r u' l' r' ⟨us, rfl, hf⟩ ⟨us', rfl, hf'⟩ e hr hr'
    have key : ∀ {us : List (List Tok)} {l : List α} {r : List Tok},
        List.Forall₂ (fun v a => v ≠ [] ∧ Parses D g v a) us l → Fol F r →
        Fol (first g ++ F) (us.flatten ++ r) := by
      intro us l r hf hr p v e
      cases hf with
      | nil => exact List.mem_append_right _ (hr p v (by simpa using e))
      | @cons w a us l hw hf =>
        rcases head_first hD g hw.2 with ⟨rfl, -⟩ | ⟨q, w', rfl, hq⟩
        · exact absurd rfl hw.1
        · simp only [List.flatten_cons, List.cons_append, List.cons.injEq] at e
          rw [← e.1]
          exact List.mem_append_left _ hq
    have clash : ∀ {w : List Tok} {a : α} {r s : List Tok}, w ≠ [] → Parses D g w a →
        w ++ s = r → Fol F r → False := by
      intro w a r s hw hp e hr
      rcases head_first hD g hp with ⟨rfl, -⟩ | ⟨q, w', rfl, hq⟩
      · exact hw rfl
      · exact disj_false hd hq (hr q (w' ++ s) (by rw [← e]; rfl))
    induction hf generalizing us' l' with
    | nil =>
      cases hf' with
      | nil => exact ⟨rfl, rfl⟩
      | cons hw _ =>
        simp only [List.flatten_nil, List.nil_append, List.flatten_cons, List.append_assoc] at e
        exact (clash hw.1 hw.2 e.symm hr).elim
    | @cons w a us l hw hf ihs =>
      cases hf' with
      | nil =>
        simp only [List.flatten_nil, List.nil_append, List.flatten_cons, List.append_assoc] at e
        exact (clash hw.1 hw.2 e hr').elim
      | @cons w' a' us' l' hw' hf' =>
        simp only [List.flatten_cons, List.append_assoc] at e
        obtain ⟨rfl, ha⟩ := ih _ _ _ _ _ _ hw.2 hw'.2 e (key hf hr) (key hf' hr')
        obtain ⟨h1, h2⟩ := ihs l' us' hf' (List.append_cancel_left e)
        exact ⟨by rw [List.flatten_cons, List.flatten_cons, h1], by rw [ha, h2]⟩
  | @map α β f g F _ ih =>
    rintro u b r u' b' r' ⟨a, ha, rfl⟩ ⟨a', ha', rfl⟩ e hr hr'
    obtain ⟨h1, h2⟩ := ih _ _ _ _ _ _ ha ha' e hr hr'
    exact ⟨h1, by rw [h2]⟩
  | dict =>
    intro u e r u' e' r' h h' he _ _
    exact hD.det h h' he
  | @eqv α g h F hE _ ih =>
    intro u a r u' a' r' hu hu' e hr hr'
    exact ih _ _ _ _ _ _ ((hE _ _ _).1 hu) ((hE _ _ _).1 hu') e hr hr'

end Slat.Gram
