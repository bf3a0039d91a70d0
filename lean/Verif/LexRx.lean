import Verif.LexSpec
import Mathlib.Tactic.Common
import Mathlib.Data.List.TakeDrop

/-!
# Regular expressions: derivatives, the longest match and the rule taken
-/

namespace Slat.Lex

namespace Rx

theorem lang_empty (s : List Char) : ¬ Lang empty s := by intro h; cases h

theorem lang_eps_iff (s : List Char) : Lang eps s ↔ s = [] :=
  ⟨fun h => by cases h; rfl, fun h => h ▸ .eps⟩

theorem lang_sat_iff (f : Char → Bool) (s : List Char) :
    Lang (sat f) s ↔ ∃ c, s = [c] ∧ f c = true := by
  constructor
  · intro h; cases h with | sat h => exact ⟨_, rfl, h⟩
  · rintro ⟨c, rfl, h⟩; exact .sat h

theorem lang_alt_iff (a b : Rx) (s : List Char) : Lang (alt a b) s ↔ Lang a s ∨ Lang b s := by
  constructor
  · intro h
    cases h with
    | altL h => exact .inl h
    | altR h => exact .inr h
  · rintro (h | h)
    · exact .altL h
    · exact .altR h

theorem lang_seq_iff (a b : Rx) (s : List Char) :
    Lang (seq a b) s ↔ ∃ u v, s = u ++ v ∧ Lang a u ∧ Lang b v := by
  constructor
  · intro h; cases h with | seq h g => exact ⟨_, _, rfl, h, g⟩
  · rintro ⟨u, v, rfl, h, g⟩; exact .seq h g

theorem lang_chr_iff (c : Char) (s : List Char) : Lang (chr c) s ↔ s = [c] := by
  simp [chr, lang_sat_iff]

theorem lang_lit_iff (t s : List Char) : Lang (lit t) s ↔ s = t := by
  induction t generalizing s with
  | nil => exact lang_eps_iff s
  | cons c t ih =>
    rw [lit, lang_seq_iff]
    constructor
    · rintro ⟨u, v, rfl, h, g⟩
      rw [(lang_chr_iff _ _).1 h, (ih _).1 g]; rfl
    · rintro rfl
      exact ⟨[c], t, rfl, (lang_chr_iff _ _).2 rfl, (ih _).2 rfl⟩

theorem lang_opt_iff (a : Rx) (s : List Char) : Lang (opt a) s ↔ Lang a s ∨ s = [] := by
  rw [opt, lang_alt_iff, lang_eps_iff]

theorem nullable_iff (r : Rx) : nullable r = true ↔ Lang r [] := by
  induction r with
  | empty => simp [nullable, lang_empty]
  | eps => simp [nullable, Lang.eps]
  | sat f => simp [nullable, lang_sat_iff]
  | alt a b iha ihb => simp [nullable, lang_alt_iff, iha, ihb]
  | seq a b iha ihb =>
    simp only [nullable, Bool.and_eq_true, iha, ihb, lang_seq_iff]
    constructor
    · rintro ⟨h, g⟩; exact ⟨[], [], rfl, h, g⟩
    · rintro ⟨u, v, h, hu, hv⟩
      obtain ⟨rfl, rfl⟩ := List.append_eq_nil_iff.1 h.symm
      exact ⟨hu, hv⟩
  | star a => simp [nullable, Lang.nil]

theorem mkAlt_lang (a b : Rx) (s : List Char) : Lang (mkAlt a b) s ↔ Lang a s ∨ Lang b s := by
  cases a <;> cases b <;> simp [mkAlt, lang_alt_iff, lang_empty]

theorem mkSeq_lang (a b : Rx) (s : List Char) :
    Lang (mkSeq a b) s ↔ ∃ u v, s = u ++ v ∧ Lang a u ∧ Lang b v := by
  cases a <;> cases b <;> simp [mkSeq, lang_seq_iff, lang_empty, lang_eps_iff]

theorem lang_star_cons_iff (a : Rx) (c : Char) (s : List Char) :
    Lang (star a) (c :: s) ↔ ∃ u v, s = u ++ v ∧ Lang a (c :: u) ∧ Lang (star a) v := by
  constructor
  · intro h
    generalize hr : star a = r at h
    generalize hw : c :: s = w at h
    induction h with
    | eps | sat _ | altL _ | altR _ | seq _ _ => cases hr
    | nil => cases hw
    | @cons a' u v hu hv _ ihv =>
      cases hr
      cases u with
      | nil => exact ihv rfl (by simpa using hw)
      | cons d u =>
        simp only [List.cons_append, List.cons.injEq] at hw
        obtain ⟨rfl, rfl⟩ := hw
        exact ⟨u, v, rfl, hu, hv⟩
  · rintro ⟨u, v, rfl, hu, hv⟩
    exact .cons hu hv

theorem deriv_lang (c : Char) (r : Rx) (s : List Char) :
    Lang (deriv c r) s ↔ Lang r (c :: s) := by
  induction r generalizing s with
  | empty => simp [deriv, lang_empty]
  | eps => simp [deriv, lang_empty, lang_eps_iff]
  | sat f =>
    by_cases h : f c = true
    · simp [deriv, h, lang_eps_iff, lang_sat_iff]
    · simp [deriv, h, lang_empty, lang_sat_iff]
  | alt a b iha ihb => simp [deriv, mkAlt_lang, lang_alt_iff, iha, ihb]
  | seq a b iha ihb =>
    have key : Lang (seq a b) (c :: s) ↔
        (∃ u v, s = u ++ v ∧ Lang a (c :: u) ∧ Lang b v) ∨ (Lang a [] ∧ Lang b (c :: s)) := by
      rw [lang_seq_iff]
      constructor
      · rintro ⟨u, v, h, hu, hv⟩
        cases u with
        | nil =>
          right
          rw [List.nil_append] at h
          rw [h]; exact ⟨hu, hv⟩
        | cons d u =>
          left
          simp only [List.cons_append, List.cons.injEq] at h
          obtain ⟨rfl, rfl⟩ := h
          exact ⟨u, v, rfl, hu, hv⟩
      · rintro (⟨u, v, rfl, hu, hv⟩ | ⟨hu, hv⟩)
        · exact ⟨c :: u, v, rfl, hu, hv⟩
        · exact ⟨[], c :: s, rfl, hu, hv⟩
    rw [key, deriv]
    by_cases h : nullable a = true
    · rw [if_pos h, mkAlt_lang, mkSeq_lang, ihb]
      simp only [iha, (nullable_iff a).1 h, true_and]
    · rw [if_neg h, mkSeq_lang]
      rw [nullable_iff] at h
      simp only [iha, h, false_and, or_false]
  | star a iha =>
    rw [deriv, mkSeq_lang, lang_star_cons_iff]
    simp only [iha]

/-- `longest` gives the length of the longest start of the text that is in the language. -/
theorem longest_spec (r : Rx) (s : List Char) :
    match longest r s with
    | some n => n ≤ s.length ∧ Lang r (s.take n) ∧ ∀ m ≤ s.length, Lang r (s.take m) → m ≤ n
    | none => ∀ m ≤ s.length, ¬ Lang r (s.take m) := by
  induction s generalizing r with
  | nil =>
    have key : ∀ r : Rx, longest r [] = if nullable r then some 0 else none := by
      intro r; cases r <;> rfl
    rw [key]
    by_cases h : nullable r = true
    · simp [h, (nullable_iff r).1 h]
    · simp only [h, Bool.false_eq_true, if_false]
      rw [nullable_iff] at h
      simpa using h
  | cons c s ih =>
    have key : ∀ r : Rx, longest r (c :: s) = match longest (deriv c r) s with
        | some n => some (n + 1)
        | none => if nullable r then some 0 else none := by
      intro r
      cases r <;> try rfl
      have e : ∀ u, longest empty u = none := fun u => by cases u <;> rfl
      simp [deriv, e, nullable]
    have h := ih (deriv c r)
    rw [key]
    cases hl : longest (deriv c r) s with
    | some n =>
      rw [hl] at h
      obtain ⟨h1, h2, h3⟩ := h
      refine ⟨by simpa using h1, by simpa [deriv_lang] using h2, ?_⟩
      intro m hm hL
      cases m with
      | zero => omega
      | succ m =>
        have := h3 m (by simpa using hm) (by simpa [deriv_lang] using hL)
        omega
    | none =>
      rw [hl] at h
      have h' : ∀ m ≤ s.length, ¬ Lang r (c :: s.take m) := fun m hm => by
        rw [← deriv_lang]; exact h m hm
      by_cases hn : nullable r = true
      · simp only [hn, if_true]
        refine ⟨Nat.zero_le _, by simpa using (nullable_iff r).1 hn, ?_⟩
        intro m hm hL
        cases m with
        | zero => exact Nat.le_refl _
        | succ m => exact absurd (by simpa using hL) (h' m (by simpa using hm))
      · simp only [hn, Bool.false_eq_true, if_false]
        rw [nullable_iff] at hn
        intro m hm hL
        cases m with
        | zero => exact hn (by simpa using hL)
        | succ m => exact h' m (by simpa using hm) (by simpa using hL)

theorem longest_some {r : Rx} {s : List Char} {n : Nat} (h : longest r s = some n) :
    n ≤ s.length ∧ Lang r (s.take n) ∧ ∀ m ≤ s.length, Lang r (s.take m) → m ≤ n := by
  have := longest_spec r s; rw [h] at this; exact this

theorem longest_none {r : Rx} {s : List Char} (h : longest r s = none) :
    ∀ m ≤ s.length, ¬ Lang r (s.take m) := by
  have := longest_spec r s; rw [h] at this; exact this

/-- Every set of characters in the expression has a member. -/
def NonVoid : Rx → Prop
  | empty => True
  | eps => True
  | sat f => ∃ c, f c = true
  | alt a b => NonVoid a ∧ NonVoid b
  | seq a b => NonVoid a ∧ NonVoid b
  | star a => NonVoid a

theorem dead_iff (r : Rx) (h : NonVoid r) : dead r = true ↔ ∀ s, ¬ Lang r s := by
  induction r with
  | empty => simp [dead, lang_empty]
  | eps => simp [dead, lang_eps_iff]
  | sat f =>
    obtain ⟨c, hc⟩ := h
    simp only [dead, Bool.false_eq_true, false_iff, not_forall, not_not]
    exact ⟨[c], .sat hc⟩
  | alt a b iha ihb =>
    simp only [dead, Bool.and_eq_true, iha h.1, ihb h.2, lang_alt_iff, not_or, forall_and]
  | seq a b iha ihb =>
    simp only [dead, Bool.or_eq_true, iha h.1, ihb h.2, lang_seq_iff]
    constructor
    · rintro (g | g) s ⟨u, v, -, hu, hv⟩
      · exact g u hu
      · exact g v hv
    · intro g
      by_contra hc
      simp only [not_or, not_forall, not_not] at hc
      obtain ⟨⟨u, hu⟩, v, hv⟩ := hc
      exact g _ ⟨u, v, rfl, hu, hv⟩
  | star a =>
    simp only [dead, Bool.false_eq_true, false_iff, not_forall, not_not]
    exact ⟨[], .nil⟩

theorem mkAlt_inhabited {a b : Rx} (ha : NonVoid a) (hb : NonVoid b) :
    NonVoid (mkAlt a b) := by
  cases a <;> cases b <;> simp_all [mkAlt, NonVoid]

theorem mkSeq_inhabited {a b : Rx} (ha : NonVoid a) (hb : NonVoid b) :
    NonVoid (mkSeq a b) := by
  cases a <;> cases b <;> simp_all [mkSeq, NonVoid]

theorem deriv_inhabited (c : Char) (r : Rx) (h : NonVoid r) : NonVoid (deriv c r) := by
  induction r with
  | empty | eps => trivial
  | sat f => simp only [deriv]; split <;> trivial
  | alt a b iha ihb => exact mkAlt_inhabited (iha h.1) (ihb h.2)
  | seq a b iha ihb =>
    simp only [deriv]
    split
    · exact mkAlt_inhabited (mkSeq_inhabited (iha h.1) h.2) (ihb h.2)
    · exact mkSeq_inhabited (iha h.1) h.2
  | star a iha => exact mkSeq_inhabited (iha h) h

/-! ### Stars and repetitions of sets -/

theorem star_sat_iff (f : Char → Bool) (s : List Char) :
    Lang (star (sat f)) s ↔ ∀ c ∈ s, f c = true := by
  induction s with
  | nil => simp [Lang.nil]
  | cons c s ih =>
    rw [lang_star_cons_iff]
    constructor
    · rintro ⟨u, v, rfl, hu, hv⟩
      obtain ⟨d, hd, hf⟩ := (lang_sat_iff _ _).1 hu
      simp only [List.cons.injEq] at hd
      obtain ⟨rfl, rfl⟩ := hd
      intro e he
      rcases List.mem_cons.1 he with rfl | he
      · exact hf
      · exact ih.1 hv e (by simpa using he)
    · intro h
      exact ⟨[], s, rfl, .sat (h c (by simp)), ih.2 fun d hd => h d (by simp [hd])⟩

theorem plus_sat_iff (f : Char → Bool) (s : List Char) :
    Lang (plus (sat f)) s ↔ s ≠ [] ∧ ∀ c ∈ s, f c = true := by
  rw [plus, lang_seq_iff]
  constructor
  · rintro ⟨u, v, rfl, hu, hv⟩
    obtain ⟨c, rfl, hc⟩ := (lang_sat_iff _ _).1 hu
    rw [star_sat_iff] at hv
    refine ⟨by simp, ?_⟩
    intro d hd
    rcases List.mem_cons.1 (by simpa using hd) with rfl | hd
    · exact hc
    · exact hv d hd
  · rintro ⟨hne, h⟩
    cases s with
    | nil => exact absurd rfl hne
    | cons c s =>
      exact ⟨[c], s, rfl, .sat (h c (by simp)),
        (star_sat_iff _ _).2 fun d hd => h d (by simp [hd])⟩

theorem star_alt_sat_iff (f g : Char → Bool) (s : List Char) :
    Lang (star (alt (sat f) (sat g))) s ↔ ∀ c ∈ s, f c = true ∨ g c = true := by
  induction s with
  | nil => simp [Lang.nil]
  | cons c s ih =>
    rw [lang_star_cons_iff]
    constructor
    · rintro ⟨u, v, rfl, hu, hv⟩
      rw [lang_alt_iff, lang_sat_iff, lang_sat_iff] at hu
      have : u = [] ∧ (f c = true ∨ g c = true) := by
        rcases hu with ⟨d, hd, hf⟩ | ⟨d, hd, hf⟩ <;>
        · simp only [List.cons.injEq] at hd
          obtain ⟨rfl, rfl⟩ := hd
          simp [hf]
      obtain ⟨rfl, hc⟩ := this
      intro e he
      rcases List.mem_cons.1 he with rfl | he
      · exact hc
      · exact ih.1 hv e (by simpa using he)
    · intro h
      refine ⟨[], s, rfl, ?_, ih.2 fun d hd => h d (by simp [hd])⟩
      rcases h c (by simp) with h | h
      · exact .altL (.sat h)
      · exact .altR (.sat h)

end Rx

open Rx

/-! ## The rule taken -/

theorem best_none {rs : List (Kind × Rx)} {s : List Char} (h : best rs s = none) :
    ∀ p ∈ rs, ∀ m ≤ s.length, ¬ p.2.Lang (s.take m) := by
  induction rs with
  | nil => simp
  | cons p rs ih =>
    obtain ⟨k, r⟩ := p
    rw [best] at h
    cases hl : longest r s with
    | none =>
      rw [hl] at h
      intro p hp
      rcases List.mem_cons.1 hp with rfl | hp
      · exact longest_none hl
      · exact ih h p hp
    | some n =>
      rw [hl] at h
      cases hb : best rs s with
      | none => rw [hb] at h; cases h
      | some q => rw [hb] at h; simp only at h; split at h <;> cases h

theorem best_takes {rs : List (Kind × Rx)} {s : List Char} {k : Kind} {n : Nat}
    (h : best rs s = some (k, n)) : Takes rs s k n := by
  induction rs generalizing k n with
  | nil => cases h
  | cons p rs ih =>
    obtain ⟨k', r⟩ := p
    rw [best] at h
    cases hl : longest r s with
    | none =>
      rw [hl] at h
      obtain ⟨b, r', a, rfl, hn, hL, hall, hbef⟩ := ih h
      refine ⟨(k', r) :: b, r', a, rfl, hn, hL, ?_, ?_⟩
      · intro p hp m hm hpm
        rcases List.mem_cons.1 hp with rfl | hp
        · exact absurd hpm (longest_none hl m hm)
        · exact hall p hp m hm hpm
      · intro p hp
        rcases List.mem_cons.1 hp with rfl | hp
        · exact longest_none hl n hn
        · exact hbef p hp
    | some m =>
      rw [hl] at h
      obtain ⟨l1, l2, l3⟩ := longest_some hl
      cases hb : best rs s with
      | none =>
        rw [hb] at h
        simp only [Option.some.injEq, Prod.mk.injEq] at h
        obtain ⟨rfl, rfl⟩ := h
        refine ⟨[], r, rs, rfl, l1, l2, ?_, by simp⟩
        intro p hp j hj hpj
        rcases List.mem_cons.1 hp with rfl | hp
        · exact l3 j hj hpj
        · exact absurd hpj (best_none hb p hp j hj)
      | some q =>
        obtain ⟨k2, n2⟩ := q
        rw [hb] at h
        obtain ⟨b, r', a, hrs, hn, hL, hall, hbef⟩ := ih hb
        simp only at h
        split at h
        · rename_i hlt
          simp only [Option.some.injEq, Prod.mk.injEq] at h
          obtain ⟨rfl, rfl⟩ := h
          refine ⟨(k', r) :: b, r', a, by rw [hrs]; rfl, hn, hL, ?_, ?_⟩
          · intro p hp j hj hpj
            rcases List.mem_cons.1 hp with rfl | hp
            · exact Nat.le_trans (l3 j hj hpj) (Nat.le_of_lt hlt)
            · exact hall p hp j hj hpj
          · intro p hp hpn
            rcases List.mem_cons.1 hp with rfl | hp
            · exact absurd (l3 n2 hn hpn) (by omega)
            · exact hbef p hp hpn
        · rename_i hlt
          simp only [Option.some.injEq, Prod.mk.injEq] at h
          obtain ⟨rfl, rfl⟩ := h
          refine ⟨[], r, rs, rfl, l1, l2, ?_, by simp⟩
          intro p hp j hj hpj
          rcases List.mem_cons.1 hp with rfl | hp
          · exact l3 j hj hpj
          · exact Nat.le_trans (hall p hp j hj hpj) (by omega)

/-- What has to be taken is determined by the rules and the text. -/
theorem takes_unique {rs : List (Kind × Rx)} {s : List Char} {k k' : Kind} {n n' : Nat}
    (h : Takes rs s k n) (h' : Takes rs s k' n') : k = k' ∧ n = n' := by
  obtain ⟨b, r, a, e, hn, hL, hall, hbef⟩ := h
  obtain ⟨b', r', a', e', hn', hL', hall', hbef'⟩ := h'
  have m1 : (k, r) ∈ rs := by rw [e]; simp
  have m2 : (k', r') ∈ rs := by rw [e']; simp
  have hnn : n = n' := Nat.le_antisymm (hall' _ m1 n hn hL) (hall _ m2 n' hn' hL')
  subst hnn
  refine ⟨?_, rfl⟩
  rw [e] at e'
  rcases List.append_eq_append_iff.1 e' with ⟨c, h1, h2⟩ | ⟨c, h1, h2⟩
  · cases c with
    | nil =>
      simp only [List.nil_append, List.cons.injEq, Prod.mk.injEq] at h2
      exact h2.1.1
    | cons x c =>
      simp only [List.cons_append, List.cons.injEq] at h2
      obtain ⟨rfl, -⟩ := h2
      exact absurd hL (hbef' (k, r) (by rw [h1]; simp))
  · cases c with
    | nil =>
      simp only [List.nil_append, List.cons.injEq, Prod.mk.injEq] at h2
      exact h2.1.1.symm
    | cons x c =>
      simp only [List.cons_append, List.cons.injEq] at h2
      obtain ⟨rfl, -⟩ := h2
      exact absurd hL' (hbef (k', r') (by rw [h1]; simp))

theorem best_iff (rs : List (Kind × Rx)) (s : List Char) (k : Kind) (n : Nat) :
    best rs s = some (k, n) ↔ Takes rs s k n := by
  refine ⟨best_takes, fun h => ?_⟩
  cases hb : best rs s with
  | none =>
    obtain ⟨b, r, a, e, hn, hL, -, -⟩ := h
    exact absurd hL (best_none hb (k, r) (by rw [e]; simp) n hn)
  | some q =>
    obtain ⟨k', n'⟩ := q
    obtain ⟨rfl, rfl⟩ := takes_unique h (best_takes hb)
    rfl

/-- A word that is taken by itself is taken before other text if no rule matches it together with
some of that text. -/
theorem best_append {rs : List (Kind × Rx)} {t s : List Char} {k : Kind}
    (h : best rs t = some (k, t.length))
    (hs : ∀ p ∈ rs, ∀ u v, u ≠ [] → s = u ++ v → ¬ p.2.Lang (t ++ u)) :
    best rs (t ++ s) = some (k, t.length) := by
  rw [best_iff] at h ⊢
  obtain ⟨b, r, a, e, hn, hL, hall, hbef⟩ := h
  rw [List.take_length] at hL
  have ht : (t ++ s).take t.length = t := by simp
  refine ⟨b, r, a, e, by simp, by rw [ht]; exact hL, ?_, ?_⟩
  · intro p hp m hm hpm
    by_contra hlt
    have hlt : t.length < m := by omega
    obtain ⟨j, rfl⟩ := Nat.exists_eq_add_of_lt hlt
    have e1 : (t ++ s).take (t.length + j + 1) = t ++ s.take (j + 1) := by
      rw [Nat.add_assoc, List.take_append]; simp
    rw [e1] at hpm
    refine hs p hp (s.take (j + 1)) (s.drop (j + 1)) ?_ (List.take_append_drop _ _).symm hpm
    intro h0
    rw [List.length_append] at hm
    have := congrArg List.length h0
    rw [List.length_take, List.length_nil] at this
    omega
  · rw [ht]
    intro p hp
    have := hbef p hp
    rwa [List.take_length] at this

/-- A text is taken whole by a rule that matches it if no earlier rule does. -/
theorem best_whole {rs b a : List (Kind × Rx)} {k : Kind} {r : Rx} {t : List Char}
    (e : rs = b ++ (k, r) :: a) (hL : r.Lang t) (hb : ∀ p ∈ b, ¬ p.2.Lang t) :
    best rs t = some (k, t.length) := by
  rw [best_iff]
  refine ⟨b, r, a, e, Nat.le_refl _, by rwa [List.take_length], fun _ _ m hm _ => hm, ?_⟩
  rwa [List.take_length]

end Slat.Lex
