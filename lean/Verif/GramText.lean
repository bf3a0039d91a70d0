import Verif.GramWrite
import Verif.LexWritten
import Mathlib.Data.Nat.Digits.Lemmas
import Mathlib.Tactic.Ring
import Mathlib.Tactic.FieldSimp

/-!
# Texts of commands

Lemmas for `GramProps`: the words of a command, with a blank after each, write its tokens; the values
of numbers.
-/

namespace Slat.Gram

open Slat.Lex (Kind)
open Slat.Interp

/-! ## Words -/

/-- A word that the lexer reads as it is meant. -/
def Good : Word → Prop
  | .tok k t => Lex.Whole k t ∧ ¬ "loglog".toList <+: t
  | .py e => Lex.Balanced e

theorem prefix_space {a t s : List Char} (ha : ' ' ∉ a) (h : a <+: t ++ ' ' :: s) : a <+: t := by
  rcases Nat.le_total a.length t.length with hl | hl
  · exact List.prefix_of_prefix_length_le h (List.prefix_append _ _) hl
  · have h2 : t <+: a := List.prefix_of_prefix_length_le (List.prefix_append t _) h hl
    obtain ⟨r, rfl⟩ := h2
    rw [List.prefix_append_right_inj] at h
    cases r with
    | nil => simp
    | cons c r =>
      rw [List.cons_prefix_cons] at h
      rw [h.1] at ha
      simp at ha

theorem good_no_loglog {w : Word} (h : Good w) (s : List Char) :
    ¬ "loglog".toList <+: w.text ++ ' ' :: s := by
  intro hp
  have := prefix_space (by decide) hp
  cases w with
  | tok k t => exact h.2 this
  | py e =>
    have h0 : ¬ "loglog".toList <+: '$' :: ('(' :: e ++ [')']) := by
      intro h0
      have : "loglog".toList = 'l' :: "oglog".toList := rfl
      rw [this, List.cons_prefix_cons] at h0
      exact absurd h0.1 (by decide)
    exact h0 this

theorem text_cons (w : Word) (l : List Word) : text (w :: l) = w.text ++ ' ' :: text l := by
  simp [text]

/-- Good words with blanks write their tokens. -/
theorem written_text (l : List Word) (h : ∀ w ∈ l, Good w) : Lex.Written (toks l) (text l) := by
  induction l with
  | nil => exact .nil
  | cons w l ih =>
    have hl := ih fun w hw => h w (by simp [hw])
    have hb : Lex.Written (toks l) (' ' :: text l) := by
      refine .blank (.inl rfl) ?_ hl
      intro hp
      have : " loglog".toList = ' ' :: "loglog".toList := rfl
      rw [this, List.cons_prefix_cons] at hp
      cases l with
      | nil => simp [text] at hp
      | cons w' l =>
        rw [text_cons] at hp
        exact good_no_loglog (h w' (by simp)) _ hp.2
    rw [text_cons]
    have hw := h w (by simp)
    cases w with
    | tok k t =>
      refine .tok hw.1 ?_ hb
      intro l c _ hc
      simp only [List.head?_cons, Option.some.injEq] at hc
      subst hc
      exact ⟨fun _ hj => absurd ((Lex.joins_iff _).2 hj) (by decide), fun _ => by decide⟩
    | py e =>
      have := Lex.Written.python hw hb
      simpa [toks, Word.tokens, Word.text] using this

theorem vocabulary_no_loglog : ∀ q ∈ Lex.vocabulary, ¬ "loglog".toList <+: q.2.toList := by
  decide +kernel

theorem good_kw {k : Kind} {s : String} (h : (k, s) ∈ Lex.vocabulary) : Good (kw k s) :=
  ⟨.word h, vocabulary_no_loglog _ h⟩

theorem good_loglog : Good (kw .LOGLOG " loglog") := ⟨.loglog, by decide⟩

theorem good_name {s : String} (h : OkName s) : Good (name s) := ⟨.name h.1 h.2.1, h.2.2⟩

theorem starts_l {t : List Char} (h : "loglog".toList <+: t) : ∃ r, t = 'l' :: r := by
  obtain ⟨r, rfl⟩ := h
  exact ⟨"oglog".toList ++ r, rfl⟩

theorem good_str {s : String} (h : OkStr s) : Good (str s) := by
  refine ⟨h, fun hp => ?_⟩
  obtain ⟨r, e⟩ := starts_l hp
  unfold OkStr at h
  rw [e] at h
  generalize hk : Kind.STRING = k at h
  generalize ht : 'l' :: r = t at h
  cases h with
  | word hm =>
    have : ∀ q ∈ Lex.vocabulary, q.1 ≠ .STRING := by decide +kernel
    exact this _ hm hk.symm
  | loglog => cases hk
  | integer _ => cases hk
  | name _ _ => cases hk
  | number _ _ _ => cases hk
  | path _ _ _ => cases hk
  | single _ => simp at ht
  | double _ => simp at ht

theorem good_py {s : String} (h : OkPy s) : Good (py s) := h

theorem good_i {p : Pen} {n : ℕ} (h : p.OkI n) : Good (p.i n) := by
  refine ⟨.integer h.1, fun hp => ?_⟩
  obtain ⟨r, e⟩ := starts_l hp
  have := h.1.2 'l' (by rw [e]; simp)
  exact absurd this (by decide)

theorem number_head {t : List Char} (h : Lex.IsNumber t) (c : Char) (hc : t.head? = some c) :
    c.isDigit = true ∨ c = '+' ∨ c = '-' ∨ c = '.' := by
  obtain ⟨g, m, x, hg, hm, -, rfl⟩ := h
  rcases hg with rfl | rfl | rfl
  · have hd : ∀ {a r : List Char}, Lex.Digits a → (a ++ r).head? = some c → c.isDigit = true := by
      intro a r ha h
      cases a with
      | nil => exact absurd rfl ha.1
      | cons d a =>
        simp only [List.cons_append, List.head?_cons, Option.some.injEq] at h
        rw [← h]
        exact ha.2 d (by simp)
    rcases hm with hm | ⟨a, ha, rfl⟩ | ⟨a, b, ha, -, rfl⟩ | ⟨b, -, rfl⟩
    · exact .inl (hd hm hc)
    · rw [List.nil_append, List.append_assoc] at hc
      exact .inl (hd ha hc)
    · rw [List.nil_append, List.append_assoc] at hc
      exact .inl (hd ha hc)
    · simp at hc
      exact .inr (.inr (.inr hc.symm))
  · simp at hc
    exact .inr (.inl hc.symm)
  · simp at hc
    exact .inr (.inr (.inl hc.symm))

theorem good_f {p : Pen} {x : ℚ} (h : p.OkF x) : Good (p.f x) := by
  refine ⟨h.1, fun hp => ?_⟩
  obtain ⟨r, e⟩ := starts_l hp
  have h := h.1
  rw [e] at h
  generalize hk : Kind.FLOAT_VAL = k at h
  generalize ht : 'l' :: r = t at h
  cases h with
  | word hm =>
    have : ∀ q ∈ Lex.vocabulary, q.1 ≠ .FLOAT_VAL := by decide +kernel
    exact this _ hm hk.symm
  | loglog => cases hk
  | integer _ => cases hk
  | name _ _ => cases hk
  | number hn _ _ =>
    subst ht
    rcases number_head hn 'l' rfl with h | h | h | h <;> exact absurd h (by decide)
  | path _ _ _ => cases hk
  | single _ => cases hk
  | double _ => cases hk

theorem good_file {s : String} (h : OkFile s) : Good (file s) := by
  unfold file
  unfold OkFile at h
  split
  · rename_i hs
    rw [if_pos hs] at h
    refine ⟨.path h.1 ?_ ?_, h.2⟩
    · rintro ⟨c, r, e, hc, hr⟩
      rw [e] at hs
      have : Lex.NameChar '/' := by
        rcases List.mem_cons.1 hs with hs | hs
        · rw [hs]; exact .inl hc
        · exact hr _ hs
      rcases this with (h | h | h) | h <;> exact absurd h (by decide)
    · intro hn
      have hd : ∀ {a : List Char}, Lex.Digits a → '/' ∉ a := fun ha hm =>
        absurd (ha.2 _ hm) (by decide)
      obtain ⟨g, m, x, hg, hm, hx, e⟩ := hn
      rw [e, List.mem_append, List.mem_append] at hs
      have hsg : ∀ {g : List Char}, Lex.Sign g → '/' ∉ g := by
        rintro g (rfl | rfl | rfl) <;> decide
      rcases hs with (hs | hs) | hs
      · exact hsg hg hs
      · rcases hm with hm | ⟨a, ha, rfl⟩ | ⟨a, b, ha, hb, rfl⟩ | ⟨b, hb, rfl⟩
        · exact hd hm hs
        · simp [hd ha] at hs
        · simp [hd ha, hd hb] at hs
        · simp [hd hb] at hs
      · rcases hx with rfl | ⟨c, g', d, hc, hg', hd', rfl⟩
        · simp at hs
        · rcases hc with rfl | rfl <;> simp [hd hd', hsg hg'] at hs
  · rename_i hs
    rw [if_neg hs] at h
    exact good_name h

/-! ## Rows of words -/

/-- All words are good. -/
def AllGood (l : List Word) : Prop := ∀ w ∈ l, Good w

theorem ag_nil : AllGood [] := by simp [AllGood]

theorem ag_cons {w : Word} {l : List Word} (h : Good w) (hl : AllGood l) : AllGood (w :: l) := by
  intro v hv
  rcases List.mem_cons.1 hv with rfl | hv
  · exact h
  · exact hl v hv

theorem ag_append {l l' : List Word} (h : AllGood l) (h' : AllGood l') : AllGood (l ++ l') := by
  intro v hv
  rcases List.mem_append.1 hv with hv | hv
  · exact h v hv
  · exact h' v hv

/-- Keywords: look them up. -/
macro "kwd" : tactic => `(tactic| exact good_kw (by decide +kernel))

theorem ag_sep {α : Type} {w : α → List Word} {l : List α} (h : ∀ a ∈ l, AllGood (w a)) :
    AllGood (sep (l.map w)) := by
  cases l with
  | nil => exact ag_nil
  | cons a l =>
    rw [List.map_cons, sep]
    refine ag_append (h a (by simp)) ?_
    have h' : ∀ a ∈ l, AllGood (w a) := fun a ha => h a (by simp [ha])
    clear h
    induction l with
    | nil => exact ag_nil
    | cons b l ih =>
      rw [List.map_cons, List.flatMap_cons]
      exact ag_append (ag_cons (by kwd) (h' b (by simp))) (ih fun a ha => h' a (by simp [ha]))

theorem ag_bracket {l : List Word} (h : AllGood l) : AllGood (bracket l) :=
  ag_append (ag_cons (by kwd) h) (ag_cons (by kwd) ag_nil)

theorem ag_dollar {x : String} (h : OkName x) : AllGood (dollar x) :=
  ag_cons (by kwd) (ag_cons (good_name h) ag_nil)

theorem ag_one {w : Word} (h : Good w) : AllGood [w] := ag_cons h ag_nil

theorem ag_num {p : Pen} {n : Num} (h : OkNum p n) : AllGood (writeNum p n) := by
  cases n with
  | int n => exact ag_one (good_i h)
  | flt x => exact ag_one (good_f h)
  | py e => exact ag_one (good_py h)
  | var x => exact ag_dollar h

theorem ag_sc {p : Pen} {n : Sc} (h : OkSc p n) : AllGood (writeSc p n) := by
  cases n with
  | str t => exact ag_one (good_str h)
  | num n => exact ag_num h

theorem ag_sc2 {p : Pen} {q : Sc2} (h : OkSc2 p q) : AllGood (writeSc2 p q) :=
  ag_append (ag_sc h.1) (ag_cons (by kwd) (ag_sc h.2))

theorem ag_pairs {p : Pen} {l : List Sc2} (h : ∀ q ∈ l, OkSc2 p q) : AllGood (writePairs p l) :=
  ag_sep fun q hq => ag_bracket (ag_sc2 (h q hq))

theorem good_param {p : Pen} {q : Param} (h : OkParam p q) : Good (writeParam p q) := by
  cases q with
  | id t => exact good_name h
  | str t => exact good_str h
  | int n => exact good_i h
  | flt x => exact good_f h

mutual
theorem ag_params {p : Pen} : ∀ {q : Params}, OkParams p q → AllGood (writeParams p q)
  | .one q, h => by
    rw [OkParams] at h
    rw [writeParams]
    exact ag_one (good_param h)
  | .arr l, h => by
    rw [OkParams] at h
    rw [writeParams]
    exact ag_bracket (ag_sep fun q hq => ag_one (good_param (h.2 q hq)))
  | .dict .nil, h => by rw [OkParams] at h; exact h.elim
  | .dict (.cons b k v r), h => by
    rw [OkParams] at h
    have he := ag_entries h
    rw [writeParams]
    refine ag_append (ag_cons (by kwd) ?_) (ag_one (by kwd))
    have := ag_sep (w := id) he
    simpa using this
theorem ag_entries {p : Pen} : ∀ {r : Entries}, OkEntries p r →
    ∀ l ∈ writeEntries p r, AllGood l
  | .nil, _ => by rw [writeEntries]; simp
  | .cons b k v r, h => by
    rw [OkEntries] at h
    have hv := ag_params h.2.1
    have hr := ag_entries h.2.2
    rw [writeEntries]
    intro l hl
    rcases List.mem_cons.1 hl with rfl | hl
    · refine ag_cons ?_ (ag_cons (by kwd) hv)
      cases b
      · exact good_name h.1
      · exact good_str h.1
    · exact hr l hl
end

theorem ag_fn {f : FnRef} (h : OkFn f) : AllGood (writeFn f) := by
  cases f with
  | id t => exact ag_one (good_name h)
  | var x => exact ag_dollar h

theorem ag_intArg {p : Pen} {n : IntArg} (h : OkIntArg p n) : AllGood (writeIntArg p n) := by
  cases n with
  | int n => exact ag_one (good_i h)
  | var x => exact ag_dollar h
  | py e => exact ag_one (good_py h)

theorem good_mu (m : Mu) : Good (writeMu m) := by cases m <;> kwd

theorem good_sd (m : Sd) : Good (writeSd m) := by cases m <;> kwd

theorem ag_opts (b : Bool) (o : LnOpts) : AllGood (writeOpts b o) := by
  have h1 : AllGood (writeMuOpt o.mu) := by
    cases o.mu with
    | none => exact ag_nil
    | some m => exact ag_cons (by kwd) (ag_one (good_mu m))
  have h2 : AllGood (writeSdOpt o.sd) := by
    cases o.sd with
    | none => exact ag_nil
    | some m => exact ag_cons (by kwd) (ag_one (good_sd m))
  unfold writeOpts
  split
  · exact ag_append h2 h1
  · exact ag_append h1 h2

theorem ag_at {p : Pen} {a : At} (h : OkAt p a) : AllGood (writeAt p a) := by
  cases a with
  | floats l => exact ag_sep fun x hx => ag_one (good_f (h.2 x hx))
  | range a i b =>
    exact ag_cons (good_f h.1) (ag_cons (by kwd) (ag_cons (good_f h.2.1) (ag_cons (by kwd)
      (ag_one (good_f h.2.2)))))
  | py e => exact ag_one (good_py h)
  | var x => exact ag_dollar h
  | counted a b log n =>
    refine ag_cons (good_f h.1) (ag_cons (by kwd) (ag_cons (good_f h.2.1) (ag_cons ?_
      (ag_one (good_i h.2.2)))))
    cases log <;> kwd

theorem ag_cols {p : Pen} {c : Option (List Col)} (h : OkCols p c) : AllGood (writeCols p c) := by
  cases c with
  | none => exact ag_nil
  | some l =>
    refine ag_cons (by kwd) (ag_sep fun q hq => ?_)
    have := (h l rfl).2 q hq
    cases q with
    | placement m => exact ag_one (good_mu m)
    | spread m => exact ag_one (good_sd m)
    | scalar s => exact ag_sc this

theorem ag_to {b : Bool} {o : Option PrintOpts} (h : OkTo o) : AllGood (writeTo b o) := by
  rcases o with _ | ⟨f, a⟩
  · exact ag_nil
  · refine ag_cons (good_file (h _ rfl)) ?_
    cases a
    · cases b
      · exact ag_nil
      · exact ag_one (by kwd)
    · exact ag_one (by kwd)

theorem ag_what {w : PrintWhat} (h : OkWhat w) : AllGood (writeWhat w) := by
  cases w with
  | emptyMessage => exact ag_one (by kwd)
  | message t => exact ag_cons (by kwd) (ag_one (good_str h))
  | messagePy e => exact ag_cons (by kwd) (ag_one (good_py h))
  | messageVar x => exact ag_cons (by kwd) (ag_dollar h)
  | title => exact ag_one (by kwd)
  | function k i =>
    obtain ⟨hk, hi⟩ := h
    refine ag_cons ?_ (ag_one (good_name hi))
    simp only [List.mem_cons, List.not_mem_nil, or_false] at hk
    rcases hk with rfl | rfl | rfl | rfl | rfl | rfl | rfl <;> kwd

theorem ag_body {p : Pen} {y : Bool} {b : RecBody} (h : OkBody p b) : AllGood (writeBody p y b) := by
  cases b with
  | fn t i a c =>
    refine ag_append (ag_cons ?_ (ag_cons (good_name h.1) (ag_at h.2.1))) (ag_cols h.2.2)
    cases t <;> kwd
  | dsrate i => exact ag_cons (by kwd) (ag_one (good_name h))
  | collrate i => exact ag_cons (by kwd) (ag_one (good_name h))
  | rates t i a =>
    refine ag_cons ?_ (ag_cons (good_name h.1) (ag_at h.2))
    cases t <;> kwd
  | pdf i a n =>
    refine ag_append (ag_cons (by kwd) (ag_cons (good_name h.1) (ag_at h.2))) ?_
    cases n
    · exact ag_nil
    · exact ag_one (by kwd)
  | npv i a b c r =>
    exact ag_cons (by kwd) (ag_cons (good_name h.1) (ag_cons (by kwd) (ag_cons (good_i h.2.1)
      (ag_cons (by kwd) (ag_cons (good_i h.2.2.1) (ag_cons (by kwd) (ag_cons (good_i h.2.2.2.1)
        (ag_one (good_f h.2.2.2.2)))))))))
  | by_ t i a c =>
    refine ag_append (ag_cons (by kwd) (ag_cons (good_name h.1) (ag_cons ?_ (ag_at h.2.1))))
      (ag_cols h.2.2)
    cases t <;> kwd
  | annual i o c =>
    exact ag_append (ag_cons (by kwd) (ag_cons (good_name h.1) (ag_cons (by kwd) (ag_opts y o))))
      (ag_cols h.2)

theorem ag_map {α : Type} {w : α → Word} {l : List α} (h : ∀ a ∈ l, Good (w a)) :
    AllGood (l.map w) := by
  intro v hv
  obtain ⟨a, ha, rfl⟩ := List.mem_map.1 hv
  exact h a ha

theorem ag_cmd {p : Pen} (y : Style) {c : Cmd} (h : OkCmd p c) : AllGood (writeCmd p y c) := by
  cases c with
  | title t => exact ag_cons (by kwd) (ag_one (good_str h))
  | detfnHyperbolic i q c =>
    exact ag_append (ag_cons (by kwd) (ag_cons (good_name h.1) (ag_cons (by kwd) (ag_sc2 h.2.1))))
      (ag_cons (by kwd) (ag_sc h.2.2))
  | detfnPowerlaw i q =>
    exact ag_cons (by kwd) (ag_cons (good_name h.1) (ag_cons (by kwd) (ag_sc2 h.2)))
  | detfnLoglog i l =>
    exact ag_cons (by kwd) (ag_cons (good_name h.1) (ag_cons good_loglog (ag_pairs h.2.2)))
  | detfnLinear i l =>
    exact ag_cons (by kwd) (ag_cons (good_name h.1) (ag_cons (by kwd) (ag_pairs h.2.2)))
  | probfn i m s o =>
    exact ag_append (ag_append (ag_cons (by kwd) (ag_cons (good_name h.1) (ag_cons (by kwd)
      (ag_fn h.2.1)))) (ag_cons (by kwd) (ag_fn h.2.2))) (ag_opts y.swap o)
  | im i f => exact ag_cons (by kwd) (ag_cons (good_name h.1) (ag_one (good_name h.2)))
  | edp i m f => exact ag_cons (by kwd) (ag_cons (good_name h.1) (ag_cons (good_name h.2.1)
      (ag_one (good_name h.2.2))))
  | dist k i q o =>
    refine ag_append (ag_cons ?_ (ag_cons (good_name h.1) (ag_sc2 h.2))) (ag_opts y.swap o)
    cases k <;> kwd
  | fragfnDb i f k =>
    cases f with
    | none => exact ag_cons (by kwd) (ag_cons (good_name h.1) (ag_cons (by kwd)
        (ag_one (good_name h.2.2))))
    | some f =>
      have hf := good_file (h.2.1 f rfl)
      refine ag_cons (by kwd) (ag_cons (good_name h.1) ?_)
      split
      · exact ag_cons (by kwd) (ag_cons hf (ag_cons (by kwd) (ag_one (good_name h.2.2))))
      · exact ag_cons (by kwd) (ag_cons (good_name h.2.2) (ag_cons (by kwd) (ag_one hf)))
  | fragfnUser i l o =>
    exact ag_append (ag_cons (by kwd) (ag_cons (good_name h.1) (ag_pairs h.2.2))) (ag_opts y.swap o)
  | lossSimple i l o =>
    exact ag_append (ag_cons (by kwd) (ag_cons (good_name h.1) (ag_cons (by kwd) (ag_pairs h.2.2))))
      (ag_opts y.swap o)
  | lossBilevel i l =>
    refine ag_cons (by kwd) (ag_cons (good_name h.1) (ag_cons (by kwd) (ag_sep fun b hb => ?_)))
    obtain ⟨ha, hb, hc, hd, he⟩ := h.2.2 b hb
    refine ag_bracket (ag_sep (w := id)
      (l := [writeNum p b.a, writeNum p b.b, writeNum p b.c, writeNum p b.d, writeNum p b.e]) ?_ |>
        fun q => by simpa using q)
    simp [ag_num ha, ag_num hb, ag_num hc, ag_num hd, ag_num he]
  | compgroup i e f c d n l =>
    obtain ⟨h1, h2, h3, h4, h5, hn, hl, hx⟩ := h
    refine ag_cons (by kwd) (ag_cons (good_name h1) (ag_cons (good_name h2) (ag_cons (good_name h3)
      (ag_cons (good_name h4) (ag_append (ag_map fun s hs => good_name (h5 s (by simpa using hs)))
        (ag_cons (good_i hn) (ag_map fun x hx' => good_f (hx x hx'))))))))
  | structure_ i l =>
    exact ag_cons (by kwd) (ag_cons (good_name h.1) (ag_sep fun g hg => ag_one
      (good_name (h.2.2 g hg))))
  | print w o => exact ag_append (ag_cons (by kwd) (ag_what h.1)) (ag_to h.2)
  | integration a n s =>
    cases s with
    | none => exact ag_append (ag_cons (by kwd) (ag_cons (by kwd) (ag_num h.1))) (ag_intArg h.2.1)
    | some q =>
      refine ag_append (ag_cons (by kwd) (ag_cons (by kwd) (ag_num h.1))) (ag_append
        (ag_intArg h.2.1) (ag_cons ?_ (ag_intArg (h.2.2 q rfl))))
      cases q.1 <;> kwd
  | recorder r b o =>
    exact ag_append (ag_cons (by kwd) (ag_cons (good_name h.1) (ag_body h.2.1))) (ag_to h.2.2)
  | analyze => exact ag_one (by kwd)
  | set x v =>
    cases v with
    | py e => exact ag_cons (by kwd) (ag_cons (good_name h.1) (ag_one (good_py h.2)))
    | var v => exact ag_cons (by kwd) (ag_cons (good_name h.1) (ag_dollar h.2))
    | params q => exact ag_cons (by kwd) (ag_cons (good_name h.1) (ag_params h.2))
  | importProbfn i f => exact ag_cons (by kwd) (ag_cons (good_name h.1) (ag_one (good_file h.2)))
  | importIm i f => exact ag_cons (by kwd) (ag_cons (good_name h.1) (ag_one (good_file h.2)))
  | log b f =>
    refine ag_cons (by kwd) (ag_append ?_ (ag_map fun s hs => good_file (h s (by simpa using hs))))
    rcases b with _ | _ | _
    · exact ag_nil
    · exact ag_one (by kwd)
    · exact ag_one (by kwd)
  | intstatsPrint => exact ag_cons (by kwd) (ag_one (by kwd))
  | intstatsReset => exact ag_cons (by kwd) (ag_one (by kwd))
  | inputdir d => exact ag_cons (by kwd) (ag_one (good_file h))
  | outputdir d => exact ag_cons (by kwd) (ag_one (good_file h))

theorem ag_script {p : Pen} {l : List (Style × Cmd)} (h : ∀ c ∈ l, OkCmd p c.2) :
    AllGood (writeScript p l) := by
  intro w hw
  obtain ⟨c, hc, hw⟩ := List.mem_flatMap.1 hw
  exact ag_append (ag_cmd c.1 (h c hc)) (ag_one (by kwd)) w hw

/-! ## Numbers -/

theorem digitsValue_append (l l' : List Char) :
    digitsValue (l ++ l') = digitsValue l * 10 ^ l'.length + digitsValue l' := by
  have key : ∀ (l : List Char) (a : ℕ),
      l.foldl (fun a c => 10 * a + (c.toNat - 48)) a = a * 10 ^ l.length + digitsValue l := by
    intro l
    induction l with
    | nil => intro a; simp [digitsValue]
    | cons c l ih =>
      intro a
      rw [digitsValue, List.foldl_cons, List.foldl_cons, ih, ih (10 * 0 + _), List.length_cons]
      ring
  rw [digitsValue, List.foldl_append, key]
  rfl

theorem numeral_eq (l : List Char) : numeral l = digitsValue l := by
  induction l with
  | nil => rfl
  | cons c l ih =>
    rw [← List.singleton_append, digitsValue_append, ← ih, numeral, List.reverse_append,
      List.map_append, Nat.ofDigits_append, numeral]
    simp [digitsValue, Nat.mul_comm, Nat.add_comm]

theorem signOf_append {g r : List Char} (hg : Lex.Sign g)
    (hr : ∀ c, r.head? = some c → c ≠ '+' ∧ c ≠ '-') : signOf (g ++ r) = (signum g, r) := by
  rcases hg with rfl | rfl | rfl
  · cases r with
    | nil => rfl
    | cons c r =>
      have := hr c rfl
      rw [List.nil_append, signOf]
      · rfl
      · rintro l e; simp at e; exact this.2 e.1
      · rintro l e; simp at e; exact this.1 e.1
  · rfl
  · rfl

theorem takeWhile_split {q : Char → Bool} {m x : List Char} (hm : ∀ c ∈ m, q c = true)
    (hx : ∀ c, x.head? = some c → q c = false) :
    (m ++ x).takeWhile q = m ∧ (m ++ x).dropWhile q = x := by
  induction m with
  | nil =>
    cases x with
    | nil => simp
    | cons c x =>
      have := hx c rfl
      simp [this]
  | cons c m ih =>
    have h1 := hm c (by simp)
    have := ih fun c hc => hm c (by simp [hc])
    simp [h1, this]

theorem digit_ne {c : Char} (h : c.isDigit = true) :
    c ≠ 'e' ∧ c ≠ 'E' ∧ c ≠ '.' ∧ c ≠ '+' ∧ c ≠ '-' := by
  refine ⟨?_, ?_, ?_, ?_, ?_⟩ <;> rintro rfl <;> exact absurd h (by decide)

/-- The value of a number. -/
theorem floatValue_eq {g a : List Char} {b : Option (List Char)}
    {x : Option (Char × List Char × List Char)} (hg : Lex.Sign g)
    (ha : ∀ c ∈ a, c.isDigit = true) (hb : ∀ t ∈ b, ∀ c ∈ t, c.isDigit = true)
    (hx : ∀ q ∈ x, (q.1 = 'e' ∨ q.1 = 'E') ∧ Lex.Sign q.2.1 ∧ ∀ c ∈ q.2.2, c.isDigit = true) :
    floatValue (String.ofList (g ++ a ++ (b.elim [] ('.' :: ·)) ++
      (x.elim [] fun q => q.1 :: (q.2.1 ++ q.2.2)))) =
    signum g * (numeral a + numeral (b.getD []) / 10 ^ (b.getD []).length) *
      10 ^ (x.elim 0 fun q => signum q.2.1 * (numeral q.2.2 : ℤ)) := by
  set X : List Char := x.elim [] fun q => q.1 :: (q.2.1 ++ q.2.2) with hX
  set B : List Char := b.elim [] ('.' :: ·) with hB
  have hX0 : ∀ c, X.head? = some c → c = 'e' ∨ c = 'E' := by
    intro c hc
    cases x with
    | none => simp [hX] at hc
    | some q =>
      simp only [hX, Option.elim, List.head?_cons, Option.some.injEq] at hc
      rw [← hc]
      exact (hx q rfl).1
  have hB0 : ∀ c, B.head? = some c → c = '.' := by
    intro c hc
    cases b with
    | none => simp [hB] at hc
    | some t =>
      simp only [hB, Option.elim, List.head?_cons, Option.some.injEq] at hc
      exact hc.symm
  have hB1 : ∀ c ∈ B, c.isDigit = true ∨ c = '.' := by
    intro c hc
    cases b with
    | none => simp [hB] at hc
    | some t =>
      rcases List.mem_cons.1 hc with rfl | hc
      · exact .inr rfl
      · exact .inl (hb t rfl c hc)
  have h1 : signOf (g ++ (a ++ B ++ X)) = (signum g, a ++ B ++ X) := by
    refine signOf_append hg fun c hc => ?_
    cases a with
    | cons d a =>
      simp at hc
      have := digit_ne (ha d (by simp))
      rw [← hc]
      exact ⟨this.2.2.2.1, this.2.2.2.2⟩
    | nil =>
      cases hBe : B with
      | cons d B' =>
        rw [hBe] at hc
        simp at hc
        have := hB0 d (by rw [hBe]; rfl)
        rw [← hc, this]
        decide
      | nil =>
        rw [hBe] at hc
        have := hX0 c (by simpa using hc)
        rcases this with rfl | rfl <;> decide
  have h2 := takeWhile_split (q := fun c => c != 'e' && c != 'E') (m := a ++ B) (x := X)
    (fun c hc => by
      rcases List.mem_append.1 hc with hc | hc
      · have := digit_ne (ha c hc); simp [this.1, this.2.1]
      · rcases hB1 c hc with h | rfl
        · have := digit_ne h; simp [this.1, this.2.1]
        · decide)
    (fun c hc => by rcases hX0 c hc with rfl | rfl <;> decide)
  have h3 := takeWhile_split (q := fun c => c != '.') (m := a) (x := B)
    (fun c hc => by have := digit_ne (ha c hc); simp [this.2.2.1])
    (fun c hc => by rw [hB0 c hc]; decide)
  have h4 : B.drop 1 = b.getD [] := by cases b <;> rfl
  have h5 : signOf (X.drop 1) = (x.elim 1 fun q => signum q.2.1, x.elim [] fun q => q.2.2) := by
    cases x with
    | none => rfl
    | some q =>
      have := hx q rfl
      refine signOf_append this.2.1 fun c hc => ?_
      have : c ∈ q.2.2 := by
        cases hq : q.2.2 with
        | nil => rw [hq] at hc; simp at hc
        | cons d r => rw [hq] at hc; simp at hc; simp [hc]
      have h6 := digit_ne ((hx q rfl).2.2 c this)
      exact ⟨h6.2.2.2.1, h6.2.2.2.2⟩
  have h10 : (10 : ℚ) ≠ 0 := by norm_num
  unfold floatValue
  rw [String.toList_ofList, List.append_assoc, List.append_assoc, ← List.append_assoc a B X, h1]
  simp only [h2.1, h2.2, h3.1, h3.2, h4, h5]
  rw [digitsValue_append, ← numeral_eq, ← numeral_eq, zpow_sub₀ h10, zpow_natCast]
  have he : (10 : ℚ) ^ ((x.elim 1 fun q => signum q.2.1) * (digitsValue (x.elim [] fun q => q.2.2) : ℤ)) =
      10 ^ (x.elim 0 fun q => signum q.2.1 * (numeral q.2.2 : ℤ)) := by
    cases x with
    | none => simp [digitsValue]
    | some q => simp [numeral_eq]
  rw [he]
  push_cast
  field_simp

theorem decimal_of {z : ℤ} {k : ℕ} : Decimal (z / 10 ^ k) := ⟨z, k, rfl⟩

/-- The value of any text is decimal. -/
theorem floatValue_decimal (t : String) : Decimal (floatValue t) := by
  unfold floatValue
  generalize signOf t.toList = q
  obtain ⟨s, l⟩ := q
  simp only
  generalize signOf _ = q
  obtain ⟨es, e⟩ := q
  simp only
  generalize digitsValue _ = n
  generalize (es * digitsValue e - _ : ℤ) = k
  rcases Int.le_total 0 k with h | h
  · obtain ⟨m, rfl⟩ := Int.eq_ofNat_of_zero_le h
    refine ⟨s * n * 10 ^ m, 0, ?_⟩
    push_cast
    rw [zpow_natCast]
    ring
  · obtain ⟨m, hm⟩ := Int.eq_ofNat_of_zero_le (Int.neg_nonneg.2 h)
    have : k = -(m : ℤ) := by omega
    subst this
    refine ⟨s * n, m, ?_⟩
    push_cast
    rw [zpow_neg, zpow_natCast]
    ring

/-! ## A pen -/

/-- The decimal digits of a number. -/
def natText (n : ℕ) : List Char :=
  if n = 0 then ['0'] else (Nat.digits 10 n).reverse.map Nat.digitChar

theorem digitChar_spec : ∀ d, d < 10 → (Nat.digitChar d).isDigit = true ∧
    (Nat.digitChar d).toNat - '0'.toNat = d := by
  intro d hd
  interval_cases d <;> decide

theorem natText_digits (n : ℕ) : Lex.Digits (natText n) := by
  unfold natText
  split
  · exact ⟨by simp, by decide⟩
  · rename_i h
    refine ⟨?_, ?_⟩
    · simp [Nat.digits_ne_nil_iff_ne_zero.2 h]
    · intro c hc
      obtain ⟨d, hd, rfl⟩ := List.mem_map.1 hc
      exact (digitChar_spec d (Nat.digits_lt_base (by norm_num) (List.mem_reverse.1 hd))).1

theorem natText_value (n : ℕ) : numeral (natText n) = n := by
  unfold natText
  split
  · rename_i h; subst h; decide
  · rw [numeral, ← List.map_reverse, List.reverse_reverse, List.map_map]
    have : (Nat.digits 10 n).map ((fun c => c.toNat - '0'.toNat) ∘ Nat.digitChar) =
        Nat.digits 10 n := by
      conv_rhs => rw [← List.map_id (Nat.digits 10 n)]
      refine List.map_congr_left fun d hd => ?_
      exact (digitChar_spec d (Nat.digits_lt_base (by norm_num) hd)).2
    rw [this, Nat.ofDigits_digits]

/-- `-12e-3`. -/
def fltText (z : ℤ) (k : ℕ) : List Char :=
  (if z < 0 then ['-'] else []) ++ natText z.natAbs ++ 'e' :: (['-'] ++ natText k)

theorem fltText_value (z : ℤ) (k : ℕ) : floatValue (String.ofList (fltText z k)) = z / 10 ^ k := by
  have := floatValue_eq (g := if z < 0 then ['-'] else []) (a := natText z.natAbs) (b := none)
    (x := some ('e', ['-'], natText k)) (by split <;> simp [Lex.Sign]) (natText_digits _).2 (by simp)
    (by simp [Lex.Sign]; exact (natText_digits k).2)
  simp only [Option.elim, List.append_nil] at this
  rw [fltText, this, natText_value]
  simp only [signum, natText_value, Option.getD_none, if_true, List.length_nil]
  have hz : ((if (if z < 0 then ['-'] else []) = ['-'] then (-1 : ℤ) else 1 : ℤ) : ℚ) *
      (z.natAbs : ℚ) = z := by
    rw [show (z.natAbs : ℚ) = ((z.natAbs : ℤ) : ℚ) from (Int.cast_natCast _).symm]
    rcases lt_or_ge z 0 with h | h
    · rw [show (z.natAbs : ℤ) = -z by omega]
      simp [h]
    · have h' : ¬ z < 0 := by omega
      rw [show (z.natAbs : ℤ) = z by omega]
      simp [h']
  have h0 : (numeral [] : ℚ) = 0 := by norm_num [numeral]
  rw [h0, neg_one_mul, zpow_neg, zpow_natCast]
  simp only [pow_zero, zero_div, add_zero, hz]
  rfl

theorem fltText_whole (z : ℤ) (k : ℕ) : Lex.Whole .FLOAT_VAL (fltText z k) := by
  have he : 'e' ∈ fltText z k := by simp [fltText]
  refine .number ⟨_, _, _, ?_, .inl (natText_digits z.natAbs), .inr ⟨'e', ['-'], natText k, .inl rfl,
    .inr (.inr rfl), natText_digits k, rfl⟩, rfl⟩ ?_ ?_
  · split <;> simp [Lex.Sign]
  · intro h
    exact absurd (h.2 _ he) (by decide)
  · rintro ⟨c, r, e, hc, -⟩
    unfold fltText at e
    split at e
    · simp at e
      rw [← e.1] at hc
      exact absurd ((Lex.nondigit_iff _).2 hc) (by decide)
    · have hd := natText_digits z.natAbs
      cases hn : natText z.natAbs with
      | nil => exact hd.1 hn
      | cons d t =>
        rw [hn] at e
        simp at e
        rw [← e.1] at hc
        exact Lex.digit_not_nameStart (hd.2 d (by rw [hn]; simp)) hc

end Slat.Gram
