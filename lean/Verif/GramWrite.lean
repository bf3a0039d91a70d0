import Verif.GramSpec
import Verif.GramUniq

/-!
# What is written is derived

Lemmas for `GramProps`: the tokens of a written command are derived from the grammar, with the
command as their value.
-/

namespace Slat.Gram

open Slat.Lex (Kind)
open Slat.Interp
open G

/-! ## Derivations -/

theorem Parses.up {n m : Nat} (h : n ≤ m) {α : Type} {g : G α} {u : List Tok} {a : α}
    (hp : Parses (DictN n) g u a) : Parses (DictN m) g u a :=
  Parses.mono g (fun _ _ _ => DictN.le h) hp

theorem toks_append (l l' : List Word) : toks (l ++ l') = toks l ++ toks l' := by
  simp [toks]

theorem toks_ne_nil (w : Word) (l : List Word) : toks (w :: l) ≠ [] := by
  cases w <;> simp [toks, Word.tokens]

/-- The tokens of a row of words are derived. -/
abbrev Der {α : Type} (g : G α) (l : List Word) (a : α) : Prop := Derives g (toks l) a

theorem of {α : Type} {g : G α} {l l' : List Word} {a : α} (h : Der g l a) (e : l' = l) :
    Der g l' a := e ▸ h

theorem der_tok {k : Kind} (s : String) : Der (.tok k) [kw k s] s :=
  ⟨0, s.toList, rfl, by simp⟩

theorem der_tok' {k : Kind} (t : List Char) : Der (.tok k) [.tok k t] (String.ofList t) :=
  ⟨0, t, rfl, rfl⟩

theorem der_eps {α : Type} (a : α) : Der (.eps a) [] a := ⟨0, rfl, rfl⟩

theorem der_seq {α β : Type} {g : G α} {h : G β} {u v : List Word} {a : α} {b : β}
    (h1 : Der g u a) (h2 : Der h v b) : Der (.seq g h) (u ++ v) (a, b) := by
  obtain ⟨n, h1⟩ := h1
  obtain ⟨m, h2⟩ := h2
  exact ⟨max n m, toks u, toks v, toks_append _ _, h1.up (Nat.le_max_left _ _),
    h2.up (Nat.le_max_right _ _)⟩

theorem der_altl {α : Type} {g h : G α} {u : List Tok} {a : α} (h1 : Derives g u a) :
    Derives (.alt g h) u a := by
  obtain ⟨n, h1⟩ := h1
  exact ⟨n, .inl h1⟩

theorem der_altr {α : Type} {g h : G α} {u : List Tok} {a : α} (h1 : Derives h u a) :
    Derives (.alt g h) u a := by
  obtain ⟨n, h1⟩ := h1
  exact ⟨n, .inr h1⟩

theorem der_map {α β : Type} (f : α → β) {g : G α} {u : List Tok} {a : α} {b : β}
    (h1 : Derives g u a) (e : f a = b) : Derives (.map f g) u b := by
  obtain ⟨n, h1⟩ := h1
  exact ⟨n, a, h1, e⟩

theorem der_oneOf {α : Type} {g g' : G α} {l : List (G α)} (i : Nat) {u : List Tok} {a : α}
    (e : (g :: l)[i]? = some g') (h : Derives g' u a) : Derives (oneOf g l) u a := by
  induction l generalizing g i with
  | nil =>
    cases i with
    | zero => simp only [List.getElem?_cons_zero, Option.some.injEq] at e; subst e; exact h
    | succ i => simp at e
  | cons g2 l ih =>
    cases i with
    | zero =>
      simp only [List.getElem?_cons_zero, Option.some.injEq] at e
      subst e
      exact der_altl h
    | succ i => exact der_altr (ih i (by simpa using e))

theorem der_after {α : Type} {k : Kind} {g : G α} {u : List Word} {a : α} {s : String}
    (h : Der g u a) : Der (after k g) (kw k s :: u) a :=
  der_map _ (der_seq (der_tok s) h) rfl

theorem der_before {α : Type} {k : Kind} {g : G α} {u : List Word} {a : α} {s : String}
    (h : Der g u a) : Der (before g k) (u ++ [kw k s]) a :=
  der_map _ (der_seq h (der_tok s)) rfl

theorem der_is {α : Type} {k : Kind} {a : α} {s : String} : Der (is k a) [kw k s] a :=
  der_map _ (der_tok s) rfl

theorem der_some {α : Type} {g : G α} {u : List Tok} {a : α} (h : Derives g u a) :
    Derives (opt g) u (some a) := der_altl (der_map _ h rfl)

theorem der_none {α : Type} {g : G α} : Der (opt g) [] none := der_altr (der_eps _)

theorem der_nil {α : Type} {g : G α} : Derives (.star g) [] [] := ⟨0, [], rfl, .nil⟩

theorem der_cons {α : Type} {g : G α} {u v : List Tok} {a : α} {l : List α} (hu : u ≠ [])
    (h : Derives g u a) (hl : Derives (.star g) v l) : Derives (.star g) (u ++ v) (a :: l) := by
  obtain ⟨n, h⟩ := h
  obtain ⟨m, us, e, hl⟩ := hl
  refine ⟨max n m, u :: us, by simp [e], .cons ⟨hu, h.up (Nat.le_max_left _ _)⟩ ?_⟩
  clear e
  induction hl with
  | nil => exact .nil
  | cons q _ ih => exact .cons ⟨q.1, q.2.up (Nat.le_max_right _ _)⟩ ih

theorem der_dict {v : List Word} {e : Entries} {s : String} (h : Der dictBody v e) :
    Der .dict (kw .LPAREN s :: v) e := by
  obtain ⟨n, h⟩ := h
  exact ⟨n + 1, s.toList, toks v, rfl, h⟩

/-- Lists with commas. -/
theorem der_commas {α : Type} {g : G α} (w : α → List Word) (l : List α) (hne : l ≠ [])
    (h : ∀ a ∈ l, Der g (w a) a) : Der (commas g) (sep (l.map w)) l := by
  cases l with
  | nil => exact absurd rfl hne
  | cons a l =>
    rw [List.map_cons, sep]
    refine der_map _ (der_seq (h a (by simp)) (b := l) ?_) rfl
    have h' : ∀ b ∈ l, Der g (w b) b := fun b hb => h b (by simp [hb])
    clear h hne
    induction l with
    | nil => exact der_nil
    | cons b l ih =>
      rw [List.map_cons, List.flatMap_cons]
      rw [Der, toks_append]
      exact der_cons (toks_ne_nil _ _) (der_after (h' b (by simp)))
        (ih fun c hc => h' c (by simp [hc]))

/-! ## Parts -/

theorem der_integer {p : Pen} {n : ℕ} (h : p.OkI n) : Der integer ([p.i n]) n :=
  der_map _ (der_tok' _) h.2

theorem der_float {p : Pen} {x : ℚ} (h : p.OkF x) : Der float ([p.f x]) x :=
  der_map _ (der_tok' _) h.2

theorem der_name (s : String) : Der (.tok .ID) ([name s]) s := der_tok s

theorem der_str (s : String) : Der (.tok .STRING) ([str s]) s := der_tok s

theorem der_var (x : String) : Der var_ref ((dollar x)) x := der_after (der_name x)

theorem der_file (s : String) : Der file_spec ([file s]) s := by
  unfold file
  split
  · exact der_altl (der_tok s)
  · exact der_altr (der_tok s)

theorem ofList_cons (c : Char) (s : List Char) :
    String.ofList (c :: s) = String.ofList [c] ++ String.ofList s := by
  apply String.toList_injective
  simp

theorem join_cons (a : String) (l : List String) : String.join (a :: l) = a ++ String.join l := by
  apply String.toList_injective
  simp [String.toList_join]

theorem der_pyTokens (d : Nat) (e : List Char) :
    ∃ l, String.join l = String.ofList e ∧ Derives (.star (oneOf (.tok .OTHER) [.tok .PYMODELPAREN,
      .tok .NESTEDOTHER, .tok .NESTEDLPAREN, .tok .NESTEDRPAREN])) (Lex.pyTokens d e) l := by
  induction e generalizing d with
  | nil => exact ⟨[], by simp, der_nil⟩
  | cons c e ih =>
    have one : ∀ k d', k ∈ [Kind.OTHER, .PYMODELPAREN, .NESTEDOTHER, .NESTEDLPAREN, .NESTEDRPAREN] →
        ∃ l, String.join l = String.ofList (c :: e) ∧
          Derives (.star (oneOf (.tok .OTHER) [.tok .PYMODELPAREN, .tok .NESTEDOTHER,
            .tok .NESTEDLPAREN, .tok .NESTEDRPAREN])) ((k, [c]) :: Lex.pyTokens d' e) l := by
      intro k d' hk
      obtain ⟨l, e1, h⟩ := ih d'
      refine ⟨String.ofList [c] :: l, by rw [join_cons, e1, ← ofList_cons], ?_⟩
      refine der_cons (u := [(k, [c])]) (by simp) ?_ h
      simp only [List.mem_cons, List.not_mem_nil, or_false] at hk
      rcases hk with rfl | rfl | rfl | rfl | rfl
      · exact der_oneOf 0 rfl (der_tok' _)
      · exact der_oneOf 1 rfl (der_tok' _)
      · exact der_oneOf 2 rfl (der_tok' _)
      · exact der_oneOf 3 rfl (der_tok' _)
      · exact der_oneOf 4 rfl (der_tok' _)
    rw [Lex.pyTokens]
    split
    · apply one; split <;> simp
    · split
      · apply one; simp
      · apply one; split <;> simp

theorem der_py (s : String) : Der python_script [py s] s := by
  obtain ⟨l, e, n, h⟩ := der_pyTokens 0 s.toList
  refine ⟨n, ("$(", s), ⟨[(.PYTHON_ESCAPE, "$(".toList)],
    Lex.pyTokens 0 s.toList ++ [(.PYTHON_END, [')'])], by simp [toks, py, Word.tokens],
    ⟨_, rfl, by simp⟩, (s, ")"), ⟨_, _, rfl, ⟨l, h, by rw [e]; simp⟩, ⟨[')'], rfl, rfl⟩⟩, rfl⟩, rfl⟩

theorem der_num {p : Pen} {n : Num} (h : OkNum p n) :
    Der numerical_scalar ((writeNum p n)) n := by
  cases n with
  | int n => exact der_oneOf 0 rfl (der_map _ (der_integer h) rfl)
  | flt x => exact der_oneOf 1 rfl (der_map _ (der_float h) rfl)
  | py e => exact der_oneOf 2 rfl (der_map _ (der_py e) rfl)
  | var x => exact der_oneOf 3 rfl (der_map _ (der_var x) rfl)

theorem der_sc {p : Pen} {n : Sc} (h : OkSc p n) : Der scalar ((writeSc p n)) n := by
  cases n with
  | str t => exact der_altl (der_map _ (der_str t) rfl)
  | num n => exact der_altr (der_map _ (der_num h) rfl)

theorem der_sc2 {p : Pen} {q : Sc2} (h : OkSc2 p q) : Der scalar2 ((writeSc2 p q)) q := by
  exact der_map _ (der_seq (der_sc h.1) (der_after (der_sc h.2))) rfl

theorem der_bracket {α : Type} {g : G α} {l : List Word} {a : α} (h : Der g (l) a) :
    Der (after .LBRACKET (before g .RBRACKET)) ((bracket l)) a := by
  exact of (der_after (der_before h)) rfl

theorem der_pairs {p : Pen} {l : List Sc2} (hne : l ≠ []) (h : ∀ q ∈ l, OkSc2 p q) :
    Der scalar2_sequence ((writePairs p l)) l :=
  der_commas (fun q => bracket (writeSc2 p q)) l hne fun q hq => der_bracket (der_sc2 (h q hq))

theorem der_param {p : Pen} {q : Param} (h : OkParam p q) :
    Der parameter ([writeParam p q]) q := by
  cases q with
  | id t => exact der_oneOf 0 rfl (der_map _ (der_name t) rfl)
  | str t => exact der_oneOf 1 rfl (der_map _ (der_str t) rfl)
  | int n => exact der_oneOf 2 rfl (der_map _ (der_integer h) rfl)
  | flt x => exact der_oneOf 3 rfl (der_map _ (der_float h) rfl)

/-- One entry, after its value. -/
theorem der_entry {p : Pen} {b : Bool} {k : String} {v : Params}
    (h : Der parameters ((writeParams p v)) v) :
    Der dictionary_entry (((if b then str k else name k) :: colon :: writeParams p v))
      (b, k, v) := by
  have key : Derives (.alt (.map (fun t => (false, t)) (.tok .ID))
      (.map (fun t => (true, t)) (.tok .STRING))) (toks [if b then str k else name k]) (b, k) := by
    cases b
    · exact der_altl (der_map _ (der_name k) rfl)
    · exact der_altr (der_map _ (der_str k) rfl)
  exact der_map _ (of (der_seq key (der_after h)) rfl) rfl

mutual
theorem der_params {p : Pen} : ∀ {q : Params}, OkParams p q →
    Der parameters ((writeParams p q)) q
  | .one q, h => by
    rw [OkParams] at h
    rw [writeParams]
    exact der_oneOf 0 rfl (der_map _ (der_param h) rfl)
  | .arr l, h => by
    rw [OkParams] at h
    rw [writeParams]
    exact der_oneOf 1 rfl (der_map _ (der_bracket (der_commas _ l h.1
      fun q hq => der_param (h.2 q hq))) rfl)
  | .dict .nil, h => by rw [OkParams] at h; exact h.elim
  | .dict (.cons b k v r), h => by
    rw [OkParams, OkEntries] at h
    obtain ⟨l, e, hl⟩ := der_entries h.2.2
    have hv := der_entry (b := b) (k := k) (der_params h.2.1)
    rw [writeParams, writeEntries, sep]
    refine der_oneOf 2 rfl (der_map _ (of (der_dict (der_map _ (der_before (der_map _
      (der_seq hv hl) rfl)) ?_)) rfl) rfl)
    rw [entries, e]
theorem der_entries {p : Pen} : ∀ {r : Entries}, OkEntries p r →
    ∃ l, entries l = r ∧ Derives (.star (after .COMMA dictionary_entry))
      (toks ((writeEntries p r).flatMap (comma :: ·))) l
  | .nil, _ => ⟨[], rfl, by rw [writeEntries]; exact der_nil⟩
  | .cons b k v r, h => by
    rw [OkEntries] at h
    obtain ⟨l, e, hl⟩ := der_entries h.2.2
    have hv := der_entry (b := b) (k := k) (der_params h.2.1)
    refine ⟨(b, k, v) :: l, by rw [entries, e], ?_⟩
    rw [writeEntries, List.flatMap_cons, toks_append]
    exact der_cons (toks_ne_nil _ _) (der_after hv) hl
end

theorem der_fn {f : FnRef} : Der function_ref ((writeFn f)) f := by
  cases f with
  | id t => exact der_altl (der_map _ (der_name t) rfl)
  | var x => exact der_altr (der_map _ (der_var x) rfl)

theorem der_intArg {p : Pen} {n : IntArg} (h : OkIntArg p n) :
    Der int_arg ((writeIntArg p n)) n := by
  cases n with
  | int n => exact der_oneOf 0 rfl (der_map _ (der_integer h) rfl)
  | var x => exact der_oneOf 1 rfl (der_map _ (der_var x) rfl)
  | py e => exact der_oneOf 2 rfl (der_map _ (der_py e) rfl)

theorem der_mu (m : Mu) : Der placement_type ([writeMu m]) m := by
  cases m
  · exact der_oneOf 0 rfl (der_is)
  · exact der_oneOf 1 rfl (der_is)
  · exact der_oneOf 2 rfl (der_is)

theorem der_sd (m : Sd) : Der spread_type ([writeSd m]) m := by
  cases m with
  | sdLn => exact der_altl der_is
  | sd => exact der_altr der_is

theorem der_muOpt (o : Option Mu) : Der (opt mu_option) ((writeMuOpt o)) o := by
  cases o with
  | none => exact der_none
  | some m => exact der_some (der_after (der_mu m))

theorem der_sdOpt (o : Option Sd) : Der (opt sd_option) ((writeSdOpt o)) o := by
  cases o with
  | none => exact der_none
  | some m => exact der_some (der_after (der_sd m))

theorem der_opts (b : Bool) (o : LnOpts) : Der lognormal_options ((writeOpts b o)) o := by
  have h1 : Der lognormal_options ((writeMuOpt o.mu ++ writeSdOpt o.sd)) o := by
    exact der_altl (der_map _ (der_seq (der_muOpt _) (der_sdOpt _)) rfl)
  unfold writeOpts
  cases b with
  | false => exact h1
  | true =>
    rcases o with ⟨_ | m, _ | d⟩
    · exact h1
    · simpa [writeMuOpt] using h1
    · simpa [writeSdOpt] using h1
    · exact der_altr (der_map _ (of (der_seq (der_after (der_sd d)) (der_after (der_mu m))) rfl) rfl)

theorem der_at {p : Pen} {a : At} (h : OkAt p a) : Der recorder_at ((writeAt p a)) a := by
  cases a with
  | floats l =>
    exact der_oneOf 0 rfl (der_map _ (der_commas (fun x => [p.f x]) l h.1
      fun x hx => der_float (h.2 x hx)) rfl)
  | range a i b =>
    exact der_oneOf 1 rfl (der_map _ (der_seq (der_float h.1) (der_seq
      (der_after (der_float h.2.1)) (der_after (der_float h.2.2)))) rfl)
  | py e => exact der_oneOf 2 rfl (der_map _ (der_py e) rfl)
  | var x => exact der_oneOf 3 rfl (der_map _ (der_var x) rfl)
  | counted a b log n =>
    have hl : Derives (.alt (is .LINFLAG false) (is .LOGFLAG true))
        (toks [if log then kw .LOGFLAG "--log" else kw .LINFLAG "--linear"]) log := by
      cases log
      · exact der_altl (der_is)
      · exact der_altr (der_is)
    exact der_oneOf 4 rfl (der_map _ (der_seq (der_float h.1) (der_seq
      (der_after (der_float h.2.1)) (der_seq hl (der_integer h.2.2)))) rfl)

theorem der_col {p : Pen} {c : Col} (h : OkCol p c) : Der col_spec ((writeCol p c)) c := by
  cases c with
  | placement m => exact der_oneOf 0 rfl (der_map _ (der_mu m) rfl)
  | spread m => exact der_oneOf 1 rfl (der_map _ (der_sd m) rfl)
  | scalar s => exact der_oneOf 2 rfl (der_map _ (der_sc h) rfl)

theorem der_cols {p : Pen} {c : Option (List Col)} (h : OkCols p c) :
    Der (opt recorder_cols) ((writeCols p c)) c := by
  cases c with
  | none => exact der_none
  | some l =>
    have := h l rfl
    exact der_some (der_after (der_commas _ l this.1 fun q hq => der_col (this.2 q hq)))

theorem der_to (b : Bool) (o : Option PrintOpts) :
    Der (opt print_options) ((writeTo b o)) o := by
  rcases o with _ | ⟨f, a⟩
  · exact der_none
  · cases a
    · cases b
      · exact der_some (der_map _ (der_seq (v := []) (der_file f) der_none) (by simp))
      · exact der_some (der_map _ (der_seq (der_file f)
          (der_some (der_altr (der_is)))) (by simp))
    · exact der_some (der_map _ (der_seq (der_file f) (der_some (der_altl (der_is)))) (by simp))

theorem der_what {w : PrintWhat} (h : OkWhat w) :
    Der print_what ((kw .PRINT "print" :: writeWhat w)) w := by
  cases w with
  | emptyMessage =>
    exact der_oneOf 0 rfl (der_map _ (der_after (der_after der_none)) rfl)
  | message t =>
    exact der_oneOf 0 rfl (der_map _ (der_after (der_after (der_some
      (der_oneOf 0 rfl (der_map _ (der_str t) rfl))))) rfl)
  | messagePy e =>
    exact der_oneOf 0 rfl (der_map _ (der_after (der_after (der_some
      (der_oneOf 1 rfl (der_map _ (der_py e) rfl))))) rfl)
  | messageVar x =>
    exact der_oneOf 0 rfl (der_map _ (der_after (der_after (der_some
      (der_oneOf 2 rfl (der_map _ (der_var x) rfl))))) rfl)
  | title => exact der_oneOf 2 rfl (der_after (der_is))
  | function k i =>
    have hk : Derives (oneOf (is .DETFN "detfn") [is .PROBFN "probfn", is .IM "im", is .EDP "edp",
        is .FRAGFN "fragfn", is .LOSSFN "lossfn", is .COMPGROUP "compgroup"])
        (toks [kindWord k]) k := by
      obtain ⟨h, -⟩ := h
      simp only [List.mem_cons, List.not_mem_nil, or_false] at h
      rcases h with rfl | rfl | rfl | rfl | rfl | rfl | rfl
      · exact der_oneOf 0 rfl (der_is)
      · exact der_oneOf 1 rfl (der_is)
      · exact der_oneOf 2 rfl (der_is)
      · exact der_oneOf 3 rfl (der_is)
      · exact der_oneOf 4 rfl (der_is)
      · exact der_oneOf 5 rfl (der_is)
      · exact der_oneOf 6 rfl (der_is)
    exact der_oneOf 1 rfl (der_map _ (der_after (der_seq hk (der_name i))) rfl)

theorem der_recType (t : RecType) : Der recorder_type ([writeType t]) t := by
  cases t
  · exact der_oneOf 0 rfl (der_is)
  · exact der_oneOf 1 rfl (der_is)
  · exact der_oneOf 2 rfl (der_is)
  · exact der_oneOf 3 rfl (der_is)
  · exact der_oneOf 4 rfl (der_is)
  · exact der_oneOf 5 rfl (der_is)
  · exact der_oneOf 6 rfl (der_is)
  · exact der_oneOf 7 rfl (der_is)
  · exact der_oneOf 8 rfl (der_is)
  · exact der_oneOf 9 rfl (der_is)
  · exact der_oneOf 10 rfl (der_is)
  · exact der_oneOf 11 rfl (der_is)

theorem der_body {p : Pen} (y : Bool) {b : RecBody} (h : OkBody p b) :
    Der recorder_body (writeBody p y b) b := by
  cases b with
  | fn t i a c =>
    exact der_oneOf 0 rfl (der_map _ (of (der_seq (der_recType t) (der_seq (der_name i)
      (der_seq (der_at h.2.1) (der_cols h.2.2)))) rfl) rfl)
  | dsrate i => exact der_oneOf 1 rfl (der_map _ (of (der_seq (der_altl der_is) (der_name i)) rfl) rfl)
  | collrate i =>
    exact der_oneOf 1 rfl (der_map _ (of (der_seq (der_altr der_is) (der_name i)) rfl) rfl)
  | rates t i a =>
    have ht : Der (oneOf (is .COSTRATE AtType.costrate) [is .COLLAPSE AtType.collapse,
        is .DEAGG AtType.deagg, is .TOTALCOST AtType.totalcost]) [writeRates t] t := by
      cases t
      · exact der_oneOf 0 rfl der_is
      · exact der_oneOf 1 rfl der_is
      · exact der_oneOf 2 rfl der_is
      · exact der_oneOf 3 rfl der_is
    exact der_oneOf 2 rfl (der_map _ (of (der_seq ht (der_seq (der_name i) (der_at h.2))) rfl) rfl)
  | pdf i a n =>
    have hn : Der (opt (.tok .NORMALISE_FLAG)) (if n then [kw .NORMALISE_FLAG "--normalise"] else [])
        (if n then some "--normalise" else none) := by
      cases n
      · exact der_none
      · exact der_some (der_tok _)
    exact der_oneOf 3 rfl (der_map _ (of (der_after (der_seq (der_name i) (der_seq (der_at h.2) hn)))
      rfl) (by cases n <;> rfl))
  | npv i a b c r =>
    exact der_oneOf 4 rfl (der_map _ (of (der_after (der_seq (der_name i) (der_altl (der_map _
      (der_after (der_seq (der_integer h.2.1) (der_seq (der_after (der_integer h.2.2.1))
        (der_seq (der_after (der_integer h.2.2.2.1)) (der_float h.2.2.2.2))))) rfl)))) rfl) rfl)
  | by_ t i a c =>
    have ht : Der structcost_type [writeBy t] t := by
      cases t
      · exact der_oneOf 0 rfl der_is
      · exact der_oneOf 1 rfl der_is
      · exact der_oneOf 2 rfl der_is
    exact der_oneOf 4 rfl (der_map _ (of (der_after (der_seq (der_name i) (der_altr (der_map _
      (der_seq (der_altl (der_map _ (der_seq ht (der_at h.2.1)) rfl)) (der_cols h.2.2)) rfl))))
        rfl) rfl)
  | annual i o c =>
    exact der_oneOf 4 rfl (der_map _ (of (der_after (der_seq (der_name i)
      (der_altr (der_map _ (der_seq (der_altr (der_map _ (der_after (der_opts y o)) rfl))
        (der_cols h.2)) rfl)))) rfl) rfl)

theorem der_adj {p : Pen} {l : List ℚ} (hl : l.length ≤ 2) (h : ∀ x ∈ l, p.OkF x) :
    Der adjustments (l.map p.f) l := by
  rcases l with _ | ⟨x, _ | ⟨x2, _ | ⟨x3, l⟩⟩⟩
  · exact der_map _ (of (der_seq der_none der_none) rfl) rfl
  · exact der_map _ (of (der_seq (der_some (der_float (h x (by simp)))) der_none) rfl) rfl
  · exact der_map _ (of (der_seq (der_some (der_float (h x (by simp))))
      (der_some (der_float (h x2 (by simp))))) rfl) rfl
  · simp at hl

theorem der_search (s : Search) : Der (oneOf (is .BINARY Search.binary) [is .REVBIN .revbin,
    is .LOWREV .lowrev, is .SCATTERED .scattered, is .DIRECTED .directed]) [writeSearch s] s := by
  cases s with
  | binary => exact der_oneOf 0 rfl der_is
  | revbin => exact der_oneOf 1 rfl der_is
  | lowrev => exact der_oneOf 2 rfl der_is
  | scattered => exact der_oneOf 3 rfl der_is
  | directed => exact der_oneOf 4 rfl der_is

theorem der_dist {p : Pen} {y : Style} {k : DistCmd} {i : String} {q : Sc2} {o : LnOpts}
    (h : OkSc2 p q) {K : Kind} {s : String} (e : writeDist k = kw K s) :
    Der (dist_command K k) (writeCmd p y (.dist k i q o)) (.dist k i q o) := by
  rw [writeCmd, e]
  exact der_map _ (of (der_after (der_seq (der_name i) (der_seq (der_sc2 h) (der_opts y.swap o))))
    rfl) rfl

theorem der_bilevel {p : Pen} {b : Bilevel}
    (h : OkNum p b.a ∧ OkNum p b.b ∧ OkNum p b.c ∧ OkNum p b.d ∧ OkNum p b.e) :
    Der bilevel_spec (writeBilevel p b) b := by
  obtain ⟨ha, hb, hc, hd, he⟩ := h
  refine der_map _ (of (der_bracket (der_seq (der_num ha) (der_seq (der_after (s := ",") (der_num hb))
    (der_seq (der_after (s := ",") (der_num hc)) (der_seq (der_after (s := ",") (der_num hd))
      (der_after (s := ",") (der_num he))))))) ?_) rfl
  simp [writeBilevel, sep, comma]

theorem der_body_cmd {p : Pen} (y : Style) {c : Cmd} (h : OkCmd p c) :
    Der command_body (writeCmd p y c) c := by
  cases c with
  | title t => exact der_oneOf 0 rfl (der_map _ (der_after (der_str t)) rfl)
  | detfnHyperbolic i q c =>
    exact der_oneOf 1 rfl (der_map _ (of (der_after (der_seq (der_name i) (der_oneOf 0 rfl (der_map _
      (der_after (der_seq (der_sc2 h.2.1) (der_after (der_sc h.2.2)))) rfl)))) rfl) rfl)
  | detfnPowerlaw i q =>
    exact der_oneOf 1 rfl (der_map _ (of (der_after (der_seq (der_name i) (der_oneOf 1 rfl (der_map _
      (der_after (der_sc2 h.2)) rfl)))) rfl) rfl)
  | detfnLoglog i l =>
    exact der_oneOf 1 rfl (der_map _ (of (der_after (der_seq (der_name i) (der_oneOf 2 rfl (der_map _
      (der_after (der_pairs h.2.1 h.2.2)) rfl)))) rfl) rfl)
  | detfnLinear i l =>
    exact der_oneOf 1 rfl (der_map _ (of (der_after (der_seq (der_name i) (der_oneOf 3 rfl (der_map _
      (der_after (der_pairs h.2.1 h.2.2)) rfl)))) rfl) rfl)
  | probfn i m s o =>
    refine der_oneOf 2 rfl (der_map _ (of (der_after (s := "probfn") (der_seq (der_name i)
      (der_seq (der_after (s := "lognormal") der_fn) (der_seq (der_after (s := ",") der_fn)
        (der_opts y.swap o))))) ?_) rfl)
    simp [writeCmd, comma]
  | im i f => exact der_oneOf 3 rfl (der_map _ (of (der_after (der_seq (der_name i) (der_name f)))
      rfl) rfl)
  | edp i m f => exact der_oneOf 4 rfl (der_map _ (of (der_after (der_seq (der_name i)
      (der_seq (der_name m) (der_name f)))) rfl) rfl)
  | dist k i q o =>
    cases k with
    | collapse => exact der_oneOf 14 rfl (der_dist h.2 rfl)
    | demolition => exact der_oneOf 15 rfl (der_dist h.2 rfl)
    | rebuildCost => exact der_oneOf 18 rfl (der_dist h.2 rfl)
    | demolitionCost => exact der_oneOf 19 rfl (der_dist h.2 rfl)
  | fragfnDb i f k =>
    refine der_oneOf 5 rfl ?_
    cases f with
    | none => exact der_map _ (of (der_after (der_seq (der_name i) (der_altl (der_map _
        (der_altl (der_seq der_none (der_after (der_name k)))) rfl)))) rfl) rfl
    | some f =>
      rcases y with ⟨_, _ | _, _⟩
      · exact der_map _ (of (der_after (der_seq (der_name i) (der_altl (der_map _
          (der_altr (der_map _ (der_seq (der_after (der_name k)) (der_after (der_file f))) rfl))
            rfl)))) rfl) rfl
      · exact der_map _ (of (der_after (der_seq (der_name i) (der_altl (der_map _
          (der_altl (der_seq (der_some (der_after (der_file f))) (der_after (der_name k))))
            rfl)))) rfl) rfl
  | fragfnUser i l o =>
    exact der_oneOf 5 rfl (der_map _ (of (der_after (der_seq (der_name i) (der_altr (der_map _
      (der_seq (der_pairs h.2.1 h.2.2) (der_opts y.swap o)) rfl)))) rfl) rfl)
  | lossSimple i l o =>
    exact der_oneOf 6 rfl (der_map _ (of (der_after (der_seq (der_name i) (der_altl (der_map _
      (der_after (der_seq (der_pairs h.2.1 h.2.2) (der_opts y.swap o))) rfl)))) rfl) rfl)
  | lossBilevel i l =>
    exact der_oneOf 6 rfl (der_map _ (of (der_after (der_seq (der_name i) (der_altr (der_map _
      (der_after (der_commas _ l h.2.1 fun b hb => der_bilevel (h.2.2 b hb))) rfl)))) rfl) rfl)
  | compgroup i e f c d n l =>
    obtain ⟨-, -, -, -, -, hn, hl, hx⟩ := h
    have hd : Der (opt (.tok .ID)) (d.toList.map name) d := by
      cases d
      · exact der_none
      · exact der_some (der_name _)
    exact der_oneOf 7 rfl (der_map _ (of (der_after (der_seq (der_name i) (der_seq (der_name e)
      (der_seq (der_name f) (der_seq (der_name c) (der_seq hd (der_seq (der_integer hn)
        (der_adj hl hx)))))))) rfl) rfl)
  | structure_ i l =>
    exact der_oneOf 16 rfl (der_map _ (of (der_after (der_seq (der_name i)
      (der_commas _ l h.2.1 fun g _ => der_name g))) rfl) rfl)
  | print w o =>
    exact der_oneOf 8 rfl (der_map _ (of (der_seq (der_what h.1) (der_to y.new o)) rfl) rfl)
  | integration a n s =>
    cases s with
    | none =>
      refine der_oneOf 9 rfl (der_map _ (of (der_after (s := "integration") (der_after (s := "maq")
        (der_seq (der_num h.1) (der_seq (der_intArg h.2.1) der_none)))) ?_) rfl)
      simp [writeCmd]
    | some q =>
      exact der_oneOf 9 rfl (der_map _ (of (der_after (der_after (der_seq (der_num h.1)
        (der_seq (der_intArg h.2.1) (der_some (der_seq (der_search q.1)
          (der_intArg (h.2.2 q rfl)))))))) rfl) rfl)
  | recorder r b o =>
    exact der_oneOf 10 rfl (der_map _ (of (der_after (der_seq (der_name r)
      (der_seq (der_body y.swap h.2.1) (der_to y.new o)))) rfl) rfl)
  | analyze => exact der_oneOf 11 rfl der_is
  | set x v =>
    cases v with
    | py e => exact der_oneOf 12 rfl (der_map _ (of (der_after (der_seq (der_name x)
        (der_oneOf 0 rfl (der_map _ (der_py e) rfl)))) rfl) rfl)
    | var v => exact der_oneOf 12 rfl (der_map _ (of (der_after (der_seq (der_name x)
        (der_oneOf 1 rfl (der_map _ (der_var v) rfl)))) rfl) rfl)
    | params q => exact der_oneOf 12 rfl (der_map _ (of (der_after (der_seq (der_name x)
        (der_oneOf 2 rfl (der_map _ (der_params h.2) rfl)))) rfl) rfl)
  | importProbfn i f => exact der_oneOf 13 rfl (der_map _ (of (der_after (der_seq (der_name i)
      (der_file f))) rfl) rfl)
  | importIm i f => exact der_oneOf 17 rfl (der_map _ (of (der_after (der_seq (der_name i)
      (der_file f))) rfl) rfl)
  | log b f =>
    have hf : Der (opt file_spec) (f.toList.map file) f := by
      cases f
      · exact der_none
      · exact der_some (der_file _)
    rcases b with _ | _ | _
    · exact der_oneOf 20 rfl (der_map _ (of (der_after (der_seq der_none hf)) rfl) rfl)
    · exact der_oneOf 20 rfl (der_map _ (of (der_after (der_seq (der_some (der_altr der_is)) hf)) rfl)
        rfl)
    · exact der_oneOf 20 rfl (der_map _ (of (der_after (der_seq (der_some (der_altl der_is)) hf)) rfl)
        rfl)
  | intstatsPrint => exact der_oneOf 21 rfl (der_after (der_altl der_is))
  | intstatsReset => exact der_oneOf 21 rfl (der_after (der_altr der_is))
  | inputdir d => exact der_oneOf 22 rfl (der_map _ (der_after (der_file d)) rfl)
  | outputdir d => exact der_oneOf 23 rfl (der_map _ (der_after (der_file d)) rfl)

theorem der_command {p : Pen} (y : Style) {c : Cmd} (h : OkCmd p c) :
    Der command (writeCmd p y c ++ [kw .SEMICOLON ";"]) c := der_before (der_body_cmd y h)

theorem der_script {p : Pen} (l : List (Style × Cmd)) (h : ∀ c ∈ l, OkCmd p c.2) :
    Der script (writeScript p l) (l.map (·.2)) := by
  have key : Derives (.star (.alt (.map (fun _ => none) (.tok .WS)) (.map some command)))
      (toks (writeScript p l)) (l.map fun c => some c.2) := by
    induction l with
    | nil => exact der_nil
    | cons c l ih =>
      rw [writeScript, List.flatMap_cons, toks_append]
      refine der_cons ?_ (der_altr (der_map _ (der_command c.1 (h c (by simp))) rfl))
        (ih fun c hc => h c (by simp [hc]))
      rw [toks_append]
      simp [toks, kw, Word.tokens]
  refine der_map _ key ?_
  induction l with
  | nil => rfl
  | cons c l ih =>
    rw [List.map_cons, List.filterMap_cons]
    simp [List.filterMap_map]

end Slat.Gram
