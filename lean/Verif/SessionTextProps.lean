import Verif.SessionTextLemmas
import Verif.SessionLedgerProps

/-!
# Properties of printed definitions (C93)

The full statement: printing a definition tells all that it was made from, in the words of the script.  Proved for all kinds but
deterministic functions and intensity measures with a probability of collapse, whose texts are broken (`detfn_text_fails`,
`collapsed_text_fails`).
-/

namespace Slat.Session

noncomputable section

open Interp (Val Call Cmd Cfg Err)
open Output (Path Files)

variable {W : Type} {L : Lib W} {M : Machine}

/-- **C93.** Every file of a session as in C87, where a command that prints a definition writes what the last definition of that
name was made from; `None` if there was none. -/
theorem definition_texts_partial {P : Py} {ev : String → Except Err Val} {p : Gram.Pen}
    {ls : List (Gram.Style × Cmd)} {text : List Char} {w : W} {fs : Files} {σ : State (W × Tags)}
    (hok : ∀ c ∈ ls, Gram.OkCmd p c.2) (ht : Lex.Written (Gram.toks (Gram.writeScript p ls)) text)
    (hs : ∀ m ∈ ls, m.2.sound = true)
    (hr : session (scribe P L) M ev (start (w, fun _ _ => none) fs) text = (σ, none)) :
    ∃ (table : List Cmd → String → List String) (words : List Cmd → Interp.PrintWhat → String),
      (∀ q, σ.files q = Spec.ledger table words q [] (fs q) (ls.map (·.2))) ∧
      ∀ l k id po C, ls.map (·.2) = l ++ .print (.function k id) (some po) :: C → k ≠ "detfn" → ∃ calls E,
        Interp.meaning ⟨ev, Gram.preprocessString⟩ l ⟨fun _ => none, []⟩ = .ok (calls, E) ∧
        ((k = "im" → ∀ a b c d, Call.dist .collapse id a b c d ∉ calls) →
          words l (.function k id) = Spec.told P k id [] "None" calls) := by
  obtain ⟨table, words, h1, -, h3⟩ := session_files_partial hok ht hs hr
  refine ⟨table, words, h1, ?_⟩
  intro l k id po C hl hk
  obtain ⟨E, o, σl, hE, ho, hl', hw⟩ := h3 l (.function k id) po C hl
  have hmem : k ∈ ["detfn", "probfn", "im", "edp", "fragfn", "lossfn", "compgroup"] := by
    have : Cmd.print (.function k id) (some po) ∈ ls.map (·.2) := by rw [hl]; simp
    obtain ⟨x, hx, e⟩ := List.mem_map.1 this
    have := hok x hx
    rw [e] at this
    exact this.1.1
  have hs' : ∀ m ∈ l, m.sound = true := by
    intro m hm
    have : m ∈ ls.map (·.2) := by rw [hl]; simp [hm]
    obtain ⟨x, hx, rfl⟩ := List.mem_map.1 this
    exact hs x hx
  obtain ⟨calls, F, hm, hT⟩ := (Told.init P).run (σ := start (w, fun _ _ => none) fs) hs' rfl hl'
  refine ⟨calls, F, hm, fun hc => ?_⟩
  rw [List.nil_append] at hT
  simp only [Interp.PrintWhat.object, hmem, if_true, Except.ok.injEq] at ho
  subst ho
  rw [hw, ← hT.text k id hk]
  simp only [scribe]
  cases hd : σl.lib.2 k id with
  | none => rfl
  | some a =>
    cases a with
    | im i f b =>
      cases b with
      | false => rfl
      | true =>
        obtain ⟨rfl, a, b, c, d, hm'⟩ := hT.coll k id i f hd
        exact absurd hm' (hc rfl a b c d)
    | _ => rfl

/-- A script:

    detfn f powerlaw 0.5, 0.5;
    im i f;
    print im i t;
    collapse i 0.5, 0.5 --mean_ln_x --sd_ln_x;
    print im i u;
    print detfn f v;
-/
def notes : List Cmd :=
  [.detfnPowerlaw "f" ⟨.num (.flt (1/2)), .num (.flt (1/2))⟩, .im "i" "f",
    .print (.function "im" "i") (some ⟨"t", false⟩),
    .dist .collapse "i" ⟨.num (.flt (1/2)), .num (.flt (1/2))⟩ ⟨some .meanLn, some .sdLn⟩,
    .print (.function "im" "i") (some ⟨"u", false⟩), .print (.function "detfn" "f") (some ⟨"v", false⟩)]

theorem notes_run (P : Py) (ev : String → Except Err Val) (fs : Files) :
    ∃ σ, run (scribe P tiny) tinyMachine ⟨ev, Gram.preprocessString⟩ notes {} (start ((), fun _ _ => none) fs) =
      (σ, none) ∧ σ.files "u".toList = some ["Intensity measure 'i', based on the deterministic function '" ++
      "Deterministic Function '{}', of type '{}', from parameters f." ++ "', with " ++ P.dist] ∧
      σ.files "v".toList = some ["Deterministic Function '{}', of type '{}', from parameters f."] := by
  refine ⟨_, rfl, ?_, ?_⟩
  · rfl
  · rfl

theorem notes_session (P : Py) (ev : String → Except Err Val) (fs : Files) :
    ∃ (p : Gram.Pen) (text : List Char) (σ : State (Unit × Tags)),
      (∀ c ∈ notes.map fun c => (({}, c) : Gram.Style × Cmd), Gram.OkCmd p c.2) ∧
      Lex.Written (Gram.toks (Gram.writeScript p (notes.map fun c => ({}, c)))) text ∧
      session (scribe P tiny) tinyMachine ev (start ((), fun _ _ => none) fs) text = (σ, none) ∧
      σ.files "u".toList = some ["Intensity measure 'i', based on the deterministic function '" ++
      "Deterministic Function '{}', of type '{}', from parameters f." ++ "', with " ++ P.dist] ∧
      σ.files "v".toList = some ["Deterministic Function '{}', of type '{}', from parameters f."] := by
  obtain ⟨p, hi, hf⟩ := Gram.pen_exists
  have n : ∀ s ∈ ["f", "i", "t", "u", "v"], Gram.OkName s := by
    have h : ∀ s ∈ ["f", "i", "t", "u", "v"], (match s.toList with
        | [] => false
        | c :: r => Lex.nondigit c && r.all fun d => Lex.nondigit d || Lex.digit d) = true ∧
        (∀ q ∈ Lex.vocabulary, q.2.toList ≠ s.toList) ∧ ¬ "loglog".toList <+: s.toList := by
      decide +kernel
    exact fun s hs => Gram.okName (h s hs).1 (h s hs).2.1 (h s hs).2.2
  have hto : ∀ s ∈ ["t", "u", "v"], ∀ b, Gram.OkTo (some ⟨s, b⟩) := by
    intro s hs b q hq
    simp only [Option.mem_def, Option.some.injEq] at hq
    subst hq
    have h1 : ∀ s ∈ ["t", "u", "v"], '/' ∉ s.toList := by decide
    show Gram.OkFile s
    unfold Gram.OkFile
    rw [if_neg (h1 s hs)]
    exact n s (by revert s; decide)
  have half : p.OkF (1/2) ∧ p.OkF (1/2) := ⟨hf _ ⟨5, 1, by norm_num⟩, hf _ ⟨5, 1, by norm_num⟩⟩
  have hok : ∀ c ∈ notes.map fun c => (({}, c) : Gram.Style × Cmd), Gram.OkCmd p c.2 := by
    intro c hc
    simp only [notes, List.map_cons, List.map_nil, List.mem_cons, List.not_mem_nil, or_false] at hc
    rcases hc with rfl | rfl | rfl | rfl | rfl | rfl
    · exact ⟨n _ (by decide), half⟩
    · exact ⟨n _ (by decide), n _ (by decide)⟩
    · exact ⟨⟨by decide, n _ (by decide)⟩, hto _ (by decide) _⟩
    · exact ⟨n _ (by decide), half⟩
    · exact ⟨⟨by decide, n _ (by decide)⟩, hto _ (by decide) _⟩
    · exact ⟨⟨by decide, n _ (by decide)⟩, hto _ (by decide) _⟩
  obtain ⟨σ, hr, hu, hv⟩ := notes_run P ev fs
  refine ⟨p, _, σ, hok, Gram.script_writable hok, ?_, hu, hv⟩
  rw [session, Gram.script_read hok (Gram.script_writable hok)]
  simpa [notes] using hr

theorem notes_sound : ∀ m ∈ notes.map fun c => (({}, c) : Gram.Style × Cmd), m.2.sound = true := by
  simp [notes, Interp.Cmd.sound]

example (P : Py) (ev : String → Except Err Val) (fs : Files) : ∃ text σ,
    session (scribe P tiny) tinyMachine ev (start ((), fun _ _ => none) fs) text = (σ, none) ∧
    σ.files "t".toList = some ["Intensity measure 'i', based on the deterministic function 'f'."] := by
  obtain ⟨p, text, σ, hok, ht, hr, -, -⟩ := notes_session P ev fs
  refine ⟨text, σ, hr, ?_⟩
  obtain ⟨table, words, h1, h2⟩ := definition_texts_partial hok ht notes_sound hr
  obtain ⟨calls, E, h3, h4⟩ := h2 (notes.take 2) "im" "i" ⟨"t", false⟩ (notes.drop 3) rfl (by decide)
  have hc : calls = [.detfn "f" "power law" (.list [.flt (1/2), .flt (1/2)]), .im "i" "f"] := by
    have : Interp.meaning ⟨ev, Gram.preprocessString⟩ (notes.take 2) ⟨fun _ => none, []⟩ =
      .ok ([.detfn "f" "power law" (.list [.flt (1/2), .flt (1/2)]), .im "i" "f"], ⟨fun _ => none, []⟩) := rfl
    rw [this] at h3
    cases h3
    rfl
  have hw := h4 (by intro _ a b c d; rw [hc]; simp)
  rw [hc] at hw
  rw [h1]
  show some [words (notes.take 2) _] = _
  rw [hw]
  rfl

/-- **C93.** The text of a deterministic function shows placeholders in place of its name and type, and its name in place of the
parameters: it is not what the definition was made from. -/
theorem detfn_text_fails (P : Py) (ev : String → Except Err Val) (fs : Files) : ∃ text σ calls E,
    session (scribe P tiny) tinyMachine ev (start ((), fun _ _ => none) fs) text = (σ, none) ∧
    Interp.meaning ⟨ev, Gram.preprocessString⟩ (notes.take 5) ⟨fun _ => none, []⟩ = .ok (calls, E) ∧
    σ.files "v".toList ≠ some [Spec.told P "detfn" "f" [] "None" calls] := by
  obtain ⟨p, text, σ, hok, ht, hr, -, hv⟩ := notes_session P ev fs
  refine ⟨text, σ, _, _, hr, rfl, ?_⟩
  rw [hv]
  show some [_] ≠ some ["Deterministic Function '" ++ "f" ++ "', of type '" ++ "power law" ++ "', from parameters " ++
    P.text (.list [.flt (1/2), .flt (1/2)]) ++ "."]
  intro h
  have := congrArg (fun s => s.toList.take 26) (List.cons.inj (Option.some.inj h)).1
  simp at this

/-- **C93.** The text of an intensity measure with a probability of collapse shows that of its function, which is not what the
function was made from. -/
theorem collapsed_text_fails (P : Py) (ev : String → Except Err Val) (fs : Files) : ∃ text σ calls E,
    session (scribe P tiny) tinyMachine ev (start ((), fun _ _ => none) fs) text = (σ, none) ∧
    Interp.meaning ⟨ev, Gram.preprocessString⟩ (notes.take 4) ⟨fun _ => none, []⟩ = .ok (calls, E) ∧
    σ.files "u".toList ≠ some [Spec.told P "im" "i" [] "None" calls] ∧
    σ.files "u".toList ≠ some ["Intensity measure 'i', based on the deterministic function '" ++
      Spec.told P "detfn" "f" [] "None" calls ++ "', with " ++ P.dist] := by
  obtain ⟨p, text, σ, hok, ht, hr, hu, -⟩ := notes_session P ev fs
  refine ⟨text, σ, _, _, hr, rfl, ?_, ?_⟩
  · rw [hu]
    show some [_] ≠ some ["Intensity measure '" ++ "i" ++ "', based on the deterministic function '" ++ "f" ++ "'."]
    intro h
    have := congrArg (fun s => s.toList.take 63) (List.cons.inj (Option.some.inj h)).1
    simp at this
  · rw [hu]
    show some [_] ≠ some ["Intensity measure 'i', based on the deterministic function '" ++ ("Deterministic Function '" ++ "f" ++
      "', of type '" ++ "power law" ++ "', from parameters " ++ P.text (.list [.flt (1/2), .flt (1/2)]) ++ ".") ++ "', with " ++
      P.dist]
    intro h
    have := congrArg (fun s => s.toList.take 90) (List.cons.inj (Option.some.inj h)).1
    simp at this

end

end Slat.Session
