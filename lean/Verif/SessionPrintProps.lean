import Verif.SessionPrintSpec
import Verif.SessionProps

/-!
# Properties of `print` commands (C89)

The full statement: `print` writes the text of what it is given to its file, right away.  Proved for messages
and titles; the texts of definitions (`__str__`) are a parameter here and follow in C93 (`SessionTextProps`).
-/

namespace Slat.Session

noncomputable section

open Interp (Val Call Cmd Cfg Err)
open Output (Path Files)

variable {W : Type}

/-- `"{}".format(object)` of a string and of the titles (/repo/src/SlatInterpreter.py:429-435). -/
structure Honest (L : Lib W) : Prop where
  value : ∀ w s, L.describe w (.value (.str s)) = s
  titles : ∀ w ts, L.describe w (.titles ts) = String.join (ts.map fun t => "\n" ++ t)

theorem titles_env {c : Cfg} {m : Cmd} {E E' : Interp.Env} (h : m.env c E = .ok E') :
    E'.titles = E.titles ++ (match (generalizing := false) m with
      | .title t => [c.pre t]
      | _ => []) := by
  cases m with
  | set i a =>
    obtain ⟨v, -, h⟩ := bind_okE h
    cases h
    simp
  | title t => cases h; rfl
  | _ => cases h; simp

theorem run_paper {L : Lib W} {M : Machine} {c : Cfg} {l C : List Cmd} {s : Interp.St} {σ σ' : State W}
    (hL : Honest L) (h : Kept l σ) (hm : ∀ m ∈ C, m.sound = true) (hs : s.saved = [])
    (hr : Session.run L M c C s σ = (σ', none)) {p : Path} (hw : Spec.OnlyWords p C)
    (hu : Spec.NoTable p l C) :
    σ'.files p = Spec.paper c.pre p s.titles (σ.files p) C := by
  induction C generalizing l s σ with
  | nil => cases hr; rfl
  | cons m C ih =>
    obtain ⟨k, s₁, σ₁, h1, h2, h3, h4, hE⟩ := run_cons (hm m (by simp)) hs hr
    have ih' := ih (h.step h1 h3) (fun x hx => hm x (by simp [hx])) h2 h4
      (fun w po hx => hw w po (by simp [hx])) hu.2
    have hti := titles_env hE
    dsimp only at hti
    rw [ih', hti]
    clear hE hti
    by_cases ha : m = .analyze
    · subst ha
      cases h1
      rw [List.append_nil]
      simp only [execAll, exec, analyze] at h3
      split at h3
      · next σ₂ e =>
        cases h3
        simp only [Prod.mk.injEq] at e
        have : σ₁.files p = σ.files p := by
          rw [← e.1]
          refine Output.other_files_untouched _ _ _ _ ?_ _
          intro x hx hF
          obtain ⟨⟨i, hd⟩, hq, rfl⟩ := List.mem_map.1 hx
          obtain ⟨q, hq1, hq2⟩ := hF
          obtain ⟨b, po, hb, rfl⟩ := h.files i hd hq q hq1
          rw [h.dir] at hq2
          exact hu.1 rfl i b po hb hq2
        rw [this]
        rfl
      · cases h3
    · by_cases hp : ∃ w po, m = .print w po
      · obtain ⟨w, po, rfl⟩ := hp
        obtain ⟨o, ho, h1⟩ := bind_okE h1
        cases h1
        dsimp only
        rw [List.append_nil]
        cases po with
        | none =>
          simp only [execAll, exec, print, Option.map_none] at h3
          cases h3
          rfl
        | some po =>
          simp only [execAll, exec, print, Option.map_some] at h3
          split at h3
          · next σ₂ e =>
            cases h3
            split at e
            · cases e
              simp only [Spec.paper]
              by_cases hpp : po.file.toList = p
              · rw [if_pos hpp]
                subst hpp
                have ht : Spec.words c.pre s.titles w = some (L.describe σ.lib o) := by
                  rcases hw w po (by simp) rfl with rfl | ⟨t, rfl⟩ | rfl
                  · cases ho; rw [hL.value]; rfl
                  · cases ho; rw [hL.value]; rfl
                  · cases ho; rw [hL.titles]; rfl
                rw [ht]
                simp only [Output.write, Function.update_self]
                rfl
              · rw [if_neg hpp]
                simp only [Output.write]
                rw [Function.update_of_ne (fun e => hpp e.symm)]
            · cases e
          · cases h3
      · push Not at hp
        rw [execAll_silent (calls_silent h1 ha hp) h3]
        cases m with
        | print w po => exact absurd rfl (hp w po)
        | title t => rfl
        | _ => simp [Spec.paper]

/-- **C89.** At the end of a session a file that only `print` commands write to holds their texts, one after the
other, from the last command that does not append. -/
theorem print_file_partial {L : Lib W} {M : Machine} {ev : String → Except Err Val} {p : Gram.Pen}
    {ls : List (Gram.Style × Cmd)} {text : List Char} {w : W} {fs : Files} {σ : State W} {f : Path}
    (hL : Honest L)
    (hok : ∀ c ∈ ls, Gram.OkCmd p c.2) (ht : Lex.Written (Gram.toks (Gram.writeScript p ls)) text)
    (hs : ∀ m ∈ ls.map (·.2), m.sound = true)
    (hr : session L M ev (start w fs) text = (σ, none))
    (hw : Spec.OnlyWords f (ls.map (·.2))) (hn : Spec.NoTable f [] (ls.map (·.2))) :
    σ.files f = Spec.paper Gram.preprocessString f [] (fs f) (ls.map (·.2)) := by
  rw [session, Gram.script_read hok ht] at hr
  exact run_paper hL (Kept.init w fs) hs rfl hr hw hn

/-- A library that prints strings as they are. -/
def clerk : Lib Unit := ⟨fun w _ => .ok w, fun _ _ _ => some 0, fun _ _ => .detfn fun x => x, fun _ o => match o with
  | .value (.str s) => s
  | .titles ts => String.join (ts.map fun t => "\n" ++ t)
  | _ => ""⟩

/-- A script:

    title 'T';
    print message 'a' f;
    print message 'b' f --new;
    title 'U';
    print title f --append;
    recorder r detfn a --at 0.5 --file g;
    analyze;
-/
def memo : List Cmd :=
  [.title "'T'", .print (.message "'a'") (some ⟨"f", false⟩), .print (.message "'b'") (some ⟨"f", false⟩),
    .title "'U'", .print .title (some ⟨"f", true⟩), .recorder "r" tinyRec (some ⟨"g", false⟩), .analyze]

theorem memo_session (ev : String → Except Err Val) (fs : Files) :
    ∃ (p : Gram.Pen) (text : List Char) (σ : State Unit),
      (∀ c ∈ memo.map fun c => (({}, c) : Gram.Style × Cmd), Gram.OkCmd p c.2) ∧
      Lex.Written (Gram.toks (Gram.writeScript p (memo.map fun c => ({}, c)))) text ∧
      session clerk tinyMachine ev (start () fs) text = (σ, none) := by
  obtain ⟨p, hi, hf⟩ := Gram.pen_exists
  have n : ∀ s ∈ ["a", "r", "f", "g"], Gram.OkName s := by
    have h : ∀ s ∈ ["a", "r", "f", "g"], (match s.toList with
        | [] => false
        | c :: r => Lex.nondigit c && r.all fun d => Lex.nondigit d || Lex.digit d) = true ∧
        (∀ q ∈ Lex.vocabulary, q.2.toList ≠ s.toList) ∧ ¬ "loglog".toList <+: s.toList := by
      decide +kernel
    exact fun s hs => Gram.okName (h s hs).1 (h s hs).2.1 (h s hs).2.2
  have fl : ∀ s ∈ ["f", "g"], Gram.OkFile s := by
    intro s hs
    have h1 : ∀ s ∈ ["f", "g"], '/' ∉ s.toList := by decide
    unfold Gram.OkFile
    rw [if_neg (h1 s hs)]
    exact n s (by revert s; decide)
  have q : ∀ x ∈ ['T', 'U', 'a', 'b'], Lex.Whole .STRING ['\'', x, '\''] := by
    intro x hx
    refine Lex.Whole.single (b := [x]) ?_
    have hx' : x ≠ '\'' ∧ x ≠ '\\' := by revert x; decide
    refine ⟨?_, by simpa using hx'.2⟩
    intro u v h
    have : '\'' ∈ [x] := by rw [h]; simp
    exact absurd (List.mem_singleton.1 this).symm hx'.1
  have hto : ∀ s ∈ ["f", "g"], ∀ b, Gram.OkTo (some ⟨s, b⟩) := by
    intro s hs b q hq
    simp only [Option.mem_def, Option.some.injEq] at hq
    subst hq
    exact fl s hs
  have hok : ∀ c ∈ memo.map fun c => (({}, c) : Gram.Style × Cmd), Gram.OkCmd p c.2 := by
    intro c hc
    simp only [memo, List.map_cons, List.map_nil, List.mem_cons, List.not_mem_nil, or_false] at hc
    rcases hc with rfl | rfl | rfl | rfl | rfl | rfl | rfl
    · exact q 'T' (by decide)
    · exact ⟨q 'a' (by decide), hto _ (by decide) _⟩
    · exact ⟨q 'b' (by decide), hto _ (by decide) _⟩
    · exact q 'U' (by decide)
    · exact ⟨trivial, hto _ (by decide) _⟩
    · refine ⟨n _ (by decide), ⟨n _ (by decide), ⟨by simp, ?_⟩, by intro l hl; cases hl⟩, hto _ (by decide) _⟩
      intro x hx
      rw [List.mem_singleton.1 hx]
      exact hf _ ⟨5, 1, by norm_num⟩
    · trivial
  have hr : ∃ σ, run clerk tinyMachine ⟨ev, Gram.preprocessString⟩ memo {} (start () fs) =
      (σ, none) := ⟨_, rfl⟩
  obtain ⟨σ, hr⟩ := hr
  refine ⟨p, _, σ, hok, Gram.script_writable hok, ?_⟩
  rw [session, Gram.script_read hok (Gram.script_writable hok)]
  simpa [memo] using hr

example (ev : String → Except Err Val) (fs : Files) : ∃ text σ,
    session clerk tinyMachine ev (start () fs) text = (σ, none) ∧
    σ.files "f".toList = some ["b", "\nT\nU"] := by
  obtain ⟨p, text, σ, hok, ht, hr⟩ := memo_session ev fs
  refine ⟨text, σ, hr, ?_⟩
  rw [print_file_partial ⟨fun _ _ => rfl, fun _ _ => rfl⟩ hok ht ?_ hr ?_ ?_]
  · generalize fs "f".toList = old
    cases old <;> rfl
  · simp [memo, tinyRec, Interp.Cmd.sound]
  · intro w po h _
    simp only [memo, List.map_cons, List.map_nil, List.mem_cons, reduceCtorEq, List.not_mem_nil,
      Cmd.print.injEq, false_or, or_false] at h
    rcases h with ⟨rfl, -⟩ | ⟨rfl, -⟩ | ⟨rfl, -⟩ <;> simp
  · simp only [memo, List.map_cons, List.map_nil, Spec.NoTable, reduceCtorEq, false_imp_iff, true_and,
      and_true, true_imp_iff]
    intro i b po h
    simp only [List.cons_append, List.nil_append, List.mem_cons, reduceCtorEq, List.not_mem_nil,
      Cmd.recorder.injEq, Option.some.injEq, false_or, or_false] at h
    obtain ⟨-, -, rfl⟩ := h
    decide

end

end Slat.Session
