import Verif.SessionLedgerLemmas
import Verif.SessionPrintProps

/-!
# Properties of whole sessions (C87): every file

The full statement of C87, for scripts of commands that the interpreter gets right (`Cmd.sound`, C43), with recorders that append
or share a file, any number of analyses, and `print` commands.  The library is any.
-/

namespace Slat.Session

noncomputable section

open Interp (Val Call Cmd Cfg Err)
open Output (Path Files)

variable {W : Type} {L : Lib W} {M : Machine} {c : Cfg}

/-- **C87.** Every file at the end of a session, in terms of the commands: at each analysis the recorders write what they print,
in the order in which their names were first used, each as its last command says, anew or appended; a `print` command writes at
once.  A recorder prints what was ordered, of the object that had the name when the command was read, as it is at the analysis. -/
theorem session_files_partial {ev : String → Except Err Val} {p : Gram.Pen}
    {ls : List (Gram.Style × Cmd)} {text : List Char} {w : W} {fs : Files} {σ : State W}
    (hok : ∀ c ∈ ls, Gram.OkCmd p c.2) (ht : Lex.Written (Gram.toks (Gram.writeScript p ls)) text)
    (hs : ∀ m ∈ ls, m.2.sound = true)
    (hr : session L M ev (start w fs) text = (σ, none)) :
    ∃ (table : List Cmd → String → List String) (words : List Cmd → Interp.PrintWhat → String),
      (∀ q, σ.files q = Spec.ledger table words q [] (fs q) (ls.map (·.2))) ∧
      (∀ l C, ls.map (·.2) = l ++ .analyze :: C → ∀ i ∈ Spec.names l, ∃ (A : List Cmd) (b : Interp.RecBody)
        (po : Interp.PrintOpts) (E : Interp.Env) (σA σl : State W) (k : Rec.Kind) (cv av : Option Val)
        (cs : Option (List Rec.Col)) (as : Option (List Rec.Num)) (r : Rec.Recorder),
        Spec.Latest i l A b po ∧
        run L M ⟨ev, Gram.preprocessString⟩ A {} (start w fs) = (σA, none) ∧
        run L M ⟨ev, Gram.preprocessString⟩ l {} (start w fs) = (σl, none) ∧
        Spec.environment ⟨ev, Gram.preprocessString⟩ A = .ok E ∧
        b.colsAt ⟨ev, Gram.preprocessString⟩ E.vars = .ok (cv, av) ∧ colsOf cv = .ok cs ∧ atsOf M av = .ok as ∧
        kindOf b.type = some k ∧
        Rec.make k (seen L σA.lib (L.find σA.lib b.registry b.id)) (optsOf (b.options (some po))) cs as = .ok r ∧
        (Rec.printed (Rec.output { r with fn := seen L σl.lib (L.find σA.lib b.registry b.id) })).2 = none ∧
        table l i = (Rec.printed (Rec.output
          { r with fn := seen L σl.lib (L.find σA.lib b.registry b.id) })).1.map M.render) ∧
      ∀ l v po C, ls.map (·.2) = l ++ .print v (some po) :: C → ∃ (E : Interp.Env) (o : Interp.Printed) (σl : State W),
        Spec.environment ⟨ev, Gram.preprocessString⟩ l = .ok E ∧
        v.object ⟨ev, Gram.preprocessString⟩ E.vars E.titles = .ok o ∧
        run L M ⟨ev, Gram.preprocessString⟩ l {} (start w fs) = (σl, none) ∧ words l v = L.describe σl.lib o := by
  rw [session, Gram.script_read hok ht] at hr
  have hs' : ∀ m ∈ ls.map (·.2), m.sound = true := by
    intro m hm
    obtain ⟨x, hx, rfl⟩ := List.mem_map.1 hm
    exact hs x hx
  generalize ls.map (·.2) = cmds at hr hs'
  refine ⟨tableAfter L M _ (start w fs), textAfter L M _ (start w fs), fun q => run_ledger hs' hr q, ?_, ?_⟩
  · rintro l C rfl i hi
    have hl : ∀ m ∈ l, m.sound = true := fun m hm => hs' m (by simp [hm])
    obtain ⟨s, σl, h1, h2, h3, -⟩ := run_cut hl rfl hr
    have hB := books hl h2
    rw [← hB.keys] at hi
    obtain ⟨⟨i, h⟩, hh, rfl⟩ := List.mem_map.1 hi
    obtain ⟨k, s₁, σ₁, k1, k2, k3, k4, -⟩ := run_cons rfl h1 h3
    cases k1
    simp only [execAll, exec, analyze] at k3
    split at k3
    · next σ₂ e =>
      simp only [Prod.mk.injEq, ite_eq_left_iff, reduceCtorEq, imp_false, Bool.not_eq_true, Bool.not_eq_false] at e
      have hmap : (σl.recs.map fun q => q.2.run L M σl.lib) =
          (σl.recs.map fun q => (q.1, q.2.run L M σl.lib)).map (·.2) := by simp
      have e2 := e.2
      rw [hmap] at e2
      obtain ⟨a1, -, a3⟩ := analyze_file [] _ _ e2
      have b1 := a1 (i, h.run L M σl.lib) (List.mem_map.2 ⟨_, hh, rfl⟩)
      have b3 := a3 (i, h.run L M σl.lib) (List.mem_map.2 ⟨_, hh, rfl⟩)
      obtain ⟨A, B, b, po, e0, hBB, E, σA, k, cv, av, cs, as, c1, c2, c3, c4, c5, c6, c7, c8, c9, -⟩ := hB.all i h hh
      have hpo : ∃ po', po = some po' := by
        dsimp only [Held.run] at b3
        rw [c9] at b3
        cases po with
        | none => cases b3
        | some po' => exact ⟨po', rfl⟩
      obtain ⟨po, rfl⟩ := hpo
      refine ⟨A, b, po, E, σA, σl, k, cv, av, cs, as, h.parts, ⟨B, e0, hBB⟩, c2, h2, c1, c3, c4, c5, c6, c7, ?_, ?_⟩
      · simpa [Held.run, c8] using b1
      · have hlook : σl.recs.lookup i = some h := lookup_of hB.nodup hh
        simp only [tableAfter, h2, hlook, Held.run, c8]
    · cases k3
  · rintro l v po C rfl
    have hl : ∀ m ∈ l, m.sound = true := fun m hm => hs' m (by simp [hm])
    obtain ⟨s, σl, h1, h2, h3, hE⟩ := run_cut hl rfl hr
    obtain ⟨k, s₁, σ₁, k1, k2, k3, k4, -⟩ := run_cons rfl h1 h3
    obtain ⟨o, ho, k1⟩ := bind_okE k1
    refine ⟨⟨s.vars, s.titles⟩, o, σl, hE, ho, h2, ?_⟩
    unfold textAfter Spec.environment
    have hE' : List.foldlM (fun E m => m.env ⟨ev, Gram.preprocessString⟩ E) (⟨fun _ => none, []⟩ : Interp.Env) l =
      .ok ⟨s.vars, s.titles⟩ := hE
    rw [hE']
    simp only [ho, h2]

/-- Two recorders that append to one file, and two analyses:

    recorder r detfn a --at 0.5 --file f --append;
    recorder q detfn a --at 0.5 --file f --append;
    analyze;
    analyze;
-/
def sharedScript : List Cmd :=
  [.recorder "r" tinyRec (some ⟨"f", true⟩), .recorder "q" tinyRec (some ⟨"f", true⟩), .analyze, .analyze]

example (ev : String → Except Err Val) (fs : Files) : ∃ text σ t₁ t₂ t₃ t₄,
    session tiny tinyMachine ev (start () fs) text = (σ, none) ∧
    σ.files "./f.csv".toList = some ((fs "./f.csv".toList).getD [] ++ t₁ ++ t₂ ++ t₃ ++ t₄) := by
  obtain ⟨p, hi, hf⟩ := Gram.pen_exists
  have n : ∀ s ∈ ["a", "r", "f", "q"], Gram.OkName s := by
    have h : ∀ s ∈ ["a", "r", "f", "q"], (match s.toList with
        | [] => false
        | c :: r => Lex.nondigit c && r.all fun d => Lex.nondigit d || Lex.digit d) = true ∧
        (∀ q ∈ Lex.vocabulary, q.2.toList ≠ s.toList) ∧ ¬ "loglog".toList <+: s.toList := by
      decide +kernel
    exact fun s hs => Gram.okName (h s hs).1 (h s hs).2.1 (h s hs).2.2
  have hrec : ∀ i ∈ ["r", "q"], Gram.OkCmd p (.recorder i tinyRec (some ⟨"f", true⟩)) := by
    intro i hi'
    refine ⟨n _ (by revert i; decide), ⟨n _ (by decide), ⟨by simp, ?_⟩, by intro l hl; cases hl⟩, ?_⟩
    · intro x hx
      rw [List.mem_singleton.1 hx]
      exact hf _ ⟨5, 1, by norm_num⟩
    · intro q hq
      cases hq
      have h1 : '/' ∉ "f".toList := by decide
      show Gram.OkFile "f"
      unfold Gram.OkFile
      rw [if_neg h1]
      exact n _ (by decide)
  have hok : ∀ c ∈ sharedScript.map fun c => (({}, c) : Gram.Style × Cmd), Gram.OkCmd p c.2 := by
    intro c hc
    simp only [sharedScript, List.map_cons, List.map_nil, List.mem_cons, List.not_mem_nil, or_false] at hc
    rcases hc with rfl | rfl | rfl | rfl
    · exact hrec _ (by decide)
    · exact hrec _ (by decide)
    · trivial
    · trivial
  have hr : ∃ σ, run tiny tinyMachine ⟨ev, Gram.preprocessString⟩ sharedScript {} (start () fs) =
      (σ, none) := ⟨_, rfl⟩
  obtain ⟨σ, hr⟩ := hr
  obtain ⟨text, ht⟩ : ∃ text, Lex.Written (Gram.toks (Gram.writeScript p
      (sharedScript.map fun c => (({}, c) : Gram.Style × Cmd)))) text := ⟨_, Gram.script_writable hok⟩
  have hS : session tiny tinyMachine ev (start () fs) text = (σ, none) := by
    rw [session, Gram.script_read hok ht]
    simpa [sharedScript] using hr
  obtain ⟨table, words, h1, -, -⟩ := session_files_partial hok ht
    (by simp [sharedScript, tinyRec, Interp.Cmd.sound]) hS
  refine ⟨_, σ, table (sharedScript.take 2) "r", table (sharedScript.take 2) "q", table (sharedScript.take 3) "r",
    table (sharedScript.take 3) "q", hS, ?_⟩
  rw [h1]
  have e : Output.fullPath (Output.dirOf none) ['f'] = ['.', '/', 'f', '.', 'c', 's', 'v'] := by decide
  have m : (sharedScript.map fun c => (({}, c) : Gram.Style × Cmd)).map (·.2) = sharedScript := by simp [sharedScript]
  rw [m]
  have n : ∀ k ∈ [2, 3], Spec.names (sharedScript.take k) = ["r", "q"] := by
    intro k hk
    simp only [List.mem_cons, List.not_mem_nil, or_false] at hk
    rcases hk with rfl | rfl <;> simp [sharedScript, Spec.names, List.eraseDups_cons]
  have n1 := n 2 (by simp)
  have n2 := n 3 (by simp)
  simp only [sharedScript, List.take_succ_cons, List.take_zero] at n1 n2 ⊢
  simp only [Spec.ledger, List.nil_append, List.cons_append]
  simp only [Spec.entry, n1, n2, List.foldl_cons, List.foldl_nil, Spec.home, Spec.directory,
    List.filterMap_cons, List.filterMap_nil, Spec.put]
  simp [e]

end

end Slat.Session
