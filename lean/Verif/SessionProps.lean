import Verif.SessionLemmas
import Verif.GramProps

/-!
# Properties of whole sessions (C87): from the text of a script to its files

The full statement: if a session ends without an exception, the file of every recorder holds the table
that was ordered.  `session_file_partial` and `session_table_partial` prove it for scripts of commands
that the interpreter gets right (`Cmd.sound`, C43), for a recorder that does not append and has its
file to itself, and, as far as tables are concerned, for the reports that work (`Rec.Spec.Working`,
C62).  The library is any.
-/

namespace Slat.Session

noncomputable section

open Interp (Val Call Cmd Cfg Err)
open Output (Path Files)

variable {W : Type}

/-- A session that starts: nothing is recorded, no directory is set. -/
def start (w : W) (fs : Files) : State W := ⟨w, [], none, fs⟩

theorem at_values {M : Machine} (c : Cfg) (ρ : Interp.Vars) (a : Interp.At) (l : List Dbl)
    (ha : Spec.arguments M a = some l) :
    ∃ v, a.value c ρ = .ok v ∧ atOf M v = .ok (l.map Rec.Num.flt) := by
  cases a with
  | floats q =>
    simp only [Spec.arguments, Option.some.injEq] at ha
    subst ha
    refine ⟨_, rfl, ?_⟩
    simp only [atOf]
    induction q with
    | nil => rfl
    | cons x q ih => rw [List.map_cons, List.mapM_cons, ih]; rfl
  | range a i b =>
    refine ⟨_, rfl, ?_⟩
    simp only [Spec.arguments, Ranges.colons, Option.map_eq_some_iff] at ha
    obtain ⟨q, hq, rfl⟩ := ha
    simp [atOf, hq, Function.comp_def]
  | counted a b g n =>
    cases g with
    | true =>
      refine ⟨_, rfl, ?_⟩
      simp only [Spec.arguments] at ha
      split at ha
      · next q hq =>
        cases ha
        simp [atOf, hq]
      · cases ha
    | false =>
      refine ⟨_, rfl, ?_⟩
      simp only [Spec.arguments] at ha
      split at ha
      · next q hq =>
        cases ha
        have hq' : Ranges.linrange M.rnd a b (n : ℤ) M.tests = .list q := hq
        simp [atOf, hq', Function.comp_def]
      · cases ha
  | py e => cases ha
  | var x => cases ha

theorem col_values (c : Cfg) (ρ : Interp.Vars) : ∀ (l : List Interp.Col) (cs : List Rec.Col),
    l.mapM Spec.column = some cs → ∃ vs, Interp.values (Interp.Col.value c ρ) l = .ok vs ∧ vs.mapM colOf = .ok cs := by
  intro l
  induction l with
  | nil => intro cs hc; cases hc; exact ⟨[], rfl, rfl⟩
  | cons x l ih =>
    intro cs hc
    rw [List.mapM_cons] at hc
    obtain ⟨y, hy, hc⟩ := Option.bind_eq_some_iff.1 hc
    obtain ⟨ys, hys, hc⟩ := Option.bind_eq_some_iff.1 hc
    cases hc
    obtain ⟨vs, h1, h2⟩ := ih ys hys
    have hone : ∃ v, Interp.Col.value c ρ x = .ok v ∧ colOf v = .ok y := by
      cases x with
      | placement m => cases m <;> cases hy <;> exact ⟨_, rfl, rfl⟩
      | spread d => cases d <;> cases hy <;> exact ⟨_, rfl, rfl⟩
      | scalar s =>
        cases s with
        | str t => cases hy
        | num n => cases n <;> cases hy <;> exact ⟨_, rfl, rfl⟩
    obtain ⟨v, h3, h4⟩ := hone
    refine ⟨v :: vs, ?_, ?_⟩
    · simp [Interp.values, h3, h1]
    · rw [List.mapM_cons, h4, h2]; rfl

theorem order_values {M : Machine} {b : Interp.RecBody} {k : Rec.Kind} {cols : Option (List Rec.Col)}
    {at_ : List Dbl} (h : Spec.order M b = some (k, cols, at_)) (c : Cfg) (ρ : Interp.Vars) :
    ∃ cv av, b.colsAt c ρ = .ok (cv, av) ∧ colsOf cv = .ok cols ∧
      atsOf M av = .ok (some (at_.map Rec.Num.flt)) ∧ kindOf b.type = some k := by
  have hat := at_values (M := M) c ρ
  have hcol := col_values c ρ
  cases b with
  | fn t id a cs =>
    cases cs with
    | none =>
      obtain ⟨l, hl, h⟩ := Option.bind_eq_some_iff.1 h
      cases h
      obtain ⟨v, h1, h2⟩ := hat a _ hl
      refine ⟨none, some v, ?_, rfl, ?_, ?_⟩
      · simp [Interp.RecBody.colsAt, h1, Interp.colsValue]
      · simp [atsOf, h2, Except.map]
      · cases t <;> simp [kindOf, Interp.RecBody.type] <;> decide
    | some cs =>
      obtain ⟨l', hl', h⟩ := Option.bind_eq_some_iff.1 h
      obtain ⟨l, hl, h⟩ := Option.bind_eq_some_iff.1 h
      cases h
      obtain ⟨v, h1, h2⟩ := hat a _ hl
      obtain ⟨vs, h3, h4⟩ := hcol cs _ hl'
      refine ⟨some (.list vs), some v, ?_, ?_, ?_, ?_⟩
      · simp [Interp.RecBody.colsAt, h1, Interp.colsValue, h3]
      · simp [colsOf, h4, Except.map]
      · simp [atsOf, h2, Except.map]
      · cases t <;> simp [kindOf, Interp.RecBody.type] <;> decide
  | rates t id a =>
    obtain ⟨l, hl, h⟩ := Option.bind_eq_some_iff.1 h
    cases h
    obtain ⟨v, h1, h2⟩ := hat a _ hl
    refine ⟨none, some v, ?_, rfl, ?_, ?_⟩
    · simp [Interp.RecBody.colsAt, h1]
    · simp [atsOf, h2, Except.map]
    · cases t <;> simp [kindOf, Interp.RecBody.type] <;> decide
  | _ => cases h

theorem request_values {M : Machine} {b : Interp.RecBody} {k : Rec.Kind}
    {cols : Option (List Rec.Col)} {at_ : Option (List Rec.Num)} {o : Rec.Opts}
    (h : Spec.request M b = some (k, cols, at_, o)) (c : Cfg) (ρ : Interp.Vars)
    (po : Option Interp.PrintOpts) :
    ∃ cv av, b.colsAt c ρ = .ok (cv, av) ∧ colsOf cv = .ok cols ∧ atsOf M av = .ok at_ ∧
      kindOf b.type = some k ∧ optsOf (b.options po) = o := by
  have hat := at_values (M := M) c ρ
  have hcol := col_values c ρ
  cases b with
  | fn t id a cs =>
    obtain ⟨⟨k', cols', xs⟩, h1, h⟩ := Option.bind_eq_some_iff.1 h
    cases h
    obtain ⟨cv, av, e1, e2, e3, e4⟩ := order_values h1 c ρ
    exact ⟨cv, av, e1, e2, e3, e4, by simp [optsOf, Interp.RecBody.options]⟩
  | rates t id a =>
    obtain ⟨⟨k', cols', xs⟩, h1, h⟩ := Option.bind_eq_some_iff.1 h
    cases h
    obtain ⟨cv, av, e1, e2, e3, e4⟩ := order_values h1 c ρ
    exact ⟨cv, av, e1, e2, e3, e4, by simp [optsOf, Interp.RecBody.options]⟩
  | dsrate i =>
    cases h
    exact ⟨none, none, rfl, rfl, rfl, by simp [kindOf, Interp.RecBody.type]; decide, by simp [optsOf, Interp.RecBody.options]⟩
  | collrate i =>
    cases h
    exact ⟨none, none, rfl, rfl, rfl, by simp [kindOf, Interp.RecBody.type]; decide, by simp [optsOf, Interp.RecBody.options]⟩
  | pdf i a n =>
    obtain ⟨l, hl, h⟩ := Option.bind_eq_some_iff.1 h
    cases h
    obtain ⟨v, h1, h2⟩ := hat a _ hl
    refine ⟨none, some v, ?_, rfl, ?_, by simp [kindOf, Interp.RecBody.type]; decide,
      by simp [optsOf, Interp.RecBody.options]⟩
    · simp [Interp.RecBody.colsAt, h1]
    · simp [atsOf, h2, Except.map]
  | npv i f g l r =>
    simp only [Spec.request] at h
    split at h
    · next q hq =>
      cases h
      refine ⟨none, some (.range f l g), rfl, rfl, ?_, by simp [kindOf, Interp.RecBody.type]; decide,
        by simp [optsOf, Interp.RecBody.options, costType]⟩
      simp only [atsOf, atOf, hq, Except.map]
      clear hq
      induction q <;> simp_all
    · cases h
  | by_ t i a cs =>
    have ht : optsOf ((Interp.RecBody.by_ t i a cs).options po) =
        { structType := some (Spec.costs t) } := by
      cases t <;> simp [optsOf, Interp.RecBody.options, costType, Spec.costs]
    cases cs with
    | none =>
      obtain ⟨l, hl, h⟩ := Option.bind_eq_some_iff.1 h
      cases h
      obtain ⟨v, h1, h2⟩ := hat a _ hl
      refine ⟨none, some v, ?_, rfl, ?_, by simp [kindOf, Interp.RecBody.type]; decide, ht⟩
      · simp [Interp.RecBody.colsAt, h1, Interp.colsValue]
      · simp [atsOf, h2, Except.map]
    | some cs =>
      obtain ⟨l', hl', h⟩ := Option.bind_eq_some_iff.1 h
      obtain ⟨l, hl, h⟩ := Option.bind_eq_some_iff.1 h
      cases h
      obtain ⟨v, h1, h2⟩ := hat a _ hl
      obtain ⟨vs, h3, h4⟩ := hcol cs _ hl'
      refine ⟨some (.list vs), some v, ?_, ?_, ?_,
        by simp [kindOf, Interp.RecBody.type]; decide, ht⟩
      · simp [Interp.RecBody.colsAt, h1, Interp.colsValue, h3]
      · simp [colsOf, h4, Except.map]
      · simp [atsOf, h2, Except.map]
  | annual i po' cs =>
    obtain ⟨_ | mu, _ | sp⟩ := po' <;> try cases h
    cases cs with
    | some cs => cases h
    | none =>
      cases h
      refine ⟨some (.list [.str mu.text, .str sp.text]), none, rfl, ?_, rfl,
        by simp [kindOf, Interp.RecBody.type]; decide, by simp [optsOf, Interp.RecBody.options, costType]⟩
      cases mu <;> cases sp <;> rfl

/-- The listener's part: the recorder made by a command of the script, and its output at the end. -/
theorem run_file {L : Lib W} {M : Machine} {c : Cfg} {A B C : List Cmd} {rid file : String}
    {b : Interp.RecBody} {w : W} {fs : Files} {σ : State W}
    (hs : ∀ m ∈ A ++ .recorder rid b (some ⟨file, false⟩) :: B ++ C, m.sound = true)
    (hr : run L M c (A ++ .recorder rid b (some ⟨file, false⟩) :: B ++ .analyze :: C) {} (start w fs) =
      (σ, none))
    (hB : ∀ b' po, Cmd.recorder rid b' po ∉ B)
    (hal : Spec.Alone (Output.dirOf (Spec.directory (A ++ B))) rid file (A ++ B))
    (hu : Spec.Untouched (Output.fullPath (Output.dirOf (Spec.directory (A ++ B))) file.toList)
      (A ++ .recorder rid b (some ⟨file, false⟩) :: B ++ [.analyze]) C) :
    ∃ (sA : Interp.St) (σA σZ : State W) (k : Rec.Kind) (cv : Option Val) (av : Option Val)
      (cs : Option (List Rec.Col)) (as : Option (List Rec.Num)) (r : Rec.Recorder),
      run L M c A {} (start w fs) = (σA, none) ∧
      run L M c (A ++ .recorder rid b (some ⟨file, false⟩) :: B) {} (start w fs) = (σZ, none) ∧ b.colsAt c sA.vars = .ok (cv, av) ∧
      colsOf cv = .ok cs ∧ atsOf M av = .ok as ∧ kindOf b.type = some k ∧
      Rec.make k (seen L σA.lib (L.find σA.lib b.registry b.id))
        (optsOf (b.options (some ⟨file, false⟩))) cs as = .ok r ∧
      (Rec.printed (Rec.output { r with fn := seen L σZ.lib (L.find σA.lib b.registry b.id) })).2 = none ∧
      σ.files (Output.fullPath (Output.dirOf (Spec.directory (A ++ B))) file.toList) =
        some ((Rec.printed (Rec.output
          { r with fn := seen L σZ.lib (L.find σA.lib b.registry b.id) })).1.map M.render) := by
  obtain ⟨sB, σB, hB1, hZ, hB3⟩ := run_append (fun m hm => hs m (List.mem_append_left _ hm)) rfl hr
  obtain ⟨sA, σA, hA1, hA2, hA3⟩ := run_append (fun m hm => hs m (by simp [hm])) rfl hZ
  obtain ⟨k, s₁, σ₁, h1, h2, h3, h4, -⟩ := run_cons (hs _ (by simp)) hA1 hA3
  have hKA : Kept A σA := by
    simpa using (Kept.init w fs).run (fun m hm => hs m (by simp [hm])) rfl hA2
  have hK1 := hKA.step h1 h3
  obtain ⟨cv, av, hcv, rfl⟩ := recorder_calls h1
  simp only [execAll, exec] at h3
  cases hrec : record L M σA rid b.type b.registry b.id (b.options (some ⟨file, false⟩)) cv av with
  | error e => rw [hrec] at h3; cases h3
  | ok σ₂ =>
    rw [hrec] at h3
    cases h3
    obtain ⟨k, cs, as, r, hcs, has, hk, hr', e⟩ := record_ok hrec
    have hKB : Kept (A ++ [.recorder rid b (some ⟨file, false⟩)] ++ B) σB :=
      hK1.run (fun m hm => hs m (by simp [hm])) h2 h4
    have hin : (rid, Held.mk r (L.find σA.lib b.registry b.id) (some file.toList) false) ∈ σB.recs := by
      refine stays hK1 (fun m hm => hs m (by simp [hm])) h2 h4 hB ?_
      rw [e]
      exact (dictSet_mem hKA.nodup _ _ _ _).2 (Or.inl ⟨rfl, by simp [Interp.RecBody.options]⟩)
    obtain ⟨kz, sz, σz, hz1, hz2, hz3, hz4, -⟩ := run_cons rfl hB1 hB3
    cases hz1
    have hdir : σB.outDir = Spec.directory (A ++ B) := by
      rw [hKB.dir]
      simp [Spec.directory, List.filterMap_append]
    have hend := untouched (hKB.step (L := L) (M := M) (c := c) (m := .analyze) (ρ := sB.vars) (t := []) rfl hz3)
      (fun m hm => hs m (by simp [hm])) hz2 hz4 (by simpa using hu)
    rw [hend]
    clear hend
    rw [execAll] at hz3
    simp only [exec, analyze, hdir, execAll] at hz3
    generalize hgo : Output.analyze (Output.dirOf (Spec.directory (A ++ B))) M.openable σB.files
      (σB.recs.map fun p => p.2.run L M σB.lib) = res at hz3
    rcases res with ⟨fs', okv⟩
    cases okv with
    | false => simp at hz3
    | true =>
      simp only [if_true, Prod.mk.injEq, and_true] at hz3
      subst hz3
      -- every recorder ran
      have hruns : ∀ (rs : List Output.Rec) (g : Files), (Output.analyze
          (Output.dirOf (Spec.directory (A ++ B))) M.openable g rs).2 = true →
          ∀ x ∈ rs, Output.Runs (Output.dirOf (Spec.directory (A ++ B))) M.openable x := by
        intro rs
        induction rs with
        | nil => intro g _ x hx; cases hx
        | cons y rs ih =>
          intro g hg x hx
          rw [Output.analyze] at hg
          split at hg
          · next hy =>
            rcases List.mem_cons.1 hx with rfl | hx
            · unfold Output.runRec at hy
              cases hf : x.file with
              | none => rw [hf] at hy; cases hy
              | some p =>
                rw [hf] at hy
                dsimp only at hy
                split at hy
                · next ho => exact ⟨hy, p, hf, ho⟩
                · cases hy
            · exact ih _ hg x hx
          · cases hg
      have hall := hruns _ _ (by rw [hgo])
      obtain ⟨pre, post, hpp⟩ := List.append_of_mem hin
      have hnd := hKB.nodup
      rw [hpp] at hnd
      have hother : ∀ q ∈ post, ¬ Output.For (Output.dirOf (Spec.directory (A ++ B)))
          (Output.fullPath (Output.dirOf (Spec.directory (A ++ B))) file.toList)
          (q.2.run L M σB.lib) := by
        rintro ⟨i, hd⟩ hq ⟨p, hp1, hp2⟩
        have hne : i ≠ rid := by
          rintro rfl
          rw [List.map_append, List.map_cons] at hnd
          have := (List.nodup_append.1 hnd).2.1
          rw [List.nodup_cons] at this
          exact this.1 (List.mem_map.2 ⟨_, hq, rfl⟩)
        obtain ⟨b', po, hb', hpf⟩ := hKB.files i hd (by rw [hpp]; simp [hq]) p hp1
        refine hal i b' po ?_ hne (by rw [← hpf]; exact hp2)
        simp only [List.mem_append, List.mem_singleton, Cmd.recorder.injEq] at hb'
        rcases hb' with (hb' | hb') | hb'
        · simp [hb']
        · exact absurd hb'.1 hne
        · simp [hb']
      have key := Output.overwritten (Output.dirOf (Spec.directory (A ++ B))) M.openable
        (pre.map fun p => p.2.run L M σB.lib) (post.map fun p => p.2.run L M σB.lib)
        (Held.run L M σB.lib ⟨r, L.find σA.lib b.registry b.id, some file.toList, false⟩)
        (Output.fullPath (Output.dirOf (Spec.directory (A ++ B))) file.toList)
        (by
          intro x hx
          refine hall x ?_
          rw [hpp]
          simpa using hx)
        ⟨_, rfl, rfl⟩ rfl
        (by
          intro x hx hF
          obtain ⟨q, hq, rfl⟩ := List.mem_map.1 hx
          exact absurd hF (hother q hq)) σB.files
      have hlf : Output.linesFor (Output.dirOf (Spec.directory (A ++ B)))
          (Output.fullPath (Output.dirOf (Spec.directory (A ++ B))) file.toList)
          (post.map fun p => p.2.run L M σB.lib) = [] := by
        unfold Output.linesFor
        rw [List.filter_eq_nil_iff.2, List.flatMap_nil]
        intro x hx
        obtain ⟨q, hq, rfl⟩ := List.mem_map.1 hx
        simpa using hother q hq
      refine ⟨sA, σA, σB, k, cv, av, cs, as, r, hA2, hZ, hcv, hcs, has, hk, hr', ?_, ?_⟩
      · have := (hall (Held.run L M σB.lib ⟨r, L.find σA.lib b.registry b.id, some file.toList, false⟩)
          (List.mem_map.2 ⟨_, hin, rfl⟩)).1
        simpa [Held.run] using this
      · have e2 : (σB.recs.map fun p => p.2.run L M σB.lib) = (pre.map fun p => p.2.run L M σB.lib) ++
            Held.run L M σB.lib ⟨r, L.find σA.lib b.registry b.id, some file.toList, false⟩ ::
              (post.map fun p => p.2.run L M σB.lib) := by
          rw [hpp]; simp
        rw [e2] at hgo
        rw [hgo, hlf, List.append_nil] at key
        exact key

/-- **C87.** A session that ends without an exception leaves in the file of a recorder what the recorder
prints, for any kind of report: it looks at the object that had the name when the recorder was
made, as that object is at the end. -/
theorem session_file_partial {L : Lib W} {M : Machine} {ev : String → Except Err Val} {p : Gram.Pen}
    {ls : List (Gram.Style × Cmd)} {text : List Char} {A B C : List Cmd} {rid file : String}
    {b : Interp.RecBody} {w : W} {fs : Files} {σ : State W}
    (hok : ∀ c ∈ ls, Gram.OkCmd p c.2) (ht : Lex.Written (Gram.toks (Gram.writeScript p ls)) text)
    (hl : ls.map (·.2) = A ++ .recorder rid b (some ⟨file, false⟩) :: B ++ .analyze :: C)
    (hs : ∀ m ∈ A ++ .recorder rid b (some ⟨file, false⟩) :: B ++ C, m.sound = true)
    (hr : session L M ev (start w fs) text = (σ, none))
    (hB : ∀ b' po, Cmd.recorder rid b' po ∉ B)
    (hal : Spec.Alone (Output.dirOf (Spec.directory (A ++ B))) rid file (A ++ B))
    (hu : Spec.Untouched (Output.fullPath (Output.dirOf (Spec.directory (A ++ B))) file.toList)
      (A ++ .recorder rid b (some ⟨file, false⟩) :: B ++ [.analyze]) C) :
    ∃ (sA : Interp.St) (σA σZ : State W) (k : Rec.Kind) (cv : Option Val) (av : Option Val)
      (cs : Option (List Rec.Col)) (as : Option (List Rec.Num)) (r : Rec.Recorder),
      run L M ⟨ev, Gram.preprocessString⟩ A {} (start w fs) = (σA, none) ∧
      run L M ⟨ev, Gram.preprocessString⟩ (A ++ .recorder rid b (some ⟨file, false⟩) :: B) {} (start w fs) =
        (σZ, none) ∧
      b.colsAt ⟨ev, Gram.preprocessString⟩ sA.vars = .ok (cv, av) ∧
      colsOf cv = .ok cs ∧ atsOf M av = .ok as ∧ kindOf b.type = some k ∧
      Rec.make k (seen L σA.lib (L.find σA.lib b.registry b.id))
        (optsOf (b.options (some ⟨file, false⟩))) cs as = .ok r ∧
      (Rec.printed (Rec.output { r with fn := seen L σZ.lib (L.find σA.lib b.registry b.id) })).2 = none ∧
      σ.files (Output.fullPath (Output.dirOf (Spec.directory (A ++ B))) file.toList) =
        some ((Rec.printed (Rec.output
          { r with fn := seen L σZ.lib (L.find σA.lib b.registry b.id) })).1.map M.render) := by
  rw [session, Gram.script_read hok ht, hl] at hr
  exact run_file hs hr hB hal hu

/-- **C87.** The same with the kind of report, the columns, the arguments and the options as they are ordered in
the script. -/
theorem session_report_partial {L : Lib W} {M : Machine} {ev : String → Except Err Val} {p : Gram.Pen}
    {ls : List (Gram.Style × Cmd)} {text : List Char} {A B C : List Cmd} {rid file : String}
    {b : Interp.RecBody} {w : W} {fs : Files} {σ : State W} {k : Rec.Kind}
    {cols : Option (List Rec.Col)} {at_ : Option (List Rec.Num)} {o : Rec.Opts}
    (hok : ∀ c ∈ ls, Gram.OkCmd p c.2) (ht : Lex.Written (Gram.toks (Gram.writeScript p ls)) text)
    (hl : ls.map (·.2) = A ++ .recorder rid b (some ⟨file, false⟩) :: B ++ .analyze :: C)
    (hs : ∀ m ∈ A ++ .recorder rid b (some ⟨file, false⟩) :: B ++ C, m.sound = true)
    (hr : session L M ev (start w fs) text = (σ, none))
    (hB : ∀ b' po, Cmd.recorder rid b' po ∉ B)
    (hal : Spec.Alone (Output.dirOf (Spec.directory (A ++ B))) rid file (A ++ B))
    (hu : Spec.Untouched (Output.fullPath (Output.dirOf (Spec.directory (A ++ B))) file.toList)
      (A ++ .recorder rid b (some ⟨file, false⟩) :: B ++ [.analyze]) C)
    (hq : Spec.request M b = some (k, cols, at_, o)) :
    ∃ (σA σZ : State W) (r : Rec.Recorder),
      run L M ⟨ev, Gram.preprocessString⟩ A {} (start w fs) = (σA, none) ∧
      run L M ⟨ev, Gram.preprocessString⟩ (A ++ .recorder rid b (some ⟨file, false⟩) :: B) {} (start w fs) =
        (σZ, none) ∧
      Rec.make k (seen L σA.lib (L.find σA.lib b.registry b.id)) o cols at_ = .ok r ∧
      (Rec.printed (Rec.output { r with fn := seen L σZ.lib (L.find σA.lib b.registry b.id) })).2 = none ∧
      σ.files (Output.fullPath (Output.dirOf (Spec.directory (A ++ B))) file.toList) =
        some ((Rec.printed (Rec.output
          { r with fn := seen L σZ.lib (L.find σA.lib b.registry b.id) })).1.map M.render) := by
  obtain ⟨sA, σA, σZ, k', cv, av, cs, as, r, h1, hz, h2, h3, h4, h5, h6, h7, h8⟩ :=
    session_file_partial hok ht hl hs hr hB hal hu
  obtain ⟨cv', av', e1, e2, e3, e4, e5⟩ := request_values hq ⟨ev, Gram.preprocessString⟩ sA.vars
    (some ⟨file, false⟩)
  rw [e1] at h2
  cases h2
  rw [e2] at h3
  cases h3
  rw [e3] at h4
  cases h4
  rw [e4] at h5
  cases h5
  rw [e5] at h6
  exact ⟨σA, σZ, r, h1, hz, h6, h7, h8⟩

/-- A library in which every name is that of the identity. -/
def tiny : Lib Unit := ⟨fun w _ => .ok w, fun _ _ _ => some 0, fun _ _ => .detfn fun x => x, fun _ _ => ""⟩

/-- See `tiny`. -/
def tinyRec : Interp.RecBody := .fn .detfn "a" (.floats [1/2]) none

/-- A machine on which every file can be opened. -/
def tinyMachine : Machine := ⟨id, 100, fun _ => true, fun r => toString r.length⟩

/-- Two analyses, two directories:

    outputdir one;
    recorder r detfn a --at 0.5 --file f;
    analyze;
    outputdir two;
    analyze;
-/
def tinyScript : List Cmd :=
  [.outputdir "one", .recorder "r" tinyRec (some ⟨"f", false⟩), .analyze, .outputdir "two", .analyze]

theorem tinyScript_sound : ∀ m ∈ tinyScript, m.sound = true := by
  simp [tinyScript, tinyRec, Interp.Cmd.sound]

theorem tiny_session (ev : String → Except Err Val) (fs : Files) :
    ∃ (p : Gram.Pen) (ls : List (Gram.Style × Cmd)) (text : List Char) (σ : State Unit),
      (∀ c ∈ ls, Gram.OkCmd p c.2) ∧ Lex.Written (Gram.toks (Gram.writeScript p ls)) text ∧
      ls.map (·.2) = tinyScript ∧
      session tiny tinyMachine ev (start () fs) text = (σ, none) := by
  obtain ⟨p, hi, hf⟩ := Gram.pen_exists
  have n : ∀ s ∈ ["a", "r", "f", "one", "two"], Gram.OkName s := by
    have h : ∀ s ∈ ["a", "r", "f", "one", "two"], (match s.toList with
        | [] => false
        | c :: r => Lex.nondigit c && r.all fun d => Lex.nondigit d || Lex.digit d) = true ∧
        (∀ q ∈ Lex.vocabulary, q.2.toList ≠ s.toList) ∧ ¬ "loglog".toList <+: s.toList := by
      decide +kernel
    exact fun s hs => Gram.okName (h s hs).1 (h s hs).2.1 (h s hs).2.2
  have fl : ∀ s ∈ ["f", "one", "two"], Gram.OkFile s := by
    intro s hs
    have h1 : ∀ s ∈ ["f", "one", "two"], '/' ∉ s.toList := by decide
    unfold Gram.OkFile
    rw [if_neg (h1 s hs)]
    exact n s (by revert s; decide)
  have hok : ∀ c ∈ tinyScript.map fun c => (({}, c) : Gram.Style × Cmd), Gram.OkCmd p c.2 := by
    intro c hc
    simp only [tinyScript, List.map_cons, List.map_nil, List.mem_cons, List.not_mem_nil, or_false] at hc
    rcases hc with rfl | rfl | rfl | rfl | rfl
    · exact fl _ (by decide)
    · refine ⟨n _ (by decide), ⟨n _ (by decide), ⟨by simp, ?_⟩, by intro l hl; cases hl⟩, ?_⟩
      · intro x hx
        rw [List.mem_singleton.1 hx]
        exact hf _ ⟨5, 1, by norm_num⟩
      · intro q hq
        cases hq
        exact fl _ (by decide)
    · trivial
    · exact fl _ (by decide)
    · trivial
  have hr : ∃ σ, run tiny tinyMachine ⟨ev, Gram.preprocessString⟩ tinyScript {} (start () fs) =
      (σ, none) := ⟨_, rfl⟩
  obtain ⟨σ, hr⟩ := hr
  refine ⟨p, _, _, σ, hok, Gram.script_writable hok, by simp [tinyScript], ?_⟩
  rw [session, Gram.script_read hok (Gram.script_writable hok)]
  simpa [tinyScript] using hr

theorem tiny_untouched : Spec.Untouched "one/f.csv".toList
    ([.outputdir "one"] ++ .recorder "r" tinyRec (some ⟨"f", false⟩) :: [] ++ [.analyze])
    [.outputdir "two", .analyze] := by
  refine ⟨trivial, ?_, trivial⟩
  intro i b po h
  simp only [List.cons_append, List.nil_append, List.mem_cons, reduceCtorEq, List.not_mem_nil,
    Cmd.recorder.injEq, Option.some.injEq, false_or, or_false] at h
  obtain ⟨-, -, rfl⟩ := h
  decide

example (ev : String → Except Err Val) (fs : Files) : ∃ text σ,
    session tiny tinyMachine ev (start () fs) text = (σ, none) ∧
    (∃ l, σ.files "one/f.csv".toList = some l) ∧ ∃ l, σ.files "two/f.csv".toList = some l := by
  obtain ⟨p, ls, text, σ, hok, ht, hl, hr⟩ := tiny_session ev fs
  obtain ⟨_, _, _, _, _, _, _, _, _, -, -, -, -, -, -, -, -, h⟩ := session_file_partial
    (A := [.outputdir "one"]) (B := []) (C := [.outputdir "two", .analyze]) hok ht hl
    (fun m hm => tinyScript_sound m (by simp [tinyScript] at hm ⊢; tauto)) hr (by simp) (by simp [Spec.Alone]) tiny_untouched
  obtain ⟨_, _, _, _, _, _, _, _, _, -, -, -, -, -, -, -, -, h'⟩ := session_file_partial
    (A := [.outputdir "one"]) (B := [.analyze, .outputdir "two"]) (C := []) hok ht hl
    (fun m hm => tinyScript_sound m (by simp [tinyScript] at hm ⊢; tauto)) hr (by simp) (by simp [Spec.Alone]) trivial
  exact ⟨text, σ, hr, ⟨_, h⟩, _, h'⟩

example (ev : String → Except Err Val) (fs : Files) : ∃ text σ r,
    session tiny tinyMachine ev (start () fs) text = (σ, none) ∧
    Rec.make .detfn (.detfn fun x => x) {} none (some [.flt (.fin ((1/2 : ℚ) : ℝ))]) = .ok r ∧
    σ.files "one/f.csv".toList = some ((Rec.printed (Rec.output { r with fn := .detfn fun x => x })).1.map
      tinyMachine.render) := by
  obtain ⟨p, ls, text, σ, hok, ht, hl, hr⟩ := tiny_session ev fs
  obtain ⟨σA, σZ, r, -, -, h1, -, h2⟩ := session_report_partial
    (A := [.outputdir "one"]) (B := []) (C := [.outputdir "two", .analyze]) hok ht hl
    (fun m hm => tinyScript_sound m (by simp [tinyScript] at hm ⊢; tauto)) hr (by simp) (by simp [Spec.Alone]) tiny_untouched
    (k := .detfn) (cols := none) (at_ := some [.flt (.fin ((1/2 : ℚ) : ℝ))]) (o := {}) rfl
  exact ⟨text, σ, r, hr, h1, h2⟩

example (M : Machine) : Spec.request M (.npv "s" 10 5 30 (1/20)) =
    some (.structcost, none, some [.int 10, .int 15, .int 20, .int 25],
      { structType := some .npv, discountRate := some (.fin ((1/20 : ℚ) : ℝ)) }) := rfl

/-- **C87.** For the reports that work, the file holds the table that was ordered: a line of headings, then
one line for each argument, in order. -/
theorem session_table_partial {L : Lib W} {M : Machine} {ev : String → Except Err Val} {p : Gram.Pen}
    {ls : List (Gram.Style × Cmd)} {text : List Char} {A B C : List Cmd} {rid file : String}
    {b : Interp.RecBody} {w : W} {fs : Files} {σ σA σZ : State W} {k : Rec.Kind}
    {cols : Option (List Rec.Col)} {at_ : List Dbl} {t : List Rec.Row}
    (hok : ∀ c ∈ ls, Gram.OkCmd p c.2) (ht : Lex.Written (Gram.toks (Gram.writeScript p ls)) text)
    (hl : ls.map (·.2) = A ++ .recorder rid b (some ⟨file, false⟩) :: B ++ .analyze :: C)
    (hs : ∀ m ∈ A ++ .recorder rid b (some ⟨file, false⟩) :: B ++ C, m.sound = true)
    (hr : session L M ev (start w fs) text = (σ, none))
    (hB : ∀ b' po, Cmd.recorder rid b' po ∉ B)
    (hal : Spec.Alone (Output.dirOf (Spec.directory (A ++ B))) rid file (A ++ B))
    (hu : Spec.Untouched (Output.fullPath (Output.dirOf (Spec.directory (A ++ B))) file.toList)
      (A ++ .recorder rid b (some ⟨file, false⟩) :: B ++ [.analyze]) C)
    (ho : Spec.order M b = some (k, cols, at_)) (hw : Rec.Spec.Working k cols)
    (hA : run L M ⟨ev, Gram.preprocessString⟩ A {} (start w fs) = (σA, none))
    (hZ : run L M ⟨ev, Gram.preprocessString⟩ (A ++ .recorder rid b (some ⟨file, false⟩) :: B) {} (start w fs) =
      (σZ, none))
    (htab : Rec.Spec.table k (seen L σZ.lib (L.find σA.lib b.registry b.id)) cols at_ = some t)
    (hn : ∀ g g', seen L σA.lib (L.find σA.lib b.registry b.id) = .group g →
      seen L σZ.lib (L.find σA.lib b.registry b.id) = .group g' → (k = .dsedp ∨ k = .dsim) →
      g'.onsets ≠ [] ∧ g.onsets.length = g'.onsets.length)
    (hp : ∀ g x, seen L σZ.lib (L.find σA.lib b.registry b.id) = .group g → k = .dsim →
      (g.pDsIm x).length = g.onsets.length) :
    σ.files (Output.fullPath (Output.dirOf (Spec.directory (A ++ B))) file.toList) =
      some (t.map M.render) := by
  obtain ⟨sA, σA', σZ', k', cv, av, cs, as, r, h1, hz, h2, h3, h4, h5, h6, h7, h8⟩ :=
    session_file_partial hok ht hl hs hr hB hal hu
  obtain rfl : σA = σA' := by rw [hA] at h1; exact (Prod.mk.inj h1).1
  obtain rfl : σZ = σZ' := by rw [hZ] at hz; exact (Prod.mk.inj hz).1
  obtain ⟨cv', av', e1, e2, e3, e4⟩ := order_values ho ⟨ev, Gram.preprocessString⟩ sA.vars
  rw [e1] at h2
  cases h2
  rw [e2] at h3
  cases h3
  rw [e3] at h4
  cases h4
  rw [e4] at h5
  cases h5
  have hkn : k ≠ .structcost := by
    rintro rfl
    simp [Rec.Spec.table, Rec.Spec.argument] at htab
  obtain ⟨c1, d1, rfl, -⟩ := Rec.make_base_ok _ _ _ _ _ _ hkn h6
  have hng : ∀ g, seen L σZ.lib (L.find σA.lib b.registry b.id) = .group g → (k = .dsedp ∨ k = .dsim) →
      g.onsets ≠ [] := by
    intro g hg hk
    cases hA' : seen L σA.lib (L.find σA.lib b.registry b.id) with
    | group g0 => exact (hn g0 g hA' hg hk).1
    | _ =>
      rw [hA'] at d1
      rcases hk with rfl | rfl <;>
      · simp only [Rec.Spec.Working] at hw
        subst hw
        simp [Rec.defaultColumns] at d1
  obtain ⟨r', m1, m2⟩ := Rec.prints_table_partial k _ (optsOf (b.options (some ⟨file, false⟩))) cols at_ t hw
    htab hng hp
  obtain ⟨c2, d2, rfl, -⟩ := Rec.make_base_ok _ _ _ _ _ _ hkn m1
  have hcc : c1 = c2 := by
    cases cols with
    | some l => simp only [Rec.defaultColumns, Except.ok.injEq] at d1 d2; rw [← d1, ← d2]
    | none =>
      by_cases hk : k = .dsedp ∨ k = .dsim
      · cases hA' : seen L σA.lib (L.find σA.lib b.registry b.id) with
        | group g =>
          cases hZ : seen L σZ.lib (L.find σA.lib b.registry b.id) with
          | group g' =>
            have := (hn g g' hA' hZ hk).2
            rw [hA'] at d1
            rw [hZ] at d2
            rcases hk with rfl | rfl <;>
            · simp only [Rec.defaultColumns, Except.ok.injEq] at d1 d2
              rw [← d1, ← d2, this]
          | _ =>
            rw [hZ] at d2
            rcases hk with rfl | rfl <;> simp [Rec.defaultColumns] at d2
        | _ =>
          rw [hA'] at d1
          rcases hk with rfl | rfl <;> simp [Rec.defaultColumns] at d1
      · push Not at hk
        cases k <;> simp_all [Rec.defaultColumns]
  subst hcc
  rw [h8]
  simp only at m2 ⊢
  rw [m2]

example (ev : String → Except Err Val) (fs : Files) : ∃ text σ,
    session tiny tinyMachine ev (start () fs) text = (σ, none) ∧
    σ.files "one/f.csv".toList = some ["2", "2"] := by
  obtain ⟨p, ls, text, σ, hok, ht, hl, hr⟩ := tiny_session ev fs
  have h := session_table_partial (A := [.outputdir "one"]) (B := []) (C := [.outputdir "two", .analyze])
    hok ht hl (fun m hm => tinyScript_sound m (by simp [tinyScript] at hm ⊢; tauto)) hr (by simp)
    (by simp [Spec.Alone]) tiny_untouched (k := .detfn) (cols := none) (at_ := [.fin ((1/2 : ℚ) : ℝ)])
    rfl rfl rfl rfl rfl
    (by intro g g' e; cases e) (by intro g x e; cases e)
  exact ⟨text, σ, hr, h⟩

/-- **C87.** One piece that is not a command, anywhere in the text, and the session leaves everything as it was. -/
theorem session_mistake {L : Lib W} {M : Machine} {ev : String → Except Err Val} {text : List Char}
    {us : List (List Gram.Tok)} {u : List Gram.Tok} (h : ∀ u ∈ us, ∀ x ∈ u, x.1 ≠ .SEMICOLON)
    (hs : Lex.tokens (Lex.lex text) = us.flatMap fun u => u ++ [(.SEMICOLON, [';'])]) (hu : u ∈ us)
    (hb : ∀ c, ¬ Gram.Derives Gram.command_body u c) (σ : State W) :
    session L M ev σ text = (σ, some .refused) := by
  have hn := Gram.one_mistake h hs hu hb ev
  cases hp : Gram.parse (Lex.tokens (Lex.lex text)) with
  | none => simp [session, hp]
  | some l => simp [Gram.runText, hp] at hn

example {L : Lib W} {M : Machine} (ev : String → Except Err Val) (σ : State W) :
    session L M ev σ "title 'a'; analyse;".toList = (σ, some .refused) := by
  refine session_mistake (us := [[(.TITLE, "title".toList), (.STRING, "'a'".toList)],
    [(.ID, "analyse".toList)]]) (u := [(.ID, "analyse".toList)]) (by decide) (by decide +kernel) (by simp) ?_ σ
  intro c hc
  have : Gram.parseAs Gram.command_body [(.ID, "analyse".toList)] = some c := (Gram.body_ll.parse_iff _ _).2 hc
  have hn : (Gram.parseAs Gram.command_body [(.ID, "analyse".toList)]).isSome = false := by decide +kernel
  rw [this] at hn
  simp at hn

end

end Slat.Session
