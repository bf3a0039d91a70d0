import Verif.OutputModel

/-!
# C73: which file a recorder writes and what the files hold after `analyze`
-/

namespace Slat.Output

/-! ## Paths -/

theorem basename_plain {p : Path} (h : '/' ∉ p) : basename p = p := by
  unfold basename
  rw [List.rtakeWhile_eq_self_iff]
  intro x hx
  simp only [bne_iff_ne, ne_eq]
  rintro rfl
  exact h hx

theorem basename_slash (d p : Path) (h : '/' ∉ p) : basename (d ++ '/' :: p) = p := by
  unfold basename List.rtakeWhile
  rw [List.reverse_append, List.reverse_cons, List.append_assoc, List.takeWhile_append_of_pos]
  · simp
  · intro x hx
    simp only [bne_iff_ne, ne_eq]
    rintro rfl
    exact h (List.mem_reverse.1 hx)

theorem upToSlash_nil_iff (p : Path) : upToSlash p = [] ↔ '/' ∉ p := by
  unfold upToSlash
  rw [List.rdropWhile_eq_nil_iff]
  constructor
  · intro h hm
    have := h _ hm
    simp at this
  · intro h x hx
    simp only [bne_iff_ne, ne_eq]
    rintro rfl
    exact h hx

theorem dirname_nil_iff (p : Path) : dirname p = [] ↔ '/' ∉ p := by
  rw [← upToSlash_nil_iff]
  unfold dirname
  split
  · rfl
  · next h =>
    constructor
    · intro h2
      exfalso
      apply h
      rw [List.rdropWhile_eq_nil_iff] at h2
      simpa [List.all_eq_true] using h2
    · intro h2
      exfalso
      apply h
      rw [h2]
      rfl

theorem exists_split {p : Path} (h : '/' ∈ p) : ∃ d b, '/' ∉ b ∧ p = d ++ '/' :: b := by
  induction p with
  | nil => simp at h
  | cons c cs ih =>
    by_cases hc : '/' ∈ cs
    · obtain ⟨d, b, hb, e⟩ := ih hc
      exact ⟨c :: d, b, hb, by rw [e]; rfl⟩
    · have : c = '/' := by simpa [hc, eq_comm] using h
      exact ⟨[], cs, hc, by rw [this]; rfl⟩

/-- The last component of a path, for stating properties: what follows the last slash. -/
def LastPart (p b : Path) : Prop := '/' ∉ b ∧ (p = b ∨ ∃ d, p = d ++ '/' :: b)

/-- A name that has an extension: a dot with something other than dots before it. -/
def HasExt (b : Path) : Prop := ∃ u v, b = u ++ '.' :: v ∧ ∃ c ∈ u, c ≠ '.'

theorem lastPart_basename {p b : Path} (h : LastPart p b) : basename p = b := by
  obtain ⟨h1, rfl | ⟨d, rfl⟩⟩ := h
  · exact basename_plain h1
  · exact basename_slash d b h1

theorem lastPart_exists (p : Path) : ∃ b, LastPart p b := by
  by_cases h : '/' ∈ p
  · obtain ⟨d, b, hb, e⟩ := exists_split h
    exact ⟨b, hb, Or.inr ⟨d, e⟩⟩
  · exact ⟨p, h, Or.inl rfl⟩

theorem dot_mem_dropWhile (b : Path) : '.' ∈ b.dropWhile (fun c => c == '.') ↔ HasExt b := by
  constructor
  · intro h
    obtain ⟨u, v, e⟩ := List.append_of_mem h
    refine ⟨b.takeWhile (fun c => c == '.') ++ u, v, ?_, ?_⟩
    · rw [List.append_assoc, ← e, List.takeWhile_append_dropWhile]
    · cases u with
      | nil =>
        exfalso
        have h0 : b.dropWhile (fun c => c == '.') ≠ [] := by rw [e]; simp
        have := List.head_dropWhile_not (fun c => c == '.') h0
        simp [e] at this
      | cons c u =>
        refine ⟨c, by simp, ?_⟩
        have h0 : b.dropWhile (fun c => c == '.') ≠ [] := by rw [e]; simp
        have := List.head_dropWhile_not (fun c => c == '.') h0
        simpa [e] using this
  · rintro ⟨u, v, rfl, c, hc, hn⟩
    obtain ⟨u1, u2, rfl⟩ := List.append_of_mem hc
    induction u1 with
    | nil =>
      have : (c == '.') = false := by simpa using hn
      simp [this]
    | cons a u1 ih =>
      by_cases ha : a = '.'
      · have : (a == '.') = true := by simpa using ha
        simp only [List.cons_append, List.dropWhile_cons, this, if_true]
        exact ih (by simp)
      · have : (a == '.') = false := by simpa using ha
        simp [this]

theorem ext_nil_iff {p b : Path} (h : LastPart p b) : ext p = [] ↔ ¬ HasExt b := by
  unfold ext
  rw [lastPart_basename h, ← dot_mem_dropWhile]
  split <;> simp [*]

theorem join_plain {d p : Path} (hd : d ≠ []) (hp : '/' ∉ p) : ∃ d', join d p = d' ++ '/' :: p ∧ (d' = d ∨ d = d' ++ ['/']) := by
  unfold join
  have h1 : p.head? ≠ some '/' := by
    intro e
    cases p with
    | nil => simp at e
    | cons c cs =>
      simp at e
      exact hp (by simp [e])
  rw [if_neg h1]
  split
  · next h =>
    have h2 : d.getLast? = some '/' := by simpa [hd] using h
    obtain ⟨d', e⟩ := List.getLast?_eq_some_iff.1 h2
    exact ⟨d', by rw [e]; simp, Or.inr e⟩
  · exact ⟨d, rfl, Or.inl rfl⟩

theorem join_lastPart {d p : Path} (hd : d ≠ []) (hp : '/' ∉ p) : LastPart (join d p) p := by
  obtain ⟨d', e, _⟩ := join_plain hd hp
  exact ⟨hp, Or.inr ⟨d', e⟩⟩

theorem join_inj {d p q : Path} (hd : d ≠ []) (hp : '/' ∉ p) (hq : '/' ∉ q) (h : join d p = join d q) : p = q := by
  have h1 := lastPart_basename (join_lastPart hd hp)
  have h2 := lastPart_basename (join_lastPart hd hq)
  rw [← h1, ← h2, h]

theorem join_append {d p s : Path} (hp : '/' ∉ p) (hs : '/' ∉ s) : join d p ++ s = join d (p ++ s) := by
  unfold join
  have h1 : ∀ q : Path, '/' ∉ q → q.head? ≠ some '/' := by
    intro q hq e
    cases q with
    | nil => simp at e
    | cons c cs =>
      simp at e
      exact hq (by simp [e])
  rw [if_neg (h1 p hp), if_neg (h1 (p ++ s) (by simp [hp, hs]))]
  split <;> simp

/-- The text the code appends to a name without an extension, as the manual states it. -/
def csv : Path := ['.', 'c', 's', 'v']

theorem csv_toList : ".csv".toList = csv := by decide

theorem slash_csv : '/' ∉ csv := by decide

/-- **C73.** Where output goes.  A name without a slash is a file in the output directory; with a slash it is taken as it stands.  A
last component that has no extension gets `.csv`, any other is left alone. -/
theorem output_file (dir p b : Path) (hd : dir ≠ []) (h : LastPart p b) :
    ('/' ∉ p → HasExt p → fullPath dir p = join dir p) ∧
    ('/' ∉ p → ¬ HasExt p → fullPath dir p = join dir (p ++ csv)) ∧
    ('/' ∈ p → HasExt b → fullPath dir p = p) ∧
    ('/' ∈ p → ¬ HasExt b → fullPath dir p = p ++ csv) := by
  unfold fullPath
  simp only [dirname_nil_iff, csv_toList]
  refine ⟨?_, ?_, ?_, ?_⟩
  · intro h1 h2
    rw [if_pos h1, if_neg]
    rw [ext_nil_iff (join_lastPart hd h1)]
    exact fun h3 => h3 h2
  · intro h1 h2
    rw [if_pos h1, if_pos ((ext_nil_iff (join_lastPart hd h1)).2 h2), join_append h1 slash_csv]
  · intro h1 h2
    rw [if_neg (not_not.2 h1), if_neg]
    rw [ext_nil_iff h]
    exact fun h3 => h3 h2
  · intro h1 h2
    rw [if_neg (not_not.2 h1), if_pos ((ext_nil_iff h).2 h2)]

example : fullPath "out".toList "im_rate".toList = "out/im_rate.csv".toList
    ∧ fullPath "out/".toList "im_rate.txt".toList = "out/im_rate.txt".toList
    ∧ fullPath "out".toList "other/.hidden".toList = "other/.hidden.csv".toList
    ∧ fullPath "out".toList "/tmp/x.".toList = "/tmp/x.".toList := by decide

theorem hasExt_csv {b : Path} (h : ∃ c ∈ b, c ≠ '.') : HasExt (b ++ csv) := ⟨b, ['c', 's', 'v'], rfl, h⟩

theorem hasExt_nondot {b : Path} (h : HasExt b) : ∃ c ∈ b, c ≠ '.' := by
  obtain ⟨u, v, rfl, c, hc, hn⟩ := h
  exact ⟨c, by simp [hc], hn⟩

/-- **C73.** The directory is never empty, as the theorems of this file require: it is the one set, or the current one if none or an
empty one was set. -/
theorem output_directory (set : Option Path) :
    dirOf set ≠ [] ∧ (∀ d, d ≠ [] → dirOf (some d) = d) ∧ dirOf none = ['.'] ∧ dirOf (some []) = ['.'] := by
  refine ⟨?_, ?_, by decide, by decide⟩
  · match set with
    | none => decide
    | some [] => decide
    | some (c :: cs) => simp [dirOf]
  · intro d hd
    match d, hd with
    | c :: cs, _ => rfl

example : fullPath (dirOf none) "im_rate".toList = "./im_rate.csv".toList
    ∧ fullPath (dirOf (some "out".toList)) "im_rate".toList = "out/im_rate.csv".toList := by decide

/-- **C73.** Taking the file a name stands for as a name again gives the same file, provided the name has a last component that is
not made of dots only. -/
theorem output_file_stable (dir p b : Path) (hd : dir ≠ []) (h : LastPart p b) (hb : ∃ c ∈ b, c ≠ '.') :
    fullPath dir (fullPath dir p) = fullPath dir p := by
  obtain ⟨h1, h2, h3, h4⟩ := output_file dir p b hd h
  have key : ∀ q c : Path, '/' ∈ q → LastPart q c → HasExt c → fullPath dir q = q := by
    intro q c hq hl he
    exact (output_file dir q c hd hl).2.2.1 hq he
  by_cases hs : '/' ∈ p
  · by_cases he : HasExt b
    · rw [h3 hs he, h3 hs he]
    · rw [h4 hs he]
      refine key _ (b ++ csv) (by simp [hs]) ⟨by simp [h.1, slash_csv], ?_⟩ (hasExt_csv hb)
      rcases h.2 with rfl | ⟨d, rfl⟩
      · exact Or.inl rfl
      · exact Or.inr ⟨d, by simp⟩
  · have e : p = b := by
      rcases h.2 with e | ⟨d, e⟩
      · exact e
      · exfalso
        apply hs
        rw [e]
        simp
    subst e
    by_cases he : HasExt p
    · rw [h1 hs he]
      obtain ⟨d', e, _⟩ := join_plain hd hs
      exact key _ p (by rw [e]; simp) (join_lastPart hd hs) he
    · rw [h2 hs he]
      have hn : '/' ∉ p ++ csv := by simp [hs, slash_csv]
      obtain ⟨d', e, _⟩ := join_plain hd hn
      exact key _ (p ++ csv) (by rw [e]; simp) (join_lastPart hd hn) (hasExt_csv hb)

example : LastPart "a/im_rate".toList "im_rate".toList ∧ (∃ c ∈ "im_rate".toList, c ≠ '.') := by
  refine ⟨⟨by decide, Or.inr ⟨"a".toList, by decide⟩⟩, 'i', by decide, by decide⟩

/-- **C73, failure.** For a name ending in a slash every further use appends another `.csv`. -/
theorem output_file_stable_fails :
    fullPath "out".toList "a/".toList = "a/.csv".toList ∧
    fullPath "out".toList (fullPath "out".toList "a/".toList) = "a/.csv.csv".toList := by decide

/-- **C73.** When two names without a slash stand for the same file: they are equal, or one has no extension and the other is that
name with `.csv`. -/
theorem same_file_iff (dir p q : Path) (hd : dir ≠ []) (hp : '/' ∉ p) (hq : '/' ∉ q) (hp' : ∃ c ∈ p, c ≠ '.')
    (hq' : ∃ c ∈ q, c ≠ '.') :
    fullPath dir p = fullPath dir q ↔
      p = q ∨ (¬ HasExt p ∧ q = p ++ csv) ∨ (¬ HasExt q ∧ p = q ++ csv) := by
  obtain ⟨p1, p2, _, _⟩ := output_file dir p p hd ⟨hp, Or.inl rfl⟩
  obtain ⟨q1, q2, _, _⟩ := output_file dir q q hd ⟨hq, Or.inl rfl⟩
  have hp2 : '/' ∉ p ++ csv := by simp [hp, slash_csv]
  have hq2 : '/' ∉ q ++ csv := by simp [hq, slash_csv]
  constructor
  · intro h
    by_cases ep : HasExt p <;> by_cases eq : HasExt q
    · rw [p1 hp ep, q1 hq eq] at h
      exact Or.inl (join_inj hd hp hq h)
    · rw [p1 hp ep, q2 hq eq] at h
      exact Or.inr (Or.inr ⟨eq, join_inj hd hp hq2 h⟩)
    · rw [p2 hp ep, q1 hq eq] at h
      exact Or.inr (Or.inl ⟨ep, (join_inj hd hp2 hq h).symm⟩)
    · rw [p2 hp ep, q2 hq eq] at h
      exact Or.inl (List.append_cancel_right (join_inj hd hp2 hq2 h))
  · rintro (rfl | ⟨e, rfl⟩ | ⟨e, rfl⟩)
    · rfl
    · rw [p2 hp e, q1 hq (hasExt_csv hp')]
    · rw [q2 hq e, p1 hp (hasExt_csv hq')]

example : fullPath "out".toList "rate".toList = fullPath "out".toList "rate.csv".toList
    ∧ ¬ HasExt "rate".toList ∧ "rate.csv".toList = "rate".toList ++ csv := by
  refine ⟨by decide, ?_, by decide⟩
  rw [← dot_mem_dropWhile]
  decide

/-! ## Files -/

/-- Recorder `r` can be run to its end: it has a file, that can be opened, and printing does not raise. -/
def Runs (dir : Path) (openable : Path → Bool) (r : Rec) : Prop :=
  r.ok = true ∧ ∃ p, r.file = some p ∧ openable (fullPath dir p) = true

/-- Recorder `r` is for file `f`. -/
def For (dir : Path) (f : Path) (r : Rec) : Prop := ∃ p, r.file = some p ∧ fullPath dir p = f

theorem runRec_of_runs {dir : Path} {op : Path → Bool} {r : Rec} (h : Runs dir op r) (fs : Files) :
    ∃ p, r.file = some p ∧ runRec dir op fs r = (write fs (fullPath dir p) r.append r.out, true) := by
  obtain ⟨hk, p, hp, ho⟩ := h
  exact ⟨p, hp, by simp [runRec, hp, ho, hk]⟩

theorem analyze_cons {dir : Path} {op : Path → Bool} {r : Rec} (h : Runs dir op r) (fs : Files) (rs : List Rec) :
    analyze dir op fs (r :: rs) = analyze dir op (runRec dir op fs r).1 rs := by
  obtain ⟨p, _, e⟩ := runRec_of_runs h fs
  rw [analyze, e]
  simp

theorem analyze_append {dir : Path} {op : Path → Bool} (rs ss : List Rec) (h : ∀ r ∈ rs, Runs dir op r) (fs : Files) :
    analyze dir op fs (rs ++ ss) = analyze dir op (analyze dir op fs rs).1 ss := by
  induction rs generalizing fs with
  | nil => rfl
  | cons r rs ih =>
    rw [List.cons_append, analyze_cons (h r (by simp)), analyze_cons (h r (by simp)), ih (fun x hx => h x (by simp [hx]))]

/-- **C73.** If every recorder can be run, `analyze` finishes. -/
theorem analyze_finishes (dir : Path) (op : Path → Bool) (rs : List Rec) (h : ∀ r ∈ rs, Runs dir op r) (fs : Files) :
    (analyze dir op fs rs).2 = true := by
  induction rs generalizing fs with
  | nil => rfl
  | cons r rs ih => rw [analyze_cons (h r (by simp))]; exact ih (fun x hx => h x (by simp [hx])) _

theorem runRec_other {dir : Path} {op : Path → Bool} {f : Path} {r : Rec} (h : ¬ For dir f r) (fs : Files) :
    (runRec dir op fs r).1 f = fs f := by
  unfold runRec
  cases hp : r.file with
  | none => rfl
  | some p =>
    dsimp only
    split
    · exact Function.update_of_ne (fun e => h ⟨p, hp, e.symm⟩) _ _
    · rfl

/-- **C73.** A file no recorder is for keeps its contents, even if `analyze` ends with an error. -/
theorem other_files_untouched (dir : Path) (op : Path → Bool) (rs : List Rec) (f : Path) (h : ∀ r ∈ rs, ¬ For dir f r)
    (fs : Files) : (analyze dir op fs rs).1 f = fs f := by
  induction rs generalizing fs with
  | nil => rfl
  | cons r rs ih =>
    rw [analyze]
    split
    · rw [ih (fun x hx => h x (by simp [hx])), runRec_other (h r (by simp))]
    · exact runRec_other (h r (by simp)) fs

theorem runRec_this {dir : Path} {op : Path → Bool} {f : Path} {r : Rec} (h : Runs dir op r) (hf : For dir f r) (fs : Files) :
    (runRec dir op fs r).1 f = some ((if r.append then (fs f).getD [] else []) ++ r.out) := by
  obtain ⟨p, hp, e⟩ := runRec_of_runs h fs
  obtain ⟨p', hp', rfl⟩ := hf
  rw [hp] at hp'
  cases hp'
  rw [e]
  simp [write]

/-- The lines recorders print for file `f`, in order. -/
noncomputable def linesFor (dir : Path) (f : Path) (rs : List Rec) : List String :=
  open Classical in (rs.filter (fun r => For dir f r)).flatMap Rec.out

/-- **C73.** If every recorder for a file appends, the file afterwards holds what it held before followed by what the recorders
printed, in their order (an existing file; one not there before counts as empty if some recorder is for it). -/
theorem appended (dir : Path) (op : Path → Bool) (rs : List Rec) (f : Path) (h : ∀ r ∈ rs, Runs dir op r)
    (ha : ∀ r ∈ rs, For dir f r → r.append = true) (fs : Files) (hf : (∃ r ∈ rs, For dir f r) ∨ fs f ≠ none) :
    (analyze dir op fs rs).1 f = some ((fs f).getD [] ++ linesFor dir f rs) := by
  classical
  induction rs generalizing fs with
  | nil =>
    have h0 : fs f ≠ none := by simpa using hf
    cases e : fs f with
    | none => exact absurd e h0
    | some l => simp [analyze, e, linesFor]
  | cons r rs ih =>
    rw [analyze_cons (h r (by simp))]
    by_cases hr : For dir f r
    · have e := runRec_this (h r (by simp)) hr fs
      rw [ha r (by simp) hr, if_pos rfl] at e
      rw [ih (fun x hx => h x (by simp [hx])) (fun x hx => ha x (by simp [hx])) _ (Or.inr (by rw [e]; simp)), e]
      simp [linesFor, hr]
    · have e := runRec_other (op := op) hr fs
      rw [ih (fun x hx => h x (by simp [hx])) (fun x hx => ha x (by simp [hx])) _ ?_, e]
      · simp [linesFor, hr]
      · rw [e]
        rcases hf with ⟨x, hx, hx'⟩ | hf
        · rcases List.mem_cons.1 hx with rfl | hx
          · exact absurd hx' hr
          · exact Or.inl ⟨x, hx, hx'⟩
        · exact Or.inr hf

/-- **C73.** Otherwise it holds what the last recorder that does not append printed, followed by what the recorders after it printed;
what was there before, and what earlier recorders printed, is gone. -/
theorem overwritten (dir : Path) (op : Path → Bool) (pre post : List Rec) (r : Rec) (f : Path)
    (h : ∀ x ∈ pre ++ r :: post, Runs dir op x) (hr : For dir f r) (hn : r.append = false)
    (ha : ∀ x ∈ post, For dir f x → x.append = true) (fs : Files) :
    (analyze dir op fs (pre ++ r :: post)).1 f = some (r.out ++ linesFor dir f post) := by
  rw [analyze_append pre _ (fun x hx => h x (by simp [hx])), analyze_cons (h r (by simp))]
  have e := runRec_this (h r (by simp)) hr (analyze dir op fs pre).1
  rw [hn] at e
  rw [appended dir op post f (fun x hx => h x (by simp [hx])) ha _ (Or.inr (by rw [e]; simp)), e]
  simp

/-- A recorder that prints one line to `f`. -/
def ex (f : String) (append : Bool) (line : String) : Rec := ⟨some f.toList, append, [line], true⟩

example : Runs "out".toList (fun _ => true) (ex "a" true "1") ∧ For "out".toList "out/a.csv".toList (ex "a" true "1")
    ∧ (analyze "out".toList (fun _ => true) (fun _ => some ["0"]) [ex "a" true "1", ex "b" false "x", ex "a" true "2"]).1
        "out/a.csv".toList = some ["0", "1", "2"]
    ∧ (analyze "out".toList (fun _ => true) (fun _ => some ["0"]) [ex "a" true "1", ex "a" false "2", ex "a.csv" true "3"]).1
        "out/a.csv".toList = some ["2", "3"]
    ∧ (analyze "out".toList (fun _ => true) (fun _ => some ["0"]) [ex "a" true "1"]).1 "out/b.csv".toList = some ["0"] := by
  refine ⟨⟨rfl, _, rfl, rfl⟩, ⟨_, rfl, by decide⟩, by decide, by decide, by decide⟩

/-- **C73.** Recorders with a file each that do not append: afterwards each file holds exactly what its recorder printed, whatever it
held before, so analysing again changes nothing. -/
theorem own_files (dir : Path) (op : Path → Bool) (rs : List Rec) (h : ∀ r ∈ rs, Runs dir op r)
    (hn : ∀ r ∈ rs, r.append = false)
    (hd : rs.Pairwise (fun r s => ∀ f, For dir f r → ¬ For dir f s)) (fs : Files) :
    (∀ r ∈ rs, ∀ f, For dir f r → (analyze dir op fs rs).1 f = some r.out) ∧
    (analyze dir op (analyze dir op fs rs).1 rs).1 = (analyze dir op fs rs).1 := by
  have key : ∀ gs : Files, ∀ r ∈ rs, ∀ f, For dir f r → (analyze dir op gs rs).1 f = some r.out := by
    intro gs r hr f hf
    obtain ⟨pre, post, rfl⟩ := List.append_of_mem hr
    have hp := (List.pairwise_append.1 hd).2.1
    have hno : ∀ x ∈ post, ¬ For dir f x := fun x hx => (List.pairwise_cons.1 hp).1 x hx f hf
    rw [overwritten dir op pre post r f h hf (hn r hr) (fun x hx hx' => absurd hx' (hno x hx))]
    have : linesFor dir f post = [] := by
      unfold linesFor
      rw [List.flatMap_eq_nil_iff]
      intro x hx
      simp only [List.mem_filter, decide_eq_true_eq] at hx
      exact absurd hx.2 (hno x hx.1)
    rw [this, List.append_nil]
  refine ⟨key fs, ?_⟩
  funext f
  by_cases hx : ∃ r ∈ rs, For dir f r
  · obtain ⟨r, hr, hf⟩ := hx
    rw [key _ r hr f hf, key _ r hr f hf]
  · exact other_files_untouched dir op rs f (fun r hr hf => hx ⟨r, hr, hf⟩) _

example : [ex "a" false "1", ex "b" false "2"].Pairwise
    (fun r s => ∀ f, For "out".toList f r → ¬ For "out".toList f s) := by
  simp only [List.pairwise_cons, List.mem_singleton, forall_eq, List.not_mem_nil, false_imp_iff, implies_true, and_true,
    List.Pairwise.nil]
  rintro f ⟨p, hp, rfl⟩ ⟨q, hq, e⟩
  cases hp
  cases hq
  revert e
  decide

/-- **C73, failure.** A recorder without a file is documented to print to the terminal, but it ends the analysis: files are as the
recorders before it left them, and those after it never run. -/
theorem terminal_recorder_fails (dir : Path) (op : Path → Bool) (pre post : List Rec) (r : Rec)
    (h : ∀ x ∈ pre, Runs dir op x) (hr : r.file = none) (fs : Files) :
    analyze dir op fs (pre ++ r :: post) = ((analyze dir op fs pre).1, false) := by
  rw [analyze_append pre _ h, analyze]
  simp [runRec, hr]

/-- **C73.** A recorder that raises while printing: what it printed until then is in its file, and no later recorder runs. -/
theorem raising_recorder (dir : Path) (op : Path → Bool) (pre post : List Rec) (r : Rec) (p : Path)
    (h : ∀ x ∈ pre, Runs dir op x) (hp : r.file = some p) (ho : op (fullPath dir p) = true) (hk : r.ok = false)
    (hn : r.append = false) (fs : Files) :
    (analyze dir op fs (pre ++ r :: post)).2 = false ∧
    (analyze dir op fs (pre ++ r :: post)).1 (fullPath dir p) = some r.out ∧
    ∀ f ≠ fullPath dir p, (analyze dir op fs (pre ++ r :: post)).1 f = (analyze dir op fs pre).1 f := by
  rw [analyze_append pre _ h, analyze]
  have e : runRec dir op (analyze dir op fs pre).1 r = (write (analyze dir op fs pre).1 (fullPath dir p) r.append r.out, false) := by
    simp [runRec, hp, ho, hk]
  rw [e]
  simp only [Bool.false_eq_true, if_false, true_and]
  refine ⟨by simp [write, hn], fun f hf => by simp [write, hf]⟩

example : analyze "out".toList (fun _ => true) (fun _ => none) [ex "a" false "1", ⟨none, false, ["2"], true⟩, ex "b" false "3"]
      = (write (fun _ => none) "out/a.csv".toList false ["1"], false)
    ∧ (analyze "out".toList (fun _ => true) (fun _ => none)
        [ex "a" false "1", ⟨some "c".toList, false, ["2"], false⟩, ex "b" false "3"]).1 "out/c.csv".toList = some ["2"] := by
  refine ⟨?_, by decide⟩
  exact terminal_recorder_fails _ _ [ex "a" false "1"] [ex "b" false "3"] ⟨none, false, ["2"], true⟩
    (by
      intro x hx
      rw [List.mem_singleton] at hx
      subst hx
      exact ⟨rfl, _, rfl, rfl⟩) rfl _

/-- **C73, failure.** Recorders given the file names `a` and `a.csv` write the same file: what the first prints is lost. -/
theorem first_output_lost_fails (dir a : Path) (op : Path → Bool) (o1 o2 : List String) (hd : dir ≠ []) (ha : '/' ∉ a)
    (hx : ¬ HasExt a) (hc : ∃ c ∈ a, c ≠ '.') (ho : op (fullPath dir a) = true) (fs : Files) :
    (analyze dir op fs [⟨some a, false, o1, true⟩, ⟨some (a ++ csv), false, o2, true⟩]).1 (fullPath dir a) = some o2 := by
  have e : fullPath dir a = fullPath dir (a ++ csv) :=
    (same_file_iff dir a (a ++ csv) hd ha (by simp [ha, slash_csv]) hc
      (by obtain ⟨c, h1, h2⟩ := hc; exact ⟨c, by simp [h1], h2⟩)).2 (Or.inr (Or.inl ⟨hx, rfl⟩))
  have := overwritten dir op [⟨some a, false, o1, true⟩] [] ⟨some (a ++ csv), false, o2, true⟩ (fullPath dir a)
    (by
      intro x hx
      simp only [List.cons_append, List.nil_append, List.mem_cons, List.not_mem_nil, or_false] at hx
      rcases hx with rfl | rfl
      · exact ⟨rfl, a, rfl, ho⟩
      · exact ⟨rfl, _, rfl, e ▸ ho⟩) ⟨_, rfl, e.symm⟩ rfl (by simp) fs
  simpa [linesFor] using this

/-! ## The recorders of a script -/

/-- The definition of `i` that counts: the last. -/
def lastDef (i : String) (ds : List (String × Rec)) : Option Rec := (ds.reverse.find? (fun d => d.1 = i)).map Prod.snd

/-- The identifiers in the order in which they first appear. -/
def firstSeen : List String → List String
  | [] => []
  | i :: is => i :: (firstSeen is).filter (fun j => j ≠ i)

theorem define_keys (defs : List (String × Rec)) (d : String × Rec) :
    (define defs d).map Prod.fst = if d.1 ∈ defs.map Prod.fst then defs.map Prod.fst else defs.map Prod.fst ++ [d.1] := by
  induction defs with
  | nil => simp [define]
  | cons e es ih =>
    rw [define]
    by_cases h : e.1 = d.1
    · simp [h]
    · have h' : d.1 ≠ e.1 := fun x => h x.symm
      rw [if_neg h]
      simp only [List.map_cons, ih, List.mem_cons, h', false_or]
      split <;> simp

theorem define_find (defs : List (String × Rec)) (d : String × Rec) (i : String) :
    (define defs d).find? (fun x => x.1 = i) = if d.1 = i then some d else defs.find? (fun x => x.1 = i) := by
  induction defs with
  | nil => simp [define, List.find?_cons]; split <;> simp_all
  | cons e es ih =>
    rw [define]
    by_cases h : e.1 = d.1
    · rw [if_pos h]
      by_cases hi : d.1 = i
      · simp [hi]
      · simp [hi, h]
    · rw [if_neg h]
      simp only [List.find?_cons, ih]
      by_cases hi : e.1 = i
      · have : d.1 ≠ i := fun x => h (hi.trans x.symm)
        simp [hi, this]
      · simp [hi]

theorem firstSeen_mem (is : List String) (j : String) : j ∈ firstSeen is ↔ j ∈ is := by
  induction is with
  | nil => simp [firstSeen]
  | cons i is ih =>
    simp only [firstSeen, List.mem_cons, List.mem_filter, ih, decide_eq_true_eq]
    tauto

theorem firstSeen_append (is : List String) (j : String) :
    firstSeen (is ++ [j]) = if j ∈ is then firstSeen is else firstSeen is ++ [j] := by
  induction is with
  | nil => simp [firstSeen]
  | cons i is ih =>
    simp only [List.cons_append, firstSeen, ih, List.mem_cons]
    by_cases h1 : j ∈ is
    · simp [h1]
    · simp only [if_neg h1]
      by_cases h2 : j = i
      · simp [h2]
      · simp [h1, h2]

theorem firstSeen_nodup (is : List String) : (firstSeen is).Nodup := by
  induction is with
  | nil => simp [firstSeen]
  | cons i is ih => simp [firstSeen, ih.filter]

/-- **C73.** Which recorders `analyze` runs and in which order: each identifier once, in the order of first definition, with its last
definition. -/
theorem recorders_of_script (ds : List (String × Rec)) :
    (recorders ds).map Prod.fst = firstSeen (ds.map Prod.fst) ∧
    ((recorders ds).map Prod.fst).Nodup ∧
    (∀ i r, (i, r) ∈ recorders ds ↔ lastDef i ds = some r) := by
  have h1 : (recorders ds).map Prod.fst = firstSeen (ds.map Prod.fst) := by
    unfold recorders
    induction ds using List.reverseRecOn with
    | nil => rfl
    | append_singleton ds d ih =>
      rw [List.foldl_append, List.foldl_cons, List.foldl_nil, define_keys, ih, List.map_append, List.map_cons, List.map_nil,
        firstSeen_append]
      simp only [firstSeen_mem]
  have hn : ((recorders ds).map Prod.fst).Nodup := by rw [h1]; exact firstSeen_nodup _
  have h2 : ∀ i, (recorders ds).find? (fun x => x.1 = i) = ds.reverse.find? (fun x => x.1 = i) := by
    intro i
    unfold recorders
    clear h1 hn
    induction ds using List.reverseRecOn with
    | nil => rfl
    | append_singleton ds d ih =>
      rw [List.foldl_append, List.foldl_cons, List.foldl_nil, define_find, ih, List.reverse_append, List.reverse_singleton,
        List.singleton_append, List.find?_cons]
      split <;> simp_all
  refine ⟨h1, hn, fun i r => ?_⟩
  unfold lastDef
  rw [← h2]
  constructor
  · intro hm
    cases e : (recorders ds).find? (fun x => x.1 = i) with
    | none =>
      rw [List.find?_eq_none] at e
      have := e _ hm
      simp at this
    | some x =>
      have hx := List.mem_of_find?_eq_some e
      have hi : x.1 = i := by simpa using List.find?_some e
      have : x = (i, r) := List.inj_on_of_nodup_map hn hx hm hi
      rw [this]
      rfl
  · intro e
    cases e2 : (recorders ds).find? (fun x => x.1 = i) with
    | none => simp [e2] at e
    | some x =>
      have hx := List.mem_of_find?_eq_some e2
      have hi : x.1 = i := by simpa using List.find?_some e2
      rw [e2] at e
      have : x.2 = r := by simpa using e
      rw [← hi, ← this]
      exact hx

example : (recorders [("r", ex "a" false "1"), ("s", ex "b" false "2"), ("r", ex "c" false "3")]).map (fun d => (d.1, d.2.out))
    = [("r", ["3"]), ("s", ["2"])] := by decide

end Slat.Output
