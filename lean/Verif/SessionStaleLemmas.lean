import Verif.SessionMemorySim

/-!
# Helper lemmas: an annual cost that was asked for stays
-/

namespace Slat.Session

noncomputable section

open Interp (Val Call Cmd Cfg Err Mu Sd DistCmd Sc)
open Output (Path Files)

variable {N : Numerics} {ds : World → Interp.Printed → String} {M : Machine}

theorem analyze_runs {dir : Path} {op : Path → Bool} (rs : List Output.Rec) (g : Files) (hg : (Output.analyze dir op g rs).2 = true) :
    ∀ x ∈ rs, Output.Runs dir op x := by
  induction rs generalizing g with
  | nil => intro x hx; cases hx
  | cons y rs ih =>
    intro x hx
    rw [Output.analyze] at hg
    split at hg
    · next hy =>
      rcases List.mem_cons.1 hx with rfl | hx
      · unfold Output.runRec at hy
        cases hf : x.file with
        | none => rw [hf] at hy; cases hy
        | some p =>
          rw [hf] at hy
          dsimp only at hy
          split at hy
          · next ho => exact ⟨hy, p, hf, ho⟩
          · cases hy
      · exact ih _ hg x hx
    · cases hg

theorem runs_analyze {dir : Path} {op : Path → Bool} (rs : List Output.Rec) (g : Files)
    (h : ∀ x ∈ rs, Output.Runs dir op x) : (Output.analyze dir op g rs).2 = true := by
  induction rs generalizing g with
  | nil => rfl
  | cons y rs ih =>
    rw [Output.analyze_cons (h y (by simp))]
    exact ih _ fun x hx => h x (by simp [hx])

/-- The file of a recorder that has it for itself, after an analysis. -/
theorem analyze_writes {W : Type} {L : Lib W} {σ σ' : State W} {rid : String} {q : Held} {file : Path} {dir : Path}
    (h : analyze L M σ = (σ', none)) (hdir : Output.dirOf σ.outDir = dir) (hnd : (σ.recs.map Prod.fst).Nodup)
    (hin : (rid, q) ∈ σ.recs) (hf : q.file = some file) (ha : q.append = false)
    (hal : ∀ i hd, (i, hd) ∈ σ.recs → i ≠ rid → ∀ p, hd.file = some p → Output.fullPath dir p ≠ Output.fullPath dir file) :
    σ'.files (Output.fullPath dir file) = some (q.run L M σ.lib).out ∧ (q.run L M σ.lib).ok = true ∧ σ'.recs = σ.recs ∧
      σ'.outDir = σ.outDir := by
  subst hdir
  unfold Session.analyze at h
  generalize hgo : Output.analyze (Output.dirOf σ.outDir) M.openable σ.files (σ.recs.map fun p => p.2.run L M σ.lib) = res at h
  rcases res with ⟨fs', _ | _⟩
  · simp at h
  simp only [if_true, Prod.mk.injEq, and_true] at h
  subst h
  have hall := analyze_runs _ _ (by rw [hgo])
  obtain ⟨pre, post, hpp⟩ := List.append_of_mem hin
  have hother : ∀ e ∈ post, ¬ Output.For (Output.dirOf σ.outDir) (Output.fullPath (Output.dirOf σ.outDir) file)
      (e.2.run L M σ.lib) := by
    rintro ⟨i, hd⟩ hq ⟨p, hp1, hp2⟩
    refine hal i hd (by rw [hpp]; simp [hq]) ?_ p hp1 hp2
    rintro rfl
    rw [hpp, List.map_append, List.map_cons] at hnd
    have := (List.nodup_append.1 hnd).2.1
    rw [List.nodup_cons] at this
    exact this.1 (List.mem_map.2 ⟨_, hq, rfl⟩)
  have key := Output.overwritten (Output.dirOf σ.outDir) M.openable (pre.map fun p => p.2.run L M σ.lib)
    (post.map fun p => p.2.run L M σ.lib) (q.run L M σ.lib) (Output.fullPath (Output.dirOf σ.outDir) file)
    (by
      intro x hx
      refine hall x ?_
      rw [hpp]
      simpa using hx)
    ⟨_, hf, rfl⟩ ha
    (by
      intro x hx hF
      obtain ⟨e, he, rfl⟩ := List.mem_map.1 hx
      exact absurd hF (hother e he)) σ.files
  have hlf : Output.linesFor (Output.dirOf σ.outDir) (Output.fullPath (Output.dirOf σ.outDir) file)
      (post.map fun p => p.2.run L M σ.lib) = [] := by
    unfold Output.linesFor
    rw [List.filter_eq_nil_iff.2, List.flatMap_nil]
    intro x hx
    obtain ⟨e, he, rfl⟩ := List.mem_map.1 hx
    simpa using hother e he
  have e2 : (σ.recs.map fun p => p.2.run L M σ.lib) = (pre.map fun p => p.2.run L M σ.lib) ++
      q.run L M σ.lib :: (post.map fun p => p.2.run L M σ.lib) := by
    rw [hpp]; simp
  rw [e2] at hgo
  rw [hgo, hlf, List.append_nil] at key
  exact ⟨key, (hall _ (List.mem_map.2 ⟨_, hin, rfl⟩)).1, rfl, rfl⟩

/-- A recorder that asks for the annual cost of the structure with a number. -/
def Yearly (n : ℕ) (q : Held) : Prop :=
  q.target = some n ∧ q.parts.kind = .structcost ∧
    (q.parts.opts.structType = some .annual ∨ q.parts.opts.structType = some .npv ∧ q.parts.at_ ≠ [])

theorem asked_annual {w : World} {m : Memory} {n : ℕ} {b : Building} (hb : w.things[n]? = some (.building b)) (q : Held) :
    ((m.asked N ds w q).annual n).getD (b.obj N w).annualCost = (m.annual n).getD (b.obj N w).annualCost ∧
      ((m.annual n).isSome → ((m.asked N ds w q).annual n).isSome) ∧
      (Yearly n q → ((m.asked N ds w q).annual n).isSome) := by
  have same : (m.asked N ds w q).annual n = m.annual n → ¬ Yearly n q → _ := fun h hy =>
    (⟨by rw [h], by rw [h]; exact id, fun hq => absurd hq hy⟩ :
      ((m.asked N ds w q).annual n).getD (b.obj N w).annualCost = (m.annual n).getD (b.obj N w).annualCost ∧
      ((m.annual n).isSome → ((m.asked N ds w q).annual n).isSome) ∧
      (Yearly n q → ((m.asked N ds w q).annual n).isSome))
  by_cases ht : q.target = some n
  · have ho : m.recalled n ((plain N ds).obj w n) = .struct { b.obj N w with
        annualCost := (m.annual n).getD (b.obj N w).annualCost
        eCost := fun y r => discounted ((m.annual n).getD (b.obj N w).annualCost).getMean y r } := by
      simp only [plain, hb, Thing.obj, Memory.recalled]
    have new : (m.asked N ds w q).annual n = some ((m.annual n).getD (b.obj N w).annualCost) → _ := fun h =>
      (⟨by rw [h]; rfl, by rw [h]; exact fun _ => rfl, fun _ => by rw [h]; rfl⟩ :
        ((m.asked N ds w q).annual n).getD (b.obj N w).annualCost = (m.annual n).getD (b.obj N w).annualCost ∧
        ((m.annual n).isSome → ((m.asked N ds w q).annual n).isSome) ∧
        (Yearly n q → ((m.asked N ds w q).annual n).isSome))
    by_cases hk : q.parts.kind = .structcost
    · rcases hs : q.parts.opts.structType with _ | st
      · refine same ?_ ?_
        · simp only [Memory.asked, ht, ho, hk, hs]
        · rintro ⟨-, -, h | h⟩
          · rw [hs] at h; cases h
          · rw [hs] at h; cases h.1
      · cases st with
        | annual =>
          refine new ?_
          simp only [Memory.asked, ht, ho, hk, hs, Function.update_self]
        | npv =>
          by_cases ha : q.parts.at_ = []
          · refine same ?_ ?_
            · simp only [Memory.asked, ht, ho, hk, hs, ha, if_true]
            · rintro ⟨-, -, h | h⟩
              · rw [hs] at h; cases h
              · exact h.2 ha
          · refine new ?_
            simp only [Memory.asked, ht, ho, hk, hs, ha, if_false, Function.update_self]
        | _ =>
          refine same ?_ ?_
          · simp only [Memory.asked, ht, ho, hk, hs]
          · rintro ⟨-, -, h | h⟩
            · rw [hs] at h; cases h
            · rw [hs] at h; cases h.1
    · refine same ?_ fun h => hk h.2.1
      unfold Memory.asked
      rw [ht]
      dsimp only
      rw [ho]
      cases hk' : q.parts.kind with
      | structcost => exact absurd hk' hk
      | _ => rfl
  · refine same ?_ fun h => ht h.1
    unfold Memory.asked
    cases hq : q.target with
    | none => rfl
    | some n' =>
      have hne : n ≠ n' := by
        rintro rfl
        exact ht hq
      dsimp only
      split <;> try rfl
      · exact Function.update_of_ne hne _ _
      · split
        · rfl
        · exact Function.update_of_ne hne _ _

theorem asked_annuals {w : World} {m : Memory} {n : ℕ} {b : Building} (hb : w.things[n]? = some (.building b))
    (qs : List (String × Held)) :
    ((qs.foldl (fun m e => m.asked N ds w e.2) m).annual n).getD (b.obj N w).annualCost =
        (m.annual n).getD (b.obj N w).annualCost ∧
      ((m.annual n).isSome → ((qs.foldl (fun m e => m.asked N ds w e.2) m).annual n).isSome) ∧
      ((∃ e ∈ qs, Yearly n e.2) → ((qs.foldl (fun m e => m.asked N ds w e.2) m).annual n).isSome) := by
  induction qs generalizing m with
  | nil => exact ⟨rfl, id, by simp⟩
  | cons e qs ih =>
    obtain ⟨h1, h2, h3⟩ := asked_annual (N := N) (ds := ds) (m := m) hb e.2
    obtain ⟨g1, g2, g3⟩ := ih (m := m.asked N ds w e.2)
    refine ⟨g1.trans h1, fun h => g2 (h2 h), ?_⟩
    rintro ⟨e', he, hy⟩
    rcases List.mem_cons.1 he with rfl | he
    · exact g2 (h3 hy)
    · exact g3 ⟨e', he, hy⟩

/-- What a report of the annual cost prints depends on nothing else of the structure. -/
theorem yearly_same {r : Rec.Recorder} (hk : r.kind = .structcost)
    (ht : r.opts.structType = some .annual ∨ r.opts.structType = some .npv) {s s' : Rec.StructObj}
    (h1 : s.annualCost = s'.annualCost) (h2 : s.eCost = s'.eCost) :
    Rec.output { r with fn := .struct s } = Rec.output { r with fn := .struct s' } := by
  rcases ht with ht | ht
  · simp only [Rec.output, hk, Rec.structOutput, ht, h1]
  · simp only [Rec.output, hk, Rec.structOutput, ht, Rec.npvOutput, h2]

/-- Years with no line in the table are never asked for. -/
theorem yearly_none {r : Rec.Recorder} (hk : r.kind = .structcost) (ht : r.opts.structType = some .npv) (ha : r.at_ = [])
    (o o' : Rec.Obj) : Rec.output { r with fn := o } = Rec.output { r with fn := o' } := by
  have key : ∀ o : Rec.Obj, Rec.output { r with fn := o } = Rec.output { r with fn := .none } := by
    intro o
    simp only [Rec.output, hk, Rec.structOutput, ht, ha, List.map_nil]
    cases o with
    | struct s => cases hd : r.opts.discountRate <;> simp [Rec.npvOutput]
    | _ => rfl
  rw [key o, key o']

/-- Other objects have no annual cost. -/
theorem yearly_struct {r : Rec.Recorder} (hk : r.kind = .structcost)
    (ht : r.opts.structType = some .annual ∨ r.opts.structType = some .npv ∧ r.at_ ≠ []) {o : Rec.Obj}
    (h : (Rec.printed (Rec.output { r with fn := o })).2 = none) : ∃ s, o = .struct s := by
  cases o with
  | struct s => exact ⟨s, rfl⟩
  | _ =>
    exfalso
    rcases ht with ht | ⟨ht, ha⟩
    · simp [Rec.output, hk, Rec.structOutput, ht, Rec.printed] at h
    · obtain ⟨x, l, hx⟩ := List.exists_cons_of_ne_nil ha
      cases hd : r.opts.discountRate <;> simp [Rec.output, hk, Rec.structOutput, ht, hx, hd, Rec.printed] at h

/-- A report of an annual cost after it was asked for, whatever else has become of the structure. -/
theorem stale_run {w w' : World} {m : Memory} {rid : String} {q : Held} {qs : List (String × Held)}
    (hk : q.parts.kind = .structcost)
    (ht : q.parts.opts.structType = some .annual ∨ q.parts.opts.structType = some .npv) (hin : (rid, q) ∈ qs)
    (hw : ∀ (n : ℕ) (b : Building), w.things[n]? = some (.building b) → ∃ b', w'.things[n]? = some (.building b'))
    (hok : (q.run (remembering N ds) M (w, m)).ok = true) :
    q.run (remembering N ds) M (w', qs.foldl (fun m e => m.asked N ds w e.2) m) = q.run (remembering N ds) M (w, m) := by
  simp only [Held.run]
  by_cases ha : q.parts.opts.structType = some .npv ∧ q.parts.at_ = []
  · rw [yearly_none hk ha.1 ha.2 _ (seen (remembering N ds) (w, m) q.target)]
  · have hy : q.parts.opts.structType = some .annual ∨ q.parts.opts.structType = some .npv ∧ q.parts.at_ ≠ [] := by
      rcases ht with h | h
      · exact Or.inl h
      · exact Or.inr ⟨h, fun h' => ha ⟨h, h'⟩⟩
    obtain ⟨s, hs⟩ := yearly_struct hk hy (Option.isNone_iff_eq_none.1 hok)
    cases hq : q.target with
    | none => rfl
    | some n =>
      rw [hq] at hs
      simp only [seen, remembering, plain] at hs
      cases hn : w.things[n]? with
      | none => rw [hn] at hs; cases hs
      | some t =>
        cases t with
        | building b =>
          obtain ⟨b', hb'⟩ := hw n b hn
          obtain ⟨g1, -, g3⟩ := asked_annuals (N := N) (ds := ds) (m := m) hn qs
          obtain ⟨v, hv⟩ := Option.isSome_iff_exists.1 (g3 ⟨_, hin, hq, hk, hy⟩)
          rw [hv, Option.getD_some] at g1
          simp only [seen, remembering, plain, hb', hn, Thing.obj, Memory.recalled, hv, Option.getD_some]
          rw [yearly_same hk ht (s' := { b.obj N w with
              annualCost := (m.annual n).getD (b.obj N w).annualCost
              eCost := fun y r => discounted ((m.annual n).getD (b.obj N w).annualCost).getMean y r }) g1 (by rw [g1])]
        | _ => rw [hn] at hs; cases hs

/-- One command, see `run_cons`. -/
theorem runR_cons {c : Cfg} {m : Cmd} {l : List Cmd} {s : Interp.St}
    {σ σ' : State (World × Memory)} (hm : m.sound = true) (hs : s.saved = [])
    (h : runR N ds M c (m :: l) s σ = (σ', none)) :
    ∃ k s₁ σ₁, m.calls c s.vars s.titles = .ok k ∧ s₁.saved = [] ∧ execAllR N ds M k σ = (σ₁, none) ∧
      runR N ds M c l s₁ σ₁ = (σ', none) := by
  rw [runR, Interp.command_means_partial c m hm { s with calls := [] } hs] at h
  cases hk : m.calls c s.vars s.titles with
  | error e =>
    simp only [hk, Interp.error_bind] at h
    cases h
  | ok k =>
    cases hE : m.env c ⟨s.vars, s.titles⟩ with
    | error e =>
      simp only [hk, Interp.ok_bind, Interp.St.env, hE, Interp.error_bind] at h
      cases h
    | ok E =>
      simp only [hk, Interp.ok_bind, Interp.St.env, hE, Interp.after, List.nil_append] at h
      rcases he : execAllR N ds M k σ with ⟨σ₁, _ | e⟩
      · rw [he] at h
        exact ⟨k, { saved := s.saved, vars := E.vars, titles := E.titles, calls := k }, σ₁, rfl, hs, he, h⟩
      · rw [he] at h; cases h

theorem runR_append {c : Cfg} {l₁ l₂ : List Cmd} {s : Interp.St} {σ σ' : State (World × Memory)}
    (hm : ∀ m ∈ l₁, m.sound = true) (hs : s.saved = []) (h : runR N ds M c (l₁ ++ l₂) s σ = (σ', none)) :
    ∃ s₁ σ₁, s₁.saved = [] ∧ runR N ds M c l₁ s σ = (σ₁, none) ∧ runR N ds M c l₂ s₁ σ₁ = (σ', none) := by
  induction l₁ generalizing s σ with
  | nil => exact ⟨s, σ, hs, rfl, h⟩
  | cons m l₁ ih =>
    have hwm := Interp.command_means_partial c m (hm m (by simp)) { s with calls := [] } hs
    rw [List.cons_append, runR] at h
    rcases hw : Interp.walkCommand c m { s with calls := [] } with e | s₀
    · rw [hw] at h; cases h
    · rw [hw] at h
      dsimp only at h
      rcases he : execAllR N ds M s₀.calls σ with ⟨σ₀, _ | e⟩
      · rw [he] at h
        have hs₀ : s₀.saved = [] := by
          rw [hw] at hwm
          obtain ⟨k, -, h2⟩ := bind_okE hwm.symm
          obtain ⟨E, -, h3⟩ := bind_okE h2
          cases h3
          exact hs
        obtain ⟨s₁, σ₁, h1, h2, h3⟩ := ih (fun x hx => hm x (by simp [hx])) hs₀ h
        refine ⟨s₁, σ₁, h1, ?_, h3⟩
        rw [runR, hw]
        dsimp only
        rw [he]
        exact h2
      · rw [he] at h; cases h

/-- A cost of rebuilding or demolition is set. -/
def Priced : Cmd → Prop
  | .dist .rebuildCost .. => True
  | .dist .demolitionCost .. => True
  | _ => False

theorem setCost_keeps {w w' : World} {id : String} {mu sp : Val} {mo : Option Mu} {so : Option Sd}
    {set : Building → LogNormalDist → Building} (h : setCost w id mu sp mo so set = .ok w') :
    (∀ (n : ℕ) (b : Building), w.things[n]? = some (.building b) → ∃ b', w'.things[n]? = some (.building b')) ∧
    ∃ n b, w.find "structure" id = some n ∧ w.things[n]? = some (.building b) := by
  unfold setCost at h
  split at h
  · cases hf : w.find "structure" id with
    | none => rw [hf] at h; cases h
    | some n =>
      rw [hf] at h
      dsimp only at h
      split at h
      · next b hb =>
        cases h
        refine ⟨fun k b' hk => ?_, n, b, rfl, hb⟩
        by_cases e : k = n
        · subst e
          have hlt : k < w.things.length := (List.getElem?_eq_some_iff.1 hb).1
          exact ⟨_, List.getElem?_set_self hlt⟩
        · exact ⟨b', by simp only [List.getElem?_set_ne (Ne.symm e), hk]⟩
      · cases h
  · cases h
  · cases h

/-- Setting such costs forgets nothing. -/
theorem priced_keeps {c : Cfg} {C : List Cmd} (hC : ∀ x ∈ C, Priced x ∧ x.sound = true) {s : Interp.St} (hs : s.saved = [])
    {l : List Cmd} {τ τ' : State (World × Memory)} (h : runR N ds M c (C ++ l) s τ = (τ', none)) :
    ∃ s₁ w', s₁.saved = [] ∧ runR N ds M c l s₁ { τ with lib := (w', τ.lib.2) } = (τ', none) ∧
      (∀ (n : ℕ) (b : Building), τ.lib.1.things[n]? = some (.building b) → ∃ b', w'.things[n]? = some (.building b')) := by
  induction C generalizing s τ with
  | nil => exact ⟨s, τ.lib.1, hs, h, fun n b hb => ⟨b, hb⟩⟩
  | cons x C ih =>
    obtain ⟨hp, hsd⟩ := hC x (by simp)
    obtain ⟨k, s₁, σ₁, h1, h2, h3, h4⟩ := runR_cons (l := C ++ l) hsd hs h
    have key : ∃ w', σ₁ = { τ with lib := (w', τ.lib.2) } ∧
        (∀ (n : ℕ) (b : Building), τ.lib.1.things[n]? = some (.building b) → ∃ b', w'.things[n]? = some (.building b')) := by
      cases x with
      | dist q i p o =>
        obtain ⟨⟨a, b⟩, -, hk⟩ := bind_okE h1
        cases hk
        have one : ∀ {k : Call}, execAllR N ds M [k] τ = (σ₁, none) → execR N ds M τ k = (σ₁, none) := by
          intro k hk
          simp only [execAllR] at hk
          rcases hx : execR N ds M τ k with ⟨σ₂, _ | e⟩
          · rw [hx] at hk
            exact hk
          · rw [hx] at hk; cases hk
        have h5 := one h3
        have cost : ∀ w', τ.lib.1.call (.dist q i a o.mu b o.sd) = .ok w' → ∃ set, setCost τ.lib.1 i a b o.mu o.sd set = .ok w' := by
          intro w' hw
          cases q with
          | collapse => cases hp
          | demolition => cases hp
          | rebuildCost => exact ⟨fun b d => { b with rebuild := d }, hw⟩
          | demolitionCost => exact ⟨fun b d => { b with demolition := d }, hw⟩
        cases q with
        | collapse => cases hp
        | demolition => cases hp
        | _ =>
          simp only [execR, exec, remembering] at h5
          split at h5
          · next w hw =>
            cases h5
            split at hw
            · next w' hw' =>
              cases hw
              obtain ⟨set, hset⟩ := cost w' hw'
              exact ⟨w', rfl, (setCost_keeps hset).1⟩
            · cases hw
          · cases h5
      | _ => cases hp
    obtain ⟨w', rfl, hw'⟩ := key
    obtain ⟨s₂, w'', g1, g2, g3⟩ := ih (fun y hy => hC y (by simp [hy])) h2 h4
    refine ⟨s₂, w'', g1, g2, fun n b hb => ?_⟩
    obtain ⟨b', hb'⟩ := hw' n b hb
    exact g3 n b' hb'

/-- Sessions with and without a memory side by side. -/
theorem side_by_side (hN : N.Separate) {c : Cfg} {A l : List Cmd} (hl : ∀ x ∈ l, x.sound = true) (hset : Spec.Settled (A ++ l))
    {s : Interp.St} (hs : s.saved = []) {σ σ' : State World} {m : Memory} (h : Keeps N σ.lib m) (hd : Noted A σ.lib σ.recs m)
    (hr : run (plain N ds) M c l s σ = (σ', none)) :
    ∃ s₁ m', s₁.saved = [] ∧ (∀ l₂, run (plain N ds) M c (l ++ l₂) s σ = run (plain N ds) M c l₂ s₁ σ') ∧
      (∀ l₂, runR N ds M c (l ++ l₂) s (lift σ m) = runR N ds M c l₂ s₁ (lift σ' m')) ∧
      Keeps N σ'.lib m' ∧ Noted (A ++ l) σ'.lib σ'.recs m' := by
  induction l generalizing A s σ m with
  | nil =>
    cases hr
    exact ⟨s, m, hs, fun _ => rfl, fun _ => rfl, h, by simpa using hd⟩
  | cons x l ih =>
    have hw := Interp.command_means_partial c x (hl x (by simp)) { s with calls := [] } hs
    simp only [run] at hr
    cases hc : Interp.walkCommand c x { s with calls := [] } with
    | error e => rw [hc] at hr; cases hr
    | ok s₁ =>
      rw [hc] at hw hr
      obtain ⟨k, hk, hw⟩ := bind_okE hw.symm
      obtain ⟨E, -, hw⟩ := bind_okE hw
      cases hw
      have hk' : x.calls c s.vars s.titles = .ok k := hk
      obtain ⟨m', e1, e2⟩ := command_remembered (ds := ds) (M := M) hN hk' hset h hd
      dsimp only [Interp.after, List.nil_append] at hr
      rcases he : execAll (plain N ds) M k σ with ⟨σ₁, _ | e⟩
      · rw [he] at e2 e1 hr
        obtain ⟨f1, f2⟩ := e2 rfl
        obtain ⟨s₂, m₂, g1, g2, g3, g4, g5⟩ := ih (s := { saved := s.saved, vars := E.vars, titles := E.titles, calls := k })
          (fun y hy => hl y (by simp [hy])) (by simpa using hset) hs f1 f2 hr
        refine ⟨s₂, m₂, g1, fun l₂ => ?_, fun l₂ => ?_, g4, by simpa using g5⟩
        · rw [List.cons_append, run, hc]
          dsimp only [Interp.after, List.nil_append]
          rw [he]
          exact g2 l₂
        · rw [List.cons_append, runR, hc]
          dsimp only [Interp.after, List.nil_append]
          rw [e1]
          exact g3 l₂
      · rw [he] at hr; cases hr

/-- An analysis. -/
theorem analysis_ends {c : Cfg} {s : Interp.St} (hs : s.saved = []) {σ τ : State (World × Memory)}
    (h : runR N ds M c [.analyze] s σ = (τ, none)) :
    ∃ τ', analyze (remembering N ds) M σ = (τ', none) ∧
      τ = { τ' with lib := (σ.lib.1, σ.recs.foldl (fun m e => m.asked N ds σ.lib.1 e.2) σ.lib.2) } := by
  obtain ⟨k, s₁, σ₁, h1, -, h3, h4⟩ := runR_cons rfl hs h
  cases h1
  cases h4
  simp only [execAllR, execR] at h3
  rcases ha : analyze (remembering N ds) M σ with ⟨τ', _ | e⟩
  · rw [ha] at h3
    cases h3
    exact ⟨τ', rfl, rfl⟩
  · rw [ha] at h3; cases h3

/-- If all that is reported is annual costs, a session that goes on with another price also ends with a memory. -/
theorem yearly_ends (hN : N.Separate) {c : Cfg} {X : List Cmd} {x : Cmd} {fs : Files} {σ : State World} (hX : ∀ m ∈ X, m.sound = true)
    (hx : Priced x) (hxs : x.sound = true) (hset : Spec.Settled (X ++ [.analyze]))
    (hrecs : ∀ i b po, Cmd.recorder i b po ∈ X → Spec.Yearwise b.id b)
    (hr : run (plain N ds) M c (X ++ [.analyze] ++ [x, .analyze]) {} (start {} fs) = (σ, none)) :
    ∃ τ, runR N ds M c (X ++ [.analyze] ++ [x, .analyze]) {} (start ({}, {}) fs) = (τ, none) := by
  have hX' : ∀ m ∈ X ++ [Cmd.analyze], m.sound = true := by
    intro m hm
    rcases List.mem_append.1 hm with h | h
    · exact hX m h
    · rw [List.mem_singleton.1 h]; rfl
  obtain ⟨-, σ₀, -, hr₀, -⟩ := run_append hX' rfl hr
  obtain ⟨-, σB, -, hrB, -⟩ := run_append hX rfl hr₀
  obtain ⟨s₁, m₁, hs₁, -, b2, b3, b4⟩ := side_by_side (ds := ds) (M := M) (A := []) hN hX (by
    intro A' B' k id p o he
    exact hset A' (B' ++ [.analyze]) k id p o (by rw [show X = _ from he]; simp)) (s := {}) rfl Keeps.init Noted.init hrB
  obtain ⟨s₂, m₂, hs₂, d1, d2, -, -⟩ := side_by_side (ds := ds) (M := M) (A := []) hN hX' hset (s := {}) rfl Keeps.init Noted.init hr₀
  have h0 := d2 []
  rw [List.append_nil, b2] at h0
  obtain ⟨τ₁, ha, hτ⟩ := analysis_ends hs₁ (show runR N ds M c [.analyze] s₁ (lift σB m₁) = (lift σ₀ m₂, none) from h0)
  rw [d1] at hr
  have hst : start ({}, {}) fs = lift (start {} fs) {} := rfl
  rw [hst, d2]
  obtain ⟨k, s₃, σ₃, h1, h2, h3, h4, h5⟩ := run_cons hxs hs₂ hr
  -- the price
  have key : ∃ w', execAllR N ds M k (lift σ₀ m₂) = ({ lift σ₀ m₂ with lib := (w', m₂) }, none) ∧
      (∀ (n : ℕ) (b : Building), σ₀.lib.things[n]? = some (.building b) → ∃ b', w'.things[n]? = some (.building b')) := by
    cases x with
    | dist q i p o =>
      obtain ⟨⟨a, b⟩, -, hk⟩ := bind_okE h1
      cases hk
      cases hc : σ₀.lib.call (.dist q i a o.mu b o.sd) with
      | error e =>
        exfalso
        simp only [execAll, exec, plain, hc] at h3
        cases h3
      | ok w' =>
        have cost : ∃ set, setCost σ₀.lib i a b o.mu o.sd set = .ok w' := by
          cases q with
          | collapse => cases hx
          | demolition => cases hx
          | rebuildCost => exact ⟨fun b d => { b with rebuild := d }, hc⟩
          | demolitionCost => exact ⟨fun b d => { b with demolition := d }, hc⟩
        obtain ⟨set, hset⟩ := cost
        refine ⟨w', ?_, (setCost_keeps hset).1⟩
        cases q with
        | collapse => cases hx
        | demolition => cases hx
        | _ => simp only [execAllR, execR, exec, remembering, lift, hc, Memory.after]
    | _ => cases hx
  obtain ⟨w', hw, hkeep⟩ := key
  have hE : Interp.walkCommand c x { s₂ with calls := [] } =
      .ok { saved := s₂.saved, vars := s₃.vars, titles := s₃.titles, calls := k } := by
    rw [Interp.command_means_partial c x hxs { s₂ with calls := [] } hs₂]
    simp only [h1, Interp.ok_bind, Interp.St.env, h5, Interp.after, List.nil_append]
  rw [runR, hE]
  dsimp only
  rw [hw]
  dsimp only
  -- the second analysis
  have hA : Interp.walkCommand c .analyze { saved := s₂.saved, vars := s₃.vars, titles := s₃.titles, calls := [] } =
      .ok { saved := s₂.saved, vars := s₃.vars, titles := s₃.titles, calls := [.analyze] } := by
    rw [Interp.command_means_partial c .analyze rfl { saved := s₂.saved, vars := s₃.vars, titles := s₃.titles, calls := [] } hs₂]
    rfl
  rw [runR, hA]
  dsimp only
  have hrec : σ₀.recs = σB.recs ∧ σ₀.outDir = σB.outDir ∧ σ₀.lib = σB.lib ∧
      m₂ = σB.recs.foldl (fun m e => m.asked N ds σB.lib e.2) m₁ := by
    unfold Session.analyze at ha
    obtain ⟨e1, -⟩ := Prod.mk.inj ha
    subst e1
    simp only [lift, State.mk.injEq, Prod.mk.injEq] at hτ
    exact ⟨hτ.2.1, hτ.2.2.1, hτ.1.1, hτ.1.2⟩
  obtain ⟨r1, r2, r3, r4⟩ := hrec
  have hfirst : ∀ y ∈ σB.recs.map fun p => p.2.run (remembering N ds) M (σB.lib, m₁),
      Output.Runs (Output.dirOf σB.outDir) M.openable y := by
    refine analyze_runs _ σB.files ?_
    unfold Session.analyze at ha
    obtain ⟨-, e2⟩ := Prod.mk.inj ha
    by_contra hn
    have : (Output.analyze (Output.dirOf (lift σB m₁).outDir) M.openable (lift σB m₁).files
      ((lift σB m₁).recs.map fun p => p.2.run (remembering N ds) M (lift σB m₁).lib)).2 = false := Bool.eq_false_iff.2 hn
    rw [this] at e2
    cases e2
  have hrun : ∀ e ∈ σB.recs, e.2.run (remembering N ds) M (w', m₂) = e.2.run (remembering N ds) M (σB.lib, m₁) := by
    intro e he
    obtain ⟨i, b, po, n1, n2, n3, -⟩ := b4.recs e he
    have hy := hrecs i b po n1
    have hst : kindOf "structcost" = some .structcost := by decide
    have hkind : e.2.parts.kind = .structcost ∧
        (e.2.parts.opts.structType = some .annual ∨ e.2.parts.opts.structType = some .npv) := by
      rw [n3]
      cases b with
      | annual i po cs => exact ⟨Option.some.inj (n2.symm.trans hst), Or.inl rfl⟩
      | npv i => exact ⟨Option.some.inj (n2.symm.trans hst), Or.inr rfl⟩
      | _ => cases hy
    rw [r4]
    refine stale_run (rid := e.1) hkind.1 hkind.2 he (by rw [← r3]; exact hkeep) ?_
    exact (hfirst _ (List.mem_map.2 ⟨e, he, rfl⟩)).1
  have hgo : (Session.analyze (remembering N ds) M { lift σ₀ m₂ with lib := (w', m₂) }).2 = none := by
    simp only [Session.analyze]
    rw [runs_analyze]
    · rfl
    · intro y hy
      obtain ⟨e, he, rfl⟩ := List.mem_map.1 hy
      have he' : e ∈ σB.recs := by rw [← r1]; exact he
      show Output.Runs (Output.dirOf σ₀.outDir) M.openable (e.2.run (remembering N ds) M (w', m₂))
      rw [hrun e he', r2]
      exact hfirst _ (List.mem_map.2 ⟨e, he', rfl⟩)
  refine ⟨_, Prod.ext rfl ?_⟩
  simp only [execAllR, execR, hgo, runR]

end

end Slat.Session
