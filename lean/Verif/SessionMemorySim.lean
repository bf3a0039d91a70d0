import Verif.SessionMemoryLemmas
import Verif.SessionProps

/-!
# Helper lemmas: a program that remembers leaves what one that computes leaves
-/

namespace Slat.Session

noncomputable section

open Interp (Val Call Cmd Cfg Err Mu Sd DistCmd Sc)
open Output (Path Files)

variable {N : Numerics} {ds : World → Interp.Printed → String} {M : Machine}

/-- What is remembered was asked for by a recorder of the script. -/
structure Noted (A : List Cmd) (w : World) (recs : List (String × Held)) (m : Memory) : Prop where
  recs : ∀ e ∈ recs, ∃ i b po, Cmd.recorder i b po ∈ A ∧ kindOf b.type = some e.2.parts.kind ∧
    e.2.parts.opts.structType = (optsOf (b.options po)).structType ∧
    ∀ n, e.2.target = some n → b.registry = "im" ∨ b.registry = "structure" → w.find b.registry b.id = some n
  rates : ∀ n v, m.demolitionRate n = some v → ∃ i, Spec.Asked (.collrate i) A ∧ w.find "im" i = some n
  costs : ∀ n v, m.annual n = some v → ∃ i b, Spec.Yearwise i b ∧ Spec.Asked b A ∧ w.find "structure" i = some n

theorem Noted.init : Noted [] {} [] {} where
  recs := by simp
  rates := by intro n v h; cases h
  costs := by intro n v h; cases h

theorem asked_more {b : Interp.RecBody} {A B : List Cmd} (h : Spec.Asked b A) : Spec.Asked b (A ++ B) := by
  obtain ⟨A', B', i, po, rfl, h⟩ := h
  exact ⟨A', B' ++ B, i, po, by simp, h⟩

theorem Noted.later {A B : List Cmd} {w w' : World} {recs : List (String × Held)} {m m' : Memory} (h : Noted A w recs m)
    (hL : Later w w') (h1 : ∀ n v, m'.demolitionRate n = some v → m.demolitionRate n = some v)
    (h2 : ∀ n v, m'.annual n = some v → m.annual n = some v) : Noted (A ++ B) w' recs m' where
  recs e he := by
    obtain ⟨i, b, po, g1, g2, g3, g4⟩ := h.recs e he
    refine ⟨i, b, po, by simp [g1], g2, g3, fun n hn hr => ?_⟩
    have := g4 n hn hr
    rcases hr with hr | hr
    · rw [hr] at this ⊢; exact hL.im _ _ this
    · rw [hr] at this ⊢; exact hL.built _ _ this
  rates n v hv := by
    obtain ⟨i, g1, g2⟩ := h.rates n v (h1 n v hv)
    exact ⟨i, asked_more g1, hL.im _ _ g2⟩
  costs n v hv := by
    obtain ⟨i, b, g1, g2, g3⟩ := h.costs n v (h2 n v hv)
    exact ⟨i, b, g1, asked_more g2, hL.built _ _ g3⟩

theorem after_sub {w : World} {m : Memory} (x : Call) :
    (∀ n v, (m.after w x).demolitionRate n = some v → m.demolitionRate n = some v) ∧
    ∀ n v, (m.after w x).annual n = some v → m.annual n = some v := by
  have told : ∀ k n v, (m.told w k).annual n = some v → m.annual n = some v := by
    intro k n v h
    simp only [Memory.told] at h
    split at h
    · split at h
      · split at h
        · cases h
        · exact h
      · exact h
    · exact h
  have upd : ∀ {β : Type} (f : ℕ → Option β) k n v, Function.update f k none n = some v → f n = some v := by
    intro β f k n v h
    by_cases e : n = k
    · subst e; rw [Function.update_self] at h; cases h
    · rwa [Function.update_of_ne e] at h
  cases x with
  | dist k id =>
    cases k <;> simp only [Memory.after]
    · split
      · exact ⟨fun n v h => h, told _⟩
      · exact ⟨fun n v h => h, fun n v h => h⟩
    · split
      · exact ⟨upd _ _, told _⟩
      · exact ⟨fun n v h => h, fun n v h => h⟩
    · exact ⟨fun n v h => h, fun n v h => h⟩
    · exact ⟨fun n v h => h, fun n v h => h⟩
  | addCompGroup id k =>
    simp only [Memory.after]
    split
    · exact ⟨fun n v h => h, upd _ _⟩
    · exact ⟨fun n v h => h, fun n v h => h⟩
  | _ => exact ⟨fun n v h => h, fun n v h => h⟩

/-- What one recorder asks for. -/
theorem asked_new {w : World} {m : Memory} (q : Held) :
    (∀ n v, (m.asked N ds w q).demolitionRate n = some v →
      m.demolitionRate n = some v ∨ q.target = some n ∧ q.parts.kind = .collrate) ∧
    ∀ n v, (m.asked N ds w q).annual n = some v →
      m.annual n = some v ∨ q.target = some n ∧ q.parts.kind = .structcost ∧
        (q.parts.opts.structType = some .annual ∨ q.parts.opts.structType = some .npv) := by
  have same : (∀ n v, m.demolitionRate n = some v →
      m.demolitionRate n = some v ∨ q.target = some n ∧ q.parts.kind = .collrate) ∧
    ∀ n v, m.annual n = some v →
      m.annual n = some v ∨ q.target = some n ∧ q.parts.kind = .structcost ∧
        (q.parts.opts.structType = some .annual ∨ q.parts.opts.structType = some .npv) :=
    ⟨fun n v h => Or.inl h, fun n v h => Or.inl h⟩
  unfold Memory.asked
  split
  · exact same
  · next k hk =>
    split
    · next hi hkind =>
      refine ⟨fun n v h => ?_, same.2⟩
      by_cases e : n = k
      · subst e; exact Or.inr ⟨hk, hkind⟩
      · simp only [Function.update_of_ne e] at h; exact Or.inl h
    · exact same
    · next hi hkind hty =>
      refine ⟨same.1, fun n v h => ?_⟩
      by_cases e : n = k
      · subst e; exact Or.inr ⟨hk, hkind, Or.inl hty⟩
      · simp only [Function.update_of_ne e] at h; exact Or.inl h
    · next hi hkind hty =>
      split
      · exact same
      · refine ⟨same.1, fun n v h => ?_⟩
        by_cases e : n = k
        · subst e; exact Or.inr ⟨hk, hkind, Or.inr hty⟩
        · simp only [Function.update_of_ne e] at h; exact Or.inl h
    · exact same

theorem asked_fold {w : World} {m : Memory} (qs : List (String × Held)) :
    (∀ n v, (qs.foldl (fun m e => m.asked N ds w e.2) m).demolitionRate n = some v →
      m.demolitionRate n = some v ∨ ∃ e ∈ qs, e.2.target = some n ∧ e.2.parts.kind = .collrate) ∧
    ∀ n v, (qs.foldl (fun m e => m.asked N ds w e.2) m).annual n = some v →
      m.annual n = some v ∨ ∃ e ∈ qs, e.2.target = some n ∧ e.2.parts.kind = .structcost ∧
        (e.2.parts.opts.structType = some .annual ∨ e.2.parts.opts.structType = some .npv) := by
  induction qs generalizing m with
  | nil => exact ⟨fun n v h => Or.inl h, fun n v h => Or.inl h⟩
  | cons q qs ih =>
    obtain ⟨a1, a2⟩ := asked_new (N := N) (ds := ds) (w := w) (m := m) q.2
    obtain ⟨b1, b2⟩ := ih (m := m.asked N ds w q.2)
    constructor
    · intro n v h
      rcases b1 n v h with h | ⟨e, he, h⟩
      · rcases a1 n v h with h | h
        · exact Or.inl h
        · exact Or.inr ⟨q, by simp, h⟩
      · exact Or.inr ⟨e, by simp [he], h⟩
    · intro n v h
      rcases b2 n v h with h | ⟨e, he, h⟩
      · rcases a2 n v h with h | h
        · exact Or.inl h
        · exact Or.inr ⟨q, by simp, h⟩
      · exact Or.inr ⟨e, by simp [he], h⟩

theorem kind_collrate {b : Interp.RecBody} (h : kindOf b.type = some .collrate) : b = .collrate b.id ∧ b.registry = "im" := by
  cases b with
  | collrate i => exact ⟨rfl, rfl⟩
  | fn t => cases t <;> exact absurd h (by simp only [Interp.RecBody.type]; decide)
  | rates t => cases t <;> exact absurd h (by simp only [Interp.RecBody.type]; decide)
  | _ => exact absurd h (by simp only [Interp.RecBody.type]; decide)

theorem kind_yearwise {b : Interp.RecBody} {po : Option Interp.PrintOpts}
    (h : (optsOf (b.options po)).structType = some .annual ∨ (optsOf (b.options po)).structType = some .npv) :
    Spec.Yearwise b.id b ∧ b.registry = "structure" := by
  cases b with
  | annual i => exact ⟨rfl, rfl⟩
  | npv i => exact ⟨rfl, rfl⟩
  | by_ t => cases t <;> exact absurd h (by simp only [optsOf, Interp.RecBody.options, Option.map_some]; decide)
  | _ => simp [optsOf, Interp.RecBody.options] at h

/-- An analysis. -/
theorem Noted.analyze {A : List Cmd} {w : World} {recs : List (String × Held)} {m : Memory} (h : Noted A w recs m) :
    Noted (A ++ [.analyze]) w recs (recs.foldl (fun m e => m.asked N ds w e.2) m) where
  recs := (h.later (B := [.analyze]) (Later.refl w) (fun _ _ h => h) (fun _ _ h => h)).recs
  rates n v hv := by
    rcases (asked_fold recs).1 n v hv with hv | ⟨e, he, h1, h2⟩
    · obtain ⟨i, g1, g2⟩ := h.rates n v hv
      exact ⟨i, asked_more g1, g2⟩
    · obtain ⟨i, b, po, g1, g2, -, g4⟩ := h.recs e he
      rw [h2] at g2
      obtain ⟨e1, e2⟩ := kind_collrate g2
      have := g4 n h1 (Or.inl e2)
      rw [e2] at this
      exact ⟨b.id, ⟨A, [], i, po, rfl, e1 ▸ g1⟩, this⟩
  costs n v hv := by
    rcases (asked_fold recs).2 n v hv with hv | ⟨e, he, h1, -, h2⟩
    · obtain ⟨i, b, g1, g2, g3⟩ := h.costs n v hv
      exact ⟨i, b, g1, asked_more g2, g3⟩
    · obtain ⟨i, b, po, g1, -, g3, g4⟩ := h.recs e he
      rw [g3] at h2
      obtain ⟨e1, e2⟩ := kind_yearwise h2
      have := g4 n h1 (Or.inr e2)
      rw [e2] at this
      exact ⟨b.id, b, e1, ⟨A, [], i, po, rfl, g1⟩, this⟩

theorem dictSet_sub {V : Type} {d : List (String × V)} {k : String} {v : V} {e : String × V}
    (h : e ∈ Rec.dictSet d k v) : e.2 = v ∨ e ∈ d := by
  induction d with
  | nil =>
    simp only [Rec.dictSet, List.mem_singleton] at h
    exact Or.inl (by rw [h])
  | cons a d ih =>
    simp only [Rec.dictSet] at h
    split at h
    · rcases List.mem_cons.1 h with h | h
      · exact Or.inl (by rw [h])
      · exact Or.inr (by simp [h])
    · rcases List.mem_cons.1 h with h | h
      · exact Or.inr (by simp [h])
      · rcases ih h with h | h
        · exact Or.inl h
        · exact Or.inr (by simp [h])

theorem make_parts {k : Rec.Kind} {fn : Rec.Obj} {o : Rec.Opts} {cs : Option (List Rec.Col)} {as : Option (List Rec.Num)}
    {r : Rec.Recorder} (h : Rec.make k fn o cs as = .ok r) : r.kind = k ∧ r.opts = o := by
  have base : ∀ {cs}, Rec.mkBase k fn o cs as = .ok r → r.kind = k ∧ r.opts = o := by
    intro cs h
    unfold Rec.mkBase at h
    split at h
    · cases h
    · cases hd : Rec.defaultColumns k fn cs with
      | error e => rw [hd] at h; cases h
      | ok l => rw [hd] at h; cases h; exact ⟨rfl, rfl⟩
  unfold Rec.make at h
  split at h
  · split at h
    · cases h
    · split at h
      · cases h
      · exact base h
  · exact base h

/-- Calls that neither change what was asked for nor ask. -/
def Quiet : Call → Prop
  | .analyze => False
  | .dist .. => False
  | .recorder .. => False
  | _ => True

theorem calls_quiet {c : Cfg} {ρ : Interp.Vars} {t : List String} {m : Cmd} {k : List Call}
    (h : m.calls c ρ t = .ok k) (h1 : m ≠ .analyze) (h2 : ∀ k i p o, m ≠ .dist k i p o) (h3 : ∀ i b po, m ≠ .recorder i b po) :
    ∀ x ∈ k, Quiet x := by
  have one : ∀ {x : Call}, Quiet x → (Except.ok [x] : Except Err (List Call)) = .ok k →
      ∀ y ∈ k, Quiet y := by
    intro x hx e
    cases e
    simpa using hx
  cases m with
  | analyze => exact absurd rfl h1
  | dist => exact absurd rfl (h2 _ _ _ _)
  | recorder => exact absurd rfl (h3 _ _ _)
  | print w po => obtain ⟨_, -, h⟩ := bind_okE h; exact one (x := .print ..) trivial h
  | outputdir d => exact one (x := .outputdir _) trivial h
  | title _ => cases h; simp
  | set i a =>
    cases a with
    | py e => obtain ⟨_, -, h⟩ := bind_okE h; cases h; simp
    | var e => cases h; simp
    | params e => cases h; simp
  | detfnHyperbolic id p q =>
    obtain ⟨_, -, h⟩ := bind_okE h
    obtain ⟨_, -, h⟩ := bind_okE h
    exact one (x := .detfn ..) trivial h
  | detfnPowerlaw id p => obtain ⟨_, -, h⟩ := bind_okE h; exact one (x := .detfn ..) trivial h
  | detfnLoglog id p => obtain ⟨_, -, h⟩ := bind_okE h; exact one (x := .detfn ..) trivial h
  | detfnLinear id p => obtain ⟨_, -, h⟩ := bind_okE h; exact one (x := .detfn ..) trivial h
  | probfn id mu sg o =>
    obtain ⟨_, -, h⟩ := bind_okE h
    obtain ⟨_, -, h⟩ := bind_okE h
    exact one (x := .probfn ..) trivial h
  | im => exact one (x := .im ..) trivial h
  | edp => exact one (x := .edp ..) trivial h
  | fragfnDb => exact one (x := .fragfnDb ..) trivial h
  | fragfnUser => obtain ⟨_, -, h⟩ := bind_okE h; exact one (x := .fragfnUser ..) trivial h
  | lossSimple => obtain ⟨_, -, h⟩ := bind_okE h; exact one (x := .simpleLoss ..) trivial h
  | lossBilevel => obtain ⟨_, -, h⟩ := bind_okE h; exact one (x := .bilevelLoss ..) trivial h
  | compgroup id e f k d n fl =>
    rcases fl with _ | ⟨x, _ | ⟨y, fl⟩⟩ <;> exact one (x := .compgroup ..) trivial h
  | structure_ id g =>
    cases h
    intro x hx
    rcases List.mem_cons.1 hx with rfl | hx
    · trivial
    · obtain ⟨g, -, rfl⟩ := List.mem_map.1 hx
      trivial
  | integration p it se =>
    obtain ⟨_, -, h⟩ := bind_okE h
    obtain ⟨_, -, h⟩ := bind_okE h
    rcases se with _ | ⟨m, a⟩
    · exact one (x := .integrationSettings ..) trivial h
    · obtain ⟨_, -, h⟩ := bind_okE h
      cases h
      simp [Quiet]
  | importProbfn => exact one (x := .importProbfn ..) trivial h
  | importIm => exact one (x := .importIm ..) trivial h
  | log b f =>
    cases h
    intro x hx
    rcases List.mem_append.1 hx with hx | hx <;> obtain ⟨_, -, rfl⟩ := List.mem_map.1 hx <;> trivial
  | intstatsPrint => exact one (x := .printStatistics) trivial h
  | intstatsReset => exact one (x := .resetStatistics) trivial h
  | inputdir => exact one (x := .inputdir ..) trivial h

theorem Quiet.harmless {w : World} {m : Memory} {x : Call} (h : Quiet x) : Harmless w m x := by
  cases x <;> first | exact trivial | cases h

theorem quiet_recs {σ : State World} {x : Call} (h : Quiet x) : (exec (plain N ds) M σ x).1.recs = σ.recs := by
  cases x with
  | analyze => cases h
  | dist => cases h
  | recorder => cases h
  | outputdir => rfl
  | print v f a =>
    simp only [exec, print]
    cases f with
    | none => rfl
    | some f =>
      dsimp only
      split <;> rfl
  | _ =>
    simp only [exec]
    split <;> rfl

/-- Several calls. -/
theorem quiet_same (hN : N.Separate) {A B : List Cmd} {k : List Call} (hk : ∀ x ∈ k, Quiet x) {σ : State World} {m : Memory}
    (h : Keeps N σ.lib m) (hd : Noted A σ.lib σ.recs m) :
    ∃ m', execAllR N ds M k (lift σ m) = (lift (execAll (plain N ds) M k σ).1 m', (execAll (plain N ds) M k σ).2) ∧
      ((execAll (plain N ds) M k σ).2 = none → Keeps N (execAll (plain N ds) M k σ).1.lib m' ∧
        Noted (A ++ B) (execAll (plain N ds) M k σ).1.lib (execAll (plain N ds) M k σ).1.recs m') := by
  induction k generalizing σ m with
  | nil => exact ⟨m, rfl, fun _ => ⟨h, hd.later (Later.refl _) (fun _ _ h => h) (fun _ _ h => h)⟩⟩
  | cons x k ih =>
    have hx := hk x (by simp)
    obtain ⟨m', e1, e2, e3⟩ := exec_same (ds := ds) (M := M) hN h (x := x) hx.harmless
    have hr := quiet_recs (N := N) (ds := ds) (M := M) (σ := σ) hx
    simp only [execAllR, execAll, e1]
    rcases he : exec (plain N ds) M σ x with ⟨σ₁, _ | e⟩
    · rw [he] at e1 e2 hr
      have hL := later_exec he
      have hd' : Noted A σ₁.lib σ₁.recs m' := by
        rw [show σ₁.recs = σ.recs from hr]
        have sub : (∀ n v, m'.demolitionRate n = some v → m.demolitionRate n = some v) ∧
            ∀ n v, m'.annual n = some v → m.annual n = some v := by
          rcases e3 with rfl | rfl | ⟨rfl, -⟩
          · exact ⟨fun _ _ h => h, fun _ _ h => h⟩
          · exact after_sub x
          · cases hx
        have := hd.later (B := []) hL sub.1 sub.2
        rwa [List.append_nil] at this
      exact ih (fun y hy => hk y (by simp [hy])) e2 hd'
    · exact ⟨m', rfl, fun h => by cases h⟩

theorem execAllR_one {x : Call} {σ : State World} {m m' : Memory}
    (h : execR N ds M (lift σ m) x = (lift (exec (plain N ds) M σ x).1 m', (exec (plain N ds) M σ x).2)) :
    execAllR N ds M [x] (lift σ m) = (lift (execAll (plain N ds) M [x] σ).1 m', (execAll (plain N ds) M [x] σ).2) ∧
      (execAll (plain N ds) M [x] σ).1 = (exec (plain N ds) M σ x).1 ∧
      (execAll (plain N ds) M [x] σ).2 = (exec (plain N ds) M σ x).2 := by
  simp only [execAllR, execAll, h]
  rcases exec (plain N ds) M σ x with ⟨σ₁, _ | e⟩
  · exact ⟨rfl, rfl, rfl⟩
  · exact ⟨rfl, rfl, rfl⟩

/-- One command. -/
theorem command_remembered (hN : N.Separate) {c : Cfg} {ρ : Interp.Vars} {t : List String} {A B : List Cmd} {x : Cmd} {k : List Call}
    (hk : x.calls c ρ t = .ok k) (hset : Spec.Settled (A ++ x :: B)) {σ : State World} {m : Memory}
    (h : Keeps N σ.lib m) (hd : Noted A σ.lib σ.recs m) :
    ∃ m', execAllR N ds M k (lift σ m) = (lift (execAll (plain N ds) M k σ).1 m', (execAll (plain N ds) M k σ).2) ∧
      ((execAll (plain N ds) M k σ).2 = none → Keeps N (execAll (plain N ds) M k σ).1.lib m' ∧
        Noted (A ++ [x]) (execAll (plain N ds) M k σ).1.lib (execAll (plain N ds) M k σ).1.recs m') := by
  by_cases h1 : x = .analyze
  · subst h1
    cases hk
    obtain ⟨m', e1, e2, e3⟩ := exec_same (ds := ds) (M := M) hN h (x := .analyze) trivial
    obtain ⟨g1, g2, g3⟩ := execAllR_one e1
    refine ⟨m', g1, fun _ => ?_⟩
    rw [g2]
    refine ⟨e2, ?_⟩
    rcases e3 with rfl | rfl | ⟨-, rfl⟩
    · exact hd.later (Later.refl _) (fun _ _ h => h) (fun _ _ h => h)
    · exact hd.later (Later.refl _) (fun _ _ h => h) (fun _ _ h => h)
    · exact hd.analyze
  · by_cases h2 : ∃ q i p o, x = .dist q i p o
    · obtain ⟨q, i, p, o, rfl⟩ := h2
      obtain ⟨⟨a, b⟩, -, hk⟩ := bind_okE hk
      cases hk
      have hx : Harmless σ.lib m (.dist q i a o.mu b o.sd) := by
        have hs := hset A B q i p o rfl
        cases q with
        | collapse =>
          intro n hn
          by_contra hc
          obtain ⟨v, hv⟩ := Option.ne_none_iff_exists'.1 hc
          obtain ⟨j, g1, g2⟩ := hd.rates n v hv
          rw [h.named.own _ _ _ _ g2 hn] at g1
          exact hs g1
        | demolition => trivial
        | rebuildCost =>
          intro n hn
          by_contra hc
          obtain ⟨v, hv⟩ := Option.ne_none_iff_exists'.1 hc
          obtain ⟨j, b, g0, g1, g2⟩ := hd.costs n v hv
          rw [h.named.own _ _ _ _ g2 hn] at g0
          exact hs b g0 g1
        | demolitionCost =>
          intro n hn
          by_contra hc
          obtain ⟨v, hv⟩ := Option.ne_none_iff_exists'.1 hc
          obtain ⟨j, b, g0, g1, g2⟩ := hd.costs n v hv
          rw [h.named.own _ _ _ _ g2 hn] at g0
          exact hs b g0 g1
      obtain ⟨m', e1, e2, e3⟩ := exec_same (ds := ds) (M := M) hN h hx
      obtain ⟨g1, g2, g3⟩ := execAllR_one e1
      refine ⟨m', g1, fun hnone => ?_⟩
      have hL : Later σ.lib (exec (plain N ds) M σ (.dist q i a o.mu b o.sd)).1.lib :=
        later_exec (N := N) (ds := ds) (M := M) (x := .dist q i a o.mu b o.sd) (by rw [← g3.symm.trans hnone])
      rw [g2]
      refine ⟨e2, ?_⟩
      have hr : (exec (plain N ds) M σ (.dist q i a o.mu b o.sd)).1.recs = σ.recs := by
        simp only [exec]
        split <;> rfl
      rw [hr]
      rcases e3 with rfl | rfl | ⟨e, -⟩
      · exact hd.later hL (fun _ _ h => h) (fun _ _ h => h)
      · exact hd.later hL (after_sub _).1 (after_sub _).2
      · cases e
    · by_cases h3 : ∃ i b po, x = .recorder i b po
      · obtain ⟨i, b, po, rfl⟩ := h3
        obtain ⟨cols, at_, -, rfl⟩ := recorder_calls hk
        obtain ⟨m', e1, e2, e3⟩ := exec_same (ds := ds) (M := M) hN h (x := .recorder i b.type b.registry b.id (b.options po) cols at_)
          trivial
        obtain ⟨g1, g2, g3⟩ := execAllR_one e1
        refine ⟨m', g1, fun hnone => ?_⟩
        rw [g3] at hnone
        rw [g2]
        refine ⟨e2, ?_⟩
        obtain rfl : m' = m := by
          rcases e3 with e | e | ⟨e, -⟩
          · exact e
          · exact e
          · cases e
        simp only [exec] at hnone ⊢
        cases hr : record (plain N ds) M σ i b.type b.registry b.id (b.options po) cols at_ with
        | error e => rw [hr] at hnone; cases hnone
        | ok τ =>
          obtain ⟨k, cs, as, r, -, -, hk, hmk, rfl⟩ := record_ok hr
          have old := hd.later (B := [.recorder i b po]) (Later.refl _) (fun _ _ h => h) (fun _ _ h => h)
          refine ⟨?_, old.rates, old.costs⟩
          intro e he
          rcases dictSet_sub he with e' | he
          · obtain ⟨p1, p2⟩ := make_parts hmk
            refine ⟨i, b, po, by simp, ?_, ?_, ?_⟩
            · rw [e', hk]; exact congrArg some p1.symm
            · rw [e']; exact congrArg _ p2
            · rw [e']; intro n hn _; exact hn
          · exact old.recs e he
      · push Not at h2 h3
        exact quiet_same hN (calls_quiet hk h1 h2 h3) h hd

/-- A script. -/
theorem runR_same (hN : N.Separate) {c : Cfg} {A l : List Cmd} (hl : ∀ x ∈ l, x.sound = true) (hset : Spec.Settled (A ++ l))
    {s : Interp.St} (hs : s.saved = []) {σ : State World} {m : Memory} (h : Keeps N σ.lib m) (hd : Noted A σ.lib σ.recs m) :
    ∃ m', runR N ds M c l s (lift σ m) = (lift (run (plain N ds) M c l s σ).1 m', (run (plain N ds) M c l s σ).2) := by
  induction l generalizing A s σ m with
  | nil => exact ⟨m, rfl⟩
  | cons x l ih =>
    have hw := Interp.command_means_partial c x (hl x (by simp)) { s with calls := [] } hs
    simp only [runR, run]
    cases hc : Interp.walkCommand c x { s with calls := [] } with
    | error e => exact ⟨m, rfl⟩
    | ok s₁ =>
      rw [hc] at hw
      obtain ⟨k, hk, hw⟩ := bind_okE hw.symm
      obtain ⟨E, -, hw⟩ := bind_okE hw
      cases hw
      have hk' : x.calls c s.vars s.titles = .ok k := hk
      obtain ⟨m', e1, e2⟩ := command_remembered (ds := ds) (M := M) hN hk' hset h hd
      dsimp only [Interp.after, List.nil_append]
      rw [e1]
      rcases he : execAll (plain N ds) M k σ with ⟨σ₁, _ | e⟩
      · rw [he] at e2
        obtain ⟨f1, f2⟩ := e2 rfl
        exact ih (s := { saved := s.saved, vars := E.vars, titles := E.titles, calls := k }) (fun y hy => hl y (by simp [hy])) (by simpa using hset) hs f1 f2
      · exact ⟨m', rfl⟩

/-- The text of a script. -/
theorem sessionR_same (hN : N.Separate) {p : Gram.Pen} {ls : List (Gram.Style × Cmd)} {text : List Char}
    (hok : ∀ c ∈ ls, Gram.OkCmd p c.2) (ht : Lex.Written (Gram.toks (Gram.writeScript p ls)) text)
    (hs : ∀ m ∈ ls.map (·.2), m.sound = true) (hset : Spec.Settled (ls.map (·.2))) (ev : String → Except Err Val) (fs : Files) :
    ∃ m', sessionR N ds M ev (start ({}, {}) fs) text =
      (lift (session (plain N ds) M ev (start {} fs) text).1 m', (session (plain N ds) M ev (start {} fs) text).2) := by
  obtain ⟨m', h⟩ := runR_same (ds := ds) (M := M) (c := ⟨ev, Gram.preprocessString⟩) hN (A := []) hs hset (s := {}) rfl
    (σ := start {} fs) (m := {}) Keeps.init Noted.init
  refine ⟨m', ?_⟩
  rw [session, sessionR, Gram.script_read hok ht]
  exact h

/-- A session that remembers has the files of one that computes. -/
theorem forget (hN : N.Separate) {p : Gram.Pen} {ls : List (Gram.Style × Cmd)} {text : List Char} {A C : List Cmd}
    {ev : String → Except Err Val} {fs : Files} {τ : State (World × Memory)}
    (hok : ∀ c ∈ ls, Gram.OkCmd p c.2) (ht : Lex.Written (Gram.toks (Gram.writeScript p ls)) text)
    (hl : ls.map (·.2) = A ++ .analyze :: C) (hs : ∀ m ∈ A ++ C, m.sound = true)
    (hr : sessionR N ds M ev (start ({}, {}) fs) text = (τ, none)) (hset : Spec.Settled (ls.map (·.2))) :
    ∃ σ, session (plain N ds) M ev (start {} fs) text = (σ, none) ∧ τ.files = σ.files := by
  obtain ⟨m', h⟩ := sessionR_same (N := N) (ds := ds) (M := M) hN hok ht (by
    intro m hm
    rw [hl] at hm
    rcases List.mem_append.1 hm with h | h
    · exact hs m (by simp [h])
    · rcases List.mem_cons.1 h with rfl | h
      · rfl
      · exact hs m (by simp [h])) hset ev fs
  rw [h] at hr
  obtain ⟨h1, h2⟩ := Prod.mk.inj hr
  exact ⟨_, Prod.ext rfl h2, by rw [← h1]; rfl⟩

/-- A script that ends also ends with a memory. -/
theorem recalls (hN : N.Separate) {p : Gram.Pen} {ls : List (Gram.Style × Cmd)} {text : List Char}
    {ev : String → Except Err Val} {fs : Files} {σ : State World}
    (hok : ∀ c ∈ ls, Gram.OkCmd p c.2) (ht : Lex.Written (Gram.toks (Gram.writeScript p ls)) text)
    (hs : ∀ m ∈ ls.map (·.2), m.sound = true) (hr : session (plain N ds) M ev (start {} fs) text = (σ, none))
    (hset : Spec.Settled (ls.map (·.2))) :
    ∃ τ, sessionR N ds M ev (start ({}, {}) fs) text = (τ, none) := by
  obtain ⟨m', h⟩ := sessionR_same (N := N) (ds := ds) (M := M) hN hok ht hs hset ev fs
  rw [hr] at h
  exact ⟨_, h⟩

/-- With one analysis at the end nothing is stale. -/
theorem settled_once {A : List Cmd} (h : Cmd.analyze ∉ A) : Spec.Settled (A ++ [.analyze]) := by
  intro A' B k id p o e
  have key : ∀ b, ¬ Spec.Asked b A' := by
    rintro b ⟨A'', B₁, i, po, rfl, -⟩
    apply h
    have hB : B ≠ [] := by
      rintro rfl
      have := (List.append_inj' e rfl).2
      simp at this
    obtain ⟨B', z, rfl⟩ := List.eq_nil_or_concat B |>.resolve_left hB
    have e' : A ++ [Cmd.analyze] = (A'' ++ .analyze :: B₁ ++ .dist k id p o :: B') ++ [z] := by simpa using e
    rw [(List.append_inj' e' rfl).1]
    simp
  cases k
  · exact key _
  · trivial
  · exact fun b _ => key b
  · exact fun b _ => key b

end

end Slat.Session
