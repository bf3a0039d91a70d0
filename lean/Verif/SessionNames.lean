import Verif.SessionBuilt

/-!
# Helper lemmas: names in sessions

The demands and fragility functions that component groups were made from are those that have their names, and a name belongs to one
object.
-/

namespace Slat.Session

noncomputable section

open Interp (Val Call Cmd Cfg Err Mu Sd DistCmd Sc)
open Output (Path Files)

/-- The groups in an object. -/
def Thing.groups : Thing → List Group
  | .group g => [g]
  | .building b => b.groups
  | _ => []

/-- The demand and the fragility function of a group are in the dictionaries. -/
def World.Knows (w : World) (g : Group) : Prop :=
  w.find "edp" g.edp.2 = some g.edp.1 ∧ w.find "fragfn" g.frag.2 = some g.frag.1

/-- Names belong to one object each, and the groups know what they were made from. -/
structure Named (w : World) : Prop where
  sound : w.Sound
  own : ∀ r i j n, w.find r i = some n → w.find r j = some n → i = j
  groups : ∀ (n : ℕ) (t : Thing), w.things[n]? = some t → ∀ g ∈ t.groups, w.Knows g

theorem Named.init : Named {} where
  sound := by intro e he; cases he
  own := by intro r i j n h; cases h
  groups := by intro n t h; cases h

theorem Named.add {w : World} (h : Named w) (r i : String) (t : Thing)
    (hr : r = "edp" ∨ r = "fragfn" → w.find r i = none) (hg : ∀ g ∈ t.groups, w.Knows g) : Named (w.add r i t) := by
  have keep : ∀ q, q = "edp" ∨ q = "fragfn" → ∀ j n, w.find q j = some n → (w.add r i t).find q j = some n := by
    intro q hq j n hj
    rw [World.find_add, if_neg]
    · exact hj
    · rintro ⟨rfl, rfl⟩
      rw [hr hq] at hj
      cases hj
  refine ⟨h.sound.add r i t, ?_, ?_⟩
  · intro q j k n hj hk
    rw [World.find_add] at hj hk
    split at hj
    · next e1 =>
      split at hk
      · next e2 => rw [e1.2, e2.2]
      · cases hj
        exact absurd (h.sound.lt hk) (lt_irrefl _)
    · split at hk
      · cases hk
        exact absurd (h.sound.lt hj) (lt_irrefl _)
      · exact h.own _ _ _ _ hj hk
  · intro n u hn g hgu
    have : w.Knows g := by
      simp only [World.add] at hn
      rcases lt_or_ge n w.things.length with hlt | hge
      · rw [List.getElem?_append_left hlt] at hn
        exact h.groups n u hn g hgu
      · rw [List.getElem?_append_right hge, List.getElem?_singleton] at hn
        split at hn
        · cases hn
          exact hg g hgu
        · cases hn
    exact ⟨keep _ (Or.inl rfl) _ _ this.1, keep _ (Or.inr rfl) _ _ this.2⟩

theorem Named.set {w : World} (h : Named w) {n : ℕ} {t : Thing} (hg : ∀ g ∈ t.groups, w.Knows g) :
    Named { w with things := w.things.set n t } := by
  refine ⟨?_, h.own, ?_⟩
  · intro e he
    simpa using h.sound e he
  · intro m u hm g hgu
    simp only [List.getElem?_set] at hm
    split at hm
    · split at hm
      · cases hm
        exact hg g hgu
      · cases hm
    · exact h.groups m u hm g hgu

theorem named_call {w w' : World} (h0 : Named w) {x : Call} (h : w.call x = .ok w') : Named w' := by
  have fate : ∀ {i u v mo so set}, setFate w i u v mo so set = .ok w' → Named w' := by
    intro i u v mo so set h
    obtain ⟨a, b, mu, sp, n, j, cv, d, ha, hb, e1, e2, hn, ht, rfl⟩ := setFate_ok h
    exact h0.set (by intro g hg; cases hg)
  have cost : ∀ {i u v mo so set}, setCost w i u v mo so set = .ok w' → (∀ b d, (set b d).groups = b.groups) →
      Named w' := by
    intro i u v mo so set h hset
    obtain ⟨a, b, mu, sp, n, s, -, -, -, -, -, ht, rfl⟩ := setCost_ok h
    refine h0.set ?_
    intro g hg
    simp only [Thing.groups, hset] at hg
    exact h0.groups n _ ht g hg
  have none_ : ∀ {t : Thing}, t.groups = [] → ∀ g ∈ t.groups, w.Knows g := by
    intro t ht g hg
    rw [ht] at hg
    cases hg
  cases x with
  | detfn i ty v =>
    obtain ⟨q, f, -, -, rfl⟩ := call_detfn h
    exact h0.add _ _ _ (by simp) (none_ rfl)
  | probfn i mu a sp b =>
    simp only [World.call] at h
    split at h
    · split at h
      · split at h
        · cases h; exact h0.add _ _ _ (by simp) (none_ rfl)
        · cases h
      · cases h
    · cases h
  | im i a =>
    simp only [World.call] at h
    split at h
    · split at h
      · next hn => cases h; exact h0.add _ _ _ (by simp) (none_ rfl)
      · cases h
    · cases h
  | edp i m a =>
    simp only [World.call] at h
    split at h
    · split at h
      · next hn => cases h; exact h0.add _ _ _ (fun _ => hn) (none_ rfl)
      · cases h
    · cases h
  | dist k i u mo v so =>
    cases k with
    | collapse => exact fate h
    | demolition => exact fate h
    | rebuildCost => exact cost (set := fun b d => { b with rebuild := d }) h fun _ _ => rfl
    | demolitionCost => exact cost (set := fun b d => { b with demolition := d }) h fun _ _ => rfl
  | structure_ i =>
    obtain ⟨hn, rfl⟩ := call_structure h
    exact h0.add _ _ _ (by simp) (none_ rfl)
  | addCompGroup i k =>
    obtain ⟨n, b, g, -, hb, hg, -, rfl⟩ := addGroup_ok h
    refine h0.set ?_
    intro g' hg'
    obtain ⟨m, -, hm⟩ := Option.bind_eq_some_iff.1 hg
    rcases List.mem_append.1 (show g' ∈ b.groups ++ [g] from hg') with h1 | h1
    · exact h0.groups n _ hb g' h1
    · exact h0.groups m _ hm g' h1
  | fragfnUser =>
    obtain ⟨ps, ds, -, -, hn, rfl⟩ := call_fragfn h
    exact h0.add _ _ _ (fun _ => hn) (none_ rfl)
  | simpleLoss =>
    obtain ⟨ps, ds, -, -, -, rfl⟩ := call_simpleLoss h
    exact h0.add _ _ _ (by simp) (none_ rfl)
  | bilevelLoss =>
    obtain ⟨ps, ds, -, -, -, rfl⟩ := call_bilevelLoss h
    exact h0.add _ _ _ (by simp) (none_ rfl)
  | compgroup =>
    obtain ⟨-, -, -, -, -, -, -, ds, l, g, -, -, -, -, -, -, -, -, -, -, rfl, -, -, -, -, -, -, -, h1, rfl, h2, rfl⟩ :=
      call_compgroup h
    refine h0.add _ _ _ (by simp) ?_
    intro g' hg'
    obtain rfl := List.mem_singleton.1 (show g' ∈ [g] from hg')
    exact ⟨h1, h2⟩
  | inputdir d => cases h; exact h0
  | _ => cases h

theorem named_exec {N : Numerics} {ds : World → Interp.Printed → String} {M : Machine} {x : Call}
    {σ σ' : State World} (h0 : Named σ.lib) (h : exec (plain N ds) M σ x = (σ', none)) : Named σ'.lib := by
  cases x with
  | recorder i ty r id o cols at_ =>
    simp only [exec] at h
    cases hr : record (plain N ds) M σ i ty r id o cols at_ with
    | error e => rw [hr] at h; cases h
    | ok σ₁ =>
      rw [hr] at h
      cases h
      obtain ⟨k, cs, as, r, -, -, -, -, rfl⟩ := record_ok hr
      exact h0
  | outputdir => cases h; exact h0
  | analyze =>
    simp only [exec, Session.analyze, Prod.mk.injEq] at h
    rw [← h.1]
    exact h0
  | print w f a =>
    simp only [exec, print] at h
    split at h
    · cases h; exact h0
    · split at h
      · cases h; exact h0
      · cases h
  | _ =>
    obtain ⟨w, hw, rfl⟩ := lib_call h trivial
    exact named_call h0 hw

theorem named_execAll {N : Numerics} {ds : World → Interp.Printed → String} {M : Machine} {k : List Call}
    {σ σ' : State World} (h0 : Named σ.lib) (h : execAll (plain N ds) M k σ = (σ', none)) : Named σ'.lib := by
  induction k generalizing σ with
  | nil => cases h; exact h0
  | cons x k ih =>
    rw [execAll] at h
    rcases he : exec (plain N ds) M σ x with ⟨σ₁, _ | e⟩
    · rw [he] at h
      exact ih (named_exec h0 he) h
    · rw [he] at h; cases h

theorem named_run {N : Numerics} {ds : World → Interp.Printed → String} {M : Machine} {c : Cfg}
    {l : List Cmd} {s : Interp.St} {σ σ' : State World} (h0 : Named σ.lib) (hm : ∀ m ∈ l, m.sound = true) (hs : s.saved = [])
    (hr : Session.run (plain N ds) M c l s σ = (σ', none)) : Named σ'.lib := by
  induction l generalizing s σ with
  | nil => cases hr; exact h0
  | cons m l ih =>
    obtain ⟨k, s₁, σ₁, h1, h2, h3, h4, -⟩ := run_cons (hm m (by simp)) hs hr
    exact ih (named_execAll h0 h3) (fun x hx => hm x (by simp [hx])) h2 h4

end

end Slat.Session
