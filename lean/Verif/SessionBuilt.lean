import Verif.SessionStock

/-!
# Helper lemmas for sessions with structures
-/

namespace Slat.Session

noncomputable section

open Interp (Val Call Cmd Cfg Err Mu Sd DistCmd Sc)

/-- The structures of the program are those that the script speaks of (newest command first). -/
structure Built (l : List Cmd) (w : World) : Prop where
  struct : ∀ i Gs, Spec.structOf l i = some Gs → ∃ b, w.thing "structure" i = some (.building b) ∧
    List.Forall₂ Group.Is b.groups Gs
  one : ∀ i b, w.thing "structure" i = some (.building b) → ∀ h ∈ b.groups.head?, ∀ g ∈ b.groups, h.imId = g.imId
  name : ∀ i t, w.thing "structure" i = some t → ∃ b, t = .building b
  once : ∀ i n, w.find "structure" i = some n → ∃ gs, Cmd.structure_ i gs ∈ l
  own : ∀ i j n, w.find "structure" i = some n → w.find "structure" j = some n → i = j
  cost : ∀ i b, w.thing "structure" i = some (.building b) →
    (∀ r, Spec.fateOf .rebuildCost l i = some r → b.rebuild = (r.map made).getD LogNormalDist.unset) ∧
    (∀ r, Spec.fateOf .demolitionCost l i = some r → b.demolition = (r.map made).getD LogNormalDist.unset)
  noCost : ∀ i, w.find "structure" i = none →
    (∀ r, Spec.fateOf .rebuildCost l i = some r → r = none) ∧
    (∀ r, Spec.fateOf .demolitionCost l i = some r → r = none)

theorem Built.init : Built [] {} where
  struct := by intro i h hc; cases hc
  one := by intro i b h; cases h
  name := by intro i b h; cases h
  once := by intro i b h; cases h
  own := by intro i j n h; cases h
  cost := by intro i b h; cases h
  noCost := by
    intro i _
    constructor <;>
    · intro r h
      simp only [Spec.fateOf, Option.some.injEq] at h
      exact h.symm

/-- Commands that do not speak of structures. -/
def Off : Cmd → Prop
  | .structure_ .. => False
  | .dist .rebuildCost .. => False
  | .dist .demolitionCost .. => False
  | _ => True

/-- The structures stay as they are. -/
def SameBuilt (w w' : World) : Prop :=
  ∀ i, w'.find "structure" i = w.find "structure" i ∧ w'.thing "structure" i = w.thing "structure" i

theorem SameBuilt.refl (w : World) : SameBuilt w w := fun _ => ⟨rfl, rfl⟩

theorem SameBuilt.trans {a b c : World} (h : SameBuilt a b) (h' : SameBuilt b c) : SameBuilt a c :=
  fun i => ⟨(h' i).1.trans (h i).1, (h' i).2.trans (h i).2⟩

theorem Built.keep {l : List Cmd} {w w' : World} (h : Built l w) {m : Cmd} (hm : Off m) (hs : SameBuilt w w') :
    Built (m :: l) w' := by
  have h1 : Spec.structOf (m :: l) = Spec.structOf l := by
    funext i; cases m <;> first | cases hm; done | rfl
  have h2 : ∀ k, k = .rebuildCost ∨ k = .demolitionCost → Spec.fateOf k (m :: l) = Spec.fateOf k l := by
    intro k hk
    funext i
    cases m with
    | dist k' j p o =>
      rw [Spec.fateOf, if_neg]
      rintro ⟨rfl, -⟩
      rcases hk with rfl | rfl <;> cases hm
    | _ => rfl
  constructor
  · intro i; rw [h1, (hs i).2]; exact h.struct i
  · intro i; rw [(hs i).2]; exact h.one i
  · intro i; rw [(hs i).2]; exact h.name i
  · intro i n hn
    rw [(hs i).1] at hn
    obtain ⟨gs, hg⟩ := h.once i n hn
    exact ⟨gs, List.mem_cons_of_mem _ hg⟩
  · intro i j n; rw [(hs i).1, (hs j).1]; exact h.own i j n
  · intro i; rw [h2 _ (Or.inl rfl), h2 _ (Or.inr rfl), (hs i).2]; exact h.cost i
  · intro i; rw [h2 _ (Or.inl rfl), h2 _ (Or.inr rfl), (hs i).1]; exact h.noCost i

/-! ## Calls that do not concern structures -/

theorem built_call {l : List Cmd} {w w' : World} {x : Call} (h0 : Built l w) (hw : w.Sound) (hx : ¬ Builds x)
    (h : w.call x = .ok w') : SameBuilt w w' ∧ w'.Sound := by
  have fate : ∀ {i u v mo so set}, setFate w i u v mo so set = .ok w' → SameBuilt w w' ∧ w'.Sound := by
    intro i u v mo so set h
    obtain ⟨a, b, mu, sp, n, j, cv, d, ha, hb, e1, e2, hn, ht, rfl⟩ := setFate_ok h
    refine ⟨fun q => ⟨rfl, ?_⟩, ?_⟩
    · cases hf : w.find "structure" q with
      | none =>
        have h1' : World.find { w with things := w.things.set n (.im j cv (set d (made (mu, sp, a, b)))) } "structure" q
          = none := hf
        rw [World.thing, World.thing, hf, h1']
        rfl
      | some n' =>
        have hne : n ≠ n' := by
          rintro rfl
          obtain ⟨b', hb'⟩ := h0.name q _ (by rw [World.thing, hf]; exact ht)
          cases hb'
        have h1' : World.find { w with things := w.things.set n (.im j cv (set d (made (mu, sp, a, b)))) } "structure" q
          = some n' := hf
        rw [World.thing, World.thing, hf, h1']
        simp [List.getElem?_set_ne hne]
    · intro e he
      simpa using hw e he
  have add : ∀ {r i t}, r ≠ "structure" → SameBuilt w (w.add r i t) ∧ (w.add r i t).Sound := by
    intro r i t hr
    refine ⟨fun q => ⟨?_, ?_⟩, hw.add _ _ _⟩
    · rw [World.find_add, if_neg (by simp [hr.symm])]
    · rw [World.thing_add hw, if_neg (by simp [hr.symm])]
  cases x with
  | detfn i ty v =>
    obtain ⟨q, f, -, -, rfl⟩ := call_detfn h
    exact add (by decide)
  | probfn i mu a sp b =>
    simp only [World.call] at h
    split at h
    · split at h
      · split at h
        · cases h; exact add (by decide)
        · cases h
      · cases h
    · cases h
  | im i a =>
    simp only [World.call] at h
    split at h
    · split at h
      · cases h; exact add (by decide)
      · cases h
    · cases h
  | edp i m a =>
    simp only [World.call] at h
    split at h
    · split at h
      · cases h; exact add (by decide)
      · cases h
    · cases h
  | dist k i u mo v so =>
    cases k with
    | collapse => exact fate h
    | demolition => exact fate h
    | rebuildCost => exact absurd trivial hx
    | demolitionCost => exact absurd trivial hx
  | inputdir d => cases h; exact ⟨SameBuilt.refl w, hw⟩
  | fragfnUser =>
    obtain ⟨ps, ds, -, -, -, rfl⟩ := call_fragfn h
    exact add (by decide)
  | simpleLoss =>
    obtain ⟨ps, ds, -, -, -, rfl⟩ := call_simpleLoss h
    exact add (by decide)
  | bilevelLoss =>
    obtain ⟨ps, ds, -, -, -, rfl⟩ := call_bilevelLoss h
    exact add (by decide)
  | compgroup =>
    obtain ⟨-, -, -, -, -, -, -, ds, l, g, -, -, -, -, -, -, -, -, -, -, rfl, -⟩ := call_compgroup h
    exact add (by decide)
  | structure_ => exact absurd trivial hx
  | addCompGroup => exact absurd trivial hx
  | _ => cases h

theorem built_exec {N : Numerics} {ds : World → Interp.Printed → String} {M : Machine} {l : List Cmd} {x : Call}
    {σ σ' : State World} (h0 : Built l σ.lib) (hw : σ.lib.Sound) (hx : ¬ Builds x)
    (h : exec (plain N ds) M σ x = (σ', none)) : SameBuilt σ.lib σ'.lib := by
  cases x with
  | recorder i ty r id o cols at_ =>
    simp only [exec] at h
    cases hr : record (plain N ds) M σ i ty r id o cols at_ with
    | error e => rw [hr] at h; cases h
    | ok σ₁ =>
      rw [hr] at h
      cases h
      obtain ⟨k, cs, as, r, -, -, -, -, rfl⟩ := record_ok hr
      exact SameBuilt.refl _
  | outputdir => cases h; exact SameBuilt.refl _
  | analyze =>
    simp only [exec, Session.analyze, Prod.mk.injEq] at h
    rw [← h.1]
    exact SameBuilt.refl _
  | print w f a =>
    simp only [exec, print] at h
    split at h
    · cases h; exact SameBuilt.refl _
    · split at h
      · cases h; exact SameBuilt.refl _
      · cases h
  | _ =>
    obtain ⟨w, hw', rfl⟩ := lib_call h trivial
    exact (built_call h0 hw hx hw').1

/-! ## Structures -/

theorem thing_set {w : World} {r i : String} {n : ℕ} {t : Thing} (hn : w.find r i = some n) (hlt : n < w.things.length) :
    World.thing { w with things := w.things.set n t } r i = some t := by
  have : World.find { w with things := w.things.set n t } r i = some n := hn
  rw [World.thing, this]
  simp [hlt]

theorem thing_set_ne {w : World} {r i : String} {n : ℕ} {t : Thing} (hn : w.find r i ≠ some n) :
    World.thing { w with things := w.things.set n t } r i = w.thing r i := by
  cases hf : w.find r i with
  | none =>
    have : World.find { w with things := w.things.set n t } r i = none := hf
    rw [World.thing, World.thing, this, hf]
    rfl
  | some n' =>
    have hne : n ≠ n' := fun e => hn (by rw [hf, e])
    have : World.find { w with things := w.things.set n t } r i = some n' := hf
    rw [World.thing, World.thing, this, hf]
    simp [List.getElem?_set_ne hne]

/-- The groups of a structure are added. -/
theorem groups_added {N : Numerics} {ds : World → Interp.Printed → String} {M : Machine} {i : String} {n : ℕ}
    {gs : List String} {b : Building} {σ σ' : State World} (hw : σ.lib.Sound)
    (hn : σ.lib.find "structure" i = some n) (hb : σ.lib.things[n]? = some (.building b))
    (h : execAll (plain N ds) M (gs.map (.addCompGroup i)) σ = (σ', none)) :
    ∃ gs', σ'.lib = { σ.lib with things := σ.lib.things.set n (.building { b with groups := b.groups ++ gs' }) } ∧
      List.Forall₂ (fun k g => σ.lib.thing "compgroup" k = some (.group g)) gs gs' ∧
      ((∀ h ∈ b.groups.head?, ∀ g ∈ b.groups, h.imId = g.imId) →
        ∀ h ∈ (b.groups ++ gs').head?, ∀ g ∈ b.groups ++ gs', h.imId = g.imId) := by
  induction gs generalizing σ b with
  | nil =>
    obtain rfl : σ = σ' := (Prod.mk.inj h).1
    refine ⟨[], ?_, .nil, ?_⟩
    · have : σ.lib.things.set n (.building b) = σ.lib.things := by
        obtain ⟨hlt, e⟩ := List.getElem?_eq_some_iff.1 hb
        rw [← e]
        exact List.set_getElem_self hlt
      simp [this]
    · intro hh
      simpa using hh
  | cons k gs ih =>
    rw [List.map_cons, execAll] at h
    rcases he : exec (plain N ds) M σ (.addCompGroup i k) with ⟨σ₁, _ | e⟩
    · rw [he] at h
      obtain ⟨w, hw', rfl⟩ := lib_call he trivial
      obtain ⟨n', b', g, hn', hb', hg, hi, rfl⟩ := addGroup_ok hw'
      rw [hn] at hn'
      cases hn'
      rw [hb] at hb'
      cases hb'
      have hlt := (List.getElem?_eq_some_iff.1 hb).1
      have ha := Aside.set (b' := { b with groups := b.groups ++ [g] }) hw hb
      obtain ⟨gs', e1, e2, e3⟩ := ih (b := { b with groups := b.groups ++ [g] })
        (σ := { σ with lib := { σ.lib with
          things := σ.lib.things.set n (.building { b with groups := b.groups ++ [g] }) } }) ha.sound hn
        (by simp [hlt]) h
      refine ⟨g :: gs', ?_, .cons hg ?_, ?_⟩
      · rw [e1]
        simp [List.set_set]
      · refine e2.imp ?_
        intro k' g' hk'
        exact (ha.thing _ (by decide) k' _ (by simp)).1 hk'
      · intro hh
        have := e3 ?_
        · simpa using this
        · intro q hq g' hg'
          cases hbg : b.groups with
          | nil => simp [hbg] at hq hg'; rw [← hq, hg']
          | cons q' qs =>
            have hq' : q ∈ b.groups.head? := by
              rw [hbg] at hq ⊢
              simpa using hq
            rcases List.mem_append.1 hg' with hg' | hg'
            · exact hh q hq' g' hg'
            · rw [List.mem_singleton.1 hg']
              exact hi q hq'
    · rw [he] at h; cases h

theorem mapM_groups {l : List Cmd} {w : World} (h : Stock l w) {gs : List String} {Gs : List Spec.Components}
    {gs' : List Group} (hG : gs.mapM (Spec.groupOf l) = some Gs)
    (hg : List.Forall₂ (fun k g => w.thing "compgroup" k = some (.group g)) gs gs') :
    List.Forall₂ Group.Is gs' Gs := by
  induction gs generalizing Gs gs' with
  | nil =>
    cases hg
    obtain rfl : [] = Gs := Option.some.inj hG
    exact .nil
  | cons k gs ih =>
    rcases hg with _ | ⟨h1, h2⟩
    rw [List.mapM_cons] at hG
    obtain ⟨G, hG1, hG⟩ := Option.bind_eq_some_iff.1 hG
    obtain ⟨Gs', hG2, hG⟩ := Option.bind_eq_some_iff.1 hG
    obtain rfl : G :: Gs' = Gs := Option.some.inj hG
    obtain ⟨-, g', h3, h4, -⟩ := h.group _ _ hG1
    rw [h1] at h3
    cases h3
    exact .cons h4 (ih hG2 h2)

/-- A structure is made. -/
theorem Built.structure_ {N : Numerics} {ds : World → Interp.Printed → String} {M : Machine} {l : List Cmd} {i : String}
    {gs : List String} {σ σ' : State World} (h : Built l σ.lib) (hw : σ.lib.Sound) (hst : Stock l σ.lib)
    (he : execAll (plain N ds) M (.structure_ i :: gs.map (.addCompGroup i)) σ = (σ', none)) :
    Built (.structure_ i gs :: l) σ'.lib := by
  rw [execAll] at he
  rcases hx : exec (plain N ds) M σ (.structure_ i) with ⟨σ₁, _ | e⟩
  swap
  · rw [hx] at he; cases he
  rw [hx] at he
  obtain ⟨w, hw', rfl⟩ := lib_call hx trivial
  obtain ⟨hno, rfl⟩ := call_structure hw'
  have hw1 : (σ.lib.add "structure" i (.building {})).Sound := hw.add _ _ _
  have hfind : (σ.lib.add "structure" i (.building {})).find "structure" i = some σ.lib.things.length := by
    simp [World.find_add]
  have hth : (σ.lib.add "structure" i (.building {})).things[σ.lib.things.length]? = some (.building {}) := by
    simp [World.add]
  obtain ⟨gs', e1, e2, e3⟩ := groups_added hw1 hfind hth he
  have e3' := e3 (by simp)
  simp only [List.nil_append] at e3' e1
  have hlt : σ.lib.things.length < (σ.lib.add "structure" i (.building {})).things.length := by
    simp [World.add]
  have hfd : ∀ j, σ'.lib.find "structure" j = if j = i then some σ.lib.things.length else σ.lib.find "structure" j := by
    intro j
    rw [e1]
    show (σ.lib.add "structure" i (.building {})).find "structure" j = _
    rw [World.find_add]
    simp
  have htd : ∀ j, σ'.lib.thing "structure" j = if j = i then some (.building { groups := gs' })
      else σ.lib.thing "structure" j := by
    intro j
    rw [e1]
    split
    · next e => subst e; exact thing_set hfind hlt
    · next e =>
      have hne : (σ.lib.add "structure" i (.building {})).find "structure" j ≠ some σ.lib.things.length := by
        rw [World.find_add, if_neg (by simp [e])]
        intro hf
        exact absurd (hw.lt hf) (lt_irrefl _)
      rw [thing_set_ne hne, World.thing_add hw, if_neg (by simp [e])]
  have hk : List.Forall₂ (fun k g => σ.lib.thing "compgroup" k = some (.group g)) gs gs' := by
    refine e2.imp ?_
    intro k g hg
    rwa [World.thing_add hw, if_neg (by simp)] at hg
  constructor
  · intro j Gs hG
    rw [htd]
    simp only [Spec.structOf] at hG
    by_cases hij : i = j
    · subst hij
      rw [if_pos rfl] at hG
      exact ⟨_, by rw [if_pos rfl], mapM_groups hst hG hk⟩
    · rw [if_neg hij] at hG
      rw [if_neg (fun e => hij e.symm)]
      exact h.struct j Gs hG
  · intro j b hb
    rw [htd] at hb
    split at hb
    · cases hb; exact e3'
    · exact h.one j b hb
  · intro j t ht
    rw [htd] at ht
    split at ht
    · cases ht; exact ⟨_, rfl⟩
    · exact h.name j t ht
  · intro j n hn
    rw [hfd] at hn
    split at hn
    · next e => exact ⟨gs, by simp [e]⟩
    · obtain ⟨gs, hg⟩ := h.once j n hn
      exact ⟨gs, List.mem_cons_of_mem _ hg⟩
  · intro p q n hp hq
    rw [hfd] at hp hq
    split at hp <;> split at hq
    · next a b => rw [a, b]
    · cases hp; exact absurd (hw.lt hq) (lt_irrefl _)
    · cases hq; exact absurd (hw.lt hp) (lt_irrefl _)
    · exact h.own p q n hp hq
  · intro j b hb
    rw [htd] at hb
    split at hb
    · next e =>
      subst e
      cases hb
      have := h.noCost j hno
      constructor
      · intro r hr; rw [this.1 r hr]; rfl
      · intro r hr; rw [this.2 r hr]; rfl
    · exact h.cost j b hb
  · intro j hj
    rw [hfd] at hj
    split at hj
    · cases hj
    · exact h.noCost j hj

/-- A cost of a structure changes. -/
theorem Built.dist {l : List Cmd} {w : World} (h : Built l w) (hw : w.Sound) {i : String} {p : Interp.Sc2}
    {o : Interp.LnOpts} {k : DistCmd} {n : ℕ} {b b' : Building}
    (hn : w.find "structure" i = some n) (ht : w.things[n]? = some (.building b)) (hg : b'.groups = b.groups)
    (hc : ∀ r, Spec.fateOf .rebuildCost (.dist k i p o :: l) i = some r →
      (∀ r, Spec.fateOf .rebuildCost l i = some r → b.rebuild = (r.map made).getD LogNormalDist.unset) →
        b'.rebuild = (r.map made).getD LogNormalDist.unset)
    (hd : ∀ r, Spec.fateOf .demolitionCost (.dist k i p o :: l) i = some r →
      (∀ r, Spec.fateOf .demolitionCost l i = some r → b.demolition = (r.map made).getD LogNormalDist.unset) →
        b'.demolition = (r.map made).getD LogNormalDist.unset) :
    Built (.dist k i p o :: l) { w with things := w.things.set n (.building b') } := by
  have hth : w.thing "structure" i = some (.building b) := by simp [World.thing, hn, ht]
  have hlt := hw.lt hn
  have htd : ∀ j, World.thing { w with things := w.things.set n (.building b') } "structure" j =
      if j = i then some (.building b') else w.thing "structure" j := by
    intro j
    split
    · next e => subst e; exact thing_set hn hlt
    · next e => exact thing_set_ne fun hf => e (h.own j i n hf hn)
  have away : ∀ k' j, j ≠ i → Spec.fateOf k' (.dist k i p o :: l) j = Spec.fateOf k' l j := by
    intro k' j hj
    rw [Spec.fateOf, if_neg]
    rintro ⟨-, e⟩
    exact hj e.symm
  constructor
  · intro j Gs hG
    obtain ⟨b0, h1, h2⟩ := h.struct j Gs hG
    rw [htd]
    split
    · next e =>
      subst e
      rw [hth] at h1
      cases h1
      exact ⟨b', rfl, by rw [hg]; exact h2⟩
    · exact ⟨b0, h1, h2⟩
  · intro j b0 hb
    rw [htd] at hb
    split at hb
    · cases hb; rw [hg]; exact h.one i b hth
    · exact h.one j b0 hb
  · intro j t hj
    rw [htd] at hj
    split at hj
    · cases hj; exact ⟨_, rfl⟩
    · exact h.name j t hj
  · intro j n hn
    obtain ⟨gs, hg⟩ := h.once j n hn
    exact ⟨gs, List.mem_cons_of_mem _ hg⟩
  · exact h.own
  · intro j b0 hb
    rw [htd] at hb
    split at hb
    · next e =>
      subst e
      cases hb
      have := h.cost j b hth
      exact ⟨fun r hr => hc r hr this.1, fun r hr => hd r hr this.2⟩
    · next e => rw [away _ j e, away _ j e]; exact h.cost j b0 hb
  · intro j hj
    have hji : j ≠ i := by
      rintro rfl
      have hj' : w.find "structure" j = none := hj
      rw [hn] at hj'
      cases hj'
    rw [away _ j hji, away _ j hji]
    exact h.noCost j hj

/-- One command. -/
theorem Built.step {N : Numerics} {ds : World → Interp.Printed → String} {M : Machine} {c : Cfg}
    {l : List Cmd} {m : Cmd} {ρ : Interp.Vars} {t : List String} {k : List Call} {σ σ' : State World}
    (hM : Meets l σ.lib) (hst : Stock l σ.lib) (h : Built l σ.lib) (hk : m.calls c ρ t = .ok k)
    (he : execAll (plain N ds) M k σ = (σ', none)) : Built (m :: l) σ'.lib := by
  have hw := hM.sound
  have single : ∀ {x : Call}, Off m → ¬ Builds x → (Except.ok [x] : Except Err (List Call)) = .ok k →
      Built (m :: l) σ'.lib := by
    intro x ha hx e
    cases e
    exact h.keep ha (built_exec h hw hx (execAll_one he))
  have zero : Off m → k = [] → Built (m :: l) σ'.lib := by
    rintro ha rfl
    cases he
    exact h.keep ha (SameBuilt.refl _)
  cases m with
  | fragfnUser i ps o =>
    obtain ⟨vs, hvs, hk⟩ := bind_okE hk
    exact single trivial (by simp [Builds]) hk
  | lossSimple i ps o =>
    obtain ⟨vs, hvs, hk⟩ := bind_okE hk
    exact single trivial (by simp [Builds]) hk
  | lossBilevel i bs =>
    obtain ⟨vs, hvs, hk⟩ := bind_okE hk
    exact single trivial (by simp [Builds]) hk
  | compgroup i e f kk d n fl =>
    rcases fl with _ | ⟨x, _ | ⟨y, fl⟩⟩ <;> exact single trivial (by simp [Builds]) hk
  | title _ => cases hk; exact zero trivial rfl
  | set i a =>
    refine zero trivial ?_
    cases a with
    | py e => obtain ⟨_, -, hk⟩ := bind_okE hk; cases hk; rfl
    | var e => cases hk; rfl
    | params e => cases hk; rfl
  | detfnHyperbolic i p q =>
    obtain ⟨⟨x, y⟩, hxy, hk⟩ := bind_okE hk
    obtain ⟨z, hz, hk⟩ := bind_okE hk
    exact single trivial (by simp [Builds]) hk
  | detfnPowerlaw i p =>
    obtain ⟨⟨x, y⟩, hxy, hk⟩ := bind_okE hk
    exact single trivial (by simp [Builds]) hk
  | detfnLoglog id p =>
    obtain ⟨vs, hxy, hk⟩ := bind_okE hk
    exact single trivial (by simp [Builds]) hk
  | detfnLinear id p =>
    obtain ⟨vs, hxy, hk⟩ := bind_okE hk
    exact single trivial (by simp [Builds]) hk
  | probfn i a b o =>
    obtain ⟨a', ha, hk⟩ := bind_okE hk
    obtain ⟨b', hb, hk⟩ := bind_okE hk
    exact single trivial (by simp [Builds]) hk
  | dist kk i p o =>
    obtain ⟨⟨x, y⟩, hxy, hk⟩ := bind_okE hk
    obtain ⟨x', hx, hxy⟩ := bind_okE hxy
    obtain ⟨y', hy, hxy⟩ := bind_okE hxy
    cases hxy
    have lit : ∀ {a b : ℝ} {mu : Mu} {sp : Sd} {r : Option (Mu × Sd × ℝ × ℝ)} (k' : DistCmd),
        number x = some a → number y = some b → o.mu = some mu → o.sd = some sp →
        Spec.fateOf k' (.dist k' i p o :: l) i = some r → r = some (mu, sp, a, b) := by
      intro a b mu sp r k' ha hb e1 e2 hr
      simp only [Spec.fateOf, and_self, if_true, e1, e2] at hr
      obtain ⟨a', ha', hr⟩ := Option.bind_eq_some_iff.1 hr
      obtain ⟨b', hb', hr⟩ := Option.bind_eq_some_iff.1 hr
      cases hr
      rw [literal_value ha' hx] at ha
      rw [literal_value hb' hy] at hb
      cases ha
      cases hb
      rfl
    have not : ∀ {k k' : DistCmd}, k' ≠ k → Spec.fateOf k (.dist k' i p o :: l) i = Spec.fateOf k l i := by
      intro k k' hkk
      rw [Spec.fateOf, if_neg]
      rintro ⟨e, -⟩
      exact hkk e
    cases kk with
    | collapse => exact single trivial (by simp [Builds]) hk
    | demolition => exact single trivial (by simp [Builds]) hk
    | rebuildCost =>
      cases hk
      obtain ⟨w, hw', rfl⟩ := lib_call (execAll_one he) trivial
      obtain ⟨a, b, mu, sp, n, s, ha, hb, e1, e2, hn, ht, rfl⟩ :=
        setCost_ok (set := fun b d => { b with rebuild := d }) hw'
      refine h.dist hw hn ht rfl ?_ ?_
      · intro r hr _
        rw [lit .rebuildCost ha hb e1 e2 hr]
        rfl
      · intro r hr hd
        rw [not (by decide)] at hr
        exact hd r hr
    | demolitionCost =>
      cases hk
      obtain ⟨w, hw', rfl⟩ := lib_call (execAll_one he) trivial
      obtain ⟨a, b, mu, sp, n, s, ha, hb, e1, e2, hn, ht, rfl⟩ :=
        setCost_ok (set := fun b d => { b with demolition := d }) hw'
      refine h.dist hw hn ht rfl ?_ ?_
      · intro r hr hd
        rw [not (by decide)] at hr
        exact hd r hr
      · intro r hr _
        rw [lit .demolitionCost ha hb e1 e2 hr]
        rfl
  | structure_ id g =>
    cases hk
    exact h.structure_ hw hst he
  | print w po =>
    obtain ⟨o, -, hk⟩ := bind_okE hk
    exact single trivial (by simp [Builds]) hk
  | integration p it se =>
    obtain ⟨_, -, hk⟩ := bind_okE hk
    obtain ⟨_, -, hk⟩ := bind_okE hk
    rcases se with _ | ⟨m, a⟩
    · exact single trivial (by simp [Builds]) hk
    · obtain ⟨_, -, hk⟩ := bind_okE hk
      cases hk
      simp only [execAll, exec, plain, World.call] at he
      cases he
  | recorder i b po =>
    obtain ⟨cols, at_, -, hk⟩ := recorder_calls hk
    subst hk
    exact h.keep trivial (built_exec h hw (by simp [Builds]) (execAll_one he))
  | log b f =>
    cases hk
    rcases b with _ | b <;> rcases f with _ | f
    · exact zero trivial rfl
    · simp [execAll, exec, plain, World.call] at he
    · simp [execAll, exec, plain, World.call] at he
    · simp [execAll, exec, plain, World.call] at he
  | _ => exact single trivial (by simp [Builds]) hk

/-- A script. -/
theorem Built.run {N : Numerics} {ds : World → Interp.Printed → String} {M : Machine} {c : Cfg}
    {l l' : List Cmd} {s : Interp.St} {σ σ' : State World} (hM : Meets l σ.lib) (hst : Stock l σ.lib)
    (h : Built l σ.lib) (hm : ∀ m ∈ l', m.sound = true) (hs : s.saved = [])
    (hr : Session.run (plain N ds) M c l' s σ = (σ', none)) : Built (l'.reverse ++ l) σ'.lib := by
  induction l' generalizing l s σ with
  | nil => cases hr; simpa using h
  | cons m l' ih =>
    obtain ⟨k, s₁, σ₁, h1, h2, h3, h4, -⟩ := run_cons (hm m (by simp)) hs hr
    have := ih (hM.step (hm m (by simp)) h1 h3) (hst.step hM h1 h3) (h.step hM hst h1 h3)
      (fun x hx => hm x (by simp [hx])) h2 h4
    simpa using this

end

end Slat.Session
