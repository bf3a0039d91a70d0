import Verif.SessionTextSpec
import Verif.SessionLedgerLemmas

/-!
# Helper lemmas: the texts of definitions
-/

namespace Slat.Session

open Interp (Val Call Cmd Cfg Err)

variable {W : Type}

theorem told_snoc (P : Py) (k id : String) (x : Call) : ∀ (C l : List Call) (s : String),
    Spec.told P k id l s (C ++ [x]) =
      if Spec.defined x = some (k, id) then Spec.sentence P (l ++ C) x else Spec.told P k id l s C := by
  intro C
  induction C with
  | nil => intro l s; simp [Spec.told]
  | cons a C ih => intro l s; simp [Spec.told, ih]

/-- The last definition of a name tells. -/
theorem told_last (P : Py) (k id : String) {x : Call} (hx : Spec.defined x = some (k, id)) (l : List Call) (s : String)
    (C D : List Call) (hD : ∀ y ∈ D, Spec.defined y ≠ some (k, id)) :
    Spec.told P k id l s (C ++ x :: D) = Spec.sentence P (l ++ C) x := by
  induction D using List.reverseRecOn with
  | nil => rw [told_snoc, if_pos hx]
  | append_singleton D y ih =>
    rw [← List.cons_append, ← List.append_assoc, told_snoc, if_neg (hD y (by simp))]
    exact ih fun z hz => hD z (by simp [hz])

theorem known_snoc (k id : String) (l : List Call) (x : Call) :
    Spec.known k id (l ++ [x]) = (Spec.known k id l || decide (Spec.defined x = some (k, id))) := by
  simp [Spec.known]

/-- The text without collapse. -/
def Attrs.plain (P : Py) : Option Attrs → String
  | none => "None"
  | some (.im i f _) => Attrs.text P (.im i f false)
  | some a => a.text P

/-- What the dictionaries hold after some calls. -/
structure Told (P : Py) (l : List Call) (t : Tags) : Prop where
  ident : ∀ k id a, t k id = some a → a.ident = id
  known : ∀ k id, (t k id).isSome = Spec.known k id l
  text : ∀ k id, k ≠ "detfn" → Attrs.plain P (t k id) = Spec.told P k id [] "None" l
  coll : ∀ k id i f, t k id = some (.im i f true) → k = "im" ∧ ∃ a b c d, Call.dist .collapse id a b c d ∈ l

theorem Told.init (P : Py) : Told P [] (fun _ _ => none) where
  ident := by intro k id a h; cases h
  known := by intro k id; rfl
  text := by intro k id _; rfl
  coll := by intro k id i f h; cases h

theorem Told.skip {P : Py} {l : List Call} {t : Tags} (h : Told P l t) {x : Call} (hx : Spec.defined x = none) :
    Told P (l ++ [x]) t where
  ident := h.ident
  known k id := by rw [known_snoc, h.known]; simp [hx]
  text k id hk := by rw [told_snoc, h.text k id hk]; simp [hx]
  coll k id i f e := by
    obtain ⟨hk, a, b, c, d, hm⟩ := h.coll k id i f e
    exact ⟨hk, a, b, c, d, by simp [hm]⟩

theorem Told.set {P : Py} {l : List Call} {t : Tags} (h : Told P l t) {x : Call} {k id : String} {a : Attrs}
    (hx : Spec.defined x = some (k, id)) (hi : a.ident = id)
    (ht : k ≠ "detfn" → Attrs.plain P (some a) = Spec.sentence P l x) (hc : ∀ i f, a ≠ .im i f true) :
    Told P (l ++ [x]) (t.set k id a) where
  ident := by
    intro k' id' a' h'
    unfold Tags.set at h'
    split at h'
    · next e => cases h'; rw [hi, e.2]
    · exact h.ident _ _ _ h'
  known := by
    intro k' id'
    rw [known_snoc, hx, ← h.known]
    unfold Tags.set
    by_cases e : k' = k ∧ id' = id
    · obtain ⟨rfl, rfl⟩ := e
      simp
    · have : ¬ (k = k' ∧ id = id') := fun q => e ⟨q.1.symm, q.2.symm⟩
      simp [e, this]
  text := by
    intro k' id' hk
    rw [told_snoc, hx, ← h.text k' id' hk]
    unfold Tags.set
    by_cases e : k' = k ∧ id' = id
    · obtain ⟨rfl, rfl⟩ := e
      simpa using ht hk
    · have : ¬ (k = k' ∧ id = id') := fun q => e ⟨q.1.symm, q.2.symm⟩
      simp [e, this]
  coll := by
    intro k' id' i f h'
    unfold Tags.set at h'
    split at h'
    · cases h'; exact absurd rfl (hc i f)
    · obtain ⟨hk, a, b, c, d, hm⟩ := h.coll k' id' i f h'
      exact ⟨hk, a, b, c, d, by simp [hm]⟩

theorem Told.call {P : Py} {l : List Call} {t t' : Tags} (h : Told P l t) {x : Call} (hx : t.call x = some t') :
    Told P (l ++ [x]) t' := by
  cases x with
  | detfn id type v =>
    cases hx
    exact h.set rfl rfl (fun e => absurd rfl e) (by intro i f; simp)
  | probfn id mu f sp g =>
    simp only [Tags.call] at hx
    split at hx
    · next a b ha hb =>
      cases hx
      refine h.set rfl rfl (fun _ => ?_) (by intro i f; simp)
      rw [h.ident _ _ _ ha, h.ident _ _ _ hb]
      rfl
    · cases hx
  | importProbfn id f =>
    cases hx
    refine h.set rfl rfl (fun _ => ?_) (by intro i f; simp)
    rfl
  | im id fn =>
    simp only [Tags.call] at hx
    split at hx
    · next a ha =>
      cases hx
      refine h.set rfl rfl (fun _ => ?_) (by intro i f; simp)
      rw [h.ident _ _ _ ha]
      rfl
    · cases hx
  | importIm id f =>
    cases hx
    refine h.set rfl rfl (fun _ => ?_) (by intro i f; simp)
    rfl
  | dist k id a b c d =>
    cases k with
    | collapse =>
      simp only [Tags.call] at hx
      split at hx
      · next i f e hi =>
        cases hx
        have h' := h.skip (x := .dist .collapse id a b c d) rfl
        refine ⟨?_, ?_, ?_, ?_⟩
        · intro k' id' a' q
          unfold Tags.set at q
          split at q
          · next e => cases q; rw [e.2]; exact (h.ident _ _ _ hi :)
          · exact h.ident _ _ _ q
        · intro k' id'
          rw [← h'.known]
          unfold Tags.set
          split
          · next e => rw [e.1, e.2, hi]; rfl
          · rfl
        · intro k' id' hk
          rw [← h'.text k' id' hk]
          unfold Tags.set
          split
          · next e => rw [e.1, e.2, hi]; rfl
          · rfl
        · intro k' id' i' f' q
          unfold Tags.set at q
          split at q
          · next e => exact ⟨e.1, a, b, c, d, by rw [e.2]; simp⟩
          · exact h'.coll _ _ _ _ q
      · cases hx
    | _ => cases hx; exact h.skip rfl
  | edp id i fn =>
    simp only [Tags.call] at hx
    split at hx
    · next a b ha hb =>
      cases hx
      refine h.set rfl rfl (fun _ => ?_) (by intro i f; simp)
      rw [h.ident _ _ _ ha, h.ident _ _ _ hb]
      rfl
    · cases hx
  | fragfnDb id key file =>
    cases hx
    exact h.set rfl rfl (fun _ => rfl) (by intro i f; simp)
  | fragfnUser id mu sp v =>
    cases hx
    exact h.set rfl rfl (fun _ => rfl) (by intro i f; simp)
  | simpleLoss id mu sp v =>
    cases hx
    exact h.set rfl rfl (fun _ => rfl) (by intro i f; simp)
  | bilevelLoss id v =>
    cases hx
    exact h.set rfl rfl (fun _ => rfl) (by intro i f; simp)
  | compgroup id e f k d n x y =>
    simp only [Tags.call] at hx
    split at hx
    · next a b c ha hb hc =>
      cases hx
      refine h.set rfl rfl (fun _ => ?_) (by intro i f; simp)
      rw [h.ident _ _ _ ha, h.ident _ _ _ hb, h.ident _ _ _ hc]
      have hd : orNone (d.bind fun s => (t "lossfn" s).map Attrs.ident) = (match d with
          | some s => if Spec.known "lossfn" s l then s else "None"
          | none => "None") := by
        cases d with
        | none => rfl
        | some s =>
          simp only [Option.bind_some, ← h.known]
          cases ht : t "lossfn" s with
          | none => rfl
          | some a => simp [orNone, h.ident _ _ _ ht]
      have : Attrs.plain P (some (.group id e f (some k) (d.bind fun s => (t "lossfn" s).map Attrs.ident) n x y)) =
        "Component Group '" ++ id ++ "' using " ++ e ++ ", " ++ f ++ ", " ++ k ++ ", and " ++
          orNone (d.bind fun s => (t "lossfn" s).map Attrs.ident) ++
          " (" ++ P.text (.int n) ++ " component(s); adjustments: " ++ P.text (.flt x) ++ " and " ++ P.text (.flt y) ++ ")" := rfl
      rw [this, hd]
      rfl
    · cases hx
  | _ => cases hx; exact h.skip rfl

theorem Told.exec {P : Py} {L : Lib W} {M : Machine} {l : List Call} {σ σ' : State (W × Tags)} (h : Told P l σ.lib.2) {x : Call}
    (hx : exec (scribe P L) M σ x = (σ', none)) : Told P (l ++ [x]) σ'.lib.2 := by
  have lib : ∀ w, (scribe P L).call σ.lib x = .ok w → Told P (l ++ [x]) w.2 := by
    intro w hw
    simp only [scribe] at hw
    split at hw
    · next v t hv ht => cases hw; exact h.call ht
    · cases hw
    · cases hw
  cases x with
  | recorder rid type registry id o cols at_ =>
    simp only [Session.exec] at hx
    split at hx
    · next σ₁ hr =>
      cases hx
      obtain ⟨-, -, -, -, -, -, -, -, rfl⟩ := record_ok hr
      exact h.skip rfl
    · cases hx
  | analyze =>
    simp only [Session.exec, analyze, Prod.mk.injEq] at hx
    rw [← hx.1]
    exact h.skip rfl
  | outputdir d =>
    cases hx
    exact h.skip rfl
  | print what file append =>
    simp only [Session.exec, print] at hx
    split at hx
    · cases hx; exact h.skip rfl
    · split at hx
      · cases hx; exact h.skip rfl
      · cases hx
  | _ =>
    simp only [Session.exec] at hx
    split at hx
    · next w hw => cases hx; exact lib w hw
    · cases hx

theorem Told.execAll {P : Py} {L : Lib W} {M : Machine} {l k : List Call} {σ σ' : State (W × Tags)} (h : Told P l σ.lib.2)
    (hx : execAll (scribe P L) M k σ = (σ', none)) : Told P (l ++ k) σ'.lib.2 := by
  induction k generalizing l σ with
  | nil => cases hx; simpa using h
  | cons x k ih =>
    simp only [Session.execAll] at hx
    split at hx
    · next σ₁ e =>
      have := ih (h.exec e) hx
      simpa using this
    · cases hx

theorem Told.run {P : Py} {L : Lib W} {M : Machine} {c : Cfg} {l : List Call} {m : List Cmd} {s : Interp.St}
    {σ σ' : State (W × Tags)} (h : Told P l σ.lib.2) (hm : ∀ x ∈ m, x.sound = true) (hs : s.saved = [])
    (hr : run (scribe P L) M c m s σ = (σ', none)) :
    ∃ k E, Interp.meaning c m ⟨s.vars, s.titles⟩ = .ok (k, E) ∧ Told P (l ++ k) σ'.lib.2 := by
  induction m generalizing l s σ with
  | nil => cases hr; exact ⟨[], _, rfl, by simpa using h⟩
  | cons x m ih =>
    obtain ⟨k, s₁, σ₁, h1, h2, h3, h4, h5⟩ := run_cons (hm x (by simp)) hs hr
    obtain ⟨k', E, h6, h7⟩ := ih (h.execAll h3) (fun y hy => hm y (by simp [hy])) h2 h4
    refine ⟨k ++ k', E, ?_, by simpa using h7⟩
    rw [Interp.meaning, h1, Interp.ok_bind, h5, Interp.ok_bind, h6]
    rfl

end Slat.Session
