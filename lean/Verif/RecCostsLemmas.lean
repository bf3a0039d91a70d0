import Verif.RecLemmas
import Verif.GroupProps
import Verif.LogNormalProps
import Verif.LogNormalSums
import Mathlib.Data.String.Basic

/-!
# Lemmas about the deaggregated costs of a structure
-/

namespace Slat.Rec

open Grouping LogNormalDist

noncomputable section

variable {K V : Type} [DecidableEq K]

theorem dictSet_new (d : List (K × V)) (k : K) (v : V) (h : k ∉ d.map Prod.fst) :
    dictSet d k v = d ++ [(k, v)] := by
  induction d with
  | nil => rfl
  | cons a d ih =>
    obtain ⟨k', v'⟩ := a
    simp only [List.map_cons, List.mem_cons, not_or] at h
    simp only [dictSet, if_neg (Ne.symm h.1), ih h.2, List.cons_append]

/-- The name under which a list of groups is stored. -/
def nameOf (name : GroupObj → Option (Option String)) (c : List GroupObj) : Option String :=
  (c.head?.bind name).getD none

theorem groupsByName_eq (name : GroupObj → Option (Option String)) (l : List (List GroupObj)) :
    ∀ d, (∀ c ∈ l, ∃ g t n, c = g :: t ∧ name g = some n) → (l.map (nameOf name)).Nodup →
    (∀ c ∈ l, nameOf name c ∉ d.map Prod.fst) →
    groupsByName name d l = .ok (d ++ l.map fun c => (nameOf name c, c)) := by
  induction l with
  | nil => intro d _ _ _; simp [groupsByName]
  | cons c l ih =>
    intro d h1 h2 h3
    obtain ⟨g, t, n, rfl, hn⟩ := h1 c List.mem_cons_self
    have hno : nameOf name (g :: t) = n := by simp [nameOf, hn]
    simp only [List.map_cons, List.nodup_cons] at h2
    have hd : n ∉ d.map Prod.fst := hno ▸ h3 _ List.mem_cons_self
    simp only [groupsByName, hn]
    rw [dictSet_new d n _ hd, ih _ (fun c hc => h1 c (List.mem_cons_of_mem _ hc)) h2.2]
    · simp [hno]
    · intro c hc
      simp only [List.map_append, List.map_cons, List.map_nil, List.mem_append, List.mem_singleton,
        not_or]
      refine ⟨h3 c (List.mem_cons_of_mem _ hc), fun he => h2.1 ?_⟩
      rw [hno, ← he]
      exact List.mem_map_of_mem hc

theorem dictGet_map (f : List GroupObj → Option String) (l : List (List GroupObj)) (c : List GroupObj)
    (hc : c ∈ l) (hn : (l.map f).Nodup) : dictGet (l.map fun c => (f c, c)) (f c) = c := by
  induction l with
  | nil => simp at hc
  | cons b l ih =>
    simp only [List.map_cons, List.nodup_cons] at hn
    simp only [List.map_cons, dictGet]
    by_cases hb : f b = f c
    · rw [if_pos hb]
      rcases List.mem_cons.1 hc with rfl | hc
      · rfl
      · exact absurd (hb ▸ List.mem_map_of_mem hc) hn.1
    · rw [if_neg hb]
      rcases List.mem_cons.1 hc with rfl | hc
      · exact absurd rfl hb
      · exact ih hc hn.2

/-- Distinct names are sorted. -/
theorem sortNames_spec (l : List (Option String)) (hs : ∀ n ∈ l, n ≠ none) (hn : l.Nodup) :
    ∃ cats : List String, sortNames l = .ok (cats.map some) ∧ cats.Pairwise (· < ·) ∧
      ∀ n, n ∈ cats ↔ some n ∈ l := by
  have hnone : none ∉ l := fun h => hs none h rfl
  set m := l.mergeSort (fun a b => pyText a ≤ pyText b) with hm
  have hperm : m.Perm l := List.mergeSort_perm l _
  have hsort : m.Pairwise (fun a b => pyText a ≤ pyText b) := by
    have := List.pairwise_mergeSort (le := fun a b => decide (pyText a ≤ pyText b))
      (fun a b c h1 h2 => by simp only [decide_eq_true_eq] at *; exact le_trans h1 h2)
      (fun a b => by simp only [Bool.or_eq_true, decide_eq_true_eq]; exact le_total _ _) l
    exact this.imp fun h => by simpa using h
  have hmap : (m.map pyText).map some = m := by
    rw [List.map_map]
    refine (List.map_congr_left fun a ha => ?_).trans (List.map_id m)
    have ha : a ∈ l := hperm.mem_iff.1 ha
    cases a with
    | none => exact absurd ha hnone
    | some s => rfl
  refine ⟨m.map pyText, ?_, ?_, ?_⟩
  · rw [hmap]
    unfold sortNames
    rw [if_neg (fun h => hnone h.2)]
  · have hnd : (m.map pyText).Nodup := by
      have : ((m.map pyText).map some).Nodup := by rw [hmap]; exact hperm.nodup_iff.2 hn
      exact List.Nodup.of_map _ this
    have hle : (m.map pyText).Pairwise (· ≤ ·) := List.pairwise_map.2 hsort
    have := hle.and hnd
    exact this.imp fun h => lt_of_le_of_ne h.1 h.2
  · intro n
    rw [← hperm.mem_iff]
    constructor
    · intro h
      have := List.mem_map_of_mem (f := some) h
      rwa [hmap] at this
    · intro h
      exact List.mem_map.2 ⟨_, h, rfl⟩

end

end Slat.Rec
