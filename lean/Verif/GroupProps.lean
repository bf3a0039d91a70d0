import Verif.GroupModel
import Mathlib.Data.List.Perm.Basic
import Mathlib.Order.Nat

/-!
# Components grouped by EDP or fragility (property C44)
-/

namespace Slat.Grouping

variable {K C : Type} [LinearOrder K]

/-! ## Proof support -/

theorem mapGet_push (m : List (K × List C)) (k k' : K) (c : C) :
    mapGet (mapPush m k c) k' = if k' = k then mapGet m k ++ [c] else mapGet m k' := by
  induction m with
  | nil =>
    by_cases h : k' = k
    · subst h; simp [mapPush, mapGet]
    · simp [mapPush, mapGet, h, Ne.symm h]
  | cons p m ih =>
    obtain ⟨k0, cs⟩ := p
    by_cases h0 : k0 = k
    · subst h0
      by_cases h : k' = k0
      · subst h; simp [mapPush, mapGet]
      · simp [mapPush, mapGet, h, Ne.symm h]
    · by_cases h1 : k0 = k'
      · subst h1; simp [mapPush, mapGet, h0]
      · simp only [mapPush, h0, if_false, mapGet, h1, ih]

theorem mem_setInsert (k k' : K) (ks : List K) : k' ∈ setInsert k ks ↔ k' = k ∨ k' ∈ ks := by
  induction ks with
  | nil => simp [setInsert]
  | cons a ks ih =>
    unfold setInsert
    split
    · simp
    · rename_i hk
      split
      · simp only [List.mem_cons, ih]; tauto
      · rename_i ha
        have : k = a := le_antisymm (not_lt.1 ha) (not_lt.1 hk)
        subst this; simp

theorem setInsert_sorted (k : K) (ks : List K) (h : ks.Pairwise (· < ·)) :
    (setInsert k ks).Pairwise (· < ·) := by
  induction ks with
  | nil => simp [setInsert]
  | cons a ks ih =>
    rw [List.pairwise_cons] at h
    unfold setInsert
    split
    · rename_i hk
      refine List.pairwise_cons.2 ⟨?_, List.pairwise_cons.2 h⟩
      intro b hb
      rcases List.mem_cons.1 hb with rfl | hb
      · exact hk
      · exact hk.trans (h.1 b hb)
    · split
      · rename_i hk
        refine List.pairwise_cons.2 ⟨?_, ih h.2⟩
        intro b hb
        rcases (mem_setInsert k b ks).1 hb with rfl | hb
        · exact hk
        · exact h.1 b hb
      · exact List.pairwise_cons.2 h

theorem collect_spec (key : C → K) (cs : List C) : ∀ (m : List (K × List C)) (ks : List K),
    ks.Pairwise (· < ·) →
    (collect key m ks cs).2.Pairwise (· < ·) ∧
    (∀ k, k ∈ (collect key m ks cs).2 ↔ k ∈ ks ∨ ∃ c ∈ cs, key c = k) ∧
    (∀ k, mapGet (collect key m ks cs).1 k = mapGet m k ++ cs.filter (fun c => key c = k)) := by
  induction cs with
  | nil => intro m ks h; simp [collect, h]
  | cons c cs ih =>
    intro m ks h
    obtain ⟨h1, h2, h3⟩ := ih (mapPush m (key c) c) (setInsert (key c) ks) (setInsert_sorted _ _ h)
    refine ⟨h1, ?_, ?_⟩
    · intro k
      rw [collect, h2, mem_setInsert]
      simp only [List.mem_cons, exists_eq_or_imp, or_assoc]
      constructor
      · rintro (h | h | h)
        · exact .inr (.inl h.symm)
        · exact .inl h
        · exact .inr (.inr h)
      · rintro (h | h | h)
        · exact .inr (.inl h)
        · exact .inl h.symm
        · exact .inr (.inr h)
    · intro k
      rw [collect, h3, mapGet_push]
      by_cases hk : key c = k
      · subst hk; simp
      · simp [hk, Ne.symm hk]

theorem flatten_filters (key : C → K) (cs : List C) : ∀ ks : List K, ks.Nodup → (∀ c ∈ cs, key c ∈ ks) →
    (ks.map (fun k => cs.filter (fun c => key c = k))).flatten.Perm cs := by
  intro ks
  induction ks generalizing cs with
  | nil =>
    intro _ h
    have : cs = [] := List.eq_nil_iff_forall_not_mem.2 (fun c hc => by simpa using h c hc)
    simp [this]
  | cons k ks ih =>
    intro hn h
    rw [List.nodup_cons] at hn
    simp only [List.map_cons, List.flatten_cons]
    have h1 := ih (cs.filter (fun c => !decide (key c = k))) hn.2 (by
      intro c hc
      simp only [List.mem_filter, Bool.not_eq_true', decide_eq_false_iff_not] at hc
      exact (List.mem_cons.1 (h c hc.1)).resolve_left hc.2)
    have h2 : ks.map (fun k' => (cs.filter (fun c => !decide (key c = k))).filter (fun c => key c = k')) =
        ks.map (fun k' => cs.filter (fun c => key c = k')) := by
      refine List.map_congr_left (fun k' hk' => ?_)
      rw [List.filter_filter]
      refine List.filter_congr (fun c _ => ?_)
      have hne : k' ≠ k := by rintro rfl; exact hn.1 hk'
      by_cases hc : key c = k'
      · simp [hc, hne]
      · simp [hc]
    rw [h2] at h1
    exact (List.Perm.append_left _ h1).trans (List.filter_append_perm _ _)

/-! ## C44 -/

/-- The groups are a partition of the component list (with multiplicity: `Perm`). -/
theorem groups_partition (key : C → K) (cs : List C) : (components key cs).flatten.Perm cs := by
  obtain ⟨h1, h2, h3⟩ := collect_spec key cs [] [] .nil
  have : components key cs =
      (collect key [] [] cs).2.map (fun k => cs.filter (fun c => key c = k)) := by
    unfold components
    refine List.map_congr_left (fun k _ => ?_)
    rw [h3]; simp [mapGet]
  rw [this]
  exact flatten_filters key cs _ (h1.imp (fun h => ne_of_lt h)) (fun c hc => (h2 _).2 (.inr ⟨c, hc, rfl⟩))

/-- Every group is non-empty and consists of all components with one key, in their original order. -/
theorem group_is_class (key : C → K) (cs : List C) (g : List C) (hg : g ∈ components key cs) :
    g ≠ [] ∧ ∃ k, g = cs.filter (fun c => key c = k) := by
  obtain ⟨h1, h2, h3⟩ := collect_spec key cs [] [] .nil
  simp only [components, List.mem_map] at hg
  obtain ⟨k, hk, rfl⟩ := hg
  rw [h3]
  obtain ⟨c, hc, hck⟩ := ((h2 k).1 hk).resolve_left (by simp)
  refine ⟨?_, k, by simp [mapGet]⟩
  intro hnil
  have : c ∈ cs.filter (fun c => key c = k) := by simp [hc, hck]
  simp [mapGet] at hnil
  exact hnil c hc hck

/-- Different groups have different keys, and the groups are ordered by key (address). -/
theorem groups_by_key (key : C → K) (cs : List C) :
    (components key cs).Pairwise (fun g h => ∀ a ∈ g, ∀ b ∈ h, key a < key b) := by
  obtain ⟨h1, h2, h3⟩ := collect_spec key cs [] [] .nil
  unfold components
  rw [List.pairwise_map]
  refine h1.imp ?_
  intro k k' hkk a ha b hb
  simp only [h3, mapGet, List.nil_append, List.mem_filter, decide_eq_true_eq] at ha hb
  rw [ha.2, hb.2]
  exact hkk

/-- Two components are in the same group exactly when they share the key. -/
theorem same_group_iff_same_key (key : C → K) (cs : List C) (a b : C) (ha : a ∈ cs) (hb : b ∈ cs) :
    (∃ g ∈ components key cs, a ∈ g ∧ b ∈ g) ↔ key a = key b := by
  constructor
  · rintro ⟨g, hg, hga, hgb⟩
    obtain ⟨-, k, rfl⟩ := group_is_class key cs g hg
    simp only [List.mem_filter, decide_eq_true_eq] at hga hgb
    rw [hga.2, hgb.2]
  · intro hk
    have : a ∈ (components key cs).flatten := (groups_partition key cs).mem_iff.2 ha
    obtain ⟨g, hg, hga⟩ := List.mem_flatten.1 this
    refine ⟨g, hg, hga, ?_⟩
    obtain ⟨-, k, rfl⟩ := group_is_class key cs g hg
    simp only [List.mem_filter, decide_eq_true_eq] at hga ⊢
    exact ⟨hb, by rw [← hk, hga.2]⟩

/-- Five components over three EDPs, one component listed twice. -/
example : components (fun c : ℕ × ℕ => c.1) [(3, 0), (1, 1), (3, 2), (2, 3), (1, 1)] =
    [[(1, 1), (1, 1)], [(2, 3)], [(3, 0), (3, 2)]] := by decide

end Slat.Grouping
