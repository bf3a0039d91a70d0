import Verif.ReplaceableModel

/-! Helper lemmas for the `Replaceable` model. -/

namespace Slat.Replaceable

variable {C : Type}

/-- Keys strictly ascending, the `std::map` iteration order. -/
def SortedKeys (m : List (ℕ × C)) : Prop := (m.map Prod.fst).Pairwise (· < ·)

theorem mapSet_append_of_lt (id : ℕ) (c : C) (m : List (ℕ × C)) (h : ∀ e ∈ m, e.1 < id) :
    mapSet id c m = m ++ [(id, c)] := by
  induction m with
  | nil => rfl
  | cons e m ih =>
    obtain ⟨k, d⟩ := e
    have hk : k < id := h (k, d) (by simp)
    have h1 : ¬ id < k := by omega
    have h2 : id ≠ k := by omega
    simp only [mapSet, h1, h2, if_false, List.cons_append]
    rw [ih (fun e he => h e (by simp [he]))]

theorem mapErase_sublist (id : ℕ) (m : List (ℕ × C)) : (mapErase id m).Sublist m :=
  List.filter_sublist

theorem mem_mapErase {id : ℕ} {m : List (ℕ × C)} {e : ℕ × C} :
    e ∈ mapErase id m ↔ e ∈ m ∧ e.1 ≠ id := by
  simp [mapErase]

theorem sortedKeys_mapErase {id : ℕ} {m : List (ℕ × C)} (h : SortedKeys m) :
    SortedKeys (mapErase id m) :=
  List.Pairwise.sublist ((mapErase_sublist id m).map Prod.fst) h

theorem sortedKeys_append {id : ℕ} {c : C} {m : List (ℕ × C)} (h : SortedKeys m)
    (hlt : ∀ e ∈ m, e.1 < id) : SortedKeys (m ++ [(id, c)]) := by
  unfold SortedKeys
  rw [List.map_append, List.pairwise_append]
  refine ⟨h, by simp, ?_⟩
  intro a ha b hb
  simp only [List.map_cons, List.map_nil, List.mem_singleton] at hb
  subst hb
  obtain ⟨e, he, rfl⟩ := List.mem_map.1 ha
  exact hlt e he

theorem mem_mapSet {id : ℕ} {c : C} {m : List (ℕ × C)} {e : ℕ × C} :
    e ∈ mapSet id c m → e = (id, c) ∨ e ∈ m := by
  induction m with
  | nil => intro h; left; simpa [mapSet] using h
  | cons x m ih =>
    obtain ⟨k, d⟩ := x
    intro h
    simp only [mapSet] at h
    split at h
    · simpa using h
    · split at h
      · rcases List.mem_cons.1 h with h | h
        · exact Or.inl h
        · exact Or.inr (by simp [h])
      · rcases List.mem_cons.1 h with h | h
        · exact Or.inr (by simp [h])
        · rcases ih h with h | h
          · exact Or.inl h
          · exact Or.inr (by simp [h])

theorem sortedKeys_mapSet {id : ℕ} {c : C} {m : List (ℕ × C)} (h : SortedKeys m) :
    SortedKeys (mapSet id c m) := by
  induction m with
  | nil => simp [SortedKeys, mapSet]
  | cons x m ih =>
    obtain ⟨k, d⟩ := x
    have hm : SortedKeys m := by
      unfold SortedKeys at h ⊢
      simp only [List.map_cons, List.pairwise_cons] at h
      exact h.2
    have hk : ∀ e ∈ m, k < e.1 := by
      unfold SortedKeys at h
      simp only [List.map_cons, List.pairwise_cons, List.mem_map] at h
      intro e he
      exact h.1 e.1 ⟨e, he, rfl⟩
    simp only [mapSet]
    split
    · rename_i hlt
      unfold SortedKeys at h ⊢
      simp only [List.map_cons, List.pairwise_cons, List.mem_cons, List.mem_map] at h ⊢
      refine ⟨?_, h⟩
      intro a ha
      rcases ha with rfl | ⟨e, he, rfl⟩
      · exact hlt
      · exact lt_trans hlt (hk e he)
    · split
      · rename_i _ heq
        subst heq
        unfold SortedKeys at h ⊢
        simpa using h
      · rename_i h1 h2
        have := ih hm
        unfold SortedKeys at this ⊢
        simp only [List.map_cons, List.pairwise_cons, List.mem_map]
        refine ⟨?_, this⟩
        rintro a ⟨e, he, rfl⟩
        rcases mem_mapSet he with rfl | he
        · simp only; omega
        · exact hk e he

theorem run_append (w : World C) (h₁ h₂ : List (Op C)) :
    (run w (h₁ ++ h₂)).1 = (run (run w h₁).1 h₂).1 := by
  induction h₁ generalizing w with
  | nil => rfl
  | cons op ops ih => simp [run, ih]

end Slat.Replaceable
