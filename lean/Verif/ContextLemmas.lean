import Verif.ContextModel
import Mathlib.Data.List.Basic
import Mathlib.Tactic.Ring
import Mathlib.Tactic.Push
import Mathlib.Tactic.Tauto

/-! Proof support for log contexts (helper file). -/

namespace Slat.Context

variable {T : Type}

/-! ### The tree -/

/-- Sizes of `threads` by depth, and children only below objects with entries. -/
structure Shape (sz : ℕ → ℕ) (m : Tree T) : Prop where
  root : m [] ≠ none
  size : ∀ κ ts n, m κ = some (ts, n) → n = 0 ∨ n = sz κ.length
  up : ∀ κ k v, m (κ ++ [k]) = some v → ∃ ts n, m κ = some (ts, n) ∧ n ≠ 0

/-- The levels have the sizes of the tree from depth `d` on. -/
def Fits (sz : ℕ → ℕ) (d : ℕ) (l : List (ℕ × ℕ)) : Prop := ∀ i v, l[i]? = some v → v.1 < v.2 ∧ v.2 = sz (d + i)

theorem Fits.cons {sz : ℕ → ℕ} {d : ℕ} {v : ℕ × ℕ} {l : List (ℕ × ℕ)} (h : Fits sz d (v :: l)) :
    v.1 < v.2 ∧ v.2 = sz d ∧ Fits sz (d + 1) l := by
  refine ⟨(h 0 v rfl).1, (h 0 v rfl).2, fun i w hw => ?_⟩
  have := h (i + 1) w (by simpa using hw)
  rw [show d + (i + 1) = d + 1 + i by ring] at this
  exact this

theorem look_update {m : Tree T} {κ : Key} {ts : List T} {n n' : ℕ} (h : m κ = some (ts, n)) :
    look (Function.update m κ (some (ts, n'))) = look m := by
  funext x
  unfold look
  by_cases hx : x = κ
  · subst hx; simp [h]
  · rw [Function.update_of_ne hx]

theorem look_create {m : Tree T} {κ : Key} {n : ℕ} (h : m κ = none) :
    look (Function.update m κ (some ([], n))) = look m := by
  funext x
  unfold look
  by_cases hx : x = κ
  · subst hx; simp [h]
  · rw [Function.update_of_ne hx]

theorem ne_snoc (κ : Key) (k : ℕ) : κ ≠ κ ++ [k] := by
  intro h
  have := congrArg List.length h
  simp at this

theorem shape_resize {sz : ℕ → ℕ} {m : Tree T} (h : Shape sz m) {κ : Key} {ts : List T} {n : ℕ} (hm : m κ = some (ts, n))
    (hpos : sz κ.length ≠ 0) : Shape sz (Function.update m κ (some (ts, sz κ.length))) := by
  refine ⟨?_, ?_, ?_⟩
  · by_cases hx : [] = κ
    · rw [hx, Function.update_self]; simp
    · rw [Function.update_of_ne hx]; exact h.root
  · intro x us j hx
    by_cases hxk : x = κ
    · subst hxk
      rw [Function.update_self] at hx
      cases hx
      exact .inr rfl
    · rw [Function.update_of_ne hxk] at hx
      exact h.size x us j hx
  · intro x k v hx
    have hne : ∃ w, m (x ++ [k]) = some w := by
      by_cases hxk : x ++ [k] = κ
      · exact ⟨_, by rw [hxk]; exact hm⟩
      · rw [Function.update_of_ne hxk] at hx; exact ⟨v, hx⟩
    obtain ⟨w, hw⟩ := hne
    obtain ⟨us, j, h1, h2⟩ := h.up x k w hw
    by_cases hxk : x = κ
    · subst hxk
      exact ⟨ts, _, Function.update_self _ _ _, hpos⟩
    · exact ⟨us, j, by rw [Function.update_of_ne hxk]; exact h1, h2⟩

theorem below_none {sz : ℕ → ℕ} {m : Tree T} (h : Shape sz m) {κ : Key} (hκ : m κ = none) (l : Key) : m (κ ++ l) = none := by
  induction l using List.reverseRecOn with
  | nil => simpa using hκ
  | append_singleton l k ih =>
    cases hv : m (κ ++ (l ++ [k])) with
    | none => rfl
    | some v =>
      rw [← List.append_assoc] at hv
      obtain ⟨ts, n, h1, -⟩ := h.up _ _ _ hv
      rw [ih] at h1
      cases h1

theorem shape_create {sz : ℕ → ℕ} {m : Tree T} (h : Shape sz m) {κ : Key} {k : ℕ} {ts : List T} {n : ℕ} (hm : m κ = some (ts, n))
    (hn : n ≠ 0) (hk : m (κ ++ [k]) = none) : Shape sz (Function.update m (κ ++ [k]) (some ([], 0))) := by
  refine ⟨?_, ?_, ?_⟩
  · rw [Function.update_of_ne (by simp)]; exact h.root
  · intro x us j hx
    by_cases hxk : x = κ ++ [k]
    · subst hxk
      rw [Function.update_self] at hx
      cases hx
      exact .inl rfl
    · rw [Function.update_of_ne hxk] at hx
      exact h.size x us j hx
  · intro x j v hx
    by_cases hxk : x ++ [j] = κ ++ [k]
    · have : x = κ := (List.append_inj' hxk rfl).1
      subst this
      exact ⟨ts, n, by rw [Function.update_of_ne (ne_snoc x k)]; exact hm, hn⟩
    · rw [Function.update_of_ne hxk] at hx
      obtain ⟨us, i, h1, h2⟩ := h.up x j v hx
      have hx' : x ≠ κ ++ [k] := by
        rintro rfl
        rw [hk] at h1
        cases h1
      exact ⟨us, i, by rw [Function.update_of_ne hx']; exact h1, h2⟩

theorem descend_ok {sz : ℕ → ℕ} {m : Tree T} (h : Shape sz m) {κ : Key} (hκ : m κ ≠ none) {l : List (ℕ × ℕ)}
    (hf : Fits sz κ.length l) :
    ∃ m', descend m κ l = some (m', κ ++ l.map Prod.fst) ∧ Shape sz m' ∧ look m' = look m ∧
      m' (κ ++ l.map Prod.fst) ≠ none := by
  induction l generalizing m κ with
  | nil => exact ⟨m, by simp [descend], h, rfl, by simpa using hκ⟩
  | cons v l ih =>
    obtain ⟨k, n⟩ := v
    obtain ⟨hk, hn, hf'⟩ := hf.cons
    dsimp only at hk hn
    obtain ⟨⟨ts, size⟩, hm⟩ := Option.ne_none_iff_exists'.1 hκ
    have hsize : (if size = 0 then n else size) = n := by
      rcases h.size κ ts size hm with h0 | h0
      · rw [if_pos h0]
      · rw [hn, ← h0]; simp
    have hshape := shape_resize h hm (by omega)
    rw [← hn] at hshape
    set m₁ : Tree T := Function.update m κ (some (ts, n)) with hm₁
    have hm₁κ : m₁ κ = some (ts, n) := Function.update_self _ _ _
    set m₂ : Tree T := if (m₁ (κ ++ [k])).isNone then Function.update m₁ (κ ++ [k]) (some ([], 0)) else m₁ with hm₂
    have h2 : Shape sz m₂ ∧ look m₂ = look m ∧ m₂ (κ ++ [k]) ≠ none := by
      rw [hm₂]
      split
      · rename_i hnone
        rw [Option.isNone_iff_eq_none] at hnone
        exact ⟨shape_create hshape hm₁κ (by omega) hnone, (look_create hnone).trans (look_update hm), by simp⟩
      · rename_i hnone
        exact ⟨hshape, look_update hm, fun hh => hnone (by rw [hh]; rfl)⟩
    obtain ⟨m', h3, h4, h5, h6⟩ := ih (κ := κ ++ [k]) h2.1 h2.2.2 (by simpa using hf')
    refine ⟨m', ?_, h4, h5.trans h2.2.1, ?_⟩
    · rw [descend, hm]
      dsimp only
      rw [hsize, if_pos hk, ← hm₁, ← hm₂, h3]
      simp
    · simpa using h6

theorem look_replaceAt (m : Tree T) (κ : Key) (ts : List T) (x : Key) :
    look (replaceAt m κ ts) x = if x = κ then ts else if κ <+: x then [] else look m x := by
  unfold look replaceAt
  split
  · rfl
  · split <;> rfl

theorem shape_replaceAt {sz : ℕ → ℕ} {m : Tree T} (h : Shape sz m) {κ : Key} (hκ : m κ ≠ none) (ts : List T) :
    Shape sz (replaceAt m κ ts) := by
  refine ⟨?_, ?_, ?_⟩
  · unfold replaceAt
    split
    · simp
    · rename_i h1
      rw [if_neg]
      · exact h.root
      · intro h2
        exact h1 (List.prefix_nil.1 h2).symm
  · intro x us n hx
    unfold replaceAt at hx
    split at hx
    · cases hx; exact .inl rfl
    · split at hx
      · cases hx
      · exact h.size x us n hx
  · intro x k v hx
    have key : m (x ++ [k]) ≠ none ∧ x ≠ κ ∧ ¬ κ <+: x := by
      unfold replaceAt at hx
      split at hx
      · rename_i h1
        refine ⟨by rw [h1]; exact hκ, ?_, ?_⟩
        · rintro rfl; exact ne_snoc _ _ h1.symm
        · rintro ⟨z, rfl⟩
          have := congrArg List.length h1
          simp at this
      · split at hx
        · cases hx
        · rename_i h2
          refine ⟨by rw [hx]; simp, ?_, ?_⟩
          · rintro rfl; exact h2 ⟨[k], rfl⟩
          · rintro ⟨z, rfl⟩; exact h2 ⟨z ++ [k], by simp⟩
    obtain ⟨w, hw⟩ := Option.ne_none_iff_exists'.1 key.1
    obtain ⟨us, n, h1, h2⟩ := h.up x k w hw
    exact ⟨us, n, by unfold replaceAt; rw [if_neg key.2.1, if_neg key.2.2]; exact h1, h2⟩

/-- Texts below a position, level by level. -/
def texts (m : Tree T) (κ : Key) (sl : ℕ) : List ℕ → List (T × ℕ)
  | [] => []
  | k :: ks => (look m (κ ++ [k])).map (fun t => (t, sl)) ++ texts m (κ ++ [k]) (sl + 1) ks

theorem texts_none {m : Tree T} {κ : Key} (h : ∀ l, l ≠ [] → m (κ ++ l) = none) (sl : ℕ) (ks : List ℕ) : texts m κ sl ks = [] := by
  induction ks generalizing κ sl with
  | nil => rfl
  | cons k ks ih =>
    rw [texts, ih]
    · simp [look, h [k] (by simp)]
    · intro l _
      rw [List.append_assoc]
      exact h _ (by simp)

theorem gather_ok {sz : ℕ → ℕ} {m : Tree T} (h : Shape sz m) {κ : Key} (hκ : m κ ≠ none) {l : List (ℕ × ℕ)}
    (hf : Fits sz κ.length l) (sl : ℕ) : gather m κ sl l = some (texts m κ sl (l.map Prod.fst)) := by
  induction l generalizing κ sl with
  | nil => rfl
  | cons v l ih =>
    obtain ⟨k, n⟩ := v
    obtain ⟨hk, hn, hf'⟩ := hf.cons
    dsimp only at hk hn
    obtain ⟨⟨ts, size⟩, hm⟩ := Option.ne_none_iff_exists'.1 hκ
    rw [gather, hm]
    dsimp only
    split
    · rename_i h0
      subst h0
      rw [texts_none]
      intro l' hl'
      obtain ⟨j, l'', rfl⟩ := List.exists_cons_of_ne_nil hl'
      have h1 : m (κ ++ [j]) = none := by
        cases hv : m (κ ++ [j]) with
        | none => rfl
        | some w =>
          obtain ⟨us, i, h1, h2⟩ := h.up κ j w hv
          rw [hm] at h1
          cases h1
          exact absurd rfl h2
      have := below_none h h1 l''
      simpa using this
    · rename_i h0
      have hs : size = n := by
        rcases h.size κ ts size hm with h1 | h1
        · exact absurd h1 h0
        · rw [h1, hn]
      rw [if_pos (by omega)]
      cases hv : m (κ ++ [k]) with
      | none =>
        dsimp only
        rw [List.map_cons, texts, texts_none]
        · simp [look, hv]
        · intro l' _
          exact below_none h hv l'
      | some w =>
        obtain ⟨us, j⟩ := w
        dsimp only
        rw [ih (κ := κ ++ [k]) (by rw [hv]; simp) (by simpa using hf')]
        simp [texts, look, hv]

theorem texts_flatMap (m : Tree T) (κ : Key) (sl : ℕ) (ks : List ℕ) :
    texts m κ sl ks = (List.range ks.length).flatMap fun i => (look m (κ ++ ks.take (i + 1))).map fun t => (t, sl + i) := by
  induction ks generalizing κ sl with
  | nil => rfl
  | cons k ks ih =>
    rw [texts, ih, List.length_cons, List.range_succ_eq_map, List.flatMap_cons, List.flatMap_map]
    congr 1
    refine List.flatMap_congr fun i _ => ?_
    simp only [List.take_succ_cons, List.append_assoc, List.singleton_append]
    congr 1
    funext t
    rw [show sl + 1 + i = sl + (i + 1) by ring]

/-! ### Tasks -/

theorem alive_iff {teams : Task → Option ℕ} {p : Task} :
    alive teams p = true ↔ ∀ i k, p[i]? = some k → ∃ n, teams (p.take i) = some n ∧ k < n := by
  unfold alive
  rw [List.all_eq_true]
  constructor
  · intro h i k hk
    have hi : i < p.length := (List.getElem?_eq_some_iff.1 hk).1
    have := h i (List.mem_range.2 hi)
    rw [hk] at this
    cases ht : teams (p.take i) with
    | none => rw [ht] at this; cases this
    | some n =>
      rw [ht] at this
      exact ⟨n, rfl, by simpa using this⟩
  · intro h i hi
    have hi := List.mem_range.1 hi
    obtain ⟨n, h1, h2⟩ := h i p[i] (List.getElem?_eq_getElem hi)
    rw [h1, List.getElem?_eq_getElem hi]
    simpa using h2

theorem alive_prefix {teams : Task → Option ℕ} {p q : Task} (hq : alive teams q = true) (h : p <+: q) : alive teams p = true := by
  obtain ⟨z, rfl⟩ := h
  rw [alive_iff] at hq ⊢
  intro i k hk
  have hi : i < p.length := (List.getElem?_eq_some_iff.1 hk).1
  have := hq i k (by rw [List.getElem?_append_left hi]; exact hk)
  rwa [List.take_append_of_le_length hi.le] at this

theorem alive_child {teams : Task → Option ℕ} {p : Task} {k : ℕ} {z : Task} (h : alive teams (p ++ k :: z) = true) :
    ∃ n, teams p = some n ∧ k < n := by
  have := (alive_iff.1 h) p.length k (by simp)
  simpa using this

/-- A task that waits for nobody has no descendants. -/
theorem running_leaf {teams : Task → Option ℕ} {p q : Task} (hp : teams p = none) (hq : alive teams q = true) (h : p <+: q) :
    p = q := by
  obtain ⟨z, rfl⟩ := h
  cases z with
  | nil => simp
  | cons k z =>
    obtain ⟨n, h1, -⟩ := alive_child hq
    rw [hp] at h1
    cases h1

/-- Team sizes by nesting level: `sizes` up to the deepest active level `M`, one below. -/
def region (M : ℕ) (sizes : ℕ → ℕ) (d : ℕ) : ℕ := if d < M then sizes d else 1

/-- Sizes of `threads` by depth. -/
def depthSize (M : ℕ) (sizes : ℕ → ℕ) : ℕ → ℕ
  | 0 => 1
  | d + 1 => region M sizes d

/-- Position of the object of a task. -/
def keyOf (M : ℕ) (p : Task) : Key := if p = [] ∨ M = 0 then [] else 0 :: p.take M

section
variable {M : ℕ} {sizes : ℕ → ℕ} {teams : Task → Option ℕ}

/-- All teams have the size of their level. -/
def Ruled (M : ℕ) (sizes : ℕ → ℕ) (teams : Task → Option ℕ) : Prop :=
  ∀ p n, teams p = some n → alive teams p = true ∧ n = region M sizes p.length

theorem level_alive (hr : Ruled M sizes teams) {p : Task} (hp : alive teams p = true) {i k : ℕ} (hi : p[i]? = some k) :
    level teams p i = (k, region M sizes i) ∧ k < region M sizes i := by
  obtain ⟨n, h1, h2⟩ := alive_iff.1 hp i k hi
  have hlen : i < p.length := (List.getElem?_eq_some_iff.1 hi).1
  have h3 := (hr _ _ h1).2
  rw [List.length_take, min_eq_left hlen.le] at h3
  refine ⟨?_, by rw [← h3]; exact h2⟩
  unfold level
  rw [hi, h1, h3]
  rfl

theorem levels_alive (hr : Ruled M sizes teams) {p : Task} (hp : alive teams p = true) :
    levels teams p = (0, 1) :: (List.range p.length).map (fun i => (p[i]?.getD 0, region M sizes i)) := by
  unfold levels
  congr 1
  refine List.map_congr_left fun i hi => ?_
  have hi := List.mem_range.1 hi
  rw [(level_alive hr hp (List.getElem?_eq_getElem hi)).1, List.getElem?_eq_getElem hi]
  rfl

theorem count_active (h2 : ∀ d, d < M → 2 ≤ sizes d) (n : ℕ) :
    ((List.range n).map (fun i => region M sizes i)).countP (fun x => decide (1 < x)) = min n M := by
  induction n with
  | zero => simp
  | succ n ih =>
    rw [List.range_succ, List.map_append, List.countP_append, ih]
    simp only [List.map_cons, List.map_nil, List.countP_cons, List.countP_nil, region]
    by_cases h : n < M
    · have := h2 n h
      rw [if_pos h]
      simp only [show 1 < sizes n by omega, decide_true, if_true]
      omega
    · rw [if_neg h]
      simp only [lt_irrefl, decide_false]
      simp
      omega

theorem active_alive (h2 : ∀ d, d < M → 2 ≤ sizes d) (hr : Ruled M sizes teams) {p : Task} (hp : alive teams p = true) :
    activeLevel teams p = min p.length M := by
  unfold activeLevel
  rw [levels_alive hr hp, List.countP_cons]
  simp only [lt_irrefl, decide_false]
  rw [← count_active h2 p.length, List.countP_map, List.countP_map]
  simp
  rfl

theorem map_range_get (p : List ℕ) : (List.range p.length).map (fun i => p[i]?.getD 0) = p := by
  apply List.ext_getElem
  · simp
  · intro i h1 h2
    simp [List.getElem?_eq_getElem h2]

theorem take_levels (hr : Ruled M sizes teams) {p : Task} (hp : alive teams p = true) :
    (((levels teams p).take (min p.length M + 1)).map Prod.fst = 0 :: p.take M) ∧
      Fits (depthSize M sizes) 0 ((levels teams p).take (min p.length M + 1)) := by
  rw [levels_alive hr hp]
  constructor
  · rw [List.take_succ_cons, List.map_cons, List.map_take, List.map_map]
    have : (Prod.fst ∘ fun i => (p[i]?.getD 0, region M sizes i)) = fun i => p[i]?.getD 0 := rfl
    rw [this, map_range_get]
    congr 1
    rw [min_comm, ← List.take_take, List.take_length]
  · intro i v hv
    rw [List.getElem?_take] at hv
    split at hv
    · cases i with
      | zero =>
        simp only [List.getElem?_cons_zero, Option.some.injEq] at hv
        subst hv
        exact ⟨by norm_num, rfl⟩
      | succ i =>
        simp only [List.getElem?_cons_succ, List.getElem?_map, Option.map_eq_some_iff] at hv
        obtain ⟨j, hj, rfl⟩ := hv
        obtain ⟨hlt, hj⟩ := List.getElem?_eq_some_iff.1 hj
        simp only [List.getElem_range] at hj
        subst hj
        have hi : i < p.length := by simpa using hlt
        have := (level_alive hr hp (List.getElem?_eq_getElem hi)).2
        rw [List.getElem?_eq_getElem hi, zero_add]
        exact ⟨this, rfl⟩
    · cases hv

theorem lockPath_alive (h2 : ∀ d, d < M → 2 ≤ sizes d) (hr : Ruled M sizes teams) {p : Task} (hp : alive teams p = true) :
    (lockPath teams p).map Prod.fst = keyOf M p ∧ Fits (depthSize M sizes) 0 (lockPath teams p) := by
  unfold lockPath keyOf
  rw [active_alive h2 hr hp]
  by_cases h : p = [] ∨ M = 0
  · have h0 : ¬ 0 < min p.length M := by rcases h with rfl | rfl <;> simp
    rw [if_neg h0, if_pos h]
    exact ⟨rfl, fun i v hv => by simp at hv⟩
  · have h0 : 0 < min p.length M := by
      push Not at h
      have := List.length_pos_of_ne_nil h.1
      omega
    rw [if_pos h0, if_neg h]
    exact take_levels hr hp

/-- Below the deepest active level all thread numbers are zero. -/
theorem inactive_zero (hr : Ruled M sizes teams) {p : Task} (hp : alive teams p = true) {i k : ℕ} (hi : p[i]? = some k)
    (h : M ≤ i) : k = 0 := by
  have := (level_alive hr hp hi).2
  rw [region, if_neg (by omega)] at this
  omega

theorem same_key_prefix (hr : Ruled M sizes teams) {p q : Task} (hp : alive teams p = true) (hq : alive teams q = true)
    (h : q.take M = p.take M) (hl : q.length ≤ p.length) : q <+: p := by
  rw [List.prefix_iff_getElem?]
  intro i hi
  have hip : i < p.length := by omega
  by_cases hM : i < M
  · have := congrArg (fun l => l[i]?) h
    simp only [List.getElem?_take, if_pos hM] at this
    rw [← this, List.getElem?_eq_getElem hi]
  · have a := inactive_zero hr hp (List.getElem?_eq_getElem hip) (by omega)
    have b := inactive_zero hr hq (List.getElem?_eq_getElem hi) (by omega)
    rw [List.getElem?_eq_getElem hip, a, b]

theorem key_eq_iff (hr : Ruled M sizes teams) {p q : Task} (hp : alive teams p = true) (hpn : teams p = none)
    (hq : alive teams q = true) (d : ℕ) (hd : d < min p.length M) :
    keyOf M q = 0 :: p.take (d + 1) ↔ q <+: p ∧ min q.length M = d + 1 := by
  unfold keyOf
  constructor
  · intro h
    split at h
    · cases h
    · rename_i hne
      push Not at hne
      simp only [List.cons.injEq, true_and] at h
      have hlen := congrArg List.length h
      simp only [List.length_take] at hlen
      have hmin : min q.length M = d + 1 := by omega
      refine ⟨?_, hmin⟩
      by_cases hqM : q.length ≤ M
      · rw [List.take_of_length_le hqM] at h
        rw [h]
        exact List.take_prefix _ _
      · have hdM : d + 1 = M := by omega
        rw [hdM] at h
        by_cases hl : q.length ≤ p.length
        · exact same_key_prefix hr hp hq h hl
        · have := running_leaf hpn hq (same_key_prefix hr hq hp h.symm (by omega))
          rw [this]
  · rintro ⟨h1, h2⟩
    have hq0 : ¬ (q = [] ∨ M = 0) := by
      rintro (rfl | rfl) <;> simp at h2
    rw [if_neg hq0]
    congr 1
    rw [List.prefix_iff_eq_take] at h1
    rw [h1, List.take_take, ← h2]
    congr 1
    omega

theorem key_nil_iff (hr : Ruled M sizes teams) {p q : Task} (hp : alive teams p = true) (hpn : teams p = none)
    (hq : alive teams q = true) : keyOf M q = [] ↔ q <+: p ∧ min q.length M = 0 := by
  unfold keyOf
  constructor
  · intro h
    split at h
    · rename_i h0
      rcases h0 with rfl | rfl
      · exact ⟨List.nil_prefix, by simp⟩
      · refine ⟨?_, by simp⟩
        by_cases hl : q.length ≤ p.length
        · exact same_key_prefix hr hp hq (by simp) hl
        · have := running_leaf hpn hq (same_key_prefix hr hq hp (by simp) (by omega))
          rw [this]
    · cases h
  · rintro ⟨-, h⟩
    rw [if_pos]
    by_cases hq0 : q = []
    · exact .inl hq0
    · have := List.length_pos_of_ne_nil hq0
      right
      omega

/-- Tasks with the object of a running task are its ancestors or itself. -/
theorem same_key (hr : Ruled M sizes teams) {p q : Task} (hp : alive teams p = true) (hpn : teams p = none)
    (hq : alive teams q = true) (h : keyOf M q = keyOf M p) : q <+: p := by
  by_cases h0 : p = [] ∨ M = 0
  · rw [show keyOf M p = [] by rw [keyOf, if_pos h0]] at h
    exact ((key_nil_iff hr hp hpn hq).1 h).1
  · have h0' := h0
    push Not at h0'
    have hlen := List.length_pos_of_ne_nil h0'.1
    have hd : min p.length M - 1 < min p.length M := by omega
    have e : keyOf M p = 0 :: p.take (min p.length M - 1 + 1) := by
      rw [keyOf, if_neg h0]
      congr 1
      rw [show min p.length M - 1 + 1 = min M p.length by omega, ← List.take_take, List.take_length]
    rw [e] at h
    exact ((key_eq_iff hr hp hpn hq _ hd).1 h).1

/-- Nobody has an object strictly below the one of a running task. -/
theorem below_key {p q : Task} (hpn : teams p = none) (hq : alive teams q = true) (h : keyOf M p <+: keyOf M q) :
    keyOf M q = keyOf M p := by
  unfold keyOf at h ⊢
  by_cases h0 : p = [] ∨ M = 0
  · rw [if_pos h0] at h ⊢
    rcases h0 with rfl | rfl
    · have := running_leaf hpn hq List.nil_prefix
      rw [← this]
      simp
    · simp
  · rw [if_neg h0] at h ⊢
    split at h
    · simp at h
    · rename_i h1
      rw [if_neg h1]
      rw [List.cons_prefix_cons] at h
      have h := h.2
      by_cases hM : M ≤ p.length
      · have : (p.take M).length = (q.take M).length := by
          have := h.length_le
          simp only [List.length_take] at this ⊢
          omega
        rw [h.eq_of_length this]
      · have hp : p.take M = p := List.take_of_length_le (by omega)
        rw [hp] at h ⊢
        have := running_leaf hpn hq (h.trans (List.take_prefix _ _))
        rw [← this, hp]

end

/-! ### Lists of open contexts -/

theorem filter_eraseP (l : List (Task × T)) (p : Task) (f : Task → Key) (κ : Key) (hne : κ ≠ f p) :
    (l.eraseP (fun e => e.1 = p)).filter (fun e => f e.1 = κ) = l.filter (fun e => f e.1 = κ) := by
  induction l with
  | nil => rfl
  | cons e l ih =>
    rw [List.eraseP_cons]
    by_cases he : e.1 = p
    · have : ¬ f e.1 = κ := by rw [he]; exact fun h => hne h.symm
      rw [List.filter_cons_of_neg (by simpa using this)]
      simp [he]
    · simp only [he, decide_false, Bool.cond_false, List.filter_cons, ih]

theorem filter_eraseP_head (l : List (Task × T)) (p : Task) (f : Task → Key)
    (hord : l.Pairwise (fun a b => ¬ (a.1 <+: b.1 ∧ a.1 ≠ b.1))) (hkey : ∀ e ∈ l, f e.1 = f p → e.1 <+: p)
    (hmem : p ∈ l.map Prod.fst) :
    ∃ t rest, l.filter (fun e => f e.1 = f p) = (p, t) :: rest ∧
      (l.eraseP (fun e => e.1 = p)).filter (fun e => f e.1 = f p) = rest := by
  induction l with
  | nil => simp at hmem
  | cons e l ih =>
    obtain ⟨q, t⟩ := e
    by_cases he : q = p
    · subst he
      exact ⟨t, l.filter (fun e => f e.1 = f q), by simp, by simp⟩
    · have hmem' : p ∈ l.map Prod.fst := by
        simp only [List.map_cons, List.mem_cons] at hmem
        rcases hmem with h | h
        · exact absurd h.symm he
        · exact h
      have hq : ¬ f q = f p := by
        intro h
        have h1 := hkey (q, t) List.mem_cons_self h
        obtain ⟨e', he', hp⟩ := List.mem_map.1 hmem'
        refine (List.pairwise_cons.1 hord).1 e' he' ⟨?_, ?_⟩
        · rw [hp]; exact h1
        · rw [hp]; exact he
      obtain ⟨t', rest, h1, h2⟩ := ih (List.pairwise_cons.1 hord).2 (fun e he => hkey e (List.mem_cons_of_mem _ he)) hmem'
      refine ⟨t', rest, ?_, ?_⟩
      · simp only [List.filter_cons, hq, decide_false]
        simpa using h1
      · rw [List.eraseP_cons]
        simp only [he, decide_false, Bool.cond_false, List.filter_cons, hq]
        simpa using h2

/-! ### The invariant -/

section
variable {M : ℕ} {sizes : ℕ → ℕ}

/-- Every fork makes a team of the size of its level. -/
def Fair (M : ℕ) (sizes : ℕ → ℕ) : Ev T → Prop
  | .fork p n => n = region M sizes p.length
  | _ => True

/-- What holds after a history of fair events. -/
structure Inv (M : ℕ) (sizes : ℕ → ℕ) (s : St T) : Prop where
  nofault : s.faulted = false
  quiet : s.complained = false
  shape : Shape (depthSize M sizes) s.tree
  ruled : Ruled M sizes s.teams
  kept : ∀ κ, look s.tree κ = ((s.opened.filter (fun e => keyOf M e.1 = κ)).map Prod.snd).reverse
  live : ∀ e ∈ s.opened, alive s.teams e.1 = true
  order : s.opened.Pairwise (fun a b => ¬ (a.1 <+: b.1 ∧ a.1 ≠ b.1))

theorem inv_init : Inv M sizes (init : St T) where
  nofault := rfl
  quiet := rfl
  shape :=
    { root := by simp [init]
      size := by
        intro κ ts n h
        simp only [init] at h
        split at h
        · cases h; exact .inl rfl
        · cases h
      up := by intro κ k v h; simp [init] at h }
  ruled := by intro p n h; simp [init] at h
  kept := by
    intro κ
    simp only [init, look]
    split <;> simp
  live := by simp [init]
  order := by simp [init]

theorem running_iff {s : St T} {p : Task} : running s p = true ↔ alive s.teams p = true ∧ s.teams p = none := by
  simp [running]

theorem locked (h2 : ∀ d, d < M → 2 ≤ sizes d) {s : St T} (h : Inv M sizes s) {p : Task} (hp : alive s.teams p = true) :
    ∃ m', descend s.tree [] (lockPath s.teams p) = some (m', keyOf M p) ∧ Shape (depthSize M sizes) m' ∧ look m' = look s.tree ∧
      m' (keyOf M p) ≠ none := by
  obtain ⟨h3, h4⟩ := lockPath_alive h2 h.ruled hp
  have := descend_ok h.shape (κ := []) h.shape.root (l := lockPath s.teams p) (by simpa using h4)
  rw [h3] at this
  simpa using this

theorem other_filter {s : St T} (h : Inv M sizes s) {p : Task} (hpn : s.teams p = none) {x : Key} (hx : x ≠ keyOf M p)
    (hpre : keyOf M p <+: x) (l : List (Task × T)) (hl : ∀ e ∈ l, e ∈ s.opened) :
    l.filter (fun e => keyOf M e.1 = x) = [] := by
  rw [List.filter_eq_nil_iff]
  intro e he hk
  have hk : keyOf M e.1 = x := by simpa using hk
  have := below_key (M := M) hpn (h.live e (hl e he)) (by rw [hk]; exact hpre)
  exact hx (hk.symm.trans this)

theorem inv_push (h2 : ∀ d, d < M → 2 ≤ sizes d) {s : St T} (h : Inv M sizes s) {p : Task} (hp : alive s.teams p = true)
    (hpn : s.teams p = none) (t : T) : Inv M sizes (push s p t) := by
  obtain ⟨m', h3, h4, h5, h6⟩ := locked h2 h hp
  have e : push s p t =
      { s with tree := replaceAt m' (keyOf M p) (look m' (keyOf M p) ++ [t]), opened := (p, t) :: s.opened } := by
    rw [push, h3]
  rw [e]
  refine ⟨h.nofault, h.quiet, shape_replaceAt h4 h6 _, h.ruled, ?_, ?_, ?_⟩
  · intro x
    dsimp only
    rw [look_replaceAt, h5, List.filter_cons]
    by_cases hx : x = keyOf M p
    · subst hx
      rw [if_pos rfl, h.kept]
      simp
    · rw [if_neg hx]
      have hx' : ¬ keyOf M p = x := fun hh => hx hh.symm
      simp only [hx', decide_false]
      split
      · rename_i hpre
        rw [if_neg (by simp), other_filter h hpn hx hpre _ (fun e he => he)]
        rfl
      · rw [h.kept]; simp
  · intro e he
    rcases List.mem_cons.1 he with rfl | he
    · exact hp
    · exact h.live e he
  · refine List.pairwise_cons.2 ⟨?_, h.order⟩
    rintro b hb ⟨h7, h8⟩
    exact h8 (running_leaf hpn (h.live b hb) h7)

theorem inv_pop (h2 : ∀ d, d < M → 2 ≤ sizes d) {s : St T} (h : Inv M sizes s) {p : Task} (hp : alive s.teams p = true)
    (hpn : s.teams p = none) (hmem : p ∈ s.opened.map Prod.fst) : Inv M sizes (pop s p) := by
  obtain ⟨m', h3, h4, h5, h6⟩ := locked h2 h hp
  obtain ⟨t, rest, h7, h8⟩ := filter_eraseP_head s.opened p (keyOf M) h.order
    (fun e he hk => same_key h.ruled hp hpn (h.live e he) hk) hmem
  have hl : look m' (keyOf M p) = (rest.map Prod.snd).reverse ++ [t] := by
    rw [h5, h.kept, h7]; simp
  have e : pop s p =
      { s with tree := replaceAt m' (keyOf M p) (rest.map Prod.snd).reverse, opened := s.opened.eraseP (fun e => e.1 = p) } := by
    rw [pop, h3]
    dsimp only
    rw [hl, if_neg (by simp), List.dropLast_concat]
  rw [e]
  refine ⟨h.nofault, h.quiet, shape_replaceAt h4 h6 _, h.ruled, ?_, ?_, ?_⟩
  · intro x
    dsimp only
    rw [look_replaceAt, h5]
    by_cases hx : x = keyOf M p
    · subst hx
      rw [if_pos rfl, h8]
    · rw [if_neg hx]
      split
      · rename_i hpre
        rw [other_filter h hpn hx hpre _ (fun e he => List.mem_of_mem_eraseP he)]
        rfl
      · rw [h.kept, filter_eraseP _ _ _ _ hx]
  · intro e he
    exact h.live e (List.mem_of_mem_eraseP he)
  · exact h.order.sublist List.eraseP_sublist

theorem alive_fork {teams : Task → Option ℕ} {p q : Task} {n : ℕ} (hpn : teams p = none) (hq : alive teams q = true) :
    alive (Function.update teams p (some n)) q = true := by
  rw [alive_iff] at hq ⊢
  intro i k hk
  obtain ⟨m, h1, h2⟩ := hq i k hk
  refine ⟨m, ?_, h2⟩
  rw [Function.update_of_ne]
  · exact h1
  · intro hh
    rw [hh, hpn] at h1
    cases h1

theorem inv_fork {s : St T} (h : Inv M sizes s) {p : Task} (hp : alive s.teams p = true)
    (hpn : s.teams p = none) : Inv M sizes { s with teams := Function.update s.teams p (some (region M sizes p.length)) } := by
  refine ⟨h.nofault, h.quiet, h.shape, ?_, h.kept, fun e he => alive_fork hpn (h.live e he), h.order⟩
  intro q n hq
  dsimp only at hq ⊢
  by_cases hqp : q = p
  · subst hqp
    rw [Function.update_self] at hq
    cases hq
    exact ⟨alive_fork hpn hp, rfl⟩
  · rw [Function.update_of_ne hqp] at hq
    exact ⟨alive_fork hpn (h.ruled q n hq).1, (h.ruled q n hq).2⟩

theorem alive_join {teams : Task → Option ℕ} {p q : Task} (hq : alive teams q = true) (hno : ¬ ∃ k z, q = p ++ k :: z) :
    alive (Function.update teams p none) q = true := by
  rw [alive_iff] at hq ⊢
  intro i k hk
  obtain ⟨m, h1, h2⟩ := hq i k hk
  refine ⟨m, ?_, h2⟩
  rw [Function.update_of_ne]
  · exact h1
  · intro hh
    obtain ⟨hi, hk⟩ := List.getElem?_eq_some_iff.1 hk
    refine hno ⟨k, q.drop (i + 1), ?_⟩
    rw [← hh, ← hk, List.getElem_cons_drop, List.take_append_drop]

theorem inv_join {s : St T} (h : Inv M sizes s) {p : Task} {n : ℕ} (hn : s.teams p = some n)
    (hall : (List.range n).all (fun k => (s.teams (p ++ [k])).isNone && decide (p ++ [k] ∉ s.opened.map Prod.fst)) = true) :
    Inv M sizes { s with teams := Function.update s.teams p none } := by
  have hall' : ∀ k < n, s.teams (p ++ [k]) = none ∧ p ++ [k] ∉ s.opened.map Prod.fst := by
    intro k hk
    have := List.all_eq_true.1 hall k (List.mem_range.2 hk)
    rw [Bool.and_eq_true, decide_eq_true_eq, Option.isNone_iff_eq_none] at this
    exact this
  have below : ∀ k z, alive s.teams (p ++ k :: z) = true → z = [] ∧ k < n := by
    intro k z ha
    obtain ⟨n', h1, h2⟩ := alive_child ha
    rw [hn] at h1
    cases h1
    refine ⟨?_, h2⟩
    cases z with
    | nil => rfl
    | cons j z =>
      have : p ++ k :: j :: z = (p ++ [k]) ++ j :: z := by simp
      rw [this] at ha
      obtain ⟨n', h1, -⟩ := alive_child ha
      rw [(hall' k h2).1] at h1
      cases h1
  refine ⟨h.nofault, h.quiet, h.shape, ?_, h.kept, ?_, h.order⟩
  · intro q j hq
    dsimp only at hq ⊢
    have hqp : q ≠ p := by
      rintro rfl
      rw [Function.update_self] at hq
      cases hq
    rw [Function.update_of_ne hqp] at hq
    obtain ⟨h1, h2⟩ := h.ruled q j hq
    refine ⟨alive_join h1 ?_, h2⟩
    rintro ⟨k, z, rfl⟩
    obtain ⟨rfl, hk⟩ := below k z h1
    rw [(hall' k hk).1] at hq
    cases hq
  · intro e he
    refine alive_join (h.live e he) ?_
    rintro ⟨k, z, hz⟩
    obtain ⟨rfl, hk⟩ := below k z (by rw [← hz]; exact h.live e he)
    exact (hall' k hk).2 (List.mem_map.2 ⟨e, he, hz⟩)

theorem inv_step (h2 : ∀ d, d < M → 2 ≤ sizes d) {s s' : St T} (h : Inv M sizes s) {e : Ev T} (hf : Fair M sizes e)
    (hs : step s e = some s') : Inv M sizes s' := by
  cases e with
  | push p t =>
    simp only [step] at hs
    split at hs
    · rename_i hc
      cases hs
      obtain ⟨h3, h4⟩ := running_iff.1 hc.2
      exact inv_push h2 h h3 h4 t
    · cases hs
  | pop p =>
    simp only [step] at hs
    split at hs
    · rename_i hc
      cases hs
      obtain ⟨h3, h4⟩ := running_iff.1 hc.2.1
      exact inv_pop h2 h h3 h4 hc.2.2
    · cases hs
  | fork p n =>
    simp only [step] at hs
    split at hs
    · rename_i hc
      cases hs
      obtain ⟨h3, h4⟩ := running_iff.1 hc.2.1
      simp only [Fair] at hf
      subst hf
      exact inv_fork h h3 h4
    · cases hs
  | join p =>
    simp only [step] at hs
    split at hs
    · cases hs
    · rename_i n hn
      split at hs
      · rename_i hc
        cases hs
        exact inv_join h hn hc.2.2
      · cases hs

theorem inv_exec (h2 : ∀ d, d < M → 2 ≤ sizes d) {es : List (Ev T)} {s s' : St T} (h : Inv M sizes s)
    (hf : ∀ e ∈ es, Fair M sizes e) (hs : exec s es = some s') : Inv M sizes s' := by
  induction es generalizing s with
  | nil => cases hs; exact h
  | cons e es ih =>
    rw [exec] at hs
    obtain ⟨s₁, h1, h3⟩ := Option.bind_eq_some_iff.1 hs
    exact ih (inv_step h2 h (hf e List.mem_cons_self) h1) (fun e he => hf e (List.mem_cons_of_mem _ he)) h3

/-- What `GetText` finds. -/
theorem getText_inv (h2 : ∀ d, d < M → 2 ≤ sizes d) {s : St T} (h : Inv M sizes s) {p : Task} (hp : alive s.teams p = true)
    (hpn : s.teams p = none) :
    getText s p = some
      ((((s.opened.filter (fun e => e.1 <+: p ∧ activeLevel s.teams e.1 = 0)).map Prod.snd).reverse.map fun t => (t, 1)) ++
        (List.range (activeLevel s.teams p)).flatMap fun d =>
          ((s.opened.filter (fun e => e.1 <+: p ∧ activeLevel s.teams e.1 = d + 1)).map Prod.snd).reverse.map fun t => (t, d + 3)) := by
  have hact := active_alive h2 h.ruled hp
  obtain ⟨h3, h4⟩ := take_levels h.ruled hp
  unfold getText
  rw [hact, gather_ok h.shape h.shape.root (by simpa using h4), h3, Option.map_some, texts, texts_flatMap]
  have h0 : look s.tree ([] ++ [0]) = [] := by
    rw [h.kept, List.filter_eq_nil_iff.2]
    · rfl
    · intro e he hk
      have hk : keyOf M e.1 = [0] := by simpa using hk
      unfold keyOf at hk
      split at hk
      · cases hk
      · rename_i hne
        simp only [List.cons.injEq, List.take_eq_nil_iff, true_and] at hk
        tauto
  rw [h0]
  congr 2
  · rw [h.kept]
    congr 3
    refine List.filter_congr fun e he => ?_
    rw [decide_eq_decide, active_alive h2 h.ruled (h.live e he)]
    exact key_nil_iff h.ruled hp hpn (h.live e he)
  · rw [List.length_take, min_comm, List.map_nil, List.nil_append]
    refine List.flatMap_congr fun d hd => ?_
    have hd := List.mem_range.1 hd
    rw [h.kept, List.take_take]
    have e1 : ([] ++ [0] ++ p.take (min (d + 1) M) : Key) = 0 :: p.take (d + 1) := by
      rw [min_eq_left (by omega)]; rfl
    have e2 : (fun t : T => (t, 2 + 1 + d)) = fun t => (t, d + 3) := by
      funext t
      rw [show 2 + 1 + d = d + 3 by ring]
    rw [e1, e2]
    congr 3
    refine List.filter_congr fun e he => ?_
    rw [decide_eq_decide, active_alive h2 h.ruled (h.live e he)]
    exact key_eq_iff h.ruled hp hpn (h.live e he) d hd

end

end Slat.Context
