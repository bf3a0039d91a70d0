import Verif.GraphReplace

/-! Helper lemmas for the object graph: when cached values stay right. -/

namespace Slat.Graph

variable {V L X Y : Type}

/-- Members that the value of a cache depends on, directly or through caches of the same object. -/
def deps : CacheId → List Slot
  | .collapseRate => [.f]
  | .demolitionRate => [.f]
  | .lambda => [.base, .first, .second]
  | .eCost => [.edp, .frag, .cost]
  | .sdCost => [.edp, .frag, .cost]
  | .eDelay => [.edp, .frag, .delay]
  | .sdDelay => [.edp, .frag, .delay]
  | .eAnnual => [.edp, .frag, .cost]
  | .lambdaCost => [.edp, .frag, .cost]
  | .costDist => [.frag, .cost]
  | .delayDist => [.frag, .delay]
  | .rate => [.edp, .frag]
  | .annualCost => [.sim]

theorem uses_deps : ∀ (c : CacheId) (s : Slot), s ∈ uses c → s ∈ deps c := by
  intro c s; cases c <;> simp [uses, deps] <;> tauto

theorem own_deps : ∀ (c c' : CacheId) (s : Slot), c' ∈ ownReads c → s ∈ deps c' → s ∈ deps c := by
  intro c c' s h; cases c <;> simp [ownReads] at h <;> (try rcases h with rfl | rfl) <;>
    (try subst h) <;> simp [deps] <;> tauto

theorem own_owner : ∀ c c' : CacheId, c' ∈ ownReads c → c'.owner = c.owner := by
  intro c c' h; cases c <;> simp [ownReads] at h <;> (try rcases h with rfl | rfl) <;>
    (try subst h) <;> rfl

/-- A cache of an EDP or a component group. -/
def EdpOrCg (k : Kind) : Prop := k = .edp ∨ k = .cg

theorem no_sub {c : CacheId} (hc : EdpOrCg c.owner) : subReads c = [] := by
  cases c <;> simp [EdpOrCg, CacheId.owner, subReads] at hc ⊢

theorem change_clears {c : CacheId} (hc : EdpOrCg c.owner) {s : Slot} (hs : s ∈ deps c) :
    c ∈ (onChange s).clears := by
  cases c <;> simp [EdpOrCg, CacheId.owner, deps] at hc hs <;> (try rcases hs with rfl | rfl | rfl) <;>
    (try rcases hs with rfl | rfl) <;> simp [onChange, nine]

theorem replace_clears {c : CacheId} (hc : EdpOrCg c.owner) {s : Slot} (hs : s ∈ deps c) :
    c ∈ (onReplace s).clears := by
  cases c <;> simp [EdpOrCg, CacheId.owner, deps] at hc hs <;> (try rcases hs with rfl | rfl | rfl) <;>
    (try rcases hs with rfl | rfl) <;> simp [onReplace, nine]

/-- The calculated value depends only on the members in `deps`. -/
theorem fresh_congr (C : Calc V L X Y) (c : CacheId) (hc : EdpOrCg c.owner) (v : V) (d₁ d₂ : Option L)
    (es es' : List ℕ) (hes : es = es') (ch ch' : Slot → Tree V L) (h : ∀ s ∈ deps c, ch s = ch' s) (x : X) :
    fresh C (.node v d₁ d₂ es ch) c x = fresh C (.node v d₁ d₂ es' ch') c x := by
  subst hes
  rw [fresh, fresh]
  congr 1
  · simp only [mask, Tree.node.injEq, true_and]
    funext s
    by_cases hs : s ∈ uses c
    · simp only [hs, if_true]; exact h s (uses_deps c s hs)
    · simp only [hs, if_false]
  · funext c' hc' x'
    exact fresh_congr C c' (by rw [own_owner c c' hc']; exact hc) v d₁ d₂ es es rfl ch ch'
      (fun s hs => h s (own_deps c c' s hc' hs)) x'
  · funext k c' hc' x'
    rw [no_sub hc] at hc'
    exact absurd hc' (by simp)
termination_by rank c
decreasing_by exact rank_own c c' hc'

/-- Every stored value of an EDP or a component group is the one calculated from scratch. -/
def Coh (C : Calc V L X Y) (h : ℕ → Option (Obj V L X Y)) : Prop :=
  ∀ n o, h n = some o → EdpOrCg o.kind → ∀ c x y, o.cache c x = some y →
    y = fresh C (tree (abs h) n) c x

theorem view_eq_fresh {C : Calc V L X Y} {h : ℕ → Option (Obj V L X Y)} (hcoh : Coh C h) (n : ℕ)
    (o : Obj V L X Y) (ho : h n = some o) (c : CacheId) (hk : c.owner = o.kind) (hc : EdpOrCg c.owner)
    (x : X) : view C h n c x = fresh C (tree (abs h) n) c x := by
  rw [view]
  cases hca : cacheAt h n c x with
  | some y =>
    simp only [cacheAt, ho, Option.bind_some] at hca
    exact hcoh n o ho (by rw [← hk]; exact hc) c x y hca
  | none =>
    rw [fresh]
    simp only
    congr 1
    · funext c' hc' x'
      exact view_eq_fresh hcoh n o ho c' (by rw [own_owner c c' hc']; exact hk)
        (by rw [own_owner c c' hc']; exact hc) x'
    · funext k c' hc' x'
      rw [no_sub hc] at hc'
      exact absurd hc' (by simp)
termination_by rank c
decreasing_by exact rank_own c c' hc'

/-- Height of a class in the reference graph. -/
def level : Kind → ℕ
  | .det => 0 | .frag => 0 | .loss => 0 | .prob => 1 | .im => 1 | .edp => 2 | .cg => 3 | .str => 4

/-- Members refer to lower classes. -/
def WF (h : ℕ → Option (Obj V L X Y)) : Prop :=
  ∀ n o s m, h n = some o → o.slots s = some m →
    s.owner = o.kind ∧ ∃ p, h m = some p ∧ p.kind = s.target

theorem level_slot (s : Slot) : level s.target < level s.owner := by
  cases s <;> simp [Slot.target, Slot.owner, level]

theorem notifies_of_low (s : Slot) (h : level s.owner ≤ 2) : (onChange s).notifies = true := by
  cases s <;> simp [Slot.owner, level] at h <;> rfl

theorem treeOf_succ_some {A : ℕ → Option (Skel V L)} {k n : ℕ} {o : Skel V L} (h : A n = some o) :
    treeOf A (k + 1) n = .node o.content o.dist₁ o.dist₂ o.entries fun s =>
      match o.slots s with
      | Option.none => .none
      | some m => treeOf A k m := by
  rw [treeOf, h]
  rfl

/-- Below the component groups: an object's tree is unchanged, or its clients have been told. -/
theorem same_or_notified {h h' : ℕ → Option (Obj V L X Y)} {cbs : Replaceable.World Client}
    (wf : WF h)
    (live : ∀ n p q s m, h n = some p → level p.kind ≤ 3 → h' n = some q → p.slots s = some m →
      (h' m).isSome)
    (reg : ∀ n q s t, h' n = some q → q.slots s = some t → ∃ id, (id, (⟨n, s⟩ : Client)) ∈ (cbs t).callbacks)
    (H : ∀ n p q, h n = some p → h' n = some q → level p.kind ≤ 2 →
      q.toSkel = p.toSkel ∨ Notified cbs h' depth n) :
    ∀ (l n : ℕ) p q, h n = some p → h' n = some q → level p.kind ≤ 2 → level p.kind = l →
      (∀ k, treeOf (abs h') k n = treeOf (abs h) k n) ∨ Notified cbs h' (depth - l) n := by
  intro l
  induction l using Nat.strong_induction_on with
  | _ l ih =>
    intro n p q hp hq hlow hl
    rcases H n p q hp hq hlow with hsk | hnot
    · by_cases hall : ∀ s m, p.slots s = some m → ∀ k, treeOf (abs h') k m = treeOf (abs h) k m
      · left
        intro k
        cases k with
        | zero => rfl
        | succ k =>
          have e₁ : abs h n = some p.toSkel := by simp [abs, hp]
          have e₂ : abs h' n = some p.toSkel := by simp [abs, hq, hsk]
          rw [treeOf_succ_some e₁, treeOf_succ_some e₂]
          congr 1
          funext s
          cases hs : p.slots s with
          | none => rfl
          | some m => exact hall s m hs k
      · right
        push Not at hall
        obtain ⟨s, m, hs, hbad⟩ := hall
        obtain ⟨hown, pm, hpm, hkm⟩ := wf n p s m hp hs
        obtain ⟨qm, hqm⟩ := Option.isSome_iff_exists.1 (live n p q s m hp (by omega) hq hs)
        have hlt : level pm.kind < l := by
          rw [hkm, ← hl, ← hown]; exact level_slot s
        rcases ih (level pm.kind) hlt m pm qm hpm hqm (by omega) rfl with hsame | hnm
        · obtain ⟨k, hk⟩ := hbad
          exact absurd (hsame k) hk
        · have hqs : q.slots s = some m := by rw [hsk]; exact hs
          obtain ⟨id, hid⟩ := reg n q s m hq hqs
          have hj : depth - level pm.kind = (depth - level pm.kind - 1) + 1 := by
            simp only [depth]; omega
          rw [hj] at hnm
          have := (hnm id ⟨n, s⟩ hid).2 (notifies_of_low s (by rw [hown]; exact hlow))
          exact this.le (by omega)
    · right; exact hnot.le (by omega)

/-- Values stored by EDPs and component groups stay right across a change after which the clients of every
changed object have been told. -/
theorem coh_step {C : Calc V L X Y} {h h' : ℕ → Option (Obj V L X Y)} {cbs : Replaceable.World Client}
    (wf : WF h)
    (live : ∀ n p q s m, h n = some p → level p.kind ≤ 3 → h' n = some q → p.slots s = some m →
      (h' m).isSome)
    (reg : ∀ n q s t, h' n = some q → q.slots s = some t → ∃ id, (id, (⟨n, s⟩ : Client)) ∈ (cbs t).callbacks)
    (H : ∀ n p q, h n = some p → h' n = some q → level p.kind ≤ 2 →
      q.toSkel = p.toSkel ∨ Notified cbs h' depth n)
    (cown : ∀ n q c x y, h' n = some q → q.cache c x = some y → c.owner = q.kind)
    (H' : ∀ n q, h' n = some q → EdpOrCg q.kind → (∀ c x, q.cache c x = none) ∨ ∃ p, h n = some p ∧
      p.kind = q.kind ∧ q.content = p.content ∧ q.dist₁ = p.dist₁ ∧ q.dist₂ = p.dist₂ ∧
      q.entries = p.entries ∧ (∀ c x, q.cache c x = none ∨ q.cache c x = p.cache c x) ∧
      ∀ s, q.slots s = p.slots s ∨ ∀ c, EdpOrCg c.owner → s ∈ deps c → Cleared h' n c)
    (hcoh : Coh C h) : Coh C h' := by
  intro n q hq hk c x y hy
  rcases H' n q hq hk with hempty | ⟨p, hp, hkp, hco, hd1, hd2, hen, hca, hsl⟩
  · rw [hempty c x] at hy; cases hy
  · have hown : EdpOrCg c.owner := by rw [cown n q c x y hq hy]; exact hk
    have hpy : p.cache c x = some y := by
      rcases hca c x with e | e
      · rw [e] at hy; cases hy
      · rw [← e]; exact hy
    have hold := hcoh n p hp (by rw [hkp]; exact hk) c x y hpy
    rw [hold]
    have e₁ : abs h n = some p.toSkel := by simp [abs, hp]
    have e₂ : abs h' n = some q.toSkel := by simp [abs, hq]
    have hnotclr : ¬ Cleared h' n c := by
      intro hc
      have := hc x
      simp [cacheAt, hq, hy] at this
    simp only [tree]
    rw [treeOf_succ_some e₁, treeOf_succ_some e₂, hco, hd1, hd2]
    refine fresh_congr C c hown _ _ _ _ _ hen.symm _ _ ?_ x
    intro s hs
    rcases hsl s with hss | hclr
    · rw [hss]
      cases hps : p.slots s with
      | none => rfl
      | some m =>
        simp only
        obtain ⟨hso, pm, hpm, hkm⟩ := wf n p s m hp hps
        have hlev : level pm.kind < level p.kind := by
          rw [hkm, ← hso]; exact level_slot s
        have hlev2 : level p.kind ≤ 3 := by
          rw [hkp]; rcases hk with e | e <;> rw [e] <;> simp [level]
        obtain ⟨qm, hqm⟩ := Option.isSome_iff_exists.1 (live n p q s m hp hlev2 hq hps)
        rcases same_or_notified wf live reg H (level pm.kind) m pm qm hpm hqm (by omega) rfl with hsame | hnm
        · exact (hsame 5).symm
        · exfalso
          have hqs : q.slots s = some m := by rw [hss, hps]
          obtain ⟨id, hid⟩ := reg n q s m hq hqs
          have hj : depth - level pm.kind = (depth - level pm.kind - 1) + 1 := by
            simp only [depth]; omega
          rw [hj] at hnm
          exact hnotclr ((hnm id ⟨n, s⟩ hid).1 c (change_clears hown hs))
    · exact absurd (hclr c hown hs) hnotclr

end Slat.Graph
