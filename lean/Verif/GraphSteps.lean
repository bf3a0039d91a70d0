import Verif.GraphInv

/-! The invariant of careful histories is preserved by every operation. -/

namespace Slat.Graph

variable {V L X Y : Type}

/-- The full invariant, relating a state of the code to the specification's state. -/
structure Inv (C : Calc V L X Y) (w : World V L X Y) (a : AWorld V L) : Prop where
  s : SInv w
  coh : Coh C w.heap
  heap : abs w.heap = a.heap
  next : w.next = a.next

theorem inv_init (C : Calc V L X Y) : Inv C (init V L X Y) (aInit V L) := by
  refine ⟨⟨?_, ?_, ?_, ?_, ?_, ?_, ?_, rfl, ?_⟩, ?_, ?_, rfl⟩
  · intro n o h; simp [init] at h
  · intro n o s m h; simp [init] at h
  · intro n o k m h; simp [init] at h
  · intro n o k h; simp [init] at h
  · intro n o s t h; simp [init] at h
  · intro t id n s h; simp [init, Replaceable.RObj.new] at h
  · intro t; simp [init, Replaceable.RObj.new, Replaceable.SortedKeys]
  · intro n o c x y h; simp [init] at h
  · intro n o h; simp [init] at h
  · funext n; simp [abs, init, aInit]

theorem kindAt_some {w : World V L X Y} {n : ℕ} {k : Kind} (h : kindAt w n = some k) :
    ∃ o, w.heap n = some o ∧ o.kind = k := by
  simp only [kindAt, Option.map_eq_some_iff] at h
  exact h

/-! ### Construction -/

theorem kindAt_register (w : World V L X Y) (n : ℕ) (s : Slot) (t m : ℕ) :
    kindAt (register w n s t) m = kindAt w m := by
  by_cases h : m = n
  · subst h
    cases ho : w.heap m with
    | none => simp [kindAt, register, ho]
    | some o => simp [kindAt, register_heap_self w m s t o ho, ho]
  · simp [kindAt, register_heap_ne w n s t m h]

theorem register_all : ∀ (ds : List (Slot × ℕ)) (w : World V L X Y) (n : ℕ) (o : Obj V L X Y), SInv w →
    w.heap n = some o → (ds.map Prod.fst).Nodup →
    (∀ d ∈ ds, o.slots d.1 = none ∧ d.1.owner = o.kind ∧ kindAt w d.2 = some d.1.target ∧ RoomAt w d.2 ∧
      ∀ k, d.1 ≠ .entry k) →
    let w' := ds.foldl (fun w d => register w n d.1 d.2) w
    SInv w' ∧ w'.next = w.next ∧ (∀ m, m ≠ n → w'.heap m = w.heap m) ∧ ∃ q, w'.heap n = some q ∧
      q.kind = o.kind ∧ q.content = o.content ∧ q.dist₁ = o.dist₁ ∧ q.dist₂ = o.dist₂ ∧
      q.entries = o.entries ∧ q.cache = o.cache ∧ ∀ s, q.slots s = (ds.lookup s).or (o.slots s)
  | [], w, n, o, hw, ho, _, _ => ⟨hw, rfl, fun _ _ => rfl, o, ho, rfl, rfl, rfl, rfl, rfl, rfl, by simp⟩
  | d :: ds, w, n, o, hw, ho, hnd, hd => by
    obtain ⟨s₁, t⟩ := d
    obtain ⟨hfree, hown, hkind, hroom, hent⟩ := hd (s₁, t) (by simp)
    simp only at hfree hown hkind hroom hent
    obtain ⟨p, hp, hkp⟩ := kindAt_some hkind
    have hw1 := hw.register ho hfree hown hp hkp hroom (fun k e => absurd e (hent k))
    have hself := register_heap_self w n s₁ t o ho
    simp only [List.map_cons, List.nodup_cons, List.mem_map] at hnd
    have hrest := register_all ds (register w n s₁ t) n _ hw1 hself hnd.2 (by
      intro d hdm
      obtain ⟨a, b, c, r, e⟩ := hd d (by simp [hdm])
      have hne : d.1 ≠ s₁ := fun h => hnd.1 ⟨d, hdm, h⟩
      refine ⟨by simp [hne, a], b, by rw [kindAt_register]; exact c, register_room w n s₁ t d.2 hroom r, e⟩)
    obtain ⟨h1, h2, h3, q, hq, k, co, d1, d2, en, ca, sl⟩ := hrest
    refine ⟨h1, h2.trans (register_next w n s₁ t),
      fun m hm => (h3 m hm).trans (register_heap_ne w n s₁ t m hm), q, hq, k, co, d1, d2, en, ca, ?_⟩
    intro s
    rw [sl s]
    simp only [List.lookup_cons]
    by_cases h : s = s₁
    · subst h
      have hnone : ds.lookup s = none := by
        rw [List.lookup_eq_none_iff]
        intro d hdm
        have : d.1 ≠ s := fun h => hnd.1 ⟨d, hdm, h⟩
        simpa using fun e => this e.symm
      simp [hnone]
    · have : (s == s₁) = false := by simpa using h
      simp [this, h]

theorem ctor_facts {k : Kind} {ds : List (Slot × ℕ)} (h : CtorDeps k ds) :
    (ds.map Prod.fst).Nodup ∧ ∀ d ∈ ds, d.1.owner = k ∧ ∀ e, d.1 ≠ .entry e := by
  cases h with
  | cg e f c d =>
    cases c <;> cases d <;> simp [Slot.owner]
  | _ => simp [Slot.owner]

/-- Changes that do not touch EDPs, groups or anything below them keep stored values right. -/
theorem coh_frame {C : Calc V L X Y} {w w' : World V L X Y} (hw : SInv w) (hw' : SInv w')
    (H : ∀ n q, w'.heap n = some q → q.kind ≠ .str → (∀ c x, q.cache c x = none) ∧ w.heap n = none ∨
      ∃ p, w.heap n = some p ∧ q.toSkel = p.toSkel ∧ ∀ c x, q.cache c x = none ∨ q.cache c x = p.cache c x)
    (hkind : ∀ n p q, w.heap n = some p → w'.heap n = some q → q.kind = p.kind)
    (hcoh : Coh C w.heap) : Coh C w'.heap := by
  have hstr : ∀ k : Kind, level k ≤ 3 → k ≠ .str := by
    intro k hk e; subst e; simp [level] at hk
  refine coh_step (cbs := w'.cbs) hw.wf ?_ hw'.reg' ?_ (fun n q c x y => hw'.cown n q c x y) ?_ hcoh
  · intro n p q s m hp hl hq hs
    have hk := hkind n p q hp hq
    rcases H n q hq (by rw [hk]; exact hstr _ hl) with ⟨_, hnone⟩ | ⟨p', hp', hsk, _⟩
    · rw [hp] at hnone; cases hnone
    · rw [hp] at hp'; cases hp'
      obtain ⟨_, pm, hpm, _⟩ := hw'.wf n q s m hq (by rw [hsk]; exact hs)
      simp [hpm]
  · intro n p q hp hq hl
    have hk := hkind n p q hp hq
    rcases H n q hq (by rw [hk]; exact hstr _ (by omega)) with ⟨_, hnone⟩ | ⟨p', hp', hsk, _⟩
    · rw [hp] at hnone; cases hnone
    · rw [hp] at hp'; cases hp'; exact Or.inl hsk
  · intro n q hq hk
    rcases H n q hq (by rcases hk with e | e <;> rw [e] <;> simp) with ⟨he, _⟩ | ⟨p, hp, hsk, hca⟩
    · exact Or.inl he
    · exact Or.inr ⟨p, hp, by rw [hsk], by rw [hsk], by rw [hsk], by rw [hsk], by rw [hsk], hca,
        fun s => Or.inl (by rw [hsk])⟩

theorem SInv.alloc {w : World V L X Y} (hw : SInv w) (o : Obj V L X Y) (hs : ∀ s, o.slots s = none)
    (he : o.entries = []) (hc : ∀ c x, o.cache c x = none) :
    SInv { w.set w.next o with next := w.next + 1 } := by
  have hnew : w.heap w.next = none := by
    cases h : w.heap w.next with
    | none => rfl
    | some p => exact absurd (hw.lt _ p h) (by omega)
  have hself : (Function.update w.heap w.next (some o)) w.next = some o := by simp
  have hne : ∀ m, m ≠ w.next → (Function.update w.heap w.next (some o)) m = w.heap m := by
    intro m hm; simp [hm]
  constructor
  · intro n q hq
    by_cases hn : n = w.next
    · subst hn; simp
    · simp only [World.set, hne n hn] at hq
      have := hw.lt n q hq
      simp only; omega
  · intro n q s m hq hsl
    by_cases hn : n = w.next
    · subst hn; simp only [World.set, hself] at hq; cases hq; rw [hs] at hsl; cases hsl
    · simp only [World.set, hne n hn] at hq
      obtain ⟨a, p, hp, hk⟩ := hw.wf n q s m hq hsl
      have : m ≠ w.next := by rintro rfl; rw [hnew] at hp; cases hp
      exact ⟨a, p, by simp only [World.set, hne m this]; exact hp, hk⟩
  · intro n q k m hq hsl
    by_cases hn : n = w.next
    · subst hn; simp only [World.set, hself] at hq; cases hq; rw [hs] at hsl; cases hsl
    · simp only [World.set, hne n hn] at hq
      have := hw.entryLt n q k m hq hsl
      simp only; omega
  · intro n q k hq hk
    by_cases hn : n = w.next
    · subst hn; simp only [World.set, hself] at hq; cases hq; rw [he] at hk; cases hk
    · simp only [World.set, hne n hn] at hq
      exact hw.entrySlot n q k hq hk
  · intro n q s t hq hsl
    by_cases hn : n = w.next
    · subst hn; simp only [World.set, hself] at hq; cases hq; rw [hs] at hsl; cases hsl
    · simp only [World.set, hne n hn] at hq
      exact hw.reg n q s t hq hsl
  · intro t id n s h
    obtain ⟨q, hq, r⟩ := hw.own t id n s h
    have : n ≠ w.next := by rintro rfl; rw [hnew] at hq; cases hq
    exact ⟨q, by simp only [World.set, hne n this]; exact hq, r⟩
  · exact hw.keys
  · exact hw.ub
  · intro n q c x y hq hy
    by_cases hn : n = w.next
    · subst hn; simp only [World.set, hself] at hq; cases hq; rw [hc] at hy; cases hy
    · simp only [World.set, hne n hn] at hq
      exact hw.cown n q c x y hq hy

theorem skel_ext {p q : Skel V L} (h1 : q.kind = p.kind) (h2 : q.content = p.content)
    (h3 : ∀ s, q.slots s = p.slots s) (h4 : q.dist₁ = p.dist₁) (h5 : q.dist₂ = p.dist₂)
    (h6 : q.entries = p.entries) : q = p := by
  cases p; cases q
  simp only at h1 h2 h3 h4 h5 h6
  subst h1 h2 h4 h5 h6
  congr
  funext s; exact h3 s

theorem inv_new {C : Calc V L X Y} {w : World V L X Y} {a : AWorld V L} (hi : Inv C w a) (k : Kind) (v : V)
    (ds : List (Slot × ℕ)) (hg : Good w (.new k v ds)) :
    Inv C (step C w (.new k v ds)) (aStep a (.new k v ds : Op V L X)) := by
  obtain ⟨⟨hctor, hkinds⟩, hroom⟩ := hg
  obtain ⟨hnd, hfacts⟩ := ctor_facts hctor
  have hw := hi.s
  have hnew : w.heap w.next = none := by
    cases h : w.heap w.next with
    | none => rfl
    | some p => exact absurd (hw.lt _ p h) (by omega)
  obtain ⟨o, ho⟩ : ∃ o : Obj V L X Y, o = ⟨⟨k, v, fun _ => none, none, none, []⟩, fun _ => 0, fun _ _ => none⟩ :=
    ⟨_, rfl⟩
  have halloc : SInv { w.set w.next o with next := w.next + 1 } :=
    hw.alloc o (by rw [ho]; simp) (by rw [ho]) (by rw [ho]; simp)
  have hself : ({ w.set w.next o with next := w.next + 1 } : World V L X Y).heap w.next = some o := by
    simp [World.set]
  have hall := register_all ds { w.set w.next o with next := w.next + 1 } w.next o halloc hself hnd (by
    intro d hd
    refine ⟨by rw [ho], by rw [ho]; exact (hfacts d hd).1, ?_, hroom d hd, (hfacts d hd).2⟩
    obtain ⟨p, hp, hkp⟩ := kindAt_some (hkinds d hd)
    have : d.2 ≠ w.next := by intro e; rw [e, hnew] at hp; cases hp
    simp [kindAt, World.set, this, hp, hkp])
  have hstep : step C w (.new k v ds) =
      ds.foldl (fun w' d => register w' w.next d.1 d.2) { w.set w.next o with next := w.next + 1 } := by
    rw [ho]; rfl
  rw [hstep]
  obtain ⟨w', hw'⟩ : ∃ w', w' = ds.foldl (fun w' d => register w' w.next d.1 d.2)
    { w.set w.next o with next := w.next + 1 } := ⟨_, rfl⟩
  rw [← hw'] at hall ⊢
  obtain ⟨h1, h2, h3, q, hq, qk, qc, qd1, qd2, qe, qca, qs⟩ := hall
  have hold : ∀ m, m ≠ w.next → w'.heap m = w.heap m := by
    intro m hm; rw [h3 m hm]; simp [World.set, hm]
  refine ⟨h1, ?_, ?_, ?_⟩
  · refine coh_frame hw h1 ?_ ?_ hi.coh
    · intro n q' hq' _
      by_cases hn : n = w.next
      · left
        subst hn
        rw [hq] at hq'; cases hq'
        exact ⟨by intro c x; rw [qca, ho], hnew⟩
      · right
        rw [hold n hn] at hq'
        exact ⟨q', hq', rfl, fun _ _ => Or.inr rfl⟩
    · intro n p q' hp hq'
      have hn : n ≠ w.next := by rintro rfl; rw [hnew] at hp; cases hp
      rw [hold n hn, hp] at hq'; cases hq'; rfl
  · funext m
    simp only [aStep, ← hi.next]
    by_cases hm : m = w.next
    · subst hm
      simp only [abs, hq, Option.map_some, Function.update_self, Option.some.injEq]
      apply skel_ext
      · rw [qk, ho]; rfl
      · rw [qc, ho]; rfl
      · intro s; rw [qs s, ho]; simp [built]
      · rw [qd1, ho]; rfl
      · rw [qd2, ho]; rfl
      · rw [qe, ho]; rfl
    · rw [Function.update_of_ne hm, ← hi.heap]
      simp only [abs, hold m hm]
  · rw [h2]; simp [aStep, hi.next]

end Slat.Graph
