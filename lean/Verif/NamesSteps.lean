import Verif.NamesLemmas

/-! The link between state and sheet is kept by every tidy command (C69). -/

namespace Slat.Names

open Slat.Graph

variable {V L X Y : Type}

/-- An operation used with care keeps the invariant, and does to the objects what the specification says. -/
theorem inv_good {C : Calc V L X Y} {w : World V L X Y} (hi : Inv C w ⟨Graph.abs w.heap, w.next⟩) {op : Op V L X}
    (hg : Good w op) :
    Inv C (step C w op) ⟨Graph.abs (step C w op).heap, (step C w op).next⟩ ∧
      Graph.abs (step C w op).heap = (aStep ⟨Graph.abs w.heap, w.next⟩ op).heap ∧
      (step C w op).next = (aStep ⟨Graph.abs w.heap, w.next⟩ op).next :=
  have h := inv_step hi op hg
  ⟨⟨h.s, h.coh, rfl, rfl⟩, h.heap, h.next⟩

theorem registers_cbs_ne (n t : ℕ) : ∀ (ds : List (Slot × ℕ)) (w : World V L X Y), (∀ d ∈ ds, d.2 ≠ t) →
    (ds.foldl (fun w d => register w n d.1 d.2) w).cbs t = w.cbs t
  | [], _, _ => rfl
  | d :: ds, w, hd => by
    rw [List.foldl_cons, registers_cbs_ne n t ds _ (fun e he => hd e (by simp [he])),
      register_cbs_ne w n d.1 d.2 t (Ne.symm (hd d (by simp)))]

theorem kindAt_abs {w : World V L X Y} {n : ℕ} {o : Skel V L} (h : Graph.abs w.heap n = some o) : kindAt w n = some o.kind := by
  simp only [Graph.abs] at h
  cases hw : w.heap n with
  | none => simp [hw] at h
  | some q =>
    simp only [hw, Option.map_some, Option.some.injEq] at h
    simp [kindAt, hw, ← h]

theorem Form.kind_ne_str (f : Form V) : f.kind ≠ .str := by cases f <;> simp [Form.kind]

/-- The new object for an old one. -/
def moved (old : Option ℕ) (n m : ℕ) : ℕ := if some m = old then n else m

theorem redirect_moved (old n : ℕ) (k : Skel V L) :
    redirect old n k = { k with slots := fun s => (k.slots s).map (moved (some old) n) } := by
  simp only [redirect]
  congr 1
  funext s
  cases h : k.slots s with
  | none => simp
  | some m =>
    simp only [Option.map_some, moved, Option.some.injEq]
    split <;> rfl

/-- The effect of a definition. -/
theorem define_effect {C : Calc V L X Y} {st : Py V L X Y} {S : Sheet V L} (h : Link C st S) (id : Name) (f : Form V)
    (ht : Tidy S (.define id f : Cmd V L X)) {deps : List (Slot × ℕ)} (hr : resolve st f.args = some deps) {w' : World V L X Y}
    (hw' : w' = (define C st id f).1.world) :
    Inv C w' ⟨Graph.abs w'.heap, w'.next⟩ ∧
    (∀ m, Graph.abs w'.heap m = if m = st.world.next then
        some ⟨f.kind, f.content, fun s => (deps.lookup s).map (moved (st.defs f.kind id) st.world.next), none, none, []⟩
      else (Graph.abs st.world.heap m).map fun k =>
        { k with slots := fun s => (k.slots s).map (moved (st.defs f.kind id) st.world.next) }) ∧
    (∀ t, t ≠ st.world.next → RoomAt st.world t → RoomAt w' t) ∧
    (st.defs f.kind id = none → RoomAt w' st.world.next) := by
  set w := st.world with hw
  set n := w.next with hn
  have hdep := (resolve_some hr).2
  have hdk : ∀ d ∈ deps, ∃ a, (d.1, a) ∈ f.args ∧ st.defs d.1.target a = some d.2 ∧ kindAt w d.2 = some d.1.target ∧ d.2 < n := by
    intro d hd
    obtain ⟨a, ha1, ha2⟩ := hdep d hd
    exact ⟨a, ha1, ha2, h.kindAt ha2, h.lt ha2⟩
  have g1 : Good w (.new f.kind f.content deps : Op V L X) := by
    refine ⟨⟨resolve_ctor f hr, fun d hd => ?_⟩, fun d hd => ?_⟩
    · obtain ⟨a, -, -, h3, -⟩ := hdk d hd
      exact h3
    · obtain ⟨a, h1, h2, -, -⟩ := hdk d hd
      exact h.room _ _ _ h2 (ht.1 _ h1)
  obtain ⟨i1, e1, x1⟩ := inv_good (C := C) h.inv g1
  set w1 := step C w (.new f.kind f.content deps : Op V L X) with hw1
  have e1' : ∀ m, Graph.abs w1.heap m = if m = n then some (built f.kind f.content deps) else Graph.abs w.heap m := by
    intro m
    rw [e1]
    simp only [aStep]
    by_cases hm : m = n
    · rw [if_pos hm, hm]; exact Function.update_self ..
    · rw [if_neg hm]; exact Function.update_of_ne hm ..
  have room1 : ∀ t, RoomAt w t → RoomAt w1 t := fun t hrt => room_step h.inv.s g1 (by intro o; simp) hrt
  cases hold : st.defs f.kind id with
  | none =>
    have e2 : w' = w1 := by rw [hw']; simp only [define, hr, hold]; rfl
    have mid : moved none n = fun m => m := by funext m; simp [moved]
    rw [e2]
    refine ⟨i1, fun m => ?_, fun t _ => room1 t, fun _ => room1 n (room_next h.inv.s)⟩
    rw [e1' m]
    by_cases hm : m = n
    · rw [if_pos hm, if_pos hm]; simp [mid, built]
    · rw [if_neg hm, if_neg hm]; simp [mid]
  | some old =>
    have hS : (S.defs f.kind id).isSome := by rw [← h.known (Form.kind_ne_str f), hold]; rfl
    have hrep : replaces f.kind = true := by
      have h1 : f.kind ≠ .det := fun e => by rw [ht.2 (Or.inl e)] at hS; cases hS
      have h2 : f.kind ≠ .prob := fun e => by rw [ht.2 (Or.inr e)] at hS; cases hS
      have h3 := Form.kind_ne_str f
      cases hk : f.kind <;> simp_all [replaces]
    have e2 : w' = step C w1 (.replace old n : Op V L X) := by
      rw [hw']; simp only [define, hr, hold]; rw [if_pos hrep]
    have hlt := h.lt hold
    have hne : old ≠ n := hlt.ne
    have hko : kindAt w1 old = some f.kind := by
      obtain ⟨o, ho, hk⟩ := h.kind hold
      have := e1' old
      rw [if_neg hne, ho] at this
      rw [kindAt_abs this, hk]
    have hkn : kindAt w1 n = some f.kind := by
      have := e1' n
      rw [if_pos rfl] at this
      rw [kindAt_abs this]; rfl
    have g2 : Good w1 (.replace old n : Op V L X) := by
      refine ⟨⟨f.kind, Form.kind_ne_str f, hko, hkn⟩, hne, ?_, ?_⟩
      · have : w1.cbs n = w.cbs n := by
          rw [hw1]
          simp only [step, construct]
          rw [registers_cbs_ne w.next n deps _ (fun d hd => by obtain ⟨_, -, -, -, h4⟩ := hdk d hd; exact h4.ne)]
          rfl
        rw [this]
        exact next_free h.inv.s
      · rintro ⟨i, c, s⟩ he hs
        simp only at hs
        subst hs
        obtain ⟨o, ho, hos, -⟩ := i1.s.own _ _ _ _ he
        obtain ⟨-, p, hp, hpk⟩ := i1.s.wf _ _ _ _ ho hos
        have : f.kind = .prob := by
          rw [kindAt, hp] at hko
          simp only [Option.map_some, Option.some.injEq] at hko
          rw [← hko]; exact hpk
        rw [this] at hrep; simp [replaces] at hrep
    obtain ⟨i2, e3, x3⟩ := inv_good (C := C) i1 g2
    rw [e2]
    refine ⟨i2, fun m => ?_, fun t htn hrt => room_step i1.s g2 (by intro o ho; cases ho; exact htn rfl) (room1 t hrt),
      fun hc => by cases hc⟩
    rw [e3]
    simp only [aStep]
    rw [e1' m]
    by_cases hm : m = n
    · rw [if_pos hm, if_pos hm]
      simp [redirect_moved, built]
    · rw [if_neg hm, if_neg hm]
      congr 1
      funext k
      exact redirect_moved old n k

/-- The dictionaries after a definition, for names known before. -/
theorem setDef_moved {C : Calc V L X Y} {st : Py V L X Y} {S : Sheet V L} (h : Link C st S) {k₀ : Kind} {id : Name} {n : ℕ}
    {k : Kind} {a : Name} (ha : (st.defs k a).isSome) :
    setDef st.defs k₀ id n k a = (st.defs k a).map (moved (st.defs k₀ id) n) := by
  obtain ⟨m, hm⟩ := Option.isSome_iff_exists.1 ha
  simp only [setDef, hm, Option.map_some, moved]
  by_cases he : k = k₀ ∧ a = id
  · obtain ⟨rfl, rfl⟩ := he
    simp [hm]
  · rw [if_neg he, if_neg]
    intro hmo
    obtain ⟨h1, h2⟩ := h.inj' hm hmo.symm
    exact he ⟨h1, h2⟩

theorem link_define {C : Calc V L X Y} {st st' : Py V L X Y} {S : Sheet V L} (h : Link C st S) (id : Name) (f : Form V)
    (ht : Tidy S (.define id f : Cmd V L X)) (he : define C st id f = (st', none)) :
    Link C st' (S.enter (.define id f : Cmd V L X)) := by
  cases hr : resolve st f.args with
  | none => simp [define, hr] at he
  | some deps =>
    have hw' : st'.world = (define C st id f).1.world := by rw [he]
    obtain ⟨i1, e1, r1, r2⟩ := define_effect h id f ht hr hw'
    have hd : st'.defs = setDef st.defs f.kind id st.world.next := by
      have := congrArg (fun p => p.1.defs) he
      simp only [define, hr] at this
      exact this.symm
    set n := st.world.next with hn
    have keep : ∀ {k a}, ¬ (k = f.kind ∧ a = id) → st'.defs k a = st.defs k a := by
      intro k a hka
      rw [hd, setDef, if_neg hka]
    have self : st'.defs f.kind id = some n := by rw [hd, setDef, if_pos ⟨rfl, rfl⟩]
    have mv : ∀ {k a}, (st.defs k a).isSome → st'.defs k a = (st.defs k a).map (moved (st.defs f.kind id) n) := by
      intro k a ha
      rw [hd]
      exact setDef_moved h ha
    refine ⟨i1, ?_, ?_, ?_, ?_, ?_, ?_, ?_, ?_⟩
    · intro k i hk hS
      simp only [Sheet.enter] at hS
      by_cases hki : k = f.kind ∧ i = id
      · rw [if_pos hki] at hS; cases hS
      · rw [if_neg hki] at hS
        rw [keep hki]; exact h.undef k i hk hS
    · intro k i f' hk hS
      simp only [Sheet.enter] at hS ⊢
      by_cases hki : k = f.kind ∧ i = id
      · rw [if_pos hki] at hS
        cases hS
        obtain ⟨rfl, rfl⟩ := hki
        refine ⟨rfl, n, self, ?_⟩
        rw [e1, if_pos rfl]
        have hs : (fun s => (deps.lookup s).map (moved (st.defs f.kind i) n)) =
            fun s => (f.args.lookup s).bind (st'.defs s.target) := by
          funext s
          rw [(resolve_some hr).1 s]
          cases hl : f.args.lookup s with
          | none => rfl
          | some a =>
            simp only [Option.bind_some]
            exact (mv (resolve_known hr _ (lookup_mem hl))).symm
        rw [hs]
        by_cases hki : f.kind = .im <;> simp [hki]
      · rw [if_neg hki] at hS
        obtain ⟨h1, m, h2, h3⟩ := h.obj k i f' hk hS
        refine ⟨h1, m, by rw [keep hki]; exact h2, ?_⟩
        rw [e1, if_neg (h.lt h2).ne, h3]
        simp only [Option.map_some, Option.some.injEq, Skel.mk.injEq, true_and, and_true]
        refine ⟨?_, ?_, ?_⟩
        · funext s
          cases hl : f'.args.lookup s with
          | none => rfl
          | some a =>
            simp only [Option.bind_some]
            refine (mv ?_).symm
            rw [h.known (target_ne_str s)]
            exact h.closed k i f' hS _ (lookup_mem hl)
        all_goals
          by_cases hk : k = .im
          · rw [if_pos hk, if_pos hk, if_neg]
            rintro ⟨h4, h5⟩
            exact hki ⟨hk.trans h4.symm, h5⟩
          · rw [if_neg hk, if_neg hk]
    · intro k i f' hS a ha
      simp only [Sheet.enter] at hS ⊢
      by_cases hka : a.1.target = f.kind ∧ a.2 = id
      · rw [if_pos hka]; rfl
      · rw [if_neg hka]
        by_cases hki : k = f.kind ∧ i = id
        · rw [if_pos hki] at hS
          cases hS
          rw [← h.known (target_ne_str _)]
          exact resolve_known hr a ha
        · rw [if_neg hki] at hS
          exact h.closed k i f' hS a ha
    · intro i hS
      rw [keep (fun hc => Form.kind_ne_str f hc.1.symm)]
      exact h.strNone i hS
    · intro i gs hS
      obtain ⟨m, o, h1, h2, h3, h4, h5, h6⟩ := h.strSome i gs hS
      refine ⟨m, { o with slots := fun s => (o.slots s).map (moved (st.defs f.kind id) n) },
        by rw [keep (fun hc => Form.kind_ne_str f hc.1.symm)]; exact h1,
        by rw [e1, if_neg (h.lt h1).ne, h2]; rfl, h3, ?_, ?_, ?_⟩
      · have e : (o.entries.map fun k => (o.slots (.entry k)).map (moved (st.defs f.kind id) n)) =
            (o.entries.map fun k => o.slots (.entry k)).map (Option.map (moved (st.defs f.kind id) n)) := by
          rw [List.map_map]; rfl
        simp only
        rw [e, h4, List.map_map]
        refine List.map_congr_left fun g hg => ?_
        exact (mv (h5 g hg)).symm
      · intro g hg
        rw [mv (h5 g hg)]
        obtain ⟨x, hx⟩ := Option.isSome_iff_exists.1 (h5 g hg)
        rw [hx]; rfl
      · intro ht0 hg0
        simp only
        rw [h6 ht0 hg0]; rfl
    · intro m o hm hk
      rw [e1] at hm
      by_cases hmn : m = n
      · rw [if_pos hmn] at hm
        simp only [Option.some.injEq] at hm
        rw [← hm] at hk
        exact absurd hk (Form.kind_ne_str f)
      · rw [if_neg hmn] at hm
        cases ho : Graph.abs st.world.heap m with
        | none => rw [ho] at hm; cases hm
        | some q =>
          rw [ho] at hm
          simp only [Option.map_some, Option.some.injEq] at hm
          rw [← hm] at hk
          obtain ⟨i, hi⟩ := h.strs m q ho hk
          exact ⟨i, by rw [keep (fun hc => Form.kind_ne_str f hc.1.symm)]; exact hi⟩
    · intro k a b x ha hb
      by_cases h1 : k = f.kind ∧ a = id
      · by_cases h2 : k = f.kind ∧ b = id
        · rw [h1.2, h2.2]
        · rw [h1.1, h1.2, self] at ha
          cases ha
          rw [keep h2] at hb
          exact absurd (h.lt hb) (lt_irrefl _)
      · by_cases h2 : k = f.kind ∧ b = id
        · rw [h2.1, h2.2, self] at hb
          cases hb
          rw [keep h1] at ha
          exact absurd (h.lt ha) (lt_irrefl _)
        · rw [keep h1] at ha
          rw [keep h2] at hb
          exact h.inj k a b x ha hb
    · intro k a x ha hred
      simp only [Sheet.enter, Bool.or_eq_false_iff, Bool.and_eq_false_iff, decide_eq_false_iff_not] at hred
      by_cases h1 : k = f.kind ∧ a = id
      · have : S.defs k a = none := by
          rcases hred.2 with h2 | h2
          · exact absurd h1 h2
          · simpa using h2
        obtain ⟨rfl, rfl⟩ := h1
        rw [self] at ha
        cases ha
        exact r2 (h.undef _ _ (Form.kind_ne_str f) this)
      · rw [keep h1] at ha
        exact r1 x (h.lt ha).ne (h.room k a x ha hred.1)

/-- Steps that leave the dictionaries of everything but structures as they are. -/
theorem link_world {C : Calc V L X Y} {st st' : Py V L X Y} {S S' : Sheet V L} (h : Link C st S)
    (hi : Inv C st'.world ⟨Graph.abs st'.world.heap, st'.world.next⟩)
    (hd : ∀ k id, k ≠ .str → st'.defs k id = st.defs k id) (hS : S'.defs = S.defs) (hR : S'.redefined = S.redefined)
    (ho : ∀ k id n o, k ≠ .str → st.defs k id = some n → Graph.abs st.world.heap n = some o →
      o.dist₁ = (if k = .im then S.collapse id else none) → o.dist₂ = (if k = .im then S.demolition id else none) →
      Graph.abs st'.world.heap n = some { o with
        dist₁ := if k = .im then S'.collapse id else none
        dist₂ := if k = .im then S'.demolition id else none })
    (hn : ∀ id, S'.groups id = none → st'.defs .str id = none)
    (hs : ∀ id gs, S'.groups id = some gs → ∃ n o, st'.defs .str id = some n ∧ Graph.abs st'.world.heap n = some o ∧
      o.kind = .str ∧ o.entries.map (fun k => o.slots (.entry k)) = gs.map (st.defs .cg) ∧
      (∀ g ∈ gs, (st.defs .cg g).isSome) ∧ (S'.thinned id = false → gs = [] → o.slots .sim = none))
    (hss : ∀ n o, Graph.abs st'.world.heap n = some o → o.kind = .str → ∃ id, st'.defs .str id = some n)
    (hinj : ∀ id id' n, st'.defs .str id = some n → st'.defs .str id' = some n → id = id')
    (hroom : ∀ t, RoomAt st.world t → RoomAt st'.world t)
    (hsr : ∀ id n, st'.defs .str id = some n → S.redefined .str id = false → RoomAt st'.world n) : Link C st' S' where
  inv := hi
  undef k id hk hu := by rw [hd k id hk]; exact h.undef k id hk (by rw [← hS]; exact hu)
  obj k id f hk hf := by
    rw [hS] at hf
    obtain ⟨h1, n, h2, h3⟩ := h.obj k id f hk hf
    refine ⟨h1, n, by rw [hd k id hk]; exact h2, ?_⟩
    rw [ho k id n _ hk h2 h3 rfl rfl]
    simp only [Option.some.injEq, Skel.mk.injEq, true_and, and_true]
    funext s
    congr 1
    funext a
    exact (hd s.target a (target_ne_str s)).symm
  closed k id f hf a ha := by rw [hS] at hf ⊢; exact h.closed k id f hf a ha
  strNone := hn
  strSome id gs hg := by
    obtain ⟨n, o, h1, h2, h3, h4, h5, h6⟩ := hs id gs hg
    have e : st'.defs .cg = st.defs .cg := by funext a; exact hd .cg a (by simp)
    exact ⟨n, o, h1, h2, h3, by rw [e]; exact h4, by rw [e]; exact h5, h6⟩
  strs := hss
  inj k a b n ha hb := by
    by_cases hk : k = .str
    · subst hk; exact hinj a b n ha hb
    · rw [hd k _ hk] at ha hb
      exact h.inj k a b n ha hb
  room k id n hk hr := by
    rw [hR] at hr
    by_cases hks : k = .str
    · subst hks; exact hsr id n hk hr
    · rw [hd k _ hks] at hk
      exact hroom n (h.room k id n hk hr)

theorem modify_heap (a : AWorld V L) (n : ℕ) (f : Skel V L → Skel V L) (m : ℕ) :
    (a.modify n f).heap m = if m = n then (a.heap n).map f else a.heap m := by
  simp only [AWorld.modify, Function.update_apply]

/-- Commands that change one object's own data. -/
theorem link_modify {C : Calc V L X Y} {st : Py V L X Y} {S S' : Sheet V L} (h : Link C st S) {op : Op V L X}
    (hg : Good st.world op) (hop : ∀ o o', op ≠ .replace o o') {k₀ : Kind} {id₀ : Name} {n₀ : ℕ}
    (h0 : st.defs k₀ id₀ = some n₀) (f : Skel V L → Skel V L)
    (hf : ∀ w : AWorld V L, aStep w op = w.modify n₀ f) (hkind : ∀ o, (f o).kind = o.kind)
    (hS : S'.defs = S.defs) (hR : S'.redefined = S.redefined)
    (ho : ∀ id o, id₀ = id → k₀ ≠ .str → o.dist₁ = (if k₀ = .im then S.collapse id else none) →
      o.dist₂ = (if k₀ = .im then S.demolition id else none) → f o = { o with
        dist₁ := if k₀ = .im then S'.collapse id else none
        dist₂ := if k₀ = .im then S'.demolition id else none })
    (hcol : ∀ id, ¬ (k₀ = .im ∧ id = id₀) → S'.collapse id = S.collapse id ∧ S'.demolition id = S.demolition id)
    (hgr : ∀ id, S.groups id = none → S'.groups id = none) (hgr' : ∀ id, S'.groups id = none → S.groups id = none)
    (hothers : ∀ id, ¬ (k₀ = .str ∧ id = id₀) → S'.groups id = S.groups id ∧ S'.thinned id = S.thinned id)
    (hstr : k₀ = .str → ∀ gs o, S.groups id₀ = some gs → o.kind = .str →
      o.entries.map (fun k => o.slots (.entry k)) = gs.map (st.defs .cg) →
      (∀ g ∈ gs, (st.defs .cg g).isSome) → (S.thinned id₀ = false → gs = [] → o.slots .sim = none) →
      ∃ gs', S'.groups id₀ = some gs' ∧
      (f o).entries.map (fun k => (f o).slots (.entry k)) = gs'.map (st.defs .cg) ∧
      (∀ g ∈ gs', (st.defs .cg g).isSome) ∧ (S'.thinned id₀ = false → gs' = [] → (f o).slots .sim = none)) :
    Link C { st with world := step C st.world op } S' := by
  obtain ⟨i1, e1, x1⟩ := inv_good (C := C) h.inv hg
  have e : ∀ m, Graph.abs (step C st.world op).heap m =
      if m = n₀ then (Graph.abs st.world.heap n₀).map f else Graph.abs st.world.heap m := by
    intro m; rw [e1, hf, modify_heap]
  refine link_world h i1 (fun _ _ _ => rfl) hS hR ?_ ?_ ?_ ?_ ?_ ?_ ?_
  · intro k id n o hk hn hob hd1 hd2
    simp only
    rw [e]
    by_cases hnn : n = n₀
    · subst hnn
      obtain ⟨rfl, rfl⟩ := h.inj' h0 hn
      rw [if_pos rfl, hob, Option.map_some, ho _ o rfl hk hd1 hd2]
    · rw [if_neg hnn, hob]
      have hne : ¬ (k = k₀ ∧ id = id₀) := by
        rintro ⟨rfl, rfl⟩
        rw [h0] at hn; cases hn; exact hnn rfl
      rw [Option.some.injEq]
      by_cases hki : k = .im
      · have hc := hcol id (by rintro ⟨h1, h2⟩; exact hne ⟨hki.trans h1.symm, h2⟩)
        rw [if_pos hki] at hd1 hd2 ⊢
        rw [if_pos hki, hc.1, hc.2, ← hd1, ← hd2]
      · rw [if_neg hki] at hd1 hd2 ⊢
        rw [if_neg hki]
        conv_rhs => rw [← hd1]
        rw [hd1, ← hd2]
        cases o; simp_all
  · intro id hid
    exact h.strNone id (hgr' id hid)
  · intro id gs hid
    simp only
    by_cases hc : k₀ = .str ∧ id = id₀
    · obtain ⟨rfl, rfl⟩ := hc
      cases hgs : S.groups id with
      | none => rw [hgr id hgs] at hid; cases hid
      | some gs0 =>
        obtain ⟨n, o, h1, h2, h3, h4, h5, h6⟩ := h.strSome id gs0 hgs
        rw [h0] at h1; cases h1
        obtain ⟨gs', g1, g2, g3, g4⟩ := hstr rfl gs0 o hgs h3 h4 h5 h6
        rw [hid] at g1; cases g1
        exact ⟨n₀, f o, h0, by rw [e, if_pos rfl, h2]; rfl, by rw [hkind]; exact h3, g2, g3, g4⟩
    · obtain ⟨q1, q2⟩ := hothers id hc
      rw [q1] at hid
      obtain ⟨n, o, h1, h2, h3, h4, h5, h6⟩ := h.strSome id gs hid
      refine ⟨n, o, h1, ?_, h3, h4, h5, by rw [q2]; exact h6⟩
      rw [e, if_neg, h2]
      rintro rfl
      obtain ⟨rfl, rfl⟩ := h.inj' h0 h1
      exact hc ⟨rfl, rfl⟩
  · intro n o hno hk
    simp only at hno
    rw [e] at hno
    by_cases hnn : n = n₀
    · rw [if_pos hnn] at hno
      cases hq : Graph.abs st.world.heap n₀ with
      | none => rw [hq] at hno; cases hno
      | some q =>
        rw [hq] at hno
        simp only [Option.map_some, Option.some.injEq] at hno
        rw [← hno, hkind] at hk
        obtain ⟨i, hi⟩ := h.strs n₀ q hq hk
        exact ⟨i, by rw [hnn]; exact hi⟩
    · rw [if_neg hnn] at hno
      exact h.strs n o hno hk
  · intro a b n ha hb
    exact h.inj .str a b n ha hb
  · intro t ht
    exact room_step h.inv.s hg (fun o => hop o t) ht
  · intro id n hn hr
    exact room_step h.inv.s hg (fun o => hop o n) (h.room .str id n hn hr)

theorem erase_eraseP {α β : Type} [DecidableEq β] (φ : α → Option ℕ) (d : β → Option ℕ) (g : β) (m : ℕ) (hg : d g = some m)
    (hinj : ∀ b, d b = some m → b = g) : ∀ (es : List α) (gs : List β), es.map φ = gs.map d →
    (es.eraseP (fun e => φ e = some m)).map φ = (gs.erase g).map d
  | [], [], _ => rfl
  | [], _ :: _, h => by simp at h
  | _ :: _, [], h => by simp at h
  | e :: es, b :: gs, h => by
    simp only [List.map_cons, List.cons.injEq] at h
    by_cases hb : b = g
    · subst hb
      rw [List.eraseP_cons_of_pos (by simp [h.1, hg]), List.erase_cons_head]
      exact h.2
    · rw [List.eraseP_cons_of_neg (by
        simp only [h.1, decide_eq_true_eq]
        intro hc; exact hb (hinj b hc)), List.erase_cons_tail (by simpa using hb)]
      simp only [List.map_cons, h.1, erase_eraseP φ d g m hg hinj es gs h.2]

theorem link_struct {C : Calc V L X Y} {st : Py V L X Y} {S : Sheet V L} (h : Link C st S) (id : Name) (v : V)
    (ht : S.groups id = none) : Link C (struct C st id v).1 (S.enter (.struct id v : Cmd V L X)) := by
  have g1 : Good st.world (.new .str v [] : Op V L X) :=
    ⟨⟨CtorDeps.str, by simp⟩, by intro d hd; cases hd⟩
  obtain ⟨i1, e1, x1⟩ := inv_good (C := C) h.inv g1
  have e : ∀ m, Graph.abs (struct C st id v).1.world.heap m =
      if m = st.world.next then some (built .str v []) else Graph.abs st.world.heap m := by
    intro m
    show Graph.abs (step C st.world (.new .str v [] : Op V L X)).heap m = _
    rw [e1]
    by_cases hm : m = st.world.next
    · rw [if_pos hm, hm]; exact Function.update_self ..
    · rw [if_neg hm]; exact Function.update_of_ne hm ..
  have keep : ∀ k i, ¬ (k = .str ∧ i = id) → (struct C st id v).1.defs k i = st.defs k i := by
    intro k i hki; simp only [struct, setDef, if_neg hki]
  have self : (struct C st id v).1.defs .str id = some st.world.next := by simp [struct, setDef]
  have froom : ∀ t, RoomAt st.world t → RoomAt (struct C st id v).1.world t := by
    intro t hr
    exact room_step (C := C) h.inv.s g1 (by intro o; simp) hr
  refine link_world h i1 (fun k i hk => keep k i (fun hc => hk hc.1)) rfl rfl ?_ ?_ ?_ ?_ ?_ ?_ ?_
  · intro k i n o hk hn ho h1 h2
    rw [e, if_neg (h.lt hn).ne, ho, Option.some.injEq]
    simp only [Sheet.enter, ← h1, ← h2]
  · intro i hi
    have hne : i ≠ id := by rintro rfl; simp [Sheet.enter] at hi
    simp only [Sheet.enter, Function.update_of_ne hne] at hi
    rw [keep _ _ (fun hc => hne hc.2)]
    exact h.strNone i hi
  · intro i gs hi
    by_cases hne : i = id
    · subst hne
      simp only [Sheet.enter, Function.update_self, Option.some.injEq] at hi
      subst hi
      exact ⟨st.world.next, built .str v [], self, by rw [e, if_pos rfl], rfl, rfl, by simp, fun _ _ => rfl⟩
    · simp only [Sheet.enter, Function.update_of_ne hne] at hi
      obtain ⟨n, o, h1, h2, h3, h4, h5, h6⟩ := h.strSome i gs hi
      exact ⟨n, o, by rw [keep _ _ (fun hc => hne hc.2)]; exact h1, by rw [e, if_neg (h.lt h1).ne]; exact h2, h3, h4, h5, h6⟩
  · intro n o hn hk
    rw [e] at hn
    by_cases hnn : n = st.world.next
    · exact ⟨id, by rw [hnn]; exact self⟩
    · rw [if_neg hnn] at hn
      obtain ⟨i, hi⟩ := h.strs n o hn hk
      refine ⟨i, ?_⟩
      rw [keep _ _ (fun hc => ?_)]
      · exact hi
      · rw [hc.2, h.strNone id ht] at hi; cases hi
  · intro a b n ha hb
    by_cases h1 : a = id
    · by_cases h2 : b = id
      · rw [h1, h2]
      · rw [h1, self] at ha; cases ha
        rw [keep _ _ (fun hc => h2 hc.2)] at hb
        exact absurd (h.lt hb) (lt_irrefl _)
    · rw [keep _ _ (fun hc => h1 hc.2)] at ha
      by_cases h2 : b = id
      · rw [h2, self] at hb; cases hb
        exact absurd (h.lt ha) (lt_irrefl _)
      · rw [keep _ _ (fun hc => h2 hc.2)] at hb
        exact h.inj .str a b n ha hb
  · exact froom
  · intro i n hn hr
    by_cases h1 : i = id
    · rw [h1, self] at hn; cases hn
      exact froom _ (room_next h.inv.s)
    · rw [keep _ _ (fun hc => h1 hc.2)] at hn
      exact froom _ (h.room .str i n hn hr)

theorem link_collect {C : Calc V L X Y} {st : Py V L X Y} {S : Sheet V L} (h : Link C st S) (n : ℕ)
    (ha : Allowed st.world (.destroy n : Op V L X)) (hn : ∀ k id, st.defs k id ≠ some n) :
    Link C (exec C st (.collect n : Cmd V L X)).1 S := by
  have g1 : Good st.world (.destroy n : Op V L X) := by
    refine ⟨ha, fun hk => ?_⟩
    obtain ⟨o, ho, hk⟩ := kindAt_some hk
    obtain ⟨i, hi⟩ := h.strs n o.toSkel (by simp [Graph.abs, ho]) hk
    exact hn _ _ hi
  obtain ⟨i1, e1, x1⟩ := inv_good (C := C) h.inv g1
  have e : ∀ m, m ≠ n → Graph.abs (step C st.world (.destroy n : Op V L X)).heap m = Graph.abs st.world.heap m := by
    intro m hm; rw [e1]; exact Function.update_of_ne hm ..
  have e0 : Graph.abs (step C st.world (.destroy n : Op V L X)).heap n = none := by
    rw [e1]; exact Function.update_self ..
  have ne : ∀ {k id m}, st.defs k id = some m → m ≠ n := by rintro k id m hm rfl; exact hn _ _ hm
  have froom : ∀ t, RoomAt st.world t → RoomAt (step C st.world (.destroy n : Op V L X)) t := fun t =>
    room_step h.inv.s g1 (by intro o; simp)
  refine link_world h i1 (fun _ _ _ => rfl) rfl rfl ?_ h.strNone ?_ ?_ (h.inj .str) froom (fun i m hm hr => froom _ (h.room _ _ _ hm hr))
  · intro k i m o hk hm ho h1 h2
    show Graph.abs (step C st.world (.destroy n : Op V L X)).heap m = _
    rw [e m (ne hm), ho, Option.some.injEq, ← h1, ← h2]
  · intro i gs hi
    obtain ⟨m, o, h1, h2, h3⟩ := h.strSome i gs hi
    exact ⟨m, o, h1, by show Graph.abs (step C st.world (.destroy n : Op V L X)).heap m = _; rw [e m (ne h1), h2], h3⟩
  · intro m o hm hk
    change Graph.abs (step C st.world (.destroy n : Op V L X)).heap m = _ at hm
    by_cases hmn : m = n
    · rw [hmn, e0] at hm; cases hm
    · rw [e m hmn] at hm; exact h.strs m o hm hk

theorem link_ask {C : Calc V L X Y} {st : Py V L X Y} {S : Sheet V L} (h : Link C st S) (n : ℕ) (sel : CacheId → X → Bool) :
    Link C (exec C st (.ask n sel : Cmd V L X)).1 S := by
  have hq := inv_query h.inv n sel
  have e : Graph.abs (step C st.world (.query n sel : Op V L X)).heap = Graph.abs st.world.heap := hq.heap
  have i1 : Inv C (step C st.world (.query n sel)) ⟨Graph.abs (step C st.world (.query n sel : Op V L X)).heap,
      (step C st.world (.query n sel : Op V L X)).next⟩ := ⟨hq.s, hq.coh, rfl, rfl⟩
  have froom : ∀ t, RoomAt st.world t → RoomAt (step C st.world (.query n sel : Op V L X)) t := by
    intro t hr
    by_cases hl : (st.world.heap n).isSome
    · exact room_step h.inv.s (op := (.query n sel : Op V L X)) ⟨hl, trivial⟩ (by intro o; simp) hr
    · rw [Option.not_isSome_iff_eq_none] at hl
      simp only [step, memo, hl]; exact hr
  refine link_world h i1 (fun _ _ _ => rfl) rfl rfl ?_ h.strNone ?_ ?_ (h.inj .str) froom (fun i m hm hr => froom _ (h.room _ _ _ hm hr))
  · intro k i m o hk hm ho h1 h2
    show Graph.abs (step C st.world (.query n sel : Op V L X)).heap m = _
    rw [e, ho, Option.some.injEq, ← h1, ← h2]
  · intro i gs hi
    obtain ⟨m, o, h1, h2, h3⟩ := h.strSome i gs hi
    exact ⟨m, o, h1, by show Graph.abs (step C st.world (.query n sel : Op V L X)).heap m = _; rw [e, h2], h3⟩
  · intro m o hm hk
    change Graph.abs (step C st.world (.query n sel : Op V L X)).heap m = _ at hm
    rw [e] at hm; exact h.strs m o hm hk

/-- The IM that a structure finds through the objects is the one of the definitions. -/
theorem Link.imOf {C : Calc V L X Y} {st : Py V L X Y} {S : Sheet V L} (h : Link C st S) {g : Name} {m i : ℕ}
    (hg : st.defs .cg g = some m) (hi : getIM (Graph.abs st.world.heap) m = some i) :
    ∃ a, S.imOf g = some a ∧ st.defs .im a = some i := by
  cases hf : S.defs .cg g with
  | none => rw [h.undef .cg g (by simp) hf] at hg; cases hg
  | some f =>
    obtain ⟨-, m', h1, h2⟩ := h.obj .cg g f (by simp) hf
    rw [hg] at h1; cases h1
    simp only [getIM, h2, Option.bind_some] at hi
    cases he : f.args.lookup .edp with
    | none => rw [he] at hi; cases hi
    | some e =>
      rw [he, Option.bind_some] at hi
      cases hd : S.defs .edp e with
      | none =>
        have : st.defs Slot.edp.target e = none := h.undef .edp e (by simp) hd
        rw [this] at hi; cases hi
      | some f' =>
        obtain ⟨-, q, h3, h4⟩ := h.obj .edp e f' (by simp) hd
        have h3' : st.defs Slot.edp.target e = some q := h3
        rw [h3', Option.bind_some, h4, Option.bind_some] at hi
        simp only at hi
        cases hb : f'.args.lookup .base with
        | none => rw [hb] at hi; cases hi
        | some a =>
          rw [hb, Option.bind_some] at hi
          exact ⟨a, by simp only [Sheet.imOf, hf, Option.bind_some, he, hd, hb], hi⟩

theorem link_add {C : Calc V L X Y} {st : Py V L X Y} {S : Sheet V L} (h : Link C st S) {s g : Name}
    (ht : Tidy S (.add s g : Cmd V L X)) {n m : ℕ} (hn : st.defs .str s = some n) (hm : st.defs .cg g = some m)
    (hr : refused st.world n m = false) :
    Link C { st with world := step C st.world (.addComp n m) } (S.enter (.add s g : Cmd V L X)) := by
  obtain ⟨t1, t2, t3⟩ := ht
  cases hgs : S.groups s with
  | none => rw [h.strNone s hgs] at hn; cases hn
  | some gs =>
    obtain ⟨n', o, h1, h2, h3, h4, h5, h6⟩ := h.strSome s gs hgs
    rw [hn] at h1; cases h1
    cases hho : st.world.heap n with
    | none => simp [Graph.abs, hho] at h2
    | some q =>
      have hq : q.toSkel = o := by simpa [Graph.abs, hho] using h2
      cases hi : getIM (Graph.abs st.world.heap) m with
      | none => simp [refused, hho, hi] at hr
      | some i =>
        have hcond : o.entries = [] ∨ o.slots .sim = some i := by
          simp only [refused, hho, hi] at hr
          rw [← hq]
          by_cases he : q.entries = []
          · exact Or.inl he
          · by_cases hsim : q.slots .sim = some i
            · exact Or.inr hsim
            · simp [he, hsim] at hr
        have hgood : Good st.world (.addComp n m : Op V L X) := by
          refine ⟨⟨h.kindAt hn, h.kindAt hm⟩, h.room _ _ _ hm t1, ?_⟩
          intro q' hq' hemp
          rw [hho] at hq'; cases hq'
          have hemp' : o.entries = [] := by rw [← hq]; exact hemp
          have hgsn : gs = [] := by
            rw [hemp'] at h4; simpa using h4.symm
          refine ⟨by have := h6 t2 hgsn; rw [← hq] at this; exact this, ?_⟩
          intro j hj
          obtain ⟨a, ha1, ha2⟩ := h.imOf hm hj
          exact h.room _ _ _ ha2 (t3 (by rw [hgs, hgsn]) a ha1)
        obtain ⟨i1, e1, x1⟩ := inv_good (C := C) h.inv hgood
        simp only [aStep, aAddComp, h2, hi, if_pos hcond] at e1
        have e : ∀ p, p ≠ n → Graph.abs (step C st.world (.addComp n m : Op V L X)).heap p = Graph.abs st.world.heap p := by
          intro p hp; rw [e1]; exact Function.update_of_ne hp ..
        have e0 : Graph.abs (step C st.world (.addComp n m : Op V L X)).heap n = some { o with
            slots := fun s => if s = .entry st.world.next then some m else if s = .sim then some i else o.slots s
            entries := o.entries ++ [st.world.next] } := by
          rw [e1]; exact Function.update_self ..
        have froom : ∀ t, RoomAt st.world t → RoomAt (step C st.world (.addComp n m : Op V L X)) t := fun t =>
          room_step h.inv.s hgood (by intro o; simp)
        refine link_world h i1 (fun _ _ _ => rfl) rfl rfl ?_ ?_ ?_ ?_ (h.inj .str) froom
          (fun i m hm hr => froom _ (h.room _ _ _ hm hr))
        · intro k id p o' hk hp ho' d1 d2
          show Graph.abs (step C st.world (.addComp n m : Op V L X)).heap p = _
          rw [e p, ho', Option.some.injEq]
          · simp only [Sheet.enter, ← d1, ← d2]
          · rintro rfl
            exact hk (h.inj' hp hn).1
        · intro id hid
          by_cases hne : id = s
          · subst hne; simp [Sheet.enter, hgs] at hid
          · simp only [Sheet.enter, Function.update_of_ne hne] at hid
            exact h.strNone id hid
        · intro id gs' hid
          by_cases hne : id = s
          · subst hne
            simp only [Sheet.enter, Function.update_self, hgs, Option.map_some, Option.some.injEq] at hid
            subst hid
            refine ⟨n, _, hn, e0, h3, ?_, ?_, ?_⟩
            · simp only [List.map_append, List.map_cons, List.map_nil, if_true, hm]
              congr 1
              rw [← h4]
              refine List.map_congr_left fun k hk => ?_
              have hks : k < st.world.next := by
                have hk' : k ∈ q.entries := by rw [← hq] at hk; exact hk
                obtain ⟨p, hp⟩ := Option.isSome_iff_exists.1 (h.inv.s.entrySlot n q k hho hk')
                exact h.inv.s.entryLt n q k p hho hp
              rw [if_neg (by intro hc; cases hc; exact lt_irrefl _ hks), if_neg (by simp)]
            · intro b hb
              rcases List.mem_append.1 hb with hb | hb
              · exact h5 b hb
              · rw [List.mem_singleton.1 hb, hm]; rfl
            · intro _ hc; simp at hc
          · simp only [Sheet.enter, Function.update_of_ne hne] at hid
            obtain ⟨p, o', g1, g2, g3⟩ := h.strSome id gs' hid
            refine ⟨p, o', g1, ?_, g3⟩
            show Graph.abs (step C st.world (.addComp n m : Op V L X)).heap p = _
            rw [e p, g2]
            rintro rfl
            exact hne (h.inj _ _ _ _ g1 hn)
        · intro p o' hp hk
          change Graph.abs (step C st.world (.addComp n m : Op V L X)).heap p = _ at hp
          by_cases hpn : p = n
          · exact ⟨s, by rw [hpn]; exact hn⟩
          · rw [e p hpn] at hp
            exact h.strs p o' hp hk

/-- The link does not depend on the attributes kept by `pyslat.py`. -/
theorem link_attrs {C : Calc V L X Y} {st : Py V L X Y} {S : Sheet V L} (h : Link C st S) (a : ℕ → Slot → Option ℕ)
    (b : ℕ → Option ℕ) : Link C { st with attrs := a, strIm := b } S :=
  ⟨h.inv, h.undef, h.obj, h.closed, h.strNone, h.strSome, h.strs, h.inj, h.room⟩

/-- Every tidy command that returns keeps the link. -/
theorem link_exec {C : Calc V L X Y} {st st' : Py V L X Y} {S : Sheet V L} (h : Link C st S) (c : Cmd V L X) (ht : Tidy S c)
    (hc : ∀ n, c = .collect n → Allowed st.world (.destroy n : Op V L X) ∧ ∀ k id, st.defs k id ≠ some n)
    (he : exec C st c = (st', none)) : Link C st' (S.enter c) := by
  cases c with
  | define id f => exact link_define h id f ht he
  | collapse id d =>
    simp only [exec, onNamed] at he
    cases hn : st.defs .im id with
    | none => simp [hn] at he
    | some n =>
      simp only [hn, Prod.mk.injEq, and_true] at he
      subst he
      refine link_modify h ⟨h.kindAt hn, trivial⟩ (by simp) hn (fun k => { k with dist₁ := some d }) (fun _ => rfl) (fun _ => rfl)
        rfl rfl ?_ ?_ (fun _ h => h) (fun _ h => h) (fun _ _ => ⟨rfl, rfl⟩) (by intro h; cases h)
      · rintro i o rfl - - h2
        simp only [Sheet.enter, if_true] at h2 ⊢
        rw [Function.update_self, ← h2]
      · intro i hi
        have : i ≠ id := fun hc => hi ⟨rfl, hc⟩
        simp [Sheet.enter, this]
  | demolition id d =>
    simp only [exec, onNamed] at he
    cases hn : st.defs .im id with
    | none => simp [hn] at he
    | some n =>
      simp only [hn, Prod.mk.injEq, and_true] at he
      subst he
      refine link_modify h ⟨h.kindAt hn, trivial⟩ (by simp) hn (fun k => { k with dist₂ := some d }) (fun _ => rfl) (fun _ => rfl)
        rfl rfl ?_ ?_ (fun _ h => h) (fun _ h => h) (fun _ _ => ⟨rfl, rfl⟩) (by intro h; cases h)
      · rintro i o rfl - h1 -
        simp only [Sheet.enter, if_true] at h1 ⊢
        rw [Function.update_self, ← h1]
      · intro i hi
        have : i ≠ id := fun hc => hi ⟨rfl, hc⟩
        simp [Sheet.enter, this]
  | struct id v =>
    have : st' = (struct C st id v).1 := by
      have := congrArg Prod.fst he
      exact this.symm
    rw [this]
    exact link_struct h id v ht
  | add s g =>
    simp only [exec, add] at he
    cases hn : st.defs .str s with
    | none => simp [hn] at he
    | some n =>
      cases hm : st.defs .cg g with
      | none => simp [hn, hm] at he
      | some m =>
        simp only [hn, hm] at he
        cases hr : refused st.world n m with
        | true => simp [hr] at he
        | false =>
          have hl := link_add (C := C) h ht hn hm hr
          simp only [hr, Bool.false_eq_true, if_false] at he
          cases hs : st.strIm n with
          | none =>
            simp only [hs, Prod.mk.injEq, and_true] at he
            subst he
            exact link_attrs hl _ _
          | some i =>
            simp only [hs] at he
            split at he
            · simp only [Prod.mk.injEq, and_true] at he
              subst he
              exact hl
            · simp at he
  | remove s g =>
    simp only [exec, remove] at he
    cases hm : st.defs .cg g with
    | none => simp [hm] at he
    | some m =>
      simp only [hm, onNamed] at he
      cases hn : st.defs .str s with
      | none => simp [hn] at he
      | some n =>
        simp only [hn, Prod.mk.injEq, and_true] at he
        subst he
        refine link_modify h ⟨⟨h.kindAt hn, h.kindAt hm⟩, trivial⟩ (by simp) hn
          (fun k => { k with entries := k.entries.eraseP (fun e => k.slots (.entry e) = some m) }) (fun _ => rfl) (fun _ => rfl)
          rfl rfl ?_ ?_ ?_ ?_ ?_ ?_
        · intro i o _ hk; exact absurd rfl hk
        · intro i _; exact ⟨rfl, rfl⟩
        · intro i hi
          by_cases hne : i = s
          · subst hne; simp [Sheet.enter, hi]
          · simp [Sheet.enter, hne, hi]
        · intro i hi
          by_cases hne : i = s
          · subst hne; simpa [Sheet.enter] using hi
          · simpa [Sheet.enter, hne] using hi
        · intro i hi
          have hne : i ≠ s := fun hc => hi ⟨rfl, hc⟩
          simp [Sheet.enter, hne]
        · intro _ gs o hgs _ h4 h5 _
          refine ⟨gs.erase g, by simp [Sheet.enter, hgs], ?_, fun b hb => h5 b (List.mem_of_mem_erase hb), ?_⟩
          · exact erase_eraseP (fun k => o.slots (.entry k)) (st.defs .cg) g m hm (fun b hb => h.inj _ _ _ _ hb hm) _ _ h4
          · intro hc; simp [Sheet.enter] at hc
  | rebuild s d =>
    simp only [exec, onNamed] at he
    cases hn : st.defs .str s with
    | none => simp [hn] at he
    | some n =>
      simp only [hn, Prod.mk.injEq, and_true] at he
      subst he
      exact link_modify h ⟨h.kindAt hn, trivial⟩ (by simp) hn (fun k => { k with dist₁ := some d }) (fun _ => rfl) (fun _ => rfl)
        rfl rfl (by intro i o _ hk; exact absurd rfl hk) (fun _ _ => ⟨rfl, rfl⟩) (fun _ h => h) (fun _ h => h) (fun _ _ => ⟨rfl, rfl⟩)
        (fun _ gs o hgs _ h4 h5 h6 => ⟨gs, hgs, h4, h5, h6⟩)
  | demoCost s d =>
    simp only [exec, onNamed] at he
    cases hn : st.defs .str s with
    | none => simp [hn] at he
    | some n =>
      simp only [hn, Prod.mk.injEq, and_true] at he
      subst he
      exact link_modify h ⟨h.kindAt hn, trivial⟩ (by simp) hn (fun k => { k with dist₂ := some d }) (fun _ => rfl) (fun _ => rfl)
        rfl rfl (by intro i o _ hk; exact absurd rfl hk) (fun _ _ => ⟨rfl, rfl⟩) (fun _ h => h) (fun _ h => h) (fun _ _ => ⟨rfl, rfl⟩)
        (fun _ gs o hgs _ h4 h5 h6 => ⟨gs, hgs, h4, h5, h6⟩)
  | ask n sel =>
    have : st' = (exec C st (.ask n sel : Cmd V L X)).1 := by rw [he]
    rw [this]
    exact link_ask h n sel
  | collect n =>
    have : st' = (exec C st (.collect n : Cmd V L X)).1 := by rw [he]
    rw [this]
    exact link_collect h n (hc n rfl).1 (hc n rfl).2

/-- Every tidy script that runs to its end keeps the link. -/
theorem link_script {C : Calc V L X Y} : ∀ (cs : List (Cmd V L X)) {st st' : Py V L X Y} {S : Sheet V L}, Link C st S →
    TidyAll S cs → Collects C st cs → script C st cs = (st', none) → Link C st' (cs.foldl Sheet.enter S)
  | [], st, st', S, h, _, _, he => by
    simp only [script, Prod.mk.injEq, and_true] at he
    subst he; exact h
  | c :: cs, st, st', S, h, ht, hc, he => by
    simp only [script] at he
    cases hx : exec C st c with
    | mk st1 e1 =>
      rw [hx] at he
      cases e1 with
      | some e => simp at he
      | none =>
        simp only at he
        have hc2 := hc.2
        rw [hx] at hc2
        exact link_script cs (link_exec h c ht.1 hc.1 hx) ht.2 hc2 he

end Slat.Names
