import Verif.GraphCheck

/-!
# Object graph: histories the properties hold for, and histories for which they fail (C38-C42, C54)
-/

namespace Slat.Graph

variable {V L X Y : Type}

/-! ## Tools for concrete histories -/

/-- A calculation that reports one number of what it can see. -/
def probe (f : CacheId → Tree ℕ ℕ → Option ℕ) : Calc ℕ ℕ Unit (Option ℕ) := fun c t _ _ _ => f c t

/-- Content of an object. -/
def contentOf : Tree ℕ ℕ → Option ℕ
  | .none => none
  | .node v _ _ _ _ => some v

/-- First distribution of an object. -/
def dist₁Of : Tree ℕ ℕ → Option ℕ
  | .none => none
  | .node _ d _ _ _ => d

/-- Number of entries of a structure. -/
def entriesOf : Tree ℕ ℕ → Option ℕ
  | .none => none
  | .node _ _ _ es _ => some es.length

/-- Every cached quantity is read. -/
def everything : CacheId → Unit → Bool := fun _ _ => true

/-- The empty heap of the concrete histories. -/
abbrev empty : World ℕ ℕ Unit (Option ℕ) := init ℕ ℕ Unit (Option ℕ)

theorem view_probe {f : CacheId → Tree ℕ ℕ → Option ℕ} {h : ℕ → Option (Obj ℕ ℕ Unit (Option ℕ))} {n : ℕ}
    {c : CacheId} (hc : cacheAt h n c () = none) :
    view (probe f) h n c () = f c (mask c (tree (abs h) n)) := by
  rw [view, hc]; rfl

theorem fresh_probe {f : CacheId → Tree ℕ ℕ → Option ℕ} {t : Tree ℕ ℕ} {c : CacheId} :
    fresh (probe f) t c () = f c (mask c t) := by
  rw [fresh]; rfl

/-! ## A careful history: the hypotheses of the theorems are met by ordinary use -/

/-- Build a model (a demand function, an EDP, a component group, a structure), query it, then change the
hazard curve, the collapse setting, the demand function's median and the fragility, querying in between;
finally drop the objects that were replaced. -/
def ordinary : List (Op ℕ ℕ Unit) :=
  [.new .det 10 [], .new .im 11 [(.f, 0)], .new .det 12 [], .new .det 13 [],
   .new .prob 14 [(.mu, 2), (.sigma, 3)], .new .edp 15 [(.base, 1), (.first, 4)],
   .new .frag 16 [], .new .loss 17 [], .new .cg 18 [(.edp, 5), (.frag, 6), (.cost, 7)],
   .new .str 19 [], .addComp 9 8, .query 5 everything, .query 8 everything, .query 9 everything,
   .new .det 20 [], .replace 0 11, .setCollapse 1 (some 5), .query 8 everything,
   .new .det 21 [], .replace 2 12, .new .frag 22 [], .replace 6 13, .query 5 everything,
   .setDemolition 1 (some 6), .destroy 0, .destroy 6]

theorem ordinary_good : Along (probe fun _ => contentOf) Good empty ordinary :=
  checkB_sound ordinary (inv_init _) (by decide +kernel)

/-- C38 on the ordinary history. -/
example (x : Unit) : view (probe fun _ => contentOf) (run (probe fun _ => contentOf) empty ordinary).heap 5 .lambda x =
    answer (probe fun _ => contentOf) (aRun (aInit ℕ ℕ) ordinary) 5 .lambda x :=
  edp_never_stale_partial _ ordinary ordinary_good 5 (by decide +kernel) x

/-- C39 on the ordinary history. -/
example (x : Unit) : view (probe fun _ => contentOf) (run (probe fun _ => contentOf) empty ordinary).heap 8 .sdCost x =
    answer (probe fun _ => contentOf) (aRun (aInit ℕ ℕ) ordinary) 8 .sdCost x :=
  group_never_stale_partial _ ordinary ordinary_good 8 (by decide +kernel) .sdCost rfl x

/-- C42, C54 on the ordinary history. -/
example : abs (run (probe fun _ => contentOf) empty ordinary).heap = (aRun (aInit ℕ ℕ) ordinary).heap ∧
    (run (probe fun _ => contentOf) empty ordinary).ub = false :=
  ⟨members_follow_partial _ ordinary ordinary_good, no_dangling_partial _ ordinary ordinary_good⟩

/-- C40 on an ordinary history: rates read, then collapse set. -/
example (x : Unit) : view (probe fun _ => dist₁Of)
    (run (probe fun _ => dist₁Of) empty
      ([.new .det 10 [], .new .im 11 [(.f, 0)], .query 1 everything] ++ [.setCollapse 1 (some 5)])).heap
      1 .collapseRate x =
    answer (probe fun _ => dist₁Of) (aRun (aInit ℕ ℕ)
      (([.new .det 10 [], .new .im 11 [(.f, 0)], .query 1 everything] : List (Op ℕ ℕ Unit)) ++
        [.setCollapse 1 (some 5)])) 1 .collapseRate x :=
  collapse_rate_after_set_partial _ _ 1 (some 5) (checkB_sound _ (inv_init _) (by decide +kernel))
    (by decide +kernel) x

/-- C40 on an ordinary history: rates read, then demolition set. -/
example (x : Unit) : view (probe fun _ => dist₁Of)
    (run (probe fun _ => dist₁Of) empty
      ([.new .det 10 [], .new .im 11 [(.f, 0)], .query 1 everything] ++ [.setDemolition 1 (some 5)])).heap
      1 .demolitionRate x =
    answer (probe fun _ => dist₁Of) (aRun (aInit ℕ ℕ)
      (([.new .det 10 [], .new .im 11 [(.f, 0)], .query 1 everything] : List (Op ℕ ℕ Unit)) ++
        [.setDemolition 1 (some 5)])) 1 .demolitionRate x :=
  demolition_rate_after_set_partial _ _ 1 (some 5) (checkB_sound _ (inv_init _) (by decide +kernel))
    (by decide +kernel) x

/-- A structure with one group, its annual cost read. -/
def house : List (Op ℕ ℕ Unit) :=
  [.new .det 10 [], .new .im 11 [(.f, 0)], .new .det 12 [], .new .det 13 [],
   .new .prob 14 [(.mu, 2), (.sigma, 3)], .new .edp 15 [(.base, 1), (.first, 4)],
   .new .frag 16 [], .new .loss 17 [], .new .cg 18 [(.edp, 5), (.frag, 6), (.cost, 7)],
   .new .str 19 [], .addComp 9 8, .new .det 20 [], .new .cg 21 [(.edp, 5), (.frag, 6)], .new .frag 22 [],
   .query 8 everything, .query 9 everything]

/-- The structure of `house` before the last operation. -/
theorem house_str : ∃ o oi, (run (probe fun _ => dist₁Of) empty house).heap 9 = some o ∧
    o.slots .sim = some 1 ∧ o.slots (.entry 10) = some 8 ∧
    (run (probe fun _ => dist₁Of) empty house).heap 1 = some oi ∧ oi.slots .f = some 0 := by
  have e : ((run (probe fun _ => dist₁Of) empty house).heap 9).map
      (fun o => (o.slots .sim, o.slots (.entry 10))) = some (some 1, some 8) := by decide +kernel
  have e' : ((run (probe fun _ => dist₁Of) empty house).heap 1).map (fun o => o.slots .f) = some (some 0) := by
    decide +kernel
  obtain ⟨o, ho, hp⟩ := Option.map_eq_some_iff.1 e
  obtain ⟨oi, hoi, hf⟩ := Option.map_eq_some_iff.1 e'
  exact ⟨o, oi, ho, congrArg Prod.fst hp, congrArg Prod.snd hp, hoi, hf⟩

/-- C41: the hazard curve under a queried structure is replaced. -/
example (x : Unit) : view (probe fun _ => dist₁Of) (run (probe fun _ => dist₁Of) empty (house ++ [.replace 0 11])).heap
      9 .annualCost x =
    answer (probe fun _ => dist₁Of) (aRun (aInit ℕ ℕ) (house ++ [.replace 0 11])) 9 .annualCost x := by
  obtain ⟨o, oi, h1, h2, _, h4, h5⟩ := house_str
  exact annual_cost_after_change_partial _ house 9 _ (checkB_sound _ (inv_init _) (by decide +kernel))
    (.hazard o oi 1 0 11 h1 h2 h4 h5) (by decide +kernel) x

/-- C41: the group of a queried structure is replaced. -/
example (x : Unit) : view (probe fun _ => dist₁Of) (run (probe fun _ => dist₁Of) empty (house ++ [.replace 8 12])).heap
      9 .annualCost x =
    answer (probe fun _ => dist₁Of) (aRun (aInit ℕ ℕ) (house ++ [.replace 8 12])) 9 .annualCost x := by
  obtain ⟨o, oi, h1, _, h3, _, _⟩ := house_str
  exact annual_cost_after_change_partial _ house 9 _ (checkB_sound _ (inv_init _) (by decide +kernel))
    (.group o 10 8 12 h1 h3) (by decide +kernel) x

/-- C41: a second group is added to a queried structure. -/
example (x : Unit) : view (probe fun _ => dist₁Of) (run (probe fun _ => dist₁Of) empty (house ++ [.addComp 9 12])).heap
      9 .annualCost x =
    answer (probe fun _ => dist₁Of) (aRun (aInit ℕ ℕ) (house ++ [.addComp 9 12])) 9 .annualCost x := by
  refine annual_cost_after_add_partial _ house 9 12 (checkB_sound _ (inv_init _) (by decide +kernel))
    (by decide +kernel) ?_ x
  intro o o' h h'
  have e : ((run (probe fun _ => dist₁Of) empty house).heap 9).map (fun o => o.entries.length) = some 1 := by
    decide +kernel
  have e' : ((run (probe fun _ => dist₁Of) empty (house ++ [.addComp 9 12])).heap 9).map
      (fun o => o.entries.length) = some 2 := by decide +kernel
  rw [h] at e; rw [h'] at e'
  simp only [Option.map_some, Option.some.injEq] at e e'
  omega

theorem along_both {C : Calc V L X Y} {P Q : World V L X Y → Op V L X → Prop} :
    ∀ {ops : List (Op V L X)} {w : World V L X Y}, Along C P w ops → Along C Q w ops →
      Along C (fun w op => P w op ∧ Q w op) w ops
  | [], _, _, _ => trivial
  | _ :: _, _, h, h' => ⟨⟨h.1, h'.1⟩, along_both h.2 h'.2⟩

/-- Checks `HazardKept`. -/
def hazardB (w : World V L X Y) : Op V L X → Bool
  | .replace o _ => (List.range w.next).all fun m =>
      match w.heap m with
      | none => true
      | some p => decide (p.slots .f ≠ some o)
  | _ => true

/-- Checks `CollapseFirst`. -/
def collapseB (w : World V L Unit Y) : Op V L Unit → Bool
  | .setCollapse n _ => (cacheAt w.heap n .demolitionRate ()).isNone
  | _ => true

/-- Checks `Told` for operations on the intensity measure, for additions and before the first reading. -/
def toldB (w : World V L Unit Y) (op : Op V L Unit) : Bool :=
  (List.range w.next).all fun n =>
    match w.heap n with
    | none => true
    | some p => decide (p.kind ≠ .str) || (cacheAt w.heap n .annualCost ()).isNone ||
      match op with
      | .setCollapse i _ => decide (p.slots .sim = some i)
      | .setDemolition i _ => decide (p.slots .sim = some i)
      | .addComp m _ => decide (m = n)
      | .new _ _ _ => true
      | .query _ _ => true
      | _ => false

/-- Checks a property of the state before each operation of a careful history. -/
def eachB (C : Calc V L X Y) (P : World V L X Y → Op V L X → Bool) : World V L X Y → List (Op V L X) → Bool
  | _, [] => true
  | w, op :: ops => P w op && eachB C P (step C w op) ops

theorem eachB_sound {C : Calc V L X Y} {P : World V L X Y → Op V L X → Bool}
    {Q : World V L X Y → Op V L X → Prop} (hPQ : ∀ w op, SInv w → P w op = true → Q w op) :
    ∀ (ops : List (Op V L X)) {w : World V L X Y} {a : AWorld V L}, Inv C w a → Along C Good w ops →
      eachB C P w ops = true → Along C Q w ops
  | [], _, _, _, _, _ => trivial
  | op :: ops, w, a, hi, hg, h => by
    simp only [eachB, Bool.and_eq_true] at h
    exact ⟨hPQ w op hi.s h.1, eachB_sound hPQ ops (inv_step hi op hg.1) hg.2 h.2⟩

theorem hazardB_sound (w : World V L X Y) (op : Op V L X) (hs : SInv w) (h : hazardB w op = true) :
    HazardKept w op := by
  cases op with
  | replace o o' =>
    intro m p hp
    simp only [hazardB, List.all_eq_true, List.mem_range] at h
    have := h m (hs.lt m p hp)
    simpa [hp] using this
  | _ => trivial

theorem collapseB_sound (w : World V L Unit Y) (op : Op V L Unit) (h : collapseB w op = true) :
    CollapseFirst w op := by
  cases op with
  | setCollapse n d => intro x; simpa [collapseB] using h
  | _ => trivial

theorem toldB_sound (w : World V L Unit Y) (op : Op V L Unit) (hs : SInv w) (h : toldB w op = true) (n : ℕ)
    (hk : kindAt w n = some .str) : Told w n op := by
  obtain ⟨o, ho, hok⟩ := kindAt_some hk
  simp only [toldB, List.all_eq_true, List.mem_range] at h
  have h1 := h n (hs.lt n o ho)
  simp only [ho, hok, ne_eq, not_true_eq_false, decide_false, Bool.false_or, Bool.or_eq_true] at h1
  rcases h1 with h1 | h1
  · exact Or.inr (Or.inr (Or.inr fun x => by simpa using h1))
  · cases op with
    | setCollapse i d => exact Or.inr (Or.inl (.collapse o i d ho (by simpa using h1)))
    | setDemolition i d => exact Or.inr (Or.inl (.demolition o i d ho (by simpa using h1)))
    | addComp m g =>
      have h1 : m = n := by simpa using h1
      subst h1
      exact Or.inr (Or.inr (Or.inl ⟨g, rfl⟩))
    | new k v ds => exact Or.inl fun _ _ h => h
    | query m sel => exact Or.inl fun _ _ h => h
    | _ => cases h1

/-- Rates read and set repeatedly, while a demand function's median is replaced. -/
def rates : List (Op ℕ ℕ Unit) :=
  [.new .det 10 [], .new .im 11 [(.f, 0)], .setCollapse 1 (some 4), .setDemolition 1 (some 8),
   .new .det 12 [], .new .det 13 [], .new .prob 14 [(.mu, 2), (.sigma, 3)],
   .new .edp 15 [(.base, 1), (.first, 4)], .new .im 16 [(.f, 0)], .query 1 everything,
   .setDemolition 1 (some 9), .query 1 everything, .new .det 17 [], .replace 2 7, .setDemolition 1 none,
   .setCollapse 6 (some 3), .query 6 everything, .replace 1 6]

theorem rates_good : Along (probe fun _ => dist₁Of) Good empty rates :=
  checkB_sound rates (inv_init _) (by decide +kernel)

/-- C40 over a whole history: the demolition rate. -/
example (x : Unit) : view (probe fun _ => dist₁Of) (run (probe fun _ => dist₁Of) empty rates).heap 1
      .demolitionRate x =
    answer (probe fun _ => dist₁Of) (aRun (aInit ℕ ℕ) rates) 1 .demolitionRate x :=
  demolition_rate_never_stale_partial _ rates
    (along_both rates_good (along_both
      (eachB_sound hazardB_sound rates (inv_init _) rates_good (by decide +kernel))
      (eachB_sound (fun w op _ => collapseB_sound w op) rates (inv_init _) rates_good (by decide +kernel))))
    1 (by decide +kernel) x

/-- Both rates read, then collapse set. -/
def collapseSet' : List (Op ℕ ℕ Unit) :=
  [.new .det 10 [], .new .im 11 [(.f, 0)], .query 1 everything, .setCollapse 1 (some 5), .query 1 everything,
   .setDemolition 1 (some 8)]

/-- C40 over a whole history, with collapse set after the rates were read: the collapse rate. -/
example (x : Unit) : view (probe fun _ => dist₁Of) (run (probe fun _ => dist₁Of) empty collapseSet').heap 1
      .collapseRate x =
    answer (probe fun _ => dist₁Of) (aRun (aInit ℕ ℕ) collapseSet') 1 .collapseRate x :=
  have hg := checkB_sound collapseSet' (inv_init _) (by decide +kernel)
  collapse_rate_never_stale_partial _ collapseSet'
    (along_both hg (eachB_sound hazardB_sound collapseSet' (inv_init _) hg (by decide +kernel)))
    1 (by decide +kernel) x

/-- C41 over a whole history: settings change and a group is added after the annual cost was read. -/
def settled : List (Op ℕ ℕ Unit) :=
  house ++ [.setCollapse 1 (some 3), .query 9 everything, .addComp 9 12, .query 9 everything,
    .setDemolition 1 (some 4)]

example (x : Unit) : view (probe fun _ => entriesOf) (run (probe fun _ => entriesOf) empty settled).heap 9
      .annualCost x =
    answer (probe fun _ => entriesOf) (aRun (aInit ℕ ℕ) settled) 9 .annualCost x :=
  have hg := checkB_sound settled (inv_init _) (by decide +kernel)
  annual_cost_never_stale_partial _ settled
    (along_both hg (eachB_sound toldB_sound settled (inv_init _) hg (by decide +kernel)))
    9 (by decide +kernel) x

/-! ## The properties fail outside the discipline

Each theorem drops one clause of `Careful` and keeps the others (or keeps all of them, where the property
fails even for careful use). -/

/-- Replacements are other objects that have no clients of their own. -/
def FreshReplacements (w : World V L X Y) : Op V L X → Prop
  | .replace o o' => o ≠ o' ∧ (w.cbs o').callbacks = []
  | _ => True

/-- Clients register only where ids are not exhausted. -/
def Roomy (w : World V L X Y) : Op V L X → Prop
  | .new _ _ deps => ∀ d ∈ deps, RoomAt w d.2
  | .addComp n g => RoomAt w g ∧ ∀ o, w.heap n = some o → o.entries = [] →
      o.slots .sim = none ∧ ∀ i, getIM (abs w.heap) g = some i → RoomAt w i
  | _ => True

/-- No second demand function is replaced. -/
def FirstOnly (w : World V L X Y) : Op V L X → Prop
  | .replace o _ => ∀ e ∈ (w.cbs o).callbacks, e.2.slot ≠ .second
  | _ => True

/-- Checks `FreshReplacements`. -/
def freshB (w : World V L X Y) : Op V L X → Bool
  | .replace o o' => decide (o ≠ o') && (w.cbs o').callbacks.isEmpty
  | _ => true

theorem freshB_sound (w : World V L X Y) (op : Op V L X) (h : freshB w op = true) : FreshReplacements w op := by
  cases op <;> simp_all [freshB, FreshReplacements]

/-- Checks `Roomy` (for histories without structures). -/
def roomyB (w : World V L X Y) : Op V L X → Bool
  | .new _ _ deps => deps.all fun d => roomB w d.2
  | .addComp _ _ => false
  | _ => true

theorem roomyB_sound (w : World V L X Y) (op : Op V L X) (h : roomyB w op = true) : Roomy w op := by
  cases op with
  | new k v ds =>
    simp only [roomyB, List.all_eq_true] at h
    exact fun d hd => roomB_sound (h d hd)
  | addComp n g => cases h
  | _ => trivial

/-- Checks `FirstOnly`. -/
def firstB (w : World V L X Y) : Op V L X → Bool
  | .replace o _ => (w.cbs o).callbacks.all fun e => decide (e.2.slot ≠ .second)
  | _ => true

theorem firstB_sound (w : World V L X Y) (op : Op V L X) (h : firstB w op = true) : FirstOnly w op := by
  cases op with
  | replace o o' =>
    simp only [firstB, List.all_eq_true, decide_eq_true_eq] at h
    exact h
  | _ => trivial

/-- Reads the collapse setting of the intensity measure of an EDP. -/
def collapseSeen : Calc ℕ ℕ Unit (Option ℕ) :=
  probe fun _ t => match t with
    | .none => none
    | .node _ _ _ _ ch => dist₁Of (ch .base)

/-- Two EDPs, the intensity measure of one replaced by a new one, and another EDP built on the new one: the
id given to the second client is the one the first took with it. -/
def idClash : List (Op ℕ ℕ Unit) :=
  [.new .det 10 [], .new .im 11 [(.f, 0)], .new .det 12 [], .new .det 13 [],
   .new .prob 14 [(.mu, 2), (.sigma, 3)], .new .edp 15 [(.base, 1), (.first, 4)], .new .im 16 [(.f, 0)],
   .replace 1 6, .new .edp 17 [(.base, 6), (.first, 4)], .query 5 everything, .setCollapse 6 (some 99)]

/-- C38 fails when a client registers after a replacement whose ids were carried over: the registration
overwrites the first client's and that EDP is never told again. -/
theorem edp_stale_after_id_clash_fails :
    ¬ ∀ (C : Calc ℕ ℕ Unit (Option ℕ)) (ops : List (Op ℕ ℕ Unit)),
      Along C (fun w op => Allowed w op ∧ FreshReplacements w op ∧ FirstOnly w op) empty ops →
      ∀ n, kindAt (run C empty ops) n = some .edp →
        view C (run C empty ops).heap n .lambda () = answer C (aRun (aInit ℕ ℕ) ops) n .lambda () := by
  intro h
  have h1 := h collapseSeen idClash
    (allowB_sound (P := fun w op => freshB w op && firstB w op)
      (fun w op h => by
        simp only [Bool.and_eq_true] at h
        exact ⟨freshB_sound w op h.1, firstB_sound w op h.2⟩) _ (by decide +kernel))
    5 (by decide +kernel)
  have e : cacheAt (run collapseSeen empty idClash).heap 5 .lambda () = some none := by decide +kernel
  have e' : answer collapseSeen (aRun (aInit ℕ ℕ) idClash) 5 .lambda () = some 99 := by
    rw [answer]; unfold collapseSeen; rw [fresh_probe]; decide +kernel
  rw [view_cached e, e'] at h1
  cases h1

/-- Two EDPs on different intensity measures; the first measure is replaced by the second, which has a
client already. -/
def sharedReplacement : List (Op ℕ ℕ Unit) :=
  [.new .det 10 [], .new .im 11 [(.f, 0)], .new .det 12 [], .new .det 13 [],
   .new .prob 14 [(.mu, 2), (.sigma, 3)], .new .edp 15 [(.base, 1), (.first, 4)], .new .im 16 [(.f, 0)],
   .new .edp 17 [(.base, 6), (.first, 4)], .replace 1 6, .query 7 everything, .setCollapse 6 (some 99)]

/-- C38 fails when an object is replaced by one that already has clients: their registrations are
overwritten. -/
theorem edp_stale_after_shared_replacement_fails :
    ¬ ∀ (C : Calc ℕ ℕ Unit (Option ℕ)) (ops : List (Op ℕ ℕ Unit)),
      Along C (fun w op => Allowed w op ∧ Roomy w op ∧ FirstOnly w op) empty ops →
      ∀ n, kindAt (run C empty ops) n = some .edp →
        view C (run C empty ops).heap n .lambda () = answer C (aRun (aInit ℕ ℕ) ops) n .lambda () := by
  intro h
  have h1 := h collapseSeen sharedReplacement
    (allowB_sound (P := fun w op => roomyB w op && firstB w op)
      (fun w op h => by
        simp only [Bool.and_eq_true] at h
        exact ⟨roomyB_sound w op h.1, firstB_sound w op h.2⟩) _ (by decide +kernel))
    7 (by decide +kernel)
  have e : cacheAt (run collapseSeen empty sharedReplacement).heap 7 .lambda () = some none := by decide +kernel
  have e' : answer collapseSeen (aRun (aInit ℕ ℕ) sharedReplacement) 7 .lambda () = some 99 := by
    rw [answer]; unfold collapseSeen; rw [fresh_probe]; decide +kernel
  rw [view_cached e, e'] at h1
  cases h1

/-- A compound EDP whose second demand function is replaced. -/
def secondReplaced : List (Op ℕ ℕ Unit) :=
  [.new .det 10 [], .new .im 11 [(.f, 0)], .new .det 12 [], .new .det 13 [],
   .new .prob 14 [(.mu, 2), (.sigma, 3)], .new .prob 15 [(.mu, 2), (.sigma, 3)],
   .new .edp 16 [(.base, 1), (.first, 4), (.second, 5)], .new .prob 17 [(.mu, 2), (.sigma, 3)],
   .replace 5 7]

/-- C42 fails for the second demand function of a compound EDP: its replacement lands in the first place,
and the second still names the object that was replaced (relationships.cpp:400-408). -/
theorem compound_second_fails :
    ¬ ∀ (C : Calc ℕ ℕ Unit (Option ℕ)) (ops : List (Op ℕ ℕ Unit)),
      Along C (fun w op => Allowed w op ∧ FreshReplacements w op ∧ Roomy w op) empty ops →
      abs (run C empty ops).heap = (aRun (aInit ℕ ℕ) ops).heap := by
  intro h
  have h1 := h (probe fun _ => contentOf) secondReplaced
    (allowB_sound (P := fun w op => freshB w op && roomyB w op)
      (fun w op h => by
        simp only [Bool.and_eq_true] at h
        exact ⟨freshB_sound w op h.1, roomyB_sound w op h.2⟩) _ (by decide +kernel))
  have e : (abs (run (probe fun _ => contentOf) empty secondReplaced).heap 6).map
      (fun o => (o.slots .first, o.slots .second)) = some (some 7, some 5) := by decide +kernel
  have e' : ((aRun (aInit ℕ ℕ) secondReplaced).heap 6).map
      (fun o => (o.slots .first, o.slots .second)) = some (some 4, some 7) := by decide +kernel
  rw [h1, e'] at e
  cases e

/-- Rates read, then the hazard curve replaced. -/
def hazardReplaced : List (Op ℕ ℕ Unit) :=
  [.new .det 10 [], .new .im 11 [(.f, 0)], .query 1 everything, .new .det 12 [], .replace 0 2]

/-- Reads the content of the hazard curve of an intensity measure. -/
def hazardSeen : Calc ℕ ℕ Unit (Option ℕ) :=
  probe fun _ t => match t with
    | .none => none
    | .node _ _ _ _ ch => contentOf (ch .f)

/-- C40 fails, however careful the use: replacing the hazard curve does not clear the collapse rate
(relationships.cpp:49-57). -/
theorem collapse_rate_after_hazard_fails :
    ¬ ∀ (C : Calc ℕ ℕ Unit (Option ℕ)) (ops : List (Op ℕ ℕ Unit)), Along C Good empty ops →
      ∀ n, kindAt (run C empty ops) n = some .im →
        view C (run C empty ops).heap n .collapseRate () =
          answer C (aRun (aInit ℕ ℕ) ops) n .collapseRate () := by
  intro h
  have h1 := h hazardSeen hazardReplaced (checkB_sound _ (inv_init _) (by decide +kernel)) 1 (by decide +kernel)
  have e : cacheAt (run hazardSeen empty hazardReplaced).heap 1 .collapseRate () = some (some 10) := by
    decide +kernel
  have e' : answer hazardSeen (aRun (aInit ℕ ℕ) hazardReplaced) 1 .collapseRate () = some 12 := by
    rw [answer]; unfold hazardSeen; rw [fresh_probe]; decide +kernel
  rw [view_cached e, e'] at h1
  cases h1

/-- The same for the demolition rate. -/
theorem demolition_rate_after_hazard_fails :
    ¬ ∀ (C : Calc ℕ ℕ Unit (Option ℕ)) (ops : List (Op ℕ ℕ Unit)), Along C Good empty ops →
      ∀ n, kindAt (run C empty ops) n = some .im →
        view C (run C empty ops).heap n .demolitionRate () =
          answer C (aRun (aInit ℕ ℕ) ops) n .demolitionRate () := by
  intro h
  have h1 := h hazardSeen hazardReplaced (checkB_sound _ (inv_init _) (by decide +kernel)) 1 (by decide +kernel)
  have e : cacheAt (run hazardSeen empty hazardReplaced).heap 1 .demolitionRate () = some (some 10) := by
    decide +kernel
  have e' : answer hazardSeen (aRun (aInit ℕ ℕ) hazardReplaced) 1 .demolitionRate () = some 12 := by
    rw [answer]; unfold hazardSeen; rw [fresh_probe]; decide +kernel
  rw [view_cached e, e'] at h1
  cases h1

/-- The demolition rate read, then collapse set. -/
def collapseSet : List (Op ℕ ℕ Unit) :=
  [.new .det 10 [], .new .im 11 [(.f, 0)], .setDemolition 1 (some 8), .query 1 everything,
   .setCollapse 1 (some 5)]

/-- C40 fails without any replacement: the demolition rate depends on the collapse distribution
(relationships.h:120-126), but `SetCollapse` does not clear it (relationships.h:74-86). -/
theorem demolition_rate_after_collapse_fails :
    ¬ ∀ (C : Calc ℕ ℕ Unit (Option ℕ)) (ops : List (Op ℕ ℕ Unit)), Along C Good empty ops →
      (∀ o o', Op.replace o o' ∉ ops) →
      ∀ n, kindAt (run C empty ops) n = some .im →
        view C (run C empty ops).heap n .demolitionRate () =
          answer C (aRun (aInit ℕ ℕ) ops) n .demolitionRate () := by
  intro h
  have h1 := h (probe fun _ => dist₁Of) collapseSet (checkB_sound _ (inv_init _) (by decide +kernel))
    (by simp [collapseSet]) 1 (by decide +kernel)
  have e : cacheAt (run (probe fun _ => dist₁Of) empty collapseSet).heap 1 .demolitionRate () = some none := by
    decide +kernel
  have e' : answer (probe fun _ => dist₁Of) (aRun (aInit ℕ ℕ) collapseSet) 1 .demolitionRate () = some 5 := by
    rw [answer, fresh_probe]; decide +kernel
  rw [view_cached e, e'] at h1
  cases h1

/-- C41 fails: setting the rebuilding cost does not clear the annual cost (structure.h:42). -/
theorem annual_cost_after_rebuild_fails :
    ¬ ∀ (C : Calc ℕ ℕ Unit (Option ℕ)) (ops : List (Op ℕ ℕ Unit)), Along C Good empty ops →
      (∀ o o', Op.replace o o' ∉ ops) → (∀ n g, Op.removeComp n g ∉ ops) →
      ∀ n, kindAt (run C empty ops) n = some .str →
        view C (run C empty ops).heap n .annualCost () = answer C (aRun (aInit ℕ ℕ) ops) n .annualCost () := by
  intro h
  have h1 := h (probe fun _ => dist₁Of) (house ++ [.setRebuild 9 (some 77)])
    (checkB_sound _ (inv_init _) (by decide +kernel)) (by simp [house]) (by simp [house]) 9 (by decide +kernel)
  have e : cacheAt (run (probe fun _ => dist₁Of) empty (house ++ [.setRebuild 9 (some 77)])).heap 9 .annualCost ()
      = some none := by decide +kernel
  have e' : answer (probe fun _ => dist₁Of) (aRun (aInit ℕ ℕ) (house ++ [.setRebuild 9 (some 77)])) 9
      .annualCost () = some 77 := by
    rw [answer, fresh_probe]; decide +kernel
  rw [view_cached e, e'] at h1
  cases h1

/-- Reads the second distribution of an object. -/
def dist₂Of : Tree ℕ ℕ → Option ℕ
  | .none => none
  | .node _ _ d _ _ => d

/-- C41 fails: setting the demolition cost does not clear the annual cost (structure.h:45). -/
theorem annual_cost_after_demolition_cost_fails :
    ¬ ∀ (C : Calc ℕ ℕ Unit (Option ℕ)) (ops : List (Op ℕ ℕ Unit)), Along C Good empty ops →
      (∀ o o', Op.replace o o' ∉ ops) → (∀ n g, Op.removeComp n g ∉ ops) →
      ∀ n, kindAt (run C empty ops) n = some .str →
        view C (run C empty ops).heap n .annualCost () = answer C (aRun (aInit ℕ ℕ) ops) n .annualCost () := by
  intro h
  have h1 := h (probe fun _ => dist₂Of) (house ++ [.setDemoCost 9 (some 77)])
    (checkB_sound _ (inv_init _) (by decide +kernel)) (by simp [house]) (by simp [house]) 9 (by decide +kernel)
  have e : cacheAt (run (probe fun _ => dist₂Of) empty (house ++ [.setDemoCost 9 (some 77)])).heap 9 .annualCost ()
      = some none := by decide +kernel
  have e' : answer (probe fun _ => dist₂Of) (aRun (aInit ℕ ℕ) (house ++ [.setDemoCost 9 (some 77)])) 9
      .annualCost () = some 77 := by
    rw [answer, fresh_probe]; decide +kernel
  rw [view_cached e, e'] at h1
  cases h1

/-- C41 fails: removing a group does not clear the annual cost (structure.cpp:72-81). -/
theorem annual_cost_after_removal_fails :
    ¬ ∀ (C : Calc ℕ ℕ Unit (Option ℕ)) (ops : List (Op ℕ ℕ Unit)), Along C Good empty ops →
      (∀ o o', Op.replace o o' ∉ ops) →
      ∀ n, kindAt (run C empty ops) n = some .str →
        view C (run C empty ops).heap n .annualCost () = answer C (aRun (aInit ℕ ℕ) ops) n .annualCost () := by
  intro h
  have h1 := h (probe fun _ => entriesOf) (house ++ [.removeComp 9 8])
    (checkB_sound _ (inv_init _) (by decide +kernel)) (by simp [house]) 9 (by decide +kernel)
  have e : cacheAt (run (probe fun _ => entriesOf) empty (house ++ [.removeComp 9 8])).heap 9 .annualCost ()
      = some (some 1) := by decide +kernel
  have e' : answer (probe fun _ => entriesOf) (aRun (aInit ℕ ℕ) (house ++ [.removeComp 9 8])) 9
      .annualCost () = some 0 := by
    rw [answer, fresh_probe]; decide +kernel
  rw [view_cached e, e'] at h1
  cases h1

/-- Calculations that follow the chain annual cost, expected cost of the group, its cost distribution,
content of the fragility function. -/
def fragilitySeen : Calc ℕ ℕ Unit (Option ℕ)
  | .annualCost, _, _, sub, x => (sub 10 .eCost (by decide) x).getD none
  | .eCost, _, own, _, x => own .costDist (by decide) x
  | .costDist, .node _ _ _ _ ch, _, _, _ => contentOf (ch .frag)
  | _, _, _, _, _ => none

/-- C41 fails: replacing the fragility function of a group does not clear the annual cost of the
structure, because a component group does not pass the change on (comp_group.cpp:110-135). -/
theorem annual_cost_after_fragility_fails :
    ¬ ∀ (C : Calc ℕ ℕ Unit (Option ℕ)) (ops : List (Op ℕ ℕ Unit)), Along C Good empty ops →
      (∀ n g, Op.removeComp n g ∉ ops) → (∀ n d, Op.setRebuild n d ∉ ops) → (∀ n d, Op.setDemoCost n d ∉ ops) →
      ∀ n, kindAt (run C empty ops) n = some .str →
        view C (run C empty ops).heap n .annualCost () = answer C (aRun (aInit ℕ ℕ) ops) n .annualCost () := by
  intro h
  have h1 := h fragilitySeen (house ++ [.replace 6 13])
    (checkB_sound _ (inv_init _) (by decide +kernel)) (by simp [house]) (by simp [house]) (by simp [house]) 9
    (by decide +kernel)
  have e : cacheAt (run fragilitySeen empty (house ++ [.replace 6 13])).heap 9 .annualCost ()
      = some (some 16) := by decide +kernel
  have e' : answer fragilitySeen (aRun (aInit ℕ ℕ) (house ++ [.replace 6 13])) 9
      .annualCost () = some 22 := by
    decide +kernel
  rw [view_cached e, e'] at h1
  cases h1

/-- Calculations that follow the chain annual cost, expected cost of the group, median of the demand. -/
def demandSeen : Calc ℕ ℕ Unit (Option ℕ)
  | .annualCost, _, _, sub, x => (sub 10 .eCost (by decide) x).getD none
  | .eCost, .node _ _ _ _ ch, _, _, _ =>
    match ch .edp with
    | .node _ _ _ _ ch' =>
      match ch' .first with
      | .node _ _ _ _ ch'' => contentOf (ch'' .mu)
      | .none => none
    | .none => none
  | _, _, _, _, _ => none

/-- C41 fails: the groups are told that the demand function has changed and clear their own values, but do not pass it
on (comp_group.cpp:86-96), so the annual cost of the structure stays as it was. -/
theorem annual_cost_after_demand_fails :
    ¬ ∀ (C : Calc ℕ ℕ Unit (Option ℕ)) (ops : List (Op ℕ ℕ Unit)), Along C Good empty ops →
      (∀ n g, Op.removeComp n g ∉ ops) → (∀ n d, Op.setRebuild n d ∉ ops) → (∀ n d, Op.setDemoCost n d ∉ ops) →
      (∀ o o', Op.replace o o' ∈ ops → kindAt (run C empty ops) o' = some .det) →
      ∀ n, kindAt (run C empty ops) n = some .str →
        view C (run C empty ops).heap n .annualCost () = answer C (aRun (aInit ℕ ℕ) ops) n .annualCost () := by
  intro h
  have h1 := h demandSeen (house ++ [.new .det 23 [], .replace 2 14])
    (checkB_sound _ (inv_init _) (by decide +kernel)) (by simp [house]) (by simp [house]) (by simp [house])
    (by
      intro o o' ho
      have : o' = 14 := by simp [house] at ho; exact ho.2
      subst this; decide +kernel) 9 (by decide +kernel)
  have e : cacheAt (run demandSeen empty (house ++ [.new .det 23 [], .replace 2 14])).heap 9 .annualCost ()
      = some (some 12) := by decide +kernel
  have e' : answer demandSeen (aRun (aInit ℕ ℕ) (house ++ [.new .det 23 [], .replace 2 14])) 9
      .annualCost () = some 23 := by
    decide +kernel
  rw [view_cached e, e'] at h1
  cases h1

/-! ## Dangling callbacks -/

/-- A structure is dropped and its group is then replaced. -/
def structureDropped : List (Op ℕ ℕ Unit) := house ++ [.destroy 9, .replace 8 12]

theorem along_append {C : Calc V L X Y} {P : World V L X Y → Op V L X → Prop} :
    ∀ {ops ops' : List (Op V L X)} {w : World V L X Y}, Along C P w ops → Along C P (run C w ops) ops' →
      Along C P w (ops ++ ops')
  | [], _, _, _, h => h
  | _ :: _, _, _, h, h' => ⟨h.1, along_append h.2 h'⟩

theorem along_mono {C : Calc V L X Y} {P Q : World V L X Y → Op V L X → Prop} (hPQ : ∀ w op, P w op → Q w op) :
    ∀ {ops : List (Op V L X)} {w : World V L X Y}, Along C P w ops → Along C Q w ops
  | [], _, _ => trivial
  | _ :: _, _, h => ⟨hPQ _ _ h.1, along_mono hPQ h.2⟩

/-- C54 fails for structures: the destructor leaves the structure's callbacks registered with the groups
and the intensity measure (structure.h:23), so the next notification runs them on a destroyed object. -/
theorem structure_destroyed_fails :
    ¬ ∀ (C : Calc ℕ ℕ Unit (Option ℕ)) (ops : List (Op ℕ ℕ Unit)),
      Along C (fun w op => Allowed w op ∧ FreshReplacements w op ∧ Roomy w op ∧ FirstOnly w op) empty ops →
      (run C empty ops).ub = false := by
  intro h
  have hg : Along (probe fun _ => contentOf) Good empty house :=
    checkB_sound _ (inv_init _) (by decide +kernel)
  have hweak : ∀ (w : World ℕ ℕ Unit (Option ℕ)) (op : Op ℕ ℕ Unit), Good w op →
      Allowed w op ∧ FreshReplacements w op ∧ Roomy w op ∧ FirstOnly w op := by
    rintro w op ⟨h1, h2⟩
    cases op with
    | replace o o' => exact ⟨h1, ⟨h2.1, h2.2.1⟩, trivial, h2.2.2⟩
    | new k v ds => exact ⟨h1, trivial, h2, trivial⟩
    | addComp n g => exact ⟨h1, trivial, h2, trivial⟩
    | _ => exact ⟨h1, trivial, trivial, trivial⟩
  have hs := (inv_run house _ _ (inv_init _) hg).s
  have h1 := h (probe fun _ => contentOf) structureDropped
    (along_append (along_mono hweak hg)
      ⟨⟨⟨by decide +kernel, refsB_sound hs (by decide +kernel)⟩, trivial, trivial, trivial⟩,
       ⟨⟨.cg, by decide, by decide +kernel, by decide +kernel⟩, ⟨by decide, by decide +kernel⟩, trivial,
        firstB_sound _ _ (by decide +kernel)⟩, trivial⟩)
  have e : (run (probe fun _ => contentOf) empty structureDropped).ub = true := by decide +kernel
  rw [e] at h1
  cases h1

/-- A compound EDP whose second demand function was replaced is dropped; then the median function of all the
demand functions is replaced. -/
def compoundDropped : List (Op ℕ ℕ Unit) := secondReplaced ++ [.destroy 6, .new .det 20 [], .replace 2 8]

/-- Change callbacks assign no members. -/
theorem notify_slots : ∀ (k : ℕ) (w : World V L X Y) (n m : ℕ),
    ((notify k w n).heap m).map (fun o => o.slots) = (w.heap m).map (fun o => o.slots)
  | 0, _, _, _ => rfl
  | k + 1, w, n, m => by
    rw [notify]
    obtain ⟨evs, hevs⟩ : ∃ evs, evs = Replaceable.notifyChange w.cbs n := ⟨_, rfl⟩
    rw [← hevs]
    clear hevs
    induction evs generalizing w with
    | nil => rfl
    | cons ev evs ih =>
      rw [List.foldl_cons, ih]
      cases ev with
      | replaced _ _ => rfl
      | changed c =>
        simp only
        cases hc : w.heap c.node with
        | none => rfl
        | some o =>
          simp only
          have e : ((w.set c.node (o.clear (onChange c.slot).clears)).heap m).map (fun o => o.slots) =
              (w.heap m).map (fun o => o.slots) := by
            by_cases hm : m = c.node
            · subst hm; simp [World.set, hc, Obj.clear]
            · simp [World.set, hm]
          split
          · rw [notify_slots k, e]
          · exact e

/-- A replacement makes members point to the new object only. -/
theorem replace_targets (w : World V L X Y) (o o' t : ℕ) (ht : t ≠ o')
    (h : ∀ m p s, w.heap m = some p → p.slots s ≠ some t) :
    ∀ m p s, (replace w o o').heap m = some p → p.slots s ≠ some t := by
  have key : ∀ (evs : List (Replaceable.Event Client)) (w : World V L X Y),
      (∀ c m, Replaceable.Event.replaced c m ∈ evs → m = o') →
      (∀ m p s, w.heap m = some p → p.slots s ≠ some t) →
      ∀ m p s, (evs.foldl (fun w ev =>
        match ev with
        | .changed _ => w
        | .replaced c m => runReplaced w c m) w).heap m = some p → p.slots s ≠ some t := by
    intro evs
    induction evs with
    | nil => intro w _ h; exact h
    | cons ev evs ih =>
      intro w hm h
      rw [List.foldl_cons]
      refine ih _ (fun c m hc => hm c m (List.mem_cons_of_mem _ hc)) ?_
      cases ev with
      | changed _ => exact h
      | replaced c m' =>
        have e := hm c m' (by simp)
        subst e
        simp only [runReplaced]
        cases hc : w.heap c.node with
        | none => exact h
        | some q =>
          simp only
          have h2 : ∀ m p s, (w.set c.node ((q.clear (onReplace c.slot).clears).setSlot
              (onReplace c.slot).target m')).heap m = some p → p.slots s ≠ some t := by
            intro m p s hp
            by_cases hm : m = c.node
            · subst hm
              simp only [World.set, Function.update_self, Option.some.injEq] at hp
              subst hp
              simp only [Obj.setSlot, Obj.clear]
              split
              · simpa using fun h => ht h.symm
              · exact h _ q s hc
            · simp only [World.set, Function.update_of_ne hm] at hp
              exact h m p s hp
          split
          · intro m p s hp
            have e := notify_slots depth (w.set c.node ((q.clear (onReplace c.slot).clears).setSlot
              (onReplace c.slot).target m')) c.node m
            rw [hp] at e
            obtain ⟨p', hp', hs⟩ := Option.map_eq_some_iff.1 e.symm
            have hs' : p'.slots s = p.slots s := congrFun hs s
            rw [← hs']
            exact h2 m p' s hp'
          · exact h2
  refine key _ _ ?_ h
  intro c m hm
  simp [Replaceable.replaceObj] at hm
  grind

/-- No structure is destroyed. -/
def KeepStructures (w : World V L X Y) : Op V L X → Prop
  | .destroy n => kindAt w n ≠ some .str
  | _ => True

/-- C54 fails for compound EDPs whose second demand function was replaced: the destructor no longer knows
the first demand function, whose callback stays behind (relationships.cpp:400-408, relationships.h:269-273). -/
theorem compound_destroyed_fails :
    ¬ ∀ (C : Calc ℕ ℕ Unit (Option ℕ)) (ops : List (Op ℕ ℕ Unit)),
      Along C (fun w op => Allowed w op ∧ FreshReplacements w op ∧ Roomy w op ∧ KeepStructures w op) empty ops →
      (run C empty ops).ub = false := by
  intro h
  have h1 := h (probe fun _ => contentOf) compoundDropped
    (along_append
      (along_mono (fun w op (h : Allowed w op ∧ FreshReplacements w op ∧ Roomy w op ∧ KeepStructures w op) => h)
      (allowB_sound (P := fun w op => freshB w op && roomyB w op && (match op with | .destroy _ => false | _ => true))
        (fun w op h => by
          simp only [Bool.and_eq_true] at h
          refine ⟨freshB_sound w op h.1.1, roomyB_sound w op h.1.2, ?_⟩
          cases op with
          | destroy n => exact absurd h.2 (by simp)
          | _ => trivial) _ (by decide +kernel)))
      ⟨⟨⟨by decide +kernel, ?_⟩, trivial, trivial, (show kindAt _ 6 ≠ some Kind.str by decide +kernel)⟩,
       ⟨⟨.det, by simp⟩, trivial, by simp [Roomy], trivial⟩,
       ⟨⟨.det, by decide, by decide +kernel, by decide +kernel⟩, ⟨by decide, by decide +kernel⟩, trivial, trivial⟩,
       trivial⟩)
  · have e : (run (probe fun _ => contentOf) empty compoundDropped).ub = true := by decide +kernel
    rw [e] at h1
    cases h1
  · have hg : Along (probe fun _ => contentOf) Good empty (secondReplaced.take 8) :=
      checkB_sound _ (inv_init _) (by decide +kernel)
    have hs := (inv_run _ _ _ (inv_init _) hg).s
    exact replace_targets _ 5 7 6 (by decide) (refsB_sound hs (by decide +kernel))

end Slat.Graph
