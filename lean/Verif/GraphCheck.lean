import Verif.GraphProps3

/-! A checker for the hypotheses `Good` on concrete histories (used only for the examples). -/

namespace Slat.Graph

variable {V L X Y : Type}

/-- Checks the member list of a constructor call. -/
def ctorB : Kind → List (Slot × ℕ) → Bool
  | .det, [] => true
  | .frag, [] => true
  | .loss, [] => true
  | .str, [] => true
  | .prob, [(.mu, _), (.sigma, _)] => true
  | .im, [(.f, _)] => true
  | .edp, [(.base, _), (.first, _)] => true
  | .edp, [(.base, _), (.first, _), (.second, _)] => true
  | .cg, [(.edp, _), (.frag, _)] => true
  | .cg, [(.edp, _), (.frag, _), (.cost, _)] => true
  | .cg, [(.edp, _), (.frag, _), (.delay, _)] => true
  | .cg, [(.edp, _), (.frag, _), (.cost, _), (.delay, _)] => true
  | _, _ => false

theorem ctorB_sound {k : Kind} {ds : List (Slot × ℕ)} (h : ctorB k ds = true) : CtorDeps k ds := by
  unfold ctorB at h
  split at h
  · exact .det
  · exact .frag
  · exact .loss
  · exact .str
  · exact .prob _ _
  · exact .im _
  · exact .edp _ _
  · exact .compound _ _ _
  · exact .cg _ _ none none
  · exact .cg _ _ (some _) none
  · exact .cg _ _ none (some _)
  · exact .cg _ _ (some _) (some _)
  · cases h

/-- Checks `RoomAt`. -/
def roomB (w : World V L X Y) (t : ℕ) : Bool :=
  (w.cbs t).callbacks.all fun e => decide (e.1 ≤ (w.cbs t).idCounter)

theorem roomB_sound {w : World V L X Y} {t : ℕ} (h : roomB w t = true) : RoomAt w t := by
  intro e he
  simpa using List.all_eq_true.1 h e he

/-- All slots that can be in use. -/
def slotList (n : ℕ) : List Slot :=
  [.f, .mu, .sigma, .base, .first, .second, .edp, .frag, .cost, .delay, .sim] ++ (List.range n).map .entry

/-- Does some live object refer to `n`? -/
def refsB (w : World V L X Y) (n : ℕ) : Bool :=
  (List.range w.next).any fun m =>
    match w.heap m with
    | none => false
    | some o => (slotList w.next).any fun s => decide (o.slots s = some n)

theorem refsB_sound {w : World V L X Y} (hs : SInv w) {n : ℕ} (h : refsB w n = false) :
    ∀ m o s, w.heap m = some o → o.slots s ≠ some n := by
  intro m o s ho hsn
  have hlt := hs.lt m o ho
  simp only [refsB, List.any_eq_false, List.mem_range] at h
  have h1 := h m hlt
  simp only [ho, List.any_eq_true, not_exists, not_and, decide_eq_true_eq] at h1
  refine h1 s ?_ hsn
  cases s with
  | entry k =>
    have := hs.entryLt m o k n ho hsn
    simp [slotList, this]
  | _ => simp [slotList]

/-- Checks `Good`. -/
def goodB (w : World V L X Y) : Op V L X → Bool
  | .new k _ ds => ctorB k ds && ds.all fun d => decide (kindAt w d.2 = some d.1.target) && roomB w d.2
  | .replace o o' => decide (kindAt w o ≠ none) && decide (kindAt w o ≠ some .str) &&
      decide (kindAt w o' = kindAt w o) && decide (o ≠ o') && (w.cbs o').callbacks.isEmpty &&
      (w.cbs o).callbacks.all fun e => decide (e.2.slot ≠ .second)
  | .setCollapse n _ => decide (kindAt w n = some .im)
  | .setDemolition n _ => decide (kindAt w n = some .im)
  | .addComp n g => decide (kindAt w n = some .str) && decide (kindAt w g = some .cg) && roomB w g &&
      match w.heap n with
      | none => false
      | some o => decide (o.entries ≠ []) || (decide (o.slots .sim = none) &&
          match getIM (abs w.heap) g with
          | none => true
          | some i => roomB w i)
  | .removeComp n g => decide (kindAt w n = some .str) && decide (kindAt w g = some .cg)
  | .setRebuild n _ => decide (kindAt w n = some .str)
  | .setDemoCost n _ => decide (kindAt w n = some .str)
  | .destroy n => (w.heap n).isSome && !refsB w n && decide (kindAt w n ≠ some .str)
  | .query n _ => (w.heap n).isSome

theorem goodB_sound {w : World V L X Y} (hs : SInv w) {op : Op V L X} (h : goodB w op = true) : Good w op := by
  cases op with
  | new k v ds =>
    simp only [goodB, Bool.and_eq_true, List.all_eq_true, decide_eq_true_eq] at h
    exact ⟨⟨ctorB_sound h.1, fun d hd => (h.2 d hd).1⟩, fun d hd => roomB_sound (h.2 d hd).2⟩
  | replace o o' =>
    simp only [goodB, Bool.and_eq_true, List.all_eq_true, decide_eq_true_eq, List.isEmpty_iff] at h
    obtain ⟨⟨⟨⟨⟨h1, h2⟩, h3⟩, h4⟩, h5⟩, h6⟩ := h
    obtain ⟨k, hk⟩ := Option.ne_none_iff_exists'.1 h1
    exact ⟨⟨k, by rintro rfl; exact h2 hk, hk, h3.trans hk⟩, h4, h5, h6⟩
  | setCollapse n d => simp only [goodB, decide_eq_true_eq] at h; exact ⟨h, trivial⟩
  | setDemolition n d => simp only [goodB, decide_eq_true_eq] at h; exact ⟨h, trivial⟩
  | addComp n g =>
    simp only [goodB, Bool.and_eq_true, decide_eq_true_eq] at h
    obtain ⟨⟨⟨h1, h2⟩, h3⟩, h4⟩ := h
    refine ⟨⟨h1, h2⟩, roomB_sound h3, fun o ho he => ?_⟩
    simp only [ho, Bool.or_eq_true, Bool.and_eq_true, decide_eq_true_eq] at h4
    rcases h4 with h4 | ⟨h4, h5⟩
    · exact absurd he h4
    · refine ⟨h4, fun i hi => ?_⟩
      rw [hi] at h5
      exact roomB_sound h5
  | removeComp n g =>
    simp only [goodB, Bool.and_eq_true, decide_eq_true_eq] at h; exact ⟨h, trivial⟩
  | setRebuild n d => simp only [goodB, decide_eq_true_eq] at h; exact ⟨h, trivial⟩
  | setDemoCost n d => simp only [goodB, decide_eq_true_eq] at h; exact ⟨h, trivial⟩
  | destroy n =>
    simp only [goodB, Bool.and_eq_true, decide_eq_true_eq, Bool.not_eq_true'] at h
    exact ⟨⟨h.1.1, refsB_sound hs h.1.2⟩, h.2⟩
  | query n sel => exact ⟨h, trivial⟩

/-- Checks a whole history. -/
def checkB (C : Calc V L X Y) : World V L X Y → List (Op V L X) → Bool
  | _, [] => true
  | w, op :: ops => goodB w op && checkB C (step C w op) ops

theorem checkB_sound {C : Calc V L X Y} : ∀ (ops : List (Op V L X)) {w : World V L X Y} {a : AWorld V L},
    Inv C w a → checkB C w ops = true → Along C Good w ops
  | [], _, _, _, _ => trivial
  | op :: ops, w, a, hi, h => by
    simp only [checkB, Bool.and_eq_true] at h
    have hg := goodB_sound hi.s h.1
    exact ⟨hg, checkB_sound ops (inv_step hi op hg) h.2⟩

end Slat.Graph

namespace Slat.Graph

variable {V L X Y : Type}

/-- Checks `Allowed` (destruction is checked separately). -/
def allowedB (w : World V L X Y) : Op V L X → Bool
  | .new k _ ds => ctorB k ds && ds.all fun d => decide (kindAt w d.2 = some d.1.target)
  | .replace o o' => decide (kindAt w o ≠ none) && decide (kindAt w o ≠ some .str) &&
      decide (kindAt w o' = kindAt w o)
  | .setCollapse n _ => decide (kindAt w n = some .im)
  | .setDemolition n _ => decide (kindAt w n = some .im)
  | .addComp n g => decide (kindAt w n = some .str) && decide (kindAt w g = some .cg)
  | .removeComp n g => decide (kindAt w n = some .str) && decide (kindAt w g = some .cg)
  | .setRebuild n _ => decide (kindAt w n = some .str)
  | .setDemoCost n _ => decide (kindAt w n = some .str)
  | .destroy _ => false
  | .query n _ => (w.heap n).isSome

theorem allowedB_sound {w : World V L X Y} {op : Op V L X} (h : allowedB w op = true) : Allowed w op := by
  cases op with
  | new k v ds =>
    simp only [allowedB, Bool.and_eq_true, List.all_eq_true, decide_eq_true_eq] at h
    exact ⟨ctorB_sound h.1, h.2⟩
  | replace o o' =>
    simp only [allowedB, Bool.and_eq_true, decide_eq_true_eq] at h
    obtain ⟨⟨h1, h2⟩, h3⟩ := h
    obtain ⟨k, hk⟩ := Option.ne_none_iff_exists'.1 h1
    exact ⟨k, by rintro rfl; exact h2 hk, hk, h3.trans hk⟩
  | setCollapse n d => simpa only [Allowed, allowedB, decide_eq_true_eq] using h
  | setDemolition n d => simpa only [Allowed, allowedB, decide_eq_true_eq] using h
  | addComp n g => simpa only [Allowed, allowedB, Bool.and_eq_true, decide_eq_true_eq] using h
  | removeComp n g => simpa only [Allowed, allowedB, Bool.and_eq_true, decide_eq_true_eq] using h
  | setRebuild n d => simpa only [Allowed, allowedB, decide_eq_true_eq] using h
  | setDemoCost n d => simpa only [Allowed, allowedB, decide_eq_true_eq] using h
  | destroy n => cases h
  | query n sel => exact h

/-- Checks a property of the state before each operation, and `Allowed`. -/
def allowB (C : Calc V L X Y) (P : World V L X Y → Op V L X → Bool) :
    World V L X Y → List (Op V L X) → Bool
  | _, [] => true
  | w, op :: ops => allowedB w op && P w op && allowB C P (step C w op) ops

theorem allowB_sound {C : Calc V L X Y} {P : World V L X Y → Op V L X → Bool}
    {Q : World V L X Y → Op V L X → Prop} (hPQ : ∀ w op, P w op = true → Q w op) :
    ∀ (ops : List (Op V L X)) {w : World V L X Y}, allowB C P w ops = true →
      Along C (fun w op => Allowed w op ∧ Q w op) w ops
  | [], _, _ => trivial
  | op :: ops, w, h => by
    simp only [allowB, Bool.and_eq_true] at h
    exact ⟨⟨allowedB_sound h.1.1, hPQ w op h.1.2⟩, allowB_sound hPQ ops h.2⟩

end Slat.Graph
