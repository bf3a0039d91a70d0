import Verif.GraphSteps3

/-!
# Properties of the object graph (C38-C42, C54)

`Good` is what the C++ types permit plus the usage discipline `Careful` of `GraphSpec.lean`.  `view` is what
the code reports; `answer` is calculated from scratch by the specification machine, which has neither
callbacks nor caches.
-/

namespace Slat.Graph

variable {V L X Y : Type}

/-- C38 (careful histories): after any history an EDP reports the rate calculated from scratch. -/
theorem edp_never_stale_partial (C : Calc V L X Y) (ops : List (Op V L X))
    (hg : Along C Good (init V L X Y) ops) (n : ℕ) (hk : kindAt (run C (init V L X Y) ops) n = some .edp)
    (x : X) :
    view C (run C (init V L X Y) ops).heap n .lambda x = answer C (aRun (aInit V L) ops) n .lambda x := by
  have hi := inv_run ops _ _ (inv_init C) hg
  obtain ⟨o, ho, hok⟩ := kindAt_some hk
  rw [answer, ← hi.heap]
  exact view_eq_fresh hi.coh n o ho .lambda (by rw [hok]; rfl) (Or.inl rfl) x

/-- C39 (careful histories): after any history a component group reports, for each of its nine results, the
value calculated from scratch. -/
theorem group_never_stale_partial (C : Calc V L X Y) (ops : List (Op V L X))
    (hg : Along C Good (init V L X Y) ops) (n : ℕ) (hk : kindAt (run C (init V L X Y) ops) n = some .cg)
    (c : CacheId) (hc : c.owner = .cg) (x : X) :
    view C (run C (init V L X Y) ops).heap n c x = answer C (aRun (aInit V L) ops) n c x := by
  have hi := inv_run ops _ _ (inv_init C) hg
  obtain ⟨o, ho, hok⟩ := kindAt_some hk
  rw [answer, ← hi.heap]
  exact view_eq_fresh hi.coh n o ho c (by rw [hok]; exact hc) (Or.inr hc) x

/-- C42 (careful histories): members follow replacements.  Every member of every object is what the
specification says: the object assigned at construction, redirected by every later replacement. -/
theorem members_follow_partial (C : Calc V L X Y) (ops : List (Op V L X))
    (hg : Along C Good (init V L X Y) ops) :
    abs (run C (init V L X Y) ops).heap = (aRun (aInit V L) ops).heap :=
  (inv_run ops _ _ (inv_init C) hg).heap

/-- C54 (careful histories): no callback ever runs on a destroyed object. -/
theorem no_dangling_partial (C : Calc V L X Y) (ops : List (Op V L X))
    (hg : Along C Good (init V L X Y) ops) : (run C (init V L X Y) ops).ub = false :=
  (inv_run ops _ _ (inv_init C) hg).s.ub

/-- C54 (careful histories): the registered clients are exactly the members referring to the object, each
under the id it remembers. -/
theorem registered_iff_partial (C : Calc V L X Y) (ops : List (Op V L X))
    (hg : Along C Good (init V L X Y) ops) (t id n : ℕ) (s : Slot) :
    (id, (⟨n, s⟩ : Client)) ∈ ((run C (init V L X Y) ops).cbs t).callbacks ↔
      ∃ o, (run C (init V L X Y) ops).heap n = some o ∧ o.slots s = some t ∧ o.ids s = id := by
  have hi := inv_run ops _ _ (inv_init C) hg
  constructor
  · exact hi.s.own t id n s
  · rintro ⟨o, ho, hs, rfl⟩; exact hi.s.reg n o s t ho hs

end Slat.Graph
