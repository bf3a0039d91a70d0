import Verif.PySpec

/-!
# C86: the Python interface answers with the library's answers

The full statement: for every library, object, documented query and number, list of numbers or other documented argument,
the query returns what the library answers, list by element and in order.  It does not hold: see the theorems `…_fails`.
The theorems `…_partial` leave out the queries of these.
-/

namespace Slat.Py

open Rec (Num)
open Spec

variable {S D : Type} (L : Lib S D)

theorem loop_eq (f : Dbl → Option Dbl) (xs : List Dbl) : loop f xs = each f xs := by
  induction xs with
  | nil => rfl
  | cons x xs ih => simp only [loop, ih, each, List.mapM_cons]

theorem number_gives (r : Option Dbl) (s : S) : (number r s : Out (Val D × S)) = gives .flt s r := by
  cases r <;> rfl

/-- **C86.** A number asked of a curve: the library's answer, as a `float`. -/
theorem curve_number_partial (s : S) (c : Class) (m : String) (f : Dbl → Option Dbl) (n : Num)
    (hc : c ≠ .probfn) (h : (m, f) ∈ curves L s c) :
    call L c s m [.num n] = gives .flt s (f n.toDbl) := by
  have : ∀ p ∈ curves L s c, call L c s p.1 [.num n] = gives .flt s (p.2 n.toDbl) := by
    cases c <;> first | contradiction | skip
    all_goals simp only [curves, List.forall_mem_cons]
    all_goals repeat' apply And.intro
    all_goals first | exact number_gives _ _ | simp
  exact this _ h

theorem numbers_gives (r : Option (List Dbl)) (s : S) :
    (numbers r s : Out (Val D × S)) = gives .tuple s r := by
  cases r <;> rfl

theorem list_gives (f : Dbl → Option Dbl) (xs : List Dbl) (s : S) :
    (numbers (loop f xs) s : Out (Val D × S)).then asList = gives .list s (each f xs) := by
  rw [loop_eq]; cases each f xs <;> rfl

theorem dist_gives (r : Option D) (s : S) :
    ((newDist r s).then fun r => .ok (wrap r)) = gives .wrapped s r := by
  cases r <;> rfl

/-- **C86.** A list of numbers asked of a curve: the list of the library's answers, in order.  Not for probabilistic
functions and three statistics of demands. -/
theorem curve_list_partial (s : S) (c : Class) (m : String) (f : Dbl → Option Dbl) (ns : List Num)
    (hc : c = .im ∨ c = .edp) (hm : c = .edp → m ∉ ["MeanLn", "Median", "SD"]) (h : (m, f) ∈ curves L s c) :
    call L c s m [.list ns] = gives .list s (each f (ns.map Num.toDbl)) := by
  have : ∀ p ∈ curves L s c, (c = .edp → p.1 ∉ ["MeanLn", "Median", "SD"]) →
      call L c s p.1 [.list ns] = gives .list s (each p.2 (ns.map Num.toDbl)) := by
    rcases hc with rfl | rfl
    all_goals simp only [curves, List.forall_mem_cons]
    all_goals repeat' apply And.intro
    all_goals intro hm
    all_goals first | exact list_gives _ _ _ | simp at hm | simp
  exact this _ h hm

/-- **C86.** The queries without argument that answer with a number. -/
theorem rate (s : S) (c : Class) (m : String) (r : Option Dbl) (h : (m, r) ∈ rates L s c) :
    call L c s m [] = gives .flt s r := by
  have : ∀ p ∈ rates L s c, call L c s p.1 [] = gives .flt s p.2 := by
    cases c
    all_goals simp only [rates, List.forall_mem_cons]
    all_goals repeat' apply And.intro
    all_goals first | exact number_gives _ _ | simp
  exact this _ h

/-- **C86.** The numbers of the damage states, in their order, and the rates of the states of a group. -/
theorem damage_states (s : S) :
    (∀ c m f n, (m, f) ∈ states L s c → call L c s m [.num n] = gives .tuple s (f n.toDbl)) ∧
    call L .compgroup s "Rate" [] = gives .tuple s (L.groupRate s) := by
  refine ⟨?_, numbers_gives _ _⟩
  intro c m f n h
  have : ∀ p ∈ states L s c, call L c s p.1 [.num n] = gives .tuple s (p.2 n.toDbl) := by
    cases c
    all_goals simp only [states, List.forall_mem_cons]
    all_goals repeat' apply And.intro
    all_goals first | exact numbers_gives _ _ | simp
  exact this _ h

/-- **C86.** The queries of two arguments: the value of a demand at a probability, the present value of the costs of a
structure over a number of years that a C `int` can hold. -/
theorem two_arguments_partial (s : S) (x p r : Num) (t : ℤ) (ht : -2 ^ 31 ≤ t ∧ t < 2 ^ 31) :
    call L .edp s "X_at_exceedence" [.num x, .num p] = gives .flt s (L.xAtExceedence s x.toDbl p.toDbl) ∧
    call L .structure s "E_cost" [.num (.int t), .num r] = gives .flt s (L.eCost s t r.toDbl) := by
  refine ⟨number_gives _ _, ?_⟩
  have : core L .structure s "E_cost" [.num (.int t), .num r] = number (L.eCost s t r.toDbl) s := by
    have hc : (convert .int (.num (.int t)) : Except Err (CVal D)) = .ok (.int t) := if_pos ht
    have : (resolve .structure "E_cost" [.num (.int t), .num r] : Except Err (List (CVal D))) =
        .ok [.int t, .dbl r.toDbl] := by
      show convertAll [.int, .dbl] [.num (.int t), .num r] = _
      simp only [convertAll, hc]
      rfl
    simp only [core, this]
    rfl
  exact this.trans (number_gives _ _)

/-- **C86.** The distributions of a structure's costs: a distribution of the interface, or three for the three fates of the
building in the documented order, or two settings read back. -/
theorem distributions_partial (s : S) (x : Num) (b : Bool) :
    (∀ m f, (m, f) ∈ costs L s .structure → call L .structure s m [.num x] = gives .wrapped s (f x.toDbl)) ∧
    call L .structure s "Cost" [.num x, .bool b] = gives .wrapped s (L.cost s x.toDbl b) ∧
    call L .structure s "AnnualCost" [] = gives .wrapped s (L.annualCost s) ∧
    call L .structure s "getRebuildCost" [] = .ok (.wrapped (L.getRebuild s), s) ∧
    call L .structure s "getDemolitionCost" [] = .ok (.wrapped (L.getDemolish s), s) ∧
    (∀ r d c, L.repairCost s x.toDbl = some r → L.demolitionCost s x.toDbl = some d →
      L.collapseCost s x.toDbl = some c →
      call L .structure s "CostsByFate" [.num x] = .ok (.wrappeds [r, d, c], s)) := by
  refine ⟨?_, dist_gives _ _, dist_gives _ _, rfl, rfl, ?_⟩
  · intro m f h
    simp only [costs, List.mem_singleton, Prod.mk.injEq] at h
    obtain ⟨rfl, rfl⟩ := h
    exact dist_gives _ _
  · intro r d c hr hd hc
    have : core L .structure s "CostsByFate" [.num x] = .ok (.cores [r, d, c], s) := by
      show Out.ofLib (do
        let r ← L.repairCost s x.toDbl
        let d ← L.demolitionCost s x.toDbl
        let c ← L.collapseCost s x.toDbl
        return (Val.cores [r, d, c], s)) = _
      rw [hr, hd, hc]; rfl
    show (core L .structure s "CostsByFate" [.num x]).then wrapFates = _
    rw [this]; rfl

/-- **C86.** The statistics of a distribution that a query returned. -/
theorem statistic (d : D) (m : String) (v : Dbl) (h : (m, v) ∈ statistics L d) :
    callResult L (.wrapped d) m [] = .ok (.flt v) := by
  have : ∀ p ∈ statistics L d, callResult L (.wrapped d) p.1 [] = .ok (.flt p.2) := by
    simp only [statistics, List.forall_mem_cons]
    repeat' apply And.intro
    all_goals first | rfl | simp
  exact this _ h

/-- **C86.** A setting reaches the library, and returns nothing. -/
theorem setting (s : S) (c : Class) (m : String) (f : D → S) (d : D) (h : (m, f) ∈ settings L s c) :
    call L c s m [.core d] = .ok (.none, f d) := by
  have : ∀ p ∈ settings L s c, call L c s p.1 [.core d] = .ok (.none, p.2 d) := by
    cases c
    all_goals simp only [settings, List.forall_mem_cons]
    all_goals repeat' apply And.intro
    all_goals first | rfl | simp
  exact this _ h

/-- **C86.** The rebuilding cost and the demolition cost that were set are read back, with the same statistics, if the library
keeps them. -/
theorem costs_read_back (s : S) (d : D) (hr : ∀ s d, L.getRebuild (L.setRebuild s d) = d)
    (hd : ∀ s d, L.getDemolish (L.setDemolish s d) = d) (m : String) (v : Dbl)
    (h : (m, v) ∈ statistics L d) :
    (∃ t r, call L .structure s "setRebuildCost" [.core d] = .ok (.none, t) ∧
      call L .structure t "getRebuildCost" [] = .ok (r, t) ∧ callResult L r m [] = .ok (.flt v)) ∧
    (∃ t r, call L .structure s "setDemolitionCost" [.core d] = .ok (.none, t) ∧
      call L .structure t "getDemolitionCost" [] = .ok (r, t) ∧ callResult L r m [] = .ok (.flt v)) := by
  refine ⟨⟨_, _, rfl, rfl, ?_⟩, ⟨_, _, rfl, rfl, ?_⟩⟩
  · exact statistic L _ m v (by rw [show L.getRebuild (L.setRebuild s d) = d from hr s d]; exact h)
  · exact statistic L _ m v (by rw [show L.getDemolish (L.setDemolish s d) = d from hd s d]; exact h)

/-- **C86.** An argument that is neither a number, a boolean nor a sequence raises: the library is not called, the process goes
on. -/
theorem wrong_argument_raises (s : S) (c : Class) (m : String) (f : Dbl → Option Dbl) (a : Arg D)
    (ha : a = .none ∨ a = .other ∨ (∃ d, a = .core d) ∨ ∃ d, a = .wrapped d) (h : (m, f) ∈ curves L s c) :
    ∃ e, call L c s m [a] = .raises e := by
  have : ∀ p ∈ curves L s c, ∃ e, call L c s p.1 [a] = .raises e := by
    rcases ha with rfl | rfl | ⟨d, rfl⟩ | ⟨d, rfl⟩
    all_goals cases c
    all_goals simp only [curves, List.forall_mem_cons]
    all_goals repeat' apply And.intro
    all_goals first | exact ⟨_, rfl⟩ | simp
  exact this _ h

/-! ## Queries that do not answer -/

/-- **C86.** No query of a probabilistic function answers: the extension module has no such method. -/
theorem probfn_fails (s : S) (m : String) (f : Dbl → Option Dbl) (h : (m, f) ∈ curves L s .probfn)
    (a p : Arg D) :
    call L .probfn s m [a] = .raises .attributeError ∧
      call L .probfn s "X_at_exceedence" [a, p] = .raises .attributeError := by
  refine ⟨?_, rfl⟩
  have : ∀ q ∈ curves L s .probfn, call L .probfn s q.1 [a] = .raises .attributeError := by
    simp only [curves, List.forall_mem_cons]
    repeat' apply And.intro
    all_goals first | rfl | simp
  exact this _ h

/-- **C86.** Three statistics of a demand raise for every list, although they answer for its elements. -/
theorem edp_list_fails (s : S) (m : String) (ns : List Num) (hm : m ∈ ["MeanLn", "Median", "SD"]) :
    call L .edp s m [.list ns] = .raises .typeError := by
  simp only [List.mem_cons, List.not_mem_nil, or_false] at hm
  rcases hm with rfl | rfl | rfl <;> rfl

/-- **C86.** The expected cost of a component group over a number of years is documented and always raises, whatever the
library would answer. -/
theorem group_cost_fails (s : S) (t l : Arg D) :
    call L .compgroup s "E_cost" [t, l] = .raises .attributeError := rfl

/-- **C86.** The deaggregated cost is documented as a pair of distributions of the interface; it is a pair of distributions of
the extension module, of which no statistic can be asked by its documented name. -/
theorem deaggregated_fails (s : S) (x : Num) (a b : D) (h : L.deaggregated s x.toDbl = some (a, b)) :
    call L .structure s "DeaggregatedCost" [.num x] = .ok (.cores [a, b], s) ∧
    ∀ d ∈ [a, b], ∀ m v, (m, v) ∈ statistics L d → callResult L (.core d) m [] = .raises .attributeError := by
  constructor
  · show Out.ofLib ((L.deaggregated s x.toDbl).map fun d => (Val.cores [d.1, d.2], s)) = _
    rw [h]; rfl
  · intro d _ m v hm
    have : ∀ p ∈ statistics L d, callResult L (.core d) p.1 [] = .raises .attributeError := by
      simp only [statistics, List.forall_mem_cons]
      repeat' apply And.intro
      all_goals first | rfl | simp
    exact this _ hm

/-- **C86.** A cost that was read cannot be set: the result of a query is no argument of a setting. -/
theorem set_read_cost_fails (s : S) (c : Class) (m : String) (f : D → S) (h : (m, f) ∈ settings L s c) (d : D) :
    call L c s m [.wrapped d] = .raises .typeError := by
  have : ∀ p ∈ settings L s c, call L c s p.1 [.wrapped d] = .raises .typeError := by
    cases c
    all_goals simp only [settings, List.forall_mem_cons]
    all_goals repeat' apply And.intro
    all_goals first | rfl | simp
  exact this _ h

/-- **C86.** Years that are no integer, or too many, raise. -/
theorem years_fails (s : S) (r : Num) :
    (∀ x, call L .structure s "E_cost" [.num (.flt x), .num r] = .raises .typeError) ∧
    ∀ t : ℤ, 2 ^ 31 ≤ t → call L .structure s "E_cost" [.num (.int t), .num r] = .raises .overflowError := by
  refine ⟨fun x => rfl, fun t ht => ?_⟩
  have hc : (convert .int (.num (.int t)) : Except Err (CVal D)) = .error .overflowError := by
    simp only [convert]; rw [if_neg (by omega)]
  have : (resolve .structure "E_cost" [.num (.int t), .num r] : Except Err (List (CVal D))) =
      .error .overflowError := by
    show convertAll [.int, .dbl] [.num (.int t), .num r] = _
    simp only [convertAll, hc]
    rfl
  show core L .structure s "E_cost" [.num (.int t), .num r] = _
  simp only [core, this]

/-- **C86.** The hint for plots of a demand raises until it is set; that of an intensity measure is `None`. -/
theorem plot_max_fails :
    plotMax (newPlotMax .im false) = .ok none ∧ plotMax (newPlotMax .edp false) = .raises .attributeError ∧
    ∀ c b v, plotMax (setPlotMax (newPlotMax c b) v) = .ok (some v) :=
  ⟨rfl, rfl, fun _ _ _ => rfl⟩

/-! ## Nothing is missing -/

/-- What a converted argument is. -/
def HasTy : Ty → CVal D → Prop
  | .dbl, .dbl _ => True
  | .vec, .vec _ => True
  | .int, .int _ => True
  | .bool, .bool _ => True
  | .dist, .dist _ => True
  | _, _ => False

theorem convert_hasTy (t : Ty) (a : Arg D) (v : CVal D) (h : convert t a = .ok v) : HasTy t v := by
  cases t <;> cases a <;> simp only [convert] at h <;> (try simp at h) <;> (try subst h) <;> (try trivial)
  rename_i n
  cases n
  · simp at h
  · simp only at h
    split at h
    · obtain rfl := Except.ok.inj h; trivial
    · simp at h

theorem convertAll_hasTy (ts : List Ty) (as : List (Arg D)) (vs : List (CVal D))
    (h : convertAll ts as = .ok vs) : List.Forall₂ HasTy ts vs := by
  induction ts generalizing as vs with
  | nil =>
    cases as with
    | nil => obtain rfl := Except.ok.inj h; exact .nil
    | cons => simp [convertAll] at h
  | cons t ts ih =>
    cases as with
    | nil => simp [convertAll] at h
    | cons a as =>
      simp only [convertAll, bind, Except.bind, pure, Except.pure] at h
      split at h
      · simp at h
      · rename_i v hv
        split at h
        · simp at h
        · rename_i ws hws
          obtain rfl := Except.ok.inj h
          exact .cons (convert_hasTy t a v hv) (ih as ws hws)

theorem resolve_declared (c : Class) (m : String) (as : List (Arg D)) (vs : List (CVal D))
    (h : resolve c m as = .ok vs) : ∃ ts, (m, ts) ∈ exported c ∧ List.Forall₂ HasTy ts vs := by
  have key : ∀ e ∈ (exported c).filter (fun e => e.1 = m), convertAll e.2 as = .ok vs →
      ∃ ts, (m, ts) ∈ exported c ∧ List.Forall₂ HasTy ts vs := by
    intro e he hv
    rw [List.mem_filter] at he
    have : e.1 = m := by simpa using he.2
    exact ⟨e.2, this ▸ he.1, convertAll_hasTy _ _ _ hv⟩
  unfold resolve at h
  split at h
  · simp at h
  · rename_i e he
    exact key e (by simp [he]) h
  · split at h
    · rename_i ws hws
      obtain rfl := Except.ok.inj h
      obtain ⟨e, he, hv⟩ := List.exists_of_findSome?_eq_some hws
      refine key e he ?_
      cases hc : convertAll e.2 as with
      | error => rw [hc] at hv; simp [Except.toOption] at hv
      | ok us => rw [hc] at hv; simp [Except.toOption] at hv; rw [hv]
    · simp at h

theorem ok_defined {α : Type} (a : α) : Out.ok a ≠ .missing := by simp

theorem raises_defined {α : Type} (e : Err) : (Out.raises e : Out α) ≠ .missing := by simp

theorem ofLib_defined {α : Type} (o : Option α) : Out.ofLib o ≠ .missing := by cases o <;> simp [Out.ofLib]

theorem then_defined {α β : Type} (o : Out α) (f : α → Out β) (ho : o ≠ .missing) (hf : ∀ a, f a ≠ .missing) :
    o.then f ≠ .missing := by
  cases o <;> simp_all [Out.then]

theorem args_none (P : List (CVal D) → Prop) (h : P []) (vs : List (CVal D))
    (hv : List.Forall₂ HasTy [] vs) : P vs := by
  cases hv; exact h

theorem args_dbl (P : List (CVal D) → Prop) (h : ∀ x, P [.dbl x]) (vs : List (CVal D))
    (hv : List.Forall₂ HasTy [.dbl] vs) : P vs := by
  obtain _ | ⟨h1, ⟨⟩⟩ := hv
  rename_i v; cases v <;> first | exact h _ | exact h1.elim

theorem args_vec (P : List (CVal D) → Prop) (h : ∀ l, P [.vec l]) (vs : List (CVal D))
    (hv : List.Forall₂ HasTy [.vec] vs) : P vs := by
  obtain _ | ⟨h1, ⟨⟩⟩ := hv
  rename_i v; cases v <;> first | exact h _ | exact h1.elim

theorem args_dist (P : List (CVal D) → Prop) (h : ∀ d, P [.dist d]) (vs : List (CVal D))
    (hv : List.Forall₂ HasTy [.dist] vs) : P vs := by
  obtain _ | ⟨h1, ⟨⟩⟩ := hv
  rename_i v; cases v <;> first | exact h _ | exact h1.elim

theorem args_dbl_dbl (P : List (CVal D) → Prop) (h : ∀ x y, P [.dbl x, .dbl y]) (vs : List (CVal D))
    (hv : List.Forall₂ HasTy [.dbl, .dbl] vs) : P vs := by
  obtain _ | ⟨h1, _ | ⟨h2, ⟨⟩⟩⟩ := hv
  rename_i v w; cases v <;> cases w <;> first | exact h _ _ | exact h1.elim | exact h2.elim

theorem args_dbl_bool (P : List (CVal D) → Prop) (h : ∀ x y, P [.dbl x, .bool y]) (vs : List (CVal D))
    (hv : List.Forall₂ HasTy [.dbl, .bool] vs) : P vs := by
  obtain _ | ⟨h1, _ | ⟨h2, ⟨⟩⟩⟩ := hv
  rename_i v w; cases v <;> cases w <;> first | exact h _ _ | exact h1.elim | exact h2.elim

theorem args_int_dbl (P : List (CVal D) → Prop) (h : ∀ x y, P [.int x, .dbl y]) (vs : List (CVal D))
    (hv : List.Forall₂ HasTy [.int, .dbl] vs) : P vs := by
  obtain _ | ⟨h1, _ | ⟨h2, ⟨⟩⟩⟩ := hv
  rename_i v w; cases v <;> cases w <;> first | exact h _ _ | exact h1.elim | exact h2.elim

theorem body_defined (c : Class) (hc : c ≠ .dist) (s : S) :
    ∀ e ∈ exported c, ∀ vs, List.Forall₂ HasTy e.2 vs → body L c s e.1 vs ≠ .missing := by
  cases c <;> first | contradiction | skip
  all_goals simp only [exported, List.forall_mem_cons]
  all_goals repeat' apply And.intro
  all_goals first
    | exact args_none (fun vs => body L _ s _ vs ≠ _) (ofLib_defined _)
    | exact args_dbl (fun vs => body L _ s _ vs ≠ _) fun _ => ofLib_defined _
    | exact args_vec (fun vs => body L _ s _ vs ≠ _) fun _ => ofLib_defined _
    | exact args_none (fun vs => body L _ s _ vs ≠ _) (ok_defined _)
    | exact args_dist (fun vs => body L _ s _ vs ≠ _) fun _ => ok_defined _
    | exact args_dbl_dbl (fun vs => body L _ s _ vs ≠ _) fun _ _ => ofLib_defined _
    | exact args_dbl_bool (fun vs => body L _ s _ vs ≠ _) fun _ _ => ofLib_defined _
    | exact args_int_dbl (fun vs => body L _ s _ vs ≠ _) fun _ _ => ofLib_defined _
    | simp

/-- **C86.** Every method that the extension module declares is defined. -/
theorem core_defined (c : Class) (hc : c ≠ .dist) (s : S) (m : String) (args : List (Arg D)) :
    core L c s m args ≠ .missing := by
  unfold core
  split
  · simp
  · rename_i vs h
    obtain ⟨ts, h1, h2⟩ := resolve_declared c m args vs h
    exact body_defined L c hc s _ h1 vs h2

theorem perhapsList_defined (c : Class) (hc : c ≠ .dist) (s : S) (bulk single : String) (x : Arg D) :
    perhapsList L c s bulk single x ≠ .missing := by
  cases x <;> simp only [perhapsList] <;> first
    | exact core_defined L c hc s _ _
    | (refine then_defined _ _ (core_defined L c hc s _ _) ?_
       rintro ⟨v, t⟩
       cases v <;> first | exact ok_defined _ | exact raises_defined _)

/-- **C86.** Every query of the interface, documented or not, with any arguments, comes to a value, an exception of Python or
the end of the process by an exception of the library. -/
theorem call_defined (c : Class) (s : S) (m : String) (args : List (Arg D)) : call L c s m args ≠ .missing := by
  have hi : ∀ (p : Prop) [Decidable p] (a b : Err),
      (if p then Out.raises a else Out.raises b : Out (Val D × S)) ≠ .missing := by
    intro p _ a b; split <;> exact raises_defined _
  have hw : ∀ r : Val D × S, wrapFates r ≠ .missing := by
    rintro ⟨v, t⟩
    unfold wrapFates
    split <;> first | exact ok_defined _ | exact raises_defined _
  have ht : ∀ (c : Class) (_ : c ≠ .dist) (m : String) (as : List (Arg D)) (g : Val D × S → Val D × S),
      ((core L c s m as).then fun r => .ok (g r)) ≠ .missing :=
    fun c hc m as g => then_defined _ _ (core_defined L c hc s m as) fun _ => ok_defined _
  cases c <;> simp only [call, pyIm, pyEdp, pyProbfn, pyGroup, pyStructure]
  all_goals first | exact raises_defined _ | skip
  all_goals split
  all_goals first
    | exact hi _ _ _
    | exact core_defined L _ (by simp) s _ _
    | exact perhapsList_defined L _ (by simp) s _ _ _
    | exact ht _ (by simp) _ _ _
    | exact then_defined _ _ (core_defined L _ (by simp) s _ _) hw

/-! ## Examples -/

/-- A library that answers with the argument and throws if it is NaN; the state of an object is its two settings. -/
noncomputable def exampleLib : Lib (ℕ × ℕ) ℕ :=
  let f : ℕ × ℕ → Dbl → Option Dbl := fun _ x => match x with
    | .nan => none
    | x => some x
  { valueAt := f, imLambda := f, pCollapse := fun s _ => some (.fin s.1), pDemolition := f, pRepair := f,
    collapseRate := fun _ => some (.fin (1 / 2)), demolitionRate := fun _ => none,
    setCollapse := fun s d => (d, s.2), setDemolition := fun s d => (s.1, d), edpLambda := f,
    pExceedence := fun _ x _ => some x, mean := f, meanLn := f, median := f, sdLn := f, sd := f,
    xAtExceedence := fun _ _ p => some p, pExceeded := fun _ x => some [x, 0], pHighest := fun _ _ => none,
    nStates := fun _ => 2, eCostEdp := f, sdLnCostEdp := f, eCostIm := f, sdLnCostIm := f,
    eAnnualCost := fun _ => some 1, eDelayEdp := f, sdLnDelayEdp := f, eDelayIm := f, sdLnDelayIm := f,
    pDsIm := fun _ x => some [x], groupRate := fun _ => some [], lambdaCost := f,
    groupECost := fun _ _ r => some r, cost := fun s _ _ => some s.1, totalCost := fun s _ => some (s.1 + s.2),
    deaggregated := fun s _ => some (s.1, s.2), repairCost := fun _ _ => some 3,
    demolitionCost := fun s _ => some s.1, collapseCost := fun s _ => some s.2, eCost := fun _ _ r => some r,
    setRebuild := fun s d => (d, s.2), getRebuild := fun s => s.1, setDemolish := fun s d => (s.1, d),
    getDemolish := fun s => s.2, annualCost := fun s => some s.1, pdf := f, clearCache := id,
    distPAtLeast := fun _ x => x, distPAtMost := fun _ x => x, distXAtP := fun _ x => x,
    distMuLn := fun d => .fin d, distMedian := fun d => .fin d, distMean := fun d => .fin d,
    distSigmaLn := fun d => .fin d, distSigma := fun d => .fin d }

/-- A number. -/
example : call exampleLib .im (0, 0) "getlambda" [.num (.int 3)] = .ok (.flt (.fin (3 : ℤ)), (0, 0)) :=
  curve_number_partial exampleLib (0, 0) .im "getlambda" _ _ (by simp) (.head _)

/-- The library throws. -/
example : call exampleLib .compgroup (0, 0) "E_Cost_IM" [.num (.flt .nan)] = .ends :=
  curve_number_partial exampleLib (0, 0) .compgroup "E_Cost_IM" _ _ (by simp) (.tail _ (.tail _ (.head _)))

/-- A list. -/
example : call exampleLib .edp (0, 0) "SD_ln" [.list [.int 3, .flt (.fin (1 / 2))]] =
    .ok (.list [.fin (3 : ℤ), .fin (1 / 2)], (0, 0)) :=
  curve_list_partial exampleLib (0, 0) .edp "SD_ln" _ _ (.inr rfl) (by simp)
    (.tail _ (.tail _ (.tail _ (.head _))))

/-- A rate, damage states, two arguments. -/
example : call exampleLib .im (0, 0) "CollapseRate" [] = .ok (.flt (.fin (1 / 2)), (0, 0)) ∧
    call exampleLib .fragfn (0, 0) "pExceeded" [.num (.int 1)] = .ok (.tuple [.fin ((1 : ℤ) : ℝ), 0], (0, 0)) ∧
    call exampleLib .structure (0, 0) "E_cost" [.num (.int 50), .num (.flt (.fin (1 / 20)))] =
      .ok (.flt (.fin (1 / 20)), (0, 0)) :=
  ⟨rate exampleLib (0, 0) .im _ _ (.head _), (damage_states exampleLib (0, 0)).1 .fragfn _ _ _ (.head _),
    (two_arguments_partial exampleLib (0, 0) (.int 1) (.int 1) (.flt (.fin (1 / 20))) 50 (by norm_num)).2⟩

/-- The costs by fate of a structure with two settings. -/
example : call exampleLib .structure (1, 2) "CostsByFate" [.num (.flt (.fin 3))] = .ok (.wrappeds [3, 1, 2], (1, 2)) :=
  (distributions_partial exampleLib (1, 2) (.flt (.fin 3)) true).2.2.2.2.2 _ _ _ rfl rfl rfl

/-- Settings are read back. -/
example : ∃ t r, call exampleLib .structure (0, 0) "setDemolitionCost" [.core 5] = .ok (.none, t) ∧
    call exampleLib .structure t "getDemolitionCost" [] = .ok (r, t) ∧
    callResult exampleLib r "median" [] = .ok (.flt (.fin (5 : ℕ))) :=
  (costs_read_back exampleLib (0, 0) 5 (fun _ _ => rfl) (fun _ _ => rfl) "median" _ (.tail _ (.head _))).2

/-- A setting, a statistic, a wrong argument. -/
example : call exampleLib .im (0, 0) "SetCollapse" [.core 5] = .ok (.none, (5, 0)) ∧
    callResult exampleLib (.wrapped 5) "sd" [] = .ok (.flt (.fin (5 : ℕ))) ∧
    ∃ e, call exampleLib .edp (0, 0) "Mean" [.other] = .raises e :=
  ⟨setting exampleLib (0, 0) .im _ _ 5 (.head _),
    statistic exampleLib 5 "sd" _ (.tail _ (.tail _ (.tail _ (.head _)))),
    wrong_argument_raises exampleLib (0, 0) .edp "Mean" _ _ (.inr (.inl rfl)) (.head _)⟩

/-- A median asked for a list, and for its element. -/
example : call exampleLib .edp (0, 0) "Median" [.list [.flt (.fin 1)]] = .raises .typeError ∧
    call exampleLib .edp (0, 0) "Median" [.num (.flt (.fin 1))] = .ok (.flt (.fin 1), (0, 0)) :=
  ⟨edp_list_fails exampleLib _ _ _ (by simp),
    curve_number_partial exampleLib (0, 0) .edp "Median" _ _ (by simp) (.tail _ (.tail _ (.head _)))⟩

/-- The deaggregated cost and one of its means. -/
example : call exampleLib .structure (4, 0) "DeaggregatedCost" [.num (.flt 1)] = .ok (.cores [4, 0], (4, 0)) ∧
    callResult exampleLib (.core 4) "mean" [] = .raises .attributeError :=
  have h := deaggregated_fails exampleLib (4, 0) (.flt 1) 4 0 rfl
  ⟨h.1, h.2 4 (by simp) "mean" _ (.head _)⟩

/-- A cost that was read, offered as a setting; sixty years and a half. -/
example : call exampleLib .structure (4, 0) "setRebuildCost" [.wrapped 4] = .raises .typeError ∧
    call exampleLib .structure (4, 0) "E_cost" [.num (.flt (.fin (121 / 2))), .num (.int 0)] = .raises .typeError :=
  ⟨set_read_cost_fails exampleLib (4, 0) .structure _ _ (.head _) 4, (years_fails exampleLib (4, 0) (.int 0)).1 _⟩

/-- Every query of the probabilistic function raises. -/
example : call exampleLib .probfn (0, 0) "Median" [.num (.flt (.fin 1))] = .raises .attributeError :=
  (probfn_fails exampleLib (0, 0) "Median" _ (.tail _ (.tail _ (.head _))) _ .other).1

end Slat.Py
