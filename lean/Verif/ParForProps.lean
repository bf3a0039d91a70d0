import Verif.ParForLemmas
import Verif.FatesModel
import Verif.StructureModel

/-!
# Vector queries (property C45)

For any number of threads, any distribution of the iterations over them and any interleaving of their
statements.
-/

namespace Slat.ParFor

variable {Tid A V X R W : Type} [DecidableEq Tid]

/-! ## Specification -/

/-- A loop is element-wise correct: when it finishes, the result vector holds the wanted values in input
order, every iteration having been executed exactly once; it makes at most `k` steps per element; and if no
element makes the scalar query throw, it can only stop by finishing. -/
def Elementwise (L : Loop A V X R) (S : Svc Tid V X) (s₀ : S.St) (want : A → Option R) (k : ℕ) : Prop :=
  ∀ ls s, Exec L S (begin L S s₀) ls s →
    (Finished s → s.result.map some = L.args.map want ∧ s.started.Perm (List.range L.args.length)) ∧
    ls.length ≤ k * L.args.length ∧
    ((∀ a ∈ L.args, want a ≠ none) → (∀ l, step L S s l = none) → Finished s)

/-! ## Proof support -/

theorem elementwise_of_serves [Fintype Tid] [Nonempty Tid] {L : Loop A V X R} {S : Svc Tid V X}
    {F : V → Option X} {Inv : S.St → Prop} {busy : S.St → Tid → Option V} {rank : S.St → ℕ} {B : ℕ}
    (hS : Serves S F Inv busy rank B) (s₀ : S.St) (hi : Inv s₀) (hb : ∀ t, busy s₀ t = none)
    (hr : rank s₀ = 0) :
    Elementwise L S s₀ (fun a => (F (L.arg a)).map (L.post a)) (B + 2) := by
  intro ls s he
  have h0 : LInv L S F Inv busy (begin L S s₀) := linv_begin s₀ hi hb
  have h := linv_exec hS he h0
  refine ⟨finished_result h, ?_, ?_⟩
  · have := measure_exec hS he h0
    have hz : (active (fun _ : Tid => (Work.idle : Work R))).card = 0 := by
      rw [Finset.card_eq_zero]
      ext t
      simp [mem_active, Work.inside]
    simp only [measure, begin, List.length_range, hr, hz] at this
    omega
  · intro hw hst
    refine stuck_finished hS ?_ h hst
    intro a ha hn
    exact hw a ha (by simp [hn])

/-! ## C45 -/

/-- Queries whose scalar form touches no shared mutable state (`IM::lambda`, `pCollapse`, `pDemolition`,
`pRepair`, `EDP::Mean`, `bulk_Mean`, ...). -/
theorem pure_loop_elementwise [Fintype Tid] [Nonempty Tid] (f : A → Option R) (args : List A) (zero : R) :
    Elementwise ⟨args, id, fun _ x => x, zero⟩ (pureSvc Tid f) (fun _ => none) f 3 := by
  have := elementwise_of_serves (L := ⟨args, id, fun _ x => x, zero⟩) (pure_serves (Tid := Tid) f)
    (fun _ => none) trivial (fun _ => rfl) (by simp)
  simpa using this

/-- Queries of a cached function (`EDP::par_lambda`, `get_lambda(vector)`): whatever was asked before and
whichever part of the answers is already cached. -/
theorem cached_loop_elementwise [Fintype Tid] [Nonempty Tid] [DecidableEq A] [Inhabited R]
    (c : CacheFn.Cfg A R) (before : List (CacheFn.Lbl Tid A)) (s₀ : CacheFn.St Tid A R)
    (h : CacheFn.CalmExec c (CacheFn.init Tid A R) before s₀) (hq : ∀ t, s₀.pc t = .idle)
    (args : List A) (zero : R) :
    Elementwise ⟨args, id, fun _ x => x, zero⟩ (fnSvc Tid c) s₀ c.func 13 := by
  have := elementwise_of_serves (L := ⟨args, id, fun _ x => x, zero⟩) (fn_serves (Tid := Tid) c) s₀
    (h.inv (CacheFn.inv_init c)) (fun t => by simp [hq t, CacheFn.Pc.arg])
    (by simp [hq, CacheFn.Pc.rank])
  simpa using this

/-- `Structure::E_cost(vector)`: every element is computed from the one annual cost, which is determined at
most once, provided the cached value has not been cleared before (see C09 for what goes wrong otherwise). -/
theorem value_loop_elementwise [Fintype Tid] [Nonempty Tid] (c : CacheVal.Cfg W X) (w : W) (junk : X)
    (before : List (CacheVal.Lbl Tid W)) (s₀ : CacheVal.St Tid W X)
    (h : CacheVal.Exec c (CacheVal.init Tid w junk) before s₀)
    (hb : ∀ l ∈ before, ∃ t, l = .call t ∨ l = .run t) (hq : ∀ t, s₀.pc t = .idle)
    (args : List A) (post : A → X → R) (zero : R) :
    Elementwise ⟨args, fun _ => (), post, zero⟩ (valSvc Tid c) s₀ (fun a => (c.func w).map (post a)) 13 := by
  have hv : ∀ (s s' : CacheVal.St Tid W X) ls, CacheVal.Exec c s ls s' → (∀ l ∈ ls, ∃ t, l = .call t ∨ l = .run t) →
      ValInv c w s → ValInv c w s' := by
    intro s s' ls he
    induction he with
    | nil => intro _ hi; exact hi
    | @cons s s1 s2 l ls hs _ ih =>
      intro hls hi
      refine ih (fun l hl => hls l (List.mem_cons_of_mem _ hl)) ?_
      obtain ⟨t, rfl | rfl⟩ := hls l List.mem_cons_self
      · exact ((val_serves (Tid := Tid) c w).call s t () s1 hi hs).1
      · exact ((val_serves (Tid := Tid) c w).run s t s1 _ hi (by
          show valRun c s t = _
          rw [valRun, hs]; rfl)).1
  have h0 : ValInv c w (CacheVal.init Tid w junk) :=
    ⟨CacheVal.inv_init w junk, rfl, by simp [CacheVal.init, CacheVal.outcomes]⟩
  have := elementwise_of_serves (L := ⟨args, fun _ => (), post, zero⟩) (val_serves (Tid := Tid) c w) s₀
    (hv _ _ _ h hb h0) (fun t => (valBusy_none s₀ t).2 (hq t)) (by simp [hq, CacheVal.Pc.rank])
  exact this

/-- The vector forms of the three fate probabilities are the scalar forms, element by element. -/
theorem fate_vectors_elementwise [Fintype Tid] [Nonempty Tid] (f : Fates) (ims : List Dbl) (zero : Dbl) :
    (∀ q ∈ [f.pCollapse, f.pDemolition, f.pRepair],
      Elementwise ⟨ims, id, fun _ x => x, zero⟩ (pureSvc Tid (fun x => some (q x))) (fun _ => none)
        (fun x => some (q x)) 3) :=
  fun _ _ => pure_loop_elementwise _ _ _

/-- `Structure::E_cost(years, rate)` is `E_cost(year, rate)` for each year, in order. -/
theorem discounted_vector_elementwise [Fintype Tid] [Nonempty Tid] (c : CacheVal.Cfg W LogNormalDist) (w : W)
    (junk annual : LogNormalDist) (hc : c.func w = some annual) (years : List ℤ) (rate : Dbl) (zero : Dbl) :
    Elementwise ⟨years, fun _ => (), fun y d => discounted d.getMean y rate, zero⟩ (valSvc Tid c)
      (CacheVal.init Tid w junk) (fun y => some (discounted annual.getMean y rate)) 13 := by
  have := value_loop_elementwise (Tid := Tid) c w junk [] _ (.nil _) (by simp) (fun _ => rfl) years
    (fun y d => discounted (LogNormalDist.getMean d) y rate) zero
  simpa [hc] using this

theorem fnRun_step [DecidableEq V] [Inhabited X] (c : CacheFn.Cfg V X) (s s' : CacheFn.St Tid V X) (t : Tid)
    (o : Out X) (h : fnRun c s t = some (s', o)) : CacheFn.step c s (.run t) = some s' := by
  unfold fnRun at h
  split at h <;> simp only [Option.some.injEq, reduceCtorEq, Prod.mk.injEq] at h
  rename_i s1 hs1
  rw [hs1, h.1]

/-- The calls a loop makes are a calm schedule of the cached function. -/
theorem loop_projects [DecidableEq A] [Inhabited R] (c : CacheFn.Cfg A R) (L : Loop A A R R)
    {s s' : LSt (fnSvc Tid c).St R Tid} {ls : List (Lbl Tid)} (he : Exec L (fnSvc Tid c) s ls s') :
    ∃ ls', CacheFn.CalmExec c s.svc ls' s'.svc ∧ CacheFn.Lbl.clear ∉ ls' := by
  induction he with
  | nil s => exact ⟨[], .nil _, by simp⟩
  | @cons s s1 s2 l ls hs _ ih =>
    obtain ⟨ls', h', hn⟩ := ih
    have key : s1.svc = s.svc ∨ ∃ l', l' ≠ .clear ∧ CacheFn.step c s.svc l' = some s1.svc := by
      unfold step at hs
      split at hs
      · cases hs
      cases l with
      | take t i =>
        simp only at hs
        split at hs <;> try (cases hs; done)
        split at hs <;> try (cases hs; done)
        split at hs <;> try (cases hs; done)
        rename_i a ha
        simp only [Option.map_eq_some_iff] at hs
        obtain ⟨v', hv', rfl⟩ := hs
        exact .inr ⟨.call t (L.arg a), by simp, hv'⟩
      | run t =>
        have hrun : ∀ v' o, (fnSvc Tid c).run s.svc t = some (v', o) →
            CacheFn.step c s.svc (.run t) = some v' := by
          exact fun v' o h => fnRun_step c _ _ _ o h
        simp only at hs
        split at hs <;> try (cases hs; done)
        split at hs
        · rename_i v' hv'
          simp only [Option.some.injEq] at hs; subst hs
          exact .inr ⟨.run t, by simp, hrun _ _ hv'⟩
        · rename_i v' x hv'
          split at hs <;> try (cases hs; done)
          simp only [Option.some.injEq] at hs; subst hs
          exact .inr ⟨.run t, by simp, hrun _ _ hv'⟩
        · rename_i v' hv'
          simp only [Option.some.injEq] at hs; subst hs
          exact .inr ⟨.run t, by simp, hrun _ _ hv'⟩
        · cases hs
      | store t =>
        simp only at hs
        split at hs <;> try (cases hs; done)
        simp only [Option.some.injEq] at hs; subst hs
        exact .inl rfl
    rcases key with h | ⟨l', hl', h⟩
    · rw [h] at h'; exact ⟨ls', h', hn⟩
    · refine ⟨l' :: ls', .cons (fun hh => absurd hh hl') h h', ?_⟩
      simp only [List.mem_cons, not_or]
      exact ⟨fun hh => hl' hh.symm, hn⟩

theorem calm_append [DecidableEq A] [Inhabited R] {c : CacheFn.Cfg A R} {s s' s'' : CacheFn.St Tid A R}
    {l1 l2 : List (CacheFn.Lbl Tid A)} (h1 : CacheFn.CalmExec c s l1 s') (h2 : CacheFn.CalmExec c s' l2 s'') :
    CacheFn.CalmExec c s (l1 ++ l2) s'' := by
  induction h1 with
  | nil => exact h2
  | cons hl hs _ ih => exact .cons hl hs (ih h2)

/-- A vector query of a cached function evaluates the function at most once per distinct argument, however
often the argument occurs in the vector, and never at an argument already cached. -/
theorem cached_loop_evaluates_once [Fintype Tid] [DecidableEq A] [Inhabited R]
    (c : CacheFn.Cfg A R) (before : List (CacheFn.Lbl Tid A)) (s₀ : CacheFn.St Tid A R)
    (h : CacheFn.CalmExec c (CacheFn.init Tid A R) before s₀)
    (L : Loop A A R R) (ls : List (Lbl Tid)) (s : LSt (CacheFn.St Tid A R) R Tid)
    (he : Exec L (fnSvc Tid c) (begin L (fnSvc Tid c) s₀) ls s) (v : A) (hv : c.useCache v = true) :
    ∃ new, s.svc.log = new ++ s₀.log ∧ CacheFn.evalCount v new ≤ 1 ∧
      (CacheFn.Ev.cleared ∉ s₀.log → 1 ≤ CacheFn.evalCount v s₀.log → CacheFn.evalCount v new = 0) := by
  obtain ⟨ls', h', hn⟩ := loop_projects c L he
  have hall := calm_append h h'
  have hgrow : ∀ (a b : CacheFn.St Tid A R) l, CacheFn.CalmExec c a l b → CacheFn.Inv c a → CacheFn.Lbl.clear ∉ l →
      ∃ new, b.log = new ++ a.log ∧ CacheFn.Ev.cleared ∉ new := by
    intro a b l hab
    induction hab with
    | nil => intro _ _; exact ⟨[], rfl, by simp⟩
    | @cons a a1 a2 l ls hl hs _ ih =>
      intro hi hno
      obtain ⟨new, hnew, hcl⟩ := ih (CacheFn.inv_step hi _ hl hs) (fun hh => hno (List.mem_cons_of_mem _ hh))
      have hlne : l ≠ .clear := fun hh => hno (hh ▸ List.mem_cons_self)
      have : ∃ m, a1.log = m ++ a.log ∧ CacheFn.Ev.cleared ∉ m := by
        cases l with
        | clear => exact absurd rfl hlne
        | call t w =>
          simp only [CacheFn.step, hi.noFault, Option.isSome_none, Bool.false_eq_true, if_false] at hs
          split at hs <;> simp only [Option.some.injEq, reduceCtorEq] at hs
          subst hs
          exact ⟨[.called t w], rfl, by simp⟩
        | run t =>
          simp only [CacheFn.step, hi.noFault, Option.isSome_none, Bool.false_eq_true, if_false] at hs
          obtain ⟨w, p, -, -, -, hlog⟩ := CacheFn.stepThread_shape hi t hs
          rcases hlog with ⟨-, hlog⟩ | ⟨-, hlog⟩ | ⟨-, hlog⟩ | ⟨-, -, x, hlog⟩ | ⟨-, -, x, hlog⟩
          · exact ⟨[], hlog, by simp⟩
          · exact ⟨[.eval t w], hlog, by simp⟩
          · exact ⟨[.threw t w], hlog, by simp⟩
          · exact ⟨[.ret t w x], hlog, by simp⟩
          · exact ⟨[.ret t w x, .eval t w], hlog, by simp⟩
      obtain ⟨m, hm, hmc⟩ := this
      exact ⟨new ++ m, by rw [hnew, hm, List.append_assoc], by simp [hcl, hmc]⟩
  obtain ⟨new, (hnew : s.svc.log = new ++ s₀.log), hcl⟩ := hgrow _ _ _ h' (h.inv (CacheFn.inv_init c)) hn
  refine ⟨new, hnew, ?_, ?_⟩
  · exact CacheFn.evaluated_at_most_once c _ _ hall v hv [] new s₀.log hnew hcl
  · intro hc0 hone
    have := CacheFn.evaluated_at_most_once c _ _ hall v hv [] (new ++ s₀.log) []
      (by rw [List.append_nil]; exact hnew)
      (by simp [hcl, hc0])
    simp only [CacheFn.evalCount, List.countP_append] at this hone ⊢
    omega

/-! ## Concrete cases -/

/-- Run a schedule of the loop. -/
def runL (L : Loop A V X R) (S : Svc Tid V X) (s : LSt S.St R Tid) : List (Lbl Tid) → Option (LSt S.St R Tid)
  | [] => some s
  | l :: ls => (step L S s l).bind (fun s' => runL L S s' ls)

/-- Run a whole loop. -/
def runFrom (L : Loop A V X R) (S : Svc Tid V X) (s₀ : S.St) (ls : List (Lbl Tid)) :
    Option (LSt S.St R Tid) := runL L S (begin L S s₀) ls

theorem exec_of_runL {L : Loop A V X R} {S : Svc Tid V X} {s s' : LSt S.St R Tid} {ls : List (Lbl Tid)}
    (h : runL L S s ls = some s') : Exec L S s ls s' := by
  induction ls generalizing s with
  | nil => simp only [runL, Option.some.injEq] at h; subst h; exact .nil _
  | cons l ls ih =>
    simp only [runL, Option.bind_eq_some_iff] at h
    obtain ⟨s1, h1, h2⟩ := h
    exact .cons h1 (ih h2)

/-- The arguments 2, 3, 2 for the function of `CacheFn.demo`. -/
def demoLoop : Loop ℕ ℕ ℕ ℕ := ⟨[2, 3, 2], id, fun _ x => x, 0⟩

/-- Thread 0 takes the last element; thread 1 takes the first one meanwhile, which has the same argument, and
waits for the value; thread 0 then takes the remaining one. -/
def demoSchedule : List (Lbl (Fin 2)) :=
  [.take 0 2] ++ List.replicate 4 (.run 0) ++ [.take 1 0] ++ List.replicate 4 (.run 1) ++
  List.replicate 7 (.run 0) ++ [.store 0] ++ List.replicate 5 (.run 1) ++ [.store 1, .take 0 1] ++
  List.replicate 11 (.run 0) ++ [.store 0]

/-- Elements taken out of order, a shared computation, and a finished loop (for `cached_loop_elementwise`,
`cached_loop_evaluates_once`). -/
example : ∃ s, Exec demoLoop (fnSvc (Fin 2) CacheFn.demo)
      (begin demoLoop (fnSvc (Fin 2) CacheFn.demo) (CacheFn.init (Fin 2) ℕ ℕ)) demoSchedule s ∧
    Finished s ∧ s.result = [9, 10, 9] ∧ s.started = [1, 0, 2] := by
  have h : (runL demoLoop (fnSvc (Fin 2) CacheFn.demo)
      (begin demoLoop (fnSvc (Fin 2) CacheFn.demo) (CacheFn.init (Fin 2) ℕ ℕ)) demoSchedule).map
      (fun s => decide (s.crashed = false ∧ s.pool = [] ∧ (s.work 0).inside = false ∧
        (s.work 1).inside = false ∧ s.result = [9, 10, 9] ∧ s.started = [1, 0, 2])) = some true := by
    decide +kernel
  rw [Option.map_eq_some_iff] at h
  obtain ⟨s, hs, h⟩ := h
  simp only [decide_eq_true_eq] at h
  obtain ⟨h1, h2, h3, h4, h5, h6⟩ := h
  have hin : ∀ w : Work ℕ, w.inside = false → w = .idle := by intro w hw; cases w <;> simp_all [Work.inside]
  refine ⟨s, exec_of_runL hs, ⟨h1, h2, ?_⟩, h5, h6⟩
  intro t
  fin_cases t
  · exact hin _ h3
  · exact hin _ h4

/-- The hypotheses of `cached_loop_elementwise` are met by a cache that holds an answer already. -/
example : ∃ s₀, CacheFn.CalmExec CacheFn.demo (CacheFn.init (Fin 2) ℕ ℕ)
      ([.call 1 3] ++ List.replicate 11 (.run 1)) s₀ ∧ (∀ t, s₀.pc t = .idle) ∧ s₀.cache 3 = some 10 := by
  have h : (CacheFn.runL CacheFn.demo (CacheFn.init (Fin 2) ℕ ℕ)
      ([.call 1 3] ++ List.replicate 11 (.run 1))).map
      (fun s => decide (s.pc 0 = .idle ∧ s.pc 1 = .idle ∧ s.cache 3 = some 10)) = some true := by
    decide +kernel
  rw [Option.map_eq_some_iff] at h
  obtain ⟨s, hs, h⟩ := h
  simp only [decide_eq_true_eq] at h
  refine ⟨s, CacheFn.calm_of_runL (by decide) hs, ?_, h.2.2⟩
  intro t
  fin_cases t
  · exact h.1
  · exact h.2.1

/-- An element that makes the scalar query throw ends the program. -/
example : (runFrom (⟨[2, 9], id, fun _ x => x, 0⟩ : Loop ℕ ℕ ℕ ℕ) (fnSvc (Fin 2) CacheFn.demo)
      (CacheFn.init (Fin 2) ℕ ℕ)
      ([.take 1 1] ++ List.replicate 5 (.run 1))).map (fun s => s.crashed) = some true := by decide +kernel

/-- A loop over a pure query, three threads (for `pure_loop_elementwise`). -/
example : (runFrom (⟨[5, 6, 7], id, fun _ x => x, 0⟩ : Loop ℕ ℕ ℕ ℕ) (pureSvc (Fin 3) (fun n => some (n * n)))
      (fun _ => none)
      [.take 2 0, .take 0 2, .run 0, .take 1 1, .run 1, .store 1, .run 2, .store 0, .store 2]).map
      (fun s => s.result) = some [25, 36, 49] := by decide +kernel

/-- A loop over a cached value, the two threads computing it once (for `value_loop_elementwise`). -/
example : (runFrom (⟨[1, 2], fun _ => (), fun y x => y * x, 0⟩ : Loop ℕ Unit ℕ ℕ)
      (valSvc (Fin 2) (⟨fun w => some (w + 10), true⟩ : CacheVal.Cfg ℕ ℕ))
      (CacheVal.init (Fin 2) 3 0)
      ([.take 0 1] ++ List.replicate 4 (.run 0) ++ [.take 1 0] ++ List.replicate 3 (.run 1) ++
        List.replicate 7 (.run 0) ++ [.store 0] ++ List.replicate 5 (.run 1) ++ [.store 1])).map
      (fun s => s.result) = some [13, 26] := by decide +kernel

/-- Years 1 and 2; the annual cost is the world plus 10. -/
def costLoop : Loop ℕ Unit ℕ ℕ := ⟨[1, 2], fun _ => (), fun y x => y * x, 0⟩

/-- The annual cost, on a run time that ignores the release of a free lock. -/
def costCfg : CacheVal.Cfg ℕ ℕ := ⟨fun w => some (w + 10), false⟩

/-- `E_cost(vector)` is not element-wise correct once the cached annual cost has been cleared: the thread that
finds a computation in progress does not wait and multiplies the old annual cost.  Here the cost was computed
as 13, the world changed, the cache was cleared; the loop finishes with 14 and 26 instead of 14 and 28. -/
theorem value_loop_after_clear_fails :
    ∃ s₀ s, CacheVal.Exec costCfg (CacheVal.init (Fin 2) 3 0)
        ([.call 0] ++ List.replicate 11 (.run 0) ++ [.change 4, .clear]) s₀ ∧
      (∀ t, s₀.pc t = .idle) ∧ s₀.fault = none ∧
      (∃ ls, Exec costLoop (valSvc (Fin 2) costCfg) (begin costLoop (valSvc (Fin 2) costCfg) s₀) ls s) ∧
      Finished s ∧ costCfg.func s.svc.world = some 14 ∧ s.result = [14, 26] := by
  have h : (CacheVal.runL costCfg (CacheVal.init (Fin 2) 3 0)
        ([.call 0] ++ List.replicate 11 (.run 0) ++ [.change 4, .clear])).map (fun s₀ =>
      (decide (s₀.pc 0 = .idle ∧ s₀.pc 1 = .idle ∧ s₀.fault = none),
       (runFrom costLoop (valSvc (Fin 2) costCfg) s₀
        ([.take 0 0] ++ List.replicate 4 (.run 0) ++ [.take 1 1] ++ List.replicate 8 (.run 1) ++ [.store 1] ++
          List.replicate 7 (.run 0) ++ [.store 0])).map
        (fun s => decide (s.crashed = false ∧ s.pool = [] ∧ (s.work 0).inside = false ∧
          (s.work 1).inside = false ∧ s.svc.world = 4 ∧ s.result = [14, 26])))) = some (true, some true) := by
    decide +kernel
  obtain ⟨s₀, hs₀, h⟩ := Option.map_eq_some_iff.1 h
  obtain ⟨hp0, hp1, hf⟩ := of_decide_eq_true (congrArg Prod.fst h)
  obtain ⟨s, hs, h⟩ := Option.map_eq_some_iff.1 (congrArg Prod.snd h)
  obtain ⟨h1, h2, h3, h4, h5, h6⟩ := of_decide_eq_true h
  have hin : ∀ w : Work ℕ, w.inside = false → w = .idle := by intro w hw; cases w <;> simp_all [Work.inside]
  refine ⟨s₀, s, CacheVal.exec_of_runL hs₀, ?_, hf, ⟨_, exec_of_runL hs⟩, ⟨h1, h2, ?_⟩, ?_, h6⟩
  · intro t
    fin_cases t
    · exact hp0
    · exact hp1
  · intro t
    fin_cases t
    · exact hin _ h3
    · exact hin _ h4
  · show costCfg.func s.svc.world = _
    rw [h5]; rfl

end Slat.ParFor
