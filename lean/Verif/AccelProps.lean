import Verif.AccelLemmas
import Verif.ParForProps

/-!
# Interpolated functions evaluated by several threads (property C75)

The wanted value is that of `linearFn` and `logLogFn` (C21, C49), the function described by the table.  A build either reads the
accelerator again before it returns (`rr = true`, the code as written) or keeps the index in a register (`rr = false`).
-/

namespace Slat.Accel

open Slat Dbl Functions ParFor

variable {Tid : Type} [DecidableEq Tid]

/-! ## Specification -/

/-- States an object can get into: threads enter evaluations and execute their accesses in any order. -/
inductive Reach (o : Obj) (rr : Bool) : St Tid → Prop where
  | init : Reach o rr (init Tid)
  | call {s s' t x} : Reach o rr s → call s t x = some s' → Reach o rr s'
  | run {s s' t out} : Reach o rr s → run o rr s t = some (s', out) → Reach o rr s'

/-- The object made from a table by the linear (`false`) or the log-log (`true`) constructor computes `f`. -/
def Computes (pts : List (ℝ × ℝ)) (loglog : Bool) (o : Obj) (f : Dbl → Dbl) : Prop :=
  ∃ a b, pts.head? = some a ∧ pts.getLast? = some b ∧
    ((loglog = false ∧ o = linearObj a b pts ∧ linearFn pts = some f) ∨
     (loglog = true ∧ o = logLogObj a b pts ∧ logLogFn pts = some f ∧ ∀ p ∈ pts, 0 < p.1))

/-- The answer of thread `t` if nobody else touches the object for the next `n` accesses. -/
noncomputable def solo (o : Obj) (rr : Bool) : ℕ → St Tid → Tid → Option Dbl
  | 0, _, _ => none
  | n + 1, s, t =>
    match run o rr s t with
    | some (_, .done y) => some y
    | some (s', .busy) => solo o rr n s' t
    | _ => none

/-! ## Proof support -/

theorem computes_fit {pts : List (ℝ × ℝ)} {ll : Bool} {o : Obj} {f : Dbl → Dbl} (h : Computes pts ll o f) :
    Fit o ∧ ∀ x, value o x = f x := by
  obtain ⟨a, b, ha, hb, ⟨-, rfl, hf⟩ | ⟨-, rfl, hf, hpos⟩⟩ := h
  · have hok : tableOk pts := (linear_constructs_iff pts).1 (by rw [hf]; rfl)
    refine ⟨fit_linear hok ha hb, fun x => ?_⟩
    unfold linearFn at hf
    rw [if_pos hok] at hf
    simp only [ha, hb, Option.some.injEq] at hf
    rw [value_linear, hf]
  · unfold logLogFn at hf
    split at hf
    · rename_i hok
      simp only [ha, hb, Option.some.injEq] at hf
      exact ⟨fit_logLog hpos hok ha hb, fun x => by rw [value_logLog, hf]⟩
    · cases hf

theorem Reach.inv {o : Obj} (hf : Fit o) {rr : Bool} {s : St Tid} (h : Reach o rr s) : Inv o rr s := by
  induction h with
  | init => exact inv_init hf rr
  | call _ hs ih => exact (inv_call ih hs).1
  | run _ hs ih => exact (inv_run hf ih hs).1

/-! ## C75 -/

/-- `IM::lambda` of a vector with an interpolated curve, any earlier use of the object, any number of threads and any interleaving
of their accesses: each element is the value of the function at that argument, if the build keeps the index in a register or the
team has a single thread.  Missing: builds that read the accelerator again (`shared_interpolation_fails`). -/
theorem shared_interpolation_partial [Fintype Tid] [Nonempty Tid] {pts : List (ℝ × ℝ)} {ll : Bool} {o : Obj} {f : Dbl → Dbl}
    (h : Computes pts ll o f) {rr : Bool} (hr : rr = false ∨ Subsingleton Tid) {s₀ : St Tid} (hs : Reach o rr s₀)
    (hq : ∀ t, s₀.pc t = .idle) (args : List Dbl) (zero : Dbl) :
    Elementwise ⟨args, id, fun _ x => x, zero⟩ (svc Tid o rr) s₀ (fun x => some (f x)) 5 := by
  obtain ⟨hfit, hval⟩ := computes_fit h
  have := elementwise_of_serves (L := ⟨args, id, fun _ x => x, zero⟩) (serves (Tid := Tid) hfit hr) s₀ (hs.inv hfit)
    (fun t => by rw [hq t]; rfl) (by simp [hq, Pc.rank])
  simpa [hval] using this

/-- Whatever the threads do and however the library was built, no evaluation reads outside the table, and every answer is an end
value or the value of one of the straight pieces of the table (not necessarily the right one). -/
theorem shared_interpolation_safe {pts : List (ℝ × ℝ)} {ll : Bool} {o : Obj} {f : Dbl → Dbl} (h : Computes pts ll o f)
    {rr : Bool} {s s' : St Tid} {t : Tid} {out : Out Dbl} (hs : Reach o rr s) (hrun : run o rr s t = some (s', out)) :
    out = .busy ∨ ∃ x y, (s.pc t).arg = some x ∧ out = .done y ∧ (y = f x ∨ ∃ i, i + 1 < o.pts.length ∧
      ∃ v, piece o.pts (o.into x) i = some v ∧ y = o.out v) := by
  obtain ⟨hfit, hval⟩ := computes_fit h
  have hi := hs.inv hfit
  obtain ⟨-, -, -, x, hx, h1⟩ := inv_run hfit hi hrun
  rcases h1 with ⟨rfl, -⟩ | ⟨y, rfl, -, -⟩
  · exact .inl rfl
  · refine .inr ⟨x, y, hx, rfl, ?_⟩
    have hg := hi.good t
    cases hpc : s.pc t with
    | idle => simp only [run, hpc] at hrun; cases hrun
    | entered z =>
      rw [hpc] at hx
      cases hx
      simp only [run, hpc] at hrun
      left
      rw [← hval, value]
      split at hrun
      · rename_i hz
        cases hrun
        rw [if_pos hz]
      · rename_i hz
        split at hrun
        · rename_i hz2
          cases hrun
          rw [if_neg hz, if_pos hz2]
        · split at hrun <;> cases hrun
    | searched z i w => cases w <;> simp only [run, hpc] at hrun <;> cases hrun
    | returning z i =>
      rw [hpc] at hx hg
      cases hx
      have hidx : (if rr then s.cache else i) + 1 < o.pts.length := by
        split
        · exact hi.bounds
        · exact hg.2.2
      obtain ⟨v, hv⟩ := piece_defined o.pts (o.into x) _ hidx
      simp only [run, hpc, hv] at hrun
      cases hrun
      exact .inr ⟨_, hidx, v, hv, rfl⟩

/-- After any use by any number of threads, an evaluation during which no other thread uses the object returns the value of the
function, whichever way the library was built: a wrong answer never has consequences for later ones. -/
theorem undisturbed_evaluation {pts : List (ℝ × ℝ)} {ll : Bool} {o : Obj} {f : Dbl → Dbl} (h : Computes pts ll o f)
    {rr : Bool} {s s' : St Tid} {t : Tid} {x : Dbl} (hs : Reach o rr s) (hc : call s t x = some s') :
    solo o rr 3 s' t = some (f x) := by
  obtain ⟨hfit, hval⟩ := computes_fit h
  obtain ⟨hi, hpc, -⟩ := inv_call (hs.inv hfit) hc
  have ht : s'.pc t = .entered x := by rw [hpc, Function.update_self]
  rw [← hval]
  by_cases h1 : x < .fin o.first.1
  · simp only [solo, run, ht, if_pos h1, value]
  · by_cases h2 : Dbl.fin o.last.1 < x
    · simp only [solo, run, ht, if_neg h1, if_pos h2, value]
    · obtain ⟨c1, c2⟩ := hfit.covers x ⟨h1, h2⟩
      obtain ⟨w, hw, hcell, -⟩ := find_ok o.pts (o.into x) s'.cache hi.bounds c1
      have hp := piece_ok o.pts hfit.ok.2 _ _ c2 hcell
      cases w with
      | none =>
        have hp' : piece o.pts (o.into x) s'.cache = some (tableValue o.pts (o.into x)) := hp
        simp [solo, run, ht, h1, h2, value, hw, hp']
      | some j =>
        have hp' : piece o.pts (o.into x) j = some (tableValue o.pts (o.into x)) := hp
        simp [solo, run, ht, h1, h2, value, hw, hp']

/-! ## Concrete cases -/

/-- Annual rates 4, 1, 0 at intensities 0, 1, 2. -/
noncomputable def curve : List (ℝ × ℝ) := [(0, 4), (1, 1), (2, 0)]

/-- The hazard curve of the example. -/
noncomputable def hazard : Obj := linearObj (0, 4) (2, 0) curve

theorem hazard_ok : tableOk curve := by
  refine ⟨by simp [curve], ?_⟩
  simp [curve]

/-- The hypotheses of the theorems are met. -/
theorem hazard_computes : Computes curve false hazard (linear (0, 4) (2, 0) curve) := by
  refine ⟨(0, 4), (2, 0), rfl, rfl, .inl ⟨rfl, rfl, ?_⟩⟩
  unfold linearFn
  rw [if_pos hazard_ok]
  rfl

/-- A log-log table meets them as well. -/
example : ∃ f, Computes [(1, 1), (4, 16)] true (logLogObj (1, 1) (4, 16) [(1, 1), (4, 16)]) f := by
  obtain ⟨f, hf, -⟩ := logLog_faithful [(1, 1), (4, 16)] (by simp) (by simp) (by simp)
  exact ⟨f, (1, 1), (4, 16), rfl, rfl, .inr ⟨rfl, rfl, hf, by simp⟩⟩

/-- Intensity 3/2. -/
noncomputable def strong : Dbl := .fin (3 / 2)
/-- Intensity 1/2. -/
noncomputable def weak : Dbl := .fin (1 / 2)

theorem strong_inside : ¬ strong < .fin hazard.first.1 ∧ ¬ .fin hazard.last.1 < strong := by
  constructor <;> simp only [strong, hazard, linearObj, fin_lt] <;> norm_num

theorem weak_inside : ¬ weak < .fin hazard.first.1 ∧ ¬ .fin hazard.last.1 < weak := by
  constructor <;> simp only [weak, hazard, linearObj, fin_lt] <;> norm_num

theorem find_strong : find hazard.pts (hazard.into strong) 0 = some (some 1) := by
  show find curve strong 0 = some (some 1)
  have h0 : ¬ strong < .fin 0 := by simp only [strong, fin_lt]; norm_num
  have h1 : ¬ strong < .fin 1 := by simp only [strong, fin_lt]; norm_num
  have h2 : Dbl.fin 1 ≤ strong := by simp only [strong, fin_le]; norm_num
  have e : bsearch [((0 : ℝ), (4 : ℝ)), (1, 1), (2, 0)] strong 0 2 = some 1 := by
    rw [bsearch]
    simp only [Nat.zero_add, show (1 : ℕ) < 2 by norm_num, if_true, show (2 + 0) / 2 = 1 by norm_num, List.getElem?_cons_succ,
      List.getElem?_cons_zero, h1, if_false]
    rw [bsearch]
    simp
  unfold find
  simp only [curve, List.getElem?_cons_zero, List.getElem?_cons_succ, h0, h2, if_true, if_false, List.length_cons, List.length_nil]
  rw [e]
  rfl

theorem find_weak : find hazard.pts (hazard.into weak) 1 = some (some 0) := by
  show find curve weak 1 = some (some 0)
  have h1 : weak < .fin 1 := by simp only [weak, fin_lt]; norm_num
  have e : bsearch [((0 : ℝ), (4 : ℝ)), (1, 1), (2, 0)] weak 0 1 = some 0 := by
    rw [bsearch]
    simp
  unfold find
  simp only [curve, List.getElem?_cons_zero, List.getElem?_cons_succ, h1, if_true]
  rw [e]
  rfl

theorem piece_strong : piece hazard.pts (hazard.into strong) 0 = some (.fin (-1 / 2)) := by
  show piece curve (.fin (3 / 2)) 0 = _
  unfold piece
  simp only [curve, List.getElem?_cons_zero, List.getElem?_cons_succ]
  rw [if_pos (by norm_num), fin_sub, fin_div_of_ne (by norm_num), fin_mul, fin_add]
  norm_num

theorem piece_weak : piece hazard.pts (hazard.into weak) 0 = some (.fin (5 / 2)) := by
  show piece curve (.fin (1 / 2)) 0 = _
  unfold piece
  simp only [curve, List.getElem?_cons_zero, List.getElem?_cons_succ]
  rw [if_pos (by norm_num), fin_sub, fin_div_of_ne (by norm_num), fin_mul, fin_add]
  norm_num

/-- The loop over the intensities 3/2 and 1/2. -/
noncomputable def twoArgs : Loop Dbl Dbl Dbl Dbl := ⟨[strong, weak], id, fun _ x => x, .fin 0⟩

/-- Thread 0 stores interval 1 for 3/2; before it reads the accelerator again, thread 1 stores interval 0 for 1/2. -/
def race : List (Lbl (Fin 2)) :=
  [.take 0 0, .run 0, .run 0, .take 1 1, .run 1, .run 1, .run 0, .store 0, .run 1, .store 1]

theorem race_runs : (runFrom twoArgs (svc (Fin 2) hazard true) (init (Fin 2)) race).map
    (fun s => (s.crashed, s.pool, s.work 0, s.work 1, s.result)) =
      some (false, [], .idle, .idle, [.fin (-1 / 2), .fin (5 / 2)]) := by
  have ho : ∀ y, hazard.out y = y := fun _ => rfl
  simp [runFrom, runL, race, ParFor.step, ParFor.begin, twoArgs, svc, call, run, init, strong_inside, weak_inside, find_strong,
    find_weak, piece_strong, piece_weak, ho, Function.update, List.range_succ]

/-- The code as written: in a parallel query two threads exchange intervals, and the hazard curve 4, 1, 0 yields the annual rate
-1/2 at intensity 3/2 (the value described by the table is 1/2). -/
theorem shared_interpolation_fails :
    ∃ s, Exec twoArgs (svc (Fin 2) hazard true) (begin twoArgs (svc (Fin 2) hazard true) (init (Fin 2))) race s ∧ Finished s ∧
      s.result = [.fin (-1 / 2), .fin (5 / 2)] ∧
      linear (0, 4) (2, 0) curve (.fin (3 / 2)) = .fin (1 / 2) := by
  obtain ⟨s, hs, h⟩ := Option.map_eq_some_iff.1 race_runs
  simp only [Prod.mk.injEq] at h
  obtain ⟨h1, h2, h3, h4, h5⟩ := h
  refine ⟨s, exec_of_runL hs, ⟨h1, h2, ?_⟩, h5, ?_⟩
  · intro t
    fin_cases t
    · exact h3
    · exact h4
  · have := (linear_faithful curve _ (show linearFn curve = some (linear (0, 4) (2, 0) curve) by
      unfold linearFn; rw [if_pos hazard_ok]; rfl)).2.1 [(0, 4)] (1, 1) (2, 0) [] rfl (3 / 2) (by norm_num) (by norm_num)
    rw [this]
    norm_num

/-- The same schedule with the index kept in a register (for `shared_interpolation_partial`, `undisturbed_evaluation` and
`shared_interpolation_safe`: an object used before by two threads). -/
example : ∃ s : St (Fin 2), Reach hazard false s ∧ s.pc 0 = .searched strong 0 (some 1) ∧ s.pc 1 = .entered weak := by
  have h1 : call (init (Fin 2)) 0 strong = some ⟨0, Function.update (fun _ => .idle) 0 (.entered strong)⟩ := rfl
  have h2 := Reach.call (o := hazard) (rr := false) .init h1
  have h3 : run hazard false (⟨0, Function.update (fun _ => .idle) 0 (.entered strong)⟩ : St (Fin 2)) 0 =
      some (⟨0, Function.update (Function.update (fun _ => .idle) 0 (.entered strong)) 0 (.searched strong 0 (some 1))⟩, .busy) := by
    simp only [run, Function.update_self, if_neg strong_inside.1, if_neg strong_inside.2, find_strong]
  have h4 := Reach.run h2 h3
  refine ⟨_, Reach.call (t := 1) (x := weak) h4 rfl, ?_, ?_⟩
  · rfl
  · rfl

end Slat.Accel
