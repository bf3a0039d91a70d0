import Verif.MaqSearch

/-!
# The main loop of MAQ: invariant and termination
-/

namespace Slat.Maq

open Dbl

noncomputable section

/-! ### Specification -/

/-- The intervals of the list follow each other from `a` to `b` without gap or overlap. -/
def Tiles : ℝ → ℝ → List (ℝ × ℝ) → Prop
  | a, b, [] => a = b
  | a, b, (u, v) :: l => u = a ∧ u < v ∧ Tiles v b l

/-- The integrand transformed to `t = 1/(1+x)`; at `t = 0` (infinite `x`) its plain value there. -/
def onUnit (f : Dbl → Dbl) (t : ℝ) : Dbl :=
  if t = 0 then f .pinf / .fin 1 else f (.fin (1 / t - 1)) / .fin (t * t)

/-- Simpson's three-point estimate. -/
def est1 (F : ℝ → Dbl) (p : ℝ × ℝ) : Dbl :=
  .fin ((p.2 - p.1) / 6) * (F p.1 + .fin 4 * F ((p.1 + p.2) / 2) + F p.2)

/-- Simpson's estimate on both halves. -/
def est2 (F : ℝ → Dbl) (p : ℝ × ℝ) : Dbl := est1 F (p.1, (p.1 + p.2) / 2) + est1 F ((p.1 + p.2) / 2, p.2)

/-- Sum of the extrapolated estimates of a list of intervals, in that order. -/
def total (F : ℝ → Dbl) (l : List (ℝ × ℝ)) : Dbl :=
  l.foldl (fun s p => s + est2 F p + (est2 F p - est1 F p) / .fin 15) 0

/-- The error test by which an interval is accepted when `s` has been accumulated. -/
def Passes (F : ℝ → Dbl) (tol s : Dbl) (p : ℝ × ℝ) : Prop :=
  abs (est2 F p - est1 F p) ≤ abs (tol * est2 F p) ∨ abs (est2 F p - est1 F p) ≤ abs (tol * s)

/-- The five points of an interval at which the integrand is evaluated. -/
def points (p : ℝ × ℝ) : List ℝ :=
  [p.1, (p.1 + (p.1 + p.2) / 2) / 2, (p.1 + p.2) / 2, (p.2 + (p.1 + p.2) / 2) / 2, p.2]

/-! ### Tilings -/

theorem Tiles.le {a b : ℝ} {l : List (ℝ × ℝ)} (h : Tiles a b l) : a ≤ b := by
  induction l generalizing a with
  | nil => exact le_of_eq h
  | cons p l ih =>
    obtain ⟨rfl, h2, h3⟩ := h
    linarith [ih h3]

theorem Tiles.mem {a b : ℝ} {l : List (ℝ × ℝ)} (h : Tiles a b l) {p : ℝ × ℝ} (hp : p ∈ l) :
    a ≤ p.1 ∧ p.1 < p.2 ∧ p.2 ≤ b := by
  induction l generalizing a with
  | nil => simp at hp
  | cons q l ih =>
    obtain ⟨rfl, h2, h3⟩ := h
    rcases List.mem_cons.1 hp with rfl | hp
    · exact ⟨le_rfl, h2, h3.le⟩
    · obtain ⟨i1, i2, i3⟩ := ih h3 hp
      exact ⟨by linarith, i2, i3⟩

theorem Tiles.split {a b u v m : ℝ} {l₁ l₂ : List (ℝ × ℝ)} (h : Tiles a b (l₁ ++ (u, v) :: l₂)) (h1 : u < m)
    (h2 : m < v) : Tiles a b (l₁ ++ (u, m) :: (m, v) :: l₂) := by
  induction l₁ generalizing a with
  | nil =>
    obtain ⟨rfl, -, h3⟩ := h
    exact ⟨rfl, h1, rfl, h2, h3⟩
  | cons q l ih =>
    obtain ⟨rfl, h2, h3⟩ := h
    exact ⟨rfl, h2, ih h3⟩

/-! ### The loop invariant -/

/-- The interval of a region. -/
def Region.iv (r : Region) : ℝ × ℝ := (r.a, r.b)

/-- The cached values of a region are right. -/
def RegionOk (F : ℝ → Dbl) (r : Region) : Prop :=
  0 ≤ r.a ∧ r.a < r.b ∧ r.c = (r.a + r.b) / 2 ∧ r.fa = F r.a ∧ r.fb = F r.b ∧ r.fc = F r.c ∧ r.r = est1 F r.iv ∧
    ¬ isNaN (F r.a) ∧ ¬ isNaN (F r.b) ∧ ¬ isNaN (F r.c)

/-- The invariant of the main loop: accepted and pending intervals together tile the bracket. -/
def LoopInv (F : ℝ → Dbl) (tol : Dbl) (a b : ℝ) (n : ℕ) (s : LoopState) : Prop :=
  ∃ done leaves : List (ℝ × ℝ), Tiles a b leaves ∧ leaves.Perm (done ++ s.stack.map Region.iv) ∧
    s.integral = total F done ∧
    (∀ l₁ p l₂, done = l₁ ++ p :: l₂ → Passes F tol (total F l₁) p) ∧
    (∀ p ∈ done, ∀ t ∈ points p, ¬ isNaN (F t)) ∧
    (∀ r ∈ s.stack, RegionOk F r) ∧
    s.counter = (n + 2 + 2 * done.length + s.stack.length) % 2 ^ 32 ∧
    s.calls + n + 1 = 2 * (n + 1 + 2 * done.length + s.stack.length)

theorem transformed_eq (f : Dbl → Dbl) {t : ℝ} (ht : t ≠ 0) : transformed f t = onUnit f t := by
  simp [transformed, onUnit, xFromT, ht]

theorem transformedLeft_eq (f : Dbl → Dbl) (t : ℝ) : transformedLeft f t = onUnit f t := by
  unfold transformedLeft onUnit xFromT
  split <;> rfl

theorem quad_eq (F : ℝ → Dbl) (a b : ℝ) : quad a b (F a) (F b) (F ((a + b) / 2)) = est1 F (a, b) := rfl

theorem total_append (F : ℝ → Dbl) (l : List (ℝ × ℝ)) (p : ℝ × ℝ) :
    total F (l ++ [p]) = total F l + est2 F p + (est2 F p - est1 F p) / .fin 15 := by
  simp [total]

theorem inc32_mod (x : ℕ) : inc32 (x % 2 ^ 32) = (x + 1) % 2 ^ 32 := by
  unfold inc32
  omega

theorem append_split {α : Type*} {l l₁ l₂ : List α} {p q : α} (h : l ++ [q] = l₁ ++ p :: l₂) :
    (l₂ = [] ∧ l₁ = l ∧ p = q) ∨ ∃ l₃, l = l₁ ++ p :: l₃ := by
  rcases List.eq_nil_or_concat l₂ with rfl | ⟨l₃, r, rfl⟩
  · left
    have := List.append_inj' h (by simp)
    obtain ⟨h1, h2⟩ := this
    simp only [List.cons.injEq, and_true] at h2
    exact ⟨rfl, h1.symm, h2.symm⟩
  · right
    refine ⟨l₃, ?_⟩
    have h' : l ++ [q] = (l₁ ++ p :: l₃) ++ [r] := by simpa using h
    exact (List.append_inj' h' (by simp)).1

instance (F : ℝ → Dbl) (tol s : Dbl) (p : ℝ × ℝ) : Decidable (Passes F tol s p) := inferInstanceAs (Decidable (_ ∨ _))

/-- One iteration of the loop, in terms of the specification. -/
theorem loopStep_eq (f : Dbl → Dbl) (tol : Dbl) (maxeval : ℕ) (t : Region) (rest : List Region) (I : Dbl)
    (k calls : ℕ) (ht : RegionOk (onUnit f) t) :
    loopStep f tol maxeval ⟨t :: rest, I, k, calls⟩ =
      if inc32 k > maxeval then .inr ⟨.integrationFail, ⟨.nan, false, inc32 k⟩, calls⟩
      else if isNaN (onUnit f ((t.a + t.c) / 2)) then .inr ⟨.nan, ⟨.nan, false, inc32 k⟩, calls + 2⟩
      else if isNaN (onUnit f ((t.b + t.c) / 2)) then .inr ⟨.nan, ⟨.nan, false, inc32 k⟩, calls + 2⟩
      else if Passes (onUnit f) tol I t.iv then
        .inl ⟨rest, I + est2 (onUnit f) t.iv + (est2 (onUnit f) t.iv - est1 (onUnit f) t.iv) / .fin 15, inc32 k,
          calls + 2⟩
      else if abs (est1 (onUnit f) (t.c, t.b)) < abs (est1 (onUnit f) (t.a, t.c)) then
        .inl ⟨⟨t.a, t.c, (t.a + t.c) / 2, t.fa, t.fc, onUnit f ((t.a + t.c) / 2), est1 (onUnit f) (t.a, t.c)⟩ ::
          ⟨t.c, t.b, (t.b + t.c) / 2, t.fc, t.fb, onUnit f ((t.b + t.c) / 2), est1 (onUnit f) (t.c, t.b)⟩ :: rest,
          I, inc32 k, calls + 2⟩
      else
        .inl ⟨⟨t.c, t.b, (t.b + t.c) / 2, t.fc, t.fb, onUnit f ((t.b + t.c) / 2), est1 (onUnit f) (t.c, t.b)⟩ ::
          ⟨t.a, t.c, (t.a + t.c) / 2, t.fa, t.fc, onUnit f ((t.a + t.c) / 2), est1 (onUnit f) (t.a, t.c)⟩ :: rest,
          I, inc32 k, calls + 2⟩ := by
  obtain ⟨a, b, c, fa, fb, fc, r⟩ := t
  obtain ⟨h1, h2, h3, h4, h5, h6, h7, -, -, -⟩ := ht
  simp only [Region.iv] at h1 h2 h3 h4 h5 h6 h7
  subst h4 h5 h6 h7
  have hc : 0 < c := by rw [h3]; linarith
  have hcb : c < b := by rw [h3]; linarith
  have e1 : transformed f ((a + c) / 2) = onUnit f ((a + c) / 2) := transformed_eq f (by linarith)
  have e2 : transformed f ((b + c) / 2) = onUnit f ((b + c) / 2) := transformed_eq f (by linarith)
  have e3 : quad a c (onUnit f a) (onUnit f c) (onUnit f ((a + c) / 2)) = est1 (onUnit f) (a, c) := rfl
  have e4 : quad c b (onUnit f c) (onUnit f b) (onUnit f ((b + c) / 2)) = est1 (onUnit f) (c, b) := by
    rw [add_comm b c]; rfl
  have e5 : est1 (onUnit f) (a, c) + est1 (onUnit f) (c, b) = est2 (onUnit f) (a, b) := by
    rw [h3]; rfl
  simp only [loopStep, e1, e2, e3, e4, e5, Region.iv, Passes]

theorem regionOk_left {F : ℝ → Dbl} {t : Region} (ht : RegionOk F t) (hd : ¬ isNaN (F ((t.a + t.c) / 2))) :
    RegionOk F ⟨t.a, t.c, (t.a + t.c) / 2, t.fa, t.fc, F ((t.a + t.c) / 2), est1 F (t.a, t.c)⟩ := by
  obtain ⟨h1, h2, h3, h4, h5, h6, h7, h8, h9, h10⟩ := ht
  exact ⟨h1, by dsimp only; linarith, rfl, h4, h6, rfl, rfl, h8, h10, hd⟩

theorem regionOk_right {F : ℝ → Dbl} {t : Region} (ht : RegionOk F t) (hd : ¬ isNaN (F ((t.b + t.c) / 2))) :
    RegionOk F ⟨t.c, t.b, (t.b + t.c) / 2, t.fc, t.fb, F ((t.b + t.c) / 2), est1 F (t.c, t.b)⟩ := by
  obtain ⟨h1, h2, h3, h4, h5, h6, h7, h8, h9, h10⟩ := ht
  exact ⟨by dsimp only; linarith, by dsimp only; linarith, by dsimp only; ring, h6, h5, rfl, rfl, h10, h9, hd⟩

theorem tiles_perm_split {a b u v : ℝ} {leaves done : List (ℝ × ℝ)} {rest : List (ℝ × ℝ)} {m : ℝ}
    (h : Tiles a b leaves) (hp : leaves.Perm (done ++ (u, v) :: rest)) (h1 : u < m) (h2 : m < v) :
    ∃ leaves', Tiles a b leaves' ∧ leaves'.Perm (done ++ (u, m) :: (m, v) :: rest) := by
  have hmem : (u, v) ∈ leaves := hp.mem_iff.2 (by simp)
  obtain ⟨l₁, l₂, rfl⟩ := List.append_of_mem hmem
  refine ⟨_, h.split h1 h2, ?_⟩
  have hp' : (l₁ ++ l₂).Perm (done ++ rest) := by
    have := (List.perm_middle (a := (u, v)) (l₁ := l₁) (l₂ := l₂)).symm.trans (hp.trans List.perm_middle)
    exact this.cons_inv
  calc (l₁ ++ (u, m) :: (m, v) :: l₂).Perm ((u, m) :: (m, v) :: (l₁ ++ l₂)) :=
        (List.perm_middle).trans ((List.perm_middle).cons _)
    _ |>.Perm ((u, m) :: (m, v) :: (done ++ rest)) := (hp'.cons _).cons _
    _ |>.Perm (done ++ (u, m) :: (m, v) :: rest) :=
        (((List.perm_middle).cons _).symm.trans (List.perm_middle).symm)

theorem loopInv_step (f : Dbl → Dbl) (tol : Dbl) (maxeval : ℕ) (a b : ℝ) (n : ℕ) (s s' : LoopState)
    (hs : LoopInv (onUnit f) tol a b n s) (h : loopStep f tol maxeval s = .inl s') :
    LoopInv (onUnit f) tol a b n s' := by
  obtain ⟨stack, I, k, calls⟩ := s
  obtain ⟨done, leaves, h1, h2, h3, h4, h5, h6, h7, h8⟩ := hs
  simp only at h2 h3 h4 h5 h6 h7 h8
  cases stack with
  | nil => simp [loopStep] at h
  | cons t rest =>
    have ht : RegionOk (onUnit f) t := h6 t (by simp)
    have hrest : ∀ r ∈ rest, RegionOk (onUnit f) r := fun r hr => h6 r (by simp [hr])
    obtain ⟨g1, g2, g3, g4, g5, g6, g7, g8, g9, g10⟩ := id ht
    rw [loopStep_eq f tol maxeval t rest I k calls ht] at h
    simp only [List.map_cons, List.length_cons] at h2 h7 h8
    have hk : inc32 k = (n + 2 + 2 * done.length + (rest.length + 1) + 1) % 2 ^ 32 := by rw [h7, inc32_mod]
    split at h
    · simp at h
    split at h
    · simp at h
    rename_i hd
    split at h
    · simp at h
    rename_i he
    split at h
    · rename_i hpass
      simp only [Sum.inl.injEq] at h
      subst h
      refine ⟨done ++ [t.iv], leaves, h1, ?_, ?_, ?_, ?_, hrest, ?_, ?_⟩
      · simpa using h2
      · rw [total_append, ← h3]
      · intro l₁ p l₂ hl
        rcases append_split hl with ⟨-, rfl, rfl⟩ | ⟨l₃, hl⟩
        · rw [← h3]; exact hpass
        · exact h4 l₁ p l₃ hl
      · intro p hp u hu
        rcases List.mem_append.1 hp with hp | hp
        · exact h5 p hp u hu
        · simp only [List.mem_singleton] at hp
          subst hp
          simp only [points, Region.iv, List.mem_cons, List.not_mem_nil, or_false, ← g3] at hu
          rcases hu with rfl | rfl | rfl | rfl | rfl
          exacts [g8, hd, g10, he, g9]
      · simp only [List.length_append, List.length_cons, List.length_nil]
        rw [hk]; congr 1; omega
      · simp only [List.length_append, List.length_cons, List.length_nil]
        omega
    · split at h
      · simp only [Sum.inl.injEq] at h
        subst h
        obtain ⟨leaves', t1, t2⟩ := tiles_perm_split (m := t.c) h1 h2 (by linarith) (by linarith)
        refine ⟨done, leaves', t1, t2, h3, h4, h5, ?_, ?_, ?_⟩
        · intro r hr
          simp only [List.mem_cons] at hr
          rcases hr with rfl | rfl | hr
          exacts [regionOk_left ht hd, regionOk_right ht he, hrest r hr]
        · simp only [List.length_cons]; rw [hk]; congr 1
        · simp only [List.length_cons]; omega
      · simp only [Sum.inl.injEq] at h
        subst h
        obtain ⟨leaves', t1, t2⟩ := tiles_perm_split (m := t.c) h1 h2 (by linarith) (by linarith)
        refine ⟨done, leaves', t1, ?_, h3, h4, h5, ?_, ?_, ?_⟩
        · exact t2.trans ((List.Perm.swap _ _ _).append_left done)
        · intro r hr
          simp only [List.mem_cons] at hr
          rcases hr with rfl | rfl | hr
          exacts [regionOk_right ht he, regionOk_left ht hd, hrest r hr]
        · simp only [List.length_cons]; rw [hk]; congr 1
        · simp only [List.length_cons]; omega

/-- What a finished loop reports. -/
def Finished (F : ℝ → Dbl) (tol : Dbl) (a b : ℝ) (n : ℕ) (r : Report) : Prop :=
  (r.result.successful = true ∧ r.outcome = .success ∧ ∃ done leaves : List (ℝ × ℝ), Tiles a b leaves ∧
    leaves.Perm done ∧ r.result.integral = total F done ∧
    (∀ l₁ p l₂, done = l₁ ++ p :: l₂ → Passes F tol (total F l₁) p) ∧
    (∀ p ∈ done, ∀ t ∈ points p, ¬ isNaN (F t)) ∧
    r.result.evals = (n + 2 + 2 * done.length) % 2 ^ 32 ∧
    r.calls + n + 1 = 2 * (n + 1 + 2 * done.length)) ∨
  (r.result.successful = false ∧ r.result.integral = .nan ∧ (r.outcome = .integrationFail ∨ r.outcome = .nan))

theorem loop_finished (f : Dbl → Dbl) (tol : Dbl) (maxeval : ℕ) (a b : ℝ) (n : ℕ) (s : LoopState)
    (hs : LoopInv (onUnit f) tol a b n s) (fuel : ℕ) (r : Report)
    (h : iter (loopStep f tol maxeval) fuel s = some r) : Finished (onUnit f) tol a b n r := by
  refine iter_inv (step := loopStep f tol maxeval) (LoopInv (onUnit f) tol a b n) _
    (loopInv_step f tol maxeval a b n) ?_ hs h
  intro s r hs h
  obtain ⟨stack, I, k, calls⟩ := s
  obtain ⟨done, leaves, h1, h2, h3, h4, h5, h6, h7, h8⟩ := hs
  simp only at h2 h3 h4 h5 h6 h7 h8
  cases stack with
  | nil =>
    simp only [loopStep, Sum.inr.injEq] at h
    subst h
    simp only [List.map_nil, List.append_nil, List.length_nil, Nat.add_zero] at h2 h7 h8
    exact Or.inl ⟨rfl, rfl, done, leaves, h1, h2, h3, h4, h5, h7, h8⟩
  | cons t rest =>
    rw [loopStep_eq f tol maxeval t rest I k calls (h6 t (by simp))] at h
    right
    split at h
    · simp only [Sum.inr.injEq] at h; subst h; exact ⟨rfl, rfl, Or.inl rfl⟩
    split at h
    · simp only [Sum.inr.injEq] at h; subst h; exact ⟨rfl, rfl, Or.inr rfl⟩
    split at h
    · simp only [Sum.inr.injEq] at h; subst h; exact ⟨rfl, rfl, Or.inr rfl⟩
    split at h
    · simp at h
    split at h <;> simp at h

/-- The state in which the loop is entered. -/
theorem loop_init (f : Dbl → Dbl) (tol : Dbl) {a b : ℝ} (hab : ValidBracket a b) (n : ℕ)
    (ha : ¬ isNaN (onUnit f a)) (hb : ¬ isNaN (onUnit f b)) (hc : ¬ isNaN (onUnit f ((a + b) / 2))) :
    LoopInv (onUnit f) tol a b n
      ⟨[⟨a, b, (a + b) / 2, onUnit f a, onUnit f b, onUnit f ((a + b) / 2),
        quad a b (onUnit f a) (onUnit f b) (onUnit f ((a + b) / 2))⟩], 0, (n + 3) % 2 ^ 32, n + 3⟩ := by
  refine ⟨[], [(a, b)], ⟨rfl, hab.2.1, rfl⟩, ?_, rfl, ?_, ?_, ?_, ?_, ?_⟩
  · simp [Region.iv]
  · simp
  · simp
  · simp only [List.mem_singleton, forall_eq]
    exact ⟨hab.1, hab.2.1, rfl, rfl, rfl, rfl, rfl, ha, hb, hc⟩
  · simp
  · simp only [List.length_nil, List.length_singleton]; omega

/-- `integrate` on a bracket, in terms of the transformed integrand. -/
theorem integrate_bracket (f : Dbl → Dbl) (tol : Dbl) (maxeval : ℕ) {a b : ℝ} (hab : ValidBracket a b) (n fuel : ℕ) :
    integrate f tol maxeval (.bracket a b n) fuel =
      if isNaN (onUnit f a) then some ⟨.nan, ⟨.nan, false, n⟩, n + 2⟩
      else if isNaN (onUnit f b) then some ⟨.nan, ⟨.nan, false, n⟩, n + 2⟩
      else if isNaN (onUnit f ((a + b) / 2)) then some ⟨.nan, ⟨.nan, false, n⟩, n + 3⟩
      else iter (loopStep f tol maxeval) fuel
        ⟨[⟨a, b, (a + b) / 2, onUnit f a, onUnit f b, onUnit f ((a + b) / 2),
          quad a b (onUnit f a) (onUnit f b) (onUnit f ((a + b) / 2))⟩], 0, (n + 3) % 2 ^ 32, n + 3⟩ := by
  obtain ⟨h1, h2, h3⟩ := hab
  simp only [integrate, transformedLeft_eq, transformed_eq f (show b ≠ 0 by linarith),
    transformed_eq f (show (a + b) / 2 ≠ 0 by linarith)]

/-- The call returns with this report: no bound on iterations from some point on changes it. -/
def Returns (f : Dbl → Dbl) (cfg : Cfg) (rep : Report) : Prop :=
  ∃ N, ∀ fuel, N ≤ fuel → maq f cfg fuel = some rep

/-- The search ends with this result. -/
def Finds (f : Dbl → Dbl) (cfg : Cfg) (r : SearchResult) : Prop :=
  ∃ N, ∀ fuel, N ≤ fuel → search f cfg.method cfg.bineval fuel = some r

/-- Everything a call can report, once it returns. -/
theorem maq_cases (f : Dbl → Dbl) (cfg : Cfg) (rep : Report) (h : Returns f cfg rep) :
    (∃ n, Finds f cfg (.nothing n) ∧ rep = ⟨.searchFail, ⟨0, true, n⟩, n⟩) ∨
    (∃ a b n, Finds f cfg (.bracket a b n) ∧
      (SearchResult.bracket a b n).Ok cfg.bineval ∧ Finished (onUnit f) cfg.tol a b n rep) := by
  obtain ⟨N, h⟩ := h
  obtain ⟨r, h1, h2⟩ := search_ok f cfg.method cfg.bineval
  have hi := h (max N (cfg.bineval + 2)) (le_max_left _ _)
  simp only [maq, h1 _ (le_max_right N (cfg.bineval + 2)), Option.bind_some] at hi
  generalize max N (cfg.bineval + 2) = fuel at hi
  cases r with
  | nothing n =>
    simp only [integrate, Option.some.injEq] at hi
    exact Or.inl ⟨n, ⟨_, h1⟩, hi.symm⟩
  | bracket a b n =>
    right
    refine ⟨a, b, n, ⟨_, h1⟩, h2, ?_⟩
    rw [integrate_bracket f _ _ h2.1] at hi
    split at hi
    · simp only [Option.some.injEq] at hi; subst hi; exact Or.inr ⟨rfl, rfl, Or.inr rfl⟩
    split at hi
    · simp only [Option.some.injEq] at hi; subst hi; exact Or.inr ⟨rfl, rfl, Or.inr rfl⟩
    split at hi
    · simp only [Option.some.injEq] at hi; subst hi; exact Or.inr ⟨rfl, rfl, Or.inr rfl⟩
    rename_i ha hb hc
    exact loop_finished f cfg.tol cfg.maxeval a b n _ (loop_init f cfg.tol h2.1 n ha hb hc) fuel rep hi

end

end Slat.Maq
