import Verif.DescribeModel
import Verif.FunctionsModel
import Mathlib.Tactic.NormNum

/-!
# What the descriptions of functions and demands tell (C99)
-/

namespace Slat.Describe

/-! ## Specification -/

/-- The text of a number has none of the characters that separate numbers. -/
def Plain (num : ℝ → List Char) : Prop := ∀ x, ∀ c ∈ num x, c ≠ ',' ∧ c ≠ '(' ∧ c ≠ ')'

/-- Functions of the same kind whose parameters, in the same order, are written alike.  Tables are not compared. -/
def Alike (num : ℝ → List Char) : Fn → Fn → Prop
  | .hyperbolic v i a, .hyperbolic v' i' a' => num v = num v' ∧ num i = num i' ∧ num a = num a'
  | .power a b, .power a' b' => num a = num a' ∧ num b = num b'
  | .linear _, .linear _ => True
  | .logLog _, .logLog _ => True
  | _, _ => False

/-- Depth of the parentheses behind a text that starts at depth `n`; nothing if one is closed that was not opened. -/
def depth : ℕ → List Char → Option ℕ
  | n, [] => some n
  | n, '(' :: t => depth (n + 1) t
  | 0, ')' :: _ => none
  | n + 1, ')' :: t => depth n t
  | n, _ :: t => depth n t

/-! ## Auxiliary facts -/

/-- Behind a number or a function comes a comma or a closing parenthesis, or nothing. -/
def Stop (r : List Char) : Prop := ∀ c ∈ r.head?, c = ',' ∨ c = ')'

theorem lit_comma : lit ", " = [',', ' '] := by simp [lit]
theorem lit_close : lit ")" = [')'] := by simp [lit]
theorem lit_hyperbolic : lit "Hyperbolic(" = ['H', 'y', 'p', 'e', 'r', 'b', 'o', 'l', 'i', 'c', '('] := by simp [lit]
theorem lit_power : lit "Power(" = ['P', 'o', 'w', 'e', 'r', '('] := by simp [lit]
theorem lit_linear : ∃ t : List Char, lit "LinearInterpolatedFn" = 'L' :: 'i' :: t ∧ ∀ c ∈ t, c ≠ '(' ∧ c ≠ ')' :=
  ⟨_, by simp only [lit]; rfl, by decide⟩
theorem lit_logLog : ∃ t : List Char, lit "LogLogInterpolatedFn" = 'L' :: 'o' :: t ∧ ∀ c ∈ t, c ≠ '(' ∧ c ≠ ')' :=
  ⟨_, by simp only [lit]; rfl, by decide⟩
theorem lit_logNormal : lit "LogNormal(" = ['L', 'o', 'g', 'N', 'o', 'r', 'm', 'a', 'l', '('] := by simp [lit]
theorem lit_im : lit "IM(" = ['I', 'M', '('] := by simp [lit]
theorem lit_edp : lit "EDP((" = ['E', 'D', 'P', '(', '('] := by simp [lit]

theorem stop_comma (r : List Char) : Stop (lit ", " ++ r) := by simp [Stop, lit_comma]
theorem stop_close (r : List Char) : Stop (lit ")" ++ r) := by simp [Stop, lit_close]

theorem plain_split {a b r r' : List Char} (ha : ∀ c ∈ a, c ≠ ',' ∧ c ≠ '(' ∧ c ≠ ')')
    (hb : ∀ c ∈ b, c ≠ ',' ∧ c ≠ '(' ∧ c ≠ ')') (hr : Stop r) (hr' : Stop r') (h : a ++ r = b ++ r') :
    a = b ∧ r = r' := by
  induction a generalizing b with
  | nil =>
    cases b with
    | nil => exact ⟨rfl, h⟩
    | cons c b =>
      simp only [List.nil_append, List.cons_append] at h
      subst h
      have := hr c (by simp)
      have := hb c (by simp)
      tauto
  | cons c a ih =>
    cases b with
    | nil =>
      simp only [List.nil_append, List.cons_append] at h
      subst h
      have := hr' c (by simp)
      have := ha c (by simp)
      tauto
    | cons d b =>
      simp only [List.cons_append, List.cons.injEq] at h
      obtain ⟨rfl, h⟩ := h
      obtain ⟨rfl, rfl⟩ := ih (fun x hx => ha x (by simp [hx])) (fun x hx => hb x (by simp [hx])) h
      exact ⟨rfl, rfl⟩

variable {num : ℝ → List Char}

theorem num_split (hn : Plain num) {x y : ℝ} {r r' : List Char} (hr : Stop r) (hr' : Stop r')
    (h : num x ++ r = num y ++ r') : num x = num y ∧ r = r' :=
  plain_split (hn x) (hn y) hr hr' h

theorem fn_split (hn : Plain num) {f g : Fn} {r r' : List Char} (h : f.text num ++ r = g.text num ++ r') :
    Alike num f g ∧ r = r' := by
  cases f with
  | hyperbolic v i a =>
    cases g with
    | hyperbolic v' i' a' =>
      simp only [Fn.text, List.append_assoc, List.append_cancel_left_eq] at h
      obtain ⟨h1, h⟩ := num_split hn (stop_comma _) (stop_comma _) h
      rw [List.append_cancel_left_eq] at h
      obtain ⟨h2, h⟩ := num_split hn (stop_comma _) (stop_comma _) h
      rw [List.append_cancel_left_eq] at h
      obtain ⟨h3, h⟩ := num_split hn (stop_close _) (stop_close _) h
      rw [List.append_cancel_left_eq] at h
      exact ⟨⟨h1, h2, h3⟩, h⟩
    | power _ _ => simp [Fn.text, lit_hyperbolic, lit_power] at h
    | linear _ => obtain ⟨t, e, -⟩ := lit_linear; simp [Fn.text, lit_hyperbolic, e] at h
    | logLog _ => obtain ⟨t, e, -⟩ := lit_logLog; simp [Fn.text, lit_hyperbolic, e] at h
  | power a b =>
    cases g with
    | power a' b' =>
      simp only [Fn.text, List.append_assoc, List.append_cancel_left_eq] at h
      obtain ⟨h1, h⟩ := num_split hn (stop_comma _) (stop_comma _) h
      rw [List.append_cancel_left_eq] at h
      obtain ⟨h2, h⟩ := num_split hn (stop_close _) (stop_close _) h
      rw [List.append_cancel_left_eq] at h
      exact ⟨⟨h1, h2⟩, h⟩
    | hyperbolic _ _ _ => simp [Fn.text, lit_hyperbolic, lit_power] at h
    | linear _ => obtain ⟨t, e, -⟩ := lit_linear; simp [Fn.text, lit_power, e] at h
    | logLog _ => obtain ⟨t, e, -⟩ := lit_logLog; simp [Fn.text, lit_power, e] at h
  | linear t =>
    cases g with
    | linear t' => exact ⟨trivial, List.append_cancel_left h⟩
    | hyperbolic _ _ _ => obtain ⟨t, e, -⟩ := lit_linear; simp [Fn.text, lit_hyperbolic, e] at h
    | power _ _ => obtain ⟨t, e, -⟩ := lit_linear; simp [Fn.text, lit_power, e] at h
    | logLog _ =>
      obtain ⟨t, e, -⟩ := lit_linear
      obtain ⟨t', e', -⟩ := lit_logLog
      simp [Fn.text, e, e'] at h
  | logLog t =>
    cases g with
    | logLog t' => exact ⟨trivial, List.append_cancel_left h⟩
    | hyperbolic _ _ _ => obtain ⟨t, e, -⟩ := lit_logLog; simp [Fn.text, lit_hyperbolic, e] at h
    | power _ _ => obtain ⟨t, e, -⟩ := lit_logLog; simp [Fn.text, lit_power, e] at h
    | linear _ =>
      obtain ⟨t, e, -⟩ := lit_linear
      obtain ⟨t', e', -⟩ := lit_logLog
      simp [Fn.text, e, e'] at h

theorem alike_text {f g : Fn} (h : Alike num f g) : f.text num = g.text num := by
  cases f <;> cases g <;> simp_all [Alike, Fn.text]

theorem depth_plain {t : List Char} (ht : ∀ c ∈ t, c ≠ '(' ∧ c ≠ ')') (n : ℕ) (r : List Char) :
    depth n (t ++ r) = depth n r := by
  induction t with
  | nil => rfl
  | cons c t ih =>
    have hc := ht c (by simp)
    rw [List.cons_append, ← ih fun x hx => ht x (by simp [hx])]
    cases n <;> (rw [depth]; all_goals simp_all)

theorem depth_num (hn : Plain num) (x : ℝ) (n : ℕ) (r : List Char) : depth n (num x ++ r) = depth n r :=
  depth_plain (fun c hc => (hn x c hc).2) n r

theorem depth_comma (n : ℕ) (r : List Char) : depth n (lit ", " ++ r) = depth n r :=
  depth_plain (by simp [lit_comma]) n r

theorem depth_open {t : List Char} (ht : ∀ c ∈ t, c ≠ '(' ∧ c ≠ ')') (n : ℕ) (r : List Char) :
    depth n (t ++ '(' :: r) = depth (n + 1) r := by
  rw [depth_plain ht]
  cases n <;> rfl

theorem depth_close (n : ℕ) (r : List Char) : depth (n + 1) (lit ")" ++ r) = depth n r := by
  rw [lit_close]
  rfl

theorem fn_depth (hn : Plain num) (f : Fn) (n : ℕ) (r : List Char) : depth n (f.text num ++ r) = depth n r := by
  cases f with
  | hyperbolic v i a =>
    have := depth_open (t := ['H', 'y', 'p', 'e', 'r', 'b', 'o', 'l', 'i', 'c']) (by simp) n
    simp only [Fn.text, List.append_assoc, lit_hyperbolic]
    refine (this _).trans ?_
    simp only [List.append_eq, List.nil_append]
    rw [depth_num hn, depth_comma, depth_num hn, depth_comma, depth_num hn, depth_close]
  | power a b =>
    have := depth_open (t := ['P', 'o', 'w', 'e', 'r']) (by simp) n
    simp only [Fn.text, List.append_assoc, lit_power]
    refine (this _).trans ?_
    simp only [List.append_eq, List.nil_append]
    rw [depth_num hn, depth_comma, depth_num hn, depth_close]
  | linear t =>
    obtain ⟨t, e, h⟩ := lit_linear
    refine depth_plain ?_ n r
    rw [Fn.text, e]
    simpa using h
  | logLog t =>
    obtain ⟨t, e, h⟩ := lit_logLog
    refine depth_plain ?_ n r
    rw [Fn.text, e]
    simpa using h

theorem im_depth (hn : Plain num) (i : Im) (n : ℕ) (r : List Char) : depth n (i.text num ++ r) = depth n r := by
  have := depth_open (t := ['I', 'M']) (by simp) n
  simp only [Im.text, List.append_assoc, lit_im]
  refine (this _).trans ?_
  simp only [List.append_eq, List.nil_append]
  rw [fn_depth hn, depth_close]

theorem prob_depth (hn : Plain num) (p : Prob) (n : ℕ) (r : List Char) : depth n (p.text num ++ r) = depth n r := by
  have := depth_open (t := ['L', 'o', 'g', 'N', 'o', 'r', 'm', 'a', 'l']) (by simp) n
  simp only [Prob.text, List.append_assoc, lit_logNormal]
  refine (this _).trans ?_
  simp only [List.append_eq, List.nil_append]
  rw [fn_depth hn, depth_comma, fn_depth hn, depth_close]

/-! ## C99 -/

/-- **C99**: two demands have the same description exactly if their hazard curves and the two functions of their demand
functions are of the same kinds, with parameters that are written alike. -/
theorem description_tells_partial (hn : Plain num) (e e' : Edp) :
    e.text num = e'.text num ↔ Alike num e.base.f e'.base.f ∧ Alike num e.dependent.mu e'.dependent.mu ∧
      Alike num e.dependent.sigma e'.dependent.sigma := by
  constructor
  · intro h
    simp only [Edp.text, Im.text, Prob.text, List.append_assoc, List.append_cancel_left_eq] at h
    obtain ⟨h1, h⟩ := fn_split hn h
    simp only [List.append_cancel_left_eq] at h
    obtain ⟨h2, h⟩ := fn_split hn h
    rw [List.append_cancel_left_eq] at h
    exact ⟨h1, h2, (fn_split hn h).1⟩
  · rintro ⟨h1, h2, h3⟩
    simp only [Edp.text, Im.text, Prob.text, alike_text h1, alike_text h2, alike_text h3]

/-- **C99**: parentheses are closed in the descriptions of functions and intensity measures. -/
theorem description_closed (hn : Plain num) (f : Fn) (p : Prob) (i : Im) :
    depth 0 (f.text num) = some 0 ∧ depth 0 (p.text num) = some 0 ∧ depth 0 (i.text num) = some 0 := by
  have h1 := fn_depth hn f 0 []
  have h2 := prob_depth hn p 0 []
  have h3 := im_depth hn i 0 []
  simp only [List.append_nil] at h1 h2 h3
  exact ⟨h1, h2, h3⟩

/-! ## What fails -/

/-- **C99, what fails**: in the description of a demand one parenthesis is never closed, whatever it is made of. -/
theorem demand_unclosed_fails (hn : Plain num) (e : Edp) : depth 0 (e.text num) = some 1 := by
  have h := depth_open (t := ['E', 'D', 'P']) (by simp) 0
  have h' := depth_open (t := []) (by simp) 1
  have h1 := depth_close 1 []
  simp only [Edp.text, List.append_assoc, lit_edp]
  refine (h _).trans ((h' _).trans ?_)
  simp only [List.append_eq, List.nil_append]
  rw [im_depth hn, depth_comma, prob_depth hn]
  rw [List.append_nil] at h1
  exact h1

/-- **C99, what fails**: the description does not say whether the functions give means or medians, standard deviations
or logarithmic ones, nor that there is a second demand function, nor what is in a table: a constant function and an increasing one are
described alike. -/
theorem description_silent_fails (num : ℝ → List Char) : ∃ e e' : Edp, e.text num = e'.text num ∧
    e.dependent.muKind ≠ e'.dependent.muKind ∧ e.dependent.sigmaKind ≠ e'.dependent.sigmaKind ∧
    e.second = none ∧ e'.second ≠ none ∧
    ∃ t t', e.base.f = .linear t ∧ e'.base.f = .linear t' ∧ Functions.tableOk t ∧ Functions.tableOk t' ∧
      Functions.interp t (1 / 2) ≠ Functions.interp t' (1 / 2) := by
  refine ⟨⟨⟨.linear [(0, 1), (1, 1)]⟩, ⟨.power 1 1, 1, .power 1 1, 1⟩, none⟩,
    ⟨⟨.linear [(0, 1), (1, 2)]⟩, ⟨.power 1 1, 3, .power 1 1, 2⟩, some ⟨.power 2 1, 3, .power 1 1, 2⟩⟩,
    rfl, by decide, by decide, rfl, by simp, _, _, rfl, rfl, ?_, ?_, ?_⟩
  · simp [Functions.tableOk]
  · simp [Functions.tableOk]
  · norm_num [Functions.interp]

/-! ## Examples -/

/-- Numbers written with one digit. -/
noncomputable def digit (x : ℝ) : List Char := if x = 1 then ['1'] else if x = 2 then ['2'] else ['0']

theorem digit_plain : Plain digit := by
  intro x c hc
  unfold digit at hc
  split at hc
  · simp_all
  · split at hc <;> simp_all

/-- A demand on a power-law hazard. -/
def drift (b : ℝ) : Edp := ⟨⟨.power 1 b⟩, ⟨.power 2 1, 3, .linear [(0, 1), (1, 1)], 2⟩, none⟩

example : (drift 2).text digit = lit "EDP((IM(Power(1, 2)), LogNormal(Power(2, 1), LinearInterpolatedFn))" := by
  simp [Edp.text, Im.text, Prob.text, Fn.text, drift, digit, lit]

example : (drift 2).text digit ≠ (drift 1).text digit := by
  intro h
  have := ((description_tells_partial digit_plain _ _).1 h).1
  simp [drift, Alike, digit] at this

example : depth 0 ((drift 2).text digit) = some 1 := demand_unclosed_fails digit_plain _

example : depth 0 ((drift 2).base.text digit) = some 0 := (description_closed digit_plain (.power 1 2) (drift 2).dependent _).2.2

end Slat.Describe
