import Verif.DescribeGroupModel
import Verif.DescribeProps

/-!
# What the descriptions of groups tell (C99)
-/

namespace Slat.Describe

/-! ## Specification -/

/-- Distributions whose means and logarithmic standard deviations are written alike. -/
def SameDist (num : ℝ → List Char) (d e : Dist) : Prop := num d.mean = num e.mean ∧ num d.sdLn = num e.sdLn

/-- Loss functions of the same kind; simple ones have the same states, bi-level ones are not compared. -/
def SameLoss (num : ℝ → List Char) : Loss → Loss → Prop
  | .simple l, .simple l' => List.Forall₂ (SameDist num) l l'
  | .biLevel _, .biLevel _ => True
  | _, _ => False

/-- Demands with functions that are written alike. -/
def SameEdp (num : ℝ → List Char) (e e' : Edp) : Prop :=
  Alike num e.base.f e'.base.f ∧ Alike num e.dependent.mu e'.dependent.mu ∧
    Alike num e.dependent.sigma e'.dependent.sigma

/-- The text of an integer has none of the characters that separate numbers. -/
def PlainInt (int : ℤ → List Char) : Prop := ∀ x, ∀ c ∈ int x, c ≠ ',' ∧ c ≠ '(' ∧ c ≠ ')'

/-! ## Auxiliary facts -/

theorem lit_semicolon : lit "; " = [';', ' '] := by simp [lit]
theorem lit_line : lit "\n" = ['\n'] := by simp [lit]
theorem lit_colon : lit ": " = [':', ' '] := by simp [lit]
theorem lit_dist : ∃ t : List Char, lit "(lognormal mean=" = '(' :: t := ⟨_, by simp only [lit]; rfl⟩
theorem lit_sdLn : ∃ t : List Char, lit ", sd_ln=" = ',' :: t := ⟨_, by simp only [lit]; rfl⟩
theorem lit_simple : ∃ t : List Char, lit "SimpleLossFn: " = 'S' :: t := ⟨_, by simp only [lit]; rfl⟩
theorem lit_loss : ∃ t : List Char, lit "LossFn: " = 'L' :: t := ⟨_, by simp only [lit]; rfl⟩

variable {num : ℝ → List Char} {int : ℤ → List Char}

theorem stop_sdLn (r : List Char) : Stop (lit ", sd_ln=" ++ r) := by
  obtain ⟨t, e⟩ := lit_sdLn
  simp [Stop, e]

theorem dist_split (hn : Plain num) {d e : Dist} {r r' : List Char} (h : d.text num ++ r = e.text num ++ r') :
    SameDist num d e ∧ r = r' := by
  simp only [Dist.text, List.append_assoc, List.append_cancel_left_eq] at h
  obtain ⟨h1, h⟩ := num_split hn (stop_sdLn _) (stop_sdLn _) h
  rw [List.append_cancel_left_eq] at h
  obtain ⟨h2, h⟩ := num_split hn (stop_close _) (stop_close _) h
  rw [List.append_cancel_left_eq] at h
  exact ⟨⟨h1, h2⟩, h⟩

theorem states_split (hn : Plain num) {l l' : List Dist} {r r' : List Char}
    (h : states num l ++ lit "\n" ++ r = states num l' ++ lit "\n" ++ r') :
    List.Forall₂ (SameDist num) l l' ∧ r = r' := by
  obtain ⟨t, ht⟩ := lit_dist
  induction l generalizing l' with
  | nil =>
    cases l' with
    | nil => simpa [states] using h
    | cons d l' => simp [states, Dist.text, lit_line, ht] at h
  | cons d l ih =>
    cases l' with
    | nil => simp [states, Dist.text, lit_line, ht] at h
    | cons e l' =>
      simp only [states, List.flatMap_cons, List.append_assoc] at h
      obtain ⟨h1, h⟩ := dist_split hn h
      rw [List.append_cancel_left_eq] at h
      obtain ⟨h2, h3⟩ := ih (l' := l') (by simpa only [states, List.append_assoc] using h)
      exact ⟨.cons h1 h2, h3⟩

theorem loss_split (hn : Plain num) {f g : Loss} {r r' : List Char} (h : f.text num ++ r = g.text num ++ r') :
    SameLoss num f g ∧ r = r' := by
  obtain ⟨t, ht⟩ := lit_simple
  obtain ⟨u, hu⟩ := lit_loss
  cases f with
  | simple l =>
    cases g with
    | simple l' =>
      simp only [Loss.text, List.append_assoc, List.append_cancel_left_eq] at h
      exact states_split hn (by simpa only [List.append_assoc] using h)
    | biLevel _ => simp [Loss.text, ht, hu] at h
  | biLevel l =>
    cases g with
    | simple _ => simp [Loss.text, ht, hu] at h
    | biLevel _ => exact ⟨trivial, List.append_cancel_left h⟩

theorem edp_split (hn : Plain num) {e e' : Edp} {r r' : List Char} (h : e.text num ++ r = e'.text num ++ r') :
    SameEdp num e e' ∧ r = r' := by
  simp only [Edp.text, Im.text, Prob.text, List.append_assoc, List.append_cancel_left_eq] at h
  obtain ⟨h1, h⟩ := fn_split hn h
  simp only [List.append_cancel_left_eq] at h
  obtain ⟨h2, h⟩ := fn_split hn h
  rw [List.append_cancel_left_eq] at h
  obtain ⟨h3, h⟩ := fn_split hn h
  simp only [List.append_cancel_left_eq] at h
  exact ⟨⟨h1, h2, h3⟩, h⟩

theorem colon_split {a b r r' : List Char} (ha : ':' ∉ a) (hb : ':' ∉ b)
    (h : a ++ (lit ": " ++ r) = b ++ (lit ": " ++ r')) : a = b ∧ r = r' := by
  simp only [lit_colon, List.cons_append, List.nil_append] at h
  induction a generalizing b with
  | nil =>
    cases b with
    | nil => simpa using h
    | cons c b =>
      simp only [List.nil_append, List.cons_append, List.cons.injEq] at h
      exact (hb (by simp [← h.1])).elim
  | cons c a ih =>
    cases b with
    | nil =>
      simp only [List.nil_append, List.cons_append, List.cons.injEq] at h
      exact (ha (by simp [h.1])).elim
    | cons d b =>
      simp only [List.cons_append, List.cons.injEq] at h
      obtain ⟨rfl, h⟩ := h
      obtain ⟨rfl, rfl⟩ := ih (fun hx => ha (by simp [hx])) (fun hx => hb (by simp [hx])) h
      exact ⟨rfl, rfl⟩

theorem sameDist_text {d e : Dist} (h : SameDist num d e) : d.text num = e.text num := by
  simp only [Dist.text, h.1, h.2]

theorem same_states {l l' : List Dist} (h : List.Forall₂ (SameDist num) l l') : states num l = states num l' := by
  induction h with
  | nil => rfl
  | cons h1 _ ih => simp only [states, List.flatMap_cons, sameDist_text h1] at ih ⊢; rw [ih]

theorem sameLoss_text {f g : Loss} (h : SameLoss num f g) : f.text num = g.text num := by
  cases f <;> cases g
  · simp only [Loss.text, same_states h]
  · exact h.elim
  · exact h.elim
  · rfl

/-! ## C99 -/

/-- **C99**: two groups that have functions of cost and delay, and names without a colon, are described alike exactly if
they have the same name, numbers of components that are written alike, demands that are described alike, and fragility
and loss functions of the same kinds with distributions that are written alike, state by state. -/
theorem group_description_tells_partial (hn : Plain num) (hi : PlainInt int) (g g' : Group) (c d c' d' : Loss)
    (hc : g.cost = some c) (hd : g.delay = some d) (hc' : g'.cost = some c') (hd' : g'.delay = some d')
    (hg : ':' ∉ g.name) (hg' : ':' ∉ g'.name) :
    g.text num int = g'.text num int ↔ g.name = g'.name ∧ int g.count = int g'.count ∧
      g.edp.text num = g'.edp.text num ∧ List.Forall₂ (SameDist num) g.frag g'.frag ∧ SameLoss num c c' ∧
      SameLoss num d d' := by
  simp only [Group.text, hc, hd, hc', hd', Option.some.injEq]
  constructor
  · intro h
    simp only [List.append_assoc, List.append_cancel_left_eq] at h
    obtain ⟨h1, h⟩ := colon_split hg hg' h
    obtain ⟨h2, h⟩ := plain_split (hi _) (hi _) (stop_comma _) (stop_comma _) h
    rw [List.append_cancel_left_eq] at h
    obtain ⟨h3, h⟩ := edp_split hn h
    simp only [fragText, List.append_assoc, List.append_cancel_left_eq] at h
    obtain ⟨h4, h⟩ := states_split hn (by simpa only [List.append_assoc] using h)
    rw [List.append_cancel_left_eq] at h
    obtain ⟨h5, h⟩ := loss_split hn h
    rw [List.append_cancel_left_eq] at h
    exact ⟨h1, h2, (description_tells_partial hn _ _).2 h3, h4, h5, (loss_split hn h).1⟩
  · rintro ⟨h1, h2, h3, h4, h5, h6⟩
    simp only [fragText, h1, h2, h3, same_states h4, sameLoss_text h5, sameLoss_text h6]

/-! ## What fails -/

/-- **C99, what fails**: a group can be described only if it has both a function of cost and a function of delay, although
both may be left out; otherwise the behaviour is undefined. -/
theorem group_description_fails (num : ℝ → List Char) (int : ℤ → List Char) (g : Group) :
    g.text num int = none ↔ g.cost = none ∨ g.delay = none := by
  rcases g with ⟨_, _, _, _, _ | _, _ | _, _, _⟩ <;> simp [Group.text]

/-- **C99, what fails**: bi-level costs and factors of adjustment are not told: groups that cost differently are described
alike. -/
theorem group_silent_fails (num : ℝ → List Char) (int : ℤ → List Char) (g : Group) (d : Loss) (hd : g.delay = some d)
    (l l' : List (ℤ × ℤ × ℝ × ℝ × ℝ)) (a a' b b' : ℝ) :
    ∃ t, { g with cost := some (.biLevel l), costAdj := a, delayAdj := b }.text num int = some t ∧
      { g with cost := some (.biLevel l'), costAdj := a', delayAdj := b' }.text num int = some t := by
  simp only [Group.text, hd]
  exact ⟨_, rfl, rfl⟩

/-! ## Examples -/

/-- Numbers of components written with one digit. -/
def tally (x : ℤ) : List Char := if x = 1 then ['1'] else ['0']

theorem tally_plain : PlainInt tally := by
  intro x c hc
  unfold tally at hc
  split at hc <;> simp_all

/-- A group with one damage state of the mean strength `m`. -/
def pipes (m : ℝ) : Group :=
  ⟨['p'], 1, drift 2, [⟨m, 1⟩], some (.simple [⟨2, 1⟩]), some (.biLevel [(1, 2, 3, 4, 5)]), 1, 1⟩

example : (pipes 1).text digit tally ≠ (pipes 2).text digit tally := by
  intro h
  have := ((group_description_tells_partial digit_plain tally_plain (pipes 1) (pipes 2) _ _ _ _ rfl rfl rfl rfl
    (by simp [pipes]) (by simp [pipes])).1 h).2.2.2.1
  simp [pipes, SameDist, digit] at this

set_option maxRecDepth 10000 in
example : (pipes 1).text digit tally = some (lit ("CompGroup p: 1, EDP((IM(Power(1, 2)), LogNormal(Power(2, 1), " ++
    "LinearInterpolatedFn)), FragilityFn: (lognormal mean=1, sd_ln=1); \n, " ++
    "SimpleLossFn: (lognormal mean=2, sd_ln=1); \n, LossFn: \n\n")) := by
  simp [pipes, Group.text, fragText, states, Loss.text, Dist.text, Edp.text, Im.text, Prob.text, Fn.text, drift, digit, tally,
    lit]

/-- A group without a function of delay. -/
example : { pipes 1 with delay := none }.text digit tally = none := (group_description_fails _ _ _).2 (.inr rfl)

example : ∃ t, { pipes 1 with cost := some (.biLevel []), costAdj := 1, delayAdj := 1 }.text digit tally = some t ∧
    { pipes 1 with cost := some (.biLevel [(1, 2, 3, 4, 5)]), costAdj := 2, delayAdj := 1 }.text digit tally = some t :=
  group_silent_fails _ _ _ _ rfl _ _ _ _ _ _

end Slat.Describe
