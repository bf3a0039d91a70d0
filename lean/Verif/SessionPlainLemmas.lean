import Verif.SessionPlain
import Verif.SessionPlainSpec
import Verif.SessionLemmas
import Verif.MakeProps

/-!
# Helper lemmas for sessions with functions, intensity measures and demands
-/

namespace Slat.Session

noncomputable section

open Interp (Val Call Cmd Cfg Err Mu Sd DistCmd Sc)
open Output (Path Files)

/-- A function of the program has the values of a formula, at positive arguments. -/
def Agree (f : Dbl → Dbl) (h : ℝ → ℝ) : Prop := ∀ x : ℝ, 0 < x → f (.fin x) = .fin (h x)

/-! ## The world -/

/-- Every number in the dictionaries is that of an object. -/
def World.Sound (w : World) : Prop := ∀ e ∈ w.defs, e.2 < w.things.length

theorem lookup_mem {α β : Type} [BEq α] [LawfulBEq α] {l : List (α × β)} {a : α} {b : β}
    (h : l.lookup a = some b) : (a, b) ∈ l := by
  induction l with
  | nil => cases h
  | cons e l ih =>
    obtain ⟨a', b'⟩ := e
    rw [List.lookup_cons] at h
    by_cases ha : a == a'
    · rw [ha] at h
      cases h
      rw [eq_of_beq ha]
      simp
    · rw [Bool.not_eq_true] at ha
      rw [ha] at h
      exact List.mem_cons_of_mem _ (ih h)

theorem World.Sound.lt {w : World} (h : w.Sound) {r i : String} {n : ℕ} (hf : w.find r i = some n) :
    n < w.things.length := h _ (lookup_mem hf)

theorem World.Sound.add {w : World} (h : w.Sound) (r i : String) (t : Thing) : (w.add r i t).Sound := by
  intro e he
  simp only [World.add, List.mem_cons, List.length_append, List.length_singleton] at he ⊢
  rcases he with rfl | he
  · simp
  · exact Nat.lt_succ_of_lt (h e he)

theorem World.find_add {w : World} (r i r' i' : String) (t : Thing) :
    (w.add r i t).find r' i' = if r' = r ∧ i' = i then some w.things.length else w.find r' i' := by
  simp only [World.find, World.add, List.lookup_cons]
  by_cases h : r' = r ∧ i' = i
  · have e : ((r', i') == (r, i)) = true := by simpa using h
    rw [if_pos h, e]
  · have e : ((r', i') == (r, i)) = false := by simpa using h
    rw [if_neg h, e]

theorem World.thing_add {w : World} (h : w.Sound) (r i r' i' : String) (t : Thing) :
    (w.add r i t).thing r' i' = if r' = r ∧ i' = i then some t else w.thing r' i' := by
  unfold World.thing
  rw [World.find_add]
  by_cases hc : r' = r ∧ i' = i
  · simp [if_pos hc, World.add]
  · rw [if_neg hc, if_neg hc]
    cases hf : w.find r' i' with
    | none => rfl
    | some n => simp [World.add, List.getElem?_append_left (h.lt hf)]

/-! ## What is kept -/

/-- The distribution made from two numbers. -/
def made : Mu × Sd × ℝ × ℝ → LogNormalDist
  | (mu, sp, a, b) => Make.logNormalDist (.fin a) (muType mu) (.fin b) (sigmaType sp)

/-- The objects of the program are those that the script speaks of (newest command first). -/
structure Meets (l : List Cmd) (w : World) : Prop where
  sound : w.Sound
  curve : ∀ i h, Spec.curveOf l i = some h → ∃ f, w.thing "detfn" i = some (.detfn f) ∧ Agree f h
  law : ∀ i L, Spec.lawOf l i = some L → ∃ f g, w.thing "probfn" i = some (.probfn L.mu L.sp f g) ∧
    Agree f L.f ∧ Agree g L.g
  hazard : ∀ i h, Spec.hazardOf l i = some h →
    ∃ f d, w.thing "im" i = some (.im i f d) ∧ Agree f h
  demand : ∀ i m L, Spec.demandOf l i = some (m, L) → ∃ n c f g,
    w.thing "edp" i = some (.edp m n c L.mu L.sp f g) ∧ Agree f L.f ∧ Agree g L.g ∧
      w.find "im" m = some n ∧ ∃ d, w.thing "im" m = some (.im m c d)
  imName : ∀ i t, w.thing "im" i = some t → ∃ f d, t = .im i f d
  imOnce : ∀ i n, w.find "im" i = some n → ∃ f, Cmd.im i f ∈ l
  edpOnce : ∀ i n, w.find "edp" i = some n → ∃ m f, Cmd.edp i m f ∈ l
  imOwn : ∀ i j n, w.find "im" i = some n → w.find "im" j = some n → i = j
  fate : ∀ i f d, w.thing "im" i = some (.im i f d) →
    (∀ r, Spec.fateOf .collapse l i = some r → d.collapse = r.map made) ∧
    (∀ r, Spec.fateOf .demolition l i = some r → d.demolition = r.map made)
  noFate : ∀ i, w.find "im" i = none →
    (∀ r, Spec.fateOf .collapse l i = some r → r = none) ∧
    (∀ r, Spec.fateOf .demolition l i = some r → r = none)

theorem Meets.init : Meets [] {} where
  sound := by intro e he; cases he
  curve := by intro i h hc; cases hc
  law := by intro i h hc; cases hc
  hazard := by intro i h hc; cases hc
  demand := by intro i h hc h; cases h
  imName := by intro i t h; cases h
  imOnce := by intro i n h; cases h
  edpOnce := by intro i n h; cases h
  imOwn := by intro i j n h; cases h
  fate := by intro i f d h; cases h
  noFate := by
    intro i _
    constructor <;>
    · intro r h
      simp only [Spec.fateOf, Option.some.injEq] at h
      exact h.symm

/-- Commands that define nothing. -/
def Idle : Cmd → Prop
  | .detfnPowerlaw .. => False
  | .detfnHyperbolic .. => False
  | .detfnLoglog .. => False
  | .detfnLinear .. => False
  | .probfn .. => False
  | .im .. => False
  | .edp .. => False
  | .dist .. => False
  | _ => True

theorem Meets.idle {l : List Cmd} {w : World} (h : Meets l w) {m : Cmd} (hm : Idle m) : Meets (m :: l) w := by
  have h1 : Spec.curveOf (m :: l) = Spec.curveOf l := by
    funext i; cases m <;> first | cases hm; done | rfl
  have h2 : Spec.lawOf (m :: l) = Spec.lawOf l := by
    funext i; cases m <;> first | cases hm; done | rfl
  have h3 : Spec.hazardOf (m :: l) = Spec.hazardOf l := by
    funext i; cases m <;> first | cases hm; done | rfl
  have h4 : Spec.demandOf (m :: l) = Spec.demandOf l := by
    funext i; cases m <;> first | cases hm; done | rfl
  have h5 : ∀ k, Spec.fateOf k (m :: l) = Spec.fateOf k l := by
    intro k; funext i; cases m <;> first | cases hm; done | rfl
  constructor
  · exact h.sound
  · rw [h1]; exact h.curve
  · rw [h2]; exact h.law
  · rw [h3]; exact h.hazard
  · rw [h4]; exact h.demand
  · exact h.imName
  · intro i n hn
    obtain ⟨f, hf⟩ := h.imOnce i n hn
    exact ⟨f, List.mem_cons_of_mem _ hf⟩
  · intro i n hn
    obtain ⟨a, f, hf⟩ := h.edpOnce i n hn
    exact ⟨a, f, List.mem_cons_of_mem _ hf⟩
  · exact h.imOwn
  · rw [h5, h5]; exact h.fate
  · rw [h5, h5]; exact h.noFate

/-- The costs of a structure are set. -/
theorem Meets.cost {l : List Cmd} {w : World} (h : Meets l w) {k : DistCmd} {i : String} {p : Interp.Sc2}
    {o : Interp.LnOpts} (hk : k = .rebuildCost ∨ k = .demolitionCost) : Meets (.dist k i p o :: l) w := by
  have h5 : ∀ k', k' = .collapse ∨ k' = .demolition → Spec.fateOf k' (.dist k i p o :: l) = Spec.fateOf k' l := by
    intro k' hk'
    funext j
    rw [Spec.fateOf, if_neg]
    rintro ⟨rfl, -⟩
    rcases hk with rfl | rfl <;> rcases hk' with e | e <;> cases e
  constructor
  · exact h.sound
  · exact h.curve
  · exact h.law
  · exact h.hazard
  · exact h.demand
  · exact h.imName
  · intro i n hn
    obtain ⟨f, hf⟩ := h.imOnce i n hn
    exact ⟨f, List.mem_cons_of_mem _ hf⟩
  · intro i n hn
    obtain ⟨a, f, hf⟩ := h.edpOnce i n hn
    exact ⟨a, f, List.mem_cons_of_mem _ hf⟩
  · exact h.imOwn
  · rw [h5 _ (Or.inl rfl), h5 _ (Or.inr rfl)]; exact h.fate
  · rw [h5 _ (Or.inl rfl), h5 _ (Or.inr rfl)]; exact h.noFate

/-- A deterministic function is made. -/
theorem Meets.detfn {l : List Cmd} {w : World} (h : Meets l w) {m : Cmd} {i : String} {f : Dbl → Dbl}
    {o : Option (ℝ → ℝ)} (hm : Spec.curve m = some (i, o)) (ho : ∀ g, o = some g → Agree f g) :
    Meets (m :: l) (w.add "detfn" i (.detfn f)) := by
  have h2 : Spec.lawOf (m :: l) = Spec.lawOf l := by
    funext i; cases m <;> first | cases hm; done | rfl
  have h3 : Spec.hazardOf (m :: l) = Spec.hazardOf l := by
    funext i; cases m <;> first | cases hm; done | rfl
  have h4 : Spec.demandOf (m :: l) = Spec.demandOf l := by
    funext i; cases m <;> first | cases hm; done | rfl
  have h5 : ∀ k, Spec.fateOf k (m :: l) = Spec.fateOf k l := by
    intro k; funext i; cases m <;> first | cases hm; done | rfl
  have hd : ∀ j, (w.add "detfn" i (.detfn f)).thing "detfn" j =
      if j = i then some (.detfn f) else w.thing "detfn" j := by
    intro j; rw [World.thing_add h.sound]; simp
  have ht : ∀ r, r ≠ "detfn" → ∀ j, (w.add "detfn" i (.detfn f)).thing r j = w.thing r j := by
    intro r hr j; rw [World.thing_add h.sound, if_neg (by simp [hr])]
  have hf : ∀ r, r ≠ "detfn" → ∀ j, (w.add "detfn" i (.detfn f)).find r j = w.find r j := by
    intro r hr j; rw [World.find_add, if_neg (by simp [hr])]
  constructor
  · exact h.sound.add _ _ _
  · intro j g hg
    rw [hd]
    simp only [Spec.curveOf, hm] at hg
    by_cases hij : i = j
    · subst hij
      rw [if_pos rfl] at hg
      exact ⟨f, by simp, ho g hg⟩
    · rw [if_neg hij] at hg
      rw [if_neg (fun e => hij e.symm)]
      exact h.curve j g hg
  · rw [h2]; intro j; rw [ht _ (by decide)]; exact h.law j
  · rw [h3]; intro j; rw [ht _ (by decide)]; exact h.hazard j
  · rw [h4]; intro j m L; rw [ht _ (by decide), hf _ (by decide), ht _ (by decide)]; exact h.demand j m L
  · intro j; rw [ht _ (by decide)]; exact h.imName j
  · intro j n hn
    rw [hf _ (by decide)] at hn
    obtain ⟨f, hf⟩ := h.imOnce j n hn
    exact ⟨f, List.mem_cons_of_mem _ hf⟩
  · intro j n hn
    rw [hf _ (by decide)] at hn
    obtain ⟨a, f, hf⟩ := h.edpOnce j n hn
    exact ⟨a, f, List.mem_cons_of_mem _ hf⟩
  · intro a b n; rw [hf _ (by decide), hf _ (by decide)]; exact h.imOwn a b n
  · intro j; rw [ht _ (by decide), h5, h5]; exact h.fate j
  · intro j; rw [hf _ (by decide), h5, h5]; exact h.noFate j

/-- A probabilistic function is made. -/
theorem Meets.probfn {l : List Cmd} {w : World} (h : Meets l w) {i a b : String} {o : Interp.LnOpts}
    {mu : Mu} {sp : Sd} {f g : Dbl → Dbl} (h1 : o.mu = some mu) (h2 : o.sd = some sp)
    (hf : w.thing "detfn" a = some (.detfn f)) (hg : w.thing "detfn" b = some (.detfn g)) :
    Meets (.probfn i (.id a) (.id b) o :: l) (w.add "probfn" i (.probfn mu sp f g)) := by
  have hd : ∀ j, (w.add "probfn" i (.probfn mu sp f g)).thing "probfn" j =
      if j = i then some (.probfn mu sp f g) else w.thing "probfn" j := by
    intro j; rw [World.thing_add h.sound]; simp
  have ht : ∀ r, r ≠ "probfn" → ∀ j, (w.add "probfn" i (.probfn mu sp f g)).thing r j = w.thing r j := by
    intro r hr j; rw [World.thing_add h.sound, if_neg (by simp [hr])]
  have hfi : ∀ r, r ≠ "probfn" → ∀ j, (w.add "probfn" i (.probfn mu sp f g)).find r j = w.find r j := by
    intro r hr j; rw [World.find_add, if_neg (by simp [hr])]
  constructor
  · exact h.sound.add _ _ _
  · intro j; rw [ht _ (by decide)]; exact h.curve j
  · intro j L hL
    rw [hd]
    simp only [Spec.lawOf, h1, h2] at hL
    by_cases hij : i = j
    · subst hij
      rw [if_pos rfl] at hL
      obtain ⟨x, hx, hL⟩ := Option.bind_eq_some_iff.1 hL
      obtain ⟨y, hy, hL⟩ := Option.bind_eq_some_iff.1 hL
      cases hL
      obtain ⟨f', hf', ha⟩ := h.curve _ _ hx
      obtain ⟨g', hg', hb⟩ := h.curve _ _ hy
      rw [hf] at hf'
      rw [hg] at hg'
      cases hf'
      cases hg'
      exact ⟨f, g, by simp, ha, hb⟩
    · rw [if_neg hij] at hL
      rw [if_neg (fun e => hij e.symm)]
      exact h.law j L hL
  · intro j; rw [ht _ (by decide)]; exact h.hazard j
  · intro j m L; rw [ht _ (by decide), hfi _ (by decide), ht _ (by decide)]; exact h.demand j m L
  · intro j; rw [ht _ (by decide)]; exact h.imName j
  · intro j n hn
    rw [hfi _ (by decide)] at hn
    obtain ⟨f, hf⟩ := h.imOnce j n hn
    exact ⟨f, List.mem_cons_of_mem _ hf⟩
  · intro j n hn
    rw [hfi _ (by decide)] at hn
    obtain ⟨a, f, hf⟩ := h.edpOnce j n hn
    exact ⟨a, f, List.mem_cons_of_mem _ hf⟩
  · intro a b n; rw [hfi _ (by decide), hfi _ (by decide)]; exact h.imOwn a b n
  · intro j; rw [ht _ (by decide)]; exact h.fate j
  · intro j; rw [hfi _ (by decide)]; exact h.noFate j

/-- An intensity measure is made. -/
theorem Meets.im {l : List Cmd} {w : World} (h : Meets l w) {i a : String} {f : Dbl → Dbl}
    (hf : w.thing "detfn" a = some (.detfn f)) (hn : w.find "im" i = none) :
    Meets (.im i a :: l) (w.add "im" i (.im i f Fates.init)) := by
  have hd : ∀ j, (w.add "im" i (.im i f Fates.init)).thing "im" j =
      if j = i then some (.im i f Fates.init) else w.thing "im" j := by
    intro j; rw [World.thing_add h.sound]; simp
  have hfd : ∀ j, (w.add "im" i (.im i f Fates.init)).find "im" j =
      if j = i then some w.things.length else w.find "im" j := by
    intro j; rw [World.find_add]; simp
  have ht : ∀ r, r ≠ "im" → ∀ j, (w.add "im" i (.im i f Fates.init)).thing r j = w.thing r j := by
    intro r hr j; rw [World.thing_add h.sound, if_neg (by simp [hr])]
  have hfi : ∀ r, r ≠ "im" → ∀ j, (w.add "im" i (.im i f Fates.init)).find r j = w.find r j := by
    intro r hr j; rw [World.find_add, if_neg (by simp [hr])]
  constructor
  · exact h.sound.add _ _ _
  · intro j; rw [ht _ (by decide)]; exact h.curve j
  · intro j; rw [ht _ (by decide)]; exact h.law j
  · intro j c hc
    rw [hd]
    simp only [Spec.hazardOf] at hc
    by_cases hij : i = j
    · subst hij
      rw [if_pos rfl] at hc
      obtain ⟨f', hf', ha⟩ := h.curve _ _ hc
      rw [hf] at hf'
      cases hf'
      exact ⟨f, Fates.init, by simp, ha⟩
    · rw [if_neg hij] at hc
      rw [if_neg (fun e => hij e.symm)]
      exact h.hazard j c hc
  · intro j m L hL
    rw [ht _ (by decide)]
    obtain ⟨n, c, f', g, h1, h2, h3, h4, d, h5⟩ := h.demand j m L hL
    have hm : m ≠ i := by
      rintro rfl
      rw [hn] at h4
      cases h4
    exact ⟨n, c, f', g, h1, h2, h3, by rw [hfd, if_neg hm]; exact h4, d, by rw [hd, if_neg hm]; exact h5⟩
  · intro j t hj
    rw [hd] at hj
    split at hj
    · next e => cases hj; exact ⟨f, _, by rw [e]⟩
    · exact h.imName j t hj
  · intro j n hj
    rw [hfd] at hj
    split at hj
    · next e => exact ⟨a, by simp [e]⟩
    · obtain ⟨f, hf⟩ := h.imOnce j n hj
      exact ⟨f, List.mem_cons_of_mem _ hf⟩
  · intro j n hn
    rw [hfi _ (by decide)] at hn
    obtain ⟨a, f, hf⟩ := h.edpOnce j n hn
    exact ⟨a, f, List.mem_cons_of_mem _ hf⟩
  · intro p q n hp hq
    rw [hfd] at hp hq
    split at hp <;> split at hq
    · next e1 e2 => rw [e1, e2]
    · cases hp; exact absurd (h.sound.lt hq) (lt_irrefl _)
    · cases hq; exact absurd (h.sound.lt hp) (lt_irrefl _)
    · exact h.imOwn p q n hp hq
  · intro j g d hj
    rw [hd] at hj
    split at hj
    · next e =>
      subst e
      cases hj
      have := h.noFate j hn
      constructor
      · intro r hr; rw [this.1 r hr]; rfl
      · intro r hr; rw [this.2 r hr]; rfl
    · exact h.fate j g d hj
  · intro j hj
    rw [hfd] at hj
    split at hj
    · cases hj
    · exact h.noFate j hj

/-- A demand is made. -/
theorem Meets.edp {l : List Cmd} {w : World} (h : Meets l w) {i m a j : String} {n : ℕ} {c : Dbl → Dbl} {d : Fates}
    {mu : Mu} {sp : Sd} {f g : Dbl → Dbl} (hnm : w.find "im" m = some n) (hm : w.thing "im" m = some (.im j c d))
    (hf : w.thing "probfn" a = some (.probfn mu sp f g)) :
    Meets (.edp i m a :: l) (w.add "edp" i (.edp j n c mu sp f g)) := by
  obtain ⟨c', d', hj⟩ := h.imName m _ hm
  cases hj
  have hd : ∀ k, (w.add "edp" i (.edp m n c mu sp f g)).thing "edp" k =
      if k = i then some (.edp m n c mu sp f g) else w.thing "edp" k := by
    intro j; rw [World.thing_add h.sound]; simp
  have hfd : ∀ k, (w.add "edp" i (.edp m n c mu sp f g)).find "edp" k =
      if k = i then some w.things.length else w.find "edp" k := by
    intro j; rw [World.find_add]; simp
  have ht : ∀ r, r ≠ "edp" → ∀ k, (w.add "edp" i (.edp m n c mu sp f g)).thing r k = w.thing r k := by
    intro r hr j; rw [World.thing_add h.sound, if_neg (by simp [hr])]
  have hfi : ∀ r, r ≠ "edp" → ∀ k, (w.add "edp" i (.edp m n c mu sp f g)).find r k = w.find r k := by
    intro r hr j; rw [World.find_add, if_neg (by simp [hr])]
  constructor
  · exact h.sound.add _ _ _
  · intro j; rw [ht _ (by decide)]; exact h.curve j
  · intro j; rw [ht _ (by decide)]; exact h.law j
  · intro j; rw [ht _ (by decide)]; exact h.hazard j
  · intro k m' L hL
    rw [hd]
    simp only [Spec.demandOf] at hL
    by_cases hij : i = k
    · subst hij
      rw [if_pos rfl] at hL
      obtain ⟨x, hx, hL⟩ := Option.bind_eq_some_iff.1 hL
      cases hL
      obtain ⟨f', g', hf', ha, hb⟩ := h.law _ _ hx
      rw [hf] at hf'
      cases hf'
      exact ⟨n, c, f, g, by simp, ha, hb, by rw [hfi _ (by decide)]; exact hnm,
        d, by rw [ht _ (by decide)]; exact hm⟩
    · rw [if_neg hij] at hL
      rw [if_neg (fun e => hij e.symm), hfi _ (by decide), ht _ (by decide)]
      exact h.demand k m' L hL
  · intro j; rw [ht _ (by decide)]; exact h.imName j
  · intro j n hn
    rw [hfi _ (by decide)] at hn
    obtain ⟨f, hf⟩ := h.imOnce j n hn
    exact ⟨f, List.mem_cons_of_mem _ hf⟩
  · intro j n hj
    rw [hfd] at hj
    split at hj
    · next e => exact ⟨m, a, by simp [e]⟩
    · obtain ⟨a, f, hf⟩ := h.edpOnce j n hj
      exact ⟨a, f, List.mem_cons_of_mem _ hf⟩
  · intro a b n; rw [hfi _ (by decide), hfi _ (by decide)]; exact h.imOwn a b n
  · intro j; rw [ht _ (by decide)]; exact h.fate j
  · intro j; rw [hfi _ (by decide)]; exact h.noFate j

/-- An object of another kind is made. -/
theorem Meets.other {l : List Cmd} {w : World} (h : Meets l w) {r : String} (i : String) (t : Thing)
    (hr : ∀ q ∈ ["detfn", "probfn", "im", "edp"], q ≠ r) : Meets l (w.add r i t) := by
  have ht : ∀ q ∈ ["detfn", "probfn", "im", "edp"], ∀ j, (w.add r i t).thing q j = w.thing q j := by
    intro q hq j; rw [World.thing_add h.sound, if_neg (by simp [hr q hq])]
  have hf : ∀ q ∈ ["detfn", "probfn", "im", "edp"], ∀ j, (w.add r i t).find q j = w.find q j := by
    intro q hq j; rw [World.find_add, if_neg (by simp [hr q hq])]
  constructor
  · exact h.sound.add _ _ _
  · intro j; rw [ht _ (by decide)]; exact h.curve j
  · intro j; rw [ht _ (by decide)]; exact h.law j
  · intro j; rw [ht _ (by decide)]; exact h.hazard j
  · intro j m L; rw [ht _ (by decide), hf _ (by decide), ht _ (by decide)]; exact h.demand j m L
  · intro j; rw [ht _ (by decide)]; exact h.imName j
  · intro j; rw [hf _ (by decide)]; exact h.imOnce j
  · intro j; rw [hf _ (by decide)]; exact h.edpOnce j
  · intro a b n; rw [hf _ (by decide), hf _ (by decide)]; exact h.imOwn a b n
  · intro j; rw [ht _ (by decide)]; exact h.fate j
  · intro j; rw [hf _ (by decide)]; exact h.noFate j

/-- The worlds differ in structures only. -/
structure Aside (w w' : World) : Prop where
  sound : w'.Sound
  find : ∀ r, r ≠ "structure" → ∀ i, w'.find r i = w.find r i
  thing : ∀ r, r ≠ "structure" → ∀ i t, (∀ b, t ≠ .building b) → (w'.thing r i = some t ↔ w.thing r i = some t)
  built : ∀ r, r ≠ "structure" → ∀ i b, w'.thing r i = some (.building b) → ∃ b', w.thing r i = some (.building b')

theorem Aside.refl {w : World} (h : w.Sound) : Aside w w :=
  ⟨h, fun _ _ _ => rfl, fun _ _ _ _ _ => Iff.rfl, fun _ _ _ b h => ⟨b, h⟩⟩

theorem Aside.trans {a b c : World} (h : Aside a b) (h' : Aside b c) : Aside a c where
  sound := h'.sound
  find r hr i := (h'.find r hr i).trans (h.find r hr i)
  thing r hr i t ht := (h'.thing r hr i t ht).trans (h.thing r hr i t ht)
  built r hr i t ht := by
    obtain ⟨t', ht'⟩ := h'.built r hr i t ht
    exact h.built r hr i t' ht'

theorem Aside.add {w : World} (h : w.Sound) (i : String) (t : Thing) : Aside w (w.add "structure" i t) where
  sound := h.add _ _ _
  find r hr j := by rw [World.find_add, if_neg (by simp [hr])]
  thing r hr j t' _ := by rw [World.thing_add h, if_neg (by simp [hr])]
  built r hr j b hb := by
    rw [World.thing_add h, if_neg (by simp [hr])] at hb
    exact ⟨b, hb⟩

theorem Aside.set {w : World} (h : w.Sound) {n : ℕ} {b b' : Building} (hn : w.things[n]? = some (.building b)) :
    Aside w { w with things := w.things.set n (.building b') } := by
  have hlt := (List.getElem?_eq_some_iff.1 hn).1
  have hth : ∀ r i n', w.find r i = some n' →
      World.thing { w with things := w.things.set n (.building b') } r i =
        if n = n' then some (.building b') else w.things[n']? := by
    intro r i n' hf
    have : World.find { w with things := w.things.set n (.building b') } r i = some n' := hf
    rw [World.thing, this]
    simp only [Option.bind_some]
    split
    · next e => subst e; simp [hlt]
    · next e => simp [List.getElem?_set_ne e]
  have hno : ∀ r i, w.find r i = none →
      World.thing { w with things := w.things.set n (.building b') } r i = none := by
    intro r i hf
    have : World.find { w with things := w.things.set n (.building b') } r i = none := hf
    rw [World.thing, this]
    rfl
  refine ⟨?_, fun _ _ _ => rfl, ?_, ?_⟩
  · intro e he
    simpa using h e he
  · intro r _ i t ht
    cases hf : w.find r i with
    | none => rw [hno r i hf, World.thing, hf]; simp
    | some n' =>
      rw [hth r i n' hf, World.thing, hf]
      simp only [Option.bind_some]
      split
      · next e =>
        subst e
        rw [hn]
        simp only [Option.some.injEq]
        exact ⟨fun e => absurd e.symm (ht b'), fun e => absurd e.symm (ht b)⟩
      · rfl
  · intro r _ i b0 hb
    cases hf : w.find r i with
    | none => rw [hno r i hf] at hb; cases hb
    | some n' =>
      rw [hth r i n' hf] at hb
      rw [World.thing, hf]
      simp only [Option.bind_some]
      split at hb
      · next e => subst e; exact ⟨b, hn⟩
      · exact ⟨b0, hb⟩

theorem Meets.aside {l : List Cmd} {w w' : World} (h : Meets l w) (ha : Aside w w') : Meets l w' := by
  constructor
  · exact ha.sound
  · intro i c hc
    obtain ⟨f, h1, h2⟩ := h.curve i c hc
    exact ⟨f, (ha.thing _ (by decide) i _ (by simp)).2 h1, h2⟩
  · intro i L hL
    obtain ⟨f, g, h1, h2⟩ := h.law i L hL
    exact ⟨f, g, (ha.thing _ (by decide) i _ (by simp)).2 h1, h2⟩
  · intro i c hc
    obtain ⟨f, d, h1, h2⟩ := h.hazard i c hc
    exact ⟨f, d, (ha.thing _ (by decide) i _ (by simp)).2 h1, h2⟩
  · intro i m L hL
    obtain ⟨n, c, f, g, h1, h2, h3, h4, d, h5⟩ := h.demand i m L hL
    exact ⟨n, c, f, g, (ha.thing _ (by decide) i _ (by simp)).2 h1, h2, h3, by rw [ha.find _ (by decide)]; exact h4,
      d, (ha.thing _ (by decide) m _ (by simp)).2 h5⟩
  · intro i t ht
    by_cases hb : ∃ b, t = .building b
    · obtain ⟨b, rfl⟩ := hb
      obtain ⟨b', hb'⟩ := ha.built _ (by decide) i b ht
      obtain ⟨f, d, e⟩ := h.imName i _ hb'
      cases e
    · exact h.imName i t ((ha.thing _ (by decide) i _ fun b e => hb ⟨b, e⟩).1 ht)
  · intro i; rw [ha.find _ (by decide)]; exact h.imOnce i
  · intro i; rw [ha.find _ (by decide)]; exact h.edpOnce i
  · intro i j n; rw [ha.find _ (by decide), ha.find _ (by decide)]; exact h.imOwn i j n
  · intro i f d hd
    exact h.fate i f d ((ha.thing _ (by decide) i _ (by simp)).1 hd)
  · intro i; rw [ha.find _ (by decide)]; exact h.noFate i

/-- The fates of an intensity measure change. -/
theorem Meets.dist {l : List Cmd} {w : World} (h : Meets l w) {i : String} {p : Interp.Sc2}
    {o : Interp.LnOpts} {k : DistCmd} {n : ℕ} {c : Dbl → Dbl} {d d' : Fates} {j : String}
    (hn : w.find "im" i = some n) (ht : w.things[n]? = some (.im j c d))
    (hc : ∀ r, Spec.fateOf .collapse (.dist k i p o :: l) i = some r →
      (∀ r, Spec.fateOf .collapse l i = some r → d.collapse = r.map made) → d'.collapse = r.map made)
    (hd : ∀ r, Spec.fateOf .demolition (.dist k i p o :: l) i = some r →
      (∀ r, Spec.fateOf .demolition l i = some r → d.demolition = r.map made) →
        d'.demolition = r.map made) :
    Meets (.dist k i p o :: l) { w with things := w.things.set n (.im j c d') } := by
  have hth : w.thing "im" i = some (.im j c d) := by simp [World.thing, hn, ht]
  obtain ⟨c', d0, e⟩ := h.imName i _ hth
  cases e
  have hlt := h.sound.lt hn
  -- an object with another name or of another kind stays
  have other : ∀ r q t, w.thing r q = some t → w.find r q ≠ some n →
      World.thing { w with things := w.things.set n (.im i c d') } r q = some t := by
    intro r q t hq hne
    unfold World.thing at hq ⊢
    obtain ⟨n', h1, h2⟩ := Option.bind_eq_some_iff.1 hq
    rw [h1] at hne
    have hne' : n ≠ n' := fun e => hne (by rw [e])
    have h1' : World.find { w with things := w.things.set n (.im i c d') } r q = some n' := h1
    rw [h1']
    simp only [Option.bind_some, List.getElem?_set_ne hne']
    exact h2
  have kinds : ∀ r q t, w.thing r q = some t → (∀ a b e, t ≠ .im a b e) → w.find r q ≠ some n := by
    intro r q t hq hk hf
    unfold World.thing at hq
    rw [hf] at hq
    simp only [Option.bind_some, ht, Option.some.injEq] at hq
    exact hk _ _ _ hq.symm
  have here : World.thing { w with things := w.things.set n (.im i c d') } "im" i = some (.im i c d') := by
    unfold World.thing
    have h1' : World.find { w with things := w.things.set n (.im i c d') } "im" i = some n := hn
    rw [h1']
    simp [hlt]
  have away : ∀ q, q ≠ i → World.thing { w with things := w.things.set n (.im i c d') } "im" q =
      w.thing "im" q := by
    intro q hq
    cases hf : w.find "im" q with
    | none =>
      have h1' : World.find { w with things := w.things.set n (.im i c d') } "im" q = none := hf
      unfold World.thing
      rw [hf, h1']
      rfl
    | some n' =>
      have hne : n ≠ n' := by
        rintro rfl
        exact hq (h.imOwn _ _ _ hf hn)
      have h1' : World.find { w with things := w.things.set n (.im i c d') } "im" q = some n' := hf
      unfold World.thing
      rw [hf, h1']
      simp [List.getElem?_set_ne hne]
  constructor
  · intro e he
    simpa using h.sound e he
  · intro q g hg
    obtain ⟨f, h1, h2⟩ := h.curve q g hg
    exact ⟨f, other _ _ _ h1 (kinds _ _ _ h1 (by intro a b e; simp)), h2⟩
  · intro q L hL
    obtain ⟨f, g, h1, h2⟩ := h.law q L hL
    exact ⟨f, g, other _ _ _ h1 (kinds _ _ _ h1 (by intro a b e; simp)), h2⟩
  · intro q g hg
    by_cases hq : q = i
    · subst hq
      obtain ⟨f, d0, h1, h2⟩ := h.hazard q g hg
      rw [hth] at h1
      cases h1
      exact ⟨c, d', here, h2⟩
    · rw [away q hq]
      exact h.hazard q g hg
  · intro q m L hL
    obtain ⟨n0, c0, f, g, h1, h2, h3, h4, d1, h5⟩ := h.demand q m L hL
    refine ⟨n0, c0, f, g, other _ _ _ h1 (kinds _ _ _ h1 (by intro a b e; simp)), h2, h3, h4, ?_⟩
    by_cases hm : m = i
    · subst hm
      rw [hth] at h5
      cases h5
      exact ⟨d', here⟩
    · exact ⟨d1, by rw [away m hm]; exact h5⟩
  · intro q t hq
    by_cases hqi : q = i
    · subst hqi
      rw [here] at hq
      cases hq
      exact ⟨c, d', rfl⟩
    · rw [away q hqi] at hq
      exact h.imName q t hq
  · intro q n' hq
    obtain ⟨f, hf⟩ := h.imOnce q n' hq
    exact ⟨f, List.mem_cons_of_mem _ hf⟩
  · intro q n' hq
    obtain ⟨a, f, hf⟩ := h.edpOnce q n' hq
    exact ⟨a, f, List.mem_cons_of_mem _ hf⟩
  · exact h.imOwn
  · intro q f e hq
    by_cases hqi : q = i
    · subst hqi
      rw [here] at hq
      cases hq
      have := h.fate q c d hth
      exact ⟨fun r hr => hc r hr this.1, fun r hr => hd r hr this.2⟩
    · rw [away q hqi] at hq
      have e1 : ∀ k', Spec.fateOf k' (.dist k i p o :: l) q = Spec.fateOf k' l q := by
        intro k'
        rw [Spec.fateOf, if_neg]
        rintro ⟨-, e⟩
        exact hqi e.symm
      rw [e1, e1]
      exact h.fate q f e hq
  · intro q hq
    have hqi : q ≠ i := by
      rintro rfl
      have hq' : w.find "im" q = none := hq
      rw [hn] at hq'
      cases hq'
    have e1 : ∀ k', Spec.fateOf k' (.dist k i p o :: l) q = Spec.fateOf k' l q := by
      intro k'
      rw [Spec.fateOf, if_neg]
      rintro ⟨-, e⟩
      exact hqi e.symm
    rw [e1, e1]
    exact h.noFate q hq

/-! ## Steps -/

theorem literal_value {c : Cfg} {ρ : Interp.Vars} {s : Sc} {a : ℝ} {v : Val}
    (h : Spec.literal s = some a) (hv : s.value c ρ = .ok v) : number v = some a := by
  cases s with
  | str t => cases h
  | num n =>
    cases n with
    | int n => cases h; cases hv; simp [number]
    | flt x => cases h; cases hv; rfl
    | py e => cases h
    | var x => cases h

/-- Calls that go to the library. -/
def IsLib : Call → Prop
  | .recorder .. => False
  | .analyze => False
  | .outputdir _ => False
  | .print .. => False
  | _ => True

/-- A call of the library that succeeds. -/
theorem lib_call {N : Numerics} {ds : World → Interp.Printed → String} {M : Machine} {x : Call}
    {σ σ' : State World} (h : exec (plain N ds) M σ x = (σ', none)) (hx : IsLib x) :
    ∃ w, σ.lib.call x = .ok w ∧ σ' = { σ with lib := w } := by
  cases hw : σ.lib.call x with
  | ok w =>
    have hw' : (plain N ds).call σ.lib x = .ok w := hw
    refine ⟨w, rfl, ?_⟩
    cases x <;> first | cases hx; done | (simp only [exec, hw'] at h; exact (Prod.mk.inj h).1.symm)
  | error e =>
    have hw' : (plain N ds).call σ.lib x = .error e := hw
    cases x <;> first | cases hx; done | (simp only [exec, hw'] at h; cases h)

theorem execAll_one {W : Type} {L : Lib W} {M : Machine} {x : Call} {σ σ' : State W}
    (h : execAll L M [x] σ = (σ', none)) : exec L M σ x = (σ', none) := by
  rw [execAll] at h
  rcases he : exec L M σ x with ⟨σ₁, _ | e⟩
  · rw [he] at h; exact h
  · rw [he] at h; cases h

theorem call_detfn {w w' : World} {i ty : String} {v : Val} (h : w.call (.detfn i ty v) = .ok w') :
    ∃ q f, numbers v = some q ∧ Make.detfn ty (.numbers q) = .value (some f) ∧
      w' = w.add "detfn" i (.detfn f) := by
  simp only [World.call] at h
  split at h
  · cases h
  · next q hq =>
    split at h
    · next f hf => cases h; exact ⟨q, f, hq, hf, rfl⟩
    · cases h
    · cases h

theorem powerLaw_agree {a b : ℝ} {f : Dbl → Dbl}
    (h : Make.detfn "power law" (.numbers [a, b]) = .value (some f)) : Agree f (Spec.powerLaw a b) := by
  intro x hx
  have := Make.detfn_is_described.1 a b [] x hx
  simp only [Make.detfnAt, h, Make.valueAt, Make.Result.value.injEq] at this
  exact this

theorem hyperbolic_agree {p q r : ℝ} {f : Dbl → Dbl}
    (h : Make.detfn "hyperbolic" (.numbers [p, q, r]) = .value (some f)) :
    Agree f (Spec.hyperbolic p q r) := by
  intro x hx
  unfold Spec.hyperbolic
  by_cases hq : x < q
  · have := Make.detfn_is_described.2.1 p q r [] x hx hq
    simp only [Make.detfnAt, h, Make.valueAt, Make.Result.value.injEq] at this
    rw [if_pos hq]
    exact this
  · have := Make.detfn_is_described.2.2.1 p q r [] x (not_lt.1 hq)
    simp only [Make.detfnAt, h, Make.valueAt, Make.Result.value.injEq] at this
    rw [if_neg hq]
    exact this

theorem setFate_ok {w w' : World} {i : String} {x y : Val} {mo : Option Mu} {so : Option Sd}
    {set : Fates → LogNormalDist → Fates} (h : setFate w i x y mo so set = .ok w') :
    ∃ a b mu sp n j c d, number x = some a ∧ number y = some b ∧ mo = some mu ∧ so = some sp ∧
      w.find "im" i = some n ∧ w.things[n]? = some (.im j c d) ∧
      w' = { w with things := w.things.set n (.im j c (set d (made (mu, sp, a, b)))) } := by
  unfold setFate at h
  split at h
  · next a b mo so ha hb =>
    split at h
    · cases h
    · next n hn =>
      split at h
      · next j c d ht => cases h; exact ⟨a, b, mo, so, n, j, c, d, ha, hb, rfl, rfl, hn, ht, rfl⟩
      · cases h
  · cases h
  · cases h

theorem enter_ok {α : Type} {w w' : World} {r i : String} {mk : α → Thing} {a : Make.Result α}
    (h : w.enter r i mk a = .ok w') : ∃ b, a = .value b ∧ w.find r i = none ∧ w' = w.add r i (mk b) := by
  cases a with
  | value b =>
    simp only [World.enter] at h
    split at h
    · next hn => cases h; exact ⟨b, rfl, hn, rfl⟩
    · cases h
  | _ => cases h

theorem call_fragfn {w w' : World} {i : String} {mu : Option Mu} {sp : Option Sd} {v : Val}
    (h : w.call (.fragfnUser i mu sp v) = .ok w') :
    ∃ ps ds, pairs v = some ps ∧ Make.fragfnUser ⟨mu.map muType, sp.map sigmaType⟩ ps = .value ds ∧
      w.find "fragfn" i = none ∧ w' = w.add "fragfn" i (.fragfn ds) := by
  simp only [World.call] at h
  split at h
  · cases h
  · next ps hp =>
    obtain ⟨ds, h1, h2, h3⟩ := enter_ok h
    exact ⟨ps, ds, hp, h1, h2, h3⟩

theorem call_simpleLoss {w w' : World} {i : String} {mu : Option Mu} {sp : Option Sd} {v : Val}
    (h : w.call (.simpleLoss i mu sp v) = .ok w') :
    ∃ ps ds, pairs v = some ps ∧ Make.simplelossfn ⟨mu.map muType, sp.map sigmaType⟩ ps = .value ds ∧
      w.find "lossfn" i = none ∧ w' = w.add "lossfn" i (.lossfn (.simple ds)) := by
  simp only [World.call] at h
  split at h
  · cases h
  · next ps hp =>
    obtain ⟨ds, h1, h2, h3⟩ := enter_ok h
    exact ⟨ps, ds, hp, h1, h2, h3⟩

theorem call_bilevelLoss {w w' : World} {i : String} {v : Val} (h : w.call (.bilevelLoss i v) = .ok w') :
    ∃ rs ls, levels v = some rs ∧ Make.bilevellossfn rs = .value ls ∧
      w.find "lossfn" i = none ∧ w' = w.add "lossfn" i (.lossfn (.biLevel ls)) := by
  simp only [World.call] at h
  split at h
  · cases h
  · next ps hp =>
    obtain ⟨ds, h1, h2, h3⟩ := enter_ok h
    exact ⟨ps, ds, hp, h1, h2, h3⟩

theorem call_compgroup {w w' : World} {i e f k : String} {d : Option String} {n : ℕ} {x y : ℚ}
    (h : w.call (.compgroup i e f k d n x y) = .ok w') :
    ∃ im n' c mu sp a b ds l g, w.thing "edp" e = some (.edp im n' c mu sp a b) ∧
      g.imId = im ∧ g.curve = c ∧ g.mu = mu ∧ g.sp = sp ∧ g.f = a ∧ g.g = b ∧
      w.thing "fragfn" f = some (.fragfn ds) ∧ w.thing "lossfn" k = some (.lossfn l) ∧
      w.find "compgroup" i = none ∧ w' = w.add "compgroup" i (.group g) ∧ g.states = ds ∧ g.cost = l ∧
      (g.delay = d.bind fun s => match w.thing "lossfn" s with
        | some (.lossfn l) => some l
        | _ => none) ∧ g.count = n ∧ g.costAdj = x ∧ g.delayAdj = y ∧ n ≤ 2147483647 ∧
      w.find "edp" e = some g.edp.1 ∧ g.edp.2 = e ∧ w.find "fragfn" f = some g.frag.1 ∧ g.frag.2 = f := by
  simp only [World.call, World.group] at h
  split at h
  · next en im n' c mu sp a b fn ds l h1 h2 h3 h4 h5 =>
    split at h
    · next hc =>
      split at h
      · next hn =>
        cases h
        exact ⟨im, n', c, mu, sp, a, b, ds, l, _, h2, rfl, rfl, rfl, rfl, rfl, rfl, h4, h5, hn, rfl, rfl, rfl, rfl,
          rfl, rfl, rfl, hc, h1, rfl, h3, rfl⟩
      · cases h
    · cases h
  · cases h

theorem setCost_ok {w w' : World} {i : String} {x y : Val} {mo : Option Mu} {so : Option Sd}
    {set : Building → LogNormalDist → Building} (h : setCost w i x y mo so set = .ok w') :
    ∃ a b mu sp n s, number x = some a ∧ number y = some b ∧ mo = some mu ∧ so = some sp ∧
      w.find "structure" i = some n ∧ w.things[n]? = some (.building s) ∧
      w' = { w with things := w.things.set n (.building (set s (made (mu, sp, a, b)))) } := by
  unfold setCost at h
  split at h
  · next a b mo so ha hb =>
    split at h
    · cases h
    · next n hn =>
      split at h
      · next s ht => cases h; exact ⟨a, b, mo, so, n, s, ha, hb, rfl, rfl, hn, ht, rfl⟩
      · cases h
  · cases h
  · cases h

theorem addGroup_ok {w w' : World} {i k : String} (h : w.addGroup i k = .ok w') :
    ∃ n b g, w.find "structure" i = some n ∧ w.things[n]? = some (.building b) ∧
      w.thing "compgroup" k = some (.group g) ∧ (∀ h ∈ b.groups.head?, h.imId = g.imId) ∧
      w' = { w with things := w.things.set n (.building { b with groups := b.groups ++ [g] }) } := by
  unfold World.addGroup at h
  split at h
  · cases h
  · next n hn =>
    split at h
    · next b g hb hg =>
      split at h
      · next hi => cases h; exact ⟨n, b, g, hn, hb, hg, hi, rfl⟩
      · cases h
    · cases h
    · cases h

theorem call_structure {w w' : World} {i : String} (h : w.call (.structure_ i) = .ok w') :
    w.find "structure" i = none ∧ w' = w.add "structure" i (.building {}) := by
  simp only [World.call] at h
  split at h
  · next hn => cases h; exact ⟨hn, rfl⟩
  · cases h

/-- Calls that make and change structures. -/
def Builds : Call → Prop
  | .structure_ _ => True
  | .addCompGroup .. => True
  | .dist .rebuildCost .. => True
  | .dist .demolitionCost .. => True
  | _ => False

theorem aside_call {w w' : World} {x : Call} (hw : w.Sound) (hx : Builds x) (h : w.call x = .ok w') :
    Aside w w' := by
  have cost : ∀ {i u v mo so set}, setCost w i u v mo so set = .ok w' → Aside w w' := by
    intro i u v mo so set h
    obtain ⟨a, b, mu, sp, n, s, -, -, -, -, -, ht, rfl⟩ := setCost_ok h
    exact Aside.set hw ht
  cases x with
  | structure_ i =>
    obtain ⟨-, rfl⟩ := call_structure h
    exact Aside.add hw _ _
  | addCompGroup i k =>
    obtain ⟨n, b, g, -, hb, -, -, rfl⟩ := addGroup_ok h
    exact Aside.set hw hb
  | dist k =>
    cases k with
    | collapse => cases hx
    | demolition => cases hx
    | rebuildCost => exact cost (set := fun b d => { b with rebuild := d }) h
    | demolitionCost => exact cost (set := fun b d => { b with demolition := d }) h
  | _ => cases hx

theorem aside_execAll {N : Numerics} {ds : World → Interp.Printed → String} {M : Machine} {k : List Call}
    {σ σ' : State World} (hw : σ.lib.Sound) (hk : ∀ x ∈ k, Builds x)
    (h : execAll (plain N ds) M k σ = (σ', none)) : Aside σ.lib σ'.lib := by
  induction k generalizing σ with
  | nil => cases h; exact Aside.refl hw
  | cons x k ih =>
    rw [execAll] at h
    rcases he : exec (plain N ds) M σ x with ⟨σ₁, _ | e⟩
    · rw [he] at h
      have hx := hk x (by simp)
      obtain ⟨w, hw', rfl⟩ := lib_call he (by cases x <;> trivial)
      have h1 := aside_call hw hx hw'
      exact h1.trans (ih h1.sound (fun y hy => hk y (by simp [hy])) h)
    · rw [he] at h; cases h

/-- One command. -/
theorem Meets.step {N : Numerics} {ds : World → Interp.Printed → String} {M : Machine} {c : Cfg}
    {l : List Cmd} {m : Cmd} {ρ : Interp.Vars} {t : List String} {k : List Call} {σ σ' : State World}
    (hs : m.sound = true) (h : Meets l σ.lib) (hk : m.calls c ρ t = .ok k)
    (he : execAll (plain N ds) M k σ = (σ', none)) : Meets (m :: l) σ'.lib := by
  have bad : ∀ {x : Call} {y : Prop}, exec (plain N ds) M σ x = (σ', none) → IsLib x →
      σ.lib.call x = .error .outside → y := by
    intro x y h hl hx
    obtain ⟨w, hw, -⟩ := lib_call h hl
    rw [hx] at hw
    cases hw
  have one : ∀ {x : Call}, (Except.ok [x] : Except Err (List Call)) = .ok k →
      exec (plain N ds) M σ x = (σ', none) := by
    intro x e
    cases e
    exact execAll_one he
  cases m with
  | title _ => cases hk; cases he; exact h.idle trivial
  | set i a =>
    have : k = [] := by
      cases a with
      | py e => obtain ⟨_, -, hk⟩ := bind_okE hk; cases hk; rfl
      | var e => cases hk; rfl
      | params e => cases hk; rfl
    subst this
    cases he
    exact h.idle trivial
  | detfnHyperbolic i p q =>
    obtain ⟨⟨x, y⟩, hxy, hk⟩ := bind_okE hk
    obtain ⟨z, hz, hk⟩ := bind_okE hk
    obtain ⟨x', hx, hxy⟩ := bind_okE hxy
    obtain ⟨y', hy, hxy⟩ := bind_okE hxy
    cases hxy
    obtain ⟨w, hw, rfl⟩ := lib_call (one hk) trivial
    obtain ⟨v, f, hv, hf, rfl⟩ := call_detfn hw
    refine h.detfn (m := .detfnHyperbolic i p q) rfl ?_
    intro g hg
    obtain ⟨a, ha, hg⟩ := Option.bind_eq_some_iff.1 hg
    obtain ⟨b, hb, hg⟩ := Option.bind_eq_some_iff.1 hg
    obtain ⟨d, hd, hg⟩ := Option.bind_eq_some_iff.1 hg
    cases hg
    have : numbers (.list [x, y, z]) = some [a, b, d] := by
      simp [numbers, literal_value ha hx, literal_value hb hy, literal_value hd hz]
    rw [this] at hv
    cases hv
    exact hyperbolic_agree hf
  | detfnPowerlaw i p =>
    obtain ⟨⟨x, y⟩, hxy, hk⟩ := bind_okE hk
    obtain ⟨x', hx, hxy⟩ := bind_okE hxy
    obtain ⟨y', hy, hxy⟩ := bind_okE hxy
    cases hxy
    obtain ⟨w, hw, rfl⟩ := lib_call (one hk) trivial
    obtain ⟨v, f, hv, hf, rfl⟩ := call_detfn hw
    refine h.detfn (m := .detfnPowerlaw i p) rfl ?_
    intro g hg
    obtain ⟨a, ha, hg⟩ := Option.bind_eq_some_iff.1 hg
    obtain ⟨b, hb, hg⟩ := Option.bind_eq_some_iff.1 hg
    cases hg
    have : numbers (.list [x, y]) = some [a, b] := by
      simp [numbers, literal_value ha hx, literal_value hb hy]
    rw [this] at hv
    cases hv
    exact powerLaw_agree hf
  | detfnLoglog id p => cases hs
  | detfnLinear id p => cases hs
  | probfn i a b o =>
    cases a with
    | var x => simp [Interp.Cmd.sound, Interp.FnRef.plain] at hs
    | id a =>
      cases b with
      | var x => simp [Interp.Cmd.sound, Interp.FnRef.plain] at hs
      | id b =>
        obtain ⟨a', ha, hk⟩ := bind_okE hk
        obtain ⟨b', hb, hk⟩ := bind_okE hk
        cases ha
        cases hb
        obtain ⟨w, hw, rfl⟩ := lib_call (one hk) trivial
        simp only [World.call] at hw
        split at hw
        · next f g hf hg =>
          split at hw
          · next mu sp e1 e2 =>
            split at hw
            · cases hw; exact h.probfn e1 e2 hf hg
            · cases hw
          · cases hw
        · cases hw
  | im i a =>
    obtain ⟨w, hw, rfl⟩ := lib_call (one hk) trivial
    simp only [World.call] at hw
    split at hw
    · next f hf =>
      split at hw
      · next hn => cases hw; exact h.im hf hn
      · cases hw
    · cases hw
  | edp i m a =>
    obtain ⟨w, hw, rfl⟩ := lib_call (one hk) trivial
    simp only [World.call] at hw
    split at hw
    · next n j c d mu sp f g hnm hm hf =>
      split at hw
      · next hn => cases hw; exact h.edp hnm hm hf
      · cases hw
    · cases hw
  | dist k i p o =>
    obtain ⟨⟨x, y⟩, hxy, hk⟩ := bind_okE hk
    obtain ⟨x', hx, hxy⟩ := bind_okE hxy
    obtain ⟨y', hy, hxy⟩ := bind_okE hxy
    cases hxy
    have lit : ∀ {a b : ℝ} {mu : Mu} {sp : Sd} {r : Option (Mu × Sd × ℝ × ℝ)} (k' : DistCmd),
        number x = some a → number y = some b → o.mu = some mu → o.sd = some sp →
        Spec.fateOf k' (.dist k' i p o :: l) i = some r → r = some (mu, sp, a, b) := by
      intro a b mu sp r k' ha hb e1 e2 hr
      simp only [Spec.fateOf, and_self, if_true, e1, e2] at hr
      obtain ⟨a', ha', hr⟩ := Option.bind_eq_some_iff.1 hr
      obtain ⟨b', hb', hr⟩ := Option.bind_eq_some_iff.1 hr
      cases hr
      rw [literal_value ha' hx] at ha
      rw [literal_value hb' hy] at hb
      cases ha
      cases hb
      rfl
    have not : ∀ {k k' : DistCmd}, k' ≠ k → Spec.fateOf k (.dist k' i p o :: l) i = Spec.fateOf k l i := by
      intro k k' hkk
      rw [Spec.fateOf, if_neg]
      rintro ⟨e, -⟩
      exact hkk e
    cases k with
    | collapse =>
      obtain ⟨w, hw, rfl⟩ := lib_call (one hk) trivial
      obtain ⟨a, b, mu, sp, n, j, cv, d, ha, hb, e1, e2, hn, ht, rfl⟩ := setFate_ok hw
      refine h.dist hn ht ?_ ?_
      · intro r hr _
        rw [lit .collapse ha hb e1 e2 hr]
        rfl
      · intro r hr hd
        rw [not (by decide)] at hr
        exact hd r hr
    | demolition =>
      obtain ⟨w, hw, rfl⟩ := lib_call (one hk) trivial
      obtain ⟨a, b, mu, sp, n, j, cv, d, ha, hb, e1, e2, hn, ht, rfl⟩ := setFate_ok hw
      refine h.dist hn ht ?_ ?_
      · intro r hr hd
        rw [not (by decide)] at hr
        exact hd r hr
      · intro r hr _
        rw [lit .demolition ha hb e1 e2 hr]
        rfl
    | rebuildCost =>
      cases hk
      exact (h.aside (aside_execAll h.sound (by simp [Builds]) he)).cost (Or.inl rfl)
    | demolitionCost =>
      cases hk
      exact (h.aside (aside_execAll h.sound (by simp [Builds]) he)).cost (Or.inr rfl)
  | fragfnDb => exact bad (one hk) trivial rfl
  | fragfnUser =>
    obtain ⟨_, -, hk⟩ := bind_okE hk
    obtain ⟨w, hw, rfl⟩ := lib_call (one hk) trivial
    obtain ⟨ps, ds, -, -, -, rfl⟩ := call_fragfn hw
    exact (h.other _ _ (by decide)).idle trivial
  | lossSimple =>
    obtain ⟨_, -, hk⟩ := bind_okE hk
    obtain ⟨w, hw, rfl⟩ := lib_call (one hk) trivial
    obtain ⟨ps, ds, -, -, -, rfl⟩ := call_simpleLoss hw
    exact (h.other _ _ (by decide)).idle trivial
  | lossBilevel =>
    obtain ⟨_, -, hk⟩ := bind_okE hk
    obtain ⟨w, hw, rfl⟩ := lib_call (one hk) trivial
    obtain ⟨ps, ds, -, -, -, rfl⟩ := call_bilevelLoss hw
    exact (h.other _ _ (by decide)).idle trivial
  | compgroup id e f k d n fl =>
    rcases fl with _ | ⟨x, _ | ⟨y, fl⟩⟩ <;>
    · obtain ⟨w, hw, rfl⟩ := lib_call (one hk) trivial
      obtain ⟨-, -, -, -, -, -, -, ds, l, g, -, -, -, -, -, -, -, -, -, -, rfl, -⟩ := call_compgroup hw
      exact (h.other _ _ (by decide)).idle trivial
  | structure_ id g =>
    cases hk
    refine (h.aside (aside_execAll h.sound ?_ he)).idle trivial
    intro x hx
    rcases List.mem_cons.1 hx with rfl | hx
    · trivial
    · obtain ⟨y, -, rfl⟩ := List.mem_map.1 hx
      trivial
  | print w po =>
    obtain ⟨o, -, hk⟩ := bind_okE hk
    have hx := one hk
    simp only [exec, print] at hx
    split at hx
    · cases hx; exact h.idle trivial
    · split at hx
      · cases hx; exact h.idle trivial
      · cases hx
  | integration p it se =>
    obtain ⟨_, -, hk⟩ := bind_okE hk
    obtain ⟨_, -, hk⟩ := bind_okE hk
    rcases se with _ | ⟨m, a⟩
    · exact bad (one hk) trivial rfl
    · obtain ⟨_, -, hk⟩ := bind_okE hk
      cases hk
      simp only [execAll, exec, plain, World.call] at he
      cases he
  | recorder i b po =>
    obtain ⟨cols, at_, -, hk⟩ := recorder_calls hk
    subst hk
    simp only [execAll, exec] at he
    cases hr : record (plain N ds) M σ i b.type b.registry b.id (b.options po) cols at_ with
    | error e => rw [hr] at he; cases he
    | ok σ₁ =>
      rw [hr] at he
      cases he
      obtain ⟨k, cs, as, r, -, -, -, -, rfl⟩ := record_ok hr
      exact h.idle trivial
  | analyze =>
    have hx := one hk
    simp only [exec, Session.analyze, Prod.mk.injEq] at hx
    rw [← hx.1]
    exact h.idle trivial
  | importProbfn => exact bad (one hk) trivial rfl
  | importIm => exact bad (one hk) trivial rfl
  | log b f =>
    cases hk
    rcases b with _ | b <;> rcases f with _ | f
    · cases he; exact h.idle trivial
    · simp [execAll, exec, plain, World.call] at he
    · simp [execAll, exec, plain, World.call] at he
    · simp [execAll, exec, plain, World.call] at he
  | intstatsPrint => exact bad (one hk) trivial rfl
  | intstatsReset => exact bad (one hk) trivial rfl
  | inputdir d =>
    obtain ⟨w, hw, rfl⟩ := lib_call (one hk) trivial
    cases hw
    exact h.idle trivial
  | outputdir d =>
    cases hk
    simp only [execAll, exec, Prod.mk.injEq, and_true] at he
    subst he
    exact h.idle trivial

/-- A script. -/
theorem Meets.run {N : Numerics} {ds : World → Interp.Printed → String} {M : Machine} {c : Cfg}
    {l l' : List Cmd} {s : Interp.St} {σ σ' : State World} (h : Meets l σ.lib)
    (hm : ∀ m ∈ l', m.sound = true) (hs : s.saved = [])
    (hr : Session.run (plain N ds) M c l' s σ = (σ', none)) : Meets (l'.reverse ++ l) σ'.lib := by
  induction l' generalizing l s σ with
  | nil => cases hr; simpa using h
  | cons m l' ih =>
    obtain ⟨k, s₁, σ₁, h1, h2, h3, h4, -⟩ := run_cons (hm m (by simp)) hs hr
    have := ih (h.step (hm m (by simp)) h1 h3) (fun x hx => hm x (by simp [hx])) h2 h4
    simpa using this

/-! ## Objects stay what they are -/

/-- The same object, possibly with other fates, or a structure, possibly with more groups and other costs. -/
def Thing.Same : Thing → Thing → Prop
  | .im i c _, t => ∃ d, t = .im i c d
  | .building b, t => ∃ b', t = .building b' ∧ b.groups <+: b'.groups
  | s, t => t = s

theorem Thing.Same.refl (t : Thing) : t.Same t := by
  cases t <;> simp [Thing.Same]

theorem Thing.Same.trans {a b c : Thing} (h1 : a.Same b) (h2 : b.Same c) : a.Same c := by
  cases a with
  | im i f d =>
    obtain ⟨d', rfl⟩ := h1
    obtain ⟨d'', rfl⟩ := h2
    exact ⟨d'', rfl⟩
  | building b =>
    obtain ⟨b', rfl, h3⟩ := h1
    obtain ⟨b'', rfl, h4⟩ := h2
    exact ⟨b'', rfl, h3.trans h4⟩
  | _ => cases h1; exact h2

/-- `w'` is later than `w`. -/
structure Later (w w' : World) : Prop where
  things : ∀ (n : ℕ) (t : Thing), w.things[n]? = some t → ∃ t', w'.things[n]? = some t' ∧ t.Same t'
  im : ∀ i n, w.find "im" i = some n → w'.find "im" i = some n
  built : ∀ i n, w.find "structure" i = some n → w'.find "structure" i = some n

theorem Later.refl (w : World) : Later w w := ⟨fun _ t h => ⟨t, h, .refl t⟩, fun _ _ h => h, fun _ _ h => h⟩

theorem Later.trans {a b c : World} (h1 : Later a b) (h2 : Later b c) : Later a c := by
  refine ⟨fun n t h => ?_, fun i n h => h2.im i n (h1.im i n h), fun i n h => h2.built i n (h1.built i n h)⟩
  obtain ⟨t', h3, h4⟩ := h1.things n t h
  obtain ⟨t'', h5, h6⟩ := h2.things n t' h3
  exact ⟨t'', h5, h4.trans h6⟩

theorem Later.add (w : World) (r i : String) (t : Thing) (h : r = "im" ∨ r = "structure" → w.find r i = none) :
    Later w (w.add r i t) := by
  have keep : ∀ q, q = "im" ∨ q = "structure" → ∀ j n, w.find q j = some n → (w.add r i t).find q j = some n := by
    intro q hq j n hj
    rw [World.find_add, if_neg]
    · exact hj
    · rintro ⟨rfl, rfl⟩
      rw [h hq] at hj
      cases hj
  refine ⟨fun n t' hn => ⟨t', ?_, .refl t'⟩, keep _ (Or.inl rfl), keep _ (Or.inr rfl)⟩
  simp only [World.add]
  rw [List.getElem?_append_left (List.getElem?_eq_some_iff.1 hn).1]
  exact hn

theorem Later.set (w : World) {n : ℕ} {t t' : Thing} (h : w.things[n]? = some t) (hs : t.Same t') :
    Later w { w with things := w.things.set n t' } := by
  refine ⟨fun n' u hn => ?_, fun j n hj => hj, fun j n hj => hj⟩
  by_cases e : n = n'
  · subst e
    rw [h] at hn
    cases hn
    exact ⟨t', by simp [(List.getElem?_eq_some_iff.1 h).1], hs⟩
  · exact ⟨u, by simpa [List.getElem?_set_ne e] using hn, .refl u⟩

theorem later_call {w w' : World} {x : Call} (h : w.call x = .ok w') : Later w w' := by
  have fate : ∀ {i u v mo so set}, setFate w i u v mo so set = .ok w' → Later w w' := by
    intro i u v mo so set h
    obtain ⟨a, b, mu, sp, n, j, cv, d, ha, hb, e1, e2, hn, ht, rfl⟩ := setFate_ok h
    exact Later.set w ht ⟨_, rfl⟩
  have cost : ∀ {i u v mo so set}, setCost w i u v mo so set = .ok w' → (∀ b d, (set b d).groups = b.groups) →
      Later w w' := by
    intro i u v mo so set h hset
    obtain ⟨a, b, mu, sp, n, s, -, -, -, -, -, ht, rfl⟩ := setCost_ok h
    exact Later.set w ht ⟨_, rfl, by rw [hset]⟩
  cases x with
  | detfn i ty v =>
    obtain ⟨q, f, -, -, rfl⟩ := call_detfn h
    exact Later.add w _ _ _ (by simp)
  | probfn i mu a sp b =>
    simp only [World.call] at h
    split at h
    · split at h
      · split at h
        · cases h; exact Later.add w _ _ _ (by simp)
        · cases h
      · cases h
    · cases h
  | im i a =>
    simp only [World.call] at h
    split at h
    · split at h
      · next hn => cases h; exact Later.add w _ _ _ (fun _ => hn)
      · cases h
    · cases h
  | edp i m a =>
    simp only [World.call] at h
    split at h
    · split at h
      · cases h; exact Later.add w _ _ _ (by simp)
      · cases h
    · cases h
  | dist k i u mo v so =>
    cases k with
    | collapse => exact fate h
    | demolition => exact fate h
    | rebuildCost => exact cost (set := fun b d => { b with rebuild := d }) h fun _ _ => rfl
    | demolitionCost => exact cost (set := fun b d => { b with demolition := d }) h fun _ _ => rfl
  | structure_ i =>
    obtain ⟨hn, rfl⟩ := call_structure h
    exact Later.add w _ _ _ (fun _ => hn)
  | addCompGroup i k =>
    obtain ⟨n, b, g, -, hb, -, -, rfl⟩ := addGroup_ok h
    exact Later.set w hb ⟨_, rfl, List.prefix_append _ _⟩
  | fragfnUser =>
    obtain ⟨ps, ds, -, -, -, rfl⟩ := call_fragfn h
    exact Later.add w _ _ _ (by simp)
  | simpleLoss =>
    obtain ⟨ps, ds, -, -, -, rfl⟩ := call_simpleLoss h
    exact Later.add w _ _ _ (by simp)
  | bilevelLoss =>
    obtain ⟨ps, ds, -, -, -, rfl⟩ := call_bilevelLoss h
    exact Later.add w _ _ _ (by simp)
  | compgroup =>
    obtain ⟨-, -, -, -, -, -, -, ds, l, g, -, -, -, -, -, -, -, -, -, -, rfl, -⟩ := call_compgroup h
    exact Later.add w _ _ _ (by simp)
  | inputdir d => cases h; exact Later.refl w
  | _ => cases h

theorem later_exec {N : Numerics} {ds : World → Interp.Printed → String} {M : Machine} {x : Call}
    {σ σ' : State World} (h : exec (plain N ds) M σ x = (σ', none)) : Later σ.lib σ'.lib := by
  cases x with
  | recorder i ty r id o cols at_ =>
    simp only [exec] at h
    cases hr : record (plain N ds) M σ i ty r id o cols at_ with
    | error e => rw [hr] at h; cases h
    | ok σ₁ =>
      rw [hr] at h
      cases h
      obtain ⟨k, cs, as, r, -, -, -, -, rfl⟩ := record_ok hr
      exact Later.refl _
  | outputdir => cases h; exact Later.refl _
  | analyze =>
    simp only [exec, Session.analyze, Prod.mk.injEq] at h
    rw [← h.1]
    exact Later.refl _
  | print w f a =>
    simp only [exec, print] at h
    split at h
    · cases h; exact Later.refl _
    · split at h
      · cases h; exact Later.refl _
      · cases h
  | _ =>
    obtain ⟨w, hw, rfl⟩ := lib_call h trivial
    exact later_call hw

theorem later_execAll {N : Numerics} {ds : World → Interp.Printed → String} {M : Machine} {k : List Call}
    {σ σ' : State World} (h : execAll (plain N ds) M k σ = (σ', none)) : Later σ.lib σ'.lib := by
  induction k generalizing σ with
  | nil => cases h; exact Later.refl _
  | cons x k ih =>
    rw [execAll] at h
    rcases he : exec (plain N ds) M σ x with ⟨σ₁, _ | e⟩
    · rw [he] at h
      exact (later_exec he).trans (ih h)
    · rw [he] at h; cases h

theorem later_run {N : Numerics} {ds : World → Interp.Printed → String} {M : Machine} {c : Cfg}
    {l : List Cmd} {s : Interp.St} {σ σ' : State World} (hm : ∀ m ∈ l, m.sound = true) (hs : s.saved = [])
    (hr : Session.run (plain N ds) M c l s σ = (σ', none)) : Later σ.lib σ'.lib := by
  induction l generalizing s σ with
  | nil => cases hr; exact Later.refl _
  | cons m l ih =>
    obtain ⟨k, s₁, σ₁, h1, h2, h3, h4, -⟩ := run_cons (hm m (by simp)) hs hr
    exact (later_execAll h3).trans (ih (fun x hx => hm x (by simp [hx])) h2 h4)

end

end Slat.Session
