import Verif.SessionVarsSpec
import Verif.SessionEnds

/-!
# Helper lemmas: a command and the command written out make the same calls
-/

namespace Slat.Session

noncomputable section

open Interp (Val Call Cmd Cfg Err Num Sc Sc2 Param SetArg IntArg At Col RecBody Bilevel)
open Output (Path Files)

variable {W : Type} {ev : String → Except Err Val} {pre : String → String} {k : Out.Known} {ρ : Interp.Vars}

/-- The variables have the values that they are known to have. -/
def Knows (k : Out.Known) (ρ : Interp.Vars) : Prop := ∀ x v, k x = some v → ρ x = some v

variable (h : Knows k ρ) (ρ' : Interp.Vars)
include h

theorem number_same {n n' : Num} (hn : Out.number ev k n = some n') : n'.value ⟨ev, pre⟩ ρ' = n.value ⟨ev, pre⟩ ρ := by
  have dig : ∀ v m, Out.digits v = some m → m.value ⟨ev, pre⟩ ρ' = .ok v := by
    intro v m hm
    cases v with
    | int z => cases z <;> simp [Out.digits] at hm; subst hm; rfl
    | flt x => simp [Out.digits] at hm; subst hm; rfl
    | _ => simp [Out.digits] at hm
  cases n with
  | var x =>
    obtain ⟨v, h1, h2⟩ := Option.bind_eq_some_iff.1 hn
    rw [dig v n' h2, Num.value, h x v h1]
    rfl
  | py e =>
    simp only [Out.number, Out.expression, Option.some.injEq] at hn
    subst hn
    cases he : ev e with
    | error => rfl
    | ok v =>
      simp only
      cases hd : Out.digits v with
      | none => rfl
      | some m =>
        rw [Option.getD_some, dig v m hd, Num.value]
        exact he.symm
  | int => cases hn; rfl
  | flt => cases hn; rfl

theorem scalar_same {s s' : Sc} (hs : Out.scalar ev k s = some s') : s'.value ⟨ev, pre⟩ ρ' = s.value ⟨ev, pre⟩ ρ := by
  cases s with
  | str => cases hs; rfl
  | num n =>
    simp only [Out.scalar, Option.map_eq_some_iff] at hs
    obtain ⟨n', h1, rfl⟩ := hs
    exact number_same h ρ' h1

theorem pair_same {p p' : Sc2} (hp : Out.pair ev k p = some p') : p'.values ⟨ev, pre⟩ ρ' = p.values ⟨ev, pre⟩ ρ := by
  simp only [Out.pair, Option.bind_eq_bind, Option.bind_eq_some_iff, Option.pure_def, Option.some.injEq] at hp
  obtain ⟨a, h1, b, h2, rfl⟩ := hp
  simp only [Sc2.values, scalar_same h ρ' h1, scalar_same h ρ' h2]

theorem level_same {b b' : Bilevel} (hb : Out.level ev k b = some b') : b'.value ⟨ev, pre⟩ ρ' = b.value ⟨ev, pre⟩ ρ := by
  simp only [Out.level, Option.bind_eq_bind, Option.bind_eq_some_iff, Option.pure_def, Option.some.injEq] at hb
  obtain ⟨a1, h1, a2, h2, a3, h3, a4, h4, a5, h5, rfl⟩ := hb
  simp only [Bilevel.value, number_same h ρ' h1, number_same h ρ' h2, number_same h ρ' h3, number_same h ρ' h4, number_same h ρ' h5]

theorem integer_same {n n' : IntArg} (hn : Out.integer ev k n = some n') : n'.value ⟨ev, pre⟩ ρ' = n.value ⟨ev, pre⟩ ρ := by
  have dig : ∀ v m, Out.whole v = some m → (Except.ok (.int m) : Except Err Val) = .ok v := by
    intro v m hm
    cases v with
    | int z => cases z <;> simp [Out.whole] at hm; subst hm; rfl
    | _ => simp [Out.whole] at hm
  cases n with
  | var x =>
    simp only [Out.integer, Option.map_eq_some_iff] at hn
    obtain ⟨m, h1, rfl⟩ := hn
    obtain ⟨v, h1, h2⟩ := Option.bind_eq_some_iff.1 h1
    rw [IntArg.value, IntArg.value, dig v m h2, h x v h1]
    rfl
  | py e =>
    simp only [Out.integer, Out.expression, Option.some.injEq] at hn
    subst hn
    cases he : ev e with
    | error => rfl
    | ok v =>
      simp only
      cases hd : Out.whole v with
      | none => rfl
      | some m =>
        rw [Option.map_some, Option.getD_some, IntArg.value, IntArg.value, dig v m hd]
        exact he.symm
  | int => cases hn; rfl

omit h in
theorem decimals {l : List Val} {q : List ℚ} (hq : l.mapM Out.decimal = some q) : l = q.map .flt := by
  induction l generalizing q with
  | nil => cases hq; rfl
  | cons v l ih =>
    simp only [List.mapM_cons, Option.bind_eq_bind, Option.bind_eq_some_iff, Option.pure_def, Option.some.injEq] at hq
    obtain ⟨x, h1, q', h2, rfl⟩ := hq
    cases v <;> simp [Out.decimal] at h1
    subst h1
    rw [ih h2]
    rfl

theorem arguments_same {a a' : At} (ha : Out.at_ ev k a = some a') : a'.value ⟨ev, pre⟩ ρ' = a.value ⟨ev, pre⟩ ρ := by
  have dig : ∀ v m, Out.points v = some m → m.value ⟨ev, pre⟩ ρ' = .ok v := by
    intro v m hm
    cases v with
    | list l =>
      simp only [Out.points, Option.map_eq_some_iff] at hm
      obtain ⟨q, h1, rfl⟩ := hm
      rw [decimals h1]
      rfl
    | frange => simp [Out.points] at hm; subst hm; rfl
    | linrange => simp [Out.points] at hm; subst hm; rfl
    | logrange => simp [Out.points] at hm; subst hm; rfl
    | _ => simp [Out.points] at hm
  cases a with
  | var x =>
    obtain ⟨v, h1, h2⟩ := Option.bind_eq_some_iff.1 ha
    rw [dig v a' h2, At.value, h x v h1]
    rfl
  | py e =>
    simp only [Out.at_, Out.expression, Option.some.injEq] at ha
    subst ha
    cases he : ev e with
    | error => rfl
    | ok v =>
      simp only
      cases hd : Out.points v with
      | none => rfl
      | some m =>
        rw [Option.getD_some, dig v m hd, At.value]
        exact he.symm
  | floats => cases ha; rfl
  | range => cases ha; rfl
  | counted a b l n => cases ha; cases l <;> rfl

omit h in
theorem values_same {α β : Type} {g : α → Option α} {f f' : α → Except Err β} (hf : ∀ a a', g a = some a' → f' a' = f a)
    {l l' : List α} (hl : l.mapM g = some l') : Interp.values f' l' = Interp.values f l := by
  induction l generalizing l' with
  | nil => cases hl; rfl
  | cons a l ih =>
    simp only [List.mapM_cons, Option.bind_eq_bind, Option.bind_eq_some_iff, Option.pure_def, Option.some.injEq] at hl
    obtain ⟨a', h1, l'', h2, rfl⟩ := hl
    simp only [Interp.values, hf a a' h1, ih h2]

theorem columns_same {c c' : Option (List Col)} (hc : Out.columns ev k c = some c') :
    Interp.colsValue ⟨ev, pre⟩ ρ' c' = Interp.colsValue ⟨ev, pre⟩ ρ c := by
  cases c with
  | none => cases hc; rfl
  | some l =>
    simp only [Out.columns, Option.map_eq_some_iff] at hc
    obtain ⟨l', h1, rfl⟩ := hc
    have : Interp.values (Col.value ⟨ev, pre⟩ ρ') l' = Interp.values (Col.value ⟨ev, pre⟩ ρ) l := by
      refine values_same (g := Out.column ev k) ?_ h1
      intro a a' ha
      cases a with
      | scalar s =>
        simp only [Out.column, Option.map_eq_some_iff] at ha
        obtain ⟨s', h2, rfl⟩ := ha
        exact scalar_same h ρ' h2
      | placement => cases ha; rfl
      | spread => cases ha; rfl
    simp only [Interp.colsValue, this]

theorem body_same {b b' : RecBody} (hb : Out.body ev k b = some b') :
    b'.colsAt ⟨ev, pre⟩ ρ' = b.colsAt ⟨ev, pre⟩ ρ ∧ b'.type = b.type ∧ b'.registry = b.registry ∧ b'.id = b.id ∧
      ∀ po, b'.options po = b.options po := by
  cases b with
  | fn t i a cs =>
    simp only [Out.body, Option.bind_eq_bind, Option.bind_eq_some_iff, Option.pure_def, Option.some.injEq] at hb
    obtain ⟨a', h1, c', h2, rfl⟩ := hb
    refine ⟨?_, rfl, ?_, rfl, fun _ => rfl⟩
    · simp only [RecBody.colsAt, arguments_same h ρ' h1, columns_same h ρ' h2]
    · cases t <;> rfl
  | rates t i a =>
    simp only [Out.body, Option.bind_eq_bind, Option.bind_eq_some_iff, Option.pure_def, Option.some.injEq] at hb
    obtain ⟨a', h1, rfl⟩ := hb
    refine ⟨?_, ?_, ?_, rfl, fun _ => rfl⟩
    · simp only [RecBody.colsAt, arguments_same h ρ' h1]
    · cases t <;> rfl
    · cases t <;> rfl
  | pdf i a n =>
    simp only [Out.body, Option.bind_eq_bind, Option.bind_eq_some_iff, Option.pure_def, Option.some.injEq] at hb
    obtain ⟨a', h1, rfl⟩ := hb
    refine ⟨?_, rfl, rfl, rfl, fun _ => rfl⟩
    simp only [RecBody.colsAt, arguments_same h ρ' h1]
  | by_ t i a cs =>
    simp only [Out.body, Option.bind_eq_bind, Option.bind_eq_some_iff, Option.pure_def, Option.some.injEq] at hb
    obtain ⟨a', h1, c', h2, rfl⟩ := hb
    refine ⟨?_, rfl, rfl, rfl, fun _ => by cases t <;> rfl⟩
    simp only [RecBody.colsAt, arguments_same h ρ' h1, columns_same h ρ' h2]
  | annual i o cs =>
    simp only [Out.body, Option.bind_eq_bind, Option.bind_eq_some_iff, Option.pure_def, Option.some.injEq] at hb
    obtain ⟨c', h2, rfl⟩ := hb
    refine ⟨?_, rfl, rfl, rfl, fun _ => rfl⟩
    simp only [RecBody.colsAt, columns_same h ρ' h2]
  | npv => cases hb; exact ⟨rfl, rfl, rfl, rfl, fun _ => rfl⟩
  | dsrate => cases hb; exact ⟨rfl, rfl, rfl, rfl, fun _ => rfl⟩
  | collrate => cases hb; exact ⟨rfl, rfl, rfl, rfl, fun _ => rfl⟩

/-- A command and the command written out make the same calls. -/
theorem command_same {m m' : Cmd} (hm : Out.command ev k m = some m') (t : List String) :
    m'.calls ⟨ev, pre⟩ ρ' t = m.calls ⟨ev, pre⟩ ρ t := by
  have hl : ∀ {l l' : List Sc2}, l.mapM (Out.pair ev k) = some l' →
      Interp.values (Sc2.values ⟨ev, pre⟩ ρ') l' = Interp.values (Sc2.values ⟨ev, pre⟩ ρ) l :=
    fun hl => values_same (fun a a' ha => pair_same h ρ' ha) hl
  have hl' : ∀ {l l' : List Sc2}, l.mapM (Out.pair ev k) = some l' →
      Interp.values (Sc2.value ⟨ev, pre⟩ ρ') l' = Interp.values (Sc2.value ⟨ev, pre⟩ ρ) l :=
    fun hl => values_same (fun a a' ha => by simp only [Sc2.value, pair_same h ρ' ha]) hl
  cases m with
  | detfnHyperbolic i p q =>
    simp only [Out.command, Option.bind_eq_bind, Option.bind_eq_some_iff, Option.pure_def, Option.some.injEq] at hm
    obtain ⟨p', h1, q', h2, rfl⟩ := hm
    simp only [Cmd.calls, pair_same h ρ' h1, scalar_same h ρ' h2]
  | detfnPowerlaw i p =>
    simp only [Out.command, Option.bind_eq_bind, Option.bind_eq_some_iff, Option.pure_def, Option.some.injEq] at hm
    obtain ⟨p', h1, rfl⟩ := hm
    simp only [Cmd.calls, pair_same h ρ' h1]
  | detfnLoglog i l =>
    simp only [Out.command, Option.bind_eq_bind, Option.bind_eq_some_iff, Option.pure_def, Option.some.injEq] at hm
    obtain ⟨p', h1, rfl⟩ := hm
    simp only [Cmd.calls, hl h1]
  | detfnLinear i l =>
    simp only [Out.command, Option.bind_eq_bind, Option.bind_eq_some_iff, Option.pure_def, Option.some.injEq] at hm
    obtain ⟨p', h1, rfl⟩ := hm
    simp only [Cmd.calls, hl h1]
  | probfn i a b o => cases a <;> cases b <;> first | (cases hm; rfl) | cases hm
  | dist d i p o =>
    simp only [Out.command, Option.bind_eq_bind, Option.bind_eq_some_iff, Option.pure_def, Option.some.injEq] at hm
    obtain ⟨p', h1, rfl⟩ := hm
    simp only [Cmd.calls, pair_same h ρ' h1]
  | fragfnUser i l o =>
    simp only [Out.command, Option.bind_eq_bind, Option.bind_eq_some_iff, Option.pure_def, Option.some.injEq] at hm
    obtain ⟨p', h1, rfl⟩ := hm
    simp only [Cmd.calls, hl' h1]
  | lossSimple i l o =>
    simp only [Out.command, Option.bind_eq_bind, Option.bind_eq_some_iff, Option.pure_def, Option.some.injEq] at hm
    obtain ⟨p', h1, rfl⟩ := hm
    simp only [Cmd.calls, hl' h1]
  | lossBilevel i l =>
    simp only [Out.command, Option.bind_eq_bind, Option.bind_eq_some_iff, Option.pure_def, Option.some.injEq] at hm
    obtain ⟨p', h1, rfl⟩ := hm
    have := values_same (f := Bilevel.value ⟨ev, pre⟩ ρ) (f' := Bilevel.value ⟨ev, pre⟩ ρ') (fun a a' ha => level_same h ρ' ha) h1
    simp only [Cmd.calls, this]
  | print w po => cases w <;> first | (cases hm; rfl) | cases hm
  | integration a n s =>
    cases s with
    | none =>
      simp only [Out.command, Option.bind_eq_bind, Option.bind_eq_some_iff, Option.pure_def, Option.some.injEq] at hm
      obtain ⟨a', h1, n', h2, rfl⟩ := hm
      simp only [Cmd.calls, number_same h ρ' h1, integer_same h ρ' h2]
    | some s =>
      simp only [Out.command, Option.bind_eq_bind, Option.bind_eq_some_iff, Option.pure_def, Option.some.injEq] at hm
      obtain ⟨a', h1, n', h2, s', h3, rfl⟩ := hm
      simp only [Cmd.calls, number_same h ρ' h1, integer_same h ρ' h2, integer_same h ρ' h3]
  | recorder r b o =>
    simp only [Out.command, Option.bind_eq_bind, Option.bind_eq_some_iff, Option.pure_def, Option.some.injEq] at hm
    obtain ⟨b', h1, rfl⟩ := hm
    obtain ⟨e1, e2, e3, e4, e5⟩ := body_same (pre := pre) h ρ' h1
    simp only [Cmd.calls, e1, e2, e3, e4, e5]
  | set => cases hm
  | compgroup i e f c d n l =>
    cases hm
    rcases l with _ | ⟨x, _ | ⟨y, l⟩⟩ <;> rfl
  | _ => cases hm; rfl

omit h in
theorem command_sound {m m' : Cmd} (hm : Out.command ev k m = some m') (hs : m.sound = true) :
    m'.sound = true ∧ (∀ c E, m'.env c E = m.env c E) ∧ (∀ c E E', m.env c E = .ok E' → E'.vars = E.vars) := by
  cases m with
  | integration a n s =>
    cases n with
    | int n =>
      cases s <;>
      · simp only [Out.command, Option.bind_eq_bind, Option.bind_eq_some_iff, Option.pure_def, Option.some.injEq, Out.integer] at hm
        first
        | (obtain ⟨a', h1, n', h2, rfl⟩ := hm; subst h2; exact ⟨rfl, fun _ _ => rfl, fun _ _ _ h => by cases h; rfl⟩)
        | (obtain ⟨a', h1, n', h2, s', h3, rfl⟩ := hm; subst h2; exact ⟨rfl, fun _ _ => rfl, fun _ _ _ h => by cases h; rfl⟩)
    | _ => cases hs
  | recorder r b o =>
    simp only [Out.command, Option.bind_eq_bind, Option.bind_eq_some_iff, Option.pure_def, Option.some.injEq] at hm
    obtain ⟨b', h1, rfl⟩ := hm
    refine ⟨?_, fun _ _ => rfl, fun _ _ _ h => by cases h; rfl⟩
    cases b <;> simp only [Out.body, Option.bind_eq_bind, Option.bind_eq_some_iff, Option.pure_def, Option.some.injEq] at h1
    case annual => obtain ⟨_, _, rfl⟩ := h1; exact hs
    case fn => obtain ⟨_, _, _, _, rfl⟩ := h1; rfl
    case by_ => obtain ⟨_, _, _, _, rfl⟩ := h1; rfl
    case rates => obtain ⟨_, _, rfl⟩ := h1; rfl
    case pdf => obtain ⟨_, _, rfl⟩ := h1; rfl
    all_goals (subst h1; rfl)
  | probfn i a b o => cases a <;> cases b <;> first | (cases hm; exact ⟨hs, fun _ _ => rfl, fun _ _ _ h => by cases h; rfl⟩) | cases hm
  | print w po => cases w <;> first | (cases hm; exact ⟨hs, fun _ _ => rfl, fun _ _ _ h => by cases h; rfl⟩) | cases hm
  | set => cases hm
  | detfnLoglog => cases hs
  | detfnLinear => cases hs
  | title t =>
    cases hm
    exact ⟨hs, fun _ _ => rfl, fun _ _ _ h => by cases h; rfl⟩
  | detfnHyperbolic i p q =>
    simp only [Out.command, Option.bind_eq_bind, Option.bind_eq_some_iff, Option.pure_def, Option.some.injEq] at hm
    obtain ⟨p', h1, q', h2, rfl⟩ := hm
    exact ⟨rfl, fun _ _ => rfl, fun _ _ _ h => by cases h; rfl⟩
  | detfnPowerlaw =>
    simp only [Out.command, Option.bind_eq_bind, Option.bind_eq_some_iff, Option.pure_def, Option.some.injEq] at hm
    obtain ⟨p', h1, rfl⟩ := hm
    exact ⟨rfl, fun _ _ => rfl, fun _ _ _ h => by cases h; rfl⟩
  | dist =>
    simp only [Out.command, Option.bind_eq_bind, Option.bind_eq_some_iff, Option.pure_def, Option.some.injEq] at hm
    obtain ⟨p', h1, rfl⟩ := hm
    exact ⟨rfl, fun _ _ => rfl, fun _ _ _ h => by cases h; rfl⟩
  | fragfnUser =>
    simp only [Out.command, Option.bind_eq_bind, Option.bind_eq_some_iff, Option.pure_def, Option.some.injEq] at hm
    obtain ⟨p', h1, rfl⟩ := hm
    exact ⟨rfl, fun _ _ => rfl, fun _ _ _ h => by cases h; rfl⟩
  | lossSimple =>
    simp only [Out.command, Option.bind_eq_bind, Option.bind_eq_some_iff, Option.pure_def, Option.some.injEq] at hm
    obtain ⟨p', h1, rfl⟩ := hm
    exact ⟨rfl, fun _ _ => rfl, fun _ _ _ h => by cases h; rfl⟩
  | lossBilevel =>
    simp only [Out.command, Option.bind_eq_bind, Option.bind_eq_some_iff, Option.pure_def, Option.some.injEq] at hm
    obtain ⟨p', h1, rfl⟩ := hm
    exact ⟨rfl, fun _ _ => rfl, fun _ _ _ h => by cases h; rfl⟩
  | _ =>
    cases hm
    exact ⟨hs, fun _ _ => rfl, fun _ _ _ h => by cases h; rfl⟩

theorem assigned_knows {a : SetArg} {v : Option Val} (ha : Out.assigned ev k a = some v) :
    ∃ u, a.value ⟨ev, pre⟩ ρ = .ok u ∧ ∀ w, v = some w → u = w := by
  have it : ∀ q w, Out.item q = some w → Param.value ⟨ev, pre⟩ q = w := by
    intro q w hq
    cases q <;> simp [Out.item] at hq <;> (subst hq; rfl)
  cases a with
  | py e =>
    simp only [Out.assigned] at ha
    split at ha
    · next u hu => cases ha; exact ⟨u, hu, fun w hw => Option.some.inj hw⟩
    · cases ha
  | var x =>
    simp only [Out.assigned, Option.some.injEq] at ha
    subst ha
    refine ⟨_, rfl, fun w hw => ?_⟩
    rw [h x w hw]
    rfl
  | params q =>
    cases q with
    | one q =>
      simp only [Out.assigned, Option.some.injEq] at ha
      subst ha
      exact ⟨_, rfl, fun w hw => by rw [Interp.Params.value]; exact it q w hw⟩
    | arr l =>
      simp only [Out.assigned, Option.some.injEq] at ha
      subst ha
      refine ⟨_, rfl, fun w hw => ?_⟩
      simp only [Option.map_eq_some_iff] at hw
      obtain ⟨l', h1, rfl⟩ := hw
      rw [Interp.Params.value]
      congr 1
      induction l generalizing l' with
      | nil => cases h1; rfl
      | cons q l ih =>
        simp only [List.mapM_cons, Option.bind_eq_bind, Option.bind_eq_some_iff, Option.pure_def, Option.some.injEq] at h1
        obtain ⟨x, h2, l'', h3, rfl⟩ := h1
        rw [List.map_cons, it q x h2, ih _ h3]
    | dict d =>
      simp only [Out.assigned, Option.some.injEq] at ha
      subst ha
      exact ⟨_, rfl, fun w hw => by cases hw⟩

omit h ρ' in
/-- The commands written out do the same. -/
theorem run_same {L : Lib W} {M : Machine} {l l' : List Cmd} {s s' : Interp.St} {σ : State W} (hs : ∀ m ∈ l, m.sound = true)
    (hl : Out.writtenOut ev k l = some l') (h : Knows k s.vars) (h1 : s.saved = []) (h2 : s'.saved = [])
    (h3 : s'.titles = s.titles) : run L M ⟨ev, pre⟩ l' s' σ = run L M ⟨ev, pre⟩ l s σ := by
  induction l generalizing k l' s s' σ with
  | nil => cases hl; rfl
  | cons m l ih =>
    have hsm := hs m (by simp)
    have hsl := fun x hx => hs x (List.mem_cons_of_mem _ hx)
    by_cases hset : ∃ x a, m = .set x a
    · obtain ⟨x, a, rfl⟩ := hset
      simp only [Out.writtenOut, Option.bind_eq_bind, Option.bind_eq_some_iff] at hl
      obtain ⟨v, h4, h5⟩ := hl
      obtain ⟨u, h6, h7⟩ := assigned_knows (pre := pre) h h4
      have hc : (Cmd.set x a).calls ⟨ev, pre⟩ s.vars s.titles = .ok [] := by
        cases a with
        | py e => simp only [SetArg.value] at h6; simp only [Cmd.calls, h6]; rfl
        | _ => rfl
      rw [run.eq_2, Interp.command_means_partial ⟨ev, pre⟩ _ hsm { s with calls := [] } h1]
      simp only [hc, Interp.ok_bind, Interp.St.env, Cmd.env, h6, Interp.after, List.nil_append, execAll]
      refine ih hsl h5 ?_ h1 h2 h3
      intro y w hy
      show (if y = x then some u else s.vars y) = some w
      beta_reduce at hy
      split at hy
      · next e => rw [if_pos e, h7 w hy]
      · next e => rw [if_neg e]; exact h y w hy
    · have hl' : ∃ m', Out.command ev k m = some m' ∧ ∃ l'', Out.writtenOut ev k l = some l'' ∧ m' :: l'' = l' := by
        cases m
        case set => exact absurd ⟨_, _, rfl⟩ hset
        all_goals
          simpa only [Out.writtenOut, Option.bind_eq_bind, Option.bind_eq_some_iff, Option.pure_def, Option.some.injEq] using hl
      obtain ⟨m', h4, l'', h5, rfl⟩ := hl'
      obtain ⟨e1, e2, e3⟩ := command_sound h4 hsm
      have hc := command_same (pre := pre) h s'.vars h4 s.titles
      rw [run.eq_2, run.eq_2, Interp.command_means_partial ⟨ev, pre⟩ _ hsm { s with calls := [] } h1,
        Interp.command_means_partial ⟨ev, pre⟩ _ e1 { s' with calls := [] } h2]
      simp only [Interp.St.env, h3, hc, e2]
      cases hk : m.calls ⟨ev, pre⟩ s.vars s.titles with
      | error e => rfl
      | ok ks =>
        simp only [Interp.ok_bind]
        have henv : ∃ t, ∀ V, m.env ⟨ev, pre⟩ ⟨V, s.titles⟩ = .ok ⟨V, t⟩ := by
          cases m
          case set => exact absurd ⟨_, _, rfl⟩ hset
          case title t => exact ⟨s.titles ++ [pre t], fun _ => rfl⟩
          all_goals exact ⟨_, fun _ => rfl⟩
        obtain ⟨t, ht⟩ := henv
        simp only [ht, Interp.ok_bind, Interp.after, List.nil_append]
        rcases hx : execAll L M ks σ with ⟨σ₁, _ | e⟩
        · exact ih hsl h5 h h1 h2 rfl
        · rfl

end

end Slat.Session
