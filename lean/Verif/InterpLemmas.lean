import Verif.InterpSpec

/-!
# Helper lemmas: every part of a command pushes exactly its value
-/

namespace Slat.Interp

@[simp] theorem ok_bind {α β : Type} (a : α) (f : α → Except Err β) :
    (Except.ok a >>= f) = f a := rfl
@[simp] theorem error_bind {α β : Type} (e : Err) (f : α → Except Err β) :
    ((Except.error e : Except Err α) >>= f) = .error e := rfl
@[simp] theorem map_ok' {α β : Type} (a : α) (f : α → β) :
    Except.map (ε := Err) f (.ok a) = .ok (f a) := rfl
@[simp] theorem map_error' {α β : Type} (e : Err) (f : α → β) :
    Except.map (ε := Err) f (.error e) = .error e := rfl

@[simp] theorem pop_push (v : Val) (s : St) : pop (push v s) = .ok (v, s) := rfl
@[simp] theorem push_vars (v : Val) (s : St) : (push v s).vars = s.vars := rfl
@[simp] theorem push_titles (v : Val) (s : St) : (push v s).titles = s.titles := rfl
@[simp] theorem pushStack_vars (s : St) : (pushStack s).vars = s.vars := rfl

/-- Several values pushed one after the other. -/
def pushAll (vs : List Val) (s : St) : St := { s with stack := vs.reverse ++ s.stack }

@[simp] theorem pushAll_vars (vs : List Val) (s : St) : (pushAll vs s).vars = s.vars := rfl
@[simp] theorem pushAll_nil (s : St) : pushAll [] s = s := rfl
theorem pushAll_push (v : Val) (vs : List Val) (s : St) :
    pushAll vs (push v s) = pushAll (v :: vs) s := by
  simp [pushAll, push]

@[simp] theorem pop_stack_all (vs : List Val) (s : St) :
    popStack (pushAll vs (pushStack s)) = .ok (vs, s) := by
  simp [popStack, pushAll, pushStack]

theorem walkNum_eq (c : Cfg) (n : Num) (s : St) :
    walkNum c n s = (n.value c s.vars).map (push · s) := by
  cases n with
  | py e => simp only [walkNum, exitPythonScript, Num.value]; cases c.ev e <;> simp
  | _ => simp [walkNum, exitVarRef, Num.value]

theorem walkSc_eq (c : Cfg) (x : Sc) (s : St) :
    walkSc c x s = (x.value c s.vars).map (push · s) := by
  cases x with
  | str t => rfl
  | num n =>
      simp only [walkSc, walkNum_eq, Sc.value]; cases n.value c s.vars <;> simp

theorem walkSc2_eq (c : Cfg) (x : Sc2) (s : St) :
    walkSc2 c x s = (x.value c s.vars).map (push · s) := by
  simp only [walkSc2, walkSc_eq, Sc2.value, Sc2.values]
  cases x.fst.value c s.vars with
  | error e => simp
  | ok a =>
      simp only [map_ok', ok_bind, push_vars]
      cases x.snd.value c s.vars <;> simp

theorem walkAll_eq {α : Type} (f : α → St → Except Err St) (g : Vars → α → Except Err Val)
    (h : ∀ a s, f a s = (g s.vars a).map (push · s)) (l : List α) (s : St) :
    walkAll f l s = (values (g s.vars) l).map (pushAll · s) := by
  induction l generalizing s with
  | nil => simp [walkAll, values]
  | cons a l ih =>
      simp only [walkAll, values, h]
      cases g s.vars a with
      | error e => simp
      | ok v =>
          simp only [map_ok', ok_bind, ih, push_vars]
          cases values (g s.vars) l <;> simp [pushAll_push]

theorem seq_eq {α : Type} (f : α → St → Except Err St) (g : Vars → α → Except Err Val)
    (h : ∀ a s, f a s = (g s.vars a).map (push · s)) (l : List α) (s : St) :
    (do
      let s ← walkAll f l (pushStack s)
      let (vs, s) ← popStack s
      .ok (push (.list vs) s)) = (values (g s.vars) l).map (fun vs => push (.list vs) s) := by
  rw [walkAll_eq f g h, pushStack_vars]
  cases values (g s.vars) l <;> simp

theorem walkSc2Seq_eq (c : Cfg) (l : List Sc2) (s : St) :
    walkSc2Seq c l s = (values (Sc2.value c s.vars) l).map (fun vs => push (.list vs) s) :=
  seq_eq _ (fun ρ p => Sc2.value c ρ p) (fun _ _ => walkSc2_eq ..) l s

theorem walkBilevel_eq (c : Cfg) (b : Bilevel) (s : St) :
    walkBilevel c b s = (b.value c s.vars).map (push · s) := by
  have h := seq_eq (walkNum c) (fun ρ p => Num.value c ρ p) (fun _ _ => walkNum_eq ..)
    [b.a, b.b, b.c, b.d, b.e] s
  rw [show walkBilevel c b s = _ from h]
  simp only [values, Bilevel.value]
  cases b.a.value c s.vars <;> [simp; skip]
  cases b.b.value c s.vars <;> [simp; skip]
  cases b.c.value c s.vars <;> [simp; skip]
  cases b.d.value c s.vars <;> [simp; skip]
  cases b.e.value c s.vars <;> simp

theorem walkBilevels_eq (c : Cfg) (l : List Bilevel) (s : St) :
    walkBilevels c l s = (values (Bilevel.value c s.vars) l).map (fun vs => push (.list vs) s) :=
  seq_eq _ (fun ρ p => Bilevel.value c ρ p) (fun _ _ => walkBilevel_eq ..) l s

theorem walkAt_eq (c : Cfg) (a : At) (s : St) :
    walkAt c a s = (a.value c s.vars).map (push · s) := by
  cases a with
  | py e => simp only [walkAt, exitPythonScript, At.value]; cases c.ev e <;> simp
  | counted a b l n => cases l <;> rfl
  | _ => simp [walkAt, exitVarRef, At.value]

theorem walkCol_eq (c : Cfg) (a : Col) (s : St) :
    walkCol c a s = (a.value c s.vars).map (push · s) := by
  cases a with
  | scalar x => exact walkSc_eq ..
  | _ => rfl

theorem walkCols_eq (c : Cfg) (k : Option (List Col)) (s : St) :
    walkCols c k s = (colsValue c s.vars k).map (fun v => pushAll v.toList s) := by
  cases k with
  | none => rfl
  | some l =>
      rw [show walkCols c (some l) s = _ from
        seq_eq _ (fun ρ p => Col.value c ρ p) (fun _ _ => walkCol_eq ..) l s]
      simp only [colsValue]
      cases values (Col.value c s.vars) l <;> simp [pushAll, push]

theorem walkParam_eq (c : Cfg) (p : Param) (s : St) :
    walkParam c p s = .ok (push (p.value c) s) := by cases p <;> rfl

theorem walkAll_param (c : Cfg) (l : List Param) (s : St) :
    walkAll (walkParam c) l s = .ok (pushAll (l.map (Param.value c)) s) := by
  induction l generalizing s with
  | nil => rfl
  | cons p l ih => simp [walkAll, walkParam_eq, ih, pushAll_push]

/-- The entries of a dictionary as they lie on the stack. -/
def entryVals (l : List (Key × Val)) : List Val := l.map (fun e => .entry e.1 e.2)

theorem dictFrom_nodes (l : List (Key × Val)) (h : ∀ e ∈ l, ∃ t, e.1 = .node t)
    (d : List (Key × Val)) : dictFrom (entryVals l) d = .ok (d ++ l) := by
  induction l generalizing d with
  | nil => simp [entryVals, dictFrom]
  | cons e l ih =>
      obtain ⟨t, ht⟩ := h e (by simp)
      obtain ⟨k, v⟩ := e
      simp only at ht
      subst ht
      have := ih (fun e he => h e (by simp [he])) (d ++ [(.node t, v)])
      simpa [entryVals, dictFrom, dictSet] using this

theorem entries_nodes (c : Cfg) : ∀ d : Entries, ∀ e ∈ d.values c, ∃ t, e.1 = .node t
  | .nil => by simp [Entries.values]
  | .cons b k v r => by
      simp only [Entries.values, List.mem_cons]
      rintro e (rfl | he)
      · exact ⟨k, rfl⟩
      · exact entries_nodes c r e he

mutual
theorem walkParams_eq (c : Cfg) : ∀ (p : Params), p.plainKeys = true → ∀ s : St,
    walkParams c p s = .ok (push (p.value c) s)
  | .one p, _, s => walkParam_eq c p s
  | .arr l, _, s => by
      simp [walkParams, walkAll_param, Params.value]
  | .dict d, h, s => by
      have hd : d.plainKeys = true := by simpa [Params.plainKeys] using h
      simp only [walkParams, walkEntries_eq c d hd, ok_bind]
      have e : (pushAll (entryVals (d.values c)) (pushStack s)).stack.reverse
          = entryVals (d.values c) := by simp [pushAll, pushStack]
      rw [e, dictFrom_nodes _ (entries_nodes c d)]
      simp [Params.value]
theorem walkEntries_eq (c : Cfg) : ∀ (d : Entries), d.plainKeys = true → ∀ s : St,
    walkEntries c d s = .ok (pushAll (entryVals (d.values c)) s)
  | .nil, _, s => rfl
  | .cons b k v r, h, s => by
      simp only [Entries.plainKeys, Bool.and_eq_true, Bool.not_eq_true'] at h
      obtain ⟨⟨rfl, hv⟩, hr⟩ := h
      simp [walkEntries, walkParams_eq c v hv, exitEntry, walkEntries_eq c r hr, pushAll_push,
        Entries.values, entryVals]
end

@[simp] theorem pop_pushAll_one (v : Val) (s : St) : pop (pushAll [v] s) = .ok (v, s) := rfl

end Slat.Interp
