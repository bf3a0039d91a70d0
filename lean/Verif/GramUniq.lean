import Verif.GramLL

/-!
# The grammar of the command language is unambiguous

Five rules of `slatParser.g4` cannot be decided by the next token; each is replaced by an
equivalent one that can.
-/

namespace Slat.Gram

open Slat.Lex (Kind)
open Slat.Interp G

set_option maxRecDepth 10000

theorem parses_after {D : List Tok → Entries → Prop} {α : Type} {k : Kind} {g : G α} {u : List Tok}
    {a : α} : Parses D (after k g) u a ↔ ∃ t v, u = (k, t) :: v ∧ Parses D g v a := by
  constructor
  · rintro ⟨⟨s, b⟩, ⟨v, w, rfl, ⟨t, rfl, -⟩, h⟩, rfl⟩
    exact ⟨t, w, rfl, h⟩
  · rintro ⟨t, v, rfl, h⟩
    exact ⟨(String.ofList t, a), ⟨[(k, t)], v, rfl, ⟨t, rfl, rfl⟩, h⟩, rfl⟩

theorem parses_opt {D : List Tok → Entries → Prop} {α : Type} {g : G α} {u : List Tok}
    {o : Option α} : Parses D (opt g) u o ↔
      (u = [] ∧ o = none) ∨ ∃ a, Parses D g u a ∧ o = some a := by
  constructor
  · rintro (⟨a, h, rfl⟩ | ⟨rfl, rfl⟩)
    · exact .inr ⟨a, h, rfl⟩
    · exact .inl ⟨rfl, rfl⟩
  · rintro (⟨rfl, rfl⟩ | ⟨a, h, rfl⟩)
    · exact .inr ⟨rfl, rfl⟩
    · exact .inl ⟨a, h, rfl⟩

theorem parses_seq {D : List Tok → Entries → Prop} {α β : Type} {g : G α} {h : G β} {u : List Tok}
    {p : α × β} : Parses D (.seq g h) u p ↔
      ∃ v w, u = v ++ w ∧ Parses D g v p.1 ∧ Parses D h w p.2 := Iff.rfl

theorem parses_map {D : List Tok → Entries → Prop} {α β : Type} {f : α → β} {g : G α}
    {u : List Tok} {b : β} : Parses D (.map f g) u b ↔ ∃ a, Parses D g u a ∧ f a = b := Iff.rfl

theorem parses_alt {D : List Tok → Entries → Prop} {α : Type} {g h : G α} {u : List Tok} {a : α} :
    Parses D (.alt g h) u a ↔ Parses D g u a ∨ Parses D h u a := Iff.rfl

/-- `lognormal_options`, to be decided by the next token. -/
def lognormal_options' : G LnOpts :=
  oneOf (.map (fun p => ⟨some p.1, p.2⟩) (.seq mu_option (opt sd_option)))
    [.map (fun p => ⟨p.2, some p.1⟩) (.seq sd_option (opt mu_option)), .eps ⟨none, none⟩]

theorem lognormal_eqv : Eqv lognormal_options lognormal_options' := by
  intro D u a
  unfold lognormal_options lognormal_options' oneOf oneOf oneOf
  constructor
  · rintro (⟨⟨m, s⟩, ⟨v, w, rfl, hm, hs⟩, rfl⟩ | ⟨⟨s, m⟩, ⟨v, w, rfl, hs, hm⟩, rfl⟩)
    · rcases parses_opt.1 hm with ⟨rfl, m0⟩ | ⟨m', hm1, m0⟩
      · rcases parses_opt.1 hs with ⟨rfl, s0⟩ | ⟨s', hs1, s0⟩
        · simp only at m0 s0; subst m0 s0
          exact .inr (.inr ⟨rfl, rfl⟩)
        · simp only at m0 s0; subst m0 s0
          exact .inr (.inl ⟨(s', none), ⟨w, [], by simp, hs1, parses_opt.2 (.inl ⟨rfl, rfl⟩)⟩, rfl⟩)
      · simp only at m0; subst m0
        exact .inl ⟨(m', s), ⟨v, w, rfl, hm1, hs⟩, rfl⟩
    · exact .inr (.inl ⟨(s, some m), ⟨v, w, rfl, hs, parses_opt.2 (.inr ⟨m, hm, rfl⟩)⟩, rfl⟩)
  · rintro (⟨⟨m, s⟩, ⟨v, w, rfl, hm, hs⟩, rfl⟩ | ⟨⟨s, m⟩, ⟨v, w, rfl, hs, hm⟩, rfl⟩ | ⟨rfl, rfl⟩)
    · exact .inl ⟨(some m, s), ⟨v, w, rfl, parses_opt.2 (.inr ⟨m, hm, rfl⟩), hs⟩, rfl⟩
    · rcases parses_opt.1 hm with ⟨rfl, m0⟩ | ⟨m', hm1, m0⟩
      · simp only at m0; subst m0
        exact .inl ⟨(none, some s), ⟨[], v, by simp, parses_opt.2 (.inl ⟨rfl, rfl⟩),
          parses_opt.2 (.inr ⟨s, hs, rfl⟩)⟩, rfl⟩
      · simp only at m0; subst m0
        exact .inr ⟨(s, m'), ⟨v, w, rfl, hs, hm1⟩, rfl⟩
    · exact .inl ⟨(none, none), ⟨[], [], rfl, parses_opt.2 (.inl ⟨rfl, rfl⟩),
        parses_opt.2 (.inl ⟨rfl, rfl⟩)⟩, rfl⟩

/-- `fragfn_db_params`, to be decided by the next token. -/
def fragfn_db_params' : G (Option String × String) :=
  .alt (.seq (.map some (after .DB_FLAG file_spec)) (after .STDFUNC_FLAG (.tok .ID)))
    (.map (fun p => (p.2, p.1))
      (.seq (after .STDFUNC_FLAG (.tok .ID)) (opt (after .DB_FLAG file_spec))))

theorem fragfn_db_eqv : Eqv fragfn_db_params fragfn_db_params' := by
  intro D u a
  unfold fragfn_db_params fragfn_db_params'
  constructor
  · rintro (⟨v, w, rfl, hv, hw⟩ | ⟨⟨k, f⟩, ⟨v, w, rfl, hv, hw⟩, rfl⟩)
    · rcases parses_opt.1 hv with ⟨rfl, hn⟩ | ⟨f, hv, hf⟩
      · exact .inr ⟨(a.2, none), ⟨w, [], by simp, hw, parses_opt.2 (.inl ⟨rfl, rfl⟩)⟩,
          Prod.ext hn.symm rfl⟩
      · exact .inl ⟨v, w, rfl, ⟨f, hv, hf.symm⟩, hw⟩
    · exact .inr ⟨(k, some f), ⟨v, w, rfl, hv, parses_opt.2 (.inr ⟨f, hw, rfl⟩)⟩, rfl⟩
  · rintro (⟨v, w, rfl, ⟨f, hv, hf⟩, hw⟩ | ⟨⟨k, f⟩, ⟨v, w, rfl, hv, hw⟩, rfl⟩)
    · exact .inl ⟨v, w, rfl, parses_opt.2 (.inr ⟨f, hv, hf.symm⟩), hw⟩
    · rcases parses_opt.1 hw with ⟨rfl, hn⟩ | ⟨f', hw1, hf⟩
      · simp only at hn; subst hn
        exact .inl ⟨[], v, by simp, parses_opt.2 (.inl ⟨rfl, rfl⟩), hv⟩
      · simp only at hf; subst hf
        exact .inr ⟨(k, f'), ⟨v, w, rfl, hv, hw1⟩, rfl⟩

/-- `FLOAT_VAL? FLOAT_VAL?`, to be decided by the next token. -/
def adjustments' : G (List ℚ) :=
  .alt (.map (fun p => p.1 :: p.2.toList) (.seq float (opt float))) (.eps [])

theorem adjustments_eqv : Eqv adjustments adjustments' := by
  intro D u a
  unfold adjustments adjustments'
  constructor
  · rintro ⟨⟨x, y⟩, ⟨v, w, rfl, hx, hy⟩, rfl⟩
    rcases parses_opt.1 hx with ⟨rfl, x0⟩ | ⟨x', hx1, x0⟩
    · simp only at x0; subst x0
      rcases parses_opt.1 hy with ⟨rfl, y0⟩ | ⟨y', hy1, y0⟩
      · simp only at y0; subst y0
        exact .inr ⟨rfl, rfl⟩
      · simp only at y0; subst y0
        exact .inl ⟨(y', none), ⟨w, [], by simp, hy1, parses_opt.2 (.inl ⟨rfl, rfl⟩)⟩, rfl⟩
    · simp only at x0; subst x0
      exact .inl ⟨(x', y), ⟨v, w, rfl, hx1, hy⟩, rfl⟩
  · rintro (⟨⟨x, y⟩, ⟨v, w, rfl, hx, hy⟩, rfl⟩ | ⟨rfl, rfl⟩)
    · exact ⟨(some x, y), ⟨v, w, rfl, parses_opt.2 (.inr ⟨x, hx, rfl⟩), hy⟩, rfl⟩
    · exact ⟨(none, none), ⟨[], [], rfl, parses_opt.2 (.inl ⟨rfl, rfl⟩),
        parses_opt.2 (.inl ⟨rfl, rfl⟩)⟩, rfl⟩

/-- `print_message | print_function | print_title`, to be decided by the next token. -/
def print_what' : G PrintWhat :=
  after .PRINT (oneOf
    (.map (fun o => o.getD .emptyMessage)
      (after .MESSAGE (opt (oneOf (.map PrintWhat.message (.tok .STRING))
        [.map PrintWhat.messagePy python_script, .map PrintWhat.messageVar var_ref]))))
    [.map (fun p => .function p.1 p.2)
      (.seq (oneOf (is .DETFN "detfn") [is .PROBFN "probfn", is .IM "im", is .EDP "edp",
        is .FRAGFN "fragfn", is .LOSSFN "lossfn", is .COMPGROUP "compgroup"]) (.tok .ID)),
     is .TITLE .title])

theorem map_after_eqv {α β : Type} (f : α → β) (k : Kind) (g : G α) :
    Eqv (.map f (after k g)) (after k (.map f g)) := by
  intro D u b
  rw [parses_after]
  constructor
  · rintro ⟨a, h, rfl⟩
    obtain ⟨t, v, rfl, h1⟩ := parses_after.1 h
    exact ⟨t, v, rfl, a, h1, rfl⟩
  · rintro ⟨t, v, rfl, a, h, rfl⟩
    exact ⟨a, parses_after.2 ⟨t, v, rfl, h⟩, rfl⟩

theorem after_alt_eqv {α : Type} (k : Kind) (g h : G α) :
    Eqv (.alt (after k g) (after k h)) (after k (.alt g h)) := by
  intro D u b
  rw [parses_after, parses_alt, parses_after, parses_after]
  constructor
  · rintro (⟨t, v, e, h⟩ | ⟨t, v, e, h⟩)
    · exact ⟨t, v, e, .inl h⟩
    · exact ⟨t, v, e, .inr h⟩
  · rintro ⟨t, v, e, h | h⟩
    · exact .inl ⟨t, v, e, h⟩
    · exact .inr ⟨t, v, e, h⟩

theorem Eqv.trans {α : Type} {g h k : G α} (h1 : Eqv g h) (h2 : Eqv h k) : Eqv g k :=
  fun D u a => (h1 D u a).trans (h2 D u a)

theorem Eqv.alt {α : Type} {g h g' h' : G α} (h1 : Eqv g g') (h2 : Eqv h h') :
    Eqv (.alt g h) (.alt g' h') := fun D u a => or_congr (h1 D u a) (h2 D u a)

theorem Eqv.refl {α : Type} (g : G α) : Eqv g g := fun _ _ _ => Iff.rfl

theorem print_what_eqv : Eqv print_what print_what' :=
  Eqv.trans (Eqv.alt (map_after_eqv _ _ _)
    (Eqv.trans (Eqv.alt (map_after_eqv _ _ _) (Eqv.refl _)) (after_alt_eqv _ _ _)))
    (after_alt_eqv _ _ _)

/-- `recorder_at`, to be decided by the next token. -/
def recorder_at' : G At :=
  oneOf (.map (fun p => p.2 p.1) (.seq float (.alt
      (.map (fun l x => At.floats (x :: l)) (.star (after .COMMA float)))
      (.map (fun p x => p.2 x p.1) (.seq (after .COLON float) (.alt
        (.map (fun z x y => At.range x y z) (after .COLON float))
        (.map (fun p x y => At.counted x y p.1 p.2)
          (.seq (.alt (is .LINFLAG false) (is .LOGFLAG true)) integer))))))))
    [.map At.py python_script, .map At.var var_ref]

theorem recorder_at_eqv : Eqv recorder_at recorder_at' := by
  intro D u a
  unfold recorder_at recorder_at' oneOf oneOf oneOf oneOf oneOf counted_at float_array commas
  constructor
  · rintro (⟨_, ⟨⟨x, l⟩, ⟨v, w, rfl, hx, hl⟩, rfl⟩, rfl⟩ |
      ⟨⟨x, y, z⟩, ⟨v, w, rfl, hx, w1, w2, rfl, hy, hz⟩, rfl⟩ | h | h |
      ⟨⟨x, y, b, n⟩, ⟨v, w, rfl, hx, w1, w2, rfl, hy, hn⟩, rfl⟩)
    · exact .inl ⟨(x, fun x => At.floats (x :: l)), ⟨v, w, rfl, hx, .inl ⟨l, hl, rfl⟩⟩, rfl⟩
    · exact .inl ⟨(x, fun x => At.range x y z), ⟨v, w1 ++ w2, rfl, hx,
        .inr ⟨(y, fun x y => At.range x y z), ⟨w1, w2, rfl, hy, .inl ⟨z, hz, rfl⟩⟩, rfl⟩⟩, rfl⟩
    · exact .inr (.inl h)
    · exact .inr (.inr h)
    · exact .inl ⟨(x, fun x => At.counted x y b n), ⟨v, w1 ++ w2, rfl, hx,
        .inr ⟨(y, fun x y => At.counted x y b n), ⟨w1, w2, rfl, hy, .inr ⟨(b, n), hn, rfl⟩⟩, rfl⟩⟩,
        rfl⟩
  · rintro (⟨⟨x, f⟩, ⟨v, w, rfl, hx, ⟨l, hl, rfl⟩ |
        ⟨⟨y, f'⟩, ⟨w1, w2, rfl, hy, ⟨z, hz, rfl⟩ | ⟨⟨b, n⟩, hn, rfl⟩⟩, rfl⟩⟩, rfl⟩ | h | h)
    · exact .inl ⟨x :: l, ⟨(x, l), ⟨v, w, rfl, hx, hl⟩, rfl⟩, rfl⟩
    · exact .inr (.inl ⟨(x, y, z), ⟨v, w1 ++ w2, rfl, hx, w1, w2, rfl, hy, hz⟩, rfl⟩)
    · exact .inr (.inr (.inr (.inr ⟨(x, y, b, n), ⟨v, w1 ++ w2, rfl, hx, w1, w2, rfl, hy, hn⟩, rfl⟩)))
    · exact .inr (.inr (.inl h))
    · exact .inr (.inr (.inr (.inl h)))

/-- Build a proof of `LL`, rule by rule; the conditions are computed. -/
macro "ll_step" : tactic => `(tactic| first
  | with_reducible exact LL.tok | with_reducible exact LL.eps | with_reducible exact LL.dict
  | with_reducible refine LL.eqv lognormal_eqv ?_ | with_reducible refine LL.eqv fragfn_db_eqv ?_
  | with_reducible refine LL.eqv adjustments_eqv ?_
  | with_reducible refine LL.eqv print_what_eqv ?_
  | with_reducible refine LL.eqv recorder_at_eqv ?_
  | with_reducible refine LL.seq ?_ ?_ | with_reducible refine LL.alt (by rfl) ?_ ?_
  | with_reducible refine LL.star (by rfl) ?_
  | with_reducible refine LL.map ?_
  | refine LL.seq ?_ ?_ | refine LL.alt (by rfl) ?_ ?_ | refine LL.star (by rfl) ?_
  | refine LL.map ?_ | exact LL.tok | exact LL.eps | exact LL.dict)

theorem dictBody_ll (F : List Kind) : LL dictBody F := by
  repeat ll_step

theorem title_command_ll : LL title_command [.SEMICOLON] := by repeat ll_step

theorem detfn_command_ll : LL detfn_command [.SEMICOLON] := by repeat ll_step

theorem probfn_command_ll : LL probfn_command [.SEMICOLON] := by repeat ll_step

theorem im_command_ll : LL im_command [.SEMICOLON] := by repeat ll_step

theorem edp_command_ll : LL edp_command [.SEMICOLON] := by repeat ll_step

theorem fragfn_command_ll : LL fragfn_command [.SEMICOLON] := by repeat ll_step

theorem lossfn_command_ll : LL lossfn_command [.SEMICOLON] := by repeat ll_step

theorem compgroup_command_ll : LL compgroup_command [.SEMICOLON] := by repeat ll_step

theorem print_command_ll : LL print_command [.SEMICOLON] := by repeat ll_step

theorem integration_command_ll : LL integration_command [.SEMICOLON] := by repeat ll_step

theorem recorder_command_ll : LL recorder_command [.SEMICOLON] := by repeat ll_step

theorem analyze_command_ll : LL analyze_command [.SEMICOLON] := by repeat ll_step

theorem set_command_ll : LL set_command [.SEMICOLON] := by repeat ll_step

theorem importprobfn_command_ll : LL importprobfn_command [.SEMICOLON] := by repeat ll_step

theorem structure_command_ll : LL structure_command [.SEMICOLON] := by repeat ll_step

theorem importimfn_command_ll : LL importimfn_command [.SEMICOLON] := by repeat ll_step

theorem log_command_ll : LL log_command [.SEMICOLON] := by repeat ll_step

theorem intstats_command_ll : LL intstats_command [.SEMICOLON] := by repeat ll_step

theorem inputdir_command_ll : LL inputdir_command [.SEMICOLON] := by repeat ll_step

theorem outputdir_command_ll : LL outputdir_command [.SEMICOLON] := by repeat ll_step

theorem dist_command_ll {k : Kind} {d : DistCmd} : LL (dist_command k d) [.SEMICOLON] := by
  repeat ll_step

theorem body_ll : LL command_body [.SEMICOLON] := by
  refine LL.alt (by rfl) title_command_ll (LL.alt (by rfl) detfn_command_ll
    (LL.alt (by rfl) probfn_command_ll (LL.alt (by rfl) im_command_ll
    (LL.alt (by rfl) edp_command_ll (LL.alt (by rfl) fragfn_command_ll
    (LL.alt (by rfl) lossfn_command_ll (LL.alt (by rfl) compgroup_command_ll
    (LL.alt (by rfl) print_command_ll (LL.alt (by rfl) integration_command_ll
    (LL.alt (by rfl) recorder_command_ll (LL.alt (by rfl) analyze_command_ll
    (LL.alt (by rfl) set_command_ll (LL.alt (by rfl) importprobfn_command_ll
    (LL.alt (by rfl) dist_command_ll (LL.alt (by rfl) dist_command_ll
    (LL.alt (by rfl) structure_command_ll (LL.alt (by rfl) importimfn_command_ll
    (LL.alt (by rfl) dist_command_ll (LL.alt (by rfl) dist_command_ll
    (LL.alt (by rfl) log_command_ll (LL.alt (by rfl) intstats_command_ll
    (LL.alt (by rfl) inputdir_command_ll outputdir_command_ll))))))))))))))))))))))

theorem command_ll (F : List Kind) : LL command F := LL.map (LL.seq body_ll LL.tok)

theorem script_ll : LL script [] := by
  refine LL.map (LL.star (by rfl) (LL.alt (by rfl) (LL.map LL.tok) (LL.map (command_ll _))))

/-! ## One reading only -/

theorem dict_ok (n : Nat) : DOk (DictN n) := by
  induction n with
  | zero => exact ⟨fun h => h.elim, fun h => h.elim⟩
  | succ n ih =>
    constructor
    · rintro u e ⟨t, v, rfl, -⟩; exact ⟨t, v, rfl⟩
    · rintro u e r u' e' r' ⟨t, v, rfl, h⟩ ⟨t', v', rfl, h'⟩ he
      simp only [List.cons_append, List.cons.injEq] at he
      have hF : ∀ (w : List Tok), (∀ p ∈ w, p ∈ r ++ r') → Fol ((r ++ r').map (·.1)) w := by
        intro w hw p x hx
        exact List.mem_map_of_mem (hw p (by rw [hx]; simp))
      obtain ⟨rfl, rfl⟩ := (dictBody_ll ((r ++ r').map (·.1))).det ih _ _ _ _ _ _ h h' he.2
        (hF r fun p hp => by simp [hp]) (hF r' fun p hp => by simp [hp])
      exact ⟨by rw [he.1], rfl⟩

theorem Derives.at {α : Type} {g : G α} {u : List Tok} {a : α} (h : Derives g u a) :
    ∃ n, ∀ m, n ≤ m → Parses (DictN m) g u a := by
  obtain ⟨n, h⟩ := h
  exact ⟨n, fun m hm => Parses.mono _ (fun _ _ _ h => DictN.le hm h) h⟩

/-- Derivations of a grammar that can be read from left to right. -/
theorem LL.unique {α : Type} {g : G α} {F : List Kind} (hl : LL g F) {u u' r r' : List Tok}
    {a a' : α} (h : Derives g u a) (h' : Derives g u' a') (e : u ++ r = u' ++ r') (hr : Fol F r)
    (hr' : Fol F r') : u = u' ∧ a = a' := by
  obtain ⟨n, hn⟩ := h.at
  obtain ⟨m, hm⟩ := h'.at
  exact hl.det (dict_ok (max n m)) _ _ _ _ _ _ (hn _ (Nat.le_max_left _ _))
    (hm _ (Nat.le_max_right _ _)) e hr hr'

theorem fol_nil (F : List Kind) : Fol F [] := fun _ _ h => by cases h

/-- The parser finds what the grammar derives. -/
theorem LL.parse_iff {α : Type} {g : G α} {F : List Kind} (hl : LL g F) (ts : List Tok) (a : α) :
    parseAs g ts = some a ↔ Derives g ts a := by
  constructor
  · exact parseAs_sound
  · intro h
    obtain ⟨b, hb⟩ := parseAs_complete h
    rw [hb, (hl.unique (parseAs_sound hb) h rfl (fol_nil _) (fol_nil _)).2]

end Slat.Gram
