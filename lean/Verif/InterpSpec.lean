import Verif.InterpModel

/-!
# What a SLAT command means

A compositional description, without any stack: each part of a command has a value in the
environment of the script's variables, and a command has an effect - the calls it makes, the
variables and the titles afterwards.  An error is the first one met from left to right.
-/

namespace Slat.Interp

/-- Value of a number. -/
def Num.value (c : Cfg) (ρ : Vars) : Num → Except Err Val
  | .int n => .ok (.int n)
  | .flt x => .ok (.flt x)
  | .py e => c.ev e
  | .var x => .ok ((ρ x).getD .none)

/-- Value of a scalar. -/
def Sc.value (c : Cfg) (ρ : Vars) : Sc → Except Err Val
  | .str t => .ok (.str (c.pre t))
  | .num n => n.value c ρ

/-- Values of a pair of scalars. -/
def Sc2.values (c : Cfg) (ρ : Vars) (p : Sc2) : Except Err (Val × Val) := do
  let a ← p.fst.value c ρ
  let b ← p.snd.value c ρ
  .ok (a, b)

/-- Value of a pair: a list of two. -/
def Sc2.value (c : Cfg) (ρ : Vars) (p : Sc2) : Except Err Val := do
  let (a, b) ← p.values c ρ
  .ok (.list [a, b])

/-- Value of a parameter. -/
def Param.value (c : Cfg) : Param → Val
  | .id t => .str t
  | .str t => .str (c.pre t)
  | .int n => .int n
  | .flt x => .flt x

mutual
/-- Value of parameters, nested to any depth.  The keys of a dictionary are parse nodes (see
`dictionary_keys_fails`). -/
def Params.value (c : Cfg) : Params → Val
  | .one p => p.value c
  | .arr l => .list (l.map (Param.value c))
  | .dict d => .dict (Entries.values c d)
/-- Entries of a dictionary, in the order in which they are written. -/
def Entries.values (c : Cfg) : Entries → List (Key × Val)
  | .nil => []
  | .cons _ k v r => (.node k, Params.value c v) :: Entries.values c r
end

/-- Value of a bilevel specification: a list of five. -/
def Bilevel.value (c : Cfg) (ρ : Vars) (b : Bilevel) : Except Err Val := do
  let v ← b.a.value c ρ
  let w ← b.b.value c ρ
  let x ← b.c.value c ρ
  let y ← b.d.value c ρ
  let z ← b.e.value c ρ
  .ok (.list [v, w, x, y, z])

/-- Value of an integer argument. -/
def IntArg.value (c : Cfg) (ρ : Vars) : IntArg → Except Err Val
  | .int n => .ok (.int n)
  | .var x => .ok ((ρ x).getD .none)
  | .py e => c.ev e

/-- The points at which a recorder reports. -/
def At.value (c : Cfg) (ρ : Vars) : At → Except Err Val
  | .floats l => .ok (.list (l.map .flt))
  | .range a i b => .ok (.frange a b i)
  | .py e => c.ev e
  | .var x => .ok ((ρ x).getD .none)
  | .counted a b true n => .ok (.logrange a b n)
  | .counted a b false n => .ok (.linrange a b n)

/-- A column of a recorder. -/
def Col.value (c : Cfg) (ρ : Vars) : Col → Except Err Val
  | .placement m => .ok (.str m.text)
  | .spread d => .ok (.str d.text)
  | .scalar s => s.value c ρ

/-- Values of a list of parts, from left to right. -/
def values {α β : Type} (f : α → Except Err β) : List α → Except Err (List β)
  | [] => .ok []
  | a :: l => do
      let v ← f a
      let vs ← values f l
      .ok (v :: vs)

/-- The columns of a recorder, if they are given. -/
def colsValue (c : Cfg) (ρ : Vars) : Option (List Col) → Except Err (Option Val)
  | .none => .ok .none
  | .some l => do
      let vs ← values (Col.value c ρ) l
      .ok (.some (.list vs))

/-- The name which a function reference stands for. -/
def FnRef.name (ρ : Vars) : FnRef → Except Err String
  | .id t => .ok t
  | .var x => match ρ x with
    | .some (.str t) => .ok t
    | _ => .error .typeError

/-- The kind of object which a recorder reports on. -/
def RecBody.registry : RecBody → String
  | .fn .detfn .. => "detfn"
  | .fn .probfn .. => "probfn"
  | .fn .imrate .. => "im"
  | .fn .edpim .. => "edp"
  | .fn .edprate .. => "edp"
  | .fn _ .. => "compgroup"
  | .dsrate _ => "compgroup"
  | .collrate _ => "im"
  | .rates .costrate .. => "compgroup"
  | .rates .collapse .. => "im"
  | .rates .deagg .. => "structure"
  | .rates .totalcost .. => "structure"
  | .pdf .. => "structure"
  | .npv .. => "structure"
  | .by_ .. => "structure"
  | .annual .. => "structure"

/-- The options of a recorder: where to print, and what kind of report. -/
def RecBody.options (b : RecBody) (po : Option PrintOpts) : ROpts where
  filename := po.map PrintOpts.file
  append := (po.map PrintOpts.append).getD false
  normalise := match b with
    | .pdf _ _ n => n
    | _ => false
  structType := match b with
    | .npv .. => .some "npv"
    | .by_ .fate .. => .some "by-fate"
    | .by_ .edp .. => .some "by-edp"
    | .by_ .frag .. => .some "by-frag"
    | .annual .. => .some "annual"
    | _ => .none
  discountRate := match b with
    | .npv _ _ _ _ r => .some r
    | _ => .none

/-- The columns and the points of a recorder.  With `--annual` the columns are the attributes
named by the options. -/
def RecBody.colsAt (c : Cfg) (ρ : Vars) : RecBody → Except Err (Option Val × Option Val)
  | .fn _ _ a k => do
      let v ← a.value c ρ
      let cs ← colsValue c ρ k
      .ok (cs, .some v)
  | .by_ _ _ a k => do
      let v ← a.value c ρ
      let cs ← colsValue c ρ k
      .ok (cs, .some v)
  | .rates _ _ a => do
      let v ← a.value c ρ
      .ok (.none, .some v)
  | .pdf _ a _ => do
      let v ← a.value c ρ
      .ok (.none, .some v)
  | .npv _ f i l _ => .ok (.none, .some (.range f l i))
  | .annual _ o k => do
      let _ ← colsValue c ρ k
      .ok (.some (.list ((o.mu.toList.map (fun m => .str m.text)) ++
        (o.sd.toList.map (fun d => .str d.text)))), .none)
  | .dsrate _ => .ok (.none, .none)
  | .collrate _ => .ok (.none, .none)

/-- What a command prints. -/
def PrintWhat.object (c : Cfg) (ρ : Vars) (titles : List String) :
    PrintWhat → Except Err Printed
  | .emptyMessage => .ok (.value (.str ""))
  | .message t => .ok (.value (.str (c.pre t)))
  | .messagePy e => do .ok (.value (← c.ev e))
  | .messageVar x => .ok (.value ((ρ x).getD .none))
  | .title => .ok (.titles titles)
  | .function k id =>
      if k ∈ ["detfn", "probfn", "im", "edp", "fragfn", "lossfn", "compgroup"]
      then .ok (.definition k id) else .ok .unknown

/-- The calls which a command makes. -/
def Cmd.calls (c : Cfg) (ρ : Vars) (titles : List String) : Cmd → Except Err (List Call)
  | .title _ => .ok []
  | .set _ (.py e) => do
      let _ ← c.ev e
      .ok []
  | .set _ _ => .ok []
  | .detfnHyperbolic id p q => do
      let (a, b) ← p.values c ρ
      let d ← q.value c ρ
      .ok [.detfn id "hyperbolic" (.list [a, b, d])]
  | .detfnPowerlaw id p => do
      let (a, b) ← p.values c ρ
      .ok [.detfn id "power law" (.list [a, b])]
  | .detfnLoglog id l => do
      let vs ← values (Sc2.values c ρ) l
      .ok [.detfn id "loglog" (.list [.list (vs.map Prod.fst), .list (vs.map Prod.snd)])]
  | .detfnLinear id l => do
      let vs ← values (Sc2.values c ρ) l
      .ok [.detfn id "linear" (.list [.list (vs.map Prod.fst), .list (vs.map Prod.snd)])]
  | .probfn id mu sg o => do
      let m ← mu.name ρ
      let d ← sg.name ρ
      .ok [.probfn id o.mu m o.sd d]
  | .im id fn => .ok [.im id fn]
  | .edp id i fn => .ok [.edp id i fn]
  | .dist k id p o => do
      let (a, b) ← p.values c ρ
      .ok [.dist k id a o.mu b o.sd]
  | .fragfnDb id f k => .ok [.fragfnDb id k (f.getD "(default database)")]
  | .fragfnUser id l o => do
      let vs ← values (Sc2.value c ρ) l
      .ok [.fragfnUser id o.mu o.sd (.list vs)]
  | .lossSimple id l o => do
      let vs ← values (Sc2.value c ρ) l
      .ok [.simpleLoss id o.mu o.sd (.list vs)]
  | .lossBilevel id l => do
      let vs ← values (Bilevel.value c ρ) l
      .ok [.bilevelLoss id (.list vs)]
  | .compgroup id e f k d n [] => .ok [.compgroup id e f k d n 1 1]
  | .compgroup id e f k d n [x] => .ok [.compgroup id e f k d n x 1]
  | .compgroup id e f k d n (x :: y :: _) => .ok [.compgroup id e f k d n x y]
  | .structure_ id g => .ok (.structure_ id :: g.map (.addCompGroup id))
  | .print w po => do
      let o ← w.object c ρ titles
      .ok [.print o (po.map PrintOpts.file) ((po.map PrintOpts.append).getD false)]
  | .integration p it se => do
      let pv ← p.value c ρ
      let iv ← it.value c ρ
      match se with
      | .none => .ok [.integrationSettings pv iv]
      | .some (m, a) => do
          let lv ← a.value c ρ
          .ok [.setMethod m, .setSearchLimit lv, .integrationSettings pv iv]
  | .recorder rid b po => do
      let (cols, at_) ← b.colsAt c ρ
      .ok [.recorder rid b.type b.registry b.id (b.options po) cols at_]
  | .analyze => .ok [.analyze]
  | .importProbfn id f => .ok [.importProbfn id f]
  | .importIm id f => .ok [.importIm id f]
  | .log b f => .ok (b.toList.map .logToStdErr ++ f.toList.map .setLogFile)
  | .intstatsPrint => .ok [.printStatistics]
  | .intstatsReset => .ok [.resetStatistics]
  | .inputdir d => .ok [.inputdir d]
  | .outputdir d => .ok [.outputdir d]

/-- Value assigned by `set`. -/
def SetArg.value (c : Cfg) (ρ : Vars) : SetArg → Except Err Val
  | .py e => c.ev e
  | .var x => .ok ((ρ x).getD .none)
  | .params p => .ok (p.value c)

/-- The environment of a script: variables and titles. -/
structure Env where
  vars : Vars
  titles : List String

/-- The effect of a command on the environment. -/
def Cmd.env (c : Cfg) (E : Env) : Cmd → Except Err Env
  | .set id a => do
      let v ← a.value c E.vars
      .ok { E with vars := fun x => if x = id then .some v else E.vars x }
  | .title t => .ok { E with titles := E.titles ++ [c.pre t] }
  | _ => .ok E

/-- Meaning of a script: the calls made by its commands in their order, each in the environment
left by the commands before it. -/
def meaning (c : Cfg) : List Cmd → Env → Except Err (List Call × Env)
  | [], E => .ok ([], E)
  | m :: l, E => do
      let k ← m.calls c E.vars E.titles
      let E' ← m.env c E
      let (ks, F) ← meaning c l E'
      .ok (k ++ ks, F)

mutual
/-- No dictionary inside has a quoted key. -/
def Params.plainKeys : Params → Bool
  | .one _ => true
  | .arr _ => true
  | .dict d => Entries.plainKeys d
/-- See `Params.plainKeys`. -/
def Entries.plainKeys : Entries → Bool
  | .nil => true
  | .cons b _ v r => !b && Params.plainKeys v && Entries.plainKeys r
end

/-- Is the function reference a plain name? -/
def FnRef.plain : FnRef → Bool
  | .id _ => true
  | .var _ => false

/-- Commands outside the forms which the interpreter gets wrong (each of these has its own
`_fails` theorem): log-log and linear functions, function references through variables, quoted
dictionary keys, a count of evaluations which is not a literal, and `--annual` without both
attributes. -/
def Cmd.sound : Cmd → Bool
  | .detfnLoglog .. => false
  | .detfnLinear .. => false
  | .probfn _ mu sg _ => mu.plain && sg.plain
  | .set _ (.params p) => p.plainKeys
  | .integration _ (.int _) _ => true
  | .integration .. => false
  | .recorder _ (.annual _ o _) _ => o.mu.isSome && o.sd.isSome
  | _ => true

end Slat.Interp
