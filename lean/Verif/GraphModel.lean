import Verif.ReplaceableModel
import Mathlib.Data.List.Basic
import Mathlib.Tactic

/-!
# Model of the object graph: who references whom, which callbacks run, which caches they clear

Objects refer to each other through `shared_ptr` members ("slots").  A slot registers a client with the
referenced `Replaceable` (`ReplaceableModel.lean`), and the two lambdas of that client clear caches,
re-point the member and notify the owner's own clients.  Everything that is numerical (what `calc_lambda`,
`E_cost_IM_calc`, ... compute) is a parameter `Calc`: an arbitrary function of the values it reads.
What it reads is fixed by the tables `uses`, `ownReads` and `subReads` below.

Sequential: one operation at a time (the thread-level behaviour of caches is in `CacheFnModel` and
`CacheValModel`).  A `CachedValue` is treated as a `CachedFunction` whose calculation may ignore its argument.
-/

namespace Slat.Graph

/-- The replaceable classes and `Structure`: `DeterministicFn` (src/functions.h:33), `ProbabilisticFn`
(src/functions.h:316), `IM` (src/relationships.h:32), `EDP`/`CompoundEDP` (src/relationships.h:146, 240),
`FragilityFn` (src/fragility.h:21), `LossFn` (src/loss_functions.h:22), `CompGroup` (src/comp_group.h:39),
`Structure` (src/structure.h:20; it is `Replaceable` too, but nothing registers with it, so replacing one has no
effect and is left out). -/
inductive Kind where
  | det | prob | im | edp | frag | loss | cg | str
deriving DecidableEq, Repr

/-- Members holding a reference with registered callbacks: `IM::f` (src/relationships.h:36),
`ProbabilisticFn::mu_function`, `sigma_function` (src/functions.h), `EDP::base_rate`, `dependent_rate`,
`CompoundEDP::second_dependent_rate` (src/relationships.h:146-283), `CompGroup::edp`, `frag_fn`, `cost_fn`,
`delay_fn` (src/comp_group.h), `Structure::im` and the entries of `Structure::components`
(src/structure.cpp:43-70; each entry is its own heap object, named by a number). -/
inductive Slot where
  | f | mu | sigma | base | first | second | edp | frag | cost | delay | sim | entry (k : ℕ)
deriving DecidableEq, Repr

/-- The class that has the member. -/
def Slot.owner : Slot → Kind
  | .f => .im | .mu => .prob | .sigma => .prob | .base => .edp | .first => .edp | .second => .edp
  | .edp => .cg | .frag => .cg | .cost => .cg | .delay => .cg | .sim => .str | .entry _ => .str

/-- The class the member points to. -/
def Slot.target : Slot → Kind
  | .f => .det | .mu => .det | .sigma => .det | .base => .im | .first => .prob | .second => .prob
  | .edp => .edp | .frag => .frag | .cost => .loss | .delay => .loss | .sim => .im | .entry _ => .cg

/-- The caches: `IM::CollapseRate`, `IM::DemolitionRate` (src/relationships.h:104, 128), `EDP::lambda`
(src/relationships.cpp:240), the nine caches of `CompGroup` (src/comp_group.cpp:33-72), and
`Structure::AnnualCost` (src/structure.cpp:23). -/
inductive CacheId where
  | collapseRate | demolitionRate | lambda
  | eCost | sdCost | eDelay | sdDelay | eAnnual | lambdaCost | costDist | delayDist | rate
  | annualCost
deriving DecidableEq, Repr

/-- The class that has the cache. -/
def CacheId.owner : CacheId → Kind
  | .collapseRate => .im | .demolitionRate => .im | .lambda => .edp | .annualCost => .str
  | _ => .cg

/-- The nine caches of a component group (src/comp_group.cpp:33-72). -/
def nine : List CacheId :=
  [.eCost, .sdCost, .eDelay, .sdDelay, .eAnnual, .lambdaCost, .costDist, .delayDist, .rate]

/-- A registered client: the callbacks belonging to one member of one object. -/
structure Client where
  node : ℕ
  slot : Slot
deriving DecidableEq

/-- What a pair of callbacks does.  `clears`: caches of the owner on which `ClearCache` is called;
`target`: the member assigned by the replace callback; `notifies`: whether the owner's `notify_change` is
called afterwards. -/
structure Reaction where
  clears : List CacheId
  target : Slot
  notifies : Bool

/-- The change callbacks (first lambda of each `add_callbacks`): `IM::f` src/relationships.cpp:51-53,
`mu`/`sigma` src/functions.cpp:288-290 and 297-299, `base` and `first` src/relationships.cpp:246-249 and
257-260, `second` src/relationships.cpp:400-403, `edp` src/comp_group.cpp:86-96, `frag` 113-123, `cost`
140-148, `delay` 166-170, `sim` src/structure.cpp:48-50, `entry` src/structure.cpp:60-62.
`target` is not used here. -/
def onChange : Slot → Reaction
  | .f => ⟨[], .f, true⟩
  | .mu => ⟨[], .mu, true⟩
  | .sigma => ⟨[], .sigma, true⟩
  | .base => ⟨[.lambda], .base, true⟩
  | .first => ⟨[.lambda], .first, true⟩
  | .second => ⟨[.lambda], .second, true⟩
  | .edp => ⟨nine, .edp, false⟩
  | .frag => ⟨nine, .frag, false⟩
  | .cost => ⟨[.eCost, .sdCost, .eAnnual, .lambdaCost, .costDist, .delayDist, .rate], .cost, false⟩
  | .delay => ⟨[.eDelay, .sdDelay, .delayDist], .delay, false⟩
  | .sim => ⟨[.annualCost], .sim, false⟩
  | .entry k => ⟨[.annualCost], .entry k, false⟩

/-- The replace callbacks (second lambda of each `add_callbacks`): same places as `onChange`:
src/relationships.cpp:54-57, src/functions.cpp:291-294 and 300-303, src/relationships.cpp:250-254, 261-265
and 404-408, src/comp_group.cpp:97-108, 124-135, 149-159, 171-177, src/structure.cpp:51-54 and 63-66.
The replace callback of `CompoundEDP`'s second demand function assigns `dependent_rate`, i.e. `first`
(src/relationships.cpp:406). -/
def onReplace : Slot → Reaction
  | .f => ⟨[], .f, true⟩
  | .mu => ⟨[], .mu, true⟩
  | .sigma => ⟨[], .sigma, true⟩
  | .base => ⟨[.lambda], .base, true⟩
  | .first => ⟨[.lambda], .first, true⟩
  | .second => ⟨[.lambda], .first, true⟩
  | .edp => ⟨nine, .edp, false⟩
  | .frag => ⟨nine, .frag, false⟩
  | .cost => ⟨[.eCost, .sdCost, .eAnnual, .lambdaCost, .costDist, .delayDist, .rate], .cost, false⟩
  | .delay => ⟨[.eDelay, .sdDelay, .delayDist], .delay, false⟩
  | .sim => ⟨[.annualCost], .sim, false⟩
  | .entry k => ⟨[.annualCost], .entry k, false⟩

variable {V L X Y : Type}

/-- An object without its callback ids and caches.  `content`: everything fixed at construction (function
parameters, centrality types, damage states, counts, adjustment factors).  `dist₁`, `dist₂`: `collapse`
and `demolition` of an `IM` (src/relationships.h:37-38), rebuild and demolition cost of a `Structure`
(src/structure.h:42-48).  `entries`: `Structure::components` (src/structure.h), the names of the entries. -/
structure Skel (V L : Type) where
  kind : Kind
  content : V
  slots : Slot → Option ℕ
  dist₁ : Option L
  dist₂ : Option L
  entries : List ℕ

/-- An object: its skeleton, the callback ids it remembers for its destructor (`callback_id`,
`mu_function_callback_id`, `base_rate_callback_id`, `edp_callback_id`, ...), and its caches. -/
structure Obj (V L X Y : Type) extends Skel V L where
  ids : Slot → ℕ
  cache : CacheId → X → Option Y

/-- The heap.  `cbs`: the `Replaceable` part of every object.  `next`: addresses from here on were never
used (freed addresses are not reused in the model).  `ub`: a callback has run on a destroyed object. -/
structure World (V L X Y : Type) where
  heap : ℕ → Option (Obj V L X Y)
  next : ℕ
  cbs : Replaceable.World Client
  ub : Bool

/-- The empty heap. -/
def init (V L X Y : Type) : World V L X Y :=
  ⟨fun _ => none, 0, fun _ => Replaceable.RObj.new Client, false⟩

/-! ## Reading: what a cached calculation depends on -/

/-- The unfolding of the objects reachable from an object. -/
inductive Tree (V L : Type) where
  | none
  | node (content : V) (dist₁ dist₂ : Option L) (entries : List ℕ) (child : Slot → Tree V L)

/-- The subtree in a slot. -/
def Tree.child : Tree V L → Slot → Tree V L
  | .none, _ => .none
  | .node _ _ _ _ ch, s => ch s

/-- Unfold the references of an abstract heap to a given depth. -/
def treeOf (A : ℕ → Option (Skel V L)) : ℕ → ℕ → Tree V L
  | 0, _ => .none
  | k + 1, n =>
    match A n with
    | Option.none => .none
    | some o => .node o.content o.dist₁ o.dist₂ o.entries fun s =>
        match o.slots s with
        | Option.none => .none
        | some m => treeOf A k m

/-- All references are unfolded at this depth: structure, component group, EDP, IM or probabilistic
function, deterministic function. -/
def tree (A : ℕ → Option (Skel V L)) (n : ℕ) : Tree V L := treeOf A 6 n

/-- Members read (without going through a cache) by the calculation behind a cache: `CollapseRate_calc`
src/relationships.cpp:153-177, `DemolitionRate_calc` 179-202, `calc_lambda` 269-294 (through the virtual
`P_exceedence`, which for a `CompoundEDP` reads both demand functions, 411-440); src/comp_group.cpp:
`E_cost_IM_calc` 282-324, `SD_ln_cost_IM_calc` 326-384, `E_delay_IM_calc` 437-477, `SD_ln_delay_IM_calc`
479-537, `E_annual_cost_calc` 386-408, `lambda_cost_calc` 410-435, `cost_EDP_dist` 52-60,
`delay_EDP_dist` 61-69, `calc_Rate` 616-644; `calc_AnnualCost` src/structure.cpp:187-231 (the IM; the
groups are read through their caches). -/
def uses : CacheId → List Slot
  | .collapseRate => [.f]
  | .demolitionRate => [.f]
  | .lambda => [.base, .first, .second]
  | .eCost => [.edp, .cost]
  | .sdCost => [.edp, .cost]
  | .eDelay => [.edp, .delay]
  | .sdDelay => [.edp, .delay]
  | .eAnnual => [.edp]
  | .lambdaCost => [.edp]
  | .costDist => [.frag, .cost]
  | .delayDist => [.frag, .delay]
  | .rate => [.edp, .frag]
  | .annualCost => [.sim]

/-- Caches of the same object read by the calculation behind a cache: `E_cost_EDP` and `SD_ln_cost_EDP`
go through `cost_EDP_dist` (src/comp_group.cpp:217-263), `SD_ln_cost_IM_calc` reads `E_cost_IM`
(src/comp_group.cpp:326-384), `E_annual_cost_calc` reads `E_cost_IM` (386-408), `lambda_cost_calc` reads
both through `CostDist_IM` (410-435); likewise for delays (437-537). -/
def ownReads : CacheId → List CacheId
  | .eCost => [.costDist]
  | .sdCost => [.costDist, .eCost]
  | .eDelay => [.delayDist]
  | .sdDelay => [.delayDist, .eDelay]
  | .eAnnual => [.eCost]
  | .lambdaCost => [.eCost, .sdCost]
  | _ => []

/-- Caches of the groups in `Structure::components` read by `calc_AnnualCost`: `TotalCost` and `CostNC`
call `CostDist_IM`, which reads `E_cost_IM` and `SD_ln_cost_IM` (src/structure.cpp:83-148,
src/comp_group.cpp:265-280). -/
def subReads : CacheId → List CacheId
  | .annualCost => [.eCost, .sdCost]
  | _ => []

/-- Nesting depth of the calculations. -/
def rank : CacheId → ℕ
  | .eCost => 1 | .eDelay => 1 | .sdCost => 2 | .sdDelay => 2 | .eAnnual => 2 | .lambdaCost => 3
  | .annualCost => 4
  | _ => 0

theorem rank_own : ∀ c : CacheId, ∀ c' ∈ ownReads c, rank c' < rank c := by
  intro c; cases c <;> simp [ownReads, rank]

theorem rank_sub : ∀ c : CacheId, ∀ c' ∈ subReads c, rank c' < rank c := by
  intro c; cases c <;> simp [subReads, rank]

/-- What the calculation behind `c` can see of the reachable objects: its own object's data and the
subtrees of the members it uses.  `CollapseRate_calc` does not read `demolition`
(src/relationships.cpp:153-177). -/
def mask (c : CacheId) : Tree V L → Tree V L
  | .none => .none
  | .node v d₁ d₂ es ch =>
    .node v d₁ (if c = .collapseRate then none else d₂) es fun s => if s ∈ uses c then ch s else .none

/-- The calculations (`..._calc` functions) as arbitrary functions of what they read: the masked tree, the
listed caches of the same object, and the listed caches of the groups in the component list (by entry
name; `none` if there is no such entry). -/
def Calc (V L X Y : Type) : Type :=
  (c : CacheId) → Tree V L → ((c' : CacheId) → c' ∈ ownReads c → X → Y) →
    (ℕ → (c' : CacheId) → c' ∈ subReads c → X → Option Y) → X → Y

/-- The skeletons of a heap. -/
def abs (h : ℕ → Option (Obj V L X Y)) : ℕ → Option (Skel V L) := fun n => (h n).map Obj.toSkel

/-- The cache contents of an object (nothing for a destroyed one). -/
def cacheAt (h : ℕ → Option (Obj V L X Y)) (n : ℕ) (c : CacheId) (x : X) : Option Y :=
  (h n).bind fun o => o.cache c x

/-- The group in an entry of the component list. -/
def entryOf (h : ℕ → Option (Obj V L X Y)) (n k : ℕ) : Option ℕ :=
  (h n).bind fun o => if k ∈ o.entries then o.slots (.entry k) else none

/-- Reading a cached quantity: the stored value if there is one, otherwise the calculation, which reads
further cached quantities the same way (src/caching.h:144-282 for `CachedFunction::operator()`,
src/caching.h:415-482 for `CachedValue::operator()`). -/
def view (C : Calc V L X Y) (h : ℕ → Option (Obj V L X Y)) (n : ℕ) (c : CacheId) (x : X) : Y :=
  match cacheAt h n c x with
  | some y => y
  | none => C c (mask c (tree (abs h) n)) (fun c' _ x' => view C h n c' x')
      (fun k c' _ x' => (entryOf h n k).map fun m => view C h m c' x') x
termination_by rank c
decreasing_by
  · exact rank_own c c' ‹_›
  · exact rank_sub c c' ‹_›

/-! ## Callbacks -/

/-- `ClearCache` on the listed caches (src/caching.h:287-289, 487-489). -/
def Obj.clear (cs : List CacheId) (o : Obj V L X Y) : Obj V L X Y :=
  { o with cache := fun c x => if c ∈ cs then none else o.cache c x }

/-- Replace one object of the heap. -/
def World.set (w : World V L X Y) (n : ℕ) (o : Obj V L X Y) : World V L X Y :=
  { w with heap := Function.update w.heap n (some o) }

/-- `notify_change` (src/replaceable.h:98-104): run the change callbacks of all clients, each of which
clears its caches and may notify in turn.  The nesting is bounded by `fuel` (the classes do not permit
cycles; a cycle would deadlock on the object's lock in the code).  A callback whose object has been
destroyed is undefined behaviour: it sets `ub`. -/
def notify : ℕ → World V L X Y → ℕ → World V L X Y
  | 0, w, _ => w
  | k + 1, w, n =>
    (Replaceable.notifyChange w.cbs n).foldl (fun w ev =>
      match ev with
      | .changed c =>
        match w.heap c.node with
        | none => { w with ub := true }
        | some o =>
          let w₁ := w.set c.node (o.clear (onChange c.slot).clears)
          if (onChange c.slot).notifies then notify k w₁ c.node else w₁
      | .replaced _ _ => w) w

/-- Nesting bound handed to `notify`; the deepest chain has three steps (deterministic function, IM or
probabilistic function, EDP, component group). -/
def depth : ℕ := 4

/-- Assign a member. -/
def Obj.setSlot (s : Slot) (m : ℕ) (o : Obj V L X Y) : Obj V L X Y :=
  { o with slots := fun s' => if s' = s then some m else o.slots s' }

/-- Run a replace callback with the new object `o'`: clear, assign, notify. -/
def runReplaced (w : World V L X Y) (c : Client) (o' : ℕ) : World V L X Y :=
  match w.heap c.node with
  | none => { w with ub := true }
  | some o =>
    let r := onReplace c.slot
    let w₁ := w.set c.node ((o.clear r.clears).setSlot r.target o')
    if r.notifies then notify depth w₁ c.node else w₁

/-- `replace` (src/replaceable.h:106-114) with the callbacks it runs. -/
def replace (w : World V L X Y) (o o' : ℕ) : World V L X Y :=
  let r := Replaceable.replaceObj w.cbs o o'
  r.2.foldl (fun w ev =>
    match ev with
    | .changed _ => w
    | .replaced c m => runReplaced w c m) { w with cbs := r.1 }

/-! ## Operations -/

/-- Register the client for slot `s` of object `n` with object `t` and remember the id
(`add_callbacks`, src/replaceable.h:82-90). -/
def register (w : World V L X Y) (n : ℕ) (s : Slot) (t : ℕ) : World V L X Y :=
  let r := Replaceable.addCallbacks w.cbs t ⟨n, s⟩
  let w₁ := { w with cbs := r.1 }
  match w.heap n with
  | none => w₁
  | some o => w₁.set n
      { o with slots := fun s' => if s' = s then some t else o.slots s'
               ids := fun s' => if s' = s then r.2 else o.ids s' }

/-- A constructor: allocate an object with empty caches, then set and register its members in order:
`ProbabilisticFn` src/functions.cpp:281-304, `IM` src/relationships.cpp:39-58, `EDP` 236-267,
`CompoundEDP` 391-409, `CompGroup` src/comp_group.cpp:25-179 (cost and delay only if not NULL). -/
def construct (w : World V L X Y) (k : Kind) (v : V) (deps : List (Slot × ℕ)) : World V L X Y :=
  let n := w.next
  let o : Obj V L X Y := ⟨⟨k, v, fun _ => none, none, none, []⟩, fun _ => 0, fun _ _ => none⟩
  deps.foldl (fun w d => register w n d.1 d.2) { w.set n o with next := n + 1 }

/-- The members whose callbacks a destructor removes, in order: `~ProbabilisticFn` src/functions.cpp:306-310,
`~IM` src/relationships.h:43-45, `~CompoundEDP` then `~EDP` src/relationships.h:269-273 and 184-187 (the
second removal of the same ids is repeated here as in the code), `~CompGroup`
src/comp_group.cpp:202-215; `Structure` removes none (src/structure.h:23). -/
def dtorSlots : Kind → List Slot
  | .prob => [.mu, .sigma]
  | .im => [.f]
  | .edp => [.base, .first, .second, .base, .first]
  | .cg => [.edp, .frag, .cost, .delay]
  | _ => []

/-- Destruction of an object (last `shared_ptr` dropped). -/
def destroy (w : World V L X Y) (n : ℕ) : World V L X Y :=
  match w.heap n with
  | none => w
  | some o =>
    { w with
      cbs := (dtorSlots o.kind).foldl (fun cbs s =>
        match o.slots s with
        | none => cbs
        | some t => Replaceable.removeCallbacks cbs t (o.ids s)) w.cbs
      heap := Function.update w.heap n none }

/-- `IM::SetCollapse` (src/relationships.h:74-86): clears `CollapseRate`, assigns, notifies. -/
def setCollapse (w : World V L X Y) (n : ℕ) (d : Option L) : World V L X Y :=
  match w.heap n with
  | none => w
  | some o => notify depth (w.set n { o.clear [.collapseRate] with dist₁ := d }) n

/-- `IM::SetDemolition` (src/relationships.h:106-118): clears `DemolitionRate`, assigns, notifies. -/
def setDemolition (w : World V L X Y) (n : ℕ) (d : Option L) : World V L X Y :=
  match w.heap n with
  | none => w
  | some o => notify depth (w.set n { o.clear [.demolitionRate] with dist₂ := d }) n

/-- `CompGroup::getIM` (src/comp_group.h:197): the `base_rate` of its EDP. -/
def getIM (A : ℕ → Option (Skel V L)) (g : ℕ) : Option ℕ :=
  (A g).bind fun o => (o.slots .edp).bind fun e => (A e).bind fun o' => o'.slots .base

/-- `Structure::AddCompGroup` (src/structure.cpp:43-70): with no components so far, take over the group's
IM and register with it; refuse a group with another IM (`throw`, line 56: nothing further happens);
register an entry, append it, clear `AnnualCost`. -/
def addComp (w : World V L X Y) (n g : ℕ) : World V L X Y :=
  match w.heap n, getIM (abs w.heap) g with
  | some o, some i =>
    let w₁ := if o.entries = [] then register w n .sim i else w
    if (w₁.heap n).bind (fun o => o.slots .sim) = some i then
      let k := w₁.next
      let w₂ := register { w₁ with next := k + 1 } n (.entry k) g
      match w₂.heap n with
      | none => w₂
      | some o₂ => w₂.set n { o₂.clear [.annualCost] with entries := o₂.entries ++ [k] }
    else w₁
  | _, _ => w

/-- `Structure::RemoveCompGroup` (src/structure.cpp:72-81): erase the first entry holding the group; the
callbacks stay registered and `AnnualCost` is not cleared. -/
def removeComp (w : World V L X Y) (n g : ℕ) : World V L X Y :=
  match w.heap n with
  | none => w
  | some o =>
    w.set n { o with entries := o.entries.eraseP (fun k => o.slots (.entry k) = some g) }

/-- `Structure::setRebuildCost` (src/structure.h:42): assigns only. -/
def setRebuild (w : World V L X Y) (n : ℕ) (d : Option L) : World V L X Y :=
  match w.heap n with
  | none => w
  | some o => w.set n { o with dist₁ := d }

/-- `Structure::setDemolitionCost` (src/structure.h:45): assigns only. -/
def setDemoCost (w : World V L X Y) (n : ℕ) (d : Option L) : World V L X Y :=
  match w.heap n with
  | none => w
  | some o => w.set n { o with dist₂ := d }

/-- Queries memoise.  Evaluating cached quantities of `n` stores the values read for some set of arguments
(`sel`; which arguments an integration visits is not fixed by the model).  A query that reads the caches of
several objects is a sequence of these. -/
def memo (C : Calc V L X Y) (w : World V L X Y) (n : ℕ) (sel : CacheId → X → Bool) : World V L X Y :=
  match w.heap n with
  | none => w
  | some o =>
    let stored := fun c x =>
      if sel c x = true ∧ c.owner = o.kind then some (view C w.heap n c x) else o.cache c x
    w.set n { o with cache := stored }

/-- The operations of a client program. -/
inductive Op (V L X : Type) where
  | new (k : Kind) (v : V) (deps : List (Slot × ℕ))
  | replace (o o' : ℕ)
  | setCollapse (n : ℕ) (d : Option L)
  | setDemolition (n : ℕ) (d : Option L)
  | addComp (n g : ℕ)
  | removeComp (n g : ℕ)
  | setRebuild (n : ℕ) (d : Option L)
  | setDemoCost (n : ℕ) (d : Option L)
  | destroy (n : ℕ)
  | query (n : ℕ) (sel : CacheId → X → Bool)

/-- One operation. -/
def step (C : Calc V L X Y) (w : World V L X Y) : Op V L X → World V L X Y
  | .new k v deps => construct w k v deps
  | .replace o o' => replace w o o'
  | .setCollapse n d => setCollapse w n d
  | .setDemolition n d => setDemolition w n d
  | .addComp n g => addComp w n g
  | .removeComp n g => removeComp w n g
  | .setRebuild n d => setRebuild w n d
  | .setDemoCost n d => setDemoCost w n d
  | .destroy n => destroy w n
  | .query n sel => memo C w n sel

/-- A history of operations. -/
def run (C : Calc V L X Y) (w : World V L X Y) (ops : List (Op V L X)) : World V L X Y :=
  ops.foldl (step C) w

/-- The member lists the constructors take. -/
inductive CtorDeps : Kind → List (Slot × ℕ) → Prop
  | det : CtorDeps .det []
  | frag : CtorDeps .frag []
  | loss : CtorDeps .loss []
  | str : CtorDeps .str []
  | prob (m s : ℕ) : CtorDeps .prob [(.mu, m), (.sigma, s)]
  | im (d : ℕ) : CtorDeps .im [(.f, d)]
  | edp (i p : ℕ) : CtorDeps .edp [(.base, i), (.first, p)]
  | compound (i p q : ℕ) : CtorDeps .edp [(.base, i), (.first, p), (.second, q)]
  | cg (e f : ℕ) (c d : Option ℕ) : CtorDeps .cg
      ([(.edp, e), (.frag, f)] ++ (c.map fun c => (Slot.cost, c)).toList ++
        (d.map fun d => (Slot.delay, d)).toList)

/-- The kind of a live object. -/
def kindAt (w : World V L X Y) (n : ℕ) : Option Kind := (w.heap n).map fun o => o.kind

/-- What the types and `shared_ptr` guarantee about an operation: arguments are live objects of the right
class, and an object is destroyed only when no live object refers to it. -/
def Allowed (w : World V L X Y) : Op V L X → Prop
  | .new k _ deps => CtorDeps k deps ∧ ∀ d ∈ deps, kindAt w d.2 = some d.1.target
  | .replace o o' => ∃ k, k ≠ Kind.str ∧ kindAt w o = some k ∧ kindAt w o' = some k
  | .setCollapse n _ => kindAt w n = some .im
  | .setDemolition n _ => kindAt w n = some .im
  | .addComp n g => kindAt w n = some .str ∧ kindAt w g = some .cg
  | .removeComp n g => kindAt w n = some .str ∧ kindAt w g = some .cg
  | .setRebuild n _ => kindAt w n = some .str
  | .setDemoCost n _ => kindAt w n = some .str
  | .destroy n => (w.heap n).isSome ∧ ∀ m o s, w.heap m = some o → o.slots s ≠ some n
  | .query n _ => (w.heap n).isSome

/-- Every operation of the history satisfies `P` in the state it is applied to. -/
def Along (C : Calc V L X Y) (P : World V L X Y → Op V L X → Prop) :
    World V L X Y → List (Op V L X) → Prop
  | _, [] => True
  | w, op :: ops => P w op ∧ Along C P (step C w op) ops

end Slat.Graph
