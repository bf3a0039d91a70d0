import Mathlib.Order.Basic
import Mathlib.Data.List.Basic

/-!
# Model of `Structure::ComponentsByEDP` and `ComponentsByFragility` (src/pyslatcore.cpp:817-865)

The two functions differ only in the key (`get_EDP` or `get_Fragility`).  Keys are shared pointers; `std::map`
and `std::set` order them by address (`LinearOrder K`).
-/

namespace Slat.Grouping

variable {K C : Type} [LinearOrder K]

/-- `mapping[key].push_back(component)` (src/pyslatcore.cpp:825, 850): `operator[]` inserts an empty vector
under a new key. -/
def mapPush (m : List (K × List C)) (k : K) (c : C) : List (K × List C) :=
  match m with
  | [] => [(k, [c])]
  | (k', cs) :: m => if k' = k then (k', cs ++ [c]) :: m else (k', cs) :: mapPush m k c

/-- `mapping[*key]` when read (src/pyslatcore.cpp:834, 859): an absent key would yield an empty vector. -/
def mapGet (m : List (K × List C)) (k : K) : List C :=
  match m with
  | [] => []
  | (k', cs) :: m => if k' = k then cs else mapGet m k

/-- `keys.insert(key)` (src/pyslatcore.cpp:826, 851): ordered, no duplicates. -/
def setInsert (k : K) : List K → List K
  | [] => [k]
  | k' :: ks => if k < k' then k :: k' :: ks else if k' < k then k' :: setInsert k ks else k' :: ks

/-- The first loop (src/pyslatcore.cpp:824-827, 849-852). -/
def collect (key : C → K) (m : List (K × List C)) (ks : List K) : List C → List (K × List C) × List K
  | [] => (m, ks)
  | c :: cs => collect key (mapPush m (key c) c) (setInsert (key c) ks) cs

/-- The whole function (src/pyslatcore.cpp:817-840, 842-865).  Each element is wrapped in a new
`CompGroup` object; the model returns the wrapped components. -/
def components (key : C → K) (cs : List C) : List (List C) :=
  let (m, ks) := collect key [] [] cs
  ks.map (mapGet m)

end Slat.Grouping
