import Verif.Stats.Model
import Mathlib.Data.List.Sort

/-!
# Model of `MPCDAnalysis.OnTheFlyStatisticsCollection`
-/

namespace OpenMPCD.Collection

open Stats

variable {κ : Type} [LinearOrder κ] {K : Type} [Field K] [LinearOrder K]

/-- `self._data`: a dictionary, as the list of its items in insertion order.
`Analysis/MPCDAnalysis/OnTheFlyStatisticsCollection.py:8-13`. Simplification: keys are of one type
with a linear order. -/
abbrev Coll (κ K : Type) := List (κ × OTFS K)

/-- Constructor, `OnTheFlyStatisticsCollection.py:8-13`. -/
def init : Coll κ K := []

/-- A value in the dictionary given to `addData`: a number, an instance of `OnTheFlyStatistics`, or
something else (rejected). -/
inductive Val (K : Type) where
  | num (x : K)
  | sample (s : OTFS K)
  | other

/-- `self._data[key]`. -/
def get (c : Coll κ K) (key : κ) : Option (OTFS K) := (c.find? fun p => p.1 = key).map Prod.snd

/-- Storing a value at a key of a dictionary: replace in place, or append. -/
def put (c : Coll κ K) (key : κ) (s : OTFS K) : Coll κ K :=
  match c with
  | [] => [(key, s)]
  | p :: c => if p.1 = key then (key, s) :: c else p :: put c key s

/-- The statistics at a key, created if absent, `OnTheFlyStatisticsCollection.py:38-39`. -/
def current (c : Coll κ K) (key : κ) : OTFS K := (get c key).getD fresh

/-- Lines 34-44 of `addData` (`OnTheFlyStatisticsCollection.py`): update of the statistics at one key. -/
def update (c : Coll κ K) (key : κ) (v : Val K) : Except PyErr (Coll κ K) :=
  match v with
  | .num x => .ok (put c key ((current c key).addDatum x))
  | .sample s => do
    let u ← (current c key).mergeSample s
    .ok (put c key u)
  | .other => .error .typeError

/-- `addData`, `OnTheFlyStatisticsCollection.py:16-44`; `items` are the items of the given dictionary in
iteration order. Returns the collection after the call and the outcome. Simplification: the
argument is a dictionary. -/
def addData (c : Coll κ K) : List (κ × Val K) → Coll κ K × Except PyErr Unit
  | [] => (c, .ok ())
  | (key, v) :: items =>
    match update c key v with
    | .error e => (c, .error e)
    | .ok c' => addData c' items

/-- `sorted(self._data)`. -/
def sortedKeys (c : Coll κ K) : List κ := (c.map Prod.fst).insertionSort (· ≤ ·)

/-- Looking up a list of keys; `KeyError` for a missing one. -/
def lookupAll (c : Coll κ K) : List κ → Except PyErr (List (κ × OTFS K))
  | [] => .ok []
  | k :: ks =>
    match get c k with
    | none => .error .keyError
    | some s => do
      let rest ← lookupAll c ks
      .ok ((k, s) :: rest)

/-- `getOrderedData`, `OnTheFlyStatisticsCollection.py:55-70`; the result is the list of items of the
returned `OrderedDict`. -/
def getOrderedData (c : Coll κ K) : Except PyErr (List (κ × OTFS K)) := lookupAll c (sortedKeys c)

/-- The loop at `OnTheFlyStatisticsCollection.py:97-104`: the keys that are kept. -/
def keepLoop (n : ℤ) : ℤ → List κ → List κ
  | _, [] => []
  | skipped, k :: ks =>
    if skipped + 1 ≠ n then keepLoop n (skipped + 1) ks
    else k :: keepLoop n 0 ks

/-- `keepOnlyEveryNthDataPoint`, `OnTheFlyStatisticsCollection.py:73-104`. Simplification: the argument
is an `int`. -/
def keepOnlyEveryNthDataPoint (c : Coll κ K) (n : ℤ) : Coll κ K × Except PyErr Unit :=
  if n ≤ 0 then (c, .error .valueError)
  else if n = 1 then (c, .ok ())
  else match lookupAll c (keepLoop n 0 (sortedKeys c)) with
    | .ok c' => (c', .ok ())
    | .error e => (c, .error e)

end OpenMPCD.Collection
