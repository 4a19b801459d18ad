import Verif.Common
import Mathlib.Data.List.Forall2
import Mathlib.Data.Rat.Defs

/-!
# Configurations in the analysis

`Analysis/MPCDAnalysis/Configuration.py`. The data structures come from the library `pylibconfig2`, which is not part
of the repository. Of it the following is assumed: groups are dictionaries of settings (`keys`, `get`, `set`,
`__dict__`), lists and arrays are Python lists, the whole configuration is a group with, in addition, a method
`lookup` that follows a path and results in `None` if there is no such setting.

Configurations are values here: that a configuration assigned to a setting of another one is shared between both is
not represented.
-/

namespace OpenMPCD.Config

/-- The part of a path between dots, by how the code distinguishes strings. -/
inductive Comp
  /-- The empty string. -/
  | empty
  /-- A string that does not both start with `[` and end with `]`. -/
  | name (s : String)
  /-- `[`, the decimal representation of a number, `]`. -/
  | index (i : ℤ)
  /-- `[`, another string `int` converts to a number, such as `01`, `]`. -/
  | looseIndex (i : ℤ) (s : String)
  /-- `[`, a string that `int` does not convert, `]`. -/
  | noIndex (s : String)
  deriving DecidableEq

/-- Setting values. Infinities and not-a-number cannot be written in configurations. -/
inductive Scalar
  | str (s : String)
  | bool (b : Bool)
  | int (i : ℤ)
  | float (q : ℚ)
  deriving DecidableEq

/-- Settings. `list true`: array. -/
inductive Value
  | scalar (s : Scalar)
  | group (fields : List (Comp × Value))
  | list (array : Bool) (items : List Value)

/-- `dict.get`. -/
def dictGet (d : List (Comp × Value)) (k : Comp) : Option Value :=
  match d with
  | [] => none
  | (k', v) :: d => if k' = k then some v else dictGet d k

/-- Assignment to an item of a dictionary. -/
def dictSet (d : List (Comp × Value)) (k : Comp) (v : Value) : List (Comp × Value) :=
  match d with
  | [] => [(k, v)]
  | (k', v') :: d => if k' = k then (k', v) :: d else (k', v') :: dictSet d k v

/-- `l[i]` in Python: negative indices count from the end. -/
def pyIndex (l : List Value) (i : ℤ) : Option Value :=
  if 0 ≤ i then l[i.toNat]? else if 0 ≤ i + l.length then l[(i + l.length).toNat]? else none

/-- `l[i] = v` in Python. -/
def pySetIndex (l : List Value) (i : ℤ) (v : Value) : Except PyErr (List Value) :=
  if 0 ≤ i then (if i.toNat < l.length then .ok (l.set i.toNat v) else .error .indexError)
  else if 0 ≤ i + l.length then .ok (l.set (i + l.length).toNat v) else .error .indexError

/-- `lookup` of `pylibconfig2`, see above. -/
def lookup : Value → List Comp → Option Value
  | v, [] => some v
  | .group fields, c :: cs => (dictGet fields c).bind fun v => lookup v cs
  | .list _ items, .index i :: cs => (if 0 ≤ i then items[i.toNat]? else none).bind fun v => lookup v cs
  | _, _ => none

/-- `__getitem__` of a list (`Analysis/MPCDAnalysis/Configuration.py:370-392`), of a group (`356-369`), and what
follows; `path` is not empty. The key ends up in the exception only. -/
def getFrom : Value → List Comp → Except PyErr Value
  | v, [] => .ok v
  | .list _ items, c :: cs =>
    match c with
    | .empty => .error .indexError
    | .name _ => .error .keyError
    | .noIndex _ => .error .valueError
    | .looseIndex _ _ => .error .keyError
    | .index i =>
      match pyIndex items i with
      | none => .error .indexError
      | some (.scalar s) => .ok (.scalar s)
      | some v => getFrom v cs
  | .group fields, c :: cs =>
    match dictGet fields c with
    | none => .error .keyError
    | some v => getFrom v cs
  | .scalar _, _ :: _ => .error .attributeError

/-- A `Configuration` object: the whole configuration, or a part of it. -/
structure Conf where
  root : Bool
  value : Value

/-- `__getitem__` (`Analysis/MPCDAnalysis/Configuration.py:332-402`). The result is a `Configuration` unless it is a
scalar. -/
def Conf.getitem (c : Conf) (path : List Comp) : Except PyErr Value :=
  if c.root then
    match lookup c.value path with
    | none => .error .keyError
    | some v => .ok v
  else getFrom c.value path

/-- `__contains__` for groups (`Analysis/MPCDAnalysis/Configuration.py:508-516`): lists and scalars have no method
`keys`. -/
def containsGroup : Value → List Comp → Except PyErr Bool
  | _, [] => .ok true
  | .group fields, c :: cs =>
    match dictGet fields c with
    | none => .ok false
    | some v => containsGroup v cs
  | _, _ :: _ => .error .attributeError

/-- `__contains__` (`Analysis/MPCDAnalysis/Configuration.py:487-535`). -/
def Conf.contains (c : Conf) (path : List Comp) : Except PyErr Bool :=
  if c.root then .ok (lookup c.value path).isSome
  else match c.value, path with
    | .group fields, path => containsGroup (.group fields) path
    | .list _ items, .index i :: _ => .ok (pyIndex items i).isSome
    | .list _ _, .noIndex _ :: _ => .error .valueError
    | .list _ _, .empty :: _ => .error .indexError
    | .list _ _, _ => .error .keyError
    | .scalar _, _ => .error .exception

/-- The end of `__setitem__` (`Analysis/MPCDAnalysis/Configuration.py:431-457`): setting `c` of `group`. In the case
of a single component (`436-437`) arrays have no method `set` either. -/
def setLast (single : Bool) (v : Value) (c : Comp) (value : Value) : Except PyErr Value :=
  match v with
  | .group fields => .ok (.group (dictSet fields c value))
  | .list true items =>
    if single then .error .attributeError
    else match c with
      | .index i => (pySetIndex items i value).map (.list true)
      | .looseIndex i _ => (pySetIndex items i value).map (.list true)
      | .noIndex _ => .error .valueError
      | .empty => .error .keyError
      | .name _ => .error .keyError
  | .list false _ => .error .attributeError
  | .scalar _ => .error .attributeError

/-- `__setitem__` from a given part of the configuration on (`Analysis/MPCDAnalysis/Configuration.py:435-457`),
with `createGroup` (`43-71`) for a single component. Applied to a scalar: `component in group` raises (`TypeError`
for numbers; for strings the test whether the component occurs in the string takes place and what follows raises, not
distinguished here). -/
def setPath : Bool → Value → List Comp → Value → Except PyErr Value
  | _, _, [], _ => .error .keyError
  | single, v, [c], value => setLast single v c value
  | _, .group fields, c :: c' :: cs, value =>
    match dictGet fields c with
    | some w => (setPath false w (c' :: cs) value).map fun w' => .group (dictSet fields c w')
    | none =>
      match c with
      | .index _ | .looseIndex _ _ | .noIndex _ => .error .exception
      | .empty => .error .keyError
      | .name s =>
        if s.toList.head? = some '[' then .error .keyError
        else (setPath false (.group []) (c' :: cs) value).map fun w' => .group (dictSet fields c w')
  | _, .list a items, c :: c' :: cs, value =>
    match c with
    | .index i =>
      match pyIndex items i with
      | some w =>
        match setPath false w (c' :: cs) value with
        | .ok w' => (pySetIndex items i w').map (.list a)
        | .error e => .error e
      | none => .error .exception
    | .noIndex _ => .error .valueError
    | .empty => .error .keyError
    | _ => .error .keyError
  | _, .scalar _, _ :: _ :: _, _ => .error .typeError

/-- `__setitem__` (`Analysis/MPCDAnalysis/Configuration.py:405-457`). -/
def Conf.setitem (c : Conf) (path : List Comp) (value : Value) : Except PyErr Conf :=
  if Comp.empty ∈ path then .error .keyError
  else (setPath true c.value path value).map fun v => ⟨c.root, v⟩

/-- Python's `==` for setting values: numbers are compared by value, whatever their type. -/
def Scalar.number : Scalar → Option ℚ
  | .str _ => none
  | .bool b => some (if b then 1 else 0)
  | .int i => some i
  | .float q => some q

/-- `==`, with translated strings, as applied to the settings of groups
(`Analysis/MPCDAnalysis/Configuration.py:155-164`). -/
def scalarEqGroup (tr : String → String) : Scalar → Scalar → Bool
  | .str s, .str t => tr s = tr t
  | .str _, _ => false
  | _, .str _ => false
  | a, b => a.number = b.number

/-- As applied to the elements of lists: types are compared first
(`Analysis/MPCDAnalysis/Configuration.py:128-142`). -/
def scalarEqList (tr : String → String) : Scalar → Scalar → Bool
  | .str s, .str t => tr s = tr t
  | .bool a, .bool b => a = b
  | .int a, .int b => a = b
  | .float a, .float b => a = b
  | _, _ => false

mutual
/-- `isEquivalent` (`Analysis/MPCDAnalysis/Configuration.py:74-172`) on configurations that are no scalars; `tr`: all
translators applied after one another. -/
def isEquivalent (tr : String → String) : Value → Value → Bool
  | .list _ xs, .list _ ys => xs.length = ys.length && itemsEquivalent tr xs ys
  | .list _ _, _ => false
  | _, .list _ _ => false
  | .group fs, .group gs => fieldsEquivalent tr fs gs && gs.all fun p => (dictGet fs p.1).isSome
  | _, _ => false
/-- The loop over the elements of a list. -/
def itemsEquivalent (tr : String → String) : List Value → List Value → Bool
  | [], _ => true
  | .scalar s :: xs, .scalar t :: ys => scalarEqList tr s t && itemsEquivalent tr xs ys
  | .scalar _ :: _, _ => false
  | .group fs :: xs, y :: ys =>
    (match y with
      | .scalar _ => false
      | w => isEquivalent tr (.group fs) w) && itemsEquivalent tr xs ys
  | .list a zs :: xs, y :: ys =>
    (match y with
      | .scalar _ => false
      | w => isEquivalent tr (.list a zs) w) && itemsEquivalent tr xs ys
  | _ :: _, [] => false
/-- The loop over the settings of a group. -/
def fieldsEquivalent (tr : String → String) : List (Comp × Value) → List (Comp × Value) → Bool
  | [], _ => true
  | (k, .scalar s) :: fs, gs =>
    (match dictGet gs k with
      | some (.scalar t) => scalarEqGroup tr s t
      | _ => false) && fieldsEquivalent tr fs gs
  | (k, .group hs) :: fs, gs =>
    (match dictGet gs k with
      | none => false
      | some (.scalar _) => false
      | some w => isEquivalent tr (.group hs) w) && fieldsEquivalent tr fs gs
  | (k, .list a zs) :: fs, gs =>
    (match dictGet gs k with
      | none => false
      | some (.scalar _) => false
      | some w => isEquivalent tr (.list a zs) w) && fieldsEquivalent tr fs gs
end

mutual
/-- `getAsFlatDictionary` (`Analysis/MPCDAnalysis/Configuration.py:184-224`); keys are given by their components
(which do not contain dots), values are `none` for empty groups and lists. -/
def flat : Value → List (List Comp × Option Value)
  | .scalar _ => []
  | .list true items => items.mapIdx fun i v => ([.index i], some v)
  | .group fields => flatFields fields
  | .list false items => flatItems 0 items
/-- The loop over settings. -/
def flatFields : List (Comp × Value) → List (List Comp × Option Value)
  | [] => []
  | (k, .scalar s) :: fs => ([k], some (.scalar s)) :: flatFields fs
  | (k, .group hs) :: fs =>
    (if (flat (.group hs)).isEmpty then [([k], none)] else (flat (.group hs)).map fun p => (k :: p.1, p.2)) ++
      flatFields fs
  | (k, .list a zs) :: fs =>
    (if (flat (.list a zs)).isEmpty then [([k], none)] else (flat (.list a zs)).map fun p => (k :: p.1, p.2)) ++
      flatFields fs
/-- The loop over the elements of a list. -/
def flatItems : ℕ → List Value → List (List Comp × Option Value)
  | _, [] => []
  | i, .scalar s :: xs => ([.index i], some (.scalar s)) :: flatItems (i + 1) xs
  | i, .group hs :: xs =>
    (if (flat (.group hs)).isEmpty then [([.index i], none)]
      else (flat (.group hs)).map fun p => (.index i :: p.1, p.2)) ++ flatItems (i + 1) xs
  | i, .list a zs :: xs =>
    (if (flat (.list a zs)).isEmpty then [([.index i], none)]
      else (flat (.list a zs)).map fun p => (.index i :: p.1, p.2)) ++ flatItems (i + 1) xs
end

/-- The loop of `createGroup` (`Analysis/MPCDAnalysis/Configuration.py:59-66`) for names as components. -/
def createFrom : Value → List Comp → Except PyErr Value
  | v, [] => .ok v
  | .group fields, c :: cs =>
    let w := (dictGet fields c).getD (.group [])
    (createFrom w cs).map fun w' => .group (dictSet fields c w')
  | .list _ _, _ :: _ => .error .keyError
  | .scalar _, _ :: _ => .error .exception

/-- `createGroup` (`Analysis/MPCDAnalysis/Configuration.py:43-71`); the second part of the result is what is returned. -/
def Conf.createGroup (c : Conf) (path : List Comp) : Conf × Except PyErr Value :=
  match c.contains path with
  | .error e => (c, .error e)
  | .ok true =>
    match c.value, path with
    | .group fields, [p] =>
      match dictGet fields p with
      | some (.group hs) => (c, .ok (.group hs))
      | _ => (c, .error .exception)
    -- `get` is called with the whole path as the name of a setting
    | _, _ => (c, .error .exception)
  | .ok false =>
    match createFrom c.value path with
    | .error e => (c, .error e)
    | .ok v => (⟨c.root, v⟩, Conf.getitem ⟨c.root, v⟩ path)

/-- `dict.__delitem__` where the item exists. -/
def dictDel (d : List (Comp × Value)) (k : Comp) : List (Comp × Value) := d.filter fun p => p.1 ≠ k

/-- `__delitem__` for settings that exist (`Analysis/MPCDAnalysis/Configuration.py:477-484`). Lists and arrays have no
settings in `__dict__`. -/
def delPath : Value → List Comp → Except PyErr Value
  | .group _, [] => .error .keyError
  | .group fields, [c] => if (dictGet fields c).isSome then .ok (.group (dictDel fields c)) else .error .keyError
  | .group fields, c :: cs =>
    match dictGet fields c with
    | none => .error .keyError
    | some w => (delPath w cs).map fun w' => .group (dictSet fields c w')
  | .list _ _, [_] => .error .keyError
  | .list a items, .index i :: cs =>
    match pyIndex items i with
    | none => .error .indexError
    | some w =>
      match delPath w cs with
      | .error e => .error e
      | .ok w' => (pySetIndex items i w').map (.list a)
  | .list _ _, _ => .error .keyError
  | .scalar _, _ => .error .attributeError

/-- `__delitem__` (`Analysis/MPCDAnalysis/Configuration.py:460-484`) of the whole configuration. -/
def Conf.delitem (c : Conf) (path : List Comp) : Except PyErr Conf :=
  match c.contains path with
  | .error e => .error e
  | .ok false => .ok c
  | .ok true => (delPath c.value path).map fun v => ⟨c.root, v⟩

/-- `getDifferencesAsFlatDictionary` (`Analysis/MPCDAnalysis/Configuration.py:227-262`), with the comparison `!=` of
values given by `ne`. -/
def differences (ne : Option Value → Option Value → Bool) (v w : Value) :
    List (List Comp × Option (Option Value) × Option (Option Value)) :=
  let find : List (List Comp × Option Value) → List Comp → Option (Option Value) := fun d k =>
    (d.find? fun p => p.1 = k).map Prod.snd
  (flat v).filterMap (fun p =>
    match find (flat w) p.1 with
    | none => some (p.1, some p.2, none)
    | some y => if ne p.2 y then some (p.1, some p.2, some y) else none) ++
  (flat w).filterMap (fun p =>
    match find (flat v) p.1 with
    | none => some (p.1, none, some p.2)
    | some _ => none)

end OpenMPCD.Config
