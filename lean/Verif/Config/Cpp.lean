import Verif.Common
import Mathlib.Data.List.Infix
import Mathlib.Data.Int.Basic
import Mathlib.Tactic.Ring

/-!
# The configuration of the simulation (C94, C95)

`include/OpenMPCD/Configuration.hpp`. The settings are stored by the library `libconfig`, which is not part of the
repository. Of it the following is assumed (`libconfig` 1.5, without automatic conversions): a group has children with
names, which start with a letter or `*` and go on with letters, digits, `*`, `_` and `-`; paths are followed from group to
group, empty parts of paths being skipped; scalars are read and assigned with exactly their type, except that a setting of
type `int` may be read as an unsigned number, which is zero if the setting is negative.

Simplifications: the characters `:`, `/` and `[`, which `libconfig` also treats specially, do not occur in paths;
floating-point numbers are of an abstract type; the library is compiled without `OPENMPCD_DEBUG`.
-/

set_option linter.unusedSectionVars false
set_option linter.unusedSimpArgs false

namespace OpenMPCD.Config.Cpp

variable {F : Type}

/-! ## Model -/

abbrev Str := List Char

/-- The types of scalar settings
(`include/OpenMPCD/ImplementationDetails/Configuration/getSettingTypeString.hpp:28-62`). -/
inductive Kind
  | bool | int | int64 | float | string
  deriving DecidableEq

/-- Scalar settings. -/
inductive Value (F : Type)
  | bool (b : Bool)
  | int (i : ℤ)
  | int64 (i : ℤ)
  | float (x : F)
  | string (s : Str)

def Value.kind : Value F → Kind
  | .bool _ => .bool
  | .int _ => .int
  | .int64 _ => .int64
  | .float _ => .float
  | .string _ => .string

/-- `libconfig::Setting`. -/
inductive Node (F : Type)
  | scalar (v : Value F)
  | group (children : List (Str × Node F))
  | list (elements : List (Node F))
  | array (elements : List (Value F))

/-- The exceptions. -/
inductive Err
  /-- `OpenMPCD::InvalidArgumentException` -/
  | invalidArgument
  /-- `OpenMPCD::InvalidConfigurationException` -/
  | invalidConfiguration
  /-- `OpenMPCD::Exception` itself -/
  | exception
  /-- `libconfig::SettingNameException` -/
  | settingName
  /-- `libconfig::SettingTypeException` -/
  | settingType
  deriving DecidableEq

/-- The children with the given name: `libconfig::Setting::exists` and `operator[]`, as used in
`include/OpenMPCD/Configuration.hpp:674,678`. -/
def childOf (name : Str) : List (Str × Node F) → Option (Node F)
  | [] => none
  | (k, m) :: rest => if k = name then some m else childOf name rest

/-- Likewise, for any setting. -/
def Node.child (n : Node F) (name : Str) : Option (Node F) :=
  match n with
  | .group children => childOf name children
  | _ => none

/-- Replaces the child with the given name. -/
def replaceIn (name : Str) (m : Node F) : List (Str × Node F) → List (Str × Node F)
  | [] => []
  | (k, m') :: rest => if k = name then (k, m) :: rest else (k, m') :: replaceIn name m rest

/-- The effect on a group if its child with the given name changes. -/
def Node.replace (n : Node F) (name : Str) (m : Node F) : Node F :=
  match n with
  | .group children => .group (replaceIn name m children)
  | n => n

/-- Names `libconfig` accepts. -/
def validName : Str → Bool
  | [] => false
  | c :: cs => (c.isAlpha || c = '*') && cs.all fun d => d.isAlpha || d.isDigit || d = '*' || d = '_' || d = '-'

/-- `libconfig::Setting::add`, if there is no child with the name, as used in `include/OpenMPCD/Configuration.hpp:707` and
`include/OpenMPCD/ImplementationDetails/Configuration/Setting.hpp:42-122`, followed by assigning what the child is to be. -/
def Node.add (n : Node F) (name : Str) (m : Node F) : Node F × Except Err Unit :=
  match n with
  | .group children => if validName name then (.group (children ++ [(name, m)]), .ok ()) else (n, .error .settingName)
  | _ => (n, .error .settingType)

/-- `libconfig::Config::lookup`, as used in `include/OpenMPCD/Configuration.hpp:545,550,587,601`; the path is given by its parts. -/
def Node.lookup (n : Node F) : List Str → Option (Node F)
  | [] => some n
  | c :: cs =>
    if c = [] then n.lookup cs
    else match n.child c with
      | none => none
      | some m => m.lookup cs

/-- `boost::algorithm::split(pathComponents, setting, boost::algorithm::is_any_of("."))`
(`include/OpenMPCD/Configuration.hpp:664`). -/
def parts (path : Str) : List Str := splitChar '.' path

/-- `Configuration::has` (`include/OpenMPCD/Configuration.hpp:509-512`). A configuration is its root. -/
def has (root : Node F) (setting : Str) : Bool := (root.lookup (parts setting)).isSome

/-- A scalar of the given type. -/
def Node.asKind (n : Node F) (kind : Kind) : Except Err (Value F) :=
  match n with
  | .scalar v => if v.kind = kind then .ok v else .error .invalidConfiguration
  | _ => .error .invalidConfiguration

/-- `Configuration::read` (`include/OpenMPCD/Configuration.hpp:537-569`), for a type other than unsigned numbers. -/
def read (root : Node F) (kind : Kind) (setting : Str) : Except Err (Value F) :=
  match root.lookup (parts setting) with
  | none => .error .invalidConfiguration
  | some n => n.asKind kind

/-- `Configuration::read<unsigned int>` (`include/OpenMPCD/Configuration.hpp:537-569`). -/
def readUnsigned (root : Node F) (setting : Str) : Except Err ℕ :=
  match read root .int setting with
  | .error e => .error e
  | .ok (.int i) => .ok i.toNat
  | .ok _ => .error .invalidConfiguration

/-- `Configuration::getSetting` (`include/OpenMPCD/Configuration.hpp:579-588`). -/
def getSetting (root : Node F) (name : Str) : Except Err (Node F) :=
  match root.lookup (parts name) with
  | none => .error .invalidConfiguration
  | some n => .ok n

/-- `Configuration::getList` (`include/OpenMPCD/Configuration.hpp:596-607`). -/
def getList (root : Node F) (name : Str) : Except Err (Node F) :=
  match root.lookup (parts name) with
  | none => .error .invalidConfiguration
  | some (.list l) => .ok (.list l)
  | some (.array l) => .ok (.array l)
  | some _ => .error .exception

/-- The loop over the parts of a path in `set` and `createAggregateSetting`
(`include/OpenMPCD/Configuration.hpp:666-710,783-803`); `leaf` is what is done for the last part. The new value of the
setting, and how the function ends. -/
def descend (leaf : Node F → Str → Node F × Except Err Unit) : Node F → List Str → Node F × Except Err Unit
  | n, [] => (n, .ok ())
  | n, [c] => leaf n c
  | n, c :: d :: cs =>
    match n.child c with
    | some m => (n.replace c (descend leaf m (d :: cs)).1, (descend leaf m (d :: cs)).2)
    | none =>
      match (n.add c (.group [])).2 with
      | .error e => (n, .error e)
      | .ok () =>
        ((n.add c (descend leaf (.group []) (d :: cs)).1).1, (descend leaf (.group []) (d :: cs)).2)

/-- What `set` does for the last part (`include/OpenMPCD/Configuration.hpp:672-689`,
`include/OpenMPCD/ImplementationDetails/Configuration/Setting.hpp:42-122`). -/
def setLeaf (v : Value F) (n : Node F) (c : Str) : Node F × Except Err Unit :=
  match n.child c with
  | some (.scalar w) => if w.kind = v.kind then (n.replace c (.scalar v), .ok ()) else (n, .error .invalidArgument)
  | some _ => (n, .error .invalidArgument)
  | none => n.add c (.scalar v)

/-- `Configuration::set` (`include/OpenMPCD/Configuration.hpp:660-711`). -/
def set (root : Node F) (setting : Str) (v : Value F) : Node F × Except Err Unit :=
  descend (setLeaf v) root (parts setting)

/-- `static_cast<int>` of an `unsigned int` (with 32 bits, as `gcc` does it). -/
def toInt (u : ℕ) : ℤ := if u < 2 ^ 31 then u else (u : ℤ) - 2 ^ 32

/-- `Configuration::set<unsigned int>` (`include/OpenMPCD/Configuration.hpp:839-854`). In the comparison
`static_cast<int>(value) == value`, the signed number is converted to an unsigned one. -/
def setUnsigned (root : Node F) (setting : Str) (u : ℕ) : Node F × Except Err Unit :=
  if toInt u % 2 ^ 32 = (u : ℤ) then set root setting (.int (toInt u)) else set root setting (.int64 u)

/-- What `createAggregateSetting` does for the last part (`include/OpenMPCD/Configuration.hpp:786-802`). -/
def createLeaf (m : Node F) (n : Node F) (c : Str) : Node F × Except Err Unit :=
  match n.child c with
  | some _ => (n, .ok ())
  | none => n.add c m

/-- `Configuration::createAggregateSetting` (`include/OpenMPCD/Configuration.hpp:767-804`), for one of the permitted
types, given by the empty setting of the type. -/
def create (root : Node F) (name : Str) (m : Node F) : Node F × Except Err Unit :=
  if has root name then (root, .error .exception) else descend (createLeaf m) root (parts name)

/-- `Configuration::createGroup` (`include/OpenMPCD/Configuration.hpp:719-722`). -/
def createGroup (root : Node F) (name : Str) : Node F × Except Err Unit := create root name (.group [])

/-- `Configuration::createList` (`include/OpenMPCD/Configuration.hpp:730-733`). -/
def createList (root : Node F) (name : Str) : Node F × Except Err Unit := create root name (.list [])

/-- `Setting::has` (`include/OpenMPCD/Configuration.hpp:82-107`), by the parts of the name. The name is not legal if its
first dot is its first or its last character. -/
def Node.hasParts (n : Node F) : List Str → Except Err Bool
  | [] => .ok false
  | [c] => .ok (n.child c).isSome
  | c :: d :: cs =>
    if c = [] ∨ d :: cs = [[]] then .error .invalidArgument
    else match n.child c with
      | none => .ok false
      | some m => m.hasParts (d :: cs)

/-- `Setting::has` (`include/OpenMPCD/Configuration.hpp:82-107`). -/
def Node.has (n : Node F) (name : Str) : Except Err Bool := n.hasParts (parts name)

/-- `Setting::read` (`include/OpenMPCD/Configuration.hpp:130-182`), by the parts of the name. -/
def Node.readParts (n : Node F) (kind : Kind) : List Str → Except Err (Value F)
  | [] => .error .invalidConfiguration
  | [c] =>
    match n.child c with
    | none => .error .invalidConfiguration
    | some m => m.asKind kind
  | c :: d :: cs =>
    if c = [] ∨ d :: cs = [[]] then .error .invalidArgument
    else match n.child c with
      | none => .error .invalidConfiguration
      | some m => m.readParts kind (d :: cs)

/-- `Setting::read` (`include/OpenMPCD/Configuration.hpp:130-182`). -/
def Node.read (n : Node F) (kind : Kind) (name : Str) : Except Err (Value F) := n.readParts kind (parts name)

/-- `Setting::getSetting` (`include/OpenMPCD/Configuration.hpp:275-285`). -/
def Node.getSetting (n : Node F) (name : Str) : Except Err (Node F) :=
  match n.has name with
  | .error e => .error e
  | .ok false => .error .invalidConfiguration
  | .ok true =>
    match n.lookup (parts name) with
    | none => .error .invalidConfiguration
    | some m => .ok m

/-- The loop of `Setting::childrenHaveNamesInCollection` (`src/OpenMPCD/Configuration.cpp:12-27`): what is returned, and
the name stored if there is an offender. -/
def namesIn (names : Str → Bool) : List (Str × Node F) → Bool × Option Str
  | [] => (true, none)
  | (k, _) :: rest => if names k then namesIn names rest else (false, some k)

/-- `Setting::getChild` (`include/OpenMPCD/Configuration.hpp:250-263`), for a group. -/
def getChild (children : List (Str × Node F)) (i : ℕ) : Except Err (Str × Node F) :=
  match children[i]? with
  | some x => .ok x
  | none => .error .invalidArgument

/-- The elements of a list or an array. -/
def Node.elements : Node F → List (Node F)
  | .list l => l
  | .array l => l.map .scalar
  | _ => []

/-- `List::getList` (`include/OpenMPCD/Configuration.hpp:376-387`). -/
def Node.getListAt (n : Node F) (i : ℕ) : Except Err (Node F) :=
  match n.elements[i]? with
  | none => .error .invalidConfiguration
  | some (.list l) => .ok (.list l)
  | some (.array l) => .ok (.array l)
  | some _ => .error .exception

/-- `List::read` (`include/OpenMPCD/Configuration.hpp:399-455`). -/
def Node.readAt (n : Node F) (kind : Kind) (i : ℕ) : Except Err (Value F) :=
  match n.elements[i]? with
  | none => .error .invalidConfiguration
  | some m => m.asKind kind

/-- `Configuration::assertValue` (`include/OpenMPCD/Configuration.hpp:616-652`); `same` is the comparison of values. -/
def assertValue (same : Value F → Value F → Bool) (root : Node F) (setting : Str) (v : Value F) : Except Err Unit :=
  match read root v.kind setting with
  | .error e => .error e
  | .ok w => if same w v then .ok () else .error .invalidConfiguration

/-- Calls that change the configuration. -/
inductive Op (F : Type)
  | set (name : Str) (v : Value F)
  | createGroup (name : Str)
  | createList (name : Str)

/-- A call. -/
def Op.run : Op F → Node F → Node F × Except Err Unit
  | .set name v, root => Cpp.set root name v
  | .createGroup name, root => Cpp.createGroup root name
  | .createList name, root => Cpp.createList root name

/-- The configuration after a history of calls, the exceptions of which have been caught. -/
def runAll (root : Node F) (ops : List (Op F)) : Node F := ops.foldl (fun r op => (op.run r).1) root

/-! ## Specification -/

/-- The value of a setting as far as it can be read. -/
def Reads (root : Node F) (name : Str) (v : Value F) : Prop := read root v.kind name = .ok v

/-- Two names for the same setting: they differ at most in additional dots. -/
def SameName (a b : Str) : Prop := (parts a).filter (· ≠ []) = (parts b).filter (· ≠ [])

/-- The last call in a history that set the given setting, if any, with success. -/
def LastSet (root : Node F) (ops : List (Op F)) (name : Str) (v : Value F) : Prop :=
  ∃ before name' after, ops = before ++ .set name' v :: after ∧ SameName name' name ∧
    ((Op.set name' v).run (runAll root before)).2 = .ok () ∧
    ∀ before' name'' w after', after = before' ++ .set name'' w :: after' → SameName name'' name →
      ((Op.set name'' w).run (runAll root (before ++ .set name' v :: before'))).2 ≠ .ok ()

/-- No call in a history set the given setting with success. -/
def NeverSet (root : Node F) (ops : List (Op F)) (name : Str) : Prop :=
  ∀ before name' v after, ops = before ++ .set name' v :: after → SameName name' name →
    ((Op.set name' v).run (runAll root before)).2 ≠ .ok ()

/-! ## Proofs -/

theorem childOf_replaceIn (c d : Str) (m : Node F) (l : List (Str × Node F)) (h : (childOf c l).isSome) :
    childOf d (replaceIn c m l) = if d = c then some m else childOf d l := by
  induction l with
  | nil => simp [childOf] at h
  | cons p l ih =>
    obtain ⟨k, m'⟩ := p
    unfold replaceIn
    by_cases hk : k = c
    · subst hk
      rw [if_pos rfl]
      unfold childOf
      by_cases hd : d = k
      · rw [if_pos hd.symm, if_pos hd]
      · rw [if_neg (Ne.symm hd), if_neg hd, if_neg (Ne.symm hd)]
    · rw [if_neg hk]
      have h' : (childOf c l).isSome := by
        unfold childOf at h
        rwa [if_neg hk] at h
      unfold childOf
      rw [ih h']
      by_cases hd : d = c
      · subst hd
        rw [if_neg hk, if_pos rfl, if_pos rfl]
      · rw [if_neg hd, if_neg hd]

theorem childOf_append (c d : Str) (m : Node F) (l : List (Str × Node F)) (h : childOf c l = none) :
    childOf d (l ++ [(c, m)]) = if d = c then some m else childOf d l := by
  induction l with
  | nil =>
    simp only [List.nil_append, childOf]
    by_cases hd : d = c
    · rw [if_pos hd.symm, if_pos hd]
    · rw [if_neg (Ne.symm hd), if_neg hd]
  | cons p l ih =>
    obtain ⟨k, m'⟩ := p
    have hk : k ≠ c := by
      intro e
      unfold childOf at h
      rw [if_pos e] at h
      cases h
    have h' : childOf c l = none := by
      unfold childOf at h
      rwa [if_neg hk] at h
    rw [List.cons_append]
    unfold childOf
    rw [ih h']
    by_cases hd : d = c
    · subst hd
      rw [if_neg hk, if_pos rfl, if_pos rfl]
    · rw [if_neg hd, if_neg hd]

theorem child_replace (n : Node F) (c d : Str) (m : Node F) (h : (n.child c).isSome) :
    (n.replace c m).child d = if d = c then some m else n.child d := by
  cases n with
  | group l => exact childOf_replaceIn c d m l h
  | _ => simp [Node.child] at h

theorem add_ok {n : Node F} {c : Str} {m : Node F} (h : (n.add c m).2 = .ok ()) :
    (∃ l, n = .group l) ∧ validName c = true ∧ ∀ m', (n.add c m').2 = .ok () := by
  cases n with
  | group l =>
    unfold Node.add at h ⊢
    dsimp only at h ⊢
    by_cases hv : validName c = true
    · exact ⟨⟨l, rfl⟩, hv, fun m' => by rw [if_pos hv]⟩
    · rw [if_neg hv] at h
      cases h
  | _ => cases h

theorem add_error {n : Node F} {c : Str} {m : Node F} (h : (n.add c m).2 ≠ .ok ()) : (n.add c m).1 = n := by
  cases n with
  | group l =>
    unfold Node.add at h ⊢
    dsimp only at h ⊢
    by_cases hv : validName c = true
    · rw [if_pos hv] at h
      exact absurd rfl h
    · rw [if_neg hv]
  | _ => rfl

theorem child_add {n : Node F} {c : Str} {m : Node F} (h : (n.add c m).2 = .ok ()) (hc : n.child c = none) (d : Str) :
    (n.add c m).1.child d = if d = c then some m else n.child d := by
  obtain ⟨⟨l, rfl⟩, hv, -⟩ := add_ok h
  unfold Node.add
  dsimp only
  rw [if_pos hv]
  exact childOf_append c d m l hc

theorem validName_ne_nil {c : Str} (h : validName c = true) : c ≠ [] := by
  rintro rfl
  cases h

/-- The parts of paths which are looked up. -/
def Path (q : List Str) : Prop := ∀ c ∈ q, c ≠ []

theorem lookup_filter (n : Node F) (q : List Str) : n.lookup q = n.lookup (q.filter (· ≠ [])) := by
  induction q generalizing n with
  | nil => rfl
  | cons c q ih =>
    by_cases hc : c = []
    · subst hc
      rw [Node.lookup, if_pos rfl, ih]
      simp
    · rw [List.filter_cons, if_pos (by simpa using hc), Node.lookup, if_neg hc, Node.lookup, if_neg hc]
      cases n.child c with
      | none => rfl
      | some m => exact ih m

theorem path_filter (q : List Str) : Path (q.filter (· ≠ [])) := by
  intro c hc
  simpa using (List.mem_filter.1 hc).2

theorem lookup_cons (n : Node F) {c : Str} (hc : c ≠ []) (q : List Str) :
    n.lookup (c :: q) = (n.child c).bind fun m => m.lookup q := by
  rw [Node.lookup, if_neg hc]
  cases n.child c <;> rfl

/-- The scalar at a place. -/
def valueAt (n : Node F) (q : List Str) : Option (Value F) :=
  match n.lookup q with
  | some (.scalar v) => some v
  | _ => none

theorem valueAt_cons (n : Node F) {c : Str} (hc : c ≠ []) (q : List Str) :
    valueAt n (c :: q) = (n.child c).bind fun m => valueAt m q := by
  unfold valueAt
  rw [lookup_cons n hc]
  cases n.child c <;> rfl

theorem valueAt_nil_of_child {n : Node F} {c : Str} (h : (n.child c).isSome) : valueAt n [] = none := by
  cases n with
  | group l => rfl
  | _ => simp [Node.child] at h

theorem valueAt_nil_replace (n : Node F) (c : Str) (m : Node F) : valueAt (n.replace c m) [] = valueAt n [] := by
  cases n <;> rfl

theorem valueAt_nil_add (n : Node F) (c : Str) (m : Node F) : valueAt (n.add c m).1 [] = valueAt n [] := by
  cases n with
  | group l =>
    unfold Node.add
    dsimp only
    split_ifs <;> rfl
  | _ => rfl

theorem reads_iff (root : Node F) (name : Str) (v : Value F) : Reads root name v ↔ valueAt root (parts name) = some v := by
  unfold Reads read valueAt
  cases root.lookup (parts name) with
  | none => simp
  | some n =>
    cases n with
    | scalar w =>
      simp only [Node.asKind, Option.some.injEq]
      by_cases h : w.kind = v.kind
      · rw [if_pos h, Except.ok.injEq]
      · rw [if_neg h]
        constructor
        · nofun
        · rintro rfl
          exact absurd rfl h
    | _ => simp [Node.asKind]

theorem read_of_valueAt {root root' : Node F} {name : Str} (h : valueAt root (parts name) = valueAt root' (parts name))
    (kind : Kind) : read root kind name = read root' kind name := by
  have key : ∀ r : Node F, read r kind name = match valueAt r (parts name) with
      | some v => if v.kind = kind then .ok v else .error .invalidConfiguration
      | none => .error .invalidConfiguration := by
    intro r
    unfold read valueAt
    cases r.lookup (parts name) with
    | none => rfl
    | some n => cases n <;> rfl
  rw [key, key, h]

/-! ### The loop -/

section loop

variable {leaf : Node F → Str → Node F × Except Err Unit}

/-- What is true of the last step for all other places. -/
theorem descend_frame (hleaf : ∀ n c q, Path q → q ≠ [c] → valueAt (leaf n c).1 q = valueAt n q) (p : List Str) :
    ∀ (n : Node F) (q : List Str), Path q → q ≠ p → valueAt (descend leaf n p).1 q = valueAt n q := by
  induction p with
  | nil => intro n q _ _; rfl
  | cons c p ih =>
    intro n q hq hne
    cases p with
    | nil => exact hleaf n c q hq hne
    | cons d cs =>
      rw [descend]
      cases hc : n.child c with
      | some m =>
        dsimp only
        cases q with
        | nil => exact valueAt_nil_replace _ _ _
        | cons e es =>
          have he := hq e (by simp)
          rw [valueAt_cons _ he, valueAt_cons _ he, child_replace _ _ _ _ (by rw [hc]; rfl)]
          by_cases hec : e = c
          · subst hec
            rw [if_pos rfl, hc]
            exact ih m es (fun x hx => hq x (by simp [hx])) fun h => hne (by rw [h])
          · rw [if_neg hec]
      | none =>
        cases ha : (n.add c (.group [])).2 with
        | error e => rfl
        | ok u =>
          dsimp only
          have ha' := (add_ok ha).2.2 (descend leaf (.group []) (d :: cs)).1
          cases q with
          | nil => exact valueAt_nil_add _ _ _
          | cons e es =>
            have he := hq e (by simp)
            rw [valueAt_cons _ he, valueAt_cons _ he, child_add ha' hc]
            by_cases hec : e = c
            · subst hec
              rw [if_pos rfl, hc]
              show valueAt (descend leaf (.group []) (d :: cs)).1 es = none
              rw [ih _ es (fun x hx => hq x (by simp [hx])) fun h => hne (by rw [h])]
              cases es with
              | nil => rfl
              | cons f fs =>
                rw [valueAt_cons _ (hq f (by simp))]
                rfl
            · rw [if_neg hec]

/-- With success, all parts of the path are names. -/
theorem descend_path (hleaf : ∀ n c, (leaf n c).2 = .ok () → (∀ m, n.child [] ≠ some m) → c ≠ []) (p : List Str) :
    ∀ n : Node F, (∀ q m, n.lookup q = some m → m.child [] = none) → (descend leaf n p).2 = .ok () → Path p := by
  induction p with
  | nil => intro n _ _ c hc; cases hc
  | cons c p ih =>
    intro n hn h
    have h0 : ∀ m, n.child [] ≠ some m := by
      intro m hm
      rw [hn [] n rfl] at hm
      cases hm
    cases p with
    | nil =>
      intro x hx
      rw [List.mem_singleton.1 hx]
      exact hleaf n c h h0
    | cons d cs =>
      rw [descend] at h
      cases hc : n.child c with
      | some m =>
        rw [hc] at h
        have hcne : c ≠ [] := by
          rintro rfl
          exact h0 m hc
        intro x hx
        rcases List.mem_cons.1 hx with rfl | hx
        · exact hcne
        · refine ih m (fun q m' hm' => hn (c :: q) m' ?_) h x hx
          rw [lookup_cons n hcne, hc]
          exact hm'
      | none =>
        rw [hc] at h
        cases ha : (n.add c (.group [])).2 with
        | error e =>
          rw [ha] at h
          cases h
        | ok u =>
          rw [ha] at h
          intro x hx
          rcases List.mem_cons.1 hx with rfl | hx
          · exact validName_ne_nil (add_ok ha).2.1
          · refine ih (.group []) (fun q m' hm' => ?_) h x hx
            have : ∀ q : List Str, Node.lookup (.group [] : Node F) q = some m' → m' = .group [] := by
              intro q
              induction q with
              | nil => intro e; cases e; rfl
              | cons f fs ih =>
                intro e
                rw [Node.lookup] at e
                by_cases hf : f = []
                · rw [if_pos hf] at e
                  exact ih e
                · rw [if_neg hf] at e
                  cases e
            rw [this q hm']
            rfl

/-- With success, what is found at the place is what the last step puts there. -/
theorem descend_at {P : Option (Node F) → Prop} (hleaf : ∀ n c, c ≠ [] → (leaf n c).2 = .ok () → P ((leaf n c).1.child c))
    (p : List Str) (hp : Path p) (hne : p ≠ []) :
    ∀ n : Node F, (descend leaf n p).2 = .ok () → P ((descend leaf n p).1.lookup p) := by
  induction p with
  | nil => exact absurd rfl hne
  | cons c p ih =>
    intro n h
    have hcne := hp c (by simp)
    cases p with
    | nil =>
      have h' : (leaf n c).2 = .ok () := h
      have := hleaf n c hcne h'
      show P ((leaf n c).1.lookup [c])
      rw [lookup_cons _ hcne]
      cases hx : (leaf n c).1.child c with
      | none => rwa [hx] at this
      | some m => rwa [hx] at this
    | cons d cs =>
      rw [descend] at h ⊢
      cases hc : n.child c with
      | some m =>
        rw [hc] at h
        dsimp only at h ⊢
        rw [lookup_cons _ hcne, child_replace _ _ _ _ (by rw [hc]; rfl), if_pos rfl]
        exact ih (fun x hx => hp x (by simp [hx])) (by simp) m h
      | none =>
        rw [hc] at h
        cases ha : (n.add c (.group [])).2 with
        | error e =>
          rw [ha] at h
          cases h
        | ok u =>
          rw [ha] at h
          dsimp only at h ⊢
          have ha' := (add_ok ha).2.2 (descend leaf (.group []) (d :: cs)).1
          rw [lookup_cons _ hcne, child_add ha' hc, if_pos rfl]
          exact ih (fun x hx => hp x (by simp [hx])) (by simp) _ h

/-- No setting is lost, and new ones are on the path. -/
theorem descend_has
    (hleaf : ∀ n c q, Path q → (n.lookup q).isSome → ((leaf n c).1.lookup q).isSome)
    (hleaf' : ∀ n c q, Path q → ((leaf n c).1.lookup q).isSome → (n.lookup q).isSome ∨ q = [c]) (p : List Str) :
    ∀ (n : Node F) (q : List Str), Path q →
      ((n.lookup q).isSome → ((descend leaf n p).1.lookup q).isSome) ∧
      (((descend leaf n p).1.lookup q).isSome → (n.lookup q).isSome ∨ q <+: p) := by
  induction p with
  | nil => intro n q _; exact ⟨id, .inl⟩
  | cons c p ih =>
    intro n q hq
    cases p with
    | nil =>
      refine ⟨hleaf n c q hq, fun h => ?_⟩
      rcases hleaf' n c q hq h with h | rfl
      · exact .inl h
      · exact .inr (List.prefix_refl _)
    | cons d cs =>
      cases q with
      | nil => exact ⟨fun _ => rfl, fun _ => .inl rfl⟩
      | cons e es =>
        have he := hq e (by simp)
        have hes : Path es := fun x hx => hq x (by simp [hx])
        rw [descend]
        cases hc : n.child c with
        | some m =>
          dsimp only
          rw [lookup_cons _ he, lookup_cons _ he, child_replace _ _ _ _ (by rw [hc]; rfl)]
          by_cases hec : e = c
          · subst hec
            rw [if_pos rfl, hc]
            refine ⟨(ih m es hes).1, fun h => ?_⟩
            rcases (ih m es hes).2 h with h | h
            · exact .inl h
            · exact .inr (List.cons_prefix_cons.2 ⟨rfl, h⟩)
          · rw [if_neg hec]
            exact ⟨id, .inl⟩
        | none =>
          cases ha : (n.add c (.group [])).2 with
          | error e => exact ⟨id, .inl⟩
          | ok u =>
            dsimp only
            have ha' := (add_ok ha).2.2 (descend leaf (.group []) (d :: cs)).1
            rw [lookup_cons _ he, lookup_cons _ he, child_add ha' hc]
            by_cases hec : e = c
            · subst hec
              rw [if_pos rfl, hc]
              refine ⟨nofun, fun h => .inr ?_⟩
              refine List.cons_prefix_cons.2 ⟨rfl, ?_⟩
              rcases (ih _ es hes).2 h with h | h
              · cases es with
                | nil => exact List.nil_prefix
                | cons f fs =>
                  rw [lookup_cons _ (hes f (by simp))] at h
                  cases h
              · exact h
            · rw [if_neg hec]
              exact ⟨id, .inl⟩

end loop

/-! ### The last steps -/

theorem setLeaf_frame (v : Value F) (n : Node F) (c : Str) (q : List Str) (hq : Path q) (hne : q ≠ [c]) :
    valueAt (setLeaf v n c).1 q = valueAt n q := by
  unfold setLeaf
  cases hc : n.child c with
  | none =>
    dsimp only
    by_cases ha : (n.add c (.scalar v)).2 = .ok ()
    · cases q with
      | nil => exact valueAt_nil_add _ _ _
      | cons e es =>
        have he := hq e (by simp)
        rw [valueAt_cons _ he, valueAt_cons _ he, child_add ha hc]
        by_cases hec : e = c
        · subst hec
          rw [if_pos rfl, hc]
          cases es with
          | nil => exact absurd rfl hne
          | cons f fs =>
            show valueAt (.scalar v) (f :: fs) = none
            rw [valueAt_cons _ (hq f (by simp))]
            rfl
        · rw [if_neg hec]
    · rw [add_error ha]
  | some m =>
    cases m with
    | scalar w =>
      dsimp only
      by_cases hk : w.kind = v.kind
      · rw [if_pos hk]
        cases q with
        | nil => exact valueAt_nil_replace _ _ _
        | cons e es =>
          have he := hq e (by simp)
          rw [valueAt_cons _ he, valueAt_cons _ he, child_replace _ _ _ _ (by rw [hc]; rfl)]
          by_cases hec : e = c
          · subst hec
            rw [if_pos rfl, hc]
            cases es with
            | nil => exact absurd rfl hne
            | cons f fs =>
              show valueAt (.scalar v) (f :: fs) = valueAt (.scalar w) (f :: fs)
              rw [valueAt_cons _ (hq f (by simp)), valueAt_cons _ (hq f (by simp))]
              rfl
          · rw [if_neg hec]
      · rw [if_neg hk]
    | _ => rfl

theorem setLeaf_at (v : Value F) (n : Node F) (c : Str) (h : (setLeaf v n c).2 = .ok ()) :
    (setLeaf v n c).1.child c = some (.scalar v) := by
  unfold setLeaf at h ⊢
  cases hc : n.child c with
  | none =>
    rw [hc] at h
    dsimp only at h ⊢
    rw [child_add h hc, if_pos rfl]
  | some m =>
    rw [hc] at h
    cases m with
    | scalar w =>
      dsimp only at h ⊢
      by_cases hk : w.kind = v.kind
      · rw [if_pos hk, child_replace _ _ _ _ (by rw [hc]; rfl), if_pos rfl]
      · rw [if_neg hk] at h
        cases h
    | _ => cases h

theorem setLeaf_path (v : Value F) (n : Node F) (c : Str) (h : (setLeaf v n c).2 = .ok ())
    (h0 : ∀ m, n.child [] ≠ some m) : c ≠ [] := by
  rintro rfl
  unfold setLeaf at h
  cases hc : n.child ([] : Str) with
  | none =>
    rw [hc] at h
    exact validName_ne_nil (add_ok h).2.1 rfl
  | some m => exact h0 m hc

theorem lookup_child_congr {n n' : Node F} {c : Str} {m : Node F} (hc : n.child c = none)
    (h : ∀ d, n'.child d = if d = c then some m else n.child d) (hm : ∀ d, m.child d = none) (q : List Str) (hq : Path q) :
    ((n.lookup q).isSome → (n'.lookup q).isSome) ∧ ((n'.lookup q).isSome → (n.lookup q).isSome ∨ q = [c]) := by
  cases q with
  | nil => exact ⟨fun _ => rfl, fun _ => .inl rfl⟩
  | cons e es =>
    have he := hq e (by simp)
    rw [lookup_cons _ he, lookup_cons _ he, h]
    by_cases hec : e = c
    · subst hec
      rw [if_pos rfl, hc]
      refine ⟨nofun, fun hs => .inr ?_⟩
      cases es with
      | nil => rfl
      | cons f fs =>
        rw [Option.bind_some, lookup_cons _ (hq f (by simp)), hm] at hs
        cases hs
    · rw [if_neg hec]
      exact ⟨id, .inl⟩

theorem setLeaf_has (v : Value F) (n : Node F) (c : Str) (q : List Str) (hq : Path q) :
    ((n.lookup q).isSome → ((setLeaf v n c).1.lookup q).isSome) ∧
    (((setLeaf v n c).1.lookup q).isSome → (n.lookup q).isSome ∨ q = [c]) := by
  unfold setLeaf
  cases hc : n.child c with
  | none =>
    dsimp only
    by_cases ha : (n.add c (.scalar v)).2 = .ok ()
    · exact lookup_child_congr hc (child_add ha hc) (fun _ => rfl) q hq
    · rw [add_error ha]
      exact ⟨id, .inl⟩
  | some m =>
    cases m with
    | scalar w =>
      dsimp only
      by_cases hk : w.kind = v.kind
      · rw [if_pos hk]
        cases q with
        | nil => exact ⟨fun _ => rfl, fun _ => .inl rfl⟩
        | cons e es =>
          have he := hq e (by simp)
          rw [lookup_cons _ he, lookup_cons _ he, child_replace _ _ _ _ (by rw [hc]; rfl)]
          by_cases hec : e = c
          · subst hec
            rw [if_pos rfl, hc]
            cases es with
            | nil => exact ⟨fun _ => rfl, fun _ => .inl rfl⟩
            | cons f fs =>
              rw [Option.bind_some, Option.bind_some, lookup_cons _ (hq f (by simp)), lookup_cons _ (hq f (by simp))]
              exact ⟨nofun, nofun⟩
          · rw [if_neg hec]
            exact ⟨id, .inl⟩
      · rw [if_neg hk]
        exact ⟨id, .inl⟩
    | _ => exact ⟨id, .inl⟩

/-- An empty setting that is not a scalar. -/
def Empty (m : Node F) : Prop := m = .group [] ∨ m = .list []

theorem Empty.child {m : Node F} (h : Empty m) (d : Str) : m.child d = none := by
  rcases h with rfl | rfl <;> rfl

theorem createLeaf_frame {m : Node F} (hm : Empty m) (n : Node F) (c : Str) (q : List Str) (hq : Path q) :
    valueAt (createLeaf m n c).1 q = valueAt n q := by
  unfold createLeaf
  cases hc : n.child c with
  | some _ => rfl
  | none =>
    dsimp only
    by_cases ha : (n.add c m).2 = .ok ()
    · cases q with
      | nil => exact valueAt_nil_add _ _ _
      | cons e es =>
        have he := hq e (by simp)
        rw [valueAt_cons _ he, valueAt_cons _ he, child_add ha hc]
        by_cases hec : e = c
        · subst hec
          rw [if_pos rfl, hc]
          show valueAt m es = none
          cases es with
          | nil => rcases hm with rfl | rfl <;> rfl
          | cons f fs =>
            rw [valueAt_cons _ (hq f (by simp)), hm.child]
            rfl
        · rw [if_neg hec]
    · rw [add_error ha]

/-! ### Theorems -/

/-- The names in a configuration are valid; as they are in one that has been read from a file, or built from scratch. -/
def Proper (root : Node F) : Prop := ∀ q m, root.lookup q = some m → m.child [] = none

theorem set_path {root : Node F} (hr : Proper root) {name : Str} {v : Value F} (h : (set root name v).2 = .ok ()) :
    Path (parts name) :=
  descend_path (setLeaf_path v) _ root hr h

theorem path_eq_filter {q : List Str} (h : Path q) : q.filter (· ≠ []) = q :=
  List.filter_eq_self.2 fun c hc => by simpa using h c hc

/-- C94: what has been set with success can be read. -/
theorem C94_set_read {root : Node F} (hr : Proper root) {name : Str} {v : Value F} (h : (set root name v).2 = .ok ()) :
    Reads (set root name v).1 name v := by
  rw [reads_iff]
  have := descend_at (P := fun o => o = some (.scalar v)) (fun n c _ h => setLeaf_at v n c h) (parts name)
    (set_path hr h) (splitChar_ne_nil _ _) root h
  unfold set valueAt
  rw [this]

theorem set_valueAt (root : Node F) (name : Str) (v : Value F) {q : List Str} (hq : Path q) (hne : q ≠ parts name) :
    valueAt (set root name v).1 q = valueAt root q :=
  descend_frame (setLeaf_frame v) _ root q hq hne

theorem valueAt_filter (root : Node F) (q : List Str) : valueAt root q = valueAt root (q.filter (· ≠ [])) := by
  unfold valueAt
  rw [lookup_filter]

/-- C94: setting a setting, with success or not, does not change what is read for any other. -/
theorem C94_frame (root : Node F) (name : Str) (v : Value F) {other : Str} (h : ¬ SameName other name) (kind : Kind) :
    read (set root name v).1 kind other = read root kind other := by
  apply read_of_valueAt
  rw [valueAt_filter, valueAt_filter root]
  apply set_valueAt _ _ _ (path_filter _)
  intro e
  apply h
  unfold SameName
  rw [e]
  exact (path_eq_filter (e ▸ path_filter _)).symm

/-- C94: if setting a setting fails, nothing that can be read changes. -/
theorem C94_failure_partial (root : Node F) (name : Str) (v : Value F)
    (h : (set root name v).2 ≠ .ok ()) (other : Str) (kind : Kind) :
    read (set root name v).1 kind other = read root kind other := by
  by_cases hs : SameName other name
  swap
  · exact C94_frame root name v hs kind
  apply read_of_valueAt
  rw [valueAt_filter, valueAt_filter root, hs]
  by_cases hp : Path (parts name)
  swap
  · apply set_valueAt _ _ _ (path_filter _)
    intro e
    exact hp (e ▸ path_filter _)
  rw [path_eq_filter hp]
  have hne : parts name ≠ [] := splitChar_ne_nil _ _
  unfold set at h ⊢
  clear hs
  generalize parts name = p at hp hne h
  induction p generalizing root with
  | nil => exact absurd rfl hne
  | cons c p ih =>
    have hcne := hp c (by simp)
    cases p with
    | nil =>
      change (setLeaf v root c).2 ≠ .ok () at h
      show valueAt (setLeaf v root c).1 [c] = _
      unfold setLeaf at h ⊢
      cases hc : root.child c with
      | none =>
        rw [hc] at h
        dsimp only at h ⊢
        rw [add_error h]
      | some m =>
        rw [hc] at h
        cases m with
        | scalar w =>
          dsimp only at h ⊢
          by_cases hk : w.kind = v.kind
          · rw [if_pos hk] at h
            exact absurd rfl h
          · rw [if_neg hk]
        | _ => rfl
    | cons d cs =>
      rw [descend] at h ⊢
      cases hc : root.child c with
      | some m =>
        rw [hc] at h
        dsimp only at h ⊢
        rw [valueAt_cons _ hcne, valueAt_cons _ hcne, child_replace _ _ _ _ (by rw [hc]; rfl), if_pos rfl, hc]
        exact ih m (fun x hx => hp x (by simp [hx])) (by simp) h
      | none =>
        rw [hc] at h
        cases ha : (root.add c (.group [])).2 with
        | error e => rfl
        | ok u =>
          rw [ha] at h
          dsimp only at h ⊢
          have ha' := (add_ok ha).2.2 (descend (setLeaf v) (.group []) (d :: cs)).1
          rw [valueAt_cons _ hcne, valueAt_cons _ hcne, child_add ha' hc, if_pos rfl, hc]
          have := ih (.group []) (fun x hx => hp x (by simp [hx])) (by simp) h
          rw [Option.bind_some, this, valueAt_cons _ (hp d (by simp))]
          rfl

/-- C94: no call makes a setting vanish, and a successful call to `set` adds no settings but the one set and the groups it
is in. -/
theorem C94_has (root : Node F) (hr : Proper root) (name : Str) (v : Value F) (other : Str) :
    (has root other = true → has (set root name v).1 other = true) ∧
    ((set root name v).2 = .ok () → (has (set root name v).1 other = true ↔
      has root other = true ∨ (parts other).filter (· ≠ []) <+: (parts name))) := by
  have key := descend_has (leaf := setLeaf v) (fun n c q hq => (setLeaf_has v n c q hq).1)
    (fun n c q hq => (setLeaf_has v n c q hq).2) (parts name) root _ (path_filter (parts other))
  unfold has
  rw [lookup_filter root, lookup_filter (set root name v).1]
  refine ⟨key.1, fun hok => ⟨key.2, ?_⟩⟩
  rintro (h | ⟨t, ht⟩)
  · exact key.1 h
  · have hat := descend_at (P := fun o => o = some (.scalar v)) (fun n c _ h => setLeaf_at v n c h) (parts name)
      (set_path hr hok) (splitChar_ne_nil _ _) root hok
    change (set root name v).1.lookup (parts name) = _ at hat
    rw [← ht] at hat
    have happ : ∀ (n : Node F) (a b : List Str), Path a → n.lookup (a ++ b) = (n.lookup a).bind fun m => m.lookup b := by
      intro n a b ha
      induction a generalizing n with
      | nil => rfl
      | cons x a ih =>
        rw [List.cons_append, lookup_cons _ (ha x (by simp)), lookup_cons _ (ha x (by simp))]
        cases n.child x with
        | none => rfl
        | some m => exact ih m fun y hy => ha y (by simp [hy])
    rw [happ _ _ _ (path_filter _)] at hat
    cases hx : (set root name v).1.lookup ((parts other).filter (· ≠ [])) with
    | none =>
      rw [hx] at hat
      cases hat
    | some m => rfl

/-- C94: a setting that exists can be set exactly to values of its type, and any other attempt is reported as an invalid
argument and changes nothing. -/
theorem C94_existing {root : Node F} {name : Str} (hp : Path (parts name)) (v : Value F) {m : Node F}
    (hm : root.lookup (parts name) = some m) :
    ((set root name v).2 = .ok () ↔ ∃ w, m = .scalar w ∧ w.kind = v.kind) ∧
    ((set root name v).2 ≠ .ok () → set root name v = (root, .error .invalidArgument)) := by
  have hne : parts name ≠ [] := splitChar_ne_nil _ _
  unfold set
  generalize parts name = p at hp hne hm
  induction p generalizing root with
  | nil => exact absurd rfl hne
  | cons c p ih =>
    have hcne := hp c (by simp)
    rw [lookup_cons _ hcne] at hm
    obtain ⟨m', hc, hm'⟩ := Option.bind_eq_some_iff.1 hm
    cases p with
    | nil =>
      cases hm'
      show ((setLeaf v root c).2 = .ok () ↔ _) ∧ ((setLeaf v root c).2 ≠ .ok () → setLeaf v root c = _)
      unfold setLeaf
      rw [hc]
      cases m with
      | scalar w =>
        dsimp only
        by_cases hk : w.kind = v.kind
        · rw [if_pos hk]
          exact ⟨⟨fun _ => ⟨w, rfl, hk⟩, fun _ => rfl⟩, fun h => absurd rfl h⟩
        · rw [if_neg hk]
          refine ⟨⟨nofun, ?_⟩, fun _ => rfl⟩
          rintro ⟨w', e, hk'⟩
          cases e
          exact absurd hk' hk
      | _ => exact ⟨⟨nofun, nofun⟩, fun _ => rfl⟩
    | cons d cs =>
      rw [descend, hc]
      dsimp only
      obtain ⟨i1, i2⟩ := ih (fun x hx => hp x (by simp [hx])) (by simp) hm'
      refine ⟨i1, fun h => ?_⟩
      rw [i2 h]
      have : root.replace c m' = root := by
        cases root with
        | group l =>
          show Node.group _ = _
          congr 1
          change childOf c l = some m' at hc
          clear ih hm i1 i2 h hp hne
          induction l with
          | nil => rfl
          | cons x l ihl =>
            obtain ⟨k, y⟩ := x
            unfold childOf at hc
            unfold replaceIn
            by_cases hk : k = c
            · rw [if_pos hk] at hc ⊢
              cases hc
              rfl
            · rw [if_neg hk] at hc ⊢
              rw [ihl hc]
        | _ => rfl
      rw [this]

theorem add_result (n : Node F) (c : Str) (m : Node F) :
    (n.add c m).2 = .ok () ↔ (∃ l, n = .group l) ∧ validName c = true := by
  refine ⟨fun h => ⟨(add_ok h).1, (add_ok h).2.1⟩, ?_⟩
  rintro ⟨⟨l, rfl⟩, hv⟩
  unfold Node.add
  dsimp only
  rw [if_pos hv]

theorem descend_absent (v : Value F) (p : List Str) : ∀ (n : Node F) (c : Str), n.child c = none →
    ((descend (setLeaf v) n (c :: p)).2 = .ok () ↔ (∃ l, n = .group l) ∧ ∀ d ∈ c :: p, validName d = true) := by
  induction p with
  | nil =>
    intro n c hc
    show (setLeaf v n c).2 = .ok () ↔ _
    unfold setLeaf
    rw [hc]
    dsimp only
    rw [add_result]
    simp
  | cons d p ih =>
    intro n c hc
    rw [descend, hc]
    dsimp only
    cases ha : (n.add c (.group [])).2 with
    | error e =>
      have hne : ¬ (n.add c (.group [])).2 = .ok () := by rw [ha]; nofun
      rw [add_result] at hne
      refine ⟨nofun, fun h => absurd ⟨h.1, h.2 c (by simp)⟩ hne⟩
    | ok u =>
      have ha' := (add_result n c (.group [])).1 ha
      dsimp only
      rw [ih (.group []) d rfl]
      refine ⟨fun h => ⟨ha'.1, ?_⟩, fun h => ⟨⟨[], rfl⟩, fun x hx => h.2 x (by simp [hx])⟩⟩
      intro x hx
      rcases List.mem_cons.1 hx with rfl | hx
      · exact ha'.2
      · exact h.2 x hx

/-- C94: a setting that does not exist can be set exactly if what exists on the way to it ends in a group, and all names
that have to be added are valid. -/
theorem C94_new {root : Node F} {name : Str} (hp : Path (parts name)) (v : Value F)
    (hm : root.lookup (parts name) = none) :
    (set root name v).2 = .ok () ↔ ∃ a c b l, parts name = a ++ c :: b ∧ root.lookup a = some (.group l) ∧
      (Node.group l).child c = none ∧ ∀ d ∈ c :: b, validName d = true := by
  unfold set
  generalize parts name = p at hp hm
  induction p generalizing root with
  | nil => cases hm
  | cons c p ih =>
    have hcne := hp c (by simp)
    rw [lookup_cons _ hcne] at hm
    cases hc : root.child c with
    | none =>
      rw [descend_absent v p root c hc]
      constructor
      · rintro ⟨⟨l, rfl⟩, hv⟩
        exact ⟨[], c, p, l, rfl, rfl, hc, hv⟩
      · rintro ⟨a, c', b, l, e, hl, hcl, hv⟩
        cases a with
        | nil =>
          cases hl
          cases e
          exact ⟨⟨l, rfl⟩, hv⟩
        | cons x a =>
          obtain ⟨rfl, -⟩ := List.cons.inj e
          rw [lookup_cons _ hcne, hc] at hl
          cases hl
    | some m =>
      rw [hc, Option.bind_some] at hm
      cases p with
      | nil => cases hm
      | cons d cs =>
        rw [descend, hc]
        dsimp only
        rw [ih (fun x hx => hp x (by simp [hx])) hm]
        constructor
        · rintro ⟨a, c', b, l, e, hl, h⟩
          refine ⟨c :: a, c', b, l, by rw [e]; rfl, ?_, h⟩
          rw [lookup_cons _ hcne, hc]
          exact hl
        · rintro ⟨a, c', b, l, e, hl, hcl, hv⟩
          cases a with
          | nil =>
            cases hl
            cases e
            rw [hcl] at hc
            cases hc
          | cons x a =>
            obtain ⟨rfl, e'⟩ := List.cons.inj e
            rw [lookup_cons _ hcne, hc] at hl
            exact ⟨a, c', b, l, e', hl, hcl, hv⟩

/-! ### Creation of groups and lists -/

theorem createLeaf_has {m : Node F} (hm : Empty m) (n : Node F) (c : Str) (q : List Str) (hq : Path q) :
    ((n.lookup q).isSome → ((createLeaf m n c).1.lookup q).isSome) ∧
    (((createLeaf m n c).1.lookup q).isSome → (n.lookup q).isSome ∨ q = [c]) := by
  unfold createLeaf
  cases hc : n.child c with
  | some _ => exact ⟨id, .inl⟩
  | none =>
    dsimp only
    by_cases ha : (n.add c m).2 = .ok ()
    · exact lookup_child_congr hc (child_add ha hc) hm.child q hq
    · rw [add_error ha]
      exact ⟨id, .inl⟩

/-- C94: creating a group or list does not change what is read. -/
theorem C94_create_frame (root : Node F) (name : Str) {m : Node F} (hm : Empty m) (other : Str) (kind : Kind) :
    read (create root name m).1 kind other = read root kind other := by
  unfold create
  by_cases h : has root name = true
  · rw [if_pos h]
  · rw [if_neg h]
    apply read_of_valueAt
    rw [valueAt_filter, valueAt_filter root]
    by_cases he : (parts other).filter (· ≠ []) = parts name
    swap
    · exact descend_frame (fun n c q hq _ => createLeaf_frame hm n c q hq) _ root _ (path_filter _) he
    have hp : Path (parts name) := he ▸ path_filter _
    rw [he]
    clear he h
    generalize parts name = p at hp
    induction p generalizing root with
    | nil => rfl
    | cons c p ih =>
      have hcne := hp c (by simp)
      cases p with
      | nil => exact createLeaf_frame hm root c [c] hp
      | cons d cs =>
        rw [descend]
        cases hc : root.child c with
        | some m' =>
          dsimp only
          rw [valueAt_cons _ hcne, valueAt_cons _ hcne, child_replace _ _ _ _ (by rw [hc]; rfl), if_pos rfl, hc]
          exact ih m' fun x hx => hp x (by simp [hx])
        | none =>
          cases ha : (root.add c (.group [])).2 with
          | error e => rfl
          | ok u =>
            dsimp only
            have ha' := (add_ok ha).2.2 (descend (createLeaf m) (.group []) (d :: cs)).1
            rw [valueAt_cons _ hcne, valueAt_cons _ hcne, child_add ha' hc, if_pos rfl, hc, Option.bind_some,
              ih (.group []) fun x hx => hp x (by simp [hx]), valueAt_cons _ (hp d (by simp))]
            rfl

/-- C94: creating a group or list fails if the name is in use, and then changes nothing; with success, there is an empty
group or list of that name. -/
theorem C94_create {root : Node F} (hr : Proper root) (name : Str) (m : Node F) :
    (has root name = true → create root name m = (root, .error .exception)) ∧
    ((create root name m).2 = .ok () → getSetting (create root name m).1 name = .ok m) := by
  unfold create
  by_cases h : has root name = true
  · rw [if_pos h]
    exact ⟨fun _ => rfl, nofun⟩
  · rw [if_neg h]
    refine ⟨fun h' => absurd h' h, fun hok => ?_⟩
    have hp : Path (parts name) := by
      refine descend_path ?_ _ root hr hok
      rintro n c hok h0 rfl
      unfold createLeaf at hok
      cases hc : n.child ([] : Str) with
      | none =>
        rw [hc] at hok
        exact validName_ne_nil (add_ok hok).2.1 rfl
      | some m => exact h0 m hc
    have hno : root.lookup (parts name) = none := by
      unfold has at h
      simpa using h
    have hne : parts name ≠ [] := splitChar_ne_nil _ _
    unfold getSetting
    suffices (descend (createLeaf m) root (parts name)).1.lookup (parts name) = some m by rw [this]
    clear h hr
    generalize parts name = p at hp hno hok hne
    induction p generalizing root with
    | nil => exact absurd rfl hne
    | cons c p ih =>
      have hcne := hp c (by simp)
      rw [lookup_cons _ hcne] at hno
      cases p with
      | nil =>
        change (createLeaf m root c).2 = .ok () at hok
        show (createLeaf m root c).1.lookup [c] = some m
        cases hc : root.child c with
        | some x =>
          rw [hc] at hno
          cases hno
        | none =>
          unfold createLeaf at hok ⊢
          rw [hc] at hok ⊢
          dsimp only at hok ⊢
          rw [lookup_cons _ hcne, child_add hok hc, if_pos rfl]
          rfl
      | cons d cs =>
        rw [descend] at hok ⊢
        cases hc : root.child c with
        | some m' =>
          rw [hc] at hno hok
          dsimp only at hok ⊢
          rw [lookup_cons _ hcne, child_replace _ _ _ _ (by rw [hc]; rfl), if_pos rfl]
          exact ih (fun x hx => hp x (by simp [hx])) hno hok (by simp)
        | none =>
          rw [hc] at hok
          cases ha : (root.add c (.group [])).2 with
          | error e =>
            rw [ha] at hok
            cases hok
          | ok u =>
            rw [ha] at hok
            dsimp only at hok ⊢
            have ha' := (add_ok ha).2.2 (descend (createLeaf m) (.group []) (d :: cs)).1
            rw [lookup_cons _ hcne, child_add ha' hc, if_pos rfl]
            refine ih (fun x hx => hp x (by simp [hx])) ?_ hok (by simp)
            rw [lookup_cons _ (hp d (by simp))]
            rfl

/-! ### Histories -/

theorem proper_iff (n : Node F) : Proper n ↔ n.child [] = none ∧ ∀ c m, n.child c = some m → Proper m := by
  constructor
  · intro h
    refine ⟨h [] n rfl, fun c m hc q m' hm' => ?_⟩
    have hcne : c ≠ [] := by
      rintro rfl
      rw [h [] n rfl] at hc
      cases hc
    refine h (c :: q) m' ?_
    rw [lookup_cons _ hcne, hc]
    exact hm'
  · rintro ⟨h0, h⟩ q
    induction q with
    | nil =>
      intro m hm
      cases hm
      exact h0
    | cons c q ih =>
      intro m hm
      by_cases hc : c = []
      · rw [Node.lookup, if_pos hc] at hm
        exact ih m hm
      · rw [lookup_cons _ hc] at hm
        obtain ⟨m', hc', hm'⟩ := Option.bind_eq_some_iff.1 hm
        exact h c m' hc' q m hm'

theorem proper_of_no_child {n : Node F} (h : ∀ c, n.child c = none) : Proper n :=
  (proper_iff n).2 ⟨h [], fun c m hc => by rw [h c] at hc; cases hc⟩

theorem proper_update {n n' : Node F} {c : Str} {m : Node F} (hn : Proper n) (hc : c ≠ []) (hm : Proper m)
    (h : ∀ d, n'.child d = if d = c then some m else n.child d) : Proper n' := by
  rw [proper_iff] at hn ⊢
  refine ⟨?_, fun d m' hd => ?_⟩
  · rw [h, if_neg (Ne.symm hc)]
    exact hn.1
  · rw [h] at hd
    by_cases hdc : d = c
    · rw [if_pos hdc] at hd
      cases hd
      exact hm
    · rw [if_neg hdc] at hd
      exact hn.2 d m' hd

theorem proper_add {n : Node F} (hn : Proper n) {c : Str} (hc : n.child c = none) {m : Node F} (hm : Proper m) :
    Proper (n.add c m).1 := by
  by_cases ha : (n.add c m).2 = .ok ()
  · exact proper_update hn (validName_ne_nil (add_ok ha).2.1) hm (child_add ha hc)
  · rw [add_error ha]
    exact hn

theorem proper_replace {n : Node F} (hn : Proper n) {c : Str} {x : Node F} (hc : n.child c = some x) {m : Node F}
    (hm : Proper m) : Proper (n.replace c m) := by
  refine proper_update hn ?_ hm fun d => child_replace n c d m (by rw [hc]; rfl)
  rintro rfl
  rw [((proper_iff n).1 hn).1] at hc
  cases hc

theorem descend_proper {leaf : Node F → Str → Node F × Except Err Unit} (hleaf : ∀ n c, Proper n → Proper (leaf n c).1)
    (p : List Str) : ∀ n : Node F, Proper n → Proper (descend leaf n p).1 := by
  induction p with
  | nil => exact fun n hn => hn
  | cons c p ih =>
    intro n hn
    cases p with
    | nil => exact hleaf n c hn
    | cons d cs =>
      rw [descend]
      cases hc : n.child c with
      | some m => exact proper_replace hn hc (ih m (((proper_iff n).1 hn).2 c m hc))
      | none =>
        cases (n.add c (.group [])).2 with
        | error e => exact hn
        | ok u => exact proper_add hn hc (ih _ (proper_of_no_child fun _ => rfl))

theorem proper_run {root : Node F} (hr : Proper root) (op : Op F) : Proper (op.run root).1 := by
  have hcreate : ∀ name {m : Node F}, Empty m → Proper (create root name m).1 := by
    intro name m hm
    unfold create
    split_ifs
    · exact hr
    · refine descend_proper (fun n c hn => ?_) _ root hr
      unfold createLeaf
      cases hc : n.child c with
      | some _ => exact hn
      | none => exact proper_add hn hc (proper_of_no_child hm.child)
  cases op with
  | set name v =>
    refine descend_proper (fun n c hn => ?_) _ root hr
    have hv : Proper (.scalar v : Node F) := proper_of_no_child fun _ => rfl
    unfold setLeaf
    cases hc : n.child c with
    | none => exact proper_add hn hc hv
    | some m =>
      cases m with
      | scalar w =>
        dsimp only
        split_ifs
        · exact proper_replace hn hc hv
        · exact hn
      | _ => exact hn
  | createGroup name => exact hcreate name (.inl rfl)
  | createList name => exact hcreate name (.inr rfl)

theorem proper_runAll {root : Node F} (hr : Proper root) (ops : List (Op F)) : Proper (runAll root ops) := by
  induction ops generalizing root with
  | nil => exact hr
  | cons op ops ih => exact ih (proper_run hr op)

theorem runAll_concat (root : Node F) (ops : List (Op F)) (op : Op F) :
    runAll root (ops ++ [op]) = (op.run (runAll root ops)).1 := by
  unfold runAll
  rw [List.foldl_append]
  rfl

theorem reads_same {root : Node F} {a b : Str} (h : SameName a b) (v : Value F) : Reads root a v ↔ Reads root b v := by
  rw [reads_iff, reads_iff, valueAt_filter, h, ← valueAt_filter]

theorem reads_of_read {r r' : Node F} {name : Str} (h : ∀ kind, read r kind name = read r' kind name) (v : Value F) :
    Reads r name v ↔ Reads r' name v := by
  unfold Reads
  rw [h]

/-- Whether a call sets the setting with success. -/
def Sets (r : Node F) (op : Op F) (name : Str) (v : Value F) : Prop :=
  ∃ name', op = .set name' v ∧ SameName name' name ∧ (op.run r).2 = .ok ()

theorem run_frame {r : Node F} {op : Op F} {name : Str} (h : ∀ w, ¬ Sets r op name w) (v : Value F) :
    Reads (op.run r).1 name v ↔ Reads r name v := by
  apply reads_of_read
  intro kind
  cases op with
  | set name' w =>
    by_cases hs : SameName name' name
    · exact C94_failure_partial r name' w (fun hok => h w ⟨name', rfl, hs, hok⟩) name kind
    · exact C94_frame r name' w (fun e => hs e.symm) kind
  | createGroup name' => exact C94_create_frame r name' (.inl rfl) name kind
  | createList name' => exact C94_create_frame r name' (.inr rfl) name kind

theorem concat_eq {α : Type} {l a b : List α} {x y : α} :
    l ++ [x] = a ++ y :: b ↔ (b = [] ∧ a = l ∧ x = y) ∨ ∃ b', b = b' ++ [x] ∧ l = a ++ y :: b' := by
  constructor
  · intro h
    rcases List.eq_nil_or_concat b with rfl | ⟨b', z, rfl⟩
    · obtain ⟨h1, h2⟩ := List.append_inj' h rfl
      exact .inl ⟨rfl, h1.symm, by simpa using h2⟩
    · right
      rw [List.concat_eq_append] at h ⊢
      have h' : l ++ [x] = (a ++ y :: b') ++ [z] := by simpa using h
      obtain ⟨h1, h2⟩ := List.append_inj' h' rfl
      exact ⟨b', by simpa using h2.symm, h1⟩
  · rintro (⟨rfl, rfl, rfl⟩ | ⟨b', rfl, rfl⟩)
    · rfl
    · simp

theorem lastSet_concat (root : Node F) (ops : List (Op F)) (op : Op F) (name : Str) (v : Value F) :
    LastSet root (ops ++ [op]) name v ↔
      Sets (runAll root ops) op name v ∨ ((∀ w, ¬ Sets (runAll root ops) op name w) ∧ LastSet root ops name v) := by
  constructor
  · rintro ⟨before, name', after, he, hs, hok, hlast⟩
    rcases concat_eq.1 he with ⟨rfl, rfl, rfl⟩ | ⟨after', rfl, rfl⟩
    · exact .inl ⟨name', rfl, hs, hok⟩
    · refine .inr ⟨?_, before, name', after', rfl, hs, hok, ?_⟩
      · rintro w ⟨name'', rfl, hs', hok'⟩
        exact hlast after' name'' w [] rfl hs' hok'
      · intro before' name'' w after'' e hs'
        exact hlast before' name'' w (after'' ++ [op]) (by rw [e]; simp) hs'
  · rintro (⟨name', rfl, hs, hok⟩ | ⟨hno, before, name', after, rfl, hs, hok, hlast⟩)
    · refine ⟨ops, name', [], rfl, hs, hok, ?_⟩
      intro before' name'' w after' e
      simp at e
    · refine ⟨before, name', after ++ [op], by simp, hs, hok, ?_⟩
      intro before' name'' w after' e hs'
      rcases concat_eq.1 e with ⟨rfl, rfl, rfl⟩ | ⟨b', rfl, rfl⟩
      · exact fun hok' => hno w ⟨name'', rfl, hs', hok'⟩
      · exact hlast before' name'' w b' rfl hs'

theorem neverSet_concat (root : Node F) (ops : List (Op F)) (op : Op F) (name : Str) :
    NeverSet root (ops ++ [op]) name ↔ (∀ w, ¬ Sets (runAll root ops) op name w) ∧ NeverSet root ops name := by
  constructor
  · intro h
    constructor
    · rintro w ⟨name', rfl, hs, hok⟩
      exact h ops name' w [] rfl hs hok
    · intro before name' v after e hs
      exact h before name' v (after ++ [op]) (by rw [e]; simp) hs
  · rintro ⟨hno, h⟩ before name' v after e hs
    rcases concat_eq.1 e with ⟨rfl, rfl, rfl⟩ | ⟨b', rfl, rfl⟩
    · exact fun hok => hno v ⟨name', rfl, hs, hok⟩
    · exact h before name' v b' rfl hs

/-- C94: after any history of calls, caught exceptions included, what is read for a setting is what it was last set to with
success, and what it was in the beginning if it never was. -/
theorem C94_history {root : Node F} (hr : Proper root) (ops : List (Op F)) (name : Str) (v : Value F) :
    Reads (runAll root ops) name v ↔
      LastSet root ops name v ∨ (NeverSet root ops name ∧ Reads root name v) := by
  induction ops using List.reverseRecOn with
  | nil =>
    constructor
    · intro h
      refine .inr ⟨?_, h⟩
      intro before name' v after e
      simp at e
    · rintro (⟨before, name', after, e, -⟩ | ⟨-, h⟩)
      · simp at e
      · exact h
  | append_singleton ops op ih =>
    rw [runAll_concat, lastSet_concat, neverSet_concat]
    by_cases hsets : ∃ w, Sets (runAll root ops) op name w
    · obtain ⟨w, hw⟩ := hsets
      have hreads : Reads (op.run (runAll root ops)).1 name w := by
        obtain ⟨name', rfl, hs, hok⟩ := hw
        exact (reads_same hs w).1 (C94_set_read (proper_runAll hr ops) hok)
      constructor
      · intro h
        rw [reads_iff] at h hreads
        rw [hreads] at h
        cases h
        exact .inl (.inl hw)
      · rintro ((⟨name', rfl, hs, hok⟩ | ⟨hno, -⟩) | ⟨⟨hno, -⟩, -⟩)
        · obtain ⟨name'', e, -⟩ := hw
          cases e
          exact hreads
        · exact absurd hw (hno w)
        · exact absurd hw (hno w)
    · have hno : ∀ w, ¬ Sets (runAll root ops) op name w := fun w hw => hsets ⟨w, hw⟩
      rw [run_frame hno, ih]
      constructor
      · rintro (h | ⟨h1, h2⟩)
        · exact .inl (.inr ⟨hno, h⟩)
        · exact .inr ⟨⟨hno, h1⟩, h2⟩
      · rintro ((h | ⟨-, h⟩) | ⟨⟨-, h1⟩, h2⟩)
        · exact absurd h (hno v)
        · exact .inl h
        · exact .inr ⟨h1, h2⟩

/-! ### Unsigned numbers -/

theorem toInt_mod {u : ℕ} (h : u < 2 ^ 32) : toInt u % 2 ^ 32 = (u : ℤ) := by
  unfold toInt
  split_ifs <;> omega

/-- C94: an unsigned number less than `2 ^ 31` can be set and read. What is missing is the other half of the numbers of
the type. -/
theorem C94_unsigned_partial {root : Node F} (hr : Proper root) {name : Str} {u : ℕ} (hu : u < 2 ^ 31)
    (h : (setUnsigned root name u).2 = .ok ()) : readUnsigned (setUnsigned root name u).1 name = .ok u := by
  have e : setUnsigned root name u = set root name (.int u) := by
    unfold setUnsigned
    rw [if_pos (toInt_mod (by omega))]
    unfold toInt
    rw [if_pos hu]
  rw [e] at h ⊢
  have := C94_set_read hr h
  unfold Reads at this
  change read _ .int name = _ at this
  unfold readUnsigned
  rw [this]
  simp

/-- C94: every unsigned number that is too large for an `int` is read as zero after it has been set with success. -/
theorem C94_unsigned_large {root : Node F} (hr : Proper root) {name : Str} {u : ℕ} (hu : 2 ^ 31 ≤ u) (hu' : u < 2 ^ 32)
    (h : (setUnsigned root name u).2 = .ok ()) : readUnsigned (setUnsigned root name u).1 name = .ok 0 := by
  have e : setUnsigned root name u = set root name (.int ((u : ℤ) - 2 ^ 32)) := by
    unfold setUnsigned
    rw [if_pos (toInt_mod hu')]
    unfold toInt
    rw [if_neg (by omega)]
  rw [e] at h ⊢
  have := C94_set_read hr h
  unfold Reads at this
  change read _ .int name = _ at this
  unfold readUnsigned
  rw [this]
  show Except.ok _ = _
  congr 1
  omega

theorem proper_empty : Proper (.group [] : Node F) := proper_of_no_child fun _ => rfl

/-- The name of a setting in the examples. -/
def nameA : Str := ['a']
/-- Likewise. -/
def nameAB : Str := ['a', '.', 'b']
/-- A path the last part of which is not a name. -/
def nameA1 : Str := ['a', '.', '1']

example : (set (.group [] : Node ℚ) nameAB (.float 3)).2 = .ok () := rfl
example : Reads (set (.group [] : Node ℚ) nameAB (.float 3)).1 nameAB (.float 3) := C94_set_read proper_empty rfl
example : set (set (.group [] : Node ℚ) nameAB (.float 3)).1 nameAB (.int 3) =
    ((set (.group [] : Node ℚ) nameAB (.float 3)).1, .error .invalidArgument) := rfl
example : ¬ SameName nameA nameAB := by
  unfold SameName
  decide
example : SameName ['a', '.', '.', 'b'] nameAB := by
  unfold SameName
  decide
example : (setUnsigned (.group [] : Node ℚ) nameAB 7).2 = .ok () := rfl
example : (createList (.group [] : Node ℚ) nameAB).2 = .ok () := rfl
example : LastSet (.group [] : Node ℚ) [.set nameAB (.int 1), .set nameAB (.float 2), .createGroup nameA] nameAB (.int 1) := by
  have h : Reads (runAll (.group [] : Node ℚ) [.set nameAB (.int 1), .set nameAB (.float 2), .createGroup nameA]) nameAB
      (.int 1) := rfl
  rcases (C94_history proper_empty _ _ _).1 h with h | ⟨-, h⟩
  · exact h
  · cases h

/-- C94 fails as stated: an unsigned number can be set without an exception and is then read as another. -/
theorem C94_unsigned_violated :
    ¬ ∀ (root : Node ℚ) (name : Str) (u : ℕ), Proper root → u < 2 ^ 32 → (setUnsigned root name u).2 = .ok () →
      readUnsigned (setUnsigned root name u).1 name = .ok u := by
  intro h
  have h1 := h (.group []) nameA (2 ^ 31) proper_empty (by decide) rfl
  have h2 := C94_unsigned_large (F := ℚ) proper_empty (name := nameA) (u := 2 ^ 31) (by decide) (by decide) rfl
  rw [h1] at h2
  cases h2

/-- C94 fails as stated: a negative number is read as an unsigned one without an exception. -/
theorem C94_negative_violated :
    ¬ ∀ (root : Node ℚ) (name : Str) (i : ℤ) (u : ℕ), Proper root → Reads root name (.int i) →
      readUnsigned root name = .ok u → (u : ℤ) = i := by
  intro h
  have := h (set (.group []) nameA (.int (-5))).1 nameA (-5) 0 (proper_run proper_empty (.set nameA (.int (-5)))) rfl rfl
  omega

/-- C94 fails as stated: if the name of the setting is not acceptable, the groups it would have been in are created
nevertheless. -/
theorem C94_failure_violated :
    ¬ ∀ (root : Node ℚ) (name : Str) (v : Value ℚ), Proper root → (set root name v).2 ≠ .ok () →
      (set root name v).1 = root := by
  intro h
  have := h (.group []) nameA1 (.int 5) proper_empty (by nofun)
  cases this

/-! ### Parts of the configuration -/

theorem parts_dot (a b : Str) : parts (a ++ '.' :: b) = parts a ++ parts b := by
  unfold parts
  induction a with
  | nil => simp [splitChar]
  | cons c a ih =>
    rw [List.cons_append, splitChar, splitChar, ih]
    by_cases hc : c = '.'
    · rw [if_pos hc, if_pos hc]
      rfl
    · rw [if_neg hc, if_neg hc]
      cases h : splitChar '.' a with
      | nil => exact absurd h (splitChar_ne_nil _ _)
      | cons p ps => rfl

theorem lookup_append (n : Node F) (a b : List Str) : n.lookup (a ++ b) = (n.lookup a).bind fun m => m.lookup b := by
  induction a generalizing n with
  | nil => rfl
  | cons x a ih =>
    rw [List.cons_append]
    by_cases hx : x = []
    · rw [Node.lookup, if_pos hx, Node.lookup, if_pos hx, ih]
    · rw [lookup_cons _ hx, lookup_cons _ hx]
      cases n.child x with
      | none => rfl
      | some m => exact ih m

theorem hasParts_eq (n : Node F) {q : List Str} (hq : Path q) (hne : q ≠ []) : n.hasParts q = .ok (n.lookup q).isSome := by
  induction q generalizing n with
  | nil => exact absurd rfl hne
  | cons c q ih =>
    have hc := hq c (by simp)
    rw [lookup_cons _ hc]
    cases q with
    | nil =>
      rw [Node.hasParts]
      cases n.child c <;> rfl
    | cons d cs =>
      have : ¬ (c = [] ∨ d :: cs = [[]]) := by
        rintro (e | e)
        · exact hc e
        · exact hq d (by simp) (by simpa using (List.cons.inj e).1)
      rw [Node.hasParts, if_neg this]
      cases n.child c with
      | none => rfl
      | some m => exact ih m (fun x hx => hq x (by simp [hx])) (by simp)

theorem readParts_eq (n : Node F) (kind : Kind) {q : List Str} (hq : Path q) (hne : q ≠ []) :
    n.readParts kind q = match n.lookup q with
      | none => .error .invalidConfiguration
      | some m => m.asKind kind := by
  induction q generalizing n with
  | nil => exact absurd rfl hne
  | cons c q ih =>
    have hc := hq c (by simp)
    rw [lookup_cons _ hc]
    cases q with
    | nil =>
      rw [Node.readParts]
      cases n.child c <;> rfl
    | cons d cs =>
      have : ¬ (c = [] ∨ d :: cs = [[]]) := by
        rintro (e | e)
        · exact hc e
        · exact hq d (by simp) (by simpa using (List.cons.inj e).1)
      rw [Node.readParts, if_neg this]
      cases n.child c with
      | none => rfl
      | some m => exact ih m (fun x hx => hq x (by simp [hx])) (by simp)

/-- C95: asking a part of the configuration for a setting is the same as asking the configuration for the setting with the
name of the part in front. -/
theorem C95_part {root n : Node F} {a : Str} (ha : getSetting root a = .ok n) {b : Str} (hb : Path (parts b)) :
    n.has b = .ok (has root (a ++ '.' :: b)) ∧
    (∀ kind, n.read kind b = read root kind (a ++ '.' :: b)) ∧
    n.getSetting b = getSetting root (a ++ '.' :: b) := by
  have hl : root.lookup (parts a) = some n := by
    unfold getSetting at ha
    cases h : root.lookup (parts a) with
    | none =>
      rw [h] at ha
      cases ha
    | some m =>
      rw [h] at ha
      cases ha
      rfl
  have hab : root.lookup (parts (a ++ '.' :: b)) = n.lookup (parts b) := by
    rw [parts_dot, lookup_append, hl]
    rfl
  have hne : parts b ≠ [] := splitChar_ne_nil _ _
  have hhas : n.has b = .ok (n.lookup (parts b)).isSome := hasParts_eq n hb hne
  refine ⟨?_, fun kind => ?_, ?_⟩
  · rw [hhas]
    unfold has
    rw [hab]
  · unfold read
    rw [hab]
    exact readParts_eq n kind hb hne
  · unfold Node.getSetting getSetting
    rw [hhas, hab]
    cases n.lookup (parts b) <;> rfl

/-- C95: a setting exists if and only if it can be obtained, and whatever can be read exists. -/
theorem C95_has (root : Node F) (name : Str) :
    (has root name = true ↔ ∃ n, getSetting root name = .ok n) ∧
    (∀ kind v, read root kind name = .ok v → has root name = true ∧ v.kind = kind) ∧
    (∀ v, Reads root name v → ∀ kind, kind ≠ v.kind → read root kind name = .error .invalidConfiguration) := by
  unfold has getSetting Reads read
  cases root.lookup (parts name) with
  | none => exact ⟨⟨nofun, nofun⟩, nofun, nofun⟩
  | some n =>
    refine ⟨⟨fun _ => ⟨n, rfl⟩, fun _ => rfl⟩, fun kind v h => ⟨rfl, ?_⟩, fun v h kind hk => ?_⟩
    · cases n with
      | scalar w =>
        simp only [Node.asKind] at h
        by_cases hk : w.kind = kind
        · rw [if_pos hk] at h
          cases h
          exact hk
        · rw [if_neg hk] at h
          cases h
      | _ => cases h
    · cases n with
      | scalar w =>
        simp only [Node.asKind] at h ⊢
        by_cases hw : w.kind = v.kind
        · rw [if_neg (fun e => hk (e.symm.trans hw))]
        · rw [if_neg hw] at h
          cases h
      | _ => cases h

/-- C95: an assertion on a value succeeds exactly if this value is read. -/
theorem C95_assert {same : Value F → Value F → Bool} (hsame : ∀ a b, same a b = true ↔ a = b) (root : Node F) (name : Str)
    (v : Value F) :
    (assertValue same root name v = .ok () ↔ Reads root name v) ∧
    (¬ Reads root name v → assertValue same root name v = .error .invalidConfiguration) := by
  have hx : ∀ e, read root v.kind name = .error e → e = .invalidConfiguration := by
    intro e
    unfold read
    cases root.lookup (parts name) with
    | none =>
      intro h
      cases h
      rfl
    | some n =>
      cases n with
      | scalar w =>
        simp only [Node.asKind]
        split_ifs
        · nofun
        · intro h
          cases h
          rfl
      | _ =>
        intro h
        cases h
        rfl
  unfold assertValue Reads
  cases h : read root v.kind name with
  | error e =>
    rw [hx e h]
    exact ⟨⟨nofun, nofun⟩, fun _ => rfl⟩
  | ok w =>
    dsimp only
    by_cases hw : same w v = true
    · rw [if_pos hw, (hsame w v).1 hw]
      exact ⟨⟨fun _ => rfl, fun _ => rfl⟩, fun hn => absurd rfl hn⟩
    · rw [if_neg hw]
      exact ⟨⟨nofun, fun e => absurd ((hsame w v).2 (Except.ok.inj e)) hw⟩, fun _ => rfl⟩

/-- C95: the comparison of the names of a group's children to permitted ones. It succeeds exactly if all are permitted;
otherwise the first one that is not is reported. -/
theorem C95_names (names : Str → Bool) (children : List (Str × Node F)) :
    ((namesIn names children).1 = true ↔ ∀ c ∈ children, names c.1 = true) ∧
    (∀ k, (namesIn names children).2 = some k ↔
      ∃ before n after, children = before ++ (k, n) :: after ∧ names k = false ∧ ∀ c ∈ before, names c.1 = true) ∧
    ((namesIn names children).1 = true ↔ (namesIn names children).2 = none) := by
  induction children with
  | nil => exact ⟨by simp [namesIn], by simp [namesIn], by simp [namesIn]⟩
  | cons x children ih =>
    obtain ⟨k, n⟩ := x
    obtain ⟨i1, i2, i3⟩ := ih
    unfold namesIn
    by_cases hk : names k = true
    · rw [if_pos hk]
      refine ⟨?_, fun k' => ?_, i3⟩
      · rw [i1]
        simp [hk]
      · rw [i2]
        constructor
        · rintro ⟨b, m, a, rfl, h1, h2⟩
          refine ⟨(k, n) :: b, m, a, rfl, h1, ?_⟩
          intro c hc
          rcases List.mem_cons.1 hc with rfl | hc
          · exact hk
          · exact h2 c hc
        · rintro ⟨b, m, a, e, h1, h2⟩
          cases b with
          | nil =>
            cases e
            rw [hk] at h1
            cases h1
          | cons y b =>
            exact ⟨b, m, a, (List.cons.inj e).2, h1, fun c hc => h2 c (by simp [hc])⟩
    · rw [if_neg hk]
      refine ⟨by simp [hk], fun k' => ?_, by simp⟩
      constructor
      · intro e
        cases e
        exact ⟨[], n, children, rfl, by simpa using hk, by simp⟩
      · rintro ⟨b, m, a, e, h1, h2⟩
        cases b with
        | nil =>
          cases e
          rfl
        | cons y b =>
          rw [List.cons_append] at e
          obtain ⟨rfl, -⟩ := List.cons.inj e
          exact absurd (h2 (k, n) (by simp)) hk

/-- C95: children by index. -/
theorem C95_child (children : List (Str × Node F)) (i : ℕ) :
    (∀ h : i < children.length, getChild children i = .ok children[i]) ∧
    (children.length ≤ i → getChild children i = .error .invalidArgument) := by
  unfold getChild
  refine ⟨fun h => ?_, fun h => ?_⟩
  · rw [List.getElem?_eq_getElem h]
  · rw [List.getElem?_eq_none h]

/-- C95: elements of lists. -/
theorem C95_list (l : List (Node F)) (i : ℕ) :
    (∀ kind v, (Node.list l).readAt kind i = .ok v ↔ l[i]? = some (.scalar v) ∧ v.kind = kind) ∧
    (∀ kind e, (Node.list l).readAt kind i = .error e → e = .invalidConfiguration) ∧
    (∀ m, (Node.list l).getListAt i = .ok m ↔ l[i]? = some m ∧ ((∃ x, m = .list x) ∨ ∃ x, m = .array x)) := by
  unfold Node.readAt Node.getListAt
  simp only [Node.elements]
  cases l[i]? with
  | none =>
    refine ⟨fun kind v => ⟨nofun, nofun⟩, fun kind e h => ?_, fun m => ⟨nofun, nofun⟩⟩
    cases h
    rfl
  | some n =>
    cases n with
    | scalar w =>
      simp only [Node.asKind]
      refine ⟨fun kind v => ?_, fun kind e h => ?_, fun m => ⟨nofun, ?_⟩⟩
      · by_cases hk : w.kind = kind
        · rw [if_pos hk]
          constructor
          · intro h
            cases h
            exact ⟨rfl, hk⟩
          · rintro ⟨h, -⟩
            cases h
            rfl
        · rw [if_neg hk]
          constructor
          · nofun
          · rintro ⟨h, hv⟩
            cases h
            exact absurd hv hk
      · by_cases hk : w.kind = kind
        · rw [if_pos hk] at h
          cases h
        · rw [if_neg hk] at h
          cases h
          rfl
      · rintro ⟨h, ⟨x, rfl⟩ | ⟨x, rfl⟩⟩ <;> cases h
    | group x =>
      refine ⟨fun kind v => ⟨nofun, nofun⟩, fun kind e h => ?_, fun m => ⟨nofun, ?_⟩⟩
      · cases h
        rfl
      · rintro ⟨h, ⟨x, rfl⟩ | ⟨x, rfl⟩⟩ <;> cases h
    | list x =>
      refine ⟨fun kind v => ⟨nofun, nofun⟩, fun kind e h => ?_, fun m => ⟨fun h => ?_, ?_⟩⟩
      · cases h
        rfl
      · cases h
        exact ⟨rfl, .inl ⟨x, rfl⟩⟩
      · rintro ⟨h, -⟩
        cases h
        rfl
    | array x =>
      refine ⟨fun kind v => ⟨nofun, nofun⟩, fun kind e h => ?_, fun m => ⟨fun h => ?_, ?_⟩⟩
      · cases h
        rfl
      · cases h
        exact ⟨rfl, .inr ⟨x, rfl⟩⟩
      · rintro ⟨h, -⟩
        cases h
        rfl

/-- C95: lists by name. -/
theorem C95_getList (root : Node F) (name : Str) (m : Node F) :
    getList root name = .ok m ↔ getSetting root name = .ok m ∧ ((∃ x, m = .list x) ∨ ∃ x, m = .array x) := by
  unfold getList getSetting
  cases root.lookup (parts name) with
  | none => exact ⟨nofun, nofun⟩
  | some n =>
    cases n with
    | scalar w =>
      refine ⟨nofun, ?_⟩
      rintro ⟨h, ⟨x, rfl⟩ | ⟨x, rfl⟩⟩ <;> cases h
    | group x =>
      refine ⟨nofun, ?_⟩
      rintro ⟨h, ⟨x, rfl⟩ | ⟨x, rfl⟩⟩ <;> cases h
    | list x =>
      constructor
      · intro h
        cases h
        exact ⟨rfl, .inl ⟨x, rfl⟩⟩
      · rintro ⟨h, -⟩
        cases h
        rfl
    | array x =>
      constructor
      · intro h
        cases h
        exact ⟨rfl, .inr ⟨x, rfl⟩⟩
      · rintro ⟨h, -⟩
        cases h
        rfl

example : getSetting (set (.group [] : Node ℚ) nameAB (.float 3)).1 nameA = .ok (.group [(['b'], .scalar (.float 3))]) := rfl
example : Path (parts nameAB) := by
  unfold Path
  decide
example : (namesIn (fun k => k == nameA) [(nameA, (.scalar (.int 1) : Node ℚ)), (['b'], .group [])]) = (false, some ['b']) :=
  by rfl

/-- C95 fails as stated: if a list is asked for by a name which denotes something else, the exception is not the
documented one. -/
theorem C95_getList_violated :
    ¬ ∀ (root : Node ℚ) (name : Str) (e : Err), getList root name = .error e → e = .invalidConfiguration := by
  intro h
  cases h (set (.group []) nameA (.int 5)).1 nameA .exception rfl

/-- C95 fails as stated: likewise, for an index. -/
theorem C95_getListAt_violated :
    ¬ ∀ (n : Node ℚ) (i : ℕ) (e : Err), n.getListAt i = .error e → e = .invalidConfiguration := by
  intro h
  cases h (.list [.scalar (.int 5)]) 0 .exception rfl

/-- A name with two dots in a row. -/
def nameADotDotB : Str := ['a', '.', '.', 'b']

/-- C95 fails as stated: whether a name is illegal for a part of the configuration depends on what is in it; and the
configuration itself accepts it. -/
theorem C95_illegal_violated :
    ¬ ∀ (n n' : Node ℚ) (name : Str), (n.has name = .error .invalidArgument ↔ n'.has name = .error .invalidArgument) := by
  intro h
  cases (h (.group [(nameA, .group [])]) (.group []) nameADotDotB).1 rfl

end OpenMPCD.Config.Cpp
