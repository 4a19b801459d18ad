import Verif.Vec.Model
import Verif.Vec.Props
import Mathlib.Tactic.Linarith
import Mathlib.Tactic.NormNum
import Mathlib.Tactic.Ring

/-!
# Vectors of the analysis as objects (C137)

`Analysis/MPCDAnalysis/Vector3DReal.py`. The objects that exist are a list, and an object is referred to by its place in
it: a new object is appended, and methods that change an object replace it.

Simplifications: numbers are real numbers, whether they are of type `int` or `float`; there is neither infinity nor
not-a-number, and no rounding.
-/

set_option linter.unusedSectionVars false
set_option linter.unusedSimpArgs false
set_option linter.unusedVariables false

namespace OpenMPCD.Vec3.Objects

/-! ## Model -/

/-- What may be given as an argument. -/
inductive Arg
  | none
  | num (x : ℝ)
  | vec (id : ℕ)
  /-- A list, or a tuple. -/
  | seq (l : List Arg)
  /-- A string, say. -/
  | other

/-- The objects that exist. -/
abbrev Heap := List (Vec3 ℝ)

/-- What is returned. -/
inductive Result
  | none
  | num (x : ℝ)
  | bool (b : Bool)
  | vec (id : ℕ)

/-- `isinstance(x, (int, float))`, and the number. -/
def Arg.number : Arg → Except PyErr ℝ
  | .num x => .ok x
  | _ => .error .typeError

/-- `_assertIsSameType` (`Analysis/MPCDAnalysis/Vector3DReal.py:464-473`), and the value of the object. -/
def Arg.vector (h : Heap) : Arg → Except PyErr (Vec3 ℝ)
  | .vec id =>
    match h[id]? with
    | some v => .ok v
    | _ => .error .typeError
  | _ => .error .typeError

def Arg.isNone : Arg → Bool
  | .none => true
  | _ => false

/-- The three components (`Analysis/MPCDAnalysis/Vector3DReal.py:55-61,65-71`). -/
def components (x y z : Arg) : Except PyErr (Vec3 ℝ) := do
  let x ← x.number
  let y ← y.number
  let z ← z.number
  return ⟨x, y, z⟩

/-- The values `__init__` stores (`Analysis/MPCDAnalysis/Vector3DReal.py:8-71`). -/
def init (h : Heap) (x y z : Arg) : Except PyErr (Vec3 ℝ) :=
  match x with
  | .vec id => if y.isNone && z.isNone then (Arg.vec id).vector h else .error .typeError
  | .seq l =>
    if y.isNone && z.isNone then
      match l with
      | [a, b, c] => components a b c
      | _ => .error .typeError
    else .error .typeError
  | x => components x y z

open Classical in
/-- `numpy.allclose` for one component: documented by `numpy`, of which the defaults are, too. -/
noncomputable def close (rtol atol a b : ℝ) : Bool := decide (|a - b| ≤ atol + rtol * |b|)

/-- A tolerance that is given has to be a `float` that is not negative
(`Analysis/MPCDAnalysis/Vector3DReal.py:293-297`). -/
noncomputable def tolerance (default : ℝ) : Arg → Except PyErr ℝ
  | .none => .ok default
  | .num x => if x < 0 then .error .valueError else .ok x
  | _ => .error .typeError

/-- `isClose` (`Analysis/MPCDAnalysis/Vector3DReal.py:269-309`). -/
noncomputable def isClose (u v : Vec3 ℝ) (rtol atol : Arg) : Except PyErr Bool := do
  let r ← tolerance (1 / 100000) rtol
  let a ← tolerance (1 / 100000000) atol
  return close r a u.x v.x && close r a u.y v.y && close r a u.z v.z

open Classical in
/-- `__eq__` (`Analysis/MPCDAnalysis/Vector3DReal.py:312-330`). -/
noncomputable def eq (u v : Vec3 ℝ) : Bool :=
  if u.x ≠ v.x then false
  else if u.y ≠ v.y then false
  else if u.z ≠ v.z then false
  else true

/-- Iterating over an object without `__iter__`: `__getitem__` is called with 0, 1, …; `IndexError` ends the iteration. At
most `fuel` elements. -/
noncomputable def iterate (u : Vec3 ℝ) (start : ℤ) : ℕ → Except PyErr (List ℝ)
  | 0 => .ok []
  | fuel + 1 =>
    match u.getitem start with
    | .error .indexError => .ok []
    | .error e => .error e
    | .ok x => (iterate u (start + 1) fuel).map (x :: ·)

/-- Calls, with the object they are called on. -/
inductive Op
  | construct (x y z : Arg)
  | dot (self : ℕ) (rhs : Arg)
  | cross (self : ℕ) (rhs : Arg)
  | getLengthSquared (self : ℕ)
  | getLength (self : ℕ)
  | getNormalized (self : ℕ)
  | normalize (self : ℕ)
  | getProjectionOnto (self : ℕ) (rhs : Arg)
  | getPerpendicularTo (self : ℕ) (rhs : Arg)
  | getRotated (self : ℕ) (axis : Arg) (angle : ℝ)
  | rotate (self : ℕ) (axis : Arg) (angle : ℝ)
  | isClose (self : ℕ) (rhs rtol atol : Arg)
  | eq (self : ℕ) (rhs : Arg)
  | ne (self : ℕ) (rhs : Arg)
  | add (self : ℕ) (rhs : Arg)
  | sub (self : ℕ) (rhs : Arg)
  | mul (self : ℕ) (rhs : Arg)
  | div (self : ℕ) (rhs : Arg)
  | neg (self : ℕ)
  | getitem (self : ℕ) (index : ℤ)

/-- A new object, if there has been no exception. -/
def fresh (h : Heap) : Except PyErr (Vec3 ℝ) → Heap × Except PyErr Result
  | .error e => (h, .error e)
  | .ok v => (h ++ [v], .ok (.vec h.length))

/-- A method that changes an object: the object after the call, and whether there has been an exception. -/
def assign (h : Heap) (self : ℕ) (f : Vec3 ℝ → Vec3 ℝ × Except PyErr Unit) : Heap × Except PyErr Result :=
  match h[self]? with
  | some u => (h.set self (f u).1, (f u).2.map fun _ => .none)
  | _ => (h, .error .typeError)

open Classical in
/-- `normalize` (`Analysis/MPCDAnalysis/Vector3DReal.py:159-173`): the object after the call, and whether there has been an
exception. -/
noncomputable def normalizeSelf (u : Vec3 ℝ) : Vec3 ℝ × Except PyErr Unit :=
  if u.getLengthSquared = 0 then (u, .error .valueError) else
  let factor := 1 / u.getLength
  let u : Vec3 ℝ := { u with x := u.x * factor }
  let u : Vec3 ℝ := { u with y := u.y * factor }
  let u : Vec3 ℝ := { u with z := u.z * factor }
  (u, .ok ())

/-- Something is returned. -/
def value (h : Heap) {α : Type} (f : α → Result) : Except PyErr α → Heap × Except PyErr Result
  | .error e => (h, .error e)
  | .ok a => (h, .ok (f a))

/-- `rotateAroundNormalizedAxis` (`Analysis/MPCDAnalysis/Vector3DReal.py:246-266`). -/
noncomputable def rotateSelf (h : Heap) (self : ℕ) (axis : Arg) (angle : ℝ) : Heap × Except PyErr Result :=
  match axis.vector h with
  | .error e => (h, .error e)
  | .ok v => assign h self fun u => u.rotateAroundNormalizedAxis v angle

/-- The objects after a call, and what is returned. Calls are on objects that exist. `__div__` and `__truediv__` are the
same (`Analysis/MPCDAnalysis/Vector3DReal.py:389-424`). The values computed are those of `Verif/Vec/Model.lean`. -/
noncomputable def step (h : Heap) : Op → Heap × Except PyErr Result
  | .construct x y z => fresh h (init h x y z)
  | .dot self rhs => value h .num do
      let u ← (Arg.vec self).vector h
      let v ← rhs.vector h
      return u.dot v
  | .cross self rhs => fresh h do
      let u ← (Arg.vec self).vector h
      let v ← rhs.vector h
      return u.cross v
  | .getLengthSquared self => value h .num do
      let u ← (Arg.vec self).vector h
      return u.getLengthSquared
  | .getLength self => value h .num do
      let u ← (Arg.vec self).vector h
      return u.getLength
  | .getNormalized self => fresh h do
      let u ← (Arg.vec self).vector h
      u.getNormalized
  | .normalize self => assign h self normalizeSelf
  | .getProjectionOnto self rhs => fresh h do
      let u ← (Arg.vec self).vector h
      let v ← rhs.vector h
      u.getProjectionOnto v
  | .getPerpendicularTo self rhs => fresh h do
      let u ← (Arg.vec self).vector h
      let v ← rhs.vector h
      u.getPerpendicularTo v
  | .getRotated self axis angle => fresh h do
      let u ← (Arg.vec self).vector h
      let v ← axis.vector h
      u.getRotatedAroundNormalizedAxis v angle
  | .rotate self axis angle => rotateSelf h self axis angle
  | .isClose self rhs rtol atol => value h .bool do
      let u ← (Arg.vec self).vector h
      let v ← rhs.vector h
      Objects.isClose u v rtol atol
  | .eq self rhs => value h .bool do
      let u ← (Arg.vec self).vector h
      let v ← rhs.vector h
      return Objects.eq u v
  | .ne self rhs => value h .bool do
      let u ← (Arg.vec self).vector h
      let v ← rhs.vector h
      return !Objects.eq u v
  | .add self rhs => fresh h do
      let u ← (Arg.vec self).vector h
      let v ← rhs.vector h
      return u + v
  | .sub self rhs => fresh h do
      let u ← (Arg.vec self).vector h
      let v ← rhs.vector h
      return u - v
  | .mul self rhs => fresh h do
      let u ← (Arg.vec self).vector h
      let s ← rhs.number
      return s • u
  | .div self rhs => fresh h do
      let u ← (Arg.vec self).vector h
      let s ← rhs.number
      u.truediv s
  | .neg self => fresh h do
      let u ← (Arg.vec self).vector h
      return -u
  | .getitem self index => value h .num do
      let u ← (Arg.vec self).vector h
      u.getitem index

/-- A program. -/
noncomputable def run (h : Heap) (ops : List Op) : Heap := ops.foldl (fun h op => (step h op).1) h

/-! ## Specification -/

/-- The object a call may change. -/
def changes : Op → Option ℕ
  | .normalize self => some self
  | .rotate self _ _ => some self
  | _ => none

/-- The arguments documented for the constructor (`Analysis/MPCDAnalysis/Vector3DReal.py:16-34`), and the vector meant. -/
inductive Documented (h : Heap) : Arg → Arg → Arg → Vec3 ℝ → Prop
  | vector (id : ℕ) (v : Vec3 ℝ) (there : h[id]? = some v) : Documented h (.vec id) .none .none v
  | sequence (x y z : ℝ) : Documented h (.seq [.num x, .num y, .num z]) .none .none ⟨x, y, z⟩
  | numbers (x y z : ℝ) : Documented h (.num x) (.num y) (.num z) ⟨x, y, z⟩

/-! ## Proofs -/

theorem fresh_prefix (h : Heap) (r : Except PyErr (Vec3 ℝ)) : h <+: (fresh h r).1 := by
  cases r with
  | error e => exact List.prefix_refl _
  | ok v => exact List.prefix_append _ _

theorem value_fst (h : Heap) {α : Type} (f : α → Result) (r : Except PyErr α) : (value h f r).1 = h := by
  cases r <;> rfl

theorem getElem?_prefix {h h' : Heap} (hp : h <+: h') {id : ℕ} {v : Vec3 ℝ} (hv : h[id]? = some v) : h'[id]? = some v := by
  obtain ⟨t, rfl⟩ := hp
  rw [List.getElem?_append_left (by rw [List.getElem?_eq_some_iff] at hv; exact hv.1)]
  exact hv

theorem assign_other (h : Heap) (self : ℕ) (r : Vec3 ℝ → Vec3 ℝ × Except PyErr Unit) {id : ℕ} (hne : self ≠ id) :
    (assign h self r).1[id]? = h[id]? := by
  unfold assign
  split
  · exact List.getElem?_set_ne hne
  · rfl

/-- A call leaves every object as it was that it is not meant to change. -/
theorem step_unchanged (h : Heap) (op : Op) {id : ℕ} {v : Vec3 ℝ} (hv : h[id]? = some v) (hc : changes op ≠ some id) :
    (step h op).1[id]? = some v := by
  cases op with
  | normalize self =>
    simp only [step]
    rw [assign_other _ _ _ (fun e => hc (by rw [← e]; rfl))]
    exact hv
  | rotate self axis angle =>
    show (rotateSelf h self axis angle).1[id]? = _
    unfold rotateSelf
    cases axis.vector h with
    | error e => exact hv
    | ok w =>
      show (assign _ _ _).1[id]? = _
      rw [assign_other _ _ _ (fun e => hc (by rw [← e]; rfl))]
      exact hv
  | _ =>
    simp only [step]
    first
      | exact getElem?_prefix (fresh_prefix _ _) hv
      | (rw [value_fst]; exact hv)

/-- Whatever is done with vectors, a vector stays the same unless one of the two methods is called on it that are to change
it. -/
theorem C137_unchanged (h : Heap) (ops : List Op) {id : ℕ} {v : Vec3 ℝ} (hv : h[id]? = some v)
    (hc : ∀ op ∈ ops, changes op ≠ some id) : (run h ops)[id]? = some v := by
  induction ops generalizing h with
  | nil => exact hv
  | cons op ops ih =>
    exact ih (step h op).1 (step_unchanged h op hv (hc op List.mem_cons_self))
      (fun op' h' => hc op' (List.mem_cons_of_mem _ h'))

theorem bind_ok {α β : Type} (x : Except PyErr α) (f : α → Except PyErr β) (b : β) :
    (x >>= f) = .ok b ↔ ∃ a, x = .ok a ∧ f a = .ok b := by
  cases x with
  | error e => exact ⟨nofun, fun ⟨_, h, _⟩ => nomatch h⟩
  | ok a => exact ⟨fun h => ⟨a, rfl, h⟩, fun ⟨a', h, h'⟩ => by cases h; exact h'⟩

theorem pure_ok {α : Type} (a b : α) : (pure a : Except PyErr α) = .ok b ↔ a = b :=
  ⟨fun h => by cases h; rfl, fun h => by cases h; rfl⟩

theorem number_ok (a : Arg) (x : ℝ) : a.number = .ok x ↔ a = .num x := by
  cases a <;> simp [Arg.number]

theorem vector_ok (h : Heap) (a : Arg) (v : Vec3 ℝ) : a.vector h = .ok v ↔ ∃ id, a = .vec id ∧ h[id]? = some v := by
  cases a with
  | vec id =>
    simp only [Arg.vector, Arg.vec.injEq, exists_eq_left']
    cases h[id]? <;> simp
  | _ => simp [Arg.vector]

theorem isNone_iff (a : Arg) : a.isNone = true ↔ a = .none := by cases a <;> simp [Arg.isNone]

theorem components_ok (x y z : Arg) (v : Vec3 ℝ) :
    components x y z = .ok v ↔ x = .num v.x ∧ y = .num v.y ∧ z = .num v.z := by
  unfold components
  simp only [bind_ok, pure_ok, number_ok]
  constructor
  · rintro ⟨_, rfl, _, rfl, _, rfl, rfl⟩
    exact ⟨rfl, rfl, rfl⟩
  · rintro ⟨rfl, rfl, rfl⟩
    exact ⟨_, rfl, _, rfl, _, rfl, rfl⟩

theorem components_error (x y z : Arg) (e : PyErr) (h : components x y z = .error e) : e = .typeError := by
  unfold components at h
  cases x <;> cases y <;> cases z <;> simp_all [Arg.number, bind, Except.bind, pure, Except.pure]

/-- The constructor takes exactly the arguments documented, and the vector is a new object with those components.
Otherwise, it raises `TypeError`. -/
theorem C137_construct (h : Heap) (x y z : Arg) :
    (∀ v, Documented h x y z v → step h (.construct x y z) = (h ++ [v], .ok (.vec h.length))) ∧
    ((∀ v, ¬ Documented h x y z v) → step h (.construct x y z) = (h, .error .typeError)) := by
  have hok : ∀ v, init h x y z = .ok v ↔ Documented h x y z v := by
    intro v
    unfold init
    split
    · rename_i id
      split
      · rename_i hn
        rw [Bool.and_eq_true, isNone_iff, isNone_iff] at hn
        rw [vector_ok]
        constructor
        · rintro ⟨id', e, hv⟩
          cases e
          rw [hn.1, hn.2]
          exact .vector _ _ hv
        · intro hd
          cases hd with
          | vector _ _ hv => exact ⟨_, rfl, hv⟩
      · rename_i hn
        refine ⟨nofun, fun hd => ?_⟩
        cases hd
        exact absurd rfl hn
    · rename_i l
      split
      · rename_i hn
        rw [Bool.and_eq_true, isNone_iff, isNone_iff] at hn
        split
        · rename_i a b c
          rw [components_ok]
          constructor
          · rintro ⟨rfl, rfl, rfl⟩
            rw [hn.1, hn.2]
            exact .sequence _ _ _
          · intro hd
            cases hd
            exact ⟨rfl, rfl, rfl⟩
        · rename_i hl
          refine ⟨nofun, fun hd => ?_⟩
          cases hd
          exact absurd rfl (hl _ _ _)
      · rename_i hn
        refine ⟨nofun, fun hd => ?_⟩
        cases hd
        exact absurd rfl hn
    · rename_i h1 h2
      rw [components_ok]
      constructor
      · rintro ⟨rfl, rfl, rfl⟩
        exact .numbers _ _ _
      · intro hd
        cases hd with
        | vector id _ _ => exact absurd rfl (h1 id)
        | sequence _ _ _ => exact absurd rfl (h2 _)
        | numbers _ _ _ => exact ⟨rfl, rfl, rfl⟩
  have herr : ∀ e, init h x y z = .error e → e = .typeError := by
    intro e he
    unfold init at he
    split at he
    · split at he
      · unfold Arg.vector at he
        simp only at he
        split at he
        · cases he
        · cases he; rfl
      · cases he; rfl
    · split at he
      · split at he
        · exact components_error _ _ _ _ he
        · cases he; rfl
      · cases he; rfl
    · exact components_error _ _ _ _ he
  refine ⟨fun v hv => ?_, fun hn => ?_⟩
  · simp only [step]
    rw [(hok v).2 hv]
    rfl
  · simp only [step]
    cases hi : init h x y z with
    | ok v => exact absurd ((hok v).1 hi) (hn v)
    | error e =>
      rw [herr e hi]
      rfl

theorem eq_iff (u v : Vec3 ℝ) : eq u v = true ↔ u = v := by
  unfold eq
  rw [Vec3.ext_iff]
  split_ifs <;> simp_all

/-- Two vectors are equal exactly if they have the same components, and otherwise unequal; comparing with something else
raises `TypeError`. -/
theorem C137_eq (h : Heap) {id : ℕ} {u : Vec3 ℝ} (hu : h[id]? = some u) (rhs : Arg) :
    (∀ id' v, rhs = .vec id' → h[id']? = some v →
      ∃ b : Bool, step h (.eq id rhs) = (h, .ok (.bool b)) ∧ step h (.ne id rhs) = (h, .ok (.bool !b)) ∧
        (b = true ↔ u.x = v.x ∧ u.y = v.y ∧ u.z = v.z)) ∧
    ((∀ id', rhs ≠ .vec id') →
      step h (.eq id rhs) = (h, .error .typeError) ∧ step h (.ne id rhs) = (h, .error .typeError)) := by
  have hself : (Arg.vec id).vector h = .ok u := (vector_ok h _ u).2 ⟨id, rfl, hu⟩
  constructor
  · rintro id' v rfl hv
    have hrhs : (Arg.vec id').vector h = .ok v := (vector_ok h _ v).2 ⟨id', rfl, hv⟩
    refine ⟨eq u v, ?_, ?_, ?_⟩
    · simp only [step]
      rw [hself, hrhs]
      rfl
    · simp only [step]
      rw [hself, hrhs]
      rfl
    · rw [eq_iff, Vec3.ext_iff]
  · intro hn
    have hrhs : rhs.vector h = .error .typeError := by
      cases rhs with
      | vec id' => exact absurd rfl (hn id')
      | _ => rfl
    constructor
    · simp only [step]
      rw [hself, hrhs]
      rfl
    · simp only [step]
      rw [hself, hrhs]
      rfl

/-- A vector is close to those that are equal to it; and close vectors stay so if tolerances are increased. -/
theorem C137_close (u v : Vec3 ℝ) {r a r' a' : ℝ} (hr : 0 ≤ r) (ha : 0 ≤ a) :
    isClose u u (.num r) (.num a) = .ok true ∧ isClose u u .none .none = .ok true ∧
    (r ≤ r' → a ≤ a' → isClose u v (.num r) (.num a) = .ok true → isClose u v (.num r') (.num a') = .ok true) := by
  have self : ∀ {r a : ℝ}, 0 ≤ r → 0 ≤ a → ∀ x, close r a x x = true := by
    intro r a hr ha x
    unfold close
    rw [decide_eq_true_eq, sub_self, abs_zero]
    have := mul_nonneg hr (abs_nonneg x)
    linarith
  have mono : r ≤ r' → a ≤ a' → ∀ x y, close r a x y = true → close r' a' x y = true := by
    intro h1 h2 x y
    unfold close
    rw [decide_eq_true_eq, decide_eq_true_eq]
    intro h
    have := mul_le_mul_of_nonneg_right h1 (abs_nonneg y)
    linarith
  refine ⟨?_, ?_, fun h1 h2 h => ?_⟩
  · unfold isClose tolerance
    simp only [if_neg (not_lt.2 hr), if_neg (not_lt.2 ha)]
    show Except.ok (close r a u.x u.x && close r a u.y u.y && close r a u.z u.z) = _
    rw [self hr ha, self hr ha, self hr ha]
    rfl
  · show Except.ok (close _ _ u.x u.x && close _ _ u.y u.y && close _ _ u.z u.z) = _
    rw [self (by norm_num) (by norm_num), self (by norm_num) (by norm_num), self (by norm_num) (by norm_num)]
    rfl
  · have hr' : 0 ≤ r' := hr.trans h1
    have ha' : 0 ≤ a' := ha.trans h2
    unfold isClose tolerance at h ⊢
    simp only [if_neg (not_lt.2 hr), if_neg (not_lt.2 ha)] at h
    simp only [if_neg (not_lt.2 hr'), if_neg (not_lt.2 ha')]
    have h' : (close r a u.x v.x && close r a u.y v.y && close r a u.z v.z) = true := by
      have : Except.ok (close r a u.x v.x && close r a u.y v.y && close r a u.z v.z) = (.ok true : Except PyErr Bool) := h
      injection this
    show Except.ok (close r' a' u.x v.x && close r' a' u.y v.y && close r' a' u.z v.z) = _
    rw [Bool.and_eq_true, Bool.and_eq_true] at h'
    rw [mono h1 h2 _ _ h'.1.1, mono h1 h2 _ _ h'.1.2, mono h1 h2 _ _ h'.2]
    rfl

/-- Whether vectors are close may depend on which one is asked: the tolerance is relative to the other one. -/
theorem C137_close_violated : ∃ u v : Vec3 ℝ,
    isClose u v .none .none = .ok true ∧ isClose v u .none .none = .ok false := by
  have key : ∀ u v : Vec3 ℝ, isClose u v .none .none = .ok (close (1 / 100000) (1 / 100000000) u.x v.x &&
      close (1 / 100000) (1 / 100000000) u.y v.y && close (1 / 100000) (1 / 100000000) u.z v.z) := fun _ _ => rfl
  refine ⟨⟨1, 0, 0⟩, ⟨1 + 1001005 / 100000000000, 0, 0⟩, ?_, ?_⟩
  · rw [key]
    unfold close
    norm_num [abs_of_pos, abs_of_neg]
  · rw [key]
    unfold close
    norm_num [abs_of_pos, abs_of_neg]

/-- Without relative tolerance, it does not. Missing: see `C137_close_violated`. -/
theorem C137_close_partial (u v : Vec3 ℝ) (a : Arg) : isClose u v (.num 0) a = isClose v u (.num 0) a := by
  have hc : ∀ t x y : ℝ, close 0 t x y = close 0 t y x := by
    intro t x y
    unfold close
    rw [abs_sub_comm, zero_mul, zero_mul]
  unfold isClose
  have h0 : tolerance (1 / 100000) (.num 0) = .ok 0 := by simp [tolerance]
  rw [h0]
  cases tolerance (1 / 100000000) a with
  | error e => rfl
  | ok t =>
    show Except.ok (close 0 t u.x v.x && close 0 t u.y v.y && close 0 t u.z v.z) =
      .ok (close 0 t v.x u.x && close 0 t v.y u.y && close 0 t v.z u.z)
    rw [hc, hc t u.y, hc t u.z]

/-- `normalize` and `rotateAroundNormalizedAxis` give the object called on the components that the new object of
`getNormalized` and `getRotatedAroundNormalizedAxis` has, even if a vector is rotated about itself; if they fail, nothing
changes. -/
theorem C137_inplace (h : Heap) {id : ℕ} (hid : id < h.length) (axis : Arg) (angle : ℝ) :
    (∀ v, step h (.getNormalized id) = (h ++ [v], .ok (.vec h.length)) →
      step h (.normalize id) = (h.set id v, .ok .none)) ∧
    (∀ e, step h (.getNormalized id) = (h, .error e) → step h (.normalize id) = (h, .error e)) ∧
    (∀ v, step h (.getRotated id axis angle) = (h ++ [v], .ok (.vec h.length)) →
      step h (.rotate id axis angle) = (h.set id v, .ok .none)) ∧
    (∀ e, step h (.getRotated id axis angle) = (h, .error e) → step h (.rotate id axis angle) = (h, .error e)) := by
  have hu : h[id]? = some h[id] := List.getElem?_eq_getElem hid
  have hself : (Arg.vec id).vector h = .ok h[id] := (vector_ok h _ _).2 ⟨id, rfl, hu⟩
  generalize h[id] = u at hu hself
  have fresh_ok : ∀ r v, fresh h r = (h ++ [v], .ok (.vec h.length)) → r = .ok v := by
    intro r v hr
    cases r with
    | error e => cases congrArg Prod.snd hr
    | ok w => rw [List.singleton_inj.1 (List.append_cancel_left (congrArg Prod.fst hr))]
  have fresh_err : ∀ r e, fresh h r = (h, .error e) → r = .error e := by
    intro r e hr
    cases r with
    | error e' => cases congrArg Prod.snd hr; rfl
    | ok w => cases congrArg Prod.snd hr
  have hset : h.set id u = h := by
    apply List.ext_getElem? 
    intro i
    by_cases hi : id = i
    · subst hi; rw [List.getElem?_set_self hid, hu]
    · rw [List.getElem?_set_ne hi]
  have hnorm : normalizeSelf u = match u.getNormalized with | .error e => (u, .error e) | .ok v => (v, .ok ()) := by
    unfold normalizeSelf Vec3.getNormalized
    split <;> rfl
  have hrot : ∀ axis, u.rotateAroundNormalizedAxis axis angle =
      match u.getRotatedAroundNormalizedAxis axis angle with | .error e => (u, .error e) | .ok v => (v, .ok ()) := by
    intro axis
    unfold Vec3.rotateAroundNormalizedAxis
    cases u.getRotatedAroundNormalizedAxis axis angle <;> rfl
  have hN : step h (.getNormalized id) = fresh h u.getNormalized := by
    simp only [step]
    rw [hself]
    rfl
  have hA : step h (.normalize id) = match u.getNormalized with
      | .error e => (h, .error e)
      | .ok v => (h.set id v, .ok .none) := by
    simp only [step]; unfold assign
    rw [hu]
    simp only [hnorm]
    cases u.getNormalized with
    | error e => simp only [hset]; rfl
    | ok v => rfl
  refine ⟨fun v hv => ?_, fun e he => ?_, fun v hv => ?_, fun e he => ?_⟩
  · rw [hN] at hv
    rw [hA, fresh_ok _ _ hv]
  · rw [hN] at he
    rw [hA, fresh_err _ _ he]
  · have hv' : fresh h (do let w ← axis.vector h; u.getRotatedAroundNormalizedAxis w angle) =
        (h ++ [v], .ok (.vec h.length)) := by
      rw [← hv]; simp only [step]; rw [hself]; rfl
    obtain ⟨w, hw, hv'⟩ := (bind_ok _ _ _).1 (fresh_ok _ _ hv')
    show rotateSelf h id axis angle = _
    unfold rotateSelf assign
    rw [hw, hu]
    simp only [hrot, hv']
    rfl
  · have he' : fresh h (do let w ← axis.vector h; u.getRotatedAroundNormalizedAxis w angle) = (h, .error e) := by
      rw [← he]; simp only [step]; rw [hself]; rfl
    have he'' := fresh_err _ _ he'
    show rotateSelf h id axis angle = _
    unfold rotateSelf assign
    cases hw : axis.vector h with
    | error e' =>
      rw [hw] at he''
      cases he''
      rfl
    | ok w =>
      rw [hw] at he''
      rw [hu]
      simp only [hrot, show u.getRotatedAroundNormalizedAxis w angle = .error e from he'', hset]
      rfl

/-- Components can be obtained by their numbers, but not by iterating over a vector, as in `list(v)` or `x, y, z = v`: since
`__getitem__` raises `KeyError` for other numbers, iterating does, too. -/
theorem C137_iteration_violated (u : Vec3 ℝ) (fuel : ℕ) :
    u.getitem 0 = .ok u.x ∧ u.getitem 1 = .ok u.y ∧ u.getitem 2 = .ok u.z ∧
    iterate u 0 (fuel + 4) = .error .keyError := by
  refine ⟨rfl, rfl, rfl, ?_⟩
  have h0 : u.getitem 0 = .ok u.x := rfl
  have h1 : u.getitem 1 = .ok u.y := rfl
  have h2 : u.getitem 2 = .ok u.z := rfl
  have h3 : u.getitem 3 = .error .keyError := rfl
  simp [iterate, h0, h1, h2, h3, Except.map]

/-- Sum and difference, product and quotient, and negation undo each other, in terms of what the program sees: the last
vector is equal to the first one. -/
theorem C137_algebra (h : Heap) {a b : ℕ} {u v : Vec3 ℝ} (ha : h[a]? = some u) (hb : h[b]? = some v) {s : ℝ} (hs : s ≠ 0) :
    (let h1 := (step h (.add a (.vec b))).1
     let h2 := (step h1 (.sub h.length (.vec b))).1
     (step h2 (.eq (h.length + 1) (.vec a))).2 = .ok (.bool true)) ∧
    (let h1 := (step h (.mul a (.num s))).1
     let h2 := (step h1 (.div h.length (.num s))).1
     (step h2 (.eq (h.length + 1) (.vec a))).2 = .ok (.bool true)) ∧
    (let h1 := (step h (.neg a)).1
     let h2 := (step h1 (.neg h.length)).1
     (step h2 (.eq (h.length + 1) (.vec a))).2 = .ok (.bool true)) ∧
    (∀ s : Arg, (∀ x, s ≠ .num x) → step h (.mul a s) = (h, .error .typeError)) ∧
    step h (.div a (.num 0)) = (h, .error .valueError) := by
  have get : ∀ {h : Heap} {i : ℕ} {w : Vec3 ℝ}, h[i]? = some w → (Arg.vec i).vector h = .ok w :=
    fun hw => (vector_ok _ _ _).2 ⟨_, rfl, hw⟩
  have old : ∀ {h : Heap} {i : ℕ} {w : Vec3 ℝ} (x : Vec3 ℝ), h[i]? = some w → (h ++ [x])[i]? = some w :=
    fun x hw => getElem?_prefix (List.prefix_append _ _) hw
  have new : ∀ (h : Heap) (x : Vec3 ℝ), (h ++ [x])[h.length]? = some x := fun h x => by simp
  have new2 : ∀ (h : Heap) (x y : Vec3 ℝ), (h ++ [x] ++ [y])[h.length + 1]? = some y := fun h x y => by simp
  refine ⟨?_, ?_, ?_, ?_, ?_⟩
  · have e1 : (step h (.add a (.vec b))).1 = h ++ [u + v] := by
      simp only [step]; rw [get ha, get hb]; rfl
    have e2 : (step (h ++ [u + v]) (.sub h.length (.vec b))).1 = h ++ [u + v] ++ [u + v - v] := by
      simp only [step]; rw [get (new h _), get (old _ hb)]; rfl
    simp only [e1, e2]
    simp only [step]
    rw [get (new2 h _ _), get (old _ (old _ ha))]
    show Except.ok (Result.bool (eq _ _)) = _
    rw [(eq_iff _ _).2 (add_sub_cancel_right u v)]
  · have e1 : (step h (.mul a (.num s))).1 = h ++ [s • u] := by
      simp only [step]; rw [get ha]; rfl
    have hd : (s • u).truediv s = .ok u := by
      unfold Vec3.truediv
      rw [if_neg hs]
      congr 1
      ext <;> simp [hs]
    have e2 : (step (h ++ [s • u]) (.div h.length (.num s))).1 = h ++ [s • u] ++ [u] := by
      simp only [step]; rw [get (new h _)]
      show (fresh _ ((s • u).truediv s)).1 = _
      rw [hd]; rfl
    simp only [e1, e2]
    simp only [step]
    rw [get (new2 h _ _), get (old _ (old _ ha))]
    show Except.ok (Result.bool (eq _ _)) = _
    rw [(eq_iff _ _).2 rfl]
  · have e1 : (step h (.neg a)).1 = h ++ [-u] := by
      simp only [step]; rw [get ha]; rfl
    have e2 : (step (h ++ [-u]) (.neg h.length)).1 = h ++ [-u] ++ [- -u] := by
      simp only [step]; rw [get (new h _)]; rfl
    simp only [e1, e2]
    simp only [step]
    rw [get (new2 h _ _), get (old _ (old _ ha))]
    show Except.ok (Result.bool (eq _ _)) = _
    rw [(eq_iff _ _).2 (neg_neg u)]
  · intro s hs
    simp only [step]
    rw [get ha]
    cases s with
    | num x => exact absurd rfl (hs x)
    | _ => rfl
  · simp only [step]
    rw [get ha]
    show fresh h (u.truediv 0) = _
    unfold Vec3.truediv
    rw [if_pos rfl]
    rfl

/-! ## Cases -/

/-- A vector is copied, and the copy is normalised; the original stays. -/
example : (run [] [.construct (.seq [.num 3, .num 4, .num 0]) .none .none, .construct (.vec 0) .none .none,
    .normalize 1])[0]? = some ⟨3, 4, 0⟩ := by
  have h0 := (C137_construct [] (.seq [.num 3, .num 4, .num 0]) .none .none).1 _ (.sequence _ _ _)
  have h1 : (step [] (.construct (.seq [.num 3, .num 4, .num 0]) .none .none)).1 = [⟨3, 4, 0⟩] := by rw [h0]; rfl
  show (run (step [] (.construct (.seq [.num 3, .num 4, .num 0]) .none .none)).1 _)[0]? = _
  rw [h1]
  apply C137_unchanged _ _ rfl
  intro op hop
  simp only [List.mem_cons, List.not_mem_nil, or_false] at hop
  rcases hop with rfl | rfl <;> simp [changes]

/-- What the products of two vectors, possibly the same object, are: the scalar product; the vector product, a new object
(right-handed); the squared length and the length; the part along and the part perpendicular to another vector, which are new
objects and add up to the vector. -/
theorem C137_products (h : Heap) {a b : ℕ} {u v : Vec3 ℝ} (ha : h[a]? = some u) (hb : h[b]? = some v) :
    step h (.dot a (.vec b)) = (h, .ok (.num (u.x * v.x + u.y * v.y + u.z * v.z))) ∧
    step h (.cross a (.vec b)) =
      (h ++ [⟨u.y * v.z - u.z * v.y, u.z * v.x - u.x * v.z, u.x * v.y - u.y * v.x⟩], .ok (.vec h.length)) ∧
    step h (.getLengthSquared a) = (h, .ok (.num (u.x ^ 2 + u.y ^ 2 + u.z ^ 2))) ∧
    step h (.getLength a) = (h, .ok (.num (Real.sqrt (u.x ^ 2 + u.y ^ 2 + u.z ^ 2)))) ∧
    (v ≠ 0 → ∃ (c : ℝ) (p q : Vec3 ℝ),
      step h (.getProjectionOnto a (.vec b)) = (h ++ [p], .ok (.vec h.length)) ∧
      step h (.getPerpendicularTo a (.vec b)) = (h ++ [q], .ok (.vec h.length)) ∧
      p = ⟨c * v.x, c * v.y, c * v.z⟩ ∧ q = ⟨u.x - p.x, u.y - p.y, u.z - p.z⟩ ∧
      q.x * v.x + q.y * v.y + q.z * v.z = 0) := by
  have get : ∀ {i : ℕ} {w : Vec3 ℝ}, h[i]? = some w → (Arg.vec i).vector h = .ok w :=
    fun hw => (vector_ok _ _ _).2 ⟨_, rfl, hw⟩
  have hsq : u.getLengthSquared = u.x ^ 2 + u.y ^ 2 + u.z ^ 2 := by
    simp only [getLengthSquared, dot]; ring
  refine ⟨?_, ?_, ?_, ?_, fun hv => ?_⟩
  · simp only [step]; rw [get ha, get hb]; rfl
  · simp only [step]; rw [get ha, get hb]; rfl
  · simp only [step]; rw [get ha, ← hsq]; rfl
  · simp only [step]; rw [get ha, ← hsq]; rfl
  · obtain ⟨p, q, e1, e2, e3, ⟨c, rfl⟩, e5⟩ := C12_projection u v hv
    refine ⟨c, c • v, q, ?_, ?_, by ext <;> simp [mul_comm], ?_, e5⟩
    · simp only [step]; rw [get ha, get hb]
      show fresh h (u.getProjectionOnto v) = _
      rw [e1]; rfl
    · simp only [step]; rw [get ha, get hb]
      show fresh h (u.getPerpendicularTo v) = _
      rw [e2]; rfl
    · rw [← e3]; ext <;> simp

/-- The hypotheses of `C137_inplace` and `C137_algebra`, with a vector that is its own axis. -/
example : (0 : ℕ) < ([⟨0, 0, 1⟩] : Heap).length ∧ ([⟨0, 0, 1⟩] : Heap)[0]? = some ⟨0, 0, 1⟩ := ⟨by simp, rfl⟩

/-- Two numbers are no vector. -/
example (h : Heap) : step h (.construct (.num 1) (.num 2) .none) = (h, .error .typeError) :=
  (C137_construct h _ _ _).2 (fun v hv => nomatch hv)

end OpenMPCD.Vec3.Objects
