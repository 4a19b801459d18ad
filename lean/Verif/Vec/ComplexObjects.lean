import Verif.Vec.Objects

/-!
# Complex vectors of the analysis as objects (C154)

`Analysis/MPCDAnalysis/Vector3D.py`, in Python 2 and in Python 3. As in `Verif/Vec/Objects.lean` (C137), the objects that
exist are a list, and an object is referred to by its place in it. The values computed are those of `Verif/Vec/Model.lean`.

Simplifications: numbers are complex numbers, whether they are of type `int`, `float`, or `complex`; there is neither
infinity nor not-a-number, and no rounding.
-/

set_option linter.unusedSectionVars false
set_option linter.unusedSimpArgs false
set_option linter.unusedVariables false

namespace OpenMPCD.Vec3.ComplexObjects

open ComplexConjugate

/-! ## Model -/

/-- The versions of Python. -/
inductive Python
  | two
  | three

/-- What may be given as an argument. -/
inductive Arg
  | num (x : ℂ)
  | vec (id : ℕ)
  /-- A string, say. -/
  | other

/-- The objects that exist. -/
abbrev Heap := List (Vec3 ℂ)

/-- What is returned. -/
inductive Result
  | none
  | num (x : ℂ)
  | bool (b : Bool)
  | vec (id : ℕ)

/-- `isinstance(rhs, float)` and so on (`Analysis/MPCDAnalysis/Vector3D.py:98,104`), and the number. If the operator returns
`NotImplemented`, Python raises `TypeError`. -/
def Arg.number : Arg → Except PyErr ℂ
  | .num x => .ok x
  | _ => .error .typeError

/-- The object; `e` is raised if there is no vector. -/
def Arg.vector (e : PyErr) (h : Heap) : Arg → Except PyErr (Vec3 ℂ)
  | .vec id =>
    match h[id]? with
    | some v => .ok v
    | _ => .error e
  | _ => .error e

/-- Exceptions of `getNormalized` and the methods that call it: `1.0 / 0.0`. -/
def orZeroDivision {α : Type} : Option α → Except PyErr α
  | some a => .ok a
  | none => .error .zeroDivisionError

/-- `getRealPart` (`Analysis/MPCDAnalysis/Vector3D.py:18-24`). -/
def getRealPart (u : Vec3 ℂ) : Vec3 ℂ :=
  let ret : Vec3 ℂ := ⟨0, 0, 0⟩
  let ret := { ret with x := (u.x.re : ℂ) }
  let ret := { ret with y := (u.y.re : ℂ) }
  { ret with z := (u.z.re : ℂ) }

open Classical in
/-- `__eq__` (`Analysis/MPCDAnalysis/Vector3D.py:76-83`). -/
noncomputable def eq (u v : Vec3 ℂ) : Bool :=
  if u.x ≠ v.x then false
  else if u.y ≠ v.y then false
  else if u.z ≠ v.z then false
  else true

/-- `__getitem__` (`Analysis/MPCDAnalysis/Vector3D.py:109-119`). -/
def getitem (u : Vec3 ℂ) (index : ℤ) : Except PyErr ℂ :=
  if index = 0 then .ok u.x
  else if index = 1 then .ok u.y
  else if index = 2 then .ok u.z
  else .error .valueError

/-- Iterating over an object without `__iter__`: `__getitem__` is called with 0, 1, …; `IndexError` ends the iteration, and other
exceptions are passed on. At most `fuel` elements. -/
def iterate (u : Vec3 ℂ) (start : ℤ) : ℕ → Except PyErr (List ℂ)
  | 0 => .ok []
  | fuel + 1 =>
    match getitem u start with
    | .error .indexError => .ok []
    | .error e => .error e
    | .ok x => (iterate u (start + 1) fuel).map (x :: ·)

/-- The class has `__div__` (`Analysis/MPCDAnalysis/Vector3D.py:103-107`), which is what `/` calls in Python 2, but no
`__truediv__`, which is what it calls in Python 3. -/
noncomputable def div (python : Python) (u : Vec3 ℂ) (rhs : Arg) : Except PyErr (Vec3 ℂ) :=
  match python with
  | .three => .error .typeError
  | .two => do
    let s ← rhs.number
    if s = 0 then .error .zeroDivisionError else .ok ⟨u.x / s, u.y / s, u.z / s⟩

/-- `self != rhs`: the class has no `__ne__`. Python 3 negates the result of `__eq__`; Python 2 compares the identities of the
objects. -/
noncomputable def ne (python : Python) (h : Heap) (self : ℕ) (rhs : Arg) : Except PyErr Bool :=
  match python with
  | .three => do
    let u ← (Arg.vec self).vector .attributeError h
    let v ← rhs.vector .attributeError h
    return !eq u v
  | .two =>
    match rhs with
    | .vec id => .ok (decide (self ≠ id))
    | _ => .ok true

/-- Calls, with the object they are called on. -/
inductive Op
  | construct (x y z : ℂ)
  | getRealPart (self : ℕ)
  | getComplexConjugate (self : ℕ)
  | dot (self : ℕ) (rhs : Arg)
  | cross (self : ℕ) (rhs : Arg)
  | getLengthSquared (self : ℕ)
  | getLength (self : ℕ)
  | getNormalized (self : ℕ)
  | normalize (self : ℕ)
  | getProjectionOnto (self : ℕ) (rhs : Arg)
  | getPerpendicularTo (self : ℕ) (rhs : Arg)
  | getRotated (self : ℕ) (axis : Arg) (angle : ℝ)
  | rotate (self : ℕ) (axis : Arg) (angle : ℝ)
  | eq (self : ℕ) (rhs : Arg)
  | ne (self : ℕ) (rhs : Arg)
  | add (self : ℕ) (rhs : Arg)
  | sub (self : ℕ) (rhs : Arg)
  | mul (self : ℕ) (rhs : Arg)
  | div (self : ℕ) (rhs : Arg)
  | getitem (self : ℕ) (index : ℤ)

/-- A new object, if there has been no exception. -/
def fresh (h : Heap) : Except PyErr (Vec3 ℂ) → Heap × Except PyErr Result
  | .error e => (h, .error e)
  | .ok v => (h ++ [v], .ok (.vec h.length))

/-- Something is returned. -/
def value (h : Heap) {α : Type} (f : α → Result) : Except PyErr α → Heap × Except PyErr Result
  | .error e => (h, .error e)
  | .ok a => (h, .ok (f a))

open Classical in
/-- `normalize` (`Analysis/MPCDAnalysis/Vector3D.py:48-52`). -/
noncomputable def normalizeSelf (h : Heap) (self : ℕ) : Heap × Except PyErr Result :=
  match h[self]? with
  | none => (h, .error .attributeError)
  | some u =>
    if u.cLength = 0 then (h, .error .zeroDivisionError) else
    let factor : ℂ := ((1 / u.cLength : ℝ) : ℂ)
    let u : Vec3 ℂ := { u with x := u.x * factor }
    let u : Vec3 ℂ := { u with y := u.y * factor }
    let u : Vec3 ℂ := { u with z := u.z * factor }
    (h.set self u, .ok .none)

/-- `rotateAroundNormalizedAxis` (`Analysis/MPCDAnalysis/Vector3D.py:70-74`). -/
noncomputable def rotateSelf (h : Heap) (self : ℕ) (axis : Arg) (angle : ℝ) : Heap × Except PyErr Result :=
  match h[self]?, axis.vector .attributeError h with
  | none, _ => (h, .error .attributeError)
  | _, .error e => (h, .error e)
  | some u, .ok a =>
    let rotated := u.cRotate a angle
    let u : Vec3 ℂ := { u with x := rotated.x }
    let u : Vec3 ℂ := { u with y := rotated.y }
    let u : Vec3 ℂ := { u with z := rotated.z }
    (h.set self u, .ok .none)

/-- The objects after a call, and what is returned. Calls are on objects that exist. -/
noncomputable def step (python : Python) (h : Heap) : Op → Heap × Except PyErr Result
  | .construct x y z => fresh h (.ok ⟨x, y, z⟩)
  | .getRealPart self => fresh h do
      let u ← (Arg.vec self).vector .attributeError h
      return ComplexObjects.getRealPart u
  | .getComplexConjugate self => fresh h do
      let u ← (Arg.vec self).vector .attributeError h
      return u.getComplexConjugate
  | .dot self rhs => value h .num do
      let u ← (Arg.vec self).vector .attributeError h
      let v ← rhs.vector .attributeError h
      return u.cdot v
  | .cross self rhs => fresh h do
      let u ← (Arg.vec self).vector .attributeError h
      let v ← rhs.vector .attributeError h
      return u.cross v
  | .getLengthSquared self => value h .num do
      let u ← (Arg.vec self).vector .attributeError h
      return (u.cLengthSquared : ℂ)
  | .getLength self => value h .num do
      let u ← (Arg.vec self).vector .attributeError h
      return (u.cLength : ℂ)
  | .getNormalized self => fresh h do
      let u ← (Arg.vec self).vector .attributeError h
      orZeroDivision u.cGetNormalized
  | .normalize self => normalizeSelf h self
  | .getProjectionOnto self rhs => fresh h do
      let u ← (Arg.vec self).vector .attributeError h
      let v ← rhs.vector .attributeError h
      orZeroDivision (u.cGetProjectionOnto v)
  | .getPerpendicularTo self rhs => fresh h do
      let u ← (Arg.vec self).vector .attributeError h
      let v ← rhs.vector .attributeError h
      orZeroDivision (u.cGetPerpendicularTo v)
  | .getRotated self axis angle => fresh h do
      let u ← (Arg.vec self).vector .attributeError h
      let a ← axis.vector .attributeError h
      return u.cRotate a angle
  | .rotate self axis angle => rotateSelf h self axis angle
  | .eq self rhs => value h .bool do
      let u ← (Arg.vec self).vector .attributeError h
      let v ← rhs.vector .attributeError h
      return ComplexObjects.eq u v
  | .ne self rhs => value h .bool (ComplexObjects.ne python h self rhs)
  | .add self rhs => fresh h do
      let u ← (Arg.vec self).vector .attributeError h
      let v ← rhs.vector .typeError h
      return u + v
  | .sub self rhs => fresh h do
      let u ← (Arg.vec self).vector .attributeError h
      let v ← rhs.vector .typeError h
      return u - v
  | .mul self rhs => fresh h do
      let u ← (Arg.vec self).vector .attributeError h
      let s ← rhs.number
      return s • u
  | .div self rhs => fresh h do
      let u ← (Arg.vec self).vector .attributeError h
      ComplexObjects.div python u rhs
  | .getitem self index => value h .num do
      let u ← (Arg.vec self).vector .attributeError h
      ComplexObjects.getitem u index

/-- A program. -/
noncomputable def run (python : Python) (h : Heap) (ops : List Op) : Heap := ops.foldl (fun h op => (step python h op).1) h

/-! ## Specification -/

/-- The object a call may change. -/
def changes : Op → Option ℕ
  | .normalize self => some self
  | .rotate self _ _ => some self
  | _ => none

/-- The square of the length of a complex vector. -/
noncomputable def normSquared (u : Vec3 ℂ) : ℝ := Complex.normSq u.x + Complex.normSq u.y + Complex.normSq u.z

/-! ## Proofs -/

theorem fresh_prefix (h : Heap) (r : Except PyErr (Vec3 ℂ)) : h <+: (fresh h r).1 := by
  cases r with
  | error e => exact List.prefix_refl _
  | ok v => exact List.prefix_append _ _

theorem value_fst (h : Heap) {α : Type} (f : α → Result) (r : Except PyErr α) : (value h f r).1 = h := by
  cases r <;> rfl

theorem getElem?_prefix {h h' : Heap} (hp : h <+: h') {id : ℕ} {v : Vec3 ℂ} (hv : h[id]? = some v) : h'[id]? = some v := by
  obtain ⟨t, rfl⟩ := hp
  rw [List.getElem?_append_left (by rw [List.getElem?_eq_some_iff] at hv; exact hv.1)]
  exact hv

theorem step_unchanged (python : Python) (h : Heap) (op : Op) {id : ℕ} {v : Vec3 ℂ} (hv : h[id]? = some v)
    (hc : changes op ≠ some id) : (step python h op).1[id]? = some v := by
  cases op with
  | normalize self =>
    have hne : self ≠ id := fun e => hc (by rw [← e]; rfl)
    show (normalizeSelf h self).1[id]? = _
    unfold normalizeSelf
    split
    · exact hv
    · split
      · exact hv
      · exact (List.getElem?_set_ne hne).trans hv
  | rotate self axis angle =>
    have hne : self ≠ id := fun e => hc (by rw [← e]; rfl)
    show (rotateSelf h self axis angle).1[id]? = _
    unfold rotateSelf
    split
    · exact hv
    · exact hv
    · exact (List.getElem?_set_ne hne).trans hv
  | _ =>
    simp only [step]
    first
      | exact getElem?_prefix (fresh_prefix _ _) hv
      | (rw [value_fst]; exact hv)

/-- C154: whatever is done with vectors, a vector stays the same unless one of the two methods is called on it that are to
change it. -/
theorem C154_unchanged (python : Python) (h : Heap) (ops : List Op) {id : ℕ} {v : Vec3 ℂ} (hv : h[id]? = some v)
    (hc : ∀ op ∈ ops, changes op ≠ some id) : (run python h ops)[id]? = some v := by
  induction ops generalizing h with
  | nil => exact hv
  | cons op ops ih =>
    exact ih (step python h op).1 (step_unchanged python h op hv (hc op List.mem_cons_self))
      (fun op' h' => hc op' (List.mem_cons_of_mem _ h'))

theorem cLengthSquared_normSquared (u : Vec3 ℂ) : u.cLengthSquared = normSquared u := by
  rw [cLengthSquared_eq]
  rfl

/-- C154: the methods that change a vector give it the value that the other ones return: `normalize` and `getNormalized` both
raise `ZeroDivisionError` for zero, and otherwise give the vector of length one that is a positive multiple. -/
theorem C154_normalize (python : Python) (h : Heap) {self : ℕ} {u : Vec3 ℂ} (hu : h[self]? = some u) :
    (u = 0 ∧ step python h (.normalize self) = (h, .error .zeroDivisionError) ∧
      step python h (.getNormalized self) = (h, .error .zeroDivisionError)) ∨
    ∃ w : Vec3 ℂ, normSquared w = 1 ∧ (∃ r : ℝ, 0 < r ∧ w = (r : ℂ) • u) ∧
      step python h (.normalize self) = (h.set self w, .ok .none) ∧
      step python h (.getNormalized self) = (h ++ [w], .ok (.vec h.length)) := by
  by_cases h0 : u.cLength = 0
  · refine .inl ⟨?_, ?_, ?_⟩
    · have := (Real.sqrt_eq_zero (cLengthSquared_nonneg u)).1 h0
      exact (cLengthSquared_eq_zero u).1 this
    · simp [step, normalizeSelf, hu, h0]
    · simp [step, Arg.vector, hu, cGetNormalized, h0, orZeroDivision, fresh, bind, Except.bind]
  · have hpos : 0 < u.cLength := lt_of_le_of_ne (Real.sqrt_nonneg _) (Ne.symm h0)
    refine .inr ⟨((1 / u.cLength : ℝ) : ℂ) • u, ?_, ⟨1 / u.cLength, by positivity, rfl⟩, ?_, ?_⟩
    · have hsq : u.cLength * u.cLength = normSquared u := by
        rw [← cLengthSquared_normSquared]
        exact Real.mul_self_sqrt (cLengthSquared_nonneg u)
      simp only [normSquared, smul_x, smul_y, smul_z, Complex.normSq_mul, Complex.normSq_ofReal, ← add_mul]
      rw [show Complex.normSq u.x + Complex.normSq u.y + Complex.normSq u.z = normSquared u from rfl, ← hsq]
      field_simp
    · simp only [step, normalizeSelf, hu, if_neg h0]
      rfl
    · simp only [step, Arg.vector, hu, cGetNormalized, if_neg h0, orZeroDivision, fresh, bind, Except.bind]
      rfl

/-- C154: rotating a vector gives it the value that the other method returns, even if it is its own axis. -/
theorem C154_rotate (python : Python) (h : Heap) {self id : ℕ} {u a : Vec3 ℂ} (hu : h[self]? = some u)
    (ha : h[id]? = some a) (angle : ℝ) : ∃ w, step python h (.rotate self (.vec id) angle) = (h.set self w, .ok .none) ∧
      step python h (.getRotated self (.vec id) angle) = (h ++ [w], .ok (.vec h.length)) := by
  refine ⟨u.cRotate a angle, ?_, ?_⟩
  · simp only [step, rotateSelf, hu, Arg.vector, ha]
  · simp [step, hu, Arg.vector, ha, fresh, bind, Except.bind, pure, Except.pure]

theorem eq_iff (u v : Vec3 ℂ) : eq u v = true ↔ u = v := by
  unfold eq
  constructor
  · intro h
    by_cases hx : u.x = v.x <;> by_cases hy : u.y = v.y <;> by_cases hz : u.z = v.z <;> simp [hx, hy, hz] at h
    exact Vec3.ext hx hy hz
  · rintro rfl
    simp

/-- C154: `==` tells whether the components are the same, in both versions of Python. -/
theorem C154_eq (python : Python) (h : Heap) {self id : ℕ} {u v : Vec3 ℂ} (hu : h[self]? = some u) (hv : h[id]? = some v) :
    ∃ b, step python h (.eq self (.vec id)) = (h, .ok (.bool b)) ∧ (b = true ↔ u = v) :=
  ⟨eq u v, by simp [step, hu, hv, Arg.vector, value, bind, Except.bind, pure, Except.pure], eq_iff u v⟩

/-- C154: `!=` tells whether the components are different, in Python 3. -/
theorem C154_ne_partial (h : Heap) {self id : ℕ} {u v : Vec3 ℂ} (hu : h[self]? = some u) (hv : h[id]? = some v) :
    ∃ b, step .three h (.ne self (.vec id)) = (h, .ok (.bool b)) ∧ (b = true ↔ u ≠ v) := by
  refine ⟨!eq u v, by simp [step, ne, hu, hv, Arg.vector, value, bind, Except.bind, pure, Except.pure], ?_⟩
  rw [Ne, ← eq_iff, Bool.not_eq_true', Bool.not_eq_true]

/-- C154 fails for Python 2: for any two objects with the same components, both `==` and `!=` are true. -/
theorem C154_ne_violated (h : Heap) {self id : ℕ} (hne : self ≠ id) {u : Vec3 ℂ} (hu : h[self]? = some u)
    (hv : h[id]? = some u) : step .two h (.eq self (.vec id)) = (h, .ok (.bool true)) ∧
      step .two h (.ne self (.vec id)) = (h, .ok (.bool true)) := by
  refine ⟨?_, by simp [step, ne, value, hne]⟩
  have : eq u u = true := (eq_iff u u).2 rfl
  simp [step, hu, hv, Arg.vector, value, bind, Except.bind, pure, Except.pure, this]

/-- C154: sums, differences, and multiples are new vectors with the values expected, in both versions of Python. -/
theorem C154_arithmetic (python : Python) (h : Heap) {self id : ℕ} {u v : Vec3 ℂ} (hu : h[self]? = some u)
    (hv : h[id]? = some v) (s : ℂ) :
    step python h (.add self (.vec id)) = (h ++ [⟨u.x + v.x, u.y + v.y, u.z + v.z⟩], .ok (.vec h.length)) ∧
    step python h (.sub self (.vec id)) = (h ++ [⟨u.x - v.x, u.y - v.y, u.z - v.z⟩], .ok (.vec h.length)) ∧
    step python h (.mul self (.num s)) = (h ++ [⟨u.x * s, u.y * s, u.z * s⟩], .ok (.vec h.length)) ∧
    step python h (.getRealPart self) = (h ++ [⟨u.x.re, u.y.re, u.z.re⟩], .ok (.vec h.length)) := by
  refine ⟨?_, ?_, ?_, ?_⟩ <;>
    simp only [step, hu, hv, Arg.vector, Arg.number, fresh, bind, Except.bind, pure, Except.pure] <;> rfl

/-- C154: in Python 2, dividing by a number gives the vector of which the dividend is the multiple, and `ZeroDivisionError` for
zero. -/
theorem C154_div_partial (h : Heap) {self : ℕ} {u : Vec3 ℂ} (hu : h[self]? = some u) (s : ℂ) :
    (s = 0 ∧ step .two h (.div self (.num s)) = (h, .error .zeroDivisionError)) ∨
    ∃ w : Vec3 ℂ, step .two h (.div self (.num s)) = (h ++ [w], .ok (.vec h.length)) ∧
      w.x * s = u.x ∧ w.y * s = u.y ∧ w.z * s = u.z := by
  by_cases hs : s = 0
  · exact .inl ⟨hs, by simp [step, hu, Arg.vector, Arg.number, fresh, bind, Except.bind, div, hs]⟩
  · exact .inr ⟨⟨u.x / s, u.y / s, u.z / s⟩,
      by simp [step, hu, Arg.vector, Arg.number, fresh, bind, Except.bind, div, hs],
      div_mul_cancel₀ _ hs, div_mul_cancel₀ _ hs, div_mul_cancel₀ _ hs⟩

/-- C154 fails for Python 3: vectors cannot be divided by anything. -/
theorem C154_div_violated (h : Heap) {self : ℕ} {u : Vec3 ℂ} (hu : h[self]? = some u) (rhs : Arg) :
    step .three h (.div self rhs) = (h, .error .typeError) := by
  simp [step, hu, Arg.vector, fresh, bind, Except.bind, div]

/-- C154: components are available by their number. -/
theorem C154_getitem (python : Python) (h : Heap) {self : ℕ} {u : Vec3 ℂ} (hu : h[self]? = some u) (i : ℕ) :
    step python h (.getitem self i) =
      (h, match [u.x, u.y, u.z][i]? with
        | some c => .ok (.num c)
        | none => .error .valueError) := by
  match i with
  | 0 => simp [step, hu, Arg.vector, value, bind, Except.bind, getitem]
  | 1 => simp [step, hu, Arg.vector, value, bind, Except.bind, getitem]
  | 2 => simp [step, hu, Arg.vector, value, bind, Except.bind, getitem]
  | i + 3 =>
    have h0 : ¬ ((i + 3 : ℕ) : ℤ) = 0 := by omega
    have h1 : ¬ ((i + 3 : ℕ) : ℤ) = 1 := by omega
    have h2 : ¬ ((i + 3 : ℕ) : ℤ) = 2 := by omega
    simp only [step, hu, Arg.vector, value, bind, Except.bind, getitem, if_neg h0, if_neg h1, if_neg h2]
    simp

/-- C154 fails for iterating over a vector, as in `for`, `list`, or when it is passed as `*v`: after the three components,
`ValueError` is raised, for every vector. -/
theorem C154_iterate_violated (u : Vec3 ℂ) (fuel : ℕ) (hf : 4 ≤ fuel) : iterate u 0 fuel = .error .valueError := by
  obtain ⟨n, rfl⟩ := Nat.exists_eq_add_of_le hf
  rw [Nat.add_comm]
  simp [iterate, getitem, Except.map]

/-- Hypotheses met: there are programs that make two objects with the same components. -/
example (python : Python) : ∃ u : Vec3 ℂ, (run python [] [.construct 1 2 Complex.I, .construct 1 2 Complex.I])[0]? = some u ∧
    (run python [] [.construct 1 2 Complex.I, .construct 1 2 Complex.I])[1]? = some u := ⟨⟨1, 2, Complex.I⟩, rfl, rfl⟩

/-- Normalizing one of them does not change the other. -/
example (python : Python) : (run python [⟨3, 4, 0⟩, ⟨3, 4, 0⟩] [.normalize 1, .add 0 (.vec 1), .normalize 2])[0]? =
    some ⟨3, 4, 0⟩ :=
  C154_unchanged python _ _ rfl (by simp [changes])

end OpenMPCD.Vec3.ComplexObjects
