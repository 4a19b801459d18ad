import Verif.Common
import Verif.Vec.Basic
import Mathlib.Analysis.SpecialFunctions.Trigonometric.Basic
import Mathlib.Analysis.Complex.Basic

/-!
# Models of the vector classes

`Vector3DReal` and `Vector3D` (Python) and `Vector3D<T>` (C++).
-/

namespace OpenMPCD.Vec3

/-! ### `Vector3DReal` -/

/-- `getLengthSquared`, `Analysis/MPCDAnalysis/Vector3DReal.py:129-134`. -/
def getLengthSquared (u : Vec3 ℝ) : ℝ := u.dot u

/-- `getLength`, `Vector3DReal.py:137-142`. -/
noncomputable def getLength (u : Vec3 ℝ) : ℝ := Real.sqrt u.getLengthSquared

open Classical in
/-- `getNormalized`, `Vector3DReal.py:145-157`; `normalize`, lines 159-173, assigns the same values. -/
noncomputable def getNormalized (u : Vec3 ℝ) : Except PyErr (Vec3 ℝ) :=
  if u.getLengthSquared = 0 then .error .valueError else
  let factor := 1 / u.getLength
  .ok ⟨u.x * factor, u.y * factor, u.z * factor⟩

open Classical in
/-- `getProjectionOnto`, `Vector3DReal.py:176-194`. -/
noncomputable def getProjectionOnto (u rhs : Vec3 ℝ) : Except PyErr (Vec3 ℝ) :=
  if rhs.getLengthSquared = 0 then .error .valueError else do
  let normalized ← rhs.getNormalized
  .ok ((normalized.dot u) • normalized)

open Classical in
/-- `getPerpendicularTo`, `Vector3DReal.py:197-214`. -/
noncomputable def getPerpendicularTo (u rhs : Vec3 ℝ) : Except PyErr (Vec3 ℝ) :=
  if rhs.getLengthSquared = 0 then .error .valueError else do
  let p ← u.getProjectionOnto rhs
  .ok (u - p)

open Classical in
/-- `getRotatedAroundNormalizedAxis`, `Vector3DReal.py:217-243`. -/
noncomputable def getRotatedAroundNormalizedAxis (u axis : Vec3 ℝ) (angle : ℝ) :
    Except PyErr (Vec3 ℝ) :=
  if axis.getLengthSquared = 0 then .error .valueError else
  let thisDotAxis := u.dot axis
  let axisCrossThis := axis.cross u
  let projectionOntoAxis := thisDotAxis • axis
  .ok (projectionOntoAxis + (Real.cos angle) • (u - projectionOntoAxis) +
    (Real.sin angle) • axisCrossThis)

/-- `rotateAroundNormalizedAxis`, `Vector3DReal.py:246-266`: the receiver after the call, and the
outcome. -/
noncomputable def rotateAroundNormalizedAxis (u axis : Vec3 ℝ) (angle : ℝ) :
    Vec3 ℝ × Except PyErr Unit :=
  match u.getRotatedAroundNormalizedAxis axis angle with
  | .error e => (u, .error e)
  | .ok rotated =>
    let u : Vec3 ℝ := { u with x := rotated.x }
    let u : Vec3 ℝ := { u with y := rotated.y }
    let u : Vec3 ℝ := { u with z := rotated.z }
    (u, .ok ())

open Classical in
/-- `__truediv__`, `Vector3DReal.py:403-424`. -/
noncomputable def truediv (u : Vec3 ℝ) (s : ℝ) : Except PyErr (Vec3 ℝ) :=
  if s = 0 then .error .valueError else .ok ⟨u.x / s, u.y / s, u.z / s⟩

/-- `__getitem__`, `Vector3DReal.py:435-453`. -/
def getitem (u : Vec3 ℝ) (index : ℤ) : Except PyErr ℝ :=
  if index = 0 then .ok u.x
  else if index = 1 then .ok u.y
  else if index = 2 then .ok u.z
  else .error .keyError

/-! ### The C++ class, real components -/

/-- `getMagnitudeSquared`, `include/OpenMPCD/Vector3D.hpp:209-212`. -/
def cppMagnitudeSquared (u : Vec3 ℝ) : ℝ := u.dot u

/-- `getMagnitude`, `Vector3D.hpp:227-230`. -/
noncomputable def cppMagnitude (u : Vec3 ℝ) : ℝ := Real.sqrt u.cppMagnitudeSquared

open Classical in
/-- `normalize`, `Vector3D.hpp:248-258`, and `getNormalized`, lines 264-269, host code;
`none`: `DivisionByZeroException`. -/
noncomputable def cppGetNormalized (u : Vec3 ℝ) : Option (Vec3 ℝ) :=
  let mag := u.cppMagnitude
  if mag = 0 then none else some ⟨u.x / mag, u.y / mag, u.z / mag⟩

/-- `getProjectedOnto`, `Vector3D.hpp:275-279`. -/
noncomputable def cppGetProjectedOnto (u onto : Vec3 ℝ) : Option (Vec3 ℝ) := do
  let normalized ← onto.cppGetNormalized
  some ((normalized.dot u) • normalized)

/-- `getPerpendicularTo`, `Vector3D.hpp:285-288`. -/
noncomputable def cppGetPerpendicularTo (u rhs : Vec3 ℝ) : Option (Vec3 ℝ) := do
  let p ← u.cppGetProjectedOnto rhs
  some (u - p)

/-- `rotateAroundNormalizedAxis`, `Vector3D.hpp:308-314`, with `cos(angle)` and `sin(angle)` given. -/
def rotateCS {K : Type*} [CommRing K] (u axis : Vec3 K) (c s : K) : Vec3 K :=
  let thisDotAxis := u.dot axis
  let axisCrossThis := axis.cross u
  let projectionOntoAxis := thisDotAxis • axis
  projectionOntoAxis + c • (u - projectionOntoAxis) + s • axisCrossThis

/-- `rotateAroundNormalizedAxis`, `Vector3D.hpp:308-314`; `getRotatedAroundNormalizedAxis`, lines
322-327, is the same on a copy. -/
noncomputable def cppRotate (u axis : Vec3 ℝ) (angle : ℝ) : Vec3 ℝ :=
  rotateCS u axis (Real.cos angle) (Real.sin angle)

/-- `getUnitVectorFromRandom01`, `Vector3D.hpp:408-425`. `sincospi(a)` is the pair
`(sin (π a), cos (π a))`. -/
noncomputable def getUnitVectorFromRandom01 (X_1 X_2 : ℝ) : Vec3 ℝ :=
  let z := 2 * X_1 - 1
  let phiOverPi := 2 * X_2
  let root := Real.sqrt (1 - z * z)
  let y := Real.sin (Real.pi * phiOverPi)
  let x := Real.cos (Real.pi * phiOverPi)
  ⟨x * root, y * root, z⟩

/-- `operator<`, `Vector3D.hpp:589-607`. -/
def cppLt {K : Type*} [LinearOrder K] (u v : Vec3 K) : Bool :=
  if u.x < v.x then true
  else if u.x > v.x then false
  else if u.y < v.y then true
  else if u.y > v.y then false
  else if u.z < v.z then true
  else false

/-! ### `Vector3D` (complex components) -/

open ComplexConjugate

/-- `dot`, `Analysis/MPCDAnalysis/Vector3D.py:29-30`; the C++ class does the same for complex
components (`Vector3D.hpp:172-184`). -/
noncomputable def cdot (u v : Vec3 ℂ) : ℂ := conj u.x * v.x + conj u.y * v.y + conj u.z * v.z

/-- `getComplexConjugate`, `Vector3D.py:26-27`. -/
noncomputable def getComplexConjugate (u : Vec3 ℂ) : Vec3 ℂ := ⟨conj u.x, conj u.y, conj u.z⟩

/-- `getLengthSquared`, `Vector3D.py:38-39`. -/
noncomputable def cLengthSquared (u : Vec3 ℂ) : ℝ := (u.cdot u).re

/-- `getLength`, `Vector3D.py:41-42`. -/
noncomputable def cLength (u : Vec3 ℂ) : ℝ := Real.sqrt u.cLengthSquared

open Classical in
/-- `getNormalized`, `Vector3D.py:44-46`; `none`: `ZeroDivisionError`. -/
noncomputable def cGetNormalized (u : Vec3 ℂ) : Option (Vec3 ℂ) :=
  if u.cLength = 0 then none else
  let factor : ℂ := ((1 / u.cLength : ℝ) : ℂ)
  some ⟨u.x * factor, u.y * factor, u.z * factor⟩

/-- `getProjectionOnto`, `Vector3D.py:54-56`. -/
noncomputable def cGetProjectionOnto (u rhs : Vec3 ℂ) : Option (Vec3 ℂ) := do
  let normalized ← rhs.cGetNormalized
  some ((normalized.cdot u) • normalized)

/-- `getPerpendicularTo`, `Vector3D.py:58-59`. -/
noncomputable def cGetPerpendicularTo (u rhs : Vec3 ℂ) : Option (Vec3 ℂ) := do
  let p ← u.cGetProjectionOnto rhs
  some (u - p)

/-- `getRotatedAroundNormalizedAxis`, `Vector3D.py:61-68`: note `self.dot(axis)`, which conjugates the
components of the vector to be rotated. -/
noncomputable def cRotate (u axis : Vec3 ℂ) (angle : ℝ) : Vec3 ℂ :=
  let thisDotAxis := u.cdot axis
  let axisCrossThis := axis.cross u
  let projectionOntoAxis := thisDotAxis • axis
  projectionOntoAxis + ((Real.cos angle : ℝ) : ℂ) • (u - projectionOntoAxis) +
    ((Real.sin angle : ℝ) : ℂ) • axisCrossThis

/-- A real vector as a complex one, `getComplexVector`, `Vector3D.hpp:295-300`. -/
def toComplex (u : Vec3 ℝ) : Vec3 ℂ := ⟨u.x, u.y, u.z⟩

end OpenMPCD.Vec3
