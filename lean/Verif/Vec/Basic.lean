import Mathlib.Algebra.Module.Basic
import Mathlib.Tactic.Ring
import Mathlib.Tactic.LinearCombination
import Mathlib.Tactic.Positivity
import Mathlib.Tactic.Linarith
import Mathlib.Algebra.Order.Field.Basic

/-!
# Three-dimensional vectors
-/

namespace OpenMPCD

/-- Three components; state of `Vector3DReal` (`Analysis/MPCDAnalysis/Vector3DReal.py:69-71`), of
`Vector3D` (`Analysis/MPCDAnalysis/Vector3D.py:4-7`) and of the C++ class
(`include/OpenMPCD/Vector3D.hpp:620-623`). -/
@[ext] structure Vec3 (K : Type*) where
  x : K
  y : K
  z : K
  deriving DecidableEq

namespace Vec3

variable {K : Type*}

section Ring
variable [CommRing K]

/-- `__add__`, `Vector3DReal.py:345-356`; `operator+`, `include/OpenMPCD/Vector3D.hpp:456-475`. -/
instance : Add (Vec3 K) := ⟨fun u v => ⟨u.x + v.x, u.y + v.y, u.z + v.z⟩⟩
/-- `__sub__`, `Vector3DReal.py:359-370`; `operator-`, `Vector3D.hpp:483-502`. -/
instance : Sub (Vec3 K) := ⟨fun u v => ⟨u.x - v.x, u.y - v.y, u.z - v.z⟩⟩
/-- `__neg__`, `Vector3DReal.py:427-432`; `operator-()`, `Vector3D.hpp:508-511`. -/
instance : Neg (Vec3 K) := ⟨fun u => ⟨-u.x, -u.y, -u.z⟩⟩
instance : Zero (Vec3 K) := ⟨⟨0, 0, 0⟩⟩
/-- `__mul__`, `Vector3DReal.py:373-386`; `operator*`, `Vector3D.hpp:519-548`. `s • v` stands for both
`v * s` and `s * v`. -/
instance : SMul K (Vec3 K) := ⟨fun s u => ⟨u.x * s, u.y * s, u.z * s⟩⟩

@[simp] theorem add_x (u v : Vec3 K) : (u + v).x = u.x + v.x := rfl
@[simp] theorem add_y (u v : Vec3 K) : (u + v).y = u.y + v.y := rfl
@[simp] theorem add_z (u v : Vec3 K) : (u + v).z = u.z + v.z := rfl
@[simp] theorem sub_x (u v : Vec3 K) : (u - v).x = u.x - v.x := rfl
@[simp] theorem sub_y (u v : Vec3 K) : (u - v).y = u.y - v.y := rfl
@[simp] theorem sub_z (u v : Vec3 K) : (u - v).z = u.z - v.z := rfl
@[simp] theorem neg_x (u : Vec3 K) : (-u).x = -u.x := rfl
@[simp] theorem neg_y (u : Vec3 K) : (-u).y = -u.y := rfl
@[simp] theorem neg_z (u : Vec3 K) : (-u).z = -u.z := rfl
@[simp] theorem zero_x : (0 : Vec3 K).x = 0 := rfl
@[simp] theorem zero_y : (0 : Vec3 K).y = 0 := rfl
@[simp] theorem zero_z : (0 : Vec3 K).z = 0 := rfl
@[simp] theorem smul_x (s : K) (u : Vec3 K) : (s • u).x = u.x * s := rfl
@[simp] theorem smul_y (s : K) (u : Vec3 K) : (s • u).y = u.y * s := rfl
@[simp] theorem smul_z (s : K) (u : Vec3 K) : (s • u).z = u.z * s := rfl

instance : AddCommGroup (Vec3 K) where
  add_assoc u v w := by ext <;> simp [add_assoc]
  zero_add u := by ext <;> simp
  add_zero u := by ext <;> simp
  add_comm u v := by ext <;> simp [add_comm]
  neg_add_cancel u := by ext <;> simp
  sub_eq_add_neg u v := by ext <;> simp [sub_eq_add_neg]
  nsmul := nsmulRec
  zsmul := zsmulRec

instance : Module K (Vec3 K) where
  one_smul u := by ext <;> simp
  mul_smul a b u := by ext <;> simp <;> ring
  smul_zero a := by ext <;> simp
  smul_add a u v := by ext <;> simp <;> ring
  add_smul a b u := by ext <;> simp <;> ring
  zero_smul u := by ext <;> simp

/-- `dot`, `Vector3DReal.py:98-109`; `Vector3D.hpp:181-184` for real components. -/
def dot (u v : Vec3 K) : K := u.x * v.x + u.y * v.y + u.z * v.z

/-- `cross`, `Vector3DReal.py:112-126`, `Vector3D.py:32-36`, `Vector3D.hpp:164-170`. -/
def cross (u v : Vec3 K) : Vec3 K :=
  ⟨u.y * v.z - u.z * v.y, u.z * v.x - u.x * v.z, u.x * v.y - u.y * v.x⟩

theorem dot_comm (u v : Vec3 K) : u.dot v = v.dot u := by simp only [dot]; ring
theorem dot_add (u v w : Vec3 K) : u.dot (v + w) = u.dot v + u.dot w := by simp [dot]; ring
theorem add_dot (u v w : Vec3 K) : (u + v).dot w = u.dot w + v.dot w := by simp [dot]; ring
theorem dot_sub (u v w : Vec3 K) : u.dot (v - w) = u.dot v - u.dot w := by simp [dot]; ring
theorem sub_dot (u v w : Vec3 K) : (u - v).dot w = u.dot w - v.dot w := by simp [dot]; ring
theorem dot_smul (s : K) (u v : Vec3 K) : u.dot (s • v) = s * u.dot v := by simp [dot]; ring
theorem smul_dot (s : K) (u v : Vec3 K) : (s • u).dot v = s * u.dot v := by simp [dot]; ring
@[simp] theorem dot_zero (u : Vec3 K) : u.dot 0 = 0 := by simp [dot]
@[simp] theorem zero_dot (u : Vec3 K) : (0 : Vec3 K).dot u = 0 := by simp [dot]
theorem neg_dot (u v : Vec3 K) : (-u).dot v = - u.dot v := by simp [dot]; ring
theorem dot_neg (u v : Vec3 K) : u.dot (-v) = - u.dot v := by simp [dot]; ring

/-- The components as additive maps. -/
def xHom : Vec3 K →+ K := ⟨⟨Vec3.x, rfl⟩, fun _ _ => rfl⟩
def yHom : Vec3 K →+ K := ⟨⟨Vec3.y, rfl⟩, fun _ _ => rfl⟩
def zHom : Vec3 K →+ K := ⟨⟨Vec3.z, rfl⟩, fun _ _ => rfl⟩
/-- The dot product with a fixed left factor as an additive map. -/
def dotHom (u : Vec3 K) : Vec3 K →+ K := ⟨⟨u.dot, dot_zero u⟩, dot_add u⟩

end Ring

section Ordered
variable [Field K] [LinearOrder K] [IsStrictOrderedRing K]

theorem dot_self_nonneg (u : Vec3 K) : 0 ≤ u.dot u := by
  simp only [dot]; nlinarith [mul_self_nonneg u.x, mul_self_nonneg u.y, mul_self_nonneg u.z]

theorem dot_self_eq_zero {u : Vec3 K} : u.dot u = 0 ↔ u = 0 := by
  constructor
  · intro h
    simp only [dot] at h
    have hx : u.x * u.x = 0 := by
      nlinarith [mul_self_nonneg u.x, mul_self_nonneg u.y, mul_self_nonneg u.z]
    have hy : u.y * u.y = 0 := by
      nlinarith [mul_self_nonneg u.x, mul_self_nonneg u.y, mul_self_nonneg u.z]
    have hz : u.z * u.z = 0 := by
      nlinarith [mul_self_nonneg u.x, mul_self_nonneg u.y, mul_self_nonneg u.z]
    ext
    · simpa using hx
    · simpa using hy
    · simpa using hz
  · rintro rfl; simp

end Ordered

end Vec3

end OpenMPCD
