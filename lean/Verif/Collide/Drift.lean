import Verif.Sim.Time
import Verif.Collide.Model
import Mathlib.Algebra.BigOperators.Group.List.Basic
import Mathlib.Algebra.Order.BigOperators.Group.List

/-!
# Momentum and energy in a collision under floating-point rounding (C130)

C13 is for exact numbers. Here every operation may have an error, as it has in floating-point arithmetic.
-/

set_option linter.unusedSectionVars false
set_option linter.unusedSimpArgs false
set_option linter.unusedVariables false

namespace OpenMPCD.Collide.Drift

open Vec3

/-! ## Model -/

/-- How accurate floating-point operations are: relative error, absolute error (of small results), and up to which
magnitude. -/
structure Accuracy where
  u : ℝ
  η : ℝ
  B : ℝ

/-- `y` is what an operation may yield if `x` is the exact result. `y = x` is allowed, so that the compiler may combine a
multiplication and an addition to one operation. -/
def Near (F : Accuracy) (x y : ℝ) : Prop := |x| ≤ F.B → |y - x| ≤ F.u * |x| + F.η

/-- The same for the addition of two numbers, which has no absolute error. -/
def NearSum (F : Accuracy) (x y : ℝ) : Prop := |x| ≤ F.B → |y - x| ≤ F.u * |x|

/-- The same for vectors. -/
def NearVec (F : Accuracy) (x y : Vec3 ℝ) : Prop := Near F x.x y.x ∧ Near F x.y y.y ∧ Near F x.z y.z

/-- Atomic additions to a number, one after another (`cudaDeviceCode/OpenMPCD/CUDA/DeviceCode/Utilities.cu:3-14`); `R`: what an
addition may yield. -/
def Adds (R : ℝ → ℝ → Prop) : ℝ → List ℝ → ℝ → Prop
  | s, [], r => r = s
  | s, x :: xs, r => ∃ t, R (x + s) t ∧ Adds R t xs r

/-- A particle in the cell, with its velocity after the Lees-Edwards correction. -/
structure Body where
  vel : Vec3 ℝ
  mass : ℝ

/-- A component of the momentum of the cell (`cudaDeviceCode/OpenMPCD/CUDA/DeviceCode/Simulation.cu:151`), the particles being
in any order. -/
def Momentum (F : Accuracy) (k : Vec3 ℝ → ℝ) (bs : List Body) (r : ℝ) : Prop :=
  ∃ l : List Body, l.Perm bs ∧ ∃ qs, List.Forall₂ (fun b q => Near F (k b.vel * b.mass) q) l qs ∧ Adds (Near F) 0 qs r

/-- The mass of the cell (`cudaDeviceCode/OpenMPCD/CUDA/DeviceCode/Simulation.cu:152`). -/
def Mass (F : Accuracy) (bs : List Body) (r : ℝ) : Prop :=
  ∃ l : List Body, l.Perm bs ∧ Adds (NearSum F) 0 (l.map Body.mass) r

/-- `dot` (`include/OpenMPCD/Vector3D.hpp:181-184`, for real numbers). -/
def Dot (F : Accuracy) (w a : Vec3 ℝ) (d : ℝ) : Prop :=
  ∃ p q r s, Near F (w.x * a.x) p ∧ Near F (w.y * a.y) q ∧ Near F (w.z * a.z) r ∧ Near F (p + q) s ∧ Near F (s + r) d

/-- A component of `cross` (`include/OpenMPCD/Vector3D.hpp:164-170`). -/
def CrossComponent (F : Accuracy) (a b c d r : ℝ) : Prop := ∃ p q, Near F (a * b) p ∧ Near F (c * d) q ∧ Near F (p - q) r

/-- `cross` (`include/OpenMPCD/Vector3D.hpp:164-170`). -/
def Cross (F : Accuracy) (a w r : Vec3 ℝ) : Prop :=
  CrossComponent F a.y w.z a.z w.y r.x ∧ CrossComponent F a.z w.x a.x w.z r.y ∧ CrossComponent F a.x w.y a.y w.x r.z

/-- `rotateAroundNormalizedAxis` (`include/OpenMPCD/Vector3D.hpp:308-314`); `c`, `s`: what `cos` and `sin` yield. -/
def Rotated (F : Accuracy) (a : Vec3 ℝ) (c s : ℝ) (w r : Vec3 ℝ) : Prop :=
  ∃ thisDotAxis axisCrossThis projectionOntoAxis difference first sum second,
    Dot F w a thisDotAxis ∧ Cross F a w axisCrossThis ∧ NearVec F (thisDotAxis • a) projectionOntoAxis ∧
    NearVec F (w - projectionOntoAxis) difference ∧ NearVec F (c • difference) first ∧
    NearVec F (projectionOntoAxis + first) sum ∧ NearVec F (s • axisCrossThis) second ∧ NearVec F (sum + second) r

/-- The new velocity of a particle (`cudaDeviceCode/OpenMPCD/CUDA/DeviceCode/Simulation.cu:252-261`,
`cudaDeviceCode/OpenMPCD/CUDA/DeviceCode/Simulation.cu:355-356`), `V` being the velocity of the cell, and `scaling` its
scaling factor, which is 1 without a thermostat. -/
def NewVelocity (F : Accuracy) (V a : Vec3 ℝ) (c s scaling : ℝ) (v v' : Vec3 ℝ) : Prop :=
  ∃ w r z, NearVec F (v - V) w ∧ Rotated F a c s w r ∧ NearVec F (scaling • r) z ∧ NearVec F (z + V) v'

/-- The collision in one cell: what the particles may be afterwards
(`cudaDeviceCode/OpenMPCD/CUDA/DeviceCode/Simulation.cu:117-367`). -/
def Collides (F : Accuracy) (a : Vec3 ℝ) (c s scaling : ℝ) (bs bs' : List Body) : Prop :=
  ∃ (P : Vec3 ℝ) (M : ℝ) (V : Vec3 ℝ), Momentum F Vec3.x bs P.x ∧ Momentum F Vec3.y bs P.y ∧ Momentum F Vec3.z bs P.z ∧ Mass F bs M ∧
    Near F (P.x / M) V.x ∧ Near F (P.y / M) V.y ∧ Near F (P.z / M) V.z ∧
    List.Forall₂ (fun b b' => b'.mass = b.mass ∧ NewVelocity F V a c s scaling b.vel b'.vel) bs bs'

/-- The same as a function, every operation being rounded on its own, and atomic additions taking place in the order of `order`.
`rnd`: the rounding. -/
noncomputable def roundVec (rnd : ℝ → ℝ) (v : Vec3 ℝ) : Vec3 ℝ := ⟨rnd v.x, rnd v.y, rnd v.z⟩

/-- Adding up numbers. -/
noncomputable def total (rnd : ℝ → ℝ) (qs : List ℝ) : ℝ := qs.foldl (fun s x => rnd (x + s)) 0

/-- `rotateAroundNormalizedAxis` (`include/OpenMPCD/Vector3D.hpp:308-314`). -/
noncomputable def rotate (rnd : ℝ → ℝ) (a : Vec3 ℝ) (c s : ℝ) (w : Vec3 ℝ) : Vec3 ℝ :=
  let thisDotAxis := rnd (rnd (rnd (w.x * a.x) + rnd (w.y * a.y)) + rnd (w.z * a.z))
  let axisCrossThis : Vec3 ℝ := ⟨rnd (rnd (a.y * w.z) - rnd (a.z * w.y)), rnd (rnd (a.z * w.x) - rnd (a.x * w.z)),
    rnd (rnd (a.x * w.y) - rnd (a.y * w.x))⟩
  let projectionOntoAxis := roundVec rnd (thisDotAxis • a)
  let first := roundVec rnd (c • roundVec rnd (w - projectionOntoAxis))
  roundVec rnd (roundVec rnd (projectionOntoAxis + first) + roundVec rnd (s • axisCrossThis))

/-- The velocity of the cell (`cudaDeviceCode/OpenMPCD/CUDA/DeviceCode/Simulation.cu:151-152`,
`cudaDeviceCode/OpenMPCD/CUDA/DeviceCode/Simulation.cu:175`). -/
noncomputable def cellVelocity (rnd : ℝ → ℝ) (order : List Body) : Vec3 ℝ :=
  let sum := fun k : Vec3 ℝ → ℝ => total rnd (order.map fun b => rnd (k b.vel * b.mass))
  let M := total rnd (order.map Body.mass)
  ⟨rnd (sum Vec3.x / M), rnd (sum Vec3.y / M), rnd (sum Vec3.z / M)⟩

/-- The collision in a cell (`cudaDeviceCode/OpenMPCD/CUDA/DeviceCode/Simulation.cu:117-367`). -/
noncomputable def collide (rnd : ℝ → ℝ) (order : List Body) (a : Vec3 ℝ) (c s scaling : ℝ) (bs : List Body) : List Body :=
  let V := cellVelocity rnd order
  bs.map fun b => ⟨roundVec rnd (roundVec rnd (scaling • rotate rnd a c s (roundVec rnd (b.vel - V))) + V), b.mass⟩

/-- `getUnitVectorFromRandom01` (`include/OpenMPCD/Vector3D.hpp:408-425`); `cosine`, `sine`: what `sincospi` yields. -/
noncomputable def axis (rnd : ℝ → ℝ) (X_1 cosine sine : ℝ) : Vec3 ℝ :=
  let z := rnd (rnd (2 * X_1) - 1)
  let root := rnd (Real.sqrt (rnd (1 - rnd (z * z))))
  ⟨rnd (cosine * root), rnd (sine * root), z⟩

/-! ## Specification -/

/-- The mass of particles. -/
def mass (bs : List Body) : ℝ := (bs.map Body.mass).sum

/-- Their momentum. -/
def momentum (k : Vec3 ℝ → ℝ) (bs : List Body) : ℝ := (bs.map fun b => b.mass * k b.vel).sum

/-- Their kinetic energy. -/
noncomputable def energy (bs : List Body) : ℝ :=
  (bs.map fun b => b.mass / 2 * (b.vel.x ^ 2 + b.vel.y ^ 2 + b.vel.z ^ 2)).sum

/-- No component of a velocity is larger than `X`. -/
def Bounded (X : ℝ) (v : Vec3 ℝ) : Prop := |v.x| ≤ X ∧ |v.y| ≤ X ∧ |v.z| ≤ X

/-! ## One operation after another -/

section
variable {F : Accuracy}

theorem near_step {x y x0 W e k z k' : ℝ} (hu : 0 ≤ F.u) (hu' : F.u ≤ 1 / 64) (hη : 0 ≤ F.η) (hW : 0 ≤ W)
    (he : e = F.u * W + F.η) (h : Near F x y) (hx : |x - x0| ≤ k * e) (h0 : |x0| ≤ z * W) (hz : 1 ≤ z) (hk : 0 ≤ k)
    (hk' : k + z + k / 64 ≤ k') (hB : z * W + k * e ≤ F.B) : |y - x0| ≤ k' * e := by
  have he0 : 0 ≤ e := by rw [he]; positivity
  have hxa : |x| ≤ z * W + k * e := by
    have := abs_sub_abs_le_abs_sub x x0
    linarith
  have h1 := h (hxa.trans hB)
  have h2 : F.u * |x| + F.η ≤ (z + k / 64) * e := by
    have : F.u * |x| ≤ F.u * (z * W + k * e) := mul_le_mul_of_nonneg_left hxa hu
    have h3 : F.u * (k * e) ≤ 1 / 64 * (k * e) := mul_le_mul_of_nonneg_right hu' (by positivity)
    have h4 : F.η ≤ z * F.η := by nlinarith
    have h5 : z * e = F.u * (z * W) + z * F.η := by rw [he]; ring
    nlinarith
  have h3 := abs_add_le (y - x) (x - x0)
  rw [sub_add_sub_cancel] at h3
  have h4 : (k + z + k / 64) * e ≤ k' * e := mul_le_mul_of_nonneg_right hk' he0
  nlinarith

theorem abs_mul_le {a x A X : ℝ} (ha : |a| ≤ A) (hx : |x| ≤ X) : |a * x| ≤ A * X := by
  rw [abs_mul]; exact mul_le_mul ha hx (abs_nonneg _) ((abs_nonneg _).trans ha)

theorem abs_add_le' {x y X Y : ℝ} (hx : |x| ≤ X) (hy : |y| ≤ Y) : |x + y| ≤ X + Y :=
  (abs_add_le x y).trans (add_le_add hx hy)

theorem abs_sub_le' {x y X Y : ℝ} (hx : |x| ≤ X) (hy : |y| ≤ Y) : |x - y| ≤ X + Y := by
  rw [sub_eq_add_neg]; exact abs_add_le' hx (by rwa [abs_neg])

/-- The exact rotation, for whatever is used as the axis, the cosine, and the sine. -/
def linear (a : Vec3 ℝ) (c s : ℝ) (w : Vec3 ℝ) : Vec3 ℝ := rotateCS w a c s

section rotation
variable {W e : ℝ} (hu : 0 ≤ F.u) (hu' : F.u ≤ 1 / 64) (hη : 0 ≤ F.η) (hW : 0 ≤ W) (he : e = F.u * W + F.η)
  (hB : 12 * W + 80 * e ≤ F.B)
include hu hu' hη hW he hB

theorem e_nonneg : 0 ≤ e := by rw [he]; positivity

theorem product_error {a w y : ℝ} (ha : |a| ≤ 9 / 8) (hw : |w| ≤ W) (h : Near F (a * w) y) :
    |y - a * w| ≤ 9 / 8 * e ∧ |a * w| ≤ 9 / 8 * W := by
  have he0 := e_nonneg hu hu' hη hW he hB
  have h1 := abs_mul_le ha hw
  refine ⟨near_step (k := 0) (z := 9 / 8) hu hu' hη hW he h (by simp) h1 (by norm_num) le_rfl (by norm_num) ?_, h1⟩
  linarith

theorem dot_error {a w : Vec3 ℝ} {d : ℝ} (ha : Bounded (9 / 8) a) (hw : Bounded W w) (h : Dot F w a d) :
    |d - w.dot a| ≤ 10 * e ∧ |w.dot a| ≤ 27 / 8 * W := by
  have he0 := e_nonneg hu hu' hη hW he hB
  obtain ⟨p, q, r, s, hp, hq, hr, hs, hd⟩ := h
  rw [mul_comm] at hp hq hr
  obtain ⟨hp1, hp2⟩ := product_error hu hu' hη hW he hB ha.1 hw.1 hp
  obtain ⟨hq1, hq2⟩ := product_error hu hu' hη hW he hB ha.2.1 hw.2.1 hq
  obtain ⟨hr1, hr2⟩ := product_error hu hu' hη hW he hB ha.2.2 hw.2.2 hr
  have hs1 : |s - (a.x * w.x + a.y * w.y)| ≤ 5 * e := by
    refine near_step (k := 9 / 4) (z := 9 / 4) hu hu' hη hW he hs ?_ ?_ (by norm_num) (by norm_num) (by norm_num) (by linarith)
    · rw [show p + q - (a.x * w.x + a.y * w.y) = (p - a.x * w.x) + (q - a.y * w.y) by ring]
      exact (abs_add_le' hp1 hq1).trans (by linarith)
    · exact (abs_add_le' hp2 hq2).trans (by linarith)
  have e1 : w.dot a = a.x * w.x + a.y * w.y + a.z * w.z := by simp only [Vec3.dot]; ring
  have h0 : |w.dot a| ≤ 27 / 8 * W := by
    rw [e1]; exact (abs_add_le' (abs_add_le' hp2 hq2) hr2).trans (by linarith)
  refine ⟨?_, h0⟩
  refine near_step (k := 49 / 8) (z := 27 / 8) hu hu' hη hW he hd ?_ h0 (by norm_num) (by norm_num) (by norm_num)
    (by linarith)
  rw [e1, show s + r - (a.x * w.x + a.y * w.y + a.z * w.z) = (s - (a.x * w.x + a.y * w.y)) + (r - a.z * w.z) by ring]
  exact (abs_add_le' hs1 hr1).trans (by linarith)

theorem cross_error {a b a' b' r : ℝ} (ha : |a| ≤ 9 / 8) (hb : |b| ≤ W) (ha' : |a'| ≤ 9 / 8) (hb' : |b'| ≤ W)
    (h : CrossComponent F a b a' b' r) : |r - (a * b - a' * b')| ≤ 5 * e ∧ |a * b - a' * b'| ≤ 9 / 4 * W := by
  have he0 := e_nonneg hu hu' hη hW he hB
  obtain ⟨p, q, hp, hq, hr⟩ := h
  obtain ⟨hp1, hp2⟩ := product_error hu hu' hη hW he hB ha hb hp
  obtain ⟨hq1, hq2⟩ := product_error hu hu' hη hW he hB ha' hb' hq
  have h0 : |a * b - a' * b'| ≤ 9 / 4 * W := (abs_sub_le' hp2 hq2).trans (by linarith)
  refine ⟨?_, h0⟩
  refine near_step (k := 9 / 4) (z := 9 / 4) hu hu' hη hW he hr ?_ h0 (by norm_num) (by norm_num) (by norm_num) (by linarith)
  rw [show p - q - (a * b - a' * b') = (p - a * b) - (q - a' * b') by ring]
  exact (abs_sub_le' hp1 hq1).trans (by linarith)

theorem component_error {a w c s d d0 x x0 proj diff first sum second r : ℝ} (ha : |a| ≤ 9 / 8) (hw : |w| ≤ W)
    (hc : |c| ≤ 9 / 8) (hs : |s| ≤ 9 / 8) (hd : |d - d0| ≤ 10 * e) (hd0 : |d0| ≤ 27 / 8 * W) (hx : |x - x0| ≤ 5 * e)
    (hx0 : |x0| ≤ 9 / 4 * W) (h1 : Near F (a * d) proj) (h2 : Near F (w - proj) diff) (h3 : Near F (diff * c) first)
    (h4 : Near F (proj + first) sum) (h5 : Near F (x * s) second) (h6 : Near F (sum + second) r) :
    |r - (a * d0 + (w - a * d0) * c + x0 * s)| ≤ 80 * e ∧ |a * d0 + (w - a * d0) * c + x0 * s| ≤ 12 * W := by
  rw [mul_comm] at h1 h3 h5
  rw [show a * d0 + (w - a * d0) * c + x0 * s = d0 * a + c * (w - d0 * a) + s * x0 by ring]
  have he0 := e_nonneg hu hu' hη hW he hB
  have m1 : |d0 * a| ≤ 19 / 5 * W := (abs_mul_le hd0 ha).trans (by linarith)
  have e1 : |proj - d0 * a| ≤ 16 * e := by
    refine near_step (k := 45 / 4) (z := 19 / 5) hu hu' hη hW he h1 ?_ m1 (by norm_num) (by norm_num) (by norm_num)
      (by linarith)
    rw [← sub_mul]
    exact (abs_mul_le hd ha).trans (by linarith)
  have m2 : |w - d0 * a| ≤ 24 / 5 * W := (abs_sub_le' hw m1).trans (by linarith)
  have e2 : |diff - (w - d0 * a)| ≤ 22 * e := by
    refine near_step (k := 16) (z := 24 / 5) hu hu' hη hW he h2 ?_ m2 (by norm_num) (by norm_num) (by norm_num) (by linarith)
    rw [show w - proj - (w - d0 * a) = -(proj - d0 * a) by ring, abs_neg]
    exact e1
  have m3 : |c * (w - d0 * a)| ≤ 27 / 5 * W := (abs_mul_le hc m2).trans (by linarith)
  have e3 : |first - c * (w - d0 * a)| ≤ 31 * e := by
    refine near_step (k := 99 / 4) (z := 27 / 5) hu hu' hη hW he h3 ?_ m3 (by norm_num) (by norm_num) (by norm_num)
      (by linarith)
    rw [← mul_sub]
    exact (abs_mul_le hc e2).trans (by linarith)
  have m4 : |d0 * a + c * (w - d0 * a)| ≤ 46 / 5 * W := (abs_add_le' m1 m3).trans (by linarith)
  have e4 : |sum - (d0 * a + c * (w - d0 * a))| ≤ 57 * e := by
    refine near_step (k := 47) (z := 46 / 5) hu hu' hη hW he h4 ?_ m4 (by norm_num) (by norm_num) (by norm_num) (by linarith)
    rw [show proj + first - (d0 * a + c * (w - d0 * a)) = (proj - d0 * a) + (first - c * (w - d0 * a)) by ring]
    exact (abs_add_le' e1 e3).trans (by linarith)
  have m5 : |s * x0| ≤ 13 / 5 * W := (abs_mul_le hs hx0).trans (by linarith)
  have e5 : |second - s * x0| ≤ 9 * e := by
    refine near_step (k := 45 / 8) (z := 13 / 5) hu hu' hη hW he h5 ?_ m5 (by norm_num) (by norm_num) (by norm_num)
      (by linarith)
    rw [← mul_sub]
    exact (abs_mul_le hs hx).trans (by linarith)
  have m6 : |d0 * a + c * (w - d0 * a) + s * x0| ≤ 59 / 5 * W := (abs_add_le' m4 m5).trans (by linarith)
  refine ⟨?_, m6.trans (by linarith)⟩
  refine near_step (k := 66) (z := 59 / 5) hu hu' hη hW he h6 ?_ m6 (by norm_num) (by norm_num) (by norm_num) (by linarith)
  rw [show sum + second - (d0 * a + c * (w - d0 * a) + s * x0) =
    (sum - (d0 * a + c * (w - d0 * a))) + (second - s * x0) by ring]
  exact (abs_add_le' e4 e5).trans (by linarith)

/-- The error of a rotation. -/
theorem rotation_error {a w r : Vec3 ℝ} {c s : ℝ} (ha : Bounded (9 / 8) a) (hw : Bounded W w) (hc : |c| ≤ 9 / 8)
    (hs : |s| ≤ 9 / 8) (h : Rotated F a c s w r) :
    (|r.x - (linear a c s w).x| ≤ 80 * e ∧ |r.y - (linear a c s w).y| ≤ 80 * e ∧ |r.z - (linear a c s w).z| ≤ 80 * e) ∧
      Bounded (12 * W) (linear a c s w) := by
  obtain ⟨d, cr, proj, diff, first, sum, second, hd, hcr, h1, h2, h3, h4, h5, h6⟩ := h
  obtain ⟨hd1, hd0⟩ := dot_error hu hu' hη hW he hB ha hw hd
  obtain ⟨x1, x0⟩ := cross_error hu hu' hη hW he hB ha.2.1 hw.2.2 ha.2.2 hw.2.1 hcr.1
  obtain ⟨y1, y0⟩ := cross_error hu hu' hη hW he hB ha.2.2 hw.1 ha.1 hw.2.2 hcr.2.1
  obtain ⟨z1, z0⟩ := cross_error hu hu' hη hW he hB ha.1 hw.2.1 ha.2.1 hw.1 hcr.2.2
  have ex := component_error hu hu' hη hW he hB ha.1 hw.1 hc hs hd1 hd0 x1 x0 h1.1 h2.1 h3.1 h4.1 h5.1 h6.1
  have ey := component_error hu hu' hη hW he hB ha.2.1 hw.2.1 hc hs hd1 hd0 y1 y0 h1.2.1 h2.2.1 h3.2.1 h4.2.1 h5.2.1 h6.2.1
  have ez := component_error hu hu' hη hW he hB ha.2.2 hw.2.2 hc hs hd1 hd0 z1 z0 h1.2.2 h2.2.2 h3.2.2 h4.2.2 h5.2.2 h6.2.2
  exact ⟨⟨ex.1, ey.1, ez.1⟩, ex.2, ey.2, ez.2⟩

end rotation
end

theorem linear_bound {a w : Vec3 ℝ} {c s W : ℝ} (ha : Bounded (9 / 8) a) (hw : Bounded W w) (hc : |c| ≤ 9 / 8)
    (hs : |s| ≤ 9 / 8) : Bounded (12 * W) (linear a c s w) := by
  have hW : 0 ≤ W := (abs_nonneg _).trans hw.1
  have hd : |w.dot a| ≤ 27 / 8 * W := by
    simp only [Vec3.dot]
    exact (abs_add_le' (abs_add_le' (abs_mul_le hw.1 ha.1) (abs_mul_le hw.2.1 ha.2.1)) (abs_mul_le hw.2.2 ha.2.2)).trans
      (by linarith)
  have key : ∀ {a w x : ℝ}, |a| ≤ 9 / 8 → |w| ≤ W → |x| ≤ 9 / 4 * W → ∀ {d : ℝ}, |d| ≤ 27 / 8 * W →
      |a * d + (w - a * d) * c + x * s| ≤ 12 * W := by
    intro a w x ha hw hx d hd
    rw [show a * d + (w - a * d) * c + x * s = d * a + c * (w - d * a) + s * x by ring]
    have m1 := abs_mul_le hd ha
    exact (abs_add_le' (abs_add_le' m1 (abs_mul_le hc (abs_sub_le' hw m1))) (abs_mul_le hs hx)).trans (by linarith)
  have cr : ∀ {a b a' b' : ℝ}, |a| ≤ 9 / 8 → |b| ≤ W → |a'| ≤ 9 / 8 → |b'| ≤ W → |a * b - a' * b'| ≤ 9 / 4 * W :=
    fun h1 h2 h3 h4 => (abs_sub_le' (abs_mul_le h1 h2) (abs_mul_le h3 h4)).trans (by linarith)
  exact ⟨key ha.1 hw.1 (cr ha.2.1 hw.2.2 ha.2.2 hw.2.1) hd, key ha.2.1 hw.2.1 (cr ha.2.2 hw.1 ha.1 hw.2.2) hd,
    key ha.2.2 hw.2.2 (cr ha.1 hw.2.1 ha.2.1 hw.1) hd⟩

/-! ## Sums -/

theorem adds_error {R : ℝ → ℝ → Prop} {u η B T K : ℝ} (hR : ∀ x y, R x y → |x| ≤ B → |y - x| ≤ u * |x| + η) (hu : 0 ≤ u)
    (hK0 : 0 ≤ K) (hK : K = u * T + η) (qs : List ℝ) : ∀ (s s0 r : ℝ) (j : ℕ), |s - s0| ≤ (1 + u) ^ j * (j * K) →
      |s0| + (qs.map abs).sum ≤ T →
      T + (1 + u) ^ (j + qs.length) * ((j + qs.length : ℕ) * K) ≤ B → Adds R s qs r →
      |r - (s0 + qs.sum)| ≤ (1 + u) ^ (j + qs.length) * ((j + qs.length : ℕ) * K) := by
  induction qs with
  | nil =>
    intro s s0 r j h1 _ _ h4
    simp only [Adds] at h4
    simpa [h4] using h1
  | cons x xs ih =>
    intro s s0 r j h1 h2 h3 h4
    obtain ⟨t, ht, hr⟩ := h4
    simp only [List.map_cons, List.sum_cons, List.length_cons] at h2 h3 ⊢
    have hxs : 0 ≤ (xs.map abs).sum := List.sum_nonneg (by simp)
    have hsx : |x + s0| ≤ T := by
      have := abs_add_le x s0
      linarith
    have e1 : (1 + u) ^ j * (j * K) ≤ (1 + u) ^ (j + (xs.length + 1)) * ((j + (xs.length + 1) : ℕ) * K) := by
      apply mul_le_mul
      · exact pow_le_pow_right₀ (by linarith) (by omega)
      · refine mul_le_mul_of_nonneg_right ?_ hK0
        exact_mod_cast (by omega : j ≤ j + (xs.length + 1))
      · positivity
      · positivity
    have hxs' : |x + s| ≤ T + (1 + u) ^ j * (j * K) := by
      have := abs_add_le (x + s0) (s - s0)
      rw [show x + s0 + (s - s0) = x + s by ring] at this
      linarith
    have h5 := hR _ _ ht (by linarith)
    have h6 : |t - (s0 + x)| ≤ (1 + u) ^ (j + 1) * ((j + 1 : ℕ) * K) := by
      have h7 := abs_add_le (t - (x + s)) (s - s0)
      rw [show t - (x + s) + (s - s0) = t - (s0 + x) by ring] at h7
      have h8 : u * |x + s| ≤ u * (T + (1 + u) ^ j * (j * K)) := mul_le_mul_of_nonneg_left hxs' hu
      have h9 : K ≤ (1 + u) ^ (j + 1) * K := le_mul_of_one_le_left hK0 (one_le_pow₀ (by linarith))
      have : (1 + u) ^ (j + 1) * ((j + 1 : ℕ) * K) = (1 + u) * ((1 + u) ^ j * (j * K)) + (1 + u) ^ (j + 1) * K := by
        rw [pow_succ]; push_cast; ring
      rw [this]
      nlinarith
    have h7 := ih t (s0 + x) r (j + 1) h6
      (by have := abs_add_le s0 x; linarith)
      (by rw [show j + 1 + xs.length = j + (xs.length + 1) by omega]; exact h3) hr
    rw [show j + 1 + xs.length = j + (xs.length + 1) by omega] at h7
    rwa [← add_assoc]

theorem adds_sum {R : ℝ → ℝ → Prop} {u η B T : ℝ} (hR : ∀ x y, R x y → |x| ≤ B → |y - x| ≤ u * |x| + η) (hu : 0 ≤ u)
    (hη : 0 ≤ η) {qs : List ℝ} (hn : qs.length * u ≤ 1 / 64) (hT : (qs.map abs).sum ≤ T)
    (hB : T + 2 * (qs.length * (u * T + η)) ≤ B) {r : ℝ} (h : Adds R 0 qs r) :
    |r - qs.sum| ≤ 2 * (qs.length * (u * T + η)) := by
  have hT0 : 0 ≤ T := (List.sum_nonneg (by simp)).trans hT
  have hK0 : 0 ≤ u * T + η := by positivity
  have hp : (1 + u) ^ qs.length ≤ 2 := by
    have := Time.compound hu qs.length (by linarith)
    linarith
  have h1 : (1 + u) ^ qs.length * (qs.length * (u * T + η)) ≤ 2 * (qs.length * (u * T + η)) :=
    mul_le_mul_of_nonneg_right hp (by positivity)
  have := adds_error hR hu hK0 rfl qs 0 0 r 0 (by simp) (by simpa using hT) (by simp only [Nat.zero_add]; linarith) h
  simp only [Nat.zero_add, zero_add] at this
  linarith

theorem forall₂_sum {α : Type} {f ε : α → ℝ} {l : List α} {qs : List ℝ} (h : List.Forall₂ (fun b q => |q - f b| ≤ ε b) l qs) :
    |qs.sum - (l.map f).sum| ≤ (l.map ε).sum := by
  induction h with
  | nil => simp
  | cons h _ ih =>
    simp only [List.map_cons, List.sum_cons]
    refine le_trans (le_of_eq ?_) (abs_add_le' h ih)
    congr 1; ring

theorem forall₂_abs {α : Type} {f ε : α → ℝ} {l : List α} {qs : List ℝ} (h : List.Forall₂ (fun b q => |q - f b| ≤ ε b) l qs) :
    (qs.map abs).sum ≤ (l.map fun b => |f b| + ε b).sum := by
  induction h with
  | nil => simp
  | @cons b q _ _ h _ ih =>
    simp only [List.map_cons, List.sum_cons]
    have := abs_sub_abs_le_abs_sub q (f b)
    linarith

theorem sum_const {α : Type} (l : List α) (c : ℝ) : (l.map fun _ => c).sum = l.length * c := by simp

theorem sum_le {α : Type} {f g : α → ℝ} {l : List α} (h : ∀ b ∈ l, f b ≤ g b) : (l.map f).sum ≤ (l.map g).sum :=
  List.sum_le_sum h

theorem abs_sum_le {α : Type} (f : α → ℝ) (l : List α) : |(l.map f).sum| ≤ (l.map fun b => |f b|).sum := by
  induction l with
  | nil => simp
  | cons b l ih =>
    simp only [List.map_cons, List.sum_cons]
    exact (abs_add_le _ _).trans (by linarith)

theorem mass_nonneg {bs : List Body} (h : ∀ b ∈ bs, 0 < b.mass) : 0 ≤ mass bs :=
  List.sum_nonneg (by simpa using fun b hb => (h b hb).le)

theorem mass_le {bs : List Body} (h : ∀ b ∈ bs, 0 < b.mass) {b : Body} (hb : b ∈ bs) : b.mass ≤ mass bs := by
  apply List.single_le_sum _ _ (List.mem_map_of_mem hb)
  simpa using fun b hb => (h b hb).le

section cell
variable {F : Accuracy} {bs : List Body} {X : ℝ} (hu : 0 ≤ F.u) (hη : 0 ≤ F.η) (hX : 0 ≤ X) (hn : bs ≠ [])
  (hnu : bs.length * F.u ≤ 1 / 64) (hηX : F.η ≤ F.u * X) (hηM : bs.length * F.η ≤ F.u * (mass bs * X))
  (hm : ∀ b ∈ bs, 0 < b.mass)
include hu hη hX hn hnu hηX hηM hm

theorem one_le_length : (1 : ℝ) ≤ bs.length := by
  exact_mod_cast List.length_pos_iff.2 hn

theorem mass_pos : 0 < mass bs := by
  obtain ⟨b, hb⟩ := List.exists_mem_of_ne_nil _ hn
  exact (hm b hb).trans_le (mass_le hm hb)

theorem mass_error (hB : 2 * mass bs ≤ F.B) {r : ℝ} (h : Mass F bs r) : |r - mass bs| ≤ 2 * (bs.length * F.u * mass bs) := by
  obtain ⟨l, hl, h⟩ := h
  have hM := mass_pos hu hη hX hn hnu hηX hηM hm
  have e1 : (l.map Body.mass).sum = mass bs := (hl.map _).sum_eq
  have e2 : ((l.map Body.mass).map abs).sum = mass bs := by
    rw [← e1, List.map_map]
    congr 1
    apply List.map_congr_left
    intro b hb
    exact abs_of_pos (hm b (hl.mem_iff.1 hb))
  have e3 : (l.map Body.mass).length = bs.length := by rw [List.length_map, hl.length_eq]
  have := adds_sum (R := NearSum F) (η := 0) (T := mass bs) (B := F.B) (fun x y h hx => by simpa using h hx) hu le_rfl
    (by rw [e3]; exact hnu) e2.le (by rw [e3]; nlinarith) h
  rw [e3, e1, add_zero] at this
  linarith

theorem momentum_error {k : Vec3 ℝ → ℝ} (hk : ∀ b ∈ bs, |k b.vel| ≤ X) (hB : 2 * (mass bs * X) ≤ F.B) {r : ℝ}
    (h : Momentum F k bs r) : |r - momentum k bs| ≤ 8 * (bs.length * F.u * (mass bs * X)) ∧ |momentum k bs| ≤ mass bs * X := by
  obtain ⟨l, hl, qs, hqs, h⟩ := h
  have hM := mass_pos hu hη hX hn hnu hηX hηM hm
  have hn1 := one_le_length hu hη hX hn hnu hηX hηM hm
  have hMX : 0 ≤ mass bs * X := by positivity
  have hu1 : F.u ≤ 1 / 64 := by nlinarith
  have hq : List.Forall₂ (fun b q => |q - b.mass * k b.vel| ≤ F.u * (b.mass * X) + F.η) l qs := by
    have : ∀ b ∈ l, |k b.vel * b.mass| ≤ b.mass * X ∧ b.mass * X ≤ mass bs * X := fun b hb => by
      have hb' := hl.mem_iff.1 hb
      have hm' := hm b hb'
      refine ⟨?_, mul_le_mul_of_nonneg_right (mass_le hm hb') hX⟩
      rw [abs_mul, abs_of_pos hm', mul_comm]
      exact mul_le_mul_of_nonneg_left (hk b hb') hm'.le
    clear hl h
    induction hqs with
    | nil => exact .nil
    | @cons b q _ _ h _ ih =>
      refine .cons ?_ (ih fun b hb => this b (List.mem_cons_of_mem _ hb))
      have := this b List.mem_cons_self
      have h1 := h (by linarith)
      rw [mul_comm b.mass]
      have : F.u * |k b.vel * b.mass| ≤ F.u * (b.mass * X) := mul_le_mul_of_nonneg_left this.1 hu
      linarith
  have s1 : (l.map fun b => F.u * (b.mass * X) + F.η).sum ≤ 2 * (F.u * (mass bs * X)) := by
    have : (l.map fun b => F.u * (b.mass * X) + F.η).sum = F.u * (mass bs * X) + bs.length * F.η := by
      rw [mass, ← (hl.map Body.mass).sum_eq, ← hl.length_eq]
      clear * -
      induction l with
      | nil => simp
      | cons b l ih => simp only [List.map_cons, List.sum_cons, List.length_cons, ih]; push_cast; ring
    rw [this]; linarith
  have s2 : (l.map fun b => b.mass * k b.vel).sum = momentum k bs := (hl.map _).sum_eq
  have s3 : (bs.map fun b => |b.mass * k b.vel|).sum ≤ mass bs * X := by
    have : mass bs * X = (bs.map fun b => b.mass * X).sum := by
      rw [mass, List.sum_map_mul_right]
    rw [this]
    refine sum_le fun b hb => ?_
    rw [abs_mul, abs_of_pos (hm b hb)]
    exact mul_le_mul_of_nonneg_left (hk b hb) (hm b hb).le
  have s3' : (l.map fun b => |b.mass * k b.vel|).sum ≤ mass bs * X := by
    rw [(hl.map _).sum_eq]; exact s3
  have f1 := forall₂_sum hq
  have f2 := forall₂_abs hq
  rw [s2] at f1
  rw [List.sum_map_add] at f2
  have hT : (qs.map abs).sum ≤ mass bs * X + 2 * (F.u * (mass bs * X)) := by linarith
  have elen : qs.length = bs.length := by rw [← hq.length_eq, hl.length_eq]
  have hA0 : 0 ≤ bs.length * F.u * (mass bs * X) := by positivity
  have hA1 : F.u * (mass bs * X) ≤ bs.length * F.u * (mass bs * X) := by
    rw [mul_assoc]; exact le_mul_of_one_le_left (by positivity) hn1
  have hA2 : bs.length * F.u * (mass bs * X) ≤ 1 / 64 * (mass bs * X) := mul_le_mul_of_nonneg_right hnu hMX
  have hA3 : F.u * (bs.length * F.u * (mass bs * X)) ≤ 1 / 64 * (bs.length * F.u * (mass bs * X)) :=
    mul_le_mul_of_nonneg_right hu1 hA0
  have hK : bs.length * (F.u * (mass bs * X + 2 * (F.u * (mass bs * X))) + F.η) ≤ 25 / 12 * (bs.length * F.u * (mass bs * X)) := by
    have : bs.length * (F.u * (mass bs * X + 2 * (F.u * (mass bs * X))) + F.η) =
      bs.length * F.u * (mass bs * X) + 2 * (F.u * (bs.length * F.u * (mass bs * X))) + bs.length * F.η := by ring
    rw [this]; linarith
  have := adds_sum (R := Near F) (T := mass bs * X + 2 * (F.u * (mass bs * X))) (fun x y h hx => h hx) hu hη
    (by rw [elen]; exact hnu) hT (by rw [elen]; linarith) h
  rw [elen] at this
  refine ⟨?_, ?_⟩
  · have h3 := abs_add_le (r - qs.sum) (qs.sum - momentum k bs)
    rw [sub_add_sub_cancel] at h3
    linarith
  · refine le_trans ?_ s3
    exact abs_sum_le _ _

theorem velocity_error {k : Vec3 ℝ → ℝ} (hk : ∀ b ∈ bs, |k b.vel| ≤ X) (hB : 2 * (mass bs * X) ≤ F.B)
    (hB' : 2 * mass bs ≤ F.B) (hB'' : 100 * X ≤ F.B) {P M V : ℝ} (hP : Momentum F k bs P) (hM : Mass F bs M)
    (hV : Near F (P / M) V) :
    |momentum k bs - mass bs * V| ≤ 13 * (bs.length * F.u * (mass bs * X)) ∧ |V| ≤ 5 / 4 * X := by
  obtain ⟨p1, p2⟩ := momentum_error hu hη hX hn hnu hηX hηM hm hk hB hP
  have m1 := mass_error hu hη hX hn hnu hηX hηM hm hB' hM
  have m0 := mass_pos hu hη hX hn hnu hηX hηM hm
  have hn1 := one_le_length hu hη hX hn hnu hηX hηM hm
  have hMX : 0 ≤ mass bs * X := by positivity
  set A : ℝ := bs.length * F.u with hA
  have hA0 : 0 ≤ A := by positivity
  have huA : F.u ≤ A := le_mul_of_one_le_left hu hn1
  have hAM : A * mass bs ≤ 1 / 64 * mass bs := mul_le_mul_of_nonneg_right hnu m0.le
  have hAMX : A * (mass bs * X) ≤ 1 / 64 * (mass bs * X) := mul_le_mul_of_nonneg_right hnu hMX
  have hAX : A * X ≤ 1 / 64 * X := mul_le_mul_of_nonneg_right hnu hX
  have hMlow : 31 / 32 * mass bs ≤ M := by have := (abs_le.1 m1).1; linarith
  have hMpos : 0 < M := by linarith
  have hPabs : |P| ≤ 9 / 8 * (mass bs * X) := by
    have := abs_sub_abs_le_abs_sub P (momentum k bs); linarith
  have hq : |P / M| ≤ 6 / 5 * X := by
    rw [abs_div, abs_of_pos hMpos, div_le_iff₀ hMpos]
    have : 6 / 5 * X * (31 / 32 * mass bs) ≤ 6 / 5 * X * M := mul_le_mul_of_nonneg_left hMlow (by positivity)
    nlinarith
  have hV1 := hV (by linarith)
  have hV2 : |V - P / M| ≤ 11 / 5 * (F.u * X) := by
    have : F.u * |P / M| ≤ F.u * (6 / 5 * X) := mul_le_mul_of_nonneg_left hq hu
    linarith
  have huX : F.u * X ≤ A * X := mul_le_mul_of_nonneg_right huA hX
  constructor
  · have e : momentum k bs - mass bs * V = -(P - momentum k bs) + (-(P / M) * (mass bs - M) + -(mass bs * (V - P / M))) := by
      field_simp; ring
    rw [e]
    have b1 : |-(P - momentum k bs)| ≤ 8 * (A * (mass bs * X)) := by rw [abs_neg]; exact p1
    have b2 : |-(P / M) * (mass bs - M)| ≤ 12 / 5 * (A * (mass bs * X)) := by
      refine (abs_mul_le (A := 6 / 5 * X) (X := 2 * (A * mass bs)) (by rwa [abs_neg]) (by rwa [abs_sub_comm])).trans
        (le_of_eq (by ring))
    have b3 : |-(mass bs * (V - P / M))| ≤ 11 / 5 * (A * (mass bs * X)) := by
      rw [abs_neg]
      refine (abs_mul_le (A := mass bs) (X := 11 / 5 * (A * X)) (abs_of_pos m0).le (by linarith)).trans (le_of_eq (by ring))
    have : 0 ≤ A * (mass bs * X) := by positivity
    exact (abs_add_le' b1 (abs_add_le' b2 b3)).trans (by linarith)
  · have := abs_sub_abs_le_abs_sub V (P / M)
    linarith

/-! ## The new velocities -/

section body
variable (hBX : 100 * X ≤ F.B) {a V : Vec3 ℝ} {c s σ S : ℝ} (ha : Bounded (9 / 8) a) (hc : |c| ≤ 9 / 8) (hs : |s| ≤ 9 / 8)
  (hS : 1 ≤ S) (hσ : |σ| ≤ S) (hBS : 40 * (S * X) ≤ F.B) (hV : Bounded (5 / 4 * X) V)
include hBX ha hc hs hS hσ hBS hV

theorem linear_sub (w x : Vec3 ℝ) : linear a c s (w - x) = linear a c s w - linear a c s x := by
  ext <;> simp [linear, rotateCS, Vec3.dot, Vec3.cross] <;> ring

theorem newVelocity_error {v v' : Vec3 ℝ} (hv : Bounded X v) (h : NewVelocity F V a c s σ v v') :
    Bounded (384 * (S * (F.u * X))) (v' - (σ • linear a c s (v - V) + V)) := by
  obtain ⟨w, r, z, hw, hr, hz, hv'⟩ := h
  have hn1 := one_le_length hu hη hX hn hnu hηX hηM hm
  have hu1 : F.u ≤ 1 / 64 := by nlinarith
  have huX : F.u * X ≤ 1 / 64 * X := mul_le_mul_of_nonneg_right hu1 hX
  have huX0 : 0 ≤ F.u * X := by positivity
  have hSX : X ≤ S * X := le_mul_of_one_le_left hX hS
  have hSuX : F.u * X ≤ S * (F.u * X) := le_mul_of_one_le_left huX0 hS
  have hSu' : S * (F.u * X) ≤ 1 / 64 * (S * X) := by
    have := mul_le_mul_of_nonneg_left huX (zero_le_one.trans hS)
    linarith
  have hxV : Bounded (9 / 4 * X) (v - V) :=
    ⟨(abs_sub_le' hv.1 hV.1).trans (by linarith), (abs_sub_le' hv.2.1 hV.2.1).trans (by linarith),
      (abs_sub_le' hv.2.2 hV.2.2).trans (by linarith)⟩
  have k1 : ∀ {x y : ℝ}, |x| ≤ 9 / 4 * X → Near F x y → |y - x| ≤ 13 / 4 * (F.u * X) := fun {x y} hx h => by
    have h1 := h (by linarith)
    have : F.u * |x| ≤ F.u * (9 / 4 * X) := mul_le_mul_of_nonneg_left hx hu
    linarith
  have hwe : Bounded (13 / 4 * (F.u * X)) (w - (v - V)) := ⟨k1 hxV.1 hw.1, k1 hxV.2.1 hw.2.1, k1 hxV.2.2 hw.2.2⟩
  have k2 : ∀ {x y : ℝ}, |x| ≤ 9 / 4 * X → |y - x| ≤ 13 / 4 * (F.u * X) → |y| ≤ 12 / 5 * X := fun {x y} hx h => by
    have := abs_sub_abs_le_abs_sub y x
    linarith
  have hwb : Bounded (12 / 5 * X) w := ⟨k2 hxV.1 hwe.1, k2 hxV.2.1 hwe.2.1, k2 hxV.2.2 hwe.2.2⟩
  obtain ⟨⟨rx, ry, rz⟩, rb⟩ := rotation_error (W := 12 / 5 * X) (e := F.u * (12 / 5 * X) + F.η) hu hu1 hη (by positivity) rfl
    (by linarith) ha hwb hc hs hr
  have lin := linear_bound ha hwe hc hs
  rw [linear_sub hu hη hX hn hnu hηX hηM hm hBX ha hc hs hS hσ hBS hV] at lin
  have key : ∀ {L L' r z V v' : ℝ}, |r - L| ≤ 80 * (F.u * (12 / 5 * X) + F.η) → |L| ≤ 12 * (12 / 5 * X) →
      |L - L'| ≤ 12 * (13 / 4 * (F.u * X)) → Near F (r * σ) z → |V| ≤ 5 / 4 * X → Near F (z + V) v' →
      |v' - (L' * σ + V)| ≤ 384 * (S * (F.u * X)) := by
    intro L L' r z V v' h1 h2 h3 h4 h5 h6
    have r1 : |r - L| ≤ 272 * (F.u * X) := by linarith
    have r2 : |r| ≤ 34 * X := by have := abs_sub_abs_le_abs_sub r L; linarith
    have z1 : |r * σ| ≤ 34 * (S * X) := (abs_mul_le r2 hσ).trans (le_of_eq (by ring))
    have z2 := h4 (by linarith)
    have z3 : |z - r * σ| ≤ 35 * (S * (F.u * X)) := by
      have : F.u * |r * σ| ≤ F.u * (34 * (S * X)) := mul_le_mul_of_nonneg_left z1 hu
      linarith
    have z4 : |z| ≤ 35 * (S * X) := by have := abs_sub_abs_le_abs_sub z (r * σ); linarith
    have v1 : |z + V| ≤ 37 * (S * X) := (abs_add_le' z4 h5).trans (by linarith)
    have v2 := h6 (by linarith)
    have v3 : |v' - (z + V)| ≤ 38 * (S * (F.u * X)) := by
      have : F.u * |z + V| ≤ F.u * (37 * (S * X)) := mul_le_mul_of_nonneg_left v1 hu
      linarith
    have e : v' - (L' * σ + V) = (v' - (z + V)) + ((z - r * σ) + ((r - L) * σ + (L - L') * σ)) := by ring
    rw [e]
    have s1 := abs_mul_le r1 hσ
    have s2 := abs_mul_le h3 hσ
    exact (abs_add_le' v3 (abs_add_le' z3 (abs_add_le' s1 s2))).trans (by linarith)
  exact ⟨key rx rb.1 lin.1 hz.1 hV.1 hv'.1, key ry rb.2.1 lin.2.1 hz.2.1 hV.2.1 hv'.2.1,
    key rz rb.2.2 lin.2.2 hz.2.2 hV.2.2 hv'.2.2⟩

end body
end cell

/-! ## Momentum -/

theorem sum_linear (a V : Vec3 ℝ) (c s σ : ℝ) (bs : List Body) :
    (momentum (fun v => (σ • linear a c s (v - V) + V).x) bs = (σ • linear a c s
        ⟨momentum Vec3.x bs - mass bs * V.x, momentum Vec3.y bs - mass bs * V.y, momentum Vec3.z bs - mass bs * V.z⟩).x +
        mass bs * V.x) ∧
      (momentum (fun v => (σ • linear a c s (v - V) + V).y) bs = (σ • linear a c s
        ⟨momentum Vec3.x bs - mass bs * V.x, momentum Vec3.y bs - mass bs * V.y, momentum Vec3.z bs - mass bs * V.z⟩).y +
        mass bs * V.y) ∧
      (momentum (fun v => (σ • linear a c s (v - V) + V).z) bs = (σ • linear a c s
        ⟨momentum Vec3.x bs - mass bs * V.x, momentum Vec3.y bs - mass bs * V.y, momentum Vec3.z bs - mass bs * V.z⟩).z +
        mass bs * V.z) := by
  induction bs with
  | nil => simp [momentum, mass, linear, rotateCS, Vec3.dot, Vec3.cross]
  | cons b bs ih =>
    obtain ⟨h1, h2, h3⟩ := ih
    simp only [momentum, mass, List.map_cons, List.sum_cons] at h1 h2 h3 ⊢
    refine ⟨?_, ?_, ?_⟩
    · rw [h1]; simp [linear, rotateCS, Vec3.dot, Vec3.cross]; ring
    · rw [h2]; simp [linear, rotateCS, Vec3.dot, Vec3.cross]; ring
    · rw [h3]; simp [linear, rotateCS, Vec3.dot, Vec3.cross]; ring

theorem momentum_close {bs bs' : List Body} {k f : Vec3 ℝ → ℝ} {ε : ℝ} (hm : ∀ b ∈ bs, 0 < b.mass)
    (h : List.Forall₂ (fun b b' => b'.mass = b.mass ∧ |k b'.vel - f b.vel| ≤ ε) bs bs') :
    |momentum k bs' - momentum f bs| ≤ mass bs * ε := by
  induction h with
  | nil => simp [momentum, mass]
  | @cons b b' l l' h _ ih =>
    have ih := ih fun b hb => hm b (List.mem_cons_of_mem _ hb)
    have hb := hm b List.mem_cons_self
    simp only [momentum, mass, List.map_cons, List.sum_cons] at ih ⊢
    rw [h.1]
    have e : b.mass * k b'.vel + (l'.map fun b => b.mass * k b.vel).sum - (b.mass * f b.vel + (l.map fun b => b.mass * f b.vel).sum) =
      b.mass * (k b'.vel - f b.vel) +
        ((l'.map fun b => b.mass * k b.vel).sum - (l.map fun b => b.mass * f b.vel).sum) := by ring
    rw [e]
    refine (abs_add_le' (abs_mul_le (abs_of_pos hb).le h.2) ih).trans (le_of_eq (by ring))

/-- When the numbers of a collision are such that no operation overflows, and `X` is not tiny. -/
structure Ordinary (F : Accuracy) (bs : List Body) (X S : ℝ) : Prop where
  u : 0 ≤ F.u
  η : 0 ≤ F.η
  masses : ∀ b ∈ bs, 0 < b.mass
  velocities : ∀ b ∈ bs, Bounded X b.vel
  few : bs.length * F.u ≤ 1 / 64
  tiny : F.η ≤ F.u * X
  tiny' : bs.length * F.η ≤ F.u * (mass bs * X)
  speeds : 100 * (S * X) ≤ F.B
  momenta : 2 * (mass bs * X) ≤ F.B
  mass : 2 * mass bs ≤ F.B

theorem cell_errors {F : Accuracy} {bs bs' : List Body} {X S : ℝ} (H : Ordinary F bs X S) (hn : bs ≠ []) {a : Vec3 ℝ} {c s σ : ℝ}
    (ha : Bounded (9 / 8) a) (hc : |c| ≤ 9 / 8) (hs : |s| ≤ 9 / 8) (hS : 1 ≤ S) (hσ : |σ| ≤ S)
    (h : Collides F a c s σ bs bs') : ∃ V : Vec3 ℝ, Bounded (5 / 4 * X) V ∧
      Bounded (13 * (bs.length * F.u * (mass bs * X))) ⟨momentum Vec3.x bs - mass bs * V.x,
        momentum Vec3.y bs - mass bs * V.y, momentum Vec3.z bs - mass bs * V.z⟩ ∧
      List.Forall₂ (fun b b' => b'.mass = b.mass ∧
        Bounded (384 * (S * (F.u * X))) (b'.vel - (σ • linear a c s (b.vel - V) + V))) bs bs' := by
  obtain ⟨P, M, V, px, py, pz, hM, vx, vy, vz, hb⟩ := h
  obtain ⟨b, hbm⟩ := List.exists_mem_of_ne_nil _ hn
  have hX : 0 ≤ X := (abs_nonneg _).trans (H.velocities b hbm).1
  have hSX : X ≤ S * X := le_mul_of_one_le_left hX hS
  have hBX : 100 * X ≤ F.B := by linarith [H.speeds]
  have hBS : 40 * (S * X) ≤ F.B := by linarith [H.speeds]
  have X1 := velocity_error H.u H.η hX hn H.few H.tiny H.tiny' H.masses (k := Vec3.x) (fun b hb => (H.velocities b hb).1)
    H.momenta H.mass hBX px hM vx
  have Y1 := velocity_error H.u H.η hX hn H.few H.tiny H.tiny' H.masses (k := Vec3.y) (fun b hb => (H.velocities b hb).2.1)
    H.momenta H.mass hBX py hM vy
  have Z1 := velocity_error H.u H.η hX hn H.few H.tiny H.tiny' H.masses (k := Vec3.z) (fun b hb => (H.velocities b hb).2.2)
    H.momenta H.mass hBX pz hM vz
  have hV : Bounded (5 / 4 * X) V := ⟨X1.2, Y1.2, Z1.2⟩
  refine ⟨V, hV, ⟨X1.1, Y1.1, Z1.1⟩, ?_⟩
  have hv := H.velocities
  have : ∀ b b' : Body, Bounded X b.vel → NewVelocity F V a c s σ b.vel b'.vel →
      Bounded (384 * (S * (F.u * X))) (b'.vel - (σ • linear a c s (b.vel - V) + V)) := fun b b' h1 h2 =>
    newVelocity_error H.u H.η hX hn H.few H.tiny H.tiny' H.masses hBX ha hc hs hS hσ hBS hV h1 h2
  clear * - hb hv this
  induction hb with
  | nil => exact .nil
  | @cons b b' _ _ h _ ih =>
    exact .cons ⟨h.1, this b b' (hv b List.mem_cons_self) h.2⟩ (ih fun b hb => hv b (List.mem_cons_of_mem _ hb))

/-- Rounding changes the momentum of a cell by no more than `600 n u` times the mass of the cell, times the largest velocity (and
the factor by which the thermostat scales velocities, if that is more than 1), `n` being the number of particles in the cell. In
whatever order threads add to the momentum of the cell, and whatever the axis of rotation is. -/
theorem C130_momentum {F : Accuracy} {bs bs' : List Body} {X S : ℝ} (H : Ordinary F bs X S) {a : Vec3 ℝ} {c s σ : ℝ}
    (ha : Bounded (9 / 8) a) (hc : |c| ≤ 9 / 8) (hs : |s| ≤ 9 / 8) (hS : 1 ≤ S) (hσ : |σ| ≤ S)
    (h : Collides F a c s σ bs bs') :
    |momentum Vec3.x bs' - momentum Vec3.x bs| ≤ 600 * bs.length * F.u * S * (mass bs * X) ∧
      |momentum Vec3.y bs' - momentum Vec3.y bs| ≤ 600 * bs.length * F.u * S * (mass bs * X) ∧
      |momentum Vec3.z bs' - momentum Vec3.z bs| ≤ 600 * bs.length * F.u * S * (mass bs * X) := by
  by_cases hn : bs = []
  · obtain ⟨_, _, _, _, _, _, _, _, _, _, hb⟩ := h
    subst hn
    cases hb
    simp [momentum]
  obtain ⟨V, hV, hD, hb⟩ := cell_errors H hn ha hc hs hS hσ h
  obtain ⟨b, hbm⟩ := List.exists_mem_of_ne_nil _ hn
  have hX : 0 ≤ X := (abs_nonneg _).trans (H.velocities b hbm).1
  have hM : 0 ≤ mass bs := mass_nonneg H.masses
  have hn1 : (1 : ℝ) ≤ bs.length := by exact_mod_cast List.length_pos_iff.2 hn
  obtain ⟨sx, sy, sz⟩ := sum_linear a V c s σ bs
  have lin := linear_bound ha hD hc hs
  have cx := momentum_close (k := Vec3.x) (f := fun v => (σ • linear a c s (v - V) + V).x) H.masses
    (hb.imp fun _ _ h => ⟨h.1, h.2.1⟩)
  have cy := momentum_close (k := Vec3.y) (f := fun v => (σ • linear a c s (v - V) + V).y) H.masses
    (hb.imp fun _ _ h => ⟨h.1, h.2.2.1⟩)
  have cz := momentum_close (k := Vec3.z) (f := fun v => (σ • linear a c s (v - V) + V).z) H.masses
    (hb.imp fun _ _ h => ⟨h.1, h.2.2.2⟩)
  rw [sx] at cx; rw [sy] at cy; rw [sz] at cz
  have hu := H.u
  set Q : ℝ := bs.length * F.u * (mass bs * X) with hQ
  have hQ0 : 0 ≤ Q := by positivity
  have hQS : Q ≤ S * Q := le_mul_of_one_le_left hQ0 hS
  have e1 : mass bs * (384 * (S * (F.u * X))) ≤ 384 * (S * Q) := by
    have : mass bs * (384 * (S * (F.u * X))) = 384 * (S * (1 * F.u * (mass bs * X))) := by ring
    rw [this, hQ]
    have : 1 * F.u * (mass bs * X) ≤ bs.length * F.u * (mass bs * X) :=
      mul_le_mul_of_nonneg_right (mul_le_mul_of_nonneg_right hn1 hu) (by positivity)
    have := mul_le_mul_of_nonneg_left this (zero_le_one.trans hS)
    linarith
  have key : ∀ {p' p mV L : ℝ}, |p' - (L * σ + mV)| ≤ mass bs * (384 * (S * (F.u * X))) → |p - mV| ≤ 13 * Q →
      |L| ≤ 12 * (13 * Q) → |p' - p| ≤ 600 * bs.length * F.u * S * (mass bs * X) := by
    intro p' p mV L h1 h2 h3
    have e : p' - p = (p' - (L * σ + mV)) + (L * σ - (p - mV)) := by ring
    rw [e]
    have h4 := abs_mul_le h3 hσ
    have : 600 * bs.length * F.u * S * (mass bs * X) = 600 * (S * Q) := by rw [hQ]; ring
    rw [this]
    exact (abs_add_le' h1 (abs_sub_le' h4 h2)).trans (by nlinarith)
  exact ⟨key cx hD.1 lin.1, key cy hD.2.1 lin.2.1, key cz hD.2.2 lin.2.2⟩

/-! ## Energy -/

/-- The square of the length of a vector. -/
def sq (v : Vec3 ℝ) : ℝ := v.x ^ 2 + v.y ^ 2 + v.z ^ 2

theorem sq_linear (a x : Vec3 ℝ) (c s : ℝ) : sq (linear a c s x) - sq x =
    (c ^ 2 + s ^ 2 - 1) * (sq x - x.dot a ^ 2) + (sq a - 1) * (x.dot a ^ 2 * (1 - c) ^ 2 + s ^ 2 * sq x) := by
  simp [sq, linear, rotateCS, Vec3.dot, Vec3.cross]
  ring

theorem dot_sq_le (a x : Vec3 ℝ) : x.dot a ^ 2 ≤ sq a * sq x := by
  simp only [sq, Vec3.dot]
  nlinarith [sq_nonneg (a.x * x.y - a.y * x.x), sq_nonneg (a.y * x.z - a.z * x.y), sq_nonneg (a.z * x.x - a.x * x.z)]

theorem sq_nonneg' (x : Vec3 ℝ) : 0 ≤ sq x := by simp only [sq]; positivity

theorem sq_linear_le {a x : Vec3 ℝ} {c s δ : ℝ} (ha : |sq a - 1| ≤ δ) (hcs : |c ^ 2 + s ^ 2 - 1| ≤ δ) (hδ : δ ≤ 1 / 4) :
    |sq (linear a c s x) - sq x| ≤ 8 * δ * sq x := by
  rw [sq_linear]
  have h0 := sq_nonneg' x
  have hd := dot_sq_le a x
  have hd0 := sq_nonneg (x.dot a)
  have ha' := abs_le.1 ha
  have hcs' := abs_le.1 hcs
  have hδ0 : 0 ≤ δ := (abs_nonneg _).trans ha
  have hd2 : x.dot a ^ 2 ≤ 5 / 4 * sq x := hd.trans (mul_le_mul_of_nonneg_right (by linarith) h0)
  have hc2 : c ^ 2 ≤ 5 / 4 := by nlinarith [sq_nonneg s]
  have hs2 : s ^ 2 ≤ 5 / 4 := by nlinarith [sq_nonneg c]
  have h1c : (1 - c) ^ 2 ≤ 9 / 2 := by nlinarith [sq_nonneg (c + 1)]
  have b1 : |sq x - x.dot a ^ 2| ≤ sq x := by rw [abs_le]; constructor <;> linarith
  have b2 : |x.dot a ^ 2 * (1 - c) ^ 2 + s ^ 2 * sq x| ≤ 7 * sq x := by
    rw [abs_of_nonneg (by positivity)]
    have : x.dot a ^ 2 * (1 - c) ^ 2 ≤ 5 / 4 * sq x * (9 / 2) := mul_le_mul hd2 h1c (sq_nonneg _) (by positivity)
    have : s ^ 2 * sq x ≤ 5 / 4 * sq x := mul_le_mul_of_nonneg_right hs2 h0
    linarith
  exact (abs_add_le' (abs_mul_le hcs b1) (abs_mul_le ha b2)).trans (by linarith)

theorem component_le {a : Vec3 ℝ} (h : |sq a - 1| ≤ 1 / 4) : Bounded (9 / 8) a := by
  have h' := (abs_le.1 h).2
  simp only [sq] at h'
  have key : ∀ {t : ℝ}, t ^ 2 ≤ 5 / 4 → |t| ≤ 9 / 8 := fun {t} ht => abs_le_of_sq_le_sq (by linarith) (by norm_num)
  exact ⟨key (by nlinarith [sq_nonneg a.y, sq_nonneg a.z]), key (by nlinarith [sq_nonneg a.x, sq_nonneg a.z]),
    key (by nlinarith [sq_nonneg a.x, sq_nonneg a.y])⟩

theorem cos_sin_le {c s : ℝ} (h : |c ^ 2 + s ^ 2 - 1| ≤ 1 / 4) : |c| ≤ 9 / 8 ∧ |s| ≤ 9 / 8 := by
  have h' := (abs_le.1 h).2
  have key : ∀ {t : ℝ}, t ^ 2 ≤ 5 / 4 → |t| ≤ 9 / 8 := fun {t} ht => abs_le_of_sq_le_sq (by linarith) (by norm_num)
  exact ⟨key (by nlinarith [sq_nonneg s]), key (by nlinarith [sq_nonneg c])⟩

theorem sum_cross (a V : Vec3 ℝ) (c s : ℝ) (bs : List Body) :
    momentum (fun v => V.dot (linear a c s (v - V) - (v - V))) bs =
      V.dot (linear a c s ⟨momentum Vec3.x bs - mass bs * V.x, momentum Vec3.y bs - mass bs * V.y,
          momentum Vec3.z bs - mass bs * V.z⟩ -
        ⟨momentum Vec3.x bs - mass bs * V.x, momentum Vec3.y bs - mass bs * V.y, momentum Vec3.z bs - mass bs * V.z⟩) := by
  induction bs with
  | nil => simp [momentum, mass, linear, rotateCS, Vec3.dot, Vec3.cross]
  | cons b bs ih =>
    simp only [momentum, mass, List.map_cons, List.sum_cons] at ih ⊢
    rw [ih]
    simp [linear, rotateCS, Vec3.dot, Vec3.cross]
    ring

theorem energy_close {bs bs' : List Body} {g : Vec3 ℝ → ℝ} {ε : ℝ} (hm : ∀ b ∈ bs, 0 < b.mass)
    (h : List.Forall₂ (fun b b' => b'.mass = b.mass ∧ |(sq b'.vel - sq b.vel) / 2 - g b.vel| ≤ ε) bs bs') :
    |energy bs' - energy bs - momentum g bs| ≤ mass bs * ε := by
  induction h with
  | nil => simp [energy, momentum, mass]
  | @cons b b' l l' h _ ih =>
    have ih := ih fun b hb => hm b (List.mem_cons_of_mem _ hb)
    have hb := hm b List.mem_cons_self
    have h2 := abs_mul_le (abs_of_pos hb).le h.2
    simp only [energy, momentum, mass, List.map_cons, List.sum_cons] at ih ⊢
    rw [h.1]
    refine le_trans (le_of_eq ?_) ((abs_add_le' h2 ih).trans (le_of_eq (by ring)))
    congr 1
    simp only [sq]
    ring

/-- Rounding, and an axis whose length is not quite 1, change the kinetic energy of a cell by little, if there is no
thermostat. -/
theorem C130_energy {F : Accuracy} {bs bs' : List Body} {X : ℝ} (H : Ordinary F bs X 1) {a : Vec3 ℝ} {c s δ : ℝ}
    (ha : |sq a - 1| ≤ δ) (hcs : |c ^ 2 + s ^ 2 - 1| ≤ δ) (hδ : δ ≤ 1 / 4) (h : Collides F a c s 1 bs bs') :
    |energy bs' - energy bs| ≤ (61 * δ + 40000 * bs.length * F.u) * (mass bs * X ^ 2) := by
  by_cases hn : bs = []
  · obtain ⟨_, _, _, _, _, _, _, _, _, _, hb⟩ := h
    subst hn
    cases hb
    simp [energy, mass]
  have ha9 := component_le (ha.trans hδ)
  obtain ⟨hc9, hs9⟩ := cos_sin_le (hcs.trans hδ)
  obtain ⟨V, hV, hD, hb⟩ := cell_errors H hn ha9 hc9 hs9 le_rfl (by simp) h
  obtain ⟨b, hbm⟩ := List.exists_mem_of_ne_nil _ hn
  have hX : 0 ≤ X := (abs_nonneg _).trans (H.velocities b hbm).1
  have hM : 0 ≤ mass bs := mass_nonneg H.masses
  have hn1 : (1 : ℝ) ≤ bs.length := by exact_mod_cast List.length_pos_iff.2 hn
  have hu := H.u
  have hu1 : F.u ≤ 1 / 64 := by nlinarith [H.few]
  have hδ0 : 0 ≤ δ := (abs_nonneg _).trans ha
  have hu2 : F.u ^ 2 ≤ 1 / 64 * F.u := by nlinarith
  have per : List.Forall₂ (fun b b' => b'.mass = b.mass ∧
      |(sq b'.vel - sq b.vel) / 2 - V.dot (linear a c s (b.vel - V) - (b.vel - V))| ≤
        (61 * δ + 36000 * F.u) * X ^ 2) bs bs' := by
    have hv := H.velocities
    have one : ∀ v v' : Vec3 ℝ, Bounded X v → Bounded (384 * (1 * (F.u * X))) (v' - ((1 : ℝ) • linear a c s (v - V) + V)) →
        |(sq v' - sq v) / 2 - V.dot (linear a c s (v - V) - (v - V))| ≤ (61 * δ + 36000 * F.u) * X ^ 2 := by
      intro v v' hv h
      have hx : Bounded (9 / 4 * X) (v - V) :=
        ⟨(abs_sub_le' hv.1 hV.1).trans (by linarith), (abs_sub_le' hv.2.1 hV.2.1).trans (by linarith),
          (abs_sub_le' hv.2.2 hV.2.2).trans (by linarith)⟩
      have hL := linear_bound ha9 hx hc9 hs9
      have hq := sq_linear_le (x := v - V) ha hcs hδ
      have hxs : sq (v - V) ≤ 243 / 16 * X ^ 2 := by
        have k : ∀ {t : ℝ}, |t| ≤ 9 / 4 * X → t ^ 2 ≤ 81 / 16 * X ^ 2 := fun {t} ht => by
          have := sq_le_sq' (by linarith [(abs_le.1 ht).1]) (abs_le.1 ht).2
          linarith
        have := k hx.1; have := k hx.2.1; have := k hx.2.2
        simp only [sq]; linarith
      rw [one_smul, one_mul] at h
      set x := v - V with hxdef
      set L := linear a c s x with hLdef
      have ex : v = x + V := by rw [hxdef]; ext <;> simp
      set ε := v' - (L + V) with hεdef
      have ev : v' = ε + (L + V) := by rw [hεdef]; ext <;> simp
      have split : (sq v' - sq v) / 2 - V.dot (L - x) = (sq L - sq x) / 2 +
          (ε.x * (L.x + V.x) + (ε.y * (L.y + V.y) + ε.z * (L.z + V.z))) + sq ε / 2 := by
        rw [ev, ex]; simp [sq, Vec3.dot]; ring
      rw [split]
      have p1 : |(sq L - sq x) / 2| ≤ 61 * δ * X ^ 2 := by
        rw [abs_div, abs_two]
        have : 8 * δ * sq x ≤ 8 * δ * (243 / 16 * X ^ 2) := mul_le_mul_of_nonneg_left hxs (by positivity)
        have : 0 ≤ δ * X ^ 2 := by positivity
        linarith
      have q : ∀ {e l w : ℝ}, |e| ≤ 384 * (F.u * X) → |l| ≤ 12 * (9 / 4 * X) → |w| ≤ 5 / 4 * X →
          |e * (l + w)| ≤ 10848 * (F.u * X ^ 2) := fun {e l w} he hl hw =>
        (abs_mul_le he (abs_add_le' hl hw)).trans (le_of_eq (by ring))
      have p2 := abs_add_le' (q h.1 hL.1 hV.1) (abs_add_le' (q h.2.1 hL.2.1 hV.2.1) (q h.2.2 hL.2.2 hV.2.2))
      have p3 : |sq ε / 2| ≤ 3456 * (F.u * X ^ 2) := by
        rw [abs_of_nonneg (by have := sq_nonneg' ε; positivity)]
        have k : ∀ {t : ℝ}, |t| ≤ 384 * (F.u * X) → t ^ 2 ≤ 2304 * (F.u * X ^ 2) := fun {t} ht => by
          have h1 := sq_le_sq' (by linarith [(abs_le.1 ht).1]) (abs_le.1 ht).2
          have h2 : F.u ^ 2 * X ^ 2 ≤ 1 / 64 * F.u * X ^ 2 := mul_le_mul_of_nonneg_right hu2 (sq_nonneg _)
          have h3 : (384 * (F.u * X)) ^ 2 = 147456 * (F.u ^ 2 * X ^ 2) := by ring
          rw [h3] at h1
          linarith
        have := k h.1; have := k h.2.1; have := k h.2.2
        simp only [sq]; linarith
      have : 0 ≤ F.u * X ^ 2 := by positivity
      exact (abs_add_le' (abs_add_le' p1 p2) p3).trans (by linarith)
    clear * - hb hv one
    induction hb with
    | nil => exact .nil
    | @cons b b' _ _ h _ ih =>
      exact .cons ⟨h.1, one _ _ (hv b List.mem_cons_self) h.2⟩ (ih fun b hb => hv b (List.mem_cons_of_mem _ hb))
  have h1 := energy_close (g := fun v => V.dot (linear a c s (v - V) - (v - V))) H.masses per
  rw [sum_cross] at h1
  have lin := linear_bound ha9 hD hc9 hs9
  set D : Vec3 ℝ := ⟨momentum Vec3.x bs - mass bs * V.x, momentum Vec3.y bs - mass bs * V.y,
    momentum Vec3.z bs - mass bs * V.z⟩ with hDdef
  set Q : ℝ := bs.length * F.u * (mass bs * X) with hQ
  have hQ0 : 0 ≤ Q := by positivity
  have h2 : |V.dot (linear a c s D - D)| ≤ 634 * (Q * X) := by
    have k : ∀ {v l d : ℝ}, |v| ≤ 5 / 4 * X → |l| ≤ 12 * (13 * Q) → |d| ≤ 13 * Q → |v * (l - d)| ≤ 845 / 4 * (Q * X) :=
      fun {v l d} hv hl hd => (abs_mul_le hv (abs_sub_le' hl hd)).trans (le_of_eq (by ring))
    have := abs_add_le' (abs_add_le' (k hV.1 lin.1 hD.1) (k hV.2.1 lin.2.1 hD.2.1)) (k hV.2.2 lin.2.2 hD.2.2)
    have h0 : 0 ≤ Q * X := by positivity
    refine le_trans (le_of_eq ?_) (this.trans (by linarith))
    simp [Vec3.dot]
  have h3 := abs_add_le' h1 h2
  rw [sub_add_cancel] at h3
  refine h3.trans ?_
  have e1 : Q * X = bs.length * F.u * (mass bs * X ^ 2) := by rw [hQ]; ring
  have e2 : F.u * (mass bs * X ^ 2) ≤ bs.length * F.u * (mass bs * X ^ 2) :=
    mul_le_mul_of_nonneg_right (le_mul_of_one_le_left hu hn1) (by positivity)
  have h0 : 0 ≤ bs.length * F.u * (mass bs * X ^ 2) := by positivity
  rw [e1]
  nlinarith

/-! ## Floating-point numbers -/

section rounding
open Rounded Decimal
variable {p : ℕ} {emin emax : ℤ} {rnd : ℝ → ℝ} (hp : 0 < p) (hem : emin + p ≤ emax) (hr : IsRounding p emin emax rnd)
include hp hem hr

/-- The error of rounding. -/
theorem rounding_error {x : ℝ} (hx : |x| < 2 ^ emax) : |rnd x - x| ≤ 2 ^ (-(p : ℤ)) * |x| + 2 ^ emin := by
  have hu := two_zpow_pos (-(p : ℤ))
  have hη := two_zpow_pos emin
  rcases le_or_gt ((2 : ℝ) ^ (emin + p - 1)) |x| with hbig | hsmall
  · have hpos : 0 < |x| := (two_zpow_pos _).trans_le hbig
    obtain ⟨k, hk1, hk2⟩ := exists_mem_Ico_zpow hpos (by norm_num : (1 : ℝ) < 2)
    have e1 : emin + p - 1 < k + 1 := (zpow_lt_zpow_iff_right₀ (by norm_num : (1 : ℝ) < 2)).1 (hbig.trans_lt hk2)
    have e2 : k < emax := (zpow_lt_zpow_iff_right₀ (by norm_num : (1 : ℝ) < 2)).1 (hk1.trans_lt hx)
    have := Time.normal_error hp hr hk1 hk2 (by omega) (by omega)
    linarith
  · have hround := abs_sub_round (x / 2 ^ emin)
    have hmem : (round (x / 2 ^ emin) : ℝ) * 2 ^ emin ∈ Bin p emin emax := by
      refine ⟨round (x / 2 ^ emin), emin, ?_, le_rfl, by omega, rfl⟩
      have h1 : |x / 2 ^ emin| < 2 ^ (p - 1) := by
        rw [abs_div, abs_of_pos hη, div_lt_iff₀ hη, ← zpow_natCast, ← zpow_add₀ (by norm_num)]
        exact hsmall.trans_eq (by congr 1; omega)
      have h2 : |(round (x / 2 ^ emin) : ℝ)| < 2 ^ (p - 1) + 1 := by
        have := abs_sub_abs_le_abs_sub (round (x / 2 ^ emin) : ℝ) (x / 2 ^ emin)
        rw [abs_sub_comm] at this
        linarith
      have h3 : |round (x / 2 ^ emin)| < 2 ^ (p - 1) + 1 := by
        rw [← Int.cast_abs] at h2; exact_mod_cast h2
      have h4 : (2 : ℤ) ^ p = 2 ^ (p - 1) + 2 ^ (p - 1) := by
        obtain ⟨q, rfl⟩ := Nat.exists_eq_succ_of_ne_zero hp.ne'
        simp [pow_succ]; ring
      have h5 : (1 : ℤ) ≤ 2 ^ (p - 1) := one_le_pow₀ (by norm_num)
      omega
    rw [abs_sub_comm]
    refine ((hr x).2 _ hmem).trans ?_
    have : x - (round (x / 2 ^ emin) : ℝ) * 2 ^ emin = (x / 2 ^ emin - round (x / 2 ^ emin)) * 2 ^ emin := by field_simp
    rw [this, abs_mul, abs_of_pos hη]
    have h6 := mul_le_mul_of_nonneg_right hround hη.le
    have : 0 ≤ (2 : ℝ) ^ (-(p : ℤ)) * |x| := by positivity
    linarith

/-- How accurate floating-point numbers with `p` binary digits are. -/
noncomputable def accuracy (p : ℕ) (emin : ℤ) (B : ℝ) : Accuracy := ⟨2 ^ (-(p : ℤ)), 2 ^ emin, B⟩

theorem near_rnd {B : ℝ} (hB : B < 2 ^ emax) (x : ℝ) : Near (accuracy p emin B) x (rnd x) := fun hx =>
  rounding_error hp hem hr (lt_of_le_of_lt hx hB)

theorem nearVec_rnd {B : ℝ} (hB : B < 2 ^ emax) (x : Vec3 ℝ) : NearVec (accuracy p emin B) x (roundVec rnd x) :=
  ⟨near_rnd hp hem hr hB _, near_rnd hp hem hr hB _, near_rnd hp hem hr hB _⟩

theorem adds_rnd {B : ℝ} (hB : B < 2 ^ emax) (qs : List ℝ) (s : ℝ) :
    Adds (Near (accuracy p emin B)) s qs (qs.foldl (fun s x => rnd (x + s)) s) := by
  induction qs generalizing s with
  | nil => rfl
  | cons x xs ih => exact ⟨_, near_rnd hp hem hr hB _, ih _⟩

theorem addsSum_rnd {B : ℝ} (hB : B < 2 ^ emax) (qs : List ℝ) (hq : ∀ x ∈ qs, x ∈ Bin p emin emax) (s : ℝ)
    (hs : s ∈ Bin p emin emax) : Adds (NearSum (accuracy p emin B)) s qs (qs.foldl (fun s x => rnd (x + s)) s) := by
  induction qs generalizing s with
  | nil => rfl
  | cons x xs ih =>
    refine ⟨_, fun hx => Time.add_error hp (by omega) hr (hq x List.mem_cons_self) hs (lt_of_le_of_lt hx hB), ?_⟩
    exact ih (fun x hx => hq x (List.mem_cons_of_mem _ hx)) _ (hr.mem _)

/-- Floating-point arithmetic is as supposed here. -/
theorem C130_rounding {B : ℝ} (hB : B < 2 ^ emax) {order bs : List Body} (ho : order.Perm bs)
    (hm : ∀ b ∈ bs, b.mass ∈ Bin p emin emax) (a : Vec3 ℝ) (c s σ : ℝ) :
    Collides (accuracy p emin B) a c s σ bs (collide rnd order a c s σ bs) := by
  have near := near_rnd hp hem hr hB
  have nearVec := nearVec_rnd hp hem hr hB
  have mom : ∀ k : Vec3 ℝ → ℝ, Momentum (accuracy p emin B) k bs (total rnd (order.map fun b => rnd (k b.vel * b.mass))) :=
    fun k => ⟨order, ho, _, by
      rw [List.forall₂_map_right_iff]
      exact List.forall₂_same.2 fun b _ => near _, adds_rnd hp hem hr hB _ _⟩
  refine ⟨⟨_, _, _⟩, _, cellVelocity rnd order, mom Vec3.x, mom Vec3.y, mom Vec3.z,
    ⟨order, ho, addsSum_rnd hp hem hr hB _ ?_ 0 (zero_mem (by omega))⟩, near _, near _, near _, ?_⟩
  · intro x hx
    obtain ⟨b, hb, rfl⟩ := List.mem_map.1 hx
    exact hm b (ho.mem_iff.1 hb)
  · rw [collide, List.forall₂_map_right_iff]
    refine List.forall₂_same.2 fun b _ => ⟨rfl, _, _, _, nearVec _, ?_, nearVec _, nearVec _⟩
    exact ⟨_, ⟨_, _, _⟩, _, _, _, _, _, ⟨_, _, _, _, near _, near _, near _, near _, near _⟩,
      ⟨⟨_, _, near _, near _, near _⟩, ⟨_, _, near _, near _, near _⟩, ⟨_, _, near _, near _, near _⟩⟩, nearVec _, nearVec _,
      nearVec _, nearVec _, nearVec _, nearVec _⟩

/-- The length of a random axis is 1, up to rounding, and to the accuracy of sine and cosine. -/
theorem C130_axis (h0 : emin ≤ 0) (hpe : (p : ℤ) ≤ emax) (hu : (2 : ℝ) ^ (-(p : ℤ)) + 2 ^ emin ≤ 1 / 4) {X_1 cosine sine : ℝ}
    (hX0 : 0 ≤ X_1) (hX1 : X_1 ≤ 1) (hc : |cosine| ≤ 1) (hs : |sine| ≤ 1) :
    |sq (axis rnd X_1 cosine sine) - 1| ≤ |cosine ^ 2 + sine ^ 2 - 1| + 12 * (2 ^ (-(p : ℤ)) + 2 ^ emin) := by
  set u : ℝ := 2 ^ (-(p : ℤ)) + 2 ^ emin with hudef
  have hu0 : 0 ≤ u := by positivity
  have hemax : (1 : ℝ) < 2 ^ emax := one_lt_zpow₀ (by norm_num) (by omega)
  have one : ∀ {x : ℝ}, |x| ≤ 1 → |rnd x - x| ≤ u := fun {x} hx => by
    have := rounding_error hp hem hr (hx.trans_lt hemax)
    have h1 : (2 : ℝ) ^ (-(p : ℤ)) * |x| ≤ 2 ^ (-(p : ℤ)) := mul_le_of_le_one_right (two_zpow_pos _).le hx
    linarith
  have mem1 : (1 : ℝ) ∈ Bin p emin emax := by
    have := int_mem (p := p) (emin := emin) (emax := emax) h0 hp hpe (n := 1) (by simpa using one_le_pow₀ (by norm_num))
    simpa using this
  have memN : (-1 : ℝ) ∈ Bin p emin emax := Time.neg_mem mem1
  have mem2 : (2 : ℝ) ∈ Bin p emin emax := by
    have := int_mem (p := p) (emin := emin) (emax := emax) h0 hp hpe (n := 2)
      (by simpa using le_self_pow₀ (by norm_num : (1 : ℤ) ≤ 2) hp.ne')
    simpa using this
  have mem0 : (0 : ℝ) ∈ Bin p emin emax := zero_mem (by omega)
  have le1 : ∀ {x : ℝ}, |x| ≤ 1 → |rnd x| ≤ 1 := fun {x} hx =>
    abs_le.2 ⟨hr.ge_of_ge memN (abs_le.1 hx).1, hr.le_of_le mem1 (abs_le.1 hx).2⟩
  have hz : |rnd (rnd (2 * X_1) - 1)| ≤ 1 := le1 (by
    have h1 := hr.le_of_le mem2 (by linarith : 2 * X_1 ≤ 2)
    have h2 := hr.ge_of_ge mem0 (by linarith : 0 ≤ 2 * X_1)
    rw [abs_le]; constructor <;> linarith)
  rw [axis]
  set z := rnd (rnd (2 * X_1) - 1) with hzdef
  have hzz0 : 0 ≤ z * z := mul_self_nonneg z
  have hzz1 : z * z ≤ 1 := by
    have := abs_mul_le hz hz
    rw [abs_of_nonneg hzz0] at this
    linarith
  have q1 := one (x := z * z) (by rwa [abs_of_nonneg hzz0])
  have q0 : 0 ≤ rnd (z * z) := hr.ge_of_ge mem0 hzz0
  have q2 : rnd (z * z) ≤ 1 := hr.le_of_le mem1 hzz1
  have y1 := one (x := 1 - rnd (z * z)) (by rw [abs_of_nonneg] <;> linarith)
  have y0 : 0 ≤ rnd (1 - rnd (z * z)) := hr.ge_of_ge mem0 (by linarith)
  have y2 : rnd (1 - rnd (z * z)) ≤ 1 := hr.le_of_le mem1 (by linarith)
  set y := rnd (1 - rnd (z * z)) with hy
  have r0 : 0 ≤ Real.sqrt y := Real.sqrt_nonneg _
  have r1 : Real.sqrt y ≤ 1 := Real.sqrt_le_one.2 y2
  have rr : Real.sqrt y * Real.sqrt y = y := Real.mul_self_sqrt y0
  have s1 := one (x := Real.sqrt y) (by rwa [abs_of_nonneg r0])
  have s2 := le1 (x := Real.sqrt y) (by rwa [abs_of_nonneg r0])
  set root := rnd (Real.sqrt y) with hroot
  have square : ∀ {a b : ℝ}, |a - b| ≤ u → |b| ≤ 1 → |a ^ 2 - b ^ 2| ≤ 9 / 4 * u := fun {a b} h1 h2 => by
    have : a ^ 2 - b ^ 2 = (a - b) * ((a - b) + 2 * b) := by ring
    rw [this]
    refine (abs_mul_le h1 (abs_add_le' h1 (abs_mul_le (by simp : |(2 : ℝ)| ≤ 2) h2))).trans ?_
    nlinarith
  have b1 : |cosine * root| ≤ 1 := (abs_mul_le hc s2).trans (by norm_num)
  have b2 : |sine * root| ≤ 1 := (abs_mul_le hs s2).trans (by norm_num)
  have e1 := square (one b1) b1
  have e2 := square (one b2) b2
  have e3 := square s1 (by rwa [abs_of_nonneg r0])
  have e4 : |root ^ 2| ≤ 1 := by
    rw [abs_of_nonneg (sq_nonneg _), ← sq_abs]
    exact pow_le_one₀ (abs_nonneg _) s2
  simp only [sq]
  have split : rnd (cosine * root) ^ 2 + rnd (sine * root) ^ 2 + z ^ 2 - 1 =
      (rnd (cosine * root) ^ 2 - (cosine * root) ^ 2) + (rnd (sine * root) ^ 2 - (sine * root) ^ 2) +
        ((cosine ^ 2 + sine ^ 2 - 1) * root ^ 2 + ((root ^ 2 - Real.sqrt y ^ 2) + ((y - (1 - rnd (z * z))) -
          (rnd (z * z) - z * z)))) := by
    rw [Real.sq_sqrt y0]; ring
  rw [split]
  have e5 := abs_mul_le (le_refl |cosine ^ 2 + sine ^ 2 - 1|) e4
  exact (abs_add_le' (abs_add_le' e1 e2) (abs_add_le' e5 (abs_add_le' e3 (abs_sub_le' y1 q1)))).trans (by linarith)

end rounding

/-! ## All cells, many collisions -/

theorem momentum_append (k : Vec3 ℝ → ℝ) (l l' : List Body) : momentum k (l ++ l') = momentum k l + momentum k l' := by
  simp [momentum]

theorem momentum_perm (k : Vec3 ℝ → ℝ) {l l' : List Body} (h : l.Perm l') : momentum k l = momentum k l' := (h.map _).sum_eq

theorem mass_append (l l' : List Body) : mass (l ++ l') = mass l + mass l' := by simp [mass]

/-- What the collisions in some cells do; `n`: no cell has more particles. -/
structure Sweep (F : Accuracy) (X S : ℝ) (n : ℕ) (cells : List (List Body × List Body)) : Prop where
  ordinary : ∀ c ∈ cells, Ordinary F c.1 X S
  few : ∀ c ∈ cells, c.1.length ≤ n
  collides : ∀ c ∈ cells, ∃ (a : Vec3 ℝ) (co si σ : ℝ), Bounded (9 / 8) a ∧ |co| ≤ 9 / 8 ∧ |si| ≤ 9 / 8 ∧ |σ| ≤ S ∧
    Collides F a co si σ c.1 c.2

theorem sweep_error {F : Accuracy} {X S : ℝ} {n : ℕ} (hu : 0 ≤ F.u) (hX : 0 ≤ X) (hS : 1 ≤ S)
    {cells : List (List Body × List Body)} (h : Sweep F X S n cells) :
    Bounded (600 * n * F.u * S * (mass (cells.flatMap Prod.fst) * X))
      ⟨momentum Vec3.x (cells.flatMap Prod.snd) - momentum Vec3.x (cells.flatMap Prod.fst),
        momentum Vec3.y (cells.flatMap Prod.snd) - momentum Vec3.y (cells.flatMap Prod.fst),
        momentum Vec3.z (cells.flatMap Prod.snd) - momentum Vec3.z (cells.flatMap Prod.fst)⟩ := by
  induction cells with
  | nil => simp [momentum, mass, Bounded]
  | cons c cells ih =>
    have ih := ih ⟨fun d hd => h.ordinary d (List.mem_cons_of_mem _ hd), fun d hd => h.few d (List.mem_cons_of_mem _ hd),
      fun d hd => h.collides d (List.mem_cons_of_mem _ hd)⟩
    obtain ⟨a, co, si, σ, ha, hc, hs, hσ, hcol⟩ := h.collides c List.mem_cons_self
    have H := h.ordinary c List.mem_cons_self
    have h1 := C130_momentum H ha hc hs hS hσ hcol
    have hM := mass_nonneg H.masses
    have hle : (c.1.length : ℝ) ≤ n := by exact_mod_cast h.few c List.mem_cons_self
    have h2 : 600 * c.1.length * F.u * S * (mass c.1 * X) ≤ 600 * n * F.u * S * (mass c.1 * X) := by gcongr
    simp only [List.flatMap_cons, momentum_append, mass_append]
    have key : ∀ {a b a' b' : ℝ}, |a' - a| ≤ 600 * c.1.length * F.u * S * (mass c.1 * X) →
        |b' - b| ≤ 600 * n * F.u * S * (mass (cells.flatMap Prod.fst) * X) →
        |a' + b' - (a + b)| ≤ 600 * n * F.u * S * ((mass c.1 + mass (cells.flatMap Prod.fst)) * X) := by
      intro a b a' b' h3 h4
      rw [show a' + b' - (a + b) = (a' - a) + (b' - b) by ring]
      exact (abs_add_le' (h3.trans h2) h4).trans (le_of_eq (by ring))
    exact ⟨key h1.1 ih.1, key h1.2.1 ih.2.1, key h1.2.2 ih.2.2⟩

/-- After any number of collisions, with whatever cells, the total momentum differs from what it was by no more than that number
times the bound for one. -/
theorem C130_run {F : Accuracy} {X S m : ℝ} {n : ℕ} (hu : 0 ≤ F.u) (hX : 0 ≤ X) (hS : 1 ≤ S) (state : ℕ → List Body)
    (cells : ℕ → List (List Body × List Body)) (T : ℕ) (hs : ∀ t < T, Sweep F X S n (cells t))
    (hb : ∀ t < T, ((cells t).flatMap Prod.fst).Perm (state t)) (ha : ∀ t < T, ((cells t).flatMap Prod.snd).Perm (state (t + 1)))
    (hm : ∀ t < T, mass (state t) ≤ m) :
    Bounded (T * (600 * n * F.u * S * (m * X)))
      ⟨momentum Vec3.x (state T) - momentum Vec3.x (state 0), momentum Vec3.y (state T) - momentum Vec3.y (state 0),
        momentum Vec3.z (state T) - momentum Vec3.z (state 0)⟩ := by
  induction T with
  | zero => simp [Bounded]
  | succ T ih =>
    have ih := ih (fun t ht => hs t (by omega)) (fun t ht => hb t (by omega)) (fun t ht => ha t (by omega))
      (fun t ht => hm t (by omega))
    have h1 := sweep_error hu hX hS (hs T (by omega))
    rw [momentum_perm _ (hb T (by omega)), momentum_perm _ (hb T (by omega)), momentum_perm _ (hb T (by omega)),
      momentum_perm _ (ha T (by omega)), momentum_perm _ (ha T (by omega)), momentum_perm _ (ha T (by omega))] at h1
    have hmass : mass ((cells T).flatMap Prod.fst) ≤ m := by
      rw [mass, ((hb T (by omega)).map _).sum_eq]; exact hm T (by omega)
    have h2 : 600 * n * F.u * S * (mass ((cells T).flatMap Prod.fst) * X) ≤ 600 * n * F.u * S * (m * X) := by gcongr
    have key : ∀ {a b c : ℝ}, |b - a| ≤ T * (600 * n * F.u * S * (m * X)) →
        |c - b| ≤ 600 * n * F.u * S * (mass ((cells T).flatMap Prod.fst) * X) →
        |c - a| ≤ ((T + 1 : ℕ) : ℝ) * (600 * n * F.u * S * (m * X)) := by
      intro a b c h3 h4
      rw [show c - a = (b - a) + (c - b) by ring]
      refine (abs_add_le' h3 (h4.trans h2)).trans (le_of_eq ?_)
      push_cast; ring
    exact ⟨key ih.1 h1.1, key ih.2.1 h1.2.1, key ih.2.2 h1.2.2⟩

section single
open Rounded Decimal
variable {p : ℕ} {emin emax : ℤ} {rnd : ℝ → ℝ}

/-- A particle alone in its cell, of mass 1, keeps its velocity exactly, whatever axis, angle and scaling are. -/
theorem C130_single (hem : emin ≤ emax) (hr : IsRounding p emin emax rnd) (h1 : (1 : ℝ) ∈ Bin p emin emax) {v : Vec3 ℝ}
    (hv : v.x ∈ Bin p emin emax ∧ v.y ∈ Bin p emin emax ∧ v.z ∈ Bin p emin emax) (a : Vec3 ℝ) (c s σ : ℝ) :
    collide rnd [⟨v, 1⟩] a c s σ [⟨v, 1⟩] = [⟨v, 1⟩] := by
  have r0 : rnd 0 = 0 := hr.eq_self (zero_mem hem)
  have r1 : rnd 1 = 1 := hr.eq_self h1
  have rx := hr.eq_self hv.1
  have ry := hr.eq_self hv.2.1
  have rz := hr.eq_self hv.2.2
  have hV : cellVelocity rnd [⟨v, 1⟩] = v := by
    simp [cellVelocity, total, r1, rx, ry, rz]
  have hrot : rotate rnd a c s (roundVec rnd (v - v)) = 0 := by
    ext <;> simp [rotate, roundVec, r0]
  simp only [collide, hV, List.map_cons, List.map_nil, hrot]
  congr 2
  ext <;> simp [roundVec, r0, rx, ry, rz]

end single

/-! ## The hypotheses can be met -/

/-- Two particles, numbers with 53 binary digits (as `double`). -/
example : ∃ (rnd : ℝ → ℝ) (bs bs' : List Body),
    Ordinary (accuracy 53 (-1074) 1000000) bs 10 1 ∧ bs.length = 2 ∧
      Collides (accuracy 53 (-1074) 1000000) ⟨0, 0, 1⟩ (3 / 5) (4 / 5) 1 bs bs' ∧ bs' = collide rnd bs ⟨0, 0, 1⟩ (3 / 5) (4 / 5) 1 bs := by
  obtain ⟨rnd, hr⟩ := Rounded.exists_isRounding (p := 53) (emin := -1074) (emax := 971) (by norm_num)
  have h1 : (1 : ℝ) ∈ Decimal.Bin 53 (-1074) 971 := ⟨1, 0, by norm_num, by norm_num, by norm_num, by norm_num⟩
  have tiny : (2 : ℝ) ^ (-1074 : ℤ) ≤ 2 ^ (-53 : ℤ) := zpow_le_zpow_right₀ (by norm_num) (by norm_num)
  have hpos := Rounded.two_zpow_pos (-53)
  refine ⟨rnd, [⟨⟨3, -1, 0⟩, 1⟩, ⟨⟨-2, 10, 4⟩, 1⟩], _, ?_, rfl,
    C130_rounding (emax := 971) (by norm_num) (by norm_num) hr ?_ (List.Perm.refl _) (by simpa using h1) _ _ _ _, rfl⟩
  · constructor
    · exact (Rounded.two_zpow_pos _).le
    · exact (Rounded.two_zpow_pos _).le
    · simp
    · simp [Bounded]; norm_num
    · simp only [accuracy, List.length_cons, List.length_nil]; norm_num
    · simp only [accuracy]; push_cast; linarith
    · simp only [accuracy, mass, List.length_cons, List.length_nil, List.map_cons, List.map_nil, List.sum_cons, List.sum_nil]
      push_cast; linarith
    · simp only [accuracy]; norm_num
    · simp only [accuracy, mass, List.map_cons, List.map_nil, List.sum_cons, List.sum_nil]; norm_num
    · simp only [accuracy, mass, List.map_cons, List.map_nil, List.sum_cons, List.sum_nil]; norm_num
  · calc (1000000 : ℝ) < 2 ^ (20 : ℤ) := by norm_num
      _ ≤ 2 ^ (971 : ℤ) := zpow_le_zpow_right₀ (by norm_num) (by norm_num)

end OpenMPCD.Collide.Drift
