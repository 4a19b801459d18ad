import Verif.Vec.Model
import Mathlib.Data.Prod.Lex
import Mathlib.Analysis.SpecialFunctions.Complex.Arg

/-!
# Properties C11, C12, C40, C53, C54: vectors
-/

namespace OpenMPCD.Vec3

/-! ### C11: rotation -/

section CS
variable {K : Type*} [CommRing K]

theorem rotateCS_dot {a : Vec3 K} (ha : a.dot a = 1) {c s : K} (hcs : c ^ 2 + s ^ 2 = 1)
    (u v : Vec3 K) : (rotateCS u a c s).dot (rotateCS v a c s) = u.dot v := by
  simp only [dot] at ha
  simp only [rotateCS, dot, cross, add_x, add_y, add_z, sub_x, sub_y, sub_z, smul_x, smul_y, smul_z]
  set p := u.x * a.x + u.y * a.y + u.z * a.z with hp
  set q := v.x * a.x + v.y * a.y + v.z * a.z with hq
  rw [hp, hq]
  linear_combination ((u.x * a.x + u.y * a.y + u.z * a.z) * (v.x * a.x + v.y * a.y + v.z * a.z) *
    (1 - 2 * c + c ^ 2) + s ^ 2 * (u.x * v.x + u.y * v.y + u.z * v.z)) * ha +
    ((u.x * v.x + u.y * v.y + u.z * v.z) -
      (u.x * a.x + u.y * a.y + u.z * a.z) * (v.x * a.x + v.y * a.y + v.z * a.z)) * hcs

theorem rotateCS_axis {a : Vec3 K} (ha : a.dot a = 1) (c s : K) : rotateCS a a c s = a := by
  simp only [dot] at ha
  ext <;> simp only [rotateCS, dot, cross, add_x, add_y, add_z, sub_x, sub_y, sub_z, smul_x, smul_y,
    smul_z]
  · linear_combination (a.x - c * a.x) * ha
  · linear_combination (a.y - c * a.y) * ha
  · linear_combination (a.z - c * a.z) * ha

theorem rotateCS_comp {a : Vec3 K} (ha : a.dot a = 1) (c s c' s' : K) (u : Vec3 K) :
    rotateCS (rotateCS u a c s) a c' s' = rotateCS u a (c * c' - s * s') (s * c' + c * s') := by
  simp only [dot] at ha
  ext <;> simp only [rotateCS, dot, cross, add_x, add_y, add_z, sub_x, sub_y, sub_z, smul_x, smul_y,
    smul_z]
  · linear_combination (a.x * (u.x * a.x + u.y * a.y + u.z * a.z) * (1 - c) * (1 - c') -
      s * s' * u.x) * ha
  · linear_combination (a.y * (u.x * a.x + u.y * a.y + u.z * a.z) * (1 - c) * (1 - c') -
      s * s' * u.y) * ha
  · linear_combination (a.z * (u.x * a.x + u.y * a.y + u.z * a.z) * (1 - c) * (1 - c') -
      s * s' * u.z) * ha

theorem rotateCS_zero (a u : Vec3 K) : rotateCS u a 1 0 = u := by
  ext <;> simp only [rotateCS, dot, cross, add_x, add_y, add_z, sub_x, sub_y, sub_z, smul_x, smul_y,
    smul_z] <;> ring

theorem rotateCS_add (a u v : Vec3 K) (c s : K) :
    rotateCS (u + v) a c s = rotateCS u a c s + rotateCS v a c s := by
  ext <;> simp only [rotateCS, dot, cross, add_x, add_y, add_z, sub_x, sub_y, sub_z, smul_x, smul_y,
    smul_z] <;> ring

theorem rotateCS_smul (a u : Vec3 K) (r c s : K) :
    rotateCS (r • u) a c s = r • rotateCS u a c s := by
  ext <;> simp only [rotateCS, dot, cross, add_x, add_y, add_z, sub_x, sub_y, sub_z, smul_x, smul_y,
    smul_z] <;> ring

end CS

theorem unit_lengthSquared {a : Vec3 ℝ} (ha : a.getLength = 1) : a.dot a = 1 := by
  have h : Real.sqrt (a.dot a) = 1 := ha
  have h2 := Real.sq_sqrt (dot_self_nonneg a)
  rw [h] at h2; linarith

theorem rotated_eq {a : Vec3 ℝ} (ha : a.getLength = 1) (u : Vec3 ℝ) (θ : ℝ) :
    u.getRotatedAroundNormalizedAxis a θ = .ok (u.cppRotate a θ) := by
  have : a.getLengthSquared ≠ 0 := by
    have := unit_lengthSquared ha
    unfold getLengthSquared; rw [this]; norm_num
  simp only [getRotatedAroundNormalizedAxis, this, if_false]
  rfl

/-- C11: for a unit axis the Python method does not raise and returns what the C++ method computes; the
in-place variant leaves that vector in the receiver. -/
theorem C11_cpp_agrees {axis : Vec3 ℝ} (ha : axis.getLength = 1) (u : Vec3 ℝ) (θ : ℝ) :
    u.getRotatedAroundNormalizedAxis axis θ = .ok (u.cppRotate axis θ) ∧
    u.rotateAroundNormalizedAxis axis θ = (u.cppRotate axis θ, .ok ()) := by
  refine ⟨rotated_eq ha u θ, ?_⟩
  simp only [rotateAroundNormalizedAxis, rotated_eq ha u θ]

/-- C11: the Python method raises `ValueError` exactly for the zero axis, and then the in-place variant
leaves the receiver unchanged. -/
theorem C11_zero_axis (u axis : Vec3 ℝ) (θ : ℝ) :
    (u.getRotatedAroundNormalizedAxis axis θ = .error .valueError ↔ axis = 0) ∧
    (axis = 0 → u.rotateAroundNormalizedAxis axis θ = (u, .error .valueError)) := by
  have key : axis.getLengthSquared = 0 ↔ axis = 0 := dot_self_eq_zero
  constructor
  · unfold getRotatedAroundNormalizedAxis
    by_cases h : axis.getLengthSquared = 0
    · rw [if_pos h]; simp [key.mp h]
    · simp [h]; exact fun h' => h (key.mpr h')
  · intro h
    simp [rotateAroundNormalizedAxis, getRotatedAroundNormalizedAxis, key.mpr h]

/-- C11: rotation about a unit axis preserves dot products. -/
theorem C11_dot {axis : Vec3 ℝ} (ha : axis.getLength = 1) (u v : Vec3 ℝ) (θ : ℝ)
    {u' v' : Vec3 ℝ} (hu : u.getRotatedAroundNormalizedAxis axis θ = .ok u')
    (hv : v.getRotatedAroundNormalizedAxis axis θ = .ok v') : u'.dot v' = u.dot v := by
  rw [rotated_eq ha] at hu hv
  rw [← Except.ok.inj hu, ← Except.ok.inj hv]
  exact rotateCS_dot (unit_lengthSquared ha) (Real.cos_sq_add_sin_sq θ) u v

/-- C11: rotation about a unit axis preserves lengths. -/
theorem C11_length {axis : Vec3 ℝ} (ha : axis.getLength = 1) (u : Vec3 ℝ) (θ : ℝ)
    {u' : Vec3 ℝ} (hu : u.getRotatedAroundNormalizedAxis axis θ = .ok u') :
    u'.getLength = u.getLength := by
  simp only [getLength, getLengthSquared, C11_dot ha u u θ hu hu]

/-- C11: rotation fixes its axis. -/
theorem C11_axis {axis : Vec3 ℝ} (ha : axis.getLength = 1) (θ : ℝ) :
    axis.getRotatedAroundNormalizedAxis axis θ = .ok axis := by
  rw [rotated_eq ha]
  exact congrArg _ (rotateCS_axis (unit_lengthSquared ha) _ _)

/-- C11: rotating by `θ`, then by `φ`, is rotating by `θ + φ`. -/
theorem C11_compose {axis : Vec3 ℝ} (ha : axis.getLength = 1) (u : Vec3 ℝ) (θ φ : ℝ)
    {u' : Vec3 ℝ} (hu : u.getRotatedAroundNormalizedAxis axis θ = .ok u') :
    u'.getRotatedAroundNormalizedAxis axis φ = u.getRotatedAroundNormalizedAxis axis (θ + φ) := by
  rw [rotated_eq ha] at hu
  rw [rotated_eq ha, rotated_eq ha, ← Except.ok.inj hu]
  congr 1
  simp only [cppRotate]
  rw [rotateCS_comp (unit_lengthSquared ha), Real.cos_add, Real.sin_add]

/-- C11: rotating by `-θ` undoes rotating by `θ`. -/
theorem C11_inverse {axis : Vec3 ℝ} (ha : axis.getLength = 1) (u : Vec3 ℝ) (θ : ℝ)
    {u' : Vec3 ℝ} (hu : u.getRotatedAroundNormalizedAxis axis θ = .ok u') :
    u'.getRotatedAroundNormalizedAxis axis (-θ) = .ok u := by
  rw [C11_compose ha u θ (-θ) hu, rotated_eq ha]
  simp [cppRotate, rotateCS_zero]

/-- C11: the rotation is counter-clockwise by `θ` when seen with the axis pointing towards the observer:
a vector perpendicular to the axis makes the angle `θ` with its image, measured in the positive
sense about the axis. -/
theorem C11_counterclockwise {axis : Vec3 ℝ} (ha : axis.getLength = 1) (u : Vec3 ℝ) (θ : ℝ)
    (hperp : u.dot axis = 0) {u' : Vec3 ℝ}
    (hu : u.getRotatedAroundNormalizedAxis axis θ = .ok u') :
    u'.dot axis = 0 ∧ u.dot u' = Real.cos θ * u.getLengthSquared ∧
      axis.dot (u.cross u') = Real.sin θ * u.getLengthSquared := by
  rw [rotated_eq ha] at hu
  rw [← Except.ok.inj hu]
  have ha' := unit_lengthSquared ha
  simp only [dot] at ha' hperp
  simp only [cppRotate, rotateCS, getLengthSquared, dot, cross, add_x, add_y, add_z, sub_x, sub_y,
    sub_z, smul_x, smul_y, smul_z, hperp]
  refine ⟨?_, ?_, ?_⟩
  · linear_combination (Real.cos θ) * hperp
  · ring
  · linear_combination (Real.sin θ) * (u.x * u.x + u.y * u.y + u.z * u.z) * ha' -
      (Real.sin θ) * (u.x * axis.x + u.y * axis.y + u.z * axis.z) * hperp

/-- A unit axis that is not a coordinate axis. -/
example : (⟨3 / 5, 0, 4 / 5⟩ : Vec3 ℝ).getLength = 1 := by
  simp [getLength, getLengthSquared, dot]; norm_num

/-! ### C12: projections, normalisation, cross product -/

theorem lengthSquared_eq_zero (u : Vec3 ℝ) : u.getLengthSquared = 0 ↔ u = 0 := dot_self_eq_zero

theorem length_pos {u : Vec3 ℝ} (h : u ≠ 0) : 0 < u.getLength := by
  apply Real.sqrt_pos.mpr
  exact lt_of_le_of_ne (dot_self_nonneg u) (fun h' => h (dot_self_eq_zero.mp h'.symm))

theorem length_sq (u : Vec3 ℝ) : u.getLength ^ 2 = u.dot u := Real.sq_sqrt (dot_self_nonneg u)

/-- C12: `getNormalized` raises `ValueError` exactly for the zero vector. -/
theorem C12_normalized_raises (u : Vec3 ℝ) :
    u.getNormalized = .error .valueError ↔ u = 0 := by
  unfold getNormalized
  by_cases h : u.getLengthSquared = 0
  · rw [if_pos h]; simp [(lengthSquared_eq_zero u).mp h]
  · simp [h]; exact fun h' => h ((lengthSquared_eq_zero u).mpr h')

/-- C12: `getNormalized` returns the vector of length 1 that is a positive multiple of the given one. -/
theorem C12_normalized (u : Vec3 ℝ) (h : u ≠ 0) :
    ∃ n, u.getNormalized = .ok n ∧ n.getLength = 1 ∧ u = u.getLength • n ∧ 0 < u.getLength := by
  have hl := length_pos h
  have hn : u.getLengthSquared ≠ 0 := fun h' => h ((lengthSquared_eq_zero u).mp h')
  refine ⟨_, by simp only [getNormalized, hn, if_false]; rfl, ?_, ?_, hl⟩
  · have h2 := length_sq u
    simp only [dot] at h2
    rw [getLength, getLengthSquared, Real.sqrt_eq_one]
    simp only [dot]
    field_simp
    linarith
  · ext <;> simp <;> field_simp

theorem normalized_eq {r : Vec3 ℝ} (h : r ≠ 0) : r.getNormalized = .ok ((1 / r.getLength) • r) := by
  have hn : r.getLengthSquared ≠ 0 := fun h' => h ((lengthSquared_eq_zero r).mp h')
  simp only [getNormalized, hn, if_false]; rfl

theorem projection_eq (u : Vec3 ℝ) {r : Vec3 ℝ} (h : r ≠ 0) :
    u.getProjectionOnto r = .ok ((r.dot u / r.dot r) • r) := by
  have hn : r.getLengthSquared ≠ 0 := fun h' => h ((lengthSquared_eq_zero r).mp h')
  have hl := length_pos h
  rw [← length_sq r]
  simp only [getProjectionOnto, hn, if_false, normalized_eq h, bind, Except.bind, Except.ok.injEq,
    smul_dot, smul_smul]
  congr 1
  field_simp

theorem perpendicular_eq (u : Vec3 ℝ) {r : Vec3 ℝ} (h : r ≠ 0) :
    u.getPerpendicularTo r = .ok (u - (r.dot u / r.dot r) • r) := by
  have hn : r.getLengthSquared ≠ 0 := fun h' => h ((lengthSquared_eq_zero r).mp h')
  simp only [getPerpendicularTo, hn, if_false, projection_eq u h, bind, Except.bind]

/-- C12: for a non-zero direction, projection and perpendicular part exist, add up to the vector, the
former is parallel and the latter orthogonal to the direction. -/
theorem C12_projection (u r : Vec3 ℝ) (h : r ≠ 0) :
    ∃ p q, u.getProjectionOnto r = .ok p ∧ u.getPerpendicularTo r = .ok q ∧ p + q = u ∧
      (∃ t : ℝ, p = t • r) ∧ q.dot r = 0 := by
  refine ⟨_, _, projection_eq u h, perpendicular_eq u h, by abel, ⟨_, rfl⟩, ?_⟩
  have hr : r.dot r ≠ 0 := fun h' => h (dot_self_eq_zero.mp h')
  rw [sub_dot, smul_dot, dot_comm u r]
  field_simp
  ring

/-- C12: both raise `ValueError` for the zero direction. -/
theorem C12_projection_zero (u : Vec3 ℝ) :
    u.getProjectionOnto 0 = .error .valueError ∧ u.getPerpendicularTo 0 = .error .valueError := by
  have h : (0 : Vec3 ℝ).getLengthSquared = 0 := (lengthSquared_eq_zero _).mpr rfl
  simp [getProjectionOnto, getPerpendicularTo, h]

/-- C12: the C++ class computes the same normalised vectors, projections and perpendicular parts, and
throws in the same cases (host code). -/
theorem C12_cpp_agrees (u r : Vec3 ℝ) :
    u.cppGetNormalized = u.getNormalized.toOption ∧
    u.cppGetProjectedOnto r = (u.getProjectionOnto r).toOption ∧
    u.cppGetPerpendicularTo r = (u.getPerpendicularTo r).toOption := by
  have hN : ∀ w : Vec3 ℝ, w.cppGetNormalized = w.getNormalized.toOption := by
    intro w
    by_cases h : w = 0
    · subst h
      rw [(C12_normalized_raises 0).mpr rfl]
      simp [cppGetNormalized, cppMagnitude, cppMagnitudeSquared, Except.toOption]
    · have hl : w.cppMagnitude ≠ 0 := ne_of_gt (length_pos h)
      simp only [cppGetNormalized, hl, if_false, normalized_eq h, Except.toOption, Option.some.injEq]
      have : w.cppMagnitude = w.getLength := rfl
      rw [this]
      ext <;> simp <;> rw [div_eq_mul_inv]
  have hP : u.cppGetProjectedOnto r = (u.getProjectionOnto r).toOption := by
    unfold cppGetProjectedOnto
    rw [hN r]
    by_cases h : r = 0
    · subst h
      rw [(C12_projection_zero u).1, (C12_normalized_raises 0).mpr rfl]; rfl
    · have hn : r.getLengthSquared ≠ 0 := fun h' => h ((lengthSquared_eq_zero r).mp h')
      rw [getProjectionOnto, if_neg hn, normalized_eq h]
      rfl
  refine ⟨hN u, hP, ?_⟩
  unfold cppGetPerpendicularTo
  rw [hP]
  by_cases h : r = 0
  · subst h
    rw [(C12_projection_zero u).1, (C12_projection_zero u).2]; rfl
  · have hn : r.getLengthSquared ≠ 0 := fun h' => h ((lengthSquared_eq_zero r).mp h')
    rw [getPerpendicularTo, if_neg hn, projection_eq u h]
    rfl

/-- C12: the cross product is orthogonal to both factors, antisymmetric, satisfies Lagrange's identity,
and has the orientation of the coordinate system. -/
theorem C12_cross (u v : Vec3 ℝ) :
    (u.cross v).dot u = 0 ∧ (u.cross v).dot v = 0 ∧ u.cross v = - v.cross u ∧
    (u.cross v).dot (u.cross v) = u.dot u * v.dot v - u.dot v ^ 2 ∧
    (⟨1, 0, 0⟩ : Vec3 ℝ).cross ⟨0, 1, 0⟩ = ⟨0, 0, 1⟩ := by
  refine ⟨?_, ?_, ?_, ?_, ?_⟩
  · simp only [cross, dot]; ring
  · simp only [cross, dot]; ring
  · ext <;> simp only [cross, neg_x, neg_y, neg_z] <;> ring
  · simp only [cross, dot]; ring
  · simp [cross]

/-! ### C40: random unit vectors -/

/-- C40: the vector built from any two numbers, the first of them in `[0, 1]`, has length 1. -/
theorem C40_unit (X_1 X_2 : ℝ) (h0 : 0 ≤ X_1) (h1 : X_1 ≤ 1) :
    (getUnitVectorFromRandom01 X_1 X_2).getLength = 1 := by
  have hz : 0 ≤ 1 - (2 * X_1 - 1) * (2 * X_1 - 1) := by nlinarith
  rw [getLength, getLengthSquared, Real.sqrt_eq_one]
  simp only [getUnitVectorFromRandom01, dot]
  have hs := Real.mul_self_sqrt hz
  have ht := Real.sin_sq_add_cos_sq (Real.pi * (2 * X_2))
  set r := Real.sqrt (1 - (2 * X_1 - 1) * (2 * X_1 - 1))
  linear_combination (Real.sin (Real.pi * (2 * X_2)) ^ 2 + Real.cos (Real.pi * (2 * X_2)) ^ 2) * hs +
    (1 - (2 * X_1 - 1) * (2 * X_1 - 1)) * ht

theorem exists_angle {a b : ℝ} (h : a ^ 2 + b ^ 2 = 1) :
    ∃ t : ℝ, 0 ≤ t ∧ t < 1 ∧ Real.cos (Real.pi * (2 * t)) = a ∧ Real.sin (Real.pi * (2 * t)) = b := by
  have hpi := Real.pi_pos
  set w : ℂ := ⟨a, b⟩ with hw
  have hn : ‖w‖ = 1 := by
    rw [Complex.norm_def, Real.sqrt_eq_one, Complex.normSq_apply]
    simp only [hw]; linarith
  have hc : Real.cos w.arg = a := by
    have := Complex.norm_mul_cos_arg w
    rwa [hn, one_mul] at this
  have hs : Real.sin w.arg = b := by
    have := Complex.norm_mul_sin_arg w
    rwa [hn, one_mul] at this
  have hl := Complex.neg_pi_lt_arg w
  have hu := Complex.arg_le_pi w
  by_cases h0 : 0 ≤ w.arg
  · refine ⟨w.arg / (2 * Real.pi), by positivity, ?_, ?_, ?_⟩
    · rw [div_lt_one (by positivity)]; linarith
    · rw [← hc]; congr 1; field_simp
    · rw [← hs]; congr 1; field_simp
  · push Not at h0
    have e : Real.pi * (2 * (w.arg / (2 * Real.pi) + 1)) = w.arg + 2 * Real.pi := by field_simp
    refine ⟨w.arg / (2 * Real.pi) + 1, ?_, ?_, ?_, ?_⟩
    · rw [← neg_le_iff_add_nonneg, le_div_iff₀ (by positivity)]; linarith
    · have : w.arg / (2 * Real.pi) < 0 := div_neg_of_neg_of_pos h0 (by positivity)
      linarith
    · rw [e, Real.cos_add_two_pi, hc]
    · rw [e, Real.sin_add_two_pi, hs]

/-- C40: every unit vector is obtained from some admissible pair of numbers. -/
theorem C40_onto (u : Vec3 ℝ) (hu : u.getLength = 1) :
    ∃ X_1 X_2 : ℝ, 0 ≤ X_1 ∧ X_1 ≤ 1 ∧ 0 ≤ X_2 ∧ X_2 < 1 ∧ getUnitVectorFromRandom01 X_1 X_2 = u := by
  have h := unit_lengthSquared hu
  simp only [dot] at h
  have hz1 : -1 ≤ u.z := by nlinarith [mul_self_nonneg u.x, mul_self_nonneg u.y]
  have hz2 : u.z ≤ 1 := by nlinarith [mul_self_nonneg u.x, mul_self_nonneg u.y]
  have hz : 2 * ((u.z + 1) / 2) - 1 = u.z := by ring
  have hr : 0 ≤ 1 - u.z * u.z := by nlinarith
  set r := Real.sqrt (1 - u.z * u.z) with hrdef
  have hrr : r * r = 1 - u.z * u.z := Real.mul_self_sqrt hr
  by_cases h0 : r = 0
  · have hx : u.x = 0 := by
      rw [h0] at hrr; nlinarith [mul_self_nonneg u.x, mul_self_nonneg u.y]
    have hy : u.y = 0 := by
      rw [h0] at hrr; nlinarith [mul_self_nonneg u.x, mul_self_nonneg u.y]
    refine ⟨(u.z + 1) / 2, 0, by linarith, by linarith, le_rfl, by norm_num, ?_⟩
    ext <;> simp only [getUnitVectorFromRandom01, hz, ← hrdef, h0, hx, hy, mul_zero]
  · obtain ⟨t, ht0, ht1, hc, hs⟩ := exists_angle (a := u.x / r) (b := u.y / r) (by
      field_simp; nlinarith)
    refine ⟨(u.z + 1) / 2, t, by linarith, by linarith, ht0, ht1, ?_⟩
    ext <;> simp only [getUnitVectorFromRandom01, hz, ← hrdef, hc, hs]
    · field_simp
    · field_simp

example : (getUnitVectorFromRandom01 (1 / 2) (1 / 4)).y = 1 := by
  have : Real.pi * (2 * (1 / 4)) = Real.pi / 2 := by ring
  simp only [getUnitVectorFromRandom01, this]; norm_num

/-! ### C53: complex vectors -/

open ComplexConjugate

theorem cdot_self (u : Vec3 ℂ) :
    u.cdot u = ((Complex.normSq u.x + Complex.normSq u.y + Complex.normSq u.z : ℝ) : ℂ) := by
  simp only [cdot, Complex.ofReal_add, Complex.normSq_eq_conj_mul_self]

theorem cLengthSquared_eq (u : Vec3 ℂ) :
    u.cLengthSquared = Complex.normSq u.x + Complex.normSq u.y + Complex.normSq u.z := by
  rw [cLengthSquared, cdot_self, Complex.ofReal_re]

theorem cLengthSquared_nonneg (u : Vec3 ℂ) : 0 ≤ u.cLengthSquared := by
  rw [cLengthSquared_eq]
  have := Complex.normSq_nonneg u.x
  have := Complex.normSq_nonneg u.y
  have := Complex.normSq_nonneg u.z
  linarith

theorem cLengthSquared_eq_zero (u : Vec3 ℂ) : u.cLengthSquared = 0 ↔ u = 0 := by
  rw [cLengthSquared_eq]
  have hx := Complex.normSq_nonneg u.x
  have hy := Complex.normSq_nonneg u.y
  have hz := Complex.normSq_nonneg u.z
  constructor
  · intro h
    ext
    · exact Complex.normSq_eq_zero.mp (by linarith)
    · exact Complex.normSq_eq_zero.mp (by linarith)
    · exact Complex.normSq_eq_zero.mp (by linarith)
  · rintro rfl; simp

/-- C53: the dot product is conjugate-symmetric, linear in the right factor, and the squared length is the
non-negative number `self . self`, zero only for the zero vector. -/
theorem C53_dot (u v w : Vec3 ℂ) (s : ℂ) :
    u.cdot v = conj (v.cdot u) ∧ u.cdot (s • v + w) = s * u.cdot v + u.cdot w ∧
    ((u.cLengthSquared : ℝ) : ℂ) = u.cdot u ∧ 0 ≤ u.cLengthSquared ∧
    (u.cLengthSquared = 0 ↔ u = 0) := by
  refine ⟨?_, ?_, ?_, cLengthSquared_nonneg u, cLengthSquared_eq_zero u⟩
  · simp only [cdot, map_add, map_mul, Complex.conj_conj]; ring
  · simp only [cdot, add_x, add_y, add_z, smul_x, smul_y, smul_z]; ring
  · rw [cdot_self, cLengthSquared_eq]

/-- C53: for a non-zero complex direction, projection and perpendicular part add up to the vector, the
former is a multiple of the direction, the latter orthogonal to it. -/
theorem C53_projection (u r : Vec3 ℂ) (h : r ≠ 0) :
    ∃ p q, u.cGetProjectionOnto r = some p ∧ u.cGetPerpendicularTo r = some q ∧ p + q = u ∧
      (∃ t : ℂ, p = t • r) ∧ r.cdot q = 0 := by
  have hpos : 0 < r.cLengthSquared :=
    lt_of_le_of_ne (cLengthSquared_nonneg r) (fun h' => h ((cLengthSquared_eq_zero r).mp h'.symm))
  have hl : 0 < r.cLength := Real.sqrt_pos.mpr hpos
  have hl2 : r.cLength * r.cLength = r.cLengthSquared := Real.mul_self_sqrt hpos.le
  have hlC : (r.cLength : ℂ) ≠ 0 := by exact_mod_cast hl.ne'
  have hl2C : (r.cLength : ℂ) * r.cLength = r.cdot r := by
    rw [← (C53_dot r r r 0).2.2.1, ← hl2]; push_cast; ring
  have hN : r.cGetNormalized = some (((1 / r.cLength : ℝ) : ℂ) • r) := by
    simp only [cGetNormalized, hl.ne', if_false]; rfl
  have hP : u.cGetProjectionOnto r = some ((r.cdot u / r.cdot r) • r) := by
    simp only [cGetProjectionOnto, hN, bind, Option.bind, Option.some.injEq, smul_smul]
    congr 1
    rw [← hl2C]
    simp only [cdot, smul_x, smul_y, smul_z, map_mul, Complex.conj_ofReal]
    push_cast
    field_simp
  have hQ : u.cGetPerpendicularTo r = some (u - (r.cdot u / r.cdot r) • r) := by
    simp only [cGetPerpendicularTo, hP, bind, Option.bind]
  refine ⟨_, _, hP, hQ, by abel, ⟨_, rfl⟩, ?_⟩
  have hrr : r.cdot r ≠ 0 := by rw [← hl2C]; exact mul_ne_zero hlC hlC
  have : r.cdot (u - (r.cdot u / r.cdot r) • r) = r.cdot u - (r.cdot u / r.cdot r) * r.cdot r := by
    generalize r.cdot u / r.cdot r = t
    simp only [cdot, sub_x, sub_y, sub_z, smul_x, smul_y, smul_z]; ring
  rw [this, div_mul_cancel₀ _ hrr, sub_self]

/-- C53, rotation of complex vectors, what does hold: for vectors with real components the rotation is that
of the real class. Missing: rotation of vectors with non-real components is not a rotation
(`C53_rotation_violated`). -/
theorem C53_rotation_partial (u axis : Vec3 ℝ) (θ : ℝ) :
    (toComplex u).cRotate (toComplex axis) θ = toComplex (u.cppRotate axis θ) := by
  ext <;> simp only [cRotate, cppRotate, rotateCS, toComplex, cdot, dot, cross, add_x, add_y, add_z,
    sub_x, sub_y, sub_z, smul_x, smul_y, smul_z, Complex.conj_ofReal] <;> push_cast <;> ring

/-- C53, rotation: not even lengths are preserved when a component along the axis is not real: rotating the
vector `(i, 0, 0)` about the x axis by `π` gives `(-3 i, 0, 0)`. -/
theorem C53_rotation_violated :
    ∃ (u : Vec3 ℂ) (axis : Vec3 ℝ) (θ : ℝ), axis.getLength = 1 ∧
      (u.cRotate (toComplex axis) θ).cLengthSquared ≠ u.cLengthSquared := by
  refine ⟨⟨Complex.I, 0, 0⟩, ⟨1, 0, 0⟩, Real.pi, ?_, ?_⟩
  · simp [getLength, getLengthSquared, dot]
  · rw [cLengthSquared_eq, cLengthSquared_eq]
    simp only [cRotate, toComplex, cdot, cross, add_x, add_y, add_z,
      sub_x, sub_y, sub_z, smul_x, smul_y, smul_z]
    simp [Complex.normSq_apply]
    norm_num

example : (⟨1, Complex.I, 0⟩ : Vec3 ℂ) ≠ 0 := by
  intro h; have := congrArg Vec3.x h; simp at this

/-! ### C54: ordering -/

/-- C54: `operator<` is the lexicographic order of the components ... -/
theorem C54_lex {K : Type*} [LinearOrder K] (u v : Vec3 K) :
    u.cppLt v = true ↔ toLex (u.x, toLex (u.y, u.z)) < toLex (v.x, toLex (v.y, v.z)) := by
  simp only [Prod.Lex.toLex_lt_toLex, cppLt]
  rcases lt_trichotomy u.x v.x with h | h | h
  · simp [h]
  · simp only [h, lt_irrefl, if_false, gt_iff_lt]
    rcases lt_trichotomy u.y v.y with h' | h' | h'
    · simp [h']
    · simp [h']
    · simp [h', h'.not_gt, h'.ne']
  · simp [h, h.not_gt, h.ne']

/-- C54: ... and hence a strict total order: exactly one of `u < v`, `u = v`, `v < u` holds, and it is
transitive, as `std::set` and `std::map` require. -/
theorem C54_strictTotal {K : Type*} [LinearOrder K] (u v w : Vec3 K) :
    u.cppLt u = false ∧ (u.cppLt v = true → v.cppLt w = true → u.cppLt w = true) ∧
    (u.cppLt v = true ∨ u = v ∨ v.cppLt u = true) ∧ ¬ (u.cppLt v = true ∧ v.cppLt u = true) := by
  refine ⟨?_, ?_, ?_, ?_⟩
  · rw [← Bool.not_eq_true, C54_lex]; exact lt_irrefl _
  · simp only [C54_lex]; exact lt_trans
  · simp only [C54_lex]
    rcases lt_trichotomy (toLex (u.x, toLex (u.y, u.z))) (toLex (v.x, toLex (v.y, v.z))) with h | h | h
    · exact .inl h
    · refine .inr (.inl ?_)
      have h1 := congrArg ofLex h
      simp only [ofLex_toLex, Prod.mk.injEq, toLex_inj] at h1
      ext
      · exact h1.1
      · exact h1.2.1
      · exact h1.2.2
    · exact .inr (.inr h)
  · simp only [C54_lex]; exact fun h => lt_asymm h.1 h.2

end OpenMPCD.Vec3
