import Mathlib.Analysis.SpecialFunctions.Trigonometric.Inverse
import Mathlib.Analysis.Complex.Basic
import Mathlib.Tactic.Linarith
import Mathlib.Tactic.Ring
import Mathlib.Tactic.FieldSimp

/-!
# Vectors in the plane (C156)

`include/OpenMPCD/Vector2D.hpp`, for real and for complex numbers.

Simplifications: there is no rounding; a quotient by zero, which is not a number in floating-point arithmetic, is `none`.
-/

set_option linter.unusedSectionVars false
set_option linter.unusedSimpArgs false
set_option linter.unusedVariables false

namespace OpenMPCD.Plane

open ComplexConjugate

/-! ## Model -/

/-- `Vector2D` (`include/OpenMPCD/Vector2D.hpp:186-187`). -/
@[ext] structure Vec2 (T : Type) where
  x : T
  y : T

/-- The default constructor (`include/OpenMPCD/Vector2D.hpp:45-47`). -/
def default {T : Type} [Zero T] : Vec2 T := ⟨0, 0⟩

/-- `dot` of real vectors (`include/OpenMPCD/Vector2D_Implementation2.hpp:44-49`). -/
def dot (u v : Vec2 ℝ) : ℝ := u.x * v.x + u.y * v.y

/-- `dot` of complex vectors (`include/OpenMPCD/Vector2D_Implementation2.hpp:81-92`). -/
noncomputable def cdot (u v : Vec2 ℂ) : ℂ := conj u.x * v.x + conj u.y * v.y

/-- `getMagnitudeSquared` of real vectors (`include/OpenMPCD/Vector2D.hpp:100-103`). -/
def magnitudeSquared (u : Vec2 ℝ) : ℝ := dot u u

/-- `getMagnitudeSquared` of complex vectors (`include/OpenMPCD/Vector2D.hpp:100-103`). -/
noncomputable def cMagnitudeSquared (u : Vec2 ℂ) : ℝ := (cdot u u).re

/-- `getMagnitude` of real vectors (`include/OpenMPCD/Vector2D.hpp:109-114`). -/
noncomputable def magnitude (u : Vec2 ℝ) : ℝ := Real.sqrt (magnitudeSquared u)

/-- `getMagnitude` of complex vectors (`include/OpenMPCD/Vector2D.hpp:109-114`). -/
noncomputable def cMagnitude (u : Vec2 ℂ) : ℝ := Real.sqrt (cMagnitudeSquared u)

/-- What is computed: not a number, a failed assertion, or a value. -/
inductive Outcome
  | nan
  | assertion
  | value (x : ℝ)

open Classical in
/-- `getCosineOfAngle` (`include/OpenMPCD/Vector2D.hpp:124-145`), with the debug assertions. For not-a-number, both assertions
fail as well in debug mode; `nan` stands for either. -/
noncomputable def cosineOfAngle (u v : Vec2 ℝ) : Outcome :=
  let divisor := Real.sqrt (magnitudeSquared u * magnitudeSquared v)
  if divisor = 0 then .nan
  else
    let ret := dot u v / divisor
    if ¬ (-1 ≤ ret) then .assertion
    else if ¬ (ret ≤ 1) then .assertion
    else .value ret

/-- `getAngle` (`include/OpenMPCD/Vector2D.hpp:153-160`). -/
noncomputable def angle (u v : Vec2 ℝ) : Outcome :=
  match cosineOfAngle u v with
  | .value c => .value (Real.arccos c)
  | o => o

open Classical in
/-- `operator==` (`include/OpenMPCD/Vector2D.hpp:169-172`). -/
noncomputable def eq {T : Type} (u v : Vec2 T) : Bool := decide (u.x = v.x) && decide (u.y = v.y)

/-- `operator!=` (`include/OpenMPCD/Vector2D.hpp:180-183`). -/
noncomputable def ne {T : Type} (u v : Vec2 T) : Bool := !eq u v

/-! ## Specification -/

/-- A point of the plane given by its distance from the origin and the angle to the first axis. -/
noncomputable def polar (r φ : ℝ) : Vec2 ℝ := ⟨r * Real.cos φ, r * Real.sin φ⟩

/-! ## Proofs -/

theorem magnitudeSquared_nonneg (u : Vec2 ℝ) : 0 ≤ magnitudeSquared u := by
  unfold magnitudeSquared dot
  nlinarith [mul_self_nonneg u.x, mul_self_nonneg u.y]

theorem magnitudeSquared_eq_zero (u : Vec2 ℝ) : magnitudeSquared u = 0 ↔ u = ⟨0, 0⟩ := by
  unfold magnitudeSquared dot
  constructor
  · intro h
    have hx : u.x * u.x = 0 := by nlinarith [mul_self_nonneg u.x, mul_self_nonneg u.y]
    have hy : u.y * u.y = 0 := by nlinarith [mul_self_nonneg u.x, mul_self_nonneg u.y]
    exact Vec2.ext (mul_self_eq_zero.1 hx) (mul_self_eq_zero.1 hy)
  · rintro rfl
    simp

theorem divisor_eq_zero (u v : Vec2 ℝ) : Real.sqrt (magnitudeSquared u * magnitudeSquared v) = 0 ↔
    u = ⟨0, 0⟩ ∨ v = ⟨0, 0⟩ := by
  rw [Real.sqrt_eq_zero (mul_nonneg (magnitudeSquared_nonneg u) (magnitudeSquared_nonneg v)), mul_eq_zero,
    magnitudeSquared_eq_zero, magnitudeSquared_eq_zero]

theorem dot_sq_le (u v : Vec2 ℝ) : dot u v ^ 2 ≤ magnitudeSquared u * magnitudeSquared v := by
  unfold magnitudeSquared dot
  nlinarith [sq_nonneg (u.x * v.y - u.y * v.x)]

theorem abs_dot_le (u v : Vec2 ℝ) : |dot u v| ≤ Real.sqrt (magnitudeSquared u * magnitudeSquared v) :=
  Real.abs_le_sqrt (dot_sq_le u v)

theorem cosine_value {u v : Vec2 ℝ} (hu : u ≠ ⟨0, 0⟩) (hv : v ≠ ⟨0, 0⟩) :
    cosineOfAngle u v = .value (dot u v / Real.sqrt (magnitudeSquared u * magnitudeSquared v)) ∧
    -1 ≤ dot u v / Real.sqrt (magnitudeSquared u * magnitudeSquared v) ∧
    dot u v / Real.sqrt (magnitudeSquared u * magnitudeSquared v) ≤ 1 := by
  have hd : Real.sqrt (magnitudeSquared u * magnitudeSquared v) ≠ 0 := by
    rw [Ne, divisor_eq_zero]
    tauto
  have hpos : 0 < Real.sqrt (magnitudeSquared u * magnitudeSquared v) := lt_of_le_of_ne (Real.sqrt_nonneg _) (Ne.symm hd)
  have hb := abs_le.1 (abs_dot_le u v)
  have h1 : -1 ≤ dot u v / Real.sqrt (magnitudeSquared u * magnitudeSquared v) := by
    rw [le_div_iff₀ hpos]
    linarith [hb.1]
  have h2 : dot u v / Real.sqrt (magnitudeSquared u * magnitudeSquared v) ≤ 1 := by
    rw [div_le_one hpos]
    exact hb.2
  refine ⟨?_, h1, h2⟩
  simp only [cosineOfAngle, if_neg hd, h1, h2, not_true_eq_false, if_false]

/-- C156: the angle is a number for any two vectors that are not zero, and no assertion fails. It is between 0 and π, does not
depend on the order, and its cosine times both magnitudes is the scalar product. -/
theorem C156_angle {u v : Vec2 ℝ} (hu : u ≠ ⟨0, 0⟩) (hv : v ≠ ⟨0, 0⟩) : ∃ α, angle u v = .value α ∧ angle v u = .value α ∧
    0 ≤ α ∧ α ≤ Real.pi ∧ Real.sqrt (u.x ^ 2 + u.y ^ 2) * Real.sqrt (v.x ^ 2 + v.y ^ 2) * Real.cos α = u.x * v.x + u.y * v.y := by
  obtain ⟨h, h1, h2⟩ := cosine_value hu hv
  obtain ⟨h', -, -⟩ := cosine_value hv hu
  refine ⟨Real.arccos (dot u v / Real.sqrt (magnitudeSquared u * magnitudeSquared v)), ?_, ?_, Real.arccos_nonneg _,
    Real.arccos_le_pi _, ?_⟩
  · rw [angle, h]
  · rw [angle, h', mul_comm (magnitudeSquared v), show dot v u = dot u v by unfold dot; ring]
  · have hd : Real.sqrt (magnitudeSquared u * magnitudeSquared v) ≠ 0 := by
      rw [Ne, divisor_eq_zero]
      tauto
    have e : Real.sqrt (u.x ^ 2 + u.y ^ 2) * Real.sqrt (v.x ^ 2 + v.y ^ 2) =
        Real.sqrt (magnitudeSquared u * magnitudeSquared v) := by
      rw [Real.sqrt_mul (magnitudeSquared_nonneg u)]
      unfold magnitudeSquared dot
      simp only [sq]
    rw [e, Real.cos_arccos h1 h2, mul_div_cancel₀ _ hd]
    rfl

/-- C156: for points given by distances and angles, it is the difference of the angles, if this is between 0 and π. -/
theorem C156_polar {r s φ δ : ℝ} (hr : 0 < r) (hs : 0 < s) (h0 : 0 ≤ δ) (hpi : δ ≤ Real.pi) :
    angle (polar r φ) (polar s (φ + δ)) = .value δ := by
  have hne : ∀ {t ψ : ℝ}, 0 < t → polar t ψ ≠ ⟨0, 0⟩ := by
    intro t ψ ht h
    have h1 : t * Real.cos ψ = 0 := congrArg Vec2.x h
    have h2 : t * Real.sin ψ = 0 := congrArg Vec2.y h
    have hc := (mul_eq_zero.1 h1).resolve_left ht.ne'
    have hs := (mul_eq_zero.1 h2).resolve_left ht.ne'
    have := Real.sin_sq_add_cos_sq ψ
    rw [hc, hs] at this
    norm_num at this
  have hm : ∀ {t ψ : ℝ}, magnitudeSquared (polar t ψ) = t ^ 2 := by
    intro t ψ
    have := Real.sin_sq_add_cos_sq ψ
    unfold magnitudeSquared dot polar
    simp only
    calc t * Real.cos ψ * (t * Real.cos ψ) + t * Real.sin ψ * (t * Real.sin ψ)
        = t ^ 2 * (Real.sin ψ ^ 2 + Real.cos ψ ^ 2) := by ring
      _ = t ^ 2 := by rw [this, mul_one]
  have hdot : dot (polar r φ) (polar s (φ + δ)) = r * s * Real.cos δ := by
    unfold dot polar
    simp only
    have : Real.cos δ = Real.cos (φ + δ) * Real.cos φ + Real.sin (φ + δ) * Real.sin φ := by
      rw [← Real.cos_sub]
      congr 1
      ring
    rw [this]
    ring
  rw [angle, (cosine_value (hne hr) (hne hs)).1, hdot, hm, hm, ← mul_pow, Real.sqrt_sq (mul_pos hr hs).le]
  simp only
  rw [mul_div_cancel_left₀ _ (mul_pos hr hs).ne', Real.arccos_cos h0 hpi]

/-- C156: if a vector is zero, there is no angle, and no number is returned. -/
theorem C156_zero (u : Vec2 ℝ) : angle default u = .nan ∧ angle u default = .nan := by
  constructor
  · have h := (divisor_eq_zero default u).2 (.inl rfl)
    simp [angle, cosineOfAngle, h]
  · have h := (divisor_eq_zero u default).2 (.inr rfl)
    simp [angle, cosineOfAngle, h]

/-- C156: magnitudes are not negative, zero only for the zero vector, and have the square that is returned as the square. -/
theorem C156_magnitude (u : Vec2 ℝ) : 0 ≤ magnitude u ∧ (magnitude u = 0 ↔ u = default) ∧
    magnitude u ^ 2 = magnitudeSquared u ∧ magnitudeSquared u = u.x ^ 2 + u.y ^ 2 := by
  refine ⟨Real.sqrt_nonneg _, ?_, Real.sq_sqrt (magnitudeSquared_nonneg u), by unfold magnitudeSquared dot; ring⟩
  rw [magnitude, Real.sqrt_eq_zero (magnitudeSquared_nonneg u), magnitudeSquared_eq_zero]
  rfl

theorem cdot_self (u : Vec2 ℂ) : cdot u u = ((Complex.normSq u.x + Complex.normSq u.y : ℝ) : ℂ) := by
  rw [cdot, ← Complex.normSq_eq_conj_mul_self, ← Complex.normSq_eq_conj_mul_self, Complex.ofReal_add]

/-- C156: the same for complex vectors; nothing is lost by taking the real part, and exchanging the vectors conjugates the
scalar product. -/
theorem C156_complex (u v : Vec2 ℂ) : 0 ≤ cMagnitude u ∧ (cMagnitude u = 0 ↔ u = default) ∧
    cMagnitude u ^ 2 = cMagnitudeSquared u ∧ cdot u u = (cMagnitudeSquared u : ℂ) ∧
    cMagnitudeSquared u = ‖u.x‖ ^ 2 + ‖u.y‖ ^ 2 ∧ cdot v u = conj (cdot u v) := by
  have hm : cMagnitudeSquared u = Complex.normSq u.x + Complex.normSq u.y := by
    rw [cMagnitudeSquared, cdot_self, Complex.ofReal_re]
  have hn : 0 ≤ cMagnitudeSquared u := by
    rw [hm]
    exact add_nonneg (Complex.normSq_nonneg _) (Complex.normSq_nonneg _)
  refine ⟨Real.sqrt_nonneg _, ?_, Real.sq_sqrt hn, by rw [cdot_self, hm], ?_, ?_⟩
  · rw [cMagnitude, Real.sqrt_eq_zero hn, hm]
    constructor
    · intro h
      have hx : Complex.normSq u.x = 0 := by linarith [Complex.normSq_nonneg u.x, Complex.normSq_nonneg u.y]
      have hy : Complex.normSq u.y = 0 := by linarith [Complex.normSq_nonneg u.x, Complex.normSq_nonneg u.y]
      exact Vec2.ext (Complex.normSq_eq_zero.1 hx) (Complex.normSq_eq_zero.1 hy)
    · rintro rfl
      simp [default]
  · rw [hm, Complex.normSq_eq_norm_sq, Complex.normSq_eq_norm_sq]
  · unfold cdot
    simp only [map_add, map_mul, Complex.conj_conj]
    ring

/-- C156: the scalar product of complex vectors is linear in the second vector and conjugate-linear in the first one. -/
theorem C156_sesquilinear (u v w : Vec2 ℂ) (s : ℂ) :
    cdot u ⟨s * v.x + w.x, s * v.y + w.y⟩ = s * cdot u v + cdot u w ∧
    cdot ⟨s * u.x + w.x, s * u.y + w.y⟩ v = conj s * cdot u v + cdot w v := by
  constructor <;> simp only [cdot, map_add, map_mul] <;> ring

/-- C156: vectors are equal exactly if both coordinates are, and different exactly if they are not equal. -/
theorem C156_eq {T : Type} (u v : Vec2 T) : (eq u v = true ↔ u = v) ∧ (ne u v = true ↔ u ≠ v) := by
  have h : eq u v = true ↔ u = v := by
    simp only [eq, Bool.and_eq_true, decide_eq_true_eq, Vec2.ext_iff]
  refine ⟨h, ?_⟩
  rw [ne, Bool.not_eq_true', ← Bool.not_eq_true, h]

/-! The axes are at a right angle, and opposite directions at a straight one. -/

example : angle ⟨2, 0⟩ ⟨0, 3⟩ = .value (Real.pi / 2) := by
  have h := C156_polar (r := 2) (s := 3) (φ := 0) (δ := Real.pi / 2) (by norm_num) (by norm_num)
    (by linarith [Real.pi_pos]) (by linarith [Real.pi_pos])
  simpa [polar] using h

example : (⟨2, 0⟩ : Vec2 ℝ) ≠ ⟨0, 0⟩ := by
  intro h
  have := congrArg Vec2.x h
  norm_num at this

end OpenMPCD.Plane
