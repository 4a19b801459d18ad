import Mathlib.Analysis.SpecialFunctions.Integrals.Basic
import Mathlib.Analysis.SpecialFunctions.PolarCoord
import Mathlib.MeasureTheory.Function.JacobianOneDim
import Mathlib.MeasureTheory.Measure.Haar.Unique
import Mathlib.MeasureTheory.Measure.Lebesgue.EqHaar
import Mathlib.Tactic.FieldSimp
import Mathlib.Tactic.Linarith
import Verif.Vec.Props

/-!
# Random directions (C97)

`include/OpenMPCD/Vector3D.hpp:366-425`. What is drawn is modelled by its law, a measure.

Assumed: `boost::random::uniform_01` returns independent numbers which are uniform in `[0, 1)`, `curand_uniform2_double` and
`curand_uniform` such which are uniform in `(0, 1]`.

Simplification: real numbers instead of floating-point numbers. Vectors are given by their Cartesian coordinates.
-/

set_option linter.unusedSectionVars false
set_option linter.unusedSimpArgs false

open MeasureTheory Real Set
open scoped ENNReal

namespace OpenMPCD.Random.UnitVector

/-! ## Model -/

/-- Triples of coordinates. -/
abbrev E := ℝ × ℝ × ℝ

/-- The coordinates of a vector. -/
def coords (v : Vec3 ℝ) : E := (v.x, v.y, v.z)

/-- `getRandomUnitVector` for the host (`include/OpenMPCD/Vector3D.hpp:366-377`). -/
noncomputable def hostLaw : Measure E :=
  ((volume.restrict (Ico 0 1)).prod (volume.restrict (Ico 0 1))).map
    fun X => coords (Vec3.getUnitVectorFromRandom01 X.1 X.2)

/-- `getRandomUnitVector` for the device (`include/OpenMPCD/Vector3D.hpp:380-392`). -/
noncomputable def deviceLaw : Measure E :=
  ((volume.restrict (Ioc 0 1)).prod (volume.restrict (Ioc 0 1))).map
    fun X => coords (Vec3.getUnitVectorFromRandom01 X.1 X.2)

/-! ## Specification -/

/-- The scalar product. -/
def inner (p q : E) : ℝ := p.1 * q.1 + p.2.1 * q.2.1 + p.2.2 * q.2.2

/-- The unit ball. -/
def ball : Set E := {p | inner p p < 1}

/-- The vector with unit length in the same direction. -/
noncomputable def direction (p : E) : E := (√(inner p p))⁻¹ • p

/-- A law of directions is uniform if it is that of the directions of points which are distributed evenly in a ball: the
probability of a set of directions is the fraction of the volume of the ball in which these directions point. -/
def Uniform (ν : Measure E) : Prop :=
  ∀ A, MeasurableSet A → ν A = volume {p ∈ ball | direction p ∈ A} / volume ball

/-! ## Proofs -/

/-- Polar coordinates. -/
theorem polar {f : ℝ × ℝ → ℝ≥0∞} (hf : Measurable f) :
    ∫⁻ p, f p = ∫⁻ r in Ioi 0, ∫⁻ φ in Ioo (-π) π, ENNReal.ofReal r * f (r * cos φ, r * sin φ) := by
  rw [← lintegral_comp_polarCoord_symm]
  show ∫⁻ p in Ioi (0 : ℝ) ×ˢ Ioo (-π) π, ENNReal.ofReal p.1 * f (p.1 * cos p.2, p.1 * sin p.2) = _
  have hm : Measurable fun p : ℝ × ℝ => ENNReal.ofReal p.1 * f (p.1 * cos p.2, p.1 * sin p.2) := by fun_prop
  rw [Measure.volume_eq_prod, ← Measure.prod_restrict, lintegral_prod _ hm.aemeasurable]

theorem polar_neg {f : ℝ × ℝ → ℝ≥0∞} (hf : Measurable f) :
    ∫⁻ p, f p = ∫⁻ r in Ioi 0, ∫⁻ φ in Ioo (-π) π, ENNReal.ofReal r * f (r * -cos φ, r * -sin φ) := by
  have h : ∫⁻ p, f p = ∫⁻ p : ℝ × ℝ, f (-p) := (lintegral_neg_eq_self f).symm
  rw [h, polar (by fun_prop : Measurable fun p => f (-p))]
  simp only [Prod.neg_mk, mul_neg]

/-- The integral over the circle of latitude. -/
noncomputable def circle (F : E → ℝ≥0∞) (p : ℝ × ℝ) : ℝ≥0∞ :=
  ∫⁻ φ in Ioo (-π) π, F (p.2 * -cos φ, p.2 * -sin φ, p.1)

theorem measurable_circle {F : E → ℝ≥0∞} (hF : Measurable F) : Measurable (circle F) := by
  unfold circle
  apply Measurable.lintegral_prod_right'
    (f := fun q : (ℝ × ℝ) × ℝ => F (q.1.2 * -cos q.2, q.1.2 * -sin q.2, q.1.1))
  fun_prop

theorem measurable_inner : Measurable fun p : E => inner p p := by
  unfold inner
  fun_prop

theorem measurable_direction : Measurable direction := by
  unfold direction inner
  fun_prop

theorem measurableSet_ball : MeasurableSet ball := measurable_inner measurableSet_Iio

theorem image_cos : cos '' Ioo 0 π = Ioo (-1) 1 := by
  ext z
  constructor
  · rintro ⟨θ, ⟨h1, h2⟩, rfl⟩
    have a := cos_lt_cos_of_nonneg_of_le_pi le_rfl h2.le h1
    have b := cos_lt_cos_of_nonneg_of_le_pi h1.le le_rfl h2
    rw [cos_zero] at a
    rw [cos_pi] at b
    exact ⟨b, a⟩
  · rintro ⟨h1, h2⟩
    exact ⟨arccos z, ⟨arccos_pos.2 h2, lt_of_le_of_ne (arccos_le_pi z) fun e => by
      rw [arccos_eq_pi] at e; linarith⟩, cos_arccos h1.le h2.le⟩

/-- Integrals over the whole space of functions that depend on the direction and on the distance separately. -/
theorem spherical {w : ℝ → ℝ≥0∞} (hw : Measurable w) {F : E → ℝ≥0∞} (hF : Measurable F) :
    ∫⁻ p : E, w (inner p p) * F (direction p) =
      (∫⁻ ρ in Ioi 0, ENNReal.ofReal (ρ ^ 2) * w (ρ ^ 2)) * ∫⁻ z in Ioo (-1) 1, circle F (z, √(1 - z ^ 2)) := by
  have hm : Measurable fun p : E => w (inner p p) * F (direction p) :=
    (hw.comp measurable_inner).mul (hF.comp measurable_direction)
  have hc := measurable_circle hF
  -- the third coordinate first
  have e1 : ∫⁻ p : E, w (inner p p) * F (direction p) =
      ∫⁻ z : ℝ, ∫⁻ q : ℝ × ℝ, w (inner (q.1, q.2, z) (q.1, q.2, z)) * F (direction (q.1, q.2, z)) := by
    rw [← (volume_preserving_prodAssoc (α₁ := ℝ) (β₁ := ℝ) (γ₁ := ℝ)).lintegral_comp hm, Measure.volume_eq_prod,
      lintegral_prod_symm]
    · rfl
    · exact (hm.comp MeasurableEquiv.prodAssoc.measurable).aemeasurable
  -- polar coordinates for the first two
  have e2 : ∀ z : ℝ, ∫⁻ q : ℝ × ℝ, w (inner (q.1, q.2, z) (q.1, q.2, z)) * F (direction (q.1, q.2, z)) =
      ∫⁻ r in Ioi 0, ENNReal.ofReal r * w (r ^ 2 + z ^ 2) * circle F ((√(r ^ 2 + z ^ 2))⁻¹ * z, (√(r ^ 2 + z ^ 2))⁻¹ * r) := by
    intro z
    rw [polar_neg (f := fun q => w (inner (q.1, q.2, z) (q.1, q.2, z)) * F (direction (q.1, q.2, z)))
      (hm.comp (by fun_prop : Measurable fun q : ℝ × ℝ => ((q.1, q.2, z) : E)))]
    refine setLIntegral_congr_fun measurableSet_Ioi fun r _ => ?_
    rw [circle, ← lintegral_const_mul _ (by fun_prop)]
    refine setLIntegral_congr_fun measurableSet_Ioo fun φ _ => ?_
    have hi : inner (r * -cos φ, r * -sin φ, z) (r * -cos φ, r * -sin φ, z) = r ^ 2 + z ^ 2 := by
      have := sin_sq_add_cos_sq φ
      simp only [inner]
      linear_combination r ^ 2 * this
    rw [mul_assoc, hi]
    congr 2
    simp only [direction, hi, Prod.smul_mk, smul_eq_mul]
    rw [mul_assoc, mul_assoc]
  -- polar coordinates again
  have hH : Measurable fun p : ℝ × ℝ => (Ioi (0 : ℝ)).indicator (fun _ => (1 : ℝ≥0∞)) p.2 *
      (ENNReal.ofReal p.2 * w (p.2 ^ 2 + p.1 ^ 2) *
        circle F ((√(p.2 ^ 2 + p.1 ^ 2))⁻¹ * p.1, (√(p.2 ^ 2 + p.1 ^ 2))⁻¹ * p.2)) := by
    refine Measurable.mul ((measurable_const.indicator measurableSet_Ioi).comp measurable_snd) ?_
    fun_prop
  have e3 : ∫⁻ z : ℝ, ∫⁻ r in Ioi (0 : ℝ), ENNReal.ofReal r * w (r ^ 2 + z ^ 2) *
        circle F ((√(r ^ 2 + z ^ 2))⁻¹ * z, (√(r ^ 2 + z ^ 2))⁻¹ * r) =
      ∫⁻ p : ℝ × ℝ, (Ioi (0 : ℝ)).indicator (fun _ => (1 : ℝ≥0∞)) p.2 *
      (ENNReal.ofReal p.2 * w (p.2 ^ 2 + p.1 ^ 2) *
        circle F ((√(p.2 ^ 2 + p.1 ^ 2))⁻¹ * p.1, (√(p.2 ^ 2 + p.1 ^ 2))⁻¹ * p.2)) := by
    rw [Measure.volume_eq_prod, lintegral_prod _ hH.aemeasurable]
    refine lintegral_congr fun z => ?_
    rw [← lintegral_indicator measurableSet_Ioi]
    refine lintegral_congr fun r => ?_
    by_cases h : r ∈ Ioi (0 : ℝ)
    · rw [indicator_of_mem h, indicator_of_mem h, one_mul]
    · rw [indicator_of_notMem h, indicator_of_notMem h, zero_mul]
  rw [e1]
  simp_rw [e2]
  rw [e3, polar hH]
  have e4 : ∀ ρ ∈ Ioi (0 : ℝ), ∫⁻ θ in Ioo (-π) π, ENNReal.ofReal ρ *
      ((Ioi (0 : ℝ)).indicator (fun _ => (1 : ℝ≥0∞)) (ρ * sin θ) *
      (ENNReal.ofReal (ρ * sin θ) * w ((ρ * sin θ) ^ 2 + (ρ * cos θ) ^ 2) *
        circle F ((√((ρ * sin θ) ^ 2 + (ρ * cos θ) ^ 2))⁻¹ * (ρ * cos θ),
          (√((ρ * sin θ) ^ 2 + (ρ * cos θ) ^ 2))⁻¹ * (ρ * sin θ)))) =
      ENNReal.ofReal (ρ ^ 2) * w (ρ ^ 2) * ∫⁻ z in Ioo (-1) 1, circle F (z, √(1 - z ^ 2)) := by
    intro ρ hρ
    have hρ' : (0 : ℝ) < ρ := hρ
    have hs : ∀ θ, (ρ * sin θ) ^ 2 + (ρ * cos θ) ^ 2 = ρ ^ 2 := by
      intro θ
      have := sin_sq_add_cos_sq θ
      linear_combination ρ ^ 2 * this
    simp_rw [hs, sqrt_sq hρ'.le, inv_mul_cancel_left₀ hρ'.ne']
    have hsub : ∫⁻ θ in Ioo (-π) π, ENNReal.ofReal ρ * ((Ioi (0 : ℝ)).indicator (fun _ => (1 : ℝ≥0∞)) (ρ * sin θ) *
        (ENNReal.ofReal (ρ * sin θ) * w (ρ ^ 2) * circle F (cos θ, sin θ))) =
        ∫⁻ θ in Ioo 0 π, ENNReal.ofReal (ρ ^ 2) * w (ρ ^ 2) * (ENNReal.ofReal (sin θ) * circle F (cos θ, sin θ)) := by
      have hIoo : Ioo 0 π = Ioi 0 ∩ Ioo (-π) π := by
        ext θ
        simp only [mem_Ioo, mem_inter_iff, mem_Ioi]
        have := pi_pos
        constructor
        · rintro ⟨a, b⟩
          exact ⟨a, by linarith, b⟩
        · rintro ⟨a, -, b⟩
          exact ⟨a, b⟩
      rw [hIoo, ← Measure.restrict_restrict measurableSet_Ioi, ← lintegral_indicator measurableSet_Ioi]
      refine setLIntegral_congr_fun measurableSet_Ioo fun θ hθ => ?_
      by_cases h : 0 < θ
      · have hsin : 0 < sin θ := sin_pos_of_pos_of_lt_pi h hθ.2
        rw [indicator_of_mem (show ρ * sin θ ∈ Ioi 0 from mul_pos hρ' hsin), indicator_of_mem (show θ ∈ Ioi 0 from h),
          ENNReal.ofReal_mul hρ'.le, pow_two, ENNReal.ofReal_mul hρ'.le]
        ring
      · have hsin : sin θ ≤ 0 := sin_nonpos_of_nonpos_of_neg_pi_le (not_lt.1 h) hθ.1.le
        rw [indicator_of_notMem (show ρ * sin θ ∉ Ioi 0 from not_lt.2 (mul_nonpos_of_nonneg_of_nonpos hρ'.le hsin)),
          indicator_of_notMem (show θ ∉ Ioi 0 from h), zero_mul, mul_zero]
    rw [hsub, lintegral_const_mul _ (by fun_prop)]
    congr 1
    rw [← image_cos, lintegral_image_eq_lintegral_abs_deriv_mul measurableSet_Ioo
      (fun θ _ => (hasDerivAt_cos θ).hasDerivWithinAt)
      (injOn_cos.mono Ioo_subset_Icc_self)]
    refine setLIntegral_congr_fun measurableSet_Ioo fun θ hθ => ?_
    have hsin : 0 < sin θ := sin_pos_of_pos_of_lt_pi hθ.1 hθ.2
    rw [abs_neg, abs_of_pos hsin, ← sin_sq, sqrt_sq hsin.le]
  rw [setLIntegral_congr_fun measurableSet_Ioi e4, lintegral_mul_const _ (by fun_prop)]

theorem affine {a b : ℝ} (ha : 0 < a) (g : ℝ → ℝ≥0∞) (hg : Measurable g) :
    ENNReal.ofReal a * ∫⁻ x in Ioo 0 1, g (a * x + b) = ∫⁻ y in Ioo b (a + b), g y := by
  have him : (fun x => a * x + b) '' Ioo 0 1 = Ioo b (a + b) := by
    ext y
    constructor
    · rintro ⟨x, ⟨h1, h2⟩, rfl⟩
      constructor <;> dsimp only <;> nlinarith
    · rintro ⟨h1, h2⟩
      refine ⟨(y - b) / a, ⟨div_pos (by linarith) ha, (div_lt_one ha).2 (by linarith)⟩, ?_⟩
      dsimp only
      rw [mul_div_cancel₀ _ ha.ne']
      ring
  have hd : ∀ x ∈ Ioo (0 : ℝ) 1, HasDerivWithinAt (fun x => a * x + b) a (Ioo 0 1) x := by
    intro x _
    have := (((hasDerivAt_id x).const_mul a).add_const b).hasDerivWithinAt (s := Ioo 0 1)
    simpa using this
  have hinj : InjOn (fun x => a * x + b) (Ioo 0 1) := by
    intro x _ y _ e
    have : a * x = a * y := by simpa using e
    exact mul_left_cancel₀ ha.ne' this
  rw [← him, lintegral_image_eq_lintegral_abs_deriv_mul measurableSet_Ioo hd hinj, abs_of_pos ha,
    lintegral_const_mul _ (by fun_prop)]

/-- Both laws. -/
noncomputable def law : Measure E :=
  ((volume.restrict (Ioo 0 1)).prod (volume.restrict (Ioo 0 1))).map
    fun X => coords (Vec3.getUnitVectorFromRandom01 X.1 X.2)

theorem hostLaw_eq : hostLaw = law := by
  unfold hostLaw law
  rw [restrict_Ioo_eq_restrict_Ico]

theorem deviceLaw_eq : deviceLaw = law := by
  unfold deviceLaw law
  rw [restrict_Ioo_eq_restrict_Ioc]

theorem measurable_point : Measurable fun X : ℝ × ℝ => coords (Vec3.getUnitVectorFromRandom01 X.1 X.2) := by
  simp only [coords, Vec3.getUnitVectorFromRandom01]
  fun_prop

theorem law_lintegral {F : E → ℝ≥0∞} (hF : Measurable F) :
    ENNReal.ofReal (4 * π) * ∫⁻ p, F p ∂law = ∫⁻ z in Ioo (-1) 1, circle F (z, √(1 - z ^ 2)) := by
  have hπ := pi_pos
  have hc := measurable_circle hF
  rw [law, lintegral_map hF measurable_point, lintegral_prod (fun X : ℝ × ℝ => F (coords (Vec3.getUnitVectorFromRandom01 X.1 X.2)))
      (hF.comp measurable_point).aemeasurable]
  have e : ∀ X_1 : ℝ, ENNReal.ofReal (2 * π) * ∫⁻ X_2 in Ioo 0 1, F (coords (Vec3.getUnitVectorFromRandom01 X_1 X_2)) =
      circle F (2 * X_1 + -1, √(1 - (2 * X_1 + -1) ^ 2)) := by
    intro X_1
    have := affine (b := -π) (by positivity : 0 < 2 * π)
      (fun φ => F (√(1 - (2 * X_1 + -1) ^ 2) * -cos φ, √(1 - (2 * X_1 + -1) ^ 2) * -sin φ, 2 * X_1 + -1)) (by fun_prop)
    rw [show 2 * π + -π = π by ring] at this
    rw [circle, ← this]
    congr 1
    refine lintegral_congr fun X_2 => ?_
    congr 1
    simp only [coords, Vec3.getUnitVectorFromRandom01]
    have h1 : cos (2 * π * X_2 + -π) = -cos (π * (2 * X_2)) := by
      rw [← sub_eq_add_neg, cos_sub_pi]
      ring_nf
    have h2 : sin (2 * π * X_2 + -π) = -sin (π * (2 * X_2)) := by
      rw [← sub_eq_add_neg, sin_sub_pi]
      ring_nf
    rw [h1, h2, neg_neg, neg_neg, ← sub_eq_add_neg, mul_comm (cos _), mul_comm (sin _), pow_two]
  have hz := affine (b := -1) (by norm_num : (0 : ℝ) < 2) (fun z => circle F (z, √(1 - z ^ 2))) (by fun_prop)
  rw [show (2 : ℝ) + -1 = 1 by norm_num] at hz
  rw [← hz, show 4 * π = 2 * (2 * π) by ring, ENNReal.ofReal_mul (by norm_num), mul_assoc,
    ← lintegral_const_mul _ ?_]
  · simp_rw [e]
  · exact (hF.comp measurable_point).lintegral_prod_right'

theorem point_sphere (X : ℝ × ℝ) (h : X ∈ Ioo (0 : ℝ) 1 ×ˢ Ioo (0 : ℝ) 1) :
    inner (coords (Vec3.getUnitVectorFromRandom01 X.1 X.2)) (coords (Vec3.getUnitVectorFromRandom01 X.1 X.2)) = 1 := by
  simp only [inner, coords, Vec3.getUnitVectorFromRandom01]
  have h1 := sin_sq_add_cos_sq (π * (2 * X.2))
  have h2 : √(1 - (2 * X.1 - 1) * (2 * X.1 - 1)) * √(1 - (2 * X.1 - 1) * (2 * X.1 - 1)) =
      1 - (2 * X.1 - 1) * (2 * X.1 - 1) := by
    apply mul_self_sqrt
    have := h.1.1
    have := h.1.2
    nlinarith
  linear_combination (√(1 - (2 * X.1 - 1) * (2 * X.1 - 1)) * √(1 - (2 * X.1 - 1) * (2 * X.1 - 1))) * h1 + h2

instance : IsProbabilityMeasure (volume.restrict (Ioo (0 : ℝ) 1)) := ⟨by simp⟩

instance : IsProbabilityMeasure law :=
  Measure.isProbabilityMeasure_map measurable_point.aemeasurable

theorem volume_ball : volume ball ≠ 0 ∧ volume ball ≠ ∞ := by
  constructor
  · have hopen : IsOpen ball := by
      have : Continuous fun p : E => inner p p := by unfold inner; fun_prop
      exact this.isOpen_preimage _ isOpen_Iio
    refine (hopen.measure_pos volume ⟨0, ?_⟩).ne'
    show inner 0 0 < 1
    simp [inner]
  · have hsub : ball ⊆ Metric.closedBall (0 : E) 1 := by
      rintro ⟨x, y, z⟩ hp
      have hp' : x * x + y * y + z * z < 1 := hp
      rw [mem_closedBall_zero_iff]
      simp only [Prod.norm_def, Real.norm_eq_abs, sup_le_iff]
      refine ⟨abs_le.2 ⟨?_, ?_⟩, abs_le.2 ⟨?_, ?_⟩, abs_le.2 ⟨?_, ?_⟩⟩ <;> nlinarith [mul_self_nonneg x, mul_self_nonneg y, mul_self_nonneg z]
    exact ((measure_mono hsub).trans_lt (isCompact_closedBall _ _).measure_lt_top).ne

/-- Averages over the ball of what depends on the direction only. -/
theorem ball_average {F : E → ℝ≥0∞} (hF : Measurable F) :
    ∫⁻ p in ball, F (direction p) = volume ball * ∫⁻ p, F p ∂law := by
  have hw : Measurable ((Iio (1 : ℝ)).indicator (fun _ => (1 : ℝ≥0∞))) := measurable_const.indicator measurableSet_Iio
  have key : ∀ {G : E → ℝ≥0∞}, Measurable G → ∫⁻ p in ball, G (direction p) =
      (∫⁻ ρ in Ioi 0, ENNReal.ofReal (ρ ^ 2) * (Iio (1 : ℝ)).indicator (fun _ => (1 : ℝ≥0∞)) (ρ ^ 2)) *
        (ENNReal.ofReal (4 * π) * ∫⁻ p, G p ∂law) := by
    intro G hG
    rw [law_lintegral hG, ← spherical hw hG, ← lintegral_indicator measurableSet_ball]
    refine lintegral_congr fun p => ?_
    by_cases h : p ∈ ball
    · rw [indicator_of_mem h, indicator_of_mem (show inner p p ∈ Iio 1 from h), one_mul]
    · rw [indicator_of_notMem h, indicator_of_notMem (show inner p p ∉ Iio 1 from h), zero_mul]
  have h1 := key (G := fun _ => 1) measurable_const
  simp only [lintegral_const, MeasurableSet.univ, Measure.restrict_apply, univ_inter, one_mul, measure_univ, mul_one] at h1
  rw [key hF, h1, mul_assoc]

/-- C97: the directions drawn are uniformly distributed, both on the host and on the device. -/
theorem C97_uniform : Uniform hostLaw ∧ Uniform deviceLaw := by
  rw [hostLaw_eq, deviceLaw_eq]
  suffices Uniform law from ⟨this, this⟩
  intro A hA
  have h := ball_average (measurable_one.indicator hA)
  rw [lintegral_indicator_one hA] at h
  have e : volume {p ∈ ball | direction p ∈ A} = ∫⁻ p in ball, A.indicator 1 (direction p) := by
    have hs : MeasurableSet {p | direction p ∈ A} := measurable_direction hA
    have : ∀ p, A.indicator (1 : E → ℝ≥0∞) (direction p) = {p | direction p ∈ A}.indicator 1 p := fun p => rfl
    simp_rw [this]
    rw [lintegral_indicator_one hs, Measure.restrict_apply hs, inter_comm]
    rfl
  rw [e, h, mul_comm, ENNReal.mul_div_cancel_right volume_ball.1 volume_ball.2]

/-- C97: what is drawn has unit length. -/
theorem C97_sphere : hostLaw {p | inner p p = 1} = 1 ∧ deviceLaw {p | inner p p = 1} = 1 := by
  rw [hostLaw_eq, deviceLaw_eq]
  suffices law {p | inner p p = 1} = 1 from ⟨this, this⟩
  have hs : MeasurableSet {p : E | inner p p = 1} := measurable_inner (measurableSet_singleton 1)
  have hp : ∀ᵐ X ∂((volume.restrict (Ioo (0 : ℝ) 1)).prod (volume.restrict (Ioo (0 : ℝ) 1))),
      coords (Vec3.getUnitVectorFromRandom01 X.1 X.2) ∈ {p : E | inner p p = 1} := by
    rw [Measure.prod_restrict]
    filter_upwards [ae_restrict_mem (measurableSet_Ioo.prod measurableSet_Ioo)] with X hX
    exact point_sphere X hX
  rw [law, Measure.map_apply measurable_point hs]
  exact (mem_ae_iff_prob_eq_one (measurable_point hs)).1 hp

/-- Linear maps that preserve lengths preserve volumes. -/
theorem measurePreserving_of_length (Q : E →ₗ[ℝ] E) (hQ : ∀ p, inner (Q p) (Q p) = inner p p) :
    MeasurePreserving Q volume volume := by
  have hinj : Function.Injective Q := by
    rw [injective_iff_map_eq_zero]
    rintro ⟨x, y, z⟩ h
    have := hQ (x, y, z)
    rw [h] at this
    simp only [inner, Prod.fst_zero, Prod.snd_zero, mul_zero, add_zero] at this
    have hx : x = 0 := by nlinarith [mul_self_nonneg x, mul_self_nonneg y, mul_self_nonneg z]
    have hy : y = 0 := by nlinarith [mul_self_nonneg x, mul_self_nonneg y, mul_self_nonneg z]
    have hz : z = 0 := by nlinarith [mul_self_nonneg x, mul_self_nonneg y, mul_self_nonneg z]
    rw [hx, hy, hz]
    rfl
  have hdet : LinearMap.det Q ≠ 0 := by
    have := (LinearEquiv.ofInjectiveEndo Q hinj).isUnit_det'
    exact this.ne_zero
  have : (volume : Measure (ℝ × ℝ)).IsAddHaarMeasure :=
    inferInstanceAs ((volume : Measure ℝ).prod volume).IsAddHaarMeasure
  have : (volume : Measure E).IsAddHaarMeasure :=
    inferInstanceAs ((volume : Measure ℝ).prod (volume : Measure (ℝ × ℝ))).IsAddHaarMeasure
  have hmap := Measure.map_linearMap_addHaar_eq_smul_addHaar (μ := (volume : Measure E)) hdet
  have hmeas : Measurable Q := Q.continuous_of_finiteDimensional.measurable
  have hball : volume (Q ⁻¹' ball) = ENNReal.ofReal |(LinearMap.det Q)⁻¹| * volume ball := by
    rw [← Measure.map_apply hmeas measurableSet_ball, hmap]
    rfl
  have hpre : Q ⁻¹' ball = ball := by
    ext p
    show inner (Q p) (Q p) < 1 ↔ inner p p < 1
    rw [hQ]
  rw [hpre] at hball
  have hone : ENNReal.ofReal |(LinearMap.det Q)⁻¹| = 1 := by
    have h := hball
    nth_rewrite 1 [← one_mul (volume ball)] at h
    exact ((ENNReal.mul_left_inj volume_ball.1 volume_ball.2).1 h).symm
  exact ⟨hmeas, by rw [hmap, hone, one_smul]⟩

/-- C97: all directions are equally likely: rotations and reflections do not change the distribution. -/
theorem C97_rotation (Q : E →ₗ[ℝ] E) (hQ : ∀ p, inner (Q p) (Q p) = inner p p) :
    hostLaw.map Q = hostLaw ∧ deviceLaw.map Q = deviceLaw := by
  rw [hostLaw_eq, deviceLaw_eq]
  suffices law.map Q = law from ⟨this, this⟩
  have hmp := measurePreserving_of_length Q hQ
  ext A hA
  rw [Measure.map_apply hmp.measurable hA, ← hostLaw_eq, C97_uniform.1 _ (hmp.measurable hA), C97_uniform.1 _ hA]
  congr 1
  have hs : MeasurableSet {p ∈ ball | direction p ∈ A} := measurableSet_ball.inter (measurable_direction hA)
  rw [← hmp.measure_preimage hs.nullMeasurableSet]
  congr 1
  ext p
  have hd : direction (Q p) = Q (direction p) := by
    unfold direction
    rw [hQ, map_smul]
  show inner p p < 1 ∧ Q (direction p) ∈ A ↔ inner (Q p) (Q p) < 1 ∧ direction (Q p) ∈ A
  rw [hQ, hd]

/-- The reflection that exchanges two unit vectors whose difference is `u`. -/
noncomputable def reflection (u : E) : E →ₗ[ℝ] E where
  toFun p := p - (2 * inner p u / inner u u) • u
  map_add' p q := by
    ext <;> simp [inner] <;> ring
  map_smul' c p := by
    ext <;> simp [inner] <;> ring

theorem reflection_length {u : E} (hu : inner u u ≠ 0) (p : E) : inner (reflection u p) (reflection u p) = inner p p := by
  have e : inner (reflection u p) (reflection u p) = inner p p - 2 * (2 * inner p u / inner u u) * inner p u +
      (2 * inner p u / inner u u) ^ 2 * inner u u := by
    show inner (p - (2 * inner p u / inner u u) • u) (p - (2 * inner p u / inner u u) • u) = _
    generalize 2 * inner p u / inner u u = t
    simp only [inner, Prod.fst_sub, Prod.snd_sub, Prod.smul_fst, Prod.smul_snd, smul_eq_mul]
    ring
  rw [e]
  field_simp
  ring

theorem law_third : law.map (fun p => p.2.2) = ENNReal.ofReal (1 / 2) • volume.restrict (Ioo (-1) 1) := by
  have hm3 : Measurable fun p : E => p.2.2 := by fun_prop
  ext B hB
  have hz := affine (b := -1) (by norm_num : (0 : ℝ) < 2) (B.indicator 1) (measurable_one.indicator hB)
  rw [show (2 : ℝ) + -1 = 1 by norm_num, lintegral_indicator_one hB] at hz
  rw [Measure.map_apply hm3 hB, law, Measure.map_apply measurable_point (hm3 hB), Measure.smul_apply, ← hz, smul_eq_mul,
    ← mul_assoc, ← ENNReal.ofReal_mul (by norm_num), show (1 / 2 : ℝ) * 2 = 1 by norm_num, ENNReal.ofReal_one, one_mul]
  have hset : (fun X : ℝ × ℝ => coords (Vec3.getUnitVectorFromRandom01 X.1 X.2)) ⁻¹' ((fun p : E => p.2.2) ⁻¹' B) =
      {x : ℝ | 2 * x + -1 ∈ B} ×ˢ univ := by
    ext X
    simp only [mem_preimage, coords, Vec3.getUnitVectorFromRandom01, mem_prod, mem_univ, and_true, mem_ofPred_eq,
      sub_eq_add_neg]
  have hs : MeasurableSet {x : ℝ | 2 * x + -1 ∈ B} := (by fun_prop : Measurable fun x : ℝ => 2 * x + -1) hB
  rw [hset, Measure.prod_prod, measure_univ, mul_one, ← lintegral_indicator_one hs]
  rfl

/-- C97: the component of the vector drawn along any direction is uniform between -1 and 1. -/
theorem C97_component (e : E) (he : inner e e = 1) :
    hostLaw.map (fun p => inner p e) = ENNReal.ofReal (1 / 2) • volume.restrict (Ioo (-1) 1) ∧
    deviceLaw.map (fun p => inner p e) = ENNReal.ofReal (1 / 2) • volume.restrict (Ioo (-1) 1) := by
  rw [hostLaw_eq, deviceLaw_eq]
  suffices law.map (fun p => inner p e) = ENNReal.ofReal (1 / 2) • volume.restrict (Ioo (-1) 1) from ⟨this, this⟩
  rw [← law_third]
  by_cases h : e = (0, 0, 1)
  · congr 1
    funext p
    simp [h, inner]
  · have hu : inner (e - (0, 0, 1)) (e - (0, 0, 1)) ≠ 0 := by
      intro h0
      obtain ⟨x, y, z⟩ := e
      simp only [inner, Prod.mk_sub_mk, sub_zero] at h0
      have hx : x = 0 := by nlinarith [mul_self_nonneg x, mul_self_nonneg y, mul_self_nonneg (z - 1)]
      have hy : y = 0 := by nlinarith [mul_self_nonneg x, mul_self_nonneg y, mul_self_nonneg (z - 1)]
      have hz : z - 1 = 0 := by nlinarith [mul_self_nonneg x, mul_self_nonneg y, mul_self_nonneg (z - 1)]
      exact h (by rw [hx, hy, show z = 1 by linarith])
    have hrot := (C97_rotation (reflection (e - (0, 0, 1))) (reflection_length hu)).1
    rw [hostLaw_eq] at hrot
    have hm3 : Measurable fun p : E => p.2.2 := by fun_prop
    have hmQ : Measurable (reflection (e - (0, 0, 1))) :=
      (reflection _).continuous_of_finiteDimensional.measurable
    conv_rhs => rw [← hrot, Measure.map_map hm3 hmQ]
    congr 1
    funext p
    obtain ⟨x, y, z⟩ := e
    obtain ⟨a, b, c⟩ := p
    simp only [inner, Prod.mk_sub_mk, sub_zero] at hu he
    show inner (a, b, c) (x, y, z) = ((a, b, c) - (2 * inner (a, b, c) ((x, y, z) - (0, 0, 1)) /
      inner ((x, y, z) - (0, 0, 1)) ((x, y, z) - (0, 0, 1))) • ((x, y, z) - (0, 0, 1)) : E).2.2
    simp only [inner, Prod.mk_sub_mk, sub_zero, Prod.smul_mk, smul_eq_mul]
    have hz : x * x + y * y + (z - 1) * (z - 1) = 2 * (1 - z) := by linear_combination he
    rw [hz] at hu ⊢
    have hz' : 1 - z ≠ 0 := fun h => hu (by rw [h, mul_zero])
    field_simp
    ring

/-- C97: the vector that is drawn is zero on average, and its component along any direction has the mean square `1 / 3`. -/
theorem C97_moments (e : E) (he : inner e e = 1) :
    (∫ p, inner p e ∂hostLaw = 0 ∧ ∫ p, inner p e ∂deviceLaw = 0) ∧
    (∫ p, inner p e ^ 2 ∂hostLaw = 1 / 3 ∧ ∫ p, inner p e ^ 2 ∂deviceLaw = 1 / 3) := by
  have hmi : Measurable fun p : E => inner p e := by unfold inner; fun_prop
  have key : ∀ f : ℝ → ℝ, Continuous f → ∫ p, f (inner p e) ∂law = 1 / 2 * ∫ x in (-1 : ℝ)..1, f x := by
    intro f hf
    have hc := (C97_component e he).1
    rw [hostLaw_eq] at hc
    rw [← integral_map (f := f) hmi.aemeasurable hf.aestronglyMeasurable, hc, integral_smul_measure,
      intervalIntegral.integral_of_le (by norm_num), integral_Ioc_eq_integral_Ioo, ENNReal.toReal_ofReal (by norm_num),
      smul_eq_mul]
  have h1 : ∫ p, inner p e ∂law = 0 := by
    rw [key (fun x => x) continuous_id, integral_id]
    norm_num
  have h2 : ∫ p, inner p e ^ 2 ∂law = 1 / 3 := by
    rw [key (fun x => x ^ 2) (by fun_prop), integral_pow]
    norm_num
  rw [hostLaw_eq, deviceLaw_eq]
  exact ⟨⟨h1, h1⟩, h2, h2⟩

theorem measurable_inner_right (e : E) : Measurable fun p : E => inner p e := by
  unfold inner
  fun_prop

theorem inner_smul_right (t : ℝ) (p e : E) : inner p (t • e) = t * inner p e := by
  simp only [inner, Prod.smul_fst, Prod.smul_snd, smul_eq_mul]
  ring

theorem scale_unit (e : E) : ∃ (t : ℝ) (e' : E), inner e' e' = 1 ∧ e = t • e' ∧ t ^ 2 = inner e e := by
  by_cases h : inner e e = 0
  · obtain ⟨x, y, z⟩ := e
    have h' := h
    simp only [inner] at h'
    have hx : x = 0 := by nlinarith [mul_self_nonneg x, mul_self_nonneg y, mul_self_nonneg z]
    have hy : y = 0 := by nlinarith [mul_self_nonneg x, mul_self_nonneg y, mul_self_nonneg z]
    have hz : z = 0 := by nlinarith [mul_self_nonneg x, mul_self_nonneg y, mul_self_nonneg z]
    refine ⟨0, (0, 0, 1), by simp [inner], by rw [hx, hy, hz, zero_smul]; rfl, by rw [h]; norm_num⟩
  · have h0 : 0 ≤ inner e e := by
      simp only [inner]
      nlinarith [mul_self_nonneg e.1, mul_self_nonneg e.2.1, mul_self_nonneg e.2.2]
    have hs : √(inner e e) ≠ 0 := by
      rw [Ne, sqrt_eq_zero h0]
      exact h
    refine ⟨√(inner e e), (√(inner e e))⁻¹ • e, ?_, ?_, sq_sqrt h0⟩
    · have : inner ((√(inner e e))⁻¹ • e) ((√(inner e e))⁻¹ • e) = (√(inner e e))⁻¹ ^ 2 * inner e e := by
        generalize (√(inner e e))⁻¹ = t
        simp only [inner, Prod.smul_fst, Prod.smul_snd, smul_eq_mul]
        ring
      rw [this, inv_pow, sq_sqrt h0, inv_mul_cancel₀ h]
    · rw [smul_smul, mul_inv_cancel₀ hs, one_smul]

theorem integrable_inner (e : E) : Integrable (fun p => inner p e) law ∧ Integrable (fun p => inner p e ^ 2) law := by
  obtain ⟨t, e', he, rfl, -⟩ := scale_unit e
  have hc := (C97_component e' he).1
  rw [hostLaw_eq] at hc
  have hmem : ∀ᵐ p ∂law, inner p e' ∈ Ioo (-1 : ℝ) 1 := by
    refine ae_of_ae_map (measurable_inner_right e').aemeasurable ?_
    rw [hc]
    exact Measure.smul_absolutelyContinuous.ae_le (ae_restrict_mem measurableSet_Ioo)
  constructor
  · refine Integrable.of_bound (C := |t|) (measurable_inner_right _).aestronglyMeasurable ?_
    filter_upwards [hmem] with p hp
    rw [inner_smul_right, norm_mul, Real.norm_eq_abs, Real.norm_eq_abs]
    exact mul_le_of_le_one_right (abs_nonneg t) (abs_le.2 ⟨hp.1.le, hp.2.le⟩)
  · refine Integrable.of_bound (C := t ^ 2) ((measurable_inner_right _).pow_const 2).aestronglyMeasurable ?_
    filter_upwards [hmem] with p hp
    rw [inner_smul_right, Real.norm_eq_abs, abs_of_nonneg (sq_nonneg _), mul_pow]
    have : inner p e' ^ 2 ≤ 1 := by nlinarith [hp.1, hp.2]
    exact mul_le_of_le_one_right (sq_nonneg t) this

theorem first_moment (e : E) : ∫ p, inner p e ∂law = 0 := by
  obtain ⟨t, e', he, rfl, -⟩ := scale_unit e
  have := (C97_moments e' he).1.1
  rw [hostLaw_eq] at this
  simp_rw [inner_smul_right]
  rw [integral_const_mul, this, mul_zero]

theorem second_moment (e : E) : ∫ p, inner p e ^ 2 ∂law = inner e e / 3 := by
  obtain ⟨t, e', he, h, ht⟩ := scale_unit e
  have := (C97_moments e' he).2.1
  rw [hostLaw_eq] at this
  rw [← ht, h]
  simp_rw [inner_smul_right, mul_pow]
  rw [integral_const_mul, this]
  ring

theorem polarization (a b p : E) : inner p a * inner p b = (inner p (a + b) ^ 2 - inner p a ^ 2 - inner p b ^ 2) / 2 := by
  simp only [inner, Prod.fst_add, Prod.snd_add]
  ring

theorem integrable_mixed (a b : E) : Integrable (fun p => inner p a * inner p b) law := by
  simp_rw [polarization]
  exact (((integrable_inner _).2.sub (integrable_inner _).2).sub (integrable_inner _).2).div_const 2

theorem mixed_moment (a b : E) : ∫ p, inner p a * inner p b ∂law = inner a b / 3 := by
  simp_rw [polarization]
  have h : Integrable (fun p => inner p (a + b) ^ 2 - inner p a ^ 2) law := (integrable_inner _).2.sub (integrable_inner _).2
  rw [integral_div, integral_sub h (integrable_inner _).2,
    integral_sub (integrable_inner _).2 (integrable_inner _).2, second_moment, second_moment, second_moment]
  simp only [inner, Prod.fst_add, Prod.snd_add]
  ring

/-- The vector with given coordinates. -/
def toVec (p : E) : Vec3 ℝ := ⟨p.1, p.2.1, p.2.2⟩

theorem combination (k m s : ℝ) (a b d : E) :
    ∫ p, (k * (inner p a * inner p b) + m + s * inner p d) ∂law = k * (inner a b / 3) + m := by
  have h1 := (integrable_mixed a b).const_mul k
  have h2 := (integrable_inner d).1.const_mul s
  have h3 : Integrable (fun p => k * (inner p a * inner p b) + m) law := h1.add (integrable_const m)
  rw [integral_add h3 h2, integral_add h1 (integrable_const m), integral_const_mul,
    integral_const_mul, mixed_moment, first_moment]
  simp

/-- C97: what a collision does on average: rotating a relative velocity by the angle `α` around a random axis multiplies it
by `(1 + 2 cos α) / 3` on average. -/
theorem C97_collision (v : Vec3 ℝ) (α : ℝ) :
    ∫ p, (v.cppRotate (toVec p) α).x ∂deviceLaw = (1 + 2 * cos α) / 3 * v.x ∧
    ∫ p, (v.cppRotate (toVec p) α).y ∂deviceLaw = (1 + 2 * cos α) / 3 * v.y ∧
    ∫ p, (v.cppRotate (toVec p) α).z ∂deviceLaw = (1 + 2 * cos α) / 3 * v.z := by
  rw [deviceLaw_eq]
  have hx : ∀ p : E, (v.cppRotate (toVec p) α).x =
      (1 - cos α) * (inner p (coords v) * inner p (1, 0, 0)) + cos α * v.x + sin α * inner p (0, v.z, -v.y) := by
    intro p
    simp only [Vec3.cppRotate, Vec3.rotateCS, Vec3.add_x, Vec3.smul_x, Vec3.sub_x, Vec3.dot, Vec3.cross, toVec, coords, inner]
    ring
  have hy : ∀ p : E, (v.cppRotate (toVec p) α).y =
      (1 - cos α) * (inner p (coords v) * inner p (0, 1, 0)) + cos α * v.y + sin α * inner p (-v.z, 0, v.x) := by
    intro p
    simp only [Vec3.cppRotate, Vec3.rotateCS, Vec3.add_y, Vec3.smul_y, Vec3.sub_y, Vec3.dot, Vec3.cross, toVec, coords, inner]
    ring
  have hz : ∀ p : E, (v.cppRotate (toVec p) α).z =
      (1 - cos α) * (inner p (coords v) * inner p (0, 0, 1)) + cos α * v.z + sin α * inner p (v.y, -v.x, 0) := by
    intro p
    simp only [Vec3.cppRotate, Vec3.rotateCS, Vec3.add_z, Vec3.smul_z, Vec3.sub_z, Vec3.dot, Vec3.cross, toVec, coords, inner]
    ring
  simp_rw [hx, hy, hz, combination]
  refine ⟨?_, ?_, ?_⟩ <;> simp only [inner, coords] <;> ring

/-- A map that preserves lengths and is not trivial. -/
example : ∃ Q : E →ₗ[ℝ] E, (∀ p, inner (Q p) (Q p) = inner p p) ∧ Q (1, 0, 0) = (0, 1, 0) := by
  refine ⟨reflection ((1, 0, 0) - (0, 1, 0)), reflection_length (by norm_num [inner]), ?_⟩
  show ((1, 0, 0) - (2 * inner (1, 0, 0) ((1, 0, 0) - (0, 1, 0)) /
      inner ((1, 0, 0) - (0, 1, 0)) ((1, 0, 0) - (0, 1, 0))) • ((1, 0, 0) - (0, 1, 0)) : E) = _
  norm_num [inner]

example : inner (3 / 5, 0, 4 / 5) (3 / 5, 0, 4 / 5) = 1 := by norm_num [inner]

end OpenMPCD.Random.UnitVector
