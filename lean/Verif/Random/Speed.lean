import Verif.Random.Gamma
import Verif.Random.UnitVector
import Mathlib.Analysis.SpecialFunctions.Gaussian.GaussianIntegral

/-!
# Random numbers with a Maxwell-Boltzmann distribution (C112)

`src/OpenMPCD/MaxwellBoltzmannDistribution.cpp`. As in `Verif/Random/Gamma.lean`, the function is modelled by the law of what
it returns. Assumed of `boost::random::uniform_01`: it returns independent numbers which are uniform in `[0, 1)`.

Simplification: real numbers instead of floating-point numbers, except where stated.
-/

set_option linter.unusedSectionVars false
set_option linter.unusedSimpArgs false

open MeasureTheory ProbabilityTheory Real Set
open scoped ENNReal

namespace OpenMPCD.Random.Speed

open OpenMPCD.Random.Gamma OpenMPCD.Random.UnitVector

/-! ## Model -/

/-- `dist(rng)` (`src/OpenMPCD/MaxwellBoltzmannDistribution.cpp:14`), by assumption. -/
noncomputable def uniform01 : Measure ℝ := volume.restrict (Ico 0 1)

/-- The condition for leaving the loop (`src/OpenMPCD/MaxwellBoltzmannDistribution.cpp:27-31`), for the pair of `xi_2` and
`xi_3`. -/
def leave : Set (ℝ × ℝ) := {p | p.1 * p.1 + p.2 * p.2 < 1 ∧ p.1 * p.1 + p.2 * p.2 ≠ 0}

/-- The law of `w_1/w` after the loop (`src/OpenMPCD/MaxwellBoltzmannDistribution.cpp:22-33`). -/
noncomputable def ratio : Measure ℝ :=
  loop (uniform01.prod uniform01) leave fun p => p.1 * p.1 / (p.1 * p.1 + p.2 * p.2)

/-- What is returned (`src/OpenMPCD/MaxwellBoltzmannDistribution.cpp:17,35-37`), for `xi_1`, `w_1/w`, and the last draw. -/
noncomputable def value (m kT : ℝ) (q : ℝ × ℝ × ℝ) : ℝ := √(2 * (-log q.1 - q.2.1 * log q.2.2) * kT / m)

/-- `getRandomMaxwell` (`src/OpenMPCD/MaxwellBoltzmannDistribution.cpp:6-38`). -/
noncomputable def getRandomMaxwell (m kT : ℝ) : Measure ℝ :=
  (uniform01.prod (ratio.prod uniform01)).map (value m kT)

open Classical in
/-- `log` for floating-point numbers: that of zero is `-∞`. -/
noncomputable def floatLog (x : ℝ) : EReal := if x = 0 then ⊥ else (log x : EReal)

/-- `r` in the end (`src/OpenMPCD/MaxwellBoltzmannDistribution.cpp:17,35`), with infinity, as floating-point numbers have
it. -/
noncomputable def floatR (q : ℝ × ℝ × ℝ) : EReal := -floatLog q.1 - (q.2.1 : EReal) * floatLog q.2.2

/-! ## Specification -/

/-- The Maxwell-Boltzmann distribution, as documented (`include/OpenMPCD/MaxwellBoltzmannDistribution.hpp:22-31`). -/
noncomputable def maxwellBoltzmann (m kT : ℝ) : Measure ℝ :=
  (volume.restrict (Ioi 0)).withDensity fun v =>
    ENNReal.ofReal ((m / (2 * π * kT)) ^ (3 / 2 : ℝ) * (4 * π * v ^ 2) * exp (-(m * v ^ 2 / (2 * kT))))

/-! ## Proofs -/

theorem uniform01_eq : uniform01 = volume.restrict (Ioo 0 1) := by
  rw [uniform01, restrict_Ioo_eq_restrict_Ico]

instance : IsProbabilityMeasure uniform01 := by
  constructor
  rw [uniform01, Measure.restrict_apply_univ, Real.volume_Ico]
  norm_num

/-- Polar coordinates in a quadrant. -/
theorem quadrant {f : ℝ × ℝ → ℝ≥0∞} (hf : Measurable f) :
    ∫⁻ p in Ioi (0 : ℝ) ×ˢ Ioi (0 : ℝ), f p =
      ∫⁻ r in Ioi 0, ∫⁻ φ in Ioo 0 (π / 2), ENNReal.ofReal r * f (r * cos φ, r * sin φ) := by
  have hQ : MeasurableSet (Ioi (0 : ℝ) ×ˢ Ioi (0 : ℝ)) := measurableSet_Ioi.prod measurableSet_Ioi
  rw [← lintegral_indicator hQ, polar (hf.indicator hQ)]
  refine setLIntegral_congr_fun measurableSet_Ioi fun r hr => ?_
  have hr' : 0 < r := hr
  rw [← lintegral_indicator measurableSet_Ioo, ← lintegral_indicator measurableSet_Ioo]
  refine lintegral_congr fun φ => ?_
  have hpi := pi_pos
  by_cases h1 : φ ∈ Ioo 0 (π / 2)
  · have h2 : φ ∈ Ioo (-π) π := ⟨by linarith [h1.1], by linarith [h1.2]⟩
    have hc : 0 < cos φ := cos_pos_of_mem_Ioo ⟨by linarith [h1.1], h1.2⟩
    have hs : 0 < sin φ := sin_pos_of_pos_of_lt_pi h1.1 (by linarith [h1.2])
    rw [indicator_of_mem h1, indicator_of_mem h2,
      indicator_of_mem (show (r * cos φ, r * sin φ) ∈ Ioi (0 : ℝ) ×ˢ Ioi (0 : ℝ) from ⟨mul_pos hr' hc, mul_pos hr' hs⟩)]
  · rw [indicator_of_notMem h1]
    by_cases h2 : φ ∈ Ioo (-π) π
    · rw [indicator_of_mem h2, indicator_of_notMem, mul_zero]
      rintro ⟨a, b⟩
      have hc : 0 < cos φ := pos_of_mul_pos_right a hr'.le
      have hs : 0 < sin φ := pos_of_mul_pos_right b hr'.le
      apply h1
      have hφ : 0 < φ := by
        by_contra hn
        exact absurd hs (not_lt.2 (sin_nonpos_of_nonpos_of_neg_pi_le (not_lt.1 hn) h2.1.le))
      refine ⟨hφ, ?_⟩
      by_contra hn
      exact absurd hc (not_lt.2 (cos_nonpos_of_pi_div_two_le_of_le (not_lt.1 hn) (by linarith [h2.2])))
    · rw [indicator_of_notMem h2]

theorem measurable_leave : MeasurableSet leave := by
  have h : Measurable fun p : ℝ × ℝ => p.1 * p.1 + p.2 * p.2 := by fun_prop
  exact (h measurableSet_Iio).inter (h (measurableSet_singleton 0).compl)

theorem measurable_quotient : Measurable fun p : ℝ × ℝ => p.1 * p.1 / (p.1 * p.1 + p.2 * p.2) := by fun_prop

theorem half_disc : ∫⁻ r in Ioi (0 : ℝ), ENNReal.ofReal r * (Iio (1 : ℝ)).indicator 1 r = ENNReal.ofReal (1 / 2) := by
  have h1 : ∀ r : ℝ, ENNReal.ofReal r * (Iio (1 : ℝ)).indicator 1 r = (Iio (1 : ℝ)).indicator (fun r => ENNReal.ofReal r) r := by
    intro r
    by_cases h : r ∈ Iio (1 : ℝ)
    · rw [indicator_of_mem h, indicator_of_mem h, Pi.one_apply, mul_one]
    · rw [indicator_of_notMem h, indicator_of_notMem h, mul_zero]
  simp_rw [h1]
  rw [lintegral_indicator measurableSet_Iio, Measure.restrict_restrict measurableSet_Iio, Iio_inter_Ioi,
    restrict_Ioo_eq_restrict_Ioc]
  rw [← ofReal_integral_eq_lintegral_ofReal]
  · rw [← intervalIntegral.integral_of_le zero_le_one, integral_id]
    norm_num
  · exact (continuous_id.integrableOn_Icc).mono_set Ioc_subset_Icc_self
  · exact (ae_restrict_mem measurableSet_Ioc).mono fun x hx => hx.1.le

theorem trial {A : Set ℝ} (hA : MeasurableSet A) :
    (uniform01.prod uniform01) (leave ∩ (fun p : ℝ × ℝ => p.1 * p.1 / (p.1 * p.1 + p.2 * p.2)) ⁻¹' A) =
      ENNReal.ofReal (1 / 2) * volume (Ioo 0 (π / 2) ∩ (fun φ => cos φ ^ 2) ⁻¹' A) := by
  set g : ℝ × ℝ → ℝ := fun p => p.1 * p.1 / (p.1 * p.1 + p.2 * p.2) with hg
  have hL := measurable_leave.inter (measurable_quotient hA)
  have hQ : MeasurableSet (Ioi (0 : ℝ) ×ˢ Ioi (0 : ℝ)) := measurableSet_Ioi.prod measurableSet_Ioi
  have h1 : (uniform01.prod uniform01) (leave ∩ g ⁻¹' A) =
      ∫⁻ p in Ioi (0 : ℝ) ×ˢ Ioi (0 : ℝ), (leave ∩ g ⁻¹' A).indicator 1 p := by
    rw [lintegral_indicator_one hL, Measure.restrict_apply hL, uniform01_eq, Measure.prod_restrict, ← Measure.volume_eq_prod,
      Measure.restrict_apply hL]
    congr 1
    ext p
    constructor
    · rintro ⟨a, b⟩
      exact ⟨a, b.1.1, b.2.1⟩
    · rintro ⟨a, b1, b2⟩
      have h3 := a.1.1
      have b1' : 0 < p.1 := b1
      have b2' : 0 < p.2 := b2
      refine ⟨a, ⟨b1, ?_⟩, b2, ?_⟩
      · nlinarith
      · nlinarith
  rw [h1, quadrant ((measurable_one).indicator hL)]
  have h2 : ∀ r ∈ Ioi (0 : ℝ), ∫⁻ φ in Ioo 0 (π / 2), ENNReal.ofReal r * (leave ∩ g ⁻¹' A).indicator 1 (r * cos φ, r * sin φ) =
      ENNReal.ofReal r * (Iio (1 : ℝ)).indicator 1 r * volume (Ioo 0 (π / 2) ∩ (fun φ => cos φ ^ 2) ⁻¹' A) := by
    intro r hr
    have hr' : 0 < r := hr
    have hB : MeasurableSet ((fun φ : ℝ => cos φ ^ 2) ⁻¹' A) := (by fun_prop : Measurable fun φ : ℝ => cos φ ^ 2) hA
    have h3 : ∀ φ : ℝ, (leave ∩ g ⁻¹' A).indicator (1 : ℝ × ℝ → ℝ≥0∞) (r * cos φ, r * sin φ) =
        (Iio (1 : ℝ)).indicator 1 r * ((fun φ : ℝ => cos φ ^ 2) ⁻¹' A).indicator 1 φ := by
      intro φ
      have hw : r * cos φ * (r * cos φ) + r * sin φ * (r * sin φ) = r ^ 2 := by
        have := sin_sq_add_cos_sq φ
        linear_combination r ^ 2 * this
      have hq : g (r * cos φ, r * sin φ) = cos φ ^ 2 := by
        simp only [hg]
        rw [hw]
        field_simp
      have hl : (r * cos φ, r * sin φ) ∈ leave ↔ r ∈ Iio (1 : ℝ) := by
        simp only [leave, Set.mem_ofPred_eq, hw, mem_Iio]
        constructor
        · intro h
          nlinarith [h.1]
        · intro h
          exact ⟨by nlinarith, by positivity⟩
      by_cases ha : r ∈ Iio (1 : ℝ)
      · rw [indicator_of_mem ha, Pi.one_apply, one_mul]
        by_cases hb : φ ∈ (fun φ : ℝ => cos φ ^ 2) ⁻¹' A
        · rw [indicator_of_mem hb, indicator_of_mem]
          · rfl
          · exact ⟨hl.2 ha, by rw [mem_preimage, hq]; exact hb⟩
        · rw [indicator_of_notMem hb, indicator_of_notMem]
          rintro ⟨-, h⟩
          rw [mem_preimage, hq] at h
          exact hb h
      · rw [indicator_of_notMem ha, zero_mul, indicator_of_notMem]
        rintro ⟨h, -⟩
        exact ha (hl.1 h)
    simp_rw [h3]
    simp_rw [← mul_assoc]
    rw [lintegral_const_mul _ (measurable_one.indicator hB), lintegral_indicator_one hB, Measure.restrict_apply hB,
      inter_comm]
  rw [setLIntegral_congr_fun measurableSet_Ioi h2, lintegral_mul_const, half_disc]
  exact (ENNReal.measurable_ofReal).mul (measurable_one.indicator measurableSet_Iio)

/-- The law of the ratio: that of the squared cosine of a uniform angle. -/
theorem ratio_eq : ratio = ENNReal.ofReal (2 / π) • (volume.restrict (Ioo 0 (π / 2))).map fun φ => cos φ ^ 2 := by
  have hpi := pi_pos
  ext A hA
  have hc : Measurable fun φ : ℝ => cos φ ^ 2 := by fun_prop
  rw [ratio, loop_apply _ measurable_leave measurable_quotient hA, trial hA, Measure.smul_apply, Measure.map_apply hc hA,
    Measure.restrict_apply (hc hA), inter_comm, smul_eq_mul]
  have h1 := trial MeasurableSet.univ
  rw [preimage_univ, preimage_univ, inter_univ, inter_univ, Real.volume_Ioo, sub_zero, ← ENNReal.ofReal_mul (by norm_num)] at h1
  rw [h1, ← ENNReal.ofReal_inv_of_pos (by positivity), ← mul_assoc, ← ENNReal.ofReal_mul (by positivity)]
  congr 2
  field_simp

instance : IsProbabilityMeasure ratio := by
  have hpi := pi_pos
  constructor
  have hc : Measurable fun φ : ℝ => cos φ ^ 2 := by fun_prop
  rw [ratio_eq, Measure.smul_apply, Measure.map_apply hc MeasurableSet.univ, preimage_univ, Measure.restrict_apply_univ,
    Real.volume_Ioo, smul_eq_mul, sub_zero, ← ENNReal.ofReal_mul (by positivity)]
  rw [show 2 / π * (π / 2) = 1 by field_simp, ENNReal.ofReal_one]

/-- The negative logarithm of a uniform number. -/
theorem neg_log (f : ℝ → ℝ≥0∞) :
    ∫⁻ u, f (-log u) ∂uniform01 = ∫⁻ x in Ioi 0, ENNReal.ofReal (exp (-x)) * f x := by
  have himg : (fun x : ℝ => exp (-x)) '' Ioi 0 = Ioo 0 1 := by
    ext y
    constructor
    · rintro ⟨x, hx, rfl⟩
      have hx' : 0 < x := hx
      exact ⟨exp_pos _, exp_lt_one_iff.2 (by linarith)⟩
    · rintro ⟨h1, h2⟩
      exact ⟨-log y, by simpa using log_neg h1 h2, by simp [exp_log h1]⟩
  have hd : ∀ x ∈ Ioi (0 : ℝ), HasDerivWithinAt (fun x : ℝ => exp (-x)) (-exp (-x)) (Ioi 0) x := by
    intro x _
    have := ((hasDerivAt_neg x).exp).hasDerivWithinAt (s := Ioi 0)
    simpa using this
  have hi : InjOn (fun x : ℝ => exp (-x)) (Ioi 0) := fun x _ y _ h => by
    have := exp_injective h
    linarith
  rw [uniform01_eq, ← himg, lintegral_image_eq_lintegral_abs_deriv_mul measurableSet_Ioi hd hi]
  refine setLIntegral_congr_fun measurableSet_Ioi fun x _ => ?_
  simp only [abs_neg, abs_of_pos (exp_pos _), log_exp, neg_neg]

/-- Substituting the half of the square. -/
theorem half_square {c : ℝ} (hc : 0 < c) (f : ℝ → ℝ≥0∞) :
    ∫⁻ x in Ioi 0, f x = ∫⁻ r in Ioi 0, ENNReal.ofReal (2 * c * r) * f (c * r ^ 2) := by
  have himg : (fun r : ℝ => c * r ^ 2) '' Ioi 0 = Ioi 0 := by
    ext y
    constructor
    · rintro ⟨x, hx, rfl⟩
      have hx' : 0 < x := hx
      exact mul_pos hc (by positivity)
    · intro h
      have h' : 0 < y := h
      refine ⟨√(y / c), sqrt_pos.2 (by positivity), ?_⟩
      show c * √(y / c) ^ 2 = y
      rw [sq_sqrt (by positivity)]
      field_simp
  have hd : ∀ x ∈ Ioi (0 : ℝ), HasDerivWithinAt (fun r : ℝ => c * r ^ 2) (2 * c * x) (Ioi 0) x := by
    intro x _
    exact (((hasDerivAt_pow 2 x).const_mul c).congr_deriv (by push_cast; ring)).hasDerivWithinAt
  have hi : InjOn (fun r : ℝ => c * r ^ 2) (Ioi 0) := fun x hx y hy h => by
    have hx' : 0 < x := hx
    have hy' : 0 < y := hy
    have h2 : x ^ 2 = y ^ 2 := mul_left_cancel₀ hc.ne' h
    nlinarith [mul_pos hx' hy']
  conv_lhs => rw [← himg, lintegral_image_eq_lintegral_abs_deriv_mul measurableSet_Ioi hd hi]
  refine setLIntegral_congr_fun measurableSet_Ioi fun x hx => ?_
  have hx' : 0 < x := hx
  rw [abs_of_pos (by positivity)]

theorem gauss : ∫⁻ y in Ioi (0 : ℝ), ENNReal.ofReal (exp (-(y ^ 2 / 2))) = ENNReal.ofReal (√(2 * π) / 2) := by
  rw [← ofReal_integral_eq_lintegral_ofReal]
  · have := integral_gaussian_Ioi (1 / 2)
    rw [show π / (1 / 2) = 2 * π by ring] at this
    rw [← this]
    congr 1
    refine integral_congr_ae (Filter.Eventually.of_forall fun y => ?_)
    show exp _ = exp _
    congr 1
    ring
  · have := (integrable_exp_neg_mul_sq (by norm_num : (0 : ℝ) < 1 / 2)).integrableOn (s := Ioi 0)
    refine this.congr (Filter.Eventually.of_forall fun y => ?_)
    show exp _ = exp _
    congr 1
    ring
  · exact Filter.Eventually.of_forall fun y => (exp_pos _).le

/-- The second summand: half of the square of a normally distributed number. -/
theorem second {F : ℝ → ℝ≥0∞} (hF : Measurable F) :
    ∫⁻ b, ∫⁻ u, F (-(b * log u)) ∂uniform01 ∂ratio =
      ENNReal.ofReal (√(2 / π)) * ∫⁻ x in Ioi (0 : ℝ), ENNReal.ofReal (exp (-(x ^ 2 / 2))) * F (x ^ 2 / 2) := by
  have hpi := pi_pos
  have h1 : ∀ b : ℝ, ∫⁻ u, F (-(b * log u)) ∂uniform01 =
      ∫⁻ r in Ioi 0, ENNReal.ofReal r * (ENNReal.ofReal (exp (-(r ^ 2 / 2))) * F (b * r ^ 2 / 2)) := by
    intro b
    have := neg_log fun x => F (b * x)
    simp only [mul_neg] at this
    rw [this, half_square (by norm_num : (0 : ℝ) < 1 / 2)]
    refine setLIntegral_congr_fun measurableSet_Ioi fun r _ => ?_
    rw [show 2 * (1 / 2) * r = r by ring, show 1 / 2 * r ^ 2 = r ^ 2 / 2 by ring, show b * (r ^ 2 / 2) = b * r ^ 2 / 2 by ring]
  simp_rw [h1]
  have hc : Measurable fun φ : ℝ => cos φ ^ 2 := by fun_prop
  have hm : Measurable fun q : ℝ × ℝ =>
      ENNReal.ofReal q.2 * (ENNReal.ofReal (exp (-(q.2 ^ 2 / 2))) * F (q.1 * q.2 ^ 2 / 2)) := by fun_prop
  have hm' : Measurable fun b : ℝ => ∫⁻ r in Ioi 0, ENNReal.ofReal r * (ENNReal.ofReal (exp (-(r ^ 2 / 2))) * F (b * r ^ 2 / 2)) :=
    hm.lintegral_prod_right'
  rw [ratio_eq, lintegral_smul_measure, lintegral_map hm' hc]
  have h2 : ∫⁻ φ in Ioo 0 (π / 2), ∫⁻ r in Ioi 0,
      ENNReal.ofReal r * (ENNReal.ofReal (exp (-(r ^ 2 / 2))) * F (cos φ ^ 2 * r ^ 2 / 2)) =
      ∫⁻ p in Ioi (0 : ℝ) ×ˢ Ioi (0 : ℝ), ENNReal.ofReal (exp (-((p.1 ^ 2 + p.2 ^ 2) / 2))) * F (p.1 ^ 2 / 2) := by
    rw [quadrant (f := fun p => ENNReal.ofReal (exp (-((p.1 ^ 2 + p.2 ^ 2) / 2))) * F (p.1 ^ 2 / 2)) (by fun_prop),
      lintegral_lintegral_swap]
    · refine lintegral_congr fun r => lintegral_congr fun φ => ?_
      have e : (r * cos φ) ^ 2 + (r * sin φ) ^ 2 = r ^ 2 := by
        linear_combination r ^ 2 * sin_sq_add_cos_sq φ
      rw [e, show cos φ ^ 2 * r ^ 2 = (r * cos φ) ^ 2 by ring]
    · exact (by fun_prop : Measurable (Function.uncurry fun φ r : ℝ =>
        ENNReal.ofReal r * (ENNReal.ofReal (exp (-(r ^ 2 / 2))) * F (cos φ ^ 2 * r ^ 2 / 2)))).aemeasurable
  rw [h2]
  have h3 : ∫⁻ p in Ioi (0 : ℝ) ×ˢ Ioi (0 : ℝ), ENNReal.ofReal (exp (-((p.1 ^ 2 + p.2 ^ 2) / 2))) * F (p.1 ^ 2 / 2) =
      (∫⁻ x in Ioi (0 : ℝ), ENNReal.ofReal (exp (-(x ^ 2 / 2))) * F (x ^ 2 / 2)) * ENNReal.ofReal (√(2 * π) / 2) := by
    rw [Measure.volume_eq_prod, ← Measure.prod_restrict, ← gauss, ← lintegral_prod_mul (by fun_prop) (by fun_prop)]
    refine lintegral_congr fun p => ?_
    rw [mul_right_comm, ← ENNReal.ofReal_mul (exp_pos _).le, ← exp_add]
    congr 3
    ring
  rw [h3, smul_eq_mul, mul_comm (∫⁻ x in Ioi (0 : ℝ), _), ← mul_assoc, ← ENNReal.ofReal_mul (by positivity)]
  congr 2
  rw [sqrt_mul (by norm_num), sqrt_div (by norm_num)]
  have h4 : √π * √π = π := mul_self_sqrt hpi.le
  have h5 : 0 < √π := sqrt_pos.2 hpi
  field_simp
  linear_combination h4

/-- The first summand added. -/
theorem both {f : ℝ → ℝ≥0∞} (hf : Measurable f) :
    ∫⁻ q, f (-log q.1 - q.2.1 * log q.2.2) ∂uniform01.prod (ratio.prod uniform01) =
      ENNReal.ofReal (√(2 / π)) * ∫⁻ t in Ioi (0 : ℝ), ENNReal.ofReal (√(2 * t) * exp (-t)) * f t := by
  have hm : Measurable fun q : ℝ × ℝ × ℝ => f (-log q.1 - q.2.1 * log q.2.2) := by fun_prop
  rw [lintegral_prod_symm _ hm.aemeasurable]
  have h1 : ∀ q : ℝ × ℝ, ∫⁻ u, f (-log u - q.1 * log q.2) ∂uniform01 =
      (fun s => ∫⁻ x in Ioi 0, ENNReal.ofReal (exp (-x)) * f (x + s)) (-(q.1 * log q.2)) := by
    intro q
    exact neg_log fun x => f (x + -(q.1 * log q.2))
  rw [lintegral_congr h1]
  have hmF : Measurable fun s : ℝ => ∫⁻ x in Ioi 0, ENNReal.ofReal (exp (-x)) * f (x + s) :=
    (by fun_prop : Measurable fun q : ℝ × ℝ => ENNReal.ofReal (exp (-q.2)) * f (q.2 + q.1)).lintegral_prod_right'
  have h0 := lintegral_prod (μ := ratio) (ν := uniform01) _
    (hmF.comp (by fun_prop : Measurable fun q : ℝ × ℝ => -(q.1 * log q.2))).aemeasurable
  refine h0.trans ((second hmF).trans ?_)
  congr 1
  -- move the first summand
  have h2 : ∀ x ∈ Ioi (0 : ℝ), ENNReal.ofReal (exp (-(x ^ 2 / 2))) * ∫⁻ y in Ioi 0, ENNReal.ofReal (exp (-y)) * f (y + x ^ 2 / 2) =
      ∫⁻ t in Ioi (0 : ℝ), (Ioi (x ^ 2 / 2)).indicator (fun t => ENNReal.ofReal (exp (-t)) * f t) t := by
    intro x _
    rw [← lintegral_const_mul _ (by fun_prop), lintegral_indicator measurableSet_Ioi, Measure.restrict_restrict measurableSet_Ioi,
      inter_eq_left.2 (Ioi_subset_Ioi (by positivity)), ← lintegral_indicator measurableSet_Ioi,
      ← lintegral_indicator measurableSet_Ioi,
      ← lintegral_add_right_eq_self ((Ioi (x ^ 2 / 2)).indicator fun t => ENNReal.ofReal (exp (-t)) * f t) (x ^ 2 / 2)]
    refine lintegral_congr fun y => ?_
    by_cases hy : 0 < y
    · rw [indicator_of_mem (show y ∈ Ioi (0 : ℝ) from hy),
        indicator_of_mem (show y + x ^ 2 / 2 ∈ Ioi (x ^ 2 / 2) by simpa using hy), ← mul_assoc,
        ← ENNReal.ofReal_mul (exp_pos _).le, ← exp_add]
      congr 3
      ring
    · rw [indicator_of_notMem (show y ∉ Ioi (0 : ℝ) from hy),
        indicator_of_notMem (show y + x ^ 2 / 2 ∉ Ioi (x ^ 2 / 2) by simpa using hy)]
  rw [setLIntegral_congr_fun measurableSet_Ioi h2, lintegral_lintegral_swap]
  · refine setLIntegral_congr_fun measurableSet_Ioi fun t ht => ?_
    have ht' : 0 < t := ht
    have h3 : ∀ x : ℝ, (Ioi (x ^ 2 / 2)).indicator (fun t => ENNReal.ofReal (exp (-t)) * f t) t =
        {x : ℝ | x ^ 2 / 2 < t}.indicator (fun _ => ENNReal.ofReal (exp (-t)) * f t) x := by
      intro x
      by_cases h : x ^ 2 / 2 < t
      · rw [indicator_of_mem (show t ∈ Ioi (x ^ 2 / 2) from h), indicator_of_mem (show x ∈ {x : ℝ | x ^ 2 / 2 < t} from h)]
      · rw [indicator_of_notMem (show t ∉ Ioi (x ^ 2 / 2) from h), indicator_of_notMem (show x ∉ {x : ℝ | x ^ 2 / 2 < t} from h)]
    have hS : MeasurableSet {x : ℝ | x ^ 2 / 2 < t} := (by fun_prop : Measurable fun x : ℝ => x ^ 2 / 2) measurableSet_Iio
    simp_rw [h3]
    rw [lintegral_indicator_const hS, Measure.restrict_apply hS]
    have h4 : {x : ℝ | x ^ 2 / 2 < t} ∩ Ioi 0 = Ioo 0 (√(2 * t)) := by
      ext x
      simp only [mem_inter_iff, Set.mem_ofPred_eq, mem_Ioi, mem_Ioo]
      constructor
      · rintro ⟨a, b⟩
        exact ⟨b, (lt_sqrt b.le).2 (by linarith)⟩
      · rintro ⟨a, b⟩
        exact ⟨by linarith [(lt_sqrt a.le).1 b], a⟩
    rw [h4, Real.volume_Ioo, sub_zero, ENNReal.ofReal_mul (sqrt_nonneg _)]
    ring
  · have hS : MeasurableSet {q : ℝ × ℝ | q.1 ^ 2 / 2 < q.2} :=
      measurableSet_lt (by fun_prop) (by fun_prop)
    refine Measurable.aemeasurable ?_
    have : (Function.uncurry fun x t : ℝ => (Ioi (x ^ 2 / 2)).indicator (fun t => ENNReal.ofReal (exp (-t)) * f t) t) =
        {q : ℝ × ℝ | q.1 ^ 2 / 2 < q.2}.indicator fun q => ENNReal.ofReal (exp (-q.2)) * f q.2 := by
      funext q
      by_cases h : q.1 ^ 2 / 2 < q.2
      · rw [indicator_of_mem (show q ∈ {q : ℝ × ℝ | q.1 ^ 2 / 2 < q.2} from h), Function.uncurry,
          indicator_of_mem (show q.2 ∈ Ioi (q.1 ^ 2 / 2) from h)]
      · rw [indicator_of_notMem (show q ∉ {q : ℝ × ℝ | q.1 ^ 2 / 2 < q.2} from h), Function.uncurry,
          indicator_of_notMem (show q.2 ∉ Ioi (q.1 ^ 2 / 2) from h)]
    rw [this]
    exact (by fun_prop : Measurable fun q : ℝ × ℝ => ENNReal.ofReal (exp (-q.2)) * f q.2).indicator hS

theorem constant {x : ℝ} (hx : 0 < x) : √(2 / π) * (x * √x) = (x / (2 * π)) ^ (3 / 2 : ℝ) * (4 * π) := by
  have hpi := pi_pos
  have h0 : 0 < x / (2 * π) := by positivity
  have h1 : (x / (2 * π)) ^ (3 / 2 : ℝ) = x / (2 * π) * √(x / (2 * π)) := by
    rw [show (3 / 2 : ℝ) = 1 + 1 / 2 by norm_num, rpow_add h0, rpow_one, sqrt_eq_rpow]
  rw [h1, sqrt_div hx.le, sqrt_div (by norm_num), sqrt_mul (by norm_num)]
  have h4 : √2 * √2 = 2 := mul_self_sqrt (by norm_num)
  have h5 : 0 < √π := sqrt_pos.2 hpi
  have h6 : 0 < √2 := sqrt_pos.2 (by norm_num)
  field_simp
  linear_combination 2 * h4

/-- **C112.** The numbers returned have the Maxwell-Boltzmann distribution for the given mass and temperature. -/
theorem C112_maxwell {m kT : ℝ} (hm : 0 < m) (hkT : 0 < kT) : getRandomMaxwell m kT = maxwellBoltzmann m kT := by
  have hpi := pi_pos
  have hv : Measurable (value m kT) := by unfold value; fun_prop
  ext A hA
  have hsq : Measurable fun t : ℝ => √(2 * t * kT / m) := by fun_prop
  have h1 : getRandomMaxwell m kT A = ∫⁻ q, (fun t => A.indicator 1 (√(2 * t * kT / m))) (-log q.1 - q.2.1 * log q.2.2)
      ∂uniform01.prod (ratio.prod uniform01) := by
    rw [getRandomMaxwell, Measure.map_apply hv hA, ← lintegral_indicator_one (hv hA)]
    rfl
  have h2 := both (f := fun t => A.indicator 1 (√(2 * t * kT / m))) ((measurable_one.indicator hA).comp hsq)
  rw [h1, h2, half_square (by positivity : 0 < m / (2 * kT)),
    maxwellBoltzmann, withDensity_apply _ hA, ← lintegral_const_mul, ← lintegral_indicator hA]
  · refine setLIntegral_congr_fun measurableSet_Ioi fun v hv => ?_
    have hv' : 0 < v := hv
    have e1 : 2 * (m / (2 * kT) * v ^ 2) * kT / m = v ^ 2 := by field_simp
    rw [e1, sqrt_sq hv'.le]
    by_cases h : v ∈ A
    · rw [indicator_of_mem h, indicator_of_mem h, Pi.one_apply, mul_one, ← ENNReal.ofReal_mul (by positivity),
        ← ENNReal.ofReal_mul (by positivity)]
      congr 1
      have e2 : √(2 * (m / (2 * kT) * v ^ 2)) = √(m / kT) * v := by
        rw [show 2 * (m / (2 * kT) * v ^ 2) = m / kT * v ^ 2 by field_simp, sqrt_mul (by positivity), sqrt_sq hv'.le]
      have e3 : m / (2 * kT) * v ^ 2 = m * v ^ 2 / (2 * kT) := by ring
      have e4 := constant (by positivity : 0 < m / kT)
      have e5 : m / kT / (2 * π) = m / (2 * π * kT) := by field_simp
      rw [e5] at e4
      rw [e2, e3]
      have e6 : 2 * (m / (2 * kT)) * v = m / kT * v := by field_simp
      rw [e6]
      linear_combination (v ^ 2 * exp (-(m * v ^ 2 / (2 * kT)))) * e4
    · rw [indicator_of_notMem h, indicator_of_notMem h, mul_zero, mul_zero, mul_zero]
  · have : Measurable fun t : ℝ => A.indicator (1 : ℝ → ℝ≥0∞) (√(2 * t * kT / m)) := (measurable_one.indicator hA).comp hsq
    have h2 : Measurable fun r : ℝ => A.indicator (1 : ℝ → ℝ≥0∞) (√(2 * (m / (2 * kT) * r ^ 2) * kT / m)) :=
      this.comp (by fun_prop : Measurable fun r : ℝ => m / (2 * kT) * r ^ 2)
    fun_prop

/-- **C112.** With probability one, the loop ends, and a positive number is returned. -/
theorem C112_positive {m kT : ℝ} (hm : 0 < m) (hkT : 0 < kT) : getRandomMaxwell m kT (Ioi 0) = 1 := by
  have hv : Measurable (value m kT) := by unfold value; fun_prop
  have h1 : getRandomMaxwell m kT univ = 1 := by
    rw [getRandomMaxwell, Measure.map_apply hv MeasurableSet.univ, preimage_univ, measure_univ]
  have h2 : getRandomMaxwell m kT (Ioi 0)ᶜ = 0 := by
    rw [C112_maxwell hm hkT, maxwellBoltzmann, withDensity_apply _ measurableSet_Ioi.compl,
      Measure.restrict_restrict measurableSet_Ioi.compl, compl_inter_self, Measure.restrict_empty, lintegral_zero_measure]
  have h3 := measure_add_measure_compl (μ := getRandomMaxwell m kT) (measurableSet_Ioi (a := (0 : ℝ)))
  rw [h2, add_zero, h1] at h3
  exact h3

/-- **C112** fails for floating-point numbers: if the first random number is zero, which `uniform_01` may return, or if the
last one is, the result is infinite. -/
theorem C112_infinite_violated (b u : ℝ) (hb : 0 < b) (hu : 0 < u) :
    floatR (0, b, u) = ⊤ ∧ floatR (u, b, 0) = ⊤ := by
  unfold floatR floatLog
  constructor
  · simp only [if_true, if_neg hu.ne', EReal.neg_bot]
    rw [← EReal.coe_mul, sub_eq_add_neg, ← EReal.coe_neg, EReal.top_add_coe]
  · simp only [if_true, if_neg hu.ne', EReal.coe_mul_bot_of_pos hb]
    rw [sub_eq_add_neg, EReal.neg_bot, ← EReal.coe_neg, EReal.coe_add_top]

/-- For other random numbers, it is what the model with real numbers has. -/
theorem C112_finite (q : ℝ × ℝ × ℝ) (h1 : q.1 ≠ 0) (h2 : q.2.2 ≠ 0) :
    floatR q = ((-log q.1 - q.2.1 * log q.2.2 : ℝ) : EReal) := by
  unfold floatR floatLog
  rw [if_neg h1, if_neg h2]
  norm_cast

/-! ## Examples -/

/-- Random numbers for which the loop is left at once, and such for which it is not. -/
example : (1 / 2, 1 / 2) ∈ leave ∧ (3 / 4, 3 / 4) ∉ leave ∧ (0, 0) ∉ leave := by
  refine ⟨⟨by norm_num, by norm_num⟩, fun h => ?_, fun h => ?_⟩
  · have := h.1
    norm_num at this
  · exact h.2 (by norm_num)

end OpenMPCD.Random.Speed
