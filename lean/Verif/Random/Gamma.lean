import Mathlib.Analysis.SpecialFunctions.Log.Deriv
import Mathlib.Analysis.Calculus.Deriv.MeanValue
import Mathlib.Analysis.Complex.ExponentialBounds
import Mathlib.Analysis.Convex.SpecificFunctions.Basic
import Mathlib.Analysis.SpecificLimits.Basic
import Mathlib.MeasureTheory.Function.JacobianOneDim
import Mathlib.MeasureTheory.Measure.GiryMonad
import Mathlib.MeasureTheory.Measure.Prod
import Mathlib.MeasureTheory.Integral.IntegralEqImproper
import Mathlib.Probability.Distributions.Gamma
import Mathlib.Probability.Distributions.Gaussian.Real
import Mathlib.Tactic.FieldSimp
import Mathlib.Tactic.Linarith
import Mathlib.Tactic.Positivity
import Mathlib.Tactic.NormNum

/-!
# Random numbers with a gamma distribution (C96)

`include/OpenMPCD/CUDA/Random/Distributions/`. A function that draws random numbers is modelled by the law of what it
returns, a measure; independent draws one after the other are products of measures or `Measure.bind`.

Assumed of `cuRAND`: `curand_uniform` and `curand_uniform_double` return independent numbers which are uniform in `(0, 1]`,
`curand_normal` and `curand_normal_double` such which have a standard normal distribution.

Simplification: real numbers instead of floating-point numbers.
-/

set_option linter.unusedSectionVars false
set_option linter.unusedSimpArgs false

open MeasureTheory ProbabilityTheory Real Set
open scoped ENNReal

namespace OpenMPCD.Random.Gamma

/-! ## Model -/

section loops

variable {Ω α : Type*} [MeasurableSpace Ω] [MeasurableSpace α]

open Classical in
/-- A loop that draws (with the law `draw`) until the draw is `good`, and then has a result. The law of the result for the
case that the loop ends after having rejected exactly `n` draws: the mass of the measure is the probability of this. -/
noncomputable def inRound (draw : Measure Ω) (good : Set Ω) (result : Ω → α) : ℕ → Measure α
  | 0 => draw.bind fun ω => if ω ∈ good then Measure.dirac (result ω) else 0
  | n + 1 => draw.bind fun ω => if ω ∈ good then 0 else inRound draw good result n

/-- The law of the result of the loop. -/
noncomputable def loop (draw : Measure Ω) (good : Set Ω) (result : Ω → α) : Measure α :=
  Measure.sum (inRound draw good result)

end loops

/-- `Uniform0e1i::operator()` (`include/OpenMPCD/CUDA/Random/Distributions/Uniform0e1i.hpp:70-82`), by assumption. -/
noncomputable def uniform0e1i : Measure ℝ := volume.restrict (Ioc 0 1)

/-- `Uniform0e1e::operator()` (`include/OpenMPCD/CUDA/Random/Distributions/Uniform0e1e.hpp:40-55`). -/
noncomputable def uniform0e1e : Measure ℝ := loop uniform0e1i {value | ¬ value = 1} id

/-- `StandardNormal::operator()` (`include/OpenMPCD/CUDA/Random/Distributions/StandardNormal.hpp:45-57`), by assumption. -/
noncomputable def standardNormal : Measure ℝ := gaussianReal 0 1

/-- The parameter `d` (`include/OpenMPCD/CUDA/Random/Distributions/Gamma_shape_ge_1.hpp:70`). -/
noncomputable def dOf (k : ℝ) : ℝ := k - 1 / 3

/-- The parameter `c` (`include/OpenMPCD/CUDA/Random/Distributions/Gamma_shape_ge_1.hpp:70`). -/
noncomputable def cOf (d : ℝ) : ℝ := 1 / √(9 * d)

/-- The inner loop (`include/OpenMPCD/CUDA/Random/Distributions/Gamma_shape_ge_1.hpp:107-112`): the law of `x`. -/
noncomputable def proposal (c : ℝ) : Measure ℝ := loop standardNormal {x | ¬ 1 + c * x ≤ 0} id

/-- `v` after line 114 (`include/OpenMPCD/CUDA/Random/Distributions/Gamma_shape_ge_1.hpp:110,114`). -/
noncomputable def vOf (c x : ℝ) : ℝ := (1 + c * x) * (1 + c * x) * (1 + c * x)

/-- `criterion` (`include/OpenMPCD/CUDA/Random/Distributions/Gamma_shape_ge_1.hpp:121`). -/
noncomputable def criterion (d x v : ℝ) : ℝ := 0.5 * x * x + d * (1 - v + log v)

/-- Whether one of the two `return` statements is reached
(`include/OpenMPCD/CUDA/Random/Distributions/Gamma_shape_ge_1.hpp:118-123`). -/
def accepted (d c : ℝ) : Set (ℝ × ℝ) :=
  {p | p.2 < 1 - 0.0331 * p.1 * p.1 * p.1 * p.1 ∨ log p.2 < criterion d p.1 (vOf c p.1)}

/-- What is returned (`include/OpenMPCD/CUDA/Random/Distributions/Gamma_shape_ge_1.hpp:119,123`). -/
noncomputable def value (theta d c x : ℝ) : ℝ := theta * d * vOf c x

/-- `Gamma_shape_ge_1::operator()`
(`include/OpenMPCD/CUDA/Random/Distributions/Gamma_shape_ge_1.hpp:67-79,96-125`). -/
noncomputable def gammaShapeGe1 (shape scale : ℝ) : Measure ℝ :=
  loop ((proposal (cOf (dOf shape))).prod uniform0e1e) (accepted (dOf shape) (cOf (dOf shape)))
    fun p => value scale (dOf shape) (cOf (dOf shape)) p.1

open Classical in
/-- `inverse_k` (`include/OpenMPCD/CUDA/Random/Distributions/Gamma.hpp:69`). -/
noncomputable def inverseK (shape : ℝ) : ℝ := if 1 ≤ shape then 0 else 1 / shape

open Classical in
/-- `Gamma::operator()` (`include/OpenMPCD/CUDA/Random/Distributions/Gamma.hpp:66-75,92-102`). -/
noncomputable def gamma (shape scale : ℝ) : Measure ℝ :=
  if inverseK shape = 0 then gammaShapeGe1 (if 1 ≤ shape then shape else 1 + shape) scale
  else ((gammaShapeGe1 (if 1 ≤ shape then shape else 1 + shape) scale).prod uniform0e1e).map
    fun p => p.1 * p.2 ^ inverseK shape

/-! ## Proofs -/

/-! ### Loops -/

section loops

variable {Ω α : Type*} [MeasurableSpace Ω] [MeasurableSpace α]

theorem inRound_apply (draw : Measure Ω) {good : Set Ω} (hgood : MeasurableSet good) {result : Ω → α}
    (hres : Measurable result) (n : ℕ) {A : Set α} (hA : MeasurableSet A) :
    inRound draw good result n A = (draw goodᶜ) ^ n * draw (good ∩ result ⁻¹' A) := by
  classical
  induction n with
  | zero =>
    rw [inRound, Measure.bind_apply hA]
    · have : ∀ ω, (if ω ∈ good then Measure.dirac (result ω) else 0) A = (good ∩ result ⁻¹' A).indicator 1 ω := by
        intro ω
        by_cases h : ω ∈ good
        · rw [if_pos h, Measure.dirac_apply' _ hA]
          by_cases h' : result ω ∈ A
          · rw [indicator_of_mem h', indicator_of_mem (show ω ∈ good ∩ result ⁻¹' A from ⟨h, h'⟩)]
            rfl
          · rw [indicator_of_notMem h', indicator_of_notMem (fun x => h' x.2)]
        · rw [if_neg h, indicator_of_notMem (fun x => h x.1)]
          rfl
      simp_rw [this]
      rw [lintegral_indicator_one (hgood.inter (hres hA)), pow_zero, one_mul]
    · exact (Measurable.ite hgood (Measure.measurable_dirac.comp hres) measurable_const).aemeasurable
  | succ n ih =>
    rw [inRound, Measure.bind_apply hA]
    · have : ∀ ω, (if ω ∈ good then (0 : Measure α) else inRound draw good result n) A =
          goodᶜ.indicator (fun _ => inRound draw good result n A) ω := by
        intro ω
        by_cases h : ω ∈ good
        · rw [if_pos h, indicator_of_notMem (show ω ∉ goodᶜ from fun x => x h)]
          rfl
        · rw [if_neg h, indicator_of_mem (show ω ∈ goodᶜ from h)]
      simp_rw [this]
      rw [lintegral_indicator_const hgood.compl, ih, pow_succ]
      ring
    · exact (Measurable.ite hgood measurable_const measurable_const).aemeasurable

theorem loop_apply (draw : Measure Ω) [IsProbabilityMeasure draw] {good : Set Ω} (hgood : MeasurableSet good)
    {result : Ω → α} (hres : Measurable result) {A : Set α} (hA : MeasurableSet A) :
    loop draw good result A = (draw good)⁻¹ * draw (good ∩ result ⁻¹' A) := by
  rw [loop, Measure.sum_apply _ hA]
  simp_rw [inRound_apply draw hgood hres _ hA]
  rw [ENNReal.tsum_mul_right, ENNReal.tsum_geometric, ← prob_compl_eq_one_sub hgood.compl, compl_compl]

end loops

/-! ### The ingredients -/

theorem uniform0e1i_prob : IsProbabilityMeasure uniform0e1i := by
  constructor
  rw [uniform0e1i, Measure.restrict_apply_univ, Real.volume_Ioc]
  norm_num

theorem uniform0e1e_eq : uniform0e1e = volume.restrict (Ioo 0 1) := by
  have := uniform0e1i_prob
  ext A hA
  have hg : MeasurableSet {v : ℝ | ¬ v = 1} := (measurableSet_singleton (1 : ℝ)).compl
  have e : ∀ B : Set ℝ, {v : ℝ | ¬ v = 1} ∩ B ∩ Ioc 0 1 = B ∩ Ioo 0 1 := by
    intro B
    ext v
    simp only [mem_inter_iff, mem_ofPred_eq, mem_Ioc, mem_Ioo]
    constructor
    · rintro ⟨⟨h1, hB⟩, h2, h3⟩
      exact ⟨hB, h2, lt_of_le_of_ne h3 h1⟩
    · rintro ⟨hB, h2, h3⟩
      exact ⟨⟨h3.ne, hB⟩, h2, h3.le⟩
  have h1 : uniform0e1i {v : ℝ | ¬ v = 1} = 1 := by
    have := e univ
    rw [inter_univ, univ_inter] at this
    rw [uniform0e1i, Measure.restrict_apply hg, this, Real.volume_Ioo]
    norm_num
  rw [uniform0e1e, loop_apply _ hg measurable_id hA, h1, inv_one, one_mul, preimage_id, uniform0e1i,
    Measure.restrict_apply (hg.inter hA), Measure.restrict_apply hA, e]

theorem uniform0e1e_prob : IsProbabilityMeasure uniform0e1e := by
  constructor
  rw [uniform0e1e_eq, Measure.restrict_apply_univ, Real.volume_Ioo]
  norm_num

theorem standardNormal_prob : IsProbabilityMeasure standardNormal := by
  unfold standardNormal
  infer_instance

/-- Where the inner loop ends. -/
def S (c : ℝ) : Set ℝ := {x | 0 < 1 + c * x}

theorem measurable_S (c : ℝ) : MeasurableSet (S c) :=
  measurableSet_lt measurable_const (measurable_const.add (measurable_const.mul measurable_id))

theorem isOpen_S (c : ℝ) : IsOpen (S c) :=
  isOpen_lt continuous_const (continuous_const.add (continuous_const.mul continuous_id))

theorem normal_S_ne_zero (c : ℝ) : standardNormal (S c) ≠ 0 := by
  intro h
  have := (gaussianReal_absolutelyContinuous' 0 (one_ne_zero (α := NNReal))) h
  exact ((isOpen_S c).measure_pos volume ⟨0, by simp [S]⟩).ne' this

theorem proposal_eq (c : ℝ) : proposal c = (standardNormal (S c))⁻¹ • standardNormal.restrict (S c) := by
  have := standardNormal_prob
  have e : {x : ℝ | ¬ 1 + c * x ≤ 0} = S c := by
    ext x
    simp [S]
  ext A hA
  rw [proposal, e, loop_apply _ (measurable_S c) measurable_id hA, preimage_id, Measure.smul_apply,
    Measure.restrict_apply hA, smul_eq_mul, inter_comm]

theorem proposal_prob (c : ℝ) : IsProbabilityMeasure (proposal c) := by
  have := standardNormal_prob
  constructor
  rw [proposal_eq, Measure.smul_apply, Measure.restrict_apply_univ, smul_eq_mul]
  exact ENNReal.inv_mul_cancel (normal_S_ne_zero c) (measure_ne_top _ _)

/-! ### The squeeze -/

/-- The constant of the proof, somewhat smaller than that of the code. -/
noncomputable def q : ℝ := 2 / (48 / 100 + 2 * (88 / 100) ^ 4)

theorem q_pos : 0 < q := by unfold q; positivity

theorem q_le : q ≤ 331 / 10000 * 36 := by unfold q; norm_num

noncomputable def P (t : ℝ) : ℝ := 4 * q * (1 + t) - 2 * (1 - q * t ^ 4)

theorem q_eq : q * (48 / 100 + 2 * (88 / 100) ^ 4) = 2 := by unfold q; norm_num

/-- The other factor. -/
noncomputable def cub (t : ℝ) : ℝ := t ^ 3 - 88/100 * t ^ 2 + (88/100) ^ 2 * t + (2 - (88/100)^3)

theorem P_factor (t : ℝ) : P t = 2 * q * ((t + 88 / 100) * cub t) := by
  unfold P cub
  linear_combination q_eq

theorem cub_mono {a b : ℝ} (h : a ≤ b) : cub a ≤ cub b := by
  unfold cub
  have : 0 ≤ (b - a) * ((a^2 + a * b + b ^ 2) - 88/100 * (a + b) + (88/100)^2) :=
    mul_nonneg (by linarith) (by nlinarith [sq_nonneg (a - b), sq_nonneg (a + b - 88/100), sq_nonneg (a+b - 2*(88/100))])
  nlinarith [this]

noncomputable def G (t : ℝ) : ℝ := 2 * log (1 + t) + t ^ 2 - 2 * t - 2 / 3 * t ^ 3 - log (1 - q * t ^ 4)

theorem hasDerivAt_G {t : ℝ} (h1 : 0 < 1 + t) (h2 : 0 < 1 - q * t ^ 4) :
    HasDerivAt G (t ^ 3 * P t / ((1 + t) * (1 - q * t ^ 4))) t := by
  have e1 : HasDerivAt (fun t : ℝ => log (1 + t)) (1 / (1 + t)) t :=
    ((hasDerivAt_id t).const_add 1).log h1.ne'
  have e2 : HasDerivAt (fun t : ℝ => log (1 - q * t ^ 4)) (-(q * (4 * t ^ 3)) / (1 - q * t ^ 4)) t := by
    have : HasDerivAt (fun t : ℝ => 1 - q * t ^ 4) (-(q * (4 * t ^ 3))) t := by
      simpa using ((hasDerivAt_pow 4 t).const_mul q).const_sub 1
    exact this.log h2.ne'
  have e3 : HasDerivAt (fun t : ℝ => t ^ 2) (2 * t) t := by simpa using hasDerivAt_pow 2 t
  have e4 : HasDerivAt (fun t : ℝ => t ^ 3) (3 * t ^ 2) t := by simpa using hasDerivAt_pow 3 t
  have := ((((e1.const_mul 2).add e3).sub ((hasDerivAt_id t).const_mul 2)).sub (e4.const_mul (2 / 3))).sub e2
  refine this.congr_deriv ?_
  have h1' := h1.ne'
  have h2' := h2.ne'
  have ha : 1 / (1 + t) * (1 + t) = 1 := div_mul_cancel₀ _ h1'
  have hb : -(q * (4 * t ^ 3)) / (1 - q * t ^ 4) * (1 - q * t ^ 4) = -(q * (4 * t ^ 3)) := div_mul_cancel₀ _ h2'
  rw [eq_div_iff (mul_ne_zero h1' h2')]
  unfold P
  linear_combination 2 * (1 - q * t ^ 4) * ha - (1 + t) * hb

/-- The set on which the logarithms are defined. -/
def Dom : Set ℝ := {t | 0 < 1 + t ∧ 0 < 1 - q * t ^ 4}

theorem dom_between {a b t : ℝ} (ha : a ∈ Dom) (hb : b ∈ Dom) (h1 : a ≤ t) (h2 : t ≤ b) : t ∈ Dom := by
  refine ⟨by have := ha.1; linarith, ?_⟩
  have hq := q_pos
  have ha2 := ha.2
  have hb2 := hb.2
  have : t ^ 4 ≤ max (a ^ 4) (b ^ 4) := by
    by_cases h : 0 ≤ t
    · exact le_max_of_le_right (pow_le_pow_left₀ h h2 4)
    · refine le_max_of_le_left ?_
      have := pow_le_pow_left₀ (by linarith : 0 ≤ -t) (by linarith : -t ≤ -a) 4
      nlinarith [this]
  rcases le_total (a ^ 4) (b ^ 4) with h | h
  · rw [max_eq_right h] at this
    nlinarith
  · rw [max_eq_left h] at this
    nlinarith

theorem G_mono {a b : ℝ} (ha : a ∈ Dom) (hb : b ∈ Dom) (hab : a ≤ b)
    (h : ∀ t, a ≤ t → t ≤ b → 0 ≤ t ^ 3 * P t) : G a ≤ G b := by
  have : MonotoneOn G (Set.Icc a b) := by
    refine monotoneOn_of_deriv_nonneg (convex_Icc a b) ?_ ?_ ?_
    · intro t ht
      have hd := dom_between ha hb ht.1 ht.2
      exact (hasDerivAt_G hd.1 hd.2).continuousAt.continuousWithinAt
    · intro t ht
      rw [interior_Icc] at ht
      have hd := dom_between ha hb ht.1.le ht.2.le
      exact (hasDerivAt_G hd.1 hd.2).differentiableAt.differentiableWithinAt
    · intro t ht
      rw [interior_Icc] at ht
      have hd := dom_between ha hb ht.1.le ht.2.le
      rw [(hasDerivAt_G hd.1 hd.2).deriv]
      exact div_nonneg (h t ht.1.le ht.2.le) (mul_pos hd.1 hd.2).le
  exact this ⟨le_rfl, hab⟩ ⟨hab, le_rfl⟩ hab

theorem G_anti {a b : ℝ} (ha : a ∈ Dom) (hb : b ∈ Dom) (hab : a ≤ b)
    (h : ∀ t, a ≤ t → t ≤ b → t ^ 3 * P t ≤ 0) : G b ≤ G a := by
  have : AntitoneOn G (Set.Icc a b) := by
    refine antitoneOn_of_deriv_nonpos (convex_Icc a b) ?_ ?_ ?_
    · intro t ht
      have hd := dom_between ha hb ht.1 ht.2
      exact (hasDerivAt_G hd.1 hd.2).continuousAt.continuousWithinAt
    · intro t ht
      rw [interior_Icc] at ht
      have hd := dom_between ha hb ht.1.le ht.2.le
      exact (hasDerivAt_G hd.1 hd.2).differentiableAt.differentiableWithinAt
    · intro t ht
      rw [interior_Icc] at ht
      have hd := dom_between ha hb ht.1.le ht.2.le
      rw [(hasDerivAt_G hd.1 hd.2).deriv]
      exact div_nonpos_of_nonpos_of_nonneg (h t ht.1.le ht.2.le) (mul_pos hd.1 hd.2).le
  exact this ⟨le_rfl, hab⟩ ⟨hab, le_rfl⟩ hab

theorem zero_dom : (0 : ℝ) ∈ Dom := by constructor <;> norm_num

theorem crit_dom : (-(88 / 100) : ℝ) ∈ Dom := by
  constructor
  · norm_num
  · unfold q
    norm_num

theorem G_zero : G 0 = 0 := by unfold G; norm_num

theorem G_crit : 0 ≤ G (-(88 / 100)) := by
  have hd := crit_dom.2
  have hexp : (1 - q * (-(88 / 100)) ^ 4) ≤ (1 + -(88 / 100)) ^ 2 * exp ((88/100)^2 + 2 * (88/100) + 2/3 * (88/100)^3) := by
    have e : ((88/100)^2 + 2 * (88/100) + 2/3 * (88/100)^3 : ℝ) = 1 + 1 + 1 + (((88/100)^2 + 2 * (88/100) + 2/3 * (88/100)^3) - 3) := by ring
    rw [e, exp_add, exp_add, exp_add]
    have h1 := Real.exp_one_gt_d9
    have h2 := Real.add_one_le_exp (((88/100)^2 + 2 * (88/100) + 2/3 * (88/100)^3 : ℝ) - 3)
    have h3 : (2.7182818283 : ℝ) ^ 3 ≤ exp 1 * exp 1 * exp 1 := by
      have := pow_le_pow_left₀ (by norm_num : (0 : ℝ) ≤ 2.7182818283) h1.le 3
      calc (2.7182818283 : ℝ) ^ 3 ≤ exp 1 ^ 3 := this
        _ = _ := by ring
    have h4 := mul_le_mul h3 h2 (by norm_num) (by positivity)
    refine le_trans ?_ (mul_le_mul_of_nonneg_left h4 (by norm_num))
    unfold q
    norm_num
  have := log_le_log hd hexp
  rw [log_mul (by norm_num) (exp_pos _).ne', log_exp, log_pow] at this
  unfold G
  push_cast at this ⊢
  linarith

theorem G_nonneg {t : ℝ} (ht : t ∈ Dom) : 0 ≤ G t := by
  have hq := q_pos
  rcases le_total 0 t with h0 | h0
  · rw [← G_zero]
    refine G_mono zero_dom ht h0 fun s hs _ => mul_nonneg (pow_nonneg hs 3) ?_
    rw [P_factor]
    have : 0 ≤ cub s := by
      refine le_trans ?_ (cub_mono hs)
      unfold cub
      norm_num
    have : 0 ≤ (s + 88/100) * cub s := mul_nonneg (by linarith) this
    positivity
  have hcube : ∀ s : ℝ, s ≤ 0 → s ^ 3 ≤ 0 := fun s hs => by nlinarith [sq_nonneg s]
  rcases le_total t (-(88 / 100)) with h | h
  · refine le_trans G_crit (G_anti ht crit_dom h fun s _ hs => ?_)
    refine mul_nonpos_of_nonpos_of_nonneg (hcube s (by linarith)) ?_
    rw [P_factor]
    have hc : cub s ≤ 0 := by
      refine le_trans (cub_mono hs) ?_
      unfold cub
      norm_num
    have := mul_nonneg_of_nonpos_of_nonpos (by linarith : s + 88/100 ≤ 0) hc
    positivity
  · rcases le_total (cub t) 0 with hc | hc
    · refine le_trans G_crit (G_mono crit_dom ht h fun s hs1 hs2 => ?_)
      refine mul_nonneg_of_nonpos_of_nonpos (hcube s (by linarith)) ?_
      rw [P_factor]
      have := mul_nonpos_of_nonneg_of_nonpos (by linarith : 0 ≤ s + 88/100) ((cub_mono hs2).trans hc)
      nlinarith
    · rw [← G_zero]
      refine G_anti ht zero_dom h0 fun s hs1 hs2 => ?_
      refine mul_nonpos_of_nonpos_of_nonneg (hcube s hs2) ?_
      rw [P_factor]
      have := mul_nonneg (by linarith : 0 ≤ s + 88/100) (hc.trans (cub_mono hs1))
      positivity

/-- The exponent of the acceptance probability, up to a factor. -/
noncomputable def g (t : ℝ) : ℝ := 3 / 2 * t ^ 2 - 3 * t - t ^ 3 + 3 * log (1 + t)

theorem hasDerivAt_g {t : ℝ} (h1 : 0 < 1 + t) : HasDerivAt g (-(3 * t ^ 3) / (1 + t)) t := by
  have e1 : HasDerivAt (fun t : ℝ => log (1 + t)) (1 / (1 + t)) t :=
    ((hasDerivAt_id t).const_add 1).log h1.ne'
  have e3 : HasDerivAt (fun t : ℝ => t ^ 2) (2 * t) t := by simpa using hasDerivAt_pow 2 t
  have e4 : HasDerivAt (fun t : ℝ => t ^ 3) (3 * t ^ 2) t := by simpa using hasDerivAt_pow 3 t
  have := (((e3.const_mul (3 / 2)).sub ((hasDerivAt_id t).const_mul 3)).sub e4).add (e1.const_mul 3)
  refine this.congr_deriv ?_
  field_simp
  ring

theorem g_nonpos {t : ℝ} (ht : 0 < 1 + t) : g t ≤ 0 := by
  have g0 : g 0 = 0 := by unfold g; norm_num
  rcases le_total 0 t with h0 | h0
  · have : AntitoneOn g (Set.Icc 0 t) := by
      refine antitoneOn_of_deriv_nonpos (convex_Icc 0 t) ?_ ?_ ?_
      · exact fun s hs => (hasDerivAt_g (by linarith [hs.1])).continuousAt.continuousWithinAt
      · intro s hs
        rw [interior_Icc] at hs
        exact (hasDerivAt_g (by linarith [hs.1])).differentiableAt.differentiableWithinAt
      · intro s hs
        rw [interior_Icc] at hs
        rw [(hasDerivAt_g (by linarith [hs.1])).deriv]
        have := pow_nonneg hs.1.le 3
        exact div_nonpos_of_nonpos_of_nonneg (by linarith) (by linarith [hs.1])
    rw [← g0]
    exact this ⟨le_rfl, h0⟩ ⟨h0, le_rfl⟩ h0
  · have : MonotoneOn g (Set.Icc t 0) := by
      refine monotoneOn_of_deriv_nonneg (convex_Icc t 0) ?_ ?_ ?_
      · exact fun s hs => (hasDerivAt_g (by linarith [hs.1])).continuousAt.continuousWithinAt
      · intro s hs
        rw [interior_Icc] at hs
        exact (hasDerivAt_g (by linarith [hs.1])).differentiableAt.differentiableWithinAt
      · intro s hs
        rw [interior_Icc] at hs
        rw [(hasDerivAt_g (by linarith [hs.1])).deriv]
        have : s ^ 3 ≤ 0 := by nlinarith [sq_nonneg s, hs.2]
        exact div_nonneg (by linarith) (by linarith [hs.1])
    rw [← g0]
    exact this ⟨le_rfl, h0⟩ ⟨h0, le_rfl⟩ h0

/-- The smallest case of the squeeze. -/
theorem squeeze_base {t : ℝ} (ht : 0 < 1 + t) : 1 - exp (2 / 3 * g t) ≤ q * t ^ 4 := by
  by_cases h : 0 < 1 - q * t ^ 4
  · have hG := G_nonneg ⟨ht, h⟩
    have e : G t = 2 / 3 * g t - log (1 - q * t ^ 4) := by
      unfold G g
      ring
    rw [e] at hG
    have := exp_le_exp.2 (by linarith : log (1 - q * t ^ 4) ≤ 2 / 3 * g t)
    rw [exp_log h] at this
    linarith
  · have := exp_pos (2 / 3 * g t)
    linarith

/-- `(1 - e ^ (d x)) / d` decreases with `d`. -/
theorem slope_le {x d : ℝ} (hd : 2 / 3 ≤ d) : (1 - exp (d * x)) ≤ 3 / 2 * d * (1 - exp (2 / 3 * x)) := by
  have ha : 0 ≤ 2 / 3 / d := div_nonneg (by norm_num) (by linarith)
  have hb : 0 ≤ 1 - 2 / 3 / d := by
    rw [sub_nonneg, div_le_one (by linarith)]
    exact hd
  have hconv := convexOn_exp.2 (Set.mem_univ (d * x)) (Set.mem_univ (0 : ℝ)) ha hb (by ring)
  have hd0 : d ≠ 0 := by linarith
  have e : (2 / 3 / d) • (d * x) + (1 - 2 / 3 / d) • (0 : ℝ) = 2 / 3 * x := by
    simp only [smul_eq_mul]
    field_simp
    ring
  rw [e] at hconv
  simp only [smul_eq_mul, exp_zero, mul_one] at hconv
  have h3 : 3 / 2 * d * (2 / 3 / d) = 1 := by field_simp
  have hd' : (0 : ℝ) < 3 / 2 * d := by linarith
  have := mul_le_mul_of_nonneg_left hconv hd'.le
  have e2 : 3 / 2 * d * (2 / 3 / d * exp (d * x) + (1 - 2 / 3 / d)) = exp (d * x) + (3 / 2 * d - 1) := by
    linear_combination (exp (d * x) - 1) * h3
  rw [e2] at this
  linarith

theorem squeeze {d t : ℝ} (hd : 2 / 3 ≤ d) (ht : 0 < 1 + t) : 1 - 331 / 10000 * (81 * d ^ 2 * t ^ 4) ≤ exp (d * g t) := by
  have h1 := slope_le (x := g t) hd
  have h2 := squeeze_base ht
  have hq := q_le
  have ht4 : 0 ≤ t ^ 4 := by positivity
  have h3 : 3 / 2 * d * (1 - exp (2 / 3 * g t)) ≤ 3 / 2 * d * (331 / 10000 * 36 * t ^ 4) := by
    refine mul_le_mul_of_nonneg_left (h2.trans ?_) (by linarith)
    exact mul_le_mul_of_nonneg_right hq ht4
  have h4 : 3 / 2 * d * (331 / 10000 * 36 * t ^ 4) ≤ 331 / 10000 * (81 * d ^ 2 * t ^ 4) := by
    have : 0 ≤ d * t ^ 4 * (d - 2 / 3) := mul_nonneg (mul_nonneg (by linarith) ht4) (by linarith)
    nlinarith
  linarith


/-! ### Acceptance -/

theorem c_pos {d : ℝ} (hd : 0 < d) : 0 < cOf d := by unfold cOf; positivity

theorem c_sq {d : ℝ} (hd : 0 < d) : 9 * d * (cOf d * cOf d) = 1 := by
  unfold cOf
  rw [div_mul_div_comm, mul_self_sqrt (by linarith)]
  field_simp

theorem criterion_eq {d x : ℝ} (hd : 0 < d) (hx : x ∈ S (cOf d)) :
    criterion d x (vOf (cOf d) x) = d * g (cOf d * x) := by
  have hc := c_sq hd
  change 0 < 1 + cOf d * x at hx
  have hl : log (vOf (cOf d) x) = 3 * log (1 + cOf d * x) := by
    unfold vOf
    rw [log_mul (by positivity) hx.ne', log_mul hx.ne' hx.ne']
    ring
  unfold criterion g
  rw [hl]
  unfold vOf
  linear_combination (-(1 / 2) * x ^ 2) * hc

/-- The law of acceptance, given `x`. -/
theorem accept_prob {d x : ℝ} (hd : 2 / 3 ≤ d) (hx : x ∈ S (cOf d)) :
    uniform0e1e {u | (x, u) ∈ accepted d (cOf d)} = ENNReal.ofReal (exp (criterion d x (vOf (cOf d) x))) := by
  have hd0 : 0 < d := by linarith
  have hc := c_sq hd0
  have hcrit := criterion_eq hd0 hx
  have hx' : 0 < 1 + cOf d * x := hx
  have hle : exp (criterion d x (vOf (cOf d) x)) ≤ 1 := by
    rw [hcrit, exp_le_one_iff]
    exact mul_nonpos_of_nonneg_of_nonpos hd0.le (g_nonpos hx')
  have hsq : 1 - 0.0331 * x * x * x * x ≤ exp (criterion d x (vOf (cOf d) x)) := by
    rw [hcrit]
    refine le_trans (le_of_eq ?_) (squeeze hd hx')
    have : x * x * x * x = 81 * d ^ 2 * (cOf d * x) ^ 4 := by
      linear_combination (-(9 * d * (cOf d * cOf d)) - 1) * x ^ 4 * hc
    linear_combination (-(331 / 10000) : ℝ) * this
  have hset : {u | (x, u) ∈ accepted d (cOf d)} ∩ Ioo 0 1 = Ioo 0 (exp (criterion d x (vOf (cOf d) x))) := by
    ext u
    simp only [accepted, mem_inter_iff, mem_ofPred_eq, mem_Ioo]
    constructor
    · rintro ⟨h | h, h0, h1⟩
      · exact ⟨h0, h.trans_le hsq⟩
      · exact ⟨h0, (log_lt_iff_lt_exp h0).1 h⟩
    · rintro ⟨h0, h⟩
      exact ⟨.inr ((log_lt_iff_lt_exp h0).2 h), h0, h.trans_le hle⟩
  rw [uniform0e1e_eq, Measure.restrict_apply' measurableSet_Ioo, hset, Real.volume_Ioo, sub_zero]

theorem measurable_vOf (c : ℝ) : Measurable (vOf c) := by
  unfold vOf
  fun_prop

theorem measurable_value (theta d c : ℝ) : Measurable (value theta d c) := by
  unfold value
  exact measurable_const.mul (measurable_vOf c)

theorem measurable_accepted (d c : ℝ) : MeasurableSet (accepted d c) := by
  unfold accepted
  refine MeasurableSet.union (measurableSet_lt measurable_snd (by fun_prop))
    (measurableSet_lt (measurable_log.comp measurable_snd) ?_)
  unfold criterion vOf
  fun_prop

/-! ### The change of variables -/

section change

variable {k theta : ℝ}

/-- The derivative of the value. -/
theorem hasDerivAt_value (theta d c x : ℝ) :
    HasDerivAt (value theta d c) (3 * theta * d * c * (1 + c * x) ^ 2) x := by
  have h : HasDerivAt (fun x : ℝ => 1 + c * x) c x := by
    simpa using ((hasDerivAt_id x).const_mul c).const_add 1
  have h3 := (h.pow 3).const_mul (theta * d)
  have e : value theta d c = fun y => theta * d * (fun x : ℝ => 1 + c * x) y ^ 3 := by
    funext y
    unfold value vOf
    ring
  rw [e]
  refine h3.congr_deriv ?_
  push_cast
  ring

theorem injOn_value {theta d c : ℝ} (h : 0 < theta * d) (hc : 0 < c) : InjOn (value theta d c) (S c) := by
  intro x hx y hy e
  have hx' : 0 < 1 + c * x := hx
  have hy' : 0 < 1 + c * y := hy
  have e1 : (1 + c * x) ^ 3 = (1 + c * y) ^ 3 := by
    have : theta * d * (1 + c * x) ^ 3 = theta * d * (1 + c * y) ^ 3 := by
      unfold value vOf at e
      linear_combination e
    exact mul_left_cancel₀ h.ne' this
  have e2 := (pow_left_inj₀ hx'.le hy'.le (by norm_num : 3 ≠ 0)).1 e1
  exact mul_left_cancel₀ hc.ne' (by linarith)

theorem image_value {theta d c : ℝ} (h : 0 < theta * d) (hc : 0 < c) (A : Set ℝ) :
    value theta d c '' (S c ∩ value theta d c ⁻¹' A) = A ∩ Ioi 0 := by
  rw [inter_comm, image_preimage_inter]
  congr 1
  ext y
  constructor
  · rintro ⟨x, hx, rfl⟩
    have hx' : 0 < 1 + c * x := hx
    show 0 < value theta d c x
    unfold value vOf
    positivity
  · intro hy
    have hy' : 0 < y := hy
    set w := (y / (theta * d)) ^ (1 / 3 : ℝ) with hw
    have hwpos : 0 < w := rpow_pos_of_pos (div_pos hy' h) _
    have hw3 : w * w * w = y / (theta * d) := by
      have : w ^ (3 : ℕ) = y / (theta * d) := by
        rw [hw, ← rpow_natCast, ← rpow_mul (div_pos hy' h).le]
        norm_num
      rw [← this]
      ring
    refine ⟨(w - 1) / c, ?_, ?_⟩
    · show 0 < 1 + c * ((w - 1) / c)
      rw [mul_div_cancel₀ _ hc.ne']
      linarith
    · unfold value vOf
      rw [mul_div_cancel₀ _ hc.ne', add_sub_cancel, hw3, mul_div_cancel₀ _ h.ne']

/-- The constant of proportionality. -/
noncomputable def K (k theta : ℝ) : ℝ :=
  (√(2 * π))⁻¹ * exp (dOf k) * Real.Gamma k /
    ((1 / theta) ^ k * (3 * theta * dOf k * cOf (dOf k)) * (theta * dOf k) ^ (k - 1))

theorem K_pos (hk : 1 ≤ k) (ht : 0 < theta) : 0 < K k theta := by
  have hd : 0 < dOf k := by unfold dOf; linarith
  have hc := c_pos hd
  have hG := Real.Gamma_pos_of_pos (by linarith : 0 < k)
  unfold K
  have := rpow_pos_of_pos (by positivity : 0 < 1 / theta) k
  have := rpow_pos_of_pos (by positivity : 0 < theta * dOf k) (k - 1)
  positivity

theorem density (hk : 1 ≤ k) (ht : 0 < theta) {x : ℝ} (hx : x ∈ S (cOf (dOf k))) :
    gaussianPDFReal 0 1 x * exp (criterion (dOf k) x (vOf (cOf (dOf k)) x)) =
      K k theta * ((3 * theta * dOf k * cOf (dOf k) * (1 + cOf (dOf k) * x) ^ 2) *
        gammaPDFReal k (1 / theta) (value theta (dOf k) (cOf (dOf k)) x)) := by
  have hd : 0 < dOf k := by unfold dOf; linarith
  have hc := c_pos hd
  have hG := Real.Gamma_pos_of_pos (by linarith : 0 < k)
  have hx' : 0 < 1 + cOf (dOf k) * x := hx
  set d := dOf k with hdk
  set c := cOf d with hcd
  set w := 1 + c * x with hw
  have hv : vOf c x = w ^ 3 := by unfold vOf; rw [← hw]; ring
  have hval : value theta d c x = theta * d * w ^ 3 := by unfold value; rw [hv]
  have hr := rpow_pos_of_pos (by positivity : 0 < 1 / theta) k
  have hp := rpow_pos_of_pos (by positivity : 0 < theta * d) (k - 1)
  have hval0 : 0 ≤ theta * d * w ^ 3 := by positivity
  rw [hval, gammaPDFReal, if_pos hval0, mul_rpow (by positivity) (by positivity), gaussianPDFReal]
  have hwp : (w ^ 3) ^ (k - 1) * w ^ 2 = exp (d * log (w ^ 3)) := by
    rw [mul_comm d, ← rpow_def_of_pos (by positivity), ← rpow_natCast, ← rpow_natCast, ← rpow_mul hx'.le, ← rpow_mul hx'.le,
      ← rpow_add hx']
    congr 1
    rw [hdk]
    unfold dOf
    push_cast
    ring
  have hexp : exp (-(x - 0) ^ 2 / (2 * ((1 : NNReal) : ℝ))) * exp (criterion d x (vOf c x)) =
      exp d * exp (-(1 / theta * (theta * d * w ^ 3))) * exp (d * log (w ^ 3)) := by
    rw [← exp_add, ← exp_add, ← exp_add]
    congr 1
    rw [hv]
    unfold criterion
    field_simp
    push_cast
    ring
  unfold K
  rw [← hdk, ← hcd]
  calc (√(2 * π * ((1 : NNReal) : ℝ)))⁻¹ * exp (-(x - 0) ^ 2 / (2 * ((1 : NNReal) : ℝ))) * exp (criterion d x (vOf c x))
      = (√(2 * π))⁻¹ * (exp (-(x - 0) ^ 2 / (2 * ((1 : NNReal) : ℝ))) * exp (criterion d x (vOf c x))) := by
        rw [NNReal.coe_one, mul_one]
        ring
    _ = (√(2 * π))⁻¹ * (exp d * exp (-(1 / theta * (theta * d * w ^ 3))) * ((w ^ 3) ^ (k - 1) * w ^ 2)) := by
        rw [hexp, hwp]
    _ = _ := by
        have := hr.ne'
        have := hp.ne'
        have := hG.ne'
        field_simp

theorem gammaMeasure_change (hk : 1 ≤ k) (ht : 0 < theta) {A : Set ℝ} (hA : MeasurableSet A) :
    ∫⁻ x in S (cOf (dOf k)) ∩ value theta (dOf k) (cOf (dOf k)) ⁻¹' A,
      gaussianPDF 0 1 x * ENNReal.ofReal (exp (criterion (dOf k) x (vOf (cOf (dOf k)) x))) =
    ENNReal.ofReal (K k theta) * gammaMeasure k (1 / theta) A := by
  have hd : 0 < dOf k := by unfold dOf; linarith
  have hc := c_pos hd
  have hm : MeasurableSet (S (cOf (dOf k)) ∩ value theta (dOf k) (cOf (dOf k)) ⁻¹' A) :=
    (measurable_S _).inter (measurable_value _ _ _ hA)
  have h0 : gammaMeasure k (1 / theta) A = ∫⁻ y in A ∩ Ioi 0, gammaPDF k (1 / theta) y := by
    rw [gammaMeasure, withDensity_apply _ hA]
    have e : ∫⁻ y in A ∩ Ici 0, gammaPDF k (1 / theta) y = ∫⁻ y in A ∩ Ioi 0, gammaPDF k (1 / theta) y := by
      rw [← Measure.restrict_restrict hA, ← Measure.restrict_restrict hA, restrict_Ioi_eq_restrict_Ici]
    rw [← e, ← lintegral_inter_add_sdiff (μ := volume) _ A measurableSet_Ici]
    have : ∫⁻ y in A \ Ici 0, gammaPDF k (1 / theta) y = 0 := by
      rw [setLIntegral_congr_fun (g := fun _ => 0) (hA.diff measurableSet_Ici)]
      · simp
      · intro y hy
        exact gammaPDF_of_neg (not_le.1 hy.2)
    rw [this, add_zero]
  rw [h0, ← image_value (mul_pos ht hd) hc A,
    lintegral_image_eq_lintegral_abs_deriv_mul hm (fun x _ => (hasDerivAt_value theta _ _ x).hasDerivWithinAt)
      ((injOn_value (mul_pos ht hd) hc).mono inter_subset_left),
    ← lintegral_const_mul' _ _ ENNReal.ofReal_ne_top]
  refine setLIntegral_congr_fun hm fun x hx => ?_
  have hx' : 0 < 1 + cOf (dOf k) * x := hx.1
  have hnn : 0 ≤ 3 * theta * dOf k * cOf (dOf k) * (1 + cOf (dOf k) * x) ^ 2 := by positivity
  rw [gaussianPDF, gammaPDF, ← ENNReal.ofReal_mul (gaussianPDFReal_nonneg _ _ _), density hk ht hx.1, abs_of_nonneg hnn,
    ENNReal.ofReal_mul (K_pos hk ht).le, ENNReal.ofReal_mul hnn]

theorem trial_apply (hk : 1 ≤ k) (ht : 0 < theta) {A : Set ℝ} (hA : MeasurableSet A) :
    ((proposal (cOf (dOf k))).prod uniform0e1e) (accepted (dOf k) (cOf (dOf k)) ∩
      (fun p : ℝ × ℝ => value theta (dOf k) (cOf (dOf k)) p.1) ⁻¹' A) =
    (standardNormal (S (cOf (dOf k))))⁻¹ * (ENNReal.ofReal (K k theta) * gammaMeasure k (1 / theta) A) := by
  have := uniform0e1e_prob
  have hd : 2 / 3 ≤ dOf k := by unfold dOf; linarith
  have hms : MeasurableSet (accepted (dOf k) (cOf (dOf k)) ∩
      (fun p : ℝ × ℝ => value theta (dOf k) (cOf (dOf k)) p.1) ⁻¹' A) :=
    (measurable_accepted _ _).inter (((measurable_value _ _ _).comp measurable_fst) hA)
  have hmf : Measurable fun x => exp (criterion (dOf k) x (vOf (cOf (dOf k)) x)) := by
    unfold criterion vOf
    fun_prop
  rw [Measure.prod_apply hms, proposal_eq, lintegral_smul_measure, smul_eq_mul]
  congr 1
  rw [← gammaMeasure_change hk ht hA, standardNormal, gaussianReal_of_var_ne_zero _ one_ne_zero,
    restrict_withDensity (measurable_S _), lintegral_withDensity_eq_lintegral_mul _ (measurable_gaussianPDF 0 1)
      (measurable_measure_prodMk_left hms), inter_comm (S _), ← Measure.restrict_restrict (measurable_value _ _ _ hA),
    ← lintegral_indicator (measurable_value _ _ _ hA)]
  refine setLIntegral_congr_fun (measurable_S _) fun x hx => ?_
  rw [Pi.mul_apply]
  by_cases hxA : value theta (dOf k) (cOf (dOf k)) x ∈ A
  · rw [indicator_of_mem (show x ∈ value theta (dOf k) (cOf (dOf k)) ⁻¹' A from hxA)]
    congr 1
    rw [← accept_prob hd hx]
    congr 1
    ext u
    exact ⟨fun h => h.1, fun h => ⟨h, hxA⟩⟩
  · rw [indicator_of_notMem (show x ∉ value theta (dOf k) (cOf (dOf k)) ⁻¹' A from hxA)]
    have : Prod.mk x ⁻¹' (accepted (dOf k) (cOf (dOf k)) ∩
        (fun p : ℝ × ℝ => value theta (dOf k) (cOf (dOf k)) p.1) ⁻¹' A) = ∅ := by
      ext u
      exact ⟨fun h => hxA h.2, fun h => h.elim⟩
    rw [this, measure_empty, mul_zero]

/-- C96: the numbers returned have a gamma distribution with the shape and the scale that have been given, if the shape is
at least one. -/
theorem C96_shape_ge_1 (hk : 1 ≤ k) (ht : 0 < theta) : gammaShapeGe1 k theta = gammaMeasure k (1 / theta) := by
  have := uniform0e1e_prob
  have := proposal_prob (cOf (dOf k))
  have := standardNormal_prob
  have hg := isProbabilityMeasure_gammaMeasure (by linarith : 0 < k) (by positivity : 0 < 1 / theta)
  have hres : Measurable fun p : ℝ × ℝ => value theta (dOf k) (cOf (dOf k)) p.1 :=
    (measurable_value _ _ _).comp measurable_fst
  have hC : (standardNormal (S (cOf (dOf k))))⁻¹ * ENNReal.ofReal (K k theta) ≠ 0 :=
    mul_ne_zero (ENNReal.inv_ne_zero.2 (measure_ne_top _ _)) (ENNReal.ofReal_pos.2 (K_pos hk ht)).ne'
  have hC' : (standardNormal (S (cOf (dOf k))))⁻¹ * ENNReal.ofReal (K k theta) ≠ ∞ :=
    ENNReal.mul_ne_top (ENNReal.inv_ne_top.2 (normal_S_ne_zero _)) ENNReal.ofReal_ne_top
  have hgood := trial_apply (theta := theta) hk ht MeasurableSet.univ
  rw [preimage_univ, inter_univ, measure_univ, mul_one] at hgood
  ext A hA
  rw [gammaShapeGe1, loop_apply _ (measurable_accepted _ _) hres hA, trial_apply hk ht hA, hgood, ← mul_assoc, ← mul_assoc,
    mul_assoc _ _ (ENNReal.ofReal _), ENNReal.inv_mul_cancel hC hC', one_mul]

end change

/-! ### Shapes less than one -/

/-- The density of the product, given the first factor. -/
noncomputable def dens (k x y : ℝ) : ℝ := k * (y / x) ^ (k - 1) / x

theorem image_power {k x : ℝ} (hk : 0 < k) (hx : 0 < x) : (fun y => (y / x) ^ k) '' Ioo 0 x = Ioo 0 1 := by
  ext u
  constructor
  · rintro ⟨y, ⟨h1, h2⟩, rfl⟩
    have : 0 < y / x := div_pos h1 hx
    exact ⟨rpow_pos_of_pos this k, rpow_lt_one this.le ((div_lt_one hx).2 h2) hk⟩
  · rintro ⟨h1, h2⟩
    have hp := rpow_pos_of_pos h1 (1 / k)
    refine ⟨x * u ^ (1 / k), ⟨mul_pos hx hp, ?_⟩, ?_⟩
    · have := rpow_lt_one h1.le h2 (by positivity : 0 < 1 / k)
      nlinarith
    · dsimp only
      rw [mul_div_cancel_left₀ _ hx.ne', ← rpow_mul h1.le, one_div_mul_cancel hk.ne', rpow_one]

theorem injOn_power {k x : ℝ} (hk : 0 < k) (hx : 0 < x) : InjOn (fun y => (y / x) ^ k) (Ioo 0 x) := by
  intro a ha b hb e
  have h := (rpow_left_inj (div_pos ha.1 hx).le (div_pos hb.1 hx).le hk.ne').1 e
  field_simp at h
  exact h

theorem hasDerivAt_power {k x y : ℝ} (hx : 0 < x) (hy : 0 < y) :
    HasDerivAt (fun y => (y / x) ^ k) (dens k x y) y := by
  have h : HasDerivAt (fun y : ℝ => y / x) (1 / x) y := (hasDerivAt_id y).div_const x
  have := h.rpow_const (p := k) (.inl (div_pos hy hx).ne')
  refine this.congr_deriv ?_
  unfold dens
  ring

theorem given_first {k x : ℝ} (hk : 0 < k) (hx : 0 < x) {A : Set ℝ} (hA : MeasurableSet A) :
    (volume.restrict (Ioo 0 1)) {u | x * u ^ (1 / k) ∈ A} =
      ∫⁻ y in Ioi 0, (Iio x ∩ A).indicator (fun y => ENNReal.ofReal (dens k x y)) y := by
  have hm : Measurable fun u : ℝ => x * u ^ (1 / k) := by fun_prop
  have hs : MeasurableSet {u : ℝ | x * u ^ (1 / k) ∈ A} := hm hA
  rw [← lintegral_indicator_one hs, ← image_power hk hx, lintegral_image_eq_lintegral_abs_deriv_mul measurableSet_Ioo
    (fun y hy => (hasDerivAt_power hx hy.1).hasDerivWithinAt) (injOn_power hk hx)]
  rw [lintegral_indicator (measurableSet_Iio.inter hA), Measure.restrict_restrict (measurableSet_Iio.inter hA)]
  have e : Iio x ∩ A ∩ Ioi 0 = A ∩ Ioo 0 x := by
    ext y
    simp only [mem_inter_iff, mem_Iio, mem_Ioi, mem_Ioo]
    tauto
  rw [e, ← Measure.restrict_restrict hA, ← lintegral_indicator hA]
  refine setLIntegral_congr_fun measurableSet_Ioo fun y hy => ?_
  have hpos : 0 ≤ dens k x y := by
    have := rpow_nonneg (div_pos hy.1 hx).le (k - 1)
    unfold dens
    positivity
  have hback : x * ((y / x) ^ k) ^ (1 / k) = y := by
    rw [← rpow_mul (div_pos hy.1 hx).le, mul_one_div_cancel hk.ne', rpow_one, mul_div_cancel₀ _ hx.ne']
  have hiff : (y / x) ^ k ∈ {u : ℝ | x * u ^ (1 / k) ∈ A} ↔ y ∈ A := by
    show x * ((y / x) ^ k) ^ (1 / k) ∈ A ↔ y ∈ A
    rw [hback]
  rw [abs_of_nonneg hpos]
  by_cases h : y ∈ A
  · rw [indicator_of_mem h, indicator_of_mem (hiff.2 h), Pi.one_apply, mul_one]
  · rw [indicator_of_notMem h, indicator_of_notMem (fun x => h (hiff.1 x)), mul_zero]

theorem gammaMeasure_eq (a r : ℝ) : gammaMeasure a r = (volume.restrict (Ioi 0)).withDensity (gammaPDF a r) := by
  ext A hA
  have hm : Measurable (gammaPDF a r) := (measurable_gammaPDFReal a r).ennreal_ofReal
  rw [gammaMeasure, withDensity_apply _ hA, withDensity_apply _ hA, Measure.restrict_restrict hA,
    ← lintegral_inter_add_sdiff (μ := volume) _ A measurableSet_Ici]
  have e : ∫⁻ y in A ∩ Ici 0, gammaPDF a r y = ∫⁻ y in A ∩ Ioi 0, gammaPDF a r y := by
    rw [← Measure.restrict_restrict hA, ← Measure.restrict_restrict hA, restrict_Ioi_eq_restrict_Ici]
  have : ∫⁻ y in A \ Ici 0, gammaPDF a r y = 0 := by
    rw [setLIntegral_congr_fun (g := fun _ => 0) (hA.diff measurableSet_Ici)]
    · simp
    · intro y hy
      exact gammaPDF_of_neg (not_le.1 hy.2)
  rw [this, add_zero, e]

/-- The integral over the first factor. -/
theorem over_first {k r y : ℝ} (hk : 0 < k) (hr : 0 < r) (hy : 0 < y) :
    ∫⁻ x in Ioi y, gammaPDF (1 + k) r x * ENNReal.ofReal (dens k x y) = gammaPDF k r y := by
  have hG := Real.Gamma_pos_of_pos hk
  have hG1 : Real.Gamma (1 + k) = k * Real.Gamma k := by rw [add_comm, Real.Gamma_add_one hk.ne']
  have hc : 0 ≤ r ^ k / Real.Gamma k * y ^ (k - 1) * r := by
    have := rpow_nonneg hr.le k
    have := rpow_nonneg hy.le (k - 1)
    positivity
  have e : ∀ x ∈ Ioi y, gammaPDF (1 + k) r x * ENNReal.ofReal (dens k x y) =
      ENNReal.ofReal (r ^ k / Real.Gamma k * y ^ (k - 1) * r * exp (-r * x)) := by
    intro x hx
    have hx' : 0 < x := hy.trans hx
    rw [gammaPDF, ← ENNReal.ofReal_mul (gammaPDFReal_nonneg (by linarith) hr x), gammaPDFReal, if_pos hx'.le, hG1]
    congr 1
    unfold dens
    rw [div_rpow hy.le hx'.le, rpow_add hr, rpow_one, add_sub_cancel_left]
    have hxk : x ^ k = x ^ (k - 1) * x := by
      rw [← rpow_add_one hx'.ne', sub_add_cancel]
    rw [hxk, neg_mul]
    have := (rpow_pos_of_pos hx' (k - 1)).ne'
    field_simp
  rw [setLIntegral_congr_fun measurableSet_Ioi e]
  have hint : IntegrableOn (fun x => r ^ k / Real.Gamma k * y ^ (k - 1) * r * exp (-r * x)) (Ioi y) :=
    (integrableOn_exp_mul_Ioi (by linarith) y).const_mul _
  rw [← ofReal_integral_eq_lintegral_ofReal hint (Filter.Eventually.of_forall fun x => mul_nonneg hc (exp_pos _).le),
    integral_const_mul, integral_exp_mul_Ioi (by linarith), gammaPDF, gammaPDFReal, if_pos hy.le]
  congr 1
  rw [neg_mul]
  field_simp

theorem measurable_dens (k : ℝ) : Measurable fun p : ℝ × ℝ => dens k p.1 p.2 := by
  unfold dens
  fun_prop

/-- The distribution of a product with a power of a uniform number. -/
theorem boost {k r : ℝ} (hk : 0 < k) (hr : 0 < r) :
    ((gammaMeasure (1 + k) r).prod (volume.restrict (Ioo 0 1))).map (fun p => p.1 * p.2 ^ (1 / k)) = gammaMeasure k r := by
  have hf : Measurable fun p : ℝ × ℝ => p.1 * p.2 ^ (1 / k) := by fun_prop
  have hm : ∀ a, Measurable (gammaPDF a r) := fun a => (measurable_gammaPDFReal a r).ennreal_ofReal
  ext A hA
  rw [Measure.map_apply hf hA, Measure.prod_apply (hf hA), gammaMeasure_eq (1 + k),
    lintegral_withDensity_eq_lintegral_mul _ (hm _) (measurable_measure_prodMk_left (hf hA))]
  have e1 : ∀ x ∈ Ioi (0 : ℝ), (gammaPDF (1 + k) r * fun x => (volume.restrict (Ioo 0 1))
      (Prod.mk x ⁻¹' ((fun p : ℝ × ℝ => p.1 * p.2 ^ (1 / k)) ⁻¹' A))) x =
      ∫⁻ y in Ioi 0, gammaPDF (1 + k) r x * (Iio x ∩ A).indicator (fun y => ENNReal.ofReal (dens k x y)) y := by
    intro x hx
    rw [Pi.mul_apply, lintegral_const_mul' _ _ (by unfold gammaPDF; exact ENNReal.ofReal_ne_top), ← given_first hk hx hA]
    rfl
  rw [setLIntegral_congr_fun measurableSet_Ioi e1, lintegral_lintegral_swap, gammaMeasure_eq k, withDensity_apply _ hA,
    ← lintegral_indicator hA]
  · refine setLIntegral_congr_fun measurableSet_Ioi fun y hy => ?_
    have hy' : (0 : ℝ) < y := hy
    by_cases h : y ∈ A
    · rw [indicator_of_mem h, ← over_first hk hr hy']
      have e2 : ∀ x : ℝ, gammaPDF (1 + k) r x * (Iio x ∩ A).indicator (fun y => ENNReal.ofReal (dens k x y)) y =
          (Ioi y).indicator (fun x => gammaPDF (1 + k) r x * ENNReal.ofReal (dens k x y)) x := by
        intro x
        by_cases hx : y < x
        · rw [indicator_of_mem (show y ∈ Iio x ∩ A from ⟨hx, h⟩), indicator_of_mem (show x ∈ Ioi y from hx)]
        · rw [indicator_of_notMem (fun z => hx z.1), indicator_of_notMem (show x ∉ Ioi y from hx), mul_zero]
      simp_rw [e2]
      rw [lintegral_indicator measurableSet_Ioi, Measure.restrict_restrict measurableSet_Ioi]
      congr 2
      ext x
      simp only [mem_inter_iff, mem_Ioi]
      exact ⟨fun z => z.1, fun z => ⟨z, hy'.trans z⟩⟩
    · rw [indicator_of_notMem h]
      have e2 : ∀ x : ℝ, gammaPDF (1 + k) r x * (Iio x ∩ A).indicator (fun y => ENNReal.ofReal (dens k x y)) y = 0 := by
        intro x
        rw [indicator_of_notMem (fun z => h z.2), mul_zero]
      simp_rw [e2]
      simp
  · have : (Function.uncurry fun x y : ℝ =>
        gammaPDF (1 + k) r x * (Iio x ∩ A).indicator (fun y => ENNReal.ofReal (dens k x y)) y) =
        fun p : ℝ × ℝ => gammaPDF (1 + k) r p.1 *
          ({p : ℝ × ℝ | p.2 < p.1} ∩ Prod.snd ⁻¹' A).indicator (fun p => ENNReal.ofReal (dens k p.1 p.2)) p := by
      funext p
      rfl
    rw [this]
    refine (((hm _).comp measurable_fst).mul ?_).aemeasurable
    exact (measurable_dens k).ennreal_ofReal.indicator
      ((measurableSet_lt measurable_snd measurable_fst).inter (measurable_snd hA))

/-- C96: the numbers returned have a gamma distribution with the shape and the scale that have been given. -/
theorem C96_gamma {shape scale : ℝ} (hk : 0 < shape) (ht : 0 < scale) : gamma shape scale = gammaMeasure shape (1 / scale) := by
  unfold gamma inverseK
  by_cases h : 1 ≤ shape
  · rw [if_pos h, if_pos rfl, if_pos h]
    exact C96_shape_ge_1 h ht
  · rw [if_neg h, if_neg (one_div_pos.2 hk).ne', if_neg h, C96_shape_ge_1 (by linarith) ht, uniform0e1e_eq]
    exact boost hk (by positivity)

/-- C96: the loops end: the numbers have a probability distribution; and they are positive. -/
theorem C96_positive {shape scale : ℝ} (hk : 0 < shape) (ht : 0 < scale) :
    gamma shape scale univ = 1 ∧ gamma shape scale (Iic 0) = 0 := by
  rw [C96_gamma hk ht]
  have := isProbabilityMeasure_gammaMeasure hk (by positivity : 0 < 1 / scale)
  refine ⟨measure_univ, ?_⟩
  rw [gammaMeasure_eq, withDensity_apply _ measurableSet_Iic, Measure.restrict_restrict measurableSet_Iic]
  have : Iic (0 : ℝ) ∩ Ioi 0 = ∅ := by
    ext x
    simp
  rw [this]
  simp

/-- C96: the uniform distribution. -/
theorem C96_uniform (a b : ℝ) (ha : 0 ≤ a) (hb : b ≤ 1) :
    uniform0e1e (Ioo a b) = ENNReal.ofReal (b - a) ∧ uniform0e1e {0, 1} = 0 := by
  rw [uniform0e1e_eq]
  constructor
  · rw [Measure.restrict_apply measurableSet_Ioo, inter_eq_left.2 (Ioo_subset_Ioo ha hb), Real.volume_Ioo]
  · rw [Measure.restrict_apply' measurableSet_Ioo]
    have : ({0, 1} : Set ℝ) ∩ Ioo 0 1 = ∅ := by
      ext x
      simp only [mem_inter_iff, mem_insert_iff, mem_singleton_iff, mem_Ioo, mem_empty_iff_false, iff_false]
      rintro ⟨rfl | rfl, h1, h2⟩
      · exact lt_irrefl _ h1
      · exact lt_irrefl _ h2
    rw [this, measure_empty]

/-- C96: the test that saves the computation of logarithms never accepts what the other one would not. -/
theorem C96_squeeze {k x u : ℝ} (hk : 1 ≤ k) (hu : 0 < u) (hx : 0 < 1 + cOf (dOf k) * x)
    (h : u < 1 - 0.0331 * x * x * x * x) : log u < criterion (dOf k) x (vOf (cOf (dOf k)) x) := by
  have hd : 2 / 3 ≤ dOf k := by unfold dOf; linarith
  have hd0 : 0 < dOf k := by linarith
  have hc := c_sq hd0
  rw [log_lt_iff_lt_exp hu, criterion_eq hd0 hx]
  refine h.trans_le (le_trans (le_of_eq ?_) (squeeze hd hx))
  have : x * x * x * x = 81 * dOf k ^ 2 * (cOf (dOf k) * x) ^ 4 := by
    linear_combination (-(9 * dOf k * (cOf (dOf k) * cOf (dOf k))) - 1) * x ^ 4 * hc
  linear_combination (-(331 / 10000) : ℝ) * this

example : gamma (3 / 2) 2 = gammaMeasure (3 / 2) (1 / 2) := C96_gamma (by norm_num) (by norm_num)
example : gamma (1 / 2) 2 = gammaMeasure (1 / 2) (1 / 2) := C96_gamma (by norm_num) (by norm_num)

end OpenMPCD.Random.Gamma
