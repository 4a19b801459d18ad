import Verif.Random.Gamma
import Mathlib.MeasureTheory.Measure.Lebesgue.EqHaar
import Mathlib.LinearAlgebra.Projection
import Mathlib.LinearAlgebra.Trace

/-!
# Rescaling part of the velocities to a random energy

For a linear projection `Pr`, velocities `v` are changed to `Pr v + ρ (v - Pr v)`, with a factor `ρ` such that the kinetic
energy of the second term becomes a random number with the gamma distribution. The distribution of velocities with a density
proportional to the exponential of the negative energy does not change by that.
-/

set_option linter.unusedSectionVars false
set_option linter.unusedSimpArgs false

open MeasureTheory ProbabilityTheory Set
open scoped ENNReal

namespace OpenMPCD.Random.Rescale

variable {ι : Type*} [Fintype ι] [DecidableEq ι]

/-- The kinetic energy, with half the masses as weights. -/
def energy (w : ι → ℝ) (v : ι → ℝ) : ℝ := ∑ q, w q * v q ^ 2

/-- The energy that changes. -/
def rel (w : ι → ℝ) (Pr : (ι → ℝ) →ₗ[ℝ] (ι → ℝ)) (v : ι → ℝ) : ℝ := energy w (v - Pr v)

/-- Rescaling. -/
def scaleBy (Pr : (ι → ℝ) →ₗ[ℝ] (ι → ℝ)) (ρ : ℝ) : (ι → ℝ) →ₗ[ℝ] (ι → ℝ) := ρ • LinearMap.id + (1 - ρ) • Pr

/-- An orthogonal projection with a kernel of dimension `D`. -/
structure Splits (w : ι → ℝ) (Pr : (ι → ℝ) →ₗ[ℝ] (ι → ℝ)) (D : ℕ) : Prop where
  pos : ∀ q, 0 < w q
  idem : ∀ v, Pr (Pr v) = Pr v
  orth : ∀ v, energy w v = energy w (v - Pr v) + energy w (Pr v)
  dim : Module.finrank ℝ (LinearMap.ker Pr) = D

theorem scaleBy_apply (Pr : (ι → ℝ) →ₗ[ℝ] (ι → ℝ)) (ρ : ℝ) (v : ι → ℝ) :
    scaleBy Pr ρ v = ρ • v + (1 - ρ) • Pr v := rfl

theorem energy_smul (w : ι → ℝ) (ρ : ℝ) (v : ι → ℝ) : energy w (ρ • v) = ρ ^ 2 * energy w v := by
  unfold energy
  rw [Finset.mul_sum]
  refine Finset.sum_congr rfl fun q _ => ?_
  rw [Pi.smul_apply, smul_eq_mul]
  ring

theorem measurable_energy (w : ι → ℝ) : Measurable (energy w) := by
  unfold energy
  exact Finset.measurable_sum _ fun q _ => ((measurable_pi_apply q).pow_const 2).const_mul _

section

variable {w : ι → ℝ} {Pr : (ι → ℝ) →ₗ[ℝ] (ι → ℝ)} {D : ℕ}

theorem energy_nonneg (hw : ∀ q, 0 < w q) (v : ι → ℝ) : 0 ≤ energy w v :=
  Finset.sum_nonneg fun q _ => mul_nonneg (hw q).le (sq_nonneg _)

theorem energy_eq_zero (hw : ∀ q, 0 < w q) {v : ι → ℝ} (h : energy w v = 0) : v = 0 := by
  unfold energy at h
  rw [Finset.sum_eq_zero_iff_of_nonneg fun q _ => mul_nonneg (hw q).le (sq_nonneg _)] at h
  funext q
  have := h q (Finset.mem_univ q)
  have h2 := (mul_eq_zero.1 this).resolve_left (hw q).ne'
  exact pow_eq_zero_iff (two_ne_zero) |>.1 h2

theorem base_scaleBy (h : Splits w Pr D) (ρ : ℝ) (v : ι → ℝ) : Pr (scaleBy Pr ρ v) = Pr v := by
  rw [scaleBy_apply, map_add, map_smul, map_smul, h.idem, ← add_smul]
  simp

theorem diff_scaleBy (h : Splits w Pr D) (ρ : ℝ) (v : ι → ℝ) :
    scaleBy Pr ρ v - Pr (scaleBy Pr ρ v) = ρ • (v - Pr v) := by
  rw [base_scaleBy h, scaleBy_apply, smul_sub, sub_smul, one_smul]
  abel

theorem rel_scaleBy (h : Splits w Pr D) (ρ : ℝ) (v : ι → ℝ) : rel w Pr (scaleBy Pr ρ v) = ρ ^ 2 * rel w Pr v := by
  unfold rel
  rw [diff_scaleBy h, energy_smul]

theorem measurable_Pr (Pr : (ι → ℝ) →ₗ[ℝ] (ι → ℝ)) : Measurable Pr :=
  Pr.continuous_of_finiteDimensional.measurable

theorem measurable_rel : Measurable (rel w Pr) :=
  (measurable_energy w).comp (measurable_id.sub (measurable_Pr Pr))

theorem measurable_scaleBy : Measurable fun p : ℝ × (ι → ℝ) => scaleBy Pr p.1 p.2 := by
  have h1 : Measurable fun p : ℝ × (ι → ℝ) => p.1 • p.2 := measurable_fst.smul measurable_snd
  have h2 : Measurable fun p : ℝ × (ι → ℝ) => (1 - p.1) • Pr p.2 :=
    (measurable_fst.const_sub 1).smul ((measurable_Pr Pr).comp measurable_snd)
  exact h1.add h2

theorem det_scaleBy (h : Splits w Pr D) (ρ : ℝ) : LinearMap.det (scaleBy Pr ρ) = ρ ^ D := by
  have hp : LinearMap.IsProj (LinearMap.range Pr) Pr :=
    ⟨fun x => ⟨x, rfl⟩, fun x ⟨y, hy⟩ => by rw [← hy, h.idem]⟩
  set e := (LinearMap.range Pr).prodEquivOfIsCompl (LinearMap.ker Pr) hp.isCompl with he
  have h1 : scaleBy Pr ρ = e.conj (LinearMap.prodMap LinearMap.id (ρ • LinearMap.id)) := by
    unfold scaleBy
    conv_lhs => rw [hp.eq_conj_prodMap]
    rw [← he]
    have hid : (LinearMap.id : (ι → ℝ) →ₗ[ℝ] (ι → ℝ)) = e.conj LinearMap.id := by
      rw [LinearEquiv.conj_id]
    rw [hid, ← map_smul, ← map_smul, ← map_add]
    congr 1
    apply LinearMap.ext
    rintro ⟨a, b⟩
    simp only [LinearMap.add_apply, LinearMap.smul_apply, LinearMap.id_apply, LinearMap.prodMap_apply, LinearMap.zero_apply,
      Prod.smul_mk, Prod.mk_add_mk, smul_zero, add_zero, ← add_smul]
    simp
  rw [h1, LinearEquiv.conj_apply, LinearMap.comp_assoc, LinearMap.det_conj, LinearMap.det_prodMap, LinearMap.det_id,
    LinearMap.det_smul, LinearMap.det_id, h.dim]
  simp

theorem lintegral_scaleBy (h : Splits w Pr D) {ρ : ℝ} (hρ : 0 < ρ) {F : (ι → ℝ) → ℝ≥0∞} (hF : Measurable F) :
    ∫⁻ v, F (scaleBy Pr ρ v) = ENNReal.ofReal ((ρ ^ D)⁻¹) * ∫⁻ v, F v := by
  have hd := det_scaleBy h ρ
  have h0 : LinearMap.det (scaleBy Pr ρ) ≠ 0 := by rw [hd]; positivity
  have hm := Real.map_linearMap_volume_pi_eq_smul_volume_pi h0
  rw [← lintegral_map hF (measurable_Pr _), hm, lintegral_smul_measure, hd, smul_eq_mul, abs_of_pos (by positivity)]

theorem rel_pos_ae (h : Splits w Pr D) (hD : D ≠ 0) : ∀ᵐ v : ι → ℝ, 0 < rel w Pr v := by
  have h0 : (volume : Measure (ι → ℝ)) (LinearMap.range Pr : Set (ι → ℝ)) = 0 := by
    apply Measure.addHaar_submodule
    intro e
    have h1 := LinearMap.finrank_range_add_finrank_ker Pr
    rw [e, finrank_top, h.dim] at h1
    omega
  rw [ae_iff]
  refine measure_mono_null (fun v hv => ?_) h0
  have h1 : rel w Pr v = 0 := le_antisymm (not_lt.1 hv) (energy_nonneg h.pos _)
  have h2 := energy_eq_zero h.pos h1
  exact ⟨v, (sub_eq_zero.1 h2).symm⟩

/-! ## Substitutions -/

theorem subst_sq {E : ℝ} (hE : 0 < E) (F : ℝ → ℝ≥0∞) :
    ∫⁻ g in Ioi (0 : ℝ), F g = ∫⁻ ρ in Ioi (0 : ℝ), ENNReal.ofReal (2 * E * ρ) * F (E * ρ ^ 2) := by
  have himg : (fun ρ => E * ρ ^ 2) '' Ioi (0 : ℝ) = Ioi 0 := by
    ext g
    constructor
    · rintro ⟨ρ, hρ, rfl⟩
      have : (0 : ℝ) < ρ := hρ
      exact mul_pos hE (by positivity)
    · intro hg
      have hg' : (0 : ℝ) < g := hg
      refine ⟨√(g / E), Real.sqrt_pos.2 (by positivity), ?_⟩
      simp only
      rw [Real.sq_sqrt (by positivity)]
      field_simp
  have := lintegral_image_eq_lintegral_abs_deriv_mul (f := fun ρ => E * ρ ^ 2) (f' := fun ρ => 2 * E * ρ)
    (measurableSet_Ioi (a := (0 : ℝ)))
    (fun ρ _ => (((hasDerivAt_pow 2 ρ).const_mul E).congr_deriv (by ring)).hasDerivWithinAt)
    (fun a ha b hb hab => by
      have ha' : (0 : ℝ) < a := ha
      have hb' : (0 : ℝ) < b := hb
      have : a ^ 2 = b ^ 2 := mul_left_cancel₀ hE.ne' hab
      nlinarith) F
  rw [himg] at this
  rw [this]
  refine setLIntegral_congr_fun measurableSet_Ioi fun ρ hρ => ?_
  have hρ' : (0 : ℝ) < ρ := hρ
  rw [abs_of_pos (by positivity)]

theorem subst_inv_sq {E : ℝ} (hE : 0 < E) (F : ℝ → ℝ≥0∞) :
    ∫⁻ g in Ioi (0 : ℝ), F g = ∫⁻ ρ in Ioi (0 : ℝ), ENNReal.ofReal (2 * E / ρ ^ 3) * F (E / ρ ^ 2) := by
  have himg : (fun ρ => E / ρ ^ 2) '' Ioi (0 : ℝ) = Ioi 0 := by
    ext g
    constructor
    · rintro ⟨ρ, hρ, rfl⟩
      have : (0 : ℝ) < ρ := hρ
      exact div_pos hE (by positivity)
    · intro hg
      have hg' : (0 : ℝ) < g := hg
      refine ⟨√(E / g), Real.sqrt_pos.2 (by positivity), ?_⟩
      simp only
      rw [Real.sq_sqrt (by positivity)]
      field_simp
  have := lintegral_image_eq_lintegral_abs_deriv_mul (f := fun ρ => E / ρ ^ 2) (f' := fun ρ => -(2 * E / ρ ^ 3))
    (measurableSet_Ioi (a := (0 : ℝ)))
    (fun ρ hρ => by
      have hρ' : (0 : ℝ) < ρ := hρ
      refine (((hasDerivAt_const ρ E).div (hasDerivAt_pow 2 ρ) (by positivity)).congr_deriv ?_).hasDerivWithinAt
      field_simp
      ring)
    (fun a ha b hb hab => by
      have ha' : (0 : ℝ) < a := ha
      have hb' : (0 : ℝ) < b := hb
      have h1 : E / a ^ 2 = E / b ^ 2 := hab
      rw [div_eq_div_iff (by positivity) (by positivity)] at h1
      have : b ^ 2 = a ^ 2 := mul_left_cancel₀ hE.ne' h1
      nlinarith) F
  rw [himg] at this
  rw [this]
  refine setLIntegral_congr_fun measurableSet_Ioi fun ρ hρ => ?_
  have hρ' : (0 : ℝ) < ρ := hρ
  rw [abs_neg, abs_of_pos (by positivity)]

/-! ## The law -/

/-- The density of the distribution that does not change. -/
noncomputable def boltzmann (w : ι → ℝ) (r : ℝ) (v : ι → ℝ) : ℝ≥0∞ := ENNReal.ofReal (Real.exp (-(r * energy w v)))

theorem measurable_boltzmann (w : ι → ℝ) (r : ℝ) : Measurable (boltzmann w r) :=
  (Real.measurable_exp.comp ((measurable_energy w).const_mul r).neg).ennreal_ofReal

theorem measurable_gammaPDF (k r : ℝ) : Measurable (gammaPDF k r) := (measurable_gammaPDFReal k r).ennreal_ofReal

theorem pointwise {r : ℝ} (hr : 0 < r) (hD : D ≠ 0) {E B ρ : ℝ} (hE : 0 < E) (hρ : 0 < ρ) :
    ENNReal.ofReal ((ρ ^ D)⁻¹) * (ENNReal.ofReal (Real.exp (-(r * (E / ρ ^ 2 + B)))) *
        (ENNReal.ofReal (2 * (E / ρ ^ 2) * ρ) * gammaPDF (D / 2) r E)) =
      ENNReal.ofReal (Real.exp (-(r * (E + B)))) * (ENNReal.ofReal (2 * E / ρ ^ 3) * gammaPDF (D / 2) r (E / ρ ^ 2)) := by
  have hk : (0 : ℝ) < (D : ℝ) / 2 := by
    have : (0 : ℝ) < D := by exact_mod_cast Nat.pos_of_ne_zero hD
    linarith
  have h1 := gammaPDFReal_nonneg hk hr
  unfold gammaPDF
  rw [← ENNReal.ofReal_mul (by positivity), ← ENNReal.ofReal_mul (by positivity), ← ENNReal.ofReal_mul (by positivity),
    ← ENNReal.ofReal_mul (by positivity), ← ENNReal.ofReal_mul (by positivity)]
  congr 1
  have hE2 : 0 < E / ρ ^ 2 := by positivity
  rw [gammaPDFReal, gammaPDFReal, if_pos hE.le, if_pos hE2.le, Real.div_rpow hE.le (by positivity)]
  have hpow : (ρ ^ 2) ^ ((D : ℝ) / 2 - 1) = ρ ^ D / ρ ^ 2 := by
    rw [← Real.rpow_natCast ρ 2, ← Real.rpow_mul hρ.le,
      show ((2 : ℕ) : ℝ) * ((D : ℝ) / 2 - 1) = (D : ℝ) - ((2 : ℕ) : ℝ) by push_cast; ring, Real.rpow_sub hρ,
      Real.rpow_natCast, Real.rpow_natCast]
  rw [hpow]
  have hexp : Real.exp (-(r * (E / ρ ^ 2 + B))) * Real.exp (-(r * E)) =
      Real.exp (-(r * (E + B))) * Real.exp (-(r * (E / ρ ^ 2))) := by
    rw [← Real.exp_add, ← Real.exp_add]
    congr 1
    ring
  generalize Real.exp (-(r * (E / ρ ^ 2 + B))) = a at *
  generalize Real.exp (-(r * E)) = b at *
  generalize Real.exp (-(r * (E + B))) = c at *
  generalize Real.exp (-(r * (E / ρ ^ 2))) = e at *
  have hx : r ^ ((D : ℝ) / 2) / Real.Gamma ((D : ℝ) / 2) * E ^ ((D : ℝ) / 2 - 1) ≠ 0 ∨ True := Or.inr trivial
  generalize r ^ ((D : ℝ) / 2) / Real.Gamma ((D : ℝ) / 2) = A
  generalize E ^ ((D : ℝ) / 2 - 1) = X
  have e1 : (ρ ^ D)⁻¹ * (a * (2 * (E / ρ ^ 2) * ρ * (A * X * b))) = (a * b) * ((ρ ^ D)⁻¹ * (2 * (E / ρ ^ 2) * ρ * (A * X))) := by
    ring
  rw [e1, hexp]
  field_simp

/-- The factor. -/
noncomputable def factor (w : ι → ℝ) (Pr : (ι → ℝ) →ₗ[ℝ] (ι → ℝ)) (v : ι → ℝ) (g : ℝ) : ℝ :=
  open Classical in if rel w Pr v = 0 then 1 else √(g / rel w Pr v)

theorem measurable_factor : Measurable fun p : (ι → ℝ) × ℝ => factor w Pr p.1 p.2 := by
  unfold factor
  have hr : Measurable fun p : (ι → ℝ) × ℝ => rel w Pr p.1 := measurable_rel.comp measurable_fst
  refine Measurable.ite (hr (measurableSet_singleton 0)) measurable_const ?_
  exact (measurable_snd.div hr).sqrt

/-- The rescaled velocities. -/
noncomputable def rescale (w : ι → ℝ) (Pr : (ι → ℝ) →ₗ[ℝ] (ι → ℝ)) (v : ι → ℝ) (g : ℝ) : ι → ℝ :=
  scaleBy Pr (factor w Pr v g) v

theorem measurable_rescale : Measurable fun p : (ι → ℝ) × ℝ => rescale w Pr p.1 p.2 :=
  measurable_scaleBy.comp (measurable_factor.prodMk measurable_fst)

theorem measurable_rescale_of {v : ι → ℝ} : Measurable fun g : ℝ => rescale w Pr v g := by
  have h1 : Measurable fun g : ℝ => (v, g) := measurable_const.prodMk measurable_id
  have := (measurable_rescale (w := w) (Pr := Pr)).comp h1
  exact this

/-- The integrand as a function of the factor and of the rescaled velocities. -/
noncomputable def integrand (w : ι → ℝ) (Pr : (ι → ℝ) →ₗ[ℝ] (ι → ℝ)) (D : ℕ) (r : ℝ) (f : (ι → ℝ) → ℝ≥0∞) (ρ : ℝ)
    (u : ι → ℝ) : ℝ≥0∞ :=
  ENNReal.ofReal (Real.exp (-(r * (rel w Pr u / ρ ^ 2 + energy w (Pr u))))) *
    (ENNReal.ofReal (2 * (rel w Pr u / ρ ^ 2) * ρ) * gammaPDF (D / 2) r (rel w Pr u)) * f u

theorem measurable_integrand {r : ℝ} {f : (ι → ℝ) → ℝ≥0∞} (hf : Measurable f) :
    Measurable fun p : ℝ × (ι → ℝ) => integrand w Pr D r f p.1 p.2 := by
  have hrel : Measurable fun p : ℝ × (ι → ℝ) => rel w Pr p.2 := measurable_rel.comp measurable_snd
  have hbase : Measurable fun p : ℝ × (ι → ℝ) => energy w (Pr p.2) :=
    ((measurable_energy w).comp (measurable_Pr Pr)).comp measurable_snd
  have hdiv : Measurable fun p : ℝ × (ι → ℝ) => rel w Pr p.2 / p.1 ^ 2 := hrel.div (measurable_fst.pow_const 2)
  have a1 : Measurable fun p : ℝ × (ι → ℝ) =>
      ENNReal.ofReal (Real.exp (-(r * (rel w Pr p.2 / p.1 ^ 2 + energy w (Pr p.2))))) :=
    (Real.measurable_exp.comp ((hdiv.add hbase).const_mul r).neg).ennreal_ofReal
  have a2 : Measurable fun p : ℝ × (ι → ℝ) => ENNReal.ofReal (2 * (rel w Pr p.2 / p.1 ^ 2) * p.1) :=
    ((hdiv.const_mul 2).mul measurable_fst).ennreal_ofReal
  have a3 : Measurable fun p : ℝ × (ι → ℝ) => gammaPDF (D / 2) r (rel w Pr p.2) :=
    (measurable_gammaPDF _ _).comp hrel
  have a4 : Measurable fun p : ℝ × (ι → ℝ) => f p.2 := hf.comp measurable_snd
  exact (a1.mul (a2.mul a3)).mul a4

theorem measurable_integrand_of {r : ℝ} {f : (ι → ℝ) → ℝ≥0∞} (hf : Measurable f) {ρ : ℝ} :
    Measurable (integrand w Pr D r f ρ) := by
  have h1 : Measurable fun u : ι → ℝ => (ρ, u) := measurable_const.prodMk measurable_id
  have := (measurable_integrand (w := w) (Pr := Pr) (D := D) (r := r) hf).comp h1
  exact this

theorem lintegral_rescale (h : Splits w Pr D) (hD : D ≠ 0) {r : ℝ} (hr : 0 < r) {f : (ι → ℝ) → ℝ≥0∞}
    (hf : Measurable f) :
    ∫⁻ v, boltzmann w r v * ∫⁻ g in Ioi (0 : ℝ), gammaPDF (D / 2) r g * f (rescale w Pr v g) =
      ∫⁻ v, boltzmann w r v * f v := by
  have hk : (0 : ℝ) < (D : ℝ) / 2 := by
    have : (0 : ℝ) < D := by exact_mod_cast Nat.pos_of_ne_zero hD
    linarith
  have hH : Measurable fun p : ℝ × (ι → ℝ) => integrand w Pr D r f p.1 p.2 := measurable_integrand hf
  have hHρ : ∀ ρ, Measurable (integrand w Pr D r f ρ) := fun ρ => measurable_integrand_of hf
  have hsc : Measurable fun p : ℝ × (ι → ℝ) => (p.1, scaleBy Pr p.1 p.2) :=
    measurable_fst.prodMk (measurable_scaleBy (Pr := Pr))
  have hHS : Measurable fun p : ℝ × (ι → ℝ) => integrand w Pr D r f p.1 (scaleBy Pr p.1 p.2) := by
    have := hH.comp hsc
    exact this
  have step1 : ∀ᵐ v : ι → ℝ, boltzmann w r v * ∫⁻ g in Ioi (0 : ℝ), gammaPDF (D / 2) r g * f (rescale w Pr v g) =
      ∫⁻ ρ in Ioi (0 : ℝ), integrand w Pr D r f ρ (scaleBy Pr ρ v) := by
    filter_upwards [rel_pos_ae h hD] with v hv
    have hg : Measurable fun ρ : ℝ => ENNReal.ofReal (2 * rel w Pr v * ρ) * (gammaPDF (D / 2) r (rel w Pr v * ρ ^ 2) *
        f (rescale w Pr v (rel w Pr v * ρ ^ 2))) := by
      have hq : Measurable fun ρ : ℝ => rel w Pr v * ρ ^ 2 := (measurable_id.pow_const 2).const_mul _
      have a1 : Measurable fun ρ : ℝ => ENNReal.ofReal (2 * rel w Pr v * ρ) := (measurable_id.const_mul _).ennreal_ofReal
      have a2 : Measurable fun ρ : ℝ => gammaPDF (D / 2) r (rel w Pr v * ρ ^ 2) := (measurable_gammaPDF _ _).comp hq
      have h2 : Measurable fun ρ : ℝ => rescale w Pr v (rel w Pr v * ρ ^ 2) :=
        measurable_rescale_of.comp hq
      have a3 : Measurable fun ρ : ℝ => f (rescale w Pr v (rel w Pr v * ρ ^ 2)) := hf.comp h2
      exact a1.mul (a2.mul a3)
    rw [subst_sq hv, ← lintegral_const_mul _ hg]
    refine setLIntegral_congr_fun measurableSet_Ioi fun ρ hρ => ?_
    have hρ' : (0 : ℝ) < ρ := hρ
    have hfac : factor w Pr v (rel w Pr v * ρ ^ 2) = ρ := by
      unfold factor
      rw [if_neg hv.ne', mul_div_cancel_left₀ _ hv.ne', Real.sqrt_sq hρ'.le]
    have e1 : rel w Pr (scaleBy Pr ρ v) / ρ ^ 2 = rel w Pr v := by
      rw [rel_scaleBy h]
      field_simp
    unfold integrand
    rw [e1, base_scaleBy h, rel_scaleBy h, rescale, hfac, mul_comm (ρ ^ 2)]
    unfold boltzmann
    rw [h.orth v]
    unfold rel
    ring
  rw [lintegral_congr_ae step1, lintegral_lintegral_swap]
  swap
  · exact (hHS.comp measurable_swap).aemeasurable
  have step2 : ∀ ρ ∈ Ioi (0 : ℝ), ∫⁻ v, integrand w Pr D r f ρ (scaleBy Pr ρ v) = ∫⁻ v, ENNReal.ofReal ((ρ ^ D)⁻¹) * integrand w Pr D r f ρ v := by
    intro ρ hρ
    rw [lintegral_scaleBy h hρ (hHρ ρ), lintegral_const_mul _ (hHρ ρ)]
  rw [setLIntegral_congr_fun measurableSet_Ioi step2, lintegral_lintegral_swap]
  swap
  · have a1 : Measurable fun p : ℝ × (ι → ℝ) => ENNReal.ofReal ((p.1 ^ D)⁻¹) :=
      ((measurable_fst.pow_const D).inv).ennreal_ofReal
    exact (a1.mul hH).aemeasurable
  refine lintegral_congr_ae ?_
  filter_upwards [rel_pos_ae h hD] with v hv
  have step3 : ∀ ρ ∈ Ioi (0 : ℝ), ENNReal.ofReal ((ρ ^ D)⁻¹) * integrand w Pr D r f ρ v =
      boltzmann w r v * f v * (ENNReal.ofReal (2 * rel w Pr v / ρ ^ 3) * gammaPDF (D / 2) r (rel w Pr v / ρ ^ 2)) := by
    intro ρ hρ
    have := pointwise (B := energy w (Pr v)) hr hD hv hρ
    unfold integrand
    unfold boltzmann
    rw [h.orth v]
    change _ = ENNReal.ofReal (Real.exp (-(r * (rel w Pr v + energy w (Pr v))))) * f v * _
    calc _ = (ENNReal.ofReal ((ρ ^ D)⁻¹) * (ENNReal.ofReal (Real.exp (-(r * (rel w Pr v / ρ ^ 2 + energy w (Pr v))))) *
        (ENNReal.ofReal (2 * (rel w Pr v / ρ ^ 2) * ρ) * gammaPDF (D / 2) r (rel w Pr v)))) * f v := by ring
      _ = _ := by rw [this]; ring
  rw [setLIntegral_congr_fun measurableSet_Ioi step3, lintegral_const_mul]
  swap
  · have a1 : Measurable fun ρ : ℝ => ENNReal.ofReal (2 * rel w Pr v / ρ ^ 3) :=
      ((measurable_id.pow_const 3).const_div _).ennreal_ofReal
    have a2 : Measurable fun ρ : ℝ => gammaPDF (D / 2) r (rel w Pr v / ρ ^ 2) :=
      (measurable_gammaPDF _ _).comp ((measurable_id.pow_const 2).const_div _)
    exact a1.mul a2
  rw [← subst_inv_sq hv (gammaPDF (D / 2) r)]
  have := isProbabilityMeasure_gammaMeasure hk hr
  have h1 : ∫⁻ x in Ioi 0, gammaPDF (D / 2) r x = 1 := by
    rw [← setLIntegral_univ, ← withDensity_apply _ MeasurableSet.univ, ← Gamma.gammaMeasure_eq, measure_univ]
  rw [h1, mul_one]

/-- Rescaling to a random energy does not change the distribution. -/
theorem map_rescale (h : Splits w Pr D) (hD : D ≠ 0) {r : ℝ} (hr : 0 < r) :
    (((volume : Measure (ι → ℝ)).withDensity (boltzmann w r)).prod (gammaMeasure (D / 2) r)).map
      (fun p => rescale w Pr p.1 p.2) = volume.withDensity (boltzmann w r) := by
  have hk : (0 : ℝ) < (D : ℝ) / 2 := by
    have : (0 : ℝ) < D := by exact_mod_cast Nat.pos_of_ne_zero hD
    linarith
  have := isProbabilityMeasure_gammaMeasure hk hr
  refine Measure.ext_of_lintegral _ fun f hf => ?_
  have hF : Measurable fun p : (ι → ℝ) × ℝ => f (rescale w Pr p.1 p.2) := by
    have := hf.comp (measurable_rescale (w := w) (Pr := Pr))
    exact this
  rw [lintegral_map hf (measurable_rescale (w := w) (Pr := Pr)), lintegral_prod _ hF.aemeasurable,
    lintegral_withDensity_eq_lintegral_mul _ (measurable_boltzmann w r) hF.lintegral_prod_right',
    lintegral_withDensity_eq_lintegral_mul _ (measurable_boltzmann w r) hf]
  have e := lintegral_rescale h hD hr hf
  simp only [Pi.mul_apply]
  rw [← e]
  refine lintegral_congr fun v => ?_
  congr 1
  have hv : Measurable fun g => f (rescale w Pr v g) := hf.comp measurable_rescale_of
  rw [Gamma.gammaMeasure_eq, lintegral_withDensity_eq_lintegral_mul _ (measurable_gammaPDF _ _) hv]
  rfl

end

/-! ## Many steps -/

section

variable {S Ω : Type*} [MeasurableSpace S] [MeasurableSpace Ω]

/-- Steps one after the other, each with its own random number. -/
def steps (F : ℕ → S → Ω → S) : (n : ℕ) → S → (Fin n → Ω) → S
  | 0, s, _ => s
  | n + 1, s, ω => F n (steps F n s fun i => ω i.castSucc) (ω (Fin.last n))

theorem measurable_steps {F : ℕ → S → Ω → S} (hF : ∀ k, Measurable fun p : S × Ω => F k p.1 p.2) (n : ℕ) :
    Measurable fun p : S × (Fin n → Ω) => steps F n p.1 p.2 := by
  induction n with
  | zero => exact measurable_fst
  | succ n ih =>
    have h1 : Measurable fun p : S × (Fin (n + 1) → Ω) => (p.1, fun i : Fin n => p.2 i.castSucc) :=
      measurable_fst.prodMk (measurable_pi_lambda _ fun i => (measurable_pi_apply _).comp measurable_snd)
    have h2 : Measurable fun p : S × (Fin (n + 1) → Ω) => p.2 (Fin.last n) := (measurable_pi_apply _).comp measurable_snd
    exact (hF n).comp ((ih.comp h1).prodMk h2)

/-- If no step changes the distribution, many of them do not. -/
theorem map_steps {F : ℕ → S → Ω → S} (hF : ∀ k, Measurable fun p : S × Ω => F k p.1 p.2) (σ : Measure S)
    [SFinite σ] (ν : ℕ → Measure Ω) [∀ k, IsProbabilityMeasure (ν k)]
    (n : ℕ) (h : ∀ k < n, (σ.prod (ν k)).map (fun p => F k p.1 p.2) = σ) :
    (σ.prod (Measure.pi fun i : Fin n => ν i)).map (fun p => steps F n p.1 p.2) = σ := by
  induction n with
  | zero =>
    change (σ.prod _).map Prod.fst = σ
    rw [← Measure.fst, Measure.fst_prod]
  | succ n ih =>
    have ih := ih fun k hk => h k (Nat.lt_succ_of_lt hk)
    have hsplit := (measurePreserving_piFinSuccAbove (fun i : Fin (n + 1) => ν i) (Fin.last n)).map_eq
    have e1 : (σ.prod (Measure.pi fun i : Fin (n + 1) => ν i)).map
        (fun p => ((p.1, fun i : Fin n => p.2 i.castSucc), p.2 (Fin.last n))) =
        (σ.prod (Measure.pi fun i : Fin n => ν i)).prod (ν n) := by
      have h1 : MeasurePreserving (fun ω : Fin (n + 1) → Ω => (fun i : Fin n => ω i.castSucc, ω (Fin.last n)))
          (Measure.pi fun i : Fin (n + 1) => ν i) ((Measure.pi fun i : Fin n => ν i).prod (ν n)) := by
        have a := measurePreserving_piFinSuccAbove (fun i : Fin (n + 1) => ν i) (Fin.last n)
        have b := (Measure.measurePreserving_swap (μ := ν (Fin.last n : Fin (n + 1)))
          (ν := Measure.pi fun i : Fin n => ν ((Fin.last n).succAbove i : Fin (n + 1)))).comp a
        simp only [Fin.succAbove_last, Fin.val_last, Fin.val_castSucc] at b
        refine ⟨?_, ?_⟩
        · exact (measurable_pi_lambda _ fun i => measurable_pi_apply _).prodMk (measurable_pi_apply _)
        · rw [← b.map_eq]
          congr 1
          funext ω
          simp [MeasurableEquiv.piFinSuccAbove, Fin.insertNthEquiv]
          rfl
      have h2 := (MeasurePreserving.id σ).prod h1
      have h3 := Measure.prodAssoc_prod (μ := σ) (ν := Measure.pi fun i : Fin n => ν i) (τ := ν n)
      have h4 : MeasurePreserving (MeasurableEquiv.prodAssoc : (S × (Fin n → Ω)) × Ω ≃ᵐ _)
          ((σ.prod (Measure.pi fun i : Fin n => ν i)).prod (ν n)) (σ.prod ((Measure.pi fun i : Fin n => ν i).prod (ν n))) :=
        ⟨MeasurableEquiv.measurable _, h3⟩
      exact ((h4.symm).comp h2).map_eq
    have hm1 : Measurable fun p : S × (Fin (n + 1) → Ω) => ((p.1, fun i : Fin n => p.2 i.castSucc), p.2 (Fin.last n)) :=
      (measurable_fst.prodMk (measurable_pi_lambda _ fun i => (measurable_pi_apply _).comp measurable_snd)).prodMk
        ((measurable_pi_apply _).comp measurable_snd)
    have hm2 : Measurable fun p : (S × (Fin n → Ω)) × Ω => (steps F n p.1.1 p.1.2, p.2) :=
      ((measurable_steps hF n).comp measurable_fst).prodMk measurable_snd
    have e2 : ((σ.prod (Measure.pi fun i : Fin n => ν i)).prod (ν n)).map (fun p => (steps F n p.1.1 p.1.2, p.2)) =
        σ.prod (ν n) := by
      have a : MeasurePreserving (fun p : S × (Fin n → Ω) => steps F n p.1 p.2)
          (σ.prod (Measure.pi fun i : Fin n => ν i)) σ := ⟨measurable_steps hF n, ih⟩
      exact (a.prod (MeasurePreserving.id (ν n))).map_eq
    have e3 := h n (Nat.lt_succ_self n)
    rw [← e2, ← e1, Measure.map_map hm2 hm1, Measure.map_map (hF n) (hm2.comp hm1)] at e3
    exact e3

end

end OpenMPCD.Random.Rescale
