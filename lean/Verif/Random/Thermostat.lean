import Verif.Collide.Props
import Verif.Random.Gamma

/-!
# The distribution of kinetic energies with the thermostat (C96, C14)

The random numbers that are drawn in a collision depend on `ω` in a probability space; the number drawn from the gamma
distribution for the cell looked at has the law that the model of `Gamma_shape_ge_1` gives it.
-/

open MeasureTheory ProbabilityTheory Set
open scoped ENNReal

namespace OpenMPCD.Random.Thermostat

open OpenMPCD.Collide OpenMPCD.Random.Gamma

/-- The mean of a gamma distribution. -/
theorem mean_gamma {k r : ℝ} (hk : 0 < k) (hr : 0 < r) :
    ∫⁻ x, ENNReal.ofReal x ∂gammaMeasure k r = ENNReal.ofReal (k / r) := by
  have hm : ∀ a, Measurable (gammaPDF a r) := fun a => (measurable_gammaPDFReal a r).ennreal_ofReal
  have hG1 : Real.Gamma (k + 1) = k * Real.Gamma k := Real.Gamma_add_one hk.ne'
  have hG := Real.Gamma_pos_of_pos hk
  have e : ∀ x ∈ Ioi (0 : ℝ), (gammaPDF k r * fun x => ENNReal.ofReal x) x =
      ENNReal.ofReal (k / r) * gammaPDF (k + 1) r x := by
    intro x hx
    have hx' : (0 : ℝ) < x := hx
    rw [Pi.mul_apply, gammaPDF, gammaPDF, ← ENNReal.ofReal_mul (gammaPDFReal_nonneg hk hr x),
      ← ENNReal.ofReal_mul (by positivity), gammaPDFReal, gammaPDFReal, if_pos hx'.le, if_pos hx'.le, hG1]
    congr 1
    have hxk : x ^ k = x ^ (k - 1) * x := by
      rw [← Real.rpow_add_one hx'.ne', sub_add_cancel]
    rw [add_sub_cancel_right, hxk, Real.rpow_add_one hr.ne']
    field_simp
  rw [gammaMeasure_eq, lintegral_withDensity_eq_lintegral_mul _ (hm k) ENNReal.measurable_ofReal,
    setLIntegral_congr_fun measurableSet_Ioi e, lintegral_const_mul _ (hm _)]
  have := isProbabilityMeasure_gammaMeasure (a := k + 1) (by linarith) hr
  have h1 : ∫⁻ x in Ioi 0, gammaPDF (k + 1) r x = 1 := by
    rw [← setLIntegral_univ, ← withDensity_apply _ MeasurableSet.univ, ← gammaMeasure_eq, measure_univ]
  rw [h1, mul_one]

section thermostat

variable {Ω : Type*} [MeasurableSpace Ω] {μ : Measure Ω} {P : Params} {R : Ω → Randomness} {t : ℝ} {d : CellData}
  {d' : Ω → CellData} {ps : List Particle} {ps' : Ω → List Particle} {shift : Vec3 ℝ} {c : ℕ}

/-- C96: with the thermostat, in a cell that contains `n ≥ 2` particles which move relative to each other, the kinetic
energy of the relative motion after the collision has the Maxwell-Boltzmann distribution for the target temperature, that
is, the gamma distribution with shape `3 (n - 1) / 2` and scale `kT`; whatever the velocities before have been, whatever
the grid shift and the rotation axes are, and whatever else is random. -/
theorem C96_thermostat (hP : P.Valid) (hm : ∀ p ∈ ps, 0 < p.mass) (hT : 0 < P.bulkThermostatTargetkT)
    (hshift : ∀ ω, (R ω).gridShift = shift) (h : ∀ ω, Collide P (R ω) t d ps (d' ω) (ps' ω))
    (haxis : ∀ ω, ((R ω).axes c).getLength = 1)
    (hn : 2 ≤ (members P shift t c ps).length)
    (hE : relativeKineticEnergy (imageVelocity P shift t) (members P shift t c ps) ≠ 0)
    (hmeas : AEMeasurable (fun ω => (R ω).gamma c (3 * (((members P shift t c ps).length : ℝ) - 1) / 2)
      P.bulkThermostatTargetkT) μ)
    (hlaw : μ.map (fun ω => (R ω).gamma c (3 * (((members P shift t c ps).length : ℝ) - 1) / 2)
      P.bulkThermostatTargetkT) =
      gammaShapeGe1 (3 * (((members P shift t c ps).length : ℝ) - 1) / 2) P.bulkThermostatTargetkT) :
    μ.map (fun ω => relativeKineticEnergy (imageVelocity P shift t) (members P shift t c (ps' ω))) =
        gammaMeasure (3 * (((members P shift t c ps).length : ℝ) - 1) / 2) (1 / P.bulkThermostatTargetkT) ∧
      ∫⁻ ω, ENNReal.ofReal (relativeKineticEnergy (imageVelocity P shift t) (members P shift t c (ps' ω))) ∂μ =
        ENNReal.ofReal (3 / 2 * (((members P shift t c ps).length : ℝ) - 1) * P.bulkThermostatTargetkT) := by
  have hn' : (2 : ℝ) ≤ ((members P shift t c ps).length : ℝ) := by exact_mod_cast hn
  generalize hN : ((members P shift t c ps).length : ℝ) = N at *
  have hk : 1 ≤ 3 * (N - 1) / 2 := by linarith
  rw [C96_shape_ge_1 hk hT] at hlaw
  have hpos : ∀ᵐ ω ∂μ, 0 ≤ (R ω).gamma c (3 * (N - 1) / 2) P.bulkThermostatTargetkT := by
    have hp := (C96_positive (by linarith : 0 < 3 * (N - 1) / 2) hT).2
    rw [C96_gamma (by linarith) hT, ← hlaw, Measure.map_apply_of_aemeasurable hmeas measurableSet_Iic] at hp
    rw [ae_iff]
    refine measure_mono_null (fun ω hω => ?_) hp
    exact (not_le.1 hω).le
  have hae : (fun ω => relativeKineticEnergy (imageVelocity P shift t) (members P shift t c (ps' ω))) =ᵐ[μ]
      fun ω => (R ω).gamma c (3 * (N - 1) / 2) P.bulkThermostatTargetkT := by
    filter_upwards [hpos] with ω hω
    have hs := hshift ω
    have := C14_energy (c := c) hP hm hT.ne' (h ω) (haxis ω) (by rw [hs]; exact hn) (by rw [hs]; exact hE)
      (by rw [hs, hN]; exact hω)
    rw [hs, hN] at this
    exact this
  have hmap := Measure.map_congr (mβ := inferInstance) hae
  refine ⟨hmap.trans hlaw, ?_⟩
  have hmeas' := hmeas.congr hae.symm
  rw [← lintegral_map' ENNReal.measurable_ofReal.aemeasurable hmeas', hmap, hlaw, mean_gamma (by linarith) (by positivity)]
  congr 1
  rw [div_div_eq_mul_div, div_one]
  ring

/-- There are such random numbers, whatever the particles (beside the example for C14, in which the other hypotheses
hold). -/
example (P : Params) (t : ℝ) (d : CellData) (ps : List Particle) (shift : Vec3 ℝ) (c : ℕ) :
    ∃ (μ : Measure ℝ) (R : ℝ → Randomness) (d' : ℝ → CellData) (ps' : ℝ → List Particle),
      (∀ ω, (R ω).gridShift = shift) ∧ (∀ ω, Collide P (R ω) t d ps (d' ω) (ps' ω)) ∧
      (∀ ω, ((R ω).axes c).getLength = 1) ∧
      AEMeasurable (fun ω => (R ω).gamma c (3 * (((members P shift t c ps).length : ℝ) - 1) / 2)
        P.bulkThermostatTargetkT) μ ∧
      μ.map (fun ω => (R ω).gamma c (3 * (((members P shift t c ps).length : ℝ) - 1) / 2)
        P.bulkThermostatTargetkT) =
        gammaShapeGe1 (3 * (((members P shift t c ps).length : ℝ) - 1) / 2) P.bulkThermostatTargetkT := by
  have h := fun x : ℝ => C16_exists P ⟨shift, fun _ => ⟨1, 0, 0⟩, fun _ _ _ => x⟩ t d ps
  choose d' ps' h using h
  refine ⟨gammaShapeGe1 (3 * (((members P shift t c ps).length : ℝ) - 1) / 2) P.bulkThermostatTargetkT,
    fun x => ⟨shift, fun _ => ⟨1, 0, 0⟩, fun _ _ _ => x⟩, d', ps', fun _ => rfl, h, fun _ => ?_, aemeasurable_id,
    Measure.map_id⟩
  simp [Vec3.getLength, Vec3.getLengthSquared, Vec3.dot]

end thermostat

end OpenMPCD.Random.Thermostat
