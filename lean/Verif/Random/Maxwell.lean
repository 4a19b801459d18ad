import Verif.Random.Liouville
import Verif.Random.Rescale
import Mathlib.Probability.Distributions.Gaussian.Real
import Mathlib.MeasureTheory.Integral.Pi
import Mathlib.MeasureTheory.Integral.IntervalIntegral.Periodic
import Mathlib.Probability.ConditionalProbability

/-!
# The Maxwell-Boltzmann distribution of velocities

That distribution, the uniform distribution of positions in the box, and the effect of the thermostat on the velocities in
coordinates, one cell after the other.
-/

set_option linter.unusedSectionVars false
set_option linter.unusedSimpArgs false

open MeasureTheory ProbabilityTheory Set
open scoped ENNReal

namespace OpenMPCD.Random.Phase

open OpenMPCD.Collide OpenMPCD.Random.Rescale

variable {N : ℕ}

/-! ## Specification -/

/-- The Maxwell-Boltzmann distribution of the velocities: all components are independent, with normal distributions of mean
zero and variance `kT / m`. -/
noncomputable def maxwell (m : Fin N → ℝ) (kT : ℝ) : Measure (Coords N) :=
  Measure.pi fun q => gaussianReal 0 (kT / m q.1).toNNReal

/-- The size of the box in the given direction. -/
def boxSize (P : Params) (k : Fin 3) : ℕ := ![P.Lx, P.Ly, P.Lz] k

/-- The uniform distribution of the positions in the box. -/
noncomputable def uniformBox (P : Params) (N : ℕ) : Measure (Coords N) :=
  Measure.pi fun q => volume[|Ico (0 : ℝ) (boxSize P q.2)]

/-- The images of positions in the box: the positions that differ by multiples of the box sizes. -/
noncomputable def imageInBox (P : Params) (x : Coords N) : Coords N :=
  fun q => x q - ⌊x q / boxSize P q.2⌋ * boxSize P q.2

/-! ## The density of the Maxwell-Boltzmann distribution -/

/-- The weights in the energy. -/
noncomputable def weight (m : Fin N → ℝ) (q : Fin N × Fin 3) : ℝ := m q.1 / 2

theorem gaussianPDFReal_zero {M kT : ℝ} (hM : 0 < M) (hkT : 0 < kT) (x : ℝ) :
    gaussianPDFReal 0 (kT / M).toNNReal x =
      (√(2 * Real.pi * (kT / M)))⁻¹ * Real.exp (-(1 / kT * (M / 2 * x ^ 2))) := by
  unfold gaussianPDFReal
  rw [Real.coe_toNNReal _ (by positivity), sub_zero]
  congr 2
  field_simp

theorem maxwell_eq {m : Fin N → ℝ} (hm : ∀ i, 0 < m i) {kT : ℝ} (hkT : 0 < kT) :
    maxwell m kT = ENNReal.ofReal (∏ q : Fin N × Fin 3, (√(2 * Real.pi * (kT / m q.1)))⁻¹) •
      volume.withDensity (boltzmann (weight m) (1 / kT)) := by
  have hv : ∀ q : Fin N × Fin 3, (kT / m q.1).toNNReal ≠ 0 := by
    intro q
    have : 0 < kT / m q.1 := div_pos hkT (hm q.1)
    simpa using this
  unfold maxwell
  refine Measure.pi_eq fun s hs => ?_
  have hS : MeasurableSet (Set.univ.pi s) := MeasurableSet.univ_pi hs
  rw [Measure.smul_apply, withDensity_apply _ hS, smul_eq_mul,
    ← lintegral_const_mul _ (measurable_boltzmann _ _)]
  have e : ∀ v : Coords N, ENNReal.ofReal (∏ q : Fin N × Fin 3, (√(2 * Real.pi * (kT / m q.1)))⁻¹) *
      boltzmann (weight m) (1 / kT) v =
      ENNReal.ofReal (∏ q : Fin N × Fin 3, gaussianPDFReal 0 (kT / m q.1).toNNReal (v q)) := by
    intro v
    unfold boltzmann energy weight
    rw [← ENNReal.ofReal_mul (by positivity)]
    congr 1
    rw [Finset.mul_sum, ← Finset.sum_neg_distrib, Real.exp_sum, ← Finset.prod_mul_distrib]
    exact Finset.prod_congr rfl fun q _ => (gaussianPDFReal_zero (hm q.1) hkT _).symm
  simp only [e]
  have hint : ∀ q : Fin N × Fin 3, Integrable (gaussianPDFReal 0 (kT / m q.1).toNNReal) (volume.restrict (s q)) :=
    fun q => (integrable_gaussianPDFReal _ _).restrict
  rw [volume_pi, Measure.restrict_pi_pi, ← ofReal_integral_eq_lintegral_ofReal (Integrable.fintype_prod hint)
    (Filter.Eventually.of_forall fun v => Finset.prod_nonneg fun q _ => gaussianPDFReal_nonneg _ _ _)]
  rw [integral_fintype_prod_eq_prod (fun q : Fin N × Fin 3 => gaussianPDFReal 0 (kT / m q.1).toNNReal),
    ENNReal.ofReal_prod_of_nonneg fun q _ => integral_nonneg fun x => gaussianPDFReal_nonneg _ _ _]
  exact Finset.prod_congr rfl fun q _ => (gaussianReal_apply_eq_integral _ (hv q) _).symm

instance maxwell_prob (m : Fin N → ℝ) (kT : ℝ) : IsProbabilityMeasure (maxwell m kT) := by
  unfold maxwell
  infer_instance

/-- What keeps volumes and the energy keeps the distribution. -/
theorem maxwell_preserved {m : Fin N → ℝ} (hm : ∀ i, 0 < m i) {kT : ℝ} (hkT : 0 < kT) {f : Coords N → Coords N}
    (hf : MeasurePreserving f (volume : Measure (Coords N)) volume)
    (hE : ∀ v, energy (weight m) (f v) = energy (weight m) v) : MeasurePreserving f (maxwell m kT) (maxwell m kT) := by
  refine ⟨hf.measurable, ?_⟩
  rw [maxwell_eq hm hkT, Measure.map_smul]
  congr 1
  ext s hs
  rw [Measure.map_apply hf.measurable hs, withDensity_apply _ (hf.measurable hs), withDensity_apply _ hs,
    ← hf.setLIntegral_comp_preimage hs (measurable_boltzmann _ _)]
  refine lintegral_congr fun v => ?_
  unfold boltzmann
  rw [hE]

/-- Rescaling to a random energy keeps the distribution. -/
theorem maxwell_rescale {m : Fin N → ℝ} (hm : ∀ i, 0 < m i) {kT : ℝ} (hkT : 0 < kT)
    {Pr : Coords N →ₗ[ℝ] Coords N} {D : ℕ} (h : Splits (weight m) Pr D) (hD : D ≠ 0) :
    ((maxwell m kT).prod (gammaMeasure (D / 2) (1 / kT))).map (fun p => rescale (weight m) Pr p.1 p.2) =
      maxwell m kT := by
  have := isProbabilityMeasure_gammaMeasure (half_pos (Nat.cast_pos.2 (Nat.pos_of_ne_zero hD)) : 0 < (D : ℝ) / 2)
    (one_div_pos.2 hkT)
  rw [maxwell_eq hm hkT, Measure.prod_smul_left, Measure.map_smul, map_rescale h hD (by positivity)]

/-! ## Positions -/

theorem imageInBox_apply (P : Params) (x : Coords N) (q : Fin N × Fin 3) :
    imageInBox P x q = reduce (boxSize P q.2) (x q) := rfl

theorem reduce_add_mul {L : ℕ} (hL : 0 < L) (x : ℝ) (n : ℤ) : reduce L (x + n * L) = reduce L x := by
  have hL' : (L : ℝ) ≠ 0 := by exact_mod_cast hL.ne'
  unfold reduce
  rw [add_div, mul_div_cancel_right₀ _ hL', Int.floor_add_intCast]
  push_cast
  ring

theorem reduce_mem {L : ℕ} (hL : 0 < L) {x : ℝ} (hx : x ∈ Ico (0 : ℝ) L) : reduce L x = x := by
  have hL' : (0 : ℝ) < L := by exact_mod_cast hL
  unfold reduce
  have : ⌊x / (L : ℝ)⌋ = 0 := Int.floor_eq_zero_iff.2 ⟨div_nonneg hx.1 hL'.le, (div_lt_one hL').2 hx.2⟩
  rw [this]
  simp

theorem reduce_reduce_add {L : ℕ} (hL : 0 < L) (x a : ℝ) : reduce L (reduce L x + a) = reduce L (x + a) := by
  conv_lhs => rw [reduce.eq_def L x]
  rw [show x - ((⌊x / (L : ℝ)⌋ : ℤ) : ℝ) * (L : ℝ) + a = (x + a) + ((-⌊x / (L : ℝ)⌋ : ℤ) : ℝ) * (L : ℝ) by
    push_cast; ring, reduce_add_mul hL]

theorem reduce_shift_preserving {L : ℕ} (hL : 0 < L) (a : ℝ) :
    MeasurePreserving (fun x => reduce L (x + a)) (volume.restrict (Ico (0 : ℝ) L)) (volume.restrict (Ico (0 : ℝ) L)) := by
  have hL' : (0 : ℝ) < L := by exact_mod_cast hL
  have hmeas : Measurable fun x => reduce L (x + a) := (measurable_reduce L).comp (measurable_id.add_const a)
  refine ⟨hmeas, ?_⟩
  ext A hA
  have hB : MeasurableSet (reduce L ⁻¹' A) := measurable_reduce L hA
  rw [Measure.map_apply hmeas hA, Measure.restrict_apply (hmeas hA), Measure.restrict_apply hA]
  have e1 : A ∩ Ico (0 : ℝ) L = reduce L ⁻¹' A ∩ Ico (0 : ℝ) L := by
    ext x
    constructor
    · rintro ⟨h1, h2⟩
      exact ⟨by rw [mem_preimage, reduce_mem hL h2]; exact h1, h2⟩
    · rintro ⟨h1, h2⟩
      rw [mem_preimage, reduce_mem hL h2] at h1
      exact ⟨h1, h2⟩
  have e2 : (fun x => reduce L (x + a)) ⁻¹' A ∩ Ico (0 : ℝ) L =
      (fun x => x + a) ⁻¹' (reduce L ⁻¹' A ∩ Ico a (a + L)) := by
    ext x
    simp only [mem_inter_iff, mem_preimage, mem_Ico]
    constructor
    · rintro ⟨h1, h2, h3⟩
      exact ⟨h1, by linarith, by linarith⟩
    · rintro ⟨h1, h2, h3⟩
      exact ⟨h1, by linarith, by linarith⟩
  rw [e1, e2, measure_preimage_add_right]
  have hIco : ∀ u v : ℝ, volume (reduce L ⁻¹' A ∩ Ico u v) = volume (reduce L ⁻¹' A ∩ Ioc u v) := fun u v =>
    measure_congr ((ae_eq_refl _).inter Ico_ae_eq_Ioc)
  rw [hIco, hIco]
  have h := (isAddFundamentalDomain_Ioc hL' a).measure_set_eq (isAddFundamentalDomain_Ioc hL' 0) (A := reduce L ⁻¹' A) hB
    (by
      rintro ⟨g, n, rfl⟩
      ext x
      simp only [mem_preimage, AddSubgroup.vadd_def, vadd_eq_add]
      have := reduce_add_mul hL x n
      rw [show n • (L : ℝ) + x = x + n * (L : ℝ) by rw [zsmul_eq_mul]; ring, this])
  rw [h, zero_add]

theorem uniform_shift {L : ℕ} (hL : 0 < L) (a : ℝ) :
    MeasurePreserving (fun x => reduce L (x + a)) (volume[|Ico (0 : ℝ) L]) (volume[|Ico (0 : ℝ) L]) := by
  have h := reduce_shift_preserving hL a
  refine ⟨h.measurable, ?_⟩
  unfold ProbabilityTheory.cond
  rw [Measure.map_smul, h.map_eq]

theorem uniform_prob {L : ℕ} (hL : 0 < L) : IsProbabilityMeasure (volume[|Ico (0 : ℝ) L]) := by
  have hL' : (0 : ℝ) < L := by exact_mod_cast hL
  apply cond_isProbabilityMeasure_of_finite
  · rw [Real.volume_Ico]
    simpa using hL.ne'
  · rw [Real.volume_Ico]
    exact ENNReal.ofReal_ne_top

/-! ## Cells -/

section cell

variable (c : Fin N → ℕ) (m : Fin N → ℝ) (k : ℕ)

/-- A component of the velocity of the centre of mass of a cell. -/
noncomputable def mean (w : Coords N) (a : Fin 3) : ℝ :=
  (cellMass c m k)⁻¹ * ∑ j, if c j = k then m j * w (j, a) else 0

/-- The velocities of the particles in one cell are replaced by that of their centre of mass. -/
noncomputable def proj : Coords N →ₗ[ℝ] Coords N where
  toFun w q := if c q.1 = k then mean c m k w q.2 else w q
  map_add' v w := by
    funext q
    simp only [Pi.add_apply]
    split
    · unfold mean
      rw [← mul_add, ← Finset.sum_add_distrib]
      congr 2
      funext j
      split
      · rw [Pi.add_apply, mul_add]
      · ring
    · rfl
  map_smul' r w := by
    funext q
    simp only [Pi.smul_apply, smul_eq_mul, RingHom.id_apply]
    split
    · unfold mean
      rw [mul_left_comm, Finset.mul_sum (a := r)]
      congr 2
      funext j
      split
      · rw [Pi.smul_apply, smul_eq_mul]
        ring
      · ring
    · rfl

/-- The number of particles in a cell. -/
def cellCard : ℕ := (Finset.univ.filter fun j => c j = k).card

variable {c m k}

theorem proj_apply (w : Coords N) (q : Fin N × Fin 3) :
    proj c m k w q = if c q.1 = k then mean c m k w q.2 else w q := rfl

theorem cellMass_pos (hm : ∀ i, 0 < m i) {i : Fin N} (hi : c i = k) : 0 < cellMass c m k := by
  unfold cellMass
  refine Finset.sum_pos' (fun j _ => ?_) ⟨i, Finset.mem_univ i, ?_⟩
  · split
    · exact (hm j).le
    · exact le_rfl
  · rw [if_pos hi]
    exact hm i

theorem sum_mean (hm : ∀ i, 0 < m i) (w : Coords N) (a : Fin 3) :
    ∑ j, (if c j = k then m j * w (j, a) else 0) = cellMass c m k * mean c m k w a := by
  by_cases h : ∃ i, c i = k
  · obtain ⟨i, hi⟩ := h
    unfold mean
    rw [← mul_assoc, mul_inv_cancel₀ (cellMass_pos hm hi).ne', one_mul]
  · have h0 : ∀ f : Fin N → ℝ, ∑ j, (if c j = k then f j else 0) = 0 := fun f =>
      Finset.sum_eq_zero fun j _ => if_neg fun e => h ⟨j, e⟩
    rw [h0, cellMass, h0, zero_mul]

/-- What does not change the momentum in the cell does not change the mean. -/
theorem mean_congr {v w : Coords N} {a : Fin 3} (h : ∀ j, c j = k → v (j, a) = w (j, a)) :
    mean c m k v a = mean c m k w a := by
  unfold mean
  congr 1
  refine Finset.sum_congr rfl fun j _ => ?_
  split
  · next hj => rw [h j hj]
  · rfl

/-- Scaling about the mean keeps the mean. -/
theorem mean_scale (hm : ∀ i, 0 < m i) {v w : Coords N} {a : Fin 3} (s : ℝ)
    (h : ∀ j, c j = k → v (j, a) = s * (w (j, a) - mean c m k w a) + mean c m k w a) :
    mean c m k v a = mean c m k w a := by
  by_cases h' : ∃ i, c i = k
  · obtain ⟨i, hi⟩ := h'
    have hM := (cellMass_pos hm hi).ne'
    have e : ∑ j, (if c j = k then m j * v (j, a) else 0) =
        s * (∑ j, (if c j = k then m j * w (j, a) else 0)) + (1 - s) * mean c m k w a * cellMass c m k := by
      unfold cellMass
      rw [Finset.mul_sum, Finset.mul_sum, ← Finset.sum_add_distrib]
      refine Finset.sum_congr rfl fun j _ => ?_
      split
      · next hj =>
        rw [h j hj]
        ring
      · ring
    rw [sum_mean hm, sum_mean hm] at e
    have : cellMass c m k * mean c m k v a = cellMass c m k * mean c m k w a := by rw [e]; ring
    exact mul_left_cancel₀ hM this
  · exact mean_congr fun j hj => (h' ⟨j, hj⟩).elim

theorem mean_proj (hm : ∀ i, 0 < m i) (w : Coords N) (a : Fin 3) : mean c m k (proj c m k w) a = mean c m k w a := by
  refine mean_scale hm 0 fun j hj => ?_
  rw [proj_apply, if_pos hj]
  ring

theorem proj_idem (hm : ∀ i, 0 < m i) (w : Coords N) : proj c m k (proj c m k w) = proj c m k w := by
  funext q
  rw [proj_apply, proj_apply, mean_proj hm]
  split <;> rfl

theorem proj_orth (hm : ∀ i, 0 < m i) (w : Coords N) :
    energy (weight m) w = energy (weight m) (w - proj c m k w) + energy (weight m) (proj c m k w) := by
  have key : ∑ q : Fin N × Fin 3, m q.1 * ((w - proj c m k w) q * proj c m k w q) = 0 := by
    rw [Fintype.sum_prod_type_right]
    refine Finset.sum_eq_zero fun a _ => ?_
    have e : ∀ j : Fin N, m j * ((w - proj c m k w) (j, a) * proj c m k w (j, a)) =
        (if c j = k then m j * w (j, a) else 0) * mean c m k w a -
          (if c j = k then m j else 0) * (mean c m k w a * mean c m k w a) := by
      intro j
      rw [Pi.sub_apply, proj_apply]
      by_cases hj : c j = k
      · simp only [hj, if_true]
        ring
      · simp only [hj, if_false]
        ring
    simp only [e]
    rw [Finset.sum_sub_distrib, ← Finset.sum_mul, ← Finset.sum_mul, sum_mean hm]
    unfold cellMass
    ring
  unfold energy weight
  rw [← Finset.sum_add_distrib]
  have : ∑ q : Fin N × Fin 3, m q.1 / 2 * w q ^ 2 = ∑ q : Fin N × Fin 3,
      (m q.1 / 2 * (w - proj c m k w) q ^ 2 + m q.1 / 2 * proj c m k w q ^ 2 +
        m q.1 * ((w - proj c m k w) q * proj c m k w q)) := by
    refine Finset.sum_congr rfl fun q _ => ?_
    rw [Pi.sub_apply]
    ring
  rw [this, Finset.sum_add_distrib, key, add_zero]

theorem proj_dim (hm : ∀ i, 0 < m i) {i : Fin N} (hi : c i = k) :
    Module.finrank ℝ (LinearMap.ker (proj c m k)) = 3 * (cellCard c k - 1) := by
  have hp : LinearMap.IsProj (LinearMap.range (proj c m k)) (proj c m k) :=
    ⟨fun x => ⟨x, rfl⟩, fun x ⟨y, hy⟩ => by rw [← hy, proj_idem hm]⟩
  have htr := hp.trace
  have hM := (cellMass_pos hm hi).ne'
  have hsum := LinearMap.finrank_range_add_finrank_ker (proj c m k)
  rw [Module.finrank_pi, Fintype.card_prod, Fintype.card_fin, Fintype.card_fin] at hsum
  have hcalc : LinearMap.trace ℝ (Coords N) (proj c m k) = 3 * (1 + ((N : ℝ) - cellCard c k)) := by
    rw [LinearMap.trace_eq_matrix_trace ℝ (Pi.basisFun ℝ (Fin N × Fin 3)), LinearMap.toMatrix_eq_toMatrix',
      Matrix.trace]
    have e : ∀ q : Fin N × Fin 3, (LinearMap.toMatrix' (proj c m k)).diag q =
        (cellMass c m k)⁻¹ * (if c q.1 = k then m q.1 else 0) + (1 - if c q.1 = k then 1 else 0) := by
      rintro ⟨j, a⟩
      rw [Matrix.diag_apply, LinearMap.toMatrix'_apply, proj_apply]
      by_cases hj : c j = k
      · simp only [hj, if_true, sub_self, add_zero]
        unfold mean
        congr 1
        rw [Finset.sum_eq_single j]
        · rw [if_pos hj, Pi.single_eq_same, mul_one]
        · intro l _ hl
          rw [Pi.single_eq_of_ne (by simpa using hl), mul_zero, ite_self]
        · intro h
          exact absurd (Finset.mem_univ j) h
      · simp only [hj, if_false, mul_zero, sub_zero, zero_add, Pi.single_eq_same]
    simp only [e]
    rw [Fintype.sum_prod_type]
    have e3 : ∀ f : Fin N → ℝ, ∑ x, ∑ _a : Fin 3, f x = ((3 : ℕ) : ℝ) * ∑ x, f x := by
      intro f
      rw [Finset.mul_sum]
      exact Finset.sum_congr rfl fun x _ => by simp
    rw [e3 fun x => (cellMass c m k)⁻¹ * (if c x = k then m x else 0) + (1 - if c x = k then 1 else 0), Finset.sum_add_distrib, ← Finset.mul_sum, Finset.sum_sub_distrib]
    change ((3 : ℕ) : ℝ) * ((cellMass c m k)⁻¹ * cellMass c m k + _) = _
    rw [inv_mul_cancel₀ hM]
    unfold cellCard
    rw [Finset.card_filter]
    push_cast
    simp
  rw [hcalc] at htr
  have hcard : cellCard c k ≤ N := by
    unfold cellCard
    exact (Finset.card_filter_le _ _).trans (by simp)
  have hcard1 : 1 ≤ cellCard c k := by
    unfold cellCard
    exact Finset.card_pos.2 ⟨i, by simp [hi]⟩
  have htr' : 3 * (1 + (N - cellCard c k)) = Module.finrank ℝ (LinearMap.range (proj c m k)) := by
    have : ((3 * (1 + (N - cellCard c k)) : ℕ) : ℝ) = (Module.finrank ℝ (LinearMap.range (proj c m k)) : ℝ) := by
      rw [← htr]
      push_cast [Nat.cast_sub hcard]
      ring
    exact_mod_cast this
  omega

theorem proj_splits (hm : ∀ i, 0 < m i) {i : Fin N} (hi : c i = k) :
    Splits (weight m) (proj c m k) (3 * (cellCard c k - 1)) :=
  ⟨fun q => half_pos (hm q.1), proj_idem hm, proj_orth hm, proj_dim hm hi⟩

theorem scaleBy_proj (ρ : ℝ) (w : Coords N) (q : Fin N × Fin 3) :
    scaleBy (proj c m k) ρ w q =
      if c q.1 = k then ρ * (w q - mean c m k w q.2) + mean c m k w q.2 else w q := by
  rw [scaleBy_apply, Pi.add_apply, Pi.smul_apply, Pi.smul_apply, proj_apply, smul_eq_mul, smul_eq_mul]
  split <;> ring

theorem rel_proj (w : Coords N) : rel (weight m) (proj c m k) w =
    ∑ q : Fin N × Fin 3, if c q.1 = k then m q.1 / 2 * (w q - mean c m k w q.2) ^ 2 else 0 := by
  unfold rel energy weight
  refine Finset.sum_congr rfl fun q _ => ?_
  rw [Pi.sub_apply, proj_apply]
  split
  · rfl
  · ring

end cell

/-! ## The thermostat -/

section thermostat

variable (c : Fin N → ℕ) (m : Fin N → ℝ)

/-- The thermostat in one cell. -/
noncomputable def oneCell (k : ℕ) (w : Coords N) (g : ℝ) : Coords N :=
  if cellCard c k < 2 then w else rescale (weight m) (proj c m k) w g

/-- The factor in a cell. -/
noncomputable def cellFactor (w : Coords N) (g : ℕ → ℝ) (k : ℕ) : ℝ :=
  if cellCard c k < 2 then 1 else factor (weight m) (proj c m k) w (g k)

variable {c m}

theorem measurable_oneCell (k : ℕ) : Measurable fun p : Coords N × ℝ => oneCell c m k p.1 p.2 := by
  unfold oneCell
  split
  · exact measurable_fst
  · exact measurable_rescale

theorem oneCell_law (hm : ∀ i, 0 < m i) {kT : ℝ} (hkT : 0 < kT) (k : ℕ) {ν : Measure ℝ} [IsProbabilityMeasure ν]
    (hν : 2 ≤ cellCard c k → ν = gammaMeasure (3 * ((cellCard c k : ℝ) - 1) / 2) (1 / kT)) :
    ((maxwell m kT).prod ν).map (fun p => oneCell c m k p.1 p.2) = maxwell m kT := by
  by_cases h : cellCard c k < 2
  · have e : (fun p : Coords N × ℝ => oneCell c m k p.1 p.2) = Prod.fst := by
      funext p
      unfold oneCell
      rw [if_pos h]
    rw [e, ← Measure.fst, Measure.fst_prod]
  · have e : (fun p : Coords N × ℝ => oneCell c m k p.1 p.2) = fun p => rescale (weight m) (proj c m k) p.1 p.2 := by
      funext p
      unfold oneCell
      rw [if_neg h]
    obtain ⟨i, hi⟩ : ∃ i, c i = k := by
      have : (Finset.univ.filter fun j => c j = k).Nonempty := by
        rw [← Finset.card_pos]
        unfold cellCard at h
        omega
      obtain ⟨i, hi⟩ := this
      exact ⟨i, (Finset.mem_filter.1 hi).2⟩
    have hD : 3 * (cellCard c k - 1) ≠ 0 := by omega
    have := maxwell_rescale hm hkT (proj_splits hm hi) hD
    rw [e, hν (by omega)]
    have hc : ((3 * (cellCard c k - 1) : ℕ) : ℝ) = 3 * ((cellCard c k : ℝ) - 1) := by
      rw [Nat.cast_mul, Nat.cast_sub (by omega)]
      norm_num
    rw [hc] at this
    exact this

/-- The cells one after the other: all velocities relative to the centres of mass are scaled by the cells' factors, which
can be computed from the velocities before. -/
theorem steps_oneCell (w : Coords N) (g : ℕ → ℝ) (n : ℕ) (q : Fin N × Fin 3) :
    steps (oneCell c m) n w (fun i => g i) q =
      if c q.1 < n then cellFactor c m w g (c q.1) * (w q - mean c m (c q.1) w q.2) + mean c m (c q.1) w q.2
      else w q := by
  induction n generalizing q with
  | zero => simp [steps]
  | succ n ih =>
    have hmean : ∀ a, mean c m n (steps (oneCell c m) n w fun i => g i) a = mean c m n w a := by
      intro a
      refine mean_congr fun j hj => ?_
      rw [ih, if_neg (by simp [hj])]
    have hrel : rel (weight m) (proj c m n) (steps (oneCell c m) n w fun i => g i) = rel (weight m) (proj c m n) w := by
      rw [rel_proj, rel_proj]
      refine Finset.sum_congr rfl fun q _ => ?_
      split
      · next hq => rw [hmean, ih, if_neg (by simp [hq])]
      · rfl
    change oneCell c m n (steps (oneCell c m) n w fun i => g i) (g n) q = _
    generalize (steps (oneCell c m) n w fun i => g i) = u at *
    unfold oneCell
    by_cases hc : cellCard c n < 2
    · rw [if_pos hc, ih]
      by_cases h1 : c q.1 < n
      · rw [if_pos h1, if_pos (by omega)]
      · rw [if_neg h1]
        by_cases h2 : c q.1 = n
        · rw [if_pos (by omega)]
          unfold cellFactor
          rw [h2, if_pos hc]
          ring
        · rw [if_neg (by omega)]
    · rw [if_neg hc]
      unfold rescale
      rw [scaleBy_proj, hmean]
      by_cases h2 : c q.1 = n
      · rw [if_pos h2, if_pos (by omega), ih, if_neg (by omega), h2]
        unfold cellFactor factor
        rw [if_neg hc, hrel]
      · rw [if_neg h2, ih]
        by_cases h1 : c q.1 < n
        · rw [if_pos h1, if_pos (by omega)]
        · rw [if_neg h1, if_neg (by omega)]

end thermostat

end OpenMPCD.Random.Phase
