import Verif.Random.Maxwell
import Mathlib.Probability.ProductMeasure

/-!
# Thermal equilibrium (C102)

The Maxwell-Boltzmann distribution of the velocities, with uniformly distributed positions, is kept by the simulation of the
MPC fluid: by streaming, by collisions without thermostat, and by collisions with the thermostat, if the numbers it draws
have the gamma distribution.
-/

set_option linter.unusedSectionVars false
set_option linter.unusedSimpArgs false

open MeasureTheory ProbabilityTheory Set
open scoped ENNReal

namespace OpenMPCD.Random.Phase

open OpenMPCD.Collide OpenMPCD.Random.Rescale

variable {N : ℕ}

/-! ## Specification -/

/-- The numbers drawn from the gamma distribution in one collision: for the cells' shapes, whatever they are, they are
independent, and each has the distribution that the model of `Gamma_shape_ge_1` has (see C96). -/
structure GammaDraws {Ω : Type*} [MeasurableSpace Ω] (μ : Measure Ω) (gamma : Ω → ℕ → ℝ → ℝ → ℝ) (cellCount : ℕ)
    (kT : ℝ) : Prop where
  measurable : ∀ k shape, Measurable fun ω => gamma ω k shape kT
  law : ∀ shape : Fin cellCount → ℝ, (∀ k, 1 ≤ shape k) →
    μ.map (fun ω k => gamma ω (k : Fin cellCount) (shape k) kT) = Measure.pi fun k => Gamma.gammaShapeGe1 (shape k) kT

/-! ## The collision in coordinates -/

section

variable {P : Params} {R : Randomness} {t : ℝ} {d d' : CellData} {ps ps' : List Particle} {m : Fin N → ℝ} {x v : Coords N}

theorem layers_zero (hshear : P.shearRate = 0) (shift : Vec3 ℝ) (t : ℝ) (x : Coords N) : layers P shift t x = 0 := by
  apply coords_ext
  intro i
  unfold layers
  rw [vecAt_ofVec]
  unfold posLayer layerVelocity hostImage
  ext <;> simp [hshear, vecAt]

theorem cellVel_mean (c : Fin N → ℕ) (m : Fin N → ℝ) (w : Coords N) (k : ℕ) :
    cellVel c m w k = ⟨mean c m k w 0, mean c m k w 1, mean c m k w 2⟩ := by
  have hs : ∀ (f : Fin N → Vec3 ℝ), (∑ j, f j) = ⟨∑ j, (f j).x, ∑ j, (f j).y, ∑ j, (f j).z⟩ := by
    intro f
    induction (Finset.univ : Finset (Fin N)) using Finset.induction_on with
    | empty => simp; rfl
    | insert a s ha ih =>
      rw [Finset.sum_insert ha, Finset.sum_insert ha, Finset.sum_insert ha, Finset.sum_insert ha, ih]
      ext <;> simp
  unfold cellVel cellMomentum mean
  rw [hs]
  have e : ∀ a b : Fin N → ℝ, (∀ j, a j = b j) → ∀ z : ℝ, (∑ j, a j) * z = z * ∑ j, b j := by
    intro a b h z
    rw [mul_comm, Finset.sum_congr rfl fun j _ => h j]
  have e0 : ∀ j (p : Prop) [Decidable p] (f : Vec3 ℝ → ℝ), f 0 = 0 →
      f (if p then m j • vecAt w j else 0) = if p then f (m j • vecAt w j) else 0 := by
    intro j p _ f hf
    split
    · rfl
    · exact hf
  ext
  · simp only [Vec3.smul_x]
    exact e _ _ (fun j => (e0 j _ Vec3.x rfl).trans (by simp [vecAt, mul_comm])) _
  · simp only [Vec3.smul_y]
    exact e _ _ (fun j => (e0 j _ Vec3.y rfl).trans (by simp [vecAt, mul_comm])) _
  · simp only [Vec3.smul_z]
    exact e _ _ (fun j => (e0 j _ Vec3.z rfl).trans (by simp [vecAt, mul_comm])) _

theorem Represents.count (h : Represents m x v ps) (c : ℕ) :
    (members P R.gridShift t c ps).length = cellCard (cells P R.gridShift t x) c := by
  have h1 := h.sum fun q => if posCell P R.gridShift t q.1 = c then 1 else 0
  have h2 := sum_ite_filter ps (fun p => cellOf P R.gridShift t p = c) fun _ => 1
  unfold cellCard
  rw [Finset.card_filter]
  refine Eq.trans ?_ h1
  refine Eq.trans ?_ h2.symm
  simp [members]

theorem Represents.relative (h : Represents m x v ps) (hl : layers P R.gridShift t x = 0) (c : ℕ) :
    relativeKineticEnergy (imageVelocity P R.gridShift t) (members P R.gridShift t c ps) =
      rel (weight m) (proj (cells P R.gridShift t x) m c) v := by
  rw [rel_proj]
  unfold relativeKineticEnergy kineticEnergy
  rw [h.com, hl, add_zero]
  conv_lhs => rw [members]
  rw [← sum_ite_filter]
  have h1 := h.sum fun q => if posCell P R.gridShift t q.1 = c then
    q.2.2 * (q.2.1 + posLayer P R.gridShift t q.1 - cellVel (cells P R.gridShift t x) m v c).dot
      (q.2.1 + posLayer P R.gridShift t q.1 - cellVel (cells P R.gridShift t x) m v c) / 2 else 0
  refine Eq.trans ?_ (h1.trans ?_)
  · rfl
  · rw [Fintype.sum_prod_type]
    refine Finset.sum_congr rfl fun i _ => ?_
    have hz : posLayer P R.gridShift t (vecAt x i) = 0 := by
      have := congrArg (fun y => vecAt y i) hl
      simp only [layers, vecAt_ofVec] at this
      rw [this]
      ext <;> simp [vecAt]
    rw [Fin.sum_univ_three, hz, add_zero, cellVel_mean]
    change (if cells P R.gridShift t x i = c then _ else _) = _
    split
    · simp only [Vec3.dot, vecAt, Vec3.sub_x, Vec3.sub_y, Vec3.sub_z]
      ring
    · simp

end

/-- The shapes of the gamma distributions for the cells; only those of cells with two or more particles matter. -/
noncomputable def shapeOf (c : Fin N → ℕ) (k : ℕ) : ℝ :=
  if cellCard c k < 2 then 1 else 3 * ((cellCard c k : ℝ) - 1) / 2

theorem one_le_shapeOf (c : Fin N → ℕ) (k : ℕ) : 1 ≤ shapeOf c k := by
  unfold shapeOf
  split
  · exact le_rfl
  · next h =>
    have : (2 : ℝ) ≤ cellCard c k := by exact_mod_cast not_lt.1 h
    linarith

/-- The velocities after a collision without shear. -/
noncomputable def kick (P : Params) (axes : ℕ → Vec3 ℝ) (m : Fin N → ℝ) (gamma : ℕ → ℝ → ℝ → ℝ) (c : Fin N → ℕ)
    (v : Coords N) : Coords N :=
  open Classical in
  mix c m axes P.srdCollisionAngle (fun _ => 1) (if P.bulkThermostatTargetkT = 0 then v else
    steps (oneCell c m) P.cellCount v fun k => gamma k (shapeOf c k) P.bulkThermostatTargetkT)

theorem newVel_scaled (a : Vec3 ℝ) (θ s : ℝ) (V u : Vec3 ℝ) :
    newVel a θ 1 V (s • (u - V) + V) = newVel a θ s V u := by
  unfold newVel
  rw [add_sub_cancel_right, cppRotate_smul, one_smul]

/-- Scaling and rotating at once is scaling and then rotating. -/
theorem mix_scaled {c : Fin N → ℕ} {m : Fin N → ℝ} (hm : ∀ i, 0 < m i) (axes : ℕ → Vec3 ℝ) (θ : ℝ) (s : ℕ → ℝ)
    {u w : Coords N} (h : ∀ q : Fin N × Fin 3, u q = s (c q.1) * (w q - mean c m (c q.1) w q.2) + mean c m (c q.1) w q.2) :
    mix c m axes θ (fun _ => 1) u = mix c m axes θ s w := by
  have hmean : ∀ i a, mean c m (c i) u a = mean c m (c i) w a := fun i a =>
    mean_scale hm (s (c i)) fun j hj => by
      have := h (j, a)
      simp only at this
      rw [this, hj]
  apply coords_ext
  intro i
  rw [vecAt_mix, vecAt_mix, ← newVel_scaled (axes (c i)) θ (s (c i)), cellVel_mean, cellVel_mean, hmean, hmean, hmean]
  congr 1
  unfold vecAt
  rw [h, h, h]
  ext <;> simp [mul_comm]

section

variable {P : Params} {R : Randomness} {t : ℝ} {d d' : CellData} {ps ps' : List Particle} {m : Fin N → ℝ} {x v : Coords N}

theorem Represents.kick (h : Represents m x v ps) (hP : P.Valid) (hm : ∀ i, 0 < m i) (hshear : P.shearRate = 0)
    (hd : P.bulkThermostatTargetkT = 0 → d.Initial) (hc : Collide P R t d ps d' ps') :
    Represents m x (kick P R.axes m R.gamma (cells P R.gridShift t x) v) ps' := by
  have hl := layers_zero hshear R.gridShift t x
  unfold Phase.kick
  by_cases hT : P.bulkThermostatTargetkT = 0
  · rw [if_pos hT]
    have := collisionMap_represents hP hT h (hd hT) hc
    unfold collisionMap turn at this
    rw [hl, add_zero, sub_zero] at this
    exact this
  · rw [if_neg hT]
    have hrun : ¬ (P.srdCollisionAngle = 0 ∧ P.bulkThermostatTargetkT = 0) := fun e => hT e.2
    have h1 := h.collide hP hrun hc
    rw [hl, add_zero, sub_zero] at h1
    have h2 := (collide_eq hP hrun hc).1
    set c := cells P R.gridShift t x with hcdef
    have hlt : ∀ i, c i < P.cellCount := fun i => cellOf_lt hP _ _ _
    set g : ℕ → ℝ := fun k => R.gamma k (shapeOf c k) P.bulkThermostatTargetkT with hg
    have hs : ∀ i, d'.scalings (c i) = cellFactor c m v g (c i) := by
      intro i
      obtain ⟨-, -, e1, e2, e3⟩ := h2 (c i) (hlt i)
      rw [h.relative hl] at e1
      rw [h.count] at e2
      rw [e3, if_neg hT, e1, e2]
      unfold cellFactor factor
      rw [← hcdef]
      by_cases h3 : cellCard c (c i) < 2
      · rw [if_pos (Or.inl h3), if_pos h3]
      · rw [if_neg h3]
        by_cases h4 : rel (weight m) (proj c m (c i)) v = 0
        · rw [if_pos (Or.inr h4), if_pos h4]
        · rw [if_neg (not_or.2 ⟨h3, h4⟩), if_neg h4, hg]
          simp only [shapeOf]
          rw [if_neg h3]
          congr 3
          ring
    have := mix_scaled (c := c) hm R.axes P.srdCollisionAngle d'.scalings
      (u := steps (oneCell c m) P.cellCount v fun k => g k) (w := v) (by
        intro q
        rw [steps_oneCell, if_pos (hlt q.1), hs])
    rw [this]
    exact h1

end

/-! ## The law of the velocities -/

section

variable {Ω : Type*} [MeasurableSpace Ω] {μ : Measure Ω} [IsProbabilityMeasure μ] {P : Params} {t : ℝ} {m : Fin N → ℝ}
  {gamma : Ω → ℕ → ℝ → ℝ → ℝ} {kT : ℝ}

theorem measurable_thermostat (hγ : ∀ k shape, Measurable fun ω => gamma ω k shape P.bulkThermostatTargetkT)
    (c : Fin N → ℕ) :
    Measurable fun p : Coords N × Ω => steps (oneCell c m) P.cellCount p.1
      fun k => gamma p.2 k (shapeOf c k) P.bulkThermostatTargetkT := by
  have h1 : Measurable fun p : Coords N × Ω =>
      (p.1, fun k : Fin P.cellCount => gamma p.2 k (shapeOf c k) P.bulkThermostatTargetkT) :=
    measurable_fst.prodMk (measurable_pi_lambda _ fun k => (hγ k _).comp measurable_snd)
  have h2 := (measurable_steps (F := oneCell c m) (fun k => measurable_oneCell k) P.cellCount).comp h1
  exact h2

theorem thermostat_law (hm : ∀ i, 0 < m i) (hkT : 0 < P.bulkThermostatTargetkT)
    (hγ : GammaDraws μ gamma P.cellCount P.bulkThermostatTargetkT) (c : Fin N → ℕ) :
    ((maxwell m P.bulkThermostatTargetkT).prod μ).map (fun p => steps (oneCell c m) P.cellCount p.1
      fun k => gamma p.2 k (shapeOf c k) P.bulkThermostatTargetkT) = maxwell m P.bulkThermostatTargetkT := by
  set kT := P.bulkThermostatTargetkT with hk
  have hlaw := hγ.law (fun k => shapeOf c k) fun k => one_le_shapeOf c k
  simp only [fun k : ℕ => Gamma.C96_shape_ge_1 (one_le_shapeOf c k) hkT] at hlaw
  have hprob : ∀ k : ℕ, IsProbabilityMeasure (gammaMeasure (shapeOf c k) (1 / kT)) := fun k =>
    isProbabilityMeasure_gammaMeasure (lt_of_lt_of_le one_pos (one_le_shapeOf c k)) (one_div_pos.2 hkT)
  have hmeas : Measurable fun ω => fun k : Fin P.cellCount => gamma ω k (shapeOf c k) kT :=
    measurable_pi_lambda _ fun k => hγ.measurable k _
  have h1 : MeasurePreserving (fun p : Coords N × Ω => (p.1, fun k : Fin P.cellCount => gamma p.2 k (shapeOf c k) kT))
      ((maxwell m kT).prod μ)
      ((maxwell m kT).prod (Measure.pi fun k : Fin P.cellCount => gammaMeasure (shapeOf c k) (1 / kT))) :=
    (MeasurePreserving.id _).prod ⟨hmeas, hlaw⟩
  have h2 := map_steps (F := oneCell c m) (fun k => measurable_oneCell k) (maxwell m kT)
    (fun k => gammaMeasure (shapeOf c k) (1 / kT)) P.cellCount (by
      intro k _
      refine oneCell_law hm hkT k fun h => ?_
      unfold shapeOf
      rw [if_neg (by omega)])
  rw [← h1.map_eq, Measure.map_map (measurable_steps (fun k => measurable_oneCell k) _) h1.measurable] at h2
  exact h2

theorem measurable_kick (hγ : P.bulkThermostatTargetkT ≠ 0 →
      ∀ k shape, Measurable fun ω => gamma ω k shape P.bulkThermostatTargetkT)
    (axes : ℕ → Vec3 ℝ) (c : Fin N → ℕ) : Measurable fun p : Coords N × Ω => kick P axes m (gamma p.2) c p.1 := by
  unfold kick
  by_cases hT : P.bulkThermostatTargetkT = 0
  · simp only [if_pos hT]
    have := (measurable_mix_of c m axes P.srdCollisionAngle fun _ => 1).comp 
      (measurable_fst : Measurable (Prod.fst : Coords N × Ω → Coords N))
    exact this
  · simp only [if_neg hT]
    have := (measurable_mix_of c m axes P.srdCollisionAngle fun _ => 1).comp (measurable_thermostat (m := m) (hγ hT) c)
    exact this

theorem kick_law (hP : P.Valid) (hm : ∀ i, 0 < m i) (hkT : 0 < kT)
    (hT : P.bulkThermostatTargetkT = 0 ∨
      P.bulkThermostatTargetkT = kT ∧ GammaDraws μ gamma P.cellCount P.bulkThermostatTargetkT)
    (shift : Vec3 ℝ) (axes : ℕ → Vec3 ℝ) (haxis : ∀ c < P.cellCount, (axes c).getLength = 1) (x : Coords N) :
    ((maxwell m kT).prod μ).map (fun p => kick P axes m (gamma p.2) (cells P shift t x) p.1) = maxwell m kT := by
  have hmix := maxwell_preserved hm hkT (mix_measurePreserving (t := t) hP hm shift axes P.srdCollisionAngle haxis x)
    fun v => mix_energy hP hm shift axes P.srdCollisionAngle haxis x v
  unfold kick
  by_cases h0 : P.bulkThermostatTargetkT = 0
  · simp only [if_pos h0]
    have h1 : MeasurePreserving (Prod.fst : Coords N × Ω → Coords N) ((maxwell m kT).prod μ) (maxwell m kT) :=
      measurePreserving_fst
    exact (hmix.comp h1).map_eq
  · obtain ⟨rfl, hg⟩ := hT.resolve_left h0
    simp only [if_neg h0]
    have h1 : MeasurePreserving _ ((maxwell m P.bulkThermostatTargetkT).prod μ) _ :=
      ⟨measurable_thermostat (m := m) hg.measurable (cells P shift t x), thermostat_law hm hkT hg (cells P shift t x)⟩
    exact (hmix.comp h1).map_eq

/-! ## Positions -/

theorem cells_image (hP : P.Valid) (hshear : P.shearRate = 0) (shift : Vec3 ℝ) (t t' : ℝ) (x : Coords N) :
    cells P shift t x = cells P shift t' (imageInBox P x) := by
  funext i
  unfold cells
  rw [posCell_eq, posCell_eq, hshear]
  simp only [zero_mul, mul_zero, sub_zero]
  have e0 : (vecAt (imageInBox P x) i).x = reduce P.Lx (vecAt x i).x := rfl
  have e1 : (vecAt (imageInBox P x) i).y = reduce P.Ly (vecAt x i).y := rfl
  have e2 : (vecAt (imageInBox P x) i).z = reduce P.Lz (vecAt x i).z := rfl
  rw [e0, e1, e2, reduce_reduce_add hP.1, reduce_reduce_add hP.2, reduce_reduce_add hP.3]

theorem boxSize_pos (hP : P.Valid) (k : Fin 3) : 0 < boxSize P k := by
  fin_cases k
  · exact hP.1
  · exact hP.2
  · exact hP.3

theorem measurable_imageInBox (P : Params) : Measurable (imageInBox P : Coords N → Coords N) :=
  measurable_pi_lambda _ fun q => (measurable_reduce (boxSize P q.2)).comp (measurable_pi_apply q)

theorem uniformBox_prob (hP : P.Valid) (N : ℕ) : IsProbabilityMeasure (uniformBox P N) := by
  have := fun q : Fin N × Fin 3 => uniform_prob (boxSize_pos hP q.2)
  unfold uniformBox
  infer_instance

/-- Moving by any distance keeps the uniform distribution in the box. -/
theorem uniformBox_shift (hP : P.Valid) (a : Coords N) :
    MeasurePreserving (fun x => imageInBox P (x + a)) (uniformBox P N) (uniformBox P N) := by
  have := fun q : Fin N × Fin 3 => uniform_prob (boxSize_pos hP q.2)
  exact measurePreserving_pi _ _ fun q : Fin N × Fin 3 => uniform_shift (boxSize_pos hP q.2) (a q)

theorem image_image_add (hP : P.Valid) (x a : Coords N) : imageInBox P (imageInBox P x + a) = imageInBox P (x + a) := by
  funext q
  exact reduce_reduce_add (boxSize_pos hP q.2) _ _

/-- Streaming, with the positions taken back to the box. -/
noncomputable def drift (P : Params) (dt : ℝ) (p : Coords N × Coords N) : Coords N × Coords N :=
  (imageInBox P (p.1 + dt • p.2), p.2)

theorem drift_law (hP : P.Valid) (dt : ℝ) (ν : Measure (Coords N)) [IsProbabilityMeasure ν] :
    MeasurePreserving (drift P dt) ((uniformBox P N).prod ν) ((uniformBox P N).prod ν) := by
  have := uniformBox_prob hP N
  have hm : Measurable (Function.uncurry fun v x : Coords N => imageInBox P (x + dt • v)) := by
    have h1 : Measurable fun p : Coords N × Coords N => p.2 + dt • p.1 := measurable_snd.add (measurable_fst.const_smul dt)
    exact (measurable_imageInBox P).comp h1
  have h : MeasurePreserving (fun p : Coords N × Coords N => (p.1, imageInBox P (p.2 + dt • p.1)))
      (ν.prod (uniformBox P N)) (ν.prod (uniformBox P N)) :=
    (MeasurePreserving.id _).skew_product hm
      (Filter.Eventually.of_forall fun v => (uniformBox_shift hP (dt • v)).map_eq)
  have h1 := Measure.measurePreserving_swap (μ := uniformBox P N) (ν := ν)
  have h2 := Measure.measurePreserving_swap (μ := ν) (ν := uniformBox P N)
  exact h2.comp (h.comp h1)

/-- One step, with the positions taken back to the box. -/
noncomputable def oneStep (P : Params) (dt : ℝ) (m : Fin N → ℝ) (shift : Vec3 ℝ) (axes : ℕ → Vec3 ℝ)
    (p : Coords N × Coords N) (gamma : ℕ → ℝ → ℝ → ℝ) : Coords N × Coords N :=
  ((drift P dt p).1, kick P axes m gamma (cells P shift 0 (drift P dt p).1) p.2)

theorem measurable_collision (hγ : P.bulkThermostatTargetkT ≠ 0 →
      ∀ k shape, Measurable fun ω => gamma ω k shape P.bulkThermostatTargetkT)
    (shift : Vec3 ℝ) (axes : ℕ → Vec3 ℝ) :
    Measurable (Function.uncurry fun (z : Coords N) (q : Coords N × Ω) =>
      kick P axes m (gamma q.2) (cells P shift 0 z) q.1) := by
  have h1 : Measurable fun p : Coords N × Coords N × Ω => cells P shift 0 p.1 :=
    (measurable_cells P shift 0).comp measurable_fst
  have h2 := measurable_family (fun (c : Fin N → ℕ) (q : Coords N × Ω) => kick P axes m (gamma q.2) c q.1)
    (fun c => measurable_kick hγ axes c) _ h1 _ (measurable_snd (α := Coords N) (β := Coords N × Ω))
  exact h2

theorem oneStep_law (hP : P.Valid) (hm : ∀ i, 0 < m i) (hkT : 0 < kT)
    (hT : P.bulkThermostatTargetkT = 0 ∨
      P.bulkThermostatTargetkT = kT ∧ GammaDraws μ gamma P.cellCount P.bulkThermostatTargetkT)
    (dt : ℝ) (shift : Vec3 ℝ) (axes : ℕ → Vec3 ℝ) (haxis : ∀ c < P.cellCount, (axes c).getLength = 1) :
    MeasurePreserving (fun p : (Coords N × Coords N) × Ω => oneStep P dt m shift axes p.1 (gamma p.2))
      (((uniformBox P N).prod (maxwell m kT)).prod μ) ((uniformBox P N).prod (maxwell m kT)) := by
  have := uniformBox_prob hP N
  have hγ : P.bulkThermostatTargetkT ≠ 0 →
      ∀ k shape, Measurable fun ω => gamma ω k shape P.bulkThermostatTargetkT :=
    fun h => (hT.resolve_left h).2.measurable
  have h1 := (drift_law hP dt (maxwell m kT)).prod (MeasurePreserving.id μ)
  have h2 := measurePreserving_prodAssoc (uniformBox P N) (maxwell m kT) μ
  have h3 : MeasurePreserving (fun p : Coords N × Coords N × Ω =>
      (p.1, kick P axes m (gamma p.2.2) (cells P shift 0 p.1) p.2.1))
      ((uniformBox P N).prod ((maxwell m kT).prod μ)) ((uniformBox P N).prod (maxwell m kT)) :=
    (MeasurePreserving.id _).skew_product (measurable_collision hγ shift axes)
      (Filter.Eventually.of_forall fun z => kick_law hP hm hkT hT shift axes haxis z)
  have h4 := h3.comp (h2.comp h1)
  exact h4

end

/-! ## C102 -/

/-- C102: a collision keeps the Maxwell-Boltzmann distribution of the velocities: whatever the positions, the grid shift and
the rotation axes, without thermostat at every temperature, with the thermostat at its temperature. -/
theorem C102_collision {Ω : Type*} [MeasurableSpace Ω] {μ : Measure Ω} [IsProbabilityMeasure μ] {P : Params}
    {m : Fin N → ℝ} {gamma : Ω → ℕ → ℝ → ℝ → ℝ} {kT : ℝ} (hP : P.Valid) (hm : ∀ i, 0 < m i) (hkT : 0 < kT)
    (hshear : P.shearRate = 0)
    (hT : P.bulkThermostatTargetkT = 0 ∨
      P.bulkThermostatTargetkT = kT ∧ GammaDraws μ gamma P.cellCount P.bulkThermostatTargetkT)
    (t : ℝ) (shift : Vec3 ℝ) (axes : ℕ → Vec3 ℝ) (haxis : ∀ c < P.cellCount, (axes c).getLength = 1) (x : Coords N) :
    ∃ T : Coords N × Ω → Coords N, MeasurePreserving T ((maxwell m kT).prod μ) (maxwell m kT) ∧
      ∀ v ω ps d d' ps', Represents m x v ps → (P.bulkThermostatTargetkT = 0 → d.Initial) →
        Collide P ⟨shift, axes, gamma ω⟩ t d ps d' ps' → Represents m x (T (v, ω)) ps' := by
  refine ⟨fun p => kick P axes m (gamma p.2) (cells P shift t x) p.1, ⟨?_, ?_⟩, ?_⟩
  · exact measurable_kick (fun h => (hT.resolve_left h).2.measurable) axes _
  · exact kick_law hP hm hkT hT shift axes haxis x
  · intro v ω ps d d' ps' h hd hc
    have h1 := h.kick hP hm hshear hd hc
    exact h1

/-- C102: in thermal equilibrium - positions uniformly distributed in the box, velocities with the Maxwell-Boltzmann
distribution, all independent - the simulation stays in equilibrium, after any number of steps: the images in the box of the
positions, and the velocities, again have that distribution. This holds for all grid shifts and all rotation axes, hence
for random ones. -/
theorem C102_run {Ω : Type*} [MeasurableSpace Ω] {μ : Measure Ω} [IsProbabilityMeasure μ] {P : Params}
    {m : Fin N → ℝ} {gamma : Ω → ℕ → ℝ → ℝ → ℝ} {kT : ℝ} (hP : P.Valid) (hm : ∀ i, 0 < m i) (hkT : 0 < kT)
    (hshear : P.shearRate = 0)
    (hT : P.bulkThermostatTargetkT = 0 ∨
      P.bulkThermostatTargetkT = kT ∧ GammaDraws μ gamma P.cellCount P.bulkThermostatTargetkT)
    (t dt : ℝ) (shift : ℕ → Vec3 ℝ) (axes : ℕ → ℕ → Vec3 ℝ)
    (haxis : ∀ k, ∀ c < P.cellCount, (axes k c).getLength = 1) (n : ℕ) :
    ∃ T : (Coords N × Coords N) × (Fin n → Ω) → Coords N × Coords N,
      MeasurePreserving T (((uniformBox P N).prod (maxwell m kT)).prod (Measure.pi fun _ => μ))
        ((uniformBox P N).prod (maxwell m kT)) ∧
      ∀ x v ω ps d s', Represents m x v ps → (P.bulkThermostatTargetkT = 0 → d.Initial) →
        RunWith P dt (List.ofFn fun k : Fin n => ⟨shift k, axes k, gamma (ω k)⟩).reverse (t, d, ps) s' →
        ∃ x', Represents m x' (T ((x, v), ω)).2 s'.2.2 ∧ imageInBox P x' = (T ((x, v), ω)).1 := by
  have := uniformBox_prob hP N
  let F : ℕ → Coords N × Coords N → Ω → Coords N × Coords N := fun k p ω =>
    oneStep P dt m (shift k) (axes k) p (gamma ω)
  have hF : ∀ k, MeasurePreserving (fun p : (Coords N × Coords N) × Ω => F k p.1 p.2)
      (((uniformBox P N).prod (maxwell m kT)).prod μ) ((uniformBox P N).prod (maxwell m kT)) := fun k =>
    oneStep_law hP hm hkT hT dt (shift k) (axes k) (haxis k)
  have h0 : MeasurePreserving (imageInBox P : Coords N → Coords N) (uniformBox P N) (uniformBox P N) := by
    have := uniformBox_shift hP (0 : Coords N)
    simpa only [add_zero] using this
  have h1 := (h0.prod (MeasurePreserving.id (maxwell m kT))).prod
    (MeasurePreserving.id (Measure.pi fun _ : Fin n => μ))
  have h2 : MeasurePreserving (fun p : (Coords N × Coords N) × (Fin n → Ω) => steps F n p.1 p.2)
      (((uniformBox P N).prod (maxwell m kT)).prod (Measure.pi fun _ => μ)) ((uniformBox P N).prod (maxwell m kT)) :=
    ⟨measurable_steps (fun k => (hF k).measurable) n,
      map_steps (fun k => (hF k).measurable) _ (fun _ => μ) n fun k _ => (hF k).map_eq⟩
  refine ⟨_, h2.comp h1, ?_⟩
  intro x v ω ps d s' h hd hr
  simp only [Function.comp, Prod.map, id]
  suffices (P.bulkThermostatTargetkT = 0 → s'.2.1.Initial) ∧
      ∃ x', Represents m x' (steps F n (imageInBox P x, v) ω).2 s'.2.2 ∧
        imageInBox P x' = (steps F n (imageInBox P x, v) ω).1 from this.2
  clear h1 h2
  induction n generalizing s' with
  | zero =>
    cases hr
    exact ⟨hd, x, h, rfl⟩
  | succ n ih =>
    rw [List.ofFn_succ', List.concat_eq_append, List.reverse_append] at hr
    cases hr with
    | cons _ hr hc =>
      obtain ⟨i1, x', i2, i3⟩ := ih (fun i => ω i.castSucc) _ hr
      set w := steps F n (imageInBox P x, v) fun i => ω i.castSucc with hw
      have j1 : Represents m (x' + dt • w.2) w.2 _ := streamMap_represents (dt := dt) i2
      have j2 := j1.kick hP hm hshear i1 hc
      have e1 : (drift P dt w).1 = imageInBox P (x' + dt • w.2) := by
        unfold drift
        rw [← i3, image_image_add hP]
      refine ⟨fun hT0 => C13_initial hT0 (i1 hT0) hc, x' + dt • w.2, ?_, e1.symm⟩
      have e2 : (steps F (n + 1) (imageInBox P x, v) ω).2 =
          kick P (axes n) m (gamma (ω (Fin.last n))) (cells P (shift n) 0 (drift P dt w).1) w.2 := rfl
      rw [e2, e1, ← cells_image hP hshear]
      exact j2

theorem second_moment {V : ℝ} (hV : 0 ≤ V) :
    Integrable (fun x : ℝ => x ^ 2) (gaussianReal 0 V.toNNReal) ∧ ∫ x, x ^ 2 ∂gaussianReal 0 V.toNNReal = V := by
  have h1 : MemLp id 2 (gaussianReal 0 V.toNNReal) := memLp_id_gaussianReal 2
  have h2 := variance_id_gaussianReal (μ := 0) (v := V.toNNReal)
  rw [variance_eq_integral measurable_id.aemeasurable] at h2
  simp only [id, integral_id_gaussianReal, sub_zero, Real.coe_toNNReal _ hV] at h2
  exact ⟨h1.integrable_sq, h2⟩

/-- C102: the temperature is the intended one: in equilibrium, hence after any number of steps, the mean kinetic energy is
`kT / 2` for each of the three components of the velocity of each particle. -/
theorem C102_energy {m : Fin N → ℝ} (hm : ∀ i, 0 < m i) {kT : ℝ} (hkT : 0 < kT) :
    ∫ v, (∑ i, m i * (vecAt v i).getLengthSquared / 2) ∂maxwell m kT = 3 * N * kT / 2 := by
  have h1 : ∀ q : Fin N × Fin 3, Integrable (fun v : Coords N => m q.1 / 2 * v q ^ 2) (maxwell m kT) ∧
      ∫ v, m q.1 / 2 * v q ^ 2 ∂maxwell m kT = kT / 2 := by
    intro q
    have hV : 0 ≤ kT / m q.1 := (div_pos hkT (hm q.1)).le
    have he : MeasurePreserving (Function.eval q) (maxwell m kT) (gaussianReal 0 (kT / m q.1).toNNReal) :=
      measurePreserving_eval (fun q : Fin N × Fin 3 => gaussianReal 0 (kT / m q.1).toNNReal) q
    obtain ⟨i1, i2⟩ := second_moment hV
    constructor
    · have := (he.integrable_comp i1.aestronglyMeasurable).2 i1
      exact this.const_mul _
    · rw [integral_const_mul]
      have := integral_map (μ := maxwell m kT) he.measurable.aemeasurable
        (f := fun x : ℝ => x ^ 2) (by rw [he.map_eq]; exact i1.aestronglyMeasurable)
      rw [he.map_eq, i2] at this
      have e : ∫ v, v q ^ 2 ∂maxwell m kT = kT / m q.1 := this.symm
      rw [e]
      have := (hm q.1).ne'
      field_simp
  have e : ∀ v : Coords N, (∑ i, m i * (vecAt v i).getLengthSquared / 2) = ∑ q : Fin N × Fin 3, m q.1 / 2 * v q ^ 2 := by
    intro v
    rw [Fintype.sum_prod_type]
    refine Finset.sum_congr rfl fun i _ => ?_
    rw [Fin.sum_univ_three]
    simp only [Vec3.getLengthSquared, Vec3.dot, vecAt]
    ring
  simp only [e]
  rw [integral_finsetSum _ fun q _ => (h1 q).1, Finset.sum_congr rfl fun q _ => (h1 q).2]
  simp
  ring

/-- There are such random numbers: independent ones, for all cells and all shapes. -/
theorem exists_gammaDraws (cellCount : ℕ) {kT : ℝ} (hkT : 0 < kT) :
    ∃ (Ω : Type) (_ : MeasurableSpace Ω) (μ : Measure Ω) (_ : IsProbabilityMeasure μ) (gamma : Ω → ℕ → ℝ → ℝ → ℝ),
      GammaDraws μ gamma cellCount kT := by
  classical
  let ν : ℕ × ℝ → Measure ℝ := fun i => if 1 ≤ i.2 then Gamma.gammaShapeGe1 i.2 kT else Measure.dirac 0
  have hν : ∀ i, IsProbabilityMeasure (ν i) := by
    intro i
    by_cases h : 1 ≤ i.2
    · simp only [ν, if_pos h]
      rw [Gamma.C96_shape_ge_1 h hkT]
      exact isProbabilityMeasure_gammaMeasure (lt_of_lt_of_le one_pos h) (one_div_pos.2 hkT)
    · simp only [ν, if_neg h]
      infer_instance
  refine ⟨ℕ × ℝ → ℝ, inferInstance, Measure.infinitePi ν, inferInstance, fun ω k shape _ => ω (k, shape), ?_, ?_⟩
  · intro k shape
    exact measurable_pi_apply _
  · intro shape hshape
    have hg : ∀ k, IsProbabilityMeasure (Gamma.gammaShapeGe1 (shape k) kT) := by
      intro k
      have := hν (0, shape k)
      simp only [ν, if_pos (hshape k)] at this
      exact this
    symm
    refine Measure.pi_eq fun s hs => ?_
    have hmeas : Measurable fun (ω : ℕ × ℝ → ℝ) (k : Fin cellCount) => ω (k, shape k) :=
      measurable_pi_lambda _ fun k => measurable_pi_apply _
    rw [Measure.map_apply hmeas (MeasurableSet.univ_pi hs)]
    let e : Fin cellCount ↪ ℕ × ℝ := ⟨fun k => (k, shape k), fun a b h => Fin.ext (congrArg Prod.fst h)⟩
    let u : ℕ × ℝ → Set ℝ := fun i => if h : i.1 < cellCount then s ⟨i.1, h⟩ else Set.univ
    have hu : ∀ i, MeasurableSet (u i) := by
      intro i
      by_cases h : i.1 < cellCount
      · simp only [u, dif_pos h]
        exact hs _
      · simp only [u, dif_neg h]
        exact MeasurableSet.univ
    have hue : ∀ k, u (e k) = s k := fun k => dif_pos k.2
    have e1 : (fun (ω : ℕ × ℝ → ℝ) (k : Fin cellCount) => ω (k, shape k)) ⁻¹' Set.univ.pi s =
        Set.pi (Finset.univ.map e) u := by
      ext ω
      simp only [Set.mem_preimage, Set.mem_pi, Set.mem_univ, true_imp_iff, Finset.coe_map, Finset.coe_univ,
        Set.image_univ, Set.forall_mem_range, hue]
      exact Iff.rfl
    rw [e1, Measure.infinitePi_pi _ fun i _ => hu i, Finset.prod_map]
    refine Finset.prod_congr rfl fun k _ => ?_
    have e2 : ν (e k) = Gamma.gammaShapeGe1 (shape k) kT := if_pos (hshape k)
    rw [hue, e2]

/-- The hypotheses of C102 can be met, with the thermostat: a box, unit vectors as axes, and random numbers; and there
are runs. -/
example : ∃ (P : Params) (Ω : Type) (_ : MeasurableSpace Ω) (μ : Measure Ω) (_ : IsProbabilityMeasure μ)
    (gamma : Ω → ℕ → ℝ → ℝ → ℝ) (axes : ℕ → Vec3 ℝ), P.Valid ∧ P.shearRate = 0 ∧ P.bulkThermostatTargetkT = 1 ∧
    GammaDraws μ gamma P.cellCount P.bulkThermostatTargetkT ∧ (∀ c, (axes c).getLength = 1) ∧
    ∀ (m : Fin N → ℝ) (x v : Coords N) (ω : Ω) (d : CellData), ∃ ps d' ps', Represents m x v ps ∧
      Collide P ⟨0, axes, gamma ω⟩ 0 d ps d' ps' := by
  obtain ⟨Ω, h1, μ, h2, gamma, h3⟩ := exists_gammaDraws (2 * 2 * 2) one_pos
  refine ⟨⟨2, 2, 2, 0, 2, 1⟩, Ω, h1, μ, h2, gamma, fun _ => ⟨0, 0, 1⟩,
    ⟨by norm_num, by norm_num, by norm_num, by norm_num⟩, rfl, rfl, h3, ?_, ?_⟩
  · intro c
    simp [Vec3.getLength, Vec3.getLengthSquared, Vec3.dot]
  · intro m x v ω d
    obtain ⟨ps, hps⟩ := exists_represents m x v
    obtain ⟨d', ps', hc⟩ := C16_exists ⟨2, 2, 2, 0, 2, 1⟩ ⟨0, fun _ => ⟨0, 0, 1⟩, gamma ω⟩ 0 d ps
    exact ⟨ps, d', ps', hps, hc⟩

end OpenMPCD.Random.Phase
