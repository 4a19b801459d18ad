import Verif.Collide.Props
import Mathlib.MeasureTheory.Measure.Lebesgue.Basic
import Mathlib.MeasureTheory.Function.Floor
import Mathlib.MeasureTheory.Group.Prod
import Mathlib.LinearAlgebra.Matrix.ToLin
import Mathlib.LinearAlgebra.Matrix.NonsingularInverse

/-!
# Phase space

Positions and velocities of `N` particles as lists of coordinates, and the collision step as a map of them: for given
positions, the velocities are changed by a linear map and by adding and subtracting the velocities of the layers.
-/

set_option linter.unusedSectionVars false
set_option linter.unusedSimpArgs false

open MeasureTheory

namespace OpenMPCD.Random.Phase

open OpenMPCD.Collide

variable {N : ℕ}

/-! ## Specification -/

/-- The coordinates of `N` vectors. -/
abbrev Coords (N : ℕ) := Fin N × Fin 3 → ℝ

/-- The vector with the given number. -/
def vecAt (v : Coords N) (i : Fin N) : Vec3 ℝ := ⟨v (i, 0), v (i, 1), v (i, 2)⟩

/-- The particles have the given masses, positions and velocities. -/
def Represents (m : Fin N → ℝ) (x v : Coords N) (ps : List Particle) : Prop :=
  (ps.map fun p => (p.pos, p.vel, p.mass)) = List.ofFn fun i => (vecAt x i, vecAt v i, m i)

/-! ## Coordinates -/

/-- The coordinates of vectors. -/
def ofVec (f : Fin N → Vec3 ℝ) : Coords N := fun q => ![(f q.1).x, (f q.1).y, (f q.1).z] q.2

@[simp] theorem vecAt_ofVec (f : Fin N → Vec3 ℝ) (i : Fin N) : vecAt (ofVec f) i = f i := by
  ext <;> simp [vecAt, ofVec]

theorem coords_ext {v w : Coords N} (h : ∀ i, vecAt v i = vecAt w i) : v = w := by
  funext ⟨i, k⟩
  have := h i
  simp only [vecAt, Vec3.mk.injEq] at this
  fin_cases k
  · exact this.1
  · exact this.2.1
  · exact this.2.2

@[simp] theorem vecAt_add (v w : Coords N) (i : Fin N) : vecAt (v + w) i = vecAt v i + vecAt w i := by
  ext <;> simp [vecAt]

@[simp] theorem vecAt_sub (v w : Coords N) (i : Fin N) : vecAt (v - w) i = vecAt v i - vecAt w i := by
  ext <;> simp [vecAt]

@[simp] theorem vecAt_smul (r : ℝ) (v : Coords N) (i : Fin N) : vecAt (r • v) i = r • vecAt v i := by
  ext <;> simp [vecAt, mul_comm]

theorem sum_coords (w : Fin N × Fin 3 → ℝ) (v : Coords N) (hw : ∀ i k, w (i, k) = w (i, 0)) :
    ∑ q, w q * v q ^ 2 = ∑ i, w (i, 0) * (vecAt v i).dot (vecAt v i) := by
  rw [Fintype.sum_prod_type]
  refine Finset.sum_congr rfl fun i _ => ?_
  rw [Fin.sum_univ_three, hw i 1, hw i 2]
  simp only [Vec3.dot, vecAt]
  ring

/-! ## The linear part of a collision -/

/-- The cell of a position. -/
noncomputable def posCell (P : Params) (shift : Vec3 ℝ) (t : ℝ) (x : Vec3 ℝ) : ℕ :=
  cellOf P shift t ⟨x, 0, 0, 0, 0⟩

/-- The layer velocity at a position. -/
noncomputable def posLayer (P : Params) (shift : Vec3 ℝ) (t : ℝ) (x : Vec3 ℝ) : Vec3 ℝ :=
  layerVelocity P shift t ⟨x, 0, 0, 0, 0⟩

theorem cellOf_eq (P : Params) (shift : Vec3 ℝ) (t : ℝ) (p : Particle) :
    cellOf P shift t p = posCell P shift t p.pos := rfl

theorem layerVelocity_eq (P : Params) (shift : Vec3 ℝ) (t : ℝ) (p : Particle) :
    layerVelocity P shift t p = posLayer P shift t p.pos := rfl

/-- The cells of all particles. -/
noncomputable def cells (P : Params) (shift : Vec3 ℝ) (t : ℝ) (x : Coords N) : Fin N → ℕ :=
  fun i => posCell P shift t (vecAt x i)

/-- The layer velocities of all particles. -/
noncomputable def layers (P : Params) (shift : Vec3 ℝ) (t : ℝ) (x : Coords N) : Coords N :=
  ofVec fun i => posLayer P shift t (vecAt x i)

/-- The mass in a cell. -/
noncomputable def cellMass (c : Fin N → ℕ) (m : Fin N → ℝ) (k : ℕ) : ℝ := ∑ j, if c j = k then m j else 0

/-- The momentum in a cell. -/
noncomputable def cellMomentum (c : Fin N → ℕ) (m : Fin N → ℝ) (w : Coords N) (k : ℕ) : Vec3 ℝ :=
  ∑ j, if c j = k then m j • vecAt w j else 0

/-- The velocity of the centre of mass of a cell. -/
noncomputable def cellVel (c : Fin N → ℕ) (m : Fin N → ℝ) (w : Coords N) (k : ℕ) : Vec3 ℝ :=
  (cellMass c m k)⁻¹ • cellMomentum c m w k

theorem cellVel_add (c : Fin N → ℕ) (m : Fin N → ℝ) (v w : Coords N) (k : ℕ) :
    cellVel c m (v + w) k = cellVel c m v k + cellVel c m w k := by
  unfold cellVel cellMomentum
  rw [← smul_add, ← Finset.sum_add_distrib]
  congr 2
  funext j
  split
  · rw [vecAt_add, smul_add]
  · rw [add_zero]

theorem cellVel_smul (c : Fin N → ℕ) (m : Fin N → ℝ) (r : ℝ) (w : Coords N) (k : ℕ) :
    cellVel c m (r • w) k = r • cellVel c m w k := by
  unfold cellVel cellMomentum
  rw [smul_comm r, Finset.smul_sum (r := r)]
  congr 2
  funext j
  split
  · rw [vecAt_smul, smul_comm]
  · rw [smul_zero]

theorem newVel_add (a : Vec3 ℝ) (θ s : ℝ) (V W u v : Vec3 ℝ) :
    newVel a θ s (V + W) (u + v) = newVel a θ s V u + newVel a θ s W v := by
  unfold newVel
  rw [show u + v - (V + W) = (u - V) + (v - W) by abel, cppRotate_add, smul_add]
  abel

theorem newVel_smul (a : Vec3 ℝ) (θ s r : ℝ) (V u : Vec3 ℝ) :
    newVel a θ s (r • V) (r • u) = r • newVel a θ s V u := by
  unfold newVel
  rw [← smul_sub, cppRotate_smul, smul_add, smul_comm]

/-- Rotation and scaling of the velocities relative to the centres of mass of the cells. -/
noncomputable def mix (c : Fin N → ℕ) (m : Fin N → ℝ) (axes : ℕ → Vec3 ℝ) (θ : ℝ) (s : ℕ → ℝ) :
    Coords N →ₗ[ℝ] Coords N where
  toFun w := ofVec fun i => newVel (axes (c i)) θ (s (c i)) (cellVel c m w (c i)) (vecAt w i)
  map_add' v w := by
    apply coords_ext
    intro i
    simp only [vecAt_ofVec, vecAt_add, cellVel_add, newVel_add]
  map_smul' r w := by
    apply coords_ext
    intro i
    simp only [vecAt_ofVec, vecAt_smul, cellVel_smul, newVel_smul, RingHom.id_apply]

theorem vecAt_mix (c : Fin N → ℕ) (m : Fin N → ℝ) (axes : ℕ → Vec3 ℝ) (θ : ℝ) (s : ℕ → ℝ) (w : Coords N)
    (i : Fin N) :
    vecAt (mix c m axes θ s w) i = newVel (axes (c i)) θ (s (c i)) (cellVel c m w (c i)) (vecAt w i) := by
  change vecAt (ofVec fun i => newVel (axes (c i)) θ (s (c i)) (cellVel c m w (c i)) (vecAt w i)) i = _
  rw [vecAt_ofVec]

theorem mix_congr {c : Fin N → ℕ} {m : Fin N → ℝ} {axes : ℕ → Vec3 ℝ} {θ : ℝ} {s s' : ℕ → ℝ}
    (h : ∀ i, s (c i) = s' (c i)) : mix c m axes θ s = mix c m axes θ s' := by
  apply LinearMap.ext
  intro w
  apply coords_ext
  intro i
  rw [vecAt_mix, vecAt_mix, h]

/-! ## Particles -/

section

variable {P : Params} {R : Randomness} {t : ℝ} {d d' : CellData} {ps ps' : List Particle} {m : Fin N → ℝ}
  {x v : Coords N}

theorem Represents.sum {M : Type*} [AddCommMonoid M] (h : Represents m x v ps) (g : Vec3 ℝ × Vec3 ℝ × ℝ → M) :
    (ps.map fun p => g (p.pos, p.vel, p.mass)).sum = ∑ i, g (vecAt x i, vecAt v i, m i) := by
  have := congrArg (fun l => (l.map g).sum) h
  simp only [List.map_map, List.map_ofFn, List.sum_ofFn] at this
  exact this

theorem Represents.mass_pos (h : Represents m x v ps) (hm : ∀ i, 0 < m i) : ∀ p ∈ ps, 0 < p.mass := by
  intro p hp
  have : (p.pos, p.vel, p.mass) ∈ ps.map fun p => (p.pos, p.vel, p.mass) := List.mem_map_of_mem hp
  rw [h, List.mem_ofFn] at this
  obtain ⟨i, hi⟩ := this
  have e : m i = p.mass := (Prod.mk.inj (Prod.mk.inj hi).2).2
  rw [← e]
  exact hm i

theorem Represents.com (h : Represents m x v ps) (c : ℕ) :
    centerOfMassVelocity (imageVelocity P R.gridShift t) (members P R.gridShift t c ps) =
      cellVel (cells P R.gridShift t x) m (v + layers P R.gridShift t x) c := by
  unfold centerOfMassVelocity cellVel totalMass momentum members
  rw [← sum_ite_filter, ← sum_ite_filter]
  congr 1
  · congr 1
    have := h.sum fun q => if posCell P R.gridShift t q.1 = c then q.2.2 else 0
    exact this
  · have := h.sum fun q => if posCell P R.gridShift t q.1 = c then q.2.2 • (q.2.1 + posLayer P R.gridShift t q.1) else 0
    refine Eq.trans ?_ (this.trans ?_)
    · rfl
    · unfold cellMomentum cells layers
      simp only [vecAt_add, vecAt_ofVec]

/-- A collision that is not skipped. -/
theorem Represents.collide (h : Represents m x v ps) (hP : P.Valid)
    (hrun : ¬ (P.srdCollisionAngle = 0 ∧ P.bulkThermostatTargetkT = 0)) (hc : Collide P R t d ps d' ps') :
    Represents m x (mix (cells P R.gridShift t x) m R.axes P.srdCollisionAngle d'.scalings
      (v + layers P R.gridShift t x) - layers P R.gridShift t x) ps' := by
  rw [(collide_eq hP hrun hc).2]
  unfold Represents at h ⊢
  rw [List.map_map]
  have e : (ps.map ((fun p => (p.pos, p.vel, p.mass)) ∘ outcome P R t d'.scalings fun c =>
        centerOfMassVelocity (imageVelocity P R.gridShift t) (members P R.gridShift t c ps))) =
      (ps.map fun p => (p.pos, p.vel, p.mass)).map fun q : Vec3 ℝ × Vec3 ℝ × ℝ => (q.1,
        newVel (R.axes (posCell P R.gridShift t q.1)) P.srdCollisionAngle
          (d'.scalings (posCell P R.gridShift t q.1))
          (cellVel (cells P R.gridShift t x) m (v + layers P R.gridShift t x) (posCell P R.gridShift t q.1))
          (q.2.1 + posLayer P R.gridShift t q.1) - posLayer P R.gridShift t q.1, q.2.2) := by
    rw [List.map_map]
    apply List.map_congr_left
    intro p _
    simp only [Function.comp, outcome, Represents.com h, imageVelocity, cellOf_eq, layerVelocity_eq]
  rw [e, h, List.map_ofFn]
  refine congrArg List.ofFn (funext fun i => ?_)
  simp only [Function.comp, vecAt_sub, vecAt_mix, vecAt_add, layers, vecAt_ofVec, cells]

/-- There are particles with given masses, positions and velocities. -/
theorem exists_represents (m : Fin N → ℝ) (x v : Coords N) : ∃ ps, Represents m x v ps := by
  refine ⟨List.ofFn fun i => ⟨vecAt x i, vecAt v i, m i, 0, 0⟩, ?_⟩
  unfold Represents
  exact List.map_ofFn

theorem Represents.unique {x' v' : Coords N} (h : Represents m x v ps) (h' : Represents m x' v' ps) :
    x = x' ∧ v = v' := by
  unfold Represents at h h'
  have := List.ofFn_injective (h.symm.trans h')
  constructor
  · exact coords_ext fun i => (Prod.mk.inj (congrFun this i)).1
  · exact coords_ext fun i => (Prod.mk.inj (Prod.mk.inj (congrFun this i)).2).1

theorem Represents.energy (h : Represents m x v ps) :
    kineticEnergy (imageVelocity P R.gridShift t) ps =
      ∑ q : Fin N × Fin 3, m q.1 / 2 * (v + layers P R.gridShift t x) q ^ 2 := by
  rw [sum_coords (fun q => m q.1 / 2) _ fun _ _ => rfl]
  unfold kineticEnergy
  have := h.sum fun q => q.2.2 * (q.2.1 + posLayer P R.gridShift t q.1).dot
    (q.2.1 + posLayer P R.gridShift t q.1) / 2
  refine Eq.trans ?_ (this.trans ?_)
  · rfl
  · refine Finset.sum_congr rfl fun i _ => ?_
    simp only [vecAt_add, layers, vecAt_ofVec]
    ring

end

/-! ## Measurability -/

/-- A coordinate reduced to the box. -/
noncomputable def reduce (L : ℕ) (x : ℝ) : ℝ := x - ((⌊x / (L : ℝ)⌋ : ℤ) : ℝ) * (L : ℝ)

/-- The number of the cell along one direction. -/
noncomputable def cellNumber (x : ℝ) : ℕ := ⌊x⌋₊ % 2 ^ 32

/-- The index made of the three numbers. -/
def cellIndex (Lx Ly : ℕ) (q : ℕ × ℕ × ℕ) : ℕ := (q.2.2 * Lx * Ly + q.2.1 * Lx + q.1) % 2 ^ 32

theorem posCell_eq (P : Params) (shift : Vec3 ℝ) (t : ℝ) (x : Vec3 ℝ) :
    posCell P shift t x = cellIndex P.Lx P.Ly
      (cellNumber (reduce P.Lx ((x.x + shift.x) -
          ((⌊(x.y + shift.y) / (P.Ly : ℝ)⌋ : ℤ) : ℝ) * (P.shearRate * (P.Ly : ℝ) * t))),
        cellNumber (reduce P.Ly (x.y + shift.y)), cellNumber (reduce P.Lz (x.z + shift.z))) := by
  unfold posCell cellOf getCollisionCellIndex hostImage cellIndex cellNumber reduce
  simp only [Vec3.add_x, Vec3.add_y, Vec3.add_z]

theorem measurable_intCast : Measurable fun n : ℤ => (n : ℝ) := measurable_of_countable _

theorem measurable_reduce (L : ℕ) : Measurable (reduce L) := by
  have h1 : Measurable fun x : ℝ => ⌊x / (L : ℝ)⌋ := Measurable.floor (measurable_id.div_const _)
  have h2 : Measurable fun x : ℝ => ((⌊x / (L : ℝ)⌋ : ℤ) : ℝ) := measurable_intCast.comp h1
  exact measurable_id.sub (h2.mul_const _)

theorem measurable_cellNumber : Measurable cellNumber :=
  (measurable_of_countable fun n : ℕ => n % 2 ^ 32).comp Nat.measurable_floor

theorem measurable_posCell (P : Params) (shift : Vec3 ℝ) (t : ℝ) (i : Fin N) :
    Measurable fun x : Coords N => posCell P shift t (vecAt x i) := by
  simp only [posCell_eq, vecAt]
  have hp : ∀ k : Fin 3, Measurable fun x : Coords N => x (i, k) := fun k => measurable_pi_apply _
  have h1 : Measurable fun x : Coords N => x (i, 1) + shift.y := (hp 1).add_const _
  have h2 : Measurable fun x : Coords N => ⌊(x (i, 1) + shift.y) / (P.Ly : ℝ)⌋ := Measurable.floor (h1.div_const _)
  have h3 : Measurable fun x : Coords N => ((⌊(x (i, 1) + shift.y) / (P.Ly : ℝ)⌋ : ℤ) : ℝ) :=
    measurable_intCast.comp h2
  have h4 : Measurable fun x : Coords N => (x (i, 0) + shift.x) -
      ((⌊(x (i, 1) + shift.y) / (P.Ly : ℝ)⌋ : ℤ) : ℝ) * (P.shearRate * (P.Ly : ℝ) * t) :=
    ((hp 0).add_const _).sub (h3.mul_const _)
  have hX := measurable_cellNumber.comp ((measurable_reduce P.Lx).comp h4)
  have hY := measurable_cellNumber.comp ((measurable_reduce P.Ly).comp h1)
  have hZ := measurable_cellNumber.comp ((measurable_reduce P.Lz).comp ((hp 2).add_const shift.z))
  exact (measurable_of_countable (cellIndex P.Lx P.Ly)).comp (hX.prodMk (hY.prodMk hZ))

theorem measurable_cells (P : Params) (shift : Vec3 ℝ) (t : ℝ) :
    Measurable fun x : Coords N => cells P shift t x :=
  measurable_pi_lambda _ fun i => measurable_posCell P shift t i

theorem measurable_layers (P : Params) (shift : Vec3 ℝ) (t : ℝ) :
    Measurable fun x : Coords N => layers P shift t x := by
  refine measurable_pi_lambda _ fun q => ?_
  obtain ⟨i, k⟩ := q
  have h1 : Measurable fun x : Coords N => x (i, 1) + shift.y := (measurable_pi_apply (i, (1 : Fin 3))).add_const _
  have h2 : Measurable fun x : Coords N => ⌊(x (i, 1) + shift.y) / (P.Ly : ℝ)⌋ := Measurable.floor (h1.div_const _)
  have h3 : Measurable fun x : Coords N => ((⌊(x (i, 1) + shift.y) / (P.Ly : ℝ)⌋ : ℤ) : ℝ) :=
    measurable_intCast.comp h2
  have h4 := (h3.neg).mul_const (P.shearRate * (P.Ly : ℝ))
  have e : ∀ x : Coords N, posLayer P shift t (vecAt x i) =
      ⟨-((⌊(x (i, 1) + shift.y) / (P.Ly : ℝ)⌋ : ℤ) : ℝ) * (P.shearRate * (P.Ly : ℝ)), 0, 0⟩ := by
    intro x
    unfold posLayer layerVelocity hostImage
    simp only [Vec3.add_x, Vec3.add_y, Vec3.add_z, vecAt]
  simp only [layers, ofVec, e]
  fin_cases k
  · simpa using h4
  · simp
  · simp

theorem measurable_linear {ι : Type*} [Fintype ι] (f : (ι → ℝ) →ₗ[ℝ] (ι → ℝ)) : Measurable f :=
  f.continuous_of_finiteDimensional.measurable

/-! ## Linear maps that keep a sum of squares -/

theorem det_sq_eq_one {ι : Type*} [Fintype ι] [DecidableEq ι] {w : ι → ℝ} (hw : ∀ q, 0 < w q)
    (f : (ι → ℝ) →ₗ[ℝ] (ι → ℝ)) (h : ∀ v, ∑ q, w q * f v q ^ 2 = ∑ q, w q * v q ^ 2) :
    LinearMap.det f ^ 2 = 1 := by
  have hb : ∀ u v, ∑ q, w q * (f u q * f v q) = ∑ q, w q * (u q * v q) := by
    intro u v
    have h1 := h (u + v)
    have h2 := h u
    have h3 := h v
    simp only [map_add, Pi.add_apply] at h1
    have e : ∀ a b : ι → ℝ, ∑ q, w q * (a q + b q) ^ 2 =
        ∑ q, w q * a q ^ 2 + ∑ q, w q * b q ^ 2 + 2 * ∑ q, w q * (a q * b q) := by
      intro a b
      rw [Finset.mul_sum, ← Finset.sum_add_distrib, ← Finset.sum_add_distrib]
      exact Finset.sum_congr rfl fun q _ => by ring
    rw [e, e] at h1
    linarith
  set M := LinearMap.toMatrix' f with hM
  have hentry : ∀ q i, M q i = f (Pi.single i 1) q := fun q i => by
    rw [hM, LinearMap.toMatrix'_apply]
  have key : M.transpose * Matrix.diagonal w * M = Matrix.diagonal w := by
    ext i j
    rw [Matrix.mul_assoc, Matrix.mul_apply]
    simp only [Matrix.transpose_apply, Matrix.diagonal_mul, hentry]
    have := hb (Pi.single i 1) (Pi.single j 1)
    have e : ∑ q, f (Pi.single i 1) q * (w q * f (Pi.single j 1) q) =
        ∑ q, w q * (f (Pi.single i 1) q * f (Pi.single j 1) q) :=
      Finset.sum_congr rfl fun q _ => by ring
    rw [e, this, Matrix.diagonal_apply]
    split
    · next hij =>
      subst hij
      rw [Finset.sum_eq_single i]
      · simp
      · intro b _ hb'
        simp [Pi.single_apply, hb']
      · simp
    · next hij =>
      refine Finset.sum_eq_zero fun q _ => ?_
      rw [Pi.single_apply, Pi.single_apply]
      split
      · next h1 =>
        rw [if_neg (fun h2 => hij (h1.symm.trans h2))]
        simp
      · simp
  have hdet := congrArg Matrix.det key
  rw [Matrix.det_mul, Matrix.det_mul, Matrix.det_transpose, Matrix.det_diagonal] at hdet
  have hpos : ∏ q, w q ≠ 0 := Finset.prod_ne_zero_iff.2 fun q _ => (hw q).ne'
  have hdm : M.det = LinearMap.det f := LinearMap.det_toMatrix' f
  rw [hdm] at hdet
  have : LinearMap.det f ^ 2 * ∏ q, w q = 1 * ∏ q, w q := by rw [one_mul]; linear_combination hdet
  exact mul_right_cancel₀ hpos this

theorem measurePreserving_linear {ι : Type*} [Fintype ι] [DecidableEq ι] {w : ι → ℝ} (hw : ∀ q, 0 < w q)
    (f : (ι → ℝ) →ₗ[ℝ] (ι → ℝ)) (h : ∀ v, ∑ q, w q * f v q ^ 2 = ∑ q, w q * v q ^ 2) :
    MeasurePreserving f (volume : Measure (ι → ℝ)) volume := by
  have hd := det_sq_eq_one hw f h
  refine ⟨measurable_linear f, ?_⟩
  have h0 : LinearMap.det f ≠ 0 := by
    intro e
    rw [e] at hd
    norm_num at hd
  rw [Real.map_linearMap_volume_pi_eq_smul_volume_pi h0]
  have : |(LinearMap.det f)⁻¹| = 1 := by
    rw [abs_inv, show |LinearMap.det f| = 1 from by
      have h1 : |LinearMap.det f| ^ 2 = 1 := by rw [sq_abs]; exact hd
      nlinarith [abs_nonneg (LinearMap.det f)]]
    norm_num
  rw [this, ENNReal.ofReal_one, one_smul]

end OpenMPCD.Random.Phase
