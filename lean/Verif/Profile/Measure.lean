import Verif.Profile.Flow
import Verif.Collide.CellProps
import Mathlib.Algebra.BigOperators.Group.Finset.Basic
import Mathlib.Algebra.BigOperators.Ring.Finset
import Mathlib.Tactic.FieldSimp

/-!
# Measuring the fluid: density and flow profiles (C65)
-/

set_option linter.unusedSectionVars false

namespace OpenMPCD.Profile

open OpenMPCD.Collide

variable {K : Type} [Field K] [LinearOrder K] [IsStrictOrderedRing K] [FloorRing K]

/-- `DensityProfile` (`include/OpenMPCD/DensityProfile.hpp:136-142`). -/
structure DensityProfile (K : Type) where
  shape : Point
  points : Point → K
  fillCount : ℕ

/-- The constructor (`src/OpenMPCD/DensityProfile.cpp:9-45`) after reading the settings. -/
def DensityProfile.make (shape : Point) : DensityProfile K := ⟨shape, fun _ => 0, 0⟩

/-- The effect of `add` (`include/OpenMPCD/DensityProfile.hpp:123`). -/
def addMass (d : DensityProfile K) (p : Point) (m : K) : DensityProfile K :=
  { d with points := fun q => if q = p then d.points q + m else d.points q }

/-- `add` (`include/OpenMPCD/DensityProfile.hpp:109-124`); `none`: there is no such point. -/
def DensityProfile.add (d : DensityProfile K) (p : Point) (m : K) : Option (DensityProfile K) :=
  if p.1 < d.shape.1 ∧ p.2.1 < d.shape.2.1 ∧ p.2.2 < d.shape.2.2 then
    some (addMass d p m)
  else none

/-- `incrementFillCount` (`include/OpenMPCD/DensityProfile.hpp:95-98`). -/
def DensityProfile.incrementFillCount (d : DensityProfile K) : DensityProfile K :=
  { d with fillCount := d.fillCount + 1 }

/-- The last column of the line for a point in the file written by `saveToFile`
(`src/OpenMPCD/DensityProfile.cpp:47-69`). -/
def DensityProfile.output (d : DensityProfile K) (p : Point) : K := d.points p / d.fillCount

/-- The settings involved: box size and shear rate of the simulation, and subdivisions of the cells. -/
structure Geometry (K : Type) where
  box : Point
  subdivisions : Point
  shearRate : K

/-- Sizes of the grid (`src/OpenMPCD/FlowProfile.cpp:104-109`, `src/OpenMPCD/DensityProfile.cpp:39-41`). -/
def Geometry.shape (g : Geometry K) : Point :=
  (g.box.1 * g.subdivisions.1, g.box.2.1 * g.subdivisions.2.1, g.box.2.2 * g.subdivisions.2.2)

/-- State of the fluid at a measurement: time, and positions and velocities of the particles. -/
structure FluidState (K : Type) where
  time : K
  particles : List (Vec3 K × Vec3 K)

/-- The point of the grid for a particle (`src/OpenMPCD/CUDA/Instrumentation.cpp:235-243,250-258`). -/
def gridPoint (g : Geometry K) (t : K) (position : Vec3 K) : Point :=
  let image := (hostImage position t g.shearRate g.box.1 g.box.2.1 g.box.2.2).1
  (⌊image.x * g.subdivisions.1⌋₊, ⌊image.y * g.subdivisions.2.1⌋₊, ⌊image.z * g.subdivisions.2.2⌋₊)

/-- The velocity used (`src/OpenMPCD/CUDA/Instrumentation.cpp:230-231`). -/
def correctedVelocity (g : Geometry K) (t : K) (position velocity : Vec3 K) : Vec3 K :=
  ⟨velocity.x + (hostImage position t g.shearRate g.box.1 g.box.2.1 g.box.2.2).2, velocity.y, velocity.z⟩

/-- The density profile's part of the loop over the particles in `measureMPCFluid`
(`src/OpenMPCD/CUDA/Instrumentation.cpp:209-264`). -/
def densityLoop (g : Geometry K) (mass t : K) (d : DensityProfile K) :
    List (Vec3 K × Vec3 K) → Option (DensityProfile K)
  | [] => some d
  | q :: qs => (d.add (gridPoint g t q.1) mass).bind fun d' => densityLoop g mass t d' qs

/-- The density profile's part of `measureMPCFluid` (`src/OpenMPCD/CUDA/Instrumentation.cpp:177-277`). -/
def densityMeasure (g : Geometry K) (mass : K) (d : DensityProfile K) (s : FluidState K) :
    Option (DensityProfile K) :=
  (densityLoop g mass s.time d s.particles).map DensityProfile.incrementFillCount

/-- Measurements one after the other. -/
def densityMeasures (g : Geometry K) (mass : K) (d : DensityProfile K) :
    List (FluidState K) → Option (DensityProfile K)
  | [] => some d
  | s :: ss => (densityMeasure g mass d s).bind fun d' => densityMeasures g mass d' ss

/-- The calls to the flow profile in `measureMPCFluid` (`src/OpenMPCD/CUDA/Instrumentation.cpp:197-198,248-261`). -/
def flowOps (g : Geometry K) (s : FluidState K) : List (FlowOp K) :=
  .newSweep :: s.particles.map fun q => .add (gridPoint g s.time q.1) (correctedVelocity g s.time q.1 q.2)

/-! ## Specification -/

/-- `image` is in the primary box, and `position` is a copy of it, `ny` layers up. -/
def IsImage (g : Geometry K) (t : K) (position : Vec3 K) (ny : ℤ) (image : Vec3 K) : Prop :=
  InBox g.box.1 g.box.2.1 g.box.2.2 image ∧
    ∃ nx nz : ℤ, position = translate g.box.1 g.box.2.1 g.box.2.2 g.shearRate t nx ny nz image

/-- The image of the particle in the primary box lies in the given part of a cell. -/
def InSubcell (g : Geometry K) (t : K) (position : Vec3 K) (p : Point) : Prop :=
  ∃ (ny : ℤ) (image : Vec3 K), IsImage g t position ny image ∧
    (p.1 / g.subdivisions.1 : K) ≤ image.x ∧ image.x < ((p.1 + 1 : ℕ) : K) / g.subdivisions.1 ∧
    (p.2.1 / g.subdivisions.2.1 : K) ≤ image.y ∧ image.y < ((p.2.1 + 1 : ℕ) : K) / g.subdivisions.2.1 ∧
    (p.2.2 / g.subdivisions.2.2 : K) ≤ image.z ∧ image.z < ((p.2.2 + 1 : ℕ) : K) / g.subdivisions.2.2

/-- Box sizes and subdivisions are positive. -/
def Geometry.Valid (g : Geometry K) : Prop :=
  0 < g.box.1 ∧ 0 < g.box.2.1 ∧ 0 < g.box.2.2 ∧
    0 < g.subdivisions.1 ∧ 0 < g.subdivisions.2.1 ∧ 0 < g.subdivisions.2.2

/-- Within the grid. -/
def InGrid (shape p : Point) : Prop := p.1 < shape.1 ∧ p.2.1 < shape.2.1 ∧ p.2.2 < shape.2.2

/-! ## Proofs -/

theorem floor_sub_iff {x : K} (hx : 0 ≤ x) {s n : ℕ} (hs : 0 < s) :
    ⌊x * s⌋₊ = n ↔ (n / s : K) ≤ x ∧ x < ((n + 1 : ℕ) : K) / s := by
  have hs' : (0 : K) < s := by exact_mod_cast hs
  rw [Nat.floor_eq_iff (mul_nonneg hx hs'.le), div_le_iff₀ hs', lt_div_iff₀ hs']
  push_cast
  rfl

theorem floor_sub_lt {x : K} (hx : 0 ≤ x) {L s : ℕ} (hl : x < L) (hs : 0 < s) : ⌊x * s⌋₊ < L * s := by
  have hs' : (0 : K) < s := by exact_mod_cast hs
  rw [Nat.floor_lt (mul_nonneg hx hs'.le)]
  push_cast
  exact mul_lt_mul_of_pos_right hl hs'

theorem isImage_eq {g : Geometry K} {t : K} {position image : Vec3 K} {ny : ℤ} (h : IsImage g t position ny image) :
    (hostImage position t g.shearRate g.box.1 g.box.2.1 g.box.2.2).1 = image ∧
      (hostImage position t g.shearRate g.box.1 g.box.2.1 g.box.2.2).2 = -(ny * (g.shearRate * g.box.2.1)) := by
  obtain ⟨hb, nx, nz, rfl⟩ := h
  rw [C18_unique t g.shearRate hb]
  exact ⟨rfl, rfl⟩

/-- C65: the velocity used for a particle `ny` layers up is its velocity less the velocity of that layer. -/
theorem C65_velocity {g : Geometry K} {t : K} {position velocity image : Vec3 K} {ny : ℤ}
    (h : IsImage g t position ny image) :
    correctedVelocity g t position velocity =
      ⟨velocity.x - ny * (g.shearRate * g.box.2.1), velocity.y, velocity.z⟩ := by
  rw [correctedVelocity, (isImage_eq h).2, sub_eq_add_neg]

/-- C65: the point used for a particle is within the grid, and is the one part of a cell the particle's image is
in. -/
theorem C65_point {g : Geometry K} (hg : g.Valid) (t : K) (position : Vec3 K) :
    InGrid g.shape (gridPoint g t position) ∧
      ∀ p, InSubcell g t position p ↔ gridPoint g t position = p := by
  obtain ⟨h1, h2, h3, s1, s2, s3⟩ := hg
  obtain ⟨⟨x0, x1⟩, ⟨y0, y1⟩, z0, z1⟩ := C18_inBox h1 h2 h3 t g.shearRate position
  refine ⟨⟨floor_sub_lt x0 x1 s1, floor_sub_lt y0 y1 s2, floor_sub_lt z0 z1 s3⟩, fun p => ?_⟩
  obtain ⟨a, b, c⟩ := p
  simp only [InSubcell, gridPoint, Prod.mk.injEq, floor_sub_iff x0 s1, floor_sub_iff y0 s2, floor_sub_iff z0 s3]
  constructor
  · rintro ⟨_, _, hi, h1, h2, h3, h4, h5, h6⟩
    obtain rfl := (isImage_eq hi).1
    exact ⟨⟨h1, h2⟩, ⟨h3, h4⟩, h5, h6⟩
  · rintro ⟨⟨h1, h2⟩, ⟨h3, h4⟩, h5, h6⟩
    obtain ⟨nx, ny, nz, ht, -⟩ := C18_translate g.box.1 g.box.2.1 g.box.2.2 t g.shearRate position
    exact ⟨ny, _, ⟨⟨⟨x0, x1⟩, ⟨y0, y1⟩, z0, z1⟩, nx, nz, ht⟩, h1, h2, h3, h4, h5, h6⟩

/-- Number of particles of a state in a part of a cell. -/
noncomputable def occupancy (g : Geometry K) (s : FluidState K) (p : Point) : ℕ := by
  classical exact s.particles.countP fun q => decide (InSubcell g s.time q.1 p)

theorem densityLoop_spec {g : Geometry K} (hg : g.Valid) (mass t : K) (qs : List (Vec3 K × Vec3 K))
    (d : DensityProfile K) (hd : d.shape = g.shape) :
    ∃ d', densityLoop g mass t d qs = some d' ∧ d'.shape = g.shape ∧ d'.fillCount = d.fillCount ∧
      ∀ p, d'.points p = d.points p + (qs.countP fun q => gridPoint g t q.1 = p) * mass := by
  induction qs generalizing d with
  | nil => exact ⟨d, rfl, hd, rfl, fun p => by simp⟩
  | cons q qs ih =>
    obtain ⟨b1, b2, b3⟩ := (C65_point hg t q.1).1
    have hadd : d.add (gridPoint g t q.1) mass = some (addMass d (gridPoint g t q.1) mass) := by
      rw [DensityProfile.add, if_pos]
      rw [hd]
      exact ⟨b1, b2, b3⟩
    obtain ⟨d', e1, e2, e3, e4⟩ := ih (addMass d (gridPoint g t q.1) mass) hd
    refine ⟨d', by rw [densityLoop, hadd, Option.bind_some, e1], e2, e3, fun p => ?_⟩
    rw [e4, List.countP_cons, addMass]
    dsimp only
    by_cases hp : p = gridPoint g t q.1
    · simp only [hp, if_true, decide_true]
      push_cast
      ring
    · simp only [hp, if_false, Ne.symm hp, decide_false, Bool.false_eq_true]
      simp

theorem occupancy_eq {g : Geometry K} (hg : g.Valid) (s : FluidState K) (p : Point) :
    occupancy g s p = s.particles.countP fun q => gridPoint g s.time q.1 = p := by
  classical
  unfold occupancy
  congr 1
  funext q
  simp only [(C65_point hg s.time q.1).2 p]

theorem densityMeasures_spec {g : Geometry K} (hg : g.Valid) (mass : K) (ss : List (FluidState K))
    (d : DensityProfile K) (hd : d.shape = g.shape) :
    ∃ d', densityMeasures g mass d ss = some d' ∧ d'.shape = g.shape ∧ d'.fillCount = d.fillCount + ss.length ∧
      ∀ p, d'.points p = d.points p + ((ss.map fun s => occupancy g s p).sum : ℕ) * mass := by
  induction ss generalizing d with
  | nil => exact ⟨d, rfl, hd, rfl, fun p => by simp⟩
  | cons s ss ih =>
    obtain ⟨d₁, e1, e2, e3, e4⟩ := densityLoop_spec hg mass s.time s.particles d hd
    obtain ⟨d₂, f1, f2, f3, f4⟩ := ih d₁.incrementFillCount e2
    refine ⟨d₂, ?_, f2, ?_, fun p => ?_⟩
    · rw [densityMeasures, densityMeasure, e1, Option.map_some, Option.bind_some, f1]
    · rw [f3, DensityProfile.incrementFillCount]; dsimp only; rw [e3, List.length_cons]; omega
    · rw [f4, DensityProfile.incrementFillCount, e4, List.map_cons, List.sum_cons, occupancy_eq hg]
      push_cast
      ring

/-- C65: after any measurements, the density profile's output at a point is the mass in that part of a cell, averaged
over the measurements; no point outside of the grid is accessed. -/
theorem C65_density {g : Geometry K} (hg : g.Valid) (mass : K) (ss : List (FluidState K)) :
    ∃ d, densityMeasures g mass (.make g.shape) ss = some d ∧
      ∀ p, d.output p = ((ss.map fun s => occupancy g s p).sum : ℕ) * mass / ss.length := by
  obtain ⟨d, e1, e2, e3, e4⟩ := densityMeasures_spec hg mass ss (.make g.shape) rfl
  refine ⟨d, e1, fun p => ?_⟩
  rw [DensityProfile.output, e4, e3]
  simp [DensityProfile.make]

/-- All points of the grid. -/
def gridPoints (shape : Point) : Finset Point :=
  Finset.range shape.1 ×ˢ Finset.range shape.2.1 ×ˢ Finset.range shape.2.2

theorem mem_gridPoints {shape p : Point} : p ∈ gridPoints shape ↔ InGrid shape p := by
  simp [gridPoints, InGrid]

theorem sum_occupancy {g : Geometry K} (hg : g.Valid) (s : FluidState K) :
    ∑ p ∈ gridPoints g.shape, occupancy g s p = s.particles.length := by
  simp only [occupancy_eq hg]
  induction s.particles with
  | nil => simp
  | cons q qs ih =>
    simp only [List.countP_cons, Finset.sum_add_distrib, ih, List.length_cons]
    congr 1
    rw [Finset.sum_eq_single (gridPoint g s.time q.1)]
    · simp
    · intro p _ hp
      simp [Ne.symm hp]
    · intro h
      exact absurd (mem_gridPoints.2 (C65_point hg s.time q.1).1) h

/-- C65: the densities of all points add up to the mass of the fluid. -/
theorem C65_total_mass {g : Geometry K} (hg : g.Valid) (mass : K) (ss : List (FluidState K)) (hs : ss ≠ []) (N : ℕ)
    (hN : ∀ s ∈ ss, s.particles.length = N) (d : DensityProfile K)
    (hd : densityMeasures g mass (.make g.shape) ss = some d) :
    ∑ p ∈ gridPoints g.shape, d.output p = N * mass := by
  obtain ⟨d', h1, h2⟩ := C65_density hg mass ss
  rw [hd] at h1
  cases Option.some.inj h1
  have hl : (ss.length : K) ≠ 0 := by
    have : ss.length ≠ 0 := fun h => hs (List.length_eq_zero_iff.1 h)
    exact_mod_cast this
  have hsum : ∑ p ∈ gridPoints g.shape, (ss.map fun s => occupancy g s p).sum = ss.length * N := by
    clear hd h1 h2 hs hl
    induction ss with
    | nil => simp
    | cons s ss ih =>
      simp only [List.map_cons, List.sum_cons, Finset.sum_add_distrib, sum_occupancy hg,
        ih fun s hs => hN s (List.mem_cons_of_mem _ hs), hN s List.mem_cons_self, List.length_cons]
      ring
  calc ∑ p ∈ gridPoints g.shape, d.output p
      = (∑ p ∈ gridPoints g.shape, (((ss.map fun s => occupancy g s p).sum : ℕ) : K)) * (mass / ss.length) := by
        rw [Finset.sum_mul]
        exact Finset.sum_congr rfl fun p _ => by rw [h2]; ring
    _ = (ss.length * N : ℕ) * (mass / ss.length) := by rw [← hsum]; push_cast; rfl
    _ = N * mass := by
        push_cast
        field_simp

theorem sweeps_flowOps (g : Geometry K) (s : FluidState K) : sweeps (flowOps g s) = 1 := by
  have : ∀ l : List (Vec3 K × Vec3 K), sweeps (l.map fun q =>
      FlowOp.add (gridPoint g s.time q.1) (correctedVelocity g s.time q.1 q.2)) = 0 := by
    intro l
    induction l with
    | nil => rfl
    | cons q l ih => exact ih
  simp [flowOps, sweeps, this]

theorem dataBySweep_flowOps (g : Geometry K) (s : FluidState K) (n : ℕ) :
    dataBySweep n (flowOps g s) = s.particles.map fun q =>
      (n, gridPoint g s.time q.1, correctedVelocity g s.time q.1 q.2) := by
  have : ∀ l : List (Vec3 K × Vec3 K), dataBySweep (n + 1) (l.map fun q =>
      FlowOp.add (gridPoint g s.time q.1) (correctedVelocity g s.time q.1 q.2)) = l.map fun q =>
      (n, gridPoint g s.time q.1, correctedVelocity g s.time q.1 q.2) := by
    intro l
    induction l with
    | nil => rfl
    | cons q l ih => simp [dataBySweep, ih]
  simp [flowOps, dataBySweep, this]

theorem dataBySweep_all (g : Geometry K) (ss : List (FluidState K)) (n : ℕ) :
    dataBySweep n (ss.flatMap (flowOps g)) = (ss.zipIdx n).flatMap fun s => s.1.particles.map fun q =>
      (s.2, gridPoint g s.1.time q.1, correctedVelocity g s.1.time q.1 q.2) := by
  induction ss generalizing n with
  | nil => rfl
  | cons s ss ih =>
    rw [List.flatMap_cons, dataBySweep_append, sweeps_flowOps, ih, dataBySweep_flowOps, List.zipIdx_cons,
      List.flatMap_cons]

theorem flowOps_valid {g : Geometry K} (hg : g.Valid) (ss : List (FluidState K)) :
    ValidHistory g.shape (ss.flatMap (flowOps g)) := by
  intro pre p v post h
  refine ⟨?_, ?_⟩
  · cases ss with
    | nil => simp at h
    | cons s ss =>
      rw [List.flatMap_cons, flowOps] at h
      cases pre with
      | nil => simp at h
      | cons o pre =>
        simp only [List.cons_append, List.cons.injEq] at h
        rw [← h.1]
        simp [sweeps]
  · have hm : FlowOp.add p v ∈ ss.flatMap (flowOps g) := by rw [h]; simp
    rw [List.mem_flatMap] at hm
    obtain ⟨s, -, hm⟩ := hm
    simp only [flowOps, List.mem_cons, reduceCtorEq, List.mem_map, FlowOp.add.injEq, false_or] at hm
    obtain ⟨q, -, rfl, -⟩ := hm
    exact (C65_point hg s.time q.1).1

/-- The velocities, relative to the layer, of the particles in a part of a cell, in the order of the particles. -/
noncomputable def velocitiesIn (g : Geometry K) (s : FluidState K) (p : Point) : List (Vec3 K) := by
  classical exact (s.particles.filter fun q => decide (InSubcell g s.time q.1 p)).map fun q =>
    correctedVelocity g s.time q.1 q.2

/-- C65: after any measurements, each block of the flow profile holds, at each point, the statistics of the velocities
of the particles in that part of a cell during the sweeps the block is for; no point outside of the grid is
accessed. -/
theorem C65_flow {g : Geometry K} (hg : g.Valid) (s : ℕ) (ss : List (FluidState K)) :
    ∃ f, (FlowProfile.make g.shape s).run (ss.flatMap (flowOps g)) = some f ∧
      ∀ b (hb : b < f.outputBlocks.length) p, f.outputBlocks[b] p =
        statistics ((ss.zipIdx.filter fun m => blockOf s m.2 = b).flatMap fun m => velocitiesIn g m.1 p) := by
  classical
  obtain ⟨f, hf, -, -, -, -, h⟩ := flow_inv g.shape s _ (flowOps_valid hg ss)
  refine ⟨f, hf, fun b hb p => ?_⟩
  rw [h b hb p, dataBySweep_all]
  congr 1
  have : ∀ l : List (FluidState K × ℕ), dataAt s b p (l.flatMap fun s => s.1.particles.map fun q =>
      (s.2, gridPoint g s.1.time q.1, correctedVelocity g s.1.time q.1 q.2)) =
      (l.filter fun m => blockOf s m.2 = b).flatMap fun m => velocitiesIn g m.1 p := by
    intro l
    induction l with
    | nil => rfl
    | cons m l ih =>
      rw [List.flatMap_cons, dataAt_append, ih]
      by_cases hm : blockOf s m.2 = b
      · rw [List.filter_cons_of_pos (by simpa using hm), List.flatMap_cons]
        congr 1
        unfold dataAt velocitiesIn
        rw [List.filter_map, List.map_map]
        simp only [Function.comp_def, hm, true_and]
        congr 1
        apply List.filter_congr
        intro q _
        simp only [(C65_point hg m.1.time q.1).2 p]
      · rw [List.filter_cons_of_neg (by simpa using hm)]
        have : dataAt s b p (m.1.particles.map fun q =>
            (m.2, gridPoint g m.1.time q.1, correctedVelocity g m.1.time q.1 q.2)) = [] := by
          unfold dataAt
          rw [List.map_eq_nil_iff, List.filter_eq_nil_iff]
          intro d hd
          obtain ⟨q, -, rfl⟩ := List.mem_map.1 hd
          simp [hm]
        rw [this, List.nil_append]
  exact this _

/-- A particle in the layer above the primary box. -/
example : IsImage (⟨(10, 20, 30), (2, 1, 3), 1 / 10⟩ : Geometry ℚ) 1 ⟨5, 21, 30⟩ 1 ⟨3, 1, 0⟩ := by
  refine ⟨by norm_num [InBox], 0, 1, ?_⟩
  ext <;> norm_num [translate]

example : Geometry.Valid (⟨(10, 20, 30), (2, 1, 3), 1 / 10⟩ : Geometry ℚ) := by
  simp [Geometry.Valid]

example : gridPoint (⟨(10, 20, 30), (2, 1, 3), 1 / 10⟩ : Geometry ℚ) 0 ⟨-1 / 4, 21, 30 + 1 / 3⟩ = (19, 1, 1) := by
  have f1 : ⌊(21 / 20 : ℚ)⌋ = 1 := by rw [Int.floor_eq_iff]; norm_num
  have f2 : ⌊((30 + 1 / 3) / 30 : ℚ)⌋ = 1 := by rw [Int.floor_eq_iff]; norm_num
  have f3 : ⌊(-1 / 4 / 10 : ℚ)⌋ = -1 := by rw [Int.floor_eq_iff]; norm_num
  have g1 : ⌊(39 / 2 : ℚ)⌋₊ = 19 := by rw [Nat.floor_eq_iff (by norm_num)]; norm_num
  norm_num [gridPoint, hostImage] at f1 f2 f3 ⊢
  norm_num [f1, f2, f3, g1]

end OpenMPCD.Profile
