import Verif.Collide.Cells
import Verif.Vec.Model
import Mathlib.Data.List.Perm.Basic

/-!
# Model of one collision step

The particles of fluid and solute are one list; every particle carries its own mass (in the code,
all fluid particles share one mass, and all solute particles another), its entry of
`d_leesEdwardsVelocityShift(_solute)` and its entry of `d_fluidCollisionCellIndices` /
`d_collisionCellIndices_solute`. The code launches each kernel first for the fluid, then for the
solute; in the model, the atomic additions of both launches may take effect in any order.
-/

set_option linter.dupNamespace false

namespace OpenMPCD.Collide

/-- One MPC fluid or solute particle. -/
structure Particle where
  pos : Vec3 ℝ
  vel : Vec3 ℝ
  mass : ℝ
  velocityCorrection : ℝ
  collisionCellIndex : ℕ

/-- The arrays indexed by collision cells, `src/OpenMPCD/CUDA/Simulation.cu:186-211`. -/
structure CellData where
  momenta : ℕ → Vec3 ℝ
  masses : ℕ → ℝ
  energies : ℕ → ℝ
  counts : ℕ → ℕ
  scalings : ℕ → ℝ

/-- Parameters of the simulation. -/
structure Params where
  Lx : ℕ
  Ly : ℕ
  Lz : ℕ
  shearRate : ℝ
  srdCollisionAngle : ℝ
  bulkThermostatTargetkT : ℝ

/-- The random numbers of one collision: `gridShift` and the rotation axes (kernels in
`cudaDeviceCode/OpenMPCD/CUDA/DeviceCode/Simulation.cu:193-229`), and for each cell the value drawn
from the gamma distribution (lines 300-306), which may depend on the shape and scale. -/
structure Randomness where
  gridShift : Vec3 ℝ
  axes : ℕ → Vec3 ℝ
  gamma : ℕ → ℝ → ℝ → ℝ

/-- The number of cells. -/
def Params.cellCount (P : Params) : ℕ := getCollisionCellCount P.Lx P.Ly P.Lz

/-- The image under Lees-Edwards boundary conditions, and the velocity correction. -/
noncomputable def Params.image (P : Params) (mpcTime : ℝ) (position : Vec3 ℝ) : Vec3 ℝ × ℝ :=
  deviceImage (relativeLayerVelocity P.shearRate P.Ly) P.Lx P.Ly P.Lz mpcTime position

/-- Constructor, `src/OpenMPCD/CUDA/Simulation.cu:202-210`: all scalings are 1. The other arrays are
uninitialised. -/
def CellData.Initial (d : CellData) : Prop := ∀ c, d.scalings c = 1

/-- `resetCollisionCellData`, `src/OpenMPCD/CUDA/DeviceCode/Simulation.cu:15-43`. -/
def resetCollisionCellData (cellCount : ℕ) (d : CellData) : CellData where
  momenta := fun c => if c < cellCount then 0 else d.momenta c
  masses := fun c => if c < cellCount then 0 else d.masses c
  energies := fun c => if c < cellCount then 0 else d.energies c
  counts := fun c => if c < cellCount then 0 else d.counts c
  scalings := d.scalings

/-- `sortIntoCollisionCellsLeesEdwards`,
`cudaDeviceCode/OpenMPCD/CUDA/DeviceCode/Simulation.cu:75-115`. -/
noncomputable def sortIntoCollisionCell (P : Params) (gridShift : Vec3 ℝ) (mpcTime : ℝ)
    (p : Particle) : Particle :=
  let image := P.image mpcTime (p.pos + gridShift)
  { p with
    vel := ⟨p.vel.x + image.2, p.vel.y, p.vel.z⟩
    velocityCorrection := image.2
    collisionCellIndex := getCollisionCellIndex P.Lx P.Ly image.1 }

/-- One atomic addition. The addition of a vector is three atomic additions
(`include/OpenMPCD/RemotelyStoredVector.hpp`, `atomicAdd`). That these are atomic is C15 (the counts
use the addition built into the hardware). -/
inductive AtomicOp where
  | momentumX (cell : ℕ) (increment : ℝ)
  | momentumY (cell : ℕ) (increment : ℝ)
  | momentumZ (cell : ℕ) (increment : ℝ)
  | mass (cell : ℕ) (increment : ℝ)
  | energy (cell : ℕ) (increment : ℝ)
  | count (cell : ℕ)

/-- The effect of one atomic addition. -/
def AtomicOp.apply (d : CellData) : AtomicOp → CellData
  | .momentumX c i => { d with momenta := fun k => if k = c then
      ⟨(d.momenta k).x + i, (d.momenta k).y, (d.momenta k).z⟩ else d.momenta k }
  | .momentumY c i => { d with momenta := fun k => if k = c then
      ⟨(d.momenta k).x, (d.momenta k).y + i, (d.momenta k).z⟩ else d.momenta k }
  | .momentumZ c i => { d with momenta := fun k => if k = c then
      ⟨(d.momenta k).x, (d.momenta k).y, (d.momenta k).z + i⟩ else d.momenta k }
  | .mass c i => { d with masses := fun k => if k = c then d.masses k + i else d.masses k }
  | .energy c i => { d with energies := fun k => if k = c then d.energies k + i else d.energies k }
  | .count c => { d with counts := fun k => if k = c then d.counts k + 1 else d.counts k }

/-- Executing atomic additions one after the other. -/
def applyOps (ops : List AtomicOp) (d : CellData) : CellData := ops.foldl AtomicOp.apply d

/-- `collisionCellContributions`, `Simulation.cu:117-162`: the atomic additions of one particle. -/
def collisionCellContributions (p : Particle) : List AtomicOp :=
  [.momentumX p.collisionCellIndex (p.vel.x * p.mass),
   .momentumY p.collisionCellIndex (p.vel.y * p.mass),
   .momentumZ p.collisionCellIndex (p.vel.z * p.mass),
   .mass p.collisionCellIndex p.mass]

/-- `getCollisionCellCenterOfMassVelocity`, `Simulation.cu:164-191`. Division by a zero mass gives
zero in the model; it does not happen, because the cell contains the particle asking. -/
noncomputable def getCollisionCellCenterOfMassVelocity (d : CellData) (c : ℕ) : Vec3 ℝ :=
  ⟨(d.momenta c).x / d.masses c, (d.momenta c).y / d.masses c, (d.momenta c).z / d.masses c⟩

/-- The velocity written by `collisionCellStochasticRotationStep1`, `Simulation.cu:231-263`. -/
noncomputable def stochasticRotationStep1 (P : Params) (axes : ℕ → Vec3 ℝ) (d : CellData)
    (p : Particle) : Particle :=
  let relativeVelocity :=
    p.vel - getCollisionCellCenterOfMassVelocity d p.collisionCellIndex
  { p with vel := relativeVelocity.cppRotate (axes p.collisionCellIndex) P.srdCollisionAngle }

/-- The atomic additions of `collisionCellStochasticRotationStep1`, `Simulation.cu:271-274`. `p` is the
particle before the rotation. -/
noncomputable def stochasticRotationStep1Ops (d : CellData) (p : Particle) : List AtomicOp :=
  let relativeVelocity :=
    p.vel - getCollisionCellCenterOfMassVelocity d p.collisionCellIndex
  [.energy p.collisionCellIndex (p.mass * relativeVelocity.cppMagnitudeSquared / 2),
   .count p.collisionCellIndex]

open scoped Classical in
/-- `generateCollisionCellMBSFactors`, `src/OpenMPCD/CUDA/Simulation.cu` (skipped if
`bulkThermostatTargetkT == 0`) and `cudaDeviceCode/OpenMPCD/CUDA/DeviceCode/Simulation.cu:277-311`. -/
noncomputable def generateCollisionCellMBSFactors (P : Params)
    (gamma : ℕ → ℝ → ℝ → ℝ) (d : CellData) : CellData :=
  if P.bulkThermostatTargetkT = 0 then d
  else
    { d with scalings := fun c =>
        if c < P.cellCount then
          if d.counts c < 2 ∨ d.energies c = 0 then 1
          else
            let fOver2 := 1.5 * ((d.counts c : ℝ) - 1)
            Real.sqrt (gamma c fOver2 P.bulkThermostatTargetkT / d.energies c)
        else d.scalings c }

/-- `collisionCellStochasticRotationStep2`, `Simulation.cu:313-367`. -/
noncomputable def stochasticRotationStep2 (d : CellData) (p : Particle) : Particle :=
  { p with vel := d.scalings p.collisionCellIndex • p.vel +
      getCollisionCellCenterOfMassVelocity d p.collisionCellIndex }

/-- `undoLeesEdwardsVelocityCorrections`, `Simulation.cu:369-408`. -/
def undoLeesEdwardsVelocityCorrections (p : Particle) : Particle :=
  { p with vel := ⟨p.vel.x - p.velocityCorrection, p.vel.y, p.vel.z⟩ }

/-- `Simulation::collide`, `src/OpenMPCD/CUDA/Simulation.cu:273-454`: `(d', ps')` is a possible outcome
when the step starts with cell data `d` and particles `ps`. `contributions` and `step1Additions` are
the orders in which the atomic additions take effect. -/
def Collide (P : Params) (R : Randomness) (mpcTime : ℝ) (d : CellData) (ps : List Particle)
    (d' : CellData) (ps' : List Particle) : Prop :=
  if P.srdCollisionAngle = 0 ∧ P.bulkThermostatTargetkT = 0 then d' = d ∧ ps' = ps
  else
    ∃ contributions step1Additions : List AtomicOp,
      let d₀ := resetCollisionCellData P.cellCount d
      let ps₁ := ps.map (sortIntoCollisionCell P R.gridShift mpcTime)
      let d₁ := applyOps contributions d₀
      let ps₂ := ps₁.map (stochasticRotationStep1 P R.axes d₁)
      let d₂ := applyOps step1Additions d₁
      let d₃ := generateCollisionCellMBSFactors P R.gamma d₂
      let ps₃ := ps₂.map (stochasticRotationStep2 d₃)
      contributions.Perm (ps₁.flatMap collisionCellContributions) ∧
      step1Additions.Perm (ps₁.flatMap (stochasticRotationStep1Ops d₁)) ∧
      d' = d₃ ∧ ps' = ps₃.map undoLeesEdwardsVelocityCorrections

/-- `MPCFluid::Simple` streaming (ballistic motion of point particles; velocities are unchanged),
`cudaDeviceCode/OpenMPCD/CUDA/MPCFluid/DeviceCode/Simple.cu`. -/
def streamSimple (timestep : ℝ) (p : Particle) : Particle :=
  { p with pos := p.pos + timestep • p.vel }

/-- `Simulation::run`, `src/OpenMPCD/CUDA/Simulation.cu:241-251`, with `stream` (lines 253-271) given as a
relation for the particles: `Run` holds if `n` steps can lead from the first to the second state
(mpcTime, cell data, particles). -/
inductive Run (P : Params) (mpcTimestep : ℝ) (rnd : Randomness → Prop)
    (stream : List Particle → List Particle → Prop) :
    ℕ → ℝ × CellData × List Particle → ℝ × CellData × List Particle → Prop
  | zero (s) : Run P mpcTimestep rnd stream 0 s s
  | succ {n s t d ps ps' d'' ps''} (R : Randomness) (hR : rnd R)
      (h : Run P mpcTimestep rnd stream n s (t, d, ps)) (hs : stream ps ps')
      (hc : Collide P R (t + mpcTimestep) d ps' d'' ps'') :
      Run P mpcTimestep rnd stream (n + 1) s (t + mpcTimestep, d'', ps'')

end OpenMPCD.Collide
