import Verif.Vec.Basic
import Mathlib.Algebra.Order.Floor.Ring
import Mathlib.Algebra.Order.Floor.Semiring

/-!
# Models of the Lees-Edwards image and of the collision cell index
-/

namespace OpenMPCD.Collide

variable {K : Type} [Field K] [LinearOrder K] [IsStrictOrderedRing K] [FloorRing K]

/-- Host version, `src/OpenMPCD/LeesEdwardsBoundaryConditions.cpp:6-46`: the image and the velocity
correction. Simplifications: exact arithmetic; the assertions (lines 41-43) are what `C18_inBox`
proves. -/
def hostImage (position : Vec3 K) (mpcTime shearRate : K) (simBoxX simBoxY simBoxZ : ℕ) :
    Vec3 K × K :=
  let relativeLayerVelocity := shearRate * (simBoxY : K)
  let layerDisplacement := relativeLayerVelocity * mpcTime
  let x := position.x
  let y := position.y
  let z := position.z
  let layerY : K := (⌊y / (simBoxY : K)⌋ : ℤ)
  let layerZ : K := (⌊z / (simBoxZ : K)⌋ : ℤ)
  let x := x - layerY * layerDisplacement
  let layerX : K := (⌊x / (simBoxX : K)⌋ : ℤ)
  let x := x - layerX * (simBoxX : K)
  let y := y - layerY * (simBoxY : K)
  let z := z - layerZ * (simBoxZ : K)
  (⟨x, y, z⟩, - layerY * relativeLayerVelocity)

/-- Device version, `cudaDeviceCode/OpenMPCD/CUDA/DeviceCode/LeesEdwardsBoundaryConditions.cu:17-87`;
`leesEdwardsRelativeLayerVelocity` is set by `setLeesEdwardsSymbols`, lines 9-15. -/
def deviceImage (leesEdwardsRelativeLayerVelocity : K) (mpcSimulationBoxSizeX mpcSimulationBoxSizeY
    mpcSimulationBoxSizeZ : ℕ) (mpcTime : K) (position : Vec3 K) : Vec3 K × K :=
  let layerDisplacement := leesEdwardsRelativeLayerVelocity * mpcTime
  let x := position.x
  let y := position.y
  let z := position.z
  let layerY : K := (⌊y / (mpcSimulationBoxSizeY : K)⌋ : ℤ)
  let layerZ : K := (⌊z / (mpcSimulationBoxSizeZ : K)⌋ : ℤ)
  let x := x - layerY * layerDisplacement
  let layerX : K := (⌊x / (mpcSimulationBoxSizeX : K)⌋ : ℤ)
  let x := x - layerX * (mpcSimulationBoxSizeX : K)
  let y := y - layerY * (mpcSimulationBoxSizeY : K)
  let z := z - layerZ * (mpcSimulationBoxSizeZ : K)
  (⟨x, y, z⟩, - layerY * leesEdwardsRelativeLayerVelocity)

/-- `setLeesEdwardsSymbols`, `LeesEdwardsBoundaryConditions.cu:9-15`. -/
def relativeLayerVelocity (shearRate : K) (simBoxY : ℕ) : K := shearRate * (simBoxY : K)

/-- `isInPrimarySimulationVolume`,
`cudaDeviceCode/OpenMPCD/CUDA/DeviceCode/Simulation.cu:19-32`. -/
def isInPrimarySimulationVolume (Lx Ly Lz : ℕ) (position : Vec3 K) : Bool :=
  if position.x < 0 ∨ position.x ≥ (Lx : K) then false
  else if position.y < 0 ∨ position.y ≥ (Ly : K) then false
  else if position.z < 0 ∨ position.z ≥ (Lz : K) then false
  else true

/-- `getCollisionCellIndex`, `cudaDeviceCode/OpenMPCD/CUDA/DeviceCode/Simulation.cu:34-53`. The
conversion to `unsigned int` is rounding down for the non-negative numbers it is applied to;
unsigned arithmetic is modulo `2 ^ 32`. -/
def getCollisionCellIndex (Lx Ly : ℕ) (position : Vec3 K) : ℕ :=
  let cellX := ⌊position.x⌋₊ % 2 ^ 32
  let cellY := ⌊position.y⌋₊ % 2 ^ 32
  let cellZ := ⌊position.z⌋₊ % 2 ^ 32
  (cellZ * Lx * Ly + cellY * Lx + cellX) % 2 ^ 32

/-- `getCollisionCellCount`, `include/OpenMPCD/CUDA/Simulation.hpp`: the product of the box sizes, as an
`unsigned int`. -/
def getCollisionCellCount (Lx Ly Lz : ℕ) : ℕ := Lx * Ly * Lz % 2 ^ 32

end OpenMPCD.Collide
