import Verif.Common
import Mathlib.Tactic.Linarith

/-!
# Star polymers: numbering and bonds
-/

namespace OpenMPCD.Star

/-- Star count, arms per star, non-magnetic particles per arm, and whether arms end in a magnetic
particle (`src/OpenMPCD/CUDA/MPCSolute/StarPolymers.cu:215-218`). `std::size_t` is represented by the
natural numbers: geometries whose particle count exceeds its range are not considered. -/
structure Geometry where
  starCount : ℕ
  armCountPerStar : ℕ
  particleCountPerArm : ℕ
  hasMagneticParticles : Bool
  deriving DecidableEq

/-- `ParticleType::Enum`, in this order (`include/OpenMPCD/CUDA/MPCSolute/ImplementationDetails/StarPolymers.hpp:32-39`);
Python: the strings `"Core"`, `"Arm"`, `"Magnetic"`. -/
inductive PType | core | arm | magnetic
  deriving DecidableEq

namespace Geometry
variable (g : Geometry)

/-! ## C++ -/

/-- `getParticleCountPerStar`
(`include/OpenMPCD/CUDA/MPCSolute/ImplementationDetails/StarPolymers_Implementation.hpp:26-37`). -/
def getParticleCountPerStar : ℕ :=
  1 + g.armCountPerStar * (g.particleCountPerArm + g.hasMagneticParticles.toNat)

/-- `getParticleCount`
(`include/OpenMPCD/CUDA/MPCSolute/ImplementationDetails/StarPolymers_Implementation.hpp:39-51`). -/
def getParticleCount : ℕ := g.starCount * g.getParticleCountPerStar

/-- The output parameters of `getParticleStructureIndices`; `none`: not written. -/
structure Indices where
  starID : ℕ
  isCoreParticle : Bool
  armID : Option ℕ
  isMagneticParticle : Bool
  particleIDInArm : Option ℕ
  deriving DecidableEq

/-- `getParticleStructureIndices`
(`include/OpenMPCD/CUDA/MPCSolute/ImplementationDetails/StarPolymers_Implementation.hpp:53-107`). -/
def getParticleStructureIndices (particleID : ℕ) : Indices :=
  let starID := particleID / g.getParticleCountPerStar
  let particleIDWithinStar := particleID % g.getParticleCountPerStar
  if particleIDWithinStar = 0 then ⟨starID, true, none, false, none⟩
  else
    let particleCountPerExtendedArm := g.particleCountPerArm + g.hasMagneticParticles.toNat
    let armID := (particleIDWithinStar - 1) / particleCountPerExtendedArm
    let particleIDInArm := (particleIDWithinStar - 1) % particleCountPerExtendedArm
    ⟨starID, false, some armID, particleIDInArm = g.particleCountPerArm, some particleIDInArm⟩

/-- `getParticleType`
(`include/OpenMPCD/CUDA/MPCSolute/ImplementationDetails/StarPolymers_Implementation.hpp:109-134`). -/
def getParticleType (particleID : ℕ) : PType :=
  let i := g.getParticleStructureIndices particleID
  if i.isCoreParticle then .core
  else if i.isMagneticParticle then .magnetic
  else .arm

/-- `particlesAreBonded`
(`include/OpenMPCD/CUDA/MPCSolute/ImplementationDetails/StarPolymers_Implementation.hpp:136-195`);
`none`: a variable is read that has not been written. -/
def particlesAreBonded (particleID1 particleID2 : ℕ) : Option Bool :=
  let i1 := g.getParticleStructureIndices particleID1
  let i2 := g.getParticleStructureIndices particleID2
  if i1.starID ≠ i2.starID then some false
  else if i1.isCoreParticle then i2.particleIDInArm.map fun p => decide (p = 0)
  else if i2.isCoreParticle then i1.particleIDInArm.map fun p => decide (p = 0)
  else do
    let armID1 ← i1.armID
    let armID2 ← i2.armID
    if armID1 ≠ armID2 then return false
    let particleIDInArm1 ← i1.particleIDInArm
    let particleIDInArm2 ← i2.particleIDInArm
    if particleIDInArm1 + 1 = particleIDInArm2 then return true
    if particleIDInArm2 + 1 = particleIDInArm1 then return true
    return false

/-- The three overloads of `getParticleID` (`src/OpenMPCD/CUDA/MPCSolute/StarPolymers.cu:683-738`): for
arm particles. -/
def getArmParticleID (star arm particleInArm : ℕ) : ℕ :=
  star * g.getParticleCountPerStar + 1 +
    arm * (g.particleCountPerArm + g.hasMagneticParticles.toNat) + particleInArm

/-- `getParticleID` for magnetic particles (`src/OpenMPCD/CUDA/MPCSolute/StarPolymers.cu:706-724`). -/
def getMagneticParticleID (star arm : ℕ) : ℕ :=
  star * g.getParticleCountPerStar + 1 +
    arm * (g.particleCountPerArm + g.hasMagneticParticles.toNat) + g.particleCountPerArm

/-- `getParticleID` for core particles (`src/OpenMPCD/CUDA/MPCSolute/StarPolymers.cu:726-738`). -/
def getCoreParticleID (star : ℕ) : ℕ := star * g.getParticleCountPerStar

/-- `getParticleTypeCombinationIndex`
(`include/OpenMPCD/CUDA/MPCSolute/ImplementationDetails/StarPolymers_Implementation.hpp:197-217`). -/
def getParticleTypeCombinationIndex (type1 type2 : PType) : ℕ :=
  let n : PType → ℕ := fun | .core => 0 | .arm => 1 | .magnetic => 2
  let lower := min (n type1) (n type2)
  let upper := max (n type1) (n type2)
  let tmp := (upper <<< 1) + lower
  if tmp = 0 then 0 else tmp - 1

/-! ## Python

The results are stored in dictionaries and returned from there in later calls with the same
arguments; since the configuration is copied by the constructor and not changed afterwards, this is
not represented here. -/

/-- `getTotalParticleCountPerArm` (`Analysis/MPCDAnalysis/StarPolymers.py:78-91`). -/
def pyCountPerArm : ℕ :=
  let ret := g.particleCountPerArm
  if g.hasMagneticParticles then ret + 1 else ret

/-- `getTotalParticleCountPerStar` (`Analysis/MPCDAnalysis/StarPolymers.py:118-124`). -/
def pyCountPerStar : ℕ := 1 + g.armCountPerStar * g.pyCountPerArm

/-- `getTotalParticleCount` (`Analysis/MPCDAnalysis/StarPolymers.py:127-137`). -/
def pyCount : ℕ := g.starCount * g.pyCountPerStar

/-- `getParticleType` (`Analysis/MPCDAnalysis/StarPolymers.py:140-186`). -/
def pyType (index : ℤ) : Except PyErr PType :=
  if index < 0 ∨ index ≥ g.pyCount then .error .indexError
  else
    let index := index.toNat % g.pyCountPerStar
    if index = 0 then .ok .core
    else
      let index := (index - 1) % g.pyCountPerArm
      if index = g.particleCountPerArm then .ok .magnetic else .ok .arm

/-- `getParticleStructureIndices` (`Analysis/MPCDAnalysis/StarPolymers.py:189-248`). -/
def pyIndices (particleID : ℤ) : Except PyErr (ℕ × Option ℕ × Option ℕ) :=
  if particleID < 0 ∨ particleID ≥ g.pyCount then .error .indexError
  else
    let star := particleID.toNat / g.pyCountPerStar
    let particleID := particleID.toNat % g.pyCountPerStar
    if particleID = 0 then .ok (star, none, none)
    else
      let particleID := particleID - 1
      let arm := particleID / g.pyCountPerArm
      let particleID := particleID % g.pyCountPerArm
      if g.hasMagneticParticles = true ∧ particleID = g.particleCountPerArm then .ok (star, some arm, none)
      else .ok (star, some arm, some particleID)

/-- `particlesAreBonded` (`Analysis/MPCDAnalysis/StarPolymers.py:251-332`). -/
def pyBonded (pID1 pID2 : ℤ) : Except PyErr Bool :=
  if pID1 < 0 ∨ pID1 ≥ g.pyCount then .error .indexError
  else if pID2 < 0 ∨ pID2 ≥ g.pyCount then .error .indexError
  else if pID1 = pID2 then .ok false
  else
    match g.pyIndices pID1, g.pyIndices pID2 with
    | .error e, _ => .error e
    | _, .error e => .error e
    | .ok (star1, arm1, p1), .ok (star2, arm2, p2) =>
      if star1 ≠ star2 then .ok false
      else if arm1 = none ∨ arm2 = none then
        let nonCore := if arm1 = none then p2 else p1
        if g.particleCountPerArm = 0 ∧ g.hasMagneticParticles = true then .ok true
        else .ok (nonCore = some 0)
      else if arm1 ≠ arm2 then .ok false
      else match p1, p2 with
        | none, none => .ok false
        | none, some p2 => .ok (decide ((p2 : ℤ) = (g.particleCountPerArm : ℤ) - 1))
        | some p1, none => .ok (decide ((p1 : ℤ) = (g.particleCountPerArm : ℤ) - 1))
        | some p1, some p2 => .ok (decide (|(p1 : ℤ) - p2| = 1))

end Geometry

end OpenMPCD.Star
