import Verif.Vec.Model
import Mathlib.Algebra.Order.Field.Basic
import Mathlib.Logic.Function.Iterate

/-!
# Streaming of molecules

Velocity Verlet integration of Gaussian chains, dumbbells and rods and of harmonic trimers, and the analytic
streaming of dumbbells (`cudaDeviceCode/OpenMPCD/CUDA/MPCFluid/DeviceCode`). Numbers are elements of an ordered
field (real numbers where roots are used). Buffers hold one vector per particle. Particle numbers are natural
numbers (`unsigned int` in the code; overflow is not considered).
-/

namespace OpenMPCD.Verlet

variable {K : Type} [Field K] [LinearOrder K] [IsStrictOrderedRing K]

/-- `velocityVerletStep1` (`cudaDeviceCode/OpenMPCD/CUDA/DeviceCode/VelocityVerlet.cu:3-10`). -/
def step1 (position velocity acceleration timestep : K) : K :=
  position + velocity * timestep + 0.5 * acceleration * timestep * timestep

/-- `velocityVerletStep2` (`cudaDeviceCode/OpenMPCD/CUDA/DeviceCode/VelocityVerlet.cu:12-20`). -/
def step2 (velocity oldAcceleration newAcceleration timestep : K) : K :=
  velocity + 0.5 * timestep * (oldAcceleration + newAcceleration)

/-- `velocityVerletStep1` for vectors (`cudaDeviceCode/OpenMPCD/CUDA/DeviceCode/VelocityVerlet.cu:22-36`). -/
def vecStep1 (position velocity acceleration : Vec3 K) (timestep : K) : Vec3 K :=
  ⟨step1 position.x velocity.x acceleration.x timestep,
    step1 position.y velocity.y acceleration.y timestep,
    step1 position.z velocity.z acceleration.z timestep⟩

/-- `velocityVerletStep2` for vectors (`cudaDeviceCode/OpenMPCD/CUDA/DeviceCode/VelocityVerlet.cu:38-53`). -/
def vecStep2 (velocity oldAcceleration newAcceleration : Vec3 K) (timestep : K) : Vec3 K :=
  ⟨step2 velocity.x oldAcceleration.x newAcceleration.x timestep,
    step2 velocity.y oldAcceleration.y newAcceleration.y timestep,
    step2 velocity.z oldAcceleration.z newAcceleration.z timestep⟩

/-- The buffers of positions and velocities. -/
structure Mem (K : Type) where
  pos : ℕ → Vec3 K
  vel : ℕ → Vec3 K

/-- Writing through a `RemotelyStoredVector`. -/
def Mem.setPos (m : Mem K) (i : ℕ) (v : Vec3 K) : Mem K := { m with pos := Function.update m.pos i v }

/-- Writing through a `RemotelyStoredVector`. -/
def Mem.setVel (m : Mem K) (i : ℕ) (v : Vec3 K) : Mem K := { m with vel := Function.update m.vel i v }

/-! ## Dumbbells -/

/-- The body of the loop in `streamDumbbellVelocityVerlet`
(`cudaDeviceCode/OpenMPCD/CUDA/MPCFluid/DeviceCode/GaussianDumbbells.cu:161-178`). -/
def dumbbellStep (particle1ID : ℕ) (reducedSpringConstant timestep : K) (m : Mem K) : Mem K :=
  let p := particle1ID
  let R := m.pos (p + 1) - m.pos p
  let a_1_old := reducedSpringConstant • R
  let a_2_old := -a_1_old
  let m := m.setPos p (vecStep1 (m.pos p) (m.vel p) a_1_old timestep)
  let m := m.setPos (p + 1) (vecStep1 (m.pos (p + 1)) (m.vel (p + 1)) a_2_old timestep)
  let R := m.pos (p + 1) - m.pos p
  let a_1_new := reducedSpringConstant • R
  let a_2_new := -a_1_new
  let m := m.setVel p (vecStep2 (m.vel p) a_1_old a_1_new timestep)
  m.setVel (p + 1) (vecStep2 (m.vel (p + 1)) a_2_old a_2_new timestep)

/-- `streamDumbbellVelocityVerlet`
(`cudaDeviceCode/OpenMPCD/CUDA/MPCFluid/DeviceCode/GaussianDumbbells.cu:137-179`). -/
def streamDumbbell (particle1ID : ℕ) (reducedSpringConstant timestep : K) (stepCount : ℕ) (m : Mem K) : Mem K :=
  (dumbbellStep particle1ID reducedSpringConstant timestep)^[stepCount] m

/-- The thread with the given work unit of `streamDumbbellsVelocityVerlet`
(`cudaDeviceCode/OpenMPCD/CUDA/MPCFluid/DeviceCode/GaussianDumbbells.cu:181-197`). -/
def dumbbellThread (mpcParticleCount : ℕ) (reducedSpringConstant timestep : K) (stepCount : ℕ) (m : Mem K)
    (workUnit : ℕ) : Mem K :=
  let particleID := 2 * workUnit
  if particleID ≥ mpcParticleCount then m
  else streamDumbbell particleID reducedSpringConstant timestep stepCount m

/-- The constants set by `setGaussianDumbbellSymbols`
(`cudaDeviceCode/OpenMPCD/CUDA/MPCFluid/DeviceCode/GaussianDumbbells.cu:10-24`), together with the streaming time
step. -/
structure Symbols where
  omega : ℝ
  cos_omegaTimesTimestep : ℝ
  sin_omegaTimesTimestep : ℝ
  streamingTimestep : ℝ

/-- `setGaussianDumbbellSymbols`
(`cudaDeviceCode/OpenMPCD/CUDA/MPCFluid/DeviceCode/GaussianDumbbells.cu:10-24`). -/
noncomputable def setSymbols (omega timestep : ℝ) : Symbols :=
  ⟨omega, Real.cos (omega * timestep), Real.sin (omega * timestep), timestep⟩

/-- `streamDumbbellAnalytically`
(`cudaDeviceCode/OpenMPCD/CUDA/MPCFluid/DeviceCode/GaussianDumbbells.cu:27-120`). -/
noncomputable def streamAnalytically (c : Symbols) (particle1ID : ℕ) (m : Mem ℝ) : Mem ℝ :=
  let p := particle1ID
  let r_cm := (1 / 2 : ℝ) • (m.pos p + m.pos (p + 1))
  let R := m.pos (p + 1) - m.pos p
  let v_cm := (1 / 2 : ℝ) • (m.vel p + m.vel (p + 1))
  let v_R := m.vel (p + 1) - m.vel p
  let r_cm := r_cm + c.streamingTimestep • v_cm
  let R_old := R
  let R := c.cos_omegaTimesTimestep • R + (1 / c.omega) • c.sin_omegaTimesTimestep • v_R
  let v_R := c.sin_omegaTimesTimestep • (-c.omega) • R_old + c.cos_omegaTimesTimestep • v_R
  let R := (1 / 2 : ℝ) • R
  let v_R := (1 / 2 : ℝ) • v_R
  let m := m.setPos p (r_cm - R)
  let m := m.setPos (p + 1) (r_cm + R)
  let m := m.setVel p (v_cm - v_R)
  m.setVel (p + 1) (v_cm + v_R)

/-- The spring constant and the frequency of dumbbells
(`src/OpenMPCD/CUDA/MPCFluid/GaussianDumbbells.cu:57-67`). -/
noncomputable def dumbbellConstants (lambda kT mass : ℝ) : ℝ × ℝ :=
  (2 * lambda * kT / mass, Real.sqrt (4 * lambda * kT / mass))

/-! ## Rods -/

open Classical in
/-- The body of the loop in `streamGaussianRodVelocityVerlet`
(`cudaDeviceCode/OpenMPCD/CUDA/MPCFluid/DeviceCode/GaussianRods.cu:33-64`); `none`: an assertion fails. -/
noncomputable def rodStep (particle1ID : ℕ) (meanBondLength reducedSpringConstant timestep : ℝ) (m : Mem ℝ) :
    Option (Mem ℝ) :=
  let p := particle1ID
  let R := m.pos (p + 1) - m.pos p
  let R_magnitude := R.cppMagnitude
  if R_magnitude = 0 then none
  else
    let a_1_old := (reducedSpringConstant * (1 - meanBondLength / R_magnitude)) • R
    let a_2_old := -a_1_old
    let m := m.setPos p (vecStep1 (m.pos p) (m.vel p) a_1_old timestep)
    let m := m.setPos (p + 1) (vecStep1 (m.pos (p + 1)) (m.vel (p + 1)) a_2_old timestep)
    let R := m.pos (p + 1) - m.pos p
    let R_magnitude := R.cppMagnitude
    if R_magnitude = 0 then none
    else
      let a_1_new := (reducedSpringConstant * (1 - meanBondLength / R_magnitude)) • R
      let a_2_new := -a_1_new
      let m := m.setVel p (vecStep2 (m.vel p) a_1_old a_1_new timestep)
      some (m.setVel (p + 1) (vecStep2 (m.vel (p + 1)) a_2_old a_2_new timestep))

/-- `streamGaussianRodVelocityVerlet`
(`cudaDeviceCode/OpenMPCD/CUDA/MPCFluid/DeviceCode/GaussianRods.cu:8-65`). -/
noncomputable def streamRod (particle1ID : ℕ) (meanBondLength reducedSpringConstant timestep : ℝ) :
    ℕ → Mem ℝ → Option (Mem ℝ)
  | 0, m => some m
  | n + 1, m => (rodStep particle1ID meanBondLength reducedSpringConstant timestep m).bind
      (streamRod particle1ID meanBondLength reducedSpringConstant timestep n)

/-! ## Trimers -/

/-- The body of the loop in `streamHarmonicTrimerVelocityVerlet`
(`cudaDeviceCode/OpenMPCD/CUDA/MPCFluid/DeviceCode/HarmonicTrimers.cu:31-56`). -/
def trimerStep (particle1ID : ℕ) (k_1 k_2 timestep : K) (m : Mem K) : Mem K :=
  let p := particle1ID
  let R_1 := m.pos (p + 1) - m.pos p
  let R_2 := m.pos (p + 2) - m.pos (p + 1)
  let a_1_old := k_1 • R_1
  let a_2_old := (-k_1) • R_1 + k_2 • R_2
  let a_3_old := (-k_2) • R_2
  let m := m.setPos p (vecStep1 (m.pos p) (m.vel p) a_1_old timestep)
  let m := m.setPos (p + 1) (vecStep1 (m.pos (p + 1)) (m.vel (p + 1)) a_2_old timestep)
  let m := m.setPos (p + 2) (vecStep1 (m.pos (p + 2)) (m.vel (p + 2)) a_3_old timestep)
  let R_1 := m.pos (p + 1) - m.pos p
  let R_2 := m.pos (p + 2) - m.pos (p + 1)
  let a_1_new := k_1 • R_1
  let a_2_new := (-k_1) • R_1 + k_2 • R_2
  let a_3_new := (-k_2) • R_2
  let m := m.setVel p (vecStep2 (m.vel p) a_1_old a_1_new timestep)
  let m := m.setVel (p + 1) (vecStep2 (m.vel (p + 1)) a_2_old a_2_new timestep)
  m.setVel (p + 2) (vecStep2 (m.vel (p + 2)) a_3_old a_3_new timestep)

/-- The thread with the given work unit of `streamHarmonicTrimerVelocityVerlet`
(`cudaDeviceCode/OpenMPCD/CUDA/MPCFluid/DeviceCode/HarmonicTrimers.cu:5-57`). -/
def trimerThread (mpcParticleCount : ℕ) (k_1 k_2 timestep : K) (stepCount : ℕ) (m : Mem K) (workUnit : ℕ) :
    Mem K :=
  let particle1ID := 3 * workUnit
  if particle1ID + 2 ≥ mpcParticleCount then m
  else (trimerStep particle1ID k_1 k_2 timestep)^[stepCount] m

/-! ## Chains -/

/-- `getAccelerationGaussianChainVelocityVerlet`
(`cudaDeviceCode/OpenMPCD/CUDA/MPCFluid/DeviceCode/GaussianChains.cu:95-126`). -/
def chainAcceleration (positions : ℕ → Vec3 K) (firstParticleID particleID lastParticleID : ℕ)
    (reducedSpringConstant : K) : Vec3 K :=
  let accelerationDueToPrevious :=
    if particleID ≠ firstParticleID then
      (-reducedSpringConstant) • (positions particleID - positions (particleID - 1))
    else 0
  let accelerationDueToNext :=
    if particleID ≠ lastParticleID then
      reducedSpringConstant • (positions (particleID + 1) - positions particleID)
    else 0
  accelerationDueToPrevious + accelerationDueToNext

/-- The buffers, including the acceleration buffer. -/
structure ChainMem (K : Type) extends Mem K where
  acc : ℕ → Vec3 K

/-- Writing to the acceleration buffer. -/
def ChainMem.setAcc (m : ChainMem K) (i : ℕ) (v : Vec3 K) : ChainMem K :=
  { m with acc := Function.update m.acc i v }

/-- Writing to the position buffer. -/
def ChainMem.setPos' (m : ChainMem K) (i : ℕ) (v : Vec3 K) : ChainMem K := { m with toMem := m.toMem.setPos i v }

/-- Writing to the velocity buffer. -/
def ChainMem.setVel' (m : ChainMem K) (i : ℕ) (v : Vec3 K) : ChainMem K := { m with toMem := m.toMem.setVel i v }

/-- The body of the loop over steps in `streamGaussianChainVelocityVerlet`
(`cudaDeviceCode/OpenMPCD/CUDA/MPCFluid/DeviceCode/GaussianChains.cu:33-70`). -/
def chainStep (particle1ID particlesPerChain : ℕ) (reducedSpringConstant timestep : K) (m : ChainMem K) :
    ChainMem K :=
  let lastParticleID := particle1ID + particlesPerChain - 1
  let m := (List.range particlesPerChain).foldl (fun (m : ChainMem K) partnerOffset =>
    let currentParticleID := particle1ID + partnerOffset
    m.setAcc currentParticleID
      (chainAcceleration m.pos particle1ID currentParticleID lastParticleID reducedSpringConstant)) m
  let m := (List.range particlesPerChain).foldl (fun (m : ChainMem K) partnerOffset =>
    let currentParticleID := particle1ID + partnerOffset
    m.setPos' currentParticleID
      (vecStep1 (m.pos currentParticleID) (m.vel currentParticleID) (m.acc currentParticleID) timestep)) m
  (List.range particlesPerChain).foldl (fun (m : ChainMem K) partnerOffset =>
    let currentParticleID := particle1ID + partnerOffset
    m.setVel' currentParticleID
      (vecStep2 (m.vel currentParticleID) (m.acc currentParticleID)
        (chainAcceleration m.pos particle1ID currentParticleID lastParticleID reducedSpringConstant)
        timestep)) m

/-- The thread with the given work unit of `streamGaussianChainsVelocityVerlet`
(`cudaDeviceCode/OpenMPCD/CUDA/MPCFluid/DeviceCode/GaussianChains.cu:73-93`). -/
def chainThread (mpcParticleCount particlesPerChain : ℕ) (reducedSpringConstant timestep : K) (stepCount : ℕ)
    (m : ChainMem K) (workUnit : ℕ) : ChainMem K :=
  let particleID := particlesPerChain * workUnit
  if particleID ≥ mpcParticleCount then m
  else (chainStep particleID particlesPerChain reducedSpringConstant timestep)^[stepCount] m

end OpenMPCD.Verlet
