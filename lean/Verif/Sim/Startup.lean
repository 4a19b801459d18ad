import Verif.Config.Cpp
import Verif.Verlet.Model
import Mathlib.Data.Rat.Floor
import Mathlib.Data.Int.Log
import Mathlib.Tactic.Linarith
import Mathlib.Tactic.NormNum

/-!
# Starting a simulation (C105)

The constructor of `OpenMPCD::CUDA::Simulation`, with the factories of boundary conditions, fluids and solutes. The
configuration is modelled in `Verif/Config/Cpp.lean`.

Simplifications: random numbers and initial positions are modelled in `Verif/Fluid/Init.lean` (which also shows that
placing the particles may never end; here it is assumed to end), the device memory in `Verif/Memory/Model.lean`. Setting up
the measurements, and constructing star polymers, may refuse a configuration for reasons of their own; these are
parameters, about which nothing is assumed. Products of a particle density and a volume below `2 ^ 53` are exact in the
arithmetic of the program; larger ones are outside of the range of `int` in any case. The library is compiled without
`OPENMPCD_DEBUG`.
-/

set_option linter.unusedSectionVars false
set_option linter.unusedSimpArgs false
set_option linter.unusedVariables false

namespace OpenMPCD.Sim.Startup

open Config.Cpp

variable {F : Type}

/-! ## Model -/

/-- How starting may fail. -/
inductive StartErr
  /-- One of the exceptions of the configuration. -/
  | config (e : Err)
  /-- `boost::math::rounding_error` -/
  | rounding
  /-- `OpenMPCD::UnimplementedException` -/
  | unimplemented
  /-- An exception of the measurements, or of a solute. -/
  | other
  deriving DecidableEq

/-- What is used of the arithmetic of floating-point numbers, and of the parts that are not modelled. -/
structure Env (F : Type) where
  zero : F
  /-- `static_cast<std::size_t>(a / b)` -/
  quotient : F → F → ℕ
  /-- `a * n` -/
  times : F → ℕ → F
  /-- `a == b` -/
  same : F → F → Bool
  /-- The constructor of `StarPolymers`: the size of its time steps. -/
  starPolymers : Node F → Except StartErr F

/-- The exceptions of the configuration pass through. -/
def conf {α : Type} : Except Err α → Except StartErr α
  | .ok a => .ok a
  | .error e => .error (.config e)

/-- `if(c) OPENMPCD_THROW(e, …);` -/
def refuseIf (c : Prop) [Decidable c] (e : StartErr) : Except StartErr Unit := if c then .error e else .ok ()

/-- `Configuration::read<FP>` (`include/OpenMPCD/Configuration.hpp:537-569`). -/
def readFloat (root : Node F) (name : Str) : Except Err F :=
  match read root .float name with
  | .error e => .error e
  | .ok (.float x) => .ok x
  | .ok _ => .error .invalidConfiguration

/-- `Configuration::read<bool>` (`include/OpenMPCD/Configuration.hpp:537-569`). -/
def readBool (root : Node F) (name : Str) : Except Err Bool :=
  match read root .bool name with
  | .error e => .error e
  | .ok (.bool x) => .ok x
  | .ok _ => .error .invalidConfiguration

/-- `Configuration::read<std::string>` (`include/OpenMPCD/Configuration.hpp:537-569`). -/
def readString (root : Node F) (name : Str) : Except Err Str :=
  match read root .string name with
  | .error e => .error e
  | .ok (.string x) => .ok x
  | .ok _ => .error .invalidConfiguration

/-- `Setting::getChildCount` (`include/OpenMPCD/Configuration.hpp:235-238`). -/
def childCount : Node F → ℕ
  | .group l => l.length
  | .list l => l.length
  | .array l => l.length
  | .scalar _ => 0

/-- `BoundaryCondition::LeesEdwards` (`src/OpenMPCD/CUDA/BoundaryCondition/LeesEdwards.cu:12-31`): the shear rate. -/
def leesEdwards (config : Node F) : Except Err F :=
  if childCount config ≠ 1 then .error .invalidConfiguration
  else match config.read .float "shearRate".toList with
    | .error e => .error e
    | .ok (.float x) => .ok x
    | .ok _ => .error .invalidConfiguration

/-- The first part of the deprecated style: whether the configuration is malformed
(`src/OpenMPCD/CUDA/BoundaryCondition/Factory.cpp:29-36`). -/
def deprecatedStyle (config : Node F) : Except Err Unit :=
  match config.read .string "type".toList with
  | .error e => .error e
  | .ok (.string t) =>
    if t ≠ "Lees-Edwards".toList then .error .invalidConfiguration
    else match config.has "shearRate".toList with
      | .error e => .error e
      | .ok true => .ok ()
      | .ok false => .error .invalidConfiguration
  | .ok _ => .error .invalidConfiguration

/-- `BoundaryCondition::Factory::getInstance` (`src/OpenMPCD/CUDA/BoundaryCondition/Factory.cpp:14-66`): the shear rate. -/
def boundary (config : Node F) : Except Err F :=
  if childCount config = 0 then .error .invalidConfiguration
  else if childCount config = 2 then
    match deprecatedStyle config with
    | .error e => .error e
    | .ok () =>
      match config.read .float "shearRate".toList with
      | .error e => .error e
      | .ok v =>
        match (set (.group []) "LeesEdwards.shearRate".toList v).2 with
        | .error e => .error e
        | .ok () =>
          match getSetting (set (.group []) "LeesEdwards.shearRate".toList v).1 "LeesEdwards".toList with
          | .error e => .error e
          | .ok m => leesEdwards m
  else if childCount config ≠ 1 then .error .invalidConfiguration
  else match config.has "LeesEdwards".toList with
    | .error e => .error e
    | .ok false => .error .invalidConfiguration
    | .ok true =>
      match config.getSetting "LeesEdwards".toList with
      | .error e => .error e
      | .ok m => leesEdwards m

/-- The members of `Simulation` that are read from the configuration (`include/OpenMPCD/CUDA/Simulation.hpp:282-298`). -/
structure Params (F : Type) where
  boxX : ℕ
  boxY : ℕ
  boxZ : ℕ
  timestep : F
  angle : F
  gridShiftScale : F
  targetkT : F
  sweepSize : ℕ
  deriving DecidableEq

/-- The thermostat's part of `readConfiguration` (`src/OpenMPCD/CUDA/Simulation.cu:109-111`). -/
def readThermostat (E : Env F) (root : Node F) : Except StartErr F :=
  if has root "bulkThermostat".toList then conf (readFloat root "bulkThermostat.targetkT".toList) else .ok E.zero

/-- `readConfiguration` (`src/OpenMPCD/CUDA/Simulation.cu:100-114`). -/
def readConfiguration (E : Env F) (root : Node F) : Except StartErr (Params F) := do
  let x ← conf (readUnsigned root "mpc.simulationBoxSize.x".toList)
  let y ← conf (readUnsigned root "mpc.simulationBoxSize.y".toList)
  let z ← conf (readUnsigned root "mpc.simulationBoxSize.z".toList)
  let dt ← conf (readFloat root "mpc.timestep".toList)
  let angle ← conf (readFloat root "mpc.srdCollisionAngle".toList)
  let scale ← conf (readFloat root "mpc.gridShiftScale".toList)
  let kT ← readThermostat E root
  let sweepSize ← conf (readUnsigned root "mpc.sweepSize".toList)
  return ⟨x, y, z, dt, angle, scale, kT, sweepSize⟩

/-- The volume of the box, `getTotalAvailableVolume` (`src/OpenMPCD/CUDA/BoundaryCondition/LeesEdwards.cu:17-18,33-36`):
computed in `unsigned int`. -/
def volume (p : Params F) : ℕ := p.boxX * p.boxY % 2 ^ 32 * p.boxZ % 2 ^ 32

/-- `boost::math::iround` (`src/OpenMPCD/CUDA/Simulation.cu:137-141`). -/
def particleCount (density volume : ℕ) : Except StartErr ℕ :=
  if density * volume < 2 ^ 31 then .ok (density * volume) else .error .rounding

/-- The fluids with what they have been configured with. The number of velocity Verlet steps is `none` for analytical
streaming. -/
inductive Fluid (F : Type)
  | simple
  | dumbbells (length relaxationTime kT shearRate : F) (steps : Option ℕ)
  | chains (particlesPerChain : ℕ) (springConstant : F) (steps : ℕ)
  | rods (meanBondLength springConstant : F) (steps : ℕ)
  | trimers (springConstant1 springConstant2 : F) (steps : Option ℕ)
  deriving DecidableEq

/-- `getNumberOfParticlesPerLogicalEntity`
(`include/OpenMPCD/CUDA/MPCFluid/Simple.hpp:52-55`, `GaussianDumbbells.hpp:84-87`, `GaussianChains.hpp:69-72`,
`GaussianRods.hpp:60-63`, `HarmonicTrimers.hpp:73-76`). -/
def Fluid.moleculeSize : Fluid F → ℕ
  | .simple => 1
  | .dumbbells .. => 2
  | .chains n .. => n
  | .rods .. => 2
  | .trimers .. => 3

/-- What `initializeVelocitiesOnHost` reads (`src/OpenMPCD/CUDA/MPCFluid/Base.cu:193-227`). -/
def readVelocities (root : Node F) : Except StartErr Unit := do
  let _ ← conf (readFloat root "initialization.particleVelocityDistribution.mean".toList)
  let _ ← conf (readFloat root "initialization.particleVelocityDistribution.standardDeviation".toList)
  if has root "initialization.kT".toList then
    let _ ← conf (readFloat root "initialization.kT".toList)
    return ()
  else return ()

/-- The number of steps is only read if streaming is not analytical
(`src/OpenMPCD/CUDA/MPCFluid/GaussianDumbbells.cu:84-85`, `HarmonicTrimers.cu:51-52`). -/
def readSteps (root : Node F) (analytically : Bool) (name : Str) : Except StartErr (Option ℕ) :=
  if analytically = true then .ok none else (conf (readUnsigned root name)).map some

/-- `getInitialDumbbellPartnerPosition` (`src/OpenMPCD/CUDA/MPCFluid/GaussianDumbbells.cu:155-187`) as far as the
configuration is concerned, in the first simulation of a process (`Verif/Fluid/Dumbbell.lean` has later ones). It is only
called if there are particles. -/
def checkPositioning (root : Node F) (count : ℕ) : Except StartErr Unit :=
  if count = 0 then .ok () else do
    let positioning ← conf (readString root "initialization.dumbbell.relativePosition".toList)
    refuseIf (positioning ≠ "relaxed".toList ∧ positioning ≠ "perfect".toList) (.config .invalidConfiguration)

/-- `GaussianDumbbells` (`src/OpenMPCD/CUDA/MPCFluid/GaussianDumbbells.cu:16-86`). -/
def dumbbells (root : Node F) (count : ℕ) (kT shearRate : F) : Except StartErr (Fluid F) := do
  refuseIf (count % 2 ≠ 0) (.config .invalidConfiguration)
  let analytically ← conf (readBool root "mpc.fluid.dumbbell.analyticalStreaming".toList)
  let length ← conf (readFloat root "mpc.fluid.dumbbell.rootMeanSquareLength".toList)
  let tau ← conf (readFloat root "mpc.fluid.dumbbell.zeroShearRelaxationTime".toList)
  let steps ← readSteps root analytically "mpc.fluid.dumbbell.mdStepCount".toList
  readVelocities root
  checkPositioning root count
  let type ← conf (readString root "bulkThermostat.type".toList)
  refuseIf (type ≠ "MBS".toList) (.config .invalidConfiguration)
  return .dumbbells length tau kT shearRate steps

/-- `GaussianChains` (`src/OpenMPCD/CUDA/MPCFluid/GaussianChains.cu:15-50,57-64`). -/
def chains (root : Node F) (count : ℕ) : Except StartErr (Fluid F) := do
  let n ← conf (readUnsigned root "mpc.fluid.gaussianChains.particlesPerChain".toList)
  let k ← conf (readFloat root "mpc.fluid.gaussianChains.springConstant".toList)
  let steps ← conf (readUnsigned root "mpc.fluid.gaussianChains.mdStepCount".toList)
  refuseIf (n = 0) (.config .invalidConfiguration)
  refuseIf (count % n ≠ 0) (.config .invalidConfiguration)
  readVelocities root
  return .chains n k steps

/-- `GaussianRods` (`src/OpenMPCD/CUDA/MPCFluid/GaussianRods.cu:15-52`). -/
def rods (root : Node F) (count : ℕ) : Except StartErr (Fluid F) := do
  refuseIf (count % 2 ≠ 0) (.config .invalidConfiguration)
  let length ← conf (readFloat root "mpc.fluid.gaussianRods.meanBondLength".toList)
  let k ← conf (readFloat root "mpc.fluid.gaussianRods.springConstant".toList)
  let steps ← conf (readUnsigned root "mpc.fluid.gaussianRods.mdStepCount".toList)
  readVelocities root
  return .rods length k steps

/-- `HarmonicTrimers` (`src/OpenMPCD/CUDA/MPCFluid/HarmonicTrimers.cu:12-53`). -/
def trimers (root : Node F) (count : ℕ) : Except StartErr (Fluid F) := do
  refuseIf (count % 3 ≠ 0) (.config .invalidConfiguration)
  let k1 ← conf (readFloat root "mpc.fluid.harmonicTrimers.springConstant1".toList)
  let k2 ← conf (readFloat root "mpc.fluid.harmonicTrimers.springConstant2".toList)
  let analytically ← conf (readBool root "mpc.fluid.harmonicTrimers.analyticalStreaming".toList)
  let steps ← readSteps root analytically "mpc.fluid.harmonicTrimers.mdStepCount".toList
  readVelocities root
  return .trimers k1 k2 steps

/-- `MPCFluid::Factory::getInstance` (`src/OpenMPCD/CUDA/MPCFluid/Factory.cpp:13-52`), without the measurements. -/
def fluid (root : Node F) (count : ℕ) : Except StartErr (Option (Fluid F)) := do
  let _ ← conf (readFloat root "mpc.timestep".toList)
  if !has root "mpc.fluid".toList then return none
  else if has root "mpc.fluid.simple".toList then
    readVelocities root
    return some .simple
  else if has root "mpc.fluid.dumbbell".toList then
    let kT ← conf (readFloat root "bulkThermostat.targetkT".toList)
    let shearRate ← conf (readFloat root "boundaryConditions.LeesEdwards.shearRate".toList)
    (dumbbells root count kT shearRate).map some
  else if has root "mpc.fluid.gaussianChains".toList then (chains root count).map some
  else if has root "mpc.fluid.gaussianRods".toList then (rods root count).map some
  else if has root "mpc.fluid.harmonicTrimers".toList then (trimers root count).map some
  else .error (.config .invalidConfiguration)

/-- `MPCSolute::Factory::getInstance` (`src/OpenMPCD/CUDA/MPCSolute/Factory.cpp:10-41`): the size of the time steps. -/
def solute (E : Env F) (root : Node F) : Except StartErr (Option F) :=
  if !has root "solute".toList then .ok none
  else do
    let group ← conf (getSetting root "solute".toList)
    if childCount group = 0 then return none
    else do
      refuseIf (childCount group ≠ 1) .unimplemented
      let there ← conf (group.has "StarPolymers".toList)
      refuseIf (¬ there = true) .unimplemented
      let m ← conf (group.getSetting "StarPolymers".toList)
      (E.starPolymers m).map some

/-- A simulation that has been started. -/
structure Simulation (F : Type) where
  params : Params F
  shearRate : F
  /-- The fluid with the number of its particles. -/
  fluid : Option (Fluid F × ℕ)
  /-- The size and number of the time steps of the solute, per streaming step. -/
  solute : Option (F × ℕ)
  deriving DecidableEq

/-- The part of `initialize` about the solute (`src/OpenMPCD/CUDA/Simulation.cu:216-238`). -/
def soluteSteps (E : Env F) (root : Node F) (timestep : F) : Except StartErr (Option (F × ℕ)) := do
  match ← solute E root with
  | none => return none
  | some dt =>
    refuseIf (¬ E.same (E.times dt (E.quotient timestep dt)) timestep = true) (.config .invalidConfiguration)
    return some (dt, E.quotient timestep dt)

/-- The constructor of `Simulation` (`src/OpenMPCD/CUDA/Simulation.cu:34-44,100-239`); `measure` is whether the measurements
can be set up. -/
def start (E : Env F) (measure : Fluid F → ℕ → Node F → Bool) (root : Node F) : Except StartErr (Simulation F) := do
  let p ← readConfiguration E root
  let density ← conf (readUnsigned root "initialization.particleDensity".toList)
  refuseIf (¬ has root "boundaryConditions".toList = true) (.config .invalidConfiguration)
  let bc ← conf (getSetting root "boundaryConditions".toList)
  let shearRate ← conf (boundary bc)
  let count ← particleCount density (volume p)
  let fluid ← fluid root count
  match fluid with
  | some f =>
    refuseIf (¬ measure f count root = true) .other
    refuseIf (density = 0) (.config .invalidConfiguration)
    refuseIf (count = 0) (.config .invalidConfiguration)
    let s ← soluteSteps E root p.timestep
    return ⟨p, shearRate, some (f, count), s⟩
  | none =>
    refuseIf (density ≠ 0) (.config .invalidConfiguration)
    let s ← soluteSteps E root p.timestep
    return ⟨p, shearRate, none, s⟩

/-- Whether the fluid's `stream` can be called at all (`src/OpenMPCD/CUDA/MPCFluid/HarmonicTrimers.cu:55-60`; the other fluids
never refuse). -/
def Fluid.stream : Fluid F → Except StartErr Unit
  | .trimers _ _ none => .error .unimplemented
  | _ => .ok ()

/-! ## Specification -/

/-- The setting is there, and is this unsigned number. A negative setting counts as zero. -/
def ReadsNat (root : Node F) (name : Str) (n : ℕ) : Prop := ∃ i : ℤ, Reads root name (.int i) ∧ n = i.toNat

/-- The setting is there, whatever it is. -/
def Has (root : Node F) (name : Str) : Prop := ∃ m, root.lookup (parts name) = some m

/-- The two ways of configuring Lees-Edwards boundary conditions: a group with just the group `LeesEdwards`, which just has
the shear rate; or, formerly, a group with just a type and a shear rate. -/
def IsLeesEdwards (config : Node F) (shearRate : F) : Prop :=
  config = .group [("LeesEdwards".toList, .group [("shearRate".toList, .scalar (.float shearRate))])] ∨
  config = .group [("type".toList, .scalar (.string "Lees-Edwards".toList)),
    ("shearRate".toList, .scalar (.float shearRate))] ∨
  config = .group [("shearRate".toList, .scalar (.float shearRate)),
    ("type".toList, .scalar (.string "Lees-Edwards".toList))]

/-- The settings for the initial velocities are there. -/
def VelocitiesConfigured (root : Node F) : Prop :=
  (∃ x, Reads root "initialization.particleVelocityDistribution.mean".toList (.float x)) ∧
  (∃ x, Reads root "initialization.particleVelocityDistribution.standardDeviation".toList (.float x)) ∧
  (Has root "initialization.kT".toList → ∃ x, Reads root "initialization.kT".toList (.float x))

/-- The number of steps is configured unless streaming is analytical. -/
def StepsConfigured (root : Node F) (flag count : Str) (steps : Option ℕ) : Prop :=
  (Reads root flag (.bool true) ∧ steps = none) ∨
  (Reads root flag (.bool false) ∧ ∃ n, steps = some n ∧ ReadsNat root count n)

/-- The fluid is the one configured. -/
def Configured (root : Node F) (count : ℕ) : Fluid F → Prop
  | .simple => Has root "mpc.fluid.simple".toList
  | .dumbbells length tau kT shearRate steps =>
    ¬ Has root "mpc.fluid.simple".toList ∧ Has root "mpc.fluid.dumbbell".toList ∧
    Reads root "mpc.fluid.dumbbell.rootMeanSquareLength".toList (.float length) ∧
    Reads root "mpc.fluid.dumbbell.zeroShearRelaxationTime".toList (.float tau) ∧
    Reads root "bulkThermostat.targetkT".toList (.float kT) ∧
    Reads root "bulkThermostat.type".toList (.string "MBS".toList) ∧
    Reads root "boundaryConditions.LeesEdwards.shearRate".toList (.float shearRate) ∧
    StepsConfigured root "mpc.fluid.dumbbell.analyticalStreaming".toList "mpc.fluid.dumbbell.mdStepCount".toList steps ∧
    (count ≠ 0 → Reads root "initialization.dumbbell.relativePosition".toList (.string "relaxed".toList) ∨
      Reads root "initialization.dumbbell.relativePosition".toList (.string "perfect".toList))
  | .chains n k steps =>
    ¬ Has root "mpc.fluid.simple".toList ∧ ¬ Has root "mpc.fluid.dumbbell".toList ∧
    Has root "mpc.fluid.gaussianChains".toList ∧ n ≠ 0 ∧
    ReadsNat root "mpc.fluid.gaussianChains.particlesPerChain".toList n ∧
    Reads root "mpc.fluid.gaussianChains.springConstant".toList (.float k) ∧
    ReadsNat root "mpc.fluid.gaussianChains.mdStepCount".toList steps
  | .rods length k steps =>
    ¬ Has root "mpc.fluid.simple".toList ∧ ¬ Has root "mpc.fluid.dumbbell".toList ∧
    ¬ Has root "mpc.fluid.gaussianChains".toList ∧ Has root "mpc.fluid.gaussianRods".toList ∧
    Reads root "mpc.fluid.gaussianRods.meanBondLength".toList (.float length) ∧
    Reads root "mpc.fluid.gaussianRods.springConstant".toList (.float k) ∧
    ReadsNat root "mpc.fluid.gaussianRods.mdStepCount".toList steps
  | .trimers k1 k2 steps =>
    ¬ Has root "mpc.fluid.simple".toList ∧ ¬ Has root "mpc.fluid.dumbbell".toList ∧
    ¬ Has root "mpc.fluid.gaussianChains".toList ∧ ¬ Has root "mpc.fluid.gaussianRods".toList ∧
    Has root "mpc.fluid.harmonicTrimers".toList ∧
    Reads root "mpc.fluid.harmonicTrimers.springConstant1".toList (.float k1) ∧
    Reads root "mpc.fluid.harmonicTrimers.springConstant2".toList (.float k2) ∧
    StepsConfigured root "mpc.fluid.harmonicTrimers.analyticalStreaming".toList
      "mpc.fluid.harmonicTrimers.mdStepCount".toList steps

/-- No solute is configured, or one with these time steps, which fit into the streaming steps. -/
def SoluteConfigured (E : Env F) (root : Node F) (timestep : F) : Option (F × ℕ) → Prop
  | none => ¬ Has root "solute".toList ∨ ∃ m, root.lookup (parts "solute".toList) = some m ∧ childCount m = 0
  | some (dt, n) =>
    ∃ m, root.lookup (parts "solute".toList) = some (.group [("StarPolymers".toList, m)]) ∧
      E.starPolymers m = .ok dt ∧ n = E.quotient timestep dt ∧ E.same (E.times dt n) timestep = true

/-- The simulation that is to be started with a configuration; `vol` is the volume the particle density `ρ` refers to. -/
structure Started (E : Env F) (measure : Fluid F → ℕ → Node F → Bool) (root : Node F) (s : Simulation F)
    (vol ρ : ℕ) : Prop where
  boxX : ReadsNat root "mpc.simulationBoxSize.x".toList s.params.boxX
  boxY : ReadsNat root "mpc.simulationBoxSize.y".toList s.params.boxY
  boxZ : ReadsNat root "mpc.simulationBoxSize.z".toList s.params.boxZ
  timestep : Reads root "mpc.timestep".toList (.float s.params.timestep)
  angle : Reads root "mpc.srdCollisionAngle".toList (.float s.params.angle)
  gridShiftScale : Reads root "mpc.gridShiftScale".toList (.float s.params.gridShiftScale)
  thermostat : Has root "bulkThermostat".toList → Reads root "bulkThermostat.targetkT".toList (.float s.params.targetkT)
  noThermostat : ¬ Has root "bulkThermostat".toList → s.params.targetkT = E.zero
  sweepSize : ReadsNat root "mpc.sweepSize".toList s.params.sweepSize
  density : ReadsNat root "initialization.particleDensity".toList ρ
  boundary : ∃ m, root.lookup (parts "boundaryConditions".toList) = some m ∧ IsLeesEdwards m s.shearRate
  noFluid : s.fluid = none → ¬ Has root "mpc.fluid".toList ∧ ρ = 0
  fluid : ∀ f n, s.fluid = some (f, n) → Has root "mpc.fluid".toList ∧ Configured root n f ∧ VelocitiesConfigured root ∧
    ρ ≠ 0 ∧ n = ρ * vol ∧ 0 < n ∧ n < 2 ^ 31 ∧ f.moleculeSize ∣ n ∧ measure f n root = true
  solute : SoluteConfigured E root s.params.timestep s.solute

/-- A configuration has just one kind of fluid. -/
def OneFluid (root : Node F) : Prop :=
  ∃ name m, root.lookup (parts "mpc.fluid".toList) = some (.group [(name, m)])

/-! ## Proofs -/

theorem bind_ok {α β : Type} (x : Except StartErr α) (f : α → Except StartErr β) (b : β) :
    (x >>= f) = .ok b ↔ ∃ a, x = .ok a ∧ f a = .ok b := by
  cases x with
  | error e => exact ⟨nofun, fun ⟨_, h, _⟩ => nomatch h⟩
  | ok a => exact ⟨fun h => ⟨a, rfl, h⟩, fun ⟨a', h, h'⟩ => by cases h; exact h'⟩

theorem pure_ok {α : Type} (a b : α) : (pure a : Except StartErr α) = .ok b ↔ a = b :=
  ⟨fun h => by cases h; rfl, fun h => by cases h; rfl⟩

theorem map_ok {α β : Type} (x : Except StartErr α) (f : α → β) (b : β) :
    x.map f = .ok b ↔ ∃ a, x = .ok a ∧ f a = b := by
  cases x with
  | error e => exact ⟨nofun, fun ⟨_, h, _⟩ => nomatch h⟩
  | ok a =>
    refine ⟨fun h => ⟨a, rfl, ?_⟩, fun ⟨a', h, h'⟩ => ?_⟩
    · have : (Except.ok (f a) : Except StartErr β) = .ok b := h
      cases this; rfl
    · cases h; rw [← h']; rfl

theorem conf_ok {α : Type} (x : Except Err α) (a : α) : conf x = .ok a ↔ x = .ok a := by
  cases x with
  | error e => exact ⟨nofun, nofun⟩
  | ok b => exact ⟨fun h => by cases h; rfl, fun h => by cases h; rfl⟩

theorem refuseIf_ok (c : Prop) [Decidable c] (e : StartErr) (u : Unit) : refuseIf c e = .ok u ↔ ¬ c := by
  unfold refuseIf
  by_cases h : c
  · simp [h]
  · simp [h]

theorem has_iff (root : Node F) (name : Str) : has root name = true ↔ Has root name := by
  unfold has Has
  rw [Option.isSome_iff_exists]

theorem read_kind {root : Node F} {k : Kind} {name : Str} {v : Value F} (h : read root k name = .ok v) : v.kind = k := by
  unfold Config.Cpp.read at h
  cases hl : root.lookup (parts name) with
  | none => rw [hl] at h; cases h
  | some n =>
    rw [hl] at h
    cases n with
    | scalar w =>
      simp only [Node.asKind] at h
      split at h
      · cases h; assumption
      · cases h
    | _ => cases h

theorem readFloat_ok (root : Node F) (name : Str) (x : F) :
    readFloat root name = .ok x ↔ Reads root name (.float x) := by
  unfold readFloat Reads
  show _ ↔ read root .float name = _
  cases h : read root .float name with
  | error e => exact ⟨nofun, nofun⟩
  | ok v =>
    have hk := read_kind h
    cases v <;> simp

theorem readBool_ok (root : Node F) (name : Str) (x : Bool) :
    readBool root name = .ok x ↔ Reads root name (.bool x) := by
  unfold readBool Reads
  show _ ↔ read root .bool name = _
  cases h : read root .bool name with
  | error e => exact ⟨nofun, nofun⟩
  | ok v =>
    have hk := read_kind h
    cases v <;> simp

theorem readString_ok (root : Node F) (name : Str) (x : Str) :
    readString root name = .ok x ↔ Reads root name (.string x) := by
  unfold readString Reads
  show _ ↔ read root .string name = _
  cases h : read root .string name with
  | error e => exact ⟨nofun, nofun⟩
  | ok v =>
    have hk := read_kind h
    cases v <;> simp

theorem readUnsigned_ok (root : Node F) (name : Str) (n : ℕ) :
    readUnsigned root name = .ok n ↔ ReadsNat root name n := by
  unfold readUnsigned ReadsNat Reads
  show _ ↔ ∃ i : ℤ, read root .int name = _ ∧ _
  cases h : read root .int name with
  | error e => exact ⟨nofun, fun ⟨_, h, _⟩ => nomatch h⟩
  | ok v =>
    have hk := read_kind h
    cases v with
    | int i =>
      refine ⟨fun h => ⟨i, rfl, ?_⟩, fun ⟨j, hj, hn⟩ => ?_⟩
      · cases h; rfl
      · cases hj; rw [hn]
    | _ => cases hk

theorem parts_shearRate : parts "shearRate".toList = ["shearRate".toList] := by decide +kernel
theorem parts_type : parts "type".toList = ["type".toList] := by decide +kernel
theorem parts_LeesEdwards : parts "LeesEdwards".toList = ["LeesEdwards".toList] := by decide +kernel
theorem parts_StarPolymers : parts "StarPolymers".toList = ["StarPolymers".toList] := by decide +kernel
theorem LeesEdwards_ne : "LeesEdwards".toList ≠ [] := by decide +kernel
theorem StarPolymers_ne : "StarPolymers".toList ≠ [] := by decide +kernel
theorem type_ne_shearRate : "type".toList ≠ "shearRate".toList := by decide +kernel

theorem child_head (k : Str) (m : Node F) (l : List (Str × Node F)) : (Node.group ((k, m) :: l)).child k = some m := by
  simp [Node.child, childOf]

theorem child_second {k k' : Str} (h : k ≠ k') (m m' : Node F) (l : List (Str × Node F)) :
    (Node.group ((k, m) :: (k', m') :: l)).child k' = some m' := by
  simp [Node.child, childOf, h]

/-- Reading a child of a group. -/
theorem node_read_ok {n : Node F} {k : Kind} {name : Str} (hp : parts name = [name]) (v : Value F) :
    n.read k name = .ok v ↔ n.child name = some (.scalar v) ∧ v.kind = k := by
  unfold Node.read
  rw [hp]
  unfold Node.readParts
  cases h : n.child name with
  | none => simp
  | some m =>
    cases m with
    | scalar w =>
      simp only [Node.asKind, Option.some.injEq, Node.scalar.injEq]
      by_cases hw : w.kind = k
      · rw [if_pos hw]
        exact ⟨fun h => by cases h; exact ⟨rfl, hw⟩, fun h => by rw [h.1]⟩
      · rw [if_neg hw]
        exact ⟨nofun, fun h => absurd (h.1 ▸ h.2) hw⟩
    | _ => simp [Node.asKind]

theorem node_has {n : Node F} {name : Str} (hp : parts name = [name]) :
    n.has name = .ok (n.child name).isSome := by
  unfold Node.has
  rw [hp]
  rfl

theorem node_getSetting {n : Node F} {name : Str} (hp : parts name = [name]) (hne : name ≠ []) (m : Node F) :
    n.getSetting name = .ok m ↔ n.child name = some m := by
  unfold Node.getSetting
  rw [node_has hp, hp]
  cases h : n.child name with
  | none => simp
  | some m' =>
    simp only [Option.isSome_some]
    rw [lookup_cons n hne, h]
    simp [Node.lookup]

theorem leesEdwards_ok (m : Node F) (r : F) :
    leesEdwards m = .ok r ↔ m = .group [("shearRate".toList, .scalar (.float r))] := by
  unfold leesEdwards
  by_cases hc : childCount m = 1
  · rw [if_neg (by simpa using hc)]
    have hr := fun v => node_read_ok (n := m) (k := .float) parts_shearRate v
    constructor
    · intro h
      cases hv : m.read .float "shearRate".toList with
      | error e => rw [hv] at h; cases h
      | ok v =>
        rw [hv] at h
        obtain ⟨h1, h2⟩ := (hr v).1 hv
        cases v with
        | float x =>
          cases h
          cases m with
          | group l =>
            match l, hc with
            | [(k, c)], _ =>
              simp only [Node.child, childOf] at h1
              split at h1
              · rename_i hk
                cases h1
                rw [hk]
              · cases h1
          | _ => simp [Node.child] at h1
        | _ => cases h2
    · rintro rfl
      rw [(hr (.float r)).2 ⟨child_head _ _ _, rfl⟩]
  · rw [if_pos (by simpa using hc)]
    refine ⟨nofun, ?_⟩
    rintro rfl
    exact absurd rfl hc

theorem parts_both : parts "LeesEdwards.shearRate".toList = ["LeesEdwards".toList, "shearRate".toList] := by
  decide +kernel
theorem valid_LeesEdwards : validName "LeesEdwards".toList = true := by decide +kernel
theorem valid_shearRate : validName "shearRate".toList = true := by decide +kernel

/-- The configuration built for the deprecated style. -/
theorem set_deprecated (v : Value F) : set (.group []) "LeesEdwards.shearRate".toList v =
    (.group [("LeesEdwards".toList, .group [("shearRate".toList, .scalar v)])], .ok ()) := by
  unfold Config.Cpp.set
  rw [parts_both]
  have h1 := valid_LeesEdwards
  have h2 := valid_shearRate
  generalize "LeesEdwards".toList = a at h1 ⊢
  generalize "shearRate".toList = b at h2 ⊢
  simp only [descend, setLeaf, Node.child, childOf, Node.add, h1, h2, if_true, List.nil_append]

theorem getSetting_deprecated (v : Value F) :
    getSetting (.group [("LeesEdwards".toList, .group [("shearRate".toList, .scalar v)])]) "LeesEdwards".toList =
      .ok (.group [("shearRate".toList, .scalar v)]) := by
  unfold getSetting
  rw [parts_LeesEdwards, lookup_cons _ LeesEdwards_ne, child_head]
  rfl

/-- Boundary conditions are accepted in just these two styles, and have the shear rate given. -/
theorem C105_boundary (m : Node F) (r : F) : boundary m = .ok r ↔ IsLeesEdwards m r := by
  unfold boundary
  by_cases h0 : childCount m = 0
  · rw [if_pos h0]
    refine ⟨nofun, ?_⟩
    rintro (rfl | rfl | rfl) <;> cases h0
  rw [if_neg h0]
  by_cases h2 : childCount m = 2
  · rw [if_pos h2]
    have hr := fun v => node_read_ok (n := m) (k := .float) parts_shearRate v
    have ht := fun v => node_read_ok (n := m) (k := .string) parts_type v
    have hh := node_has (n := m) parts_shearRate
    constructor
    · intro h
      unfold deprecatedStyle at h
      cases hv : m.read .string "type".toList with
      | error e => rw [hv] at h; cases h
      | ok v =>
        rw [hv] at h
        obtain ⟨h3, h4⟩ := (ht v).1 hv
        cases v with
        | string t =>
          simp only at h
          by_cases hL : t = "Lees-Edwards".toList
          · rw [if_neg (by simpa using hL), hh] at h
            cases hw : m.child "shearRate".toList with
            | none => rw [hw] at h; cases h
            | some n =>
              rw [hw] at h
              simp only [Option.isSome_some] at h
              cases hx : m.read .float "shearRate".toList with
              | error e => rw [hx] at h; cases h
              | ok x =>
                rw [hx] at h
                simp only [set_deprecated, getSetting_deprecated] at h
                rw [leesEdwards_ok] at h
                have h5 := ((hr x).1 hx).1
                injection h with h
                injection h with h _
                injection h with _ h
                injection h with h
                subst h
                subst hL
                right
                cases m with
                | group l =>
                  match l, h2 with
                  | [(k, c), (k', c')], _ =>
                    simp only [Node.child, childOf] at h3 h5
                    by_cases hk : k = "type".toList
                    · subst hk
                      rw [if_neg type_ne_shearRate] at h5
                      rw [if_pos rfl] at h3
                      cases h3
                      by_cases hk' : k' = "shearRate".toList
                      · subst hk'
                        rw [if_pos rfl] at h5
                        cases h5
                        exact .inl rfl
                      · rw [if_neg hk'] at h5; cases h5
                    · rw [if_neg hk] at h3
                      by_cases hk' : k' = "type".toList
                      · subst hk'
                        rw [if_pos rfl] at h3
                        cases h3
                        by_cases hk'' : k = "shearRate".toList
                        · subst hk''
                          rw [if_pos rfl] at h5
                          cases h5
                          exact .inr rfl
                        · rw [if_neg hk'', if_neg type_ne_shearRate] at h5
                          cases h5
                      · rw [if_neg hk'] at h3; cases h3
                | _ => simp [Node.child] at h3
          · rw [if_pos (by simpa using hL)] at h; cases h
        | _ => cases h4
    · intro h
      have hne : "shearRate".toList ≠ "type".toList := fun h => type_ne_shearRate h.symm
      have h3 : m.child "type".toList = some (.scalar (.string "Lees-Edwards".toList)) := by
        rcases h with rfl | rfl | rfl
        · cases h2
        · exact child_head _ _ _
        · exact child_second hne _ _ _
      have h5 : m.child "shearRate".toList = some (.scalar (.float r)) := by
        rcases h with rfl | rfl | rfl
        · cases h2
        · exact child_second type_ne_shearRate _ _ _
        · exact child_head _ _ _
      unfold deprecatedStyle
      rw [(ht _).2 ⟨h3, rfl⟩]
      simp only [ne_eq, not_true_eq_false, if_false]
      rw [hh, h5]
      simp only [Option.isSome_some]
      rw [(hr _).2 ⟨h5, rfl⟩]
      simp only [set_deprecated, getSetting_deprecated]
      rw [leesEdwards_ok]
  · rw [if_neg h2]
    by_cases h1 : childCount m = 1
    · rw [if_neg (by simpa using h1), node_has parts_LeesEdwards]
      have hg := fun n => node_getSetting (n := m) parts_LeesEdwards LeesEdwards_ne n
      constructor
      · intro h
        cases hc : m.child "LeesEdwards".toList with
        | none => rw [hc] at h; cases h
        | some n =>
          rw [hc] at h
          simp only [Option.isSome_some] at h
          rw [(hg n).2 hc] at h
          simp only at h
          rw [leesEdwards_ok] at h
          subst h
          left
          cases m with
          | group l =>
            match l, h1 with
            | [(k, c)], _ =>
              simp only [Node.child, childOf] at hc
              split at hc
              · rename_i hk
                cases hc
                rw [hk]
              · cases hc
          | _ => simp [Node.child] at hc
      · intro h
        have hc : m.child "LeesEdwards".toList = some (.group [("shearRate".toList, .scalar (.float r))]) := by
          rcases h with rfl | rfl | rfl
          · exact child_head _ _ _
          · cases h1
          · cases h1
        rw [hc]
        simp only [Option.isSome_some]
        rw [(hg _).2 hc]
        simp only
        rw [leesEdwards_ok]
    · rw [if_pos (by simpa using h1)]
      refine ⟨nofun, ?_⟩
      rintro (rfl | rfl | rfl)
      · exact absurd rfl h1
      · exact absurd rfl h2
      · exact absurd rfl h2

theorem getSetting_ok (root : Node F) (name : Str) (m : Node F) :
    getSetting root name = .ok m ↔ root.lookup (parts name) = some m := by
  unfold getSetting
  cases h : root.lookup (parts name) with
  | none => exact ⟨nofun, nofun⟩
  | some n => simp

theorem particleCount_ok (ρ v n : ℕ) : particleCount ρ v = .ok n ↔ n = ρ * v ∧ n < 2 ^ 31 := by
  unfold particleCount
  by_cases h : ρ * v < 2 ^ 31
  · rw [if_pos h]
    exact ⟨fun e => by cases e; exact ⟨rfl, h⟩, fun e => by rw [e.1]⟩
  · rw [if_neg h]
    exact ⟨nofun, fun e => absurd (e.1 ▸ e.2) h⟩

theorem readVelocities_ok (root : Node F) (u : Unit) : readVelocities root = .ok u ↔ VelocitiesConfigured root := by
  unfold readVelocities VelocitiesConfigured
  simp only [bind_ok, conf_ok, readFloat_ok]
  by_cases h : Has root "initialization.kT".toList
  · rw [if_pos ((has_iff _ _).2 h)]
    simp only [bind_ok, conf_ok, readFloat_ok, pure_ok]
    exact ⟨fun ⟨a, ha, b, hb, c, hc, _⟩ => ⟨⟨a, ha⟩, ⟨b, hb⟩, fun _ => ⟨c, hc⟩⟩,
      fun ⟨⟨a, ha⟩, ⟨b, hb⟩, hc⟩ => ⟨a, ha, b, hb, (hc h).choose, (hc h).choose_spec, trivial⟩⟩
  · rw [if_neg (fun h' => h ((has_iff _ _).1 h'))]
    simp only [pure_ok]
    exact ⟨fun ⟨a, ha, b, hb, _⟩ => ⟨⟨a, ha⟩, ⟨b, hb⟩, fun h' => absurd h' h⟩,
      fun ⟨⟨a, ha⟩, ⟨b, hb⟩, _⟩ => ⟨a, ha, b, hb, trivial⟩⟩

theorem steps_ok (root : Node F) (flag count : Str) (steps : Option ℕ) :
    (∃ b, Reads root flag (.bool b) ∧ readSteps root b count = .ok steps) ↔ StepsConfigured root flag count steps := by
  unfold readSteps
  constructor
  · rintro ⟨b, hb, h⟩
    cases b with
    | true => rw [if_pos rfl] at h; cases h; exact .inl ⟨hb, rfl⟩
    | false =>
      rw [if_neg (by decide), map_ok] at h
      obtain ⟨n, hn, rfl⟩ := h
      rw [conf_ok, readUnsigned_ok] at hn
      exact .inr ⟨hb, n, rfl, hn⟩
  · rintro (⟨hb, rfl⟩ | ⟨hb, n, rfl, hn⟩)
    · exact ⟨true, hb, by rw [if_pos rfl]⟩
    · refine ⟨false, hb, ?_⟩
      rw [if_neg (by decide), map_ok]
      exact ⟨n, by rw [conf_ok, readUnsigned_ok]; exact hn, rfl⟩

theorem dumbbells_ok (root : Node F) (n : ℕ) (kT r : F) (f : Fluid F) :
    dumbbells root n kT r = .ok f ↔ ∃ length tau steps, f = .dumbbells length tau kT r steps ∧ 2 ∣ n ∧
      Reads root "mpc.fluid.dumbbell.rootMeanSquareLength".toList (.float length) ∧
      Reads root "mpc.fluid.dumbbell.zeroShearRelaxationTime".toList (.float tau) ∧
      Reads root "bulkThermostat.type".toList (.string "MBS".toList) ∧
      StepsConfigured root "mpc.fluid.dumbbell.analyticalStreaming".toList "mpc.fluid.dumbbell.mdStepCount".toList steps ∧
      VelocitiesConfigured root ∧
      (n ≠ 0 → Reads root "initialization.dumbbell.relativePosition".toList (.string "relaxed".toList) ∨
        Reads root "initialization.dumbbell.relativePosition".toList (.string "perfect".toList)) := by
  have hpos : ∀ u : Unit, checkPositioning root n = .ok u ↔
      (n ≠ 0 → Reads root "initialization.dumbbell.relativePosition".toList (.string "relaxed".toList) ∨
        Reads root "initialization.dumbbell.relativePosition".toList (.string "perfect".toList)) := by
    intro u
    unfold checkPositioning
    by_cases hn : n = 0
    · rw [if_pos hn]
      exact ⟨fun _ h => absurd hn h, fun _ => rfl⟩
    · rw [if_neg hn]
      simp only [bind_ok, conf_ok, readString_ok, refuseIf_ok]
      constructor
      · rintro ⟨t, ht, h⟩ -
        by_cases h1 : t = "relaxed".toList
        · exact .inl (h1 ▸ ht)
        · by_cases h2 : t = "perfect".toList
          · exact .inr (h2 ▸ ht)
          · exact absurd ⟨h1, h2⟩ h
      · intro h
        rcases h hn with h | h
        · exact ⟨_, h, fun hh => hh.1 rfl⟩
        · exact ⟨_, h, fun hh => hh.2 rfl⟩
  unfold dumbbells
  simp only [bind_ok, conf_ok, readString_ok, refuseIf_ok, readFloat_ok, readBool_ok, readVelocities_ok, pure_ok, hpos]
  constructor
  · rintro ⟨-, h2, b, hb, length, hl, tau, ht, steps, hs, -, hv, -, hp, type, htype, -, hM, rfl⟩
    have hM' : type = "MBS".toList := by by_contra h; exact hM h
    subst hM'
    exact ⟨length, tau, steps, rfl, Nat.dvd_of_mod_eq_zero (by omega), hl, ht, htype,
      (steps_ok _ _ _ _).1 ⟨b, hb, hs⟩, hv, hp⟩
  · rintro ⟨length, tau, steps, rfl, h2, hl, ht, htype, hs, hv, hp⟩
    obtain ⟨b, hb, hs⟩ := (steps_ok _ _ _ _).2 hs
    exact ⟨(), by have := Nat.mod_eq_zero_of_dvd h2; omega, b, hb, length, hl, tau, ht, steps, hs, (), hv, (), hp, _,
      htype, (), fun h => h rfl, rfl⟩

theorem chains_ok (root : Node F) (n : ℕ) (f : Fluid F) :
    chains root n = .ok f ↔ ∃ m k steps, f = .chains m k steps ∧ m ≠ 0 ∧ m ∣ n ∧
      ReadsNat root "mpc.fluid.gaussianChains.particlesPerChain".toList m ∧
      Reads root "mpc.fluid.gaussianChains.springConstant".toList (.float k) ∧
      ReadsNat root "mpc.fluid.gaussianChains.mdStepCount".toList steps ∧ VelocitiesConfigured root := by
  unfold chains
  simp only [bind_ok, conf_ok, readUnsigned_ok, refuseIf_ok, readFloat_ok, readVelocities_ok, pure_ok]
  constructor
  · rintro ⟨m, hm, k, hk, steps, hs, -, h0, -, hd, -, hv, rfl⟩
    exact ⟨m, k, steps, rfl, h0, Nat.dvd_of_mod_eq_zero (by omega), hm, hk, hs, hv⟩
  · rintro ⟨m, k, steps, rfl, h0, hd, hm, hk, hs, hv⟩
    exact ⟨m, hm, k, hk, steps, hs, (), h0, (), by have := Nat.mod_eq_zero_of_dvd hd; omega, (), hv, rfl⟩

theorem rods_ok (root : Node F) (n : ℕ) (f : Fluid F) :
    rods root n = .ok f ↔ ∃ l k steps, f = .rods l k steps ∧ 2 ∣ n ∧
      Reads root "mpc.fluid.gaussianRods.meanBondLength".toList (.float l) ∧
      Reads root "mpc.fluid.gaussianRods.springConstant".toList (.float k) ∧
      ReadsNat root "mpc.fluid.gaussianRods.mdStepCount".toList steps ∧ VelocitiesConfigured root := by
  unfold rods
  simp only [bind_ok, conf_ok, readUnsigned_ok, refuseIf_ok, readFloat_ok, readVelocities_ok, pure_ok]
  constructor
  · rintro ⟨-, h2, l, hl, k, hk, steps, hs, -, hv, rfl⟩
    exact ⟨l, k, steps, rfl, Nat.dvd_of_mod_eq_zero (by omega), hl, hk, hs, hv⟩
  · rintro ⟨l, k, steps, rfl, hd, hl, hk, hs, hv⟩
    exact ⟨(), by have := Nat.mod_eq_zero_of_dvd hd; omega, l, hl, k, hk, steps, hs, (), hv, rfl⟩

theorem trimers_ok (root : Node F) (n : ℕ) (f : Fluid F) :
    trimers root n = .ok f ↔ ∃ k1 k2 steps, f = .trimers k1 k2 steps ∧ 3 ∣ n ∧
      Reads root "mpc.fluid.harmonicTrimers.springConstant1".toList (.float k1) ∧
      Reads root "mpc.fluid.harmonicTrimers.springConstant2".toList (.float k2) ∧
      StepsConfigured root "mpc.fluid.harmonicTrimers.analyticalStreaming".toList
        "mpc.fluid.harmonicTrimers.mdStepCount".toList steps ∧ VelocitiesConfigured root := by
  unfold trimers
  simp only [bind_ok, conf_ok, refuseIf_ok, readFloat_ok, readBool_ok, readVelocities_ok, pure_ok]
  constructor
  · rintro ⟨-, h3, k1, h1, k2, h2, b, hb, steps, hs, -, hv, rfl⟩
    exact ⟨k1, k2, steps, rfl, Nat.dvd_of_mod_eq_zero (by omega), h1, h2, (steps_ok _ _ _ _).1 ⟨b, hb, hs⟩, hv⟩
  · rintro ⟨k1, k2, steps, rfl, hd, h1, h2, hs, hv⟩
    obtain ⟨b, hb, hs⟩ := (steps_ok _ _ _ _).2 hs
    exact ⟨(), by have := Nat.mod_eq_zero_of_dvd hd; omega, k1, h1, k2, h2, b, hb, steps, hs, (), hv, rfl⟩

/-- The fluid the factory returns is the one configured. -/
theorem fluid_ok (root : Node F) (n : ℕ) (o : Option (Fluid F)) {dt : F}
    (ht : Reads root "mpc.timestep".toList (.float dt)) :
    fluid root n = .ok o ↔ match o with
      | none => ¬ Has root "mpc.fluid".toList
      | some f => Has root "mpc.fluid".toList ∧ Configured root n f ∧ VelocitiesConfigured root ∧ f.moleculeSize ∣ n := by
  unfold fluid
  rw [bind_ok]
  simp only [conf_ok, readFloat_ok]
  have hrt : ∀ P : F → Prop, (∀ a b, P a ↔ P b) → ((∃ a, Reads root "mpc.timestep".toList (.float a) ∧ P a) ↔ P dt) :=
    fun P hP => ⟨fun ⟨a, _, h⟩ => (hP a dt).1 h, fun h => ⟨dt, ht, h⟩⟩
  rw [hrt _ (fun _ _ => Iff.rfl)]
  by_cases hF : Has root "mpc.fluid".toList
  · have hb : has root "mpc.fluid".toList = true := (has_iff _ _).2 hF
    rw [if_neg (by rw [hb]; decide)]
    by_cases h1 : Has root "mpc.fluid.simple".toList
    · rw [if_pos ((has_iff _ _).2 h1)]
      simp only [bind_ok, readVelocities_ok, pure_ok]
      constructor
      · rintro ⟨-, hv, rfl⟩
        exact ⟨hF, h1, hv, one_dvd _⟩
      · intro h
        cases o with
        | none => exact absurd hF h
        | some f =>
          obtain ⟨-, hc, hv, -⟩ := h
          refine ⟨(), hv, ?_⟩
          cases f with
          | simple => rfl
          | _ => exact absurd h1 hc.1
    · rw [if_neg (fun h => h1 ((has_iff _ _).1 h))]
      by_cases h2 : Has root "mpc.fluid.dumbbell".toList
      · rw [if_pos ((has_iff _ _).2 h2)]
        simp only [bind_ok, conf_ok, readFloat_ok, map_ok, dumbbells_ok]
        constructor
        · rintro ⟨kT, hk, r, hr, f, ⟨l, tau, steps, rfl, hd, hl, ht, hM, hs, hv, hp⟩, rfl⟩
          exact ⟨hF, ⟨h1, h2, hl, ht, hk, hM, hr, hs, hp⟩, hv, hd⟩
        · intro h
          cases o with
          | none => exact absurd hF h
          | some f =>
            obtain ⟨-, hc, hv, hd⟩ := h
            cases f with
            | simple => exact absurd hc h1
            | dumbbells l tau kT r steps =>
              obtain ⟨-, -, hl, ht, hk, hM, hr, hs, hp⟩ := hc
              exact ⟨kT, hk, r, hr, _, ⟨l, tau, steps, rfl, hd, hl, ht, hM, hs, hv, hp⟩, rfl⟩
            | _ => exact absurd h2 hc.2.1
      · rw [if_neg (fun h => h2 ((has_iff _ _).1 h))]
        by_cases h3 : Has root "mpc.fluid.gaussianChains".toList
        · rw [if_pos ((has_iff _ _).2 h3)]
          simp only [map_ok, chains_ok]
          constructor
          · rintro ⟨f, ⟨m, k, steps, rfl, h0, hd, hm, hk, hs, hv⟩, rfl⟩
            exact ⟨hF, ⟨h1, h2, h3, h0, hm, hk, hs⟩, hv, hd⟩
          · intro h
            cases o with
            | none => exact absurd hF h
            | some f =>
              obtain ⟨-, hc, hv, hd⟩ := h
              cases f with
              | simple => exact absurd hc h1
              | dumbbells => exact absurd hc.2.1 h2
              | chains m k steps =>
                obtain ⟨-, -, -, h0, hm, hk, hs⟩ := hc
                exact ⟨_, ⟨m, k, steps, rfl, h0, hd, hm, hk, hs, hv⟩, rfl⟩
              | _ => exact absurd h3 hc.2.2.1
        · rw [if_neg (fun h => h3 ((has_iff _ _).1 h))]
          by_cases h4 : Has root "mpc.fluid.gaussianRods".toList
          · rw [if_pos ((has_iff _ _).2 h4)]
            simp only [map_ok, rods_ok]
            constructor
            · rintro ⟨f, ⟨l, k, steps, rfl, hd, hl, hk, hs, hv⟩, rfl⟩
              exact ⟨hF, ⟨h1, h2, h3, h4, hl, hk, hs⟩, hv, hd⟩
            · intro h
              cases o with
              | none => exact absurd hF h
              | some f =>
                obtain ⟨-, hc, hv, hd⟩ := h
                cases f with
                | simple => exact absurd hc h1
                | dumbbells => exact absurd hc.2.1 h2
                | chains => exact absurd hc.2.2.1 h3
                | rods l k steps =>
                  obtain ⟨-, -, -, -, hl, hk, hs⟩ := hc
                  exact ⟨_, ⟨l, k, steps, rfl, hd, hl, hk, hs, hv⟩, rfl⟩
                | trimers => exact absurd h4 hc.2.2.2.1
          · rw [if_neg (fun h => h4 ((has_iff _ _).1 h))]
            by_cases h5 : Has root "mpc.fluid.harmonicTrimers".toList
            · rw [if_pos ((has_iff _ _).2 h5)]
              simp only [map_ok, trimers_ok]
              constructor
              · rintro ⟨f, ⟨k1, k2, steps, rfl, hd, hk1, hk2, hs, hv⟩, rfl⟩
                exact ⟨hF, ⟨h1, h2, h3, h4, h5, hk1, hk2, hs⟩, hv, hd⟩
              · intro h
                cases o with
                | none => exact absurd hF h
                | some f =>
                  obtain ⟨-, hc, hv, hd⟩ := h
                  cases f with
                  | simple => exact absurd hc h1
                  | dumbbells => exact absurd hc.2.1 h2
                  | chains => exact absurd hc.2.2.1 h3
                  | rods => exact absurd hc.2.2.2.1 h4
                  | trimers k1 k2 steps =>
                    obtain ⟨-, -, -, -, -, hk1, hk2, hs⟩ := hc
                    exact ⟨_, ⟨k1, k2, steps, rfl, hd, hk1, hk2, hs, hv⟩, rfl⟩
            · rw [if_neg (fun h => h5 ((has_iff _ _).1 h))]
              refine ⟨nofun, fun h => ?_⟩
              cases o with
              | none => exact absurd hF h
              | some f =>
                obtain ⟨-, hc, -, -⟩ := h
                cases f with
                | simple => exact absurd hc h1
                | dumbbells => exact absurd hc.2.1 h2
                | chains => exact absurd hc.2.2.1 h3
                | rods => exact absurd hc.2.2.2.1 h4
                | trimers => exact absurd hc.2.2.2.2.1 h5
  · rw [if_pos (by
      have : has root "mpc.fluid".toList = false := by
        rw [← Bool.not_eq_true]; exact fun h => hF ((has_iff _ _).1 h)
      rw [this]; rfl)]
    rw [pure_ok]
    cases o with
    | none => exact ⟨fun _ => hF, fun _ => rfl⟩
    | some f => exact ⟨nofun, fun h => absurd h.1 hF⟩

theorem solute_ok (E : Env F) (root : Node F) (o : Option F) :
    solute E root = .ok o ↔ match o with
      | none => ¬ Has root "solute".toList ∨ ∃ m, root.lookup (parts "solute".toList) = some m ∧ childCount m = 0
      | some dt => ∃ m, root.lookup (parts "solute".toList) = some (.group [("StarPolymers".toList, m)]) ∧
          E.starPolymers m = .ok dt := by
  unfold solute
  by_cases hS : Has root "solute".toList
  · obtain ⟨g, hg⟩ := hS
    have hb : has root "solute".toList = true := (has_iff _ _).2 ⟨g, hg⟩
    rw [if_neg (by rw [hb]; decide), bind_ok]
    simp only [conf_ok, getSetting_ok, hg, Option.some.injEq, exists_eq_left']
    by_cases h0 : childCount g = 0
    · rw [if_pos h0, pure_ok]
      cases o with
      | none => exact ⟨fun _ => .inr (by simpa using h0), fun _ => rfl⟩
      | some dt =>
        refine ⟨nofun, ?_⟩
        rintro ⟨m, hm, -⟩
        rw [hm] at h0
        cases h0
    · rw [if_neg h0]
      simp only [bind_ok, refuseIf_ok, conf_ok, map_ok, node_has parts_StarPolymers,
        node_getSetting parts_StarPolymers StarPolymers_ne]
      constructor
      · rintro ⟨-, h1, b, hb', -, hn, m, hm, dt, hdt, rfl⟩
        refine ⟨m, ?_, hdt⟩
        cases g with
        | group l =>
          have h1' : childCount (.group l : Node F) = 1 := by by_contra h; exact h1 h
          match l, h1' with
          | [(k, c)], _ =>
            simp only [Node.child, childOf] at hm
            split at hm
            · rename_i hk
              cases hm
              rw [hk]
            · cases hm
        | _ => simp [Node.child] at hm
      · intro h
        cases o with
        | none =>
          rcases h with h | h
          · exact absurd ⟨g, hg⟩ h
          · exact absurd (by simpa using h) h0
        | some dt =>
          obtain ⟨m, hm, hdt⟩ := h
          subst hm
          exact ⟨(), fun h => h rfl, true, by rw [child_head]; rfl, (), fun h => h rfl, m, child_head _ _ _, dt, hdt, rfl⟩
  · have hb : has root "solute".toList = false := by
      rw [← Bool.not_eq_true]; exact fun h => hS ((has_iff _ _).1 h)
    rw [if_pos (by rw [hb]; rfl)]
    cases o with
    | none => exact ⟨fun _ => .inl hS, fun _ => rfl⟩
    | some dt => exact ⟨nofun, fun ⟨m, hm, _⟩ => absurd ⟨_, hm⟩ hS⟩

theorem soluteSteps_ok (E : Env F) (root : Node F) (dt : F) (o : Option (F × ℕ)) :
    soluteSteps E root dt = .ok o ↔ SoluteConfigured E root dt o := by
  unfold soluteSteps
  rw [bind_ok]
  constructor
  · rintro ⟨a, ha, h⟩
    cases a with
    | none =>
      rw [pure_ok] at h
      subst h
      exact (solute_ok E root none).1 ha
    | some d =>
      simp only [bind_ok, refuseIf_ok, pure_ok] at h
      obtain ⟨-, hs, rfl⟩ := h
      obtain ⟨m, hm, hd⟩ := (solute_ok E root (some d)).1 ha
      exact ⟨m, hm, hd, rfl, by simpa using hs⟩
  · intro h
    cases o with
    | none => exact ⟨none, (solute_ok E root none).2 h, by rw [pure_ok]⟩
    | some p =>
      obtain ⟨d, n⟩ := p
      obtain ⟨m, hm, hd, rfl, hs⟩ := h
      refine ⟨some d, (solute_ok E root (some d)).2 ⟨m, hm, hd⟩, ?_⟩
      simp only [bind_ok, refuseIf_ok, pure_ok]
      exact ⟨(), by simpa using hs, trivial⟩

theorem readConfiguration_ok (E : Env F) (root : Node F) (p : Params F) :
    readConfiguration E root = .ok p ↔
      ReadsNat root "mpc.simulationBoxSize.x".toList p.boxX ∧ ReadsNat root "mpc.simulationBoxSize.y".toList p.boxY ∧
      ReadsNat root "mpc.simulationBoxSize.z".toList p.boxZ ∧ Reads root "mpc.timestep".toList (.float p.timestep) ∧
      Reads root "mpc.srdCollisionAngle".toList (.float p.angle) ∧
      Reads root "mpc.gridShiftScale".toList (.float p.gridShiftScale) ∧
      ((Has root "bulkThermostat".toList → Reads root "bulkThermostat.targetkT".toList (.float p.targetkT)) ∧
        (¬ Has root "bulkThermostat".toList → p.targetkT = E.zero)) ∧
      ReadsNat root "mpc.sweepSize".toList p.sweepSize := by
  have hT : ∀ kT, readThermostat E root = .ok kT ↔
      ((Has root "bulkThermostat".toList → Reads root "bulkThermostat.targetkT".toList (.float kT)) ∧
        (¬ Has root "bulkThermostat".toList → kT = E.zero)) := by
    intro kT
    unfold readThermostat
    by_cases h : Has root "bulkThermostat".toList
    · rw [if_pos ((has_iff _ _).2 h), conf_ok, readFloat_ok]
      exact ⟨fun h' => ⟨fun _ => h', fun h'' => absurd h h''⟩, fun h' => h'.1 h⟩
    · rw [if_neg (fun h' => h ((has_iff _ _).1 h'))]
      exact ⟨fun h' => ⟨fun h'' => absurd h'' h, fun _ => by cases h'; rfl⟩, fun h' => by rw [h'.2 h]⟩
  unfold readConfiguration
  simp only [bind_ok, conf_ok, readUnsigned_ok, readFloat_ok, pure_ok, hT]
  constructor
  · rintro ⟨x, hx, y, hy, z, hz, dt, hdt, a, ha, g, hg, kT, hk, n, hn, rfl⟩
    exact ⟨hx, hy, hz, hdt, ha, hg, hk, hn⟩
  · rintro ⟨hx, hy, hz, hdt, ha, hg, hk, hn⟩
    exact ⟨_, hx, _, hy, _, hz, _, hdt, _, ha, _, hg, _, hk, _, hn, rfl⟩

/-- **What starts.** A simulation starts exactly if its configuration says what is needed, and then is the one
configured; the volume the particle density refers to is computed modulo `2 ^ 32`. -/
theorem C105_starts (E : Env F) (measure : Fluid F → ℕ → Node F → Bool) (root : Node F) (s : Simulation F) :
    start E measure root = .ok s ↔
      ∃ ρ, ρ * (s.params.boxX * s.params.boxY * s.params.boxZ % 2 ^ 32) < 2 ^ 31 ∧
        Started E measure root s (s.params.boxX * s.params.boxY * s.params.boxZ % 2 ^ 32) ρ := by
  have hvol : ∀ p : Params F, volume p = p.boxX * p.boxY * p.boxZ % 2 ^ 32 := by
    intro p
    unfold volume
    rw [Nat.mod_mul_mod]
  unfold start
  simp only [bind_ok, conf_ok, readUnsigned_ok, refuseIf_ok, getSetting_ok, particleCount_ok, readConfiguration_ok,
    C105_boundary, hvol]
  constructor
  · rintro ⟨p, ⟨hx, hy, hz, hdt, ha, hg, hk, hn⟩, ρ, hρ, -, -, bc, hbc, r, hr, n, ⟨hn1, hn2⟩, o, ho, h⟩
    rw [fluid_ok root n o hdt] at ho
    cases o with
    | none =>
      simp only [bind_ok, refuseIf_ok, soluteSteps_ok, pure_ok] at h
      obtain ⟨-, h0, so, hso, rfl⟩ := h
      exact ⟨ρ, hn1 ▸ hn2, ⟨hx, hy, hz, hdt, ha, hg, hk.1, hk.2, hn, hρ, ⟨bc, hbc, hr⟩,
        fun _ => ⟨ho, by by_contra h; exact h0 h⟩, nofun, hso⟩⟩
    | some f =>
      simp only [bind_ok, refuseIf_ok, soluteSteps_ok, pure_ok] at h
      obtain ⟨-, hm, -, h0, -, h1, so, hso, rfl⟩ := h
      refine ⟨ρ, hn1 ▸ hn2, ⟨hx, hy, hz, hdt, ha, hg, hk.1, hk.2, hn, hρ, ⟨bc, hbc, hr⟩, nofun, ?_, hso⟩⟩
      intro f' n' hf
      cases hf
      exact ⟨ho.1, ho.2.1, ho.2.2.1, h0, hn1, Nat.pos_of_ne_zero h1, hn2, ho.2.2.2, by simpa using hm⟩
  · rintro ⟨ρ, hlt, h⟩
    obtain ⟨hx, hy, hz, hdt, ha, hg, hk1, hk2, hn, hρ, ⟨bc, hbc, hr⟩, hno, hf, hso⟩ := h
    refine ⟨s.params, ⟨hx, hy, hz, hdt, ha, hg, ⟨hk1, hk2⟩, hn⟩, ρ, hρ, (), ?_, bc, hbc, s.shearRate, hr, _,
      ⟨rfl, hlt⟩, s.fluid.map Prod.fst, ?_, ?_⟩
    · exact fun h => h ((has_iff _ _).2 ⟨bc, hbc⟩)
    · rw [fluid_ok root _ _ hdt]
      cases hsf : s.fluid with
      | none => exact (hno hsf).1
      | some q =>
        obtain ⟨f, n⟩ := q
        obtain ⟨h1, h2, h3, h4, h5, h6, h7, h8, h9⟩ := hf f n hsf
        rw [← h5]
        exact ⟨h1, h2, h3, h8⟩
    · cases hsf : s.fluid with
      | none =>
        simp only [Option.map_none, bind_ok, refuseIf_ok, soluteSteps_ok, pure_ok]
        refine ⟨(), fun h => h (hno hsf).2, s.solute, hso, ?_⟩
        cases s
        simp only at hsf
        rw [hsf]
      | some q =>
        obtain ⟨f, n⟩ := q
        obtain ⟨h1, h2, h3, h4, h5, h6, h7, h8, h9⟩ := hf f n hsf
        simp only [Option.map_some, bind_ok, refuseIf_ok, soluteSteps_ok, pure_ok]
        rw [← h5]
        refine ⟨(), by simpa using h9, (), h4, (), by omega, s.solute, hso, ?_⟩
        cases s
        simp only at hsf
        rw [hsf]

/-- **The configured number of particles.** If the box's volume can be represented, a started simulation has as many
particles as the configured density says, in whole molecules. What is missing is the volume being representable, see
`C105_volume_violated`. -/
theorem C105_count_partial (E : Env F) (measure : Fluid F → ℕ → Node F → Bool) (root : Node F) (s : Simulation F)
    (hs : start E measure root = .ok s) (hv : s.params.boxX * s.params.boxY * s.params.boxZ < 2 ^ 32) :
    ∃ ρ, ReadsNat root "initialization.particleDensity".toList ρ ∧
      (∀ f n, s.fluid = some (f, n) → n = ρ * (s.params.boxX * s.params.boxY * s.params.boxZ) ∧ 0 < n ∧
        f.moleculeSize ∣ n) ∧
      (s.fluid = none ↔ ρ = 0) ∧ (s.fluid = none ↔ ¬ Has root "mpc.fluid".toList) := by
  obtain ⟨ρ, -, h⟩ := (C105_starts E measure root s).1 hs
  rw [Nat.mod_eq_of_lt hv] at h
  refine ⟨ρ, h.density, fun f n hf => ?_, ?_, ?_⟩
  · obtain ⟨-, -, -, -, h5, h6, -, h8, -⟩ := h.fluid f n hf
    exact ⟨h5, h6, h8⟩
  · refine ⟨fun hn => (h.noFluid hn).2, fun h0 => ?_⟩
    cases hf : s.fluid with
    | none => rfl
    | some q => exact absurd h0 (h.fluid q.1 q.2 hf).2.2.2.1
  · refine ⟨fun hn => (h.noFluid hn).1, fun h0 => ?_⟩
    cases hf : s.fluid with
    | none => rfl
    | some q => exact absurd (h.fluid q.1 q.2 hf).1 h0

/-- The name of the setting group of a fluid. -/
def Fluid.key : Fluid F → Str
  | .simple => "simple".toList
  | .dumbbells .. => "dumbbell".toList
  | .chains .. => "gaussianChains".toList
  | .rods .. => "gaussianRods".toList
  | .trimers .. => "harmonicTrimers".toList

theorem parts_fluid : parts "mpc.fluid".toList = ["mpc".toList, "fluid".toList] := by decide +kernel
theorem parts_simple : parts "mpc.fluid.simple".toList = ["mpc".toList, "fluid".toList, "simple".toList] := by
  decide +kernel
theorem parts_dumbbell : parts "mpc.fluid.dumbbell".toList = ["mpc".toList, "fluid".toList, "dumbbell".toList] := by
  decide +kernel
theorem parts_chains : parts "mpc.fluid.gaussianChains".toList =
    ["mpc".toList, "fluid".toList, "gaussianChains".toList] := by decide +kernel
theorem parts_rods : parts "mpc.fluid.gaussianRods".toList = ["mpc".toList, "fluid".toList, "gaussianRods".toList] := by
  decide +kernel
theorem parts_trimers : parts "mpc.fluid.harmonicTrimers".toList =
    ["mpc".toList, "fluid".toList, "harmonicTrimers".toList] := by decide +kernel

theorem lookup_append (n : Node F) (a b : List Str) : n.lookup (a ++ b) = (n.lookup a).bind fun m => m.lookup b := by
  induction a generalizing n with
  | nil => rfl
  | cons c cs ih =>
    rw [List.cons_append, Node.lookup, Node.lookup]
    split
    · exact ih n
    · cases h : n.child c with
      | none => rfl
      | some m => exact ih m

/-- A setting below a group with one child can only be that child. -/
theorem only_child {root : Node F} {path : List Str} {name key : Str} {m m' : Node F}
    (h : root.lookup path = some (.group [(name, m)])) (hk : key ≠ [])
    (h' : root.lookup (path ++ [key]) = some m') : name = key := by
  rw [lookup_append, h, Option.bind_some, lookup_cons _ hk] at h'
  by_contra hne
  simp [Node.child, childOf, hne] at h'

/-- **The configured fluid.** If just one fluid is configured, the simulation has that fluid; in particular, it does not
start if the fluid is not known. What is missing are configurations with more than one setting in the fluid's group, see
`C105_unknown_violated`. -/
theorem C105_fluid_partial (E : Env F) (measure : Fluid F → ℕ → Node F → Bool) (root : Node F) (s : Simulation F)
    (hs : start E measure root = .ok s) {name : Str} {m : Node F}
    (h : root.lookup (parts "mpc.fluid".toList) = some (.group [(name, m)])) :
    ∃ f n, s.fluid = some (f, n) ∧ f.key = name ∧ Configured root n f := by
  obtain ⟨ρ, -, hS⟩ := (C105_starts E measure root s).1 hs
  cases hf : s.fluid with
  | none => exact absurd ⟨_, h⟩ (hS.noFluid hf).1
  | some q =>
    obtain ⟨f, n⟩ := q
    have hc := (hS.fluid f n hf).2.1
    refine ⟨f, n, rfl, ?_, hc⟩
    rw [parts_fluid] at h
    cases f with
    | simple =>
      obtain ⟨m', hm⟩ := hc
      rw [parts_simple] at hm
      exact (only_child h (by decide +kernel) hm).symm
    | dumbbells =>
      obtain ⟨m', hm⟩ := hc.2.1
      rw [parts_dumbbell] at hm
      exact (only_child h (by decide +kernel) hm).symm
    | chains =>
      obtain ⟨m', hm⟩ := hc.2.2.1
      rw [parts_chains] at hm
      exact (only_child h (by decide +kernel) hm).symm
    | rods =>
      obtain ⟨m', hm⟩ := hc.2.2.2.1
      rw [parts_rods] at hm
      exact (only_child h (by decide +kernel) hm).symm
    | trimers =>
      obtain ⟨m', hm⟩ := hc.2.2.2.2.1
      rw [parts_trimers] at hm
      exact (only_child h (by decide +kernel) hm).symm

theorem parts_boundary : parts "boundaryConditions".toList = ["boundaryConditions".toList] := by decide +kernel
theorem parts_boundaryShear : parts "boundaryConditions.LeesEdwards.shearRate".toList =
    ["boundaryConditions".toList] ++ ["LeesEdwards".toList, "shearRate".toList] := by decide +kernel
theorem type_ne_LeesEdwards : "type".toList ≠ "LeesEdwards".toList := by decide +kernel
theorem shearRate_ne_LeesEdwards : "shearRate".toList ≠ "LeesEdwards".toList := by decide +kernel

theorem child_two {k k' c : Str} (h : k ≠ c) (h' : k' ≠ c) (m m' : Node F) :
    (Node.group [(k, m), (k', m')]).child c = none := by
  simp [Node.child, childOf, h, h']

/-- The deprecated style of boundary conditions cannot be used with dumbbells. -/
theorem C105_deprecated_violated (E : Env F) (measure : Fluid F → ℕ → Node F → Bool) (root : Node F) (r : F)
    (hb : root.lookup (parts "boundaryConditions".toList) =
      some (.group [("type".toList, .scalar (.string "Lees-Edwards".toList)), ("shearRate".toList, .scalar (.float r))]))
    (hd : ∃ m, root.lookup (parts "mpc.fluid".toList) = some (.group [("dumbbell".toList, m)])) (s : Simulation F) :
    start E measure root ≠ .ok s := by
  intro hs
  obtain ⟨m, hm⟩ := hd
  obtain ⟨f, n, -, hk, hc⟩ := C105_fluid_partial E measure root s hs hm
  cases f with
  | dumbbells l tau kT r' steps =>
    have h := hc.2.2.2.2.2.2.1
    unfold Reads Config.Cpp.read at h
    rw [parts_boundaryShear, lookup_append, ← parts_boundary, hb, Option.bind_some, lookup_cons _ LeesEdwards_ne,
      child_two type_ne_LeesEdwards shearRate_ne_LeesEdwards] at h
    cases h
  | simple => exact absurd hk (by decide +kernel : "simple".toList ≠ "dumbbell".toList)
  | chains => exact absurd hk (by decide +kernel : "gaussianChains".toList ≠ "dumbbell".toList)
  | rods => exact absurd hk (by decide +kernel : "gaussianRods".toList ≠ "dumbbell".toList)
  | trimers => exact absurd hk (by decide +kernel : "harmonicTrimers".toList ≠ "dumbbell".toList)

/-! ## Examples and violations -/

/-- Exact arithmetic; star polymers just have a time step. -/
def exact : Env ℚ where
  zero := 0
  quotient a b := (a / b).floor.toNat
  times a n := a * n
  same a b := a = b
  starPolymers m :=
    match m.read .float "mdTimeStepSize".toList with
    | .ok (.float x) => .ok x
    | _ => .error .other

/-- The current style of boundary conditions. -/
def sheared (r : ℚ) : Node ℚ :=
  .group [("LeesEdwards".toList, .group [("shearRate".toList, .scalar (.float r))])]

/-- The example of the documentation (`doc/mainpage.dox:68-112`), with a given time step, density, box, and fluid, and
additional settings. -/
def sample (timestep : ℚ) (density x y z : ℤ) (boundary : Node ℚ) (fluid : List (Str × Node ℚ)) (more : List (Str × Node ℚ)) : Node ℚ :=
  .group ([
    ("initialization".toList, .group [
      ("particleDensity".toList, .scalar (.int density)),
      ("particleVelocityDistribution".toList, .group [
        ("mean".toList, .scalar (.float 0)), ("standardDeviation".toList, .scalar (.float 1))])]),
    ("mpc".toList, .group [
      ("fluid".toList, .group fluid),
      ("simulationBoxSize".toList, .group [
        ("x".toList, .scalar (.int x)), ("y".toList, .scalar (.int y)), ("z".toList, .scalar (.int z))]),
      ("timestep".toList, .scalar (.float timestep)),
      ("srdCollisionAngle".toList, .scalar (.float (227 / 100))),
      ("warmupSteps".toList, .scalar (.int 1000)), ("sweeps".toList, .scalar (.int 10000)),
      ("sweepSize".toList, .scalar (.int 1)), ("gridShiftScale".toList, .scalar (.float 1))]),
    ("bulkThermostat".toList, .group [
      ("type".toList, .scalar (.string "MBS".toList)), ("targetkT".toList, .scalar (.float 1))]),
    ("boundaryConditions".toList, boundary)] ++ more)

/-- The documented example starts, with the documented number of particles. -/
example : start exact (fun _ _ _ => true)
    (sample (1 / 10) 10 30 30 30 (sheared 0) [("simple".toList, .group [])] []) =
    .ok ⟨⟨30, 30, 30, 1 / 10, 227 / 100, 1, 1, 1⟩, 0, some (.simple, 10 * 30 * 30 * 30), none⟩ := by
  decide +kernel

/-- The volume is computed modulo `2 ^ 32`: in this box, there are fewer than five particles in a thousand cells, instead
of ten in each. -/
theorem C105_volume_violated : ∃ (root : Node ℚ) (s : Simulation ℚ),
    start exact (fun _ _ _ => true) root = .ok s ∧ ReadsNat root "initialization.particleDensity".toList 10 ∧
    s.fluid = some (.simple, 10 * 2 ^ 21) ∧ s.params.boxX * s.params.boxY * s.params.boxZ = 2 ^ 32 + 2 ^ 21 := by
  refine ⟨sample (1 / 10) 10 2049 2048 1024 (sheared 0) [("simple".toList, .group [])] [],
    ⟨⟨2049, 2048, 1024, 1 / 10, 227 / 100, 1, 1, 1⟩, 0, some (.simple, 10 * 2 ^ 21), none⟩, ?_, ?_, ?_, ?_⟩
  · decide +kernel
  · rw [← readUnsigned_ok]
    decide +kernel
  · decide +kernel
  · decide +kernel

/-- A setting that is not known is accepted beside a fluid, and of two fluids, one is taken. -/
theorem C105_unknown_violated :
    (∃ (root : Node ℚ) (s : Simulation ℚ), Has root "mpc.fluid.unknown".toList ∧
      start exact (fun _ _ _ => true) root = .ok s) ∧
    (∃ (root : Node ℚ) (s : Simulation ℚ), Has root "mpc.fluid.gaussianRods".toList ∧
      start exact (fun _ _ _ => true) root = .ok s ∧ s.fluid = some (.simple, 270000)) := by
  refine ⟨⟨sample (1 / 10) 10 30 30 30 (sheared 0) [("unknown".toList, .group []), ("simple".toList, .group [])] [],
    ⟨⟨30, 30, 30, 1 / 10, 227 / 100, 1, 1, 1⟩, 0, some (.simple, 270000), none⟩, ?_, ?_⟩,
    ⟨sample (1 / 10) 10 30 30 30 (sheared 0) [("gaussianRods".toList, .group []), ("simple".toList, .group [])] [],
    ⟨⟨30, 30, 30, 1 / 10, 227 / 100, 1, 1, 1⟩, 0, some (.simple, 270000), none⟩, ?_, ?_, rfl⟩⟩
  · rw [← has_iff]; decide +kernel
  · decide +kernel
  · rw [← has_iff]; decide +kernel
  · decide +kernel

/-- Dumbbells in the example's box. -/
def dumbbellGroup : Node ℚ := .group [
  ("analyticalStreaming".toList, .scalar (.bool true)), ("rootMeanSquareLength".toList, .scalar (.float 1)),
  ("zeroShearRelaxationTime".toList, .scalar (.float 1))]

/-- The hypotheses of `C105_deprecated_violated` can be met. -/
example : (sample (1 / 10) 10 30 30 30
      (.group [("type".toList, .scalar (.string "Lees-Edwards".toList)), ("shearRate".toList, .scalar (.float 1))])
      [("dumbbell".toList, dumbbellGroup)] []).lookup (parts "mpc.fluid".toList) =
    some (.group [("dumbbell".toList, dumbbellGroup)]) := by
  rw [parts_fluid]; rfl

/-- The deprecated style works with other fluids. -/
example : start exact (fun _ _ _ => true)
    (sample (1 / 10) 10 30 30 30
      (.group [("type".toList, .scalar (.string "Lees-Edwards".toList)), ("shearRate".toList, .scalar (.float 1))])
      [("simple".toList, .group [])] []) =
    .ok ⟨⟨30, 30, 30, 1 / 10, 227 / 100, 1, 1, 1⟩, 1, some (.simple, 270000), none⟩ := by
  decide +kernel

/-- Trimers that are to be streamed analytically start, but the first step fails. -/
theorem C105_analytical_violated :
    ∃ (root : Node ℚ) (s : Simulation ℚ) (f : Fluid ℚ) (n : ℕ), start exact (fun _ _ _ => true) root = .ok s ∧
      s.fluid = some (f, n) ∧ f.stream = .error .unimplemented := by
  refine ⟨sample (1 / 10) 10 30 30 30 (sheared 0) [("harmonicTrimers".toList, .group [
      ("springConstant1".toList, .scalar (.float 1)), ("springConstant2".toList, .scalar (.float 1)),
      ("analyticalStreaming".toList, .scalar (.bool true))])] [],
    ⟨⟨30, 30, 30, 1 / 10, 227 / 100, 1, 1, 1⟩, 0, some (.trimers 1 1 none, 270000), none⟩, .trimers 1 1 none, 270000,
    ?_, rfl, rfl⟩
  decide +kernel

/-- All other fluids that start can be streamed. -/
theorem C105_streams_partial (f : Fluid F) (hf : ∀ k1 k2, f ≠ .trimers k1 k2 none) : f.stream = .ok () := by
  cases f with
  | trimers k1 k2 steps =>
    cases steps with
    | none => exact absurd rfl (hf k1 k2)
    | some n => rfl
  | _ => rfl

/-- Chains without time steps start, and never move, whatever the positions and velocities. A negative number of steps
counts as none. -/
theorem C105_no_steps_violated :
    ∃ (root : Node ℚ) (s : Simulation ℚ) (n : ℕ), start exact (fun _ _ _ => true) root = .ok s ∧
      s.fluid = some (.chains 3 1 0, n) ∧
      ∀ (dt : ℚ) (m : Verlet.ChainMem ℚ) (workUnit : ℕ), Verlet.chainThread n 3 1 dt 0 m workUnit = m := by
  refine ⟨sample (1 / 10) 10 30 30 30 (sheared 0) [("gaussianChains".toList, .group [
      ("particlesPerChain".toList, .scalar (.int 3)), ("springConstant".toList, .scalar (.float 1)),
      ("mdStepCount".toList, .scalar (.int (-5)))])] [],
    ⟨⟨30, 30, 30, 1 / 10, 227 / 100, 1, 1, 1⟩, 0, some (.chains 3 1 0, 270000), none⟩, 270000, ?_, rfl, ?_⟩
  · decide +kernel
  · intro dt m w
    unfold Verlet.chainThread
    simp

/-- In exact arithmetic, a solute is accepted exactly if the streaming time step is a multiple of its own. -/
theorem C105_solute_exact {T dt : ℚ} (hdt : 0 < dt) (hT : 0 ≤ T) :
    exact.same (exact.times dt (exact.quotient T dt)) T = true ↔ ∃ k : ℕ, T = k * dt := by
  show decide (dt * ((T / dt).floor.toNat : ℕ) = T) = true ↔ _
  rw [decide_eq_true_eq]
  constructor
  · intro h
    exact ⟨_, by rw [mul_comm]; exact h.symm⟩
  · rintro ⟨k, rfl⟩
    rw [mul_div_cancel_right₀ _ hdt.ne']
    have : ((k : ℚ)).floor = k := by
      have := Rat.floor_intCast (k : ℤ)
      exact_mod_cast this
    rw [this]
    simp [mul_comm]

/-- A simulation's solute is moved by as much time as the fluid, if arithmetic is exact. -/
theorem C105_solute_partial (measure : Fluid ℚ → ℕ → Node ℚ → Bool) (root : Node ℚ) (s : Simulation ℚ)
    (hs : start exact measure root = .ok s) {dt : ℚ} {n : ℕ} (h : s.solute = some (dt, n)) :
    n * dt = s.params.timestep := by
  obtain ⟨ρ, -, hS⟩ := (C105_starts exact measure root s).1 hs
  have hso := hS.solute
  rw [h] at hso
  obtain ⟨m, -, -, rfl, he⟩ := hso
  have : dt * (exact.quotient s.params.timestep dt : ℚ) = s.params.timestep := of_decide_eq_true he
  rw [mul_comm]
  exact this

/-- Rounding to a number with 53 binary digits. -/
def rnd53 (x : ℚ) : ℚ :=
  if x = 0 then 0 else (round (x * 2 ^ (52 - Int.log 2 |x|)) : ℚ) / 2 ^ (52 - Int.log 2 |x|)

/-- The arithmetic of the program. -/
def double : Env ℚ where
  zero := 0
  quotient a b := (rnd53 (a / b)).floor.toNat
  times a n := rnd53 (a * n)
  same a b := a = b
  starPolymers := exact.starPolymers

/-- `0.3` as a floating-point number, and `0.1` three times. -/
example : rnd53 (3 / 10) = 5404319552844595 / 2 ^ 54 ∧ rnd53 (rnd53 (1 / 10) * 3) = 5404319552844596 / 2 ^ 54 := by
  decide +kernel

/-- A streaming time step of `0.3` and a time step of `0.1` for the solute are refused. -/
theorem C105_solute_violated :
    start double (fun _ _ _ => true)
      (sample (rnd53 (3 / 10)) 10 30 30 30 (sheared 0) [("simple".toList, .group [])]
        [("solute".toList, .group [("StarPolymers".toList, .group [
          ("mdTimeStepSize".toList, .scalar (.float (rnd53 (1 / 10))))])])]) =
      .error (.config .invalidConfiguration) := by
  decide +kernel

/-- With exact arithmetic, they are accepted, the solute making three steps for each of the fluid. -/
example :
    start exact (fun _ _ _ => true)
      (sample (3 / 10) 10 30 30 30 (sheared 0) [("simple".toList, .group [])]
        [("solute".toList, .group [("StarPolymers".toList, .group [
          ("mdTimeStepSize".toList, .scalar (.float (1 / 10)))])])]) =
      .ok ⟨⟨30, 30, 30, 3 / 10, 227 / 100, 1, 1, 1⟩, 0, some (.simple, 270000), some (1 / 10, 3)⟩ := by
  decide +kernel

end OpenMPCD.Sim.Startup
