import Verif.Star.Settings
import Verif.Runs.Paths

/-!
# Which measurements are made (C139)

The constructors of the measurements of the fluids (`OpenMPCD::CUDA::MPCFluid::Instrumentation`) and of
`OpenMPCD::CUDA::Instrumentation`: for each kind of fluid and each configuration, which measurements will be made, with
what they have been configured.

Simplifications: memory is modelled in `Verif/Memory/Model.lean`, the measurements themselves in `Verif/Instr`. Of
arithmetic, only the comparison of the duration of the velocity autocorrelation with the number of snapshots is used; it is
a parameter. An `instrumentation` setting that is a list with elements, which have no names, is taken to be refused. The
library is compiled without `OPENMPCD_DEBUG`.
-/

set_option linter.unusedSectionVars false
set_option linter.unusedSimpArgs false
set_option linter.unusedVariables false

namespace OpenMPCD.Sim.Measurements

open Config.Cpp Sim.Startup Star.Settings

variable {F : Type}

/-! ## Model -/

/-- What is used of the arithmetic of floating-point numbers. -/
structure Arith (F : Type) where
  zero : F
  /-- `snapshotCount * timestep > measurementTime - 1e-6` -/
  tooMany : ℕ → F → F → Bool

/-- A histogram that has been set up. -/
structure Hist (F : Type) where
  binCount : ℕ
  low : F
  high : F
  deriving DecidableEq

/-- `Histogram` (`src/OpenMPCD/Histogram.cpp:9-19`). -/
def histogram (root : Node F) (name : Str) : Except StartErr (Hist F) := do
  let n ← conf (readUnsigned root ("instrumentation".toList ++ '.' :: (name ++ '.' :: "binCount".toList)))
  let low ← conf (readFloat root ("instrumentation".toList ++ '.' :: (name ++ '.' :: "low".toList)))
  let high ← conf (readFloat root ("instrumentation".toList ++ '.' :: (name ++ '.' :: "high".toList)))
  return ⟨n, low, high⟩

/-- One of the settings in the `try` block of `isValidConfiguration`
(`src/OpenMPCD/CUDA/MPCFluid/Instrumentation/LogicalEntityMeanSquareDisplacement.cu:76-95`,
`src/OpenMPCD/CUDA/MPCFluid/Instrumentation/NormalModeAutocorrelation.cpp:82-101`). -/
def positive (g : Node F) (name : Str) : Except Err Bool :=
  match getNat g name with
  | .error .invalidConfiguration => .ok false
  | .error e => .error e
  | .ok n => .ok (n ≠ 0)

/-- `isValidConfiguration`
(`src/OpenMPCD/CUDA/MPCFluid/Instrumentation/LogicalEntityMeanSquareDisplacement.cu:67-98`,
`src/OpenMPCD/CUDA/MPCFluid/Instrumentation/NormalModeAutocorrelation.cpp:73-104`); they differ in the name of the number
of arguments. -/
def isValid (g : Node F) (count : Str) : Except StartErr Bool := do
  if !(← conf (g.has "measureEveryNthSweep".toList)) then return false
  else if !(← conf (g.has count)) then return false
  else if !(← conf (positive g "measureEveryNthSweep".toList)) then return false
  else if !(← conf (positive g count)) then return false
  else return true

/-- What both of these constructors read: the number of sweeps between measurements, and the number of arguments
(`src/OpenMPCD/CUDA/MPCFluid/Instrumentation/LogicalEntityMeanSquareDisplacement.cu:34-44`,
`src/OpenMPCD/CUDA/MPCFluid/Instrumentation/NormalModeAutocorrelation.cpp:34-44`). -/
def readCounts (g : Node F) (count : Str) : Except StartErr (ℕ × ℕ) := do
  let valid ← isValid g count
  refuseIf (¬ valid = true) (.config .invalidConfiguration)
  let every ← conf (getNat g "measureEveryNthSweep".toList)
  let n ← conf (getNat g count)
  return (every, n)

/-- `LogicalEntityMeanSquareDisplacement`
(`src/OpenMPCD/CUDA/MPCFluid/Instrumentation/LogicalEntityMeanSquareDisplacement.cu:22-53`). -/
def displacement (root : Node F) : Except StartErr (ℕ × ℕ) := do
  let g ← conf (getSetting root "instrumentation.logicalEntityMeanSquareDisplacement".toList)
  readCounts g "measurementArgumentCount".toList

/-- The part about the shift in `NormalModeAutocorrelation`
(`src/OpenMPCD/CUDA/MPCFluid/Instrumentation/NormalModeAutocorrelation.cpp:28,46-47`). -/
def readShift (A : Arith F) (g : Node F) : Except StartErr F := do
  if (← conf (g.has "shift".toList)) then conf (getFloat g "shift".toList) else return A.zero

/-- `NormalModeAutocorrelation` (`src/OpenMPCD/CUDA/MPCFluid/Instrumentation/NormalModeAutocorrelation.cpp:23-60`). -/
def normalModes (A : Arith F) (root : Node F) : Except StartErr ((ℕ × ℕ) × F) := do
  let g ← conf (getSetting root "instrumentation.normalModeAutocorrelation".toList)
  let counts ← readCounts g "autocorrelationArgumentCount".toList
  let shift ← readShift A g
  return (counts, shift)

/-- One of the vectors of `FourierTransformedVelocity::Base::readConfig`
(`src/OpenMPCD/CUDA/MPCFluid/Instrumentation/FourierTransformedVelocity/Base.cpp:52-60`). -/
def waveVector (l : Node F) (i : ℕ) : Except StartErr (F × F × F) := do
  let current ← conf (l.getListAt i)
  let x ← conf (floatAt current 0)
  let y ← conf (floatAt current 1)
  let z ← conf (floatAt current 2)
  return (x, y, z)

/-- `FourierTransformedVelocity::Base::readConfig`
(`src/OpenMPCD/CUDA/MPCFluid/Instrumentation/FourierTransformedVelocity/Base.cpp:44-64`). -/
def fourier (root : Node F) : Except StartErr (List (F × F × F)) := do
  let l ← conf (getList root "instrumentation.fourierTransformedVelocity.k_n".toList)
  (List.range l.elements.length).mapM (waveVector l)

/-- `VelocityAutocorrelation::Base::readConfig`
(`src/OpenMPCD/CUDA/MPCFluid/Instrumentation/VelocityAutocorrelation/Base.cu:86-111`); the time step is that of the
simulation (`src/OpenMPCD/CUDA/Simulation.cu:104`). -/
def autocorrelation (A : Arith F) (root : Node F) : Except StartErr (F × ℕ) := do
  let time ← conf (readFloat root "instrumentation.velocityAutocorrelation.measurementTime".toList)
  let snapshots ← conf (readUnsigned root "instrumentation.velocityAutocorrelation.snapshotCount".toList)
  refuseIf (snapshots = 0) (.config .invalidConfiguration)
  let timestep ← conf (readFloat root "mpc.timestep".toList)
  refuseIf (A.tooMany snapshots timestep time = true) (.config .invalidConfiguration)
  return (time, snapshots)

/-- `if(isConfigured(…)) member = new …;`
(`include/OpenMPCD/CUDA/MPCFluid/Instrumentation/Base.hpp:54-64`,
`src/OpenMPCD/CUDA/MPCFluid/Instrumentation/Simple.cu:14-18`,
`src/OpenMPCD/CUDA/MPCFluid/Instrumentation/GaussianChains.cpp:16-30`). -/
def ifHas {α : Type} (root : Node F) (name : Str) (make : Except StartErr α) : Except StartErr (Option α) :=
  if has root name then make.map some else .ok none

/-- The histograms of dumbbells (`src/OpenMPCD/CUDA/MPCFluid/Instrumentation/GaussianDumbbells.cpp:13-27`). -/
def dumbbellHistograms : List Str := [
  "dumbbellBondLengthHistogram".toList, "dumbbellBondLengthSquaredHistogram".toList,
  "dumbbellBondXHistogram".toList, "dumbbellBondYHistogram".toList, "dumbbellBondZHistogram".toList,
  "dumbbellBondXXHistogram".toList, "dumbbellBondYYHistogram".toList, "dumbbellBondZZHistogram".toList,
  "dumbbellBondXYHistogram".toList,
  "dumbbellBondAngleWithFlowDirectionHistogram".toList, "dumbbellBondXYAngleWithFlowDirectionHistogram".toList]

/-- The histogram of rods (`src/OpenMPCD/CUDA/MPCFluid/Instrumentation/GaussianRods.cpp:13`). -/
def rodHistograms : List Str := ["gaussianRods.bondLengthHistogram".toList]

/-- The histograms of trimers (`src/OpenMPCD/CUDA/MPCFluid/Instrumentation/HarmonicTrimers.cpp:15-34`). -/
def trimerHistograms : List Str := [
  "harmonicTrimers.bond1LengthHistogram".toList, "harmonicTrimers.bond2LengthHistogram".toList,
  "harmonicTrimers.bond1LengthSquaredHistogram".toList, "harmonicTrimers.bond2LengthSquaredHistogram".toList,
  "harmonicTrimers.bond1XXHistogram".toList, "harmonicTrimers.bond2XXHistogram".toList,
  "harmonicTrimers.bond1YYHistogram".toList, "harmonicTrimers.bond2YYHistogram".toList,
  "harmonicTrimers.bond1ZZHistogram".toList, "harmonicTrimers.bond2ZZHistogram".toList,
  "harmonicTrimers.bond1XYHistogram".toList, "harmonicTrimers.bond2XYHistogram".toList,
  "harmonicTrimers.bond1XYAngleWithFlowDirectionHistogram".toList,
  "harmonicTrimers.bond2XYAngleWithFlowDirectionHistogram".toList]

/-- The measurements of a fluid. -/
structure Measured (F : Type) where
  /-- Mean square displacements: sweeps between measurements, and number of arguments. -/
  displacement : Option (ℕ × ℕ)
  /-- Normal modes: likewise, and the shift. -/
  normalModes : Option ((ℕ × ℕ) × F)
  /-- Fourier transformed velocities: the vectors. -/
  fourier : Option (List (F × F × F))
  /-- Velocity autocorrelation: the duration and the number of snapshots. -/
  autocorrelation : Option (F × ℕ)
  histograms : List (Str × Hist F)
  /-- Self-diffusion coefficient: the duration. -/
  selfDiffusion : Option F
  /-- Squared lengths of the bonds: their number. -/
  bonds : Option ℕ
  deriving DecidableEq

/-- A number of histograms, one after another. -/
def histograms (root : Node F) (names : List Str) : Except StartErr (List (Str × Hist F)) :=
  names.mapM fun name => (histogram root name).map (Prod.mk name)

/-- The lengths of bonds in chains (`src/OpenMPCD/CUDA/MPCFluid/Instrumentation/GaussianChains.cpp:33-45`). -/
def bonds (chainLength : ℕ) : Except StartErr ℕ := do
  refuseIf (chainLength < 2) (.config .exception)
  return chainLength - 1

/-- The constructors of the measurements of fluids: `Base` (`include/OpenMPCD/CUDA/MPCFluid/Instrumentation/Base.hpp:46-65`)
followed by those of the kind of fluid (in `src/OpenMPCD/CUDA/MPCFluid/Instrumentation`: `Simple.cu:9-19`,
`GaussianDumbbells.cpp:8-31`, `GaussianChains.cpp:8-46`, `GaussianRods.cpp:8-17`, `HarmonicTrimers.cpp:9-44`). -/
def measure (A : Arith F) (f : Fluid F) (root : Node F) : Except StartErr (Measured F) := do
  let d ← ifHas root "instrumentation.logicalEntityMeanSquareDisplacement".toList (displacement root)
  let m ← ifHas root "instrumentation.normalModeAutocorrelation".toList (normalModes A root)
  match f with
  | .simple => do
    let t ← ifHas root "instrumentation.fourierTransformedVelocity".toList (fourier root)
    let v ← ifHas root "instrumentation.velocityAutocorrelation".toList (autocorrelation A root)
    return ⟨d, m, t, v, [], none, none⟩
  | .chains n _ _ => do
    let t ← ifHas root "instrumentation.fourierTransformedVelocity".toList (fourier root)
    let v ← ifHas root "instrumentation.velocityAutocorrelation".toList (autocorrelation A root)
    let b ← ifHas root "instrumentation.gaussianChains.squaredBondLengths".toList (bonds n)
    return ⟨d, m, t, v, [], none, b⟩
  | .dumbbells .. => do
    let h ← histograms root dumbbellHistograms
    let t ← fourier root
    let v ← autocorrelation A root
    return ⟨d, m, some t, some v, h, none, none⟩
  | .rods .. => do
    let h ← histograms root rodHistograms
    let t ← fourier root
    let v ← autocorrelation A root
    return ⟨d, m, some t, some v, h, none, none⟩
  | .trimers .. => do
    let h ← histograms root trimerHistograms
    let s ← conf (readFloat root "instrumentation.selfDiffusionCoefficient.measurementTime".toList)
    let t ← fourier root
    let v ← autocorrelation A root
    return ⟨d, m, some t, some v, h, some s, none⟩

/-- The settings that are known (`src/OpenMPCD/CUDA/Instrumentation.cpp:37-60`). -/
def knownSettings : List Str := [
  "velocityMagnitudeHistogram".toList, "densityProfile".toList, "flowProfile".toList,
  "dumbbellBondLengthHistogram".toList, "dumbbellBondLengthSquaredHistogram".toList,
  "dumbbellBondXHistogram".toList, "dumbbellBondYHistogram".toList, "dumbbellBondZHistogram".toList,
  "dumbbellBondXXHistogram".toList, "dumbbellBondYYHistogram".toList, "dumbbellBondZZHistogram".toList,
  "dumbbellBondXYHistogram".toList,
  "dumbbellBondAngleWithFlowDirectionHistogram".toList, "dumbbellBondXYAngleWithFlowDirectionHistogram".toList,
  "fourierTransformedVelocity".toList, "gaussianChains".toList, "gaussianRods".toList, "harmonicTrimers".toList,
  "logicalEntityMeanSquareDisplacement".toList, "normalModeAutocorrelation".toList, "selfDiffusionCoefficient".toList,
  "velocityAutocorrelation".toList]

/-- `childrenHaveNamesInCollection` (`src/OpenMPCD/Configuration.cpp:12-27`), for any setting. -/
def known : Node F → Bool
  | .group l => (namesIn (fun k => knownSettings.contains k) l).1
  | .list l => l.isEmpty
  | .array l => l.isEmpty
  | .scalar _ => true

/-- The numbers of subdivisions of the cells (`src/OpenMPCD/DensityProfile.cpp:15,24-29`,
`src/OpenMPCD/FlowProfile.cpp:21,31-36`). -/
def readSubdivisions (g : Node F) : Except StartErr (ℕ × ℕ × ℕ) := do
  if (← conf (g.has "cellSubdivision".toList)) then do
    let x ← conf (getNat g "cellSubdivision.x".toList)
    let y ← conf (getNat g "cellSubdivision.y".toList)
    let z ← conf (getNat g "cellSubdivision.z".toList)
    return (x, y, z)
  else return (1, 1, 1)

/-- The check of the numbers of subdivisions (`src/OpenMPCD/DensityProfile.cpp:31-36`, `src/OpenMPCD/FlowProfile.cpp:42-47`). -/
def checkSubdivisions (s : ℕ × ℕ × ℕ) : Except StartErr Unit := do
  refuseIf (s.1 = 0) (.config .invalidConfiguration)
  refuseIf (s.2.1 = 0) (.config .invalidConfiguration)
  refuseIf (s.2.2 = 0) (.config .invalidConfiguration)

/-- `DensityProfile` (`src/OpenMPCD/DensityProfile.cpp:9-45`): the numbers of subdivisions. -/
def densityProfile (g : Node F) : Except StartErr (ℕ × ℕ × ℕ) := do
  let s ← readSubdivisions g
  checkSubdivisions s
  return s

/-- The number of sweeps in a block of the flow profile (`src/OpenMPCD/FlowProfile.cpp:22,38-39`). -/
def readSweeps (g : Node F) : Except StartErr ℕ := do
  if (← conf (g.has "sweepCountPerOutput".toList)) then conf (getNat g "sweepCountPerOutput".toList) else return 0

/-- `FlowProfile` (`src/OpenMPCD/FlowProfile.cpp:12-48`): the numbers of subdivisions, and of sweeps in a block. -/
def flowProfile (g : Node F) : Except StartErr ((ℕ × ℕ × ℕ) × ℕ) := do
  let s ← readSubdivisions g
  let n ← readSweeps g
  checkSubdivisions s
  return (s, n)

/-- The measurements that do not depend on the kind of fluid. -/
structure Profiles (F : Type) where
  velocityMagnitude : Option (Hist F)
  density : Option (ℕ × ℕ × ℕ)
  flow : Option ((ℕ × ℕ × ℕ) × ℕ)
  deriving DecidableEq

/-- `if(setting.has(…)) member.reset(new …);` (`src/OpenMPCD/CUDA/Instrumentation.cpp:77-101`). -/
def ifChild {α : Type} (g : Node F) (name : Str) (make : Except StartErr α) : Except StartErr (Option α) := do
  if (← conf (g.has name)) then make.map some else return none

/-- `CUDA::Instrumentation` (`src/OpenMPCD/CUDA/Instrumentation.cpp:18-102`). -/
def instrumentation (root : Node F) (hasFluid : Bool) : Except StartErr (Profiles F) :=
  if !has root "instrumentation".toList then .ok ⟨none, none, none⟩
  else do
    let g ← conf (getSetting root "instrumentation".toList)
    refuseIf (¬ known g = true) (.config .invalidConfiguration)
    if !hasFluid then return ⟨none, none, none⟩
    else do
      let v ← ifChild g "velocityMagnitudeHistogram".toList (histogram root "velocityMagnitudeHistogram".toList)
      let d ← ifChild g "densityProfile".toList
        (conf (g.getSetting "densityProfile".toList) >>= densityProfile)
      let w ← ifChild g "flowProfile".toList (conf (g.getSetting "flowProfile".toList) >>= flowProfile)
      return ⟨v, d, w⟩

/-! ## Specification -/

/-- A list or an array. -/
def _root_.OpenMPCD.Config.Cpp.Node.isList : Node F → Prop
  | .list _ => True
  | .array _ => True
  | _ => False

/-- A path in the group with the measurements. -/
def inGroup (names : List String) : List Str := "instrumentation".toList :: names.map String.toList

/-- A measurement is made if and only if there is a setting for it, and as configured. -/
def IfConfigured {α : Type} (root : Node F) (path : List Str) (is : α → Prop) : Option α → Prop
  | some a => Star.Settings.Has root path ∧ is a
  | none => ¬ Star.Settings.Has root path

/-- The settings of a histogram. -/
def HistogramIs (root : Node F) (path : List Str) (h : Hist F) : Prop :=
  IsCount root (path ++ ["binCount".toList]) h.binCount ∧ IsFloat root (path ++ ["low".toList]) h.low ∧
  IsFloat root (path ++ ["high".toList]) h.high

/-- The histograms that can be measured with a kind of fluid, with the paths of their settings. -/
def histogramsOf : Fluid F → List (Str × List Str)
  | .simple => []
  | .chains .. => []
  | .dumbbells .. => ["Length", "LengthSquared", "X", "Y", "Z", "XX", "YY", "ZZ", "XY", "AngleWithFlowDirection",
      "XYAngleWithFlowDirection"].map fun (s : String) =>
        ("dumbbellBond".toList ++ s.toList ++ "Histogram".toList,
          ["instrumentation".toList, "dumbbellBond".toList ++ s.toList ++ "Histogram".toList])
  | .rods .. => [("gaussianRods.bondLengthHistogram".toList, inGroup ["gaussianRods", "bondLengthHistogram"])]
  | .trimers .. => ["Length", "LengthSquared", "XX", "YY", "ZZ", "XY", "XYAngleWithFlowDirection"].flatMap
      fun (s : String) => ["bond1", "bond2"].map fun (b : String) =>
        ("harmonicTrimers.".toList ++ b.toList ++ s.toList ++ "Histogram".toList,
          ["instrumentation".toList, "harmonicTrimers".toList, b.toList ++ s.toList ++ "Histogram".toList])

/-- The two positive numbers of a measurement that is made every so many sweeps. -/
def CountsAre (root : Node F) (path : List Str) (count : String) (c : ℕ × ℕ) : Prop :=
  IsCount root (path ++ ["measureEveryNthSweep".toList]) c.1 ∧ IsCount root (path ++ [count.toList]) c.2 ∧ 0 < c.1 ∧ 0 < c.2

/-- A list of lists, each of which starts with three numbers: these vectors. -/
def VectorsAre (root : Node F) (path : List Str) (vs : List (F × F × F)) : Prop :=
  ∃ l, At root path l ∧ l.isList ∧ List.Forall₂ (fun e v => Node.isList e ∧ ∃ rest, e.elements =
    .scalar (.float v.1) :: .scalar (.float v.2.1) :: .scalar (.float v.2.2) :: rest) l.elements vs

/-- Every measurement that can be made with the kind of fluid is made if and only if it is configured, and as it is
configured. -/
structure Configured (A : Arith F) (f : Fluid F) (root : Node F) (m : Measured F) : Prop where
  displacement : IfConfigured root (inGroup ["logicalEntityMeanSquareDisplacement"])
    (CountsAre root (inGroup ["logicalEntityMeanSquareDisplacement"]) "measurementArgumentCount") m.displacement
  normalModes : IfConfigured root (inGroup ["normalModeAutocorrelation"])
    (fun c => CountsAre root (inGroup ["normalModeAutocorrelation"]) "autocorrelationArgumentCount" c.1 ∧
      Optional root (inGroup ["normalModeAutocorrelation", "shift"]) A.zero
        (IsFloat root (inGroup ["normalModeAutocorrelation", "shift"])) c.2) m.normalModes
  fourier : IfConfigured root (inGroup ["fourierTransformedVelocity"])
    (VectorsAre root (inGroup ["fourierTransformedVelocity", "k_n"])) m.fourier
  autocorrelation : IfConfigured root (inGroup ["velocityAutocorrelation"])
    (fun c => IsFloat root (inGroup ["velocityAutocorrelation", "measurementTime"]) c.1 ∧
      IsCount root (inGroup ["velocityAutocorrelation", "snapshotCount"]) c.2 ∧ 0 < c.2 ∧
      ∃ dt, IsFloat root ["mpc".toList, "timestep".toList] dt ∧ A.tooMany c.2 dt c.1 = false) m.autocorrelation
  /-- In the order of the kinds of histograms, none of them twice. -/
  order : (m.histograms.map Prod.fst).Sublist ((histogramsOf f).map Prod.fst)
  histograms : ∀ h ∈ histogramsOf f,
    Star.Settings.Has root h.2 ∧ (∃ x, (h.1, x) ∈ m.histograms ∧ HistogramIs root h.2 x) ∨
    ¬ Star.Settings.Has root h.2 ∧ ∀ x, (h.1, x) ∉ m.histograms
  selfDiffusion : (∃ k1 k2 n, f = .trimers k1 k2 n) ∧ IfConfigured root (inGroup ["selfDiffusionCoefficient"])
      (IsFloat root (inGroup ["selfDiffusionCoefficient", "measurementTime"])) m.selfDiffusion ∨
    (¬ ∃ k1 k2 n, f = .trimers k1 k2 n) ∧ m.selfDiffusion = none
  bonds : (∃ n k s, f = .chains n k s ∧ IfConfigured root (inGroup ["gaussianChains", "squaredBondLengths"])
      (fun b => b + 1 = n ∧ 0 < b) m.bonds) ∨
    (¬ ∃ n k s, f = .chains n k s) ∧ m.bonds = none

/-- Fluids for which all measurements are optional. -/
def Plain : Fluid F → Prop
  | .simple => True
  | .chains .. => True
  | _ => False

/-- Everything that can be measured with this kind of fluid, but for displacements and normal modes, is configured. -/
structure Complete (f : Fluid F) (root : Node F) : Prop where
  fourier : Star.Settings.Has root (inGroup ["fourierTransformedVelocity"])
  autocorrelation : Star.Settings.Has root (inGroup ["velocityAutocorrelation"])
  histograms : ∀ h ∈ histogramsOf f, Star.Settings.Has root h.2
  selfDiffusion : ∀ k1 k2 n, f = .trimers k1 k2 n → Star.Settings.Has root (inGroup ["selfDiffusionCoefficient"])

/-- The names of everything that can be measured. -/
def measurementNames : List Str :=
  ["velocityMagnitudeHistogram", "densityProfile", "flowProfile", "logicalEntityMeanSquareDisplacement",
    "normalModeAutocorrelation", "fourierTransformedVelocity", "velocityAutocorrelation", "selfDiffusionCoefficient",
    "gaussianChains"].map String.toList ++
  (histogramsOf (.dumbbells () () () () none) ++ histogramsOf (.rods () () 0) ++
    histogramsOf (.trimers () () none)).map fun h => h.2.getD 1 []

/-- A group has no other names than these. -/
def OnlyKnown : Node F → Prop
  | .group l => ∀ c ∈ l, c.1 ∈ measurementNames
  | .list l => l = []
  | .array l => l = []
  | .scalar _ => True

/-- The numbers of subdivisions of a profile's cells: one each, if they are not configured. -/
def SubdivisionsAre (root : Node F) (path : List Str) (s : ℕ × ℕ × ℕ) : Prop :=
  Optional root (path ++ ["cellSubdivision".toList]) (1, 1, 1)
    (fun s => IsCount root (path ++ ["cellSubdivision".toList, "x".toList]) s.1 ∧
      IsCount root (path ++ ["cellSubdivision".toList, "y".toList]) s.2.1 ∧
      IsCount root (path ++ ["cellSubdivision".toList, "z".toList]) s.2.2) s ∧
  0 < s.1 ∧ 0 < s.2.1 ∧ 0 < s.2.2

/-- The profiles that are measured are those that are configured, as they are configured. -/
structure ProfilesConfigured (root : Node F) (p : Profiles F) : Prop where
  velocityMagnitude : IfConfigured root (inGroup ["velocityMagnitudeHistogram"])
    (HistogramIs root (inGroup ["velocityMagnitudeHistogram"])) p.velocityMagnitude
  density : IfConfigured root (inGroup ["densityProfile"]) (SubdivisionsAre root (inGroup ["densityProfile"])) p.density
  flow : IfConfigured root (inGroup ["flowProfile"])
    (fun c => SubdivisionsAre root (inGroup ["flowProfile"]) c.1 ∧
      Optional root (inGroup ["flowProfile", "sweepCountPerOutput"]) 0
        (IsCount root (inGroup ["flowProfile", "sweepCountPerOutput"])) c.2) p.flow

/-! ## Proofs -/

theorem At_append (n : Node F) (p q : List Str) (m : Node F) : At n (p ++ q) m ↔ ∃ k, At n p k ∧ At k q m := by
  induction p generalizing n with
  | nil => exact ⟨fun h => ⟨n, rfl, h⟩, fun ⟨k, h, h'⟩ => by cases (show n = k from h); exact h'⟩
  | cons c cs ih =>
    constructor
    · rintro ⟨j, hj, h⟩
      obtain ⟨k, hk, hm⟩ := (ih j).1 h
      exact ⟨k, ⟨j, hj, hk⟩, hm⟩
    · rintro ⟨k, ⟨j, hj, hk⟩, hm⟩
      exact ⟨j, hj, (ih j).2 ⟨k, hk, hm⟩⟩

theorem has_prefix {n : Node F} {p q : List Str} (h : Star.Settings.Has n (p ++ q)) : Star.Settings.Has n p := by
  obtain ⟨m, h⟩ := h
  obtain ⟨k, hk, _⟩ := (At_append n p q m).1 h
  exact ⟨k, hk⟩

section Root

variable {name : Str} {path : List Str}

theorem rootHas (e : parts name = path) (hp : Proper path) (root : Node F) :
    has root name = true ↔ Star.Settings.Has root path := by
  rw [has_iff, Startup.Has, Star.Settings.Has, e]
  simp only [lookup_ok hp]

theorem rootReads (e : parts name = path) (hp : Proper path) (root : Node F) (v : Value F) :
    Reads root name v ↔ At root path (.scalar v) := by
  rw [Reads, Config.Cpp.read, e, ← lookup_ok hp]
  cases root.lookup path with
  | none => simp
  | some m =>
    cases m with
    | scalar w =>
      simp only [Node.asKind, Option.some.injEq, Node.scalar.injEq]
      by_cases h : w.kind = v.kind
      · rw [if_pos h]; simp
      · rw [if_neg h]
        exact ⟨nofun, fun hh => absurd (hh ▸ rfl) h⟩
    | _ => simp [Node.asKind]

theorem rootFloat (e : parts name = path) (hp : Proper path) (root : Node F) (x : F) :
    conf (readFloat root name) = .ok x ↔ IsFloat root path x := by
  rw [conf_ok, readFloat_ok, rootReads e hp, IsFloat]

theorem rootNat (e : parts name = path) (hp : Proper path) (root : Node F) (x : ℕ) :
    conf (readUnsigned root name) = .ok x ↔ IsCount root path x := by
  rw [conf_ok, readUnsigned_ok, ReadsNat, IsCount]
  simp only [rootReads e hp]

theorem rootSetting (e : parts name = path) (hp : Proper path) (root : Node F) (m : Node F) :
    conf (Config.Cpp.getSetting root name) = .ok m ↔ At root path m := by
  rw [conf_ok, Startup.getSetting_ok, e, lookup_ok hp]

theorem rootList (e : parts name = path) (hp : Proper path) (root : Node F) (m : Node F) :
    conf (getList root name) = .ok m ↔ At root path m ∧ m.isList := by
  rw [conf_ok, getList, e, ← lookup_ok hp]
  cases root.lookup path with
  | none => simp
  | some k =>
    cases k <;> simp [Node.isList]
    all_goals exact fun h => by rw [← h]; simp

end Root


theorem mapM_ok {α β : Type} (f : α → Except StartErr β) (l : List α) (r : List β) :
    l.mapM f = .ok r ↔ List.Forall₂ (fun a b => f a = .ok b) l r := by
  induction l generalizing r with
  | nil =>
    rw [List.mapM_nil, pure_ok]
    exact ⟨fun h => h ▸ .nil, fun h => by cases h; rfl⟩
  | cons a l ih =>
    rw [List.mapM_cons]
    simp only [bind_ok, pure_ok, ih]
    constructor
    · rintro ⟨b, hb, bs, hbs, rfl⟩
      exact .cons hb hbs
    · intro h
      cases h with
      | cons hb hbs => exact ⟨_, hb, _, hbs, rfl⟩

theorem parts_under (name field : Str) (hf : '.' ∉ field) :
    parts ("instrumentation".toList ++ '.' :: (name ++ '.' :: field)) = "instrumentation".toList :: (parts name ++ [field]) := by
  unfold parts
  rw [splitChar_append_cons (by decide +kernel), Runs.splitChar_append, splitChar_of_notMem hf]

theorem proper_under {path : List Str} (hp : Proper path) {field : Str} (hf : field ≠ []) :
    Proper (path ++ [field]) := by
  intro c hc
  rcases List.mem_append.1 hc with h | h
  · exact hp c h
  · rw [List.mem_singleton.1 h]; exact hf

theorem histogram_ok (root : Node F) (name : Str) (path : List Str) (e : "instrumentation".toList :: parts name = path)
    (hp : Proper path) (h : Hist F) : histogram root name = .ok h ↔ HistogramIs root path h := by
  have e' : ∀ field : Str, '.' ∉ field → parts ("instrumentation".toList ++ '.' :: (name ++ '.' :: field)) = path ++ [field] := by
    intro field hf
    rw [parts_under name field hf, ← e, List.cons_append]
  unfold histogram HistogramIs
  simp only [bind_ok, pure_ok,
    rootNat (e' "binCount".toList (by decide +kernel)) (proper_under hp (by decide +kernel)),
    rootFloat (e' "low".toList (by decide +kernel)) (proper_under hp (by decide +kernel)),
    rootFloat (e' "high".toList (by decide +kernel)) (proper_under hp (by decide +kernel))]
  constructor
  · rintro ⟨n, hn, l, hl, u, hu, rfl⟩
    exact ⟨hn, hl, hu⟩
  · rintro ⟨hn, hl, hu⟩
    exact ⟨_, hn, _, hl, _, hu, rfl⟩

theorem histograms_ok (root : Node F) (hs : List (Str × List Str))
    (e : ∀ h ∈ hs, "instrumentation".toList :: parts h.1 = h.2 ∧ Proper h.2) (r : List (Str × Hist F)) :
    histograms root (hs.map Prod.fst) = .ok r ↔
      List.Forall₂ (fun h p => p.1 = h.1 ∧ HistogramIs root h.2 p.2) hs r := by
  unfold histograms
  rw [mapM_ok, List.forall₂_map_left_iff]
  refine ⟨fun h => ?_, fun h => ?_⟩
  · induction h with
    | nil => exact .nil
    | @cons a b l r hab hr ih =>
      refine .cons ?_ (ih fun h hh => e h (List.mem_cons_of_mem _ hh))
      obtain ⟨x, hx, rfl⟩ := (map_ok _ _ _).1 hab
      exact ⟨rfl, (histogram_ok root a.1 a.2 (e a (by simp)).1 (e a (by simp)).2 x).1 hx⟩
  · induction h with
    | nil => exact .nil
    | @cons a b l r hab hr ih =>
      refine .cons ?_ (ih fun h hh => e h (List.mem_cons_of_mem _ hh))
      refine (map_ok _ _ _).2 ⟨b.2, (histogram_ok root a.1 a.2 (e a (by simp)).1 (e a (by simp)).2 b.2).2 hab.2, ?_⟩
      rw [← hab.1]

/-- Histograms that are all made. -/
theorem all_made (root : Node F) (hs : List (Str × List Str)) (hn : (hs.map Prod.fst).Nodup) (r : List (Str × Hist F)) :
    List.Forall₂ (fun h p => p.1 = h.1 ∧ HistogramIs root h.2 p.2) hs r ↔
      (r.map Prod.fst).Sublist (hs.map Prod.fst) ∧
      (∀ h ∈ hs, Star.Settings.Has root h.2 ∧ (∃ x, (h.1, x) ∈ r ∧ HistogramIs root h.2 x) ∨
        ¬ Star.Settings.Has root h.2 ∧ ∀ x, (h.1, x) ∉ r) ∧
      ∀ h ∈ hs, Star.Settings.Has root h.2 := by
  constructor
  · intro h
    have hnames : r.map Prod.fst = hs.map Prod.fst := by
      clear hn
      induction h with
      | nil => rfl
      | cons hab _ ih => rw [List.map_cons, List.map_cons, ih, hab.1]
    have hall : ∀ h ∈ hs, Star.Settings.Has root h.2 ∧ ∃ x, (h.1, x) ∈ r ∧ HistogramIs root h.2 x := by
      clear hnames hn
      induction h with
      | nil => exact nofun
      | @cons a b l r hab _ ih =>
        intro h hh
        rcases List.mem_cons.1 hh with rfl | hh
        · obtain ⟨i, hi, _⟩ := hab.2.1
          exact ⟨has_prefix ⟨_, hi⟩, b.2, by rw [← hab.1]; simp, hab.2⟩
        · obtain ⟨h1, x, hx, h2⟩ := ih h hh
          exact ⟨h1, x, List.mem_cons_of_mem _ hx, h2⟩
    exact ⟨by rw [hnames], fun h hh => .inl (hall h hh), fun h hh => (hall h hh).1⟩
  · rintro ⟨hsub, hmade, hhas⟩
    have hall : ∀ h ∈ hs, ∃ x, (h.1, x) ∈ r ∧ HistogramIs root h.2 x := by
      intro h hh
      rcases hmade h hh with h' | h'
      · exact h'.2
      · exact absurd (hhas h hh) h'.1
    have hnames : r.map Prod.fst = hs.map Prod.fst := by
      refine hsub.eq_of_length_le ?_
      refine (hn.subperm fun k hk => ?_).length_le
      obtain ⟨h, hh, rfl⟩ := List.mem_map.1 hk
      obtain ⟨x, hx, _⟩ := hall h hh
      exact List.mem_map.2 ⟨_, hx, rfl⟩
    clear hsub hmade hhas
    induction hs generalizing r with
    | nil =>
      rw [List.map_nil, List.map_eq_nil_iff] at hnames
      rw [hnames]; exact .nil
    | cons a l ih =>
      cases r with
      | nil => cases hnames
      | cons b r =>
        rw [List.map_cons, List.map_cons, List.cons.injEq] at hnames
        rw [List.map_cons, List.nodup_cons] at hn
        refine .cons ⟨hnames.1, ?_⟩ (ih hn.2 r (fun h hh => ?_) hnames.2)
        · obtain ⟨x, hx, h'⟩ := hall a (by simp)
          rcases List.mem_cons.1 hx with hx | hx
          · rw [← hx]; exact h'
          · exact absurd (hnames.2 ▸ List.mem_map.2 ⟨_, hx, rfl⟩) hn.1
        · obtain ⟨x, hx, h'⟩ := hall h (List.mem_cons_of_mem _ hh)
          rcases List.mem_cons.1 hx with hx | hx
          · refine absurd (List.mem_map.2 ⟨h, hh, ?_⟩) hn.1
            rw [← hnames.1, ← hx]
          · exact ⟨x, hx, h'⟩

theorem positive_ok (g : Node F) (name : Str) (path : List Str) (e : parts name = path) (hp : Proper path) :
    conf (positive g name) = .ok true ↔ ∃ n, IsCount g path n ∧ 0 < n := by
  simp only [← getNat_ok e hp, conf_ok]
  unfold positive
  cases h : getNat g name with
  | error err => cases err <;> simp
  | ok n => simp [Nat.pos_iff_ne_zero]

theorem count_has {g : Node F} {path : List Str} {n : ℕ} (h : IsCount g path n) : Star.Settings.Has g path := by
  obtain ⟨i, hi, _⟩ := h
  exact ⟨_, hi⟩

theorem count_unique {g : Node F} {path : List Str} {n n' : ℕ} (h : IsCount g path n) (h' : IsCount g path n') : n = n' := by
  obtain ⟨i, hi, rfl⟩ := h
  obtain ⟨j, hj, rfl⟩ := h'
  cases At_unique hi hj
  rfl

theorem parts_every : parts "measureEveryNthSweep".toList = ["measureEveryNthSweep".toList] := by decide +kernel
theorem proper_every : Proper ["measureEveryNthSweep".toList] := by decide +kernel

theorem ite_ok {α : Type} (b : Bool) (x y : Except StartErr α) (a : α) :
    (if b = true then x else y) = .ok a ↔ b = true ∧ x = .ok a ∨ b = false ∧ y = .ok a := by
  cases b <;> simp

theorem ite_false_ok {α : Type} (b : Bool) (x y : Except StartErr α) (a : α) :
    (if b = false then x else y) = .ok a ↔ b = false ∧ x = .ok a ∨ b = true ∧ y = .ok a := by
  cases b <;> simp

theorem isValid_ok (g : Node F) (count : Str) (e : parts count = [count]) (hp : Proper [count]) :
    isValid g count = .ok true ↔ ∃ a b, IsCount g ["measureEveryNthSweep".toList] a ∧ IsCount g [count] b ∧ 0 < a ∧ 0 < b := by
  unfold isValid
  generalize hev : "measureEveryNthSweep".toList = ev
  have e1 := parts_every
  have hp1 := proper_every
  rw [hev] at e1 hp1
  simp only [Bool.not_eq_true', bind_ok, ite_false_ok, has_ok e1 hp1, has_ok e hp, pure_ok]
  constructor
  · rintro ⟨b1, h1, ⟨-, h⟩ | ⟨hb1, b2, h2, ⟨-, h⟩ | ⟨hb2, b3, h3, ⟨-, h⟩ | ⟨hb3, b4, h4, ⟨-, h⟩ | ⟨hb4, -⟩⟩⟩⟩⟩
    · cases h
    · cases h
    · cases h
    · cases h
    · rw [hb3] at h3
      rw [hb4] at h4
      obtain ⟨a, ha, ha'⟩ := (positive_ok g ev _ e1 hp1).1 h3
      obtain ⟨b, hb, hb'⟩ := (positive_ok g count _ e hp).1 h4
      exact ⟨a, b, ha, hb, ha', hb'⟩
  · rintro ⟨a, b, ha, hb, ha', hb'⟩
    exact ⟨true, ⟨fun _ => count_has ha, fun _ => rfl⟩, .inr ⟨rfl, true, ⟨fun _ => count_has hb, fun _ => rfl⟩,
      .inr ⟨rfl, true, (positive_ok g ev _ e1 hp1).2 ⟨a, ha, ha'⟩,
        .inr ⟨rfl, true, (positive_ok g count _ e hp).2 ⟨b, hb, hb'⟩, .inr ⟨rfl, trivial⟩⟩⟩⟩⟩

theorem readCounts_ok (g : Node F) (count : Str) (e : parts count = [count]) (hp : Proper [count]) (c : ℕ × ℕ) :
    readCounts g count = .ok c ↔
      IsCount g ["measureEveryNthSweep".toList] c.1 ∧ IsCount g [count] c.2 ∧ 0 < c.1 ∧ 0 < c.2 := by
  unfold readCounts
  simp only [bind_ok, refuseIf_ok, pure_ok, getNat_ok parts_every proper_every, getNat_ok e hp, not_not]
  constructor
  · rintro ⟨b, hb, -, hb', x, hx, y, hy, rfl⟩
    rw [hb'] at hb
    obtain ⟨x', y', hx', hy', h1, h2⟩ := (isValid_ok g count e hp).1 hb
    cases count_unique hx hx'
    cases count_unique hy hy'
    exact ⟨hx, hy, h1, h2⟩
  · rintro ⟨hx, hy, h1, h2⟩
    exact ⟨true, (isValid_ok g count e hp).2 ⟨_, _, hx, hy, h1, h2⟩, (), rfl, _, hx, _, hy, rfl⟩

/-- Settings in a group. -/
theorem count_under (root : Node F) (path rest : List Str) (n : ℕ) :
    IsCount root (path ++ rest) n ↔ ∃ g, At root path g ∧ IsCount g rest n := by
  unfold IsCount
  simp only [At_append]
  constructor
  · rintro ⟨i, ⟨g, hg, h⟩, hn⟩; exact ⟨g, hg, i, h, hn⟩
  · rintro ⟨g, hg, i, h, hn⟩; exact ⟨i, ⟨g, hg, h⟩, hn⟩

theorem float_under (root : Node F) (path rest : List Str) (x : F) :
    IsFloat root (path ++ rest) x ↔ ∃ g, At root path g ∧ IsFloat g rest x := by
  unfold IsFloat
  exact At_append _ _ _ _

theorem at_iff {root g : Node F} {path : List Str} (hg : At root path g) {p : Node F → Prop} :
    (∃ g', At root path g' ∧ p g') ↔ p g :=
  ⟨fun ⟨g', h, hp⟩ => At_unique hg h ▸ hp, fun hp => ⟨g, hg, hp⟩⟩

theorem counts_ok (root g : Node F) (path : List Str) (count : String) (hg : At root path g)
    (e : parts count.toList = [count.toList]) (hp : Proper [count.toList]) (c : ℕ × ℕ) :
    readCounts g count.toList = .ok c ↔ CountsAre root path count c := by
  rw [readCounts_ok g _ e hp, CountsAre, count_under, count_under, at_iff hg, at_iff hg]

theorem parts_displacement : parts "instrumentation.logicalEntityMeanSquareDisplacement".toList =
    inGroup ["logicalEntityMeanSquareDisplacement"] := by decide +kernel
theorem proper_displacement : Proper (inGroup ["logicalEntityMeanSquareDisplacement"]) := by decide +kernel
theorem parts_normalModes : parts "instrumentation.normalModeAutocorrelation".toList =
    inGroup ["normalModeAutocorrelation"] := by decide +kernel
theorem proper_normalModes : Proper (inGroup ["normalModeAutocorrelation"]) := by decide +kernel
theorem parts_fourier : parts "instrumentation.fourierTransformedVelocity".toList =
    inGroup ["fourierTransformedVelocity"] := by decide +kernel
theorem proper_fourier : Proper (inGroup ["fourierTransformedVelocity"]) := by decide +kernel
theorem parts_autocorrelation : parts "instrumentation.velocityAutocorrelation".toList =
    inGroup ["velocityAutocorrelation"] := by decide +kernel
theorem proper_autocorrelation : Proper (inGroup ["velocityAutocorrelation"]) := by decide +kernel
theorem parts_bonds : parts "instrumentation.gaussianChains.squaredBondLengths".toList =
    inGroup ["gaussianChains", "squaredBondLengths"] := by decide +kernel
theorem proper_bonds : Proper (inGroup ["gaussianChains", "squaredBondLengths"]) := by decide +kernel
theorem parts_vectors : parts "instrumentation.fourierTransformedVelocity.k_n".toList =
    inGroup ["fourierTransformedVelocity", "k_n"] := by decide +kernel
theorem proper_vectors : Proper (inGroup ["fourierTransformedVelocity", "k_n"]) := by decide +kernel
theorem parts_time : parts "instrumentation.velocityAutocorrelation.measurementTime".toList =
    inGroup ["velocityAutocorrelation", "measurementTime"] := by decide +kernel
theorem proper_time : Proper (inGroup ["velocityAutocorrelation", "measurementTime"]) := by decide +kernel
theorem parts_snapshots : parts "instrumentation.velocityAutocorrelation.snapshotCount".toList =
    inGroup ["velocityAutocorrelation", "snapshotCount"] := by decide +kernel
theorem proper_snapshots : Proper (inGroup ["velocityAutocorrelation", "snapshotCount"]) := by decide +kernel
theorem parts_timestep : parts "mpc.timestep".toList = ["mpc".toList, "timestep".toList] := by decide +kernel
theorem proper_timestep : Proper ["mpc".toList, "timestep".toList] := by decide +kernel
theorem parts_selfDiffusion : parts "instrumentation.selfDiffusionCoefficient.measurementTime".toList =
    inGroup ["selfDiffusionCoefficient", "measurementTime"] := by decide +kernel
theorem proper_selfDiffusion : Proper (inGroup ["selfDiffusionCoefficient", "measurementTime"]) := by decide +kernel
theorem parts_shift : parts "shift".toList = ["shift".toList] := by decide +kernel
theorem proper_shift : Proper ["shift".toList] := by decide +kernel
theorem parts_arguments : parts "measurementArgumentCount".toList = ["measurementArgumentCount".toList] := by decide +kernel
theorem proper_arguments : Proper ["measurementArgumentCount".toList] := by decide +kernel
theorem parts_arguments' : parts "autocorrelationArgumentCount".toList = ["autocorrelationArgumentCount".toList] := by
  decide +kernel
theorem proper_arguments' : Proper ["autocorrelationArgumentCount".toList] := by decide +kernel

theorem counts_has {root : Node F} {path : List Str} {count : String} {c : ℕ × ℕ} (h : CountsAre root path count c) :
    ∃ g, At root path g := by
  obtain ⟨g, hg, _⟩ := (count_under _ _ _ _).1 h.1
  exact ⟨g, hg⟩

theorem displacement_ok (root : Node F) (c : ℕ × ℕ) : displacement root = .ok c ↔
    CountsAre root (inGroup ["logicalEntityMeanSquareDisplacement"]) "measurementArgumentCount" c := by
  unfold displacement
  simp only [bind_ok, rootSetting parts_displacement proper_displacement]
  constructor
  · rintro ⟨g, hg, h⟩
    exact (counts_ok root g _ "measurementArgumentCount" hg parts_arguments proper_arguments c).1 h
  · intro h
    obtain ⟨g, hg⟩ := counts_has h
    exact ⟨g, hg, (counts_ok root g _ "measurementArgumentCount" hg parts_arguments proper_arguments c).2 h⟩

theorem readShift_ok (A : Arith F) (root g : Node F) (hg : At root (inGroup ["normalModeAutocorrelation"]) g) (x : F) :
    readShift A g = .ok x ↔ Optional root (inGroup ["normalModeAutocorrelation", "shift"]) A.zero
      (IsFloat root (inGroup ["normalModeAutocorrelation", "shift"])) x := by
  have hpath : inGroup ["normalModeAutocorrelation", "shift"] =
      inGroup ["normalModeAutocorrelation"] ++ ["shift".toList] := rfl
  have hhas : Star.Settings.Has root (inGroup ["normalModeAutocorrelation", "shift"]) ↔
      Star.Settings.Has g ["shift".toList] := by
    unfold Star.Settings.Has
    rw [hpath]
    simp only [At_append, at_iff hg]
  have hfloat : IsFloat root (inGroup ["normalModeAutocorrelation", "shift"]) x ↔ IsFloat g ["shift".toList] x := by
    rw [hpath, float_under, at_iff hg]
  unfold readShift Optional
  simp only [bind_ok, ite_ok, has_ok parts_shift proper_shift, getFloat_ok parts_shift proper_shift, pure_ok, hhas, hfloat]
  constructor
  · rintro ⟨b, hb, ⟨rfl, h⟩ | ⟨rfl, h⟩⟩
    · exact .inl ⟨hb.1 rfl, h⟩
    · exact .inr ⟨fun h => Bool.false_ne_true (hb.2 h), h.symm⟩
  · rintro (⟨h, h'⟩ | ⟨h, h'⟩)
    · exact ⟨true, ⟨fun _ => h, fun _ => rfl⟩, .inl ⟨rfl, h'⟩⟩
    · exact ⟨false, ⟨nofun, fun h' => absurd h' h⟩, .inr ⟨rfl, h'.symm⟩⟩

theorem normalModes_ok (A : Arith F) (root : Node F) (c : (ℕ × ℕ) × F) : normalModes A root = .ok c ↔
    CountsAre root (inGroup ["normalModeAutocorrelation"]) "autocorrelationArgumentCount" c.1 ∧
      Optional root (inGroup ["normalModeAutocorrelation", "shift"]) A.zero
        (IsFloat root (inGroup ["normalModeAutocorrelation", "shift"])) c.2 := by
  unfold normalModes
  simp only [bind_ok, pure_ok, rootSetting parts_normalModes proper_normalModes]
  constructor
  · rintro ⟨g, hg, n, hn, x, hx, rfl⟩
    exact ⟨(counts_ok root g _ "autocorrelationArgumentCount" hg parts_arguments' proper_arguments' n).1 hn,
      (readShift_ok A root g hg x).1 hx⟩
  · rintro ⟨h, h'⟩
    obtain ⟨g, hg⟩ := counts_has h
    exact ⟨g, hg, _, (counts_ok root g _ "autocorrelationArgumentCount" hg parts_arguments' proper_arguments' _).2 h,
      _, (readShift_ok A root g hg _).2 h', rfl⟩

theorem getListAt_ok (l e : Node F) (i : ℕ) : conf (l.getListAt i) = .ok e ↔ l.elements[i]? = some e ∧ e.isList := by
  rw [conf_ok, Node.getListAt]
  cases l.elements[i]? with
  | none => simp
  | some k =>
    cases k <;> simp [Node.isList]
    all_goals exact fun h => by rw [← h]; simp

theorem waveVector_ok (l : Node F) (i : ℕ) (v : F × F × F) : waveVector l i = .ok v ↔
    ∃ e, l.elements[i]? = some e ∧ e.isList ∧ ∃ rest, e.elements =
      .scalar (.float v.1) :: .scalar (.float v.2.1) :: .scalar (.float v.2.2) :: rest := by
  unfold waveVector
  simp only [bind_ok, pure_ok, getListAt_ok, floatAt_ok, ← three_elements]
  constructor
  · rintro ⟨e, ⟨he, hl⟩, x, hx, y, hy, z, hz, rfl⟩
    exact ⟨e, he, hl, hx, hy, hz⟩
  · rintro ⟨e, he, hl, hx, hy, hz⟩
    exact ⟨e, ⟨he, hl⟩, _, hx, _, hy, _, hz, rfl⟩

theorem forall₂_range {α β : Type} (l : List α) (r : List β) (p : α → β → Prop) :
    List.Forall₂ (fun i b => ∃ a, l[i]? = some a ∧ p a b) (List.range l.length) r ↔ List.Forall₂ p l r := by
  rw [List.forall₂_iff_get, List.forall₂_iff_get]
  simp only [List.length_range, List.get_eq_getElem, List.getElem_range]
  refine and_congr_right fun hlen => ?_
  constructor
  · intro h i h1 h2
    obtain ⟨a, ha, hp⟩ := h i h1 h2
    rw [List.getElem?_eq_getElem h1] at ha
    cases ha
    exact hp
  · intro h i h1 h2
    exact ⟨_, List.getElem?_eq_getElem h1, h i h1 h2⟩

theorem fourier_ok (root : Node F) (vs : List (F × F × F)) : fourier root = .ok vs ↔
    VectorsAre root (inGroup ["fourierTransformedVelocity", "k_n"]) vs := by
  unfold fourier VectorsAre
  simp only [bind_ok, rootList parts_vectors proper_vectors, mapM_ok, waveVector_ok, forall₂_range, and_assoc]

theorem autocorrelation_ok (A : Arith F) (root : Node F) (c : F × ℕ) : autocorrelation A root = .ok c ↔
    IsFloat root (inGroup ["velocityAutocorrelation", "measurementTime"]) c.1 ∧
      IsCount root (inGroup ["velocityAutocorrelation", "snapshotCount"]) c.2 ∧ 0 < c.2 ∧
      ∃ dt, IsFloat root ["mpc".toList, "timestep".toList] dt ∧ A.tooMany c.2 dt c.1 = false := by
  unfold autocorrelation
  simp only [bind_ok, pure_ok, refuseIf_ok, rootFloat parts_time proper_time, rootNat parts_snapshots proper_snapshots,
    rootFloat parts_timestep proper_timestep]
  constructor
  · rintro ⟨t, ht, n, hn, -, h0, dt, hdt, -, h1, rfl⟩
    exact ⟨ht, hn, Nat.pos_of_ne_zero h0, dt, hdt, by simpa using h1⟩
  · rintro ⟨ht, hn, h0, dt, hdt, h1⟩
    exact ⟨_, ht, _, hn, (), h0.ne', dt, hdt, (), by simp [h1], rfl⟩

theorem ifHas_ok {α : Type} {root : Node F} {name : Str} {path : List Str} (e : parts name = path) (hp : Proper path)
    {make : Except StartErr α} {is : α → Prop} (hmake : ∀ a, make = .ok a ↔ is a) (o : Option α) :
    ifHas root name make = .ok o ↔ IfConfigured root path is o := by
  unfold ifHas
  rw [ite_ok, map_ok]
  have h := rootHas e hp root
  cases o with
  | none =>
    simp only [reduceCtorEq, and_false, exists_false, false_or, and_true, IfConfigured, ← h, Bool.not_eq_true]
  | some a =>
    simp only [hmake, Option.some.injEq, exists_eq_right, IfConfigured, h, Except.ok.injEq, reduceCtorEq, and_false, or_false]

theorem bonds_ok (n b : ℕ) : bonds n = .ok b ↔ b + 1 = n ∧ 0 < b := by
  unfold bonds
  simp only [bind_ok, refuseIf_ok, pure_ok]
  constructor
  · rintro ⟨-, h, rfl⟩; omega
  · rintro ⟨rfl, h⟩; exact ⟨(), by omega, by omega⟩


theorem dumbbell_names (a b c d : F) (n : Option ℕ) :
    (histogramsOf (.dumbbells a b c d n)).map Prod.fst = dumbbellHistograms ∧
    ((histogramsOf (.dumbbells a b c d n)).map Prod.fst).Nodup ∧
    ∀ h ∈ histogramsOf (.dumbbells a b c d n), "instrumentation".toList :: parts h.1 = h.2 ∧ Proper h.2 := by
  have h : (histogramsOf (.dumbbells () () () () none)).map Prod.fst = dumbbellHistograms ∧
    ((histogramsOf (.dumbbells () () () () none)).map Prod.fst).Nodup ∧
    ∀ h ∈ histogramsOf (.dumbbells () () () () none), "instrumentation".toList :: parts h.1 = h.2 ∧ ∀ c ∈ h.2, c ≠ [] := by
    decide +kernel
  exact h

theorem rod_names (a b : F) (n : ℕ) :
    (histogramsOf (.rods a b n)).map Prod.fst = rodHistograms ∧
    ((histogramsOf (.rods a b n)).map Prod.fst).Nodup ∧
    ∀ h ∈ histogramsOf (.rods a b n), "instrumentation".toList :: parts h.1 = h.2 ∧ Proper h.2 := by
  have h : (histogramsOf (.rods () () 0)).map Prod.fst = rodHistograms ∧
    ((histogramsOf (.rods () () 0)).map Prod.fst).Nodup ∧
    ∀ h ∈ histogramsOf (.rods () () 0), "instrumentation".toList :: parts h.1 = h.2 ∧ ∀ c ∈ h.2, c ≠ [] := by
    decide +kernel
  exact h

theorem trimer_names (a b : F) (n : Option ℕ) :
    (histogramsOf (.trimers a b n)).map Prod.fst = trimerHistograms ∧
    ((histogramsOf (.trimers a b n)).map Prod.fst).Nodup ∧
    ∀ h ∈ histogramsOf (.trimers a b n), "instrumentation".toList :: parts h.1 = h.2 ∧ Proper h.2 := by
  have h : (histogramsOf (.trimers () () none)).map Prod.fst = trimerHistograms ∧
    ((histogramsOf (.trimers () () none)).map Prod.fst).Nodup ∧
    ∀ h ∈ histogramsOf (.trimers () () none), "instrumentation".toList :: parts h.1 = h.2 ∧ ∀ c ∈ h.2, c ≠ [] := by
    decide +kernel
  exact h

theorem made_ok (root : Node F) (f : Fluid F) (names : List Str)
    (hf : (histogramsOf f).map Prod.fst = names ∧ ((histogramsOf f).map Prod.fst).Nodup ∧
      ∀ h ∈ histogramsOf f, "instrumentation".toList :: parts h.1 = h.2 ∧ Proper h.2) (r : List (Str × Hist F)) :
    histograms root names = .ok r ↔
      (r.map Prod.fst).Sublist ((histogramsOf f).map Prod.fst) ∧
      (∀ h ∈ histogramsOf f, Star.Settings.Has root h.2 ∧ (∃ x, (h.1, x) ∈ r ∧ HistogramIs root h.2 x) ∨
        ¬ Star.Settings.Has root h.2 ∧ ∀ x, (h.1, x) ∉ r) ∧
      ∀ h ∈ histogramsOf f, Star.Settings.Has root h.2 := by
  rw [← hf.1, histograms_ok root _ hf.2.2, all_made root _ hf.2.1]

theorem vectors_has {root : Node F} {vs : List (F × F × F)}
    (h : VectorsAre root (inGroup ["fourierTransformedVelocity", "k_n"]) vs) :
    Star.Settings.Has root (inGroup ["fourierTransformedVelocity"]) := by
  obtain ⟨l, hl, _⟩ := h
  exact has_prefix (q := ["k_n".toList]) ⟨l, hl⟩

theorem time_has {root : Node F} {x : F} (h : IsFloat root (inGroup ["velocityAutocorrelation", "measurementTime"]) x) :
    Star.Settings.Has root (inGroup ["velocityAutocorrelation"]) :=
  has_prefix (q := ["measurementTime".toList]) ⟨_, h⟩

theorem diffusion_has {root : Node F} {x : F} (h : IsFloat root (inGroup ["selfDiffusionCoefficient", "measurementTime"]) x) :
    Star.Settings.Has root (inGroup ["selfDiffusionCoefficient"]) :=
  has_prefix (q := ["measurementTime".toList]) ⟨_, h⟩

/-- A measurement that is required. -/
theorem configured_some {α : Type} {root : Node F} {path : List Str} {is : α → Prop} {o : Option α}
    (h : IfConfigured root path is o) (hh : Star.Settings.Has root path) : ∃ a, o = some a ∧ is a := by
  cases o with
  | none => exact absurd hh h
  | some a => exact ⟨a, rfl, h.2⟩

/-- **Simple fluids and chains.** The measurements are set up if and only if what has been configured can be measured;
those that have been configured are made, as configured, and no others. -/
theorem C139_plain_partial (A : Arith F) (f : Fluid F) (hf : Plain f) (root : Node F) (m : Measured F) :
    measure A f root = .ok m ↔ Configured A f root m := by
  have hd := fun o => ifHas_ok (root := root) parts_displacement proper_displacement (displacement_ok root) o
  have hm := fun o => ifHas_ok (root := root) parts_normalModes proper_normalModes (normalModes_ok A root) o
  have ht := fun o => ifHas_ok (root := root) parts_fourier proper_fourier (fourier_ok root) o
  have hv := fun o => ifHas_ok (root := root) parts_autocorrelation proper_autocorrelation (autocorrelation_ok A root) o
  cases f with
  | simple =>
    simp only [measure, bind_ok, pure_ok, hd, hm, ht, hv]
    constructor
    · rintro ⟨d, h1, n, h2, t, h3, v, h4, rfl⟩
      exact ⟨h1, h2, h3, h4, List.nil_sublist _, nofun, .inr ⟨nofun, rfl⟩, .inr ⟨nofun, rfl⟩⟩
    · rintro ⟨h1, h2, h3, h4, h5, -, h7, h8⟩
      refine ⟨_, h1, _, h2, _, h3, _, h4, ?_⟩
      have e5 := List.map_eq_nil_iff.1 (List.sublist_nil.1 h5)
      rcases h7 with ⟨⟨_, _, _, h⟩, _⟩ | ⟨-, h7⟩
      · cases h
      rcases h8 with ⟨_, _, _, h, _⟩ | ⟨-, h8⟩
      · cases h
      cases m
      simp_all
  | chains n k s =>
    have hb := fun o => ifHas_ok (root := root) parts_bonds proper_bonds (bonds_ok n) o
    simp only [measure, bind_ok, pure_ok, hd, hm, ht, hv, hb]
    constructor
    · rintro ⟨d, h1, n', h2, t, h3, v, h4, b, h5, rfl⟩
      exact ⟨h1, h2, h3, h4, List.nil_sublist _, nofun, .inr ⟨nofun, rfl⟩, .inl ⟨_, _, _, rfl, h5⟩⟩
    · rintro ⟨h1, h2, h3, h4, h5, -, h7, h8⟩
      have e5 := List.map_eq_nil_iff.1 (List.sublist_nil.1 h5)
      rcases h7 with ⟨⟨_, _, _, h⟩, _⟩ | ⟨-, h7⟩
      · cases h
      rcases h8 with ⟨_, _, _, h, h8⟩ | ⟨h, -⟩
      swap
      · exact absurd ⟨_, _, _, rfl⟩ h
      cases h
      refine ⟨_, h1, _, h2, _, h3, _, h4, _, h8, ?_⟩
      rw [← e5, ← h7]
  | _ => cases hf

/-- **The other fluids.** The measurements are set up if and only if what has been configured can be measured and,
besides, everything that could be measured has been configured. What is missing is that configurations without some of the
measurements be accepted, see `C139_required_violated`. -/
theorem C139_molecules_partial (A : Arith F) (f : Fluid F) (hf : ¬ Plain f) (root : Node F) (m : Measured F) :
    measure A f root = .ok m ↔ Configured A f root m ∧ Complete f root := by
  have hd := fun o => ifHas_ok (root := root) parts_displacement proper_displacement (displacement_ok root) o
  have hm := fun o => ifHas_ok (root := root) parts_normalModes proper_normalModes (normalModes_ok A root) o
  cases f with
  | simple => exact absurd trivial hf
  | chains n k s => exact absurd trivial hf
  | dumbbells a b c e n =>
    simp only [measure, bind_ok, pure_ok, hd, hm, fourier_ok, autocorrelation_ok, made_ok root _ _ (dumbbell_names a b c e n)]
    constructor
    · rintro ⟨d, h1, n', h2, h, ⟨h3, h4, h5⟩, t, h6, v, h7, rfl⟩
      exact ⟨⟨h1, h2, ⟨vectors_has h6, h6⟩, ⟨time_has h7.1, h7⟩, h3, h4, .inr ⟨nofun, rfl⟩, .inr ⟨nofun, rfl⟩⟩,
        vectors_has h6, time_has h7.1, h5, nofun⟩
    · rintro ⟨⟨h1, h2, h3, h4, h5, h6, h7, h8⟩, g1, g2, g3, -⟩
      obtain ⟨t, e3, h3⟩ := configured_some h3 g1
      obtain ⟨v, e4, h4⟩ := configured_some h4 g2
      rcases h7 with ⟨⟨_, _, _, h⟩, _⟩ | ⟨-, h7⟩
      · cases h
      rcases h8 with ⟨_, _, _, h, _⟩ | ⟨-, h8⟩
      · cases h
      refine ⟨_, h1, _, h2, _, ⟨h5, h6, g3⟩, t, h3, v, h4, ?_⟩
      cases m
      simp_all
  | rods a b n =>
    simp only [measure, bind_ok, pure_ok, hd, hm, fourier_ok, autocorrelation_ok, made_ok root _ _ (rod_names a b n)]
    constructor
    · rintro ⟨d, h1, n', h2, h, ⟨h3, h4, h5⟩, t, h6, v, h7, rfl⟩
      exact ⟨⟨h1, h2, ⟨vectors_has h6, h6⟩, ⟨time_has h7.1, h7⟩, h3, h4, .inr ⟨nofun, rfl⟩, .inr ⟨nofun, rfl⟩⟩,
        vectors_has h6, time_has h7.1, h5, nofun⟩
    · rintro ⟨⟨h1, h2, h3, h4, h5, h6, h7, h8⟩, g1, g2, g3, -⟩
      obtain ⟨t, e3, h3⟩ := configured_some h3 g1
      obtain ⟨v, e4, h4⟩ := configured_some h4 g2
      rcases h7 with ⟨⟨_, _, _, h⟩, _⟩ | ⟨-, h7⟩
      · cases h
      rcases h8 with ⟨_, _, _, h, _⟩ | ⟨-, h8⟩
      · cases h
      refine ⟨_, h1, _, h2, _, ⟨h5, h6, g3⟩, t, h3, v, h4, ?_⟩
      cases m
      simp_all
  | trimers a b n =>
    simp only [measure, bind_ok, pure_ok, hd, hm, fourier_ok, autocorrelation_ok, made_ok root _ _ (trimer_names a b n),
      rootFloat parts_selfDiffusion proper_selfDiffusion]
    constructor
    · rintro ⟨d, h1, n', h2, h, ⟨h3, h4, h5⟩, x, hx, t, h6, v, h7, rfl⟩
      exact ⟨⟨h1, h2, ⟨vectors_has h6, h6⟩, ⟨time_has h7.1, h7⟩, h3, h4, .inl ⟨⟨_, _, _, rfl⟩, diffusion_has hx, hx⟩,
        .inr ⟨nofun, rfl⟩⟩, vectors_has h6, time_has h7.1, h5, fun _ _ _ _ => diffusion_has hx⟩
    · rintro ⟨⟨h1, h2, h3, h4, h5, h6, h7, h8⟩, g1, g2, g3, g4⟩
      obtain ⟨t, e3, h3⟩ := configured_some h3 g1
      obtain ⟨v, e4, h4⟩ := configured_some h4 g2
      rcases h7 with ⟨-, h7⟩ | ⟨h, -⟩
      swap
      · exact absurd ⟨_, _, _, rfl⟩ h
      obtain ⟨x, e7, h7⟩ := configured_some h7 (g4 _ _ _ rfl)
      rcases h8 with ⟨_, _, _, h, _⟩ | ⟨-, h8⟩
      · cases h
      refine ⟨_, h1, _, h2, _, ⟨h5, h6, g3⟩, x, h7, t, h3, v, h4, ?_⟩
      cases m
      simp_all

/-- Whether the measurements can be set up. -/
def canMeasure (A : Arith F) (f : Fluid F) (_ : ℕ) (root : Node F) : Bool := (measure A f root).isOk

theorem isOk_iff {α : Type} (x : Except StartErr α) : x.isOk = true ↔ ∃ a, x = .ok a := by
  cases x with
  | ok a => exact ⟨fun _ => ⟨a, rfl⟩, fun _ => rfl⟩
  | error e => exact ⟨nofun, fun ⟨_, h⟩ => nomatch h⟩

/-- **What a simulation measures.** A simulation that has started measures of its fluid what is configured, and as it is
configured. -/
theorem C139_started (E : Env F) (A : Arith F) (root : Node F) (s : Simulation F)
    (h : start E (canMeasure A) root = .ok s) (f : Fluid F) (n : ℕ) (hf : s.fluid = some (f, n)) :
    ∃ m, measure A f root = .ok m ∧ Configured A f root m := by
  obtain ⟨ρ, _, h⟩ := (C105_starts E _ root s).1 h
  obtain ⟨_, _, _, _, _, _, _, _, h⟩ := h.fluid f n hf
  obtain ⟨m, hm⟩ := (isOk_iff _).1 h
  refine ⟨m, hm, ?_⟩
  by_cases hp : Plain f
  · exact (C139_plain_partial A f hp root m).1 hm
  · exact ((C139_molecules_partial A f hp root m).1 hm).1

/-- **Violated: measurements are optional.** Without every one of the measurements of their kind (but for displacements and
normal modes) being configured, no simulation of dumbbells, rods or trimers starts. -/
theorem C139_required_violated (E : Env F) (A : Arith F) (root : Node F) (s : Simulation F)
    (h : start E (canMeasure A) root = .ok s) (f : Fluid F) (n : ℕ) (hf : s.fluid = some (f, n)) (hp : ¬ Plain f) :
    Complete f root := by
  obtain ⟨ρ, _, h⟩ := (C105_starts E _ root s).1 h
  obtain ⟨_, _, _, _, _, _, _, _, h⟩ := h.fluid f n hf
  obtain ⟨m, hm⟩ := (isOk_iff _).1 h
  exact ((C139_molecules_partial A f hp root m).1 hm).2


theorem known_iff (k : Str) : knownSettings.contains k = true ↔ k ∈ measurementNames := by
  rw [List.contains_iff_mem]
  have h1 : ∀ k ∈ knownSettings, k ∈ measurementNames := by decide +kernel
  have h2 : ∀ k ∈ measurementNames, k ∈ knownSettings := by decide +kernel
  exact ⟨h1 k, h2 k⟩

theorem namesIn_iff (names : Str → Bool) (l : List (Str × Node F)) :
    (namesIn names l).1 = true ↔ ∀ c ∈ l, names c.1 = true := by
  induction l with
  | nil => simp [namesIn]
  | cons c l ih =>
    obtain ⟨k, m⟩ := c
    unfold namesIn
    by_cases h : names k = true
    · rw [if_pos h, ih]; simp [h]
    · rw [if_neg h]; simp [h]

theorem known_ok (g : Node F) : known g = true ↔ OnlyKnown g := by
  cases g with
  | group l =>
    show (namesIn _ l).1 = true ↔ ∀ c ∈ l, c.1 ∈ measurementNames
    rw [namesIn_iff]
    simp only [known_iff]
  | list l => simp [known, OnlyKnown]
  | array l => simp [known, OnlyKnown]
  | scalar v => simp [known, OnlyKnown]

theorem has_under {root g : Node F} {path rest : List Str} (hg : At root path g) :
    Star.Settings.Has root (path ++ rest) ↔ Star.Settings.Has g rest := by
  unfold Star.Settings.Has
  simp only [At_append, at_iff hg]

theorem parts_cell : parts "cellSubdivision".toList = ["cellSubdivision".toList] := by decide +kernel
theorem proper_cell : Proper ["cellSubdivision".toList] := by decide +kernel
theorem parts_cellX : parts "cellSubdivision.x".toList = ["cellSubdivision".toList, "x".toList] := by decide +kernel
theorem proper_cellX : Proper ["cellSubdivision".toList, "x".toList] := by decide +kernel
theorem parts_cellY : parts "cellSubdivision.y".toList = ["cellSubdivision".toList, "y".toList] := by decide +kernel
theorem proper_cellY : Proper ["cellSubdivision".toList, "y".toList] := by decide +kernel
theorem parts_cellZ : parts "cellSubdivision.z".toList = ["cellSubdivision".toList, "z".toList] := by decide +kernel
theorem proper_cellZ : Proper ["cellSubdivision".toList, "z".toList] := by decide +kernel
theorem parts_sweeps : parts "sweepCountPerOutput".toList = ["sweepCountPerOutput".toList] := by decide +kernel
theorem proper_sweeps : Proper ["sweepCountPerOutput".toList] := by decide +kernel
theorem parts_instrumentation : parts "instrumentation".toList = inGroup [] := by decide +kernel
theorem proper_instrumentation : Proper (inGroup []) := by decide +kernel
theorem parts_magnitude : parts "velocityMagnitudeHistogram".toList = ["velocityMagnitudeHistogram".toList] := by decide +kernel
theorem proper_magnitude : Proper ["velocityMagnitudeHistogram".toList] := by decide +kernel
theorem proper_magnitude' : Proper (inGroup ["velocityMagnitudeHistogram"]) := by decide +kernel
theorem parts_density : parts "densityProfile".toList = ["densityProfile".toList] := by decide +kernel
theorem proper_density : Proper ["densityProfile".toList] := by decide +kernel
theorem parts_flow : parts "flowProfile".toList = ["flowProfile".toList] := by decide +kernel
theorem proper_flow : Proper ["flowProfile".toList] := by decide +kernel

theorem optional_ok {α : Type} (root : Node F) (path : List Str) (default : α) (is : α → Prop) (a : α)
    (x : Except StartErr Bool) (make : Except StartErr α) (hx : ∀ b, x = .ok b ↔ (b = true ↔ Star.Settings.Has root path))
    (hmake : ∀ a, make = .ok a ↔ is a) :
    (x >>= fun b => if b = true then make else pure default) = .ok a ↔ Optional root path default is a := by
  unfold Optional
  simp only [bind_ok, ite_ok, pure_ok, hx, hmake]
  constructor
  · rintro ⟨b, hb, ⟨rfl, h⟩ | ⟨rfl, h⟩⟩
    · exact .inl ⟨hb.1 rfl, h⟩
    · exact .inr ⟨fun h => Bool.false_ne_true (hb.2 h), h.symm⟩
  · rintro (⟨h, h'⟩ | ⟨h, h'⟩)
    · exact ⟨true, ⟨fun _ => h, fun _ => rfl⟩, .inl ⟨rfl, h'⟩⟩
    · exact ⟨false, ⟨nofun, fun h' => absurd h' h⟩, .inr ⟨rfl, h'.symm⟩⟩

theorem readSubdivisions_ok (root g : Node F) (path : List Str) (hg : At root path g) (s : ℕ × ℕ × ℕ) :
    readSubdivisions g = .ok s ↔ Optional root (path ++ ["cellSubdivision".toList]) (1, 1, 1)
    (fun s => IsCount root (path ++ ["cellSubdivision".toList, "x".toList]) s.1 ∧
      IsCount root (path ++ ["cellSubdivision".toList, "y".toList]) s.2.1 ∧
      IsCount root (path ++ ["cellSubdivision".toList, "z".toList]) s.2.2) s := by
  unfold readSubdivisions
  refine optional_ok root _ (1, 1, 1) _ s _ _ (fun b => ?_) fun a => ?_
  · rw [has_ok parts_cell proper_cell, has_under hg]
  · simp only [bind_ok, pure_ok, getNat_ok parts_cellX proper_cellX, getNat_ok parts_cellY proper_cellY,
      getNat_ok parts_cellZ proper_cellZ, count_under, at_iff hg]
    constructor
    · rintro ⟨x, hx, y, hy, z, hz, rfl⟩; exact ⟨hx, hy, hz⟩
    · rintro ⟨hx, hy, hz⟩; exact ⟨_, hx, _, hy, _, hz, rfl⟩

theorem checkSubdivisions_ok (s : ℕ × ℕ × ℕ) (u : Unit) :
    checkSubdivisions s = .ok u ↔ 0 < s.1 ∧ 0 < s.2.1 ∧ 0 < s.2.2 := by
  unfold checkSubdivisions
  simp only [bind_ok, refuseIf_ok, Nat.pos_iff_ne_zero]
  exact ⟨fun ⟨_, h1, _, h2, h3⟩ => ⟨h1, h2, h3⟩, fun ⟨h1, h2, h3⟩ => ⟨(), h1, (), h2, h3⟩⟩

theorem densityProfile_ok (root g : Node F) (path : List Str) (hg : At root path g) (s : ℕ × ℕ × ℕ) :
    densityProfile g = .ok s ↔ SubdivisionsAre root path s := by
  unfold densityProfile SubdivisionsAre
  simp only [bind_ok, pure_ok, readSubdivisions_ok root g path hg, checkSubdivisions_ok]
  constructor
  · rintro ⟨s', h, _, h', rfl⟩; exact ⟨h, h'⟩
  · rintro ⟨h, h'⟩; exact ⟨s, h, (), h', rfl⟩

theorem readSweeps_ok (root g : Node F) (path : List Str) (hg : At root path g) (n : ℕ) :
    readSweeps g = .ok n ↔ Optional root (path ++ ["sweepCountPerOutput".toList]) 0
      (IsCount root (path ++ ["sweepCountPerOutput".toList])) n := by
  unfold readSweeps
  refine optional_ok root _ 0 _ n _ _ (fun b => ?_) fun a => ?_
  · rw [has_ok parts_sweeps proper_sweeps, has_under hg]
  · rw [getNat_ok parts_sweeps proper_sweeps, count_under, at_iff hg]

theorem flowProfile_ok (root g : Node F) (path : List Str) (hg : At root path g) (c : (ℕ × ℕ × ℕ) × ℕ) :
    flowProfile g = .ok c ↔ SubdivisionsAre root path c.1 ∧ Optional root (path ++ ["sweepCountPerOutput".toList]) 0
      (IsCount root (path ++ ["sweepCountPerOutput".toList])) c.2 := by
  unfold flowProfile SubdivisionsAre
  simp only [bind_ok, pure_ok, readSubdivisions_ok root g path hg, checkSubdivisions_ok, readSweeps_ok root g path hg]
  constructor
  · rintro ⟨s', h, n, hn, _, h', rfl⟩; exact ⟨⟨h, h'⟩, hn⟩
  · rintro ⟨⟨h, h'⟩, hn⟩; exact ⟨_, h, _, hn, (), h', rfl⟩

theorem ifChild_ok {α : Type} {root g : Node F} (hg : At root (inGroup []) g) {name : Str} (e : parts name = [name])
    (hp : Proper [name]) {make : Except StartErr α} {is : α → Prop}
    (hmake : Star.Settings.Has root (inGroup [] ++ [name]) → ∀ a, make = .ok a ↔ is a) (o : Option α) :
    ifChild g name make = .ok o ↔ IfConfigured root (inGroup [] ++ [name]) is o := by
  unfold ifChild
  simp only [bind_ok, ite_ok, has_ok e hp, pure_ok, map_ok, ← has_under (rest := [name]) hg]
  cases o with
  | none =>
    simp only [IfConfigured]
    constructor
    · rintro ⟨b, hb, ⟨-, a, -, h⟩ | ⟨rfl, -⟩⟩
      · cases h
      · exact fun h => Bool.false_ne_true (hb.2 h)
    · intro h
      exact ⟨false, ⟨nofun, fun h' => absurd h' h⟩, .inr ⟨rfl, trivial⟩⟩
  | some a =>
    simp only [IfConfigured]
    constructor
    · rintro ⟨b, hb, ⟨rfl, a', h, h'⟩ | ⟨-, h⟩⟩
      · cases h'
        exact ⟨hb.1 rfl, (hmake (hb.1 rfl) a).1 h⟩
      · cases h
    · rintro ⟨h, h'⟩
      exact ⟨true, ⟨fun _ => h, fun _ => rfl⟩, .inl ⟨rfl, a, (hmake h a).2 h', rfl⟩⟩

/-- **Profiles.** With a fluid, the profiles are set up if and only if there are no unknown settings, and what has been
configured can be measured; those that have been configured are made, as configured, and no others. Without a fluid, there
are none. -/
theorem C139_profiles_partial (root : Node F) (hasFluid : Bool) (p : Profiles F) :
    instrumentation root hasFluid = .ok p ↔
      (∀ g, At root ["instrumentation".toList] g → OnlyKnown g) ∧
      (hasFluid = true → ProfilesConfigured root p) ∧ (hasFluid = false → p = ⟨none, none, none⟩) := by
  have hh := rootHas parts_instrumentation proper_instrumentation root
  have hmag : "instrumentation".toList :: parts "velocityMagnitudeHistogram".toList =
      inGroup ["velocityMagnitudeHistogram"] := by rw [parts_magnitude]; rfl
  have hv : ∀ g, At root (inGroup []) g → ∀ o, ifChild g "velocityMagnitudeHistogram".toList
      (histogram root "velocityMagnitudeHistogram".toList) = .ok o ↔ IfConfigured root
        (inGroup ["velocityMagnitudeHistogram"]) (HistogramIs root (inGroup ["velocityMagnitudeHistogram"])) o :=
    fun g hg o => ifChild_ok hg parts_magnitude proper_magnitude
      (fun _ => histogram_ok root "velocityMagnitudeHistogram".toList _ hmag proper_magnitude') o
  have hd : ∀ g, At root (inGroup []) g → ∀ o, ifChild g "densityProfile".toList
      (conf (g.getSetting "densityProfile".toList) >>= densityProfile) = .ok o ↔ IfConfigured root
        (inGroup ["densityProfile"]) (SubdivisionsAre root (inGroup ["densityProfile"])) o := by
    refine fun g hg o => ifChild_ok hg parts_density proper_density (fun hhas a => ?_) o
    obtain ⟨j, hj⟩ := hhas
    obtain ⟨k, hk, hj'⟩ := (At_append _ _ _ _).1 hj
    cases At_unique hg hk
    simp only [bind_ok, Star.Settings.getSetting_ok parts_density proper_density]
    rw [at_iff hj']
    exact densityProfile_ok root j (inGroup ["densityProfile"]) hj a
  have hw : ∀ g, At root (inGroup []) g → ∀ o, ifChild g "flowProfile".toList
      (conf (g.getSetting "flowProfile".toList) >>= flowProfile) = .ok o ↔ IfConfigured root
        (inGroup ["flowProfile"]) (fun c => SubdivisionsAre root (inGroup ["flowProfile"]) c.1 ∧
          Optional root (inGroup ["flowProfile", "sweepCountPerOutput"]) 0
            (IsCount root (inGroup ["flowProfile", "sweepCountPerOutput"])) c.2) o := by
    refine fun g hg o => ifChild_ok hg parts_flow proper_flow (fun hhas a => ?_) o
    obtain ⟨j, hj⟩ := hhas
    obtain ⟨k, hk, hj'⟩ := (At_append _ _ _ _).1 hj
    cases At_unique hg hk
    simp only [bind_ok, Star.Settings.getSetting_ok parts_flow proper_flow]
    rw [at_iff hj']
    exact flowProfile_ok root j (inGroup ["flowProfile"]) hj a
  unfold instrumentation
  simp only [Bool.not_eq_true', ite_false_ok, bind_ok, pure_ok, refuseIf_ok, not_not, known_ok,
    rootSetting parts_instrumentation proper_instrumentation, Except.ok.injEq]
  constructor
  · rintro (⟨h, rfl⟩ | ⟨-, g, hg, -, hk, ⟨rfl, rfl⟩ | ⟨rfl, v, hv', d, hd', w, hw', rfl⟩⟩)
    · have hno : ¬ Star.Settings.Has root (inGroup []) := fun h' => by rw [← hh, h] at h'; cases h'
      refine ⟨fun g hg => absurd ⟨g, hg⟩ hno, fun _ => ⟨?_, ?_, ?_⟩, fun _ => rfl⟩
      · exact fun h => hno (has_prefix (q := ["velocityMagnitudeHistogram".toList]) h)
      · exact fun h => hno (has_prefix (q := ["densityProfile".toList]) h)
      · exact fun h => hno (has_prefix (q := ["flowProfile".toList]) h)
    · exact ⟨fun g' hg' => At_unique hg hg' ▸ hk, nofun, fun _ => rfl⟩
    · exact ⟨fun g' hg' => At_unique hg hg' ▸ hk,
        fun _ => ⟨(hv g hg v).1 hv', (hd g hg d).1 hd', (hw g hg w).1 hw'⟩, nofun⟩
  · rintro ⟨hk, h1, h2⟩
    by_cases hhas : Star.Settings.Has root (inGroup [])
    · obtain ⟨g, hg⟩ := hhas
      refine .inr ⟨hh.2 ⟨g, hg⟩, g, hg, (), hk g hg, ?_⟩
      cases hasFluid with
      | false => exact .inl ⟨rfl, (h2 rfl).symm⟩
      | true =>
        obtain ⟨hv', hd', hw'⟩ := h1 rfl
        exact .inr ⟨rfl, _, (hv g hg _).2 hv', _, (hd g hg _).2 hd', _, (hw g hg _).2 hw', rfl⟩
    · refine .inl ⟨by rw [← Bool.not_eq_true, hh]; exact hhas, ?_⟩
      cases hasFluid with
      | false => exact (h2 rfl).symm
      | true =>
        obtain ⟨hv', hd', hw'⟩ := h1 rfl
        obtain ⟨v, d, w⟩ := p
        cases v with
        | some v => exact absurd (has_prefix (q := ["velocityMagnitudeHistogram".toList]) hv'.1) hhas
        | none =>
          cases d with
          | some d => exact absurd (has_prefix (q := ["densityProfile".toList]) hd'.1) hhas
          | none =>
            cases w with
            | some w => exact absurd (has_prefix (q := ["flowProfile".toList]) hw'.1) hhas
            | none => rfl

/-! ## Examples and violations -/

/-- Exact arithmetic. -/
def rational : Arith ℚ where
  zero := 0
  tooMany n dt t := n * dt > t - 1 / 1000000

/-- A histogram's settings. -/
def histogramGroup : Node ℚ := .group [
  ("binCount".toList, .scalar (.int 10)), ("low".toList, .scalar (.float 0)), ("high".toList, .scalar (.float 5))]

/-- Velocity autocorrelations and Fourier transformed velocities. -/
def velocities : List (Str × Node ℚ) := [
  ("velocityAutocorrelation".toList, .group [
    ("measurementTime".toList, .scalar (.float 5)), ("snapshotCount".toList, .scalar (.int 10))]),
  ("fourierTransformedVelocity".toList, .group [
    ("k_n".toList, .list [.array [.float 1, .float 0, .float 0], .array [.float 0, .float 1, .float 0]])])]

/-- A configuration with measurements. -/
def measuring (fluid : List (Str × Node ℚ)) (settings : List (Str × Node ℚ)) : Node ℚ :=
  sample (1 / 10) 10 30 30 30 (sheared 0) fluid [("instrumentation".toList, .group settings)]

/-- A simple fluid, measured as configured; the hypotheses of `C139_started` can be met. -/
example : measure rational .simple (measuring [("simple".toList, .group [])] (velocities ++ [
      ("normalModeAutocorrelation".toList, .group [
        ("measureEveryNthSweep".toList, .scalar (.int 2)), ("autocorrelationArgumentCount".toList, .scalar (.int 3))])])) =
    .ok ⟨none, some ((2, 3), 0), some [(1, 0, 0), (0, 1, 0)], some (5, 10), [], none, none⟩ ∧
    start exact (canMeasure rational) (measuring [("simple".toList, .group [])] velocities) =
      .ok ⟨⟨30, 30, 30, 1 / 10, 227 / 100, 1, 1, 1⟩, 0, some (.simple, 270000), none⟩ := by
  constructor <;> decide +kernel

/-- Rods in the example's box. -/
def rodGroup : Node ℚ := .group [
  ("meanBondLength".toList, .scalar (.float 1)), ("springConstant".toList, .scalar (.float 1)),
  ("mdStepCount".toList, .scalar (.int 10))]

/-- Rods with all of the measurements; the hypotheses of `C139_required_violated` can be met. -/
example : start exact (canMeasure rational) (measuring [("gaussianRods".toList, rodGroup)]
      (velocities ++ [("gaussianRods".toList, .group [("bondLengthHistogram".toList, histogramGroup)])])) =
    .ok ⟨⟨30, 30, 30, 1 / 10, 227 / 100, 1, 1, 1⟩, 0, some (.rods 1 1 10, 270000), none⟩ := by
  decide +kernel

/-- A simulation of rods that would start, were it not for measurements that nobody has asked for. -/
example : start exact (fun _ _ _ => true) (measuring [("gaussianRods".toList, rodGroup)] []) =
      .ok ⟨⟨30, 30, 30, 1 / 10, 227 / 100, 1, 1, 1⟩, 0, some (.rods 1 1 10, 270000), none⟩ ∧
    start exact (canMeasure rational) (measuring [("gaussianRods".toList, rodGroup)] []) = .error .other ∧
    start exact (canMeasure rational) (measuring [("gaussianRods".toList, rodGroup)] velocities) = .error .other := by
  refine ⟨?_, ?_, ?_⟩ <;> decide +kernel

/-- Profiles, as configured. -/
example : instrumentation (measuring [("simple".toList, .group [])] [
      ("velocityMagnitudeHistogram".toList, histogramGroup),
      ("flowProfile".toList, .group [("sweepCountPerOutput".toList, .scalar (.int 7))]),
      ("densityProfile".toList, .group [("cellSubdivision".toList, .group [
        ("x".toList, .scalar (.int 1)), ("y".toList, .scalar (.int 2)), ("z".toList, .scalar (.int 3))])])]) true =
    .ok ⟨some ⟨10, 0, 5⟩, some (1, 2, 3), some ((1, 1, 1), 7)⟩ := by
  decide +kernel

/-- **Violated: what is configured is measured.** Measurements of another kind of fluid, or of a fluid that is not there,
are accepted, though they will not be made; so is a misspelt setting within a measurement; and a histogram without bins. -/
theorem C139_ignored_violated :
    (∃ root : Node ℚ, Star.Settings.Has root (inGroup ["dumbbellBondLengthHistogram"]) ∧
      (∃ s, start exact (canMeasure rational) root = .ok s ∧ s.fluid = some (.simple, 270000)) ∧
      instrumentation root true = .ok ⟨none, none, none⟩) ∧
    (∃ root : Node ℚ, Star.Settings.Has root (inGroup ["velocityMagnitudeHistogram"]) ∧
      instrumentation root false = .ok ⟨none, none, none⟩) ∧
    (∃ root : Node ℚ, Star.Settings.Has root (inGroup ["densityProfile", "cellSubdivisions"]) ∧
      instrumentation root true = .ok ⟨none, some (1, 1, 1), none⟩) ∧
    (∃ root : Node ℚ, instrumentation root true = .ok ⟨some ⟨0, 0, 5⟩, none, none⟩) := by
  refine ⟨⟨measuring [("simple".toList, .group [])] [("dumbbellBondLengthHistogram".toList, histogramGroup)], ?_,
      ⟨⟨⟨30, 30, 30, 1 / 10, 227 / 100, 1, 1, 1⟩, 0, some (.simple, 270000), none⟩, ?_, rfl⟩, ?_⟩,
    ⟨measuring [] [("velocityMagnitudeHistogram".toList, histogramGroup)], ?_, ?_⟩,
    ⟨measuring [("simple".toList, .group [])] [("densityProfile".toList, .group [("cellSubdivisions".toList, .group [
      ("x".toList, .scalar (.int 2)), ("y".toList, .scalar (.int 2)), ("z".toList, .scalar (.int 2))])])], ?_, ?_⟩,
    ⟨measuring [("simple".toList, .group [])] [("velocityMagnitudeHistogram".toList, .group [
      ("binCount".toList, .scalar (.int 0)), ("low".toList, .scalar (.float 0)), ("high".toList, .scalar (.float 5))])], ?_⟩⟩
  · rw [← rootHas (name := "instrumentation.dumbbellBondLengthHistogram".toList) (by decide +kernel) (by decide +kernel)]
    decide +kernel
  · decide +kernel
  · decide +kernel
  · rw [← rootHas (name := "instrumentation.velocityMagnitudeHistogram".toList) (by decide +kernel) (by decide +kernel)]
    decide +kernel
  · decide +kernel
  · rw [← rootHas (name := "instrumentation.densityProfile.cellSubdivisions".toList) (by decide +kernel) (by decide +kernel)]
    decide +kernel
  · decide +kernel
  · decide +kernel

/-- An unknown setting is refused. -/
example : instrumentation (measuring [("simple".toList, .group [])]
    [("totalFluidVelocityMagnitudeVSTime".toList, .group [])]) true = .error (.config .invalidConfiguration) := by
  decide +kernel

end OpenMPCD.Sim.Measurements
