import Verif.Sim.Startup
import Verif.Config.Model
import Verif.Star.Model
import Mathlib.Algebra.Order.Field.Basic

/-!
# Configuring star polymers (C136)

The constructor of `OpenMPCD::CUDA::MPCSolute::StarPolymers`, and what the analysis reads of the same settings.

Simplifications: reading a snapshot is modelled in `Verif/Star/Snapshot.lean` and generating positions in
`Verif/Star/Initial.lean`; here it is a parameter whether a snapshot can be read. The boundary conditions are those of Lees
and Edwards, there being no others in a simulation (`C105_boundary`). Numbers are exact; in particular, the magnitude of a
vector is zero only if the vector is. The library is compiled without `OPENMPCD_DEBUG`.
-/

set_option linter.unusedSectionVars false
set_option linter.unusedSimpArgs false
set_option linter.unusedVariables false

namespace OpenMPCD.Star.Settings

open Config.Cpp Sim.Startup

variable {F : Type}

/-! ## Model -/

/-- `Setting::read<FP>` (`include/OpenMPCD/Configuration.hpp:130-182`). -/
def getFloat (n : Node F) (name : Str) : Except Err F :=
  match n.read .float name with
  | .error e => .error e
  | .ok (.float x) => .ok x
  | .ok _ => .error .invalidConfiguration

/-- `Setting::read<bool>` (`include/OpenMPCD/Configuration.hpp:130-182`). -/
def getBool (n : Node F) (name : Str) : Except Err Bool :=
  match n.read .bool name with
  | .error e => .error e
  | .ok (.bool x) => .ok x
  | .ok _ => .error .invalidConfiguration

/-- `Setting::read<std::string>` (`include/OpenMPCD/Configuration.hpp:130-182`). -/
def getString (n : Node F) (name : Str) : Except Err Str :=
  match n.read .string name with
  | .error e => .error e
  | .ok (.string x) => .ok x
  | .ok _ => .error .invalidConfiguration

/-- `Setting::read` into a `std::size_t` (`include/OpenMPCD/Configuration.hpp:203-209`): a setting of type `int` that is
negative is read as zero. -/
def getNat (n : Node F) (name : Str) : Except Err ℕ :=
  match n.read .int name with
  | .error e => .error e
  | .ok (.int i) => .ok i.toNat
  | .ok _ => .error .invalidConfiguration

/-- `List::read<FP>` (`include/OpenMPCD/Configuration.hpp:399-417,463-469`). -/
def floatAt (n : Node F) (i : ℕ) : Except Err F :=
  match n.readAt .float i with
  | .error e => .error e
  | .ok (.float x) => .ok x
  | .ok _ => .error .invalidConfiguration

/-- The `structure` group (`src/OpenMPCD/CUDA/MPCSolute/StarPolymers.cu:215-221`). -/
structure Structure (F : Type) where
  starCount : ℕ
  armCountPerStar : ℕ
  armParticlesPerArm : ℕ
  hasMagneticParticles : Bool
  particleMass : F
  deriving DecidableEq

/-- The `interactionParameters` group (`src/OpenMPCD/CUDA/MPCSolute/StarPolymers.cu:242-274`), with the orientation of the
dipoles before it is normalised. -/
structure Interaction (F : Type) where
  epsilon_core : F
  epsilon_arm : F
  epsilon_magnetic : F
  sigma_core : F
  sigma_arm : F
  sigma_magnetic : F
  D_core : F
  D_arm : F
  D_magnetic : F
  magneticPrefactor : F
  dipoleOrientation : F × F × F
  deriving DecidableEq

/-- An instance of `StarPolymers`. -/
structure Solute (F : Type) where
  mdTimeStepSize : F
  structure_ : Structure F
  interaction : Interaction F
  initialState : Option Str
  deriving DecidableEq

/-- The mass (`src/OpenMPCD/CUDA/MPCSolute/StarPolymers.cu:197,220-221`). -/
def readMass [One F] (n : Node F) : Except StartErr F := do
  let there ← conf (n.has "structure.particleMass".toList)
  if there then conf (getFloat n "structure.particleMass".toList) else return 1

/-- `src/OpenMPCD/CUDA/MPCSolute/StarPolymers.cu:215-221`. -/
def readStructure [One F] (n : Node F) : Except StartErr (Structure F) := do
  let stars ← conf (getNat n "structure.starCount".toList)
  let arms ← conf (getNat n "structure.armCountPerStar".toList)
  let particles ← conf (getNat n "structure.armParticlesPerArm".toList)
  let magnetic ← conf (getBool n "structure.hasMagneticParticles".toList)
  let mass ← readMass n
  return ⟨stars, arms, particles, magnetic, mass⟩

/-- The orientation (`src/OpenMPCD/CUDA/MPCSolute/StarPolymers.cu:262-273`). `Setting::getList`
(`include/OpenMPCD/Configuration.hpp:812-822`) does not check that the setting is a list. Reading an element of something
else fails. -/
def readOrientation [Zero F] [One F] (n : Node F) : Except StartErr (F × F × F) := do
  let there ← conf (n.has "interactionParameters.dipoleOrientation".toList)
  if there then
    let l ← conf (n.getSetting "interactionParameters.dipoleOrientation".toList)
    let x ← conf (floatAt l 0)
    let y ← conf (floatAt l 1)
    let z ← conf (floatAt l 2)
    return (x, y, z)
  else return (0, 0, 1)

/-- `src/OpenMPCD/CUDA/MPCSolute/StarPolymers.cu:242-274`; the last line is `Vector3D::normalize`
(`include/OpenMPCD/Vector3D.hpp:248-258`). -/
def readInteraction [DecidableEq F] [Zero F] [One F] (n : Node F) : Except StartErr (Interaction F) := do
  let ec ← conf (getFloat n "interactionParameters.epsilon_core".toList)
  let ea ← conf (getFloat n "interactionParameters.epsilon_arm".toList)
  let em ← conf (getFloat n "interactionParameters.epsilon_magnetic".toList)
  let sc ← conf (getFloat n "interactionParameters.sigma_core".toList)
  let sa ← conf (getFloat n "interactionParameters.sigma_arm".toList)
  let sm ← conf (getFloat n "interactionParameters.sigma_magnetic".toList)
  let dc ← conf (getFloat n "interactionParameters.D_core".toList)
  let da ← conf (getFloat n "interactionParameters.D_arm".toList)
  let dm ← conf (getFloat n "interactionParameters.D_magnetic".toList)
  let prefactor ← conf (getFloat n "interactionParameters.magneticPrefactor".toList)
  let dipole ← readOrientation n
  refuseIf (dipole = (0, 0, 0)) .other
  return ⟨ec, ea, em, sc, sa, sm, dc, da, dm, prefactor, dipole⟩

/-- The numbers by which particles are counted and numbered (`src/OpenMPCD/CUDA/MPCSolute/StarPolymers.cu:223`; see
`Verif/Star/Model.lean`). -/
def Structure.geometry (s : Structure F) : Geometry :=
  ⟨s.starCount, s.armCountPerStar, s.armParticlesPerArm, s.hasMagneticParticles⟩

/-- The initial state (`src/OpenMPCD/CUDA/MPCSolute/StarPolymers.cu:285-298`). `load` is whether there is a snapshot in the
file for so many particles. -/
def readInitial (load : Str → Structure F → Bool) (n : Node F) (s : Structure F) : Except StartErr (Option Str) := do
  let there ← conf (n.has "initialState".toList)
  if there then
    let path ← conf (getString n "initialState".toList)
    refuseIf (¬ load path s = true) .other
    return some path
  else return none

/-- The constructor (`src/OpenMPCD/CUDA/MPCSolute/StarPolymers.cu:193-306`). -/
def construct [LinearOrder F] [Zero F] [One F] (load : Str → Structure F → Bool) (n : Node F) :
    Except StartErr (Solute F) := do
  let dt ← conf (getFloat n "mdTimeStepSize".toList)
  refuseIf (dt ≤ 0) (.config .invalidConfiguration)
  let s ← readStructure n
  let i ← readInteraction n
  let initial ← readInitial load n s
  return ⟨dt, s, i, initial⟩

/-! ## The analysis -/

section Analysis

open Config (Comp Scalar Conf)

mutual

/-- The same setting in the analysis: the program and the analysis read the same file. -/
def toPy : Node ℚ → Config.Value
  | .scalar (.bool b) => .scalar (.bool b)
  | .scalar (.int i) => .scalar (.int i)
  | .scalar (.int64 i) => .scalar (.int i)
  | .scalar (.float x) => .scalar (.float x)
  | .scalar (.string s) => .scalar (.str (String.ofList s))
  | .group l => .group (toPyGroup l)
  | .list l => .list false (toPyList l)
  | .array l => .list true (l.map toPyScalar)

/-- The children of a group. -/
def toPyGroup : List (Str × Node ℚ) → List (Comp × Config.Value)
  | [] => []
  | (k, m) :: l => (.name (String.ofList k), toPy m) :: toPyGroup l

/-- The elements of a list. -/
def toPyList : List (Node ℚ) → List Config.Value
  | [] => []
  | m :: l => toPy m :: toPyList l

/-- A scalar. -/
def toPyScalar : Value ℚ → Config.Value
  | .bool b => .scalar (.bool b)
  | .int i => .scalar (.int i)
  | .int64 i => .scalar (.int i)
  | .float x => .scalar (.float x)
  | .string s => .scalar (.str (String.ofList s))

end

/-- `value == 1` in Python. -/
def isOne : Config.Value → Bool
  | .scalar (.int i) => i = 1
  | .scalar (.float x) => x = 1
  | .scalar (.bool b) => b
  | _ => false

/-- Reading a setting, `self._config["a.b"]` (`Analysis/MPCDAnalysis/StarPolymers.py:51,63,75,103,115`). -/
def item (c : Conf) (a b : String) : Except PyErr Config.Value := c.getitem [.name a, .name b]

/-- `__init__` (`Analysis/MPCDAnalysis/StarPolymers.py:9-42`) for an instance of `Configuration`. The copy that is stored is
the configuration itself here, since configurations are values. -/
def analysis (c : Conf) : Except PyErr Conf := do
  let stars ← item c "structure" "starCount"
  if isOne stars then return c else .error .notImplementedError

/-- A number of particles, which takes part in sums and products. Simplification: whole numbers only. -/
def whole : Config.Value → Except PyErr ℤ
  | .scalar (.int i) => .ok i
  | .scalar (.bool b) => .ok (if b then 1 else 0)
  | _ => .error .typeError

/-- `if value:` in Python. Simplification: groups and lists as for dictionaries and lists of Python. -/
def truthy : Config.Value → Bool
  | .scalar (.bool b) => b
  | .scalar (.int i) => i ≠ 0
  | .scalar (.float x) => x ≠ 0
  | .scalar (.str s) => s ≠ ""
  | .group l => l ≠ []
  | .list _ l => l ≠ []

/-- `getTotalParticleCount` (`Analysis/MPCDAnalysis/StarPolymers.py:80-93,120-139`). -/
def totalParticleCount (c : Conf) : Except PyErr ℤ := do
  let stars ← (item c "structure" "starCount").bind whole
  let arms ← (item c "structure" "armCountPerStar").bind whole
  let particles ← (item c "structure" "armParticlesPerArm").bind whole
  let magnetic ← item c "structure" "hasMagneticParticles"
  return stars * (1 + arms * (if truthy magnetic then particles + 1 else particles))

/-- `getParticleMass` (`Analysis/MPCDAnalysis/StarPolymers.py:108-117`). -/
def particleMass (c : Conf) : Except PyErr Config.Value := item c "structure" "particleMass"

end Analysis

/-! ## Specification -/

/-- The setting that is reached by going from group to group by these names. -/
def At : Node F → List Str → Node F → Prop
  | n, [], m => n = m
  | n, c :: cs, m => ∃ k, n.child c = some k ∧ At k cs m

/-- There is a setting. -/
def Has (n : Node F) (path : List Str) : Prop := ∃ m, At n path m

/-- A setting in the group `structure`, or in the group `interactionParameters`. -/
def inStructure (name : String) : List Str := ["structure".toList, name.toList]
def inInteraction (name : String) : List Str := ["interactionParameters".toList, name.toList]

/-- A floating-point number. -/
def IsFloat (n : Node F) (path : List Str) (x : F) : Prop := At n path (.scalar (.float x))

/-- A number of something; negative numbers count as zero. -/
def IsCount (n : Node F) (path : List Str) (k : ℕ) : Prop := ∃ i : ℤ, At n path (.scalar (.int i)) ∧ k = i.toNat

/-- An optional setting with its default value. -/
def Optional {α : Type} (n : Node F) (path : List Str) (default : α) (is : α → Prop) (a : α) : Prop :=
  (Has n path ∧ is a) ∨ (¬ Has n path ∧ a = default)

/-- The structure configured. -/
structure StructureConfigured [One F] (n : Node F) (s : Structure F) : Prop where
  starCount : IsCount n (inStructure "starCount") s.starCount
  armCountPerStar : IsCount n (inStructure "armCountPerStar") s.armCountPerStar
  armParticlesPerArm : IsCount n (inStructure "armParticlesPerArm") s.armParticlesPerArm
  hasMagneticParticles : At n (inStructure "hasMagneticParticles") (.scalar (.bool s.hasMagneticParticles))
  particleMass : Optional n (inStructure "particleMass") 1 (IsFloat n (inStructure "particleMass")) s.particleMass

/-- A list, or an array, that begins with the components of the vector. -/
def IsVector (n : Node F) (path : List Str) (v : F × F × F) : Prop :=
  ∃ l rest, At n path l ∧
    l.elements = .scalar (.float v.1) :: .scalar (.float v.2.1) :: .scalar (.float v.2.2) :: rest

/-- The interactions configured. -/
structure InteractionConfigured [Zero F] [One F] (n : Node F) (i : Interaction F) : Prop where
  epsilon_core : IsFloat n (inInteraction "epsilon_core") i.epsilon_core
  epsilon_arm : IsFloat n (inInteraction "epsilon_arm") i.epsilon_arm
  epsilon_magnetic : IsFloat n (inInteraction "epsilon_magnetic") i.epsilon_magnetic
  sigma_core : IsFloat n (inInteraction "sigma_core") i.sigma_core
  sigma_arm : IsFloat n (inInteraction "sigma_arm") i.sigma_arm
  sigma_magnetic : IsFloat n (inInteraction "sigma_magnetic") i.sigma_magnetic
  D_core : IsFloat n (inInteraction "D_core") i.D_core
  D_arm : IsFloat n (inInteraction "D_arm") i.D_arm
  D_magnetic : IsFloat n (inInteraction "D_magnetic") i.D_magnetic
  magneticPrefactor : IsFloat n (inInteraction "magneticPrefactor") i.magneticPrefactor
  dipoleOrientation : Optional n (inInteraction "dipoleOrientation") (0, 0, 1)
    (IsVector n (inInteraction "dipoleOrientation")) i.dipoleOrientation
  notZero : i.dipoleOrientation ≠ (0, 0, 0)

/-- The stars configured. -/
structure Configured [LinearOrder F] [Zero F] [One F] (load : Str → Structure F → Bool) (n : Node F) (s : Solute F) :
    Prop where
  mdTimeStepSize : IsFloat n ["mdTimeStepSize".toList] s.mdTimeStepSize
  positive : 0 < s.mdTimeStepSize
  structure_ : StructureConfigured n s.structure_
  interaction : InteractionConfigured n s.interaction
  initialState : Optional n ["initialState".toList] none
    (fun o => ∃ path, o = some path ∧ At n ["initialState".toList] (.scalar (.string path)) ∧
      load path s.structure_ = true) s.initialState

/-! ## Proofs -/

theorem parts_starCount : parts "structure.starCount".toList = ["structure".toList, "starCount".toList] := by decide +kernel
theorem parts_armCountPerStar : parts "structure.armCountPerStar".toList = ["structure".toList, "armCountPerStar".toList] := by decide +kernel
theorem parts_armParticlesPerArm : parts "structure.armParticlesPerArm".toList = ["structure".toList, "armParticlesPerArm".toList] := by decide +kernel
theorem parts_hasMagneticParticles : parts "structure.hasMagneticParticles".toList = ["structure".toList, "hasMagneticParticles".toList] := by decide +kernel
theorem parts_particleMass : parts "structure.particleMass".toList = ["structure".toList, "particleMass".toList] := by decide +kernel
theorem parts_epsilon_core : parts "interactionParameters.epsilon_core".toList = ["interactionParameters".toList, "epsilon_core".toList] := by decide +kernel
theorem parts_epsilon_arm : parts "interactionParameters.epsilon_arm".toList = ["interactionParameters".toList, "epsilon_arm".toList] := by decide +kernel
theorem parts_epsilon_magnetic : parts "interactionParameters.epsilon_magnetic".toList = ["interactionParameters".toList, "epsilon_magnetic".toList] := by decide +kernel
theorem parts_sigma_core : parts "interactionParameters.sigma_core".toList = ["interactionParameters".toList, "sigma_core".toList] := by decide +kernel
theorem parts_sigma_arm : parts "interactionParameters.sigma_arm".toList = ["interactionParameters".toList, "sigma_arm".toList] := by decide +kernel
theorem parts_sigma_magnetic : parts "interactionParameters.sigma_magnetic".toList = ["interactionParameters".toList, "sigma_magnetic".toList] := by decide +kernel
theorem parts_D_core : parts "interactionParameters.D_core".toList = ["interactionParameters".toList, "D_core".toList] := by decide +kernel
theorem parts_D_arm : parts "interactionParameters.D_arm".toList = ["interactionParameters".toList, "D_arm".toList] := by decide +kernel
theorem parts_D_magnetic : parts "interactionParameters.D_magnetic".toList = ["interactionParameters".toList, "D_magnetic".toList] := by decide +kernel
theorem parts_magneticPrefactor : parts "interactionParameters.magneticPrefactor".toList = ["interactionParameters".toList, "magneticPrefactor".toList] := by decide +kernel
theorem parts_dipoleOrientation : parts "interactionParameters.dipoleOrientation".toList = ["interactionParameters".toList, "dipoleOrientation".toList] := by decide +kernel
theorem parts_mdTimeStepSize : parts "mdTimeStepSize".toList = ["mdTimeStepSize".toList] := by decide +kernel
theorem parts_initialState : parts "initialState".toList = ["initialState".toList] := by decide +kernel

/-- No part of the path is empty. -/
def Proper (path : List Str) : Prop := ∀ c ∈ path, c ≠ []

instance (path : List Str) : Decidable (Proper path) := by unfold Proper; infer_instance

theorem proper_starCount : Proper (inStructure "starCount") := by decide +kernel
theorem proper_armCountPerStar : Proper (inStructure "armCountPerStar") := by decide +kernel
theorem proper_armParticlesPerArm : Proper (inStructure "armParticlesPerArm") := by decide +kernel
theorem proper_hasMagneticParticles : Proper (inStructure "hasMagneticParticles") := by decide +kernel
theorem proper_particleMass : Proper (inStructure "particleMass") := by decide +kernel
theorem proper_epsilon_core : Proper (inInteraction "epsilon_core") := by decide +kernel
theorem proper_epsilon_arm : Proper (inInteraction "epsilon_arm") := by decide +kernel
theorem proper_epsilon_magnetic : Proper (inInteraction "epsilon_magnetic") := by decide +kernel
theorem proper_sigma_core : Proper (inInteraction "sigma_core") := by decide +kernel
theorem proper_sigma_arm : Proper (inInteraction "sigma_arm") := by decide +kernel
theorem proper_sigma_magnetic : Proper (inInteraction "sigma_magnetic") := by decide +kernel
theorem proper_D_core : Proper (inInteraction "D_core") := by decide +kernel
theorem proper_D_arm : Proper (inInteraction "D_arm") := by decide +kernel
theorem proper_D_magnetic : Proper (inInteraction "D_magnetic") := by decide +kernel
theorem proper_magneticPrefactor : Proper (inInteraction "magneticPrefactor") := by decide +kernel
theorem proper_dipoleOrientation : Proper (inInteraction "dipoleOrientation") := by decide +kernel
theorem proper_mdTimeStepSize : Proper ["mdTimeStepSize".toList] := by decide +kernel
theorem proper_initialState : Proper ["initialState".toList] := by decide +kernel

theorem At_unique {n : Node F} {path : List Str} {m m' : Node F} (h : At n path m) (h' : At n path m') : m = m' := by
  induction path generalizing n with
  | nil => rw [← (show n = m from h), ← (show n = m' from h')]
  | cons c cs ih =>
    obtain ⟨k, hk, h⟩ := h
    obtain ⟨k', hk', h'⟩ := h'
    rw [hk] at hk'
    cases hk'
    exact ih h h'

theorem readParts_ok {path : List Str} (hp : Proper path) (hne : path ≠ []) (n : Node F) (k : Kind) (v : Value F) :
    n.readParts k path = .ok v ↔ At n path (.scalar v) ∧ v.kind = k := by
  induction path generalizing n with
  | nil => exact absurd rfl hne
  | cons c cs ih =>
    cases cs with
    | nil =>
      simp only [Node.readParts, At]
      cases h : n.child c with
      | none => simp
      | some m =>
        simp only [Option.some.injEq, exists_eq_left']
        cases m with
        | scalar w =>
          simp only [Node.asKind, Node.scalar.injEq]
          by_cases hw : w.kind = k
          · rw [if_pos hw]
            exact ⟨fun h => by cases h; exact ⟨rfl, hw⟩, fun h => by rw [h.1]⟩
          · rw [if_neg hw]
            exact ⟨nofun, fun h => absurd (h.1 ▸ h.2) hw⟩
        | _ => simp [Node.asKind]
    | cons d cs =>
      have h1 : c ≠ [] := hp c (by simp)
      have h2 : d :: cs ≠ [[]] := by
        intro e
        cases e
        exact hp [] (by simp) rfl
      rw [Node.readParts, if_neg (by simp only [h1, h2, or_self, not_false_eq_true]), At]
      cases h : n.child c with
      | none => simp
      | some m =>
        simp only [Option.some.injEq, exists_eq_left']
        exact ih (fun x hx => hp x (List.mem_cons_of_mem _ hx)) (by simp) m

theorem hasParts_ok {path : List Str} (hp : Proper path) (hne : path ≠ []) (n : Node F) (b : Bool) :
    n.hasParts path = .ok b ↔ (b = true ↔ Has n path) := by
  unfold Has
  induction path generalizing n with
  | nil => exact absurd rfl hne
  | cons c cs ih =>
    cases cs with
    | nil =>
      simp only [Node.hasParts, At]
      cases h : n.child c with
      | none => cases b <;> simp
      | some m => cases b <;> simp
    | cons d cs =>
      have h1 : c ≠ [] := hp c (by simp)
      have h2 : d :: cs ≠ [[]] := by
        intro e
        cases e
        exact hp [] (by simp) rfl
      rw [Node.hasParts, if_neg (by simp only [h1, h2, or_self, not_false_eq_true])]
      cases h : n.child c with
      | none =>
        simp only [At, h]
        cases b <;> simp
      | some m =>
        have e : ∀ x, At n (c :: d :: cs) x ↔ At m (d :: cs) x := by
          intro x
          rw [At, h]
          simp only [Option.some.injEq, exists_eq_left']
        simp only [e]
        exact ih (fun x hx => hp x (List.mem_cons_of_mem _ hx)) (by simp) m

theorem lookup_ok {path : List Str} (hp : Proper path) (n m : Node F) : n.lookup path = some m ↔ At n path m := by
  induction path generalizing n with
  | nil => simp [Node.lookup, At]
  | cons c cs ih =>
    rw [Node.lookup, if_neg (hp c (by simp)), At]
    cases h : n.child c with
    | none => simp
    | some k =>
      simp only [Option.some.injEq, exists_eq_left']
      exact ih (fun x hx => hp x (List.mem_cons_of_mem _ hx)) k

section Reading

variable {name : Str} {path : List Str}

theorem read_ok (e : parts name = path) (hp : Proper path) (n : Node F) (k : Kind) (v : Value F) :
    n.read k name = .ok v ↔ At n path (.scalar v) ∧ v.kind = k := by
  rw [Node.read, e]
  exact readParts_ok hp (by rw [← e]; exact splitChar_ne_nil _ _) n k v

theorem has_ok (e : parts name = path) (hp : Proper path) (n : Node F) (b : Bool) :
    conf (n.has name) = .ok b ↔ (b = true ↔ Has n path) := by
  rw [conf_ok, Node.has, e]
  exact hasParts_ok hp (by rw [← e]; exact splitChar_ne_nil _ _) n b

theorem getFloat_ok (e : parts name = path) (hp : Proper path) (n : Node F) (x : F) :
    conf (getFloat n name) = .ok x ↔ IsFloat n path x := by
  rw [conf_ok, getFloat, IsFloat]
  have h := read_ok e hp n .float
  cases hr : n.read .float name with
  | error err =>
    refine ⟨nofun, fun hx => ?_⟩
    rw [(h _).2 ⟨hx, rfl⟩] at hr
    cases hr
  | ok v =>
    obtain ⟨h1, h2⟩ := (h v).1 hr
    cases v with
    | float y =>
      refine ⟨fun hy => by cases hy; exact h1, fun hx => ?_⟩
      cases At_unique h1 hx
      rfl
    | _ => cases h2

theorem getBool_ok (e : parts name = path) (hp : Proper path) (n : Node F) (x : Bool) :
    conf (getBool n name) = .ok x ↔ At n path (.scalar (.bool x)) := by
  rw [conf_ok, getBool]
  have h := read_ok e hp n .bool
  cases hr : n.read .bool name with
  | error err =>
    refine ⟨nofun, fun hx => ?_⟩
    rw [(h _).2 ⟨hx, rfl⟩] at hr
    cases hr
  | ok v =>
    obtain ⟨h1, h2⟩ := (h v).1 hr
    cases v with
    | bool y =>
      refine ⟨fun hy => by cases hy; exact h1, fun hx => ?_⟩
      cases At_unique h1 hx
      rfl
    | _ => cases h2

theorem getString_ok (e : parts name = path) (hp : Proper path) (n : Node F) (x : Str) :
    conf (getString n name) = .ok x ↔ At n path (.scalar (.string x)) := by
  rw [conf_ok, getString]
  have h := read_ok e hp n .string
  cases hr : n.read .string name with
  | error err =>
    refine ⟨nofun, fun hx => ?_⟩
    rw [(h _).2 ⟨hx, rfl⟩] at hr
    cases hr
  | ok v =>
    obtain ⟨h1, h2⟩ := (h v).1 hr
    cases v with
    | string y =>
      refine ⟨fun hy => by cases hy; exact h1, fun hx => ?_⟩
      cases At_unique h1 hx
      rfl
    | _ => cases h2

theorem getNat_ok (e : parts name = path) (hp : Proper path) (n : Node F) (x : ℕ) :
    conf (getNat n name) = .ok x ↔ IsCount n path x := by
  rw [conf_ok, getNat, IsCount]
  have h := read_ok e hp n .int
  cases hr : n.read .int name with
  | error err =>
    refine ⟨nofun, fun ⟨i, hx, _⟩ => ?_⟩
    rw [(h _).2 ⟨hx, rfl⟩] at hr
    cases hr
  | ok v =>
    obtain ⟨h1, h2⟩ := (h v).1 hr
    cases v with
    | int y =>
      refine ⟨fun hy => by cases hy; exact ⟨y, h1, rfl⟩, fun ⟨i, hx, hi⟩ => ?_⟩
      cases At_unique h1 hx
      rw [hi]
    | _ => cases h2

theorem getSetting_ok (e : parts name = path) (hp : Proper path) (n m : Node F) :
    conf (n.getSetting name) = .ok m ↔ At n path m := by
  rw [conf_ok, Node.getSetting, e]
  have h := fun b => has_ok e hp n b
  simp only [conf_ok] at h
  by_cases hh : Has n path
  · rw [(h true).2 (by simpa using hh), ← lookup_ok hp]
    cases n.lookup path <;> simp
  · rw [(h false).2 (by simpa using hh)]
    exact ⟨nofun, fun hm => absurd ⟨m, hm⟩ hh⟩

end Reading

theorem floatAt_ok (l : Node F) (i : ℕ) (x : F) :
    conf (floatAt l i) = .ok x ↔ l.elements[i]? = some (.scalar (.float x)) := by
  rw [conf_ok, floatAt, Node.readAt]
  cases h : l.elements[i]? with
  | none => simp
  | some m =>
    cases m with
    | scalar w => cases w <;> simp [Node.asKind, Value.kind]
    | _ => simp [Node.asKind]

theorem three_elements {α : Type} (l : List α) (a b c : α) :
    (l[0]? = some a ∧ l[1]? = some b ∧ l[2]? = some c) ↔ ∃ rest, l = a :: b :: c :: rest := by
  match l with
  | [] => simp
  | [_] => simp
  | [_, _] => simp
  | x :: y :: z :: rest => simp

theorem readMass_ok [One F] (n : Node F) (x : F) : readMass n = .ok x ↔
    Optional n (inStructure "particleMass") 1 (IsFloat n (inStructure "particleMass")) x := by
  unfold readMass Optional
  rw [bind_ok]
  simp only [has_ok parts_particleMass proper_particleMass]
  constructor
  · rintro ⟨b, hb, h⟩
    cases b with
    | true => exact .inl ⟨hb.1 rfl, (getFloat_ok parts_particleMass proper_particleMass n x).1 h⟩
    | false => exact .inr ⟨fun hh => Bool.false_ne_true (hb.2 hh), ((pure_ok _ _).1 h).symm⟩
  · rintro (⟨hh, h⟩ | ⟨hh, rfl⟩)
    · exact ⟨true, ⟨fun _ => hh, fun _ => rfl⟩, (getFloat_ok parts_particleMass proper_particleMass n x).2 h⟩
    · exact ⟨false, ⟨nofun, fun h => absurd h hh⟩, rfl⟩

theorem readStructure_ok [One F] (n : Node F) (s : Structure F) :
    readStructure n = .ok s ↔ StructureConfigured n s := by
  unfold readStructure
  simp only [bind_ok, pure_ok, getNat_ok parts_starCount proper_starCount,
    getNat_ok parts_armCountPerStar proper_armCountPerStar, getNat_ok parts_armParticlesPerArm proper_armParticlesPerArm,
    getBool_ok parts_hasMagneticParticles proper_hasMagneticParticles, readMass_ok]
  constructor
  · rintro ⟨a, ha, b, hb, c, hc, d, hd, e, he, rfl⟩
    exact ⟨ha, hb, hc, hd, he⟩
  · rintro ⟨ha, hb, hc, hd, he⟩
    exact ⟨_, ha, _, hb, _, hc, _, hd, _, he, rfl⟩

theorem readOrientation_ok [Zero F] [One F] (n : Node F) (v : F × F × F) : readOrientation n = .ok v ↔
    Optional n (inInteraction "dipoleOrientation") (0, 0, 1) (IsVector n (inInteraction "dipoleOrientation")) v := by
  unfold readOrientation Optional
  rw [bind_ok]
  simp only [has_ok parts_dipoleOrientation proper_dipoleOrientation]
  have key : ∀ l : Node F, (∃ x, conf (floatAt l 0) = .ok x ∧ ∃ y, conf (floatAt l 1) = .ok y ∧
      ∃ z, conf (floatAt l 2) = .ok z ∧ (x, y, z) = v) ↔ ∃ rest, l.elements =
      .scalar (.float v.1) :: .scalar (.float v.2.1) :: .scalar (.float v.2.2) :: rest := by
    intro l
    simp only [floatAt_ok]
    rw [← three_elements]
    constructor
    · rintro ⟨x, hx, y, hy, z, hz, rfl⟩
      exact ⟨hx, hy, hz⟩
    · rintro ⟨hx, hy, hz⟩
      exact ⟨_, hx, _, hy, _, hz, rfl⟩
  constructor
  · rintro ⟨b, hb, h⟩
    cases b with
    | true =>
      refine .inl ⟨hb.1 rfl, ?_⟩
      simp only [if_true, bind_ok, pure_ok] at h
      obtain ⟨l, hl, h⟩ := h
      obtain ⟨rest, hr⟩ := (key l).1 h
      exact ⟨l, rest, (getSetting_ok parts_dipoleOrientation proper_dipoleOrientation n l).1 hl, hr⟩
    | false => exact .inr ⟨fun hh => Bool.false_ne_true (hb.2 hh), ((pure_ok _ _).1 h).symm⟩
  · rintro (⟨hh, l, rest, hl, hr⟩ | ⟨hh, rfl⟩)
    · refine ⟨true, ⟨fun _ => hh, fun _ => rfl⟩, ?_⟩
      simp only [if_true, bind_ok, pure_ok]
      exact ⟨l, (getSetting_ok parts_dipoleOrientation proper_dipoleOrientation n l).2 hl, (key l).2 ⟨rest, hr⟩⟩
    · exact ⟨false, ⟨nofun, fun h => absurd h hh⟩, rfl⟩

theorem readInteraction_ok [DecidableEq F] [Zero F] [One F] (n : Node F) (i : Interaction F) :
    readInteraction n = .ok i ↔ InteractionConfigured n i := by
  unfold readInteraction
  simp only [bind_ok, pure_ok, refuseIf_ok, readOrientation_ok,
    getFloat_ok parts_epsilon_core proper_epsilon_core,
    getFloat_ok parts_epsilon_arm proper_epsilon_arm,
    getFloat_ok parts_epsilon_magnetic proper_epsilon_magnetic,
    getFloat_ok parts_sigma_core proper_sigma_core,
    getFloat_ok parts_sigma_arm proper_sigma_arm,
    getFloat_ok parts_sigma_magnetic proper_sigma_magnetic,
    getFloat_ok parts_D_core proper_D_core,
    getFloat_ok parts_D_arm proper_D_arm,
    getFloat_ok parts_D_magnetic proper_D_magnetic,
    getFloat_ok parts_magneticPrefactor proper_magneticPrefactor]
  constructor
  · rintro ⟨_, h1, _, h2, _, h3, _, h4, _, h5, _, h6, _, h7, _, h8, _, h9, _, h10, _, h11, _, h12, rfl⟩
    exact ⟨h1, h2, h3, h4, h5, h6, h7, h8, h9, h10, h11, h12⟩
  · rintro ⟨h1, h2, h3, h4, h5, h6, h7, h8, h9, h10, h11, h12⟩
    exact ⟨_, h1, _, h2, _, h3, _, h4, _, h5, _, h6, _, h7, _, h8, _, h9, _, h10, _, h11, (), h12, rfl⟩

theorem readInitial_ok (load : Str → Structure F → Bool) (n : Node F) (s : Structure F) (o : Option Str) :
    readInitial load n s = .ok o ↔ Optional n ["initialState".toList] none
      (fun o => ∃ path, o = some path ∧ At n ["initialState".toList] (.scalar (.string path)) ∧ load path s = true) o := by
  unfold readInitial Optional
  rw [bind_ok]
  simp only [has_ok parts_initialState proper_initialState]
  constructor
  · rintro ⟨b, hb, h⟩
    cases b with
    | true =>
      simp only [if_true, bind_ok, pure_ok, refuseIf_ok, not_not,
        getString_ok parts_initialState proper_initialState] at h
      obtain ⟨path, hp, _, hl, rfl⟩ := h
      exact .inl ⟨hb.1 rfl, path, rfl, hp, hl⟩
    | false => exact .inr ⟨fun hh => Bool.false_ne_true (hb.2 hh), ((pure_ok _ _).1 h).symm⟩
  · rintro (⟨hh, path, rfl, hp, hl⟩ | ⟨hh, rfl⟩)
    · refine ⟨true, ⟨fun _ => hh, fun _ => rfl⟩, ?_⟩
      simp only [if_true, bind_ok, pure_ok, refuseIf_ok, not_not,
        getString_ok parts_initialState proper_initialState]
      exact ⟨path, hp, (), hl, rfl⟩
    · exact ⟨false, ⟨nofun, fun h => absurd h hh⟩, rfl⟩

/-- Star polymers are set up exactly if everything they need is configured, and then with what is configured. -/
theorem C136_configured [LinearOrder F] [Zero F] [One F] (load : Str → Structure F → Bool) (n : Node F) (s : Solute F) :
    construct load n = .ok s ↔ Configured load n s := by
  unfold construct
  simp only [bind_ok, pure_ok, refuseIf_ok, not_le, readStructure_ok, readInteraction_ok, readInitial_ok,
    getFloat_ok parts_mdTimeStepSize proper_mdTimeStepSize]
  constructor
  · rintro ⟨_, h1, _, h2, _, h3, _, h4, _, h5, rfl⟩
    exact ⟨h1, h2, h3, h4, h5⟩
  · rintro ⟨h1, h2, h3, h4, h5⟩
    exact ⟨_, h1, (), h2, _, h3, _, h4, _, h5, rfl⟩

/-! ## The simulation -/

/-- What starting a simulation knows of the star polymers (`Verif/Sim/Startup.lean`). -/
def withStars [LinearOrder F] [Zero F] [One F] (E : Env F) (load : Str → Structure F → Bool) : Env F :=
  { E with starPolymers := fun m => (construct load m).map (·.mdTimeStepSize) }

/-- In a simulation that has been started with star polymers, these are the ones configured, and their time step is
positive. -/
theorem C136_simulation [LinearOrder F] [Zero F] [One F] (E : Env F) (load : Str → Structure F → Bool)
    (measure : Fluid F → ℕ → Node F → Bool) (root : Node F) (sim : Simulation F)
    (h : start (withStars E load) measure root = .ok sim) {dt : F} {k : ℕ} (hs : sim.solute = some (dt, k)) :
    0 < dt ∧ ∃ m s, At root ["solute".toList, "StarPolymers".toList] m ∧ Configured load m s ∧
      s.mdTimeStepSize = dt := by
  obtain ⟨ρ, -, hS⟩ := (C105_starts _ measure root sim).1 h
  have hso := hS.solute
  rw [hs] at hso
  obtain ⟨m, hm, hc, -, -⟩ := hso
  obtain ⟨s, hs', rfl⟩ := (map_ok _ _ _).1 (show (construct load m).map (·.mdTimeStepSize) = .ok dt from hc)
  have hC := (C136_configured load m s).1 hs'
  refine ⟨hC.positive, m, s, ?_, hC, rfl⟩
  have p1 : parts "solute".toList = ["solute".toList] := by decide +kernel
  have p2 : "solute".toList ≠ [] := by decide +kernel
  rw [p1, lookup_ok (by intro c hc; rw [List.mem_singleton.1 hc]; exact p2)] at hm
  obtain ⟨g, hg, hm⟩ := hm
  refine ⟨g, hg, m, ?_, rfl⟩
  rw [show g = .group [("StarPolymers".toList, m)] from hm]
  exact child_head _ _ _

/-! ## Simulation and analysis -/

section Analysis

open Config (Comp Scalar Conf)

theorem dictGet_toPy (l : List (Str × Node ℚ)) (c : Str) :
    Config.dictGet (toPyGroup l) (.name (String.ofList c)) = (childOf c l).map toPy := by
  induction l with
  | nil => simp [toPyGroup, Config.dictGet, childOf]
  | cons x l ih =>
    obtain ⟨k, m⟩ := x
    simp only [toPyGroup, Config.dictGet, childOf, Comp.name.injEq, String.ofList_inj, ih]
    split <;> rfl

/-- A setting is there in the analysis, too. -/
theorem item_of_at {n : Node ℚ} {a b : String} {m : Node ℚ} (h : At n [a.toList, b.toList] m) (root : Bool) :
    item ⟨root, toPy n⟩ a b = .ok (toPy m) := by
  obtain ⟨g, hg, m', hm, rfl⟩ := h
  cases n with
  | group l =>
    cases g with
    | group l' =>
      have h1 := dictGet_toPy l a.toList
      have h2 := dictGet_toPy l' b.toList
      rw [show childOf a.toList l = some (.group l') from hg, String.ofList_toList] at h1
      rw [show childOf b.toList l' = some m' from hm, String.ofList_toList] at h2
      unfold item Conf.getitem
      cases root
      · simp [toPy, Config.getFrom, h1, h2]
      · simp [toPy, Config.lookup, h1, h2]
    | _ => simp [Node.child] at hm
  | _ => simp [Node.child] at hg

/-- A setting that is missing from a group that is there. -/
theorem item_missing {n : Node ℚ} {a b : String} {l : List (Str × Node ℚ)} (h : At n [a.toList] (.group l))
    (hb : ¬ Has n [a.toList, b.toList]) (root : Bool) : item ⟨root, toPy n⟩ a b = .error .keyError := by
  obtain ⟨g, hg, rfl⟩ := h
  have hn : childOf b.toList l = none := by
    cases hc : childOf b.toList l with
    | none => rfl
    | some m => exact absurd ⟨m, _, hg, m, hc, rfl⟩ hb
  cases n with
  | group l' =>
    have h1 := dictGet_toPy l' a.toList
    have h2 := dictGet_toPy l b.toList
    rw [show childOf a.toList l' = some (.group l) from hg, String.ofList_toList] at h1
    rw [hn, String.ofList_toList] at h2
    unfold item Conf.getitem
    cases root
    · simp [toPy, Config.getFrom, h1, h2]
    · simp [toPy, Config.lookup, h1, h2]
  | _ => simp [Node.child] at hg

/-- The number of particles of stars, each of which has a core, and arms. -/
def particles (stars arms perArm : ℕ) (magnetic : Bool) : ℕ :=
  stars * (1 + arms * (perArm + if magnetic then 1 else 0))

/-- No number is negative. -/
def CountsNonneg (n : Node ℚ) : Prop :=
  ∀ name i, At n (inStructure name) (.scalar (.int i)) → 0 ≤ i

/-- The analysis takes star polymers that can be simulated exactly if there is one star. -/
theorem C136_analysis (load : Str → Structure ℚ → Bool) (n : Node ℚ) (s : Solute ℚ)
    (h : construct load n = .ok s) (root : Bool) :
    analysis ⟨root, toPy n⟩ =
      if s.structure_.starCount = 1 then .ok ⟨root, toPy n⟩ else .error .notImplementedError := by
  obtain ⟨i, hi, hk⟩ := ((C136_configured load n s).1 h).structure_.starCount
  unfold analysis
  rw [item_of_at hi root]
  show (if isOne (toPy (.scalar (.int i))) = true then _ else _) = _
  have : isOne (toPy (.scalar (.int i))) = true ↔ s.structure_.starCount = 1 := by
    rw [hk]
    simp only [toPy, isOne, decide_eq_true_eq]
    omega
  by_cases h1 : s.structure_.starCount = 1
  · rw [if_pos h1, if_pos (this.2 h1)]; rfl
  · rw [if_neg h1, if_neg (fun h => h1 (this.1 h))]

/-- Simulation and analysis agree on the numbers of particles, if no number is negative, and on the mass, if it is
configured. Missing: see `C136_negative_violated` and `C136_default_mass_violated`. -/
theorem C136_agree_partial (load : Str → Structure ℚ → Bool) (n : Node ℚ) (s : Solute ℚ)
    (h : construct load n = .ok s) (root : Bool) (hn : CountsNonneg n) :
    totalParticleCount ⟨root, toPy n⟩ = .ok s.structure_.geometry.getParticleCount ∧
    s.structure_.geometry.getParticleCount = particles s.structure_.starCount s.structure_.armCountPerStar
      s.structure_.armParticlesPerArm s.structure_.hasMagneticParticles ∧
    (Has n (inStructure "particleMass") →
      particleMass ⟨root, toPy n⟩ = .ok (.scalar (.float s.structure_.particleMass))) := by
  have hs := ((C136_configured load n s).1 h).structure_
  obtain ⟨a, ha, ha'⟩ := hs.starCount
  obtain ⟨b, hb, hb'⟩ := hs.armCountPerStar
  obtain ⟨c, hc, hc'⟩ := hs.armParticlesPerArm
  have hd := hs.hasMagneticParticles
  have na := hn _ _ ha
  have nb := hn _ _ hb
  have nc := hn _ _ hc
  have ea : (s.structure_.starCount : ℤ) = a := by omega
  have eb : (s.structure_.armCountPerStar : ℤ) = b := by omega
  have ec : (s.structure_.armParticlesPerArm : ℤ) = c := by omega
  have hcount : s.structure_.geometry.getParticleCount = particles s.structure_.starCount s.structure_.armCountPerStar
      s.structure_.armParticlesPerArm s.structure_.hasMagneticParticles := by
    unfold Geometry.getParticleCount Geometry.getParticleCountPerStar Structure.geometry particles
    cases s.structure_.hasMagneticParticles <;> rfl
  refine ⟨?_, hcount, ?_⟩
  · rw [hcount]
    unfold totalParticleCount
    rw [item_of_at ha root, item_of_at hb root, item_of_at hc root, item_of_at hd root]
    show Except.ok (a * (1 + b * (if truthy (toPy (.scalar (.bool s.structure_.hasMagneticParticles))) = true
      then c + 1 else c))) = _
    unfold particles
    congr 1
    push_cast
    rw [ea, eb, ec]
    simp only [toPy, truthy]
    cases s.structure_.hasMagneticParticles <;> simp
  · intro hm
    rcases hs.particleMass with ⟨-, hx⟩ | ⟨hx, -⟩
    · unfold particleMass
      rw [item_of_at hx root]
      simp only [toPy]
    · exact absurd hm hx

/-- If no mass is configured, the particles of the simulation have mass 1; the analysis fails when asked for it. -/
theorem C136_default_mass_violated (load : Str → Structure ℚ → Bool) (n : Node ℚ) (s : Solute ℚ)
    (h : construct load n = .ok s) (root : Bool) (hm : ¬ Has n (inStructure "particleMass")) :
    s.structure_.particleMass = 1 ∧ particleMass ⟨root, toPy n⟩ = .error .keyError := by
  have hs := ((C136_configured load n s).1 h).structure_
  constructor
  · rcases hs.particleMass with ⟨hx, -⟩ | ⟨-, hx⟩
    · exact absurd hx hm
    · exact hx
  · obtain ⟨i, ⟨g, hg, m, hm', -⟩, -⟩ := hs.starCount
    cases g with
    | group l => exact item_missing (l := l) ⟨_, hg, rfl⟩ hm root
    | _ => simp [Node.child] at hm'

end Analysis

/-! ## Cases -/

/-- Stars with these numbers, and with a mass, if any. -/
def stars (count arms perArm : ℤ) (magnetic : Bool) (mass : List (Str × Node ℚ)) (orientation : List (Str × Node ℚ)) :
    Node ℚ := .group [
  ("mdTimeStepSize".toList, .scalar (.float (1 / 100))),
  ("structure".toList, .group ([
    ("starCount".toList, .scalar (.int count)), ("armCountPerStar".toList, .scalar (.int arms)),
    ("armParticlesPerArm".toList, .scalar (.int perArm)),
    ("hasMagneticParticles".toList, .scalar (.bool magnetic))] ++ mass)),
  ("interactionParameters".toList, .group ([
    ("epsilon_core".toList, .scalar (.float 1)), ("epsilon_arm".toList, .scalar (.float 2)),
    ("epsilon_magnetic".toList, .scalar (.float 3)), ("sigma_core".toList, .scalar (.float 4)),
    ("sigma_arm".toList, .scalar (.float 5)), ("sigma_magnetic".toList, .scalar (.float 6)),
    ("D_core".toList, .scalar (.float 7)), ("D_arm".toList, .scalar (.float 8)),
    ("D_magnetic".toList, .scalar (.float 9)), ("magneticPrefactor".toList, .scalar (.float 10))] ++ orientation))]

/-- The interactions of these stars. -/
def between (orientation : ℚ × ℚ × ℚ) : Interaction ℚ := ⟨1, 2, 3, 4, 5, 6, 7, 8, 9, 10, orientation⟩

/-- A mass. -/
def mass (x : ℚ) : List (Str × Node ℚ) := [("particleMass".toList, .scalar (.float x))]

/-- Five arms of seven particles. -/
example : construct (fun _ _ => false) (stars 1 5 7 true (mass 3) []) =
    .ok ⟨1 / 100, ⟨1, 5, 7, true, 3⟩, between (0, 0, 1), none⟩ := by decide +kernel

/-- The same with an orientation, and no mass. -/
example : construct (fun _ _ => false) (stars 1 5 7 true []
    [("dipoleOrientation".toList, .array [.float 0, .float 2, .float 0])]) =
    .ok ⟨1 / 100, ⟨1, 5, 7, true, 1⟩, between (0, 2, 0), none⟩ := by decide +kernel

/-- An orientation that is none. -/
example : construct (fun _ _ => false) (stars 1 5 7 true []
    [("dipoleOrientation".toList, .array [.float 0, .float 0, .float 0])]) = .error .other := by decide +kernel

/-- An orientation of whole numbers. -/
example : construct (fun _ _ => false) (stars 1 5 7 true []
    [("dipoleOrientation".toList, .array [.int 0, .int 0, .int 1])]) = .error (.config .invalidConfiguration) := by
  decide +kernel

/-- Stars without mass, and with negative mass, are accepted. -/
theorem C136_mass_violated : ∃ (n n' : Node ℚ) (s s' : Solute ℚ),
    construct (fun _ _ => false) n = .ok s ∧ s.structure_.particleMass = 0 ∧
    construct (fun _ _ => false) n' = .ok s' ∧ s'.structure_.particleMass < 0 :=
  ⟨stars 1 5 7 true (mass 0) [], stars 1 5 7 true (mass (-1)) [], ⟨1 / 100, ⟨1, 5, 7, true, 0⟩, between (0, 0, 1), none⟩,
    ⟨1 / 100, ⟨1, 5, 7, true, -1⟩, between (0, 0, 1), none⟩, by decide +kernel, rfl, by decide +kernel,
    show (-1 : ℚ) < 0 by norm_num⟩

/-- No stars at all are accepted, and so is a negative number of stars. -/
theorem C136_no_stars_violated : ∃ (n n' : Node ℚ) (s : Solute ℚ),
    construct (fun _ _ => false) n = .ok s ∧ construct (fun _ _ => false) n' = .ok s ∧
    At n (inStructure "starCount") (.scalar (.int 0)) ∧ At n' (inStructure "starCount") (.scalar (.int (-3))) ∧
    s.structure_.geometry.getParticleCount = 0 :=
  ⟨stars 0 5 7 true [] [], stars (-3) 5 7 true [] [], ⟨1 / 100, ⟨0, 5, 7, true, 1⟩, between (0, 0, 1), none⟩,
    by decide +kernel, by decide +kernel, ⟨_, child_second (by decide +kernel) _ _ _, _, child_head _ _ _, rfl⟩,
    ⟨_, child_second (by decide +kernel) _ _ _, _, child_head _ _ _, rfl⟩, by decide +kernel⟩

/-- With a negative number of arms, the simulation has a star that is just a core, and the analysis counts no particle. -/
theorem C136_negative_violated : ∃ (n : Node ℚ) (s : Solute ℚ), construct (fun _ _ => false) n = .ok s ∧
    s.structure_.geometry.getParticleCount = 1 ∧
    ∀ root, analysis ⟨root, toPy n⟩ = .ok ⟨root, toPy n⟩ ∧ totalParticleCount ⟨root, toPy n⟩ = .ok 0 := by
  have h : construct (fun _ _ => false) (stars 1 (-1) 1 false [] []) =
    .ok ⟨1 / 100, ⟨1, 0, 1, false, 1⟩, between (0, 0, 1), none⟩ := by decide +kernel
  refine ⟨_, _, h, by decide +kernel, fun root => ⟨?_, ?_⟩⟩
  · rw [C136_analysis _ _ _ h root, if_pos rfl]
  · cases root <;> decide +kernel

theorem childOf_mem {name : Str} {l : List (Str × Node F)} {m : Node F} (h : childOf name l = some m) : (name, m) ∈ l := by
  induction l with
  | nil => cases h
  | cons x l ih =>
    obtain ⟨k, m'⟩ := x
    rw [childOf] at h
    split at h
    · rename_i hk
      cases h
      rw [hk]
      exact List.mem_cons_self
    · exact List.mem_cons_of_mem _ (ih h)

/-- The hypotheses of `C136_agree_partial`. -/
example : CountsNonneg (stars 1 5 7 true (mass 3) []) ∧ Has (stars 1 5 7 true (mass 3) []) (inStructure "particleMass") ∧
    totalParticleCount ⟨true, toPy (stars 1 5 7 true (mass 3) [])⟩ = .ok 41 := by
  have hs : (stars 1 5 7 true (mass 3) []).child "structure".toList = some (.group [
      ("starCount".toList, .scalar (.int 1)), ("armCountPerStar".toList, .scalar (.int 5)),
      ("armParticlesPerArm".toList, .scalar (.int 7)), ("hasMagneticParticles".toList, .scalar (.bool true)),
      ("particleMass".toList, .scalar (.float 3))]) := child_second (by decide +kernel) _ _ _
  refine ⟨?_, ?_, by decide +kernel⟩
  · rintro name i ⟨g, hg, m, hm, rfl⟩
    rw [hs] at hg
    cases hg
    have key : ∀ p ∈ [("starCount".toList, Node.scalar (.int 1)), ("armCountPerStar".toList, .scalar (.int 5)),
      ("armParticlesPerArm".toList, .scalar (.int 7)), ("hasMagneticParticles".toList, .scalar (.bool true)),
      ("particleMass".toList, .scalar (.float (3 : ℚ)))], ∀ i, p.2 = .scalar (.int i) → 0 ≤ i := by
      refine List.forall_mem_cons.2 ⟨?_, List.forall_mem_cons.2 ⟨?_, List.forall_mem_cons.2 ⟨?_,
        List.forall_mem_cons.2 ⟨?_, List.forall_mem_cons.2 ⟨?_, nofun⟩⟩⟩⟩⟩
      all_goals
        intro i h
        cases h
      all_goals decide
    exact key _ (childOf_mem hm) i rfl
  · refine (hasParts_ok (proper_particleMass) (by simp [inStructure]) _ true).1 ?_ |>.1 rfl
    decide +kernel

/-- The hypotheses of `C136_default_mass_violated`. -/
example : ∃ s, construct (fun _ _ => false) (stars 1 5 7 true [] []) = .ok s ∧
    ¬ Has (stars 1 5 7 true [] []) (inStructure "particleMass") := by
  refine ⟨⟨1 / 100, ⟨1, 5, 7, true, 1⟩, between (0, 0, 1), none⟩, by decide +kernel, fun h => ?_⟩
  have := (hasParts_ok (proper_particleMass) (by simp [inStructure]) (stars 1 5 7 true [] []) false).1
    (by decide +kernel)
  exact Bool.false_ne_true (this.2 h)

/-- The hypotheses of `C136_simulation`: 100 time steps of the stars per time step of the fluid. -/
example : start (withStars exact (fun _ _ => false)) (fun _ _ _ => true)
    (sample 1 10 30 30 30 (sheared 0) [("simple".toList, .group [])]
      [("solute".toList, .group [("StarPolymers".toList, stars 1 5 7 true [] [])])]) =
    .ok ⟨⟨30, 30, 30, 1, 227 / 100, 1, 1, 1⟩, 0, some (.simple, 270000), some (1 / 100, 100)⟩ := by
  decide +kernel

end OpenMPCD.Star.Settings
