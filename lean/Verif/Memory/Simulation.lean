import Verif.Memory.Props
import Mathlib.Data.Finset.Sort
import Mathlib.Tactic.Common

/-!
# C142: a simulation gives back the device memory it took

Which device memory is requested while a `Simulation` is constructed, and given back when it is destroyed or
when its constructor throws: the simulation's own buffers, those of the fluid and of the fluid's
instrumentation, and those of the star polymers. The calls to the CUDA runtime go through the model of
`DeviceMemoryManager` in `Verif/Memory/Model.lean`.

Not modelled: host memory; the `DeviceBuffer` instances of the mean square displacement and the normal mode
measurement; what the kernels do with the buffers; errors reported by the CUDA runtime other than a failing
`cudaMalloc`. That `new` fails on the device (it returns `NULL` then, and the kernel constructs an object
through it, which is undefined) is modelled as a `NULL` pointer.
-/

set_option linter.unusedSectionVars false
set_option linter.unusedSimpArgs false
set_option linter.unusedVariables false

namespace OpenMPCD.Memory.Simulation

open OpenMPCD.Memory

/-! ## Model -/

/-- The members that hold pointers to device memory: of `MPCFluid::Base`
(`src/OpenMPCD/CUDA/MPCFluid/Base.cu:31-34`), `MPCFluid::GaussianChains`
(`src/OpenMPCD/CUDA/MPCFluid/GaussianChains.cu:49`), the instrumentation of the fluid
(`src/OpenMPCD/CUDA/MPCFluid/Instrumentation/FourierTransformedVelocity/Base.cpp:21-22`,
`src/OpenMPCD/CUDA/MPCFluid/Instrumentation/VelocityAutocorrelation/Base.cu:24,48`), `Simulation`
(`src/OpenMPCD/CUDA/Simulation.cu:176-237`), and `MPCSolute::StarPolymers`
(`src/OpenMPCD/CUDA/MPCSolute/StarPolymers.cu:227-230,276-282`). -/
inductive Slot where
  | positions | velocities | accelerations
  | fourierReal | fourierImag | snapshot (i : ℕ) | currentVelocities
  | gpurngs | gridShift | velocityShift | cellIndices | cellParticleCounts | cellMomenta | cellEnergies
  | cellMasses | rotationAxes | velocityScalings | velocityShiftSolute | cellIndicesSolute
  | solutePositions | soluteVelocities | soluteForces1 | soluteForces2
  | wcaTable | feneTable | magneticTable
  | wca (i : ℕ) | feneCoreArm | feneArmArm | feneArmMagnetic | magnetic
  deriving DecidableEq

/-- Who keeps track of a piece of device memory. -/
inductive Owner where
  | simulation | solute | nobody
  deriving DecidableEq

/-- The memory manager a piece of memory is requested from: the one of the simulation, which is handed to the
fluid (`src/OpenMPCD/CUDA/MPCFluid/Factory.cpp:23-49`), the one of the solute
(`include/OpenMPCD/CUDA/MPCSolute/Base.hpp:199`), or none: the tables of potentials
(`include/OpenMPCD/CUDA/MPCSolute/ImplementationDetails/StarPolymers_Implementation.hpp:366-368`) and the
potentials. -/
def owner : Slot → Owner
  | .solutePositions | .soluteVelocities | .soluteForces1 | .soluteForces2 => .solute
  | .wcaTable | .feneTable | .magneticTable | .wca _ | .feneCoreArm | .feneArmArm | .feneArmMagnetic
  | .magnetic => .nobody
  | _ => .simulation

/-- The calls to the runtime so far, what the two memory managers have registered, and the pointers. -/
structure World where
  log : List Event
  simulation : Finset ℕ
  solute : Finset ℕ
  pointer : Slot → ℕ

/-- What `cudaMalloc` answers, depending on all that happened so far and the size requested. -/
abbrev Runtime := List Event → ℕ → Answer

/-- What the constructors and destructors do. -/
inductive Action where
  /-- `allocateMemory(&slot, n)`, or `allocateMemoryUnregistered`, depending on the owner. -/
  | allocate (s : Slot) (n : ℕ)
  /-- `slot = new ...` on the device. -/
  | create (s : Slot)
  /-- `slot = NULL`. -/
  | setNull (s : Slot)
  /-- Throw if the condition is not met. -/
  | require (ok : Bool)
  /-- `freeMemory(slot)`, `freeMemoryUnregistered(slot)`, or `delete slot` on the device. -/
  | free (s : Slot)
  /-- The destructor of the memory manager of the solute. -/
  | closeSolute

def World.set (w : World) (s : Slot) (p : ℕ) : World := { w with pointer := Function.update w.pointer s p }

/-- The result of an allocation, put into a pointer. -/
def World.put (w : World) (s : Slot) : State × Except Err ℕ → World × Except Err Unit
  | (m, r) =>
    let w := match owner s with
      | .simulation => { w with log := m.log, simulation := m.allocatedBuffers }
      | .solute => { w with log := m.log, solute := m.allocatedBuffers }
      | .nobody => { w with log := m.log }
    match r with
    | .error e => (w, .error e)
    | .ok p => (w.set s p, .ok ())

/-- One action. -/
def perform (cuda : Runtime) : Action → World → World × Except Err Unit
  | .allocate s n, w => match owner s with
    | .simulation => w.put s (allocate n (cuda w.log n) ⟨w.simulation, false, w.log⟩)
    | .solute => w.put s (allocate n (cuda w.log n) ⟨w.solute, true, w.log⟩)
    | .nobody =>
      let r := allocateUnregistered n (cuda w.log n) w.log
      w.put s (⟨∅, false, r.1⟩, r.2)
  | .create s, w => match cuda w.log 1 with
    | none => (w.set s 0, .ok ())
    | some p => (World.set { w with log := w.log ++ [.malloc p] } s p, .ok ())
  | .setNull s, w => (w.set s 0, .ok ())
  | .require ok, w => (w, if ok then .ok () else .error .memoryManagement)
  | .free s, w => match owner s with
    | .simulation =>
      let r := free (w.pointer s) ⟨w.simulation, false, w.log⟩
      ({ w with log := r.1.log, simulation := r.1.allocatedBuffers }, r.2)
    | .solute =>
      let r := free (w.pointer s) ⟨w.solute, true, w.log⟩
      ({ w with log := r.1.log, solute := r.1.allocatedBuffers }, r.2)
    | .nobody => ({ w with log := freeUnregistered (w.pointer s) w.log }, .ok ())
  | .closeSolute, w =>
    ({ w with log := (destroy (w.solute.sort (· ≤ ·)) ⟨w.solute, true, w.log⟩).1, solute := ∅ }, .ok ())

/-- Actions one after the other; the first exception ends it. -/
def performAll (cuda : Runtime) : List Action → World → World × Except Err Unit
  | [], w => (w, .ok ())
  | a :: as, w => match perform cuda a w with
    | (w, .ok ()) => performAll cuda as w
    | (w, .error e) => (w, .error e)

/-- Code with stack unwinding: `guarded p undo` does `p`; if this throws, the destructors of the objects that
are complete are run (`undo`), and the exception goes on. -/
inductive Code where
  | acts (as : List Action)
  | seq (p q : Code)
  | guarded (p : Code) (undo : List Action)

def run (cuda : Runtime) : Code → World → World × Except Err Unit
  | .acts as, w => performAll cuda as w
  | .seq p q, w => match run cuda p w with
    | (w, .ok ()) => run cuda q w
    | (w, .error e) => (w, .error e)
  | .guarded p undo, w => match run cuda p w with
    | (w, .ok ()) => (w, .ok ())
    | (w, .error e) => ((performAll cuda undo w).1, .error e)

/-- A fluid, as far as it matters for memory: whether it consists of Gaussian chains, whether its constructor
accepts the configuration, whether the Fourier transformed velocities are measured and their configuration is
accepted, the number of snapshots of the velocity autocorrelation, if measured, and whether its configuration
is accepted, the number of constituents these two distinguish, and whether the bond lengths of the chains can be
measured, if configured. -/
structure Fluid where
  chains : Bool
  accepted : Bool
  fourier : Bool
  fourierAccepted : Bool
  snapshots : Option ℕ
  snapshotsAccepted : Bool
  constituents : ℕ
  bondsAccepted : Bool

/-- `FourierTransformedVelocity::Base::Base`
(`src/OpenMPCD/CUDA/MPCFluid/Instrumentation/FourierTransformedVelocity/Base.cpp:14-23`). -/
def Fluid.makeFourier (f : Fluid) : List Action :=
  if f.fourier then
    [.require f.fourierAccepted, .allocate .fourierReal (3 * f.constituents),
      .allocate .fourierImag (3 * f.constituents)]
  else []

/-- Its destructor (lines 25-29). -/
def Fluid.deleteFourier (f : Fluid) : List Action :=
  if f.fourier then [.free .fourierReal, .free .fourierImag] else []

/-- `VelocityAutocorrelation::Base::Base` and `Snapshot::Snapshot`
(`src/OpenMPCD/CUDA/MPCFluid/Instrumentation/VelocityAutocorrelation/Base.cu:21-25,32-50,86-111`). -/
def Fluid.makeAutocorrelation (f : Fluid) : List Action :=
  match f.snapshots with
  | none => []
  | some k =>
    .require f.snapshotsAccepted ::
      ((List.range k).map (fun i => .allocate (.snapshot i) (3 * f.constituents)) ++
        [.allocate .currentVelocities (3 * f.constituents)])

/-- Their destructors (`src/OpenMPCD/CUDA/MPCFluid/Instrumentation/VelocityAutocorrelation/Base.cu:27-30,52-58`). -/
def Fluid.deleteAutocorrelation (f : Fluid) : List Action :=
  match f.snapshots with
  | none => []
  | some k => .free .currentVelocities :: (List.range k).map fun i => .free (.snapshot i)

/-- The constructors of the instrumentation (`src/OpenMPCD/CUDA/MPCFluid/Instrumentation/Simple.cu:9-19`,
`src/OpenMPCD/CUDA/MPCFluid/Instrumentation/GaussianChains.cpp:8-45`, and the others likewise). Its base class
sets all pointers to `NULL` first (`include/OpenMPCD/CUDA/MPCFluid/Instrumentation/Base.hpp:46-53`), and is complete
when one of these constructors throws, so that what it points to is deleted (`include/OpenMPCD/CUDA/MPCFluid/Instrumentation/Base.hpp:74-80`). -/
def Fluid.makeInstrumentation (f : Fluid) : Code :=
  .seq (.acts f.makeFourier)
    (.seq (.guarded (.acts f.makeAutocorrelation) f.deleteFourier)
      (.guarded (.acts [.require f.bondsAccepted]) (f.deleteFourier ++ f.deleteAutocorrelation)))

/-- `Instrumentation::Base::~Base` (`include/OpenMPCD/CUDA/MPCFluid/Instrumentation/Base.hpp:74-80`). -/
def Fluid.deleteInstrumentation (f : Fluid) : List Action := f.deleteFourier ++ f.deleteAutocorrelation

/-- The constructor of a fluid of `n` particles (`src/OpenMPCD/CUDA/MPCFluid/Base.cu:15-35`, then
`src/OpenMPCD/CUDA/MPCFluid/GaussianChains.cu:15-50`, `src/OpenMPCD/CUDA/MPCFluid/Simple.cu:16-34`, and the others
likewise). If the latter throws, `MPCFluid::Base::~Base` is run, which also deletes the instrumentation, if complete. -/
def Fluid.make (f : Fluid) (n : ℕ) : Code :=
  .seq (.acts [.allocate .positions (3 * n), .allocate .velocities (3 * n)])
    (.seq (.guarded (.seq (.acts [.require f.accepted]) f.makeInstrumentation)
        [.free .positions, .free .velocities])
      (.guarded (.acts (if f.chains then [.allocate .accelerations (3 * n)] else []))
        (f.deleteInstrumentation ++ [.free .positions, .free .velocities])))

/-- The destructor of a fluid (`src/OpenMPCD/CUDA/MPCFluid/GaussianChains.cu:52-55`, `src/OpenMPCD/CUDA/MPCFluid/Base.cu:37-46`). -/
def Fluid.delete (f : Fluid) : List Action :=
  (if f.chains then [.free .accelerations] else []) ++ f.deleteInstrumentation ++
    [.free .positions, .free .velocities]

/-- Star polymers: the number of particles, whether the settings read before the buffers are requested are
accepted, whether the initial state is, and whether the step size divides the one of the simulation
(`src/OpenMPCD/CUDA/Simulation.cu:219-222`). -/
structure Solute where
  particles : ℕ
  accepted : Bool
  initialStateAccepted : Bool
  stepAccepted : Bool

/-- `createInteractionsOnDevice` and its kernel
(`include/OpenMPCD/CUDA/MPCSolute/ImplementationDetails/StarPolymers_Implementation.hpp:315-346,362-377`). -/
def makePotentials : List Action :=
  [.allocate .wcaTable 6, .allocate .feneTable 6, .allocate .magneticTable 1] ++
    (List.range 6).map (fun i => .create (.wca i)) ++
    [.create .feneCoreArm, .create .feneArmArm, .create .feneArmMagnetic, .create .magnetic]

/-- `destroyInteractionsOnDevice` and its kernel
(`include/OpenMPCD/CUDA/MPCSolute/ImplementationDetails/StarPolymers_Implementation.hpp:400-465`). -/
def deletePotentials : List Action :=
  (List.range 6).map (fun i => .free (.wca i)) ++
    [.free .feneCoreArm, .free .feneArmArm, .free .feneArmMagnetic, .free .magnetic] ++
    [.free .wcaTable, .free .feneTable, .free .magneticTable]

/-- The constructor of star polymers (`src/OpenMPCD/CUDA/MPCSolute/StarPolymers.cu:194-306`). The memory manager
belongs to the base class, which is complete when it throws. -/
def Solute.make (p : Solute) : Code :=
  .guarded
    (.acts ([.require p.accepted, .allocate .solutePositions (3 * p.particles),
        .allocate .soluteVelocities (3 * p.particles), .allocate .soluteForces1 (3 * p.particles),
        .allocate .soluteForces2 (3 * p.particles)] ++ makePotentials ++
      [.require p.initialStateAccepted]))
    [.closeSolute]

/-- The destructor of star polymers (`src/OpenMPCD/CUDA/MPCSolute/StarPolymers.cu:309-313`), and of its base class, with the
memory manager. -/
def Solute.delete : List Action := deletePotentials ++ [.closeSolute]

/-- A simulation: the numbers of collision cells and of fluid particles, the fluid and the solute, if any, and
whether the particle density is as it has to be (`src/OpenMPCD/CUDA/Simulation.cu:146-172`). -/
structure Setup where
  cells : ℕ
  particles : ℕ
  fluid : Option Fluid
  densityAccepted : Bool
  solute : Option Solute

/-- The buffers of the simulation (`src/OpenMPCD/CUDA/Simulation.cu:176-214`). -/
def Setup.makeBuffers (c : Setup) : List Action :=
  [.allocate .gpurngs c.cells, .allocate .gridShift 3, .allocate .velocityShift c.particles,
    .allocate .cellIndices c.particles, .allocate .cellParticleCounts c.cells,
    .allocate .cellMomenta (3 * c.cells), .allocate .cellEnergies c.cells, .allocate .cellMasses c.cells,
    .allocate .rotationAxes (3 * c.cells), .allocate .velocityScalings c.cells,
    .setNull .velocityShiftSolute, .setNull .cellIndicesSolute]

/-- The constructor (`src/OpenMPCD/CUDA/Simulation.cu:34-44,116-239`). When it throws, no destructor but those of the members is
run; `mpcFluid` and `mpcSolute` are plain pointers. -/
def Setup.make (c : Setup) : Code :=
  .seq (match c.fluid with | none => .acts [] | some f => f.make c.particles)
    (.seq (.acts (.require c.densityAccepted :: c.makeBuffers))
      (match c.solute with
        | none => .acts []
        | some p => .seq p.make (.acts [.require p.stepAccepted, .allocate .velocityShiftSolute p.particles,
            .allocate .cellIndicesSolute p.particles])))

/-- The destructor (`src/OpenMPCD/CUDA/Simulation.cu:46-75`). -/
def Setup.delete (c : Setup) : List Action :=
  (match c.fluid with | none => [] | some f => f.delete) ++
    (match c.solute with | none => [] | some _ => Solute.delete) ++
    [.free .gpurngs, .free .gridShift, .free .velocityShift, .free .cellIndices, .free .cellParticleCounts,
      .free .cellMomenta, .free .rotationAxes, .free .velocityScalings, .free .cellEnergies, .free .cellMasses,
      .free .velocityShiftSolute, .free .cellIndicesSolute]

/-- What the destructor of the memory manager of the simulation reports on standard error. -/
def reported (w : World) : List ℕ :=
  (destroy (w.simulation.sort (· ≤ ·)) ⟨w.simulation, false, w.log⟩).2

/-! ## Specification -/

/-- The runtime honours its contract: memory handed out is not `NULL` and not allocated at the moment. -/
def Honest (cuda : Runtime) : Prop :=
  ∀ log L n, live log ∅ = some L → AnswerOk L (cuda log n)

/-- Memory is never short. -/
def Plenty (cuda : Runtime) : Prop := ∀ log n, ∃ p, cuda log n = some p

/-- The state of affairs before a simulation is constructed: the device memory `L` is in use by others, the
pointers are not initialised. -/
def Before (L : Finset ℕ) (w : World) : Prop :=
  live w.log ∅ = some L ∧ 0 ∉ L ∧ w.simulation = ∅ ∧ w.solute = ∅

/-- Others request and give back memory, but they free nothing of what is in `H`, and are not handed `NULL`. -/
def Others (H : Finset ℕ) (es : List Event) : Prop := (∀ p ∈ H, Event.free p ∉ es) ∧ Event.malloc 0 ∉ es

/-! ## Proofs -/

/-- The pointers in `S` hold memory that belongs to the simulation, those in `N` are `NULL` unless in `S`. -/
structure Inv (L : Finset ℕ) (S N : Finset Slot) (w : World) : Prop where
  zero : 0 ∉ L
  live : ∃ M, live w.log ∅ = some M ∧
    ∀ p, p ∈ M ↔ p ∈ L ∨ ∃ s ∈ S, w.pointer s = p ∧ p ≠ 0
  simulation : ∀ p, p ∈ w.simulation ↔ ∃ s ∈ S, owner s = .simulation ∧ w.pointer s = p ∧ p ≠ 0
  solute : ∀ p, p ∈ w.solute ↔ ∃ s ∈ S, owner s = .solute ∧ w.pointer s = p ∧ p ≠ 0
  distinct : ∀ s ∈ S, ∀ t ∈ S, w.pointer s = w.pointer t → w.pointer s ≠ 0 → s = t
  foreign : ∀ s ∈ S, w.pointer s ≠ 0 → w.pointer s ∉ L
  null : ∀ s ∈ N, s ∉ S → w.pointer s = 0

theorem inv_start {L : Finset ℕ} {w : World} (h : Before L w) : Inv L ∅ ∅ w := by
  obtain ⟨h1, h2, h3, h4⟩ := h
  refine ⟨h2, ⟨L, h1, by simp⟩, by simp [h3], by simp [h4], by simp, by simp, by simp⟩

/-- Memory that is new, put into a pointer that holds none. -/
theorem inv_new {L : Finset ℕ} {S N : Finset Slot} {w w' : World} (h : Inv L S N w) {s : Slot} (hs : s ∉ S)
    {M : Finset ℕ} (hM : Memory.live w.log ∅ = some M) {p : ℕ} (h0 : p ≠ 0) (hp : p ∉ M)
    (hlog : w'.log = w.log ++ [.malloc p]) (hpt : w'.pointer = Function.update w.pointer s p)
    (hsim : w'.simulation = if owner s = .simulation then insert p w.simulation else w.simulation)
    (hsol : w'.solute = if owner s = .solute then insert p w.solute else w.solute) :
    Inv L (insert s S) N w' := by
  obtain ⟨z, ⟨M', l1, l2⟩, i1, i2, d, fo, nu⟩ := h
  obtain rfl : M' = M := by rw [l1] at hM; exact Option.some.inj hM
  have hpt' : ∀ t, t ≠ s → w'.pointer t = w.pointer t := fun t ht => by rw [hpt, Function.update_of_ne ht]
  have hps : w'.pointer s = p := by rw [hpt, Function.update_self]
  have hne : ∀ t ∈ S, t ≠ s := fun t ht e => hs (e ▸ ht)
  have hfresh : ∀ t ∈ S, w.pointer t ≠ p := fun t ht e =>
    hp ((l2 p).2 (Or.inr ⟨t, ht, e, h0⟩))
  refine ⟨z, ⟨insert p M', ?_, ?_⟩, ?_, ?_, ?_, ?_, ?_⟩
  · rw [hlog, live_append, l1, Option.bind_some]
    simp [Memory.live, hp]
  · intro q
    rw [Finset.mem_insert, l2]
    constructor
    · rintro (e | e | ⟨t, ht, e1, e2⟩)
      · exact Or.inr ⟨s, Finset.mem_insert_self _ _, by rw [hps, e], by rw [e]; exact h0⟩
      · exact Or.inl e
      · exact Or.inr ⟨t, Finset.mem_insert_of_mem ht, by rw [hpt' t (hne t ht)]; exact e1, e2⟩
    · rintro (e | ⟨t, ht, e1, e2⟩)
      · exact Or.inr (Or.inl e)
      · rcases Finset.mem_insert.1 ht with e | ht
        · left; rw [← e1, e, hps]
        · right; right; exact ⟨t, ht, by rw [← hpt' t (hne t ht)]; exact e1, e2⟩
  · intro q
    rw [hsim]
    constructor
    · intro hq
      by_cases ho : owner s = .simulation
      · rw [if_pos ho, Finset.mem_insert] at hq
        rcases hq with e | hq
        · exact ⟨s, Finset.mem_insert_self _ _, ho, by rw [hps, e], by rw [e]; exact h0⟩
        · obtain ⟨t, ht, o, e1, e2⟩ := (i1 q).1 hq
          exact ⟨t, Finset.mem_insert_of_mem ht, o, by rw [hpt' t (hne t ht)]; exact e1, e2⟩
      · rw [if_neg ho] at hq
        obtain ⟨t, ht, o, e1, e2⟩ := (i1 q).1 hq
        exact ⟨t, Finset.mem_insert_of_mem ht, o, by rw [hpt' t (hne t ht)]; exact e1, e2⟩
    · rintro ⟨t, ht, o, e1, e2⟩
      rcases Finset.mem_insert.1 ht with e | ht
      · rw [e] at o e1
        rw [if_pos o, ← e1, hps]; exact Finset.mem_insert_self _ _
      · have := (i1 q).2 ⟨t, ht, o, by rw [← hpt' t (hne t ht)]; exact e1, e2⟩
        split_ifs
        · exact Finset.mem_insert_of_mem this
        · exact this
  · intro q
    rw [hsol]
    constructor
    · intro hq
      by_cases ho : owner s = .solute
      · rw [if_pos ho, Finset.mem_insert] at hq
        rcases hq with e | hq
        · exact ⟨s, Finset.mem_insert_self _ _, ho, by rw [hps, e], by rw [e]; exact h0⟩
        · obtain ⟨t, ht, o, e1, e2⟩ := (i2 q).1 hq
          exact ⟨t, Finset.mem_insert_of_mem ht, o, by rw [hpt' t (hne t ht)]; exact e1, e2⟩
      · rw [if_neg ho] at hq
        obtain ⟨t, ht, o, e1, e2⟩ := (i2 q).1 hq
        exact ⟨t, Finset.mem_insert_of_mem ht, o, by rw [hpt' t (hne t ht)]; exact e1, e2⟩
    · rintro ⟨t, ht, o, e1, e2⟩
      rcases Finset.mem_insert.1 ht with e | ht
      · rw [e] at o e1
        rw [if_pos o, ← e1, hps]; exact Finset.mem_insert_self _ _
      · have := (i2 q).2 ⟨t, ht, o, by rw [← hpt' t (hne t ht)]; exact e1, e2⟩
        split_ifs
        · exact Finset.mem_insert_of_mem this
        · exact this
  · intro a ha b hb e e0
    rcases Finset.mem_insert.1 ha with ea | ha <;> rcases Finset.mem_insert.1 hb with eb | hb
    · rw [ea, eb]
    · rw [ea, hps, hpt' b (hne b hb)] at e
      exact absurd e.symm (hfresh b hb)
    · rw [eb, hps, hpt' a (hne a ha)] at e
      exact absurd e (hfresh a ha)
    · rw [hpt' a (hne a ha), hpt' b (hne b hb)] at e
      rw [hpt' a (hne a ha)] at e0
      exact d a ha b hb e e0
  · intro t ht
    rcases Finset.mem_insert.1 ht with rfl | ht
    · rw [hps]; exact fun _ hL => hp ((l2 p).2 (Or.inl hL))
    · rw [hpt' t (hne t ht)]; exact fo t ht
  · intro t ht hts
    rw [Finset.mem_insert, not_or] at hts
    rw [hpt' t hts.1]
    exact nu t ht hts.2

/-- A pointer that holds none is set to `NULL`; it may then be counted among those that hold memory. -/
theorem inv_null {L : Finset ℕ} {S N : Finset Slot} {w : World} (h : Inv L S N w) {s : Slot} (hs : s ∉ S) :
    Inv L (insert s S) N (w.set s 0) ∧ Inv L S (insert s N) (w.set s 0) := by
  obtain ⟨z, ⟨M, l1, l2⟩, i1, i2, d, fo, nu⟩ := h
  have hne : ∀ t ∈ S, t ≠ s := fun t ht e => hs (e ▸ ht)
  have hpt : ∀ t, t ≠ s → (w.set s 0).pointer t = w.pointer t := fun t ht => by
    simp [World.set, Function.update_of_ne ht]
  have hps : (w.set s 0).pointer s = 0 := by simp [World.set]
  have key : ∀ (P : Slot → Prop) q, (∃ t ∈ S, P t ∧ w.pointer t = q ∧ q ≠ 0) ↔
      (∃ t ∈ S, P t ∧ (w.set s 0).pointer t = q ∧ q ≠ 0) := fun P q =>
    ⟨fun ⟨t, ht, a, b, c⟩ => ⟨t, ht, a, by rw [hpt t (hne t ht)]; exact b, c⟩,
      fun ⟨t, ht, a, b, c⟩ => ⟨t, ht, a, by rw [← hpt t (hne t ht)]; exact b, c⟩⟩
  have key' : ∀ (P : Slot → Prop) q, (∃ t ∈ S, P t ∧ w.pointer t = q ∧ q ≠ 0) ↔
      (∃ t ∈ insert s S, P t ∧ (w.set s 0).pointer t = q ∧ q ≠ 0) := fun P q => by
    rw [key]
    constructor
    · rintro ⟨t, ht, a⟩; exact ⟨t, Finset.mem_insert_of_mem ht, a⟩
    · rintro ⟨t, ht, a, b, c⟩
      rcases Finset.mem_insert.1 ht with rfl | ht
      · rw [hps] at b; exact absurd b.symm c
      · exact ⟨t, ht, a, b, c⟩
  have kt : ∀ q, (∃ t ∈ S, w.pointer t = q ∧ q ≠ 0) ↔ (∃ t ∈ S, True ∧ w.pointer t = q ∧ q ≠ 0) := by simp
  constructor
  · refine ⟨z, ⟨M, l1, fun p => ?_⟩, fun p => ?_, fun p => ?_, ?_, ?_, ?_⟩
    · rw [l2, kt, key' (fun _ => True)]; simp
    · exact (i1 p).trans (key' _ p)
    · exact (i2 p).trans (key' _ p)
    · intro a ha b hb e e0
      have ha' : a ∈ S := (Finset.mem_insert.1 ha).resolve_left fun x => e0 (by rw [x]; exact hps)
      have hb' : b ∈ S := (Finset.mem_insert.1 hb).resolve_left fun x => e0 (by rw [e, x]; exact hps)
      rw [hpt a (hne a ha'), hpt b (hne b hb')] at e
      rw [hpt a (hne a ha')] at e0
      exact d a ha' b hb' e e0
    · intro a ha e0
      rcases Finset.mem_insert.1 ha with rfl | ha
      · exact absurd hps e0
      · rw [hpt a (hne a ha)] at e0 ⊢
        exact fo a ha e0
    · intro t ht hts
      rw [Finset.mem_insert, not_or] at hts
      rw [hpt t hts.1]; exact nu t ht hts.2
  · refine ⟨z, ⟨M, l1, fun p => ?_⟩, fun p => ?_, fun p => ?_, ?_, ?_, ?_⟩
    · rw [l2, kt, key (fun _ => True)]; simp
    · exact (i1 p).trans (key _ p)
    · exact (i2 p).trans (key _ p)
    · intro a ha b hb e e0
      rw [hpt a (hne a ha), hpt b (hne b hb)] at e
      rw [hpt a (hne a ha)] at e0
      exact d a ha b hb e e0
    · intro a ha e0
      rw [hpt a (hne a ha)] at e0 ⊢
      exact fo a ha e0
    · intro t ht hts
      rcases Finset.mem_insert.1 ht with rfl | ht
      · exact hps
      · by_cases e : t = s
        · rw [e]; exact hps
        · rw [hpt t e]; exact nu t ht hts

/-- The pointers a list of actions requests memory for. -/
def gains : List Action → Finset Slot
  | [] => ∅
  | .allocate s _ :: as | .create s :: as => insert s (gains as)
  | _ :: as => gains as

/-- The pointers it sets to `NULL`. -/
def nulls : List Action → Finset Slot
  | [] => ∅
  | .setNull s :: as => insert s (nulls as)
  | _ :: as => nulls as

/-- What constructors do: they request memory only for pointers that hold none. -/
def Constructs (S : Finset Slot) : List Action → Prop
  | [] => True
  | .allocate s _ :: as => s ∉ S ∧ Constructs (insert s S) as
  | .create s :: as => owner s = .nobody ∧ s ∉ S ∧ Constructs (insert s S) as
  | .setNull s :: as => s ∉ S ∧ Constructs S as
  | .require _ :: as => Constructs S as
  | .free _ :: _ | .closeSolute :: _ => False

theorem inv_allocate {cuda : Runtime} (hc : Honest cuda) {L : Finset ℕ} {S N : Finset Slot} {w : World}
    (h : Inv L S N w) {s : Slot} (hs : s ∉ S) {n : ℕ} {w' : World}
    (e : perform cuda (.allocate s n) w = (w', .ok ())) :
    Inv L (insert s S) N w' ∧ (n ≠ 0 → w'.pointer s ≠ 0) := by
  obtain ⟨M, l1, l2⟩ := h.live
  by_cases hn : n = 0
  · subst hn
    have : w' = w.set s 0 := by
      simp only [perform, allocate, allocateUnregistered, if_true] at e
      cases ho : owner s <;> simp only [ho, World.put] at e <;> exact ((Prod.mk.inj e).1).symm
    rw [this]; exact ⟨(inv_null h hs).1, fun x => absurd rfl x⟩
  · cases ha : cuda w.log n with
    | none =>
      exfalso
      simp only [perform, allocate, allocateUnregistered, if_neg hn, ha] at e
      cases ho : owner s <;> simp [ho, World.put] at e
    | some p =>
      obtain ⟨h0, hp⟩ := hc w.log M n l1 p ha
      simp only [perform, allocate, allocateUnregistered, if_neg hn, ha] at e
      cases ho : owner s <;> simp only [ho, World.put] at e <;>
        (obtain rfl := (Prod.mk.inj e).1
         exact ⟨inv_new h hs l1 h0 hp rfl rfl (by simp [World.set, ho]) (by simp [World.set, ho]),
          fun _ => by simp [World.set, h0]⟩)

theorem inv_create {cuda : Runtime} (hc : Honest cuda) {L : Finset ℕ} {S N : Finset Slot} {w : World}
    (h : Inv L S N w) {s : Slot} (hs : s ∉ S) (ho : owner s = .nobody) {w' : World}
    (e : perform cuda (.create s) w = (w', .ok ())) : Inv L (insert s S) N w' := by
  obtain ⟨M, l1, l2⟩ := h.live
  cases ha : cuda w.log 1 with
  | none =>
    simp only [perform, ha] at e
    obtain rfl := (Prod.mk.inj e).1
    exact (inv_null h hs).1
  | some p =>
    obtain ⟨h0, hp⟩ := hc w.log M 1 l1 p ha
    simp only [perform, ha] at e
    obtain rfl := (Prod.mk.inj e).1
    exact inv_new h hs l1 h0 hp rfl rfl (by simp [World.set, ho]) (by simp [World.set, ho])

/-- A list of actions that requests memory, if it is gone through without exception. -/
theorem inv_performAll {cuda : Runtime} (hc : Honest cuda) {L : Finset ℕ} (as : List Action)
    {S N : Finset Slot} {w w' : World} (h : Inv L S N w) (hs : Constructs S as)
    (e : performAll cuda as w = (w', .ok ())) : Inv L (S ∪ gains as) (N ∪ nulls as) w' := by
  induction as generalizing S N w with
  | nil =>
    obtain rfl := (Prod.mk.inj e).1
    simpa [gains, nulls] using h
  | cons a as ih =>
    rw [performAll] at e
    rcases hp : perform cuda a w with ⟨w1, _ | ⟨⟨⟩⟩⟩
    · rw [hp] at e; cases (Prod.mk.inj e).2
    · rw [hp] at e
      cases a with
      | allocate s n =>
        have := ih (inv_allocate hc h hs.1 hp).1 hs.2 e
        simpa [gains, nulls, Finset.insert_union, Finset.union_insert] using this
      | create s =>
        have := ih (inv_create hc h hs.2.1 hs.1 hp) hs.2.2 e
        simpa [gains, nulls, Finset.insert_union, Finset.union_insert] using this
      | setNull s =>
        have hw : w1 = w.set s 0 := by simp only [perform] at hp; exact ((Prod.mk.inj hp).1).symm
        subst hw
        have := ih (inv_null h hs.1).2 hs.2 e
        simpa [gains, nulls, Finset.insert_union, Finset.union_insert] using this
      | require ok =>
        have hw : w1 = w := by simp only [perform] at hp; exact ((Prod.mk.inj hp).1).symm
        subst hw
        simpa [gains, nulls] using ih h hs e
      | free s => exact hs.elim
      | closeSolute => exact hs.elim

/-- Memory is given back. -/
theorem inv_free (cuda : Runtime) {L : Finset ℕ} {S N : Finset Slot} {w : World}
    (h : Inv L S N w) {s : Slot} (hs : s ∈ S ∨ s ∈ N) :
    ∃ w', perform cuda (.free s) w = (w', .ok ()) ∧ Inv L (S.erase s) (N.erase s) w' := by
  obtain ⟨z, ⟨M, l1, l2⟩, i1, i2, d, fo, nu⟩ := h
  by_cases h0 : w.pointer s = 0
  · refine ⟨w, ?_, z, ⟨M, l1, fun p => ?_⟩, fun p => ?_, fun p => ?_, ?_, ?_, ?_⟩
    · cases ho : owner s <;> simp [perform, ho, free, freeUnregistered, h0]
    · rw [l2]
      refine or_congr_right ⟨fun ⟨t, ht, a, b⟩ => ⟨t, ?_, a, b⟩, fun ⟨t, ht, a, b⟩ => ⟨t, Finset.mem_of_mem_erase ht, a, b⟩⟩
      exact Finset.mem_erase.2 ⟨fun x => b (by rw [← a, x, h0]), ht⟩
    · rw [i1]
      refine ⟨fun ⟨t, ht, o, a, b⟩ => ⟨t, ?_, o, a, b⟩, fun ⟨t, ht, a⟩ => ⟨t, Finset.mem_of_mem_erase ht, a⟩⟩
      exact Finset.mem_erase.2 ⟨fun x => b (by rw [← a, x, h0]), ht⟩
    · rw [i2]
      refine ⟨fun ⟨t, ht, o, a, b⟩ => ⟨t, ?_, o, a, b⟩, fun ⟨t, ht, a⟩ => ⟨t, Finset.mem_of_mem_erase ht, a⟩⟩
      exact Finset.mem_erase.2 ⟨fun x => b (by rw [← a, x, h0]), ht⟩
    · exact fun a ha b hb => d a (Finset.mem_of_mem_erase ha) b (Finset.mem_of_mem_erase hb)
    · exact fun a ha => fo a (Finset.mem_of_mem_erase ha)
    · exact fun t ht hts => nu t (Finset.mem_of_mem_erase ht) fun x =>
        hts (Finset.mem_erase.2 ⟨Finset.ne_of_mem_erase ht, x⟩)
  · have hS : s ∈ S := by
      by_contra hS
      exact h0 (nu s (hs.resolve_left hS) hS)
    have hM : w.pointer s ∈ M := (l2 _).2 (Or.inr ⟨s, hS, rfl, h0⟩)
    have hone : ∀ t ∈ S, w.pointer t = w.pointer s → t = s := fun t ht e => d t ht s hS e (by rw [e]; exact h0)
    have hset : ∀ (P : Slot → Prop) (q : ℕ),
        ((∃ t ∈ S, P t ∧ w.pointer t = q ∧ q ≠ 0) ∧ q ≠ w.pointer s) ↔
          ∃ t ∈ S.erase s, P t ∧ w.pointer t = q ∧ q ≠ 0 := by
      intro P q
      constructor
      · rintro ⟨⟨t, ht, a, b, c⟩, hq⟩
        exact ⟨t, Finset.mem_erase.2 ⟨fun x => hq (by rw [← b, x]), ht⟩, a, b, c⟩
      · rintro ⟨t, ht, a, b, c⟩
        obtain ⟨hts, ht⟩ := Finset.mem_erase.1 ht
        exact ⟨⟨t, ht, a, b, c⟩, fun x => hts (hone t ht (by rw [b, x]))⟩
    have hother : ∀ (o : Owner) (t : Slot), owner s ≠ o → t ∈ S → owner t = o → w.pointer t ≠ w.pointer s :=
      fun o t hso ht hto e => hso (by rw [← hone t ht e]; exact hto)
    have hlive : Memory.live (w.log ++ [.free (w.pointer s)]) ∅ = some (M.erase (w.pointer s)) := by
      rw [live_append, l1, Option.bind_some]
      simp [Memory.live, hM]
    have hLs : w.pointer s ∉ L := fo s hS h0
    have hex : ∃ w', perform cuda (.free s) w = (w', .ok ()) ∧ w'.pointer = w.pointer ∧
        w'.log = w.log ++ [.free (w.pointer s)] ∧
        w'.simulation = (if owner s = .simulation then w.simulation.erase (w.pointer s) else w.simulation) ∧
        w'.solute = (if owner s = .solute then w.solute.erase (w.pointer s) else w.solute) := by
      cases ho : owner s with
      | simulation =>
        have : w.pointer s ∈ w.simulation := (i1 _).2 ⟨s, hS, ho, rfl, h0⟩
        simp [perform, ho, free, freeUnregistered, h0, this]
      | solute =>
        have : w.pointer s ∈ w.solute := (i2 _).2 ⟨s, hS, ho, rfl, h0⟩
        simp [perform, ho, free, freeUnregistered, h0, this]
      | nobody => simp [perform, ho, free, freeUnregistered, h0]
    obtain ⟨w', e1, e2, e3, e4, e5⟩ := hex
    refine ⟨w', e1, z, ⟨M.erase (w.pointer s), by rw [e3]; exact hlive, fun p => ?_⟩, fun p => ?_, fun p => ?_,
      ?_, ?_, ?_⟩
    · rw [e2, Finset.mem_erase, l2]
      have := hset (fun _ => True) p
      simp only [true_and] at this
      rw [← this]
      constructor
      · rintro ⟨a, b | b⟩
        · exact Or.inl b
        · exact Or.inr ⟨b, a⟩
      · rintro (b | ⟨b, a⟩)
        · exact ⟨fun x => hLs (x ▸ b), Or.inl b⟩
        · exact ⟨a, Or.inr b⟩
    · rw [e2, e4, ← hset]
      by_cases ho : owner s = .simulation
      · rw [if_pos ho, Finset.mem_erase, i1]; exact and_comm
      · rw [if_neg ho, i1]
        exact ⟨fun ⟨t, ht, o, a, b⟩ => ⟨⟨t, ht, o, a, b⟩, fun x => hother _ t ho ht o (by rw [a, x])⟩, fun x => x.1⟩
    · rw [e2, e5, ← hset]
      by_cases ho : owner s = .solute
      · rw [if_pos ho, Finset.mem_erase, i2]; exact and_comm
      · rw [if_neg ho, i2]
        exact ⟨fun ⟨t, ht, o, a, b⟩ => ⟨⟨t, ht, o, a, b⟩, fun x => hother _ t ho ht o (by rw [a, x])⟩, fun x => x.1⟩
    · rw [e2]; exact fun a ha b hb => d a (Finset.mem_of_mem_erase ha) b (Finset.mem_of_mem_erase hb)
    · rw [e2]; exact fun a ha => fo a (Finset.mem_of_mem_erase ha)
    · rw [e2]
      exact fun t ht hts => nu t (Finset.mem_of_mem_erase ht) fun x =>
        hts (Finset.mem_erase.2 ⟨Finset.ne_of_mem_erase ht, x⟩)

theorem inv_frees (cuda : Runtime) {L : Finset ℕ} (F : List Slot) {S N : Finset Slot} {w : World}
    (h : Inv L S N w) (hn : F.Nodup) (hF : ∀ s ∈ F, s ∈ S ∨ s ∈ N) :
    ∃ w', performAll cuda (F.map .free) w = (w', .ok ()) ∧ Inv L (S \ F.toFinset) (N \ F.toFinset) w' := by
  induction F generalizing S N w with
  | nil => exact ⟨w, rfl, by simpa using h⟩
  | cons s F ih =>
    obtain ⟨w1, e1, h1⟩ := inv_free cuda h (hF s List.mem_cons_self)
    rw [List.nodup_cons] at hn
    obtain ⟨w2, e2, h2⟩ := ih h1 hn.2 fun t ht => by
      have hts : t ≠ s := fun x => hn.1 (x ▸ ht)
      rcases hF t (List.mem_cons_of_mem _ ht) with a | a
      · exact Or.inl (Finset.mem_erase.2 ⟨hts, a⟩)
      · exact Or.inr (Finset.mem_erase.2 ⟨hts, a⟩)
    refine ⟨w2, ?_, ?_⟩
    · rw [List.map_cons, performAll, e1]; exact e2
    · have hx : ∀ T : Finset Slot, T.erase s \ F.toFinset = T \ (s :: F).toFinset := by
        intro T; ext t; simp only [Finset.mem_sdiff, Finset.mem_erase, List.toFinset_cons, Finset.mem_insert]; tauto
      rwa [hx, hx] at h2

theorem inv_close (cuda : Runtime) {L : Finset ℕ} {S N : Finset Slot} {w : World} (h : Inv L S N w) :
    ∃ w', perform cuda .closeSolute w = (w', .ok ()) ∧
      Inv L (S.filter fun s => owner s ≠ .solute) (N.filter fun s => owner s ≠ .solute) w' := by
  obtain ⟨z, ⟨M, l1, l2⟩, i1, i2, d, fo, nu⟩ := h
  have hsub : ∀ p ∈ w.solute, p ∈ M := fun p hp => by
    obtain ⟨s, hs, -, a, b⟩ := (i2 p).1 hp
    exact (l2 p).2 (Or.inr ⟨s, hs, a, b⟩)
  have hl : Memory.live (destroy (w.solute.sort (· ≤ ·)) ⟨w.solute, true, w.log⟩).1 ∅ =
      some (M \ w.solute) := by
    unfold destroy
    by_cases he : w.solute.sort (· ≤ ·) = []
    · have : w.solute = ∅ := by
        have := Finset.sort_toFinset w.solute (· ≤ ·)
        rw [he] at this; simpa using this.symm
      rw [if_pos he, this]
      show Memory.live w.log ∅ = _
      rw [l1, Finset.sdiff_empty]
    · rw [if_neg he, if_pos rfl]
      show Memory.live (w.log ++ _) ∅ = _
      rw [live_append, l1, Option.bind_some, live_frees _ (Finset.sort_nodup _ _) _ fun p hp =>
        hsub p ((Finset.mem_sort _).1 hp), Finset.sort_toFinset]
  refine ⟨_, rfl, z, ⟨M \ w.solute, hl, fun p => ?_⟩, fun p => ?_, fun p => ?_, ?_, ?_, ?_⟩
  · rw [Finset.mem_sdiff, l2]
    constructor
    · rintro ⟨a | ⟨s, hs, b, c⟩, hp⟩
      · exact Or.inl a
      · exact Or.inr ⟨s, Finset.mem_filter.2 ⟨hs, fun o => hp ((i2 p).2 ⟨s, hs, o, b, c⟩)⟩, b, c⟩
    · rintro (a | ⟨s, hs, b, c⟩)
      · refine ⟨Or.inl a, fun hp => ?_⟩
        obtain ⟨s, hs, o, b, c⟩ := (i2 p).1 hp
        exact fo s hs (by rw [b]; exact c) (by rw [b]; exact a)
      · obtain ⟨hs, o⟩ := Finset.mem_filter.1 hs
        refine ⟨Or.inr ⟨s, hs, b, c⟩, fun hp => ?_⟩
        obtain ⟨t, ht, o', b', c'⟩ := (i2 p).1 hp
        have b2 : w.pointer s = p := b
        exact o (by rw [d s hs t ht (by rw [b2, b']) (by rw [b2]; exact c)]; exact o')
  · rw [i1]
    constructor
    · rintro ⟨s, hs, o, b⟩; exact ⟨s, Finset.mem_filter.2 ⟨hs, by rw [o]; decide⟩, o, b⟩
    · rintro ⟨s, hs, o, b⟩; exact ⟨s, (Finset.mem_filter.1 hs).1, o, b⟩
  · constructor
    · intro hp; exact absurd hp (Finset.notMem_empty p)
    · rintro ⟨s, hs, o, b⟩; exact absurd o (Finset.mem_filter.1 hs).2
  · exact fun a ha b hb => d a (Finset.mem_filter.1 ha).1 b (Finset.mem_filter.1 hb).1
  · exact fun a ha => fo a (Finset.mem_filter.1 ha).1
  · exact fun t ht hts => nu t (Finset.mem_filter.1 ht).1 fun x =>
      hts (Finset.mem_filter.2 ⟨x, (Finset.mem_filter.1 ht).2⟩)

theorem inv_end {L : Finset ℕ} {N : Finset Slot} {w : World} (h : Inv L ∅ N w) :
    Memory.live w.log ∅ = some L ∧ w.simulation = ∅ ∧ w.solute = ∅ := by
  obtain ⟨z, ⟨M, l1, l2⟩, i1, i2, -⟩ := h
  refine ⟨?_, ?_, ?_⟩
  · rw [l1]; congr 1; ext p; simp [l2]
  · ext p; simp [i1]
  · ext p; simp [i2]

theorem live_others (H : Finset ℕ) (es : List Event) (ho : ∀ p ∈ H, Event.free p ∉ es) (M M' : Finset ℕ) (hM : H ⊆ M)
    (h : Memory.live es M = some M') : H ⊆ M' := by
  induction es generalizing M with
  | nil => simp only [Memory.live, Option.some.injEq] at h; rwa [← h]
  | cons e es ih =>
    have ho' : ∀ p ∈ H, Event.free p ∉ es := fun p hp hm => ho p hp (List.mem_cons_of_mem _ hm)
    cases e with
    | malloc p =>
      simp only [Memory.live] at h
      split_ifs at h
      exact ih ho' _ (hM.trans (Finset.subset_insert _ _)) h
    | free p =>
      simp only [Memory.live] at h
      split_ifs at h
      refine ih ho' _ (fun q hq => Finset.mem_erase.2 ⟨?_, hM hq⟩) h
      rintro rfl
      exact ho q hq List.mem_cons_self

theorem live_zero (es : List Event) (M M' : Finset ℕ) (h0 : 0 ∉ M) (hz : Event.malloc 0 ∉ es)
    (h : Memory.live es M = some M') : 0 ∉ M' := by
  induction es generalizing M with
  | nil => simp only [Memory.live, Option.some.injEq] at h; rwa [← h]
  | cons e es ih =>
    have hz' : Event.malloc 0 ∉ es := fun hm => hz (List.mem_cons_of_mem _ hm)
    cases e with
    | malloc p =>
      simp only [Memory.live] at h
      split_ifs at h
      refine ih _ (fun hm => ?_) hz' h
      rcases Finset.mem_insert.1 hm with e | e
      · exact hz (e ▸ List.mem_cons_self)
      · exact h0 e
    | free p =>
      simp only [Memory.live] at h
      split_ifs at h
      exact ih _ (fun hm => h0 (Finset.mem_of_mem_erase hm)) hz' h

/-- What others do in between. -/
theorem inv_others {L M M' : Finset ℕ} {S N : Finset Slot} {w : World} (h : Inv L S N w)
    (hM : Memory.live w.log ∅ = some M) {es : List Event}
    (hM' : Memory.live (w.log ++ es) ∅ = some M') (ho : Others (M \ L) es) :
    Inv (M' \ (M \ L)) S N { w with log := w.log ++ es } := by
  obtain ⟨z, ⟨M1, l1, l2⟩, i1, i2, d, fo, nu⟩ := h
  obtain rfl : M1 = M := by rw [l1] at hM; exact Option.some.inj hM
  have hes : Memory.live es M1 = some M' := by rw [live_append, l1, Option.bind_some] at hM'; exact hM'
  have hsub := live_others _ es ho.1 M1 M' Finset.sdiff_subset hes
  have h0M : 0 ∉ M1 := fun x => by
    rcases (l2 0).1 x with a | ⟨s, -, -, b⟩
    · exact z a
    · exact b rfl
  have h0 := live_zero es M1 M' h0M ho.2 hes
  have hH : ∀ p, p ∈ M1 \ L ↔ ∃ s ∈ S, w.pointer s = p ∧ p ≠ 0 := by
    intro p
    rw [Finset.mem_sdiff, l2]
    constructor
    · rintro ⟨a | a, b⟩
      · exact absurd a b
      · exact a
    · rintro ⟨s, hs, a, b⟩
      exact ⟨Or.inr ⟨s, hs, a, b⟩, by rw [← a]; exact fo s hs (by rw [a]; exact b)⟩
  refine ⟨fun x => h0 (Finset.mem_sdiff.1 x).1, ⟨M', hM', fun p => ?_⟩, i1, i2, d, fun s hs e x => ?_, nu⟩
  · rw [Finset.mem_sdiff]
    constructor
    · intro hp
      by_cases hx : p ∈ M1 \ L
      · exact Or.inr ((hH p).1 hx)
      · exact Or.inl ⟨hp, hx⟩
    · rintro (a | a)
      · exact a.1
      · exact hsub ((hH p).2 a)
  · exact (Finset.mem_sdiff.1 x).2 ((hH _).2 ⟨s, hs, rfl, e⟩)

/-! ### Code and lists of actions -/

/-- What code does if there is no exception. -/
def flat : Code → List Action
  | .acts as => as
  | .seq p q => flat p ++ flat q
  | .guarded p _ => flat p

theorem performAll_append (cuda : Runtime) (as bs : List Action) (w : World) :
    performAll cuda (as ++ bs) w = match performAll cuda as w with
      | (w, .ok ()) => performAll cuda bs w
      | (w, .error e) => (w, .error e) := by
  induction as generalizing w with
  | nil => rfl
  | cons a as ih =>
    rw [List.cons_append, performAll, performAll]
    rcases perform cuda a w with ⟨w1, _ | ⟨⟨⟩⟩⟩
    · rfl
    · exact ih w1

theorem run_ok (cuda : Runtime) (c : Code) (w w' : World) :
    run cuda c w = (w', .ok ()) ↔ performAll cuda (flat c) w = (w', .ok ()) := by
  induction c generalizing w w' with
  | acts as => rfl
  | seq p q ihp ihq =>
    rw [run, flat, performAll_append]
    rcases hp : run cuda p w with ⟨w1, e | ⟨⟨⟩⟩⟩
    · rcases hf : performAll cuda (flat p) w with ⟨w2, e2 | ⟨⟨⟩⟩⟩
      · simp
      · rw [← ihp] at hf; rw [hf] at hp; cases (Prod.mk.inj hp).2
    · rw [(ihp w w1).1 hp]
      exact ihq w1 w'
  | guarded p u ih =>
    rw [run, flat, ← ih]
    rcases hp : run cuda p w with ⟨w1, e | ⟨⟨⟩⟩⟩
    · simp
    · simp

theorem gains_append (as bs : List Action) : gains (as ++ bs) = gains as ∪ gains bs := by
  induction as with
  | nil => simp [gains]
  | cons a as ih => cases a <;> simp [gains, ih, Finset.insert_union]

theorem nulls_append (as bs : List Action) : nulls (as ++ bs) = nulls as ∪ nulls bs := by
  induction as with
  | nil => simp [nulls]
  | cons a as ih => cases a <;> simp [nulls, ih, Finset.insert_union]

theorem constructs_append (as bs : List Action) (S : Finset Slot) :
    Constructs S (as ++ bs) ↔ Constructs S as ∧ Constructs (S ∪ gains as) bs := by
  induction as generalizing S with
  | nil => simp [Constructs, gains]
  | cons a as ih => cases a <;> simp [Constructs, gains, ih, Finset.insert_union, Finset.union_insert, and_assoc]

theorem gains_snapshots (k n : ℕ) :
    gains ((List.range k).map fun i => .allocate (.snapshot i) n) = (Finset.range k).image Slot.snapshot := by
  induction k with
  | zero => rfl
  | succ k ih =>
    rw [List.range_succ, List.map_append, gains_append, ih, Finset.range_add_one, Finset.image_insert]
    simp [gains, Finset.union_comm]

theorem nulls_snapshots (k n : ℕ) :
    nulls ((List.range k).map fun i => .allocate (.snapshot i) n) = ∅ := by
  induction k with
  | zero => rfl
  | succ k ih => rw [List.range_succ, List.map_append, nulls_append, ih]; simp [nulls]

theorem constructs_snapshots (k n : ℕ) (S : Finset Slot) (h : ∀ i, Slot.snapshot i ∉ S) :
    Constructs S ((List.range k).map fun i => .allocate (.snapshot i) n) := by
  induction k with
  | zero => trivial
  | succ k ih =>
    rw [List.range_succ, List.map_append, constructs_append, gains_snapshots]
    refine ⟨ih, ?_, trivial⟩
    simp [h]

/-! ### The pointers of the classes -/

def Fluid.fourierSlots (f : Fluid) : List Slot := if f.fourier then [.fourierReal, .fourierImag] else []
def Fluid.autocorrelationSlots (f : Fluid) : List Slot :=
  match f.snapshots with
  | none => []
  | some k => .currentVelocities :: (List.range k).map .snapshot
def Fluid.slots (f : Fluid) : List Slot :=
  (if f.chains then [.accelerations] else []) ++ (f.fourierSlots ++ f.autocorrelationSlots) ++
    [.positions, .velocities]
def potentialSlots : List Slot :=
  (List.range 6).map .wca ++ [.feneCoreArm, .feneArmArm, .feneArmMagnetic, .magnetic] ++
    [.wcaTable, .feneTable, .magneticTable]
def ownSlots : List Slot :=
  [.gpurngs, .gridShift, .velocityShift, .cellIndices, .cellParticleCounts, .cellMomenta, .rotationAxes,
    .velocityScalings, .cellEnergies, .cellMasses, .velocityShiftSolute, .cellIndicesSolute]
def soluteSlots : Finset Slot := {.solutePositions, .soluteVelocities, .soluteForces1, .soluteForces2}

theorem deleteFourier_eq (f : Fluid) : f.deleteFourier = f.fourierSlots.map .free := by
  unfold Fluid.deleteFourier Fluid.fourierSlots; split_ifs <;> rfl

theorem deleteAutocorrelation_eq (f : Fluid) : f.deleteAutocorrelation = f.autocorrelationSlots.map .free := by
  unfold Fluid.deleteAutocorrelation Fluid.autocorrelationSlots
  cases f.snapshots <;> simp [Function.comp_def]

theorem delete_eq (f : Fluid) : f.delete = f.slots.map .free := by
  unfold Fluid.delete Fluid.slots Fluid.deleteInstrumentation
  rw [deleteFourier_eq, deleteAutocorrelation_eq]
  cases f.chains <;> simp

theorem deletePotentials_eq : deletePotentials = potentialSlots.map .free := rfl

theorem slots_nodup (f : Fluid) : f.slots.Nodup := by
  unfold Fluid.slots Fluid.fourierSlots Fluid.autocorrelationSlots
  have hr : ∀ k, ((List.range k).map Slot.snapshot).Nodup := fun k =>
    List.Nodup.map (fun a b e => by cases e; rfl) List.nodup_range
  cases f.chains <;> cases f.fourier <;> cases f.snapshots <;>
    simp [List.nodup_append, hr]

theorem mem_gains_fluid (f : Fluid) (n : ℕ) (s : Slot) : s ∈ gains (flat (f.make n)) ↔ s ∈ f.slots := by
  unfold Fluid.make Fluid.makeInstrumentation Fluid.makeFourier Fluid.makeAutocorrelation Fluid.slots
    Fluid.fourierSlots Fluid.autocorrelationSlots
  cases f.chains <;> cases f.fourier <;> cases f.snapshots <;>
    simp [flat, gains, gains_append, gains_snapshots] <;> cases s <;> simp

theorem nulls_fluid (f : Fluid) (n : ℕ) : nulls (flat (f.make n)) = ∅ := by
  unfold Fluid.make Fluid.makeInstrumentation Fluid.makeFourier Fluid.makeAutocorrelation
  cases f.chains <;> cases f.fourier <;> cases f.snapshots <;>
    simp [flat, nulls, nulls_append, nulls_snapshots]

theorem constructs_fluid (f : Fluid) (n : ℕ) : Constructs ∅ (flat (f.make n)) := by
  unfold Fluid.make Fluid.makeInstrumentation Fluid.makeFourier Fluid.makeAutocorrelation
  cases f.chains <;> cases f.fourier <;> cases f.snapshots <;>
    simp [flat, gains, gains_append, gains_snapshots, Constructs, constructs_append, constructs_snapshots]

/-- All pointers of a simulation. -/
def Setup.slots (c : Setup) : Finset Slot :=
  (match c.fluid with | none => ∅ | some f => f.slots.toFinset) ∪
    (match c.solute with | none => ∅ | some _ => soluteSlots ∪ potentialSlots.toFinset) ∪ ownSlots.toFinset

theorem gains_setup (c : Setup) (s : Slot) :
    s ∈ gains (flat c.make) ∪ nulls (flat c.make) ↔ s ∈ c.slots := by
  unfold Setup.make Setup.slots Setup.makeBuffers Solute.make makePotentials
  cases c.fluid <;> cases c.solute <;>
    simp [flat, gains, nulls, gains_append, nulls_append, mem_gains_fluid, nulls_fluid, List.range_succ,
      potentialSlots, ownSlots, soluteSlots] <;> cases s <;> simp

theorem fluid_slots (f : Fluid) (s : Slot) (h : s ∈ f.slots) :
    s = .positions ∨ s = .velocities ∨ s = .accelerations ∨ s = .fourierReal ∨ s = .fourierImag ∨
      s = .currentVelocities ∨ ∃ i, s = .snapshot i := by
  revert h
  unfold Fluid.slots Fluid.fourierSlots Fluid.autocorrelationSlots
  cases f.chains <;> cases f.fourier <;> cases f.snapshots <;> simp <;> cases s <;> simp

theorem constructs_setup (c : Setup) : Constructs ∅ (flat c.make) := by
  unfold Setup.make Setup.makeBuffers Solute.make makePotentials
  rcases c.fluid with _ | f
  · cases c.solute <;>
      simp [flat, gains, gains_append, List.range_succ, Constructs, constructs_append, owner]
  · cases c.solute <;>
      simp [flat, gains, gains_append, mem_gains_fluid, List.range_succ, Constructs, constructs_append,
        constructs_fluid, owner] <;>
      (repeat' apply And.intro) <;>
      (intro h; have := fluid_slots f _ h; simp at this)

theorem potential_owner : ∀ s ∈ potentialSlots, owner s = .nobody := by decide
theorem own_owner : ∀ s ∈ ownSlots, owner s = .simulation := by decide
theorem solute_owner : ∀ s ∈ soluteSlots, owner s = .solute := by decide
theorem potential_nodup : potentialSlots.Nodup := by decide
theorem own_nodup : ownSlots.Nodup := by decide
theorem fluid_owner (f : Fluid) : ∀ s ∈ f.slots, owner s = .simulation ∧ s ∉ ownSlots := by
  intro s h
  rcases fluid_slots f s h with rfl | rfl | rfl | rfl | rfl | rfl | ⟨i, rfl⟩ <;> simp [owner, ownSlots]

/-- C142: whatever the fluid, its instrumentation and the solute are, whichever addresses the runtime hands out,
and whatever device memory others request and give back in the meantime: if a simulation is constructed and
destroyed, the destruction throws no exception, exactly the memory the construction took is given back, each piece once
(`live` is `none` as soon as something is freed that is not allocated), and no unfreed memory is reported. -/
theorem C142_released {cuda : Runtime} (hc : Honest cuda) (c : Setup) {L : Finset ℕ} {w₀ w : World}
    (h₀ : Before L w₀) (hw : run cuda c.make w₀ = (w, .ok ())) :
    ∃ M, live w.log ∅ = some M ∧ L ⊆ M ∧
      ∀ es M', live (w.log ++ es) ∅ = some M' → Others (M \ L) es →
        ∃ w', performAll cuda c.delete { w with log := w.log ++ es } = (w', .ok ()) ∧
          live w'.log ∅ = some (M' \ (M \ L)) ∧ reported w' = [] := by
  have hi := inv_performAll hc _ (inv_start h₀) (constructs_setup c) ((run_ok _ _ _ _).1 hw)
  rw [Finset.empty_union, Finset.empty_union] at hi
  obtain ⟨M, l1, l2⟩ := hi.live
  refine ⟨M, l1, fun p hp => (l2 p).2 (Or.inl hp), fun es M' hM' ho => ?_⟩
  have h1 := inv_others hi l1 hM' ho
  set S := gains (flat c.make) with hS
  set N := nulls (flat c.make) with hN
  have hmem : ∀ s, s ∈ S ∨ s ∈ N ↔ s ∈ c.slots := fun s => by rw [← Finset.mem_union]; exact gains_setup c s
  -- the fluid
  have hA : ∃ w1, performAll cuda (match c.fluid with | none => [] | some f => f.delete)
      { w with log := w.log ++ es } = (w1, .ok ()) ∧ ∃ S1 N1, Inv (M' \ (M \ L)) S1 N1 w1 ∧
        (∀ s, s ∈ S1 → s ∈ S ∧ ∀ f, c.fluid = some f → s ∉ f.slots) ∧
        (∀ s, owner s ≠ .simulation ∨ s ∈ ownSlots → s ∈ c.slots → s ∈ S1 ∨ s ∈ N1) := by
    cases hf : c.fluid with
    | none => exact ⟨_, rfl, S, N, h1, fun s hs => ⟨hs, fun f e => by cases e⟩, fun s _ hs => (hmem s).2 hs⟩
    | some f =>
      obtain ⟨w1, e1, i1⟩ := inv_frees cuda f.slots h1 (slots_nodup f) fun s hs => (hmem s).2 (by
        simp [Setup.slots, hf, hs])
      refine ⟨w1, by rw [← e1, ← delete_eq], _, _, i1, fun s hs => ?_, fun s ho hs => ?_⟩
      · rw [Finset.mem_sdiff, List.mem_toFinset] at hs
        exact ⟨hs.1, fun g e => by cases e; exact hs.2⟩
      · have hx : s ∉ f.slots.toFinset := fun x => by
          obtain ⟨a, b⟩ := fluid_owner f s (List.mem_toFinset.1 x)
          rcases ho with o | o
          · exact o a
          · exact b o
        rcases (hmem s).2 hs with a | a
        · exact Or.inl (Finset.mem_sdiff.2 ⟨a, hx⟩)
        · exact Or.inr (Finset.mem_sdiff.2 ⟨a, hx⟩)
  obtain ⟨w1, e1, S1, N1, i1, hS1, hN1⟩ := hA
  -- the solute
  have hB : ∃ w2, performAll cuda (match c.solute with | none => [] | some _ => Solute.delete) w1 = (w2, .ok ()) ∧
      ∃ S2 N2, Inv (M' \ (M \ L)) S2 N2 w2 ∧
        (∀ s, s ∈ S2 → s ∈ S1 ∧ (c.solute.isSome → s ∉ soluteSlots ∧ s ∉ potentialSlots)) ∧
        (∀ s ∈ ownSlots, s ∈ S2 ∨ s ∈ N2) := by
    have hown : ∀ s ∈ ownSlots, s ∈ S1 ∨ s ∈ N1 := fun s hs =>
      hN1 s (Or.inr hs) (by simp [Setup.slots, hs])
    cases hp : c.solute with
    | none => exact ⟨w1, rfl, S1, N1, i1, fun s hs => ⟨hs, fun e => by cases e⟩, hown⟩
    | some p =>
      obtain ⟨w2, e2, i2⟩ := inv_frees cuda potentialSlots i1 potential_nodup fun s hs =>
        hN1 s (Or.inl (by rw [potential_owner s hs]; decide)) (by simp [Setup.slots, hp, hs])
      obtain ⟨w3, e3, i3⟩ := inv_close cuda i2
      refine ⟨w3, ?_, _, _, i3, fun s hs => ?_, fun s hs => ?_⟩
      · rw [Solute.delete, deletePotentials_eq, performAll_append, e2]
        simp only [performAll, e3]
      · rw [Finset.mem_filter, Finset.mem_sdiff, List.mem_toFinset] at hs
        exact ⟨hs.1.1, fun _ => ⟨fun x => hs.2 (solute_owner s x), hs.1.2⟩⟩
      · have ho := own_owner s hs
        have hx : s ∉ potentialSlots.toFinset := fun x => by
          rw [potential_owner s (List.mem_toFinset.1 x)] at ho; cases ho
        rcases hown s hs with a | a
        · exact Or.inl (Finset.mem_filter.2 ⟨Finset.mem_sdiff.2 ⟨a, hx⟩, by rw [ho]; decide⟩)
        · exact Or.inr (Finset.mem_filter.2 ⟨Finset.mem_sdiff.2 ⟨a, hx⟩, by rw [ho]; decide⟩)
  obtain ⟨w2, e2, S2, N2, i2, hS2, hN2⟩ := hB
  obtain ⟨w3, e3, i3⟩ := inv_frees cuda ownSlots i2 own_nodup hN2
  have hempty : S2 \ ownSlots.toFinset = ∅ := by
    rw [Finset.sdiff_eq_empty_iff_subset]
    intro s hs
    obtain ⟨a, b⟩ := hS2 s hs
    obtain ⟨a1, a2⟩ := hS1 s a
    have := (hmem s).1 (Or.inl a1)
    simp only [Setup.slots, Finset.mem_union] at this
    rcases this with (x | x) | x
    · cases hf : c.fluid with
      | none => rw [hf] at x; exact absurd x (Finset.notMem_empty s)
      | some f => rw [hf] at x; exact absurd (List.mem_toFinset.1 x) (a2 f hf)
    · cases hp : c.solute with
      | none => rw [hp] at x; exact absurd x (Finset.notMem_empty s)
      | some p =>
        rw [hp] at x b
        obtain ⟨b1, b2⟩ := b rfl
        rcases Finset.mem_union.1 x with x | x
        · exact absurd x b1
        · exact absurd (List.mem_toFinset.1 x) b2
    · exact x
  rw [hempty] at i3
  obtain ⟨f1, f2, f3⟩ := inv_end i3
  refine ⟨w3, ?_, f1, ?_⟩
  · rw [Setup.delete, performAll_append, performAll_append, e1]
    simp only [e2]
    exact e3
  · unfold reported destroy
    rw [f2]; simp

/-! ### Exceptions -/

/-- The conditions in a list of actions are met. -/
def Meets (as : List Action) : Prop := ∀ ok, Action.require ok ∈ as → ok = true

theorem performAll_plenty {cuda : Runtime} (hp : Plenty cuda) (as : List Action) (S : Finset Slot) (w : World)
    (hs : Constructs S as) (hm : Meets as) : ∃ w', performAll cuda as w = (w', .ok ()) := by
  induction as generalizing S w with
  | nil => exact ⟨w, rfl⟩
  | cons a as ih =>
    have hm' : Meets as := fun ok h => hm ok (List.mem_cons_of_mem _ h)
    have hput : ∀ s (m : State) p, ∃ w', w.put s (m, .ok p) = (w', .ok ()) := fun s m p => ⟨_, rfl⟩
    cases a with
    | allocate s n =>
      have : ∃ w', perform cuda (.allocate s n) w = (w', .ok ()) := by
        obtain ⟨p, e⟩ := hp w.log n
        simp only [perform, allocate, allocateUnregistered, e]
        by_cases hn : n = 0
        · simp only [if_pos hn]; cases owner s <;> exact hput _ _ _
        · simp only [if_neg hn]; cases owner s <;> exact hput _ _ _
      obtain ⟨w1, e⟩ := this
      obtain ⟨w2, e2⟩ := ih _ w1 hs.2 hm'
      exact ⟨w2, by rw [performAll, e]; exact e2⟩
    | create s =>
      obtain ⟨p, e⟩ := hp w.log 1
      obtain ⟨w2, e2⟩ := ih _ (World.set { w with log := w.log ++ [.malloc p] } s p) hs.2.2 hm'
      exact ⟨w2, by rw [performAll, perform, e]; exact e2⟩
    | setNull s =>
      obtain ⟨w2, e2⟩ := ih _ (w.set s 0) hs.2 hm'
      exact ⟨w2, by rw [performAll, perform]; exact e2⟩
    | require ok =>
      obtain ⟨w2, e2⟩ := ih _ w hs hm'
      refine ⟨w2, ?_⟩
      rw [performAll, perform, hm ok List.mem_cons_self]; exact e2
    | free s => exact hs.elim
    | closeSolute => exact hs.elim

/-- Pointers that are not mentioned stay as they are. -/
theorem performAll_frame {cuda : Runtime} (as : List Action) (S : Finset Slot) (w w' : World)
    (hs : Constructs S as) (e : performAll cuda as w = (w', .ok ())) (t : Slot) (h1 : t ∉ gains as)
    (h2 : t ∉ nulls as) : w'.pointer t = w.pointer t := by
  induction as generalizing S w with
  | nil => rw [← (Prod.mk.inj e).1]
  | cons a as ih =>
    rw [performAll] at e
    have hset : ∀ (w : World) s p, t ≠ s → (w.set s p).pointer t = w.pointer t := fun w s p h => by
      simp [World.set, Function.update_of_ne h]
    rcases hp : perform cuda a w with ⟨w1, _ | ⟨⟨⟩⟩⟩
    · rw [hp] at e; cases (Prod.mk.inj e).2
    · rw [hp] at e
      cases a with
      | allocate s n =>
        simp only [gains, nulls, Finset.mem_insert, not_or] at h1 h2
        rw [ih _ w1 hs.2 e h1.2 h2]
        have hput : ∀ (m : State × Except Err ℕ), w.put s m = (w1, .ok ()) → w1.pointer t = w.pointer t := by
          rintro ⟨m, r⟩ h
          cases r with
          | error x => simp only [World.put] at h; cases (Prod.mk.inj h).2
          | ok p =>
            simp only [World.put] at h
            rw [← (Prod.mk.inj h).1, hset _ _ _ h1.1]
            cases owner s <;> rfl
        simp only [perform] at hp
        cases ho : owner s <;> rw [ho] at hp <;> exact hput _ hp
      | create s =>
        simp only [gains, nulls, Finset.mem_insert, not_or] at h1 h2
        rw [ih _ w1 hs.2.2 e h1.2 h2]
        simp only [perform] at hp
        cases ha : cuda w.log 1 with
        | none => rw [ha] at hp; rw [← (Prod.mk.inj hp).1, hset _ _ _ h1.1]
        | some p => rw [ha] at hp; rw [← (Prod.mk.inj hp).1, hset _ _ _ h1.1]
      | setNull s =>
        simp only [gains, nulls, Finset.mem_insert, not_or] at h1 h2
        rw [ih _ w1 hs.2 e h1 h2.2]
        simp only [perform] at hp
        rw [← (Prod.mk.inj hp).1, hset _ _ _ h2.1]
      | require ok =>
        rw [ih _ w1 hs e h1 h2]
        simp only [perform] at hp
        rw [← (Prod.mk.inj hp).1]
      | free s => exact hs.elim
      | closeSolute => exact hs.elim

/-- A buffer that was requested is there afterwards. -/
theorem performAll_held {cuda : Runtime} (hc : Honest cuda) {L : Finset ℕ} (pre post : List Action) (s : Slot)
    (n : ℕ) (hn : n ≠ 0) {S N : Finset Slot} {w w' : World} (h : Inv L S N w)
    (hs : Constructs S (pre ++ .allocate s n :: post))
    (e : performAll cuda (pre ++ .allocate s n :: post) w = (w', .ok ())) (h1 : s ∉ gains post)
    (h2 : s ∉ nulls post) : w'.pointer s ≠ 0 := by
  rw [performAll_append] at e
  rw [constructs_append] at hs
  rcases hp : performAll cuda pre w with ⟨w1, _ | ⟨⟨⟩⟩⟩
  · rw [hp] at e; cases (Prod.mk.inj e).2
  · rw [hp] at e
    have i1 := inv_performAll hc pre h hs.1 hp
    simp only [performAll] at e
    rcases hq : perform cuda (.allocate s n) w1 with ⟨w2, _ | ⟨⟨⟩⟩⟩
    · rw [hq] at e; cases (Prod.mk.inj e).2
    · rw [hq] at e
      rw [performAll_frame post _ w2 w' hs.2.2 e s h1 h2]
      exact (inv_allocate hc i1 hs.2.1 hq).2 hn

theorem perform_reject (cuda : Runtime) (as : List Action) (w : World) :
    performAll cuda (.require false :: as) w = (w, .error .memoryManagement) := rfl

theorem diff_back (l : List Slot) (h : ∀ s ∈ l, s ≠ .positions ∧ s ≠ .velocities) :
    ({.positions, .velocities} ∪ l.toFinset) \ l.toFinset = ({.positions, .velocities} : Finset Slot) := by
  ext s
  simp only [Finset.mem_sdiff, Finset.mem_union, List.mem_toFinset, Finset.mem_insert, Finset.mem_singleton]
  constructor
  · rintro ⟨a | a, b⟩
    · exact a
    · exact absurd a b
  · intro a
    refine ⟨Or.inl a, fun b => ?_⟩
    obtain ⟨x, y⟩ := h s b
    rcases a with a | a
    · exact x a
    · exact y a

/-- C142: if the configuration of the fluid or of its measurements is not accepted (an odd number of particles for
dumbbells, a number of snapshots of zero, ...), the constructor of the simulation throws, but no device memory is lost. -/
theorem C142_fluid_rejected {cuda : Runtime} (hc : Honest cuda) (hp : Plenty cuda) (c : Setup) (f : Fluid)
    (hf : c.fluid = some f)
    (hr : ¬ (f.accepted = true ∧ (f.fourier = true → f.fourierAccepted = true) ∧
      (f.snapshots.isSome = true → f.snapshotsAccepted = true) ∧ f.bondsAccepted = true))
    {L : Finset ℕ} {w₀ : World} (h₀ : Before L w₀) :
    ∃ w e, run cuda c.make w₀ = (w, .error e) ∧ live w.log ∅ = some L ∧ reported w = [] := by
  have hbase : Constructs ∅ [Action.allocate .positions (3 * c.particles), .allocate .velocities (3 * c.particles)] := by
    simp [Constructs]
  obtain ⟨w1, e1⟩ := performAll_plenty hp _ ∅ w₀ hbase (by intro ok h; simp at h)
  have i1 := inv_performAll hc _ (inv_start h₀) hbase e1
  -- the instrumentation, or what comes before, throws and leaves nothing but the two buffers
  have key : ∃ w2 e, run cuda (.seq (.acts [.require f.accepted]) f.makeInstrumentation) w1 = (w2, .error e) ∧
      ∃ N, Inv L {.positions, .velocities} N w2 := by
    have i1' : Inv L {.positions, .velocities} ∅ w1 := by simpa [gains, nulls] using i1
    cases ha : f.accepted with
    | false => exact ⟨w1, _, rfl, _, i1'⟩
    | true =>
      have hstart : run cuda (.seq (.acts [.require true]) f.makeInstrumentation) w1 =
          run cuda f.makeInstrumentation w1 := rfl
      rw [hstart]
      by_cases hfo : f.fourier = true ∧ f.fourierAccepted = false
      · refine ⟨w1, .memoryManagement, ?_, _, i1'⟩
        simp only [Fluid.makeInstrumentation, run, Fluid.makeFourier, hfo.1, hfo.2, if_true, perform_reject]
      · have hfc : Constructs {.positions, .velocities} f.makeFourier := by
          unfold Fluid.makeFourier; cases f.fourier <;> simp [Constructs]
        have hfm : Meets f.makeFourier := by
          intro ok h
          revert h
          unfold Fluid.makeFourier
          cases hx : f.fourier with
          | false => simp
          | true =>
            have : f.fourierAccepted = true := by
              by_contra hy; exact hfo ⟨hx, by simpa using hy⟩
            simp [this]
        obtain ⟨w2, e2⟩ := performAll_plenty hp _ _ w1 hfc hfm
        have i2 := inv_performAll hc _ i1' hfc e2
        have hg : gains f.makeFourier = f.fourierSlots.toFinset := by
          unfold Fluid.makeFourier Fluid.fourierSlots; cases f.fourier <;> simp [gains]
        have hnf : f.fourierSlots.Nodup := by
          unfold Fluid.fourierSlots; cases f.fourier <;> simp
        have hdis : ∀ s ∈ f.fourierSlots, s ≠ .positions ∧ s ≠ .velocities := by
          unfold Fluid.fourierSlots; cases f.fourier <;> simp
        rw [hg] at i2
        by_cases hsn : f.snapshots.isSome = true ∧ f.snapshotsAccepted = false
        · obtain ⟨k, hk⟩ := Option.isSome_iff_exists.1 hsn.1
          obtain ⟨w3, e3, i3⟩ := inv_frees cuda f.fourierSlots i2 hnf fun s hs =>
            Or.inl (Finset.mem_union_right _ (List.mem_toFinset.2 hs))
          rw [diff_back _ hdis] at i3
          refine ⟨w3, .memoryManagement, ?_, _, i3⟩
          simp only [Fluid.makeInstrumentation, run, e2, Fluid.makeAutocorrelation, hk, hsn.2, perform_reject,
            deleteFourier_eq, e3]
        · have hac : Constructs ({.positions, .velocities} ∪ f.fourierSlots.toFinset) f.makeAutocorrelation := by
            unfold Fluid.makeAutocorrelation Fluid.fourierSlots
            cases f.snapshots <;> cases f.fourier <;>
              simp [Constructs, constructs_append, constructs_snapshots, gains_snapshots]
          have ham : Meets f.makeAutocorrelation := by
            intro ok h
            revert h
            unfold Fluid.makeAutocorrelation
            cases hx : f.snapshots with
            | none => simp
            | some k =>
              have : f.snapshotsAccepted = true := by
                by_contra hy; exact hsn ⟨by rw [hx]; rfl, by simpa using hy⟩
              simp [this]
          obtain ⟨w3, e3⟩ := performAll_plenty hp _ _ w2 hac ham
          have i3 := inv_performAll hc _ i2 hac e3
          have hga : gains f.makeAutocorrelation = f.autocorrelationSlots.toFinset := by
            unfold Fluid.makeAutocorrelation Fluid.autocorrelationSlots
            cases f.snapshots with
            | none => rfl
            | some k =>
              ext s; cases s <;> simp [gains, gains_append, gains_snapshots]
          have hbo : f.bondsAccepted = false := by
            by_contra hy
            refine hr ⟨ha, fun x => ?_, fun x => ?_, by simpa using hy⟩
            · by_contra hz; exact hfo ⟨x, by simpa using hz⟩
            · by_contra hz; exact hsn ⟨x, by simpa using hz⟩
          have hall : (f.fourierSlots ++ f.autocorrelationSlots).Nodup := by
            have := slots_nodup f
            unfold Fluid.slots at this
            exact (List.nodup_append.1 (List.nodup_append.1 this).1).2.1
          rw [hga, Finset.union_assoc, ← List.toFinset_append] at i3
          obtain ⟨w4, e4, i4⟩ := inv_frees cuda (f.fourierSlots ++ f.autocorrelationSlots) i3 hall fun s hs =>
            Or.inl (Finset.mem_union_right _ (List.mem_toFinset.2 hs))
          rw [diff_back _ (by
            intro s hs
            rcases List.mem_append.1 hs with x | x
            · exact hdis s x
            · revert x
              unfold Fluid.autocorrelationSlots
              cases f.snapshots <;> simp
              rintro (rfl | ⟨a, -, rfl⟩) <;> simp)] at i4
          refine ⟨w4, .memoryManagement, ?_, _, i4⟩
          simp only [Fluid.makeInstrumentation, run, e2, e3, hbo, perform_reject, deleteFourier_eq,
            deleteAutocorrelation_eq, ← List.map_append, e4]
  obtain ⟨w2, e, e2, N, i2⟩ := key
  obtain ⟨w3, e3, i3⟩ := inv_frees cuda [.positions, .velocities] i2 (by decide) (by
    intro s hs; left; simpa using hs)
  have hempty : ({.positions, .velocities} : Finset Slot) \ [Slot.positions, Slot.velocities].toFinset = ∅ := by decide
  rw [hempty] at i3
  obtain ⟨f1, f2, f3⟩ := inv_end i3
  refine ⟨w3, e, ?_, f1, ?_⟩
  · have e3' : performAll cuda [.free .positions, .free .velocities] w2 = (w3, .ok ()) := e3
    rw [Setup.make, hf]
    simp only [Fluid.make]
    rw [run, run]
    simp only [run] at e2 ⊢
    simp only [e1, e2, e3']
  · unfold reported destroy
    rw [f2]; simp

/-- Memory that is held is allocated, and was not before. -/
theorem inv_more {L : Finset ℕ} {S N : Finset Slot} {w : World} (h : Inv L S N w) {s : Slot} (hs : s ∈ S)
    (h0 : w.pointer s ≠ 0) :
    ∃ M, Memory.live w.log ∅ = some M ∧ L ⊂ M ∧ (owner s = .simulation → reported w ≠ []) := by
  obtain ⟨M, l1, l2⟩ := h.live
  refine ⟨M, l1, ⟨fun p hp => (l2 p).2 (Or.inl hp), fun x => ?_⟩, fun ho hr => ?_⟩
  · exact h.foreign s hs h0 (x ((l2 _).2 (Or.inr ⟨s, hs, rfl, h0⟩)))
  · have hm : w.pointer s ∈ w.simulation := (h.simulation _).2 ⟨s, hs, ho, rfl, h0⟩
    unfold reported destroy at hr
    split_ifs at hr with h1 h2
    · rw [← Finset.mem_sort (· ≤ ·), h1] at hm; cases hm
    · exact h2.elim
    · exact h1 hr

/-- C142 fails: whatever is configured, if all is accepted but the step size of the star polymers does not divide
the one of the simulation, the constructor throws after it has taken memory, none of what belongs to the simulation and the fluid
is given back, and it is reported as unfreed. -/
theorem C142_step_violated {cuda : Runtime} (hc : Honest cuda) (hp : Plenty cuda) (c : Setup) (p : Solute)
    (hsol : c.solute = some p) (hd : c.densityAccepted = true)
    (hf : ∀ f, c.fluid = some f → f.accepted = true ∧ f.fourierAccepted = true ∧ f.snapshotsAccepted = true ∧
      f.bondsAccepted = true)
    (ha : p.accepted = true) (hi : p.initialStateAccepted = true) (hst : p.stepAccepted = false)
    {L : Finset ℕ} {w₀ : World} (h₀ : Before L w₀) :
    ∃ w e M, run cuda c.make w₀ = (w, .error e) ∧ live w.log ∅ = some M ∧ L ⊂ M ∧ reported w ≠ [] := by
  have hcons := constructs_setup c
  rw [Setup.make, hsol] at hcons
  simp only [flat] at hcons
  rw [constructs_append, constructs_append, constructs_append] at hcons
  obtain ⟨c1, c2, c3, -⟩ := hcons
  have m1 : Meets (flat (match c.fluid with | none => Code.acts [] | some f => f.make c.particles)) := by
    cases hx : c.fluid with
    | none => intro ok h; simp [flat] at h
    | some f =>
      obtain ⟨a1, a2, a3, a4⟩ := hf f hx
      intro ok h
      revert h
      simp only [Fluid.make, Fluid.makeInstrumentation, Fluid.makeFourier, Fluid.makeAutocorrelation, flat]
      cases f.chains <;> cases f.fourier <;> cases f.snapshots <;> simp [a1, a2, a3, a4]
  have m2 : Meets (.require c.densityAccepted :: c.makeBuffers) := by
    intro ok h; simpa [Setup.makeBuffers, hd] using h
  have m3 : Meets (flat p.make) := by
    intro ok h; simpa [Solute.make, flat, makePotentials, ha, hi] using h
  obtain ⟨w1, e1⟩ := performAll_plenty hp _ _ w₀ c1 m1
  have i1 := inv_performAll hc _ (inv_start h₀) c1 e1
  obtain ⟨w2, e2⟩ := performAll_plenty hp _ _ w1 c2 m2
  have i2 := inv_performAll hc _ i1 c2 e2
  obtain ⟨w3, e3⟩ := performAll_plenty hp _ _ w2 c3 m3
  have i3 := inv_performAll hc _ i2 c3 e3
  have g2 : w2.pointer .gridShift ≠ 0 := by
    have e2' := e2
    have c2' := c2
    rw [show Action.require c.densityAccepted :: c.makeBuffers =
      [.require c.densityAccepted, .allocate .gpurngs c.cells] ++
        .allocate .gridShift 3 :: c.makeBuffers.drop 2 from rfl] at e2' c2'
    exact performAll_held hc _ _ .gridShift 3 (by decide) i1 c2' e2' (by simp [Setup.makeBuffers, gains])
      (by simp [Setup.makeBuffers, nulls])
  have g3 : w3.pointer .gridShift ≠ 0 := by
    rw [performAll_frame _ _ w2 w3 c3 e3 .gridShift
      (by simp [Solute.make, flat, makePotentials, gains, gains_append, List.range_succ])
      (by simp [Solute.make, flat, makePotentials, nulls, nulls_append, List.range_succ])]
    exact g2
  obtain ⟨M, l1, l2, l3⟩ := inv_more i3 (s := .gridShift) (by
    simp [Setup.makeBuffers, gains]) g3
  refine ⟨w3, .memoryManagement, M, ?_, l1, l2, l3 rfl⟩
  rw [Setup.make, hsol]
  simp only [run]
  rw [(run_ok _ _ _ _).2 e1]
  simp only [e2]
  rw [(run_ok _ _ _ _).2 e3]
  simp only [hst, perform_reject]

/-- C142 fails: if the initial state of the star polymers is not accepted (a file that cannot be read, or that does not fit),
their constructor throws after the potentials were created. The buffers of the particles are given back, but the
potentials are not, and no memory manager knows of them, so that nothing is reported. -/
theorem C142_initialState_violated {cuda : Runtime} (hc : Honest cuda) (hp : Plenty cuda) (p : Solute)
    (ha : p.accepted = true) (hi : p.initialStateAccepted = false) {L : Finset ℕ} {w₀ : World}
    (h₀ : Before L w₀) :
    ∃ w e M, run cuda p.make w₀ = (w, .error e) ∧ live w.log ∅ = some M ∧ L ⊂ M ∧ w.solute = ∅ ∧
      reported w = [] := by
  set pre : List Action := [.require p.accepted, .allocate .solutePositions (3 * p.particles),
        .allocate .soluteVelocities (3 * p.particles), .allocate .soluteForces1 (3 * p.particles),
        .allocate .soluteForces2 (3 * p.particles)] with hpre
  have c1 : Constructs ∅ (pre ++ makePotentials) := by
    simp [hpre, makePotentials, Constructs, constructs_append, gains, gains_append, List.range_succ, owner]
  obtain ⟨w1, e1⟩ := performAll_plenty hp _ _ w₀ c1 (by
    intro ok h; simpa [hpre, makePotentials, ha] using h)
  have i1 := inv_performAll hc _ (inv_start h₀) c1 e1
  have g1 : w1.pointer .wcaTable ≠ 0 := by
    have e1' := e1
    have c1' := c1
    rw [show pre ++ makePotentials = pre ++ .allocate .wcaTable 6 :: makePotentials.drop 1 from rfl] at e1' c1'
    exact performAll_held hc _ _ .wcaTable 6 (by decide) (inv_start h₀) c1' e1'
      (by simp [makePotentials, gains, gains_append, List.range_succ])
      (by simp [makePotentials, nulls, nulls_append, List.range_succ])
  obtain ⟨w2, e2, i2⟩ := inv_close cuda i1
  have g2 : w2.pointer .wcaTable ≠ 0 := by
    simp only [perform] at e2
    rw [← (Prod.mk.inj e2).1]; exact g1
  have hs2 : w2.solute = ∅ := by
    simp only [perform] at e2
    rw [← (Prod.mk.inj e2).1]
  obtain ⟨M, l1, l2, -⟩ := inv_more i2 (s := .wcaTable) (by
    simp [hpre, makePotentials, gains, gains_append, owner]) g2
  refine ⟨w2, .memoryManagement, M, ?_, l1, l2, hs2, ?_⟩
  · have r1 : performAll cuda [.require false] w1 = (w1, .error .memoryManagement) := rfl
    have r2 : performAll cuda [.closeSolute] w1 = (w2, .ok ()) := by simp only [performAll, e2]
    rw [Solute.make, run, run, performAll_append, ← hpre, e1]
    simp only [hi, r1, r2]
  · have : w2.simulation = ∅ := by
      have hg : ∀ s ∈ gains (pre ++ makePotentials), owner s ≠ .simulation := by
        simp [hpre, makePotentials, gains, gains_append, List.range_succ, owner]
      ext q
      rw [i2.simulation]
      simp only [Finset.notMem_empty, iff_false]
      rintro ⟨s, hs, o, -⟩
      rw [Finset.mem_filter, Finset.empty_union] at hs
      exact hg s hs.1 o
    unfold reported destroy
    rw [this]; simp

/-! ### The hypotheses can be met -/

/-- A runtime that never hands out an address twice. -/
def bump : Runtime := fun log _ =>
  some (1 + (log.map fun e => match e with | .malloc p => p | .free _ => 0).sum)

theorem live_mem (log : List Event) (L L' : Finset ℕ) (h : live log L = some L') (p : ℕ) (hp : p ∈ L') :
    p ∈ L ∨ Event.malloc p ∈ log := by
  induction log generalizing L with
  | nil => simp only [live, Option.some.injEq] at h; exact Or.inl (h ▸ hp)
  | cons e es ih =>
    cases e with
    | malloc q =>
      simp only [live] at h
      split_ifs at h
      rcases ih _ h with a | a
      · rcases Finset.mem_insert.1 a with rfl | a
        · exact Or.inr List.mem_cons_self
        · exact Or.inl a
      · exact Or.inr (List.mem_cons_of_mem _ a)
    | free q =>
      simp only [live] at h
      split_ifs at h
      rcases ih _ h with a | a
      · exact Or.inl (Finset.mem_of_mem_erase a)
      · exact Or.inr (List.mem_cons_of_mem _ a)

theorem bump_honest : Honest bump := by
  have hsum : ∀ (l : List ℕ) (x : ℕ), x ∈ l → x ≤ l.sum := by
    intro l x hx
    induction l with
    | nil => cases hx
    | cons y l ih =>
      rw [List.sum_cons]
      rcases List.mem_cons.1 hx with rfl | hx
      · omega
      · have := ih hx; omega
  intro log L n hL p hp
  simp only [bump, Option.some.injEq] at hp
  refine ⟨by omega, fun hm => ?_⟩
  rcases live_mem log ∅ L hL p hm with a | a
  · cases a
  · have : p ≤ (log.map fun e => match e with | .malloc p => p | .free _ => 0).sum :=
      hsum _ _ (List.mem_map.2 ⟨_, a, rfl⟩)
    omega

theorem bump_plenty : Plenty bump := fun _ _ => ⟨_, rfl⟩

/-- A fluid of Gaussian chains with both measurements, and star polymers. -/
def exampleSetup (step : Bool) : Setup :=
  ⟨8, 20, some ⟨true, true, true, true, some 3, true, 5, true⟩, true, some ⟨11, true, true, step⟩⟩

def exampleStart : World := ⟨[.malloc 7], ∅, ∅, fun _ => 99⟩

example : Before {7} exampleStart := ⟨rfl, by decide, rfl, rfl⟩

/-- The hypotheses of `C142_released`: the construction succeeds, and takes memory. -/
example : ∃ w, run bump (exampleSetup true).make exampleStart = (w, .ok ()) ∧ w.simulation.Nonempty := by
  obtain ⟨w, e⟩ := performAll_plenty bump_plenty _ ∅ exampleStart (constructs_setup (exampleSetup true)) (by
    intro ok h
    simpa [exampleSetup, Setup.make, Setup.makeBuffers, flat, Fluid.make, Fluid.makeInstrumentation,
      Fluid.makeFourier, Fluid.makeAutocorrelation, Solute.make, makePotentials] using h)
  have i := inv_performAll bump_honest _ (inv_start (L := {7}) ⟨rfl, by decide, rfl, rfl⟩)
    (constructs_setup (exampleSetup true)) e
  have g : w.pointer .positions ≠ 0 := by
    have e' := e
    have c' := constructs_setup (exampleSetup true)
    rw [show flat (exampleSetup true).make = [] ++ .allocate .positions 60 :: (flat (exampleSetup true).make).drop 1
      from rfl] at e' c'
    exact performAll_held bump_honest [] _ .positions 60 (by decide) (inv_start (L := {7}) ⟨rfl, by decide, rfl, rfl⟩)
      c' e' (by decide +kernel) (by decide +kernel)
  exact ⟨w, (run_ok _ _ _ _).2 e, _, (i.simulation _).2 ⟨.positions, by decide +kernel, rfl, rfl, g⟩⟩

/-- The hypotheses of `C142_step_violated`. -/
example : ∃ w e M, run bump (exampleSetup false).make exampleStart = (w, .error e) ∧
    live w.log ∅ = some M ∧ {7} ⊂ M ∧ reported w ≠ [] :=
  C142_step_violated bump_honest bump_plenty _ _ rfl rfl (by
    intro f h; cases h; exact ⟨rfl, rfl, rfl, rfl⟩) rfl rfl rfl ⟨rfl, by decide, rfl, rfl⟩

end OpenMPCD.Memory.Simulation
