import Verif.Common
import Verif.Launch.Props
import Mathlib.Algebra.Field.Basic
import Mathlib.Algebra.BigOperators.Group.Finset.Basic
import Mathlib.Tactic.Ring
import Mathlib.Tactic.FieldSimp

/-!
# The fluid's data on the host and on the device (C113)

Coordinates are of an arbitrary type (`MPCParticlePositionType` and `MPCParticleVelocityType` are both `double`,
`include/OpenMPCD/Types.hpp:13-16`, so that the sizes used in copying velocities are right). Copying between host and device
does not fail. `Base.cu` is `src/OpenMPCD/CUDA/MPCFluid/Base.cu`.
-/

set_option linter.unusedSectionVars false
set_option linter.unusedSimpArgs false
set_option linter.unusedVariables false

namespace OpenMPCD.Mirror

open OpenMPCD.Launch

/-! ## Model -/

/-- Arrays of coordinates: positions and velocities. -/
structure Arrays (K : Type) where
  pos : ℕ → K
  vel : ℕ → K

/-- The fluid: number of particles, the arrays in host memory (`mpcParticlePositions`, `mpcParticleVelocities`) and those in
device memory (`d_mpcParticlePositions`, `d_mpcParticleVelocities`). -/
structure Fluid (K : Type) where
  count : ℕ
  host : Arrays K
  device : Arrays K

/-- A snapshot file: number of atoms declared, whether it is open for writing, and the blocks written. -/
structure Snapshot (K : Type) where
  atoms : ℕ
  writeMode : Bool
  blocks : List (List (K × K × K) × List (K × K × K))

/-- The exceptions of `writeToSnapshot` and `saveLogicalEntityCentersOfMassToDeviceMemory`. -/
inductive Error
  | nullPointer | atomCount | notInWriteMode | unimplemented
  deriving DecidableEq

variable {K : Type}

/-- `cudaMemcpy` of `n` elements. -/
def memcpy (n : ℕ) (dst src : ℕ → K) : ℕ → K := fun i => if i < n then src i else dst i

/-- The pair of copies in `fetchFromDevice`, `setPositionsAndVelocities` and `pushToDevice`. -/
def copyBoth (count : ℕ) (dst src : Arrays K) : Arrays K :=
  { pos := memcpy (3 * count) dst.pos src.pos, vel := memcpy (3 * count) dst.vel src.vel }

/-- `fetchFromDevice` (`src/OpenMPCD/CUDA/MPCFluid/Base.cu:53-67`). -/
def fetchFromDevice (f : Fluid K) : Fluid K := { f with host := copyBoth f.count f.host f.device }

/-- `pushToDevice` (`src/OpenMPCD/CUDA/MPCFluid/Base.cu:177-191`), called at the end of the constructors of the derived classes. -/
def pushToDevice (f : Fluid K) : Fluid K := { f with device := copyBoth f.count f.device f.host }

/-- `setPositionsAndVelocities` (`src/OpenMPCD/CUDA/MPCFluid/Base.cu:91-114`); the pointers are not null. -/
def setPositionsAndVelocities (a : Arrays K) (f : Fluid K) : Fluid K :=
  { f with device := copyBoth f.count f.device a }

/-- The vector with the given number in an array (`RemotelyStoredVector`). -/
def vecAt (m : ℕ → K) (i : ℕ) : K × K × K := (m (3 * i), m (3 * i + 1), m (3 * i + 2))

/-- `getPosition` (`src/OpenMPCD/CUDA/MPCFluid/Base.cu:69-78`); for numbers that are too large, the program reads beyond the array. -/
def getPosition (f : Fluid K) (particleID : ℕ) : K × K × K := vecAt f.host.pos particleID

/-- `getVelocity` (`src/OpenMPCD/CUDA/MPCFluid/Base.cu:80-89`). -/
def getVelocity (f : Fluid K) (particleID : ℕ) : K × K × K := vecAt f.host.vel particleID

/-- What `writeTimestepBlock` writes of the arrays passed (see `Verif/Snapshot/File.lean` for the text). -/
def block (count : ℕ) (a : Arrays K) : List (K × K × K) × List (K × K × K) :=
  ((List.range count).map (vecAt a.pos), (List.range count).map (vecAt a.vel))

/-- `writeToSnapshot` (`src/OpenMPCD/CUDA/MPCFluid/Base.cu:116-130`): the fluid and the snapshot afterwards, and the exception. -/
def writeToSnapshot (f : Fluid K) : Option (Snapshot K) → Fluid K × Option (Snapshot K) × Except Error Unit
  | none => (f, none, .error .nullPointer)
  | some s =>
    if s.atoms ≠ f.count then (f, some s, .error .atomCount)
    else if s.writeMode = false then (f, some s, .error .notInWriteMode)
    else
      ( fetchFromDevice f,
        some { s with blocks := s.blocks ++ [block s.atoms (fetchFromDevice f).host] },
        .ok () )

/-- The body of the loop in `findMatchingParticlesOnHost`. -/
def findStep (f : Fluid K) (func : K × K × K → K × K × K → Bool) (r : Option (List ℕ) × Option ℕ) (pID : ℕ) :
    Option (List ℕ) × Option ℕ :=
  if func (getPosition f pID) (getVelocity f pID) then
    (r.1.map (· ++ [pID]), r.2.map (· + 1))
  else r

/-- `findMatchingParticlesOnHost` (`src/OpenMPCD/CUDA/MPCFluid/Base.cu:132-152`): the arguments `matches` and `matchCount`, before and after; `none`:
null pointer. -/
def findMatchingParticlesOnHost (f : Fluid K) (func : K × K × K → K × K × K → Bool)
    (found : Option (List ℕ)) (foundCount : Option ℕ) : Option (List ℕ) × Option ℕ :=
  (List.range f.count).foldl (findStep f func) (found, foundCount.map fun _ => 0)

/-- What happens to a fluid from outside: the functions above, and writing to the arrays the functions
`getDevicePositions`, `getDeviceVelocities` (also the kernels do so), `getHostPositions`, `getHostVelocities`
(`include/OpenMPCD/CUDA/MPCFluid/Base.hpp:161-204`) give access to. -/
inductive Op (K : Type)
  | fetch
  | set (a : Arrays K)
  | snapshot (s : Option (Snapshot K))
  | find (func : K × K × K → K × K × K → Bool)
  | deviceWrite (change : Arrays K → Arrays K)
  | hostWrite (change : Arrays K → Arrays K)

def step (f : Fluid K) : Op K → Fluid K
  | .fetch => fetchFromDevice f
  | .set a => setPositionsAndVelocities a f
  | .snapshot s => (writeToSnapshot f s).1
  | .find _ => f
  | .deviceWrite change => { f with device := change f.device }
  | .hostWrite change => { f with host := change f.host }

def run (f : Fluid K) (ops : List (Op K)) : Fluid K := ops.foldl step f

/-- The end of the constructors of the derived classes, e.g. `src/OpenMPCD/CUDA/MPCFluid/Simple.cu:30-32`: the host's arrays,
initialised, are copied to the device, whose memory has arbitrary contents. -/
def construct (count : ℕ) (initial garbage : Arrays K) : Fluid K :=
  pushToDevice { count := count, host := initial, device := garbage }

/-! ### Centres of mass -/

/-- Replacing the vector with the given number. -/
def setVec (m : ℕ → K) (i : ℕ) (v : K × K × K) : ℕ → K := fun j =>
  if j = 3 * i then v.1 else if j = 3 * i + 1 then v.2.1 else if j = 3 * i + 2 then v.2.2 else m j

section
variable [Field K]

def add3 (u v : K × K × K) : K × K × K := (u.1 + v.1, u.2.1 + v.2.1, u.2.2 + v.2.2)

def div3 (u : K × K × K) (c : K) : K × K × K := (u.1 / c, u.2.1 / c, u.2.2 / c)

/-- `result += pos` in the kernel. -/
def addPosition (positions : ℕ → K) (k e : ℕ) (out : ℕ → K) (p : ℕ) : ℕ → K :=
  setVec out e (add3 (vecAt out e) (vecAt positions (e * k + p)))

/-- A thread of `computeLogicalEntityCentersOfMass` that does not return at once
(`cudaDeviceCode/OpenMPCD/CUDA/MPCFluid/DeviceCode/Base.cu:41-55`): the output buffer afterwards. -/
def centreThread (positions : ℕ → K) (k : ℕ) (out : ℕ → K) (e : ℕ) : ℕ → K :=
  let summed := (List.range k).foldl (addPosition positions k e) (setVec out e (0, 0, 0))
  setVec summed e (div3 (vecAt summed e) (k : K))

/-- The kind of the fluid, as far as `saveLogicalEntityCentersOfMassToDeviceMemory` uses it:
`getNumberOfLogicalEntities`, `numberOfParticlesPerLogicalEntityIsConstant`,
`getNumberOfParticlesPerLogicalEntity` (`include/OpenMPCD/CUDA/MPCFluid/Simple.hpp:42-55`,
`include/OpenMPCD/CUDA/MPCFluid/GaussianDumbbells.hpp:74-87`, `include/OpenMPCD/CUDA/MPCFluid/GaussianRods.hpp:50-63`,
`include/OpenMPCD/CUDA/MPCFluid/HarmonicTrimers.hpp:63-76`, `include/OpenMPCD/CUDA/MPCFluid/GaussianChains.hpp:59-72`). -/
inductive Kind
  | simple | dumbbells | rods | trimers
  | chains (particlesPerChain : ℕ)

def Kind.perEntity : Kind → ℕ
  | .simple => 1
  | .dumbbells => 2
  | .rods => 2
  | .trimers => 3
  | .chains n => n

def Kind.entities (count : ℕ) : Kind → ℕ
  | .simple => count
  | .dumbbells => count / 2
  | .rods => count / 2
  | .trimers => count / 3
  | .chains n => count / n

/-- The constructors do not throw on account of the particle count
(`src/OpenMPCD/CUDA/MPCFluid/GaussianDumbbells.cu:39`, `src/OpenMPCD/CUDA/MPCFluid/GaussianRods.cu:32`,
`src/OpenMPCD/CUDA/MPCFluid/HarmonicTrimers.cu:29`, `src/OpenMPCD/CUDA/MPCFluid/GaussianChains.cu:38`); a remainder by
`0` is undefined. -/
def Kind.accepts (count : ℕ) : Kind → Prop
  | .simple => True
  | .dumbbells => count % 2 = 0
  | .rods => count % 2 = 0
  | .trimers => count % 3 = 0
  | .chains n => n ≠ 0 ∧ count % n = 0

/-- `saveLogicalEntityCentersOfMassToDeviceMemory` (`src/OpenMPCD/CUDA/MPCFluid/Base.cu:154-175`) writes a buffer with contents `before` to be `after`:
the launches are those of the macro (`Verif/Launch/Model.lean`), the threads that do not return at once
(`cudaDeviceCode/OpenMPCD/CUDA/MPCFluid/DeviceCode/Base.cu:35-39`) take place in any order. Threads are executed one by one:
each reads and writes only the vector of its own entity in the buffer, which does not overlap with the positions. -/
def SavesCentres (kind : Kind) (f : Fluid K) (before after : ℕ → K) : Prop :=
  ∃ (ls : List (ℕ × ℕ)) (order : List ℕ), Loop 1024 512 (kind.entities f.count) 0 ls ∧
    order.Perm (processedAll (kind.entities f.count) 512 ls) ∧
    after = order.foldl (centreThread f.device.pos kind.perEntity) before

end

/-! ## Specification -/

/-- The positions and velocities of all particles. -/
def particles (count : ℕ) (a : Arrays K) : ℕ → Option ((K × K × K) × (K × K × K)) := fun i =>
  if i < count then some (vecAt a.pos i, vecAt a.vel i) else none

/-- What a user of `getPosition` and `getVelocity` sees. -/
def seen (f : Fluid K) : ℕ → Option ((K × K × K) × (K × K × K)) := fun i =>
  if i < f.count then some (getPosition f i, getVelocity f i) else none

/-- Operations that bring the host's data up to date: fetching, and writing to a snapshot that can be written to. -/
def Op.Refreshes (count : ℕ) : Op K → Prop
  | .fetch => True
  | .snapshot (some s) => s.atoms = count ∧ s.writeMode = true
  | _ => False

/-- Operations that replace the host's data from outside. -/
def Op.IsHostWrite : Op K → Prop
  | .hostWrite _ => True
  | _ => False

/-! ## Proofs -/

theorem copyBoth_particles (n : ℕ) (dst src : Arrays K) : particles n (copyBoth n dst src) = particles n src := by
  funext i
  unfold particles
  split
  · rename_i hi
    have h0 : 3 * i < 3 * n := by omega
    have h1 : 3 * i + 1 < 3 * n := by omega
    have h2 : 3 * i + 2 < 3 * n := by omega
    simp [vecAt, copyBoth, memcpy, h0, h1, h2]
  · rfl

theorem seen_eq (f : Fluid K) : seen f = particles f.count f.host := rfl

theorem step_count (f : Fluid K) (o : Op K) : (step f o).count = f.count := by
  cases o with
  | snapshot s =>
    cases s with
    | none => rfl
    | some s =>
      simp only [step, writeToSnapshot]
      split
      · rfl
      · split <;> rfl
  | _ => rfl

theorem run_count (f : Fluid K) (ops : List (Op K)) : (run f ops).count = f.count := by
  induction ops generalizing f with
  | nil => rfl
  | cons o os ih =>
    have : run f (o :: os) = run (step f o) os := rfl
    rw [this, ih, step_count]

theorem step_refreshes (f : Fluid K) (o : Op K) (h : o.Refreshes f.count) :
    step f o = fetchFromDevice f := by
  cases o with
  | fetch => rfl
  | snapshot s =>
    cases s with
    | none => exact absurd h (by simp [Op.Refreshes])
    | some s =>
      obtain ⟨h1, h2⟩ := h
      simp [step, writeToSnapshot, h1, h2]
  | set a => exact absurd h (by simp [Op.Refreshes])
  | find g => exact absurd h (by simp [Op.Refreshes])
  | deviceWrite g => exact absurd h (by simp [Op.Refreshes])
  | hostWrite g => exact absurd h (by simp [Op.Refreshes])

theorem step_other (f : Fluid K) (o : Op K) (h : ¬ o.Refreshes f.count) (hw : ¬ o.IsHostWrite) :
    (step f o).host = f.host := by
  cases o with
  | fetch => exact absurd trivial h
  | snapshot s =>
    cases s with
    | none => rfl
    | some s =>
      simp only [step, writeToSnapshot]
      split
      · rfl
      · split
        · rfl
        · rename_i h1 h2
          exact absurd ⟨not_not.1 h1, by simpa using h2⟩ h
  | set a => rfl
  | find g => rfl
  | deviceWrite g => rfl
  | hostWrite g => exact absurd trivial hw

theorem run_other (f : Fluid K) (ops : List (Op K)) (h : ∀ o ∈ ops, ¬ o.Refreshes f.count ∧ ¬ o.IsHostWrite) :
    (run f ops).host = f.host := by
  induction ops generalizing f with
  | nil => rfl
  | cons o os ih =>
    have e : run f (o :: os) = run (step f o) os := rfl
    rw [e, ih, step_other f o (h o (by simp)).1 (h o (by simp)).2]
    intro o' ho'
    rw [step_count]
    exact h o' (List.mem_cons_of_mem _ ho')

/-- C113, what is seen: after any history in which some operation `o` brought the host's data up to date and thereafter
neither another one did nor anybody wrote to the host's arrays, the positions and velocities seen are those on the device
just before `o`. -/
theorem C113_seen (f : Fluid K) (before after : List (Op K)) (o : Op K) (ho : o.Refreshes f.count)
    (hafter : ∀ o' ∈ after, ¬ o'.Refreshes f.count ∧ ¬ o'.IsHostWrite) :
    seen (run f (before ++ o :: after)) = particles f.count (run f before).device := by
  have e : run f (before ++ o :: after) = run (step (run f before) o) after := by
    simp [run, List.foldl_append]
  rw [seen_eq, run_count, e]
  have hc := run_count f before
  rw [run_other _ _ (by rw [step_count, hc]; exact hafter), step_refreshes _ _ (by rw [hc]; exact ho)]
  unfold fetchFromDevice
  rw [hc]
  exact copyBoth_particles _ _ _

/-- C113, what is seen before: without such an operation, the initial state is. -/
theorem C113_initial (count : ℕ) (initial garbage : Arrays K) (ops : List (Op K))
    (h : ∀ o' ∈ ops, ¬ o'.Refreshes count ∧ ¬ o'.IsHostWrite) :
    seen (run (construct count initial garbage) ops) = particles count initial ∧
    particles count (construct count initial garbage).device = particles count initial := by
  constructor
  · rw [seen_eq, run_count, run_other _ _ h]
    rfl
  · exact copyBoth_particles _ _ _

/-- C113, setting: once set, the positions and velocities on the device are those given; they are seen after fetching,
whatever happened before, and not before that. -/
theorem C113_set (f : Fluid K) (a : Arrays K) :
    particles f.count (run f [.set a]).device = particles f.count a ∧
    seen (run f [.set a, .fetch]) = particles f.count a ∧
    seen (run f [.set a]) = seen f := by
  refine ⟨copyBoth_particles _ _ _, ?_, rfl⟩
  have := C113_seen f [.set a] [] .fetch trivial (by simp)
  simp only [List.cons_append, List.nil_append] at this
  rw [this]
  exact copyBoth_particles _ _ _

/-- C113, documented limitation: fetching is needed to see what was set. -/
theorem C113_stale_violated [Nontrivial K] :
    ¬ ∀ (f : Fluid K) (a : Arrays K), seen (run f [.set a]) = particles f.count a := by
  intro h
  obtain ⟨x, y, hxy⟩ := exists_pair_ne K
  have := congrFun (h ⟨1, ⟨fun _ => x, fun _ => x⟩, ⟨fun _ => x, fun _ => x⟩⟩ ⟨fun _ => y, fun _ => y⟩) 0
  simp [seen, run, step, setPositionsAndVelocities, particles, getPosition, getVelocity, vecAt] at this
  exact hxy this

theorem block_congr {n : ℕ} {a b : Arrays K} (h : particles n a = particles n b) : block n a = block n b := by
  unfold block
  have hi : ∀ i ∈ List.range n, vecAt a.pos i = vecAt b.pos i ∧ vecAt a.vel i = vecAt b.vel i := by
    intro i hi
    have := congrFun h i
    simp only [particles, List.mem_range.1 hi, if_true, Option.some.injEq, Prod.mk.injEq] at this
    exact this
  rw [List.map_congr_left fun i h => (hi i h).1, List.map_congr_left fun i h => (hi i h).2]

/-- C113, snapshots: writing succeeds iff there is a snapshot for the same number of atoms in write mode; then one block is
appended, which has the particles as they are on the device, whatever the host's data; the exceptions are checked in the
order of the documentation, and nothing has changed if one is thrown. The device's data are not changed. -/
theorem C113_snapshot (f : Fluid K) (s : Option (Snapshot K)) :
    ((writeToSnapshot f s).2.2 = .ok () ↔ ∃ s', s = some s' ∧ s'.atoms = f.count ∧ s'.writeMode = true) ∧
    (∀ s', s = some s' → s'.atoms = f.count → s'.writeMode = true →
      (writeToSnapshot f s).2.1 = some { s' with blocks := s'.blocks ++ [block f.count f.device] }) ∧
    (∀ e, (writeToSnapshot f s).2.2 = .error e → (writeToSnapshot f s).1 = f ∧ (writeToSnapshot f s).2.1 = s) ∧
    ((writeToSnapshot f s).2.2 = .error .nullPointer ↔ s = none) ∧
    ((writeToSnapshot f s).2.2 = .error .atomCount ↔ ∃ s', s = some s' ∧ s'.atoms ≠ f.count) ∧
    (writeToSnapshot f s).1.device = f.device := by
  cases s with
  | none => simp [writeToSnapshot]
  | some s =>
    by_cases h1 : s.atoms = f.count
    · cases h2 : s.writeMode with
      | false => simp [writeToSnapshot, h1, h2]
      | true =>
        have hb : block f.count (fetchFromDevice f).host = block f.count f.device :=
          block_congr (copyBoth_particles _ _ _)
        refine ⟨by simp [writeToSnapshot, h1, h2], ?_, by simp [writeToSnapshot, h1, h2],
          by simp [writeToSnapshot, h1, h2], by simp [writeToSnapshot, h1, h2],
          by simp [writeToSnapshot, h1, h2, fetchFromDevice]⟩
        intro s' hs' ha hm
        obtain rfl := Option.some.inj hs'
        simp [writeToSnapshot, h1, h2, hb]
    · simp [writeToSnapshot, h1]

theorem find_fold (f : Fluid K) (func : K × K × K → K × K × K → Bool) (l : List ℕ) (r : Option (List ℕ) × Option ℕ) :
    l.foldl (findStep f func) r =
      (r.1.map (· ++ l.filter fun i => func (getPosition f i) (getVelocity f i)),
       r.2.map (· + (l.filter fun i => func (getPosition f i) (getVelocity f i)).length)) := by
  induction l generalizing r with
  | nil => rcases r with ⟨_ | _, _ | _⟩ <;> simp
  | cons i l ih =>
    rw [List.foldl_cons, ih]
    unfold findStep
    by_cases h : func (getPosition f i) (getVelocity f i) = true
    · rcases r with ⟨_ | _, _ | _⟩ <;> simp [h, List.filter_cons]
      all_goals omega
    · rcases r with ⟨_ | _, _ | _⟩ <;> simp [h, List.filter_cons]

/-- C113, searching (holds for a vector that is empty before the call): the vector afterwards has exactly the numbers of
those particles that meet the criterion, judged by the data seen, each once and in ascending order; the count is their
number, whatever it was before the call; either can be left out without effect on the other. -/
theorem C113_find_partial (f : Fluid K) (func : K × K × K → K × K × K → Bool) (found : Option (List ℕ)) (count : Option ℕ)
    (h : found = none ∨ found = some []) :
    (∀ l, (findMatchingParticlesOnHost f func found count).1 = some l →
      l.Pairwise (· < ·) ∧
      (∀ i, i ∈ l ↔ ∃ p v, seen f i = some (p, v) ∧ func p v = true) ∧
      ∀ c, (findMatchingParticlesOnHost f func found count).2 = some c → c = l.length) ∧
    ((findMatchingParticlesOnHost f func found count).1.isSome = found.isSome) ∧
    ((findMatchingParticlesOnHost f func found count).2.isSome = count.isSome) ∧
    ((findMatchingParticlesOnHost f func found count).2 = (findMatchingParticlesOnHost f func none count).2) := by
  unfold findMatchingParticlesOnHost
  simp only [find_fold]
  refine ⟨?_, by simp, by simp, by simp⟩
  intro l hl
  rcases h with h | h
  · simp [h] at hl
  · simp only [h, Option.map_some, List.nil_append, Option.some.injEq] at hl
    subst hl
    refine ⟨?_, ?_, ?_⟩
    · exact List.pairwise_lt_range.filter _
    · intro i
      simp only [List.mem_filter, List.mem_range, seen]
      constructor
      · rintro ⟨h1, h2⟩
        exact ⟨_, _, by rw [if_pos h1], h2⟩
      · rintro ⟨p, v, h1, h2⟩
        split at h1
        · rename_i hi
          simp only [Option.some.injEq, Prod.mk.injEq] at h1
          rw [← h1.1, ← h1.2] at h2
          exact ⟨hi, h2⟩
        · simp at h1
    · intro c hc
      cases count with
      | none => simp at hc
      | some n => simpa using hc.symm

/-- C113, violated: the vector is documented to hold the particles that satisfied the criterion; whatever it held before the
call stays in it, for every fluid and every criterion. -/
theorem C113_find_violated (f : Fluid K) (func : K × K × K → K × K × K → Bool) (old : List ℕ) (hold : old ≠ [])
    (count : ℕ) :
    ∃ l c, findMatchingParticlesOnHost f func (some old) (some count) = (some l, some c) ∧
      old <+: l ∧ l.length ≠ c := by
  unfold findMatchingParticlesOnHost
  rw [find_fold]
  refine ⟨_, _, rfl, ⟨_, rfl⟩, ?_⟩
  have := List.length_pos_iff.2 hold
  simp
  omega

/-! ### Centres of mass -/

section
variable [Field K]

theorem vecAt_setVec (m : ℕ → K) (i : ℕ) (v : K × K × K) : vecAt (setVec m i v) i = v := by
  simp [vecAt, setVec]

theorem vecAt_setVec_ne (m : ℕ → K) {i j : ℕ} (v : K × K × K) (h : j ≠ i) : vecAt (setVec m i v) j = vecAt m j := by
  have h1 : (3 * j = 3 * i) = False := by simp; omega
  have h2 : (3 * j = 3 * i + 1) = False := by simp; omega
  have h3 : (3 * j = 3 * i + 2) = False := by simp; omega
  have h4 : (3 * j + 1 = 3 * i) = False := by simp; omega
  have h5 : (3 * j + 1 = 3 * i + 2) = False := by simp; omega
  have h6 : (3 * j + 2 = 3 * i) = False := by simp; omega
  have h7 : (3 * j + 2 = 3 * i + 1) = False := by simp; omega
  simp [vecAt, setVec, h, h1, h2, h3, h4, h5, h6, h7]

theorem setVec_beyond (m : ℕ → K) {i n : ℕ} (v : K × K × K) (hi : i < n) {j : ℕ} (hj : 3 * n ≤ j) :
    setVec m i v j = m j := by
  unfold setVec
  rw [if_neg (by omega), if_neg (by omega), if_neg (by omega)]

theorem sum_same (positions : ℕ → K) (k e : ℕ) (l : List ℕ) (out : ℕ → K) :
    vecAt (l.foldl (addPosition positions k e) out) e =
      ((vecAt out e).1 + (l.map fun p => positions (3 * (e * k + p))).sum,
       (vecAt out e).2.1 + (l.map fun p => positions (3 * (e * k + p) + 1)).sum,
       (vecAt out e).2.2 + (l.map fun p => positions (3 * (e * k + p) + 2)).sum) := by
  induction l generalizing out with
  | nil => simp
  | cons p l ih =>
    rw [List.foldl_cons, ih]
    unfold addPosition
    rw [vecAt_setVec]
    simp only [add3, vecAt, List.map_cons, List.sum_cons, add_assoc]

theorem sum_other (positions : ℕ → K) (k : ℕ) {e j : ℕ} (h : j ≠ e) (l : List ℕ) (out : ℕ → K) :
    vecAt (l.foldl (addPosition positions k e) out) j = vecAt out j := by
  induction l generalizing out with
  | nil => rfl
  | cons p l ih =>
    rw [List.foldl_cons, ih]
    exact vecAt_setVec_ne _ _ h

theorem sum_beyond (positions : ℕ → K) (k : ℕ) {e n j : ℕ} (he : e < n) (hj : 3 * n ≤ j) (l : List ℕ) (out : ℕ → K) :
    (l.foldl (addPosition positions k e) out) j = out j := by
  induction l generalizing out with
  | nil => rfl
  | cons p l ih =>
    rw [List.foldl_cons, ih]
    exact setVec_beyond _ _ he hj

/-- The mean of the positions of the particles of an entity. -/
def centre (positions : ℕ → K) (k e : ℕ) : K × K × K :=
  ((∑ p ∈ Finset.range k, positions (3 * (e * k + p))) / k,
   (∑ p ∈ Finset.range k, positions (3 * (e * k + p) + 1)) / k,
   (∑ p ∈ Finset.range k, positions (3 * (e * k + p) + 2)) / k)

theorem thread_same (positions : ℕ → K) (k e : ℕ) (out : ℕ → K) :
    vecAt (centreThread positions k out e) e = centre positions k e := by
  unfold centreThread
  rw [vecAt_setVec, sum_same, vecAt_setVec]
  simp only [div3, zero_add, centre]
  rfl

theorem thread_other (positions : ℕ → K) (k : ℕ) {e j : ℕ} (h : j ≠ e) (out : ℕ → K) :
    vecAt (centreThread positions k out e) j = vecAt out j := by
  unfold centreThread
  rw [vecAt_setVec_ne _ _ h, sum_other _ _ h, vecAt_setVec_ne _ _ h]

theorem thread_beyond (positions : ℕ → K) (k : ℕ) {e n j : ℕ} (he : e < n) (hj : 3 * n ≤ j) (out : ℕ → K) :
    centreThread positions k out e j = out j := by
  unfold centreThread
  rw [setVec_beyond _ _ he hj, sum_beyond _ _ he hj, setVec_beyond _ _ he hj]

theorem threads_other (positions : ℕ → K) (k : ℕ) {j : ℕ} (l : List ℕ) (h : j ∉ l) (out : ℕ → K) :
    vecAt (l.foldl (centreThread positions k) out) j = vecAt out j := by
  induction l generalizing out with
  | nil => rfl
  | cons e l ih =>
    rw [List.mem_cons, not_or] at h
    rw [List.foldl_cons, ih h.2, thread_other _ _ h.1]

theorem threads_same (positions : ℕ → K) (k : ℕ) {j : ℕ} (l : List ℕ) (h : j ∈ l) (out : ℕ → K) :
    vecAt (l.foldl (centreThread positions k) out) j = centre positions k j := by
  induction l generalizing out with
  | nil => simp at h
  | cons e l ih =>
    rw [List.foldl_cons]
    by_cases hl : j ∈ l
    · exact ih hl _
    · rw [List.mem_cons] at h
      have : j = e := h.resolve_right hl
      subst this
      rw [threads_other _ _ _ hl, thread_same]

theorem threads_beyond (positions : ℕ → K) (k : ℕ) {n j : ℕ} (l : List ℕ) (h : ∀ e ∈ l, e < n) (hj : 3 * n ≤ j)
    (out : ℕ → K) : (l.foldl (centreThread positions k) out) j = out j := by
  induction l generalizing out with
  | nil => rfl
  | cons e l ih =>
    rw [List.foldl_cons, ih (fun e' he' => h e' (List.mem_cons_of_mem _ he')),
      thread_beyond _ _ (h e (by simp)) hj]

theorem entities_le (kind : Kind) (count : ℕ) : kind.entities count ≤ count := by
  cases kind <;> simp [Kind.entities, Nat.div_le_self]

/-- The particle with a number is in one entity only, at one place in it. -/
theorem C113_entities (kind : Kind) (count : ℕ) (h : kind.accepts count) :
    0 < kind.perEntity ∧
    kind.entities count * kind.perEntity = count ∧
    ∀ i < count, ∃! e : ℕ × ℕ, e.1 < kind.entities count ∧ e.2 < kind.perEntity ∧ e.1 * kind.perEntity + e.2 = i := by
  have key : 0 < kind.perEntity ∧ kind.entities count * kind.perEntity = count := by
    cases kind with
    | simple => simp [Kind.entities, Kind.perEntity]
    | dumbbells => simp [Kind.entities, Kind.perEntity, Kind.accepts] at *; omega
    | rods => simp [Kind.entities, Kind.perEntity, Kind.accepts] at *; omega
    | trimers => simp [Kind.entities, Kind.perEntity, Kind.accepts] at *; omega
    | chains n =>
      exact ⟨Nat.pos_of_ne_zero h.1, Nat.div_mul_cancel (Nat.dvd_of_mod_eq_zero h.2)⟩
  refine ⟨key.1, key.2, fun i hi => ⟨(i / kind.perEntity, i % kind.perEntity), ⟨?_, ?_, ?_⟩, ?_⟩⟩
  · refine Nat.div_lt_of_lt_mul ?_
    rw [mul_comm, key.2]
    exact hi
  · exact Nat.mod_lt _ key.1
  · simp only []
    rw [mul_comm]
    exact Nat.div_add_mod _ _
  · rintro ⟨a, b⟩ ⟨h1, h2, h3⟩
    simp only at h1 h2 h3
    subst h3
    rw [Prod.mk.injEq]
    constructor
    · rw [add_comm, Nat.add_mul_div_right _ _ key.1, Nat.div_eq_of_lt h2, zero_add]
    · rw [add_comm, Nat.add_mul_mod_self_right, Nat.mod_eq_of_lt h2]

/-- C113, centres of mass: for every fluid of up to `2 ^ 32 - 2 ^ 19` particles the function finishes; whatever the order of
the threads and whatever the buffer held before, its vectors are the means of the current device positions of the particles of
each entity, and nothing behind them is touched. -/
theorem C113_centres (kind : Kind) (f : Fluid K) (hcount : f.count + 1024 * 512 ≤ 2 ^ 32) (before : ℕ → K) :
    (∃ after, SavesCentres kind f before after) ∧
    ∀ after, SavesCentres kind f before after →
      (∀ e < kind.entities f.count,
        vecAt after e = centre f.device.pos kind.perEntity e) ∧
      ∀ j, 3 * kind.entities f.count ≤ j → after j = before j := by
  have hle := entities_le kind f.count
  obtain ⟨ls, hl, hp, -, -⟩ := loop_from (G := 1024) (B := 512) (N := kind.entities f.count) (by norm_num) (by norm_num)
    (by omega) 0 (by omega)
  refine ⟨⟨_, ls, _, hl, List.Perm.refl _, rfl⟩, ?_⟩
  rintro after ⟨ls', order, hl', hperm, rfl⟩
  obtain rfl := loop_unique hl' hl
  have hmem : ∀ e, e ∈ order ↔ e < kind.entities f.count := by
    intro e
    rw [hperm.mem_iff, hp]
    simp
  refine ⟨fun e he => threads_same _ _ _ ((hmem e).2 he) _, fun j hj => ?_⟩
  exact threads_beyond _ _ _ (fun e he => (hmem e).1 he) hj _

end

/-- A concrete history: three particles; set, kernel, fetch, kernel. -/
example : seen (run (⟨3, ⟨fun _ => 0, fun _ => 0⟩, ⟨fun _ => 7, fun _ => 7⟩⟩ : Fluid ℕ)
    [.set ⟨fun i => i, fun i => 10 * i⟩, .deviceWrite fun a => { a with pos := fun i => a.pos i + 1 }, .fetch,
      .deviceWrite fun a => { a with pos := fun i => a.pos i + 1 }]) 1 =
    some ((4, 5, 6), (30, 40, 50)) := by rfl

example : findMatchingParticlesOnHost (⟨3, ⟨fun i => i, fun _ => 0⟩, ⟨fun _ => 7, fun _ => 7⟩⟩ : Fluid ℕ)
    (fun p _ => decide (2 < p.1)) (some [5]) (some 9) = (some [5, 1, 2], some 2) := by decide

example : Kind.accepts 6 (.chains 3) ∧ Kind.entities 6 (.chains 3) = 2 := ⟨⟨by decide, by decide⟩, by decide⟩

end OpenMPCD.Mirror
