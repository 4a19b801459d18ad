import Verif.Vec.Model
import Mathlib.LinearAlgebra.Matrix.NonsingularInverse
import Mathlib.Data.Fin.VecNotation

/-!
# `ParticleCollection` and `EckartSystem`
-/

namespace OpenMPCD.Particles

/-- A component of a vector, by index (`Analysis/MPCDAnalysis/Vector3DReal.py:435-453`). -/
def comp {K : Type*} (u : Vec3 K) : Fin 3 → K := ![u.x, u.y, u.z]

/-- `3 × 3` arrays. -/
abbrev Mat := Matrix (Fin 3) (Fin 3) ℝ

/-- A `ParticleCollection` (`Analysis/MPCDAnalysis/ParticleCollection.py:12-21`). The elements of the
lists are objects of class `Vector3DReal`, which have an identity: the lists contain references, and
`heap` the vectors stored. -/
structure Coll where
  heap : ℕ → Vec3 ℝ
  positions : List ℕ
  velocities : List ℕ
  uniformMass : Option ℝ
  gyrationTensor : Option Mat

namespace Coll

/-- The constructor (`Analysis/MPCDAnalysis/ParticleCollection.py:12-21`). -/
def empty : Coll := ⟨fun _ => 0, [], [], none, none⟩

/-- The positions, as values. -/
def pos (s : Coll) : List (Vec3 ℝ) := s.positions.map s.heap

/-- The velocities, as values. -/
def vel (s : Coll) : List (Vec3 ℝ) := s.velocities.map s.heap

/-- `setPositionsAndVelocities` (`Analysis/MPCDAnalysis/ParticleCollection.py:24-68`); the arguments are
lists of references to the caller's objects, whose values are given by `store`. `copy.deepcopy` of a
list copies an object that occurs several times in it only once, so the copy contains references to
the same object at the same places; the two lists are copied independently. Here the copies are
given even and odd numbers. -/
def setPositionsAndVelocities (s : Coll) (store : ℕ → Vec3 ℝ) (positions velocities : List ℕ) :
    Coll × Except PyErr Unit :=
  if velocities.length ≠ 0 ∧ positions.length ≠ velocities.length then (s, .error .valueError)
  else ({ s with
    heap := fun n => store (n / 2)
    positions := positions.map (fun n => 2 * n)
    velocities := velocities.map (fun n => 2 * n + 1)
    gyrationTensor := none }, .ok ())

open Classical in
/-- `setUniformMass` (`Analysis/MPCDAnalysis/ParticleCollection.py:71-92`). -/
noncomputable def setUniformMass (s : Coll) (mass : ℝ) : Coll × Except PyErr Unit :=
  if mass < 0 then (s, .error .valueError) else ({ s with uniformMass := some mass }, .ok ())

/-- `isEmpty` (`Analysis/MPCDAnalysis/ParticleCollection.py:95-100`). -/
def isEmpty (s : Coll) : Bool := s.positions.length = 0

/-- `getParticleCount` (`Analysis/MPCDAnalysis/ParticleCollection.py:103-108`). -/
def getParticleCount (s : Coll) : ℕ := s.positions.length

/-- `getMass` (`Analysis/MPCDAnalysis/ParticleCollection.py:181-206`). -/
def getMass (s : Coll) (index : ℕ) : Except PyErr ℝ :=
  if index ≥ s.getParticleCount then .error .indexError
  else match s.uniformMass with
    | none => .error .runtimeError
    | some m => .ok m

/-- The loops of `getCenterOfMass` and `getCenterOfMassVelocity`
(`Analysis/MPCDAnalysis/ParticleCollection.py:246-249,292-295`): `cumulative` and `mass` at the end. -/
def accumulate (s : Coll) : ℕ → List (Vec3 ℝ) → Vec3 ℝ → ℝ → Except PyErr (Vec3 ℝ × ℝ)
  | _, [], cumulative, mass => .ok (cumulative, mass)
  | index, v :: vs, cumulative, mass =>
    match s.getMass index with
    | .error e => .error e
    | .ok currentMass =>
      s.accumulate (index + 1) vs (cumulative + currentMass • v) (mass + currentMass)

/-- `getCenterOfMass` (`Analysis/MPCDAnalysis/ParticleCollection.py:229-252`). -/
noncomputable def getCenterOfMass (s : Coll) : Except PyErr (Vec3 ℝ) :=
  if s.isEmpty then .error .runtimeError
  else match s.accumulate 0 s.pos 0 0 with
    | .error e => .error e
    | .ok (cumulative, mass) => cumulative.truediv mass

/-- `getCenterOfPositions` (`Analysis/MPCDAnalysis/ParticleCollection.py:255-272`). -/
noncomputable def getCenterOfPositions (s : Coll) : Except PyErr (Vec3 ℝ) :=
  if s.isEmpty then .error .runtimeError
  else (s.pos.foldl (fun cumulative p => cumulative + p) 0).truediv s.positions.length

/-- `getCenterOfMassVelocity` (`Analysis/MPCDAnalysis/ParticleCollection.py:275-298`). -/
noncomputable def getCenterOfMassVelocity (s : Coll) : Except PyErr (Vec3 ℝ) :=
  if s.isEmpty then .error .runtimeError
  else match s.accumulate 0 s.vel 0 0 with
    | .error e => .error e
    | .ok (cumulative, mass) => cumulative.truediv mass

/-- Calling `rotateAroundNormalizedAxis` on one object after the other
(`Analysis/MPCDAnalysis/ParticleCollection.py:327-331`); for an axis of unit length the method does
not raise. -/
noncomputable def rotateObjects (axis : Vec3 ℝ) (angle : ℝ) (heap : ℕ → Vec3 ℝ) (objects : List ℕ) :
    ℕ → Vec3 ℝ :=
  objects.foldl (fun heap n =>
    Function.update heap n ((heap n).rotateAroundNormalizedAxis axis angle).1) heap

open Classical in
/-- `rotateAroundNormalizedAxis` (`Analysis/MPCDAnalysis/ParticleCollection.py:301-333`). -/
noncomputable def rotateAroundNormalizedAxis (s : Coll) (axis : Vec3 ℝ) (angle : ℝ) :
    Coll × Except PyErr Unit :=
  if axis.getLengthSquared ≠ 1 then (s, .error .valueError)
  else
    let heap := rotateObjects axis angle s.heap s.positions
    let heap := rotateObjects axis angle heap s.velocities
    ({ s with heap := heap, gyrationTensor := none }, .ok ())

/-- `shiftToCenterOfMassFrame` (`Analysis/MPCDAnalysis/ParticleCollection.py:336-350`). `-=` stores new
objects in the list: here the objects `0, 1, ...` for the positions, and the following ones for the
velocities. -/
noncomputable def shiftToCenterOfMassFrame (s : Coll) : Coll × Except PyErr Unit :=
  match s.getCenterOfMass with
  | .error e => (s, .error e)
  | .ok centerOfMass =>
    match s.getCenterOfMassVelocity with
    | .error e => (s, .error e)
    | .ok centerOfMassVelocity =>
      let values := s.pos.map (fun p => p - centerOfMass) ++
        s.vel.map (fun v => v - centerOfMassVelocity)
      ({ s with
        heap := fun n => values.getD n 0
        positions := List.range s.positions.length
        velocities := List.range' s.positions.length s.velocities.length
        gyrationTensor := none }, .ok ())

/-- The entry `S[m][n]`, `m ≤ n`, after the loops
(`Analysis/MPCDAnalysis/ParticleCollection.py:383-394`). The entries do not influence each other. -/
noncomputable def gyrationEntry (ps : List (Vec3 ℝ)) (m n : Fin 3) : ℝ :=
  (ps.foldl (fun acc r1 => ps.foldl (fun acc r2 =>
    acc + (comp r1 m - comp r2 m) * (comp r1 n - comp r2 n)) acc) 0) *
    (1 / (2 * ps.length * ps.length))

/-- The matrix assembled in `getGyrationTensor`
(`Analysis/MPCDAnalysis/ParticleCollection.py:383-398`). -/
noncomputable def gyration (ps : List (Vec3 ℝ)) : Mat :=
  fun m n => if m ≤ n then gyrationEntry ps m n else gyrationEntry ps n m

/-- `getGyrationTensor` (`Analysis/MPCDAnalysis/ParticleCollection.py:353-401`). -/
noncomputable def getGyrationTensor (s : Coll) : Coll × Except PyErr Mat :=
  match s.gyrationTensor with
  | some S => (s, .ok S)
  | none =>
    if s.isEmpty then (s, .error .valueError)
    else ({ s with gyrationTensor := some (gyration s.pos) }, .ok (gyration s.pos))

/-- The loop of `getMomentOfInertiaTensor`
(`Analysis/MPCDAnalysis/ParticleCollection.py:412-430`): the variables
`Ixx, Ixy, Ixz, Iyy, Iyz, Izz`. -/
def inertiaLoop (s : Coll) : ℕ → List (Vec3 ℝ) → ℝ × ℝ × ℝ × ℝ × ℝ × ℝ →
    Except PyErr (ℝ × ℝ × ℝ × ℝ × ℝ × ℝ)
  | _, [], acc => .ok acc
  | index, p :: ps, (xx, xy, xz, yy, yz, zz) =>
    match s.getMass index with
    | .error e => .error e
    | .ok mass => s.inertiaLoop (index + 1) ps
        (xx + mass * (p.y * p.y + p.z * p.z), xy + -mass * p.x * p.y, xz + -mass * p.x * p.z,
          yy + mass * (p.x * p.x + p.z * p.z), yz + -mass * p.y * p.z,
          zz + mass * (p.x * p.x + p.y * p.y))

open Classical in
/-- `getMomentOfInertiaTensor` (`Analysis/MPCDAnalysis/ParticleCollection.py:404-437`). -/
noncomputable def getMomentOfInertiaTensor (s : Coll) : Except PyErr Mat :=
  match s.getCenterOfMass with
  | .error e => .error e
  | .ok centerOfMass =>
    if centerOfMass.getLengthSquared > 1 / 10 ^ 20 then .error .valueError
    else match s.inertiaLoop 0 s.pos (0, 0, 0, 0, 0, 0) with
      | .error e => .error e
      | .ok (xx, xy, xz, yy, yz, zz) => .ok !![xx, xy, xz; xy, yy, yz; xz, yz, zz]

/-- `getTotalAngularMomentumVector` with `getMomentum`
(`Analysis/MPCDAnalysis/ParticleCollection.py:209-226,439-445`). -/
def angularMomentumLoop (s : Coll) : ℕ → List (Vec3 ℝ) → Vec3 ℝ → Except PyErr (Vec3 ℝ)
  | _, [], L => .ok L
  | index, p :: ps, L =>
    match s.vel[index]? with
    | none => .error .indexError
    | some v =>
      match s.getMass index with
      | .error e => .error e
      | .ok mass => s.angularMomentumLoop (index + 1) ps (L + p.cross (mass • v))

/-- `getTotalAngularMomentumVector` (`Analysis/MPCDAnalysis/ParticleCollection.py:439-445`). -/
def getTotalAngularMomentumVector (s : Coll) : Except PyErr (Vec3 ℝ) :=
  s.angularMomentumLoop 0 s.pos 0

/-- The product of a matrix and a vector. -/
def mulVec (A : Mat) (v : Vec3 ℝ) : Vec3 ℝ :=
  ⟨A 0 0 * v.x + A 0 1 * v.y + A 0 2 * v.z, A 1 0 * v.x + A 1 1 * v.y + A 1 2 * v.z,
    A 2 0 * v.x + A 2 1 * v.y + A 2 2 * v.z⟩

open Classical in
/-- `getRotationFrequencyVector` (`Analysis/MPCDAnalysis/ParticleCollection.py:447-452`);
`numpy.linalg.inv` raises for singular matrices. -/
noncomputable def getRotationFrequencyVector (s : Coll) : Except PyErr (Vec3 ℝ) :=
  match s.getMomentOfInertiaTensor with
  | .error e => .error e
  | .ok I =>
    match s.getTotalAngularMomentumVector with
    | .error e => .error e
    | .ok L => if I.det = 0 then .error .exception else .ok (mulVec I⁻¹ L)

open Classical in
/-- The loop of `__eq__` (`Analysis/MPCDAnalysis/ParticleCollection.py:650-654`). -/
noncomputable def eqLoop : List (Vec3 ℝ) → List (Vec3 ℝ) → List (Vec3 ℝ) → List (Vec3 ℝ) →
    Except PyErr Bool
  | [], _, _, _ => .ok true
  | _ :: _, [], _, _ => .error .indexError
  | p :: ps, q :: qs, vs, ws =>
    if p ≠ q then .ok false
    else match vs, ws with
      | v :: vs, w :: ws => if v ≠ w then .ok false else eqLoop ps qs vs ws
      | _, _ => .error .indexError

open Classical in
/-- `__eq__` (`Analysis/MPCDAnalysis/ParticleCollection.py:625-656`). -/
noncomputable def eq (s t : Coll) : Except PyErr Bool :=
  if s.positions.length ≠ t.positions.length then .ok false
  else if s.uniformMass ≠ t.uniformMass then .ok false
  else eqLoop s.pos t.pos s.vel t.vel

end Coll

/-! ## Shape descriptors -/

/-- `getAsphericity` for the sorted eigenvalues `x, y, z`
(`Analysis/MPCDAnalysis/ParticleCollection.py:525-538`). -/
noncomputable def asphericity (x y z : ℝ) : ℝ := z - 0.5 * (x + y)

/-- `getAcylindricity` (`Analysis/MPCDAnalysis/ParticleCollection.py:540-553`). -/
noncomputable def acylindricity (x y _z : ℝ) : ℝ := y - x

/-- `getRadiusOfGyrationSquared` (`Analysis/MPCDAnalysis/ParticleCollection.py:507-515`). -/
noncomputable def radiusOfGyrationSquared (x y z : ℝ) : ℝ := x + y + z

/-- `getRelativeShapeAnisotropy` (`Analysis/MPCDAnalysis/ParticleCollection.py:555-569`). -/
noncomputable def relativeShapeAnisotropy (x y z : ℝ) : ℝ :=
  (asphericity x y z * asphericity x y z + 0.75 * acylindricity x y z * acylindricity x y z) /
    (radiusOfGyrationSquared x y z * radiusOfGyrationSquared x y z)

end OpenMPCD.Particles
