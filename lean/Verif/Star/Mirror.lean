import Verif.Star.State
import Verif.Fluid.Mirror

/-!
# The data of star polymers on the host and on the device (C150)

`src/OpenMPCD/CUDA/MPCSolute/Base.cu`, and saving and restoring in `src/OpenMPCD/CUDA/MPCSolute/StarPolymers.cu`. In
`Verif/Star/State.lean` (C60), host and device buffers are not distinguished; here they are.
-/

set_option linter.unusedSectionVars false
set_option linter.unusedSimpArgs false
set_option linter.unusedVariables false

namespace OpenMPCD.StarMirror

open OpenMPCD.Snapshot
open OpenMPCD.Mirror (Arrays memcpy copyBoth vecAt)
open OpenMPCD.Star (Geometry snapshotStructureIsCompatible writeState)

variable {FP : Type}

/-! ## Model -/

/-- The solute: the numbers of stars, arms, and particles, `h_positions` and `h_velocities`, `d_positions` and `d_velocities`
(`include/OpenMPCD/CUDA/MPCSolute/Base.hpp:205-211`). -/
structure Solute (FP : Type) where
  g : Geometry
  host : Arrays FP
  device : Arrays FP

/-- `fetchFromDevice` (`src/OpenMPCD/CUDA/MPCSolute/Base.cu:29-36`). -/
def fetchFromDevice (f : Solute FP) : Solute FP := { f with host := copyBoth f.g.getParticleCount f.host f.device }

/-- `pushToDevice` (`src/OpenMPCD/CUDA/MPCSolute/Base.cu:68-75`). -/
def pushToDevice (f : Solute FP) : Solute FP := { f with device := copyBoth f.g.getParticleCount f.device f.host }

/-- `getPosition` (`src/OpenMPCD/CUDA/MPCSolute/Base.cu:38-51`), compiled with checks. -/
def getPosition (f : Solute FP) (particleID : ℕ) : Except Err (FP × FP × FP) :=
  if particleID ≥ f.g.getParticleCount then .error .outOfBounds else .ok (vecAt f.host.pos particleID)

/-- `getVelocity` (`src/OpenMPCD/CUDA/MPCSolute/Base.cu:53-66`), compiled with checks. -/
def getVelocity (f : Solute FP) (particleID : ℕ) : Except Err (FP × FP × FP) :=
  if particleID ≥ f.g.getParticleCount then .error .outOfBounds else .ok (vecAt f.host.vel particleID)

/-- `writeStateToSnapshot` (`src/OpenMPCD/CUDA/MPCSolute/StarPolymers.cu:558-575`): the solute afterwards, and snapshot and text, or the
exception. The pointer is not null. The data are fetched after the checks. -/
def writeStateToSnapshot (io : Io FP) (f : Solute FP) (sf : Snap FP × Str) : Solute FP × Except Err (Snap FP × Str) :=
  if numberOfAtoms sf.1.atomRanges ≠ f.g.getParticleCount then (f, .error .invalidArgument)
  else if ¬ sf.1.writeMode then (f, .error .invalidArgument)
  else
    let f := fetchFromDevice f
    (f, writeState io f.g sf f.host.pos f.host.vel)

/-- `readStateFromSnapshot` (`src/OpenMPCD/CUDA/MPCSolute/StarPolymers.cu:577-590`): the solute afterwards, and the position in the
file, or the exception. The pointer is not null. The result of `readTimestepBlock` is not used. If that function throws an exception, it may
have written to the host buffers before: `scrap` is what they contain then. -/
def readStateFromSnapshot (io : Io FP) (scrap : Arrays FP) (f : Solute FP) (s : Snap FP) (st : Stream) :
    Solute FP × Except Err Stream :=
  match snapshotStructureIsCompatible f.g s with
  | .error e => (f, .error e)
  | .ok false => (f, .error .invalidArgument)
  | .ok true =>
    match readTimestepBlock io s st (some f.host.pos) (some f.host.vel) with
    | .error e => ({ f with host := scrap }, .error e)
    | .ok (r, st) =>
      (pushToDevice { f with host := ⟨r.positions.getD f.host.pos, r.velocities.getD f.host.vel⟩ }, .ok st)

/-- What happens to a solute: the functions above; `device`: kernels, such as those of the MD steps, and writing to the arrays that
`getDevicePositions` and `getDeviceVelocities` give access to (`include/OpenMPCD/CUDA/MPCSolute/Base.hpp:105-151`). -/
inductive Op (FP : Type)
  | fetch
  | device (change : Arrays FP → Arrays FP)
  | write (sf : Snap FP × Str)
  | read (scrap : Arrays FP) (s : Snap FP) (st : Stream)

def step (io : Io FP) (f : Solute FP) : Op FP → Solute FP
  | .fetch => fetchFromDevice f
  | .device change => { f with device := change f.device }
  | .write sf => (writeStateToSnapshot io f sf).1
  | .read scrap s st => (readStateFromSnapshot io scrap f s st).1

def run (io : Io FP) (f : Solute FP) (ops : List (Op FP)) : Solute FP := ops.foldl (step io) f

/-- The end of the constructor (`src/OpenMPCD/CUDA/MPCSolute/StarPolymers.cu:236-300`): the initial state is copied to the device. -/
def construct (g : Geometry) (initial garbage : Arrays FP) : Solute FP := pushToDevice ⟨g, initial, garbage⟩

/-! ## Specification -/

/-- The coordinates of all particles are the same. -/
def Same (n : ℕ) (a b : Arrays FP) : Prop := ∀ j < 3 * n, a.pos j = b.pos j ∧ a.vel j = b.vel j

/-- The host's data are those of the device. -/
def InSync (f : Solute FP) : Prop := Same f.g.getParticleCount f.host f.device

/-- The state is that of the given frame: its positions, and its velocities, or, if it has none, those before. -/
def IsFrame (n : ℕ) (frame : Frame FP) (before after : Arrays FP) : Prop :=
  ∀ j < 3 * n, after.pos j = frame.1 j ∧ after.vel j = (frame.2.getD before.vel) j

/-! ## Proofs -/

theorem memcpy_lt {n : ℕ} {dst src : ℕ → FP} {i : ℕ} (h : i < n) : memcpy n dst src i = src i := by
  simp [memcpy, h]

theorem copy_same (n : ℕ) (dst src : Arrays FP) : Same n (copyBoth n dst src) src := fun j hj =>
  ⟨memcpy_lt hj, memcpy_lt hj⟩

theorem same_symm {n : ℕ} {a b : Arrays FP} (h : Same n a b) : Same n b a := fun j hj => ⟨(h j hj).1.symm, (h j hj).2.symm⟩

theorem same_trans {n : ℕ} {a b c : Arrays FP} (h : Same n a b) (h' : Same n b c) : Same n a c := fun j hj =>
  ⟨(h j hj).1.trans (h' j hj).1, (h j hj).2.trans (h' j hj).2⟩

theorem vecAt_congr {a b : ℕ → FP} {n i : ℕ} (h : ∀ j < 3 * n, a j = b j) (hi : i < n) : vecAt a i = vecAt b i := by
  unfold vecAt
  rw [h _ (by omega), h _ (by omega), h _ (by omega)]

theorem step_g (io : Io FP) (f : Solute FP) (o : Op FP) : (step io f o).g = f.g := by
  cases o with
  | fetch => rfl
  | device c => rfl
  | write sf =>
    simp only [step, writeStateToSnapshot]
    split_ifs <;> rfl
  | read scrap s st =>
    simp only [step, readStateFromSnapshot]
    split
    · rfl
    · rfl
    · split <;> rfl

theorem run_g (io : Io FP) (f : Solute FP) (ops : List (Op FP)) : (run io f ops).g = f.g := by
  induction ops generalizing f with
  | nil => rfl
  | cons o ops ih => exact (ih (step io f o)).trans (step_g io f o)

/-- The last operation makes host and device agree, without an exception. -/
inductive Syncs (io : Io FP) (f : Solute FP) : Op FP → Prop
  | fetch : Syncs io f .fetch
  | write (sf r) : (writeStateToSnapshot io f sf).2 = .ok r → Syncs io f (.write sf)
  | read (scrap s st r) : (readStateFromSnapshot io scrap f s st).2 = .ok r → Syncs io f (.read scrap s st)

theorem sync_step (io : Io FP) (f : Solute FP) (o : Op FP) (h : Syncs io f o) : InSync (step io f o) := by
  cases h with
  | fetch => exact copy_same _ _ _
  | write sf r h =>
    simp only [step, writeStateToSnapshot] at h ⊢
    split_ifs at h ⊢
    exact copy_same _ _ _
  | read scrap s st r h =>
    simp only [step, readStateFromSnapshot] at h ⊢
    split at h
    · cases h
    · cases h
    · split at h
      · cases h
      · exact same_symm (copy_same _ _ _)

theorem construct_sync (g : Geometry) (initial garbage : Arrays FP) : InSync (construct g initial garbage) :=
  same_symm (copy_same _ _ _)

theorem device_run (io : Io FP) (f : Solute FP) (ops : List (Op FP)) (h : ∀ o ∈ ops, ∃ c, o = Op.device c) :
    (run io f ops).host = f.host := by
  induction ops generalizing f with
  | nil => rfl
  | cons o ops ih =>
    obtain ⟨c, rfl⟩ := h o (by simp)
    exact ih (step io f (.device c)) fun o' ho => h o' (by simp [ho])

/-- **C150** (host): what `getPosition` and `getVelocity` return is, after any history, what was on the device when the data were
last copied, by `fetchFromDevice` or by writing or reading a state, whatever has happened on the device since; numbers of particles that
do not exist are refused. -/
theorem C150_host (io : Io FP) (f : Solute FP) (pre post : List (Op FP)) (o : Op FP) (ho : Syncs io (run io f pre) o)
    (hpost : ∀ o' ∈ post, ∃ c, o' = Op.device c) (i : ℕ) :
    (i < f.g.getParticleCount →
      getPosition (run io f (pre ++ o :: post)) i = .ok (vecAt (run io f (pre ++ [o])).device.pos i) ∧
      getVelocity (run io f (pre ++ o :: post)) i = .ok (vecAt (run io f (pre ++ [o])).device.vel i)) ∧
    (f.g.getParticleCount ≤ i → getPosition (run io f (pre ++ o :: post)) i = .error .outOfBounds ∧
      getVelocity (run io f (pre ++ o :: post)) i = .error .outOfBounds) := by
  have hg := run_g io f (pre ++ o :: post)
  constructor
  · intro hi
    have e1 : run io f (pre ++ [o]) = step io (run io f pre) o := by simp [run, List.foldl_append]
    have e2 : run io f (pre ++ o :: post) = run io (step io (run io f pre) o) post := by simp [run, List.foldl_append]
    have hs := sync_step io _ o ho
    have hn : (step io (run io f pre) o).g = f.g := (step_g io _ o).trans (run_g io f pre)
    unfold InSync at hs
    rw [hn] at hs
    unfold getPosition getVelocity
    rw [hg, if_neg (by omega), if_neg (by omega), e2, device_run io _ post hpost, e1]
    exact ⟨congrArg _ (vecAt_congr (fun j hj => (hs j hj).1) hi), congrArg _ (vecAt_congr (fun j hj => (hs j hj).2) hi)⟩
  · intro hi
    unfold getPosition getVelocity
    rw [hg, if_pos hi, if_pos hi]
    exact ⟨rfl, rfl⟩

theorem mkCoord_congr {a b : Arrays FP} (io : Io FP) (n : ℕ) (h : Same n a b) :
    timestepText io n a.pos (some a.vel) = timestepText io n b.pos (some b.vel) := by
  unfold timestepText
  congr 1
  apply List.flatMap_congr
  intro i hi
  rw [List.mem_range] at hi
  simp only [(h (3 * i + 0) (by omega)).1, (h (3 * i + 1) (by omega)).1, (h (3 * i + 2) (by omega)).1, (h (3 * i + 0) (by omega)).2,
    (h (3 * i + 1) (by omega)).2, (h (3 * i + 2) (by omega)).2]

/-- **C150** (saving): the state written is that on the device, whatever is in the host's buffers; the device's data are not
changed. -/
theorem C150_write (io : Io FP) (f : Solute FP) (sf : Snap FP × Str) (hn : numberOfAtoms sf.1.atomRanges = f.g.getParticleCount)
    (hw : sf.1.writeMode = true) :
    (writeStateToSnapshot io f sf).2 = writeState io f.g sf f.device.pos f.device.vel ∧
    (∃ r, (writeStateToSnapshot io f sf).2 = .ok r) ∧ (writeStateToSnapshot io f sf).1.device = f.device := by
  have e : writeStateToSnapshot io f sf =
      (fetchFromDevice f, writeState io f.g sf (fetchFromDevice f).host.pos (fetchFromDevice f).host.vel) := by
    unfold writeStateToSnapshot
    rw [if_neg (not_not.2 hn), if_neg (not_not.2 hw)]
    rfl
  rw [e]
  refine ⟨?_, ?_, rfl⟩
  · unfold writeState
    rw [if_neg (not_not.2 hn), if_neg (not_not.2 hw), if_neg (not_not.2 hn), if_neg (not_not.2 hw), hn]
    simp only
    have h := mkCoord_congr io _ (copy_same f.g.getParticleCount f.host f.device)
    exact congrArg (fun x => Except.ok ((ensureStructure io sf).1, (ensureStructure io sf).2 ++ x)) h
  · unfold writeState
    rw [if_neg (not_not.2 hn), if_neg (not_not.2 hw)]
    exact ⟨_, rfl⟩

theorem read_frame (io : Io FP) (scrap : Arrays FP) (f : Solute FP) (s : Snap FP) (st : Stream) (frame : Frame FP)
    (frames : List (Frame FP)) (hc : snapshotStructureIsCompatible f.g s = .ok true)
    (hn : numberOfAtoms s.atomRanges = f.g.getParticleCount) (hr : Reads io s st (frame :: frames)) :
    ∃ st', (readStateFromSnapshot io scrap f s st).2 = .ok st' ∧ Reads io s st' frames ∧
      IsFrame f.g.getParticleCount frame f.host (readStateFromSnapshot io scrap f s st).1.device := by
  obtain ⟨r, st', e, -, -, ⟨i1, i2⟩, hp, hv, hrest⟩ := hr (some f.host.pos) (some f.host.vel)
  obtain ⟨p, hp'⟩ := Option.isSome_iff_exists.1 (i1.trans rfl)
  obtain ⟨v, hv'⟩ := Option.isSome_iff_exists.1 (i2.trans rfl)
  have e' : readStateFromSnapshot io scrap f s st = (pushToDevice { f with host := ⟨p, v⟩ }, .ok st') := by
    unfold readStateFromSnapshot
    rw [hc]
    simp only [e, hp', hv', Option.getD_some]
  rw [e']
  refine ⟨st', rfl, hrest, ?_⟩
  intro j hj
  have h1 := hp f.host.pos rfl p hp' j
  have h2 := hv f.host.vel rfl v hv' j
  rw [hn] at h1 h2
  simp only [hj, if_true] at h1 h2
  refine ⟨?_, ?_⟩
  · show memcpy (3 * f.g.getParticleCount) f.device.pos p j = _
    rw [memcpy_lt hj, h1]
  · show memcpy (3 * f.g.getParticleCount) f.device.vel v j = _
    rw [memcpy_lt hj, h2]
    cases frame.2 <;> rfl

/-- **C150** (restoring): reading a state makes it that of the solute, if the snapshot has velocities; if it has none, and the host's
data are those of the device, the velocities are left as they are. -/
theorem C150_read_partial (io : Io FP) (scrap : Arrays FP) (f : Solute FP) (s : Snap FP) (st : Stream) (frame : Frame FP)
    (frames : List (Frame FP)) (hc : snapshotStructureIsCompatible f.g s = .ok true)
    (hn : numberOfAtoms s.atomRanges = f.g.getParticleCount) (hr : Reads io s st (frame :: frames))
    (h : frame.2.isSome ∨ InSync f) :
    ∃ st', (readStateFromSnapshot io scrap f s st).2 = .ok st' ∧ Reads io s st' frames ∧
      IsFrame f.g.getParticleCount frame f.device (readStateFromSnapshot io scrap f s st).1.device := by
  obtain ⟨st', h1, h2, h3⟩ := read_frame io scrap f s st frame frames hc hn hr
  refine ⟨st', h1, h2, fun j hj => ⟨(h3 j hj).1, ?_⟩⟩
  rw [(h3 j hj).2]
  cases hf : frame.2 with
  | some v => rfl
  | none =>
    rw [hf] at h
    rcases h with h | h
    · cases h
    · exact (h j hj).2

/-- **C150** does not hold for snapshots without velocities: the velocities become those that were on the device when the data were last
copied to the host, e.g. those the solute was constructed with, no matter what the velocities are now. -/
theorem C150_velocities_violated (io : Io FP) (scrap garbage : Arrays FP) (g : Geometry) (initial now : Arrays FP) (s : Snap FP)
    (st : Stream) (positions : ℕ → FP) (frames : List (Frame FP)) (hc : snapshotStructureIsCompatible g s = .ok true)
    (hn : numberOfAtoms s.atomRanges = g.getParticleCount) (hr : Reads io s st ((positions, none) :: frames)) :
    let f := run io (construct g initial garbage) [.device fun _ => now]
    f.device = now ∧ (∃ st', (readStateFromSnapshot io scrap f s st).2 = .ok st') ∧
      ∀ j < 3 * g.getParticleCount, (readStateFromSnapshot io scrap f s st).1.device.vel j = initial.vel j := by
  refine ⟨rfl, ?_⟩
  obtain ⟨st', h1, -, h3⟩ := read_frame io scrap (run io (construct g initial garbage) [.device fun _ => now]) s st
    (positions, none) frames hc hn hr
  exact ⟨⟨st', h1⟩, fun j hj => (h3 j hj).2⟩

theorem read_end (io : Io FP) (scrap : Arrays FP) (f : Solute FP) (s : Snap FP) (st : Stream)
    (hc : snapshotStructureIsCompatible f.g s = .ok true) (hr : Reads io s st []) :
    (∃ st', (readStateFromSnapshot io scrap f s st).2 = .ok st') ∧
    (readStateFromSnapshot io scrap f s st).1 = pushToDevice f := by
  obtain ⟨st', e, -⟩ := hr (some f.host.pos) (some f.host.vel)
  unfold readStateFromSnapshot
  rw [hc]
  simp only [e]
  exact ⟨⟨st', rfl⟩, rfl⟩

/-- **C150** (end of the snapshot): if there is no further state, and the host's data are those of the device, nothing changes. -/
theorem C150_end_partial (io : Io FP) (scrap : Arrays FP) (f : Solute FP) (s : Snap FP) (st : Stream)
    (hc : snapshotStructureIsCompatible f.g s = .ok true) (hr : Reads io s st []) (h : InSync f) :
    Same f.g.getParticleCount (readStateFromSnapshot io scrap f s st).1.device f.device := by
  rw [(read_end io scrap f s st hc hr).2]
  exact same_trans (copy_same _ _ _) h

/-- **C150** does not hold at the end of a snapshot: no exception is thrown, and the solute goes back to the state it had when the data
were last copied to the host, e.g. to the one it was constructed with. -/
theorem C150_end_violated (io : Io FP) (scrap garbage : Arrays FP) (g : Geometry) (initial now : Arrays FP) (s : Snap FP)
    (st : Stream) (hc : snapshotStructureIsCompatible g s = .ok true) (hr : Reads io s st []) :
    let f := run io (construct g initial garbage) [.device fun _ => now]
    f.device = now ∧ (∃ st', (readStateFromSnapshot io scrap f s st).2 = .ok st') ∧
      Same g.getParticleCount (readStateFromSnapshot io scrap f s st).1.device initial := by
  obtain ⟨h1, h2⟩ := read_end io scrap (run io (construct g initial garbage) [.device fun _ => now]) s st hc hr
  refine ⟨rfl, h1, ?_⟩
  rw [h2]
  exact copy_same _ _ _

/-- **C150** (failures): if reading throws an exception, the state of the solute is what it was. -/
theorem C150_failure (io : Io FP) (scrap : Arrays FP) (f : Solute FP) (s : Snap FP) (st : Stream) (e : Err)
    (h : (readStateFromSnapshot io scrap f s st).2 = .error e) : (readStateFromSnapshot io scrap f s st).1.device = f.device := by
  unfold readStateFromSnapshot at h ⊢
  split at h
  · rfl
  · rfl
  · split at h
    · rename_i h''
      simp only [h'']
    · cases h

/-- **C150** does not hold in that reading after a failed attempt, from a snapshot without velocities, may give the solute velocities
that belong to no state, if nothing was copied in between: they are those that the failed attempt left behind. -/
theorem C150_scrap_violated (io : Io FP) (scrap scrap' : Arrays FP) (f : Solute FP) (s s' : Snap FP) (st st' : Stream) (e : Err)
    (hc : snapshotStructureIsCompatible f.g s = .ok true)
    (he : readTimestepBlock io s st (some f.host.pos) (some f.host.vel) = .error e)
    (positions : ℕ → FP) (frames : List (Frame FP)) (hc' : snapshotStructureIsCompatible f.g s' = .ok true)
    (hn : numberOfAtoms s'.atomRanges = f.g.getParticleCount) (hr : Reads io s' st' ((positions, none) :: frames)) :
    ∀ j < 3 * f.g.getParticleCount, (run io f [.read scrap s st, .read scrap' s' st']).device.vel j = scrap.vel j := by
  have h1 : step io f (.read scrap s st) = { f with host := scrap } := by
    simp only [step, readStateFromSnapshot, hc, he]
  have h2 : run io f [.read scrap s st, .read scrap' s' st'] = (readStateFromSnapshot io scrap' { f with host := scrap } s' st').1 := by
    simp only [run, List.foldl_cons, List.foldl_nil, h1]
    rfl
  obtain ⟨_, -, -, h3⟩ := read_frame io scrap' { f with host := scrap } s' st' (positions, none) frames hc' hn hr
  intro j hj
  rw [h2]
  exact (h3 j hj).2

/-! ## Examples -/

/-- There are snapshots as in the theorems: for every geometry and all frames, with or without velocities. -/
theorem exists_snapshot (io : Io FP) (hio : Lawful io) (g : Geometry) (frames : List (Frame FP)) :
    ∃ (s : Snap FP) (st : Stream), snapshotStructureIsCompatible g s = .ok true ∧
      numberOfAtoms s.atomRanges = g.getParticleCount ∧ Reads io s st frames := by
  obtain ⟨s, e, hw, hp, hd, hn, hc, hb, hprops, -, hcomp⟩ := Star.C31_write (FP := FP) g
  have hsound : Sound io s := by
    refine ⟨hw, hd, hc, hb, ?_⟩
    intro r hr
    obtain ⟨h1, h2, t, h3⟩ := hprops r hr
    refine ⟨by simp [h2], ?_, by simp [h1]⟩
    intro t' ht'
    rw [h3] at ht'
    rw [← Option.some.inj ht']
    cases t <;> exact ⟨⟨by decide, by decide⟩, by decide⟩
  obtain ⟨st, -, hreads⟩ := open_written io hio s hsound frames
  exact ⟨reread s, st, hcomp (reread s) rfl rfl rfl, hn, hreads⟩

/-- The hypotheses of `C150_read_partial` and `C150_velocities_violated`, and those of the theorems about the end. -/
example (g : Geometry) (p v : ℕ → ℕ) : (∃ (s : Snap ℕ) (st : Stream), snapshotStructureIsCompatible g s = .ok true ∧
    numberOfAtoms s.atomRanges = g.getParticleCount ∧ Reads natIo s st [(p, some v), (p, none)]) ∧
    ∃ (s : Snap ℕ) (st : Stream), snapshotStructureIsCompatible g s = .ok true ∧
    numberOfAtoms s.atomRanges = g.getParticleCount ∧ Reads natIo s st [] :=
  ⟨exists_snapshot natIo natIo_lawful g _, exists_snapshot natIo natIo_lawful g _⟩

end OpenMPCD.StarMirror
