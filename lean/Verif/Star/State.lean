import Verif.Star.Snapshot
import Verif.Snapshot.RoundTrip

/-!
# Saving and restoring the state of star polymers

`src/OpenMPCD/CUDA/MPCSolute/StarPolymers.cu`, `src/OpenMPCD/CUDA/MPCSolute/Instrumentation/StarPolymers.cpp`.
Host and device buffers are not distinguished: `fetchFromDevice` and `pushToDevice` copy.
-/

namespace OpenMPCD.Star

open Snapshot

variable {FP : Type}

/-- `writeStateToSnapshot` (`src/OpenMPCD/CUDA/MPCSolute/StarPolymers.cu:558-575`), for a snapshot and
the text written so far. -/
def writeState (io : Io FP) (g : Geometry) (sf : Snap FP × Str) (positions velocities : ℕ → FP) :
    Except Err (Snap FP × Str) :=
  if numberOfAtoms sf.1.atomRanges ≠ g.getParticleCount then .error .invalidArgument
  else if ¬ sf.1.writeMode then .error .invalidArgument
  else
    .ok ((ensureStructure io sf).1,
      (ensureStructure io sf).2 ++ timestepText io (numberOfAtoms sf.1.atomRanges) positions (some velocities))

/-- What the instrumentation writes (`src/OpenMPCD/CUDA/MPCSolute/Instrumentation/StarPolymers.cpp:14-37`)
to a new file, and the destructor of the snapshot. -/
noncomputable def save (io : Io FP) (g : Geometry) (states : List ((ℕ → FP) × (ℕ → FP))) :
    Except Err (Snap FP × Str) := do
  let s ← writeStructureToSnapshot g { writeMode := true }
  let sf ← states.foldlM (fun sf x => writeState io g sf x.1 x.2) (s, [])
  return ensureStructure io sf

/-- `readStateFromSnapshot` (`src/OpenMPCD/CUDA/MPCSolute/StarPolymers.cu:577-590`): positions and velocities
afterwards. -/
def readState (io : Io FP) (g : Geometry) (s : Snap FP) (st : Stream) (positions velocities : ℕ → FP) :
    Except Err (((ℕ → FP) × (ℕ → FP)) × Stream) := do
  let compatible ← snapshotStructureIsCompatible g s
  if ¬ compatible then .error .invalidArgument
  let (r, st) ← readTimestepBlock io s st (some positions) (some velocities)
  return ((r.positions.getD positions, r.velocities.getD velocities), st)

/-- Successive calls restore the given states, whatever the state before the call. -/
def Restores (io : Io FP) (g : Geometry) (s : Snap FP) : Stream → List ((ℕ → FP) × (ℕ → FP)) → Prop
  | _, [] => True
  | st, x :: xs => ∀ positions velocities, ∃ p v st',
      readState io g s st positions velocities = .ok ((p, v), st') ∧
      (∀ j < 3 * g.getParticleCount, p j = x.1 j ∧ v j = x.2 j) ∧ Restores io g s st' xs

theorem restores_of_reads (io : Io FP) (g : Geometry) (s : Snap FP)
    (hc : snapshotStructureIsCompatible g s = .ok true) (hn : numberOfAtoms s.atomRanges = g.getParticleCount)
    (xs : List ((ℕ → FP) × (ℕ → FP))) :
    ∀ st, Reads io s st (xs.map fun x => (x.1, some x.2)) → Restores io g s st xs := by
  induction xs with
  | nil => intros; trivial
  | cons x xs ih =>
    intro st h positions velocities
    obtain ⟨r, st', e, -, -, ⟨i1, i2⟩, hp, hv, hrest⟩ := h (some positions) (some velocities)
    obtain ⟨p, hp'⟩ := Option.isSome_iff_exists.1 (i1.trans rfl)
    obtain ⟨v, hv'⟩ := Option.isSome_iff_exists.1 (i2.trans rfl)
    refine ⟨p, v, st', ?_, ?_, ih st' hrest⟩
    · simp only [readState, hc, e, bind, Except.bind, not_true_eq_false, if_false, pure, Except.pure, hp', hv',
        Option.getD_some]
    · intro j hj
      rw [← hn] at hj
      have h1 := hp positions rfl p hp' j
      have h2 := hv velocities rfl v hv' j
      simp only [hj, if_true] at h1 h2
      exact ⟨h1, h2⟩

theorem save_states (io : Io FP) (g : Geometry) (s : Snap FP) (hw : s.writeMode = true)
    (hn : numberOfAtoms s.atomRanges = g.getParticleCount)
    (xs : List ((ℕ → FP) × (ℕ → FP))) :
    ∀ b t,
      ∃ t', (xs.foldlM (fun sf x => writeState io g sf x.1 x.2) ({ s with structureBlockProcessed := b }, t)).map
        (ensureStructure io) = Except.ok ({ s with structureBlockProcessed := true }, t') ∧
      t' = t ++ (if b then [] else structureText io s) ++
        framesText io g.getParticleCount (xs.map fun x => (x.1, some x.2)) := by
  induction xs with
  | nil =>
    intro b t
    cases b <;> simp [Except.map, pure, Except.pure, ensureStructure, framesText, structureText]
  | cons x xs ih =>
    intro b t
    rw [List.foldlM_cons]
    have hstep : writeState io g ({ s with structureBlockProcessed := b }, t) x.1 x.2 =
        .ok ({ s with structureBlockProcessed := true },
          t ++ (if b then [] else structureText io s) ++ timestepText io g.getParticleCount x.1 (some x.2)) := by
      unfold writeState
      simp only
      rw [if_neg (by simp [hn]), if_neg (by simp [hw]), hn]
      cases b <;> simp [ensureStructure, structureText]
    rw [hstep]
    obtain ⟨t', e, ht⟩ := ih true (t ++ (if b then [] else structureText io s) ++
      timestepText io g.getParticleCount x.1 (some x.2))
    refine ⟨t', e, ?_⟩
    rw [ht]
    simp [framesText]

/-- C60: the file written by the instrumentation for any sequence of states can be opened, fits star
polymers of the same geometry, and reading restores the states one after the other. -/
theorem C60_restore_partial (io : Io FP) (hio : Lawful io) (g : Geometry)
    (states : List ((ℕ → FP) × (ℕ → FP))) :
    ∃ sf s st, save io g states = .ok sf ∧ openRead io sf.2 = .ok (s, st) ∧
      snapshotStructureIsCompatible g s = .ok true ∧ Restores io g s st states := by
  obtain ⟨s, e, hw, hp, hd, hn, hc, hb, hprops, -, hcomp⟩ := C31_write (FP := FP) g
  obtain ⟨t', e2, ht'⟩ := save_states io g s hw hn states false []
  have hs : ({ s with structureBlockProcessed := false } : Snap FP) = s := by rw [← hp]
  rw [hs] at e2
  have hsave : save io g states = .ok ({ s with structureBlockProcessed := true }, t') := by
    unfold save
    rw [e]
    revert e2
    simp only [bind, Except.bind]
    cases states.foldlM (fun sf x => writeState io g sf x.1 x.2) (s, []) with
    | error _ => intro h; cases h
    | ok sf => intro h; exact h
  have hsound : Sound io s := by
    refine ⟨hw, hd, hc, hb, ?_⟩
    intro r hr
    obtain ⟨h1, h2, t, h3⟩ := hprops r hr
    refine ⟨by simp [h2], ?_, by simp [h1]⟩
    intro t' ht'
    rw [h3] at ht'
    rw [← Option.some.inj ht']
    cases t <;> exact ⟨⟨by decide, by decide⟩, by decide⟩
  have hopen := open_written io hio s hsound (states.map fun x => (x.1, some x.2))
  obtain ⟨st, ho, hreads⟩ := hopen
  have hcomp' := hcomp (reread s) rfl rfl rfl
  refine ⟨_, reread s, st, hsave, ?_, hcomp', ?_⟩
  · rw [ht', ← ho, hn]
    rfl
  · exact restores_of_reads io g (reread s) hcomp' hn states st hreads

/-- C60: nothing is read from a file which does not describe star polymers of the same geometry. -/
theorem C60_rejects (io : Io FP) (g : Geometry) (s : Snap FP) (st : Stream) (positions velocities : ℕ → FP)
    (h : ¬ Describes g s) : ∃ e, readState io g s st positions velocities = .error e := by
  unfold readState
  cases hc : snapshotStructureIsCompatible g s with
  | error e => exact ⟨e, rfl⟩
  | ok b =>
    cases b with
    | true => exact absurd ((C31_compatible_iff g s).1 hc) h
    | false => exact ⟨.invalidArgument, rfl⟩

/-- C60 does not hold for files without timesteps: after the last timestep, `readStateFromSnapshot` leaves the
state unchanged without reporting an error. When the snapshot is used as the initial state, the positions
are not initialised. -/
theorem C60_end_violated (io : Io FP) (hio : Lawful io) (g : Geometry) (positions velocities : ℕ → FP) :
    ∃ sf s st, save io g [] = .ok sf ∧ openRead io sf.2 = .ok (s, st) ∧
      ∃ st', readState io g s st positions velocities = .ok ((positions, velocities), st') := by
  obtain ⟨s, e, hw, hp, hd, hn, hc, hb, hprops, -, hcomp⟩ := C31_write (FP := FP) g
  have hsound : Sound io s := by
    refine ⟨hw, hd, hc, hb, ?_⟩
    intro r hr
    obtain ⟨h1, h2, t, h3⟩ := hprops r hr
    refine ⟨by simp [h2], ?_, by simp [h1]⟩
    intro t' ht'
    rw [h3] at ht'
    rw [← Option.some.inj ht']
    cases t <;> exact ⟨⟨by decide, by decide⟩, by decide⟩
  obtain ⟨st, ho, hreads⟩ := open_written io hio s hsound []
  have hcomp' := hcomp (reread s) rfl rfl rfl
  obtain ⟨st', e', -⟩ := hreads (some positions) (some velocities)
  have hsave : save io g [] = .ok (ensureStructure io (s, [])) := by
    unfold save
    rw [e]
    rfl
  refine ⟨_, reread s, st, hsave, ?_, st', ?_⟩
  · rw [← ho]
    unfold ensureStructure
    rw [if_neg (by simp [hp])]
    simp [framesText]
  · simp only [readState, hcomp', e', bind, Except.bind, not_true_eq_false, if_false, pure, Except.pure,
      Option.getD_some]

/-- Two stars with magnetic particles. -/
example : ∃ g : Geometry, g.getParticleCount = 14 ∧ ∃ io : Io ℕ, Lawful io :=
  ⟨⟨2, 2, 2, true⟩, by decide, natIo, natIo_lawful⟩

end OpenMPCD.Star
