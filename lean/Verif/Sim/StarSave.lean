import Verif.Sim.Main

/-!
# Early saves and the snapshots of star polymers
-/

set_option linter.unusedSectionVars false

namespace OpenMPCD.Sim

variable {K : Type} [Field K]

/-! ## Model -/

/-- The snapshot file of the star polymer instrumentation: the snapshots in the current temporary
file, and those in the files `StarPolymers/snapshots.vtf` saved so far. A snapshot is represented by
the simulation time it was taken at. -/
structure Snapshots (K : Type) where
  current : List K
  early : List (List K)
  final : Option (List K)

/-- The effect of an event: `measureSpecific` appends to the current file
(`src/OpenMPCD/CUDA/MPCSolute/Instrumentation/StarPolymers.cpp:33-37`); `saveSpecific` copies it and
starts a new one (`src/OpenMPCD/CUDA/MPCSolute/Instrumentation/StarPolymers.cpp:39-56,58-74`). The
structure block at the beginning of each file is left out. -/
def Snapshots.apply (s : Snapshots K) : Event K → Snapshots K
  | .measured t => { s with current := s.current ++ [t] }
  | .saved .early _ => ⟨[], s.early ++ [s.current], s.final⟩
  | .saved .rundir _ => ⟨[], s.early, some s.current⟩
  | _ => s

/-- The files after a history (the constructor starts the first one,
`src/OpenMPCD/CUDA/MPCSolute/Instrumentation/StarPolymers.cpp:16-24`). -/
def snapshotsAfter (tr : List (Event K)) : Snapshots K := tr.foldl Snapshots.apply ⟨[], [], none⟩

/-! ## Specification -/

/-- The times of the measurements of a history. -/
def measuredTimes : List (Event K) → List K
  | [] => []
  | .measured t :: xs => t :: measuredTimes xs
  | _ :: xs => measuredTimes xs

/-! ## Proofs -/

theorem measuredTimes_append (xs ys : List (Event K)) :
    measuredTimes (xs ++ ys) = measuredTimes xs ++ measuredTimes ys := by
  induction xs with
  | nil => rfl
  | cons x xs ih => cases x <;> simp [measuredTimes, ih]

theorem snapshotsAfter_spec (tr : List (Event K)) (h : ∀ k, Event.saved .rundir k ∉ tr) :
    (snapshotsAfter tr).early.flatten ++ (snapshotsAfter tr).current = measuredTimes tr ∧
      (snapshotsAfter tr).final = none ∧
      ((∀ k, Event.saved .early k ∉ tr) → (snapshotsAfter tr).early = []) := by
  induction tr using List.reverseRecOn with
  | nil => simp [snapshotsAfter, measuredTimes]
  | append_singleton tr x ih =>
    obtain ⟨h1, h2, h3⟩ := ih (fun k hk => h k (by simp [hk]))
    have hs : snapshotsAfter (tr ++ [x]) = (snapshotsAfter tr).apply x := by
      simp [snapshotsAfter, List.foldl_append]
    have h4 : (∀ k, Event.saved Target.early k ∉ tr ++ [x]) → ∀ k, Event.saved Target.early k ∉ tr :=
      fun hh k hk => hh k (by simp [hk])
    rw [hs, measuredTimes_append, ← h1]
    cases x with
    | step => exact ⟨by simp [Snapshots.apply, measuredTimes], h2, fun hh => h3 (h4 hh)⟩
    | sweep => exact ⟨by simp [Snapshots.apply, measuredTimes], h2, fun hh => h3 (h4 hh)⟩
    | measured t => exact ⟨by simp [Snapshots.apply, measuredTimes], h2, fun hh => h3 (h4 hh)⟩
    | saved t k =>
      cases t with
      | early =>
        exact ⟨by simp [Snapshots.apply, measuredTimes], h2, fun hh => absurd (by simp) (hh k)⟩
      | rundir => exact absurd (by simp) (h k)

/-- C71, as far as it holds: the snapshot files of all early saves, followed by the final one,
together contain exactly one snapshot per measurement, in order. -/
theorem C71_partial {c : Config K} {e : Env K} (hc : c.sweepCount < 2 ^ 32) :
    ∃ final, (snapshotsAfter (run c e).1).final = some final ∧
      (snapshotsAfter (run c e).1).early.flatten ++ final = measuredTimes (run c e).1 ∧
      ((∀ k, Event.saved .early k ∉ (run c e).1) → final = measuredTimes (run c e).1) := by
  obtain ⟨tr, h1, -, h3, -⟩ := run_spec (e := e) hc
  obtain ⟨k1, k2, k3⟩ := snapshotsAfter_spec tr h3
  have hs : snapshotsAfter (run c e).1 = (snapshotsAfter tr).apply (.saved .rundir (sweeps tr)) := by
    rw [h1]; simp [snapshotsAfter, List.foldl_append]
  have hm : measuredTimes (run c e).1 = measuredTimes tr := by
    rw [h1, measuredTimes_append]; simp [measuredTimes]
  refine ⟨(snapshotsAfter tr).current, by rw [hs]; rfl, by rw [hs, hm]; exact k1, fun hh => ?_⟩
  have := k3 (fun k hk => hh k (by rw [h1]; simp [hk]))
  rw [this] at k1
  rw [hm]
  simpa using k1

/-- Early save requested before the second sweep. -/
def saveBeforeSecond : Env ℚ :=
  { calm with earlySave := fun h => decide (measurements h = 1) }

/-- C71 does not hold in general: the snapshot taken before an early save is missing in the final
file, although both runs have done the same. -/
theorem C71_violated :
    ∃ (c : Config ℚ) (e₁ e₂ : Env ℚ),
      measuredTimes (run c e₁).1 = measuredTimes (run c e₂).1 ∧
      (snapshotsAfter (run c e₁).1).final = some [3 / 2, 5 / 2] ∧
      (snapshotsAfter (run c e₂).1).final = some [5 / 2] := by
  refine ⟨⟨0, 1, 2, 2, 1 / 2⟩, calm, saveBeforeSecond, ?_, ?_, ?_⟩ <;>
  norm_num [run, runSteps, loop, calm, saveBeforeSecond, sweep, trySaveEarly, measurements, measuredTimes,
    snapshotsAfter, Snapshots.apply, Event.isMeasured, List.countP_cons]

end OpenMPCD.Sim
