import Verif.Common
import Mathlib.Algebra.Order.Field.Basic
import Mathlib.Tactic.Ring
import Mathlib.Tactic.Linarith
import Mathlib.Data.List.Infix

/-!
# The main program: warmup, sweeps, measurements and saving

What the program does is recorded as a list of events. The outside world (clock, signals, file
system, device errors) may decide anything at any moment, given all that has happened so far.
-/

set_option linter.unusedSectionVars false
set_option linter.unusedSimpArgs false

namespace OpenMPCD.Sim

variable {K : Type} [Field K]

/-! ## Model -/

/-- The configuration values and command line options the main loop uses
(`src/OpenMPCD/main.cpp:150,167`, `src/OpenMPCD/CUDA/Simulation.cu:75,107,114`). -/
structure Config (K : Type) where
  maxRuntime : ℕ
  warmupSteps : ℕ
  sweepSize : ℕ
  sweepCount : ℕ
  mpcTimestep : K

/-- Where results are saved. -/
inductive Target where
  /-- the run directory -/
  | rundir
  /-- a directory `EarlySave_<date and time>` in it -/
  | early
  deriving DecidableEq

/-- What happened. -/
inductive Event (K : Type) where
  /-- one call of `stream` followed by one of `collide` has finished -/
  | step
  /-- `sweep` has finished -/
  | sweep
  /-- `measure` has finished; the simulation time it found -/
  | measured (mpcTime : K)
  /-- `save` has been executed; the value it found for `numberOfCompletedSweeps` -/
  | saved (target : Target) (numberOfCompletedSweeps : ℕ)

/-- How an attempted early save ends. -/
inductive EarlySave where
  | ok
  /-- an `OpenMPCD::Exception` -/
  | handled
  /-- any other exception -/
  | unhandled
  deriving DecidableEq

/-- The outside world. -/
structure Env (K : Type) where
  /-- `std::time(0) - startTime` -/
  elapsed : List (Event K) → ℤ
  /-- whether SIGINT or SIGTERM has been received -/
  terminate : List (Event K) → Bool
  /-- whether SIGUSR1 has been received since the last early save -/
  earlySave : List (Event K) → Bool
  earlySaveEnds : List (Event K) → EarlySave
  /-- whether the next `stream` or `collide` throws -/
  stepThrows : List (Event K) → Bool
  /-- whether the next `measure` throws -/
  measureThrows : List (Event K) → Bool

/-- The state of the program, and its past. -/
structure State (K : Type) where
  mpcTime : K
  /-- an `unsigned int` -/
  numberOfCompletedSweeps : ℕ
  trace : List (Event K)

/-- `Simulation::run` (`src/OpenMPCD/CUDA/Simulation.cu:241-251`) with the change of `mpcTime` in
`stream` (`src/OpenMPCD/CUDA/Simulation.cu:270`); the second component tells whether an exception
left it. What streaming and collisions do to particles is modelled in `Verif.Collide.Model` and
`Verif.Star.Forces`. -/
def runSteps (c : Config K) (e : Env K) : ℕ → State K → State K × Bool
  | 0, s => (s, false)
  | n + 1, s =>
    if e.stepThrows s.trace then (s, true)
    else runSteps c e n
      { s with mpcTime := s.mpcTime + c.mpcTimestep, trace := s.trace ++ [.step] }

/-- `Simulation::sweep` (`src/OpenMPCD/CUDA/Simulation.cu:78-89`). -/
def sweep (c : Config K) (e : Env K) (s : State K) : State K × Bool :=
  match runSteps c e c.sweepSize s with
  | (s, true) => (s, true)
  | (s, false) =>
    ({ s with numberOfCompletedSweeps := (s.numberOfCompletedSweeps + 1) % 2 ^ 32,
              trace := s.trace ++ [.sweep] }, false)

/-- The attempt to save early (`src/OpenMPCD/main.cpp:190-212`). Simplification: an attempt which
fails saves nothing. -/
def trySaveEarly (e : Env K) (s : State K) : State K × Bool :=
  if e.earlySave s.trace then
    match e.earlySaveEnds s.trace with
    | .ok => ({ s with trace := s.trace ++ [.saved .early s.numberOfCompletedSweeps] }, false)
    | .handled => (s, false)
    | .unhandled => (s, true)
  else (s, false)

/-- How the loop ends. -/
inductive End where
  | allSweeps | runtimeLimit | terminated | exception
  deriving DecidableEq

/-- The loop in `run` (`src/OpenMPCD/main.cpp:173-218`); the first argument is the number of
iterations left. -/
def loop (c : Config K) (e : Env K) : ℕ → State K → State K × End
  | 0, s => (s, .allSweeps)
  | n + 1, s =>
    if c.maxRuntime ≠ 0 ∧ (c.maxRuntime : ℤ) < e.elapsed s.trace then (s, .runtimeLimit)
    else if e.terminate s.trace then (s, .terminated)
    else match trySaveEarly e s with
      | (s, true) => (s, .exception)
      | (s, false) =>
        match sweep c e s with
        | (s, true) => (s, .exception)
        | (s, false) =>
          if e.measureThrows s.trace then (s, .exception)
          else loop c e n { s with trace := s.trace ++ [.measured s.mpcTime] }

/-- `run` (`src/OpenMPCD/main.cpp:150-219`) from the construction of the simulation on
(`src/OpenMPCD/CUDA/Simulation.cu:75` for the warmup), up to the save by the destructor of the
instrumentation (`src/OpenMPCD/CUDA/Instrumentation.cpp:104-108`), which also runs when an exception
ends the program. -/
def run (c : Config K) (e : Env K) : List (Event K) × End :=
  let r := match runSteps c e c.warmupSteps ⟨0, 0, []⟩ with
    | (s, true) => (s, End.exception)
    | (s, false) => loop c e c.sweepCount s
  (r.1.trace ++ [.saved .rundir r.1.numberOfCompletedSweeps], r.2)

/-! ## Specification -/

def Event.isStep : Event K → Bool | .step => true | _ => false
def Event.isSweep : Event K → Bool | .sweep => true | _ => false
def Event.isMeasured : Event K → Bool | .measured _ => true | _ => false

/-- Number of steps in a history. -/
def steps (tr : List (Event K)) : ℕ := tr.countP Event.isStep
/-- Number of sweeps in a history. -/
def sweeps (tr : List (Event K)) : ℕ := tr.countP Event.isSweep
/-- Number of measurements in a history. -/
def measurements (tr : List (Event K)) : ℕ := tr.countP Event.isMeasured

/-- Nothing keeps the program from going on after the history `h`. -/
def MayGoOn (c : Config K) (e : Env K) (h : List (Event K)) : Prop :=
  (c.maxRuntime = 0 ∨ e.elapsed h ≤ c.maxRuntime) ∧ e.terminate h = false

/-- What must have happened before an event. -/
def Fits (c : Config K) (e : Env K) (pre : List (Event K)) : Event K → Prop
  | .step => sweeps pre = measurements pre ∧ steps pre < c.warmupSteps + (sweeps pre + 1) * c.sweepSize
      ∧ (c.warmupSteps ≤ steps pre → sweeps pre < c.sweepCount)
  | .sweep => sweeps pre = measurements pre ∧
      steps pre = c.warmupSteps + (sweeps pre + 1) * c.sweepSize ∧ sweeps pre < c.sweepCount ∧
      ∃ h, h <+: pre ∧ sweeps h = sweeps pre ∧ MayGoOn c e h
  | .measured t => sweeps pre = measurements pre + 1 ∧
      steps pre = c.warmupSteps + sweeps pre * c.sweepSize ∧ t = steps pre * c.mpcTimestep
  | .saved .early k => k = sweeps pre ∧ sweeps pre = measurements pre ∧
      steps pre = c.warmupSteps + sweeps pre * c.sweepSize
  | .saved .rundir k => k = sweeps pre

/-- Every event fits to what happened before. -/
def WellFormed (c : Config K) (e : Env K) (tr : List (Event K)) : Prop :=
  ∀ pre x post, tr = pre ++ x :: post → Fits c e pre x

/-! ## Proofs -/

section counts
variable (tr : List (Event K)) (x : Event K)
@[simp] theorem steps_snoc : steps (tr ++ [x]) = steps tr + (if x.isStep then 1 else 0) := by
  simp [steps, List.countP_append, List.countP_cons]
@[simp] theorem sweeps_snoc : sweeps (tr ++ [x]) = sweeps tr + (if x.isSweep then 1 else 0) := by
  simp [sweeps, List.countP_append, List.countP_cons]
@[simp] theorem measurements_snoc :
    measurements (tr ++ [x]) = measurements tr + (if x.isMeasured then 1 else 0) := by
  simp [measurements, List.countP_append, List.countP_cons]
end counts

theorem wellFormed_nil (c : Config K) (e : Env K) : WellFormed c e [] := by
  intro pre x post h
  simp at h

theorem WellFormed.snoc {c : Config K} {e : Env K} {tr : List (Event K)} {x : Event K}
    (h : WellFormed c e tr) (hx : Fits c e tr x) : WellFormed c e (tr ++ [x]) := by
  intro pre y post heq
  rcases List.eq_nil_or_concat post with rfl | ⟨post', z, rfl⟩
  · have := List.append_inj' heq rfl
    obtain ⟨rfl, h2⟩ := this
    simp at h2
    subst h2
    exact hx
  · have h2 : tr ++ [x] = (pre ++ y :: post') ++ [z] := by simpa using heq
    obtain ⟨h3, -⟩ := List.append_inj' h2 rfl
    exact h pre y post' h3

variable {c : Config K} {e : Env K}

/-- The invariant within the steps. -/
structure Inv (c : Config K) (e : Env K) (s : State K) : Prop where
  wf : WellFormed c e s.trace
  time : s.mpcTime = steps s.trace * c.mpcTimestep
  count : s.numberOfCompletedSweeps = sweeps s.trace

theorem Inv.step {s : State K} (h : Inv c e s) (hf : Fits c e s.trace .step) :
    Inv c e { s with mpcTime := s.mpcTime + c.mpcTimestep, trace := s.trace ++ [.step] } where
  wf := h.wf.snoc hf
  time := by
    simp only [steps_snoc, Event.isStep, h.time]
    simp
    ring
  count := by simp [Event.isSweep, h.count]

/-- Running `n` steps. -/
theorem runSteps_spec (n : ℕ) (s : State K) (h : Inv c e s)
    (hm : sweeps s.trace = measurements s.trace)
    (hn : steps s.trace + n ≤ c.warmupSteps + (sweeps s.trace + 1) * c.sweepSize)
    (hlt : c.warmupSteps < steps s.trace + n → sweeps s.trace < c.sweepCount) :
    let r := runSteps c e n s
    Inv c e r.1 ∧ sweeps r.1.trace = sweeps s.trace ∧
      measurements r.1.trace = measurements s.trace ∧ s.trace <+: r.1.trace ∧
      (r.2 = false → steps r.1.trace = steps s.trace + n) ∧
      (r.2 = true → ∃ h, e.stepThrows h = true) ∧
      (∀ t k, Event.saved t k ∈ r.1.trace → Event.saved t k ∈ s.trace) := by
  induction n generalizing s with
  | zero => simpa [runSteps] using h
  | succ n ih =>
    by_cases ht : e.stepThrows s.trace = true
    · rw [runSteps, if_pos ht]
      simpa using ⟨h, _, ht⟩
    · rw [runSteps, if_neg ht]
      have hf : Fits c e s.trace .step := ⟨hm, by omega, fun _ => hlt (by omega)⟩
      have := ih _ (h.step hf) (by simpa [Event.isSweep, Event.isMeasured] using hm)
        (by simp [Event.isSweep, Event.isStep]; omega)
        (by simp [Event.isSweep, Event.isStep]; intro hh; exact hlt (by omega))
      obtain ⟨h1, h2, h3, h4, h5, h6, h7⟩ := this
      refine ⟨h1, ?_, ?_, ?_, ?_, h6, fun t k hk => by simpa using h7 t k hk⟩
      · simpa [Event.isSweep] using h2
      · simpa [Event.isMeasured] using h3
      · exact (List.prefix_append _ _).trans h4
      · intro hh
        have := h5 hh
        simp [Event.isStep] at this
        omega

/-- The state at the beginning of each iteration. -/
structure Start (c : Config K) (e : Env K) (s : State K) : Prop extends Inv c e s where
  same : sweeps s.trace = measurements s.trace
  stepCount : steps s.trace = c.warmupSteps + sweeps s.trace * c.sweepSize

/-- A sweep. -/
theorem sweep_spec (hc : c.sweepCount < 2 ^ 32) (s : State K) (h : Start c e s)
    (hlt : sweeps s.trace < c.sweepCount)
    (hgo : ∃ h, h <+: s.trace ∧ sweeps h = sweeps s.trace ∧ MayGoOn c e h) :
    let r := sweep c e s
    Inv c e r.1 ∧ measurements r.1.trace = measurements s.trace ∧ s.trace <+: r.1.trace ∧
      (r.2 = false → sweeps r.1.trace = sweeps s.trace + 1 ∧
        steps r.1.trace = c.warmupSteps + sweeps r.1.trace * c.sweepSize) ∧
      (r.2 = true → sweeps r.1.trace = sweeps s.trace ∧ ∃ h, e.stepThrows h = true) ∧
      (∀ t k, Event.saved t k ∈ r.1.trace → Event.saved t k ∈ s.trace) := by
  have h1 := runSteps_spec (c := c) (e := e) c.sweepSize s h.toInv h.same
    (by rw [h.stepCount]; ring_nf; omega) (fun _ => hlt)
  unfold sweep
  revert h1
  rcases runSteps c e c.sweepSize s with ⟨s', b⟩
  rintro ⟨h1, h2, h3, h4, h5, h6, h7⟩
  dsimp only at h1 h2 h3 h4 h5 h6 h7
  cases b with
  | true => exact ⟨h1, h3, h4, by simp, fun _ => ⟨h2, h6 rfl⟩, h7⟩
  | false =>
    have h5 := h5 rfl
    obtain ⟨g, hg1, hg2, hg3⟩ := hgo
    have hst : steps s'.trace = c.warmupSteps + (sweeps s'.trace + 1) * c.sweepSize := by
      rw [h5, h.stepCount, h2]; ring
    have hf : Fits c e s'.trace .sweep :=
      ⟨by rw [h2, h3, h.same], hst, by omega, g, hg1.trans h4, by omega, hg3⟩
    refine ⟨⟨h1.wf.snoc hf, by simp [Event.isStep, h1.time], ?_⟩, by simp [Event.isMeasured, h3],
      h4.trans (List.prefix_append _ _), fun _ => ⟨by simp [Event.isSweep, h2], ?_⟩, by simp,
      fun t k hk => h7 t k (by simpa using hk)⟩
    · simp only [sweeps_snoc, Event.isSweep, if_true, h1.count]
      exact Nat.mod_eq_of_lt (by omega)
    · simpa [Event.isStep, Event.isSweep] using hst

/-- The attempt to save early. -/
theorem trySaveEarly_spec (s : State K) (h : Start c e s) :
    let r := trySaveEarly e s
    Start c e r.1 ∧ sweeps r.1.trace = sweeps s.trace ∧ s.trace <+: r.1.trace ∧
      (r.2 = true → ∃ h, e.earlySave h = true ∧ e.earlySaveEnds h = .unhandled) ∧
      (∀ k, Event.saved .rundir k ∈ r.1.trace → Event.saved .rundir k ∈ s.trace) := by
  unfold trySaveEarly
  by_cases he : e.earlySave s.trace = true
  · rw [if_pos he]
    cases hx : e.earlySaveEnds s.trace with
    | ok =>
      have hf : Fits c e s.trace (.saved .early s.numberOfCompletedSweeps) :=
        ⟨h.count, h.same, h.stepCount⟩
      refine ⟨⟨⟨h.wf.snoc hf, by simp [Event.isStep, h.time], by simp [Event.isSweep, h.count]⟩,
        by simpa [Event.isSweep, Event.isMeasured] using h.same,
        by simpa [Event.isSweep, Event.isStep] using h.stepCount⟩, by simp [Event.isSweep],
        List.prefix_append _ _, by simp, fun k hk => by simpa using hk⟩
    | handled => exact ⟨h, rfl, List.prefix_rfl, by simp, fun k hk => hk⟩
    | unhandled => exact ⟨h, rfl, List.prefix_rfl, fun _ => ⟨_, he, hx⟩, fun k hk => hk⟩
  · rw [if_neg he]
    exact ⟨h, rfl, List.prefix_rfl, by simp, fun k hk => hk⟩

/-- The loop, started with as many iterations left as sweeps are missing. -/
theorem loop_spec (hc : c.sweepCount < 2 ^ 32) (n : ℕ) (s : State K) (h : Start c e s)
    (hn : sweeps s.trace + n = c.sweepCount) :
    let r := loop c e n s
    Inv c e r.1 ∧ (r.2 ≠ .exception → Start c e r.1) ∧
      (r.2 = .allSweeps → sweeps r.1.trace = c.sweepCount) ∧
      sweeps r.1.trace ≤ c.sweepCount ∧
      measurements r.1.trace ≤ sweeps r.1.trace ∧ sweeps r.1.trace ≤ measurements r.1.trace + 1 ∧
      (r.2 = .runtimeLimit → c.maxRuntime ≠ 0 ∧ (c.maxRuntime : ℤ) < e.elapsed r.1.trace) ∧
      (r.2 = .terminated → e.terminate r.1.trace = true) ∧
      (r.2 = .exception → ∃ h, e.stepThrows h = true ∨ e.measureThrows h = true ∨
        (e.earlySave h = true ∧ e.earlySaveEnds h = .unhandled)) ∧
      (∀ k, Event.saved .rundir k ∈ r.1.trace → Event.saved .rundir k ∈ s.trace) := by
  induction n generalizing s with
  | zero =>
    refine ⟨h.toInv, fun _ => h, fun _ => by simpa [loop] using hn, ?_, ?_, ?_, ?_, ?_, ?_, fun k hk => hk⟩ <;>
      simp [loop, ← hn, h.same]
  | succ n ih =>
    by_cases hr : c.maxRuntime ≠ 0 ∧ (c.maxRuntime : ℤ) < e.elapsed s.trace
    · rw [loop, if_pos hr]
      have := h.same
      exact ⟨h.toInv, fun _ => h, by simp, by dsimp only; omega, by dsimp only; omega,
        by dsimp only; omega, fun _ => hr, by simp, by simp, fun k hk => hk⟩
    by_cases ht : e.terminate s.trace = true
    · rw [loop, if_neg hr, if_pos ht]
      have := h.same
      exact ⟨h.toInv, fun _ => h, by simp, by dsimp only; omega, by dsimp only; omega,
        by dsimp only; omega, by simp, fun _ => ht, by simp, fun k hk => hk⟩
    rw [loop, if_neg hr, if_neg ht]
    have hgo : MayGoOn c e s.trace := by
      refine ⟨?_, by simpa using ht⟩
      by_cases h0 : c.maxRuntime = 0
      · exact Or.inl h0
      · exact Or.inr (not_lt.1 fun hh => hr ⟨h0, hh⟩)
    have h1 := trySaveEarly_spec (c := c) s h
    revert h1
    rcases trySaveEarly e s with ⟨s1, b1⟩
    rintro ⟨h1, h2, h3, h4, h5⟩
    dsimp only at h1 h2 h3 h4 h5
    cases b1 with
    | true =>
      have := h1.same
      refine ⟨h1.toInv, by simp, by simp, by dsimp only; omega, by dsimp only; omega,
        by dsimp only; omega, by simp, by simp, fun _ => ?_, h5⟩
      obtain ⟨g, hg⟩ := h4 rfl
      exact ⟨g, Or.inr (Or.inr hg)⟩
    | false =>
      dsimp only
      have k1 := sweep_spec hc s1 h1 (by omega) ⟨s.trace, h3, h2.symm, hgo⟩
      revert k1
      rcases sweep c e s1 with ⟨s2, b2⟩
      rintro ⟨k1, k2, k3, k4, k5, k6⟩
      dsimp only at k1 k2 k3 k4 k5 k6
      have hsame := h1.same
      cases b2 with
      | true =>
        obtain ⟨k5, g, hg⟩ := k5 rfl
        exact ⟨k1, by simp, by simp, by dsimp only; omega, by dsimp only; omega,
          by dsimp only; omega, by simp, by simp, fun _ => ⟨g, Or.inl hg⟩,
          fun k hk => h5 k (k6 _ k hk)⟩
      | false =>
        dsimp only
        obtain ⟨k4, k7⟩ := k4 rfl
        by_cases hme : e.measureThrows s2.trace = true
        · rw [if_pos hme]
          exact ⟨k1, by simp, by simp, by dsimp only; omega, by dsimp only; omega,
            by dsimp only; omega, by simp, by simp, fun _ => ⟨_, Or.inr (Or.inl hme)⟩,
            fun k hk => h5 k (k6 _ k hk)⟩
        · rw [if_neg hme]
          have hf : Fits c e s2.trace (.measured s2.mpcTime) := ⟨by omega, k7, k1.time⟩
          have := ih { s2 with trace := s2.trace ++ [.measured s2.mpcTime] }
            ⟨⟨k1.wf.snoc hf, by simp [Event.isStep, k1.time], by simp [Event.isSweep, k1.count]⟩,
              by simp [Event.isSweep, Event.isMeasured]; omega,
              by simp [Event.isSweep, Event.isStep]; exact k7⟩
            (by simp [Event.isSweep]; omega)
          obtain ⟨j1, j2, j3, j4, j5, j6, j7, j8, j9, j10⟩ := this
          exact ⟨j1, j2, j3, j4, j5, j6, j7, j8, j9,
            fun k hk => h5 k (k6 _ k (by simpa using j10 k hk))⟩

/-- Facts about a whole run. -/
theorem run_spec (hc : c.sweepCount < 2 ^ 32) :
    ∃ tr, (run c e).1 = tr ++ [.saved .rundir (sweeps tr)] ∧ WellFormed c e tr ∧
      (∀ k, Event.saved .rundir k ∉ tr) ∧
      sweeps tr ≤ c.sweepCount ∧ measurements tr ≤ sweeps tr ∧ sweeps tr ≤ measurements tr + 1 ∧
      ((run c e).2 ≠ .exception → measurements tr = sweeps tr ∧
        steps tr = c.warmupSteps + sweeps tr * c.sweepSize) ∧
      ((run c e).2 = .allSweeps → sweeps tr = c.sweepCount) ∧
      ((run c e).2 = .runtimeLimit → c.maxRuntime ≠ 0 ∧ (c.maxRuntime : ℤ) < e.elapsed tr) ∧
      ((run c e).2 = .terminated → e.terminate tr = true) ∧
      ((run c e).2 = .exception → ∃ h, e.stepThrows h = true ∨ e.measureThrows h = true ∨
        (e.earlySave h = true ∧ e.earlySaveEnds h = .unhandled)) := by
  have hi : Inv c e (⟨0, 0, []⟩ : State K) :=
    ⟨wellFormed_nil c e, by simp [steps], by simp [sweeps]⟩
  have h1 := runSteps_spec c.warmupSteps _ hi (by simp [sweeps, measurements])
    (by simp [steps]) (by simp [steps])
  unfold run
  revert h1
  rcases runSteps c e c.warmupSteps ⟨0, 0, []⟩ with ⟨s, b⟩
  rintro ⟨h1, h2, h3, h4, h5, h6, h7⟩
  dsimp only at h1 h2 h3 h4 h5 h6 h7
  have h20 : sweeps s.trace = 0 := by simpa [sweeps] using h2
  have h30 : measurements s.trace = 0 := by simpa [measurements] using h3
  cases b with
  | true =>
    obtain ⟨g, hg⟩ := h6 rfl
    exact ⟨s.trace, by simp [h1.count], h1.wf, fun k hk => by simpa using h7 _ k hk, by omega,
      by omega, by omega, by simp, by simp, by simp, by simp, fun _ => ⟨g, Or.inl hg⟩⟩
  | false =>
    have hs : Start c e s := ⟨h1, by omega, by
      have := h5 rfl
      rw [h20]
      simpa [steps] using this⟩
    have k := loop_spec hc c.sweepCount s hs (by omega)
    dsimp only
    revert k
    rcases loop c e c.sweepCount s with ⟨s', r⟩
    rintro ⟨k1, k2, k3, k4, k5, k6, k7, k8, k9, k10⟩
    dsimp only at *
    refine ⟨s'.trace, by simp [k1.count], k1.wf, fun k hk => ?_, k4, k5, k6, fun hr => ?_, k3, k7, k8, k9⟩
    · simpa using h7 _ k (k10 k hk)
    · exact ⟨(k2 hr).same.symm, (k2 hr).stepCount⟩

theorem WellFormed.of_prefix {tr pre : List (Event K)} (h : WellFormed c e tr) (hp : pre <+: tr) :
    WellFormed c e pre := by
  obtain ⟨t, rfl⟩ := hp
  intro p x post hh
  exact h p x (post ++ t) (by simp [hh])

theorem WellFormed.counts {tr : List (Event K)} (h : WellFormed c e tr) :
    measurements tr ≤ sweeps tr ∧ sweeps tr ≤ measurements tr + 1 ∧ sweeps tr ≤ c.sweepCount := by
  induction tr using List.reverseRecOn with
  | nil => simp [measurements, sweeps]
  | append_singleton tr x ih =>
    have ih := ih (h.of_prefix (List.prefix_append _ _))
    have hx := h tr x [] rfl
    simp only [sweeps_snoc, measurements_snoc]
    cases x with
    | step => simpa [Event.isSweep, Event.isMeasured] using ih
    | sweep =>
      obtain ⟨h1, -, h3, -⟩ := hx
      simp [Event.isSweep, Event.isMeasured]; omega
    | measured t =>
      obtain ⟨h1, -, -⟩ := hx
      simp [Event.isSweep, Event.isMeasured]; omega
    | saved t k => simpa [Event.isSweep, Event.isMeasured] using ih

/-- The whole history of a run is well formed. -/
theorem run_wellFormed (hc : c.sweepCount < 2 ^ 32) : WellFormed c e (run c e).1 := by
  obtain ⟨tr, h1, h2, -⟩ := run_spec (e := e) hc
  rw [h1]
  exact h2.snoc rfl

/-! ## C68 -/

/-- C68: whenever the program is stopped, even if it is killed, it has measured after every sweep
it has completed, except possibly after the last, and has not performed more sweeps than requested.
-/
theorem C68_any_time (hc : c.sweepCount < 2 ^ 32) {pre : List (Event K)} (hp : pre <+: (run c e).1) :
    measurements pre ≤ sweeps pre ∧ sweeps pre ≤ measurements pre + 1 ∧ sweeps pre ≤ c.sweepCount :=
  ((run_wellFormed hc).of_prefix hp).counts

/-- C68: the `n`-th measurement takes place after the warmup and exactly `n` sweeps, each of
`sweepSize` steps, and finds the simulation time to be the number of all these steps times the
timestep. -/
theorem C68_measurement (hc : c.sweepCount < 2 ^ 32) {pre post : List (Event K)} {t : K}
    (h : (run c e).1 = pre ++ .measured t :: post) :
    sweeps pre = measurements pre + 1 ∧
      steps pre = c.warmupSteps + (measurements pre + 1) * c.sweepSize ∧
      t = ((c.warmupSteps + (measurements pre + 1) * c.sweepSize : ℕ) : K) * c.mpcTimestep := by
  obtain ⟨h1, h2, h3⟩ := run_wellFormed hc pre _ post h
  rw [h1] at h2
  exact ⟨h1, h2, by rw [h3, h2]⟩

/-- C68: a sweep consists of exactly `sweepSize` steps. -/
theorem C68_sweep (hc : c.sweepCount < 2 ^ 32) {pre post : List (Event K)}
    (h : (run c e).1 = pre ++ .sweep :: post) :
    steps pre = c.warmupSteps + (sweeps pre + 1) * c.sweepSize :=
  (run_wellFormed hc pre _ post h).2.1

/-- C68: whatever is saved states how many sweeps have been completed, and contains a measurement
for each of them, unless an exception is ending the program. -/
theorem C68_save (hc : c.sweepCount < 2 ^ 32) {pre post : List (Event K)} {target : Target} {k : ℕ}
    (h : (run c e).1 = pre ++ .saved target k :: post) :
    k = sweeps pre ∧
      (target = .early ∨ (run c e).2 ≠ .exception → measurements pre = sweeps pre) := by
  have hf := run_wellFormed hc pre _ post h
  obtain ⟨tr, h1, -, h3, -, -, -, h7, -⟩ := run_spec (e := e) hc
  cases target with
  | early => exact ⟨hf.1, fun _ => hf.2.1.symm⟩
  | rundir =>
    refine ⟨hf, fun hh => ?_⟩
    have hne : (run c e).2 ≠ .exception := by simpa using hh
    rcases List.eq_nil_or_concat post with rfl | ⟨post', z, rfl⟩
    · have h4 : pre ++ [Event.saved .rundir k] = tr ++ [.saved .rundir (sweeps tr)] := by rw [← h, h1]
      obtain ⟨rfl, -⟩ := List.append_inj' h4 rfl
      exact (h7 hne).1
    · exfalso
      have h4 : (pre ++ .saved .rundir k :: post') ++ [z] = tr ++ [.saved .rundir (sweeps tr)] := by
        rw [← h1, h]; simp
      obtain ⟨h5, -⟩ := List.append_inj' h4 rfl
      exact h3 k (by rw [← h5]; simp)

/-- C68: unless it is killed, the program saves to the run directory exactly once, as the last thing
it does. -/
theorem C68_saves_once (hc : c.sweepCount < 2 ^ 32) :
    ∃ tr k, (run c e).1 = tr ++ [.saved .rundir k] ∧ ∀ j, Event.saved .rundir j ∉ tr := by
  obtain ⟨tr, h1, -, h3, -⟩ := run_spec (e := e) hc
  exact ⟨tr, _, h1, h3⟩

/-- C68: the number of sweeps is the requested one unless the runtime limit had been exceeded,
termination had been requested or an exception had been thrown. -/
theorem C68_end (hc : c.sweepCount < 2 ^ 32) :
    sweeps (run c e).1 = c.sweepCount ∧ measurements (run c e).1 = c.sweepCount ∨
    (∃ h, h <+: (run c e).1 ∧ ¬ MayGoOn c e h) ∨
    ∃ h, e.stepThrows h = true ∨ e.measureThrows h = true ∨
        (e.earlySave h = true ∧ e.earlySaveEnds h = .unhandled) := by
  obtain ⟨tr, h1, -, -, -, -, -, h7, h8, h9, h10, h11⟩ := run_spec (e := e) hc
  cases hr : (run c e).2 with
  | allSweeps =>
    left
    rw [h1]
    have := h8 hr
    have h7 := (h7 (by simp [hr])).1
    simp [Event.isSweep, Event.isMeasured]
    omega
  | runtimeLimit =>
    right; left
    refine ⟨tr, by rw [h1]; exact List.prefix_append _ _, fun hh => ?_⟩
    obtain ⟨h12, h13⟩ := h9 hr
    rcases hh.1 with h | h
    · exact h12 h
    · omega
  | terminated =>
    right; left
    refine ⟨tr, by rw [h1]; exact List.prefix_append _ _, fun hh => ?_⟩
    have := h10 hr
    rw [hh.2] at this
    exact absurd this (by simp)
  | exception => exact Or.inr (Or.inr (h11 hr))

/-- C68: once the runtime limit is exceeded or termination has been requested, at most the current
sweep is completed. -/
theorem C68_stops (hc : c.sweepCount < 2 ^ 32) {pre : List (Event K)} (hp : pre <+: (run c e).1)
    (hs : ∀ h, pre <+: h → ¬ MayGoOn c e h) : sweeps (run c e).1 ≤ sweeps pre + 1 := by
  have hwf := run_wellFormed (e := e) hc
  suffices H : ∀ tr, tr <+: (run c e).1 → sweeps tr ≤ sweeps pre + 1 from H _ List.prefix_rfl
  intro tr
  induction tr using List.reverseRecOn with
  | nil => simp [sweeps]
  | append_singleton tr x ih =>
    intro htr
    have ih := ih ((List.prefix_append _ _).trans htr)
    obtain ⟨post, hpost⟩ := htr
    have hx := hwf tr x post (by rw [← hpost]; simp)
    rw [sweeps_snoc]
    by_cases hsw : x.isSweep = true
    swap
    · simpa [hsw] using ih
    cases x with
    | sweep =>
      obtain ⟨-, -, -, h, hh1, hh2, hh3⟩ := hx
      simp only [Event.isSweep, if_true]
      by_contra hcon
      have hlong : h <+: (run c e).1 := hh1.trans (by rw [← hpost]; simp [List.append_assoc])
      rcases List.prefix_or_prefix_of_prefix hlong hp with h1 | h1
      · have : sweeps h ≤ sweeps pre := by
          obtain ⟨t, rfl⟩ := h1
          simp [sweeps, List.countP_append]
        omega
      · exact hs h h1 hh3
    | step => simp [Event.isSweep] at hsw
    | measured t => simp [Event.isSweep] at hsw
    | saved t k => simp [Event.isSweep] at hsw

/-- An undisturbed world. -/
def calm : Env ℚ :=
  ⟨fun _ => 0, fun _ => false, fun _ => false, fun _ => .ok, fun _ => false, fun _ => false⟩

/-- One second per event, termination requested after the first measurement. -/
def interrupted : Env ℚ :=
  ⟨fun h => h.length, fun h => decide (measurements h = 1), fun h => decide (sweeps h = 1), fun _ => .ok,
    fun _ => false, fun _ => false⟩

example : run ⟨0, 1, 2, 2, 1 / 2⟩ calm =
    ([.step, .step, .step, .sweep, .measured (3 / 2), .step, .step, .sweep, .measured (5 / 2),
      .saved .rundir 2], .allSweeps) := by
  norm_num [run, runSteps, loop, calm, sweep, trySaveEarly]

example : (run ⟨0, 1, 2, 2, 1 / 2⟩ interrupted).2 = .terminated ∧
    sweeps (run ⟨0, 1, 2, 2, 1 / 2⟩ interrupted).1 = 1 := by
  norm_num [run, runSteps, loop, interrupted, sweep, trySaveEarly, measurements, sweeps, Event.isMeasured,
    Event.isSweep]
  rfl

end OpenMPCD.Sim
