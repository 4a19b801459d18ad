import Verif.Snapshot.Python
import Verif.Sim.StarSave
import Verif.Cache.Props
import Mathlib.Algebra.Order.Archimedean.Basic

/-!
# C87: the quantities of star polymers as functions of time
(`Analysis/MPCDAnalysis/StarPolymersAnalysis`)
-/

set_option linter.unusedSectionVars false
set_option linter.unusedSimpArgs false

namespace OpenMPCD.Analysis.StarTimes

open Snapshot (Io Frame)
open Snapshot.Python (SnapFile Coll readTimestep Reads collOf)
open Cache (dictSet dictSet_new)

variable {FP V K : Type} [Field K] [LinearOrder K] [IsStrictOrderedRing K]

/-! ## Model -/

/-- The loop of `_computeValueAsFunctionOfTime` (`Analysis/MPCDAnalysis/StarPolymersAnalysis/Asphericity.py:63-79`, and
the same in `Acylindricity.py`, `GyrationTensor.py`, `OrientationAngles.py`, `RadiusOfGyration.py`,
`RelativeShapeAnisotropy.py`, `RotationFrequencyVector.py`; `EckartAngularVelocityVector.py:80-97`), in terms of the
result it ends with. `value first c` is the value computed from a collection `c`, where `first` is the first one read,
which only the Eckart system uses; it may raise. `t` is the variable `time`. Simplification: the mass is a non-negative
number, so that `setUniformMass` does not raise. -/
inductive Plain (io : Io FP) (value : Coll FP → Coll FP → Except PyErr V) (dt : K) :
    Option (Coll FP) → SnapFile → K → List (K × V) → Except PyErr (List (K × V)) → Prop
  | readError {first s t d e} (h : (readTimestep io s).2 = .error e) : Plain io value dt first s t d (.error e)
  | done {first s t d c} (h : (readTimestep io s).2 = .ok c) (he : c.isEmpty = true) :
      Plain io value dt first s t d (.ok d)
  | valueError {first s t d c e} (h : (readTimestep io s).2 = .ok c) (he : c.isEmpty = false)
      (hv : value (first.getD c) c = .error e) : Plain io value dt first s t d (.error e)
  | next {first s t d c v r} (h : (readTimestep io s).2 = .ok c) (he : c.isEmpty = false)
      (hv : value (first.getD c) c = .ok v)
      (hr : Plain io value dt (some (first.getD c)) (readTimestep io s).1 (t + dt) (dictSet d (t + dt) v) r) :
      Plain io value dt first s t d r

/-- The loop of `_computeValueAsFunctionOfTime` (`Analysis/MPCDAnalysis/StarPolymersAnalysis/MagneticClusterCount.py:64-84`,
`Analysis/MPCDAnalysis/StarPolymersAnalysis/PotentialEnergy.py:66-84`), which leaves out snapshots; `last` is
`lastTimestepAnalyzed` and `interval` is `_getAnalysisTimestep()`. -/
inductive Thinned (io : Io FP) (value : Coll FP → Except PyErr V) (dt interval : K) :
    SnapFile → K → K → List (K × V) → Except PyErr (List (K × V)) → Prop
  | readError {s t last d e} (h : (readTimestep io s).2 = .error e) : Thinned io value dt interval s t last d (.error e)
  | skip {s t last d c r} (h : (readTimestep io s).2 = .ok c) (hs : t + dt - last < interval)
      (hr : Thinned io value dt interval (readTimestep io s).1 (t + dt) last d r) :
      Thinned io value dt interval s t last d r
  | done {s t last d c} (h : (readTimestep io s).2 = .ok c) (hs : ¬ t + dt - last < interval) (he : c.isEmpty = true) :
      Thinned io value dt interval s t last d (.ok d)
  | valueError {s t last d c e} (h : (readTimestep io s).2 = .ok c) (hs : ¬ t + dt - last < interval)
      (he : c.isEmpty = false) (hv : value c = .error e) : Thinned io value dt interval s t last d (.error e)
  | next {s t last d c v r} (h : (readTimestep io s).2 = .ok c) (hs : ¬ t + dt - last < interval)
      (he : c.isEmpty = false) (hv : value c = .ok v)
      (hr : Thinned io value dt interval (readTimestep io s).1 (t + dt) (t + dt) (dictSet d (t + dt) v) r) :
      Thinned io value dt interval s t last d r

/-- `_computeValueAsFunctionOfTime` from the beginning of the file: `time = timestep * config["mpc.warmupSteps"]`. -/
def PlainResult (io : Io FP) (value : Coll FP → Coll FP → Except PyErr V) (dt : K) (warmupSteps : ℕ) (s : SnapFile)
    (r : Except PyErr (List (K × V))) : Prop := Plain io value dt none s (dt * warmupSteps) [] r

/-- The same for the other loop, with `lastTimestepAnalyzed = -9e9` and the time between analyses of 100
(`Analysis/MPCDAnalysis/StarPolymersAnalysis/MagneticClusterCount.py:121-126`). -/
def ThinnedResult (io : Io FP) (value : Coll FP → Except PyErr V) (dt : K) (warmupSteps : ℕ) (s : SnapFile)
    (r : Except PyErr (List (K × V))) : Prop := Thinned io value dt 100 s (dt * warmupSteps) (-9000000000) [] r

/-! ## Specification -/

/-- The values of snapshots taken at given times: either all of them, or the first exception. -/
def series (value : Coll FP → Except PyErr V) : List (K × Coll FP) → Except PyErr (List (K × V))
  | [] => .ok []
  | (t, c) :: xs =>
    match value c with
    | .error e => .error e
    | .ok v => (series value xs).map ((t, v) :: ·)

/-- The time of the snapshot with index `k` if there is one snapshot per timestep. -/
def timeOf (dt : K) (warmupSteps k : ℕ) : K := ((warmupSteps + (k + 1) : ℕ) : K) * dt

/-- The snapshots with their times, from index `k` on. -/
def timed (dt : K) (warmupSteps : ℕ) : ℕ → List (Coll FP) → List (K × Coll FP)
  | _, [] => []
  | k, c :: cs => (timeOf dt warmupSteps k, c) :: timed dt warmupSteps (k + 1) cs

/-- Those snapshots which are at least `interval` later than the previous one chosen. -/
def thin {α : Type} (interval : K) : K → List (K × α) → List (K × α)
  | _, [] => []
  | last, (t, a) :: xs => if t - last < interval then thin interval last xs else (t, a) :: thin interval t xs

/-! ## Proofs -/

theorem Plain.unique {io : Io FP} {value : Coll FP → Coll FP → Except PyErr V} {dt : K} {first s t d}
    {r r' : Except PyErr (List (K × V))} (h : Plain io value dt first s t d r) (h' : Plain io value dt first s t d r') :
    r = r' := by
  induction h with
  | readError h => cases h' <;> simp_all
  | done h he => cases h' <;> simp_all
  | valueError h he hv => cases h' <;> simp_all
  | next h he hv hr ih =>
    cases h' with
    | readError h' => simp_all
    | done h' he' => simp_all
    | valueError h' he' hv' => simp_all
    | next h' he' hv' hr' =>
      rw [h] at h'
      cases h'
      rw [hv] at hv'
      cases hv'
      exact ih hr'

theorem Thinned.unique {io : Io FP} {value : Coll FP → Except PyErr V} {dt interval : K} {s t last d}
    {r r' : Except PyErr (List (K × V))} (h : Thinned io value dt interval s t last d r)
    (h' : Thinned io value dt interval s t last d r') : r = r' := by
  induction h with
  | readError h => cases h' <;> simp_all
  | skip h hs hr ih =>
    cases h' with
    | skip h' hs' hr' => exact ih hr'
    | readError h' => simp_all
    | done h' hs' he' => exact absurd hs hs'
    | valueError h' hs' he' hv' => exact absurd hs hs'
    | next h' hs' he' hv' hr' => exact absurd hs hs'
  | done h hs he =>
    cases h' with
    | skip h' hs' hr' => exact absurd hs' hs
    | readError h' => simp_all
    | done h' hs' he' => rfl
    | valueError h' hs' he' hv' => simp_all
    | next h' hs' he' hv' hr' => simp_all
  | valueError h hs he hv =>
    cases h' with
    | skip h' hs' hr' => exact absurd hs' hs
    | readError h' => simp_all
    | done h' hs' he' => simp_all
    | valueError h' hs' he' hv' => simp_all
    | next h' hs' he' hv' hr' => simp_all
  | next h hs he hv hr ih =>
    cases h' with
    | skip h' hs' hr' => exact absurd hs' hs
    | readError h' => simp_all
    | done h' hs' he' => simp_all
    | valueError h' hs' he' hv' => simp_all
    | next h' hs' he' hv' hr' =>
      rw [h] at h'
      cases h'
      rw [hv] at hv'
      cases hv'
      exact ih hr'

theorem timeOf_succ (dt : K) (w k : ℕ) : timeOf dt w k + dt = timeOf dt w (k + 1) := by
  unfold timeOf; push_cast; ring

theorem timeOf_zero (dt : K) (w : ℕ) : dt * (w : K) + dt = timeOf dt w 0 := by
  unfold timeOf; push_cast; ring

theorem timeOf_inj {dt : K} (hdt : dt ≠ 0) {w j k : ℕ} (h : timeOf dt w j = timeOf dt w k) : j = k := by
  unfold timeOf at h
  have := mul_right_cancel₀ hdt h
  have := Nat.cast_injective (R := K) this
  omega

theorem map_append_comm {X : Type} (d : List X) (x : X) (e : Except PyErr (List X)) :
    e.map (fun l => d ++ [x] ++ l) = (e.map (x :: ·)).map (d ++ ·) := by
  cases e <;> simp [Except.map]

theorem plain_loop {io : Io FP} {value : Coll FP → Coll FP → Except PyErr V} {dt : K} (hdt : dt ≠ 0) (w : ℕ)
    (first : Coll FP) (cs : List (Coll FP)) (hne : ∀ c ∈ cs, c.isEmpty = false) :
    ∀ (k : ℕ) (s : SnapFile) (o : Option (Coll FP)) (t : K) (d : List (K × V)), Reads io s cs →
      (∀ c ∈ cs.head?, o.getD c = first) → t + dt = timeOf dt w k →
      (∀ x ∈ d, ∃ j < k, x.1 = timeOf dt w j) →
      Plain io value dt o s t d ((series (value first) (timed dt w k cs)).map (d ++ ·)) := by
  induction cs with
  | nil =>
    intro k s o t d hr _ _ _
    have : (series (value first) (timed dt w k [])).map (d ++ ·) = .ok d := by simp [timed, series, Except.map]
    rw [this]
    exact .done hr.1 rfl
  | cons c cs ih =>
    intro k s o t d hr ho ht hd
    have hc := hne c (by simp)
    have hoc : o.getD c = first := ho c (by simp)
    rw [timed, series]
    cases hv : value first c with
    | error e => exact .valueError hr.1 hc (by rw [hoc, hv])
    | ok v =>
      refine .next hr.1 hc (v := v) (by rw [hoc, hv]) ?_
      have hnew : dictSet d (t + dt) v = d ++ [(t + dt, v)] := by
        refine dictSet_new d _ v ?_
        intro hm
        obtain ⟨x, hx, hx'⟩ := List.mem_map.1 hm
        obtain ⟨j, hj, he⟩ := hd x hx
        rw [he, ht] at hx'
        exact absurd (timeOf_inj hdt hx') (by omega)
      rw [hnew, ht, hoc, ← map_append_comm]
      refine ih (fun c hc => hne c (by simp [hc])) (k + 1) _ (some first) _ _ hr.2 (by simp) ?_ ?_
      · exact timeOf_succ dt w k
      · intro x hx
        rcases List.mem_append.1 hx with hx | hx
        · obtain ⟨j, hj, he⟩ := hd x hx
          exact ⟨j, by omega, he⟩
        · rw [List.mem_singleton.1 hx]
          exact ⟨k, by omega, rfl⟩

/-- C87: the values of all snapshots of a file are computed, in order, and the value of the snapshot with index `k` is
assigned to the time of `k + 1` timesteps after the warmup; if a value cannot be computed, that exception is raised, and
there is no other outcome. -/
theorem C87_all {io : Io FP} {value : Coll FP → Coll FP → Except PyErr V} {dt : K} (hdt : dt ≠ 0) (w : ℕ)
    {s : SnapFile} {first : Coll FP} {cs : List (Coll FP)} (hne : ∀ c ∈ first :: cs, c.isEmpty = false)
    (hr : Reads io s (first :: cs)) (r : Except PyErr (List (K × V))) :
    PlainResult io value dt w s r ↔ r = series (value first) (timed dt w 0 (first :: cs)) := by
  have h := plain_loop (value := value) hdt w first (first :: cs) hne 0 s none (dt * w) [] hr (by simp)
    (timeOf_zero dt w) (by simp)
  have he : ∀ e : Except PyErr (List (K × V)), e.map ([] ++ ·) = e := by
    intro e; cases e <;> simp [Except.map]
  rw [he] at h
  exact ⟨fun h' => h'.unique h, fun h' => h' ▸ h⟩

/-- C87: a file without snapshots gives no values. -/
theorem C87_none {io : Io FP} {value : Coll FP → Coll FP → Except PyErr V} {dt : K} (w : ℕ) {s : SnapFile}
    (hr : Reads io s []) (r : Except PyErr (List (K × V))) : PlainResult io value dt w s r ↔ r = .ok [] := by
  have h : PlainResult io value dt w s (.ok ([] : List (K × V))) := .done hr.1 rfl
  exact ⟨fun h' => h'.unique h, fun h' => h' ▸ h⟩

/-! ### The loops which leave out snapshots -/

theorem reads_after {io : Io FP} {s : SnapFile} (hr : Reads io s []) : Reads io (readTimestep io s).1 [] := by
  obtain ⟨h1, h2⟩ := hr
  refine ⟨by rw [h2], ?_⟩
  rw [h2]
  exact h2

/-- Behind the last snapshot, the loop ends. -/
theorem thinned_end [Archimedean K] {io : Io FP} {value : Coll FP → Except PyErr V} {dt interval : K} (hdt : 0 < dt)
    {s : SnapFile} (hr : Reads io s []) (t last : K) (d : List (K × V)) :
    Thinned io value dt interval s t last d (.ok d) := by
  obtain ⟨n, hn⟩ := Archimedean.arch (interval + last - t) hdt
  rw [nsmul_eq_mul] at hn
  induction n generalizing s t with
  | zero =>
    simp only [Nat.cast_zero, zero_mul] at hn
    exact .done hr.1 (by linarith) rfl
  | succ n ih =>
    by_cases hs : t + dt - last < interval
    · refine .skip hr.1 hs (ih (reads_after hr) (t + dt) ?_)
      push_cast at hn
      linarith
    · exact .done hr.1 hs rfl

theorem thinned_loop [Archimedean K] {io : Io FP} {value : Coll FP → Except PyErr V} {dt interval : K} (hdt : 0 < dt)
    (w : ℕ) (cs : List (Coll FP)) (hne : ∀ c ∈ cs, c.isEmpty = false) :
    ∀ (k : ℕ) (s : SnapFile) (t last : K) (d : List (K × V)), Reads io s cs → t + dt = timeOf dt w k →
      (∀ x ∈ d, ∃ j < k, x.1 = timeOf dt w j) →
      Thinned io value dt interval s t last d
        ((series value (thin interval last (timed dt w k cs))).map (d ++ ·)) := by
  induction cs with
  | nil =>
    intro k s t last d hr _ _
    have : (series value (thin interval last (timed dt w k []))).map (d ++ ·) = .ok d := by
      simp [timed, thin, series, Except.map]
    rw [this]
    exact thinned_end hdt hr t last d
  | cons c cs ih =>
    intro k s t last d hr ht hd
    have hc := hne c (by simp)
    have ih := ih fun c hc => hne c (by simp [hc])
    rw [timed, thin]
    by_cases hs : timeOf dt w k - last < interval
    · rw [if_pos hs]
      refine .skip hr.1 (by rw [ht]; exact hs) ?_
      rw [ht]
      refine ih (k + 1) _ _ last d hr.2 (timeOf_succ dt w k) ?_
      intro x hx
      obtain ⟨j, hj, he⟩ := hd x hx
      exact ⟨j, by omega, he⟩
    · rw [if_neg hs, series]
      cases hv : value c with
      | error e => exact .valueError hr.1 (by rw [ht]; exact hs) hc hv
      | ok v =>
        refine .next hr.1 (by rw [ht]; exact hs) hc hv ?_
        have hnew : dictSet d (t + dt) v = d ++ [(t + dt, v)] := by
          refine dictSet_new d _ v ?_
          intro hm
          obtain ⟨x, hx, hx'⟩ := List.mem_map.1 hm
          obtain ⟨j, hj, he⟩ := hd x hx
          rw [he, ht] at hx'
          exact absurd (timeOf_inj hdt.ne' hx') (by omega)
        rw [hnew, ht, ← map_append_comm]
        refine ih (k + 1) _ _ _ _ hr.2 (timeOf_succ dt w k) ?_
        intro x hx
        rcases List.mem_append.1 hx with hx | hx
        · obtain ⟨j, hj, he⟩ := hd x hx
          exact ⟨j, by omega, he⟩
        · rw [List.mem_singleton.1 hx]
          exact ⟨k, by omega, rfl⟩

/-- C87: the loops which leave out snapshots end, and compute the values of those snapshots which are at least 100 time
units later than the previous one analysed (see `C87_thin`). -/
theorem C87_thinned [Archimedean K] {io : Io FP} {value : Coll FP → Except PyErr V} {dt : K} (hdt : 0 < dt) (w : ℕ)
    {s : SnapFile} {cs : List (Coll FP)} (hne : ∀ c ∈ cs, c.isEmpty = false) (hr : Reads io s cs)
    (r : Except PyErr (List (K × V))) :
    ThinnedResult io value dt w s r ↔ r = series value (thin 100 (-9000000000) (timed dt w 0 cs)) := by
  have h := thinned_loop (value := value) (interval := 100) hdt w cs hne 0 s (dt * w) (-9000000000) [] hr
    (timeOf_zero dt w) (by simp)
  have he : ∀ e : Except PyErr (List (K × V)), e.map ([] ++ ·) = e := by
    intro e; cases e <;> simp [Except.map]
  rw [he] at h
  exact ⟨fun h' => h'.unique h, fun h' => h' ▸ h⟩

theorem thin_sublist {α : Type} (interval last : K) (xs : List (K × α)) : (thin interval last xs).Sublist xs := by
  induction xs generalizing last with
  | nil => exact .slnil
  | cons x xs ih =>
    obtain ⟨t, a⟩ := x
    rw [thin]
    split
    · exact (ih last).cons _
    · exact (ih t).cons_cons _

theorem thin_head {α : Type} (interval last : K) (xs : List (K × α)) :
    ∀ x ∈ (thin interval last xs).head?, interval ≤ x.1 - last := by
  induction xs generalizing last with
  | nil => simp [thin]
  | cons x xs ih =>
    obtain ⟨t, a⟩ := x
    rw [thin]
    split
    · exact ih last
    · rename_i h
      simpa using h

/-- C87: what is chosen by leaving out snapshots, for increasing times: a subsequence, in which each is at least the
interval later than the previous one; each snapshot left out is less than the interval later than one chosen before it
(or than the time given at the beginning). -/
theorem C87_thin {α : Type} (interval last : K) (xs : List (K × α)) :
    (thin interval last xs).Sublist xs ∧
    (last :: (thin interval last xs).map Prod.fst).IsChain (fun a b => interval ≤ b - a) ∧
    ∀ pre x post, xs = pre ++ x :: post → x ∉ thin interval last xs →
      ∃ a ∈ last :: (pre.map Prod.fst), (a = last ∨ a ∈ (thin interval last xs).map Prod.fst) ∧ x.1 - a < interval := by
  refine ⟨thin_sublist interval last xs, ?_, ?_⟩
  · induction xs generalizing last with
    | nil => simp [thin]
    | cons x xs ih =>
      obtain ⟨t, a⟩ := x
      rw [thin]
      split
      · exact ih last
      · rename_i h
        rw [List.map_cons, List.isChain_cons_cons]
        exact ⟨by simpa using h, ih t⟩
  · induction xs generalizing last with
    | nil => intro pre x post h; simp at h
    | cons y xs ih =>
      obtain ⟨t, a⟩ := y
      intro pre x post h hx
      rw [thin] at hx ⊢
      cases pre with
      | nil =>
        simp only [List.nil_append, List.cons.injEq] at h
        obtain ⟨rfl, rfl⟩ := h
        split at hx
        · rename_i hs
          exact ⟨last, by simp, .inl rfl, hs⟩
        · simp at hx
      | cons z pre =>
        simp only [List.cons_append, List.cons.injEq] at h
        obtain ⟨rfl, h⟩ := h
        split at hx
        · rename_i hs
          obtain ⟨b, hb, hb', hlt⟩ := ih last pre x post h hx
          rw [if_pos hs]
          refine ⟨b, ?_, hb', hlt⟩
          rcases List.mem_cons.1 hb with rfl | hb
          · simp
          · simp [hb]
        · rename_i hs
          rw [if_neg hs]
          obtain ⟨b, hb, hb', hlt⟩ := ih t pre x post h (fun hm => hx (List.mem_cons_of_mem _ hm))
          refine ⟨b, ?_, .inr ?_, hlt⟩
          · rcases List.mem_cons.1 hb with rfl | hb
            · simp
            · simp [hb]
          · rcases hb' with rfl | hb'
            · simp
            · simp [hb']

/-! ### The times at which the snapshots have been taken -/

theorem measuredTimes_eq (tr : List (Sim.Event K)) (g : ℕ → K)
    (h : ∀ pre t post, tr = pre ++ .measured t :: post → t = g (Sim.measurements pre)) :
    Sim.measuredTimes tr = (List.range (Sim.measurements tr)).map g := by
  induction tr using List.reverseRecOn with
  | nil => rfl
  | append_singleton tr x ih =>
    have ih := ih fun pre t post he => h pre t (post ++ [x]) (by rw [he]; simp)
    rw [Sim.measuredTimes_append, ih]
    cases x with
    | measured t =>
      have := h tr t [] rfl
      have hm : Sim.measurements (tr ++ [.measured t]) = Sim.measurements tr + 1 := by
        simp [Sim.measurements, List.countP_append, Sim.Event.isMeasured]
      rw [hm, List.range_succ, List.map_append]
      simp [Sim.measuredTimes, this]
    | step =>
      have hm : Sim.measurements (tr ++ [(.step : Sim.Event K)]) = Sim.measurements tr := by
        simp [Sim.measurements, List.countP_append, Sim.Event.isMeasured]
      rw [hm]; simp [Sim.measuredTimes]
    | sweep =>
      have hm : Sim.measurements (tr ++ [(.sweep : Sim.Event K)]) = Sim.measurements tr := by
        simp [Sim.measurements, List.countP_append, Sim.Event.isMeasured]
      rw [hm]; simp [Sim.measuredTimes]
    | saved a b =>
      have hm : Sim.measurements (tr ++ [(.saved a b : Sim.Event K)]) = Sim.measurements tr := by
        simp [Sim.measurements, List.countP_append, Sim.Event.isMeasured]
      rw [hm]; simp [Sim.measuredTimes]

/-- The times of the measurements of a run. -/
theorem measured_run {c : Sim.Config K} {e : Sim.Env K} (hc : c.sweepCount < 2 ^ 32) :
    Sim.measuredTimes (Sim.run c e).1 = (List.range (Sim.measurements (Sim.run c e).1)).map
      fun k => ((c.warmupSteps + (k + 1) * c.sweepSize : ℕ) : K) * c.mpcTimestep :=
  measuredTimes_eq _ _ fun _ _ _ h => (Sim.C68_measurement hc h).2.2

theorem timed_eq (dt : K) (w : ℕ) (k : ℕ) (cs : List (Coll FP)) :
    timed dt w k cs = ((List.range' k cs.length).map (timeOf dt w)).zip cs := by
  induction cs generalizing k with
  | nil => rfl
  | cons c cs ih => rw [timed, ih, List.length_cons, List.range'_succ]; rfl

theorem zip_map_self {α β : Type} (l : List α) (f : α → β) : l.zip (l.map f) = l.map fun x => (x, f x) := by
  induction l with
  | nil => rfl
  | cons x l ih => simp [ih]

/-- C87, as far as it holds: for a run with sweeps of one timestep and without early saves, the analysis computes, for
every measurement of the run, the value of the state at that time, and assigns it to that time. (`state t` is the state of
the particles at time `t`, which is what the snapshot file contains, see `C86_reads_simulation`.) -/
theorem C87_partial {io : Io FP} {value : Coll FP → Coll FP → Except PyErr V} {c : Sim.Config K} {e : Sim.Env K}
    (hc : c.sweepCount < 2 ^ 32) (hdt : c.mpcTimestep ≠ 0) (hsize : c.sweepSize = 1)
    (hearly : ∀ k, Sim.Event.saved .early k ∉ (Sim.run c e).1) (state : K → Coll FP)
    (hne : ∀ t, (state t).isEmpty = false) {s : SnapFile} {times : List K}
    (hfile : (Sim.snapshotsAfter (Sim.run c e).1).final = some times) (hr : Reads io s (times.map state))
    (r : Except PyErr (List (K × V))) :
    times = Sim.measuredTimes (Sim.run c e).1 ∧
    (PlainResult io value c.mpcTimestep c.warmupSteps s r ↔
      r = series (fun x => value ((times.map state).headD x) x) (times.map fun t => (t, state t))) := by
  obtain ⟨final, h1, -, h3⟩ := Sim.C71_partial (e := e) hc
  rw [hfile] at h1
  cases h1
  have ht := h3 hearly
  refine ⟨ht, ?_⟩
  have htimes : times = (List.range times.length).map (timeOf c.mpcTimestep c.warmupSteps) := by
    have hm := measured_run (c := c) (e := e) hc
    rw [hsize, ← ht] at hm
    have hlen : times.length = Sim.measurements (Sim.run c e).1 := by rw [hm]; simp
    rw [hlen]
    rw [hm]
    simp [timeOf]
  have htimed : timed c.mpcTimestep c.warmupSteps 0 (times.map state) = times.map fun t => (t, state t) := by
    rw [timed_eq, List.length_map, ← List.range_eq_range', ← htimes, zip_map_self]
  cases hts : times with
  | nil =>
    rw [hts] at hr
    exact C87_none _ hr r
  | cons t ts =>
    rw [hts] at hr htimed
    rw [List.map_cons] at hr htimed
    have := C87_all (value := value) hdt c.warmupSteps (first := state t) (cs := ts.map state)
      (by
        intro x hx
        rcases List.mem_cons.1 hx with rfl | hx
        · exact hne t
        · obtain ⟨u, -, rfl⟩ := List.mem_map.1 hx
          exact hne u) hr r
    rw [this, htimed]
    simp

/-- C87 does not hold for any other size of sweeps: whatever the run, the time assigned to its first snapshot is not the
time at which it has been taken. -/
theorem C87_sweepSize_violated {io : Io FP} {value : Coll FP → Coll FP → Except PyErr V} {c : Sim.Config K}
    {e : Sim.Env K} (hc : c.sweepCount < 2 ^ 32) (hdt : c.mpcTimestep ≠ 0) (hsize : c.sweepSize ≠ 1)
    (hearly : ∀ k, Sim.Event.saved .early k ∉ (Sim.run c e).1) (state : K → Coll FP)
    (hne : ∀ t, (state t).isEmpty = false) {s : SnapFile} {time : K} {times : List K}
    (hfile : (Sim.snapshotsAfter (Sim.run c e).1).final = some (time :: times))
    (hr : Reads io s ((time :: times).map state)) {d : List (K × V)}
    (hres : PlainResult io value c.mpcTimestep c.warmupSteps s (.ok d)) :
    ∃ x ∈ d.head?, x.1 ≠ time := by
  obtain ⟨final, h1, -, h3⟩ := Sim.C71_partial (e := e) hc
  rw [hfile] at h1
  cases h1
  have ht := h3 hearly
  rw [measured_run hc] at ht
  have htime : time = ((c.warmupSteps + c.sweepSize : ℕ) : K) * c.mpcTimestep := by
    cases hm : Sim.measurements (Sim.run c e).1 with
    | zero => rw [hm] at ht; simp at ht
    | succ m =>
      rw [hm, List.range_succ_eq_map] at ht
      simp only [List.map_cons, List.cons.injEq] at ht
      rw [ht.1]
      simp
  rw [List.map_cons] at hr
  have := (C87_all (value := value) hdt c.warmupSteps (first := state time) (cs := times.map state)
    (by
      intro x hx
      rcases List.mem_cons.1 hx with rfl | hx
      · exact hne time
      · obtain ⟨u, -, rfl⟩ := List.mem_map.1 hx
        exact hne u) hr (.ok d)).1 hres
  rw [timed, series] at this
  cases hv : value (state time) (state time) with
  | error e => rw [hv] at this; cases this
  | ok v =>
    rw [hv] at this
    simp only at this
    cases hs : series (value (state time)) (timed c.mpcTimestep c.warmupSteps (0 + 1) (times.map state)) with
    | error e => rw [hs] at this; cases this
    | ok l =>
      rw [hs] at this
      simp only [Except.map, Except.ok.injEq] at this
      refine ⟨(timeOf c.mpcTimestep c.warmupSteps 0, v), by rw [this]; simp, ?_⟩
      intro h
      rw [htime, timeOf] at h
      have h := Nat.cast_injective (R := K) (mul_right_cancel₀ hdt h)
      omega

/-- An early save before the second sweep. -/
def saveBeforeSecond : Sim.Env ℚ := { Sim.calm with earlySave := fun h => decide (Sim.measurements h = 1) }

/-- C87 does not hold for runs with early saves either: the only snapshot in the final file is the second one, taken at
time 1, but its value is assigned to the time 1/2. -/
theorem C87_early_violated :
    ∃ (c : Sim.Config ℚ) (e : Sim.Env ℚ), c.sweepSize = 1 ∧ c.mpcTimestep = 1 / 2 ∧
      Sim.measuredTimes (Sim.run c e).1 = [1 / 2, 1] ∧ (Sim.snapshotsAfter (Sim.run c e).1).final = some [1] ∧
      ∀ {FP V : Type} (io : Io FP) (value : Coll FP → Coll FP → Except PyErr V) (state : Coll FP)
        (_ : state.isEmpty = false) (s : SnapFile) (_ : Reads io s [state]) (v : V) (_ : value state state = .ok v),
        PlainResult io value c.mpcTimestep c.warmupSteps s (.ok [(1 / 2, v)]) := by
  refine ⟨⟨0, 0, 1, 2, 1 / 2⟩, saveBeforeSecond, rfl, rfl, ?_, ?_, ?_⟩
  · norm_num [Sim.run, Sim.runSteps, Sim.loop, Sim.calm, saveBeforeSecond, Sim.sweep, Sim.trySaveEarly,
      Sim.measurements, Sim.measuredTimes, Sim.Event.isMeasured, List.countP_cons]
  · norm_num [Sim.run, Sim.runSteps, Sim.loop, Sim.calm, saveBeforeSecond, Sim.sweep, Sim.trySaveEarly,
      Sim.measurements, Sim.snapshotsAfter, Sim.Snapshots.apply, Sim.Event.isMeasured, List.countP_cons]
  · intro FP V io value state hne s hr v hv
    refine (C87_all (value := value) (by norm_num) 0 (first := state) (cs := []) (by simpa using hne) hr _).2 ?_
    simp [timed, series, hv, timeOf, Except.map]

/-- The hypotheses of `C87_partial` and `C87_thinned` can be met: a run with two measurements, whose snapshots can be
read. -/
example : ∃ (c : Sim.Config ℚ) (s : SnapFile) (state : ℚ → Coll ℕ), c.sweepSize = 1 ∧ 0 < c.mpcTimestep ∧
    (∀ k, Sim.Event.saved .early k ∉ (Sim.run c Sim.calm).1) ∧
    (∀ t, (state t).isEmpty = false) ∧ (Sim.snapshotsAfter (Sim.run c Sim.calm).1).final = some [1 / 2, 1] ∧
    Reads Snapshot.natIo s ([1 / 2, 1].map state) := by
  have hb : Snapshot.Python.IsBlock [] := Snapshot.Python.isBlock_nil
  obtain ⟨s, -, -, -, hr⟩ := Snapshot.Python.read_file Snapshot.Python.natIo_numbers .two [] hb
    [⟨[(1, 2, 3)], []⟩, ⟨[(1, 2, 3)], []⟩] (by intro c hc; left; simp at hc; rw [hc]) true
  refine ⟨⟨0, 0, 1, 2, 1 / 2⟩, s, fun _ => ⟨[(1, 2, 3)], []⟩, rfl, by norm_num, ?_, fun _ => rfl, ?_, hr⟩
  · intro k
    simp [Sim.run, Sim.runSteps, Sim.loop, Sim.calm, Sim.sweep, Sim.trySaveEarly]
  · norm_num [Sim.run, Sim.runSteps, Sim.loop, Sim.calm, Sim.sweep, Sim.trySaveEarly, Sim.measurements,
      Sim.snapshotsAfter, Sim.Snapshots.apply, Sim.Event.isMeasured, List.countP_cons]

/-- Of snapshots every 40 time units, every third one is analysed. -/
example : thin (100 : ℚ) (-9000000000) [(40, 0), (80, 1), (120, 2), (160, 3), (200, 4), (240, 5), (280, 6)] =
    [(40, 0), (160, 3), (280, 6)] := by
  norm_num [thin]

end OpenMPCD.Analysis.StarTimes
