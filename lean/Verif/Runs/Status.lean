import Verif.Runs.Target
import Verif.Runs.Props
import Verif.Runs.NodeProps
import Mathlib.Algebra.BigOperators.Group.Finset.Basic

/-!
# The state of target data, and groups of runs and nodes (C90, C91)

`DataManager`: which runs there are for a target data specification, and whether they suffice; runs selected by their
configuration; submitted jobs and cluster nodes by size.
-/

set_option linter.unusedSimpArgs false
set_option linter.unusedSectionVars false

namespace OpenMPCD.Runs.Status

open OpenMPCD.Config OpenMPCD.Runs.Target OpenMPCD.Runs.Spec

/-! ## Model -/

/-- What the libraries `pylibconfig2` and `yaml` make of the contents of files: the configuration, and the number at
`numberOfCompletedSweeps`. -/
structure Readers where
  parse : Str → Except PyErr Value
  sweeps : Str → Except PyErr ℤ

/-- `Configuration(source)` (`Analysis/MPCDAnalysis/Configuration.py:8-40`) for a string. -/
def loadConfiguration (io : Readers) (cwd : List Str) (fs : FS) (source : Str) : Except PyErr Conf :=
  let text :=
    if isfile cwd fs source then readFile cwd fs source
    else if isdir cwd fs source then readFile cwd fs (source ++ "/config.txt".toList)
    else .ok source
  match text with
  | .error e => .error e
  | .ok text =>
    match io.parse text with
    | .error e => .error e
    | .ok v => canonicalize ⟨true, v⟩

/-- The configurations which the `Run` instances, by their position in `DataManager.runs`, have loaded. -/
abbrev Cache := ℕ → Option Conf

/-- `Run.getConfiguration` (`Analysis/MPCDAnalysis/Run.py:139-147`). -/
def getConfiguration (io : Readers) (cwd : List Str) (fs : FS) (cache : Cache) (run : Str × ℕ) :
    Cache × Except PyErr Conf :=
  match cache run.2 with
  | some c => (cache, .ok c)
  | none =>
    match loadConfiguration io cwd fs (run.1 ++ "/config.txt".toList) with
    | .error e => (cache, .error e)
    | .ok c => (Function.update cache run.2 (some c), .ok c)

/-- `Run.getNumberOfCompletedSweeps` (`Analysis/MPCDAnalysis/Run.py:150-165`). -/
def getNumberOfCompletedSweeps (io : Readers) (cwd : List Str) (fs : FS) (rundir : Str) : Except PyErr ℤ :=
  if isfile cwd fs (rundir ++ "/metadata.txt".toList) = false then .ok 0
  else match readFile cwd fs (rundir ++ "/metadata.txt".toList) with
    | .error e => .error e
    | .ok text => io.sweeps text

/-- A `DataManager`: the run directories found, and the path translators. -/
structure Manager where
  rundirs : List Str
  trs : List (Str → Str)

/-- The paths of the run directories (`Analysis/MPCDAnalysis/DataManager.py:65-81`), with `expanduser` and `glob.glob`
as parameters. `config`: the list `dataPaths` in the configuration file, if there is one, or why the file could not be
read. -/
def findRundirs (expand : Str → Str) (glob : Str → List Str) (config : Except PyErr (Option (List Str)))
    (dataPaths : Option (List Str)) : Except PyErr (List Str) :=
  match config with
  | .error e => .error e
  | .ok configured =>
    match dataPaths.or configured with
    | none => .error .keyError
    | some paths => .ok (paths.flatMap fun path => glob (expand path))

/-- `DataManager.getRuns` (`Analysis/MPCDAnalysis/DataManager.py:224-236`): the instances with their positions. -/
def Manager.getRuns (m : Manager) : List (Str × ℕ) := m.rundirs.zipIdx

/-- Selecting runs by their configuration: the loop in `getRunsFilteredByConfig`
(`Analysis/MPCDAnalysis/DataManager.py:267-295`), where `keep` is the conjunction of the filters, and the one in
`getRunsWithMatchingConfiguration` (`298-320`). Simplification: the filters do not raise. -/
def filterRuns (io : Readers) (cwd : List Str) (fs : FS) (keep : Conf → Bool) :
    List (Str × ℕ) → Cache → Cache × Except PyErr (List (Str × ℕ))
  | [], cache => (cache, .ok [])
  | run :: runs, cache =>
    let r := getConfiguration io cwd fs cache run
    match r.2 with
    | .error e => (r.1, .error e)
    | .ok c =>
      let rest := filterRuns io cwd fs keep runs r.1
      match rest.2 with
      | .error e => (rest.1, .error e)
      | .ok ret => (rest.1, .ok (if keep c then run :: ret else ret))

/-- `getRunsFilteredByConfig` (`Analysis/MPCDAnalysis/DataManager.py:267-295`), given a list. -/
def Manager.getRunsFilteredByConfig (io : Readers) (cwd : List Str) (fs : FS) (m : Manager)
    (filters : List (Conf → Bool)) (cache : Cache) : Cache × Except PyErr (List (Str × ℕ)) :=
  filterRuns io cwd fs (fun c => filters.all fun f => f c) m.getRuns cache

/-- Applying the translators to a string in a configuration (`Analysis/MPCDAnalysis/Configuration.py:97-100`). -/
def translate (trs : List (Str → Str)) (s : String) : String := String.ofList (applyTranslators trs s.toList)

/-- `getRunsWithMatchingConfiguration` (`Analysis/MPCDAnalysis/DataManager.py:298-320`) with the path translators of the
manager, as called at `392-394`. -/
def Manager.getMatching (io : Readers) (cwd : List Str) (fs : FS) (m : Manager) (configuration : Conf)
    (cache : Cache) : Cache × Except PyErr (List (Str × ℕ)) :=
  filterRuns io cwd fs (fun c => isEquivalent (translate m.trs) c.value configuration.value) m.getRuns cache

/-- `getNumberOfSweepsByRuns` (`Analysis/MPCDAnalysis/DataManager.py:253-265`). -/
def getNumberOfSweepsByRuns (io : Readers) (cwd : List Str) (fs : FS) : List (Str × ℕ) → Except PyErr ℤ
  | [] => .ok 0
  | run :: runs =>
    match getNumberOfCompletedSweeps io cwd fs run.1 with
    | .error e => .error e
    | .ok n =>
      match getNumberOfSweepsByRuns io cwd fs runs with
      | .error e => .error e
      | .ok m => .ok (n + m)

/-- `pendingStates` (`Analysis/MPCDAnalysis/DataManager.py:406`). -/
def isPendingState (s : RunState) : Bool := s = .Running || s = .Submitted

/-- The loop in lines `Analysis/MPCDAnalysis/DataManager.py:405-410`; asking for the state may not end (C42). -/
inductive AnyPending (cwd : List Str) (fs : FS) (trs : List (Str → Str)) :
    List (Str × ℕ) → Except PyErr Bool → Prop
  | nil : AnyPending cwd fs trs [] (.ok false)
  | found {run runs s} : GetState cwd fs trs run.1 (.ok s) → isPendingState s = true →
      AnyPending cwd fs trs (run :: runs) (.ok true)
  | next {run runs s r} : GetState cwd fs trs run.1 (.ok s) → isPendingState s = false →
      AnyPending cwd fs trs runs r → AnyPending cwd fs trs (run :: runs) r
  | raise {run runs e} : GetState cwd fs trs run.1 (.error e) → AnyPending cwd fs trs (run :: runs) (.error e)

/-- The strings returned. -/
inductive Name where
  | completed | pending | incomplete
  deriving DecidableEq

/-- `getTargetDataSpecificationStatus` (`Analysis/MPCDAnalysis/DataManager.py:374-415`): a call with the given
configurations loaded ends with the configurations and the result given. -/
inductive GetStatus (io : Readers) (cwd : List Str) (fs : FS) (m : Manager) (s : Specification)
    (default : Option ℤ) (cache : Cache) : Cache → Except PyErr Name → Prop
  | noRuns {cache' e} : m.getMatching io cwd fs s.config cache = (cache', .error e) →
      GetStatus io cwd fs m s default cache cache' (.error e)
  | noSweeps {cache' runs e} : m.getMatching io cwd fs s.config cache = (cache', .ok runs) →
      getNumberOfSweepsByRuns io cwd fs runs = .error e →
      GetStatus io cwd fs m s default cache cache' (.error e)
  | noTarget {cache' runs n} : m.getMatching io cwd fs s.config cache = (cache', .ok runs) →
      getNumberOfSweepsByRuns io cwd fs runs = .ok n → s.targetSweepCount = none → default = none →
      GetStatus io cwd fs m s default cache cache' (.error .exception)
  | completed {cache' runs n t} : m.getMatching io cwd fs s.config cache = (cache', .ok runs) →
      getNumberOfSweepsByRuns io cwd fs runs = .ok n → s.targetSweepCount.or default = some t → t ≤ n →
      GetStatus io cwd fs m s default cache cache' (.ok .completed)
  | pending {cache' runs n t} : m.getMatching io cwd fs s.config cache = (cache', .ok runs) →
      getNumberOfSweepsByRuns io cwd fs runs = .ok n → s.targetSweepCount.or default = some t → n < t →
      AnyPending cwd fs m.trs runs (.ok true) → GetStatus io cwd fs m s default cache cache' (.ok .pending)
  | incomplete {cache' runs n t} : m.getMatching io cwd fs s.config cache = (cache', .ok runs) →
      getNumberOfSweepsByRuns io cwd fs runs = .ok n → s.targetSweepCount.or default = some t → n < t →
      AnyPending cwd fs m.trs runs (.ok false) → GetStatus io cwd fs m s default cache cache' (.ok .incomplete)
  | noState {cache' runs n t e} : m.getMatching io cwd fs s.config cache = (cache', .ok runs) →
      getNumberOfSweepsByRuns io cwd fs runs = .ok n → s.targetSweepCount.or default = some t → n < t →
      AnyPending cwd fs m.trs runs (.error e) → GetStatus io cwd fs m s default cache cache' (.error e)

/-- The loop in `getTargetDataSpecificationsGroupedByStatus` (`Analysis/MPCDAnalysis/DataManager.py:435-449`). The
dictionary is a function here. -/
inductive Grouped (io : Readers) (cwd : List Str) (fs : FS) (m : Manager) (default : Option ℤ) :
    List Specification → Cache → (Name → List Specification) → Except PyErr (Name → List Specification) → Prop
  | nil {cache ret} : Grouped io cwd fs m default [] cache ret (.ok ret)
  | cons {s ss cache cache' name ret r} : GetStatus io cwd fs m s default cache cache' (.ok name) →
      Grouped io cwd fs m default ss cache' (Function.update ret name (ret name ++ [s])) r →
      Grouped io cwd fs m default (s :: ss) cache ret r
  | raise {s ss cache cache' e ret} : GetStatus io cwd fs m s default cache cache' (.error e) →
      Grouped io cwd fs m default (s :: ss) cache ret (.error e)

/-- `getSubmittedJobBatchesGroupedByJobBatchSize` (`Analysis/MPCDAnalysis/DataManager.py:150-173`). The dictionary is a
function here, with the empty list where there is no entry. -/
inductive Batches (cwd : List Str) (fs : FS) (trs : List (Str → Str)) :
    List Str → (ℕ → List Str) → Except PyErr (ℕ → List Str) → Prop
  | nil {ret} : Batches cwd fs trs [] ret (.ok ret)
  | child {run runs ret r} : hasParentRun cwd fs run = true → Batches cwd fs trs runs ret r →
      Batches cwd fs trs (run :: runs) ret r
  | other {run runs ret r s} : hasParentRun cwd fs run = false → GetState cwd fs trs run (.ok s) → s ≠ .Submitted →
      Batches cwd fs trs runs ret r → Batches cwd fs trs (run :: runs) ret r
  | add {run runs ret r n} : hasParentRun cwd fs run = false → GetState cwd fs trs run (.ok .Submitted) →
      getJobBatchSize cwd fs trs run = .ok n →
      Batches cwd fs trs runs (Function.update ret n (ret n ++ [run])) r → Batches cwd fs trs (run :: runs) ret r
  | noState {run runs ret e} : hasParentRun cwd fs run = false → GetState cwd fs trs run (.error e) →
      Batches cwd fs trs (run :: runs) ret (.error e)
  | noSize {run runs ret e} : hasParentRun cwd fs run = false → GetState cwd fs trs run (.ok .Submitted) →
      getJobBatchSize cwd fs trs run = .error e → Batches cwd fs trs (run :: runs) ret (.error e)

/-- The nodes of the cluster, with their numbers of GPUs, as the constructor sets them up from the node lists in the
configuration file (`Analysis/MPCDAnalysis/DataManager.py:98-110`). -/
def clusterNodes (specifications : List (Str × ℤ)) : List (Str × ℤ) :=
  specifications.flatMap fun s => (parseSlurmNodeList s.1).map fun name => (name, s.2)

/-- Lines `Analysis/MPCDAnalysis/DataManager.py:138-141`. -/
def addNode (ret : List (ℤ × List Str)) (node : Str × ℤ) : List (ℤ × List Str) :=
  match ret with
  | [] => [(node.2, [node.1])]
  | (k, nodes) :: rest => if k = node.2 then (k, nodes ++ [node.1]) :: rest else (k, nodes) :: addNode rest node

/-- `getClusterNodesGroupedByGPUCount` (`Analysis/MPCDAnalysis/DataManager.py:121-147`): per entry the key, `nodes`,
and `SlurmNodeList`. -/
def getClusterNodesGroupedByGPUCount (cluster : Option (List (Str × ℤ))) : List (ℤ × List Str × Str) :=
  match cluster with
  | none => []
  | some nodes => (nodes.foldl addNode []).map fun e => (e.1, e.2, makeSlurmNodeList e.2)

/-! ## Specification -/

/-- The configuration of the run in directory `d`, as given by the file there. -/
def ConfigIs (io : Readers) (fs : FS) (d : List Str) (c : Conf) : Prop :=
  ∃ text v, fs (d ++ ["config.txt".toList]) = some (.file text) ∧ io.parse text = .ok v ∧
    canonicalize ⟨true, v⟩ = .ok c

/-- The number of sweeps of the run in directory `d`: as given by the file written at its end, none without. -/
def SweepsAre (io : Readers) (fs : FS) (d : List Str) (n : ℤ) : Prop :=
  (¬ FileAt fs (d ++ ["metadata.txt".toList]) ∧ n = 0) ∨
    ∃ text, fs (d ++ ["metadata.txt".toList]) = some (.file text) ∧ io.sweeps text = .ok n

/-- What is known about the run directories: their configurations and numbers of sweeps. -/
structure Known (io : Readers) (cwd : List Str) (fs : FS) (m : Manager) (conf : List Str → Conf)
    (sweeps : List Str → ℤ) : Prop where
  nonempty : ∀ r ∈ m.rundirs, r ≠ []
  conf : ∀ r ∈ m.rundirs, ConfigIs io fs (resolve cwd r) (conf (resolve cwd r))
  sweeps : ∀ r ∈ m.rundirs, SweepsAre io fs (resolve cwd r) (sweeps (resolve cwd r))

/-- What has been loaded is what the files contain. -/
def Fresh (cwd : List Str) (m : Manager) (conf : List Str → Conf) (cache : Cache) : Prop :=
  ∀ i r c, m.rundirs[i]? = some r → cache i = some c → c = conf (resolve cwd r)

/-- The directories of the runs with the given configuration. -/
def directories (cwd : List Str) (m : Manager) (conf : List Str → Conf) (configuration : Conf) : Finset (List Str) :=
  (m.rundirs.map (resolve cwd)).toFinset.filter fun d =>
    isEquivalent (translate m.trs) (conf d).value configuration.value = true

/-- What the status should be, if `t` sweeps are asked for. -/
noncomputable def expected (cwd : List Str) (m : Manager) (conf : List Str → Conf) (sweeps : List Str → ℤ)
    (state : List Str → RunState) (configuration : Conf) (t : ℤ) : Name :=
  open Classical in
  if t ≤ ∑ d ∈ directories cwd m conf configuration, sweeps d then .completed
  else if ∃ d ∈ directories cwd m conf configuration, state d = .Running ∨ state d = .Submitted then .pending
  else .incomplete

/-! ## Proofs -/

section proofs
variable {io : Readers} {cwd : List Str} {fs : FS} {m : Manager} {conf : List Str → Conf} {sweeps : List Str → ℤ}

theorem load_spec {r : Str} (hr : r ≠ []) {c : Conf} (h : ConfigIs io fs (resolve cwd r) c) :
    loadConfiguration io cwd fs (r ++ "/config.txt".toList) = .ok c := by
  obtain ⟨text, v, h1, h2, h3⟩ := h
  have hf : isfile cwd fs (r ++ "/config.txt".toList) = true := by
    rw [isfile_iff, resolve_config cwd hr]; exact ⟨text, h1⟩
  have hrd : readFile cwd fs (r ++ "/config.txt".toList) = .ok text := by
    simp only [readFile, resolve_config cwd hr, h1]
  simp only [loadConfiguration, hf, if_true, hrd, h2, h3]

theorem getConfiguration_spec (hk : Known io cwd fs m conf sweeps) {cache : Cache}
    (hc : Fresh cwd m conf cache) {r : Str} {i : ℕ} (hr : m.rundirs[i]? = some r) :
    Fresh cwd m conf (getConfiguration io cwd fs cache (r, i)).1 ∧
      (getConfiguration io cwd fs cache (r, i)).2 = .ok (conf (resolve cwd r)) := by
  unfold getConfiguration
  have hm := List.mem_of_getElem? hr
  cases hci : cache i with
  | some c => exact ⟨by simpa [hci] using hc, by simp only [hc i r c hr hci, hci]⟩
  | none =>
    simp only [hci, load_spec (hk.nonempty r hm) (hk.conf r hm)]
    refine ⟨?_, trivial⟩
    intro j r' c hj hcj
    by_cases he : j = i
    · subst he
      rw [Function.update_self] at hcj
      cases hcj
      rw [hr] at hj
      cases hj
      rfl
    · rw [Function.update_of_ne he] at hcj
      exact hc j r' c hj hcj

theorem filterRuns_spec (hk : Known io cwd fs m conf sweeps) (keep : Conf → Bool) (runs : List (Str × ℕ))
    (hr : ∀ p ∈ runs, m.rundirs[p.2]? = some p.1) : ∀ cache : Cache, Fresh cwd m conf cache →
    Fresh cwd m conf (filterRuns io cwd fs keep runs cache).1 ∧
      (filterRuns io cwd fs keep runs cache).2 = .ok (runs.filter fun p => keep (conf (resolve cwd p.1))) := by
  induction runs with
  | nil => intro cache hc; exact ⟨hc, rfl⟩
  | cons p runs ih =>
    intro cache hc
    obtain ⟨r, i⟩ := p
    obtain ⟨h1, h2⟩ := getConfiguration_spec hk hc (hr (r, i) (by simp))
    obtain ⟨h3, h4⟩ := ih (fun p hp => hr p (by simp [hp])) _ h1
    simp only [filterRuns, h2, h4]
    refine ⟨h3, ?_⟩
    by_cases hkeep : keep (conf (resolve cwd r)) = true
    · rw [List.filter_cons_of_pos (by simpa using hkeep), if_pos hkeep]
    · rw [List.filter_cons_of_neg (by simpa using hkeep), if_neg hkeep]

theorem getRuns_spec (m : Manager) : ∀ p ∈ m.getRuns, m.rundirs[p.2]? = some p.1 := by
  rintro ⟨r, i⟩ hp
  simpa using List.mem_zipIdx_iff_getElem?.1 hp

theorem getRuns_dirs (m : Manager) (keep : List Str → Bool) :
    (m.getRuns.filter fun p => keep (resolve cwd p.1)).map (fun p => resolve cwd p.1) =
      (m.rundirs.map (resolve cwd)).filter keep := by
  have h1 : (m.getRuns.filter fun p => keep (resolve cwd p.1)).map (fun p => resolve cwd p.1) =
      (m.getRuns.map fun p => resolve cwd p.1).filter keep := by
    rw [List.filter_map]
    rfl
  have h2 : m.getRuns.map (fun p => resolve cwd p.1) = m.rundirs.map (resolve cwd) := by
    have : m.getRuns.map Prod.fst = m.rundirs := by simp [Manager.getRuns]
    conv_rhs => rw [← this]
    rw [List.map_map]
    rfl
  rw [h1, h2]

theorem sweeps_one {r : Str} (hr : r ≠ []) {n : ℤ} (h : SweepsAre io fs (resolve cwd r) n) :
    getNumberOfCompletedSweeps io cwd fs r = .ok n := by
  unfold getNumberOfCompletedSweeps
  rcases h with ⟨h1, rfl⟩ | ⟨text, h1, h2⟩
  · rw [if_pos]
    rw [isfile_false_iff, resolve_metadata cwd hr]
    exact h1
  · rw [if_neg]
    · simp only [readFile, resolve_metadata cwd hr, h1, h2]
    · rw [(isfile_iff _ _ _).2 (by rw [resolve_metadata cwd hr]; exact ⟨text, h1⟩)]
      simp

theorem sweeps_spec (hk : Known io cwd fs m conf sweeps) (runs : List (Str × ℕ)) (hr : ∀ p ∈ runs, p.1 ∈ m.rundirs) :
    getNumberOfSweepsByRuns io cwd fs runs = .ok (runs.map fun p => sweeps (resolve cwd p.1)).sum := by
  induction runs with
  | nil => rfl
  | cons p runs ih =>
    have hm := hr p (by simp)
    simp only [getNumberOfSweepsByRuns, sweeps_one (hk.nonempty _ hm) (hk.sweeps _ hm),
      ih fun q hq => hr q (by simp [hq]), List.map_cons, List.sum_cons]

theorem anyPending_spec {trs : List (Str → Str)} {state : List Str → RunState} (runs : List (Str × ℕ))
    (hs : ∀ p ∈ runs, GetState cwd fs trs p.1 (.ok (state (resolve cwd p.1)))) (r : Except PyErr Bool) :
    AnyPending cwd fs trs runs r ↔ r = .ok (runs.any fun p => isPendingState (state (resolve cwd p.1))) := by
  induction runs generalizing r with
  | nil =>
    constructor
    · intro h; cases h; rfl
    · rintro rfl; exact .nil
  | cons p runs ih =>
    have h1 := hs p (by simp)
    have ih' := fun r => ih (fun q hq => hs q (by simp [hq])) r
    constructor
    · intro h
      cases h with
      | found hg hp =>
        have := C42_deterministic h1 hg
        simp only [Except.ok.injEq] at this
        simp [this, hp]
      | next hg hp hrest =>
        have := C42_deterministic h1 hg
        simp only [Except.ok.injEq] at this
        rw [(ih' _).1 hrest]
        simp [this, hp]
      | raise hg =>
        have := C42_deterministic h1 hg
        cases this
    · rintro rfl
      by_cases hp : isPendingState (state (resolve cwd p.1)) = true
      · rw [List.any_cons, hp, Bool.true_or]
        exact .found h1 hp
      · rw [Bool.not_eq_true] at hp
        rw [List.any_cons, hp, Bool.false_or]
        exact .next h1 hp ((ih' _).2 rfl)

/-- C90: if each run directory has been found once and contains a run, the status of a target data specification is
`completed` if and only if the runs with an equivalent configuration have performed the number of sweeps asked for,
otherwise `pending` if and only if one of them is running or submitted, otherwise `incomplete`. What is missing:
directories found twice (`C90_overlap_violated`), directories that are no run directories (`C90_ignored_violated`), and
runs that have not been prepared for the job scheduler (`C90_state_violated`). -/
theorem C90_partial {state : List Str → RunState} (hk : Known io cwd fs m conf sweeps)
    (hn : (m.rundirs.map (resolve cwd)).Nodup)
    (hstate : ∀ r ∈ m.rundirs, GetState cwd fs m.trs r (.ok (state (resolve cwd r))))
    {cache : Cache} (hc : Fresh cwd m conf cache) (s : Specification) (default : Option ℤ) {t : ℤ}
    (ht : s.targetSweepCount.or default = some t) :
    (∃ cache', GetStatus io cwd fs m s default cache cache'
      (.ok (expected cwd m conf sweeps state s.config t)) ∧ Fresh cwd m conf cache') ∧
    ∀ cache' r, GetStatus io cwd fs m s default cache cache' r →
      r = .ok (expected cwd m conf sweeps state s.config t) ∧ Fresh cwd m conf cache' := by
  set keep : Conf → Bool := fun c => isEquivalent (translate m.trs) c.value s.config.value with hkeep
  obtain ⟨f1, f2⟩ := filterRuns_spec hk keep m.getRuns (getRuns_spec m) cache hc
  set runs := m.getRuns.filter fun p => keep (conf (resolve cwd p.1)) with hruns
  set cache1 := (filterRuns io cwd fs keep m.getRuns cache).1 with hcache1
  have hmatch : m.getMatching io cwd fs s.config cache = (cache1, .ok runs) := Prod.ext rfl f2
  have hmem : ∀ p ∈ runs, p.1 ∈ m.rundirs := by
    intro p hp
    exact List.mem_of_getElem? (getRuns_spec m p (List.mem_filter.1 hp).1)
  have hsw := sweeps_spec hk runs hmem
  have hdirs := getRuns_dirs (cwd := cwd) m fun d => keep (conf d)
  have hset : ∀ d, d ∈ directories cwd m conf s.config ↔ ∃ p ∈ runs, resolve cwd p.1 = d := by
    intro d
    have : d ∈ (m.rundirs.map (resolve cwd)).filter (fun d => keep (conf d)) ↔ ∃ p ∈ runs, resolve cwd p.1 = d := by
      rw [← hdirs, List.mem_map]
    rw [← this]
    simp only [directories, Finset.mem_filter, List.mem_toFinset, List.mem_filter, hkeep]
  have hsum : (runs.map fun p => sweeps (resolve cwd p.1)).sum = ∑ d ∈ directories cwd m conf s.config, sweeps d := by
    have e1 : runs.map (fun p => sweeps (resolve cwd p.1)) =
        ((m.rundirs.map (resolve cwd)).filter fun d => keep (conf d)).map sweeps := by
      rw [← hdirs, List.map_map]
      rfl
    have e2 : directories cwd m conf s.config =
        ((m.rundirs.map (resolve cwd)).filter fun d => keep (conf d)).toFinset := by
      ext d
      simp only [directories, Finset.mem_filter, List.mem_toFinset, List.mem_filter, hkeep]
    rw [e1, e2, List.sum_toFinset _ (hn.filter _)]
  rw [hsum] at hsw
  have hpend := fun r => anyPending_spec (trs := m.trs) (fs := fs) runs (fun p hp => hstate p.1 (hmem p hp)) r
  have hany : (runs.any fun p => isPendingState (state (resolve cwd p.1))) = true ↔
      ∃ d ∈ directories cwd m conf s.config, state d = .Running ∨ state d = .Submitted := by
    rw [List.any_eq_true]
    constructor
    · rintro ⟨p, hp, hs⟩
      exact ⟨resolve cwd p.1, (hset _).2 ⟨p, hp, rfl⟩, by simpa [isPendingState] using hs⟩
    · rintro ⟨d, hd, hs⟩
      obtain ⟨p, hp, rfl⟩ := (hset d).1 hd
      exact ⟨p, hp, by simpa [isPendingState] using hs⟩
  constructor
  · refine ⟨cache1, ?_, f1⟩
    unfold expected
    split_ifs with h1 h2
    · exact .completed hmatch hsw ht h1
    · exact .pending hmatch hsw ht (not_le.1 h1) ((hpend _).2 (by rw [hany.2 h2]))
    · refine .incomplete hmatch hsw ht (not_le.1 h1) ((hpend _).2 ?_)
      rw [← hany] at h2
      simpa using h2
  · intro cache' r h
    have same : ∀ {cache' : Cache} {rs : Except PyErr (List (Str × ℕ))},
        m.getMatching io cwd fs s.config cache = (cache', rs) → cache' = cache1 ∧ rs = .ok runs := by
      intro cache' rs h
      rw [hmatch] at h
      cases h
      exact ⟨rfl, rfl⟩
    unfold expected
    cases h with
    | noRuns h1 => cases (same h1).2
    | noSweeps h1 h2 =>
      cases (same h1).2
      rw [hsw] at h2; cases h2
    | noTarget h1 h2 h3 h4 => rw [h3, h4] at ht; cases ht
    | completed h1 h2 h3 h4 =>
      obtain ⟨rfl, e⟩ := same h1
      cases e
      rw [hsw] at h2; cases h2
      rw [ht] at h3; cases h3
      rw [if_pos h4]
      exact ⟨rfl, f1⟩
    | pending h1 h2 h3 h4 h5 =>
      obtain ⟨rfl, e⟩ := same h1
      cases e
      rw [hsw] at h2; cases h2
      rw [ht] at h3; cases h3
      have h6 := (hpend _).1 h5
      rw [if_neg (not_le.2 h4), if_pos (hany.1 (Except.ok.inj h6).symm)]
      exact ⟨rfl, f1⟩
    | incomplete h1 h2 h3 h4 h5 =>
      obtain ⟨rfl, e⟩ := same h1
      cases e
      rw [hsw] at h2; cases h2
      rw [ht] at h3; cases h3
      have h6 := (hpend _).1 h5
      rw [if_neg (not_le.2 h4), if_neg (fun h7 => by rw [hany.2 h7] at h6; cases h6)]
      exact ⟨rfl, f1⟩
    | noState h1 h2 h3 h4 h5 =>
      cases (same h1).2
      cases (hpend _).1 h5

/-- C90: without a number of sweeps to aim at, the call raises. -/
theorem C90_no_target (hk : Known io cwd fs m conf sweeps) {cache : Cache} (hc : Fresh cwd m conf cache)
    (s : Specification) (ht : s.targetSweepCount = none) (cache' : Cache) (r : Except PyErr Name)
    (h : GetStatus io cwd fs m s none cache cache' r) : r = .error .exception := by
  obtain ⟨f1, f2⟩ := filterRuns_spec hk (fun c => isEquivalent (translate m.trs) c.value s.config.value) m.getRuns
    (getRuns_spec m) cache hc
  have hsw := sweeps_spec hk (m.getRuns.filter fun p =>
    isEquivalent (translate m.trs) (conf (resolve cwd p.1)).value s.config.value) (by
    intro p hp
    exact List.mem_of_getElem? (getRuns_spec m p (List.mem_filter.1 hp).1))
  have hmatch : (m.getMatching io cwd fs s.config cache).2 = _ := f2
  cases h with
  | noRuns h1 => rw [h1] at hmatch; cases hmatch
  | noSweeps h1 h2 =>
    rw [h1] at hmatch
    cases Except.ok.inj hmatch
    rw [hsw] at h2
    cases h2
  | noTarget => rfl
  | completed _ _ h3 => rw [ht] at h3; cases h3
  | pending _ _ h3 => rw [ht] at h3; cases h3
  | incomplete _ _ h3 => rw [ht] at h3; cases h3
  | noState _ _ h3 => rw [ht] at h3; cases h3

/-- C90: grouping by status puts each specification into the group of its status, in order. -/
theorem C90_grouped {state : List Str → RunState} (hk : Known io cwd fs m conf sweeps)
    (hn : (m.rundirs.map (resolve cwd)).Nodup)
    (hstate : ∀ r ∈ m.rundirs, GetState cwd fs m.trs r (.ok (state (resolve cwd r))))
    {cache : Cache} (hc : Fresh cwd m conf cache) (default : Option ℤ) (ss : List Specification)
    (target : Specification → ℤ) (ht : ∀ s ∈ ss, s.targetSweepCount.or default = some (target s))
    (r : Except PyErr (Name → List Specification)) :
    Grouped io cwd fs m default ss cache (fun _ => []) r ↔
      r = .ok fun name => ss.filter fun s => expected cwd m conf sweeps state s.config (target s) = name := by
  have key : ∀ (ss : List Specification), (∀ s ∈ ss, s.targetSweepCount.or default = some (target s)) →
      ∀ (cache : Cache), Fresh cwd m conf cache → ∀ ret r, Grouped io cwd fs m default ss cache ret r ↔
      r = .ok fun name => ret name ++ ss.filter fun s => expected cwd m conf sweeps state s.config (target s) = name := by
    intro ss
    induction ss with
    | nil =>
      intro _ cache _ ret r
      constructor
      · intro h; cases h; simp
      · intro h
        simp only [List.filter_nil, List.append_nil] at h
        subst h
        exact .nil
    | cons s ss ih =>
      intro ht cache hc ret r
      obtain ⟨⟨cache1, s1, s2⟩, s3⟩ := C90_partial hk hn hstate hc s default (ht s (by simp))
      set n := expected cwd m conf sweeps state s.config (target s) with hname
      have hret : (fun name => (Function.update ret n (ret n ++ [s])) name ++
          ss.filter fun s => expected cwd m conf sweeps state s.config (target s) = name) =
          fun name => ret name ++ (s :: ss).filter fun s =>
            expected cwd m conf sweeps state s.config (target s) = name := by
        funext name
        by_cases he : n = name
        · rw [List.filter_cons_of_pos (by simpa [← hname] using he), ← he, Function.update_self]
          simp
        · rw [List.filter_cons_of_neg (by simpa [← hname] using he), Function.update_of_ne (Ne.symm he)]
      constructor
      · intro h
        cases h with
        | cons h1 h2 =>
          obtain ⟨e, f⟩ := s3 _ _ h1
          cases Except.ok.inj e
          rw [ih (fun x hx => ht x (by simp [hx])) _ f] at h2
          rw [h2, hret]
        | raise h1 => cases (s3 _ _ h1).1
      · rintro rfl
        refine .cons s1 ?_
        rw [ih (fun x hx => ht x (by simp [hx])) _ s2, hret]
  rw [key ss ht cache hc]
  simp

/-- C91: the runs selected by filters are those of which the configuration passes all filters, in order. -/
theorem C91_filtered (hk : Known io cwd fs m conf sweeps) (filters : List (Conf → Bool)) {cache : Cache}
    (hc : Fresh cwd m conf cache) :
    Fresh cwd m conf (m.getRunsFilteredByConfig io cwd fs filters cache).1 ∧
    ∃ runs, (m.getRunsFilteredByConfig io cwd fs filters cache).2 = .ok runs ∧ runs.Sublist m.getRuns ∧
      ∀ p ∈ m.getRuns, p ∈ runs ↔ ∀ f ∈ filters, f (conf (resolve cwd p.1)) = true := by
  obtain ⟨f1, f2⟩ := filterRuns_spec hk (fun c => filters.all fun f => f c) m.getRuns (getRuns_spec m) cache hc
  refine ⟨f1, _, f2, List.filter_sublist, fun p hp => ?_⟩
  simp [List.mem_filter, hp]

/-- The run in directory `d` is part of the job of another one. -/
def IsChild (fs : FS) (d : List Str) : Prop :=
  FileAt fs (d ++ ["input".toList, "parent-job-path.txt".toList])

/-- The run has been submitted, by a job of its own with `n` runs. -/
def Submitted (cwd : List Str) (fs : FS) (state : Str → RunState) (script : Str → Str) (n : ℕ) (run : Str) : Prop :=
  ¬ IsChild fs (resolve cwd run) ∧ state run = .Submitted ∧ countSrunLines (script run) = n

/-- C91: the submitted jobs are grouped by the number of runs they contain: each run that has been submitted by a job
of its own is listed under the number of `srun` lines of its job script, in order, once for each time it has been
found. -/
theorem C91_batches {trs : List (Str → Str)} (runs : List Str) (state : Str → RunState) (script : Str → Str)
    (hne : ∀ r ∈ runs, r ≠ [])
    (hstate : ∀ r ∈ runs, ¬ IsChild fs (resolve cwd r) → GetState cwd fs trs r (.ok (state r)))
    (hscript : ∀ r ∈ runs, ¬ IsChild fs (resolve cwd r) → state r = .Submitted →
      fs (resolve cwd r ++ ["input".toList, "job.slrm".toList]) = some (.file (script r)) ∧
        0 < countSrunLines (script r))
    (r : Except PyErr (ℕ → List Str)) :
    Batches cwd fs trs runs (fun _ => []) r ↔
      r = .ok fun n => open Classical in runs.filter fun run => Submitted cwd fs state script n run := by
  classical
  have hpar : ∀ run, run ≠ [] → (hasParentRun cwd fs run = true ↔ IsChild fs (resolve cwd run)) := by
    intro run hr
    rw [hasParentRun, isfile_iff, resolve_parent cwd hr, IsChild]
  have hsize : ∀ run, run ≠ [] → hasParentRun cwd fs run = false → ∀ text,
      fs (resolve cwd run ++ ["input".toList, "job.slrm".toList]) = some (.file text) → 0 < countSrunLines text →
      getJobBatchSize cwd fs trs run = .ok (countSrunLines text) := by
    intro run hr hp text h1 h2
    have h3 : readFile cwd fs (run ++ "/input/job.slrm".toList) = .ok text := by
      simp only [readFile, resolve_jobslrm cwd hr, h1]
    have h4 : getParentRun cwd fs trs run = .ok (trs, run) := by
      rw [getParentRun, if_neg (by rw [hp]; exact Bool.false_ne_true)]
    simp only [getJobBatchSize, h4, h3, if_pos h2]
  have key : ∀ ret r, Batches cwd fs trs runs ret r ↔
      r = .ok fun n => ret n ++ runs.filter fun run => Submitted cwd fs state script n run := by
    clear r
    induction runs with
    | nil =>
      intro ret r
      constructor
      · intro h; cases h; simp
      · intro h
        simp only [List.filter_nil, List.append_nil] at h
        subst h
        exact .nil
    | cons run runs ih =>
      intro ret r
      have ih' := ih (fun x hx => hne x (by simp [hx])) (fun x hx => hstate x (by simp [hx]))
        (fun x hx => hscript x (by simp [hx]))
      have hrun := hne run (by simp)
      by_cases hp : IsChild fs (resolve cwd run)
      · have hp' := (hpar run hrun).2 hp
        have e : ∀ n, (run :: runs).filter (fun run => Submitted cwd fs state script n run) =
            runs.filter fun run => Submitted cwd fs state script n run :=
          fun n => List.filter_cons_of_neg (by simpa using fun h : Submitted cwd fs state script n run => h.1 hp)
        simp only [e]
        rw [← ih' ret r]
        constructor
        · intro h
          cases h with
          | child _ h => exact h
          | other h1 => rw [hp'] at h1; cases h1
          | add h1 => rw [hp'] at h1; cases h1
          | noState h1 => rw [hp'] at h1; cases h1
          | noSize h1 => rw [hp'] at h1; cases h1
        · exact .child hp'
      · have hp' : hasParentRun cwd fs run = false := by
          rw [← Bool.not_eq_true, hpar run hrun]; exact hp
        have hst := hstate run (by simp) hp
        by_cases hs : state run = .Submitted
        · obtain ⟨h1, h2⟩ := hscript run (by simp) hp hs
          have hsz := hsize run hrun hp' _ h1 h2
          rw [hs] at hst
          have e : (fun n => (Function.update ret (countSrunLines (script run))
              (ret (countSrunLines (script run)) ++ [run])) n ++ runs.filter fun run =>
                Submitted cwd fs state script n run) =
              fun n => ret n ++ (run :: runs).filter fun run => Submitted cwd fs state script n run := by
            funext n
            by_cases hn : countSrunLines (script run) = n
            · have hsub : Submitted cwd fs state script n run := ⟨hp, hs, hn⟩
              rw [List.filter_cons_of_pos (by simpa using hsub), ← hn, Function.update_self]
              simp
            · rw [List.filter_cons_of_neg (by simpa using fun h : Submitted cwd fs state script n run => hn h.2.2),
                Function.update_of_ne (Ne.symm hn)]
          rw [← e, ← ih']
          constructor
          · intro h
            cases h with
            | child h1 => rw [hp'] at h1; cases h1
            | other _ h2 h3 => exact absurd (Except.ok.inj (C42_deterministic h2 hst)) h3
            | add _ _ h3 h4 =>
              rw [hsz] at h3
              cases h3
              exact h4
            | noState _ h2 => cases C42_deterministic h2 hst
            | noSize _ _ h3 => rw [hsz] at h3; cases h3
          · exact .add hp' hst hsz
        · have e : ∀ n, (run :: runs).filter (fun run => Submitted cwd fs state script n run) =
              runs.filter fun run => Submitted cwd fs state script n run :=
            fun n => List.filter_cons_of_neg (by simpa using fun h : Submitted cwd fs state script n run => hs h.2.1)
          simp only [e]
          rw [← ih' ret r]
          constructor
          · intro h
            cases h with
            | child h1 => rw [hp'] at h1; cases h1
            | other _ _ _ h => exact h
            | add _ h2 => exact absurd (Except.ok.inj (C42_deterministic hst h2)) hs
            | noState _ h2 => cases C42_deterministic h2 hst
            | noSize _ h2 => exact absurd (Except.ok.inj (C42_deterministic hst h2)) hs
          · exact .other hp' hst hs
  rw [key]
  simp only [List.nil_append]

theorem addNode_keys (ret : List (ℤ × List Str)) (node : Str × ℤ) (h : (ret.map Prod.fst).Nodup) :
    ((addNode ret node).map Prod.fst).Nodup ∧
      ∀ k, k ∈ (addNode ret node).map Prod.fst ↔ k ∈ ret.map Prod.fst ∨ k = node.2 := by
  induction ret with
  | nil => simp [addNode]
  | cons e ret ih =>
    obtain ⟨k, nodes⟩ := e
    simp only [List.map_cons, List.nodup_cons] at h
    obtain ⟨i1, i2⟩ := ih h.2
    simp only [addNode]
    split_ifs with hk
    · refine ⟨by simpa using h, fun k' => ?_⟩
      simp only [List.map_cons, List.mem_cons]
      constructor
      · exact Or.inl
      · rintro (h' | h')
        · exact h'
        · left; rw [h', hk]
    · refine ⟨?_, fun k' => ?_⟩
      · simp only [List.map_cons, List.nodup_cons]
        refine ⟨?_, i1⟩
        rw [i2]
        rintro (h' | h')
        · exact h.1 h'
        · exact hk h'
      · simp only [List.map_cons, List.mem_cons, i2, or_assoc]

theorem addNode_mem (ret : List (ℤ × List Str)) (node : Str × ℤ) (h : (ret.map Prod.fst).Nodup) (k : ℤ)
    (nodes : List Str) : (k, nodes) ∈ addNode ret node ↔
      (k ≠ node.2 ∧ (k, nodes) ∈ ret) ∨ (k = node.2 ∧ ∃ before, nodes = before ++ [node.1] ∧
        ((k, before) ∈ ret ∨ (k ∉ ret.map Prod.fst ∧ before = []))) := by
  induction ret with
  | nil =>
    simp only [addNode, List.mem_singleton, Prod.mk.injEq, List.not_mem_nil, and_false, false_or, List.map_nil,
      not_false_eq_true, true_and]
    constructor
    · rintro ⟨rfl, rfl⟩; exact ⟨rfl, [], rfl, rfl⟩
    · rintro ⟨rfl, b, rfl, rfl⟩; exact ⟨rfl, rfl⟩
  | cons e ret ih =>
    obtain ⟨k', nodes'⟩ := e
    simp only [List.map_cons, List.nodup_cons] at h
    simp only [addNode]
    split_ifs with hk
    · subst hk
      simp only [List.mem_cons, Prod.mk.injEq, List.map_cons, not_or]
      have hno : ∀ ns, (node.2, ns) ∉ ret := fun ns hm => h.1 (List.mem_map.2 ⟨_, hm, rfl⟩)
      constructor
      · rintro (⟨rfl, rfl⟩ | hm)
        · exact Or.inr ⟨rfl, nodes', rfl, Or.inl (Or.inl ⟨rfl, rfl⟩)⟩
        · refine Or.inl ⟨?_, Or.inr hm⟩
          rintro rfl
          exact hno _ hm
      · rintro (⟨h1, ⟨h2, _⟩ | h2⟩ | ⟨rfl, b, rfl, (⟨_, rfl⟩ | h2) | ⟨⟨h2, _⟩, _⟩⟩)
        · exact absurd h2 h1
        · exact Or.inr h2
        · exact Or.inl ⟨rfl, rfl⟩
        · exact absurd h2 (hno _)
        · exact absurd rfl h2
    · simp only [List.mem_cons, Prod.mk.injEq, List.map_cons, not_or, ih h.2]
      constructor
      · rintro (⟨rfl, rfl⟩ | ⟨h1, h2⟩ | ⟨rfl, b, rfl, h2 | ⟨h2, rfl⟩⟩)
        · exact Or.inl ⟨hk, Or.inl ⟨rfl, rfl⟩⟩
        · exact Or.inl ⟨h1, Or.inr h2⟩
        · exact Or.inr ⟨rfl, b, rfl, Or.inl (Or.inr h2)⟩
        · exact Or.inr ⟨rfl, [], rfl, Or.inr ⟨⟨Ne.symm hk, h2⟩, rfl⟩⟩
      · rintro (⟨h1, ⟨rfl, rfl⟩ | h2⟩ | ⟨rfl, b, rfl, (⟨h2, rfl⟩ | h2) | ⟨⟨h2, h3⟩, rfl⟩⟩)
        · exact Or.inl ⟨rfl, rfl⟩
        · exact Or.inr (Or.inl ⟨h1, h2⟩)
        · exact absurd h2.symm hk
        · exact Or.inr (Or.inr ⟨rfl, b, rfl, Or.inl h2⟩)
        · exact Or.inr (Or.inr ⟨rfl, [], rfl, Or.inr ⟨h3, rfl⟩⟩)

theorem addNodes_spec (nodes : List (Str × ℤ)) : ((nodes.foldl addNode []).map Prod.fst).Nodup ∧
    ∀ k l, (k, l) ∈ nodes.foldl addNode [] ↔ l ≠ [] ∧ l = (nodes.filter fun n => n.2 = k).map Prod.fst := by
  induction nodes using List.reverseRecOn with
  | nil => simp
  | append_singleton nodes node ih =>
    obtain ⟨i1, i2⟩ := ih
    rw [List.foldl_append]
    simp only [List.foldl_cons, List.foldl_nil]
    refine ⟨(addNode_keys _ node i1).1, fun k l => ?_⟩
    rw [addNode_mem _ _ i1, List.filter_append, List.map_append]
    have hkey : k ∈ (nodes.foldl addNode []).map Prod.fst ↔ (nodes.filter fun n => n.2 = k).map Prod.fst ≠ [] := by
      rw [List.mem_map]
      constructor
      · rintro ⟨⟨k', l'⟩, hm, rfl⟩
        obtain ⟨h1, h2⟩ := (i2 _ _).1 hm
        rw [← h2]; exact h1
      · intro h
        exact ⟨(k, _), (i2 _ _).2 ⟨h, rfl⟩, rfl⟩
    by_cases hk : node.2 = k
    · subst hk
      simp only [i2, hkey, not_not, ne_eq, not_true_eq_false, false_and, true_and, false_or, List.filter_cons_of_pos,
        decide_true, List.filter_nil, List.map_cons, List.map_nil]
      constructor
      · rintro ⟨b, rfl, ⟨_, rfl⟩ | ⟨h, rfl⟩⟩
        · exact ⟨by simp, rfl⟩
        · exact ⟨by simp, by rw [h]⟩
      · rintro ⟨_, rfl⟩
        refine ⟨_, rfl, ?_⟩
        by_cases h : (nodes.filter fun n => n.2 = node.2).map Prod.fst = []
        · exact Or.inr ⟨h, h⟩
        · exact Or.inl ⟨h, rfl⟩
    · rw [List.filter_cons_of_neg (by simpa using hk)]
      simp only [List.filter_nil, List.map_nil, List.append_nil, i2]
      constructor
      · rintro (⟨_, h⟩ | ⟨h, _⟩)
        · exact h
        · exact absurd h.symm hk
      · intro h
        exact Or.inl ⟨Ne.symm hk, h⟩

/-- C91: there is one entry for each number of GPUs that a node has; it lists the nodes with this number, in order, and
the text for the scheduler denotes exactly these nodes. -/
theorem C91_nodes (nodes : List (Str × ℤ)) (hp : ∀ n ∈ nodes, n.1 ≠ [] ∧ PlainText n.1) :
    ((getClusterNodesGroupedByGPUCount (some nodes)).map Prod.fst).Nodup ∧
    (∀ k, k ∈ (getClusterNodesGroupedByGPUCount (some nodes)).map Prod.fst ↔ ∃ n ∈ nodes, n.2 = k) ∧
    ∀ k l text, (k, l, text) ∈ getClusterNodesGroupedByGPUCount (some nodes) →
      l = (nodes.filter fun n => n.2 = k).map Prod.fst ∧ parseSlurmNodeList text = l := by
  obtain ⟨h1, h2⟩ := addNodes_spec nodes
  have hkeys : (getClusterNodesGroupedByGPUCount (some nodes)).map Prod.fst =
      (nodes.foldl addNode []).map Prod.fst := by
    simp [getClusterNodesGroupedByGPUCount, List.map_map, Function.comp_def]
  refine ⟨by rw [hkeys]; exact h1, fun k => ?_, fun k l text hm => ?_⟩
  · rw [hkeys, List.mem_map]
    constructor
    · rintro ⟨⟨k', l⟩, hm, rfl⟩
      obtain ⟨h3, h4⟩ := (h2 _ _).1 hm
      cases hf : nodes.filter fun n => n.2 = k' with
      | nil => rw [hf] at h4; exact absurd h4 h3
      | cons n _ =>
        have : n ∈ nodes.filter fun n => n.2 = k' := by rw [hf]; simp
        rw [List.mem_filter] at this
        exact ⟨n, this.1, by simpa using this.2⟩
    · rintro ⟨n, hn, rfl⟩
      refine ⟨(n.2, _), (h2 _ _).2 ⟨?_, rfl⟩, rfl⟩
      intro h
      have : n ∈ nodes.filter fun x => x.2 = n.2 := List.mem_filter.2 ⟨hn, by simp⟩
      rw [List.map_eq_nil_iff] at h
      rw [h] at this
      simp at this
  · simp only [getClusterNodesGroupedByGPUCount, List.mem_map, Prod.mk.injEq] at hm
    obtain ⟨⟨k', l'⟩, hm, rfl, rfl, rfl⟩ := hm
    obtain ⟨h3, h4⟩ := (h2 _ _).1 hm
    refine ⟨h4, C44_roundtrip h3 fun s hs => ?_⟩
    simp only at h4 hs
    rw [h4, List.mem_map] at hs
    obtain ⟨n, hn, rfl⟩ := hs
    exact hp n (List.mem_filter.1 hn).1

/-- C91: without a cluster there are no nodes. -/
theorem C91_no_cluster : getClusterNodesGroupedByGPUCount none = [] := rfl

end proofs

/-! ## Examples and violations -/

/-- Every text is read as an empty configuration, or as five sweeps; but no configuration is the path of a file. -/
def sampleReaders : Readers where
  parse text := if text.head? = some '/' then .error .exception else .ok (.group [])
  sweeps _ := .ok 5

/-- The directory `/r` contains a completed run, `/q` a run that has been submitted, `/s` one with a configuration
only, and `/x` nothing. -/
def sampleFS : FS := fun l =>
  if l = [] ∨ l = ["r".toList] ∨ l = ["q".toList] ∨ l = ["s".toList] ∨ l = ["x".toList] ∨
    l = ["q".toList, "input".toList] then some .dir
  else if l = ["r".toList, "config.txt".toList] ∨ l = ["q".toList, "config.txt".toList] ∨
    l = ["s".toList, "config.txt".toList] ∨ l = ["r".toList, "metadata.txt".toList] ∨
    l = ["q".toList, "input".toList, "jobid".toList] then some (.file [])
  else if l = ["q".toList, "input".toList, "job.slrm".toList] then some (.file "srun x\nwait".toList)
  else none

/-- Ten sweeps with the empty configuration. -/
def sampleSpecification (n : ℤ) : Specification := ⟨⟨true, .group []⟩, some n, []⟩

theorem sample_canonical : canonicalize ⟨true, .group []⟩ = .ok ⟨true, .group []⟩ := rfl

theorem sample_config (d : Str) (h : d = "r".toList ∨ d = "q".toList ∨ d = "s".toList) :
    ConfigIs sampleReaders sampleFS [d] ⟨true, .group []⟩ := by
  refine ⟨[], .group [], ?_, rfl, rfl⟩
  rcases h with rfl | rfl | rfl <;> decide

theorem resolve_r (cwd : List Str) : resolve cwd "/r".toList = ["r".toList] := rfl
theorem resolve_q (cwd : List Str) : resolve cwd "/q".toList = ["q".toList] := rfl
theorem resolve_s (cwd : List Str) : resolve cwd "/s".toList = ["s".toList] := rfl
theorem resolve_x (cwd : List Str) : resolve cwd "/x".toList = ["x".toList] := rfl

theorem sample_noOutput (d : List Str) : ¬ HasOutput sampleFS d := by
  rintro ⟨w, -, h⟩
  apply h
  have hl : (d ++ ["input".toList, "srun-".toList ++ w ++ ".out".toList]).getLast? =
    some ("srun-".toList ++ w ++ ".out".toList) := by simp
  have hne : ∀ (m : List Str) (b : Str), m.getLast? = some b →
      "srun-".toList ++ w ++ ".out".toList ≠ b →
      d ++ ["input".toList, "srun-".toList ++ w ++ ".out".toList] ≠ m := by
    rintro m b hm hb rfl
    rw [hl] at hm
    exact hb (Option.some.inj hm)
  unfold sampleFS
  rw [if_neg, if_neg, if_neg]
  · exact hne _ "job.slrm".toList (by decide) (by simp)
  · rintro (h | h | h | h | h)
    · exact hne _ "config.txt".toList (by decide) (by simp) h
    · exact hne _ "config.txt".toList (by decide) (by simp) h
    · exact hne _ "config.txt".toList (by decide) (by simp) h
    · exact hne _ "metadata.txt".toList (by decide) (by simp) h
    · exact hne _ "jobid".toList (by decide) (by simp) h
  · rintro (h | h | h | h | h | h)
    · simp at h
    · exact hne _ "r".toList (by decide) (by simp) h
    · exact hne _ "q".toList (by decide) (by simp) h
    · exact hne _ "s".toList (by decide) (by simp) h
    · exact hne _ "x".toList (by decide) (by simp) h
    · exact hne _ "input".toList (by decide) (by simp) h

theorem sample_file {d : List Str} {n : Str} (h : sampleFS (d ++ [n]) = some (.file [])) : FileAt sampleFS (d ++ [n]) :=
  ⟨[], h⟩

theorem sample_state_r (trs : List (Str → Str)) (r : Except PyErr RunState) :
    GetState [] sampleFS trs "/r".toList r ↔ r = .ok .Completed :=
  C42_completed (by decide) r ⟨[], by rw [resolve_r]; decide⟩ ⟨[], by rw [resolve_r]; decide⟩

theorem sample_state_q (trs : List (Str → Str)) (r : Except PyErr RunState) :
    GetState [] sampleFS trs "/q".toList r ↔ r = .ok .Submitted :=
  C42_submitted (by decide) r ⟨[], by rw [resolve_q]; decide⟩
    (by rw [resolve_q]; rintro ⟨t, ht⟩; exact absurd ht (by simp [sampleFS])) (sample_noOutput _)
    (by rw [resolve_q]; rintro ⟨t, ht⟩; exact absurd ht (by simp [sampleFS])) (by rw [resolve_q]; decide)

theorem sample_state_s (trs : List (Str → Str)) (r : Except PyErr RunState) :
    GetState [] sampleFS trs "/s".toList r ↔ r = .error .exception :=
  C42_no_job (by decide) r ⟨[], by rw [resolve_s]; decide⟩
    (by rw [resolve_s]; rintro ⟨t, ht⟩; exact absurd ht (by simp [sampleFS])) (sample_noOutput _)
    (by rw [resolve_s]; rintro ⟨t, ht⟩; exact absurd ht (by simp [sampleFS])) (by rw [resolve_s]; decide)
    (by rw [resolve_s]; rintro ⟨t, ht⟩; exact absurd ht (by simp [sampleFS]))

/-- The two runs `/r` and `/q`. -/
def sampleManager : Manager := ⟨["/r".toList, "/q".toList], []⟩

theorem sample_known : Known sampleReaders [] sampleFS sampleManager (fun _ => ⟨true, .group []⟩)
    (fun d => if d = ["r".toList] then 5 else 0) where
  nonempty := by decide
  conf := by
    intro r hr
    simp only [sampleManager, List.mem_cons, List.not_mem_nil, or_false] at hr
    rcases hr with rfl | rfl
    · rw [resolve_r]; exact sample_config _ (Or.inl rfl)
    · rw [resolve_q]; exact sample_config _ (Or.inr (Or.inl rfl))
  sweeps := by
    intro r hr
    simp only [sampleManager, List.mem_cons, List.not_mem_nil, or_false] at hr
    rcases hr with rfl | rfl
    · rw [resolve_r, if_pos rfl]; exact Or.inr ⟨[], by decide, rfl⟩
    · rw [resolve_q, if_neg (by decide)]
      refine Or.inl ⟨?_, rfl⟩
      rintro ⟨t, ht⟩
      exact absurd ht (by simp [sampleFS])

/-- The hypotheses of `C90_partial` and `C91_filtered` can be met. -/
example : Known sampleReaders [] sampleFS sampleManager (fun _ => ⟨true, .group []⟩)
      (fun d => if d = ["r".toList] then 5 else 0) ∧
    (sampleManager.rundirs.map (resolve [])).Nodup ∧
    (∀ r ∈ sampleManager.rundirs, GetState [] sampleFS sampleManager.trs r
      (.ok ((fun d => if d = ["r".toList] then RunState.Completed else RunState.Submitted) (resolve [] r)))) ∧
    Fresh [] sampleManager (fun _ => ⟨true, .group []⟩) (fun _ => none) ∧
    (sampleSpecification 10).targetSweepCount.or none = some 10 := by
  refine ⟨sample_known, by decide, ?_, fun _ _ _ _ h => by simp at h, rfl⟩
  intro r hr
  simp only [sampleManager, List.mem_cons, List.not_mem_nil, or_false] at hr
  rcases hr with rfl | rfl
  · exact (sample_state_r _ _).2 rfl
  · exact (sample_state_q _ _).2 rfl

/-- The hypotheses of `C91_batches` can be met. -/
example : (∀ r ∈ sampleManager.rundirs, ¬ IsChild sampleFS (resolve [] r) → GetState [] sampleFS [] r
      (.ok ((fun r => if r = "/r".toList then RunState.Completed else RunState.Submitted) r))) ∧
    ∀ r ∈ sampleManager.rundirs, ¬ IsChild sampleFS (resolve [] r) →
      (fun r => if r = "/r".toList then RunState.Completed else RunState.Submitted) r = .Submitted →
      sampleFS (resolve [] r ++ ["input".toList, "job.slrm".toList]) = some (.file "srun x\nwait".toList) ∧
        0 < countSrunLines "srun x\nwait".toList := by
  refine ⟨?_, ?_⟩
  · intro r hr _
    simp only [sampleManager, List.mem_cons, List.not_mem_nil, or_false] at hr
    rcases hr with rfl | rfl
    · exact (sample_state_r _ _).2 rfl
    · exact (sample_state_q _ _).2 rfl
  · intro r hr _ hs
    simp only [sampleManager, List.mem_cons, List.not_mem_nil, or_false] at hr
    rcases hr with rfl | rfl
    · simp at hs
    · exact ⟨by rw [resolve_q]; decide, by decide⟩

/-- The hypotheses of `C91_nodes` can be met. -/
example : ∀ n ∈ clusterNodes [("n[1-2]".toList, 2), ("m".toList, 1)], n.1 ≠ [] ∧ PlainText n.1 := by
  have : clusterNodes [("n[1-2]".toList, 2), ("m".toList, 1)] =
    [("n1".toList, 2), ("n2".toList, 2), ("m".toList, 1)] := by decide +kernel
  rw [this]
  intro n hn
  simp only [List.mem_cons, List.not_mem_nil, or_false] at hn
  rcases hn with rfl | rfl | rfl <;> exact ⟨by decide, by decide, by decide⟩

/-- C90 fails: if the data paths overlap, runs are counted more than once. Here the only run, `/r`, has performed five
of ten sweeps, but is reported as completed. -/
theorem C90_overlap_violated :
    let glob : Str → List Str := fun path => if path = "/*".toList then ["/r".toList] else [path]
    findRundirs id glob (.ok (some ["/*".toList, "/r".toList])) none = .ok ["/r".toList, "/r".toList] ∧
    GetStatus sampleReaders [] sampleFS ⟨["/r".toList, "/r".toList], []⟩ (sampleSpecification 10) none (fun _ => none)
      (Function.update (Function.update (fun _ => none) 0 (some ⟨true, .group []⟩)) 1 (some ⟨true, .group []⟩))
      (.ok .completed) := by
  refine ⟨by decide, .completed (runs := [("/r".toList, 0), ("/r".toList, 1)]) (n := 10) (t := 10) ?_ rfl rfl le_rfl⟩
  have h1 : loadConfiguration sampleReaders [] sampleFS ("/r".toList ++ "/config.txt".toList) = .ok ⟨true, .group []⟩ :=
    load_spec (by decide) (by rw [resolve_r]; exact sample_config _ (Or.inl rfl))
  have hg : Manager.getRuns ⟨["/r".toList, "/r".toList], []⟩ = [("/r".toList, 0), ("/r".toList, 1)] := rfl
  have hb : isEquivalent (translate []) (.group []) (.group []) = true := rfl
  simp only [Manager.getMatching, hg, filterRuns, getConfiguration, h1, sampleSpecification, hb, if_true]
  rfl

/-- C90 fails: a directory that is no run directory is not ignored, but makes every call raise. -/
theorem C90_ignored_violated (s : Specification) (default : Option ℤ) (cache : Cache) (hc : cache 0 = none)
    (cache' : Cache) (r : Except PyErr Name)
    (h : GetStatus sampleReaders [] sampleFS ⟨["/x".toList], []⟩ s default cache cache' r) : r = .error .exception := by
  have hg : Manager.getRuns ⟨["/x".toList], []⟩ = [("/x".toList, 0)] := rfl
  have h1 : loadConfiguration sampleReaders [] sampleFS ("/x".toList ++ "/config.txt".toList) = .error .exception := rfl
  have hm : Manager.getMatching sampleReaders [] sampleFS ⟨["/x".toList], []⟩ s.config cache =
      (cache, .error .exception) := by
    simp only [Manager.getMatching, hg, filterRuns, getConfiguration, hc, h1]
  cases h with
  | noRuns h => exact congrArg Except.error (Except.error.inj (congrArg Prod.snd (hm.symm.trans h))).symm
  | noSweeps h => rw [hm] at h; cases h
  | noTarget h => rw [hm] at h
  | completed h => rw [hm] at h; cases h
  | pending h => rw [hm] at h; cases h
  | incomplete h => rw [hm] at h; cases h
  | noState h => rw [hm] at h; cases h

/-- C90 fails: if a run with the configuration asked for has neither been completed nor prepared for the job scheduler,
such as one started by hand, the call raises instead of returning `incomplete`. -/
theorem C90_state_violated :
    GetStatus sampleReaders [] sampleFS ⟨["/s".toList], []⟩ (sampleSpecification 10) none (fun _ => none)
      (Function.update (fun _ => none) 0 (some ⟨true, .group []⟩)) (.error .exception) := by
  refine .noState (runs := [("/s".toList, 0)]) (n := 0) (t := 10) ?_ ?_ rfl (by decide)
    (.raise ((sample_state_s _ _).2 rfl))
  · have h1 : loadConfiguration sampleReaders [] sampleFS ("/s".toList ++ "/config.txt".toList) =
        .ok ⟨true, .group []⟩ :=
      load_spec (by decide) (by rw [resolve_s]; exact sample_config _ (Or.inr (Or.inr rfl)))
    have hg : Manager.getRuns ⟨["/s".toList], []⟩ = [("/s".toList, 0)] := rfl
    have hb : isEquivalent (translate []) (.group []) (.group []) = true := rfl
    simp only [Manager.getMatching, hg, filterRuns, getConfiguration, h1, sampleSpecification, hb, if_true]
  · rfl

/-- C90 fails: the configuration file is required even if the data paths are given. -/
theorem C90_config_violated (expand : Str → Str) (glob : Str → List Str) (dataPaths : List Str) (e : PyErr) :
    findRundirs expand glob (.error e) (some dataPaths) = .error e := rfl

/-- C90: with a configuration file, the directories are those that the patterns match, in order; patterns given to the
constructor take precedence over those in the file. -/
theorem C90_rundirs (expand : Str → Str) (glob : Str → List Str) (configured dataPaths : Option (List Str))
    (paths : List Str) (h : dataPaths = some paths ∨ (dataPaths = none ∧ configured = some paths)) :
    ∃ dirs, findRundirs expand glob (.ok configured) dataPaths = .ok dirs ∧
      ∀ d, d ∈ dirs ↔ ∃ path ∈ paths, d ∈ glob (expand path) := by
  refine ⟨paths.flatMap fun path => glob (expand path), ?_, fun d => by simp⟩
  rcases h with rfl | ⟨rfl, rfl⟩ <;> rfl

end OpenMPCD.Runs.Status
