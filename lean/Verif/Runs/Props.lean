import Mathlib.Order.WellFounded
import Mathlib.Logic.Function.Iterate
import Verif.Runs.Model

/-!
# C42, C43, C45: run states, run directories, path translators
-/

set_option linter.unusedSimpArgs false

namespace OpenMPCD.Runs

/-! ## Specification: what is where -/
namespace Spec

/-- There is a regular file at the location. -/
def FileAt (fs : FS) (l : List Str) : Prop := ∃ text, fs l = some (.file text)

/-- In a file system, entries are in directories. -/
def WellFormed (fs : FS) : Prop := ∀ d c, fs (d ++ [c]) ≠ none → fs d = some .dir

/-- The run directory at `d` has the output of a started job. -/
def HasOutput (fs : FS) (d : List Str) : Prop :=
  ∃ w : Str, '/' ∉ w ∧ fs (d ++ ["input".toList, "srun-".toList ++ w ++ ".out".toList]) ≠ none

/-- All configured translators applied in turn. -/
def translateAll (config : List Translator) (s : Str) : Str :=
  config.foldl (fun s t => pyReplace t.server t.loc s) s

end Spec

open Spec

/-! ## Where the names used by the code lead -/

section names
variable (cwd : List Str) {p : Str} (hp : p ≠ [])
include hp

theorem resolve_config : resolve cwd (p ++ "/config.txt".toList) =
    resolve cwd p ++ ["config.txt".toList] :=
  resolve_append cwd p "config.txt".toList hp

theorem resolve_metadata : resolve cwd (p ++ "/metadata.txt".toList) =
    resolve cwd p ++ ["metadata.txt".toList] :=
  resolve_append cwd p "metadata.txt".toList hp

theorem resolve_input : resolve cwd (p ++ "/input".toList) =
    resolve cwd p ++ ["input".toList] :=
  resolve_append cwd p "input".toList hp

theorem resolve_parent : resolve cwd (p ++ "/input/parent-job-path.txt".toList) =
    resolve cwd p ++ ["input".toList, "parent-job-path.txt".toList] := by
  have := resolve_append cwd p "input/parent-job-path.txt".toList hp
  have e : splitChar '/' "input/parent-job-path.txt".toList =
    ["input".toList, "parent-job-path.txt".toList] := by decide
  rw [e] at this
  simp only [List.foldl_cons, List.foldl_nil] at this
  rw [pushComponent_valid (c := "input".toList) (by refine ⟨?_, ?_, ?_, ?_⟩ <;> decide),
    pushComponent_valid (by refine ⟨?_, ?_, ?_, ?_⟩ <;> decide)] at this
  simpa using this

theorem resolve_jobid : resolve cwd (p ++ "/input/jobid".toList) =
    resolve cwd p ++ ["input".toList, "jobid".toList] := by
  have := resolve_append cwd p "input/jobid".toList hp
  have e : splitChar '/' "input/jobid".toList = ["input".toList, "jobid".toList] := by decide
  rw [e] at this
  simp only [List.foldl_cons, List.foldl_nil] at this
  rw [pushComponent_valid (c := "input".toList) (by refine ⟨?_, ?_, ?_, ?_⟩ <;> decide),
    pushComponent_valid (by refine ⟨?_, ?_, ?_, ?_⟩ <;> decide)] at this
  simpa using this

theorem resolve_jobslrm : resolve cwd (p ++ "/input/job.slrm".toList) =
    resolve cwd p ++ ["input".toList, "job.slrm".toList] := by
  have := resolve_append cwd p "input/job.slrm".toList hp
  have e : splitChar '/' "input/job.slrm".toList = ["input".toList, "job.slrm".toList] := by decide
  rw [e] at this
  simp only [List.foldl_cons, List.foldl_nil] at this
  rw [pushComponent_valid (c := "input".toList) (by refine ⟨?_, ?_, ?_, ?_⟩ <;> decide),
    pushComponent_valid (by refine ⟨?_, ?_, ?_, ?_⟩ <;> decide)] at this
  simpa using this

theorem resolve_srun {w : Str} (hw : '/' ∉ w) :
    resolve cwd (p ++ "/input/srun-".toList ++ w ++ ".out".toList) =
    resolve cwd p ++ ["input".toList, "srun-".toList ++ w ++ ".out".toList] := by
  have h1 : p ++ "/input/srun-".toList ++ w ++ ".out".toList =
      p ++ '/' :: ("input".toList ++ '/' :: ("srun-".toList ++ w ++ ".out".toList)) := by simp
  have hv : ValidName ("srun-".toList ++ w ++ ".out".toList) := by
    refine ⟨by simp, by simp [hw], by simp, by simp⟩
  rw [h1, resolve_append cwd p _ hp, splitChar_append,
    splitChar_of_notMem (s := "input".toList) (by decide), splitChar_of_notMem hv.2.1]
  simp only [List.cons_append, List.nil_append, List.foldl_cons, List.foldl_nil]
  rw [pushComponent_valid (c := "input".toList) (by refine ⟨?_, ?_, ?_, ?_⟩ <;> decide),
    pushComponent_valid hv]
  simp

end names

theorem isfile_iff (cwd : List Str) (fs : FS) (p : Str) :
    isfile cwd fs p = true ↔ FileAt fs (resolve cwd p) := by
  unfold isfile FileAt
  cases fs (resolve cwd p) with
  | none => simp
  | some n => cases n <;> simp

theorem isfile_false_iff (cwd : List Str) (fs : FS) (p : Str) :
    isfile cwd fs p = false ↔ ¬ FileAt fs (resolve cwd p) := by
  rw [← isfile_iff]
  simp

theorem srunOutput_iff (cwd : List Str) (fs : FS) {p : Str} (hp : p ≠ []) :
    srunOutput cwd fs p ↔ HasOutput fs (resolve cwd p) := by
  unfold srunOutput HasOutput pathExists
  constructor
  · rintro ⟨w, hw, h⟩
    rw [resolve_srun cwd hp hw] at h
    exact ⟨w, hw, by simpa [Option.isSome_iff_ne_none] using h⟩
  · rintro ⟨w, hw, h⟩
    refine ⟨w, hw, ?_⟩
    rw [resolve_srun cwd hp hw]
    simpa [Option.isSome_iff_ne_none] using h

/-! ## C42: the state of a run -/

theorem getState_done {cwd fs trs rundir r} (h : getStateBody cwd fs trs rundir = .done r)
    (r' : Except PyErr RunState) : GetState cwd fs trs rundir r' ↔ r' = r := by
  constructor
  · intro hg
    cases hg with
    | done h' => rw [h] at h'; injection h' with e; exact e.symm
    | ask h' _ => rw [h] at h'; cases h'
  · rintro rfl
    exact .done h

theorem getState_ask {cwd fs trs rundir trs' parent}
    (h : getStateBody cwd fs trs rundir = .ask trs' parent) (r : Except PyErr RunState) :
    GetState cwd fs trs rundir r ↔ GetState cwd fs trs' parent r := by
  constructor
  · intro hg
    cases hg with
    | done h' => rw [h] at h'; cases h'
    | ask h' hr =>
      rw [h] at h'
      injection h' with e1 e2
      rw [e1, e2]
      exact hr
  · exact .ask h

section rules
variable {cwd : List Str} {fs : FS} {trs : List (Str → Str)} {rundir : Str}
  (hr : rundir ≠ []) (r : Except PyErr RunState)
include hr

/-- C42: a directory without configuration is not a run; asking for its state raises. -/
theorem C42_no_config (hc : ¬ FileAt fs (resolve cwd rundir ++ ["config.txt".toList])) :
    GetState cwd fs trs rundir r ↔ r = .error .exception := by
  apply getState_done
  rw [getStateBody, if_pos ((isfile_false_iff _ _ _).2 (by rwa [resolve_config cwd hr]))]

variable (hc : FileAt fs (resolve cwd rundir ++ ["config.txt".toList]))
include hc

/-- C42: with a metadata file, the run is completed. -/
theorem C42_completed (hm : FileAt fs (resolve cwd rundir ++ ["metadata.txt".toList])) :
    GetState cwd fs trs rundir r ↔ r = .ok .Completed := by
  apply getState_done
  rw [getStateBody, if_neg (by
      rw [(isfile_iff _ _ _).2 (by rwa [resolve_config cwd hr])]; simp),
    if_pos ((isfile_iff _ _ _).2 (by rwa [resolve_metadata cwd hr]))]

variable (hm : ¬ FileAt fs (resolve cwd rundir ++ ["metadata.txt".toList]))
include hm

/-- C42: otherwise, with the output of a started job, it is running. -/
theorem C42_running (ho : HasOutput fs (resolve cwd rundir)) :
    GetState cwd fs trs rundir r ↔ r = .ok .Running := by
  apply getState_done
  rw [getStateBody, if_neg (by
      rw [(isfile_iff _ _ _).2 (by rwa [resolve_config cwd hr])]; simp),
    if_neg (by
      rw [(isfile_false_iff _ _ _).2 (by rwa [resolve_metadata cwd hr])]; simp),
    if_pos ((srunOutput_iff cwd fs hr).2 ho)]

variable (ho : ¬ HasOutput fs (resolve cwd rundir))
include ho

/-- C42: otherwise, if it is part of a parent's job, it has the parent's state. The parent's name is
what the file contains, translated; the parent itself is asked without translators. -/
theorem C42_parent {text : Str}
    (hp : fs (resolve cwd rundir ++ ["input".toList, "parent-job-path.txt".toList]) =
      some (.file text)) :
    GetState cwd fs trs rundir r ↔ GetState cwd fs [] (applyTranslators trs text) r := by
  apply getState_ask
  have hpar : hasParentRun cwd fs rundir = true := by
    rw [hasParentRun, isfile_iff, resolve_parent cwd hr]
    exact ⟨text, hp⟩
  rw [getStateBody, if_neg (by
      rw [(isfile_iff _ _ _).2 (by rwa [resolve_config cwd hr])]; simp),
    if_neg (by
      rw [(isfile_false_iff _ _ _).2 (by rwa [resolve_metadata cwd hr])]; simp),
    if_neg (fun h => ho ((srunOutput_iff cwd fs hr).1 h)), if_pos hpar]
  simp only [getParentRun, hpar, if_true, readFile, resolve_parent cwd hr, hp]

variable (hp : ¬ FileAt fs (resolve cwd rundir ++ ["input".toList, "parent-job-path.txt".toList]))
include hp

theorem body_noParent : getStateBody cwd fs trs rundir =
    if pathExists cwd fs (rundir ++ "/input/jobid".toList) then .done (.ok .Submitted)
    else if isfile cwd fs (rundir ++ "/input/job.slrm".toList) then .done (.ok .Ready)
    else .done (.error .exception) := by
  have hpar : hasParentRun cwd fs rundir = false := by
    rw [hasParentRun, isfile_false_iff, resolve_parent cwd hr]
    exact hp
  rw [getStateBody, if_neg (by
      rw [(isfile_iff _ _ _).2 (by rwa [resolve_config cwd hr])]; simp),
    if_neg (by
      rw [(isfile_false_iff _ _ _).2 (by rwa [resolve_metadata cwd hr])]; simp),
    if_neg (fun h => ho ((srunOutput_iff cwd fs hr).1 h)), if_neg (by rw [hpar]; simp)]

/-- C42: otherwise, with a job number, it is submitted. -/
theorem C42_submitted
    (hj : fs (resolve cwd rundir ++ ["input".toList, "jobid".toList]) ≠ none) :
    GetState cwd fs trs rundir r ↔ r = .ok .Submitted := by
  apply getState_done
  rw [body_noParent hr hc hm ho hp, if_pos (by
    rw [pathExists, resolve_jobid cwd hr]; simpa [Option.isSome_iff_ne_none] using hj)]

variable (hj : fs (resolve cwd rundir ++ ["input".toList, "jobid".toList]) = none)
include hj

/-- C42: otherwise, with a job script, it is ready. -/
theorem C42_ready (hs : FileAt fs (resolve cwd rundir ++ ["input".toList, "job.slrm".toList])) :
    GetState cwd fs trs rundir r ↔ r = .ok .Ready := by
  apply getState_done
  rw [body_noParent hr hc hm ho hp, if_neg (by
    rw [pathExists, resolve_jobid cwd hr, hj]; simp),
    if_pos ((isfile_iff _ _ _).2 (by rwa [resolve_jobslrm cwd hr]))]

/-- C42: otherwise asking for its state raises. -/
theorem C42_no_job
    (hs : ¬ FileAt fs (resolve cwd rundir ++ ["input".toList, "job.slrm".toList])) :
    GetState cwd fs trs rundir r ↔ r = .error .exception := by
  apply getState_done
  rw [body_noParent hr hc hm ho hp, if_neg (by
    rw [pathExists, resolve_jobid cwd hr, hj]; simp),
    if_neg (by
      rw [(isfile_false_iff _ _ _).2 (by rwa [resolve_jobslrm cwd hr])]; simp)]

end rules

/-- C42: a call has at most one result. -/
theorem C42_deterministic {cwd fs trs rundir r r'} (h : GetState cwd fs trs rundir r)
    (h' : GetState cwd fs trs rundir r') : r = r' := by
  induction h with
  | done hb => exact ((getState_done hb r').1 h').symm
  | ask hb _ ih => exact ih ((getState_ask hb r').1 h')

/-- C42, termination: `getState` ends for every run if and only if there is no infinite chain of
parents. -/
theorem C42_terminates_iff (cwd : List Str) (fs : FS) :
    (∀ trs rundir, ∃ r, GetState cwd fs trs rundir r) ↔
      ¬ ∃ f : ℕ → List (Str → Str) × Str,
        ∀ n, getStateBody cwd fs (f n).1 (f n).2 = .ask (f (n + 1)).1 (f (n + 1)).2 := by
  constructor
  · rintro h ⟨f, hf⟩
    obtain ⟨r, hr⟩ := h (f 0).1 (f 0).2
    have : ∀ trs rundir r, GetState cwd fs trs rundir r →
        ∀ n, (f n).1 = trs → (f n).2 = rundir → False := by
      intro trs rundir r hg
      induction hg with
      | done hb =>
        rintro n rfl rfl
        rw [hf n] at hb
        cases hb
      | ask hb _ ih =>
        rintro n rfl rfl
        rw [hf n] at hb
        injection hb with e1 e2
        exact ih (n + 1) e1 e2
    exact this _ _ _ hr 0 rfl rfl
  · intro h trs rundir
    by_contra hno
    apply h
    have step : ∀ x : {x : List (Str → Str) × Str // ¬ ∃ r, GetState cwd fs x.1 x.2 r},
        ∃ y : {x : List (Str → Str) × Str // ¬ ∃ r, GetState cwd fs x.1 x.2 r},
          getStateBody cwd fs x.1.1 x.1.2 = .ask y.1.1 y.1.2 := by
      rintro ⟨⟨t, d⟩, hx⟩
      cases hb : getStateBody cwd fs t d with
      | done r => exact absurd ⟨r, .done hb⟩ hx
      | ask t' d' =>
        refine ⟨⟨(t', d'), fun hy => hx ?_⟩, by rfl⟩
        obtain ⟨r, hr⟩ := hy
        exact ⟨r, .ask hb hr⟩
    choose next hnext using step
    refine ⟨fun n => (next^[n] ⟨(trs, rundir), hno⟩).1, fun n => ?_⟩
    have := hnext (next^[n] ⟨(trs, rundir), hno⟩)
    rw [← Function.iterate_succ_apply' next n] at this
    exact this

/-- A file system with the run directory `/r`, which names itself as parent. -/
def selfParentFS : FS := fun l =>
  if l = ["r".toList, "config.txt".toList] then some (.file [])
  else if l = ["r".toList, "input".toList, "parent-job-path.txt".toList] then
    some (.file "/r".toList)
  else if l = ["r".toList, "input".toList] ∨ l = ["r".toList] ∨ l = [] then some .dir
  else none

/-- C42 fails: `getState` does not end for a run which is recorded as its own parent (which the job
script generator does record for a run directory given by a relative name, see `C55_self_parent`). -/
theorem C42_terminates_violated :
    WellFormed selfParentFS ∧ ¬ ∃ r, GetState [] selfParentFS [] "/r".toList r := by
  constructor
  · intro d c h
    by_contra hd
    apply h
    unfold selfParentFS at hd ⊢
    have e1 : d ++ [c] ≠ ["r".toList, "config.txt".toList] := by
      intro e
      apply hd
      have : d = ["r".toList] := List.append_inj_left' (t₂ := ["config.txt".toList]) e rfl
      rw [this]
      decide
    have e2 : d ++ [c] ≠ ["r".toList, "input".toList, "parent-job-path.txt".toList] := by
      intro e
      apply hd
      have : d = ["r".toList, "input".toList] :=
        List.append_inj_left' (t₂ := ["parent-job-path.txt".toList]) e rfl
      rw [this]
      decide
    have e3 : d ++ [c] ≠ ["r".toList, "input".toList] := by
      intro e
      apply hd
      have : d = ["r".toList] := List.append_inj_left' (t₂ := ["input".toList]) e rfl
      rw [this]
      decide
    have e4 : d ++ [c] ≠ ["r".toList] := by
      intro e
      apply hd
      have : d = [] := List.append_inj_left' (t₁ := [c]) (t₂ := ["r".toList]) e rfl
      rw [this]
      decide
    rw [if_neg e1, if_neg e2, if_neg (by
      rintro (h | h | h)
      · exact e3 h
      · exact e4 h
      · exact absurd h (by simp))]
  · rintro ⟨r, hr⟩
    have hres : resolve [] "/r".toList = ["r".toList] := by decide
    have hb : getStateBody [] selfParentFS [] "/r".toList = .ask [] "/r".toList := by
      have h1 : isfile [] selfParentFS ("/r".toList ++ "/config.txt".toList) = true := by decide
      have h2 : isfile [] selfParentFS ("/r".toList ++ "/metadata.txt".toList) = false := by decide
      have h3 : ¬ srunOutput [] selfParentFS "/r".toList := by
        rw [srunOutput_iff [] _ (by simp), hres]
        rintro ⟨w, _, hw⟩
        apply hw
        unfold selfParentFS
        simp
      have h4 : hasParentRun [] selfParentFS "/r".toList = true := by decide
      have h5 : getParentRun [] selfParentFS [] "/r".toList = .ok ([], "/r".toList) := by
        unfold getParentRun
        rw [if_pos h4]
        rfl
      rw [getStateBody, if_neg (by rw [h1]; simp), if_neg (by rw [h2]; simp), if_neg h3, if_pos h4,
        h5]
    have : ∀ trs d r, GetState [] selfParentFS trs d r → trs = [] → d = "/r".toList → False := by
      intro trs d r hg
      induction hg with
      | done h' => rintro rfl rfl; rw [hb] at h'; cases h'
      | ask h' _ ih =>
        rintro rfl rfl
        rw [hb] at h'
        injection h' with a b
        exact ih a.symm b.symm
    exact this _ _ _ hr rfl rfl

/-! ## C43: new run directories -/

/-- C43: whatever exists before the call is the same afterwards, whether the call returns or raises.
-/
theorem C43_existing (cwd : List Str) (fs : FS) (hw : WellFormed fs) (root : Str)
    (pre : Option Str) (comps : List Str) (config : Str) (l : List Str) (hl : fs l ≠ none) :
    (createRundir cwd fs root pre comps config).1 l = fs l := by
  have key : ∀ base name (xs : List ℕ), base ≠ [] →
      (tryNumbers cwd fs base name config xs).1 l = fs l := by
    intro base name xs hb
    induction xs with
    | nil => rfl
    | cons x xs ih =>
      simp only [tryNumbers]
      have hne : candidate base name x ≠ [] := by simp [candidate, hb]
      split
      · exact ih
      · rename_i hex
        have hnone : fs (resolve cwd (candidate base name x)) = none := by
          simpa [pathExists, Option.isSome_iff_ne_none] using hex
        have hlne : l ≠ resolve cwd (candidate base name x) := by
          rintro rfl
          exact hl hnone
        have hlne2 : l ≠ resolve cwd (candidate base name x) ++ ["config.txt".toList] := by
          rintro rfl
          have := hw _ _ hl
          rw [hnone] at this
          cases this
        have hm : (mkdir cwd fs (candidate base name x)).1 l = fs l := by
          unfold mkdir
          simp only
          split
          · rfl
          · exact Function.update_of_ne hlne _ _
        generalize mkdir cwd fs (candidate base name x) = m at hm
        obtain ⟨fs1, res⟩ := m
        cases res with
        | error e => exact hm
        | ok u =>
          have hwr : (writeFile cwd fs1 (candidate base name x ++ "/config.txt".toList) config).1 l =
              fs l := by
            unfold writeFile
            simp only [resolve_config cwd hne]
            split
            · exact hm
            · exact (Function.update_of_ne hlne2 _ _).trans hm
          simp only
          generalize writeFile cwd fs1 (candidate base name x ++ "/config.txt".toList) config = m
            at hwr
          obtain ⟨fs2, res2⟩ := m
          cases res2 <;> exact hwr
  unfold createRundir
  simp only
  split
  · rfl
  · split
    · rfl
    · exact key _ _ _ (by simp)

/-- The name of the directory with number `x`. -/
def numbered (name : Str) (x : ℕ) : Str := name ++ "---".toList ++ zeroPadded 4 x

theorem numbered_valid {name : Str} (h : '/' ∉ name) (x : ℕ) : ValidName (numbered name x) := by
  have hlen : 4 ≤ (numbered name x).length := by
    have := List.length_pos_iff.2 (natStr_ne_nil x)
    simp [numbered, zeroPadded]
    omega
  refine ⟨?_, ?_, ?_, ?_⟩
  · intro e; rw [e] at hlen; simp at hlen
  · simp [numbered, h, zeroPadded_noSlash]
  · intro e; rw [e] at hlen; simp at hlen
  · intro e; rw [e] at hlen; simp at hlen

theorem resolve_candidate (cwd : List Str) {base name : Str} (hb : base ≠ []) (h : '/' ∉ name)
    (x : ℕ) : resolve cwd (candidate base name x) = resolve cwd base ++ [numbered name x] := by
  have : candidate base name x = base ++ '/' :: numbered name x := by
    simp [candidate, numbered]
  rw [this, resolve_append cwd _ _ hb, splitChar_of_notMem (numbered_valid h x).2.1]
  simp only [List.foldl_cons, List.foldl_nil]
  exact pushComponent_valid (numbered_valid h x)

section rundir
variable {cwd : List Str} {fs : FS} {root pre : Str} {comps : List Str} {config : Str}

/-- The name under which the directories are numbered. -/
def joined (pre : Str) (comps : List Str) : Str :=
  comps.foldl (fun acc c => (if acc = [] then acc else acc ++ "---".toList) ++ c) pre

/-- C43: the smallest free number is taken: the directory is created, holds the configuration, and
nothing else changes. -/
theorem C43_created (hw : WellFormed fs)
    (hbase : fs (resolve cwd root ++ ["jobs".toList]) = some .dir) (hroot : root ≠ [])
    (hname : '/' ∉ joined pre comps) {x : ℕ} (hx : x < 10000)
    (hfree : fs (resolve cwd root ++ ["jobs".toList, numbered (joined pre comps) x]) = none)
    (hmin : ∀ y < x, fs (resolve cwd root ++ ["jobs".toList, numbered (joined pre comps) y]) ≠ none) :
    ∃ path, (createRundir cwd fs root (some pre) comps config).2 = .ok (some path) ∧
      resolve cwd path = resolve cwd root ++ ["jobs".toList, numbered (joined pre comps) x] ∧
      (createRundir cwd fs root (some pre) comps config).1 =
        Function.update (Function.update fs (resolve cwd path) (some .dir))
          (resolve cwd path ++ ["config.txt".toList]) (some (.file config)) := by
  have hb : resolve cwd (root ++ "/jobs".toList) = resolve cwd root ++ ["jobs".toList] :=
    resolve_append cwd root "jobs".toList hroot
  have hbne : root ++ "/jobs".toList ≠ [] := by simp
  have hloc : ∀ y, resolve cwd (candidate (root ++ "/jobs".toList) (joined pre comps) y) =
      resolve cwd root ++ ["jobs".toList, numbered (joined pre comps) y] := by
    intro y
    rw [resolve_candidate cwd hbne hname, hb]
    simp
  have hone : tryNumbers cwd fs (root ++ "/jobs".toList) (joined pre comps) config [x] = 
      (Function.update (Function.update fs (resolve cwd root ++
          ["jobs".toList, numbered (joined pre comps) x]) (some .dir))
          (resolve cwd root ++ ["jobs".toList, numbered (joined pre comps) x] ++
            ["config.txt".toList]) (some (.file config)),
        .ok (some (candidate (root ++ "/jobs".toList) (joined pre comps) x))) := by
    have hcne : candidate (root ++ "/jobs".toList) (joined pre comps) x ≠ [] := by
      simp [candidate]
    have hchild : fs (resolve cwd root ++ ["jobs".toList, numbered (joined pre comps) x] ++
            ["config.txt".toList]) = none := by
      by_contra hne
      have := hw _ _ hne
      rw [hfree] at this
      cases this
    have hdl : (resolve cwd root ++ ["jobs".toList, numbered (joined pre comps) x]).dropLast =
        resolve cwd root ++ ["jobs".toList] := by
      rw [List.dropLast_append_of_ne_nil (by simp)]
      rfl
    have hex : pathExists cwd fs (candidate (root ++ "/jobs".toList) (joined pre comps) x) = false := by
      rw [pathExists, hloc, hfree]
      rfl
    have hmk : mkdir cwd fs (candidate (root ++ "/jobs".toList) (joined pre comps) x) =
        (Function.update fs (resolve cwd root ++
          ["jobs".toList, numbered (joined pre comps) x]) (some .dir), .ok ()) := by
      rw [mkdir, hloc, hdl, hbase, hfree, if_neg (by simp)]
    rw [tryNumbers]
    simp only [hex, Bool.false_eq_true, if_false]
    rw [hmk]
    simp only
    rw [writeFile, resolve_config cwd hcne, hloc]
    rw [Function.update_of_ne (by simp), hchild, List.dropLast_concat, Function.update_self,
      if_neg (by simp)]
  have htry : ∀ (xs ys : List ℕ), (∀ y ∈ xs, y < x) →
      tryNumbers cwd fs (root ++ "/jobs".toList) (joined pre comps) config (xs ++ x :: ys) =
      tryNumbers cwd fs (root ++ "/jobs".toList) (joined pre comps) config [x] := by
    intro xs ys hxs
    induction xs with
    | nil =>
      rw [List.nil_append, tryNumbers, tryNumbers]
      have : pathExists cwd fs (candidate (root ++ "/jobs".toList) (joined pre comps) x) = false := by
        rw [pathExists, hloc, hfree]
        rfl
      simp only [this, Bool.false_eq_true, if_false]
    | cons y xs ih =>
      rw [List.cons_append, tryNumbers]
      have : pathExists cwd fs (candidate (root ++ "/jobs".toList) (joined pre comps) y) = true := by
        rw [pathExists, hloc, Option.isSome_iff_ne_none]
        exact hmin y (hxs y (by simp))
      simp only [this, if_true]
      exact ih (fun z hz => hxs z (by simp [hz]))
  have hrange : List.range (10 ^ 4) =
      List.range x ++ x :: (List.range (10 ^ 4 - x - 1)).map (x + 1 + ·) := by
    have h1 : (10 : ℕ) ^ 4 = x + 1 + (10 ^ 4 - x - 1) := by omega
    conv_lhs => rw [h1, List.range_add, List.range_succ]
    simp
  have hall : createRundir cwd fs root (some pre) comps config =
      tryNumbers cwd fs (root ++ "/jobs".toList) (joined pre comps) config [x] := by
    unfold createRundir
    simp only [isdir, hb, hbase, decide_true, Bool.true_eq_false, if_false, rundirName]
    rw [hrange]
    exact htry _ _ (fun y hy => List.mem_range.1 hy)
  refine ⟨candidate (root ++ "/jobs".toList) (joined pre comps) x, ?_, hloc x, ?_⟩
  · rw [hall, hone]
  · rw [hall, hone, hloc x]

/-- C43: with all ten thousand numbers taken, nothing is created and the call returns `None`. -/
theorem C43_full (hbase : fs (resolve cwd root ++ ["jobs".toList]) = some .dir) (hroot : root ≠ [])
    (hname : '/' ∉ joined pre comps)
    (hall : ∀ y < 10000,
      fs (resolve cwd root ++ ["jobs".toList, numbered (joined pre comps) y]) ≠ none) :
    createRundir cwd fs root (some pre) comps config = (fs, .ok none) := by
  have hb : resolve cwd (root ++ "/jobs".toList) = resolve cwd root ++ ["jobs".toList] :=
    resolve_append cwd root "jobs".toList hroot
  have hbne : root ++ "/jobs".toList ≠ [] := by simp
  have hloc : ∀ y, resolve cwd (candidate (root ++ "/jobs".toList) (joined pre comps) y) =
      resolve cwd root ++ ["jobs".toList, numbered (joined pre comps) y] := by
    intro y
    rw [resolve_candidate cwd hbne hname, hb]
    simp
  have htry : ∀ (xs : List ℕ), (∀ y ∈ xs, y < 10000) →
      tryNumbers cwd fs (root ++ "/jobs".toList) (joined pre comps) config xs = (fs, .ok none) := by
    intro xs hxs
    induction xs with
    | nil => rfl
    | cons y xs ih =>
      rw [tryNumbers]
      have : pathExists cwd fs (candidate (root ++ "/jobs".toList) (joined pre comps) y) = true := by
        rw [pathExists, hloc, Option.isSome_iff_ne_none]
        exact hall y (hxs y (by simp))
      simp only [this, if_true]
      exact ih (fun z hz => hxs z (by simp [hz]))
  unfold createRundir
  simp only [isdir, hb, hbase, decide_true, Bool.true_eq_false, if_false, rundirName]
  exact htry _ (fun y hy => by have := List.mem_range.1 hy; omega)

/-- The number is written with exactly four digits, and different numbers are different names. -/
theorem C43_names (name : Str) {x y : ℕ} (hx : x < 10000) :
    (numbered name x).length = name.length + 7 ∧ (numbered name x = numbered name y → x = y) := by
  constructor
  · simp only [numbered, List.length_append]
    rw [zeroPadded_length (w := 4) (by norm_num) (by simpa using hx)]
    rfl
  · intro h
    exact zeroPadded_inj (List.append_cancel_left h)

/-- Without base directory, the call raises and changes nothing. -/
theorem C43_no_base (hbase : fs (resolve cwd root ++ ["jobs".toList]) ≠ some .dir)
    (hroot : root ≠ []) (p : Option Str) :
    createRundir cwd fs root p comps config = (fs, .error .valueError) := by
  have hb : resolve cwd (root ++ "/jobs".toList) = resolve cwd root ++ ["jobs".toList] :=
    resolve_append cwd root "jobs".toList hroot
  unfold createRundir
  simp only [isdir, hb, hbase, decide_false, if_true]

/-- C43 fails for projects without `rundirNamePrefix`: although the code provides for its absence, the
call then always raises `TypeError`. -/
theorem C43_no_prefix_violated (hbase : fs (resolve cwd root ++ ["jobs".toList]) = some .dir)
    (hroot : root ≠ []) :
    createRundir cwd fs root none comps config = (fs, .error .typeError) := by
  have hb : resolve cwd (root ++ "/jobs".toList) = resolve cwd root ++ ["jobs".toList] :=
    resolve_append cwd root "jobs".toList hroot
  unfold createRundir
  simp only [isdir, hb, hbase, decide_true, Bool.true_eq_false, if_false, rundirName]

end rundir

/-- The hypotheses of `C43_created` can be met: a project directory in which number 0 is taken. -/
example : ∃ (fs : FS) (root pre : Str) (comps : List Str) (x : ℕ), root ≠ [] ∧ x = 1 ∧
    fs (resolve [] root ++ ["jobs".toList]) = some .dir ∧ '/' ∉ joined pre comps ∧
    fs (resolve [] root ++ ["jobs".toList, numbered (joined pre comps) x]) = none ∧
    ∀ y < x, fs (resolve [] root ++ ["jobs".toList, numbered (joined pre comps) y]) ≠ none := by
  refine ⟨fun l => if l = ["p".toList, "jobs".toList] ∨
      l = ["p".toList, "jobs".toList, "L10---0000".toList] then some .dir else none,
    "/p".toList, "L10".toList, [], 1, by simp, rfl, by decide, by decide, by decide, by decide⟩

/-! ## C45: path translators -/

/-- What the configured translators do together: the last one, as often as there are translators. -/
theorem C45_actual (config : List Translator) (last : Translator)
    (h : config.getLast? = some last) (s : Str) :
    applyTranslators (pathTranslatorsServerToLocal config) s =
      (fun x => pyReplace last.server last.loc x)^[config.length] s := by
  have key : ∀ (c : List Translator) (s : Str),
      applyTranslators ((createdClosures c).map (fun f => f last)) s =
      (fun x => pyReplace last.server last.loc x)^[c.length] s := by
    intro c
    induction c with
    | nil => intro s; rfl
    | cons t c ih =>
      intro s
      rw [List.length_cons, Function.iterate_succ_apply, ← ih]
      rfl
  rw [pathTranslatorsServerToLocal, h]
  exact key config s

/-- C45 for at most one configured translator: it is applied as configured.

What is missing for the full statement: two or more different translators, where it is false, see
`C45_violated`. -/
theorem C45_partial (config : List Translator) (h : config.length ≤ 1) (s : Str) :
    applyTranslators (pathTranslatorsServerToLocal config) s = translateAll config s := by
  match config, h with
  | [], _ => rfl
  | [t], _ => rfl

/-- C45 fails: of two configured translators, the first is never applied. -/
theorem C45_violated : ∃ (config : List Translator) (s : Str), config.length = 2 ∧
    translateAll config s = "/local/a/x".toList ∧
    applyTranslators (pathTranslatorsServerToLocal config) s = s ∧ s = "/server/a/x".toList :=
  ⟨[⟨"/server/a".toList, "/local/a".toList⟩, ⟨"/server/b".toList, "/local/b".toList⟩],
    "/server/a/x".toList, by decide, by decide, by decide, rfl⟩

/-- C45, the project's own translator: a path in the local root becomes the path in the server's
root, any other path is unchanged. -/
theorem C45_project (localroot serverroot : Str) :
    (∀ rest, projectPathTranslator localroot serverroot (localroot ++ rest) = serverroot ++ rest) ∧
    (∀ p, ¬ localroot <+: p → projectPathTranslator localroot serverroot p = p) := by
  constructor
  · intro rest
    unfold projectPathTranslator
    rw [if_pos (by rw [List.isPrefixOf_iff_prefix]; exact ⟨rest, rfl⟩)]
    simp
  · intro p hp
    unfold projectPathTranslator
    rw [if_neg (by rwa [List.isPrefixOf_iff_prefix])]

/-- C45: translating the server's path of something in a local root back gives the local path, for one
configured translator, as long as the rest of the path does not mention the server's root again. -/
theorem C45_back (localroot serverroot rest : Str) (hs : serverroot ≠ [])
    (hrest : ¬ serverroot <:+: rest) :
    applyTranslators (pathTranslatorsServerToLocal [⟨serverroot, localroot⟩])
      (projectPathTranslator localroot serverroot (localroot ++ rest)) = localroot ++ rest := by
  rw [(C45_project localroot serverroot).1, C45_partial _ (by simp)]
  simp only [translateAll, List.foldl_cons, List.foldl_nil]
  rw [pyReplace_prefix hs, pyReplace_of_not_infix hs _ _ hrest]

example : ∃ serverroot rest : Str, serverroot ≠ [] ∧ ¬ serverroot <:+: rest :=
  ⟨"/srv".toList, "/jobs/x---0000".toList, by decide, by decide⟩

end OpenMPCD.Runs
