import Verif.Sim.Main
import Verif.Runs.Props

/-!
# The run directory: creation, saving, and what the analysis makes of it
-/

set_option linter.unusedSectionVars false
set_option linter.unusedSimpArgs false

namespace OpenMPCD.Sim

open Runs Runs.Spec

variable {K : Type} [Field K]

/-! ## Model -/

open Classical in
/-- `createRundir` (`src/OpenMPCD/main.cpp:37-71`) for the given or generated name of the run
directory; returns the path of the configuration file found there, if any. Simplifications: the
exceptions of `boost::filesystem` and of OpenMPCD are not distinguished; permissions and disk space
are not modelled. -/
noncomputable def createRundir (cwd : List Str) (fs : FS) (rundir : Str) :
    FS × Except PyErr (Option Str) :=
  let loc := resolve cwd rundir
  if pathExists cwd fs rundir then
    if isdir cwd fs rundir then
      if ∃ name, fs (loc ++ [name]) ≠ none ∧ name ≠ "config.txt".toList ∧ name ≠ "input".toList then
        (fs, .error .exception)
      else if fs (loc ++ ["config.txt".toList]) ≠ none then
        (fs, .ok (some (rundir ++ "/config.txt".toList)))
      else (fs, .ok none)
    else (fs, .error .exception)
  else if fs loc.dropLast ≠ some .dir then (fs, .error .exception)
  else (Function.update fs loc (some .dir), .ok none)

/-- The name of the run directory if none is given (`src/OpenMPCD/main.cpp:42-46`): the current
date and time, `%F_%T`, i.e. in full seconds (`src/OpenMPCD/main.cpp:24-35`). -/
def defaultRundir (format : ℕ → Str) (seconds : ℕ) : Str := "runs/".toList ++ format seconds

/-- The beginning of `metadata.txt` (`src/OpenMPCD/CUDA/Instrumentation.cpp:152`). -/
def metadataKey : Str := "numberOfCompletedSweeps: ".toList

/-- The text of `metadata.txt` (`src/OpenMPCD/CUDA/Instrumentation.cpp:150-171`); `rest` are the
further lines. -/
def metadata (numberOfCompletedSweeps : ℕ) (rest : Str) : Str :=
  metadataKey ++ natStr numberOfCompletedSweeps ++ '\n' :: rest

/-- What `save` writes apart from `metadata.txt` and `config.txt`: names relative to the directory,
and contents. -/
abbrev Results := List (List Str × Str)

open Classical in
/-- `Instrumentation::save` (`src/OpenMPCD/CUDA/Instrumentation.cpp:120-174`) and `saveStaticData`
(`src/OpenMPCD/CUDA/Instrumentation.cpp:291-311`). Simplifications: creating subdirectories is left
out; all files are written. -/
noncomputable def save (loc : List Str) (results : Results) (config rest : Str) (k : ℕ) (fs : FS) :
    FS :=
  let fs := results.foldl (fun fs r => Function.update fs (loc ++ r.1) (some (.file r.2))) fs
  let fs := Function.update fs (loc ++ ["metadata.txt".toList]) (some (.file (metadata k rest)))
  if fs (loc ++ ["config.txt".toList]) = none then
    Function.update fs (loc ++ ["config.txt".toList]) (some (.file config))
  else fs

/-- What a run writes: `results`, `rest` and the name of an early save's directory may depend on
everything that has happened. -/
structure Output (K : Type) where
  config : Str
  rest : List (Event K) → Str
  results : List (Event K) → Results
  date : List (Event K) → Str

/-- The effect of an event on the file system (`src/OpenMPCD/main.cpp:196-202`,
`src/OpenMPCD/CUDA/Instrumentation.cpp:104-108`). -/
noncomputable def applyEvent (o : Output K) (loc : List Str) (h : List (Event K)) (fs : FS) :
    Event K → FS
  | .saved .rundir k => save loc (o.results h) o.config (o.rest h) k fs
  | .saved .early k =>
    let dir := loc ++ ["EarlySave_".toList ++ o.date h]
    save dir (o.results h) o.config (o.rest h) k (Function.update fs dir (some .dir))
  | _ => fs

/-- The effect of a history. -/
noncomputable def applyTrace (o : Output K) (loc : List Str) (fs : FS) :
    List (Event K) → List (Event K) → FS
  | _, [] => fs
  | h, x :: xs => applyTrace o loc (applyEvent o loc h fs x) (h ++ [x]) xs

/-- `Run.getNumberOfCompletedSweeps` (`Analysis/MPCDAnalysis/Run.py:149-165`). Simplification: of
YAML only the form in which the simulation writes the number. -/
def getNumberOfCompletedSweeps (cwd : List Str) (fs : FS) (rundir : Str) : Except PyErr ℕ :=
  match fs (resolve cwd (rundir ++ "/metadata.txt".toList)) with
  | some (.file text) =>
    if metadataKey.isPrefixOf text then
      .ok (digitsValue ((text.drop metadataKey.length).takeWhile (· ≠ '\n')))
    else .error .keyError
  | _ => .ok 0

/-! ## Proofs -/

/-- The names of results do not begin with a name which may be in the run directory at the
beginning (`src/OpenMPCD/CUDA/Instrumentation.cpp:122-145,294,302,309`). -/
def Output.Lawful (o : Output K) : Prop :=
  (∀ h, ∀ r ∈ o.results h, ∃ x xs, r.1 = x :: xs ∧
    x ≠ "config.txt".toList ∧ x ≠ "input".toList ∧ x ≠ "metadata.txt".toList)

theorem foldl_results (loc : List Str) (results : Results) (fs : FS) (l : List Str)
    (hl : ∀ r ∈ results, loc ++ r.1 ≠ l) :
    results.foldl (fun fs r => Function.update fs (loc ++ r.1) (some (.file r.2))) fs l = fs l := by
  induction results generalizing fs with
  | nil => rfl
  | cons r rs ih =>
    rw [List.foldl_cons, ih _ (fun x hx => hl x (by simp [hx])),
      Function.update_of_ne (hl r (by simp)).symm]

/-- `save` changes nothing but the results, the metadata and a missing configuration. -/
theorem save_other (loc : List Str) (results : Results) (config rest : Str) (k : ℕ) (fs : FS)
    (l : List Str) (h1 : ∀ r ∈ results, loc ++ r.1 ≠ l) (h2 : l ≠ loc ++ ["metadata.txt".toList])
    (h3 : l = loc ++ ["config.txt".toList] → fs l ≠ none) :
    save loc results config rest k fs l = fs l := by
  unfold save
  have h0 := foldl_results loc results fs l h1
  by_cases hl : l = loc ++ ["config.txt".toList]
  · have hn := h3 hl
    rw [if_neg]
    · rw [Function.update_of_ne h2, h0]
    · rw [← hl, Function.update_of_ne h2, h0]
      exact hn
  · split
    · rw [Function.update_of_ne hl, Function.update_of_ne h2, h0]
    · rw [Function.update_of_ne h2, h0]

theorem metadata_ne_config (loc : List Str) :
    loc ++ ["metadata.txt".toList] ≠ loc ++ ["config.txt".toList] := by
  simp

theorem save_metadata (loc : List Str) (results : Results) (config rest : Str) (k : ℕ) (fs : FS) :
    save loc results config rest k fs (loc ++ ["metadata.txt".toList]) =
      some (.file (metadata k rest)) := by
  unfold save
  split
  · rw [Function.update_of_ne (metadata_ne_config loc), Function.update_self]
  · rw [Function.update_self]

theorem save_config (loc : List Str) (results : Results) (config rest : Str) (k : ℕ) (fs : FS)
    (hr : ∀ r ∈ results, loc ++ r.1 ≠ loc ++ ["config.txt".toList])
    (hc : fs (loc ++ ["config.txt".toList]) = none ∨ FileAt fs (loc ++ ["config.txt".toList])) :
    FileAt (save loc results config rest k fs) (loc ++ ["config.txt".toList]) := by
  unfold save
  dsimp only
  have h0 := foldl_results loc results fs _ hr
  split
  · exact ⟨config, by rw [Function.update_self]⟩
  · rename_i hne
    rw [Function.update_of_ne (metadata_ne_config loc).symm, h0] at hne
    rcases hc with hc | ⟨t, hc⟩
    · exact absurd hc hne
    · exact ⟨t, by rw [Function.update_of_ne (metadata_ne_config loc).symm, h0, hc]⟩

theorem takeWhile_natStr (k : ℕ) (rest : Str) :
    (natStr k ++ '\n' :: rest).takeWhile (· ≠ '\n') = natStr k := by
  rw [List.takeWhile_append_of_pos]
  · simp
  · intro c hc
    have := natStr_digits k c hc
    simp only [ne_eq, decide_not, Bool.not_eq_eq_eq_not, Bool.not_true, decide_eq_false_iff_not]
    rintro rfl
    exact absurd this (by decide)

/-- What the analysis reads from the metadata. -/
theorem getNumber_metadata {cwd : List Str} {fs : FS} {rundir : Str} (hr : rundir ≠ []) {k : ℕ} {rest : Str}
    (h : fs (resolve cwd rundir ++ ["metadata.txt".toList]) = some (.file (metadata k rest))) :
    getNumberOfCompletedSweeps cwd fs rundir = .ok k := by
  unfold getNumberOfCompletedSweeps
  rw [resolve_metadata cwd hr, h]
  have h1 : metadataKey.isPrefixOf (metadata k rest) = true := by
    rw [List.isPrefixOf_iff_prefix, metadata, List.append_assoc]
    exact List.prefix_append _ _
  simp only [h1, if_true]
  rw [metadata, List.append_assoc, List.drop_left, takeWhile_natStr, digitsValue_natStr]

theorem applyTrace_append (o : Output K) (loc : List Str) (fs : FS) (h xs ys : List (Event K)) :
    applyTrace o loc fs h (xs ++ ys) = applyTrace o loc (applyTrace o loc fs h xs) (h ++ xs) ys := by
  induction xs generalizing fs h with
  | nil => simp [applyTrace]
  | cons x xs ih => simp [applyTrace, ih]

/-- An event which is not the final save changes nothing at locations which are not below a
directory for early saves. -/
theorem applyTrace_other (o : Output K) (loc : List Str) (fs : FS) (h tr : List (Event K))
    (htr : ∀ k, Event.saved .rundir k ∉ tr) (l : List Str)
    (hl : ∀ d : Str, ¬ loc ++ ["EarlySave_".toList ++ d] <+: l) :
    applyTrace o loc fs h tr l = fs l := by
  induction tr generalizing fs h with
  | nil => rfl
  | cons x xs ih =>
    rw [applyTrace, ih _ _ (fun k hk => htr k (by simp [hk]))]
    cases x with
    | step => rfl
    | sweep => rfl
    | measured t => rfl
    | saved t k =>
      cases t with
      | rundir => exact absurd (by simp) (htr k)
      | early =>
        have hd := hl (o.date h)
        simp only [applyEvent]
        rw [save_other]
        · rw [Function.update_of_ne]
          rintro rfl
          exact hd List.prefix_rfl
        · rintro r - rfl
          exact hd (List.prefix_append _ _)
        · rintro rfl
          exact hd (List.prefix_append _ _)
        · rintro rfl
          exact absurd (List.prefix_append _ _) hd

theorem direct_not_early (loc : List Str) (name : Str) (hn : ¬ "EarlySave_".toList <+: name) (d : Str) :
    ¬ loc ++ ["EarlySave_".toList ++ d] <+: loc ++ [name] := by
  rw [List.prefix_append_right_inj]
  intro h
  obtain ⟨t, ht⟩ := h
  simp at ht
  exact hn ⟨d, by simpa using ht.1⟩

/-! ## C69: results of other runs are not overwritten -/

/-- What a successful `createRundir` finds and leaves. -/
theorem createRundir_ok {cwd : List Str} {fs fs' : FS} {rundir : Str} {config : Option Str}
    (hwf : Spec.WellFormed fs) (h : createRundir cwd fs rundir = (fs', .ok config)) :
    (∀ l, fs l ≠ none → fs' l = fs l) ∧
      ∀ name, fs (resolve cwd rundir ++ [name]) ≠ none →
        name = "config.txt".toList ∨ name = "input".toList := by
  unfold createRundir at h
  dsimp only at h
  by_cases h1 : pathExists cwd fs rundir = true
  · rw [if_pos h1] at h
    by_cases h2 : isdir cwd fs rundir = true
    · rw [if_pos h2] at h
      by_cases h3 : ∃ name, fs (resolve cwd rundir ++ [name]) ≠ none ∧ name ≠ "config.txt".toList ∧
          name ≠ "input".toList
      · rw [if_pos h3] at h
        simp at h
      · rw [if_neg h3] at h
        have hfs : fs' = fs := by
          by_cases h4 : fs (resolve cwd rundir ++ ["config.txt".toList]) ≠ none
          · rw [if_pos h4] at h
            exact (congrArg Prod.fst h).symm
          · rw [if_neg h4] at h
            exact (congrArg Prod.fst h).symm
        subst hfs
        refine ⟨fun l _ => rfl, fun name hn => ?_⟩
        by_contra hcon
        rw [not_or] at hcon
        exact h3 ⟨name, hn, hcon.1, hcon.2⟩
    · rw [if_neg h2] at h
      simp at h
  · rw [if_neg h1] at h
    have hnone : fs (resolve cwd rundir) = none := by
      simpa [pathExists] using h1
    by_cases h2 : fs (resolve cwd rundir).dropLast ≠ some .dir
    · rw [if_pos h2] at h
      simp at h
    · rw [if_neg h2] at h
      have hfs := (congrArg Prod.fst h).symm
      dsimp only at hfs
      subst hfs
      refine ⟨fun l hl => ?_, fun name hn => ?_⟩
      · rw [Function.update_of_ne]
        rintro rfl
        exact hl hnone
      · rw [hwf _ _ hn] at hnone
        simp at hnone

/-- Whatever exists below a location that exists in a well-formed file system: the locations above
exist. -/
theorem exists_above {fs : FS} (hwf : Spec.WellFormed fs) (d e : List Str) (h : fs (d ++ e) ≠ none) :
    fs d ≠ none := by
  induction e using List.reverseRecOn with
  | nil => simpa using h
  | append_singleton e x ih =>
    apply ih
    rw [← List.append_assoc] at h
    rw [hwf _ _ h]
    simp

theorem applyTrace_preserves (o : Output K) (ho : o.Lawful) (loc : List Str) {fs : FS}
    (hwf : Spec.WellFormed fs)
    (hn : ∀ name, fs (loc ++ [name]) ≠ none → name = "config.txt".toList ∨ name = "input".toList)
    (l : List Str) (hl : fs l ≠ none) (h tr : List (Event K)) (fs' : FS) (hfs : fs' l = fs l) :
    applyTrace o loc fs' h tr l = fs l := by
  have hbelow : ∀ x xs, x ≠ "config.txt".toList → x ≠ "input".toList → loc ++ x :: xs ≠ l := by
    rintro x xs h1 h2 rfl
    have : fs (loc ++ [x]) ≠ none := exists_above hwf (loc ++ [x]) xs (by simpa using hl)
    rcases hn x this with h3 | h3
    · exact h1 h3
    · exact h2 h3
  have hmeta : l ≠ loc ++ ["metadata.txt".toList] :=
    (hbelow "metadata.txt".toList [] (by decide) (by decide)).symm
  have hearly : ∀ d xs, loc ++ ["EarlySave_".toList ++ d] ++ xs ≠ l := by
    intro d xs
    have := hbelow ("EarlySave_".toList ++ d) xs (by simp) (by simp)
    simpa using this
  induction tr generalizing fs' h with
  | nil => exact hfs
  | cons x xs ih =>
    rw [applyTrace]
    apply ih
    cases x with
    | step => exact hfs
    | sweep => exact hfs
    | measured t => exact hfs
    | saved t k =>
      cases t with
      | rundir =>
        rw [applyEvent, save_other, hfs]
        · rintro r hr
          obtain ⟨y, ys, h1, h2, h3, -⟩ := ho h r hr
          rw [h1]
          exact hbelow y ys h2 h3
        · exact hmeta
        · intro _
          rw [hfs]
          exact hl
      | early =>
        simp only [applyEvent]
        rw [save_other]
        · rw [Function.update_of_ne, hfs]
          rintro rfl
          exact hearly (o.date h) [] (by simp)
        · intro r hr
          exact hearly _ _
        · exact (hearly _ _).symm
        · intro hh
          exact absurd hh.symm (hearly _ _)

/-- C69, as far as it holds: a run which is given a run directory, or creates one, changes no file
which existed before, whatever happens during the run and whenever it is killed (`pre` is the
history until then). -/
theorem C69_partial {cwd : List Str} {fs fs' : FS} {rundir : Str} {config : Option Str}
    (hwf : Spec.WellFormed fs) (hcr : createRundir cwd fs rundir = (fs', .ok config))
    (o : Output K) (ho : o.Lawful) (pre : List (Event K)) (l : List Str) (hl : fs l ≠ none) :
    applyTrace o (resolve cwd rundir) fs' [] pre l = fs l := by
  obtain ⟨h1, h2⟩ := createRundir_ok hwf hcr
  exact applyTrace_preserves o ho _ hwf h2 l hl [] pre fs' (h1 l hl)

/-- C69: a directory in which a run has saved is not accepted again. -/
theorem C69_rejected {cwd : List Str} {fs : FS} {rundir : Str} (hwf : Spec.WellFormed fs)
    (h : fs (resolve cwd rundir ++ ["metadata.txt".toList]) ≠ none) :
    createRundir cwd fs rundir = (fs, .error .exception) := by
  have hd := hwf _ _ h
  unfold createRundir
  dsimp only
  rw [if_pos (by simp [pathExists, hd]), if_pos (by simp [isdir, hd]),
    if_pos ⟨"metadata.txt".toList, h, by decide, by decide⟩]

/-- C69: a directory containing anything but `config.txt` and `input` is not accepted. -/
theorem C69_foreign {cwd : List Str} {fs : FS} {rundir name : Str} (hwf : Spec.WellFormed fs)
    (h : fs (resolve cwd rundir ++ [name]) ≠ none) (h1 : name ≠ "config.txt".toList)
    (h2 : name ≠ "input".toList) :
    createRundir cwd fs rundir = (fs, .error .exception) := by
  have hd := hwf _ _ h
  unfold createRundir
  dsimp only
  rw [if_pos (by simp [pathExists, hd]), if_pos (by simp [isdir, hd]), if_pos ⟨name, h, h1, h2⟩]

/-- The file system of the counterexample: there is a directory `runs`. -/
def emptyRuns : FS := fun l => if l = [] ∨ l = ["runs".toList] then some .dir else none

theorem emptyRuns_wf : Spec.WellFormed emptyRuns := by
  intro d c h
  simp only [emptyRuns, ne_eq, ite_eq_right_iff, reduceCtorEq, imp_false, not_not] at h ⊢
  rcases h with h | h
  · simp at h
  · have : d ++ [c] = [] ++ ["runs".toList] := h
    obtain ⟨rfl, -⟩ := List.append_inj' this rfl
    simp

/-- C69 does not hold for runs which are started one after the other before the first one saves,
such as two runs started in the same second without naming a directory: both are accepted with the
same directory, and the second one to finish replaces the results of the first. -/
theorem C69_violated (format : ℕ → Str) (seconds : ℕ) (hf : ValidName (format seconds))
    (c : Config K) (hc : c.sweepCount < 2 ^ 32) (e₁ e₂ : Env K) (o₁ o₂ : Output K) :
    let rundir := defaultRundir format seconds
    ∃ fs', createRundir [] emptyRuns rundir = (fs', .ok none) ∧
      createRundir [] fs' rundir = (fs', .ok none) ∧
      ∃ k, (applyTrace o₂ (resolve [] rundir) (applyTrace o₁ (resolve [] rundir) fs' [] (run c e₁).1)
          [] (run c e₂).1) (resolve [] rundir ++ ["metadata.txt".toList]) =
        some (.file (metadata k (o₂.rest (run c e₂).1.dropLast))) := by
  intro rundir
  have hres : resolve [] rundir = ["runs".toList, format seconds] := by
    have h1 : rundir = "runs".toList ++ '/' :: format seconds := by simp [rundir, defaultRundir]
    rw [h1, resolve_append [] _ _ (by simp), splitChar_of_notMem hf.2.1]
    simp only [List.foldl_cons, List.foldl_nil]
    rw [pushComponent_valid hf]
    have : resolve [] "runs".toList = ["runs".toList] := by decide
    rw [this]
    rfl
  have hne : ∀ name, emptyRuns (["runs".toList, format seconds] ++ [name]) = none := by
    intro name; simp [emptyRuns]
  have h0 : emptyRuns ["runs".toList, format seconds] = none := by simp [emptyRuns]
  refine ⟨Function.update emptyRuns ["runs".toList, format seconds] (some .dir), ?_, ?_, ?_⟩
  · unfold createRundir
    dsimp only
    rw [hres, if_neg (by unfold pathExists; rw [hres, h0]; simp), if_neg (by simp [emptyRuns])]
  · unfold createRundir
    dsimp only
    rw [hres, if_pos (by simp [pathExists, hres]), if_pos (by simp [isdir, hres])]
    have h2 : ∀ name, Function.update emptyRuns ["runs".toList, format seconds] (some .dir)
        (["runs".toList, format seconds] ++ [name]) = none := by
      intro name
      rw [Function.update_of_ne (by simp), hne]
    rw [if_neg (by rintro ⟨name, h, -⟩; exact h (h2 name)), if_neg (by rw [h2]; simp)]
  · obtain ⟨tr, h1, -⟩ := run_spec (e := e₂) hc
    refine ⟨sweeps tr, ?_⟩
    rw [h1, applyTrace_append]
    simp only [applyTrace, applyEvent, List.nil_append, List.dropLast_concat]
    rw [save_metadata]

/-! ## C70: what the analysis reports about a run -/

/-- C70: after the program has ended, in whichever way short of being killed, the analysis reports
the number of sweeps actually performed. -/
theorem C70_sweeps (cwd : List Str) (fs : FS) {rundir : Str} (hr : rundir ≠ [])
    (c : Config K) (hc : c.sweepCount < 2 ^ 32) (e : Env K) (o : Output K) :
    getNumberOfCompletedSweeps cwd (applyTrace o (resolve cwd rundir) fs [] (run c e).1) rundir =
      .ok (sweeps (run c e).1) := by
  obtain ⟨tr, h1, -⟩ := run_spec (e := e) hc
  rw [h1, applyTrace_append]
  simp only [applyTrace, applyEvent, List.nil_append]
  rw [getNumber_metadata hr (save_metadata _ _ _ _ _ _)]
  simp [Event.isSweep]

theorem not_early_config : ¬ "EarlySave_".toList <+: "config.txt".toList := by decide
theorem not_early_metadata : ¬ "EarlySave_".toList <+: "metadata.txt".toList := by decide

/-- C70: and it reports the run to be completed. -/
theorem C70_completed (cwd : List Str) (fs : FS) (trs : List (Str → Str)) {rundir : Str} (hr : rundir ≠ [])
    (hcfg : fs (resolve cwd rundir ++ ["config.txt".toList]) = none ∨
      FileAt fs (resolve cwd rundir ++ ["config.txt".toList]))
    (c : Config K) (hc : c.sweepCount < 2 ^ 32) (e : Env K) (o : Output K) (ho : o.Lawful)
    (r : Except PyErr RunState) :
    GetState cwd (applyTrace o (resolve cwd rundir) fs [] (run c e).1) trs rundir r ↔
      r = .ok .Completed := by
  obtain ⟨tr, h1, -, h3, -⟩ := run_spec (e := e) hc
  have hsame := applyTrace_other o (resolve cwd rundir) fs [] tr h3
    (resolve cwd rundir ++ ["config.txt".toList]) (direct_not_early _ _ not_early_config)
  apply C42_completed hr
  · rw [h1, applyTrace_append]
    simp only [applyTrace, applyEvent]
    apply save_config
    · intro x hx
      obtain ⟨y, ys, h1, h2, -⟩ := ho _ x hx
      rw [h1]
      simp
      intro h
      exact absurd h h2
    · unfold FileAt at hcfg ⊢
      rw [hsame]
      exact hcfg
  · rw [h1, applyTrace_append]
    simp only [applyTrace, applyEvent]
    exact ⟨_, save_metadata _ _ _ _ _ _⟩

/-- C70: as long as the program runs, and if it is killed, the run is not reported to be completed,
even if results have been saved early. -/
theorem C70_not_completed (cwd : List Str) (fs : FS) (trs : List (Str → Str)) {rundir : Str} (hr : rundir ≠ [])
    (hcfg : FileAt fs (resolve cwd rundir ++ ["config.txt".toList]))
    (hmeta : fs (resolve cwd rundir ++ ["metadata.txt".toList]) = none)
    (hout : HasOutput fs (resolve cwd rundir))
    (c : Config K) (hc : c.sweepCount < 2 ^ 32) (e : Env K) (o : Output K) {pre : List (Event K)}
    (hp : pre <+: (run c e).1) (hne : pre ≠ (run c e).1) (r : Except PyErr RunState) :
    (GetState cwd (applyTrace o (resolve cwd rundir) fs [] pre) trs rundir r ↔ r = .ok .Running) ∧
      getNumberOfCompletedSweeps cwd (applyTrace o (resolve cwd rundir) fs [] pre) rundir = .ok 0 := by
  obtain ⟨tr, h1, -, h3, -⟩ := run_spec (e := e) hc
  have hpre : pre <+: tr := by
    rw [h1] at hp hne
    rcases List.prefix_concat_iff.1 hp with h | h
    · exact absurd h hne
    · exact h
  have hno : ∀ k, Event.saved .rundir k ∉ pre := fun k hk => h3 k (hpre.subset hk)
  have hsame : ∀ name, ¬ "EarlySave_".toList <+: name → ∀ rest,
      applyTrace o (resolve cwd rundir) fs [] pre (resolve cwd rundir ++ name :: rest) =
        fs (resolve cwd rundir ++ name :: rest) := by
    intro name hname rest
    refine applyTrace_other o _ fs [] pre hno _ fun d hd => ?_
    rw [List.prefix_append_right_inj] at hd
    obtain ⟨t, ht⟩ := hd
    simp only [List.cons_append, List.nil_append, List.cons.injEq] at ht
    exact hname ⟨d, ht.1⟩
  have hmeta' : applyTrace o (resolve cwd rundir) fs [] pre
      (resolve cwd rundir ++ ["metadata.txt".toList]) = none := by
    rw [hsame _ not_early_metadata, hmeta]
  constructor
  · apply C42_running hr
    · obtain ⟨t, ht⟩ := hcfg
      exact ⟨t, by rw [hsame _ not_early_config, ht]⟩
    · rintro ⟨t, ht⟩
      rw [hmeta'] at ht
      simp at ht
    · obtain ⟨w, hw, hw2⟩ := hout
      exact ⟨w, hw, by rw [hsame _ (by decide)]; exact hw2⟩
  · unfold getNumberOfCompletedSweeps
    rw [resolve_metadata cwd hr, hmeta']

/-- C70, as far as it holds: without limit, signals and exceptions, a run reported to be completed
has performed the configured number of sweeps. -/
theorem C70_partial (cwd : List Str) (fs : FS) {rundir : Str} (hr : rundir ≠ [])
    (c : Config K) (hc : c.sweepCount < 2 ^ 32) (e : Env K) (o : Output K)
    (hgo : ∀ h, MayGoOn c e h) (h1 : ∀ h, e.stepThrows h = false) (h2 : ∀ h, e.measureThrows h = false)
    (h3 : ∀ h, e.earlySave h = true → e.earlySaveEnds h ≠ .unhandled) :
    getNumberOfCompletedSweeps cwd (applyTrace o (resolve cwd rundir) fs [] (run c e).1) rundir =
      .ok c.sweepCount := by
  rw [C70_sweeps cwd fs hr c hc]
  rcases C68_end (e := e) hc with h | ⟨h, -, hh⟩ | ⟨h, hh⟩
  · rw [h.1]
  · exact absurd (hgo h) hh
  · rcases hh with hh | hh | ⟨hh, hh'⟩
    · rw [h1] at hh; simp at hh
    · rw [h2] at hh; simp at hh
    · exact absurd hh' (h3 h hh)

/-- No results but the metadata. -/
def plain : Output ℚ := ⟨"x".toList, fun _ => [], fun _ => [], fun _ => []⟩

/-- C70 does not hold in general: a run which has been interrupted after one of two sweeps is
reported to be completed, and so is one in which the first step has failed. -/
theorem C70_violated (cwd : List Str) {rundir : Str} (hr : rundir ≠ []) :
    ∃ (c : Config ℚ) (e₁ e₂ : Env ℚ), c.sweepCount = 2 ∧
      GetState cwd (applyTrace plain (resolve cwd rundir) (fun _ => none) [] (run c e₁).1) [] rundir
        (.ok .Completed) ∧
      getNumberOfCompletedSweeps cwd
        (applyTrace plain (resolve cwd rundir) (fun _ => none) [] (run c e₁).1) rundir = .ok 1 ∧
      GetState cwd (applyTrace plain (resolve cwd rundir) (fun _ => none) [] (run c e₂).1) [] rundir
        (.ok .Completed) ∧
      getNumberOfCompletedSweeps cwd
        (applyTrace plain (resolve cwd rundir) (fun _ => none) [] (run c e₂).1) rundir = .ok 0 := by
  have ho : plain.Lawful := by simp [Output.Lawful, plain]
  refine ⟨⟨0, 1, 2, 2, 1 / 2⟩, interrupted, { calm with stepThrows := fun _ => true }, rfl, ?_, ?_, ?_, ?_⟩
  · exact (C70_completed cwd _ [] hr (Or.inl rfl) _ (by norm_num) _ _ ho _).2 rfl
  · rw [C70_sweeps cwd _ hr _ (by norm_num)]
    congr 1
  · exact (C70_completed cwd _ [] hr (Or.inl rfl) _ (by norm_num) _ _ ho _).2 rfl
  · rw [C70_sweeps cwd _ hr _ (by norm_num)]
    congr 1

/-! ## The hypotheses can be met -/

example : ∃ fs', createRundir [] emptyRuns "runs/a".toList = (fs', .ok none) := by
  obtain ⟨fs', h, -⟩ := C69_violated (K := ℚ) (fun _ => "a".toList) 0
    (by refine ⟨?_, ?_, ?_, ?_⟩ <;> decide) ⟨0, 1, 2, 2, 1 / 2⟩ (by norm_num) calm calm plain plain
  exact ⟨fs', h⟩

example : (∀ h, MayGoOn (⟨0, 1, 2, 2, 1 / 2⟩ : Config ℚ) calm h) ∧
    (⟨"x".toList, fun _ => [], fun _ => [(["rngSeed.txt".toList], "1".toList)], fun _ => []⟩ :
      Output ℚ).Lawful := by
  refine ⟨fun h => ⟨Or.inl rfl, rfl⟩, fun h r hr => ?_⟩
  simp only [List.mem_singleton] at hr
  subst hr
  exact ⟨_, [], rfl, by decide, by decide, by decide⟩

end OpenMPCD.Sim
