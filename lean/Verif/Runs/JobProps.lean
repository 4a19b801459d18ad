import Verif.Runs.Props

/-!
# C55: job scripts
-/

set_option linter.unusedSimpArgs false

namespace OpenMPCD.Runs

open Spec

/-! ## Path names -/

theorem splitChar_noSep (sep : Char) (s : Str) : ∀ p ∈ splitChar sep s, sep ∉ p := by
  induction s with
  | nil => simp [splitChar]
  | cons c cs ih =>
    rw [splitChar]
    split
    · intro p hp
      simp only [List.mem_cons] at hp
      rcases hp with rfl | hp
      · simp
      · exact ih p hp
    · rename_i hc
      split
      · intro p hp
        simp only [List.mem_singleton] at hp
        subst hp
        simpa using Ne.symm hc
      · rename_i q qs hq
        rw [hq] at ih
        intro p hp
        simp only [List.mem_cons] at hp
        rcases hp with rfl | hp
        · have := ih q (by simp)
          simp [this, Ne.symm hc]
        · exact ih p (by simp [hp])

theorem foldl_push_valid (cs : List Str) (h : ∀ c ∈ cs, '/' ∉ c) (acc : List Str)
    (ha : ValidLoc acc) : ValidLoc (cs.foldl pushComponent acc) := by
  induction cs generalizing acc with
  | nil => exact ha
  | cons c cs ih =>
    rw [List.foldl_cons]
    apply ih (fun x hx => h x (by simp [hx]))
    unfold pushComponent
    split
    · exact ha
    · rename_i h1
      push Not at h1
      split
      · intro x hx
        exact ha x (List.mem_of_mem_dropLast hx)
      · rename_i h2
        intro x hx
        simp only [List.mem_append, List.mem_singleton] at hx
        rcases hx with hx | rfl
        · exact ha x hx
        · exact ⟨h1.1, h _ (by simp), h1.2, h2⟩

/-- What a path name denotes is a location. -/
theorem resolve_valid {cwd : List Str} (hc : ValidLoc cwd) (p : Str) : ValidLoc (resolve cwd p) := by
  unfold resolve
  apply foldl_push_valid _ (splitChar_noSep '/' p)
  split
  · intro x hx; simp at hx
  · exact hc

theorem resolve_abspath {cwd : List Str} (hc : ValidLoc cwd) (p : Str) :
    resolve cwd (abspath cwd p) = resolve cwd p :=
  resolve_canon cwd (resolve_valid hc p)

theorem abspath_ne_nil (cwd : List Str) (p : Str) : abspath cwd p ≠ [] := canon_ne_nil _

/-! ## Locations -/

/-- `input` in a run directory. -/
def inputOf (d : List Str) : List Str := d ++ ["input".toList]
/-- The file naming the parent. -/
def parentOf (d : List Str) : List Str := d ++ ["input".toList, "parent-job-path.txt".toList]
/-- The job script. -/
def jobOf (d : List Str) : List Str := d ++ ["input".toList, "job.slrm".toList]

theorem inputOf_inj {d e : List Str} : inputOf d = inputOf e ↔ d = e := by
  simp [inputOf]
theorem parentOf_inj {d e : List Str} : parentOf d = parentOf e ↔ d = e := by
  simp [parentOf]
theorem jobOf_inj {d e : List Str} : jobOf d = jobOf e ↔ d = e := by
  simp [jobOf]

theorem getLast_inputOf (d : List Str) : (inputOf d).getLast? = some "input".toList := by
  simp [inputOf]
theorem getLast_parentOf (d : List Str) :
    (parentOf d).getLast? = some "parent-job-path.txt".toList := by
  simp [parentOf]
theorem getLast_jobOf (d : List Str) : (jobOf d).getLast? = some "job.slrm".toList := by
  simp [jobOf]

theorem ne_of_getLast? {l m : List Str} {a b : Str} (hl : l.getLast? = some a)
    (hm : m.getLast? = some b) (h : a ≠ b) : l ≠ m := by
  rintro rfl
  rw [hl] at hm
  injection hm with e
  exact h e

theorem inputOf_ne_parentOf (d e : List Str) : inputOf d ≠ parentOf e :=
  ne_of_getLast? (getLast_inputOf d) (getLast_parentOf e) (by decide)
theorem inputOf_ne_jobOf (d e : List Str) : inputOf d ≠ jobOf e :=
  ne_of_getLast? (getLast_inputOf d) (getLast_jobOf e) (by decide)
theorem parentOf_ne_jobOf (d e : List Str) : parentOf d ≠ jobOf e :=
  ne_of_getLast? (getLast_parentOf d) (getLast_jobOf e) (by decide)

theorem dropLast_inputOf (d : List Str) : (inputOf d).dropLast = d := by simp [inputOf]
theorem dropLast_parentOf (d : List Str) : (parentOf d).dropLast = inputOf d := by
  rw [parentOf, List.dropLast_append_of_ne_nil (by simp)]
  rfl
theorem dropLast_jobOf (d : List Str) : (jobOf d).dropLast = inputOf d := by
  rw [jobOf, List.dropLast_append_of_ne_nil (by simp)]
  rfl

/-- A directory in which the job script generator can do its work: it exists, and neither a file is
in the way of `input` nor a directory in the way of the files in it. -/
structure Usable (fs : FS) (d : List Str) : Prop where
  dir : fs d = some .dir
  input : fs (inputOf d) = none ∨ fs (inputOf d) = some .dir
  parent : fs (parentOf d) ≠ some .dir
  job : fs (jobOf d) ≠ some .dir

theorem Usable.update_input {fs : FS} {d e : List Str} (h : Usable fs d) :
    Usable (Function.update fs (inputOf e) (some .dir)) d where
  dir := by
    by_cases hd : d = inputOf e
    · rw [hd, Function.update_self]
    · rw [Function.update_of_ne hd, h.dir]
  input := by
    by_cases hd : inputOf d = inputOf e
    · rw [hd, Function.update_self]; simp
    · rw [Function.update_of_ne hd]; exact h.input
  parent := by
    rw [Function.update_of_ne (Ne.symm (inputOf_ne_parentOf e d))]; exact h.parent
  job := by
    rw [Function.update_of_ne (Ne.symm (inputOf_ne_jobOf e d))]; exact h.job

theorem Usable.update_parent {fs : FS} {d e : List Str} (h : Usable fs d)
    (he : fs (parentOf e) ≠ some .dir) (t : Str) :
    Usable (Function.update fs (parentOf e) (some (.file t))) d where
  dir := by
    by_cases hd : d = parentOf e
    · subst hd; exact absurd h.dir he
    · rw [Function.update_of_ne hd, h.dir]
  input := by
    rw [Function.update_of_ne (inputOf_ne_parentOf d e)]; exact h.input
  parent := by
    by_cases hd : parentOf d = parentOf e
    · rw [hd, Function.update_self]; simp
    · rw [Function.update_of_ne hd]; exact h.parent
  job := by
    rw [Function.update_of_ne (Ne.symm (parentOf_ne_jobOf e d))]; exact h.job

theorem Usable.update_job {fs : FS} {d e : List Str} (h : Usable fs d)
    (he : fs (jobOf e) ≠ some .dir) (t : Str) :
    Usable (Function.update fs (jobOf e) (some (.file t))) d where
  dir := by
    by_cases hd : d = jobOf e
    · subst hd; exact absurd h.dir he
    · rw [Function.update_of_ne hd, h.dir]
  input := by
    rw [Function.update_of_ne (inputOf_ne_jobOf d e)]; exact h.input
  parent := by
    rw [Function.update_of_ne (parentOf_ne_jobOf d e)]; exact h.parent
  job := by
    by_cases hd : jobOf d = jobOf e
    · rw [hd, Function.update_self]; simp
    · rw [Function.update_of_ne hd]; exact h.job

theorem ensureDir_input {cwd : List Str} {fs : FS} {p : Str} (hp : p ≠ [])
    (h : Usable fs (resolve cwd p)) :
    ensureDir cwd fs (p ++ "/input".toList) =
      (Function.update fs (inputOf (resolve cwd p)) (some .dir), .ok ()) := by
  have hr : resolve cwd (p ++ "/input".toList) = inputOf (resolve cwd p) := resolve_input cwd hp
  unfold ensureDir isdir
  rw [hr]
  rcases h.input with hi | hi
  · rw [hi, if_neg (by simp), mkdir, hr, hi, dropLast_inputOf, h.dir, if_neg (by simp)]
  · rw [hi, if_pos (by simp), ← hi, Function.update_eq_self]

/-! ## The texts -/

theorem replaceGo_notMem {c : Char} {old new : Str} (hn : c ∉ new) (s : Str) (hs : c ∉ s) (k : ℕ) :
    c ∉ replaceGo old new k s := by
  induction s generalizing k with
  | nil => cases k <;> simp [replaceGo]
  | cons x xs ih =>
    simp only [List.mem_cons, not_or] at hs
    cases k with
    | zero =>
      rw [replaceGo]
      split
      · simp [hn, ih hs.2]
      · simp [hs.1, ih hs.2]
    | succ k => rw [replaceGo]; exact ih hs.2 k

theorem pyReplace_notMem {c : Char} {old new s : Str} (hn : c ∉ new) (hs : c ∉ s) :
    c ∉ pyReplace old new s := by
  unfold pyReplace
  split
  · simp only [List.mem_append, List.mem_flatMap, List.mem_cons, not_or, not_exists, not_and]
    refine ⟨hn, fun x hx => ⟨?_, hn⟩⟩
    rintro rfl
    exact hs hx
  · exact replaceGo_notMem hn s hs 0

theorem countSrunLines_append (s t : Str) :
    countSrunLines (s ++ '\n' :: t) = countSrunLines s + countSrunLines t := by
  simp [countSrunLines, splitChar_append]

theorem countSrunLines_line {s : Str} (h : '\n' ∉ s) :
    countSrunLines s = if "srun".toList.isPrefixOf s then 1 else 0 := by
  rw [countSrunLines, splitChar_of_notMem h]
  by_cases hp : "srun".toList.isPrefixOf s
  · rw [if_pos hp, List.filter_cons_of_pos hp]; rfl
  · rw [if_neg hp, List.filter_cons_of_neg hp]; rfl

/-- Options which the generator accepts and which do not break lines. -/
structure GoodOptions (o : JobOptions) : Prop where
  slurmKeys : ∀ kv ∈ o.slurmOptions, 2 ≤ kv.1.length
  srunKeys : ∀ kv ∈ o.srunOptions, 2 ≤ kv.1.length
  noExclude : o.excludedNodes.isSome → ∀ kv ∈ o.slurmOptions, kv.1 ≠ "-w".toList ∧
    kv.1 ≠ "--nodelist".toList ∧ kv.1 ≠ "-x".toList ∧ kv.1 ≠ "--exclude".toList
  noChdir : ∀ kv ∈ o.srunOptions, kv.1 ≠ "-D".toList ∧ kv.1 ≠ "--chdir".toList
  lines : (∀ kv ∈ o.slurmOptions, '\n' ∉ kv.1 ∧ '\n' ∉ kv.2) ∧
    (∀ kv ∈ o.srunOptions, '\n' ∉ kv.1 ∧ ∀ v, kv.2 = some v → '\n' ∉ v) ∧
    (∀ n, o.excludedNodes = some n → '\n' ∉ n) ∧ '\n' ∉ o.executablePath ∧
    '\n' ∉ o.executableOptions
  chunk : 0 < o.chunkSize

theorem optionSeparator_ok {key : Str} (h : 2 ≤ key.length) :
    ∃ sep, optionSeparator key = .ok sep ∧ '\n' ∉ sep := by
  unfold optionSeparator
  rw [List.getElem?_eq_getElem (by omega)]
  refine ⟨_, rfl, ?_⟩
  split <;> decide

theorem natStr_noNewline (n : ℕ) : '\n' ∉ natStr n := fun h =>
  absurd (natStr_digits n _ h) (by decide)

theorem sbatchLines_ok {rundir : Str} (hr : '\n' ∉ rundir) (jobs : ℕ) (opts : List (Str × Str))
    (h : ∀ kv ∈ opts, 2 ≤ kv.1.length) (hl : ∀ kv ∈ opts, '\n' ∉ kv.1 ∧ '\n' ∉ kv.2) :
    ∃ text, sbatchLines rundir jobs opts = .ok text ∧
      ∀ t, countSrunLines (text ++ t) = countSrunLines t := by
  induction opts with
  | nil => exact ⟨[], rfl, fun t => rfl⟩
  | cons kv opts ih =>
    obtain ⟨key, value⟩ := kv
    obtain ⟨text, e, hc⟩ := ih (fun x hx => h x (by simp [hx])) (fun x hx => hl x (by simp [hx]))
    obtain ⟨sep, es, hsep⟩ := optionSeparator_ok (h (key, value) (by simp))
    have hkv := hl (key, value) (by simp)
    refine ⟨_, by simp only [sbatchLines, es, e]; rfl, fun t => ?_⟩
    have hv : '\n' ∉ pyReplace "$JOBS_PER_NODE".toList (natStr jobs)
        (pyReplace "$RUNDIR".toList rundir value) :=
      pyReplace_notMem (natStr_noNewline jobs) (pyReplace_notMem hr hkv.2)
    generalize pyReplace "$JOBS_PER_NODE".toList (natStr jobs)
        (pyReplace "$RUNDIR".toList rundir value) = v at hv
    have e1 : "#SBATCH ".toList ++ key ++ sep ++ v ++ "\n".toList ++ text ++ t =
        ("#SBATCH ".toList ++ (key ++ sep ++ v)) ++ '\n' :: (text ++ t) := by simp
    rw [e1, countSrunLines_append, hc, countSrunLines_line (by simp [hkv.1, hsep, hv])]
    simp

theorem srunOptionText_ok {p : Str} (hp : '\n' ∉ p) (opts : List (Str × Option Str))
    (h : ∀ kv ∈ opts, 2 ≤ kv.1.length)
    (hl : ∀ kv ∈ opts, '\n' ∉ kv.1 ∧ ∀ v, kv.2 = some v → '\n' ∉ v) :
    ∃ text, srunOptionText p opts = .ok text ∧ '\n' ∉ text := by
  induction opts with
  | nil => exact ⟨[], rfl, by simp⟩
  | cons kv opts ih =>
    obtain ⟨key, value⟩ := kv
    obtain ⟨text, e, hc⟩ := ih (fun x hx => h x (by simp [hx])) (fun x hx => hl x (by simp [hx]))
    have hkv := hl (key, value) (by simp)
    cases value with
    | none =>
      refine ⟨_, by simp only [srunOptionText, e]; rfl, ?_⟩
      simp [hkv.1, hc]
    | some v =>
      obtain ⟨sep, es, hsep⟩ := optionSeparator_ok (h (key, some v) (by simp))
      refine ⟨_, by simp only [srunOptionText, es, e]; rfl, ?_⟩
      have hv : '\n' ∉ pyReplace "$RUNDIR".toList p v := pyReplace_notMem hp (hkv.2 v rfl)
      generalize pyReplace "$RUNDIR".toList p v = v' at hv
      simp [hkv.1, hc, hsep, hv]

theorem srunLine_ok {o : JobOptions} (ho : GoodOptions o) {p : Str} (hp : '\n' ∉ p) :
    ∃ line, srunLine o p = .ok line ∧
      ∀ t, countSrunLines (line ++ t) = 1 + countSrunLines t := by
  obtain ⟨text, e, hc⟩ := srunOptionText_ok hp o.srunOptions ho.srunKeys ho.lines.2.1
  refine ⟨_, by simp only [srunLine, e]; rfl, fun t => ?_⟩
  have h1 := ho.lines.2.2.2.1
  have h2 := ho.lines.2.2.2.2
  have e1 : "srun".toList ++ " --chdir='".toList ++ p ++ "/input'".toList ++ text ++
      " '".toList ++ o.executablePath ++ "'".toList ++ " ".toList ++ o.executableOptions ++
      " --rundir '".toList ++ p ++ "'".toList ++ " & \n".toList ++ t =
      ("srun".toList ++ (" --chdir='".toList ++ p ++ "/input'".toList ++ text ++
      " '".toList ++ o.executablePath ++ "'".toList ++ " ".toList ++ o.executableOptions ++
      " --rundir '".toList ++ p ++ "'".toList ++ " & ".toList)) ++ '\n' :: t := by simp
  rw [e1, countSrunLines_append, countSrunLines_line (by simp [hp, hc, h1, h2]), if_pos]
  rw [List.isPrefixOf_iff_prefix]
  exact ⟨_, rfl⟩

/-! ## Effects on the file system -/

/-- The file system after the loop over the runs `ps` of a chunk whose job script is kept in the run
directory called `head`. -/
def afterChunk (cwd : List Str) (tr : Str → Str) (head : Str) (ps : List Str) (fs : FS) : FS :=
  fun l =>
    if l ∈ ps.map (fun p => inputOf (resolve cwd p)) then some .dir
    else if l ∈ (ps.filter (· ≠ head)).map (fun p => parentOf (resolve cwd p)) then
      some (.file (tr head))
    else fs l

theorem chunkLoop_eq {cwd : List Str} {o : JobOptions} (ho : GoodOptions o) (head : Str)
    (ps : List Str) : ∀ (fs : FS), (∀ p ∈ ps, p ≠ [] ∧ Usable fs (resolve cwd p) ∧
      '\n' ∉ o.pathTranslator (abspath cwd p)) →
    ∃ text, chunkLoop cwd o head ps fs = (afterChunk cwd o.pathTranslator head ps fs, .ok text) ∧
      ∀ t, countSrunLines (text ++ t) = ps.length + countSrunLines t := by
  induction ps with
  | nil => intro fs _; exact ⟨[], rfl, fun t => by simp⟩
  | cons p ps ih =>
    intro fs h
    obtain ⟨hp, hu, hn⟩ := h p (by simp)
    obtain ⟨line, el, hline⟩ := srunLine_ok ho hn
    rw [chunkLoop, ensureDir_input hp hu]
    simp only
    by_cases hh : p = head
    · subst hh
      simp only [ne_eq, not_true_eq_false, if_false, el]
      obtain ⟨text, et, ht⟩ := ih (Function.update fs (inputOf (resolve cwd p)) (some .dir))
        (fun q hq => by
          obtain ⟨a, b, c⟩ := h q (by simp [hq])
          exact ⟨a, b.update_input, c⟩)
      rw [et]
      refine ⟨line ++ text, ?_, fun t => ?_⟩
      · simp only [Prod.mk.injEq, and_true]
        funext l
        unfold afterChunk
        by_cases h1 : l = inputOf (resolve cwd p)
        · subst h1
          have : ∀ q, ¬ parentOf (resolve cwd q) = inputOf (resolve cwd p) :=
            fun q e => inputOf_ne_parentOf _ _ e.symm
          simp [Function.update_self, this]
        · simp only [List.map_cons, List.mem_cons, h1, false_or, Function.update_of_ne h1,
            List.filter_cons, ne_eq, not_true_eq_false, decide_false, Bool.false_eq_true, if_false]
      · rw [List.append_assoc, hline, ht, List.length_cons]; omega
    · have hwr : writeFile cwd (Function.update fs (inputOf (resolve cwd p)) (some .dir))
          (p ++ "/input/parent-job-path.txt".toList) (o.pathTranslator head) =
          (Function.update (Function.update fs (inputOf (resolve cwd p)) (some .dir))
            (parentOf (resolve cwd p)) (some (.file (o.pathTranslator head))), .ok ()) := by
        have hr : resolve cwd (p ++ "/input/parent-job-path.txt".toList) =
          parentOf (resolve cwd p) := resolve_parent cwd hp
        rw [writeFile, hr, dropLast_parentOf, Function.update_self, if_neg]
        have := (hu.update_input (e := resolve cwd p)).parent
        simpa using this
      simp only [ne_eq, hh, not_false_eq_true, if_true, hwr, el]
      obtain ⟨text, et, ht⟩ := ih (Function.update
          (Function.update fs (inputOf (resolve cwd p)) (some .dir))
            (parentOf (resolve cwd p)) (some (.file (o.pathTranslator head))))
        (fun q hq => by
          obtain ⟨a, b, c⟩ := h q (by simp [hq])
          exact ⟨a, b.update_input.update_parent hu.update_input.parent _, c⟩)
      rw [et]
      refine ⟨line ++ text, ?_, fun t => ?_⟩
      · simp only [Prod.mk.injEq, and_true]
        funext l
        unfold afterChunk
        by_cases h1 : l = inputOf (resolve cwd p)
        · subst h1
          have : ∀ q, ¬ parentOf (resolve cwd q) = inputOf (resolve cwd p) :=
            fun q e => inputOf_ne_parentOf _ _ e.symm
          simp [Function.update_self, this, Function.update_of_ne (inputOf_ne_parentOf _ _)]
        · by_cases h2 : l = parentOf (resolve cwd p)
          · subst h2
            have : ∀ q, ¬ inputOf (resolve cwd q) = parentOf (resolve cwd p) :=
              fun q e => inputOf_ne_parentOf _ _ e
            have h3 : ¬ parentOf (resolve cwd p) = inputOf (resolve cwd p) :=
              fun e => inputOf_ne_parentOf _ _ e.symm
            simp [Function.update_self, this, hh, h3]
          · simp only [List.map_cons, List.mem_cons, h1, h2, hh, false_or, Function.update_of_ne h1,
              Function.update_of_ne h2, List.filter_cons, ne_eq, not_false_eq_true, decide_true,
              if_true]
      · rw [List.append_assoc, hline, ht, List.length_cons]; omega

/-- Chunks whose members the generator can work with. -/
def Fine (cwd : List Str) (o : JobOptions) (fs : FS) (p : Str) : Prop :=
  p ≠ [] ∧ Usable fs (resolve cwd p) ∧ '\n' ∉ o.pathTranslator (abspath cwd p)

theorem usable_afterChunk {cwd : List Str} {tr : Str → Str} {head : Str} {ps : List Str} {fs : FS}
    (h : ∀ p ∈ ps, Usable fs (resolve cwd p)) {d : List Str} (hd : Usable fs d) :
    Usable (afterChunk cwd tr head ps fs) d where
  dir := by
    unfold afterChunk
    split
    · rfl
    · split
      · rename_i hm
        simp only [List.mem_map, List.mem_filter] at hm
        obtain ⟨p, hp, rfl⟩ := hm
        exact absurd hd.dir (h p hp.1).parent
      · exact hd.dir
  input := by
    unfold afterChunk
    split
    · simp
    · rw [if_neg]
      · exact hd.input
      · simp only [List.mem_map, not_exists, not_and]
        exact fun p _ e => inputOf_ne_parentOf _ _ e.symm
  parent := by
    unfold afterChunk
    rw [if_neg]
    · split
      · simp
      · exact hd.parent
    · simp only [List.mem_map, not_exists, not_and]
      exact fun p _ e => inputOf_ne_parentOf _ _ e
  job := by
    unfold afterChunk
    rw [if_neg, if_neg]
    · exact hd.job
    · simp only [List.mem_map, not_exists, not_and]
      exact fun p _ e => parentOf_ne_jobOf _ _ e
    · simp only [List.mem_map, not_exists, not_and]
      exact fun p _ e => inputOf_ne_jobOf _ _ e

theorem processChunk_eq {cwd : List Str} (hcwd : ValidLoc cwd) {o : JobOptions} (ho : GoodOptions o)
    (first : Str) (others : List Str) (fs : FS)
    (h : ∀ p ∈ first :: others, Fine cwd o fs p) :
    ∃ script, processChunk cwd o first others fs =
        (Function.update (afterChunk cwd o.pathTranslator (abspath cwd first) (first :: others) fs)
          (jobOf (resolve cwd first)) (some (.file script)),
        .ok (o.pathTranslator (abspath cwd first ++ "/input/job.slrm".toList))) ∧
      countSrunLines script = others.length + 1 := by
  obtain ⟨hp, hu, hn⟩ := h first (by simp)
  have hra := resolve_abspath hcwd first
  have hens := ensureDir_input (abspath_ne_nil cwd first) (fs := fs) (cwd := cwd) (by rwa [hra])
  rw [hra] at hens
  set fs1 := Function.update fs (inputOf (resolve cwd first)) (some Node.dir) with hfs1
  have hopts : ∃ header, sbatchLines (o.pathTranslator (abspath cwd first)) (others.length + 1)
      (mySlurmOptions o) = .ok header ∧
      ∀ t, countSrunLines (header ++ t) = countSrunLines t := by
    apply sbatchLines_ok hn
    · unfold mySlurmOptions
      split
      · exact ho.slurmKeys
      · intro kv hkv
        simp only [List.mem_append, List.mem_singleton] at hkv
        rcases hkv with hkv | rfl
        · exact ho.slurmKeys kv hkv
        · show 2 ≤ "--exclude".toList.length
          decide
    · unfold mySlurmOptions
      split
      · exact ho.lines.1
      · rename_i nodes hnodes
        intro kv hkv
        simp only [List.mem_append, List.mem_singleton] at hkv
        rcases hkv with hkv | rfl
        · exact ho.lines.1 kv hkv
        · exact ⟨by show '\n' ∉ "--exclude".toList; decide, ho.lines.2.2.1 nodes hnodes⟩
  obtain ⟨header, eh, hhead⟩ := hopts
  obtain ⟨body, eb, hbody⟩ := chunkLoop_eq ho (abspath cwd first) (first :: others) fs1
    (fun p hp => by
      obtain ⟨a, b, c⟩ := h p hp
      exact ⟨a, b.update_input, c⟩)
  have hsame : afterChunk cwd o.pathTranslator (abspath cwd first) (first :: others) fs1 =
      afterChunk cwd o.pathTranslator (abspath cwd first) (first :: others) fs := by
    funext l
    unfold afterChunk
    by_cases h1 : l = inputOf (resolve cwd first)
    · have : l ∈ (first :: others).map (fun p => inputOf (resolve cwd p)) := by
        rw [h1]; simp
      rw [if_pos this, if_pos this]
    · rw [hfs1, Function.update_of_ne h1]
  rw [hsame] at eb
  set fs2 := afterChunk cwd o.pathTranslator (abspath cwd first) (first :: others) fs with hfs2
  have hu2 : Usable fs2 (resolve cwd first) := usable_afterChunk (fun p hp => (h p hp).2.1) hu
  have hin : fs2 (inputOf (resolve cwd first)) = some .dir := by
    rw [hfs2, afterChunk, if_pos (by simp)]
  have hrj : resolve cwd (abspath cwd first ++ "/input/job.slrm".toList) =
      jobOf (resolve cwd first) := by
    rw [resolve_jobslrm cwd (abspath_ne_nil cwd first), hra]
    rfl
  refine ⟨"#!/bin/bash".toList ++ "\n".toList ++ header ++ "\n".toList ++ body ++
              "wait".toList ++ "\n".toList, ?_, ?_⟩
  · unfold processChunk
    have hwr : ∀ text, writeFile cwd fs2 (abspath cwd first ++ "/input/job.slrm".toList) text =
        (Function.update fs2 (jobOf (resolve cwd first)) (some (.file text)), .ok ()) := by
      intro text
      rw [writeFile, hrj, dropLast_jobOf, hin, if_neg]
      have := hu2.job
      simpa using this
    simp only [hens, eh, eb, hwr]
  · have e1 : "#!/bin/bash".toList ++ "\n".toList ++ header ++ "\n".toList ++ body ++
              "wait".toList ++ "\n".toList =
        "#!/bin/bash".toList ++ '\n' :: (header ++ ([] ++ '\n' :: (body ++
          ("wait".toList ++ '\n' :: [])))) := by simp
    rw [e1, countSrunLines_append, hhead, countSrunLines_append, hbody, countSrunLines_append]
    have h1 : countSrunLines "#!/bin/bash".toList = 0 := by decide
    have h2 : countSrunLines "wait".toList = 0 := by decide
    have h3 : countSrunLines [] = 0 := by decide
    rw [h1, h2, h3, List.length_cons]
    omega

/-- What the runs of one chunk look like afterwards, if `fs` was the file system before. -/
structure ChunkDone (cwd : List Str) (tr : Str → Str) (fs fs' : FS) (first : Str)
    (others : List Str) : Prop where
  /-- the others, and the first one if it was not given by its absolute name, name the parent -/
  parent : ∀ p ∈ first :: others, p ≠ abspath cwd first →
    fs' (parentOf (resolve cwd p)) = some (.file (tr (abspath cwd first)))
  /-- the first one has no other parent than before -/
  firstParent : (∀ p ∈ first :: others, p ≠ abspath cwd first →
      resolve cwd p ≠ resolve cwd first) →
    fs' (parentOf (resolve cwd first)) = fs (parentOf (resolve cwd first))
  /-- the job script starts all runs of the chunk -/
  script : ∃ text, fs' (jobOf (resolve cwd first)) = some (.file text) ∧
    countSrunLines text = others.length + 1

theorem chunkDone_of_processChunk {cwd : List Str} {tr : Str → Str} {fs : FS} {first : Str}
    {others : List Str} {script : Str} (hs : countSrunLines script = others.length + 1) :
    ChunkDone cwd tr fs
      (Function.update (afterChunk cwd tr (abspath cwd first) (first :: others) fs)
          (jobOf (resolve cwd first)) (some (.file script))) first others where
  parent := by
    intro p hp hne
    rw [Function.update_of_ne (parentOf_ne_jobOf _ _), afterChunk, if_neg, if_pos]
    · simp only [List.mem_map, List.mem_filter, decide_eq_true_eq]
      exact ⟨p, ⟨hp, hne⟩, rfl⟩
    · simp only [List.mem_map, not_exists, not_and]
      exact fun p _ e => inputOf_ne_parentOf _ _ e
  firstParent := by
    intro h
    rw [Function.update_of_ne (parentOf_ne_jobOf _ _), afterChunk, if_neg, if_neg]
    · simp only [List.mem_map, List.mem_filter, decide_eq_true_eq, not_exists, not_and, parentOf_inj]
      rintro p ⟨hp, hne⟩
      exact h p hp hne
    · simp only [List.mem_map, not_exists, not_and]
      exact fun p _ e => inputOf_ne_parentOf _ _ e
  script := ⟨script, by rw [Function.update_self], hs⟩

/-- The entries in the run directory at `d` which the generator may write. -/
def Touches (d l : List Str) : Prop := l = inputOf d ∨ l = parentOf d ∨ l = jobOf d

theorem touches_inj {d e l : List Str} (h : Touches d l) (h' : Touches e l) : d = e := by
  rcases h with rfl | rfl | rfl <;> rcases h' with h' | h' | h'
  · exact inputOf_inj.1 h'
  · exact absurd h' (inputOf_ne_parentOf _ _)
  · exact absurd h' (inputOf_ne_jobOf _ _)
  · exact absurd h'.symm (inputOf_ne_parentOf _ _)
  · exact parentOf_inj.1 h'
  · exact absurd h' (parentOf_ne_jobOf _ _)
  · exact absurd h'.symm (inputOf_ne_jobOf _ _)
  · exact absurd h'.symm (parentOf_ne_jobOf _ _)
  · exact jobOf_inj.1 h'

theorem frame_processChunk {cwd : List Str} {tr : Str → Str} {fs : FS} {first head : Str}
    {others : List Str} {script : Str} {l : List Str}
    (h : ∀ p ∈ first :: others, ¬ Touches (resolve cwd p) l) :
    Function.update (afterChunk cwd tr head (first :: others) fs)
          (jobOf (resolve cwd first)) (some (.file script)) l = fs l := by
  rw [Function.update_of_ne, afterChunk, if_neg, if_neg]
  · simp only [List.mem_map, List.mem_filter, not_exists, not_and]
    rintro p ⟨hp, -⟩ rfl
    exact h p hp (.inr (.inl rfl))
  · simp only [List.mem_map, not_exists, not_and]
    rintro p hp rfl
    exact h p hp (.inl rfl)
  · rintro rfl
    exact h first (by simp) (.inr (.inr rfl))

theorem usable_processChunk {cwd : List Str} {tr : Str → Str} {fs : FS} {first head : Str}
    {others : List Str} {script : Str} {d : List Str}
    (h : ∀ p ∈ first :: others, Usable fs (resolve cwd p)) (hd : Usable fs d) :
    Usable (Function.update (afterChunk cwd tr head (first :: others) fs)
          (jobOf (resolve cwd first)) (some (.file script))) d :=
  (usable_afterChunk h hd).update_job (usable_afterChunk h (h first (by simp))).job _

theorem processChunks_spec {cwd : List Str} (hcwd : ValidLoc cwd) {o : JobOptions}
    (ho : GoodOptions o) (cs : List (List Str)) (hne : ∀ c ∈ cs, c ≠ []) :
    ∀ fs : FS, (∀ p ∈ cs.flatten, Fine cwd o fs p) →
      (cs.flatten.map (resolve cwd)).Nodup →
    ∃ fs', processChunks cwd o cs fs = (fs', .ok (cs.map fun c =>
        o.pathTranslator (abspath cwd (c.headD []) ++ "/input/job.slrm".toList))) ∧
      (∀ l, (∀ p ∈ cs.flatten, ¬ Touches (resolve cwd p) l) → fs' l = fs l) ∧
      (∀ first others, first :: others ∈ cs →
        ChunkDone cwd o.pathTranslator fs fs' first others) := by
  induction cs with
  | nil => intro fs _ _; exact ⟨fs, rfl, fun _ _ => rfl, by simp⟩
  | cons c cs ih =>
    intro fs hfine hnd
    cases c with
    | nil => exact absurd rfl (hne [] (by simp))
    | cons first others =>
      have hfc : ∀ p ∈ first :: others, Fine cwd o fs p :=
        fun p hp => hfine p (by rw [List.flatten_cons, List.mem_append]; exact .inl hp)
      have hfr : ∀ p ∈ cs.flatten, Fine cwd o fs p :=
        fun p hp => hfine p (by rw [List.flatten_cons, List.mem_append]; exact .inr hp)
      rw [List.flatten_cons, List.map_append, List.nodup_append] at hnd
      obtain ⟨hnd1, hnd2, hnd3⟩ := hnd
      have hdis : ∀ p ∈ first :: others, ∀ q ∈ cs.flatten, resolve cwd p ≠ resolve cwd q :=
        fun p hp q hq => hnd3 _ (List.mem_map_of_mem hp) _ (List.mem_map_of_mem hq)
      obtain ⟨script, es, hscript⟩ := processChunk_eq hcwd ho first others fs hfc
      have hdone := chunkDone_of_processChunk (cwd := cwd) (tr := o.pathTranslator) (fs := fs)
        (first := first) hscript
      have hframe := fun l => frame_processChunk (cwd := cwd) (tr := o.pathTranslator) (fs := fs)
        (head := abspath cwd first) (others := others) (first := first) (script := script) (l := l)
      have hus := fun d => usable_processChunk (cwd := cwd) (tr := o.pathTranslator) (fs := fs)
        (head := abspath cwd first) (others := others) (first := first) (script := script) (d := d)
        (fun p hp => (hfc p hp).2.1)
      rw [processChunks, es]
      simp only
      generalize Function.update
          (afterChunk cwd o.pathTranslator (abspath cwd first) (first :: others) fs)
          (jobOf (resolve cwd first)) (some (Node.file script)) = fs1 at hdone hframe hus ⊢
      obtain ⟨fs2, e2, hfr2, hdone2⟩ := ih (fun c hc => hne c (by simp [hc])) fs1
        (fun p hp => ⟨(hfr p hp).1, hus _ (hfr p hp).2.1, (hfr p hp).2.2⟩) hnd2
      rw [e2]
      have hkeep : ∀ p ∈ first :: others, ∀ l, Touches (resolve cwd p) l → fs2 l = fs1 l := by
        intro p hp l hl
        apply hfr2
        intro q hq hq'
        exact hdis p hp q hq (touches_inj hl hq')
      have hkeep1 : ∀ q ∈ cs.flatten, ∀ l, Touches (resolve cwd q) l → fs1 l = fs l := by
        intro q hq l hl
        apply hframe
        intro p hp hp'
        exact hdis p hp q hq (touches_inj hp' hl)
      refine ⟨fs2, rfl, ?_, ?_⟩
      · intro l hl
        rw [hfr2 l (fun p hp => hl p (by rw [List.flatten_cons, List.mem_append]; exact .inr hp)),
          hframe l (fun p hp => hl p (by rw [List.flatten_cons, List.mem_append]; exact .inl hp))]
      · intro f os hmem
        rw [List.mem_cons] at hmem
        rcases hmem with hmem | hmem
        · injection hmem with e1 e2
          subst e1 e2
          refine ⟨fun p hp hne => ?_, fun h => ?_, ?_⟩
          · rw [hkeep p hp _ (.inr (.inl rfl)), hdone.parent p hp hne]
          · rw [hkeep f (by simp) _ (.inr (.inl rfl)), hdone.firstParent h]
          · rw [hkeep f (by simp) _ (.inr (.inr rfl))]
            exact hdone.script
        · have hin : ∀ p ∈ f :: os, p ∈ cs.flatten :=
            fun p hp => List.mem_flatten.2 ⟨_, hmem, hp⟩
          have hd := hdone2 f os hmem
          refine ⟨hd.parent, fun h => ?_, hd.script⟩
          rw [hd.firstParent h, hkeep1 f (hin f (by simp)) _ (.inr (.inl rfl))]

/-! ## Chunks -/

theorem chunks_flatten_aux (size q : ℕ) (l : List Str) :
    ((List.range q).map (fun k => (l.drop (k * size)).take size)).flatten = l.take (q * size) := by
  induction q with
  | zero => simp
  | succ q ih =>
    rw [List.range_succ, List.map_append, List.flatten_append, ih]
    simp only [List.map_cons, List.map_nil, List.flatten_cons, List.flatten_nil, List.append_nil]
    rw [← List.take_add, Nat.succ_mul]

theorem chunks_spec {size : ℕ} (hs : 0 < size) {l : List Str} (hl : l.length % size = 0) :
    (chunks size l).flatten = l ∧ ∀ c ∈ chunks size l, c.length = size := by
  obtain ⟨q, hq⟩ := Nat.dvd_of_mod_eq_zero hl
  have hdiv : (l.length + size - 1) / size = q := by
    rw [hq]
    apply Nat.div_eq_of_lt_le
    · rw [Nat.mul_comm]; omega
    · rw [Nat.succ_mul, Nat.mul_comm]; omega
  unfold chunks
  rw [hdiv]
  constructor
  · rw [chunks_flatten_aux, List.take_of_length_le (by rw [hq, Nat.mul_comm])]
  · intro c hc
    simp only [List.mem_map, List.mem_range] at hc
    obtain ⟨k, hk, rfl⟩ := hc
    rw [List.length_take, List.length_drop, hq]
    have : (k + 1) * size ≤ q * size := Nat.mul_le_mul_right _ hk
    rw [Nat.succ_mul] at this
    rw [Nat.mul_comm size q]
    omega

/-! ## C55 -/

/-- C55: the generator succeeds, and changes nothing but the `input` directories and the parent and
job files in the given run directories. The chunks are the given runs, in order, in groups of the
requested size. -/
theorem C55_effects {cwd : List Str} (hcwd : ValidLoc cwd) {o : JobOptions} (ho : GoodOptions o)
    {fs : FS} {rundirs : List Str} (hlen : rundirs.length % o.chunkSize = 0)
    (hfine : ∀ p ∈ rundirs, Fine cwd o fs p) (hnd : (rundirs.map (resolve cwd)).Nodup) :
    ∃ (fs' : FS) (cs : List (List Str)), cs.flatten = rundirs ∧ (∀ c ∈ cs, c.length = o.chunkSize) ∧
      createSlurmJobScripts cwd fs rundirs o = (fs', .ok (cs.map fun c =>
        o.pathTranslator (abspath cwd (c.headD []) ++ "/input/job.slrm".toList))) ∧
      (∀ l, (∀ p ∈ rundirs, ¬ Touches (resolve cwd p) l) → fs' l = fs l) ∧
      (∀ first others, first :: others ∈ cs →
        ChunkDone cwd o.pathTranslator fs fs' first others) := by
  obtain ⟨hflat, hsize⟩ := chunks_spec ho.chunk hlen
  obtain ⟨fs', e, hframe, hdone⟩ := processChunks_spec hcwd ho (chunks o.chunkSize rundirs)
    (by
      rintro c hc rfl
      have := hsize [] hc
      have := ho.chunk
      simp at *
      omega) fs (by rwa [hflat]) (by rwa [hflat])
  refine ⟨fs', chunks o.chunkSize rundirs, hflat, hsize, ?_, by rwa [hflat] at hframe, hdone⟩
  unfold createSlurmJobScripts
  have h0 := ho.chunk
  rw [if_neg (by omega), if_neg (by omega), if_neg, if_neg, e]
  · simp only [List.any_cons, List.any_nil, Bool.or_false, Bool.or_eq_true, decide_eq_true_eq,
      List.mem_map, not_or, not_exists, not_and]
    exact ⟨fun kv hkv => (ho.noChdir kv hkv).1, fun kv hkv => (ho.noChdir kv hkv).2⟩
  · rintro ⟨h1, h2⟩
    simp only [List.any_cons, List.any_nil, Bool.or_false, Bool.or_eq_true, decide_eq_true_eq,
      List.mem_map] at h2
    have := ho.noExclude h1
    rcases h2 with ⟨kv, hkv, he⟩ | ⟨kv, hkv, he⟩ | ⟨kv, hkv, he⟩ | ⟨kv, hkv, he⟩
    · exact (this kv hkv).1 he
    · exact (this kv hkv).2.1 he
    · exact (this kv hkv).2.2.1 he
    · exact (this kv hkv).2.2.2 he

/-- A run directory which has just been created: a configuration, and no trace of a job. -/
structure Fresh (fs : FS) (d : List Str) : Prop where
  config : FileAt fs (d ++ ["config.txt".toList])
  metadata : fs (d ++ ["metadata.txt".toList]) = none
  output : ¬ HasOutput fs d
  parent : fs (parentOf d) = none
  jobid : fs (d ++ ["input".toList, "jobid".toList]) = none

theorem not_touches_of_getLast {l : List Str} {a : Str} (h : l.getLast? = some a)
    (h1 : a ≠ "input".toList) (h2 : a ≠ "parent-job-path.txt".toList) (h3 : a ≠ "job.slrm".toList)
    (d : List Str) : ¬ Touches d l := by
  rintro (e | e | e)
  · exact ne_of_getLast? h (getLast_inputOf d) h1 e
  · exact ne_of_getLast? h (getLast_parentOf d) h2 e
  · exact ne_of_getLast? h (getLast_jobOf d) h3 e

section ready
variable {cwd : List Str} {o : JobOptions} {fs fs' : FS}

theorem fresh_after {d : List Str} (hf : Fresh fs d)
    (hframe : ∀ l a, l.getLast? = some a → a ≠ "input".toList → a ≠ "parent-job-path.txt".toList →
      a ≠ "job.slrm".toList → fs' l = fs l) :
    FileAt fs' (d ++ ["config.txt".toList]) ∧ ¬ FileAt fs' (d ++ ["metadata.txt".toList]) ∧
      ¬ HasOutput fs' d ∧ fs' (d ++ ["input".toList, "jobid".toList]) = none := by
  refine ⟨?_, ?_, ?_, ?_⟩
  · obtain ⟨t, ht⟩ := hf.config
    exact ⟨t, by rw [hframe _ "config.txt".toList (by simp) (by decide) (by decide) (by decide), ht]⟩
  · rintro ⟨t, ht⟩
    rw [hframe _ "metadata.txt".toList (by simp) (by decide) (by decide) (by decide),
      hf.metadata] at ht
    cases ht
  · rintro ⟨w, hw, h⟩
    apply hf.output
    refine ⟨w, hw, ?_⟩
    rwa [hframe _ ("srun-".toList ++ w ++ ".out".toList) (by simp) (by simp) (by simp) (by simp)] at h
  · rw [hframe _ "jobid".toList (by simp) (by decide) (by decide) (by decide), hf.jobid]

/-- C55: after the generator has run for fresh run directories given by their absolute names, every
one of them is ready, and belongs to a job of the requested size — provided the translators given to
the runs undo the translation used for writing the job files. -/
theorem C55_ready (hcwd : ValidLoc cwd) (ho : GoodOptions o)
    {rundirs : List Str} (hlen : rundirs.length % o.chunkSize = 0)
    (hfine : ∀ p ∈ rundirs, Fine cwd o fs p) (hnd : (rundirs.map (resolve cwd)).Nodup)
    (habs : ∀ p ∈ rundirs, abspath cwd p = p) (hfresh : ∀ p ∈ rundirs, Fresh fs (resolve cwd p))
    {trs : List (Str → Str)}
    (hback : ∀ p ∈ rundirs, applyTranslators trs (o.pathTranslator p) = p) :
    ∀ p ∈ rundirs,
      (∀ r, GetState cwd (createSlurmJobScripts cwd fs rundirs o).1 trs p r ↔ r = .ok .Ready) ∧
      getJobBatchSize cwd (createSlurmJobScripts cwd fs rundirs o).1 trs p = .ok o.chunkSize := by
  obtain ⟨fs', cs, hflat, hsize, e, hframe, hdone⟩ := C55_effects hcwd ho hlen hfine hnd
  rw [e]
  simp only
  intro p hp
  have hp' := hp
  rw [← hflat, List.mem_flatten] at hp'
  obtain ⟨c, hc, hpc⟩ := hp'
  cases hcc : c with
  | nil => rw [hcc] at hpc; simp at hpc
  | cons first others =>
    subst hcc
    have hin : ∀ q ∈ first :: others, q ∈ rundirs := by
      intro q hq
      rw [← hflat, List.mem_flatten]
      exact ⟨_, hc, hq⟩
    have hd := hdone first others hc
    have hfa := habs first (hin first (by simp))
    have hfr : ∀ l a, l.getLast? = some a → a ≠ "input".toList → a ≠ "parent-job-path.txt".toList →
        a ≠ "job.slrm".toList → fs' l = fs l :=
      fun l a h h1 h2 h3 => hframe l (fun q _ => not_touches_of_getLast h h1 h2 h3 _)
    have hinj : ∀ q ∈ rundirs, resolve cwd q = resolve cwd first → q = first := by
      intro q hq he
      rw [← habs q hq, ← hfa, abspath, abspath, he]
    have hparent : fs' (parentOf (resolve cwd first)) = none := by
      rw [hd.firstParent]
      · exact (hfresh first (hin first (by simp))).parent
      · intro q hq hne he
        rw [hfa] at hne
        exact hne (hinj q (hin q hq) he)
    obtain ⟨text, htext, hcount⟩ := hd.script
    have hsz : others.length + 1 = o.chunkSize := hsize _ hc
    obtain ⟨f1, f2, f3, f4⟩ := fresh_after (hfresh first (hin first (by simp))) hfr
    have hready : ∀ t r, GetState cwd fs' t first r ↔ r = .ok .Ready := fun t r =>
      C42_ready (hfine first (hin first (by simp))).1 r f1 f2 f3
        (by
          rintro ⟨t, ht⟩
          have := hparent
          rw [parentOf, ht] at this
          cases this) f4 ⟨text, htext⟩
    have hread : readFile cwd fs' (first ++ "/input/job.slrm".toList) = .ok text := by
      rw [readFile, resolve_jobslrm cwd (hfine first (hin first (by simp))).1]
      have := htext
      rw [jobOf] at this
      rw [this]
    by_cases hpf : p = first
    · subst hpf
      refine ⟨hready trs, ?_⟩
      have hno : hasParentRun cwd fs' p = false := by
        rw [hasParentRun, isfile_false_iff, resolve_parent cwd (hfine p hp).1]
        rintro ⟨t, ht⟩
        have := hparent
        rw [parentOf, ht] at this
        cases this
      unfold getJobBatchSize getParentRun
      simp only [hno, Bool.false_eq_true, if_false, hread, hcount, hsz]
      rw [if_pos ho.chunk]
    · have hpar := hd.parent p hpc (by rwa [hfa])
      rw [hfa] at hpar
      obtain ⟨g1, g2, g3, g4⟩ := fresh_after (hfresh p hp) hfr
      constructor
      · intro r
        rw [C42_parent (hfine p hp).1 r g1 g2 g3 (by rw [← parentOf]; exact hpar),
          hback first (hin first (by simp))]
        exact hready [] r
      · have hyes : hasParentRun cwd fs' p = true := by
          rw [hasParentRun, isfile_iff, resolve_parent cwd (hfine p hp).1]
          exact ⟨_, hpar⟩
        have hrd : readFile cwd fs' (p ++ "/input/parent-job-path.txt".toList) =
            .ok (o.pathTranslator first) := by
          rw [readFile, resolve_parent cwd (hfine p hp).1]
          have := hpar
          rw [parentOf] at this
          rw [this]
        unfold getJobBatchSize getParentRun
        simp only [hyes, if_true, hrd, hback first (hin first (by simp)), hread, hcount, hsz]
        rw [if_pos ho.chunk]

end ready

/-- C55 fails for run directories given by a relative name: the first of every chunk is recorded as its
own parent, and asking for its state then never ends (with the default, which writes paths
untranslated). -/
theorem C55_self_parent_violated {cwd : List Str} {o : JobOptions} {fs : FS} (hcwd : ValidLoc cwd)
    (ho : GoodOptions o) {rundirs : List Str} (hlen : rundirs.length % o.chunkSize = 0)
    (hne : rundirs ≠ []) (hfine : ∀ p ∈ rundirs, Fine cwd o fs p)
    (hnd : (rundirs.map (resolve cwd)).Nodup)
    (hfresh : ∀ p ∈ rundirs, Fresh fs (resolve cwd p)) (hrel : ∀ p ∈ rundirs, abspath cwd p ≠ p)
    (hid : ∀ p, o.pathTranslator p = p) :
    ∃ p ∈ rundirs, ¬ ∃ r, GetState cwd (createSlurmJobScripts cwd fs rundirs o).1 [] p r := by
  obtain ⟨fs', cs, hflat, hsize, e, hframe, hdone⟩ := C55_effects hcwd ho hlen hfine hnd
  rw [e]
  simp only
  cases cs with
  | nil => rw [← hflat] at hne; simp at hne
  | cons c cs =>
    cases c with
    | nil =>
      have := hsize [] (by simp)
      have := ho.chunk
      simp at *
      omega
    | cons first others =>
      have hin : first ∈ rundirs := by rw [← hflat]; simp
      refine ⟨first, hin, ?_⟩
      have hd := hdone first others (by simp)
      have hpar := hd.parent first (by simp) (Ne.symm (hrel first hin))
      rw [hid, parentOf] at hpar
      have hfr : ∀ l a, l.getLast? = some a → a ≠ "input".toList →
          a ≠ "parent-job-path.txt".toList → a ≠ "job.slrm".toList → fs' l = fs l :=
        fun l a h h1 h2 h3 => hframe l (fun q _ => not_touches_of_getLast h h1 h2 h3 _)
      obtain ⟨f1, f2, f3, -⟩ := fresh_after (hfresh first hin) hfr
      have hra := resolve_abspath hcwd first
      have hbody : getStateBody cwd fs' [] (abspath cwd first) = .ask [] (abspath cwd first) := by
        have hp := abspath_ne_nil cwd first
        have h4 : hasParentRun cwd fs' (abspath cwd first) = true := by
          rw [hasParentRun, isfile_iff, resolve_parent cwd hp, hra]
          exact ⟨_, hpar⟩
        rw [getStateBody, if_neg, if_neg, if_neg, if_pos h4]
        · simp only [getParentRun, h4, if_true, readFile, resolve_parent cwd hp, hra, hpar]
          rfl
        · rw [srunOutput_iff cwd fs' hp, hra]
          exact f3
        · rw [(isfile_false_iff _ _ _).2 (by rwa [resolve_metadata cwd hp, hra])]
          simp
        · rw [(isfile_iff _ _ _).2 (by rwa [resolve_config cwd hp, hra])]
          simp
      rintro ⟨r, hr⟩
      rw [C42_parent (hfine first hin).1 r f1 f2 f3 hpar] at hr
      have : ∀ t d r, GetState cwd fs' t d r → t = [] → d = abspath cwd first → False := by
        intro t d r hg
        induction hg with
        | done h' => rintro rfl rfl; rw [hbody] at h'; cases h'
        | ask h' _ ih =>
          rintro rfl rfl
          rw [hbody] at h'
          injection h' with a b
          exact ih a.symm b.symm
      exact this _ _ _ hr rfl rfl

/-- Options and a file system with two fresh run directories, to which the theorems apply. -/
def exampleOptions : JobOptions where
  executablePath := "/bin/openmpcd".toList
  executableOptions := "--config config.txt".toList
  slurmOptions := [("-J".toList, "job".toList)]
  srunOptions := [("--gres".toList, some "gpu:1".toList)]
  chunkSize := 2
  excludedNodes := none
  pathTranslator := id

def exampleFS : FS := fun l =>
  if l = ["w".toList, "a".toList] ∨ l = ["w".toList, "b".toList] then some .dir
  else if l = ["w".toList, "a".toList, "config.txt".toList] ∨
    l = ["w".toList, "b".toList, "config.txt".toList] then some (.file [])
  else none

theorem exampleOptions_good : GoodOptions exampleOptions where
  slurmKeys := by decide
  srunKeys := by decide
  noExclude := by decide
  noChdir := by decide
  lines := by
    refine ⟨by decide, ?_, fun n h => (by cases h), by decide, by decide⟩
    intro kv hkv
    have e : kv = ("--gres".toList, some "gpu:1".toList) := List.mem_singleton.1 hkv
    rw [e]
    refine ⟨by decide, ?_⟩
    intro v hv
    injection hv with hv
    rw [← hv]
    decide
  chunk := by decide

theorem exampleFS_fresh (c : Str) (hc : c = "a".toList ∨ c = "b".toList) :
    Fresh exampleFS ["w".toList, c] ∧ Usable exampleFS ["w".toList, c] := by
  have ho : ¬ HasOutput exampleFS ["w".toList, c] := by
    rintro ⟨w, -, h⟩
    apply h
    unfold exampleFS
    rw [if_neg (by simp), if_neg (by simp)]
  rcases hc with rfl | rfl
  · exact ⟨⟨⟨[], by decide⟩, by decide, ho, by decide, by decide⟩,
      ⟨by decide, by decide, by decide, by decide⟩⟩
  · exact ⟨⟨⟨[], by decide⟩, by decide, ho, by decide, by decide⟩,
      ⟨by decide, by decide, by decide, by decide⟩⟩

/-- The hypotheses of `C55_ready` can be met. -/
example : ∃ (cwd : List Str) (o : JobOptions) (fs : FS) (rundirs : List Str),
    rundirs.length = 2 ∧ ValidLoc cwd ∧ GoodOptions o ∧ rundirs.length % o.chunkSize = 0 ∧
    (∀ p ∈ rundirs, Fine cwd o fs p) ∧ (rundirs.map (resolve cwd)).Nodup ∧
    (∀ p ∈ rundirs, abspath cwd p = p) ∧ (∀ p ∈ rundirs, Fresh fs (resolve cwd p)) ∧
    (∀ p ∈ rundirs, applyTranslators [] (o.pathTranslator p) = p) := by
  refine ⟨[], exampleOptions, exampleFS, ["/w/a".toList, "/w/b".toList], rfl, by
    intro x hx; simp at hx, exampleOptions_good, by decide, ?_, by decide, ?_, ?_, ?_⟩
  all_goals
    intro p hp
    simp only [List.mem_cons, List.not_mem_nil, or_false] at hp
  · rcases hp with rfl | rfl
    · exact ⟨by decide, (exampleFS_fresh _ (.inl rfl)).2, by decide⟩
    · exact ⟨by decide, (exampleFS_fresh _ (.inr rfl)).2, by decide⟩
  · rcases hp with rfl | rfl <;> decide
  · rcases hp with rfl | rfl
    · exact (exampleFS_fresh _ (.inl rfl)).1
    · exact (exampleFS_fresh _ (.inr rfl)).1
  · rcases hp with rfl | rfl <;> decide

/-- The hypotheses of `C55_self_parent_violated` can be met: the same directories, given relative to
the working directory. -/
example : ∃ (cwd : List Str) (o : JobOptions) (fs : FS) (rundirs : List Str),
    ValidLoc cwd ∧ GoodOptions o ∧ rundirs.length % o.chunkSize = 0 ∧ rundirs ≠ [] ∧
    (∀ p ∈ rundirs, Fine cwd o fs p) ∧ (rundirs.map (resolve cwd)).Nodup ∧
    (∀ p ∈ rundirs, Fresh fs (resolve cwd p)) ∧ (∀ p ∈ rundirs, abspath cwd p ≠ p) ∧
    (∀ p, o.pathTranslator p = p) := by
  have ha : resolve ["w".toList] "a".toList = ["w".toList, "a".toList] := by decide
  have hb : resolve ["w".toList] "b".toList = ["w".toList, "b".toList] := by decide
  refine ⟨["w".toList], exampleOptions, exampleFS, ["a".toList, "b".toList], by
    intro x hx
    simp only [List.mem_singleton] at hx
    subst hx
    refine ⟨?_, ?_, ?_, ?_⟩ <;> decide, exampleOptions_good, by decide, by simp, ?_, by decide, ?_,
    ?_, fun _ => rfl⟩
  all_goals
    intro p hp
    simp only [List.mem_cons, List.not_mem_nil, or_false] at hp
  · rcases hp with rfl | rfl
    · exact ⟨by decide, by rw [ha]; exact (exampleFS_fresh _ (.inl rfl)).2, by decide⟩
    · exact ⟨by decide, by rw [hb]; exact (exampleFS_fresh _ (.inr rfl)).2, by decide⟩
  · rcases hp with rfl | rfl
    · rw [ha]; exact (exampleFS_fresh _ (.inl rfl)).1
    · rw [hb]; exact (exampleFS_fresh _ (.inr rfl)).1
  · rcases hp with rfl | rfl <;> decide

/-! ## Chains of parents and translators -/

/-- Three run directories on the local machine, `/l/b` in the job of `/l/a`, and `/l/a` in the job of
`/l/c`; the job files name the parents by their paths on the server. -/
def chainFS : FS := fun l =>
  if l = ["l".toList, "a".toList, "config.txt".toList] ∨
    l = ["l".toList, "b".toList, "config.txt".toList] ∨
    l = ["l".toList, "c".toList, "config.txt".toList] ∨
    l = ["l".toList, "c".toList, "input".toList, "job.slrm".toList] then some (.file [])
  else if l = ["l".toList, "b".toList, "input".toList, "parent-job-path.txt".toList] then
    some (.file "/s/a".toList)
  else if l = ["l".toList, "a".toList, "input".toList, "parent-job-path.txt".toList] then
    some (.file "/s/c".toList)
  else none

theorem chainFS_noOutput (d : List Str) : ¬ HasOutput chainFS d := by
  rintro ⟨w, -, h⟩
  apply h
  have hl : (d ++ ["input".toList, "srun-".toList ++ w ++ ".out".toList]).getLast? =
    some ("srun-".toList ++ w ++ ".out".toList) := by simp
  have hne : ∀ (m : List Str) (b : Str), m.getLast? = some b →
      "srun-".toList ++ w ++ ".out".toList ≠ b →
      d ++ ["input".toList, "srun-".toList ++ w ++ ".out".toList] ≠ m :=
    fun m b hm hb => ne_of_getLast? hl hm hb
  unfold chainFS
  rw [if_neg, if_neg, if_neg]
  · exact hne _ "parent-job-path.txt".toList (by decide) (by simp)
  · exact hne _ "parent-job-path.txt".toList (by decide) (by simp)
  · rintro (h | h | h | h)
    · exact hne _ "config.txt".toList (by decide) (by simp) h
    · exact hne _ "config.txt".toList (by decide) (by simp) h
    · exact hne _ "config.txt".toList (by decide) (by simp) h
    · exact hne _ "job.slrm".toList (by decide) (by simp) h

/-- C42 fails along chains of jobs: the translators are not handed on to the parent. Here `/l/a` is
ready, and `/l/b` is in the job of `/l/a`, but asking `/l/b` for its state raises. -/
theorem C42_grandparent_violated :
    let trs := pathTranslatorsServerToLocal [⟨"/s".toList, "/l".toList⟩]
    applyTranslators trs "/s/a".toList = "/l/a".toList ∧
    (∀ r, GetState [] chainFS trs "/l/a".toList r ↔ r = .ok .Ready) ∧
    (∀ r, GetState [] chainFS trs "/l/b".toList r ↔ r = .error .exception) := by
  intro trs
  have ra : resolve [] "/l/a".toList = ["l".toList, "a".toList] := by decide
  have rb : resolve [] "/l/b".toList = ["l".toList, "b".toList] := by decide
  have rc : resolve [] "/l/c".toList = ["l".toList, "c".toList] := by decide
  have rsc : resolve [] "/s/c".toList = ["s".toList, "c".toList] := by decide
  have ta : applyTranslators trs "/s/a".toList = "/l/a".toList := by decide
  have tc : applyTranslators trs "/s/c".toList = "/l/c".toList := by decide
  have t0 : applyTranslators [] "/s/c".toList = "/s/c".toList := rfl
  refine ⟨ta, fun r => ?_, fun r => ?_⟩
  · rw [C42_parent (by decide) r (by rw [ra]; exact ⟨[], by decide⟩)
      (by rw [ra]; rintro ⟨t, ht⟩; exact absurd ht (by simp [chainFS]))
      (chainFS_noOutput _) (text := "/s/c".toList) (by rw [ra]; decide), tc]
    rw [C42_ready (by decide) r (by rw [rc]; exact ⟨[], by decide⟩)
      (by rw [rc]; rintro ⟨t, ht⟩; exact absurd ht (by simp [chainFS]))
      (chainFS_noOutput _) (by rw [rc]; rintro ⟨t, ht⟩; exact absurd ht (by simp [chainFS]))
      (by rw [rc]; decide) (by rw [rc]; exact ⟨[], by decide⟩)]
  · rw [C42_parent (by decide) r (by rw [rb]; exact ⟨[], by decide⟩)
      (by rw [rb]; rintro ⟨t, ht⟩; exact absurd ht (by simp [chainFS]))
      (chainFS_noOutput _) (text := "/s/a".toList) (by rw [rb]; decide), ta]
    rw [C42_parent (by decide) r (by rw [ra]; exact ⟨[], by decide⟩)
      (by rw [ra]; rintro ⟨t, ht⟩; exact absurd ht (by simp [chainFS]))
      (chainFS_noOutput _) (text := "/s/c".toList) (by rw [ra]; decide), t0]
    exact C42_no_config (by decide) r (by rw [rsc]; rintro ⟨t, ht⟩; exact absurd ht (by simp [chainFS]))

end OpenMPCD.Runs
