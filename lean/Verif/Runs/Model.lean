import Verif.Runs.Paths

/-!
# Runs and their management: `Run.py` and `DataManager.py`
-/

namespace OpenMPCD.Runs

/-! ## `Run` -/

/-- `Run.RunState` (`Analysis/MPCDAnalysis/Run.py:11-30`). -/
inductive RunState where
  | Ready | Submitted | Running | Completed
  deriving DecidableEq, Repr

/-- `Run._applyPathTranslatorsServerToLocal` (`Analysis/MPCDAnalysis/Run.py:179-189`). -/
def applyTranslators (trs : List (Str → Str)) (s : Str) : Str :=
  trs.foldl (fun ret translator => translator ret) s

/-- Whether `glob.glob(rundir + "/input/srun-*.out")` finds something
(`Analysis/MPCDAnalysis/Run.py:95`). Simplification: the run directory's own name contains none of
the characters which `glob` treats specially. -/
def srunOutput (cwd : List Str) (fs : FS) (rundir : Str) : Prop :=
  ∃ w : Str, '/' ∉ w ∧
    pathExists cwd fs (rundir ++ "/input/srun-".toList ++ w ++ ".out".toList) = true

/-- `Run.hasParentRun` (`Analysis/MPCDAnalysis/Run.py:110-118`). -/
def hasParentRun (cwd : List Str) (fs : FS) (rundir : Str) : Bool :=
  isfile cwd fs (rundir ++ "/input/parent-job-path.txt".toList)

/-- `Run._getParentRun` (`Analysis/MPCDAnalysis/Run.py:192-205`): the path and the translators of
the run returned. A parent is created without path translators. -/
def getParentRun (cwd : List Str) (fs : FS) (trs : List (Str → Str)) (rundir : Str) :
    Except PyErr (List (Str → Str) × Str) :=
  if hasParentRun cwd fs rundir then
    match readFile cwd fs (rundir ++ "/input/parent-job-path.txt".toList) with
    | .ok text => .ok ([], applyTranslators trs text)
    | .error e => .error e
  else .ok (trs, rundir)

/-- What the body of `getState` does: return or raise, or ask another run. -/
inductive Step where
  | done (r : Except PyErr RunState)
  | ask (trs : List (Str → Str)) (rundir : Str)

open Classical in
/-- The body of `Run.getState` (`Analysis/MPCDAnalysis/Run.py:81-107`), up to the recursive call. -/
noncomputable def getStateBody (cwd : List Str) (fs : FS) (trs : List (Str → Str)) (rundir : Str) :
    Step :=
  if isfile cwd fs (rundir ++ "/config.txt".toList) = false then .done (.error .exception)
  else if isfile cwd fs (rundir ++ "/metadata.txt".toList) then .done (.ok .Completed)
  else if srunOutput cwd fs rundir then .done (.ok .Running)
  else if hasParentRun cwd fs rundir then
    match getParentRun cwd fs trs rundir with
    | .ok (trs', parent) => .ask trs' parent
    | .error e => .done (.error e)
  else if pathExists cwd fs (rundir ++ "/input/jobid".toList) then .done (.ok .Submitted)
  else if isfile cwd fs (rundir ++ "/input/job.slrm".toList) then .done (.ok .Ready)
  else .done (.error .exception)

/-- `Run.getState` (`Analysis/MPCDAnalysis/Run.py:81-107`): the call for `rundir` ends with the
result `r`. A call which recurses for ever has no result; Python's recursion limit is not modelled.
-/
inductive GetState (cwd : List Str) (fs : FS) :
    List (Str → Str) → Str → Except PyErr RunState → Prop
  | done {trs rundir r} : getStateBody cwd fs trs rundir = .done r → GetState cwd fs trs rundir r
  | ask {trs rundir trs' parent r} : getStateBody cwd fs trs rundir = .ask trs' parent →
      GetState cwd fs trs' parent r → GetState cwd fs trs rundir r

/-- The lines of a file: the pieces between newlines; the empty piece behind a final newline does
not start with anything. -/
def countSrunLines (text : Str) : ℕ :=
  ((splitChar '\n' text).filter (fun line => "srun".toList.isPrefixOf line)).length

/-- `Run.getJobBatchSize` (`Analysis/MPCDAnalysis/Run.py:121-136`). -/
def getJobBatchSize (cwd : List Str) (fs : FS) (trs : List (Str → Str)) (rundir : Str) :
    Except PyErr ℕ :=
  match getParentRun cwd fs trs rundir with
  | .error e => .error e
  | .ok (_, top) =>
    match readFile cwd fs (top ++ "/input/job.slrm".toList) with
    | .error e => .error e
    | .ok text => if 0 < countSrunLines text then .ok (countSrunLines text)
                  else .error .assertionError

/-! ## `DataManager`: path translators -/

/-- An entry of `pathTranslators` in the configuration file. -/
structure Translator where
  server : Str
  loc : Str

/-- The value of a closure created in a loop body: a function of the values the enclosing
function's variables have when the closure is *called*. Here the only variable is `translator`. -/
abbrev Closure := Translator → Str → Str

/-- The closures appended to `self.pathTranslatorsServerToLocal` in the constructor
(`Analysis/MPCDAnalysis/DataManager.py:90-93`): one per configured translator, each reading the
variable `translator` when called. -/
def createdClosures (config : List Translator) : List Closure :=
  config.map (fun _ => fun translator x => pyReplace translator.server translator.loc x)

/-- The functions which the closures are after the constructor has finished: the variable
`translator` then has the value of the last iteration
(`Analysis/MPCDAnalysis/DataManager.py:90-93`). -/
def pathTranslatorsServerToLocal (config : List Translator) : List (Str → Str) :=
  match config.getLast? with
  | none => []
  | some last => (createdClosures config).map (fun f => f last)

/-- `pathTranslator` of the selected project (`Analysis/MPCDAnalysis/DataManager.py:190-196`). -/
def projectPathTranslator (localroot serverroot path : Str) : Str :=
  if localroot.isPrefixOf path then serverroot ++ path.drop localroot.length else path

/-! ## `DataManager`: creating run directories -/

/-- The name assembled at `Analysis/MPCDAnalysis/DataManager.py:469-476`. `None` (no
`rundirNamePrefix`) cannot be extended: `None += str` and `str + None` raise `TypeError`. -/
def rundirName (rundirNamePrefix : Option Str) (pathComponents : List Str) : Except PyErr Str :=
  match rundirNamePrefix with
  | none => .error .typeError
  | some pre => .ok (pathComponents.foldl
      (fun acc c => (if acc = [] then acc else acc ++ "---".toList) ++ c) pre)

/-- The path tried in iteration `x` (`Analysis/MPCDAnalysis/DataManager.py:480-483`). -/
def candidate (basePath name : Str) (x : ℕ) : Str :=
  basePath ++ "/".toList ++ name ++ "---".toList ++ zeroPadded 4 x

/-- The loop over the numbers (`Analysis/MPCDAnalysis/DataManager.py:479-489`); `none` stands for
Python's `None`, returned when the loop ends without `return`. -/
def tryNumbers (cwd : List Str) (fs : FS) (basePath name config : Str) :
    List ℕ → FS × Except PyErr (Option Str)
  | [] => (fs, .ok none)
  | x :: xs =>
    let path := candidate basePath name x
    if pathExists cwd fs path then tryNumbers cwd fs basePath name config xs
    else match mkdir cwd fs path with
      | (fs1, .error e) => (fs1, .error e)
      | (fs1, .ok ()) => match writeFile cwd fs1 (path ++ "/config.txt".toList) config with
        | (fs2, .error e) => (fs2, .error e)
        | (fs2, .ok ()) => (fs2, .ok (some path))

/-- `DataManager.createRundirByTargetDataSpecification`
(`Analysis/MPCDAnalysis/DataManager.py:452-489`) for a selected project whose local base path is
`root`; `config` is `str(specification["config"])`. -/
def createRundir (cwd : List Str) (fs : FS) (root : Str) (rundirNamePrefix : Option Str)
    (pathComponents : List Str) (config : Str) : FS × Except PyErr (Option Str) :=
  let basePath := root ++ "/jobs".toList
  if isdir cwd fs basePath = false then (fs, .error .valueError)
  else match rundirName rundirNamePrefix pathComponents with
    | .error e => (fs, .error e)
    | .ok name => tryNumbers cwd fs basePath name config (List.range (10 ^ 4))

/-! ## `DataManager`: job scripts -/

/-- The arguments of `createSlurmJobScripts` (`Analysis/MPCDAnalysis/DataManager.py:492-496`) other
than the run directories. The option dictionaries are listed in iteration order. -/
structure JobOptions where
  executablePath : Str
  executableOptions : Str
  slurmOptions : List (Str × Str)
  srunOptions : List (Str × Option Str)
  chunkSize : ℕ
  excludedNodes : Option Str
  pathTranslator : Str → Str

/-- The character between option and value, decided by `key[1]`
(`Analysis/MPCDAnalysis/DataManager.py:590-593,620-623`). -/
def optionSeparator (key : Str) : Except PyErr Str :=
  match key[1]? with
  | none => .error .indexError
  | some c => .ok (if c = '-' then "=".toList else " ".toList)

/-- The `#SBATCH` lines (`Analysis/MPCDAnalysis/DataManager.py:588-599`). -/
def sbatchLines (rundir : Str) (jobs : ℕ) : List (Str × Str) → Except PyErr Str
  | [] => .ok []
  | (key, value) :: rest =>
    match optionSeparator key with
    | .error e => .error e
    | .ok sep => match sbatchLines rundir jobs rest with
      | .error e => .error e
      | .ok text =>
        .ok ("#SBATCH ".toList ++ key ++ sep ++
          pyReplace "$JOBS_PER_NODE".toList (natStr jobs) (pyReplace "$RUNDIR".toList rundir value) ++
          "\n".toList ++ text)

/-- The options of one `srun` line (`Analysis/MPCDAnalysis/DataManager.py:617-624`). -/
def srunOptionText (absolutePath : Str) : List (Str × Option Str) → Except PyErr Str
  | [] => .ok []
  | (key, none) :: rest =>
    match srunOptionText absolutePath rest with
    | .error e => .error e
    | .ok text => .ok (" ".toList ++ key ++ text)
  | (key, some value) :: rest =>
    match optionSeparator key with
    | .error e => .error e
    | .ok sep => match srunOptionText absolutePath rest with
      | .error e => .error e
      | .ok text =>
        .ok (" ".toList ++ key ++ sep ++ pyReplace "$RUNDIR".toList absolutePath value ++ text)

/-- One `srun` line (`Analysis/MPCDAnalysis/DataManager.py:612-629`). -/
def srunLine (o : JobOptions) (absolutePath : Str) : Except PyErr Str :=
  match srunOptionText absolutePath o.srunOptions with
  | .error e => .error e
  | .ok opts =>
    .ok ("srun".toList ++ " --chdir='".toList ++ absolutePath ++ "/input'".toList ++ opts ++
      " '".toList ++ o.executablePath ++ "'".toList ++ " ".toList ++ o.executableOptions ++
      " --rundir '".toList ++ absolutePath ++ "'".toList ++ " & \n".toList)

/-- `if not os.path.isdir(d): os.mkdir(d)`
(`Analysis/MPCDAnalysis/DataManager.py:582-583,604-605`). -/
def ensureDir (cwd : List Str) (fs : FS) (d : Str) : FS × Except PyErr Unit :=
  if isdir cwd fs d then (fs, .ok ()) else mkdir cwd fs d

/-- The inner loop over the run directories of a chunk
(`Analysis/MPCDAnalysis/DataManager.py:603-629`); the result is the text appended to the script. -/
def chunkLoop (cwd : List Str) (o : JobOptions) (jobfileRundirPath : Str) :
    List Str → FS → FS × Except PyErr Str
  | [], fs => (fs, .ok [])
  | rundir :: rest, fs =>
    match ensureDir cwd fs (rundir ++ "/input".toList) with
    | (fs1, .error e) => (fs1, .error e)
    | (fs1, .ok ()) =>
      match (if rundir ≠ jobfileRundirPath then
          writeFile cwd fs1 (rundir ++ "/input/parent-job-path.txt".toList)
            (o.pathTranslator jobfileRundirPath)
        else (fs1, .ok ())) with
      | (fs2, .error e) => (fs2, .error e)
      | (fs2, .ok ()) =>
        match srunLine o (o.pathTranslator (abspath cwd rundir)) with
        | .error e => (fs2, .error e)
        | .ok line =>
          match chunkLoop cwd o jobfileRundirPath rest fs2 with
          | (fs3, .error e) => (fs3, .error e)
          | (fs3, .ok text) => (fs3, .ok (line ++ text))

/-- `mySlurmOptions` (`Analysis/MPCDAnalysis/DataManager.py:580,585-586`). -/
def mySlurmOptions (o : JobOptions) : List (Str × Str) :=
  match o.excludedNodes with
  | none => o.slurmOptions
  | some nodes => o.slurmOptions ++ [("--exclude".toList, nodes)]

/-- The body of the loop over the chunks (`Analysis/MPCDAnalysis/DataManager.py:574-637`); `chunk` is
not empty. -/
def processChunk (cwd : List Str) (o : JobOptions) (first : Str) (others : List Str) (fs : FS) :
    FS × Except PyErr Str :=
  let jobfileRundirPath := abspath cwd first
  let jobfilePath := jobfileRundirPath ++ "/input/job.slrm".toList
  match ensureDir cwd fs (jobfileRundirPath ++ "/input".toList) with
  | (fs1, .error e) => (fs1, .error e)
  | (fs1, .ok ()) =>
    match sbatchLines (o.pathTranslator jobfileRundirPath) (others.length + 1)
        (mySlurmOptions o) with
    | .error e => (fs1, .error e)
    | .ok header =>
      match chunkLoop cwd o jobfileRundirPath (first :: others) fs1 with
      | (fs2, .error e) => (fs2, .error e)
      | (fs2, .ok body) =>
        match writeFile cwd fs2 jobfilePath
            ("#!/bin/bash".toList ++ "\n".toList ++ header ++ "\n".toList ++ body ++
              "wait".toList ++ "\n".toList) with
        | (fs3, .error e) => (fs3, .error e)
        | (fs3, .ok ()) => (fs3, .ok (o.pathTranslator jobfilePath))

/-- The chunks (`Analysis/MPCDAnalysis/DataManager.py:567-571`), for a positive chunk size. -/
def chunks (size : ℕ) (rundirs : List Str) : List (List Str) :=
  (List.range ((rundirs.length + size - 1) / size)).map
    (fun k => (rundirs.drop (k * size)).take size)

/-- The loop over the chunks (`Analysis/MPCDAnalysis/DataManager.py:574-639`). -/
def processChunks (cwd : List Str) (o : JobOptions) :
    List (List Str) → FS → FS × Except PyErr (List Str)
  | [], fs => (fs, .ok [])
  | [] :: _, fs => (fs, .error .indexError)
  | (first :: others) :: rest, fs =>
    match processChunk cwd o first others fs with
    | (fs1, .error e) => (fs1, .error e)
    | (fs1, .ok job) =>
      match processChunks cwd o rest fs1 with
      | (fs2, .error e) => (fs2, .error e)
      | (fs2, .ok jobs) => (fs2, .ok (job :: jobs))

/-- `DataManager.createSlurmJobScripts` (`Analysis/MPCDAnalysis/DataManager.py:492-639`) with
`pathTranslator` given (`None` means the identity). -/
def createSlurmJobScripts (cwd : List Str) (fs : FS) (rundirs : List Str) (o : JobOptions) :
    FS × Except PyErr (List Str) :=
  if o.chunkSize = 0 then (fs, .error .zeroDivisionError)
  else if rundirs.length % o.chunkSize ≠ 0 then (fs, .error .exception)
  else if o.excludedNodes.isSome ∧ (["-w", "--nodelist", "-x", "--exclude"].any
      (fun x => x.toList ∈ o.slurmOptions.map Prod.fst)) = true then (fs, .error .valueError)
  else if (["-D", "--chdir"].any (fun x => x.toList ∈ o.srunOptions.map Prod.fst)) = true then
    (fs, .error .valueError)
  else processChunks cwd o (chunks o.chunkSize rundirs) fs

/-! ## `DataManager`: node lists -/

/-- `DataManager._makeSlurmNodeList` (`Analysis/MPCDAnalysis/DataManager.py:856-867`). -/
def makeSlurmNodeList (nodes : List Str) : Str :=
  nodes.foldl (fun ret node => (if ret = [] then ret else ret ++ ",".toList) ++ node) []

/-- A match of `\[([0-9]+)-([0-9]+)\]` at the beginning of the text
(`Analysis/MPCDAnalysis/DataManager.py:885`): the two groups and what follows. -/
def matchHere : Str → Option (Str × Str × Str)
  | '[' :: s =>
    let a := s.takeWhile Char.isDigit
    match s.dropWhile Char.isDigit with
    | '-' :: t =>
      let b := t.takeWhile Char.isDigit
      match t.dropWhile Char.isDigit with
      | ']' :: rest => if a = [] ∨ b = [] then none else some (a, b, rest)
      | _ => none
    | _ => none
  | _ => none

/-- The leftmost match: what precedes it, its groups, and what follows. -/
def findMatch : Str → Option (Str × Str × Str × Str)
  | [] => none
  | c :: cs =>
    match matchHere (c :: cs) with
    | some (a, b, rest) => some ([], a, b, rest)
    | none => match findMatch cs with
      | some (pre, a, b, rest) => some (c :: pre, a, b, rest)
      | none => none

/-- `parts[0]`, `parts[1]`, `parts[2]`, `parts[3]` of `re.split(regex, nodeList)` if there is a
match (`Analysis/MPCDAnalysis/DataManager.py:886-889`). `parts[3]` ends where the next match begins.
-/
def splitRegex (s : Str) : Option (Str × Str × Str × Str) :=
  match findMatch s with
  | none => none
  | some (pre, a, b, rest) =>
    some (pre, a, b, match findMatch rest with
      | none => rest
      | some (between, _, _, _) => between)

/-- `range(start, end + 1)`. -/
def rangeIncl (start stop : ℕ) : List ℕ := (List.range (stop + 1 - start)).map (start + ·)

/-- `DataManager._parseSlrumNodeList` (`Analysis/MPCDAnalysis/DataManager.py:870-896`) for a text
without commas. The recursion is bounded by `fuel`; `parsePart` below supplies enough. -/
def parsePartFuel : ℕ → Str → List Str
  | 0, s => [s]
  | fuel + 1, s =>
    match splitRegex s with
    | none => [s]
    | some (pre, a, b, suffix) =>
      (rangeIncl (digitsValue a) (digitsValue b)).flatMap
        (fun n => parsePartFuel fuel (pre ++ natStr n ++ suffix))

/-- `DataManager._parseSlrumNodeList` (`Analysis/MPCDAnalysis/DataManager.py:870-896`) for a text
without commas: every level of the recursion removes an opening bracket, so that there are at most
as many levels as opening brackets. -/
def parsePart (s : Str) : List Str := parsePartFuel (s.count '[') s

/-- `DataManager._parseSlrumNodeList` (`Analysis/MPCDAnalysis/DataManager.py:870-896`). -/
def parseSlurmNodeList (s : Str) : List Str :=
  if ',' ∈ s then (splitChar ',' s).flatMap parsePart else parsePart s

end OpenMPCD.Runs
