import Verif.Common

/-!
# The cache of star-polymer results: `StarPolymersAnalysis/Cache.py`
-/

namespace OpenMPCD.Cache

/-- Text. -/
abbrev Str := List Char

/-- The regular files, by path. Directories are not modelled: `storeData` creates the one it needs. -/
abbrev Files := Str → Option Str

/-- The library functions used: YAML dumping and loading of metadata (`load` of a text which is not
YAML raises, `none`). -/
structure Yaml (M : Type) where
  dump : M → Str
  load : Str → Option M

/-- A cache object (`Analysis/MPCDAnalysis/StarPolymersAnalysis/Cache.py:6-22`); `runPath` is
`run.getPath()`. -/
structure CacheObj where
  runPath : Str
  writePath : Option Str

/-- `Cache.getPostProcessingPath` (`Analysis/MPCDAnalysis/StarPolymersAnalysis/Cache.py:25-36`). -/
def getPostProcessingPath (c : CacheObj) (useWritePath : Bool) : Str :=
  match useWritePath, c.writePath with
  | true, some w => w
  | _, _ => c.runPath ++ "/StarPolymers/post-processing".toList

/-- What the process does to the files; a crash can happen between any two of these. Writing is
modelled character by character, which covers every way of buffering. -/
inductive Op where
  | create (path : Str)
  | append (path : Str) (c : Char)

/-- The effect of an operation. -/
def exec (fs : Files) : Op → Files
  | .create p => Function.update fs p (some [])
  | .append p c => Function.update fs p ((fs p).map (· ++ [c]))

/-- The effect of several operations. -/
def run (fs : Files) (ops : List Op) : Files := ops.foldl exec fs

/-- `with open(path, "w") as f: f.write(text)`. -/
def writeOps (path text : Str) : List Op := .create path :: text.map (.append path)

/-- `Cache._storeDataOrderedDict` (`Analysis/MPCDAnalysis/StarPolymersAnalysis/Cache.py:141-156`): the
text written, for the strings of the keys and values. -/
def dictText (data : List (Str × Str)) : Str :=
  data.flatMap fun kv => kv.1 ++ "\t".toList ++ kv.2 ++ "\n".toList

/-- The operations of `Cache.storeData` (`Analysis/MPCDAnalysis/StarPolymersAnalysis/Cache.py:39-63`)
for an `OrderedDict` (`some`), or for data of another type (`none`), for which it raises at the end. -/
def storeOps {M : Type} (y : Yaml M) (c : CacheObj) (filename : Str)
    (data : Option (List (Str × Str))) (metadata : M) : List Op :=
  let filepath := getPostProcessingPath c true ++ "/".toList ++ filename
  writeOps (filepath ++ ".metadata".toList) (y.dump metadata) ++
    match data with
    | some d => writeOps filepath (dictText d)
    | none => []

/-- `Cache.hasData` (`Analysis/MPCDAnalysis/StarPolymersAnalysis/Cache.py:66-92`). -/
def hasData {M : Type} [DecidableEq M] (y : Yaml M) (c : CacheObj) (fs : Files) (filename : Str)
    (metadata : M) : Except PyErr Bool :=
  let filepath := getPostProcessingPath c false ++ "/".toList ++ filename
  match fs (filepath ++ ".metadata".toList) with
  | none => .ok false
  | some text =>
    match fs filepath with
    | none => .ok false
    | some _ =>
      match y.load text with
      | none => .error .exception
      | some stored => .ok (stored = metadata)

/-- White space, in the sense of `str.split(None)`; only ASCII is modelled. -/
def isSpace (c : Char) : Bool :=
  c = ' ' ∨ c = '\t' ∨ c = '\n' ∨ c = '\r' ∨ c = '\x0b' ∨ c = '\x0c' ∨
    (0x1c ≤ c.toNat ∧ c.toNat ≤ 0x1f)

/-- `key, value = line.split(None, 1)`: raises `ValueError` unless there are two parts. -/
def splitLine (line : Str) : Except PyErr (Str × Str) :=
  let l := line.dropWhile isSpace
  let key := l.takeWhile (fun c => !isSpace c)
  let value := (l.dropWhile (fun c => !isSpace c)).dropWhile isSpace
  if value = [] then .error .valueError else .ok (key, value)

/-- The lines of a file, each with its newline. -/
def fileLines : Str → List Str
  | [] => []
  | c :: cs =>
    if c = '\n' then [c] :: fileLines cs
    else match fileLines cs with
      | [] => [[c]]
      | l :: ls => (c :: l) :: ls

/-- Assigning to a key of an ordered dictionary. -/
def dictSet {K V : Type} [DecidableEq K] : List (K × V) → K → V → List (K × V)
  | [], k, v => [(k, v)]
  | (k', v') :: rest, k, v => if k' = k then (k, v) :: rest else (k', v') :: dictSet rest k v

/-- The loop over the lines
(`Analysis/MPCDAnalysis/StarPolymersAnalysis/Cache.py:130-135`). -/
def readLines {K V : Type} [DecidableEq K] (keyInterpreter : Str → Except PyErr K)
    (valueInterpreter : Str → Except PyErr V) :
    List Str → List (K × V) → Except PyErr (List (K × V))
  | [], ret => .ok ret
  | line :: rest, ret =>
    match splitLine line with
    | .error e => .error e
    | .ok (key, value) =>
      match keyInterpreter key with
      | .error e => .error e
      | .ok k =>
        match valueInterpreter value with
        | .error e => .error e
        | .ok v => readLines keyInterpreter valueInterpreter rest (dictSet ret k v)

/-- `Cache.getDataOrderedDict`
(`Analysis/MPCDAnalysis/StarPolymersAnalysis/Cache.py:95-137`). -/
def getDataOrderedDict {M K V : Type} [DecidableEq M] [DecidableEq K] (y : Yaml M) (c : CacheObj)
    (fs : Files) (filename : Str) (metadata : M) (keyInterpreter : Str → Except PyErr K)
    (valueInterpreter : Str → Except PyErr V) : Except PyErr (List (K × V)) :=
  match hasData y c fs filename metadata with
  | .error e => .error e
  | .ok false => .error .runtimeError
  | .ok true =>
    let filepath := getPostProcessingPath c false ++ "/".toList ++ filename
    match fs filepath with
    | none => .error .osError
    | some text => readLines keyInterpreter valueInterpreter (fileLines text) []

end OpenMPCD.Cache
