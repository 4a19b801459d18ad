import Verif.Snapshot.Structure
import Verif.Runs.Paths
import Mathlib.Data.List.Infix

/-!
# Snapshot files: text

Model of reading and writing (`src/OpenMPCD/VTFSnapshotFile.cpp`).
-/

set_option linter.unusedSimpArgs false

namespace OpenMPCD.Snapshot

open Runs (natStr digitsValue)

/-- Conversion of floating-point numbers from and to text, and the comparison of numbers with 0:
`operator<<` with `digits10 + 2` digits (`src/OpenMPCD/VTFSnapshotFile.cpp:49-52`), `lexicalCast<FP>`
(`include/OpenMPCD/VTFSnapshotFile.hpp:506-516`; `none`: it throws). -/
structure Io (FP : Type) where
  fmt : FP → Str
  parse : Str → Option FP
  negative : FP → Bool

/-- White space of regular expressions (`\s`). -/
def isSpace (c : Char) : Bool :=
  c = ' ' || c = '\t' || c = '\n' || c = '\r' || c = '\x0b' || c = '\x0c'

/-! ## The stream -/

/-- The state of the `std::fstream` in read mode: text not yet extracted, and `eofbit`. Input and output
errors do not occur. -/
structure Stream where
  rest : Str
  eof : Bool
  deriving DecidableEq

/-- `std::getline`: the line, what follows it, and whether the end of the file was reached. -/
def splitLine : Str → Str × Str × Bool
  | [] => ([], [], true)
  | c :: r => if c = '\n' then ([], r, false) else
      (c :: (splitLine r).1, (splitLine r).2)

/-- `stripLeadingWhitespace` (`src/OpenMPCD/VTFSnapshotFile.cpp:865-875`). -/
def strip (s : Str) : Str := s.dropWhile fun c => c = ' ' || c = '\t' || c = '\n'

/-- `getLine` (`src/OpenMPCD/VTFSnapshotFile.cpp:823-863`). -/
def getLine (extract : Bool) (st : Stream) : Str × Stream :=
  if st.eof then ([], st)
  else if st.rest = [] then ([], { st with eof := true })
  else
    (strip (splitLine st.rest).1,
      if extract then ⟨(splitLine st.rest).2.1, (splitLine st.rest).2.2⟩ else st)

theorem splitLine_length {s : Str} (h : s ≠ []) : (splitLine s).2.1.length < s.length := by
  induction s with
  | nil => exact absurd rfl h
  | cons c r ih =>
    simp only [splitLine]
    split
    · simp
    · by_cases hr : r = []
      · subst hr; simp [splitLine]
      · have := ih hr
        simp only [List.length_cons]
        omega

/-- Decreases whenever a line is extracted. -/
def Stream.size (st : Stream) : ℕ := st.rest.length + (!st.eof).toNat

theorem getLine_size {st : Stream} (h : st.eof = false) : (getLine true st).2.size < st.size := by
  unfold getLine Stream.size
  rw [if_neg (by simp [h])]
  by_cases hr : st.rest = []
  · rw [if_pos hr]; simp [h]
  · rw [if_neg hr]
    have := splitLine_length hr
    simp only [if_true]
    simp only [h, Bool.not_false, Bool.toNat_true]
    have h2 : ∀ b : Bool, (!b).toNat ≤ 1 := by decide
    have := h2 (splitLine st.rest).2.2
    omega

theorem getLine_false_rest {st : Stream} (h : (getLine false st).2.eof = false) : (getLine false st).2 = st := by
  unfold getLine at *
  by_cases he : st.eof = true
  · rw [if_pos he] at h; rw [if_pos he]
  · rw [if_neg he] at h ⊢
    by_cases hr : st.rest = []
    · rw [if_pos hr] at h; cases h
    · rw [if_neg hr]; rfl

/-! ## Tokens -/

/-- `boost::tokenizer` with `char_separator(" \t")`
(`src/OpenMPCD/VTFSnapshotFile.cpp:493-495`): `acc` is the token being read; empty tokens are dropped. -/
def tokensGo : Str → Str → List Str
  | acc, [] => if acc = [] then [] else [acc]
  | acc, c :: r =>
    if c = ' ' || c = '\t' then
      if acc = [] then tokensGo [] r else acc :: tokensGo [] r
    else tokensGo (acc ++ [c]) r

def tokens (s : Str) : List Str := tokensGo [] s

/-- `boost::regex_replace(line, "\\s*,\\s*", ", ")` (`src/OpenMPCD/VTFSnapshotFile.cpp:490-491`): `ws` is
white space read, of which it is not known yet whether a comma follows; after a comma, `skip` holds. -/
def replaceCommaGo : Str → Bool → Str → Str
  | ws, _, [] => ws
  | ws, skip, c :: r =>
    if c = ',' then ',' :: ' ' :: replaceCommaGo [] true r
    else if isSpace c then
      if skip then replaceCommaGo [] true r else replaceCommaGo (ws ++ [c]) false r
    else ws ++ c :: replaceCommaGo [] false r

def replaceComma (s : Str) : Str := replaceCommaGo [] false s

/-- Fields separated by white space. -/
def wordsGo : Str → Str → List Str
  | acc, [] => if acc = [] then [] else [acc]
  | acc, c :: r =>
    if isSpace c then
      if acc = [] then wordsGo [] r else acc :: wordsGo [] r
    else wordsGo (acc ++ [c]) r

def words (s : Str) : List Str := wordsGo [] s

/-! ## Reading the structure block -/

section
variable {FP : Type} (io : Io FP)

/-- `lexicalCast<FP>` (`include/OpenMPCD/VTFSnapshotFile.hpp:506-516`). -/
def castFP (s : Str) : Except Err FP :=
  match io.parse s with
  | some x => .ok x
  | none => .error .malformedFile

/-- `readUnitcellLine` (`src/OpenMPCD/VTFSnapshotFile.cpp:421-458`). The regular expression matches
exactly the lines with the given first word, and three or six further words, up to white space. -/
def readUnitcellLine (s : Snap FP) (line : Str) : Except Err (Snap FP) :=
  match words line with
  | kind :: a :: b :: c :: rest =>
    if (kind = "p".toList ∨ kind = "pbc".toList ∨ kind = "u".toList ∨ kind = "unitcell".toList) ∧
        (rest.length = 0 ∨ rest.length = 3) ∧ line.head?.any (fun c => !isSpace c) then do
      let x ← castFP io a
      let y ← castFP io b
      let z ← castFP io c
      return { s with volume := some (x, y, z) }
    else .error .malformedFile
  | _ => .error .malformedFile

/-- A match of `([0-9]+)(?::([0-9]+))?(,)?` (`src/OpenMPCD/VTFSnapshotFile.cpp:497`): the two numbers
and whether there is a comma. -/
def aidMatch (t : Str) : Option (ℕ × Option ℕ × Bool) :=
  let d := t.takeWhile Char.isDigit
  if d = [] then none
  else match t.dropWhile Char.isDigit with
    | [] => some (digitsValue d, none, false)
    | [','] => some (digitsValue d, none, true)
    | ':' :: r =>
      let e := r.takeWhile Char.isDigit
      if e = [] then none
      else match r.dropWhile Char.isDigit with
        | [] => some (digitsValue d, some (digitsValue e), false)
        | [','] => some (digitsValue d, some (digitsValue e), true)
        | _ => none
    | _ => none

/-- The option names (`src/OpenMPCD/VTFSnapshotFile.cpp:559-572`). -/
inductive Opt | name | type | radius
  deriving DecidableEq

/-- The variables of `readAtomLine` (`src/OpenMPCD/VTFSnapshotFile.cpp:500-504`). -/
structure AtomLine (FP : Type) where
  properties : AtomProps FP
  newRanges : List (ℕ × ℕ) := []
  optionName : Option Opt := none
  isNewDefault : Bool := false
  expectAID : Bool := true

/-- The body of the loop of `readAtomLine` (`src/OpenMPCD/VTFSnapshotFile.cpp:507-606`), without the
treatment of the first token. -/
def atomToken (st : AtomLine FP) (tok : Str) : Except Err (AtomLine FP) :=
  if st.expectAID = true ∧ (tok = "default".toList ∨ tok = "default,".toList) then
    .ok { st with expectAID := decide (tok = "default,".toList), isNewDefault := true }
  else if st.expectAID = true then
    match aidMatch tok with
    | some (first, last?, comma) =>
      let last := last?.getD first
      if last < first then .error .malformedFile
      else .ok { st with newRanges := st.newRanges ++ [(first, last)], expectAID := comma }
    | none => .error .malformedFile
  else
    match st.optionName with
    | none =>
      if tok = "n".toList ∨ tok = "name".toList then .ok { st with optionName := some .name }
      else if tok = "t".toList ∨ tok = "type".toList then .ok { st with optionName := some .type }
      else if tok = "r".toList ∨ tok = "radius".toList then .ok { st with optionName := some .radius }
      else .error .malformedFile
    | some .name =>
      if tok.length > 16 then .error .malformedFile
      else .ok { st with properties := { st.properties with name := some tok }, optionName := none }
    | some .type =>
      if tok.length > 16 then .error .malformedFile
      else .ok { st with properties := { st.properties with type := some tok }, optionName := none }
    | some .radius => do
      let r ← castFP io tok
      if io.negative r then .error .malformedFile
      else .ok { st with properties := { st.properties with radius := some r }, optionName := none }

/-- `readAtomLine` (`src/OpenMPCD/VTFSnapshotFile.cpp:485-624`), in builds without `OPENMPCD_DEBUG`. -/
def readAtomLine (s : Snap FP) (line : Str) : Except Err (Snap FP) := do
  let toks := tokens (replaceComma line)
  let toks := match toks with
    | t :: ts => if t = "a".toList ∨ t = "atom".toList then ts else t :: ts
    | [] => []
  let st ← toks.foldlM (atomToken io) ({ properties := s.defaultAtomProperties } : AtomLine FP)
  if st.optionName ≠ none then .error .malformedFile
  else
    let dflt := if st.isNewDefault then st.properties else s.defaultAtomProperties
    return { s with
      defaultAtomProperties := dflt,
      atomRanges := st.newRanges.foldl (fun rs r => setAtomRange dflt rs ⟨r.1, r.2, st.properties⟩)
        s.atomRanges }

/-- A match of `([0-9]+)(::?)([0-9]+)(,)?` (`src/OpenMPCD/VTFSnapshotFile.cpp:740`): first number, whether
there are two colons, second number, whether there is a comma. -/
def bondMatch (t : Str) : Option (ℕ × Bool × ℕ × Bool) :=
  let d := t.takeWhile Char.isDigit
  let finish (chain : Bool) (r : Str) : Option (ℕ × Bool × ℕ × Bool) :=
    let e := r.takeWhile Char.isDigit
    if e = [] then none
    else match r.dropWhile Char.isDigit with
      | [] => some (digitsValue d, chain, digitsValue e, false)
      | [','] => some (digitsValue d, chain, digitsValue e, true)
      | _ => none
  if d = [] then none
  else match t.dropWhile Char.isDigit with
    | ':' :: ':' :: r => finish true r
    | ':' :: r => finish false r
    | _ => none

/-- Adding a bond (`src/OpenMPCD/VTFSnapshotFile.cpp:784-795,801-812`). -/
def addBond (s : Snap FP) (bond : ℕ × ℕ) : Except Err (Snap FP) :=
  if bond ∈ s.bonds then .error .malformedFile
  else .ok { s with bonds := setInsert bond s.bonds }

/-- The body of the loop of `readBondLine` (`src/OpenMPCD/VTFSnapshotFile.cpp:743-820`); second
component: `expectBondSpecifier`. -/
def bondToken (st : Snap FP × Bool) (tok : Str) : Except Err (Snap FP × Bool) :=
  if ¬ st.2 then .error .malformedFile
  else match bondMatch tok with
    | none => .error .malformedFile
    | some (first, chain, last, comma) =>
      if last ≤ first then .error .malformedFile
      else if ¬ first < numberOfAtoms st.1.atomRanges ∨ ¬ last < numberOfAtoms st.1.atomRanges then
        .error .malformedFile
      else do
        let s ← if chain then
            (List.range' first (last - first)).foldlM (fun s current => addBond s (current, current + 1)) st.1
          else addBond st.1 (first, last)
        return (s, comma)

/-- `readBondLine` (`src/OpenMPCD/VTFSnapshotFile.cpp:728-821`). -/
def readBondLine (s : Snap FP) (line : Str) : Except Err (Snap FP) := do
  let toks := tokens (replaceComma line)
  let toks := match toks with
    | t :: ts => if t = "b".toList ∨ t = "bond".toList then ts else t :: ts
    | [] => []
  let (s, _) ← toks.foldlM bondToken (s, true)
  return s

/-- The body of the loop of `readStructureBlock` (`src/OpenMPCD/VTFSnapshotFile.cpp:386-412`); `none`:
`break`. -/
def structureLine (s : Snap FP) (line : Str) : Except Err (Option (Snap FP)) :=
  match line with
  | [] => .ok (some s)
  | c :: _ =>
    if c = '#' then .ok (some s)
    else if c = 'b' then (readBondLine s line).map some
    else if c = 'p' ∨ c = 'u' then (readUnitcellLine io s line).map some
    else if c = 't' ∨ c = 'c' ∨ c = 'i' ∨ c = 'o' then .ok none
    else (readAtomLine io s line).map some

/-- `readStructureBlock` (`src/OpenMPCD/VTFSnapshotFile.cpp:377-419`). -/
def readStructureBlock (s : Snap FP) (st : Stream) : Except Err (Snap FP × Stream) :=
  if st.eof then .ok ({ s with structureBlockProcessed := true }, st)
  else if _h : (getLine false st).2.eof then
    .ok ({ s with structureBlockProcessed := true }, (getLine false st).2)
  else
    match structureLine io s (getLine false st).1 with
    | .error e => .error e
    | .ok none => .ok ({ s with structureBlockProcessed := true }, (getLine false st).2)
    | .ok (some s') => readStructureBlock s' (getLine true (getLine false st).2).2
termination_by st.size
decreasing_by
  have h' : (getLine false st).2.eof = false := by simpa using _h
  have := getLine_size h'
  rw [getLine_false_rest h'] at this ⊢
  exact this

/-- The constructor for an existing file (`src/OpenMPCD/VTFSnapshotFile.cpp:19-57`). -/
def openRead (content : Str) : Except Err (Snap FP × Stream) :=
  readStructureBlock io { writeMode := false } ⟨content, false⟩

/-! ## Reading timesteps -/

/-- The conditional assignments (`src/OpenMPCD/VTFSnapshotFile.cpp:286-290`). -/
def store (buffer : Option (ℕ → FP)) (cond : Bool) (index : ℕ) (t : Str) :
    Except Err (Option (ℕ → FP)) :=
  match buffer with
  | some p => if cond then (castFP io t).map fun v => some (Function.update p index v) else .ok (some p)
  | none => .ok none

/-- The coordinates in one line (`src/OpenMPCD/VTFSnapshotFile.cpp:283-292`): the loop over the tokens.
`positions` and `velocities` are the buffers, `none` for `NULL`. -/
def coordTokens (atom : ℕ) : ℕ → List Str → Option (ℕ → FP) → Option (ℕ → FP) →
    Except Err (ℕ × Option (ℕ → FP) × Option (ℕ → FP))
  | token, [], positions, velocities => .ok (token, positions, velocities)
  | token, t :: ts, positions, velocities => do
    let positions ← store io positions (token < 3) (3 * atom + token) t
    let velocities ← store io velocities (token ≥ 3 ∧ token < 6) (3 * atom + token - 3) t
    coordTokens atom (token + 1) ts positions velocities

/-- The loop over the atoms (`src/OpenMPCD/VTFSnapshotFile.cpp:270-309`): number of atoms read, whether
there were lines with and without velocities, and the buffers. -/
def atomLoop (n : ℕ) (atom : ℕ) (withVel withoutVel : Bool) (positions velocities : Option (ℕ → FP))
    (st : Stream) :
    Except Err ((ℕ × Bool × Bool × Option (ℕ → FP) × Option (ℕ → FP)) × Stream) :=
  if ¬ atom < n then .ok ((atom, withVel, withoutVel, positions, velocities), st)
  else if _h : st.eof = true then .ok ((atom, withVel, withoutVel, positions, velocities), st)
  else
    if (getLine true st).1 = [] then
      atomLoop n atom withVel withoutVel positions velocities (getLine true st).2
    else
      match coordTokens io atom 0 (tokens (getLine true st).1) positions velocities with
      | .error e => .error e
      | .ok (token, positions, velocities) =>
        if token = 3 then
          atomLoop n (atom + 1) withVel true positions velocities (getLine true st).2
        else if token = 6 then
          atomLoop n (atom + 1) true withoutVel positions velocities (getLine true st).2
        else .error .malformedFile
termination_by st.size
decreasing_by
  all_goals exact getLine_size (by simp_all)

/-- The `do` loop of `readTimestepBlock` (`src/OpenMPCD/VTFSnapshotFile.cpp:232-238`); `none`: end of
file. -/
def headerLine (st : Stream) : Option Str × Stream :=
  if _h : st.eof = true then (none, st)
  else if (getLine true st).1 = [] then headerLine (getLine true st).2
  else (some (getLine true st).1, (getLine true st).2)
termination_by st.size
decreasing_by exact getLine_size (by simp_all)

/-- The checks of the first line of a block (`src/OpenMPCD/VTFSnapshotFile.cpp:240-265`). -/
def checkHeader (line : Str) : Except Err Unit :=
  match tokens line with
  | [] => .ok ()
  | t :: rest =>
    if t = "t".toList ∨ t = "timestep".toList ∨ t = "c".toList ∨ t = "coordinates".toList then
      match rest with
      | [] => .ok ()
      | [u] =>
        if u = "i".toList ∨ u = "indexed".toList then .error .unimplemented
        else if u ≠ "o".toList ∧ u ≠ "ordered".toList then .error .malformedFile
        else .ok ()
      | _ => .error .malformedFile
    else .ok ()

/-- Result of `readTimestepBlock`: the returned value, the value of `*velocitiesEncountered` if written,
and the buffers. -/
structure ReadResult (FP : Type) where
  returned : Bool
  velocitiesEncountered : Option Bool
  positions : Option (ℕ → FP)
  velocities : Option (ℕ → FP)

/-- `readTimestepBlock` (`src/OpenMPCD/VTFSnapshotFile.cpp:220-331`). -/
def readTimestepBlock (s : Snap FP) (st : Stream) (positions velocities : Option (ℕ → FP)) :
    Except Err (ReadResult FP × Stream) :=
  if s.writeMode then .error .invalidCall
  else
    match headerLine st with
    | (none, st) => .ok (⟨false, none, positions, velocities⟩, st)
    | (some line, st) => do
      checkHeader line
      let n := numberOfAtoms s.atomRanges
      if n = 0 then return (⟨true, none, positions, velocities⟩, st)
      let ((atom, withVel, withoutVel, positions, velocities), st) ←
        atomLoop io n 0 false false positions velocities st
      if atom = 0 then return (⟨false, some withVel, positions, velocities⟩, st)
      if withVel ∧ withoutVel then .error .malformedFile
      if atom ≠ n then .error .malformedFile
      return (⟨true, some withVel, positions, velocities⟩, st)

/-! ## Writing -/

/-- `writeAtomLines` (`src/OpenMPCD/VTFSnapshotFile.cpp:460-483`), one line. -/
def atomLine (r : AtomRange FP) : Str :=
  "atom ".toList ++ natStr r.first ++
  (if r.first ≠ r.last then ":".toList ++ natStr r.last else []) ++
  (match r.properties.name with | some n => " name ".toList ++ n | none => []) ++
  (match r.properties.type with | some t => " type ".toList ++ t | none => []) ++
  (match r.properties.radius with | some x => " radius ".toList ++ io.fmt x | none => []) ++
  "\n".toList

/-- `writeBondLines` (`src/OpenMPCD/VTFSnapshotFile.cpp:718-726`), one line. -/
def bondLine (b : ℕ × ℕ) : Str :=
  "bond ".toList ++ natStr b.1 ++ ":".toList ++ natStr b.2 ++ "\n".toList

/-- The line with the size of the primary simulation volume
(`src/OpenMPCD/VTFSnapshotFile.cpp:362-368`). -/
def volumeText (volume : Option (FP × FP × FP)) : Str :=
  match volume with
  | some (x, y, z) => "pbc ".toList ++ io.fmt x ++ " ".toList ++ io.fmt y ++ " ".toList ++ io.fmt z ++
      "\n".toList
  | none => []

/-- `writeStructureBlock` (`src/OpenMPCD/VTFSnapshotFile.cpp:357-375`). -/
def structureText (s : Snap FP) : Str :=
  volumeText io s.volume ++ s.atomRanges.flatMap (atomLine io) ++ s.bonds.flatMap bondLine

/-- `writeTimestepBlock` (`src/OpenMPCD/VTFSnapshotFile.cpp:190-218`), without the structure block. -/
def timestepText (n : ℕ) (positions : ℕ → FP) (velocities : Option (ℕ → FP)) : Str :=
  "timestep\n".toList ++ (List.range n).flatMap fun i =>
    io.fmt (positions (3 * i + 0)) ++ " ".toList ++ io.fmt (positions (3 * i + 1)) ++ " ".toList ++
    io.fmt (positions (3 * i + 2)) ++
    (match velocities with
      | some v => " ".toList ++ io.fmt (v (3 * i + 0)) ++ " ".toList ++ io.fmt (v (3 * i + 1)) ++
          " ".toList ++ io.fmt (v (3 * i + 2))
      | none => []) ++ "\n".toList

/-- Calls in write mode, and the destructor. -/
inductive WriteOp (FP : Type)
  | setVolume (v : FP × FP × FP)
  | declareAtoms (count : ℕ) (radius : Option FP) (name type : Str)
  | declareBond (atom1 atom2 : ℕ)
  | writeTimestep (positions velocities : Option (ℕ → FP))

/-- The structure block is written, unless it has been before. -/
def ensureStructure (sf : Snap FP × Str) : Snap FP × Str :=
  if sf.1.structureBlockProcessed then sf
  else ({ sf.1 with structureBlockProcessed := true }, sf.2 ++ structureText io sf.1)

/-- State and file content after a call. `writeTimestep none _` passes `NULL`: an exception is thrown
after writing the structure block (`src/OpenMPCD/VTFSnapshotFile.cpp:195-199`). -/
noncomputable def writeStep (sf : Snap FP × Str) : WriteOp FP → Snap FP × Str
  | .setVolume v => ((setVolume sf.1 v).1, sf.2)
  | .declareAtoms count radius name type =>
    ((declareAtoms (fun x => io.negative x = true) sf.1 count radius name type).1, sf.2)
  | .declareBond a b => ((declareBond sf.1 a b).1, sf.2)
  | .writeTimestep none _ => ensureStructure io sf
  | .writeTimestep (some p) v =>
    ((ensureStructure io sf).1,
      (ensureStructure io sf).2 ++ timestepText io (numberOfAtoms sf.1.atomRanges) p v)

/-- The file after a sequence of calls and the destructor
(`src/OpenMPCD/VTFSnapshotFile.cpp:59-63`): a new snapshot is in write mode. -/
noncomputable def written (ops : List (WriteOp FP)) : Snap FP × Str :=
  ensureStructure io (ops.foldl (writeStep io) ({ writeMode := true }, []))

end

end OpenMPCD.Snapshot
