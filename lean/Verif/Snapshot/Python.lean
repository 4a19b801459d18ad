import Verif.Common
import Verif.Analysis.Text
import Verif.Snapshot.Truncated

/-!
# C86: the snapshot files of the analysis (`Analysis/MPCDAnalysis/VTFSnapshotFile.py`)
-/

set_option linter.unusedSimpArgs false
set_option linter.unusedSectionVars false

namespace OpenMPCD.Snapshot.Python

open OpenMPCD.Snapshot

variable {FP : Type}

/-! ## Model -/

/-- The Python version: the tests are run with both (`.gitlab-ci.yml:12-13`). -/
inductive Version
  | two | three
  deriving DecidableEq

/-- Iterating over a text file: the lines, with their line ends. Simplification: the only line end is `\n`. -/
def fileLines : Str → List Str
  | [] => []
  | c :: r =>
    if c = '\n' then ['\n'] :: fileLines r
    else match fileLines r with
      | [] => [[c]]
      | l :: ls => (c :: l) :: ls

/-- A vector. -/
abbrev V3 (FP : Type) := FP × FP × FP

/-- What a `ParticleCollection` stores (`Analysis/MPCDAnalysis/ParticleCollection.py:12-21`), as far as it matters
here. -/
structure Coll (FP : Type) where
  positions : List (V3 FP)
  velocities : List (V3 FP)
  deriving DecidableEq

/-- `ParticleCollection.setPositionsAndVelocities` of a new collection, with lists of vectors
(`Analysis/MPCDAnalysis/ParticleCollection.py:57-66`). -/
def setPositionsAndVelocities (positions velocities : List (V3 FP)) : Except PyErr (Coll FP) :=
  if velocities.length ≠ 0 ∧ positions.length ≠ velocities.length then .error .valueError
  else .ok ⟨positions, velocities⟩

/-- `ParticleCollection.isEmpty` (`Analysis/MPCDAnalysis/ParticleCollection.py:96-101`). -/
def Coll.isEmpty (c : Coll FP) : Bool := c.positions.length = 0

/-- A `VTFSnapshotFile` (`Analysis/MPCDAnalysis/VTFSnapshotFile.py:8-32`): `writing` is `isInWriteMode()`, `lines` the
lines not yet read (in read mode), `out` the text written so far (in write mode). The line number, which only occurs in
messages, is left out. -/
structure SnapFile where
  writing : Bool
  structureBlock : Option Str
  lines : List Str
  out : Str
  deriving DecidableEq

/-- `line.startswith("timestep")`. -/
def isTimestep (line : Str) : Bool := "timestep".toList.isPrefixOf line

/-- The loop of `readStructureBlock` (`Analysis/MPCDAnalysis/VTFSnapshotFile.py:52-58`). -/
def structureLoop (block : Str) : List Str → Str × List Str
  | [] => (block, [])
  | line :: lines => if isTimestep line then (block, lines) else structureLoop (block ++ line) lines

/-- `readStructureBlock` (`Analysis/MPCDAnalysis/VTFSnapshotFile.py:46-58`). -/
def readStructureBlock (s : SnapFile) : SnapFile × Except PyErr Unit :=
  if s.writing ∨ s.structureBlock.isSome then (s, .error .valueError)
  else ({ s with structureBlock := some (structureLoop [] s.lines).1, lines := (structureLoop [] s.lines).2 }, .ok ())

/-- What is at the path given: nothing, a text file, or nothing but a compressed file of the same name with the
extension `.xz`. -/
inductive Found
  | nothing
  | text (content : Str)
  | compressed (content : Str)

/-- The constructor (`Analysis/MPCDAnalysis/VTFSnapshotFile.py:8-32`). Compressed files: iterating over an `LZMAFile`
gives `bytes` in Python 3, for which `line.startswith("timestep")` raises `TypeError`. -/
def construct (version : Version) (found : Found) (assertReadMode : Bool) : Except PyErr SnapFile :=
  match found with
  | .text content => .ok (readStructureBlock ⟨false, none, fileLines content, []⟩).1
  | .compressed content =>
    if version = .three ∧ fileLines content ≠ [] then .error .typeError
    else .ok (readStructureBlock ⟨false, none, fileLines content, []⟩).1
  | .nothing => if assertReadMode then .error .runtimeError else .ok ⟨true, none, [], []⟩

/-- `setStructureBlock` (`Analysis/MPCDAnalysis/VTFSnapshotFile.py:43-44`). -/
def setStructureBlock (s : SnapFile) (block : Str) : SnapFile := { s with structureBlock := some block }

/-- `writeStructureBlock` (`Analysis/MPCDAnalysis/VTFSnapshotFile.py:60-64`). -/
def writeStructureBlock (s : SnapFile) : SnapFile × Except PyErr Unit :=
  match s.writing, s.structureBlock with
  | true, some block => ({ s with out := s.out ++ block }, .ok ())
  | _, _ => (s, .error .valueError)

section
variable (io : Io FP)

/-- `float(part)`. -/
def pyFloat (t : Str) : Except PyErr FP :=
  match io.parse t with
  | some x => .ok x
  | none => .error .valueError

/-- Three numbers. -/
def vector (x y z : Str) : Except PyErr (V3 FP) :=
  match pyFloat io x, pyFloat io y, pyFloat io z with
  | .ok x, .ok y, .ok z => .ok (x, y, z)
  | _, _, _ => .error .valueError

/-- The body of the loop of `readTimestep` (`Analysis/MPCDAnalysis/VTFSnapshotFile.py:75-92`): the position, and the
velocity if there is one. -/
def particleLine (line : Str) : Except PyErr (V3 FP × Option (V3 FP)) :=
  match words line with
  | [x, y, z] =>
    match vector io x y z with
    | .ok p => .ok (p, none)
    | .error e => .error e
  | [x, y, z, vx, vy, vz] =>
    match vector io x y z, vector io vx vy vz with
    | .ok p, .ok v => .ok (p, some v)
    | .error e, _ => .error e
    | _, .error e => .error e
  | _ => .error .valueError

/-- The loop of `readTimestep` (`Analysis/MPCDAnalysis/VTFSnapshotFile.py:69-92`): the lines not yet read, and the
positions and velocities. -/
def timestepLoop (positions velocities : List (V3 FP)) :
    List Str → List Str × Except PyErr (List (V3 FP) × List (V3 FP))
  | [] => ([], .ok (positions, velocities))
  | line :: lines =>
    if isTimestep line then (lines, .ok (positions, velocities))
    else match particleLine io line with
      | .error e => (lines, .error e)
      | .ok (p, v) => timestepLoop (positions ++ [p]) (velocities ++ v.toList) lines

/-- `readTimestep` (`Analysis/MPCDAnalysis/VTFSnapshotFile.py:66-97`). Iterating over a file opened for writing raises
(`IOError` in Python 2, `io.UnsupportedOperation`, which is an `OSError`, in Python 3). -/
def readTimestep (s : SnapFile) : SnapFile × Except PyErr (Coll FP) :=
  if s.writing then (s, .error .osError)
  else
    ({ s with lines := (timestepLoop io [] [] s.lines).1 },
      match (timestepLoop io [] [] s.lines).2 with
      | .error e => .error e
      | .ok (positions, velocities) => setPositionsAndVelocities positions velocities)

/-- A vector, as written (`Analysis/MPCDAnalysis/VTFSnapshotFile.py:108-110`): `str` of the coordinates, which are real. -/
def vectorText (v : V3 FP) : Str := io.fmt v.1 ++ " ".toList ++ io.fmt v.2.1 ++ " ".toList ++ io.fmt v.2.2

/-- The loop of `writeTimestep` (`Analysis/MPCDAnalysis/VTFSnapshotFile.py:107-117`): the text written, and what is
raised. `izip_longest` fills the shorter list up with `None`, and `None.getX()` raises `AttributeError`. -/
def writeLoop : List (V3 FP) → List (V3 FP) → Str × Except PyErr Unit
  | [], [] => ([], .ok ())
  | [], _ :: _ => ([], .error .attributeError)
  | p :: ps, [] => (vectorText io p ++ "\n".toList ++ (writeLoop ps []).1, (writeLoop ps []).2)
  | p :: ps, v :: vs =>
    (vectorText io p ++ " ".toList ++ vectorText io v ++ "\n".toList ++ (writeLoop ps vs).1, (writeLoop ps vs).2)

/-- `writeTimestep` (`Analysis/MPCDAnalysis/VTFSnapshotFile.py:99-117`). There is no `itertools.izip_longest` in
Python 3. -/
def writeTimestep (version : Version) (s : SnapFile) (c : Coll FP) : SnapFile × Except PyErr Unit :=
  if ¬ s.writing then (s, .error .valueError)
  else if version = .three then ({ s with out := s.out ++ "timestep\n".toList }, .error .attributeError)
  else
    ({ s with out := s.out ++ ("timestep\n".toList ++ (writeLoop io c.positions c.velocities).1) },
      (writeLoop io c.positions c.velocities).2)

/-- Calls of methods of a `VTFSnapshotFile`. -/
inductive Op (FP : Type)
  | setStructureBlock (block : Str)
  | readStructureBlock
  | writeStructureBlock
  | readTimestep
  | writeTimestep (c : Coll FP)

/-- The object after a call, and what is raised. -/
def step (version : Version) (s : SnapFile) : Op FP → SnapFile × Except PyErr Unit
  | .setStructureBlock block => (Python.setStructureBlock s block, .ok ())
  | .readStructureBlock => Python.readStructureBlock s
  | .writeStructureBlock => Python.writeStructureBlock s
  | .readTimestep => ((Python.readTimestep io s).1, (Python.readTimestep io s).2.map fun _ => ())
  | .writeTimestep c => Python.writeTimestep io version s c

/-- The object after a sequence of calls, each of which may raise. -/
def steps (version : Version) (s : SnapFile) (ops : List (Op FP)) : SnapFile :=
  ops.foldl (fun s op => (step io version s op).1) s

end

/-! ## Specification -/

/-- The particles of a timestep written by the simulation. -/
def collOf (n : ℕ) (f : Frame FP) : Coll FP where
  positions := (List.range n).map fun i => (f.1 (3 * i), f.1 (3 * i + 1), f.1 (3 * i + 2))
  velocities := match f.2 with
    | some v => (List.range n).map fun i => (v (3 * i), v (3 * i + 1), v (3 * i + 2))
    | none => []

/-- Reading one timestep after the other gives these collections in this order; all further calls give empty collections
and change nothing. -/
def Reads (io : Io FP) : SnapFile → List (Coll FP) → Prop
  | s, [] => (readTimestep io s).2 = .ok ⟨[], []⟩ ∧
      readTimestep io (readTimestep io s).1 = ((readTimestep io s).1, .ok ⟨[], []⟩)
  | s, c :: cs => (readTimestep io s).2 = .ok c ∧ Reads io (readTimestep io s).1 cs

/-- Assumptions on the conversion of numbers: `Rounds`, and what is written for a number does not begin with
`timestep`. -/
structure Numbers (io : Io FP) (rnd : FP → FP) : Prop extends Analysis.Rounds io rnd where
  fmt_ne : ∀ x, isTimestep (io.fmt x) = false

/-- The text is empty or consists of complete lines, none of which begins with `timestep`. -/
def IsBlock (block : Str) : Prop :=
  (block = [] ∨ block.getLast? = some '\n') ∧ ∀ line ∈ fileLines block, isTimestep line = false

/-- The collection is one that `setPositionsAndVelocities` accepts. -/
def Coll.Valid (c : Coll FP) : Prop := c.velocities = [] ∨ c.positions.length = c.velocities.length

/-- The vector with all coordinates rounded. -/
def roundV (rnd : FP → FP) (v : V3 FP) : V3 FP := (rnd v.1, rnd v.2.1, rnd v.2.2)

/-- The same collection with all coordinates rounded. -/
def Coll.round (rnd : FP → FP) (c : Coll FP) : Coll FP where
  positions := c.positions.map (roundV rnd)
  velocities := c.velocities.map (roundV rnd)

/-! ## Proofs -/

theorem fileLines_line (l r : Str) (h : '\n' ∉ l) : fileLines (l ++ '\n' :: r) = (l ++ ['\n']) :: fileLines r := by
  induction l with
  | nil => simp [fileLines]
  | cons c l ih =>
    have hc : c ≠ '\n' := fun e => h (by simp [e])
    have ih := ih fun e => h (by simp [e])
    rw [List.cons_append, fileLines, if_neg hc, ih]
    rfl

/-- Complete lines first. -/
theorem fileLines_append (b r : Str) (h : b = [] ∨ b.getLast? = some '\n') :
    fileLines (b ++ r) = fileLines b ++ fileLines r := by
  induction b with
  | nil => simp [fileLines]
  | cons c b ih =>
    have hl : (c :: b).getLast? = some '\n' := by simpa using h
    by_cases hb : b = []
    · subst hb
      have hc : c = '\n' := by simpa using hl
      subst hc
      simp [fileLines]
    · have hb' : b.getLast? = some '\n' := by
        rw [List.getLast?_cons] at hl
        cases hbl : b.getLast? with
        | none => exact absurd (List.getLast?_eq_none_iff.1 hbl) hb
        | some x => rw [hbl] at hl; simpa using hl
      have ih := ih (.inr hb')
      rw [List.cons_append, fileLines, fileLines]
      by_cases hc : c = '\n'
      · rw [if_pos hc, if_pos hc, ih]; rfl
      · rw [if_neg hc, if_neg hc, ih]
        cases hfl : fileLines b with
        | nil =>
          exfalso
          match b with
          | [] => exact hb rfl
          | d :: b =>
            rw [fileLines] at hfl
            split at hfl
            · cases hfl
            · split at hfl <;> cases hfl
        | cons l ls => rfl

theorem fileLines_flatten (b : Str) : (fileLines b).flatten = b := by
  induction b with
  | nil => rfl
  | cons c b ih =>
    rw [fileLines]
    split
    · rename_i hc
      simp [ih, hc]
    · cases hfl : fileLines b with
      | nil => rw [hfl] at ih; simp at ih; simp [← ih]
      | cons l ls => rw [hfl] at ih; simp at ih; simp [ih]

theorem structureLoop_lines (block : Str) (ls rest : List Str) (h : ∀ l ∈ ls, isTimestep l = false) :
    structureLoop block (ls ++ rest) = structureLoop (block ++ ls.flatten) rest := by
  induction ls generalizing block with
  | nil => simp
  | cons l ls ih =>
    rw [List.cons_append, structureLoop, if_neg (by simp [h l (by simp)]), ih _ fun x hx => h x (by simp [hx])]
    simp

theorem wordsGo_newline (acc : Str) (ts : List Str) (hacc : acc ≠ []) (h : ∀ t ∈ ts, Token t) :
    wordsGo acc (ts.flatMap (' ' :: ·) ++ ['\n']) = acc :: ts := by
  induction ts generalizing acc with
  | nil => simp [wordsGo, hacc, isSpace]
  | cons t ts ih =>
    have ht := h t (by simp)
    simp only [List.flatMap_cons, List.cons_append, wordsGo, List.append_assoc]
    rw [if_pos (by rfl), if_neg hacc, wordsGo_append _ _ _ fun c hc => (ht.2 c hc).1, List.nil_append,
      ih t ht.1 fun x hx => h x (by simp [hx])]

theorem words_line (t : Str) (ts : List Str) (ht : Token t) (h : ∀ t ∈ ts, Token t) :
    words (mkLine t ts ++ ['\n']) = t :: ts := by
  unfold words mkLine
  rw [List.append_assoc, wordsGo_append _ _ _ fun c hc => (ht.2 c hc).1, List.nil_append, wordsGo_newline _ _ ht.1 h]

theorem isTimestep_append {t r : Str} (ht : isTimestep t = false) (hr : ∀ c ∈ r.head?, isSpace c = true) :
    isTimestep (t ++ r) = false := by
  by_contra hc
  rw [Bool.not_eq_false] at hc
  unfold isTimestep at hc ht
  rw [List.isPrefixOf_iff_prefix] at hc
  have hnp : ¬ "timestep".toList <+: t := fun h => by
    rw [← List.isPrefixOf_iff_prefix] at h
    rw [h] at ht
    cases ht
  rcases List.prefix_or_prefix_of_prefix hc (List.prefix_append t r) with h | h
  · exact hnp h
  · obtain ⟨u, hu⟩ := h
    cases u with
    | nil => rw [List.append_nil] at hu; exact hnp (hu ▸ List.prefix_refl _)
    | cons c u =>
      rw [← hu, List.prefix_append_right_inj] at hc
      obtain ⟨w, hw⟩ := hc
      have hsp := hr c (by rw [← hw]; simp)
      have hmem : c ∈ "timestep".toList := by rw [← hu]; simp
      have : ∀ d ∈ "timestep".toList, ¬ isSpace d = true := by decide
      exact this c hmem hsp

theorem isTimestep_line {t : Str} (ts : List Str) (ht : isTimestep t = false) :
    isTimestep (mkLine t ts ++ ['\n']) = false := by
  unfold mkLine
  rw [List.append_assoc]
  refine isTimestep_append ht ?_
  cases ts with
  | nil => simp [isSpace]
  | cons u us => simp [isSpace]

/-- The line of a particle, in the form of tokens. -/
def rowTokens (io : Io FP) (p : V3 FP) (v : Option (V3 FP)) : List Str :=
  [io.fmt p.2.1, io.fmt p.2.2] ++
  match v with
  | some v => [io.fmt v.1, io.fmt v.2.1, io.fmt v.2.2]
  | none => []

variable {io : Io FP} {rnd : FP → FP}

theorem rowTokens_token (hio : Numbers io rnd) (p : V3 FP) (v : Option (V3 FP)) : ∀ t ∈ rowTokens io p v, Token t := by
  cases v <;> simp [rowTokens, hio.token_fmt]

theorem fmt_notTimestep (hio : Numbers io rnd) (p : V3 FP) (v : Option (V3 FP)) :
    isTimestep (mkLine (io.fmt p.1) (rowTokens io p v) ++ ['\n']) = false := isTimestep_line _ (hio.fmt_ne _)

theorem particleLine_written (hio : Numbers io rnd) (p : V3 FP) (v : Option (V3 FP)) :
    particleLine io (mkLine (io.fmt p.1) (rowTokens io p v) ++ ['\n']) =
      .ok (roundV rnd p, v.map (roundV rnd)) := by
  unfold particleLine
  rw [words_line _ _ (hio.token_fmt _) (rowTokens_token hio p v)]
  cases v <;> simp [rowTokens, vector, pyFloat, hio.parse_fmt, roundV]

theorem writeLoop_nil (io : Io FP) (p : V3 FP) (ps : List (V3 FP)) :
    (writeLoop io (p :: ps) []).1 = mkLine (io.fmt p.1) (rowTokens io p none) ++ '\n' :: (writeLoop io ps []).1 := by
  have e5 : " ".toList = [' '] := by decide
  have e6 : "\n".toList = ['\n'] := by decide
  simp [writeLoop, vectorText, mkLine, rowTokens, e5, e6]

theorem writeLoop_cons (io : Io FP) (p v : V3 FP) (ps vs : List (V3 FP)) :
    (writeLoop io (p :: ps) (v :: vs)).1 =
      mkLine (io.fmt p.1) (rowTokens io p (some v)) ++ '\n' :: (writeLoop io ps vs).1 := by
  have e5 : " ".toList = [' '] := by decide
  have e6 : "\n".toList = ['\n'] := by decide
  simp [writeLoop, vectorText, mkLine, rowTokens, e5, e6]

theorem writeLoop_ok (io : Io FP) (ps vs : List (V3 FP)) (h : vs = [] ∨ ps.length = vs.length) :
    (writeLoop io ps vs).2 = .ok () := by
  induction ps generalizing vs with
  | nil =>
    cases vs with
    | nil => rfl
    | cons v vs => simp at h
  | cons p ps ih =>
    cases vs with
    | nil => exact ih [] (.inl rfl)
    | cons v vs => exact ih vs (.inr (by simpa using h))

/-- Reading the lines of the particles of a timestep. -/
theorem timestepLoop_written (hio : Numbers io rnd) (ps vs : List (V3 FP)) (h : vs = [] ∨ ps.length = vs.length)
    (a b : List (V3 FP)) (rest : Str) :
    timestepLoop io a b (fileLines ((writeLoop io ps vs).1 ++ rest)) =
      timestepLoop io (a ++ ps.map (roundV rnd)) (b ++ vs.map (roundV rnd)) (fileLines rest) := by
  induction ps generalizing vs a b with
  | nil =>
    cases vs with
    | nil => simp [writeLoop]
    | cons v vs => simp at h
  | cons p ps ih =>
    have hl : ∀ v, '\n' ∉ mkLine (io.fmt p.1) (rowTokens io p v) := fun v =>
      mkLine_noNewline _ _ (hio.token_fmt _) (rowTokens_token hio p v)
    cases vs with
    | nil =>
      rw [writeLoop_nil, List.append_assoc, List.cons_append, fileLines_line _ _ (hl none), timestepLoop,
        if_neg (by simp [fmt_notTimestep hio p none]), particleLine_written hio p none]
      simp only [Option.map_none, Option.toList_none]
      rw [ih [] (.inl rfl)]
      simp
    | cons v vs =>
      rw [writeLoop_cons, List.append_assoc, List.cons_append, fileLines_line _ _ (hl (some v)), timestepLoop,
        if_neg (by simp [fmt_notTimestep hio p (some v)]), particleLine_written hio p (some v)]
      simp only [Option.map_some, Option.toList_some]
      rw [ih vs (.inr (by simpa using h))]
      simp

/-- The text of a timestep. -/
def collText (io : Io FP) (c : Coll FP) : Str := "timestep\n".toList ++ (writeLoop io c.positions c.velocities).1

/-- The first line of a timestep. -/
def header : Str := "timestep\n".toList

theorem isTimestep_header : isTimestep header = true := by decide

theorem fileLines_header (r : Str) : fileLines (header ++ r) = header :: fileLines r := by
  have e : header = "timestep".toList ++ ['\n'] := by decide
  have h : '\n' ∉ "timestep".toList := by decide
  rw [e]
  generalize "timestep".toList = t at h
  rw [List.append_assoc, List.singleton_append, fileLines_line _ _ h]

theorem fileLines_collText (io : Io FP) (c : Coll FP) (r : Str) :
    fileLines (collText io c ++ r) = header :: fileLines ((writeLoop io c.positions c.velocities).1 ++ r) := by
  have e : collText io c = header ++ (writeLoop io c.positions c.velocities).1 := rfl
  rw [e]
  generalize (writeLoop io c.positions c.velocities).1 = t
  rw [List.append_assoc, fileLines_header]

attribute [irreducible] header

theorem set_round (c : Coll FP) (h : c.Valid) :
    setPositionsAndVelocities (c.positions.map (roundV rnd)) (c.velocities.map (roundV rnd)) = .ok (c.round rnd) := by
  unfold setPositionsAndVelocities
  rw [if_neg]
  · rfl
  · rintro ⟨h1, h2⟩
    rcases h with h | h
    · simp [h] at h1
    · simp [h] at h2

theorem reads_nil (io : Io FP) (b : Option Str) (o : Str) : Reads io ⟨false, b, [], o⟩ [] := by
  constructor <;> rfl

/-- Reading timesteps, the first line of the first of which has been read before. -/
theorem reads_colls (hio : Numbers io rnd) (cs : List (Coll FP)) (hcs : ∀ c ∈ cs, c.Valid) (c : Coll FP) (hc : c.Valid)
    (b : Option Str) (o : Str) :
    Reads io ⟨false, b, fileLines ((writeLoop io c.positions c.velocities).1 ++ cs.flatMap (collText io)), o⟩
      ((c :: cs).map (Coll.round rnd)) := by
  induction cs generalizing c with
  | nil =>
    have hl := timestepLoop_written hio c.positions c.velocities hc [] [] []
    have he : fileLines [] = [] := rfl
    rw [he, timestepLoop, List.append_nil] at hl
    simp only [List.flatMap_nil, List.append_nil, List.map_cons, List.map_nil, Reads, readTimestep, Bool.false_eq_true,
      if_false, hl, List.nil_append, set_round c hc, true_and]
    exact reads_nil io b o
  | cons d cs ih =>
    have hl := timestepLoop_written hio c.positions c.velocities hc [] [] ((d :: cs).flatMap (collText io))
    have he : fileLines ((d :: cs).flatMap (collText io)) = header ::
        fileLines ((writeLoop io d.positions d.velocities).1 ++ cs.flatMap (collText io)) := by
      rw [List.flatMap_cons, fileLines_collText]
    rw [he, timestepLoop, if_pos isTimestep_header] at hl
    have hd := ih (fun c hc => hcs c (by simp [hc])) d (hcs d (by simp))
    rw [List.map_cons, Reads]
    simp only [readTimestep, Bool.false_eq_true, if_false, hl, List.nil_append, set_round c hc, true_and]
    exact hd

/-- Reading a file with a structure block and timesteps. -/
theorem read_file (hio : Numbers io rnd) (version : Version) (block : Str) (hb : IsBlock block) (cs : List (Coll FP))
    (hcs : ∀ c ∈ cs, c.Valid) (assertReadMode : Bool) :
    ∃ s, construct version (.text (block ++ cs.flatMap (collText io))) assertReadMode = .ok s ∧ s.writing = false ∧
      s.structureBlock = some block ∧ Reads io s (cs.map (Coll.round rnd)) := by
  refine ⟨_, rfl, ?_⟩
  unfold readStructureBlock
  rw [if_neg (by simp)]
  simp only [fileLines_append _ _ hb.1, structureLoop_lines _ _ _ hb.2, List.nil_append, fileLines_flatten]
  cases cs with
  | nil =>
    simp only [List.flatMap_nil, fileLines, structureLoop, List.map_nil, true_and]
    exact reads_nil io _ _
  | cons c cs =>
    rw [List.flatMap_cons, fileLines_collText, structureLoop, if_pos isTimestep_header]
    refine ⟨trivial, rfl, ?_⟩
    exact reads_colls hio cs (fun d hd => hcs d (by simp [hd])) c (hcs c (by simp)) _ _

/-! ### Files written by the simulation -/

theorem collOf_valid (n : ℕ) (f : Frame FP) : (collOf n f).Valid := by
  unfold Coll.Valid collOf
  cases f.2 <;> simp

theorem writeLoop_range (io : Io FP) (l : List ℕ) (f : Frame FP) :
    (writeLoop io (l.map fun i => (f.1 (3 * i), f.1 (3 * i + 1), f.1 (3 * i + 2)))
      (match f.2 with
        | some v => l.map fun i => (v (3 * i), v (3 * i + 1), v (3 * i + 2))
        | none => [])).1 =
      l.flatMap fun i => mkLine (io.fmt (f.1 (3 * i))) (frameTokens io f i) ++ ['\n'] := by
  induction l with
  | nil => cases f.2 <;> rfl
  | cons i l ih =>
    cases hv : f.2 with
    | none =>
      rw [hv] at ih
      simp only [List.map_cons, List.flatMap_cons] at ih ⊢
      rw [writeLoop_nil, ih]
      simp [rowTokens, frameTokens, hv]
    | some v =>
      rw [hv] at ih
      simp only [List.map_cons, List.flatMap_cons] at ih ⊢
      rw [writeLoop_cons, ih]
      simp [rowTokens, frameTokens, hv]

theorem collText_collOf (io : Io FP) (n : ℕ) (f : Frame FP) : collText io (collOf n f) = timestepText io n f.1 f.2 := by
  have e : "timestep\n".toList = mkLine "timestep".toList [] ++ ['\n'] := by decide
  have h := writeLoop_range io (List.range n) f
  have hc : collText io (collOf n f) = "timestep\n".toList ++
      (writeLoop io ((List.range n).map fun i => (f.1 (3 * i), f.1 (3 * i + 1), f.1 (3 * i + 2)))
        (match f.2 with
          | some v => (List.range n).map fun i => (v (3 * i), v (3 * i + 1), v (3 * i + 2))
          | none => [])).1 := rfl
  rw [hc, h, timestepText_eq, e, ← List.range_eq_range']
  generalize mkLine "timestep".toList [] = t
  simp

theorem framesText_eq (io : Io FP) (n : ℕ) (fs : List (Frame FP)) :
    framesText io n fs = (fs.map (collOf n)).flatMap (collText io) := by
  unfold framesText
  rw [List.flatMap_map]
  exact List.flatMap_congr fun f _ => (collText_collOf io n f).symm

theorem isBlock_append {a b : Str} (ha : IsBlock a) (hb : IsBlock b) : IsBlock (a ++ b) := by
  refine ⟨?_, ?_⟩
  · rcases hb.1 with h | h
    · rw [h, List.append_nil]; exact ha.1
    · right
      rw [List.getLast?_append, h]
      rfl
  · rw [fileLines_append _ _ ha.1]
    intro l hl
    rcases List.mem_append.1 hl with hl | hl
    · exact ha.2 l hl
    · exact hb.2 l hl

theorem isBlock_nil : IsBlock [] := ⟨.inl rfl, by simp [fileLines]⟩

theorem isBlock_flatMap {α : Type} (l : List α) (g : α → Str) (h : ∀ x ∈ l, IsBlock (g x)) : IsBlock (l.flatMap g) := by
  induction l with
  | nil => exact isBlock_nil
  | cons x l ih =>
    rw [List.flatMap_cons]
    exact isBlock_append (h x (by simp)) (ih fun y hy => h y (by simp [hy]))

theorem isBlock_line (t : Str) (ts : List Str) (ht : Token t) (h : ∀ t ∈ ts, Token t) (hn : isTimestep t = false) :
    IsBlock (mkLine t ts ++ ['\n']) := by
  refine ⟨.inr (by simp), ?_⟩
  intro l hl
  rw [fileLines_line _ _ (mkLine_noNewline _ _ ht h)] at hl
  simp only [fileLines, List.mem_singleton] at hl
  rw [hl]
  exact isTimestep_line ts hn

theorem isBlock_structure (io : Io FP) (hio : Lawful io) (s : Snap FP) (hs : Sound io s) :
    IsBlock (structureText io s) := by
  unfold structureText
  refine isBlock_append (isBlock_append ?_ ?_) ?_
  · match s.volume with
    | none => exact isBlock_nil
    | some (x, y, z) =>
      rw [volumeText_eq]
      exact isBlock_line _ _ token_pbc (by simp [hio.token_fmt]) (by decide)
  · refine isBlock_flatMap _ _ fun r hr => ?_
    rw [atomLine_eq]
    refine isBlock_line _ _ token_atom ?_ (by decide)
    intro t ht
    rcases List.mem_cons.1 ht with rfl | ht
    · exact aid_token r
    · exact optionTokens_token io hio _ (hs.writable r hr) t ht
  · refine isBlock_flatMap _ _ fun b _ => ?_
    rw [bondLine_eq]
    refine isBlock_line _ _ token_bond ?_ (by decide)
    intro t ht
    rw [List.mem_singleton.1 ht]
    exact token_append (natStr_token _) (natStr_token _)

/-- C86: the analysis reads a snapshot file written by the simulation, by whatever sequence of calls: the structure
block is that of the file, the timesteps are read in the order in which they have been written, each with all particles,
and with velocities if and only if they have been written; after that, empty collections are returned. (Numbers are read
as they have been written, and the names and types contain neither white space nor commas.) -/
theorem C86_reads_simulation (hlaw : Lawful io) (hio : Numbers io id) (ops : List (WriteOp FP)) (hop : OpsOK ops)
    (version : Version) (assertReadMode : Bool) :
    ∃ s, construct version (.text (written io ops).2) assertReadMode = .ok s ∧ s.writing = false ∧
      s.structureBlock = some (structureText io (written io ops).1) ∧
      Reads io s ((framesOf ops).map (collOf (numberOfAtoms (written io ops).1.atomRanges))) := by
  obtain ⟨k1, k2, -⟩ := inv_ensure io ops _ (inv_all io hlaw ops hop)
  change Inv io ops (written io ops) at k1
  change (written io ops).1.structureBlockProcessed = true at k2
  have ht := k1.text
  rw [if_pos k2] at ht
  rw [ht, framesText_eq]
  have h := read_file hio version (structureText io (written io ops).1) (isBlock_structure io hlaw _ k1.sound)
    ((framesOf ops).map (collOf (numberOfAtoms (written io ops).1.atomRanges)))
    (by
      intro c hc
      obtain ⟨f, -, rfl⟩ := List.mem_map.1 hc
      exact collOf_valid _ f) assertReadMode
  have hid : ∀ c : Coll FP, c.round id = c := by
    rintro ⟨ps, vs⟩
    have : (roundV id : V3 FP → V3 FP) = id := rfl
    simp [Coll.round, this]
  simpa only [funext hid, List.map_id'] using h

/-! ### Files written by the analysis -/

/-- Whether a call is one that writes. -/
def Op.isWrite : Op FP → Bool
  | .setStructureBlock _ | .writeStructureBlock | .writeTimestep _ => true
  | _ => false

theorem step_writing (io : Io FP) (version : Version) (s : SnapFile) (op : Op FP) :
    (step io version s op).1.writing = s.writing := by
  cases op with
  | setStructureBlock b => rfl
  | readStructureBlock => simp only [step, readStructureBlock]; split <;> rfl
  | writeStructureBlock => simp only [step, writeStructureBlock]; split <;> simp_all
  | readTimestep => simp only [step, readTimestep]; split <;> rfl
  | writeTimestep c =>
    simp only [step, writeTimestep]
    split
    · rfl
    · split <;> rfl

/-- Calls to read from a file opened for writing raise and change nothing. -/
theorem step_read (io : Io FP) (version : Version) (s : SnapFile) (hs : s.writing = true) (op : Op FP)
    (h : op.isWrite = false) : (step io version s op).1 = s ∧ ∃ e, (step io version s op).2 = .error e := by
  cases op with
  | setStructureBlock b => cases h
  | writeStructureBlock => cases h
  | writeTimestep c => cases h
  | readStructureBlock =>
    have : readStructureBlock s = (s, .error .valueError) := by unfold readStructureBlock; rw [if_pos (.inl hs)]
    simp only [step, this]
    exact ⟨trivial, _, rfl⟩
  | readTimestep =>
    have : readTimestep io s = (s, .error .osError) := by unfold readTimestep; rw [if_pos hs]
    simp only [step, this]
    exact ⟨trivial, _, rfl⟩

theorem steps_filter (io : Io FP) (version : Version) (ops : List (Op FP)) (s : SnapFile) (hs : s.writing = true) :
    steps io version s ops = steps io version s (ops.filter Op.isWrite) := by
  induction ops generalizing s with
  | nil => rfl
  | cons op ops ih =>
    have hw : (step io version s op).1.writing = true := by rw [step_writing, hs]
    cases h : op.isWrite with
    | true =>
      rw [List.filter_cons_of_pos h]
      exact ih _ hw
    | false =>
      rw [List.filter_cons_of_neg (by simp [h])]
      have := (step_read io version s hs op h).1
      change steps io version (step io version s op).1 ops = _
      rw [this]
      exact ih s hs

theorem steps_timesteps (io : Io FP) (cs : List (Coll FP)) (s : SnapFile) (hs : s.writing = true) :
    (steps io .two s (cs.map .writeTimestep)).out = s.out ++ cs.flatMap (collText io) := by
  induction cs generalizing s with
  | nil => simp [steps]
  | cons c cs ih =>
    have hw : (step io .two s (.writeTimestep c)).1 = { s with out := s.out ++ collText io c } := by
      simp only [step, writeTimestep]
      rw [if_neg (by simp [hs]), if_neg (by decide)]
      rfl
    rw [List.map_cons]
    change (steps io .two (step io .two s (.writeTimestep c)).1 (cs.map .writeTimestep)).out = _
    rw [hw]
    have := ih { s with out := s.out ++ collText io c } hs
    rw [this]
    simp [List.append_assoc]

/-- C86, in Python 2: what the analysis writes, it reads back. A new file into which a structure block of complete lines
and then timesteps are written, whatever other calls are attempted in between, is read as that structure block and those
timesteps, with all numbers rounded to the digits written, followed by empty collections. -/
theorem C86_python_partial (hio : Numbers io rnd) (block : Str) (hb : IsBlock block) (cs : List (Coll FP))
    (hcs : ∀ c ∈ cs, c.Valid) (ops : List (Op FP))
    (hops : ops.filter Op.isWrite = .setStructureBlock block :: .writeStructureBlock :: cs.map .writeTimestep) :
    ∃ s, construct .two .nothing false = .ok s ∧
      ∃ s', construct .two (.text (steps io .two s ops).out) true = .ok s' ∧ s'.structureBlock = some block ∧
        Reads io s' (cs.map (Coll.round rnd)) := by
  refine ⟨⟨true, none, [], []⟩, rfl, ?_⟩
  rw [steps_filter io .two ops _ rfl, hops]
  have h : (steps io .two ⟨true, none, [], []⟩
      (.setStructureBlock block :: .writeStructureBlock :: cs.map .writeTimestep)).out =
      block ++ cs.flatMap (collText io) := steps_timesteps io cs ⟨true, some block, [], block⟩ rfl
  rw [h]
  obtain ⟨s', h1, -, h3, h4⟩ := read_file hio .two block hb cs hcs true
  exact ⟨s', h1, h3, h4⟩

/-- C86, in Python 2: none of the calls which write raises, and those which read raise and change nothing. -/
theorem C86_write_calls (s : SnapFile) (hs : s.writing = true) :
    (∀ c : Coll FP, c.Valid → (writeTimestep io .two s c).2 = .ok ()) ∧
    (∀ b, s.structureBlock = some b → writeStructureBlock s = ({ s with out := s.out ++ b }, .ok ())) ∧
    (s.structureBlock = none → writeStructureBlock s = (s, .error .valueError)) ∧
    readStructureBlock s = (s, .error .valueError) ∧
    readTimestep io s = (s, .error .osError) := by
  refine ⟨?_, ?_, ?_, ?_, ?_⟩
  · intro c hc
    unfold writeTimestep
    rw [if_neg (by simp [hs]), if_neg (by decide)]
    exact writeLoop_ok io _ _ hc
  · intro b hb
    simp [writeStructureBlock, hs, hb]
  · intro hb
    simp [writeStructureBlock, hs, hb]
  · unfold readStructureBlock; rw [if_pos (.inl hs)]
  · unfold readTimestep; rw [if_pos hs]

/-- C86: in read mode, nothing can be written, nor can the structure block be read again; such calls raise and change
nothing. -/
theorem C86_read_calls (version : Version) (s : SnapFile) (hs : s.writing = false) :
    (∀ c : Coll FP, writeTimestep io version s c = (s, .error .valueError)) ∧
    writeStructureBlock s = (s, .error .valueError) ∧
    (s.structureBlock.isSome = true → readStructureBlock s = (s, .error .valueError)) := by
  refine ⟨?_, ?_, ?_⟩
  · intro c
    unfold writeTimestep
    rw [if_pos (by simp [hs])]
  · simp [writeStructureBlock, hs]
  · intro h
    unfold readStructureBlock
    rw [if_pos (.inr h)]

/-- C86: opening a file which does not exist for reading raises. -/
theorem C86_missing (version : Version) : construct version .nothing true = .error .runtimeError := rfl

/-! ### Which text is accepted -/

/-- What a line says: a position, or a position and a velocity. -/
def RowIs (io : Io FP) (line : Str) (row : V3 FP × Option (V3 FP)) : Prop :=
  match row.2 with
  | none => (words line).map io.parse = [some row.1.1, some row.1.2.1, some row.1.2.2]
  | some v => (words line).map io.parse =
      [some row.1.1, some row.1.2.1, some row.1.2.2, some v.1, some v.2.1, some v.2.2]

theorem pyFloat_ok (io : Io FP) (t : Str) (x : FP) : pyFloat io t = .ok x ↔ io.parse t = some x := by
  unfold pyFloat
  cases io.parse t <;> simp

theorem vector_ok (io : Io FP) (x y z : Str) (p : V3 FP) :
    vector io x y z = .ok p ↔ io.parse x = some p.1 ∧ io.parse y = some p.2.1 ∧ io.parse z = some p.2.2 := by
  unfold vector pyFloat
  obtain ⟨a, b, c⟩ := p
  cases io.parse x <;> cases io.parse y <;> cases io.parse z <;> simp

theorem vector_error (io : Io FP) (x y z : Str) (e : PyErr) (h : vector io x y z = .error e) : e = .valueError := by
  unfold vector at h
  split at h
  · cases h
  · cases h; rfl

theorem particleLine_ok (io : Io FP) (line : Str) (row : V3 FP × Option (V3 FP)) :
    particleLine io line = .ok row ↔ RowIs io line row := by
  obtain ⟨p, v⟩ := row
  unfold particleLine RowIs
  split
  · rename_i x y z hw
    have hv := vector_ok io x y z
    rw [hw]
    cases h : vector io x y z with
    | error e =>
      have hn : ∀ q : V3 FP, ¬ (io.parse x = some q.1 ∧ io.parse y = some q.2.1 ∧ io.parse z = some q.2.2) :=
        fun q hq => by have := (hv q).2 hq; rw [h] at this; cases this
      cases v with
      | none => simpa using hn p
      | some v => simp
    | ok q =>
      obtain ⟨h1, h2, h3⟩ := (hv q).1 h
      obtain ⟨a, b, c⟩ := p
      obtain ⟨a', b', c'⟩ := q
      cases v <;> simp_all
  · rename_i x y z vx vy vz hw
    have hp := vector_ok io x y z
    have hv := vector_ok io vx vy vz
    rw [hw]
    cases h : vector io x y z with
    | error e =>
      have hn : ∀ q : V3 FP, ¬ (io.parse x = some q.1 ∧ io.parse y = some q.2.1 ∧ io.parse z = some q.2.2) :=
        fun q hq => by have := (hp q).2 hq; rw [h] at this; cases this
      have hn := hn p
      cases v with
      | none => simp
      | some v =>
        simp only [List.map_cons, List.map_nil, List.cons.injEq, and_true]
        constructor
        · intro hc; cases hc
        · rintro ⟨a, b, c, -⟩; exact absurd ⟨a, b, c⟩ hn
    | ok q =>
      obtain ⟨h1, h2, h3⟩ := (hp q).1 h
      cases hh : vector io vx vy vz with
      | error e =>
        have hn : ∀ q : V3 FP, ¬ (io.parse vx = some q.1 ∧ io.parse vy = some q.2.1 ∧ io.parse vz = some q.2.2) :=
          fun q hq => by have := (hv q).2 hq; rw [hh] at this; cases this
        cases v with
        | none => simp
        | some v =>
          have hn := hn v
          simp only [List.map_cons, List.map_nil, List.cons.injEq, and_true]
          constructor
          · intro hc; cases hc
          · rintro ⟨-, -, -, a, b, c⟩; exact absurd ⟨a, b, c⟩ hn
      | ok w =>
        obtain ⟨k1, k2, k3⟩ := (hv w).1 hh
        obtain ⟨a, b, c⟩ := p
        obtain ⟨a', b', c'⟩ := q
        obtain ⟨d', e', f'⟩ := w
        cases v with
        | none => simp
        | some v =>
          obtain ⟨d, e, f⟩ := v
          simp only [Except.ok.injEq, Prod.mk.injEq, Option.some.injEq, List.map_cons, List.map_nil, h1, h2, h3, k1, k2,
            k3, List.cons.injEq, and_true]
          tauto
  · rename_i hno3 hno6
    have key : ∀ l : List FP, (words line).map io.parse = l.map some → (words line).length = l.length := by
      intro l hl
      have := congrArg List.length hl
      simpa using this
    cases v with
    | none =>
      constructor
      · intro h; cases h
      · intro h
        exfalso
        have := key [p.1, p.2.1, p.2.2] h
        match hw : words line, this with
        | [x, y, z], _ => exact hno3 x y z hw
    | some v =>
      constructor
      · intro h; cases h
      · intro h
        exfalso
        have := key [p.1, p.2.1, p.2.2, v.1, v.2.1, v.2.2] h
        match hw : words line, this with
        | [x, y, z, vx, vy, vz], _ => exact hno6 x y z vx vy vz hw

theorem particleLine_error (io : Io FP) (line : Str) (e : PyErr) (h : particleLine io line = .error e) :
    e = .valueError := by
  unfold particleLine at h
  split at h
  · split at h
    · cases h
    · rename_i he; cases h; exact vector_error _ _ _ _ _ he
  · split at h
    · cases h
    · rename_i he; cases h; exact vector_error _ _ _ _ _ he
    · rename_i he _; cases h; exact vector_error _ _ _ _ _ he
  · cases h; rfl

/-- The lines of the current timestep. -/
def blockOf (s : SnapFile) : List Str := s.lines.takeWhile fun l => !isTimestep l

theorem timestepLoop_ok (io : Io FP) (lines : List Str) (a b ps vs : List (V3 FP)) :
    (timestepLoop io a b lines).2 = .ok (ps, vs) ↔
      ∃ rows, List.Forall₂ (RowIs io) (lines.takeWhile fun l => !isTimestep l) rows ∧
        ps = a ++ rows.map Prod.fst ∧ vs = b ++ rows.filterMap Prod.snd := by
  induction lines generalizing a b with
  | nil =>
    simp only [timestepLoop, List.takeWhile_nil, Except.ok.injEq, Prod.mk.injEq]
    constructor
    · rintro ⟨rfl, rfl⟩
      exact ⟨[], .nil, by simp, by simp⟩
    · rintro ⟨rows, h, rfl, rfl⟩
      cases h
      simp
  | cons l lines ih =>
    rw [timestepLoop]
    by_cases ht : isTimestep l = true
    · rw [if_pos ht, List.takeWhile_cons_of_neg (by simp [ht])]
      simp only [Except.ok.injEq, Prod.mk.injEq]
      constructor
      · rintro ⟨rfl, rfl⟩
        exact ⟨[], .nil, by simp, by simp⟩
      · rintro ⟨rows, h, rfl, rfl⟩
        cases h
        simp
    · rw [if_neg ht, List.takeWhile_cons_of_pos (by simpa using ht)]
      cases hp : particleLine io l with
      | error e =>
        simp only [reduceCtorEq, false_iff]
        rintro ⟨rows, h, -⟩
        cases h with
        | cons h1 h2 =>
          rw [← particleLine_ok, hp] at h1
          cases h1
      | ok row =>
        obtain ⟨p, v⟩ := row
        simp only [ih]
        have hr := (particleLine_ok io l (p, v)).1 hp
        constructor
        · rintro ⟨rows, h, rfl, rfl⟩
          refine ⟨(p, v) :: rows, .cons hr h, by simp, ?_⟩
          cases v <;> simp
        · rintro ⟨rows, h, rfl, rfl⟩
          cases h with
          | @cons _ r _ rows h1 h2 =>
            rw [← particleLine_ok, hp] at h1
            cases h1
            refine ⟨rows, h2, by simp, ?_⟩
            cases v <;> simp

theorem timestepLoop_error (io : Io FP) (lines : List Str) (a b : List (V3 FP)) (e : PyErr)
    (h : (timestepLoop io a b lines).2 = .error e) : e = .valueError := by
  induction lines generalizing a b with
  | nil => cases h
  | cons l lines ih =>
    rw [timestepLoop] at h
    split at h
    · cases h
    · split at h
      · rename_i he; cases h; exact particleLine_error _ _ _ he
      · exact ih _ _ h

theorem filterMap_length {α β : Type} (rows : List (α × Option β)) :
    (rows.filterMap Prod.snd).length ≤ rows.length := List.length_filterMap_le _ _

theorem filterMap_none {α β : Type} (rows : List (α × Option β)) :
    rows.filterMap Prod.snd = [] ↔ ∀ r ∈ rows, r.2 = none := by
  simp [List.filterMap_eq_nil_iff]

theorem filterMap_all {α β : Type} (rows : List (α × Option β)) :
    (rows.filterMap Prod.snd).length = rows.length ↔ ∀ r ∈ rows, r.2.isSome = true := by
  induction rows with
  | nil => simp
  | cons r rows ih =>
    obtain ⟨a, v⟩ := r
    have := filterMap_length rows
    cases v with
    | none => simp; omega
    | some v => simp [ih]

/-- C86: exactly which text is accepted. Reading a timestep returns a collection if and only if each line up to the next
one that begins with `timestep` consists of three numbers, or each of six; the collection then contains one particle per
line, in the order of the lines. Otherwise, `ValueError` is raised. -/
theorem C86_accepts (s : SnapFile) (hs : s.writing = false) (c : Coll FP) :
    ((readTimestep io s).2 = .ok c ↔
      ∃ rows, List.Forall₂ (RowIs io) (blockOf s) rows ∧
        ((∀ r ∈ rows, r.2 = none) ∨ ∀ r ∈ rows, r.2.isSome = true) ∧
        c.positions = rows.map Prod.fst ∧ c.velocities = rows.filterMap Prod.snd) ∧
    ∀ e, (readTimestep io s).2 = .error e → e = .valueError := by
  unfold readTimestep
  rw [if_neg (by simp [hs])]
  have hok := timestepLoop_ok io s.lines [] []
  constructor
  · dsimp only
    cases h : (timestepLoop io [] [] s.lines).2 with
    | error e =>
      simp only [reduceCtorEq, false_iff]
      rintro ⟨rows, h1, -, -, -⟩
      have := (hok (rows.map Prod.fst) (rows.filterMap Prod.snd)).2 ⟨rows, h1, by simp, by simp⟩
      rw [h] at this
      cases this
    | ok pv =>
      obtain ⟨ps, vs⟩ := pv
      simp only [setPositionsAndVelocities]
      obtain ⟨rows, h1, h2, h3⟩ := (hok ps vs).1 h
      rw [List.nil_append] at h2 h3
      have hc : (vs.length ≠ 0 ∧ ps.length ≠ vs.length) ↔
          ¬ ((∀ r ∈ rows, r.2 = none) ∨ ∀ r ∈ rows, r.2.isSome = true) := by
        rw [← filterMap_none, ← filterMap_all, not_or, ← h3, h2, List.length_map, ne_eq, List.length_eq_zero_iff, ne_eq,
          eq_comm (a := rows.length)]
      have huniq : ∀ rows', List.Forall₂ (RowIs io) (blockOf s) rows' → rows'.map Prod.fst = ps ∧
          rows'.filterMap Prod.snd = vs := by
        intro rows' h'
        have := (hok (rows'.map Prod.fst) (rows'.filterMap Prod.snd)).2 ⟨rows', h', by simp, by simp⟩
        rw [h] at this
        simp only [Except.ok.injEq, Prod.mk.injEq] at this
        exact ⟨this.1.symm, this.2.symm⟩
      by_cases hcond : vs.length ≠ 0 ∧ ps.length ≠ vs.length
      · rw [if_pos hcond]
        simp only [reduceCtorEq, false_iff]
        rintro ⟨rows', h1', h2', -, -⟩
        obtain ⟨e1, e2⟩ := huniq rows' h1'
        rw [← filterMap_none, ← filterMap_all, e2] at h2'
        rcases h2' with h2' | h2'
        · exact hcond.1 (by simp [h2'])
        · exact hcond.2 (by rw [h2', ← e1, List.length_map])
      · rw [if_neg hcond]
        simp only [Except.ok.injEq]
        constructor
        · rintro rfl
          exact ⟨rows, h1, not_not.1 (mt hc.2 hcond), h2, h3⟩
        · rintro ⟨rows', h1', -, h3', h4'⟩
          obtain ⟨e1, e2⟩ := huniq rows' h1'
          obtain ⟨cp, cv⟩ := c
          simp only at h3' h4'
          rw [h3', h4', e1, e2]
  · intro e
    dsimp only
    cases h : (timestepLoop io [] [] s.lines).2 with
    | error e' =>
      simp only [Except.error.injEq]
      rintro rfl
      exact timestepLoop_error _ _ _ _ _ h
    | ok pv =>
      simp only [setPositionsAndVelocities]
      split
      · intro h; cases h; rfl
      · intro h; cases h

/-! ### Violations -/

/-- The first particles of a collection. -/
def Coll.take (k : ℕ) (c : Coll FP) : Coll FP := ⟨c.positions.take k, c.velocities.take k⟩

theorem writeLoop_take (io : Io FP) (k : ℕ) (ps vs : List (V3 FP)) (h : vs = [] ∨ ps.length = vs.length) :
    (writeLoop io (ps.take k) (vs.take k)).1 <+: (writeLoop io ps vs).1 := by
  induction ps generalizing vs k with
  | nil =>
    cases vs with
    | nil => simp
    | cons v vs => simp at h
  | cons p ps ih =>
    cases k with
    | zero => simp [writeLoop]
    | succ k =>
      cases vs with
      | nil =>
        rw [List.take_succ_cons, List.take_nil, writeLoop_nil, writeLoop_nil]
        have := ih k [] (.inl rfl)
        rw [List.take_nil] at this
        exact (List.prefix_append_right_inj _).2 ((List.prefix_cons_inj _).2 this)
      | cons v vs =>
        rw [List.take_succ_cons, List.take_succ_cons, writeLoop_cons, writeLoop_cons]
        have := ih k vs (.inr (by simpa using h))
        exact (List.prefix_append_right_inj _).2 ((List.prefix_cons_inj _).2 this)

/-- C86 does not hold for files which break off: if a file with timesteps `cs` and `c` breaks off behind any number `k`
of lines of the last one, this is not noticed; a collection with the first `k` particles is returned, whatever the
number of atoms in the structure block. -/
theorem C86_cut_violated (hio : Numbers io rnd) (version : Version) (block : Str) (hb : IsBlock block)
    (cs : List (Coll FP)) (hcs : ∀ c ∈ cs, c.Valid) (c : Coll FP) (hc : c.Valid) (k : ℕ) :
    ∃ content, content <+: block ++ (cs ++ [c]).flatMap (collText io) ∧
      ∃ s, construct version (.text content) true = .ok s ∧ s.structureBlock = some block ∧
        Reads io s ((cs ++ [c.take k]).map (Coll.round rnd)) := by
  refine ⟨block ++ (cs ++ [c.take k]).flatMap (collText io), ?_, ?_⟩
  · rw [List.prefix_append_right_inj, List.flatMap_append, List.flatMap_append, List.prefix_append_right_inj]
    simp only [List.flatMap_cons, List.flatMap_nil, List.append_nil]
    have h := writeLoop_take io k _ _ hc
    unfold collText
    generalize "timestep\n".toList = t
    exact (List.prefix_append_right_inj _).2 h
  · have hv : (c.take k).Valid := by
      rcases hc with h | h
      · left; simp [Coll.take, h]
      · right; simp [Coll.take, h]
    obtain ⟨s, h1, -, h3, h4⟩ := read_file hio version block hb (cs ++ [c.take k]) (by
      intro d hd
      rcases List.mem_append.1 hd with hd | hd
      · exact hcs d hd
      · rw [List.mem_singleton.1 hd]; exact hv) true
    exact ⟨s, h1, h3, h4⟩

/-- C86: the end of the file cannot be told from a timestep without particles. -/
theorem C86_end_violated (io : Io FP) (version : Version) :
    ∃ s s', construct version (.text []) true = .ok s ∧ construct version (.text (collText io ⟨[], []⟩)) true = .ok s' ∧
      s.structureBlock = s'.structureBlock ∧ readTimestep io s = readTimestep io s' := by
  refine ⟨⟨false, some [], [], []⟩, ⟨false, some [], [], []⟩, rfl, ?_, rfl, rfl⟩
  have h := fileLines_collText io (⟨[], []⟩ : Coll FP) []
  rw [List.append_nil] at h
  unfold construct readStructureBlock
  simp only [h, Bool.false_eq_true, Option.isSome_none, or_self, if_false, structureLoop, isTimestep_header, if_true]
  rfl

/-- C86 does not hold in Python 3: no timestep can be written; `AttributeError` is raised after the first line of the
timestep has been written. -/
theorem C86_python3_violated (s : SnapFile) (hs : s.writing = true) (c : Coll FP) :
    writeTimestep io .three s c = ({ s with out := s.out ++ "timestep\n".toList }, .error .attributeError) := by
  unfold writeTimestep
  rw [if_neg (by simp [hs]), if_pos rfl]

/-- C86 does not hold in Python 3: no compressed file can be read, unless it is empty. -/
theorem C86_compressed_violated (content : Str) (h : content ≠ []) (assertReadMode : Bool) :
    construct .three (.compressed content) assertReadMode = .error .typeError := by
  unfold construct
  have hl : fileLines content ≠ [] := fun he => h (by rw [← fileLines_flatten content, he]; rfl)
  simp [hl]

/-- C86: in Python 2, a compressed file is read like the file itself. -/
theorem C86_compressed (content : Str) (a b : Bool) :
    construct .two (.compressed content) a = construct .two (.text content) b := by
  simp [construct]

/-! ### Examples -/

theorem natIo_numbers : Numbers natIo id where
  parse_fmt x := natIo_lawful.parse_fmt x
  token_fmt x := natIo_lawful.token_fmt x
  fmt_ne x := by
    by_contra h
    rw [Bool.not_eq_false] at h
    unfold isTimestep at h
    rw [List.isPrefixOf_iff_prefix] at h
    have := Runs.natStr_digits x 't' (h.subset (by decide))
    exact absurd this (by decide)

example : Lawful natIo ∧ Numbers natIo id ∧ OpsOK [(.declareAtoms 2 none [] [] : WriteOp ℕ),
    .writeTimestep (some fun i => i) none] :=
  ⟨natIo_lawful, natIo_numbers, by
    intro op hop
    rcases List.mem_cons.1 hop with rfl | hop
    · simp
    · rw [List.mem_singleton.1 hop]; trivial⟩

example : IsBlock "atom 0:1\nbond 0:1\n".toList ∧ (⟨[(1, 2, 3), (4, 5, 6)], [(7, 8, 9), (10, 11, 12)]⟩ : Coll ℕ).Valid :=
  ⟨⟨.inr (by decide), by decide +kernel⟩, .inr rfl⟩

end OpenMPCD.Snapshot.Python
