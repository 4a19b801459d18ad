import Verif.Stats.Model

/-!
# Model of `OnTheFlyStatisticsDDDA` (Python and C++)

The parallel Python lists `_blocks` and `_waiting` are always extended together, so they are one list
of pairs here. Functions that walk the blocks from an index upwards are written as recursions on the
part of the list from that index on.
-/

set_option linter.dupNamespace false

namespace OpenMPCD.DDDA

open Stats

variable {K : Type} [Field K] [LinearOrder K]

/-- `(self._blocks[i], self._waiting[i])`. -/
abbrev Block (K : Type) := OTFS K × Option K

/-- State of an instance, `Analysis/MPCDAnalysis/OnTheFlyStatisticsDDDA.py:36-37`. -/
abbrev DDDA (K : Type) := List (Block K)

/-- Constructor, `OnTheFlyStatisticsDDDA.py:29-37`. -/
def init : DDDA K := [(fresh, none)]

/-- `_addDatum(datum, blockID)`, `OnTheFlyStatisticsDDDA.py:579-593`, on the blocks with index
`>= blockID`. The case of the empty list is the recursive call after lines 588-591 appended a new
block. The C++ version (`include/OpenMPCD/ImplementationDetails/OnTheFlyStatisticsDDDA.hpp:206-232`)
is the same but computes `(datum + waiting) / 2`. -/
def pushFrom (x : K) : List (Block K) → List (Block K)
  | [] => [((fresh : OTFS K).addDatum x, some x)]
  | (b, none) :: rest => (b.addDatum x, some x) :: rest
  | (b, some w) :: rest => (b.addDatum x, none) :: pushFrom ((w + x) / 2) rest

/-- `addDatum`, `OnTheFlyStatisticsDDDA.py:40-49`. -/
def addDatum (d : DDDA K) (x : K) : DDDA K := pushFrom x d

/-- The `while` loop of `merge`, `OnTheFlyStatisticsDDDA.py:86-88`: append new blocks until there are
at least `m`. -/
def padTo (m : ℕ) (d : DDDA K) : DDDA K := d ++ List.replicate (m - d.length) (fresh, none)

/-- First `for` loop of `merge`, `OnTheFlyStatisticsDDDA.py:90-93`. -/
def mergeBlocks : DDDA K → List (OTFS K) → Except PyErr (DDDA K)
  | [], _ => .ok []
  | ds, [] => .ok ds
  | (b, w) :: ds, r :: rs => do
    let b' ← b.mergeSample r
    let ds' ← mergeBlocks ds rs
    .ok ((b', w) :: ds')

/-- Second `for` loop of `merge`, `OnTheFlyStatisticsDDDA.py:95-113`, for an argument different from the
receiver; `ws` are the pending data of the argument from the current index on. The loop runs over
the block count at its start; a block appended at lines 109-111 lies at or beyond that count. -/
def mergeWaiting : DDDA K → List (Option K) → DDDA K
  | [], _ => []
  | ds, [] => ds
  | (b, w) :: ds, none :: ws => (b, w) :: mergeWaiting ds ws
  | (b, none) :: ds, some y :: ws => (b, some y) :: mergeWaiting ds ws
  | (b, some x) :: ds, some y :: ws =>
    (b, none) :: mergeWaiting (pushFrom ((x + y) / 2) ds) ws
termination_by _ ws => ws.length

/-- `merge(rhs)` for `rhs` a different object, `OnTheFlyStatisticsDDDA.py:52-113`. The argument is not
assigned to anywhere, so it is unchanged. -/
def merge (self rhs : DDDA K) : Except PyErr (DDDA K) := do
  let s1 := padTo rhs.length self
  let s2 ← mergeBlocks s1 (rhs.map Prod.fst)
  .ok (mergeWaiting s2 (rhs.map Prod.snd))

/-- Second loop of `merge` when `rhs` is the receiver: `rhs._waiting[i]` is `self._waiting[i]` as left
by the previous iterations. The first argument is the number of remaining iterations. -/
def selfMergeWaiting : ℕ → DDDA K → DDDA K
  | 0, ds => ds
  | _ + 1, [] => []
  | n + 1, (b, none) :: ds => (b, none) :: selfMergeWaiting n ds
  | n + 1, (b, some x) :: ds => (b, none) :: selfMergeWaiting n (pushFrom ((x + x) / 2) ds)

/-- `merge(self)`: the receiver as its own argument (explicitly allowed by the documentation,
`OnTheFlyStatisticsDDDA.py:70-71`). -/
def mergeSelf (self : DDDA K) : Except PyErr (DDDA K) := do
  let s2 ← mergeBlocks self (self.map Prod.fst)
  .ok (selfMergeWaiting s2.length s2)

/-- `getSampleSize`, `OnTheFlyStatisticsDDDA.py:116-121`. -/
def getSampleSize (d : DDDA K) : Except PyErr ℕ :=
  match d with
  | [] => .error .indexError
  | (b, _) :: _ => .ok b.getSampleSize

/-- `getSampleMean`, `OnTheFlyStatisticsDDDA.py:124-142`. -/
def getSampleMean (d : DDDA K) : Except PyErr K := do
  let n ← getSampleSize d
  if n = 0 then .error .exception else
  match d with
  | [] => .error .indexError
  | (b, _) :: _ => b.getSampleMean

/-- `getMaximumBlockID`, `OnTheFlyStatisticsDDDA.py:159-164`. The list is never empty. -/
def getMaximumBlockID (d : DDDA K) : ℕ := d.length - 1

/-- `getMaximumBlockSize`, `OnTheFlyStatisticsDDDA.py:145-156`. -/
def getMaximumBlockSize (d : DDDA K) : Except PyErr ℕ := do
  let n ← getSampleSize d
  if n = 0 then .error .exception else .ok (2 ^ getMaximumBlockID d)

/-- `hasBlockVariance`, `OnTheFlyStatisticsDDDA.py:167-183`. Simplification: the argument is a
non-negative integer. -/
def hasBlockVariance (d : DDDA K) (blockID : ℕ) : Except PyErr Bool :=
  match d[blockID]? with
  | none => .error .valueError
  | some (b, _) => .ok (2 ≤ b.getSampleSize)

/-- `getBlockVariance`, `OnTheFlyStatisticsDDDA.py:186-207`. -/
def getBlockVariance (d : DDDA K) (blockID : ℕ) : Except PyErr K := do
  let h ← hasBlockVariance d blockID
  if ¬ h then .error .runtimeError else
  match d[blockID]? with
  | none => .error .indexError
  | some (b, _) => b.getSampleVariance

/-- `getBlockStandardErrorOfTheMean`, `OnTheFlyStatisticsDDDA.py:243-265`. -/
noncomputable def getBlockStandardErrorOfTheMean (d : DDDA ℝ) (blockID : ℕ) : Except PyErr ℝ := do
  let h ← hasBlockVariance d blockID
  if ¬ h then .error .runtimeError else
  match d[blockID]? with
  | none => .error .indexError
  | some (b, _) => b.getStandardErrorOfTheMean

open Classical in
/-- Body of the loop in `getOptimalBlockIDForStandardErrorOfTheMean`,
`OnTheFlyStatisticsDDDA.py:336-349`. `optimalBlockID` is an `Int` because of line 340. -/
noncomputable def optimalStep (d : DDDA ℝ) (rawSE : ℝ) (optimal : ℤ) (blockID : ℕ) :
    Except PyErr ℤ := do
  let h ← hasBlockVariance d blockID
  if ¬ h then
    if blockID ≠ getMaximumBlockID d then .error .assertionError
    else .ok (optimal - 1)
  else
    let blockSize := 2 ^ blockID
    match d[blockID]? with
    | none => .error .indexError
    | some (b, _) => do
      let se ← b.getStandardErrorOfTheMean
      let quotient := se / rawSE
      let n ← getSampleSize d
      let threshold := 2 * (n : ℝ) * quotient ^ 4
      if ((blockSize ^ 3 : ℕ) : ℝ) > threshold then .ok (blockID : ℤ) else .ok optimal

open Classical in
/-- `getOptimalBlockIDForStandardErrorOfTheMean`, `OnTheFlyStatisticsDDDA.py:305-351`; the loop runs
from the largest block down to 0. -/
noncomputable def getOptimalBlockID (d : DDDA ℝ) : Except PyErr ℤ := do
  let n ← getSampleSize d
  if n < 2 then .error .runtimeError else
  match d with
  | [] => .error .indexError
  | (b, _) :: _ => do
    let rawSE ← b.getStandardErrorOfTheMean
    if rawSE = 0 then .ok 0 else
    (List.range (getMaximumBlockID d + 1)).reverse.foldlM (optimalStep d rawSE)
      (getMaximumBlockID d : ℤ)

/-! ### Serialisation -/

/-- Text of a pending datum, `OnTheFlyStatisticsDDDA.py:416-418`. -/
def waitingText (io : NumIO K) : Option K → List Char
  | none => []
  | some w => io.numPrint w

/-- `serializeToString`, `OnTheFlyStatisticsDDDA.py:402-420`. -/
def serializeToString (io : NumIO K) (d : DDDA K) : List Char :=
  ['1', '|'] ++ io.intPrint d.length
    ++ (d.flatMap fun p => '|' :: p.1.serializeToString io)
    ++ (d.flatMap fun p => '|' :: waitingText io p.2)

/-- The loop at `OnTheFlyStatisticsDDDA.py:453-457`; `none` stands for `ValueError`. -/
def parseBlocks (io : NumIO K) : List (List Char) → Option (List (OTFS K))
  | [] => some []
  | p :: ps =>
    match (fresh : OTFS K).unserializeFromString io p with
    | (_, .error _) => none
    | (b, .ok ()) => (parseBlocks io ps).map (b :: ·)

/-- The loop at `OnTheFlyStatisticsDDDA.py:459-465`. -/
def parseWaiting (io : NumIO K) : List (List Char) → Option (List (Option K))
  | [] => some []
  | p :: ps =>
    if p.length = 0 then (parseWaiting io ps).map (none :: ·)
    else match io.numParse p with
      | none => none
      | some w => (parseWaiting io ps).map (some w :: ·)

/-- `unserializeFromString`, `OnTheFlyStatisticsDDDA.py:423-473`; result: receiver after the call and
outcome. Simplification: the argument is a `str`. -/
def unserializeFromString (io : NumIO K) (self : DDDA K) (state : List Char) :
    DDDA K × Except PyErr Unit :=
  let parts := splitChar '|' state
  match parts with
  | [] => (self, .error .indexError)
  | p0 :: rest =>
  match io.intParse p0 with
  | none => (self, .error .valueError)
  | some v =>
  if v ≠ 1 then (self, .error .valueError) else
  match rest with
  | [] => (self, .error .indexError)
  | p1 :: rest =>
  match io.intParse p1 with
  | none => (self, .error .valueError)
  | some blockCount =>
  if blockCount < 0 then (self, .error .valueError) else
  if (rest.length : ℤ) ≠ 2 * blockCount then (self, .error .valueError) else
  match parseBlocks io (rest.take blockCount.toNat) with
  | none => (self, .error .valueError)
  | some blocks =>
  match parseWaiting io (rest.drop blockCount.toNat) with
  | none => (self, .error .valueError)
  | some waiting =>
    if blockCount = 0 then ([(fresh, none)], .ok ())
    else (blocks.zip waiting, .ok ())

/-! ### The C++ class -/

/-- State of the C++ class (`blocks`, `waiting`),
`include/OpenMPCD/ImplementationDetails/OnTheFlyStatisticsDDDA.hpp:20-28`. -/
abbrev CppDDDA (K : Type) := List (CppOTFS K × Option K)

/-- Constructor, `ImplementationDetails/OnTheFlyStatisticsDDDA.hpp:20-28`. -/
def cppInit : CppDDDA K := [(CppOTFS.fresh, none)]

/-- `addDatum(datum, blockID)`, `ImplementationDetails/OnTheFlyStatisticsDDDA.hpp:206-232`, on the
blocks with index `>= blockID`. -/
def cppPushFrom (x : K) : CppDDDA K → CppDDDA K
  | [] => [((CppOTFS.fresh : CppOTFS K).addDatum x, some x)]
  | (b, none) :: rest => (b.addDatum x, some x) :: rest
  | (b, some w) :: rest => (b.addDatum x, none) :: cppPushFrom ((x + w) / 2) rest

/-- `addDatum(datum)`, `ImplementationDetails/OnTheFlyStatisticsDDDA.hpp:30-34`. -/
def cppAddDatum (d : CppDDDA K) (x : K) : CppDDDA K := cppPushFrom x d

/-- `getStandardErrorOfTheMean`, `include/OpenMPCD/OnTheFlyStatistics.hpp:104-107`, on a block of the
C++ class. -/
noncomputable def cppStandardError (b : CppOTFS ℝ) : ℝ :=
  Real.sqrt b.getSampleVariance / Real.sqrt b.getSampleSize

open Classical in
/-- Body of the loop at `ImplementationDetails/OnTheFlyStatisticsDDDA.hpp:159-182`. `std::size_t` has 64
bits, so both `std::size_t(1) << blockID` (for `blockID < 64`) and the product
`blockSize * blockSize * blockSize` of line 177 are taken modulo `2 ^ 64`. The decrement at line 165
is never applied to 0. `none`: the debug assertion of line 163 fails. -/
noncomputable def cppOptimalStep (d : CppDDDA ℝ) (n : ℕ) (rawSE : ℝ) (optimal : ℕ) (blockID : ℕ) :
    Option ℕ :=
  match d[blockID]? with
  | none => none
  | some (b, _) =>
    if ¬ 2 ≤ b.getSampleSize then
      if blockID = d.length - 1 then some (optimal - 1) else none
    else
      let blockSize := 2 ^ blockID % 2 ^ 64
      let quotient := cppStandardError b / rawSE
      let quotientPower2 := quotient * quotient
      let threshold := 2 * (n : ℝ) * (quotientPower2 * quotientPower2)
      if ((blockSize * blockSize * blockSize % 2 ^ 64 : ℕ) : ℝ) > threshold then some blockID
      else some optimal

open Classical in
/-- `getOptimalBlockIDForStandardErrorOfTheMean`,
`ImplementationDetails/OnTheFlyStatisticsDDDA.hpp:143-185`. `none`: an exception or a failed
assertion. -/
noncomputable def cppGetOptimalBlockID (d : CppDDDA ℝ) : Option ℕ :=
  match d with
  | [] => none
  | (b, _) :: _ =>
    if b.getSampleSize < 2 then none else
    if cppStandardError b = 0 then some 0 else
    (List.range d.length).reverse.foldlM
      (cppOptimalStep d b.getSampleSize (cppStandardError b)) (d.length - 1)

/-- `serializeToString`, `ImplementationDetails/OnTheFlyStatisticsDDDA.hpp:234-257`; number formatting
is the parameter `io`, see `CppOTFS.serializeToString`. -/
def cppSerializeToString (io : NumIO K) (d : CppDDDA K) : List Char :=
  ['1', '|'] ++ io.intPrint d.length
    ++ (d.flatMap fun p => '|' :: p.1.serializeToString io)
    ++ (d.flatMap fun p => '|' :: waitingText io p.2)

end OpenMPCD.DDDA
