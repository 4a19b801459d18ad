import Verif.Common
import Mathlib.Algebra.Order.Field.Basic
import Mathlib.Analysis.Real.Sqrt

/-!
# Model of `OnTheFlyStatistics` (Python and C++)

Numbers are elements of a linearly ordered field `K` (exact arithmetic); the sample size is a
natural number.
-/

namespace OpenMPCD.Stats

variable {K : Type*}

/-- State of an instance: `self.n`, `self.M`, `self.S`.
`Analysis/MPCDAnalysis/OnTheFlyStatistics.py:38-40,48-50`. -/
@[ext] structure OTFS (K : Type*) where
  n : ℕ
  M : K
  S : K
  deriving DecidableEq, Repr

variable [Field K] [LinearOrder K]

/-- Constructor without arguments, `OnTheFlyStatistics.py:33-42`. -/
def fresh : OTFS K := ⟨0, 0, 0⟩

/-- Constructor with (optional) arguments, `OnTheFlyStatistics.py:20-50`. Simplification: a given
`sampleSize` is a natural number. -/
def construct (mean sampleVariance : Option K) (sampleSize : Option ℕ) :
    Except PyErr (OTFS K) :=
  match mean, sampleVariance, sampleSize with
  | none, none, none => .ok fresh
  | some m, some v, some n => .ok ⟨n, m, v * ((n : K) - 1)⟩
  | _, _, _ => .error .exception

/-- `addDatum`, `OnTheFlyStatistics.py:53-62`. -/
def OTFS.addDatum (s : OTFS K) (datum : K) : OTFS K :=
  let delta := datum - s.M
  let n := s.n + 1
  let M := s.M + delta / (n : K)
  let S := s.S + delta * (datum - M)
  ⟨n, M, S⟩

/-- `getSampleSize`, `OnTheFlyStatistics.py:132-137`. -/
def OTFS.getSampleSize (s : OTFS K) : ℕ := s.n

/-- `getSampleMean`, `OnTheFlyStatistics.py:139-149`. -/
def OTFS.getSampleMean (s : OTFS K) : Except PyErr K :=
  if s.n = 0 then .error .valueError else .ok s.M

/-- `getSampleVariance`, `OnTheFlyStatistics.py:151-165`. -/
def OTFS.getSampleVariance (s : OTFS K) : Except PyErr K :=
  if s.n ≤ 1 then .error .valueError else .ok (s.S / ((s.n : K) - 1))

/-- `mergeSample`, `OnTheFlyStatistics.py:65-118`, branch by branch. (If `sample` is the receiver
itself, every branch reads `sample` before writing or writes the value already there, so the
function of two values below also describes that call.) -/
def OTFS.mergeSample (s sample : OTFS K) : Except PyErr (OTFS K) :=
  if s.n = 0 then
    .ok ⟨sample.n, sample.M, sample.S⟩
  else if s.n = 1 then
    let myValue := s.M
    .ok ((⟨sample.n, sample.M, sample.S⟩ : OTFS K).addDatum myValue)
  else if sample.n = 0 then
    .ok s
  else if sample.n = 1 then do
    let m ← sample.getSampleMean
    .ok (s.addDatum m)
  else do
    let mergedSampleSize := s.getSampleSize + sample.getSampleSize
    let m1 ← s.getSampleMean
    let m2 ← sample.getSampleMean
    let mergedMean := (0 + (s.getSampleSize : K) * m1 + (sample.getSampleSize : K) * m2)
      / (mergedSampleSize : K)
    let v1 ← s.getSampleVariance
    let v2 ← sample.getSampleVariance
    let mergedS := 0 + ((s.getSampleSize : K) - 1) * v1 + ((sample.getSampleSize : K) - 1) * v2
    let n : K := s.getSampleSize
    let m : K := sample.getSampleSize
    let c := m1 - m2
    let c := c / (n + m)
    let c := c ^ 2
    let c := c * (n * m * (n + m))
    .ok ⟨mergedSampleSize, mergedMean, mergedS + c⟩

/-- `mergeSamples`, `OnTheFlyStatistics.py:121-129`. -/
def OTFS.mergeSamples (s : OTFS K) : List (OTFS K) → Except PyErr (OTFS K)
  | [] => .ok s
  | t :: ts => do
    let s' ← s.mergeSample t
    s'.mergeSamples ts

/-- `getSampleStandardDeviation`, `OnTheFlyStatistics.py:167-179`, over the reals. -/
noncomputable def OTFS.getSampleStandardDeviation (s : OTFS ℝ) : Except PyErr ℝ := do
  let v ← s.getSampleVariance
  .ok (Real.sqrt v)

/-- `getStandardErrorOfTheMean`, `OnTheFlyStatistics.py:182-189`. -/
noncomputable def OTFS.getStandardErrorOfTheMean (s : OTFS ℝ) : Except PyErr ℝ := do
  let sd ← s.getSampleStandardDeviation
  .ok (sd / Real.sqrt s.getSampleSize)

/-! ### Serialisation -/

/-- Assumed behaviour of `str`, `int` and `float` (Python) on the strings involved; see the trusted
base in `DESIGN.md`. `intPrint`/`intParse` are `str`/`int` on integers, `numPrint`/`numParse` are
`str`/`float` on numbers (Python 3: `str` of a float is its shortest round-tripping
representation). Parsers return `none` where Python raises `ValueError`. -/
structure NumIO (K : Type*) where
  intPrint : ℤ → List Char
  intParse : List Char → Option ℤ
  numPrint : K → List Char
  numParse : List Char → Option K
  int_round : ∀ i, intParse (intPrint i) = some i
  num_round : ∀ x, numParse (numPrint x) = some x
  int_clean : ∀ i c, c ∈ intPrint i → c ≠ ';' ∧ c ≠ '|'
  num_clean : ∀ x c, c ∈ numPrint x → c ≠ ';' ∧ c ≠ '|'
  num_nonempty : ∀ x, numPrint x ≠ []
  nat_no_minus : ∀ n : ℕ, (intPrint n).head? ≠ some '-'
  one_is : intPrint 1 = ['1']

/-- `serializeToString`, `OnTheFlyStatistics.py:192-206`. -/
def OTFS.serializeToString (io : NumIO K) (s : OTFS K) : List Char :=
  ['1', ';'] ++ io.intPrint s.n ++ [';'] ++ io.numPrint s.M ++ [';'] ++ io.numPrint s.S

/-- `unserializeFromString`, `OnTheFlyStatistics.py:209-248`. Returns the receiver after the call
together with the outcome (`.ok ()` or the exception raised). Simplification: the argument is a
`str`, so the `TypeError` branch at lines 224-225 does not occur. -/
def OTFS.unserializeFromString (io : NumIO K) (self : OTFS K) (state : List Char) :
    OTFS K × Except PyErr Unit :=
  let parts := splitChar ';' state
  match parts with
  | [] => (self, .error .indexError)
  | p0 :: _ =>
  match io.intParse p0 with
  | none => (self, .error .valueError)
  | some v =>
  if v ≠ 1 then (self, .error .valueError) else
  match parts with
  | [_, p1, p2, p3] =>
    match io.intParse p1 with
    | none => (self, .error .valueError)
    | some n =>
    match io.numParse p2 with
    | none => (self, .error .valueError)
    | some M =>
    match io.numParse p3 with
    | none => (self, .error .valueError)
    | some S =>
      if n < 0 then (self, .error .valueError)
      else if n = 0 ∧ (M ≠ 0 ∨ S ≠ 0) then (self, .error .valueError)
      else if S < 0 then (self, .error .valueError)
      else
        let self : OTFS K := { self with n := n.toNat }
        let self : OTFS K := { self with M := M }
        let self : OTFS K := { self with S := S }
        (self, .ok ())
  | _ => (self, .error .valueError)

/-! ### The C++ class -/

/-- State of the C++ class: `sampleSize`, `mean`, `varianceHelper`.
`include/OpenMPCD/OnTheFlyStatistics.hpp:164-166`. -/
@[ext] structure CppOTFS (K : Type*) where
  sampleSize : ℕ
  mean : K
  varianceHelper : K
  deriving DecidableEq

/-- Constructor, `OnTheFlyStatistics.hpp:40-43`. -/
def CppOTFS.fresh : CppOTFS K := ⟨0, 0, 0⟩

/-- `addDatum`, `OnTheFlyStatistics.hpp:116-129`: increments the size first. -/
def CppOTFS.addDatum (s : CppOTFS K) (datum : K) : CppOTFS K :=
  let sampleSize := s.sampleSize + 1
  let delta := datum - s.mean
  let mean := s.mean + delta / (sampleSize : K)
  let varianceHelper := s.varianceHelper + delta * (datum - mean)
  ⟨sampleSize, mean, varianceHelper⟩

/-- `getSampleSize`, `OnTheFlyStatistics.hpp:49-52`. -/
def CppOTFS.getSampleSize (s : CppOTFS K) : ℕ := s.sampleSize

/-- `getSampleMean`, `OnTheFlyStatistics.hpp:59-62`. -/
def CppOTFS.getSampleMean (s : CppOTFS K) : K := s.mean

/-- `getSampleVariance`, `OnTheFlyStatistics.hpp:73-79`. -/
def CppOTFS.getSampleVariance (s : CppOTFS K) : K :=
  if s.getSampleSize < 2 then 0 else s.varianceHelper / ((s.getSampleSize - 1 : ℕ) : K)

/-- `serializeToString`, `include/OpenMPCD/ImplementationDetails/OnTheFlyStatistics.hpp:22-37`.
Simplification: the C++ stream formatting of numbers is the same parameter `io` as Python's (the
decimal text differs, but `float()` / `lexical_cast` read both back; precision `digits10 + 2`
makes the C++ text exact for `double`). -/
def CppOTFS.serializeToString (io : NumIO K) (s : CppOTFS K) : List Char :=
  ['1', ';'] ++ io.intPrint s.sampleSize ++ [';'] ++ io.numPrint s.mean ++ [';'] ++
    io.numPrint s.varianceHelper

/-- C++ exceptions relevant here. -/
inductive CppErr where
  | invalidArgument | outOfBounds
  deriving DecidableEq

/-- `unserializeFromString`, `ImplementationDetails/OnTheFlyStatistics.hpp:39-84`. Simplification:
reading the first character of an empty part (`parts[0][0]`, line 49) yields the terminating NUL
character, as `std::string` guarantees, hence no `-`. -/
def CppOTFS.unserializeFromString (io : NumIO K) (self : CppOTFS K) (state : List Char) :
    CppOTFS K × Except CppErr Unit :=
  let parts := splitChar ';' state
  match parts with
  | [] => (self, .error .outOfBounds)
  | p0 :: _ =>
  if p0.head? = some '-' then (self, .error .invalidArgument) else
  match io.intParse p0 with
  | none => (self, .error .invalidArgument)
  | some version =>
  if version ≠ 1 then (self, .error .invalidArgument) else
  match parts with
  | [_, p1, p2, p3] =>
    if p1.head? = some '-' then (self, .error .invalidArgument) else
    match io.intParse p1 with
    | none => (self, .error .invalidArgument)
    | some n =>
    match io.numParse p2 with
    | none => (self, .error .invalidArgument)
    | some M =>
    match io.numParse p3 with
    | none => (self, .error .invalidArgument)
    | some S =>
      if n < 0 then (self, .error .invalidArgument)
      else if n = 0 ∧ (M ≠ 0 ∨ S ≠ 0) then (self, .error .invalidArgument)
      else if S < 0 then (self, .error .invalidArgument)
      else
        let self : CppOTFS K := { self with sampleSize := n.toNat }
        let self : CppOTFS K := { self with mean := M }
        let self : CppOTFS K := { self with varianceHelper := S }
        (self, .ok ())
  | _ => (self, .error .invalidArgument)

end OpenMPCD.Stats
