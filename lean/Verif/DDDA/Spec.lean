import Verif.Stats.Spec
import Mathlib.Data.List.Basic
import Mathlib.Data.List.Perm.Basic

/-!
# What a blocking analysis of a data sequence is supposed to contain
-/

namespace OpenMPCD.Spec

variable {K : Type*} [Field K]

/-- The averages of the consecutive complete groups of `m` data: the `j`-th entry is the mean of
`x_{jm}, ..., x_{jm+m-1}`; an incomplete last group is ignored. -/
def groupMeans (m : ℕ) (xs : List K) : List K :=
  (List.range (xs.length / m)).map fun j => mean ((xs.drop (j * m)).take m)

/-- What one block of a blocking hierarchy reports: the sample it stands for, summarised by size, mean
and sum of squared deviations, and the datum still waiting for a partner. -/
structure BlockReport (K : Type*) where
  size : ℕ
  mean : K
  sumSq : K
  pending : Option K

/-- `Hierarchy D bs`: the blocks `bs` describe the data `D` correctly, level by level. The first block
summarises `D`; `D` (in some order) consists of disjoint pairs plus the pending datum, and the
remaining blocks describe the averages of these pairs. There is no block for an empty sample. -/
def Hierarchy : List K → List (BlockReport K) → Prop
  | D, [] => D = []
  | D, b :: bs =>
    D ≠ [] ∧ b.size = D.length ∧ b.mean = mean D ∧ b.sumSq = sumSqDev D ∧
    ∃ P : List (K × K),
      D.Perm ((P.flatMap fun p => [p.1, p.2]) ++ b.pending.toList) ∧
      Hierarchy (P.map fun p => (p.1 + p.2) / 2) bs

end OpenMPCD.Spec
