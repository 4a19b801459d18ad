import Mathlib.Algebra.BigOperators.Group.List.Basic
import Mathlib.Algebra.Order.Field.Basic

/-!
# What "mean" and "sample variance" of a list of numbers mean

Textbook definitions, independent of the on-the-fly algorithms.
-/

namespace OpenMPCD.Spec

variable {K : Type*} [Field K]

/-- Arithmetic mean (only meaningful for non-empty lists). -/
def mean (xs : List K) : K := xs.sum / xs.length

/-- Sum of squared deviations from the mean. -/
def sumSqDev (xs : List K) : K := (xs.map fun x => (x - mean xs) ^ 2).sum

/-- Sample variance with Bessel's correction (only meaningful for at least two elements). -/
def variance (xs : List K) : K := sumSqDev xs / ((xs.length : K) - 1)

end OpenMPCD.Spec
