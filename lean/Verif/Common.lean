import Mathlib.Data.List.Basic

/-!
# Shared vocabulary

Python and C++ exceptions as values, and the two string primitives the serialisers use.
-/

namespace OpenMPCD

/-- The exception classes raised by the modelled Python code. `Exception()` (the bare class) is
`exception`. -/
inductive PyErr where
  | valueError | typeError | indexError | keyError | attributeError | runtimeError
  | assertionError | exception | notImplementedError | unboundLocalError | osError
  | zeroDivisionError
  deriving DecidableEq, Repr

/-- Python's `str.split(sep)` / `boost::algorithm::split(.., is_any_of(sep))` for a one-character
separator: always at least one part, empty parts are kept. Used at
`Analysis/MPCDAnalysis/OnTheFlyStatistics.py:227`,
`Analysis/MPCDAnalysis/OnTheFlyStatisticsDDDA.py:441`,
`include/OpenMPCD/ImplementationDetails/OnTheFlyStatistics.hpp:45`. -/
def splitChar (sep : Char) : List Char → List (List Char)
  | [] => [[]]
  | c :: cs =>
    if c = sep then [] :: splitChar sep cs
    else match splitChar sep cs with
      | [] => [[c]]
      | p :: ps => (c :: p) :: ps

theorem splitChar_ne_nil (sep : Char) (s : List Char) : splitChar sep s ≠ [] := by
  cases s with
  | nil => simp [splitChar]
  | cons c cs =>
    simp only [splitChar]
    split
    · simp
    · split <;> simp

theorem splitChar_of_notMem {sep : Char} {s : List Char} (h : sep ∉ s) :
    splitChar sep s = [s] := by
  induction s with
  | nil => rfl
  | cons c cs ih =>
    simp only [List.mem_cons, not_or] at h
    simp [splitChar, ih h.2, Ne.symm h.1]

theorem splitChar_append_cons {sep : Char} {s : List Char} (h : sep ∉ s) (t : List Char) :
    splitChar sep (s ++ sep :: t) = s :: splitChar sep t := by
  induction s with
  | nil => simp [splitChar]
  | cons c cs ih =>
    simp only [List.mem_cons, not_or] at h
    simp [splitChar, ih h.2, Ne.symm h.1]

/-- Splitting a string assembled from separator-free parts, each preceded by the separator
(`ret += "|" + part` in a loop), gives the parts back. -/
theorem splitChar_flatMap {sep : Char} (s : List Char) (parts : List (List Char))
    (hs : sep ∉ s) (h : ∀ p ∈ parts, sep ∉ p) :
    splitChar sep (s ++ parts.flatMap (fun p => sep :: p)) = s :: parts := by
  induction parts generalizing s with
  | nil => simpa using splitChar_of_notMem hs
  | cons p ps ih =>
    simp only [List.flatMap_cons, List.cons_append]
    rw [splitChar_append_cons hs, ih p (h p (by simp)) (fun q hq => h q (by simp [hq]))]

end OpenMPCD
