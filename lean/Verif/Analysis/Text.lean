import Verif.Snapshot.RoundTrip

/-!
# Text files with columns: how the simulation writes them and how the analysis reads them
-/

namespace OpenMPCD.Analysis

open Runs (Str natStr digitsValue digitsValue_natStr natStr_digits natStr_ne_nil)
open Snapshot (Io Lawful Token isSpace words wordsGo wordsGo_append natStr_token)

/-! ## Model -/

/-- Iterating over a text file in Python (`for line in f`, e.g.
`Analysis/MPCDAnalysis/LogicalEntityMeanSquareDisplacement.py:264`): the lines, here without their line ends, which
`split()` discards. -/
def pyLines : Str → List Str
  | [] => []
  | c :: r =>
    if c = '\n' then [] :: pyLines r
    else match pyLines r with
      | [] => [[c]]
      | l :: ls => (c :: l) :: ls

/-- Python's `int(s)` for a decimal number with an optional sign; `none`: `ValueError`. Simplification: white space and
underscores are not accepted. -/
def pyInt : Str → Option ℤ
  | '-' :: s => if s ≠ [] ∧ s.all Char.isDigit then some (-(digitsValue s : ℤ)) else none
  | '+' :: s => if s ≠ [] ∧ s.all Char.isDigit then some (digitsValue s : ℤ) else none
  | s => if s ≠ [] ∧ s.all Char.isDigit then some (digitsValue s : ℤ) else none

/-- A line as written by `stream << a << "\t" << b << ... << "\n"`, e.g.
`src/OpenMPCD/CUDA/MPCFluid/Instrumentation/LogicalEntityMeanSquareDisplacement.cu:208-210`. -/
def tabLine (t : Str) (ts : List Str) : Str := t ++ ts.flatMap ('\t' :: ·) ++ ['\n']

/-! ## Specification -/

/-- Assumptions on the conversion of numbers: what is written is a token, and it is read as the number rounded to the
precision of the file. (In terms of `double`, what is written with 17 digits is read as the same number; but the numbers
of the model are exact.) -/
structure Rounds {K : Type} (io : Io K) (rnd : K → K) : Prop where
  parse_fmt : ∀ x, io.parse (io.fmt x) = some (rnd x)
  token_fmt : ∀ x, Token (io.fmt x)

/-! ## Proofs -/

theorem pyLines_cons_newline (r : Str) : pyLines ('\n' :: r) = [] :: pyLines r := by
  rw [pyLines, if_pos rfl]

theorem pyLines_line (l r : Str) (h : '\n' ∉ l) : pyLines (l ++ '\n' :: r) = l :: pyLines r := by
  induction l with
  | nil => exact pyLines_cons_newline r
  | cons c l ih =>
    have hc : c ≠ '\n' := fun e => h (by simp [e])
    have ih := ih (fun e => h (by simp [e]))
    rw [List.cons_append, pyLines, if_neg hc, ih]

theorem flatMap_tab_noNewline (ts : List Str) (h : ∀ t ∈ ts, Token t) : '\n' ∉ ts.flatMap ('\t' :: ·) := by
  intro hm
  obtain ⟨t, ht, hm⟩ := List.mem_flatMap.1 hm
  rcases List.mem_cons.1 hm with hm | hm
  · exact absurd hm (by decide)
  · exact (h t ht).noNewline hm

theorem pyLines_tabLine (t : Str) (ts : List Str) (ht : Token t) (h : ∀ t ∈ ts, Token t) (r : Str) :
    pyLines (tabLine t ts ++ r) = (t ++ ts.flatMap ('\t' :: ·)) :: pyLines r := by
  unfold tabLine
  rw [List.append_assoc, List.singleton_append, pyLines_line]
  intro hm
  rcases List.mem_append.1 hm with hm | hm
  · exact ht.noNewline hm
  · exact flatMap_tab_noNewline ts h hm

theorem wordsGo_tabs (acc : Str) (ts : List Str) (hacc : acc ≠ []) (h : ∀ t ∈ ts, Token t) :
    wordsGo acc (ts.flatMap ('\t' :: ·)) = acc :: ts := by
  induction ts generalizing acc with
  | nil => simp [wordsGo, hacc]
  | cons t ts ih =>
    have ht := h t (by simp)
    simp only [List.flatMap_cons, List.cons_append, wordsGo]
    rw [if_pos (by rfl), if_neg hacc, wordsGo_append _ _ _ fun c hc => (ht.2 c hc).1, List.nil_append,
      ih t ht.1 fun x hx => h x (by simp [hx])]

theorem words_tabs (t : Str) (ts : List Str) (ht : Token t) (h : ∀ t ∈ ts, Token t) :
    words (t ++ ts.flatMap ('\t' :: ·)) = t :: ts := by
  unfold words
  rw [wordsGo_append _ _ _ fun c hc => (ht.2 c hc).1, List.nil_append, wordsGo_tabs _ _ ht.1 h]

/-- Reading back the columns of a file. -/
theorem words_pyLines (rows : List (Str × List Str)) (h : ∀ r ∈ rows, Token r.1 ∧ ∀ t ∈ r.2, Token t) :
    (pyLines (rows.flatMap fun r => tabLine r.1 r.2)).map words = rows.map fun r => r.1 :: r.2 := by
  induction rows with
  | nil => rfl
  | cons r rows ih =>
    obtain ⟨h1, h2⟩ := h r (by simp)
    rw [List.flatMap_cons, pyLines_tabLine _ _ h1 h2, List.map_cons, words_tabs _ _ h1 h2,
      ih fun x hx => h x (by simp [hx]), List.map_cons]

theorem pyInt_natStr (n : ℕ) : pyInt (natStr n) = some (n : ℤ) := by
  have hd := natStr_digits n
  have hne := natStr_ne_nil n
  have key : (natStr n).all Char.isDigit = true := List.all_eq_true.2 hd
  unfold pyInt
  split
  · rename_i s e
    have := hd '-' (by rw [e]; simp)
    exact absurd this (by decide)
  · rename_i s e
    have := hd '+' (by rw [e]; simp)
    exact absurd this (by decide)
  · rw [if_pos ⟨hne, key⟩, digitsValue_natStr]

/-- There are such conversions. -/
example : Rounds (⟨fun x : ℤ => if 0 ≤ x then natStr x.toNat else '-' :: natStr x.natAbs, pyInt, fun x => x < 0⟩) id where
  parse_fmt x := by
    dsimp only
    by_cases h : 0 ≤ x
    · rw [if_pos h, pyInt_natStr, Int.toNat_of_nonneg h]
      rfl
    · have hd : (natStr x.natAbs).all Char.isDigit = true := List.all_eq_true.2 (natStr_digits _)
      rw [if_neg h, pyInt, if_pos ⟨natStr_ne_nil _, hd⟩, digitsValue_natStr, id, Option.some.injEq]
      omega
  token_fmt x := by
    dsimp only
    by_cases h : 0 ≤ x
    · rw [if_pos h]
      exact natStr_token _
    · rw [if_neg h]
      refine ⟨by simp, fun c hc => ?_⟩
      rcases List.mem_cons.1 hc with rfl | hc
      · decide
      · exact (natStr_token _).2 c hc

example : (pyLines "0\t1\t2.5\n0\t2\t-1\nx".toList).map words =
    [["0".toList, "1".toList, "2.5".toList], ["0".toList, "2".toList, "-1".toList], ["x".toList]] := by decide +kernel

end OpenMPCD.Analysis
