import Mathlib.Data.List.Infix
import Mathlib.Data.Nat.Digits.Lemmas
import Verif.Common

/-!
# Strings, path names and the file system

The parts of Python's `str` and `os.path` which `Analysis/MPCDAnalysis/Run.py` and
`Analysis/MPCDAnalysis/DataManager.py` use.
-/

set_option linter.unusedSimpArgs false

namespace OpenMPCD.Runs

/-- Text: a Python `str`. -/
abbrev Str := List Char

/-- The scan underlying Python's `str.replace(old, new)` for a non-empty `old` (used at
`Analysis/MPCDAnalysis/DataManager.py:93,195,596,597,624`): left to right, occurrences do not
overlap. `skip` characters are still to be dropped. -/
def replaceGo (old new : Str) : ℕ → Str → Str
  | _, [] => []
  | skip + 1, _ :: cs => replaceGo old new skip cs
  | 0, c :: cs =>
    if old.isPrefixOf (c :: cs) then new ++ replaceGo old new (old.length - 1) cs
    else c :: replaceGo old new 0 cs

/-- Python's `str.replace(old, new)`. An empty `old` matches between any two characters. -/
def pyReplace (old new s : Str) : Str :=
  if old = [] then new ++ s.flatMap (fun c => c :: new) else replaceGo old new 0 s

/-- Python's `str(n)` for a non-negative `int` (used at
`Analysis/MPCDAnalysis/DataManager.py:597,893`). -/
def natStr (n : ℕ) : Str :=
  if n = 0 then ['0'] else ((Nat.digits 10 n).map Nat.digitChar).reverse

/-- Python's `"{:0>4}".format(n)` with the width as parameter
(`Analysis/MPCDAnalysis/DataManager.py:478-483`). -/
def zeroPadded (width n : ℕ) : Str :=
  List.replicate (width - (natStr n).length) '0' ++ natStr n

/-- One step of `os.path.normpath`: empty components and `.` are dropped, `..` removes the component
before it. -/
def pushComponent (acc : List Str) (c : Str) : List Str :=
  if c = [] ∨ c = ".".toList then acc
  else if c = "..".toList then acc.dropLast
  else acc ++ [c]

/-- The location a path name denotes, for a process whose working directory has the components
`cwd`: the components of `os.path.abspath(p)` (used at
`Analysis/MPCDAnalysis/DataManager.py:578,612`), and the key under which the file system stores it.

Simplifications: there are no symbolic links; a trailing slash is not distinguished from its
absence; Python's special treatment of exactly two leading slashes is left out. -/
def resolve (cwd : List Str) (p : Str) : List Str :=
  (splitChar '/' p).foldl pushComponent (if p.head? = some '/' then [] else cwd)

/-- The absolute, normalised name of a location. -/
def canon (d : List Str) : Str :=
  if d = [] then "/".toList else d.flatMap (fun c => '/' :: c)

/-- `os.path.abspath` (used at `Analysis/MPCDAnalysis/DataManager.py:578,612`). -/
def abspath (cwd : List Str) (p : Str) : Str := canon (resolve cwd p)

/-- A file-system entry. -/
inductive Node where
  | file (content : Str)
  | dir
  deriving DecidableEq

/-- A file system: which entry, if any, is at which location. -/
abbrev FS := List Str → Option Node

/-- `os.path.isfile` (used at `Analysis/MPCDAnalysis/Run.py:89,92,104,118,160`). -/
def isfile (cwd : List Str) (fs : FS) (p : Str) : Bool :=
  match fs (resolve cwd p) with
  | some (.file _) => true
  | _ => false

/-- `os.path.isdir` (used at `Analysis/MPCDAnalysis/DataManager.py:464,582,604`). -/
def isdir (cwd : List Str) (fs : FS) (p : Str) : Bool :=
  fs (resolve cwd p) = some .dir

/-- `os.path.exists` (used at `Analysis/MPCDAnalysis/Run.py:101`,
`Analysis/MPCDAnalysis/DataManager.py:485`). -/
def pathExists (cwd : List Str) (fs : FS) (p : Str) : Bool :=
  (fs (resolve cwd p)).isSome

/-- `os.mkdir` (used at `Analysis/MPCDAnalysis/DataManager.py:486,583,605`): raises if the name is
taken or the parent is not a directory. Running out of disk space or permissions is not modelled. -/
def mkdir (cwd : List Str) (fs : FS) (p : Str) : FS × Except PyErr Unit :=
  let l := resolve cwd p
  if (fs l).isSome ∨ fs l.dropLast ≠ some .dir then (fs, .error .osError)
  else (Function.update fs l (some .dir), .ok ())

/-- `with open(p, "w") as f: f.write(text)` (used at
`Analysis/MPCDAnalysis/DataManager.py:487-488,609-610,633-634`): raises if the name is that of a
directory or the parent is not a directory. -/
def writeFile (cwd : List Str) (fs : FS) (p text : Str) : FS × Except PyErr Unit :=
  let l := resolve cwd p
  if fs l = some .dir ∨ fs l.dropLast ≠ some .dir then (fs, .error .osError)
  else (Function.update fs l (some (.file text)), .ok ())

/-- `open(p, "r").read()` (used at `Analysis/MPCDAnalysis/Run.py:129,200`). -/
def readFile (cwd : List Str) (fs : FS) (p : Str) : Except PyErr Str :=
  match fs (resolve cwd p) with
  | some (.file text) => .ok text
  | _ => .error .osError

/-! ## Facts about path names -/

/-- A name which a directory entry can have. -/
def ValidName (c : Str) : Prop := c ≠ [] ∧ '/' ∉ c ∧ c ≠ ".".toList ∧ c ≠ "..".toList

/-- A location all of whose components are possible names. -/
def ValidLoc (d : List Str) : Prop := ∀ c ∈ d, ValidName c

theorem pushComponent_valid {acc : List Str} {c : Str} (h : ValidName c) :
    pushComponent acc c = acc ++ [c] := by
  obtain ⟨h1, -, h3, h4⟩ := h
  unfold pushComponent
  rw [if_neg (by rintro (h | h); exacts [h1 h, h3 h]), if_neg h4]

theorem foldl_pushComponent {acc d : List Str} (h : ValidLoc d) :
    d.foldl pushComponent acc = acc ++ d := by
  induction d generalizing acc with
  | nil => simp
  | cons c d ih =>
    rw [List.foldl_cons, pushComponent_valid (h c (by simp)), ih (fun x hx => h x (by simp [hx]))]
    simp

theorem splitChar_append {sep : Char} (s t : Str) :
    splitChar sep (s ++ sep :: t) = splitChar sep s ++ splitChar sep t := by
  induction s with
  | nil => simp [splitChar]
  | cons c cs ih =>
    by_cases hc : c = sep
    · simp [splitChar, hc, ih]
    · simp only [List.cons_append, splitChar, hc, if_false, ih]
      cases hs : splitChar sep cs with
      | nil => exact absurd hs (splitChar_ne_nil sep cs)
      | cons p ps => simp

theorem pushComponent_nil (acc : List Str) : pushComponent acc [] = acc := by
  simp [pushComponent]

/-- Appending `/name` to a path name denotes the entry `name` in it. -/
theorem resolve_append (cwd : List Str) (p t : Str) (hp : p ≠ []) :
    resolve cwd (p ++ '/' :: t) = (splitChar '/' t).foldl pushComponent (resolve cwd p) := by
  unfold resolve
  rw [splitChar_append, List.foldl_append]
  cases p with
  | nil => exact absurd rfl hp
  | cons c cs => simp

theorem splitChar_flatMap_slash (d : List Str) (hd : ∀ c ∈ d, '/' ∉ c) :
    splitChar '/' (d.flatMap (fun c => '/' :: c)) = [] :: d := by
  have := splitChar_flatMap (sep := '/') [] d (by simp) hd
  simpa using this

theorem resolve_canon (cwd : List Str) {d : List Str} (h : ValidLoc d) :
    resolve cwd (canon d) = d := by
  unfold canon
  by_cases hd : d = []
  · subst hd
    simp [resolve, splitChar, pushComponent]
  · rw [if_neg hd]
    unfold resolve
    rw [splitChar_flatMap_slash d (fun c hc => (h c hc).2.1), List.foldl_cons, pushComponent_nil,
      foldl_pushComponent h]
    cases d with
    | nil => exact absurd rfl hd
    | cons c cs => simp

theorem canon_ne_nil (d : List Str) : canon d ≠ [] := by
  unfold canon
  split
  · simp
  · cases d with
    | nil => simp_all
    | cons c cs => simp

theorem abspath_canon (cwd : List Str) {d : List Str} (h : ValidLoc d) :
    abspath cwd (canon d) = canon d := by
  rw [abspath, resolve_canon cwd h]

theorem canon_inj {d e : List Str} (hd : ValidLoc d) (he : ValidLoc e) (h : canon d = canon e) :
    d = e := by
  rw [← resolve_canon [] hd, h, resolve_canon [] he]

theorem resolve_canon_append (cwd : List Str) {d : List Str} (h : ValidLoc d) (t : Str) :
    resolve cwd (canon d ++ '/' :: t) = (splitChar '/' t).foldl pushComponent d := by
  rw [resolve_append cwd _ _ (canon_ne_nil d), resolve_canon cwd h]

/-! ## Facts about numerals -/

theorem digitChar_inj {a b : ℕ} (ha : a < 10) (hb : b < 10)
    (h : Nat.digitChar a = Nat.digitChar b) : a = b := by
  revert h
  have : ∀ a < 10, ∀ b < 10, Nat.digitChar a = Nat.digitChar b → a = b := by decide
  exact this a ha b hb

/-- The number a string of decimal digits stands for. -/
def digitsValue (s : Str) : ℕ := s.foldl (fun n c => 10 * n + (c.toNat - '0'.toNat)) 0

theorem digitChar_toNat {a : ℕ} (ha : a < 10) : (Nat.digitChar a).toNat - '0'.toNat = a := by
  revert a
  decide

theorem foldl_digits (ds : List ℕ) (h : ∀ d ∈ ds, d < 10) :
    digitsValue ((ds.map Nat.digitChar).reverse) = Nat.ofDigits 10 ds := by
  induction ds with
  | nil => rfl
  | cons d ds ih =>
    have ih' := ih (fun x hx => h x (by simp [hx]))
    unfold digitsValue at ih' ⊢
    rw [List.map_cons, List.reverse_cons, List.foldl_append, ih', Nat.ofDigits_cons]
    simp only [List.foldl_cons, List.foldl_nil]
    rw [digitChar_toNat (h d (by simp))]
    push_cast
    omega

theorem digitsValue_natStr (n : ℕ) : digitsValue (natStr n) = n := by
  unfold natStr
  split
  · rename_i h
    subst h
    decide
  · rw [foldl_digits _ (fun d hd => Nat.digits_lt_base (by norm_num) hd), Nat.ofDigits_digits]

theorem digitsValue_zeros (k : ℕ) (s : Str) :
    digitsValue (List.replicate k '0' ++ s) = digitsValue s := by
  unfold digitsValue
  rw [List.foldl_append]
  congr 1
  induction k with
  | zero => rfl
  | succ k ih =>
    rw [List.replicate_succ, List.foldl_cons]
    simpa using ih

theorem digitsValue_zeroPadded (w n : ℕ) : digitsValue (zeroPadded w n) = n := by
  rw [zeroPadded, digitsValue_zeros, digitsValue_natStr]

theorem zeroPadded_inj {w m n : ℕ} (h : zeroPadded w m = zeroPadded w n) : m = n := by
  rw [← digitsValue_zeroPadded w m, h, digitsValue_zeroPadded]

theorem natStr_inj {m n : ℕ} (h : natStr m = natStr n) : m = n := by
  rw [← digitsValue_natStr m, h, digitsValue_natStr]

theorem isDigit_digitChar {a : ℕ} (ha : a < 10) : (Nat.digitChar a).isDigit = true := by
  revert a
  decide

theorem natStr_digits (n : ℕ) : ∀ c ∈ natStr n, c.isDigit = true := by
  unfold natStr
  split
  · decide
  · intro c hc
    simp only [List.mem_reverse, List.mem_map] at hc
    obtain ⟨d, hd, rfl⟩ := hc
    exact isDigit_digitChar (Nat.digits_lt_base (by norm_num) hd)

theorem natStr_ne_nil (n : ℕ) : natStr n ≠ [] := by
  unfold natStr
  split
  · simp
  · simp [Nat.digits_ne_nil_iff_ne_zero, *]

theorem natStr_length_le {w n : ℕ} (hw : 0 < w) (h : n < 10 ^ w) : (natStr n).length ≤ w := by
  unfold natStr
  split
  · exact hw
  · simp only [List.length_reverse, List.length_map]
    exact (Nat.digits_length_le_iff (by norm_num) n).2 h

/-- The padded numeral has exactly `width` digits as long as the number fits. -/
theorem zeroPadded_length {w n : ℕ} (hw : 0 < w) (h : n < 10 ^ w) : (zeroPadded w n).length = w := by
  have := natStr_length_le hw h
  simp [zeroPadded]
  omega

theorem zeroPadded_noSlash (w n : ℕ) : '/' ∉ zeroPadded w n := by
  intro h
  simp only [zeroPadded, List.mem_append, List.mem_replicate] at h
  rcases h with h | h
  · exact absurd h.2 (by decide)
  · exact absurd (natStr_digits n _ h) (by decide)

/-! ## Facts about replacing -/

theorem replaceGo_skip (old new : Str) (n : ℕ) (s : Str) :
    replaceGo old new n s = replaceGo old new 0 (s.drop n) := by
  induction s generalizing n with
  | nil => cases n <;> simp [replaceGo]
  | cons c cs ih =>
    cases n with
    | zero => simp
    | succ n =>
      rw [replaceGo, ih n]
      simp

/-- An occurrence at the front is replaced, and replacing goes on behind it. -/
theorem pyReplace_prefix {old : Str} (h : old ≠ []) (new rest : Str) :
    pyReplace old new (old ++ rest) = new ++ pyReplace old new rest := by
  cases old with
  | nil => exact absurd rfl h
  | cons o os =>
    simp only [pyReplace, if_neg h, List.cons_append, replaceGo]
    rw [if_pos (by
      rw [List.isPrefixOf_iff_prefix]
      exact ⟨rest, by simp⟩), replaceGo_skip]
    simp

/-- Text without occurrence is left alone. -/
theorem pyReplace_of_not_infix {old : Str} (h : old ≠ []) (new s : Str) (hs : ¬ old <:+: s) :
    pyReplace old new s = s := by
  simp only [pyReplace, if_neg h]
  induction s with
  | nil => simp [replaceGo]
  | cons c cs ih =>
    rw [replaceGo, if_neg, ih]
    · intro hi
      exact hs (hi.trans (List.suffix_cons c cs).isInfix)
    · intro hp
      rw [List.isPrefixOf_iff_prefix] at hp
      exact hs hp.isInfix

end OpenMPCD.Runs
