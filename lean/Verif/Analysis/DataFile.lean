import Verif.Common
import Mathlib.Data.List.Basic
import Mathlib.Tactic.Common

/-!
# Data files of the analysis, plain or compressed, and their headers (C143)

`MPCDAnalysis::File` (`Analysis/src/MPCDAnalysis/File.cpp`), used by the programs in C++, and `openPossiblyCompressedFile`
(`Analysis/MPCDAnalysis/Utilities.py:1-51`), used by the scripts. Texts are lists of characters.
-/

set_option linter.unusedSectionVars false
set_option linter.unusedSimpArgs false
set_option linter.unusedVariables false

namespace OpenMPCD.Analysis.DataFile

abbrev Str := List Char

/-! ## Model -/

/-- Exceptions. -/
inductive Err
  /-- `OpenMPCD::IOException` -/
  | io
  /-- `OpenMPCD::InvalidArgumentException` -/
  | invalidArgument
  /-- `std::out_of_range`, thrown by `std::string::substr` -/
  | outOfRange
  /-- Python's `IOError` -/
  | pyIOError
  /-- Python's `ValueError` -/
  | pyValueError
  deriving DecidableEq

/-- What has been opened: the path, and whether the contents are decompressed. -/
structure Opened where
  path : Str
  bz2 : Bool
  deriving DecidableEq

/-- The file name extension. -/
def ext : Str := ['.', 'b', 'z', '2']

/-- The constructor of `File` (`Analysis/src/MPCDAnalysis/File.cpp:14-35`). `isFile`: whether there is a regular file of that name.
`filename.size() - 4` is computed without sign: for names of less than four characters, the result is larger than the size, and `substr`
throws. Files are assumed to be readable. -/
def open' (isFile : Str → Bool) (filename : Str) : Except Err Opened :=
  if isFile filename then
    if filename.length < 4 then .error .outOfRange
    else if filename.drop (filename.length - 4) = ext then .ok ⟨filename, true⟩
    else .ok ⟨filename, false⟩
  else if isFile (filename ++ ext) then .ok ⟨filename ++ ext, true⟩
  else .error .io

/-- `openPossiblyCompressedFile` (`Analysis/MPCDAnalysis/Utilities.py:31-51`). `s[-4:]` is all of `s` if `s` has less than four
characters. -/
def openPossiblyCompressedFile (isFile : Str → Bool) (baseFilename : Str) : Except Err Opened :=
  if baseFilename.drop (baseFilename.length - 4) = ext then
    (if isFile baseFilename then .ok ⟨baseFilename, true⟩ else .error .pyIOError)
  else if isFile (baseFilename ++ ext) then .ok ⟨baseFilename ++ ext, true⟩
  else if isFile baseFilename then .ok ⟨baseFilename, false⟩
  else .error .pyValueError

/-- `std::getline`: the line without its end, and what remains. -/
def getline : Str → Str × Str
  | [] => ([], [])
  | c :: cs => if c = '\n' then ([], cs) else (c :: (getline cs).1, (getline cs).2)

theorem getline_length (s : Str) : (getline s).2.length ≤ s.length := by
  induction s with
  | nil => simp [getline]
  | cons c cs ih => simp only [getline]; split <;> (simp; try omega)

/-- `readLine` (`Analysis/src/MPCDAnalysis/File.cpp:48-51`): `none`, `false` in C++, if nothing remains. -/
def readLine (s : Str) : Option Str × Str := if s = [] then (none, []) else (some (getline s).1, (getline s).2)

/-- White space, as recognised by `boost::algorithm::trim`. -/
def isSpace (c : Char) : Bool := c = ' ' || c = '\t' || c = '\n' || c = '\r' || c = Char.ofNat 11 || c = Char.ofNat 12

/-- `boost::algorithm::trim`. -/
def trim (s : Str) : Str := ((s.dropWhile isSpace).reverse.dropWhile isSpace).reverse

/-- `nameValuePairs`, a `std::map`. -/
abbrev Pairs := Str → Option Str

/-- Assignment to an element of the map. -/
def Pairs.set (p : Pairs) (name value : Str) : Pairs := fun n => if n = name then some value else p n

/-- `readNameValuePairs` (`Analysis/src/MPCDAnalysis/File.cpp:53-73`): the remaining text, the pairs, and how the call ends. -/
def readNameValuePairs (s : Str) (pairs : Pairs) : (Str × Pairs) × Except Err Unit :=
  match s with
  | [] => (([], pairs), .ok ())
  | c :: cs =>
    if c = '#' then
      let line := ((getline (c :: cs)).1).drop 1
      match splitChar '#' line with
      | [a, b] => readNameValuePairs (getline cs).2 (pairs.set (trim a) (trim b))
      | _ => (((getline cs).2, pairs), .error .io)
    else ((c :: cs, pairs), .ok ())
termination_by s.length
decreasing_by have := getline_length cs; simp; omega

/-- `hasProperty` (`Analysis/src/MPCDAnalysis/File.cpp:75-78`). -/
def hasProperty (pairs : Pairs) (name : Str) : Bool := (pairs name).isSome

/-- `getProperty<double>` (`Analysis/src/MPCDAnalysis/File.cpp:82-97`); `cast` is `boost::lexical_cast<double>`, `none` if it throws. -/
def getProperty {F : Type} (cast : Str → Option F) (pairs : Pairs) (name : Str) : Except Err F :=
  match pairs name with
  | none => .error .invalidArgument
  | some v => match cast v with
    | none => .error .io
    | some x => .ok x

/-- Calling `readLine` until it returns `false`. -/
def allLines (s : Str) : List Str :=
  match s with
  | [] => []
  | c :: cs => (getline (c :: cs)).1 :: allLines (getline (c :: cs)).2
termination_by s.length
decreasing_by
  simp only [getline]; have := getline_length cs; split <;> (simp; try omega)

/-! ## Specification -/

/-- The extension is there. -/
def Compressed (name : Str) : Prop := ∃ base, name = base ++ ext

/-- A text consisting of lines, each with its end. -/
def unlines (ls : List Str) : Str := ls.flatMap fun l => l ++ ['\n']

/-- The format of the documentation (`Analysis/include/MPCDAnalysis/File.hpp:57-60`): `# name = value`. -/
def documented (name value : Str) : Str := ['#', ' '] ++ name ++ [' ', '=', ' '] ++ value

/-- The format that is read: `# name # value`. -/
def accepted (name value : Str) : Str := '#' :: name ++ '#' :: value

/-- A word or several: no number sign, no end of line. -/
def Plain (s : Str) : Prop := '#' ∉ s ∧ '\n' ∉ s

/-- No white space at the ends. -/
def Tight (s : Str) : Prop := (∀ c, s.head? = some c → isSpace c = false) ∧ (∀ c, s.getLast? = some c → isSpace c = false)

/-- The last value given to a name. -/
def lastValue (l : List (Str × Str)) (name : Str) : Option Str := ((l.filter fun p => p.1 = name).getLast?).map Prod.snd

/-! ## Proofs: opening -/

theorem drop_ext (name : Str) : name.drop (name.length - 4) = ext ↔ Compressed name := by
  constructor
  · intro h; exact ⟨name.take (name.length - 4), by rw [← h]; simp⟩
  · rintro ⟨base, rfl⟩; simp [ext]

noncomputable instance (name : Str) : Decidable (Compressed name) := Classical.propDecidable _

theorem compressed_length {name : Str} (h : Compressed name) : 4 ≤ name.length := by
  obtain ⟨b, rfl⟩ := h; simp [ext]

/-- C143: for names of at least four characters, a file is opened exactly if there is one of that name, or a compressed one; it is
decompressed exactly if its name has the extension; and the exception is the documented one otherwise. What is missing: names with less
than four characters, see below. -/
theorem C143_open_partial (isFile : Str → Bool) (name : Str) (h4 : 4 ≤ name.length) :
    (∀ o, open' isFile name = .ok o →
      isFile o.path = true ∧ (o.path = name ∨ isFile name = false ∧ o.path = name ++ ext) ∧ (o.bz2 = true ↔ Compressed o.path)) ∧
    ((∃ o, open' isFile name = .ok o) ↔ isFile name = true ∨ isFile (name ++ ext) = true) ∧
    (∀ e, open' isFile name = .error e → e = .io) := by
  have n4 : ¬ name.length < 4 := by omega
  have hc : Compressed (name ++ ext) := ⟨name, rfl⟩
  simp only [open', if_neg n4, drop_ext]
  by_cases h1 : isFile name <;> by_cases h2 : Compressed name <;> by_cases h3 : isFile (name ++ ext) <;> simp [h1, h2, h3, hc]

/-- C143 fails for short names: a file of less than four characters is not opened, and the exception is not one of those
documented. -/
theorem C143_short_violated (isFile : Str → Bool) (name : Str) (h4 : name.length < 4) (h : isFile name = true) :
    open' isFile name = .error .outOfRange := by simp [open', h, h4]

example : open' (fun s => s = ['a']) ['a'] = .error .outOfRange := C143_short_violated _ _ (by decide) (by decide)

/-- C143 for the scripts, for all names: a file is opened exactly if there is one of that name, or, for names without the extension, a
compressed one, which takes precedence. -/
theorem C143_script (isFile : Str → Bool) (name : Str) :
    (∀ o, openPossiblyCompressedFile isFile name = .ok o → isFile o.path = true ∧ (o.bz2 = true ↔ Compressed o.path) ∧
      (o.path = name ++ ext ∨ o.path = name ∧ (Compressed name ∨ isFile (name ++ ext) = false))) ∧
    ((∃ o, openPossiblyCompressedFile isFile name = .ok o) ↔ isFile name = true ∨ ¬ Compressed name ∧ isFile (name ++ ext) = true) ∧
    (∀ e, openPossiblyCompressedFile isFile name = .error e → if Compressed name then e = .pyIOError else e = .pyValueError) := by
  have hc : Compressed (name ++ ext) := ⟨name, rfl⟩
  simp only [openPossiblyCompressedFile, drop_ext]
  by_cases h1 : isFile name <;> by_cases h2 : Compressed name <;> by_cases h3 : isFile (name ++ ext) <;> simp [h1, h2, h3, hc]

/-- C143: programs and scripts open the same file if there is exactly one of the two, the name is at least four characters long, and
compressed files are not compressed again. -/
theorem C143_agree_partial (isFile : Str → Bool) (name : Str) (h4 : 4 ≤ name.length)
    (hone : ¬ (isFile name = true ∧ isFile (name ++ ext) = true)) (htwice : Compressed name → isFile (name ++ ext) = false) (o : Opened) :
    open' isFile name = .ok o ↔ openPossiblyCompressedFile isFile name = .ok o := by
  have n4 : ¬ name.length < 4 := by omega
  simp only [open', openPossiblyCompressedFile, if_neg n4, drop_ext]
  by_cases h1 : isFile name <;> by_cases h2 : Compressed name <;> by_cases h3 : isFile (name ++ ext) <;> simp_all

example : open' (fun s => s = "v.data.bz2".toList) "v.data".toList = .ok ⟨"v.data.bz2".toList, true⟩ ∧
    openPossiblyCompressedFile (fun s => s = "v.data.bz2".toList) "v.data".toList = .ok ⟨"v.data.bz2".toList, true⟩ := by decide

/-- C143 fails if there are both: the program reads the plain file, the script reads the compressed one, whatever their contents. -/
theorem C143_both_violated (isFile : Str → Bool) (name : Str) (h4 : 4 ≤ name.length) (hn : ¬ Compressed name) (h1 : isFile name = true)
    (h2 : isFile (name ++ ext) = true) :
    open' isFile name = .ok ⟨name, false⟩ ∧ openPossiblyCompressedFile isFile name = .ok ⟨name ++ ext, true⟩ := by
  have n4 : ¬ name.length < 4 := by omega
  simp [open', openPossiblyCompressedFile, n4, drop_ext, hn, h1, h2]

example : open' (fun _ => true) "v.data".toList = .ok ⟨"v.data".toList, false⟩ ∧
    openPossiblyCompressedFile (fun _ => true) "v.data".toList = .ok ⟨"v.data.bz2".toList, true⟩ := by decide

/-! ## Proofs: lines -/

theorem getline_line {l : Str} (h : '\n' ∉ l) (rest : Str) : getline (l ++ '\n' :: rest) = (l, rest) := by
  induction l with
  | nil => simp [getline]
  | cons c cs ih =>
    simp only [List.mem_cons, not_or] at h
    have hc : c ≠ '\n' := fun e => h.1 e.symm
    simp [getline, hc, ih h.2]

theorem getline_last {l : Str} (h : '\n' ∉ l) : getline l = (l, []) := by
  induction l with
  | nil => simp [getline]
  | cons c cs ih =>
    simp only [List.mem_cons, not_or] at h
    have hc : c ≠ '\n' := fun e => h.1 e.symm
    simp [getline, hc, ih h.2]

/-- C143: reading line by line gives all of the lines, in order, including the last one if it has no end. -/
theorem C143_lines (ls : List Str) (h : ∀ l ∈ ls, '\n' ∉ l) (last : Str) (hl : '\n' ∉ last) :
    allLines (unlines ls ++ last) = ls ++ (if last = [] then [] else [last]) := by
  induction ls with
  | nil =>
    cases last with
    | nil => simp [unlines, allLines]
    | cons c cs => rw [show unlines [] ++ c :: cs = c :: cs from rfl, allLines, getline_last hl]; simp [allLines]
  | cons l ls ih =>
    have hl' := h l (by simp)
    have e : unlines (l :: ls) ++ last = l ++ '\n' :: (unlines ls ++ last) := by simp [unlines]
    have hg := getline_line hl' (unlines ls ++ last)
    rw [← e] at hg
    have hne : unlines (l :: ls) ++ last ≠ [] := by rw [e]; simp
    rcases hx : unlines (l :: ls) ++ last with _ | ⟨c, cs⟩
    · exact absurd hx hne
    · rw [hx] at hg
      rw [allLines, hg]
      simp only [ih (fun x hx => h x (by simp [hx])), List.cons_append]

/-- C143: each call of `readLine` returns the next of these lines, and `false` once there is none. -/
theorem C143_readLine (s : Str) :
    (readLine s).1 = (allLines s).head? ∧ allLines (readLine s).2 = (allLines s).tail := by
  cases s with
  | nil => simp [readLine, allLines]
  | cons c cs => simp [readLine, allLines]

/-! ## Proofs: headers -/

theorem trim_tight {s : Str} (h : Tight s) : trim s = s := by
  have d : ∀ t : Str, (∀ c, t.head? = some c → isSpace c = false) → t.dropWhile isSpace = t := by
    intro t ht
    cases t with
    | nil => rfl
    | cons c cs => simp [List.dropWhile, ht c rfl]
  rw [trim, d s h.1, d s.reverse (by rw [List.head?_reverse]; exact h.2), List.reverse_reverse]

theorem dropWhile_spaces (a s : Str) (ha : ∀ c ∈ a, isSpace c = true) : (a ++ s).dropWhile isSpace = s.dropWhile isSpace := by
  induction a with
  | nil => rfl
  | cons c cs ih => simp [List.dropWhile, ha c (by simp), ih (fun x hx => ha x (by simp [hx]))]

/-- White space around does not matter. -/
theorem trim_pad {s : Str} (h : Tight s) (a b : Str) (ha : ∀ c ∈ a, isSpace c = true) (hb : ∀ c ∈ b, isSpace c = true) :
    trim (a ++ s ++ b) = s := by
  cases s with
  | nil =>
    have e : (a ++ [] ++ b).dropWhile isSpace = [] := by
      rw [List.append_nil, dropWhile_spaces a b ha, show b = b ++ [] by simp, dropWhile_spaces b [] hb]; rfl
    simp [trim, show (a ++ b).dropWhile isSpace = [] by simpa using e]
  | cons c cs =>
    have e : (a ++ (c :: cs) ++ b).dropWhile isSpace = (c :: cs) ++ b := by
      rw [List.append_assoc, dropWhile_spaces a _ ha]; simp [List.dropWhile, h.1 c rfl]
    rw [trim, e, List.reverse_append, dropWhile_spaces _ _ (by simpa using hb)]
    have := trim_tight h
    rw [trim, show (c :: cs).dropWhile isSpace = c :: cs by simp [List.dropWhile, h.1 c rfl]] at this
    exact this

theorem read_line (l : Str) (h : '\n' ∉ l) (rest : Str) (pairs : Pairs) :
    readNameValuePairs ('#' :: l ++ '\n' :: rest) pairs =
      match splitChar '#' l with
      | [a, b] => readNameValuePairs rest (pairs.set (trim a) (trim b))
      | _ => ((rest, pairs), .error .io) := by
  have g : getline ('#' :: (l ++ '\n' :: rest)) = ('#' :: l, rest) := by
    have := getline_line (l := '#' :: l) (by simp [h]) rest
    simpa using this
  rw [show '#' :: l ++ '\n' :: rest = '#' :: (l ++ '\n' :: rest) from rfl, readNameValuePairs]
  simp only [if_true, g, getline_line h rest, List.drop_succ_cons, List.drop_zero]

theorem read_accepted {name value : Str} (hn : Plain name) (hv : Plain value) (rest : Str) (pairs : Pairs) :
    readNameValuePairs (accepted name value ++ '\n' :: rest) pairs = readNameValuePairs rest (pairs.set (trim name) (trim value)) := by
  have e : accepted name value ++ '\n' :: rest = '#' :: (name ++ '#' :: value) ++ '\n' :: rest := rfl
  rw [e, read_line _ (by simp [hn.2, hv.2]), splitChar_append_cons hn.1, splitChar_of_notMem hv.1]

/-- C143, as far as it holds: headers in the format `# name # value` are read up to the first other line; each name has the value given
last, without white space around. What is missing: this is not the format of the documentation, see below. -/
theorem C143_header_partial (l : List (Str × Str)) (h : ∀ p ∈ l, Plain p.1 ∧ Plain p.2) (rest : Str) (hr : rest.head? ≠ some '#')
    (pairs : Pairs) :
    ∃ p, readNameValuePairs (unlines (l.map fun q => accepted q.1 q.2) ++ rest) pairs = ((rest, p), .ok ()) ∧
      ∀ name, p name = ((lastValue (l.map fun q => (trim q.1, trim q.2)) name).or (pairs name)) := by
  induction l generalizing pairs with
  | nil =>
    refine ⟨pairs, ?_, by simp [lastValue]⟩
    cases rest with
    | nil => simp [unlines, readNameValuePairs]
    | cons c cs =>
      have : c ≠ '#' := by simpa using hr
      simp [unlines, readNameValuePairs, this]
  | cons q l ih =>
    obtain ⟨p, h1, h2⟩ := ih (fun x hx => h x (by simp [hx])) (pairs.set (trim q.1) (trim q.2))
    refine ⟨p, ?_, fun name => ?_⟩
    · have e : unlines ((q :: l).map fun q => accepted q.1 q.2) ++ rest =
          accepted q.1 q.2 ++ '\n' :: (unlines (l.map fun q => accepted q.1 q.2) ++ rest) := by simp [unlines]
      rw [e, read_accepted (h q (by simp)).1 (h q (by simp)).2, h1]
    · rw [h2 name]
      by_cases e : name = trim q.1
      · subst e
        simp only [lastValue, List.map_cons, List.filter_cons, decide_true, if_true, Pairs.set]
        generalize (List.filter (fun p => decide (p.1 = trim q.1)) (l.map fun q => (trim q.1, trim q.2))) = ys
        cases ys with
        | nil => simp
        | cons y ys =>
          rw [List.getLast?_cons_cons, List.getLast?_eq_some_getLast (List.cons_ne_nil y ys)]; simp
      · have e' : ¬ trim q.1 = name := fun x => e x.symm
        simp [lastValue, Pairs.set, e, e']

/-- Numbers in headers are found again, with blanks around name and value, if no later line gives the same name. -/
theorem C143_property {F : Type} (cast : Str → Option F) {name value : Str} (hn : Plain name) (hv : Plain value) (tn : Tight name)
    (tv : Tight value) {x : F} (hx : cast value = some x) (rest : Str) (hr : rest.head? ≠ some '#') (pairs : Pairs) :
    let r := readNameValuePairs (accepted (' ' :: name ++ [' ']) (' ' :: value) ++ '\n' :: rest) pairs
    r.2 = .ok () ∧ r.1.1 = rest ∧ hasProperty r.1.2 name = true ∧ getProperty cast r.1.2 name = .ok x ∧
      (∀ other, other ≠ name → r.1.2 other = pairs other) := by
  have pn : Plain (' ' :: name ++ [' ']) := ⟨by simp [hn.1], by simp [hn.2]⟩
  have pv : Plain (' ' :: value) := ⟨by simp [hv.1], by simp [hv.2]⟩
  have t1 : trim (' ' :: name ++ [' ']) = name := trim_pad tn [' '] [' '] (by simp [isSpace]) (by simp [isSpace])
  have t2 : trim (' ' :: value) = value := by
    have := trim_pad tv [' '] [] (by simp [isSpace]) (by simp); simpa using this
  have e : readNameValuePairs rest (pairs.set name value) = ((rest, pairs.set name value), .ok ()) := by
    cases rest with
    | nil => simp [readNameValuePairs]
    | cons c cs =>
      have : c ≠ '#' := by simpa using hr
      simp [readNameValuePairs, this]
  simp only [read_accepted pn pv, t1, t2, e, true_and]
  refine ⟨by simp [hasProperty, Pairs.set], by simp [getProperty, Pairs.set, hx], fun o ho => by simp [Pairs.set, ho]⟩

/-- C143: after a header has been read, asking for a name gives the number that the last line with that name gives; a name that no line
gives causes the documented `InvalidArgumentException`, and a value that is not a number an `IOException`. -/
theorem C143_asked_partial {F : Type} (cast : Str → Option F) (l : List (Str × Str)) (h : ∀ p ∈ l, Plain p.1 ∧ Plain p.2) (rest : Str)
    (hr : rest.head? ≠ some '#') (name : Str) :
    let r := readNameValuePairs (unlines (l.map fun q => accepted q.1 q.2) ++ rest) (fun _ => none)
    let given := lastValue (l.map fun q => (trim q.1, trim q.2)) name
    (given = none → hasProperty r.1.2 name = false ∧ getProperty cast r.1.2 name = .error .invalidArgument) ∧
    (∀ v, given = some v → hasProperty r.1.2 name = true ∧
      (cast v = none → getProperty cast r.1.2 name = .error .io) ∧
      (∀ x, cast v = some x → getProperty cast r.1.2 name = .ok x)) := by
  obtain ⟨p, h1, h2⟩ := C143_header_partial l h rest hr (fun _ => none)
  have hp := h2 name
  simp only [h1, hasProperty, getProperty, hp]
  refine ⟨fun g => by simp [g], fun v g => ?_⟩
  rw [g]
  exact ⟨rfl, fun c => by simp [c], fun x c => by simp [c]⟩

example : getProperty (F := Str) some
    (readNameValuePairs "# a # 1\n# b # 2\n".toList (fun _ => none)).1.2 "c".toList = .error .invalidArgument := by
  have := C143_asked_partial (F := Str) some [(" a ".toList, " 1".toList), (" b ".toList, " 2".toList)]
    (by simp [Plain]) [] (by simp) "c".toList
  exact (this.1 (by decide)).2

/-- C143: reading the header succeeds exactly if every line before the first that does not start with a number sign has exactly one more
number sign. -/
theorem C143_format (ls : List Str) (h : ∀ l ∈ ls, '\n' ∉ l) (rest : Str) (hr : rest.head? ≠ some '#') (pairs : Pairs) :
    (readNameValuePairs (unlines (ls.map fun l => '#' :: l) ++ rest) pairs).2 =
      if ∀ l ∈ ls, (splitChar '#' l).length = 2 then .ok () else .error .io := by
  induction ls generalizing pairs with
  | nil =>
    cases rest with
    | nil => simp [unlines, readNameValuePairs]
    | cons c cs =>
      have : c ≠ '#' := by simpa using hr
      simp [unlines, readNameValuePairs, this]
  | cons l ls ih =>
    have e : unlines ((l :: ls).map fun l => '#' :: l) ++ rest = '#' :: l ++ '\n' :: (unlines (ls.map fun l => '#' :: l) ++ rest) := by
      simp [unlines]
    rw [e, read_line l (h l (by simp))]
    by_cases h2 : (splitChar '#' l).length = 2
    · obtain ⟨a, b, hab⟩ := List.length_eq_two.mp h2
      rw [hab]
      simp only [ih (fun x hx => h x (by simp [hx]))]
      simp [hab]
    · have : ¬ ∀ x ∈ l :: ls, (splitChar '#' x).length = 2 := fun x => h2 (x l (by simp))
      rw [if_neg this]
      split
      · rename_i a b hab; simp [hab] at h2
      · rfl

/-- C143 fails for the format that is documented: no line `# name = value` is accepted, whatever the lines after it are; and what comes
before it, in whichever format, does not help. -/
theorem C143_documented_violated {name value : Str} (hn : Plain name) (hv : Plain value) (rest : Str) (pairs : Pairs) :
    readNameValuePairs (documented name value ++ '\n' :: rest) pairs = ((rest, pairs), .error .io) := by
  have e : documented name value ++ '\n' :: rest = '#' :: (' ' :: name ++ [' ', '=', ' '] ++ value) ++ '\n' :: rest := by
    simp [documented]
  rw [e, read_line _ (by simp [hn.2, hv.2]), splitChar_of_notMem (by simp [hn.1, hv.1])]

example : (readNameValuePairs "# dt = 0.1\n1 2\n".toList (fun _ => none)).2 = .error .io := by
  have := C143_documented_violated (name := "dt".toList) (value := "0.1".toList) (by unfold Plain; decide) (by unfold Plain; decide)
    "1 2\n".toList (fun _ => none)
  rw [show "# dt = 0.1\n1 2\n".toList = documented "dt".toList "0.1".toList ++ '\n' :: "1 2\n".toList by decide, this]

example : ∃ p, readNameValuePairs "# dt # 0.1\n# N # 5\n1 2\n".toList (fun _ => none) = (("1 2\n".toList, p), .ok ()) ∧
    p "dt".toList = some "0.1".toList := by
  obtain ⟨p, h1, h2⟩ := C143_header_partial [(" dt ".toList, " 0.1".toList), (" N ".toList, " 5".toList)]
    (by unfold Plain; decide) "1 2\n".toList (by decide) (fun _ => none)
  exact ⟨p, h1, by rw [h2]; decide⟩

end OpenMPCD.Analysis.DataFile
