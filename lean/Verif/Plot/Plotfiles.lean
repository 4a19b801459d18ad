import Verif.Plot.Interactive

/-!
# The files with transverse velocity correlation functions, and the interactive plotter (C146)

`Analysis/src/computeTransverseVelocityCorrelationFunction/writePlotfiles.cpp` and
`Analysis/transverseVelocityCorrelationFunction.py` both write such files: parameters as comments, then a table. How they
are loaded into the plotter is C109; how the numbers in the tables are computed, C93 and C127.
-/

set_option linter.unusedSectionVars false
set_option linter.unusedSimpArgs false
set_option linter.unusedVariables false

namespace OpenMPCD.Plotfiles

open Runs (Str natStr natStr_digits natStr_ne_nil)
open Snapshot (Io Token isSpace words natStr_token)
open Analysis (Rounds tabLine pyLines)
open Interactive

variable {F L : Type}

/-! ## Model -/

/-- The loop writing the run directories (`Analysis/src/computeTransverseVelocityCorrelationFunction/writePlotfiles.cpp:173-180`,
`Analysis/transverseVelocityCorrelationFunction.py:197-206`). -/
def quoteAll : Bool → List Str → Str
  | _, [] => []
  | first, r :: rest => (if first then [] else [',', ' ']) ++ (['\''] ++ r ++ ['\'']) ++ quoteAll false rest

/-- `#name = value` (`Analysis/src/computeTransverseVelocityCorrelationFunction/writePlotfiles.cpp:183-194`,
`Analysis/transverseVelocityCorrelationFunction.py:210-217`). -/
def entry (e : Str × Str) : Str := '#' :: (e.1 ++ [' ', '=', ' '] ++ e.2 ++ ['\n'])

/-- The name of the first entry. -/
def rundirsName : Str := "rundirs".toList

/-- The run directories (`Analysis/src/computeTransverseVelocityCorrelationFunction/writePlotfiles.cpp:172-181`,
`Analysis/transverseVelocityCorrelationFunction.py:196-208`). -/
def rundirsEntry (rundirs : List Str) : Str × Str := (rundirsName, ['['] ++ quoteAll true rundirs ++ [']'])

/-- What is written about the wave vector, the simulation box, and the temperature. -/
structure Parameters (F : Type) where
  kx : F
  ky : F
  kz : F
  lx : F
  ly : F
  lz : F
  kT : F

/-- The entries written by the script (`Analysis/transverseVelocityCorrelationFunction.py:210-217`); `fixed` is the format
`{:.5f}`. -/
def scriptEntries (io : Io F) (fixed : F → Str) (p : Parameters F) (nu : F) : List (Str × Str) :=
  [("k_nx".toList, io.fmt p.kx), ("k_ny".toList, io.fmt p.ky), ("k_nz".toList, io.fmt p.kz),
    ("L_x".toList, io.fmt p.lx), ("L_y".toList, io.fmt p.ly), ("L_z".toList, io.fmt p.lz),
    ("kT".toList, fixed p.kT), ("nu".toList, fixed nu)]

/-- The file written by the script (`Analysis/transverseVelocityCorrelationFunction.py:195-219`,
`Analysis/MPCDAnalysis/Data2D.py:228-243`; there are no errors for the points). -/
def scriptFile (io : Io F) (fixed : F → Str) (rundirs : List Str) (p : Parameters F) (nu : F) (points : List (F × F)) : Str :=
  (rundirsEntry rundirs :: scriptEntries io fixed p nu).flatMap entry ++
    points.flatMap fun q => tabLine (io.fmt q.1) [io.fmt q.2]

/-- The entries written by the program
(`Analysis/src/computeTransverseVelocityCorrelationFunction/writePlotfiles.cpp:183-194`). -/
def programEntries (io : Io F) (p : Parameters F) (timestep : F) (sampleSize : ℕ) : List (Str × Str) :=
  [("k_nx".toList, io.fmt p.kx), ("k_ny".toList, io.fmt p.ky), ("k_nz".toList, io.fmt p.kz),
    ("L_x".toList, io.fmt p.lx), ("L_y".toList, io.fmt p.ly), ("L_z".toList, io.fmt p.lz),
    ("kT".toList, io.fmt p.kT), ("mpcTimestep".toList, io.fmt timestep), ("sampleSizes".toList, natStr sampleSize)]

/-- The names of the columns (`Analysis/src/computeTransverseVelocityCorrelationFunction/writePlotfiles.cpp:198-206`). -/
def columnNames : Str :=
  tabLine "#correlation-time".toList ["normalized-TVACFFT".toList, "TVACFFT".toList, "sample-size".toList,
    "TVACFFT-sample-standard-deviation".toList, "TVACFFT-DDDA-optimal-block-ID".toList,
    "TVACFFT-DDDA-optimal-standard-error-of-the-mean".toList,
    "TVACFFT-DDDA-optimal-standard-error-of-the-mean-is-reliable".toList]

/-- A row of the table. -/
structure Row (F : Type) where
  time : F
  normalized : F
  mean : F
  sampleSize : ℕ
  standardDeviation : F
  block : ℕ
  error : F
  reliable : Bool

/-- The first column of a row and the others
(`Analysis/src/computeTransverseVelocityCorrelationFunction/writePlotfiles.cpp:214-222`). -/
def cells (io : Io F) (r : Row F) : Str × List Str :=
  (io.fmt r.time, [io.fmt r.normalized, io.fmt r.mean, natStr r.sampleSize, io.fmt r.standardDeviation, natStr r.block,
    io.fmt r.error, if r.reliable then ['1'] else ['0']])

/-- The file written by the program
(`Analysis/src/computeTransverseVelocityCorrelationFunction/writePlotfiles.cpp:169-224`). -/
def programFile (io : Io F) (rundirs : List Str) (p : Parameters F) (timestep : F) (sampleSize : ℕ) (rows : List (Row F)) :
    Str :=
  (rundirsEntry rundirs :: programEntries io p timestep sampleSize).flatMap entry ++ (['#', '\n'] ++ (columnNames ++
    rows.flatMap fun r => tabLine (cells io r).1 (cells io r).2))

/-- The name of the file (`Analysis/src/computeTransverseVelocityCorrelationFunction/writePlotfiles.cpp:267-272`,
`Analysis/transverseVelocityCorrelationFunction.py:194,257`). -/
def fileName (fmt : F → Str) (base : Str) (kx ky kz : F) : Str :=
  base ++ ("--k_nx=".toList ++ (fmt kx ++ ("--k_ny=".toList ++ (fmt ky ++ ("--k_nz=".toList ++ (fmt kz ++
    ".data".toList))))))

/-- The table of metadata (`Analysis/src/computeTransverseVelocityCorrelationFunction/writePlotfiles.cpp:317-322`). -/
def metadataTable (fmt : F → Str) (minimumTime : F) (count : ℕ) : Str :=
  tabLine "minimumTime".toList ["totalAnalyzedStepCount".toList] ++ tabLine (fmt minimumTime) [natStr count]

/-- Iterating over a text file in Python (`Analysis/MPCDAnalysis/InteractivePlotter/Plotter.py:87`): the lines with their
ends. -/
def fileLines : Str → List Str
  | [] => []
  | c :: r =>
    if c = '\n' then ['\n'] :: fileLines r
    else match fileLines r with
      | [] => [[c]]
      | l :: ls => (c :: l) :: ls

/-- `float(s)`, which ignores white space around the number. -/
def pyFloat (io : Io F) (s : Str) : Option F := io.parse (strip s)

/-! ## Specification -/

/-- Assumptions on the conversion of numbers: they are written as tokens without `=` and `#`, and read as numbers close by.
A text in brackets is no number. -/
structure Numbers (io : Io F) (fixed : F → Str) (rnd rndFixed : F → F) : Prop where
  rounds : Rounds io rnd
  parse_fixed : ∀ x, io.parse (fixed x) = some (rndFixed x)
  token_fixed : ∀ x, Token (fixed x)
  plain : ∀ x, ∀ c ∈ io.fmt x, c ≠ '=' ∧ c ≠ '#'
  plain_fixed : ∀ x, ∀ c ∈ fixed x, c ≠ '=' ∧ c ≠ '#'
  bracket : ∀ s, io.parse ('[' :: s) = none

/-- Names and values. -/
def lookup (l : List (Str × Value F)) (n : Str) : Option (Value F) := (l.find? fun e => e.1 = n).map Prod.snd

/-- The text of a list of run directories. -/
def rundirsText (rundirs : List Str) : Str := [' ', '['] ++ quoteAll true rundirs ++ [']', '\n']

/-- What is to be known about the files of the script. -/
def scriptValues (rnd rndFixed : F → F) (rundirs : List Str) (p : Parameters F) (nu : F) : List (Str × Value F) :=
  [("rundirs".toList, .text (rundirsText rundirs)),
    ("k_nx".toList, .number (rnd p.kx)), ("k_ny".toList, .number (rnd p.ky)), ("k_nz".toList, .number (rnd p.kz)),
    ("L_x".toList, .number (rnd p.lx)), ("L_y".toList, .number (rnd p.ly)), ("L_z".toList, .number (rnd p.lz)),
    ("kT".toList, .number (rndFixed p.kT)), ("nu".toList, .number (rndFixed nu))]

/-! ## Proofs -/

theorem fileLines_line (l r : Str) (h : '\n' ∉ l) : fileLines (l ++ '\n' :: r) = (l ++ ['\n']) :: fileLines r := by
  induction l with
  | nil => simp [fileLines]
  | cons c l ih =>
    simp only [List.mem_cons, not_or] at h
    rw [List.cons_append, fileLines, if_neg (Ne.symm h.1), ih h.2]
    rfl

theorem dropWhile_token {t : Str} (ht : Token t) (r : Str) : (t ++ r).dropWhile isSpace = t ++ r := by
  obtain ⟨c, s, rfl⟩ := List.exists_cons_of_ne_nil ht.1
  rw [List.cons_append, List.dropWhile_cons_of_neg]
  simp [(ht.2 c (by simp)).1]

theorem strip_text {t : Str} (hne : t ≠ []) (hh : ∀ c ∈ t.head?, isSpace c = false)
    (hl : ∀ c ∈ t.getLast?, isSpace c = false) (a b : Str) (ha : ∀ c ∈ a, isSpace c = true)
    (hb : ∀ c ∈ b, isSpace c = true) : strip (a ++ t ++ b) = t := by
  have key : ∀ (s : Str), s ≠ [] → (∀ c ∈ s.head?, isSpace c = false) → ∀ r, (s ++ r).dropWhile isSpace = s ++ r := by
    intro s hs h r
    obtain ⟨c, s, rfl⟩ := List.exists_cons_of_ne_nil hs
    rw [List.cons_append, List.dropWhile_cons_of_neg]
    simp [h c (by simp)]
  unfold strip
  rw [List.append_assoc, List.dropWhile_append_of_pos ha, key t hne hh, List.reverse_append,
    List.dropWhile_append_of_pos (by simpa using hb)]
  have := key t.reverse (by simpa using hne) (by simpa using hl) []
  rw [List.append_nil] at this
  rw [this, List.reverse_reverse]

theorem strip_token {t : Str} (ht : Token t) : strip (' ' :: (t ++ ['\n'])) = t := by
  have := strip_text ht.1 (fun c hc => (ht.2 c (List.mem_of_mem_head? hc)).1)
    (fun c hc => (ht.2 c (List.mem_of_mem_getLast? hc)).1) [' '] ['\n'] (by simp [isSpace]) (by simp [isSpace])
  simpa using this

/-- A name of an entry. -/
def Name (n : Str) : Prop := n ≠ [] ∧ ∀ c ∈ n, c ≠ '=' ∧ isSpace c = false

theorem strip_name {n : Str} (h : Name n) : strip (n ++ [' ']) = n := by
  have := strip_text h.1 (fun c hc => (h.2 c (List.mem_of_mem_head? hc)).2)
    (fun c hc => (h.2 c (List.mem_of_mem_getLast? hc)).2) [] [' '] (by simp) (by simp [isSpace])
  simpa using this

theorem parse_entry (io : Io F) {n v : Str} (hn : Name n) (hv : '=' ∉ v ∨ n = rundirsName) :
    parseLine (pyFloat io) (entry (n, v)) = .ok (.comment n (match pyFloat io (' ' :: (v ++ ['\n'])) with
      | some x => .number x
      | none => .text (' ' :: (v ++ ['\n'])))) := by
  have hne : '=' ∉ '#' :: (n ++ [' ']) := by
    intro h
    simp only [List.mem_cons, List.mem_append, List.not_mem_nil, or_false] at h
    rcases h with h | h | h
    · exact absurd h (by decide)
    · exact (hn.2 _ h).1 rfl
    · exact absurd h (by decide)
  have ht : entry (n, v) = ('#' :: (n ++ [' '])) ++ '=' :: (' ' :: (v ++ ['\n'])) := by simp [entry]
  have h1 : splitChar '=' (entry (n, v)) = ('#' :: (n ++ [' '])) :: splitChar '=' (' ' :: (v ++ ['\n'])) := by
    rw [ht, splitChar_append_cons hne]
  have h2 : splitFirstEq (entry (n, v)) = ['#' :: (n ++ [' ']), ' ' :: (v ++ ['\n'])] := by
    have hp : ∀ c ∈ '#' :: (n ++ [' ']), decide (c ≠ '=') = true := by
      intro c hc
      simpa using fun h : c = '=' => hne (h ▸ hc)
    unfold splitFirstEq
    rw [ht, if_pos (by simp), List.takeWhile_append_of_pos hp, List.dropWhile_append_of_pos hp]
    simp
  have h4 : commentParts (entry (n, v)) = ['#' :: (n ++ [' ']), ' ' :: (v ++ ['\n'])] := by
    unfold commentParts
    rw [h1, h2]
    simp only [List.headD_cons, List.drop_succ_cons, List.drop_zero, strip_name hn]
    split
    · rfl
    · rename_i h
      rcases hv with hv | hv
      · rw [splitChar_of_notMem]
        simpa using hv
      · exact absurd hv h
  unfold parseLine
  rw [if_pos (by simp [entry]), h4]
  simp only [List.drop_succ_cons, List.drop_zero, strip_name hn]
  cases pyFloat io (' ' :: (v ++ ['\n'])) <;> rfl

theorem parse_number (io : Io F) {n t : Str} {x : F} (hn : Name n) (ht : Token t) (he : ∀ c ∈ t, c ≠ '=' ∧ c ≠ '#')
    (hx : io.parse t = some x) : parseLine (pyFloat io) (entry (n, t)) = .ok (.comment n (.number x)) := by
  rw [parse_entry io hn (.inl fun h => (he _ h).1 rfl), pyFloat, strip_token ht, hx]

theorem name_rundirs : Name rundirsName := by
  constructor <;> decide

theorem parse_rundirs {io : Io F} (hb : ∀ s, io.parse ('[' :: s) = none) (rundirs : List Str) :
    parseLine (pyFloat io) (entry (rundirsEntry rundirs)) = .ok (.comment rundirsName (.text (rundirsText rundirs))) := by
  have h : pyFloat io (' ' :: (['['] ++ quoteAll true rundirs ++ [']'] ++ ['\n'])) = none := by
    have := strip_text (t := ['['] ++ quoteAll true rundirs ++ [']']) (by simp) (by simp [isSpace])
      (by rw [List.getLast?_append]; simp [isSpace]) [' '] ['\n'] (by simp [isSpace]) (by simp [isSpace])
    have e : (' ' :: (['['] ++ quoteAll true rundirs ++ [']'] ++ ['\n'])) =
      [' '] ++ (['['] ++ quoteAll true rundirs ++ [']']) ++ ['\n'] := by simp
    rw [pyFloat, e, this]
    exact hb _
  rw [rundirsEntry, parse_entry io name_rundirs (.inr rfl), h]
  simp [rundirsText]

theorem quoteAll_noNewline {b : Bool} {l : List Str} (h : ∀ r ∈ l, '\n' ∉ r) : '\n' ∉ quoteAll b l := by
  induction l generalizing b with
  | nil => simp [quoteAll]
  | cons r l ih =>
    have h1 := h r (by simp)
    have h2 := ih (b := false) fun x hx => h x (by simp [hx])
    cases b <;> simp [quoteAll, h1, h2]

theorem fileLines_entries (l : List (Str × Str)) (h : ∀ e ∈ l, '\n' ∉ e.1 ∧ '\n' ∉ e.2) (r : Str) :
    fileLines (l.flatMap entry ++ r) = l.map entry ++ fileLines r := by
  induction l with
  | nil => rfl
  | cons e l ih =>
    obtain ⟨h1, h2⟩ := h e (by simp)
    have : (e :: l).flatMap entry ++ r =
        ('#' :: (e.1 ++ [' ', '=', ' '] ++ e.2)) ++ '\n' :: (l.flatMap entry ++ r) := by
      simp [entry]
    rw [this, fileLines_line _ _ (by simp [h1, h2]), ih fun x hx => h x (by simp [hx])]
    simp [entry]

theorem fileLines_tabLine (t : Str) (ts : List Str) (ht : Token t) (h : ∀ t ∈ ts, Token t) (r : Str) :
    fileLines (tabLine t ts ++ r) = tabLine t ts :: fileLines r := by
  unfold tabLine
  rw [List.append_assoc, List.singleton_append, fileLines_line]
  intro hm
  rcases List.mem_append.1 hm with hm | hm
  · exact ht.noNewline hm
  · exact Analysis.flatMap_tab_noNewline ts h hm

theorem fileLines_rows (rows : List (Str × List Str)) (h : ∀ r ∈ rows, Token r.1 ∧ ∀ t ∈ r.2, Token t) :
    fileLines (rows.flatMap fun r => tabLine r.1 r.2) = rows.map fun r => tabLine r.1 r.2 := by
  induction rows with
  | nil => rfl
  | cons r rows ih =>
    obtain ⟨h1, h2⟩ := h r (by simp)
    rw [List.flatMap_cons, fileLines_tabLine _ _ h1 h2, ih fun x hx => h x (by simp [hx]), List.map_cons]

theorem wordsGo_tabLine (acc : Str) (ts : List Str) (hacc : acc ≠ []) (h : ∀ t ∈ ts, Token t) :
    Snapshot.wordsGo acc (ts.flatMap ('\t' :: ·) ++ ['\n']) = acc :: ts := by
  induction ts generalizing acc with
  | nil => simp [Snapshot.wordsGo, hacc, isSpace]
  | cons t ts ih =>
    have ht := h t (by simp)
    simp only [List.flatMap_cons, List.cons_append, Snapshot.wordsGo, List.append_assoc]
    rw [if_pos (by rfl), if_neg hacc, Snapshot.wordsGo_append _ _ _ fun c hc => (ht.2 c hc).1, List.nil_append,
      ih t ht.1 fun x hx => h x (by simp [hx])]

theorem words_tabLine (t : Str) (ts : List Str) (ht : Token t) (h : ∀ t ∈ ts, Token t) : words (tabLine t ts) = t :: ts := by
  unfold words tabLine
  rw [List.append_assoc, Snapshot.wordsGo_append _ _ _ fun c hc => (ht.2 c hc).1, List.nil_append,
    wordsGo_tabLine _ _ ht.1 h]

theorem head_tabLine {t : Str} (ts : List Str) (ht : Token t) : (tabLine t ts).head? = t.head? := by
  obtain ⟨c, s, rfl⟩ := List.exists_cons_of_ne_nil ht.1
  simp [tabLine]

theorem parse_point {io : Io F} {rnd : F → F} (hio : Rounds io rnd) (hp : ∀ x, ∀ c ∈ io.fmt x, c ≠ '=' ∧ c ≠ '#')
    (q : F × F) : parseLine (pyFloat io) (tabLine (io.fmt q.1) [io.fmt q.2]) = .ok (.point (rnd q.1) (rnd q.2)) := by
  have hf : ∀ x, pyFloat io (io.fmt x) = some (rnd x) := by
    intro x
    have ht := hio.token_fmt x
    have := strip_text ht.1 (fun c hc => (ht.2 c (List.mem_of_mem_head? hc)).1)
      (fun c hc => (ht.2 c (List.mem_of_mem_getLast? hc)).1) [] [] (by simp) (by simp)
    rw [List.nil_append, List.append_nil] at this
    rw [pyFloat, this, hio.parse_fmt]
  unfold parseLine
  rw [if_neg, words_tabLine _ _ (hio.token_fmt _) (by simpa using hio.token_fmt q.2)]
  · simp only [hf]
  · rw [head_tabLine _ (hio.token_fmt _)]
    intro h
    exact (hp _ _ (List.mem_of_mem_head? h)).2 rfl

theorem readLines_append (toFloat : Str → Option F) (a b : List Str) (d : Dict F) (p p' : List (F × F))
    (h : (readLines toFloat a d p).2 = .ok p') :
    readLines toFloat (a ++ b) d p = readLines toFloat b (readLines toFloat a d p).1 p' := by
  induction a generalizing d p with
  | nil =>
    simp only [readLines, Except.ok.injEq] at h
    simp [readLines, h]
  | cons l a ih =>
    rw [List.cons_append]
    cases hr : parseLine toFloat l with
    | error e => simp [readLines, hr] at h
    | ok r =>
      cases r with
      | comment n v =>
        simp only [readLines, hr] at h ⊢
        exact ih _ _ h
      | point x y =>
        simp only [readLines, hr] at h ⊢
        exact ih _ _ h

/-- Comments with the given names and values. -/
def Says (toFloat : Str → Option F) (lines : List Str) (values : List (Str × Value F)) : Prop :=
  List.Forall₂ (fun l v => parseLine toFloat l = .ok (.comment v.1 v.2)) lines values

theorem Says.spec {toFloat : Str → Option F} {lines : List Str} {values : List (Str × Value F)}
    (h : Says toFloat lines values) : WellFormed toFloat lines ∧ pointsOf toFloat lines = [] ∧
      ∀ n, firstComment toFloat lines n = lookup values n := by
  induction h with
  | nil => simp [WellFormed, pointsOf, firstComment, lookup]
  | @cons l v lines values h1 h2 ih =>
    obtain ⟨i1, i2, i3⟩ := ih
    refine ⟨?_, ?_, fun n => ?_⟩
    · intro x hx
      rcases List.mem_cons.1 hx with rfl | hx
      · exact ⟨_, h1⟩
      · exact i1 x hx
    · simpa [pointsOf, h1] using i2
    · have := i3 n
      simp only [firstComment, lookup] at this ⊢
      by_cases hn : v.1 = n
      · simp [h1, hn]
      · simp [h1, hn, this]

theorem points_spec {io : Io F} {rnd : F → F} (hio : Rounds io rnd) (hp : ∀ x, ∀ c ∈ io.fmt x, c ≠ '=' ∧ c ≠ '#')
    (points : List (F × F)) :
    WellFormed (pyFloat io) (points.map fun q => tabLine (io.fmt q.1) [io.fmt q.2]) ∧
      pointsOf (pyFloat io) (points.map fun q => tabLine (io.fmt q.1) [io.fmt q.2]) =
        points.map (fun q => (rnd q.1, rnd q.2)) ∧
      ∀ n, firstComment (pyFloat io) (points.map fun q => tabLine (io.fmt q.1) [io.fmt q.2]) n = none := by
  have h := parse_point hio hp
  refine ⟨?_, ?_, fun n => ?_⟩
  · intro l hl
    obtain ⟨q, -, rfl⟩ := List.mem_map.1 hl
    exact ⟨_, h q⟩
  · unfold pointsOf
    induction points with
    | nil => rfl
    | cons q points ih => rw [List.map_cons, List.map_cons, List.filterMap_cons, h q, ih]
  · unfold firstComment
    rw [List.findSome?_eq_none_iff]
    intro l hl
    obtain ⟨q, -, rfl⟩ := List.mem_map.1 hl
    rw [h q]

section
variable {io : Io F} {fixed : F → Str} {rnd rndFixed : F → F}

theorem rundirs_noNewline {rundirs : List Str} (h : ∀ r ∈ rundirs, '\n' ∉ r) :
    '\n' ∉ (rundirsEntry rundirs).1 ∧ '\n' ∉ (rundirsEntry rundirs).2 :=
  ⟨fun hm => absurd (name_rundirs.2 _ hm).2 (by decide), by simp [rundirsEntry, quoteAll_noNewline h]⟩

theorem script_says (h : Numbers io fixed rnd rndFixed) (rundirs : List Str) (p : Parameters F) (nu : F) :
    Says (pyFloat io) ((rundirsEntry rundirs :: scriptEntries io fixed p nu).map entry)
      (scriptValues rnd rndFixed rundirs p nu) := by
  have hn : ∀ {n : Str} (x : F), Name n → parseLine (pyFloat io) (entry (n, io.fmt x)) = .ok (.comment n (.number (rnd x))) :=
    fun x hn => parse_number io hn (h.rounds.token_fmt x) (h.plain x) (h.rounds.parse_fmt x)
  have hf : ∀ {n : Str} (x : F), Name n → parseLine (pyFloat io) (entry (n, fixed x)) =
      .ok (.comment n (.number (rndFixed x))) :=
    fun x hn => parse_number io hn (h.token_fixed x) (h.plain_fixed x) (h.parse_fixed x)
  refine .cons (parse_rundirs h.bracket rundirs) (.cons (hn _ ?_) (.cons (hn _ ?_) (.cons (hn _ ?_) (.cons (hn _ ?_)
    (.cons (hn _ ?_) (.cons (hn _ ?_) (.cons (hf _ ?_) (.cons (hf _ ?_) .nil)))))))) <;> constructor <;> decide

theorem script_lines (h : Numbers io fixed rnd rndFixed) {rundirs : List Str} (hr : ∀ r ∈ rundirs, '\n' ∉ r)
    (p : Parameters F) (nu : F) (points : List (F × F)) :
    fileLines (scriptFile io fixed rundirs p nu points) =
      (rundirsEntry rundirs :: scriptEntries io fixed p nu).map entry ++
        points.map fun q => tabLine (io.fmt q.1) [io.fmt q.2] := by
  have ht := fun x => (h.rounds.token_fmt x).noNewline
  have htf := fun x => (h.token_fixed x).noNewline
  unfold scriptFile
  rw [fileLines_entries]
  · have := fileLines_rows (points.map fun q => (io.fmt q.1, [io.fmt q.2])) (by
      intro r hr
      obtain ⟨q, -, rfl⟩ := List.mem_map.1 hr
      exact ⟨h.rounds.token_fmt _, by simpa using h.rounds.token_fmt q.2⟩)
    rw [List.flatMap_map, List.map_map] at this
    rw [this]
    rfl
  · intro e he
    rcases List.mem_cons.1 he with rfl | he
    · exact rundirs_noNewline hr
    · simp only [scriptEntries, List.mem_cons, List.not_mem_nil, or_false] at he
      rcases he with rfl | rfl | rfl | rfl | rfl | rfl | rfl | rfl <;>
        exact ⟨by dsimp only; decide, by first | exact ht _ | exact htf _⟩

/-- **C146**, for the files written by the script: loading one into the plotter succeeds and gives one further plot, with the
points written (rounded). Its characteristics are those given, and for the other names the run directories and
parameters that were written, and no others. Run directories may contain `=`, but no line end. -/
theorem C146_script_partial (h : Numbers io fixed rnd rndFixed) {rundirs : List Str} (hr : ∀ r ∈ rundirs, '\n' ∉ r)
    (p : Parameters F) (nu : F) (points : List (F × F)) (draw : Bool → List (F × F) → List L) (s : State F L) (a : ℕ) :
    (provideDataFile (pyFloat io) draw s (fileLines (scriptFile io fixed rundirs p nu points)) a).2 = .ok () ∧
    (provideDataFile (pyFloat io) draw s (fileLines (scriptFile io fixed rundirs p nu points)) a).1.plots =
      s.plots ++ [⟨none, points.map fun q => (rnd q.1, rnd q.2), false, a⟩] ∧
    ∀ n, get ((provideDataFile (pyFloat io) draw s (fileLines (scriptFile io fixed rundirs p nu points)) a).1.dicts a) n =
      (get (s.dicts a) n).or (lookup (scriptValues rnd rndFixed rundirs p nu) n) := by
  obtain ⟨c1, c2, c3⟩ := (script_says h rundirs p nu).spec
  obtain ⟨p1, p2, p3⟩ := points_spec h.rounds h.plain points
  have hl := script_lines h hr p nu points
  have hw : WellFormed (pyFloat io) (fileLines (scriptFile io fixed rundirs p nu points)) := by
    rw [hl]
    intro l hm
    rcases List.mem_append.1 hm with hm | hm
    · exact c1 l hm
    · exact p1 l hm
  obtain ⟨f1, f2, f3, -⟩ := (C109_file (pyFloat io) draw s _ a).1 hw
  refine ⟨f1, ?_, fun n => ?_⟩
  · rw [f2, hl]
    unfold pointsOf at c2 p2 ⊢
    rw [List.filterMap_append, c2, p2, List.nil_append]
  · rw [f3, hl, ← c3]
    have := p3 n
    unfold firstComment at this ⊢
    rw [List.findSome?_append, this, Option.or_none]

/-- What the plotter takes from a file of the program. -/
def programValues (rnd : F → F) (ofNat : ℕ → Value F) (rundirs : List Str) (p : Parameters F) (timestep : F) (sampleSize : ℕ) :
    List (Str × Value F) :=
  [("rundirs".toList, .text (rundirsText rundirs)),
    ("k_nx".toList, .number (rnd p.kx)), ("k_ny".toList, .number (rnd p.ky)), ("k_nz".toList, .number (rnd p.kz)),
    ("L_x".toList, .number (rnd p.lx)), ("L_y".toList, .number (rnd p.ly)), ("L_z".toList, .number (rnd p.lz)),
    ("kT".toList, .number (rnd p.kT)), ("mpcTimestep".toList, .number (rnd timestep)),
    ("sampleSizes".toList, ofNat sampleSize)]

theorem natStr_plain (n : ℕ) : ∀ c ∈ natStr n, c ≠ '=' ∧ c ≠ '#' := by
  intro c hc
  have := natStr_digits n c hc
  constructor <;> rintro rfl <;> exact absurd this (by decide)

/-- How the plotter understands a number of samples. -/
def sizeValue (io : Io F) (n : ℕ) : Value F :=
  match io.parse (natStr n) with
  | some x => .number x
  | none => .text (' ' :: (natStr n ++ ['\n']))

theorem program_says (h : Numbers io fixed rnd rndFixed) (rundirs : List Str) (p : Parameters F) (timestep : F)
    (sampleSize : ℕ) :
    Says (pyFloat io) ((rundirsEntry rundirs :: programEntries io p timestep sampleSize).map entry)
      (programValues rnd (sizeValue io) rundirs p timestep sampleSize) := by
  have hn : ∀ {n : Str} (x : F), Name n → parseLine (pyFloat io) (entry (n, io.fmt x)) = .ok (.comment n (.number (rnd x))) :=
    fun x hn => parse_number io hn (h.rounds.token_fmt x) (h.plain x) (h.rounds.parse_fmt x)
  have hs : ∀ {n : Str}, Name n → parseLine (pyFloat io) (entry (n, natStr sampleSize)) =
      .ok (.comment n (sizeValue io sampleSize)) := by
    intro n hn
    rw [parse_entry io hn (.inl fun hm => (natStr_plain _ _ hm).1 rfl), pyFloat, strip_token (natStr_token _)]
    rfl
  refine .cons (parse_rundirs h.bracket rundirs) (.cons (hn _ ?_) (.cons (hn _ ?_) (.cons (hn _ ?_) (.cons (hn _ ?_)
    (.cons (hn _ ?_) (.cons (hn _ ?_) (.cons (hn _ ?_) (.cons (hn _ ?_) (.cons (hs ?_) .nil))))))))) <;>
    constructor <;> decide

theorem program_noNewline (h : Numbers io fixed rnd rndFixed) {rundirs : List Str} (hr : ∀ r ∈ rundirs, '\n' ∉ r)
    (p : Parameters F) (timestep : F) (sampleSize : ℕ) :
    ∀ e ∈ rundirsEntry rundirs :: programEntries io p timestep sampleSize, '\n' ∉ e.1 ∧ '\n' ∉ e.2 := by
  have ht := fun x => (h.rounds.token_fmt x).noNewline
  intro e he
  rcases List.mem_cons.1 he with rfl | he
  · exact rundirs_noNewline hr
  · simp only [programEntries, List.mem_cons, List.not_mem_nil, or_false] at he
    rcases he with rfl | rfl | rfl | rfl | rfl | rfl | rfl | rfl | rfl <;>
      exact ⟨by dsimp only; decide, by first | exact ht _ | exact (natStr_token _).noNewline⟩

theorem fileLines_hash (r : Str) : fileLines (['#', '\n'] ++ r) = ['#', '\n'] :: fileLines r := by
  have := fileLines_line ['#'] r (by simp)
  simpa using this

theorem parse_hash (toFloat : Str → Option F) : parseLine toFloat ['#', '\n'] = .error .exception := by
  have : commentParts ['#', '\n'] = [['#', '\n']] := by
    have h1 : splitChar '=' ['#', '\n'] = [['#', '\n']] := splitChar_of_notMem (by simp)
    have h2 : splitFirstEq ['#', '\n'] = [['#', '\n']] := by
      unfold splitFirstEq
      rw [if_neg (by simp)]
    unfold commentParts
    rw [h1, h2]
    simp
  unfold parseLine
  rw [if_pos (by simp), this]

/-- **C146** does not hold for the files written by the program: loading any of them into the plotter raises
`FileFormatException`, and gives no plot. The run directories and parameters are nevertheless added to the dictionary of
characteristics, hence (see `C109_failed_violated`) they turn up with the next file. -/
theorem C146_program_violated (h : Numbers io fixed rnd rndFixed) {rundirs : List Str} (hr : ∀ r ∈ rundirs, '\n' ∉ r)
    (p : Parameters F) (timestep : F) (sampleSize : ℕ) (rows : List (Row F)) (draw : Bool → List (F × F) → List L)
    (s : State F L) (a : ℕ) :
    (provideDataFile (pyFloat io) draw s (fileLines (programFile io rundirs p timestep sampleSize rows)) a).2 =
      .error .exception ∧
    (provideDataFile (pyFloat io) draw s (fileLines (programFile io rundirs p timestep sampleSize rows)) a).1.plots = s.plots ∧
    ∀ n, get ((provideDataFile (pyFloat io) draw s
        (fileLines (programFile io rundirs p timestep sampleSize rows)) a).1.dicts a) n =
      (get (s.dicts a) n).or (lookup (programValues rnd (sizeValue io) rundirs p timestep sampleSize) n) := by
  obtain ⟨c1, c2, c3⟩ := (program_says h rundirs p timestep sampleSize).spec
  obtain ⟨r1, r2⟩ := readLines_spec (pyFloat io) _ c1 (s.dicts a) []
  have hl : readLines (pyFloat io) (fileLines (programFile io rundirs p timestep sampleSize rows)) (s.dicts a) [] =
      ((readLines (pyFloat io) ((rundirsEntry rundirs :: programEntries io p timestep sampleSize).map entry)
        (s.dicts a) []).1, .error .exception) := by
    unfold programFile
    rw [fileLines_entries _ (program_noNewline h hr p timestep sampleSize), fileLines_hash]
    have r1' : (readLines (pyFloat io) ((rundirsEntry rundirs :: programEntries io p timestep sampleSize).map entry)
        (s.dicts a) []).2 = .ok ([] ++ pointsOf (pyFloat io)
          ((rundirsEntry rundirs :: programEntries io p timestep sampleSize).map entry)) := by rw [r1]
    rw [readLines_append _ _ _ _ _ _ r1', readLines, parse_hash]
  unfold provideDataFile
  simp only [hl]
  refine ⟨trivial, trivial, fun n => ?_⟩
  rw [Function.update_self, r2, c3]

theorem cells_token (hio : Rounds io rnd) (r : Row F) : Token (cells io r).1 ∧ ∀ t ∈ (cells io r).2, Token t := by
  have ht := hio.token_fmt
  refine ⟨ht _, fun t h => ?_⟩
  simp only [cells, List.mem_cons, List.not_mem_nil, or_false] at h
  rcases h with rfl | rfl | rfl | rfl | rfl | rfl | rfl
  · exact ht _
  · exact ht _
  · exact natStr_token _
  · exact ht _
  · exact natStr_token _
  · exact ht _
  · split <;> exact ⟨by simp, by simp [isSpace]⟩

theorem columnNames_line (r : Str) : fileLines (columnNames ++ r) = columnNames :: fileLines r := by
  unfold columnNames
  rw [fileLines_tabLine]
  · constructor <;> decide
  · intro t ht
    simp only [List.mem_cons, List.not_mem_nil, or_false] at ht
    rcases ht with rfl | rfl | rfl | rfl | rfl | rfl | rfl <;> constructor <;> decide

/-- **C146** (the table of the program): the lines which are not comments are the rows, with eight columns each. -/
theorem C146_table (h : Numbers io fixed rnd rndFixed) {rundirs : List Str} (hr : ∀ r ∈ rundirs, '\n' ∉ r)
    (p : Parameters F) (timestep : F) (sampleSize : ℕ) (rows : List (Row F)) :
    ((fileLines (programFile io rundirs p timestep sampleSize rows)).filter fun l => l.head? ≠ some '#').map words =
      rows.map fun r => [io.fmt r.time, io.fmt r.normalized, io.fmt r.mean, natStr r.sampleSize, io.fmt r.standardDeviation,
        natStr r.block, io.fmt r.error, if r.reliable then ['1'] else ['0']] := by
  have hrows : fileLines (rows.flatMap fun r => tabLine (cells io r).1 (cells io r).2) =
      rows.map fun r => tabLine (cells io r).1 (cells io r).2 := by
    have := fileLines_rows (rows.map (cells io)) (by
      intro r hr
      obtain ⟨q, -, rfl⟩ := List.mem_map.1 hr
      exact cells_token h.rounds q)
    rw [List.flatMap_map, List.map_map] at this
    exact this
  have h1 : ((rundirsEntry rundirs :: programEntries io p timestep sampleSize).map entry).filter
      (fun l => l.head? ≠ some '#') = [] := by
    rw [List.filter_eq_nil_iff]
    intro l hl
    obtain ⟨e, -, rfl⟩ := List.mem_map.1 hl
    simp [entry]
  have h2 : columnNames.head? = some '#' := by decide
  have h3 : (rows.map fun r => tabLine (cells io r).1 (cells io r).2).filter (fun l => l.head? ≠ some '#') =
      rows.map fun r => tabLine (cells io r).1 (cells io r).2 := by
    rw [List.filter_eq_self]
    intro l hl
    obtain ⟨r, -, rfl⟩ := List.mem_map.1 hl
    rw [head_tabLine _ (cells_token h.rounds r).1]
    simp only [ne_eq, decide_eq_true_eq]
    intro hm
    exact (h.plain _ _ (List.mem_of_mem_head? hm)).2 rfl
  unfold programFile
  rw [fileLines_entries _ (program_noNewline h hr p timestep sampleSize), fileLines_hash, columnNames_line, hrows,
    List.filter_append, h1, List.nil_append, List.filter_cons_of_neg (by simp), List.filter_cons_of_neg (by simp [h2]), h3,
    List.map_map]
  apply List.map_congr_left
  intro r _
  rw [Function.comp_apply, words_tabLine _ _ (cells_token h.rounds r).1 (cells_token h.rounds r).2]
  rfl

theorem cut {c : Char} {a b x y : Str} (ha : c ∉ a) (hb : c ∉ b) (h : a ++ c :: x = b ++ c :: y) : a = b ∧ x = y := by
  have := congrArg (splitChar c) h
  rw [splitChar_append_cons ha, splitChar_append_cons hb, List.cons.injEq] at this
  obtain ⟨rfl, -⟩ := this
  have := List.append_cancel_left h
  simp only [List.cons.injEq, true_and] at this
  exact ⟨rfl, this⟩

theorem quoteAll_injective : ∀ {b : Bool} {l m : List Str}, (∀ r ∈ l, '\'' ∉ r) → (∀ r ∈ m, '\'' ∉ r) →
    quoteAll b l = quoteAll b m → l = m
  | _, [], [], _, _, _ => rfl
  | b, [], r :: m, _, _, h => by cases b <;> simp [quoteAll] at h
  | b, r :: l, [], _, _, h => by cases b <;> simp [quoteAll] at h
  | b, r :: l, r' :: m, hl, hm, h => by
    have h' : r ++ '\'' :: quoteAll false l = r' ++ '\'' :: quoteAll false m := by
      have := h
      simp only [quoteAll, List.append_assoc] at this
      simpa using List.append_cancel_left this
    obtain ⟨h1, h2⟩ := cut (hl r (by simp)) (hm r' (by simp)) h'
    have := quoteAll_injective (b := false) (fun x hx => hl x (by simp [hx])) (fun x hx => hm x (by simp [hx])) h2
    rw [h1, this]

/-- **C146** (run directories): the characteristic `rundirs` determines the run directories, if there are no quotation marks in
their names. -/
theorem C146_rundirs_partial {l m : List Str} (hl : ∀ r ∈ l, '\'' ∉ r) (hm : ∀ r ∈ m, '\'' ∉ r) :
    rundirsText l = rundirsText m ↔ l = m := by
  constructor
  · intro h
    unfold rundirsText at h
    rw [List.append_assoc, List.append_assoc] at h
    exact quoteAll_injective hl hm (List.append_cancel_right (List.append_cancel_left h))
  · rintro rfl
    rfl

/-- Otherwise, these cannot be told apart. -/
theorem C146_rundirs_violated (p q : Str) : rundirsText [p ++ ['\'', ',', ' ', '\''] ++ q] = rundirsText [p, q] := by
  simp [rundirsText, quoteAll]

/-- **C146** does not hold for the script if a run directory has a line end in its name: this file cannot be loaded. -/
theorem C146_newline_violated (h : Numbers io fixed rnd rndFixed) (q r : Str) (hq : '\n' ∉ q) (hr : Token r)
    (hh : r.head? ≠ some '#') (p : Parameters F) (nu : F) (points : List (F × F)) (draw : Bool → List (F × F) → List L)
    (s : State F L) (a : ℕ) :
    ∃ e, (provideDataFile (pyFloat io) draw s
      (fileLines (scriptFile io fixed [q ++ '\n' :: r] p nu points)) a).2 = .error e := by
  apply ((C109_file (pyFloat io) draw s _ a).2 _).1
  have hl : ∃ ls, fileLines (scriptFile io fixed [q ++ '\n' :: r] p nu points) =
      ('#' :: (rundirsName ++ [' ', '=', ' ', '[', '\''] ++ q) ++ ['\n']) :: (r ++ ['\'', ']'] ++ ['\n']) :: ls := by
    refine ⟨fileLines ((scriptEntries io fixed p nu).flatMap entry ++
      points.flatMap fun q => tabLine (io.fmt q.1) [io.fmt q.2]), ?_⟩
    have hn : '\n' ∉ rundirsName := fun hm => absurd (name_rundirs.2 _ hm).2 (by decide)
    rw [← fileLines_line (r ++ ['\'', ']']) _ (by simp [hr.noNewline]), ← fileLines_line _ _ (by simp [hn, hq])]
    congr 1
    simp [scriptFile, entry, rundirsEntry, quoteAll]
  obtain ⟨ls, hl⟩ := hl
  rw [hl]
  intro hw
  obtain ⟨x, hx⟩ := hw (r ++ ['\'', ']'] ++ ['\n']) (by simp)
  have ht : Token (r ++ ['\'', ']']) := ⟨by simp, by
    intro c hc
    rcases List.mem_append.1 hc with hc | hc
    · exact hr.2 c hc
    · simp only [List.mem_cons, List.not_mem_nil, or_false] at hc
      rcases hc with rfl | rfl <;> decide⟩
  have hd : (r ++ ['\'', ']'] ++ ['\n']).head? ≠ some '#' := by
    obtain ⟨c, t, rfl⟩ := List.exists_cons_of_ne_nil hr.1
    simpa using hh
  have hwds : words (r ++ ['\'', ']'] ++ ['\n']) = [r ++ ['\'', ']']] := by
    have := words_tabLine (r ++ ['\'', ']']) [] ht (by simp)
    simpa [tabLine] using this
  unfold parseLine at hx
  rw [if_neg hd, hwds] at hx
  cases hx

/-- **C146** (names): two wave vectors get the same file exactly if they are written in the same way. -/
theorem C146_names {fmt : F → Str} (hf : ∀ x, '=' ∉ fmt x) (base : Str) (kx ky kz lx ly lz : F) :
    fileName fmt base kx ky kz = fileName fmt base lx ly lz ↔ fmt kx = fmt lx ∧ fmt ky = fmt ly ∧ fmt kz = fmt lz := by
  constructor
  · intro h
    have h1 := List.append_cancel_left (List.append_cancel_left h)
    have e : ∀ (s t : Str) (c : Char), s ++ ('-' :: '-' :: 'k' :: '_' :: 'n' :: c :: '=' :: t) =
        (s ++ ['-', '-', 'k', '_', 'n', c]) ++ '=' :: t := by
      intro s t c
      simp
    have n : ∀ (x : F) (c : Char), c ≠ '=' → '=' ∉ fmt x ++ ['-', '-', 'k', '_', 'n', c] := by
      intro x c hc
      simp [hf x, Ne.symm hc]
    have h2 : (fmt kx ++ ['-', '-', 'k', '_', 'n', 'y']) ++ '=' :: (fmt ky ++ ("--k_nz=".toList ++ (fmt kz ++ ".data".toList))) =
        (fmt lx ++ ['-', '-', 'k', '_', 'n', 'y']) ++ '=' :: (fmt ly ++ ("--k_nz=".toList ++ (fmt lz ++ ".data".toList))) := by
      rw [← e, ← e]
      exact h1
    obtain ⟨h3, h4⟩ := cut (n kx 'y' (by decide)) (n lx 'y' (by decide)) h2
    have h5 : (fmt ky ++ ['-', '-', 'k', '_', 'n', 'z']) ++ '=' :: (fmt kz ++ ".data".toList) =
        (fmt ly ++ ['-', '-', 'k', '_', 'n', 'z']) ++ '=' :: (fmt lz ++ ".data".toList) := by
      rw [← e, ← e]
      exact h4
    obtain ⟨h6, h7⟩ := cut (n ky 'z' (by decide)) (n ly 'z' (by decide)) h5
    exact ⟨List.append_cancel_right h3, List.append_cancel_right h6, List.append_cancel_right h7⟩
  · rintro ⟨h1, h2, h3⟩
    unfold fileName
    rw [h1, h2, h3]

/-- **C146** (metadata): the table of metadata is a line of names and a line of values. -/
theorem C146_metadata {fmt : F → Str} (hf : ∀ x, Token (fmt x)) (minimumTime : F) (count : ℕ) :
    (fileLines (metadataTable fmt minimumTime count)).map words =
      [["minimumTime".toList, "totalAnalyzedStepCount".toList], [fmt minimumTime, natStr count]] := by
  have t1 : Token "minimumTime".toList := by constructor <;> decide
  have t2 : ∀ t ∈ ["totalAnalyzedStepCount".toList], Token t := by
    intro t ht
    rw [List.mem_singleton] at ht
    subst ht
    constructor <;> decide
  have t3 : ∀ t ∈ [natStr count], Token t := by simpa using natStr_token count
  unfold metadataTable
  rw [fileLines_tabLine _ _ t1 t2, ← List.append_nil (tabLine (fmt minimumTime) _), fileLines_tabLine _ _ (hf _) t3]
  simp only [fileLines, List.map_cons, List.map_nil, words_tabLine _ _ t1 t2, words_tabLine _ _ (hf _) t3]

end

/-! ## Examples -/

/-- There are such conversions. -/
def natIo : Io ℕ := ⟨natStr, fun s => (Analysis.pyInt s).map Int.toNat, fun _ => false⟩

theorem natIo_numbers : Numbers natIo natStr id id where
  rounds := ⟨fun x => by simp [natIo, Analysis.pyInt_natStr], natStr_token⟩
  parse_fixed x := by simp [natIo, Analysis.pyInt_natStr]
  token_fixed := natStr_token
  plain := natStr_plain
  plain_fixed := natStr_plain
  bracket s := by
    have : ('['.isDigit) = false := by decide
    simp [natIo, Analysis.pyInt, this]

example : ∃ rundirs : List Str, rundirs.length = 2 ∧ (∀ r ∈ rundirs, '\n' ∉ r) ∧ (∀ r ∈ rundirs, '\'' ∉ r) ∧
    (∃ r ∈ rundirs, '=' ∈ r) :=
  ⟨[['a', '=', '1'], ['b']], by simp⟩

example : '\n' ∉ ['a'] ∧ Token ['b'] ∧ (['b'] : Str).head? ≠ some '#' := ⟨by simp, ⟨by simp, by decide⟩, by simp⟩

end OpenMPCD.Plotfiles
