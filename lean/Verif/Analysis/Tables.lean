import Verif.Analysis.NormalMode
import Verif.Analysis.Msd
import Verif.Analysis.VelAuto

/-!
# The tables that scripts save (C128)

The scripts `NormalModeAutocorrelation.py`, `LogicalEntityMeanSquareDisplacement.py` and `velocityAutocorrelation.py`
save what has been read and averaged (see C75, C73, C76) as tables, along with a list of the run directories.
-/

set_option linter.unusedSectionVars false
set_option linter.unusedSimpArgs false

namespace OpenMPCD.Analysis.Tables

open Runs (Str natStr)
open Snapshot (Io Token isSpace words wordsGo wordsGo_append natStr_token)
open Instr (nmaSaved IsKernelResult Mem)
open Stats DDDA

/-! ## Model -/

/-- `getOptimalStandardErrorOfTheMean` (`Analysis/MPCDAnalysis/OnTheFlyStatisticsDDDA.py:378-399`). -/
noncomputable def getOptimalStandardError (d : DDDA ℝ) : Except PyErr ℝ :=
  match getOptimalBlockID d with
  | .error e => .error e
  | .ok b => if b < 0 then .error .valueError else getBlockStandardErrorOfTheMean d b.toNat

/-- Writing a row: each of the numbers is computed, and then written, with a tab (e.g.
`Analysis/NormalModeAutocorrelation.py:59-66`). The file is closed with what has been written if computing one of them
fails. -/
def writeCells : List (Except PyErr Str) → Str × Except PyErr Unit
  | [] => (['\n'], .ok ())
  | .error e :: _ => ([], .error e)
  | .ok s :: cs => (s ++ '\t' :: (writeCells cs).1, (writeCells cs).2)

/-- Writing the rows one after another; `get` yields what is to be written for a row, and may change its object. -/
def writeRows {S Q : Type} (get : S → Q → S × Except PyErr (List (Except PyErr Str))) :
    S → List Q → Str × S × Except PyErr Unit
  | s, [] => ([], s, .ok ())
  | s, q :: qs =>
    match get s q with
    | (s', .error e) => ([], s', .error e)
    | (s', .ok cells) =>
      match writeCells cells with
      | (t, .error e) => (t, s', .error e)
      | (t, .ok ()) => (t ++ (writeRows get s' qs).1, (writeRows get s' qs).2)

/-- A number computed, as text. -/
def cell {A : Type} (str : A → Str) : Except PyErr A → Except PyErr Str
  | .error e => .error e
  | .ok x => .ok (str x)

/-- The last columns of a row: mean, error, and sample size (`Analysis/NormalModeAutocorrelation.py:61-65`,
`Analysis/velocityAutocorrelation.py:58-62`). -/
noncomputable def averages (io : Io ℝ) (d : DDDA ℝ) : List (Except PyErr Str) :=
  [cell io.fmt (getSampleMean d), cell io.fmt (getOptimalStandardError d), cell natStr (getSampleSize d)]

/-- What is written for a mode and a time (`Analysis/NormalModeAutocorrelation.py:58-65`). -/
noncomputable def nmaGet (io : Io ℝ) (argumentCount : ℕ) (st : NmaState ℝ) (computed : Computed ℝ) (q : ℕ × ℕ) :
    Computed ℝ × Except PyErr (List (Except PyErr Str)) :=
  match getAutocorrelation argumentCount st computed q.1 q.2 with
  | (c, .error e) => (c, .error e)
  | (c, .ok d) => (c, .ok (.ok (natStr q.1) :: .ok (natStr q.2) :: averages io d))

/-- The same in the second table (`Analysis/NormalModeAutocorrelation.py:81-87`). -/
noncomputable def nmaGetZero (io : Io ℝ) (argumentCount : ℕ) (st : NmaState ℝ) (computed : Computed ℝ) (mode : ℕ) :
    Computed ℝ × Except PyErr (List (Except PyErr Str)) :=
  match getAutocorrelation argumentCount st computed mode 0 with
  | (c, .error e) => (c, .error e)
  | (c, .ok d) => (c, .ok (.ok (natStr mode) :: averages io d))

/-- The list of run directories (`Analysis/NormalModeAutocorrelation.py:91-104`, likewise
`Analysis/velocityAutocorrelation.py:66-79`, `Analysis/LogicalEntityMeanSquareDisplacement.py:66-79`). -/
def metadata (rundirs : List Str) : Str :=
  ['{'] ++ "\"runDirectories\": [".toList ++ ['\n'] ++
    [','].intercalate (rundirs.map fun r => ['"'] ++ r ++ ['"']) ++ [']', '\n'] ++ ['}']

/-- What the files contain afterwards; `none` for those not written. -/
structure Files where
  table : Option Str
  zero : Option Str
  metadata : Option Str

/-- The pairs of modes and times, in the order of the loops (`Analysis/NormalModeAutocorrelation.py:56-57`). -/
def modesAndTimes (modes times : ℕ) : List (ℕ × ℕ) :=
  (List.range modes).flatMap fun m => (List.range times).map fun T => (m, T)

/-- The first line of the table of modes (`Analysis/NormalModeAutocorrelation.py:50-55`). -/
def nmaHeader : Str := ("#normal-mode-index\tmeasurement-time\tmean-autocorrelation\t" ++
  "DDDA-optimal-standard-error-of-the-mean\tsample-size\n").toList

/-- The first line of the second table (`Analysis/NormalModeAutocorrelation.py:75-79`). -/
def zeroHeader : Str := ("#normal-mode-index\tmean-autocorrelation\t" ++
  "DDDA-optimal-standard-error-of-the-mean\tsample-size\n").toList

/-- Saving a table: the header, and the rows. The number of rows is asked for after the header has been written. -/
def saveTable {S Q : Type} (header : Str) (get : S → Q → S × Except PyErr (List (Except PyErr Str))) (s : S)
    (qs : Except PyErr (List Q)) : Str × S × Except PyErr Unit :=
  match qs with
  | .error e => (header, s, .error e)
  | .ok qs => (header ++ (writeRows get s qs).1, (writeRows get s qs).2)

/-- The script for normal modes once the runs have been read (`Analysis/NormalModeAutocorrelation.py:46-104`), which options
having been given. -/
noncomputable def nmaScript (io : Io ℝ) (argumentCount : ℕ) (st : NmaState ℝ) (save zero list : Bool)
    (rundirs : List Str) : Files × Except PyErr Unit :=
  let modes : Except PyErr ℕ := match st.modeCount with
    | none => .error .assertionError
    | some n => .ok n
  let first := if save then
      let r := saveTable nmaHeader (nmaGet io argumentCount st) (fun _ _ => none)
        (modes.map fun n => modesAndTimes n argumentCount)
      (some r.1, r.2)
    else (none, fun _ _ => none, .ok ())
  match first with
  | (table, _, .error e) => (⟨table, none, none⟩, .error e)
  | (table, computed, .ok ()) =>
    let second := if zero then
        let r := saveTable zeroHeader (nmaGetZero io argumentCount st) computed
          (modes.map fun n => (List.range (n - 2)).map (· + 1))
        (some r.1, r.2.2)
      else (none, .ok ())
    match second with
    | (zero, .error e) => (⟨table, zero, none⟩, .error e)
    | (zero, .ok ()) => (⟨table, zero, if list then some (metadata rundirs) else none⟩, .ok ())

/-- The first line of the table of displacements (`Analysis/LogicalEntityMeanSquareDisplacement.py:53-57`). -/
def msdHeader : Str := "#measurement-time\tmean-square-displacement\tstandard-deviation\tsample-size\n".toList

/-- What is written for a time (`Analysis/LogicalEntityMeanSquareDisplacement.py:59-63`). -/
noncomputable def msdGet (io : Io ℝ) (maximum : ℕ) (s : LagStats ℝ) (_ : Unit) (T : ℕ) :
    Unit × Except PyErr (List (Except PyErr Str)) :=
  match getMeanSquareDisplacement maximum s T with
  | .error e => ((), .error e)
  | .ok d => ((), .ok [.ok (natStr T), cell io.fmt (getSampleMean d),
      cell (fun v => io.fmt (Real.sqrt v)) (getBlockVariance d 0), cell natStr (getSampleSize d)])

/-- The script for displacements, if a file has been given to save the table to
(`Analysis/LogicalEntityMeanSquareDisplacement.py:50-79`). -/
noncomputable def msdScript (io : Io ℝ) (maximum : ℕ) (s : LagStats ℝ) (list : Bool) (rundirs : List Str) :
    Files × Except PyErr Unit :=
  match saveTable msdHeader (msdGet io maximum s) () (.ok ((List.range maximum).map (· + 1))) with
  | (t, _, .error e) => (⟨some t, none, none⟩, .error e)
  | (t, _, .ok ()) => (⟨some t, none, if list then some (metadata rundirs) else none⟩, .ok ())

/-- The first line of the table of velocity autocorrelations (`Analysis/velocityAutocorrelation.py:50-54`). -/
def vacHeader : Str := ("#correlation-time\tmean-autocorrelation\t" ++
  "DDDA-optimal-standard-error-of-the-mean\tsample-size\n").toList

/-- What is written for a time (`Analysis/velocityAutocorrelation.py:56-62`). -/
noncomputable def vacGet (io : Io ℝ) (s : TimeStats ℝ) (_ : Unit) (t : ℝ) :
    Unit × Except PyErr (List (Except PyErr Str)) :=
  match vaGet s t with
  | .error e => ((), .error e)
  | .ok d => ((), .ok (.ok (io.fmt t) :: averages io d))

/-- The script for velocity autocorrelations (`Analysis/velocityAutocorrelation.py:48-79`). -/
noncomputable def vacScript (io : Io ℝ) (s : TimeStats ℝ) (save list : Bool) (rundirs : List Str) :
    Files × Except PyErr Unit :=
  if save then
    match saveTable vacHeader (vacGet io s) () (.ok (correlationTimes s)) with
    | (t, _, .error e) => (⟨some t, none, none⟩, .error e)
    | (t, _, .ok ()) => (⟨some t, none, if list then some (metadata rundirs) else none⟩, .ok ())
  else (⟨none, none, if list then some (metadata rundirs) else none⟩, .ok ())

/-! ## Specification -/

/-- The numbers read from a line of the table, after the first line. -/
def rowsOf (text : Str) : List (List Str) := (pyLines text).tail.map words

/-- The standard error of the mean of data, estimated from groups of `2 ^ b` consecutive data. -/
noncomputable def standardError (xs : List ℝ) (b : ℕ) : ℝ :=
  Real.sqrt (Spec.variance (Spec.groupMeans (2 ^ b) xs) / (xs.length / 2 ^ b : ℕ))

/-- The criterion of Lee et al. for blocks of `2 ^ k` data. -/
def Enough (xs : List ℝ) (k : ℕ) : Prop :=
  2 * 2 ^ k ≤ xs.length ∧ ((2 : ℝ) ^ k) ^ 3 > 2 * xs.length * (standardError xs k / standardError xs 0) ^ 4

/-- The size of blocks to be chosen: the smallest with the criterion, or else the largest of which there are two blocks. -/
def Chosen (xs : List ℝ) (b : ℕ) : Prop :=
  2 * 2 ^ b ≤ xs.length ∧ (standardError xs 0 = 0 → b = 0) ∧
    (standardError xs 0 ≠ 0 → (Enough xs b ∧ ∀ j < b, ¬ Enough xs j) ∨
      ((∀ j, ¬ Enough xs j) ∧ ∀ j, b < j → ¬ 2 * 2 ^ j ≤ xs.length))

/-- What a row should contain about these data, after its first columns. -/
def Row (io : Io ℝ) (first : List Str) (xs : List ℝ) (row : List Str) : Prop :=
  ∃ b, Chosen xs b ∧ row = first ++ [io.fmt (Spec.mean xs), io.fmt (standardError xs b), natStr xs.length]

/-- The text denotes these characters in a JSON string (other ways to denote characters than those used are left out). -/
inductive Body : Str → Str → Prop
  | nil : Body [] []
  | plain {c : Char} {t s : Str} : c ≠ '"' → c ≠ '\\' → 32 ≤ c.toNat → Body t s → Body (c :: t) (c :: s)
  | quote {t s : Str} : Body t s → Body ('\\' :: '"' :: t) ('"' :: s)
  | backslash {t s : Str} : Body t s → Body ('\\' :: '\\' :: t) ('\\' :: s)
  | slash {t s : Str} : Body t s → Body ('\\' :: '/' :: t) ('/' :: s)
  | newline {t s : Str} : Body t s → Body ('\\' :: 'n' :: t) ('\n' :: s)
  | tab {t s : Str} : Body t s → Body ('\\' :: 't' :: t) ('\t' :: s)

/-- The text is the JSON object with the given list of strings as the only member, `runDirectories`. -/
def Denotes (text : Str) (l : List Str) : Prop :=
  ∃ bodies, List.Forall₂ Body bodies l ∧
    text = "{\"runDirectories\": [\n".toList ++ [','].intercalate (bodies.map fun b => ['"'] ++ b ++ ['"']) ++ "]\n}".toList

/-- Characters that need no escaping. -/
def Plain (p : Str) : Prop := ∀ c ∈ p, c ≠ '"' ∧ c ≠ '\\' ∧ 32 ≤ c.toNat

/-! ## Proofs -/

variable {io : Io ℝ} {rnd : ℝ → ℝ}

theorem hist_feedD (xs : List ℝ) : Hist (feedD xs) := by
  induction xs using List.reverseRecOn with
  | nil => exact .init
  | append_singleton xs x ih => rw [feedD_append_singleton]; exact .add x ih

theorem standardError_feedD {xs : List ℝ} {k : ℕ} (h : 2 * 2 ^ k ≤ xs.length) :
    getBlockStandardErrorOfTheMean (feedD xs) k = .ok (standardError xs k) := C05_blockStandardError xs k h

theorem hasBlockVariance_feedD {xs : List ℝ} {k : ℕ} :
    hasBlockVariance (feedD xs) k = .ok true ↔ 2 * 2 ^ k ≤ xs.length := by
  rw [C05_hasBlockVariance]
  constructor
  · intro h
    split at h
    · simpa using (Except.ok.inj h)
    · cases h
  · intro h
    rw [if_pos (Or.inr (by omega)), decide_eq_true h]

theorem criterion_feedD {xs : List ℝ} {k : ℕ} : Criterion (feedD xs) k ↔ Enough xs k := by
  constructor
  · intro h
    have hk := hasBlockVariance_feedD.1 (criterion_lt h)
    obtain ⟨n, se, se0, h1, h2, h3, h4⟩ := h
    have h0 : 2 * 2 ^ 0 ≤ xs.length := by have := Nat.one_le_two_pow (n := k); omega
    rw [(C05_size_mean xs).1] at h1
    rw [standardError_feedD hk] at h2
    rw [standardError_feedD h0] at h3
    cases h1
    cases h2
    cases h3
    exact ⟨hk, h4⟩
  · rintro ⟨hk, h4⟩
    have h0 : 2 * 2 ^ 0 ≤ xs.length := by have := Nat.one_le_two_pow (n := k); omega
    exact ⟨_, _, _, (C05_size_mean xs).1, standardError_feedD hk, standardError_feedD h0, h4⟩

theorem optimal_feedD {xs : List ℝ} (h : 2 ≤ xs.length) :
    ∃ b, Chosen xs b ∧ getOptimalStandardError (feedD xs) = .ok (standardError xs b) := by
  obtain ⟨se0, h0, r, h1, h2, h3, h4⟩ := C06_optimal (hist_feedD xs) _ (C05_size_mean xs).1 h
  have hr := hasBlockVariance_feedD.1 h2
  have e0 : se0 = standardError xs 0 := by
    rw [standardError_feedD (by simpa using h)] at h0
    exact (Except.ok.inj h0).symm
  rw [e0] at h3 h4
  refine ⟨r, ⟨hr, h3, fun hne => ?_⟩, ?_⟩
  · rcases (h4 hne).2 with ⟨h5, h6⟩ | ⟨h5, h6⟩
    · exact Or.inl ⟨criterion_feedD.1 h5, fun j hj h => h6 j hj (criterion_feedD.2 h)⟩
    · exact Or.inr ⟨fun j h => h5 j (criterion_feedD.2 h), fun j hj h => h6 j hj (hasBlockVariance_feedD.2 h)⟩
  · unfold getOptimalStandardError
    rw [h1]
    dsimp only
    rw [if_neg (by omega), Int.toNat_natCast, standardError_feedD hr]

/-- The block chosen for these data. -/
noncomputable def blockOf (xs : List ℝ) : ℕ := if h : 2 ≤ xs.length then Classical.choose (optimal_feedD h) else 0

theorem blockOf_spec {xs : List ℝ} (h : 2 ≤ xs.length) :
    Chosen xs (blockOf xs) ∧ getOptimalStandardError (feedD xs) = .ok (standardError xs (blockOf xs)) := by
  unfold blockOf
  rw [dif_pos h]
  exact Classical.choose_spec (optimal_feedD h)

/-- The last columns. -/
noncomputable def columns (io : Io ℝ) (xs : List ℝ) : List Str :=
  [io.fmt (Spec.mean xs), io.fmt (standardError xs (blockOf xs)), natStr xs.length]

theorem averages_ok {xs : List ℝ} (h : 2 ≤ xs.length) : averages io (feedD xs) = (columns io xs).map .ok := by
  have hne : xs ≠ [] := by rintro rfl; simp at h
  simp [averages, columns, (C05_size_mean xs).1, (C05_size_mean xs).2, hne, (blockOf_spec h).2, cell]

theorem averages_nil : averages io (feedD []) = .error .exception :: (averages io (feedD [])).tail := by
  simp [averages, (C05_size_mean ([] : List ℝ)).2, cell]

theorem averages_singleton (x : ℝ) :
    averages io (feedD [x]) = [.ok (io.fmt x), .error .runtimeError, .ok (natStr 1)] := by
  have h : getOptimalStandardError (feedD [x]) = .error .runtimeError := by
    unfold getOptimalStandardError
    rw [C06_tooFew _ (C05_size_mean [x]).1 (by simp)]
  simp [averages, (C05_size_mean [x]).1, (C05_size_mean [x]).2, h, cell, Spec.mean]

theorem writeCells_ok (cells : List Str) :
    writeCells (cells.map .ok) = (cells.flatMap (fun c => c ++ ['\t']) ++ ['\n'], .ok ()) := by
  induction cells with
  | nil => rfl
  | cons c cells ih => simp [writeCells, ih]

theorem writeCells_error (cells : List Str) (e : PyErr) (rest : List (Except PyErr Str)) :
    writeCells (cells.map .ok ++ .error e :: rest) = (cells.flatMap (fun c => c ++ ['\t']), .error e) := by
  induction cells with
  | nil => rfl
  | cons c cells ih => simp [writeCells, ih]

theorem wordsGo_cells (cells : List Str) (h : ∀ c ∈ cells, Token c) :
    wordsGo [] (cells.flatMap fun c => c ++ ['\t']) = cells := by
  induction cells with
  | nil => rfl
  | cons c cells ih =>
    have hc := h c (by simp)
    rw [List.flatMap_cons, List.append_assoc, wordsGo_append _ _ _ fun x hx => (hc.2 x hx).1, List.nil_append,
      List.singleton_append, wordsGo, if_pos (by rfl), if_neg hc.1, ih fun x hx => h x (by simp [hx])]

theorem cells_noNewline (cells : List Str) (h : ∀ c ∈ cells, Token c) : '\n' ∉ cells.flatMap fun c => c ++ ['\t'] := by
  intro hm
  obtain ⟨c, hc, hm⟩ := List.mem_flatMap.1 hm
  rcases List.mem_append.1 hm with hm | hm
  · exact (h c hc).noNewline hm
  · exact absurd (List.mem_singleton.1 hm) (by decide)

/-- A line with these cells. -/
def line (cells : List Str) : Str := cells.flatMap (fun c => c ++ ['\t']) ++ ['\n']

theorem pyLines_rows (rows : List (List Str)) (h : ∀ r ∈ rows, ∀ c ∈ r, Token c) (rest : Str) :
    (pyLines (rows.flatMap line ++ rest)).map words = rows ++ (pyLines rest).map words := by
  induction rows with
  | nil => rfl
  | cons r rows ih =>
    rw [List.flatMap_cons, line, List.append_assoc, List.append_assoc, List.singleton_append,
      pyLines_line _ _ (cells_noNewline r (h r (by simp))), List.map_cons, ih fun r hr => h r (by simp [hr])]
    rw [words, wordsGo_cells r (h r (by simp))]
    rfl

theorem rowsOf_header {header : Str} (hh : ∃ l, '\n' ∉ l ∧ header = l ++ ['\n']) (text : Str) :
    rowsOf (header ++ text) = (pyLines text).map words := by
  obtain ⟨l, hl, rfl⟩ := hh
  unfold rowsOf
  rw [List.append_assoc, List.singleton_append, pyLines_line _ _ hl]
  rfl

theorem header_line {s : Str} (h : s ≠ []) (h' : s.getLast h = '\n') (h'' : '\n' ∉ s.dropLast) :
    ∃ l, '\n' ∉ l ∧ s = l ++ ['\n'] :=
  ⟨s.dropLast, h'', by rw [← h', List.dropLast_append_getLast]⟩

/-- All rows can be written. -/
theorem writeRows_ok {S Q : Type} {get : S → Q → S × Except PyErr (List (Except PyErr Str))} (P : S → Prop)
    (cells : Q → List Str) (qs : List Q)
    (h : ∀ s, P s → ∀ q ∈ qs, P (get s q).1 ∧ (get s q).2 = .ok ((cells q).map .ok)) (s : S) (hs : P s) :
    ∃ s', P s' ∧ writeRows get s qs = ((qs.map cells).flatMap line, s', .ok ()) := by
  induction qs generalizing s with
  | nil => exact ⟨s, hs, rfl⟩
  | cons q qs ih =>
    obtain ⟨h1, h2⟩ := h s hs q (by simp)
    obtain ⟨s', h3, h4⟩ := ih (fun s hs q hq => h s hs q (by simp [hq])) (get s q).1 h1
    refine ⟨s', h3, ?_⟩
    rw [writeRows]
    have e : get s q = ((get s q).1, .ok ((cells q).map .ok)) := Prod.ext rfl h2
    rw [e]
    dsimp only
    rw [writeCells_ok]
    dsimp only
    rw [h4, List.map_cons, List.flatMap_cons]
    rfl

/-- The first row that cannot be written. -/
theorem writeRows_error {S Q : Type} {get : S → Q → S × Except PyErr (List (Except PyErr Str))} (P : S → Prop)
    (cells : Q → List Str) (qs : List Q)
    (h : ∀ s, P s → ∀ q ∈ qs, P (get s q).1 ∧ (get s q).2 = .ok ((cells q).map .ok))
    {q : Q} {start : List Str} {e : PyErr} {rest : List (Except PyErr Str)}
    (hq : ∀ s, P s → (get s q).2 = .ok (start.map .ok ++ .error e :: rest)) (more : List Q) (s : S) (hs : P s) :
    ∃ s', writeRows get s (qs ++ q :: more) =
      ((qs.map cells).flatMap line ++ start.flatMap (fun c => c ++ ['\t']), s', .error e) := by
  induction qs generalizing s with
  | nil =>
    refine ⟨(get s q).1, ?_⟩
    rw [List.nil_append, writeRows]
    have e : get s q = ((get s q).1, .ok _) := Prod.ext rfl (hq s hs)
    rw [e]
    dsimp only
    rw [writeCells_error]
    rfl
  | cons q' qs ih =>
    obtain ⟨h1, h2⟩ := h s hs q' (by simp)
    obtain ⟨s', h4⟩ := ih (fun s hs q hq => h s hs q (by simp [hq])) (get s q').1 h1
    refine ⟨s', ?_⟩
    rw [List.cons_append, writeRows]
    have e : get s q' = ((get s q').1, .ok ((cells q').map .ok)) := Prod.ext rfl h2
    rw [e]
    dsimp only
    rw [writeCells_ok]
    dsimp only
    rw [h4, List.map_cons, List.flatMap_cons]
    simp [line]

theorem body_plain {p : Str} (h : Plain p) : Body p p := by
  induction p with
  | nil => exact .nil
  | cons c p ih =>
    obtain ⟨h1, h2, h3⟩ := h c (by simp)
    exact .plain h1 h2 h3 (ih fun x hx => h x (by simp [hx]))

theorem body_length {t s : Str} (h : Body t s) : s.length ≤ t.length ∧ (s.length = t.length → Plain s) := by
  induction h with
  | nil => exact ⟨le_rfl, fun _ c hc => by cases hc⟩
  | @plain c t s h1 h2 h3 _ ih =>
    refine ⟨by simpa using ih.1, fun e c' hc => ?_⟩
    rcases List.mem_cons.1 hc with rfl | hc
    · exact ⟨h1, h2, h3⟩
    · exact ih.2 (by simpa using e) c' hc
  | quote _ ih | backslash _ ih | slash _ ih | newline _ ih | tab _ ih =>
    have := ih.1
    refine ⟨by simp only [List.length_cons]; omega, fun e => ?_⟩
    simp only [List.length_cons] at e
    omega

theorem metadata_eq (l : List Str) : metadata l =
    "{\"runDirectories\": [\n".toList ++ [','].intercalate (l.map fun b => ['"'] ++ b ++ ['"']) ++ "]\n}".toList := by
  have h1 : ['{'] ++ "\"runDirectories\": [".toList ++ ['\n'] = "{\"runDirectories\": [\n".toList := by decide
  have h2 : [']', '\n'] ++ ['}'] = "]\n}".toList := by decide
  unfold metadata
  rw [← h1, ← h2]
  simp only [List.append_assoc]

theorem pyLines_last {t : Str} (h : '\n' ∉ t) (hne : t ≠ []) : pyLines t = [t] := by
  induction t with
  | nil => exact absurd rfl hne
  | cons c t ih =>
    have hc : c ≠ '\n' := fun e => h (by simp [e])
    cases t with
    | nil => rw [pyLines, if_neg hc]; rfl
    | cons c' t =>
      rw [pyLines, if_neg hc, ih (fun hm => h (by simp [hm])) (by simp)]

theorem token_columns (hio : Rounds io rnd) (xs : List ℝ) : ∀ c ∈ columns io xs, Token c := by
  intro c hc
  simp only [columns, List.mem_cons, List.not_mem_nil, or_false] at hc
  rcases hc with rfl | rfl | rfl
  · exact hio.token_fmt _
  · exact hio.token_fmt _
  · exact natStr_token _

/-- Saving a table all rows of which can be written. -/
theorem saveTable_ok {S Q : Type} {header : Str} (hh : ∃ l, '\n' ∉ l ∧ header = l ++ ['\n'])
    {get : S → Q → S × Except PyErr (List (Except PyErr Str))} (P : S → Prop) (cells : Q → List Str) {qs : List Q}
    (ht : ∀ q ∈ qs, ∀ c ∈ cells q, Token c)
    (h : ∀ s, P s → ∀ q ∈ qs, P (get s q).1 ∧ (get s q).2 = .ok ((cells q).map .ok)) {s : S} (hs : P s) :
    ∃ t s', P s' ∧ saveTable header get s (.ok qs) = (t, s', .ok ()) ∧ rowsOf t = qs.map cells := by
  obtain ⟨s', h1, h2⟩ := writeRows_ok P cells qs h s hs
  refine ⟨header ++ (qs.map cells).flatMap line, s', h1, by simp only [saveTable, h2], ?_⟩
  rw [rowsOf_header hh]
  have := pyLines_rows (qs.map cells) (by simpa using ht) []
  simpa [pyLines] using this

/-- Saving a table with a row that cannot be written. -/
theorem saveTable_error {S Q : Type} {header : Str} (hh : ∃ l, '\n' ∉ l ∧ header = l ++ ['\n'])
    {get : S → Q → S × Except PyErr (List (Except PyErr Str))} (P : S → Prop) (cells : Q → List Str) {qs : List Q}
    (ht : ∀ q ∈ qs, ∀ c ∈ cells q, Token c)
    (h : ∀ s, P s → ∀ q ∈ qs, P (get s q).1 ∧ (get s q).2 = .ok ((cells q).map .ok))
    {q : Q} {start : List Str} (hst : ∀ c ∈ start, Token c) (hne : start ≠ []) {e : PyErr}
    {rest : List (Except PyErr Str)} (hq : ∀ s, P s → (get s q).2 = .ok (start.map .ok ++ .error e :: rest))
    (more : List Q) {s : S} (hs : P s) :
    ∃ t s', saveTable header get s (.ok (qs ++ q :: more)) = (t, s', .error e) ∧ rowsOf t = qs.map cells ++ [start] ∧
      t.getLast? ≠ some '\n' := by
  obtain ⟨s', h2⟩ := writeRows_error P cells qs h hq more s hs
  refine ⟨header ++ ((qs.map cells).flatMap line ++ start.flatMap fun c => c ++ ['\t']), s',
    by simp only [saveTable, h2], ?_, ?_⟩
  · rw [rowsOf_header hh, pyLines_rows (qs.map cells) (by simpa using ht)]
    rw [pyLines_last (cells_noNewline start hst)]
    · simp only [List.map_cons, List.map_nil, words, wordsGo_cells start hst]
    · obtain ⟨c, cs, rfl⟩ := List.exists_cons_of_ne_nil hne
      simp
  · obtain ⟨c, cs, rfl⟩ : ∃ cs c, start = cs ++ [c] := ⟨_, _, (List.dropLast_append_getLast hne).symm⟩
    rw [List.flatMap_append, List.flatMap_singleton, ← List.append_assoc, ← List.append_assoc, ← List.append_assoc,
      List.getLast?_append]
    simp

theorem nmaHeader_line : ∃ l, '\n' ∉ l ∧ nmaHeader = l ++ ['\n'] :=
  header_line (by decide) (by decide +kernel) (by decide +kernel)

theorem zeroHeader_line : ∃ l, '\n' ∉ l ∧ zeroHeader = l ++ ['\n'] :=
  header_line (by decide) (by decide +kernel) (by decide +kernel)

theorem msdHeader_line : ∃ l, '\n' ∉ l ∧ msdHeader = l ++ ['\n'] :=
  header_line (by decide) (by decide +kernel) (by decide +kernel)

theorem vacHeader_line : ∃ l, '\n' ∉ l ∧ vacHeader = l ++ ['\n'] :=
  header_line (by decide) (by decide +kernel) (by decide +kernel)

theorem queries_append (A : ℕ) (st : NmaState ℝ) (calls : List (ℤ × ℤ)) (q : ℤ × ℤ) :
    queries A st (calls ++ [q]) = (getAutocorrelation A st (queries A st calls) q.1 q.2).1 := by
  simp [queries, List.foldl_append]

/-- What the object that has read the runs provides (C75). -/
def Provides (A : ℕ) (st : NmaState ℝ) (n : ℕ) (data : ℕ → ℕ → List ℝ) : Prop :=
  st.modeCount = some n ∧ ∀ calls : List (ℤ × ℤ), ∀ mode d : ℕ, mode < n → d < A →
    (getAutocorrelation A st (queries A st calls) mode d).2 = .ok (feedD (data mode d))

/-- What has been computed already by some calls. -/
def ByCalls (A : ℕ) (st : NmaState ℝ) (c : Computed ℝ) : Prop := ∃ calls, c = queries A st calls

theorem nmaGet_eq {A : ℕ} {st : NmaState ℝ} {n : ℕ} {data : ℕ → ℕ → List ℝ} (h : Provides A st n data) {c : Computed ℝ}
    (hc : ByCalls A st c) {q : ℕ × ℕ} (h1 : q.1 < n) (h2 : q.2 < A) :
    ByCalls A st (nmaGet io A st c q).1 ∧
      (nmaGet io A st c q).2 = .ok (.ok (natStr q.1) :: .ok (natStr q.2) :: averages io (feedD (data q.1 q.2))) := by
  obtain ⟨calls, rfl⟩ := hc
  have e := h.2 calls q.1 q.2 h1 h2
  have e1 := queries_append A st calls (q.1, q.2)
  unfold nmaGet
  generalize getAutocorrelation A st (queries A st calls) q.1 q.2 = r at e e1
  obtain ⟨r1, r2⟩ := r
  dsimp only at e e1
  rw [e]
  exact ⟨⟨_, e1.symm⟩, rfl⟩

theorem nmaGetZero_eq {A : ℕ} {st : NmaState ℝ} {n : ℕ} {data : ℕ → ℕ → List ℝ} (h : Provides A st n data)
    {c : Computed ℝ} (hc : ByCalls A st c) {m : ℕ} (h1 : m < n) (h2 : 0 < A) :
    ByCalls A st (nmaGetZero io A st c m).1 ∧
      (nmaGetZero io A st c m).2 = .ok (.ok (natStr m) :: averages io (feedD (data m 0))) := by
  obtain ⟨calls, rfl⟩ := hc
  have e := h.2 calls m 0 h1 h2
  have e1 := queries_append A st calls (m, 0)
  unfold nmaGetZero
  rw [Nat.cast_zero] at e
  generalize getAutocorrelation A st (queries A st calls) m 0 = r at e e1
  obtain ⟨r1, r2⟩ := r
  dsimp only at e e1
  rw [e]
  exact ⟨⟨_, e1.symm⟩, rfl⟩

theorem mem_modesAndTimes {n A : ℕ} {q : ℕ × ℕ} : q ∈ modesAndTimes n A ↔ q.1 < n ∧ q.2 < A := by
  obtain ⟨a, b⟩ := q
  simp only [modesAndTimes, List.mem_flatMap, List.mem_map, List.mem_range, Prod.mk.injEq]
  constructor
  · rintro ⟨m, hm, T, hT, rfl, rfl⟩
    exact ⟨hm, hT⟩
  · rintro ⟨h1, h2⟩
    exact ⟨a, h1, b, h2, rfl, rfl⟩

theorem nmaTable {A : ℕ} {st : NmaState ℝ} {n : ℕ} {data : ℕ → ℕ → List ℝ} (hio : Rounds io rnd)
    (h : Provides A st n data) (h2 : ∀ m T, m < n → T < A → 2 ≤ (data m T).length) :
    ∃ t c, ByCalls A st c ∧ saveTable nmaHeader (nmaGet io A st) (fun _ _ => none) (.ok (modesAndTimes n A)) = (t, c, .ok ()) ∧
      List.Forall₂ (fun q row => Row io [natStr q.1, natStr q.2] (data q.1 q.2) row)
        ((List.range n).product (List.range A)) (rowsOf t) := by
  obtain ⟨t, c, h3, h4, h5⟩ := saveTable_ok (Q := ℕ × ℕ) nmaHeader_line (get := nmaGet io A st) (ByCalls A st)
    (fun q => natStr q.1 :: natStr q.2 :: columns io (data q.1 q.2)) (qs := modesAndTimes n A) (by
      intro q _ c hc
      simp only [List.mem_cons] at hc
      rcases hc with rfl | rfl | hc
      · exact natStr_token _
      · exact natStr_token _
      · exact token_columns hio _ c hc) (by
      intro s hs q hq
      obtain ⟨h6, h7⟩ := mem_modesAndTimes.1 hq
      obtain ⟨h8, h9⟩ := nmaGet_eq (io := io) h hs h6 h7
      refine ⟨h8, ?_⟩
      rw [h9, averages_ok (h2 _ _ h6 h7)]
      rfl) (s := fun _ _ => none) ⟨[], rfl⟩
  refine ⟨t, c, h3, h4, ?_⟩
  rw [h5]
  have e : (List.range n).product (List.range A) = modesAndTimes n A := rfl
  rw [e, List.forall₂_map_right_iff, List.forall₂_same]
  intro q hq
  obtain ⟨h6, h7⟩ := mem_modesAndTimes.1 hq
  exact ⟨_, (blockOf_spec (h2 _ _ h6 h7)).1, rfl⟩

theorem nmaZero {A : ℕ} {st : NmaState ℝ} {n : ℕ} {data : ℕ → ℕ → List ℝ} (hio : Rounds io rnd)
    (h : Provides A st n data) (hA : 0 < A) (h2 : ∀ m, 1 ≤ m → m + 1 < n → 2 ≤ (data m 0).length) {c : Computed ℝ}
    (hc : ByCalls A st c) :
    ∃ t c', saveTable zeroHeader (nmaGetZero io A st) c (.ok ((List.range (n - 2)).map (· + 1))) = (t, c', .ok ()) ∧
      List.Forall₂ (fun m row => Row io [natStr m] (data m 0) row) (List.range' 1 (n - 2)) (rowsOf t) := by
  have hm : ∀ m ∈ (List.range (n - 2)).map (· + 1), 1 ≤ m ∧ m + 1 < n := by
    intro m hm
    simp only [List.mem_map, List.mem_range] at hm
    omega
  obtain ⟨t, c, h3, h4, h5⟩ := saveTable_ok (Q := ℕ) zeroHeader_line (get := nmaGetZero io A st) (ByCalls A st)
    (fun m => natStr m :: columns io (data m 0)) (qs := (List.range (n - 2)).map (· + 1)) (by
      intro q _ c hc
      simp only [List.mem_cons] at hc
      rcases hc with rfl | hc
      · exact natStr_token _
      · exact token_columns hio _ c hc) (by
      intro s hs m hm'
      obtain ⟨h6, h7⟩ := hm m hm'
      obtain ⟨h8, h9⟩ := nmaGetZero_eq (io := io) h hs (m := m) (by omega) hA
      refine ⟨h8, ?_⟩
      rw [h9, averages_ok (h2 _ h6 h7)]
      rfl) (s := c) hc
  refine ⟨t, c, h4, ?_⟩
  rw [h5]
  have e : List.range' 1 (n - 2) = (List.range (n - 2)).map (· + 1) := by
    rw [List.range'_eq_map_range]
    exact List.map_congr_left fun i _ => Nat.add_comm 1 i
  rw [e, List.forall₂_map_right_iff, List.forall₂_same]
  intro m hm'
  obtain ⟨h6, h7⟩ := hm m hm'
  exact ⟨_, (blockOf_spec (h2 _ h6 h7)).1, rfl⟩

/-- Whatever has been read provides data: for each mode, the values of the starts that have been measured for long enough. -/
theorem provides_of {A : ℕ} {st : NmaState ℝ} {n : ℕ} (hn : st.modeCount = some n) (hl : st.measurements.length = n) :
    Provides A st n fun m d => (st.measurements.getD m []).filterMap fun l => l[d]? := by
  have hcollect : ∀ (l : List (List ℝ)) (d : ℕ), collect l d = feedD (l.filterMap fun m => m[d]?) := by
    intro l d
    induction l using List.reverseRecOn with
    | nil => rfl
    | append_singleton l x ih =>
      unfold collect at ih ⊢
      rw [List.foldl_append, ih, List.filterMap_append]
      simp only [List.foldl_cons, List.foldl_nil, List.filterMap_cons, List.filterMap_nil]
      cases h : x[d]? with
      | none => simp
      | some y => simp only [feedD_append_singleton]
  have inv : ∀ calls, ∀ m d r, queries A st calls m d = some r →
      r = feedD ((st.measurements.getD m []).filterMap fun l => l[d]?) := by
    intro calls
    induction calls using List.reverseRecOn with
    | nil => intro m d r h; cases h
    | append_singleton calls q ih =>
      intro m d r h
      rw [queries_append] at h
      unfold getAutocorrelation at h
      rw [hn] at h
      dsimp only at h
      split_ifs at h
      · exact ih m d r h
      · exact ih m d r h
      · exact ih m d r h
      · split at h
        · exact ih m d r h
        · split at h
          · exact ih m d r h
          · rename_i l hl'
            dsimp only at h
            split_ifs at h with h5
            · obtain ⟨rfl, rfl⟩ := h5
              rw [← Option.some.inj h, hcollect, List.getD_eq_getElem?_getD, hl']
              rfl
            · exact ih m d r h
  refine ⟨hn, fun calls m d hm hd => ?_⟩
  unfold getAutocorrelation
  rw [hn]
  dsimp only
  rw [if_neg (by omega), if_neg (by omega), if_neg (by omega)]
  simp only [Int.toNat_natCast]
  cases hq : queries A st calls m d with
  | some r => simp only [inv calls m d r hq]
  | none =>
    have e : st.measurements[m]? = some (st.measurements.getD m []) := by
      rw [List.getD_eq_getElem?_getD, List.getElem?_eq_getElem (by omega)]
      rfl
    simp only [e, hcollect]

/-! ## Theorems -/

/-- C128: if there are at least two data for each mode and time, the table has a row for each mode and time, in order, with
the mean, the error, and the number of the data that the runs provide (C75), and the second table those of the modes
neither first nor last at time 0, whatever else has been asked for. -/
theorem C128_modes_partial (hio : Rounds io rnd) {every : ℕ} (he : 0 < every) {argumentCount : ℕ} (hA : 0 < argumentCount)
    (L C : ℕ) (h : 3 * C * (L + 1) ≤ 2 ^ 32) (shift : ℝ) (runs : List ((ℕ → Mem) × List (Mem × Mem)))
    (hruns : ∀ r ∈ runs, ∀ c ∈ r.2, IsKernelResult L C c.1 shift c.2) (hne : ∃ r ∈ runs, r.2 ≠ [])
    (texts : List (Option Str))
    (htexts : List.Forall₂ (fun r t => ∃ lines, nmaSaved every argumentCount L C r.1 (r.2.map Prod.snd) = some lines ∧
      t = some (nmaText io lines)) runs texts) :
    let data := fun mode d => (runs.flatMap fun r => modeProducts every L C shift r.2 mode d).map rnd
    (∀ mode d, mode ≤ L → d < argumentCount → 2 ≤ (data mode d).length) →
    ∃ st, nmaRead io texts = .ok st ∧ ∀ (save zero list : Bool) (rundirs : List Str),
      let r := nmaScript io argumentCount st save zero list rundirs
      r.2 = .ok () ∧
      (∀ t, r.1.table = some t → List.Forall₂ (fun q row => Row io [natStr q.1, natStr q.2] (data q.1 q.2) row)
        ((List.range (L + 1)).product (List.range argumentCount)) (rowsOf t)) ∧
      (∀ t, r.1.zero = some t → List.Forall₂ (fun m row => Row io [natStr m] (data m 0) row)
        (List.range' 1 (L - 1)) (rowsOf t)) ∧
      (r.1.table.isSome = save) ∧ (r.1.zero.isSome = zero) ∧ (r.1.metadata.isSome = list) := by
  intro data h2
  obtain ⟨st, h3, h4, h5⟩ := C75_partial hio he hA L C h shift runs hruns hne texts htexts
  have hp : Provides argumentCount st (L + 1) data := ⟨h4, fun calls m d hm hd => h5 calls m d (by omega) hd⟩
  refine ⟨st, h3, ?_⟩
  intro save zero list rundirs
  obtain ⟨t, c, hc, h6, h7⟩ := nmaTable hio hp fun m T hm hT => h2 m T (by omega) hT
  have key : ∀ c, ByCalls argumentCount st c → _ := fun c hc =>
    nmaZero hio hp hA (fun m _ hm => h2 m 0 (by omega) hA) (c := c) hc
  have e : L + 1 - 2 = L - 1 := by omega
  rw [e] at key
  cases save
  · obtain ⟨t', c', h8, h9⟩ := key (fun _ _ => none) ⟨[], rfl⟩
    cases zero <;> cases list <;> simp [nmaScript, h4, Except.map, e, h8, h9]
  · obtain ⟨t', c', h8, h9⟩ := key c hc
    cases zero <;> cases list <;> simp [nmaScript, h4, Except.map, h6, h7, e, h8, h9]

/-- C128: the same for the displacements (C73), of which the root of the variance is shown. -/
theorem C128_displacements_partial {C : Type} (equivalent : C → C → Bool) (argumentCount : C → ℕ) (hio : Rounds io rnd)
    {every : ℕ} (he : 0 < every) (maximum entities : ℕ) (runs : List (MsdRun C ℝ)) (hne : runs ≠ [])
    (hN : ∀ r ∈ runs, argumentCount r.rundir.config = maximum)
    (heq : ∀ r ∈ runs, ∀ r' ∈ runs, equivalent r.rundir.config r'.rundir.config = true)
    (hsaved : ∀ r ∈ runs, r.Saved io every maximum entities) :
    let data := fun d => (runs.flatMap fun r => displacements every entities r.calls d).map rnd
    (∀ d, 1 ≤ d → d ≤ maximum → 2 ≤ (data d).length) →
    ∃ s, msdRead equivalent argumentCount io (runs.map MsdRun.rundir) = .ok s ∧ ∀ (list : Bool) (rundirs : List Str),
      let r := msdScript io maximum s list rundirs
      r.2 = .ok () ∧ r.1.metadata = (if list then some (metadata rundirs) else none) ∧
      ∃ t, r.1.table = some t ∧ rowsOf t = (List.range' 1 maximum).map fun d =>
        [natStr d, io.fmt (Spec.mean (data d)), io.fmt (Real.sqrt (Spec.variance (data d))), natStr (data d).length] := by
  intro data h2
  obtain ⟨s, h3, h4, -⟩ := C73 equivalent argumentCount hio he maximum entities runs hne hN heq hsaved
  refine ⟨s, h3, ?_⟩
  intro list rundirs
  have hm : ∀ m ∈ (List.range maximum).map (· + 1), 1 ≤ m ∧ m ≤ maximum := by
    intro m hm
    simp only [List.mem_map, List.mem_range] at hm
    omega
  obtain ⟨t, c, -, h6, h7⟩ := saveTable_ok (Q := ℕ) msdHeader_line (get := msdGet io maximum s) (fun _ => True)
    (fun d => [natStr d, io.fmt (Spec.mean (data d)), io.fmt (Real.sqrt (Spec.variance (data d))), natStr (data d).length])
    (qs := (List.range maximum).map (· + 1)) (by
      intro q _ c hc
      simp only [List.mem_cons, List.not_mem_nil, or_false] at hc
      rcases hc with rfl | rfl | rfl | rfl
      · exact natStr_token _
      · exact hio.token_fmt _
      · exact hio.token_fmt _
      · exact natStr_token _) (by
      intro u _ d hd
      obtain ⟨h8, h9⟩ := hm d hd
      refine ⟨trivial, ?_⟩
      have h10 := h2 d h8 h9
      have hne : data d ≠ [] := by intro e; rw [e] at h10; simp at h10
      have e : getMeanSquareDisplacement maximum s d = .ok (feedD (data d)) := h4 d h8 h9
      unfold msdGet
      rw [e]
      have hv : getBlockVariance (feedD (data d)) 0 = .ok (Spec.variance (data d)) := by
        rw [C05_blockVariance, if_pos (by simpa using h10), pow_zero, groupMeans_one]
      simp only [(C05_size_mean (data d)).1, (C05_size_mean (data d)).2, if_neg hne, hv, cell, List.map_cons, List.map_nil])
    (s := ()) trivial
  refine ⟨?_, ?_, t, ?_, ?_⟩
  · simp only [msdScript, h6]
  · simp only [msdScript, h6]
  · simp only [msdScript, h6]
  · rw [h7, List.range'_eq_map_range, List.map_map, List.map_map]
    refine List.map_congr_left fun i _ => ?_
    simp only [Function.comp, Nat.add_comm]

/-- C128: the same for velocity autocorrelations (C76). -/
theorem C128_velocities_partial {C : Type} (equivalent : C → C → Bool) (timestepOf : C → ℝ) (hio : Rounds io rnd)
    {timestep measurementTime : ℝ} (ht : 0 < timestep) (hT : 0 ≤ measurementTime)
    (minimumTime : ℝ) (constituents : ℕ) (runs : List (VaRun C)) (hne : runs ≠ [])
    (hts : ∀ r ∈ runs, timestepOf r.rundir.config = timestep)
    (heq : ∀ r ∈ runs, ∀ r' ∈ runs, equivalent r.rundir.config r'.rundir.config = true)
    (htext : ∀ r ∈ runs, r.rundir.text = some (vaText io (r.records measurementTime constituents)))
    (hcalls : ∀ r ∈ runs, (∀ c ∈ r.calls, 0 ≤ c.time ∧ rnd c.time = c.time ∧ NearStep timestep c.time) ∧
      r.calls.Pairwise fun a b => a.time ≤ b.time) :
    let data := fun m => runs.flatMap fun r => (pooled timestep minimumTime (r.records measurementTime constituents) m).map rnd
    (∀ m, data m ≠ [] → 2 ≤ (data m).length) →
    ∃ s, vaRead equivalent timestepOf io minimumTime (runs.map VaRun.rundir) = .ok s ∧
      ∀ (list : Bool) (rundirs : List Str),
      let r := vacScript io s true list rundirs
      r.2 = .ok () ∧ r.1.metadata = (if list then some (metadata rundirs) else none) ∧
      ∃ t, r.1.table = some t ∧ ∃ steps : List ℤ, steps.Pairwise (· < ·) ∧ (∀ m, data m ≠ [] ↔ m ∈ steps) ∧
        List.Forall₂ (fun (m : ℤ) row => Row io [io.fmt (m * timestep)] (data m) row) steps (rowsOf t) := by
  intro data h2
  obtain ⟨s, h3, h4, h5, h6, h7⟩ :=
    C76_partial equivalent timestepOf hio ht hT minimumTime constituents runs hne hts heq htext hcalls
  refine ⟨s, h3, ?_⟩
  intro list rundirs
  have hx : ∀ x, ∃ m : ℤ, x ∈ correlationTimes s → x = m * timestep ∧ data m ≠ [] := by
    intro x
    by_cases hx : x ∈ correlationTimes s
    · obtain ⟨r, hr, l, hl, h8, h9⟩ := (h5 x).1 hx
      refine ⟨_, fun _ => ⟨h9, fun e => ?_⟩⟩
      have := List.flatMap_eq_nil_iff.1 e r hr
      rw [List.map_eq_nil_iff, pooled, List.map_eq_nil_iff, List.filter_eq_nil_iff] at this
      exact this l hl (by simp [h8])
    · exact ⟨0, fun h => absurd h hx⟩
  choose g hg using hx
  have hget : ∀ x ∈ correlationTimes s, vaGet s x = .ok (feedD (data (g x))) := by
    intro x hx
    obtain ⟨h8, h9⟩ := hg x hx
    have := h4 (g x)
    dsimp only at this
    rwa [← h8, if_neg h9] at this
  obtain ⟨t, c, -, h8, h9⟩ := saveTable_ok (Q := ℝ) vacHeader_line (get := vacGet io s) (fun _ => True)
    (fun x => io.fmt x :: columns io (data (g x))) (qs := correlationTimes s) (by
      intro q _ c hc
      simp only [List.mem_cons] at hc
      rcases hc with rfl | hc
      · exact hio.token_fmt _
      · exact token_columns hio _ c hc) (by
      intro u _ x hx
      refine ⟨trivial, ?_⟩
      unfold vacGet
      rw [hget x hx]
      dsimp only
      rw [averages_ok (h2 _ (hg x hx).2)]
      rfl) (s := ()) trivial
  refine ⟨?_, ?_, t, ?_, (correlationTimes s).map g, ?_, fun m => ?_, ?_⟩
  · simp only [vacScript, if_true, h8]
  · simp only [vacScript, if_true, h8]
  · simp only [vacScript, if_true, h8]
  · rw [List.pairwise_map]
    refine h6.imp_of_mem fun {a b} ha hb hab => ?_
    rw [(hg a ha).1, (hg b hb).1] at hab
    exact_mod_cast lt_of_mul_lt_mul_right hab ht.le
  · rw [List.mem_map]
    constructor
    · intro hm
      have h10 := h4 m
      dsimp only at h10
      rw [if_neg hm] at h10
      have hmem : (m : ℝ) * timestep ∈ correlationTimes s := by
        by_contra hc
        rw [h7 _ hc] at h10
        cases h10
      refine ⟨_, hmem, ?_⟩
      have := (hg _ hmem).1
      exact_mod_cast (mul_right_cancel₀ ht.ne' this).symm
    · rintro ⟨x, hx, rfl⟩
      exact (hg x hx).2
  · rw [h9, List.forall₂_map_left_iff, List.forall₂_map_right_iff, List.forall₂_same]
    intro x hx
    obtain ⟨h10, h11⟩ := hg x hx
    exact ⟨_, (blockOf_spec (h2 _ h11)).1, by rw [← h10]; rfl⟩

/-- C128 does not hold if there are fewer than two data for a mode and time: the script breaks off, the last line of
the table being incomplete, and saves neither the second table nor the list. -/
theorem C128_short_violated (hio : Rounds io rnd) {A : ℕ} {st : NmaState ℝ} {n : ℕ} {data : ℕ → ℕ → List ℝ}
    (h : Provides A st n data) {before after : List (ℕ × ℕ)} {m T : ℕ}
    (hq : (List.range n).product (List.range A) = before ++ (m, T) :: after)
    (h2 : ∀ q ∈ before, 2 ≤ (data q.1 q.2).length) (hs : (data m T).length < 2) (zero list : Bool) (rundirs : List Str) :
    let r := nmaScript io A st true zero list rundirs
    r.1.zero = none ∧ r.1.metadata = none ∧
      r.2 = .error (if data m T = [] then .exception else .runtimeError) ∧
      ∃ t, r.1.table = some t ∧ t.getLast? ≠ some '\n' ∧ (rowsOf t).length = before.length + 1 ∧
        (rowsOf t).getLast? = some ([natStr m, natStr T] ++ (data m T).map io.fmt) := by
  have e : modesAndTimes n A = before ++ (m, T) :: after := hq
  have hmem : ∀ q ∈ before ++ (m, T) :: after, q.1 < n ∧ q.2 < A := fun q hq => by
    rw [← e] at hq
    exact mem_modesAndTimes.1 hq
  have hmT := hmem (m, T) (by simp)
  have hav : ∃ rest, averages io (feedD (data m T)) = ((data m T).map io.fmt).map .ok ++
      .error (if data m T = [] then .exception else .runtimeError) :: rest := by
    match data m T, hs with
    | [], _ => exact ⟨_, averages_nil⟩
    | [x], _ => exact ⟨_, averages_singleton x⟩
    | _ :: _ :: _, hs => simp only [List.length_cons] at hs; omega
  obtain ⟨rest, hav⟩ := hav
  obtain ⟨t, c, h3, h4, h5⟩ := saveTable_error (Q := ℕ × ℕ) nmaHeader_line (get := nmaGet io A st) (ByCalls A st)
    (fun q => natStr q.1 :: natStr q.2 :: columns io (data q.1 q.2)) (qs := before) (by
      intro q _ c hc
      simp only [List.mem_cons] at hc
      rcases hc with rfl | rfl | hc
      · exact natStr_token _
      · exact natStr_token _
      · exact token_columns hio _ c hc) (by
      intro s hs q hq
      obtain ⟨h6, h7⟩ := hmem q (by simp [hq])
      obtain ⟨h8, h9⟩ := nmaGet_eq (io := io) h hs h6 h7
      refine ⟨h8, ?_⟩
      rw [h9, averages_ok (h2 _ hq)]
      rfl) (q := (m, T)) (start := [natStr m, natStr T] ++ (data m T).map io.fmt) (by
      intro c hc
      simp only [List.mem_append, List.mem_cons, List.not_mem_nil, or_false, List.mem_map] at hc
      rcases hc with (rfl | rfl) | ⟨x, -, rfl⟩
      · exact natStr_token _
      · exact natStr_token _
      · exact hio.token_fmt _) (by simp) (e := if data m T = [] then .exception else .runtimeError) (rest := rest) (by
      intro s hs
      rw [(nmaGet_eq (io := io) h hs hmT.1 hmT.2).2, hav]
      rfl) after (s := fun _ _ => none) ⟨[], rfl⟩
  have h6 : (saveTable nmaHeader (nmaGet io A st) (fun _ _ => none)
      (Except.map (fun n => modesAndTimes n A) (.ok n))) =
      (t, c, .error (if data m T = [] then .exception else .runtimeError)) := by
    rw [← h3, ← e]
    rfl
  refine ⟨?_, ?_, ?_, t, ?_, h5, by rw [h4]; simp, by rw [h4]; simp⟩ <;> simp [nmaScript, h.1, h6]

/-- C128: a list of paths without quotation marks, backslashes, and control characters is saved as this list. -/
theorem C128_metadata_partial {rundirs : List Str} (h : ∀ r ∈ rundirs, Plain r) : Denotes (metadata rundirs) rundirs :=
  ⟨rundirs, List.forall₂_same.2 fun r hr => body_plain (h r hr), metadata_eq rundirs⟩

/-- C128: which single path is saved as itself. -/
theorem C128_metadata (p : Str) : Denotes (metadata [p]) [p] ↔ Plain p := by
  constructor
  · rintro ⟨bodies, h1, h2⟩
    rw [metadata_eq] at h2
    have h3 := List.append_cancel_left (List.append_cancel_right h2)
    match bodies, h1 with
    | [b], .cons hb .nil =>
      have : ['"'] ++ p ++ ['"'] = ['"'] ++ b ++ ['"'] := by simpa using h3
      have := List.append_cancel_left (List.append_cancel_right this)
      subst this
      exact (body_length hb).2 rfl
  · intro h
    exact C128_metadata_partial (by simpa using h)

/-- C128 does not hold for other paths: these lists cannot be told apart. -/
theorem C128_metadata_violated (p q : Str) : metadata [p ++ ['"', ',', '"'] ++ q] = metadata [p, q] := by
  simp [metadata, List.intercalate, List.intersperse]

/-- C128 does not hold: the list is saved although the documentation of the option says that it is ignored if no file is
given to save the table to. -/
theorem C128_ignored_violated (A : ℕ) (st : NmaState ℝ) (s : TimeStats ℝ) (rundirs : List Str) :
    (nmaScript io A st false false true rundirs).1 = ⟨none, none, some (metadata rundirs)⟩ ∧
      (vacScript io s false true rundirs).1 = ⟨none, none, some (metadata rundirs)⟩ :=
  ⟨rfl, rfl⟩

/-- The first line of a table is a comment with names for a number of columns. -/
def Named (n : ℕ) (text : Str) : Prop := ∃ l ls, pyLines text = l :: ls ∧ l.head? = some '#' ∧ (words l).length = n

theorem named_header {header : Str} (h : header ≠ []) (h1 : header.getLast h = '\n') (h2 : '\n' ∉ header.dropLast) {n : ℕ}
    (h3 : header.dropLast.head? = some '#') (h4 : (words header.dropLast).length = n) {S Q : Type}
    (get : S → Q → S × Except PyErr (List (Except PyErr Str))) (s : S) (qs : Except PyErr (List Q)) :
    Named n (saveTable header get s qs).1 := by
  have e : header = header.dropLast ++ ['\n'] := by rw [← h1, List.dropLast_append_getLast]
  have : ∃ rest, (saveTable header get s qs).1 = header.dropLast ++ '\n' :: rest := by
    cases qs with
    | error _ =>
      refine ⟨[], ?_⟩
      rw [saveTable]; exact e
    | ok qs =>
      refine ⟨(writeRows get s qs).1, ?_⟩
      rw [saveTable]
      conv_lhs => rw [e]
      simp
  obtain ⟨rest, hr⟩ := this
  exact ⟨header.dropLast, _, by rw [hr, pyLines_line _ _ h2], h3, h4⟩

/-- C128: in the first line of a table there is a name for each of the columns, even if there are rows that cannot be
written. -/
theorem C128_headers (A : ℕ) (st : NmaState ℝ) (save zero list : Bool) (maximum : ℕ) (l : LagStats ℝ) (s : TimeStats ℝ)
    (rundirs : List Str) :
    (∀ t, (nmaScript io A st save zero list rundirs).1.table = some t → Named 5 t) ∧
    (∀ t, (nmaScript io A st save zero list rundirs).1.zero = some t → Named 4 t) ∧
    (∀ t, (msdScript io maximum l list rundirs).1.table = some t → Named 4 t) ∧
    ∀ t, (vacScript io s save list rundirs).1.table = some t → Named 4 t := by
  have n1 := fun {S Q : Type} (get : S → Q → S × Except PyErr (List (Except PyErr Str))) (s : S) (qs : Except PyErr (List Q)) =>
    named_header (header := nmaHeader) (n := 5) (by decide) (by decide +kernel) (by decide +kernel) (by decide +kernel)
      (by decide +kernel) get s qs
  have n2 := fun {S Q : Type} (get : S → Q → S × Except PyErr (List (Except PyErr Str))) (s : S) (qs : Except PyErr (List Q)) =>
    named_header (header := zeroHeader) (n := 4) (by decide) (by decide +kernel) (by decide +kernel) (by decide +kernel)
      (by decide +kernel) get s qs
  have n3 := fun {S Q : Type} (get : S → Q → S × Except PyErr (List (Except PyErr Str))) (s : S) (qs : Except PyErr (List Q)) =>
    named_header (header := msdHeader) (n := 4) (by decide) (by decide +kernel) (by decide +kernel) (by decide +kernel)
      (by decide +kernel) get s qs
  have n4 := fun {S Q : Type} (get : S → Q → S × Except PyErr (List (Except PyErr Str))) (s : S) (qs : Except PyErr (List Q)) =>
    named_header (header := vacHeader) (n := 4) (by decide) (by decide +kernel) (by decide +kernel) (by decide +kernel)
      (by decide +kernel) get s qs
  refine ⟨?_, ?_, ?_, ?_⟩
  · intro t ht
    unfold nmaScript at ht
    dsimp only at ht
    cases save
    · simp only [Bool.false_eq_true, if_false] at ht
      split at ht <;> simp_all
    · simp only [if_true] at ht
      split at ht
      · next h =>
        rw [Prod.mk.injEq] at h
        dsimp only at ht
        rw [← h.1, Option.some.injEq] at ht
        subst ht; exact n1 _ _ _
      · next h =>
        rw [Prod.mk.injEq] at h
        split at ht
        all_goals
          dsimp only at ht
          rw [← h.1, Option.some.injEq] at ht
          subst ht; exact n1 _ _ _
  · intro t ht
    unfold nmaScript at ht
    dsimp only at ht
    split at ht
    · cases ht
    · cases zero
      · simp only [Bool.false_eq_true, if_false] at ht
        cases ht
      · simp only [if_true] at ht
        split at ht
        all_goals
          next h =>
          rw [Prod.mk.injEq] at h
          dsimp only at ht
          rw [← h.1, Option.some.injEq] at ht
          subst ht; exact n2 _ _ _
  · intro t ht
    unfold msdScript at ht
    split at ht
    all_goals
      next h =>
      dsimp only at ht
      rw [Option.some.injEq] at ht
      subst ht
      have := n3 (msdGet io maximum l) () (.ok ((List.range maximum).map (· + 1)))
      rw [h] at this
      exact this
  · intro t ht
    unfold vacScript at ht
    cases save
    · simp at ht
    · simp only [if_true] at ht
      split at ht
      all_goals
        next h =>
        dsimp only at ht
        rw [Option.some.injEq] at ht
        subst ht
        have := n4 (vacGet io s) () (.ok (correlationTimes s))
        rw [h] at this
        exact this

/-! ## Examples -/

example : Plain "/data/runs/1".toList ∧ ¬ Plain "/data/\"x".toList := by
  constructor
  · unfold Plain; decide
  · intro h
    exact (h '"' (by decide)).1 rfl

/-- One mode, measured once: there is one datum. -/
example : ∃ data, Provides 1 (⟨some 1, [[[5]]]⟩ : NmaState ℝ) 1 data ∧
    (List.range 1).product (List.range 1) = [] ++ (0, 0) :: [] ∧ (data 0 0).length < 2 :=
  ⟨_, provides_of rfl rfl, rfl, by simp⟩

/-- Two different data, for which there is only one size of blocks. -/
example : Chosen [1, 3] 0 := by
  refine ⟨by simp, fun _ => rfl, fun _ => ?_⟩
  by_cases h : Enough [1, 3] 0
  · exact Or.inl ⟨h, fun j hj => absurd hj (by omega)⟩
  · refine Or.inr ⟨fun j hj => ?_, fun j hj => ?_⟩
    · rcases Nat.eq_zero_or_pos j with rfl | h0
      · exact h hj
      · have := hj.1
        have h2 := Nat.pow_le_pow_right (n := 2) (by omega) h0
        simp only [List.length_cons, List.length_nil] at this
        omega
    · have h2 := Nat.pow_le_pow_right (n := 2) (by omega) (show 1 ≤ j by omega)
      simp only [List.length_cons, List.length_nil]
      omega

end OpenMPCD.Analysis.Tables
