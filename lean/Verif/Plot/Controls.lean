import Verif.Plot.Interactive
import Mathlib.Data.List.GetD

/-!
# The windows of the interactive plotter (C151)

The check boxes of `Analysis/MPCDAnalysis/InteractivePlotter/CanvasFrame.py`, and the list of plots of
`Analysis/MPCDAnalysis/InteractivePlotter/PlotSelectionList.py`, with the sorting in `Plotter.py` that is left out in
`Verif/Plot/Interactive.lean` (C109). The program needs Python 2, which is assumed.
-/

set_option linter.unusedSectionVars false
set_option linter.unusedSimpArgs false
set_option linter.unusedVariables false

namespace OpenMPCD.Controls

open OpenMPCD.Interactive
open Runs (Str)

variable {F L : Type}

/-! ## Model: check boxes -/

/-- "log". -/
def logName : Str := "log".toList

/-- "linear". -/
def linearName : Str := "linear".toList

/-- The scales of the axes, the check boxes, and the attributes `_yScaleIsLog` and `_plotDashedIfNegative`. -/
structure Window where
  xScale : Str
  yScale : Str
  logX : Bool
  logY : Bool
  dashedBox : Bool
  yIsLog : Bool
  dashed : Bool

/-- In the beginning (`Analysis/MPCDAnalysis/InteractivePlotter/CanvasFrame.py:39-54,72`,
`Analysis/MPCDAnalysis/InteractivePlotter/Plotter.py:26-27`): axes are linear, and boxes are not checked. -/
def opened : Window := ⟨linearName, linearName, false, false, false, false, false⟩

/-- `setXScale` (`Analysis/MPCDAnalysis/InteractivePlotter/Plotter.py:142-144`). The plotting library raises `ValueError` for scales it
does not know. -/
def setXScale (known : Str → Bool) (w : Window) (scale : Str) : Window × Except PyErr Unit :=
  if known scale then ({ w with xScale := scale, logX := decide (scale = logName) }, .ok ()) else (w, .error .valueError)

/-- `setYScale` (`Analysis/MPCDAnalysis/InteractivePlotter/Plotter.py:146-152`). -/
def setYScale (known : Str → Bool) (w : Window) (scale : Str) : Window × Except PyErr Unit :=
  if known scale then
    let w := { w with yScale := scale, logY := decide (scale = logName) }
    (if scale = logName then { w with yIsLog := true } else { w with yIsLog := false }, .ok ())
  else (w, .error .valueError)

/-- `setPlotDashedIfNegative` (`Analysis/MPCDAnalysis/InteractivePlotter/Plotter.py:154-157`); for what it draws, see C109. -/
def setDashed (w : Window) (state : Bool) : Window := { w with dashed := state, dashedBox := state }

inductive Box
  | logX
  | logY
  | dashed
deriving DecidableEq

/-- What can be done. `click`: the user clicks on a check box, which has the given state then. -/
inductive Act
  | setXScale (scale : Str)
  | setYScale (scale : Str)
  | setDashed (state : Bool)
  | click (b : Box) (checked : Bool)

/-- The functions above, and `onPlotOptionsCheckbox` (`Analysis/MPCDAnalysis/InteractivePlotter/CanvasFrame.py:96-115`), which is called
after the box has changed. -/
def act (known : Str → Bool) (w : Window) : Act → Window × Except PyErr Unit
  | .setXScale s => setXScale known w s
  | .setYScale s => setYScale known w s
  | .setDashed b => (setDashed w b, .ok ())
  | .click .logX c =>
    let w := { w with logX := c }
    if c then setXScale known w logName else setXScale known w linearName
  | .click .logY c =>
    let w := { w with logY := c }
    if c then setYScale known w logName else setYScale known w linearName
  | .click .dashed c =>
    let w := { w with dashedBox := c }
    if c then (setDashed w true, .ok ()) else (setDashed w false, .ok ())

def acts (known : Str → Bool) (w : Window) (h : List Act) : Window := h.foldl (fun w a => (act known w a).1) w

/-! ## Model: the list of plots -/

/-- An entry of the list. -/
abbrev Cell (F : Type) := Option (Value F) ⊕ Bool

/-- `itemIndexMap`, and by which column the list is sorted, and whether ascending. `none`: it is not; the widget library has column -1
then. What it does with that column is not represented. -/
structure Sel where
  items : List ℕ
  sort : Option (ℕ × Bool)

/-- The entry in the given column for a plot. -/
def cellAt (s : State F L) (col i : ℕ) : Cell F := ((s.rows[i]?).bind fun r => r[col]?).getD (.inl none)

/-- `SortListItems` of the widget library, with `SortItems` (`Analysis/MPCDAnalysis/InteractivePlotter/PlotSelectionList.py:72-76`):
the plots are sorted by the entries in the given column, which are compared by `le`. Without such a column, there is an exception once
two plots are compared. -/
def sortItems (le : Cell F → Cell F → Bool) (s : State F L) (col : ℕ) (ascending : Bool) : Except PyErr (List ℕ) :=
  if 2 ≤ s.rows.length ∧ s.columns.length ≤ col then .error .indexError
  else .ok ((List.range s.rows.length).mergeSort fun i j =>
    if ascending then le (cellAt s col i) (cellAt s col j) else le (cellAt s col j) (cellAt s col i))

/-- `_updatePlotSelector` (`Analysis/MPCDAnalysis/InteractivePlotter/Plotter.py:236-292`), with sorting. `s` is the plotter, with the
columns of before. -/
def update (le : Cell F → Cell F → Bool) (s : State F L) (sel : Sel) : (State F L × Sel) × Except PyErr Unit :=
  let s' := updatePlotSelector s
  let unsorted := List.range s'.rows.length
  match sel.sort with
  | none => ((s', ⟨unsorted, none⟩), .ok ())
  | some (col, asc) =>
    if s.columns = [] then ((s', ⟨unsorted, none⟩), .ok ())
    else match s.columns[col]? with
      | none => ((s, sel), .error .exception)
      | some name =>
        if name ∈ s.hidden then ((s', ⟨unsorted, none⟩), .ok ())
        else match sortItems le s' col asc with
          | .error e => ((s', ⟨unsorted, some (col, asc)⟩), .error e)
          | .ok items => ((s', ⟨items, some (col, asc)⟩), .ok ())

/-- `setSortingCharacteristic` (`Analysis/MPCDAnalysis/InteractivePlotter/Plotter.py:180-200`). -/
def setSortingCharacteristic (le : Cell F → Cell F → Bool) (s : State F L) (sel : Sel) (c : Str) (ascending : Bool) :
    Sel × Except PyErr Unit :=
  match s.columns.findIdx? (· = c) with
  | none => (sel, .error .exception)
  | some col =>
    match sortItems le s col ascending with
    | .error e => (⟨sel.items, some (col, ascending)⟩, .error e)
    | .ok items => (⟨items, some (col, ascending)⟩, .ok ())

/-- Whether Python takes a value for true. -/
def truthy (isZero : F → Bool) : Cell F → Bool
  | .inr b => b
  | .inl none => false
  | .inl (some (.number x)) => !isZero x
  | .inl (some (.text t)) => decide (t ≠ [])

/-- `getItemColumn` (`Analysis/MPCDAnalysis/InteractivePlotter/PlotSelectionList.py:44-52`). -/
def getItemColumn (s : State F L) (sel : Sel) (item col : ℕ) : Except PyErr (Cell F) :=
  match sel.items[item]? with
  | none => .error .indexError
  | some i =>
    match s.rows[i]? with
    | none => .error .keyError
    | some r =>
      match r[col]? with
      | none => .error .indexError
      | some c => .ok c

/-- `OnGetItemImage` (`Analysis/MPCDAnalysis/InteractivePlotter/PlotSelectionList.py:63-67`): whether there is a tick mark. -/
def ticked (isZero : F → Bool) (s : State F L) (sel : Sel) (item : ℕ) : Except PyErr Bool :=
  match getItemColumn s sel item 0 with
  | .error e => .error e
  | .ok c => .ok (truthy isZero c)

/-- `OnItemActivated` (`Analysis/MPCDAnalysis/InteractivePlotter/PlotSelectionList.py:78-79`): the plot whose visibility is toggled. -/
def activated (sel : Sel) (item : ℕ) : Option ℕ := sel.items[item]?

/-! ## Specification -/

/-- The boxes say what is the case. -/
def Truthful (w : Window) : Prop :=
  (w.logX = true ↔ w.xScale = logName) ∧ (w.logY = true ↔ w.yScale = logName) ∧ w.dashedBox = w.dashed

/-- The list shows each plot once. -/
def Complete (s : State F L) (sel : Sel) : Prop := sel.items.Perm (List.range s.plots.length)

/-- The value of a characteristic of the plot in the given place, and "Plotted". -/
def valueOf (s : State F L) (c : Str) (i : ℕ) : Cell F := ((s.plots[i]?).map fun p => cell s p c).getD (.inl none)

/-- The list is sorted by the characteristic. -/
def SortedBy (le : Cell F → Cell F → Bool) (s : State F L) (c : Str) (ascending : Bool) (items : List ℕ) : Prop :=
  items.Pairwise fun i j =>
    if ascending then le (valueOf s c i) (valueOf s c j) = true else le (valueOf s c j) (valueOf s c i) = true

/-- Comparing is total and transitive. -/
def Order (le : Cell F → Cell F → Bool) : Prop :=
  (∀ a b c, le a b = true → le b c = true → le a c = true) ∧ ∀ a b, (le a b || le b a) = true

/-- The list is as `_updatePlotSelector` leaves it. -/
def UpToDate (s : State F L) : Prop := updatePlotSelector s = s

/-! ## Proofs: check boxes -/

theorem setX_truthful {known : Str → Bool} {w : Window} {s : Str} (hk : known s = true)
    (h : (w.logY = true ↔ w.yScale = logName) ∧ w.dashedBox = w.dashed) : Truthful (setXScale known w s).1 := by
  unfold setXScale
  rw [if_pos hk]
  exact ⟨by simp, h.1, h.2⟩

theorem setY_truthful {known : Str → Bool} {w : Window} {s : Str} (hk : known s = true)
    (h : (w.logX = true ↔ w.xScale = logName) ∧ w.dashedBox = w.dashed) : Truthful (setYScale known w s).1 := by
  unfold setYScale
  rw [if_pos hk]
  dsimp only
  split_ifs with h'
  · exact ⟨h.1, by simp [h'], h.2⟩
  · exact ⟨h.1, by simp [h'], h.2⟩

theorem act_truthful {known : Str → Bool} (h1 : known logName = true) (h2 : known linearName = true) {w : Window} (h : Truthful w)
    (a : Act) : Truthful (act known w a).1 := by
  obtain ⟨hx, hy, hd⟩ := h
  match a with
  | .setXScale s =>
    by_cases hk : known s = true
    · exact setX_truthful hk ⟨hy, hd⟩
    · simp only [act, setXScale, if_neg hk]
      exact ⟨hx, hy, hd⟩
  | .setYScale s =>
    by_cases hk : known s = true
    · exact setY_truthful hk ⟨hx, hd⟩
    · simp only [act, setYScale, if_neg hk]
      exact ⟨hx, hy, hd⟩
  | .setDashed b => exact ⟨hx, hy, rfl⟩
  | .click .logX true => exact setX_truthful h1 ⟨hy, hd⟩
  | .click .logX false => exact setX_truthful h2 ⟨hy, hd⟩
  | .click .logY true => exact setY_truthful h1 ⟨hx, hd⟩
  | .click .logY false => exact setY_truthful h2 ⟨hx, hd⟩
  | .click .dashed true => exact ⟨hx, hy, rfl⟩
  | .click .dashed false => exact ⟨hx, hy, rfl⟩

/-- **C151** (check boxes): whatever the user and the program do, and even if the program asks for scales there are not, the boxes say
whether the axes are logarithmic, and whether negative values are drawn with dashed lines. -/
theorem C151_boxes (known : Str → Bool) (h1 : known logName = true) (h2 : known linearName = true) (h : List Act) :
    Truthful (acts known opened h) := by
  have key : ∀ (h : List Act) (w : Window), Truthful w → Truthful (acts known w h) := by
    intro h
    induction h with
    | nil => exact fun w hw => hw
    | cons a h ih => exact fun w hw => ih _ (act_truthful h1 h2 hw a)
  exact key h opened ⟨by decide, by decide, rfl⟩

/-- **C151** (clicking): clicking on a box has the effect it says, and no other. -/
theorem C151_click (known : Str → Bool) (h1 : known logName = true) (h2 : known linearName = true) (w : Window) (c : Bool) :
    ((act known w (.click .logX c)).2 = .ok () ∧ (act known w (.click .logX c)).1.xScale = (if c then logName else linearName) ∧
      (act known w (.click .logX c)).1.yScale = w.yScale ∧ (act known w (.click .logX c)).1.dashed = w.dashed) ∧
    ((act known w (.click .logY c)).2 = .ok () ∧ (act known w (.click .logY c)).1.yScale = (if c then logName else linearName) ∧
      (act known w (.click .logY c)).1.yIsLog = c ∧
      (act known w (.click .logY c)).1.xScale = w.xScale ∧ (act known w (.click .logY c)).1.dashed = w.dashed) ∧
    ((act known w (.click .dashed c)).2 = .ok () ∧ (act known w (.click .dashed c)).1.dashed = c ∧
      (act known w (.click .dashed c)).1.xScale = w.xScale ∧ (act known w (.click .dashed c)).1.yScale = w.yScale) := by
  have hl : linearName ≠ logName := by decide
  cases c <;> simp [act, setXScale, setYScale, setDashed, h1, h2, hl]

/-- **C151** (scales): asking for a scale sets it, or, if there is none of this name, changes nothing and raises. -/
theorem C151_scale (known : Str → Bool) (w : Window) (s : Str) :
    (known s = true → (act known w (.setXScale s)).1.xScale = s ∧ (act known w (.setYScale s)).1.yScale = s ∧
      ((act known w (.setYScale s)).1.yIsLog = true ↔ s = logName)) ∧
    (known s = false → act known w (.setXScale s) = (w, .error .valueError) ∧
      act known w (.setYScale s) = (w, .error .valueError)) := by
  constructor
  · intro h
    by_cases hs : s = logName
    · rw [hs] at h
      simp [act, setXScale, setYScale, h, hs]
    · simp [act, setXScale, setYScale, h, hs]
  · intro h
    simp [act, setXScale, setYScale, h]

/-! ## Proofs: the list -/

theorem rows_length (s : State F L) : (updatePlotSelector s).rows.length = s.plots.length := by simp [updatePlotSelector]

theorem cellAt_update (s : State F L) (col i : ℕ) (c : Str) (hc : (updatePlotSelector s).columns[col]? = some c)
    (hi : i < s.plots.length) : cellAt (updatePlotSelector s) col i = valueOf s c i := by
  obtain ⟨p, hp⟩ : ∃ p, s.plots[i]? = some p := ⟨_, List.getElem?_eq_getElem hi⟩
  unfold cellAt valueOf
  simp only [updatePlotSelector] at hc ⊢
  rw [List.getElem?_map, hp]
  simp only [Option.map_some, Option.bind_some, List.getElem?_map, hc, Option.getD_some]

theorem valueOf_update (s : State F L) (c : Str) (i : ℕ) : valueOf (updatePlotSelector s) c i = valueOf s c i := rfl

theorem sortItems_sorted {le : Cell F → Cell F → Bool} (hle : Order le) (s : State F L) (col : ℕ) (asc : Bool) (c : Str)
    (hc : (updatePlotSelector s).columns[col]? = some c) :
    ∃ items, sortItems le (updatePlotSelector s) col asc = .ok items ∧ items.Perm (List.range s.plots.length) ∧
      SortedBy le s c asc items := by
  have hcol : col < (updatePlotSelector s).columns.length := (List.getElem?_eq_some_iff.1 hc).1
  refine ⟨_, if_neg (fun h => absurd h.2 (by omega)), ?_, ?_⟩
  · rw [← rows_length s]
    exact List.mergeSort_perm _ _
  · have hs := List.pairwise_mergeSort (le := fun i j : ℕ =>
        if asc then le (cellAt (updatePlotSelector s) col i) (cellAt (updatePlotSelector s) col j)
        else le (cellAt (updatePlotSelector s) col j) (cellAt (updatePlotSelector s) col i))
      (by
        intro a b c
        cases asc
        · exact fun h1 h2 => hle.1 _ _ _ h2 h1
        · exact fun h1 h2 => hle.1 _ _ _ h1 h2)
      (by
        intro a b
        cases asc
        · exact hle.2 _ _
        · exact hle.2 _ _)
      (List.range (updatePlotSelector s).rows.length)
    refine List.pairwise_iff_forall_sublist.2 ?_
    intro i j hij
    have := List.pairwise_iff_forall_sublist.1 hs hij
    have hm : ∀ k ∈ [i, j], k < s.plots.length := by
      intro k hk
      have h' := (List.mergeSort_perm _ _).mem_iff.1 (hij.subset hk)
      rw [List.mem_range, rows_length] at h'
      exact h'
    rw [cellAt_update s col i c hc (hm i (by simp)), cellAt_update s col j c hc (hm j (by simp))] at this
    cases asc <;> simpa using this

/-- **C151** (sorting): sorting by a characteristic that has a column sorts the list by its values, and shows each plot once; other
characteristics are refused, and nothing changes. -/
theorem C151_sort {le : Cell F → Cell F → Bool} (hle : Order le) (s : State F L) (hs : UpToDate s) (sel : Sel) (c : Str) (asc : Bool) :
    (c ∈ s.columns → (setSortingCharacteristic le s sel c asc).2 = .ok () ∧
      Complete s (setSortingCharacteristic le s sel c asc).1 ∧
      SortedBy le s c asc (setSortingCharacteristic le s sel c asc).1.items) ∧
    (c ∉ s.columns → setSortingCharacteristic le s sel c asc = (sel, .error .exception)) := by
  constructor
  · intro h
    cases e : s.columns.findIdx? (· = c) with
    | none =>
      rw [List.findIdx?_eq_none_iff] at e
      simpa using e c h
    | some col =>
      obtain ⟨hlt, he, -⟩ := List.findIdx?_eq_some_iff_getElem.1 e
      have hcol : (updatePlotSelector s).columns[col]? = some c := by
        unfold UpToDate at hs
        rw [hs, List.getElem?_eq_getElem hlt]
        simpa using he
      obtain ⟨items, e1, e2, e3⟩ := sortItems_sorted hle s col asc c hcol
      unfold UpToDate at hs
      rw [hs] at e1
      have e' : setSortingCharacteristic le s sel c asc = (⟨items, some (col, asc)⟩, .ok ()) := by
        unfold setSortingCharacteristic
        rw [e]
        simp only [e1]
      rw [e']
      exact ⟨rfl, e2, e3⟩
  · intro h
    have e : s.columns.findIdx? (· = c) = none := by
      rw [List.findIdx?_eq_none_iff]
      intro x hx
      simp only [decide_eq_false_iff_not]
      rintro rfl
      exact h hx
    unfold setSortingCharacteristic
    rw [e]

theorem update_sorted {le : Cell F → Cell F → Bool} (hle : Order le) (s : State F L) (items : List ℕ) (col : ℕ) (asc : Bool) (c c' : Str)
    (hc : s.columns[col]? = some c) (hh : c ∉ s.hidden) (hc' : (updatePlotSelector s).columns[col]? = some c') :
    (update le s ⟨items, some (col, asc)⟩).2 = .ok () ∧
    (update le s ⟨items, some (col, asc)⟩).1.1 = updatePlotSelector s ∧
    Complete s (update le s ⟨items, some (col, asc)⟩).1.2 ∧
    SortedBy le s c' asc (update le s ⟨items, some (col, asc)⟩).1.2.items := by
  obtain ⟨items', e1, e2, e3⟩ := sortItems_sorted hle s col asc c' hc'
  have hne : s.columns ≠ [] := by
    rintro h
    rw [h] at hc
    cases hc
  have e : update le s ⟨items, some (col, asc)⟩ = ((updatePlotSelector s, ⟨items', some (col, asc)⟩), .ok ()) := by
    unfold update
    simp only [if_neg hne, hc, if_neg hh, e1]
  rw [e]
  exact ⟨rfl, rfl, e2, e3⟩

/-- **C151** (staying sorted): if the column by which the list is sorted still has its number, then the list is sorted by it after
whatever change of the plots. -/
theorem C151_sorted_partial {le : Cell F → Cell F → Bool} (hle : Order le) (s : State F L) (items : List ℕ) (col : ℕ) (asc : Bool)
    (c : Str) (hc : s.columns[col]? = some c) (hh : c ∉ s.hidden) (hc' : (updatePlotSelector s).columns[col]? = some c) :
    (update le s ⟨items, some (col, asc)⟩).2 = .ok () ∧ Complete s (update le s ⟨items, some (col, asc)⟩).1.2 ∧
    SortedBy le s c asc (update le s ⟨items, some (col, asc)⟩).1.2.items := by
  obtain ⟨h1, -, h3, h4⟩ := update_sorted hle s items col asc c c hc hh hc'
  exact ⟨h1, h3, h4⟩

theorem hide_columns (s : State F L) (hs : UpToDate s) (h : Str) (rest : List Str) (hc : s.columns = h :: rest)
    (hn : s.columns.Nodup) : (updatePlotSelector { s with hidden := s.hidden ++ [h] }).columns = rest := by
  have e : (getListOfPlotCharacteristics s [plottedName]).filter (· ∉ s.hidden) = h :: rest := by
    rw [← hc]
    exact congrArg State.columns hs
  have e' : (updatePlotSelector { s with hidden := s.hidden ++ [h] }).columns =
      ((getListOfPlotCharacteristics s [plottedName]).filter (· ∉ s.hidden)).filter (· ≠ h) := by
    rw [List.filter_filter]
    show (getListOfPlotCharacteristics s [plottedName]).filter (· ∉ s.hidden ++ [h]) = _
    apply List.filter_congr
    intro x _
    by_cases h1 : x ∈ s.hidden <;> by_cases h2 : x = h <;> simp [h1, h2]
  rw [hc, List.nodup_cons] at hn
  rw [e', e, List.filter_cons_of_neg (by simp)]
  apply List.filter_eq_self.2
  intro x hx
  simp only [ne_eq, decide_not, Bool.not_eq_eq_eq_not, Bool.not_true, decide_eq_false_iff_not]
  rintro rfl
  exact hn.1 hx

/-- **C151** does not hold if a characteristic before the one by which the list is sorted is hidden, such as "Plotted": the list is
sorted by the next characteristic then, or, if there is none, there is an exception. -/
theorem C151_hide_violated {le : Cell F → Cell F → Bool} (hle : Order le) (s : State F L) (hs : UpToDate s) (hn : s.columns.Nodup)
    (h c : Str) (rest : List Str) (hc : s.columns = h :: rest) (items : List ℕ) (col : ℕ) (asc : Bool) (hcol : rest[col]? = some c) :
    let s' := { s with hidden := s.hidden ++ [h] }
    (∀ c', rest[col + 1]? = some c' → (update le s' ⟨items, some (col + 1, asc)⟩).2 = .ok () ∧
      SortedBy le s c' asc (update le s' ⟨items, some (col + 1, asc)⟩).1.2.items) ∧
    (rest[col + 1]? = none → 2 ≤ s.plots.length → (update le s' ⟨items, some (col + 1, asc)⟩).2 = .error .indexError) := by
  intro s'
  have hnew := hide_columns s hs h rest hc hn
  have h1 : s'.columns[col + 1]? = some c := by
    show s.columns[col + 1]? = _
    rw [hc, List.getElem?_cons_succ, hcol]
  have hm : c ∈ rest := List.mem_of_getElem? hcol
  have h2 : c ∉ s'.hidden := by
    show c ∉ s.hidden ++ [h]
    rw [List.mem_append, List.mem_singleton, not_or]
    constructor
    · have : c ∈ s.columns := by simp [hc, hm]
      rw [← congrArg State.columns hs] at this
      simp only [updatePlotSelector, List.mem_filter, decide_eq_true_eq] at this
      exact this.2
    · rintro rfl
      rw [hc, List.nodup_cons] at hn
      exact hn.1 hm
  constructor
  · intro c' hc'
    obtain ⟨e1, -, -, e4⟩ := update_sorted hle s' items (col + 1) asc c c' h1 h2 (by rw [hnew]; exact hc')
    exact ⟨e1, e4⟩
  · intro hnone hp
    have hne : s'.columns ≠ [] := by
      intro h
      rw [h] at h1
      cases h1
    have hs' : sortItems le (updatePlotSelector s') (col + 1) asc = .error .indexError := by
      unfold sortItems
      rw [if_pos]
      rw [rows_length, hnew]
      exact ⟨hp, List.getElem?_eq_none_iff.1 hnone⟩
    unfold update
    simp only [if_neg hne, h1, if_neg h2, hs']

/-- **C151** (rows): the plot that is shown or hidden on activating a row is the one whose characteristics the row has. -/
theorem C151_row (s : State F L) (hs : UpToDate s) (sel : Sel) (item i : ℕ) (hi : activated sel item = some i) (p : Plot F L)
    (hp : s.plots[i]? = some p) (col : ℕ) (c : Str) (hc : s.columns[col]? = some c) :
    getItemColumn s sel item col = .ok (cell s p c) := by
  unfold UpToDate at hs
  have hr : s.rows[i]? = some (s.columns.map (cell s p)) := by
    rw [← hs]
    simp only [updatePlotSelector, List.getElem?_map, hp, Option.map_some]
    rfl
  unfold activated at hi
  unfold getItemColumn
  simp only [hi, hr, List.getElem?_map, hc, Option.map_some]

theorem foldl_addNew_prefix (l m : List Str) : l <+: m.foldl addNew l := by
  induction m generalizing l with
  | nil => exact List.prefix_rfl
  | cons c m ih =>
    refine List.IsPrefix.trans ?_ (ih (addNew l c))
    unfold addNew
    split_ifs
    · exact List.prefix_rfl
    · exact List.prefix_append _ _

theorem foldl_order_prefix (P : Str → Prop) [DecidablePred P] (l m : List Str) :
    l <+: m.foldl (fun l c => if P c then addNew l c else l) l := by
  induction m generalizing l with
  | nil => exact List.prefix_rfl
  | cons c m ih =>
    refine List.IsPrefix.trans ?_ (ih _)
    dsimp only
    split_ifs
    · exact foldl_addNew_prefix l [c]
    · exact List.prefix_rfl

theorem list_first (s : State F L) (c : Str) (rest : List Str)
    (h : (s.order = [] ∧ c = plottedName) ∨ (s.order = c :: rest ∧ (c = plottedName ∨ c ∈ s.used))) :
    [c] <+: getListOfPlotCharacteristics s [plottedName] := by
  unfold getListOfPlotCharacteristics
  refine List.IsPrefix.trans ?_ (foldl_addNew_prefix _ _)
  rcases h with ⟨h1, h2⟩ | ⟨h1, h2⟩
  · rw [h1, h2]
    exact List.prefix_rfl
  · refine List.IsPrefix.trans ?_ (foldl_addNew_prefix _ _)
    rw [h1, List.foldl_cons]
    have : (if c ∈ [plottedName] ∨ c ∈ s.used then addNew [] c else []) = [c] := by
      rw [if_pos (by simpa using h2)]
      rfl
    rw [this]
    exact foldl_order_prefix _ _ _

theorem first_column (s : State F L) (hs : UpToDate s) (c : Str) (rest : List Str)
    (h : (s.order = [] ∧ c = plottedName) ∨ (s.order = c :: rest ∧ (c = plottedName ∨ c ∈ s.used))) (hh : c ∉ s.hidden) :
    s.columns[0]? = some c := by
  obtain ⟨t, ht⟩ := list_first s c rest h
  have e : s.columns = (getListOfPlotCharacteristics s [plottedName]).filter (· ∉ s.hidden) := (congrArg State.columns hs).symm
  rw [e, ← ht, List.singleton_append, List.filter_cons_of_pos (by simpa using hh)]
  rfl

theorem ticked_eq (isZero : F → Bool) (s : State F L) (hs : UpToDate s) (sel : Sel) (item i : ℕ) (hi : activated sel item = some i)
    (p : Plot F L) (hp : s.plots[i]? = some p) (c : Str) (hc : s.columns[0]? = some c) :
    ticked isZero s sel item = .ok (truthy isZero (cell s p c)) := by
  unfold ticked
  rw [C151_row s hs sel item i hi p hp 0 c hc]

/-- **C151** (tick marks): if no order of characteristics has been set, or one that begins with "Plotted", and "Plotted" is not hidden,
the rows of those plots have tick marks that are shown. -/
theorem C151_tick_partial (isZero : F → Bool) (s : State F L) (hs : UpToDate s) (sel : Sel) (item i : ℕ)
    (hi : activated sel item = some i) (p : Plot F L) (hp : s.plots[i]? = some p)
    (ho : s.order = [] ∨ ∃ rest, s.order = plottedName :: rest) (hh : plottedName ∉ s.hidden) :
    ticked isZero s sel item = .ok p.shown := by
  have hc : s.columns[0]? = some plottedName := by
    rcases ho with h | ⟨rest, h⟩
    · exact first_column s hs plottedName [] (.inl ⟨h, rfl⟩) hh
    · exact first_column s hs plottedName rest (.inr ⟨h, .inl rfl⟩) hh
  rw [ticked_eq isZero s hs sel item i hi p hp plottedName hc]
  simp [cell, truthy]

/-- **C151** does not hold if the order of characteristics begins with another one: plots that are not shown have tick marks if their
value of this characteristic is a number other than zero, or text; plots that are shown have none if they have no such value. -/
theorem C151_tick_violated (isZero : F → Bool) (s : State F L) (hs : UpToDate s) (sel : Sel) (item i : ℕ)
    (hi : activated sel item = some i) (p : Plot F L) (hp : s.plots[i]? = some p) (c : Str) (rest : List Str)
    (ho : s.order = c :: rest) (hu : c ∈ s.used) (hne : c ≠ plottedName) (hh : c ∉ s.hidden) :
    (∀ x, get (s.dicts p.dict) c = some (.number x) → ticked isZero s sel item = .ok (!isZero x)) ∧
    (∀ t, get (s.dicts p.dict) c = some (.text t) → ticked isZero s sel item = .ok (decide (t ≠ []))) ∧
    (get (s.dicts p.dict) c = none → ticked isZero s sel item = .ok false) := by
  have hc := first_column s hs c rest (.inr ⟨ho, .inr hu⟩) hh
  rw [ticked_eq isZero s hs sel item i hi p hp c hc]
  unfold cell
  rw [if_neg hne]
  refine ⟨?_, ?_, ?_⟩
  · intro x hx
    rw [hx]
    rfl
  · intro t ht
    rw [ht]
    rfl
  · intro h
    rw [h]
    rfl

/-! ## Examples -/

/-- A comparison as in the theorems. -/
example : Order (fun _ _ => true : Cell ℕ → Cell ℕ → Bool) := ⟨fun _ _ _ _ _ => rfl, fun _ _ => rfl⟩

/-- "T". -/
def tName : Str := "T".toList

/-- Two plots with a characteristic, the second of which is shown. -/
def two : State ℕ ℕ :=
  updatePlotSelector ⟨fun d => if d = 1 then [(tName, .number 3)] else [(tName, .number 2)], 3,
    [⟨none, [], false, 1⟩, ⟨some [], [], true, 2⟩], [], 0, false, [], [], [], []⟩

/-- The columns, and that there are two rows with tick marks as in `C151_tick_partial`. -/
example : UpToDate two ∧ two.columns = [plottedName, tName] ∧ two.columns.Nodup ∧
    ticked (· == 0) two ⟨[1, 0], none⟩ 0 = .ok true ∧ ticked (· == 0) two ⟨[1, 0], none⟩ 1 = .ok false :=
  ⟨rfl, rfl, by decide, rfl, rfl⟩

/-- With "T" put first, both plots have tick marks. -/
def tFirst : State ℕ ℕ := updatePlotSelector { two with order := [tName] }

example : UpToDate tFirst ∧ tName ∈ tFirst.used ∧ tName ≠ plottedName ∧ ticked (· == 0) tFirst ⟨[0, 1], none⟩ 0 = .ok true ∧
    (tFirst.plots.map Plot.shown) = [false, true] := ⟨rfl, by decide, by decide, rfl, rfl⟩

end OpenMPCD.Controls
