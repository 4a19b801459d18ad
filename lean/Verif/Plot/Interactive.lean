import Verif.Analysis.Text
import Verif.Snapshot.Python
import Verif.Cache.Model
import Mathlib.Data.List.Induction
import Mathlib.Data.List.Perm.Basic
import Mathlib.Data.List.Nodup

/-!
# The interactive plotter (C109)

`Analysis/MPCDAnalysis/InteractivePlotter/Plotter.py`. The windows are not modelled, except for which lines are on the canvas,
and the columns and rows of the window to select plots in. Sorting the rows and the widths of the columns are left out.
Dictionaries are objects, which may be shared. Plots are identified by the order in which they were provided.
-/

set_option linter.unusedSectionVars false
set_option linter.unusedSimpArgs false
set_option linter.unusedVariables false

namespace OpenMPCD.Interactive

open Runs (Str)
open Snapshot (isSpace words)
open Cache (dictSet)

variable {F L : Type}

/-! ## Model -/

/-- A value of a characteristic: `float(value)` if that is possible, and the text otherwise
(`Analysis/MPCDAnalysis/InteractivePlotter/Plotter.py:102-105`). -/
inductive Value (F : Type)
  | number (x : F)
  | text (s : Str)

/-- A dictionary of characteristics. -/
abbrev Dict (F : Type) := List (Str × Value F)

/-- `d[k]`; `none`: there is no such key. -/
def get (d : Dict F) (k : Str) : Option (Value F) := (d.find? fun e => e.1 = k).map Prod.snd

/-- A line of a file. -/
inductive Line (F : Type)
  | comment (name : Str) (value : Value F)
  | point (x y : F)

/-- `s.split('=', 1)`. -/
def splitFirstEq (s : Str) : List Str :=
  if '=' ∈ s then [s.takeWhile (· ≠ '='), (s.dropWhile (· ≠ '=')).drop 1] else [s]

/-- `s.strip()`. -/
def strip (s : Str) : Str := ((s.dropWhile isSpace).reverse.dropWhile isSpace).reverse

/-- The parts of a comment (`Analysis/MPCDAnalysis/InteractivePlotter/Plotter.py:89-91`). -/
def commentParts (line : Str) : List Str :=
  if strip (((splitChar '=' line).headD []).drop 1) = "rundirs".toList then splitFirstEq line else splitChar '=' line

/-- How a line is understood (`Analysis/MPCDAnalysis/InteractivePlotter/Plotter.py:87-115`), with its line end;
`FileFormatException` is `.exception`. -/
def parseLine (toFloat : Str → Option F) (line : Str) : Except PyErr (Line F) :=
  if line.head? = some '#' then
    match commentParts line with
    | [name, value] => .ok (.comment (strip (name.drop 1)) (match toFloat value with
        | some x => .number x
        | none => .text value))
    | _ => .error .exception
  else
    match words line with
    | [a, b] =>
      match toFloat a, toFloat b with
      | some x, some y => .ok (.point x y)
      | _, _ => .error .valueError
    | _ => .error .exception

/-- What is done for a comment (`Analysis/MPCDAnalysis/InteractivePlotter/Plotter.py:99-106`). -/
def addComment (d : Dict F) (name : Str) (value : Value F) : Dict F :=
  if (get d name).isSome then d else dictSet d name value

/-- The loop over the lines (`Analysis/MPCDAnalysis/InteractivePlotter/Plotter.py:83-115`): the dictionary and the points, also
if an exception is raised. -/
def readLines (toFloat : Str → Option F) : List Str → Dict F → List (F × F) → Dict F × Except PyErr (List (F × F))
  | [], d, points => (d, .ok points)
  | line :: rest, d, points =>
    match parseLine toFloat line with
    | .error e => (d, .error e)
    | .ok (.comment name value) => readLines toFloat rest (addComment d name value) points
    | .ok (.point x y) => readLines toFloat rest d (points ++ [(x, y)])

/-- An entry of `self.plots`. Lines are objects (numbers) and what they show. -/
structure Plot (F L : Type) where
  lines : Option (List (ℕ × L))
  data : List (F × F)
  shown : Bool
  dict : ℕ

/-- The plotter, with the dictionaries there are (number 0 is the default argument of `provideDataFile`), the lines on the
canvas, and the columns and rows of the window for selecting plots. -/
structure State (F L : Type) where
  dicts : ℕ → Dict F
  nextDict : ℕ
  plots : List (Plot F L)
  canvas : List (ℕ × L)
  nextLine : ℕ
  dashed : Bool
  hidden : List Str
  order : List Str
  columns : List Str
  rows : List (List (Option (Value F) ⊕ Bool))

/-- The constructor (`Analysis/MPCDAnalysis/InteractivePlotter/Plotter.py:22-29`). -/
def init : State F L := ⟨fun _ => [], 1, [], [], 0, false, [], [], [], []⟩

/-- The characteristics some plot has. -/
def State.used (s : State F L) : List Str := s.plots.flatMap fun p => (s.dicts p.dict).map Prod.fst

/-- Appending what is not there yet. -/
def addNew (l : List Str) (c : Str) : List Str := if c ∈ l then l else l ++ [c]

/-- `_getListOfPlotCharacteristics` (`Analysis/MPCDAnalysis/InteractivePlotter/Plotter.py:295-328`). -/
def getListOfPlotCharacteristics (s : State F L) (initial : List Str) : List Str :=
  s.used.foldl addNew (initial.foldl addNew
    (s.order.foldl (fun l c => if c ∈ initial ∨ c ∈ s.used then addNew l c else l) []))

/-- "Plotted". -/
def plottedName : Str := "Plotted".toList

/-- The entry of a row (`Analysis/MPCDAnalysis/InteractivePlotter/Plotter.py:276-283`). -/
def cell (s : State F L) (p : Plot F L) (c : Str) : Option (Value F) ⊕ Bool :=
  if c = plottedName then .inr p.shown else .inl (get (s.dicts p.dict) c)

/-- `_updatePlotSelector` (`Analysis/MPCDAnalysis/InteractivePlotter/Plotter.py:236-292`). -/
def updatePlotSelector (s : State F L) : State F L :=
  { s with
    columns := (getListOfPlotCharacteristics s [plottedName]).filter (· ∉ s.hidden)
    rows := s.plots.map fun p =>
      ((getListOfPlotCharacteristics s [plottedName]).filter (· ∉ s.hidden)).map (cell s p) }

/-- New lines on the canvas. -/
def number (n : ℕ) (ls : List L) : List (ℕ × L) := (ls.zipIdx n).map fun p => (p.2, p.1)

/-- `provideData` (`Analysis/MPCDAnalysis/InteractivePlotter/Plotter.py:34-60`), with a dictionary. `draw` gives the lines
drawn (`plot`, `Analysis/MPCDAnalysis/InteractivePlotter/Plotter.py:228-234`); without errors of the data,
`plotDashedIfNegative` does not depend on whether the axis is logarithmic. -/
def provideData (draw : Bool → List (F × F) → List L) (s : State F L) (data : List (F × F)) (show_ : Bool) (dict : ℕ) :
    State F L :=
  let new := if show_ then number s.nextLine (draw s.dashed data) else []
  updatePlotSelector { s with
    plots := s.plots ++ [⟨if show_ then some new else none, data, show_, dict⟩]
    canvas := s.canvas ++ new
    nextLine := s.nextLine + new.length }

/-- A dictionary is created. -/
def newDict (s : State F L) (d : Dict F) : State F L :=
  { s with dicts := Function.update s.dicts s.nextDict d, nextDict := s.nextDict + 1 }

/-- `provideDataFile` (`Analysis/MPCDAnalysis/InteractivePlotter/Plotter.py:62-117`), for the lines of the file. -/
def provideDataFile (toFloat : Str → Option F) (draw : Bool → List (F × F) → List L) (s : State F L) (file : List Str)
    (dict : ℕ) : State F L × Except PyErr Unit :=
  let r := readLines toFloat file (s.dicts dict) []
  let s' := { s with dicts := Function.update s.dicts dict r.1 }
  match r.2 with
  | .error e => (s', .error e)
  | .ok points => (provideData draw s' points false dict, .ok ())

/-- `provideDataDirectory` (`Analysis/MPCDAnalysis/InteractivePlotter/Plotter.py:119-140`), for the files in the order they are
come across. -/
def provideDataDirectory (toFloat : Str → Option F) (draw : Bool → List (F × F) → List L) (given : Dict F) :
    List (List Str) → State F L → State F L × Except PyErr Unit
  | [], s => (s, .ok ())
  | file :: rest, s =>
    match provideDataFile toFloat draw (newDict s given) file s.nextDict with
    | (s', .error e) => (s', .error e)
    | (s', .ok ()) => provideDataDirectory toFloat draw given rest s'

/-- `axes.lines.remove(line)`; `ValueError` if it is not there. -/
def removeLine (canvas : List (ℕ × L)) (line : ℕ × L) : Except PyErr (List (ℕ × L)) :=
  if canvas.any (fun l => l.1 = line.1) then .ok (canvas.eraseP fun l => l.1 = line.1) else .error .valueError

/-- Removing several lines (`Analysis/MPCDAnalysis/InteractivePlotter/Plotter.py:208-209`). -/
def removeLines : List (ℕ × L) → List (ℕ × L) → Except PyErr (List (ℕ × L))
  | canvas, [] => .ok canvas
  | canvas, l :: ls =>
    match removeLine canvas l with
    | .error e => .error e
    | .ok c => removeLines c ls

/-- `toggleVisibility` (`Analysis/MPCDAnalysis/InteractivePlotter/Plotter.py:202-214`). -/
def toggleVisibility (draw : Bool → List (F × F) → List L) (s : State F L) (i : ℕ) : State F L × Except PyErr Unit :=
  match s.plots[i]? with
  | none => (s, .error .keyError)
  | some p =>
    if p.shown = false then
      let new := number s.nextLine (draw s.dashed p.data)
      (updatePlotSelector { s with
        plots := s.plots.set i ⟨some new, p.data, true, p.dict⟩
        canvas := s.canvas ++ new
        nextLine := s.nextLine + new.length }, .ok ())
    else
      match removeLines s.canvas (p.lines.getD []) with
      | .error e => (s, .error e)
      | .ok canvas => (updatePlotSelector { s with
          plots := s.plots.set i ⟨none, p.data, false, p.dict⟩
          canvas := canvas }, .ok ())

/-- The loop drawing the plots (`Analysis/MPCDAnalysis/InteractivePlotter/Plotter.py:221-226`): the plots and the new lines. -/
def redraw (draw : Bool → List (F × F) → List L) (dashed : Bool) : ℕ → List (Plot F L) → List (Plot F L) × List (ℕ × L)
  | _, [] => ([], [])
  | n, p :: ps =>
    let new := if p.shown then number n (draw dashed p.data) else []
    let r := redraw draw dashed (n + new.length) ps
    (⟨if p.shown then some new else none, p.data, p.shown, p.dict⟩ :: r.1, new ++ r.2)

/-- `replot` (`Analysis/MPCDAnalysis/InteractivePlotter/Plotter.py:216-226`); `get_lines` returns a copy of the list. -/
def replot (draw : Bool → List (F × F) → List L) (s : State F L) : State F L :=
  let r := redraw draw s.dashed s.nextLine s.plots
  { s with plots := r.1, canvas := r.2, nextLine := s.nextLine + r.2.length }

/-- What can be done with a plotter. -/
inductive Op (F : Type)
  /-- The caller creates a dictionary. -/
  | newDict (d : Dict F)
  /-- With a dictionary, or without. -/
  | provideData (data : List (F × F)) (show_ : Bool) (dict : Option ℕ)
  /-- With a dictionary, or without. -/
  | provideDataFile (file : List Str) (dict : Option ℕ)
  | provideDataDirectory (files : List (List Str)) (given : Dict F)
  | toggleVisibility (i : ℕ)
  | setPlotDashedIfNegative (state : Bool)
  | replot
  | hideCharacteristics (toHide : List Str)
  | setCharacteristicsOrder (order : List Str)

/-- The effect of an operation
(`Analysis/MPCDAnalysis/InteractivePlotter/Plotter.py:34-60,62-117,119-140,154-157,159-167,169-178,202-214,216-226`). -/
def step (toFloat : Str → Option F) (draw : Bool → List (F × F) → List L) (s : State F L) :
    Op F → State F L × Except PyErr Unit
  | .newDict d => (newDict s d, .ok ())
  | .provideData data b (some a) => (provideData draw s data b a, .ok ())
  | .provideData data b none => (provideData draw (newDict s []) data b s.nextDict, .ok ())
  | .provideDataFile file a => provideDataFile toFloat draw s file (a.getD 0)
  | .provideDataDirectory files given => provideDataDirectory toFloat draw given files s
  | .toggleVisibility i => toggleVisibility draw s i
  | .setPlotDashedIfNegative b => (replot draw { s with dashed := b }, .ok ())
  | .replot => (replot draw s, .ok ())
  | .hideCharacteristics h => (updatePlotSelector { s with hidden := s.hidden ++ h }, .ok ())
  | .setCharacteristicsOrder o => ({ s with order := o }, .ok ())

/-- The state after a history. -/
def after (toFloat : Str → Option F) (draw : Bool → List (F × F) → List L) (s : State F L) (h : List (Op F)) : State F L :=
  h.foldl (fun s o => (step toFloat draw s o).1) s

/-! ## Specification -/

/-- What is to be seen on the canvas: of every plot that is shown, its lines, in the present style. -/
def picture (draw : Bool → List (F × F) → List L) (s : State F L) : List L :=
  (s.plots.filter (·.shown)).flatMap fun p => draw s.dashed p.data

/-- The value of the first comment of a file with the given name. -/
def firstComment (toFloat : Str → Option F) (file : List Str) (name : Str) : Option (Value F) :=
  file.findSome? fun l => match parseLine toFloat l with
    | .ok (.comment n v) => if n = name then some v else none
    | _ => none

/-- The points in a file. -/
def pointsOf (toFloat : Str → Option F) (file : List Str) : List (F × F) :=
  file.filterMap fun l => match parseLine toFloat l with
    | .ok (.point x y) => some (x, y)
    | _ => none

/-- All lines of a file have a permitted form. -/
def WellFormed (toFloat : Str → Option F) (file : List Str) : Prop := ∀ l ∈ file, ∃ r, parseLine toFloat l = .ok r

/-- No operation of a history passes the given dictionary to `provideDataFile`. -/
def Untouched (a : ℕ) (h : List (Op F)) : Prop :=
  ∀ o ∈ h, ∀ file arg, o = .provideDataFile file arg → arg.getD 0 ≠ a

/-! ## Proofs -/

theorem get_dictSet_new (d : Dict F) (k : Str) (v : Value F) (h : get d k = none) (n : Str) :
    get (dictSet d k v) n = if k = n then some v else get d n := by
  induction d with
  | nil => by_cases hk : k = n <;> simp [dictSet, get, hk]
  | cons e d ih =>
    obtain ⟨k', v'⟩ := e
    have hk : k' ≠ k := by
      intro e
      simp [get, e] at h
    have h' : get d k = none := by
      simpa [get, hk] using h
    have ih := ih h'
    rw [dictSet, if_neg hk]
    by_cases hn : k' = n
    · subst hn
      have : k ≠ k' := Ne.symm hk
      simp [get, this]
    · have e1 : ∀ l : Dict F, get ((k', v') :: l) n = get l n := by intro l; simp [get, hn]
      rw [e1, e1, ih]

theorem get_addComment (d : Dict F) (k : Str) (v : Value F) (n : Str) :
    get (addComment d k v) n = (get d n).or (if k = n then some v else none) := by
  unfold addComment
  cases h : get d k with
  | some w =>
    rw [if_pos (by simp)]
    by_cases hk : k = n
    · subst hk; simp [h]
    · simp [hk]
  | none =>
    rw [if_neg (by simp), get_dictSet_new d k v h]
    by_cases hk : k = n
    · subst hk; simp [h]
    · simp [hk]

theorem readLines_spec (toFloat : Str → Option F) (file : List Str) (hf : WellFormed toFloat file) (d : Dict F)
    (points : List (F × F)) :
    (readLines toFloat file d points).2 = .ok (points ++ pointsOf toFloat file) ∧
    ∀ n, get (readLines toFloat file d points).1 n = (get d n).or (firstComment toFloat file n) := by
  induction file generalizing d points with
  | nil => simp [readLines, pointsOf, firstComment]
  | cons l file ih =>
    have hf' : WellFormed toFloat file := fun x hx => hf x (by simp [hx])
    obtain ⟨r, hr⟩ := hf l (by simp)
    cases r with
    | comment name value =>
      have := ih hf' (addComment d name value) points
      simp only [readLines, hr]
      refine ⟨by rw [this.1]; simp [pointsOf, hr], fun n => ?_⟩
      rw [this.2, get_addComment, Option.or_assoc]
      congr 1
      by_cases hn : name = n <;> simp [firstComment, hr, hn]
    | point x y =>
      have := ih hf' d (points ++ [(x, y)])
      simp only [readLines, hr]
      refine ⟨by rw [this.1]; simp [pointsOf, hr], fun n => ?_⟩
      rw [this.2]
      simp [firstComment, hr]

theorem readLines_error (toFloat : Str → Option F) (file : List Str) (hf : ¬ WellFormed toFloat file) (d : Dict F)
    (points : List (F × F)) : ∃ e, (readLines toFloat file d points).2 = .error e := by
  induction file generalizing d points with
  | nil => exact absurd (by simp [WellFormed]) hf
  | cons l file ih =>
    unfold readLines
    cases hr : parseLine toFloat l with
    | error e => exact ⟨e, rfl⟩
    | ok r =>
      have hf' : ¬ WellFormed toFloat file := by
        intro h
        apply hf
        intro x hx
        rcases List.mem_cons.1 hx with rfl | hx
        · exact ⟨r, hr⟩
        · exact h x hx
      cases r with
      | comment name value => exact ih hf' _ _
      | point x y => exact ih hf' _ _

/-- **C109.** A file with lines of the permitted forms gives one further plot, not shown, with the points of the file. Its
characteristics are those of the dictionary passed, and for names which are not there, those of the first comment with the
name. No other dictionary changes. Any other file gives an exception, and no plot. -/
theorem C109_file (toFloat : Str → Option F) (draw : Bool → List (F × F) → List L) (s : State F L) (file : List Str)
    (a : ℕ) :
    (WellFormed toFloat file → (provideDataFile toFloat draw s file a).2 = .ok () ∧
      (provideDataFile toFloat draw s file a).1.plots = s.plots ++ [⟨none, pointsOf toFloat file, false, a⟩] ∧
      (∀ n, get ((provideDataFile toFloat draw s file a).1.dicts a) n =
        (get (s.dicts a) n).or (firstComment toFloat file n)) ∧
      ∀ b ≠ a, (provideDataFile toFloat draw s file a).1.dicts b = s.dicts b) ∧
    (¬ WellFormed toFloat file → (∃ e, (provideDataFile toFloat draw s file a).2 = .error e) ∧
      (provideDataFile toFloat draw s file a).1.plots = s.plots) := by
  constructor
  · intro hf
    obtain ⟨h1, h2⟩ := readLines_spec toFloat file hf (s.dicts a) []
    rw [List.nil_append] at h1
    unfold provideDataFile
    simp only [h1]
    refine ⟨trivial, rfl, fun n => ?_, fun b hb => ?_⟩
    · simp only [provideData, updatePlotSelector, Function.update_self]
      exact h2 n
    · simp only [provideData, updatePlotSelector, Function.update_of_ne hb]
  · intro hf
    obtain ⟨e, he⟩ := readLines_error toFloat file hf (s.dicts a) []
    unfold provideDataFile
    simp only [he]
    exact ⟨⟨e, rfl⟩, trivial⟩

theorem provideDataFile_frame (toFloat : Str → Option F) (draw : Bool → List (F × F) → List L) (s : State F L)
    (file : List Str) (a : ℕ) :
    (∀ b ≠ a, (provideDataFile toFloat draw s file a).1.dicts b = s.dicts b) ∧
    (provideDataFile toFloat draw s file a).1.nextDict = s.nextDict := by
  unfold provideDataFile
  simp only
  cases (readLines toFloat file (s.dicts a) []).2 with
  | error e => exact ⟨fun b hb => by simp only [Function.update_of_ne hb], rfl⟩
  | ok p => exact ⟨fun b hb => by simp only [provideData, updatePlotSelector, Function.update_of_ne hb], rfl⟩

theorem provideDataDirectory_frame (toFloat : Str → Option F) (draw : Bool → List (F × F) → List L) (given : Dict F)
    (files : List (List Str)) (s : State F L) :
    (∀ b < s.nextDict, (provideDataDirectory toFloat draw given files s).1.dicts b = s.dicts b) ∧
    s.nextDict ≤ (provideDataDirectory toFloat draw given files s).1.nextDict := by
  induction files generalizing s with
  | nil => exact ⟨fun _ _ => rfl, le_rfl⟩
  | cons f files ih =>
    have hfr := provideDataFile_frame toFloat draw (newDict s given) f s.nextDict
    have hd : ∀ b < s.nextDict, (newDict s given).dicts b = s.dicts b := fun b hb => by
      simp only [newDict, Function.update_of_ne hb.ne]
    have hn : (newDict s given).nextDict = s.nextDict + 1 := rfl
    unfold provideDataDirectory
    rcases hp : provideDataFile toFloat draw (newDict s given) f s.nextDict with ⟨s', _ | _⟩
    · rw [hp] at hfr
      exact ⟨fun b hb => (hfr.1 b hb.ne).trans (hd b hb), by simp only; have := hfr.2; simp only at this; omega⟩
    · rw [hp] at hfr
      have hs' : s'.nextDict = s.nextDict + 1 := hfr.2
      have := ih s'
      exact ⟨fun b hb => (this.1 b (by omega)).trans ((hfr.1 b hb.ne).trans (hd b hb)), by have := this.2; simp only; omega⟩

/-- **C109.** For a directory, every file gives a plot, in order, with characteristics of its own: those given, and those of
its comments. -/
theorem C109_directory (toFloat : Str → Option F) (draw : Bool → List (F × F) → List L) (given : Dict F)
    (files : List (List Str)) (hf : ∀ f ∈ files, WellFormed toFloat f) (s : State F L) :
    (provideDataDirectory toFloat draw given files s).2 = .ok () ∧
    ∃ new, (provideDataDirectory toFloat draw given files s).1.plots = s.plots ++ new ∧
      List.Forall₂ (fun p f => p.data = pointsOf toFloat f ∧ p.shown = false ∧ s.nextDict ≤ p.dict ∧
        ∀ n, get ((provideDataDirectory toFloat draw given files s).1.dicts p.dict) n =
          (get given n).or (firstComment toFloat f n)) new files := by
  induction files generalizing s with
  | nil => exact ⟨rfl, [], by simp [provideDataDirectory], List.Forall₂.nil⟩
  | cons f files ih =>
    obtain ⟨g1, g2, g3, g4⟩ := (C109_file toFloat draw (newDict s given) f s.nextDict).1 (hf f (by simp))
    have hfr := provideDataFile_frame toFloat draw (newDict s given) f s.nextDict
    rcases hp : provideDataFile toFloat draw (newDict s given) f s.nextDict with ⟨s', r⟩
    rw [hp] at g1 g2 g3 g4 hfr
    simp only at g1 g2 g3 g4 hfr
    subst g1
    have hs' : s'.nextDict = s.nextDict + 1 := hfr.2
    obtain ⟨i1, new, i2, i3⟩ := ih (fun x hx => hf x (by simp [hx])) s'
    have hfr2 := provideDataDirectory_frame toFloat draw given files s'
    have e : provideDataDirectory toFloat draw given (f :: files) s = provideDataDirectory toFloat draw given files s' := by
      rw [provideDataDirectory, hp]
    rw [e]
    refine ⟨i1, ⟨none, pointsOf toFloat f, false, s.nextDict⟩ :: new, ?_, List.Forall₂.cons ⟨rfl, rfl, le_rfl, fun n => ?_⟩ ?_⟩
    · rw [i2, g2]; simp [newDict]
    · rw [hfr2.1 s.nextDict (by omega), g3 n]
      simp [newDict]
    · refine i3.imp fun p f h => ⟨h.1, h.2.1, by have := h.2.2.1; omega, h.2.2.2⟩

theorem step_dicts (toFloat : Str → Option F) (draw : Bool → List (F × F) → List L) (s : State F L) (o : Op F) (a : ℕ)
    (ha : a < s.nextDict) (ho : ∀ file arg, o = .provideDataFile file arg → arg.getD 0 ≠ a) :
    (step toFloat draw s o).1.dicts a = s.dicts a ∧ s.nextDict ≤ (step toFloat draw s o).1.nextDict := by
  cases o with
  | newDict d => simp only [step, newDict, Function.update_of_ne ha.ne]; exact ⟨trivial, by omega⟩
  | provideData data b arg =>
    cases arg with
    | some c => exact ⟨rfl, le_rfl⟩
    | none =>
      simp only [step, provideData, newDict, updatePlotSelector, Function.update_of_ne ha.ne]
      exact ⟨trivial, by omega⟩
  | provideDataFile file arg =>
    have := provideDataFile_frame toFloat draw s file (arg.getD 0)
    exact ⟨this.1 a (Ne.symm (ho file arg rfl)), this.2.ge⟩
  | provideDataDirectory files given =>
    have := provideDataDirectory_frame toFloat draw given files s
    exact ⟨this.1 a ha, this.2⟩
  | toggleVisibility i =>
    simp only [step]
    unfold toggleVisibility
    cases s.plots[i]? with
    | none => exact ⟨rfl, le_rfl⟩
    | some p =>
      simp only
      split
      · exact ⟨rfl, le_rfl⟩
      · cases removeLines s.canvas (p.lines.getD []) <;> exact ⟨rfl, le_rfl⟩
  | setPlotDashedIfNegative b => exact ⟨rfl, le_rfl⟩
  | replot => exact ⟨rfl, le_rfl⟩
  | hideCharacteristics h => exact ⟨rfl, le_rfl⟩
  | setCharacteristicsOrder o => exact ⟨rfl, le_rfl⟩

/-- **C109.** Characteristics do not change, whatever is done, except that the dictionary is passed for a further file.

What is missing for the full statement: dictionaries may be shared, also without the caller knowing of it, see
`C109_default_violated`. -/
theorem C109_partial (toFloat : Str → Option F) (draw : Bool → List (F × F) → List L) (s : State F L) (a : ℕ)
    (ha : a < s.nextDict) (h : List (Op F)) (hh : Untouched a h) : (after toFloat draw s h).dicts a = s.dicts a := by
  suffices H : (after toFloat draw s h).dicts a = s.dicts a ∧ a < (after toFloat draw s h).nextDict from H.1
  induction h using List.reverseRecOn with
  | nil => exact ⟨rfl, ha⟩
  | append_singleton h o ih =>
    obtain ⟨i1, i2⟩ := ih fun x hx => hh x (by simp [hx])
    have hs : after toFloat draw s (h ++ [o]) = (step toFloat draw (after toFloat draw s h) o).1 := by
      unfold after; rw [List.foldl_append]; rfl
    have := step_dicts toFloat draw (after toFloat draw s h) o a i2 (hh o (by simp))
    rw [hs]
    exact ⟨this.1.trans i1, lt_of_lt_of_le i2 this.2⟩

/-- **C109** fails for files provided without characteristics: the second of any two has the characteristics of the first
one, even if its own comments say otherwise; and the first one gets those of the second. -/
theorem C109_default_violated (toFloat : Str → Option F) (draw : Bool → List (F × F) → List L) (f g : List Str)
    (hf : WellFormed toFloat f) (hg : WellFormed toFloat g) :
    ∃ p q, (after toFloat draw init [.provideDataFile f none, .provideDataFile g none]).plots = [p, q] ∧
      p.data = pointsOf toFloat f ∧ q.data = pointsOf toFloat g ∧ ∀ n,
      get ((after toFloat draw init [.provideDataFile f none, .provideDataFile g none]).dicts p.dict) n =
        (firstComment toFloat f n).or (firstComment toFloat g n) ∧
      get ((after toFloat draw init [.provideDataFile f none, .provideDataFile g none]).dicts q.dict) n =
        (firstComment toFloat f n).or (firstComment toFloat g n) := by
  obtain ⟨-, a2, a3, -⟩ := (C109_file toFloat draw (init : State F L) f 0).1 hf
  obtain ⟨-, b2, b3, -⟩ := (C109_file toFloat draw (provideDataFile toFloat draw (init : State F L) f 0).1 g 0).1 hg
  have e : after toFloat draw (init : State F L) [.provideDataFile f none, .provideDataFile g none] =
      (provideDataFile toFloat draw (provideDataFile toFloat draw init f 0).1 g 0).1 := rfl
  rw [e]
  refine ⟨⟨none, pointsOf toFloat f, false, 0⟩, ⟨none, pointsOf toFloat g, false, 0⟩, ?_, rfl, rfl, fun n => ?_⟩
  · rw [b2, a2]; rfl
  · have : get ((init : State F L).dicts 0) n = none := rfl
    simp only [b3 n, a3 n, this, Option.none_or, and_self]

/-- **C109** (lines): a line of words, which is not a comment, is a point if it is exactly two numbers, and cannot be read
otherwise. -/
theorem C109_line (toFloat : Str → Option F) (t : Str) (ts : List Str) (ht : Snapshot.Token t)
    (hts : ∀ u ∈ ts, Snapshot.Token u) (hc : t.head? ≠ some '#') :
    (∀ x y, parseLine toFloat (t ++ ts.flatMap (' ' :: ·) ++ ['\n']) = .ok (.point x y) ↔
      ∃ u, ts = [u] ∧ toFloat t = some x ∧ toFloat u = some y) ∧
    ((∃ e, parseLine toFloat (t ++ ts.flatMap (' ' :: ·) ++ ['\n']) = .error e) ↔
      ∀ u, ts = [u] → toFloat t = none ∨ toFloat u = none) := by
  have hw : words (t ++ ts.flatMap (' ' :: ·) ++ ['\n']) = t :: ts := Snapshot.Python.words_line t ts ht hts
  have hh : (t ++ ts.flatMap (' ' :: ·) ++ ['\n']).head? ≠ some '#' := by
    obtain ⟨c, r, rfl⟩ := List.exists_cons_of_ne_nil ht.1
    simpa using hc
  unfold parseLine
  rw [if_neg hh, hw]
  rcases ts with _ | ⟨u, _ | ⟨v, r⟩⟩
  · simp
  · cases h1 : toFloat t <;> cases h2 : toFloat u <;> simp [h1, h2]
  · simp

/-- **C109** (comments): `#name=value` without other `=` gives the characteristic of that name, with spaces around the name
left out. -/
theorem C109_comment (toFloat : Str → Option F) (name value : Str) (hn : '=' ∉ name) (hv : '=' ∉ value)
    (hs : ∀ c ∈ name.head?, isSpace c = false) (he : ∀ c ∈ name.getLast?, isSpace c = false) :
    parseLine toFloat ('#' :: (name ++ '=' :: value)) =
      .ok (.comment name (match toFloat value with
        | some x => .number x
        | none => .text value)) := by
  have h1 : splitChar '=' ('#' :: (name ++ '=' :: value)) = ['#' :: name, value] := by
    rw [← List.cons_append, splitChar_append_cons (by simp [hn]), splitChar_of_notMem hv]
  have h2 : splitFirstEq ('#' :: (name ++ '=' :: value)) = ['#' :: name, value] := by
    have ht : ('#' :: (name ++ '=' :: value)) = ('#' :: name) ++ '=' :: value := rfl
    have hp : ∀ c ∈ '#' :: name, decide (c ≠ '=') = true := by
      intro c hc
      rcases List.mem_cons.1 hc with rfl | hc
      · decide
      · simpa using fun h : c = '=' => hn (h ▸ hc)
    unfold splitFirstEq
    rw [if_pos (by simp), ht, List.takeWhile_append_of_pos hp, List.dropWhile_append_of_pos hp]
    simp
  have h3 : strip name = name := by
    have hd : ∀ l : Str, (∀ c ∈ l.head?, isSpace c = false) → l.dropWhile isSpace = l := by
      intro l hl
      cases l with
      | nil => rfl
      | cons c r => simp [hl c (by simp)]
    unfold strip
    rw [hd name hs, hd name.reverse (by simpa using he), List.reverse_reverse]
  have h4 : commentParts ('#' :: (name ++ '=' :: value)) = ['#' :: name, value] := by
    unfold commentParts
    rw [h1, h2]; simp
  unfold parseLine
  rw [if_pos (by simp), h4]
  simp [h3]

/-- **C109** fails after an exception: comments of a file that could not be read turn up with the next file. -/
theorem C109_failed_violated (toFloat : Str → Option F) (draw : Bool → List (F × F) → List L) (l bad : Str) (g : List Str)
    {name : Str} {value : Value F} (hl : parseLine toFloat l = .ok (.comment name value)) {e : PyErr}
    (hb : parseLine toFloat bad = .error e) (hg : WellFormed toFloat g) :
    (step toFloat draw (init : State F L) (.provideDataFile [l, bad] none)).2 = .error e ∧
    ∃ q, (after toFloat draw (init : State F L) [.provideDataFile [l, bad] none, .provideDataFile g none]).plots = [q] ∧
      get ((after toFloat draw (init : State F L) [.provideDataFile [l, bad] none, .provideDataFile g none]).dicts q.dict)
        name = some value := by
  have h1 : (readLines toFloat [l, bad] ([] : Dict F) []) = ([(name, value)], .error e) := by
    simp [readLines, hl, hb, addComment, get, dictSet]
  have h2 : provideDataFile toFloat draw (init : State F L) [l, bad] 0 =
      ({ (init : State F L) with dicts := Function.update (init : State F L).dicts 0 [(name, value)] }, .error e) := by
    unfold provideDataFile
    have : (init : State F L).dicts 0 = [] := rfl
    simp only [this, h1]
  have e1 : after toFloat draw (init : State F L) [.provideDataFile [l, bad] none, .provideDataFile g none] =
      (provideDataFile toFloat draw (provideDataFile toFloat draw init [l, bad] 0).1 g 0).1 := rfl
  obtain ⟨-, b2, b3, -⟩ :=
    (C109_file toFloat draw (provideDataFile toFloat draw (init : State F L) [l, bad] 0).1 g 0).1 hg
  refine ⟨by simp only [step, Option.getD_none, h2], ⟨none, pointsOf toFloat g, false, 0⟩, ?_, ?_⟩
  · rw [e1, b2, h2]; rfl
  · rw [e1, b3, h2]
    simp [get]

/-! ### The canvas -/

/-- The lines belonging to the plots. -/
def ownLines (ps : List (Plot F L)) : List (ℕ × L) := ps.flatMap fun p => p.lines.getD []

/-- A plot has its lines if it is shown, and none otherwise. -/
def Drawn (draw : Bool → List (F × F) → List L) (dashed : Bool) (p : Plot F L) : Prop :=
  (p.shown = false ∧ p.lines = none) ∨ (p.shown = true ∧ ∃ ls, p.lines = some ls ∧ ls.map Prod.snd = draw dashed p.data)

/-- The canvas has the lines of the plots. -/
structure Good (draw : Bool → List (F × F) → List L) (s : State F L) : Prop where
  perm : s.canvas.Perm (ownLines s.plots)
  nodup : (s.canvas.map Prod.fst).Nodup
  bound : ∀ l ∈ s.canvas, l.1 < s.nextLine
  drawn : ∀ p ∈ s.plots, Drawn draw s.dashed p

theorem number_snd (n : ℕ) (ls : List L) : (number n ls).map Prod.snd = ls := by
  unfold number; rw [List.map_map]
  induction ls generalizing n with
  | nil => rfl
  | cons l ls ih => rw [List.zipIdx_cons, List.map_cons, ih]; rfl

theorem number_fst (n : ℕ) (ls : List L) : (number n ls).map Prod.fst = List.range' n ls.length := by
  unfold number; rw [List.map_map]
  induction ls generalizing n with
  | nil => rfl
  | cons l ls ih => rw [List.zipIdx_cons, List.map_cons, ih]; rfl

theorem number_length (n : ℕ) (ls : List L) : (number n ls).length = ls.length := by simp [number]

theorem number_mem {n : ℕ} {ls : List L} {l : ℕ × L} (h : l ∈ number n ls) : n ≤ l.1 ∧ l.1 < n + ls.length := by
  have : l.1 ∈ (number n ls).map Prod.fst := List.mem_map_of_mem h
  rw [number_fst, List.mem_range'_1] at this
  exact this

theorem canvas_append {canvas : List (ℕ × L)} {n : ℕ} (hn : (canvas.map Prod.fst).Nodup) (hb : ∀ l ∈ canvas, l.1 < n)
    (ls : List L) : ((canvas ++ number n ls).map Prod.fst).Nodup ∧
      ∀ l ∈ canvas ++ number n ls, l.1 < n + (number n ls).length := by
  refine ⟨?_, fun l hl => ?_⟩
  · rw [List.map_append, List.nodup_append]
    refine ⟨hn, by rw [number_fst]; exact List.nodup_range', ?_⟩
    rintro a ha b hb' rfl
    obtain ⟨l, hl, rfl⟩ := List.mem_map.1 ha
    obtain ⟨l', hl', e⟩ := List.mem_map.1 hb'
    have := hb l hl
    have := number_mem hl'
    omega
  · rw [number_length]
    rcases List.mem_append.1 hl with hl | hl
    · have := hb l hl; omega
    · exact (number_mem hl).2

theorem removeLine_perm {canvas rest : List (ℕ × L)} {l : ℕ × L} (h : canvas.Perm (l :: rest))
    (hn : (canvas.map Prod.fst).Nodup) : ∃ c, removeLine canvas l = .ok c ∧ c.Perm rest ∧ c.Sublist canvas := by
  have hl : l ∈ canvas := h.mem_iff.2 (by simp)
  obtain ⟨a, b, rfl⟩ := List.append_of_mem hl
  have ha : ∀ x ∈ a, ¬ (decide (x.1 = l.1)) = true := by
    intro x hx e
    rw [List.map_append, List.nodup_append] at hn
    exact hn.2.2 _ (List.mem_map_of_mem hx) l.1 (by simp) (by simpa using e)
  refine ⟨a ++ b, ?_, ?_, ?_⟩
  · unfold removeLine
    rw [if_pos (by simp), List.eraseP_append_right _ ha, List.eraseP_cons_of_pos (by simp)]
  · exact (List.perm_middle.symm.trans h).cons_inv
  · simp

theorem removeLines_perm {ls canvas rest : List (ℕ × L)} (h : canvas.Perm (ls ++ rest))
    (hn : (canvas.map Prod.fst).Nodup) : ∃ c, removeLines canvas ls = .ok c ∧ c.Perm rest ∧ c.Sublist canvas := by
  induction ls generalizing canvas with
  | nil => exact ⟨canvas, rfl, h, List.Sublist.refl _⟩
  | cons l ls ih =>
    obtain ⟨c, e1, e2, e3⟩ := removeLine_perm h hn
    obtain ⟨c', f1, f2, f3⟩ := ih e2 (hn.sublist (e3.map _))
    exact ⟨c', by rw [removeLines, e1]; exact f1, f2, f3.trans e3⟩

theorem good_provideData {draw : Bool → List (F × F) → List L} {s : State F L} (h : Good draw s) (data : List (F × F))
    (b : Bool) (a : ℕ) : Good draw (provideData draw s data b a) := by
  cases b with
  | false =>
    refine ⟨?_, ?_, ?_, ?_⟩
    · simpa [provideData, updatePlotSelector, ownLines] using h.perm
    · simpa [provideData, updatePlotSelector] using h.nodup
    · simpa [provideData, updatePlotSelector] using h.bound
    · intro p hp
      simp only [provideData, updatePlotSelector, List.mem_append, List.mem_singleton] at hp
      rcases hp with hp | rfl
      · exact h.drawn p hp
      · exact Or.inl ⟨rfl, rfl⟩
  | true =>
    have hc := canvas_append h.nodup h.bound (draw s.dashed data)
    refine ⟨?_, ?_, ?_, ?_⟩
    · simp only [provideData, updatePlotSelector, ownLines, List.flatMap_append, List.flatMap_cons, List.flatMap_nil,
        List.append_nil, if_true, Option.getD_some]
      exact h.perm.append_right _
    · simpa [provideData, updatePlotSelector] using hc.1
    · simpa [provideData, updatePlotSelector] using hc.2
    · intro p hp
      simp only [provideData, updatePlotSelector, List.mem_append, List.mem_singleton] at hp
      rcases hp with hp | rfl
      · exact h.drawn p hp
      · exact Or.inr ⟨rfl, _, rfl, number_snd _ _⟩

theorem good_dicts {draw : Bool → List (F × F) → List L} {s : State F L} (h : Good draw s) (d : ℕ → Dict F) (n : ℕ) :
    Good draw { s with dicts := d, nextDict := n } := ⟨h.perm, h.nodup, h.bound, h.drawn⟩

theorem good_file {toFloat : Str → Option F} {draw : Bool → List (F × F) → List L} {s : State F L} (h : Good draw s)
    (file : List Str) (a : ℕ) : Good draw (provideDataFile toFloat draw s file a).1 := by
  unfold provideDataFile
  simp only
  cases (readLines toFloat file (s.dicts a) []).2 with
  | error e => exact good_dicts h _ _
  | ok p => exact good_provideData (good_dicts h _ _) _ _ _

theorem good_directory {toFloat : Str → Option F} {draw : Bool → List (F × F) → List L} (given : Dict F)
    (files : List (List Str)) {s : State F L} (h : Good draw s) :
    Good draw (provideDataDirectory toFloat draw given files s).1 := by
  induction files generalizing s with
  | nil => exact h
  | cons f files ih =>
    have hg : Good draw (provideDataFile toFloat draw (newDict s given) f s.nextDict).1 := good_file (good_dicts h _ _) _ _
    unfold provideDataDirectory
    rcases hp : provideDataFile toFloat draw (newDict s given) f s.nextDict with ⟨s', _ | _⟩
    · rw [hp] at hg; exact hg
    · rw [hp] at hg; exact ih hg

theorem toggle_good {draw : Bool → List (F × F) → List L} {s : State F L} (h : Good draw s) {i : ℕ} {p : Plot F L}
    (hp : s.plots[i]? = some p) : (toggleVisibility draw s i).2 = .ok () ∧
      Good draw (toggleVisibility draw s i).1 ∧
      ((toggleVisibility draw s i).1.plots.map fun q => (q.data, q.shown)) =
        (s.plots.map fun q => (q.data, q.shown)).set i (p.data, !p.shown) := by
  obtain ⟨hi, he⟩ := List.getElem?_eq_some_iff.1 hp
  have hset : ∀ p' : Plot F L, ∃ l₁ l₂, s.plots = l₁ ++ p :: l₂ ∧ l₁.length = i ∧ s.plots.set i p' = l₁ ++ p' :: l₂ := by
    intro p'
    obtain ⟨l₁, l₂, e1, e2, e3⟩ := List.exists_of_set (a' := p') hi
    exact ⟨l₁, l₂, by rw [← he]; exact e1, e2, e3⟩
  have hmem : p ∈ s.plots := by rw [← he]; exact List.getElem_mem hi
  unfold toggleVisibility
  simp only [hp]
  by_cases hs : p.shown = false
  · rw [if_pos hs]
    have hd := h.drawn p hmem
    have hl : p.lines = none := by
      rcases hd with ⟨-, hd⟩ | ⟨hd, -⟩
      · exact hd
      · rw [hs] at hd; simp at hd
    obtain ⟨l₁, l₂, e1, e2, e3⟩ := hset ⟨some (number s.nextLine (draw s.dashed p.data)), p.data, true, p.dict⟩
    have hc := canvas_append h.nodup h.bound (draw s.dashed p.data)
    refine ⟨rfl, ⟨?_, hc.1, hc.2, ?_⟩, ?_⟩
    · simp only [updatePlotSelector, e3]
      have := h.perm
      rw [e1] at this
      simp only [ownLines, List.flatMap_append, List.flatMap_cons, hl, Option.getD_none, List.nil_append] at this
      simp only [ownLines, List.flatMap_append, List.flatMap_cons, Option.getD_some]
      refine (this.append_right _).trans ?_
      rw [List.append_assoc]
      exact List.Perm.append_left _ List.perm_append_comm
    · intro q hq
      simp only [updatePlotSelector, e3, List.mem_append, List.mem_cons] at hq
      have hin : ∀ q, q ∈ l₁ ∨ q ∈ l₂ → q ∈ s.plots := by
        intro q hq; rw [e1]; simp; tauto
      rcases hq with hq | rfl | hq
      · exact h.drawn q (hin q (Or.inl hq))
      · exact Or.inr ⟨rfl, _, rfl, number_snd _ _⟩
      · exact h.drawn q (hin q (Or.inr hq))
    · simp only [updatePlotSelector, List.map_set, hs, Bool.not_false]
  · rw [if_neg hs]
    have hs' : p.shown = true := by simpa using hs
    obtain ⟨l₁, l₂, e1, e2, e3⟩ := hset ⟨none, p.data, false, p.dict⟩
    have hperm : s.canvas.Perm (p.lines.getD [] ++ (ownLines l₁ ++ ownLines l₂)) := by
      refine h.perm.trans ?_
      rw [e1]
      simp only [ownLines, List.flatMap_append, List.flatMap_cons]
      rw [← List.append_assoc, ← List.append_assoc]
      exact List.Perm.append_right _ List.perm_append_comm
    obtain ⟨c, f1, f2, f3⟩ := removeLines_perm hperm h.nodup
    rw [f1]
    refine ⟨rfl, ⟨?_, h.nodup.sublist (f3.map _), fun l hl => h.bound l (f3.subset hl), ?_⟩, ?_⟩
    · simp only [updatePlotSelector, e3, ownLines, List.flatMap_append, List.flatMap_cons, Option.getD_none,
        List.nil_append]
      exact f2
    · intro q hq
      simp only [updatePlotSelector, e3, List.mem_append, List.mem_cons] at hq
      have hin : ∀ q, q ∈ l₁ ∨ q ∈ l₂ → q ∈ s.plots := by
        intro q hq; rw [e1]; simp; tauto
      rcases hq with hq | rfl | hq
      · exact h.drawn q (hin q (Or.inl hq))
      · exact Or.inl ⟨rfl, rfl⟩
      · exact h.drawn q (hin q (Or.inr hq))
    · simp only [updatePlotSelector, List.map_set, hs', Bool.not_true]

theorem redraw_good (draw : Bool → List (F × F) → List L) (dashed : Bool) (n : ℕ) (ps : List (Plot F L)) :
    ownLines (redraw draw dashed n ps).1 = (redraw draw dashed n ps).2 ∧
    (redraw draw dashed n ps).2.map Prod.fst = List.range' n (redraw draw dashed n ps).2.length ∧
    (∀ p ∈ (redraw draw dashed n ps).1, Drawn draw dashed p) ∧
    ((redraw draw dashed n ps).1.map fun q => (q.data, q.shown)) = ps.map fun q => (q.data, q.shown) := by
  induction ps generalizing n with
  | nil => exact ⟨rfl, rfl, by simp [redraw], rfl⟩
  | cons p ps ih =>
    cases hs : p.shown with
    | false =>
      obtain ⟨i1, i2, i3, i4⟩ := ih n
      simp only [redraw, hs, Bool.false_eq_true, if_false, List.length_nil, Nat.add_zero, List.nil_append]
      refine ⟨?_, i2, ?_, ?_⟩
      · simp only [ownLines, List.flatMap_cons, Option.getD_none, List.nil_append]; exact i1
      · intro q hq
        rcases List.mem_cons.1 hq with rfl | hq
        · exact Or.inl ⟨rfl, rfl⟩
        · exact i3 q hq
      · simp only [List.map_cons, hs, i4]
    | true =>
      obtain ⟨i1, i2, i3, i4⟩ := ih (n + (number n (draw dashed p.data)).length)
      simp only [redraw, hs, if_true]
      refine ⟨?_, ?_, ?_, ?_⟩
      · simp only [ownLines, List.flatMap_cons, Option.getD_some]
        congr 1
      · rw [List.map_append, i2, List.length_append, number_fst, number_length, List.range'_append_1]
      · intro q hq
        rcases List.mem_cons.1 hq with rfl | hq
        · exact Or.inr ⟨rfl, _, rfl, number_snd _ _⟩
        · exact i3 q hq
      · simp only [List.map_cons, hs, i4]

theorem good_replot {draw : Bool → List (F × F) → List L} (s : State F L) : Good draw (replot draw s) := by
  obtain ⟨h1, h2, h3, -⟩ := redraw_good draw s.dashed s.nextLine s.plots
  refine ⟨?_, ?_, ?_, h3⟩
  · simp only [replot, h1]; exact List.Perm.refl _
  · simp only [replot]; rw [h2]; exact List.nodup_range'
  · intro l hl
    simp only [replot] at hl ⊢
    have : l.1 ∈ (redraw draw s.dashed s.nextLine s.plots).2.map Prod.fst := List.mem_map_of_mem hl
    rw [h2, List.mem_range'_1] at this
    exact this.2

theorem good_step {toFloat : Str → Option F} {draw : Bool → List (F × F) → List L} {s : State F L} (h : Good draw s)
    (o : Op F) : Good draw (step toFloat draw s o).1 := by
  cases o with
  | newDict d => exact good_dicts h _ _
  | provideData data b arg =>
    cases arg with
    | some a => exact good_provideData h _ _ _
    | none => exact good_provideData (good_dicts h _ _) _ _ _
  | provideDataFile file arg => exact good_file h _ _
  | provideDataDirectory files given => exact good_directory _ _ h
  | toggleVisibility i =>
    cases hp : s.plots[i]? with
    | some p => exact (toggle_good h hp).2.1
    | none =>
      have : (step toFloat draw s (.toggleVisibility i)).1 = s := by
        simp only [step, toggleVisibility, hp]
      rw [this]; exact h
  | setPlotDashedIfNegative b => exact good_replot _
  | replot => exact good_replot _
  | hideCharacteristics x => exact ⟨h.perm, h.nodup, h.bound, h.drawn⟩
  | setCharacteristicsOrder x => exact ⟨h.perm, h.nodup, h.bound, h.drawn⟩

theorem good_after (toFloat : Str → Option F) (draw : Bool → List (F × F) → List L) (h : List (Op F)) :
    Good draw (after toFloat draw init h) := by
  induction h using List.reverseRecOn with
  | nil => exact ⟨List.Perm.refl _, List.nodup_nil, by simp [after, init], by simp [after, init]⟩
  | append_singleton h o ih =>
    have hs : after toFloat draw (init : State F L) (h ++ [o]) = (step toFloat draw (after toFloat draw init h) o).1 := by
      unfold after; rw [List.foldl_append]; rfl
    rw [hs]
    exact good_step ih o

theorem lines_picture {draw : Bool → List (F × F) → List L} {dashed : Bool} (ps : List (Plot F L))
    (h : ∀ p ∈ ps, Drawn draw dashed p) :
    (ownLines ps).map Prod.snd = (ps.filter (·.shown)).flatMap fun p => draw dashed p.data := by
  induction ps with
  | nil => rfl
  | cons p ps ih =>
    have ih := ih fun q hq => h q (by simp [hq])
    have e : ownLines (p :: ps) = p.lines.getD [] ++ ownLines ps := rfl
    rw [e, List.map_append, ih]
    rcases h p (by simp) with ⟨h1, h2⟩ | ⟨h1, ls, h2, h3⟩
    · rw [h2, List.filter_cons_of_neg (by simp [h1])]
      rfl
    · rw [h2, List.filter_cons_of_pos (by simp [h1]), List.flatMap_cons, ← h3]
      rfl

/-- **C109.** After any history, the canvas shows exactly the plots that are marked as plotted, each once, in the present
style. -/
theorem C109_canvas (toFloat : Str → Option F) (draw : Bool → List (F × F) → List L) (h : List (Op F)) :
    ((after toFloat draw init h).canvas.map Prod.snd).Perm (picture draw (after toFloat draw init h)) := by
  have hg := good_after toFloat draw h
  unfold picture
  rw [← lines_picture _ hg.drawn]
  exact hg.perm.map _

/-- **C109.** After any history, a plot there is can be shown or hidden, and nothing happens to the others. -/
theorem C109_toggle (toFloat : Str → Option F) (draw : Bool → List (F × F) → List L) (h : List (Op F)) (i : ℕ)
    {p : Plot F L} (hp : (after toFloat draw init h).plots[i]? = some p) :
    (step toFloat draw (after toFloat draw init h) (.toggleVisibility i)).2 = .ok () ∧
    ((step toFloat draw (after toFloat draw init h) (.toggleVisibility i)).1.plots.map fun q => (q.data, q.shown)) =
      ((after toFloat draw init h).plots.map fun q => (q.data, q.shown)).set i (p.data, !p.shown) :=
  ⟨(toggle_good (good_after toFloat draw h) hp).1, (toggle_good (good_after toFloat draw h) hp).2.2⟩

/-! ### The columns -/

theorem foldl_addNew_mem (l acc : List Str) (c : Str) : c ∈ l.foldl addNew acc ↔ c ∈ acc ∨ c ∈ l := by
  induction l generalizing acc with
  | nil => simp
  | cons a l ih =>
    rw [List.foldl_cons, ih]
    unfold addNew
    split
    · rename_i h
      constructor
      · rintro (h' | h')
        · exact Or.inl h'
        · exact Or.inr (by simp [h'])
      · rintro (h' | h')
        · exact Or.inl h'
        · rcases List.mem_cons.1 h' with rfl | h'
          · exact Or.inl h
          · exact Or.inr h'
    · simp; tauto

theorem foldl_addNew_nodup (l acc : List Str) (h : acc.Nodup) : (l.foldl addNew acc).Nodup := by
  induction l generalizing acc with
  | nil => exact h
  | cons a l ih =>
    refine ih _ ?_
    unfold addNew
    split
    · exact h
    · rename_i hn
      exact List.nodup_append.2 ⟨h, by simp, by rintro x hx y hy rfl; simp at hy; subst hy; exact hn hx⟩

theorem foldl_addNew_prefix (l acc : List Str) : ∃ rest, l.foldl addNew acc = acc ++ rest ∧ ∀ c ∈ rest, c ∉ acc := by
  induction l generalizing acc with
  | nil => exact ⟨[], by simp, by simp⟩
  | cons a l ih =>
    obtain ⟨r, h1, h2⟩ := ih (addNew acc a)
    rw [List.foldl_cons, h1]
    unfold addNew at h2 ⊢
    split at h2
    · rename_i h
      rw [if_pos h]
      exact ⟨r, rfl, h2⟩
    · rename_i h
      rw [if_neg h]
      refine ⟨a :: r, by simp, fun c hc => ?_⟩
      rcases List.mem_cons.1 hc with rfl | hc
      · exact h
      · intro hc'
        exact h2 c hc (by simp [hc'])

theorem order_fold (P : Str → Prop) [DecidablePred P] (l acc : List Str) (hl : l.Nodup) (hd : ∀ c ∈ l, c ∉ acc) :
    l.foldl (fun l c => if P c then addNew l c else l) acc = acc ++ l.filter P := by
  induction l generalizing acc with
  | nil => simp
  | cons a l ih =>
    obtain ⟨h1, h2⟩ := List.nodup_cons.1 hl
    rw [List.foldl_cons]
    by_cases h : P a
    · rw [if_pos h, List.filter_cons_of_pos (by simpa using h)]
      have : addNew acc a = acc ++ [a] := by unfold addNew; rw [if_neg (hd a (by simp))]
      rw [this, ih _ h2]
      · simp
      · intro c hc
        have := hd c (by simp [hc])
        simp only [List.mem_append, List.mem_singleton, not_or]
        exact ⟨this, by rintro rfl; exact h1 hc⟩
    · rw [if_neg h, List.filter_cons_of_neg (by simpa using h), ih _ h2 fun c hc => hd c (by simp [hc])]

/-- **C109.** The characteristics listed are "Plotted" and those any plot has, each once; those in the order set come first,
in that order. -/
theorem C109_list (s : State F L) (initial : List Str) (ho : s.order.Nodup) :
    (getListOfPlotCharacteristics s initial).Nodup ∧
    (∀ c, c ∈ getListOfPlotCharacteristics s initial ↔
      c ∈ initial ∨ ∃ p ∈ s.plots, ∃ v, (c, v) ∈ s.dicts p.dict) ∧
    ∃ rest, getListOfPlotCharacteristics s initial =
      s.order.filter (fun c => c ∈ getListOfPlotCharacteristics s initial) ++ rest ∧ ∀ c ∈ rest, c ∉ s.order := by
  have hused : ∀ c, c ∈ s.used ↔ ∃ p ∈ s.plots, ∃ v, (c, v) ∈ s.dicts p.dict := by
    intro c
    simp [State.used]
  have hfold := order_fold (fun c => c ∈ initial ∨ c ∈ s.used) s.order [] ho (by simp)
  rw [List.nil_append] at hfold
  have hmem : ∀ c, c ∈ getListOfPlotCharacteristics s initial ↔ c ∈ initial ∨ c ∈ s.used := by
    intro c
    unfold getListOfPlotCharacteristics
    rw [hfold, foldl_addNew_mem, foldl_addNew_mem]
    simp only [List.mem_filter, decide_eq_true_eq]
    tauto
  refine ⟨?_, fun c => by rw [hmem, hused], ?_⟩
  · unfold getListOfPlotCharacteristics
    rw [hfold]
    exact foldl_addNew_nodup _ _ (foldl_addNew_nodup _ _ (ho.filter _))
  · simp only [hmem]
    obtain ⟨r1, e1, d1⟩ := foldl_addNew_prefix initial (s.order.filter fun c => c ∈ initial ∨ c ∈ s.used)
    obtain ⟨r2, e2, d2⟩ := foldl_addNew_prefix s.used (initial.foldl addNew
      (s.order.filter fun c => c ∈ initial ∨ c ∈ s.used))
    have e : getListOfPlotCharacteristics s initial =
        s.order.filter (fun c => c ∈ initial ∨ c ∈ s.used) ++ (r1 ++ r2) := by
      unfold getListOfPlotCharacteristics
      rw [hfold, e2, e1, List.append_assoc]
    refine ⟨r1 ++ r2, e, fun c hc hco => ?_⟩
    have hin : c ∈ initial ∨ c ∈ s.used := by
      rw [← hmem, e]
      exact List.mem_append_right _ hc
    have hfil : c ∈ s.order.filter fun c => c ∈ initial ∨ c ∈ s.used := by simp [hco, hin]
    rcases List.mem_append.1 hc with hc | hc
    · exact d1 c hc hfil
    · apply d2 c hc
      rw [e1]
      exact List.mem_append_left _ hfil

/-- **C109** fails for the order: after it has been set, the columns displayed are not in that order (until something else is
done). -/
theorem C109_order_violated (toFloat : Str → Option F) (draw : Bool → List (F × F) → List L) (v : Value F)
    (data : List (F × F)) : ∃ h : List (Op F), (after toFloat draw (init : State F L) h).order = [['b'], ['a']] ∧
      (after toFloat draw (init : State F L) h).hidden = [] ∧
      (after toFloat draw (init : State F L) h).columns = [plottedName, ['a'], ['b']] ∧
      getListOfPlotCharacteristics (after toFloat draw (init : State F L) h) [plottedName] =
        [['b'], ['a'], plottedName] := by
  refine ⟨[.newDict [(['a'], v), (['b'], v)], .provideData data false (some 1),
    .setCharacteristicsOrder [['b'], ['a']]], rfl, rfl, ?_, ?_⟩
  · rfl
  · rfl

/-! ## Examples -/

/-- Natural numbers as numbers. -/
def sampleFloat (s : Str) : Option ℕ :=
  if strip s ≠ [] ∧ (strip s).all Char.isDigit then some (Runs.digitsValue (strip s)) else none

/-- Two files with different values of the same characteristic. -/
def sampleFile (v : String) : List Str := ["#T = ".toList ++ v.toList ++ ['\n'], "1 2\n".toList]

example : (match parseLine sampleFloat ("#T = 12\n".toList) with
    | .ok (.comment n (.number x)) => some (n, x)
    | _ => none) = some ("T".toList, 12) := by decide +kernel

/-- The hypotheses of `C109_default_violated` can be met. -/
example : WellFormed sampleFloat (sampleFile "1") ∧ WellFormed sampleFloat (sampleFile "2") ∧
    (firstComment sampleFloat (sampleFile "1") "T".toList).isSome := by
  have key : ∀ f : List Str, (f.all fun l => match parseLine sampleFloat l with
      | .ok _ => true
      | .error _ => false) = true → WellFormed sampleFloat f := by
    intro f hf l hl
    have := List.all_eq_true.1 hf l hl
    cases h : parseLine sampleFloat l with
    | ok r => exact ⟨r, rfl⟩
    | error e => simp [h] at this
  exact ⟨key _ (by decide +kernel), key _ (by decide +kernel), by decide +kernel⟩

/-- The hypotheses of `C109_failed_violated` can be met. -/
example : (∃ n v, parseLine sampleFloat ("#T = 1\n".toList) = .ok (.comment n v)) ∧
    parseLine sampleFloat ("#T = 1 = 2\n".toList) = .error .exception := by
  refine ⟨?_, ?_⟩
  · have : (match parseLine sampleFloat ("#T = 1\n".toList) with
        | .ok (.comment n v) => true
        | _ => false) = true := by decide +kernel
    cases h : parseLine sampleFloat ("#T = 1\n".toList) with
    | error e => rw [h] at this; simp at this
    | ok r =>
      cases r with
      | comment n v => exact ⟨n, v, rfl⟩
      | point x y => rw [h] at this; simp at this
  · have : (match parseLine sampleFloat ("#T = 1 = 2\n".toList) with
        | .error .exception => true
        | _ => false) = true := by decide +kernel
    cases h : parseLine sampleFloat ("#T = 1 = 2\n".toList) with
    | ok r => rw [h] at this; simp at this
    | error e => cases e <;> rw [h] at this <;> simp_all

/-- The hypotheses of `C109_line` and `C109_comment` can be met. -/
example : Snapshot.Token "12".toList ∧ (∀ u ∈ ["7".toList, "x".toList], Snapshot.Token u) ∧
    "12".toList.head? ≠ some '#' ∧ '=' ∉ "T".toList ∧ (∀ c ∈ "T".toList.head?, isSpace c = false) ∧
    (∀ c ∈ "T".toList.getLast?, isSpace c = false) := by
  unfold Snapshot.Token
  decide +kernel

/-- A plot is shown, hidden and shown again, with another one beside it. -/
example : ((after sampleFloat (fun _ d => d) init
    [.provideData [(1, 2)] true none, .provideData [(3, 4), (5, 6)] true none, .toggleVisibility 0,
      .setPlotDashedIfNegative true, .toggleVisibility 0]).canvas : List (ℕ × ℕ × ℕ)).map Prod.snd =
    [(3, 4), (5, 6), (1, 2)] := by decide +kernel

end OpenMPCD.Interactive
