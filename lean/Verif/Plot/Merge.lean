import Verif.Common
import Mathlib.Data.List.Basic
import Mathlib.Data.List.Nodup
import Mathlib.Data.List.Infix
import Mathlib.Data.List.Dedup
import Mathlib.Tactic.Common

/-!
# Merged plots (C147)

`Analysis/MPCDAnalysis/MatplotlibTools/mergeAxes.py`, and the plots of star polymer quantities, which it is for. What is modelled is
what the axes contain, not the drawing.
-/

set_option linter.unusedSectionVars false
set_option linter.unusedSimpArgs false
set_option linter.unusedVariables false

namespace OpenMPCD.Merge

abbrev Str := List Char

variable {F : Type}

/-! ## Model -/

/-- The data of a line. -/
structure Line (F : Type) where
  xs : List F
  ys : List F

/-- Axes: the lines, the legend, if there is one, with the position of the line each text belongs to, and the texts around. -/
structure Axes (F : Type) where
  lines : List (Line F) := []
  legend : Option (List (ℕ × Str)) := none
  title : Str := []
  xLabel : Str := []
  yLabel : Str := []

/-- `axes.legend(lines, labels)` of the plotting library, for the lines of the axes: texts are assigned in order, as far as there are both
lines and texts. -/
def Axes.setLegend (a : Axes F) (labels : List Str) : Axes F :=
  { a with legend := some ((List.range a.lines.length).zip labels) }

/-- `getMPLAxesForValueAsFunctionOfTime`, given the curves (see C132) and texts
(`Analysis/MPCDAnalysis/StarPolymersAnalysis/Asphericity.py:30-45`,
`Analysis/MPCDAnalysis/StarPolymersAnalysis/EckartAngularVelocityVector.py:30-59`, likewise for the other quantities): each line is
followed by its label. -/
def plot (curves : List (Line F × Str)) (title xLabel yLabel : Str) : Axes F :=
  { (({ lines := curves.map Prod.fst } : Axes F).setLegend (curves.map Prod.snd)) with
    title := title, xLabel := xLabel, yLabel := yLabel }

/-- The curve of a scalar quantity: `axes.plot(data.keys(), data.values())`, and its label
(`Analysis/MPCDAnalysis/StarPolymersAnalysis/Asphericity.py:33-36`,
`Analysis/MPCDAnalysis/StarPolymersAnalysis/MagneticClusterCount.py:32-35`, likewise for the other quantities). `data` has pairs of time
and value. -/
def scalarCurves (label : Str) (data : List (F × F)) : List (Line F × Str) :=
  [(⟨data.map Prod.fst, data.map Prod.snd⟩, label)]

/-- The loops that fill `frequencies` (`Analysis/MPCDAnalysis/StarPolymersAnalysis/EckartAngularVelocityVector.py:33-37`). -/
def components : List (F × F × F × F) → List F × List F × List F → List F × List F × List F
  | [], fs => fs
  | (_, v) :: rest, fs => components rest (fs.1 ++ [v.1], fs.2.1 ++ [v.2.1], fs.2.2 ++ [v.2.2])

/-- The curves of a vector (`Analysis/MPCDAnalysis/StarPolymersAnalysis/EckartAngularVelocityVector.py:33-49`). `data` has pairs of time
and vector. -/
def vectorCurves (label : Str × Str × Str) (data : List (F × F × F × F)) : List (Line F × Str) :=
  let frequencies := components data ([], [], [])
  [(⟨data.map Prod.fst, frequencies.1⟩, label.1), (⟨data.map Prod.fst, frequencies.2.1⟩, label.2.1),
    (⟨data.map Prod.fst, frequencies.2.2⟩, label.2.2)]

/-- The variables of the loop: `retLines` (with `retAxes`), `titles`, `xLabels`, `yLabels`, `legendLabels`. -/
structure Vars (F : Type) where
  lines : List (Line F)
  titles : List Str
  xLabels : List Str
  yLabels : List Str
  labels : List Str

/-- The loop (`Analysis/MPCDAnalysis/MatplotlibTools/mergeAxes.py:26-36`); `get_legend` returns `None` if there is no legend. -/
def loop : List (Axes F) → Vars F → Except PyErr (Vars F)
  | [], v => .ok v
  | a :: rest, v =>
    match a.legend with
    | none => .error .attributeError
    | some entries => loop rest ⟨v.lines ++ a.lines, v.titles ++ [a.title], v.xLabels ++ [a.xLabel], v.yLabels ++ [a.yLabel],
        v.labels ++ entries.map Prod.snd⟩

/-- The loop in `labelSetter` (`Analysis/MPCDAnalysis/MatplotlibTools/mergeAxes.py:52-57`). -/
def joinLoop : Option Str → List Str → Option Str
  | label, [] => label
  | none, l :: rest => joinLoop (some l) rest
  | some label, l :: rest => joinLoop (some (label ++ ([' ', '|', ' '] ++ l))) rest

/-- `labelSetter` (`Analysis/MPCDAnalysis/MatplotlibTools/mergeAxes.py:44-58`): the text that is set, `none` if none is. -/
def labelSetter : List Str → Option Str
  | [] => none
  | [l] => some l
  | ls => joinLoop none ls

/-- `mergeAxes` (`Analysis/MPCDAnalysis/MatplotlibTools/mergeAxes.py:19-64`). `order` is `list(set(…))`. The checks of the types are
not represented. -/
def mergeAxes (order : List Str → List Str) (axesList : List (Axes F)) : Except PyErr (Axes F) :=
  match loop axesList ⟨[], [], [], [], []⟩ with
  | .error e => .error e
  | .ok v =>
    let ret := ({ lines := v.lines } : Axes F).setLegend v.labels
    .ok { ret with
      title := (labelSetter (order v.titles)).getD ret.title
      xLabel := (labelSetter (order v.xLabels)).getD ret.xLabel
      yLabel := (labelSetter (order v.yLabels)).getD ret.yLabel }

/-! ## Specification -/

/-- What iterating over a set may give: each element once, in any order. -/
def SetOrder (order : List Str → List Str) : Prop := ∀ l, (order l).Nodup ∧ ∀ x, x ∈ order l ↔ x ∈ l

/-- The text the legend gives for a line. -/
def labelOf (a : Axes F) (i : ℕ) : Option Str := a.legend.bind fun es => (es.find? fun e => e.1 = i).map Prod.snd

/-- What is to be seen: every line, with its text in the legend. -/
def seen (a : Axes F) : List (Line F × Option Str) := a.lines.zipIdx.map fun p => (p.1, labelOf a p.2)

/-- The points drawn for a line. -/
def Line.points (l : Line F) : List (F × F) := l.xs.zip l.ys

/-- The legend has a text for each of the lines, in their order. -/
def Complete (a : Axes F) : Prop := ∃ labels : List Str, labels.length = a.lines.length ∧
  a.legend = some ((List.range a.lines.length).zip labels)

/-! ## Proofs -/

theorem find_zip (n : ℕ) (labels : List Str) (i : ℕ) (hi : i < n) (k : ℕ) :
    (((List.range' k n).zip labels).find? fun e => e.1 = k + i).map Prod.snd = labels[i]? := by
  induction n generalizing k i labels with
  | zero => omega
  | succ n ih =>
    rw [List.range'_succ]
    cases labels with
    | nil => simp
    | cons l labels =>
      rw [List.zip_cons_cons]
      cases i with
      | zero => simp
      | succ i =>
        rw [List.find?_cons_of_neg (by simp)]
        have := ih labels i (by omega) (k + 1)
        rw [show k + 1 + i = k + (i + 1) by omega] at this
        rw [this]
        simp

theorem labelOf_legend {a : Axes F} {labels : List Str} (h : a.legend = some ((List.range a.lines.length).zip labels)) {i : ℕ}
    (hi : i < a.lines.length) : labelOf a i = labels[i]? := by
  unfold labelOf
  rw [h, Option.bind_some, List.range_eq_range']
  have := find_zip a.lines.length labels i hi 0
  simpa using this

theorem seen_legend {a : Axes F} {labels : List Str} (h : a.legend = some ((List.range a.lines.length).zip labels)) :
    seen a = a.lines.zipIdx.map fun p => (p.1, labels[p.2]?) := by
  unfold seen
  apply List.map_congr_left
  intro p hp
  have := (List.mem_zipIdx hp).2.1
  rw [labelOf_legend h (by omega)]

theorem zipIdx_labels (lines : List (Line F)) (labels before : List Str) (hl : labels.length = lines.length) :
    (lines.zipIdx before.length).map (fun p => (p.1, (before ++ labels)[p.2]?)) = (lines.zip labels).map fun p => (p.1, some p.2) := by
  induction lines generalizing labels before with
  | nil => simp
  | cons l lines ih =>
    cases labels with
    | nil => simp at hl
    | cons t labels =>
      have := ih labels (before ++ [t]) (by simpa using hl)
      simp only [List.length_append, List.length_cons, List.length_nil, List.append_assoc, List.cons_append, List.nil_append,
        Nat.zero_add] at this
      rw [List.zipIdx_cons, List.map_cons, this]
      simp

theorem seen_complete {a : Axes F} {labels : List Str} (hl : labels.length = a.lines.length)
    (h : a.legend = some ((List.range a.lines.length).zip labels)) :
    seen a = (a.lines.zip labels).map fun p => (p.1, some p.2) := by
  rw [seen_legend h]
  have := zipIdx_labels a.lines labels [] hl
  simpa using this

/-- **C147** (plots of quantities): the plot has every curve, with its own label. -/
theorem C147_plot (curves : List (Line F × Str)) (title xLabel yLabel : Str) :
    Complete (plot curves title xLabel yLabel) ∧
    seen (plot curves title xLabel yLabel) = curves.map fun c => (c.1, some c.2) := by
  have hl : (curves.map Prod.snd).length = (plot curves title xLabel yLabel).lines.length := by
    simp [plot, Axes.setLegend]
  have h : (plot curves title xLabel yLabel).legend =
      some ((List.range (plot curves title xLabel yLabel).lines.length).zip (curves.map Prod.snd)) := by
    simp [plot, Axes.setLegend]
  refine ⟨⟨_, hl, h⟩, ?_⟩
  rw [seen_complete hl h]
  have : (plot curves title xLabel yLabel).lines = curves.map Prod.fst := rfl
  rw [this]
  clear hl h this
  induction curves with
  | nil => rfl
  | cons c curves ih => rw [List.map_cons, List.map_cons, List.zip_cons_cons, List.map_cons, ih, List.map_cons]

theorem zip_unzip {α β : Type} (l : List (α × β)) : (l.map Prod.fst).zip (l.map Prod.snd) = l := by
  induction l with
  | nil => rfl
  | cons a l ih => simp [ih]

theorem components_eq (data : List (F × F × F × F)) (fs : List F × List F × List F) :
    components data fs = (fs.1 ++ data.map (·.2.1), fs.2.1 ++ data.map (·.2.2.1), fs.2.2 ++ data.map (·.2.2.2)) := by
  induction data generalizing fs with
  | nil => simp [components]
  | cons d data ih =>
    obtain ⟨t, v⟩ := d
    rw [components, ih]
    simp

theorem zip_maps {α β γ : Type} (f : α → β) (g : α → γ) (l : List α) : (l.map f).zip (l.map g) = l.map fun a => (f a, g a) := by
  induction l with
  | nil => rfl
  | cons a l ih => simp [ih]

/-- **C147** (scalar quantities): one line, with the label, through the values at their times. -/
theorem C147_scalar (label : Str) (data : List (F × F)) (title xLabel yLabel : Str) :
    (seen (plot (scalarCurves label data) title xLabel yLabel)).map (fun s => (s.1.points, s.2)) = [(data, some label)] ∧
    (plot (scalarCurves label data) title xLabel yLabel).title = title ∧
    (plot (scalarCurves label data) title xLabel yLabel).xLabel = xLabel ∧
    (plot (scalarCurves label data) title xLabel yLabel).yLabel = yLabel := by
  refine ⟨?_, rfl, rfl, rfl⟩
  rw [(C147_plot _ _ _ _).2]
  simp [scalarCurves, Line.points, zip_unzip]

/-- **C147** (vectors): three lines, with their labels, through the components at their times. -/
theorem C147_vector (label : Str × Str × Str) (data : List (F × F × F × F)) (title xLabel yLabel : Str) :
    (seen (plot (vectorCurves label data) title xLabel yLabel)).map (fun s => (s.1.points, s.2)) =
      [(data.map fun d => (d.1, d.2.1), some label.1), (data.map fun d => (d.1, d.2.2.1), some label.2.1),
        (data.map fun d => (d.1, d.2.2.2), some label.2.2)] := by
  rw [(C147_plot _ _ _ _).2]
  simp [vectorCurves, Line.points, components_eq, zip_maps]

theorem loop_ok (l : List (Axes F)) (h : ∀ a ∈ l, a.legend.isSome) (v : Vars F) :
    loop l v = .ok ⟨v.lines ++ l.flatMap (·.lines), v.titles ++ l.map (·.title), v.xLabels ++ l.map (·.xLabel),
      v.yLabels ++ l.map (·.yLabel), v.labels ++ l.flatMap fun a => (a.legend.getD []).map Prod.snd⟩ := by
  induction l generalizing v with
  | nil => simp [loop]
  | cons a l ih =>
    obtain ⟨es, he⟩ := Option.isSome_iff_exists.1 (h a (by simp))
    rw [loop, he]
    simp only
    rw [ih fun b hb => h b (by simp [hb])]
    simp [he]

theorem loop_error (l : List (Axes F)) (h : ∃ a ∈ l, a.legend = none) (v : Vars F) : loop l v = .error .attributeError := by
  induction l generalizing v with
  | nil => simp at h
  | cons a l ih =>
    rw [loop]
    cases ha : a.legend with
    | none => rfl
    | some es =>
      apply ih
      obtain ⟨b, hb, hn⟩ := h
      rcases List.mem_cons.1 hb with rfl | hb
      · rw [ha] at hn; cases hn
      · exact ⟨b, hb, hn⟩

theorem zip_map_snd {n : ℕ} {labels : List Str} (h : labels.length = n) : ((List.range n).zip labels).map Prod.snd = labels := by
  rw [List.map_snd_zip]
  simp [h]

theorem flat_complete (l : List (Axes F)) (h : ∀ a ∈ l, Complete a) :
    (l.flatMap fun a => (a.legend.getD []).map Prod.snd).length = (l.flatMap (·.lines)).length ∧
    ((l.flatMap (·.lines)).zip (l.flatMap fun a => (a.legend.getD []).map Prod.snd)).map (fun p => (p.1, some p.2)) =
      l.flatMap seen := by
  induction l with
  | nil => simp
  | cons a l ih =>
    obtain ⟨labels, hl, he⟩ := h a (by simp)
    obtain ⟨i1, i2⟩ := ih fun b hb => h b (by simp [hb])
    have e : (a.legend.getD []).map Prod.snd = labels := by rw [he, Option.getD_some, zip_map_snd hl]
    simp only [List.flatMap_cons, e]
    refine ⟨by simp [i1, hl], ?_⟩
    rw [List.zip_append hl.symm, List.map_append, i2, seen_complete hl he]

/-- **C147** (merging): if the legends of the axes have a text for each of their lines, in order, merging them gives axes with all lines,
each with its own text, in the order of the axes; and these can be merged again. -/
theorem C147_merge_partial (order : List Str → List Str) {l : List (Axes F)} (h : ∀ a ∈ l, Complete a) :
    ∃ m, mergeAxes order l = .ok m ∧ Complete m ∧ seen m = l.flatMap seen := by
  have hs : ∀ a ∈ l, a.legend.isSome := fun a ha => by
    obtain ⟨labels, -, he⟩ := h a ha
    rw [he]; rfl
  obtain ⟨h1, h2⟩ := flat_complete l h
  have hm : ∃ m, mergeAxes order l = .ok m ∧ m.lines = l.flatMap (·.lines) ∧
      m.legend = some ((List.range m.lines.length).zip (l.flatMap fun a => (a.legend.getD []).map Prod.snd)) := by
    unfold mergeAxes
    rw [loop_ok l hs]
    simp only [List.nil_append]
    exact ⟨_, rfl, rfl, rfl⟩
  obtain ⟨m, e1, e2, e3⟩ := hm
  have hl : (l.flatMap fun a => (a.legend.getD []).map Prod.snd).length = m.lines.length := by rw [h1, e2]
  refine ⟨m, e1, ⟨_, hl, e3⟩, ?_⟩
  rw [seen_complete hl e3, e2, h2]

/-- **C147** does not hold if there are axes without legend: this raises `AttributeError`. -/
theorem C147_no_legend_violated (order : List Str → List Str) {l : List (Axes F)} (h : ∃ a ∈ l, a.legend = none) :
    mergeAxes order l = .error .attributeError := by
  unfold mergeAxes
  rw [loop_error l h]

/-- **C147** does not hold if a line has no text in the legend, as is usual for auxiliary lines: it then gets the text of a line of
the next axes, and so on, and the last line gets none. -/
theorem C147_unlabelled_violated (order : List Str → List Str) (p q r : Line F) (s t : Str) :
    ∃ a b m : Axes F, seen a = [(p, some s), (q, none)] ∧ seen b = [(r, some t)] ∧ mergeAxes order [a, b] = .ok m ∧
      seen m = [(p, some s), (q, some t), (r, none)] := by
  refine ⟨({ lines := [p, q] } : Axes F).setLegend [s], ({ lines := [r] } : Axes F).setLegend [t], _, rfl, rfl, rfl, ?_⟩
  rfl

theorem joinLoop_some (label : Str) (ls : List Str) :
    joinLoop (some label) ls = some (label ++ ls.flatMap fun l => [' ', '|', ' '] ++ l) := by
  induction ls generalizing label with
  | nil => simp [joinLoop]
  | cons l ls ih => rw [joinLoop, ih]; simp

theorem labelSetter_eq (ls : List Str) (h : ls ≠ []) : labelSetter ls = some ([' ', '|', ' '].intercalate ls) := by
  obtain ⟨l, ls, rfl⟩ := List.exists_cons_of_ne_nil h
  have e : ∀ (l : Str) (ls : List Str), l ++ (ls.flatMap fun l => [' ', '|', ' '] ++ l) = [' ', '|', ' '].intercalate (l :: ls) := by
    intro l ls
    induction ls generalizing l with
    | nil => simp [List.intercalate]
    | cons k ls ih =>
      rw [List.flatMap_cons, List.append_assoc, ih k]
      simp [List.intercalate, List.intersperse]
  cases ls with
  | nil => simp [labelSetter, List.intercalate]
  | cons k ls =>
    rw [labelSetter, joinLoop, joinLoop_some, e]
    all_goals simp

theorem merge_texts (order : List Str → List Str) {l : List (Axes F)} {m : Axes F} (hm : mergeAxes order l = .ok m) :
    m.title = (labelSetter (order (l.map (·.title)))).getD [] ∧ m.xLabel = (labelSetter (order (l.map (·.xLabel)))).getD [] ∧
    m.yLabel = (labelSetter (order (l.map (·.yLabel)))).getD [] := by
  by_cases h : ∃ a ∈ l, a.legend = none
  · rw [C147_no_legend_violated order h] at hm
    cases hm
  · have hs : ∀ a ∈ l, a.legend.isSome := by
      intro a ha
      rw [Option.isSome_iff_ne_none]
      exact fun hn => h ⟨a, ha, hn⟩
    unfold mergeAxes at hm
    rw [loop_ok l hs] at hm
    simp only [List.nil_append, Except.ok.injEq] at hm
    subst hm
    exact ⟨rfl, rfl, rfl⟩

theorem text_spec {order : List Str → List Str} (ho : SetOrder order) (l : List Str) :
    ∃ u : List Str, u.Nodup ∧ (∀ x, x ∈ u ↔ x ∈ l) ∧ (labelSetter (order l)).getD [] = [' ', '|', ' '].intercalate u := by
  refine ⟨order l, (ho l).1, (ho l).2, ?_⟩
  by_cases h : order l = []
  · rw [h]; rfl
  · rw [labelSetter_eq _ h]; rfl

/-- **C147** (texts): title and labels of the merged axes consist of those of the given axes, each once. -/
theorem C147_texts {order : List Str → List Str} (ho : SetOrder order) {l : List (Axes F)} {m : Axes F}
    (hm : mergeAxes order l = .ok m) :
    (∃ u : List Str, u.Nodup ∧ (∀ x, x ∈ u ↔ ∃ a ∈ l, a.title = x) ∧ m.title = [' ', '|', ' '].intercalate u) ∧
    (∃ u : List Str, u.Nodup ∧ (∀ x, x ∈ u ↔ ∃ a ∈ l, a.xLabel = x) ∧ m.xLabel = [' ', '|', ' '].intercalate u) ∧
    (∃ u : List Str, u.Nodup ∧ (∀ x, x ∈ u ↔ ∃ a ∈ l, a.yLabel = x) ∧ m.yLabel = [' ', '|', ' '].intercalate u) := by
  obtain ⟨h1, h2, h3⟩ := merge_texts order hm
  rw [h1, h2, h3]
  have := text_spec ho (l.map (·.title))
  have := text_spec ho (l.map (·.xLabel))
  have := text_spec ho (l.map (·.yLabel))
  simp only [List.mem_map] at *
  exact ⟨by assumption, by assumption, by assumption⟩

/-- **C147** (texts): a text common to all of the axes is taken over. -/
theorem C147_common {order : List Str → List Str} (ho : SetOrder order) {l : List (Axes F)} (hl : l ≠ []) {m : Axes F}
    (hm : mergeAxes order l = .ok m) (t : Str) :
    ((∀ a ∈ l, a.title = t) → m.title = t) ∧ ((∀ a ∈ l, a.xLabel = t) → m.xLabel = t) ∧ ((∀ a ∈ l, a.yLabel = t) → m.yLabel = t) := by
  have key : ∀ (f : Axes F → Str) (x : Str), (∃ u : List Str, u.Nodup ∧ (∀ y, y ∈ u ↔ ∃ a ∈ l, f a = y) ∧ x = [' ', '|', ' '].intercalate u) →
      (∀ a ∈ l, f a = t) → x = t := by
    rintro f x ⟨u, hu, hmem, rfl⟩ hf
    obtain ⟨a, ha⟩ := List.exists_mem_of_ne_nil l hl
    have h1 : t ∈ u := (hmem t).2 ⟨a, ha, hf a ha⟩
    have h2 : ∀ y ∈ u, y = t := by
      intro y hy
      obtain ⟨b, hb, rfl⟩ := (hmem y).1 hy
      exact hf b hb
    have h3 : u = [t] := by
      match u, hu, h1, h2 with
      | [y], _, _, h2 => rw [h2 y (by simp)]
      | y :: z :: r, hu, _, h2 =>
        exfalso
        have e1 := h2 y (by simp)
        have e2 := h2 z (by simp)
        rw [e1, e2] at hu
        simp at hu
    rw [h3]
    simp [List.intercalate]
  obtain ⟨h1, h2, h3⟩ := C147_texts ho hm
  exact ⟨key _ _ h1, key _ _ h2, key _ _ h3⟩

/-- **C147** does not hold in that the title does not depend on the axes only: Python may iterate over a set of two titles in any order,
and does so in different ways each time it is started. -/
theorem C147_order_violated : ∃ (o₁ o₂ : List Str → List Str) (l : List (Axes F)) (m₁ m₂ : Axes F), SetOrder o₁ ∧ SetOrder o₂ ∧
    (∀ a ∈ l, Complete a) ∧ mergeAxes o₁ l = .ok m₁ ∧ mergeAxes o₂ l = .ok m₂ ∧ m₁.title ≠ m₂.title := by
  refine ⟨fun l => l.dedup, fun l => l.dedup.reverse, [plot [] ['a'] [] [], plot [] ['b'] [] []], _, _, ?_, ?_, ?_, rfl, rfl, ?_⟩
  · exact fun l => ⟨List.nodup_dedup l, fun x => List.mem_dedup⟩
  · exact fun l => ⟨List.nodup_reverse.2 (List.nodup_dedup l), fun x => by rw [List.mem_reverse, List.mem_dedup]⟩
  · intro a ha
    simp only [List.mem_cons, List.not_mem_nil, or_false] at ha
    rcases ha with rfl | rfl <;> exact (C147_plot _ _ _ _).1
  · show "a | b".toList ≠ "b | a".toList
    decide

/-! ## Examples -/

example : SetOrder fun l => l.dedup := fun l => ⟨List.nodup_dedup l, fun x => List.mem_dedup⟩

example : ∃ m : Axes ℕ, mergeAxes (fun l => l.dedup)
    [plot [(⟨[0, 1], [5, 6]⟩, ['s'])] ['A'] ['t'] ['y'], plot [(⟨[0], [7]⟩, ['u']), (⟨[1], [8]⟩, ['v'])] ['B'] ['t'] ['z']] = .ok m ∧
    m.lines.length = 3 ∧ m.title = "A | B".toList ∧ m.xLabel = ['t'] ∧ m.yLabel = "y | z".toList :=
  ⟨_, rfl, rfl, by decide, by decide, by decide⟩

end OpenMPCD.Merge
