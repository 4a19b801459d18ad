import Verif.Profile.Measure
import Verif.Analysis.Text
import Verif.Cache.Props
import Mathlib.Algebra.Order.Archimedean.Real.Basic
import Mathlib.Algebra.BigOperators.Field

/-!
# The density profile from the measurement to the plot (C108)

`saveToFile` of the simulation, and `DensityProfile.py` of the analysis. Numbers are exact reals, except that those in the
file are rounded. Sizes do not exceed the range of `unsigned int`, and there has been a measurement (otherwise, the file has
the results of `0.0 / 0` in it).
-/

set_option linter.unusedSectionVars false
set_option linter.unusedSimpArgs false

namespace OpenMPCD.Profile

open Runs (Str natStr digitsValue digitsValue_natStr natStr_digits natStr_ne_nil)
open Snapshot (Io Token isSpace)
open Analysis (tabLine pyLines Rounds pyLines_tabLine pyInt pyInt_natStr)
open Cache (dictSet dictSet_new)

/-! ## Model -/

/-- The line for a point (`src/OpenMPCD/DensityProfile.cpp:63-65`). -/
noncomputable def densityLine (io : Io ℝ) (s : Point) (d : DensityProfile ℝ) (p : Point) : Str :=
  tabLine (io.fmt ((p.1 : ℝ) / s.1)) [io.fmt ((p.2.1 : ℝ) / s.2.1), io.fmt ((p.2.2 : ℝ) / s.2.2), io.fmt (d.output p)]

/-- The order of the points in the file (`src/OpenMPCD/DensityProfile.cpp:55-62`). -/
def filePoints (shape : Point) : List Point :=
  (List.range shape.1).flatMap fun x => (List.range shape.2.1).flatMap fun y => (List.range shape.2.2).map fun z => (x, y, z)

/-- `saveToFile` (`src/OpenMPCD/DensityProfile.cpp:47-69`): the text written. -/
noncomputable def densityText (io : Io ℝ) (s : Point) (d : DensityProfile ℝ) : Str :=
  (filePoints d.shape).flatMap (densityLine io s d)

/-- `line.split("\t")`. -/
def splitTab : Str → List Str
  | [] => [[]]
  | c :: cs =>
    if c = '\t' then [] :: splitTab cs
    else match splitTab cs with
      | [] => [[c]]
      | p :: ps => (c :: p) :: ps

/-- `d[k]`; `none`: there is no such key. -/
noncomputable def dictGet {V : Type} : List (ℝ × V) → ℝ → Option V
  | [], _ => none
  | (k', v) :: rest, k => if k' = k then some v else dictGet rest k

/-- `self.points`: dictionaries by x, by y, and by z. -/
abbrev Points := List (ℝ × List (ℝ × List (ℝ × ℝ)))

/-- `setPoint` (`Analysis/MPCDAnalysis/DensityProfile.py:46-53`). -/
noncomputable def setPoint (points : Points) (x y z density : ℝ) : Points :=
  dictSet points x (dictSet ((dictGet points x).getD []) y
    (dictSet ((dictGet ((dictGet points x).getD []) y).getD []) z density))

/-- `parseDataLine` (`Analysis/MPCDAnalysis/DensityProfile.py:39-44`). The line end, which `float` discards, has been taken
off. -/
noncomputable def parseDataLine (io : Io ℝ) (points : Points) (line : Str) : Except PyErr Points :=
  match splitTab line with
  | a :: b :: c :: rest =>
    match io.parse a, io.parse b, io.parse c with
    | some x, some y, some z =>
      match rest with
      | [] => .error .indexError
      | d :: _ =>
        match io.parse d with
        | some density => .ok (setPoint points x y z density)
        | none => .error .valueError
    | _, _, _ => .error .valueError
  | _ => .error .valueError

/-- The loop over the lines in the constructor (`Analysis/MPCDAnalysis/DensityProfile.py:10-12`). -/
noncomputable def parseDataLines (io : Io ℝ) : List Str → Points → Except PyErr Points
  | [], points => .ok points
  | line :: rest, points =>
    match parseDataLine io points line with
    | .error e => .error e
    | .ok points' => parseDataLines io rest points'

/-- The constructor (`Analysis/MPCDAnalysis/DensityProfile.py:5-12`), for the text of the file. -/
noncomputable def readDensity (io : Io ℝ) (text : Str) : Except PyErr Points := parseDataLines io (pyLines text) []

/-- `reduceToXY` (`Analysis/MPCDAnalysis/DensityProfile.py:55-67`). -/
noncomputable def reduceToXY (points : Points) : List (ℝ × List (ℝ × ℝ)) :=
  points.map fun xv => (xv.1, xv.2.map fun yv => (yv.1, (yv.2.map Prod.snd).sum / yv.2.length))

/-! ## Specification -/

/-- The volume of a part of a cell; cells have sides of length 1. -/
noncomputable def Geometry.volume (g : Geometry ℝ) : ℝ :=
  1 / g.subdivisions.1 * (1 / g.subdivisions.2.1) * (1 / g.subdivisions.2.2)

/-- The mass in a part of a cell, averaged over the measurements. -/
noncomputable def meanMass (g : Geometry ℝ) (mass : ℝ) (ss : List (FluidState ℝ)) (p : Point) : ℝ :=
  ((ss.map fun s => occupancy g s p).sum : ℕ) * mass / ss.length

/-- The mass density. -/
noncomputable def massDensity (g : Geometry ℝ) (mass : ℝ) (ss : List (FluidState ℝ)) (p : Point) : ℝ :=
  meanMass g mass ss p / g.volume

/-- What is plotted at given coordinates. -/
noncomputable def plotted (points : Points) (x y : ℝ) : Option ℝ := (dictGet (reduceToXY points) x).bind (dictGet · y)

/-- Different parts of cells have different coordinates after rounding. -/
def Resolved (rnd : ℝ → ℝ) (n s : ℕ) : Prop :=
  ∀ a < n, ∀ b < n, rnd ((a : ℝ) / s) = rnd ((b : ℝ) / s) → a = b

/-! ## Proofs -/

theorem splitTab_token (t r : Str) (h : '\t' ∉ t) : splitTab (t ++ '\t' :: r) = t :: splitTab r := by
  induction t with
  | nil => simp [splitTab]
  | cons c t ih =>
    have hc : c ≠ '\t' := fun e => h (by simp [e])
    have ih := ih fun e => h (by simp [e])
    rw [List.cons_append, splitTab, if_neg hc, ih]

theorem splitTab_last (t : Str) (h : '\t' ∉ t) : splitTab t = [t] := by
  induction t with
  | nil => rfl
  | cons c t ih =>
    have hc : c ≠ '\t' := fun e => h (by simp [e])
    have ih := ih fun e => h (by simp [e])
    rw [splitTab, if_neg hc, ih]

theorem token_noTab {t : Str} (h : Token t) : '\t' ∉ t := by
  intro hc
  have := (h.2 _ hc).1
  simp [isSpace] at this

theorem dictGet_dictSet {V : Type} (d : List (ℝ × V)) (k : ℝ) (v : V) (k' : ℝ) :
    dictGet (dictSet d k v) k' = if k = k' then some v else dictGet d k' := by
  induction d with
  | nil => rfl
  | cons e d ih =>
    obtain ⟨a, b⟩ := e
    rw [dictSet]
    by_cases h : a = k
    · subst h
      rw [if_pos rfl, dictGet, dictGet]
      by_cases h' : a = k' <;> simp [h']
    · rw [if_neg h, dictGet, dictGet, ih]
      by_cases h' : a = k'
      · subst h'
        simp [Ne.symm h]
      · simp [h']

theorem dictGet_map {V W : Type} (f : V → W) (d : List (ℝ × V)) (k : ℝ) :
    dictGet (d.map fun e => (e.1, f e.2)) k = (dictGet d k).map f := by
  induction d with
  | nil => rfl
  | cons e d ih =>
    obtain ⟨a, b⟩ := e
    rw [List.map_cons, dictGet, dictGet, ih]
    by_cases h : a = k <;> simp [h]

/-- The values by z at given x and y. -/
noncomputable def column (points : Points) (x y : ℝ) : Option (List (ℝ × ℝ)) := (dictGet points x).bind (dictGet · y)

theorem column_setPoint (points : Points) (a b c v x y : ℝ) : column (setPoint points a b c v) x y =
    if a = x ∧ b = y then some (dictSet ((column points x y).getD []) c v) else column points x y := by
  unfold column setPoint
  rw [dictGet_dictSet]
  by_cases ha : a = x
  · subst ha
    rw [if_pos rfl, Option.bind_some, dictGet_dictSet]
    by_cases hb : b = y
    · subst hb
      rw [if_pos rfl, if_pos ⟨rfl, rfl⟩]
      cases dictGet points a <;> rfl
    · rw [if_neg hb, if_neg fun h => hb h.2]
      cases dictGet points a <;> rfl
  · rw [if_neg ha, if_neg fun h => ha h.1]

theorem plotted_column (points : Points) (x y : ℝ) :
    plotted points x y = (column points x y).map fun d => (d.map Prod.snd).sum / (d.length : ℝ) := by
  unfold plotted column reduceToXY
  rw [dictGet_map (fun v : List (ℝ × List (ℝ × ℝ)) => v.map fun yv => (yv.1, (yv.2.map Prod.snd).sum / (yv.2.length : ℝ)))]
  cases dictGet points x with
  | none => rfl
  | some d =>
    simp only [Option.map_some, Option.bind_some]
    rw [dictGet_map (fun v : List (ℝ × ℝ) => (v.map Prod.snd).sum / (v.length : ℝ))]

/-- What is read of the line for a point. -/
noncomputable def entry (rnd : ℝ → ℝ) (s : Point) (d : DensityProfile ℝ) (p : Point) : ℝ × ℝ × ℝ × ℝ :=
  (rnd ((p.1 : ℝ) / s.1), rnd ((p.2.1 : ℝ) / s.2.1), rnd ((p.2.2 : ℝ) / s.2.2), rnd (d.output p))

theorem parseDataLines_text {io : Io ℝ} {rnd : ℝ → ℝ} (hio : Rounds io rnd) (s : Point) (d : DensityProfile ℝ)
    (ps : List Point) (points : Points) :
    parseDataLines io (pyLines (ps.flatMap (densityLine io s d))) points =
      .ok (ps.foldl (fun q p => setPoint q (entry rnd s d p).1 (entry rnd s d p).2.1 (entry rnd s d p).2.2.1
        (entry rnd s d p).2.2.2) points) := by
  induction ps generalizing points with
  | nil => rfl
  | cons p ps ih =>
    have ht := hio.token_fmt
    rw [List.flatMap_cons, densityLine, pyLines_tabLine _ _ (ht _) (by simp [ht]), parseDataLines]
    have e : parseDataLine io points (io.fmt ((p.1 : ℝ) / s.1) ++ [io.fmt ((p.2.1 : ℝ) / s.2.1),
        io.fmt ((p.2.2 : ℝ) / s.2.2), io.fmt (d.output p)].flatMap ('\t' :: ·)) =
        .ok (setPoint points (entry rnd s d p).1 (entry rnd s d p).2.1 (entry rnd s d p).2.2.1 (entry rnd s d p).2.2.2) := by
      unfold parseDataLine
      simp only [List.flatMap_cons, List.flatMap_nil, List.append_nil, List.cons_append]
      rw [splitTab_token _ _ (token_noTab (ht _)), splitTab_token _ _ (token_noTab (ht _)),
        splitTab_token _ _ (token_noTab (ht _)), splitTab_last _ (token_noTab (ht _))]
      simp only [hio.parse_fmt, entry]
    rw [e]
    exact ih _

theorem column_fold (es : List (ℝ × ℝ × ℝ × ℝ)) (x y : ℝ) (points : Points) :
    column (es.foldl (fun q e => setPoint q e.1 e.2.1 e.2.2.1 e.2.2.2) points) x y =
      (es.filter fun e => e.1 = x ∧ e.2.1 = y).foldl (fun o e => some (dictSet (o.getD []) e.2.2.1 e.2.2.2))
        (column points x y) := by
  induction es generalizing points with
  | nil => rfl
  | cons e es ih =>
    rw [List.foldl_cons, ih, column_setPoint]
    by_cases h : e.1 = x ∧ e.2.1 = y
    · rw [if_pos h, List.filter_cons_of_pos (by simpa using h), List.foldl_cons]
    · rw [if_neg h, List.filter_cons_of_neg (by simpa using h)]

theorem fold_distinct (es : List (ℝ × ℝ × ℝ × ℝ)) (acc : List (ℝ × ℝ))
    (h : (acc.map Prod.fst ++ es.map fun e => e.2.2.1).Nodup) :
    es.foldl (fun o e => some (dictSet (o.getD []) e.2.2.1 e.2.2.2)) (some acc) =
      some (acc ++ es.map fun e => (e.2.2.1, e.2.2.2)) := by
  induction es generalizing acc with
  | nil => simp
  | cons e es ih =>
    have hn : e.2.2.1 ∉ acc.map Prod.fst := by
      intro hm
      exact (List.nodup_append.1 h).2.2 _ hm _ (by simp) rfl
    rw [List.foldl_cons, Option.getD_some, dictSet_new _ _ _ hn, ih]
    · simp
    · simpa using h

theorem filter_range_eq (n k : ℕ) (h : k < n) : (List.range n).filter (fun a => a = k) = [k] := by
  induction n with
  | zero => omega
  | succ n ih =>
    rw [List.range_succ, List.filter_append]
    by_cases hk : k = n
    · subst hk
      rw [List.filter_eq_nil_iff.2 (by simp; omega)]
      simp
    · rw [ih (by omega), List.filter_cons_of_neg (by simpa using fun e => hk e.symm)]
      simp

theorem flatMap_ite {β : Type} (l : List ℕ) (k : ℕ) (f : ℕ → List β) :
    (l.flatMap fun a => if a = k then f a else []) = (l.filter fun a => a = k).flatMap f := by
  induction l with
  | nil => rfl
  | cons a l ih =>
    rw [List.flatMap_cons, ih]
    by_cases h : a = k <;> simp [h]

theorem filter_points {shape : Point} {x y : ℕ} (hx : x < shape.1) (hy : y < shape.2.1) :
    (filePoints shape).filter (fun p => p.1 = x ∧ p.2.1 = y) = (List.range shape.2.2).map fun z => (x, y, z) := by
  unfold filePoints
  rw [List.filter_flatMap]
  have e : ∀ a, (((List.range shape.2.1).flatMap fun b => (List.range shape.2.2).map fun z => (a, b, z)).filter
      fun p : Point => decide (p.1 = x ∧ p.2.1 = y)) =
      if a = x then ((List.range shape.2.2).map fun z => (x, y, z)) else [] := by
    intro a
    rw [List.filter_flatMap]
    by_cases ha : a = x
    · subst ha
      rw [if_pos rfl]
      have e' : ∀ b, (((List.range shape.2.2).map fun z => (a, b, z)).filter
          fun p : Point => decide (p.1 = a ∧ p.2.1 = y)) =
          if b = y then ((List.range shape.2.2).map fun z => (a, b, z)) else [] := by
        intro b
        by_cases hb : b = y
        · rw [if_pos hb, List.filter_eq_self]
          intro p hp
          obtain ⟨z, -, rfl⟩ := List.mem_map.1 hp
          simp [hb]
        · rw [if_neg hb, List.filter_eq_nil_iff]
          intro p hp
          obtain ⟨z, -, rfl⟩ := List.mem_map.1 hp
          simp [hb]
      simp only [e']
      rw [flatMap_ite, filter_range_eq _ _ hy]
      simp
    · rw [if_neg ha]
      simp only [List.flatMap_eq_nil_iff]
      intro b hb
      rw [List.filter_eq_nil_iff]
      intro p hp
      obtain ⟨z, -, rfl⟩ := List.mem_map.1 hp
      simp [ha]
  simp only [e]
  rw [flatMap_ite (f := fun _ => (List.range shape.2.2).map fun z => (x, y, z)), filter_range_eq _ _ hx]
  simp

theorem mem_filePoints {shape p : Point} : p ∈ filePoints shape ↔ InGrid shape p := by
  obtain ⟨a, b, c⟩ := p
  simp [filePoints, InGrid]

theorem filter_entries {rnd : ℝ → ℝ} {s : Point} {d : DensityProfile ℝ} (h1 : Resolved rnd d.shape.1 s.1)
    (h2 : Resolved rnd d.shape.2.1 s.2.1) {x y : ℕ} (hx : x < d.shape.1) (hy : y < d.shape.2.1) :
    (((filePoints d.shape).map (entry rnd s d)).filter fun e =>
      e.1 = rnd ((x : ℝ) / s.1) ∧ e.2.1 = rnd ((y : ℝ) / s.2.1)) =
      (List.range d.shape.2.2).map fun z => entry rnd s d (x, y, z) := by
  rw [List.filter_map]
  have : (filePoints d.shape).filter ((fun e : ℝ × ℝ × ℝ × ℝ =>
      decide (e.1 = rnd ((x : ℝ) / s.1) ∧ e.2.1 = rnd ((y : ℝ) / s.2.1))) ∘ entry rnd s d) =
      (filePoints d.shape).filter fun p => p.1 = x ∧ p.2.1 = y := by
    apply List.filter_congr
    intro p hp
    obtain ⟨g1, g2, -⟩ := mem_filePoints.1 hp
    simp only [Function.comp_apply, entry]
    apply decide_eq_decide.2
    constructor
    · rintro ⟨e1, e2⟩
      exact ⟨h1 _ g1 _ hx e1, h2 _ g2 _ hy e2⟩
    · rintro ⟨e1, e2⟩
      rw [e1, e2]
      exact ⟨rfl, rfl⟩
  rw [this, filter_points hx hy, List.map_map]
  rfl

/-- Everything about reading a saved density profile. -/
theorem readDensity_spec {io : Io ℝ} {rnd : ℝ → ℝ} (hio : Rounds io rnd) (s : Point) (d : DensityProfile ℝ)
    (h1 : Resolved rnd d.shape.1 s.1) (h2 : Resolved rnd d.shape.2.1 s.2.1) (h3 : Resolved rnd d.shape.2.2 s.2.2)
    (hz : 0 < d.shape.2.2) :
    ∃ points, readDensity io (densityText io s d) = .ok points ∧
      (∀ x < d.shape.1, ∀ y < d.shape.2.1, plotted points (rnd ((x : ℝ) / s.1)) (rnd ((y : ℝ) / s.2.1)) =
        some ((∑ z ∈ Finset.range d.shape.2.2, rnd (d.output (x, y, z))) / d.shape.2.2)) ∧
      ∀ a b v, plotted points a b = some v →
        ∃ x < d.shape.1, ∃ y < d.shape.2.1, a = rnd ((x : ℝ) / s.1) ∧ b = rnd ((y : ℝ) / s.2.1) := by
  refine ⟨_, parseDataLines_text hio s d _ _, ?_, ?_⟩
  · intro x hx y hy
    have hfold := column_fold ((filePoints d.shape).map (entry rnd s d)) (rnd ((x : ℝ) / s.1)) (rnd ((y : ℝ) / s.2.1)) []
    rw [List.foldl_map] at hfold
    rw [plotted_column, hfold, filter_entries h1 h2 hx hy]
    have hnil : column [] (rnd ((x : ℝ) / s.1)) (rnd ((y : ℝ) / s.2.1)) = none := rfl
    obtain ⟨n, hn⟩ : ∃ n, d.shape.2.2 = n + 1 := ⟨d.shape.2.2 - 1, by omega⟩
    have hnd : (((List.range d.shape.2.2).map fun z => entry rnd s d (x, y, z)).map fun e => e.2.2.1).Nodup := by
      rw [List.map_map, List.nodup_map_iff_inj_on List.nodup_range]
      intro a ha b hb e
      exact h3 a (List.mem_range.1 ha) b (List.mem_range.1 hb) e
    have key : ((List.range d.shape.2.2).map fun z => entry rnd s d (x, y, z)).foldl
        (fun o e => some (dictSet (o.getD []) e.2.2.1 e.2.2.2)) none =
        some (((List.range d.shape.2.2).map fun z => entry rnd s d (x, y, z)).map fun e => (e.2.2.1, e.2.2.2)) := by
      have : ∀ es : List (ℝ × ℝ × ℝ × ℝ), es ≠ [] →
          es.foldl (fun o e => some (dictSet (o.getD []) e.2.2.1 e.2.2.2)) none =
          es.foldl (fun o e => some (dictSet (o.getD []) e.2.2.1 e.2.2.2)) (some ([] : List (ℝ × ℝ))) := by
        intro es hes
        cases es with
        | nil => exact absurd rfl hes
        | cons e es => rfl
      rw [this _ (by rw [hn]; simp), fold_distinct _ _ (by simpa using hnd), List.nil_append]
    rw [hnil, key, Option.map_some]
    simp only [List.map_map, List.length_map, List.length_range]
    rw [← List.sum_toFinset _ List.nodup_range, List.toFinset_range]
    rfl
  · intro a b v hv
    have hfold := column_fold ((filePoints d.shape).map (entry rnd s d)) a b []
    rw [List.foldl_map] at hfold
    rw [plotted_column, hfold] at hv
    by_contra hne
    rw [List.filter_eq_nil_iff.2] at hv
    · simp [column, dictGet] at hv
    · intro e he
      obtain ⟨p, hp, rfl⟩ := List.mem_map.1 he
      obtain ⟨g1, g2, -⟩ := mem_filePoints.1 hp
      simp only [decide_eq_true_eq]
      rintro ⟨e1, e2⟩
      exact hne ⟨p.1, g1, p.2.1, g2, e1.symm, e2.symm⟩

/-- **C108.** From any measurements, a file is written that the analysis can read, and what is plotted, at the coordinates
of the parts of cells and nowhere else, is the density times the volume of a part of a cell, averaged along z. (Without measurements, `0.0 / 0` is not what it
is here.) -/
theorem C108_exact {io : Io ℝ} {rnd : ℝ → ℝ} (hio : Rounds io rnd) {g : Geometry ℝ} (hg : g.Valid) (mass : ℝ)
    (ss : List (FluidState ℝ)) (_hs : ss ≠ []) (h1 : Resolved rnd g.shape.1 g.subdivisions.1)
    (h2 : Resolved rnd g.shape.2.1 g.subdivisions.2.1) (h3 : Resolved rnd g.shape.2.2 g.subdivisions.2.2) :
    ∃ d points, densityMeasures g mass (.make g.shape) ss = some d ∧
      readDensity io (densityText io g.subdivisions d) = .ok points ∧
      (∀ x < g.shape.1, ∀ y < g.shape.2.1,
        plotted points (rnd ((x : ℝ) / g.subdivisions.1)) (rnd ((y : ℝ) / g.subdivisions.2.1)) =
          some ((∑ z ∈ Finset.range g.shape.2.2, rnd (massDensity g mass ss (x, y, z) * g.volume)) / g.shape.2.2)) ∧
      ∀ a b v, plotted points a b = some v →
        ∃ x < g.shape.1, ∃ y < g.shape.2.1,
          a = rnd ((x : ℝ) / g.subdivisions.1) ∧ b = rnd ((y : ℝ) / g.subdivisions.2.1) := by
  obtain ⟨d, e1, e2, e3, e4⟩ := densityMeasures_spec hg mass ss (.make g.shape) rfl
  obtain ⟨v1, v2, v3, v4, v5, v6⟩ := id hg
  have hz : 0 < d.shape.2.2 := by rw [e2]; exact Nat.mul_pos v3 v6
  have hvol : g.volume ≠ 0 := by
    have a4 : (g.subdivisions.1 : ℝ) ≠ 0 := by exact_mod_cast v4.ne'
    have a5 : (g.subdivisions.2.1 : ℝ) ≠ 0 := by exact_mod_cast v5.ne'
    have a6 : (g.subdivisions.2.2 : ℝ) ≠ 0 := by exact_mod_cast v6.ne'
    unfold Geometry.volume
    positivity
  have hout : ∀ p, d.output p = massDensity g mass ss p * g.volume := by
    intro p
    rw [massDensity, div_mul_cancel₀ _ hvol, meanMass, DensityProfile.output, e4, e3]
    simp [DensityProfile.make]
  obtain ⟨points, r1, r2, r3⟩ := readDensity_spec hio g.subdivisions d (by rw [e2]; exact h1) (by rw [e2]; exact h2)
    (by rw [e2]; exact h3) hz
  rw [e2] at r2 r3
  refine ⟨d, points, e1, r1, fun x hx y hy => ?_, r3⟩
  rw [r2 x hx y hy]
  simp only [hout]

/-- **C108.** Without subdivisions, the density averaged along z is plotted.

What is missing for the full statement: it is false with subdivisions, see `C108_violated`. -/
theorem C108_partial {io : Io ℝ} {rnd : ℝ → ℝ} (hio : Rounds io rnd) {g : Geometry ℝ} (hg : g.Valid) (mass : ℝ)
    (ss : List (FluidState ℝ)) (hs : ss ≠ []) (h : g.subdivisions = (1, 1, 1)) (h1 : Resolved rnd g.box.1 1)
    (h2 : Resolved rnd g.box.2.1 1) (h3 : Resolved rnd g.box.2.2 1) :
    ∃ d points, densityMeasures g mass (.make g.shape) ss = some d ∧
      readDensity io (densityText io g.subdivisions d) = .ok points ∧
      ∀ x < g.box.1, ∀ y < g.box.2.1, plotted points (rnd x) (rnd y) =
        some ((∑ z ∈ Finset.range g.box.2.2, rnd (massDensity g mass ss (x, y, z))) / g.box.2.2) := by
  have hsh : g.shape = g.box := by simp [Geometry.shape, h]
  have hvol : g.volume = 1 := by simp [Geometry.volume, h]
  obtain ⟨d, points, e1, e2, e3, -⟩ := C108_exact hio hg mass ss hs (by rw [hsh, h]; exact h1) (by rw [hsh, h]; exact h2)
    (by rw [hsh, h]; exact h3)
  refine ⟨d, points, e1, e2, fun x hx y hy => ?_⟩
  have := e3 x (by rw [hsh]; exact hx) y (by rw [hsh]; exact hy)
  simpa [hsh, hvol, h] using this

/-- **C108** fails for all subdivisions other than 1, wherever there is mass, also if no digits are lost: what is plotted is
not the density averaged along z. -/
theorem C108_violated {io : Io ℝ} {rnd : ℝ → ℝ} (hio : Rounds io rnd) {g : Geometry ℝ} (hg : g.Valid) (mass : ℝ)
    (ss : List (FluidState ℝ)) (hs : ss ≠ []) (h : g.subdivisions ≠ (1, 1, 1))
    (h1 : Resolved rnd g.shape.1 g.subdivisions.1)
    (h2 : Resolved rnd g.shape.2.1 g.subdivisions.2.1) (h3 : Resolved rnd g.shape.2.2 g.subdivisions.2.2)
    {x y : ℕ} (hx : x < g.shape.1) (hy : y < g.shape.2.1)
    (hr : ∀ z < g.shape.2.2, rnd (meanMass g mass ss (x, y, z)) = meanMass g mass ss (x, y, z))
    (hm : ∑ z ∈ Finset.range g.shape.2.2, meanMass g mass ss (x, y, z) ≠ 0) :
    ∃ d points v, densityMeasures g mass (.make g.shape) ss = some d ∧
      readDensity io (densityText io g.subdivisions d) = .ok points ∧
      plotted points (rnd ((x : ℝ) / g.subdivisions.1)) (rnd ((y : ℝ) / g.subdivisions.2.1)) = some v ∧
      v ≠ (∑ z ∈ Finset.range g.shape.2.2, massDensity g mass ss (x, y, z)) / g.shape.2.2 := by
  obtain ⟨d, points, e1, e2, e3, -⟩ := C108_exact hio hg mass ss hs h1 h2 h3
  obtain ⟨v1, v2, v3, v4, v5, v6⟩ := id hg
  have a4 : (g.subdivisions.1 : ℝ) ≠ 0 := by exact_mod_cast v4.ne'
  have a5 : (g.subdivisions.2.1 : ℝ) ≠ 0 := by exact_mod_cast v5.ne'
  have a6 : (g.subdivisions.2.2 : ℝ) ≠ 0 := by exact_mod_cast v6.ne'
  have hvol : g.volume ≠ 0 := by unfold Geometry.volume; positivity
  refine ⟨d, points, _, e1, e2, e3 x hx y hy, ?_⟩
  have hz : (g.shape.2.2 : ℝ) ≠ 0 := by
    have : 0 < g.shape.2.2 := Nat.mul_pos v3 v6
    exact_mod_cast this.ne'
  have hcancel : ∀ p, massDensity g mass ss p * g.volume = meanMass g mass ss p := fun p => by
    rw [massDensity, div_mul_cancel₀ _ hvol]
  rw [Finset.sum_congr rfl fun z hz => by rw [hcancel, hr z (Finset.mem_range.1 hz)]]
  simp only [massDensity]
  rw [← Finset.sum_div]
  intro heq
  rw [div_left_inj' hz] at heq
  have h1' : g.volume = 1 := by
    rw [eq_div_iff hvol] at heq
    exact mul_left_cancel₀ hm (heq.trans (mul_one _).symm)
  have hprod : (g.subdivisions.1 : ℝ) * g.subdivisions.2.1 * g.subdivisions.2.2 = 1 := by
    unfold Geometry.volume at h1'
    field_simp at h1'
    linarith
  have hprod' : g.subdivisions.1 * g.subdivisions.2.1 * g.subdivisions.2.2 = 1 := by exact_mod_cast hprod
  apply h
  have b3 := Nat.eq_one_of_mul_eq_one_left hprod'
  have b12 := Nat.eq_one_of_mul_eq_one_right hprod'
  exact Prod.ext (Nat.eq_one_of_mul_eq_one_right b12) (Prod.ext (Nat.eq_one_of_mul_eq_one_left b12) b3)

/-! ## Examples -/

/-- Numbers written as integral numbers of halves. -/
noncomputable def halfIo : Io ℝ where
  fmt x := if 0 ≤ ⌊2 * x⌋ then natStr ⌊2 * x⌋.toNat else '-' :: natStr ⌊2 * x⌋.natAbs
  parse s := (pyInt s).map fun n : ℤ => (n : ℝ) / 2
  negative x := decide (⌊2 * x⌋ < 0)

theorem halfIo_rounds : Rounds halfIo fun x => (⌊2 * x⌋ : ℝ) / 2 where
  parse_fmt x := by
    unfold halfIo
    dsimp only
    by_cases h : 0 ≤ ⌊2 * x⌋
    · rw [if_pos h, pyInt_natStr, Int.toNat_of_nonneg h]
      rfl
    · have hd : (natStr ⌊2 * x⌋.natAbs).all Char.isDigit = true := List.all_eq_true.2 (natStr_digits _)
      rw [if_neg h, pyInt, if_pos ⟨natStr_ne_nil _, hd⟩, digitsValue_natStr, Option.map_some, Option.some.injEq]
      congr 1
      exact_mod_cast (by omega : -(⌊2 * x⌋.natAbs : ℤ) = ⌊2 * x⌋)
  token_fmt x := by
    unfold halfIo
    dsimp only
    by_cases h : 0 ≤ ⌊2 * x⌋
    · rw [if_pos h]
      exact Snapshot.natStr_token _
    · rw [if_neg h]
      refine ⟨by simp, fun c hc => ?_⟩
      rcases List.mem_cons.1 hc with rfl | hc
      · decide
      · exact (Snapshot.natStr_token _).2 c hc

theorem half_resolved (n s : ℕ) (h : s = 1 ∨ s = 2) : Resolved (fun x => (⌊2 * x⌋ : ℝ) / 2) n s := by
  intro a _ b _ e
  have e' : (⌊2 * ((a : ℝ) / s)⌋ : ℝ) = ⌊2 * ((b : ℝ) / s)⌋ := by simpa using e
  have e'' : ⌊2 * ((a : ℝ) / s)⌋ = ⌊2 * ((b : ℝ) / s)⌋ := by exact_mod_cast e'
  rcases h with rfl | rfl
  · have h1 : ∀ c : ℕ, ⌊2 * ((c : ℝ) / ((1 : ℕ) : ℝ))⌋ = 2 * (c : ℤ) := fun c => by
      have : 2 * ((c : ℝ) / ((1 : ℕ) : ℝ)) = ((2 * (c : ℤ) : ℤ) : ℝ) := by push_cast; ring
      rw [this, Int.floor_intCast]
    rw [h1, h1] at e''
    omega
  · have h2 : ∀ c : ℕ, ⌊2 * ((c : ℝ) / ((2 : ℕ) : ℝ))⌋ = (c : ℤ) := fun c => by
      have : 2 * ((c : ℝ) / ((2 : ℕ) : ℝ)) = ((c : ℤ) : ℝ) := by push_cast; ring
      rw [this, Int.floor_intCast]
    rw [h2, h2] at e''
    omega

/-- The hypotheses of `C108_exact` can be met, with subdivisions. -/
example := C108_exact halfIo_rounds (g := ⟨(3, 4, 5), (1, 2, 2), 0.5⟩) (by simp [Geometry.Valid]) 1 [⟨0, []⟩] (by simp)
  (half_resolved _ _ (Or.inl rfl)) (half_resolved _ _ (Or.inr rfl)) (half_resolved _ _ (Or.inr rfl))

/-- The hypotheses of `C108_partial` can be met. -/
example := C108_partial halfIo_rounds (g := ⟨(3, 4, 5), (1, 1, 1), 0.5⟩) (by simp [Geometry.Valid]) 1 [⟨0, []⟩] (by simp) rfl
  (half_resolved _ _ (Or.inl rfl)) (half_resolved _ _ (Or.inl rfl)) (half_resolved _ _ (Or.inl rfl))

/-- The hypotheses of `C108_violated` can be met: one particle in a cell divided into two along z. -/
example := C108_violated halfIo_rounds (g := ⟨(1, 1, 1), (1, 1, 2), 0⟩) (by simp [Geometry.Valid]) 1
  [⟨0, [(⟨0, 0, 0⟩, ⟨0, 0, 0⟩)]⟩] (by simp) (by simp)
  (half_resolved _ _ (Or.inl rfl)) (half_resolved _ _ (Or.inl rfl)) (half_resolved _ _ (Or.inr rfl))
  (x := 0) (y := 0) (by simp [Geometry.shape]) (by simp [Geometry.shape])
  (by
    intro z _
    generalize hm : meanMass _ _ _ _ = m
    unfold meanMass at hm
    simp only [List.map_cons, List.map_nil, List.sum_cons, List.sum_nil, mul_one, List.length_cons, List.length_nil,
      zero_add, Nat.cast_one, div_one] at hm
    rw [← hm]
    generalize (occupancy (K := ℝ) _ _ _ + 0 : ℕ) = n
    have : 2 * (n : ℝ) = ((2 * (n : ℤ) : ℤ) : ℝ) := by push_cast; rfl
    simp only [this, Int.floor_intCast]
    push_cast
    ring)
  (by
    have hv : (⟨(1, 1, 1), (1, 1, 2), 0⟩ : Geometry ℝ).Valid := by simp [Geometry.Valid]
    have h := sum_occupancy hv ⟨0, [(⟨0, 0, 0⟩, ⟨0, 0, 0⟩)]⟩
    have e : gridPoints (⟨(1, 1, 1), (1, 1, 2), 0⟩ : Geometry ℝ).shape = {(0, 0, 0), (0, 0, 1)} := by decide
    rw [e, Finset.sum_pair (by decide)] at h
    have hs : (⟨(1, 1, 1), (1, 1, 2), 0⟩ : Geometry ℝ).shape.2.2 = 2 := rfl
    rw [hs, Finset.sum_range_succ, Finset.sum_range_one]
    unfold meanMass
    simp only [List.map_cons, List.map_nil, List.sum_cons, List.sum_nil, mul_one, List.length_cons, List.length_nil,
      zero_add, Nat.cast_one, div_one, add_zero]
    have h' := congrArg (fun n : ℕ => (n : ℝ)) h
    simp only [Nat.cast_add, List.length_cons, List.length_nil] at h'
    rw [h']
    norm_num)

end OpenMPCD.Profile
