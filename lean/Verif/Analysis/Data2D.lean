import Verif.Analysis.Pairs
import Mathlib.Data.List.Perm.Basic
import Mathlib.Data.List.Nodup
import Mathlib.Tactic.Ring

/-!
# Sets of data points (C81 to C84)

`Analysis/MPCDAnalysis/Data2D.py`. Dictionaries are lists of keys and values in order of insertion. Numbers are those
of an ordered field: there is no NaN and no rounding except when printing.
-/

set_option linter.unusedSectionVars false

namespace OpenMPCD.Analysis

open Runs (Str natStr)
open Snapshot (Io Token words)

variable {K : Type} [Field K] [LinearOrder K] [IsStrictOrderedRing K]

/-! ## Model -/

/-- Item assignment for an `OrderedDict`: a key that is present keeps its place. -/
def setItem (d : List (K × K)) (k v : K) : List (K × K) :=
  if k ∈ d.map Prod.fst then d.map fun p => if p.1 = k then (k, v) else p else d ++ [(k, v)]

/-- The state, `Analysis/MPCDAnalysis/Data2D.py:7-13`. -/
structure Data2D (K : Type) where
  data : List (K × K)
  errors : List (K × K)

/-- The constructor without file, `Data2D.py:7-13`. -/
def Data2D.empty : Data2D K := ⟨[], []⟩

/-- `addPoint`, `Data2D.py:18-21`. -/
def Data2D.addPoint (d : Data2D K) (point value : K) (error : Option K) : Data2D K :=
  match error with
  | none => ⟨setItem d.data point value, d.errors⟩
  | some e => ⟨setItem d.data point value, setItem d.errors point e⟩

/-- `OrderedDict(sorted(d.items()))`: keys are distinct, so that values are not compared. -/
def sortItems (d : List (K × K)) : List (K × K) := d.mergeSort fun p q => decide (p.1 ≤ q.1)

/-- `sort`, `Data2D.py:23-25`. -/
def Data2D.sort (d : Data2D K) : Data2D K := ⟨sortItems d.data, sortItems d.errors⟩

/-- The loop in `getNearestPoint`, `Data2D.py:40-52`. -/
def nearestLoop (x lastX lastY lastDistance : K) : List (K × K) → K × K
  | [] => (lastX, lastY)
  | (currentX, currentY) :: rest =>
    if x - currentX < 0 then
      if |x - currentX| < lastDistance then (currentX, currentY) else (lastX, lastY)
    else nearestLoop x currentX currentY (x - currentX) rest

/-- `getNearestPoint`, `Data2D.py:27-52`, for sorted items; `none`: `StopIteration` is raised (line 31). -/
def nearest (x : K) : List (K × K) → Option (K × K)
  | [] => none
  | (firstX, firstY) :: rest =>
    if x ≤ firstX then some (firstX, firstY) else some (nearestLoop x firstX firstY (x - firstX) rest)

/-- `getNearestPoint`, `Data2D.py:27-52`. -/
def Data2D.getNearestPoint (d : Data2D K) (x : K) : Data2D K × Option (K × K) :=
  (d.sort, nearest x d.sort.data)

/-- The body of the loop in `getSimpleMovingAverageDict`, `Data2D.py:98-111`: window and averages. -/
def averageStep (windowsize : K) (s : List (K × K) × List (K × K)) (p : K × K) : List (K × K) × List (K × K) :=
  let window := s.1 ++ [p]
  match window with
  | [] => s
  | first :: _ =>
    if windowsize ≤ p.1 - first.1 then
      (window.tail, s.2 ++ [(p.1, (window.map Prod.snd).sum / (window.length : K))])
    else (window, s.2)

/-- `getSimpleMovingAverageDict`, `Data2D.py:92-113`. -/
def Data2D.getSimpleMovingAverageDict (d : Data2D K) (windowsize : K) : List (K × K) :=
  (d.sort.data.foldl (averageStep windowsize) ([], [])).2

/-- The body of the loop in `getLocalExtremaByComparisonFunction`, `Data2D.py:133-166`: whether the point with the given
index is added. (The `break` is reached only if there is one point.) -/
def isExtremum (comparisonFunction : K → K → Bool) (includeBoundaries : Bool) (items : List (K × K)) (index : ℕ)
    (y : K) : Bool :=
  if index = 0 then
    if !includeBoundaries then false
    else match items[index + 1]? with
      | none => true
      | some q => comparisonFunction y q.2
  else match items[index + 1]?, items[index - 1]? with
    | none, some p => if !includeBoundaries then false else comparisonFunction y p.2
    | some q, some p => if !comparisonFunction y p.2 then false else if !comparisonFunction y q.2 then false else true
    | _, none => false

/-- `getLocalExtremaByComparisonFunction`, `Data2D.py:126-168`. The case that there is no item with the index before is
unreachable. -/
def Data2D.getLocalExtremaBy (d : Data2D K) (comparisonFunction : K → K → Bool) (includeBoundaries : Bool) :
    List (K × K) :=
  (d.sort.data.zipIdx.filter fun e =>
    isExtremum comparisonFunction includeBoundaries d.sort.data e.2 e.1.2).map Prod.fst

/-- `getLocalMaxima`, `Data2D.py:171-173`. -/
def Data2D.getLocalMaxima (d : Data2D K) (includeBoundaries : Bool) : List (K × K) :=
  d.getLocalExtremaBy (fun a b => decide (a > b)) includeBoundaries

/-- `getLocalMinima`, `Data2D.py:175-177`. -/
def Data2D.getLocalMinima (d : Data2D K) (includeBoundaries : Bool) : List (K × K) :=
  d.getLocalExtremaBy (fun a b => decide (a < b)) includeBoundaries

/-- `getLocalExtrema`, `Data2D.py:179-182`: `minima.items() + maxima.items()` adds two lists in Python 2, but in Python 3
two views, for which there is no addition. A point which is both a minimum and a maximum (the only one) occurs once. -/
def Data2D.getLocalExtrema (python3 : Bool) (d : Data2D K) (includeBoundaries : Bool) :
    Except PyErr (List (K × K)) :=
  if python3 then .error .typeError
  else .ok ((sortItems (d.getLocalMinima includeBoundaries ++ d.getLocalMaxima includeBoundaries)).foldl
    (fun r p => setItem r p.1 p.2) [])

/-- `getKeysAndValuesAndErrors`, `Data2D.py:197-213`. -/
def Data2D.getKeysAndValuesAndErrors (d : Data2D K) : List (K × K × Option K) :=
  d.sort.data.map fun p => (p.1, p.2, d.sort.errors.lookup p.1)

/-- `writeTo`, `Data2D.py:228-243`, with `str` given by `io`. -/
def Data2D.writeTo (io : Io K) (d : Data2D K) (sortFirst : Bool) : Str :=
  let d := if sortFirst then d.sort else d
  d.data.flatMap fun p =>
    match d.errors.lookup p.1 with
    | none => tabLine (io.fmt p.1) [io.fmt p.2]
    | some e => tabLine (io.fmt p.1) [io.fmt p.2, io.fmt e]

/-- Reading such a file, `Data2D.py:7-16`. -/
def Data2D.read (io : Io K) (text : Str) : Except PyErr (Data2D K) := do
  let data ← readPairs io none text
  .ok ⟨data, []⟩

/-- What a user does to change the data. -/
inductive Data2D.Op (K : Type) where
  | addPoint (point value : K) (error : Option K)
  | sort

/-- Executing an operation. -/
def Data2D.step (d : Data2D K) : Data2D.Op K → Data2D K
  | .addPoint x y e => d.addPoint x y e
  | .sort => d.sort

/-- Executing operations on a new object. -/
def Data2D.run (ops : List (Data2D.Op K)) : Data2D K := ops.foldl Data2D.step Data2D.empty

/-! ## Specification -/

/-- The last value given for a point. -/
def lastValue (ops : List (Data2D.Op K)) (x : K) : Option K :=
  ops.reverse.findSome? fun
    | .addPoint x' y _ => if x' = x then some y else none
    | .sort => none

/-- The error given with the last value for a point. -/
def errorOfLastValue (ops : List (Data2D.Op K)) (x : K) : Option K :=
  (ops.reverse.findSome? fun
    | .addPoint x' _ e => if x' = x then some e else none
    | .sort => none).join

/-- The last error given for a point. -/
def lastError (ops : List (Data2D.Op K)) (x : K) : Option K :=
  ops.reverse.findSome? fun
    | .addPoint x' _ e => if x' = x then e else none
    | .sort => none

/-- `p` is nearest to `x` among the given points; of two equally near ones, it is the lower one. -/
def IsNearestPoint (x : K) (points : List (K × K)) (p : K × K) : Prop :=
  p ∈ points ∧ ∀ q ∈ points, |x - p.1| ≤ |x - q.1| ∧ (|x - p.1| = |x - q.1| → p.1 ≤ q.1)

/-- `q` is the next of the points to the right of `p`. -/
def NextOf (points : List (K × K)) (p q : K × K) : Prop :=
  q ∈ points ∧ p.1 < q.1 ∧ ∀ r ∈ points, p.1 < r.1 → q.1 ≤ r.1

/-- `q` is the next of the points to the left of `p`. -/
def PrevOf (points : List (K × K)) (p q : K × K) : Prop :=
  q ∈ points ∧ q.1 < p.1 ∧ ∀ r ∈ points, r.1 < p.1 → r.1 ≤ q.1

/-- Extrema: the value compares with that of each neighbour; without boundaries, there must be two neighbours. -/
def IsLocalExtremum (better : K → K → Prop) (includeBoundaries : Bool) (points : List (K × K)) (p : K × K) : Prop :=
  p ∈ points ∧ (∀ q, NextOf points p q ∨ PrevOf points p q → better p.2 q.2) ∧
  (includeBoundaries = false → (∃ q, NextOf points p q) ∧ ∃ q, PrevOf points p q)

/-- The points `j` to `i` (of points sorted by their key) are the shortest run ending with point `i` that is at least as
wide as the window. -/
def IsWindow (points : List (K × K)) (windowsize : K) (j i : ℕ) : Prop :=
  j ≤ i ∧ ∃ hi : i < points.length, (∀ hj : j < points.length, windowsize ≤ points[i].1 - points[j].1) ∧
    ∀ k, j < k → k ≤ i → ∀ hk : k < points.length, points[i].1 - points[k].1 < windowsize

/-- The mean value of the points `j` to `i`. -/
def meanOf (points : List (K × K)) (j i : ℕ) : K :=
  (((points.drop j).take (i + 1 - j)).map Prod.snd).sum / ((i + 1 - j : ℕ) : K)

/-- Moving a run of points by one point does not change whether it is at least as wide as the window. -/
def EvenlyWindowed (points : List (K × K)) (windowsize : K) : Prop :=
  ∀ i j, j ≤ i → ∀ (hi : i + 1 < points.length) (hi' : i < points.length) (hj' : j < points.length)
    (hj : j + 1 < points.length),
    windowsize ≤ points[i].1 - points[j].1 ↔ windowsize ≤ points[i + 1].1 - points[j + 1].1

/-- Points sorted by key, each key once. -/
def Ascending (points : List (K × K)) : Prop := points.Pairwise fun p q => p.1 < q.1

/-! ## Proofs: history -/

theorem setItem_keys (d : List (K × K)) (k v : K) :
    (setItem d k v).map Prod.fst = if k ∈ d.map Prod.fst then d.map Prod.fst else d.map Prod.fst ++ [k] := by
  unfold setItem
  by_cases h : k ∈ d.map Prod.fst
  · rw [if_pos h, if_pos h, List.map_map]
    apply List.map_congr_left
    intro p _
    by_cases hp : p.1 = k <;> simp [hp]
  · rw [if_neg h, if_neg h]; simp

theorem setItem_nodup (d : List (K × K)) (k v : K) (h : (d.map Prod.fst).Nodup) :
    ((setItem d k v).map Prod.fst).Nodup := by
  rw [setItem_keys]
  by_cases hk : k ∈ d.map Prod.fst
  · rw [if_pos hk]; exact h
  · rw [if_neg hk, List.nodup_append]
    refine ⟨h, by simp, ?_⟩
    intro a ha b hb e
    rw [List.mem_singleton] at hb
    subst hb; subst e
    exact hk ha

theorem mem_setItem (d : List (K × K)) (k v : K) (p : K × K) :
    p ∈ setItem d k v ↔ (p.1 = k ∧ p.2 = v) ∨ (p.1 ≠ k ∧ p ∈ d) := by
  obtain ⟨a, b⟩ := p
  unfold setItem
  by_cases hk : k ∈ d.map Prod.fst
  · rw [if_pos hk, List.mem_map]
    constructor
    · rintro ⟨q, hq, e⟩
      by_cases h : q.1 = k
      · rw [if_pos h] at e
        cases e
        exact .inl ⟨rfl, rfl⟩
      · rw [if_neg h] at e
        subst e
        exact .inr ⟨h, hq⟩
    · rintro (⟨h1, h2⟩ | ⟨h1, h2⟩)
      · obtain ⟨q, hq, e⟩ := List.mem_map.1 hk
        simp only at h1 h2
        subst h1; subst h2
        exact ⟨q, hq, if_pos e⟩
      · exact ⟨_, h2, if_neg h1⟩
  · rw [if_neg hk, List.mem_append, List.mem_singleton]
    constructor
    · rintro (h | h)
      · exact .inr ⟨fun e => hk (List.mem_map.2 ⟨_, h, e⟩), h⟩
      · cases h; exact .inl ⟨rfl, rfl⟩
    · rintro (⟨h1, h2⟩ | ⟨h1, h2⟩)
      · simp only at h1 h2
        subst h1; subst h2
        exact .inr rfl
      · exact .inl h2

theorem sortItems_perm (d : List (K × K)) : (sortItems d).Perm d := List.mergeSort_perm _ _

theorem mem_sortItems (d : List (K × K)) (p : K × K) : p ∈ sortItems d ↔ p ∈ d := (sortItems_perm d).mem_iff

theorem sortItems_ascending (d : List (K × K)) (h : (d.map Prod.fst).Nodup) : Ascending (sortItems d) := by
  have h1 := List.pairwise_mergeSort (le := fun p q : K × K => decide (p.1 ≤ q.1))
    (fun a b c => by simpa using fun h1 h2 => le_trans h1 h2) (fun a b => by simpa using le_total a.1 b.1) d
  have h2 : ((sortItems d).map Prod.fst).Nodup := ((sortItems_perm d).map Prod.fst).nodup_iff.2 h
  have h3 := List.pairwise_map.1 h2
  exact (h1.and h3).imp fun {p q} h => lt_of_le_of_ne (by simpa using h.1) h.2

/-- Sorting gives the only sorted arrangement. -/
theorem sortItems_eq {d s : List (K × K)} (hp : d.Perm s) (hs : Ascending s) : sortItems d = s := by
  have hd : (d.map Prod.fst).Nodup := (hp.map Prod.fst).nodup_iff.2 (List.pairwise_map.2 (hs.imp fun h => ne_of_lt h))
  exact List.Perm.eq_of_pairwise (fun a b _ _ h1 h2 => absurd h1 (not_lt.2 h2.le))
    (sortItems_ascending d hd) hs ((sortItems_perm d).trans hp)

theorem ascending_nodup {s : List (K × K)} (h : Ascending s) : (s.map Prod.fst).Nodup :=
  List.pairwise_map.2 (h.imp fun h => ne_of_lt h)

theorem lookup_eq_some {d : List (K × K)} (h : (d.map Prod.fst).Nodup) (k v : K) :
    d.lookup k = some v ↔ (k, v) ∈ d := by
  induction d with
  | nil => simp
  | cons p d ih =>
    obtain ⟨a, b⟩ := p
    rw [List.map_cons, List.nodup_cons] at h
    rw [List.lookup_cons]
    by_cases e : k = a
    · subst e
      simp only [beq_self_eq_true, List.mem_cons, Prod.mk.injEq, true_and]
      constructor
      · intro h'; left; exact (Option.some.inj h').symm
      · rintro (rfl | h')
        · rfl
        · exact absurd (List.mem_map.2 ⟨_, h', rfl⟩) h.1
    · have : (k == a) = false := by simpa using e
      rw [this]
      simp only [List.mem_cons, Prod.mk.injEq, e, false_and, false_or]
      exact ih h.2

theorem lookup_congr {d e : List (K × K)} (hd : (d.map Prod.fst).Nodup) (he : (e.map Prod.fst).Nodup)
    (h : ∀ p, p ∈ d ↔ p ∈ e) (k : K) : d.lookup k = e.lookup k := by
  apply Option.ext
  intro v
  rw [lookup_eq_some hd, lookup_eq_some he, h]

theorem run_append (ops : List (Data2D.Op K)) (o : Data2D.Op K) :
    Data2D.run (ops ++ [o]) = (Data2D.run ops).step o := by
  simp [Data2D.run, List.foldl_append]

theorem run_nodup (ops : List (Data2D.Op K)) :
    ((Data2D.run ops).data.map Prod.fst).Nodup ∧ ((Data2D.run ops).errors.map Prod.fst).Nodup := by
  induction ops using List.reverseRecOn with
  | nil => simp [Data2D.run, Data2D.empty]
  | append_singleton ops o ih =>
    rw [run_append]
    cases o with
    | addPoint x y e =>
      cases e with
      | none => exact ⟨setItem_nodup _ _ _ ih.1, ih.2⟩
      | some e => exact ⟨setItem_nodup _ _ _ ih.1, setItem_nodup _ _ _ ih.2⟩
    | sort =>
      exact ⟨((sortItems_perm _).map Prod.fst).nodup_iff.2 ih.1, ((sortItems_perm _).map Prod.fst).nodup_iff.2 ih.2⟩

/-- After any history, the points are those with a value, and the errors the last ones given. -/
theorem run_mem (ops : List (Data2D.Op K)) (x y : K) :
    ((x, y) ∈ (Data2D.run ops).data ↔ lastValue ops x = some y) ∧
    ((x, y) ∈ (Data2D.run ops).errors ↔ lastError ops x = some y) := by
  induction ops using List.reverseRecOn generalizing y with
  | nil => simp [Data2D.run, Data2D.empty, lastValue, lastError]
  | append_singleton ops o ih =>
    rw [run_append]
    unfold lastValue lastError at ih ⊢
    rw [List.reverse_append, List.reverse_singleton, List.singleton_append, List.findSome?_cons, List.findSome?_cons]
    cases o with
    | addPoint x' y' e =>
      by_cases hx : x' = x
      · subst hx
        cases e with
        | none =>
          simp only [Data2D.step, Data2D.addPoint, if_true]
          refine ⟨?_, (ih y).2⟩
          rw [mem_setItem]
          simp only [ne_eq, not_true_eq_false, false_and, or_false, true_and, Option.some.injEq]
          exact eq_comm
        | some e =>
          simp only [Data2D.step, Data2D.addPoint, if_true]
          rw [mem_setItem, mem_setItem]
          simp only [ne_eq, not_true_eq_false, false_and, or_false, true_and, Option.some.injEq]
          exact ⟨eq_comm, eq_comm⟩
      · have hx' : ¬ x = x' := fun h => hx h.symm
        cases e with
        | none =>
          simp only [Data2D.step, Data2D.addPoint, if_neg hx]
          refine ⟨?_, (ih y).2⟩
          rw [mem_setItem]
          simp only [hx', ne_eq, not_false_eq_true, true_and, false_and, false_or]
          exact (ih y).1
        | some e =>
          simp only [Data2D.step, Data2D.addPoint, if_neg hx]
          rw [mem_setItem, mem_setItem]
          simp only [hx', ne_eq, not_false_eq_true, true_and, false_and, false_or]
          exact ih y
    | sort =>
      simp only [Data2D.step, Data2D.sort, mem_sortItems]
      exact ih y

/-! ## C81 -/

/-- **C81**, as far as it holds. After any history, the data are listed in ascending order, each point once, with the last
value given for it and the last error ever given for it. -/
theorem C81_partial (ops : List (Data2D.Op K)) :
    ((Data2D.run ops).getKeysAndValuesAndErrors.map fun t => t.1).Pairwise (· < ·) ∧
    ∀ x y e, (x, y, e) ∈ (Data2D.run ops).getKeysAndValuesAndErrors ↔
      lastValue ops x = some y ∧ lastError ops x = e := by
  obtain ⟨n1, n2⟩ := run_nodup ops
  constructor
  · unfold Data2D.getKeysAndValuesAndErrors
    rw [List.map_map, List.pairwise_map]
    exact sortItems_ascending _ n1
  · intro x y e
    unfold Data2D.getKeysAndValuesAndErrors
    rw [List.mem_map]
    have hl : ∀ x, (Data2D.run ops).sort.errors.lookup x = lastError ops x := by
      intro x
      apply Option.ext
      intro v
      refine (lookup_eq_some (((sortItems_perm _).map Prod.fst).nodup_iff.2 n2) x v).trans ?_
      exact (mem_sortItems _ _).trans (run_mem ops x v).2
    constructor
    · rintro ⟨p, hp, h⟩
      simp only [Prod.mk.injEq, hl] at h
      obtain ⟨rfl, rfl, rfl⟩ := h
      exact ⟨(run_mem ops _ _).1.1 ((mem_sortItems _ _).1 hp), rfl⟩
    · rintro ⟨h1, h2⟩
      refine ⟨(x, y), (mem_sortItems _ _).2 ((run_mem ops x y).1.2 h1), ?_⟩
      simp only [hl, h2]

/-- C81 holds if each value is given with an error or none is. -/
theorem C81_errors (ops : List (Data2D.Op K))
    (h : (∀ o ∈ ops, ∀ x y e, o = .addPoint x y e → e = none) ∨
      ∀ o ∈ ops, ∀ x y e, o = .addPoint x y e → e ≠ none) (x : K) :
    lastError ops x = errorOfLastValue ops x := by
  unfold lastError errorOfLastValue
  have h' : (∀ o ∈ ops.reverse, ∀ x y e, o = .addPoint x y e → e = none) ∨
      ∀ o ∈ ops.reverse, ∀ x y e, o = .addPoint x y e → e ≠ none := by simpa using h
  clear h
  generalize ops.reverse = l at h' ⊢
  induction l with
  | nil => rfl
  | cons o l ih =>
    have ih := ih (h'.imp (fun h o ho => h o (List.mem_cons_of_mem _ ho)) fun h o ho => h o (List.mem_cons_of_mem _ ho))
    rw [List.findSome?_cons, List.findSome?_cons]
    cases o with
    | sort => exact ih
    | addPoint x' y e =>
      by_cases hx : x' = x
      · simp only [if_pos hx]
        cases e with
        | some e => rfl
        | none =>
          rcases h' with h' | h'
          · simp only [Option.join_some]
            rw [List.findSome?_eq_none_iff]
            intro o ho
            cases o with
            | sort => rfl
            | addPoint x'' y' e' =>
              have := h' _ (List.mem_cons_of_mem _ ho) _ _ _ rfl
              subst this
              simp
          · exact absurd rfl (h' _ List.mem_cons_self _ _ _ rfl)
      · simp only [if_neg hx]; exact ih

/-- **Violation of C81.** If a point is given a new value without error, the error of its previous value is reported for
the new one. -/
theorem C81_violated (x y y' e : K) :
    (Data2D.run [.addPoint x y (some e), .addPoint x y' none]).getKeysAndValuesAndErrors = [(x, y', some e)] ∧
    errorOfLastValue [.addPoint x y (some e), .addPoint x y' none] x = none := by
  constructor
  · have hd : (Data2D.run [.addPoint x y (some e), .addPoint x y' none]) = ⟨[(x, y')], [(x, e)]⟩ := by
      simp [Data2D.run, Data2D.step, Data2D.addPoint, Data2D.empty, setItem]
    rw [hd]
    simp [Data2D.getKeysAndValuesAndErrors, Data2D.sort, sortItems]
  · simp [errorOfLastValue]

/-! ### Nearest point -/

theorem nearestLoop_spec (x : K) (rest : List (K × K)) (lastX lastY : K) (hs : Ascending ((lastX, lastY) :: rest))
    (hx : lastX ≤ x) :
    IsNearestPoint x ((lastX, lastY) :: rest) (nearestLoop x lastX lastY (x - lastX) rest) := by
  induction rest generalizing lastX lastY with
  | nil =>
    refine ⟨by simp [nearestLoop], fun q hq => ?_⟩
    rw [List.mem_singleton] at hq
    subst hq
    simp [nearestLoop]
  | cons c rest ih =>
    obtain ⟨cx, cy⟩ := c
    obtain ⟨h1, h2⟩ := List.pairwise_cons.1 hs
    have hlc : lastX < cx := h1 (cx, cy) (by simp)
    have hrest := (List.pairwise_cons.1 h2).1
    unfold nearestLoop
    by_cases hneg : x - cx < 0
    · rw [if_pos hneg]
      have habs : |x - cx| = cx - x := by rw [abs_of_neg hneg]; ring
      have habsl : |x - lastX| = x - lastX := abs_of_nonneg (by linarith)
      have hfar : ∀ q ∈ rest, |x - q.1| = q.1 - x ∧ cx < q.1 := by
        intro q hq
        have := hrest q hq
        simp only at this
        rw [abs_of_neg (by linarith)]
        exact ⟨by ring, this⟩
      by_cases hlt : |x - cx| < x - lastX
      · rw [if_pos hlt]
        refine ⟨by simp, fun q hq => ?_⟩
        rcases List.mem_cons.1 hq with rfl | hq
        · simp only [habsl]
          exact ⟨hlt.le, fun e => absurd e hlt.ne⟩
        · rcases List.mem_cons.1 hq with rfl | hq
          · exact ⟨le_refl _, fun _ => le_refl _⟩
          · obtain ⟨e, hc⟩ := hfar q hq
            simp only [habs, e]
            exact ⟨by linarith, fun _ => hc.le⟩
      · rw [if_neg hlt]
        rw [habs] at hlt
        refine ⟨by simp, fun q hq => ?_⟩
        rcases List.mem_cons.1 hq with rfl | hq
        · exact ⟨le_refl _, fun _ => le_refl _⟩
        · rcases List.mem_cons.1 hq with rfl | hq
          · simp only [habs, habsl]
            exact ⟨by linarith, fun _ => hlc.le⟩
          · obtain ⟨e, hc⟩ := hfar q hq
            simp only [habsl, e]
            exact ⟨by linarith, fun _ => by linarith⟩
    · rw [if_neg hneg]
      obtain ⟨i1, i2⟩ := ih cx cy h2 (by linarith)
      refine ⟨List.mem_cons_of_mem _ i1, fun q hq => ?_⟩
      rcases List.mem_cons.1 hq with rfl | hq
      · have := (i2 (cx, cy) (by simp)).1
        have e1 : |x - cx| = x - cx := abs_of_nonneg (by linarith)
        have e2 : |x - lastX| = x - lastX := abs_of_nonneg (by linarith)
        simp only [e1] at this
        simp only [e2]
        exact ⟨by linarith, fun e => by linarith⟩
      · exact i2 q hq

/-- **C82**. After any history with at least one point, the nearest point found is the nearest one (the lower one of
two). -/
theorem C82_nearest (ops : List (Data2D.Op K)) (x : K) :
    match ((Data2D.run ops).getNearestPoint x).2 with
    | none => (Data2D.run ops).data = []
    | some p => IsNearestPoint x (Data2D.run ops).data p := by
  obtain ⟨n1, -⟩ := run_nodup ops
  have hs := sortItems_ascending _ n1
  have hm := mem_sortItems (Data2D.run ops).data
  have hp := sortItems_perm (Data2D.run ops).data
  simp only [Data2D.getNearestPoint, Data2D.sort]
  generalize sortItems (Data2D.run ops).data = s at hs hm hp
  have key : ∀ p, IsNearestPoint x s p → IsNearestPoint x (Data2D.run ops).data p :=
    fun p h => ⟨(hm p).1 h.1, fun q hq => h.2 q ((hm q).2 hq)⟩
  rcases s with _ | ⟨⟨fx, fy⟩, rest⟩
  · exact hp.symm.eq_nil
  · by_cases hx : x ≤ fx
    · simp only [nearest, if_pos hx]
      apply key
      refine ⟨by simp, fun q hq => ?_⟩
      have e1 : |x - fx| = fx - x := by rw [abs_of_nonpos (by linarith)]; ring
      have hq' : fx ≤ q.1 := by
        rcases List.mem_cons.1 hq with rfl | hq
        · exact le_refl _
        · exact ((List.pairwise_cons.1 hs).1 q hq).le
      have e2 : |x - q.1| = q.1 - x := by rw [abs_of_nonpos (by linarith)]; ring
      simp only [e1, e2]
      exact ⟨by linarith, fun _ => hq'⟩
    · simp only [nearest, if_neg hx]
      exact key _ (nearestLoop_spec x rest fx fy hs (not_le.1 hx).le)

/-! ### Extrema -/

theorem asc_lt {s : List (K × K)} (hs : Ascending s) {i j : ℕ} (hij : i < j) (hj : j < s.length) :
    (s[i]'(hij.trans hj)).1 < s[j].1 := List.pairwise_iff_getElem.1 hs i j _ hj hij

theorem asc_le {s : List (K × K)} (hs : Ascending s) {i j : ℕ} (hij : i ≤ j) (hj : j < s.length) :
    (s[i]'(lt_of_le_of_lt hij hj)).1 ≤ s[j].1 := by
  rcases hij.lt_or_eq with h | h
  · exact (asc_lt hs h hj).le
  · subst h; exact le_refl _

theorem asc_index {s : List (K × K)} (hs : Ascending s) {i j : ℕ} (hi : i < s.length) (hj : j < s.length)
    (h : s[i].1 < s[j].1) : i < j := by
  by_contra hn
  exact absurd (asc_le hs (not_lt.1 hn) hi) (not_le.2 h)

theorem nextOf_iff {s : List (K × K)} (hs : Ascending s) {i : ℕ} (hi : i < s.length) (q : K × K) :
    NextOf s s[i] q ↔ s[i + 1]? = some q := by
  constructor
  · rintro ⟨hq, h1, h2⟩
    obtain ⟨j, hj, rfl⟩ := List.getElem_of_mem hq
    have hij := asc_index hs hi hj h1
    have hi1 : i + 1 < s.length := by omega
    have := h2 s[i + 1] (List.getElem_mem _) (asc_lt hs (by omega) hi1)
    have : j = i + 1 := by
      by_contra hne
      exact absurd (asc_lt hs (by omega : i + 1 < j) hj) (not_lt.2 this)
    subst this
    exact List.getElem?_eq_getElem hj
  · intro h
    obtain ⟨hi1, rfl⟩ := List.getElem?_eq_some_iff.1 h
    refine ⟨List.getElem_mem _, asc_lt hs (by omega) hi1, fun r hr hlt => ?_⟩
    obtain ⟨j, hj, rfl⟩ := List.getElem_of_mem hr
    exact asc_le hs (asc_index hs hi hj hlt) hj

theorem prevOf_iff {s : List (K × K)} (hs : Ascending s) {i : ℕ} (hi : i < s.length) (q : K × K) :
    PrevOf s s[i] q ↔ i ≠ 0 ∧ s[i - 1]? = some q := by
  constructor
  · rintro ⟨hq, h1, h2⟩
    obtain ⟨j, hj, rfl⟩ := List.getElem_of_mem hq
    have hij := asc_index hs hj hi h1
    have hi1 : i - 1 < s.length := by omega
    have := h2 s[i - 1] (List.getElem_mem _) (asc_lt hs (by omega) hi)
    have : j = i - 1 := by
      by_contra hne
      exact absurd (asc_lt hs (by omega : j < i - 1) hi1) (not_lt.2 this)
    subst this
    exact ⟨by omega, List.getElem?_eq_getElem hj⟩
  · rintro ⟨h0, h⟩
    obtain ⟨hi1, rfl⟩ := List.getElem?_eq_some_iff.1 h
    refine ⟨List.getElem_mem _, asc_lt hs (by omega) hi, fun r hr hlt => ?_⟩
    obtain ⟨j, hj, rfl⟩ := List.getElem_of_mem hr
    have := asc_index hs hj hi hlt
    exact asc_le hs (by omega) hi1

theorem isExtremum_iff (cmp : K → K → Bool) (incl : Bool) {s : List (K × K)} (hs : Ascending s) {i : ℕ}
    (hi : i < s.length) :
    isExtremum cmp incl s i s[i].2 = true ↔ IsLocalExtremum (fun a b => cmp a b = true) incl s s[i] := by
  have hmem : s[i] ∈ s := List.getElem_mem _
  unfold IsLocalExtremum isExtremum
  simp only [hmem, true_and, nextOf_iff hs hi, prevOf_iff hs hi]
  by_cases h0 : i = 0
  · subst h0
    simp only [if_true, ne_eq, not_true_eq_false, false_and, or_false, exists_false, and_false]
    cases incl with
    | false => simp
    | true =>
      cases hn : s[0 + 1]? with
      | none => simp
      | some q => simp
  · rw [if_neg h0]
    obtain ⟨p, hp⟩ : ∃ p, s[i - 1]? = some p := ⟨_, List.getElem?_eq_getElem (by omega)⟩
    rw [hp]
    cases hn : s[i + 1]? with
    | none =>
      cases incl with
      | false => simp
      | true =>
        simp only [ne_eq, h0, not_false_eq_true, true_and, reduceCtorEq, false_or, Option.some.injEq]
        simp
    | some q =>
      simp only [ne_eq, h0, not_false_eq_true, true_and, Option.some.injEq, exists_eq', and_self, implies_true, and_true]
      by_cases h1 : cmp s[i].2 p.2 = true <;> by_cases h2 : cmp s[i].2 q.2 = true <;> simp [h1, h2] <;> try tauto
      all_goals grind

theorem isLocalExtremum_congr (better : K → K → Prop) (incl : Bool) {s t : List (K × K)} (h : ∀ p, p ∈ s ↔ p ∈ t)
    (p : K × K) : IsLocalExtremum better incl s p ↔ IsLocalExtremum better incl t p := by
  unfold IsLocalExtremum NextOf PrevOf
  simp only [h]

theorem mem_getLocalExtremaBy (cmp : K → K → Bool) (incl : Bool) (ops : List (Data2D.Op K)) (p : K × K) :
    p ∈ (Data2D.run ops).getLocalExtremaBy cmp incl ↔
      IsLocalExtremum (fun a b => cmp a b = true) incl (Data2D.run ops).data p := by
  obtain ⟨n1, -⟩ := run_nodup ops
  have hs := sortItems_ascending _ n1
  rw [← isLocalExtremum_congr _ _ (mem_sortItems (Data2D.run ops).data)]
  simp only [Data2D.getLocalExtremaBy, Data2D.sort]
  generalize sortItems (Data2D.run ops).data = s at hs
  simp only [List.mem_map, List.mem_filter]
  constructor
  · rintro ⟨⟨q, i⟩, ⟨h1, h2⟩, rfl⟩
    obtain ⟨-, hi, e⟩ := List.mem_zipIdx h1
    simp only [Nat.sub_zero, Nat.zero_add] at hi e
    simp only [e] at h2 ⊢
    exact (isExtremum_iff cmp incl hs (by omega)).1 h2
  · intro h
    obtain ⟨i, hi, rfl⟩ := List.getElem_of_mem h.1
    refine ⟨(s[i], i), ⟨?_, (isExtremum_iff cmp incl hs hi).2 h⟩, rfl⟩
    rw [List.mem_zipIdx_iff_getElem?]
    exact List.getElem?_eq_getElem hi

/-- **C82**, extrema. After any history, the local maxima are exactly the points whose value is larger than those of the
neighbouring points (of which a point at the boundary has one, and a single point none), and likewise for minima. -/
theorem C82_maxima (incl : Bool) (ops : List (Data2D.Op K)) (p : K × K) :
    (p ∈ (Data2D.run ops).getLocalMaxima incl ↔
      IsLocalExtremum (fun a b => b < a) incl (Data2D.run ops).data p) ∧
    (p ∈ (Data2D.run ops).getLocalMinima incl ↔
      IsLocalExtremum (fun a b => a < b) incl (Data2D.run ops).data p) := by
  unfold Data2D.getLocalMaxima Data2D.getLocalMinima
  rw [mem_getLocalExtremaBy, mem_getLocalExtremaBy]
  simp only [decide_eq_true_eq, gt_iff_lt]
  exact ⟨trivial, trivial⟩

theorem mem_foldl_setItem (l r : List (K × K)) (hl : ∀ p ∈ l, ∀ q ∈ l, p.1 = q.1 → p = q)
    (hr : ∀ p ∈ r, ∀ q ∈ l, p.1 = q.1 → p = q) (p : K × K) :
    p ∈ l.foldl (fun r p => setItem r p.1 p.2) r ↔ p ∈ r ∨ p ∈ l := by
  induction l generalizing r with
  | nil => simp
  | cons q l ih =>
    rw [List.foldl_cons, ih]
    · rw [mem_setItem, List.mem_cons]
      constructor
      · rintro ((⟨h1, h2⟩ | h) | h)
        · right; left; exact Prod.ext h1 h2
        · left; exact h.2
        · right; right; exact h
      · rintro (h | h | h)
        · by_cases e : p.1 = q.1
          · have := hr p h q (by simp) e
            subst this
            left; left; exact ⟨rfl, rfl⟩
          · left; right; exact ⟨e, h⟩
        · subst h; left; left; exact ⟨rfl, rfl⟩
        · right; exact h
    · intro a ha b hb; exact hl a (by simp [ha]) b (by simp [hb])
    · intro a ha b hb e
      rw [mem_setItem] at ha
      rcases ha with ⟨h1, h2⟩ | ⟨-, h⟩
      · have : a = q := Prod.ext h1 h2
        subst this
        exact hl a (by simp) b (by simp [hb]) e
      · exact hr a h b (by simp [hb]) e

theorem mem_unique (ops : List (Data2D.Op K)) {p q : K × K} (hp : p ∈ (Data2D.run ops).data)
    (hq : q ∈ (Data2D.run ops).data) (h : p.1 = q.1) : p = q := by
  obtain ⟨a, b⟩ := p
  obtain ⟨c, d⟩ := q
  simp only at h
  subst h
  have h1 := (run_mem ops a b).1.1 hp
  have h2 := (run_mem ops a d).1.1 hq
  rw [h1] at h2
  rw [Option.some.inj h2]

/-- With Python 2, all local extrema are the maxima and the minima. -/
theorem C82_extrema_partial (incl : Bool) (ops : List (Data2D.Op K)) :
    ∃ l, (Data2D.run ops).getLocalExtrema false incl = .ok l ∧ ∀ p, p ∈ l ↔
      IsLocalExtremum (fun a b => b < a) incl (Data2D.run ops).data p ∨
      IsLocalExtremum (fun a b => a < b) incl (Data2D.run ops).data p := by
  refine ⟨_, rfl, fun p => ?_⟩
  have hsub : ∀ q ∈ sortItems ((Data2D.run ops).getLocalMinima incl ++ (Data2D.run ops).getLocalMaxima incl),
      q ∈ (Data2D.run ops).data := by
    intro q hq
    rw [mem_sortItems, List.mem_append] at hq
    rcases hq with hq | hq
    · exact ((C82_maxima incl ops q).2.1 hq).1
    · exact ((C82_maxima incl ops q).1.1 hq).1
  rw [mem_foldl_setItem _ _ (fun a ha b hb e => mem_unique ops (hsub a ha) (hsub b hb) e) (by simp)]
  rw [mem_sortItems, List.mem_append, (C82_maxima incl ops p).1, (C82_maxima incl ops p).2]
  simp only [List.not_mem_nil, false_or]
  exact or_comm

/-- **Violation of C82.** With Python 3, asking for all local extrema always raises `TypeError`. -/
theorem C82_extrema_violated (incl : Bool) (d : Data2D K) : d.getLocalExtrema true incl = .error .typeError := rfl

/-! ## C83: moving averages -/

/-- The state of the loop after the first `n` points: the window starts with point `b`, and the averages so far. -/
theorem average_loop {s : List (K × K)} (hs : Ascending s) (w : K)
    (hC : EvenlyWindowed s w) (n : ℕ) (hn : n ≤ s.length) :
    ∃ b, b ≤ n ∧ ((s.take n).foldl (averageStep w) ([], [])).1 = (s.take n).drop b ∧
      (∀ x a, (x, a) ∈ ((s.take n).foldl (averageStep w) ([], [])).2 ↔
        ∃ j i, i < n ∧ IsWindow s w j i ∧ (∀ hi : i < s.length, s[i].1 = x) ∧ meanOf s j i = a) ∧
      (((s.take n).foldl (averageStep w) ([], [])).2.map Prod.fst).Pairwise (· < ·) ∧
      (∀ x ∈ ((s.take n).foldl (averageStep w) ([], [])).2.map Prod.fst, ∀ hn' : n < s.length, x < s[n].1) ∧
      (∀ k, b < k → k ≤ n → ∀ (hn' : n < s.length) (hk : k < s.length), s[n].1 - s[k].1 < w) ∧
      (b = 0 ∨ ∃ m, n = m + 1 ∧ ∃ c, b = c + 1 ∧ ∀ (hm : m < s.length) (hc : c < s.length), w ≤ s[m].1 - s[c].1) := by
  induction n with
  | zero =>
    refine ⟨0, le_refl _, by simp, by simp, by simp, by simp, ?_, .inl rfl⟩
    intro k h1 h2; omega
  | succ n ih =>
    obtain ⟨b, hb, hw, ha, hsort, hlast, hmin, hmoved⟩ := ih (by omega)
    have hn' : n < s.length := by omega
    rw [List.take_succ_eq_append_getElem hn', List.foldl_append, List.foldl_cons, List.foldl_nil]
    generalize hg : (s.take n).foldl (averageStep w) ([], []) = st at hw ha hsort hlast
    have hwin : st.1 ++ [s[n]] = (s.take (n + 1)).drop b := by
      rw [hw, List.take_succ_eq_append_getElem hn', List.drop_append_of_le_length (by simp; omega)]
    have hlen : (s.take (n + 1)).length = n + 1 := by simp; omega
    have hbl : b < (s.take (n + 1)).length := by omega
    have hcons : (s.take (n + 1)).drop b = s[b] :: (s.take (n + 1)).drop (b + 1) := by
      rw [List.drop_eq_getElem_cons hbl, List.getElem_take]
    have hstep : averageStep w st s[n] =
        if w ≤ s[n].1 - s[b].1 then
          ((s.take (n + 1)).drop (b + 1), st.2 ++ [(s[n].1, meanOf s b n)])
        else ((s.take (n + 1)).drop b, st.2) := by
      unfold averageStep
      simp only [hwin]
      rw [hcons]
      simp only [List.tail_cons]
      by_cases h : w ≤ s[n].1 - s[b].1
      · rw [if_pos h, if_pos h, ← hcons]
        unfold meanOf
        have e1 : (s.take (n + 1)).drop b = (s.drop b).take (n + 1 - b) := by rw [List.drop_take]
        have e2 : ((s.drop b).take (n + 1 - b)).length = n + 1 - b := by simp; omega
        rw [e1, e2]
      · rw [if_neg h, if_neg h]
    have happ : s.take n ++ [s[n]] = s.take (n + 1) := (List.take_succ_eq_append_getElem hn').symm
    rw [hstep, happ]
    have hold : ∀ x ∈ st.2.map Prod.fst, x < s[n].1 := fun x hx => hlast x hx hn'
    have hcont : ∀ (b' : ℕ), (b' = b + 1 ∧ w ≤ s[n].1 - s[b].1) ∨ (b' = b ∧ s[n].1 - s[b].1 < w) →
        ∀ k, b' < k → k ≤ n + 1 → ∀ (hn'' : n + 1 < s.length) (hk : k < s.length), s[n + 1].1 - s[k].1 < w := by
      intro b' hb' k h1 h2 hn'' hk
      by_contra hcon
      rw [not_lt] at hcon
      obtain ⟨k', rfl⟩ : ∃ k', k = k' + 1 := ⟨k - 1, by omega⟩
      have hk' := (hC n k' (by omega) hn'' (by omega) (by omega) hk).2 hcon
      rcases hb' with ⟨rfl, -⟩ | ⟨rfl, hlt⟩
      · exact absurd hk' (not_le.2 (hmin k' (by omega) (by omega) hn' (by omega)))
      · have := asc_le hs (by omega : b' ≤ k') (by omega : k' < s.length)
        linarith
    by_cases h : w ≤ s[n].1 - s[b].1
    · rw [if_pos h]
      have hwinb : IsWindow s w b n := ⟨hb, hn', fun _ => h, fun k h1 h2 hk => hmin k h1 h2 hn' hk⟩
      have huniq : ∀ j, IsWindow s w j n → j = b := by
        rintro j ⟨hj, hn1, h1, h2⟩
        have hjl : j < s.length := by omega
        by_contra hne
        rcases lt_or_gt_of_ne hne with hlt | hgt
        · exact absurd h (not_le.2 (h2 b hlt hb (by omega)))
        · exact absurd (h1 hjl) (not_le.2 (hmin j hgt hj hn' hjl))
      refine ⟨b + 1, by omega, rfl, fun x a => ?_, ?_, ?_, hcont _ (.inl ⟨rfl, h⟩), .inr ⟨n, rfl, b, rfl, fun _ _ => h⟩⟩
      · simp only [List.mem_append, List.mem_singleton, Prod.mk.injEq]
        rw [ha]
        constructor
        · rintro (⟨j, i, hi, h1, h2, h3⟩ | ⟨rfl, rfl⟩)
          · exact ⟨j, i, by omega, h1, h2, h3⟩
          · exact ⟨b, n, by omega, hwinb, fun _ => rfl, rfl⟩
        · rintro ⟨j, i, hi, h1, h2, h3⟩
          by_cases hin : i = n
          · subst hin
            have := huniq j h1
            subst this
            exact .inr ⟨(h2 hn').symm, h3.symm⟩
          · exact .inl ⟨j, i, by omega, h1, h2, h3⟩
      · rw [List.map_append, List.pairwise_append]
        refine ⟨hsort, by simp, fun x hx y hy => ?_⟩
        simp only [List.map_cons, List.map_nil, List.mem_singleton] at hy
        subst hy
        exact hold x hx
      · intro x hx hn''
        rw [List.map_append, List.mem_append] at hx
        have := asc_lt hs (by omega : n < n + 1) hn''
        rcases hx with hx | hx
        · exact (hold x hx).trans this
        · simp only [List.map_cons, List.map_nil, List.mem_singleton] at hx
          subst hx
          exact this
    · rw [if_neg h]
      have hb0 : b = 0 := by
        rcases hmoved with h0 | ⟨m, rfl, c, rfl, hc⟩
        · exact h0
        · exact absurd ((hC m c (by omega) hn' (by omega) (by omega) (by omega)).1 (hc (by omega) (by omega))) h
      refine ⟨b, by omega, rfl, fun x a => ?_, hsort, ?_, hcont _ (.inr ⟨rfl, not_le.1 h⟩), .inl hb0⟩
      · rw [ha]
        constructor
        · rintro ⟨j, i, hi, h1, h2, h3⟩
          exact ⟨j, i, by omega, h1, h2, h3⟩
        · rintro ⟨j, i, hi, h1, h2, h3⟩
          by_cases hin : i = n
          · subst hin
            obtain ⟨hj, hn1, g1, g2⟩ := h1
            have hjl : j < s.length := by omega
            exfalso
            rcases Nat.eq_zero_or_pos j with h0 | hpos
            · subst h0; subst hb0
              exact h (g1 hjl)
            · exact absurd (g1 hjl) (not_le.2 (hmin j (by omega) hj hn' hjl))
          · exact ⟨j, i, by omega, h1, h2, h3⟩
      · intro x hx hn''
        exact (hold x hx).trans (asc_lt hs (by omega) hn'')

/-- **C83**, as far as it holds: if moving a run of points by one does not change whether it is at least as wide as the
window, the moving average contains exactly the points at which a run of points as wide as the window ends, each with the
mean value of the shortest one. -/
theorem C83_partial (ops : List (Data2D.Op K)) (w : K)
    (hC : EvenlyWindowed (Data2D.run ops).sort.data w) :
    (((Data2D.run ops).getSimpleMovingAverageDict w).map Prod.fst).Pairwise (· < ·) ∧
    ∀ x a, (x, a) ∈ (Data2D.run ops).getSimpleMovingAverageDict w ↔
      ∃ j i, IsWindow (Data2D.run ops).sort.data w j i ∧
        (∀ hi : i < (Data2D.run ops).sort.data.length, (Data2D.run ops).sort.data[i].1 = x) ∧
        meanOf (Data2D.run ops).sort.data j i = a := by
  have hs : Ascending (Data2D.run ops).sort.data := sortItems_ascending _ (run_nodup ops).1
  obtain ⟨b, -, -, h1, h2, -⟩ := average_loop hs w hC _ (le_refl _)
  rw [List.take_length] at h1 h2
  refine ⟨h2, fun x a => (h1 x a).trans ?_⟩
  constructor
  · rintro ⟨j, i, -, h⟩; exact ⟨j, i, h⟩
  · rintro ⟨j, i, h⟩
    obtain ⟨-, hi, -⟩ := h.1
    exact ⟨j, i, hi, h⟩

/-- Equidistant points satisfy the condition, whatever the window. -/
theorem evenlyWindowed_of_equidistant (points : List (K × K)) (δ w : K)
    (h : ∀ i (hi : i + 1 < points.length), points[i + 1].1 - points[i].1 = δ) : EvenlyWindowed points w := by
  intro i j _ hi hi' hj' hj
  have h1 := h i hi
  have h2 := h j hj
  constructor <;> intro h3 <;> linarith

/-- **Violation of C83.** For points which are not equidistant, the average may be over too many points: here the one for
`10` is over those from `1`, although the run from `2` is as wide as the window; -/
theorem C83_too_many_violated :
    (Data2D.run [.addPoint (0 : ℚ) 0 none, .addPoint 1 6 none, .addPoint 2 0 none,
      .addPoint 10 0 none]).getSimpleMovingAverageDict 2 = [(2, 2), (10, 2)] ∧
    IsWindow [((0 : ℚ), (0 : ℚ)), (1, 6), (2, 0), (10, 0)] 2 2 3 ∧
    meanOf [((0 : ℚ), (0 : ℚ)), (1, 6), (2, 0), (10, 0)] 2 3 = 0 := by
  refine ⟨?_, ⟨by omega, by decide, fun _ => by norm_num, ?_⟩, by simp [meanOf]⟩
  · unfold Data2D.getSimpleMovingAverageDict Data2D.sort
    rw [sortItems_eq (s := [(0, 0), (1, 6), (2, 0), (10, 0)]) (by decide +kernel) (by unfold Ascending; decide +kernel)]
    decide +kernel
  intro k h1 h2 _
  obtain rfl : k = 3 := by omega
  norm_num

/-- ... and averages may be missing: here that for `3`, which the run from `0` ends with. -/
theorem C83_missing_violated :
    (Data2D.run [.addPoint (0 : ℚ) 0 none, .addPoint 2 6 none,
      .addPoint 3 0 none]).getSimpleMovingAverageDict 2 = [(2, 3)] ∧
    IsWindow [((0 : ℚ), (0 : ℚ)), (2, 6), (3, 0)] 2 0 2 := by
  refine ⟨?_, by omega, by decide, fun _ => by norm_num, ?_⟩
  · unfold Data2D.getSimpleMovingAverageDict Data2D.sort
    rw [sortItems_eq (s := [(0, 0), (2, 6), (3, 0)]) (by decide +kernel) (by unfold Ascending; decide +kernel)]
    decide +kernel
  intro k h1 h2 _
  have : k = 1 ∨ k = 2 := by omega
  rcases this with rfl | rfl <;> norm_num

/-- An example with equidistant points. -/
example : (Data2D.run [.addPoint (2 : ℚ) 0 none, .addPoint 1 6 none, .addPoint 0 0 none, .addPoint 3 9 (some 1)]
    ).getSimpleMovingAverageDict (3/2) = [(2, 2), (3, 5)] ∧
    EvenlyWindowed (Data2D.run [.addPoint (2 : ℚ) 0 none, .addPoint 1 6 none, .addPoint 0 0 none,
      .addPoint 3 9 (some 1)]).sort.data (3/2) := by
  have h : (Data2D.run [.addPoint (2 : ℚ) 0 none, .addPoint 1 6 none, .addPoint 0 0 none,
      .addPoint 3 9 (some 1)]).sort.data = [(0, 0), (1, 6), (2, 0), (3, 9)] :=
    sortItems_eq (by decide +kernel) (by unfold Ascending; decide +kernel)
  unfold Data2D.getSimpleMovingAverageDict
  rw [h]
  refine ⟨by decide +kernel, ?_⟩
  apply evenlyWindowed_of_equidistant _ 1
  intro i hi
  simp only [List.length_cons, List.length_nil] at hi
  have : i = 0 ∨ i = 1 ∨ i = 2 := by omega
  rcases this with rfl | rfl | rfl <;> norm_num

/-! ## C84: saving and reading -/

theorem writeTo_pairs {io : Io K} {rnd : K → K} (hio : Rounds io rnd) (data errors : List (K × K)) :
    pairsIn io (data.flatMap fun p =>
      match errors.lookup p.1 with
      | none => tabLine (io.fmt p.1) [io.fmt p.2]
      | some e => tabLine (io.fmt p.1) [io.fmt p.2, io.fmt e]) =
    (data.filter fun p => (errors.lookup p.1).isNone).map fun p => (rnd p.1, rnd p.2) := by
  have h1 : (data.flatMap fun p =>
      match errors.lookup p.1 with
      | none => tabLine (io.fmt p.1) [io.fmt p.2]
      | some e => tabLine (io.fmt p.1) [io.fmt p.2, io.fmt e]) =
      (data.map fun p => (io.fmt p.1, io.fmt p.2 :: ((errors.lookup p.1).map io.fmt).toList)).flatMap
        fun r => tabLine r.1 r.2 := by
    rw [List.flatMap_map]
    congr 1
    funext p
    cases errors.lookup p.1 <;> rfl
  have h2 : ∀ r ∈ data.map fun p => (io.fmt p.1, io.fmt p.2 :: ((errors.lookup p.1).map io.fmt).toList),
      Token r.1 ∧ ∀ t ∈ r.2, Token t := by
    intro r hr
    obtain ⟨p, -, rfl⟩ := List.mem_map.1 hr
    refine ⟨hio.token_fmt _, fun t ht => ?_⟩
    rcases List.mem_cons.1 ht with rfl | ht
    · exact hio.token_fmt _
    · cases hl : errors.lookup p.1 with
      | none => simp [hl] at ht
      | some e =>
        simp only [hl, Option.map_some, Option.toList_some, List.mem_singleton] at ht
        subst ht
        exact hio.token_fmt _
  unfold pairsIn
  rw [h1, words_pyLines _ h2, List.map_map, List.filterMap_map]
  clear h1 h2
  induction data with
  | nil => rfl
  | cons p data ih =>
    rw [List.filterMap_cons, List.filter_cons]
    cases hl : errors.lookup p.1 with
    | none => simp [floatPair, hio.parse_fmt, hl, ih]
    | some e => simp [floatPair, hl, ih]

/-- **C84**, as far as it holds: after any history, if printing does not make points coincide, reading the file that was
written gives exactly the points without error, with the numbers as printed. -/
theorem C84_partial {io : Io K} {rnd : K → K} (hio : Rounds io rnd) (ops : List (Data2D.Op K)) (sortFirst : Bool)
    (hinj : ∀ p ∈ (Data2D.run ops).data, ∀ q ∈ (Data2D.run ops).data, rnd p.1 = rnd q.1 → p.1 = q.1) :
    ∃ d, Data2D.read io ((Data2D.run ops).writeTo io sortFirst) = .ok d ∧ d.errors = [] ∧ Ascending d.data ∧
      ∀ p, p ∈ d.data ↔ ∃ x y, lastValue ops x = some y ∧ lastError ops x = none ∧ p = (rnd x, rnd y) := by
  obtain ⟨n1, n2⟩ := run_nodup ops
  have hrun := run_mem ops
  generalize Data2D.run ops = d0 at n1 n2 hrun hinj
  have key : ∀ d : Data2D K, (d.data.map Prod.fst).Nodup → (d.errors.map Prod.fst).Nodup →
      (∀ p, p ∈ d.data ↔ p ∈ d0.data) → (∀ p, p ∈ d.errors ↔ p ∈ d0.errors) →
      ∃ d', Data2D.read io (d.writeTo io false) = .ok d' ∧ d'.errors = [] ∧ Ascending d'.data ∧
      ∀ p, p ∈ d'.data ↔ ∃ x y, lastValue ops x = some y ∧ lastError ops x = none ∧ p = (rnd x, rnd y) := by
    intro d m1 m2 hd he
    have hpairs := writeTo_pairs hio d.data d.errors
    have hused := (C77_partial io none (d.writeTo io false)).1
    have hw : pairsIn io (d.writeTo io false) =
        (d.data.filter fun p => (d.errors.lookup p.1).isNone).map fun p => (rnd p.1, rnd p.2) := hpairs
    have hf : (pairsIn io (d.writeTo io false)).filter (actualUse none) = pairsIn io (d.writeTo io false) := by
      rw [List.filter_eq_self]; intro _ _; rfl
    rw [hf, hw] at hused
    obtain ⟨data, h1, h2, h3⟩ := hused (by
      rw [List.map_map]
      have hn : ((d.data.filter fun p => (d.errors.lookup p.1).isNone).map Prod.fst).Nodup :=
        m1.sublist (List.filter_sublist.map _)
      rw [List.Nodup, List.pairwise_map] at hn ⊢
      refine hn.imp_of_mem fun {p q} hp hq hne heq => hne ?_
      exact hinj p ((hd p).1 (List.mem_of_mem_filter hp)) q ((hd q).1 (List.mem_of_mem_filter hq)) heq)
    refine ⟨⟨data, []⟩, by rw [Data2D.read, h1]; rfl, rfl, h3, fun p => ?_⟩
    simp only [h2.mem_iff, List.mem_map, List.mem_filter, Option.isNone_iff_eq_none]
    have hl : ∀ x, d.errors.lookup x = lastError ops x := by
      intro x
      apply Option.ext
      intro v
      rw [lookup_eq_some m2, he]
      exact (hrun x v).2
    constructor
    · rintro ⟨⟨x, y⟩, ⟨h4, h5⟩, rfl⟩
      exact ⟨x, y, (hrun x y).1.1 ((hd _).1 h4), (hl x).symm.trans h5, rfl⟩
    · rintro ⟨x, y, h4, h5, rfl⟩
      exact ⟨(x, y), ⟨(hd _).2 ((hrun x y).1.2 h4), (hl x).trans h5⟩, rfl⟩
  cases sortFirst with
  | false => exact key d0 n1 n2 (fun _ => Iff.rfl) fun _ => Iff.rfl
  | true =>
    exact key d0.sort (((sortItems_perm _).map Prod.fst).nodup_iff.2 n1) (((sortItems_perm _).map Prod.fst).nodup_iff.2 n2)
      (mem_sortItems _) (mem_sortItems _)

/-- **Violation of C84.** A point which has an error is lost when the file is read. -/
theorem C84_violated {io : Io K} {rnd : K → K} (hio : Rounds io rnd) (x y e : K) (sortFirst : Bool) :
    Data2D.read io ((Data2D.run [.addPoint x y (some e)]).writeTo io sortFirst) = .ok ⟨[], []⟩ := by
  obtain ⟨⟨data, errors⟩, h1, h2, -, h4⟩ := C84_partial hio [.addPoint x y (some e)] sortFirst (by
    intro p hp q hq _
    simp only [Data2D.run, Data2D.step, Data2D.addPoint, Data2D.empty, setItem, List.foldl_cons, List.foldl_nil,
      List.map_nil, List.not_mem_nil, if_false, List.nil_append, List.mem_singleton] at hp hq
    rw [hp, hq])
  simp only at h2 h4
  subst h2
  rw [h1]
  have : data = [] := by
    rw [List.eq_nil_iff_forall_not_mem]
    intro p hp
    obtain ⟨x', y', h5, h6, -⟩ := (h4 p).1 hp
    by_cases hx : x = x'
    · simp [lastError, hx] at h6
    · simp [lastValue, hx] at h5
  rw [this]

/-- The history of an example: the point nearest to `3/2`, the maxima and the minima. -/
example :
    let d := Data2D.run [.addPoint (2 : ℚ) 0 none, .addPoint 1 6 none, .addPoint 0 0 none, .addPoint 2 9 (some 1)]
    (d.getNearestPoint (3/2)).2 = some (1, 6) ∧ d.getLocalMaxima true = [(2, 9)] ∧ d.getLocalMaxima false = [] ∧
    d.getLocalMinima true = [(0, 0)] ∧ d.getKeysAndValuesAndErrors = [(0, 0, none), (1, 6, none), (2, 9, some 1)] := by
  intro d
  have h1 : d.sort.data = [(0, 0), (1, 6), (2, 9)] :=
    sortItems_eq (by decide +kernel) (by unfold Ascending; decide +kernel)
  have h2 : d.sort.errors = [(2, 1)] := sortItems_eq (by decide +kernel) (by unfold Ascending; decide +kernel)
  simp only [Data2D.getNearestPoint, Data2D.getLocalMaxima, Data2D.getLocalMinima, Data2D.getLocalExtremaBy,
    Data2D.getKeysAndValuesAndErrors, h1, h2]
  decide +kernel

end OpenMPCD.Analysis
