import Verif.Analysis.Relax

/-!
# Plots of one number per run (C129)

The scripts `plotMeanSquareBondLengths.py`, `compareSelfDiffusionCoefficientMeasurementTimes.py` and
`plotFlowProfileParabolaDistortion.py` plot, for a number of runs, one number per run against a setting of the run, with a
curve for each value of another setting or each group of runs.
-/

set_option linter.unusedSectionVars false
set_option linter.unusedSimpArgs false

namespace OpenMPCD.Analysis.Overview

open Runs (Str)
open Snapshot (Io Token isSpace words wordsGo wordsGo_append)
open Relax (Dict upd keys keys_upd lookup_upd mem_iff_lookup mem_keys_iff)

/-! ## Model -/

section model
variable {κ ι V K : Type} [DecidableEq κ] [DecidableEq ι]

/-- `data[r.1][r.2.1] = r.2.2`, with an empty `OrderedDict` if there is no `data[r.1]`
(`Analysis/plotMeanSquareBondLengths.py:38-43`, `Analysis/compareSelfDiffusionCoefficientMeasurementTimes.py:24-32`). -/
def put (data : Dict κ (Dict ι V)) (r : κ × ι × V) : Dict κ (Dict ι V) :=
  upd r.1 (fun o => upd r.2.1 (fun _ => r.2.2) (o.getD [])) data

/-- What is read of a run: both spring constants, the shear rate, and the mean of the distribution of squared bond lengths
(`Analysis/plotMeanSquareBondLengths.py:29-41`). Simplification: files and settings exist. -/
structure BondRun where
  springConstant : ℝ
  springConstant2 : ℝ
  shearRate : ℝ
  mean : ℝ

/-- The loop over the runs (`Analysis/plotMeanSquareBondLengths.py:25-43`). `math.sqrt` refuses negative numbers. -/
noncomputable def readBonds (data : Dict ℝ (Dict ℝ ℝ)) (r : BondRun) : Except PyErr (Dict ℝ (Dict ℝ ℝ)) :=
  if r.springConstant ≠ r.springConstant2 then .error .valueError
  else if r.mean < 0 then .error .valueError
  else .ok (put data (r.springConstant, r.shearRate, Real.sqrt r.mean))

/-- The loop writing the curves to be plotted (`Analysis/plotMeanSquareBondLengths.py:50-58`,
`Analysis/compareSelfDiffusionCoefficientMeasurementTimes.py:50-58`). -/
def entries : Bool → List Str → Str
  | _, [] => []
  | first, t :: ts => (if first then ['p', 'l', 'o', 't', ' '] else [',', ' ']) ++ t ++ entries false ts

/-- A line with numbers. -/
def dataLine (sep : Char) : List Str → Str
  | [] => ['\n']
  | t :: ts => t ++ ts.flatMap (sep :: ·) ++ ['\n']

/-- The data of a curve. -/
def block (sep : Char) (rows : List (List Str)) : Str := rows.flatMap (dataLine sep) ++ ['e', '\n']

/-- The first lines (`Analysis/plotMeanSquareBondLengths.py:46-48`). -/
def bondSettings : List Str := ["set terminal wxt persist".toList, "set xlabel 'Shear Rate'".toList,
  "set ylabel 'Root Mean Square Bond Length'".toList]

/-- The text before the spring constant (`Analysis/plotMeanSquareBondLengths.py:58`). -/
def dataCurve : Str := "'-' with linespoints title 'Data k=".toList

/-- A curve of data (`Analysis/plotMeanSquareBondLengths.py:58`). -/
def bondTitle (io : Io ℝ) (k : ℝ) : Str := dataCurve ++ io.fmt k ++ ['\'']

/-- The text before the spring constant (`Analysis/plotMeanSquareBondLengths.py:61`). -/
def theoryCurve : Str := "'-' with lines title 'Theory k=".toList

/-- A curve of the theory (`Analysis/plotMeanSquareBondLengths.py:61`). -/
def theoryTitle (k : Str) : Str := theoryCurve ++ k ++ ['\'']

/-- The text sent to `gnuplot` (`Analysis/plotMeanSquareBondLengths.py:46-77`); `theory`: the spring constant and the contents
of the file, if given. -/
noncomputable def bondText (io : Io ℝ) (data : Dict ℝ (Dict ℝ ℝ)) (theory : Option (Str × Str)) : Str :=
  bondSettings.flatMap (· ++ ['\n']) ++ entries true (data.map fun c => bondTitle io c.1) ++
    (match theory with
      | none => []
      | some (k, _) => [',', ' '] ++ theoryTitle k) ++ ['\n'] ++
    data.flatMap (fun c => block ' ' (c.2.map fun p => [io.fmt p.1, io.fmt p.2])) ++
    (match theory with
      | none => []
      | some (_, t) => t ++ ['e', '\n'])

/-- The script (`Analysis/plotMeanSquareBondLengths.py:25-77`). -/
noncomputable def bondScript (io : Io ℝ) (theory : Option (Str × Str)) (runs : List BondRun) : Except PyErr Str :=
  match runs.foldlM readBonds [] with
  | .error e => .error e
  | .ok data => .ok (bondText io data theory)

/-- The first lines (`Analysis/compareSelfDiffusionCoefficientMeasurementTimes.py:46-48`). -/
def diffusionSettings : List Str := ["set terminal wxt persist".toList, "set xlabel 'shear rate'".toList,
  "set ylabel 'self-diffusion coefficient'".toList]

/-- The text before the measurement time (`Analysis/compareSelfDiffusionCoefficientMeasurementTimes.py:58`). -/
def errorBars : Str := "'-' using 1:2:3 with yerrorbars title '".toList

/-- A curve (`Analysis/compareSelfDiffusionCoefficientMeasurementTimes.py:58`). -/
def diffusionTitle (io : Io ℝ) (t : ℝ) : Str := errorBars ++ io.fmt t ++ ['\'']

/-- The text sent to `gnuplot` (`Analysis/compareSelfDiffusionCoefficientMeasurementTimes.py:15-63`), for the measurement time,
the shear rate, and mean and deviation of each run. Simplification: files and settings exist. -/
noncomputable def diffusionText (io : Io ℝ) (runs : List (ℝ × ℝ × ℝ × ℝ)) : Str :=
  let points := runs.foldl put []
  diffusionSettings.flatMap (· ++ ['\n']) ++ entries true (points.map fun c => diffusionTitle io c.1) ++ ['\n'] ++
    points.flatMap fun c => block ' ' (c.2.map fun p => [io.fmt p.1, io.fmt p.2.1, io.fmt p.2.2])

/-- `"--group"`. -/
def groupOption : Str := ['-', '-', 'g', 'r', 'o', 'u', 'p']

/-- `"default"`. -/
def default : Str := ['d', 'e', 'f', 'a', 'u', 'l', 't']

/-- The loop over the arguments (`Analysis/plotFlowProfileParabolaDistortion.py:12-27`); `value`: gravity and quotient as read
from a file. `iter(…)` has a method `next` in Python 2 only. -/
def readGroups (python2 : Bool) (value : Str → Except PyErr (K × V)) [DecidableEq K] :
    Str → Dict Str (Dict K V) → List Str → Except PyErr (Dict Str (Dict K V))
  | _, data, [] => .ok data
  | group, data, [a] =>
    if a = groupOption then .error .runtimeError
    else match value a with
      | .error e => .error e
      | .ok v => .ok (put data (group, v))
  | group, data, a :: b :: rest =>
    if a = groupOption then
      if python2 then readGroups python2 value b (upd b (fun o => o.getD []) data) rest else .error .attributeError
    else match value a with
      | .error e => .error e
      | .ok v => readGroups python2 value group (put data (group, v)) (b :: rest)

/-- The groups plotted (`Analysis/plotFlowProfileParabolaDistortion.py:12-30`). -/
def groups (python2 : Bool) (value : Str → Except PyErr (K × V)) [DecidableEq K] [DecidableEq V] (arguments : List Str) :
    Except PyErr (Dict Str (Dict K V)) :=
  match readGroups python2 value default [(default, [])] arguments with
  | .error e => .error e
  | .ok data => .ok (data.filter fun c => ¬ (c.1 = default ∧ c.2 = []))

end model

/-! ## Specification -/

section spec
variable {κ ι V : Type}

/-- The number is that of the last run with these settings. -/
def Last (runs : List (κ × ι × V)) (k : κ) (i : ι) (v : V) : Prop :=
  ∃ before after, runs = before ++ (k, i, v) :: after ∧ ∀ r ∈ after, ¬ (r.1 = k ∧ r.2.1 = i)

/-- There is a point on a curve. -/
def Point (data : Dict κ (Dict ι V)) (k : κ) (i : ι) (v : V) : Prop := ∃ c, (k, c) ∈ data ∧ (i, v) ∈ c

/-- The data of curves as read by `gnuplot`: each ends with a line `e`. -/
def blocks : List (List Str) → List Str → List (List (List Str))
  | _, [] => []
  | current, l :: ls => if l = ['e'] then current :: blocks [] ls else blocks (current ++ [words l]) ls

end spec

/-! ## Proofs -/

section proofs
variable {κ ι V : Type} [DecidableEq κ] [DecidableEq ι]

/-- No key occurs twice. -/
def Unique (data : Dict κ (Dict ι V)) : Prop := (keys data).Nodup ∧ ∀ c ∈ data, (keys c.2).Nodup

theorem nodup_upd {W : Type} {k : κ} {f : Option W → W} {d : Dict κ W} (h : (keys d).Nodup) : (keys (upd k f d)).Nodup := by
  rw [keys_upd]
  split
  · exact h
  · rename_i hk
    exact List.nodup_append.2 ⟨h, by simp, fun a ha b hb => by
      rw [List.mem_singleton.1 hb]; rintro rfl; exact hk ha⟩

theorem unique_upd {data : Dict κ (Dict ι V)} (h : Unique data) (k : κ) (f : Option (Dict ι V) → Dict ι V)
    (hf : ∀ o : Option (Dict ι V), (∀ d, o = some d → (keys d).Nodup) → (keys (f o)).Nodup) : Unique (upd k f data) := by
  refine ⟨nodup_upd h.1, fun c hc => ?_⟩
  have h1 := (mem_iff_lookup (nodup_upd (f := f) (k := k) h.1) c.1 c.2).1 hc
  rw [lookup_upd] at h1
  split_ifs at h1 with hk
  · rw [← Option.some.inj h1]
    exact hf _ fun d hd => h.2 (k, d) ((mem_iff_lookup h.1 _ _).2 hd)
  · exact h.2 c ((mem_iff_lookup h.1 _ _).2 h1)

theorem unique_put {data : Dict κ (Dict ι V)} (h : Unique data) (r : κ × ι × V) : Unique (put data r) := by
  refine unique_upd h _ _ fun o ho => nodup_upd ?_
  cases o with
  | none => simp [keys]
  | some d => exact ho d rfl

theorem point_iff {data : Dict κ (Dict ι V)} (h : Unique data) {k : κ} {i : ι} {v : V} :
    Point data k i v ↔ ((data.lookup k).getD []).lookup i = some v := by
  constructor
  · rintro ⟨c, h1, h2⟩
    rw [(mem_iff_lookup h.1 _ _).1 h1]
    exact (mem_iff_lookup (h.2 _ h1) _ _).1 h2
  · intro h1
    cases hc : data.lookup k with
    | none => rw [hc] at h1; simp at h1
    | some c =>
      rw [hc] at h1
      have hm := (mem_iff_lookup h.1 k c).2 hc
      exact ⟨c, hm, (mem_iff_lookup (h.2 _ hm) _ _).2 h1⟩

theorem point_put {data : Dict κ (Dict ι V)} (h : Unique data) (r : κ × ι × V) {k : κ} {i : ι} {v : V} :
    Point (put data r) k i v ↔ if k = r.1 ∧ i = r.2.1 then v = r.2.2 else Point data k i v := by
  rw [point_iff (unique_put h r), put, lookup_upd]
  by_cases hk : k = r.1
  · subst hk
    rw [if_pos rfl, Option.getD_some, lookup_upd]
    by_cases hi : i = r.2.1
    · rw [if_pos hi, if_pos ⟨rfl, hi⟩, Option.some.injEq, eq_comm]
    · rw [if_neg hi, if_neg (fun e => hi e.2), point_iff h]
  · rw [if_neg hk, if_neg (fun e => hk e.1), point_iff h]

theorem last_append {runs : List (κ × ι × V)} (r : κ × ι × V) {k : κ} {i : ι} {v : V} :
    Last (runs ++ [r]) k i v ↔ if k = r.1 ∧ i = r.2.1 then v = r.2.2 else Last runs k i v := by
  obtain ⟨k', i', v'⟩ := r
  dsimp only
  constructor
  · rintro ⟨before, after, h1, h2⟩
    rcases List.eq_nil_or_concat after with rfl | ⟨after, x, rfl⟩
    · have := List.append_inj' h1 (by simp)
      obtain ⟨h3, h4, h5⟩ : k' = k ∧ i' = i ∧ v' = v := by simpa using this.2
      rw [if_pos ⟨h3.symm, h4.symm⟩, h5]
    · rw [List.concat_eq_append, ← List.cons_append, ← List.append_assoc] at h1
      have := List.append_inj' h1 (by simp)
      have hx : (k', i', v') = x := by simpa using this.2
      have h3 := h2 x (by simp)
      rw [← hx] at h3
      rw [if_neg (fun e => h3 ⟨e.1.symm, e.2.symm⟩)]
      exact ⟨before, after, this.1, fun r hr => h2 r (by simp [hr])⟩
  · intro h
    split_ifs at h with hk
    · exact ⟨runs, [], by simp [hk, h], by simp⟩
    · obtain ⟨before, after, h1, h2⟩ := h
      refine ⟨before, after ++ [(k', i', v')], by simp [h1], fun r hr => ?_⟩
      rcases List.mem_append.1 hr with hr | hr
      · exact h2 r hr
      · rw [List.mem_singleton.1 hr]
        exact fun e => hk ⟨e.1.symm, e.2.symm⟩

theorem last_nil {k : κ} {i : ι} {v : V} : ¬ Last [] k i v := by
  rintro ⟨before, after, h, -⟩
  simp at h

theorem put_spec (data : Dict κ (Dict ι V)) (h0 : Unique data) (he : ∀ k i v, ¬ Point data k i v) (runs : List (κ × ι × V)) :
    Unique (runs.foldl put data) ∧ ∀ k i v, Point (runs.foldl put data) k i v ↔ Last runs k i v := by
  induction runs using List.reverseRecOn with
  | nil => exact ⟨h0, fun k i v => iff_of_false (he k i v) last_nil⟩
  | append_singleton runs r ih =>
    rw [List.foldl_append, List.foldl_cons, List.foldl_nil]
    refine ⟨unique_put ih.1 r, fun k i v => ?_⟩
    rw [point_put ih.1, last_append]
    split_ifs
    · rfl
    · exact ih.2 k i v

theorem wordsGo_sep {sep : Char} (hs : isSpace sep = true) (acc : Str) (ts : List Str) (hacc : acc ≠ [])
    (h : ∀ t ∈ ts, Token t) : wordsGo acc (ts.flatMap (sep :: ·)) = acc :: ts := by
  induction ts generalizing acc with
  | nil => simp [wordsGo, hacc]
  | cons t ts ih =>
    have ht := h t (by simp)
    rw [List.flatMap_cons, List.cons_append, wordsGo, if_pos hs, if_neg hacc,
      wordsGo_append _ _ _ fun c hc => (ht.2 c hc).1, List.nil_append, ih t ht.1 fun t ht => h t (by simp [ht])]

theorem entries_eq {ts : List Str} (h : ts ≠ []) :
    entries true ts = ['p', 'l', 'o', 't', ' '] ++ [',', ' '].intercalate ts := by
  have key : ∀ ts : List Str, entries false ts = ts.flatMap ([',', ' '] ++ ·) := by
    intro ts
    induction ts with
    | nil => rfl
    | cons t ts ih =>
      rw [entries, ih]
      simp
  cases ts with
  | nil => exact absurd rfl h
  | cons t ts =>
    rw [entries, key, if_pos rfl, List.append_assoc]
    congr 1
    clear h
    induction ts generalizing t with
    | nil => simp
    | cons t' ts ih =>
      have e : [',', ' '].intercalate (t :: t' :: ts) = t ++ [',', ' '] ++ [',', ' '].intercalate (t' :: ts) := by
        simp [List.intercalate, List.intersperse]
      rw [e, ← ih]
      simp

theorem noNewline_row {sep : Char} (hs : sep ≠ '\n') {t : Str} {ts : List Str} (ht : Token t) (h : ∀ t ∈ ts, Token t) :
    '\n' ∉ t ++ ts.flatMap (sep :: ·) := by
  intro hm
  rcases List.mem_append.1 hm with hm | hm
  · exact ht.noNewline hm
  · obtain ⟨u, hu, hm⟩ := List.mem_flatMap.1 hm
    rcases List.mem_cons.1 hm with hm | hm
    · exact hs hm.symm
    · exact (h u hu).noNewline hm

theorem blocks_rows {sep : Char} (hs : isSpace sep = true) (hn : sep ≠ '\n') (rows : List (List Str))
    (h : ∀ r ∈ rows, 2 ≤ r.length ∧ ∀ t ∈ r, Token t) (current : List (List Str)) (rest : Str) :
    blocks current (pyLines (rows.flatMap (dataLine sep) ++ rest)) = blocks (current ++ rows) (pyLines rest) := by
  induction rows generalizing current with
  | nil => simp
  | cons r rows ih =>
    obtain ⟨h1, h2⟩ := h r (by simp)
    match r, h1, h2 with
    | t :: t' :: ts, _, h2 =>
      have ht : Token t := h2 t (by simp)
      have hts : ∀ u ∈ t' :: ts, Token u := fun u hu => h2 u (List.mem_cons_of_mem _ hu)
      rw [List.flatMap_cons, dataLine, List.append_assoc, List.append_assoc, List.singleton_append,
        pyLines_line _ _ (noNewline_row hn ht hts), blocks, if_neg, ih fun r hr => h r (by simp [hr])]
      · have hw : words (t ++ (t' :: ts).flatMap (sep :: ·)) = t :: t' :: ts := by
          rw [words, wordsGo_append _ _ _ fun c hc => (ht.2 c hc).1, List.nil_append, wordsGo_sep hs _ _ ht.1 hts]
        rw [hw, List.append_assoc]
        rfl
      · intro e
        have := congrArg (sep ∈ ·) e
        simp only [List.flatMap_cons, List.mem_append, List.mem_cons, true_or, or_true, List.not_mem_nil, or_false,
          eq_iff_iff, true_iff] at this
        rw [this] at hs
        exact absurd hs (by decide)

theorem blocks_block {sep : Char} (hs : isSpace sep = true) (hn : sep ≠ '\n') (rows : List (List Str))
    (h : ∀ r ∈ rows, 2 ≤ r.length ∧ ∀ t ∈ r, Token t) (rest : Str) :
    blocks [] (pyLines (block sep rows ++ rest)) = rows :: blocks [] (pyLines rest) := by
  rw [block, List.append_assoc, blocks_rows hs hn rows h, List.nil_append]
  have := pyLines_line ['e'] rest (by decide)
  rw [show ['e', '\n'] ++ rest = ['e'] ++ '\n' :: rest from rfl, this, blocks, if_pos rfl]

theorem blocks_all {A : Type} {sep : Char} (hs : isSpace sep = true) (hn : sep ≠ '\n') (l : List A) (rows : A → List (List Str))
    (h : ∀ a ∈ l, ∀ r ∈ rows a, 2 ≤ r.length ∧ ∀ t ∈ r, Token t) (rest : Str) :
    blocks [] (pyLines (l.flatMap (fun a => block sep (rows a)) ++ rest)) = l.map rows ++ blocks [] (pyLines rest) := by
  induction l with
  | nil => rfl
  | cons a l ih =>
    rw [List.flatMap_cons, List.append_assoc, blocks_block hs hn _ (h a (by simp)), ih fun a ha => h a (by simp [ha])]
    rfl

theorem pyLines_lines (ls : List Str) (h : ∀ l ∈ ls, '\n' ∉ l) (rest : Str) :
    pyLines (ls.flatMap (· ++ ['\n']) ++ rest) = ls ++ pyLines rest := by
  induction ls with
  | nil => rfl
  | cons l ls ih =>
    rw [List.flatMap_cons, List.append_assoc, List.append_assoc, List.singleton_append, pyLines_line _ _ (h l (by simp)),
      ih fun l hl => h l (by simp [hl])]
    rfl

end proofs

/-! ## Theorems -/

section theorems
variable {κ ι V : Type} [DecidableEq κ] [DecidableEq ι]

/-- C129: the points are exactly those of the last run with the same settings; each curve, and each point on it, is there
once. -/
theorem C129_points (runs : List (κ × ι × V)) :
    (∀ k i v, Point (runs.foldl put []) k i v ↔ Last runs k i v) ∧ ((runs.foldl put []).map Prod.fst).Nodup ∧
      ∀ c ∈ runs.foldl put [], (c.2.map Prod.fst).Nodup := by
  obtain ⟨h1, h2⟩ := put_spec ([] : Dict κ (Dict ι V)) ⟨by simp [keys], by simp⟩ (by rintro k i v ⟨c, h, -⟩; simp at h) runs
  exact ⟨h2, h1.1, h1.2⟩

/-- C129: each run is shown if no two of them have the same settings. -/
theorem C129_shown_partial {runs : List (κ × ι × V)} (h : runs.Pairwise fun a b => ¬ (a.1 = b.1 ∧ a.2.1 = b.2.1))
    {r : κ × ι × V} (hr : r ∈ runs) : Point (runs.foldl put []) r.1 r.2.1 r.2.2 := by
  rw [(C129_points runs).1]
  obtain ⟨before, after, rfl⟩ := List.append_of_mem hr
  refine ⟨before, after, rfl, fun r' hr' e => ?_⟩
  have := (List.pairwise_append.1 h).2.1
  exact (List.pairwise_cons.1 this).1 r' hr' ⟨e.1.symm, e.2.symm⟩

/-- C129 does not hold otherwise: of runs with the same settings, only the last is shown, and the others are left out
without notice. -/
theorem C129_overwritten_violated (before after : List (κ × ι × V)) {k : κ} {i : ι} {v : V}
    (hs : ∃ r ∈ after, r.1 = k ∧ r.2.1 = i) (hv : ∀ r ∈ after, r.1 = k → r.2.1 = i → r.2.2 ≠ v) :
    ¬ Point ((before ++ (k, i, v) :: after).foldl put []) k i v := by
  rw [(C129_points _).1]
  rintro ⟨b, a, h1, h2⟩
  obtain ⟨r, hr, hk, hi⟩ := hs
  have key : ∀ (l after : List (κ × ι × V)) (r : κ × ι × V), r ∈ after → r.1 = k → r.2.1 = i →
      (∀ r ∈ after, r.1 = k → r.2.1 = i → r.2.2 ≠ v) → ∀ b, l ++ after = b ++ (k, i, v) :: a → False := by
    intro l after r hr hk hi hv b e
    rcases List.append_eq_append_iff.1 e with ⟨c, h3, h4⟩ | ⟨c, h3, h4⟩
    · exact hv (k, i, v) (by rw [h4]; simp) rfl rfl rfl
    · cases c with
      | nil =>
        rw [List.nil_append] at h4
        exact hv (k, i, v) (by rw [← h4]; simp) rfl rfl rfl
      | cons x c =>
        have : a = c ++ after := by
          have := h4
          simp only [List.cons_append, List.cons.injEq] at this
          exact this.2
        exact h2 r (by rw [this]; simp [hr]) ⟨hk, hi⟩
  exact key (before ++ [(k, i, v)]) after r hr hk hi hv b (by simpa using h1)

end theorems

section scripts
variable {io : Io ℝ} {rnd : ℝ → ℝ}

theorem readBonds_ok {runs : List BondRun} (h : ∀ r ∈ runs, r.springConstant = r.springConstant2 ∧ 0 ≤ r.mean)
    (data : Dict ℝ (Dict ℝ ℝ)) : runs.foldlM readBonds data =
      .ok ((runs.map fun r => (r.springConstant, r.shearRate, Real.sqrt r.mean)).foldl put data) := by
  induction runs generalizing data with
  | nil => rfl
  | cons r runs ih =>
    obtain ⟨h1, h2⟩ := h r (by simp)
    rw [List.foldlM_cons, readBonds, if_neg (not_not.2 h1), if_neg (not_lt.2 h2)]
    exact ih (fun r hr => h r (by simp [hr])) _

theorem noNewline_bondTitle (hio : Rounds io rnd) (k : ℝ) : '\n' ∉ bondTitle io k := by
  intro hm
  simp only [bondTitle, List.mem_append, List.mem_singleton] at hm
  rcases hm with (hm | hm) | hm
  · exact absurd hm (by decide)
  · exact (hio.token_fmt k).noNewline hm
  · exact absurd hm (by decide)

theorem noNewline_diffusionTitle (hio : Rounds io rnd) (k : ℝ) : '\n' ∉ diffusionTitle io k := by
  intro hm
  simp only [diffusionTitle, List.mem_append, List.mem_singleton] at hm
  rcases hm with (hm | hm) | hm
  · exact absurd hm (by decide)
  · exact (hio.token_fmt k).noNewline hm
  · exact absurd hm (by decide)

theorem noNewline_entries {ts : List Str} (h : ∀ t ∈ ts, '\n' ∉ t) (first : Bool) : '\n' ∉ entries first ts := by
  induction ts generalizing first with
  | nil => simp [entries]
  | cons t ts ih =>
    intro hm
    rw [entries, List.mem_append, List.mem_append] at hm
    rcases hm with (hm | hm) | hm
    · cases first <;> exact absurd hm (by decide)
    · exact h t (by simp) hm
    · exact ih (fun t ht => h t (by simp [ht])) _ hm

theorem token_rows (hio : Rounds io rnd) (c : Dict ℝ ℝ) :
    ∀ r ∈ c.map fun p => [io.fmt p.1, io.fmt p.2], 2 ≤ r.length ∧ ∀ t ∈ r, Token t := by
  intro r hr
  obtain ⟨p, -, rfl⟩ := List.mem_map.1 hr
  refine ⟨by simp, fun t ht => ?_⟩
  simp only [List.mem_cons, List.not_mem_nil, or_false] at ht
  rcases ht with rfl | rfl <;> exact hio.token_fmt _

theorem noNewline_command (hio : Rounds io rnd) (data : Dict ℝ (Dict ℝ ℝ)) {k : Str} (hk : '\n' ∉ k) :
    '\n' ∉ entries true (data.map fun c => bondTitle io c.1) ++ ([',', ' '] ++ theoryTitle k) := by
  intro hm
  rcases List.mem_append.1 hm with hm | hm
  · exact noNewline_entries (by
      intro t ht
      obtain ⟨c, -, rfl⟩ := List.mem_map.1 ht
      exact noNewline_bondTitle hio _) _ hm
  · simp only [theoryTitle, List.mem_append, List.mem_singleton] at hm
    rcases hm with hm | (hm | hm) | hm
    · exact absurd hm (by decide)
    · exact absurd hm (by decide)
    · exact hk hm
    · exact absurd hm (by decide)

theorem bondSettings_lines : ∀ l ∈ bondSettings, '\n' ∉ l := by decide

theorem diffusionSettings_lines : ∀ l ∈ diffusionSettings, '\n' ∉ l := by decide

/-- C129: for runs with equal spring constants, and without theory, `gnuplot` is asked to plot a curve for each spring
constant, and is given the points of each, in this order. -/
theorem C129_bonds_partial (hio : Rounds io rnd) {runs : List BondRun} (hne : runs ≠ [])
    (h : ∀ r ∈ runs, r.springConstant = r.springConstant2 ∧ 0 ≤ r.mean) :
    ∃ (curves : Dict ℝ (Dict ℝ ℝ)) (text : Str) (rest : List Str), bondScript io none runs = .ok text ∧
      pyLines text = bondSettings ++
        (['p', 'l', 'o', 't', ' '] ++ [',', ' '].intercalate (curves.map fun c => bondTitle io c.1)) :: rest ∧
      blocks [] rest = curves.map (fun c => c.2.map fun p => [io.fmt p.1, io.fmt p.2]) ∧
      ∀ k x y, Point curves k x y ↔ Last (runs.map fun r => (r.springConstant, r.shearRate, Real.sqrt r.mean)) k x y := by
  set recs := runs.map fun r => (r.springConstant, r.shearRate, Real.sqrt r.mean) with hrecs
  have hcne : recs.foldl put [] ≠ [] := by
    obtain ⟨r, rs, rfl⟩ := List.exists_cons_of_ne_nil hne
    intro e
    have h1 : ∀ (l : List (ℝ × ℝ × ℝ)) (d : Dict ℝ (Dict ℝ ℝ)), d ≠ [] → l.foldl put d ≠ [] := by
      intro l
      induction l with
      | nil => exact fun d hd => hd
      | cons a l ih =>
        intro d hd
        refine ih _ fun e => ?_
        have := keys_upd a.1 (fun o => upd a.2.1 (fun _ => a.2.2) (o.getD [])) d
        rw [show upd a.1 (fun o => upd a.2.1 (fun _ => a.2.2) (o.getD [])) d = [] from e] at this
        split_ifs at this
        · exact hd (by simpa [keys] using this.symm)
        · simp [keys] at this
    exact h1 (rs.map fun r : BondRun => (r.springConstant, r.shearRate, Real.sqrt r.mean))
      (put [] (r.springConstant, r.shearRate, Real.sqrt r.mean)) (by simp [put, upd]) e
  refine ⟨recs.foldl put [], bondText io (recs.foldl put []) none,
    pyLines ((recs.foldl put []).flatMap fun c => block ' ' (c.2.map fun p => [io.fmt p.1, io.fmt p.2])),
    by rw [bondScript, readBonds_ok h], ?_, ?_, (C129_points recs).1⟩
  · rw [bondText]
    simp only [List.append_nil, List.append_assoc]
    rw [pyLines_lines _ bondSettings_lines, List.singleton_append, pyLines_line _ _ (noNewline_entries (by
      intro t ht
      obtain ⟨c, -, rfl⟩ := List.mem_map.1 ht
      exact noNewline_bondTitle hio _) _), entries_eq (by simpa using hcne)]
  · have := blocks_all (sep := ' ') (by decide) (by decide) (recs.foldl put [])
      (fun c => c.2.map fun p => [io.fmt p.1, io.fmt p.2]) (fun c _ => token_rows hio c.2) []
    rw [List.append_nil] at this
    rw [this]
    simp [pyLines, blocks]

/-- C129: runs in which the spring constants differ are refused. -/
theorem C129_differ (theory : Option (Str × Str)) {runs : List BondRun}
    (h : ∃ r ∈ runs, r.springConstant ≠ r.springConstant2) : bondScript io theory runs = .error .valueError := by
  have key : ∀ (runs : List BondRun) (d : Dict ℝ (Dict ℝ ℝ)), (∃ r ∈ runs, r.springConstant ≠ r.springConstant2) →
      runs.foldlM readBonds d = .error .valueError := by
    intro runs
    induction runs with
    | nil => rintro d ⟨r, hr, -⟩; simp at hr
    | cons r runs ih =>
      intro d h
      rw [List.foldlM_cons]
      by_cases h1 : r.springConstant ≠ r.springConstant2
      · rw [readBonds, if_pos h1]
        rfl
      · rw [readBonds, if_neg h1]
        by_cases h2 : r.mean < 0
        · rw [if_pos h2]
          rfl
        · rw [if_neg h2]
          obtain ⟨r', hr', h3⟩ := h
          rcases List.mem_cons.1 hr' with rfl | hr'
          · exact absurd h3 h1
          · exact ih _ ⟨r', hr', h3⟩
  rw [bondScript, key runs [] h]

/-- C129: a theoretical curve is given to `gnuplot` after those of the runs if the file ends with a line break. -/
theorem C129_theory_partial (hio : Rounds io rnd) (data : Dict ℝ (Dict ℝ ℝ)) (k : Str) (hk : '\n' ∉ k) (rows : List (List Str))
    (hr : ∀ r ∈ rows, 2 ≤ r.length ∧ ∀ t ∈ r, Token t) :
    ∃ command rest, pyLines (bondText io data (some (k, rows.flatMap (dataLine ' ')))) = bondSettings ++ command :: rest ∧
      blocks [] rest = data.map (fun c => c.2.map fun p => [io.fmt p.1, io.fmt p.2]) ++ [rows] ∧
      (data ≠ [] → command = ['p', 'l', 'o', 't', ' '] ++
        [',', ' '].intercalate (data.map (fun c => bondTitle io c.1) ++ [theoryTitle k])) := by
  have hmem := noNewline_command hio data hk
  refine ⟨entries true (data.map fun c => bondTitle io c.1) ++ ([',', ' '] ++ theoryTitle k),
    pyLines (data.flatMap (fun c => block ' ' (c.2.map fun p => [io.fmt p.1, io.fmt p.2])) ++
      (rows.flatMap (dataLine ' ') ++ ['e', '\n'])), ?_, ?_, fun hne => ?_⟩
  · rw [bondText]
    simp only [List.append_assoc]
    rw [pyLines_lines _ bondSettings_lines, ← List.append_assoc [',', ' '], ← List.append_assoc (entries _ _),
      List.singleton_append, pyLines_line _ _ hmem]
  · rw [blocks_all (sep := ' ') (by decide) (by decide) data _ (fun c _ => token_rows hio c.2)]
    have := blocks_block (sep := ' ') (by decide) (by decide) rows hr []
    rw [block, List.append_nil] at this
    rw [this]
    simp [pyLines, blocks]
  · rw [entries_eq (by simpa using hne)]
    obtain ⟨c, cs, rfl⟩ := List.exists_cons_of_ne_nil hne
    generalize bondTitle io = f
    have e : ∀ (t : Str) (ts : List Str) (u : Str), [',', ' '].intercalate (t :: ts) ++ ([',', ' '] ++ u) =
        [',', ' '].intercalate (t :: ts ++ [u]) := by
      intro t ts u
      induction ts generalizing t with
      | nil => simp [List.intercalate, List.intersperse]
      | cons t' ts ih =>
        have e1 : ∀ (l : List Str), [',', ' '].intercalate (t :: t' :: l) =
            t ++ [',', ' '] ++ [',', ' '].intercalate (t' :: l) := by
          intro l; simp [List.intercalate, List.intersperse]
        rw [e1, show t :: t' :: ts ++ [u] = t :: t' :: (ts ++ [u]) from rfl, e1,
          show t' :: (ts ++ [u]) = t' :: ts ++ [u] from rfl, ← ih]
        simp only [List.append_assoc]
    rw [List.append_assoc, List.map_cons, e]

/-- C129 does not hold if only a theoretical curve is given: no `plot` command is sent. -/
theorem C129_theory_violated (k t : Str) : ∃ text, bondScript io (some (k, t)) [] = .ok text ∧
    text = bondSettings.flatMap (· ++ ['\n']) ++ [',', ' '] ++ theoryTitle k ++ ['\n'] ++ t ++ ['e', '\n'] := by
  refine ⟨_, rfl, ?_⟩
  simp [bondText, entries]

/-- C129 does not hold if the file of the theory does not end with a line break: the end of its data is not
recognised. -/
theorem C129_newline_violated (hio : Rounds io rnd) (data : Dict ℝ (Dict ℝ ℝ)) (k : Str) (hk : '\n' ∉ k) (x y : Str)
    (hx : Token x) (hy : Token y) :
    ∃ command rest, pyLines (bondText io data (some (k, x ++ ' ' :: y))) = bondSettings ++ command :: rest ∧
      (blocks [] rest).length = data.length := by
  have hmem := noNewline_command hio data hk
  refine ⟨entries true (data.map fun c => bondTitle io c.1) ++ ([',', ' '] ++ theoryTitle k),
    pyLines (data.flatMap (fun c => block ' ' (c.2.map fun p => [io.fmt p.1, io.fmt p.2])) ++
      (x ++ (' ' :: y ++ ['e', '\n']))), ?_, ?_⟩
  · rw [bondText]
    simp only [List.append_assoc]
    rw [pyLines_lines _ bondSettings_lines, ← List.append_assoc [',', ' '], ← List.append_assoc (entries _ _),
      List.singleton_append, pyLines_line _ _ hmem]
  · rw [blocks_all (sep := ' ') (by decide) (by decide) data _ (fun c _ => token_rows hio c.2)]
    have e : x ++ (' ' :: y ++ ['e', '\n']) = (x ++ (' ' :: y ++ ['e'])) ++ '\n' :: [] := by simp
    rw [e, pyLines_line]
    · have hne : x ++ (' ' :: y ++ ['e']) ≠ ['e'] := by
        intro e
        have := congrArg List.length e
        have h3 : x.length ≠ 0 := by simpa using hx.1
        simp at this
        omega
      rw [pyLines, blocks, if_neg hne, blocks]
      simp
    · intro hm
      simp only [List.mem_append, List.mem_cons, List.not_mem_nil, or_false] at hm
      rcases hm with hm | (hm | hm) | hm
      · exact hx.noNewline hm
      · exact absurd hm (by decide)
      · exact hy.noNewline hm
      · exact absurd hm (by decide)

/-- C129: the self-diffusion coefficients are plotted with their deviations, a curve for each measurement time. -/
theorem C129_diffusion_partial (hio : Rounds io rnd) {runs : List (ℝ × ℝ × ℝ × ℝ)} :
    ∃ (curves : Dict ℝ (Dict ℝ (ℝ × ℝ))) (rest : List Str), pyLines (diffusionText io runs) = diffusionSettings ++
        entries true (curves.map fun c => diffusionTitle io c.1) :: rest ∧
      (curves ≠ [] → entries true (curves.map fun c => diffusionTitle io c.1) =
        ['p', 'l', 'o', 't', ' '] ++ [',', ' '].intercalate (curves.map fun c => diffusionTitle io c.1)) ∧
      blocks [] rest = curves.map (fun c => c.2.map fun p => [io.fmt p.1, io.fmt p.2.1, io.fmt p.2.2]) ∧
      ∀ k x y, Point curves k x y ↔ Last runs k x y := by
  refine ⟨runs.foldl put [], pyLines ((runs.foldl put []).flatMap fun c =>
    block ' ' (c.2.map fun p => [io.fmt p.1, io.fmt p.2.1, io.fmt p.2.2])), ?_, fun hne => entries_eq (by simpa using hne), ?_, (C129_points runs).1⟩
  · rw [diffusionText]
    simp only [List.append_assoc]
    rw [pyLines_lines _ diffusionSettings_lines, List.singleton_append, pyLines_line _ _ (noNewline_entries (by
      intro t ht
      obtain ⟨c, -, rfl⟩ := List.mem_map.1 ht
      exact noNewline_diffusionTitle hio _) _)]
  · have := blocks_all (sep := ' ') (by decide) (by decide) (runs.foldl put [])
      (fun c => c.2.map fun p => [io.fmt p.1, io.fmt p.2.1, io.fmt p.2.2]) (fun c _ r hr => by
        obtain ⟨p, -, rfl⟩ := List.mem_map.1 hr
        refine ⟨by simp, fun t ht => ?_⟩
        simp only [List.mem_cons, List.not_mem_nil, or_false] at ht
        rcases ht with rfl | rfl | rfl <;> exact hio.token_fmt _) []
    rw [List.append_nil] at this
    rw [this]
    simp [pyLines, blocks]

end scripts

section groups
variable {K V : Type} [DecidableEq K] [DecidableEq V] {value : Str → Except PyErr (K × V)}

/-- The files of a group, as points. -/
def ofGroup (point : Str → K × V) (g : Str) (files : List Str) : List (Str × K × V) := files.map fun f => (g, point f)

/-- The arguments: files, and groups with their names and files. -/
def arguments (files : List Str) (gs : List (Str × List Str)) : List Str :=
  files ++ gs.flatMap fun g => groupOption :: g.1 :: g.2

theorem readGroups_file (python2 : Bool) {group f : Str} {data : Dict Str (Dict K V)} {rest : List Str} {v : K × V}
    (hf : f ≠ groupOption) (hv : value f = .ok v) :
    readGroups python2 value group data (f :: rest) = readGroups python2 value group (put data (group, v)) rest := by
  cases rest with
  | nil => simp only [readGroups, hf, if_false, hv]
  | cons b rest => rw [readGroups, if_neg hf, hv]

theorem readGroups_files (python2 : Bool) {group : Str} {point : Str → K × V} {files : List Str}
    (h : ∀ f ∈ files, f ≠ groupOption ∧ value f = .ok (point f)) (data : Dict Str (Dict K V)) (rest : List Str) :
    readGroups python2 value group data (files ++ rest) =
      readGroups python2 value group ((ofGroup point group files).foldl put data) rest := by
  induction files generalizing data with
  | nil => rfl
  | cons f files ih =>
    obtain ⟨h1, h2⟩ := h f (by simp)
    rw [List.cons_append, readGroups_file python2 h1 h2, ih fun f hf => h f (by simp [hf])]
    rfl

/-- The points, and the groups named. -/
def GroupInv (data : Dict Str (Dict K V)) (recs : List (Str × K × V)) (names : List Str) : Prop :=
  Unique data ∧ (∀ g x y, Point data g x y ↔ Last recs g x y) ∧ ∀ g, g ∈ keys data ↔ g ∈ names

theorem inv_put {data : Dict Str (Dict K V)} {recs : List (Str × K × V)} {names : List Str} (h : GroupInv data recs names)
    {g : Str} (hg : g ∈ names) (more : List (K × V)) :
    GroupInv ((more.map fun v => (g, v)).foldl put data) (recs ++ more.map fun v => (g, v)) names := by
  induction more using List.reverseRecOn with
  | nil => simpa using h
  | append_singleton more v ih =>
    rw [List.map_append, List.foldl_append, ← List.append_assoc]
    obtain ⟨h1, h2, h3⟩ := ih
    refine ⟨unique_put h1 _, fun k x y => ?_, fun k => ?_⟩
    · show Point (put _ (g, v)) k x y ↔ Last (_ ++ [(g, v)]) k x y
      rw [point_put h1, last_append]
      split_ifs
      · rfl
      · exact h2 k x y
    · show k ∈ keys (put _ (g, v)) ↔ _
      rw [put, keys_upd]
      split_ifs with hk
      · exact h3 k
      · exact absurd ((h3 g).2 hg) hk

theorem inv_name {data : Dict Str (Dict K V)} {recs : List (Str × K × V)} {names : List Str} (h : GroupInv data recs names)
    (g : Str) : GroupInv (upd g (fun o => o.getD []) data) recs (names ++ [g]) := by
  obtain ⟨h1, h2, h3⟩ := h
  have hu : Unique (upd g (fun o => o.getD []) data) := by
    refine unique_upd h1 _ _ fun o ho => ?_
    cases o with
    | none => simp [keys]
    | some d => exact ho d rfl
  refine ⟨hu, fun k x y => ?_, fun k => ?_⟩
  · rw [← h2, point_iff hu, point_iff h1, lookup_upd]
    split_ifs with hk
    · rw [hk, Option.getD_some]
    · rfl
  · rw [keys_upd, List.mem_append, List.mem_singleton, ← h3]
    split_ifs with hk
    · constructor
      · exact .inl
      · rintro (h | rfl)
        · exact h
        · exact hk
    · rw [List.mem_append, List.mem_singleton]

/-- C129: with Python 2, each file belongs to the group named last before it, or else to the default group; of files of a
group with the same gravity, the last is shown. A group is shown if it is named, the default group if it has files. -/
theorem C129_groups_partial {point : Str → K × V} {files : List Str} {gs : List (Str × List Str)}
    (hf : ∀ f ∈ files, f ≠ groupOption ∧ value f = .ok (point f))
    (hg : ∀ g ∈ gs, ∀ f ∈ g.2, f ≠ groupOption ∧ value f = .ok (point f)) :
    ∃ data, groups true value (arguments files gs) = .ok data ∧
      (∀ g x y, Point data g x y ↔
        Last (ofGroup point default files ++ gs.flatMap fun g => ofGroup point g.1 g.2) g x y) ∧
      (∀ g, g ∈ data.map Prod.fst ↔ (g ≠ default ∧ g ∈ gs.map Prod.fst) ∨ (g = default ∧ ∃ x y, Point data g x y)) ∧
      (data.map Prod.fst).Nodup ∧ ∀ c ∈ data, (c.2.map Prod.fst).Nodup := by
  have h0 : GroupInv ([(default, [])] : Dict Str (Dict K V)) [] [default] := by
    refine ⟨⟨by simp [keys], by simp [keys]⟩, fun g x y => iff_of_false ?_ last_nil, fun g => by simp [keys]⟩
    rintro ⟨c, h1, h2⟩
    rw [List.mem_singleton, Prod.mk.injEq] at h1
    rw [h1.2] at h2
    simp at h2
  have h1 : GroupInv ((ofGroup point default files).foldl put [(default, [])]) (ofGroup point default files) [default] := by
    have := inv_put h0 (g := default) (by simp) (files.map point)
    rw [List.map_map, List.nil_append] at this
    exact this
  have key : ∀ (gs : List (Str × List Str)) (group : Str) (data : Dict Str (Dict K V)) (recs : List (Str × K × V))
      (names : List Str), (∀ g ∈ gs, ∀ f ∈ g.2, f ≠ groupOption ∧ value f = .ok (point f)) → GroupInv data recs names →
      ∃ data', readGroups true value group data (gs.flatMap fun g => groupOption :: g.1 :: g.2) = .ok data' ∧
        GroupInv data' (recs ++ gs.flatMap fun g => ofGroup point g.1 g.2) (names ++ gs.map Prod.fst) := by
    intro gs
    induction gs with
    | nil =>
      intro group data recs names _ h
      exact ⟨data, rfl, by simpa using h⟩
    | cons g gs ih =>
      intro group data recs names hg h
      have h2 := inv_put (inv_name h g.1) (g := g.1) (by simp) (g.2.map point)
      rw [List.map_map] at h2
      obtain ⟨data', h3, h4⟩ := ih g.1 _ _ _ (fun g hg' => hg g (by simp [hg'])) h2
      refine ⟨data', ?_, ?_⟩
      · rw [List.flatMap_cons, List.cons_append, List.cons_append, readGroups, if_pos rfl, if_pos rfl,
          readGroups_files true (hg g (by simp))]
        exact h3
      · have e : ((fun v => (g.1, v)) ∘ point) = fun f => (g.1, point f) := rfl
        rw [e] at h4
        simpa [ofGroup] using h4
  obtain ⟨data, h2, h3, h4, h5⟩ := key gs default _ _ _ hg h1
  have hgroups : groups true value (arguments files gs) = .ok (data.filter fun c => ¬ (c.1 = default ∧ c.2 = [])) := by
    rw [groups, arguments, readGroups_files true hf, h2]
  have hp : ∀ g x y, Point (data.filter fun c => ¬ (c.1 = default ∧ c.2 = [])) g x y ↔ Point data g x y := by
    intro g x y
    constructor
    · rintro ⟨c', h6, h7⟩
      exact ⟨c', (List.mem_filter.1 h6).1, h7⟩
    · rintro ⟨c', h6, h7⟩
      refine ⟨c', List.mem_filter.2 ⟨h6, ?_⟩, h7⟩
      simp only [decide_eq_true_eq]
      rintro ⟨-, rfl⟩
      simp at h7
  refine ⟨_, hgroups, fun g x y => by rw [hp, h4], fun g => ?_, (List.filter_sublist.map _).nodup h3.1,
    fun c hc => h3.2 c (List.mem_filter.1 hc).1⟩
  constructor
  · intro hm
    obtain ⟨a, ha, rfl⟩ := List.mem_map.1 hm
    obtain ⟨h6, h7⟩ := List.mem_filter.1 ha
    simp only [decide_eq_true_eq] at h7
    by_cases hd : a.1 = default
    · obtain ⟨p, ps, hps⟩ := List.exists_cons_of_ne_nil fun e => h7 ⟨hd, e⟩
      exact .inr ⟨hd, p.1, p.2, a.2, ha, by rw [hps]; simp⟩
    · refine .inl ⟨hd, ?_⟩
      have := (h5 a.1).1 (List.mem_map_of_mem (f := Prod.fst) h6)
      simpa [hd] using this
  · rintro (⟨h6, h7⟩ | ⟨rfl, x, y, h7⟩)
    · have := (h5 g).2 (by simp only [List.mem_append]; exact .inr h7)
      obtain ⟨v, hv⟩ := (mem_keys_iff g).1 this
      exact List.mem_map_of_mem (f := Prod.fst) (List.mem_filter.2 ⟨hv, by simp [h6]⟩)
    · obtain ⟨c', h8, -⟩ := h7
      exact List.mem_map_of_mem (f := Prod.fst) h8

/-- C129 does not hold with Python 3: the script breaks off at the first group that is named. -/
theorem C129_python3_violated {point : Str → K × V} {files : List Str} (name : Str) (rest : List Str)
    (hf : ∀ f ∈ files, f ≠ groupOption ∧ value f = .ok (point f)) :
    groups false value (files ++ groupOption :: name :: rest) = .error .attributeError := by
  rw [groups, readGroups_files false hf, readGroups, if_pos rfl]
  rfl

/-- C129: a missing name is noticed. -/
theorem C129_name {point : Str → K × V} (python2 : Bool) {files : List Str}
    (hf : ∀ f ∈ files, f ≠ groupOption ∧ value f = .ok (point f)) :
    groups python2 value (files ++ [groupOption]) = .error .runtimeError := by
  rw [groups, readGroups_files python2 hf, readGroups, if_pos rfl]

end groups

/-! ## Examples -/

/-- Two measurement times, one of them for two shear rates; a run is repeated. -/
example : [(10, 1, 5), (20, 1, 6), (10, 2, 7), (10, 1, 8)].foldl put ([] : Dict ℕ (Dict ℕ ℕ)) =
    [(10, [(1, 8), (2, 7)]), (20, [(1, 6)])] := by decide

example : blocks [] (pyLines (block ' ' [[['1'], ['2']], [['3'], ['4']]] ++ block ' ' [])) =
    [[[['1'], ['2']], [['3'], ['4']]], []] := by decide +kernel

example : arguments [['a']] [(['g'], [['b'], ['c']])] = [['a'], groupOption, ['g'], ['b'], ['c']] := rfl

/-- Two runs that differ in the shear rate. -/
example : [(1, 1, 5), (1, 2, 7)].Pairwise fun a b : ℕ × ℕ × ℕ => ¬ (a.1 = b.1 ∧ a.2.1 = b.2.1) := by decide

end OpenMPCD.Analysis.Overview
