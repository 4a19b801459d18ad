import Verif.Analysis.Text
import Verif.Instr.Msd
import Verif.DDDA.Props

/-!
# Reading measured mean-square displacements (C73, C74)
-/

set_option linter.unusedSectionVars false

namespace OpenMPCD.Analysis

open Runs (Str natStr)
open Snapshot (Io Token words natStr_token)
open Instr (Centers msdSaved everyNth meanSquareDisplacement pairs)
open DDDA (DDDA feedD)

variable {K : Type}

/-! ## Model -/

/-- `self._statistics`: a dictionary from time differences to `OnTheFlyStatisticsDDDA` objects. -/
abbrev LagStats (K : Type) := ℤ → Option (DDDA K)

variable [Field K] [LinearOrder K] [IsStrictOrderedRing K]

/-- The statistics before any file has been read
(`Analysis/MPCDAnalysis/LogicalEntityMeanSquareDisplacement.py:81-82`). -/
def msdInit (maximum : ℕ) : LagStats K := fun d => if 1 ≤ d ∧ d ≤ maximum then some DDDA.init else none

/-- The body of the loop in `_parse` (`Analysis/MPCDAnalysis/LogicalEntityMeanSquareDisplacement.py:258-266`), for the
columns of a line. -/
def msdParseLine (io : Io K) (s : LagStats K) : List Str → Except PyErr (LagStats K)
  | [_, p1, p2] =>
    match pyInt p1 with
    | none => .error .valueError
    | some d =>
      match io.parse p2 with
      | none => .error .valueError
      | some x =>
        match s d with
        | none => .error .keyError
        | some t => .ok (Function.update s d (some (DDDA.addDatum t x)))
  | _ => .error .valueError

/-- `_parse` (`Analysis/MPCDAnalysis/LogicalEntityMeanSquareDisplacement.py:245-266`). -/
def msdParse (io : Io K) (s : LagStats K) (text : Str) : Except PyErr (LagStats K) :=
  ((pyLines text).map words).foldlM (msdParseLine io) s

/-- What the constructor finds in a run directory: the configuration, the data file, and the compressed one. -/
structure Rundir (C : Type) where
  config : C
  plain : Option Str
  xz : Option Str

/-- The file to be read: the plain one, or else the compressed one
(`Analysis/MPCDAnalysis/LogicalEntityMeanSquareDisplacement.py:65-70,88-96`). -/
def Rundir.text {C : Type} (r : Rundir C) : Option Str := r.plain.orElse fun _ => r.xz

/-- The loop of the constructor after the first run directory
(`Analysis/MPCDAnalysis/LogicalEntityMeanSquareDisplacement.py:61-96`). `equivalent`: `Configuration.isEquivalent`. -/
def msdReadMore {C : Type} (equivalent : C → C → Bool) (io : Io K) (config : C) (s : LagStats K) (r : Rundir C) :
    Except PyErr (LagStats K) :=
  match r.text with
  | none => .error .valueError
  | some text => if equivalent config r.config then msdParse io s text else .error .valueError

/-- The constructor (`Analysis/MPCDAnalysis/LogicalEntityMeanSquareDisplacement.py:20-96`). `argumentCount`: the setting
`measurementArgumentCount`. Simplifications: the argument is a list of strings; compressed files can be read; the setting
is a natural number. -/
def msdRead {C : Type} (equivalent : C → C → Bool) (argumentCount : C → ℕ) (io : Io K) :
    List (Rundir C) → Except PyErr (LagStats K)
  | [] => .error .valueError
  | r :: rs =>
    match r.text with
    | none => .error .valueError
    | some text => do
      let s ← msdParse io (msdInit (argumentCount r.config)) text
      rs.foldlM (msdReadMore equivalent io r.config) s

/-- `getMeanSquareDisplacement` (`Analysis/MPCDAnalysis/LogicalEntityMeanSquareDisplacement.py:108-134`), for an
`int`. -/
def getMeanSquareDisplacement (maximum : ℕ) (s : LagStats K) (deltaT : ℤ) : Except PyErr (DDDA K) :=
  if deltaT ≤ 0 then .error .valueError
  else if deltaT > maximum then .error .valueError
  else match s deltaT with
    | none => .error .assertionError
    | some t => .ok t

/-- The text of the file saved by the simulation
(`src/OpenMPCD/CUDA/MPCFluid/Instrumentation/LogicalEntityMeanSquareDisplacement.cu:195-215`), given its lines. -/
def msdText (io : Io K) (lines : List (ℕ × ℕ × K)) : Str :=
  lines.flatMap fun l => tabLine (natStr l.1) [natStr l.2.1, io.fmt l.2.2]

/-- The range of time differences used by `fitToData`
(`Analysis/MPCDAnalysis/LogicalEntityMeanSquareDisplacement.py:159-170`). -/
def fitTimes (maximum : ℕ) (minTime maxTime : Option ℤ) : List ℤ :=
  let lo := minTime.getD 1
  let hi := maxTime.getD (maximum + 1)
  (List.range (hi - lo).toNat).map fun i : ℕ => lo + (i : ℤ)

/-- The points `fitToData` passes to the fit (`Analysis/MPCDAnalysis/LogicalEntityMeanSquareDisplacement.py:164-177`).
The fit itself is not modelled. -/
def fitPoints (maximum : ℕ) (s : LagStats K) (minTime maxTime : Option ℤ) : Except PyErr (List (ℤ × K)) :=
  (fitTimes maximum minTime maxTime).mapM fun T => do
    let m ← getMeanSquareDisplacement maximum s T
    let x ← DDDA.getSampleMean m
    .ok (T, x)

/-! ## Proofs -/

section lags
variable {S R : Type}

/-- The pairs with a given lag. -/
theorem pairs_filter (capacity first count d : ℕ) (h1 : first ≤ d) (h2 : d < capacity) :
    (pairs capacity first count).filter (fun p => p.2 = d) = (List.range (count - d)).map fun t => (t, d) := by
  unfold pairs
  rw [List.filter_flatMap]
  have : ∀ t, List.filter (fun p : ℕ × ℕ => decide (p.2 = d))
      (((List.range capacity).filter fun d => first ≤ d ∧ t + d < count).map fun d => (t, d)) =
      if t + d < count then [(t, d)] else [] := by
    intro t
    rw [List.filter_map, List.filter_filter]
    have e : (List.range capacity).filter (fun a => ((fun p : ℕ × ℕ => decide (p.2 = d)) ∘ fun d => (t, d)) a &&
        decide (first ≤ a ∧ t + a < count)) =
        (List.range capacity).filter (fun a => decide (t + d < count) && decide (a = d)) := by
      apply List.filter_congr
      intro a _
      by_cases ha : a = d
      · subst ha; simp [h1]
      · simp [ha]
    have e2 : (List.range capacity).filter (fun a => decide (a = d)) = [d] := by
      have e3 : (List.range capacity).filter (fun a => decide (a = d)) =
          (List.range capacity).filter (fun a => a == d) := by
        apply List.filter_congr
        intro a _
        by_cases ha : a = d <;> simp [ha]
      rw [e3, List.filter_beq, List.count_eq_one_of_mem List.nodup_range (List.mem_range.2 h2)]
      rfl
    rw [e]
    by_cases ht : t + d < count
    · simp only [ht, decide_true, Bool.true_and, if_true]
      rw [e2]
      rfl
    · simp [ht]
  simp only [this]
  have key : ∀ m, (List.range m).flatMap (fun t => if t + d < count then [(t, d)] else []) =
      (List.range (min m (count - d))).map fun t => (t, d) := by
    intro m
    induction m with
    | zero => simp
    | succ m ih =>
      rw [List.range_succ, List.flatMap_append, ih]
      by_cases hm : m + d < count
      · rw [show min (m + 1) (count - d) = min m (count - d) + 1 by omega, List.range_succ, List.map_append]
        simp only [List.flatMap_cons, List.flatMap_nil, List.append_nil, if_pos hm, List.map_cons, List.map_nil]
        rw [show min m (count - d) = m by omega]
      · rw [show min (m + 1) (count - d) = min m (count - d) by omega]
        simp [hm]
  rw [key, show min count (count - d) = count - d by omega]

/-- The values of the lines with a given lag, in order. -/
def lagColumn (lines : List (ℕ × ℕ × R)) (d : ℕ) : List R :=
  (lines.filter fun l => l.2.1 = d).map fun l => l.2.2

/-- The values of the lines with a given lag are those of the pairs of elements with that distance. -/
theorem lagColumn_eq {capacity first d : ℕ} (h1 : first ≤ d) (h2 : d < capacity) (f : S → S → R) (xs : List S)
    (lines : List (ℕ × ℕ × R)) (hp : lines.map (fun l => (l.1, l.2.1)) = pairs capacity first xs.length)
    (hv : ∀ t d x, (t, d, x) ∈ lines → ∃ a b, xs[t]? = some a ∧ xs[t + d]? = some b ∧ x = f a b) :
    lagColumn lines d = List.zipWith f xs (xs.drop d) := by
  have e1 : (lines.filter fun l => l.2.1 = d).map (fun l => (l.1, l.2.1)) =
      (List.range (xs.length - d)).map fun t => (t, d) := by
    rw [← pairs_filter capacity first xs.length d h1 h2, ← hp, List.filter_map]
    rfl
  have hlen : (lines.filter fun l => l.2.1 = d).length = xs.length - d := by
    have := congrArg List.length e1
    simpa using this
  unfold lagColumn
  apply List.ext_getElem
  · simp only [List.length_map, hlen, List.length_zipWith, List.length_drop]
    omega
  · intro i hi hi'
    rw [List.getElem_map, List.getElem_zipWith, List.getElem_drop]
    rw [List.length_map] at hi
    have hm : (lines.filter fun l => l.2.1 = d)[i] ∈ lines :=
      (List.mem_filter.1 (List.getElem_mem hi)).1
    have hfst : ((lines.filter fun l => l.2.1 = d)[i].1, (lines.filter fun l => l.2.1 = d)[i].2.1) = (i, d) := by
      have := congrArg (fun l => l[i]?) e1
      simp only [List.getElem?_map] at this
      rw [List.getElem?_eq_getElem hi, List.getElem?_range (by omega)] at this
      simpa using this
    obtain ⟨a, b, ha, hb, hx⟩ := hv _ _ _ hm
    refine hx.trans ?_
    obtain ⟨hf1, hf2⟩ := Prod.mk.inj hfst
    simp only [List.get_eq_getElem] at ha hb ⊢
    rw [hf1] at ha
    rw [hf1, hf2] at hb
    rw [List.getElem?_eq_some_iff] at ha hb
    obtain ⟨_, rfl⟩ := ha
    obtain ⟨_, rfl⟩ := hb
    congr 1
    congr 1
    omega

end lags

theorem msdParse_lines (io : Io K) {rnd : K → K} (hio : Rounds io rnd) (lines : List (ℕ × ℕ × K)) (s : LagStats K)
    (hs : ∀ l ∈ lines, s l.2.1 ≠ none) :
    msdParse io s (msdText io lines) =
      .ok fun d => (s d).map fun t => ((lines.filter fun l => (l.2.1 : ℤ) = d).map fun l => rnd l.2.2).foldl DDDA.addDatum t := by
  have e : msdText io lines =
      (lines.map fun l => (natStr l.1, [natStr l.2.1, io.fmt l.2.2])).flatMap fun r => tabLine r.1 r.2 := by
    unfold msdText
    rw [List.flatMap_map]
  unfold msdParse
  rw [e, words_pyLines, List.map_map]
  · clear e
    induction lines generalizing s with
    | nil =>
      have : (fun d => (s d).map fun t => t) = s := by
        funext d
        cases s d <;> rfl
      simp only [List.map_nil, List.filter_nil, List.foldlM_nil, List.foldl_nil, this]
      rfl
    | cons l lines ih =>
      obtain ⟨t, ht⟩ := Option.ne_none_iff_exists'.1 (hs l (by simp))
      rw [List.map_cons, List.foldlM_cons]
      simp only [Function.comp_apply, msdParseLine, pyInt_natStr, hio.parse_fmt, ht, bind, Except.bind]
      have hs' : ∀ x ∈ lines, Function.update s (l.2.1 : ℤ) (some (DDDA.addDatum t (rnd l.2.2))) x.2.1 ≠ none := by
        intro x hx
        by_cases hd : (x.2.1 : ℤ) = l.2.1
        · rw [hd, Function.update_self]
          simp
        · rw [Function.update_of_ne hd]
          exact hs x (by simp [hx])
      have := ih _ hs'
      simp only [Function.comp_def] at this ⊢
      rw [this]
      congr 1
      funext d
      by_cases hd : d = (l.2.1 : ℤ)
      · subst hd
        rw [Function.update_self, ht]
        simp
      · rw [Function.update_of_ne hd]
        have hd' : ¬ ((l.2.1 : ℤ) = d) := fun h => hd h.symm
        simp [hd']
  · intro r hr
    obtain ⟨l, -, rfl⟩ := List.mem_map.1 hr
    refine ⟨natStr_token _, fun t ht => ?_⟩
    rcases List.mem_cons.1 ht with rfl | ht
    · exact natStr_token _
    · rw [List.mem_singleton.1 ht]
      exact hio.token_fmt _

/-- One run: the directory found, the initial content of the simulation's memory, and the centers of mass at each
measurement. -/
structure MsdRun (C K : Type) where
  rundir : Rundir C
  garbage : ℕ → Centers K
  calls : List (Centers K)

/-- The run directory contains the file which the simulation has saved. -/
def MsdRun.Saved {C : Type} (io : Io K) (every maximum entities : ℕ) (r : MsdRun C K) : Prop :=
  ∃ lines, msdSaved every maximum entities r.garbage r.calls = some lines ∧ r.rundir.text = some (msdText io lines)

/-- The mean-square displacements of a run for a time difference, by increasing start. -/
def displacements (every entities : ℕ) (calls : List (Centers K)) (d : ℕ) : List K :=
  List.zipWith (meanSquareDisplacement entities) (everyNth every calls) ((everyNth every calls).drop d)

/-- Reading one file. -/
theorem msdParse_saved {C : Type} {io : Io K} {rnd : K → K} (hio : Rounds io rnd) {every : ℕ} (he : 0 < every) {maximum entities : ℕ}
    {r : MsdRun C K} (hr : r.Saved io every maximum entities) (data : ℕ → List K) (s : LagStats K)
    (hs : ∀ d : ℤ, s d = if 1 ≤ d ∧ d ≤ maximum then some (feedD (data d.toNat)) else none) :
    ∃ text s', r.rundir.text = some text ∧ msdParse io s text = .ok s' ∧
      ∀ d : ℤ, s' d = if 1 ≤ d ∧ d ≤ maximum then
        some (feedD (data d.toNat ++ (displacements every entities r.calls d.toNat).map rnd)) else none := by
  obtain ⟨lines, h1, h2⟩ := hr
  obtain ⟨lines', h1', hp, hv⟩ := Instr.C34 he maximum entities r.garbage r.calls
  rw [h1] at h1'
  obtain rfl := Option.some.inj h1'
  refine ⟨_, _, h2, msdParse_lines io hio lines s ?_, fun d => ?_⟩
  · intro l hl
    have hm : (l.1, l.2.1) ∈ pairs (maximum + 1) 1 (everyNth every r.calls).length := by
      rw [← hp]
      exact List.mem_map_of_mem (f := fun l : ℕ × ℕ × K => (l.1, l.2.1)) hl
    obtain ⟨k1, k2, -⟩ := (Instr.C34_pairs _ _ _ _).1 hm
    rw [hs, if_pos (by omega)]
    simp
  · rw [hs]
    by_cases hd : 1 ≤ d ∧ d ≤ maximum
    · rw [if_pos hd, if_pos hd, Option.map_some]
      have hc := lagColumn_eq (d := d.toNat) (by omega) (by omega) (meanSquareDisplacement entities) _ lines hp hv
      unfold lagColumn at hc
      have e : (lines.filter fun l => (l.2.1 : ℤ) = d) = lines.filter fun l => l.2.1 = d.toNat := by
        apply List.filter_congr
        intro l _
        have : ((l.2.1 : ℤ) = d) ↔ (l.2.1 = d.toNat) := by omega
        simp only [this]
      have hmap : (fun l : ℕ × ℕ × K => rnd l.2.2) = rnd ∘ fun l => l.2.2 := rfl
      rw [e, hmap, ← List.map_map, hc]
      unfold feedD
      rw [List.foldl_append]
      rfl
    · rw [if_neg hd, if_neg hd, Option.map_none]

/-- C73. From the directories of any number of runs with equivalent configurations, in which the simulation has saved its
measurements, one obtains for each time difference from one to the number configured the statistics of exactly the
mean-square displacements between measurements of the same run with that time difference, each once, rounded to the
precision of the file, in the order of the runs and of the starts of the intervals; other time differences are rejected. -/
theorem C73 {C : Type} (equivalent : C → C → Bool) (argumentCount : C → ℕ) {io : Io K} {rnd : K → K} (hio : Rounds io rnd) {every : ℕ}
    (he : 0 < every) (maximum entities : ℕ) (runs : List (MsdRun C K)) (hne : runs ≠ [])
    (hN : ∀ r ∈ runs, argumentCount r.rundir.config = maximum)
    (heq : ∀ r ∈ runs, ∀ r' ∈ runs, equivalent r.rundir.config r'.rundir.config = true)
    (hsaved : ∀ r ∈ runs, r.Saved io every maximum entities) :
    ∃ s, msdRead equivalent argumentCount io (runs.map MsdRun.rundir) = .ok s ∧
      (∀ d : ℕ, 1 ≤ d → d ≤ maximum → getMeanSquareDisplacement maximum s d =
        .ok (feedD ((runs.flatMap fun r => displacements every entities r.calls d).map rnd))) ∧
      (∀ d : ℤ, d < 1 ∨ maximum < d → getMeanSquareDisplacement maximum s d = .error .valueError) := by
  have key : ∀ (rs : List (MsdRun C K)) (c : C) (data : ℕ → List K) (s : LagStats K),
      (∀ r ∈ rs, equivalent c r.rundir.config = true) → (∀ r ∈ rs, r.Saved io every maximum entities) →
      (∀ d : ℤ, s d = if 1 ≤ d ∧ d ≤ maximum then some (feedD (data d.toNat)) else none) →
      ∃ s', (rs.map MsdRun.rundir).foldlM (msdReadMore equivalent io c) s = .ok s' ∧
        ∀ d : ℤ, s' d = if 1 ≤ d ∧ d ≤ maximum then
          some (feedD (data d.toNat ++ (rs.flatMap fun r => displacements every entities r.calls d.toNat).map rnd)) else none := by
    intro rs c
    induction rs with
    | nil =>
      intro data s _ _ hs
      exact ⟨s, rfl, fun d => by rw [hs]; simp⟩
    | cons r rs ih =>
      intro data s h1 h2 hs
      obtain ⟨text, s1, ht, hp, hs1⟩ := msdParse_saved hio he (h2 r (by simp)) data s hs
      obtain ⟨s2, h3, h4⟩ := ih (fun d => data d ++ (displacements every entities r.calls d).map rnd) s1
        (fun x hx => h1 x (by simp [hx])) (fun x hx => h2 x (by simp [hx])) hs1
      refine ⟨s2, ?_, fun d => ?_⟩
      · rw [List.map_cons, List.foldlM_cons]
        simp only [msdReadMore, ht, h1 r (by simp), if_true, hp]
        exact h3
      · rw [h4]
        simp only [List.flatMap_cons, List.append_assoc, List.map_append]
  obtain ⟨r, rs, rfl⟩ : ∃ r rs, runs = r :: rs := by
    cases runs with
    | nil => exact absurd rfl hne
    | cons r rs => exact ⟨r, rs, rfl⟩
  obtain ⟨text, s1, ht, hp, hs1⟩ := msdParse_saved hio he (hsaved r (by simp)) (fun _ => []) (msdInit maximum)
    (fun d => rfl)
  obtain ⟨s2, h3, h4⟩ := key rs r.rundir.config (fun d => (displacements every entities r.calls d).map rnd) s1
    (fun x hx => heq r (by simp) x (by simp [hx])) (fun x hx => hsaved x (by simp [hx])) hs1
  refine ⟨s2, ?_, fun d h1 h2 => ?_, fun d hd => ?_⟩
  · rw [List.map_cons, msdRead]
    simp only [ht, hN r (by simp), hp, bind, Except.bind]
    exact h3
  · unfold getMeanSquareDisplacement
    rw [if_neg (by omega), if_neg (by omega), h4, if_pos (by omega)]
    simp
  · unfold getMeanSquareDisplacement
    by_cases h0 : d ≤ 0
    · rw [if_pos h0]
    · rw [if_neg h0, if_pos (by omega)]

/-- C73: the mean is that of all these displacements; it is an error to ask for it if there are none. -/
theorem C73_mean (rnd : K → K) (every entities : ℕ) {C : Type} (runs : List (MsdRun C K)) (d : ℕ) :
    let xs := (runs.flatMap fun r => displacements every entities r.calls d).map rnd
    DDDA.getSampleSize (feedD xs) = .ok xs.length ∧
      DDDA.getSampleMean (feedD xs) = if xs = [] then .error .exception else .ok (Spec.mean xs) :=
  DDDA.C05_size_mean _

/-- C73: what is an element of the data: one displacement per start such that the end has been measured, too. -/
theorem C73_displacements {every : ℕ} (he : 0 < every) (entities : ℕ) (calls : List (Centers K)) (d i : ℕ) :
    (displacements every entities calls d)[i]? = match calls[i * every]?, calls[(i + d) * every]? with
      | some a, some b => some (meanSquareDisplacement entities a b)
      | _, _ => none := by
  unfold displacements
  rw [List.getElem?_zipWith, List.getElem?_drop, Instr.C34_everyNth he, Instr.C34_everyNth he, Nat.add_comm d i]
  cases calls[i * every]? <;> cases calls[(i + d) * every]? <;> rfl

/-- C73: missing files and lines which do not have three columns are rejected as documented. -/
theorem C73_rejects {C : Type} (equivalent : C → C → Bool) (argumentCount : C → ℕ) (io : Io K) (r : Rundir C)
    (rs : List (Rundir C)) :
    msdRead equivalent argumentCount io ([] : List (Rundir C)) = .error .valueError ∧
    (r.text = none → msdRead equivalent argumentCount io (r :: rs) = .error .valueError) ∧
    (∀ s, r.text = none → ∀ c, msdReadMore equivalent io c s r = .error .valueError) ∧
    (∀ s c, equivalent c r.config = false → msdReadMore equivalent io c s r = .error .valueError) ∧
    (∀ s parts, parts.length ≠ 3 → msdParseLine io s parts = .error .valueError) := by
  refine ⟨rfl, fun h => by simp [msdRead, h], fun s h c => by simp [msdReadMore, h], fun s c h => ?_,
    fun s parts h => ?_⟩
  · unfold msdReadMore
    rw [h]
    cases r.text <;> rfl
  · match parts, h with
    | [], _ => rfl
    | [_], _ => rfl
    | [_, _], _ => rfl
    | [_, _, _], h => exact absurd rfl h
    | _ :: _ :: _ :: _ :: _, _ => rfl

/-- C73 does not hold for errors in general: a file with a time difference which has not been configured causes a
`KeyError` instead of the documented `ValueError`. -/
theorem C73_rejects_violated {C : Type} (equivalent : C → C → Bool) (argumentCount : C → ℕ) {io : Io K}
    {rnd : K → K} (hio : Rounds io rnd) (config : C) (x : K) :
    msdRead equivalent argumentCount io [⟨config, some (msdText io [(0, 0, x)]), none⟩] = .error .keyError := by
  have e : pyLines (msdText io [(0, 0, x)]) = [natStr 0 ++ [natStr 0, io.fmt x].flatMap ('\t' :: ·)] := by
    have := pyLines_tabLine (natStr 0) [natStr 0, io.fmt x] (natStr_token _) (by
      intro t ht
      rcases List.mem_cons.1 ht with rfl | ht
      · exact natStr_token _
      · rw [List.mem_singleton.1 ht]; exact hio.token_fmt _) []
    simpa [msdText, pyLines] using this
  have hw := words_tabs (natStr 0) [natStr 0, io.fmt x] (natStr_token _) (by
      intro t ht
      rcases List.mem_cons.1 ht with rfl | ht
      · exact natStr_token _
      · rw [List.mem_singleton.1 ht]; exact hio.token_fmt _)
  simp only [msdRead, Rundir.text, Option.orElse, msdParse, e, List.map_cons, List.map_nil, hw, List.foldlM_cons,
    msdParseLine, pyInt_natStr, hio.parse_fmt, msdInit]
  rfl

/-- C74, as far as it holds: without bounds, a fit uses all time differences from one to the number configured. With
bounds, it uses those which are at least the minimum and *less* than the maximum. -/
theorem C74_times_partial (maximum : ℕ) (minTime maxTime : Option ℤ) (T : ℤ) :
    T ∈ fitTimes maximum minTime maxTime ↔ minTime.getD 1 ≤ T ∧ T < maxTime.getD (maximum + 1) := by
  unfold fitTimes
  simp only [List.mem_map, List.mem_range]
  constructor
  · rintro ⟨i, hi, rfl⟩
    omega
  · intro h
    exact ⟨(T - minTime.getD 1).toNat, by omega, by omega⟩

/-- C74: no time difference is used twice. -/
theorem C74_nodup (maximum : ℕ) (minTime maxTime : Option ℤ) : (fitTimes maximum minTime maxTime).Nodup := by
  unfold fitTimes
  exact List.nodup_range.map fun a b h => by simpa using h

/-- C74: each of them is used with its own mean. -/
theorem C74_points (maximum : ℕ) (s : LagStats K) (minTime maxTime : Option ℤ) {points : List (ℤ × K)}
    (h : fitPoints maximum s minTime maxTime = .ok points) :
    points.map Prod.fst = fitTimes maximum minTime maxTime ∧
      ∀ p ∈ points, ∃ m, getMeanSquareDisplacement maximum s p.1 = .ok m ∧ DDDA.getSampleMean m = .ok p.2 := by
  unfold fitPoints at h
  generalize fitTimes maximum minTime maxTime = l at h
  induction l generalizing points with
  | nil =>
    cases h
    exact ⟨rfl, fun p hp => by simp at hp⟩
  | cons T l ih =>
    rw [List.mapM_cons] at h
    cases h1 : getMeanSquareDisplacement maximum s T with
    | error e => simp [h1, bind, Except.bind] at h
    | ok m =>
      cases h2 : DDDA.getSampleMean m with
      | error e => simp [h1, h2, bind, Except.bind] at h
      | ok x =>
        simp only [h1, h2, bind, Except.bind] at h
        split at h
        · cases h
        · rename_i rest hrest
          simp only [pure, Except.pure, Except.ok.injEq] at h
          subst h
          obtain ⟨h3, h4⟩ := ih hrest
          refine ⟨by simp [h3], fun p hp => ?_⟩
          rcases List.mem_cons.1 hp with rfl | hp
          · exact ⟨m, h1, h2⟩
          · exact h4 p hp

/-- C74 does not hold: the maximum time given is never used, although it is documented to be the maximum value that will
be used. -/
theorem C74_violated (maximum : ℕ) (minTime : Option ℤ) (maxTime : ℤ) :
    maxTime ∉ fitTimes maximum minTime (some maxTime) := by
  rw [C74_times_partial]
  simp

/-! ## Examples -/

/-- Three measurements of one entity which moves by one unit per sweep. -/
def moving : List (Centers ℚ) := [fun _ => ⟨0, 0, 0⟩, fun _ => ⟨1, 0, 0⟩, fun _ => ⟨2, 0, 0⟩]

example : displacements 1 1 moving 1 = [1, 1] ∧ displacements 1 1 moving 2 = [4] := by
  constructor <;>
  · simp only [displacements, moving, everyNth]
    norm_num [List.zipIdx]
    simp [meanSquareDisplacement]
    try norm_num

example : fitTimes 5 none none = [1, 2, 3, 4, 5] ∧ fitTimes 5 (some 2) (some 4) = [2, 3] := by decide

/-- The hypotheses of `C73` can be met. -/
example {io : Io ℚ} (g : ℕ → Centers ℚ) : ∃ lines,
    (⟨⟨(), some (msdText io lines), none⟩, g, moving⟩ : MsdRun Unit ℚ).Saved io 1 2 1 := by
  obtain ⟨lines, h, -⟩ := Instr.C34 (K := ℚ) one_pos 2 1 g moving
  exact ⟨lines, lines, h, rfl⟩

/-- C73: if there is a data file that is not compressed, whether and which compressed one there is makes no difference. -/
theorem C73_plain {C : Type} (equivalent : C → C → Bool) (argumentCount : C → ℕ) (io : Io K) (runs : List (Rundir C))
    (xz : Rundir C → Option Str) :
    msdRead equivalent argumentCount io (runs.map fun r => ⟨r.config, r.plain, if r.plain = none then r.xz else xz r⟩) =
      msdRead equivalent argumentCount io runs := by
  have ht : ∀ r : Rundir C, (⟨r.config, r.plain, if r.plain = none then r.xz else xz r⟩ : Rundir C).text = r.text := by
    rintro ⟨c, p, z⟩
    cases p <;> rfl
  have hm : ∀ c s (r : Rundir C), msdReadMore equivalent io c s
      ⟨r.config, r.plain, if r.plain = none then r.xz else xz r⟩ = msdReadMore equivalent io c s r := by
    intro c s r
    unfold msdReadMore
    rw [ht]
  cases runs with
  | nil => rfl
  | cons r rs =>
    rw [List.map_cons, msdRead, msdRead, ht]
    simp only [List.foldlM_map, hm]

end OpenMPCD.Analysis
