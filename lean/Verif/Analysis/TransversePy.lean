import Verif.Analysis.Transverse
import Verif.Analysis.Relax

/-!
# The transverse velocity correlation function, as computed by the script (C127)

The script `transverseVelocityCorrelationFunction.py` computes from the same files as the program of C93. Real and complex
numbers, exact, except that those in files are rounded.
-/

set_option linter.unusedSectionVars false
set_option linter.unusedSimpArgs false

namespace OpenMPCD.Analysis.TransversePy

open Runs (Str)
open Snapshot (Io Token words)
open Instr.Fourier (waveVector)
open Vec3
open Transverse (fileText roundVec roundVelocity transverse products headerToken perpendicular_transverse)
open Relax (upd)

/-! ## Model -/

/-- `[float(x) for x in l]`. -/
def floats (io : Io ℝ) (l : List Str) : Except PyErr (List ℝ) :=
  match l.mapM io.parse with
  | none => .error .valueError
  | some x => .ok x

/-- The wave vector in the first line of a file (`Analysis/transverseVelocityCorrelationFunction.py:62-68`). The line has
its line end in Python, so that there is a first character unless the file is empty. -/
def readWaveVector (io : Io ℝ) (text : Str) : Except PyErr (Vec3 ℝ) :=
  match pyLines text with
  | [] => .error .indexError
  | line :: _ =>
    if (line ++ ['\n']).head? ≠ some '#' then .error .valueError
    else match floats io (words line).tail with
      | .error e => .error e
      | .ok (x :: y :: z :: _) => .ok ⟨x, y, z⟩
      | .ok _ => .error .indexError

/-- The body of the loop in `processFile` (`Analysis/transverseVelocityCorrelationFunction.py:103-115`). -/
noncomputable def processLine (io : Io ℝ) (k_n : Vec3 ℝ) (data : List (ℝ × Vec3 ℂ)) (parts : List Str) :
    Except PyErr (List (ℝ × Vec3 ℂ)) :=
  match floats io parts with
  | .error e => .error e
  | .ok [t, a, b, c, d, e, f] =>
    match Vec3.cGetPerpendicularTo ⟨⟨a, b⟩, ⟨c, d⟩, ⟨e, f⟩⟩ k_n.toComplex with
    | none => .error .zeroDivisionError
    | some vT => .ok (upd t (fun _ => vT) data)
  | .ok _ => .error .valueError

/-- `processFile` (`Analysis/transverseVelocityCorrelationFunction.py:97-117`): the entries of the `OrderedDict`, see
`addPoint` (`Analysis/MPCDAnalysis/Data2D.py:18-19`). -/
noncomputable def processFile (io : Io ℝ) (k_n : Vec3 ℝ) (text : Str) : Except PyErr (List (ℝ × Vec3 ℂ)) :=
  ((pyLines text).tail.map words).foldlM (processLine io k_n) []

open Classical in
/-- `data.getData()` (`Analysis/MPCDAnalysis/Data2D.py:185-189`, see `Analysis/MPCDAnalysis/Data2D.py:23-24`). -/
noncomputable def getData (l : List (ℝ × Vec3 ℂ)) : List (ℝ × Vec3 ℂ) := l.mergeSort fun a b => decide (a.1 ≤ b.1)

/-- What is stored for a stride: `deltaT`, `sum`, and `count`. -/
abbrev Stride := ℝ × ℂ × ℕ

/-- The sum and the number of products for a stride in the data of a run
(`Analysis/transverseVelocityCorrelationFunction.py:146-159`). -/
noncomputable def strideOf (l : List (ℝ × Vec3 ℂ)) (stride : ℕ) : Stride :=
  let keys := (List.range l.length).takeWhile fun key => ¬ key + stride ≥ l.length
  ((l.getD stride (0, 0)).1 - (l.getD 0 (0, 0)).1,
    keys.foldl (fun s key => s + Vec3.cdot (l.getD (key + stride) (0, 0)).2 (l.getD key (0, 0)).2) 0, keys.length)

/-- The strides of a run, which are those for which there is a pair
(`Analysis/transverseVelocityCorrelationFunction.py:145-162`). -/
noncomputable def runStrides (l : List (ℝ × Vec3 ℂ)) : List Stride :=
  ((List.range 5000).takeWhile fun stride => stride < l.length).map (strideOf l)

open Classical in
/-- Adding the strides of a run to the others (`Analysis/transverseVelocityCorrelationFunction.py:164-170`). The keys of the
`dict` are the numbers from zero on, so that a list can be used for it. -/
noncomputable def addStrides : List Stride → List Stride → Except PyErr (List Stride)
  | [], b => .ok b
  | a, [] => .ok a
  | (t, s, n) :: a, (t', s', n') :: b =>
    if t ≠ t' then .error .valueError
    else match addStrides a b with
      | .error e => .error e
      | .ok r => .ok ((t, s + s', n + n') :: r)

open Classical in
/-- The loop over the strides (`Analysis/transverseVelocityCorrelationFunction.py:173-185`), in ascending order (as in
CPython, for small integers). Simplification: the points as a list; in `C127_rows_partial`, no two of them are at the same
time. -/
noncomputable def normalised : List Stride → Except PyErr (List (ℝ × ℝ))
  | [] => .ok []
  | (t, s, n) :: r =>
    if s / n = 0 then .error .zeroDivisionError
    else .ok (((t, s, n) :: r).map fun x => (x.1, (x.2.1 / x.2.2 / (s / n)).re))

/-- The loop over the run directories, for one wave vector (`Analysis/transverseVelocityCorrelationFunction.py:139-170`), given
the contents of the files. With Python 3, `items()` does not yield a list, and a part of it cannot be asked for by its number
(`Analysis/transverseVelocityCorrelationFunction.py:143`, `Analysis/transverseVelocityCorrelationFunction.py:155`). -/
noncomputable def collect (python3 : Bool) (io : Io ℝ) (k_n : Vec3 ℝ) : List Stride → List Str → Except PyErr (List Stride)
  | strides, [] => .ok strides
  | strides, text :: texts =>
    match processFile io k_n text with
    | .error e => .error e
    | .ok l =>
      if python3 ∧ l ≠ [] then .error .typeError
      else match addStrides strides (runStrides (getData l)) with
        | .error e => .error e
        | .ok strides => collect python3 io k_n strides texts

open Classical in
/-- `getWaveVectorIntegerComponentsByRundirs` (`Analysis/transverseVelocityCorrelationFunction.py:75-86`), for one file per
run. -/
noncomputable def commonWaveVector (io : Io ℝ) : List Str → Except PyErr (Vec3 ℝ)
  | [] => .error .typeError
  | text :: texts =>
    match readWaveVector io text with
    | .error e => .error e
    | .ok k => texts.foldlM (fun k text => match readWaveVector io text with
      | .error e => .error e
      | .ok k' => if k ≠ k' then .error .valueError else .ok k) k

/-- The correlation function plotted for a wave vector (`Analysis/transverseVelocityCorrelationFunction.py:134-185`), given
the contents of the file of that wave vector in each run. -/
noncomputable def correlation (python3 : Bool) (io : Io ℝ) (texts : List Str) : Except PyErr (Vec3 ℝ × List (ℝ × ℝ)) :=
  match commonWaveVector io texts with
  | .error e => .error e
  | .ok k_n =>
    match collect python3 io k_n [] texts with
    | .error e => .error e
    | .ok strides =>
      match normalised strides with
      | .error e => .error e
      | .ok rows => .ok (k_n, rows)

/-! ## Specification -/

/-- The velocities recorded in a run, perpendicular to a vector, rounded as in the file. -/
noncomputable def read (rnd : ℝ → ℝ) (k : Vec3 ℝ) (records : List (ℝ × Vec3 ℂ)) : List (ℝ × Vec3 ℂ) :=
  records.map fun r => (rnd r.1, transverse k (roundVelocity rnd r.2))

open Classical in
/-- The same in the order of time. -/
noncomputable def recorded (rnd : ℝ → ℝ) (k : Vec3 ℝ) (records : List (ℝ × Vec3 ℂ)) : List (ℝ × Vec3 ℂ) :=
  (read rnd k records).mergeSort fun a b => decide (a.1 ≤ b.1)

/-- The time between the first measurement and that `s` measurements later. -/
noncomputable def lag (l : List (ℝ × Vec3 ℂ)) (s : ℕ) : ℝ := (l.getD s (0, 0)).1 - (l.getD 0 (0, 0)).1

/-- In all runs, measurements take place the same time after the first one (as far as the first 5000 are concerned). -/
def SameTimes (series : List (List (ℝ × Vec3 ℂ))) : Prop :=
  ∀ l ∈ series, ∀ l' ∈ series, ∀ s, s < 5000 → s < l.length → s < l'.length → lag l s = lag l' s

/-- The files of all runs have the same wave vector, and in each of them, no two times are the same once rounded. -/
def Readable (rnd : ℝ → ℝ) (k : Vec3 ℝ) (runs : List (Vec3 ℝ × List (ℝ × Vec3 ℂ))) : Prop :=
  ∀ r ∈ runs, roundVec rnd r.1 = k ∧ (r.2.map fun x => rnd x.1).Nodup

/-! ## Proofs -/

variable {io : Io ℝ} {rnd : ℝ → ℝ}

theorem mapM_fmt (hio : Rounds io rnd) (l : List ℝ) : floats io (l.map io.fmt) = .ok (l.map rnd) := by
  have : (l.map io.fmt).mapM io.parse = some (l.map rnd) := by
    induction l with
    | nil => rfl
    | cons a l ih =>
      rw [List.map_cons, List.mapM_cons, hio.parse_fmt, ih]
      rfl
  unfold floats
  rw [this]

theorem words_file (hio : Rounds io rnd) (k_n : Vec3 ℝ) (records : List (ℝ × Vec3 ℂ)) :
    (pyLines (fileText io k_n records)).map words =
      ("#k_n:".toList :: [k_n.x, k_n.y, k_n.z].map io.fmt) ::
        records.map fun r => [r.1, r.2.x.re, r.2.x.im, r.2.y.re, r.2.y.im, r.2.z.re, r.2.z.im].map io.fmt := by
  have e : fileText io k_n records = (("#k_n:".toList, [k_n.x, k_n.y, k_n.z].map io.fmt) ::
      records.map fun r => (io.fmt r.1, [r.2.x.re, r.2.x.im, r.2.y.re, r.2.y.im, r.2.z.re, r.2.z.im].map io.fmt)).flatMap
        fun r => tabLine r.1 r.2 := by
    rw [List.flatMap_cons, List.flatMap_map]
    rfl
  rw [e, words_pyLines, List.map_cons, List.map_map]
  · rfl
  · intro r hr
    rcases List.mem_cons.1 hr with rfl | hr
    · refine ⟨headerToken, fun t ht => ?_⟩
      obtain ⟨x, -, rfl⟩ := List.mem_map.1 ht
      exact hio.token_fmt x
    · obtain ⟨l, -, rfl⟩ := List.mem_map.1 hr
      refine ⟨hio.token_fmt _, fun t ht => ?_⟩
      obtain ⟨x, -, rfl⟩ := List.mem_map.1 ht
      exact hio.token_fmt x

theorem readWaveVector_eq (hio : Rounds io rnd) (k_n : Vec3 ℝ) (records : List (ℝ × Vec3 ℂ)) :
    readWaveVector io (fileText io k_n records) = .ok (roundVec rnd k_n) := by
  have hw := words_file hio k_n records
  have hl : ∃ rest, pyLines (fileText io k_n records) =
      ("#k_n:".toList ++ [io.fmt k_n.x, io.fmt k_n.y, io.fmt k_n.z].flatMap ('\t' :: ·)) :: rest := by
    unfold fileText
    rw [pyLines_tabLine _ _ headerToken (by
      intro t ht
      simp only [List.mem_cons, List.not_mem_nil, or_false] at ht
      rcases ht with rfl | rfl | rfl <;> exact hio.token_fmt _)]
    exact ⟨_, rfl⟩
  obtain ⟨rest, hl⟩ := hl
  unfold readWaveVector
  rw [hl] at hw ⊢
  rw [List.map_cons, List.cons.injEq] at hw
  dsimp only
  rw [if_neg (by simp), hw.1, List.tail_cons, mapM_fmt hio]
  rfl

theorem foldlM_ok {σ α : Type} {f : σ → α → Except PyErr σ} {g : σ → α → σ} {l : List α}
    (h : ∀ s, ∀ a ∈ l, f s a = .ok (g s a)) (s : σ) : l.foldlM f s = .ok (l.foldl g s) := by
  induction l generalizing s with
  | nil => rfl
  | cons a l ih =>
    rw [List.foldlM_cons, h s a (by simp)]
    exact ih (fun s a ha => h s a (by simp [ha])) _

theorem upd_fresh {κ V : Type} [DecidableEq κ] (k : κ) (f : Option V → V) (d : List (κ × V)) (h : k ∉ d.map Prod.fst) :
    upd k f d = d ++ [(k, f none)] := by
  induction d with
  | nil => rfl
  | cons a d ih =>
    obtain ⟨k', v⟩ := a
    rw [List.map_cons, List.mem_cons, not_or] at h
    rw [upd, if_neg fun e => h.1 e.symm, ih h.2]
    rfl

theorem foldl_upd_fresh {κ V α : Type} [DecidableEq κ] (k : α → κ) (v : α → V) (l : List α) (d : List (κ × V))
    (h : (d.map Prod.fst ++ l.map k).Nodup) :
    l.foldl (fun d a => upd (k a) (fun _ => v a) d) d = d ++ l.map fun a => (k a, v a) := by
  induction l generalizing d with
  | nil => simp
  | cons a l ih =>
    rw [List.foldl_cons, upd_fresh, ih]
    · simp
    · simpa using h
    · intro hm
      rw [List.nodup_append] at h
      exact h.2.2 _ hm _ (by simp) rfl

theorem processFile_eq (hio : Rounds io rnd) {k_n : Vec3 ℝ} (hk : roundVec rnd k_n ≠ 0) (records : List (ℝ × Vec3 ℂ))
    (hn : (records.map fun r => rnd r.1).Nodup) :
    processFile io (roundVec rnd k_n) (fileText io k_n records) = .ok (read rnd (roundVec rnd k_n) records) := by
  have hw := words_file hio k_n records
  unfold processFile
  rw [List.map_tail, hw, List.tail_cons, List.foldlM_map]
  rw [foldlM_ok (g := fun d (r : ℝ × Vec3 ℂ) => upd (rnd r.1)
    (fun _ => transverse (roundVec rnd k_n) (roundVelocity rnd r.2)) d)]
  · rw [foldl_upd_fresh (fun r : ℝ × Vec3 ℂ => rnd r.1)
      (fun r => transverse (roundVec rnd k_n) (roundVelocity rnd r.2)) records [] (by simpa using hn)]
    rfl
  · intro s r _
    unfold processLine
    rw [mapM_fmt hio]
    have := perpendicular_transverse (roundVec rnd k_n) hk (roundVelocity rnd r.2)
    simp only [List.map_cons, List.map_nil]
    rw [show (⟨⟨rnd r.2.x.re, rnd r.2.x.im⟩, ⟨rnd r.2.y.re, rnd r.2.y.im⟩, ⟨rnd r.2.z.re, rnd r.2.z.im⟩⟩ : Vec3 ℂ) =
      roundVelocity rnd r.2 from rfl, this]

theorem recorded_perm (k : Vec3 ℝ) (records : List (ℝ × Vec3 ℂ)) :
    (recorded rnd k records).Perm (read rnd k records) := List.mergeSort_perm _ _

theorem recorded_length (k : Vec3 ℝ) (records : List (ℝ × Vec3 ℂ)) :
    (recorded rnd k records).length = records.length := by
  rw [(recorded_perm k records).length_eq, read, List.length_map]

theorem recorded_nil (k : Vec3 ℝ) (records : List (ℝ × Vec3 ℂ)) : recorded rnd k records = [] ↔ records = [] := by
  rw [← List.length_eq_zero_iff, recorded_length, List.length_eq_zero_iff]

theorem read_nil (k : Vec3 ℝ) (records : List (ℝ × Vec3 ℂ)) : read rnd k records = [] ↔ records = [] := by
  simp [read]

theorem recorded_increasing (k : Vec3 ℝ) {records : List (ℝ × Vec3 ℂ)} (h : (records.map fun r => rnd r.1).Nodup) :
    (recorded rnd k records).Pairwise fun a b => a.1 < b.1 := by
  have hs : (recorded rnd k records).Pairwise fun a b => decide (a.1 ≤ b.1) = true := by
    refine List.pairwise_mergeSort (fun a b c => ?_) (fun a b => ?_) _
    · simp only [decide_eq_true_eq]
      exact le_trans
    · simp only [Bool.or_eq_true, decide_eq_true_eq]
      exact le_total _ _
  have hn : ((recorded rnd k records).map Prod.fst).Nodup := by
    rw [((recorded_perm k records).map Prod.fst).nodup_iff, read, List.map_map]
    exact h
  rw [List.Nodup, List.pairwise_map] at hn
  refine (hs.and hn).imp fun h => ?_
  exact lt_of_le_of_ne (by simpa using h.1) h.2

theorem zipWith_range {A : Type} (l : List (ℝ × Vec3 ℂ)) (f : ℝ × Vec3 ℂ → ℝ × Vec3 ℂ → A) (s : ℕ) :
    ((List.range l.length).takeWhile fun key => ¬ key + s ≥ l.length).map
      (fun key => f (l.getD (key + s) (0, 0)) (l.getD key (0, 0))) = List.zipWith (fun a b => f b a) l (l.drop s) := by
  rw [Transverse.takeWhile_range]
  apply List.ext_getElem
  · simp
  · intro i h1 h2
    have hi : i + s < l.length := by
      simp only [List.length_map, List.length_range] at h1
      omega
    simp [List.getElem_drop, List.getD_eq_getElem?_getD, List.getElem?_eq_getElem hi,
      List.getElem?_eq_getElem (show i < l.length by omega), Nat.add_comm s i]

/-- The products of one run. -/
noncomputable def complexProducts (l : List (ℝ × Vec3 ℂ)) (s : ℕ) : List ℂ :=
  List.zipWith (fun earlier later => later.2.cdot earlier.2) l (l.drop s)

theorem strideOf_eq (l : List (ℝ × Vec3 ℂ)) (s : ℕ) :
    strideOf l s = ((l.getD s (0, 0)).1 - (l.getD 0 (0, 0)).1, (complexProducts l s).sum, (complexProducts l s).length) := by
  unfold strideOf complexProducts
  have h := zipWith_range l (fun b a => Vec3.cdot b.2 a.2) s
  rw [← h, List.length_map, List.sum_eq_foldl, List.foldl_map]

theorem runStrides_get (l : List (ℝ × Vec3 ℂ)) (s : ℕ) :
    (runStrides l)[s]? = if s < 5000 ∧ s < l.length then some (strideOf l s) else none := by
  unfold runStrides
  have : ((List.range 5000).takeWhile fun stride => decide (stride < l.length)) = List.range (min 5000 l.length) := by
    generalize 5000 = n
    induction n with
    | zero => simp
    | succ n ih =>
      rw [List.range_succ, List.takeWhile_append, ih]
      by_cases h : n < l.length
      · rw [if_pos (by simp; omega), List.takeWhile_cons_of_pos (by simpa using h), List.takeWhile_nil,
          show min (n + 1) l.length = min n l.length + 1 by omega, List.range_succ, show min n l.length = n by omega]
      · by_cases h' : n = l.length
        · rw [if_pos (by simp; omega), List.takeWhile_cons_of_neg (by simpa using h), List.append_nil,
            show min (n + 1) l.length = min n l.length by omega, show min n l.length = n by omega]
        · rw [if_neg (by simp; omega), show min (n + 1) l.length = min n l.length by omega]
  rw [this, List.getElem?_map]
  by_cases h : s < 5000 ∧ s < l.length
  · rw [if_pos h, List.getElem?_range (by omega)]
    rfl
  · rw [if_neg h, List.getElem?_eq_none (by simp; omega)]
    rfl

/-- The strides of two lists combined. -/
noncomputable def merge : Option Stride → Option Stride → Option Stride
  | none, b => b
  | a, none => a
  | some (t, s, n), some (_, s', n') => some (t, s + s', n + n')

theorem addStrides_ok (a b : List Stride)
    (h : ∀ (i : ℕ) (x y : Stride), a[i]? = some x → b[i]? = some y → x.1 = y.1) :
    ∃ c : List Stride, addStrides a b = .ok c ∧ ∀ i : ℕ, c[i]? = merge a[i]? b[i]? := by
  induction a generalizing b with
  | nil =>
    refine ⟨b, by rw [addStrides], fun i => ?_⟩
    simp [merge]
  | cons x a ih =>
    cases b with
    | nil =>
      refine ⟨x :: a, by rw [addStrides]; simp, fun i => ?_⟩
      cases (x :: a)[i]? <;> simp [merge]
    | cons y b =>
      obtain ⟨c, hc, hc'⟩ := ih b fun i x y hx hy => h (i + 1) x y (by simpa using hx) (by simpa using hy)
      obtain ⟨t, s, n⟩ := x
      obtain ⟨t', s', n'⟩ := y
      have h0 : t = t' := h 0 _ _ rfl rfl
      refine ⟨(t, s + s', n + n') :: c, ?_, fun i => ?_⟩
      · rw [addStrides, if_neg (by simpa using h0), hc]
      · cases i with
        | zero => simp [merge]
        | succ i => simpa using hc' i

theorem addStrides_error (a b : List Stride) {i : ℕ} {x y : Stride} (hx : a[i]? = some x) (hy : b[i]? = some y)
    (h : x.1 ≠ y.1) : addStrides a b = .error .valueError := by
  induction a generalizing b i with
  | nil => simp at hx
  | cons x' a ih =>
    cases b with
    | nil => simp at hy
    | cons y' b =>
      obtain ⟨t, s, n⟩ := x'
      obtain ⟨t', s', n'⟩ := y'
      rw [addStrides]
      by_cases h0 : t = t'
      · rw [if_neg (by simpa using h0)]
        cases i with
        | zero =>
          simp only [List.getElem?_cons_zero, Option.some.injEq] at hx hy
          subst hx hy
          exact absurd h0 h
        | succ i => rw [ih b (by simpa using hx) (by simpa using hy)]
      · rw [if_pos h0]

/-- The strides of all runs so far. -/
def Combined (series : List (List (ℝ × Vec3 ℂ))) (strides : List Stride) : Prop :=
  ∀ s, strides[s]? = if s < 5000 then (series.find? fun l => decide (s < l.length)).map fun l =>
    (lag l s, (series.flatMap (complexProducts · s)).sum, (series.flatMap (complexProducts · s)).length) else none

theorem products_short {l : List (ℝ × Vec3 ℂ)} {s : ℕ} (h : ¬ s < l.length) : complexProducts l s = [] := by
  unfold complexProducts
  rw [List.drop_eq_nil_of_le (by omega), List.zipWith_nil_right]

theorem combined_append {series : List (List (ℝ × Vec3 ℂ))} {strides : List Stride} (hs : Combined series strides)
    (l : List (ℝ × Vec3 ℂ)) :
    ((∀ l' ∈ series, ∀ s, s < 5000 → s < l'.length → s < l.length → lag l' s = lag l s) →
      ∃ c, addStrides strides (runStrides l) = .ok c ∧ Combined (series ++ [l]) c) := by
  intro h
  obtain ⟨c, hc, hc'⟩ := addStrides_ok strides (runStrides l) (by
    intro i x y hx hy
    rw [hs] at hx
    rw [runStrides_get] at hy
    split at hx
    · split at hy
      · rename_i h1 h2
        obtain ⟨l', hl', rfl⟩ := Option.map_eq_some_iff.1 hx
        obtain rfl := Option.some.inj hy
        rw [strideOf_eq]
        exact h l' (List.mem_of_find?_eq_some hl') i h1 (by simpa using List.find?_some hl') h2.2
      · cases hy
    · cases hx)
  refine ⟨c, hc, fun s => ?_⟩
  rw [hc', hs, runStrides_get, strideOf_eq]
  by_cases h5 : s < 5000
  · simp only [h5, if_true, true_and, List.find?_append, List.flatMap_append, List.flatMap_cons, List.flatMap_nil,
      List.append_nil, List.sum_append, List.length_append]
    by_cases hl : s < l.length
    · rw [if_pos hl]
      cases hf : series.find? fun l => decide (s < l.length) with
      | none =>
        have e : series.flatMap (complexProducts · s) = [] := by
          rw [List.flatMap_eq_nil_iff]
          intro l' hl'
          exact products_short (by simpa using List.find?_eq_none.1 hf l' hl')
        simp [merge, e, hl, lag]
      | some l' => simp [merge]
    · rw [if_neg hl, products_short hl]
      cases hf : series.find? fun l => decide (s < l.length) with
      | none => simp [merge, hl]
      | some l' => simp [merge]
  · simp [h5, merge]

theorem combined_differ {series : List (List (ℝ × Vec3 ℂ))} {strides : List Stride} (hs : Combined series strides)
    (hsame : SameTimes series)
    {l l' : List (ℝ × Vec3 ℂ)} (hl' : l' ∈ series) {s : ℕ} (h5 : s < 5000) (h1 : s < l'.length) (h2 : s < l.length)
    (h : lag l' s ≠ lag l s) : addStrides strides (runStrides l) = .error .valueError := by
  have hsome : (series.find? fun l => decide (s < l.length)).isSome := by
    rw [List.find?_isSome]
    exact ⟨l', hl', by simpa using h1⟩
  obtain ⟨l1, hl1⟩ := Option.isSome_iff_exists.1 hsome
  refine addStrides_error _ _ (i := s) (x := (lag l1 s, (series.flatMap (complexProducts · s)).sum,
    (series.flatMap (complexProducts · s)).length)) (y := strideOf l s) ?_ ?_ ?_
  · rw [hs, if_pos h5, hl1]
    rfl
  · rw [runStrides_get, if_pos ⟨h5, h2⟩]
  · rw [strideOf_eq]
    intro e
    apply h
    rw [← hsame l1 (List.mem_of_find?_eq_some hl1) l' hl' s h5 (by simpa using List.find?_some hl1) h1]
    exact e

theorem collect_eq (hio : Rounds io rnd) {k : Vec3 ℝ} (hk : k ≠ 0) (runs : List (Vec3 ℝ × List (ℝ × Vec3 ℂ)))
    (hr : Readable rnd k runs) (before : List (List (ℝ × Vec3 ℂ))) (strides : List Stride) (hs : Combined before strides)
    (hsame : SameTimes before) :
    let series := before ++ runs.map fun r => recorded rnd k r.2
    (SameTimes series →
      ∃ c, collect false io k strides (runs.map fun r => fileText io r.1 r.2) = .ok c ∧ Combined series c) ∧
    (¬ SameTimes series →
      collect false io k strides (runs.map fun r => fileText io r.1 r.2) = .error .valueError) := by
  induction runs generalizing before strides with
  | nil =>
    intro series
    have e : series = before := by simp [series]
    rw [e]
    exact ⟨fun _ => ⟨strides, rfl, hs⟩, fun h => absurd hsame h⟩
  | cons r runs ih =>
    intro series
    have e : series = (before ++ [recorded rnd k r.2]) ++ runs.map fun r => recorded rnd k r.2 := by simp [series]
    obtain ⟨h1, h2⟩ := hr r (by simp)
    have hp : processFile io k (fileText io r.1 r.2) = .ok (read rnd k r.2) := by
      subst h1
      exact processFile_eq hio hk r.2 h2
    rw [List.map_cons, collect, hp]
    simp only [Bool.false_eq_true, false_and, if_false]
    rw [show getData (read rnd k r.2) = recorded rnd k r.2 from rfl]
    by_cases hl : ∀ l' ∈ before, ∀ s, s < 5000 → s < l'.length → s < (recorded rnd k r.2).length →
        lag l' s = lag (recorded rnd k r.2) s
    · obtain ⟨c, hc, hc'⟩ := combined_append hs (recorded rnd k r.2) hl
      rw [hc, e]
      refine ih (fun r hr' => hr r (by simp [hr'])) _ c hc' ?_
      intro l hl1 l' hl2 s h5 h6 h7
      rw [List.mem_append, List.mem_singleton] at hl1 hl2
      rcases hl1 with hl1 | rfl <;> rcases hl2 with hl2 | rfl
      · exact hsame l hl1 l' hl2 s h5 h6 h7
      · exact hl l hl1 s h5 h6 h7
      · exact (hl l' hl2 s h5 h7 h6).symm
      · rfl
    · push Not at hl
      obtain ⟨l', hl', s, h5, h6, h7, h8⟩ := hl
      refine ⟨fun h => absurd (h l' (by simp [series, hl']) _ (by simp [series]) s h5 h6 h7) h8, fun _ => ?_⟩
      rw [combined_differ hs hsame hl' h5 h6 h7 h8]

theorem commonWaveVector_eq (hio : Rounds io rnd) {k : Vec3 ℝ} (runs : List (Vec3 ℝ × List (ℝ × Vec3 ℂ))) (hne : runs ≠ [])
    (h : ∀ r ∈ runs, roundVec rnd r.1 = k) :
    commonWaveVector io (runs.map fun r => fileText io r.1 r.2) = .ok k := by
  cases runs with
  | nil => exact absurd rfl hne
  | cons r runs =>
    rw [List.map_cons, commonWaveVector, readWaveVector_eq hio, h r (by simp)]
    dsimp only
    have h' : ∀ r ∈ runs, roundVec rnd r.1 = k := fun r hr => h r (by simp [hr])
    clear h hne
    induction runs with
    | nil => rfl
    | cons a runs ih =>
      rw [List.map_cons, List.foldlM_cons, readWaveVector_eq hio, h' a (by simp)]
      dsimp only
      rw [if_neg (by simp)]
      exact ih fun r hr => h' r (by simp [hr])

theorem commonWaveVector_differ (hio : Rounds io rnd) (runs : List (Vec3 ℝ × List (ℝ × Vec3 ℂ))) {a b : Vec3 ℝ × List (ℝ × Vec3 ℂ)}
    (ha : a ∈ runs) (hb : b ∈ runs) (h : roundVec rnd a.1 ≠ roundVec rnd b.1) :
    commonWaveVector io (runs.map fun r => fileText io r.1 r.2) = .error .valueError := by
  cases runs with
  | nil => cases ha
  | cons r runs =>
    rw [List.map_cons, commonWaveVector, readWaveVector_eq hio]
    dsimp only
    have : ∃ c ∈ runs, roundVec rnd r.1 ≠ roundVec rnd c.1 := by
      by_contra hc
      push Not at hc
      have e : ∀ c ∈ r :: runs, roundVec rnd r.1 = roundVec rnd c.1 := by
        intro c hc'
        rcases List.mem_cons.1 hc' with rfl | hc'
        · rfl
        · exact hc c hc'
      exact h ((e a ha).symm.trans (e b hb))
    clear ha hb
    induction runs with
    | nil => obtain ⟨c, hc, -⟩ := this; cases hc
    | cons x runs ih =>
      rw [List.map_cons, List.foldlM_cons, readWaveVector_eq hio]
      dsimp only
      by_cases hx : roundVec rnd r.1 = roundVec rnd x.1
      · rw [if_neg (by simpa using hx)]
        refine ih ?_
        obtain ⟨c, hc, hc'⟩ := this
        rcases List.mem_cons.1 hc with rfl | hc
        · exact absurd hx hc'
        · exact ⟨c, hc, hc'⟩
      · rw [if_pos hx]
        rfl

theorem re_products (series : List (List (ℝ × Vec3 ℂ))) (s : ℕ) :
    ((series.flatMap (complexProducts · s)).map Complex.re) = products series s := by
  unfold products complexProducts
  rw [List.map_flatMap]
  congr 1
  funext l
  rw [List.map_zipWith]

theorem im_products_zero (series : List (List (ℝ × Vec3 ℂ))) :
    ∀ z ∈ series.flatMap (complexProducts · 0), ∃ v : Vec3 ℂ, z = (v.cLengthSquared : ℂ) := by
  intro z hz
  obtain ⟨l, -, hz⟩ := List.mem_flatMap.1 hz
  unfold complexProducts at hz
  rw [List.drop_zero, List.zipWith_self, List.mem_map] at hz
  obtain ⟨a, -, rfl⟩ := hz
  exact ⟨a.2, by rw [cLengthSquared_eq]; exact cdot_self a.2⟩

theorem re_sum (l : List ℂ) : l.sum.re = (l.map Complex.re).sum := by
  induction l with
  | nil => rfl
  | cons a l ih => simp [ih]

theorem im_sum (series : List (List (ℝ × Vec3 ℂ))) : (series.flatMap (complexProducts · 0)).sum.im = 0 := by
  have h := im_products_zero series
  generalize series.flatMap (complexProducts · 0) = l at h ⊢
  induction l with
  | nil => rfl
  | cons a l ih =>
    obtain ⟨v, hv⟩ := h a (by simp)
    rw [List.sum_cons, Complex.add_im, ih fun z hz => h z (by simp [hz]), hv, Complex.ofReal_im, add_zero]

theorem denominator_eq (series : List (List (ℝ × Vec3 ℂ))) :
    (series.flatMap (complexProducts · 0)).sum / ((series.flatMap (complexProducts · 0)).length : ℂ) =
      ((Spec.mean (products series 0) : ℝ) : ℂ) := by
  have hl : (products series 0).length = (series.flatMap (complexProducts · 0)).length := by
    rw [← re_products, List.length_map]
  have hs : (series.flatMap (complexProducts · 0)).sum = (((products series 0).sum : ℝ) : ℂ) := by
    apply Complex.ext
    · rw [re_sum, re_products, Complex.ofReal_re]
    · rw [im_sum, Complex.ofReal_im]
  rw [hs, ← hl, Spec.mean]
  push_cast
  rfl

theorem value_eq (series : List (List (ℝ × Vec3 ℂ))) (s : ℕ) :
    ((series.flatMap (complexProducts · s)).sum / ((series.flatMap (complexProducts · s)).length : ℂ) /
      ((Spec.mean (products series 0) : ℝ) : ℂ)).re = Spec.mean (products series s) / Spec.mean (products series 0) := by
  have hl : (products series s).length = (series.flatMap (complexProducts · s)).length := by
    rw [← re_products, List.length_map]
  rw [Complex.div_ofReal_re, Complex.div_natCast_re, re_sum, re_products, ← hl, Spec.mean, Spec.mean]

theorem normalised_eq {series : List (List (ℝ × Vec3 ℂ))} {strides : List Stride} (hs : Combined series strides) :
    ((∀ l ∈ series, l = []) → normalised strides = .ok []) ∧
    ((∃ l ∈ series, l ≠ []) → Spec.mean (products series 0) = 0 → normalised strides = .error .zeroDivisionError) ∧
    ((∃ l ∈ series, l ≠ []) → Spec.mean (products series 0) ≠ 0 → ∃ rows : List (ℝ × ℝ), normalised strides = .ok rows ∧
      ∀ s : ℕ, rows[s]? = if s < 5000 then (series.find? fun l => decide (s < l.length)).map fun l =>
        (lag l s, Spec.mean (products series s) / Spec.mean (products series 0)) else none) := by
  have h0 := hs 0
  rw [if_pos (by norm_num)] at h0
  have hsome : (∃ l ∈ series, l ≠ []) → ∃ l r, strides = (lag l 0, (series.flatMap (complexProducts · 0)).sum,
      (series.flatMap (complexProducts · 0)).length) :: r := by
    rintro ⟨l, hl, hne⟩
    have : (series.find? fun l => decide (0 < l.length)).isSome := by
      rw [List.find?_isSome]
      exact ⟨l, hl, by simpa [List.length_pos_iff] using hne⟩
    obtain ⟨l', hl'⟩ := Option.isSome_iff_exists.1 this
    rw [hl'] at h0
    cases strides with
    | nil => cases h0
    | cons a r => exact ⟨l', r, by rw [List.getElem?_cons_zero] at h0; rw [Option.some.inj h0]⟩
  refine ⟨fun h => ?_, fun h hz => ?_, fun h hz => ?_⟩
  · have : series.find? (fun l => decide (0 < l.length)) = none := by
      rw [List.find?_eq_none]
      intro l hl
      simp [h l hl]
    rw [this] at h0
    cases strides with
    | nil => rw [normalised]
    | cons a r => cases h0
  · obtain ⟨l, r, rfl⟩ := hsome h
    rw [normalised, if_pos]
    rw [denominator_eq, hz, Complex.ofReal_zero]
  · obtain ⟨l, r, e⟩ := hsome h
    rw [e, normalised, if_neg]
    · rw [← e]
      refine ⟨_, rfl, fun s => ?_⟩
      rw [List.getElem?_map, hs s, denominator_eq]
      split
      · rw [Option.map_map]
        congr 1
        funext l
        exact Prod.ext rfl (value_eq series s)
      · rfl
    · rw [denominator_eq]
      simpa using hz

theorem correlation_eq (hio : Rounds io rnd) {k : Vec3 ℝ} (hk : k ≠ 0) (runs : List (Vec3 ℝ × List (ℝ × Vec3 ℂ)))
    (hne : runs ≠ []) (hr : Readable rnd k runs) (hsame : SameTimes (runs.map fun r => recorded rnd k r.2)) :
    ∃ strides, Combined (runs.map fun r => recorded rnd k r.2) strides ∧
      correlation false io (runs.map fun r => fileText io r.1 r.2) = (match normalised strides with
        | .error e => .error e
        | .ok rows => .ok (k, rows)) := by
  obtain ⟨c, hc, hc'⟩ := (collect_eq hio hk runs hr [] [] (fun s => by simp) (fun l hl => by cases hl)).1 (by simpa using hsame)
  refine ⟨c, by simpa using hc', ?_⟩
  unfold correlation
  rw [commonWaveVector_eq hio runs hne fun r h => (hr r h).1]
  dsimp only
  rw [hc]

theorem sum_zero {l : List ℝ} (h : ∀ x ∈ l, 0 ≤ x) (hs : l.sum = 0) : ∀ x ∈ l, x = 0 := by
  induction l with
  | nil => intro x hx; cases hx
  | cons a l ih =>
    have h1 : 0 ≤ a := h a (by simp)
    have h2 : 0 ≤ l.sum := List.sum_nonneg fun x hx => h x (by simp [hx])
    rw [List.sum_cons] at hs
    intro x hx
    rcases List.mem_cons.1 hx with rfl | hx
    · linarith
    · exact ih (fun x hx => h x (by simp [hx])) (by linarith) x hx

theorem self_ne_zero {k : Vec3 ℝ} (hk : k ≠ 0) : k.toComplex.cdot k.toComplex ≠ 0 := by
  rw [cdot_self, ← cLengthSquared_eq]
  intro h
  have h := (cLengthSquared_eq_zero _).1 (Complex.ofReal_eq_zero.1 h)
  apply hk
  have hx := congrArg Vec3.x h
  have hy := congrArg Vec3.y h
  have hz := congrArg Vec3.z h
  simp only [toComplex, zero_x, zero_y, zero_z, Complex.ofReal_eq_zero] at hx hy hz
  ext <;> simp [hx, hy, hz]

theorem transverse_self {k : Vec3 ℝ} (hk : k ≠ 0) : transverse k k.toComplex = 0 := by
  unfold transverse
  rw [div_self (self_ne_zero hk)]
  ext <;> simp

theorem transverse_smul {c : ℝ} (hc : c ≠ 0) (k : Vec3 ℝ) (v : Vec3 ℂ) : transverse (c • k) v = transverse k v := by
  have hc' : (c : ℂ) ≠ 0 := by exact_mod_cast hc
  have e : (c • k).toComplex = (c : ℂ) • k.toComplex := by
    ext <;> simp only [toComplex, smul_x, smul_y, smul_z, Complex.ofReal_mul]
  have e1 : ((c : ℂ) • k.toComplex).cdot v = c * k.toComplex.cdot v := by
    simp only [cdot, smul_x, smul_y, smul_z, smul_eq_mul, map_mul, Complex.conj_ofReal]
    ring
  have e2 : ((c : ℂ) • k.toComplex).cdot ((c : ℂ) • k.toComplex) = c * c * k.toComplex.cdot k.toComplex := by
    simp only [cdot, smul_x, smul_y, smul_z, smul_eq_mul, map_mul, Complex.conj_ofReal]
    ring
  unfold transverse
  rw [e, e1, e2, mul_assoc, mul_div_mul_left _ _ hc']
  by_cases h : k.toComplex.cdot k.toComplex = 0
  · rw [h]
    ext <;> simp
  · have : (k.toComplex.cdot v / (c * k.toComplex.cdot k.toComplex)) • ((c : ℂ) • k.toComplex) =
        (k.toComplex.cdot v / k.toComplex.cdot k.toComplex) • k.toComplex := by
      ext <;> simp only [smul_x, smul_y, smul_z, smul_eq_mul] <;> field_simp
    rw [this]

/-! ## Properties -/

/-- C127: given the files of some runs for a wave vector other than zero, and if measurements are the same time apart in
all runs, the script (with Python 2) yields a row for exactly the numbers of measurements `s` (below 5000) for which there
are velocities recorded that many measurements apart: the time between them, and the mean of the products of the parts of
these velocities that are perpendicular to the vector *of integer components*, over all runs, divided by the mean square.
`_partial`: those perpendicular to the wave vector are what is meant, see `C127_box`; and see `C127_python3_violated`. -/
theorem C127_rows_partial (hio : Rounds io rnd) {k : Vec3 ℝ} (hk : k ≠ 0) (runs : List (Vec3 ℝ × List (ℝ × Vec3 ℂ)))
    (hr : Readable rnd k runs) (hsame : SameTimes (runs.map fun r => recorded rnd k r.2))
    (hm : Spec.mean (products (runs.map fun r => recorded rnd k r.2) 0) ≠ 0) :
    ∃ rows : List (ℝ × ℝ), correlation false io (runs.map fun r => fileText io r.1 r.2) = .ok (k, rows) ∧
      (∀ s, s < rows.length ↔ s < 5000 ∧ ∃ r ∈ runs, s < r.2.length) ∧
      (rows.Pairwise fun a b => a.1 < b.1) ∧
      ∀ (s : ℕ) row, rows[s]? = some row →
        (∀ r ∈ runs, s < r.2.length → row.1 = lag (recorded rnd k r.2) s) ∧
        row.2 = Spec.mean (products (runs.map fun r => recorded rnd k r.2) s) /
          Spec.mean (products (runs.map fun r => recorded rnd k r.2) 0) := by
  have hex : ∃ l ∈ runs.map (fun r => recorded rnd k r.2), l ≠ [] := by
    by_contra h
    push Not at h
    apply hm
    have : products (runs.map fun r => recorded rnd k r.2) 0 = [] := by
      unfold products
      rw [List.flatMap_eq_nil_iff]
      intro l hl
      rw [h l hl, List.drop_nil, List.zipWith_nil_right]
    rw [this]
    simp [Spec.mean]
  have hne : runs ≠ [] := by
    rintro rfl
    obtain ⟨l, hl, -⟩ := hex
    cases hl
  obtain ⟨c, hc, e⟩ := correlation_eq hio hk runs hne hr hsame
  obtain ⟨rows, h1, h2⟩ := (normalised_eq hc).2.2 hex hm
  rw [e, h1]
  have hlen : ∀ s, s < rows.length ↔ s < 5000 ∧ ∃ r ∈ runs, s < r.2.length := by
    intro s
    rw [show s < rows.length ↔ rows[s]?.isSome = true by simp, h2 s]
    by_cases h5 : s < 5000
    · rw [if_pos h5, Option.isSome_map, List.find?_isSome]
      simp [h5, recorded_length]
    · simp [h5]
  have hrow : ∀ (s : ℕ) row, rows[s]? = some row →
        (∀ r ∈ runs, s < r.2.length → row.1 = lag (recorded rnd k r.2) s) ∧
        row.2 = Spec.mean (products (runs.map fun r => recorded rnd k r.2) s) /
          Spec.mean (products (runs.map fun r => recorded rnd k r.2) 0) := by
    intro s row hrow
    rw [h2] at hrow
    split at hrow
    · rename_i h5
      obtain ⟨l, hl, rfl⟩ := Option.map_eq_some_iff.1 hrow
      refine ⟨fun r hr' hs => ?_, rfl⟩
      exact hsame l (List.mem_of_find?_eq_some hl) _ (List.mem_map.2 ⟨r, hr', rfl⟩) s h5
        (by simpa using List.find?_some hl) (by rw [recorded_length]; exact hs)
    · cases hrow
  refine ⟨rows, rfl, hlen, ?_, hrow⟩
  rw [List.pairwise_iff_getElem]
  intro i j hi hj hij
  obtain ⟨-, r, hr', hj'⟩ := (hlen j).1 hj
  rw [(hrow i _ (List.getElem?_eq_getElem hi)).1 r hr' (by omega), (hrow j _ (List.getElem?_eq_getElem hj)).1 r hr' hj']
  have hn := recorded_increasing k (hr r hr').2
  rw [List.pairwise_iff_getElem] at hn
  have hi1 : i < (recorded rnd k r.2).length := by rw [recorded_length]; omega
  have hj1 : j < (recorded rnd k r.2).length := by rw [recorded_length]; omega
  have := hn i j hi1 hj1 hij
  unfold lag
  rw [List.getD_eq_getElem?_getD, List.getD_eq_getElem?_getD (i := j), List.getElem?_eq_getElem hi1, List.getElem?_eq_getElem hj1]
  exact sub_lt_sub_right this _

/-- C127: if measurements are not the same time apart in all runs, the script breaks off. -/
theorem C127_steps (hio : Rounds io rnd) {k : Vec3 ℝ} (hk : k ≠ 0) (runs : List (Vec3 ℝ × List (ℝ × Vec3 ℂ)))
    (hr : Readable rnd k runs) (hsame : ¬ SameTimes (runs.map fun r => recorded rnd k r.2)) :
    correlation false io (runs.map fun r => fileText io r.1 r.2) = .error .valueError := by
  have hne : runs ≠ [] := by
    rintro rfl
    exact hsame fun l hl => by cases hl
  have h := (collect_eq hio hk runs hr [] [] (fun s => by simp) (fun l hl => by cases hl)).2 (by simpa using hsame)
  unfold correlation
  rw [commonWaveVector_eq hio runs hne fun r h => (hr r h).1]
  dsimp only
  rw [h]

/-- C127: if the files have different wave vectors, the script breaks off. -/
theorem C127_mismatch (python3 : Bool) (hio : Rounds io rnd) (runs : List (Vec3 ℝ × List (ℝ × Vec3 ℂ)))
    {a b : Vec3 ℝ × List (ℝ × Vec3 ℂ)} (ha : a ∈ runs) (hb : b ∈ runs) (h : roundVec rnd a.1 ≠ roundVec rnd b.1) :
    correlation python3 io (runs.map fun r => fileText io r.1 r.2) = .error .valueError := by
  unfold correlation
  rw [commonWaveVector_differ hio runs ha hb h]

theorem readWaveVector_header {text : Str} (h : text.head? ≠ some '#') : ∃ e, readWaveVector io text = .error e := by
  cases text with
  | nil => exact ⟨_, rfl⟩
  | cons c r =>
    have hc : c ≠ '#' := by simpa using h
    unfold readWaveVector
    rw [pyLines]
    by_cases hn : c = '\n'
    · rw [if_pos hn]
      exact ⟨.valueError, by simp⟩
    · rw [if_neg hn]
      cases pyLines r with
      | nil => exact ⟨.valueError, by simp [hc]⟩
      | cons l ls => exact ⟨.valueError, by simp [hc]⟩

/-- C127: nothing is plotted if the first line of one of the files is not a comment. -/
theorem C127_header (python3 : Bool) (io : Io ℝ) {texts : List Str} {text : Str} (ht : text ∈ texts)
    (h : text.head? ≠ some '#') : ∃ e, correlation python3 io texts = .error e := by
  have key : ∃ e, commonWaveVector io texts = .error e := by
    obtain ⟨e, he⟩ := readWaveVector_header (io := io) h
    cases texts with
    | nil => cases ht
    | cons t texts =>
      rw [commonWaveVector]
      cases hk : readWaveVector io t with
      | error e' => exact ⟨e', rfl⟩
      | ok k =>
        dsimp only
        have ht' : text ∈ texts := by
          rcases List.mem_cons.1 ht with rfl | ht
          · rw [he] at hk; cases hk
          · exact ht
        clear ht hk
        induction texts generalizing k with
        | nil => cases ht'
        | cons a texts ih =>
          rw [List.foldlM_cons]
          rcases List.mem_cons.1 ht' with rfl | ht'
          · rw [he]; exact ⟨e, rfl⟩
          · cases readWaveVector io a with
            | error e' => exact ⟨e', rfl⟩
            | ok k' =>
              by_cases hkk : k = k'
              · dsimp only
                rw [if_neg (by simpa using hkk)]
                exact ih k ht'
              · dsimp only
                rw [if_pos hkk]
                exact ⟨_, rfl⟩
  obtain ⟨e, he⟩ := key
  exact ⟨e, by unfold correlation; rw [he]⟩

/-- C127: if none of the velocities recorded has a part perpendicular to the vector, there is a division by zero. -/
theorem C127_division (hio : Rounds io rnd) {k : Vec3 ℝ} (hk : k ≠ 0) (runs : List (Vec3 ℝ × List (ℝ × Vec3 ℂ)))
    (hr : Readable rnd k runs) (hsame : SameTimes (runs.map fun r => recorded rnd k r.2)) :
    correlation false io (runs.map fun r => fileText io r.1 r.2) = .error .zeroDivisionError ↔
      (∃ r ∈ runs, r.2 ≠ []) ∧ ∀ r ∈ runs, ∀ x ∈ r.2, transverse k (roundVelocity rnd x.2) = 0 := by
  by_cases hne : runs = []
  · subst hne
    simp [correlation, commonWaveVector]
  obtain ⟨c, hc, e⟩ := correlation_eq hio hk runs hne hr hsame
  obtain ⟨n1, n2, n3⟩ := normalised_eq hc
  have hex : (∃ l ∈ runs.map (fun r => recorded rnd k r.2), l ≠ []) ↔ ∃ r ∈ runs, r.2 ≠ [] := by
    simp [recorded_nil]
  have hzero : (∃ r ∈ runs, r.2 ≠ []) → (Spec.mean (products (runs.map fun r => recorded rnd k r.2) 0) = 0 ↔
      ∀ r ∈ runs, ∀ x ∈ r.2, transverse k (roundVelocity rnd x.2) = 0) := by
    rintro ⟨r0, hr0, hn0⟩
    have hp : (products (runs.map fun r => recorded rnd k r.2) 0).Perm
        (runs.flatMap fun r => r.2.map fun x => (transverse k (roundVelocity rnd x.2)).cLengthSquared) := by
      unfold products
      rw [List.flatMap_map]
      refine List.Perm.flatMap_left _ fun r _ => ?_
      rw [List.drop_zero, List.zipWith_self]
      refine ((recorded_perm k r.2).map _).trans ?_
      rw [read, List.map_map]
      exact .refl _
    have hnn : ∀ x ∈ products (runs.map fun r => recorded rnd k r.2) 0, 0 ≤ x := by
      intro x hx
      obtain ⟨r, -, hx⟩ := List.mem_flatMap.1 (hp.mem_iff.1 hx)
      obtain ⟨y, -, rfl⟩ := List.mem_map.1 hx
      exact cLengthSquared_nonneg _
    have hlen : (products (runs.map fun r => recorded rnd k r.2) 0) ≠ [] := by
      intro h
      rw [h] at hp
      have h := hp.symm.eq_nil
      rw [List.flatMap_eq_nil_iff] at h
      exact hn0 (List.map_eq_nil_iff.1 (h r0 hr0))
    have hlen' : ((products (runs.map fun r => recorded rnd k r.2) 0).length : ℝ) ≠ 0 := by
      simpa using hlen
    rw [Spec.mean, div_eq_zero_iff, or_iff_left hlen']
    constructor
    · intro hs r hr' x hx
      have := sum_zero hnn hs (transverse k (roundVelocity rnd x.2)).cLengthSquared (by
        exact hp.mem_iff.2 (List.mem_flatMap.2 ⟨r, hr', List.mem_map.2 ⟨x, hx, rfl⟩⟩))
      exact (cLengthSquared_eq_zero _).1 this
    · intro h
      apply List.sum_eq_zero
      intro x hx
      obtain ⟨r, hr', hx⟩ := List.mem_flatMap.1 (hp.mem_iff.1 hx)
      obtain ⟨y, hy, rfl⟩ := List.mem_map.1 hx
      rw [h r hr' y hy]
      exact (cLengthSquared_eq_zero _).2 rfl
  rw [e]
  constructor
  · intro h
    by_cases hx : ∃ r ∈ runs, r.2 ≠ []
    · refine ⟨hx, (hzero hx).1 ?_⟩
      by_contra hm
      obtain ⟨rows, h1, -⟩ := n3 (hex.2 hx) hm
      rw [h1] at h
      cases h
    · exfalso
      have := n1 (by
        rw [← hex] at hx
        push Not at hx
        exact hx)
      rw [this] at h
      cases h
  · rintro ⟨hx, h⟩
    rw [n2 (hex.2 hx) ((hzero hx).2 h)]

/-- C127: for the wave vector zero, there is a division by zero whenever anything has been recorded. -/
theorem C127_zero (python3 : Bool) (hio : Rounds io rnd) (runs : List (Vec3 ℝ × List (ℝ × Vec3 ℂ)))
    (hr : ∀ r ∈ runs, roundVec rnd r.1 = 0) (h : ∃ r ∈ runs, r.2 ≠ []) :
    correlation python3 io (runs.map fun r => fileText io r.1 r.2) = .error .zeroDivisionError := by
  have hne : runs ≠ [] := by
    rintro rfl
    obtain ⟨r, hr, -⟩ := h
    cases hr
  unfold correlation
  rw [commonWaveVector_eq hio runs hne hr]
  dsimp only
  have hline : ∀ v : Vec3 ℂ, Vec3.cGetPerpendicularTo v (0 : Vec3 ℝ).toComplex = none := by
    intro v
    have h0 : (0 : Vec3 ℝ).toComplex = 0 := by ext <;> simp [toComplex]
    have h0 : cLength ((0 : Vec3 ℝ).toComplex) = 0 := by
      rw [h0, cLength, (cLengthSquared_eq_zero 0).2 rfl, Real.sqrt_zero]
    unfold cGetPerpendicularTo cGetProjectionOnto cGetNormalized
    rw [if_pos h0]
    rfl
  have : ∀ strides, collect python3 io 0 strides (runs.map fun r => fileText io r.1 r.2) = .error .zeroDivisionError := by
    clear hne
    induction runs with
    | nil => obtain ⟨r, hr, -⟩ := h; cases hr
    | cons r runs ih =>
      intro strides
      have hw := words_file hio r.1 r.2
      rw [List.map_cons, collect]
      by_cases hn : r.2 = []
      · have hp : processFile io 0 (fileText io r.1 r.2) = .ok [] := by
          unfold processFile
          rw [List.map_tail, hw, List.tail_cons, hn]
          rfl
        rw [hp]
        dsimp only
        rw [if_neg (by simp)]
        have hc : addStrides strides (runStrides (getData [])) = .ok strides := by
          have e : runStrides (getData []) = [] := by
            apply List.ext_getElem?
            intro i
            rw [runStrides_get, if_neg (by simp [getData])]
            rfl
          rw [e]
          cases strides <;> simp [addStrides]
        rw [hc]
        refine ih (fun r hr' => hr r (by simp [hr'])) ?_ _
        obtain ⟨r', hr', hn'⟩ := h
        rcases List.mem_cons.1 hr' with rfl | hr'
        · exact absurd hn hn'
        · exact ⟨r', hr', hn'⟩
      · have hp : processFile io 0 (fileText io r.1 r.2) = .error .zeroDivisionError := by
          unfold processFile
          obtain ⟨x, xs, hx⟩ := List.exists_cons_of_ne_nil hn
          rw [List.map_tail, hw, List.tail_cons, hx, List.map_cons, List.foldlM_cons, processLine, mapM_fmt hio]
          simp only [List.map_cons, List.map_nil, hline]
          rfl
        rw [hp]
  rw [this]

/-- C127: the parts perpendicular to the vector of integer components are those perpendicular to the wave vector, for all
velocities, if and only if the box has the same length in all directions in which the wave vector has a component. -/
theorem C127_box {box : ℕ × ℕ × ℕ} (hbox : 0 < box.1 ∧ 0 < box.2.1 ∧ 0 < box.2.2) {k : Vec3 ℝ} (hk : k ≠ 0) :
    (∀ v, transverse k v = transverse (waveVector box k) v) ↔
      (k.x ≠ 0 → k.y ≠ 0 → box.1 = box.2.1) ∧ (k.x ≠ 0 → k.z ≠ 0 → box.1 = box.2.2) ∧
        (k.y ≠ 0 → k.z ≠ 0 → box.2.1 = box.2.2) := by
  obtain ⟨b1, b2, b3⟩ := hbox
  have hpi : (Real.pi : ℝ) ≠ 0 := Real.pi_ne_zero
  have hK : waveVector box k ≠ 0 := by
    intro h
    apply hk
    have hx := congrArg Vec3.x h
    have hy := congrArg Vec3.y h
    have hz := congrArg Vec3.z h
    simp only [waveVector, zero_x, zero_y, zero_z, mul_eq_zero, div_eq_zero_iff, hpi, Nat.cast_eq_zero, b1.ne', b2.ne',
      b3.ne', or_false, OfNat.ofNat_ne_zero] at hx hy hz
    ext <;> simp [hx, hy, hz]
  have c1 : (box.1 : ℝ) ≠ 0 := by exact_mod_cast b1.ne'
  have c2 : (box.2.1 : ℝ) ≠ 0 := by exact_mod_cast b2.ne'
  have c3 : (box.2.2 : ℝ) ≠ 0 := by exact_mod_cast b3.ne'
  constructor
  · intro h
    have h := h (waveVector box k).toComplex
    rw [transverse_self hK] at h
    obtain ⟨t, ht⟩ : ∃ t : ℂ, (waveVector box k).toComplex = t • k.toComplex := by
      unfold transverse at h
      exact ⟨_, sub_eq_zero.1 h⟩
    have hx := congrArg Vec3.x ht
    have hy := congrArg Vec3.y ht
    have hz := congrArg Vec3.z ht
    simp only [toComplex, waveVector, smul_x, smul_y, smul_z, smul_eq_mul] at hx hy hz
    have key : ∀ {a L : ℝ}, a ≠ 0 → ((a * (2 * Real.pi / L) : ℝ) : ℂ) = a * t → ((2 * Real.pi / L : ℝ) : ℂ) = t := by
      intro a L ha e
      have ha' : (a : ℂ) ≠ 0 := by exact_mod_cast ha
      rw [Complex.ofReal_mul] at e
      exact mul_left_cancel₀ ha' e
    have same : ∀ {L M : ℕ}, (L : ℝ) ≠ 0 → (M : ℝ) ≠ 0 → ((2 * Real.pi / L : ℝ) : ℂ) = t →
        ((2 * Real.pi / M : ℝ) : ℂ) = t → L = M := by
      intro L M hL hM e1 e2
      have e : 2 * Real.pi / (L : ℝ) = 2 * Real.pi / M := by exact_mod_cast e1.trans e2.symm
      rw [div_eq_div_iff hL hM] at e
      have := mul_left_cancel₀ (by simp [hpi]) e
      exact_mod_cast this.symm
    exact ⟨fun i j => same c1 c2 (key i hx) (key j hy),
      fun i j => same c1 c3 (key i hx) (key j hz),
      fun i j => same c2 c3 (key i hy) (key j hz)⟩
  · rintro ⟨h1, h2, h3⟩ v
    obtain ⟨c, hc, e⟩ : ∃ c : ℝ, c ≠ 0 ∧ waveVector box k = c • k := by
      by_cases x0 : k.x = 0
      · by_cases y0 : k.y = 0
        · exact ⟨2 * Real.pi / box.2.2, by positivity, by ext <;> simp [waveVector, x0, y0, mul_comm]⟩
        · refine ⟨2 * Real.pi / box.2.1, by positivity, ?_⟩
          by_cases z0 : k.z = 0
          · ext <;> simp [waveVector, x0, z0, mul_comm]
          · ext <;> simp [waveVector, x0, mul_comm, h3 y0 z0]
      · refine ⟨2 * Real.pi / box.1, by positivity, ?_⟩
        ext
        · simp [waveVector, mul_comm]
        · by_cases y0 : k.y = 0
          · simp [waveVector, y0]
          · simp [waveVector, mul_comm, h1 x0 y0]
        · by_cases z0 : k.z = 0
          · simp [waveVector, z0]
          · simp [waveVector, mul_comm, h2 x0 z0]
    rw [e, transverse_smul hc]

/-- C127: with Python 3, the script breaks off whenever anything has been recorded. -/
theorem C127_python3_violated (hio : Rounds io rnd) {k : Vec3 ℝ} (hk : k ≠ 0) (runs : List (Vec3 ℝ × List (ℝ × Vec3 ℂ)))
    (hr : Readable rnd k runs) (h : ∃ r ∈ runs, r.2 ≠ []) :
    correlation true io (runs.map fun r => fileText io r.1 r.2) = .error .typeError := by
  have hne : runs ≠ [] := by
    rintro rfl
    obtain ⟨r, hr, -⟩ := h
    cases hr
  unfold correlation
  rw [commonWaveVector_eq hio runs hne fun r h => (hr r h).1]
  dsimp only
  have : ∀ strides, collect true io k strides (runs.map fun r => fileText io r.1 r.2) = .error .typeError := by
    clear hne
    induction runs with
    | nil => obtain ⟨r, hr, -⟩ := h; cases hr
    | cons r runs ih =>
      intro strides
      obtain ⟨h1, h2⟩ := hr r (by simp)
      have hp : processFile io k (fileText io r.1 r.2) = .ok (read rnd k r.2) := by
        subst h1
        exact processFile_eq hio hk r.2 h2
      rw [List.map_cons, collect, hp]
      dsimp only
      by_cases hn : r.2 = []
      · rw [if_neg (by simp [read, hn])]
        have : ∃ c, addStrides strides (runStrides (getData (read rnd k r.2))) = .ok c := by
          refine ⟨strides, ?_⟩
          have e : runStrides (getData (read rnd k r.2)) = [] := by
            apply List.ext_getElem?
            intro i
            rw [runStrides_get, if_neg (by simp [read, getData, hn])]
            rfl
          rw [e]
          cases strides <;> simp [addStrides]
        obtain ⟨c, hc⟩ := this
        rw [hc]
        refine ih (fun r hr' => hr r (by simp [hr'])) ?_ c
        obtain ⟨r', hr', hn'⟩ := h
        rcases List.mem_cons.1 hr' with rfl | hr'
        · exact absurd hn hn'
        · exact ⟨r', hr', hn'⟩
      · rw [if_pos ⟨rfl, by simpa [read] using hn⟩]
  rw [this]

/-- C127: so for a box that is longer in one direction, the script takes a velocity along the wave vector to have a part
perpendicular to it. -/
theorem C127_box_violated : ∃ (box : ℕ × ℕ × ℕ) (k : Vec3 ℝ), transverse (waveVector box k) (waveVector box k).toComplex = 0 ∧
    transverse k (waveVector box k).toComplex ≠ 0 := by
  have hK : waveVector (10, 20, 20) ⟨1, 1, 0⟩ ≠ 0 := by
    intro h
    have hx := congrArg Vec3.x h
    simp [waveVector] at hx
  refine ⟨(10, 20, 20), ⟨1, 1, 0⟩, transverse_self hK, fun h => ?_⟩
  unfold transverse at h
  have h := sub_eq_zero.1 h
  have hx := congrArg Vec3.x h
  have hy := congrArg Vec3.y h
  simp only [toComplex, waveVector, smul_x, smul_y, smul_eq_mul, Complex.ofReal_one, mul_one, one_mul] at hx hy
  have e := hx.trans hy.symm
  have e : 2 * Real.pi / ((10 : ℕ) : ℝ) = 2 * Real.pi / ((20 : ℕ) : ℝ) := by exact_mod_cast e
  have := Real.pi_pos
  push_cast at e
  linarith

/-- The hypotheses are met: two runs, of different length. -/
example : Readable (fun x => (⌊x⌋ : ℝ)) ⟨1, 0, 0⟩ [(⟨1, 0, 0⟩, [(1, ⟨0, 1, 0⟩), (2, ⟨0, 1, 0⟩)]), (⟨1, 0, 0⟩, [(5, ⟨0, 2, 0⟩)])] ∧
    SameTimes ([(⟨1, 0, 0⟩, [(1, ⟨0, 1, 0⟩), (2, ⟨0, 1, 0⟩)]), (⟨1, 0, 0⟩, [(5, ⟨0, 2, 0⟩)])].map fun
      r : Vec3 ℝ × List (ℝ × Vec3 ℂ) => recorded (fun x => (⌊x⌋ : ℝ)) ⟨1, 0, 0⟩ r.2) := by
  constructor
  · intro r hr
    simp only [List.mem_cons, List.not_mem_nil, or_false] at hr
    rcases hr with rfl | rfl <;> simp [roundVec]
  · intro l hl l' hl' s _ h1 h2
    simp only [List.map_cons, List.map_nil, List.mem_cons, List.not_mem_nil, or_false] at hl hl'
    rcases hl with rfl | rfl <;> rcases hl' with rfl | rfl
    · rfl
    · have : s = 0 := by rw [recorded_length] at h2; simpa using h2
      subst this
      simp [lag]
    · have : s = 0 := by rw [recorded_length] at h1; simpa using h1
      subst this
      simp [lag]
    · rfl

end OpenMPCD.Analysis.TransversePy
