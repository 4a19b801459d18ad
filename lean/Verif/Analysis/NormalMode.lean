import Verif.Analysis.Msd
import Verif.Instr.NormalMode

/-!
# Reading measured normal mode autocorrelations (C75)
-/

set_option linter.unusedSectionVars false
set_option linter.unusedSimpArgs false

namespace OpenMPCD.Analysis

open Runs (Str natStr)
open Snapshot (Io Token words natStr_token)
open Instr (everyNth pairs nmaSaved averageAutocorrelation averageProduct IsKernelResult Mem)
open DDDA (DDDA feedD)

variable {K : Type}

/-! ## Model -/

/-- `self._normalModeCount` and `self._measurements`: for each mode, for each start, the values by lag
(`Analysis/MPCDAnalysis/NormalModeAutocorrelation.py:48-50`). -/
structure NmaState (K : Type) where
  modeCount : Option ℕ
  measurements : List (List (List K))

/-- The body of the loop over the modes (`Analysis/MPCDAnalysis/NormalModeAutocorrelation.py:257-267`), after the number
has been converted. -/
def pushMode (mt0 mtT : ℕ) (m : List (List K)) (x : K) : Except PyErr (List (List K)) :=
  if mt0 ≥ m.length ∧ mt0 ≠ m.length then .error .assertionError
  else
    match (if mt0 ≥ m.length then m ++ [[]] else m)[mt0]? with
    | none => .error .indexError
    | some row =>
      if mtT ≠ row.length then .error .assertionError
      else .ok ((if mt0 ≥ m.length then m ++ [[]] else m).set mt0 (row ++ [x]))

/-- The loop over the modes (`Analysis/MPCDAnalysis/NormalModeAutocorrelation.py:254-267`), for the columns from the
third on. -/
def pushModes (io : Io K) (mt0 mtT : ℕ) : List (List (List K)) → List Str → Except PyErr (List (List (List K)))
  | [], _ => .ok []
  | _ :: _, [] => .error .indexError
  | m :: ms, p :: ps =>
    match io.parse p with
    | none => .error .valueError
    | some x =>
      match pushMode mt0 mtT m x with
      | .error e => .error e
      | .ok m =>
        match pushModes io mt0 mtT ms ps with
        | .error e => .error e
        | .ok ms => .ok (m :: ms)

/-- A non-negative number; simplification: negative ones are rejected. -/
def pyNat (s : Str) : Option ℕ := (pyInt s).bind fun i => if 0 ≤ i then some i.toNat else none

/-- The body of the loop over the lines in `_parse` (`Analysis/MPCDAnalysis/NormalModeAutocorrelation.py:238-267`), for
the columns of a line. -/
def nmaParseLine (io : Io K) (start : ℕ) (st : NmaState K) (parts : List Str) : Except PyErr (NmaState K) :=
  if parts.length < 3 then .error .valueError
  else
    match (match st.modeCount with
      | none => .ok (parts.length - 2, st.measurements ++ List.replicate (parts.length - 2) [])
      | some n => if parts.length ≠ n + 2 then .error .valueError else .ok (n, st.measurements) :
        Except PyErr (ℕ × List (List (List K)))) with
    | .error e => .error e
    | .ok (n, ms) =>
      match pyNat (parts.getD 0 []), pyNat (parts.getD 1 []) with
      | some mt0, some mtT =>
        match pushModes io (mt0 + start) mtT ms (parts.drop 2) with
        | .error e => .error e
        | .ok ms => .ok ⟨some n, ms⟩
      | _, _ => .error .valueError

/-- `_parse` (`Analysis/MPCDAnalysis/NormalModeAutocorrelation.py:219-267`), run by Python 2 (the type `file`, which it
refers to, does not exist in Python 3). -/
def nmaParse (io : Io K) (st : NmaState K) (text : Str) : Except PyErr (NmaState K) :=
  let start := match st.measurements with
    | [] => 0
    | m :: _ => m.length
  ((pyLines text).map words).foldlM (nmaParseLine io start) st

/-- The constructor (`Analysis/MPCDAnalysis/NormalModeAutocorrelation.py:20-88`), for the files in the run directories;
`none` if there is none. Simplification: the configurations differ at most in ignored settings. -/
def nmaRead (io : Io K) (files : List (Option Str)) : Except PyErr (NmaState K) :=
  files.foldlM (fun st f => match f with
    | none => .error .valueError
    | some text => nmaParse io st text) ⟨none, []⟩

variable [Field K] [LinearOrder K] [IsStrictOrderedRing K]

/-- The statistics computed in `getAutocorrelation` (`Analysis/MPCDAnalysis/NormalModeAutocorrelation.py:149-157`). -/
def collect (measurements : List (List K)) (correlationTime : ℕ) : DDDA K :=
  measurements.foldl (fun stat m =>
    match m[correlationTime]? with
    | none => stat
    | some x => DDDA.addDatum stat x) DDDA.init

/-- `self._statistics`: what has been computed already. -/
abbrev Computed (K : Type) := ℕ → ℕ → Option (DDDA K)

/-- `getAutocorrelation` (`Analysis/MPCDAnalysis/NormalModeAutocorrelation.py:110-160`), for numbers of type `int`;
`argumentCount`: the setting `autocorrelationArgumentCount`. Returns also what has been computed afterwards. -/
def getAutocorrelation (argumentCount : ℕ) (st : NmaState K) (computed : Computed K) (mode correlationTime : ℤ) :
    Computed K × Except PyErr (DDDA K) :=
  match st.modeCount with
  | none => (computed, .error .assertionError)
  | some n =>
    if mode < 0 ∨ mode ≥ n then (computed, .error .valueError)
    else if correlationTime < 0 then (computed, .error .valueError)
    else if correlationTime > (argumentCount : ℤ) - 1 then (computed, .error .valueError)
    else
      match computed mode.toNat correlationTime.toNat with
      | some d => (computed, .ok d)
      | none =>
        match st.measurements[mode.toNat]? with
        | none => (computed, .error .indexError)
        | some m =>
          let d := collect m correlationTime.toNat
          (fun a b => if a = mode.toNat ∧ b = correlationTime.toNat then some d else computed a b, .ok d)

/-- A history of calls to `getAutocorrelation`. -/
def queries (argumentCount : ℕ) (st : NmaState K) (calls : List (ℤ × ℤ)) : Computed K :=
  calls.foldl (fun c q => (getAutocorrelation argumentCount st c q.1 q.2).1) fun _ _ => none

/-- The text of the file saved by the simulation
(`src/OpenMPCD/CUDA/MPCFluid/Instrumentation/NormalModeAutocorrelation.cpp:201-224`), given its lines. -/
def nmaText (io : Io K) (lines : List (ℕ × ℕ × List K)) : Str :=
  lines.flatMap fun l => tabLine (natStr l.1) (natStr l.2.1 :: l.2.2.map io.fmt)

/-! ## Proofs -/

section table
variable {S R : Type}

/-- The values by start and lag. -/
def table (A : ℕ) (f : S → S → R) : List S → List (List R)
  | [] => []
  | x :: xs => ((x :: xs).take A).map (f x) :: table A f xs

/-- The lines, for starts counted from `t`. -/
def tableLines (A : ℕ) (f : S → S → R) : ℕ → List S → List (ℕ × ℕ × R)
  | _, [] => []
  | t, x :: xs => (((x :: xs).take A).zipIdx.map fun b => (t, b.2, f x b.1)) ++ tableLines A f (t + 1) xs

theorem tableLines_pairs (A : ℕ) (f : S → S → R) (xs : List S) (t : ℕ) :
    (tableLines A f t xs).map (fun l => (l.1, l.2.1)) =
      (List.range xs.length).flatMap fun s => (List.range (min A (xs.length - s))).map fun d => (t + s, d) := by
  induction xs generalizing t with
  | nil => rfl
  | cons x xs ih =>
    rw [tableLines, List.map_append, ih, List.length_cons, List.range_succ_eq_map, List.flatMap_cons, List.flatMap_map]
    congr 1
    · rw [List.map_map]
      have : (fun l : ℕ × ℕ × R => (l.1, l.2.1)) ∘ (fun b : S × ℕ => (t, b.2, f x b.1)) =
          (fun d => (t + 0, d)) ∘ Prod.snd := by
        funext b
        rfl
      rw [this, ← List.map_map, List.zipIdx_map_snd, ← List.range_eq_range', List.length_take, List.length_cons]
      rfl
    · apply List.flatMap_congr
      intro s _
      rw [Nat.succ_eq_add_one, Nat.add_sub_add_right, show t + 1 + s = t + (s + 1) by omega]

theorem tableLines_values (A : ℕ) (f : S → S → R) (xs : List S) (t : ℕ) :
    ∀ s d x, (s, d, x) ∈ tableLines A f t xs → t ≤ s ∧ ∃ a b, xs[s - t]? = some a ∧ xs[s - t + d]? = some b ∧ x = f a b := by
  induction xs generalizing t with
  | nil => intro s d x h; simp [tableLines] at h
  | cons y ys ih =>
    intro s d x h
    rw [tableLines, List.mem_append] at h
    rcases h with h | h
    · obtain ⟨⟨b, i⟩, hb, he⟩ := List.mem_map.1 h
      simp only [Prod.mk.injEq] at he
      obtain ⟨rfl, rfl, rfl⟩ := he
      have := List.mem_zipIdx_iff_getElem?.1 hb
      rw [List.getElem?_take] at this
      split at this
      · exact ⟨le_rfl, y, b, by simp, by simpa using this, rfl⟩
      · cases this
    · obtain ⟨h1, a, b, ha, hb, hx⟩ := ih (t + 1) s d x h
      refine ⟨by omega, a, b, ?_, ?_, hx⟩
      · rw [show s - t = s - (t + 1) + 1 by omega, List.getElem?_cons_succ]
        exact ha
      · rw [show s - t + d = s - (t + 1) + d + 1 by omega, List.getElem?_cons_succ]
        exact hb

theorem pairs_zero (A count : ℕ) :
    pairs A 0 count = (List.range count).flatMap fun s => (List.range (min A (count - s))).map fun d => (0 + s, d) := by
  unfold pairs
  apply List.flatMap_congr
  intro s _
  rw [Nat.zero_add]
  congr 1
  induction A with
  | zero => simp
  | succ A ih =>
    rw [List.range_succ, List.filter_append, ih]
    by_cases h : s + A < count
    · rw [show min (A + 1) (count - s) = min A (count - s) + 1 by omega, List.range_succ]
      congr 1
      simp [h]
      omega
    · rw [show min (A + 1) (count - s) = min A (count - s) by omega]
      simp [h]

/-- The lines saved by the simulation are determined. -/
theorem lines_eq_table {A : ℕ} {f : S → S → R} {xs : List S} {lines : List (ℕ × ℕ × R)}
    (hp : lines.map (fun l => (l.1, l.2.1)) = pairs A 0 xs.length)
    (hv : ∀ t d x, (t, d, x) ∈ lines → ∃ a b, xs[t]? = some a ∧ xs[t + d]? = some b ∧ x = f a b) :
    lines = tableLines A f 0 xs := by
  have hp' := tableLines_pairs A f xs 0
  rw [← pairs_zero, ← hp] at hp'
  have hv' := tableLines_values A f xs 0
  generalize tableLines A f 0 xs = lines' at hp' hv'
  have hl : lines.length = lines'.length := by simpa using (congrArg List.length hp').symm
  apply List.ext_getElem hl
  intro i h1 h2
  have hi := congrArg (fun l => l[i]?) hp'
  simp only [List.getElem?_map, List.getElem?_eq_getElem h1, List.getElem?_eq_getElem h2, Option.map_some,
    Option.some.injEq, Prod.mk.injEq] at hi
  have m1 := List.getElem_mem h1
  have m2 := List.getElem_mem h2
  generalize lines[i] = l at *
  generalize lines'[i] = l' at *
  obtain ⟨t, d, x⟩ := l
  obtain ⟨t', d', x'⟩ := l'
  simp only at hi
  obtain ⟨rfl, rfl⟩ := hi
  obtain ⟨a, b, ha, hb, rfl⟩ := hv _ _ _ m1
  obtain ⟨-, a', b', ha', hb', rfl⟩ := hv' _ _ _ m2
  rw [Nat.sub_zero] at ha' hb'
  rw [ha] at ha'
  rw [hb] at hb'
  cases ha'
  cases hb'
  rfl

/-- The values of the table with a given lag. -/
theorem table_lag {A d : ℕ} (hd : d < A) (f : S → S → R) (xs : List S) :
    (table A f xs).filterMap (fun m => m[d]?) = List.zipWith f xs (xs.drop d) := by
  induction xs with
  | nil => rfl
  | cons x xs ih =>
    rw [table, List.filterMap_cons, ih, List.getElem?_map, List.getElem?_take, if_pos hd]
    by_cases h : d < (x :: xs).length
    · rw [List.getElem?_eq_getElem h, Option.map_some, List.drop_eq_getElem_cons h]
      rfl
    · have e1 : (x :: xs).drop d = [] := List.drop_of_length_le (by omega)
      have e2 : xs.drop d = [] := List.drop_of_length_le (by rw [List.length_cons] at h; omega)
      rw [List.getElem?_eq_none (by omega), Option.map_none, e1, e2]
      simp

end table

theorem pyNat_natStr (n : ℕ) : pyNat (natStr n) = some n := by
  simp [pyNat, pyInt_natStr]

theorem pushMode_new (m : List (List K)) (x : K) : pushMode m.length 0 m x = .ok (m ++ [[x]]) := by
  unfold pushMode
  rw [if_neg (by omega), if_pos le_rfl]
  simp

theorem pushMode_more (m : List (List K)) (row : List K) (x : K) :
    pushMode m.length row.length (m ++ [row]) x = .ok (m ++ [row ++ [x]]) := by
  unfold pushMode
  rw [if_neg (by simp), if_neg (by simp)]
  simp

theorem pushModes_eq {io : Io K} {rnd : K → K} (hio : Rounds io rnd) (a b : ℕ) (ms : List ℕ) (old new : ℕ → List (List K)) (v : ℕ → K)
    (h : ∀ m, pushMode a b (old m) (rnd (v m)) = .ok (new m)) :
    pushModes io a b (ms.map old) (ms.map fun m => io.fmt (v m)) = .ok (ms.map new) := by
  induction ms with
  | nil => rfl
  | cons m ms ih => simp only [List.map_cons, pushModes, hio.parse_fmt, h, ih]

theorem eq_map_range (l : List K) : l = (List.range l.length).map fun m => l.getD m 0 := by
  apply List.ext_getElem
  · simp
  · intro i h1 h2
    simp [h1]

/-- One line. -/
theorem nmaParseLine_eq {io : Io K} {rnd : K → K} (hio : Rounds io rnd) {n : ℕ} (hn : 0 < n) (start t d : ℕ) (v : List K)
    (hv : v.length = n) (old new : ℕ → List (List K))
    (h : ∀ m, pushMode (t + start) d (old m) (rnd (v.getD m 0)) = .ok (new m)) :
    nmaParseLine io start ⟨some n, (List.range n).map old⟩ (natStr t :: natStr d :: v.map io.fmt) =
      .ok ⟨some n, (List.range n).map new⟩ := by
  unfold nmaParseLine
  have hl : (natStr t :: natStr d :: v.map io.fmt).length = n + 2 := by simp [hv]
  rw [if_neg (by omega)]
  simp only [hl, ne_eq, not_true_eq_false, if_false, List.getD_cons_zero, List.getD_cons_succ, pyNat_natStr,
    List.drop_succ_cons, List.drop_zero]
  have hfmt : v.map io.fmt = (List.range n).map fun m => io.fmt (v.getD m 0) := by
    conv_lhs => rw [eq_map_range v, List.map_map, hv]
    rfl
  rw [hfmt, pushModes_eq hio _ _ _ _ _ _ h]

theorem nmaParseLine_first (io : Io K) (start n : ℕ) (hn : 0 < n) (parts : List Str) (h : parts.length = n + 2) :
    nmaParseLine io start ⟨none, []⟩ parts = nmaParseLine io start ⟨some n, (List.range n).map fun _ => []⟩ parts := by
  unfold nmaParseLine
  rw [if_neg (by omega), if_neg (by omega)]
  simp only [h, Nat.add_sub_cancel, ne_eq, not_true_eq_false, if_false, List.nil_append]
  rw [List.map_const', List.length_range]

/-- The columns of a line. -/
def columns (io : Io K) (l : ℕ × ℕ × List K) : List Str := natStr l.1 :: natStr l.2.1 :: l.2.2.map io.fmt

theorem words_nmaText {io : Io K} {rnd : K → K} (hio : Rounds io rnd) (lines : List (ℕ × ℕ × List K)) :
    (pyLines (nmaText io lines)).map words = lines.map (columns io) := by
  have e : nmaText io lines =
      (lines.map fun l => (natStr l.1, natStr l.2.1 :: l.2.2.map io.fmt)).flatMap fun r => tabLine r.1 r.2 := by
    unfold nmaText
    rw [List.flatMap_map]
  rw [e, words_pyLines, List.map_map]
  · rfl
  · intro r hr
    obtain ⟨l, -, rfl⟩ := List.mem_map.1 hr
    refine ⟨natStr_token _, fun t ht => ?_⟩
    rcases List.mem_cons.1 ht with rfl | ht
    · exact natStr_token _
    · obtain ⟨x, -, rfl⟩ := List.mem_map.1 ht
      exact hio.token_fmt _

section parse
variable {S : Type} {io : Io K} {rnd : K → K} (hio : Rounds io rnd) {n : ℕ} (hn : 0 < n) {f : S → S → List K}
  (hf : ∀ a b, (f a b).length = n)
include hio hn hf

/-- The rest of the lines for one start. -/
theorem parse_row (start t : ℕ) (x : S) (bs : List S) :
    ∀ (pre : ℕ → List (List K)) (row : ℕ → List K) (k : ℕ), (∀ m, (pre m).length = t + start) →
      (∀ m, (row m).length = k) →
      (((bs.zipIdx k).map fun b => (t, b.2, f x b.1)).map (columns io)).foldlM (nmaParseLine io start)
        ⟨some n, (List.range n).map fun m => pre m ++ [row m]⟩ =
      .ok ⟨some n, (List.range n).map fun m => pre m ++ [row m ++ bs.map fun b => rnd ((f x b).getD m 0)]⟩ := by
  induction bs with
  | nil =>
    intro pre row k _ _
    simp
    rfl
  | cons b bs ih =>
    intro pre row k h1 h2
    rw [List.zipIdx_cons, List.map_cons, List.map_cons, List.foldlM_cons]
    have := nmaParseLine_eq hio hn start t k (f x b) (hf x b) (fun m => pre m ++ [row m])
      (fun m => pre m ++ [row m ++ [rnd ((f x b).getD m 0)]]) (fun m => by
        rw [← h1 m, ← h2 m]
        exact pushMode_more _ _ _)
    unfold columns at this ⊢
    rw [this]
    have := ih pre (fun m => row m ++ [rnd ((f x b).getD m 0)]) (k + 1) h1 (fun m => by simp [h2])
    unfold columns at this
    simp only [bind, Except.bind] at this ⊢
    rw [this]
    simp

/-- All lines of a file. -/
theorem parse_table {A : ℕ} (hA : 0 < A) (start : ℕ) (xs : List S) :
    ∀ (t : ℕ) (old : ℕ → List (List K)), (∀ m, (old m).length = t + start) →
      ((tableLines A f t xs).map (columns io)).foldlM (nmaParseLine io start) ⟨some n, (List.range n).map old⟩ =
      .ok ⟨some n, (List.range n).map fun m => old m ++ table A (fun a b => rnd ((f a b).getD m 0)) xs⟩ := by
  induction xs with
  | nil =>
    intro t old _
    simp [tableLines, table]
    rfl
  | cons x xs ih =>
    intro t old h
    obtain ⟨A, rfl⟩ : ∃ B, A = B + 1 := ⟨A - 1, by omega⟩
    rw [tableLines, List.map_append, List.foldlM_append, List.take_succ_cons, List.zipIdx_cons, List.map_cons,
      List.map_cons, List.foldlM_cons]
    have h1 := nmaParseLine_eq hio hn start t 0 (f x x) (hf x x) old
      (fun m => old m ++ [[rnd ((f x x).getD m 0)]]) (fun m => by
        rw [← h m]
        exact pushMode_new _ _)
    have h2 := parse_row hio hn hf start t x (xs.take A) old (fun m => [rnd ((f x x).getD m 0)]) 1 h (fun m => rfl)
    have h3 := ih (t + 1)
      (fun m => old m ++ [[rnd ((f x x).getD m 0)] ++ (xs.take A).map fun b => rnd ((f x b).getD m 0)])
      (fun m => by simp [h]; omega)
    unfold columns at h1 h2 h3 ⊢
    rw [h1]
    simp only [bind, Except.bind] at h2 h3 ⊢
    rw [Nat.zero_add, h2]
    dsimp only
    rw [h3]
    congr 2
    apply List.map_congr_left
    intro m _
    rw [table]
    simp

/-- The state after some runs: nothing has been read, or there are as many measurements for each mode. -/
def NmaInv (n : ℕ) (data : ℕ → List (List K)) (st : NmaState K) : Prop :=
  (st = ⟨none, []⟩ ∧ ∀ m, data m = []) ∨
    (st = ⟨some n, (List.range n).map data⟩ ∧ ∃ k, ∀ m, (data m).length = k)

omit hio hn hf in
theorem table_length {R : Type} (A : ℕ) (g : S → S → R) (xs : List S) : (table A g xs).length = xs.length := by
  induction xs with
  | nil => rfl
  | cons x xs ih => simp [table, ih]

/-- Reading one file. -/
theorem nmaParse_table {A : ℕ} (hA : 0 < A) (xs : List S) (data : ℕ → List (List K)) (st : NmaState K)
    (h : NmaInv n data st) :
    ∃ st', nmaParse io st (nmaText io (tableLines A f 0 xs)) = .ok st' ∧
      NmaInv n (fun m => data m ++ table A (fun a b => rnd ((f a b).getD m 0)) xs) st' ∧
      (xs ≠ [] → st'.modeCount = some n) ∧ (st.modeCount = some n → st'.modeCount = some n) := by
  unfold nmaParse
  rw [words_nmaText hio]
  rcases h with ⟨rfl, hd⟩ | ⟨rfl, k, hk⟩
  · cases xs with
    | nil => exact ⟨_, rfl, .inl ⟨rfl, by simp [hd, table]⟩, fun h => absurd rfl h, fun h => h⟩
    | cons x xs =>
      obtain ⟨A, rfl⟩ : ∃ B, A = B + 1 := ⟨A - 1, by omega⟩
      have := parse_table hio hn hf hA 0 (x :: xs) 0 (fun _ => []) (fun _ => rfl)
      refine ⟨_, ?_, .inr ⟨rfl, (x :: xs).length, ?_⟩, fun _ => rfl, fun h => by cases h⟩
      · rw [tableLines, List.map_append, List.take_succ_cons, List.zipIdx_cons, List.map_cons, List.map_cons,
          List.cons_append, List.foldlM_cons] at this ⊢
        rw [nmaParseLine_first io _ n hn _ (by simp [columns, hf])]
        simp only [hd]
        exact this
      · intro m
        simp [hd, table_length]
  · have hs : (match ((⟨some n, (List.range n).map data⟩ : NmaState K)).measurements with
        | [] => 0
        | m :: _ => m.length) = k := by
      obtain ⟨n, rfl⟩ : ∃ j, n = j + 1 := ⟨n - 1, by omega⟩
      rw [List.range_succ_eq_map]
      exact hk 0
    refine ⟨_, ?_, .inr ⟨rfl, k + xs.length, fun m => by simp [hk, table_length]⟩, fun _ => rfl, fun _ => rfl⟩
    dsimp only at hs ⊢
    rw [hs]
    exact parse_table hio hn hf hA k xs 0 data (fun m => by rw [hk]; omega)

/-- Reading all files. -/
theorem nmaRead_tables {A : ℕ} (hA : 0 < A) (runs : List (List S)) :
    ∃ st, nmaRead io (runs.map fun xs => some (nmaText io (tableLines A f 0 xs))) = .ok st ∧
      NmaInv n (fun m => runs.flatMap (table A (fun a b => rnd ((f a b).getD m 0)))) st ∧
      ((∃ xs ∈ runs, xs ≠ []) → st.modeCount = some n) := by
  induction runs using List.reverseRecOn with
  | nil => exact ⟨_, rfl, .inl ⟨rfl, fun _ => rfl⟩, fun ⟨_, h, _⟩ => by simp at h⟩
  | append_singleton runs xs ih =>
    obtain ⟨st, h1, h2, h3⟩ := ih
    obtain ⟨st', k1, k2, k3, k4⟩ := nmaParse_table hio hn hf hA xs _ st h2
    refine ⟨st', ?_, ?_, ?_⟩
    · unfold nmaRead at h1 ⊢
      rw [List.map_append, List.foldlM_append, h1]
      simp only [List.map_cons, List.map_nil, List.foldlM_cons, List.foldlM_nil, bind, Except.bind, k1]
      rfl
    · simpa [List.flatMap_append] using k2
    · rintro ⟨ys, hy, hne⟩
      rcases List.mem_append.1 hy with hy | hy
      · exact k4 (h3 ⟨ys, hy, hne⟩)
      · rw [List.mem_singleton.1 hy] at hne
        exact k3 hne

end parse

omit [IsStrictOrderedRing K] in
theorem collect_eq (ms : List (List K)) (d : ℕ) : collect ms d = feedD (ms.filterMap fun m => m[d]?) := by
  unfold collect feedD
  generalize DDDA.init (K := K) = s
  induction ms generalizing s with
  | nil => rfl
  | cons m ms ih =>
    rw [List.foldl_cons, List.filterMap_cons]
    cases h : m[d]? with
    | none => exact ih s
    | some x => exact ih _

/-- Whatever has been asked for before, the answer is computed from the measurements. -/
theorem getAutocorrelation_eq (argumentCount : ℕ) (st : NmaState K) (calls : List (ℤ × ℤ)) (n : ℕ)
    (hn : st.modeCount = some n) (mode correlationTime : ℕ) (hm : mode < n) (hc : correlationTime < argumentCount)
    (m : List (List K)) (hms : st.measurements[mode]? = some m) :
    (getAutocorrelation argumentCount st (queries argumentCount st calls) mode correlationTime).2 =
      .ok (collect m correlationTime) := by
  have inv : ∀ a b d, queries argumentCount st calls a b = some d →
      ∃ m, st.measurements[a]? = some m ∧ d = collect m b := by
    induction calls using List.reverseRecOn with
    | nil => intro a b d h; cases h
    | append_singleton calls q ih =>
      intro a b d h
      have e : queries argumentCount st (calls ++ [q]) =
          (getAutocorrelation argumentCount st (queries argumentCount st calls) q.1 q.2).1 := by
        simp [queries, List.foldl_append]
      rw [e] at h
      unfold getAutocorrelation at h
      rw [hn] at h
      dsimp only at h
      split at h
      · exact ih a b d h
      split at h
      · exact ih a b d h
      split at h
      · exact ih a b d h
      cases h1 : queries argumentCount st calls q.1.toNat q.2.toNat with
      | some x =>
        rw [h1] at h
        exact ih a b d h
      | none =>
        rw [h1] at h
        dsimp only at h
        cases h2 : st.measurements[q.1.toNat]? with
        | none =>
          rw [h2] at h
          exact ih a b d h
        | some m =>
          rw [h2] at h
          dsimp only at h
          split at h
          · rename_i hab
            obtain ⟨rfl, rfl⟩ := hab
            exact ⟨m, h2, (Option.some.inj h).symm⟩
          · exact ih a b d h
  unfold getAutocorrelation
  rw [hn]
  dsimp only
  rw [if_neg (by omega), if_neg (by omega), if_neg (by omega), Int.toNat_natCast, Int.toNat_natCast]
  cases h : queries argumentCount st calls mode correlationTime with
  | some d =>
    obtain ⟨m', h1, h2⟩ := inv _ _ _ h
    rw [hms] at h1
    cases h1
    simp [h2]
  | none => simp [hms]

/-- The average products of the normal coordinates of a run for a lag, by increasing start. A measurement consists of the
positions of the particles, and of the result of the kernel computing the normal coordinates. -/
noncomputable def modeProducts (every L C : ℕ) (shift : ℝ) (calls : List (Mem × Mem)) (mode d : ℕ) : List ℝ :=
  List.zipWith (fun a b => averageProduct L C shift a.1 b.1 mode) (everyNth every calls) ((everyNth every calls).drop d)

/-- C75. From the files which the simulation has saved in any number of runs, one obtains for each normal mode and each
correlation time less than the number configured the statistics of exactly the average products of the normal coordinates
between measurements of the same run with that time difference, each once, rounded to the precision of the file, in the
order of the runs and of the starts of the intervals, no matter what has been asked for before. `_partial`: as for C66, there are less than `2 ^ 32` components of
normal coordinates. -/
theorem C75_partial {io : Io ℝ} {rnd : ℝ → ℝ} (hio : Rounds io rnd) {every : ℕ} (he : 0 < every) {argumentCount : ℕ} (hA : 0 < argumentCount)
    (L C : ℕ) (h : 3 * C * (L + 1) ≤ 2 ^ 32) (shift : ℝ) (runs : List ((ℕ → Mem) × List (Mem × Mem)))
    (hruns : ∀ r ∈ runs, ∀ c ∈ r.2, IsKernelResult L C c.1 shift c.2) (hne : ∃ r ∈ runs, r.2 ≠ [])
    (texts : List (Option Str))
    (htexts : List.Forall₂ (fun r t => ∃ lines, nmaSaved every argumentCount L C r.1 (r.2.map Prod.snd) = some lines ∧
      t = some (nmaText io lines)) runs texts) :
    ∃ st, nmaRead io texts = .ok st ∧ st.modeCount = some (L + 1) ∧
      ∀ calls : List (ℤ × ℤ), ∀ mode d : ℕ, mode ≤ L → d < argumentCount →
        (getAutocorrelation argumentCount st (queries argumentCount st calls) mode d).2 =
          .ok (feedD ((runs.flatMap fun r => modeProducts every L C shift r.2 mode d).map rnd)) := by
  let f : Mem × Mem → Mem × Mem → List ℝ := fun a b => (List.range (L + 1)).map (averageProduct L C shift a.1 b.1)
  have htexts' : texts = (runs.map fun r => everyNth every r.2).map
      fun xs => some (nmaText io (tableLines argumentCount f 0 xs)) := by
    clear hne
    induction htexts with
    | nil => rfl
    | cons h1 _ ih =>
      obtain ⟨lines, hl, rfl⟩ := h1
      obtain ⟨lines', hl', hp, hv⟩ := Instr.C66_saved_partial he (argumentCount := argumentCount) L C h shift _ _
        (hruns _ List.mem_cons_self)
      rw [hl] at hl'
      obtain rfl := Option.some.inj hl'
      rw [List.map_cons, List.map_cons, ← ih (fun r hr => hruns r (by simp [hr])),
        lines_eq_table (f := f) hp (fun t d x hx => hv t d x hx)]
  obtain ⟨st, h1, h2, h3⟩ := nmaRead_tables hio (n := L + 1) (by omega) (f := f) (fun a b => by simp [f]) hA
    (runs.map fun r => everyNth every r.2)
  have hmc : st.modeCount = some (L + 1) := by
    apply h3
    obtain ⟨r, hr, hr2⟩ := hne
    refine ⟨_, List.mem_map_of_mem hr, fun h0 => hr2 ?_⟩
    have := Instr.C34_everyNth he r.2 0
    rw [h0, Nat.zero_mul] at this
    cases hc : r.2 with
    | nil => rfl
    | cons a b => rw [hc] at this; simp at this
  refine ⟨st, by rw [htexts']; exact h1, hmc, fun calls mode d hmode hd => ?_⟩
  rcases h2 with ⟨rfl, -⟩ | ⟨hst, -⟩
  · cases hmc
  · have hms : st.measurements[mode]? = some ((runs.map fun r => everyNth every r.2).flatMap
        (table argumentCount fun a b => rnd ((f a b).getD mode 0))) := by
      rw [hst, List.getElem?_map, List.getElem?_range (by omega)]
      rfl
    rw [getAutocorrelation_eq argumentCount st calls (L + 1) hmc mode d (by omega) hd _ hms, collect_eq]
    congr 2
    rw [List.flatMap_map, List.filterMap_flatMap, List.map_flatMap]
    apply List.flatMap_congr
    intro r _
    rw [table_lag hd]
    unfold modeProducts
    rw [List.map_zipWith]
    congr 1
    funext a b
    have : mode < L + 1 := by omega
    simp [f, List.getD_eq_getElem?_getD, this]

/-- The hypotheses of `C75_partial` can be met: a run with two measurements of one chain of two particles. -/
example (io : Io ℝ) (p q : Mem) (g : ℕ → Mem) : ∃ (r s : Mem) (t : Option Str),
    (∀ c ∈ [(p, r), (q, s)], IsKernelResult 2 1 c.1 0 c.2) ∧
    List.Forall₂ (fun r t => ∃ lines, nmaSaved 1 2 2 1 r.1 (r.2.map Prod.snd) = some lines ∧
      t = some (nmaText io lines)) [(g, [(p, r), (q, s)])] [t] := by
  let k : Mem → Mem := fun p =>
    Instr.execWrites (fun _ => 0) ((List.range 1).flatMap (Instr.chainWrites 2 p 0))
  have hk : ∀ p, IsKernelResult 2 1 p 0 (k p) := fun p => ⟨_, _, .refl _, rfl⟩
  obtain ⟨lines, h1, -⟩ := Instr.C35 one_pos 2 2 1 g [k p, k q]
  refine ⟨k p, k q, some (nmaText io lines), fun c hc => ?_, .cons ⟨lines, h1, rfl⟩ .nil⟩
  rcases List.mem_cons.1 hc with rfl | hc
  · exact hk p
  · rw [List.mem_singleton.1 hc]
    exact hk q

example : table 2 (fun a b : ℕ => a * b) [1, 2, 3] = [[1, 2], [4, 6], [9]] := by decide

/-- C75: modes and correlation times there are no data for are rejected, and nothing that has been computed is changed. -/
theorem C75_rejected (argumentCount : ℕ) (st : NmaState K) (computed : Computed K) {n : ℕ} (hn : st.modeCount = some n)
    {mode correlationTime : ℤ}
    (h : mode < 0 ∨ (n : ℤ) ≤ mode ∨ correlationTime < 0 ∨ (argumentCount : ℤ) ≤ correlationTime) :
    getAutocorrelation argumentCount st computed mode correlationTime = (computed, .error .valueError) := by
  unfold getAutocorrelation
  rw [hn]
  dsimp only
  by_cases h1 : mode < 0 ∨ mode ≥ n
  · rw [if_pos h1]
  · rw [if_neg h1]
    by_cases h2 : correlationTime < 0
    · rw [if_pos h2]
    · rw [if_neg h2, if_pos (by omega)]

theorem pushMode_ok {mt0 mtT : ℕ} {m m' : List (List K)} {x : K} (h : pushMode mt0 mtT m x = .ok m') :
    mt0 ≤ m.length ∧ (m.getD mt0 []).length = mtT := by
  unfold pushMode at h
  by_cases h1 : mt0 ≥ m.length ∧ mt0 ≠ m.length
  · rw [if_pos h1] at h
    cases h
  · rw [if_neg h1] at h
    have hle : mt0 ≤ m.length := by
      by_contra hc
      exact h1 ⟨by omega, by omega⟩
    refine ⟨hle, ?_⟩
    by_cases h2 : mt0 ≥ m.length
    · obtain rfl : mt0 = m.length := le_antisymm hle h2
      rw [if_pos h2, List.getElem?_concat_length] at h
      dsimp only at h
      by_cases h3 : mtT ≠ ([] : List K).length
      · rw [if_pos h3] at h
        cases h
      · have : mtT = 0 := by simpa using h3
        simp [List.getD_eq_getElem?_getD, this]
    · rw [if_neg h2, List.getElem?_eq_getElem (by omega)] at h
      dsimp only at h
      by_cases h3 : mtT ≠ (m[mt0]'(by omega)).length
      · rw [if_pos h3] at h
        cases h
      · rw [List.getD_eq_getElem?_getD, List.getElem?_eq_getElem (by omega), Option.getD_some]
        exact (not_not.1 h3).symm

/-- C75: a line is accepted only if it is the next one: its measurement is among those begun or is the first one after
them, and its correlation time is the first for which there is no datum yet. -/
theorem C75_order {io : Io K} {start n : ℕ} {st st' : NmaState K} (hn : st.modeCount = some n) {parts : List Str}
    (h : nmaParseLine io start st parts = .ok st') :
    ∃ mt0 mtT, pyNat (parts.getD 0 []) = some mt0 ∧ pyNat (parts.getD 1 []) = some mtT ∧
      ∀ m ∈ st.measurements, mt0 + start ≤ m.length ∧ (m.getD (mt0 + start) []).length = mtT := by
  unfold nmaParseLine at h
  by_cases h1 : parts.length < 3
  · rw [if_pos h1] at h
    cases h
  rw [if_neg h1, hn] at h
  dsimp only at h
  by_cases h2 : parts.length ≠ n + 2
  · rw [if_pos h2] at h
    cases h
  rw [if_neg h2] at h
  dsimp only at h
  cases h3 : pyNat (parts.getD 0 []) with
  | none =>
    rw [h3] at h
    cases h
  | some mt0 =>
    cases h4 : pyNat (parts.getD 1 []) with
    | none =>
      rw [h3, h4] at h
      cases h
    | some mtT =>
      refine ⟨mt0, mtT, rfl, rfl, ?_⟩
      rw [h3, h4] at h
      dsimp only at h
      cases h5 : pushModes io (mt0 + start) mtT st.measurements (parts.drop 2) with
      | error e =>
        rw [h5] at h
        cases h
      | ok ms =>
        clear h h1 h2 h3 h4
        generalize st.measurements = l, parts.drop 2 = ps at h5
        induction l generalizing ps ms with
        | nil => simp
        | cons m l ih =>
          cases ps with
          | nil => cases h5
          | cons p ps =>
            rw [pushModes] at h5
            cases hx : io.parse p with
            | none =>
              rw [hx] at h5
              cases h5
            | some x =>
              rw [hx] at h5
              dsimp only at h5
              cases hm : pushMode (mt0 + start) mtT m x with
              | error e =>
                rw [hm] at h5
                cases h5
              | ok m' =>
                rw [hm] at h5
                dsimp only at h5
                cases hl : pushModes io (mt0 + start) mtT l ps with
                | error e =>
                  rw [hl] at h5
                  cases h5
                | ok ms' =>
                  intro q hq
                  rcases List.mem_cons.1 hq with rfl | hq
                  · exact pushMode_ok hm
                  · exact ih ms' ps hl q hq

end OpenMPCD.Analysis
