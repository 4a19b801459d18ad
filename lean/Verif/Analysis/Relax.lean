import Verif.Analysis.NormalMode

/-!
# The relaxation times of polymers, as computed by the script for them (C125)
-/

set_option linter.unusedSectionVars false
set_option linter.unusedSimpArgs false

namespace OpenMPCD.Analysis.Relax

open Runs (Str natStr)
open Snapshot (Io Token words)
open Instr (everyNth nmaSaved IsKernelResult averageProduct Mem)

/-! ## Model -/

/-- A `dict` in Python: its entries, in the order in which they have been inserted. -/
abbrev Dict (κ V : Type) := List (κ × V)

/-- `d[k] = f(d.get(k))`: a changed entry keeps its place, a new one comes last. -/
def upd {κ V : Type} [DecidableEq κ] (k : κ) (f : Option V → V) : Dict κ V → Dict κ V
  | [] => [(k, f none)]
  | (k', v) :: d => if k' = k then (k', f (some v)) :: d else (k', v) :: upd k f d

/-- The data: for each normal mode and each time difference the correlations
(`Analysis/getRelaxationTime.py:17-22`). -/
abbrev Data (K : Type) := Dict K (Dict K (List K))

section
variable {K : Type} [Field K] [LinearOrder K] [IsStrictOrderedRing K]

/-- Recording a correlation (`Analysis/getRelaxationTime.py:17-22`). -/
def record (d : Data K) (r : K × K × K) : Data K :=
  upd r.1 (fun o => upd r.2.1 (fun o => o.getD [] ++ [r.2.2]) (o.getD [])) d

/-- The body of the loop over the lines (`Analysis/getRelaxationTime.py:14-22`); `rd`: `round(x, deltaTPrecision)`
(`Analysis/getRelaxationTime.py:8`). -/
def processLine (io : Io K) (rd : K → K) (d : Data K) (parts : List Str) : Except PyErr (Data K) :=
  match parts.mapM io.parse with
  | some [t0, t, i, c] => .ok (record d (i, rd (t - t0), c))
  | _ => .error .valueError

/-- `processRundir` (`Analysis/getRelaxationTime.py:10-22`), for the contents of the file; `none` if there is no file
(`Analysis/MPCDAnalysis/Utilities.py:51`). -/
def processRundir (io : Io K) (rd : K → K) (d : Data K) : Option Str → Except PyErr (Data K)
  | none => .error .valueError
  | some text => ((pyLines text).map words).foldlM (processLine io rd) d

/-- Processing the run directories (`Analysis/getRelaxationTime.py:46-48`). -/
def processAll (io : Io K) (rd : K → K) (files : List (Option Str)) : Except PyErr (Data K) :=
  files.foldlM (processRundir io rd) []

/-- `sum(l) / len(l)` (`Analysis/getRelaxationTime.py:63-65`). -/
def mean (l : List K) : K := l.sum / l.length

/-- The loop over the time differences (`Analysis/getRelaxationTime.py:61-67`), in the order in which the `dict` is
iterated over; `none`: division by zero. -/
def normalise : Dict K (List K) → Option (Dict K K)
  | [] => some []
  | (t, l) :: e =>
    if mean l = 0 then none
    else some (((t, l) :: e).map fun x => (x.1, mean x.2 / mean l))

/-- Is the mode to be included (`Analysis/getRelaxationTime.py:50-58`)? -/
def included (modes : Option (List ℤ)) (i : K) : Bool :=
  match modes with
  | none => true
  | some l => l.any fun m => decide ((m : K) = i)

/-- The loop over the modes (`Analysis/getRelaxationTime.py:54-67`), in the order in which the `dict` is iterated
over. -/
def results (modes : Option (List ℤ)) : Data K → Except PyErr (Dict K (Dict K K))
  | [] => .ok []
  | (i, e) :: d =>
    if included modes i then
      match normalise e with
      | none => .error .zeroDivisionError
      | some r =>
        match results modes d with
        | .error x => .error x
        | .ok rs => .ok ((i, r) :: rs)
    else results modes d

/-- The same entries in another order. (Python 2 iterates over a `dict` in some order; Python 3.7 and later in that of
insertion.) -/
def Reordered (d d' : Data K) : Prop :=
  ∃ l, l.Perm d ∧ List.Forall₂ (fun a b => b.1 = a.1 ∧ b.2.Perm a.2) l d'

/-- The rows saved for a mode (`Analysis/getRelaxationTime.py:97-98`). -/
def savedRows (r : Dict K K) : List (K × K) := r.mergeSort fun a b => decide (a.1 ≤ b.1)

end

/-! ## Specification -/

section
variable {K : Type} [Field K] [LinearOrder K] [IsStrictOrderedRing K]

/-- The text with four columns per line: two times, the mode, and the correlation. -/
def fourColumns (io : Io K) (lines : List (K × K × K × K)) : Str :=
  lines.flatMap fun l => tabLine (io.fmt l.1) [io.fmt l.2.1, io.fmt l.2.2.1, io.fmt l.2.2.2]

/-- The mode, the time difference, and the correlation on a line, as they are read. -/
def entry (rnd rd : K → K) (l : K × K × K × K) : K × K × K :=
  (rnd l.2.2.1, rd (rnd l.2.1 - rnd l.1), rnd l.2.2.2)

/-- The mode has been asked for, if the modes have been restricted at all. -/
def Asked (modes : Option (List ℤ)) (i : K) : Prop := ∀ l, modes = some l → ∃ m ∈ l, (m : K) = i

/-- The average correlation of a mode at a time difference. -/
def average (recs : List (K × K × K)) (i t : K) : K :=
  mean ((recs.filter fun r => decide (r.1 = i ∧ r.2.1 = t)).map fun r => r.2.2)

end

/-! ## Proofs -/

section dict
variable {κ V : Type} [DecidableEq κ]

/-- The keys. -/
def keys (d : Dict κ V) : List κ := d.map Prod.fst

theorem keys_upd (k : κ) (f : Option V → V) (d : Dict κ V) :
    keys (upd k f d) = if k ∈ keys d then keys d else keys d ++ [k] := by
  induction d with
  | nil => simp [upd, keys]
  | cons a d ih =>
    obtain ⟨k', v⟩ := a
    unfold upd
    by_cases h : k' = k
    · simp [h, keys]
    · have h' : ¬ k = k' := fun e => h e.symm
      rw [if_neg h]
      show k' :: keys (upd k f d) = _
      rw [ih]
      by_cases hk : k ∈ keys d
      · rw [if_pos hk, if_pos (show k ∈ keys ((k', v) :: d) from List.mem_cons_of_mem _ hk)]
        rfl
      · rw [if_neg hk, if_neg (show k ∉ keys ((k', v) :: d) from fun e => (List.mem_cons.1 e).elim h' hk)]
        rfl

theorem lookup_upd (k : κ) (f : Option V → V) (d : Dict κ V) (k' : κ) :
    (upd k f d).lookup k' = if k' = k then some (f (d.lookup k)) else d.lookup k' := by
  induction d with
  | nil =>
    unfold upd
    rw [List.lookup_cons]
    by_cases h : k' = k
    · simp [h]
    · have e : (k' == k) = false := by simpa using h
      rw [e, if_neg h]
  | cons a d ih =>
    obtain ⟨k1, v⟩ := a
    unfold upd
    by_cases h : k1 = k
    · subst h
      rw [if_pos rfl]
      by_cases h' : k' = k1
      · simp [h', List.lookup_cons]
      · have e : (k' == k1) = false := by simpa using h'
        rw [if_neg h', List.lookup_cons, List.lookup_cons, e]
    · rw [if_neg h, List.lookup_cons, List.lookup_cons, List.lookup_cons, ih]
      by_cases h' : k' = k1
      · subst h'
        simp [h]
      · have e : (k' == k1) = false := by simp [h']
        have e' : (k == k1) = false := by simpa using fun e : k = k1 => h e.symm
        rw [e, e']

theorem mem_iff_lookup {d : Dict κ V} (h : (keys d).Nodup) (k : κ) (v : V) : (k, v) ∈ d ↔ d.lookup k = some v := by
  induction d with
  | nil => simp
  | cons a d ih =>
    obtain ⟨k1, v1⟩ := a
    rw [keys, List.map_cons, List.nodup_cons] at h
    rw [List.lookup_cons, List.mem_cons]
    by_cases e : k = k1
    · subst e
      simp only [Prod.mk.injEq, true_and, beq_self_eq_true]
      constructor
      · rintro (h' | h')
        · simp [h']
        · exact absurd (List.mem_map_of_mem (f := Prod.fst) h') h.1
      · intro h'
        exact .inl (Option.some.inj h').symm
    · have e' : (k == k1) = false := by simp [e]
      rw [e', ← ih h.2]
      simp [e]

theorem mem_keys_iff {d : Dict κ V} (k : κ) : k ∈ keys d ↔ ∃ v, (k, v) ∈ d := by
  simp [keys]

/-- The values by key: recording one after another, e.g. correlations by time difference. -/
def inner (recs : List (κ × V)) : Dict κ (List V) :=
  recs.foldl (fun e r => upd r.1 (fun o => o.getD [] ++ [r.2]) e) []

theorem inner_append (recs : List (κ × V)) (r : κ × V) :
    inner (recs ++ [r]) = upd r.1 (fun o => o.getD [] ++ [r.2]) (inner recs) := by
  simp [inner]

theorem inner_nodup (recs : List (κ × V)) : (keys (inner recs)).Nodup := by
  induction recs using List.reverseRecOn with
  | nil => simp [inner, keys]
  | append_singleton recs r ih =>
    rw [inner_append, keys_upd]
    split
    · exact ih
    · rename_i h
      exact List.nodup_append.2 ⟨ih, by simp, fun a ha b hb => by
        rw [List.mem_singleton.1 hb]; rintro rfl; exact h ha⟩

theorem inner_lookup (recs : List (κ × V)) (t : κ) :
    (inner recs).lookup t = if (recs.filter fun r => decide (r.1 = t)) = [] then none
      else some ((recs.filter fun r => decide (r.1 = t)).map Prod.snd) := by
  induction recs using List.reverseRecOn with
  | nil => simp [inner]
  | append_singleton recs r ih =>
    rw [inner_append, lookup_upd]
    by_cases h : t = r.1
    · subst h
      rw [if_pos rfl, ih]
      by_cases h' : (recs.filter fun x => decide (x.1 = r.1)) = []
      · simp [h', List.filter_append]
      · simp [h', List.filter_append]
    · rw [if_neg h, ih]
      have : ¬ r.1 = t := fun e => h e.symm
      have e : ((recs ++ [r]).filter fun r => decide (r.1 = t)) = recs.filter fun r => decide (r.1 = t) := by
        rw [List.filter_append, List.filter_cons_of_neg (by simpa using this), List.filter_nil, List.append_nil]
      rw [e]

theorem inner_head (recs : List (κ × V)) : (inner recs).head?.map Prod.fst = recs.head?.map Prod.fst := by
  have e : ∀ d : Dict κ (List V), d.head?.map Prod.fst = (keys d).head? := fun d => by cases d <;> simp [keys]
  rw [e]
  induction recs using List.reverseRecOn with
  | nil => simp [inner, keys]
  | append_singleton recs r ih =>
    rw [inner_append, keys_upd]
    cases recs with
    | nil => simp [inner, keys]
    | cons a l =>
      split
      · rw [ih]; simp
      · cases h : keys (inner (a :: l)) with
        | nil => rw [h] at ih; simp at ih
        | cons x y => rw [h] at ih; simpa using ih

end dict

section
variable {K : Type} [Field K] [LinearOrder K] [IsStrictOrderedRing K]

/-- The records of a mode. -/
def ofMode (recs : List (K × K × K)) (i : K) : List (K × K) :=
  (recs.filter fun r => decide (r.1 = i)).map Prod.snd

theorem data_nodup (recs : List (K × K × K)) : (keys (recs.foldl record [])).Nodup := by
  induction recs using List.reverseRecOn with
  | nil => simp [keys]
  | append_singleton recs r ih =>
    rw [List.foldl_append, List.foldl_cons, List.foldl_nil]
    unfold record at ih ⊢
    rw [keys_upd]
    split
    · exact ih
    · rename_i h
      exact List.nodup_append.2 ⟨ih, by simp, fun a ha b hb => by
        rw [List.mem_singleton.1 hb]; rintro rfl; exact h ha⟩

theorem data_lookup (recs : List (K × K × K)) (i : K) :
    (recs.foldl record []).lookup i = if ofMode recs i = [] then none else some (inner (ofMode recs i)) := by
  induction recs using List.reverseRecOn with
  | nil => simp [ofMode]
  | append_singleton recs r ih =>
    rw [List.foldl_append, List.foldl_cons, List.foldl_nil]
    unfold record
    rw [lookup_upd]
    by_cases h : i = r.1
    · subst h
      have e : ofMode (recs ++ [r]) r.1 = ofMode recs r.1 ++ [r.2] := by simp [ofMode, List.filter_append]
      have ih' : (recs.foldl record []).lookup r.1 = _ := ih
      unfold record at ih'
      rw [if_pos rfl, ih', e, inner_append]
      by_cases h' : ofMode recs r.1 = []
      · simp [h', inner]
      · simp [h']
    · have : ¬ r.1 = i := fun e => h e.symm
      have e : ofMode (recs ++ [r]) i = ofMode recs i := by simp [ofMode, List.filter_append, this]
      rw [if_neg h, e]
      exact ih

/-- The entries of the data. -/
theorem mem_data {recs : List (K × K × K)} {i : K} {e : Dict K (List K)} :
    (i, e) ∈ recs.foldl record [] ↔ ofMode recs i ≠ [] ∧ e = inner (ofMode recs i) := by
  rw [mem_iff_lookup (data_nodup recs), data_lookup]
  split
  · simp [*]
  · simp only [Option.some.injEq]
    constructor
    · rintro rfl; exact ⟨by assumption, rfl⟩
    · rintro ⟨-, rfl⟩; rfl

theorem mem_inner {recs : List (K × K × K)} {i t : K} {l : List K} :
    (t, l) ∈ inner (ofMode recs i) ↔ (∃ c, (i, t, c) ∈ recs) ∧
      l = (recs.filter fun r => decide (r.1 = i ∧ r.2.1 = t)).map fun r => r.2.2 := by
  have e : ((ofMode recs i).filter fun r => decide (r.1 = t)).map Prod.snd =
      (recs.filter fun r => decide (r.1 = i ∧ r.2.1 = t)).map fun r => r.2.2 := by
    unfold ofMode
    rw [List.filter_map, List.map_map, List.filter_filter]
    congr 1
    apply List.filter_congr
    intro r _
    simp [Bool.and_comm]
  have e2 : ((ofMode recs i).filter fun r => decide (r.1 = t)) = [] ↔ ¬ ∃ c, (i, t, c) ∈ recs := by
    rw [List.filter_eq_nil_iff]
    constructor
    · rintro h ⟨c, hc⟩
      refine h (t, c) ?_ (by simp)
      exact List.mem_map.2 ⟨(i, t, c), List.mem_filter.2 ⟨hc, by simp⟩, rfl⟩
    · rintro h ⟨t', c⟩ hr ht
      obtain ⟨⟨i', x⟩, hx, rfl⟩ := List.mem_map.1 hr
      obtain ⟨h1, h2⟩ := List.mem_filter.1 hx
      have h2 : i' = i := by simpa using h2
      have ht : t' = t := by simpa using ht
      subst h2 ht
      exact h ⟨c, h1⟩
  rw [mem_iff_lookup (inner_nodup _), inner_lookup, e]
  split
  · rename_i h
    rw [e2] at h
    simp [h]
  · rename_i h
    rw [e2, not_not] at h
    simp only [Option.some.injEq, h, true_and]
    exact eq_comm

theorem normalise_mem {e : Dict K (List K)} {r : Dict K K} (h : normalise e = some r) :
    (∀ t0 l0, e.head? = some (t0, l0) → mean l0 ≠ 0 ∧ r = e.map fun x => (x.1, mean x.2 / mean l0)) ∧ keys r = keys e := by
  cases e with
  | nil =>
    cases h
    exact ⟨fun _ _ h => (by cases h), rfl⟩
  | cons a e =>
    obtain ⟨t, l⟩ := a
    rw [normalise] at h
    by_cases hm : mean l = 0
    · rw [if_pos hm] at h
      cases h
    · rw [if_neg hm] at h
      cases h
      refine ⟨fun t0 l0 h => ?_, by simp [keys, Function.comp_def]⟩
      cases h
      exact ⟨hm, rfl⟩

theorem included_iff {modes : Option (List ℤ)} {i : K} : included modes i = true ↔ Asked modes i := by
  unfold included Asked
  cases modes with
  | none => simp
  | some l => simp

theorem results_ok {modes : Option (List ℤ)} {d : Data K} {rs : Dict K (Dict K K)} (h : results modes d = .ok rs) :
    List.Forall₂ (fun a b => b.1 = a.1 ∧ normalise a.2 = some b.2) (d.filter fun a => included modes a.1) rs := by
  induction d generalizing rs with
  | nil => cases h; exact .nil
  | cons a d ih =>
    obtain ⟨i, e⟩ := a
    unfold results at h
    by_cases hi : included modes i = true
    · rw [if_pos hi] at h
      rw [List.filter_cons_of_pos (by exact hi)]
      cases hn : normalise e with
      | none => rw [hn] at h; cases h
      | some r =>
        rw [hn] at h
        cases hr : results modes d with
        | error x => rw [hr] at h; cases h
        | ok rs' =>
          rw [hr] at h
          cases h
          exact .cons ⟨rfl, hn⟩ (ih hr)
    · rw [if_neg hi] at h
      rw [List.filter_cons_of_neg (by exact hi)]
      exact ih h

theorem results_total {modes : Option (List ℤ)} {d : Data K} (h : ∀ a ∈ d, normalise a.2 ≠ none) :
    ∃ rs, results modes d = .ok rs := by
  induction d with
  | nil => exact ⟨[], rfl⟩
  | cons a d ih =>
    obtain ⟨i, e⟩ := a
    obtain ⟨rs, hrs⟩ := ih fun a ha => h a (by simp [ha])
    obtain ⟨r, hr⟩ := Option.ne_none_iff_exists'.1 (h (i, e) (by simp))
    unfold results
    split
    · dsimp only at hr
      rw [hr, hrs]
      exact ⟨_, rfl⟩
    · exact ⟨_, hrs⟩

/-! ### Reading -/

theorem foldlM_map_ok {σ α β : Type} {f : σ → β → Except PyErr σ} {g : σ → α → σ} {k : α → β}
    (h : ∀ s a, f s (k a) = .ok (g s a)) (l : List α) (s : σ) : (l.map k).foldlM f s = .ok (l.foldl g s) := by
  induction l generalizing s with
  | nil => rfl
  | cons a l ih =>
    rw [List.map_cons, List.foldlM_cons, h]
    exact ih _

theorem words_four {io : Io K} {rnd : K → K} (hio : Rounds io rnd) (lines : List (K × K × K × K)) :
    (pyLines (fourColumns io lines)).map words =
      lines.map fun l => [io.fmt l.1, io.fmt l.2.1, io.fmt l.2.2.1, io.fmt l.2.2.2] := by
  have e : fourColumns io lines = (lines.map fun l => (io.fmt l.1, [io.fmt l.2.1, io.fmt l.2.2.1, io.fmt l.2.2.2])).flatMap
      fun r => tabLine r.1 r.2 := by
    unfold fourColumns
    rw [List.flatMap_map]
  rw [e, words_pyLines, List.map_map]
  · rfl
  · intro r hr
    obtain ⟨l, -, rfl⟩ := List.mem_map.1 hr
    refine ⟨hio.token_fmt _, fun t ht => ?_⟩
    simp only [List.mem_cons, List.not_mem_nil, or_false] at ht
    rcases ht with rfl | rfl | rfl <;> exact hio.token_fmt _

theorem processRundir_four {io : Io K} {rnd : K → K} (hio : Rounds io rnd) (rd : K → K) (d : Data K)
    (lines : List (K × K × K × K)) :
    processRundir io rd d (some (fourColumns io lines)) = .ok ((lines.map (entry rnd rd)).foldl record d) := by
  unfold processRundir
  dsimp only
  rw [words_four hio, foldlM_map_ok (g := fun d l => record d (entry rnd rd l)), List.foldl_map]
  intro s l
  unfold processLine
  simp [hio.parse_fmt, entry]

theorem processAll_four {io : Io K} {rnd : K → K} (hio : Rounds io rnd) (rd : K → K)
    (runs : List (List (K × K × K × K))) :
    processAll io rd (runs.map fun l => some (fourColumns io l)) =
      .ok ((runs.flatten.map (entry rnd rd)).foldl record []) := by
  unfold processAll
  rw [foldlM_map_ok (g := fun d l => (l.map (entry rnd rd)).foldl record d)]
  · congr 1
    generalize ([] : Data K) = d
    induction runs generalizing d with
    | nil => rfl
    | cons l runs ih =>
      rw [List.foldl_cons, ih, List.flatten_cons, List.map_append, List.foldl_append]
  · intro s l
    exact processRundir_four hio rd s l

/-! ## Properties -/

/-- C125: from files with four columns per line one obtains for exactly the normal modes occurring (as far as they have
been asked for) and for exactly the time differences occurring for each of them, each once, the average of all
correlations, of all run directories, of that mode at that difference, divided by the average at some difference `t0`
occurring for that mode. If the `dict` is iterated over in the order of insertion, `t0` is the difference on the first line
for that mode. `_partial`: `t0` need not be zero (see `C125_first_violated` and `C125_order_violated`), and the simulation
does not write such files (see `C125_written_violated`). -/
theorem C125_curves_partial {io : Io K} {rnd : K → K} (hio : Rounds io rnd) (rd : K → K)
    (runs : List (List (K × K × K × K))) (modes : Option (List ℤ)) {d : Data K} {rs : Dict K (Dict K K)} :
    ∃ data, processAll io rd (runs.map fun l => some (fourColumns io l)) = .ok data ∧
      (Reordered data d → results modes d = .ok rs →
        let recs := runs.flatten.map (entry rnd rd)
        (keys rs).Nodup ∧
        (∀ i, i ∈ keys rs ↔ Asked modes i ∧ ∃ t c, (i, t, c) ∈ recs) ∧
        ∀ i r, (i, r) ∈ rs → (keys r).Nodup ∧ (∀ t, t ∈ keys r ↔ ∃ c, (i, t, c) ∈ recs) ∧
          ∃ t0, (∃ c, (i, t0, c) ∈ recs) ∧ average recs i t0 ≠ 0 ∧
            (d = data → (recs.filter fun x => decide (x.1 = i)).head?.map (fun x => x.2.1) = some t0) ∧
            ∀ t v, (t, v) ∈ r → v = average recs i t / average recs i t0) := by
  refine ⟨_, processAll_four hio rd runs, fun hd hrs => ?_⟩
  intro recs
  obtain ⟨l, hl, hd'⟩ := hd
  have hf := results_ok hrs
  have hkl : keys d = keys l := by
    clear hl hrs hf
    induction hd' with
    | nil => rfl
    | cons h _ ih => simp only [keys, List.map_cons] at ih ⊢; rw [h.1, ih]
  have hnd : (keys d).Nodup := by
    rw [hkl]
    exact (hl.map Prod.fst).nodup_iff.2 (data_nodup recs)
  have hkrs : keys rs = keys (d.filter fun a => included modes a.1) := by
    clear hrs
    generalize (d.filter fun a => included modes a.1) = x at hf
    induction hf with
    | nil => rfl
    | cons h _ ih => simp only [keys, List.map_cons] at ih ⊢; rw [h.1, ih]
  have hmem : ∀ i e, (i, e) ∈ d → ofMode recs i ≠ [] ∧ e.Perm (inner (ofMode recs i)) := by
    intro i e he
    have : ∃ e', (i, e') ∈ l ∧ e.Perm e' := by
      clear hl hrs hf hkl hnd hkrs
      induction hd' with
      | nil => cases he
      | @cons a b l d h _ ih =>
        rcases List.mem_cons.1 he with h' | h'
        · subst h'
          exact ⟨a.2, List.mem_cons.2 (.inl (Prod.ext h.1 rfl)), h.2⟩
        · obtain ⟨e', h1, h2⟩ := ih h'
          exact ⟨e', by simp [h1], h2⟩
    obtain ⟨e', h1, h2⟩ := this
    obtain ⟨h3, rfl⟩ := mem_data.1 (hl.mem_iff.1 h1)
    exact ⟨h3, h2⟩
  have hmode : ∀ i, ofMode recs i ≠ [] ↔ ∃ t c, (i, t, c) ∈ recs := by
    intro i
    unfold ofMode
    rw [ne_eq, List.map_eq_nil_iff, List.filter_eq_nil_iff]
    push Not
    constructor
    · rintro ⟨⟨i', t, c⟩, h1, h2⟩
      have h2 : i' = i := by simpa using h2
      exact ⟨t, c, h2 ▸ h1⟩
    · rintro ⟨t, c, h⟩
      exact ⟨_, h, by simp⟩
  refine ⟨?_, fun i => ?_, fun i r hr => ?_⟩
  · rw [hkrs]
    exact hnd.sublist (List.filter_sublist.map _)
  · rw [hkrs]
    constructor
    · intro h
      obtain ⟨e, he⟩ := (mem_keys_iff i).1 h
      obtain ⟨h1, h2⟩ := List.mem_filter.1 he
      exact ⟨included_iff.1 h2, (hmode i).1 (hmem i e h1).1⟩
    · rintro ⟨h1, h2⟩
      have : (i, inner (ofMode recs i)) ∈ recs.foldl record [] := mem_data.2 ⟨(hmode i).2 h2, rfl⟩
      have : i ∈ keys d := by
        rw [hkl]
        exact (mem_keys_iff i).2 ⟨_, hl.mem_iff.2 this⟩
      obtain ⟨e, he⟩ := (mem_keys_iff i).1 this
      exact (mem_keys_iff i).2 ⟨e, List.mem_filter.2 ⟨he, included_iff.2 h1⟩⟩
  · obtain ⟨e, he, hn⟩ : ∃ e, (i, e) ∈ d ∧ normalise e = some r := by
      have : ∀ {x : Data K}, List.Forall₂ (fun a b => b.1 = a.1 ∧ normalise a.2 = some b.2) x rs → (i, r) ∈ rs →
          ∃ e, (i, e) ∈ x ∧ normalise e = some r := by
        intro x hx
        clear hr hkrs hf hrs
        induction hx with
        | nil => intro h; cases h
        | @cons a b x rs h _ ih =>
          intro h'
          rcases List.mem_cons.1 h' with h' | h'
          · subst h'
            exact ⟨a.2, List.mem_cons.2 (.inl (Prod.ext h.1 rfl)), h.2⟩
          · obtain ⟨e, h1, h2⟩ := ih h'
            exact ⟨e, by simp [h1], h2⟩
      obtain ⟨e, h1, h2⟩ := this hf hr
      exact ⟨e, (List.mem_filter.1 h1).1, h2⟩
    obtain ⟨hne, hp⟩ := hmem i e he
    obtain ⟨h1, h2⟩ := normalise_mem hn
    have hval : ∀ t l, (t, l) ∈ e → (∃ c, (i, t, c) ∈ recs) ∧ mean l = average recs i t := by
      intro t l h
      obtain ⟨h3, rfl⟩ := mem_inner.1 (hp.mem_iff.1 h)
      exact ⟨h3, rfl⟩
    have hee : e ≠ [] := by
      rintro rfl
      have h0 := inner_head (ofMode recs i)
      rw [← hp.nil_eq] at h0
      cases h3 : ofMode recs i with
      | nil => exact hne h3
      | cons a b => rw [h3] at h0; simp at h0
    refine ⟨?_, fun t => ?_, ?_⟩
    · rw [h2]
      exact (hp.map Prod.fst).nodup_iff.2 (inner_nodup _)
    · rw [h2, mem_keys_iff]
      constructor
      · rintro ⟨l, h⟩
        exact (hval t l h).1
      · intro h
        exact ⟨_, hp.mem_iff.2 (mem_inner.2 ⟨h, rfl⟩)⟩
    · cases e with
      | nil => exact absurd rfl hee
      | cons a e =>
        obtain ⟨t0, l0⟩ := a
        obtain ⟨h3, rfl⟩ := h1 t0 l0 rfl
        obtain ⟨h4, h5⟩ := hval t0 l0 (by simp)
        refine ⟨t0, h4, h5 ▸ h3, fun hdd => ?_, fun t v htv => ?_⟩
        · subst hdd
          obtain ⟨-, h6⟩ := mem_data.1 he
          have h7 := inner_head (ofMode recs i)
          rw [← h6] at h7
          unfold ofMode at h7
          rw [List.head?_map] at h7
          simpa [Function.comp_def] using h7.symm
        · obtain ⟨x, hx, hx'⟩ := List.mem_map.1 htv
          cases hx'
          rw [(hval x.1 x.2 hx).2, h5]

/-- C125: if the first line for each mode has two equal times, and is written by an interpreter keeping the order of
insertion, the values are those relative to the time difference zero. -/
theorem C125_zero_partial {io : Io K} {rnd : K → K} (hio : Rounds io rnd) (rd : K → K) (h0 : rd 0 = 0)
    (runs : List (List (K × K × K × K))) (modes : Option (List ℤ)) {data : Data K} {rs : Dict K (Dict K K)}
    (hdata : processAll io rd (runs.map fun l => some (fourColumns io l)) = .ok data) (hrs : results modes data = .ok rs)
    (hfirst : ∀ i l, (runs.flatten.filter fun l => decide (rnd l.2.2.1 = i)).head? = some l → l.1 = l.2.1)
    {i t v : K} {r : Dict K K} (hr : (i, r) ∈ rs) (hv : (t, v) ∈ r) :
    v = average (runs.flatten.map (entry rnd rd)) i t / average (runs.flatten.map (entry rnd rd)) i 0 := by
  obtain ⟨data', h1, h2⟩ := C125_curves_partial hio rd runs modes (d := data) (rs := rs)
  rw [hdata] at h1
  cases h1
  obtain ⟨-, -, h⟩ := h2 ⟨data, .refl _, List.forall₂_same.2 fun _ _ => ⟨rfl, .refl _⟩⟩ hrs
  obtain ⟨-, -, t0, -, -, h3, h4⟩ := h i r hr
  have h3 := h3 rfl
  rw [h4 t v hv]
  rw [List.filter_map, List.head?_map, Option.map_map] at h3
  obtain ⟨l, hl, rfl⟩ := Option.map_eq_some_iff.1 h3
  have := hfirst i l hl
  simp only [Function.comp_apply, entry, this, sub_self, h0]

end

/-- Reading fails at the first line which has not four columns. -/
theorem processLine_columns {K : Type} [Field K] [LinearOrder K] [IsStrictOrderedRing K] (io : Io K) (rd : K → K)
    (d : Data K) {parts : List Str} (h : parts.length ≠ 4) : processLine io rd d parts = .error .valueError := by
  unfold processLine
  have hm : ∀ (parts : List Str) l, parts.mapM io.parse = some l → l.length = parts.length := by
    intro parts
    induction parts with
    | nil => intro l hl; simp at hl; simp [hl]
    | cons a parts ih =>
      intro l hl
      rw [List.mapM_cons] at hl
      cases h1 : io.parse a with
      | none => simp [h1] at hl
      | some x =>
        cases h2 : parts.mapM io.parse with
        | none => simp [h1, h2] at hl
        | some y => simp [h1, h2] at hl; subst hl; simp [ih y h2]
  cases hl : parts.mapM io.parse with
  | none => rfl
  | some l =>
    have := hm parts l hl
    match l, this with
    | [], _ => rfl
    | [_], _ => rfl
    | [_, _], _ => rfl
    | [_, _, _], _ => rfl
    | [a, b, c, e], h' => exact absurd h'.symm h
    | _ :: _ :: _ :: _ :: _ :: _, _ => rfl

theorem nmaSaved_columns {every : ℕ} (he : 0 < every) (argumentCount L C : ℕ) (garbage : ℕ → Mem) (calls : List Mem) :
    ∃ lines, nmaSaved every argumentCount L C garbage calls = some lines ∧ (∀ l ∈ lines, l.2.2.length = L + 1) ∧
      (0 < argumentCount → calls ≠ [] → lines ≠ []) := by
  obtain ⟨lines, h1, h2, h3⟩ := Instr.C35 he argumentCount L C garbage calls
  refine ⟨lines, h1, fun l hl => ?_, fun hA hc => ?_⟩
  · obtain ⟨a, b, -, -, h⟩ := h3 l.1 l.2.1 l.2.2 hl
    rw [h]
    simp [Instr.averageAutocorrelation]
  · rintro rfl
    have h4 : (everyNth every calls).length ≠ 0 := by
      intro h0
      have := Instr.C34_everyNth he calls 0
      rw [List.length_eq_zero_iff.1 h0, Nat.zero_mul] at this
      cases calls with
      | nil => exact hc rfl
      | cons a b => simp at this
    have h5 : (0, 0) ∈ Instr.pairs argumentCount 0 (everyNth every calls).length := by
      unfold Instr.pairs
      refine List.mem_flatMap.2 ⟨0, List.mem_range.2 (by omega), List.mem_map.2 ⟨0, ?_, rfl⟩⟩
      exact List.mem_filter.2 ⟨List.mem_range.2 hA, by simp; omega⟩
    rw [← h2] at h5
    cases h5

/-- C125 is violated: the file the simulation saves has one line for each pair of times, with the correlations of all
normal modes on it. Whatever has been measured, if chains do not consist of exactly one particle, the script breaks off at
its first line. -/
theorem C125_written_violated {io : Io ℝ} {rnd : ℝ → ℝ} (hio : Rounds io rnd) (rd : ℝ → ℝ) {every : ℕ} (he : 0 < every)
    {argumentCount : ℕ} (hA : 0 < argumentCount) {L : ℕ} (hL : L ≠ 1) (C : ℕ) (garbage : ℕ → Mem) {calls : List Mem}
    (hcalls : calls ≠ []) : ∃ lines, nmaSaved every argumentCount L C garbage calls = some lines ∧
      ∀ files, processAll io rd (some (nmaText io lines) :: files) = .error .valueError := by
  obtain ⟨lines, h1, h2, h3⟩ := nmaSaved_columns he argumentCount L C garbage calls
  refine ⟨lines, h1, fun files => ?_⟩
  unfold processAll
  rw [List.foldlM_cons]
  unfold processRundir
  dsimp only
  rw [words_nmaText hio]
  cases lines with
  | nil => exact absurd rfl (h3 hA hcalls)
  | cons l lines =>
    rw [List.map_cons, List.foldlM_cons, processLine_columns]
    · rfl
    · have := h2 l (by simp)
      simp only [columns, List.length_cons, List.length_map, this]
      omega

/-- C125 is violated with chains of one particle as well: the correlation of the first normal mode is taken for the number
of a mode, and the number of the first measurement, subtracted from the time difference, for a time difference. -/
theorem C125_single_violated {io : Io ℝ} {rnd : ℝ → ℝ} (hio : Rounds io rnd)
    (hnat : ∀ n : ℕ, io.parse (natStr n) = some (n : ℝ)) (rd : ℝ → ℝ) {every : ℕ} (he : 0 < every)
    (argumentCount C : ℕ) (garbage : ℕ → Mem) (calls : List Mem) :
    ∃ lines, nmaSaved every argumentCount 1 C garbage calls = some lines ∧
      processAll io rd [some (nmaText io lines)] =
        .ok ((lines.map fun l => (rnd (l.2.2.getD 0 0), rd ((l.2.1 : ℝ) - (l.1 : ℝ)), rnd (l.2.2.getD 1 0))).foldl record []) := by
  obtain ⟨lines, h1, h2, h3⟩ := nmaSaved_columns he argumentCount 1 C garbage calls
  refine ⟨lines, h1, ?_⟩
  unfold processAll
  rw [List.foldlM_cons]
  unfold processRundir
  dsimp only
  rw [words_nmaText hio]
  clear h1 h3
  generalize ([] : Data ℝ) = d
  have : (lines.map (columns io)).foldlM (processLine io rd) d = .ok ((lines.map fun l => (rnd (l.2.2.getD 0 0),
      rd ((l.2.1 : ℝ) - (l.1 : ℝ)), rnd (l.2.2.getD 1 0))).foldl record d) := by
    induction lines generalizing d with
    | nil => rfl
    | cons l lines ih =>
      obtain ⟨t, dt, v⟩ := l
      have hv : v.length = 2 := h2 (t, dt, v) (by simp)
      match v, hv with
      | [a, b], _ =>
        rw [List.map_cons, List.foldlM_cons]
        have : processLine io rd d (columns io (t, dt, [a, b])) =
            .ok (record d (rnd a, rd ((dt : ℝ) - (t : ℝ)), rnd b)) := by
          unfold processLine columns
          simp [hnat, hio.parse_fmt]
        rw [this]
        exact ih (fun l hl => h2 l (by simp [hl])) _
  rw [this]
  rfl

/-- The hypotheses of `C125_written_violated` and `C125_single_violated` can be met. -/
example : ∃ (io : Io ℝ) (rnd : ℝ → ℝ), Rounds io rnd ∧ ∀ n : ℕ, io.parse (natStr n) = some (n : ℝ) := by
  refine ⟨⟨fun x => natStr ⌊x⌋₊, fun s => some (Runs.digitsValue s : ℝ), fun _ => false⟩, fun x => (⌊x⌋₊ : ℝ), ⟨fun x => ?_, fun x => ?_⟩,
    fun n => ?_⟩
  · simp [Runs.digitsValue_natStr]
  · exact Snapshot.natStr_token _
  · simp [Runs.digitsValue_natStr]

section
variable {K : Type} [Field K] [LinearOrder K] [IsStrictOrderedRing K]

/-- The data of two lines of one mode with different time differences. -/
theorem two_lines {io : Io K} {rnd : K → K} (hio : Rounds io rnd) (rd : K → K) {i s t a b : K}
    (hi : rnd i = i) (hs : rnd s = s) (ht : rnd t = t) (ha : rnd a = a) (hb : rnd b = b) (h0 : rnd 0 = 0)
    (hrs : rd s = s) (hrt : rd t = t) (hne : s ≠ t) :
    processAll io rd [some (fourColumns io [(0, s, i, a), (0, t, i, b)])] = .ok [(i, [(s, [a]), (t, [b])])] := by
  have := processAll_four hio rd [[(0, s, i, a), (0, t, i, b)]]
  rw [List.map_cons, List.map_nil] at this
  rw [this]
  simp [entry, hi, hs, ht, ha, hb, h0, hrs, hrt, record, upd, hne]

/-- C125 is violated: if a file does not begin with the time difference zero, the values are relative to another one, so
that the value at zero is not one. -/
theorem C125_first_violated {io : Io K} {rnd : K → K} (hio : Rounds io rnd) (rd : K → K) {i t a b : K}
    (hi : rnd i = i) (ht : rnd t = t) (ha : rnd a = a) (hb : rnd b = b) (h0 : rnd 0 = 0)
    (hr0 : rd 0 = 0) (hrt : rd t = t) (hne : t ≠ 0) (hane : a ≠ 0) :
    ∃ data, processAll io rd [some (fourColumns io [(0, t, i, a), (0, 0, i, b)])] = .ok data ∧
      results none data = .ok [(i, [(t, 1), (0, b / a)])] := by
  refine ⟨_, two_lines hio rd hi ht h0 ha hb h0 hrt hr0 hne, ?_⟩
  simp [results, included, normalise, mean, hane]

/-- C125 is violated with interpreters which do not keep the order of insertion (such as Python 2), for files beginning
with the time difference zero, too. -/
theorem C125_order_violated {io : Io K} {rnd : K → K} (hio : Rounds io rnd) (rd : K → K) {i t a b : K}
    (hi : rnd i = i) (ht : rnd t = t) (ha : rnd a = a) (hb : rnd b = b) (h0 : rnd 0 = 0)
    (hr0 : rd 0 = 0) (hrt : rd t = t) (hne : t ≠ 0) (hane : a ≠ 0) :
    ∃ data d, processAll io rd [some (fourColumns io [(0, 0, i, b), (0, t, i, a)])] = .ok data ∧
      Reordered data d ∧ results none d = .ok [(i, [(t, 1), (0, b / a)])] := by
  refine ⟨_, [(i, [(t, [a]), (0, [b])])], two_lines hio rd hi h0 ht hb ha h0 hr0 hrt hne.symm,
    ⟨_, .refl _, .cons ⟨rfl, .swap _ _ _⟩ .nil⟩, ?_⟩
  simp [results, included, normalise, mean, hane]

/-- The hypotheses of the theorems above can be met. -/
example : ∃ (io : Io ℚ) (rnd : ℚ → ℚ), Rounds io rnd ∧ rnd 0 = 0 ∧ rnd 1 = 1 ∧ rnd 2 = 2 := by
  refine ⟨⟨fun x => natStr ⌊x⌋₊, fun s => some (Runs.digitsValue s : ℚ), fun _ => false⟩, fun x => (⌊x⌋₊ : ℚ), ⟨fun x => ?_, fun x => ?_⟩,
    by simp, by simp, ?_⟩
  · simp [Runs.digitsValue_natStr]
  · exact Snapshot.natStr_token _
  · have : ⌊(2 : ℚ)⌋₊ = 2 := Nat.floor_ofNat 2
    simp [this]

/-- C125: the script breaks off because of a division by zero if and only if the average at the first difference iterated
over is zero, for some mode asked for. -/
theorem C125_division (modes : Option (List ℤ)) (d : Data K) : results modes d = .error .zeroDivisionError ↔
    ∃ i e t l, (i, e) ∈ d ∧ Asked modes i ∧ e.head? = some (t, l) ∧ mean l = 0 := by
  simp only [← included_iff]
  have hn : ∀ e : Dict K (List K), normalise e = none ↔ ∃ t l, e.head? = some (t, l) ∧ mean l = 0 := by
    intro e
    cases e with
    | nil => simp [normalise]
    | cons a e =>
      obtain ⟨t, l⟩ := a
      rw [normalise]
      by_cases h : mean l = 0
      · simp [h]
      · simp [h]
  induction d with
  | nil => simp [results]
  | cons a d ih =>
    obtain ⟨i, e⟩ := a
    rw [results]
    by_cases hi : included modes i = true
    · rw [if_pos hi]
      cases h : normalise e with
      | none =>
        obtain ⟨t, l, h1, h2⟩ := (hn e).1 h
        simp only [true_iff]
        exact ⟨i, e, t, l, by simp, hi, h1, h2⟩
      | some r =>
        constructor
        · intro h'
          dsimp only at h'
          cases hr : results modes d with
          | ok rs => rw [hr] at h'; cases h'
          | error x =>
            rw [hr] at h'
            cases h'
            obtain ⟨i', e', t, l, h1, h2⟩ := ih.1 hr
            exact ⟨i', e', t, l, by simp [h1], h2⟩
        · rintro ⟨i', e', t, l, h1, h2, h3, h4⟩
          rcases List.mem_cons.1 h1 with h1 | h1
          · cases h1
            rw [(hn e).2 ⟨t, l, h3, h4⟩] at h
            cases h
          · dsimp only
            rw [ih.2 ⟨i', e', t, l, h1, h2, h3, h4⟩]
    · rw [if_neg hi]
      refine ih.trans ?_
      constructor
      · rintro ⟨i', e', t, l, h1, h2⟩
        exact ⟨i', e', t, l, by simp [h1], h2⟩
      · rintro ⟨i', e', t, l, h1, h2, h3⟩
        rcases List.mem_cons.1 h1 with h1 | h1
        · cases h1
          exact absurd h2 hi
        · exact ⟨i', e', t, l, h1, h2, h3⟩

/-- C125: if the file is missing in one of the run directories, the script breaks off. -/
theorem C125_missing (io : Io K) (rd : K → K) (files : List (Option Str)) (h : none ∈ files) :
    processAll io rd files = .error .valueError := by
  have hline : ∀ (l : List (List Str)) (d : Data K) e, l.foldlM (processLine io rd) d = .error e → e = .valueError := by
    intro l
    induction l with
    | nil => intro d e h; cases h
    | cons a l ih =>
      intro d e h
      rw [List.foldlM_cons] at h
      cases h' : processLine io rd d a with
      | ok d' => rw [h'] at h; exact ih _ _ h
      | error x =>
        rw [h'] at h
        cases h
        unfold processLine at h'
        split at h'
        · cases h'
        · cases h'; rfl
  unfold processAll
  generalize ([] : Data K) = d
  induction files generalizing d with
  | nil => cases h
  | cons a files ih =>
    rw [List.foldlM_cons]
    cases h' : processRundir io rd d a with
    | error x =>
      cases a with
      | none => cases h'; rfl
      | some text =>
        unfold processRundir at h'
        rw [hline _ _ _ h']
        rfl
    | ok d' =>
      refine ih ?_ d'
      rcases List.mem_cons.1 h with h | h
      · subst h; cases h'
      · exact h

/-- C125: the rows saved for a mode are those computed, each once, by increasing time difference. -/
theorem C125_saved (r : Dict K K) (h : (keys r).Nodup) :
    (savedRows r).Perm r ∧ (savedRows r).Pairwise fun a b => a.1 < b.1 := by
  have hp : (savedRows r).Perm r := List.mergeSort_perm _ _
  refine ⟨hp, ?_⟩
  have hs : (savedRows r).Pairwise fun a b => decide (a.1 ≤ b.1) = true := by
    refine List.pairwise_mergeSort (fun a b c => ?_) (fun a b => ?_) r
    · simp only [decide_eq_true_eq]
      exact le_trans
    · simp only [Bool.or_eq_true, decide_eq_true_eq]
      exact le_total _ _
  have hn : (savedRows r).Pairwise fun a b => a.1 ≠ b.1 := by
    have := (hp.map Prod.fst).nodup_iff.2 h
    rw [List.Nodup, List.pairwise_map] at this
    exact this
  refine (hs.and hn).imp fun {a b} h => lt_of_le_of_ne (by simpa using h.1) h.2

example : (keys [((2 : ℚ), (5 : ℚ)), (0, 1), (1, 7)]).Nodup := by
  decide +kernel

end

end OpenMPCD.Analysis.Relax
