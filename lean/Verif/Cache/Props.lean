import Mathlib.Data.List.Basic
import Mathlib.Logic.Function.Basic
import Verif.Cache.Model

/-!
# C41: interrupted and completed stores
-/

set_option linter.unusedSimpArgs false

namespace OpenMPCD.Cache

/-! ## Effects of writing -/

theorem run_append (fs : Files) (a b : List Op) : run fs (a ++ b) = run (run fs a) b :=
  List.foldl_append

theorem run_appends (fs : Files) (p t acc : Str) (h : fs p = some acc) :
    run fs (t.map (.append p)) = Function.update fs p (some (acc ++ t)) := by
  induction t generalizing fs acc with
  | nil => simp [run, ← h]
  | cons c t ih =>
    rw [List.map_cons]
    show run (exec fs (.append p c)) _ = _
    rw [ih (exec fs (.append p c)) (acc ++ [c]) (by simp [exec, h])]
    funext q
    by_cases hq : q = p
    · subst hq; simp
    · simp [exec, Function.update_of_ne hq]

theorem run_writeOps (fs : Files) (p t : Str) :
    run fs (writeOps p t) = Function.update fs p (some t) := by
  show run (exec fs (.create p)) _ = _
  rw [run_appends _ p t [] (by simp [exec])]
  funext q
  by_cases hq : q = p
  · subst hq; simp
  · simp [exec, Function.update_of_ne hq]

/-- A write interrupted after the file has been created leaves a prefix of the text. -/
theorem run_writeOps_take (fs : Files) (p t : Str) (k : ℕ) :
    run fs ((writeOps p t).take (k + 1)) = Function.update fs p (some (t.take k)) := by
  have : (writeOps p t).take (k + 1) = writeOps p (t.take k) := by
    simp [writeOps, List.map_take]
  rw [this, run_writeOps]

/-! ## Reading back -/

theorem fileLines_line {s t : Str} (h : '\n' ∉ s) :
    fileLines (s ++ '\n' :: t) = (s ++ ['\n']) :: fileLines t := by
  induction s with
  | nil => simp [fileLines]
  | cons c cs ih =>
    simp only [List.mem_cons, not_or] at h
    rw [List.cons_append, fileLines, if_neg (Ne.symm h.1), ih h.2]
    rfl

theorem splitLine_entry {key value : Str} (hk : key ≠ []) (hks : ∀ c ∈ key, isSpace c = false)
    (hv : value.head?.any (fun c => !isSpace c) = true) :
    splitLine (key ++ '\t' :: value) = .ok (key, value) := by
  have t : ∀ (a : Str) (x : Char) (r : Str), (∀ c ∈ a, isSpace c = false) → isSpace x = true →
      (a ++ x :: r).takeWhile (fun c => !isSpace c) = a ∧
      (a ++ x :: r).dropWhile (fun c => !isSpace c) = x :: r := by
    intro a x r ha hx
    induction a with
    | nil => simp [hx]
    | cons c cs ih =>
      have := ih (fun y hy => ha y (by simp [hy]))
      simp [ha c (by simp), this]
  have h0 : (key ++ '\t' :: value).dropWhile isSpace = key ++ '\t' :: value := by
    cases key with
    | nil => exact absurd rfl hk
    | cons c cs => simp [hks c (by simp)]
  cases value with
  | nil => simp at hv
  | cons v vs =>
    have hv' : isSpace v = false := by simpa using hv
    have ht := t key '\t' (v :: vs) hks (by decide)
    unfold splitLine
    rw [h0]
    simp only [ht.1, ht.2]
    have : ('\t' :: v :: vs).dropWhile isSpace = v :: vs := by
      rw [List.dropWhile_cons_of_pos (by decide), List.dropWhile_cons_of_neg (by simp [hv'])]
    rw [this, if_neg (by simp)]

/-- Keys and values whose texts can be stored: keys without white space, values on one line which do
not begin with white space. -/
def Storable (kv : Str × Str) : Prop :=
  kv.1 ≠ [] ∧ (∀ c ∈ kv.1, isSpace c = false) ∧ kv.2.head?.any (fun c => !isSpace c) = true ∧
    '\n' ∉ kv.2

theorem dictSet_new {K V : Type} [DecidableEq K] (l : List (K × V)) (k : K) (v : V)
    (h : k ∉ l.map Prod.fst) : dictSet l k v = l ++ [(k, v)] := by
  induction l with
  | nil => rfl
  | cons x xs ih =>
    obtain ⟨k', v'⟩ := x
    simp only [List.map_cons, List.mem_cons, not_or] at h
    rw [dictSet, if_neg (fun e => h.1 e.symm), ih h.2]
    rfl

section roundtrip
variable {M K V : Type} [DecidableEq M] [DecidableEq K] (y : Yaml M) (c : CacheObj)
  (strK : K → Str) (strV : V → Str) (keyInterpreter : Str → Except PyErr K)
  (valueInterpreter : Str → Except PyErr V)

theorem readLines_dictText (data : List (K × V)) (hd : (data.map Prod.fst).Nodup)
    (hs : ∀ kv ∈ data, Storable (strK kv.1, strV kv.2))
    (hk : ∀ kv ∈ data, keyInterpreter (strK kv.1) = .ok kv.1)
    (hv : ∀ kv ∈ data, valueInterpreter (strV kv.2 ++ ['\n']) = .ok kv.2) :
    ∀ ret : List (K × V), (∀ kv ∈ data, kv.1 ∉ ret.map Prod.fst) →
    readLines keyInterpreter valueInterpreter
      (fileLines (dictText (data.map fun kv => (strK kv.1, strV kv.2)))) ret = .ok (ret ++ data) := by
  induction data with
  | nil => intro ret _; simp [dictText, fileLines, readLines]
  | cons kv data ih =>
    intro ret hret
    obtain ⟨k, v⟩ := kv
    obtain ⟨h1, h2, h3, h4⟩ := hs (k, v) (by simp)
    have e : dictText (((k, v) :: data).map fun kv => (strK kv.1, strV kv.2)) =
        (strK k ++ '\t' :: strV v) ++ '\n' ::
          dictText (data.map fun kv => (strK kv.1, strV kv.2)) := by
      simp [dictText]
    have hnl : '\n' ∉ strK k ++ '\t' :: strV v := by
      simp only [List.mem_append, List.mem_cons, not_or]
      refine ⟨fun hm => ?_, by decide, h4⟩
      have := h2 _ hm
      revert this
      decide
    have hsp : splitLine (strK k ++ '\t' :: strV v ++ ['\n']) = .ok (strK k, strV v ++ ['\n']) := by
      rw [List.append_assoc, List.cons_append]
      apply splitLine_entry h1 h2
      cases hvv : strV v with
      | nil => rw [hvv] at h3; simp at h3
      | cons a as => rw [hvv] at h3; simpa using h3
    rw [e, fileLines_line hnl, readLines, hsp]
    simp only [hk (k, v) (by simp), hv (k, v) (by simp)]
    rw [dictSet_new ret k v (hret (k, v) (by simp)), ih]
    · simp
    · simp only [List.map_cons, List.nodup_cons] at hd
      exact hd.2
    · exact fun x hx => hs x (by simp [hx])
    · exact fun x hx => hk x (by simp [hx])
    · exact fun x hx => hv x (by simp [hx])
    · intro x hx
      simp only [List.map_append, List.map_cons, List.map_nil, List.mem_append, List.mem_singleton,
        not_or]
      refine ⟨hret x (by simp [hx]), fun e => ?_⟩
      simp only [List.map_cons, List.nodup_cons] at hd
      exact hd.1 (e ▸ List.mem_map_of_mem hx)

theorem path_ne (p : Str) : p ≠ p ++ ".metadata".toList := by
  intro h
  have := congrArg List.length h
  simp at this

/-- C41 for stores which are not interrupted, with the default write path: afterwards there is data
under this name and metadata, and reading returns exactly the stored dictionary; other files are
unchanged. `strK` and `strV` are Python's `str`, which the interpreters have to undo.

What is missing for the full statement: interrupted stores, where it is false, see below. -/
theorem C41_completed_partial (hy : ∀ m, y.load (y.dump m) = some m) (hw : c.writePath = none)
    (fs : Files) (filename : Str) (metadata : M) (data : List (K × V))
    (hd : (data.map Prod.fst).Nodup) (hs : ∀ kv ∈ data, Storable (strK kv.1, strV kv.2))
    (hk : ∀ kv ∈ data, keyInterpreter (strK kv.1) = .ok kv.1)
    (hv : ∀ kv ∈ data, valueInterpreter (strV kv.2 ++ ['\n']) = .ok kv.2) :
    let fs' := run fs (storeOps y c filename
      (some (data.map fun kv => (strK kv.1, strV kv.2))) metadata)
    hasData y c fs' filename metadata = .ok true ∧
    (∀ m, m ≠ metadata → hasData y c fs' filename m = .ok false) ∧
    getDataOrderedDict y c fs' filename metadata keyInterpreter valueInterpreter = .ok data ∧
    (∀ p, p ≠ c.runPath ++ "/StarPolymers/post-processing/".toList ++ filename →
      p ≠ c.runPath ++ "/StarPolymers/post-processing/".toList ++ filename ++ ".metadata".toList →
      fs' p = fs p) := by
  intro fs'
  have hpath : getPostProcessingPath c true = getPostProcessingPath c false := by
    unfold getPostProcessingPath
    rw [hw]
  set filepath := getPostProcessingPath c false ++ "/".toList ++ filename with hfp
  set text := dictText (data.map fun kv => (strK kv.1, strV kv.2)) with htext
  have hfs' : fs' = Function.update (Function.update fs (filepath ++ ".metadata".toList)
      (some (y.dump metadata))) filepath (some text) := by
    simp only [fs', storeOps, run_append, run_writeOps, hpath, ← hfp, ← htext]
  have h1 : fs' (filepath ++ ".metadata".toList) = some (y.dump metadata) := by
    rw [hfs', Function.update_of_ne (Ne.symm (path_ne filepath)), Function.update_self]
  have h2 : fs' filepath = some text := by rw [hfs', Function.update_self]
  have hhas : ∀ m, hasData y c fs' filename m = .ok (metadata = m) := by
    intro m
    unfold hasData
    simp only [← hfp, h1, h2, hy]
  have hfp' : c.runPath ++ "/StarPolymers/post-processing/".toList ++ filename = filepath := by
    rw [hfp]
    simp only [getPostProcessingPath, List.append_assoc]
    rfl
  refine ⟨by rw [hhas]; simp, fun m hm => by rw [hhas]; simp [Ne.symm hm], ?_, fun p h1 h2 => by
    rw [hfp'] at h1 h2
    rw [hfs', Function.update_of_ne h1, Function.update_of_ne h2]⟩
  unfold getDataOrderedDict
  rw [hhas]
  simp only [decide_true, ← hfp, h2]
  rw [htext, readLines_dictText strK strV keyInterpreter valueInterpreter data hd hs hk hv [] (by simp)]
  rfl

/-- C41: data is only ever returned if `hasData` says that it is there. -/
theorem C41_no_data (fs : Files) (filename : Str) (metadata : M)
    (h : hasData y c fs filename metadata = .ok false) :
    getDataOrderedDict y c fs filename metadata keyInterpreter valueInterpreter =
      .error .runtimeError := by
  unfold getDataOrderedDict
  rw [h]

/-- C41 fails, in general: whatever is stored, if the process is interrupted while the data is being
written, `hasData` reports data, and what is on disk is just the first `k` characters. -/
theorem C41_interrupted_violated (hy : ∀ m, y.load (y.dump m) = some m) (hw : c.writePath = none)
    (fs : Files) (filename : Str) (metadata : M) (data : List (Str × Str)) (k : ℕ) :
    ∃ n, hasData y c (run fs ((storeOps y c filename (some data) metadata).take n)) filename
        metadata = .ok true ∧
      run fs ((storeOps y c filename (some data) metadata).take n)
        (getPostProcessingPath c false ++ "/".toList ++ filename) = some ((dictText data).take k) := by
  have hpath : getPostProcessingPath c true = getPostProcessingPath c false := by
    unfold getPostProcessingPath
    rw [hw]
  set filepath := getPostProcessingPath c false ++ "/".toList ++ filename with hfp
  set metaOps := writeOps (filepath ++ ".metadata".toList) (y.dump metadata) with hmeta
  refine ⟨metaOps.length + (k + 1), ?_⟩
  have hops : (storeOps y c filename (some data) metadata).take (metaOps.length + (k + 1)) =
      metaOps ++ (writeOps filepath (dictText data)).take (k + 1) := by
    simp only [storeOps, hpath, ← hfp, ← hmeta]
    rw [List.take_length_add_append]
  rw [hops, run_append, run_writeOps_take, hmeta, run_writeOps]
  have h1 : Function.update (Function.update fs (filepath ++ ".metadata".toList)
      (some (y.dump metadata))) filepath (some ((dictText data).take k))
      (filepath ++ ".metadata".toList) = some (y.dump metadata) := by
    rw [Function.update_of_ne (Ne.symm (path_ne filepath)), Function.update_self]
  refine ⟨?_, by rw [Function.update_self]⟩
  unfold hasData
  simp only [← hfp, h1, Function.update_self, hy, decide_true]

/-- C41 fails: an interruption between the two files leaves the data of an earlier store under the new
metadata; so does storing data of a type that is not supported, which raises only after the metadata
has been replaced. -/
theorem C41_stale_violated (hy : ∀ m, y.load (y.dump m) = some m) (hw : c.writePath = none)
    (fs : Files) (filename : Str) (metadata : M) (old : Str)
    (hold : fs (getPostProcessingPath c false ++ "/".toList ++ filename) = some old) :
    let fs' := run fs (storeOps y c filename none metadata)
    hasData y c fs' filename metadata = .ok true ∧
    fs' (getPostProcessingPath c false ++ "/".toList ++ filename) = some old := by
  intro fs'
  have hpath : getPostProcessingPath c true = getPostProcessingPath c false := by
    unfold getPostProcessingPath
    rw [hw]
  set filepath := getPostProcessingPath c false ++ "/".toList ++ filename with hfp
  have hfs' : fs' = Function.update fs (filepath ++ ".metadata".toList)
      (some (y.dump metadata)) := by
    simp only [fs', storeOps, run_append, run_writeOps, hpath, ← hfp]
    rfl
  have h1 : fs' (filepath ++ ".metadata".toList) = some (y.dump metadata) := by
    rw [hfs', Function.update_self]
  have h2 : fs' filepath = some old := by
    rw [hfs', Function.update_of_ne (path_ne filepath), hold]
  refine ⟨?_, h2⟩
  unfold hasData
  simp only [← hfp, h1, h2, hy, decide_true]

/-- C41 fails with a separate write path: what is stored there is never looked up. -/
theorem C41_writePath_violated (w : Str) (hw : c.writePath = some w) (fs : Files) (filename : Str)
    (metadata : M) (data : List (Str × Str))
    (hne : ∀ s t : Str, w ++ "/".toList ++ filename ++ s ≠
      getPostProcessingPath c false ++ "/".toList ++ filename ++ t)
    (hno : fs (getPostProcessingPath c false ++ "/".toList ++ filename) = none) :
    hasData y c (run fs (storeOps y c filename (some data) metadata)) filename metadata =
      .ok false := by
  have hpath : getPostProcessingPath c true = w := by
    unfold getPostProcessingPath
    rw [hw]
  have h2 : run fs (storeOps y c filename (some data) metadata)
      (getPostProcessingPath c false ++ "/".toList ++ filename) = none := by
    simp only [storeOps, run_append, run_writeOps, hpath]
    rw [Function.update_of_ne, Function.update_of_ne, hno]
    · intro e
      exact hne ".metadata".toList [] (by rw [List.append_nil]; exact e.symm)
    · intro e
      exact hne [] [] (by rw [List.append_nil, List.append_nil]; exact e.symm)
  unfold hasData
  simp only [h2]
  cases run fs (storeOps y c filename (some data) metadata)
    (getPostProcessingPath c false ++ "/".toList ++ filename ++ ".metadata".toList) <;> rfl

end roundtrip

/-- The hypotheses of `C41_completed_partial` can be met: one-character keys and values. -/
example : ∃ (y : Yaml Str) (c : CacheObj) (data : List (Char × Char)), data.length = 2 ∧
    (∀ m, y.load (y.dump m) = some m) ∧ c.writePath = none ∧ (data.map Prod.fst).Nodup ∧
    (∀ kv ∈ data, Storable ([kv.1], [kv.2])) ∧
    (∀ kv ∈ data, (fun s : Str => (Except.ok (s.headD ' ') : Except PyErr Char)) [kv.1] = .ok kv.1) ∧
    (∀ kv ∈ data, (fun s : Str => (Except.ok (s.headD ' ') : Except PyErr Char)) ([kv.2] ++ ['\n']) =
      .ok kv.2) := by
  refine ⟨⟨id, some⟩, ⟨"/r".toList, none⟩, [('1', 'a'), ('2', 'b')], rfl, fun _ => rfl, rfl,
    by decide, ?_, ?_, ?_⟩
  · intro kv hkv
    simp only [List.mem_cons, List.not_mem_nil, or_false] at hkv
    rcases hkv with rfl | rfl <;> exact ⟨by decide, by decide, by decide, by decide⟩
  · intro kv _; rfl
  · intro kv _; rfl

/-- The hypotheses of `C41_writePath_violated` can be met. -/
example : ∃ (c : CacheObj) (w filename : Str), c.writePath = some w ∧
    ∀ s t : Str, w ++ "/".toList ++ filename ++ s ≠
      getPostProcessingPath c false ++ "/".toList ++ filename ++ t :=
  ⟨⟨"/r".toList, some "/w".toList⟩, "/w".toList, "f".toList, rfl, by
    intro s t h
    simp [getPostProcessingPath] at h⟩

end OpenMPCD.Cache
