import Mathlib.Data.List.Induction
import Verif.Cache.Props

/-!
# Cached star-polymer quantities (C107)

The base class of the star-polymer quantities (`Analysis/MPCDAnalysis/StarPolymersAnalysis/Base.py`), on top of the cache. What
the quantities are computed from (the snapshots and the configuration of the run) is one value, which changes when the run
goes on. Computing is an arbitrary function, which may raise an exception. Stores are not interrupted here (see C41), and,
where nothing else is said, data are written to where they are read from.
-/

set_option linter.unusedSectionVars false
set_option linter.unusedSimpArgs false
set_option linter.unusedVariables false

namespace OpenMPCD.Cache

variable {ι M K V D : Type} [DecidableEq ι] [DecidableEq M] [DecidableEq K]

/-! ## Model -/

/-- A quantity: what the derived classes define (`_getCacheFilename`, `_getCacheMetadata`, `_getCacheKeyInterpreter`,
`_getCacheValueInterpreter`, `_computeValueAsFunctionOfTime`), and how its keys and values are turned into text. -/
structure Quantity (M K V D : Type) where
  filename : Str
  metadata : M
  strK : K → Str
  strV : V → Str
  keyInterpreter : Str → Except PyErr K
  valueInterpreter : Str → Except PyErr V
  compute : D → Except PyErr (List (K × V))

/-- `_hasDataInCache` (`Analysis/MPCDAnalysis/StarPolymersAnalysis/Base.py:133-139`). -/
def hasDataInCache (y : Yaml M) (c : CacheObj) (q : Quantity M K V D) (fs : Files) : Except PyErr Bool :=
  hasData y c fs q.filename q.metadata

/-- `_storeDataInCache` (`Analysis/MPCDAnalysis/StarPolymersAnalysis/Base.py:142-148`). -/
def storeDataInCache (y : Yaml M) (c : CacheObj) (q : Quantity M K V D) (fs : Files) (data : List (K × V)) : Files :=
  run fs (storeOps y c q.filename (some (data.map fun kv => (q.strK kv.1, q.strV kv.2))) q.metadata)

/-- `_getDataInCache` (`Analysis/MPCDAnalysis/StarPolymersAnalysis/Base.py:169-187`). -/
def getDataInCache (y : Yaml M) (c : CacheObj) (q : Quantity M K V D) (fs : Files) : Except PyErr (List (K × V)) :=
  match hasDataInCache y c q fs with
  | .error e => .error e
  | .ok false => .error .runtimeError
  | .ok true => getDataOrderedDict y c fs q.filename q.metadata q.keyInterpreter q.valueInterpreter

/-- Computes and stores (`Analysis/MPCDAnalysis/StarPolymersAnalysis/Base.py:57-61,75-77`). -/
def computeAndStore (y : Yaml M) (c : CacheObj) (q : Quantity M K V D) (d : D) (fs : Files) :
    Files × Except PyErr (List (K × V)) :=
  match q.compute d with
  | .error e => (fs, .error e)
  | .ok data => (storeDataInCache y c q fs data, .ok data)

/-- `getValueAsFunctionOfTime` (`Analysis/MPCDAnalysis/StarPolymersAnalysis/Base.py:46-61`). -/
def getValueAsFunctionOfTime (y : Yaml M) (c : CacheObj) (q : Quantity M K V D) (d : D) (fs : Files) :
    Files × Except PyErr (List (K × V)) :=
  match hasDataInCache y c q fs with
  | .error e => (fs, .error e)
  | .ok true => (fs, getDataInCache y c q fs)
  | .ok false => computeAndStore y c q d fs

/-- `updateCache` (`Analysis/MPCDAnalysis/StarPolymersAnalysis/Base.py:64-77`). -/
def updateCache (y : Yaml M) (c : CacheObj) (q : Quantity M K V D) (d : D) (fs : Files) (forced : Bool) :
    Files × Except PyErr Unit :=
  if forced = true then ((computeAndStore y c q d fs).1, (computeAndStore y c q d fs).2.map fun _ => ())
  else
    match hasDataInCache y c q fs with
    | .error e => (fs, .error e)
    | .ok true => (fs, .ok ())
    | .ok false => ((computeAndStore y c q d fs).1, (computeAndStore y c q d fs).2.map fun _ => ())

/-- What happens in the course of time. -/
inductive Event (ι D : Type)
  | get (i : ι)
  | update (i : ι) (forced : Bool)
  /-- The simulation has gone on. -/
  | change (d : D)

/-- The files and the data of the run after an event, and the result of `getValueAsFunctionOfTime`. -/
def happen (y : Yaml M) (c : CacheObj) (q : ι → Quantity M K V D) (w : Files × D) :
    Event ι D → (Files × D) × Option (Except PyErr (List (K × V)))
  | .get i =>
    (((getValueAsFunctionOfTime y c (q i) w.2 w.1).1, w.2), some (getValueAsFunctionOfTime y c (q i) w.2 w.1).2)
  | .update i forced => (((updateCache y c (q i) w.2 w.1 forced).1, w.2), none)
  | .change d => ((w.1, d), none)

/-- The files and the data after a history. -/
def after (y : Yaml M) (c : CacheObj) (q : ι → Quantity M K V D) (w : Files × D) (h : List (Event ι D)) : Files × D :=
  h.foldl (fun w e => (happen y c q w e).1) w

/-- The names of the files of the quantities there are (`_getCacheFilename` in the files of
`Analysis/MPCDAnalysis/StarPolymersAnalysis`). -/
def filenames : List String :=
  ["acylindricity.txt", "asphericity.txt", "eckartAngularVelocityVectors.txt", "gyrationTensor.txt",
    "magneticClusterCount.txt", "orientationAngles.txt", "potentialEnergy.txt", "radiusOfGyration.txt",
    "relativeShapeAnisotropy.txt", "rotationFrequencies.txt"]

/-! ## Specification -/

/-- Where data of a quantity are looked for. -/
def path (c : CacheObj) (q : Quantity M K V D) : Str := getPostProcessingPath c false ++ "/".toList ++ q.filename

/-- Where data of a quantity are written to. -/
def writtenPath (c : CacheObj) (q : Quantity M K V D) : Str := getPostProcessingPath c true ++ "/".toList ++ q.filename

/-- The text for data. -/
def textOf (q : Quantity M K V D) (data : List (K × V)) : Str :=
  dictText (data.map fun kv => (q.strK kv.1, q.strV kv.2))

/-- No file is written that is looked at (`setWritePath`, `Analysis/MPCDAnalysis/StarPolymersAnalysis/Base.py:27-35`). -/
def Elsewhere (c : CacheObj) (q : ι → Quantity M K V D) : Prop :=
  ∀ i j, ∀ a ∈ [writtenPath c (q i), writtenPath c (q i) ++ ".metadata".toList],
    a ∉ [path c (q j), path c (q j) ++ ".metadata".toList]

/-- No two quantities use the same file. -/
def Separate (q : ι → Quantity M K V D) : Prop :=
  ∀ i j, (i ≠ j → (q i).filename ≠ (q j).filename) ∧ (q i).filename ≠ (q j).filename ++ ".metadata".toList

/-- What is obtained from the text written for data. -/
def reread (q : Quantity M K V D) (data : List (K × V)) : Except PyErr (List (K × V)) :=
  readLines q.keyInterpreter q.valueInterpreter (fileLines (dictText (data.map fun kv => (q.strK kv.1, q.strV kv.2)))) []

/-- The values of the quantity can be turned into text and back. -/
structure Faithful (q : Quantity M K V D) (data : List (K × V)) : Prop where
  nodup : (data.map Prod.fst).Nodup
  storable : ∀ kv ∈ data, Storable (q.strK kv.1, q.strV kv.2)
  key : ∀ kv ∈ data, q.keyInterpreter (q.strK kv.1) = .ok kv.1
  value : ∀ kv ∈ data, q.valueInterpreter (q.strV kv.2 ++ ['\n']) = .ok kv.2

/-- The data of the run after a history. -/
def current (d : D) (h : List (Event ι D)) : D :=
  h.foldl (fun d e => match e with
    | .change d' => d'
    | _ => d) d

/-- The memory of the quantities: of each, what has been computed last, if anything. It changes if the quantity is asked
for without having been computed yet, and by forced updates, provided that it can be computed. -/
def recall (q : ι → Quantity M K V D) (d : D) (h : List (Event ι D)) : D × (ι → Option (List (K × V))) :=
  h.foldl (fun s e => match e with
    | .change d' => (d', s.2)
    | .get i => (s.1, if (s.2 i).isSome then s.2 else
        match (q i).compute s.1 with
        | .ok data => Function.update s.2 i (some data)
        | .error _ => s.2)
    | .update i forced => (s.1, if forced = false ∧ (s.2 i).isSome then s.2 else
        match (q i).compute s.1 with
        | .ok data => Function.update s.2 i (some data)
        | .error _ => s.2)) (d, fun _ => none)

/-- After every change, the cache of the quantity has been updated by force. -/
def Refreshed (i : ι) (h : List (Event ι D)) : Prop :=
  ∀ h₁ d h₂, h = h₁ ++ .change d :: h₂ → .update i true ∈ h₂

/-! ## Proofs -/

/-- The files hold what is remembered. -/
def Holds (y : Yaml M) (c : CacheObj) (q : ι → Quantity M K V D) (fs : Files) (mem : ι → Option (List (K × V))) : Prop :=
  ∀ i, match mem i with
    | none => fs (path c (q i)) = none
    | some data => fs (path c (q i)) = some (textOf (q i) data) ∧
        fs (path c (q i) ++ ".metadata".toList) = some (y.dump (q i).metadata)

theorem store_eq {y : Yaml M} {c : CacheObj} (hw : c.writePath = none) (q : Quantity M K V D) (fs : Files)
    (data : List (K × V)) : storeDataInCache y c q fs data =
      Function.update (Function.update fs (path c q ++ ".metadata".toList) (some (y.dump q.metadata))) (path c q)
        (some (textOf q data)) := by
  have hpath : getPostProcessingPath c true = getPostProcessingPath c false := by
    unfold getPostProcessingPath; rw [hw]
  simp only [storeDataInCache, storeOps, run_append, run_writeOps, hpath, textOf, path]

theorem hasData_none {y : Yaml M} {c : CacheObj} {q : Quantity M K V D} {fs : Files} (h : fs (path c q) = none) :
    hasDataInCache y c q fs = .ok false := by
  unfold path at h
  unfold hasDataInCache hasData
  simp only [h]
  cases fs (getPostProcessingPath c false ++ "/".toList ++ q.filename ++ ".metadata".toList) <;> rfl

theorem hasData_some {y : Yaml M} {c : CacheObj} (hy : ∀ m, y.load (y.dump m) = some m) {q : Quantity M K V D}
    {fs : Files} {text : Str} (h : fs (path c q) = some text)
    (h' : fs (path c q ++ ".metadata".toList) = some (y.dump q.metadata)) :
    hasDataInCache y c q fs = .ok true := by
  unfold path at h h'
  unfold hasDataInCache hasData
  simp only [h, h', hy, decide_true]

theorem getData_some {y : Yaml M} {c : CacheObj} (hy : ∀ m, y.load (y.dump m) = some m) {q : Quantity M K V D}
    {fs : Files} {data : List (K × V)} (h : fs (path c q) = some (textOf q data))
    (h' : fs (path c q ++ ".metadata".toList) = some (y.dump q.metadata)) :
    getDataInCache y c q fs = reread q data := by
  have h1 := hasData_some hy h h'
  unfold getDataInCache
  rw [h1]
  simp only
  unfold getDataOrderedDict
  unfold hasDataInCache at h1
  rw [h1]
  unfold path at h
  simp only [h]
  rfl

theorem holds_store {y : Yaml M} {c : CacheObj} (hw : c.writePath = none) {q : ι → Quantity M K V D} (hq : Separate q)
    {fs : Files} {mem : ι → Option (List (K × V))} (h : Holds y c q fs mem) (i : ι) (data : List (K × V)) :
    Holds y c q (storeDataInCache y c (q i) fs data) (Function.update mem i (some data)) := by
  have hinj : ∀ a b : Str, getPostProcessingPath c false ++ "/".toList ++ a =
      getPostProcessingPath c false ++ "/".toList ++ b → a = b := fun a b e => List.append_cancel_left e
  have hinj' : ∀ j, path c (q j) ≠ path c (q i) ++ ".metadata".toList := by
    intro j e
    apply (hq j i).2
    unfold path at e
    rw [List.append_assoc _ (q i).filename] at e
    exact hinj _ _ e
  intro j
  rw [store_eq hw]
  by_cases hj : j = i
  · subst hj
    simp only [Function.update_self, true_and]
    rw [Function.update_of_ne (Ne.symm (path_ne _)), Function.update_self]
  · have hne : path c (q j) ≠ path c (q i) := fun e => (hq j i).1 hj (hinj _ _ e)
    have h1 : path c (q j) ++ ".metadata".toList ≠ path c (q i) := fun e => by
      apply (hq i j).2
      unfold path at e
      rw [List.append_assoc _ (q j).filename] at e
      exact (hinj _ _ e).symm
    have h2 : path c (q j) ++ ".metadata".toList ≠ path c (q i) ++ ".metadata".toList :=
      fun e => hne (List.append_cancel_right e)
    have := h j
    rw [Function.update_of_ne hj]
    cases hm : mem j with
    | none =>
      rw [hm] at this
      simp only at this ⊢
      rw [Function.update_of_ne hne, Function.update_of_ne (hinj' j), this]
    | some s =>
      rw [hm] at this
      simp only at this ⊢
      rw [Function.update_of_ne hne, Function.update_of_ne (hinj' j), Function.update_of_ne h1, Function.update_of_ne h2]
      exact this

theorem holds_compute {y : Yaml M} {c : CacheObj} (hw : c.writePath = none) {q : ι → Quantity M K V D} (hq : Separate q)
    {fs : Files} {mem : ι → Option (List (K × V))} (h : Holds y c q fs mem) (i : ι) (d : D) :
    Holds y c q (computeAndStore y c (q i) d fs).1 (match (q i).compute d with
      | .ok data => Function.update mem i (some data)
      | .error _ => mem) := by
  unfold computeAndStore
  cases (q i).compute d with
  | error e => exact h
  | ok data => exact holds_store hw hq h i data

theorem after_snoc (y : Yaml M) (c : CacheObj) (q : ι → Quantity M K V D) (w : Files × D) (h : List (Event ι D))
    (e : Event ι D) : after y c q w (h ++ [e]) = (happen y c q (after y c q w h) e).1 := by
  unfold after; rw [List.foldl_append]; rfl

theorem recall_snoc (q : ι → Quantity M K V D) (d : D) (h : List (Event ι D)) (e : Event ι D) :
    recall q d (h ++ [e]) = match e with
      | .change d' => (d', (recall q d h).2)
      | .get i => ((recall q d h).1, if ((recall q d h).2 i).isSome then (recall q d h).2 else
          match (q i).compute (recall q d h).1 with
          | .ok data => Function.update (recall q d h).2 i (some data)
          | .error _ => (recall q d h).2)
      | .update i forced => ((recall q d h).1, if forced = false ∧ ((recall q d h).2 i).isSome then (recall q d h).2 else
          match (q i).compute (recall q d h).1 with
          | .ok data => Function.update (recall q d h).2 i (some data)
          | .error _ => (recall q d h).2) := by
  unfold recall; rw [List.foldl_append]; cases e <;> rfl

theorem after_holds {y : Yaml M} {c : CacheObj} (hy : ∀ m, y.load (y.dump m) = some m) (hw : c.writePath = none)
    {q : ι → Quantity M K V D} (hq : Separate q) {fs : Files} (hfs : ∀ i, fs (path c (q i)) = none) (d : D)
    (h : List (Event ι D)) :
    (after y c q (fs, d) h).2 = (recall q d h).1 ∧ Holds y c q (after y c q (fs, d) h).1 (recall q d h).2 := by
  induction h using List.reverseRecOn with
  | nil => exact ⟨rfl, fun i => hfs i⟩
  | append_singleton h e ih =>
    obtain ⟨ih1, ih2⟩ := ih
    rw [after_snoc, recall_snoc]
    cases e with
    | change d' => exact ⟨rfl, ih2⟩
    | get i =>
      refine ⟨ih1, ?_⟩
      simp only [happen]
      unfold getValueAsFunctionOfTime
      have hi := ih2 i
      cases hm : (recall q d h).2 i with
      | none =>
        rw [hm] at hi
        simp only at hi
        simp only [hasData_none hi, Option.isSome_none, Bool.false_eq_true, if_false, ih1]
        exact holds_compute hw hq ih2 i _
      | some s =>
        rw [hm] at hi
        simp only at hi
        simp only [hasData_some hy hi.1 hi.2, Option.isSome_some, if_true]
        exact ih2
    | update i forced =>
      refine ⟨ih1, ?_⟩
      simp only [happen]
      unfold updateCache
      cases forced with
      | true =>
        simp only [if_true, Bool.true_eq_false, false_and, if_false, ih1]
        exact holds_compute hw hq ih2 i _
      | false =>
        have hi := ih2 i
        cases hm : (recall q d h).2 i with
        | none =>
          rw [hm] at hi
          simp only at hi
          simp only [hasData_none hi, Option.isSome_none, Bool.false_eq_true, and_false, if_false, ih1]
          exact holds_compute hw hq ih2 i _
        | some s =>
          rw [hm] at hi
          simp only at hi
          simp only [hasData_some hy hi.1 hi.2, Option.isSome_some, and_self, if_true, Bool.false_eq_true, if_false]
          exact ih2

theorem current_recall (q : ι → Quantity M K V D) (d : D) (h : List (Event ι D)) : (recall q d h).1 = current d h := by
  induction h using List.reverseRecOn with
  | nil => rfl
  | append_singleton h e ih =>
    have : current d (h ++ [e]) = match e with
        | .change d' => d'
        | _ => current d h := by
      unfold current; rw [List.foldl_append]; cases e <;> rfl
    rw [recall_snoc, this]
    cases e <;> first | rfl | exact ih

/-- **C107.** Which values a quantity has after any history, if nothing was cached at first: if it has been computed before,
what is read back of what was computed last; otherwise what is computed now. -/
theorem C107_exact {y : Yaml M} {c : CacheObj} (hy : ∀ m, y.load (y.dump m) = some m) (hw : c.writePath = none)
    {q : ι → Quantity M K V D} (hq : Separate q) {fs : Files} (hfs : ∀ i, fs (path c (q i)) = none) (d : D)
    (h : List (Event ι D)) (i : ι) :
    (happen y c q (after y c q (fs, d) h) (.get i)).2 = some (match (recall q d h).2 i with
      | some data => reread (q i) data
      | none => (q i).compute (current d h)) := by
  obtain ⟨h1, h2⟩ := after_holds hy hw hq hfs d h
  have hi := h2 i
  simp only [happen, Option.some.injEq]
  unfold getValueAsFunctionOfTime
  cases hm : (recall q d h).2 i with
  | none =>
    rw [hm] at hi
    simp only at hi
    simp only [hasData_none hi, h1, current_recall]
    unfold computeAndStore
    cases (q i).compute (current d h) <;> rfl
  | some s =>
    rw [hm] at hi
    simp only at hi
    simp only [hasData_some hy hi.1 hi.2]
    exact getData_some hy hi.1 hi.2

theorem reread_faithful {q : Quantity M K V D} {data : List (K × V)} (h : Faithful q data) : reread q data = .ok data := by
  unfold reread
  rw [readLines_dictText q.strK q.strV q.keyInterpreter q.valueInterpreter data h.nodup h.storable h.key h.value [] (by simp)]
  rfl

theorem recall_refreshed (q : ι → Quantity M K V D) (d : D) (h : List (Event ι D)) (i : ι) (hr : Refreshed i h)
    {data : List (K × V)} (hc : (q i).compute (current d h) = .ok data) :
    (recall q d h).2 i = none ∨ (recall q d h).2 i = some data := by
  induction h using List.reverseRecOn with
  | nil => exact Or.inl rfl
  | append_singleton h e ih =>
    have hcur : current d (h ++ [e]) = match e with
        | .change d' => d'
        | _ => current d h := by
      unfold current; rw [List.foldl_append]; cases e <;> rfl
    rw [hcur] at hc
    rw [recall_snoc]
    cases e with
    | change d' =>
      have := hr h d' [] rfl
      simp at this
    | get j =>
      have hr' : Refreshed i h := by
        intro h₁ d' h₂ heq
        have := hr h₁ d' (h₂ ++ [.get j]) (by rw [heq]; simp)
        simpa using this
      have := ih hr' hc
      simp only
      split
      · exact this
      · rename_i hs
        by_cases hj : i = j
        · subst hj
          rw [current_recall, hc]
          right; simp
        · cases (q j).compute (recall q d h).1 with
          | error e => exact this
          | ok s => simp only [Function.update_of_ne hj]; exact this
    | update j forced =>
      simp only
      by_cases hj : i = j
      · subst hj
        rw [current_recall, hc]
        cases forced with
        | true => right; simp
        | false =>
          have hr' : Refreshed i h := by
            intro h₁ d' h₂ heq
            have := hr h₁ d' (h₂ ++ [.update i false]) (by rw [heq]; simp)
            simpa using this
          split
          · exact ih hr' hc
          · right; simp
      · have hr' : Refreshed i h := by
          intro h₁ d' h₂ heq
          have := hr h₁ d' (h₂ ++ [.update j forced]) (by rw [heq]; simp)
          simpa [hj] using this
        have := ih hr' hc
        split
        · exact this
        · cases (q j).compute (recall q d h).1 with
          | error e => exact this
          | ok s => simp only [Function.update_of_ne hj]; exact this

/-- **C107.** After a history in which every change of the run's data has been followed by a forced update, a quantity has
the values it would have if computed now, if these can be turned into text and back.

What is missing for the full statement: it is false without forced updates, and for values that cannot be read back, see
below. -/
theorem C107_partial {y : Yaml M} {c : CacheObj} (hy : ∀ m, y.load (y.dump m) = some m) (hw : c.writePath = none)
    {q : ι → Quantity M K V D} (hq : Separate q) {fs : Files} (hfs : ∀ i, fs (path c (q i)) = none) (d : D)
    (h : List (Event ι D)) (i : ι) (hr : Refreshed i h) {data : List (K × V)}
    (hc : (q i).compute (current d h) = .ok data) (hf : Faithful (q i) data) :
    (happen y c q (after y c q (fs, d) h) (.get i)).2 = some (.ok data) := by
  rw [C107_exact hy hw hq hfs]
  rcases recall_refreshed q d h i hr hc with e | e
  · rw [e]; simp only [hc]
  · rw [e]; simp only [reread_faithful hf]

/-- The quantities there are use files of their own. -/
theorem C107_filenames : filenames.Nodup ∧ ∀ a ∈ filenames, ∀ b ∈ filenames, a.toList ≠ b.toList ++ ".metadata".toList := by
  decide +kernel

/-- **C107** fails once the run has gone on: whatever is asked for, and whatever is updated without force, the values
remain the old ones. -/
theorem C107_stale_violated {y : Yaml M} {c : CacheObj} (hy : ∀ m, y.load (y.dump m) = some m) (hw : c.writePath = none)
    {q : ι → Quantity M K V D} (hq : Separate q) {fs : Files} (hfs : ∀ i, fs (path c (q i)) = none) (d d' : D) (i : ι)
    {data : List (K × V)} (hc : (q i).compute d = .ok data) (hf : Faithful (q i) data)
    (h : List (Event ι D)) (hh : ∀ j, .update j true ∉ h) :
    (happen y c q (after y c q (fs, d) (.get i :: .change d' :: h)) (.get i)).2 = some (.ok data) := by
  rw [C107_exact hy hw hq hfs]
  have key : (recall q d (.get i :: .change d' :: h)).2 i = some data := by
    induction h using List.reverseRecOn with
    | nil => simp [recall, hc]
    | append_singleton h e ih =>
      have ih := ih fun j hj => hh j (by simp [hj])
      have e1 : (Event.get i :: .change d' :: (h ++ [e]) : List (Event ι D)) = (.get i :: .change d' :: h) ++ [e] := by simp
      rw [e1, recall_snoc]
      cases e with
      | change d'' => exact ih
      | get j =>
        simp only
        split
        · exact ih
        · rename_i hs
          have hj : i ≠ j := by rintro rfl; rw [ih] at hs; simp at hs
          cases (q j).compute (recall q d (.get i :: .change d' :: h)).1 with
          | error e => exact ih
          | ok s => simp only [Function.update_of_ne hj]; exact ih
      | update j forced =>
        have hfo : forced = false := by
          cases forced with
          | false => rfl
          | true => exact absurd (by simp) (hh j)
        subst hfo
        simp only
        split
        · exact ih
        · rename_i hs
          have hj : i ≠ j := by rintro rfl; rw [ih] at hs; simp at hs
          cases (q j).compute (recall q d (.get i :: .change d' :: h)).1 with
          | error e => exact ih
          | ok s => simp only [Function.update_of_ne hj]; exact ih
  rw [key]
  simp only [reread_faithful hf]

/-- **C107** fails for values that cannot be read back (such as lists with `nan` in them, which `ast.literal_eval` does not
accept): asking for them the first time gives them, asking for them again raises an exception, even if nothing has changed,
and after updates without force. -/
theorem C107_unreadable_violated {y : Yaml M} {c : CacheObj} (hy : ∀ m, y.load (y.dump m) = some m)
    (hw : c.writePath = none) {q : ι → Quantity M K V D} (hq : Separate q) {fs : Files}
    (hfs : ∀ i, fs (path c (q i)) = none) (d : D) (i : ι) {data : List (K × V)} (hc : (q i).compute d = .ok data)
    {e : PyErr} (he : reread (q i) data = .error e) :
    (happen y c q (after y c q (fs, d) []) (.get i)).2 = some (.ok data) ∧
    (happen y c q (after y c q (fs, d) [.get i]) (.get i)).2 = some (.error e) ∧
    (happen y c q (after y c q (fs, d) [.get i, .update i false]) (.get i)).2 = some (.error e) := by
  refine ⟨?_, ?_, ?_⟩ <;> rw [C107_exact hy hw hq hfs] <;> simp [recall, current, hc, he]

theorem store_elsewhere {y : Yaml M} {c : CacheObj} {q : ι → Quantity M K V D} (he : Elsewhere c q) (fs : Files) (i j : ι)
    (data : List (K × V)) :
    storeDataInCache y c (q i) fs data (path c (q j)) = fs (path c (q j)) ∧
    storeDataInCache y c (q i) fs data (path c (q j) ++ ".metadata".toList) = fs (path c (q j) ++ ".metadata".toList) := by
  have e : storeDataInCache y c (q i) fs data =
      Function.update (Function.update fs (writtenPath c (q i) ++ ".metadata".toList) (some (y.dump (q i).metadata)))
        (writtenPath c (q i)) (some (textOf (q i) data)) := by
    simp only [storeDataInCache, storeOps, run_append, run_writeOps, textOf, writtenPath]
  have h1 := he i j _ (List.mem_cons_self ..)
  have h2 := he i j _ (List.mem_cons_of_mem _ (List.mem_cons_self ..))
  simp only [List.mem_cons, List.not_mem_nil, or_false, not_or] at h1 h2
  rw [e]
  constructor
  · rw [Function.update_of_ne (Ne.symm h1.1), Function.update_of_ne (Ne.symm h2.1)]
  · rw [Function.update_of_ne (Ne.symm h1.2), Function.update_of_ne (Ne.symm h2.2)]

theorem compute_elsewhere {y : Yaml M} {c : CacheObj} {q : ι → Quantity M K V D} (he : Elsewhere c q) (fs : Files) (i j : ι)
    (d : D) :
    (computeAndStore y c (q i) d fs).1 (path c (q j)) = fs (path c (q j)) ∧
    (computeAndStore y c (q i) d fs).1 (path c (q j) ++ ".metadata".toList) = fs (path c (q j) ++ ".metadata".toList) := by
  unfold computeAndStore
  cases (q i).compute d with
  | error e => exact ⟨rfl, rfl⟩
  | ok data => exact store_elsewhere he fs i j data

theorem after_elsewhere {y : Yaml M} {c : CacheObj} {q : ι → Quantity M K V D} (he : Elsewhere c q) (fs : Files) (d : D)
    (h : List (Event ι D)) (j : ι) :
    (after y c q (fs, d) h).1 (path c (q j)) = fs (path c (q j)) ∧
    (after y c q (fs, d) h).1 (path c (q j) ++ ".metadata".toList) = fs (path c (q j) ++ ".metadata".toList) ∧
    (after y c q (fs, d) h).2 = current d h := by
  induction h using List.reverseRecOn with
  | nil => exact ⟨rfl, rfl, rfl⟩
  | append_singleton h e ih =>
    obtain ⟨i1, i2, i3⟩ := ih
    have hcur : current d (h ++ [e]) = match e with
        | .change d' => d'
        | _ => current d h := by
      unfold current; rw [List.foldl_append]; cases e <;> rfl
    rw [after_snoc, hcur]
    cases e with
    | change d' => exact ⟨i1, i2, rfl⟩
    | get i =>
      simp only [happen]
      unfold getValueAsFunctionOfTime
      have hc := compute_elsewhere (y := y) he (after y c q (fs, d) h).1 i j (after y c q (fs, d) h).2
      cases hasDataInCache y c (q i) (after y c q (fs, d) h).1 with
      | error e => exact ⟨i1, i2, i3⟩
      | ok b => cases b with
        | true => exact ⟨i1, i2, i3⟩
        | false => exact ⟨hc.1.trans i1, hc.2.trans i2, i3⟩
    | update i forced =>
      simp only [happen]
      unfold updateCache
      have hc := compute_elsewhere (y := y) he (after y c q (fs, d) h).1 i j (after y c q (fs, d) h).2
      cases forced with
      | true => exact ⟨hc.1.trans i1, hc.2.trans i2, i3⟩
      | false =>
        cases hasDataInCache y c (q i) (after y c q (fs, d) h).1 with
        | error e => exact ⟨i1, i2, i3⟩
        | ok b => cases b with
          | true => exact ⟨i1, i2, i3⟩
          | false => exact ⟨hc.1.trans i1, hc.2.trans i2, i3⟩

/-- **C107.** If data are written elsewhere, and none are where they are looked for, a quantity always has the values it
would have if computed now. -/
theorem C107_elsewhere {y : Yaml M} {c : CacheObj} {q : ι → Quantity M K V D} (he : Elsewhere c q) {fs : Files} (i : ι)
    (hfs : fs (path c (q i)) = none) (d : D) (h : List (Event ι D)) :
    (happen y c q (after y c q (fs, d) h) (.get i)).2 = some ((q i).compute (current d h)) := by
  obtain ⟨h1, h2, h3⟩ := after_elsewhere (y := y) he fs d h i
  simp only [happen, Option.some.injEq]
  unfold getValueAsFunctionOfTime
  simp only [hasData_none (h1.trans hfs), h3]
  unfold computeAndStore
  cases (q i).compute (current d h) <;> rfl

/-- **C107** fails if data are written elsewhere and old ones are where they are looked for: the values remain the old ones
after every history, forced updates included. -/
theorem C107_elsewhere_violated {y : Yaml M} {c : CacheObj} (hy : ∀ m, y.load (y.dump m) = some m)
    {q : ι → Quantity M K V D} (he : Elsewhere c q) {fs : Files} (i : ι) {data : List (K × V)}
    (hfs : fs (path c (q i)) = some (textOf (q i) data))
    (hm : fs (path c (q i) ++ ".metadata".toList) = some (y.dump (q i).metadata)) (hf : Faithful (q i) data) (d : D)
    (h : List (Event ι D)) :
    (happen y c q (after y c q (fs, d) h) (.get i)).2 = some (.ok data) := by
  obtain ⟨h1, h2, h3⟩ := after_elsewhere (y := y) he fs d h i
  simp only [happen, Option.some.injEq]
  unfold getValueAsFunctionOfTime
  simp only [hasData_some hy (h1.trans hfs) (h2.trans hm)]
  rw [getData_some hy (h1.trans hfs) (h2.trans hm), reread_faithful hf]

/-! ## Examples -/

/-- Two quantities with one-character texts: the length of the data, and a value that cannot be read back. -/
def sampleQuantities : Bool → Quantity Unit Char Char ℕ
  | false => ⟨"a".toList, (), fun k => [k], fun v => [v], fun s => .ok (s.headD ' '), fun s => .ok (s.headD ' '),
      fun n => .ok [('1', if n = 0 then 'x' else 'y')]⟩
  | true => ⟨"b".toList, (), fun k => [k], fun v => [v], fun s => .ok (s.headD ' '), fun _ => .error .valueError,
      fun _ => .ok [('1', 'n')]⟩

/-- The hypotheses of the theorems can be met. -/
example : Separate sampleQuantities ∧ Faithful (sampleQuantities false) [('1', 'x')] ∧
    (sampleQuantities false).compute 0 = .ok [('1', 'x')] ∧
    Refreshed false [.get false, .change 5, .get true, .update false true, .get false] ∧
    reread (sampleQuantities true) [('1', 'n')] = .error .valueError := by
  refine ⟨?_, ⟨by simp, ?_, ?_, ?_⟩, rfl, ?_, rfl⟩
  · intro i j
    cases i <;> cases j <;> decide
  · intro kv hkv
    simp only [List.mem_singleton] at hkv
    subst hkv
    unfold Storable sampleQuantities
    decide
  · intro kv hkv
    simp only [List.mem_singleton] at hkv
    subst hkv
    rfl
  · intro kv hkv
    simp only [List.mem_singleton] at hkv
    subst hkv
    rfl
  · intro h₁ d h₂ heq
    match h₁, heq with
    | [_], heq =>
      simp only [List.cons_append, List.nil_append, List.cons.injEq] at heq
      rw [← heq.2.2]; simp
    | [], heq => simp at heq
    | [_, _], heq => simp at heq
    | [_, _, _], heq => simp at heq
    | [_, _, _, _], heq => simp at heq
    | _ :: _ :: _ :: _ :: _ :: l, heq => simp at heq

/-- Data can be written elsewhere. -/
example : Elsewhere ⟨"r".toList, some "w".toList⟩ sampleQuantities := by
  intro i j
  cases i <;> cases j <;> decide

end OpenMPCD.Cache
