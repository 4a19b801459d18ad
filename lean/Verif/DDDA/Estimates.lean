import Verif.DDDA.Overflow
import Mathlib.Tactic.Linarith
import Mathlib.Tactic.FieldSimp
import Mathlib.Tactic.LinearCombination

/-!
# Uncertainties, reliability, plots, comparison and text of `OnTheFlyStatisticsDDDA` (C140)

Numbers are exact (elements of an ordered field, or real numbers where square roots are taken).
-/

set_option linter.unusedSectionVars false
set_option linter.unusedSimpArgs false
set_option linter.unusedVariables false
set_option linter.dupNamespace false

namespace OpenMPCD.DDDA.Estimates

open Stats

variable {K : Type} [Field K] [LinearOrder K] [IsStrictOrderedRing K]

/-! ## Model -/

/-- `getBlockStandardDeviation(blockID)`, `Analysis/MPCDAnalysis/OnTheFlyStatisticsDDDA.py:210-228`. As for the other
functions of a block, the argument is a non-negative integer. -/
noncomputable def getBlockStandardDeviation (d : DDDA ℝ) (blockID : ℕ) : Except PyErr ℝ := do
  let v ← getBlockVariance d blockID
  .ok (Real.sqrt v)

/-- `getSampleStandardDeviation()`, `OnTheFlyStatisticsDDDA.py:231-240`. -/
noncomputable def getSampleStandardDeviation (d : DDDA ℝ) : Except PyErr ℝ := getBlockStandardDeviation d 0

/-- `getEstimatedStandardDeviationOfBlockStandardErrorOfTheMean(blockID)`, `OnTheFlyStatisticsDDDA.py:269-302`. -/
noncomputable def getEstimatedDeviation (d : DDDA ℝ) (blockID : ℕ) : Except PyErr ℝ := do
  let h ← hasBlockVariance d blockID
  if ¬ h then .error .runtimeError else
  let se ← getBlockStandardErrorOfTheMean d blockID
  match d[blockID]? with
  | none => .error .indexError
  | some (b, _) => .ok (se / Real.sqrt (2 * (b.getSampleSize : ℝ)))

/-- `optimalStandardErrorOfTheMeanEstimateIsReliable()`, `OnTheFlyStatisticsDDDA.py:354-375`. The block ID is never negative
(C06), so that `2 ** blockID` is an integer. -/
noncomputable def isReliable (d : DDDA ℝ) : Except PyErr Bool := do
  let blockID ← getOptimalBlockID d
  let n ← getSampleSize d
  .ok (decide (50 * 2 ^ blockID.toNat < n))

/-- The loops of `getMPLAxes`, `OnTheFlyStatisticsDDDA.py:502-507,514-517`: the results of `f` for the blocks with a variance. -/
def collect {α : Type} (d : DDDA ℝ) (f : ℕ → Except PyErr α) : List ℕ → Except PyErr (List α)
  | [] => .ok []
  | k :: ks => do
    let h ← hasBlockVariance d k
    if ¬ h then collect d f ks else
    let a ← f k
    let as ← collect d f ks
    .ok (a :: as)

/-- `getMPLAxes(showEstimatedStandardDeviation)`, `OnTheFlyStatisticsDDDA.py:476-524`: the horizontal coordinates, the
vertical coordinates, and the error bars (if any) handed to `errorbar`. -/
noncomputable def getMPLAxes (d : DDDA ℝ) (showSD : Bool) : Except PyErr (List ℕ × List ℝ × Option (List ℝ)) := do
  let ks := List.range (getMaximumBlockID d + 1)
  let blockSizes ← collect d (fun k => .ok k) ks
  let values ← collect d (getBlockStandardErrorOfTheMean d) ks
  if showSD then do
    let errorbars ← collect d (getEstimatedDeviation d) ks
    .ok (blockSizes, values, some errorbars)
  else .ok (blockSizes, values, none)

/-- The objects an instance can be compared with. -/
inductive Obj (K : Type)
  | ddda (d : DDDA K)
  | other

/-- `__eq__(rhs)`, `OnTheFlyStatisticsDDDA.py:527-542`: the lists `_blocks` and `_waiting` are compared, the former with
`OnTheFlyStatistics.__eq__`, `Analysis/MPCDAnalysis/OnTheFlyStatistics.py:251-265`, which compares `n`, `M` and `S`. -/
def eq (d : DDDA K) : Obj K → Except PyErr Bool
  | .other => .error .typeError
  | .ddda e =>
    .ok (((d.map fun p => (p.1.n, p.1.M, p.1.S)) == (e.map fun p => (p.1.n, p.1.M, p.1.S))) && ((d.map Prod.snd) == (e.map Prod.snd)))

/-- `__ne__(rhs)`, `OnTheFlyStatisticsDDDA.py:545-556`. -/
def ne (d : DDDA K) (o : Obj K) : Except PyErr Bool := do
  let b ← eq d o
  .ok (!b)

/-- `__repr__()`, `OnTheFlyStatisticsDDDA.py:559-576`, for any functions `strN`, `str` that print integers and numbers. -/
noncomputable def repr (strN : ℕ → List Char) (str : ℝ → List Char) (d : DDDA ℝ) : Except PyErr (List Char) := do
  let n ← getSampleSize d
  let head := "OnTheFlyStatisticsDDDA: {".toList ++ "Size: ".toList ++ strN n
  if ¬ 1 ≤ n then .ok (head ++ "}\n".toList) else
  let m ← getSampleMean d
  let head := head ++ ", Mean: ".toList ++ str m
  if ¬ 2 ≤ n then .ok (head ++ "}\n".toList) else
  let v ← getBlockVariance d 0
  let v' ← getBlockVariance d 0
  .ok (head ++ ", Standard Deviation [blockID=0]: ".toList ++ str (Real.sqrt v) ++ ", Variance [blockID=0]: ".toList ++ str v' ++
    "}\n".toList)

/-! ## Specification -/

/-- What can be asked about the data: their number and mean, the number of blocks, and the blocks' variances. -/
def Same (d e : DDDA K) : Prop :=
  getSampleSize d = getSampleSize e ∧ getSampleMean d = getSampleMean e ∧ getMaximumBlockID d = getMaximumBlockID e ∧
    ∀ k, hasBlockVariance d k = hasBlockVariance e k ∧ getBlockVariance d k = getBlockVariance e k

/-- Two objects behave in the same way: whatever data are added to both, the answers are the same. -/
def Indistinguishable (d e : DDDA K) : Prop := ∀ ys : List K, Same (ys.foldl addDatum d) (ys.foldl addDatum e)

/-! ## Uncertainties -/

theorem se_feed (xs : List ℝ) (k : ℕ) (h : 2 * 2 ^ k ≤ xs.length) :
    getBlockStandardErrorOfTheMean (feedD xs) k =
      .ok (Real.sqrt (Spec.variance (Spec.groupMeans (2 ^ k) xs) / (xs.length / 2 ^ k : ℕ))) := C05_blockStandardError xs k h

/-- C140: the standard deviations reported are the square roots of the sample variances of the averages of groups of `2 ^ k` data;
there is an exception exactly if there are fewer than two groups. -/
theorem C140_standardDeviation (xs : List ℝ) (k : ℕ) :
    getBlockStandardDeviation (feedD xs) k =
      (if 2 * 2 ^ k ≤ xs.length then .ok (Real.sqrt (Spec.variance (Spec.groupMeans (2 ^ k) xs)))
      else if k = 0 ∨ 2 ^ k ≤ xs.length then .error .runtimeError else .error .valueError) ∧
    getSampleStandardDeviation (feedD xs) =
      if 2 ≤ xs.length then .ok (Real.sqrt (Spec.variance xs)) else .error .runtimeError := by
  constructor
  · unfold getBlockStandardDeviation
    rw [C05_blockVariance]
    split
    · rfl
    · split <;> rfl
  · unfold getSampleStandardDeviation getBlockStandardDeviation
    rw [C05_blockVariance, pow_zero, mul_one, groupMeans_one]
    simp only [true_or, if_true]
    split <;> rfl

/-- C140: the uncertainty reported for the standard error of block `k`, which is computed from `m` groups of data, is the standard error
divided by `sqrt (2 m)`; there is an exception exactly if there are fewer than two groups. -/
theorem C140_uncertainty (xs : List ℝ) (k : ℕ) :
    getEstimatedDeviation (feedD xs) k =
      if 2 * 2 ^ k ≤ xs.length then
        .ok (Real.sqrt (Spec.variance (Spec.groupMeans (2 ^ k) xs) / (xs.length / 2 ^ k : ℕ)) / Real.sqrt (2 * (xs.length / 2 ^ k : ℕ)))
      else if k = 0 ∨ 2 ^ k ≤ xs.length then .error .runtimeError else .error .valueError := by
  unfold getEstimatedDeviation
  rw [C05_hasBlockVariance]
  by_cases h : 2 * 2 ^ k ≤ xs.length
  · have h' : k = 0 ∨ 2 ^ k ≤ xs.length := Or.inr (by omega)
    simp only [h, h', if_true, bind, Except.bind, decide_true, not_true, if_false, se_feed xs k h, feedD_getElem?,
      OTFS.getSampleSize, feed_n, groupMeans_length]
  · by_cases h' : k = 0 ∨ 2 ^ k ≤ xs.length
    · simp only [h, h', if_true, if_false, bind, Except.bind, decide_false, Bool.false_eq_true, not_false_eq_true]
    · simp only [h, h', if_false, bind, Except.bind]

/-- C140: the uncertainty is never negative, at most half of the standard error it belongs to, and is less than
the value with `m - 1` (the number of degrees of freedom) in place of the number `m` of groups, but at least that divided by `sqrt 2`. -/
theorem C140_uncertainty_bounds (se : ℝ) (hse : 0 < se) (m : ℕ) (hm : 2 ≤ m) :
    0 < se / Real.sqrt (2 * (m : ℝ)) ∧ se / Real.sqrt (2 * (m : ℝ)) ≤ se / 2 ∧
    se / Real.sqrt (2 * (m : ℝ)) < se / Real.sqrt (2 * ((m : ℝ) - 1)) ∧
    se / Real.sqrt (2 * ((m : ℝ) - 1)) ≤ Real.sqrt 2 * (se / Real.sqrt (2 * (m : ℝ))) := by
  have hm' : (2 : ℝ) ≤ m := by exact_mod_cast hm
  have h1 : 0 < Real.sqrt (2 * (m : ℝ)) := Real.sqrt_pos.mpr (by linarith)
  have h2 : 0 < Real.sqrt (2 * ((m : ℝ) - 1)) := Real.sqrt_pos.mpr (by linarith)
  refine ⟨by positivity, ?_, ?_, ?_⟩
  · apply div_le_div_of_nonneg_left hse.le (by norm_num)
    apply Real.le_sqrt_of_sq_le
    linarith
  · exact div_lt_div_of_pos_left hse h2 (Real.sqrt_lt_sqrt (by linarith) (by linarith))
  · rw [← mul_div_assoc, div_le_div_iff₀ h2 h1]
    have h3 : Real.sqrt (2 * (m : ℝ)) ≤ Real.sqrt 2 * Real.sqrt (2 * ((m : ℝ) - 1)) := by
      rw [← Real.sqrt_mul (by norm_num)]
      exact Real.sqrt_le_sqrt (by linarith)
    calc se * Real.sqrt (2 * (m : ℝ)) ≤ se * (Real.sqrt 2 * Real.sqrt (2 * ((m : ℝ) - 1))) := by gcongr
      _ = Real.sqrt 2 * se * Real.sqrt (2 * ((m : ℝ) - 1)) := by ring

/-! ## Reliability -/

theorem reach_hist {d : DDDA ℝ} {D : List ℝ} (h : Reach d D) : Hist d := by
  induction h with
  | init => exact .init
  | add x _ ih => exact .add x ih
  | merge _ _ hm ih1 ih2 => exact .merge ih1 ih2 hm

/-- C140: after any additions and merges of distinct objects, the question whether the estimate is reliable raises `RuntimeError` if there
are fewer than two data, and otherwise has an answer. If the answer is yes, the estimate is based on at least 50 groups of data, and
unless the data do not vary at all, the size of the groups fulfils the criterion for being large compared to the correlations, while
no smaller size does. -/
theorem C140_reliable {d : DDDA ℝ} {D : List ℝ} (h : Reach d D) :
    (D.length < 2 → isReliable d = .error .runtimeError) ∧
    (2 ≤ D.length → ∃ (r : ℕ) (se0 : ℝ), getOptimalBlockID d = .ok (r : ℤ) ∧ getBlockStandardErrorOfTheMean d 0 = .ok se0 ∧
      isReliable d = .ok (decide (50 * 2 ^ r < D.length)) ∧
      (isReliable d = .ok true → 50 ≤ D.length / 2 ^ r ∧ (d[r]?).map (fun p => p.1.n) = some (D.length / 2 ^ r) ∧
        (se0 = 0 → r = 0) ∧ (se0 ≠ 0 → Criterion d r ∧ ∀ j < r, ¬ Criterion d j))) := by
  have hn : getSampleSize d = .ok D.length := by
    have := C07_sizes h 0
    cases d with
    | nil => simp at this
    | cons p d => obtain ⟨b, w⟩ := p; simpa [getSampleSize, OTFS.getSampleSize] using this
  constructor
  · intro h2
    simp only [isReliable, C06_tooFew _ hn h2, bind, Except.bind]
  · intro h2
    obtain ⟨se0, h0, r, hr, hv, hz, ho⟩ := C06_optimal (reach_hist h) _ hn h2
    have hrel : isReliable d = .ok (decide (50 * 2 ^ r < D.length)) := by
      simp only [isReliable, hr, hn, bind, Except.bind, Int.toNat_natCast]
    refine ⟨r, se0, hr, h0, hrel, fun ht => ?_⟩
    rw [hrel] at ht
    have hlt : 50 * 2 ^ r < D.length := by simpa using ht
    have hp : 0 < 2 ^ r := by positivity
    have h50 : 50 ≤ D.length / 2 ^ r := (Nat.le_div_iff_mul_le hp).mpr hlt.le
    refine ⟨h50, ?_, hz, fun hne => ?_⟩
    · rw [C07_sizes h r, if_pos (Or.inr (by omega))]
    · obtain ⟨-, hc | ⟨-, hmax⟩⟩ := ho hne
      · exact hc
      · exfalso
        apply hmax (r + 1) (Nat.lt_succ_self r)
        rw [C07_hasBlockVariance h, if_pos (Or.inr (by rw [pow_succ]; omega))]
        congr 1
        rw [decide_eq_true_iff, pow_succ]; omega

/-! ## Plots -/

theorem collect_ok {α : Type} (d : DDDA ℝ) (f : ℕ → Except PyErr α) (ks : List ℕ) (hb : ∀ k ∈ ks, ∃ b, hasBlockVariance d k = .ok b)
    (hf : ∀ k ∈ ks, hasBlockVariance d k = .ok true → ∃ a, f k = .ok a) :
    ∃ as, collect d f ks = .ok as ∧
      List.Forall₂ (fun k a => f k = .ok a) (ks.filter fun k => hasBlockVariance d k = .ok true) as := by
  induction ks with
  | nil => exact ⟨[], rfl, .nil⟩
  | cons k ks ih =>
    obtain ⟨as, ha, hfa⟩ := ih (fun j hj => hb j (by simp [hj])) (fun j hj => hf j (by simp [hj]))
    obtain ⟨b, hk⟩ := hb k (by simp)
    cases b with
    | false => exact ⟨as, by simp [collect, hk, bind, Except.bind, ha], by simpa [hk] using hfa⟩
    | true =>
      obtain ⟨a, hfk⟩ := hf k (by simp) hk
      refine ⟨a :: as, by simp [collect, hk, bind, Except.bind, ha, hfk], ?_⟩
      have hfi : ((k :: ks).filter fun k => hasBlockVariance d k = .ok true) =
          k :: ks.filter fun k => hasBlockVariance d k = .ok true := by simp [hk]
      rw [hfi]
      exact .cons hfk hfa

theorem var_defined (d : DDDA ℝ) (hne : d ≠ []) : ∀ k ∈ List.range (getMaximumBlockID d + 1), ∃ b, hasBlockVariance d k = .ok b := by
  intro k hk
  have : k < d.length := by
    have : 0 < d.length := List.length_pos_of_ne_nil hne
    simp [getMaximumBlockID] at hk; omega
  unfold hasBlockVariance
  rw [List.getElem?_eq_getElem this]
  exact ⟨_, rfl⟩

theorem se_defined (d : DDDA ℝ) (k : ℕ) (h : hasBlockVariance d k = .ok true) :
    (∃ a, getBlockStandardErrorOfTheMean d k = .ok a) ∧ ∃ a, getEstimatedDeviation d k = .ok a := by
  have h1 : ∃ a, getBlockStandardErrorOfTheMean d k = .ok a := by
    unfold getBlockStandardErrorOfTheMean
    match hd : d[k]? with
    | none => simp [hasBlockVariance, hd] at h
    | some (b, w) =>
      have hb : ¬ b.n ≤ 1 := by
        have h' : Except.ok (ε := PyErr) (decide (2 ≤ b.n)) = .ok true := by
          rw [← h]; simp only [hasBlockVariance, hd, OTFS.getSampleSize]; congr 1
        have := of_decide_eq_true (Except.ok.inj h')
        omega
      simp [h, bind, Except.bind, OTFS.getStandardErrorOfTheMean, OTFS.getSampleStandardDeviation, OTFS.getSampleVariance, hb]
  refine ⟨h1, ?_⟩
  obtain ⟨a, ha⟩ := h1
  unfold getEstimatedDeviation
  match hd : d[k]? with
  | none => simp [hasBlockVariance, hd] at h
  | some (b, w) => simp [h, ha, bind, Except.bind]

theorem forall₂_ok_id (ks as : List ℕ) (h : List.Forall₂ (fun k a => (Except.ok k : Except PyErr ℕ) = .ok a) ks as) : as = ks := by
  induction h with
  | nil => rfl
  | cons h _ ih => rw [ih, Except.ok.inj h]

/-- C140: the plot can be made after any history. It has one point for each block that has a variance, in order of the block size, at the
binary logarithm of the size; the height is the block's standard error, and the error bar, if there are any, the block's uncertainty. -/
theorem C140_plot {d : DDDA ℝ} (h : Hist d) (showSD : Bool) :
    ∃ (values : List ℝ) (bars : Option (List ℝ)),
      getMPLAxes d showSD = .ok ((List.range d.length).filter (fun k => hasBlockVariance d k = .ok true), values, bars) ∧
      List.Forall₂ (fun k v => getBlockStandardErrorOfTheMean d k = .ok v)
        ((List.range d.length).filter fun k => hasBlockVariance d k = .ok true) values ∧
      (bars.isSome = showSD) ∧
      ∀ es ∈ bars, List.Forall₂ (fun k e => getEstimatedDeviation d k = .ok e)
        ((List.range d.length).filter fun k => hasBlockVariance d k = .ok true) es := by
  have hne := hist_ne_nil h
  have hlen : getMaximumBlockID d + 1 = d.length := by
    have : 0 < d.length := List.length_pos_of_ne_nil hne
    simp [getMaximumBlockID]; omega
  have hv := var_defined d hne
  obtain ⟨ks, hk1, hk2⟩ := collect_ok d (fun k => .ok k) _ hv (fun k _ _ => ⟨k, rfl⟩)
  obtain ⟨vs, hv1, hv2⟩ := collect_ok d (getBlockStandardErrorOfTheMean d) _ hv (fun k _ hk => (se_defined d k hk).1)
  obtain ⟨es, he1, he2⟩ := collect_ok d (getEstimatedDeviation d) _ hv (fun k _ hk => (se_defined d k hk).2)
  have hks := forall₂_ok_id _ _ hk2
  subst hks
  rw [hlen] at hk1 hv1 hv2 he1 he2
  cases showSD with
  | false => exact ⟨vs, none, by simp [getMPLAxes, hlen, hk1, hv1, bind, Except.bind], hv2, rfl, by simp⟩
  | true => exact ⟨vs, some es, by simp [getMPLAxes, hlen, hk1, hv1, he1, bind, Except.bind], hv2, rfl, by simpa using he2⟩

/-! ## Text -/

/-- C140: the text describing an object names the number of data, their mean if there are any, and standard deviation and variance if there
are at least two; it can be obtained for every sequence of data. -/
theorem C140_text (strN : ℕ → List Char) (str : ℝ → List Char) (xs : List ℝ) :
    repr strN str (feedD xs) = .ok ("OnTheFlyStatisticsDDDA: {Size: ".toList ++ strN xs.length ++
      (if xs.length = 0 then [] else ", Mean: ".toList ++ str (Spec.mean xs)) ++
      (if xs.length < 2 then [] else ", Standard Deviation [blockID=0]: ".toList ++ str (Real.sqrt (Spec.variance xs)) ++
        ", Variance [blockID=0]: ".toList ++ str (Spec.variance xs)) ++ "}\n".toList) := by
  have hh : "OnTheFlyStatisticsDDDA: {Size: ".toList = "OnTheFlyStatisticsDDDA: {".toList ++ "Size: ".toList := by decide +kernel
  rw [hh]
  unfold repr
  generalize "OnTheFlyStatisticsDDDA: {".toList = s1
  generalize "Size: ".toList = s2
  generalize ", Mean: ".toList = s3
  generalize ", Standard Deviation [blockID=0]: ".toList = s4
  generalize ", Variance [blockID=0]: ".toList = s5
  generalize "}\n".toList = s6
  have h0 := (C05_size_mean xs).1
  have h1 := (C05_size_mean xs).2
  have h2 := C05_blockVariance xs 0
  rw [pow_zero, mul_one, groupMeans_one] at h2
  by_cases hx : xs = []
  · subst hx
    simp [h0, bind, Except.bind]
  · have hl : 1 ≤ xs.length := by
      rcases xs with _ | ⟨a, xs⟩
      · exact absurd rfl hx
      · simp
    have hl0 : ¬ xs.length = 0 := by omega
    rw [if_neg hx] at h1
    by_cases h22 : 2 ≤ xs.length
    · have : ¬ xs.length < 2 := by omega
      rw [if_pos h22] at h2
      simp [h0, h1, h2, hl0, this, h22, hl, bind, Except.bind]
    · have : xs.length < 2 := by omega
      simp [h0, h1, hl0, this, h22, hl, bind, Except.bind]

/-! ## Comparison -/

theorem eq_iff (d e : DDDA K) : eq d (.ddda e) = .ok (decide (d = e)) := by
  simp only [eq]
  congr 1
  by_cases h : d = e
  · subst h; simp
  · rw [decide_eq_false h]
    by_contra hc
    rw [Bool.not_eq_false, Bool.and_eq_true, beq_iff_eq, beq_iff_eq] at hc
    apply h
    obtain ⟨h1, h2⟩ := hc
    induction d generalizing e with
    | nil => cases e with
      | nil => rfl
      | cons q e => simp at h1
    | cons p d ih => cases e with
      | nil => simp at h1
      | cons q e =>
        obtain ⟨b, w⟩ := p
        obtain ⟨b', w'⟩ := q
        simp only [List.map_cons, List.cons.injEq, Prod.mk.injEq] at h1 h2
        have hb : b = b' := OTFS.ext h1.1.1 h1.1.2.1 h1.1.2.2
        rw [hb, h2.1, ih e (fun hde => h (by rw [hb, h2.1, hde])) h1.2 h2.2]

/-- Every block has data. -/
def Pos (d : DDDA K) : Prop := ∀ p ∈ d, 1 ≤ p.1.n

theorem pos_push {d : DDDA K} (h : Pos d) (x : K) : Pos (pushFrom x d) := by
  induction d generalizing x with
  | nil => intro p hp; simp only [pushFrom, List.mem_singleton] at hp; rw [hp]; simp [OTFS.addDatum]
  | cons q d ih =>
    obtain ⟨b, w⟩ := q
    have hd : Pos d := fun p hp => h p (by simp [hp])
    cases w with
    | none =>
      intro p hp
      simp only [pushFrom, List.mem_cons] at hp
      rcases hp with rfl | hp
      · simp [OTFS.addDatum]
      · exact hd p hp
    | some w =>
      intro p hp
      simp only [pushFrom, List.mem_cons] at hp
      rcases hp with rfl | hp
      · simp [OTFS.addDatum]
      · exact ih hd _ p hp

/-- The variances are the same. -/
def V (d e : DDDA K) : Prop := ∀ k, getBlockVariance d k = getBlockVariance e k

/-- Add data, starting at the first block of the list. -/
def push (ys : List K) (d : DDDA K) : DDDA K := ys.foldl (fun d y => pushFrom y d) d

theorem var_zero {b : OTFS K} {w : Option K} {r : DDDA K} (h : 2 ≤ b.n) :
    getBlockVariance ((b, w) :: r) 0 = .ok (b.S / ((b.n : K) - 1)) := by
  have : ¬ b.n ≤ 1 := by omega
  simp [getBlockVariance, hasBlockVariance, OTFS.getSampleSize, h, bind, Except.bind, OTFS.getSampleVariance, this]

theorem var_nil (k : ℕ) : getBlockVariance ([] : DDDA K) k = .error .valueError := by
  simp [getBlockVariance, hasBlockVariance, bind, Except.bind]

theorem var_cons_ne (p : Block K) (r : DDDA K) : getBlockVariance (p :: r) 0 ≠ .error .valueError := by
  obtain ⟨b, w⟩ := p
  by_cases h : 2 ≤ b.n
  · rw [var_zero h]; simp
  · simp [getBlockVariance, hasBlockVariance, OTFS.getSampleSize, h, bind, Except.bind]

theorem V_tail {p q : Block K} {r s : DDDA K} (h : V (p :: r) (q :: s)) : V r s := by
  intro k
  have := h (k + 1)
  simpa [getBlockVariance, hasBlockVariance] using this

theorem push_head {b : OTFS K} {w : Option K} {r : DDDA K} (x : K) :
    ∃ w' r', pushFrom x ((b, w) :: r) = (b.addDatum x, w') :: r' := by
  cases w with
  | none => exact ⟨_, _, rfl⟩
  | some v => exact ⟨_, _, rfl⟩

theorem add_S {b : OTFS K} (hb : 1 ≤ b.n) (x : K) :
    (b.addDatum x).S / (((b.addDatum x).n : K) - 1) = b.S / (b.n : K) + (x - b.M) ^ 2 / ((b.n : K) + 1) := by
  have h1 : (0 : K) < (b.n : K) := by exact_mod_cast hb
  simp only [OTFS.addDatum]
  push_cast
  have h2 : (b.n : K) + 1 ≠ 0 := by positivity
  have h3 : (b.n : K) ≠ 0 := h1.ne'
  rw [add_sub_cancel_right]
  field_simp
  ring

theorem add_n {b : OTFS K} (hb : 1 ≤ b.n) (x : K) : 2 ≤ (b.addDatum x).n := by simp [OTFS.addDatum]; omega

/-- The first block is determined by the variances after adding one further datum. -/
theorem head_eq {b c : OTFS K} {w u : Option K} {r s : DDDA K} (hb : 1 ≤ b.n) (hc : 1 ≤ c.n)
    (h : ∀ x : K, getBlockVariance (pushFrom x ((b, w) :: r)) 0 = getBlockVariance (pushFrom x ((c, u) :: s)) 0) : b = c := by
  have hx : ∀ x : K, b.S / (b.n : K) + (x - b.M) ^ 2 / ((b.n : K) + 1) = c.S / (c.n : K) + (x - c.M) ^ 2 / ((c.n : K) + 1) := by
    intro x
    obtain ⟨w1, r1, e1⟩ := push_head (b := b) (w := w) (r := r) x
    obtain ⟨w2, r2, e2⟩ := push_head (b := c) (w := u) (r := s) x
    have := h x
    rw [e1, e2, var_zero (add_n hb x), var_zero (add_n hc x)] at this
    rw [← add_S hb, ← add_S hc]
    exact Except.ok.inj this
  have p1 : (0 : K) < (b.n : K) := by exact_mod_cast hb
  have p2 : (0 : K) < (c.n : K) := by exact_mod_cast hc
  have q1 : (b.n : K) + 1 ≠ 0 := by positivity
  have q2 : (c.n : K) + 1 ≠ 0 := by positivity
  have h0 := hx 0
  have h1 := hx 1
  have h2 := hx (-1)
  have e1 : 1 / ((b.n : K) + 1) = 1 / ((c.n : K) + 1) := by
    linear_combination (1 / 2) * h1 + (1 / 2) * h2 - h0
  have en : b.n = c.n := by
    have : (b.n : K) + 1 = (c.n : K) + 1 := by
      rw [one_div, one_div] at e1; exact inv_injective e1
    have : (b.n : K) = (c.n : K) := by linarith
    exact_mod_cast this
  rw [en] at h0 h1 h2 hx
  have eM : b.M = c.M := by
    have h3 : (b.M - c.M) / ((c.n : K) + 1) = 0 := by linear_combination (1 / 4) * h2 - (1 / 4) * h1
    rcases div_eq_zero_iff.mp h3 with h | h
    · linarith
    · exact absurd h q2
  have eS : b.S = c.S := by
    rw [eM] at h0
    have : b.S / (c.n : K) = c.S / (c.n : K) := by linarith
    exact (div_left_inj' p2.ne').mp this
  exact OTFS.ext en eM eS

/-- Data can be chosen such that given values arrive at the second block. -/
theorem drive (zs : List K) (w : Option K) :
    ∃ ys : List K, ∀ (b : OTFS K) (r : DDDA K), ∃ b' w', push ys ((b, w) :: r) = (b', w') :: push zs r := by
  induction zs generalizing w with
  | nil => exact ⟨[], fun b r => ⟨b, w, rfl⟩⟩
  | cons z zs ih =>
    obtain ⟨ys, hys⟩ := ih none
    cases w with
    | none =>
      refine ⟨z :: z :: ys, fun b r => ?_⟩
      obtain ⟨b', w', hb⟩ := hys ((b.addDatum z).addDatum z) (pushFrom z r)
      refine ⟨b', w', ?_⟩
      have hz : (z + z) / 2 = z := by ring
      simp only [push, List.foldl_cons, pushFrom, hz] at hb ⊢
      exact hb
    | some v =>
      refine ⟨(2 * z - v) :: ys, fun b r => ?_⟩
      obtain ⟨b', w', hb⟩ := hys (b.addDatum (2 * z - v)) (pushFrom z r)
      refine ⟨b', w', ?_⟩
      have hz : (v + (2 * z - v)) / 2 = z := by ring
      simp only [push, List.foldl_cons, pushFrom, hz] at hb ⊢
      exact hb

/-- The variance of a block is changed by some values that arrive. -/
theorem not_constant {c : OTFS K} {u : Option K} {s : DDDA K} (hc : 1 ≤ c.n) (a : Except PyErr K)
    (h : ∀ y : K, a = getBlockVariance (pushFrom y ((c, u) :: s)) 0) : False := by
  obtain ⟨w1, r1, e1⟩ := push_head (b := c) (w := u) (r := s) c.M
  obtain ⟨w2, r2, e2⟩ := push_head (b := c) (w := u) (r := s) (c.M + 1)
  have h1 := h c.M
  have h2 := h (c.M + 1)
  rw [e1, var_zero (add_n hc _)] at h1
  rw [e2, var_zero (add_n hc _)] at h2
  have h3 := Except.ok.inj (h1.symm.trans h2)
  rw [add_S hc, add_S hc] at h3
  have p2 : (0 : K) < 1 / ((c.n : K) + 1) := by positivity
  have : (0 : K) = 1 / ((c.n : K) + 1) := by
    have e : c.M + 1 - c.M = 1 := by ring
    rw [e, sub_self] at h3
    linear_combination h3
  exact absurd this p2.ne

theorem determined (d : DDDA K) : ∀ e : DDDA K, Pos d → Pos e → (∀ ys, V (push ys d) (push ys e)) → d = e := by
  induction d with
  | nil =>
    intro e _ _ h
    cases e with
    | nil => rfl
    | cons q e => exact absurd ((h [] 0).symm.trans (var_nil 0)) (var_cons_ne q e)
  | cons p r ih =>
    intro e hd he h
    cases e with
    | nil => exact absurd ((h [] 0).trans (var_nil 0)) (var_cons_ne p r)
    | cons q s =>
      obtain ⟨b, w⟩ := p
      obtain ⟨c, u⟩ := q
      have hb : 1 ≤ b.n := hd (b, w) (by simp)
      have hc : 1 ≤ c.n := he (c, u) (by simp)
      have hr : Pos r := fun p hp => hd p (by simp [hp])
      have hs : Pos s := fun p hp => he p (by simp [hp])
      have hbc : b = c := head_eq hb hc (fun x => h [x] 0)
      subst hbc
      have hrs : V r s := V_tail (h [])
      -- one of the objects has a pending datum, the other has not
      have mixed : ∀ (v : K) (r s : DDDA K), Pos r → Pos s → V r s → (∀ y : K, V r (pushFrom y s)) → False := by
        intro v r s hr hs hrs hy
        cases s with
        | nil =>
          have h1 := hy 0 0
          rw [hrs 0, var_nil] at h1
          exact var_cons_ne _ _ h1.symm
        | cons q s =>
          obtain ⟨c, u⟩ := q
          exact not_constant (hs (c, u) (by simp)) (getBlockVariance r 0) (fun y => hy y 0)
      have hw : w = u := by
        cases w with
        | none =>
          cases u with
          | none => rfl
          | some v =>
            exfalso
            refine mixed v r s hr hs hrs (fun y => ?_)
            have h1 := V_tail (h [2 * y - v])
            have hz : (v + (2 * y - v)) / 2 = y := by ring
            simpa [push, pushFrom, hz] using h1
        | some v =>
          cases u with
          | none =>
            exfalso
            refine mixed v s r hs hr (fun k => (hrs k).symm) (fun y => ?_)
            have h1 := V_tail (h [2 * y - v])
            have hz : (v + (2 * y - v)) / 2 = y := by ring
            have h2 : V (pushFrom y r) s := by simpa [push, pushFrom, hz] using h1
            exact fun k => (h2 k).symm
          | some v' =>
            -- the second blocks, after a datum and anything that may follow
            have key : ∀ (x : K) (z : K), getBlockVariance (pushFrom z (pushFrom ((v + x) / 2) r)) 0 =
                getBlockVariance (pushFrom z (pushFrom ((v' + x) / 2) s)) 0 := by
              intro x z
              obtain ⟨ys, hys⟩ := drive [z] (none : Option K)
              obtain ⟨b1, w1, e1⟩ := hys (b.addDatum x) (pushFrom ((v + x) / 2) r)
              obtain ⟨b2, w2, e2⟩ := hys (b.addDatum x) (pushFrom ((v' + x) / 2) s)
              have h1 := h (x :: ys)
              have e1' : push (x :: ys) ((b, some v) :: r) = (b1, w1) :: push [z] (pushFrom ((v + x) / 2) r) := e1
              have e2' : push (x :: ys) ((b, some v') :: s) = (b2, w2) :: push [z] (pushFrom ((v' + x) / 2) s) := e2
              rw [e1', e2'] at h1
              exact V_tail h1 0
            cases r with
            | nil =>
              cases s with
              | cons q s => exact absurd ((hrs 0).symm.trans (var_nil 0)) (var_cons_ne q s)
              | nil =>
                have h1 := head_eq (b := (fresh : OTFS K).addDatum ((v + 0) / 2)) (c := (fresh : OTFS K).addDatum ((v' + 0) / 2))
                  (by simp [OTFS.addDatum]) (by simp [OTFS.addDatum]) (key 0)
                have h2 := congrArg OTFS.M h1
                simp only [OTFS.addDatum, fresh] at h2
                simp at h2
                rw [h2]
            | cons q r =>
              cases s with
              | nil => exact absurd ((hrs 0).trans (var_nil 0)) (var_cons_ne q r)
              | cons q' s =>
                obtain ⟨c, y⟩ := q
                obtain ⟨c', y'⟩ := q'
                have hc1 : 1 ≤ c.n := hr (c, y) (by simp)
                have heads : ∀ x : K, c.addDatum ((v + x) / 2) = c'.addDatum ((v' + x) / 2) := by
                  intro x
                  obtain ⟨w1, r1, e1⟩ := push_head (b := c) (w := y) (r := r) ((v + x) / 2)
                  obtain ⟨w2, r2, e2⟩ := push_head (b := c') (w := y') (r := s) ((v' + x) / 2)
                  have k1 := key x
                  rw [e1, e2] at k1
                  exact head_eq (by simp [OTFS.addDatum]) (by simp [OTFS.addDatum]) k1
                have hn : c.n = c'.n := by
                  have := congrArg OTFS.n (heads 0)
                  simpa [OTFS.addDatum] using this
                have hp : (0 : K) < (c'.n : K) := by rw [← hn]; exact_mod_cast hc1
                have hp1 : (c'.n : K) + 1 ≠ 0 := by positivity
                have hM : ∀ x : K, (c'.n : K) * c.M + (v + x) / 2 = (c'.n : K) * c'.M + (v' + x) / 2 := by
                  intro x
                  have := congrArg OTFS.M (heads x)
                  simp only [OTFS.addDatum, hn] at this
                  push_cast at this
                  field_simp at this
                  linear_combination this / 2
                have hS : ∀ x : K, c.S / (c'.n : K) + ((v + x) / 2 - c.M) ^ 2 / ((c'.n : K) + 1) =
                    c'.S / (c'.n : K) + ((v' + x) / 2 - c'.M) ^ 2 / ((c'.n : K) + 1) := by
                  intro x
                  have h1 := add_S hc1 ((v + x) / 2)
                  have h2 := add_S (b := c') (by omega) ((v' + x) / 2)
                  rw [← heads x] at h2
                  rw [h2, hn] at h1
                  exact h1.symm
                have hlin : v / 2 - c.M = v' / 2 - c'.M := by
                  have h1 := hS 2
                  have h2 := hS (-2)
                  have h3 : ((v / 2 - c.M) - (v' / 2 - c'.M)) / ((c'.n : K) + 1) = 0 := by
                    linear_combination (1 / 4) * h1 - (1 / 4) * h2
                  rcases div_eq_zero_iff.mp h3 with h | h
                  · linarith
                  · exact absurd h hp1
                have h0 := hM 0
                have hMM : ((c'.n : K) + 1) * (c.M - c'.M) = 0 := by linear_combination h0 - hlin
                have : c.M - c'.M = 0 := by
                  rcases mul_eq_zero.mp hMM with h | h
                  · exact absurd h hp1
                  · exact h
                have hv : v = v' := by linear_combination 2 * hlin + 2 * this
                rw [hv]
      subst hw
      have : r = s := by
        refine ih s hr hs (fun zs => ?_)
        obtain ⟨ys, hys⟩ := drive zs w
        obtain ⟨b1, w1, e1⟩ := hys b r
        obtain ⟨b2, w2, e2⟩ := hys b s
        have h1 := h ys
        rw [e1, e2] at h1
        exact V_tail h1
      rw [this]

theorem pos_of_sizes {d : DDDA K} (h : SizesOk d []) : Pos d := by
  induction d with
  | nil => intro p hp; simp at hp
  | cons q d ih =>
    obtain ⟨b, w⟩ := q
    obtain ⟨-, h1, -, h2⟩ := h
    intro p hp
    rcases List.mem_cons.mp hp with rfl | hp
    · exact h1
    · exact ih h2 p hp

/-- C140: two objects, whatever their histories, compare as equal exactly if they behave in the same way, that is, if no further data make
them give different answers. Comparing as unequal is the opposite; comparison with something else raises `TypeError`. -/
theorem C140_equal {d e : DDDA K} (hd : Hist d) (he : Hist e) :
    (eq d (.ddda e) = .ok true ↔ Indistinguishable d e) ∧ (ne d (.ddda e) = .ok true ↔ ¬ Indistinguishable d e) ∧
    (∃ b, eq d (.ddda e) = .ok b) ∧ eq d .other = .error .typeError ∧ ne d .other = .error .typeError := by
  have key : d = e ↔ Indistinguishable d e := by
    constructor
    · rintro rfl ys; exact ⟨rfl, rfl, rfl, fun k => ⟨rfl, rfl⟩⟩
    · intro h
      have h0 := (h []).1
      rcases hist_sizes hd with rfl | ⟨hd1, hd2⟩ <;> rcases hist_sizes he with rfl | ⟨he1, he2⟩
      · rfl
      · exfalso
        match e, he1 with
        | (b, w) :: r, _ =>
          have := he2.2.1
          simp [getSampleSize, init, OTFS.getSampleSize, fresh] at h0
          omega
      · exfalso
        match d, hd1 with
        | (b, w) :: r, _ =>
          have := hd2.2.1
          simp [getSampleSize, init, OTFS.getSampleSize, fresh] at h0
          omega
      · exact determined d e (pos_of_sizes hd2) (pos_of_sizes he2) (fun ys k => ((h ys).2.2.2 k).2)
  rw [← key, eq_iff]
  refine ⟨by simp, ?_, ⟨_, rfl⟩, rfl, rfl⟩
  simp [ne, eq_iff, bind, Except.bind]

/-- C140: in particular, objects with the same data compare as equal, and two data in the opposite order do not make a difference. -/
theorem C140_order (x y : K) (zs : List K) :
    eq (feedD (x :: y :: zs)) (.ddda (feedD (y :: x :: zs))) = .ok true := by
  have : feedD (x :: y :: zs) = feedD (y :: x :: zs) := by
    show List.foldl addDatum _ zs = List.foldl addDatum _ zs
    congr 1
    simp only [addDatum, pushFrom, init, List.cons.injEq, Prod.mk.injEq, and_true]
    have e1 : ((fresh : OTFS K).addDatum x).addDatum y = ((fresh : OTFS K).addDatum y).addDatum x := by
      ext
      · simp [OTFS.addDatum, fresh]
      · simp [OTFS.addDatum, fresh]; ring
      · simp [OTFS.addDatum, fresh]; ring
    exact ⟨e1, by rw [add_comm y x]; exact ⟨rfl, rfl⟩⟩
  rw [eq_iff, this]; simp

/-- A later change of the order does make a difference. -/
example : eq (feedD [(0 : ℚ), 1, 2, 3]) (.ddda (feedD [0, 2, 1, 3])) = .ok false := by
  rw [eq_iff]
  have : ¬ feedD [(0 : ℚ), 1, 2, 3] = feedD [0, 2, 1, 3] := by
    intro h
    have := congrArg (fun d => d.map fun p => p.1.S) h
    norm_num [feedD, addDatum, pushFrom, init, OTFS.addDatum, fresh] at this
  simp [this]

example : Hist (feedD [(0 : ℝ), 1, 2, 3]) := .add 3 (.add 2 (.add 1 (.add 0 .init)))

example : Reach (feedD (List.replicate 51 (1 : ℝ))) (List.replicate 51 1) ∧
    isReliable (feedD (List.replicate 51 (1 : ℝ))) = .ok true := by
  have hr := reach_feedD (List.replicate 51 (1 : ℝ))
  refine ⟨hr, ?_⟩
  obtain ⟨r, se0, h1, h2, h3, -⟩ := (C140_reliable hr).2 (by simp)
  have hse : se0 = 0 := by
    have h4 := se_feed (List.replicate 51 (1 : ℝ)) 0 (by simp)
    rw [h4] at h2
    have h5 := Except.ok.inj h2
    rw [pow_zero, groupMeans_one] at h5
    have : Spec.variance (List.replicate 51 (1 : ℝ)) = 0 := constant_variance 51 1
    rw [this] at h5
    simpa using h5.symm
  obtain ⟨se1, g1, r', g2, -, g4, -⟩ := C06_optimal (reach_hist hr) 51 (by simpa using (C05_size_mean (List.replicate 51 (1 : ℝ))).1) (by norm_num)
  rw [g1] at h2
  have e1 : se1 = se0 := Except.ok.inj h2
  rw [g2] at h1
  have e2 : (r' : ℤ) = r := Except.ok.inj h1
  have : r' = 0 := g4 (by rw [e1, hse])
  have hr0 : r = 0 := by omega
  rw [h3, hr0]; simp

end OpenMPCD.DDDA.Estimates
