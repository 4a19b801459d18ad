import Verif.DDDA.Lemmas
import Verif.Stats.Props

/-!
# Properties C05 - C08: blocking analysis (DDDA)
-/

set_option linter.unusedSectionVars false
set_option linter.unusedSimpArgs false
set_option linter.dupNamespace false

namespace OpenMPCD.DDDA

open Stats

variable {K : Type} [Field K] [LinearOrder K] [IsStrictOrderedRing K]

/-! ## C05 -/

theorem feedD_cons (xs : List K) : ∃ w rest, feedD xs = (feed xs, w) :: rest := by
  have h := feedD_getElem? 0 xs
  simp only [true_or, if_true, pow_zero, groupMeans_one] at h
  match hd : feedD xs with
  | [] => rw [hd] at h; simp at h
  | p :: rest => rw [hd] at h; simp at h; exact ⟨_, rest, by rw [h]⟩

theorem feedD_length (xs : List K) : (feedD xs).length = Nat.log 2 xs.length + 1 := by
  rw [feedD_eq_layers, layers_length]

/-- `k` is the index of an existing block. -/
theorem block_exists_iff (xs : List K) (k : ℕ) :
    k ≤ Nat.log 2 xs.length ↔ (k = 0 ∨ 2 ^ k ≤ xs.length) := by
  constructor
  · intro h
    by_cases hz : xs.length = 0
    · left; rw [hz] at h; simpa using h
    · right; exact Nat.pow_le_of_le_log hz h
  · rintro (rfl | h)
    · exact Nat.zero_le _
    · exact Nat.le_log_of_pow_le (by norm_num) h

/-- C05: size and mean are those of all data. -/
theorem C05_size_mean (xs : List K) :
    getSampleSize (feedD xs) = .ok xs.length ∧
      getSampleMean (feedD xs) = if xs = [] then .error .exception else .ok (Spec.mean xs) := by
  obtain ⟨w, rest, h⟩ := feedD_cons xs
  have h1 : getSampleSize (feedD xs) = .ok xs.length := by
    rw [h]; simp [getSampleSize, OTFS.getSampleSize, feed_n]
  refine ⟨h1, ?_⟩
  unfold getSampleMean
  rw [h1, h]
  by_cases hx : xs = []
  · simp [hx, bind, Except.bind]
  · have hl : xs.length ≠ 0 := by simpa using hx
    simp only [bind, Except.bind, hl, hx, if_false, C01_mean]

/-- C05: the blocks are those with index `0, ..., K` where `2 ^ K` is the largest power of two not
exceeding the number of data (only block 0 if there are no data). -/
theorem C05_blocks (xs : List K) :
    getMaximumBlockID (feedD xs) = Nat.log 2 xs.length ∧
      (xs ≠ [] → ∃ B, getMaximumBlockSize (feedD xs) = .ok B ∧ (∃ k, B = 2 ^ k) ∧
        B ≤ xs.length ∧ xs.length < 2 * B) := by
  have h1 : getMaximumBlockID (feedD xs) = Nat.log 2 xs.length := by
    simp [getMaximumBlockID, feedD_length]
  refine ⟨h1, fun hx => ?_⟩
  have hl : xs.length ≠ 0 := by simpa using hx
  refine ⟨2 ^ Nat.log 2 xs.length, ?_, ⟨_, rfl⟩, Nat.pow_log_le_self 2 hl, ?_⟩
  · simp only [getMaximumBlockSize, (C05_size_mean xs).1, bind, Except.bind, hl, if_false, h1]
  · have := Nat.lt_pow_succ_log_self (b := 2) (by norm_num) xs.length
    rw [pow_succ] at this; omega

/-- C05: block `k` has a variance exactly if there are two complete groups of `2 ^ k` data; asking
about a block that does not exist raises `ValueError`. -/
theorem C05_hasBlockVariance (xs : List K) (k : ℕ) :
    hasBlockVariance (feedD xs) k =
      if k = 0 ∨ 2 ^ k ≤ xs.length then .ok (decide (2 * 2 ^ k ≤ xs.length))
      else .error .valueError := by
  unfold hasBlockVariance
  rw [feedD_getElem?]
  by_cases h : k = 0 ∨ 2 ^ k ≤ xs.length
  · simp only [h, if_true, OTFS.getSampleSize, feed_n, groupMeans_length]
    congr 1
    rw [decide_eq_decide, Nat.le_div_iff_mul_le (by positivity)]
  · simp [h]

/-- C05: the variance of block `k` is the sample variance of the averages of the consecutive groups of
`2 ^ k` data. -/
theorem C05_blockVariance (xs : List K) (k : ℕ) :
    getBlockVariance (feedD xs) k =
      if 2 * 2 ^ k ≤ xs.length then .ok (Spec.variance (Spec.groupMeans (2 ^ k) xs))
      else if k = 0 ∨ 2 ^ k ≤ xs.length then .error .runtimeError
      else .error .valueError := by
  unfold getBlockVariance
  rw [C05_hasBlockVariance]
  by_cases h : 2 * 2 ^ k ≤ xs.length
  · have h' : k = 0 ∨ 2 ^ k ≤ xs.length := Or.inr (by omega)
    have h2 : ¬ (Spec.groupMeans (2 ^ k) xs).length < 2 := by
      rw [groupMeans_length, not_lt, Nat.le_div_iff_mul_le (by positivity)]; exact h
    simp only [h, h', if_true, bind, Except.bind, decide_true, not_true, if_false, feedD_getElem?,
      C01_variance, h2]
  · by_cases h' : k = 0 ∨ 2 ^ k ≤ xs.length
    · simp only [h, h', if_true, if_false, bind, Except.bind, decide_false, Bool.false_eq_true,
        not_false_eq_true]
    · simp only [h, h', if_false, bind, Except.bind]

/-- C05: the standard error reported for block `k` is `sqrt (variance / number of groups)`. -/
theorem C05_blockStandardError (xs : List ℝ) (k : ℕ) (h : 2 * 2 ^ k ≤ xs.length) :
    getBlockStandardErrorOfTheMean (feedD xs) k =
      .ok (Real.sqrt (Spec.variance (Spec.groupMeans (2 ^ k) xs) / (xs.length / 2 ^ k : ℕ))) := by
  unfold getBlockStandardErrorOfTheMean
  rw [C05_hasBlockVariance]
  have h' : k = 0 ∨ 2 ^ k ≤ xs.length := Or.inr (by omega)
  have h2 : ¬ (Spec.groupMeans (2 ^ k) xs).length < 2 := by
    rw [groupMeans_length, not_lt, Nat.le_div_iff_mul_le (by positivity)]; exact h
  simp only [h, h', if_true, bind, Except.bind, decide_true, not_true, if_false, feedD_getElem?,
    C01_standardError, h2]
  rw [groupMeans_length]

/-- The C++ object corresponding to a Python object. -/
def toCppD (d : DDDA K) : CppDDDA K := d.map fun p => (toCpp p.1, p.2)

theorem toCpp_addDatum (b : OTFS K) (x : K) : (toCpp b).addDatum x = toCpp (b.addDatum x) := rfl

theorem cppPushFrom_eq (x : K) (d : DDDA K) :
    cppPushFrom x (toCppD d) = toCppD (pushFrom x d) := by
  induction d generalizing x with
  | nil => rfl
  | cons p d ih =>
    obtain ⟨b, w⟩ := p
    cases w with
    | none => rfl
    | some w =>
      have := ih ((w + x) / 2)
      simp only [toCppD, List.map_cons, cppPushFrom, pushFrom] at this ⊢
      rw [add_comm x w, this, toCpp_addDatum]

/-- C05: the C++ class, fed with the same data, has the same number of blocks with the same sizes,
means, sums of squared deviations and pending data as the Python class. -/
theorem C05_cpp_agrees (xs : List K) :
    (xs.foldl cppAddDatum cppInit).map (fun p => (p.1.sampleSize, p.1.mean, p.1.varianceHelper, p.2))
      = (feedD xs).map (fun p => (p.1.n, p.1.M, p.1.S, p.2)) := by
  have : xs.foldl cppAddDatum cppInit = toCppD (feedD xs) := by
    induction xs using List.reverseRecOn with
    | nil => rfl
    | append_singleton xs x ih =>
      rw [List.foldl_append, ih, feedD_append_singleton]
      exact cppPushFrom_eq x _
  rw [this]
  simp [toCppD, toCpp]

/-- Five data: three blocks of sizes 5, 2, 1; block 1 holds the averages 2 and 6. -/
example : getMaximumBlockID (feedD ([1, 3, 5, 7, 100] : List ℚ)) = 2 ∧
    getBlockVariance (feedD ([1, 3, 5, 7, 100] : List ℚ)) 1 = .ok 8 ∧
    hasBlockVariance (feedD ([1, 3, 5, 7, 100] : List ℚ)) 2 = .ok false := by
  refine ⟨?_, ?_, ?_⟩
  · rw [(C05_blocks _).1]; rfl
  · rw [C05_blockVariance, if_pos (by simp)]
    norm_num [Spec.groupMeans, Spec.variance, Spec.sumSqDev, Spec.mean, List.range_succ]
  · rw [C05_hasBlockVariance, if_pos (by simp)]; simp

/-! ## C07 -/

/-- `Reach d D`: a client can obtain the object `d` by adding data to new objects and merging distinct
objects; `D` are all the data involved. -/
inductive Reach : DDDA K → List K → Prop
  | init : Reach init []
  | add {d : DDDA K} {D : List K} (x : K) : Reach d D → Reach (addDatum d x) (D ++ [x])
  | merge {d e u : DDDA K} {D E : List K} :
      Reach d D → Reach e E → merge d e = .ok u → Reach u (D ++ E)

/-- The state reached from no data, or a hierarchy. -/
def Good (D : List K) (d : DDDA K) : Prop := (D = [] ∧ d = init) ∨ (D ≠ [] ∧ Semi D d [])

theorem mergeS_fresh_right_fresh : mergeS (fresh : OTFS K) fresh = fresh := by
  have := mergeS_feed ([] : List K) []
  simpa [feed, addAll] using this

theorem Good.add {D : List K} {d : DDDA K} (h : Good D d) (x : K) :
    Good (D ++ [x]) (addDatum d x) := by
  right
  refine ⟨by simp, ?_⟩
  rcases h with ⟨rfl, rfl⟩ | ⟨-, h⟩
  · refine ⟨by simp, by simp [feed, addAll], [], by simp [flat], by simp [Semi]⟩
  · exact (h.push x).perm (List.perm_append_singleton x D).symm

theorem Good.merge {D E : List K} {d e : DDDA K} (hd : Good D d) (he : Good E e) :
    ∃ u, DDDA.merge d e = .ok u ∧ Good (D ++ E) u := by
  refine ⟨_, merge_eq d e, ?_⟩
  rcases hd with ⟨rfl, rfl⟩ | ⟨hD, hd⟩ <;> rcases he with ⟨rfl, rfl⟩ | ⟨hE, he⟩
  · left
    refine ⟨rfl, ?_⟩
    simp [init, zipMerge, mergeS_fresh_right_fresh, mergeWaiting]
  · right
    have hz := (Semi.zip (s := []) (D := []) (by simp [Semi]) he).finish
    match e, he with
    | [], he => exact absurd he.1 hE
    | (b, w) :: r, he =>
      refine ⟨by simpa using hE, ?_⟩
      simpa [init, zipMerge] using hz
  · right
    refine ⟨by simpa using hD, ?_⟩
    match d, hd with
    | [], hd => exact absurd hd.1 hD
    | (b, w) :: r, hd =>
      have h1 : mergeS b fresh = b := by
        have := mergeS_feed D ([] : List K)
        rw [hd.2.1]; simpa [feed, addAll] using this
      have h2 : zipMerge ((b, w) :: r) init = (b, w) :: r := by
        cases r <;> simp [init, zipMerge, h1]
      have h3 : mergeWaiting ((b, w) :: r) (List.map Prod.snd (init : DDDA K)) = (b, w) :: r := by
        cases r <;> simp [init, mergeWaiting]
      rw [h2, h3]
      simpa using hd
  · right
    exact ⟨by simp [hD], (Semi.zip hd he).finish⟩

theorem Reach.good {d : DDDA K} {D : List K} (h : Reach d D) : Good D d := by
  induction h with
  | init => exact Or.inl ⟨rfl, rfl⟩
  | add x _ ih => exact ih.add x
  | merge _ _ hu ihd ihe =>
    obtain ⟨u, hu', hg⟩ := ihd.merge ihe
    rw [hu] at hu'
    obtain rfl := Except.ok.inj hu'
    exact hg

/-- C07: merging never raises. -/
theorem C07_total {d e : DDDA K} {D E : List K} (hd : Reach d D) (he : Reach e E) :
    ∃ u, merge d e = .ok u ∧ Reach u (D ++ E) := by
  obtain ⟨u, hu, -⟩ := hd.good.merge he.good
  exact ⟨u, hu, .merge hd he hu⟩

/-- C07: however an object was obtained by adding and merging, its blocks form a correct hierarchy for
the pooled data: block 0 summarises all data, and each next block summarises averages of disjoint
pairs of the previous block's data, each datum being used exactly once (the unpaired one is
pending). -/
theorem C07_hierarchy {d : DDDA K} {D : List K} (h : Reach d D) (hD : D ≠ []) :
    Spec.Hierarchy D (report d) := by
  rcases h.good with ⟨rfl, -⟩ | ⟨-, hs⟩
  · exact absurd rfl hD
  · exact hs.hierarchy

/-- C07: without data, the object is as new. -/
theorem C07_empty {d : DDDA K} (h : Reach d ([] : List K)) : d = init := by
  rcases h.good with ⟨-, h⟩ | ⟨h, -⟩
  · exact h
  · exact absurd rfl h

/-- C07: size, mean and variance are those of the pooled data. -/
theorem C07_pooled {d : DDDA K} {D : List K} (h : Reach d D) :
    getSampleSize d = .ok D.length ∧
    (D ≠ [] → getSampleMean d = .ok (Spec.mean D)) ∧
    (2 ≤ D.length → getBlockVariance d 0 = .ok (Spec.variance D)) := by
  have key : ∃ w rest, d = (feed D, w) :: rest := by
    rcases h.good with ⟨rfl, rfl⟩ | ⟨hD, hs⟩
    · exact ⟨none, [], rfl⟩
    · match d, hs with
      | [], hs => exact absurd hs.1 hD
      | (b, w) :: r, hs => exact ⟨w, r, by rw [hs.2.1]⟩
  obtain ⟨w, rest, rfl⟩ := key
  have h1 : getSampleSize ((feed D, w) :: rest) = .ok D.length := by
    simp [getSampleSize, OTFS.getSampleSize, feed_n]
  refine ⟨h1, ?_, ?_⟩
  · intro hD
    have hl : D.length ≠ 0 := by simpa using hD
    simp only [getSampleMean, h1, bind, Except.bind, hl, hD, if_false, C01_mean]
  · intro h2
    have h3 : ¬ D.length < 2 := by omega
    simp [getBlockVariance, hasBlockVariance, bind, Except.bind, C01_variance, h2, h3,
      OTFS.getSampleSize, feed_n]

theorem flat_length (P : List (K × K)) : (flat P).length = 2 * P.length := by
  induction P with
  | nil => rfl
  | cons p P ih => simp only [flat, List.flatMap_cons, List.length_append, List.length_cons] at ih ⊢
                   simp only [List.length_nil] at *; omega

theorem Semi.getElem? {D : List K} {d : DDDA K} (h : Semi D d []) (k : ℕ) :
    (d[k]?).map (fun p => p.1.n) = if 2 ^ k ≤ D.length then some (D.length / 2 ^ k) else none := by
  induction d generalizing D k with
  | nil =>
    have hl : D.length = 0 := by rw [h.1]; rfl
    have : ¬ 2 ^ k ≤ D.length := by
      have : 1 ≤ 2 ^ k := Nat.one_le_two_pow
      omega
    simp [this]
  | cons p d ih =>
    obtain ⟨b, w⟩ := p
    obtain ⟨hne, hb, P, hP, hr⟩ := h
    cases k with
    | zero =>
      have : 1 ≤ D.length := by
        rcases D with _ | ⟨a, D⟩
        · exact absurd rfl hne
        · simp
      simp [hb, feed_n, this]
    | succ k =>
      have hl := hP.length_eq
      simp only [List.length_append, flat_length] at hl
      have hw : w.toList.length ≤ 1 := by cases w <;> simp
      have hPl : P.length = D.length / 2 := by simp at hl; omega
      simp only [List.getElem?_cons_succ]
      rw [ih hr k, List.length_map, hPl, Nat.div_div_eq_div_mul, pow_succ']
      simp only [Nat.le_div_iff_mul_le (show 0 < 2 by norm_num), mul_comm]

/-- C07: the block structure after any history is the same as if all data had been added to one object:
block `k` has `floor (n / 2 ^ k)` data. -/
theorem C07_sizes {d : DDDA K} {D : List K} (h : Reach d D) (k : ℕ) :
    (d[k]?).map (fun p => p.1.n) =
      if k = 0 ∨ 2 ^ k ≤ D.length then some (D.length / 2 ^ k) else none := by
  rcases h.good with ⟨rfl, rfl⟩ | ⟨hD, hs⟩
  · cases k with
    | zero => simp [init, fresh]
    | succ k => simp [init]
  · rw [hs.getElem? k]
    cases k with
    | zero =>
      have : 1 ≤ D.length := by
        rcases D with _ | ⟨a, D⟩
        · exact absurd rfl hD
        · simp
      simp [this]
    | succ k => simp

/-- C07: hence block existence and availability of variances depend only on the number of data. -/
theorem C07_hasBlockVariance {d : DDDA K} {D : List K} (h : Reach d D) (k : ℕ) :
    hasBlockVariance d k =
      if k = 0 ∨ 2 ^ k ≤ D.length then .ok (decide (2 * 2 ^ k ≤ D.length))
      else .error .valueError := by
  have hk := C07_sizes h k
  unfold hasBlockVariance
  by_cases hc : k = 0 ∨ 2 ^ k ≤ D.length
  · rw [if_pos hc] at hk ⊢
    match hd : d[k]? with
    | none => rw [hd] at hk; simp at hk
    | some (b, w) =>
      rw [hd] at hk
      simp only [Option.map_some, Option.some.injEq] at hk
      simp only [OTFS.getSampleSize, hk]
      congr 1
      rw [decide_eq_decide, Nat.le_div_iff_mul_le (by positivity)]
  · rw [if_neg hc] at hk ⊢
    match hd : d[k]? with
    | none => rfl
    | some (b, w) => rw [hd] at hk; simp at hk

theorem sum_flat (P : List (K × K)) : (flat P).sum = 2 * (P.map avg).sum := by
  induction P with
  | nil => simp [flat]
  | cons p P ih =>
    simp only [flat, List.flatMap_cons, List.sum_append, List.map_cons, List.sum_cons, avg] at ih ⊢
    rw [ih]; simp only [List.sum_nil, add_zero]; ring

/-- C07: nothing is lost or counted twice at any level: the data of block `k` (each standing for `2 ^ k`
data) together with what is pending below add up to the sum of all data. -/
theorem C07_accounting {d : DDDA K} {D : List K} (h : Reach d D) (k : ℕ) (b : OTFS K) (w : Option K)
    (hk : d[k]? = some (b, w)) :
    2 ^ k * (b.n * b.M) + ((List.range k).map fun j =>
      2 ^ j * (((d[j]?).bind Prod.snd).getD 0)).sum = D.sum := by
  have key : ∀ (D : List K) (d : DDDA K), Semi D d [] → ∀ k b w, d[k]? = some (b, w) →
      2 ^ k * (b.n * b.M) + ((List.range k).map fun j =>
        2 ^ j * (((d[j]?).bind Prod.snd).getD 0)).sum = D.sum := by
    intro D d hs
    induction d generalizing D with
    | nil => intro k b w hk; simp at hk
    | cons p d ih =>
      intro k b w hk
      obtain ⟨b0, w0⟩ := p
      obtain ⟨hne, hb, P, hP, hr⟩ := hs
      cases k with
      | zero =>
        simp only [List.getElem?_cons_zero, Option.some.injEq, Prod.mk.injEq] at hk
        obtain ⟨rfl, rfl⟩ := hk
        rw [hb, feed_eq]
        simpa using length_mul_mean' D
      | succ k =>
        simp only [List.getElem?_cons_succ] at hk
        have hrec := ih _ hr k b w hk
        have hsum := hP.sum_eq
        simp only [List.sum_append, sum_flat, ← hrec] at hsum
        rw [List.range_succ_eq_map, List.map_cons, List.sum_cons, List.map_map, hsum]
        have hmap : ((List.range k).map ((fun j => 2 ^ j *
            (((((b0, w0) :: d)[j]?).bind Prod.snd).getD 0)) ∘ Nat.succ)).sum =
            2 * ((List.range k).map fun j => 2 ^ j * (((d[j]?).bind Prod.snd).getD 0)).sum := by
          rw [← List.sum_map_mul_left]
          congr 1
          apply List.map_congr_left
          intro j _
          simp only [Function.comp, Nat.succ_eq_add_one, List.getElem?_cons_succ, pow_succ']
          ring
        rw [hmap]
        have hw : w0.toList.sum = w0.getD 0 := by cases w0 <;> simp
        simp only [List.getElem?_cons_zero, Option.bind_some, hw, List.headD_nil,
          Option.toList_none, List.sum_nil]
        ring
  rcases h.good with ⟨rfl, rfl⟩ | ⟨hD, hs⟩
  · cases k with
    | zero =>
      simp only [init, List.getElem?_cons_zero, Option.some.injEq, Prod.mk.injEq] at hk
      rw [← hk.1]; simp [fresh]
    | succ k => simp [init] at hk
  · exact key D d hs k b w hk

/-- Merging `1, 3, 5` with `7`: both have a pending datum at level 0; block 1 gets `2` and `6`. -/
example : ∃ u, merge (feedD ([1, 3, 5] : List ℚ)) (feedD [7]) = .ok u ∧
    u.map (fun p => (p.1.n, p.1.M, p.2)) = [(4, 4, none), (2, 4, none), (1, 4, some 4)] := by
  refine ⟨_, merge_eq _ _, ?_⟩
  norm_num [feedD, addDatum, pushFrom, init, zipMerge, mergeWaiting, mergeWaiting_nil, mergeS, OTFS.mergeSample,
    OTFS.addDatum, fresh, OTFS.getSampleMean, bind, Except.bind]

theorem reach_feedD (xs : List K) : Reach (feedD xs) xs := by
  induction xs using List.reverseRecOn with
  | nil => exact .init
  | append_singleton xs x ih => rw [feedD_append_singleton]; exact .add x ih

/-- The last sentence of C07 is false: merging an object with itself differs from merging it with an
equal copy. Witness: five data. The self-merge leaves blocks of sizes 10, 5, 3, 1, which no history
of additions and merges of distinct objects can produce (block 2 should have 2 data). -/
theorem C07_selfMerge_violated :
    ∃ d u v : DDDA ℚ, Reach d [1, 2, 3, 4, 5] ∧ mergeSelf d = .ok u ∧ merge d d = .ok v ∧
      u.map (fun p => p.1.n) = [10, 5, 3, 1] ∧ v.map (fun p => p.1.n) = [10, 5, 2, 1] := by
  refine ⟨feedD [1, 2, 3, 4, 5], _, _, reach_feedD _, mergeSelf_eq _, merge_eq _ _, ?_, ?_⟩
  · norm_num [feedD, addDatum, pushFrom, init, selfMergeWaiting, mergeS, OTFS.mergeSample,
      OTFS.addDatum, fresh, OTFS.getSampleMean, OTFS.getSampleVariance, OTFS.getSampleSize, bind,
      Except.bind]
  · norm_num [feedD, addDatum, pushFrom, init, zipMerge, mergeWaiting, mergeWaiting_nil, mergeS, OTFS.mergeSample,
      OTFS.addDatum, fresh, OTFS.getSampleMean, OTFS.getSampleVariance, OTFS.getSampleSize, bind,
      Except.bind]

/-! ## C06 -/

/-- `Hist d`: a client can obtain `d` by any history of additions and merges, including merging an
object with itself. -/
inductive Hist : DDDA K → Prop
  | init : Hist init
  | add {d : DDDA K} (x : K) : Hist d → Hist (addDatum d x)
  | merge {d e u : DDDA K} : Hist d → Hist e → merge d e = .ok u → Hist u
  | mergeSelf {d u : DDDA K} : Hist d → mergeSelf d = .ok u → Hist u

def GoodSizes (d : DDDA K) : Prop := d = init ∨ (d ≠ [] ∧ SizesOk d [])

theorem zip_init_sizes {d : DDDA K} (h : d ≠ []) (hs : SizesOk d []) :
    zipMerge d init ≠ [] ∧ SizesOk (zipMerge d init) [] := by
  match d, hs with
  | [], _ => exact absurd rfl h
  | (b, w) :: r, hs =>
    have h2 : zipMerge ((b, w) :: r) init = (mergeS b fresh, w) :: r := by
      cases r <;> simp [init, zipMerge]
    rw [h2]
    obtain ⟨h1, h2, h3, h4⟩ := hs
    have hn : (mergeS b fresh).n = b.n := by rw [(mergeSample_ok _ _).2]; rfl
    exact ⟨by simp, by rw [hn]; exact h1, by rw [hn]; exact h2, by rw [hn]; exact h3, h4⟩

theorem mergeWaiting_ne_nil {d : DDDA K} (h : d ≠ []) (ws : List (Option K)) :
    mergeWaiting d ws ≠ [] := by
  match d, ws with
  | [], _ => exact absurd rfl h
  | (b, w) :: ds, [] => simp [mergeWaiting]
  | (b, w) :: ds, none :: ws => simp [mergeWaiting]
  | (b, none) :: ds, some y :: ws => simp [mergeWaiting]
  | (b, some x) :: ds, some y :: ws => simp [mergeWaiting]

theorem zipMerge_ne_nil {d e : DDDA K} (h : e ≠ []) : zipMerge d e ≠ [] := by
  match d, e with
  | [], [] => exact absurd rfl h
  | [], q :: r => simp [zipMerge]
  | p :: d, [] => exact absurd rfl h
  | (b, w) :: d, (b2, w2) :: r => simp [zipMerge]

theorem selfMergeWaiting_ne_nil {d : DDDA K} (h : d ≠ []) (n : ℕ) : selfMergeWaiting n d ≠ [] := by
  match n, d with
  | _, [] => exact absurd rfl h
  | 0, p :: d => simp [selfMergeWaiting]
  | n + 1, (b, none) :: d => simp [selfMergeWaiting]
  | n + 1, (b, some x) :: d => simp [selfMergeWaiting]

theorem hist_sizes {d : DDDA K} (h : Hist d) : GoodSizes d := by
  induction h with
  | init => exact Or.inl rfl
  | add x _ ih =>
    right
    refine ⟨pushFrom_ne_nil _ _, ?_⟩
    rcases ih with rfl | ⟨-, hs⟩
    · simp [init, addDatum, pushFrom, SizesOk, fresh, OTFS.addDatum]
    · exact hs.push x
  | @merge d e u _ _ hu ihd ihe =>
    rw [merge_eq] at hu
    obtain rfl := Except.ok.inj hu
    rcases ihd with rfl | ⟨hd0, hd⟩ <;> rcases ihe with rfl | ⟨he0, he⟩
    · left; simp [init, zipMerge, mergeS_fresh_right_fresh, mergeWaiting]
    · right
      have hz := (SizesOk.zip (s := []) (by simp [SizesOk]) he).finish
      refine ⟨mergeWaiting_ne_nil (zipMerge_ne_nil he0) _, ?_⟩
      match e, he with
      | [], he => exact absurd rfl he0
      | (b, w) :: r, he => simpa [init, zipMerge] using hz
    · right
      refine ⟨mergeWaiting_ne_nil (zip_init_sizes hd0 hd).1 _, ?_⟩
      have h1 := zip_init_sizes hd0 hd
      have h3 : mergeWaiting (zipMerge d init) (List.map Prod.snd (init : DDDA K)) =
          zipMerge d init := by
        match hz : zipMerge d init with
        | [] => simp [mergeWaiting]
        | (b, w) :: r => cases r <;> simp [init, mergeWaiting]
      rw [h3]; exact h1.2
    · right
      exact ⟨mergeWaiting_ne_nil (zipMerge_ne_nil he0) _, (SizesOk.zip hd he).finish⟩
  | @mergeSelf d u _ hu ih =>
    rw [mergeSelf_eq] at hu
    obtain rfl := Except.ok.inj hu
    rcases ih with rfl | ⟨h0, hs⟩
    · left; simp [init, mergeS_fresh_right_fresh, selfMergeWaiting]
    · right
      exact ⟨selfMergeWaiting_ne_nil (by simpa using h0) _,
        hs.double.1.selfFinish hs.double.2⟩

theorem SizesOk.nontop {d : DDDA K} (h : SizesOk d []) {k : ℕ} {p : Block K}
    (hk : d[k]? = some p) (hlt : k + 1 < d.length) : 2 ≤ p.1.n := by
  induction d generalizing k with
  | nil => simp at hk
  | cons q d ih =>
    obtain ⟨b, w⟩ := q
    obtain ⟨h1, h2, h3, h4⟩ := h
    cases k with
    | zero =>
      simp only [List.getElem?_cons_zero, Option.some.injEq] at hk
      rw [← hk]
      apply h3
      rintro rfl; simp at hlt
    | succ k =>
      simp only [List.getElem?_cons_succ] at hk
      exact ih h4 hk (by simpa using hlt)

/-- The criterion of Lee et al. for block `k`: `B ^ 3 > 2 n (SE_k / SE_0) ^ 4` with `B = 2 ^ k`, in
terms of what the object reports. -/
def Criterion (d : DDDA ℝ) (k : ℕ) : Prop :=
  ∃ n se se0, getSampleSize d = .ok n ∧ getBlockStandardErrorOfTheMean d k = .ok se ∧
    getBlockStandardErrorOfTheMean d 0 = .ok se0 ∧
    ((2 : ℝ) ^ k) ^ 3 > 2 * n * (se / se0) ^ 4

/-- What the choice of a block should be: the smallest block with the criterion, or, if there is none,
the largest block that has a variance. -/
def IsOptimal (d : DDDA ℝ) (r : ℕ) : Prop :=
  hasBlockVariance d r = .ok true ∧
  ((Criterion d r ∧ ∀ j < r, ¬ Criterion d j) ∨
    ((∀ j, ¬ Criterion d j) ∧ ∀ j, r < j → hasBlockVariance d j ≠ .ok true))

open Classical in
theorem step_eq {d : DDDA ℝ} {n : ℕ} {se0 : ℝ} (hn : getSampleSize d = .ok n)
    (h0 : getBlockStandardErrorOfTheMean d 0 = .ok se0) (o : ℤ) (k : ℕ) (b : OTFS ℝ) (w : Option ℝ)
    (hk : d[k]? = some (b, w)) (hb : 2 ≤ b.n) :
    optimalStep d se0 o k = .ok (if Criterion d k then (k : ℤ) else o) := by
  have hv : hasBlockVariance d k = .ok true := by
    simp [hasBlockVariance, hk, OTFS.getSampleSize, hb]
  have hse : b.getStandardErrorOfTheMean =
      .ok (Real.sqrt (b.S / ((b.n : ℝ) - 1)) / Real.sqrt b.n) := by
    have : ¬ b.n ≤ 1 := by omega
    simp [OTFS.getStandardErrorOfTheMean, OTFS.getSampleStandardDeviation, OTFS.getSampleVariance,
      this, bind, Except.bind, OTFS.getSampleSize]
  have hbse : getBlockStandardErrorOfTheMean d k =
      .ok (Real.sqrt (b.S / ((b.n : ℝ) - 1)) / Real.sqrt b.n) := by
    simp only [getBlockStandardErrorOfTheMean, hv, bind, Except.bind, not_true, if_false, hk, hse]
  set se := Real.sqrt (b.S / ((b.n : ℝ) - 1)) / Real.sqrt b.n with hsedef
  have hc : Criterion d k ↔ (((2 ^ k) ^ 3 : ℕ) : ℝ) > 2 * (n : ℝ) * (se / se0) ^ 4 := by
    constructor
    · rintro ⟨n', se', se0', h1, h2, h3, h4⟩
      rw [hn] at h1; rw [hbse] at h2; rw [h0] at h3
      obtain rfl := Except.ok.inj h1
      obtain rfl := Except.ok.inj h2
      obtain rfl := Except.ok.inj h3
      push_cast; exact h4
    · intro h
      refine ⟨n, se, se0, hn, hbse, h0, ?_⟩
      push_cast at h; exact h
  unfold optimalStep
  simp only [hv, bind, Except.bind, not_true, if_false, hk, hse, hn]
  by_cases h : Criterion d k
  · rw [if_pos (hc.mp h), if_pos h]
  · rw [if_neg (fun h' => h (hc.mpr h')), if_neg h]

open Classical in
theorem loop_eq {d : DDDA ℝ} {n : ℕ} {se0 : ℝ} (hn : getSampleSize d = .ok n)
    (h0 : getBlockStandardErrorOfTheMean d 0 = .ok se0) (m : ℕ)
    (hm : ∀ k < m, ∃ b w, d[k]? = some (b, w) ∧ 2 ≤ b.n) (o : ℕ) :
    ∃ r : ℕ, (List.range m).reverse.foldlM (optimalStep d se0) (o : ℤ) = .ok (r : ℤ) ∧
      ((r < m ∧ Criterion d r ∧ ∀ j < r, ¬ Criterion d j) ∨
        (r = o ∧ ∀ j < m, ¬ Criterion d j)) := by
  induction m generalizing o with
  | zero => exact ⟨o, by simp [pure, Except.pure], Or.inr ⟨rfl, by simp⟩⟩
  | succ m ih =>
    obtain ⟨b, w, hk, hb⟩ := hm m (by omega)
    rw [List.range_succ, List.reverse_append, List.reverse_singleton, List.singleton_append,
      List.foldlM_cons, step_eq hn h0 _ m b w hk hb]
    by_cases hc : Criterion d m
    · obtain ⟨r, hr, hcase⟩ := ih (fun k hk => hm k (by omega)) m
      refine ⟨r, by simpa [hc, bind, Except.bind] using hr, Or.inl ?_⟩
      rcases hcase with ⟨h1, h2, h3⟩ | ⟨rfl, h2⟩
      · exact ⟨by omega, h2, h3⟩
      · exact ⟨by omega, hc, h2⟩
    · obtain ⟨r, hr, hcase⟩ := ih (fun k hk => hm k (by omega)) o
      refine ⟨r, by simpa [hc, bind, Except.bind] using hr, ?_⟩
      rcases hcase with ⟨h1, h2, h3⟩ | ⟨rfl, h2⟩
      · exact Or.inl ⟨by omega, h2, h3⟩
      · refine Or.inr ⟨rfl, fun j hj => ?_⟩
        rcases Nat.lt_succ_iff_lt_or_eq.mp hj with h | rfl
        · exact h2 j h
        · exact hc

theorem criterion_lt {d : DDDA ℝ} {j : ℕ} (h : Criterion d j) : hasBlockVariance d j = .ok true := by
  obtain ⟨n, se, se0, -, h2, -⟩ := h
  unfold getBlockStandardErrorOfTheMean at h2
  match hv : hasBlockVariance d j with
  | .error e => rw [hv] at h2; simp [bind, Except.bind] at h2
  | .ok false => rw [hv] at h2; simp [bind, Except.bind] at h2
  | .ok true => rfl

/-- C06: the call raises `RuntimeError` if there are fewer than two data. -/
theorem C06_tooFew {d : DDDA ℝ} (n : ℕ) (hn : getSampleSize d = .ok n) (h2 : n < 2) :
    getOptimalBlockID d = .error .runtimeError := by
  simp [getOptimalBlockID, hn, bind, Except.bind, h2]

/-- C06: for every history and at least two data, the assertion in the loop is never violated and no
exception is raised; the result is 0 if the raw standard error vanishes, and the optimal block
otherwise. -/
theorem C06_optimal {d : DDDA ℝ} (h : Hist d) (n : ℕ) (hn : getSampleSize d = .ok n) (h2 : 2 ≤ n) :
    ∃ se0, getBlockStandardErrorOfTheMean d 0 = .ok se0 ∧
    ∃ r : ℕ, getOptimalBlockID d = .ok (r : ℤ) ∧ hasBlockVariance d r = .ok true ∧
      (se0 = 0 → r = 0) ∧ (se0 ≠ 0 → IsOptimal d r) := by
  rcases hist_sizes h with rfl | ⟨hne, hs⟩
  · simp [init, getSampleSize, OTFS.getSampleSize, fresh] at hn; omega
  obtain ⟨b0, w0, rest, rfl⟩ : ∃ b w rest, d = (b, w) :: rest := by
    match d, hne with
    | (b, w) :: rest, _ => exact ⟨b, w, rest, rfl⟩
  set d : DDDA ℝ := (b0, w0) :: rest with hd
  have hb0 : b0.n = n := by simpa [hd, getSampleSize, OTFS.getSampleSize] using hn
  have hv0 : hasBlockVariance d 0 = .ok true := by
    simp [hd, hasBlockVariance, OTFS.getSampleSize, hb0, h2]
  obtain ⟨se0, hse⟩ : ∃ se0, b0.getStandardErrorOfTheMean = .ok se0 := by
    have : ¬ b0.n ≤ 1 := by omega
    exact ⟨_, by simp [OTFS.getStandardErrorOfTheMean, OTFS.getSampleStandardDeviation,
      OTFS.getSampleVariance, this, bind, Except.bind, OTFS.getSampleSize]; rfl⟩
  have h0 : getBlockStandardErrorOfTheMean d 0 = .ok se0 := by
    have he : d[0]? = some (b0, w0) := rfl
    simp only [getBlockStandardErrorOfTheMean, hv0, bind, Except.bind, not_true, if_false, he, hse]
  refine ⟨se0, h0, ?_⟩
  have hunf : getOptimalBlockID d = if se0 = 0 then .ok 0 else
      (List.range (getMaximumBlockID d + 1)).reverse.foldlM (optimalStep d se0)
        (getMaximumBlockID d : ℤ) := by
    have : ¬ n < 2 := by omega
    unfold getOptimalBlockID
    rw [hn]
    simp only [bind, Except.bind, this, if_false, hd, hse]
  by_cases hz : se0 = 0
  · exact ⟨0, by simp [hunf, hz], hv0, fun _ => rfl, fun h => absurd hz h⟩
  rw [hunf, if_neg hz]
  set M := getMaximumBlockID d with hM
  have hlen : d.length = M + 1 := by simp [hM, getMaximumBlockID, hd]
  have hbelow : ∀ k < M, ∃ b w, d[k]? = some (b, w) ∧ 2 ≤ b.n := by
    intro k hk
    obtain ⟨p, hp⟩ : ∃ p, d[k]? = some p := ⟨d[k]'(by omega), List.getElem?_eq_getElem (by omega)⟩
    exact ⟨p.1, p.2, hp, hs.nontop hp (by omega)⟩
  have hvbelow : ∀ k < M, hasBlockVariance d k = .ok true := by
    intro k hk
    obtain ⟨b, w, h1, h2⟩ := hbelow k hk
    simp [hasBlockVariance, h1, OTFS.getSampleSize, h2]
  have habove : ∀ j, M < j → hasBlockVariance d j ≠ .ok true := by
    intro j hj
    have : d[j]? = none := List.getElem?_eq_none (by omega)
    simp [hasBlockVariance, this]
  obtain ⟨⟨bM, wM⟩, hpM⟩ : ∃ p, d[M]? = some p :=
    ⟨d[M]'(by omega), List.getElem?_eq_getElem (by omega)⟩
  by_cases hvM : 2 ≤ bM.n
  · have hvM' : hasBlockVariance d M = .ok true := by
      simp [hasBlockVariance, hpM, OTFS.getSampleSize, hvM]
    obtain ⟨r, hr, hcase⟩ := loop_eq hn h0 (M + 1) (by
      intro k hk
      rcases Nat.lt_succ_iff_lt_or_eq.mp hk with h | rfl
      · exact hbelow k h
      · exact ⟨bM, wM, hpM, hvM⟩) M
    have hvr : hasBlockVariance d r = .ok true := by
      rcases hcase with ⟨-, h, -⟩ | ⟨rfl, -⟩
      · exact criterion_lt h
      · exact hvM'
    refine ⟨r, hr, hvr, fun h => absurd h hz, fun _ => ⟨hvr, ?_⟩⟩
    rcases hcase with ⟨-, h1, h2⟩ | ⟨rfl, h2⟩
    · exact Or.inl ⟨h1, h2⟩
    · refine Or.inr ⟨fun j hj => ?_, habove⟩
      by_cases hjM : j < M + 1
      · exact h2 j hjM hj
      · exact habove j (by omega) (criterion_lt hj)
  · have hvM' : hasBlockVariance d M = .ok false := by
      have : hasBlockVariance d M = .ok (decide (2 ≤ bM.n)) := by
        unfold hasBlockVariance; rw [hpM]; rfl
      rw [this, decide_eq_false hvM]
    have hM1 : 1 ≤ M := by
      by_contra hM0
      have : M = 0 := by omega
      rw [this, hv0] at hvM'
      simp at hvM'
    have hstep : optimalStep d se0 (M : ℤ) M = .ok ((M - 1 : ℕ) : ℤ) := by
      simp only [optimalStep, hvM', bind, Except.bind, Bool.false_eq_true, not_false_eq_true,
        if_true, ← hM, ne_eq, not_true, if_false]
      congr 1; push_cast [hM1]; rfl
    obtain ⟨r, hr, hcase⟩ := loop_eq hn h0 M hbelow (M - 1)
    have hvr : hasBlockVariance d r = .ok true := by
      rcases hcase with ⟨-, h, -⟩ | ⟨rfl, -⟩
      · exact criterion_lt h
      · exact hvbelow _ (by omega)
    refine ⟨r, ?_, hvr, fun h => absurd h hz, fun _ => ⟨hvr, ?_⟩⟩
    · rw [List.range_succ, List.reverse_append, List.reverse_singleton, List.singleton_append,
        List.foldlM_cons, hstep]
      simpa [bind, Except.bind] using hr
    · have hnM : hasBlockVariance d M ≠ .ok true := by rw [hvM']; simp
      rcases hcase with ⟨-, h1, h2⟩ | ⟨rfl, h2⟩
      · exact Or.inl ⟨h1, h2⟩
      · refine Or.inr ⟨fun j hj => ?_, fun j hj => ?_⟩
        · rcases lt_trichotomy j M with h | rfl | h
          · exact h2 j h hj
          · exact hnM (criterion_lt hj)
          · exact habove j h (criterion_lt hj)
        · rcases Nat.lt_or_ge M j with h | h
          · exact habove j h
          · have : j = M := by omega
            rw [this]; exact hnM

/-- A history with a self-merge and three data. -/
example : ∃ u : DDDA ℝ, Hist u ∧ getSampleSize u = .ok 6 := by
  refine ⟨_, .mergeSelf (.add 3 (.add 2 (.add 1 .init))) (mergeSelf_eq _), ?_⟩
  norm_num [addDatum, pushFrom, init, selfMergeWaiting, mergeS, OTFS.mergeSample,
      OTFS.addDatum, fresh, OTFS.getSampleMean, OTFS.getSampleVariance, OTFS.getSampleSize, bind,
      Except.bind, getSampleSize]

end OpenMPCD.DDDA
