import Verif.Stats.Lemmas
import Mathlib.Data.Rat.Encodable
import Mathlib.Algebra.Order.Ring.Rat
import Mathlib.Algebra.Field.Rat
import Mathlib.Logic.Equiv.Nat
import Mathlib.Logic.Encodable.Basic

/-!
# Properties C01 - C04: on-the-fly statistics
-/

set_option linter.unusedSectionVars false
set_option linter.unusedSimpArgs false

namespace OpenMPCD.Stats

variable {K : Type*} [Field K] [LinearOrder K] [IsStrictOrderedRing K]

/-! ## C01 -/

/-- C01: the reported size is the number of data. -/
theorem C01_size (xs : List K) : (feed xs).getSampleSize = xs.length := by
  simp [OTFS.getSampleSize, feed_n]

/-- C01: the reported mean is the arithmetic mean; asking for it raises `ValueError` exactly if there
are no data. -/
theorem C01_mean (xs : List K) :
    (feed xs).getSampleMean =
      if xs = [] then .error .valueError else .ok (Spec.mean xs) := by
  rw [feed_eq]; simp [OTFS.getSampleMean]

/-- C01: the reported variance is the unbiased sample variance; asking for it raises `ValueError`
exactly if there are fewer than two data. -/
theorem C01_variance (xs : List K) :
    (feed xs).getSampleVariance =
      if xs.length < 2 then .error .valueError else .ok (Spec.variance xs) := by
  rw [feed_eq]; simp only [OTFS.getSampleVariance, Spec.variance, Nat.lt_succ_iff]

/-- C01: the standard error of the mean is `sqrt (variance / size)`, and raises exactly if there are
fewer than two data. -/
theorem C01_standardError (xs : List ℝ) :
    (feed xs).getStandardErrorOfTheMean =
      if xs.length < 2 then .error .valueError
      else .ok (Real.sqrt (Spec.variance xs / xs.length)) := by
  unfold OTFS.getStandardErrorOfTheMean OTFS.getSampleStandardDeviation
  rw [C01_variance]
  split
  · rfl
  · rename_i h
    have hv : 0 ≤ Spec.variance xs := by
      apply div_nonneg (sumSqDev_nonneg xs)
      have : (2 : ℝ) ≤ xs.length := by exact_mod_cast not_lt.mp h
      linarith
    simp only [bind, Except.bind, OTFS.getSampleSize, feed_n]
    rw [Real.sqrt_div hv]

/-- C01, constructor with arguments: constructing from the mean, variance and size of at least two
data gives the same object as adding these data. -/
theorem C01_construct (xs : List K) (h : 2 ≤ xs.length) :
    construct (some (Spec.mean xs)) (some (Spec.variance xs)) (some xs.length) = .ok (feed xs) := by
  have h1 : (xs.length : K) - 1 ≠ 0 := by
    rw [sub_ne_zero]; have : xs.length ≠ 1 := by omega
    exact_mod_cast this
  rw [feed_eq]; simp only [construct, Spec.variance]
  congr 2
  field_simp

/-- The data `1, 2, 6`: mean 3, variance 7. -/
example : (feed [1, 2, 6] : OTFS ℚ).getSampleMean = .ok 3 ∧
    (feed [1, 2, 6] : OTFS ℚ).getSampleVariance = .ok 7 := by
  rw [C01_mean, C01_variance, if_neg (by simp), if_neg (by simp)]
  constructor <;> norm_num [Spec.mean, Spec.variance, Spec.sumSqDev]

example : 2 ≤ ([1, 2, 6] : List ℚ).length := by simp

/-! ## C02 -/

/-- `Built s xs`: a client can obtain the object `s` by adding data and merging objects, starting
from new objects, and `xs` are all the data involved. -/
inductive Built : OTFS K → List K → Prop
  | fresh : Built fresh []
  | add {s : OTFS K} {xs : List K} (x : K) : Built s xs → Built (s.addDatum x) (xs ++ [x])
  | merge {s t u : OTFS K} {xs ys : List K} :
      Built s xs → Built t ys → s.mergeSample t = .ok u → Built u (xs ++ ys)

/-- C02: however an object was built by adding and merging, it is in the state reached by adding all
data involved one by one. -/
theorem C02_built_eq_feed {s : OTFS K} {xs : List K} (h : Built s xs) : s = feed xs := by
  induction h with
  | fresh => rfl
  | add x _ ih => rw [ih, feed_append_singleton]
  | merge _ _ hu ihs iht =>
    rw [ihs, iht, mergeSample_feed] at hu
    exact (Except.ok.inj hu).symm

/-- C02: merging never raises. -/
theorem C02_merge_total {s t : OTFS K} {xs ys : List K} (hs : Built s xs) (ht : Built t ys) :
    s.mergeSample t = .ok (feed (xs ++ ys)) := by
  rw [C02_built_eq_feed hs, C02_built_eq_feed ht, mergeSample_feed]

/-- C02: two objects built from the same data in any order, by any sequences of additions and merges,
are equal. -/
theorem C02_order_irrelevant {s t : OTFS K} {xs ys : List K} (hs : Built s xs) (ht : Built t ys)
    (h : xs.Perm ys) : s = t := by
  rw [C02_built_eq_feed hs, C02_built_eq_feed ht, feed_perm h]

/-- C02: `mergeSamples` over any list of partial samples gives the pooled statistics. -/
theorem C02_mergeSamples (xs : List K) (parts : List (List K)) :
    (feed xs).mergeSamples (parts.map feed) = .ok (feed (xs ++ parts.flatten)) := by
  induction parts generalizing xs with
  | nil => simp [OTFS.mergeSamples]
  | cons p ps ih =>
    simp only [List.map_cons, OTFS.mergeSamples, mergeSample_feed, bind, Except.bind, ih]
    simp

/-- C02: in particular, size, mean and variance after a merge are those of the pooled data. -/
theorem C02_merge_statistics {s t u : OTFS K} {xs ys : List K} (hs : Built s xs) (ht : Built t ys)
    (hu : s.mergeSample t = .ok u) (hn : 2 ≤ (xs ++ ys).length) :
    u.getSampleSize = (xs ++ ys).length ∧ u.getSampleMean = .ok (Spec.mean (xs ++ ys)) ∧
      u.getSampleVariance = .ok (Spec.variance (xs ++ ys)) := by
  rw [C02_built_eq_feed (Built.merge hs ht hu)]
  refine ⟨C01_size _, ?_, ?_⟩
  · rw [C01_mean, if_neg]; rintro h; simp [h] at hn
  · rw [C01_variance, if_neg]; omega

/-- Non-vacuity: merging the samples `{1}`, `{2, 6}` built in two ways. -/
example : ∃ u : OTFS ℚ, Built u ([] ++ [1] ++ ([] ++ [2] ++ [6])) ∧ u = feed [6, 1, 2] := by
  have h1 : Built (fresh.addDatum (1 : ℚ)) ([] ++ [1]) := .add 1 .fresh
  have h2 : Built ((fresh.addDatum (2 : ℚ)).addDatum 6) ([] ++ [2] ++ [6]) :=
    .add 6 (.add 2 .fresh)
  refine ⟨_, .merge h1 h2 (C02_merge_total h1 h2), ?_⟩
  · apply feed_perm
    simpa using (List.perm_append_comm (l₁ := [(1 : ℚ), 2]) (l₂ := [6]))

/-! ## C03 -/

/-- A state that adding data can produce, as far as `unserializeFromString` checks it. -/
def PlausibleState (s : OTFS K) : Prop := 0 ≤ s.S ∧ (s.n = 0 → s.M = 0 ∧ s.S = 0)

theorem plausible_feed (xs : List K) : PlausibleState (feed xs) := by
  rw [feed_eq]
  refine ⟨sumSqDev_nonneg xs, fun h => ?_⟩
  have : xs = [] := by simpa using h
  subst this; simp [Spec.mean, Spec.sumSqDev]

theorem notMem_num (io : NumIO K) (x : K) : ';' ∉ io.numPrint x := fun h =>
  (io.num_clean x _ h).1 rfl

theorem notMem_int (io : NumIO K) (x : ℤ) : ';' ∉ io.intPrint x := fun h =>
  (io.int_clean x _ h).1 rfl

theorem split_serialized (io : NumIO K) (s : OTFS K) :
    splitChar ';' (s.serializeToString io) =
      [['1'], io.intPrint s.n, io.numPrint s.M, io.numPrint s.S] := by
  have h := splitChar_flatMap (sep := ';') ['1']
    [io.intPrint s.n, io.numPrint s.M, io.numPrint s.S] (by decide) (by
      intro p hp
      simp only [List.mem_cons, List.not_mem_nil, or_false] at hp
      rcases hp with rfl | rfl | rfl
      · exact notMem_int io _
      · exact notMem_num io _
      · exact notMem_num io _)
  rw [← h]; simp [OTFS.serializeToString]

theorem unserialize_serialize (io : NumIO K) (t s : OTFS K) (hs : PlausibleState s) :
    t.unserializeFromString io (s.serializeToString io) = (s, .ok ()) := by
  have h1 : io.intParse ['1'] = some 1 := by rw [← io.one_is, io.int_round]
  have hS : ¬ s.S < 0 := not_lt.mpr hs.1
  have hz : ¬ ((s.n : ℤ) = 0 ∧ (s.M ≠ 0 ∨ s.S ≠ 0)) := by
    rintro ⟨h, h'⟩
    have := hs.2 (by exact_mod_cast h)
    rcases h' with h' | h'
    · exact h' this.1
    · exact h' this.2
  have hn : ¬ ((s.n : ℤ) < 0) := by omega
  unfold OTFS.unserializeFromString
  simp only [split_serialized, h1, io.int_round, io.num_round, hn, hz, hS, if_false, ne_eq,
    not_true_eq_false, Int.toNat_natCast]

/-- C03: restoring a serialized object - into any object - gives the serialized object. -/
theorem C03_roundtrip (io : NumIO K) {s : OTFS K} {xs : List K} (hs : Built s xs) (t : OTFS K) :
    t.unserializeFromString io (s.serializeToString io) = (s, .ok ()) :=
  unserialize_serialize io t s (C02_built_eq_feed hs ▸ plausible_feed xs)

/-- C03: whatever the string, restoring either installs a plausible state or raises and leaves the
object unchanged. -/
theorem C03_any_string (io : NumIO K) (t : OTFS K) (str : List Char) :
    let r := t.unserializeFromString io str
    (r.2 = .ok () ∧ PlausibleState r.1) ∨ (r.2 = .error .valueError ∧ r.1 = t) := by
  intro r
  have hne := splitChar_ne_nil ';' str
  simp only [r, OTFS.unserializeFromString]
  split
  · rename_i h; exact absurd h hne
  split
  · right; simp
  split
  · right; simp
  split
  · split
    · right; simp
    split
    · right; simp
    split
    · right; simp
    rename_i _ n _ _ M _ _ S _
    by_cases h1 : n < 0
    · right; simp [h1]
    by_cases h2 : n = 0 ∧ (M ≠ 0 ∨ S ≠ 0)
    · right; simp only [h1, h2, if_true, if_false]; simp
    by_cases h3 : S < 0
    · right; simp only [h1, h2, h3, if_true, if_false]; simp
    · left
      simp only [h1, h2, h3, if_false, true_and]
      refine ⟨not_lt.mp h3, fun h => ?_⟩
      have hn : n = 0 := by have h' : n.toNat = 0 := h; omega
      simp only [hn, true_and, not_or, not_not] at h2
      exact h2
  · right; simp

/-- A concrete instance of the assumed printing/parsing interface (numbers written in unary after a
marker), so that the hypotheses on `NumIO` can be met. -/
def unaryIO : NumIO ℚ where
  intPrint i := if i = 1 then ['1'] else 'i' :: List.replicate (Encodable.encode i) 'x'
  intParse
    | ['1'] => some 1
    | 'i' :: s => Encodable.decode s.length
    | _ => none
  numPrint x := 'q' :: List.replicate (Encodable.encode x) 'x'
  numParse
    | 'q' :: s => Encodable.decode s.length
    | _ => none
  int_round i := by
    by_cases h : i = 1
    · simp [h]
    · simp only [h, if_false, List.length_replicate]
      exact Encodable.encodek i
  num_round x := by simp
  int_clean i c h := by
    by_cases hi : i = 1
    · simp [hi] at h; subst h; decide
    · simp only [hi, if_false, List.mem_cons, List.mem_replicate] at h
      rcases h with rfl | ⟨-, rfl⟩ <;> decide
  num_clean x c h := by
    simp only [List.mem_cons, List.mem_replicate] at h
    rcases h with rfl | ⟨-, rfl⟩ <;> decide
  num_nonempty x := by simp
  nat_no_minus n := by
    by_cases hi : (n : ℤ) = 1
    · rw [if_pos hi]; decide
    · rw [if_neg hi]; simp
  one_is := by simp

example (t : OTFS ℚ) : t.unserializeFromString unaryIO
    ((feed [1, 2, 6] : OTFS ℚ).serializeToString unaryIO) = (feed [1, 2, 6], .ok ()) :=
  C03_roundtrip unaryIO (.add 6 (.add 2 (.add 1 .fresh))) t

/-! ## C04 -/

/-- A client adding data to a new C++ object. -/
def cppFeed (xs : List K) : CppOTFS K := xs.foldl CppOTFS.addDatum CppOTFS.fresh

/-- The C++ state corresponding to a Python state. -/
def toCpp (s : OTFS K) : CppOTFS K := ⟨s.n, s.M, s.S⟩

theorem cppFeed_eq (xs : List K) : cppFeed xs = toCpp (feed xs) := by
  induction xs using List.reverseRecOn with
  | nil => rfl
  | append_singleton xs x ih =>
    have : cppFeed (xs ++ [x]) = (cppFeed xs).addDatum x := by simp [cppFeed]
    rw [this, feed_append_singleton, ih]; rfl

/-- C04: the C++ class reports the size, mean and variance of the data, with `0` for the mean of no
data and for the variance of fewer than two. -/
theorem C04_cpp_statistics (xs : List K) :
    (cppFeed xs).getSampleSize = xs.length ∧
    (cppFeed xs).getSampleMean = (if xs = [] then 0 else Spec.mean xs) ∧
    (cppFeed xs).getSampleVariance = (if xs.length < 2 then 0 else Spec.variance xs) := by
  rw [cppFeed_eq, feed_eq]
  refine ⟨rfl, ?_, ?_⟩
  · split
    · rename_i h; subst h; simp [toCpp, CppOTFS.getSampleMean, Spec.mean]
    · rfl
  · show (if xs.length < 2 then 0 else Spec.sumSqDev xs / ((xs.length - 1 : ℕ) : K)) = _
    by_cases h : xs.length < 2
    · simp [h]
    · rw [if_neg h, if_neg h, Spec.variance, Nat.cast_sub (by omega)]; simp

/-- C04: C++ and Python report the same: wherever Python returns a value, C++ returns the same value;
wherever Python raises, C++ returns 0. -/
theorem C04_agreement (xs : List K) :
    (cppFeed xs).getSampleSize = (feed xs).getSampleSize ∧
    (cppFeed xs).getSampleMean = (match (feed xs).getSampleMean with | .ok m => m | .error _ => 0) ∧
    (cppFeed xs).getSampleVariance =
      (match (feed xs).getSampleVariance with | .ok v => v | .error _ => 0) := by
  rw [C01_size, C01_mean, C01_variance]
  obtain ⟨h1, h2, h3⟩ := C04_cpp_statistics xs
  refine ⟨h1, ?_, ?_⟩
  · rw [h2]; split <;> rfl
  · rw [h3]; split <;> rfl

/-- C04: Python accepts what C++ wrote and then holds the same statistics. -/
theorem C04_cpp_to_python (io : NumIO K) (xs : List K) (t : OTFS K) :
    t.unserializeFromString io ((cppFeed xs).serializeToString io) = (feed xs, .ok ()) := by
  rw [cppFeed_eq]
  exact unserialize_serialize io t _ (plausible_feed xs)

/-- C04: C++ accepts what Python wrote and then holds the same statistics. -/
theorem C04_python_to_cpp (io : NumIO K) (xs : List K) (t : CppOTFS K) :
    t.unserializeFromString io ((feed xs).serializeToString io) = (cppFeed xs, .ok ()) := by
  have h1 : io.intParse ['1'] = some 1 := by rw [← io.one_is, io.int_round]
  have hs := plausible_feed xs
  have hS : ¬ (feed xs).S < 0 := not_lt.mpr hs.1
  have hz : ¬ (((feed xs).n : ℤ) = 0 ∧ ((feed xs).M ≠ 0 ∨ (feed xs).S ≠ 0)) := by
    rintro ⟨h, h'⟩
    have := hs.2 (by exact_mod_cast h)
    rcases h' with h' | h'
    · exact h' this.1
    · exact h' this.2
  have hn : ¬ (((feed xs).n : ℤ) < 0) := by omega
  have hm := io.nat_no_minus (feed xs).n
  have hd : ¬ (['1'] : List Char).head? = some '-' := by decide
  rw [cppFeed_eq]
  unfold CppOTFS.unserializeFromString
  simp only [split_serialized, h1, io.int_round, io.num_round, hn, hz, hS, if_false, ne_eq,
    not_true_eq_false, Int.toNat_natCast, hm, hd]
  rfl

/-- C04: C++ rejects malformed strings without changing the object. -/
theorem C04_cpp_any_string (io : NumIO K) (t : CppOTFS K) (str : List Char) :
    let r := t.unserializeFromString io str
    (r.2 = .ok () ∧ 0 ≤ r.1.varianceHelper ∧
      (r.1.sampleSize = 0 → r.1.mean = 0 ∧ r.1.varianceHelper = 0)) ∨
    (r.2 = .error .invalidArgument ∧ r.1 = t) := by
  intro r
  have hne := splitChar_ne_nil ';' str
  simp only [r, CppOTFS.unserializeFromString]
  split
  · rename_i h; exact absurd h hne
  split
  · right; simp
  split
  · right; simp
  split
  · right; simp
  split
  · split
    · right; simp
    split
    · right; simp
    split
    · right; simp
    split
    · right; simp
    rename_i _ n _ _ M _ _ S _
    by_cases h1 : n < 0
    · right; simp [h1]
    by_cases h2 : n = 0 ∧ (M ≠ 0 ∨ S ≠ 0)
    · right; simp only [h1, h2, if_true, if_false]; simp
    by_cases h3 : S < 0
    · right; simp only [h1, h2, h3, if_true, if_false]; simp
    · left
      simp only [h1, h2, h3, if_false, true_and]
      refine ⟨not_lt.mp h3, fun h => ?_⟩
      have hn : n = 0 := by have h' : n.toNat = 0 := h; omega
      simp only [hn, true_and, not_or, not_not] at h2
      exact h2
  · right; simp

example : (cppFeed [1, 2, 6] : CppOTFS ℚ).getSampleVariance = 7 := by
  rw [(C04_cpp_statistics _).2.2]; norm_num [Spec.mean, Spec.variance, Spec.sumSqDev]

end OpenMPCD.Stats
