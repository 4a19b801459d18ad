import Verif.Stats.Model
import Verif.Stats.Spec
import Mathlib.Tactic.Ring
import Mathlib.Tactic.FieldSimp
import Mathlib.Tactic.LinearCombination
import Mathlib.Tactic.Linarith
import Mathlib.Tactic.Positivity
import Mathlib.Algebra.CharP.Defs
import Mathlib.Algebra.BigOperators.Ring.List
import Mathlib.Algebra.Order.BigOperators.Group.List
import Mathlib.Tactic.NormNum

set_option linter.unusedSectionVars false

namespace OpenMPCD.Stats

variable {K : Type*} [Field K] [LinearOrder K] [IsStrictOrderedRing K]

/-- A client adding the data of a list one after the other to a given object. -/
def addAll (s : OTFS K) (xs : List K) : OTFS K := xs.foldl OTFS.addDatum s

/-- A client adding the data of a list to a new object. -/
def feed (xs : List K) : OTFS K := addAll fresh xs

theorem feed_append_singleton (xs : List K) (x : K) :
    feed (xs ++ [x]) = (feed xs).addDatum x := by
  simp [feed, addAll]

theorem sum_sq_dev_eq (xs : List K) (c : K) :
    (xs.map fun x => (x - c) ^ 2).sum =
      (xs.map fun x => x ^ 2).sum - 2 * c * xs.sum + (xs.length : K) * c ^ 2 := by
  induction xs with
  | nil => simp
  | cons x xs ih => simp only [List.map_cons, List.sum_cons, List.length_cons, ih]; push_cast; ring

theorem length_mul_mean {xs : List K} (h : xs ≠ []) :
    (xs.length : K) * Spec.mean xs = xs.sum := by
  have : (xs.length : K) ≠ 0 := by
    simpa using h
  unfold Spec.mean; field_simp

theorem length_mul_mean' (xs : List K) :
    (xs.length : K) * Spec.mean xs = xs.sum := by
  by_cases h : xs = []
  · simp [h]
  · exact length_mul_mean h

/-- `sumSqDev` without reference to the mean: `Σ x² - n·mean²`. -/
theorem sumSqDev_eq (xs : List K) :
    Spec.sumSqDev xs = (xs.map fun x => x ^ 2).sum - (xs.length : K) * Spec.mean xs ^ 2 := by
  unfold Spec.sumSqDev
  rw [sum_sq_dev_eq, ← length_mul_mean' xs]; ring

theorem sumSqDev_nonneg (xs : List K) : 0 ≤ Spec.sumSqDev xs := by
  unfold Spec.sumSqDev
  apply List.sum_nonneg
  intro y hy
  obtain ⟨x, -, rfl⟩ := List.mem_map.mp hy
  positivity

/-- The three state variables after adding a list of data to a new object. -/
theorem feed_eq (xs : List K) :
    feed xs = ⟨xs.length, Spec.mean xs, Spec.sumSqDev xs⟩ := by
  induction xs using List.reverseRecOn with
  | nil => simp [feed, addAll, fresh, Spec.mean, Spec.sumSqDev]
  | append_singleton xs x ih =>
    rw [feed_append_singleton, ih]
    have hn : ((xs.length : K) + 1) ≠ 0 := by positivity
    have hl := length_mul_mean' xs
    have hmean : Spec.mean (xs ++ [x]) =
        Spec.mean xs + (x - Spec.mean xs) / ((xs.length + 1 : ℕ) : K) := by
      conv_lhs => unfold Spec.mean
      simp only [List.sum_append, List.sum_singleton, List.length_append, List.length_singleton]
      rw [← hl]; push_cast; field_simp; ring
    simp only [OTFS.addDatum, OTFS.mk.injEq]
    refine ⟨by simp, hmean.symm, ?_⟩
    rw [sumSqDev_eq, sumSqDev_eq, hmean]
    simp only [List.map_append, List.map_cons, List.map_nil, List.sum_append, List.sum_singleton,
      List.length_append, List.length_singleton]
    push_cast
    field_simp
    ring

theorem feed_n (xs : List K) : (feed xs).n = xs.length := by rw [feed_eq]

/-- Adding data does not depend on the order. -/
theorem feed_perm {xs ys : List K} (h : xs.Perm ys) : feed xs = feed ys := by
  rw [feed_eq, feed_eq]
  have hm : Spec.mean xs = Spec.mean ys := by unfold Spec.mean; rw [h.sum_eq, h.length_eq]
  rw [sumSqDev_eq, sumSqDev_eq, hm, h.length_eq, (h.map _).sum_eq]

theorem feed_one (x : K) : feed [x] = ⟨1, x, 0⟩ := by
  rw [feed_eq]; simp [Spec.mean, Spec.sumSqDev]

theorem addAll_feed (xs ys : List K) : addAll (feed xs) ys = feed (xs ++ ys) := by
  simp [feed, addAll]

/-- Pooling: the core algebra of `mergeSample`. -/
theorem mergeSample_feed (xs ys : List K) :
    (feed xs).mergeSample (feed ys) = .ok (feed (xs ++ ys)) := by
  unfold OTFS.mergeSample
  simp only [feed_n]
  by_cases h0 : xs.length = 0
  · have : xs = [] := by simpa using h0
    subst this; simp [feed_eq]
  rw [if_neg h0]
  by_cases h1 : xs.length = 1
  · rw [if_pos h1]
    obtain ⟨x, rfl⟩ := List.length_eq_one_iff.mp h1
    have : feed ([x] ++ ys) = feed (ys ++ [x]) := feed_perm List.perm_append_comm
    rw [this, feed_append_singleton, feed_one]
    simp [feed_eq]
  rw [if_neg h1]
  by_cases h2 : ys.length = 0
  · have : ys = [] := by simpa using h2
    subst this; simp
  rw [if_neg h2]
  by_cases h3 : ys.length = 1
  · rw [if_pos h3]
    obtain ⟨y, rfl⟩ := List.length_eq_one_iff.mp h3
    rw [feed_append_singleton, feed_one]
    simp [OTFS.getSampleMean, bind, Except.bind]
  rw [if_neg h3]
  have hx2 : ¬ xs.length ≤ 1 := by omega
  have hy2 : ¬ ys.length ≤ 1 := by omega
  have e1 : (xs.length : K) ≠ 0 := by exact_mod_cast h0
  have e2 : (ys.length : K) ≠ 0 := by exact_mod_cast h2
  have e3 : (xs.length : K) + ys.length ≠ 0 := by
    have : (0 : K) < xs.length := by exact_mod_cast Nat.pos_of_ne_zero h0
    positivity
  have e4 : (xs.length : K) - 1 ≠ 0 := by
    rw [sub_ne_zero]; exact_mod_cast h1
  have e5 : (ys.length : K) - 1 ≠ 0 := by
    rw [sub_ne_zero]; exact_mod_cast h3
  have hm : Spec.mean (xs ++ ys) =
      ((xs.length : K) * Spec.mean xs + ys.length * Spec.mean ys) / (xs.length + ys.length) := by
    conv_lhs => unfold Spec.mean
    rw [List.sum_append, ← length_mul_mean' xs, ← length_mul_mean' ys]; simp
  simp only [OTFS.getSampleMean, OTFS.getSampleVariance, OTFS.getSampleSize, feed_n, h0, h2, hx2,
    hy2, if_false, bind, Except.bind]
  congr 1
  rw [feed_eq, feed_eq, feed_eq]
  simp only [OTFS.mk.injEq]
  refine ⟨by simp, ?_, ?_⟩
  · rw [hm]; push_cast; ring
  · rw [sumSqDev_eq (xs ++ ys), hm, sumSqDev_eq xs, sumSqDev_eq ys]
    simp only [List.map_append, List.sum_append, List.length_append]
    push_cast
    field_simp
    ring

end OpenMPCD.Stats
