import Verif.Analysis.Data2D
import Mathlib.Algebra.Order.BigOperators.Group.List
import Mathlib.Algebra.BigOperators.Group.List.Basic
import Mathlib.Analysis.Real.Sqrt
import Mathlib.Tactic.Linarith
import Mathlib.Tactic.FieldSimp
import Mathlib.Tactic.Positivity

/-!
# Statistics of sets of data points (C149)

`Analysis/MPCDAnalysis/Data2D.py`, continued: means, deviations, averages of moving averages, and what is plotted. As before, numbers are
those of an ordered field, except where it is said otherwise.
-/

set_option linter.unusedSectionVars false
set_option linter.unusedSimpArgs false
set_option linter.unusedVariables false

namespace OpenMPCD.Analysis.Stats

open OpenMPCD.Analysis

variable {K : Type} [Field K] [LinearOrder K] [IsStrictOrderedRing K]

/-! ## Model -/

/-- The loops that add up `f y` and count (`Analysis/MPCDAnalysis/Data2D.py:73-77`, `Analysis/MPCDAnalysis/Data2D.py:84-88`,
`Analysis/MPCDAnalysis/Data2D.py:118-122`). -/
def sumLoop (f : K → K) : K × ℕ → List (K × K) → K × ℕ
  | s, [] => s
  | s, p :: rest => sumLoop f (s.1 + f p.2, s.2 + 1) rest

/-- `sum_ / count`. -/
def quotient (s : K × ℕ) : Except PyErr K := if s.2 = 0 then .error .zeroDivisionError else .ok (s.1 / (s.2 : K))

/-- `getArithmeticMean` (`Analysis/MPCDAnalysis/Data2D.py:72-79`). -/
def getArithmeticMean (d : Data2D K) : Except PyErr K := quotient (sumLoop id (0, 0) d.data)

/-- `getRootMeanSquaredDeviationFromArithmeticMean` (`Analysis/MPCDAnalysis/Data2D.py:81-90`). -/
noncomputable def getRootMeanSquaredDeviation (d : Data2D ℝ) : Except PyErr ℝ :=
  match getArithmeticMean d with
  | .error e => .error e
  | .ok mean =>
    match quotient (sumLoop (fun y => (y - mean) ^ 2) (0, 0) d.data) with
    | .error e => .error e
    | .ok q => .ok (Real.sqrt q)

/-- `getAverageFromSimpleMovingAverage` (`Analysis/MPCDAnalysis/Data2D.py:115-124`). -/
def getAverageFromSimpleMovingAverage (d : Data2D K) (windowsize : K) : Except PyErr K :=
  quotient (sumLoop id (0, 0) (d.getSimpleMovingAverageDict windowsize))

/-- The loop in `plot` (`Analysis/MPCDAnalysis/Data2D.py:56-61`): the points that are sent to the plotting program. `counter % 0`
raises. -/
def plotLoop (n : ℕ) : ℕ → List (K × K) → Except PyErr (List (K × K))
  | _, [] => .ok []
  | counter, p :: rest =>
    if n = 0 then .error .zeroDivisionError
    else match plotLoop n (counter + 1) rest with
      | .error e => .error e
      | .ok ps => .ok (if counter % n = 0 then p :: ps else ps)

/-- `plot` (`Analysis/MPCDAnalysis/Data2D.py:54-70`), for a non-negative number. -/
def plot (d : Data2D K) (plotEveryNthPoint : ℕ) : Except PyErr (List (K × K)) := plotLoop plotEveryNthPoint 0 (sortItems d.data)

/-- `getArithmeticMean` (`Analysis/MPCDAnalysis/Data2D.py:72-79`) in Python 2, for values of type `int`: the quotient is rounded
towards minus infinity. -/
def getArithmeticMeanPython2Int (values : List ℤ) : Except PyErr ℤ :=
  if values.length = 0 then .error .zeroDivisionError else .ok (values.sum.fdiv values.length)

/-! ## Proofs -/

theorem sumLoop_eq (f : K → K) (s : K × ℕ) (l : List (K × K)) :
    sumLoop f s l = (s.1 + (l.map fun p => f p.2).sum, s.2 + l.length) := by
  induction l generalizing s with
  | nil => simp [sumLoop]
  | cons p l ih =>
    rw [sumLoop, ih]
    simp only [List.map_cons, List.sum_cons, List.length_cons]
    exact Prod.ext (by dsimp only; ring) (by dsimp only; omega)

theorem mean_ok (f : K → K) {l : List (K × K)} (h : l ≠ []) :
    quotient (sumLoop f (0, 0) l) = .ok ((l.map fun p => f p.2).sum / (l.length : K)) := by
  rw [sumLoop_eq, quotient]
  simp only [zero_add]
  rw [if_neg (by simpa using h)]

theorem length_pos' {α : Type} {l : List α} (h : l ≠ []) : (0 : K) < (l.length : K) := by
  exact_mod_cast List.length_pos_of_ne_nil h

theorem sum_sub (l : List (K × K)) (m : K) : (l.map fun p => p.2 - m).sum = (l.map Prod.snd).sum - l.length * m := by
  induction l with
  | nil => simp
  | cons p l ih =>
    simp only [List.map_cons, List.sum_cons, ih, List.length_cons]
    push_cast
    ring

/-- **C149** (mean): there is a mean if and only if there are data, the deviations from it add up to zero, no other number has this
property, and the order in which the data were added does not matter. -/
theorem C149_mean (d : Data2D K) :
    (d.data = [] → getArithmeticMean d = .error .zeroDivisionError) ∧
    (d.data ≠ [] → ∃ m, getArithmeticMean d = .ok m ∧ ∀ c, (d.data.map fun p => p.2 - c).sum = 0 ↔ c = m) ∧
    ∀ d' : Data2D K, d'.data.Perm d.data → getArithmeticMean d' = getArithmeticMean d := by
  refine ⟨?_, ?_, ?_⟩
  · intro h
    rw [getArithmeticMean, h]
    rfl
  · intro h
    refine ⟨_, mean_ok id h, fun c => ?_⟩
    have hl := length_pos' (K := K) h
    rw [sum_sub, sub_eq_zero, eq_div_iff hl.ne']
    constructor
    · intro e; rw [mul_comm]; exact e.symm
    · intro e; rw [mul_comm]; exact e.symm
  · intro d' hp
    unfold getArithmeticMean
    rw [sumLoop_eq, sumLoop_eq, hp.length_eq, (hp.map fun p => id p.2).sum_eq]

theorem sum_bounds {l : List (K × K)} {lo hi : K} (h : ∀ p ∈ l, lo ≤ p.2 ∧ p.2 ≤ hi) :
    l.length * lo ≤ (l.map Prod.snd).sum ∧ (l.map Prod.snd).sum ≤ l.length * hi := by
  induction l with
  | nil => simp
  | cons p l ih =>
    obtain ⟨h1, h2⟩ := ih fun q hq => h q (by simp [hq])
    obtain ⟨h3, h4⟩ := h p (by simp)
    simp only [List.map_cons, List.sum_cons, List.length_cons]
    push_cast
    constructor <;> linarith

theorem mean_bounds {l : List (K × K)} (hl : l ≠ []) {lo hi : K} (h : ∀ p ∈ l, lo ≤ p.2 ∧ p.2 ≤ hi) :
    lo ≤ (l.map Prod.snd).sum / (l.length : K) ∧ (l.map Prod.snd).sum / (l.length : K) ≤ hi := by
  obtain ⟨h1, h2⟩ := sum_bounds h
  have := length_pos' (K := K) hl
  rw [le_div_iff₀ this, div_le_iff₀ this]
  constructor <;> linarith

/-- **C149** (mean): the mean lies between bounds for the data. -/
theorem C149_mean_bounds {d : Data2D K} {m lo hi : K} (hm : getArithmeticMean d = .ok m) (h : ∀ p ∈ d.data, lo ≤ p.2 ∧ p.2 ≤ hi) :
    lo ≤ m ∧ m ≤ hi := by
  by_cases hd : d.data = []
  · rw [(C149_mean d).1 hd] at hm; cases hm
  · rw [getArithmeticMean, mean_ok id hd] at hm
    cases hm
    exact mean_bounds hd h

/-- **C149** does not hold in Python 2 for whole numbers: the mean of 0 and 1 is 0. -/
theorem C149_python2_violated : ∃ (values : List ℤ) (m : ℤ), getArithmeticMeanPython2Int values = .ok m ∧
    (values.map fun v => v - m).sum ≠ 0 := ⟨[0, 1], 0, by decide, by decide⟩

/-- **C149** (mean): for whole numbers in Python 2, the mean is less than one too small, and exact if the number of data divides the
sum. -/
theorem C149_python2_partial {values : List ℤ} (h : values ≠ []) :
    ∃ m, getArithmeticMeanPython2Int values = .ok m ∧ m * values.length ≤ values.sum ∧ values.sum < (m + 1) * values.length ∧
      ((values.length : ℤ) ∣ values.sum → m * values.length = values.sum) := by
  have hl : (0 : ℤ) < values.length := by exact_mod_cast List.length_pos_of_ne_nil h
  refine ⟨values.sum.fdiv values.length, ?_, ?_, ?_, ?_⟩
  · rw [getArithmeticMeanPython2Int, if_neg (by simpa using h)]
  · rw [Int.fdiv_eq_ediv_of_nonneg _ hl.le]
    exact Int.ediv_mul_le _ hl.ne'
  · rw [Int.fdiv_eq_ediv_of_nonneg _ hl.le]
    exact Int.lt_ediv_add_one_mul_self _ hl
  · intro hd
    rw [Int.fdiv_eq_ediv_of_nonneg _ hl.le]
    exact Int.ediv_mul_cancel hd

theorem sum_sq_shift (l : List (ℝ × ℝ)) (m c : ℝ) :
    (l.map fun p => (p.2 - c) ^ 2).sum =
      (l.map fun p => (p.2 - m) ^ 2).sum + 2 * (m - c) * (l.map fun p => p.2 - m).sum + l.length * (m - c) ^ 2 := by
  induction l with
  | nil => simp
  | cons p l ih =>
    simp only [List.map_cons, List.sum_cons, ih, List.length_cons]
    push_cast
    ring

theorem sum_sq_nonneg (l : List (ℝ × ℝ)) (m : ℝ) : 0 ≤ (l.map fun p => (p.2 - m) ^ 2).sum := by
  apply List.sum_nonneg
  intro x hx
  obtain ⟨p, -, rfl⟩ := List.mem_map.1 hx
  positivity

theorem sum_sq_zero {l : List (ℝ × ℝ)} {m : ℝ} (h : (l.map fun p => (p.2 - m) ^ 2).sum = 0) : ∀ p ∈ l, p.2 = m := by
  induction l with
  | nil => simp
  | cons q l ih =>
    simp only [List.map_cons, List.sum_cons] at h
    have h1 := sum_sq_nonneg l m
    have h2 := sq_nonneg (q.2 - m)
    intro p hp
    rcases List.mem_cons.1 hp with rfl | hp
    · have : (p.2 - m) ^ 2 = 0 := by linarith
      have := pow_eq_zero_iff (two_ne_zero) |>.1 this
      linarith
    · exact ih (by linarith) p hp

/-- **C149** (deviation): if there are data, the root mean squared deviation is the non-negative number whose square is the mean of
the squared deviations from the mean, which is less than that from any other number; it is zero if and only if all values are
equal. -/
theorem C149_deviation {d : Data2D ℝ} (h : d.data ≠ []) :
    ∃ m r, getArithmeticMean d = .ok m ∧ getRootMeanSquaredDeviation d = .ok r ∧ 0 ≤ r ∧
      r ^ 2 * d.data.length = (d.data.map fun p => (p.2 - m) ^ 2).sum ∧
      (∀ c, c ≠ m → r ^ 2 * d.data.length < (d.data.map fun p => (p.2 - c) ^ 2).sum) ∧
      (r = 0 ↔ ∃ v, ∀ p ∈ d.data, p.2 = v) := by
  obtain ⟨m, hm, hc⟩ := (C149_mean d).2.1 h
  have hl := length_pos' (K := ℝ) h
  have hq : 0 ≤ (d.data.map fun p => (p.2 - m) ^ 2).sum / (d.data.length : ℝ) := div_nonneg (sum_sq_nonneg _ _) hl.le
  have hsq : Real.sqrt ((d.data.map fun p => (p.2 - m) ^ 2).sum / (d.data.length : ℝ)) ^ 2 * d.data.length =
      (d.data.map fun p => (p.2 - m) ^ 2).sum := by
    rw [Real.sq_sqrt hq, div_mul_cancel₀ _ hl.ne']
  refine ⟨m, _, hm, ?_, Real.sqrt_nonneg _, hsq, ?_, ?_⟩
  · unfold getRootMeanSquaredDeviation
    rw [hm]
    simp only
    rw [mean_ok _ h]
  · intro c hcm
    rw [hsq, sum_sq_shift d.data m c, (hc m).2 rfl]
    have : 0 < (d.data.length : ℝ) * (m - c) ^ 2 := by
      have : m - c ≠ 0 := sub_ne_zero.2 hcm.symm
      positivity
    linarith
  · rw [Real.sqrt_eq_zero hq, div_eq_zero_iff]
    constructor
    · rintro (h0 | h0)
      · exact ⟨m, sum_sq_zero h0⟩
      · exact absurd h0 hl.ne'
    · rintro ⟨v, hv⟩
      left
      have hvm : v = m := by
        rw [← hc v]
        have : (d.data.map fun p => p.2 - v) = d.data.map fun _ => (0 : ℝ) := by
          apply List.map_congr_left
          intro p hp
          rw [hv p hp, sub_self]
        rw [this]
        simp
      have : (d.data.map fun p => (p.2 - m) ^ 2) = d.data.map fun _ => (0 : ℝ) := by
        apply List.map_congr_left
        intro p hp
        rw [hv p hp, hvm]
        ring
      rw [this]
      simp

/-- What the loop for the moving average maintains: bounds for the data hold for the window and for the averages. -/
theorem average_bounds (w lo hi : K) (l : List (K × K)) (s : List (K × K) × List (K × K)) (h : ∀ p ∈ l, lo ≤ p.2 ∧ p.2 ≤ hi)
    (h1 : ∀ p ∈ s.1, lo ≤ p.2 ∧ p.2 ≤ hi) (h2 : ∀ p ∈ s.2, lo ≤ p.2 ∧ p.2 ≤ hi) :
    ∀ p ∈ (l.foldl (averageStep w) s).2, lo ≤ p.2 ∧ p.2 ≤ hi := by
  induction l generalizing s with
  | nil => simpa using h2
  | cons q l ih =>
    rw [List.foldl_cons]
    have hw : ∀ p ∈ s.1 ++ [q], lo ≤ p.2 ∧ p.2 ≤ hi := by
      intro p hp
      rcases List.mem_append.1 hp with hp | hp
      · exact h1 p hp
      · rw [List.mem_singleton.1 hp]; exact h q (by simp)
    apply ih _ fun p hp => h p (by simp [hp])
    · intro p hp
      unfold averageStep at hp
      simp only at hp
      split at hp
      · exact h1 p hp
      · split_ifs at hp
        · exact hw p (List.mem_of_mem_tail hp)
        · exact hw p hp
    · intro p hp
      unfold averageStep at hp
      simp only at hp
      split at hp
      · exact h2 p hp
      · split_ifs at hp
        · rcases List.mem_append.1 hp with hp | hp
          · exact h2 p hp
          · rw [List.mem_singleton.1 hp]
            exact mean_bounds (by simp) hw
        · exact h2 p hp

/-- **C149** (averages of moving averages): the result lies between bounds for the data; in particular, it is the common value of
constant data. -/
theorem C149_average_bounds {d : Data2D K} {w a lo hi : K} (ha : getAverageFromSimpleMovingAverage d w = .ok a)
    (h : ∀ p ∈ d.data, lo ≤ p.2 ∧ p.2 ≤ hi) : lo ≤ a ∧ a ≤ hi := by
  have hb : ∀ p ∈ d.getSimpleMovingAverageDict w, lo ≤ p.2 ∧ p.2 ≤ hi := by
    apply average_bounds w lo hi _ _ _ (by simp) (by simp)
    intro p hp
    exact h p ((mem_sortItems _ _).1 hp)
  unfold getAverageFromSimpleMovingAverage at ha
  by_cases he : d.getSimpleMovingAverageDict w = []
  · rw [he] at ha
    cases ha
  · rw [mean_ok id he] at ha
    cases ha
    exact mean_bounds he hb

theorem average_zero {w : K} (hw : w ≤ 0) (l acc : List (K × K)) :
    l.foldl (averageStep w) ([], acc) = ([], acc ++ l) := by
  induction l generalizing acc with
  | nil => simp
  | cons q l ih =>
    rw [List.foldl_cons]
    have : averageStep w ([], acc) q = ([], acc ++ [q]) := by
      simp [averageStep, hw]
    rw [this, ih]
    simp

/-- **C149** (averages of moving averages): with windows of no extent, the result is the mean of the data. -/
theorem C149_average_zero (d : Data2D K) {w : K} (hw : w ≤ 0) : getAverageFromSimpleMovingAverage d w = getArithmeticMean d := by
  unfold getAverageFromSimpleMovingAverage Data2D.getSimpleMovingAverageDict
  rw [average_zero hw]
  simp only [List.nil_append]
  have hp : (d.sort.data).Perm d.data := sortItems_perm d.data
  exact (C149_mean d).2.2 ⟨d.sort.data, []⟩ hp

theorem average_none {w : K} (l : List (K × K)) (s : List (K × K)) (h : ∀ p ∈ s ++ l, ∀ q ∈ s ++ l, q.1 - p.1 < w) :
    (l.foldl (averageStep w) (s, [])).2 = [] := by
  induction l generalizing s with
  | nil => rfl
  | cons q l ih =>
    rw [List.foldl_cons]
    have : averageStep w (s, []) q = (s ++ [q], []) := by
      unfold averageStep
      simp only
      split
      · rename_i he
        simp at he
      · rename_i first rest he
        rw [if_neg]
        have hf : first ∈ s ++ [q] := by rw [he]; simp
        have := h first (by simp at hf ⊢; tauto) q (by simp)
        exact not_le.2 this
    rw [this]
    apply ih
    intro p hp p' hp'
    apply h p (by simpa using hp) p' (by simpa using hp')

/-- **C149** (averages of moving averages): if the data extend over less than a window, there is no average. -/
theorem C149_average_none (d : Data2D K) {w : K} (h : ∀ p ∈ d.data, ∀ q ∈ d.data, q.1 - p.1 < w) :
    getAverageFromSimpleMovingAverage d w = .error .zeroDivisionError := by
  unfold getAverageFromSimpleMovingAverage Data2D.getSimpleMovingAverageDict
  rw [average_none]
  · rfl
  · intro p hp q hq
    rw [List.nil_append] at hp hq
    exact h p ((mem_sortItems _ _).1 hp) q ((mem_sortItems _ _).1 hq)

/-- **C149** does not hold in that the average of moving averages is not the mean of the data: those at the ends count less often. -/
theorem C149_average_violated : ∃ (d : Data2D ℚ) (w m a : ℚ), getArithmeticMean d = .ok m ∧
    getAverageFromSimpleMovingAverage d w = .ok a ∧ a ≠ m := by
  have hs : sortItems ([(0, 0), (1, 1), (2, 0)] : List (ℚ × ℚ)) = [(0, 0), (1, 1), (2, 0)] := by
    apply sortItems_eq (List.Perm.refl _)
    unfold Ascending
    norm_num
  refine ⟨⟨[(0, 0), (1, 1), (2, 0)], []⟩, 1, 1 / 3, 1 / 2, ?_, ?_, by norm_num⟩
  · rw [getArithmeticMean, mean_ok id (by simp)]
    norm_num
  · unfold getAverageFromSimpleMovingAverage Data2D.getSimpleMovingAverageDict Data2D.sort
    rw [hs]
    norm_num [averageStep, sumLoop, quotient]

theorem plotLoop_ok {n : ℕ} (hn : n ≠ 0) (c : ℕ) (l : List (K × K)) :
    plotLoop n c l = .ok (((l.zipIdx c).filter fun e => e.2 % n = 0).map Prod.fst) := by
  induction l generalizing c with
  | nil => rfl
  | cons p l ih =>
    rw [plotLoop, if_neg hn, ih]
    simp only [List.zipIdx_cons, List.filter_cons]
    by_cases hc : c % n = 0 <;> simp [hc]

/-- **C149** (plot): of the data in ascending order, the points at positions that are multiples of the given number are plotted, in this
order, and no others; zero is refused, unless there are no data. -/
theorem C149_plot (d : Data2D K) (n : ℕ) :
    (n ≠ 0 → ∃ ps, plot d n = .ok ps ∧ ps.Sublist (sortItems d.data) ∧
      (∀ i, ps[i]? = (sortItems d.data)[i * n]?)) ∧
    (n = 0 → d.data ≠ [] → plot d n = .error .zeroDivisionError) := by
  constructor
  · intro hn
    refine ⟨_, plotLoop_ok hn 0 _, ?_, ?_⟩
    · have h1 : (((sortItems d.data).zipIdx 0).filter fun e => e.2 % n = 0).Sublist ((sortItems d.data).zipIdx 0) := List.filter_sublist
      have h2 := h1.map Prod.fst
      rwa [List.zipIdx_map_fst] at h2
    · intro i
      -- the points from position `c` on, the first of which to be plotted is that after `k` others
      have key : ∀ (l : List (K × K)) (c k : ℕ), k < n → (c + k) % n = 0 → ∀ i,
          (((l.zipIdx c).filter fun e => e.2 % n = 0).map Prod.fst)[i]? = l[i * n + k]? := by
        intro l
        induction l with
        | nil => simp
        | cons p l ih =>
          intro c k hk hck i
          rw [List.zipIdx_cons, List.filter_cons]
          by_cases hc : c % n = 0
          · have hk0 : k = 0 := by
              rw [Nat.add_mod, hc, Nat.zero_add, Nat.mod_mod, Nat.mod_eq_of_lt hk] at hck
              exact hck
            subst hk0
            simp only [hc, decide_true, if_true, List.map_cons]
            have := ih (c + 1) (n - 1) (by omega) (by
              rw [show c + 1 + (n - 1) = c + n by omega, Nat.add_mod_right, hc])
            cases i with
            | zero => simp
            | succ i =>
              rw [List.getElem?_cons_succ, this i]
              have : (i + 1) * n + 0 = i * n + (n - 1) + 1 := by
                rw [Nat.add_mul]; omega
              rw [this, List.getElem?_cons_succ]
          · have hk0 : k ≠ 0 := by
              rintro rfl
              exact hc (by simpa using hck)
            simp only [hc, decide_false, Bool.false_eq_true, if_false]
            rw [ih (c + 1) (k - 1) (by omega) (by rw [show c + 1 + (k - 1) = c + k by omega, hck]) i]
            rw [show i * n + k = i * n + (k - 1) + 1 by omega, List.getElem?_cons_succ]
      have := key (sortItems d.data) 0 0 (by omega) (by simp) i
      simpa using this
  · rintro rfl hd
    unfold plot
    have : sortItems d.data ≠ [] := by
      intro h
      have hp := (sortItems_perm d.data).length_eq
      rw [h] at hp
      exact hd (List.length_eq_zero_iff.1 hp.symm)
    obtain ⟨p, l, hl⟩ := List.exists_cons_of_ne_nil this
    rw [hl, plotLoop, if_pos rfl]

/-! ## Examples -/

example : (Data2D.mk [((0 : ℝ), 1), (1, 3)] []).data ≠ [] := by simp

example : ∃ m : ℚ, getArithmeticMean (⟨[(0, 1), (1, 3)], []⟩ : Data2D ℚ) = .ok m ∧ m = 2 := by
  refine ⟨_, mean_ok id (by simp), ?_⟩
  norm_num

example : ∀ p ∈ (Data2D.mk [((0 : ℚ), (1 : ℚ)), (1, 3)] []).data, ∀ q ∈ (Data2D.mk [((0 : ℚ), (1 : ℚ)), (1, 3)] []).data, q.1 - p.1 < 2 := by
  intro p hp q hq
  simp only [List.mem_cons, List.not_mem_nil, or_false] at hp hq
  rcases hp with rfl | rfl <;> rcases hq with rfl | rfl <;> norm_num

end OpenMPCD.Analysis.Stats
