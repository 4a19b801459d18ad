import Mathlib.Algebra.Order.Floor.Semiring
import Mathlib.Algebra.BigOperators.Group.List.Basic
import Mathlib.Algebra.Order.Field.Basic
import Mathlib.Algebra.Order.BigOperators.Group.List
import Mathlib.Data.Rat.Floor
import Mathlib.Tactic.FieldSimp
import Mathlib.Tactic.Linarith
import Mathlib.Tactic.NormNum
import Mathlib.Tactic.Positivity
import Mathlib.Tactic.Ring

/-!
# Histograms (C24)

Numbers are elements of an ordered field; `rnd` is what the machine makes of the result of an operation (`id` in exact
arithmetic). The counters are natural numbers (in the code: `unsigned long`).
-/

set_option linter.unusedSectionVars false

namespace OpenMPCD.Profile

variable {K : Type} [Field K] [LinearOrder K] [IsStrictOrderedRing K] [FloorSemiring K]

/-- `Histogram` (`include/OpenMPCD/Histogram.hpp:126-132`). -/
structure Histogram (K : Type) where
  bins : List ℕ
  underflows : ℕ
  overflows : ℕ
  lowEnd : K
  highEnd : K
  binSize : K

/-- The constructors (`include/OpenMPCD/Histogram.hpp:40-44`, `src/OpenMPCD/Histogram.cpp:9-19`). -/
def Histogram.make (rnd : K → K) (low high : K) (binCount : ℕ) : Histogram K :=
  ⟨List.replicate binCount 0, 0, 0, low, high, rnd (rnd (high - low) / binCount)⟩

/-- `fill` (`src/OpenMPCD/Histogram.cpp:21-43`); `none`: memory outside of the bins is accessed (or, if
`OPENMPCD_DEBUG` is defined, an exception thrown). -/
def Histogram.fill (rnd : K → K) (h : Histogram K) (val : K) : Option (Histogram K) :=
  if val < h.lowEnd then some { h with underflows := h.underflows + 1 }
  else if h.highEnd ≤ val then some { h with overflows := h.overflows + 1 }
  else
    let binID := ⌊rnd (rnd (val - h.lowEnd) / h.binSize)⌋₊
    if binID < h.bins.length then some { h with bins := h.bins.modify binID (· + 1) } else none

/-- Filling in several values. -/
def Histogram.fills (rnd : K → K) (h : Histogram K) : List K → Option (Histogram K)
  | [] => some h
  | v :: vs => (h.fill rnd v).bind fun h' => h'.fills rnd vs

/-- `getIntegral` (`src/OpenMPCD/Histogram.cpp:45-53`), exact. -/
def Histogram.getIntegral (h : Histogram K) : K := (h.bins.map fun n : ℕ => (n : K)).sum * h.binSize

/-- `getNormalizedGraph` (`src/OpenMPCD/Histogram.cpp:55-73`), exact; `none`: an exception is thrown. If the integral
is zero, the code divides by zero. -/
def Histogram.getNormalizedGraph (h : Histogram K) (binPoint : K) : Option (List (K × K)) :=
  if binPoint < 0 ∨ 1 < binPoint then none
  else some (h.bins.mapIdx fun (i n : ℕ) => (h.lowEnd + i * h.binSize + binPoint * h.binSize, (n : K) / h.getIntegral))

/-! ## Specification -/

/-- The value lies in the `i`-th of `n` half-open intervals of equal length that make up `[low, high)`. -/
def InBin (low high : K) (n i : ℕ) (x : K) : Prop :=
  low + i * ((high - low) / n) ≤ x ∧ x < low + (i + 1) * ((high - low) / n)

/-- Number of elements with a property. -/
noncomputable def countP (P : K → Prop) (l : List K) : ℕ := by classical exact l.countP fun x => decide (P x)

theorem countP_nil (P : K → Prop) : countP P [] = 0 := by simp [countP]

theorem countP_append (P : K → Prop) (l : List K) (x : K) [Decidable (P x)] :
    countP P (l ++ [x]) = countP P l + if P x then 1 else 0 := by
  unfold countP
  rw [List.countP_append, List.countP_singleton]
  by_cases h : P x <;> simp [h]

/-! ## Proofs -/

theorem fills_append (rnd : K → K) (h : Histogram K) (l : List K) (x : K) :
    h.fills rnd (l ++ [x]) = (h.fills rnd l).bind fun h' => h'.fill rnd x := by
  induction l generalizing h with
  | nil => simp [Histogram.fills]
  | cons y l ih =>
    simp only [List.cons_append, Histogram.fills]
    cases h.fill rnd y with
    | none => rfl
    | some h' => exact ih h'

theorem sum_modify (l : List ℕ) (i : ℕ) (hi : i < l.length) : (l.modify i (· + 1)).sum = l.sum + 1 := by
  induction l generalizing i with
  | nil => simp at hi
  | cons a l ih =>
    cases i with
    | zero => simp [List.modify_zero_cons]; omega
    | succ i =>
      rw [List.modify_succ_cons, List.sum_cons, ih i (by simpa using hi), List.sum_cons]
      omega

/-- C24: with whatever rounding, each fill is counted exactly once. -/
theorem C24_conserved (rnd : K → K) (h h' : Histogram K) (val : K) (hf : h.fill rnd val = some h') :
    h'.underflows + h'.overflows + h'.bins.sum = h.underflows + h.overflows + h.bins.sum + 1 ∧
      h'.bins.length = h.bins.length ∧ h'.lowEnd = h.lowEnd ∧ h'.highEnd = h.highEnd ∧ h'.binSize = h.binSize := by
  unfold Histogram.fill at hf
  simp only at hf
  split_ifs at hf with h1 h2 h3
  · cases Option.some.inj hf
    exact ⟨by simp only; omega, rfl, rfl, rfl, rfl⟩
  · cases Option.some.inj hf
    exact ⟨by simp only; omega, rfl, rfl, rfl, rfl⟩
  · cases Option.some.inj hf
    exact ⟨by simp only [sum_modify _ _ h3]; omega, by simp, rfl, rfl, rfl⟩

/-- The bin computed is the one the value lies in. -/
theorem binID_spec {low high x : K} {n : ℕ} (hn : 0 < n) (h1 : low ≤ x) (h2 : x < high) :
    ⌊(x - low) / ((high - low) / n)⌋₊ < n ∧
      ∀ i, InBin low high n i x ↔ ⌊(x - low) / ((high - low) / n)⌋₊ = i := by
  have hn' : (0 : K) < n := by exact_mod_cast hn
  have hw : 0 < (high - low) / n := div_pos (by linarith) hn'
  have h0 : 0 ≤ (x - low) / ((high - low) / n) := div_nonneg (by linarith) hw.le
  refine ⟨?_, fun i => ?_⟩
  · rw [Nat.floor_lt h0, div_lt_iff₀ hw, mul_div_cancel₀ _ hn'.ne']
    linarith
  · rw [Nat.floor_eq_iff h0, le_div_iff₀ hw, div_lt_iff₀ hw]
    unfold InBin
    constructor
    · rintro ⟨a, b⟩; exact ⟨by linarith, by linarith⟩
    · rintro ⟨a, b⟩; exact ⟨by linarith, by linarith⟩

/-- C24: after any sequence of fills, in exact arithmetic: the counters are the numbers of values below, above, and in
each of the half-open intervals; each value within the range is in exactly one of these; and in total all fills are
counted. -/
theorem C24 (low high : K) (n : ℕ) (hn : 0 < n) (vals : List K) :
    ∃ h, (Histogram.make id low high n).fills id vals = some h ∧
      h.underflows = countP (fun x => x < low) vals ∧
      h.overflows = countP (fun x => low ≤ x ∧ high ≤ x) vals ∧
      h.bins.length = n ∧
      (∀ i (hi : i < h.bins.length), h.bins[i] = countP (fun x => low ≤ x ∧ x < high ∧ InBin low high n i x) vals) ∧
      h.underflows + h.overflows + h.bins.sum = vals.length ∧
      h.lowEnd = low ∧ h.highEnd = high ∧ h.binSize = (high - low) / n := by
  induction vals using List.reverseRecOn with
  | nil =>
    refine ⟨_, rfl, ?_⟩
    simp [Histogram.make, countP_nil]
  | append_singleton l x ih =>
    classical
    obtain ⟨h, hf, hu, ho, hl, hb, ht, e1, e2, e3⟩ := ih
    rw [fills_append, hf, Option.bind_some]
    have key : ∃ h', h.fill id x = some h' ∧
        h'.underflows = countP (fun x => x < low) (l ++ [x]) ∧
        h'.overflows = countP (fun x => low ≤ x ∧ high ≤ x) (l ++ [x]) ∧
        (∀ i (hi : i < h'.bins.length), h'.bins[i] =
          countP (fun x => low ≤ x ∧ x < high ∧ InBin low high n i x) (l ++ [x])) := by
      by_cases h1 : x < low
      · refine ⟨{ h with underflows := h.underflows + 1 }, ?_, ?_, ?_, ?_⟩
        · simp [Histogram.fill, e1, h1]
        · rw [countP_append, if_pos h1, ← hu]
        · rw [countP_append, if_neg (fun h => absurd h.1 (not_le.2 h1))]
          exact ho
        · intro i hi
          rw [countP_append, if_neg (fun h => absurd h.1 (not_le.2 h1))]
          exact hb i hi
      · by_cases h2 : high ≤ x
        · refine ⟨{ h with overflows := h.overflows + 1 }, ?_, ?_, ?_, ?_⟩
          · simp [Histogram.fill, e1, e2, h1, h2]
          · rw [countP_append, if_neg h1]
            exact hu
          · rw [countP_append, if_pos ⟨not_lt.1 h1, h2⟩, ← ho]
          · intro i hi
            rw [countP_append, if_neg (fun h => absurd h.2.1 (not_lt.2 h2))]
            exact hb i hi
        · obtain ⟨b1, b2⟩ := binID_spec hn (not_lt.1 h1) (not_le.1 h2)
          refine ⟨{ h with bins := h.bins.modify ⌊(x - low) / ((high - low) / n)⌋₊ (· + 1) }, ?_, ?_, ?_, ?_⟩
          · simp only [Histogram.fill, e1, e2, e3, h1, h2, if_false, id_eq]
            rw [if_pos (by rw [hl]; exact b1)]
          · rw [countP_append, if_neg h1]
            exact hu
          · rw [countP_append, if_neg (fun h => h2 h.2)]
            exact ho
          · intro i hi
            simp only [List.length_modify] at hi
            rw [countP_append]
            simp only [List.getElem_modify]
            by_cases hi' : ⌊(x - low) / ((high - low) / n)⌋₊ = i
            · rw [if_pos hi', if_pos ⟨not_lt.1 h1, not_le.1 h2, (b2 i).2 hi'⟩, hb i hi]
            · rw [if_neg hi', if_neg (fun h => hi' ((b2 i).1 h.2.2)), hb i hi]
              rfl
    obtain ⟨h', k1, k2, k3, k4⟩ := key
    obtain ⟨c1, c2, c3, c4, c5⟩ := C24_conserved id h h' x k1
    refine ⟨h', k1, k2, k3, by rw [c2, hl], k4, ?_, by rw [c3, e1], by rw [c4, e2], by rw [c5, e3]⟩
    rw [c1, ht, List.length_append]
    rfl

/-- C24: each value within the range lies in exactly one of the intervals. -/
theorem C24_one_bin {low high x : K} {n : ℕ} (hn : 0 < n) (h1 : low ≤ x) (h2 : x < high) :
    ∃! i, i < n ∧ InBin low high n i x := by
  obtain ⟨b1, b2⟩ := binID_spec hn h1 h2
  exact ⟨_, ⟨b1, (b2 _).2 rfl⟩, fun j hj => ((b2 j).1 hj.2).symm⟩

theorem sum_cast (l : List ℕ) : (l.map fun n : ℕ => (n : K)).sum = (l.sum : K) := by
  induction l with
  | nil => simp
  | cons a l ih => simp [ih]

theorem sum_div (l : List K) (c : K) : (l.map fun x => x / c).sum = l.sum / c := by
  induction l with
  | nil => simp
  | cons a l ih => simp [ih, add_div]

/-- C24: the normalized graph has one point per bin, in the bin at the fraction asked for, the values are proportional
to the contents of the bins, and its area is one if any value is within the range. -/
theorem C24_normalized (low high : K) (n : ℕ) (hn : 0 < n) (vals : List K) (hv : ∃ x ∈ vals, low ≤ x ∧ x < high)
    (binPoint : K) (h0 : 0 ≤ binPoint) (h1 : binPoint ≤ 1) (h : Histogram K)
    (hf : (Histogram.make id low high n).fills id vals = some h) :
    ∃ g, h.getNormalizedGraph binPoint = some g ∧ g.length = n ∧
      (∀ i (hi : i < g.length), g[i].1 = low + (i + binPoint) * ((high - low) / n)) ∧
      (∀ i j (hi : i < g.length) (hj : j < g.length) (hi' : i < h.bins.length) (hj' : j < h.bins.length),
        g[i].2 * (h.bins[j] : K) = g[j].2 * (h.bins[i] : K)) ∧
      (g.map Prod.snd).sum * ((high - low) / n) = 1 := by
  obtain ⟨h', hf', hu, ho, hl, hb, ht, e1, e2, e3⟩ := C24 low high n hn vals
  rw [hf] at hf'
  cases Option.some.inj hf'
  have hpos : (0 : K) < (h.bins.sum : K) := by
    obtain ⟨x, hx, x1, x2⟩ := hv
    obtain ⟨i, ⟨i1, i2⟩, -⟩ := C24_one_bin hn x1 x2
    have : 0 < h.bins[i]'(by omega) := by
      classical
      rw [hb i (by omega)]
      unfold countP
      rw [List.countP_pos_iff]
      exact ⟨x, hx, by simpa using ⟨x1, x2, i2⟩⟩
    have h3 : h.bins[i]'(by omega) ≤ h.bins.sum := List.single_le_sum (by simp) _ (List.getElem_mem _)
    exact_mod_cast lt_of_lt_of_le this h3
  have hw : 0 < (high - low) / (n : K) := by
    obtain ⟨x, hx, x1, x2⟩ := hv
    exact div_pos (by linarith) (by exact_mod_cast hn)
  refine ⟨_, by rw [Histogram.getNormalizedGraph, if_neg (by push Not; exact ⟨h0, h1⟩)], by simp [hl], ?_, ?_, ?_⟩
  · intro i hi
    simp only [List.getElem_mapIdx, e1, e3]
    ring
  · intro i j hi hj hi' hj'
    simp only [List.getElem_mapIdx]
    ring
  · have : (h.bins.mapIdx fun (i n : ℕ) => (h.lowEnd + i * h.binSize + binPoint * h.binSize, (n : K) / h.getIntegral)).map
        Prod.snd = (h.bins.map fun n : ℕ => (n : K)).map fun x => x / h.getIntegral := by
      apply List.ext_getElem
      · simp
      · intro i hi hi'
        simp
    rw [this, sum_div, sum_cast, Histogram.getIntegral, sum_cast, e3, div_mul_eq_mul_div, div_self (mul_ne_zero hpos.ne' hw.ne')]

example : ∃ h, (Histogram.make id (0 : ℚ) 1 4).fills id [1/10, 3/10, -1, 1, 1/4] = some h ∧
    h.bins = [1, 2, 0, 0] ∧ h.underflows = 1 ∧ h.overflows = 1 := by
  refine ⟨⟨[1, 2, 0, 0], 1, 1, 0, 1, 1/4⟩, ?_, rfl, rfl, rfl⟩
  have f1 : ⌊(2 / 5 : ℚ)⌋₊ = 0 := by rw [Nat.floor_eq_iff (by norm_num)]; norm_num
  have f2 : ⌊(6 / 5 : ℚ)⌋₊ = 1 := by rw [Nat.floor_eq_iff (by norm_num)]; norm_num
  norm_num [Histogram.fills, Histogram.make, Histogram.fill, f1, f2, List.replicate]

/-! ## Double precision -/

/-- The finite numbers of the type `double` (IEEE 754 binary64). -/
def IsDouble (d : ℚ) : Prop := ∃ m e : ℤ, |m| < 2 ^ 53 ∧ -1074 ≤ e ∧ e ≤ 971 ∧ d = m * 2 ^ e

/-- `r` is a number of type `double` nearest to `q`. -/
def IsNearest (q r : ℚ) : Prop := IsDouble r ∧ ∀ d, IsDouble d → |q - r| ≤ |q - d|

theorem isNearest_self {q : ℚ} (h : IsDouble q) {r : ℚ} (hr : IsNearest q r) : r = q := by
  have := hr.2 q h
  rw [sub_self, abs_zero] at this
  have := abs_nonpos_iff.1 this
  linarith

/-- Doubles above `2 ^ k` are multiples of `2 ^ (k - 52)`. -/
theorem double_multiple {d : ℚ} (h : IsDouble d) (k : ℤ) (hd : 2 ^ k < d) : ∃ j : ℤ, d = j * 2 ^ (k - 52) := by
  obtain ⟨m, e, hm, -, -, rfl⟩ := h
  have he : k - 52 ≤ e := by
    by_contra hlt
    push Not at hlt
    have h1 : (m : ℚ) < 2 ^ (53 : ℤ) := by
      have := (abs_lt.1 hm).2
      exact_mod_cast this
    have h2 : (2 : ℚ) ^ e ≤ 2 ^ (k - 53) := zpow_le_zpow_right₀ (by norm_num) (by omega)
    have h3 : (m : ℚ) * 2 ^ e ≤ 2 ^ (53 : ℤ) * 2 ^ (k - 53) :=
      le_trans (mul_le_mul_of_nonneg_right h1.le (zpow_pos (by norm_num) _).le)
        (mul_le_mul_of_nonneg_left h2 (zpow_pos (by norm_num) _).le)
    rw [← zpow_add₀ (by norm_num : (2 : ℚ) ≠ 0)] at h3
    have : (53 : ℤ) + (k - 53) = k := by ring
    rw [this] at h3
    linarith
  obtain ⟨n, hn⟩ := Int.eq_ofNat_of_zero_le (sub_nonneg.2 he)
  refine ⟨m * 2 ^ n, ?_⟩
  have : e = (n : ℤ) + (k - 52) := by rw [← hn]; ring
  rw [this, zpow_add₀ (by norm_num : (2 : ℚ) ≠ 0), zpow_natCast]
  push_cast
  ring

/-- One third, as a `double`. -/
def third : ℚ := 6004799503160661 / 2 ^ 54

/-- The greatest `double` below one. -/
def belowOne : ℚ := 9007199254740991 / 2 ^ 53

theorem isDouble_third : IsDouble third :=
  ⟨6004799503160661, -54, by norm_num, by norm_num, by norm_num, by norm_num [third]⟩

theorem isDouble_belowOne : IsDouble belowOne :=
  ⟨9007199254740991, -53, by norm_num, by norm_num, by norm_num, by norm_num [belowOne]⟩

theorem nearest_third {r : ℚ} (h : IsNearest (1 / 3) r) : r = third := by
  have h1 := abs_le.1 (h.2 third isDouble_third)
  have h2 : |(1 / 3 : ℚ) - third| = 1 / 3 / 2 ^ 54 := by
    rw [abs_of_pos (by norm_num [third])]
    norm_num [third]
  rw [h2] at h1
  obtain ⟨j, hj⟩ := double_multiple h.1 (-2) (by
    have : ((2 : ℚ) ^ (-2 : ℤ)) = 1 / 4 := by norm_num
    rw [this]
    norm_num at h1
    linarith [h1.2])
  have e : ((2 : ℚ) ^ (-2 - 52 : ℤ)) = 1 / 2 ^ 54 := by norm_num
  rw [e] at hj
  have j1 : (6004799503160660 : ℚ) < j := by
    have := h1.2
    rw [hj] at this
    norm_num at this ⊢
    linarith
  have j2 : (j : ℚ) < 6004799503160662 := by
    have := h1.1
    rw [hj] at this
    norm_num at this ⊢
    linarith
  have j3 : j = 6004799503160661 := by
    have a : (6004799503160660 : ℤ) < j := by exact_mod_cast j1
    have b : j < 6004799503160662 := by exact_mod_cast j2
    omega
  rw [hj, j3]
  norm_num [third]

theorem nearest_three {r : ℚ} (h : IsNearest (belowOne / third) r) : r = 3 := by
  have d3 : IsDouble 3 := ⟨3, 0, by norm_num, by norm_num, by norm_num, by norm_num⟩
  have h1 := abs_le.1 (h.2 3 d3)
  have hq : belowOne / third = 3 - 1 / 6004799503160661 := by norm_num [belowOne, third]
  have h2 : |belowOne / third - 3| = 1 / 6004799503160661 := by
    rw [hq, abs_of_neg (by norm_num)]
    norm_num
  rw [h2, hq] at h1
  obtain ⟨j, hj⟩ := double_multiple h.1 1 (by
    have : ((2 : ℚ) ^ (1 : ℤ)) = 2 := by norm_num
    rw [this]
    norm_num at h1
    linarith [h1.2])
  have e : ((2 : ℚ) ^ (1 - 52 : ℤ)) = 1 / 2 ^ 51 := by norm_num
  rw [e] at hj
  have j1 : (3 * 2 ^ 51 - 1 : ℚ) < j := by
    have := h1.2
    rw [hj] at this
    norm_num at this ⊢
    linarith
  have j2 : (j : ℚ) < 3 * 2 ^ 51 + 1 := by
    have := h1.1
    rw [hj] at this
    norm_num at this ⊢
    linarith
  have j3 : j = 3 * 2 ^ 51 := by
    have a : (3 * 2 ^ 51 - 1 : ℤ) < j := by exact_mod_cast j1
    have b : j < 3 * 2 ^ 51 + 1 := by exact_mod_cast j2
    omega
  rw [hj, j3]
  norm_num

/-- C24 fails in double precision, with results of operations rounded to nearest: filling a histogram of three bins on
`[0, 1)` with the greatest number below one accesses memory past the last bin. -/
theorem C24_double_violated (rnd : ℚ → ℚ)
    (hrnd : ∀ q ∈ [1 - 0, 1 / 3, belowOne - 0, belowOne / third], IsNearest q (rnd q)) :
    IsDouble belowOne ∧ 0 ≤ belowOne ∧ belowOne < 1 ∧ (Histogram.make rnd 0 1 3).fill rnd belowOne = none := by
  simp only [List.forall_mem_cons, List.not_mem_nil, false_imp_iff, implies_true, and_true, sub_zero] at hrnd
  obtain ⟨r1, r2, r3, r4⟩ := hrnd
  have d1 : IsDouble 1 := ⟨1, 0, by norm_num, by norm_num, by norm_num, by norm_num⟩
  have e1 := isNearest_self d1 r1
  have e2 := nearest_third r2
  have e3 := isNearest_self isDouble_belowOne r3
  have e4 := nearest_three r4
  refine ⟨isDouble_belowOne, by norm_num [belowOne], by norm_num [belowOne], ?_⟩
  have hlt : ¬ belowOne < 0 := by norm_num [belowOne]
  have hge : ¬ (1 : ℚ) ≤ belowOne := by norm_num [belowOne]
  simp only [Histogram.fill, Histogram.make, hlt, hge, if_false, sub_zero, e1, e3, Nat.cast_ofNat, e2, e4]
  norm_num

/-- There is such a rounding. -/
example : ∃ rnd : ℚ → ℚ, ∀ q ∈ [1 - 0, 1 / 3, belowOne - 0, belowOne / third], IsNearest q (rnd q) := by
  have self : ∀ {q}, IsDouble q → IsNearest q q := fun h => ⟨h, fun d _ => by simp⟩
  have d1 : IsDouble 1 := ⟨1, 0, by norm_num, by norm_num, by norm_num, by norm_num⟩
  have t : IsNearest (1 / 3) third := by
    refine ⟨isDouble_third, fun d hd => ?_⟩
    by_contra hlt
    push Not at hlt
    have h2 : |(1 / 3 : ℚ) - third| = 1 / 3 / 2 ^ 54 := by
      rw [abs_of_pos (by norm_num [third])]
      norm_num [third]
    rw [h2] at hlt
    have h1 := abs_lt.1 hlt
    obtain ⟨j, hj⟩ := double_multiple hd (-2) (by
      have : ((2 : ℚ) ^ (-2 : ℤ)) = 1 / 4 := by norm_num
      rw [this]
      norm_num at h1
      linarith [h1.2])
    have e : ((2 : ℚ) ^ (-2 - 52 : ℤ)) = 1 / 2 ^ 54 := by norm_num
    rw [e] at hj
    have j1 : (6004799503160661 : ℚ) < j := by
      have := h1.2
      rw [hj] at this
      norm_num at this ⊢
      linarith
    have j2 : (j : ℚ) < 6004799503160662 := by
      have := h1.1
      rw [hj] at this
      norm_num at this ⊢
      linarith
    have a : (6004799503160661 : ℤ) < j := by exact_mod_cast j1
    have b : j < 6004799503160662 := by exact_mod_cast j2
    omega
  have h3 : IsNearest (belowOne / third) 3 := by
    refine ⟨⟨3, 0, by norm_num, by norm_num, by norm_num, by norm_num⟩, fun d hd => ?_⟩
    by_contra hlt
    push Not at hlt
    have hq : belowOne / third = 3 - 1 / 6004799503160661 := by norm_num [belowOne, third]
    have h2 : |belowOne / third - 3| = 1 / 6004799503160661 := by
      rw [hq, abs_of_neg (by norm_num)]
      norm_num
    rw [h2, hq] at hlt
    have h1 := abs_lt.1 hlt
    obtain ⟨j, hj⟩ := double_multiple hd 1 (by
      have : ((2 : ℚ) ^ (1 : ℤ)) = 2 := by norm_num
      rw [this]
      norm_num at h1
      linarith [h1.2])
    have e : ((2 : ℚ) ^ (1 - 52 : ℤ)) = 1 / 2 ^ 51 := by norm_num
    rw [e] at hj
    have j1 : (3 * 2 ^ 51 - 1 : ℚ) < j := by
      have := h1.2
      rw [hj] at this
      norm_num at this ⊢
      linarith
    have j2 : (j : ℚ) < 3 * 2 ^ 51 := by
      have := h1.1
      rw [hj] at this
      norm_num at this ⊢
      linarith
    have a : (3 * 2 ^ 51 - 1 : ℤ) < j := by exact_mod_cast j1
    have b : j < 3 * 2 ^ 51 := by exact_mod_cast j2
    omega
  refine ⟨fun q => if q = 1 / 3 then third else if q = belowOne / third then 3 else q, ?_⟩
  simp only [List.forall_mem_cons, List.not_mem_nil, false_imp_iff, implies_true, and_true, sub_zero]
  have n1 : ¬ belowOne = 1 / 3 := by norm_num [belowOne]
  have n2 : ¬ belowOne = belowOne / third := by norm_num [belowOne, third]
  have n3 : ¬ (1 : ℚ) = belowOne / third := by norm_num [belowOne, third]
  have n4 : ¬ belowOne / third = 1 / 3 := by norm_num [belowOne, third]
  refine ⟨?_, ?_, ?_, ?_⟩
  · rw [if_neg (by norm_num), if_neg n3]; exact self d1
  · rw [if_pos trivial]; exact t
  · rw [if_neg n1, if_neg n2]; exact self isDouble_belowOne
  · rw [if_neg n4, if_pos trivial]; exact h3

end OpenMPCD.Profile
