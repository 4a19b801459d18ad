import Mathlib.Data.Real.Basic
import Mathlib.Algebra.Order.Archimedean.Real.Basic
import Mathlib.Algebra.Order.Archimedean.Basic
import Mathlib.Algebra.Order.Round
import Mathlib.Data.Nat.Log
import Mathlib.Tactic.Ring
import Mathlib.Tactic.Linarith
import Mathlib.Tactic.NormNum
import Mathlib.Tactic.Positivity
import Mathlib.Tactic.FieldSimp

/-!
# Floating-point numbers as text

Numbers are saved as decimal text of a limited number of digits, and read back. The numbers a floating-point type has, and the
numbers a text of `N` digits can denote, are sets of real numbers; writing and reading choose a nearest element (the C++ and
Python run time libraries round correctly).
-/

set_option linter.unusedSectionVars false
set_option linter.unusedSimpArgs false
set_option linter.unusedVariables false

namespace OpenMPCD.Decimal

/-! ## Model -/

/-- The finite values of a binary floating-point type with `p` bits of precision and exponents from `emin` to `emax`, including
subnormal numbers. `FP` is `double` (`include/OpenMPCD/Types.hpp:13`), with 53 bits. -/
def Bin (p : ℕ) (emin emax : ℤ) : Set ℝ :=
  {x | ∃ m e : ℤ, |m| < 2 ^ p ∧ emin ≤ e ∧ e ≤ emax ∧ x = m * (2 : ℝ) ^ e}

/-- The values of texts with `N` significant digits and any exponent. -/
def Dec (N : ℕ) : Set ℝ := {y | ∃ m k : ℤ, |m| < 10 ^ N ∧ y = m * (10 : ℝ) ^ k}

/-- `y` is an element of `S` nearest to `x`: a correctly rounded value. -/
def Nearest (S : Set ℝ) (x y : ℝ) : Prop := y ∈ S ∧ ∀ w ∈ S, |x - y| ≤ |x - w|

/-- `std::numeric_limits<T>::digits10`: the number of decimal digits that survive in a type with `p` bits. -/
def digits10 (p : ℕ) : ℕ := Nat.log 10 (2 ^ (p - 1))

/-- The precision set before numbers are written (`src/OpenMPCD/DensityProfile.cpp:50`, `src/OpenMPCD/FlowProfile.cpp:79`,
`src/OpenMPCD/CUDA/MPCFluid/Instrumentation/LogicalEntityMeanSquareDisplacement.cu:198`,
`src/OpenMPCD/CUDA/MPCFluid/Instrumentation/VelocityAutocorrelation/Base.cu:283`,
`src/OpenMPCD/CUDA/MPCFluid/Instrumentation/NormalModeAutocorrelation.cpp:204`,
`src/OpenMPCD/CUDA/MPCFluid/Instrumentation/FourierTransformedVelocity/Base.cpp:76`, `src/OpenMPCD/VTFSnapshotFile.cpp:51`,
`src/OpenMPCD/Histogram.cpp:80`, `src/OpenMPCD/Graph4D.cpp:9`, `src/OpenMPCD/Graph.cpp:13`,
`include/OpenMPCD/ImplementationDetails/OnTheFlyStatistics.hpp:29`,
`include/OpenMPCD/ImplementationDetails/OnTheFlyStatisticsDDDA.hpp:241`,
`Analysis/src/computeTransverseVelocityCorrelationFunction/writePlotfiles.cpp:170`). -/
def precision (p : ℕ) : ℕ := digits10 p + 2

/-- The precision of a stream for which none has been set; used for the mean square bond lengths of Gaussian chains
(`src/OpenMPCD/CUDA/MPCFluid/Instrumentation/GaussianChains.cpp:83-108`). -/
def defaultPrecision : ℕ := 6

/-- The number of digits `str` of a `float` has in Python 2. It is used for statistics
(`Analysis/MPCDAnalysis/OnTheFlyStatistics.py:199-204`), configurations (`Analysis/MPCDAnalysis/Configuration.py:326`), data
points (`Analysis/MPCDAnalysis/Data2D.py:240-242`) and snapshots (`Analysis/MPCDAnalysis/VTFSnapshotFile.py:108-115`). (In
Python 3, `str` writes as many digits as needed to get the number back.) -/
def python2Precision : ℕ := 12

/-! ## Lemmas -/

/-- Values of a floating-point type are not too close to each other. -/
theorem gap {p : ℕ} {emin emax : ℤ} {x z : ℝ} (hx : x ∈ Bin p emin emax) (hz : z ∈ Bin p emin emax) (hne : z ≠ x) :
    |x| ≤ 2 ^ p * |z - x| := by
  obtain ⟨m, e, hm, -, -, rfl⟩ := hx
  obtain ⟨n, f, hn, -, -, rfl⟩ := hz
  have h2 : (0 : ℝ) < 2 := by norm_num
  have int1 : ∀ a : ℤ, a ≠ 0 → (1 : ℝ) ≤ |(a : ℝ)| := by
    intro a ha; rw [← Int.cast_abs]; exact_mod_cast Int.one_le_abs ha
  have hm' : |(m : ℝ)| < 2 ^ p := by rw [← Int.cast_abs]; exact_mod_cast hm
  rcases le_total e f with hef | hef
  · obtain ⟨d, hd⟩ := Int.le.dest hef
    have hz : (n : ℝ) * 2 ^ f - m * 2 ^ e = ((n * 2 ^ d - m : ℤ) : ℝ) * 2 ^ e := by
      rw [← hd, zpow_add₀ h2.ne', zpow_natCast]; push_cast; ring
    have hne0 : n * 2 ^ d - m ≠ 0 := by
      intro h0; apply hne; rw [← sub_eq_zero, hz, h0]; simp
    rw [hz, abs_mul, abs_mul]
    have hp : (0 : ℝ) < |(2 : ℝ) ^ e| := abs_pos.2 (zpow_ne_zero _ h2.ne')
    have := int1 _ hne0
    have hpp : (0 : ℝ) < 2 ^ p := by positivity
    calc |(m : ℝ)| * |(2 : ℝ) ^ e| ≤ 2 ^ p * 1 * |(2 : ℝ) ^ e| := by gcongr; linarith
      _ ≤ 2 ^ p * |((n * 2 ^ d - m : ℤ) : ℝ)| * |(2 : ℝ) ^ e| := by gcongr
      _ = _ := by ring
  · obtain ⟨d, hd⟩ := Int.le.dest hef
    have hx : (m : ℝ) * 2 ^ e = ((m * 2 ^ d : ℤ) : ℝ) * 2 ^ f := by
      rw [← hd, zpow_add₀ h2.ne', zpow_natCast]; push_cast; ring
    rw [hx] at hne ⊢
    rw [← sub_mul, abs_mul, abs_mul, ← mul_assoc]
    have hp : (0 : ℝ) < |(2 : ℝ) ^ f| := abs_pos.2 (zpow_ne_zero _ h2.ne')
    apply mul_le_mul_of_nonneg_right _ hp.le
    generalize m * 2 ^ d = M at *
    have hne0 : n - M ≠ 0 := by
      intro h0; apply hne; rw [show n = M by omega]
    have key : |M| ≤ 2 ^ p * |n - M| := by
      have h1 := Int.one_le_abs hne0
      have hpp : (1 : ℤ) ≤ 2 ^ p := one_le_pow₀ (by norm_num)
      by_cases hM : |M| ≤ 2 ^ p
      · nlinarith
      · have h3 : |M| - |n| ≤ |n - M| := by rw [abs_sub_comm]; exact abs_sub_abs_le_abs_sub M n
        have h4 : |M| - 2 ^ p + 1 ≤ |n - M| := by omega
        nlinarith
    have : ((|M| : ℤ) : ℝ) ≤ ((2 ^ p * |n - M| : ℤ) : ℝ) := by exact_mod_cast key
    push_cast at this
    exact this

theorem abs_sub_round_le (t : ℤ) (u : ℝ) (h : |u - t| ≤ 1 / 2) (s : ℤ) : |u - t| ≤ |u - s| := by
  by_cases hst : s = t
  · rw [hst]
  · have h1 : (1 : ℝ) ≤ |((s - t : ℤ) : ℝ)| := by
      rw [← Int.cast_abs]; exact_mod_cast Int.one_le_abs (sub_ne_zero.2 hst)
    have h2 : |((s - t : ℤ) : ℝ)| ≤ |u - t| + |u - s| := by
      push_cast
      calc |(s : ℝ) - t| = |(u - t) - (u - s)| := by ring_nf
        _ ≤ _ := abs_sub _ _
    linarith

/-- How to find a nearest decimal number. -/
theorem nearest_dec {N : ℕ} (hN : 1 ≤ N) {x : ℝ} {k t : ℤ} (hk : (10 : ℝ) ^ (N - 1) * 10 ^ k ≤ |x|)
    (ht : |x / 10 ^ k - t| ≤ 1 / 2) (hd : t * (10 : ℝ) ^ k ∈ Dec N) : Nearest (Dec N) x (t * 10 ^ k) := by
  have h10 : (0 : ℝ) < 10 := by norm_num
  have hkp : (0 : ℝ) < (10 : ℝ) ^ k := zpow_pos h10 _
  refine ⟨hd, ?_⟩
  have scale : ∀ s : ℝ, |x - s * 10 ^ k| = |x / 10 ^ k - s| * 10 ^ k := by
    intro s
    rw [← abs_of_pos hkp, ← abs_mul, abs_of_pos hkp]
    congr 1; field_simp
  rintro w ⟨m, j, hm, rfl⟩
  rcases le_or_gt k j with hkj | hkj
  · obtain ⟨d, hd⟩ := Int.le.dest hkj
    have hw : (m : ℝ) * 10 ^ j = ((m * 10 ^ d : ℤ) : ℝ) * 10 ^ k := by
      rw [← hd, zpow_add₀ h10.ne', zpow_natCast]; push_cast; ring
    rw [hw, scale, scale]
    exact mul_le_mul_of_nonneg_right (abs_sub_round_le t _ ht _) hkp.le
  · -- shorter numbers are beyond `10 ^ (N - 1) * 10 ^ k`
    have hw : |(m : ℝ) * 10 ^ j| ≤ 10 ^ (N - 1) * 10 ^ k := by
      rw [abs_mul, abs_of_pos (zpow_pos h10 _)]
      have h1 : |(m : ℝ)| ≤ 10 ^ N := by rw [← Int.cast_abs]; exact_mod_cast hm.le
      have h2 : (10 : ℝ) ^ j ≤ 10 ^ (k - 1) := zpow_le_zpow_right₀ (by norm_num) (by omega)
      calc |(m : ℝ)| * 10 ^ j ≤ 10 ^ N * 10 ^ (k - 1) := mul_le_mul h1 h2 (zpow_pos h10 _).le (by positivity)
        _ = 10 ^ (N - 1) * 10 ^ k := by
          rw [zpow_sub₀ h10.ne', zpow_one]
          obtain ⟨n, rfl⟩ := Nat.exists_eq_add_of_le' hN
          rw [Nat.add_sub_cancel, pow_succ]; field_simp
    -- the number of this size with the sign of `x`
    obtain ⟨s, hs⟩ : ∃ s : ℤ, |x - s * 10 ^ k| = |x| - 10 ^ (N - 1) * 10 ^ k := by
      rcases le_total 0 x with hx | hx
      · refine ⟨10 ^ (N - 1), ?_⟩
        rw [abs_of_nonneg hx] at hk ⊢
        push_cast
        rw [abs_of_nonneg (by linarith)]
      · refine ⟨-10 ^ (N - 1), ?_⟩
        rw [abs_of_nonpos hx] at hk ⊢
        push_cast
        rw [abs_of_nonpos (by linarith)]
        ring
    have h3 : |x - t * 10 ^ k| ≤ |x - s * 10 ^ k| := by
      rw [scale, scale]
      exact mul_le_mul_of_nonneg_right (abs_sub_round_le t _ ht _) hkp.le
    have h4 : |x| - |(m : ℝ) * 10 ^ j| ≤ |x - m * 10 ^ j| := abs_sub_abs_le_abs_sub _ _
    linarith

/-- Every number has a nearest decimal number, which is not far from it. -/
theorem exists_nearest_dec {N : ℕ} (hN : 1 ≤ N) (x : ℝ) :
    ∃ y, Nearest (Dec N) x y ∧ 2 * 10 ^ (N - 1) * |x - y| ≤ |x| := by
  have h10 : (0 : ℝ) < 10 := by norm_num
  by_cases hx : x = 0
  · refine ⟨0, ⟨⟨0, 0, by simp, by simp⟩, fun w _ => by simp [hx]⟩, by simp [hx]⟩
  obtain ⟨i, hi1, hi2⟩ := exists_mem_Ico_zpow (abs_pos.2 hx) (by norm_num : (1 : ℝ) < 10)
  have hkp : (0 : ℝ) < (10 : ℝ) ^ (i - (N - 1 : ℕ)) := zpow_pos h10 _
  have hpow : (10 : ℝ) ^ (N - 1) * 10 ^ (i - (N - 1 : ℕ)) = 10 ^ i := by
    rw [← zpow_natCast, ← zpow_add₀ h10.ne']; congr 1; ring
  have hk : (10 : ℝ) ^ (N - 1) * 10 ^ (i - (N - 1 : ℕ)) ≤ |x| := hpow.le.trans hi1
  set k := i - (N - 1 : ℕ) with hkdef
  have ht := abs_sub_round (x / 10 ^ k)
  set t := round (x / 10 ^ k) with htdef
  have hxk : |x / 10 ^ k| < 10 ^ N := by
    rw [abs_div, abs_of_pos hkp, div_lt_iff₀ hkp]
    refine hi2.trans_le ?_
    obtain ⟨n, rfl⟩ := Nat.exists_eq_add_of_le' hN
    rw [Nat.add_sub_cancel] at hpow
    rw [pow_succ, zpow_add₀ h10.ne', ← hpow, zpow_one]
    exact le_of_eq (by ring)
  have htN : |t| ≤ 10 ^ N := by
    have h1 : |(t : ℝ)| ≤ |x / 10 ^ k| + 1 / 2 := by
      have : |(t : ℝ)| - |x / 10 ^ k| ≤ |(t : ℝ) - x / 10 ^ k| := abs_sub_abs_le_abs_sub _ _
      rw [abs_sub_comm] at this
      linarith
    have h2 : ((|t| : ℤ) : ℝ) < ((10 ^ N + 1 : ℤ) : ℝ) := by push_cast; linarith
    have := Int.cast_lt.1 h2
    omega
  have hd : t * (10 : ℝ) ^ k ∈ Dec N := by
    rcases lt_or_eq_of_le htN with h | h
    · exact ⟨t, k, h, rfl⟩
    · obtain ⟨n, rfl⟩ := Nat.exists_eq_add_of_le' hN
      have hlt : (10 : ℤ) ^ n < 10 ^ (n + 1) := pow_lt_pow_right₀ (by norm_num) (by omega)
      rcases abs_choice t with h' | h'
      · refine ⟨10 ^ n, k + 1, by rw [abs_of_pos (by positivity)]; exact hlt, ?_⟩
        rw [show t = 10 ^ (n + 1) by rw [← h, h'], zpow_add₀ h10.ne']
        push_cast; ring
      · refine ⟨-10 ^ n, k + 1, by rw [abs_neg, abs_of_pos (by positivity)]; exact hlt, ?_⟩
        rw [show t = -10 ^ (n + 1) by rw [← h, h']; ring, zpow_add₀ h10.ne']
        push_cast; ring
  refine ⟨_, nearest_dec hN hk ht hd, ?_⟩
  have h5 : |x - t * 10 ^ k| ≤ 1 / 2 * 10 ^ k := by
    have : x - t * 10 ^ k = (x / 10 ^ k - t) * 10 ^ k := by field_simp
    rw [this, abs_mul, abs_of_pos hkp]
    exact mul_le_mul_of_nonneg_right ht hkp.le
  calc 2 * 10 ^ (N - 1) * |x - t * 10 ^ k| ≤ 2 * 10 ^ (N - 1) * (1 / 2 * 10 ^ k) := by gcongr
    _ = 10 ^ (N - 1) * 10 ^ k := by ring
    _ ≤ |x| := hk

/-! ## Properties -/

/-- C119: whatever number is written with `N` digits, the relative error is at most half a unit of the last of them. -/
theorem C119_error {N : ℕ} (hN : 1 ≤ N) {x y : ℝ} (h : Nearest (Dec N) x y) : |x - y| ≤ 1 / 2 / 10 ^ (N - 1) * |x| := by
  obtain ⟨y', h1, h2⟩ := exists_nearest_dec hN x
  have h3 := h.2 y' h1.1
  have hp : (0 : ℝ) < 10 ^ (N - 1) := by positivity
  have h4 : 2 * 10 ^ (N - 1) * |x - y| ≤ |x| := le_trans (by gcongr) h2
  rw [div_div, div_mul_eq_mul_div, one_mul, le_div_iff₀ (by positivity)]
  linarith

/-- C119: every number can be written. -/
theorem C119_written {N : ℕ} (hN : 1 ≤ N) (x : ℝ) : ∃ y, Nearest (Dec N) x y :=
  (exists_nearest_dec hN x).imp fun _ h => h.1

/-- C119: if there are enough digits for the type, reading back what has been written for a number of that type gives exactly
this number, whatever the number and in whichever way ties are resolved. -/
theorem C119_digits {p N : ℕ} (hN : 1 ≤ N) (hp : 2 ^ p < 10 ^ (N - 1)) {emin emax : ℤ} {x : ℝ} (hx : x ∈ Bin p emin emax)
    {y : ℝ} (hy : Nearest (Dec N) x y) (z : ℝ) : Nearest (Bin p emin emax) y z ↔ z = x := by
  have hp' : (2 : ℝ) ^ p < 10 ^ (N - 1) := by exact_mod_cast hp
  have herr := C119_error hN hy
  have hpos : (0 : ℝ) < 10 ^ (N - 1) := by positivity
  have h2e : 2 * |x - y| * 10 ^ (N - 1) ≤ |x| := by
    rw [div_div, div_mul_eq_mul_div, one_mul, le_div_iff₀ (by positivity)] at herr
    linarith
  -- other values are further away
  have far : ∀ w ∈ Bin p emin emax, w ≠ x → |y - x| < |y - w| := by
    intro w hw hne
    have hg := gap hx hw hne
    by_contra hle
    push Not at hle
    have h1 : |w - x| ≤ 2 * |x - y| := by
      calc |w - x| = |(y - x) - (y - w)| := by ring_nf
        _ ≤ |y - x| + |y - w| := abs_sub _ _
        _ ≤ 2 * |x - y| := by rw [abs_sub_comm x y]; linarith
    have h0 : 0 < |w - x| := abs_pos.2 (sub_ne_zero.2 hne)
    have h2 : |x| < |x| := by
      calc |x| ≤ 2 ^ p * |w - x| := hg
        _ < 10 ^ (N - 1) * |w - x| := by gcongr
        _ ≤ 10 ^ (N - 1) * (2 * |x - y|) := by gcongr
        _ ≤ |x| := by linarith
    exact lt_irrefl _ h2
  constructor
  · rintro ⟨hz, hmin⟩
    by_contra hne
    exact absurd (hmin x hx) (not_le.2 (far z hz hne))
  · rintro rfl
    refine ⟨hx, fun w hw => ?_⟩
    by_cases hwz : w = z
    · rw [hwz]
    · exact (far w hw hwz).le

theorem digits10_53 : digits10 53 = 15 := by
  rw [digits10, Nat.log_eq_iff (by norm_num)]; norm_num

theorem digits10_24 : digits10 24 = 6 := by
  rw [digits10, Nat.log_eq_iff (by norm_num)]; norm_num

/-- C119: all numbers of the type `double` saved with the precision set in the code are read back unchanged. -/
theorem C119_double {emin emax : ℤ} {x : ℝ} (hx : x ∈ Bin 53 emin emax) {y : ℝ} (hy : Nearest (Dec (precision 53)) x y)
    (z : ℝ) : Nearest (Bin 53 emin emax) y z ↔ z = x :=
  C119_digits (by simp [precision]) (by rw [precision, digits10_53]; norm_num) hx hy z

/-- C119: different numbers of this type are different in the file. -/
theorem C119_distinct {emin emax : ℤ} {x x' : ℝ} (hx : x ∈ Bin 53 emin emax) (hx' : x' ∈ Bin 53 emin emax) {y : ℝ}
    (hy : Nearest (Dec (precision 53)) x y) (hy' : Nearest (Dec (precision 53)) x' y) : x = x' :=
  (C119_double hx' hy' x).1 ((C119_double hx hy x).2 rfl)

/-- C119 fails for the type `float`: different numbers are the same in the file, for example in the saved state of statistics of
such numbers. So at least one of them is not read back unchanged. -/
theorem C119_float_violated {emin emax : ℤ} (h1 : emin ≤ -10) (h2 : -10 ≤ emax) :
    ∃ x ∈ Bin 24 emin emax, ∃ x' ∈ Bin 24 emin emax, x ≠ x' ∧ ∃ y, Nearest (Dec (precision 24)) x y ∧
      Nearest (Dec (precision 24)) x' y := by
  have hz : (10 : ℝ) ^ (-3 : ℤ) = 1 / 1000 := by norm_num [zpow_neg]
  have hz2 : (2 : ℝ) ^ (-10 : ℤ) = 1 / 1024 := by norm_num [zpow_neg]
  have hp : precision 24 = 8 := by rw [precision, digits10_24]
  have hd : (10000021 : ℤ) * (10 : ℝ) ^ (-3 : ℤ) ∈ Dec 8 := ⟨10000021, -3, by norm_num, rfl⟩
  refine ⟨10000 + 21 / 1024, ⟨10240021, -10, by norm_num, h1, h2, by rw [hz2]; norm_num⟩,
    10000 + 22 / 1024, ⟨10240022, -10, by norm_num, h1, h2, by rw [hz2]; norm_num⟩, by norm_num,
    (10000021 : ℤ) * (10 : ℝ) ^ (-3 : ℤ), ?_, ?_⟩
  · rw [hp]
    refine nearest_dec (by norm_num) ?_ ?_ hd
    · rw [hz, abs_of_pos (by norm_num)]; norm_num
    · rw [hz]; norm_num [abs_le]
  · rw [hp]
    refine nearest_dec (by norm_num) ?_ ?_ hd
    · rw [hz, abs_of_pos (by norm_num)]; norm_num
    · rw [hz]; norm_num [abs_le]

/-- Numbers close enough to 1 are written as 1. -/
theorem near_one {N : ℕ} (hN : 1 ≤ N) {x : ℝ} (h1 : 1 ≤ x) (h2 : x ≤ 1 + 1 / 2 / 10 ^ (N - 1)) : Nearest (Dec N) x 1 := by
  have hz : (10 : ℝ) ^ (-(N - 1 : ℕ) : ℤ) = 1 / 10 ^ (N - 1) := by rw [zpow_neg, zpow_natCast, one_div]
  have hpos : (0 : ℝ) < 10 ^ (N - 1) := by positivity
  have h10 : ((10 ^ (N - 1) : ℤ) : ℝ) * (10 : ℝ) ^ (-(N - 1 : ℕ) : ℤ) = 1 := by
    rw [hz]; push_cast; field_simp
  have hd : ((10 ^ (N - 1) : ℤ) : ℝ) * (10 : ℝ) ^ (-(N - 1 : ℕ) : ℤ) ∈ Dec N :=
    ⟨10 ^ (N - 1), _, by rw [abs_of_pos (by positivity)]; exact pow_lt_pow_right₀ (by norm_num) (by omega), rfl⟩
  have := nearest_dec (x := x) hN (k := (-(N - 1 : ℕ) : ℤ)) (t := 10 ^ (N - 1)) ?_ ?_ hd
  · rwa [h10] at this
  · rw [hz, abs_of_pos (by linarith), mul_one_div, div_self hpos.ne']; exact h1
  · rw [hz]
    push_cast
    have he : x / (1 / 10 ^ (N - 1)) - 10 ^ (N - 1) = (x - 1) * 10 ^ (N - 1) := by field_simp
    rw [he, abs_of_nonneg (mul_nonneg (by linarith) hpos.le)]
    have : x - 1 ≤ 1 / 2 / 10 ^ (N - 1) := by linarith
    rwa [le_div_iff₀ hpos] at this

theorem bin_near_one {emin emax : ℤ} (h1 : emin ≤ -52) (h2 : -52 ≤ emax) (i : ℤ) (hi : 0 ≤ i) (hi' : i < 2 ^ 52) :
    (1 + i / 2 ^ 52 : ℝ) ∈ Bin 53 emin emax := by
  refine ⟨2 ^ 52 + i, -52, ?_, h1, h2, ?_⟩
  · rw [abs_of_nonneg (by positivity)]; omega
  · rw [zpow_neg]; push_cast; field_simp; norm_num

/-- C119 fails for numbers written by the analysis running under Python 2: 1 is read back instead of any of the 22517 next
numbers, for example from the configuration of a simulation. -/
theorem C119_python2_violated {emin emax : ℤ} (h1 : emin ≤ -52) (h2 : -52 ≤ emax) (i : ℕ) (hi : 0 < i) (hi' : i ≤ 22517) :
    ∃ x ∈ Bin 53 emin emax, x = 1 + i / 2 ^ 52 ∧ ∃ y, Nearest (Dec python2Precision) x y ∧
      ∀ z, Nearest (Bin 53 emin emax) y z → z ≠ x := by
  have hib : ((i : ℤ) : ℝ) = i := by push_cast; rfl
  have hi0 : (0 : ℝ) < i := by exact_mod_cast hi
  have hiR : (i : ℝ) ≤ 22517 := by exact_mod_cast hi'
  have hb := bin_near_one h1 h2 (i : ℤ) (by positivity) (by omega)
  have hone := bin_near_one h1 h2 0 le_rfl (by norm_num)
  rw [hib] at hb
  refine ⟨_, hb, rfl, 1, near_one (by norm_num [python2Precision]) ?_ ?_, ?_⟩
  · have : (0 : ℝ) ≤ i / 2 ^ 52 := by positivity
    linarith
  · have : (i : ℝ) / 2 ^ 52 ≤ 22517 / 2 ^ 52 := by gcongr
    norm_num [python2Precision] at this ⊢; linarith
  · rintro z ⟨-, hz⟩ rfl
    have h3 := hz _ hone
    have h4 : (0 : ℝ) < i / 2 ^ 52 := by positivity
    norm_num at h3
    exact absurd h3 hi.ne'

/-- C119 fails for the mean square bond lengths of Gaussian chains: for example, 1 is read back instead of any of the 2·10¹⁰
next numbers. -/
theorem C119_default_violated {emin emax : ℤ} (h1 : emin ≤ -52) (h2 : -52 ≤ emax) (i : ℕ) (hi : 0 < i)
    (hi' : i ≤ 20000000000) :
    ∃ x ∈ Bin 53 emin emax, x = 1 + i / 2 ^ 52 ∧ ∃ y, Nearest (Dec defaultPrecision) x y ∧
      ∀ z, Nearest (Bin 53 emin emax) y z → z ≠ x := by
  have hib : ((i : ℤ) : ℝ) = i := by push_cast; rfl
  have hi0 : (0 : ℝ) < i := by exact_mod_cast hi
  have hiR : (i : ℝ) ≤ 20000000000 := by exact_mod_cast hi'
  have hb := bin_near_one h1 h2 (i : ℤ) (by positivity) (by omega)
  have hone := bin_near_one h1 h2 0 le_rfl (by norm_num)
  rw [hib] at hb
  refine ⟨_, hb, rfl, 1, near_one (by norm_num [defaultPrecision]) ?_ ?_, ?_⟩
  · have : (0 : ℝ) ≤ i / 2 ^ 52 := by positivity
    linarith
  · have : (i : ℝ) / 2 ^ 52 ≤ 20000000000 / 2 ^ 52 := by gcongr
    norm_num [defaultPrecision] at this ⊢; linarith
  · rintro z ⟨-, hz⟩ rfl
    have h3 := hz _ hone
    have h4 : (0 : ℝ) < i / 2 ^ 52 := by positivity
    norm_num at h3
    exact absurd h3 hi.ne'

/-- The `double` next to one tenth is written and read back. -/
example : ∃ y, Nearest (Dec (precision 53)) (3602879701896397 * (2 : ℝ) ^ (-55 : ℤ)) y ∧
    Nearest (Bin 53 (-1074) 971) y (3602879701896397 * (2 : ℝ) ^ (-55 : ℤ)) := by
  obtain ⟨y, hy⟩ := C119_written (N := precision 53) (by simp [precision]) (3602879701896397 * (2 : ℝ) ^ (-55 : ℤ))
  exact ⟨y, hy, (C119_double ⟨3602879701896397, -55, by norm_num, by norm_num, by norm_num, by push_cast; rfl⟩ hy _).2 rfl⟩

example : ∃ x ∈ Bin 24 (-149) 104, ∃ x' ∈ Bin 24 (-149) 104, x ≠ x' ∧ ∃ y, Nearest (Dec (precision 24)) x y ∧
      Nearest (Dec (precision 24)) x' y := C119_float_violated (by norm_num) (by norm_num)

end OpenMPCD.Decimal
