import Verif.Util.Decimal
import Verif.Collide.CellProps
import Mathlib.Data.Set.Finite.Lemmas
import Mathlib.Data.Finite.Prod
import Mathlib.Data.Set.Finite.Basic
import Mathlib.Order.Interval.Finset.Defs
import Mathlib.Order.Interval.Set.Infinite
import Mathlib.Data.Int.Interval

/-!
# Collision cells in floating-point arithmetic

Positions are floating-point numbers, and every operation rounds to a nearest one.
-/

set_option linter.unusedSectionVars false
set_option linter.unusedSimpArgs false
set_option linter.unusedVariables false

namespace OpenMPCD.Collide.Rounded

open OpenMPCD.Decimal

/-! ## Model -/

/-- A rounding to a nearest floating-point number, with any rule for ties. -/
def IsRounding (p : ℕ) (emin emax : ℤ) (rnd : ℝ → ℝ) : Prop := ∀ x, Nearest (Bin p emin emax) x (rnd x)

/-- `floor(y / mpcSimulationBoxSizeY)` (`cudaDeviceCode/OpenMPCD/CUDA/DeviceCode/LeesEdwardsBoundaryConditions.cu:40-47`,
`src/OpenMPCD/LeesEdwardsBoundaryConditions.cpp:21-28`). -/
noncomputable def layer (rnd : ℝ → ℝ) (L : ℕ) (y : ℝ) : ℤ := ⌊rnd (y / L)⌋

/-- `y -= layerY * mpcSimulationBoxSizeY` (`cudaDeviceCode/OpenMPCD/CUDA/DeviceCode/LeesEdwardsBoundaryConditions.cu:49-51`,
`src/OpenMPCD/LeesEdwardsBoundaryConditions.cpp:30-32`). -/
noncomputable def wrap (rnd : ℝ → ℝ) (L : ℕ) (y : ℝ) : ℝ := rnd (y - rnd (layer rnd L y * L))

/-- `x -= layerY * layerDisplacement` (`cudaDeviceCode/OpenMPCD/CUDA/DeviceCode/LeesEdwardsBoundaryConditions.cu:22,45`,
`src/OpenMPCD/LeesEdwardsBoundaryConditions.cpp:14,26`). -/
noncomputable def sheared (rnd : ℝ → ℝ) (Ly : ℕ) (relativeLayerVelocity mpcTime x y : ℝ) : ℝ :=
  rnd (x - rnd (layer rnd Ly y * rnd (relativeLayerVelocity * mpcTime)))

/-- `getImageUnderLeesEdwardsBoundaryConditions`
(`cudaDeviceCode/OpenMPCD/CUDA/DeviceCode/LeesEdwardsBoundaryConditions.cu:17-87`,
`src/OpenMPCD/LeesEdwardsBoundaryConditions.cpp:6-46`): the position returned. -/
noncomputable def image (rnd : ℝ → ℝ) (Lx Ly Lz : ℕ) (relativeLayerVelocity mpcTime : ℝ) (position : Vec3 ℝ) : Vec3 ℝ :=
  ⟨wrap rnd Lx (sheared rnd Ly relativeLayerVelocity mpcTime position.x position.y), wrap rnd Ly position.y,
    wrap rnd Lz position.z⟩

/-- `sortIntoCollisionCellsLeesEdwards` (`cudaDeviceCode/OpenMPCD/CUDA/DeviceCode/Simulation.cu:75-115`): the index of the
collision cell. -/
noncomputable def cellOf (rnd : ℝ → ℝ) (Lx Ly Lz : ℕ) (relativeLayerVelocity mpcTime : ℝ) (position gridShift : Vec3 ℝ) : ℕ :=
  getCollisionCellIndex Lx Ly (image rnd Lx Ly Lz relativeLayerVelocity mpcTime
    ⟨rnd (position.x + gridShift.x), rnd (position.y + gridShift.y), rnd (position.z + gridShift.z)⟩)

/-! ## Floating-point numbers -/

variable {p : ℕ} {emin emax : ℤ} {rnd : ℝ → ℝ}

theorem two_zpow_pos (k : ℤ) : (0 : ℝ) < 2 ^ k := zpow_pos (by norm_num) _

theorem IsRounding.mem (h : IsRounding p emin emax rnd) (x : ℝ) : rnd x ∈ Bin p emin emax := (h x).1

theorem IsRounding.eq_self (h : IsRounding p emin emax rnd) {x : ℝ} (hx : x ∈ Bin p emin emax) : rnd x = x := by
  have := (h x).2 x hx
  rw [sub_self, abs_zero, abs_nonpos_iff] at this
  linarith

theorem IsRounding.mono (h : IsRounding p emin emax rnd) {x y : ℝ} (hxy : x ≤ y) : rnd x ≤ rnd y := by
  rcases hxy.eq_or_lt with rfl | hlt
  · exact le_rfl
  by_contra hc
  push Not at hc
  have h1 := (h x).2 _ (h.mem y)
  have h2 := (h y).2 _ (h.mem x)
  rw [abs_le_abs_iff_sq] at h1 h2
  nlinarith
where
  abs_le_abs_iff_sq {a b : ℝ} : |a| ≤ |b| ↔ a ^ 2 ≤ b ^ 2 := sq_le_sq.symm

theorem IsRounding.le_of_le (h : IsRounding p emin emax rnd) {x c : ℝ} (hc : c ∈ Bin p emin emax) (hx : x ≤ c) :
    rnd x ≤ c := (h.mono hx).trans_eq (h.eq_self hc)

theorem IsRounding.ge_of_ge (h : IsRounding p emin emax rnd) {x c : ℝ} (hc : c ∈ Bin p emin emax) (hx : c ≤ x) :
    c ≤ rnd x := (h.eq_self hc).symm.trans_le (h.mono hx)

/-- There are such roundings. -/
theorem exists_isRounding (h : emin ≤ emax) : ∃ rnd, IsRounding p emin emax rnd := by
  have hfin : (Bin p emin emax).Finite := by
    have h3 : ((Set.Ioo (-(2 ^ p) : ℤ) (2 ^ p)) ×ˢ (Set.Icc emin emax)).Finite :=
      Set.Finite.prod (Set.toFinite _) (Set.toFinite _)
    apply Set.Finite.subset (h3.image fun q : ℤ × ℤ => (q.1 : ℝ) * (2 : ℝ) ^ q.2)
    rintro x ⟨m, e, hm, h1, h2, rfl⟩
    exact ⟨(m, e), ⟨abs_lt.1 hm, h1, h2⟩, rfl⟩
  have hne : (Bin p emin emax).Nonempty := ⟨0, 0, emin, by simp, le_rfl, h, by simp⟩
  have : ∀ x, ∃ y, Nearest (Bin p emin emax) x y := fun x => by
    obtain ⟨y, hy, hmin⟩ := Set.exists_min_image _ (fun w => |x - w|) hfin hne
    exact ⟨y, hy, hmin⟩
  choose rnd hr using this
  exact ⟨rnd, hr⟩

theorem zero_mem (h : emin ≤ emax) : (0 : ℝ) ∈ Bin p emin emax := ⟨0, emin, by simp, le_rfl, h, by simp⟩

theorem int_mem (h0 : emin ≤ 0) (h1 : 0 < p) (h2 : (p : ℤ) ≤ emax) {n : ℤ} (hn : |n| ≤ 2 ^ p) : (n : ℝ) ∈ Bin p emin emax := by
  rcases hn.lt_or_eq with hn | hn
  · exact ⟨n, 0, hn, h0, by omega, by simp⟩
  · have h12 : (1 : ℤ) < 2 ^ p := one_lt_pow₀ (by norm_num) h1.ne'
    rcases abs_choice n with h | h
    · refine ⟨1, p, by simpa using h12, by omega, h2, ?_⟩
      rw [show n = 2 ^ p by rw [← hn, h]]; push_cast; simp
    · refine ⟨-1, p, by simpa using h12, by omega, h2, ?_⟩
      rw [show n = -2 ^ p by rw [← hn, h]; ring]; push_cast; simp

/-- Large numbers are multiples of a power of two. -/
theorem multiple {w : ℝ} (hw : w ∈ Bin p emin emax) {k : ℤ} (hk : (2 : ℝ) ^ k ≤ |w|) : ∃ m : ℤ, w = m * 2 ^ (k - p + 1) := by
  obtain ⟨m, e, hm, -, -, rfl⟩ := hw
  have hm' : |(m : ℝ)| < 2 ^ p := by rw [← Int.cast_abs]; exact_mod_cast hm
  rw [abs_mul, abs_of_pos (two_zpow_pos e)] at hk
  have h1 : (2 : ℝ) ^ k < 2 ^ ((p : ℤ) + e) := by
    rw [zpow_add₀ (by norm_num), zpow_natCast]
    exact hk.trans_lt (mul_lt_mul_of_pos_right hm' (two_zpow_pos e))
  have h2 : k < p + e := (zpow_lt_zpow_iff_right₀ (by norm_num)).1 h1
  obtain ⟨d, hd⟩ := Int.le.dest (show k - p + 1 ≤ e by omega)
  refine ⟨m * 2 ^ d, ?_⟩
  rw [← hd, zpow_add₀ (by norm_num), zpow_natCast]; push_cast; ring

theorem int_multiple (n : ℤ) {j : ℤ} (hj : j ≤ 0) : ∃ M : ℤ, (n : ℝ) = M * 2 ^ j := by
  obtain ⟨d, hd⟩ := Int.le.dest hj
  refine ⟨n * 2 ^ d, ?_⟩
  rw [show j = -(d : ℤ) by omega, zpow_neg, zpow_natCast]; push_cast; field_simp

theorem pow_multiple (hp : 0 < p) (k : ℤ) : (2 : ℝ) ^ k = ((2 ^ (p - 1) : ℤ) : ℝ) * 2 ^ (k - p + 1) := by
  push_cast
  rw [← zpow_natCast, ← zpow_add₀ (by norm_num)]
  congr 1
  omega

theorem sub_ge {M m : ℤ} {u : ℝ} (hu : 0 < u) (h : (m : ℝ) * u < M * u) : (m : ℝ) * u ≤ M * u - u := by
  have h1 : (m : ℝ) < M := lt_of_mul_lt_mul_right h hu.le
  have h2 : m < M := by exact_mod_cast h1
  have h3 : (m : ℝ) ≤ M - 1 := by exact_mod_cast (show m ≤ M - 1 by omega)
  calc (m : ℝ) * u ≤ (M - 1) * u := mul_le_mul_of_nonneg_right h3 hu.le
    _ = _ := by ring

/-- The numbers below a given one. -/
theorem below (hp : 0 < p) {w : ℝ} (hw : w ∈ Bin p emin emax) {k M : ℤ} {N : ℝ} (hM : N = M * 2 ^ (k - p + 1))
    (hk : (2 : ℝ) ^ k < N) (hlt : w < N) : w ≤ N - 2 ^ (k - p + 1) := by
  have hu := two_zpow_pos (k - p + 1)
  rcases le_or_gt ((2 : ℝ) ^ k) w with h | h
  · obtain ⟨m, hm⟩ := multiple hw (h.trans (le_abs_self w))
    rw [hM, hm] at hlt ⊢
    exact sub_ge hu hlt
  · rw [pow_multiple hp k] at h hk
    rw [hM] at hk ⊢
    exact h.le.trans (sub_ge hu hk)

/-- The numbers above a given one. -/
theorem above {w : ℝ} (hw : w ∈ Bin p emin emax) {k M : ℤ} {N : ℝ} (hM : N = M * 2 ^ (k - p + 1))
    (hk : (2 : ℝ) ^ k ≤ N) (hlt : N < w) : N + 2 ^ (k - p + 1) ≤ w := by
  have hu := two_zpow_pos (k - p + 1)
  obtain ⟨m, hm⟩ := multiple hw ((hk.trans hlt.le).trans (le_abs_self w))
  rw [hM, hm] at hlt ⊢
  have := sub_ge hu hlt
  linarith

theorem pred_mem (hp : 0 < p) {k M : ℤ} (h1 : emin ≤ k - p + 1) (h2 : k - p + 1 ≤ emax) {N : ℝ}
    (hM : N = M * 2 ^ (k - p + 1)) (hk : (2 : ℝ) ^ k < N) (hk' : N ≤ 2 ^ (k + 1)) :
    N - 2 ^ (k - p + 1) ∈ Bin p emin emax := by
  have hu := two_zpow_pos (k - p + 1)
  refine ⟨M - 1, k - p + 1, ?_, h1, h2, by rw [hM]; push_cast; ring⟩
  have hM1 : (0 : ℝ) < M := by
    have h : 0 < (M : ℝ) * 2 ^ (k - p + 1) := by rw [← hM]; exact (two_zpow_pos k).trans hk
    exact pos_of_mul_pos_left h hu.le
  have hM2 : (M : ℝ) * 2 ^ (k - p + 1) ≤ 2 ^ p * 2 ^ (k - p + 1) := by
    rw [← hM, ← zpow_natCast, ← zpow_add₀ (by norm_num)]
    exact hk'.trans_eq (by congr 1; ring)
  have hM3 : (M : ℝ) ≤ 2 ^ p := le_of_mul_le_mul_right hM2 hu
  have a1 : 0 < M := by exact_mod_cast hM1
  have a2 : M ≤ 2 ^ p := by exact_mod_cast hM3
  rw [abs_of_nonneg (by omega)]; omega

theorem succ_mem (hp : 0 < p) {k M : ℤ} (h1 : emin ≤ k - p + 1) (h2 : k + 1 ≤ emax) {N : ℝ}
    (hM : N = M * 2 ^ (k - p + 1)) (hk : (2 : ℝ) ^ k ≤ N) (hk' : N < 2 ^ (k + 1)) :
    N + 2 ^ (k - p + 1) ∈ Bin p emin emax := by
  have hu := two_zpow_pos (k - p + 1)
  have hM1 : (0 : ℝ) < M := by
    have h : 0 < (M : ℝ) * 2 ^ (k - p + 1) := by rw [← hM]; exact (two_zpow_pos k).trans_le hk
    exact pos_of_mul_pos_left h hu.le
  have hM2 : (M : ℝ) * 2 ^ (k - p + 1) < 2 ^ p * 2 ^ (k - p + 1) := by
    rw [← hM, ← zpow_natCast, ← zpow_add₀ (by norm_num)]
    exact hk'.trans_eq (by congr 1; ring)
  have hM3 : (M : ℝ) < 2 ^ p := lt_of_mul_lt_mul_right hM2 hu.le
  have a1 : 0 < M := by exact_mod_cast hM1
  have a2 : M < 2 ^ p := by exact_mod_cast hM3
  by_cases h : M + 1 = 2 ^ p
  · refine ⟨1, k + 1, by simpa using one_lt_pow₀ (by norm_num : (1 : ℤ) < 2) hp.ne', by omega, h2, ?_⟩
    have : (M : ℝ) + 1 = 2 ^ p := by exact_mod_cast h
    calc N + 2 ^ (k - p + 1) = ((M : ℝ) + 1) * 2 ^ (k - p + 1) := by rw [hM]; ring
      _ = 2 ^ (k + 1) := by
        rw [this, ← zpow_natCast, ← zpow_add₀ (by norm_num)]; congr 1; ring
      _ = _ := by simp
  · refine ⟨M + 1, k - p + 1, ?_, h1, by omega, by rw [hM]; push_cast; ring⟩
    rw [abs_of_pos (by omega)]; omega

/-- What is assumed of the type; met by `double` (and `float`). -/
structure Type_ (p : ℕ) (emin emax : ℤ) : Prop where
  pos : 0 < p
  small : emin ≤ -p - 1
  large : p + 1 ≤ emax

example : Type_ 53 (-1074) 971 := ⟨by norm_num, by norm_num, by norm_num⟩

/-! ## One coordinate -/

/-- The quotient is not rounded up to the next integer. -/
theorem quotient_lt (ht : Type_ p emin emax) (hr : IsRounding p emin emax rnd) {L : ℕ} (hL : 0 < L) {y : ℝ}
    (hy : y ∈ Bin p emin emax) {n : ℤ} (hn : y < n * L) (hb : |(n : ℝ)| * L ≤ 2 ^ p)
    (hu : n = 0 → y / L ≤ -2 ^ emin) : rnd (y / L) < n := by
  obtain ⟨hp, h1, h2⟩ := ht
  have hL0 : (0 : ℝ) < L := by exact_mod_cast hL
  have hL1 : (1 : ℝ) ≤ L := by exact_mod_cast hL
  have hq : y / L < n := by rwa [div_lt_iff₀ hL0]
  have hpp : (0 : ℝ) < 2 ^ p := by positivity
  have hnb : |(n : ℝ)| ≤ 2 ^ p := le_trans (le_mul_of_one_le_right (abs_nonneg _) hL1) hb
  have hnI : |n| ≤ 2 ^ p := by
    rw [← Int.cast_abs] at hnb; exact_mod_cast hnb
  have hnm : (n : ℝ) ∈ Bin p emin emax := int_mem (by omega) hp (by omega) hnI
  have hle := hr.le_of_le hnm hq.le
  refine lt_of_le_of_ne hle fun heq => ?_
  have hmin := (hr (y / L)).2
  rw [heq] at hmin
  have hpz : (2 : ℝ) ^ p = 2 ^ (p : ℤ) := (zpow_natCast _ _).symm
  rcases lt_trichotomy n 0 with hneg | h0 | hpos
  · -- negative
    have hN0 : (n : ℝ) < 0 := by exact_mod_cast hneg
    have hN : (0 : ℝ) < -n := by linarith
    have hNa : |(n : ℝ)| = -n := abs_of_neg (by linarith)
    rw [hNa] at hb hnb
    obtain ⟨a, ha1, ha2⟩ := exists_mem_Ico_zpow hN (by norm_num : (1 : ℝ) < 2)
    obtain ⟨b, hb1, hb2⟩ := exists_mem_Ico_zpow (mul_pos hN hL0) (by norm_num : (1 : ℝ) < 2)
    have hN1 : (1 : ℝ) ≤ -n := by exact_mod_cast (show 1 ≤ -n by omega)
    have ha0 : -1 < a := by
      have : (2 : ℝ) ^ (0 : ℤ) < 2 ^ (a + 1) := by rw [zpow_zero]; linarith
      have := (zpow_lt_zpow_iff_right₀ (by norm_num)).1 this
      omega
    have hap : a ≤ p := by
      have : (2 : ℝ) ^ a ≤ 2 ^ (p : ℤ) := ha1.trans (hnb.trans_eq hpz)
      exact (zpow_le_zpow_iff_right₀ (by norm_num)).1 this
    have hbp : b ≤ p := by
      have : (2 : ℝ) ^ b ≤ 2 ^ (p : ℤ) := hb1.trans (hb.trans_eq hpz)
      exact (zpow_le_zpow_iff_right₀ (by norm_num)).1 this
    -- powers of two that are multiples of anything smaller
    have mult : ∀ (i c : ℤ), c ≤ p → (2 : ℝ) ^ c ≤ i → (i : ℝ) ≤ 2 ^ (p : ℤ) → ∃ M : ℤ, (i : ℝ) = M * 2 ^ (c - p + 1) := by
      intro i c hc hci hip
      rcases lt_or_eq_of_le hc with hc | hc
      · exact int_multiple i (by omega)
      · have : (i : ℝ) = 2 ^ (p : ℤ) := le_antisymm hip (by rw [← hc]; exact hci)
        refine ⟨2 ^ (p - 1), ?_⟩
        rw [this, hc]; exact pow_multiple hp p
    obtain ⟨M, hM⟩ := mult (-n) a hap (by push_cast; exact ha1) (by push_cast; exact hnb.trans_eq hpz)
    obtain ⟨M', hM'⟩ := mult (-n * L) b hbp (by push_cast; exact hb1) (by push_cast; exact hb.trans_eq hpz)
    push_cast at hM hM'
    have hs := succ_mem (emin := emin) (emax := emax) hp (by omega) (by omega) hM ha1 ha2
    have hs' : (n : ℝ) - 2 ^ (a - p + 1) ∈ Bin p emin emax := by
      obtain ⟨m, e, hm, h3, h4, h5⟩ := hs
      exact ⟨-m, e, by rwa [abs_neg], h3, h4, by push_cast; linarith⟩
    have hnear := hmin _ hs'
    have hy' : -y ∈ Bin p emin emax := by
      obtain ⟨m, e, hm, h3, h4, h5⟩ := hy
      exact ⟨-m, e, by rwa [abs_neg], h3, h4, by push_cast; linarith⟩
    have hab := above hy' hM' hb1 (by linarith)
    have hu' := two_zpow_pos (a - p + 1)
    have hd : n - y / L ≤ 2 ^ (a - p + 1) / 2 := by
      rw [abs_of_neg (by linarith)] at hnear
      rcases le_total 0 (y / L - (n - 2 ^ (a - p + 1))) with h | h
      · rw [abs_of_nonneg h] at hnear; linarith
      · rw [abs_of_nonpos h] at hnear
        linarith
    have hd2 : n * L - y ≤ 2 ^ (a - p + 1) / 2 * L := by
      have : n * L - y = (n - y / L) * L := by field_simp
      rw [this]
      exact mul_le_mul_of_nonneg_right hd hL0.le
    have h5 : (2 : ℝ) ^ (b - p + 1) ≤ 2 ^ (a - p + 1) / 2 * L := by linarith
    have e1 : (2 : ℝ) ^ (b - p + 1) * 2 ^ (p : ℤ) = 2 ^ (b + 1) := by
      rw [← zpow_add₀ (by norm_num)]; congr 1; ring
    have e2 : (2 : ℝ) ^ (a - p + 1) * 2 ^ (p : ℤ) = 2 ^ a * 2 := by
      rw [← zpow_add₀ (by norm_num), ← zpow_add_one₀ (by norm_num)]; congr 1; ring
    have h6 : (2 : ℝ) ^ (b + 1) ≤ 2 ^ a * L := by
      have := mul_le_mul_of_nonneg_right h5 (two_zpow_pos p).le
      rw [e1] at this
      calc _ ≤ _ := this
        _ = (2 ^ (a - p + 1) * 2 ^ (p : ℤ)) / 2 * L := by ring
        _ = _ := by rw [e2]; ring
    have h7 : (2 : ℝ) ^ a * L ≤ -n * L := mul_le_mul_of_nonneg_right ha1 hL0.le
    linarith
  · -- zero
    have := hr.le_of_le (c := -2 ^ emin) ⟨-1, emin, by simpa using one_lt_pow₀ (by norm_num : (1 : ℤ) < 2) hp.ne', le_rfl, by omega, by simp⟩ (hu h0)
    rw [heq, h0] at this
    have := two_zpow_pos emin
    push_cast at *
    linarith
  · -- positive
    have hN : (0 : ℝ) < n := by exact_mod_cast hpos
    rw [abs_of_pos hN] at hb hnb
    obtain ⟨a, ha1, ha2⟩ := exists_mem_Ioc_zpow hN (by norm_num : (1 : ℝ) < 2)
    obtain ⟨b, hb1, hb2⟩ := exists_mem_Ioc_zpow (mul_pos hN hL0) (by norm_num : (1 : ℝ) < 2)
    have hN1 : (1 : ℝ) ≤ n := by exact_mod_cast hpos
    have ha0 : -1 ≤ a := by
      have : (2 : ℝ) ^ (0 : ℤ) ≤ 2 ^ (a + 1) := by rw [zpow_zero]; linarith
      have := (zpow_le_zpow_iff_right₀ (by norm_num)).1 this
      omega
    have hap : a < p := by
      have : (2 : ℝ) ^ a < 2 ^ (p : ℤ) := ha1.trans_le (hnb.trans_eq hpz)
      exact (zpow_lt_zpow_iff_right₀ (by norm_num)).1 this
    have hbp : b < p := by
      have : (2 : ℝ) ^ b < 2 ^ (p : ℤ) := hb1.trans_le (hb.trans_eq hpz)
      exact (zpow_lt_zpow_iff_right₀ (by norm_num)).1 this
    obtain ⟨M, hM⟩ := int_multiple n (show a - p + 1 ≤ 0 by omega)
    obtain ⟨M', hM'⟩ := int_multiple (n * L) (show b - p + 1 ≤ 0 by omega)
    push_cast at hM'
    have hs := pred_mem (emin := emin) (emax := emax) hp (by omega) (by omega) hM ha1 ha2
    have hnear := hmin _ hs
    have hab := below hp hy hM' hb1 hn
    have hu' := two_zpow_pos (a - p + 1)
    have hd : n - y / L ≤ 2 ^ (a - p + 1) / 2 := by
      rw [abs_of_neg (by linarith)] at hnear
      rcases le_total 0 (y / L - (n - 2 ^ (a - p + 1))) with h | h
      · rw [abs_of_nonneg h] at hnear; linarith
      · rw [abs_of_nonpos h] at hnear
        linarith
    have hd2 : n * L - y ≤ 2 ^ (a - p + 1) / 2 * L := by
      have : n * L - y = (n - y / L) * L := by field_simp
      rw [this]
      exact mul_le_mul_of_nonneg_right hd hL0.le
    have h5 : (2 : ℝ) ^ (b - p + 1) ≤ 2 ^ (a - p + 1) / 2 * L := by linarith
    have e1 : (2 : ℝ) ^ (b - p + 1) * 2 ^ (p : ℤ) = 2 ^ (b + 1) := by
      rw [← zpow_add₀ (by norm_num)]; congr 1; ring
    have e2 : (2 : ℝ) ^ (a - p + 1) * 2 ^ (p : ℤ) = 2 ^ a * 2 := by
      rw [← zpow_add₀ (by norm_num), ← zpow_add_one₀ (by norm_num)]; congr 1; ring
    have h6 : (2 : ℝ) ^ (b + 1) ≤ 2 ^ a * L := by
      have := mul_le_mul_of_nonneg_right h5 (two_zpow_pos p).le
      rw [e1] at this
      calc _ ≤ _ := this
        _ = (2 ^ (a - p + 1) * 2 ^ (p : ℤ)) / 2 * L := by ring
        _ = _ := by rw [e2]; ring
    have h7 : (2 : ℝ) ^ a * L < n * L := mul_lt_mul_of_pos_right ha1 hL0
    linarith

/-- The positions considered: floating-point numbers of moderate size. -/
structure Moderate (p : ℕ) (emin emax : ℤ) (L : ℕ) (y : ℝ) : Prop where
  mem : y ∈ Bin p emin emax
  size : |y| + L ≤ 2 ^ p
  /-- the quotient does not underflow -/
  normal : y < 0 → y / L ≤ -2 ^ emin

theorem floor_bounds {L : ℕ} (hL : 0 < L) (y : ℝ) : (⌊y / L⌋ : ℝ) * L ≤ y ∧ y < (⌊y / L⌋ + 1) * L := by
  have hL0 : (0 : ℝ) < L := by exact_mod_cast hL
  exact ⟨(le_div_iff₀ hL0).1 (Int.floor_le _), (div_lt_iff₀ hL0).1 (Int.lt_floor_add_one _)⟩

theorem product_bound {L : ℕ} (hL : 0 < L) {y : ℝ} (hs : |y| + L ≤ 2 ^ p) : |((⌊y / L⌋ * L : ℤ) : ℝ)| ≤ 2 ^ p := by
  obtain ⟨h1, h2⟩ := floor_bounds hL y
  have hL0 : (0 : ℝ) < L := by exact_mod_cast hL
  push_cast
  rw [abs_le]
  constructor <;> cases abs_cases y <;> linarith

/-- C120: the number of box lengths a coordinate is away from the box is found without error. -/
theorem C120_layer (ht : Type_ p emin emax) (hr : IsRounding p emin emax rnd) {L : ℕ} (hL : 0 < L) {y : ℝ}
    (hy : Moderate p emin emax L y) : layer rnd L y = ⌊y / L⌋ := by
  obtain ⟨hm, hs, hn⟩ := hy
  obtain ⟨h1, h2⟩ := floor_bounds hL y
  have hL0 : (0 : ℝ) < L := by exact_mod_cast hL
  have hL1 : (1 : ℝ) ≤ L := by exact_mod_cast hL
  have hb := product_bound (p := p) hL hs
  push_cast at hb
  rw [abs_mul, abs_of_pos hL0] at hb
  have hb' : |(⌊y / L⌋ : ℝ)| ≤ 2 ^ p := le_trans (le_mul_of_one_le_right (abs_nonneg _) hL1) hb
  have hbI : |⌊y / L⌋| ≤ 2 ^ p := by rw [← Int.cast_abs] at hb'; exact_mod_cast hb'
  rw [layer, Int.floor_eq_iff]
  refine ⟨hr.ge_of_ge (int_mem (by have := ht.small; omega) ht.pos (by have := ht.large; omega) hbI) (Int.floor_le _), ?_⟩
  have := quotient_lt ht hr hL hm (n := ⌊y / L⌋ + 1) (by push_cast; exact h2) ?_ ?_
  · push_cast at this; exact this
  · push_cast
    rw [← abs_of_pos hL0, ← abs_mul, abs_of_pos hL0, abs_le]
    constructor <;> cases abs_cases y <;> linarith
  · intro h0
    apply hn
    have : (⌊y / L⌋ : ℝ) + 1 = 0 := by exact_mod_cast h0
    rw [this, zero_mul] at h2
    exact h2

theorem wrap_eq (ht : Type_ p emin emax) (hr : IsRounding p emin emax rnd) {L : ℕ} (hL : 0 < L) {y : ℝ}
    (hy : Moderate p emin emax L y) : wrap rnd L y = rnd (y - ⌊y / L⌋ * L) := by
  have hb := product_bound (p := p) hL hy.size
  have hbI : |⌊y / L⌋ * (L : ℤ)| ≤ 2 ^ p := by rw [← Int.cast_abs] at hb; exact_mod_cast hb
  have hm : ((⌊y / L⌋ * (L : ℤ) : ℤ) : ℝ) ∈ Bin p emin emax :=
    int_mem (by have := ht.small; omega) ht.pos (by have := ht.large; omega) hbI
  rw [wrap, C120_layer ht hr hL hy]
  push_cast at hm
  rw [hr.eq_self hm]

/-- C120: the image of a coordinate is the exact one, unless the coordinate is negative and less than one box length away from
the box. -/
theorem C120_exact (ht : Type_ p emin emax) (hr : IsRounding p emin emax rnd) {L : ℕ} (hL : 0 < L) {y : ℝ}
    (hy : Moderate p emin emax L y) (h : 0 ≤ y ∨ y ≤ -L) : wrap rnd L y = y - ⌊y / L⌋ * L := by
  rw [wrap_eq ht hr hL hy]
  apply hr.eq_self
  obtain ⟨hm, hs, hn⟩ := hy
  obtain ⟨h1, h2⟩ := floor_bounds hL y
  have hL0 : (0 : ℝ) < L := by exact_mod_cast hL
  have hL1 : (1 : ℝ) ≤ L := by exact_mod_cast hL
  by_cases hin : 0 ≤ y ∧ y < L
  · have : ⌊y / L⌋ = 0 := by
      rw [Int.floor_eq_iff]
      exact ⟨by push_cast; exact div_nonneg hin.1 hL0.le, by push_cast; rw [div_lt_iff₀ hL0]; linarith [hin.2]⟩
    rw [this]; simpa using hm
  · have hyL : (L : ℝ) ≤ |y| := by
      rcases h with h | h
      · rw [abs_of_nonneg h]
        by_contra hc
        exact hin ⟨h, not_le.1 hc⟩
      · rw [abs_of_neg (by linarith)]; linarith
    obtain ⟨c, hc1, hc2⟩ := exists_mem_Ico_zpow (show 0 < |y| by linarith) (by norm_num : (1 : ℝ) < 2)
    have hc0 : -1 < c := by
      have : (2 : ℝ) ^ (0 : ℤ) < 2 ^ (c + 1) := by rw [zpow_zero]; linarith
      have := (zpow_lt_zpow_iff_right₀ (by norm_num)).1 this
      omega
    have hcp : c < p := by
      have : (2 : ℝ) ^ c < 2 ^ (p : ℤ) := by rw [zpow_natCast]; linarith
      exact (zpow_lt_zpow_iff_right₀ (by norm_num)).1 this
    obtain ⟨m, hm'⟩ := multiple hm hc1
    obtain ⟨M, hM⟩ := int_multiple (⌊y / L⌋ * L) (show c - p + 1 ≤ 0 by omega)
    push_cast at hM
    have hu := two_zpow_pos (c - p + 1)
    have hd : y - ⌊y / L⌋ * L = ((m - M : ℤ) : ℝ) * 2 ^ (c - p + 1) := by
      rw [hM]; push_cast; rw [sub_mul, ← hm']
    refine ⟨m - M, c - p + 1, ?_, by have := ht.small; omega, by have := ht.large; omega, hd⟩
    have h3 : |((m - M : ℤ) : ℝ)| * 2 ^ (c - p + 1) < 2 ^ p * 2 ^ (c - p + 1) := by
      have e : (2 : ℝ) ^ p * 2 ^ (c - p + 1) = 2 ^ (c + 1) := by
        rw [← zpow_natCast, ← zpow_add₀ (by norm_num)]; congr 1; ring
      rw [e]
      nth_rewrite 1 [← abs_of_pos hu]
      rw [← abs_mul, ← hd, abs_of_nonneg (by linarith)]
      linarith
    have h4 := lt_of_mul_lt_mul_right h3 hu.le
    rw [← Int.cast_abs] at h4
    exact_mod_cast h4

theorem floor_below {L : ℕ} (hL : 0 < L) {y : ℝ} (h1 : -L < y) (h2 : y < 0) : ⌊y / L⌋ = -1 := by
  have hL0 : (0 : ℝ) < L := by exact_mod_cast hL
  rw [Int.floor_eq_iff]
  push_cast
  exact ⟨by rw [le_div_iff₀ hL0]; linarith, by rw [div_lt_iff₀ hL0]; linarith⟩

/-- C120: the image of a coordinate is in the box, unless the coordinate is negative and at most half as far away from the box
as the floating-point number next to the box length is from it. -/
theorem C120_range (ht : Type_ p emin emax) (hr : IsRounding p emin emax rnd) {L : ℕ} (hL : 0 < L) {k : ℤ}
    (hk : (2 : ℝ) ^ k < L) (hk' : (L : ℝ) ≤ 2 ^ (k + 1)) {y : ℝ} (hy : Moderate p emin emax L y)
    (h : 0 ≤ y ∨ y < -2 ^ (k - p)) : 0 ≤ wrap rnd L y ∧ wrap rnd L y < L := by
  obtain ⟨h1, h2⟩ := floor_bounds hL y
  have hL0 : (0 : ℝ) < L := by exact_mod_cast hL
  have hL1 : (1 : ℝ) ≤ L := by exact_mod_cast hL
  by_cases hc : 0 ≤ y ∨ y ≤ -L
  · rw [C120_exact ht hr hL hy hc]
    constructor <;> linarith
  · push Not at hc
    obtain ⟨hneg, hlow⟩ := hc
    have hyk := h.resolve_left (by linarith)
    rw [wrap_eq ht hr hL hy, floor_below hL hlow hneg]
    have e : y - ((-1 : ℤ) : ℝ) * L = L + y := by push_cast; ring
    rw [e]
    refine ⟨hr.ge_of_ge (zero_mem (by have := ht.small; have := ht.large; omega)) (by linarith), ?_⟩
    have hLp : (L : ℝ) ≤ 2 ^ p := by have := hy.size; have := abs_nonneg y; linarith
    have hLm : ((L : ℤ) : ℝ) ∈ Bin p emin emax :=
      int_mem (by have := ht.small; omega) ht.pos (by have := ht.large; omega)
        (by rw [abs_of_nonneg (by positivity)]; exact_mod_cast hLp)
    push_cast at hLm
    have hkp : k < p := by
      have : (2 : ℝ) ^ k < 2 ^ (p : ℤ) := by rw [zpow_natCast]; linarith
      exact (zpow_lt_zpow_iff_right₀ (by norm_num)).1 this
    have hk0 : -1 ≤ k := by
      have : (2 : ℝ) ^ (0 : ℤ) ≤ 2 ^ (k + 1) := by rw [zpow_zero]; linarith
      have := (zpow_le_zpow_iff_right₀ (by norm_num)).1 this
      omega
    obtain ⟨M, hM⟩ := int_multiple (L : ℤ) (show k - p + 1 ≤ 0 by omega)
    push_cast at hM
    have hpm := pred_mem (emin := emin) (emax := emax) ht.pos (by have := ht.small; omega) (by have := ht.large; omega) hM hk hk'
    have hu := two_zpow_pos (k - p + 1)
    have e2 : (2 : ℝ) ^ (k - p + 1) = 2 ^ (k - p) * 2 := zpow_add_one₀ (by norm_num) _
    rcases le_total (L + y) (L - 2 ^ (k - p + 1)) with hle | hge
    · have := hr.le_of_le hpm hle
      linarith
    · refine lt_of_le_of_ne (hr.le_of_le hLm (by linarith)) fun heq => ?_
      have hmin := (hr (L + y)).2 _ hpm
      rw [heq, abs_of_neg (by linarith), abs_of_nonneg (by linarith)] at hmin
      linarith

/-- C120 fails in this narrow region: the image of every coordinate just below zero is the box length, which is not in the
box. -/
theorem C120_edge_violated (ht : Type_ p emin emax) (hr : IsRounding p emin emax rnd) {L : ℕ} (hL : 0 < L) {k : ℤ}
    (hk : (2 : ℝ) ^ k < L) (hk' : (L : ℝ) ≤ 2 ^ (k + 1)) {y : ℝ} (hy : Moderate p emin emax L y)
    (h1 : -2 ^ (k - p) < y) (h2 : y < 0) : wrap rnd L y = L := by
  have hL0 : (0 : ℝ) < L := by exact_mod_cast hL
  have hL1 : (1 : ℝ) ≤ L := by exact_mod_cast hL
  have hLp : (L : ℝ) ≤ 2 ^ p := by have := hy.size; have := abs_nonneg y; linarith
  have hkp : k < p := by
    have : (2 : ℝ) ^ k < 2 ^ (p : ℤ) := by rw [zpow_natCast]; linarith
    exact (zpow_lt_zpow_iff_right₀ (by norm_num)).1 this
  obtain ⟨M, hM⟩ := int_multiple (L : ℤ) (show k - p + 1 ≤ 0 by omega)
  push_cast at hM
  have hu := two_zpow_pos (k - p)
  have e2 : (2 : ℝ) ^ (k - p + 1) = 2 ^ (k - p) * 2 := zpow_add_one₀ (by norm_num) _
  have hlow : -L < y := by
    have : (2 : ℝ) ^ (k - p) ≤ 2 ^ k := zpow_le_zpow_right₀ (by norm_num) (by omega)
    linarith
  have hLm : ((L : ℤ) : ℝ) ∈ Bin p emin emax :=
    int_mem (by have := ht.small; omega) ht.pos (by have := ht.large; omega)
      (by rw [abs_of_nonneg (by positivity)]; exact_mod_cast hLp)
  push_cast at hLm
  rw [wrap_eq ht hr hL hy, floor_below hL hlow h2]
  have e : y - ((-1 : ℤ) : ℝ) * L = L + y := by push_cast; ring
  rw [e]
  refine le_antisymm (hr.le_of_le hLm (by linarith)) ?_
  by_contra hc
  push Not at hc
  have hbel := below ht.pos (hr.mem (L + y)) hM hk hc
  have hmin := (hr (L + y)).2 _ hLm
  rw [abs_of_nonneg (show 0 ≤ L + y - rnd (L + y) by linarith), abs_of_neg (show L + y - L < 0 by linarith)] at hmin
  linarith

/-! ## Cells -/

/-- A coordinate that is not in the narrow region below zero. -/
def Clear (p : ℕ) (L : ℕ) (y : ℝ) : Prop := y < 0 → ∀ k : ℤ, (2 : ℝ) ^ k < L → y < -2 ^ (k - p)

theorem wrap_inBox (ht : Type_ p emin emax) (hr : IsRounding p emin emax rnd) {L : ℕ} (hL : 0 < L) {y : ℝ}
    (hy : Moderate p emin emax L y) (hc : Clear p L y) : 0 ≤ wrap rnd L y ∧ wrap rnd L y < L := by
  obtain ⟨k, hk, hk'⟩ := exists_mem_Ioc_zpow (show (0 : ℝ) < L by exact_mod_cast hL) (by norm_num : (1 : ℝ) < 2)
  apply C120_range ht hr hL hk hk' hy
  rcases le_or_gt 0 y with h | h
  · exact .inl h
  · exact .inr (hc h k hk)

/-- C120: if none of the coordinates of a particle is in the narrow region, its cell is one of the cells there are, whatever the
time and the shear rate. -/
theorem C120_cell (ht : Type_ p emin emax) (hr : IsRounding p emin emax rnd) {Lx Ly Lz : ℕ} (hx : 0 < Lx) (hy : 0 < Ly)
    (hz : 0 < Lz) (hN : Lx * Ly * Lz < 2 ^ 32) (v t : ℝ) (position gridShift : Vec3 ℝ)
    (hmx : Moderate p emin emax Lx (sheared rnd Ly v t (rnd (position.x + gridShift.x)) (rnd (position.y + gridShift.y))))
    (hcx : Clear p Lx (sheared rnd Ly v t (rnd (position.x + gridShift.x)) (rnd (position.y + gridShift.y))))
    (hmy : Moderate p emin emax Ly (rnd (position.y + gridShift.y))) (hcy : Clear p Ly (rnd (position.y + gridShift.y)))
    (hmz : Moderate p emin emax Lz (rnd (position.z + gridShift.z))) (hcz : Clear p Lz (rnd (position.z + gridShift.z))) :
    cellOf rnd Lx Ly Lz v t position gridShift < getCollisionCellCount Lx Ly Lz :=
  C17_lt hN ⟨wrap_inBox ht hr hx hmx hcx, wrap_inBox ht hr hy hmy hcy, wrap_inBox ht hr hz hmz hcz⟩

/-- C120 fails: a particle whose third coordinate is just below zero is assigned to a cell that does not exist, so that memory
beyond the cells' data is changed. -/
theorem C120_memory_violated (ht : Type_ p emin emax) (hr : IsRounding p emin emax rnd) {Lx Ly Lz : ℕ} (hx : 0 < Lx)
    (hy : 0 < Ly) (hz : 0 < Lz) (hN : Lx * Ly * Lz + Lx * Ly < 2 ^ 32) (v t : ℝ) (position gridShift : Vec3 ℝ)
    (hmx : Moderate p emin emax Lx (sheared rnd Ly v t (rnd (position.x + gridShift.x)) (rnd (position.y + gridShift.y))))
    (hcx : Clear p Lx (sheared rnd Ly v t (rnd (position.x + gridShift.x)) (rnd (position.y + gridShift.y))))
    (hmy : Moderate p emin emax Ly (rnd (position.y + gridShift.y))) (hcy : Clear p Ly (rnd (position.y + gridShift.y)))
    (hmz : Moderate p emin emax Lz (rnd (position.z + gridShift.z))) {k : ℤ} (hk : (2 : ℝ) ^ k < Lz)
    (hk' : (Lz : ℝ) ≤ 2 ^ (k + 1)) (h1 : -2 ^ (k - p) < rnd (position.z + gridShift.z))
    (h2 : rnd (position.z + gridShift.z) < 0) :
    getCollisionCellCount Lx Ly Lz ≤ cellOf rnd Lx Ly Lz v t position gridShift := by
  obtain ⟨ax, bx⟩ := wrap_inBox ht hr hx hmx hcx
  obtain ⟨ay, by_⟩ := wrap_inBox ht hr hy hmy hcy
  have hw := C120_edge_violated ht hr hz hk hk' hmz h1 h2
  rw [cellOf, image, getCollisionCellIndex, getCollisionCellCount]
  simp only [hw, Nat.floor_natCast]
  generalize hX : wrap rnd Lx _ = X at ax bx ⊢
  generalize hY : wrap rnd Ly _ = Y at ay by_ ⊢
  have fx : ⌊X⌋₊ < Lx := (Nat.floor_lt ax).2 bx
  have fy : ⌊Y⌋₊ < Ly := (Nat.floor_lt ay).2 by_
  have hLx : Lx ≤ Lx * Ly := Nat.le_mul_of_pos_right _ hy
  have hLy : Ly ≤ Lx * Ly := Nat.le_mul_of_pos_left _ hx
  have hLz : Lz ≤ Lx * Ly * Lz := Nat.le_mul_of_pos_left _ (Nat.mul_pos hx hy)
  have hsum : ⌊Y⌋₊ * Lx + ⌊X⌋₊ < Lx * Ly := by
    calc ⌊Y⌋₊ * Lx + ⌊X⌋₊ < ⌊Y⌋₊ * Lx + Lx := by omega
      _ = (⌊Y⌋₊ + 1) * Lx := by ring
      _ ≤ Ly * Lx := Nat.mul_le_mul_right _ fy
      _ = _ := by ring
  have hc : Lz * Lx * Ly = Lx * Ly * Lz := by ring
  rw [Nat.mod_eq_of_lt (show ⌊X⌋₊ < 2 ^ 32 by omega), Nat.mod_eq_of_lt (show ⌊Y⌋₊ < 2 ^ 32 by omega),
    Nat.mod_eq_of_lt (show Lz < 2 ^ 32 by omega), hc, Nat.mod_eq_of_lt (by omega), Nat.mod_eq_of_lt (by omega)]
  omega

theorem double_ : Type_ 53 (-1074) 971 := ⟨by norm_num, by norm_num, by norm_num⟩

theorem moderate_inside {L : ℕ} {y : ℝ} (hm : y ∈ Bin 53 (-1074) 971) (hL : L ≤ 1000) (h0 : 0 ≤ y) (h1 : y ≤ 1000) :
    Moderate 53 (-1074) 971 L y := by
  refine ⟨hm, ?_, fun h => absurd h (not_lt.2 h0)⟩
  have : (L : ℝ) ≤ 1000 := by exact_mod_cast hL
  rw [abs_of_nonneg h0]; norm_num; linarith

/-- A box of ten cells in each direction, in double precision, without shear: a particle at a height of -(1/4 + 2⁻⁵⁴), while the
grid is shifted by 1/4. -/
example (hr : IsRounding 53 (-1074) 971 rnd) : 1000 ≤ cellOf rnd 10 10 10 0 0 ⟨1, 1, -(1 / 4 + 2 ^ (-54 : ℤ))⟩ ⟨1 / 4, 1 / 4, 1 / 4⟩ := by
  have ez : (2 : ℝ) ^ (-54 : ℤ) = 1 / 2 ^ 54 := by rw [zpow_neg]; norm_num
  have m1 : (5 / 4 : ℝ) ∈ Bin 53 (-1074) 971 := ⟨5, -2, by norm_num, by norm_num, by norm_num, by norm_num [zpow_neg]⟩
  have m2 : (-(2 ^ (-54 : ℤ)) : ℝ) ∈ Bin 53 (-1074) 971 := ⟨-1, -54, by norm_num, by norm_num, by norm_num, by push_cast; ring⟩
  have z0 : (0 : ℝ) ∈ Bin 53 (-1074) 971 := zero_mem (by norm_num)
  have r0 : rnd 0 = 0 := hr.eq_self z0
  have a1 : rnd (1 + 1 / 4) = 5 / 4 := by rw [show (1 + 1 / 4 : ℝ) = 5 / 4 by norm_num]; exact hr.eq_self m1
  have a2 : rnd (-(1 / 4 + 2 ^ (-54 : ℤ)) + 1 / 4) = -(2 ^ (-54 : ℤ)) := by
    rw [show (-(1 / 4 + 2 ^ (-54 : ℤ)) + 1 / 4 : ℝ) = -(2 ^ (-54 : ℤ)) by ring]; exact hr.eq_self m2
  have hs : sheared rnd 10 0 0 (5 / 4) (5 / 4) = 5 / 4 := by
    rw [sheared]; simp only [mul_zero, r0, sub_zero]; exact hr.eq_self m1
  have hmod : Moderate 53 (-1074) 971 10 (5 / 4) := moderate_inside m1 (by norm_num) (by norm_num) (by norm_num)
  have hcl : Clear 53 10 (5 / 4) := fun h => absurd h (by norm_num)
  have h := C120_memory_violated double_ hr (Lx := 10) (Ly := 10) (Lz := 10) (by norm_num) (by norm_num) (by norm_num)
    (by norm_num) 0 0 ⟨1, 1, -(1 / 4 + 2 ^ (-54 : ℤ))⟩ ⟨1 / 4, 1 / 4, 1 / 4⟩
    (by simp only [a1, hs]; exact hmod) (by simp only [a1, hs]; exact hcl)
    (by simp only [a1]; exact hmod) (by simp only [a1]; exact hcl)
    (by
      simp only [a2]
      refine ⟨m2, ?_, fun _ => ?_⟩
      · rw [abs_neg, abs_of_pos (two_zpow_pos _), ez]; norm_num
      · have : (2 : ℝ) ^ (-1074 : ℤ) ≤ 2 ^ (-58 : ℤ) := zpow_le_zpow_right₀ (by norm_num) (by norm_num)
        have e58 : (2 : ℝ) ^ (-58 : ℤ) = 1 / 2 ^ 58 := by rw [zpow_neg]; norm_num
        rw [e58] at this
        refine le_trans ?_ (neg_le_neg this)
        rw [ez]
        norm_num)
    (k := 3) (by norm_num) (by norm_num)
    (by simp only [a2]; rw [neg_lt_neg_iff]; exact zpow_lt_zpow_right₀ (by norm_num) (by norm_num))
    (by simp only [a2]; have := two_zpow_pos (-54); linarith)
  simpa [getCollisionCellCount] using h

end OpenMPCD.Collide.Rounded
