import Verif.Profile.Histogram
import Verif.Stats.Rounded

/-!
# Histograms in floating-point arithmetic (C24)

Which bin a value is counted in if every operation rounds, and which values are counted safely.
-/

set_option linter.unusedSectionVars false
set_option linter.unusedSimpArgs false
set_option linter.unusedVariables false

namespace OpenMPCD.Profile.Rounded

open OpenMPCD.Decimal OpenMPCD.Collide.Rounded OpenMPCD.Profile

/-! ## Specification -/

/-- Where a value lies in the range, in units of bins. -/
noncomputable def position (low high : ℝ) (n : ℕ) (v : ℝ) : ℝ := (v - low) / ((high - low) / n)

/-- The range of a histogram, and the number of bins, are such that there is no overflow, and that the bins are neither
subnormal nor too many. -/
structure Range (p : ℕ) (emin emax : ℤ) (low high : ℝ) (n : ℕ) : Prop where
  low_mem : low ∈ Bin p emin emax
  high_mem : high ∈ Bin p emin emax
  lt : low < high
  pos : 0 < n
  count : 7 * ((2 : ℝ) ^ (-(p : ℤ)) * n) < 1
  large : 2 * (high - low) < 2 ^ emax
  small : (2 : ℝ) ^ emin ≤ 2 ^ (-(p : ℤ)) * ((high - low) / n)

/-- How far from a boundary between bins values have to be, in units of bins, to be counted in the right bin. -/
noncomputable def margin (p n : ℕ) : ℝ := 7 * (2 ^ (-(p : ℤ)) * n)

/-- A value that is certainly counted in a bin. -/
def Sure (p : ℕ) (low high : ℝ) (n i : ℕ) (v : ℝ) : Prop :=
  low ≤ v ∧ v < high ∧ i + margin p n ≤ position low high n v ∧ position low high n v < i + 1 - margin p n

/-- A value that may be counted in a bin. -/
def Possible (p : ℕ) (low high : ℝ) (n i : ℕ) (v : ℝ) : Prop :=
  low ≤ v ∧ v < high ∧ i - margin p n ≤ position low high n v ∧ position low high n v < i + 1 + margin p n

/-! ## One value -/

variable {p : ℕ} {emin emax : ℤ} {rnd : ℝ → ℝ}

/-- The number of the bin that `Histogram.fill` chooses (`src/OpenMPCD/Histogram.cpp:35`), `fills_spec`. -/
noncomputable def binID (rnd : ℝ → ℝ) (low high : ℝ) (n : ℕ) (v : ℝ) : ℕ :=
  ⌊rnd (rnd (v - low) / rnd (rnd (high - low) / n))⌋₊

section
variable (ht : Type_ p emin emax) (hp : 6 ≤ p) (hr : IsRounding p emin emax rnd) {low high : ℝ} {n : ℕ}
  (hg : Range p emin emax low high n)
include ht hp hr hg

theorem size_bounds : |rnd (rnd (high - low) / n) - (high - low) / n| ≤ 31 / 10 * (2 ^ (-(p : ℤ)) * ((high - low) / n)) := by
  obtain ⟨g1, g2, g3, g4, g5, g6, g7⟩ := hg
  have hu := Stats.Rounded.u_le ht hp hr
  have hu0 := two_zpow_pos (-(p : ℤ))
  have hn : (1 : ℝ) ≤ n := by exact_mod_cast g4
  have hn0 : (0 : ℝ) < n := by linarith
  have hD : 0 < high - low := by linarith
  have e1 := Stats.Rounded.sub_error ht hp hr g2 g1 (by rw [abs_of_pos hD]; linarith)
  rw [abs_of_pos hD] at e1
  have hD' : 0 ≤ rnd (high - low) := Stats.Rounded.rnd_nonneg ht hp hr hD.le
  set u : ℝ := 2 ^ (-(p : ℤ)) with hudef
  set D := high - low with hDdef
  have hDle : rnd D ≤ (1 + u) * D := by have := (abs_le.1 e1).2; linarith
  have e2 := Stats.Rounded.rounding_error ht hp hr (x := rnd D / n) (by
    rw [abs_of_nonneg (by positivity)]
    refine lt_of_le_of_lt (div_le_self hD' hn) ?_
    nlinarith)
  rw [abs_of_nonneg (show 0 ≤ rnd D / n by positivity), ← hudef] at e2
  have e3 : |rnd D / n - D / n| ≤ u * (D / n) := by
    rw [← sub_div, abs_div, abs_of_pos hn0, mul_div_assoc']
    exact div_le_div_of_nonneg_right e1 hn0.le
  have e4 : rnd D / n ≤ (1 + u) * (D / n) := by
    rw [mul_div_assoc']; exact div_le_div_of_nonneg_right hDle hn0.le
  have e5 := abs_sub_le (rnd (rnd D / n)) (rnd D / n) (D / n)
  have hB : 0 < D / n := by positivity
  have huB : 0 < u * (D / n) := by positivity
  have e6 : u * (rnd D / n) ≤ (1 + 1 / 64) * (u * (D / n)) := by
    calc u * (rnd D / n) ≤ u * ((1 + u) * (D / n)) := mul_le_mul_of_nonneg_left e4 hu0.le
      _ = (1 + u) * (u * (D / n)) := by ring
      _ ≤ _ := mul_le_mul_of_nonneg_right (by linarith) huB.le
  linarith

/-- The quotient that determines the bin is close to the position. -/
theorem quotient_error {v : ℝ} (hv : v ∈ Bin p emin emax) (h1 : low ≤ v) (h2 : v < high) :
    |rnd (rnd (v - low) / rnd (rnd (high - low) / n)) - position low high n v| < margin p n := by
  have hb := size_bounds ht hp hr hg
  obtain ⟨g1, g2, g3, g4, g5, g6, g7⟩ := hg
  have hs := ht.small
  have hl := ht.large
  have hu := Stats.Rounded.u_le ht hp hr
  have hu0 := two_zpow_pos (-(p : ℤ))
  have hn : (1 : ℝ) ≤ n := by exact_mod_cast g4
  have hn0 : (0 : ℝ) < n := by linarith
  have hT : 0 ≤ v - low := by linarith
  have hTD : v - low < high - low := by linarith
  have e1 := Stats.Rounded.sub_error ht hp hr hv g1 (by rw [abs_of_nonneg hT]; linarith)
  rw [abs_of_nonneg hT] at e1
  have ht0 : 0 ≤ rnd (v - low) := Stats.Rounded.rnd_nonneg ht hp hr hT
  have hη : (2 : ℝ) ^ emin ≤ 2 ^ (-(p : ℤ)) := zpow_le_zpow_right₀ (by norm_num) (by omega)
  have hη' : (2 : ℝ) ^ emin < 2 ^ (-(p : ℤ)) := zpow_lt_zpow_right₀ (by norm_num) (by omega)
  have hmax : (2 : ℝ) * n < 2 ^ emax := by
    have h3 : (n : ℝ) < 2 ^ p := by
      have : (2 : ℝ) ^ p * 2 ^ (-(p : ℤ)) = 1 := by rw [← zpow_natCast, ← zpow_add₀ (by norm_num)]; simp
      have h5 : (n : ℝ) * 2 ^ (-(p : ℤ)) < 2 ^ p * 2 ^ (-(p : ℤ)) := by rw [this]; nlinarith
      exact lt_of_mul_lt_mul_right h5 hu0.le
    calc (2 : ℝ) * n < 2 * 2 ^ p := by linarith
      _ = 2 ^ ((p : ℤ) + 1) := by rw [zpow_add_one₀ (by norm_num), zpow_natCast]; ring
      _ ≤ 2 ^ emax := zpow_le_zpow_right₀ (by norm_num) hl
  unfold position margin
  set u : ℝ := 2 ^ (-(p : ℤ)) with hudef
  set B := (high - low) / n with hBdef
  set b := rnd (rnd (high - low) / n) with hbdef
  set T := v - low with hTdef
  have hB : 0 < B := div_pos (by linarith) hn0
  have hbB := abs_le.1 hb
  have huB : u * B ≤ 1 / 64 * B := mul_le_mul_of_nonneg_right hu hB.le
  have hb0 : 0 < b := by linarith
  set r := rnd T / b with hrdef
  set y := T / B with hydef
  have hy0 : 0 ≤ y := div_nonneg hT hB.le
  have hr0 : 0 ≤ r := div_nonneg ht0 hb0.le
  have hyB : y * B = T := div_mul_cancel₀ _ hB.ne'
  have hrb : r * b = rnd T := div_mul_cancel₀ _ hb0.ne'
  have hyn : y < n := by
    rw [hydef, div_lt_iff₀ hB, hBdef, mul_div_cancel₀ _ hn0.ne']; exact hTD
  have hrT : rnd T ≤ (1 + u) * T := by have := (abs_le.1 e1).2; linarith
  have hr1 : r ≤ 11 / 10 * y := by
    have k1 : r * (60 / 64 * B) ≤ r * b := mul_le_mul_of_nonneg_left (by linarith) hr0
    have k2 : r * (60 / 64 * B) ≤ (65 / 64 * y) * B := by
      calc r * (60 / 64 * B) ≤ rnd T := by rw [← hrb]; exact k1
        _ ≤ (1 + u) * T := hrT
        _ ≤ (1 + 1 / 64) * T := mul_le_mul_of_nonneg_right (by linarith) hT
        _ = (65 / 64 * y) * B := by rw [← hyB]; ring
    have k3 : (r * (60 / 64)) * B ≤ (65 / 64 * y) * B := by linarith
    have k4 := le_of_mul_le_mul_right k3 hB
    linarith
  have hdiff : |r - y| ≤ u * y + 31 / 10 * (u * r) := by
    have k1 : |(r - y) * B| ≤ (u * y + 31 / 10 * (u * r)) * B := by
      have : (r - y) * B = (rnd T - T) + r * (B - b) := by rw [sub_mul, hyB]; linear_combination hrb
      rw [this]
      refine (abs_add_le _ _).trans ?_
      rw [abs_mul, abs_of_nonneg hr0, abs_sub_comm B b]
      have k2 : r * |b - B| ≤ r * (31 / 10 * (u * B)) := mul_le_mul_of_nonneg_left hb hr0
      have k3 : u * T = u * y * B := by rw [← hyB]; ring
      linarith [show r * (31 / 10 * (u * B)) = 31 / 10 * (u * r) * B by ring,
        show (u * y + 31 / 10 * (u * r)) * B = u * y * B + 31 / 10 * (u * r) * B by ring]
    rw [abs_mul, abs_of_pos hB] at k1
    exact le_of_mul_le_mul_right k1 hB
  have e2 := Stats.Rounded.rounding_error ht hp hr (x := r) (by rw [abs_of_nonneg hr0]; linarith)
  rw [abs_of_nonneg hr0, ← hudef] at e2
  have hur : u * r ≤ 11 / 10 * (u * y) := by
    have := mul_le_mul_of_nonneg_left hr1 hu0.le
    linarith
  have huy : u * y ≤ u * n := mul_le_mul_of_nonneg_left hyn.le hu0.le
  have hun : u ≤ u * n := le_mul_of_one_le_right hu0.le hn
  have := abs_sub_le (rnd r) r y
  linarith

theorem quotient_nonneg {v : ℝ} (h1 : low ≤ v) : 0 ≤ rnd (rnd (v - low) / rnd (rnd (high - low) / n)) := by
  refine Stats.Rounded.rnd_nonneg ht hp hr (div_nonneg (Stats.Rounded.rnd_nonneg ht hp hr (by linarith)) ?_)
  exact Stats.Rounded.rnd_nonneg ht hp hr (div_nonneg (Stats.Rounded.rnd_nonneg ht hp hr (by linarith [hg.lt])) (Nat.cast_nonneg _))

theorem position_lt {v : ℝ} (h2 : v < high) : position low high n v < n := by
  have hn0 : (0 : ℝ) < n := by exact_mod_cast hg.pos
  unfold position
  rw [div_lt_iff₀ (div_pos (by linarith [hg.lt]) hn0), mul_div_cancel₀ _ hn0.ne']
  linarith

/-- The bin is the right one unless the value is very close to a boundary. -/
theorem binID_spec {v : ℝ} (hv : v ∈ Bin p emin emax) (h1 : low ≤ v) (h2 : v < high) (i : ℕ) :
    (Sure p low high n i v → binID rnd low high n v = i) ∧ (binID rnd low high n v = i → Possible p low high n i v) := by
  have h := abs_lt.1 (quotient_error ht hp hr hg hv h1 h2)
  have h0 := quotient_nonneg ht hp hr hg (v := v) h1
  constructor
  · rintro ⟨-, -, s1, s2⟩
    unfold binID
    rw [Nat.floor_eq_iff h0]
    constructor <;> linarith
  · intro hi
    unfold binID at hi
    rw [Nat.floor_eq_iff h0] at hi
    exact ⟨h1, h2, by linarith, by linarith⟩

/-- C24: with rounding, the bin chosen for a value in the range at most is the one after the last one, and it is one of the bins
unless the value is very close to the upper end. -/
theorem C24_rounded_index_partial {v : ℝ} (hv : v ∈ Bin p emin emax) (h1 : low ≤ v) (h2 : v < high) :
    binID rnd low high n v ≤ n ∧ (position low high n v ≤ n - margin p n → binID rnd low high n v < n) := by
  have h := abs_lt.1 (quotient_error ht hp hr hg hv h1 h2)
  have h0 := quotient_nonneg ht hp hr hg (v := v) h1
  have hpos := position_lt ht hp hr hg h2
  have hm : margin p n < 1 := hg.count
  constructor
  · have : binID rnd low high n v < n + 1 := by
      unfold binID
      rw [Nat.floor_lt h0]
      push_cast
      linarith
    omega
  · intro hs
    unfold binID
    rw [Nat.floor_lt h0]
    linarith

/-- C24: with rounding, larger values are not counted in bins before those of smaller ones. -/
theorem C24_rounded_monotone {v w : ℝ} (h1 : low ≤ v) (h2 : v ≤ w) : binID rnd low high n v ≤ binID rnd low high n w := by
  refine Nat.floor_mono (hr.mono (div_le_div_of_nonneg_right (hr.mono (by linarith)) ?_))
  exact Stats.Rounded.rnd_nonneg ht hp hr
    (div_nonneg (Stats.Rounded.rnd_nonneg ht hp hr (by linarith [hg.lt])) (Nat.cast_nonneg _))

end

/-! ## All values -/

/-- As long as the bins exist, values are counted in the bins chosen. -/
theorem fills_spec (rnd : ℝ → ℝ) (low high : ℝ) (n : ℕ) (vals : List ℝ)
    (hv : ∀ v ∈ vals, low ≤ v → v < high → binID rnd low high n v < n) :
    ∃ h, (Histogram.make rnd low high n).fills rnd vals = some h ∧
      h.underflows = countP (fun x => x < low) vals ∧ h.overflows = countP (fun x => low ≤ x ∧ high ≤ x) vals ∧
      h.bins.length = n ∧
      (∀ i (hi : i < h.bins.length), h.bins[i] = countP (fun x => low ≤ x ∧ x < high ∧ binID rnd low high n x = i) vals) ∧
      h.underflows + h.overflows + h.bins.sum = vals.length ∧ h.lowEnd = low ∧ h.highEnd = high ∧
      h.binSize = rnd (rnd (high - low) / n) := by
  induction vals using List.reverseRecOn with
  | nil =>
    refine ⟨_, rfl, ?_⟩
    simp [Histogram.make, countP_nil]
  | append_singleton l x ih =>
    classical
    obtain ⟨h, hf, hu, ho, hl, hb, ht, e1, e2, e3⟩ := ih fun v hm => hv v (by simp [hm])
    rw [fills_append, hf, Option.bind_some]
    have key : ∃ h', h.fill rnd x = some h' ∧
        h'.underflows = countP (fun x => x < low) (l ++ [x]) ∧
        h'.overflows = countP (fun x => low ≤ x ∧ high ≤ x) (l ++ [x]) ∧
        (∀ i (hi : i < h'.bins.length), h'.bins[i] =
          countP (fun x => low ≤ x ∧ x < high ∧ binID rnd low high n x = i) (l ++ [x])) := by
      by_cases h1 : x < low
      · refine ⟨{ h with underflows := h.underflows + 1 }, ?_, ?_, ?_, ?_⟩
        · simp [Histogram.fill, e1, h1]
        · rw [countP_append, if_pos h1, ← hu]
        · rw [countP_append, if_neg (fun h => absurd h.1 (not_le.2 h1))]
          exact ho
        · intro i hi
          rw [countP_append, if_neg (fun h => absurd h.1 (not_le.2 h1))]
          exact hb i hi
      · by_cases h2 : high ≤ x
        · refine ⟨{ h with overflows := h.overflows + 1 }, ?_, ?_, ?_, ?_⟩
          · simp [Histogram.fill, e1, e2, h1, h2]
          · rw [countP_append, if_neg h1]
            exact hu
          · rw [countP_append, if_pos ⟨not_lt.1 h1, h2⟩, ← ho]
          · intro i hi
            rw [countP_append, if_neg (fun h => absurd h.2.1 (not_lt.2 h2))]
            exact hb i hi
        · have b1 := hv x (by simp) (not_lt.1 h1) (not_le.1 h2)
          refine ⟨{ h with bins := h.bins.modify (binID rnd low high n x) (· + 1) }, ?_, ?_, ?_, ?_⟩
          · unfold binID at b1 ⊢
            simp only [Histogram.fill, e1, e2, e3, h1, h2, if_false]
            rw [if_pos (by rw [hl]; exact b1)]
          · rw [countP_append, if_neg h1]
            exact hu
          · rw [countP_append, if_neg (fun h => h2 h.2)]
            exact ho
          · intro i hi
            simp only [List.length_modify] at hi
            rw [countP_append]
            simp only [List.getElem_modify]
            by_cases hi' : binID rnd low high n x = i
            · rw [if_pos hi', if_pos ⟨not_lt.1 h1, not_le.1 h2, hi'⟩, hb i hi]
            · rw [if_neg hi', if_neg (fun h => hi' h.2.2), hb i hi]
              rfl
    obtain ⟨h', k1, k2, k3, k4⟩ := key
    obtain ⟨c1, c2, c3, c4, c5⟩ := C24_conserved rnd h h' x k1
    refine ⟨h', k1, k2, k3, by rw [c2, hl], k4, ?_, by rw [c3, e1], by rw [c4, e2], by rw [c5, e3]⟩
    rw [c1, ht, List.length_append]
    rfl

section
variable (ht : Type_ p emin emax) (hp : 6 ≤ p) (hr : IsRounding p emin emax rnd) {low high : ℝ} {n : ℕ}
include ht hp hr

/-- C24: with rounding, after any values have been filled in, none of which is below the upper end but very close to it, the
numbers of values below and above the range are right, no value is lost, and the number of values of a bin is right except for
values very close to its boundaries. Missing: values very close to the upper end, for which this does not hold
(`C24_double_violated`). -/
theorem C24_rounded_partial (hg : Range p emin emax low high n) (vals : List ℝ)
    (hv : ∀ v ∈ vals, v ∈ Bin p emin emax ∧ (low ≤ v → v < high → position low high n v ≤ n - margin p n)) :
    ∃ h, (Histogram.make rnd low high n).fills rnd vals = some h ∧
      h.underflows = countP (fun x => x < low) vals ∧ h.overflows = countP (fun x => low ≤ x ∧ high ≤ x) vals ∧
      h.bins.length = n ∧
      (∀ i (hi : i < h.bins.length), countP (Sure p low high n i) vals ≤ h.bins[i] ∧
        h.bins[i] ≤ countP (Possible p low high n i) vals) ∧
      h.underflows + h.overflows + h.bins.sum = vals.length := by
  obtain ⟨h, a, b, c, d, e, f, -⟩ := fills_spec rnd low high n vals
    fun v hm h1 h2 => (C24_rounded_index_partial ht hp hr hg (hv v hm).1 h1 h2).2 ((hv v hm).2 h1 h2)
  refine ⟨h, a, b, c, d, fun i hi => ?_, f⟩
  rw [e i hi]
  unfold countP
  constructor
  · refine List.countP_mono_left fun x hx hs => ?_
    simp only [decide_eq_true_eq] at hs ⊢
    exact ⟨hs.1, hs.2.1, (binID_spec ht hp hr hg (hv x hx).1 hs.1 hs.2.1 i).1 hs⟩
  · refine List.countP_mono_left fun x hx hs => ?_
    simp only [decide_eq_true_eq] at hs ⊢
    exact (binID_spec ht hp hr hg (hv x hx).1 hs.1 hs.2.1 i).2 hs.2.2

/-- Dividing by a power of two, and rounding, does not change which bin a number belongs to. -/
theorem binID_pow {k : ℤ} (hk : emin ≤ k ∧ k ≤ emax) (hn0 : 0 < n) (hn : n < 2 ^ p) (hh : high = n * 2 ^ k)
    {v : ℝ} (hv : v ∈ Bin p emin emax) (h1 : 0 ≤ v) (h2 : v < high) :
    binID rnd 0 high n v = ⌊v / 2 ^ k⌋₊ := by
  have hs := ht.small
  have hl := ht.large
  have hn' : (0 : ℝ) < n := by exact_mod_cast hn0
  have hk0 := two_zpow_pos k
  have hhigh : high ∈ Bin p emin emax :=
    ⟨n, k, by rw [abs_of_nonneg (by positivity)]; exact_mod_cast hn, hk.1, hk.2, by rw [hh]; push_cast; rfl⟩
  have hpow : (2 : ℝ) ^ k ∈ Bin p emin emax :=
    ⟨1, k, by rw [abs_one]; exact one_lt_pow₀ (by norm_num) (by omega), hk.1, hk.2, by simp⟩
  have hsize : rnd (rnd (high - 0) / n) = 2 ^ k := by
    rw [sub_zero, hr.eq_self hhigh, hh, mul_div_cancel_left₀ _ hn'.ne', hr.eq_self hpow]
  unfold binID
  rw [hsize, sub_zero, hr.eq_self hv]
  have hhalf : (1 / 2 : ℝ) ∈ Bin p emin emax :=
    ⟨1, -1, by rw [abs_one]; exact one_lt_pow₀ (by norm_num) (by omega), by omega, by omega, by norm_num⟩
  by_cases hc : v / 2 ^ k ≤ 1 / 2
  · have := hr.le_of_le hhalf hc
    rw [Nat.floor_eq_zero.2 (by linarith), Nat.floor_eq_zero.2 (by linarith)]
  · push Not at hc
    congr 1
    refine hr.eq_self ?_
    obtain ⟨m, e, hm, he1, he2, rfl⟩ := hv
    have hm' : (0 : ℝ) < m := by
      by_contra hx
      push Not at hx
      have h3 : (m : ℝ) * 2 ^ e / 2 ^ k ≤ 0 :=
        div_nonpos_of_nonpos_of_nonneg (mul_nonpos_of_nonpos_of_nonneg hx (two_zpow_pos e).le) hk0.le
      linarith
    have hmp : (m : ℝ) < 2 ^ (p : ℤ) := by
      rw [zpow_natCast]
      exact_mod_cast (abs_lt.1 hm).2
    have hval : (m : ℝ) * 2 ^ e / 2 ^ k = m * 2 ^ (e - k) := by rw [zpow_sub₀ (by norm_num), mul_div_assoc]
    have hlow : emin ≤ e - k := by
      by_contra hx
      push Not at hx
      have h3 : (2 : ℝ) ^ (e - k) ≤ 2 ^ (-(p : ℤ) - 1) := zpow_le_zpow_right₀ (by norm_num) (by omega)
      have h4 : (m : ℝ) * 2 ^ (e - k) < 2 ^ (p : ℤ) * 2 ^ (-(p : ℤ) - 1) :=
        mul_lt_mul hmp h3 (two_zpow_pos _) (two_zpow_pos _).le
      rw [← zpow_add₀ (by norm_num), show (p : ℤ) + (-(p : ℤ) - 1) = -1 by ring] at h4
      rw [hval] at hc
      norm_num at h4 hc
      linarith
    have hhi : e - k ≤ emax := by
      by_contra hx
      push Not at hx
      have h3 : (2 : ℝ) ^ (p : ℤ) ≤ 2 ^ (e - k) := zpow_le_zpow_right₀ (by norm_num) (by omega)
      have h4 : (m : ℝ) * 2 ^ (e - k) < n := by
        rw [← hval, div_lt_iff₀ hk0, ← hh]; exact h2
      have h5 : (1 : ℝ) ≤ m := by exact_mod_cast (by exact_mod_cast hm' : 0 < m)
      have h6 : (n : ℝ) < 2 ^ (p : ℤ) := by rw [zpow_natCast]; exact_mod_cast hn
      nlinarith [two_zpow_pos (e - k)]
    exact ⟨m, e - k, hm, hlow, hhi, hval⟩

/-- C24: with rounding, if the range begins with zero and the size of the bins is a power of two, each value is counted exactly
once, and where it belongs, whatever the values. -/
theorem C24_rounded_power {k : ℤ} (hk : emin ≤ k ∧ k ≤ emax) (hn0 : 0 < n) (hn : n < 2 ^ p) (hh : high = n * 2 ^ k)
    (vals : List ℝ) (hv : ∀ v ∈ vals, v ∈ Bin p emin emax) :
    ∃ h, (Histogram.make rnd 0 high n).fills rnd vals = some h ∧
      h.underflows = countP (fun x => x < 0) vals ∧ h.overflows = countP (fun x => 0 ≤ x ∧ high ≤ x) vals ∧
      h.bins.length = n ∧
      (∀ i (hi : i < h.bins.length), h.bins[i] = countP (fun x => 0 ≤ x ∧ x < high ∧ InBin 0 high n i x) vals) ∧
      h.underflows + h.overflows + h.bins.sum = vals.length := by
  have hn' : (0 : ℝ) < n := by exact_mod_cast hn0
  have hsize : (high - 0) / n = 2 ^ k := by rw [sub_zero, hh, mul_div_cancel_left₀ _ hn'.ne']
  obtain ⟨h, a, b, c, d, e, f, -⟩ := fills_spec rnd 0 high n vals fun v hm h1 h2 => by
    rw [binID_pow ht hp hr hk hn0 hn hh (hv v hm) h1 h2]
    have := (Profile.binID_spec hn0 h1 h2).1
    rwa [hsize, sub_zero] at this
  refine ⟨h, a, b, c, d, fun i hi => ?_, f⟩
  rw [e i hi]
  unfold countP
  refine List.countP_congr fun x hx => ?_
  simp only [decide_eq_true_eq]
  refine and_congr_right fun h1 => and_congr_right fun h2 => ?_
  rw [binID_pow ht hp hr hk hn0 hn hh (hv x hx) h1 h2, (Profile.binID_spec hn0 h1 h2).2 i, hsize, sub_zero]

end

/-! ## Examples -/

/-- There are ranges as assumed: a hundred bins from -1 to 2, and `double`. -/
example : Range 53 (-1074) 971 (-1) 2 100 where
  low_mem := ⟨-1, 0, by norm_num, by norm_num, by norm_num, by norm_num⟩
  high_mem := ⟨2, 0, by norm_num, by norm_num, by norm_num, by norm_num⟩
  lt := by norm_num
  pos := by norm_num
  count := by norm_num
  large := by
    calc (2 : ℝ) * (2 - -1) < 2 ^ (3 : ℤ) := by norm_num
      _ ≤ 2 ^ (971 : ℤ) := zpow_le_zpow_right₀ (by norm_num) (by norm_num)
  small := by
    calc (2 : ℝ) ^ (-1074 : ℤ) ≤ 2 ^ (-60 : ℤ) := zpow_le_zpow_right₀ (by norm_num) (by norm_num)
      _ ≤ _ := by norm_num

/-- The value 1/2 is certainly counted in the second of the four bins from -1 to 3. -/
example : Sure 53 (-1) 3 4 1 (1 / 2) := by unfold Sure margin position; norm_num

end OpenMPCD.Profile.Rounded
