import Verif.Collide.Drift
import Verif.Stats.Lemmas
import Mathlib.Tactic.Linarith
import Mathlib.Tactic.FieldSimp
import Mathlib.Tactic.Positivity

/-!
# On-the-fly statistics in floating-point arithmetic (C131)

Sample means, variances, and standard errors are computed datum by datum, and every operation rounds.
-/

set_option linter.unusedSectionVars false
set_option linter.unusedSimpArgs false
set_option linter.unusedVariables false

namespace OpenMPCD.Stats.Rounded

open OpenMPCD.Decimal OpenMPCD.Collide.Rounded

/-! ## Model -/

/-- The members of the C++ class (`include/OpenMPCD/OnTheFlyStatistics.hpp:164-166`) and of the Python class
(`Analysis/MPCDAnalysis/OnTheFlyStatistics.py:38-40`). -/
@[ext] structure State where
  n : ℕ
  mean : ℝ
  S : ℝ

/-- The constructor without arguments (`include/OpenMPCD/OnTheFlyStatistics.hpp:40-43`,
`Analysis/MPCDAnalysis/OnTheFlyStatistics.py:38-40`). -/
def fresh : State := ⟨0, 0, 0⟩

/-- `addDatum` (`include/OpenMPCD/OnTheFlyStatistics.hpp:116-129`, `Analysis/MPCDAnalysis/OnTheFlyStatistics.py:53-62`). `rnd`:
the rounding, also of the sample size, which is converted for the division; `fused`: whether the compiler makes one operation of
the last multiplication and addition. -/
noncomputable def addDatum (rnd : ℝ → ℝ) (fused : Bool) (s : State) (datum : ℝ) : State :=
  let n := s.n + 1
  let delta := rnd (datum - s.mean)
  let mean := rnd (s.mean + rnd (delta / rnd n))
  let product := delta * rnd (datum - mean)
  ⟨n, mean, rnd (s.S + if fused then product else rnd product)⟩

/-- Adding data to a new instance. -/
noncomputable def feed (rnd : ℝ → ℝ) (fused : Bool) (xs : List ℝ) : State := xs.foldl (addDatum rnd fused) fresh

/-- `getSampleVariance` (`include/OpenMPCD/OnTheFlyStatistics.hpp:73-79`; from two data on also
`Analysis/MPCDAnalysis/OnTheFlyStatistics.py:162-165`). -/
noncomputable def variance (rnd : ℝ → ℝ) (s : State) : ℝ := if s.n < 2 then 0 else rnd (s.S / rnd ((s.n - 1 : ℕ) : ℝ))

/-- `getSampleStandardDeviation` (`include/OpenMPCD/OnTheFlyStatistics.hpp:91-94`); `none`: not a number. -/
noncomputable def standardDeviation (rnd : ℝ → ℝ) (s : State) : Option ℝ :=
  if variance rnd s < 0 then none else some (rnd (Real.sqrt (variance rnd s)))

/-- `getStandardErrorOfTheMean` (`include/OpenMPCD/OnTheFlyStatistics.hpp:103-109`), for at least one datum. -/
noncomputable def standardError (rnd : ℝ → ℝ) (s : State) : Option ℝ :=
  (standardDeviation rnd s).map fun d => rnd (d / rnd (Real.sqrt (rnd s.n)))

/-- `mergeSample` in Python (`Analysis/MPCDAnalysis/OnTheFlyStatistics.py:65-118`). -/
noncomputable def mergeSample (rnd : ℝ → ℝ) (fused : Bool) (self sample : State) : State :=
  if self.n = 0 then sample
  else if self.n = 1 then addDatum rnd fused sample self.mean
  else if sample.n = 0 then self
  else if sample.n = 1 then addDatum rnd fused self sample.mean
  else
    let n := self.n
    let m := sample.n
    let mergedMean := rnd (rnd (rnd (rnd n * self.mean) + rnd (rnd m * sample.mean)) / rnd ((n + m : ℕ) : ℝ))
    let mergedS := rnd (rnd (rnd ((n - 1 : ℕ) : ℝ) * variance rnd self) + rnd (rnd ((m - 1 : ℕ) : ℝ) * variance rnd sample))
    let c := rnd (rnd (self.mean - sample.mean) / rnd ((n + m : ℕ) : ℝ))
    ⟨n + m, mergedMean, rnd (mergedS + rnd (rnd (c ^ 2) * rnd ((n * m * (n + m) : ℕ) : ℝ)))⟩

/-- The blocks of `OnTheFlyStatisticsDDDA` from some index on, with the data waiting, after `addDatum`
(`include/OpenMPCD/ImplementationDetails/OnTheFlyStatisticsDDDA.hpp:206-232`,
`Analysis/MPCDAnalysis/OnTheFlyStatisticsDDDA.py:579-593`). -/
noncomputable def addToBlocks (rnd : ℝ → ℝ) (fused : Bool) (datum : ℝ) : List (State × Option ℝ) → List (State × Option ℝ)
  | [] => [(addDatum rnd fused fresh datum, some datum)]
  | (b, none) :: rest => (addDatum rnd fused b datum, some datum) :: rest
  | (b, some w) :: rest =>
    (addDatum rnd fused b datum, none) :: addToBlocks rnd fused (rnd (rnd (datum + w) / 2)) rest

/-- Adding data to a new instance of `OnTheFlyStatisticsDDDA`
(`include/OpenMPCD/ImplementationDetails/OnTheFlyStatisticsDDDA.hpp:18-33`,
`Analysis/MPCDAnalysis/OnTheFlyStatisticsDDDA.py:29-49`). -/
noncomputable def blocks (rnd : ℝ → ℝ) (fused : Bool) (xs : List ℝ) : List (State × Option ℝ) :=
  xs.foldl (fun bs x => addToBlocks rnd fused x bs) [(fresh, none)]

/-! ## Specification -/

/-- The data are floating-point numbers of at most a given magnitude. -/
def Data (p : ℕ) (emin emax : ℤ) (X : ℝ) (xs : List ℝ) : Prop := ∀ x ∈ xs, x ∈ Bin p emin emax ∧ |x| ≤ X

/-- Neither are there as many data that they cannot be counted by floating-point numbers, nor are the data so large or small
that there is overflow or that they are subnormal. -/
structure Ordinary (p : ℕ) (emin emax : ℤ) (X : ℝ) (n : ℕ) : Prop where
  count : (n + 8 : ℝ) * 2 ^ (-(p : ℤ)) ≤ 1 / 8
  small : (2 : ℝ) ^ emin ≤ 2 ^ (-(p : ℤ)) * X
  small_sq : (2 : ℝ) ^ emin ≤ 2 ^ (-(p : ℤ)) * X ^ 2
  large : 4 * X < 2 ^ emax
  large_sq : 16 * (n + 1) * X ^ 2 < 2 ^ emax

/-! ## One datum -/

variable {p : ℕ} {emin emax : ℤ} {rnd : ℝ → ℝ}

theorem neg_rounding (hr : IsRounding p emin emax rnd) : IsRounding p emin emax fun x => -rnd (-x) := fun x => by
  obtain ⟨h1, h2⟩ := hr (-x)
  refine ⟨Time.neg_mem h1, fun w hw => ?_⟩
  have := h2 (-w) (Time.neg_mem hw)
  rw [show -x - rnd (-x) = -(x - -rnd (-x)) by ring, show -x - -w = -(x - w) by ring, abs_neg, abs_neg] at this
  exact this

section
variable (ht : Type_ p emin emax) (hp : 6 ≤ p) (hr : IsRounding p emin emax rnd)
include ht hp hr

theorem u_le : (2 : ℝ) ^ (-(p : ℤ)) ≤ 1 / 64 := by
  have : (2 : ℝ) ^ (-(p : ℤ)) ≤ 2 ^ (-6 : ℤ) := zpow_le_zpow_right₀ (by norm_num) (by omega)
  norm_num at this ⊢
  exact this

theorem rnd_zero : rnd 0 = 0 := hr.eq_self (zero_mem (by have := ht.small; have := ht.large; omega))

theorem rnd_nonneg {x : ℝ} (hx : 0 ≤ x) : 0 ≤ rnd x :=
  hr.ge_of_ge (zero_mem (by have := ht.small; have := ht.large; omega)) hx

theorem rnd_nonpos {x : ℝ} (hx : x ≤ 0) : rnd x ≤ 0 :=
  hr.le_of_le (zero_mem (by have := ht.small; have := ht.large; omega)) hx

theorem rnd_nat {n : ℕ} (hn : n ≤ 2 ^ p) : rnd n = n := by
  have := ht.small
  have := ht.large
  refine hr.eq_self ?_
  have h := int_mem (p := p) (emin := emin) (emax := emax) (by omega) (by omega) (by omega) (n := n)
    (by rw [Nat.abs_cast]; exact_mod_cast hn)
  simpa using h

theorem two_le {n : ℕ} (hn : 2 ≤ n) : 2 ≤ rnd n := by
  have h2 : rnd ((2 : ℕ) : ℝ) = (2 : ℕ) := rnd_nat ht hp hr (by
    calc 2 = 2 ^ 1 := rfl
      _ ≤ 2 ^ p := Nat.pow_le_pow_right (by norm_num) (by omega))
  have := hr.mono (show ((2 : ℕ) : ℝ) ≤ n by exact_mod_cast hn)
  rw [h2] at this
  exact_mod_cast this

/-- The change of the mean is in the direction of the datum, and does not go beyond it. -/
theorem change_up {m x N : ℝ} (hm : m ∈ Bin p emin emax) (hx : x ∈ Bin p emin emax) (hmx : m ≤ x) (hb : x - m < 2 ^ emax)
    (hN : 2 ≤ N) : 0 ≤ rnd (rnd (x - m) / N) ∧ rnd (rnd (x - m) / N) ≤ x - m := by
  have hd0 : 0 ≤ x - m := by linarith
  have hdel := rnd_nonneg ht hp hr hd0
  refine ⟨rnd_nonneg ht hp hr (by positivity), ?_⟩
  by_cases hmem : x - m ∈ Bin p emin emax
  · rw [hr.eq_self hmem]
    refine hr.le_of_le hmem ?_
    rw [div_le_iff₀ (by linarith)]
    nlinarith
  · -- then the difference is not tiny
    have hu := u_le ht hp hr
    have hu0 := two_zpow_pos (-(p : ℤ))
    have hbig : (2 : ℝ) ^ ((p : ℤ) + emin) ≤ x - m := by
      obtain ⟨a, ha⟩ := Time.grid hx
      obtain ⟨b, hb'⟩ := Time.grid hm
      have hs : x - m = ((a - b : ℤ) : ℝ) * 2 ^ emin := by rw [ha, hb']; push_cast; ring
      by_contra hc
      push Not at hc
      refine hmem ⟨a - b, emin, ?_, le_rfl, by have := ht.small; have := ht.large; omega, hs⟩
      have h1 : (((a - b : ℤ) : ℝ)) * 2 ^ emin < 2 ^ p * 2 ^ emin := by
        rw [← hs, ← zpow_natCast, ← zpow_add₀ (by norm_num)]; exact hc
      have h2 := lt_of_mul_lt_mul_right h1 (two_zpow_pos emin).le
      have h3 : a - b < 2 ^ p := by exact_mod_cast h2
      have h4 : 0 ≤ ((a - b : ℤ) : ℝ) * 2 ^ emin := by rw [← hs]; exact hd0
      have h5 : (0 : ℝ) ≤ ((a - b : ℤ) : ℝ) := nonneg_of_mul_nonneg_left h4 (two_zpow_pos emin)
      have h6 : 0 ≤ a - b := by exact_mod_cast h5
      rw [abs_of_nonneg h6]; exact h3
    have hη : (2 : ℝ) ^ emin ≤ 2 ^ (-(p : ℤ)) * (x - m) := by
      calc (2 : ℝ) ^ emin = 2 ^ (-(p : ℤ)) * 2 ^ ((p : ℤ) + emin) := by
            rw [← zpow_add₀ (by norm_num)]; congr 1; ring
        _ ≤ _ := mul_le_mul_of_nonneg_left hbig hu0.le
    have hadd := Time.add_error (by omega) (by have := ht.small; have := ht.large; omega) hr hx (Time.neg_mem hm)
      (by rw [← sub_eq_add_neg, abs_of_nonneg hd0]; exact hb)
    rw [← sub_eq_add_neg, abs_of_nonneg hd0] at hadd
    set d := x - m with hd
    set u : ℝ := 2 ^ (-(p : ℤ)) with hudef
    have h1 : rnd d ≤ d + u * d := by have := (abs_le.1 hadd).2; linarith
    have h2 : rnd d / N ≤ rnd d / 2 := div_le_div_of_nonneg_left hdel (by norm_num) hN
    have h3 : rnd (rnd d / 2) ≤ d := by
      have hlt : |rnd d / 2| < 2 ^ emax := by
        rw [abs_of_nonneg (by positivity)]; nlinarith
      have := Collide.Drift.rounding_error (by omega) (by have := ht.small; have := ht.large; omega) hr hlt
      rw [abs_of_nonneg (show 0 ≤ rnd d / 2 by positivity)] at this
      have := (abs_le.1 this).2
      rw [← hudef] at this
      nlinarith
    exact (hr.mono h2).trans h3

theorem change_down {m x N : ℝ} (hm : m ∈ Bin p emin emax) (hx : x ∈ Bin p emin emax) (hmx : x ≤ m) (hb : m - x < 2 ^ emax)
    (hN : 2 ≤ N) : rnd (rnd (x - m) / N) ≤ 0 ∧ x - m ≤ rnd (rnd (x - m) / N) := by
  have := change_up ht hp (neg_rounding hr) (Time.neg_mem hm) (Time.neg_mem hx) (neg_le_neg hmx) (by linarith) hN
  rw [show -(-x - -m) = x - m by ring, show -(-rnd (x - m) / N) = rnd (x - m) / N by ring] at this
  exact ⟨by linarith [this.1], by linarith [this.2]⟩

/-- The new mean lies between the previous one and the datum. -/
theorem between {m x N : ℝ} (hm : m ∈ Bin p emin emax) (hx : x ∈ Bin p emin emax) (hb : |x - m| < 2 ^ emax) (hN : 2 ≤ N) :
    (m ≤ x → (m ≤ m + rnd (rnd (x - m) / N) ∧ m + rnd (rnd (x - m) / N) ≤ x) ∧
      m ≤ rnd (m + rnd (rnd (x - m) / N)) ∧ rnd (m + rnd (rnd (x - m) / N)) ≤ x) ∧
    (x ≤ m → (x ≤ m + rnd (rnd (x - m) / N) ∧ m + rnd (rnd (x - m) / N) ≤ m) ∧
      x ≤ rnd (m + rnd (rnd (x - m) / N)) ∧ rnd (m + rnd (rnd (x - m) / N)) ≤ m) := by
  refine ⟨fun h => ?_, fun h => ?_⟩
  · rw [abs_of_nonneg (by linarith)] at hb
    obtain ⟨h1, h2⟩ := change_up ht hp hr hm hx h hb hN
    have h3 : m ≤ m + rnd (rnd (x - m) / N) := by linarith
    have h4 : m + rnd (rnd (x - m) / N) ≤ x := by linarith
    exact ⟨⟨h3, h4⟩, hr.ge_of_ge hm h3, hr.le_of_le hx h4⟩
  · rw [abs_of_nonpos (by linarith)] at hb
    obtain ⟨h1, h2⟩ := change_down ht hp hr hm hx h (by linarith) hN
    have h3 : x ≤ m + rnd (rnd (x - m) / N) := by linarith
    have h4 : m + rnd (rnd (x - m) / N) ≤ m := by linarith
    exact ⟨⟨h3, h4⟩, hr.ge_of_ge hx h3, hr.le_of_le hm h4⟩

theorem first (fused : Bool) {x : ℝ} (hx : x ∈ Bin p emin emax) : addDatum rnd fused fresh x = ⟨1, x, 0⟩ := by
  have h1 : rnd ((1 : ℕ) : ℝ) = (1 : ℕ) := rnd_nat ht hp hr Nat.one_le_two_pow
  have h0 := rnd_zero ht hp hr
  have hx' := hr.eq_self hx
  simp only [addDatum, fresh, zero_add, sub_zero, hx']
  rw [h1, Nat.cast_one, div_one, hx', hx', sub_self, h0, mul_zero]
  cases fused <;> simp [h0]

/-- What holds of an instance with data between `lo` and `hi`. -/
structure Inv (p : ℕ) (emin emax : ℤ) (lo hi : ℝ) (s : State) : Prop where
  mem : s.mean ∈ Bin p emin emax
  lo_le : lo ≤ s.mean
  le_hi : s.mean ≤ hi
  nonneg : 0 ≤ s.S
  memS : s.S ∈ Bin p emin emax

theorem inv_step (fused : Bool) {lo hi x : ℝ} {s : State} (hb : hi - lo < 2 ^ emax) (hs : Inv p emin emax lo hi s) (hn : 1 ≤ s.n)
    (hx : x ∈ Bin p emin emax) (h1 : lo ≤ x) (h2 : x ≤ hi) :
    Inv p emin emax lo hi (addDatum rnd fused s x) ∧ s.S ≤ (addDatum rnd fused s x).S := by
  obtain ⟨m1, m2, m3, m4, m5⟩ := hs
  have hN : 2 ≤ rnd ((s.n + 1 : ℕ) : ℝ) := two_le ht hp hr (by omega)
  have hd : |x - s.mean| < 2 ^ emax := by rw [abs_lt]; constructor <;> linarith
  obtain ⟨b1, b2⟩ := between ht hp hr m1 hx hd hN
  have hprod : 0 ≤ rnd (x - s.mean) * rnd (x - rnd (s.mean + rnd (rnd (x - s.mean) / rnd ((s.n + 1 : ℕ) : ℝ)))) := by
    rcases le_total s.mean x with h | h
    · exact mul_nonneg (rnd_nonneg ht hp hr (by linarith)) (rnd_nonneg ht hp hr (by linarith [(b1 h).2.2]))
    · exact mul_nonneg_of_nonpos_of_nonpos (rnd_nonpos ht hp hr (by linarith))
        (rnd_nonpos ht hp hr (by linarith [(b2 h).2.1]))
  have hSle : s.S ≤ (addDatum rnd fused s x).S := by
    simp only [addDatum]
    refine hr.ge_of_ge m5 ?_
    cases fused
    · simpa using rnd_nonneg ht hp hr hprod
    · simpa using hprod
  refine ⟨⟨hr.mem _, ?_, ?_, m4.trans hSle, hr.mem _⟩, hSle⟩
  · simp only [addDatum]
    rcases le_total s.mean x with h | h
    · linarith [(b1 h).2.1]
    · linarith [(b2 h).2.1]
  · simp only [addDatum]
    rcases le_total s.mean x with h | h
    · linarith [(b1 h).2.2]
    · linarith [(b2 h).2.2]

theorem inv_first (fused : Bool) {lo hi x : ℝ} (hx : x ∈ Bin p emin emax) (h1 : lo ≤ x) (h2 : x ≤ hi) :
    Inv p emin emax lo hi (addDatum rnd fused fresh x) := by
  rw [first ht hp hr fused hx]
  exact ⟨hx, h1, h2, le_rfl, zero_mem (by have := ht.small; have := ht.large; omega)⟩

theorem feed_snoc (fused : Bool) (xs : List ℝ) (x : ℝ) :
    feed rnd fused (xs ++ [x]) = addDatum rnd fused (feed rnd fused xs) x := by
  simp [feed]

theorem feed_n (fused : Bool) (xs : List ℝ) : (feed rnd fused xs).n = xs.length := by
  induction xs using List.reverseRecOn with
  | nil => rfl
  | append_singleton xs x ih => rw [feed_snoc ht hp hr, List.length_append, ← ih]; rfl

theorem inv (fused : Bool) {lo hi : ℝ} (hb : hi - lo < 2 ^ emax) {xs : List ℝ} (hne : xs ≠ [])
    (hx : ∀ x ∈ xs, x ∈ Bin p emin emax ∧ lo ≤ x ∧ x ≤ hi) : Inv p emin emax lo hi (feed rnd fused xs) := by
  induction xs using List.reverseRecOn with
  | nil => exact absurd rfl hne
  | append_singleton xs x ih =>
    obtain ⟨a, b, c⟩ := hx x (by simp)
    rw [feed_snoc ht hp hr]
    by_cases hxs : xs = []
    · subst hxs
      exact inv_first ht hp hr fused a b c
    · refine (inv_step ht hp hr fused hb (ih hxs fun y hy => hx y (by simp [hy])) ?_ a b c).1
      rw [feed_n ht hp hr]
      exact List.length_pos_iff.2 hxs

/-- C131: the mean computed is never below the smallest datum, nor above the largest one. Missing: merged samples, for which this
does not hold (`C131_merge_violated`). -/
theorem C131_range_partial (fused : Bool) {lo hi : ℝ} (hb : hi - lo < 2 ^ emax) {xs : List ℝ} (hne : xs ≠ [])
    (hx : ∀ x ∈ xs, x ∈ Bin p emin emax ∧ lo ≤ x ∧ x ≤ hi) :
    lo ≤ (feed rnd fused xs).mean ∧ (feed rnd fused xs).mean ≤ hi :=
  ⟨(inv ht hp hr fused hb hne hx).lo_le, (inv ht hp hr fused hb hne hx).le_hi⟩

theorem variance_nonneg {s : State} (hs : 0 ≤ s.S) : 0 ≤ variance rnd s := by
  unfold variance
  split
  · exact le_rfl
  · exact rnd_nonneg ht hp hr (div_nonneg hs (rnd_nonneg ht hp hr (Nat.cast_nonneg _)))

theorem errors_of_nonneg {s : State} (hs : 0 ≤ s.S) : (∃ d, standardDeviation rnd s = some d ∧ 0 ≤ d) ∧
    ∃ e, standardError rnd s = some e ∧ 0 ≤ e := by
  have hv := variance_nonneg ht hp hr hs
  have h1 := rnd_nonneg ht hp hr (Real.sqrt_nonneg (variance rnd s))
  have h2 : standardDeviation rnd s = some (rnd (Real.sqrt (variance rnd s))) := by
    unfold standardDeviation; rw [if_neg (not_lt.2 hv)]
  exact ⟨⟨_, h2, h1⟩, rnd (rnd (Real.sqrt (variance rnd s)) / rnd (Real.sqrt (rnd s.n))), by simp [standardError, h2],
    rnd_nonneg ht hp hr (div_nonneg h1 (rnd_nonneg ht hp hr (Real.sqrt_nonneg _)))⟩

theorem feed_nonneg (fused : Bool) {lo hi : ℝ} (hb : hi - lo < 2 ^ emax) {xs : List ℝ}
    (hx : ∀ x ∈ xs, x ∈ Bin p emin emax ∧ lo ≤ x ∧ x ≤ hi) : 0 ≤ (feed rnd fused xs).S := by
  by_cases h : xs = []
  · subst h; exact le_rfl
  · exact (inv ht hp hr fused hb h hx).nonneg

/-- C131: the variance computed is never negative, so that there always are a standard deviation and a standard error. -/
theorem C131_nonneg (fused : Bool) {lo hi : ℝ} (hb : hi - lo < 2 ^ emax) {xs : List ℝ}
    (hx : ∀ x ∈ xs, x ∈ Bin p emin emax ∧ lo ≤ x ∧ x ≤ hi) :
    0 ≤ variance rnd (feed rnd fused xs) ∧ (∃ d, standardDeviation rnd (feed rnd fused xs) = some d ∧ 0 ≤ d) ∧
      ∃ e, standardError rnd (feed rnd fused xs) = some e ∧ 0 ≤ e :=
  have h := feed_nonneg ht hp hr fused hb hx
  ⟨variance_nonneg ht hp hr h, errors_of_nonneg ht hp hr h⟩

/-- C131: if all data are the same, the mean is that datum, and the variance and the standard errors are 0, without any error. -/
theorem C131_constant (fused : Bool) {x : ℝ} (hx : x ∈ Bin p emin emax) (n : ℕ) :
    feed rnd fused (List.replicate (n + 1) x) = ⟨n + 1, x, 0⟩ ∧
      variance rnd (feed rnd fused (List.replicate (n + 1) x)) = 0 ∧
      standardDeviation rnd (feed rnd fused (List.replicate (n + 1) x)) = some 0 ∧
      standardError rnd (feed rnd fused (List.replicate (n + 1) x)) = some 0 := by
  have h0 := rnd_zero ht hp hr
  have key : feed rnd fused (List.replicate (n + 1) x) = ⟨n + 1, x, 0⟩ := by
    induction n with
    | zero => exact first ht hp hr fused hx
    | succ n ih =>
      rw [List.replicate_succ', feed_snoc ht hp hr, ih]
      simp only [addDatum, sub_self, h0, zero_div, add_zero, hr.eq_self hx, zero_mul]
      cases fused <;> simp [h0]
  have hv : variance rnd (feed rnd fused (List.replicate (n + 1) x)) = 0 := by
    rw [key]; simp [variance, h0]
  have hs : standardDeviation rnd (feed rnd fused (List.replicate (n + 1) x)) = some 0 := by
    simp [standardDeviation, hv, h0]
  exact ⟨key, hv, hs, by simp [standardError, hs, h0]⟩

/-! ## Blocks -/

theorem double_mem {a : ℝ} (ha : a ∈ Bin p emin emax) (h : |a| < 2 ^ emax) : 2 * a ∈ Bin p emin emax := by
  obtain ⟨m, e, hm, h1, h2, rfl⟩ := ha
  by_cases he : e = emax
  · subst he
    rw [abs_mul, abs_of_pos (two_zpow_pos e)] at h
    have h3 : |(m : ℝ)| < 1 := by
      by_contra hc
      push Not at hc
      have := mul_le_mul_of_nonneg_right hc (two_zpow_pos e).le
      linarith
    have h4 : |m| < 1 := by rw [← Int.cast_abs] at h3; exact_mod_cast h3
    rw [Int.abs_lt_one_iff.1 h4]
    simpa using zero_mem h1
  · exact ⟨m, e + 1, hm, by omega, by omega, by rw [zpow_add_one₀ (by norm_num)]; ring⟩

theorem average_between {a b lo hi : ℝ} (ha : a ∈ Bin p emin emax) (hb : b ∈ Bin p emin emax) (ha' : |a| < 2 ^ emax)
    (hb' : |b| < 2 ^ emax) (h1 : lo ≤ a) (h2 : a ≤ hi) (h3 : lo ≤ b) (h4 : b ≤ hi) :
    lo ≤ rnd (rnd (a + b) / 2) ∧ rnd (rnd (a + b) / 2) ≤ hi := by
  have key : ∀ {a b : ℝ}, a ∈ Bin p emin emax → b ∈ Bin p emin emax → |a| < 2 ^ emax → |b| < 2 ^ emax → a ≤ b →
      a ≤ rnd (rnd (a + b) / 2) ∧ rnd (rnd (a + b) / 2) ≤ b := by
    intro a b ha hb ha' hb' h
    have e1 := hr.ge_of_ge (double_mem ht hp hr ha ha') (show 2 * a ≤ a + b by linarith)
    have e2 := hr.le_of_le (double_mem ht hp hr hb hb') (show a + b ≤ 2 * b by linarith)
    exact ⟨hr.ge_of_ge ha (by linarith), hr.le_of_le hb (by linarith)⟩
  rcases le_total a b with h | h
  · have := key ha hb ha' hb' h; exact ⟨by linarith [this.1], by linarith [this.2]⟩
  · have := key hb ha hb' ha' h
    rw [add_comm b a] at this
    exact ⟨by linarith [this.1], by linarith [this.2]⟩

/-- What holds of a block. -/
def BlockInv (p : ℕ) (emin emax : ℤ) (lo hi : ℝ) (b : State × Option ℝ) : Prop :=
  (b.1 = fresh ∨ 1 ≤ b.1.n ∧ Inv p emin emax lo hi b.1) ∧ ∀ w, b.2 = some w → w ∈ Bin p emin emax ∧ lo ≤ w ∧ w ≤ hi

theorem block_step (fused : Bool) {lo hi x : ℝ} (hb : hi - lo < 2 ^ emax) {b : State}
    (h : b = fresh ∨ 1 ≤ b.n ∧ Inv p emin emax lo hi b) (hx : x ∈ Bin p emin emax) (h1 : lo ≤ x) (h2 : x ≤ hi) :
    1 ≤ (addDatum rnd fused b x).n ∧ Inv p emin emax lo hi (addDatum rnd fused b x) := by
  refine ⟨by simp [addDatum], ?_⟩
  rcases h with rfl | ⟨hn, h⟩
  · exact inv_first ht hp hr fused hx h1 h2
  · exact (inv_step ht hp hr fused hb h hn hx h1 h2).1

theorem addToBlocks_inv (fused : Bool) {lo hi : ℝ} (hlo : -2 ^ emax < lo) (hhi : hi < 2 ^ emax) (hb : hi - lo < 2 ^ emax)
    (bs : List (State × Option ℝ)) : ∀ {x : ℝ}, (∀ b ∈ bs, BlockInv p emin emax lo hi b) → x ∈ Bin p emin emax → lo ≤ x → x ≤ hi →
      ∀ b ∈ addToBlocks rnd fused x bs, BlockInv p emin emax lo hi b := by
  induction bs with
  | nil =>
    intro x _ hx h1 h2 b hbm
    rw [addToBlocks, List.mem_singleton] at hbm
    subst hbm
    exact ⟨.inr (block_step ht hp hr fused hb (.inl rfl) hx h1 h2), fun w hw => by cases hw; exact ⟨hx, h1, h2⟩⟩
  | cons c rest ih =>
    intro x hbs hx h1 h2 b hbm
    obtain ⟨s, w⟩ := c
    have hc := hbs (s, w) (by simp)
    cases w with
    | none =>
      rw [addToBlocks, List.mem_cons] at hbm
      rcases hbm with rfl | hbm
      · exact ⟨.inr (block_step ht hp hr fused hb hc.1 hx h1 h2), fun w hw => by cases hw; exact ⟨hx, h1, h2⟩⟩
      · exact hbs b (by simp [hbm])
    | some w =>
      rw [addToBlocks, List.mem_cons] at hbm
      obtain ⟨w1, w2, w3⟩ := hc.2 w rfl
      rcases hbm with rfl | hbm
      · exact ⟨.inr (block_step ht hp hr fused hb hc.1 hx h1 h2), fun w hw => by cases hw⟩
      · have hav := average_between ht hp hr hx w1 (abs_lt.2 ⟨by linarith, by linarith⟩) (abs_lt.2 ⟨by linarith, by linarith⟩)
          h1 h2 w2 w3
        exact ih (fun b hb => hbs b (by simp [hb])) (hr.mem _) hav.1 hav.2 b hbm

/-- C131: the same holds of the blocks of `OnTheFlyStatisticsDDDA`: means of blocks are between the smallest datum and the largest
one, and variances of blocks are not negative. -/
theorem C131_blocks (fused : Bool) {lo hi : ℝ} (hlo : -2 ^ emax < lo) (hhi : hi < 2 ^ emax) (hb : hi - lo < 2 ^ emax)
    {xs : List ℝ} (hx : ∀ x ∈ xs, x ∈ Bin p emin emax ∧ lo ≤ x ∧ x ≤ hi) {b : State × Option ℝ} (h : b ∈ blocks rnd fused xs) :
    (b.1.n ≠ 0 → lo ≤ b.1.mean ∧ b.1.mean ≤ hi) ∧ 0 ≤ variance rnd b.1 ∧ (∃ d, standardDeviation rnd b.1 = some d ∧ 0 ≤ d) ∧
      ∃ e, standardError rnd b.1 = some e ∧ 0 ≤ e := by
  have key : ∀ b ∈ blocks rnd fused xs, BlockInv p emin emax lo hi b := by
    unfold blocks
    have h0 : ∀ b ∈ [((fresh, none) : State × Option ℝ)], BlockInv p emin emax lo hi b := by
      intro b hb
      rw [List.mem_singleton] at hb
      subst hb
      exact ⟨.inl rfl, fun w hw => by cases hw⟩
    generalize [((fresh, none) : State × Option ℝ)] = bs at h0
    clear h
    induction xs generalizing bs with
    | nil => exact h0
    | cons x xs ih =>
      obtain ⟨a, c, d⟩ := hx x (by simp)
      exact ih (fun y hy => hx y (by simp [hy])) _ (addToBlocks_inv ht hp hr fused hlo hhi hb bs h0 a c d)
  have hS : 0 ≤ b.1.S := by
    rcases (key b h).1 with h | h
    · rw [h]; exact le_rfl
    · exact h.2.nonneg
  refine ⟨fun hn => ?_, variance_nonneg ht hp hr hS, errors_of_nonneg ht hp hr hS⟩
  rcases (key b h).1 with h | h
  · rw [h] at hn; exact absurd rfl hn
  · exact ⟨h.2.lo_le, h.2.le_hi⟩

/-! ## How large the errors are -/

theorem rounding_error {x : ℝ} (hx : |x| < 2 ^ emax) : |rnd x - x| ≤ 2 ^ (-(p : ℤ)) * |x| + 2 ^ emin :=
  Collide.Drift.rounding_error (by omega) (by have := ht.small; have := ht.large; omega) hr hx

theorem sub_error {a b : ℝ} (ha : a ∈ Bin p emin emax) (hb : b ∈ Bin p emin emax) (h : |a - b| < 2 ^ emax) :
    |rnd (a - b) - (a - b)| ≤ 2 ^ (-(p : ℤ)) * |a - b| := by
  have := Time.add_error (by omega) (by have := ht.small; have := ht.large; omega) hr ha (Time.neg_mem hb)
    (by rwa [← sub_eq_add_neg])
  rwa [← sub_eq_add_neg] at this

theorem mean_step {m m0 x X N : ℝ} (hm : m ∈ Bin p emin emax) (hx : x ∈ Bin p emin emax) (hmX : |m| ≤ X) (hxX : |x| ≤ X)
    (hN : 2 ≤ N) (hlarge : 4 * X < 2 ^ emax) :
    N * |rnd (m + rnd (rnd (x - m) / N)) - (m0 + (x - m0) / N)| ≤
      (N - 1) * |m - m0| + N * (2 ^ (-(p : ℤ)) * X + 2 ^ emin) + 5 * (2 ^ (-(p : ℤ)) * X) := by
  have hu := u_le ht hp hr
  have hu0 := two_zpow_pos (-(p : ℤ))
  have hη := two_zpow_pos emin
  have hX : 0 ≤ X := (abs_nonneg _).trans hmX
  have hN0 : 0 < N := by linarith
  have hd : |x - m| ≤ 2 * X := (abs_sub x m).trans (by linarith)
  obtain ⟨b1, b2⟩ := between ht hp hr hm hx (by linarith) hN
  have hsum : |m + rnd (rnd (x - m) / N)| ≤ X := by
    rw [abs_le] at hmX hxX ⊢
    rcases le_total m x with h | h
    · have := (b1 h).1; constructor <;> linarith [this.1, this.2]
    · have := (b2 h).1; constructor <;> linarith [this.1, this.2]
  have e1 := sub_error ht hp hr hx hm (by linarith)
  have hdel : |rnd (x - m)| ≤ (1 + 2 ^ (-(p : ℤ))) * |x - m| := by
    have := abs_sub_abs_le_abs_sub (rnd (x - m)) (x - m)
    linarith
  have hquot : |rnd (x - m) / N| = |rnd (x - m)| / N := by rw [abs_div, abs_of_pos hN0]
  have e2 := rounding_error ht hp hr (x := rnd (x - m) / N) (by
    rw [hquot, div_lt_iff₀ hN0]
    have : 0 ≤ |x - m| := abs_nonneg _
    nlinarith)
  rw [hquot] at e2
  have hmem : m ∈ Bin p emin emax := hm
  have e3 := Time.add_error (by omega) (by have := ht.small; have := ht.large; omega) hr hm
    (hr.mem (rnd (x - m) / N)) (by linarith)
  set u : ℝ := 2 ^ (-(p : ℤ)) with hudef
  set η : ℝ := 2 ^ emin with hηdef
  set d := x - m with hddef
  set q := rnd (rnd d / N) with hq
  -- the error of the quotient
  have e4 : N * |q - d / N| ≤ 5 * (u * X) + N * η := by
    have t1 : N * |q - rnd d / N| ≤ u * |rnd d| + N * η := by
      calc N * |q - rnd d / N| ≤ N * (u * (|rnd d| / N) + η) := mul_le_mul_of_nonneg_left e2 hN0.le
        _ = _ := by field_simp
    have t2 : N * |rnd d / N - d / N| ≤ u * |d| := by
      rw [← sub_div, abs_div, abs_of_pos hN0, mul_div_cancel₀ _ hN0.ne']
      exact e1
    have t3 : |q - d / N| ≤ |q - rnd d / N| + |rnd d / N - d / N| := abs_sub_le _ _ _
    have t4 : N * |q - d / N| ≤ N * |q - rnd d / N| + N * |rnd d / N - d / N| := by nlinarith
    have t5 : u * |rnd d| ≤ u * ((1 + u) * |d|) := mul_le_mul_of_nonneg_left hdel hu0.le
    have t6 : u * |d| ≤ u * (2 * X) := mul_le_mul_of_nonneg_left hd hu0.le
    have t7 : u * ((1 + u) * |d|) ≤ (1 + 1 / 64) * (u * (2 * X)) := by
      have : u * ((1 + u) * |d|) = (1 + u) * (u * |d|) := by ring
      rw [this]
      have h0 : 0 ≤ u * |d| := by positivity
      nlinarith
    nlinarith [mul_nonneg hu0.le hX]
  have e5 : |rnd (m + q) - (m + q)| ≤ u * X := e3.trans (mul_le_mul_of_nonneg_left hsum hu0.le)
  have e6 : |rnd (m + q) - (m0 + (x - m0) / N)| ≤ |rnd (m + q) - (m + q)| + |q - d / N| + |m - m0| * (1 - 1 / N) := by
    have : rnd (m + q) - (m0 + (x - m0) / N) = (rnd (m + q) - (m + q)) + (q - d / N) + (m - m0) * (1 - 1 / N) := by
      rw [hddef]; field_simp; ring
    rw [this]
    refine (abs_add_le _ _).trans (add_le_add (abs_add_le _ _) ?_)
    rw [abs_mul, abs_of_nonneg (show 0 ≤ 1 - 1 / N by rw [sub_nonneg, div_le_one hN0]; linarith)]
  calc _ ≤ N * (|rnd (m + q) - (m + q)| + |q - d / N| + |m - m0| * (1 - 1 / N)) := mul_le_mul_of_nonneg_left e6 hN0.le
    _ = N * |rnd (m + q) - (m + q)| + N * |q - d / N| + (N - 1) * |m - m0| := by field_simp
    _ ≤ _ := by nlinarith

theorem data_snoc {X : ℝ} {xs : List ℝ} {x : ℝ} (h : Data p emin emax X (xs ++ [x])) :
    Data p emin emax X xs ∧ x ∈ Bin p emin emax ∧ |x| ≤ X :=
  ⟨fun y hy => h y (by simp [hy]), h x (by simp)⟩

theorem feed_abs (fused : Bool) {X : ℝ} {xs : List ℝ} (hx : Data p emin emax X xs) (hne : xs ≠ []) (hlarge : 4 * X < 2 ^ emax) :
    |(feed rnd fused xs).mean| ≤ X ∧ (feed rnd fused xs).mean ∈ Bin p emin emax ∧ 0 ≤ (feed rnd fused xs).S := by
  have hX : 0 ≤ X := by
    obtain ⟨x, hx'⟩ := List.exists_mem_of_ne_nil _ hne
    exact (abs_nonneg _).trans (hx x hx').2
  have := inv ht hp hr fused (lo := -X) (hi := X) (by linarith) hne fun x hx' => ⟨(hx x hx').1, abs_le.1 (hx x hx').2⟩
  exact ⟨abs_le.2 ⟨this.lo_le, this.le_hi⟩, this.mem, this.nonneg⟩

theorem mean_snoc (xs : List ℝ) (x : ℝ) :
    Spec.mean (xs ++ [x]) = Spec.mean xs + (x - Spec.mean xs) / ((xs.length : ℝ) + 1) := by
  have h := length_mul_mean' xs
  have h0 : ((xs.length : ℝ) + 1) ≠ 0 := by positivity
  unfold Spec.mean at h ⊢
  rw [List.sum_append, List.length_append]
  push_cast
  simp only [List.sum_cons, List.sum_nil, List.length_cons, List.length_nil, add_zero, Nat.cast_zero, zero_add, Nat.cast_one]
  rw [div_eq_iff h0, add_mul, div_mul_cancel₀ _ h0]
  linear_combination (-1 : ℝ) * h

theorem mean_error (fused : Bool) {X : ℝ} {xs : List ℝ} (hx : Data p emin emax X xs) (hlen : xs.length ≤ 2 ^ p)
    (hlarge : 4 * X < 2 ^ emax) (hX : 0 ≤ X) :
    xs.length * |(feed rnd fused xs).mean - Spec.mean xs| ≤
      xs.length * (xs.length + 1) / 2 * (2 ^ (-(p : ℤ)) * X + 2 ^ emin) + 5 * xs.length * (2 ^ (-(p : ℤ)) * X) := by
  have hu0 := two_zpow_pos (-(p : ℤ))
  have hη := two_zpow_pos emin
  induction xs using List.reverseRecOn with
  | nil => simp
  | append_singleton xs x ih =>
    obtain ⟨h1, h2, h3⟩ := data_snoc ht hp hr hx
    rw [List.length_append] at hlen
    simp only [List.length_cons, List.length_nil, zero_add] at hlen
    rw [feed_snoc ht hp hr, List.length_append]
    push_cast
    simp only [List.length_cons, List.length_nil, zero_add, Nat.cast_zero, Nat.cast_one]
    by_cases hxs : xs = []
    · subst hxs
      have : Spec.mean ([] ++ [x]) = x := by simp [Spec.mean]
      rw [this, show feed rnd fused [] = fresh from rfl, first ht hp hr fused h2]
      simp only [sub_self, abs_zero, mul_zero]
      positivity
    · obtain ⟨a1, a2, a3⟩ := feed_abs ht hp hr fused h1 hxs hlarge
      have hpos : 1 ≤ xs.length := List.length_pos_iff.2 hxs
      have hpos' : (1 : ℝ) ≤ xs.length := by exact_mod_cast hpos
      have ih' := ih h1 (by omega)
      have hN := rnd_nat ht hp hr (n := xs.length + 1) hlen
      have step := mean_step ht hp hr (m0 := Spec.mean xs) (N := (xs.length : ℝ) + 1) a2 h2 a1 h3 (by linarith) hlarge
      rw [mean_snoc ht hp hr]
      simp only [addDatum, feed_n ht hp hr]
      rw [hN]
      push_cast
      refine step.trans ?_
      have e : ((xs.length : ℝ) + 1 - 1) * |(feed rnd fused xs).mean - Spec.mean xs| =
          xs.length * |(feed rnd fused xs).mean - Spec.mean xs| := by ring
      rw [e]
      nlinarith

theorem ordinary_len {X : ℝ} {n : ℕ} (h : Ordinary p emin emax X n) : n + 1 ≤ 2 ^ p := by
  have hu0 := two_zpow_pos (-(p : ℤ))
  have hpu : (2 : ℝ) ^ p * 2 ^ (-(p : ℤ)) = 1 := by
    rw [← zpow_natCast, ← zpow_add₀ (by norm_num)]; simp
  have h1 : ((n + 1 : ℕ) : ℝ) * 2 ^ (-(p : ℤ)) ≤ 2 ^ p * 2 ^ (-(p : ℤ)) := by
    rw [hpu]; push_cast; nlinarith [h.count]
  have := le_of_mul_le_mul_right h1 hu0
  exact_mod_cast this

theorem ordinary_nonneg {X : ℝ} {n : ℕ} (h : Ordinary p emin emax X n) : 0 ≤ X := by
  have h1 := h.small
  have h2 := two_zpow_pos (-(p : ℤ))
  have h3 := two_zpow_pos emin
  by_contra hc
  push Not at hc
  nlinarith

/-- C131: the error of the mean of `n` data is at most `n + 6` times that of rounding the largest datum. -/
theorem C131_mean (fused : Bool) {X : ℝ} {xs : List ℝ} (hx : Data p emin emax X xs) (hne : xs ≠ [])
    (ho : Ordinary p emin emax X xs.length) :
    |(feed rnd fused xs).mean - Spec.mean xs| ≤ (xs.length + 6) * (2 ^ (-(p : ℤ)) * X) := by
  have hX := ordinary_nonneg ht hp hr ho
  have hlen := ordinary_len ht hp hr ho
  have h := mean_error ht hp hr fused hx (by omega) ho.large hX
  have hpos : (1 : ℝ) ≤ xs.length := by exact_mod_cast List.length_pos_iff.2 hne
  have hs := ho.small
  set u : ℝ := 2 ^ (-(p : ℤ))
  set η : ℝ := 2 ^ emin
  have h' : (xs.length : ℝ) * |(feed rnd fused xs).mean - Spec.mean xs| ≤ xs.length * ((xs.length + 6) * (u * X)) := by
    refine h.trans ?_
    have : (xs.length : ℝ) * (xs.length + 1) / 2 * (u * X + η) ≤ xs.length * (xs.length + 1) / 2 * (2 * (u * X)) :=
      mul_le_mul_of_nonneg_left (by linarith) (by positivity)
    nlinarith
  exact le_of_mul_le_mul_left h' (by linarith)

theorem sumSqDev_snoc (xs : List ℝ) (x : ℝ) :
    Spec.sumSqDev (xs ++ [x]) = Spec.sumSqDev xs + (x - Spec.mean xs) * (x - Spec.mean (xs ++ [x])) := by
  rw [sumSqDev_eq, sumSqDev_eq, List.map_append, List.sum_append, mean_snoc ht hp hr, List.length_append]
  have h0 : ((xs.length : ℝ) + 1) ≠ 0 := by positivity
  push_cast
  simp only [List.length_cons, List.length_nil, zero_add, Nat.cast_zero, Nat.cast_one, List.map_cons, List.map_nil,
    List.sum_cons, List.sum_nil, add_zero]
  field_simp
  ring

theorem mean_abs {X : ℝ} {xs : List ℝ} (hX : 0 ≤ X) (h : ∀ x ∈ xs, |x| ≤ X) : |Spec.mean xs| ≤ X := by
  unfold Spec.mean
  by_cases hne : xs = []
  · subst hne; simpa using hX
  have hpos : (0 : ℝ) < xs.length := by exact_mod_cast List.length_pos_iff.2 hne
  rw [abs_div, abs_of_pos hpos, div_le_iff₀ hpos]
  have h1 := Collide.Drift.abs_sum_le (fun x : ℝ => x) xs
  have h2 := Collide.Drift.sum_le (f := fun x : ℝ => |x|) (g := fun _ => X) h
  rw [Collide.Drift.sum_const] at h2
  simp only [List.map_id'] at h1
  linarith

set_option maxHeartbeats 1000000 in
/-- The error that one datum adds to the sum of the squares. -/
theorem square_step (fused : Bool) {S S0 m m' m0 m0' x X A G n : ℝ} (hm : m ∈ Bin p emin emax) (hm' : m' ∈ Bin p emin emax)
    (hx : x ∈ Bin p emin emax) (hmX : |m| ≤ X) (hmX' : |m'| ≤ X) (hxX : |x| ≤ X) (h0X : |m0| ≤ X) (h0X' : |m0'| ≤ X)
    (hA : A = (n + 6) * (2 ^ (-(p : ℤ)) * X)) (h1 : |m - m0| ≤ A) (h2 : |m' - m0'| ≤ A) (hn : 0 ≤ n)
    (hcount : (n + 8) * 2 ^ (-(p : ℤ)) ≤ 1 / 8) (hsmall : (2 : ℝ) ^ emin ≤ 2 ^ (-(p : ℤ)) * X ^ 2) (hlarge : 4 * X < 2 ^ emax)
    (hlarge' : 16 * (n + 1) * X ^ 2 < 2 ^ emax) (hS0 : |S0| ≤ 4 * n * X ^ 2)
    (hG : G = 10 * (n + 6) * (2 ^ (-(p : ℤ)) * X ^ 2)) (hS : |S - S0| ≤ n * G) :
    |rnd (S + if fused then rnd (x - m) * rnd (x - m') else rnd (rnd (x - m) * rnd (x - m'))) -
      (S0 + (x - m0) * (x - m0'))| ≤ |S - S0| + G := by
  have hu := u_le ht hp hr
  have hu0 := two_zpow_pos (-(p : ℤ))
  have hη := two_zpow_pos emin
  have hX : 0 ≤ X := (abs_nonneg _).trans hmX
  have hsq : 0 ≤ X ^ 2 := by positivity
  have d1 : |x - m| ≤ 2 * X := (abs_sub x m).trans (by linarith)
  have d2 : |x - m'| ≤ 2 * X := (abs_sub x m').trans (by linarith)
  have d3 : |x - m0| ≤ 2 * X := (abs_sub x m0).trans (by linarith)
  have d4 : |x - m0'| ≤ 2 * X := (abs_sub x m0').trans (by linarith)
  have e1 := sub_error ht hp hr hx hm (by linarith)
  have e2 := sub_error ht hp hr hx hm' (by linarith)
  set u : ℝ := 2 ^ (-(p : ℤ)) with hudef
  set η : ℝ := 2 ^ emin with hηdef
  set d := rnd (x - m) with hd
  set f := rnd (x - m') with hf
  have hA0 : 0 ≤ A := (abs_nonneg _).trans h1
  have hux : u * |x - m| ≤ 2 * (u * X) := by nlinarith
  have hux' : u * |x - m'| ≤ 2 * (u * X) := by nlinarith
  have c1 : |d - (x - m0)| ≤ A + 2 * (u * X) := by
    have : d - (x - m0) = (d - (x - m)) + -(m - m0) := by ring
    rw [this]
    refine (abs_add_le _ _).trans ?_
    rw [abs_neg]
    linarith
  have c2 : |f - (x - m0')| ≤ A + 2 * (u * X) := by
    have : f - (x - m0') = (f - (x - m')) + -(m' - m0') := by ring
    rw [this]
    refine (abs_add_le _ _).trans ?_
    rw [abs_neg]
    linarith
  have hdX : |d| ≤ 65 / 32 * X := by
    have := abs_sub_abs_le_abs_sub d (x - m)
    have := mul_le_mul_of_nonneg_right hu hX
    linarith
  have hfX : |f| ≤ 65 / 32 * X := by
    have := abs_sub_abs_le_abs_sub f (x - m')
    have := mul_le_mul_of_nonneg_right hu hX
    linarith
  have hB : A + 2 * (u * X) = (n + 8) * (u * X) := by rw [hA]; ring
  rw [hB] at c1 c2
  -- the product
  have c3 : |d * f - (x - m0) * (x - m0')| ≤ 65 / 16 * ((n + 8) * (u * X ^ 2)) := by
    have : d * f - (x - m0) * (x - m0') = (d - (x - m0)) * f + (x - m0) * (f - (x - m0')) := by ring
    rw [this]
    refine (abs_add_le _ _).trans ?_
    have t1 := Collide.Drift.abs_mul_le c1 hfX
    have t2 := Collide.Drift.abs_mul_le d3 c2
    have hnn : 0 ≤ (n + 8) * (u * X ^ 2) := by positivity
    have t3 : (n + 8) * (u * X) * (65 / 32 * X) = 65 / 32 * ((n + 8) * (u * X ^ 2)) := by ring
    have t4 : 2 * X * ((n + 8) * (u * X)) = 2 * ((n + 8) * (u * X ^ 2)) := by ring
    linarith
  have hdf : |d * f| ≤ 17 / 4 * X ^ 2 := by
    have := Collide.Drift.abs_mul_le hdX hfX
    have t : 65 / 32 * X * (65 / 32 * X) = 4225 / 1024 * X ^ 2 := by ring
    linarith
  obtain ⟨w, hw, hwe⟩ : ∃ w, w = (if fused then d * f else rnd (d * f)) ∧ |w - d * f| ≤ 21 / 4 * (u * X ^ 2) := by
    refine ⟨_, rfl, ?_⟩
    cases fused
    · have := rounding_error ht hp hr (x := d * f) (by
        have : 0 ≤ n * X ^ 2 := by positivity
        linarith)
      simp only [Bool.false_eq_true, if_false]
      refine this.trans ?_
      rw [← hudef, ← hηdef]
      have := mul_le_mul_of_nonneg_left hdf hu0.le
      linarith
    · simp only [if_true, sub_self, abs_zero]
      positivity
  rw [← hw]
  have c4 : |w - (x - m0) * (x - m0')| ≤ 65 / 16 * ((n + 8) * (u * X ^ 2)) + 21 / 4 * (u * X ^ 2) := by
    have : w - (x - m0) * (x - m0') = (w - d * f) + (d * f - (x - m0) * (x - m0')) := by ring
    rw [this]
    exact (abs_add_le _ _).trans (by linarith)
  have hprod : |(x - m0) * (x - m0')| ≤ 4 * X ^ 2 := by
    have := Collide.Drift.abs_mul_le d3 d4
    have t : 2 * X * (2 * X) = 4 * X ^ 2 := by ring
    linarith
  have hG0 : 0 ≤ G := by rw [hG]; positivity
  have hnG : u * (n * G) ≤ 1 / 8 * G := by
    have : n * u ≤ 1 / 8 := by nlinarith
    calc u * (n * G) = n * u * G := by ring
      _ ≤ _ := mul_le_mul_of_nonneg_right this hG0
  have hP : 65 / 16 * ((n + 8) * (u * X ^ 2)) + 21 / 4 * (u * X ^ 2) ≤ X ^ 2 := by
    have : (n + 8) * (u * X ^ 2) ≤ 1 / 8 * X ^ 2 := by
      calc (n + 8) * (u * X ^ 2) = (n + 8) * u * X ^ 2 := by ring
        _ ≤ _ := mul_le_mul_of_nonneg_right hcount hsq
    have : u * X ^ 2 ≤ 1 / 64 * X ^ 2 := mul_le_mul_of_nonneg_right hu hsq
    linarith
  have hnG' : n * G ≤ 2 * n * X ^ 2 := by
    have : G ≤ 2 * X ^ 2 := by
      rw [hG]
      have : (n + 6) * (u * X ^ 2) ≤ 1 / 8 * X ^ 2 := by
        calc (n + 6) * (u * X ^ 2) ≤ (n + 8) * (u * X ^ 2) := mul_le_mul_of_nonneg_right (by linarith) (by positivity)
          _ = (n + 8) * u * X ^ 2 := by ring
          _ ≤ _ := mul_le_mul_of_nonneg_right hcount hsq
      linarith
    have := mul_le_mul_of_nonneg_left this hn
    linarith
  have hsum : |S + w| ≤ n * G + 4 * n * X ^ 2 + 4 * X ^ 2 + (65 / 16 * ((n + 8) * (u * X ^ 2)) + 21 / 4 * (u * X ^ 2)) := by
    have : S + w = (S - S0) + S0 + (x - m0) * (x - m0') + (w - (x - m0) * (x - m0')) := by ring
    rw [this]
    refine (abs_add_le _ _).trans (add_le_add ((abs_add_le _ _).trans (add_le_add ((abs_add_le _ _).trans ?_) hprod)) c4)
    linarith
  have c5 := rounding_error ht hp hr (x := S + w) (by
    have : 0 ≤ n * X ^ 2 := by positivity
    linarith)
  rw [← hudef, ← hηdef] at c5
  have e6 : rnd (S + w) - (S0 + (x - m0) * (x - m0')) =
      (rnd (S + w) - (S + w)) + (S - S0) + (w - (x - m0) * (x - m0')) := by ring
  rw [e6]
  refine (abs_add_le _ _).trans ((add_le_add (abs_add_le _ _) le_rfl).trans ?_)
  have c6 : u * |S + w| ≤ 1 / 8 * G + 4 * n * (u * X ^ 2) + 5 * (u * X ^ 2) := by
    calc u * |S + w| ≤ u * (n * G + 4 * n * X ^ 2 + 4 * X ^ 2 + X ^ 2) := mul_le_mul_of_nonneg_left (by linarith) hu0.le
      _ = u * (n * G) + 4 * n * (u * X ^ 2) + 5 * (u * X ^ 2) := by ring
      _ ≤ _ := by linarith
  have : 0 ≤ u * X ^ 2 := by positivity
  have : 0 ≤ n * (u * X ^ 2) := by positivity
  have hGe : G = 10 * n * (u * X ^ 2) + 60 * (u * X ^ 2) := by rw [hG]; ring
  linarith

theorem ordinary_mono {X : ℝ} {m n : ℕ} (hmn : m ≤ n) (h : Ordinary p emin emax X n) : Ordinary p emin emax X m := by
  have hmn' : (m : ℝ) ≤ n := by exact_mod_cast hmn
  have hu0 := two_zpow_pos (-(p : ℤ))
  refine ⟨le_trans (mul_le_mul_of_nonneg_right (by linarith) hu0.le) h.count, h.small, h.small_sq, h.large, ?_⟩
  refine lt_of_le_of_lt (mul_le_mul_of_nonneg_right ?_ (sq_nonneg X)) h.large_sq
  linarith

theorem sumSqDev_le {X : ℝ} (hX : 0 ≤ X) {xs : List ℝ} (h : ∀ x ∈ xs, |x| ≤ X) : |Spec.sumSqDev xs| ≤ 4 * xs.length * X ^ 2 := by
  have hm := mean_abs ht hp hr hX h
  rw [abs_of_nonneg (sumSqDev_nonneg xs)]
  unfold Spec.sumSqDev
  have : ∀ x ∈ xs, (x - Spec.mean xs) ^ 2 ≤ 4 * X ^ 2 := fun x hx => by
    have h1 : |x - Spec.mean xs| ≤ 2 * X := (abs_sub x _).trans (by linarith [h x hx])
    have h2 := Collide.Drift.abs_mul_le h1 h1
    rw [← sq, abs_of_nonneg (sq_nonneg _)] at h2
    linarith [show 2 * X * (2 * X) = 4 * X ^ 2 by ring]
  have := Collide.Drift.sum_le this
  rw [Collide.Drift.sum_const] at this
  linarith

theorem square_error (fused : Bool) {X : ℝ} {n : ℕ} (ho : Ordinary p emin emax X n) {xs : List ℝ} (hx : Data p emin emax X xs)
    (hlen : xs.length ≤ n) :
    |(feed rnd fused xs).S - Spec.sumSqDev xs| ≤ xs.length * (10 * (n + 6) * (2 ^ (-(p : ℤ)) * X ^ 2)) := by
  have hX := ordinary_nonneg ht hp hr ho
  have hu0 := two_zpow_pos (-(p : ℤ))
  induction xs using List.reverseRecOn with
  | nil => simp [feed, fresh, Spec.sumSqDev]
  | append_singleton xs x ih =>
    obtain ⟨h1, h2, h3⟩ := data_snoc ht hp hr hx
    have hl : (xs ++ [x]).length = xs.length + 1 := by simp
    rw [hl] at hlen
    have hlen' : (xs.length : ℝ) ≤ n := by exact_mod_cast (by omega : xs.length ≤ n)
    by_cases hxs : xs = []
    · subst hxs
      rw [feed_snoc ht hp hr, show feed rnd fused [] = fresh from rfl, first ht hp hr fused h2]
      have : Spec.sumSqDev ([] ++ [x]) = 0 := by simp [Spec.sumSqDev, Spec.mean]
      rw [this, sub_self, abs_zero]
      positivity
    · have ih' := ih h1 (by omega)
      obtain ⟨a1, a2, a3⟩ := feed_abs ht hp hr fused h1 hxs ho.large
      obtain ⟨b1, b2, b3⟩ := feed_abs ht hp hr fused hx (by simp) ho.large
      have m1 := C131_mean ht hp hr fused h1 hxs (ordinary_mono ht hp hr (by omega) ho)
      have m2 := C131_mean ht hp hr fused hx (by simp) (ordinary_mono ht hp hr (by rw [hl]; exact hlen) ho)
      have huX : 0 ≤ 2 ^ (-(p : ℤ)) * X := by positivity
      have m1' : |(feed rnd fused xs).mean - Spec.mean xs| ≤ (n + 6) * (2 ^ (-(p : ℤ)) * X) :=
        m1.trans (mul_le_mul_of_nonneg_right (by linarith) huX)
      have m2' : |(feed rnd fused (xs ++ [x])).mean - Spec.mean (xs ++ [x])| ≤ (n + 6) * (2 ^ (-(p : ℤ)) * X) := by
        refine m2.trans (mul_le_mul_of_nonneg_right ?_ huX)
        rw [hl]
        have : ((xs.length + 1 : ℕ) : ℝ) ≤ n := by exact_mod_cast hlen
        linarith
      have hG : 0 ≤ 10 * ((n : ℝ) + 6) * (2 ^ (-(p : ℤ)) * X ^ 2) := by positivity
      have step := square_step ht hp hr fused (S := (feed rnd fused xs).S) (S0 := Spec.sumSqDev xs) a2 b2 h2 a1 b1 h3
        (mean_abs ht hp hr hX fun y hy => (h1 y hy).2) (mean_abs ht hp hr hX fun y hy => (hx y hy).2) rfl m1' m2'
        (Nat.cast_nonneg n) ho.count ho.small_sq ho.large ho.large_sq
        ((sumSqDev_le ht hp hr hX fun y hy => (h1 y hy).2).trans
          (mul_le_mul_of_nonneg_right (by linarith) (sq_nonneg X))) rfl
        (ih'.trans (mul_le_mul_of_nonneg_right hlen' hG))
      rw [sumSqDev_snoc ht hp hr, hl]
      have e : (feed rnd fused (xs ++ [x])).S = rnd ((feed rnd fused xs).S + if fused then
          rnd (x - (feed rnd fused xs).mean) * rnd (x - (feed rnd fused (xs ++ [x])).mean) else
          rnd (rnd (x - (feed rnd fused xs).mean) * rnd (x - (feed rnd fused (xs ++ [x])).mean))) := by
        rw [feed_snoc ht hp hr]; rfl
      rw [e]
      refine step.trans ?_
      push_cast
      linarith

/-- C131: the error of the variance of `n` data is at most `22 (n + 6)` times that of rounding the square of the largest
datum. -/
theorem C131_variance (fused : Bool) {X : ℝ} {xs : List ℝ} (hx : Data p emin emax X xs) (hlen : 2 ≤ xs.length)
    (ho : Ordinary p emin emax X xs.length) :
    |variance rnd (feed rnd fused xs) - Spec.variance xs| ≤ 22 * (xs.length + 6) * (2 ^ (-(p : ℤ)) * X ^ 2) := by
  have hX := ordinary_nonneg ht hp hr ho
  have hu := u_le ht hp hr
  have hu0 := two_zpow_pos (-(p : ℤ))
  have h := square_error ht hp hr fused ho hx le_rfl
  have hS := sumSqDev_le ht hp hr hX fun y hy => (hx y hy).2
  have hl := ordinary_len ht hp hr ho
  have hn := rnd_nat ht hp hr (n := xs.length - 1) (by omega)
  unfold variance Spec.variance
  rw [feed_n ht hp hr, if_neg (by omega), hn, Nat.cast_sub (by omega), Nat.cast_one]
  have hlen' : (2 : ℝ) ≤ xs.length := by exact_mod_cast hlen
  have hcount := ho.count
  have hsmall := ho.small_sq
  have hlarge := ho.large_sq
  set n : ℝ := (xs.length : ℝ) with hndef
  set u : ℝ := 2 ^ (-(p : ℤ)) with hudef
  set S := (feed rnd fused xs).S
  set S0 := Spec.sumSqDev xs
  have hn1 : 0 < n - 1 := by linarith
  have hsq : 0 ≤ X ^ 2 := sq_nonneg X
  have huX : 0 ≤ u * X ^ 2 := by positivity
  have hquot : ∀ {y Y : ℝ}, |y| ≤ n * Y → 0 ≤ Y → |y / (n - 1)| ≤ 2 * Y := by
    intro y Y hy hY
    rw [abs_div, abs_of_pos hn1, div_le_iff₀ hn1]
    nlinarith
  have q1 : |(S - S0) / (n - 1)| ≤ 2 * (10 * (n + 6) * (u * X ^ 2)) := hquot h (by positivity)
  have q2 : |S0 / (n - 1)| ≤ 2 * (4 * X ^ 2) := hquot (by linarith) (by positivity)
  rw [sub_div] at q1
  have hnu : (n + 6) * (u * X ^ 2) ≤ 1 / 8 * X ^ 2 := by
    calc (n + 6) * (u * X ^ 2) ≤ (n + 8) * (u * X ^ 2) := mul_le_mul_of_nonneg_right (by linarith) huX
      _ = (n + 8) * u * X ^ 2 := by ring
      _ ≤ _ := mul_le_mul_of_nonneg_right hcount hsq
  have q3 : |S / (n - 1)| ≤ 8 * X ^ 2 + 20 * ((n + 6) * (u * X ^ 2)) := by
    have := abs_sub_abs_le_abs_sub (S / (n - 1)) (S0 / (n - 1))
    linarith
  have q4 := rounding_error ht hp hr (x := S / (n - 1)) (by
    have : 0 ≤ n * X ^ 2 := by positivity
    nlinarith)
  rw [← hudef] at q4
  have q5 : u * |S / (n - 1)| ≤ 8 * (u * X ^ 2) + 20 / 64 * ((n + 6) * (u * X ^ 2)) := by
    have t0 : 0 ≤ (n + 6) * (u * X ^ 2) := by positivity
    have t1 := mul_le_mul_of_nonneg_left q3 hu0.le
    have t2 := mul_le_mul_of_nonneg_right hu t0
    linarith
  have q6 : |rnd (S / (n - 1)) - S0 / (n - 1)| ≤ |rnd (S / (n - 1)) - S / (n - 1)| + |S / (n - 1) - S0 / (n - 1)| :=
    abs_sub_le _ _ _
  have t3 : 8 * (u * X ^ 2) ≤ (n + 6) * (u * X ^ 2) := mul_le_mul_of_nonneg_right (by linarith) huX
  linarith

/-! ## Merging -/

/-- C131: merging samples does not make variances negative either. -/
theorem C131_merge_nonneg (fused : Bool) {lo hi : ℝ} (hb : hi - lo < 2 ^ emax) {xs ys : List ℝ}
    (hx : ∀ x ∈ xs, x ∈ Bin p emin emax ∧ lo ≤ x ∧ x ≤ hi) (hy : ∀ x ∈ ys, x ∈ Bin p emin emax ∧ lo ≤ x ∧ x ≤ hi) :
    0 ≤ variance rnd (mergeSample rnd fused (feed rnd fused xs) (feed rnd fused ys)) ∧
      (mergeSample rnd fused (feed rnd fused xs) (feed rnd fused ys)).n = xs.length + ys.length := by
  have hxn := feed_n ht hp hr fused xs
  have hyn := feed_n ht hp hr fused ys
  have hxS := feed_nonneg ht hp hr fused hb hx
  have hyS := feed_nonneg ht hp hr fused hb hy
  have one : ∀ {s t : State} {zs ws : List ℝ}, s = feed rnd fused zs → t = feed rnd fused ws →
      (∀ x ∈ zs, x ∈ Bin p emin emax ∧ lo ≤ x ∧ x ≤ hi) → (∀ x ∈ ws, x ∈ Bin p emin emax ∧ lo ≤ x ∧ x ≤ hi) → t.n ≠ 0 →
      0 ≤ (addDatum rnd fused s t.mean).S := by
    rintro s t zs ws rfl rfl hz hw hn
    have hws : ws ≠ [] := by
      rintro rfl
      exact hn rfl
    have hi' := inv ht hp hr fused hb hws hw
    by_cases hzs : zs = []
    · subst hzs
      exact (inv_first ht hp hr fused hi'.mem hi'.lo_le hi'.le_hi).nonneg
    · refine (inv_step ht hp hr fused hb (inv ht hp hr fused hb hzs hz) ?_ hi'.mem hi'.lo_le hi'.le_hi).1.nonneg
      rw [feed_n ht hp hr]
      exact List.length_pos_iff.2 hzs
  unfold mergeSample
  split_ifs with h1 h2 h3 h4
  · exact ⟨variance_nonneg ht hp hr hyS, by omega⟩
  · exact ⟨variance_nonneg ht hp hr (one rfl rfl hy hx (by omega)), by simp only [addDatum]; omega⟩
  · exact ⟨variance_nonneg ht hp hr hxS, by omega⟩
  · exact ⟨variance_nonneg ht hp hr (one rfl rfl hx hy (by omega)), by simp only [addDatum]; omega⟩
  · refine ⟨variance_nonneg ht hp hr (rnd_nonneg ht hp hr (add_nonneg (rnd_nonneg ht hp hr (add_nonneg ?_ ?_))
      (rnd_nonneg ht hp hr (mul_nonneg (rnd_nonneg ht hp hr (sq_nonneg _)) (rnd_nonneg ht hp hr (Nat.cast_nonneg _)))))),
      by dsimp only; omega⟩
    · exact rnd_nonneg ht hp hr (mul_nonneg (rnd_nonneg ht hp hr (Nat.cast_nonneg _)) (variance_nonneg ht hp hr hxS))
    · exact rnd_nonneg ht hp hr (mul_nonneg (rnd_nonneg ht hp hr (Nat.cast_nonneg _)) (variance_nonneg ht hp hr hyS))

end

/-! ## What does not hold -/

/-- The number nearest a given one, if it is the only one. -/
theorem rnd_eq (hr : IsRounding p emin emax rnd) {x y : ℝ} (hy : y ∈ Bin p emin emax)
    (h : ∀ w ∈ Bin p emin emax, |x - w| ≤ |x - y| → w = y) : rnd x = y :=
  h _ (hr.mem x) ((hr x).2 y hy)

/-- Numbers of more than 53 bits are multiples of a power of two. -/
theorem multiple_of_le {k : ℤ} {w : ℝ} (hw : w ∈ Bin p emin emax) (h : (2 : ℝ) ^ (k + p - 1) ≤ w) : ∃ m : ℤ, w = m * 2 ^ k := by
  obtain ⟨m, hm⟩ := multiple hw (k := k + p - 1) (h.trans (le_abs_self w))
  exact ⟨m, by rw [hm]; congr 2; ring⟩

/-- C131: merging two samples may yield a mean that is less than every datum: here, the data all are `2^53 - 1`, and the mean of
the merged sample is `2^53 - 2`. -/
theorem C131_merge_violated (fused : Bool) {emin emax : ℤ} {rnd : ℝ → ℝ} (ht : Type_ 53 emin emax)
    (hr : IsRounding 53 emin emax rnd) : ∃ x ∈ Bin 53 emin emax,
      (mergeSample rnd fused (feed rnd fused (List.replicate 5 x)) (feed rnd fused (List.replicate 5 x))).mean < x := by
  have hs := ht.small
  have hl := ht.large
  push_cast at hs hl
  have hx : ((2 : ℝ) ^ 53 - 1) ∈ Bin 53 emin emax := ⟨2 ^ 53 - 1, 0, by norm_num, by omega, by omega, by norm_num⟩
  refine ⟨2 ^ 53 - 1, hx, ?_⟩
  have h5 : rnd ((5 : ℕ) : ℝ) = (5 : ℕ) := rnd_nat ht (by norm_num) hr (by norm_num)
  have h10 : rnd ((10 : ℕ) : ℝ) = (10 : ℕ) := rnd_nat ht (by norm_num) hr (by norm_num)
  rw [(C131_constant ht (by norm_num) hr fused hx 4).1]
  have e : (mergeSample rnd fused ⟨4 + 1, 2 ^ 53 - 1, 0⟩ ⟨4 + 1, 2 ^ 53 - 1, 0⟩).mean =
      rnd (rnd (rnd (rnd ((5 : ℕ) : ℝ) * (2 ^ 53 - 1)) + rnd (rnd ((5 : ℕ) : ℝ) * (2 ^ 53 - 1))) / rnd ((10 : ℕ) : ℝ)) := rfl
  rw [e, h5, h10]
  have p1 : rnd (((5 : ℕ) : ℝ) * (2 ^ 53 - 1)) = 5 * 2 ^ 53 - 8 := by
    refine rnd_eq hr ⟨5 * 2 ^ 50 - 1, 3, by norm_num, by omega, by omega, by norm_num⟩ fun w hw h => ?_
    rw [show ((5 : ℕ) : ℝ) * (2 ^ 53 - 1) - (5 * 2 ^ 53 - 8) = 3 by norm_num, abs_of_pos (by norm_num : (0 : ℝ) < 3)] at h
    have hab := abs_le.1 h
    push_cast at hab
    obtain ⟨m, hm⟩ := multiple_of_le (k := 3) hw (by norm_num at hab ⊢; linarith)
    rw [hm] at hab ⊢
    norm_num at hab ⊢
    have b1 : (45035996273704952 : ℝ) ≤ m * 8 := by linarith [hab.2]
    have b2 : (m : ℝ) * 8 ≤ 45035996273704958 := hab.1
    have b1' : 45035996273704952 ≤ m * 8 := by exact_mod_cast b1
    have b2' : m * 8 ≤ 45035996273704958 := by exact_mod_cast b2
    have b3 : m * 8 = 45035996273704952 := by omega
    exact_mod_cast b3
  have p2 : rnd ((5 * 2 ^ 53 - 8 : ℝ) + (5 * 2 ^ 53 - 8)) = 10 * 2 ^ 53 - 16 := by
    rw [show ((5 * 2 ^ 53 - 8 : ℝ) + (5 * 2 ^ 53 - 8)) = 10 * 2 ^ 53 - 16 by norm_num]
    exact hr.eq_self ⟨5 * 2 ^ 50 - 1, 4, by norm_num, by omega, by omega, by norm_num⟩
  rw [p1, p2]
  have h := (hr ((10 * 2 ^ 53 - 16) / ((10 : ℕ) : ℝ))).2 (2 ^ 53 - 2)
    ⟨2 ^ 53 - 2, 0, by norm_num, by omega, by omega, by norm_num⟩
  rw [show (10 * 2 ^ 53 - 16) / ((10 : ℕ) : ℝ) - (2 ^ 53 - 2) = 2 / 5 by norm_num,
    abs_of_pos (by norm_num : (0 : ℝ) < 2 / 5)] at h
  have := (abs_le.1 h).1
  norm_num at this ⊢
  linarith

/-- C131: nor is the relative error of the variance small: here, the variance computed of two data is either 0 or twice as large
as it should be. -/
theorem C131_relative_violated (fused : Bool) {emin emax : ℤ} {rnd : ℝ → ℝ} (ht : Type_ 53 emin emax) (he : emin ≤ -104)
    (hr : IsRounding 53 emin emax rnd) : ∃ x ∈ Bin 53 emin emax, ∃ y ∈ Bin 53 emin emax, 0 < Spec.variance [x, y] ∧
      (variance rnd (feed rnd fused [x, y]) = 0 ∨ variance rnd (feed rnd fused [x, y]) = 2 * Spec.variance [x, y]) := by
  have hs := ht.small
  have hl := ht.large
  push_cast at hs hl
  have hx : (1 : ℝ) ∈ Bin 53 emin emax := ⟨1, 0, by norm_num, by omega, by omega, by norm_num⟩
  have hy : (1 + 2 ^ (-52 : ℤ) : ℝ) ∈ Bin 53 emin emax := ⟨2 ^ 52 + 1, -52, by norm_num, by omega, by omega, by norm_num⟩
  have hd : (2 ^ (-52 : ℤ) : ℝ) ∈ Bin 53 emin emax := ⟨1, -52, by norm_num, by omega, by omega, by norm_num⟩
  have hd2 : (2 ^ (-53 : ℤ) : ℝ) ∈ Bin 53 emin emax := ⟨1, -53, by norm_num, by omega, by omega, by norm_num⟩
  have hq : (2 ^ (-104 : ℤ) : ℝ) ∈ Bin 53 emin emax := ⟨1, -104, by norm_num, by omega, by omega, by norm_num⟩
  have hsp : Spec.variance [(1 : ℝ), 1 + 2 ^ (-52 : ℤ)] = 2 ^ (-104 : ℤ) / 2 := by
    simp only [Spec.variance, Spec.sumSqDev, Spec.mean, List.map_cons, List.map_nil, List.sum_cons, List.sum_nil,
      List.length_cons, List.length_nil]
    norm_num
  refine ⟨1, hx, 1 + 2 ^ (-52 : ℤ), hy, by rw [hsp]; positivity, ?_⟩
  have h2 : rnd ((2 : ℕ) : ℝ) = (2 : ℕ) := rnd_nat ht (by norm_num) hr (by norm_num)
  have h1 : rnd ((1 : ℕ) : ℝ) = (1 : ℕ) := rnd_nat ht (by norm_num) hr (by norm_num)
  have h0 := rnd_zero ht (by norm_num) hr
  have hf : feed rnd fused [1, 1 + 2 ^ (-52 : ℤ)] = addDatum rnd fused ⟨1, 1, 0⟩ (1 + 2 ^ (-52 : ℤ)) := by
    rw [← first ht (by norm_num) hr fused hx]; rfl
  -- the mean is one of the data
  have hm : rnd (1 + 2 ^ (-53 : ℤ)) = 1 ∨ rnd (1 + 2 ^ (-53 : ℤ)) = 1 + 2 ^ (-52 : ℤ) := by
    have hge := hr.ge_of_ge hx (x := 1 + 2 ^ (-53 : ℤ)) (by linarith [two_zpow_pos (-53)])
    have hle := hr.le_of_le hy (x := 1 + 2 ^ (-53 : ℤ)) (by norm_num)
    obtain ⟨m, hm⟩ := multiple_of_le (k := -52) (hr.mem (1 + 2 ^ (-53 : ℤ)))
      (le_trans (le_of_eq (by norm_num)) hge)
    rw [hm] at hge hle ⊢
    norm_num at hge hle ⊢
    have b1 : (4503599627370496 : ℝ) ≤ m := by linarith
    have b2 : (m : ℝ) ≤ 4503599627370497 := by linarith
    have b1' : 4503599627370496 ≤ m := by exact_mod_cast b1
    have b2' : m ≤ 4503599627370497 := by exact_mod_cast b2
    rcases (by omega : m = 4503599627370496 ∨ m = 4503599627370497) with rfl | rfl
    · left; norm_num
    · right; norm_num
  have hfeed : (feed rnd fused [1, 1 + 2 ^ (-52 : ℤ)]).S = 0 ∨ (feed rnd fused [1, 1 + 2 ^ (-52 : ℤ)]).S = 2 ^ (-104 : ℤ) := by
    rw [hf]
    simp only [addDatum, add_sub_cancel_left, hr.eq_self hd]
    have e1 : rnd (2 ^ (-52 : ℤ) / rnd ((1 + 1 : ℕ) : ℝ)) = 2 ^ (-53 : ℤ) := by
      rw [show ((1 + 1 : ℕ) : ℝ) = ((2 : ℕ) : ℝ) by norm_num, h2,
        show (2 : ℝ) ^ (-52 : ℤ) / ((2 : ℕ) : ℝ) = 2 ^ (-53 : ℤ) by norm_num]
      exact hr.eq_self hd2
    rw [e1]
    rcases hm with h | h
    · right
      rw [h, add_sub_cancel_left, hr.eq_self hd, ← zpow_add₀ (by norm_num),
        show (-52 : ℤ) + -52 = -104 by norm_num, zero_add]
      cases fused
      · simp only [Bool.false_eq_true, if_false]
        rw [hr.eq_self hq, hr.eq_self hq]
      · simp only [if_true]
        exact hr.eq_self hq
    · left
      rw [h, sub_self, h0, mul_zero]
      cases fused <;> simp [h0]
  have hv : variance rnd (feed rnd fused [1, 1 + 2 ^ (-52 : ℤ)]) = rnd ((feed rnd fused [1, 1 + 2 ^ (-52 : ℤ)]).S) := by
    unfold variance
    rw [hf]
    simp only [addDatum]
    rw [if_neg (by norm_num), show ((1 + 1 - 1 : ℕ) : ℝ) = ((1 : ℕ) : ℝ) by norm_num, h1, Nat.cast_one, div_one]
  rw [hv, hsp]
  rcases hfeed with h | h
  · left; rw [h, h0]
  · right; rw [h, hr.eq_self hq]; ring

/-- The hypotheses of C131 are met by a million data up to 1000, in double precision. -/
example : Ordinary 53 (-1074) 971 1000 1000000 ∧ Type_ 53 (-1074) 971 ∧ ∃ rnd, IsRounding 53 (-1074) 971 rnd := by
  have key : (2 : ℝ) ^ (100 : ℤ) ≤ 2 ^ (971 : ℤ) := zpow_le_zpow_right₀ (by norm_num) (by norm_num)
  have key' : (2 : ℝ) ^ (-1074 : ℤ) ≤ 2 ^ (-53 : ℤ) := zpow_le_zpow_right₀ (by norm_num) (by norm_num)
  refine ⟨⟨by norm_num, ?_, ?_, ?_, ?_⟩, ⟨by norm_num, by norm_num, by norm_num⟩, exists_isRounding (by norm_num)⟩
  · refine key'.trans ?_
    norm_num
  · refine key'.trans ?_
    norm_num
  · refine lt_of_lt_of_le ?_ key
    norm_num
  · refine lt_of_lt_of_le ?_ key
    norm_num

example : Data 53 (-1074) 971 1000 [1, -3, 1000] := by
  intro x hx
  simp only [List.mem_cons, List.not_mem_nil, or_false] at hx
  rcases hx with rfl | rfl | rfl
  · exact ⟨⟨1, 0, by norm_num, by norm_num, by norm_num, by norm_num⟩, by norm_num⟩
  · exact ⟨⟨-3, 0, by norm_num, by norm_num, by norm_num, by norm_num⟩, by norm_num [abs_of_neg]⟩
  · exact ⟨⟨1000, 0, by norm_num, by norm_num, by norm_num, by norm_num⟩, by norm_num⟩

end OpenMPCD.Stats.Rounded
