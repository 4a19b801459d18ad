import Verif.Stats.Rounded
import Mathlib.Data.List.Perm.Basic

/-!
# Orientation angles in floating-point arithmetic (C132)

`_getAngleBetweenLines` applies `arccos` to a quotient that is at most one in exact arithmetic.
-/

set_option linter.unusedSimpArgs false
set_option linter.unusedSectionVars false
set_option linter.unusedVariables false

namespace OpenMPCD.Particles.OrientRounded

open OpenMPCD.Decimal OpenMPCD.Collide.Rounded

/-! ## Model -/

/-- `numpy.dot` of two vectors; the pairs of components are listed in the order in which they are added. `rnd`: the rounding;
`fused`: whether multiplication and addition are one operation. -/
noncomputable def dot (rnd : ℝ → ℝ) (fused : Bool) (l : List (ℝ × ℝ)) : ℝ :=
  l.foldl (fun acc q => rnd (acc + if fused then q.1 * q.2 else rnd (q.1 * q.2))) 0

/-- `_getAngleBetweenLines` (`Analysis/MPCDAnalysis/ParticleCollection.py:615-622`): the number of which the `arccos` is taken;
`none`: the result is not a number. -/
noncomputable def cosine (rnd : ℝ → ℝ) (fused : Bool) (l : List (ℝ × ℝ)) : Option ℝ :=
  let d := dot rnd fused l
  let d := if d < 0 then d * -1 else d
  let len1Squared := dot rnd fused (l.map fun q => (q.1, q.1))
  let len2Squared := dot rnd fused (l.map fun q => (q.2, q.2))
  let root := rnd (Real.sqrt (rnd (len1Squared * len2Squared)))
  let c := rnd (d / root)
  if root = 0 ∨ c < -1 ∨ 1 < c then none else some c

/-! ## Specification -/

/-- An eigenvector as `numpy` returns it: of length one, but for rounding. -/
structure Normalized (p : ℕ) (emin emax : ℤ) (x y z : ℝ) : Prop where
  x_mem : x ∈ Bin p emin emax
  y_mem : y ∈ Bin p emin emax
  z_mem : z ∈ Bin p emin emax
  bounded : |x| ≤ 2 ∧ |y| ≤ 2 ∧ |z| ≤ 2
  large : 1 / 2 ≤ |x| ∨ 1 / 2 ≤ |y| ∨ 1 / 2 ≤ |z|

/-! ## The square root of the square -/

variable {p : ℕ} {emin emax : ℤ} {rnd : ℝ → ℝ}

/-- In binary floating-point arithmetic, the root of the square is not less than the number. -/
theorem sqrt_square (hp : 6 ≤ p) (hr : IsRounding p emin emax rnd) {x : ℝ} (hx : x ∈ Bin p emin emax) {k : ℤ}
    (h1 : (2 : ℝ) ^ k ≤ x) (h2 : x < 2 ^ (k + 1)) (h3 : emin ≤ 2 * k - p + 1) (h3' : emin ≤ k - p + 1) (h4 : 2 * k + 2 ≤ emax)
    (h4' : k + 1 ≤ emax) : x ≤ rnd (Real.sqrt (rnd (x * x))) := by
  have hk := two_zpow_pos k
  have hx0 : 0 < x := lt_of_lt_of_le hk h1
  rcases h1.eq_or_lt with h1 | h1
  · -- a power of two
    have hm : x * x ∈ Bin p emin emax := by
      refine ⟨1, 2 * k, by rw [abs_one]; exact one_lt_pow₀ (by norm_num) (by omega), by omega, by omega, ?_⟩
      rw [← h1, two_mul, zpow_add₀ (by norm_num)]; push_cast; ring
    rw [hr.eq_self hm, Real.sqrt_mul_self hx0.le, hr.eq_self hx]
  by_contra hc
  push Not at hc
  set s := rnd (x * x) with hs
  set w := rnd (Real.sqrt s) with hw
  set g : ℝ := 2 ^ (k - p + 1) with hg
  have hg0 : 0 < g := two_zpow_pos _
  have hX : (2 : ℝ) ^ (k + 1) = 2 * 2 ^ k := by rw [zpow_add_one₀ (by norm_num)]; ring
  have hgu : g = 2 ^ (-(p : ℤ)) * 2 ^ (k + 1) := by rw [hg, ← zpow_add₀ (by norm_num)]; congr 1; ring
  have hpm := pow_multiple (p := p) (by omega) k
  have hpm' : (2 : ℝ) ^ (k + 1) = ((2 ^ p : ℤ) : ℝ) * g := by
    push_cast; rw [hg, ← zpow_natCast, ← zpow_add₀ (by norm_num)]; congr 1; ring
  obtain ⟨m, hm⟩ := multiple hx (k := k) (by rw [abs_of_pos hx0]; exact h1.le)
  -- the neighbours of x
  have hx1 : (2 : ℝ) ^ k + g ≤ x := by
    rw [hm, hpm] at h1 ⊢
    have := sub_ge hg0 h1
    linarith
  have hx2 : x ≤ 2 ^ (k + 1) - g := by
    rw [hm, hpm'] at h2 ⊢
    exact sub_ge hg0 h2
  have hwx : w ≤ x - g := by
    by_cases hwk : w < 2 ^ k
    · linarith
    · push Not at hwk
      obtain ⟨m', hm'⟩ := multiple (hr.mem (Real.sqrt s)) (k := k) (hwk.trans (le_abs_self _))
      rw [← hw] at hm'
      rw [hm, hm'] at hc ⊢
      exact sub_ge hg0 hc
  have hnear := (hr (Real.sqrt s)).2 x hx
  rw [← hw] at hnear
  have hroot : Real.sqrt s ≤ x - g / 2 := by
    by_contra hcc
    push Not at hcc
    have : |Real.sqrt s - x| < |Real.sqrt s - w| := by
      rw [abs_of_pos (show 0 < Real.sqrt s - w by linarith), abs_lt]
      constructor <;> linarith
    linarith
  have hs0 : 0 ≤ s := by
    have := hr.ge_of_ge (zero_mem (p := p) (emin := emin) (emax := emax) (by omega)) (mul_self_nonneg x)
    exact this
  have hsq : s ≤ (x - g / 2) ^ 2 := by
    rw [← Real.sq_sqrt hs0]
    exact pow_le_pow_left₀ (Real.sqrt_nonneg s) hroot 2
  -- the error of the square
  have hu := two_zpow_pos (-(p : ℤ))
  have hu64 : (2 : ℝ) ^ (-(p : ℤ)) ≤ 1 / 64 := by
    calc (2 : ℝ) ^ (-(p : ℤ)) ≤ 2 ^ (-6 : ℤ) := zpow_le_zpow_right₀ (by norm_num) (by omega)
      _ = 1 / 64 := by norm_num
  have herr : x * x - s ≤ 2 ^ (-(p : ℤ)) * (x * x) := by
    have e2k : (2 : ℝ) ^ (2 * k) = 2 ^ k * 2 ^ k := by rw [two_mul, zpow_add₀ (by norm_num)]
    have hb1 : (2 : ℝ) ^ (2 * k) ≤ x * x := by
      rw [e2k]; exact mul_self_le_mul_self hk.le h1.le
    have hb2 : x * x < 4 * 2 ^ (2 * k) := by
      rw [e2k]
      have := mul_self_lt_mul_self hx0.le h2
      rw [hX] at this
      linarith
    by_cases hmid : x * x < 2 ^ (2 * k + 1)
    · have := Time.normal_error (by omega) hr (x := x * x) (k := 2 * k) (by rwa [abs_of_pos (by positivity)])
        (by rwa [abs_of_pos (by positivity)]) (by omega) (by omega)
      rw [abs_of_pos (show 0 < x * x by positivity)] at this
      linarith [(abs_le.1 this).1]
    · push Not at hmid
      have := Time.normal_error (by omega) hr (x := x * x) (k := 2 * k + 1) (by rwa [abs_of_pos (by positivity)])
        (by
          rw [abs_of_pos (by positivity), show 2 * k + 1 + 1 = 2 * k + 2 by ring, zpow_add₀ (by norm_num)]
          norm_num
          linarith) (by omega) (by omega)
      rw [abs_of_pos (show 0 < x * x by positivity)] at this
      linarith [(abs_le.1 this).1]
  set u : ℝ := 2 ^ (-(p : ℤ)) with hudef
  set X : ℝ := 2 ^ (k + 1) with hXdef
  have hX0 : 0 < X := two_zpow_pos _
  have hxX : X / 2 ≤ x := by linarith
  -- x (X - x) ≥ (X / 2) g, but at most g X / 4
  have k1 : x * g - g ^ 2 / 4 ≤ u * (x * x) := by nlinarith
  have k2 : X / 2 * g ≤ x * (X - x) := mul_le_mul hxX (by linarith) hg0.le hx0.le
  have k3 : u * (x * (X - x)) ≤ g ^ 2 / 4 := by
    have : u * (x * (X - x)) = x * g - u * (x * x) := by rw [hgu]; ring
    linarith
  have k4 : u * (X / 2 * g) ≤ g ^ 2 / 4 := (mul_le_mul_of_nonneg_left k2 hu.le).trans k3
  have k5 : u * (X / 2 * g) = g ^ 2 / 2 := by
    rw [show u * (X / 2 * g) = (u * X) * g / 2 by ring, ← hgu]; ring
  nlinarith [pow_pos hg0 2]

section
variable (ht : Type_ p emin emax) (hp : 6 ≤ p) (hr : IsRounding p emin emax rnd) (fused : Bool)
include ht hp hr

/-- The root of the square of a number between 1/2 and 2. -/
theorem sqrt_square_unit {x : ℝ} (hx : x ∈ Bin p emin emax) (h1 : 1 / 2 ≤ x) (h2 : x ≤ 2) : x ≤ rnd (Real.sqrt (rnd (x * x))) := by
  have hs := ht.small
  have hl := ht.large
  rcases lt_or_ge x 1 with h | h
  · exact sqrt_square hp hr hx (k := -1) (by norm_num; linarith) (by norm_num; linarith) (by omega) (by omega) (by omega) (by omega)
  rcases lt_or_ge x 2 with h' | h'
  · exact sqrt_square hp hr hx (k := 0) (by norm_num; linarith) (by norm_num; linarith) (by omega) (by omega) (by omega) (by omega)
  · have : x = 2 := le_antisymm h2 h'
    subst this
    exact sqrt_square hp hr hx (k := 1) (by norm_num) (by norm_num) (by omega) (by omega) (by omega) (by omega)

/-! ## Sums -/

theorem fold_zero (l : List (ℝ × ℝ)) (hl : ∀ q ∈ l, q.1 * q.2 = 0) {a : ℝ} (ha : a ∈ Bin p emin emax) :
    l.foldl (fun acc q => rnd (acc + if fused then q.1 * q.2 else rnd (q.1 * q.2))) a = a := by
  induction l with
  | nil => rfl
  | cons q l ih =>
    rw [List.foldl_cons, hl q (by simp)]
    have h0 := Stats.Rounded.rnd_zero ht hp hr
    have : (if fused = true then (0 : ℝ) else rnd 0) = 0 := by cases fused <;> simp [h0]
    rw [this, add_zero, hr.eq_self ha]
    exact ih fun q' hq' => hl q' (by simp [hq'])

/-- If one product only is not zero, there is no error. -/
theorem dot_single {l : List (ℝ × ℝ)} {a b : ℝ} {rest : List (ℝ × ℝ)} (hl : l.Perm ((a, b) :: rest))
    (hz : ∀ q ∈ rest, q.1 * q.2 = 0) (hab : a * b ∈ Bin p emin emax) : dot rnd fused l = a * b := by
  have hs := ht.small
  have hL := ht.large
  obtain ⟨l1, l2, rfl⟩ := List.append_of_mem (hl.mem_iff.2 (List.mem_cons_self))
  have hp' : (l1 ++ l2).Perm rest := (List.perm_cons _).1 ((List.perm_middle).symm.trans hl)
  unfold dot
  rw [List.foldl_append, fold_zero ht hp hr fused l1 (fun q hq => hz q (hp'.mem_iff.1 (by simp [hq]))) (zero_mem (by omega)),
    List.foldl_cons]
  have : (if fused = true then a * b else rnd (a * b)) = a * b := by cases fused <;> simp [hr.eq_self hab]
  rw [this, zero_add, hr.eq_self hab]
  exact fold_zero ht hp hr fused l2 (fun q hq => hz q (hp'.mem_iff.1 (by simp [hq]))) hab

theorem fold_squares (l : List (ℝ × ℝ)) {a : ℝ} (ha : a ∈ Bin p emin emax) (h0 : 0 ≤ a) :
    let r := (l.map fun q => (q.1, q.1)).foldl (fun acc q => rnd (acc + if fused then q.1 * q.2 else rnd (q.1 * q.2))) a
    r ∈ Bin p emin emax ∧ a ≤ r ∧ ∀ q ∈ l, rnd (q.1 * q.1) ≤ r := by
  induction l generalizing a with
  | nil => exact ⟨ha, le_rfl, by simp⟩
  | cons q l ih =>
    rw [List.map_cons, List.foldl_cons]
    have hn := Stats.Rounded.rnd_nonneg ht hp hr (mul_self_nonneg q.1)
    have hge : 0 ≤ (if fused = true then q.1 * q.1 else rnd (q.1 * q.1)) := by
      cases fused
      · simpa using hn
      · simpa using mul_self_nonneg q.1
    have h1 : a ≤ rnd (a + if fused = true then q.1 * q.1 else rnd (q.1 * q.1)) := hr.ge_of_ge ha (by linarith)
    have h2 : rnd (q.1 * q.1) ≤ rnd (a + if fused = true then q.1 * q.1 else rnd (q.1 * q.1)) := by
      cases fused
      · exact hr.ge_of_ge (hr.mem _) (by simpa using h0)
      · exact hr.mono (by simpa using h0)
    obtain ⟨i1, i2, i3⟩ := ih (hr.mem _) (h0.trans h1)
    refine ⟨i1, h1.trans i2, fun q' hq' => ?_⟩
    rcases List.mem_cons.1 hq' with rfl | hq'
    · exact h2.trans i2
    · exact i3 q' hq'

theorem dot_squares (l : List (ℝ × ℝ)) : dot rnd fused (l.map fun q => (q.1, q.1)) ∈ Bin p emin emax ∧
    0 ≤ dot rnd fused (l.map fun q => (q.1, q.1)) ∧ ∀ q ∈ l, rnd (q.1 * q.1) ≤ dot rnd fused (l.map fun q => (q.1, q.1)) := by
  have hs := ht.small
  have hl := ht.large
  exact fold_squares ht hp hr fused l (zero_mem (by omega)) le_rfl

/-! ## The angle with the direction of flow -/

/-- C132: with rounding, too, there is an angle between the eigenvectors and the direction of flow the analysis uses, `[1, 0, 0]`:
the quotient is between 0 and 1, in whichever order the components are added. -/
theorem C132_flow {x y z : ℝ} (hn : Normalized p emin emax x y z) {l : List (ℝ × ℝ)} (hl : l.Perm [(x, 1), (y, 0), (z, 0)]) :
    ∃ c, cosine rnd fused l = some c ∧ 0 ≤ c ∧ c ≤ 1 := by
  have hs := ht.small
  have hL := ht.large
  obtain ⟨hx, hy, hz, hb, hlarge⟩ := hn
  have one_mem : (1 : ℝ) ∈ Bin p emin emax := by
    have := int_mem (p := p) (emin := emin) (emax := emax) (by omega) (by omega) (by omega) (n := 1)
      (by rw [abs_one]; exact one_le_pow₀ (by norm_num))
    simpa using this
  have half_mem : (1 / 2 : ℝ) ∈ Bin p emin emax :=
    ⟨1, -1, by rw [abs_one]; exact one_lt_pow₀ (by norm_num) (by omega), by omega, by omega, by norm_num⟩
  have quarter_mem : (1 / 4 : ℝ) ∈ Bin p emin emax :=
    ⟨1, -2, by rw [abs_one]; exact one_lt_pow₀ (by norm_num) (by omega), by omega, by omega, by norm_num⟩
  have hd : dot rnd fused l = x := by
    rw [dot_single ht hp hr fused hl (by simp) (by simpa using hx), mul_one]
  have h2 : dot rnd fused (l.map fun q => (q.2, q.2)) = 1 := by
    rw [dot_single ht hp hr fused (hl.map fun q => (q.2, q.2)) (by simp) (by simpa using one_mem), mul_one]
  obtain ⟨m1, n1, b1⟩ := dot_squares ht hp hr fused l
  have habs : (if x < 0 then x * -1 else x) = |x| := by
    split
    · rename_i h; rw [abs_of_neg h]; ring
    · rename_i h; rw [abs_of_nonneg (not_lt.1 h)]
  simp only [cosine, hd, h2, mul_one, habs, hr.eq_self m1]
  set len := dot rnd fused (l.map fun q => (q.1, q.1)) with hlen
  set root := rnd (Real.sqrt len) with hroot
  have hge : ∀ q ∈ l, rnd (Real.sqrt (rnd (q.1 * q.1))) ≤ root := fun q hq => hr.mono (Real.sqrt_le_sqrt (b1 q hq))
  have habsmem : |x| ∈ Bin p emin emax := by
    rcases abs_choice x with h | h <;> rw [h]
    · exact hx
    · exact Time.neg_mem hx
  have hbig : ∀ q ∈ l, 1 / 2 ≤ |q.1| → 1 / 2 ≤ root := by
    intro q hq h
    have e1 : (1 / 4 : ℝ) ≤ q.1 * q.1 := by
      rw [← abs_mul_abs_self q.1]; nlinarith
    have e2 : (1 / 4 : ℝ) ≤ rnd (q.1 * q.1) := hr.ge_of_ge quarter_mem e1
    have e3 : (1 / 2 : ℝ) ≤ Real.sqrt (rnd (q.1 * q.1)) := Real.le_sqrt_of_sq_le (by norm_num; linarith)
    exact (hr.ge_of_ge half_mem e3).trans (hge q hq)
  have hhalf : 1 / 2 ≤ root := by
    rcases hlarge with h | h | h
    · exact hbig (x, 1) (hl.mem_iff.2 (by simp)) h
    · exact hbig (y, 0) (hl.mem_iff.2 (by simp)) h
    · exact hbig (z, 0) (hl.mem_iff.2 (by simp)) h
  have hxr : |x| ≤ root := by
    by_cases h : 1 / 2 ≤ |x|
    · refine (sqrt_square_unit ht hp hr habsmem h hb.1).trans ?_
      rw [abs_mul_abs_self]
      exact hge (x, 1) (hl.mem_iff.2 (by simp))
    · linarith
  have hr0 : 0 < root := by linarith
  have c0 : 0 ≤ rnd (|x| / root) := Stats.Rounded.rnd_nonneg ht hp hr (by positivity)
  have c1 : rnd (|x| / root) ≤ 1 := hr.le_of_le one_mem ((div_le_one hr0).2 hxr)
  exact ⟨_, if_neg (by push Not; exact ⟨hr0.ne', by linarith, c1⟩), c0, c1⟩

end

/-! ## Other directions -/

theorem round_to {emin emax : ℤ} (hr : IsRounding 53 emin emax rnd) {x : ℝ} (m k : ℤ) (h1 : 2 ^ 52 < m) (h2 : m < 2 ^ 53)
    (hk : emin ≤ k ∧ k ≤ emax) (hx : |x - m * 2 ^ k| < 2 ^ k / 2) : rnd x = m * 2 ^ k := by
  have hk0 := two_zpow_pos k
  refine Stats.Rounded.rnd_eq hr ⟨m, k, by rw [abs_of_pos (by omega)]; exact_mod_cast h2, hk.1, hk.2, rfl⟩ fun w hw h => ?_
  have e1 : |w - m * 2 ^ k| < 2 ^ k := by
    have := abs_sub_le w x (m * 2 ^ k)
    rw [abs_sub_comm w x] at this
    linarith
  have hm : ((2 : ℝ) ^ 52 + 1) * 2 ^ k ≤ m * 2 ^ k := by
    refine mul_le_mul_of_nonneg_right ?_ hk0.le
    exact_mod_cast (show 2 ^ 52 + 1 ≤ m by omega)
  obtain ⟨m', hm'⟩ := Stats.Rounded.multiple_of_le (k := k) hw (by
    have : (2 : ℝ) ^ (k + (53 : ℕ) - 1) = 2 ^ 52 * 2 ^ k := by
      rw [show k + ((53 : ℕ) : ℤ) - 1 = (52 : ℕ) + k by push_cast; ring, zpow_add₀ (by norm_num), zpow_natCast]
    rw [this]
    have := (abs_lt.1 e1).1
    linarith)
  rw [hm'] at e1 ⊢
  rw [← sub_mul, abs_mul, abs_of_pos hk0] at e1
  have e2 : |(m' : ℝ) - m| < 1 := by
    have := lt_of_mul_lt_mul_right (e1.trans_eq (one_mul _).symm) hk0.le
    exact this
  have e3 : |m' - m| < 1 := by exact_mod_cast e2
  have : m' - m = 0 := Int.abs_lt_one_iff.1 e3
  rw [show m' = m by omega]

/-- The x component of the unit vector along `[2, 1, 0]`, in double precision, halved. -/
noncomputable def h : ℝ := 8056283928194521 * 2 ^ (-54 : ℤ)

/-- C132: with an axis other than the direction of flow, the result may not be a number: here, the eigenvector is the axis `[2, 1, 0]`
normalized, in double precision, and the quotient is greater than one. -/
theorem C132_axis_violated (fused : Bool) {emin emax : ℤ} (ht : Type_ 53 emin emax) (he : emin ≤ -55)
    (hr : IsRounding 53 emin emax rnd) :
    Normalized 53 emin emax (2 * h) h 0 ∧ rnd (2 / rnd (Real.sqrt 5)) = 2 * h ∧ rnd (1 / rnd (Real.sqrt 5)) = h ∧
      cosine rnd fused [(2 * h, 2), (h, 1), (0, 0)] = none := by
  have hs := ht.small
  have hl := ht.large
  push_cast at hs hl
  have z54 : (2 : ℝ) ^ (-54 : ℤ) = 1 / 2 ^ 54 := by norm_num
  have hpos : 0 < h := by unfold h; positivity
  have hval : h = 8056283928194521 / 2 ^ 54 := by unfold h; rw [z54]; ring
  have hmem : h ∈ Bin 53 emin emax := ⟨8056283928194521, -54, by norm_num, by omega, by omega, by unfold h; norm_num⟩
  have h2mem : 2 * h ∈ Bin 53 emin emax :=
    ⟨8056283928194521, -53, by norm_num, by omega, by omega, by rw [hval]; norm_num⟩
  have h4mem : 4 * h ∈ Bin 53 emin emax :=
    ⟨8056283928194521, -52, by norm_num, by omega, by omega, by rw [hval]; norm_num⟩
  have r0 := Stats.Rounded.rnd_zero ht (by norm_num) hr
  have s5l : (2.2360679774997896 : ℝ) < Real.sqrt 5 := Real.lt_sqrt_of_sq_lt (by norm_num)
  have s5u : Real.sqrt 5 < 2.2360679774997897 := (Real.sqrt_lt' (by norm_num)).2 (by norm_num)
  have r5 : rnd (Real.sqrt 5) = ((5035177455121576 : ℤ) : ℝ) * 2 ^ (-51 : ℤ) := by
    refine round_to hr _ _ (by norm_num) (by norm_num) ⟨by omega, by omega⟩ ?_
    rw [abs_lt]
    norm_num
    constructor <;> linarith
  refine ⟨⟨h2mem, hmem, zero_mem (by omega), ⟨?_, ?_, by simp⟩, .inl ?_⟩, ?_, ?_, ?_⟩
  · rw [abs_of_pos (by positivity), hval]; norm_num
  · rw [abs_of_pos hpos, hval]; norm_num
  · rw [abs_of_pos (by positivity), hval]; norm_num
  · rw [r5, round_to hr 8056283928194521 (-53) (by norm_num) (by norm_num) ⟨by omega, by omega⟩ (by rw [abs_lt]; norm_num), hval]
    norm_num
  · rw [r5, round_to hr 8056283928194521 (-54) (by norm_num) (by norm_num) ⟨by omega, by omega⟩ (by rw [abs_lt]; norm_num), hval]
    norm_num
  · have a1 : rnd (4 * (h * h)) = ((7205759403792793 : ℤ) : ℝ) * 2 ^ (-53 : ℤ) :=
      round_to hr _ _ (by norm_num) (by norm_num) ⟨by omega, by omega⟩ (by rw [hval, abs_lt]; norm_num)
    have a2 : rnd (h * h) = ((7205759403792793 : ℤ) : ℝ) * 2 ^ (-55 : ℤ) :=
      round_to hr _ _ (by norm_num) (by norm_num) ⟨by omega, by omega⟩ (by rw [hval, abs_lt]; norm_num)
    have lmem : (((2 : ℝ) ^ 53 - 1) * 2 ^ (-53 : ℤ)) ∈ Bin 53 emin emax :=
      ⟨2 ^ 53 - 1, -53, by norm_num, by omega, by omega, by norm_num⟩
    have dmem : ((5035177455121576 : ℤ) : ℝ) * 2 ^ (-51 : ℤ) ∈ Bin 53 emin emax :=
      ⟨_, _, by norm_num, by omega, by omega, rfl⟩
    have hdot : dot rnd fused [(2 * h, 2), (h, 1), (0, 0)] = ((5035177455121576 : ℤ) : ℝ) * 2 ^ (-51 : ℤ) := by
      have e1 : rnd (2 * h * 2) = 4 * h := by rw [show 2 * h * 2 = 4 * h by ring, hr.eq_self h4mem]
      have e2 : rnd (4 * h + h) = ((5035177455121576 : ℤ) : ℝ) * 2 ^ (-51 : ℤ) :=
        round_to hr _ _ (by norm_num) (by norm_num) ⟨by omega, by omega⟩ (by rw [hval, abs_lt]; norm_num)
      have e3 : rnd (((5035177455121576 : ℤ) : ℝ) * 2 ^ (-51 : ℤ)) = _ := hr.eq_self dmem
      cases fused
      · simp only [dot, List.foldl_cons, List.foldl_nil, Bool.false_eq_true, if_false, zero_add, e1, mul_one, hr.eq_self hmem,
          hr.eq_self h4mem, e2, mul_zero, r0, add_zero, e3]
      · simp only [dot, List.foldl_cons, List.foldl_nil, if_true, zero_add, e1, mul_one, hr.eq_self hmem, hr.eq_self h4mem, e2,
          mul_zero, r0, add_zero, e3]
    have hlen1 : dot rnd fused [(2 * h, 2 * h), (h, h), (0, 0)] = ((2 : ℝ) ^ 53 - 1) * 2 ^ (-53 : ℤ) := by
      have e1 : rnd (2 * h * (2 * h)) = ((7205759403792793 : ℤ) : ℝ) * 2 ^ (-53 : ℤ) := by
        rw [show 2 * h * (2 * h) = 4 * (h * h) by ring, a1]
      have e1' : rnd (((7205759403792793 : ℤ) : ℝ) * 2 ^ (-53 : ℤ)) = ((7205759403792793 : ℤ) : ℝ) * 2 ^ (-53 : ℤ) :=
        hr.eq_self ⟨_, _, by norm_num, by omega, by omega, rfl⟩
      have e2 : rnd (((7205759403792793 : ℤ) : ℝ) * 2 ^ (-53 : ℤ) + ((7205759403792793 : ℤ) : ℝ) * 2 ^ (-55 : ℤ)) =
          ((2 : ℝ) ^ 53 - 1) * 2 ^ (-53 : ℤ) := by
        rw [round_to hr (2 ^ 53 - 1) (-53) (by norm_num) (by norm_num) ⟨by omega, by omega⟩ (by rw [abs_lt]; norm_num)]
        norm_num
      have e2' : rnd (((7205759403792793 : ℤ) : ℝ) * 2 ^ (-53 : ℤ) + h * h) = ((2 : ℝ) ^ 53 - 1) * 2 ^ (-53 : ℤ) := by
        rw [round_to hr (2 ^ 53 - 1) (-53) (by norm_num) (by norm_num) ⟨by omega, by omega⟩ (by rw [hval, abs_lt]; norm_num)]
        norm_num
      cases fused
      · simp only [dot, List.foldl_cons, List.foldl_nil, Bool.false_eq_true, if_false, zero_add, e1, e1', a2, e2, mul_zero, r0,
          add_zero, hr.eq_self lmem]
      · simp only [dot, List.foldl_cons, List.foldl_nil, if_true, zero_add, e1, e2', mul_zero, add_zero, hr.eq_self lmem]
    have hlen2 : dot rnd fused [((2 : ℝ), (2 : ℝ)), (1, 1), (0, 0)] = 5 := by
      have k4 : rnd 4 = 4 := by simpa using Stats.Rounded.rnd_nat ht (by norm_num) hr (n := 4) (by norm_num)
      have k1 : rnd 1 = 1 := by simpa using Stats.Rounded.rnd_nat ht (by norm_num) hr (n := 1) (by norm_num)
      have k5 : rnd 5 = 5 := by simpa using Stats.Rounded.rnd_nat ht (by norm_num) hr (n := 5) (by norm_num)
      have f4 : (2 : ℝ) * 2 = 4 := by norm_num
      have f5 : (4 : ℝ) + 1 = 5 := by norm_num
      cases fused <;> simp only [dot, List.foldl_cons, List.foldl_nil, Bool.false_eq_true, if_false, if_true, zero_add, f4, k4,
        mul_one, k1, f5, k5, mul_zero, r0, add_zero]
    have hq : rnd (((2 : ℝ) ^ 53 - 1) * 2 ^ (-53 : ℤ) * 5) = ((5629499534213119 : ℤ) : ℝ) * 2 ^ (-50 : ℤ) :=
      round_to hr _ _ (by norm_num) (by norm_num) ⟨by omega, by omega⟩ (by rw [abs_lt]; norm_num)
    have hroot : rnd (Real.sqrt (((5629499534213119 : ℤ) : ℝ) * 2 ^ (-50 : ℤ))) = ((5035177455121575 : ℤ) : ℝ) * 2 ^ (-51 : ℤ) := by
      have b1 : (5035177455121575.3 : ℝ) * 2 ^ (-51 : ℤ) < Real.sqrt (((5629499534213119 : ℤ) : ℝ) * 2 ^ (-50 : ℤ)) :=
        Real.lt_sqrt_of_sq_lt (by norm_num)
      have b2 : Real.sqrt (((5629499534213119 : ℤ) : ℝ) * 2 ^ (-50 : ℤ)) < (5035177455121575.4 : ℝ) * 2 ^ (-51 : ℤ) :=
        (Real.sqrt_lt' (by norm_num)).2 (by norm_num)
      refine round_to hr _ _ (by norm_num) (by norm_num) ⟨by omega, by omega⟩ ?_
      set r := Real.sqrt (((5629499534213119 : ℤ) : ℝ) * 2 ^ (-50 : ℤ))
      rw [abs_lt]
      norm_num at b1 b2 ⊢
      constructor <;> linarith
    have hc : 1 < rnd (((5035177455121576 : ℤ) : ℝ) * 2 ^ (-51 : ℤ) / (((5035177455121575 : ℤ) : ℝ) * 2 ^ (-51 : ℤ))) := by
      rw [round_to hr (2 ^ 52 + 1) (-52) (by norm_num) (by norm_num) ⟨by omega, by omega⟩ (by rw [abs_lt]; norm_num)]
      norm_num
    simp only [cosine, hdot, List.map_cons, List.map_nil, hlen1, hlen2, hq, hroot]
    have hneg : ¬((5035177455121576 : ℤ) : ℝ) * 2 ^ (-51 : ℤ) < 0 := by norm_num
    rw [if_neg hneg, if_pos (Or.inr (Or.inr hc))]

/-- The hypotheses of `C132_flow` are met by the vector above, and there are roundings. -/
example : ∃ rnd : ℝ → ℝ, IsRounding 53 (-1074) 971 rnd ∧ Type_ 53 (-1074) 971 ∧ Normalized 53 (-1074) 971 (2 * h) h 0 := by
  obtain ⟨rnd, hr⟩ := exists_isRounding (p := 53) (emin := -1074) (emax := 971) (by norm_num)
  have ht : Type_ 53 (-1074) 971 := ⟨by norm_num, by norm_num, by norm_num⟩
  exact ⟨rnd, hr, ht, (C132_axis_violated true ht (by norm_num) hr).1⟩

end OpenMPCD.Particles.OrientRounded
