import Verif.Collide.Drift
import Mathlib.Algebra.BigOperators.Group.Finset.Basic

/-!
# Momentum of star polymers under floating-point rounding (C133)

C32 is for exact numbers. Here every operation may have an error, as it has in floating-point arithmetic. What the forces are does
not matter.
-/

set_option linter.unusedSectionVars false
set_option linter.unusedSimpArgs false
set_option linter.unusedVariables false

namespace OpenMPCD.Star.Rounded

open OpenMPCD.Collide.Drift OpenMPCD.Decimal OpenMPCD.Collide.Rounded

/-! ## Model -/

/-- What is added to a component of the force on particle `i` (`src/OpenMPCD/CUDA/MPCSolute/StarPolymers.cu:118-130`), `φ a b`
being that component of the force on particle `a` due to particle `b`, as computed for `a < b`. -/
def contributions (N : ℕ) (φ : ℕ → ℕ → ℝ) (i : ℕ) : List ℝ :=
  ((List.range N).filter fun j => j ≠ i).map fun j => if i < j then φ i j else -φ j i

/-- What a component of the force on particle `i` may be, atomic additions taking place in any order, starting with zero
(`src/OpenMPCD/CUDA/MPCSolute/StarPolymers.cu:324-352`). -/
def Force (F : Accuracy) (N : ℕ) (φ : ℕ → ℕ → ℝ) (i : ℕ) (f : ℝ) : Prop :=
  ∃ l : List ℝ, l.Perm (contributions N φ i) ∧ Adds (NearSum F) 0 l f

/-- What a component of a velocity may be after `velocityVerletKernel2` (`src/OpenMPCD/CUDA/MPCSolute/StarPolymers.cu:181-186`) with
`velocityVerletStep2` (`cudaDeviceCode/OpenMPCD/CUDA/DeviceCode/VelocityVerlet.cu:12-20`). -/
def NewVelocity (F : Accuracy) (mass timestep f1 f2 v v' : ℝ) : Prop :=
  ∃ oldAcceleration newAcceleration sum half p, Near F (f1 / mass) oldAcceleration ∧ Near F (f2 / mass) newAcceleration ∧
    Near F (oldAcceleration + newAcceleration) sum ∧ Near F (0.5 * timestep) half ∧ Near F (half * sum) p ∧ Near F (v + p) v'

/-- The velocities `v'` may result from `v` by `performMDTimestep` (`src/OpenMPCD/CUDA/MPCSolute/StarPolymers.cu:315-410`), with `N`
particles; `φ k a b`: component `k` of the force on `a` due to `b` at first, `ψ k a b`: after the positions have been changed. -/
def Step (F : Accuracy) (N : ℕ) (mass timestep : ℝ) (φ ψ : ℕ → ℕ → ℕ → ℝ) (v v' : ℕ → ℝ) : Prop :=
  ∀ i < N, ∀ k < 3, ∃ f1 f2, Force F N (φ k) i f1 ∧ Force F N (ψ k) i f2 ∧
    NewVelocity F mass timestep f1 f2 (v (i * 3 + k)) (v' (i * 3 + k))

/-- The same as a function, every operation being rounded on its own; `order k i`: the order in which forces on particle `i` are
added. -/
noncomputable def step (rnd : ℝ → ℝ) (N : ℕ) (mass timestep : ℝ) (order1 order2 : ℕ → ℕ → List ℝ) (v : ℕ → ℝ) (c : ℕ) : ℝ :=
  let f1 := total rnd (order1 (c % 3) (c / 3))
  let f2 := total rnd (order2 (c % 3) (c / 3))
  rnd (v c + rnd (rnd (0.5 * timestep) * rnd (rnd (f1 / mass) + rnd (f2 / mass))))

/-! ## Specification -/

/-- Component `k` of the total momentum. -/
def momentum (N : ℕ) (mass : ℝ) (v : ℕ → ℝ) (k : ℕ) : ℝ := ∑ i ∈ Finset.range N, mass * v (i * 3 + k)

/-- When the numbers are such that no operation overflows, and the bounds are not tiny. `V`: no component of a velocity is larger;
`T`: on no particle, the magnitudes of the forces due to the others add up to more. -/
structure Ordinary (F : Accuracy) (N : ℕ) (mass timestep V T : ℝ) (φ ψ : ℕ → ℕ → ℕ → ℝ) (v : ℕ → ℝ) : Prop where
  u : 0 ≤ F.u
  η : 0 ≤ F.η
  mass_pos : 0 < mass
  timestep_pos : 0 < timestep
  few : N * F.u ≤ 1 / 64
  velocities : ∀ i < N, ∀ k < 3, |v (i * 3 + k)| ≤ V
  forces : ∀ i < N, ∀ k < 3, ((contributions N (φ k) i).map abs).sum ≤ T
  forces' : ∀ i < N, ∀ k < 3, ((contributions N (ψ k) i).map abs).sum ≤ T
  tiny : F.η ≤ F.u * (T / mass)
  tiny' : F.η ≤ F.u * timestep
  tiny'' : F.η ≤ F.u * (V + timestep * (T / mass))
  large : 2 * T ≤ F.B
  large' : 3 * (T / mass) ≤ F.B
  large'' : timestep ≤ F.B
  large''' : 2 * V + 4 * (timestep * (T / mass)) ≤ F.B

/-! ## Forces -/

theorem contributions_sum (N : ℕ) (φ : ℕ → ℕ → ℝ) (i : ℕ) : (contributions N φ i).sum =
    ∑ j ∈ Finset.range N, if i < j then φ i j else if j < i then -φ j i else 0 := by
  unfold contributions
  rw [← List.sum_toFinset]
  · rw [List.toFinset_filter, List.toFinset_range, Finset.sum_filter]
    refine Finset.sum_congr rfl fun j _ => ?_
    rcases lt_trichotomy i j with h | h | h
    · simp [h, h.ne']
    · simp [h]
    · simp [h, h.ne, h.not_gt]
  · exact List.nodup_range.filter _

/-- Forces on particles add up to zero, if exactly added. -/
theorem contributions_total (N : ℕ) (φ : ℕ → ℕ → ℝ) : ∑ i ∈ Finset.range N, (contributions N φ i).sum = 0 := by
  simp only [contributions_sum]
  set g : ℕ → ℕ → ℝ := fun i j => if i < j then φ i j else if j < i then -φ j i else 0 with hg
  have anti : ∀ i j, g i j = -g j i := by
    intro i j
    simp only [hg]
    rcases lt_trichotomy i j with h | h | h
    · simp [h, h.not_gt]
    · simp [h]
    · simp [h, h.not_gt]
  have h1 : ∑ i ∈ Finset.range N, ∑ j ∈ Finset.range N, g i j = -∑ i ∈ Finset.range N, ∑ j ∈ Finset.range N, g i j := by
    conv_lhs => rw [Finset.sum_comm]
    rw [← Finset.sum_neg_distrib]
    refine Finset.sum_congr rfl fun i _ => ?_
    rw [← Finset.sum_neg_distrib]
    exact Finset.sum_congr rfl fun j _ => anti j i
  linarith

theorem contributions_length (N : ℕ) (φ : ℕ → ℕ → ℝ) {i : ℕ} : (contributions N φ i).length ≤ N := by
  unfold contributions
  rw [List.length_map]
  exact (List.length_filter_le _ _).trans (by simp)

theorem force_error {F : Accuracy} {N : ℕ} {φ : ℕ → ℕ → ℝ} {i : ℕ} {f T : ℝ} (hu : 0 ≤ F.u) (hN : N * F.u ≤ 1 / 64)
    (hT : ((contributions N φ i).map abs).sum ≤ T) (hB : 2 * T ≤ F.B) (h : Force F N φ i f) :
    |f - (contributions N φ i).sum| ≤ 2 * (N * F.u * T) ∧ |(contributions N φ i).sum| ≤ T := by
  obtain ⟨l, hl, ha⟩ := h
  have hT0 : 0 ≤ T := (List.sum_nonneg (by simp)).trans hT
  have hlen : (l.length : ℝ) ≤ N := by
    rw [hl.length_eq]; exact_mod_cast contributions_length N φ
  have e1 : (l.length : ℝ) * F.u ≤ N * F.u := mul_le_mul_of_nonneg_right hlen hu
  have e2 : (l.length : ℝ) * (F.u * T + 0) ≤ N * F.u * T := by
    have := mul_le_mul_of_nonneg_right e1 hT0
    linarith
  have e3 : N * F.u * T ≤ 1 / 64 * T := mul_le_mul_of_nonneg_right hN hT0
  have hs := adds_sum (R := NearSum F) (u := F.u) (η := 0) (B := F.B) (T := T) (qs := l)
    (fun x y h hx => by simpa using h hx) hu le_rfl (by linarith) (by rw [(hl.map abs).sum_eq]; exact hT) (by linarith) ha
  rw [hl.sum_eq] at hs
  refine ⟨by linarith, ?_⟩
  refine le_trans ?_ hT
  generalize contributions N φ i = c
  induction c with
  | nil => simp
  | cons x c ih =>
    simp only [List.sum_cons, List.map_cons]
    exact (abs_add_le _ _).trans (by linarith)

/-! ## Velocities -/

theorem velocity_error {F : Accuracy} {n mass timestep V T f1 f2 S1 S2 v v' : ℝ} (hu : 0 ≤ F.u) (hη : 0 ≤ F.η) (hm : 0 < mass)
    (ht : 0 < timestep) (hn1 : 1 ≤ n) (hn : n * F.u ≤ 1 / 64) (hv : |v| ≤ V) (hT : 0 ≤ T) (h1 : |f1 - S1| ≤ 2 * (n * F.u * T))
    (h2 : |f2 - S2| ≤ 2 * (n * F.u * T)) (hS1 : |S1| ≤ T) (hS2 : |S2| ≤ T) (t1 : F.η ≤ F.u * (T / mass)) (t2 : F.η ≤ F.u * timestep)
    (t3 : F.η ≤ F.u * (V + timestep * (T / mass))) (b1 : 3 * (T / mass) ≤ F.B) (b2 : timestep ≤ F.B)
    (b3 : 2 * V + 4 * (timestep * (T / mass)) ≤ F.B) (h : NewVelocity F mass timestep f1 f2 v v') :
    |v' - (v + timestep / 2 * ((S1 + S2) / mass))| ≤ F.u * (4 * V + 16 * n * (timestep * (T / mass))) := by
  obtain ⟨a1, a2, s, half, p, ha1, ha2, hs, hh, hp, hv'⟩ := h
  set A := T / mass with hA
  have hA0 : 0 ≤ A := by positivity
  have hu64 : F.u ≤ 1 / 64 := by nlinarith
  set q := n * F.u with hq
  have hq0 : 0 ≤ q := by positivity
  have huq : F.u ≤ q := le_mul_of_one_le_left hu hn1
  -- accelerations
  have acc : ∀ {f S a : ℝ}, |f - S| ≤ 2 * (q * T) → |S| ≤ T → Near F (f / mass) a → |a - S / mass| ≤ 4 * (q * A) + F.η ∧ |S / mass| ≤ A := by
    intro f S a hf hS ha
    have e1 : |f / mass - S / mass| ≤ 2 * (q * A) := by
      rw [← sub_div, abs_div, abs_of_pos hm, div_le_iff₀ hm, hA]
      refine hf.trans (le_of_eq ?_)
      field_simp
    have e2 : |S / mass| ≤ A := by
      rw [abs_div, abs_of_pos hm, hA]; exact div_le_div_of_nonneg_right hS hm.le
    have e3 : |f / mass| ≤ 2 * A := by
      have := abs_add_le (f / mass - S / mass) (S / mass)
      rw [sub_add_cancel] at this
      have : q * A ≤ 1 / 64 * A := mul_le_mul_of_nonneg_right hn hA0
      linarith
    have e4 := ha (by linarith)
    have e5 : F.u * |f / mass| ≤ 2 * (q * A) := by
      have := mul_le_mul huq e3 (abs_nonneg _) hq0
      linarith
    refine ⟨?_, e2⟩
    have := abs_add_le (a - f / mass) (f / mass - S / mass)
    rw [sub_add_sub_cancel] at this
    linarith
  obtain ⟨x1, y1⟩ := acc h1 hS1 ha1
  obtain ⟨x2, y2⟩ := acc h2 hS2 ha2
  have qA : q * A ≤ 1 / 64 * A := mul_le_mul_of_nonneg_right hn hA0
  have uA : F.u * A ≤ 1 / 64 * A := mul_le_mul_of_nonneg_right hu64 hA0
  have uqA : F.u * A ≤ q * A := mul_le_mul_of_nonneg_right huq hA0
  have qA0 : 0 ≤ q * A := by positivity
  have z0 : |a1 + a2 - (S1 + S2) / mass| ≤ 8 * (q * A) + 2 * F.η := by
    rw [add_div, show a1 + a2 - (S1 / mass + S2 / mass) = (a1 - S1 / mass) + (a2 - S2 / mass) by ring]
    exact (abs_add_le' x1 x2).trans (by linarith)
  have z1 : |(S1 + S2) / mass| ≤ 2 * A := by
    rw [add_div]; exact (abs_add_le' y1 y2).trans (by linarith)
  have z2 : |a1 + a2| ≤ 5 / 2 * A := by
    have := abs_add_le (a1 + a2 - (S1 + S2) / mass) ((S1 + S2) / mass)
    rw [sub_add_cancel] at this
    linarith
  have z3 := hs (by linarith)
  have z4 : F.u * |a1 + a2| ≤ 5 / 2 * (q * A) := by
    have := mul_le_mul huq z2 (abs_nonneg _) hq0
    linarith
  have z5 : |s - (S1 + S2) / mass| ≤ 14 * (q * A) := by
    have := abs_add_le (s - (a1 + a2)) (a1 + a2 - (S1 + S2) / mass)
    rw [sub_add_sub_cancel] at this
    linarith
  have z6 : |s| ≤ 3 * A := by
    have := abs_add_le (s - (S1 + S2) / mass) ((S1 + S2) / mass)
    rw [sub_add_cancel] at this
    linarith
  -- the half of the time step
  have hd0 : |0.5 * timestep| = timestep / 2 := by
    rw [abs_of_pos (by linarith)]; ring
  have w1 := hh (by rw [hd0]; linarith)
  rw [hd0] at w1
  have w2 : |half - timestep / 2| ≤ 3 / 2 * (F.u * timestep) := by
    rw [show half - timestep / 2 = half - 0.5 * timestep by ring]
    linarith
  set W := timestep * A with hW
  have hW0 : 0 ≤ W := by positivity
  have qW : q * W ≤ 1 / 64 * W := mul_le_mul_of_nonneg_right hn hW0
  have uW : F.u * W ≤ q * W := mul_le_mul_of_nonneg_right huq hW0
  have w3 : |half * s - timestep / 2 * ((S1 + S2) / mass)| ≤ 23 / 2 * (q * W) := by
    rw [show half * s - timestep / 2 * ((S1 + S2) / mass) = (half - timestep / 2) * s + timestep / 2 * (s - (S1 + S2) / mass) by ring]
    have e1 := abs_mul_le w2 z6
    have e2 := abs_mul_le (le_of_eq (abs_of_pos (by linarith : 0 < timestep / 2))) z5
    refine (abs_add_le' e1 e2).trans ?_
    have : 3 / 2 * (F.u * timestep) * (3 * A) + timestep / 2 * (14 * (q * A)) = 9 / 2 * (F.u * W) + 7 * (q * W) := by
      rw [hW]; ring
    rw [this]; linarith
  have w4 : |timestep / 2 * ((S1 + S2) / mass)| ≤ W := by
    refine (abs_mul_le (le_of_eq (abs_of_pos (by linarith : 0 < timestep / 2))) z1).trans (le_of_eq ?_)
    rw [hW]; ring
  have w5 : |half * s| ≤ 5 / 4 * W := by
    have := abs_add_le (half * s - timestep / 2 * ((S1 + S2) / mass)) (timestep / 2 * ((S1 + S2) / mass))
    rw [sub_add_cancel] at this
    linarith
  have hV0 : 0 ≤ V := (abs_nonneg _).trans hv
  have w6 := hp (by linarith)
  have w7 : F.u * |half * s| ≤ 5 / 4 * (q * W) := by
    have := mul_le_mul huq w5 (abs_nonneg _) hq0
    linarith
  have uV0 : 0 ≤ F.u * V := by positivity
  have uV : F.u * V ≤ 1 / 64 * V := mul_le_mul_of_nonneg_right hu64 hV0
  have ηle : F.η ≤ F.u * V + q * W := by
    have : F.u * (V + W) = F.u * V + F.u * W := by ring
    linarith
  have w8 : |p - timestep / 2 * ((S1 + S2) / mass)| ≤ 55 / 4 * (q * W) + F.u * V := by
    have := abs_add_le (p - half * s) (half * s - timestep / 2 * ((S1 + S2) / mass))
    rw [sub_add_sub_cancel] at this
    linarith
  have w9 : |v + p| ≤ 5 / 4 * V + 5 / 4 * W := by
    have e1 := abs_add_le (p - timestep / 2 * ((S1 + S2) / mass)) (timestep / 2 * ((S1 + S2) / mass))
    rw [sub_add_cancel] at e1
    have e2 := abs_add_le v p
    linarith
  have w10 := hv' (by linarith)
  have w11 : F.u * |v + p| ≤ 5 / 4 * (F.u * V) + 5 / 4 * (q * W) := by
    have e1 := mul_le_mul_of_nonneg_left w9 hu
    have e2 : F.u * (5 / 4 * V + 5 / 4 * W) = 5 / 4 * (F.u * V) + 5 / 4 * (F.u * W) := by ring
    linarith
  have fin := abs_add_le (v' - (v + p)) (p - timestep / 2 * ((S1 + S2) / mass))
  rw [show v' - (v + p) + (p - timestep / 2 * ((S1 + S2) / mass)) = v' - (v + timestep / 2 * ((S1 + S2) / mass)) by ring] at fin
  have goal : F.u * (4 * V + 16 * n * W) = 4 * (F.u * V) + 16 * (q * W) := by rw [hq]; ring
  rw [goal]
  have qW0 : 0 ≤ q * W := by positivity
  linarith

/-! ## Momentum -/

/-- C133: a time step changes the total momentum of star polymers by no more than `N u` times their mass, times four times the
largest velocity and `16 N` times the largest change of a velocity there may be, whatever the forces are and in whatever order they
are added. -/
theorem C133_step {F : Accuracy} {N : ℕ} {mass timestep V T : ℝ} {φ ψ : ℕ → ℕ → ℕ → ℝ} {v v' : ℕ → ℝ}
    (H : Ordinary F N mass timestep V T φ ψ v) (h : Step F N mass timestep φ ψ v v') {k : ℕ} (hk : k < 3) :
    |momentum N mass v' k - momentum N mass v k| ≤ N * F.u * mass * (4 * V + 16 * N * (timestep * (T / mass))) := by
  rcases Nat.eq_zero_or_pos N with rfl | hN
  · simp [momentum]
  have hn1 : (1 : ℝ) ≤ N := by exact_mod_cast hN
  have hT : 0 ≤ T := (List.sum_nonneg (by simp)).trans (H.forces 0 hN 0 (by omega))
  have hm := H.mass_pos
  set E := F.u * (4 * V + 16 * N * (timestep * (T / mass))) with hE
  have per : ∀ i ∈ Finset.range N, |mass * (v' (i * 3 + k) - v (i * 3 + k)) - timestep / 2 *
      ((contributions N (φ k) i).sum + (contributions N (ψ k) i).sum)| ≤ mass * E := by
    intro i hi
    have hi := Finset.mem_range.1 hi
    obtain ⟨f1, f2, h1, h2, h3⟩ := h i hi k hk
    obtain ⟨e1, s1⟩ := force_error H.u H.few (H.forces i hi k hk) H.large h1
    obtain ⟨e2, s2⟩ := force_error H.u H.few (H.forces' i hi k hk) H.large h2
    have := velocity_error H.u H.η H.mass_pos H.timestep_pos hn1 H.few (H.velocities i hi k hk) hT e1 e2 s1 s2 H.tiny H.tiny' H.tiny''
      H.large' H.large'' H.large''' h3
    have e : mass * (v' (i * 3 + k) - v (i * 3 + k)) - timestep / 2 * ((contributions N (φ k) i).sum + (contributions N (ψ k) i).sum) =
        mass * (v' (i * 3 + k) - (v (i * 3 + k) + timestep / 2 *
          (((contributions N (φ k) i).sum + (contributions N (ψ k) i).sum) / mass))) := by
      field_simp; ring
    rw [e, abs_mul, abs_of_pos hm]
    exact mul_le_mul_of_nonneg_left this hm.le
  have hsum : momentum N mass v' k - momentum N mass v k = ∑ i ∈ Finset.range N, (mass * (v' (i * 3 + k) - v (i * 3 + k)) -
      timestep / 2 * ((contributions N (φ k) i).sum + (contributions N (ψ k) i).sum)) := by
    rw [Finset.sum_sub_distrib, ← Finset.mul_sum, ← Finset.mul_sum, Finset.sum_add_distrib, contributions_total, contributions_total,
      momentum, momentum, ← Finset.mul_sum, ← Finset.mul_sum, Finset.sum_sub_distrib]
    ring
  rw [hsum]
  refine (Finset.abs_sum_le_sum_abs _ _).trans ((Finset.sum_le_sum per).trans (le_of_eq ?_))
  rw [Finset.sum_const, Finset.card_range, nsmul_eq_mul, hE]
  ring

/-- Time steps one after the other, with whatever forces there are in each, which stay below the same bounds. -/
inductive Steps (F : Accuracy) (N : ℕ) (mass timestep V T : ℝ) : ℕ → (ℕ → ℝ) → (ℕ → ℝ) → Prop
  | none (v) : Steps F N mass timestep V T 0 v v
  | more {n v v' v'' φ ψ} : Ordinary F N mass timestep V T φ ψ v → Step F N mass timestep φ ψ v v' →
      Steps F N mass timestep V T n v' v'' → Steps F N mass timestep V T (n + 1) v v''

/-- C133: over any number of time steps, the total momentum drifts by no more than that number times the bound for one. -/
theorem C133_run {F : Accuracy} {N n : ℕ} {mass timestep V T : ℝ} {v v' : ℕ → ℝ} (h : Steps F N mass timestep V T n v v') {k : ℕ}
    (hk : k < 3) :
    |momentum N mass v' k - momentum N mass v k| ≤ n * (N * F.u * mass * (4 * V + 16 * N * (timestep * (T / mass)))) := by
  induction h with
  | none v => simp
  | @more n v v' v'' φ ψ H h _ ih =>
    have h1 := C133_step H h hk
    have h2 := abs_add_le' ih h1
    rw [show momentum N mass v'' k - momentum N mass v' k + (momentum N mass v' k - momentum N mass v k) =
      momentum N mass v'' k - momentum N mass v k by ring] at h2
    push_cast
    linarith

/-! ## Floating-point numbers -/

section rounding
variable {p : ℕ} {emin emax : ℤ} {rnd : ℝ → ℝ}

/-- C133: floating-point arithmetic is as supposed here. -/
theorem C133_rounding (hp : 0 < p) (hem : emin + p ≤ emax) (hr : IsRounding p emin emax rnd) {B : ℝ} (hB : B < 2 ^ emax) (N : ℕ)
    (mass timestep : ℝ) {φ ψ : ℕ → ℕ → ℕ → ℝ} (hφ : ∀ k a b, φ k a b ∈ Bin p emin emax) (hψ : ∀ k a b, ψ k a b ∈ Bin p emin emax)
    {order1 order2 : ℕ → ℕ → List ℝ} (h1 : ∀ k i, (order1 k i).Perm (contributions N (φ k) i))
    (h2 : ∀ k i, (order2 k i).Perm (contributions N (ψ k) i)) (v : ℕ → ℝ) :
    Step (accuracy p emin B) N mass timestep φ ψ v (step rnd N mass timestep order1 order2 v) := by
  have near := near_rnd hp hem hr hB
  have mem : ∀ {φ : ℕ → ℕ → ℝ}, (∀ a b, φ a b ∈ Bin p emin emax) → ∀ i, ∀ x ∈ contributions N φ i, x ∈ Bin p emin emax := by
    intro φ h i x hx
    obtain ⟨j, _, rfl⟩ := List.mem_map.1 hx
    split
    · exact h _ _
    · exact Time.neg_mem (h _ _)
  intro i hi k hk
  have e1 : (i * 3 + k) % 3 = k := by omega
  have e2 : (i * 3 + k) / 3 = i := by omega
  refine ⟨total rnd (order1 k i), total rnd (order2 k i), ⟨_, h1 k i, ?_⟩, ⟨_, h2 k i, ?_⟩, ?_⟩
  · exact addsSum_rnd hp hem hr hB _ (fun x hx => mem (hφ k) i x ((h1 k i).mem_iff.1 hx)) 0 (zero_mem (by omega))
  · exact addsSum_rnd hp hem hr hB _ (fun x hx => mem (hψ k) i x ((h2 k i).mem_iff.1 hx)) 0 (zero_mem (by omega))
  · rw [step, e1, e2]
    exact ⟨_, _, _, _, _, near _, near _, near _, near _, near _, near _⟩

end rounding

/-! ## Examples -/

/-- Two particles at velocities 1 and 0 in each direction, which exert force 1 on each other. -/
example : Ordinary (accuracy 53 (-1074) (2 ^ 1000)) 2 1 (1 / 128) 1 1 (fun _ _ _ => 1) (fun _ _ _ => 1)
    (fun c => if c < 3 then 1 else 0) := by
  have c0 : ∀ i < 2, (((contributions 2 (fun _ _ => (1 : ℝ)) i)).map abs).sum ≤ 1 := by
    intro i hi
    interval_cases i <;> simp [contributions, List.range_succ]
  have u : (accuracy 53 (-1074) (2 ^ 1000)).u = 1 / 2 ^ 53 := by norm_num [accuracy]
  have η0 : 0 ≤ (accuracy 53 (-1074) (2 ^ 1000)).η := by norm_num [accuracy]
  have η : (accuracy 53 (-1074) (2 ^ 1000)).η ≤ 1 / 2 ^ 70 := by
    have : (2 : ℝ) ^ (-1074 : ℤ) ≤ 2 ^ (-70 : ℤ) := zpow_le_zpow_right₀ (by norm_num) (by norm_num)
    refine this.trans (le_of_eq ?_)
    norm_num
  have B : (2 : ℝ) ^ 10 ≤ (accuracy 53 (-1074) (2 ^ 1000)).B := pow_le_pow_right₀ (by norm_num) (by norm_num)
  norm_num at B η
  constructor
  · rw [u]; norm_num
  · exact η0
  · norm_num
  · norm_num
  · rw [u]; norm_num
  · intro i _ k _
    split <;> simp
  · intro i hi k _; exact c0 i hi
  · intro i hi k _; exact c0 i hi
  · rw [u]; norm_num; linarith
  · rw [u]; norm_num; linarith
  · rw [u]; norm_num; linarith
  · linarith
  · linarith
  · linarith
  · linarith

/-- C133: the momentum may change. Two particles, at velocities 1 and 0, exert a force on each other so small that it changes but
the velocity of the one at rest. -/
theorem C133_exact_violated {rnd : ℝ → ℝ} (hr : IsRounding 53 (-1074) 971 rnd) :
    let w : ℝ := 2 ^ (-60 : ℤ)
    let order : ℕ → ℕ → List ℝ := fun _ i => if i = 0 then [w] else [-w]
    let v : ℕ → ℝ := fun c => if c < 3 then 1 else 0
    (∀ k, ∀ i < 2, (order k i).Perm (contributions 2 (fun _ _ => w) i)) ∧
      momentum 2 1 v 0 = 1 ∧ momentum 2 1 (step rnd 2 1 1 order order v) 0 = 1 - w := by
  intro w order v
  have pow : ∀ e : ℤ, -1074 ≤ e → e ≤ 971 → rnd (2 ^ e) = 2 ^ e := fun e h1 h2 =>
    hr.eq_self ⟨1, e, by norm_num, h1, h2, by simp⟩
  have neg : ∀ e : ℤ, -1074 ≤ e → e ≤ 971 → rnd (-2 ^ e) = -2 ^ e := fun e h1 h2 =>
    hr.eq_self ⟨-1, e, by norm_num, h1, h2, by simp⟩
  have rw0 : rnd w = w := pow _ (by norm_num) (by norm_num)
  have rn : rnd (-w) = -w := neg _ (by norm_num) (by norm_num)
  have w2 : w + w = 2 ^ (-59 : ℤ) := by simp only [w]; norm_num
  have r2 : rnd (w + w) = w + w := by rw [w2]; exact pow _ (by norm_num) (by norm_num)
  have rn2 : rnd (-w + -w) = -w + -w := by
    rw [show -w + -w = -(w + w) by ring, w2]; exact neg _ (by norm_num) (by norm_num)
  have rh : rnd (0.5 * 1) = 0.5 := by
    have : (0.5 * 1 : ℝ) = 2 ^ (-1 : ℤ) := by norm_num
    rw [this, pow _ (by norm_num) (by norm_num)]; norm_num
  have w0 : 0 < w := two_zpow_pos _
  have hw : w ≤ 1 / 1152921504606846976 := by simp only [w]; norm_num
  clear w2 pow neg
  clear_value w
  have r1 : rnd (1 + w) = 1 := by
    have m1 : (1 : ℝ) ∈ Bin 53 (-1074) 971 := ⟨1, 0, by norm_num, by norm_num, by norm_num, by simp⟩
    have d := (hr (1 + w)).2 1 m1
    rw [show (1 : ℝ) + w - 1 = w by ring, abs_of_pos w0] at d
    have d' := abs_le.1 d
    have big : (2 : ℝ) ^ (-1 : ℤ) ≤ |rnd (1 + w)| := by
      refine le_trans ?_ (le_abs_self _)
      norm_num
      linarith [d'.2]
    obtain ⟨m, hm⟩ := multiple (hr.mem _) big
    have e : ((-1 : ℤ) - ((53 : ℕ) : ℤ) + 1) = -53 := by norm_num
    rw [e] at hm
    have hm' : rnd (1 + w) = m / 2 ^ 53 := by
      rw [hm]
      norm_num
      ring
    rw [hm'] at d' ⊢
    have : m = 2 ^ 53 := by
      by_contra hne
      norm_num at hne
      rcases lt_or_gt_of_ne hne with h | h
      · have : (m : ℝ) ≤ 9007199254740991 := by exact_mod_cast (by omega : m ≤ 9007199254740991)
        have := d'.2
        have : (m : ℝ) / 2 ^ 53 ≤ 9007199254740991 / 2 ^ 53 := by gcongr
        norm_num at this
        linarith
      · have : (9007199254740993 : ℝ) ≤ m := by exact_mod_cast (by omega : 9007199254740993 ≤ m)
        have := d'.1
        have : (9007199254740993 : ℝ) / 2 ^ 53 ≤ m / 2 ^ 53 := by gcongr
        norm_num at this
        linarith
    rw [this]; norm_num
  refine ⟨?_, ?_, ?_⟩
  · intro k i hi
    interval_cases i <;> simp [contributions, List.range_succ, order]
  · simp [momentum, Finset.sum_range_succ, v]
  · have p1 : step rnd 2 1 1 order order v 0 = 1 := by
      have o : order (0 % 3) (0 / 3) = [w] := by simp [order]
      have v0 : v 0 = 1 := by simp [v]
      have t : total rnd [w] = w := by simp [total, rw0]
      simp only [step, o, t, v0, div_one, rw0, r2, rh]
      rw [show (0.5 : ℝ) * (w + w) = w by ring, rw0, r1]
    have p2 : step rnd 2 1 1 order order v 3 = -w := by
      have o : order (3 % 3) (3 / 3) = [-w] := by simp [order]
      have v0 : v 3 = 0 := by simp [v]
      have t : total rnd [-w] = -w := by simp [total, rn]
      simp only [step, o, t, v0, div_one, rn, rn2, rh]
      rw [show (0.5 : ℝ) * (-w + -w) = -w by ring, rn, zero_add, rn]
    simp only [momentum, Finset.sum_range_succ, Finset.sum_range_zero, Nat.zero_mul, Nat.one_mul, Nat.add_zero, p1, p2]
    ring

end OpenMPCD.Star.Rounded
