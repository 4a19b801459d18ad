import Verif.Verlet.Energy
import Mathlib.Analysis.SpecialFunctions.Trigonometric.Basic
import Mathlib.Analysis.SpecificLimits.Basic

/-!
# Chains with long time steps (C134)

Chains long enough have a mode of vibration of nearly the highest frequency there may be.
-/

set_option linter.unusedSimpArgs false

namespace OpenMPCD.Verlet

/-- A vibration of a chain of `n` particles along the x axis. -/
noncomputable def wave (n : ℕ) (θ r w : ℝ) : Mem ℝ :=
  ⟨fun j => if j < n then ⟨r * Real.cos ((2 * j + 1) * θ), 0, 0⟩ else 0, fun j => if j < n then ⟨w * Real.cos ((2 * j + 1) * θ), 0, 0⟩ else 0⟩

theorem wave_acc {n : ℕ} {θ : ℝ} (hθ : Real.sin (2 * n * θ) = 0) (k r w : ℝ) {j : ℕ} (hj : j < n) :
    springChain 0 n k (wave n θ r w).pos j = ⟨-(4 * k * Real.sin θ ^ 2) * (r * Real.cos ((2 * j + 1) * θ)), 0, 0⟩ := by
  have base : ∀ x : ℝ, Real.cos (x + 2 * θ) + Real.cos (x - 2 * θ) - 2 * Real.cos x = -(4 * Real.sin θ ^ 2) * Real.cos x := by
    intro x
    rw [Real.cos_add, Real.cos_sub, Real.cos_two_mul]
    linear_combination 4 * Real.cos x * Real.sin_sq_add_cos_sq θ
  have b := base ((2 * j + 1) * θ)
  have prev : (if 0 < j then k • ((wave n θ r w).pos (j - 1) - (wave n θ r w).pos j) else 0) =
      ⟨k * r * (Real.cos ((2 * j + 1) * θ - 2 * θ) - Real.cos ((2 * j + 1) * θ)), 0, 0⟩ := by
    rcases j with - | j
    · simp only [Nat.cast_zero, mul_zero, zero_add, one_mul, lt_irrefl, if_false]
      rw [show θ - 2 * θ = -θ by ring, Real.cos_neg]
      ext <;> simp
    · rw [if_pos (by omega), Nat.add_sub_cancel]
      simp only [wave, hj, show j < n by omega, if_true]
      rw [show (2 * ((j + 1 : ℕ) : ℝ) + 1) * θ - 2 * θ = (2 * j + 1) * θ by push_cast; ring]
      ext <;> simp
      ring
  have next : (if j + 1 < n then k • ((wave n θ r w).pos (j + 1) - (wave n θ r w).pos j) else 0) =
      ⟨k * r * (Real.cos ((2 * j + 1) * θ + 2 * θ) - Real.cos ((2 * j + 1) * θ)), 0, 0⟩ := by
    by_cases h : j + 1 < n
    · rw [if_pos h]
      simp only [wave, hj, h, if_true]
      rw [show (2 * (j : ℝ) + 1) * θ + 2 * θ = (2 * ((j + 1 : ℕ) : ℝ) + 1) * θ by push_cast; ring]
      ext <;> simp
      ring
    · rw [if_neg h]
      have hn : (n : ℝ) = j + 1 := by exact_mod_cast (by omega : n = j + 1)
      rw [hn] at hθ
      have : Real.cos ((2 * (j : ℝ) + 1) * θ + 2 * θ) - Real.cos ((2 * j + 1) * θ) = 0 := by
        rw [show (2 * (j : ℝ) + 1) * θ + 2 * θ = 2 * (j + 1) * θ + θ by ring,
          show (2 * (j : ℝ) + 1) * θ = 2 * (j + 1) * θ - θ by ring, Real.cos_add, Real.cos_sub, hθ]
        ring
      rw [this]
      ext <;> simp
  unfold springChain
  rw [show (0 + n) = n by omega, prev, next]
  ext
  · simp only [Vec3.add_x]
    linear_combination k * r * b
  · simp
  · simp

theorem wave_step {n : ℕ} {θ : ℝ} (hθ : Real.sin (2 * n * θ) = 0) (k t r w : ℝ) :
    verlet (chainSet 0 n) (springChain 0 n k) t (wave n θ r w) =
      wave n θ ((1 - 2 * k * Real.sin θ ^ 2 * t ^ 2) * r + t * w)
        (w - t * (2 * k * Real.sin θ ^ 2) * (r + ((1 - 2 * k * Real.sin θ ^ 2 * t ^ 2) * r + t * w))) := by
  have hpos : (verlet (chainSet 0 n) (springChain 0 n k) t (wave n θ r w)).pos =
      (wave n θ ((1 - 2 * k * Real.sin θ ^ 2 * t ^ 2) * r + t * w)
        (w - t * (2 * k * Real.sin θ ^ 2) * (r + ((1 - 2 * k * Real.sin θ ^ 2 * t ^ 2) * r + t * w)))).pos := by
    funext j
    by_cases hj : j < n
    · have hm : j ∈ chainSet 0 n := by rw [chainSet, Finset.mem_Ico]; omega
      simp only [verlet, hm, if_true]
      rw [wave_acc hθ k r w hj]
      simp only [wave, hj, if_true]
      ext <;> simp
      ring
    · have hm : j ∉ chainSet 0 n := by rw [chainSet, Finset.mem_Ico]; omega
      simp only [verlet, hm, if_false, wave, hj]
  refine Mem.ext' (fun j => congrFun hpos j) fun j => ?_
  by_cases hj : j < n
  · have hm : j ∈ chainSet 0 n := by rw [chainSet, Finset.mem_Ico]; omega
    have e : (verlet (chainSet 0 n) (springChain 0 n k) t (wave n θ r w)).vel j = (wave n θ r w).vel j + (t / 2) •
        (springChain 0 n k (wave n θ r w).pos j +
          springChain 0 n k (verlet (chainSet 0 n) (springChain 0 n k) t (wave n θ r w)).pos j) := by
      simp only [verlet, hm, if_true]
    rw [e, hpos, wave_acc hθ k r w hj, wave_acc hθ k _ _ hj]
    simp only [wave, hj, if_true]
    ext <;> simp
    ring
  · have hm : j ∉ chainSet 0 n := by rw [chainSet, Finset.mem_Ico]; omega
    simp only [verlet, hm, if_false, wave, hj]

/-- C134: for chains, time steps must be as short as has been said, if chains of any length are to keep their energy within bounds. -/
theorem C134_chains_sharp {k t : ℝ} (hk : 0 < k) (ht : 0 < t) (h : 1 < k * t ^ 2) :
    ∃ n, ∃ m : ChainMem ℝ, ∀ B, ∃ c, B < chainsEnergy 1 n k (chainThread n n k t c m 0).toMem := by
  -- the mode of highest frequency
  have lim : Filter.Tendsto (fun n : ℕ => 2 * (k * t ^ 2) * Real.sin (Real.pi / 2 - Real.pi / 2 * (1 / ((n : ℝ) + 1))) ^ 2)
      Filter.atTop (nhds (2 * (k * t ^ 2))) := by
    have l0 := tendsto_one_div_add_atTop_nhds_zero_nat (𝕜 := ℝ)
    have l1 : Filter.Tendsto (fun n : ℕ => Real.pi / 2 - Real.pi / 2 * (1 / ((n : ℝ) + 1))) Filter.atTop (nhds (Real.pi / 2)) := by
      have := (tendsto_const_nhds (x := Real.pi / 2)).sub ((tendsto_const_nhds (x := Real.pi / 2)).mul l0)
      simpa using this
    have l2 := (Real.continuous_sin.tendsto _).comp l1
    rw [Real.sin_pi_div_two] at l2
    have := (tendsto_const_nhds (x := 2 * (k * t ^ 2))).mul (l2.pow 2)
    simpa using this
  have ev := lim.eventually (lt_mem_nhds (show (2 : ℝ) < 2 * (k * t ^ 2) by linarith))
  obtain ⟨n, hn, hn1⟩ := (ev.and (Filter.eventually_ge_atTop 1)).exists
  set θ := Real.pi / 2 - Real.pi / 2 * (1 / ((n : ℝ) + 1)) with hθ
  set N := n + 1 with hN
  have hsin : Real.sin (2 * (N : ℝ) * θ) = 0 := by
    have : 2 * (N : ℝ) * θ = n * Real.pi := by
      rw [hθ, hN]; push_cast; field_simp; ring
    rw [this]; exact Real.sin_nat_mul_pi n
  have hcos : 0 < Real.cos θ := by
    have p := Real.pi_pos
    have n0 : (0 : ℝ) < (n : ℝ) + 1 := by positivity
    have i1 : 1 / ((n : ℝ) + 1) ≤ 1 := by rw [div_le_one n0]; linarith [Nat.cast_nonneg (α := ℝ) n]
    have i0 : 0 < 1 / ((n : ℝ) + 1) := by positivity
    refine Real.cos_pos_of_mem_Ioo ⟨?_, ?_⟩
    · have := mul_le_mul_of_nonneg_left i1 (by positivity : 0 ≤ Real.pi / 2)
      rw [hθ]; linarith
    · have := mul_pos (by positivity : 0 < Real.pi / 2) i0
      rw [hθ]; linarith
  set s := Real.sin θ ^ 2
  set q := 2 * k * s * t ^ 2 with hq
  have hq2 : 2 < q := by rw [hq]; linarith
  set μ := -Real.sqrt (q ^ 2 - 2 * q) with hμ
  have hμ2 : μ ^ 2 = q ^ 2 - 2 * q := by rw [hμ, neg_sq, Real.sq_sqrt (by nlinarith)]
  have hμ0 : μ < 0 := by rw [hμ]; exact neg_neg_of_pos (Real.sqrt_pos.2 (by nlinarith))
  set l := 1 - q + μ with hl
  refine ⟨N, ⟨wave N θ 1 (μ / t), fun _ => 0⟩, fun B => ?_⟩
  have it : ∀ c : ℕ, (verlet (chainSet 0 N) (springChain 0 N k) t)^[c] (wave N θ 1 (μ / t)) = wave N θ (l ^ c) (l ^ c * (μ / t)) := by
    intro c
    induction c with
    | zero => simp
    | succ c ih =>
      rw [Function.iterate_succ_apply', ih, wave_step hsin]
      have e1 : (1 - 2 * k * s * t ^ 2) * l ^ c + t * (l ^ c * (μ / t)) = l ^ (c + 1) := by
        rw [← hq, pow_succ, hl]; field_simp
      rw [e1]
      congr 1
      have e2 : t * (2 * k * s) = q / t := by rw [hq]; field_simp
      rw [e2]
      have e3 : (l - 1) * μ = -q * (1 + l) := by rw [hl]; linear_combination hμ2
      rw [pow_succ]
      field_simp
      linear_combination (-l ^ c) * e3
  have hl1 : 1 < l ^ 2 := by nlinarith
  have d0 : 0 < (μ / t) ^ 2 * Real.cos θ ^ 2 / 2 := by
    have : μ / t ≠ 0 := div_ne_zero hμ0.ne ht.ne'
    positivity
  obtain ⟨c, hc⟩ := pow_unbounded_of_one_lt (B / ((μ / t) ^ 2 * Real.cos θ ^ 2 / 2)) hl1
  refine ⟨c, ?_⟩
  rw [div_lt_iff₀ d0] at hc
  have hthread : (chainThread N N k t c ⟨wave N θ 1 (μ / t), fun _ => 0⟩ 0).toMem = wave N θ (l ^ c) (l ^ c * (μ / t)) := by
    rw [chainThread, Nat.mul_zero, if_neg (by omega), chainStep_iterate, it]
  rw [hthread, chainsEnergy, Nat.mul_one]
  have k1 : (l ^ c * (μ / t)) ^ 2 * Real.cos θ ^ 2 / 2 ≤ kinetic N (wave N θ (l ^ c) (l ^ c * (μ / t))) := by
    have := Finset.single_le_sum (f := fun j => ((wave N θ (l ^ c) (l ^ c * (μ / t))).vel j).dot
      ((wave N θ (l ^ c) (l ^ c * (μ / t))).vel j) / 2) (s := Finset.range N) (fun j _ => div_nonneg (dot_nonneg _) (by norm_num))
      (Finset.mem_range.2 (by omega : 0 < N))
    refine le_trans (le_of_eq ?_) this
    simp [wave, Vec3.dot, hN]
    ring
  have k2 : 0 ≤ ∑ i ∈ Finset.range 1, ∑ o ∈ Finset.range (N - 1), springEnergy k (N * i + o) (N * i + o + 1)
      (wave N θ (l ^ c) (l ^ c * (μ / t))) :=
    Finset.sum_nonneg fun i _ => Finset.sum_nonneg fun o _ => mul_nonneg (by linarith) (dot_nonneg _)
  have e : (l ^ c * (μ / t)) ^ 2 * Real.cos θ ^ 2 / 2 = (l ^ 2) ^ c * ((μ / t) ^ 2 * Real.cos θ ^ 2 / 2) := by
    rw [mul_pow, ← pow_mul, ← pow_mul, mul_comm c 2]; ring
  linarith

end OpenMPCD.Verlet
