import Verif.Launch.Props
import Verif.Vec.Basic
import Mathlib.Algebra.BigOperators.Group.Finset.Basic
import Mathlib.Data.Real.Basic
import Mathlib.Tactic.Ring
import Mathlib.Tactic.Linarith
import Mathlib.Tactic.NormNum

/-!
# Velocities of the centers of mass of fluid constituents (C152)

`cudaDeviceCode/OpenMPCD/CUDA/MPCFluid/DeviceCode/Doublets.cu`, `Triplets.cu`, and `Chains.cu`, from which the velocity autocorrelations of
dumbbells, trimers, and chains are computed. Exact arithmetic for velocities; `unsigned int` modulo `2 ^ 32`. Vectors in memory are
represented as vectors, by their number.
-/

set_option linter.unusedSectionVars false
set_option linter.unusedSimpArgs false
set_option linter.unusedVariables false

namespace OpenMPCD.CenterVelocity

open OpenMPCD.Launch

/-! ## Model -/

/-- Which of the kernels is used: by `VelocityAutocorrelation::Doublets`, `Triplets`, and `Chains`
(`src/OpenMPCD/CUDA/MPCFluid/Instrumentation/VelocityAutocorrelation/Triplets.cu:16-22`, and the others likewise). -/
inductive Kind
  | doublets
  | triplets
  | chains (chainLength : ℕ)

/-- The number of work units (`cudaDeviceCode/OpenMPCD/CUDA/MPCFluid/DeviceCode/Doublets.cu:10`, `Triplets.cu:10`, `Chains.cu:11`), which
also is that of the vectors there is memory for. -/
def Kind.count (N : ℕ) : Kind → ℕ
  | .doublets => N / 2
  | .triplets => N / 3
  | .chains L => N / L

/-- The condition under which a thread returns at once
(`cudaDeviceCode/OpenMPCD/CUDA/MPCFluid/DeviceCode/Doublets.cu:28-29`, `Triplets.cu:28-29`, `Chains.cu:31-34`). -/
def Kind.idle (N id : ℕ) : Kind → Bool
  | .doublets => decide ((id * 2 + 1) % 2 ^ 32 ≥ N)
  | .triplets => decide ((id * 3 + 2) % 2 ^ 32 ≥ N)
  | .chains L => decide (id ≥ N / L)

/-- `getCenterOfMassVelocity_doublet` (`cudaDeviceCode/OpenMPCD/CUDA/MPCFluid/DeviceCode/Doublets.cu:36-45`). -/
noncomputable def doublet (v : ℕ → Vec3 ℝ) (id : ℕ) : Vec3 ℝ :=
  (1 / 2 : ℝ) • (v (id * 2 % 2 ^ 32) + v ((id * 2 + 1) % 2 ^ 32))

/-- `getCenterOfMassVelocity_triplet` (`cudaDeviceCode/OpenMPCD/CUDA/MPCFluid/DeviceCode/Triplets.cu:36-46`). -/
noncomputable def triplet (v : ℕ → Vec3 ℝ) (id : ℕ) : Vec3 ℝ :=
  (1 / 3 : ℝ) • (v (id * 3 % 2 ^ 32) + v ((id * 3 + 1) % 2 ^ 32) + v ((id * 3 + 2) % 2 ^ 32))

/-- `getCenterOfMassVelocity_chain` (`cudaDeviceCode/OpenMPCD/CUDA/MPCFluid/DeviceCode/Chains.cu:41-60`). -/
noncomputable def chain (L : ℕ) (v : ℕ → Vec3 ℝ) (id : ℕ) : Vec3 ℝ :=
  (1 / (L : ℝ)) • (List.range L).foldl (fun s o => s + v ((id * L % 2 ^ 32 + o) % 2 ^ 32)) 0

/-- What a thread writes (`cudaDeviceCode/OpenMPCD/CUDA/MPCFluid/DeviceCode/Doublets.cu:33`, `Triplets.cu:33`, `Chains.cu:38`). The kernel
for triplets calls the function for doublets. -/
noncomputable def Kind.value (v : ℕ → Vec3 ℝ) (id : ℕ) : Kind → Vec3 ℝ
  | .doublets => doublet v id
  | .triplets => doublet v id
  | .chains L => chain L v id

/-- The numbers of the threads of all launches `<<<gridSize, blockSize>>>`
(`cudaDeviceCode/OpenMPCD/CUDA/MPCFluid/DeviceCode/Triplets.cu:10-15,26`, and the others likewise). -/
def allThreads (ls : List (ℕ × ℕ)) : List ℕ := ls.flatMap fun l => (threads l.2 512).map (workUnitOf 512 l.1)

/-- `getCenterOfMassVelocities_doublet`, `_triplet`, `_chain`
(`cudaDeviceCode/OpenMPCD/CUDA/MPCFluid/DeviceCode/Triplets.cu:5-34`, and the others likewise): `after` is a possible content of the
buffer, the threads acting in any order. -/
def IsResult (k : Kind) (N : ℕ) (v before after : ℕ → Vec3 ℝ) : Prop :=
  ∃ (ls : List (ℕ × ℕ)) (order : List ℕ), Loop 1024 512 (k.count N) 0 ls ∧
    order.Perm ((allThreads ls).filter fun id => !k.idle N id) ∧
    after = execute (fun id _ => k.value v id) order before

/-! ## Specification -/

/-- The number of particles of a constituent. -/
def Kind.size : Kind → ℕ
  | .doublets => 2
  | .triplets => 3
  | .chains L => L

/-- The velocity of the center of mass of the constituent with the given number, of `n` particles of equal mass each. -/
noncomputable def mean (n : ℕ) (v : ℕ → Vec3 ℝ) (i : ℕ) : Vec3 ℝ := (1 / (n : ℝ)) • ((List.range n).map fun o => v (n * i + o)).sum

/-! ## Proofs -/

theorem loop_bounds {G N w : ℕ} {ls : List (ℕ × ℕ)} (h : Loop G 512 N w ls) : ∀ l ∈ ls, l.1 < N ∧ l.1 + l.2 * 512 ≤ N + 512 := by
  induction h with
  | exit _ => simp
  | @iter w ls hw rest ih =>
    intro l hl
    rw [List.mem_cons] at hl
    rcases hl with rfl | hl
    · refine ⟨hw, ?_⟩
      dsimp only
      have h1 : gridSize G 512 N w ≤ (N - w) / 512 + 1 := by
        unfold gridSize
        dsimp only
        split_ifs with h
        · exact le_trans h.le (Nat.mod_le _ _)
        · exact Nat.mod_le _ _
      have := Nat.div_mul_le_self (N - w) 512
      have h2 := Nat.mul_le_mul_right 512 h1
      omega
    · exact ih l hl

theorem thread_bound {G N : ℕ} {ls : List (ℕ × ℕ)} (h : Loop G 512 N 0 ls) : ∀ id ∈ allThreads ls, id < N + 512 := by
  intro id hid
  unfold allThreads at hid
  rw [List.mem_flatMap] at hid
  obtain ⟨l, hl, hid⟩ := hid
  rw [List.mem_map] at hid
  obtain ⟨t, ht, rfl⟩ := hid
  obtain ⟨-, hb⟩ := loop_bounds h l hl
  have hm : t.1 * 512 + t.2 ∈ List.range (l.2 * 512) := by
    rw [← map_threads]
    exact List.mem_map_of_mem (f := fun t : ℕ × ℕ => t.1 * 512 + t.2) ht
  rw [List.mem_range] at hm
  have hle : workUnitOf 512 l.1 t ≤ t.1 * 512 + t.2 + l.1 := by
    unfold workUnitOf
    exact Nat.mod_le _ _
  omega

theorem idle_iff {k : Kind} {N id : ℕ} (hN : N + 514 * k.size ≤ 2 ^ 32) (hs : 0 < k.size) (hid : id < k.count N + 512) :
    (!k.idle N id) = decide (id < k.count N) := by
  cases k with
  | doublets =>
    simp only [Kind.idle, Kind.count, Kind.size] at *
    rw [Nat.mod_eq_of_lt (by omega)]
    by_cases h : id < N / 2
    · have : ¬ id * 2 + 1 ≥ N := by omega
      simp [h, this]
    · have : id * 2 + 1 ≥ N := by omega
      simp [h, this]
  | triplets =>
    simp only [Kind.idle, Kind.count, Kind.size] at *
    rw [Nat.mod_eq_of_lt (by omega)]
    by_cases h : id < N / 3
    · have : ¬ id * 3 + 2 ≥ N := by omega
      simp [h, this]
    · have : id * 3 + 2 ≥ N := by omega
      simp [h, this]
  | chains L =>
    simp only [Kind.idle, Kind.count, Kind.size] at *
    by_cases h : id < N / L
    · simp [h]
    · simp [h, Nat.le_of_not_lt h]

theorem count_le (k : Kind) (N : ℕ) : k.count N ≤ N := by
  cases k <;> exact Nat.div_le_self _ _

theorem filter_threads {k : Kind} {N : ℕ} (hN : N + 514 * k.size ≤ 2 ^ 32) (hs : 0 < k.size) {ls : List (ℕ × ℕ)}
    (h : Loop 1024 512 (k.count N) 0 ls) : (allThreads ls).filter (fun id => !k.idle N id) = processedAll (k.count N) 512 ls := by
  have e1 : (allThreads ls).filter (fun id => !k.idle N id) = (allThreads ls).filter (fun id => decide (id < k.count N)) :=
    List.filter_congr fun id hid => idle_iff hN hs (thread_bound h id hid)
  rw [e1]
  unfold allThreads processedAll processed
  rw [List.filter_flatMap]

theorem result_eq {k : Kind} {N : ℕ} (hN : N + 2 ^ 19 + 514 * k.size ≤ 2 ^ 32) (hs : 0 < k.size) {v before after : ℕ → Vec3 ℝ}
    (h : IsResult k N v before after) (j : ℕ) : after j = if j < k.count N then k.value v j else before j := by
  obtain ⟨ls, order, hl, ho, rfl⟩ := h
  rw [filter_threads (by omega) hs hl] at ho
  have := count_le k N
  rw [C20_effect (by norm_num) (by norm_num) (by omega) _ before hl ho j]

theorem exists_result {k : Kind} {N : ℕ} (hN : N + 2 ^ 19 + 514 * k.size ≤ 2 ^ 32) (v before : ℕ → Vec3 ℝ) :
    ∃ after, IsResult k N v before after := by
  have := count_le k N
  obtain ⟨ls, hl, -⟩ := C20_exactly_once (G := 1024) (B := 512) (N := k.count N) (by norm_num) (by norm_num) (by omega)
  exact ⟨_, ls, _, hl, List.Perm.refl _, rfl⟩

theorem foldl_sum (f : ℕ → Vec3 ℝ) (n : ℕ) (a : Vec3 ℝ) :
    (List.range n).foldl (fun s o => s + f o) a = a + ((List.range n).map f).sum := by
  induction n with
  | zero => simp
  | succ n ih => simp [List.range_succ, ih, add_assoc]

theorem doublet_mean (v : ℕ → Vec3 ℝ) {id : ℕ} (h : id * 2 + 2 ≤ 2 ^ 32) : doublet v id = mean 2 v id := by
  unfold doublet mean
  rw [Nat.mod_eq_of_lt (by omega), Nat.mod_eq_of_lt (by omega)]
  simp [List.range_succ, mul_comm id 2]

theorem triplet_mean (v : ℕ → Vec3 ℝ) {id : ℕ} (h : id * 3 + 3 ≤ 2 ^ 32) : triplet v id = mean 3 v id := by
  unfold triplet mean
  rw [Nat.mod_eq_of_lt (by omega), Nat.mod_eq_of_lt (by omega), Nat.mod_eq_of_lt (by omega)]
  simp [List.range_succ, mul_comm id 3, add_assoc]

theorem chain_mean (L : ℕ) (v : ℕ → Vec3 ℝ) {id : ℕ} (h : id * L + L ≤ 2 ^ 32) (hL : 0 < L) : chain L v id = mean L v id := by
  unfold chain mean
  rw [foldl_sum, zero_add]
  congr 2
  apply List.map_congr_left
  intro o ho
  rw [List.mem_range] at ho
  rw [Nat.mod_eq_of_lt (a := id * L) (by omega), Nat.mod_eq_of_lt (by omega), mul_comm id L]

/-- **C152** for doublets and chains: in whatever order the threads act, the buffer contains the velocities of the centers of mass of
all constituents, and nothing is written beyond it. -/
theorem C152_partial {k : Kind} (hk : k ≠ .triplets) {N : ℕ} (hN : N + 2 ^ 19 + 514 * k.size ≤ 2 ^ 32) (hs : 0 < k.size)
    {v before after : ℕ → Vec3 ℝ} (h : IsResult k N v before after) (j : ℕ) :
    after j = if j < N / k.size then mean k.size v j else before j := by
  rw [result_eq hN hs h j]
  cases k with
  | doublets =>
    show (if j < N / 2 then doublet v j else before j) = if j < N / 2 then mean 2 v j else before j
    simp only [Kind.size] at hN
    by_cases hj : j < N / 2
    · rw [if_pos hj, if_pos hj, doublet_mean v (by omega)]
    · rw [if_neg hj, if_neg hj]
  | triplets => exact absurd rfl hk
  | chains L =>
    show (if j < N / L then chain L v j else before j) = if j < N / L then mean L v j else before j
    simp only [Kind.size] at hN hs
    by_cases hj : j < N / L
    · have h1 : (j + 1) * L ≤ N := (Nat.le_div_iff_mul_le hs).1 hj
      rw [Nat.add_mul, one_mul] at h1
      rw [if_pos hj, if_pos hj, chain_mean L v (by omega) hs]
    · rw [if_neg hj, if_neg hj]

/-- **C152** for triplets: there is a result for each of them and nothing is written beyond the buffer; the function that is not called
would give the velocities of the centers of mass. -/
theorem C152_triplets_partial {N : ℕ} (hN : N + 2 ^ 20 ≤ 2 ^ 32) {v before after : ℕ → Vec3 ℝ}
    (h : IsResult .triplets N v before after) (j : ℕ) :
    (N / 3 ≤ j → after j = before j) ∧ (j < N / 3 → triplet v j = mean 3 v j) := by
  constructor
  · intro hj
    rw [result_eq (by simp only [Kind.size]; omega) (by simp [Kind.size]) h j]
    exact if_neg (Nat.not_lt.2 hj)
  · intro hj
    exact triplet_mean v (by omega)

/-- **C152** does not hold for triplets: the result for the triplet `j` is the mean of the velocities of the particles `2 j` and
`2 j + 1`. -/
theorem C152_triplets_violated {N : ℕ} (hN : N + 2 ^ 20 ≤ 2 ^ 32) {v before after : ℕ → Vec3 ℝ}
    (h : IsResult .triplets N v before after) (j : ℕ) (hj : j < N / 3) : after j = mean 2 v j := by
  rw [result_eq (by simp only [Kind.size]; omega) (by simp [Kind.size]) h j]
  show (if j < N / 3 then doublet v j else before j) = _
  rw [if_pos hj, doublet_mean v (by omega)]

/-- **C152** does not hold for triplets: the velocities of the last third of the particles have no influence whatever. -/
theorem C152_ignored_violated {N : ℕ} (hN : N + 2 ^ 20 ≤ 2 ^ 32) {v w before after after' : ℕ → Vec3 ℝ}
    (hvw : ∀ i < 2 * (N / 3), v i = w i) (h : IsResult .triplets N v before after) (h' : IsResult .triplets N w before after') :
    after = after' := by
  funext j
  by_cases hj : j < N / 3
  · rw [C152_triplets_violated hN h j hj, C152_triplets_violated hN h' j hj]
    unfold mean
    congr 2
    apply List.map_congr_left
    intro o ho
    rw [List.mem_range] at ho
    exact hvw _ (by omega)
  · rw [(C152_triplets_partial hN h j).1 (by omega), (C152_triplets_partial hN h' j).1 (by omega)]

/-- **C152** does not hold for triplets: for every fluid of at least one triplet, there are velocities with which all results are zero,
though the center of mass of a triplet moves. -/
theorem C152_rest_violated {N : ℕ} (h3 : 3 ≤ N) (hN : N + 2 ^ 20 ≤ 2 ^ 32) :
    ∃ v : ℕ → Vec3 ℝ, ∃ j < N / 3, mean 3 v j ≠ 0 ∧ ∀ before after, IsResult .triplets N v before after → ∀ i < N / 3, after i = 0 := by
  refine ⟨fun i => if i < 2 * (N / 3) then 0 else ⟨1, 0, 0⟩, N / 3 - 1, by omega, ?_, ?_⟩
  · unfold mean
    intro h
    have hx := congrArg Vec3.x h
    simp only [List.range_succ, List.range_zero, List.nil_append, List.map_append, List.map_cons, List.map_nil, List.cons_append,
      List.sum_cons, List.sum_nil, add_zero] at hx
    have hlast : ¬ 3 * (N / 3 - 1) + 2 < 2 * (N / 3) := by omega
    rw [if_neg hlast] at hx
    by_cases h0 : 3 * (N / 3 - 1) < 2 * (N / 3) <;> by_cases h1 : 3 * (N / 3 - 1) + 1 < 2 * (N / 3) <;>
      simp [h0, h1] at hx <;> norm_num at hx
  · intro before after h i hi
    rw [C152_triplets_violated hN h i hi]
    unfold mean
    have h0 : 2 * i < 2 * (N / 3) := by omega
    have h1 : 2 * i + 1 < 2 * (N / 3) := by omega
    simp [List.range_succ, h0, h1]

/-! ## Examples -/

/-- The hypotheses can be met, for each kind of constituents. -/
example (v before : ℕ → Vec3 ℝ) : (∃ after, IsResult .doublets 1000 v before after) ∧
    (∃ after, IsResult .triplets 3000 v before after) ∧ ∃ after, IsResult (.chains 5) 5000 v before after :=
  ⟨exists_result (by simp only [Kind.size]; norm_num) v before, exists_result (by simp only [Kind.size]; norm_num) v before,
    exists_result (by simp only [Kind.size]; norm_num) v before⟩

end OpenMPCD.CenterVelocity
