import Verif.Launch.Model
import Mathlib.Data.List.Perm.Basic
import Mathlib.Data.List.Nodup
import Mathlib.Tactic.Ring
import Mathlib.Tactic.Linarith
import Mathlib.Data.Nat.ModEq

/-!
# C20: kernel launches process every work unit exactly once
-/

namespace OpenMPCD.Launch

theorem map_threads (gridDim blockDim : ℕ) :
    (threads gridDim blockDim).map (fun t => t.1 * blockDim + t.2) =
      List.range (gridDim * blockDim) := by
  unfold threads
  induction gridDim with
  | zero => simp
  | succ n ih =>
    rw [List.range_succ, List.flatMap_append, List.map_append, ih, Nat.succ_mul, List.range_add]
    congr 1
    simp only [List.flatMap_singleton, List.map_map]
    rfl

theorem processed_eq {N gd bd w : ℕ} (h : w + gd * bd ≤ 2 ^ 32) :
    processed N gd bd w = ((List.range (gd * bd)).map (w + ·)).filter (· < N) := by
  unfold processed
  congr 1
  rw [← map_threads gd bd, List.map_map]
  apply List.map_congr_left
  intro t ht
  simp only [Function.comp, workUnitOf]
  have hm : t.1 * bd + t.2 ∈ List.range (gd * bd) := by
    rw [← map_threads gd bd]; exact List.mem_map_of_mem ht
  rw [List.mem_range] at hm
  rw [Nat.mod_eq_of_lt (by omega)]
  omega

theorem filter_range (w n N : ℕ) :
    ((List.range n).map (w + ·)).filter (· < N) = (List.range (min n (N - w))).map (w + ·) := by
  induction n with
  | zero => simp
  | succ n ih =>
    rw [List.range_succ, List.map_append, List.filter_append, ih]
    by_cases h : w + n < N
    · have e : min (n + 1) (N - w) = min n (N - w) + 1 := by omega
      have e2 : min n (N - w) = n := by omega
      rw [e, e2, List.range_succ, List.map_append]
      simp [h]
    · have e : min (n + 1) (N - w) = min n (N - w) := by omega
      rw [e]
      simp [h]

/-- The range of one launch. -/
theorem processed_range {N gd bd w : ℕ} (h : w + gd * bd ≤ 2 ^ 32) :
    processed N gd bd w = (List.range (min (gd * bd) (N - w))).map (w + ·) := by
  rw [processed_eq h, filter_range]

theorem gridSize_cases {G B N w : ℕ} (hB : 1 < B) (hN : N < 2 ^ 32) (hw : w < N) :
    (gridSize G B N w = G ∧ G * B ≤ N - w) ∨
      (1 ≤ gridSize G B N w ∧ gridSize G B N w ≤ G ∧ N - w ≤ gridSize G B N w * B ∧
        N - w < G * B) := by
  have hle : (N - w) / B < N - w := Nat.div_lt_self (by omega) hB
  have hmod : ((N - w) / B + 1) % 2 ^ 32 = (N - w) / B + 1 := Nat.mod_eq_of_lt (by omega)
  have h1 := Nat.div_add_mod (N - w) B
  have h2 := Nat.mod_lt (N - w) (show 0 < B by omega)
  have h0 : 0 ≤ (N - w) / B := Nat.zero_le _
  unfold gridSize
  simp only [hmod]
  split_ifs with h
  · left
    refine ⟨rfl, ?_⟩
    have : G ≤ (N - w) / B := by omega
    calc G * B ≤ (N - w) / B * B := Nat.mul_le_mul_right _ this
      _ ≤ N - w := Nat.div_mul_le_self _ _
  · right
    have hq : (N - w) / B + 1 ≤ G := by omega
    have h3 : N - w < ((N - w) / B + 1) * B := by
      calc N - w = B * ((N - w) / B) + (N - w) % B := h1.symm
        _ < B * ((N - w) / B) + B := by omega
        _ = ((N - w) / B + 1) * B := by ring
    refine ⟨Nat.le_add_left 1 _, hq, h3.le, lt_of_lt_of_le h3 (Nat.mul_le_mul_right _ hq)⟩

theorem range_split (w a N : ℕ) (h : a ≤ N - w) :
    (List.range (N - w)).map (w + ·) =
      (List.range a).map (w + ·) ++ (List.range (N - (w + a))).map (w + a + ·) := by
  have e : N - w = a + (N - (w + a)) := by omega
  conv_lhs => rw [e, List.range_add, List.map_append, List.map_map]
  congr 1
  apply List.map_congr_left
  intro i _
  simp only [Function.comp]
  omega

/-- The general statement for the remaining iterations. -/
theorem loop_from {G B N : ℕ} (hG : 0 < G) (hB : 1 < B) (hN : N + G * B ≤ 2 ^ 32)
    (w : ℕ) (hw : w < N + G * B) :
    ∃ ls, Loop G B N w ls ∧ processedAll N B ls = (List.range (N - w)).map (w + ·) ∧
      processedAllSwapped N B ls = (List.range (N - w)).map (w + ·) ∧
      ∀ l ∈ ls, 1 ≤ l.2 ∧ l.2 ≤ G := by
  have hGB : 0 < G * B := Nat.mul_pos hG (by omega)
  obtain ⟨k, hk⟩ : ∃ k, N - w = k := ⟨_, rfl⟩
  induction k using Nat.strong_induction_on generalizing w with
  | _ k ih =>
    by_cases hlt : w < N
    · have hN' : N < 2 ^ 32 := by omega
      have hnext : (w + G * B) % 2 ^ 32 = w + G * B := Nat.mod_eq_of_lt (by omega)
      obtain ⟨ls, hl, hp, hs, hb⟩ := ih (N - (w + G * B)) (by omega) (w + G * B) (by omega) rfl
      have hl' : Loop G B N ((w + G * B) % 2 ^ 32) ls := by rw [hnext]; exact hl
      refine ⟨_, .iter hlt hl', ?_, ?_, ?_⟩
      · show processed N (gridSize G B N w) B w ++ processedAll N B ls = _
        rw [hp]
        rcases gridSize_cases (G := G) hB hN' hlt with ⟨e, hle⟩ | ⟨h1, h2, h3, h4⟩
        · rw [e, processed_range (by omega), Nat.min_eq_left hle, ← range_split w (G * B) N hle]
        · have hle : gridSize G B N w * B ≤ G * B := Nat.mul_le_mul_right _ h2
          rw [processed_range (by omega), Nat.min_eq_right h3]
          have : N - (w + G * B) = 0 := by omega
          rw [this]
          simp
      · show processed N B (gridSize G B N w) w ++ processedAllSwapped N B ls = _
        rw [hs]
        rcases gridSize_cases (G := G) hB hN' hlt with ⟨e, hle⟩ | ⟨h1, h2, h3, h4⟩
        · rw [e, processed_range (by rw [Nat.mul_comm]; omega), Nat.mul_comm B G,
            Nat.min_eq_left hle, ← range_split w (G * B) N hle]
        · have hle : gridSize G B N w * B ≤ G * B := Nat.mul_le_mul_right _ h2
          rw [processed_range (by rw [Nat.mul_comm]; omega), Nat.mul_comm B,
            Nat.min_eq_right h3]
          have : N - (w + G * B) = 0 := by omega
          rw [this]
          simp
      · intro l hl
        rcases List.mem_cons.1 hl with rfl | hl
        · rcases gridSize_cases (G := G) hB hN' hlt with ⟨e, hle⟩ | ⟨h1, h2, h3, h4⟩
          · simp only [e]; omega
          · exact ⟨h1, h2⟩
        · exact hb l hl
    · refine ⟨[], .exit hlt, ?_, ?_, by simp⟩
      · have : N - w = 0 := by omega
        rw [this]; rfl
      · have : N - w = 0 := by omega
        rw [this]; rfl

/-- The launches are determined. -/
theorem loop_unique {G B N w : ℕ} {ls ls' : List (ℕ × ℕ)} (h : Loop G B N w ls)
    (h' : Loop G B N w ls') : ls = ls' := by
  induction h generalizing ls' with
  | exit hn => cases h' with
    | exit => rfl
    | iter hl => exact absurd hl hn
  | iter hl _ ih => cases h' with
    | exit hn => exact absurd hl hn
    | iter _ r => rw [ih r]

/-- C20: for every number of work units (up to `2 ^ 32` less the capacity of one launch) the loop ends,
the threads of all launches together process each work unit exactly once and nothing else, and
every launch has between one and `maxGridSize` blocks. -/
theorem C20_exactly_once {G B N : ℕ} (hG : 0 < G) (hB : 1 < B) (hN : N + G * B ≤ 2 ^ 32) :
    ∃ ls, Loop G B N 0 ls ∧ (processedAll N B ls).Perm (List.range N) ∧
      ∀ l ∈ ls, 1 ≤ l.2 ∧ l.2 ≤ G := by
  obtain ⟨ls, h1, h2, -, h4⟩ := loop_from hG hB hN 0 (by have := Nat.mul_pos hG (show 0 < B by omega); omega)
  refine ⟨ls, h1, ?_, h4⟩
  rw [h2]
  simp

/-- C20: the same holds for the launches in which grid size and block size are exchanged, as the number
of threads is the same; with the default sizes no block has more than 1024 threads. -/
theorem C20_swapped {N : ℕ} (hN : N ≤ 2 ^ 32 - 2 ^ 19) :
    ∃ ls, Loop 1024 512 N 0 ls ∧ (processedAllSwapped N 512 ls).Perm (List.range N) ∧
      ∀ l ∈ ls, 1 ≤ l.2 ∧ l.2 ≤ 1024 := by
  obtain ⟨ls, h1, -, h3, h4⟩ := loop_from (G := 1024) (B := 512) (N := N) (by norm_num)
    (by norm_num) (by omega) 0 (by omega)
  refine ⟨ls, h1, ?_, h4⟩
  rw [h3]
  simp

/-- The loop does not end if the capacity of one launch divides `2 ^ 32` and the number of work units
is too close to `2 ^ 32`. -/
theorem loop_diverges {G B N : ℕ} (hd : G * B ∣ 2 ^ 32) (hN : 2 ^ 32 - G * B < N) (w : ℕ)
    (hw : w < 2 ^ 32) (hdw : G * B ∣ w) (ls : List (ℕ × ℕ)) : ¬ Loop G B N w ls := by
  intro h
  induction h with
  | exit hn =>
    obtain ⟨a, ha⟩ := hdw
    obtain ⟨b, hb⟩ := hd
    have hlt : a < b := by
      by_contra hc
      have : G * B * b ≤ G * B * a := Nat.mul_le_mul_left _ (by omega)
      omega
    have : G * B * (a + 1) ≤ G * B * b := Nat.mul_le_mul_left _ hlt
    rw [Nat.mul_add] at this
    omega
  | iter hl _ ih =>
    refine ih (Nat.mod_lt _ (by norm_num)) ?_
    exact (Nat.dvd_mod_iff hd).2 (Nat.dvd_add hdw (dvd_refl _))

/-- C20: with the default sizes the loop ends exactly for the numbers of work units up to
`2 ^ 32 - 2 ^ 19`; for the remaining values of `unsigned int` it never ends. -/
theorem C20_terminates_iff {N : ℕ} :
    (∃ ls, Loop 1024 512 N 0 ls) ↔ N ≤ 2 ^ 32 - 2 ^ 19 := by
  constructor
  · rintro ⟨ls, h⟩
    by_contra hc
    exact loop_diverges (by norm_num) (by omega) 0 (by norm_num) (dvd_zero _) ls h
  · intro h
    obtain ⟨ls, hl, -⟩ := C20_exactly_once (G := 1024) (B := 512) (N := N) (by norm_num)
      (by norm_num) (by omega)
    exact ⟨ls, hl⟩

theorem execute_of_nodup {α : Type} (f : ℕ → α → α) (order : List ℕ) (h : order.Nodup)
    (data : ℕ → α) (j : ℕ) :
    execute f order data j = if j ∈ order then f j (data j) else data j := by
  induction order generalizing data with
  | nil => simp [execute]
  | cons i is ih =>
    rw [List.nodup_cons] at h
    have := ih h.2 (fun j => if j = i then f i (data i) else data j)
    simp only [execute, List.foldl_cons] at this ⊢
    rw [this]
    by_cases hj : j = i
    · subst hj
      simp [h.1]
    · simp [hj]

/-- C20: a kernel that only touches the data of its own work unit has, in whatever order the threads of
all launches act, the effect of applying the operation to each unit's data once. -/
theorem C20_effect {α : Type} {G B N : ℕ} (hG : 0 < G) (hB : 1 < B)
    (hN : N + G * B ≤ 2 ^ 32) (f : ℕ → α → α) (data : ℕ → α) {ls : List (ℕ × ℕ)}
    (hl : Loop G B N 0 ls) {order : List ℕ} (ho : order.Perm (processedAll N B ls)) (j : ℕ) :
    execute f order data j = if j < N then f j (data j) else data j := by
  obtain ⟨ls', hl', hp, -⟩ := C20_exactly_once hG hB hN
  have := loop_unique hl hl'
  subst this
  have hp := ho.trans hp
  rw [execute_of_nodup f order (hp.nodup_iff.2 List.nodup_range)]
  simp only [hp.mem_iff, List.mem_range]

/-- A case with two launches, the last one with idle threads. -/
example : ∃ ls, Loop 2 3 8 0 ls ∧ ls = [(0, 2), (6, 1)] ∧
    processedAll 8 3 ls = [0, 1, 2, 3, 4, 5, 6, 7] := by
  refine ⟨_, .iter (by norm_num) (.iter (by norm_num) (.exit (by norm_num))), ?_, ?_⟩
  · simp [gridSize]
  · decide

end OpenMPCD.Launch
