import Verif.Instr.Ring
import Mathlib.Algebra.BigOperators.Group.Finset.Basic

/-!
# Mean-square displacement of logical entities (C34)
-/

namespace OpenMPCD.Instr

variable {K : Type} [Field K]

/-- A snapshot: the centers of mass of the logical entities. -/
abbrev Centers (K : Type) := ℕ → Vec3 K

/-- The loop over the entities, for the snapshots `RT` and `R0` (`buffers[i]` and `buffers[0]`)
(`src/OpenMPCD/CUDA/MPCFluid/Instrumentation/LogicalEntityMeanSquareDisplacement.cu:146-158`), exact. -/
def msd (entities : ℕ) (RT R0 : Centers K) : K :=
  (List.range entities).foldl (fun result e =>
    let distance := R0 e - RT e
    result + (distance.x * distance.x + distance.y * distance.y + distance.z * distance.z)) 0 / entities

/-- The content of the file saved after a history of calls to `measure`, given the centers of mass at each of them, for
the settings `measureEveryNthSweep` and `measurementArgumentCount`. -/
def msdSaved (every argumentCount entities : ℕ) (garbage : ℕ → Centers K) (calls : List (Centers K)) :
    Option (List (ℕ × ℕ × K)) :=
  ((Ring.make garbage).run every (argumentCount + 1) 1 (msd entities) calls).save (argumentCount + 1) 1

/-! ## Specification -/

/-- Mean of the squared distances between the entities in two snapshots. -/
def meanSquareDisplacement (entities : ℕ) (a b : Centers K) : K :=
  (∑ e ∈ Finset.range entities, ((b e - a e).x ^ 2 + (b e - a e).y ^ 2 + (b e - a e).z ^ 2)) / entities

theorem msd_eq (entities : ℕ) (a b : Centers K) : msd entities a b = meanSquareDisplacement entities a b := by
  unfold msd meanSquareDisplacement
  congr 1
  induction entities with
  | zero => rfl
  | succ n ih =>
    rw [List.range_succ, List.foldl_append, ih, Finset.sum_range_succ]
    simp only [List.foldl_cons, List.foldl_nil]
    ring

/-- C34. Every pair of a measurement and a later one, with a lag of at least one and at most the number configured, is
contained exactly once, ordered by start and lag, along with the mean-square displacement between these two
measurements. Measurements are made at the first call and every `every`-th one after that. -/
theorem C34 {every : ℕ} (he : 0 < every) (argumentCount entities : ℕ) (garbage : ℕ → Centers K)
    (calls : List (Centers K)) :
    ∃ lines, msdSaved every argumentCount entities garbage calls = some lines ∧
      lines.map (fun l => (l.1, l.2.1)) = pairs (argumentCount + 1) 1 (everyNth every calls).length ∧
      ∀ t d x, (t, d, x) ∈ lines → ∃ a b, (everyNth every calls)[t]? = some a ∧
        (everyNth every calls)[t + d]? = some b ∧ x = meanSquareDisplacement entities a b := by
  obtain ⟨lines, h1, h2, h3⟩ := ring_save he (argumentCount + 1) 1 (msd entities) garbage calls
  refine ⟨lines, h1, h2, fun t d x hx => ?_⟩
  obtain ⟨a, b, ha, hb, rfl⟩ := h3 t d x hx
  exact ⟨a, b, ha, hb, msd_eq _ _ _⟩

/-- Which pairs these are. -/
theorem C34_pairs (argumentCount count t d : ℕ) :
    (t, d) ∈ pairs (argumentCount + 1) 1 count ↔ 1 ≤ d ∧ d ≤ argumentCount ∧ t + d < count := by
  unfold pairs
  simp only [List.mem_flatMap, List.mem_range, List.mem_map, List.mem_filter, decide_eq_true_eq, Prod.mk.injEq]
  constructor
  · rintro ⟨t', ht', d', ⟨h1, h2, h3⟩, rfl, rfl⟩
    omega
  · rintro ⟨h1, h2, h3⟩
    exact ⟨t, by omega, d, ⟨by omega, h1, h3⟩, rfl, rfl⟩

/-- Which measurements are used. -/
theorem C34_everyNth {S : Type} {every : ℕ} (he : 0 < every) (calls : List S) (i : ℕ) :
    (everyNth every calls)[i]? = calls[i * every]? := by
  induction calls using List.reverseRecOn generalizing i with
  | nil => simp [everyNth]
  | append_singleton calls c ih =>
    have hlen : ∀ calls : List S, (everyNth every calls).length = (calls.length + (every - 1)) / every := by
      intro calls
      induction calls using List.reverseRecOn with
      | nil =>
        rw [show (everyNth every ([] : List S)).length = 0 from rfl, List.length_nil, Nat.zero_add,
          Nat.div_eq_of_lt (by omega)]
      | append_singleton calls c ih =>
        rw [everyNth_append_one, List.length_append, ih, List.length_append, List.length_singleton]
        have e : calls.length + 1 + (every - 1) = calls.length + every := by omega
        rw [e, Nat.add_div_right _ he]
        by_cases h : calls.length % every = 0
        · rw [if_pos h, List.length_singleton]
          obtain ⟨k, hk⟩ := Nat.dvd_of_mod_eq_zero h
          rw [hk, Nat.add_comm (every * k), Nat.add_mul_div_left _ _ he, Nat.mul_div_cancel_left _ he,
            Nat.div_eq_of_lt (by omega)]
          omega
        · rw [if_neg h, List.length_nil]
          have hm : calls.length % every < every := Nat.mod_lt _ he
          have hd := Nat.div_add_mod calls.length every
          have e2 : calls.length + (every - 1) = (calls.length % every - 1) + every * (calls.length / every + 1) := by
            rw [Nat.mul_add, Nat.mul_one]; omega
          rw [e2, Nat.add_mul_div_left _ _ he, Nat.div_eq_of_lt (by omega)]
          omega
    rw [everyNth_append_one]
    rcases Nat.lt_or_ge i (everyNth every calls).length with h | h
    · rw [List.getElem?_append_left h, ih]
      have hb : i * every < calls.length := by
        rw [hlen, Nat.lt_iff_add_one_le, Nat.le_div_iff_mul_le he, Nat.add_mul, Nat.one_mul] at h
        omega
      rw [List.getElem?_append_left hb]
    · have hb : calls.length ≤ i * every := by
        rw [hlen] at h
        have := Nat.lt_mul_div_succ (calls.length + (every - 1)) he
        have h2 : every * ((calls.length + (every - 1)) / every) ≤ every * i := Nat.mul_le_mul_left _ h
        rw [Nat.mul_add, Nat.mul_one] at this
        rw [Nat.mul_comm i]
        omega
      rw [List.getElem?_append_right h, List.getElem?_append_right hb]
      by_cases hm : calls.length % every = 0
      · rw [if_pos hm]
        obtain ⟨k, hk⟩ := Nat.dvd_of_mod_eq_zero hm
        have hl : (everyNth every calls).length = k := by
          rw [hlen, hk, Nat.add_comm, Nat.add_mul_div_left _ _ he, Nat.div_eq_of_lt (by omega)]
          omega
        rw [hl, hk] at *
        have e : i * every - every * k = (i - k) * every := by rw [Nat.sub_mul, Nat.mul_comm k]
        rw [e]
        rcases Nat.eq_zero_or_pos (i - k) with h0 | h0
        · rw [h0, Nat.zero_mul]
        · rw [List.getElem?_eq_none (by simp; omega), List.getElem?_eq_none]
          have : 0 < (i - k) * every := Nat.mul_pos h0 he
          simp
          omega
      · rw [if_neg hm]
        have hne : calls.length ≠ i * every := fun e => hm (by rw [e, Nat.mul_mod_left])
        rw [List.getElem?_nil, List.getElem?_eq_none]
        simp
        omega

example : pairs 3 1 4 = [(0, 1), (0, 2), (1, 1), (1, 2), (2, 1)] := by decide

example : everyNth 3 ["a", "b", "c", "d", "e"] = ["a", "d"] := by decide

end OpenMPCD.Instr
