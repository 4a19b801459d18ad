import Verif.Vec.Basic
import Mathlib.Data.List.Basic
import Mathlib.Data.List.Sort
import Mathlib.Logic.Function.Basic

/-!
# Correlating measurements by means of a ring buffer (C34, C35)

The mean-square displacement of logical entities (`LogicalEntityMeanSquareDisplacement`) and the normal mode
autocorrelation (`NormalModeAutocorrelation`) keep the last snapshots in a ring buffer, in the same way. They differ in
the number of slots (`capacity`), in the smallest lag (`first`), and in what is computed from two snapshots (`f`, given
the older and the newer one).
-/

namespace OpenMPCD.Instr

variable {S R : Type}

/-! ## Model -/

/-- The members of the classes
(`include/OpenMPCD/CUDA/MPCFluid/Instrumentation/LogicalEntityMeanSquareDisplacement.hpp:243-266`,
`include/OpenMPCD/CUDA/MPCFluid/Instrumentation/NormalModeAutocorrelation.hpp:260-281`). Counters are natural
numbers. -/
structure Ring (S R : Type) where
  sweepsSinceLastMeasurement : ℕ
  slots : ℕ → S
  results : List (List R)

/-- After the constructor (`src/OpenMPCD/CUDA/MPCFluid/Instrumentation/LogicalEntityMeanSquareDisplacement.cu:22-53`,
`src/OpenMPCD/CUDA/MPCFluid/Instrumentation/NormalModeAutocorrelation.cpp:23-60`); the contents of the slots are
arbitrary. -/
def Ring.make (garbage : ℕ → S) : Ring S R := ⟨0, garbage, []⟩

/-- The slots `buffers[i]` refer to; `none`: a null pointer
(`src/OpenMPCD/CUDA/MPCFluid/Instrumentation/LogicalEntityMeanSquareDisplacement.cu:114-130`,
`src/OpenMPCD/CUDA/MPCFluid/Instrumentation/NormalModeAutocorrelation.cpp:117-135`). -/
def buffers (capacity now : ℕ) : List (Option ℕ) :=
  (List.range capacity).map fun i => if i > now then none else some ((now - i) % capacity)

/-- The loop over the buffers (`src/OpenMPCD/CUDA/MPCFluid/Instrumentation/LogicalEntityMeanSquareDisplacement.cu:141-161`,
`src/OpenMPCD/CUDA/MPCFluid/Instrumentation/NormalModeAutocorrelation.cpp:150-163`). -/
def rowLoop (f : S → S → R) (slots : ℕ → S) (current : S) : List (Option ℕ) → List R
  | [] => []
  | none :: _ => []
  | some j :: rest => f (slots j) current :: rowLoop f slots current rest

/-- `measure` (`src/OpenMPCD/CUDA/MPCFluid/Instrumentation/LogicalEntityMeanSquareDisplacement.cu:100-162`,
`src/OpenMPCD/CUDA/MPCFluid/Instrumentation/NormalModeAutocorrelation.cpp:106-164`), when the snapshot to be taken is
`current`. -/
def Ring.measure (every capacity first : ℕ) (f : S → S → R) (r : Ring S R) (current : S) : Ring S R :=
  let sweeps := r.sweepsSinceLastMeasurement + 1
  if sweeps ≠ every ∧ r.results.length ≠ 0 then { r with sweepsSinceLastMeasurement := sweeps }
  else
    let now := r.results.length
    let slots := Function.update r.slots (now % capacity) current
    ⟨0, slots, r.results ++ [rowLoop f slots (slots (now % capacity)) ((buffers capacity now).drop first)]⟩

/-- A history of calls to `measure`. -/
def Ring.run (every capacity first : ℕ) (f : S → S → R) (r : Ring S R) (calls : List S) : Ring S R :=
  calls.foldl (Ring.measure every capacity first f) r

/-- The lines `save` writes for one start (`src/OpenMPCD/CUDA/MPCFluid/Instrumentation/LogicalEntityMeanSquareDisplacement.cu:202-211`,
`src/OpenMPCD/CUDA/MPCFluid/Instrumentation/NormalModeAutocorrelation.cpp:210-220`), for the given lags; `none`: memory
outside of the results is accessed. -/
def Ring.saveLags (first : ℕ) (r : Ring S R) (t : ℕ) : List ℕ → Option (List (ℕ × ℕ × R))
  | [] => some []
  | d :: ds =>
    if t + d ≥ r.results.length then some []
    else
      ((r.results[t + d]?).bind fun row => row[t + d - t - first]?).bind fun x =>
        (r.saveLags first t ds).map ((t, d, x) :: ·)

/-- `save` (`src/OpenMPCD/CUDA/MPCFluid/Instrumentation/LogicalEntityMeanSquareDisplacement.cu:195-215`,
`src/OpenMPCD/CUDA/MPCFluid/Instrumentation/NormalModeAutocorrelation.cpp:201-224`). The lags are those from `first` to
`capacity - 1`. -/
def Ring.saveFrom (capacity first : ℕ) (r : Ring S R) : List ℕ → Option (List (ℕ × ℕ × R))
  | [] => some []
  | t :: ts =>
    (r.saveLags first t ((List.range capacity).drop first)).bind fun l => (r.saveFrom capacity first ts).map (l ++ ·)

/-- All of `save`. -/
def Ring.save (capacity first : ℕ) (r : Ring S R) : Option (List (ℕ × ℕ × R)) :=
  r.saveFrom capacity first (List.range r.results.length)

/-! ## Specification -/

/-- The snapshots that are to be used: the first one, and then every `every`-th one. -/
def everyNth (every : ℕ) (calls : List S) : List S :=
  (calls.zipIdx.filter fun c => c.2 % every = 0).map Prod.fst

/-- The pairs of a start and a lag for which both snapshots exist, ordered by start and lag. -/
def pairs (capacity first count : ℕ) : List (ℕ × ℕ) :=
  (List.range count).flatMap fun t =>
    ((List.range capacity).filter fun d => first ≤ d ∧ t + d < count).map fun d => (t, d)

/-! ## Proofs -/

theorem everyNth_append_one (every : ℕ) (calls : List S) (c : S) :
    everyNth every (calls ++ [c]) = everyNth every calls ++ if calls.length % every = 0 then [c] else [] := by
  unfold everyNth
  rw [List.zipIdx_append, List.filter_append, List.map_append]
  congr 1
  by_cases h : calls.length % every = 0 <;> simp [h]

theorem rowLoop_eq (f : S → S → R) (slots : ℕ → S) (current : S) (capacity now : ℕ) (l : List ℕ)
    (hl : l.Pairwise (· < ·)) :
    rowLoop f slots current (l.map fun i => if i > now then none else some ((now - i) % capacity)) =
      (l.filter fun i => i ≤ now).map fun i => f (slots ((now - i) % capacity)) current := by
  induction l with
  | nil => rfl
  | cons i l ih =>
    rw [List.pairwise_cons] at hl
    by_cases h : i > now
    · have : ∀ j ∈ i :: l, ¬ j ≤ now := by
        intro j hj
        rcases List.mem_cons.1 hj with rfl | hj
        · omega
        · have := hl.1 j hj
          omega
      rw [List.filter_eq_nil_iff.2 (by simpa using this)]
      simp [rowLoop, h]
    · rw [List.map_cons, if_neg h, rowLoop, ih hl.2, List.filter_cons_of_pos (by simpa using h), List.map_cons]

/-- The lags for which there is an older snapshot. -/
def lags (capacity first now : ℕ) : List ℕ := ((List.range capacity).drop first).filter fun i => i ≤ now

theorem row_eq (f : S → S → R) (slots : ℕ → S) (current : S) (capacity first now : ℕ) :
    rowLoop f slots current ((buffers capacity now).drop first) =
      (lags capacity first now).map fun i => f (slots ((now - i) % capacity)) current := by
  unfold buffers lags
  rw [← List.map_drop, rowLoop_eq]
  exact List.pairwise_lt_range.drop

theorem mod_inj_of_close {c a b : ℕ} (h : a ≤ b) (hc : b - a < c) (he : a % c = b % c) : a = b := by
  by_contra hne
  have h1 : (b - a) % c = 0 := Nat.sub_mod_eq_zero_of_mod_eq he.symm
  rw [Nat.mod_eq_of_lt hc] at h1
  omega

/-- What holds after `n` calls, if the snapshots `xs` have been used. -/
def RingInv (every capacity first : ℕ) (f : S → S → R) (n : ℕ) (r : Ring S R) (xs : List S) : Prop :=
  (r.results.length = xs.length) ∧
    (0 < n → xs ≠ [] ∧ r.sweepsSinceLastMeasurement < every ∧
      r.sweepsSinceLastMeasurement % every = (n - 1) % every) ∧
    (∀ i (_ : i < xs.length), xs.length - i ≤ capacity → r.slots (i % capacity) = xs[i]) ∧
    (∀ T (hT : T < xs.length), r.results[T]? =
      some ((lags capacity first T).map fun d => f (xs[T - d]'(by omega)) xs[T]))

/-- What holds after any history. -/
theorem ring_inv {every capacity : ℕ} (he : 0 < every) (first : ℕ) (f : S → S → R)
    (garbage : ℕ → S) (calls : List S) :
    RingInv every capacity first f calls.length ((Ring.make garbage : Ring S R).run every capacity first f calls)
      (everyNth every calls) := by
  induction calls using List.reverseRecOn with
  | nil => exact ⟨rfl, fun h => absurd h (by simp), fun i hi => absurd hi (by simp [everyNth]),
      fun T hT => absurd hT (by simp [everyNth])⟩
  | append_singleton calls c ih =>
    generalize hr : (Ring.make garbage : Ring S R).run every capacity first f calls = r at ih
    have hrun : (Ring.make garbage : Ring S R).run every capacity first f (calls ++ [c]) =
        r.measure every capacity first f c := by
      rw [← hr, Ring.run, List.foldl_append]
      rfl
    rw [hrun]
    obtain ⟨i1, i2, i3, i4⟩ := ih
    -- whether a measurement is made
    have hcond : (r.sweepsSinceLastMeasurement + 1 ≠ every ∧ r.results.length ≠ 0) ↔ ¬ calls.length % every = 0 := by
      by_cases hnil : calls = []
      · subst hnil
        have : r.results.length = 0 := by rw [i1]; rfl
        simp [this]
      · obtain ⟨hx, hlt, hmod⟩ := i2 (List.length_pos_iff.2 hnil)
        have hx' : r.results.length ≠ 0 := by
          rw [i1]
          exact fun h => hx (List.length_eq_zero_iff.1 h)
        have hpos : 0 < calls.length := List.length_pos_iff.2 hnil
        have e : (r.sweepsSinceLastMeasurement + 1) % every = calls.length % every := by
          rw [Nat.add_mod, hmod, ← Nat.add_mod]
          congr 1
          omega
        rw [and_iff_left hx', not_iff_not, ← e]
        constructor
        · intro h
          rw [h, Nat.mod_self]
        · intro h
          by_contra hne
          rw [Nat.mod_eq_of_lt (by omega)] at h
          omega
    have hxs := everyNth_append_one every calls c
    by_cases hm : calls.length % every = 0
    · -- a measurement is made
      have hmeas : r.measure every capacity first f c =
          ⟨0, Function.update r.slots (r.results.length % capacity) c, r.results ++
            [(lags capacity first r.results.length).map fun i =>
              f (Function.update r.slots (r.results.length % capacity) c ((r.results.length - i) % capacity)) c]⟩ := by
        unfold Ring.measure
        dsimp only
        rw [if_neg (by rw [hcond]; exact not_not.2 hm), row_eq, Function.update_self]
      rw [if_pos hm] at hxs
      rw [hmeas, hxs]
      have hslots : ∀ i (hi : i < (everyNth every calls ++ [c]).length),
          (everyNth every calls ++ [c]).length - i ≤ capacity →
          Function.update r.slots (r.results.length % capacity) c (i % capacity) =
            (everyNth every calls ++ [c])[i] := by
        intro i hi hcap
        rw [List.length_append, List.length_singleton] at hi hcap
        by_cases hil : i = r.results.length
        · subst hil
          rw [Function.update_self]
          simp [i1]
        · have hne : i % capacity ≠ r.results.length % capacity := by
            intro h
            exact hil (mod_inj_of_close (by omega) (by omega) h)
          rw [Function.update_of_ne hne, i3 i (by omega) (by omega), List.getElem_append_left (by omega)]
      refine ⟨by simp [i1], fun _ => ⟨by simp, he, ?_⟩, hslots, ?_⟩
      · rw [List.length_append, List.length_singleton, Nat.add_sub_cancel, hm, Nat.zero_mod]
      · intro T hT
        rw [List.length_append, List.length_singleton] at hT
        rcases Nat.lt_or_ge T r.results.length with h | h
        · rw [List.getElem?_append_left h, i4 T (by omega)]
          congr 1
          apply List.map_congr_left
          intro d hd
          rw [List.getElem_append_left (by omega), List.getElem_append_left (by omega)]
        · have hTe : T = r.results.length := by omega
          subst hTe
          rw [List.getElem?_append_right (le_refl _), Nat.sub_self, List.getElem?_cons_zero]
          congr 1
          apply List.map_congr_left
          intro d hd
          have hd' : d ≤ r.results.length ∧ d < capacity := by
            rw [lags, List.mem_filter] at hd
            exact ⟨by simpa using hd.2, List.mem_range.1 (List.mem_of_mem_drop hd.1)⟩
          rw [hslots (r.results.length - d) (by simp; omega) (by simp; omega)]
          congr 1
          simp [i1]
    · -- no measurement is made
      have hmeas : r.measure every capacity first f c =
          { r with sweepsSinceLastMeasurement := r.sweepsSinceLastMeasurement + 1 } := by
        unfold Ring.measure
        dsimp only
        rw [if_pos (hcond.2 hm)]
      rw [if_neg hm, List.append_nil] at hxs
      rw [hmeas, hxs]
      have hnil : calls ≠ [] := fun h => hm (by rw [h]; simp)
      obtain ⟨hx, hlt, hmod⟩ := i2 (List.length_pos_iff.2 hnil)
      refine ⟨i1, fun _ => ⟨hx, ?_, ?_⟩, i3, i4⟩
      · have := (hcond.2 hm).1
        dsimp only
        omega
      · dsimp only
        have hpos : 0 < calls.length := List.length_pos_iff.2 hnil
        rw [List.length_append, List.length_singleton, Nat.add_sub_cancel, Nat.add_mod, hmod, ← Nat.add_mod]
        congr 1
        omega

theorem lags_getElem (capacity first T i : ℕ) (h : first + i < capacity) (hT : first + i ≤ T) :
    (lags capacity first T)[i]? = some (first + i) := by
  have hr : (List.range capacity).drop first = (List.range (capacity - first)).map (first + ·) := by
    apply List.ext_getElem
    · simp
    · intro n h1 h2
      simp
  have hr2 : lags capacity first T = (List.range (min (capacity - first) (T + 1 - first))).map (first + ·) := by
    unfold lags
    rw [hr, List.filter_map]
    congr 1
    apply List.Perm.eq_of_pairwise' (r := (· < ·)) (List.pairwise_lt_range.filter _) List.pairwise_lt_range
    rw [List.perm_ext_iff_of_nodup (List.nodup_range.filter _) List.nodup_range]
    intro a
    simp only [List.mem_filter, List.mem_range, Function.comp, decide_eq_true_eq]
    omega
  rw [hr2, List.getElem?_map, List.getElem?_range (by omega)]
  rfl

theorem saveLags_eq (r : Ring S R) (first t : ℕ) (g : ℕ → ℕ → R) (ds : List ℕ) (hds : ds.Pairwise (· < ·))
    (hg : ∀ d ∈ ds, t + d < r.results.length →
      ((r.results[t + d]?).bind fun row => row[t + d - t - first]?) = some (g t d)) :
    r.saveLags first t ds = some ((ds.filter fun d => t + d < r.results.length).map fun d => (t, d, g t d)) := by
  induction ds with
  | nil => rfl
  | cons d ds ih =>
    rw [List.pairwise_cons] at hds
    rw [Ring.saveLags]
    by_cases h : t + d ≥ r.results.length
    · rw [if_pos h]
      have : (d :: ds).filter (fun d => t + d < r.results.length) = [] := by
        rw [List.filter_eq_nil_iff]
        intro j hj
        rcases List.mem_cons.1 hj with rfl | hj
        · simp only [decide_eq_true_eq]; omega
        · have := hds.1 j hj
          simp only [decide_eq_true_eq]; omega
      rw [this]
      rfl
    · rw [if_neg h, hg d List.mem_cons_self (by omega), Option.bind_some,
        ih hds.2 fun d hd => hg d (List.mem_cons_of_mem _ hd), Option.map_some,
        List.filter_cons_of_pos (by simp only [decide_eq_true_eq]; omega), List.map_cons]

theorem saveFrom_eq (r : Ring S R) (capacity first : ℕ) (g : ℕ → ℕ → R) (ts : List ℕ)
    (hg : ∀ t ∈ ts, ∀ d, first ≤ d → d < capacity → t + d < r.results.length →
      ((r.results[t + d]?).bind fun row => row[t + d - t - first]?) = some (g t d)) :
    r.saveFrom capacity first ts = some ((ts.flatMap fun t =>
      ((List.range capacity).filter fun d => first ≤ d ∧ t + d < r.results.length).map fun d => (t, d)).map
        fun p => (p.1, p.2, g p.1 p.2)) := by
  have hr : ∀ d, d ∈ (List.range capacity).drop first ↔ first ≤ d ∧ d < capacity := by
    intro d
    have : (List.range capacity).drop first = (List.range (capacity - first)).map (first + ·) := by
      apply List.ext_getElem
      · simp
      · intro n h1 h2
        simp
    rw [this, List.mem_map]
    constructor
    · rintro ⟨i, hi, rfl⟩
      have := List.mem_range.1 hi
      omega
    · rintro ⟨h1, h2⟩
      exact ⟨d - first, List.mem_range.2 (by omega), by omega⟩
  induction ts with
  | nil => rfl
  | cons t ts ih =>
    rw [Ring.saveFrom, saveLags_eq r first t g _ List.pairwise_lt_range.drop, Option.bind_some,
      ih fun t ht => hg t (List.mem_cons_of_mem _ ht), Option.map_some, List.flatMap_cons, List.map_append]
    · congr 2
      rw [List.map_map]
      have : ((List.range capacity).drop first).filter (fun d => t + d < r.results.length) =
          (List.range capacity).filter fun d => first ≤ d ∧ t + d < r.results.length := by
        apply List.Perm.eq_of_pairwise' (r := (· < ·)) (List.pairwise_lt_range.drop.filter _)
          (List.pairwise_lt_range.filter _)
        rw [List.perm_ext_iff_of_nodup ((List.nodup_range.drop).filter _) (List.nodup_range.filter _)]
        intro d
        simp only [List.mem_filter, hr, List.mem_range, decide_eq_true_eq, and_assoc]
        constructor
        · rintro ⟨h1, h2, h3⟩; exact ⟨h2, h1, h3⟩
        · rintro ⟨h1, h2, h3⟩; exact ⟨h2, h1, h3⟩
      rw [this]
      rfl
    · intro d hd h
      exact hg t List.mem_cons_self d ((hr d).1 hd).1 ((hr d).1 hd).2 h

/-- What is saved after any history: exactly one line for each pair of a start and a lag for which both snapshots
exist, computed from these two snapshots. -/
theorem ring_save {every : ℕ} (he : 0 < every) (capacity first : ℕ) (f : S → S → R)
    (garbage : ℕ → S) (calls : List S) :
    ∃ lines, ((Ring.make garbage : Ring S R).run every capacity first f calls).save capacity first = some lines ∧
      lines.map (fun l => (l.1, l.2.1)) = pairs capacity first (everyNth every calls).length ∧
      ∀ t d x, (t, d, x) ∈ lines → ∃ a b, (everyNth every calls)[t]? = some a ∧
        (everyNth every calls)[t + d]? = some b ∧ x = f a b := by
  have hinv := ring_inv (capacity := capacity) he first f garbage calls
  generalize hr : (Ring.make garbage : Ring S R).run every capacity first f calls = r at hinv
  generalize hxs : everyNth every calls = xs at hinv
  obtain ⟨i1, -, -, i4⟩ := hinv
  rcases Nat.eq_zero_or_pos xs.length with h0 | h0
  · refine ⟨[], ?_, ?_, by simp⟩
    · rw [Ring.save, i1, h0]
      rfl
    · rw [h0]
      rfl
  · let g : ℕ → ℕ → R := fun t d =>
      if h : t + d < xs.length then f (xs[t]'(by omega)) xs[t + d] else f (xs[0]) (xs[0])
    have hg : ∀ t ∈ List.range r.results.length, ∀ d, first ≤ d → d < capacity → t + d < r.results.length →
        ((r.results[t + d]?).bind fun row => row[t + d - t - first]?) = some (g t d) := by
      intro t _ d h1 h2 h3
      have h4 : t + d < xs.length := by omega
      rw [i4 (t + d) h4, Option.bind_some, List.getElem?_map]
      have e : t + d - t - first = d - first := by omega
      rw [e, lags_getElem capacity first (t + d) (d - first) (by omega) (by omega), Option.map_some]
      have e2 : first + (d - first) = d := by omega
      simp only [e2, g, dif_pos h4]
      have e3 : t + d - d = t := by omega
      simp only [e3]
    refine ⟨_, saveFrom_eq r capacity first g _ hg, ?_, ?_⟩
    · rw [List.map_map, i1]
      simp [pairs, Function.comp_def]
    · intro t d x hx
      rw [List.mem_map] at hx
      obtain ⟨⟨t', d'⟩, hp, he⟩ := hx
      simp only [Prod.mk.injEq] at he
      obtain ⟨rfl, rfl, rfl⟩ := he
      rw [List.mem_flatMap] at hp
      obtain ⟨t, -, hp⟩ := hp
      rw [List.mem_map] at hp
      obtain ⟨d, hd, he⟩ := hp
      rw [Prod.mk.injEq] at he
      obtain ⟨rfl, rfl⟩ := he
      simp only [List.mem_filter, decide_eq_true_eq] at hd
      have h4 : t + d < xs.length := by omega
      refine ⟨xs[t]'(by omega), xs[t + d], List.getElem?_eq_getElem _, List.getElem?_eq_getElem _, ?_⟩
      simp only [g, dif_pos h4]

end OpenMPCD.Instr
