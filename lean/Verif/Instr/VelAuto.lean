import Verif.Instr.NormalMode
import Mathlib.Algebra.Order.Field.Basic
import Mathlib.Tactic.Linarith
import Mathlib.Data.Rat.Defs
import Mathlib.Algebra.Order.Ring.Rat

/-!
# Velocity autocorrelation (C36, C67)

Time is an element of an ordered field, exact; `D` is the type of the velocities.
-/

namespace OpenMPCD.Instr

set_option linter.unusedSectionVars false

variable {K D : Type} [Field K] [LinearOrder K] [IsStrictOrderedRing K]

/-! ## Model -/

/-- `1e-6`. -/
def tolerance : K := 1 / 1000000

/-- `Snapshot`: time and buffer
(`include/OpenMPCD/CUDA/MPCFluid/Instrumentation/VelocityAutocorrelation/Base.hpp:116-169`). -/
structure Slot (K D : Type) where
  time : K
  data : D
  deriving DecidableEq

/-- `initializeSnapshotIfAppropriate` (`src/OpenMPCD/CUDA/MPCFluid/Instrumentation/VelocityAutocorrelation/Base.cu:143-173`),
given the time of the previous slot (`none` for the first one): the value returned and the slot afterwards. `new`: what
`updateSnapshot` (`src/OpenMPCD/CUDA/MPCFluid/Instrumentation/VelocityAutocorrelation/Base.cu:129-141`) stores. -/
def initSlot (measurementTime : K) (count : ℕ) (new : Slot K D) (previous : Option K) (s : Slot K D) :
    Bool × Slot K D :=
  if s.time ≥ 0 then (true, s)
  else
    match previous with
    | none => (true, new)
    | some p =>
      if p < 0 then (false, s)
      else if (new.time - p) + tolerance > measurementTime / count then (true, new)
      else (false, s)

/-- The loop in `updateSnapshots` (`src/OpenMPCD/CUDA/MPCFluid/Instrumentation/VelocityAutocorrelation/Base.cu:113-127`). -/
def updateLoop (measurementTime : K) (count : ℕ) (new : Slot K D) (previous : Option K) :
    List (Slot K D) → List (Slot K D)
  | [] => []
  | s :: rest =>
    if (initSlot measurementTime count new previous s).1 then
      if new.time - (initSlot measurementTime count new previous s).2.time - tolerance > measurementTime then
        new :: updateLoop measurementTime count new (some new.time) rest
      else
        (initSlot measurementTime count new previous s).2 ::
          updateLoop measurementTime count new (some (initSlot measurementTime count new previous s).2.time) rest
    else (initSlot measurementTime count new previous s).2 :: rest

/-- The members (`include/OpenMPCD/CUDA/MPCFluid/Instrumentation/VelocityAutocorrelation/Base.hpp:305-325`). -/
structure VA (K D R : Type) where
  slots : List (Slot K D)
  records : List (K × K × R)

/-- After the constructor (`src/OpenMPCD/CUDA/MPCFluid/Instrumentation/VelocityAutocorrelation/Base.cu:21-50,86-111`):
each of the slots has time `-1` and a buffer with any content. -/
def VA.make {R : Type} (garbage : List D) : VA K D R := ⟨garbage.map fun d => ⟨-1, d⟩, []⟩

/-- `readConfig` succeeds (`src/OpenMPCD/CUDA/MPCFluid/Instrumentation/VelocityAutocorrelation/Base.cu:96-105`). -/
def configValid (measurementTime timestep : K) (count : ℕ) : Prop :=
  count ≠ 0 ∧ ¬ count * timestep > measurementTime - tolerance

/-- `measure` (`src/OpenMPCD/CUDA/MPCFluid/Instrumentation/VelocityAutocorrelation/Base.cu:60-71,175-192`) at a time, the
velocities being `new.data`. `f`: what is computed from the velocities of a snapshot and the current ones. -/
def VA.measure {R : Type} (measurementTime : K) (f : D → D → R) (va : VA K D R) (new : Slot K D) : VA K D R :=
  let slots := updateLoop measurementTime va.slots.length new none va.slots
  ⟨slots, va.records ++ (slots.filter fun s => s.time ≥ 0).map fun s => (s.time, new.time, f s.data new.data)⟩

/-- A history of calls to `measure`. -/
def VA.run {R : Type} (measurementTime : K) (f : D → D → R) (va : VA K D R) (calls : List (Slot K D)) : VA K D R :=
  calls.foldl (VA.measure measurementTime f) va

/-- What is computed by `measureWithSnapshot`
(`src/OpenMPCD/CUDA/MPCFluid/Instrumentation/VelocityAutocorrelation/Base.cu:175-192`). -/
noncomputable def correlation (constituents : ℕ) (snapshot current : Mem) : ℝ :=
  ((List.range (3 * constituents)).map fun i => snapshot i * current i).sum / constituents

/-! ## Specification -/

/-- The average of the products of the velocities of the constituents. -/
noncomputable def meanProduct (constituents : ℕ) (v w : Mem) : ℝ :=
  (∑ k ∈ Finset.range constituents, (vecAt v k).dot (vecAt w k)) / constituents

/-- The documented procedure (`include/OpenMPCD/CUDA/MPCFluid/Instrumentation/VelocityAutocorrelation/Base.hpp:72-86`),
given the snapshots taken so far, in the order they are stored. -/
def documented (measurementTime : K) (count : ℕ) (new : Slot K D) (taken : List (Slot K D)) : List (Slot K D) :=
  match taken.getLast? with
  | none => [new]
  | some latest =>
    if taken.length < count then
      if new.time - latest.time > measurementTime / count - tolerance then taken ++ [new] else taken
    else taken.map fun s => if new.time - s.time > measurementTime + tolerance then new else s

/-! ## Proofs -/

/-- The slots in use come first. -/
def PrefixUsed (l : List (Slot K D)) : Prop := l.Pairwise fun a b => 0 ≤ b.time → 0 ≤ a.time

theorem initSlot_false {T : K} {count : ℕ} {new s : Slot K D} {p : Option K} (h : (initSlot T count new p s).1 = false) :
    s.time < 0 ∧ (initSlot T count new p s).2 = s := by
  revert h
  unfold initSlot
  by_cases h1 : s.time ≥ 0
  · rw [if_pos h1]
    simp
  · rw [if_neg h1]
    cases p with
    | none => simp
    | some p =>
      dsimp only
      split_ifs <;> simp [lt_of_not_ge h1]

theorem initSlot_true {T : K} {count : ℕ} {new s : Slot K D} {p : Option K} (hnew : 0 ≤ new.time)
    (h : (initSlot T count new p s).1 = true) :
    0 ≤ (initSlot T count new p s).2.time ∧
      ((initSlot T count new p s).2 = s ∨ (initSlot T count new p s).2 = new) := by
  revert h
  unfold initSlot
  by_cases h1 : s.time ≥ 0
  · rw [if_pos h1]
    exact fun _ => ⟨h1, .inl rfl⟩
  · rw [if_neg h1]
    cases p with
    | none => exact fun _ => ⟨hnew, .inr rfl⟩
    | some p =>
      dsimp only
      split_ifs <;> simp [hnew]

theorem updateLoop_length (T : K) (count : ℕ) (new : Slot K D) (p : Option K) (l : List (Slot K D)) :
    (updateLoop T count new p l).length = l.length := by
  induction l generalizing p with
  | nil => rfl
  | cons s rest ih =>
    unfold updateLoop
    split_ifs <;> simp [ih]

theorem updateLoop_mem {T : K} (hT : 0 ≤ T) {count : ℕ} {new : Slot K D} (hnew : 0 ≤ new.time) {p : Option K}
    {l : List (Slot K D)} (hl : PrefixUsed l) :
    PrefixUsed (updateLoop T count new p l) ∧
    ∀ s ∈ updateLoop T count new p l, (s ∈ l ∨ s = new) ∧ (0 ≤ s.time → new.time ≤ s.time + T + tolerance) := by
  have htol : (0 : K) < tolerance := by unfold tolerance; positivity
  induction l generalizing p with
  | nil => exact ⟨List.Pairwise.nil, by simp [updateLoop]⟩
  | cons s rest ih =>
    unfold PrefixUsed at hl
    rw [List.pairwise_cons] at hl
    unfold updateLoop
    split_ifs with h1 h2
    · obtain ⟨ih1, ih2⟩ := ih (p := some new.time) hl.2
      refine ⟨List.pairwise_cons.2 ⟨fun _ _ _ => hnew, ih1⟩, ?_⟩
      intro x hx
      rcases List.mem_cons.1 hx with rfl | hx
      · exact ⟨.inr rfl, fun _ => by linarith⟩
      · exact ⟨(ih2 x hx).1.imp (List.mem_cons_of_mem _) id, (ih2 x hx).2⟩
    · obtain ⟨h3, h4⟩ := initSlot_true hnew h1
      obtain ⟨ih1, ih2⟩ := ih (p := some (initSlot T count new p s).2.time) hl.2
      refine ⟨List.pairwise_cons.2 ⟨fun _ _ _ => h3, ih1⟩, ?_⟩
      intro x hx
      rcases List.mem_cons.1 hx with rfl | hx
      · refine ⟨h4.imp (fun h => by rw [h]; simp) id, fun _ => by linarith [not_lt.1 h2]⟩
      · exact ⟨(ih2 x hx).1.imp (List.mem_cons_of_mem _) id, (ih2 x hx).2⟩
    · obtain ⟨h3, h4⟩ := initSlot_false (Bool.not_eq_true _ ▸ h1)
      rw [h4]
      refine ⟨List.pairwise_cons.2 hl, fun x hx => ⟨.inl hx, fun h0 => ?_⟩⟩
      rcases List.mem_cons.1 hx with rfl | hx
      · exact absurd h0 (not_le.2 h3)
      · exact absurd (hl.1 x hx h0) (not_le.2 h3)

theorem measure_eq {R : Type} (T : K) (f : D → D → R) (va : VA K D R) (new : Slot K D) :
    va.measure T f new = ⟨updateLoop T va.slots.length new none va.slots, va.records ++
      ((updateLoop T va.slots.length new none va.slots).filter fun s => s.time ≥ 0).map
        fun s => (s.time, new.time, f s.data new.data)⟩ := rfl

/-- C36. After any history of measurements (at times that do not decrease), each record `(t₁, t₂, c)` is from two
measurements `i ≤ j` at these times, `c` has been computed from the velocities at these measurements, and
`t₁ ≤ t₂ ≤ t₁ + measurementTime + 1e-6`. The slots in use are the first ones, and each contains the velocities of the
measurement whose time it has. -/
theorem C36_slots {R : Type} {T : K} (hT : 0 ≤ T) (f : D → D → R) (garbage : List D) (calls : List (Slot K D))
    (hpos : ∀ c ∈ calls, 0 ≤ c.time) (hmono : calls.Pairwise fun a b => a.time ≤ b.time) :
    (∀ r ∈ ((VA.make garbage).run T f calls).records, ∃ (i j : ℕ) (a b : Slot K D), i ≤ j ∧ calls[i]? = some a ∧ calls[j]? = some b ∧
      r = (a.time, b.time, f a.data b.data) ∧ a.time ≤ b.time ∧ b.time ≤ a.time + T + tolerance) ∧
    PrefixUsed ((VA.make garbage).run T f calls : VA K D R).slots ∧
    ((VA.make garbage).run T f calls : VA K D R).slots.length = garbage.length ∧
    ∀ s ∈ ((VA.make garbage).run T f calls : VA K D R).slots, 0 ≤ s.time → s ∈ calls := by
  induction calls using List.reverseRecOn with
  | nil =>
    refine ⟨by simp [VA.run, VA.make], ?_, by simp [VA.run, VA.make], ?_⟩
    · show List.Pairwise _ (garbage.map _)
      rw [List.pairwise_map]
      exact List.pairwise_of_forall fun _ _ h => h
    · intro s hs h0
      simp only [VA.run, VA.make, List.foldl_nil, List.mem_map] at hs
      obtain ⟨d, -, rfl⟩ := hs
      exact absurd h0 (by norm_num)
  | append_singleton calls new ih =>
    obtain ⟨ih1, ih2, ih3, ih4⟩ := ih (fun c hc => hpos c (List.mem_append_left _ hc)) (List.pairwise_append.1 hmono).1
    have hnew : 0 ≤ new.time := hpos new (by simp)
    have hle : ∀ c ∈ calls, c.time ≤ new.time := fun c hc =>
      (List.pairwise_append.1 hmono).2.2 c hc new (by simp)
    obtain ⟨hp, hm⟩ := updateLoop_mem hT (count := ((VA.make garbage).run T f calls : VA K D R).slots.length) hnew
      (p := none) ih2
    have hrun : (VA.make garbage).run T f (calls ++ [new]) = ((VA.make garbage).run T f calls).measure T f new := by
      unfold VA.run
      rw [List.foldl_append]
      rfl
    rw [hrun, measure_eq]
    have hlast : (calls ++ [new])[calls.length]? = some new := by simp
    have hslot : ∀ s ∈ updateLoop T ((VA.make garbage).run T f calls : VA K D R).slots.length new none
        ((VA.make garbage).run T f calls : VA K D R).slots, 0 ≤ s.time → s ∈ calls ++ [new] := by
      intro s hs h0
      rcases (hm s hs).1 with h | rfl
      · exact List.mem_append_left _ (ih4 s h h0)
      · simp
    refine ⟨?_, hp, by rw [← ih3]; exact updateLoop_length _ _ _ _ _, hslot⟩
    intro r hr
    rcases List.mem_append.1 hr with hr | hr
    · obtain ⟨i, j, a, b, h1, h2, h3, h4⟩ := ih1 r hr
      refine ⟨i, j, a, b, h1, ?_, ?_, h4⟩
      · rw [List.getElem?_append_left (List.getElem?_eq_some_iff.1 h2).1, h2]
      · rw [List.getElem?_append_left (List.getElem?_eq_some_iff.1 h3).1, h3]
    · rw [List.mem_map] at hr
      obtain ⟨s, hs, rfl⟩ := hr
      rw [List.mem_filter] at hs
      have h0 : 0 ≤ s.time := by simpa using hs.2
      have hmem := hslot s hs.1 h0
      obtain ⟨i, hi⟩ := List.getElem?_of_mem hmem
      have hil : i < (calls ++ [new]).length := (List.getElem?_eq_some_iff.1 hi).1
      rw [List.length_append, List.length_singleton] at hil
      refine ⟨i, calls.length, s, new, by omega, hi, hlast, rfl, ?_, (hm s hs.1).2 h0⟩
      rcases List.mem_append.1 hmem with h | h
      · exact hle s h
      · rw [List.mem_singleton.1 h]

theorem correlation_eq (N : ℕ) (v w : Mem) : correlation N v w = meanProduct N v w := by
  unfold correlation meanProduct
  congr 1
  induction N with
  | zero => rfl
  | succ N ih =>
    rw [Finset.sum_range_succ, ← ih, Nat.mul_add]
    simp only [List.range_succ, List.map_append, List.sum_append, List.map_cons, List.map_nil, List.sum_cons,
      List.sum_nil, vecAt, Vec3.dot, Nat.mul_one]
    ring

/-- C36: the values. -/
theorem C36 {T : ℝ} (hT : 0 ≤ T) (constituents : ℕ) (garbage : List Mem) (calls : List (Slot ℝ Mem))
    (hpos : ∀ c ∈ calls, 0 ≤ c.time) (hmono : calls.Pairwise fun a b => a.time ≤ b.time) (t₁ t₂ x : ℝ)
    (h : (t₁, t₂, x) ∈ ((VA.make garbage).run T (correlation constituents) calls).records) :
    ∃ (i j : ℕ) (a b : Slot ℝ Mem), i ≤ j ∧ calls[i]? = some a ∧ calls[j]? = some b ∧ t₁ = a.time ∧ t₂ = b.time ∧
      x = meanProduct constituents a.data b.data ∧ t₁ ≤ t₂ ∧ t₂ ≤ t₁ + T + 1e-6 := by
  obtain ⟨i, j, a, b, h1, h2, h3, h4, h5, h6⟩ :=
    (C36_slots hT (correlation constituents) garbage calls hpos hmono).1 _ h
  simp only [Prod.mk.injEq] at h4
  obtain ⟨rfl, rfl, rfl⟩ := h4
  refine ⟨i, j, a, b, h1, h2, h3, rfl, rfl, correlation_eq _ _ _, h5, ?_⟩
  have : (tolerance : ℝ) = 1e-6 := by unfold tolerance; norm_num
  rw [← this]
  exact h6

/-- C36: every measurement adds, for each of the slots in use and in their order, one record, and at least one. -/
theorem C36_complete {R : Type} (T : K) (f : D → D → R) (va : VA K D R) (new : Slot K D) (hnew : 0 ≤ new.time)
    (hs : va.slots ≠ []) :
    ∃ used, used ≠ [] ∧ used = (va.measure T f new).slots.filter (fun s => s.time ≥ 0) ∧
      (va.measure T f new).records = va.records ++ used.map fun s => (s.time, new.time, f s.data new.data) := by
  refine ⟨_, ?_, rfl, rfl⟩
  rw [measure_eq]
  obtain ⟨s, rest, h⟩ := List.exists_cons_of_ne_nil hs
  rw [h]
  have h1 : (initSlot T (s :: rest).length new none s).1 = true := by
    unfold initSlot
    split_ifs <;> rfl
  obtain ⟨h2, -⟩ := initSlot_true hnew h1
  intro hnil
  rw [List.filter_eq_nil_iff] at hnil
  by_cases h3 : new.time - (initSlot T (s :: rest).length new none s).2.time - tolerance > T
  · exact hnil new (by dsimp only; rw [updateLoop, if_pos h1, if_pos h3]; simp) (by simpa using hnew)
  · exact hnil _ (by dsimp only; rw [updateLoop, if_pos h1, if_neg h3]; exact List.mem_cons_self)
      (by simpa using h2)

/-! ### The documented procedure -/

theorem updateLoop_unused {T : K} {count : ℕ} {new : Slot K D} {unused : List (Slot K D)}
    (hsep : tolerance ≤ T / count) (hu : ∀ s ∈ unused, s.time < 0) (hnew : 0 ≤ new.time) :
    updateLoop T count new (some new.time) unused = unused := by
  cases unused with
  | nil => rfl
  | cons s rest =>
    have h1 : initSlot T count new (some new.time) s = (false, s) := by
      unfold initSlot
      rw [if_neg (not_le.2 (hu s (by simp)))]
      dsimp only
      rw [if_neg (not_lt.2 hnew), if_neg]
      rw [sub_self, zero_add]
      exact not_lt.2 hsep
    unfold updateLoop
    rw [h1]
    simp

/-- Slots in use that are all recent enough are skipped. -/
theorem updateLoop_append {T : K} {count : ℕ} {new : Slot K D} (taken unused : List (Slot K D)) (p : Option K)
    (ht : ∀ s ∈ taken, 0 ≤ s.time) :
    updateLoop T count new p (taken ++ unused) =
      taken.map (fun s => if new.time - s.time - tolerance > T then new else s) ++
        updateLoop T count new
          (((taken.map (fun s => if new.time - s.time - tolerance > T then new else s)).getLast?.map Slot.time).or p)
          unused := by
  induction taken generalizing p with
  | nil => simp
  | cons s rest ih =>
    have h1 : initSlot T count new p s = (true, s) := by
      unfold initSlot
      rw [if_pos (ht s (by simp))]
    rw [List.cons_append, updateLoop, h1]
    dsimp only
    rw [if_pos rfl, List.map_cons, List.cons_append]
    have hrest : ∀ s ∈ rest, 0 ≤ s.time := fun x hx => ht x (List.mem_cons_of_mem _ hx)
    have hlast : ∀ (y : Slot K D) (ys : List (Slot K D)) (q : Option K),
        (((y :: ys).getLast?.map Slot.time).or q) = ((ys.getLast?.map Slot.time).or (some y.time)) := by
      intro y ys q
      cases ys with
      | nil => rfl
      | cons z zs =>
        rw [List.getLast?_cons_cons]
        obtain ⟨w, hw⟩ : ∃ w, (z :: zs).getLast? = some w := ⟨_, List.getLast?_eq_getLast_of_ne_nil (by simp)⟩
        rw [hw]
        rfl
    rw [hlast]
    by_cases h2 : new.time - s.time - tolerance > T
    · rw [if_pos h2, if_pos h2, ih _ hrest]
    · rw [if_neg h2, if_neg h2, ih _ hrest]

/-- C67: `measure` proceeds as documented, if all snapshots have been taken before, or if none of those taken so far is
older than the measurement time (and the time between two snapshots is not less than the tolerance). -/
theorem C67_partial {T : K} {count : ℕ} {new : Slot K D} {taken unused : List (Slot K D)}
    (hcount : (taken ++ unused).length = count) (h0 : 0 < count) (hT : 0 ≤ T) (hsep : tolerance ≤ T / count)
    (hnew : 0 ≤ new.time) (ht : ∀ s ∈ taken, 0 ≤ s.time) (hu : ∀ s ∈ unused, s.time < 0)
    (h : unused = [] ∨ ∀ s ∈ taken, new.time - s.time ≤ T + tolerance) :
    (updateLoop T count new none (taken ++ unused)).filter (fun s => s.time ≥ 0) = documented T count new taken := by
  have hfilter : ∀ l : List (Slot K D), (∀ s ∈ l, 0 ≤ s.time) → l.filter (fun s => s.time ≥ 0) = l := by
    intro l hl
    rw [List.filter_eq_self]
    exact fun s hs => by simpa using hl s hs
  have hfilter' : ∀ l : List (Slot K D), (∀ s ∈ l, s.time < 0) → l.filter (fun s => s.time ≥ 0) = [] := by
    intro l hl
    rw [List.filter_eq_nil_iff]
    exact fun s hs => by simpa using hl s hs
  have htol : (0 : K) < tolerance := by unfold tolerance; positivity
  have hcond : ∀ s : Slot K D, (new.time - s.time - tolerance > T) ↔ (new.time - s.time > T + tolerance) := by
    intro s
    constructor <;> intro h <;> linarith
  have hmap0 : ∀ s ∈ taken.map (fun s => if new.time - s.time - tolerance > T then new else s), 0 ≤ s.time := by
    intro s hs
    rw [List.mem_map] at hs
    obtain ⟨x, hx, rfl⟩ := hs
    split_ifs
    · exact hnew
    · exact ht x hx
  unfold documented
  cases hl : taken.getLast? with
  | none =>
    rw [List.getLast?_eq_none_iff] at hl
    subst hl
    rw [List.nil_append] at *
    obtain ⟨s, rest, rfl⟩ := List.exists_cons_of_ne_nil (by rintro rfl; simp at hcount; omega : unused ≠ [])
    have h1 : initSlot T count new none s = (true, new) := by
      unfold initSlot
      rw [if_neg (not_le.2 (hu s (by simp)))]
    have h2 : ¬ new.time - new.time - tolerance > T := by
      rw [sub_self]
      intro h
      linarith
    have h3 : ∀ x ∈ rest, x.time < 0 := fun x hx => hu x (List.mem_cons_of_mem _ hx)
    rw [updateLoop, h1]
    dsimp only
    rw [if_pos rfl, if_neg h2, updateLoop_unused hsep h3 hnew]
    rw [List.filter_cons_of_pos (by simpa using hnew), hfilter' _ h3]
  | some latest =>
    dsimp only
    have hlatest : latest ∈ taken := List.mem_of_getLast? hl
    rw [updateLoop_append _ _ _ ht]
    cases hun : unused with
    | nil =>
      subst hun
      rw [List.append_nil] at hcount
      rw [if_neg (by omega)]
      simp only [updateLoop, List.append_nil]
      rw [hfilter _ hmap0]
      apply List.map_congr_left
      intro s _
      simp only [hcond]
    | cons s rest =>
      subst hun
      have hlt : taken.length < count := by
        rw [List.length_append, List.length_cons] at hcount
        omega
      rw [if_pos hlt]
      have hrec : ∀ s ∈ taken, new.time - s.time ≤ T + tolerance := by
        rcases h with h | h
        · simp at h
        · exact h
      have hid : taken.map (fun s => if new.time - s.time - tolerance > T then new else s) = taken := by
        conv_rhs => rw [← List.map_id taken]
        apply List.map_congr_left
        intro x hx
        rw [if_neg]
        · rfl
        · rw [hcond]
          exact not_lt.2 (hrec x hx)
      rw [hid, hl]
      have hs := hu s (by simp)
      have hrest : ∀ x ∈ rest, x.time < 0 := fun x hx => hu x (List.mem_cons_of_mem _ hx)
      have hl0 : ¬ latest.time < 0 := not_lt.2 (ht _ hlatest)
      rw [show (Option.map Slot.time (some latest)).or none = some latest.time from rfl, updateLoop]
      by_cases hc : new.time - latest.time > T / count - tolerance
      · have h1 : initSlot T count new (some latest.time) s = (true, new) := by
          unfold initSlot
          rw [if_neg (not_le.2 hs)]
          dsimp only
          rw [if_neg hl0, if_pos (by linarith)]
        have h2 : ¬ new.time - new.time - tolerance > T := by
          rw [sub_self]
          intro h
          linarith
        rw [h1]
        dsimp only
        rw [if_pos rfl, if_neg h2, updateLoop_unused hsep hrest hnew, if_pos hc, List.filter_append, hfilter _ ht,
          List.filter_cons_of_pos (by simpa using hnew), hfilter' _ hrest]
      · have h1 : initSlot T count new (some latest.time) s = (false, s) := by
          unfold initSlot
          rw [if_neg (not_le.2 hs)]
          dsimp only
          rw [if_neg hl0, if_neg (by intro h; exact hc (by linarith))]
        rw [h1]
        dsimp only
        rw [if_neg (by simp), if_neg hc, List.filter_append, hfilter _ ht, hfilter' _ hu, List.append_nil]

/-- C67 fails in general: for a valid configuration, and measurements after each time step, a snapshot is overridden
though less than the configured number of snapshots have been taken. -/
theorem C67_violated : ∃ (T dt : ℚ) (count : ℕ) (calls : List (Slot ℚ Unit)),
    configValid T dt count ∧ calls = (List.range calls.length).map (fun i : ℕ => ⟨(i : ℚ) * dt, ()⟩) ∧
    ((VA.make (List.replicate count ())).run T (fun _ _ => ()) calls).slots.filter (fun s => s.time ≥ 0) ≠
      calls.foldl (fun taken new => documented T count new taken) [] := by
  refine ⟨10, 12 / 5, 4, (List.range 6).map (fun i : ℕ => ⟨(i : ℚ) * (12 / 5), ()⟩), ?_, ?_, ?_⟩
  · unfold configValid tolerance
    norm_num
  · simp
  · decide +kernel

/-- A history that meets the hypotheses of `C36`. -/
example (v w : Mem) : (∀ c ∈ [(⟨0, v⟩ : Slot ℝ Mem), ⟨1, w⟩], 0 ≤ c.time) ∧
    [(⟨0, v⟩ : Slot ℝ Mem), ⟨1, w⟩].Pairwise fun a b => a.time ≤ b.time := by
  constructor <;> simp

/-- The hypotheses of `C67_partial` can be met, both ways. -/
example : (updateLoop (10 : ℚ) 2 (⟨5, ()⟩ : Slot ℚ Unit) none [⟨0, ()⟩, ⟨-1, ()⟩]).map Slot.time = [0, 5] := by
  decide +kernel

example : (updateLoop (10 : ℚ) 2 (⟨11, ()⟩ : Slot ℚ Unit) none [⟨0, ()⟩, ⟨5, ()⟩]).map Slot.time = [11, 5] := by
  decide +kernel

end OpenMPCD.Instr
