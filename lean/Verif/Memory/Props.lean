import Verif.Memory.Model
import Mathlib.Tactic.Common
import Mathlib.Data.Finset.Sort

/-!
# C21: device memory bookkeeping
-/

namespace OpenMPCD.Memory

/-! ## Specification -/

/-- The addresses allocated on the device after a log of calls; `none` if at some point memory was freed
that was not allocated, or an allocated address was handed out. -/
def live : List Event → Finset ℕ → Option (Finset ℕ)
  | [], L => some L
  | .malloc p :: es, L => if p ∈ L then none else live es (insert p L)
  | .free p :: es, L => if p ∈ L then live es (L.erase p) else none

/-- How often an address is freed / handed out in a log. -/
def frees (p : ℕ) (log : List Event) : ℕ :=
  (log.filter fun e => match e with | .free q => q == p | _ => false).length
def mallocs (p : ℕ) (log : List Event) : ℕ :=
  (log.filter fun e => match e with | .malloc q => q == p | _ => false).length

/-- The contract of the runtime: `cudaMalloc` returns an address that is not `NULL` and not allocated
at the moment. -/
def AnswerOk (L : Finset ℕ) (a : Answer) : Prop := ∀ p, a = some p → p ≠ 0 ∧ p ∉ L

/-- A history of calls in which the runtime honours its contract, and the users of the static functions
only free what they allocated with them (`U` is what they hold). Nothing is required of the calls to
`freeMemory`. -/
inductive History : State → Finset ℕ → Prop
  | start : History initial ∅
  | allocate {s U L} (n : ℕ) (a : Answer) (h : History s U) (hL : live s.log ∅ = some L)
      (ha : AnswerOk L a) : History (exec s (.allocate n a)) U
  | allocateUnregistered {s U L} (n : ℕ) (a : Answer) (h : History s U)
      (hL : live s.log ∅ = some L) (ha : AnswerOk L a) :
      History (exec s (.allocateUnregistered n a))
        (if n = 0 then U else match a with | none => U | some p => insert p U)
  | free {s U} (p : ℕ) (h : History s U) : History (exec s (.free p)) U
  | freeUnregistered {s U} (p : ℕ) (h : History s U) (hp : p = 0 ∨ p ∈ U) :
      History (exec s (.freeUnregistered p)) (U.erase p)
  | setAutofree {s U} (b : Bool) (h : History s U) : History (exec s (.setAutofree b)) U

/-! ## Proofs -/

theorem live_append (l₁ l₂ : List Event) (L : Finset ℕ) :
    live (l₁ ++ l₂) L = (live l₁ L).bind (live l₂) := by
  induction l₁ generalizing L with
  | nil => simp [live]
  | cons e es ih =>
    cases e with
    | malloc p =>
      simp only [List.cons_append, live]
      split_ifs
      · rfl
      · exact ih _
    | free p =>
      simp only [List.cons_append, live]
      split_ifs
      · exact ih _
      · rfl

/-- The invariant: the allocated memory is what the manager has registered and what the users of the
static functions hold, and these are disjoint. -/
theorem history_inv {s : State} {U : Finset ℕ} (h : History s U) :
    live s.log ∅ = some (s.allocatedBuffers ∪ U) ∧ Disjoint s.allocatedBuffers U ∧
      0 ∉ s.allocatedBuffers ∪ U := by
  induction h with
  | start => simp [initial, live]
  | @allocate s U L n a h hL ha ih =>
    obtain ⟨i1, i2, i3⟩ := ih
    rw [i1, Option.some.injEq] at hL
    subst hL
    simp only [exec, allocate, allocateUnregistered]
    by_cases hn : n = 0
    · simp only [if_pos hn]; exact ⟨i1, i2, i3⟩
    · simp only [if_neg hn]
      cases a with
      | none => exact ⟨i1, i2, i3⟩
      | some p =>
        obtain ⟨h0, hp⟩ := ha p rfl
        simp only
        refine ⟨?_, ?_, ?_⟩
        · rw [live_append, i1, Option.bind_some]
          simp only [live, if_neg hp, Finset.insert_union]
        · rw [Finset.disjoint_insert_left]
          exact ⟨fun hu => hp (Finset.mem_union_right _ hu), i2⟩
        · rw [Finset.insert_union, Finset.mem_insert]
          rintro (e | e)
          · exact h0 e.symm
          · exact i3 e
  | @allocateUnregistered s U L n a h hL ha ih =>
    obtain ⟨i1, i2, i3⟩ := ih
    rw [i1, Option.some.injEq] at hL
    subst hL
    simp only [exec, allocateUnregistered]
    by_cases hn : n = 0
    · simp only [if_pos hn]; exact ⟨i1, i2, i3⟩
    · simp only [if_neg hn]
      cases a with
      | none => exact ⟨i1, i2, i3⟩
      | some p =>
        obtain ⟨h0, hp⟩ := ha p rfl
        simp only
        refine ⟨?_, ?_, ?_⟩
        · rw [live_append, i1, Option.bind_some]
          simp only [live, if_neg hp, Finset.union_insert]
        · rw [Finset.disjoint_insert_right]
          exact ⟨fun hu => hp (Finset.mem_union_left _ hu), i2⟩
        · rw [Finset.union_insert, Finset.mem_insert]
          rintro (e | e)
          · exact h0 e.symm
          · exact i3 e
  | @free s U p h ih =>
    obtain ⟨i1, i2, i3⟩ := ih
    simp only [exec, free]
    by_cases h0 : p = 0
    · simp only [if_pos h0]; exact ⟨i1, i2, i3⟩
    · simp only [if_neg h0]
      by_cases hp : p ∈ s.allocatedBuffers
      · rw [if_neg (not_not.2 hp)]
        simp only [freeUnregistered, if_neg h0]
        have hU : p ∉ U := Finset.disjoint_left.1 i2 hp
        refine ⟨?_, ?_, ?_⟩
        · rw [live_append, i1, Option.bind_some]
          simp only [live, if_pos (Finset.mem_union_left U hp)]
          rw [Finset.erase_union_distrib, Finset.erase_eq_of_notMem hU]
        · exact Finset.disjoint_of_subset_left (Finset.erase_subset _ _) i2
        · intro hm
          exact i3 (Finset.union_subset_union_left (Finset.erase_subset _ _) hm)
      · rw [if_pos hp]; exact ⟨i1, i2, i3⟩
  | @freeUnregistered s U p h hp ih =>
    obtain ⟨i1, i2, i3⟩ := ih
    have hUe : Disjoint s.allocatedBuffers (U.erase p) :=
      Finset.disjoint_of_subset_right (Finset.erase_subset _ _) i2
    have h0e : 0 ∉ s.allocatedBuffers ∪ U.erase p := fun hm =>
      i3 (Finset.union_subset_union_right (Finset.erase_subset _ _) hm)
    simp only [exec, freeUnregistered]
    by_cases h0 : p = 0
    · have : U.erase p = U := Finset.erase_eq_of_notMem fun hu =>
        i3 (Finset.mem_union_right _ (h0 ▸ hu))
      rw [if_pos h0, this]; exact ⟨i1, i2, i3⟩
    · rw [if_neg h0]
      have hpU : p ∈ U := hp.resolve_left h0
      refine ⟨?_, hUe, h0e⟩
      rw [live_append, i1, Option.bind_some]
      simp only [live, if_pos (Finset.mem_union_right s.allocatedBuffers hpU)]
      rw [Finset.erase_union_distrib,
        Finset.erase_eq_of_notMem (Finset.disjoint_right.1 i2 hpU)]
  | setAutofree b h ih => exact ih

/-- Freeing distinct allocated addresses one after the other. -/
theorem live_frees (ps : List ℕ) (hd : ps.Nodup) (L : Finset ℕ) (h : ∀ p ∈ ps, p ∈ L) :
    live (ps.map Event.free) L = some (L \ ps.toFinset) := by
  induction ps generalizing L with
  | nil => simp [live]
  | cons p ps ih =>
    rw [List.nodup_cons] at hd
    simp only [List.map_cons, live, if_pos (h p List.mem_cons_self)]
    rw [ih hd.2 _ fun q hq => Finset.mem_erase.2
      ⟨fun e => hd.1 (by rw [← e]; exact hq), h q (List.mem_cons_of_mem _ hq)⟩]
    congr 1
    ext q
    simp only [Finset.mem_sdiff, Finset.mem_erase, List.toFinset_cons, Finset.mem_insert]
    tauto

/-- `elements` lists the members of a set (iteration over a `std::set`). -/
def Enumerates (elements : List ℕ) (S : Finset ℕ) : Prop :=
  elements.Nodup ∧ elements.toFinset = S

/-- C21: at no point of any history is memory freed that is not allocated at that time (so nothing is
freed twice), and what is allocated is exactly what was allocated through the manager and not yet
freed, and what others hold. -/
theorem C21_no_bad_free {s : State} {U : Finset ℕ} (h : History s U) :
    live s.log ∅ = some (s.allocatedBuffers ∪ U) ∧ Disjoint s.allocatedBuffers U :=
  ⟨(history_inv h).1, (history_inv h).2.1⟩

/-- C21: destruction with autofree frees everything still registered, nothing else, and nothing twice;
nothing is reported. -/
theorem C21_autofree {s : State} {U : Finset ℕ} (h : History s U) (ha : s.autofree = true)
    {elements : List ℕ} (he : Enumerates elements s.allocatedBuffers) :
    live (destroy elements s).1 ∅ = some U ∧ (destroy elements s).2 = [] := by
  obtain ⟨i1, i2, -⟩ := history_inv h
  unfold destroy
  by_cases hn : elements = []
  · have : s.allocatedBuffers = ∅ := by rw [← he.2, hn]; rfl
    rw [if_pos hn]
    refine ⟨?_, rfl⟩
    rw [i1, this, Finset.empty_union]
  · rw [if_neg hn, if_pos ha]
    refine ⟨?_, rfl⟩
    show live (s.log ++ elements.map Event.free) ∅ = some U
    rw [live_append, i1, Option.bind_some, live_frees elements he.1 _ fun p hp =>
      Finset.mem_union_left _ (he.2 ▸ List.mem_toFinset.2 hp), he.2,
      Finset.union_sdiff_left, Finset.sdiff_eq_self_of_disjoint i2.symm]

/-- C21: destruction without autofree frees nothing and reports exactly what is still registered. -/
theorem C21_report {s : State} (ha : s.autofree = false)
    {elements : List ℕ} (he : Enumerates elements s.allocatedBuffers) :
    (destroy elements s).1 = s.log ∧ (destroy elements s).2.toFinset = s.allocatedBuffers := by
  unfold destroy
  by_cases hn : elements = []
  · rw [if_pos hn]
    refine ⟨rfl, ?_⟩
    rw [← he.2, hn]
  · rw [if_neg hn, ha]
    exact ⟨rfl, he.2⟩

/-- C21: `freeMemory` does nothing for `NULL`, throws and changes nothing for every other pointer that is
not registered, and otherwise succeeds, frees the pointer once and forgets it. -/
theorem C21_free (s : State) (p : ℕ) :
    (p = 0 → free p s = (s, .ok ())) ∧
    (p ≠ 0 → p ∉ s.allocatedBuffers → free p s = (s, .error .memoryManagement)) ∧
    (p ≠ 0 → p ∈ s.allocatedBuffers → (free p s).2 = .ok () ∧
      (free p s).1.log = s.log ++ [.free p] ∧
      ∀ q, q ∈ (free p s).1.allocatedBuffers ↔ q ∈ s.allocatedBuffers ∧ q ≠ p) := by
  refine ⟨fun h => ?_, fun h0 hp => ?_, fun h0 hp => ?_⟩
  · rw [free, if_pos h]
  · rw [free, if_neg h0, if_pos hp]
  · rw [free, if_neg h0, if_neg (not_not.2 hp)]
    refine ⟨rfl, ?_, ?_⟩
    · simp [freeUnregistered, h0]
    · intro q
      simp only [Finset.mem_erase]
      tauto

/-- C21: a second `freeMemory` of the same pointer throws. -/
theorem C21_double_free (s : State) (p : ℕ) (h0 : p ≠ 0) :
    (free p (free p s).1).2 = .error .memoryManagement := by
  by_cases hp : p ∈ s.allocatedBuffers
  · have h := ((C21_free s p).2.2 h0 hp).2.2 p
    have : p ∉ (free p s).1.allocatedBuffers := by
      rw [h]; tauto
    rw [(C21_free _ p).2.1 h0 this]
  · rw [(C21_free s p).2.1 h0 hp, (C21_free s p).2.1 h0 hp]

/-- C21: a request of size zero returns `NULL` and changes nothing; a failing one throws and changes
nothing; a successful one returns the new address and registers it. -/
theorem C21_allocate (s : State) (n : ℕ) (a : Answer) :
    (n = 0 → allocate n a s = (s, .ok 0)) ∧
    (n ≠ 0 → a = none → allocate n a s = (s, .error .memoryManagement)) ∧
    (∀ p, n ≠ 0 → a = some p → (allocate n a s).2 = .ok p ∧
      (allocate n a s).1.log = s.log ++ [.malloc p] ∧
      ∀ q, q ∈ (allocate n a s).1.allocatedBuffers ↔ q = p ∨ q ∈ s.allocatedBuffers) := by
  refine ⟨fun h => ?_, fun h0 ha => ?_, fun p h0 ha => ?_⟩
  · rw [allocate, if_pos h]
  · subst ha
    simp only [allocate, allocateUnregistered, if_neg h0]
  · subst ha
    simp only [allocate, allocateUnregistered, if_neg h0, Finset.mem_insert, implies_true, and_self]

/-- In a log without a bad free, no address is freed more often than it is handed out. -/
theorem frees_le_mallocs (log : List Event) (L L' : Finset ℕ) (h : live log L = some L') (p : ℕ) :
    frees p log + (if p ∈ L' then 1 else 0) = mallocs p log + (if p ∈ L then 1 else 0) := by
  induction log generalizing L with
  | nil =>
    simp only [live, Option.some.injEq] at h
    subst h
    rfl
  | cons e es ih =>
    cases e with
    | malloc q =>
      simp only [live] at h
      split_ifs at h with hq
      have := ih _ h
      simp only [frees, mallocs, List.filter_cons, Finset.mem_insert] at this ⊢
      by_cases hpq : q = p
      · subst hpq; simp only [hq, beq_self_eq_true, if_true, List.length_cons, true_or,
          if_false, Bool.false_eq_true] at this ⊢; omega
      · have h2 : (q == p) = false := by simp [hpq]
        have h3 : ¬ p = q := fun e => hpq e.symm
        simp only [h2, h3, false_or, Bool.false_eq_true, if_false] at this ⊢; exact this
    | free q =>
      simp only [live] at h
      split_ifs at h with hq
      have := ih _ h
      simp only [frees, mallocs, List.filter_cons, Finset.mem_erase] at this ⊢
      by_cases hpq : q = p
      · subst hpq; simp only [hq, beq_self_eq_true, if_true, List.length_cons, ne_eq,
          not_true_eq_false, false_and, if_false, Bool.false_eq_true] at this ⊢; omega
      · have h2 : (q == p) = false := by simp [hpq]
        have h3 : p ≠ q := fun e => hpq e.symm
        simp only [h2, h3, ne_eq, not_false_eq_true, true_and, Bool.false_eq_true,
          if_false] at this ⊢; exact this

/-- C21: over a whole lifetime with autofree and no foreign buffers, every address is freed exactly as
often as it was handed out. -/
theorem C21_balanced {s : State} (h : History s ∅) (ha : s.autofree = true)
    {elements : List ℕ} (he : Enumerates elements s.allocatedBuffers) (p : ℕ) :
    frees p (destroy elements s).1 = mallocs p (destroy elements s).1 := by
  have := frees_le_mallocs _ _ _ (C21_autofree h ha he).1 p
  simpa using this

/-- A history: two allocations, one of them freed, an invalid free, and destruction with autofree. -/
example : ∃ s, History s ∅ ∧ s.allocatedBuffers = {32} ∧ s.autofree = true ∧
    Enumerates [32] s.allocatedBuffers := by
  have h1 := History.allocate 8 (some 16) .start (L := ∅) rfl
    (by intro p hp; cases hp; exact ⟨by decide, by decide⟩)
  have h2 := History.allocate 8 (some 32) h1 (L := {16}) rfl
    (by intro p hp; cases hp; exact ⟨by decide, by decide⟩)
  have h5 := History.setAutofree true (.free 99 (.free 16 h2))
  exact ⟨_, h5, by decide, by decide, by simp, by decide⟩

end OpenMPCD.Memory
