import Verif.Common
import Mathlib.Algebra.BigOperators.Group.Finset.Basic
import Mathlib.Algebra.BigOperators.Fin
import Mathlib.Algebra.BigOperators.Intervals
import Mathlib.Algebra.Field.Rat
import Mathlib.Data.Rat.Defs
import Mathlib.Tactic.NormNum
import Mathlib.Tactic.Ring

/-!
# Arithmetic means computed on the device (C164)

`include/OpenMPCD/CUDA/DeviceCode/ImplementationDetails/Average.hpp`. Simplifications: numbers are elements of a field, without
rounding; addresses count elements. `thrust::reduce` may read and add the values in any order and with any parentheses; the order may be
another one in each thread.
-/

set_option linter.unusedSectionVars false
set_option linter.unusedSimpArgs false
set_option linter.unusedVariables false

namespace OpenMPCD.Stats.DeviceMean

variable {F : Type} [Field F]

/-! ## Model -/

/-- The memory of the device. -/
abbrev Mem (F : Type) := ℕ → F

/-- How `thrust::reduce` adds the initial value, which is zero, and the values. -/
inductive Tree where
  | init
  | leaf (i : ℕ)
  | node (l r : Tree)

/-- What occurs in the sum; `none` is the initial value. -/
def Tree.leaves : Tree → List (Option ℕ)
  | .init => [none]
  | .leaf i => [some i]
  | .node l r => l.leaves ++ r.leaves

/-- The value of the sum. -/
def Tree.eval (x : ℕ → F) : Tree → F
  | .init => 0
  | .leaf i => x i
  | .node l r => l.eval x + r.eval x

/-- A way of adding `n` values that `thrust::reduce` may choose. -/
def Tree.Sums (t : Tree) (n : ℕ) : Prop := t.leaves.Perm (none :: (List.range n).map some)

/-- A thread of the kernel: the indices of the values yet to be read, the values read, and whether it is done. -/
structure Thread (F : Type) where
  remaining : List ℕ
  got : ℕ → F
  done : Bool

/-- The memory and the threads. -/
structure State (F : Type) where
  mem : Mem F
  threads : ℕ → Thread F

/-- The next step of a thread of `arithmeticMean_kernel`
(`include/OpenMPCD/CUDA/DeviceCode/ImplementationDetails/Average.hpp:27-29`): reading a value, or writing the result. -/
def step (values n output : ℕ) (tree : ℕ → Tree) (s : State F) (t : ℕ) : State F :=
  let th := s.threads t
  if th.done then s
  else match th.remaining with
    | i :: rest =>
      { s with threads := Function.update s.threads t ⟨rest, Function.update th.got i (s.mem (values + i)), false⟩ }
    | [] =>
      ⟨Function.update s.mem output ((tree t).eval th.got / (n : F)), Function.update s.threads t { th with done := true }⟩

/-- Launching `arithmeticMean_kernel` (`include/OpenMPCD/CUDA/DeviceCode/ImplementationDetails/Average.hpp:21-30`), with the orders in
which the threads read. -/
def launch (order : ℕ → List ℕ) (mem : Mem F) : State F := ⟨mem, fun t => ⟨order t, fun _ => 0, false⟩⟩

/-- The state after the threads have taken steps in the order of the schedule. -/
def runKernel (values n output : ℕ) (tree : ℕ → Tree) (s : State F) (schedule : List ℕ) : State F :=
  schedule.foldl (step values n output tree) s

/-- Exceptions. -/
inductive Err where
  | nullPointer | invalidArgument
  deriving DecidableEq

/-- A pointer: null, to an element of the device's memory, or to the host's. -/
inductive Ptr where
  | null | device (a : ℕ) | host

/-- How a call ends; in the undefined case nothing is known. -/
inductive Outcome (F : Type) where
  | throws (e : Err)
  | undefined
  | returns (mem : Mem F)

/-- `arithmeticMean` without the checks (`include/OpenMPCD/CUDA/DeviceCode/ImplementationDetails/Average.hpp:55-59`). All values have
been read when the result is copied. -/
def unchecked (tree : Tree) (values : Ptr) (n : ℕ) (output : Ptr) (mem : Mem F) : Outcome F :=
  if n = 0 then .undefined
  else match values, output with
    | .device v, .device o => .returns (Function.update mem o (tree.eval (fun i => mem (v + i)) / (n : F)))
    | _, _ => .undefined

/-- `arithmeticMean` (`include/OpenMPCD/CUDA/DeviceCode/ImplementationDetails/Average.hpp:32-60`), with or without `OPENMPCD_DEBUG`. -/
def arithmeticMean (debug : Bool) (tree : Tree) (values : Ptr) (n : ℕ) (output : Ptr) (mem : Mem F) : Outcome F :=
  if debug then
    match values with
    | .null => .throws .nullPointer
    | _ =>
      if n = 0 then .throws .invalidArgument
      else match output with
        | .null => .throws .nullPointer
        | _ => match values with
          | .host => .throws .invalidArgument
          | _ => match output with
            | .host => .throws .invalidArgument
            | _ => unchecked tree values n output mem
  else unchecked tree values n output mem

/-! ## Specification -/

open Finset in
/-- The mean of `n` values that are stored beginning at an address. -/
def mean (mem : Mem F) (values n : ℕ) : F := (∑ i ∈ range n, mem (values + i)) / (n : F)

/-! ## Proofs -/

theorem eval_leaves (x : ℕ → F) (t : Tree) : t.eval x = (t.leaves.map fun o => o.elim 0 x).sum := by
  induction t with
  | init => simp [Tree.eval, Tree.leaves]
  | leaf i => simp [Tree.eval, Tree.leaves]
  | node l r hl hr => simp [Tree.eval, Tree.leaves, hl, hr]

theorem eval_sums (t : Tree) (n : ℕ) (h : t.Sums n) (x y : ℕ → F) (hx : ∀ i < n, x i = y i) :
    t.eval x = ∑ i ∈ Finset.range n, y i := by
  rw [eval_leaves, (h.map _).sum_eq, List.map_cons, List.sum_cons, List.map_map, ← Finset.sum_congr rfl (fun i hi => hx i (Finset.mem_range.1 hi)),
    Finset.sum_range, ← List.sum_ofFn]
  simp only [Option.elim, zero_add]
  congr 1
  apply List.ext_getElem <;> simp

/-- What holds at all times. -/
def Inv (values n output : ℕ) (m0 : Mem F) (s : State F) : Prop :=
  (∀ a, a ≠ output → s.mem a = m0 a) ∧
  (∀ t, ∀ i < n, i ∈ (s.threads t).remaining ∨ (s.threads t).got i = m0 (values + i)) ∧
  ((∀ t, (s.threads t).done = false) ∧ s.mem output = m0 output ∨ s.mem output = mean m0 values n)

theorem inv_step (values n output : ℕ) (tree : ℕ → Tree) (m0 : Mem F) (hs : ∀ t, (tree t).Sums n)
    (ho : ∀ i < n, values + i ≠ output) (s : State F) (h : Inv values n output m0 s) (t : ℕ) :
    Inv values n output m0 (step values n output tree s t) := by
  obtain ⟨h1, h2, h3⟩ := h
  unfold step
  simp only
  split_ifs with hd
  · exact ⟨h1, h2, h3⟩
  · split
    · next i rest hr =>
      refine ⟨h1, ?_, ?_⟩
      · intro t' j hj
        by_cases ht : t' = t
        · subst ht
          simp only [Function.update_self]
          by_cases hi : j = i
          · subst hi
            right
            rw [Function.update_self, h1 _ (ho _ hj)]
          · rw [Function.update_of_ne hi]
            rcases h2 t' j hj with h | h
            · rw [hr] at h
              rcases List.mem_cons.1 h with h | h
              · exact absurd h hi
              · exact .inl h
            · exact .inr h
        · simp only [Function.update_of_ne ht]
          exact h2 t' j hj
      · rcases h3 with ⟨ha, hb⟩ | h3
        · left
          refine ⟨?_, hb⟩
          intro t'
          by_cases ht : t' = t
          · subst ht
            simp only [Function.update_self]
          · simp only [Function.update_of_ne ht]
            exact ha t'
        · exact .inr h3
    · next hr =>
      refine ⟨?_, ?_, ?_⟩
      · intro a ha
        simp only [Function.update_of_ne ha]
        exact h1 a ha
      · intro t' j hj
        by_cases ht : t' = t
        · subst ht
          simp only [Function.update_self]
          exact h2 t' j hj
        · simp only [Function.update_of_ne ht]
          exact h2 t' j hj
      · right
        simp only [Function.update_self]
        rw [mean, eval_sums (tree t) n (hs t) _ (fun i => m0 (values + i))]
        intro i hi
        rcases h2 t i hi with h | h
        · rw [hr] at h
          simp at h
        · exact h

theorem inv_run (values n output : ℕ) (tree : ℕ → Tree) (m0 : Mem F) (hs : ∀ t, (tree t).Sums n)
    (ho : ∀ i < n, values + i ≠ output) (schedule : List ℕ) (s : State F) (h : Inv values n output m0 s) :
    Inv values n output m0 (runKernel values n output tree s schedule) := by
  induction schedule generalizing s with
  | nil => exact h
  | cons t ts ih => exact ih _ (inv_step values n output tree m0 hs ho s h t)

/-- C164: if the result is not written to one of the values, then once any thread of the kernel is done, the result is the arithmetic
mean, and stays so, whatever the schedule; nothing else is changed. Missing: results that are written to one of the values. -/
theorem C164_kernel_partial (values n output : ℕ) (tree : ℕ → Tree) (order : ℕ → List ℕ) (m0 : Mem F) (hs : ∀ t, (tree t).Sums n)
    (hord : ∀ t, (order t).Perm (List.range n)) (ho : ∀ i < n, values + i ≠ output) (schedule : List ℕ) :
    (∀ a, a ≠ output → (runKernel values n output tree (launch order m0) schedule).mem a = m0 a) ∧
      ∀ t, ((runKernel values n output tree (launch order m0) schedule).threads t).done →
        (runKernel values n output tree (launch order m0) schedule).mem output = mean m0 values n := by
  have h0 : Inv values n output m0 (launch order m0) := by
    refine ⟨fun _ _ => rfl, ?_, .inl ⟨fun _ => rfl, rfl⟩⟩
    intro t i hi
    exact .inl ((hord t).mem_iff.2 (List.mem_range.2 hi))
  obtain ⟨h1, _, h3⟩ := inv_run values n output tree m0 hs ho schedule _ h0
  refine ⟨h1, ?_⟩
  intro t ht
  rcases h3 with ⟨h, _⟩ | h
  · rw [h t] at ht
    cases ht
  · exact h

/-- C164: a thread is done after it has taken one step for each value, and one more. -/
theorem C164_done (values n output : ℕ) (tree : ℕ → Tree) (order : ℕ → List ℕ) (m0 : Mem F)
    (hord : ∀ t, (order t).Perm (List.range n)) (schedule : List ℕ) (t : ℕ) (hc : n + 1 ≤ schedule.count t) :
    ((runKernel values n output tree (launch order m0) schedule).threads t).done = true := by
  have key : ∀ (schedule : List ℕ) (s : State F), (s.threads t).remaining.length + 1 ≤ schedule.count t ∨ (s.threads t).done = true →
      ((runKernel values n output tree s schedule).threads t).done = true := by
    intro schedule
    induction schedule with
    | nil =>
      rintro s (h | h)
      · simp at h
      · exact h
    | cons u us ih =>
      intro s h
      refine ih _ ?_
      by_cases hu : u = t
      · subst hu
        unfold step
        simp only
        split_ifs with hd
        · exact .inr hd
        · rcases h with h | h
          · rw [List.count_cons_self] at h
            split
            · next i rest hr =>
              left
              rw [hr, List.length_cons] at h
              simp only [Function.update_self]
              omega
            · right
              simp only [Function.update_self]
          · exact absurd h hd
      · have e : (step values n output tree s u).threads t = s.threads t := by
          unfold step
          simp only
          split_ifs
          · rfl
          · split <;> simp only [Function.update_of_ne (Ne.symm hu)]
        rw [e]
        rwa [List.count_cons_of_ne hu] at h
  refine key schedule _ (.inl ?_)
  have := (hord t).length_eq
  simp only [launch]
  rw [this, List.length_range]
  exact hc

/-- Of two threads, one adds the value in place of which the other has written the result. -/
theorem C164_overlap_violated : ∃ (m0 : Mem ℚ) (tree : Tree) (schedule : List ℕ), tree.Sums 2 ∧
    (∀ t < 2, ((runKernel 0 2 0 (fun _ => tree) (launch (fun _ => [0, 1]) m0) schedule).threads t).done = true) ∧
    (runKernel 0 2 0 (fun _ => tree) (launch (fun _ => [0, 1]) m0) schedule).mem 0 ≠ mean m0 0 2 := by
  refine ⟨fun i => if i = 0 then 4 else 0, .node (.node .init (.leaf 0)) (.leaf 1), [0, 0, 0, 1, 1, 1], ?_, ?_, ?_⟩
  · exact List.Perm.refl _
  · intro t ht
    have : t = 0 ∨ t = 1 := by omega
    rcases this with rfl | rfl <;>
      simp [runKernel, step, launch, Function.update]
  · simp [runKernel, step, launch, Function.update, Tree.eval, mean, Finset.sum_range_succ]
    norm_num

/-- C164: with valid arguments, the function on the host writes the arithmetic mean, and nothing else, even in place of one of the
values. -/
theorem C164_host (debug : Bool) (tree : Tree) (v n o : ℕ) (mem : Mem F) (hs : tree.Sums n) (hn : n ≠ 0) :
    ∃ mem', arithmeticMean debug tree (.device v) n (.device o) mem = .returns mem' ∧ mem' o = mean mem v n ∧
      ∀ a, a ≠ o → mem' a = mem a := by
  have e : arithmeticMean debug tree (.device v) n (.device o) mem =
      .returns (Function.update mem o (tree.eval (fun i => mem (v + i)) / (n : F))) := by
    cases debug <;> simp [arithmeticMean, unchecked, hn]
  refine ⟨_, e, ?_, ?_⟩
  · rw [Function.update_self, mean, eval_sums tree n hs _ (fun i => mem (v + i)) (fun _ _ => rfl)]
  · intro a ha
    rw [Function.update_of_ne ha]

/-- C164: if debugging is enabled, null pointers, pointers to the host's memory, and ranges without values are reported, and nothing else.
Missing: the same without debugging. -/
theorem C164_checks_partial (tree : Tree) (values : Ptr) (n : ℕ) (output : Ptr) (mem : Mem F) :
    ((∃ e, arithmeticMean true tree values n output mem = .throws e) ↔
      ¬ ((∃ v, values = .device v) ∧ n ≠ 0 ∧ ∃ o, output = .device o)) ∧
    arithmeticMean true tree values n output mem ≠ .undefined ∧
    (values = .null → arithmeticMean true tree values n output mem = .throws .nullPointer) ∧
    (values ≠ .null → n = 0 → arithmeticMean true tree values n output mem = .throws .invalidArgument) ∧
    (values ≠ .null → n ≠ 0 → output = .null → arithmeticMean true tree values n output mem = .throws .nullPointer) ∧
    (n ≠ 0 → values ≠ .null → output ≠ .null → values = .host ∨ output = .host →
      arithmeticMean true tree values n output mem = .throws .invalidArgument) := by
  by_cases hn : n = 0 <;> cases values <;> cases output <;> simp [arithmeticMean, unchecked, hn]

/-- Without debugging, no exception is ever thrown, though it is documented for null pointers and for ranges without values. -/
theorem C164_unchecked_violated (tree : Tree) (values : Ptr) (n : ℕ) (output : Ptr) (mem : Mem F) (e : Err) :
    arithmeticMean false tree values n output mem ≠ .throws e := by
  unfold arithmeticMean unchecked
  simp only [Bool.false_eq_true, if_false]
  split_ifs
  · simp
  · split <;> simp

/-- Two threads with different sums of three values, and steps in turn. -/
example : (Tree.node (.leaf 2) (.node .init (.node (.leaf 0) (.leaf 1)))).Sums 3 ∧ (∀ i < 3, 5 + i ≠ 4) ∧
    (mean (fun a => (a : ℚ)) 5 3) = 6 := by
  refine ⟨by unfold Tree.Sums; decide, by omega, ?_⟩
  simp [mean, Finset.sum_range_succ]
  norm_num

end OpenMPCD.Stats.DeviceMean
