import Verif.Atomic.Model
import Mathlib.Algebra.BigOperators.Group.Finset.Basic
import Mathlib.Data.Fintype.Card
import Mathlib.Data.Fintype.BigOperators
import Mathlib.Tactic.Linarith
import Mathlib.Tactic.Ring
import Mathlib.Tactic.FinCases
import Mathlib.Algebra.Order.BigOperators.Group.Finset

/-!
# Property C15: the compare-and-swap loop loses no update
-/

set_option linter.unusedSectionVars false
set_option linter.unusedSimpArgs false

namespace OpenMPCD.Atomic

variable {ι W V : Type} [DecidableEq ι] [DecidableEq W]

/-- Invariant: the content of the memory is the result of the additions of the finished threads, each
once, in some order. -/
def Linear (add : W → V → W) (val : ι → V) (w : W) (s : State ι W) : Prop :=
  ∃ order : List ι, order.Nodup ∧ (∀ i, i ∈ order ↔ s.pc i = .done) ∧
    s.mem = order.foldl (fun m i => add m (val i)) w

theorem linear_initial (add : W → V → W) (val : ι → V) (w : W) :
    Linear add val w (initial w : State ι W) :=
  ⟨[], List.nodup_nil, by simp [initial], rfl⟩

theorem linear_step {add : W → V → W} {val : ι → V} {w : W} {s : State ι W} (i : ι)
    (h : Linear add val w s) : Linear add val w (step add val i s) := by
  obtain ⟨order, hn, hm, hv⟩ := h
  unfold step
  cases hpc : s.pc i with
  | start =>
    refine ⟨order, hn, fun j => ?_, hv⟩
    by_cases hj : j = i
    · subst hj; simp [hm, hpc]
    · simp [hm, Function.update_of_ne hj]
  | done => exact ⟨order, hn, hm, hv⟩
  | loop old =>
    by_cases he : s.mem = old
    · have hi : i ∉ order := by rw [hm, hpc]; simp
      refine ⟨order ++ [i], ?_, fun j => ?_, ?_⟩
      · rw [List.nodup_append]
        exact ⟨hn, by simp, by
          intro a ha b hb hab
          have : b = i := by simpa using hb
          subst this; subst hab; exact hi ha⟩
      · by_cases hj : j = i
        · subst hj; simp [he]
        · simp [hm, Function.update_of_ne hj, hj]
      · simp [he, ← hv]
    · refine ⟨order, hn, fun j => ?_, by simp only [if_neg he]; exact hv⟩
      by_cases hj : j = i
      · subst hj; simp [hm, hpc, Ne.symm he]
      · simp [hm, Function.update_of_ne hj]

theorem linear_run {add : W → V → W} {val : ι → V} {w : W} (sched : List ι) {s : State ι W}
    (h : Linear add val w s) : Linear add val w (run add val s sched) := by
  induction sched generalizing s with
  | nil => exact h
  | cons i sched ih => exact ih (linear_step i h)

/-- C15: in every execution of any threads, at every point, the content of the location is the result of
applying exactly the increments of the calls that have returned, each exactly once, one after the
other. No assumption is made about the addition, so this holds for floating-point numbers. -/
theorem C15_linearizable (add : W → V → W) (val : ι → V) (w : W) (sched : List ι) :
    ∃ order : List ι, order.Nodup ∧
      (∀ i, i ∈ order ↔ (run add val (initial w) sched).pc i = .done) ∧
      (run add val (initial w) sched).mem = order.foldl (fun m i => add m (val i)) w :=
  linear_run sched (linear_initial add val w)

/-- C15: if addition is exact, then after all calls have returned the location holds the initial value plus
the sum of all increments. -/
theorem C15_sum [Fintype ι] [AddCommMonoid W] (val : ι → W) (w : W) (sched : List ι)
    (hdone : ∀ i, (run (fun a b => b + a) val (initial w) sched).pc i = .done) :
    (run (fun a b => b + a) val (initial w) sched).mem = w + ∑ i, val i := by
  obtain ⟨order, hn, hm, hv⟩ := C15_linearizable (fun a b => b + a) val w sched
  have hall : order.toFinset = Finset.univ := by
    ext i; simp [hm, hdone]
  have hsum : (order.map val).sum = ∑ i, val i := by
    rw [← hall, List.sum_toFinset _ hn]
  rw [hv, ← hsum]
  clear * -
  induction order generalizing w with
  | nil => simp
  | cons i l ih => rw [List.foldl_cons, ih, List.map_cons, List.sum_cons, add_comm (val i) w, add_assoc]

/-! ### Progress -/

/-- Weight of a thread: 1 if its next access cannot complete its call. -/
def weight (mem : W) : Pc W → ℕ
  | .start => 1
  | .loop old => if old = mem then 0 else 1
  | .done => 0

/-- 1 if the thread has not finished. -/
def active : Pc W → ℕ
  | .done => 0
  | _ => 1

variable [Fintype ι]

/-- Number of unfinished threads. -/
def unfinished (s : State ι W) : ℕ := ∑ i, active (s.pc i)

/-- Measure that decreases in every step. -/
def measure (s : State ι W) : ℕ := unfinished s ^ 2 + ∑ i, weight s.mem (s.pc i)

theorem weight_le_active (m : W) (p : Pc W) : weight m p ≤ active p := by
  cases p <;> simp [weight, active]; split <;> simp

theorem sum_update (f : Pc W → ℕ) (pc : ι → Pc W) (i : ι) (p : Pc W) :
    ∑ j, f (Function.update pc i p j) + f (pc i) = ∑ j, f (pc j) + f p := by
  classical
  rw [← Finset.add_sum_erase _ _ (Finset.mem_univ i), ← Finset.add_sum_erase Finset.univ (fun j => f (pc j)) (Finset.mem_univ i)]
  have : ∑ x ∈ Finset.univ.erase i, f (Function.update pc i p x) = ∑ x ∈ Finset.univ.erase i, f (pc x) := by
    apply Finset.sum_congr rfl
    intro x hx
    rw [Function.update_of_ne (Finset.ne_of_mem_erase hx)]
  rw [this, Function.update_self]
  ring

theorem measure_step (add : W → V → W) (val : ι → V) (i : ι) (s : State ι W)
    (h : s.pc i ≠ .done) : measure (step add val i s) < measure s := by
  unfold measure unfinished
  cases hpc : s.pc i with
  | done => exact absurd hpc h
  | start =>
    have h1 := sum_update (active (W := W)) s.pc i (.loop s.mem)
    have h2 := sum_update (weight s.mem) s.pc i (.loop s.mem)
    rw [hpc] at h1 h2
    have a1 : active (Pc.start : Pc W) = 1 := rfl
    have a2 : active (Pc.loop s.mem) = 1 := rfl
    have a3 : weight s.mem Pc.start = 1 := rfl
    have a4 : weight s.mem (Pc.loop s.mem) = 0 := if_pos rfl
    simp only [step, hpc]
    have e : ∑ j, active (Function.update s.pc i (Pc.loop s.mem) j) = ∑ j, active (s.pc j) := by omega
    rw [e]
    omega
  | loop old =>
    by_cases he : s.mem = old
    · have h1 := sum_update (active (W := W)) s.pc i .done
      rw [hpc] at h1
      have a1 : active (Pc.done : Pc W) = 0 := rfl
      have a2 : active (Pc.loop old) = 1 := rfl
      simp only [step, hpc, he, ne_eq, not_true_eq_false, if_false, if_true]
      have h3 : ∑ j, weight (add old (val i)) (Function.update s.pc i Pc.done j) ≤
          ∑ j, active (Function.update s.pc i Pc.done j) :=
        Finset.sum_le_sum fun j _ => weight_le_active _ _
      set k := ∑ j, active (Function.update s.pc i Pc.done j)
      have h4 : ∑ j, active (s.pc j) = k + 1 := by omega
      rw [h4]
      nlinarith
    · have hne : old ≠ s.mem := fun h => he h.symm
      have h1 := sum_update (active (W := W)) s.pc i (.loop s.mem)
      have h2 := sum_update (weight s.mem) s.pc i (.loop s.mem)
      rw [hpc] at h1 h2
      have a1 : active (Pc.loop old) = 1 := rfl
      have a2 : active (Pc.loop s.mem) = 1 := rfl
      have a3 : weight s.mem (Pc.loop old) = 1 := if_neg hne
      have a4 : weight s.mem (Pc.loop s.mem) = 0 := if_pos rfl
      simp only [step, hpc, he, if_false, ne_eq, hne, not_false_eq_true, if_true]
      have e : ∑ j, active (Function.update s.pc i (Pc.loop s.mem) j) = ∑ j, active (s.pc j) := by
        omega
      rw [e]
      omega

/-- Number of accesses in a schedule that are made by unfinished threads. -/
def accesses (add : W → V → W) (val : ι → V) : State ι W → List ι → ℕ
  | _, [] => 0
  | s, i :: sched =>
    (if s.pc i = .done then 0 else 1) + accesses add val (step add val i s) sched

theorem accesses_le (add : W → V → W) (val : ι → V) (s : State ι W) (sched : List ι) :
    accesses add val s sched + measure (run add val s sched) ≤ measure s := by
  induction sched generalizing s with
  | nil => simp [accesses, run]
  | cons i sched ih =>
    have := ih (step add val i s)
    have hr : run add val s (i :: sched) = run add val (step add val i s) sched := rfl
    rw [hr]
    simp only [accesses]
    by_cases h : s.pc i = .done
    · have e : step add val i s = s := by simp [step, h]
      rw [e] at this ⊢
      simp only [h, if_true]
      omega
    · have := measure_step add val i s h
      simp only [h, if_false]
      omega

/-- C15, progress: `n` concurrent calls make at most `n ^ 2 + n` memory accesses in total, in every
interleaving. Hence no schedule, however unfair, keeps the loops running forever: whichever
unfinished threads are scheduled, after finitely many accesses all of them have returned. -/
theorem C15_bounded (add : W → V → W) (val : ι → V) (w : W) (sched : List ι) :
    accesses add val (initial w) sched ≤ Fintype.card ι ^ 2 + Fintype.card ι := by
  have h := accesses_le add val (initial w : State ι W) sched
  have h2 : measure (initial w : State ι W) = Fintype.card ι ^ 2 + Fintype.card ι := by
    simp [measure, unfinished, initial, active, weight]
  omega

/-- Two threads; the second one's compare-and-swap fails once because the first one was faster; both
increments arrive. -/
example : (run (fun a b : ℤ => b + a) (fun i : Fin 2 => if i = 0 then 5 else 7) (initial 100)
      [0, 1, 0, 1, 1]).mem = 112 ∧
    ∀ i, (run (fun a b : ℤ => b + a) (fun i : Fin 2 => if i = 0 then 5 else 7) (initial 100)
      [0, 1, 0, 1, 1]).pc i = .done := by decide

end OpenMPCD.Atomic
