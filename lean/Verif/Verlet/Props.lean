import Verif.Verlet.Model
import Mathlib.Algebra.BigOperators.Group.Finset.Basic
import Mathlib.Algebra.BigOperators.Fin
import Mathlib.Data.List.Perm.Basic
import Mathlib.Tactic.Module
import Mathlib.Tactic.NormNum

/-!
# Velocity Verlet streaming is reversible and conserves momentum (C22)
-/

set_option linter.unusedSimpArgs false
set_option linter.unusedSectionVars false

namespace OpenMPCD.Verlet

variable {K : Type} [Field K] [LinearOrder K] [IsStrictOrderedRing K]

/-! ## Specification -/

/-- The velocity Verlet step for the particles in `S` with accelerations depending on the positions:
`x' = x + v t + a(x) t²/2`, `v' = v + (a(x) + a(x')) t/2`. -/
def verlet (S : Finset ℕ) (a : (ℕ → Vec3 K) → ℕ → Vec3 K) (t : K) (m : Mem K) : Mem K :=
  let x' := fun j => if j ∈ S then m.pos j + t • m.vel j + (t ^ 2 / 2) • a m.pos j else m.pos j
  ⟨x', fun j => if j ∈ S then m.vel j + (t / 2) • (a m.pos j + a x' j) else m.vel j⟩

/-- Reversal of all velocities. -/
def reverse (m : Mem K) : Mem K := ⟨m.pos, fun j => -m.vel j⟩

/-- Total momentum of the first `N` particles of unit mass. -/
def momentum (N : ℕ) (m : Mem K) : Vec3 K := ∑ j ∈ Finset.range N, m.vel j

/-- Accelerations of the particles of `S` depend only on their own positions. -/
def Local (S : Finset ℕ) (a : (ℕ → Vec3 K) → ℕ → Vec3 K) : Prop :=
  ∀ x y, (∀ j ∈ S, x j = y j) → ∀ j ∈ S, a x j = a y j

/-- Internal forces: accelerations of the particles of `S` sum to zero. -/
def Internal (S : Finset ℕ) (a : (ℕ → Vec3 K) → ℕ → Vec3 K) : Prop :=
  ∀ x, ∑ j ∈ S, a x j = 0

@[ext] theorem Mem.ext' {m n : Mem K} (h1 : ∀ j, m.pos j = n.pos j) (h2 : ∀ j, m.vel j = n.vel j) : m = n := by
  cases m; cases n
  congr
  · exact funext h1
  · exact funext h2

@[simp] theorem reverse_reverse (m : Mem K) : reverse (reverse m) = m := by
  ext j <;> simp [reverse]

/-! ## The specified step -/

/-- A step, reversal and another step lead back. -/
theorem verlet_reverse (S : Finset ℕ) (a : (ℕ → Vec3 K) → ℕ → Vec3 K) (t : K) (m : Mem K) :
    verlet S a t (reverse (verlet S a t m)) = reverse m := by
  have hpos : ∀ j, (verlet S a t (reverse (verlet S a t m))).pos j = m.pos j := by
    intro j
    by_cases hj : j ∈ S
    · simp only [verlet, reverse, hj, if_true]
      module
    · simp only [verlet, reverse, hj, if_false]
  have hx : (verlet S a t (reverse (verlet S a t m))).pos = m.pos := funext hpos
  refine Mem.ext' hpos ?_
  intro j
  by_cases hj : j ∈ S
  · have : (verlet S a t (reverse (verlet S a t m))).vel j = -(verlet S a t m).vel j +
        (t / 2) • (a (verlet S a t m).pos j + a (verlet S a t (reverse (verlet S a t m))).pos j) := by
      simp only [verlet, reverse, hj, if_true]
    rw [this, hx]
    simp only [verlet, reverse, hj, if_true]
    module
  · simp only [verlet, reverse, hj, if_false]

theorem verlet_momentum {S : Finset ℕ} {a : (ℕ → Vec3 K) → ℕ → Vec3 K} (ha : Internal S a) (t : K) {N : ℕ}
    (hS : ∀ j ∈ S, j < N) (m : Mem K) : momentum N (verlet S a t m) = momentum N m := by
  have hsub : S ⊆ Finset.range N := fun j hj => Finset.mem_range.2 (hS j hj)
  simp only [momentum, verlet]
  generalize (fun j => if j ∈ S then m.pos j + t • m.vel j + (t ^ 2 / 2) • a m.pos j else m.pos j) = x'
  have : ∀ j ∈ Finset.range N, (if j ∈ S then m.vel j + (t / 2) • (a m.pos j + a x' j) else m.vel j) =
      m.vel j + (if j ∈ S then (t / 2) • (a m.pos j + a x' j) else 0) := by
    intro j _
    split_ifs <;> simp
  rw [Finset.sum_congr rfl this, Finset.sum_add_distrib, Finset.sum_ite_mem,
    Finset.inter_eq_right.2 hsub, ← Finset.smul_sum, Finset.sum_add_distrib, ha, ha]
  simp

theorem verlet_comm {S T : Finset ℕ} {a b : (ℕ → Vec3 K) → ℕ → Vec3 K} (ha : Local S a) (hb : Local T b)
    (hST : Disjoint S T) (t u : K) (m : Mem K) :
    verlet S a t (verlet T b u m) = verlet T b u (verlet S a t m) := by
  have hd : ∀ j, j ∈ S → j ∉ T := fun j h1 h2 => (Finset.disjoint_left.1 hST) h1 h2
  have key : ∀ {S T : Finset ℕ} {a b : (ℕ → Vec3 K) → ℕ → Vec3 K} (_ : Local S a)
      (_ : ∀ j, j ∈ S → j ∉ T) (t u : K) (m : Mem K), ∀ j ∈ S,
      (verlet S a t (verlet T b u m)).pos j = (verlet S a t m).pos j ∧
      (verlet S a t (verlet T b u m)).vel j = (verlet S a t m).vel j := by
    intro S T a b ha hd t u m j hj
    have e0 : ∀ j ∈ S, (verlet T b u m).pos j = m.pos j := by
      intro j hj; simp only [verlet, hd j hj, if_false]
    have e1 : ∀ j ∈ S, (verlet T b u m).vel j = m.vel j := by
      intro j hj; simp only [verlet, hd j hj, if_false]
    have ea : ∀ j ∈ S, a (verlet T b u m).pos j = a m.pos j := fun j hj => ha _ _ e0 j hj
    have e2 : ∀ j ∈ S, (verlet S a t (verlet T b u m)).pos j = (verlet S a t m).pos j := by
      intro j hj
      have h1 : (verlet S a t (verlet T b u m)).pos j = (verlet T b u m).pos j + t • (verlet T b u m).vel j +
        (t ^ 2 / 2) • a (verlet T b u m).pos j := by simp only [verlet, hj, if_true]
      rw [h1, e0 j hj, e1 j hj, ea j hj]
      simp only [verlet, hj, if_true]
    refine ⟨e2 j hj, ?_⟩
    have h1 : (verlet S a t (verlet T b u m)).vel j = (verlet T b u m).vel j +
      (t / 2) • (a (verlet T b u m).pos j + a (verlet S a t (verlet T b u m)).pos j) := by
        simp only [verlet, hj, if_true]
    have h2 : (verlet S a t m).vel j = m.vel j + (t / 2) • (a m.pos j + a (verlet S a t m).pos j) := by
        simp only [verlet, hj, if_true]
    rw [h1, h2, e1 j hj, ea j hj, ha _ _ e2 j hj]
  have out : ∀ (S : Finset ℕ) (a : (ℕ → Vec3 K) → ℕ → Vec3 K) (t : K) (m : Mem K) (j : ℕ), j ∉ S →
      (verlet S a t m).pos j = m.pos j ∧ (verlet S a t m).vel j = m.vel j := by
    intro S a t m j hj
    simp only [verlet, hj, if_false, and_self]
  have hd' : ∀ j, j ∈ T → j ∉ S := fun j h1 h2 => hd j h2 h1
  have main : ∀ j, (verlet S a t (verlet T b u m)).pos j = (verlet T b u (verlet S a t m)).pos j ∧
      (verlet S a t (verlet T b u m)).vel j = (verlet T b u (verlet S a t m)).vel j := by
    intro j
    by_cases hj : j ∈ S
    · obtain ⟨h1, h2⟩ := key (b := b) ha hd t u m j hj
      obtain ⟨h3, h4⟩ := out T b u (verlet S a t m) j (hd j hj)
      exact ⟨h1.trans h3.symm, h2.trans h4.symm⟩
    · obtain ⟨h1, h2⟩ := out S a t (verlet T b u m) j hj
      by_cases hjT : j ∈ T
      · obtain ⟨h3, h4⟩ := key (b := a) hb hd' u t m j hjT
        exact ⟨h1.trans h3.symm, h2.trans h4.symm⟩
      · obtain ⟨h3, h4⟩ := out T b u (verlet S a t m) j hjT
        obtain ⟨h5, h6⟩ := out T b u m j hjT
        obtain ⟨h7, h8⟩ := out S a t m j hj
        exact ⟨by rw [h1, h3, h5, h7], by rw [h2, h4, h6, h8]⟩
  exact Mem.ext' (fun j => (main j).1) fun j => (main j).2

/-! ## Maps and schedules -/

/-- Reversing velocities before and after undoes `f`. -/
def Reversible (f : Mem K → Mem K) : Prop := ∀ m, f (reverse (f m)) = reverse m

theorem Reversible.iterate {f : Mem K → Mem K} (h : Reversible f) (n : ℕ) : Reversible f^[n] := by
  induction n with
  | zero => intro m; rfl
  | succ n ih =>
    intro m
    rw [Function.iterate_succ_apply', Function.iterate_succ_apply, ih, h]

theorem momentum_iterate {f : Mem K → Mem K} {N : ℕ} (h : ∀ m, momentum N (f m) = momentum N m) (n : ℕ)
    (m : Mem K) : momentum N (f^[n] m) = momentum N m := by
  induction n with
  | zero => rfl
  | succ n ih => rw [Function.iterate_succ_apply', h, ih]

/-- Threads that commute and are reversible: for all orders of the threads, running all threads, reversing
velocities and running all threads in any other order leads back. -/
theorem schedule_reversible {f : Mem K → ℕ → Mem K} (hr : ∀ i, Reversible fun m => f m i)
    (hc : ∀ m i j, f (f m i) j = f (f m j) i) {l l' : List ℕ} (hl : l'.Perm l) (m : Mem K) :
    l'.foldl f (reverse (l.foldl f m)) = reverse m := by
  have : RightCommutative f := ⟨hc⟩
  rw [(hl.trans (List.reverse_perm l).symm).foldl_eq]
  induction l generalizing m l' with
  | nil => rfl
  | cons i l ih =>
    rw [List.foldl_cons, List.reverse_cons, List.foldl_append,
      ih (List.Perm.refl l)]
    exact hr i m

theorem schedule_momentum {f : Mem K → ℕ → Mem K} {N : ℕ} (h : ∀ m i, momentum N (f m i) = momentum N m)
    (l : List ℕ) (m : Mem K) : momentum N (l.foldl f m) = momentum N m := by
  induction l generalizing m with
  | nil => rfl
  | cons i l ih => rw [List.foldl_cons, ih, h]

/-! ## Vector steps -/

theorem vecStep1_eq (x v a : Vec3 K) (t : K) : vecStep1 x v a t = x + t • v + (t ^ 2 / 2) • a := by
  have : (0.5 : K) = 1 / 2 := by norm_num
  ext <;> simp [vecStep1, step1, this] <;> ring

theorem vecStep2_eq (v a b : Vec3 K) (t : K) : vecStep2 v a b t = v + (t / 2) • (a + b) := by
  have : (0.5 : K) = 1 / 2 := by norm_num
  ext <;> simp [vecStep2, step2, this] <;> ring

/-! ## Dumbbells -/

/-- The forces of two particles joined by a spring. -/
def springPair (p : ℕ) (k : K) (x : ℕ → Vec3 K) (j : ℕ) : Vec3 K :=
  if j = p then k • (x (p + 1) - x p) else if j = p + 1 then k • (x p - x (p + 1)) else 0

theorem springPair_local (p : ℕ) (k : K) : Local {p, p + 1} (springPair p k) := by
  intro x y h j _
  have h1 := h p (by simp)
  have h2 := h (p + 1) (by simp)
  simp only [springPair, h1, h2]

theorem springPair_internal (p : ℕ) (k : K) : Internal {p, p + 1} (springPair p k) := by
  intro x
  rw [Finset.sum_pair (by omega)]
  simp only [springPair, if_true, Nat.succ_ne_self, if_false]
  module

theorem dumbbellStep_eq (p : ℕ) (k t : K) :
    dumbbellStep p k t = verlet {p, p + 1} (springPair p k) t := by
  have hne : p + 1 ≠ p := by omega
  have hne' : p ≠ p + 1 := by omega
  funext m
  ext1 j
  · by_cases h1 : j = p
    · subst h1
      simp [dumbbellStep, verlet, Mem.setPos, Mem.setVel, springPair, vecStep1_eq]
    · by_cases h2 : j = p + 1
      · subst h2
        simp [dumbbellStep, verlet, Mem.setPos, Mem.setVel, springPair, vecStep1_eq]
        module
      · simp [dumbbellStep, verlet, Mem.setPos, Mem.setVel, h1, h2]
  · by_cases h1 : j = p
    · subst h1
      simp [dumbbellStep, verlet, Mem.setPos, Mem.setVel, springPair, vecStep1_eq, vecStep2_eq]
      module
    · by_cases h2 : j = p + 1
      · subst h2
        simp [dumbbellStep, verlet, Mem.setPos, Mem.setVel, springPair, vecStep1_eq, vecStep2_eq]
        module
      · simp [dumbbellStep, verlet, Mem.setPos, Mem.setVel, h1, h2]

/-- C22: one dumbbell, any number of steps. -/
theorem C22_dumbbell (p : ℕ) (k t : K) (n : ℕ) :
    Reversible (streamDumbbell p k t n) ∧
    ∀ N m, p + 1 < N → momentum N (streamDumbbell p k t n m) = momentum N m := by
  constructor
  · refine Reversible.iterate ?_ n
    intro m
    rw [dumbbellStep_eq]
    exact verlet_reverse _ _ _ _
  · intro N m hN
    refine momentum_iterate ?_ n m
    intro m
    rw [dumbbellStep_eq]
    exact verlet_momentum (springPair_internal p k) t (by simp; omega) m

/-- C22: all dumbbells, in every order of the threads. -/
theorem C22_dumbbells (N : ℕ) (hN : N % 2 = 0) (k t : K) (n : ℕ) {l l' : List ℕ} (hl : l'.Perm l) (m : Mem K) :
    l'.foldl (dumbbellThread N k t n) (reverse (l.foldl (dumbbellThread N k t n) m)) = reverse m ∧
    momentum N (l.foldl (dumbbellThread N k t n) m) = momentum N m := by
  constructor
  · refine schedule_reversible ?_ ?_ hl m
    · intro i m
      simp only [dumbbellThread]
      split_ifs
      · rfl
      · exact (C22_dumbbell _ k t n).1 m
    · intro m i j
      simp only [dumbbellThread]
      by_cases hi : 2 * i ≥ N
      · simp [hi]
      · by_cases hj : 2 * j ≥ N
        · simp [hj]
        · rw [if_neg hi, if_neg hj, if_neg hj, if_neg hi]
          by_cases hij : i = j
          · rw [hij]
          · have hc : Function.Commute (dumbbellStep (2 * j) k t) (dumbbellStep (2 * i) k t) := by
              intro m
              rw [dumbbellStep_eq, dumbbellStep_eq]
              refine verlet_comm (springPair_local _ k) (springPair_local _ k) ?_ t t m
              rw [Finset.disjoint_left]
              intro a
              simp
              omega
            exact (hc.iterate_iterate n n) m
  · refine schedule_momentum ?_ l m
    intro m i
    simp only [dumbbellThread]
    split_ifs with h
    · rfl
    · exact (C22_dumbbell _ k t n).2 N m (by omega)

/-! ## Trimers -/

/-- The forces of three particles joined by two springs. -/
def springTriple (p : ℕ) (k₁ k₂ : K) (x : ℕ → Vec3 K) (j : ℕ) : Vec3 K :=
  if j = p then k₁ • (x (p + 1) - x p)
  else if j = p + 1 then k₁ • (x p - x (p + 1)) + k₂ • (x (p + 2) - x (p + 1))
  else if j = p + 2 then k₂ • (x (p + 1) - x (p + 2)) else 0

theorem springTriple_local (p : ℕ) (k₁ k₂ : K) : Local {p, p + 1, p + 2} (springTriple p k₁ k₂) := by
  intro x y h j _
  have h1 := h p (by simp)
  have h2 := h (p + 1) (by simp)
  have h3 := h (p + 2) (by simp)
  simp only [springTriple, h1, h2, h3]

theorem springTriple_internal (p : ℕ) (k₁ k₂ : K) : Internal {p, p + 1, p + 2} (springTriple p k₁ k₂) := by
  intro x
  rw [Finset.sum_insert (by simp), Finset.sum_pair (by omega)]
  simp [springTriple]
  module

theorem trimerStep_eq (p : ℕ) (k₁ k₂ t : K) :
    trimerStep p k₁ k₂ t = verlet {p, p + 1, p + 2} (springTriple p k₁ k₂) t := by
  funext m
  ext1 j
  · by_cases h1 : j = p
    · subst h1
      simp [trimerStep, verlet, Mem.setPos, Mem.setVel, springTriple, vecStep1_eq, Function.update_apply]
    · by_cases h2 : j = p + 1
      · subst h2
        simp [trimerStep, verlet, Mem.setPos, Mem.setVel, springTriple, vecStep1_eq, Function.update_apply]
        module
      · by_cases h3 : j = p + 2
        · subst h3
          simp [trimerStep, verlet, Mem.setPos, Mem.setVel, springTriple, vecStep1_eq, Function.update_apply]
          module
        · simp [trimerStep, verlet, Mem.setPos, Mem.setVel, h1, h2, h3]
  · by_cases h1 : j = p
    · subst h1
      simp [trimerStep, verlet, Mem.setPos, Mem.setVel, springTriple, vecStep1_eq, vecStep2_eq,
        Function.update_apply]
      module
    · by_cases h2 : j = p + 1
      · subst h2
        simp [trimerStep, verlet, Mem.setPos, Mem.setVel, springTriple, vecStep1_eq, vecStep2_eq,
          Function.update_apply]
        module
      · by_cases h3 : j = p + 2
        · subst h3
          simp [trimerStep, verlet, Mem.setPos, Mem.setVel, springTriple, vecStep1_eq, vecStep2_eq,
            Function.update_apply]
          module
        · simp [trimerStep, verlet, Mem.setPos, Mem.setVel, h1, h2, h3]

/-- C22: all trimers, in every order of the threads. -/
theorem C22_trimers (N : ℕ) (k₁ k₂ t : K) (n : ℕ) {l l' : List ℕ} (hl : l'.Perm l) (m : Mem K) :
    l'.foldl (trimerThread N k₁ k₂ t n) (reverse (l.foldl (trimerThread N k₁ k₂ t n) m)) = reverse m ∧
    momentum N (l.foldl (trimerThread N k₁ k₂ t n) m) = momentum N m := by
  constructor
  · refine schedule_reversible ?_ ?_ hl m
    · intro i m
      simp only [trimerThread]
      split_ifs
      · rfl
      · refine Reversible.iterate ?_ n m
        intro m
        rw [trimerStep_eq]
        exact verlet_reverse _ _ _ _
    · intro m i j
      simp only [trimerThread]
      by_cases hi : 3 * i + 2 ≥ N
      · simp [hi]
      · by_cases hj : 3 * j + 2 ≥ N
        · simp [hj]
        · rw [if_neg hi, if_neg hj, if_neg hj, if_neg hi]
          by_cases hij : i = j
          · rw [hij]
          · have hc : Function.Commute (trimerStep (3 * j) k₁ k₂ t) (trimerStep (3 * i) k₁ k₂ t) := by
              intro m
              rw [trimerStep_eq, trimerStep_eq]
              refine verlet_comm (springTriple_local _ k₁ k₂) (springTriple_local _ k₁ k₂) ?_ t t m
              rw [Finset.disjoint_left]
              intro a
              simp
              omega
            exact (hc.iterate_iterate n n) m
  · refine schedule_momentum ?_ l m
    intro m i
    simp only [trimerThread]
    split_ifs with h
    · rfl
    · refine momentum_iterate ?_ n m
      intro m
      rw [trimerStep_eq]
      exact verlet_momentum (springTriple_internal _ k₁ k₂) t (by simp; omega) m

/-! ## Rods -/

/-- The forces of two particles joined by a spring of length `b`. -/
noncomputable def rodPair (p : ℕ) (b k : ℝ) (x : ℕ → Vec3 ℝ) (j : ℕ) : Vec3 ℝ :=
  let R := x (p + 1) - x p
  if j = p then (k * (1 - b / R.cppMagnitude)) • R
  else if j = p + 1 then -((k * (1 - b / R.cppMagnitude)) • R) else 0

/-- The length of the rod. -/
noncomputable def rodLength (p : ℕ) (m : Mem ℝ) : ℝ := (m.pos (p + 1) - m.pos p).cppMagnitude

open Classical in
theorem rodStep_eq (p : ℕ) (b k t : ℝ) (m : Mem ℝ) :
    rodStep p b k t m =
      if rodLength p m = 0 then none
      else if rodLength p (verlet {p, p + 1} (rodPair p b k) t m) = 0 then none
      else some (verlet {p, p + 1} (rodPair p b k) t m) := by
  have hx : ((m.setPos p (vecStep1 (m.pos p) (m.vel p) (rodPair p b k m.pos p) t)).setPos (p + 1)
      (vecStep1 (m.pos (p + 1)) (m.vel (p + 1)) (rodPair p b k m.pos (p + 1)) t)).pos =
      (verlet {p, p + 1} (rodPair p b k) t m).pos := by
    funext j
    by_cases h1 : j = p
    · subst h1
      simp [verlet, Mem.setPos, vecStep1_eq]
    · by_cases h2 : j = p + 1
      · subst h2
        simp [verlet, Mem.setPos, vecStep1_eq]
      · simp [verlet, Mem.setPos, h1, h2]
  have ea : (k * (1 - b / (m.pos (p + 1) - m.pos p).cppMagnitude)) • (m.pos (p + 1) - m.pos p) =
      rodPair p b k m.pos p := by simp [rodPair]
  have eb : -((k * (1 - b / (m.pos (p + 1) - m.pos p).cppMagnitude)) • (m.pos (p + 1) - m.pos p)) =
      rodPair p b k m.pos (p + 1) := by simp [rodPair]
  have eb' : -(rodPair p b k m.pos p) = rodPair p b k m.pos (p + 1) := by simp [rodPair]
  unfold rodStep
  simp only [ea, eb']
  have e1 : (m.setPos p (vecStep1 (m.pos p) (m.vel p) (rodPair p b k m.pos p) t)).pos (p + 1) = m.pos (p + 1) := by
    simp [Mem.setPos]
  have e2 : (m.setPos p (vecStep1 (m.pos p) (m.vel p) (rodPair p b k m.pos p) t)).vel (p + 1) = m.vel (p + 1) := rfl
  simp only [e1, e2, hx]
  change (if rodLength p m = 0 then none else if rodLength p (verlet {p, p + 1} (rodPair p b k) t m) = 0 then none
    else _) = _
  by_cases h0 : rodLength p m = 0
  · rw [if_pos h0, if_pos h0]
  · rw [if_neg h0, if_neg h0]
    by_cases h1 : rodLength p (verlet {p, p + 1} (rodPair p b k) t m) = 0
    · rw [if_pos h1, if_pos h1]
    · rw [if_neg h1, if_neg h1]
      congr 1
      set x' := (verlet {p, p + 1} (rodPair p b k) t m).pos with hx'
      have ec : (k * (1 - b / (x' (p + 1) - x' p).cppMagnitude)) • (x' (p + 1) - x' p) =
        rodPair p b k x' p := by simp [rodPair]
      have ed : -(rodPair p b k x' p) = rodPair p b k x' (p + 1) := by simp [rodPair]
      rw [ec, ed]
      refine Mem.ext' (fun j => congrFun hx j) fun j => ?_
      have hv : ∀ j ∈ ({p, p + 1} : Finset ℕ), (verlet {p, p + 1} (rodPair p b k) t m).vel j =
          m.vel j + (t / 2) • (rodPair p b k m.pos j + rodPair p b k x' j) := by
        intro j hj
        rw [hx']
        simp only [verlet, hj, if_true]
      by_cases h1 : j = p
      · subst h1
        rw [hv j (by simp)]
        simp [Mem.setPos, Mem.setVel, vecStep2_eq]
      · by_cases h2 : j = p + 1
        · subst h2
          rw [hv _ (by simp)]
          simp [Mem.setPos, Mem.setVel, vecStep2_eq]
        · simp [verlet, Mem.setPos, Mem.setVel, h1, h2]

theorem rodPair_internal (p : ℕ) (b k : ℝ) : Internal {p, p + 1} (rodPair p b k) := by
  intro x
  rw [Finset.sum_pair (by omega)]
  simp [rodPair]

theorem rodLength_reverse (p : ℕ) (m : Mem ℝ) : rodLength p (reverse m) = rodLength p m := rfl

theorem rodStep_reverse {p : ℕ} {b k t : ℝ} {m m' : Mem ℝ} (h : rodStep p b k t m = some m') :
    rodStep p b k t (reverse m') = some (reverse m) := by
  rw [rodStep_eq] at h ⊢
  by_cases h0 : rodLength p m = 0
  · rw [if_pos h0] at h; cases h
  · rw [if_neg h0] at h
    by_cases h1 : rodLength p (verlet {p, p + 1} (rodPair p b k) t m) = 0
    · rw [if_pos h1] at h; cases h
    · rw [if_neg h1] at h
      obtain rfl := Option.some.inj h
      rw [verlet_reverse, rodLength_reverse, rodLength_reverse, if_neg h1, if_neg h0]

theorem streamRod_succ' (p : ℕ) (b k t : ℝ) (n : ℕ) (m : Mem ℝ) :
    streamRod p b k t (n + 1) m = (streamRod p b k t n m).bind (rodStep p b k t) := by
  induction n generalizing m with
  | zero =>
    simp only [streamRod, Option.bind_some]
    cases rodStep p b k t m <;> rfl
  | succ n ih =>
    rw [streamRod]
    conv_rhs => rw [streamRod]
    cases h : rodStep p b k t m with
    | none => rfl
    | some m' => exact ih m'

/-- C22: a rod, any number of steps: whenever no assertion fails, the motion can be reversed and momentum is
conserved. -/
theorem C22_rod (p : ℕ) (b k t : ℝ) (n : ℕ) (m m' : Mem ℝ) (h : streamRod p b k t n m = some m') :
    streamRod p b k t n (reverse m') = some (reverse m) ∧
    ∀ N, p + 1 < N → momentum N m' = momentum N m := by
  induction n generalizing m m' with
  | zero =>
    obtain rfl := Option.some.inj h
    exact ⟨rfl, fun _ _ => rfl⟩
  | succ n ih =>
    rw [streamRod] at h
    cases h1 : rodStep p b k t m with
    | none => rw [h1] at h; cases h
    | some m₁ =>
      rw [h1] at h
      obtain ⟨ih1, ih2⟩ := ih m₁ m' h
      constructor
      · rw [streamRod_succ', ih1]
        exact rodStep_reverse h1
      · intro N hN
        rw [ih2 N hN]
        rw [rodStep_eq] at h1
        split_ifs at h1
        obtain rfl := Option.some.inj h1
        exact verlet_momentum (rodPair_internal p b k) t (by simp; omega) m

/-! ## Chains -/

theorem foldl_acc (p : ℕ) (g : ℕ → (ℕ → Vec3 K) → Vec3 K) (n : ℕ) (m : ChainMem K) :
    (List.range n).foldl (fun (m : ChainMem K) o => m.setAcc (p + o) (g o m.pos)) m =
      { m with acc := fun j => if p ≤ j ∧ j < p + n then g (j - p) m.pos else m.acc j } := by
  induction n with
  | zero =>
    cases m
    simp
    funext j
    rw [if_neg (by omega)]
  | succ n ih =>
    rw [List.range_succ, List.foldl_append, ih]
    simp only [List.foldl_cons, List.foldl_nil, ChainMem.setAcc]
    congr 1
    funext j
    by_cases h : j = p + n
    · subst h
      simp
    · rw [Function.update_of_ne h]
      by_cases h2 : p ≤ j ∧ j < p + n
      · rw [if_pos h2, if_pos (by omega)]
      · rw [if_neg h2, if_neg (by omega)]

theorem foldl_pos (p : ℕ) (t : K) (n : ℕ) (m : ChainMem K) :
    (List.range n).foldl (fun (m : ChainMem K) o =>
      m.setPos' (p + o) (vecStep1 (m.pos (p + o)) (m.vel (p + o)) (m.acc (p + o)) t)) m =
      { m with pos := fun j => if p ≤ j ∧ j < p + n then vecStep1 (m.pos j) (m.vel j) (m.acc j) t else m.pos j } := by
  induction n with
  | zero =>
    cases m
    simp
    refine Mem.ext' (fun j => ?_) (fun j => ?_)
    all_goals first | rfl | exact (if_neg (by omega)).symm
  | succ n ih =>
    rw [List.range_succ, List.foldl_append, ih]
    simp only [List.foldl_cons, List.foldl_nil, ChainMem.setPos', Mem.setPos]
    congr 2
    funext j
    by_cases h : j = p + n
    · subst h
      simp
    · rw [Function.update_of_ne h]
      by_cases h2 : p ≤ j ∧ j < p + n
      · rw [if_pos h2, if_pos (by omega)]
      · rw [if_neg h2, if_neg (by omega)]

theorem foldl_vel (p : ℕ) (g : ℕ → (ℕ → Vec3 K) → Vec3 K) (t : K) (n : ℕ) (m : ChainMem K) :
    (List.range n).foldl (fun (m : ChainMem K) o =>
      m.setVel' (p + o) (vecStep2 (m.vel (p + o)) (m.acc (p + o)) (g (p + o) m.pos) t)) m =
      { m with vel := fun j => if p ≤ j ∧ j < p + n then vecStep2 (m.vel j) (m.acc j) (g j m.pos) t
        else m.vel j } := by
  induction n with
  | zero =>
    cases m
    simp
    refine Mem.ext' (fun j => ?_) (fun j => ?_)
    all_goals first | rfl | exact (if_neg (by omega)).symm
  | succ n ih =>
    rw [List.range_succ, List.foldl_append, ih]
    simp only [List.foldl_cons, List.foldl_nil, ChainMem.setVel', Mem.setVel]
    congr 2
    funext j
    by_cases h : j = p + n
    · subst h
      simp
    · rw [Function.update_of_ne h]
      by_cases h2 : p ≤ j ∧ j < p + n
      · rw [if_pos h2, if_pos (by omega)]
      · rw [if_neg h2, if_neg (by omega)]

/-- The particles of a chain. -/
def chainSet (p n : ℕ) : Finset ℕ := Finset.Ico p (p + n)

/-- The forces in a chain of `n` particles: springs between neighbours. -/
def springChain (p n : ℕ) (k : K) (x : ℕ → Vec3 K) (j : ℕ) : Vec3 K :=
  (if p < j then k • (x (j - 1) - x j) else 0) + (if j + 1 < p + n then k • (x (j + 1) - x j) else 0)

theorem chainAcceleration_eq {p n j : ℕ} (hj : j ∈ chainSet p n) (k : K) (x : ℕ → Vec3 K) :
    chainAcceleration x p j (p + n - 1) k = springChain p n k x j := by
  rw [chainSet, Finset.mem_Ico] at hj
  unfold chainAcceleration springChain
  by_cases h1 : j = p
  · by_cases h2 : j = p + n - 1
    · rw [if_neg (by omega), if_neg (by omega), if_neg (by omega), if_neg (by omega)]
    · rw [if_neg (by omega), if_pos h2, if_neg (by omega), if_pos (by omega)]
  · by_cases h2 : j = p + n - 1
    · rw [if_pos h1, if_neg (by omega), if_pos (by omega), if_neg (by omega)]
      module
    · rw [if_pos h1, if_pos h2, if_pos (by omega), if_pos (by omega)]
      module

theorem springChain_local (p n : ℕ) (k : K) : Local (chainSet p n) (springChain p n k) := by
  intro x y h j hj
  rw [chainSet, Finset.mem_Ico] at hj
  have h0 : x j = y j := h j (by rw [chainSet, Finset.mem_Ico]; omega)
  unfold springChain
  congr 1
  · split_ifs with h1
    · rw [h0, h (j - 1) (by rw [chainSet, Finset.mem_Ico]; omega)]
    · rfl
  · split_ifs with h1
    · rw [h0, h (j + 1) (by rw [chainSet, Finset.mem_Ico]; omega)]
    · rfl

theorem springChain_internal (p n : ℕ) (k : K) : Internal (chainSet p n) (springChain p n k) := by
  intro x
  let G : ℕ → Vec3 K := fun o => if o = 0 ∨ o ≥ n then 0 else k • (x (p + o) - x (p + o - 1))
  rw [chainSet, Finset.sum_Ico_eq_sum_range, Nat.add_sub_cancel_left]
  have : ∀ o ∈ Finset.range n, springChain p n k x (p + o) = G (o + 1) - G o := by
    intro o ho
    rw [Finset.mem_range] at ho
    simp only [springChain, G]
    by_cases h1 : o = 0
    · subst h1
      by_cases h2 : n = 1
      · subst h2; simp
      · rw [if_neg (by omega), if_pos (by omega), if_neg (by omega), if_pos (by omega)]
        simp
    · by_cases h2 : o + 1 ≥ n
      · rw [if_pos (by omega), if_neg (by omega), if_pos (by omega), if_neg (by omega)]
        module
      · rw [if_pos (by omega), if_pos (by omega), if_neg (by omega), if_neg (by omega)]
        simp only [← Nat.add_assoc, Nat.add_sub_cancel]
        module
  rw [Finset.sum_congr rfl this, Finset.sum_range_sub]
  simp [G]

theorem chainStep_eq (p n : ℕ) (k t : K) (m : ChainMem K) :
    (chainStep p n k t m).toMem = verlet (chainSet p n) (springChain p n k) t m.toMem := by
  have hmem : ∀ j, j ∈ chainSet p n ↔ p ≤ j ∧ j < p + n := fun j => by rw [chainSet, Finset.mem_Ico]
  unfold chainStep
  simp only
  rw [foldl_acc p (fun o x => chainAcceleration x p (p + o) (p + n - 1) k), foldl_pos,
    foldl_vel p (fun j x => chainAcceleration x p j (p + n - 1) k)]
  have hx : (fun j => if p ≤ j ∧ j < p + n then vecStep1 (m.pos j) (m.vel j)
      (if p ≤ j ∧ j < p + n then chainAcceleration m.pos p (p + (j - p)) (p + n - 1) k else m.acc j) t
      else m.pos j) = (verlet (chainSet p n) (springChain p n k) t m.toMem).pos := by
    funext j
    by_cases h : p ≤ j ∧ j < p + n
    · rw [if_pos h, if_pos h, vecStep1_eq, show p + (j - p) = j by omega,
        chainAcceleration_eq ((hmem j).2 h)]
      simp only [verlet, (hmem j).2 h, if_true]
    · rw [if_neg h]
      simp only [verlet, mt (hmem j).1 h, if_false]
  refine Mem.ext' (fun j => congrFun hx j) fun j => ?_
  simp only [hx]
  by_cases h : p ≤ j ∧ j < p + n
  · rw [if_pos h, if_pos h, vecStep2_eq, show p + (j - p) = j by omega,
      chainAcceleration_eq ((hmem j).2 h), chainAcceleration_eq ((hmem j).2 h)]
    simp only [verlet, (hmem j).2 h, if_true]
  · rw [if_neg h]
    simp only [verlet, mt (hmem j).1 h, if_false]

theorem chainStep_iterate (p n : ℕ) (k t : K) (c : ℕ) (m : ChainMem K) :
    ((chainStep p n k t)^[c] m).toMem = (verlet (chainSet p n) (springChain p n k) t)^[c] m.toMem := by
  induction c with
  | zero => rfl
  | succ c ih => rw [Function.iterate_succ_apply', Function.iterate_succ_apply', chainStep_eq, ih]

/-- What a thread does to positions and velocities. -/
def chainEffect (N n : ℕ) (k t : K) (c : ℕ) (m : Mem K) (i : ℕ) : Mem K :=
  if n * i ≥ N then m else (verlet (chainSet (n * i) n) (springChain (n * i) n k) t)^[c] m

theorem chainThread_fold (N n : ℕ) (k t : K) (c : ℕ) (l : List ℕ) (m : ChainMem K) :
    (l.foldl (chainThread N n k t c) m).toMem = l.foldl (chainEffect N n k t c) m.toMem := by
  induction l generalizing m with
  | nil => rfl
  | cons i l ih =>
    rw [List.foldl_cons, List.foldl_cons, ih]
    congr 1
    simp only [chainThread, chainEffect]
    split_ifs
    · rfl
    · exact chainStep_iterate _ _ _ _ _ _

/-- C22: all chains, in every order of the threads, whatever the acceleration buffer contains at first. -/
theorem C22_chains (N n : ℕ) (hN : N % n = 0) (k t : K) (c : ℕ) {l l' : List ℕ} (hl : l'.Perm l)
    (m m' : ChainMem K) (hm' : m'.toMem = reverse (l.foldl (chainThread N n k t c) m).toMem) :
    (l'.foldl (chainThread N n k t c) m').toMem = reverse m.toMem ∧
    momentum N (l.foldl (chainThread N n k t c) m).toMem = momentum N m.toMem := by
  rw [chainThread_fold, hm', chainThread_fold]
  have hlt : ∀ i, ¬ n * i ≥ N → ∀ j ∈ chainSet (n * i) n, j < N := by
    intro i hi j hj
    rw [chainSet, Finset.mem_Ico] at hj
    obtain ⟨q, rfl⟩ := Nat.dvd_of_mod_eq_zero hN
    have : i < q := by
      by_contra hc
      exact hi (Nat.mul_le_mul_left n (by omega))
    have : n * (i + 1) ≤ n * q := Nat.mul_le_mul_left n this
    rw [Nat.mul_add] at this
    omega
  constructor
  · refine schedule_reversible ?_ ?_ hl m.toMem
    · intro i m
      simp only [chainEffect]
      split_ifs
      · rfl
      · exact Reversible.iterate (fun m => verlet_reverse _ _ _ _) c m
    · intro m i j
      simp only [chainEffect]
      by_cases hi : n * i ≥ N
      · simp [hi]
      · by_cases hj : n * j ≥ N
        · simp [hj]
        · rw [if_neg hi, if_neg hj, if_neg hj, if_neg hi]
          by_cases hij : i = j
          · rw [hij]
          · have hc : Function.Commute (verlet (chainSet (n * j) n) (springChain (n * j) n k) t)
                (verlet (chainSet (n * i) n) (springChain (n * i) n k) t) := by
              intro m
              refine verlet_comm (springChain_local _ n k) (springChain_local _ n k) ?_ t t m
              rw [Finset.disjoint_left]
              intro a h1 h2
              rw [chainSet, Finset.mem_Ico] at h1 h2
              rcases Nat.lt_or_gt_of_ne hij with h | h
              · have : n * (i + 1) ≤ n * j := Nat.mul_le_mul_left n h
                rw [Nat.mul_add] at this
                omega
              · have : n * (j + 1) ≤ n * i := Nat.mul_le_mul_left n h
                rw [Nat.mul_add] at this
                omega
            exact (hc.iterate_iterate c c) m
  · refine schedule_momentum ?_ l m.toMem
    intro m i
    simp only [chainEffect]
    split_ifs with h
    · rfl
    · exact momentum_iterate (fun m => verlet_momentum (springChain_internal _ n k) t (hlt i h) m) c m

/-- Two chains of three particles, run by two threads in either order. -/
example : [1, 0].Perm [0, 1] ∧ 6 % 3 = 0 := ⟨List.Perm.swap 0 1 [], rfl⟩

/-- A step that changes positions and velocities. -/
example : (dumbbellStep 0 (1 : ℚ) 2 ⟨fun j => if j = 0 then 0 else ⟨1, 0, 0⟩, fun _ => 0⟩).pos 0 = ⟨2, 0, 0⟩ ∧
    (dumbbellStep 0 (1 : ℚ) 2 ⟨fun j => if j = 0 then 0 else ⟨1, 0, 0⟩, fun _ => 0⟩).vel 0 = ⟨-2, 0, 0⟩ := by
  constructor <;> ext <;>
    norm_num [dumbbellStep, Mem.setPos, Mem.setVel, vecStep1, vecStep2, step1, step2, Function.update_apply]

end OpenMPCD.Verlet
