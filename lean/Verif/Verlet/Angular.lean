import Verif.Verlet.Props
import Mathlib.Tactic.LinearCombination

/-!
# Streaming of molecules conserves the angular momentum (C135)
-/

set_option linter.unusedSimpArgs false
set_option linter.unusedSectionVars false

namespace OpenMPCD.Verlet

variable {K : Type} [Field K] [LinearOrder K] [IsStrictOrderedRing K]

/-! ## Specification -/

/-- The moment of `v` at `u`. -/
def moment (u v : Vec3 K) : Vec3 K := ⟨u.y * v.z - u.z * v.y, u.z * v.x - u.x * v.z, u.x * v.y - u.y * v.x⟩

/-- Total angular momentum of the first `N` particles of unit mass, about the origin. -/
def angular (N : ℕ) (m : Mem K) : Vec3 K := ∑ j ∈ Finset.range N, moment (m.pos j) (m.vel j)

/-- The accelerations of the particles of `S` exert no torque. -/
def Torqueless (S : Finset ℕ) (a : (ℕ → Vec3 K) → ℕ → Vec3 K) : Prop :=
  ∀ x, ∑ j ∈ S, moment (x j) (a x j) = 0

/-! ## The specified step -/

theorem moment_step (x v a b : Vec3 K) (t : K) :
    moment (x + t • v + (t ^ 2 / 2) • a) (v + (t / 2) • (a + b)) =
      moment x v + (t / 2) • (moment x a + moment (x + t • v + (t ^ 2 / 2) • a) b) := by
  ext <;> simp [moment] <;> ring

/-- The angular momentum after a step. -/
theorem verlet_angular_eq (S : Finset ℕ) (a : (ℕ → Vec3 K) → ℕ → Vec3 K) (t : K) {N : ℕ}
    (hS : ∀ j ∈ S, j < N) (m : Mem K) :
    angular N (verlet S a t m) = angular N m + (t / 2) • (∑ j ∈ S, moment (m.pos j) (a m.pos j) +
      ∑ j ∈ S, moment ((verlet S a t m).pos j) (a (verlet S a t m).pos j)) := by
  have hsub : S ⊆ Finset.range N := fun j hj => Finset.mem_range.2 (hS j hj)
  have e : ∀ j ∈ Finset.range N, moment ((verlet S a t m).pos j) ((verlet S a t m).vel j) =
      moment (m.pos j) (m.vel j) + (if j ∈ S then (t / 2) • (moment (m.pos j) (a m.pos j) +
        moment ((verlet S a t m).pos j) (a (verlet S a t m).pos j)) else 0) := by
    intro j _
    by_cases hj : j ∈ S
    · rw [if_pos hj]
      have h1 : (verlet S a t m).pos j = m.pos j + t • m.vel j + (t ^ 2 / 2) • a m.pos j := if_pos hj
      have h2 : (verlet S a t m).vel j = m.vel j + (t / 2) • (a m.pos j + a (verlet S a t m).pos j) := if_pos hj
      rw [h2, h1]
      exact moment_step _ _ _ _ _
    · rw [if_neg hj, add_zero]
      have h1 : (verlet S a t m).pos j = m.pos j := if_neg hj
      have h2 : (verlet S a t m).vel j = m.vel j := if_neg hj
      rw [h1, h2]
  unfold angular
  rw [Finset.sum_congr rfl e, Finset.sum_add_distrib, ← Finset.sum_filter, Finset.filter_mem_eq_inter,
    Finset.inter_eq_right.2 hsub, ← Finset.smul_sum, Finset.sum_add_distrib]

theorem verlet_angular {S : Finset ℕ} {a : (ℕ → Vec3 K) → ℕ → Vec3 K} (ha : Torqueless S a) (t : K) {N : ℕ}
    (hS : ∀ j ∈ S, j < N) (m : Mem K) : angular N (verlet S a t m) = angular N m := by
  rw [verlet_angular_eq S a t hS m, ha, ha]
  simp

theorem angular_iterate {f : Mem K → Mem K} {N : ℕ} (h : ∀ m, angular N (f m) = angular N m) (n : ℕ)
    (m : Mem K) : angular N (f^[n] m) = angular N m := by
  induction n with
  | zero => rfl
  | succ n ih => rw [Function.iterate_succ_apply', h, ih]

theorem schedule_angular {f : Mem K → ℕ → Mem K} {N : ℕ} (h : ∀ m i, angular N (f m i) = angular N m)
    (l : List ℕ) (m : Mem K) : angular N (l.foldl f m) = angular N m := by
  induction l generalizing m with
  | nil => rfl
  | cons i l ih => rw [List.foldl_cons, ih, h]

/-! ## Torques -/

theorem springPair_torqueless (p : ℕ) (k : K) : Torqueless {p, p + 1} (springPair p k) := by
  intro x
  rw [Finset.sum_pair (by omega)]
  simp only [springPair, if_true, Nat.succ_ne_self, if_false]
  ext <;> simp [moment] <;> ring

theorem springTriple_torqueless (p : ℕ) (k₁ k₂ : K) : Torqueless {p, p + 1, p + 2} (springTriple p k₁ k₂) := by
  intro x
  rw [Finset.sum_insert (by simp), Finset.sum_pair (by omega)]
  simp [springTriple]
  ext <;> simp [moment] <;> ring

theorem rodPair_torqueless (p : ℕ) (b k : ℝ) : Torqueless {p, p + 1} (rodPair p b k) := by
  intro x
  rw [Finset.sum_pair (by omega)]
  simp only [rodPair, if_true, Nat.succ_ne_self, if_false]
  generalize k * (1 - b / (x (p + 1) - x p).cppMagnitude) = c
  ext <;> simp [moment] <;> ring

theorem springChain_torqueless (p n : ℕ) (k : K) : Torqueless (chainSet p n) (springChain p n k) := by
  intro x
  let G : ℕ → Vec3 K := fun o => if o = 0 ∨ o ≥ n then 0 else k • moment (x (p + o - 1)) (x (p + o))
  rw [chainSet, Finset.sum_Ico_eq_sum_range, Nat.add_sub_cancel_left]
  have : ∀ o ∈ Finset.range n, moment (x (p + o)) (springChain p n k x (p + o)) = G (o + 1) - G o := by
    intro o ho
    rw [Finset.mem_range] at ho
    simp only [springChain, G]
    by_cases h1 : o = 0
    · subst h1
      by_cases h2 : n = 1
      · subst h2; ext <;> simp [moment]
      · rw [if_neg (by omega), if_pos (by omega), if_neg (by omega), if_pos (by omega)]
        ext <;> simp [moment] <;> ring
    · by_cases h2 : o + 1 ≥ n
      · rw [if_pos (by omega), if_neg (by omega), if_pos (by omega), if_neg (by omega)]
        ext <;> simp [moment] <;> ring
      · rw [if_pos (by omega), if_pos (by omega), if_neg (by omega), if_neg (by omega)]
        simp only [← Nat.add_assoc, Nat.add_sub_cancel]
        ext <;> simp [moment] <;> ring
  rw [Finset.sum_congr rfl this, Finset.sum_range_sub]
  simp [G]

/-! ## The streaming -/

/-- C135: dumbbells, velocity Verlet, any number of steps, every order of the threads. -/
theorem C135_dumbbells (N : ℕ) (hN : N % 2 = 0) (k t : K) (n : ℕ) (l : List ℕ) (m : Mem K) :
    angular N (l.foldl (dumbbellThread N k t n) m) = angular N m := by
  refine schedule_angular ?_ l m
  intro m i
  simp only [dumbbellThread]
  split_ifs with h
  · rfl
  · refine angular_iterate ?_ n m
    intro m
    rw [dumbbellStep_eq]
    exact verlet_angular (springPair_torqueless _ k) t (by simp; omega) m

/-- C135: trimers. -/
theorem C135_trimers (N : ℕ) (k₁ k₂ t : K) (n : ℕ) (l : List ℕ) (m : Mem K) :
    angular N (l.foldl (trimerThread N k₁ k₂ t n) m) = angular N m := by
  refine schedule_angular ?_ l m
  intro m i
  simp only [trimerThread]
  split_ifs with h
  · rfl
  · refine angular_iterate ?_ n m
    intro m
    rw [trimerStep_eq]
    exact verlet_angular (springTriple_torqueless _ k₁ k₂) t (by simp; omega) m

/-- C135: chains. -/
theorem C135_chains (N n : ℕ) (hN : N % n = 0) (k t : K) (c : ℕ) (l : List ℕ) (m : ChainMem K) :
    angular N (l.foldl (chainThread N n k t c) m).toMem = angular N m.toMem := by
  rw [chainThread_fold]
  refine schedule_angular ?_ l m.toMem
  intro m i
  simp only [chainEffect]
  split_ifs with h
  · rfl
  · refine angular_iterate (fun m => verlet_angular (springChain_torqueless _ n k) t ?_ m) c m
    intro j hj
    rw [chainSet, Finset.mem_Ico] at hj
    obtain ⟨q, rfl⟩ := Nat.dvd_of_mod_eq_zero hN
    have : i < q := by
      by_contra hc
      exact h (Nat.mul_le_mul_left n (by omega))
    have : n * (i + 1) ≤ n * q := Nat.mul_le_mul_left n this
    rw [Nat.mul_add] at this
    omega

/-- C135: a rod, whenever no assertion fails. -/
theorem C135_rod (p : ℕ) (b k t : ℝ) (n : ℕ) {m m' : Mem ℝ} (h : streamRod p b k t n m = some m') {N : ℕ}
    (hN : p + 1 < N) : angular N m' = angular N m := by
  induction n generalizing m with
  | zero => rw [Option.some.inj h]
  | succ n ih =>
    rw [streamRod] at h
    cases h1 : rodStep p b k t m with
    | none => rw [h1] at h; cases h
    | some m₁ =>
      rw [h1] at h
      rw [ih h]
      rw [rodStep_eq] at h1
      split_ifs at h1
      obtain rfl := Option.some.inj h1
      exact verlet_angular (rodPair_torqueless p b k) t (by simp; omega) m

theorem sum_two_changed {p N : ℕ} (hN : p + 1 < N) {f g : ℕ → Vec3 ℝ} (h : ∀ j, j ≠ p → j ≠ p + 1 → f j = g j)
    (hp : f p + f (p + 1) = g p + g (p + 1)) : ∑ j ∈ Finset.range N, f j = ∑ j ∈ Finset.range N, g j := by
  have hsub : ({p, p + 1} : Finset ℕ) ⊆ Finset.range N := by
    intro j
    simp
    omega
  rw [← Finset.sum_sdiff hsub, ← Finset.sum_sdiff hsub, Finset.sum_pair (by omega), Finset.sum_pair (by omega), hp]
  congr 1
  refine Finset.sum_congr rfl fun j hj => ?_
  simp at hj
  exact h j (by omega) (by omega)

/-- C135: a dumbbell streamed analytically. -/
theorem C135_analytic {omega : ℝ} (ho : omega ≠ 0) (t : ℝ) (p : ℕ) (m : Mem ℝ) {N : ℕ} (hN : p + 1 < N) :
    angular N (streamAnalytically (setSymbols omega t) p m) = angular N m := by
  have hsc := Real.sin_sq_add_cos_sq (omega * t)
  unfold angular
  refine sum_two_changed hN ?_ ?_
  · intro j h1 h2
    simp [streamAnalytically, Mem.setPos, Mem.setVel, Function.update_apply, h1, h2]
  · have hne : p ≠ p + 1 := by omega
    simp only [streamAnalytically, setSymbols, Mem.setPos, Mem.setVel, Function.update_self,
      Function.update_of_ne hne]
    generalize Real.sin (omega * t) = s at *
    generalize Real.cos (omega * t) = c at *
    generalize m.pos p = x1
    generalize m.pos (p + 1) = x2
    generalize m.vel p = v1
    generalize m.vel (p + 1) = v2
    have hc : c ^ 2 = 1 - s ^ 2 := by linarith
    ext <;> simp [moment] <;> field_simp <;> ring_nf <;> simp only [hc] <;> ring

/-- Without the exact relation between the force and the line between the particles, the angular momentum is not
conserved: the statements are not consequences of the conservation of momentum. -/
example : ∃ (a : (ℕ → Vec3 ℚ) → ℕ → Vec3 ℚ) (m : Mem ℚ), Internal {0, 1} a ∧
    angular 2 (verlet {0, 1} a 1 m) ≠ angular 2 m := by
  refine ⟨fun _ j => if j = 0 then ⟨0, 1, 0⟩ else ⟨0, -1, 0⟩, ⟨fun j => ⟨j, 0, 0⟩, fun _ => 0⟩, ?_, ?_⟩
  · intro x
    rw [Finset.sum_pair (by decide)]
    ext <;> simp
  · intro h
    have := congrArg Vec3.z h
    rw [verlet_angular_eq _ _ _ (by simp) _, Finset.sum_pair (by decide), Finset.sum_pair (by decide)] at this
    norm_num [moment, verlet] at this

/-- Two dumbbells; an angular momentum that is not zero. -/
example : 4 % 2 = 0 ∧ angular 4 (⟨fun j => ⟨j, 0, 0⟩, fun j => ⟨0, j, 0⟩⟩ : Mem ℚ) = ⟨0, 0, 14⟩ := by
  refine ⟨rfl, ?_⟩
  ext <;> norm_num [angular, moment, Finset.sum_range_succ]

end OpenMPCD.Verlet
