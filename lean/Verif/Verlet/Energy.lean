import Verif.Verlet.Props
import Mathlib.Algebra.BigOperators.Ring.Finset
import Mathlib.Algebra.Order.BigOperators.Group.Finset
import Mathlib.Analysis.Real.Sqrt
import Mathlib.Algebra.BigOperators.Field
import Mathlib.Tactic.Linarith
import Mathlib.Tactic.LinearCombination
import Mathlib.Tactic.Positivity
import Mathlib.Tactic.FieldSimp

/-!
# Energy of molecules over any number of steps (C134)

Velocity Verlet integration does not conserve the energy of molecules with springs, but another quantity, which differs little from it
if time steps are short. Collisions change velocities only and conserve the kinetic energy (C13), so that they conserve that quantity too.
-/

set_option linter.unusedSimpArgs false
set_option linter.unusedSectionVars false

namespace OpenMPCD.Verlet

variable {K : Type} [Field K] [LinearOrder K] [IsStrictOrderedRing K]

/-! ## Specification -/

/-- Kinetic energy of the first `N` particles, of unit mass. -/
def kinetic (N : ℕ) (m : Mem K) : K := ∑ j ∈ Finset.range N, (m.vel j).dot (m.vel j) / 2

/-- Energy of a spring between particles `p` and `q`, per unit mass; `k`: spring constant divided by the mass. -/
def springEnergy (k : K) (p q : ℕ) (m : Mem K) : K := k / 2 * (m.pos q - m.pos p).dot (m.pos q - m.pos p)

/-- Energy of `M` dumbbells. -/
def dumbbellsEnergy (M : ℕ) (k : K) (m : Mem K) : K :=
  kinetic (2 * M) m + ∑ i ∈ Finset.range M, springEnergy k (2 * i) (2 * i + 1) m

/-- Energy of `M` trimers. -/
def trimersEnergy (M : ℕ) (k₁ k₂ : K) (m : Mem K) : K :=
  kinetic (3 * M) m + ∑ i ∈ Finset.range M, (springEnergy k₁ (3 * i) (3 * i + 1) m + springEnergy k₂ (3 * i + 1) (3 * i + 2) m)

/-- Energy of `M` chains of `n` particles. -/
def chainsEnergy (M n : ℕ) (k : K) (m : Mem K) : K :=
  kinetic (n * M) m + ∑ i ∈ Finset.range M, ∑ o ∈ Finset.range (n - 1), springEnergy k (n * i + o) (n * i + o + 1) m

/-- What may become of positions and velocities of `N` particles: streaming by threads, in any order, and collisions, which change
velocities but not the kinetic energy; both any number of times. -/
inductive Reaches (N : ℕ) (thread : Mem K → ℕ → Mem K) : Mem K → Mem K → Prop
  | start (m) : Reaches N thread m m
  | stream {m m'} (order : List ℕ) : Reaches N thread m m' → Reaches N thread m (order.foldl thread m')
  | collide {m m' m''} : Reaches N thread m m' → m''.pos = m'.pos → kinetic N m'' = kinetic N m' → Reaches N thread m m''

/-- The same for chains, for which there is a buffer of accelerations, which may change in any way in between. -/
inductive ChainReaches (N : ℕ) (thread : ChainMem K → ℕ → ChainMem K) : ChainMem K → ChainMem K → Prop
  | start (m) : ChainReaches N thread m m
  | stream {m m'} (order : List ℕ) : ChainReaches N thread m m' → ChainReaches N thread m (order.foldl thread m')
  | collide {m m' m''} : ChainReaches N thread m m' → m''.pos = m'.pos → kinetic N m''.toMem = kinetic N m'.toMem →
      ChainReaches N thread m m''

/-! ## Molecules -/

/-- A spring between two particles. -/
structure Spring (K : Type) where
  p : ℕ
  q : ℕ
  k : K

/-- The difference of the vectors at its ends. -/
def Spring.diff (e : Spring K) (x : ℕ → Vec3 K) : Vec3 K := x e.q - x e.p

/-- Accelerations `a` of the particles in `S` are due to the springs in `E`, none of which is stiffer than `κ`, and of which at most
`d` end at the same particle. -/
structure Springs (S : Finset ℕ) (a : (ℕ → Vec3 K) → ℕ → Vec3 K) (E : List (Spring K)) (κ d : K) : Prop where
  acc : ∀ x y : ℕ → Vec3 K, ∑ j ∈ S, (a x j).dot (y j) = -(E.map fun e => e.k * (e.diff x).dot (e.diff y)).sum
  stiff : ∀ e ∈ E, 0 ≤ e.k ∧ e.k ≤ κ
  degree : ∀ f : ℕ → K, (∀ j, 0 ≤ f j) → (E.map fun e => f e.p + f e.q).sum ≤ d * ∑ j ∈ S, f j

/-- Energy of springs. -/
def potential (E : List (Spring K)) (x : ℕ → Vec3 K) : K := (E.map fun e => e.k * (e.diff x).dot (e.diff x)).sum / 2

/-- What velocity Verlet steps conserve. -/
def shadow (S : Finset ℕ) (a : (ℕ → Vec3 K) → ℕ → Vec3 K) (E : List (Spring K)) (t : K) (m : Mem K) : K :=
  ∑ j ∈ S, (m.vel j).dot (m.vel j) / 2 + potential E m.pos - t ^ 2 / 8 * ∑ j ∈ S, (a m.pos j).dot (a m.pos j)

theorem dot_nonneg (v : Vec3 K) : 0 ≤ v.dot v := by
  simp only [Vec3.dot]; nlinarith [mul_self_nonneg v.x, mul_self_nonneg v.y, mul_self_nonneg v.z]

section one
variable {S : Finset ℕ} {a : (ℕ → Vec3 K) → ℕ → Vec3 K} {E : List (Spring K)} {κ d : K}

theorem Springs.potential_eq (h : Springs S a E κ d) (x : ℕ → Vec3 K) : potential E x = -(∑ j ∈ S, (a x j).dot (x j)) / 2 := by
  rw [h.acc, potential]; ring

theorem Springs.symm (h : Springs S a E κ d) (x y : ℕ → Vec3 K) : ∑ j ∈ S, (a x j).dot (y j) = ∑ j ∈ S, (a y j).dot (x j) := by
  rw [h.acc, h.acc]
  congr 2
  refine List.map_congr_left fun e _ => ?_
  simp only [Vec3.dot]; ring

theorem potential_nonneg (h : Springs S a E κ d) (x : ℕ → Vec3 K) : 0 ≤ potential E x := by
  refine div_nonneg (List.sum_nonneg ?_) (by norm_num)
  intro y hy
  obtain ⟨e, he, rfl⟩ := List.mem_map.1 hy
  exact mul_nonneg (h.stiff e he).1 (dot_nonneg _)

/-- A step conserves the quantity. -/
theorem verlet_shadow (h : Springs S a E κ d) (t : K) (m : Mem K) : shadow S a E t (verlet S a t m) = shadow S a E t m := by
  set m' := verlet S a t m with hm'
  have hx : ∀ j ∈ S, m'.pos j = m.pos j + t • m.vel j + (t ^ 2 / 2) • a m.pos j := fun j hj => by simp [hm', verlet, hj]
  have hv : ∀ j ∈ S, m'.vel j = m.vel j + (t / 2) • (a m.pos j + a m'.pos j) := fun j hj => by simp [hm', verlet, hj]
  have hs := h.symm m'.pos m.pos
  unfold shadow
  rw [h.potential_eq, h.potential_eq]
  have key : ∑ j ∈ S, (m'.vel j).dot (m'.vel j) / 2 - t ^ 2 / 8 * ∑ j ∈ S, (a m'.pos j).dot (a m'.pos j) -
      (∑ j ∈ S, (m.vel j).dot (m.vel j) / 2 - t ^ 2 / 8 * ∑ j ∈ S, (a m.pos j).dot (a m.pos j)) =
      (∑ j ∈ S, (a m'.pos j).dot (m'.pos j) + ∑ j ∈ S, (a m.pos j).dot (m'.pos j) - ∑ j ∈ S, (a m'.pos j).dot (m.pos j) -
        ∑ j ∈ S, (a m.pos j).dot (m.pos j)) / 2 := by
    rw [Finset.mul_sum, Finset.mul_sum, ← Finset.sum_sub_distrib, ← Finset.sum_sub_distrib, ← Finset.sum_sub_distrib,
      ← Finset.sum_add_distrib, ← Finset.sum_sub_distrib, ← Finset.sum_sub_distrib, Finset.sum_div]
    refine Finset.sum_congr rfl fun j hj => ?_
    rw [hv j hj, hx j hj]
    simp only [Vec3.dot, Vec3.add_x, Vec3.add_y, Vec3.add_z, Vec3.smul_x, Vec3.smul_y, Vec3.smul_z]
    ring
  linear_combination key - hs / 2

/-- The sum of the squares of accelerations is bounded by the energy of the springs. -/
theorem Springs.acc_le (h : Springs S a E κ d) (hκ : 0 ≤ κ) (hd : 0 < d) (x : ℕ → Vec3 K) :
    ∑ j ∈ S, (a x j).dot (a x j) ≤ 4 * κ * d * potential E x := by
  rcases hκ.eq_or_lt with h0 | hκ
  · have : ∑ j ∈ S, (a x j).dot (a x j) = 0 := by
      rw [h.acc, neg_eq_zero]
      refine List.sum_eq_zero fun y hy => ?_
      obtain ⟨e, he, rfl⟩ := List.mem_map.1 hy
      have := h.stiff e he
      rw [show e.k = 0 by linarith, zero_mul]
    rw [this, ← h0]; simp
  set A := ∑ j ∈ S, (a x j).dot (a x j) with hA
  have hc : 0 < 2 * κ * d := by positivity
  have h1 : A ≤ (E.map fun e => κ * d * (e.k * (e.diff x).dot (e.diff x)) + 1 / (2 * d) * ((a x e.p).dot (a x e.p) +
      (a x e.q).dot (a x e.q))).sum := by
    rw [hA, h.acc, ← neg_one_mul, ← List.sum_map_mul_left]
    refine List.sum_le_sum fun e he => ?_
    obtain ⟨k0, k1⟩ := h.stiff e he
    rw [neg_one_mul]
    set u := e.diff x
    set w := e.diff (a x) with hw
    have e1 : -(u.dot w) ≤ κ * d * u.dot u + 1 / (4 * κ * d) * w.dot w := by
      have sq : 0 ≤ ((2 * κ * d) • u + w).dot ((2 * κ * d) • u + w) := dot_nonneg _
      have ex : ((2 * κ * d) • u + w).dot ((2 * κ * d) • u + w) = 4 * κ * d * (κ * d * u.dot u + u.dot w + 1 / (4 * κ * d) * w.dot w) := by
        simp only [Vec3.dot, Vec3.add_x, Vec3.add_y, Vec3.add_z, Vec3.smul_x, Vec3.smul_y, Vec3.smul_z]
        field_simp
        ring
      rw [ex] at sq
      have := nonneg_of_mul_nonneg_right sq (by positivity)
      linarith
    have e2 : w.dot w ≤ 2 * ((a x e.p).dot (a x e.p) + (a x e.q).dot (a x e.q)) := by
      have sq : 0 ≤ (a x e.p + a x e.q).dot (a x e.p + a x e.q) := dot_nonneg _
      have ex : w.dot w + (a x e.p + a x e.q).dot (a x e.p + a x e.q) = 2 * ((a x e.p).dot (a x e.p) + (a x e.q).dot (a x e.q)) := by
        rw [hw]
        simp only [Spring.diff, Vec3.dot, Vec3.add_x, Vec3.add_y, Vec3.add_z, Vec3.sub_x, Vec3.sub_y, Vec3.sub_z]
        ring
      linarith
    have e3 : e.k * (1 / (4 * κ * d) * w.dot w) ≤ 1 / (2 * d) * ((a x e.p).dot (a x e.p) + (a x e.q).dot (a x e.q)) := by
      have w0 := dot_nonneg w
      have : e.k * (1 / (4 * κ * d) * w.dot w) ≤ κ * (1 / (4 * κ * d) * w.dot w) :=
        mul_le_mul_of_nonneg_right k1 (by positivity)
      refine this.trans ?_
      have e4 : κ * (1 / (4 * κ * d) * w.dot w) = 1 / (4 * d) * w.dot w := by field_simp
      have e5 : 1 / (2 * d) * ((a x e.p).dot (a x e.p) + (a x e.q).dot (a x e.q)) =
        1 / (4 * d) * (2 * ((a x e.p).dot (a x e.p) + (a x e.q).dot (a x e.q))) := by field_simp; ring
      rw [e4, e5]
      exact mul_le_mul_of_nonneg_left e2 (by positivity)
    have e6 := mul_le_mul_of_nonneg_left e1 k0
    have e7 : e.k * (κ * d * u.dot u + 1 / (4 * κ * d) * w.dot w) = κ * d * (e.k * u.dot u) + e.k * (1 / (4 * κ * d) * w.dot w) := by ring
    have e8 : -(e.k * u.dot w) = e.k * -(u.dot w) := by ring
    rw [e8]
    linarith
  have h2 : (E.map fun e => κ * d * (e.k * (e.diff x).dot (e.diff x)) + 1 / (2 * d) * ((a x e.p).dot (a x e.p) +
      (a x e.q).dot (a x e.q))).sum = κ * d * (2 * potential E x) + 1 / (2 * d) * (E.map fun e => (a x e.p).dot (a x e.p) +
      (a x e.q).dot (a x e.q)).sum := by
    rw [List.sum_map_add, List.sum_map_mul_left, List.sum_map_mul_left, potential]
    ring
  have h3 := h.degree (fun j => (a x j).dot (a x j)) fun j => dot_nonneg _
  have h4 : 1 / (2 * d) * (E.map fun e => (a x e.p).dot (a x e.p) + (a x e.q).dot (a x e.q)).sum ≤ 1 / (2 * d) * (d * A) :=
    mul_le_mul_of_nonneg_left h3 (by positivity)
  have h5 : 1 / (2 * d) * (d * A) = A / 2 := by field_simp
  have h6 : 4 * κ * d * potential E x = 2 * (κ * d * (2 * potential E x)) := by ring
  rw [h6]
  linarith

/-- A step for other particles does not matter. -/
theorem verlet_other {T : Finset ℕ} {b : (ℕ → Vec3 K) → ℕ → Vec3 K} (hl : Local S a) (h : Springs S a E κ d)
    (hST : Disjoint S T) (t : K) (m : Mem K) : shadow S a E t (verlet T b t m) = shadow S a E t m := by
  have hp : ∀ j ∈ S, (verlet T b t m).pos j = m.pos j := fun j hj => by
    simp [verlet, Finset.disjoint_left.1 hST hj]
  have hv : ∀ j ∈ S, (verlet T b t m).vel j = m.vel j := fun j hj => by
    simp [verlet, Finset.disjoint_left.1 hST hj]
  have ha : ∀ j ∈ S, a (verlet T b t m).pos j = a m.pos j := hl _ _ hp
  unfold shadow
  rw [h.potential_eq, h.potential_eq]
  congr 1
  · congr 1
    · exact Finset.sum_congr rfl fun j hj => by rw [hv j hj]
    · congr 2
      exact Finset.sum_congr rfl fun j hj => by rw [hp j hj, ha j hj]
  · congr 1
    exact Finset.sum_congr rfl fun j hj => by rw [ha j hj]

end one

/-! ## Fluids -/

section fluid
variable {M : ℕ} {S : ℕ → Finset ℕ} {a : ℕ → (ℕ → Vec3 K) → ℕ → Vec3 K} {E : ℕ → List (Spring K)} {κ d t : K}

/-- Energy of molecules. -/
def totalEnergy (M : ℕ) (S : ℕ → Finset ℕ) (E : ℕ → List (Spring K)) (m : Mem K) : K :=
  ∑ i ∈ Finset.range M, (∑ j ∈ S i, (m.vel j).dot (m.vel j) / 2 + potential (E i) m.pos)

theorem shadow_bounds (h : ∀ i < M, Springs (S i) (a i) (E i) κ d) (hκ : 0 ≤ κ) (hd : 0 < d) (m : Mem K) :
    (1 - κ * d * t ^ 2 / 2) * totalEnergy M S E m ≤ ∑ i ∈ Finset.range M, shadow (S i) (a i) (E i) t m ∧
      ∑ i ∈ Finset.range M, shadow (S i) (a i) (E i) t m ≤ totalEnergy M S E m := by
  unfold totalEnergy
  constructor
  · rw [Finset.mul_sum]
    refine Finset.sum_le_sum fun i hi => ?_
    have hi := Finset.mem_range.1 hi
    have h1 := (h i hi).acc_le hκ hd m.pos
    have h2 : 0 ≤ ∑ j ∈ S i, (m.vel j).dot (m.vel j) / 2 :=
      Finset.sum_nonneg fun j _ => div_nonneg (dot_nonneg _) (by norm_num)
    have h3 : 0 ≤ κ * d * t ^ 2 / 2 := by positivity
    have h4 := mul_nonneg h3 h2
    have h5 : t ^ 2 / 8 * ∑ j ∈ S i, (a i m.pos j).dot (a i m.pos j) ≤ t ^ 2 / 8 * (4 * κ * d * potential (E i) m.pos) :=
      mul_le_mul_of_nonneg_left h1 (by positivity)
    unfold shadow
    have h6 : t ^ 2 / 8 * (4 * κ * d * potential (E i) m.pos) = κ * d * t ^ 2 / 2 * potential (E i) m.pos := by ring
    rw [h6] at h5
    linarith
  · refine Finset.sum_le_sum fun i hi => ?_
    have : 0 ≤ t ^ 2 / 8 * ∑ j ∈ S i, (a i m.pos j).dot (a i m.pos j) :=
      mul_nonneg (by positivity) (Finset.sum_nonneg fun j _ => dot_nonneg _)
    unfold shadow
    linarith

theorem shadow_step (h : ∀ i < M, Springs (S i) (a i) (E i) κ d) (hl : ∀ i < M, Local (S i) (a i))
    (hS : ∀ i < M, ∀ j < M, i ≠ j → Disjoint (S i) (S j)) {i : ℕ} (hi : i < M) (c : ℕ) (m : Mem K) :
    ∑ j ∈ Finset.range M, shadow (S j) (a j) (E j) t ((verlet (S i) (a i) t)^[c] m) =
      ∑ j ∈ Finset.range M, shadow (S j) (a j) (E j) t m := by
  induction c with
  | zero => rfl
  | succ c ih =>
    rw [Function.iterate_succ_apply', ← ih]
    refine Finset.sum_congr rfl fun j hj => ?_
    have hj := Finset.mem_range.1 hj
    by_cases hij : i = j
    · subst hij; exact verlet_shadow (h i hi) t _
    · exact verlet_other (hl j hj) (h j hj) (hS j hj i hi (Ne.symm hij)) t _

/-- Energy stays within bounds. -/
theorem energy_bounds {N : ℕ} {thread : Mem K → ℕ → Mem K} (h : ∀ i < M, Springs (S i) (a i) (E i) κ d)
    (hl : ∀ i < M, Local (S i) (a i)) (hS : ∀ i < M, ∀ j < M, i ≠ j → Disjoint (S i) (S j)) (hκ : 0 ≤ κ) (hd : 0 < d)
    (hkin : ∀ m : Mem K, ∑ i ∈ Finset.range M, ∑ j ∈ S i, (m.vel j).dot (m.vel j) / 2 = kinetic N m)
    (hthread : ∀ m i, thread m i = m ∨ i < M ∧ ∃ c, thread m i = (verlet (S i) (a i) t)^[c] m) {m m' : Mem K}
    (r : Reaches N thread m m') :
    (1 - κ * d * t ^ 2 / 2) * totalEnergy M S E m ≤ totalEnergy M S E m' ∧ (1 - κ * d * t ^ 2 / 2) * totalEnergy M S E m' ≤ totalEnergy M S E m := by
  have cons : ∑ j ∈ Finset.range M, shadow (S j) (a j) (E j) t m' = ∑ j ∈ Finset.range M, shadow (S j) (a j) (E j) t m := by
    induction r with
    | start => rfl
    | @stream m' order hr ih =>
      rw [← ih]
      clear ih hr
      induction order generalizing m' with
      | nil => rfl
      | cons i l ihl =>
        rw [List.foldl_cons, ihl]
        rcases hthread m' i with e | ⟨hi, c, e⟩
        · rw [e]
        · rw [e, shadow_step h hl hS hi]
    | @collide m' m'' _ hp hk ih =>
      rw [← ih]
      rw [← hkin, ← hkin] at hk
      unfold shadow
      rw [hp]
      simp only [Finset.sum_sub_distrib, Finset.sum_add_distrib, hk]
  obtain ⟨a1, a2⟩ := shadow_bounds (t := t) h hκ hd m
  obtain ⟨b1, b2⟩ := shadow_bounds (t := t) h hκ hd m'
  exact ⟨by linarith, by linarith⟩

end fluid

/-! ## The molecules of the code -/

theorem kinetic_split (n M : ℕ) (f : ℕ → K) :
    ∑ i ∈ Finset.range M, ∑ o ∈ Finset.range n, f (n * i + o) = ∑ j ∈ Finset.range (n * M), f j := by
  induction M with
  | zero => simp
  | succ M ih => rw [Finset.sum_range_succ, ih, Nat.mul_succ, Finset.sum_range_add]

/-- The spring of a dumbbell. -/
def pairBonds (k : K) (i : ℕ) : List (Spring K) := [⟨2 * i, 2 * i + 1, k⟩]

theorem pair_springs {k : K} (hk : 0 ≤ k) (i : ℕ) :
    Springs {2 * i, 2 * i + 1} (springPair (2 * i) k) (pairBonds k i) k 1 := by
  refine ⟨fun x y => ?_, fun e he => ?_, fun f _ => ?_⟩
  · rw [Finset.sum_pair (by omega)]
    simp only [springPair, if_true, Nat.succ_ne_self, if_false, pairBonds, List.map_cons, List.map_nil, List.sum_cons, List.sum_nil,
      Spring.diff, Vec3.dot, Vec3.sub_x, Vec3.sub_y, Vec3.sub_z, Vec3.smul_x, Vec3.smul_y, Vec3.smul_z]
    ring
  · rw [pairBonds, List.mem_singleton] at he
    subst he
    exact ⟨hk, le_rfl⟩
  · rw [Finset.sum_pair (by omega)]
    simp [pairBonds]

/-- C134: dumbbells. Whatever happens, the energy is within a factor of what it was at first, which is close to one for short time
steps. -/
theorem C134_dumbbells {M c : ℕ} {k t : K} (hk : 0 ≤ k) {m m' : Mem K}
    (r : Reaches (2 * M) (dumbbellThread (2 * M) k t c) m m') :
    (1 - k * t ^ 2 / 2) * dumbbellsEnergy M k m ≤ dumbbellsEnergy M k m' ∧
      (1 - k * t ^ 2 / 2) * dumbbellsEnergy M k m' ≤ dumbbellsEnergy M k m := by
  have hkin : ∀ m : Mem K, ∑ i ∈ Finset.range M, ∑ j ∈ ({2 * i, 2 * i + 1} : Finset ℕ), (m.vel j).dot (m.vel j) / 2 =
      kinetic (2 * M) m := by
    intro m
    rw [kinetic, ← kinetic_split]
    refine Finset.sum_congr rfl fun i _ => ?_
    rw [Finset.sum_pair (by omega), Finset.sum_range_succ, Finset.sum_range_one]
    rfl
  have he : ∀ m : Mem K, totalEnergy M (fun i => {2 * i, 2 * i + 1}) (pairBonds k) m = dumbbellsEnergy M k m := by
    intro m
    rw [totalEnergy, Finset.sum_add_distrib, hkin, dumbbellsEnergy]
    congr 1
    refine Finset.sum_congr rfl fun i _ => ?_
    simp only [potential, pairBonds, List.map_cons, List.map_nil, List.sum_cons, List.sum_nil, Spring.diff, springEnergy]
    ring
  have := energy_bounds (t := t) (S := fun i => {2 * i, 2 * i + 1}) (a := fun i => springPair (2 * i) k) (E := pairBonds k)
    (fun i _ => pair_springs hk i) (fun i _ => springPair_local _ k) (fun i _ j _ hij => by
      rw [Finset.disjoint_left]
      intro a
      simp
      omega) hk one_pos hkin (fun m i => by
      simp only [dumbbellThread]
      split_ifs with h
      · exact Or.inl rfl
      · exact Or.inr ⟨by omega, c, by rw [streamDumbbell, dumbbellStep_eq]⟩) r
  simpa [he] using this

/-- The springs of a trimer. -/
def tripleBonds (k₁ k₂ : K) (i : ℕ) : List (Spring K) := [⟨3 * i, 3 * i + 1, k₁⟩, ⟨3 * i + 1, 3 * i + 2, k₂⟩]

theorem triple_springs {k₁ k₂ : K} (h1 : 0 ≤ k₁) (h2 : 0 ≤ k₂) (i : ℕ) :
    Springs {3 * i, 3 * i + 1, 3 * i + 2} (springTriple (3 * i) k₁ k₂) (tripleBonds k₁ k₂ i) (max k₁ k₂) 2 := by
  refine ⟨fun x y => ?_, fun e he => ?_, fun f hf => ?_⟩
  · rw [Finset.sum_insert (by simp), Finset.sum_pair (by omega)]
    simp [springTriple, tripleBonds, Spring.diff, Vec3.dot]
    ring
  · simp only [tripleBonds, List.mem_cons, List.not_mem_nil, or_false] at he
    rcases he with rfl | rfl
    · exact ⟨h1, le_max_left _ _⟩
    · exact ⟨h2, le_max_right _ _⟩
  · rw [Finset.sum_insert (by simp), Finset.sum_pair (by omega)]
    simp only [tripleBonds, List.map_cons, List.map_nil, List.sum_cons, List.sum_nil]
    linarith [hf (3 * i), hf (3 * i + 2)]

/-- C134: trimers. -/
theorem C134_trimers {M c : ℕ} {k₁ k₂ t : K} (h1 : 0 ≤ k₁) (h2 : 0 ≤ k₂) {m m' : Mem K}
    (r : Reaches (3 * M) (trimerThread (3 * M) k₁ k₂ t c) m m') :
    (1 - max k₁ k₂ * t ^ 2) * trimersEnergy M k₁ k₂ m ≤ trimersEnergy M k₁ k₂ m' ∧
      (1 - max k₁ k₂ * t ^ 2) * trimersEnergy M k₁ k₂ m' ≤ trimersEnergy M k₁ k₂ m := by
  have hkin : ∀ m : Mem K, ∑ i ∈ Finset.range M, ∑ j ∈ ({3 * i, 3 * i + 1, 3 * i + 2} : Finset ℕ), (m.vel j).dot (m.vel j) / 2 =
      kinetic (3 * M) m := by
    intro m
    rw [kinetic, ← kinetic_split]
    refine Finset.sum_congr rfl fun i _ => ?_
    rw [Finset.sum_insert (by simp), Finset.sum_pair (by omega), Finset.sum_range_succ, Finset.sum_range_succ, Finset.sum_range_one]
    simp only [Nat.add_zero]
    ring
  have he : ∀ m : Mem K, totalEnergy M (fun i => {3 * i, 3 * i + 1, 3 * i + 2}) (tripleBonds k₁ k₂) m = trimersEnergy M k₁ k₂ m := by
    intro m
    rw [totalEnergy, Finset.sum_add_distrib, hkin, trimersEnergy]
    congr 1
    refine Finset.sum_congr rfl fun i _ => ?_
    simp only [potential, tripleBonds, List.map_cons, List.map_nil, List.sum_cons, List.sum_nil, Spring.diff, springEnergy]
    ring
  have := energy_bounds (t := t) (S := fun i => {3 * i, 3 * i + 1, 3 * i + 2}) (a := fun i => springTriple (3 * i) k₁ k₂)
    (E := tripleBonds k₁ k₂) (fun i _ => triple_springs h1 h2 i) (fun i _ => springTriple_local _ k₁ k₂) (fun i _ j _ hij => by
      rw [Finset.disjoint_left]
      intro a
      simp
      omega) (h1.trans (le_max_left _ _)) two_pos hkin (fun m i => by
      simp only [trimerThread]
      split_ifs with h
      · exact Or.inl rfl
      · exact Or.inr ⟨by omega, c, by rw [trimerStep_eq]⟩) r
  simp only [he] at this
  rw [show max k₁ k₂ * 2 * t ^ 2 / 2 = max k₁ k₂ * t ^ 2 by ring] at this
  exact this

/-- The springs of a chain. -/
def chainBonds (n : ℕ) (k : K) (i : ℕ) : List (Spring K) := (List.range (n - 1)).map fun o => ⟨n * i + o, n * i + o + 1, k⟩

theorem range_sum (n : ℕ) (f : ℕ → K) : ((List.range n).map f).sum = ∑ o ∈ Finset.range n, f o := by
  rw [← List.sum_toFinset _ List.nodup_range, List.toFinset_range]

theorem chain_springs {n : ℕ} {k : K} (hk : 0 ≤ k) (i : ℕ) :
    Springs (chainSet (n * i) n) (springChain (n * i) n k) (chainBonds n k i) k 2 := by
  generalize hp : n * i = p
  refine ⟨fun x y => ?_, fun e he => ?_, fun f hf => ?_⟩
  · rw [chainSet, Finset.sum_Ico_eq_sum_range, Nat.add_sub_cancel_left, chainBonds, List.map_map, range_sum, hp]
    rcases n with - | n
    · simp
    let G : ℕ → Vec3 K := fun o => if o = 0 ∨ o ≥ n + 1 then 0 else k • (x (p + o) - x (p + o - 1))
    have hG : ∀ o ∈ Finset.range (n + 1), (springChain p (n + 1) k x (p + o)).dot (y (p + o)) =
        (G (o + 1)).dot (y (p + o)) - (G o).dot (y (p + o)) := by
      intro o ho
      rw [Finset.mem_range] at ho
      have : springChain p (n + 1) k x (p + o) = G (o + 1) - G o := by
        simp only [springChain, G]
        by_cases h1 : o = 0
        · subst h1
          by_cases h2 : n = 0
          · subst h2; simp
          · rw [if_neg (by omega), if_pos (by omega), if_neg (by omega), if_pos (by omega)]
            simp
        · by_cases h2 : o ≥ n
          · rw [if_pos (by omega), if_neg (by omega), if_pos (by omega), if_neg (by omega)]
            module
          · rw [if_pos (by omega), if_pos (by omega), if_neg (by omega), if_neg (by omega)]
            simp only [← Nat.add_assoc, Nat.add_sub_cancel]
            module
      rw [this]
      simp only [Vec3.dot, Vec3.sub_x, Vec3.sub_y, Vec3.sub_z]
      ring
    rw [Finset.sum_congr rfl hG, Finset.sum_sub_distrib, Finset.sum_range_succ, Finset.sum_range_succ' (fun o => (G o).dot (y (p + o)))]
    have g0 : G 0 = 0 := by simp [G]
    have gn : G (n + 1) = 0 := by simp [G]
    rw [g0, gn]
    have hz : ∀ v : Vec3 K, (0 : Vec3 K).dot v = 0 := fun v => by simp [Vec3.dot]
    rw [hz, hz, add_zero, add_zero, ← Finset.sum_sub_distrib, ← Finset.sum_neg_distrib, Nat.add_sub_cancel]
    refine Finset.sum_congr rfl fun o ho => ?_
    rw [Finset.mem_range] at ho
    have go : G (o + 1) = k • (x (p + o + 1) - x (p + o)) := by
      simp only [G]
      rw [if_neg (by omega)]
      rfl
    rw [go]
    simp only [Function.comp, Spring.diff, Vec3.dot, Vec3.sub_x, Vec3.sub_y, Vec3.sub_z, Vec3.smul_x, Vec3.smul_y, Vec3.smul_z,
      ← Nat.add_assoc]
    ring
  · obtain ⟨o, _, rfl⟩ := List.mem_map.1 he
    exact ⟨hk, le_rfl⟩
  · rw [chainSet, Finset.sum_Ico_eq_sum_range, Nat.add_sub_cancel_left, chainBonds, List.map_map, range_sum, hp]
    rcases n with - | n
    · simp
    simp only [Function.comp, Nat.add_sub_cancel]
    rw [Finset.sum_add_distrib]
    have e1 := Finset.sum_range_succ (fun o => f (p + o)) n
    have e2 := Finset.sum_range_succ' (fun o => f (p + o)) n
    simp only [← Nat.add_assoc] at e2
    linarith [hf (p + n), hf (p + 0)]

theorem chain_reaches {N n c : ℕ} {k t : K} {m m' : ChainMem K} (r : ChainReaches N (chainThread N n k t c) m m') :
    Reaches N (chainEffect N n k t c) m.toMem m'.toMem := by
  induction r with
  | start => exact .start _
  | stream order _ ih => rw [chainThread_fold]; exact .stream order ih
  | collide _ hp hk ih => exact .collide ih hp hk

/-- C134: chains of any length. -/
theorem C134_chains {M n c : ℕ} {k t : K} (hk : 0 ≤ k) {m m' : ChainMem K}
    (r : ChainReaches (n * M) (chainThread (n * M) n k t c) m m') :
    (1 - k * t ^ 2) * chainsEnergy M n k m.toMem ≤ chainsEnergy M n k m'.toMem ∧
      (1 - k * t ^ 2) * chainsEnergy M n k m'.toMem ≤ chainsEnergy M n k m.toMem := by
  have hkin : ∀ m : Mem K, ∑ i ∈ Finset.range M, ∑ j ∈ chainSet (n * i) n, (m.vel j).dot (m.vel j) / 2 = kinetic (n * M) m := by
    intro m
    rw [kinetic, ← kinetic_split]
    refine Finset.sum_congr rfl fun i _ => ?_
    rw [chainSet, Finset.sum_Ico_eq_sum_range, Nat.add_sub_cancel_left]
  have he : ∀ m : Mem K, totalEnergy M (fun i => chainSet (n * i) n) (chainBonds n k) m = chainsEnergy M n k m := by
    intro m
    rw [totalEnergy, Finset.sum_add_distrib, hkin, chainsEnergy]
    congr 1
    refine Finset.sum_congr rfl fun i _ => ?_
    rw [potential, chainBonds, List.map_map, range_sum, Finset.sum_div]
    refine Finset.sum_congr rfl fun o _ => ?_
    simp only [Function.comp, Spring.diff, springEnergy]
    ring
  have := energy_bounds (t := t) (S := fun i => chainSet (n * i) n) (a := fun i => springChain (n * i) n k) (E := chainBonds n k)
    (fun i _ => chain_springs hk i) (fun i _ => springChain_local _ n k) (fun i _ j _ hij => by
      rw [Finset.disjoint_left]
      intro a h1 h2
      rw [chainSet, Finset.mem_Ico] at h1 h2
      rcases Nat.lt_or_gt_of_ne hij with h | h
      · have : n * (i + 1) ≤ n * j := Nat.mul_le_mul_left n h
        rw [Nat.mul_add] at this
        omega
      · have : n * (j + 1) ≤ n * i := Nat.mul_le_mul_left n h
        rw [Nat.mul_add] at this
        omega) hk two_pos hkin (fun m i => by
      simp only [chainEffect]
      split_ifs with h
      · exact Or.inl rfl
      · exact Or.inr ⟨by
          by_contra hc
          exact h (Nat.mul_le_mul_left n (by omega)), c, rfl⟩) (chain_reaches r)
  simp only [he] at this
  rw [show k * 2 * t ^ 2 / 2 = k * t ^ 2 by ring] at this
  exact this

/-- C134: no bond of a chain ever becomes longer than the energy at first allows. -/
theorem C134_bonds {M n c : ℕ} {k t : K} (hk : 0 ≤ k) (ht : k * t ^ 2 ≤ 1) {m m' : ChainMem K}
    (r : ChainReaches (n * M) (chainThread (n * M) n k t c) m m') {i o : ℕ} (hi : i < M) (ho : o + 1 < n) :
    (1 - k * t ^ 2) * (k / 2 * (m'.pos (n * i + o + 1) - m'.pos (n * i + o)).dot (m'.pos (n * i + o + 1) - m'.pos (n * i + o))) ≤
      chainsEnergy M n k m.toMem := by
  have s0 : ∀ p q, 0 ≤ springEnergy k p q m'.toMem := fun p q => mul_nonneg (by linarith) (dot_nonneg _)
  have h1 : springEnergy k (n * i + o) (n * i + o + 1) m'.toMem ≤
      ∑ o ∈ Finset.range (n - 1), springEnergy k (n * i + o) (n * i + o + 1) m'.toMem :=
    Finset.single_le_sum (f := fun o => springEnergy k (n * i + o) (n * i + o + 1) m'.toMem) (fun o _ => s0 _ _)
      (Finset.mem_range.2 (by omega))
  have h2 : ∑ o ∈ Finset.range (n - 1), springEnergy k (n * i + o) (n * i + o + 1) m'.toMem ≤
      ∑ i ∈ Finset.range M, ∑ o ∈ Finset.range (n - 1), springEnergy k (n * i + o) (n * i + o + 1) m'.toMem :=
    Finset.single_le_sum (f := fun i => ∑ o ∈ Finset.range (n - 1), springEnergy k (n * i + o) (n * i + o + 1) m'.toMem)
      (fun i _ => Finset.sum_nonneg fun o _ => s0 _ _) (Finset.mem_range.2 hi)
  have h3 : 0 ≤ kinetic (n * M) m'.toMem := Finset.sum_nonneg fun j _ => div_nonneg (dot_nonneg _) (by norm_num)
  have h4 : springEnergy k (n * i + o) (n * i + o + 1) m'.toMem ≤ chainsEnergy M n k m'.toMem := by
    unfold chainsEnergy; linarith
  exact (mul_le_mul_of_nonneg_left h4 (by linarith)).trans (C134_chains hk r).2

/-! ## Long time steps -/

/-- A dumbbell along the x axis. -/
def mirror (r w : ℝ) : Mem ℝ :=
  ⟨fun j => if j = 0 then ⟨-r, 0, 0⟩ else if j = 1 then ⟨r, 0, 0⟩ else 0,
    fun j => if j = 0 then ⟨-w, 0, 0⟩ else if j = 1 then ⟨w, 0, 0⟩ else 0⟩

theorem mirror_step (k t r w : ℝ) :
    dumbbellStep 0 k t (mirror r w) = mirror ((1 - k * t ^ 2) * r + t * w) (w - t * k * (r + ((1 - k * t ^ 2) * r + t * w))) := by
  have h5 : (0.5 : ℝ) = 1 / 2 := by norm_num
  ext j <;> rcases j with - | - | j <;>
    simp [dumbbellStep, mirror, Mem.setPos, Mem.setVel, vecStep1, vecStep2, step1, step2, Function.update_apply, h5] <;> ring

theorem mirror_energy (k r w : ℝ) : dumbbellsEnergy 1 k (mirror r w) = w ^ 2 + 2 * k * r ^ 2 := by
  simp [dumbbellsEnergy, kinetic, springEnergy, mirror, Finset.sum_range_succ, Vec3.dot]
  ring

theorem mirror_grows {k t : ℝ} (hk : 0 < k) (ht : 0 < t) (h : 2 ≤ k * t ^ 2) :
    ∃ r w : ℝ, ∀ B, ∃ c, B < dumbbellsEnergy 1 k (streamDumbbell 0 k t c (mirror r w)) := by
  rcases h.eq_or_lt with h2 | h2
  · refine ⟨0, 1, fun B => ?_⟩
    have it : ∀ c : ℕ, streamDumbbell 0 k t c (mirror 0 1) = mirror (-(-1) ^ c * c * t) ((-1) ^ c) := by
      intro c
      induction c with
      | zero => simp [streamDumbbell]
      | succ c ih =>
        rw [streamDumbbell] at ih ⊢
        rw [Function.iterate_succ_apply', ih, mirror_step, ← h2]
        congr 1
        · push_cast; ring
        · have : t * k * (-(-1) ^ c * c * t + ((1 - 2) * (-(-1) ^ c * c * t) + t * (-1) ^ c)) = k * t ^ 2 * (-1) ^ c := by ring
          rw [this, ← h2]; ring
    obtain ⟨c, hc⟩ := exists_nat_gt B
    refine ⟨c + 1, ?_⟩
    rw [it, mirror_energy]
    have s1 : (((-1 : ℝ)) ^ (c + 1)) ^ 2 = 1 := by rw [← pow_mul, mul_comm, pow_mul]; norm_num
    have : 2 * k * (-(-1) ^ (c + 1) * ((c + 1 : ℕ) : ℝ) * t) ^ 2 = 4 * ((c : ℝ) + 1) ^ 2 := by
      have : 2 * k * (-(-1) ^ (c + 1) * ((c + 1 : ℕ) : ℝ) * t) ^ 2 = 2 * (k * t ^ 2) * (((-1 : ℝ)) ^ (c + 1)) ^ 2 * ((c : ℝ) + 1) ^ 2 := by
        push_cast; ring
      rw [this, ← h2, s1]; ring
    rw [this, s1]
    have c0 : (0 : ℝ) ≤ c := Nat.cast_nonneg c
    nlinarith
  · set q := k * t ^ 2 with hq
    set μ := -Real.sqrt (q ^ 2 - 2 * q) with hμ
    have hμ2 : μ ^ 2 = q ^ 2 - 2 * q := by
      rw [hμ, neg_sq, Real.sq_sqrt (by nlinarith)]
    have hμ0 : μ ≤ 0 := by rw [hμ]; exact neg_nonpos.2 (Real.sqrt_nonneg _)
    refine ⟨1, μ / t, fun B => ?_⟩
    set l := 1 - q + μ with hl
    have it : ∀ c : ℕ, streamDumbbell 0 k t c (mirror 1 (μ / t)) = mirror (l ^ c) (l ^ c * (μ / t)) := by
      intro c
      induction c with
      | zero => simp [streamDumbbell]
      | succ c ih =>
        rw [streamDumbbell] at ih ⊢
        rw [Function.iterate_succ_apply', ih, mirror_step, ← hq]
        have e1 : (1 - q) * l ^ c + t * (l ^ c * (μ / t)) = l ^ (c + 1) := by
          rw [pow_succ, hl]
          field_simp
        rw [e1]
        congr 1
        have e2 : t * k = q / t := by rw [hq]; field_simp
        rw [e2]
        have e3 : (l - 1) * μ = -q * (1 + l) := by rw [hl]; linear_combination hμ2
        rw [pow_succ]
        field_simp
        linear_combination (-l ^ c) * e3
    have hl1 : 1 < l ^ 2 := by nlinarith
    obtain ⟨c, hc⟩ := pow_unbounded_of_one_lt (B / (2 * k)) hl1
    refine ⟨c, ?_⟩
    rw [it, mirror_energy]
    rw [div_lt_iff₀ (by positivity)] at hc
    have : (l ^ c) ^ 2 = (l ^ 2) ^ c := by rw [← pow_mul, ← pow_mul, mul_comm]
    rw [this]
    have := sq_nonneg (l ^ c * (μ / t))
    linarith

/-- C134: for a dumbbell, how short time steps have to be for the energy to stay within bounds. -/
theorem C134_sharp {k t : ℝ} (hk : 0 < k) (ht : 0 < t) :
    (∃ C : ℝ, ∀ (c : ℕ) (m : Mem ℝ), dumbbellsEnergy 1 k (streamDumbbell 0 k t c m) ≤ C * dumbbellsEnergy 1 k m) ↔ k * t ^ 2 < 2 := by
  constructor
  · rintro ⟨C, hC⟩
    by_contra h
    obtain ⟨r, w, hg⟩ := mirror_grows hk ht (not_lt.1 h)
    obtain ⟨c, hc⟩ := hg (C * dumbbellsEnergy 1 k (mirror r w))
    exact absurd (hC c (mirror r w)) (not_le.2 hc)
  · intro h
    refine ⟨1 / (1 - k * t ^ 2 / 2), fun c m => ?_⟩
    have r : Reaches (2 * 1) (dumbbellThread (2 * 1) k t c) m (streamDumbbell 0 k t c m) := by
      have := Reaches.stream (N := 2 * 1) (thread := dumbbellThread (2 * 1) k t c) [0] (.start m)
      simpa [dumbbellThread] using this
    have := (C134_dumbbells hk.le r).2
    rw [div_mul_eq_mul_div, one_mul, le_div_iff₀ (by linarith)]
    linarith

/-- Collisions that do change velocities: two dumbbells, of which two particles exchange their velocities. -/
example : Reaches (K := ℚ) 4 (dumbbellThread 4 1 (1 / 10) 5) ⟨fun _ => 0, fun j => if j = 0 then ⟨1, 0, 0⟩ else 0⟩
    ⟨fun _ => 0, fun j => if j = 2 then ⟨1, 0, 0⟩ else 0⟩ := by
  refine .collide (.start _) rfl ?_
  simp [kinetic, Finset.sum_range_succ, Vec3.dot]

/-- A time step short enough. -/
example : (1 : ℚ) - 1 * (1 / 10) ^ 2 = 99 / 100 := by norm_num

end OpenMPCD.Verlet
