import Verif.Collide.Model
import Verif.Collide.CellProps
import Verif.Vec.Props
import Mathlib.Algebra.BigOperators.Group.List.Basic
import Mathlib.Algebra.BigOperators.Group.Finset.Basic
import Mathlib.Algebra.BigOperators.Ring.List
import Mathlib.Algebra.Order.BigOperators.Group.List

/-!
# Lemmas about the collision step
-/

set_option linter.unusedSectionVars false
set_option linter.dupNamespace false
set_option linter.unnecessarySeqFocus false

namespace OpenMPCD.Collide

/-! ## Atomic additions -/

namespace AtomicOp

/-- What an addition contributes to each array. -/
def dMom (c : ℕ) : AtomicOp → Vec3 ℝ
  | momentumX k i => if c = k then ⟨i, 0, 0⟩ else 0
  | momentumY k i => if c = k then ⟨0, i, 0⟩ else 0
  | momentumZ k i => if c = k then ⟨0, 0, i⟩ else 0
  | _ => 0
def dMass (c : ℕ) : AtomicOp → ℝ
  | mass k i => if c = k then i else 0
  | _ => 0
def dEnergy (c : ℕ) : AtomicOp → ℝ
  | energy k i => if c = k then i else 0
  | _ => 0
def dCount (c : ℕ) : AtomicOp → ℕ
  | count k => if c = k then 1 else 0
  | _ => 0

theorem apply_momenta (d : CellData) (o : AtomicOp) (c : ℕ) :
    (o.apply d).momenta c = d.momenta c + o.dMom c := by
  cases o <;> simp only [apply, dMom, add_zero] <;> split_ifs <;> first | simp | (ext <;> simp)

theorem apply_masses (d : CellData) (o : AtomicOp) (c : ℕ) :
    (o.apply d).masses c = d.masses c + o.dMass c := by
  cases o <;> simp only [apply, dMass, add_zero] <;> split_ifs <;> simp

theorem apply_energies (d : CellData) (o : AtomicOp) (c : ℕ) :
    (o.apply d).energies c = d.energies c + o.dEnergy c := by
  cases o <;> simp only [apply, dEnergy, add_zero] <;> split_ifs <;> simp

theorem apply_counts (d : CellData) (o : AtomicOp) (c : ℕ) :
    (o.apply d).counts c = d.counts c + o.dCount c := by
  cases o <;> simp only [apply, dCount, add_zero] <;> split_ifs <;> simp

theorem apply_scalings (d : CellData) (o : AtomicOp) : (o.apply d).scalings = d.scalings := by
  cases o <;> rfl

end AtomicOp

theorem applyOps_momenta (ops : List AtomicOp) (d : CellData) (c : ℕ) :
    (applyOps ops d).momenta c = d.momenta c + (ops.map (AtomicOp.dMom c)).sum := by
  induction ops generalizing d with
  | nil => simp [applyOps]
  | cons o os ih =>
    have := ih (o.apply d)
    simp only [applyOps, List.foldl_cons, List.map_cons, List.sum_cons] at this ⊢
    rw [this, AtomicOp.apply_momenta, add_assoc]

theorem applyOps_masses (ops : List AtomicOp) (d : CellData) (c : ℕ) :
    (applyOps ops d).masses c = d.masses c + (ops.map (AtomicOp.dMass c)).sum := by
  induction ops generalizing d with
  | nil => simp [applyOps]
  | cons o os ih =>
    have := ih (o.apply d)
    simp only [applyOps, List.foldl_cons, List.map_cons, List.sum_cons] at this ⊢
    rw [this, AtomicOp.apply_masses, add_assoc]

theorem applyOps_energies (ops : List AtomicOp) (d : CellData) (c : ℕ) :
    (applyOps ops d).energies c = d.energies c + (ops.map (AtomicOp.dEnergy c)).sum := by
  induction ops generalizing d with
  | nil => simp [applyOps]
  | cons o os ih =>
    have := ih (o.apply d)
    simp only [applyOps, List.foldl_cons, List.map_cons, List.sum_cons] at this ⊢
    rw [this, AtomicOp.apply_energies, add_assoc]

theorem applyOps_counts (ops : List AtomicOp) (d : CellData) (c : ℕ) :
    (applyOps ops d).counts c = d.counts c + (ops.map (AtomicOp.dCount c)).sum := by
  induction ops generalizing d with
  | nil => simp [applyOps]
  | cons o os ih =>
    have := ih (o.apply d)
    simp only [applyOps, List.foldl_cons, List.map_cons, List.sum_cons] at this ⊢
    rw [this, AtomicOp.apply_counts, add_assoc]

theorem applyOps_scalings (ops : List AtomicOp) (d : CellData) :
    (applyOps ops d).scalings = d.scalings := by
  induction ops generalizing d with
  | nil => simp [applyOps]
  | cons o os ih =>
    have := ih (o.apply d)
    simp only [applyOps, List.foldl_cons] at this ⊢
    rw [this, AtomicOp.apply_scalings]

/-- Cell data is determined by its entries. -/
theorem CellData.ext' {d e : CellData} (h1 : ∀ c, d.momenta c = e.momenta c)
    (h2 : ∀ c, d.masses c = e.masses c) (h3 : ∀ c, d.energies c = e.energies c)
    (h4 : ∀ c, d.counts c = e.counts c) (h5 : d.scalings = e.scalings) : d = e := by
  cases d; cases e
  simp only [CellData.mk.injEq]
  exact ⟨funext h1, funext h2, funext h3, funext h4, h5⟩

theorem applyOps_perm {ops ops' : List AtomicOp} (h : ops.Perm ops') (d : CellData) :
    applyOps ops d = applyOps ops' d := by
  apply CellData.ext'
  · intro c; rw [applyOps_momenta, applyOps_momenta, (h.map _).sum_eq]
  · intro c; rw [applyOps_masses, applyOps_masses, (h.map _).sum_eq]
  · intro c; rw [applyOps_energies, applyOps_energies, (h.map _).sum_eq]
  · intro c; rw [applyOps_counts, applyOps_counts, (h.map _).sum_eq]
  · rw [applyOps_scalings, applyOps_scalings]

/-! ## Sums over lists -/

theorem sum_flatMap {α β M : Type*} [AddCommMonoid M] (l : List α) (g : α → List β) (f : β → M) :
    ((l.flatMap g).map f).sum = (l.map fun a => ((g a).map f).sum).sum := by
  induction l with
  | nil => simp
  | cons a l ih => simp [List.flatMap_cons, ih]

theorem sum_ite_filter {α M : Type*} [AddCommMonoid M] (l : List α) (p : α → Prop)
    [DecidablePred p] (f : α → M) :
    (l.map fun a => if p a then f a else 0).sum = ((l.filter p).map f).sum := by
  induction l with
  | nil => simp
  | cons a l ih =>
    by_cases h : p a
    · simp [h, ih]
    · simp [h, ih]

theorem smul_sum {α : Type*} (s : ℝ) (l : List α) (f : α → Vec3 ℝ) :
    (l.map fun a => s • f a).sum = s • (l.map f).sum := by
  induction l with
  | nil => simp
  | cons a l ih => simp [ih, smul_add]

theorem sum_smul_const {α : Type*} (l : List α) (f : α → ℝ) (v : Vec3 ℝ) :
    (l.map fun a => f a • v).sum = (l.map f).sum • v := by
  induction l with
  | nil => simp
  | cons a l ih => simp [ih, add_smul]

theorem sum_sub {α M : Type*} [AddCommGroup M] (l : List α) (f g : α → M) :
    (l.map fun a => f a - g a).sum = (l.map f).sum - (l.map g).sum := by
  induction l with
  | nil => simp
  | cons a l ih => simp only [List.map_cons, List.sum_cons, ih]; abel

theorem sum_add {α M : Type*} [AddCommMonoid M] (l : List α) (f g : α → M) :
    (l.map fun a => f a + g a).sum = (l.map f).sum + (l.map g).sum := by
  induction l with
  | nil => simp
  | cons a l ih => simp only [List.map_cons, List.sum_cons, ih]; abel

theorem sum_mul {α : Type*} (l : List α) (f : α → ℝ) (s : ℝ) :
    (l.map fun a => s * f a).sum = s * (l.map f).sum := by
  induction l with
  | nil => simp
  | cons a l ih => simp [ih, mul_add]

/-- The sum over a list is the sum over the cells of the sums over each cell's members. -/
theorem sum_cells {α M : Type*} [AddCommMonoid M] (l : List α) (cell : α → ℕ) (N : ℕ)
    (h : ∀ a ∈ l, cell a < N) (f : α → M) :
    (l.map f).sum = ∑ c ∈ Finset.range N, ((l.filter fun a => cell a = c).map f).sum := by
  induction l with
  | nil => simp
  | cons a l ih =>
    have e : ∀ c, (((a :: l).filter fun b => cell b = c).map f).sum =
        (if cell a = c then f a else 0) + ((l.filter fun b => cell b = c).map f).sum := by
      intro c
      by_cases hc : cell a = c
      · simp [hc]
      · simp [hc]
    rw [Finset.sum_congr rfl fun c _ => e c, Finset.sum_add_distrib, List.map_cons, List.sum_cons,
      ih fun b hb => h b (List.mem_cons_of_mem _ hb)]
    congr 1
    rw [Finset.sum_ite_eq, if_pos (Finset.mem_range.2 (h a List.mem_cons_self))]

/-! ## Rotation -/

theorem cppRotate_add (a u v : Vec3 ℝ) (θ : ℝ) :
    (u + v).cppRotate a θ = u.cppRotate a θ + v.cppRotate a θ := Vec3.rotateCS_add a u v _ _

theorem cppRotate_smul (a u : Vec3 ℝ) (r θ : ℝ) :
    (r • u).cppRotate a θ = r • u.cppRotate a θ := Vec3.rotateCS_smul a u r _ _

theorem cppRotate_zero (a : Vec3 ℝ) (θ : ℝ) : (0 : Vec3 ℝ).cppRotate a θ = 0 := by
  have := cppRotate_smul a 0 0 θ
  simpa using this

theorem cppRotate_sum {α : Type*} (l : List α) (f : α → Vec3 ℝ) (a : Vec3 ℝ) (θ : ℝ) :
    (l.map fun i => (f i).cppRotate a θ).sum = (l.map f).sum.cppRotate a θ := by
  induction l with
  | nil => simp [cppRotate_zero]
  | cons b l ih => simp only [List.map_cons, List.sum_cons, ih, cppRotate_add]

theorem cppRotate_dot {a : Vec3 ℝ} (ha : a.dot a = 1) (u : Vec3 ℝ) (θ : ℝ) :
    (u.cppRotate a θ).dot (u.cppRotate a θ) = u.dot u :=
  Vec3.rotateCS_dot ha (Real.cos_sq_add_sin_sq θ) u u

/-! ## One cell: rotation about the centre-of-mass velocity -/

section Cell

variable {α : Type*} (l : List α) (m : α → ℝ) (v : α → Vec3 ℝ)

/-- Centre-of-mass velocity of a list of particles. -/
noncomputable def comVel : Vec3 ℝ :=
  ((l.map m).sum)⁻¹ • (l.map fun a => m a • v a).sum

variable {l m v}

theorem sum_relative (hM : (l.map m).sum ≠ 0) :
    (l.map fun a => m a • (v a - comVel l m v)).sum = 0 := by
  have : (l.map fun a => m a • (v a - comVel l m v)) =
      l.map fun a => m a • v a - m a • comVel l m v := by
    simp only [smul_sub]
  rw [this, sum_sub, sum_smul_const]
  simp only [comVel]
  rw [smul_smul, mul_inv_cancel₀ hM, one_smul, sub_self]

variable (a : Vec3 ℝ) (θ s : ℝ)

/-- The velocity after rotation and scaling about the centre-of-mass velocity. -/
noncomputable def newVel (V : Vec3 ℝ) (u : Vec3 ℝ) : Vec3 ℝ := s • (u - V).cppRotate a θ + V

theorem sum_rotated (hM : (l.map m).sum ≠ 0) :
    (l.map fun i => m i • (s • (v i - comVel l m v).cppRotate a θ)).sum = 0 := by
  have e : ∀ i, m i • (s • (v i - comVel l m v).cppRotate a θ) =
      s • (m i • (v i - comVel l m v)).cppRotate a θ := by
    intro i
    rw [cppRotate_smul, smul_comm]
  simp only [e]
  rw [smul_sum, cppRotate_sum, sum_relative hM, cppRotate_zero, smul_zero]

/-- Momentum is conserved in the cell. -/
theorem cell_momentum (hM : (l.map m).sum ≠ 0) :
    (l.map fun i => m i • newVel a θ s (comVel l m v) (v i)).sum =
      (l.map fun i => m i • v i).sum := by
  have e : ∀ i, m i • newVel a θ s (comVel l m v) (v i) =
      m i • (s • (v i - comVel l m v).cppRotate a θ) + m i • comVel l m v := by
    intro i
    rw [newVel, smul_add]
  simp only [e]
  rw [sum_add, sum_rotated a θ s hM, sum_smul_const, zero_add, comVel, smul_smul,
    mul_inv_cancel₀ hM, one_smul]

theorem comVel_new (hM : (l.map m).sum ≠ 0) :
    comVel l m (fun i => newVel a θ s (comVel l m v) (v i)) = comVel l m v := by
  conv_lhs => rw [comVel]
  rw [cell_momentum a θ s hM]
  rfl

/-- The energy of the relative motion is multiplied by the square of the scaling. -/
theorem cell_relative_energy (ha : a.dot a = 1) :
    (l.map fun i => m i * ((newVel a θ s (comVel l m v) (v i) - comVel l m v).dot
        (newVel a θ s (comVel l m v) (v i) - comVel l m v)) / 2).sum =
      s ^ 2 * (l.map fun i => m i * ((v i - comVel l m v).dot (v i - comVel l m v)) / 2).sum := by
  rw [← sum_mul]
  congr 1
  apply List.map_congr_left
  intro i _
  simp only [newVel, add_sub_cancel_right, Vec3.smul_dot, Vec3.dot_smul, cppRotate_dot ha]
  ring

/-- König's theorem. -/
theorem energy_split (hM : (l.map m).sum ≠ 0) :
    (l.map fun i => m i * ((v i).dot (v i)) / 2).sum =
      (l.map fun i => m i * ((v i - comVel l m v).dot (v i - comVel l m v)) / 2).sum +
      (l.map m).sum * ((comVel l m v).dot (comVel l m v)) / 2 := by
  set V := comVel l m v with hV
  have e : ∀ i, m i * ((v i).dot (v i)) / 2 =
      (m i * ((v i - V).dot (v i - V)) / 2 + V.dot (m i • (v i - V))) +
        (V.dot V / 2) * m i := by
    intro i
    simp only [Vec3.dot_smul, Vec3.dot_sub, Vec3.sub_dot, Vec3.dot_comm V (v i)]
    ring
  simp only [e]
  rw [sum_add, sum_add, sum_mul]
  have z : (l.map fun i => V.dot (m i • (v i - V))).sum = 0 := by
    have : (l.map fun i => V.dot (m i • (v i - V))).sum =
        V.dot (l.map fun i => m i • (v i - V)).sum := by
      have := map_list_sum (Vec3.dotHom V) (l.map fun i => m i • (v i - V))
      rw [List.map_map] at this
      exact this.symm
    rw [this, sum_relative hM, Vec3.dot_zero]
  rw [z, add_zero]
  ring

end Cell

theorem sum_pos_of_mem {α : Type*} {l : List α} {m : α → ℝ} (hm : ∀ a ∈ l, 0 < m a)
    (hl : l ≠ []) : 0 < (l.map m).sum := by
  induction l with
  | nil => exact absurd rfl hl
  | cons a l ih =>
    have h1 := hm a List.mem_cons_self
    by_cases h : l = []
    · subst h; simpa using h1
    · have := ih (fun b hb => hm b (List.mem_cons_of_mem _ hb)) h
      simp only [List.map_cons, List.sum_cons]
      linarith

end OpenMPCD.Collide
