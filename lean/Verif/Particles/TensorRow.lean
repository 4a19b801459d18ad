import Verif.Particles.Orientation

/-!
# The rows of gyration tensors of star polymers (C158)

`Analysis/MPCDAnalysis/StarPolymersAnalysis/GyrationTensor.py`. The times of the rows are C87 (`Verif/Analysis/StarTimes.lean`); what
the cache does with them is in `Verif/Cache`.
-/

set_option linter.unusedSimpArgs false
set_option linter.unusedSectionVars false
set_option linter.unusedVariables false

namespace OpenMPCD.Particles.TensorRow

open OpenMPCD.Particles Coll Orientation

/-! ## Model -/

/-- The loop over the eigensystem (`Analysis/MPCDAnalysis/StarPolymersAnalysis/GyrationTensor.py:56-58`). -/
def appendEigen (values : List ℝ) : List (ℝ × Vec3 ℝ) → List ℝ
  | [] => values
  | (eigenvalue, v) :: rest =>
    let values := values ++ [eigenvalue]
    let values := values ++ [v.x, v.y, v.z]
    appendEigen values rest

/-- What the row for a snapshot with the given positions may be
(`Analysis/MPCDAnalysis/StarPolymersAnalysis/GyrationTensor.py:49-61`): the collection is not empty and all particles have the same
mass, so that the shift subtracts the geometric centre (`Verif/Particles/Props.lean`); the eigensystem is what `numpy` makes of it
(`Verif/Particles/Orientation.lean`). -/
def Row (ps : List (Vec3 ℝ)) (values : List ℝ) : Prop :=
  let shifted := ps.map fun p => p - centre ps
  let S := gyration shifted
  ∃ r, Eigensystem S r ∧ values = appendEigen [S 0 0, S 0 1, S 0 2, S 1 1, S 1 2, S 2 2] r

/-! ## Specification -/

/-- The mean of the product of two coordinates, relative to the centre of the positions. -/
noncomputable def moment (ps : List (Vec3 ℝ)) (f g : Vec3 ℝ → ℝ) : ℝ :=
  (ps.map fun p => f (p - centre ps) * g (p - centre ps)).sum / ps.length

/-- The mean square distance from the centre of the positions. -/
noncomputable def meanSquareDistance (ps : List (Vec3 ℝ)) : ℝ :=
  (ps.map fun p => (p - centre ps).dot (p - centre ps)).sum / ps.length

/-! ## Proofs -/

theorem shifted_eq (ps : List (Vec3 ℝ)) : gyration (ps.map fun p => p - centre ps) = gyration ps := by
  have h := C46_gyration_translation ps (-centre ps)
  have e : (fun p : Vec3 ℝ => p - centre ps) = fun p => p + -centre ps := by
    funext p
    ext <;> simp [sub_eq_add_neg]
  rw [e]
  exact h

theorem centre_mul (ps : List (Vec3 ℝ)) (hne : ps ≠ []) : (ps.length : ℝ) • centre ps = ps.sum := by
  have hn : (ps.length : ℝ) ≠ 0 := Nat.cast_ne_zero.2 (by simpa using hne)
  ext <;> simp [centre, hn]

theorem moment_eq (ps : List (Vec3 ℝ)) (hne : ps ≠ []) (m n : Fin 3) :
    gyration ps m n = moment ps (fun p => comp p m) (fun p => comp p n) := by
  rw [C46_gyration_secondMoment ps hne (centre ps) (centre_mul ps hne), moment, one_div, div_eq_inv_mul]
  congr 2
  refine List.map_congr_left fun p _ => ?_
  fin_cases m <;> fin_cases n <;> simp [comp]

theorem trace_eq {S : Mat} {a b c : Vec3 ℝ} {l0 l1 l2 : ℝ} (ha : mulVec S a = l0 • a) (hb : mulVec S b = l1 • b)
    (hc : mulVec S c = l2 • c) (hi : a.dot (b.cross c) ≠ 0) : l0 + l1 + l2 = S 0 0 + S 1 1 + S 2 2 := by
  have key : (mulVec S a).dot (b.cross c) + a.dot ((mulVec S b).cross c) + a.dot (b.cross (mulVec S c)) =
      (S 0 0 + S 1 1 + S 2 2) * a.dot (b.cross c) := by
    simp only [mulVec, Vec3.dot, Vec3.cross]
    ring
  rw [ha, hb, hc] at key
  have e : (l0 • a).dot (b.cross c) + a.dot ((l1 • b).cross c) + a.dot (b.cross (l2 • c)) =
      (l0 + l1 + l2) * a.dot (b.cross c) := by
    simp only [Vec3.dot, Vec3.cross, Vec3.smul_x, Vec3.smul_y, Vec3.smul_z]
    ring
  rw [e] at key
  exact mul_right_cancel₀ hi key

theorem extent_nonneg (ps : List (Vec3 ℝ)) (w : Vec3 ℝ) : 0 ≤ extent ps w := by
  unfold extent
  refine div_nonneg (List.sum_nonneg ?_) (Nat.cast_nonneg _)
  intro x hx
  obtain ⟨p, _, rfl⟩ := List.mem_map.1 hx
  exact sq_nonneg _

theorem moments_sum (ps : List (Vec3 ℝ)) :
    moment ps (·.x) (·.x) + moment ps (·.y) (·.y) + moment ps (·.z) (·.z) = meanSquareDistance ps := by
  unfold moment meanSquareDistance
  rw [← add_div, ← add_div]
  congr 1
  generalize centre ps = c
  induction ps with
  | nil => simp
  | cons p l ih =>
    simp only [List.map_cons, List.sum_cons]
    rw [← ih, show (p - c).dot (p - c) = (p - c).x * (p - c).x + (p - c).y * (p - c).y + (p - c).z * (p - c).z from rfl]
    ring

/-- C158: a row contains, in the order documented, the six different mean products of coordinates, and, for the three eigenvalues in
increasing order, which are not negative, the mean square extent along a unit vector and this vector; the first of these vectors is a
direction in which the positions extend the least, the last one a direction in which they extend the most. The eigenvalues add up
to the mean square distance from the centre, which is the square of the radius of gyration. -/
theorem C158_row {ps : List (Vec3 ℝ)} (hne : ps ≠ []) {values : List ℝ} (h : Row ps values) :
    ∃ (l0 l1 l2 : ℝ) (a b c : Vec3 ℝ),
      values = [moment ps (·.x) (·.x), moment ps (·.x) (·.y), moment ps (·.x) (·.z), moment ps (·.y) (·.y),
        moment ps (·.y) (·.z), moment ps (·.z) (·.z), l0, a.x, a.y, a.z, l1, b.x, b.y, b.z, l2, c.x, c.y, c.z] ∧
      0 ≤ l0 ∧ l0 ≤ l1 ∧ l1 ≤ l2 ∧ extent ps a = l0 ∧ extent ps b = l1 ∧ extent ps c = l2 ∧ b.dot b = 1 ∧
      Shortest ps a ∧ Longest ps c ∧ l0 + l1 + l2 = meanSquareDistance ps := by
  obtain ⟨r, hr, hv⟩ := h
  rw [shifted_eq] at hr hv
  obtain ⟨l0, l1, l2, a, b, c, rfl, h01, h12, ha, hb, hc, ua, ub, uc, hi⟩ := eigensystem_parts hr
  have hval : ∀ {l : ℝ} {v : Vec3 ℝ}, mulVec (gyration ps) v = l • v → v.dot v = 1 → extent ps v = l := by
    intro l v h u
    rw [extent_eq ps hne, h]
    simp only [Vec3.dot, Vec3.smul_x, Vec3.smul_y, Vec3.smul_z] at u ⊢
    linear_combination l * u
  obtain ⟨hs, hl⟩ := longest_of hne ha hb hc hi h01 h12 ua uc
  have m := moment_eq ps hne
  have m00 : gyration ps 0 0 = moment ps (·.x) (·.x) := m 0 0
  have m01 : gyration ps 0 1 = moment ps (·.x) (·.y) := m 0 1
  have m02 : gyration ps 0 2 = moment ps (·.x) (·.z) := m 0 2
  have m11 : gyration ps 1 1 = moment ps (·.y) (·.y) := m 1 1
  have m12 : gyration ps 1 2 = moment ps (·.y) (·.z) := m 1 2
  have m22 : gyration ps 2 2 = moment ps (·.z) (·.z) := m 2 2
  refine ⟨l0, l1, l2, a, b, c, ?_, ?_, h01, h12, hval ha ua, hval hb ub, hval hc uc, ub, hs, hl, ?_⟩
  · rw [hv, m00, m01, m02, m11, m12, m22]
    rfl
  · rw [← hval ha ua]
    exact extent_nonneg ps a
  · rw [trace_eq ha hb hc hi, m00, m11, m22, moments_sum]

/-- C158: rows do not depend on where the polymer is. -/
theorem C158_translation (ps : List (Vec3 ℝ)) (t : Vec3 ℝ) (values : List ℝ) :
    Row (ps.map fun p => p + t) values ↔ Row ps values := by
  unfold Row
  simp only [shifted_eq, C46_gyration_translation]

/-- C158: the tensor can be read off a row. -/
theorem C158_tensor {ps : List (Vec3 ℝ)} (hne : ps ≠ []) {values : List ℝ} (h : Row ps values) (m n : Fin 3) :
    values[(![![0, 1, 2], ![1, 3, 4], ![2, 4, 5]] m n : ℕ)]? = some (moment ps (fun p => comp p m) (fun p => comp p n)) := by
  obtain ⟨l0, l1, l2, a, b, c, hv, -⟩ := C158_row hne h
  have sym : ∀ f g, moment ps f g = moment ps g f := by
    intro f g
    unfold moment
    simp only [mul_comm]
  subst hv
  fin_cases m <;> fin_cases n <;> simp [comp]
  all_goals first | rfl | exact sym _ _

/-! Two particles, at a distance of 2 on the first axis. -/

noncomputable def pair : List (Vec3 ℝ) := [⟨3, 5, 7⟩, ⟨5, 5, 7⟩]

example : Row pair [1, 0, 0, 0, 0, 0, 0, 0, 1, 0, 0, 0, 0, 1, 1, 1, 0, 0] := by
  have hc : centre pair = ⟨4, 5, 7⟩ := by
    ext <;> simp [centre, pair] <;> norm_num
  have g : ∀ m n, gyration pair m n = moment pair (fun p => comp p m) (fun p => comp p n) :=
    moment_eq pair (by simp [pair])
  have hg : gyration pair = !![1, 0, 0; 0, 0, 0; 0, 0, 0] := by
    ext m n
    rw [g, moment, hc]
    fin_cases m <;> fin_cases n <;> simp [pair, comp] <;> norm_num
  have hv : ∀ v : Vec3 ℝ, mulVec (gyration pair) v = ⟨v.x, 0, 0⟩ := by
    intro v
    rw [hg]
    ext <;> simp [mulVec]
  simp only [Row, shifted_eq]
  refine ⟨[(0, ⟨0, 1, 0⟩), (0, ⟨0, 0, 1⟩), (1, ⟨1, 0, 0⟩)], ⟨_, isEig_of ?_ ?_ ?_ ?_ ?_ ?_ ?_, List.Perm.refl _, ?_⟩, ?_⟩
  · rw [hv]
    ext <;> simp
  · rw [hv]
    ext <;> simp
  · rw [hv]
    ext <;> simp
  · simp [Vec3.dot]
  · simp [Vec3.dot]
  · simp [Vec3.dot]
  · simp [Vec3.dot, Vec3.cross]
  · simp
  · rw [hg]
    simp [appendEigen]

end OpenMPCD.Particles.TensorRow
