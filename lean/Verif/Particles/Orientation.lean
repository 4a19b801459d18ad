import Verif.Particles.Rigid
import Mathlib.Analysis.SpecialFunctions.Trigonometric.Inverse
import Mathlib.Analysis.Matrix.Spectrum

/-!
# Orientation angles of particle collections (C132)
-/

set_option linter.unusedSimpArgs false
set_option linter.unusedSectionVars false
set_option linter.unusedVariables false

namespace OpenMPCD.Particles.Orientation

open OpenMPCD.Particles Coll

/-! ## Model -/

/-- What `numpy.linalg.eig` returns for a symmetric matrix: in any order, three eigenvalues with normalized eigenvectors that are
linearly independent, that is, only zero is orthogonal to all of them. If eigenvalues are equal, the eigenvectors need not be
orthogonal. -/
structure IsEig (S : Mat) (l : List (ℝ × Vec3 ℝ)) : Prop where
  length : l.length = 3
  eigen : ∀ q ∈ l, mulVec S q.2 = q.1 • q.2 ∧ q.2.dot q.2 = 1
  independent : ∀ w : Vec3 ℝ, (∀ q ∈ l, q.2.dot w = 0) → w = 0

/-- `getGyrationTensorEigensystem` (`Analysis/MPCDAnalysis/ParticleCollection.py:477-504`) for the tensor `S`. `argsort` sorts, but
not stably. -/
def Eigensystem (S : Mat) (r : List (ℝ × Vec3 ℝ)) : Prop :=
  ∃ l, IsEig S l ∧ r.Perm l ∧ r.Pairwise fun a b => a.1 ≤ b.1

open Classical in
/-- `_getAngleBetweenLines` (`Analysis/MPCDAnalysis/ParticleCollection.py:609-622`), exact; `none`: not a number. -/
noncomputable def angleBetweenLines (v1 v2 : Vec3 ℝ) : Option ℝ :=
  let dot := v1.dot v2
  let dot := if dot < 0 then dot * -1 else dot
  let root := Real.sqrt (v1.dot v1 * v2.dot v2)
  if root = 0 then none else some (Real.arccos (dot / root))

/-- What `getOrientationAngles` (`Analysis/MPCDAnalysis/ParticleCollection.py:584-605`) may yield; the axis is a list. -/
def OrientationAngles (s : Coll) (axis : List ℝ) (res : Coll × Except PyErr (List (ℝ × Option ℝ))) : Prop :=
  match axis with
  | [x, y, z] =>
    match s.getGyrationTensor with
    | (s', .error e) => res = (s', .error e)
    | (s', .ok S) => ∃ r, Eigensystem S r ∧ res = (s', .ok (r.map fun q => (q.1, angleBetweenLines q.2 ⟨x, y, z⟩)))
  | _ => res = (s, .error .valueError)

/-- What `getOrientationAngle` (`Analysis/MPCDAnalysis/ParticleCollection.py:571-582`) may yield. -/
def OrientationAngle (s : Coll) (axis : List ℝ) (res : Coll × Except PyErr (Option ℝ)) : Prop :=
  match axis with
  | [x, y, z] =>
    match s.getGyrationTensor with
    | (s', .error e) => res = (s', .error e)
    | (s', .ok S) => ∃ r, Eigensystem S r ∧
        res = (s', match r[2]? with
          | some q => .ok (angleBetweenLines q.2 ⟨x, y, z⟩)
          | none => .error .indexError)
  | _ => res = (s, .error .valueError)

/-! ## Specification -/

/-- The mean square of the positions, relative to their centre, along a direction. -/
noncomputable def extent (ps : List (Vec3 ℝ)) (w : Vec3 ℝ) : ℝ :=
  (ps.map fun p => ((p - centre ps).dot w) ^ 2).sum / ps.length

/-- `w` is a direction in which the positions extend the most. -/
def Longest (ps : List (Vec3 ℝ)) (w : Vec3 ℝ) : Prop :=
  w.dot w = 1 ∧ ∀ w' : Vec3 ℝ, w'.dot w' = 1 → extent ps w' ≤ extent ps w

/-- `w` is a direction in which the positions extend the least. -/
def Shortest (ps : List (Vec3 ℝ)) (w : Vec3 ℝ) : Prop :=
  w.dot w = 1 ∧ ∀ w' : Vec3 ℝ, w'.dot w' = 1 → extent ps w ≤ extent ps w'

/-- `θ` is the angle, which is at most a right angle, between the lines along two vectors. -/
def LineAngle (v w : Vec3 ℝ) (θ : ℝ) : Prop :=
  0 ≤ θ ∧ θ ≤ Real.pi / 2 ∧ Real.cos θ * Real.sqrt (v.dot v) * Real.sqrt (w.dot w) = |v.dot w|

/-! ## Angles between lines -/

theorem dot_self_nonneg (v : Vec3 ℝ) : 0 ≤ v.dot v := by
  simp only [Vec3.dot]; nlinarith [mul_self_nonneg v.x, mul_self_nonneg v.y, mul_self_nonneg v.z]

theorem cauchy_schwarz (v w : Vec3 ℝ) : |v.dot w| ≤ Real.sqrt (v.dot v * w.dot w) := by
  refine Real.le_sqrt_of_sq_le ?_
  rw [sq_abs]
  simp only [Vec3.dot]
  nlinarith [sq_nonneg (v.x * w.y - v.y * w.x), sq_nonneg (v.y * w.z - v.z * w.y), sq_nonneg (v.z * w.x - v.x * w.z)]

theorem eq_zero_of_dot_self {v : Vec3 ℝ} (h : v.dot v = 0) : v = 0 := by
  simp only [Vec3.dot] at h
  have hx : v.x = 0 := by nlinarith [mul_self_nonneg v.x, mul_self_nonneg v.y, mul_self_nonneg v.z]
  have hy : v.y = 0 := by nlinarith [mul_self_nonneg v.x, mul_self_nonneg v.y, mul_self_nonneg v.z]
  have hz : v.z = 0 := by nlinarith [mul_self_nonneg v.x, mul_self_nonneg v.y, mul_self_nonneg v.z]
  ext
  · exact hx
  · exact hy
  · exact hz

theorem lineAngle_unique {v w : Vec3 ℝ} (hv : v ≠ 0) (hw : w ≠ 0) {θ θ' : ℝ} (h : LineAngle v w θ) (h' : LineAngle v w θ') :
    θ = θ' := by
  have hpi := Real.pi_pos
  have h1 : 0 < Real.sqrt (v.dot v) := Real.sqrt_pos.2 ((dot_self_nonneg v).lt_of_ne fun h => hv (eq_zero_of_dot_self h.symm))
  have h2 : 0 < Real.sqrt (w.dot w) := Real.sqrt_pos.2 ((dot_self_nonneg w).lt_of_ne fun h => hw (eq_zero_of_dot_self h.symm))
  refine Real.injOn_cos ⟨h.1, by linarith [h.2.1]⟩ ⟨h'.1, by linarith [h'.2.1]⟩ ?_
  have := h.2.2.trans h'.2.2.symm
  exact mul_right_cancel₀ h1.ne' (mul_right_cancel₀ h2.ne' this)

/-- C132: the angle computed is the angle between the lines; there is none for a vector that is zero. -/
theorem C132_lines (v w : Vec3 ℝ) :
    ((v = 0 ∨ w = 0) → angleBetweenLines v w = none) ∧
      (v ≠ 0 → w ≠ 0 → ∃ θ, angleBetweenLines v w = some θ ∧ LineAngle v w θ) := by
  constructor
  · intro h
    have : Real.sqrt (v.dot v * w.dot w) = 0 := by
      rcases h with rfl | rfl <;> simp [Vec3.dot]
    simp [angleBetweenLines, this]
  · intro hv hw
    have h1 : 0 < v.dot v := (dot_self_nonneg v).lt_of_ne fun h => hv (eq_zero_of_dot_self h.symm)
    have h2 : 0 < w.dot w := (dot_self_nonneg w).lt_of_ne fun h => hw (eq_zero_of_dot_self h.symm)
    have hr : 0 < Real.sqrt (v.dot v * w.dot w) := Real.sqrt_pos.2 (mul_pos h1 h2)
    have habs : (if v.dot w < 0 then v.dot w * -1 else v.dot w) = |v.dot w| := by
      split
      · rename_i h; rw [abs_of_neg h]; ring
      · rename_i h; rw [abs_of_nonneg (not_lt.1 h)]
    have hq : 0 ≤ |v.dot w| / Real.sqrt (v.dot v * w.dot w) := by positivity
    have hq1 : |v.dot w| / Real.sqrt (v.dot v * w.dot w) ≤ 1 := (div_le_one hr).2 (cauchy_schwarz v w)
    refine ⟨Real.arccos (|v.dot w| / Real.sqrt (v.dot v * w.dot w)), ?_, Real.arccos_nonneg _, Real.arccos_le_pi_div_two.2 hq, ?_⟩
    · simp only [angleBetweenLines, habs, if_neg hr.ne']
    · rw [Real.cos_arccos (by linarith) hq1, mul_assoc, ← Real.sqrt_mul h1.le, div_mul_cancel₀ _ hr.ne']

/-- C132: which of the vectors along the lines are given is immaterial. -/
theorem C132_lines_scaled (v w : Vec3 ℝ) {a b : ℝ} (ha : a ≠ 0) (hb : b ≠ 0) :
    angleBetweenLines (a • v) (b • w) = angleBetweenLines v w := by
  by_cases h0 : v = 0 ∨ w = 0
  · rw [(C132_lines v w).1 h0, (C132_lines _ _).1]
    rcases h0 with rfl | rfl
    · left; ext <;> simp
    · right; ext <;> simp
  push Not at h0
  have hne : ∀ {c : ℝ} {u : Vec3 ℝ}, c ≠ 0 → u ≠ 0 → c • u ≠ 0 := by
    intro c u hc hu h
    apply hu
    have e := Vec3.ext_iff.1 h
    simp only [Vec3.smul_x, Vec3.smul_y, Vec3.smul_z, Vec3.zero_x, Vec3.zero_y, Vec3.zero_z, mul_eq_zero, hc, or_false] at e
    exact Vec3.ext_iff.2 e
  obtain ⟨θ, e1, l1⟩ := (C132_lines v w).2 h0.1 h0.2
  obtain ⟨θ', e2, l2⟩ := (C132_lines (a • v) (b • w)).2 (hne ha h0.1) (hne hb h0.2)
  rw [e1, e2]
  congr 1
  refine lineAngle_unique h0.1 h0.2 ⟨l2.1, l2.2.1, ?_⟩ l1
  have h := l2.2.2
  have d1 : (a • v).dot (a • v) = a ^ 2 * v.dot v := by simp [Vec3.dot]; ring
  have d2 : (b • w).dot (b • w) = b ^ 2 * w.dot w := by simp [Vec3.dot]; ring
  have d3 : (a • v).dot (b • w) = (a * b) * v.dot w := by simp [Vec3.dot]; ring
  rw [d1, d2, d3, Real.sqrt_mul (sq_nonneg a), Real.sqrt_mul (sq_nonneg b), Real.sqrt_sq_eq_abs, Real.sqrt_sq_eq_abs, abs_mul,
    abs_mul] at h
  have hab : |a| * |b| ≠ 0 := mul_ne_zero (abs_ne_zero.2 ha) (abs_ne_zero.2 hb)
  refine mul_left_cancel₀ hab ?_
  linarith

/-! ## Eigenvectors -/

theorem smul_eq (c : ℝ) (v : Vec3 ℝ) : c • v = ⟨v.x * c, v.y * c, v.z * c⟩ := rfl

/-- Every vector is a combination of three independent ones. -/
theorem combination {a b c : Vec3 ℝ} (h : a.dot (b.cross c) ≠ 0) (w : Vec3 ℝ) :
    ∃ x y z : ℝ, w = x • a + (y • b + z • c) := by
  refine ⟨w.dot (b.cross c) / a.dot (b.cross c), w.dot (c.cross a) / a.dot (b.cross c),
    w.dot (a.cross b) / a.dot (b.cross c), ?_⟩
  set d := a.dot (b.cross c) with hd
  have hd' : a.x * (b.y * c.z - b.z * c.y) + a.y * (b.z * c.x - b.x * c.z) + a.z * (b.x * c.y - b.y * c.x) = d := by
    rw [hd]; simp [Vec3.dot, Vec3.cross]
  ext <;> simp only [Vec3.add_x, Vec3.add_y, Vec3.add_z, Vec3.smul_x, Vec3.smul_y, Vec3.smul_z, Vec3.dot, Vec3.cross] <;>
    field_simp <;> rw [← hd'] <;> ring

theorem symm_dot {S : Mat} (hS : ∀ m n, S m n = S n m) (v w : Vec3 ℝ) : v.dot (mulVec S w) = w.dot (mulVec S v) := by
  simp only [Vec3.dot, mulVec, hS 1 0, hS 2 0, hS 2 1]; ring

theorem ortho {S : Mat} (hS : ∀ m n, S m n = S n m) {v w : Vec3 ℝ} {l k : ℝ} (hv : mulVec S v = l • v) (hw : mulVec S w = k • w) :
    (l - k) * v.dot w = 0 := by
  have h := symm_dot hS v w
  rw [hv, hw] at h
  simp only [Vec3.dot, Vec3.smul_x, Vec3.smul_y, Vec3.smul_z] at h ⊢
  linarith

/-- The greatest eigenvalue bounds the quadratic form. -/
theorem form_le {S : Mat} (hS : ∀ m n, S m n = S n m) {a b c : Vec3 ℝ} {l0 l1 l2 : ℝ} (ha : mulVec S a = l0 • a)
    (hb : mulVec S b = l1 • b) (hc : mulVec S c = l2 • c) (hi : a.dot (b.cross c) ≠ 0) (h01 : l0 ≤ l1) (h12 : l1 ≤ l2)
    (w : Vec3 ℝ) : l0 * w.dot w ≤ w.dot (mulVec S w) ∧ w.dot (mulVec S w) ≤ l2 * w.dot w := by
  obtain ⟨x, y, z, rfl⟩ := combination hi w
  have o1 := ortho hS ha hb
  have o2 := ortho hS ha hc
  have o3 := ortho hS hb hc
  have e1 : (x • a + (y • b + z • c)).dot (mulVec S (x • a + (y • b + z • c))) =
      x ^ 2 * l0 * a.dot a + y ^ 2 * l1 * b.dot b + z ^ 2 * l2 * c.dot c + x * y * (l0 + l1) * a.dot b +
        x * z * (l0 + l2) * a.dot c + y * z * (l1 + l2) * b.dot c := by
    have lin : mulVec S (x • a + (y • b + z • c)) = x • mulVec S a + (y • mulVec S b + z • mulVec S c) := by
      ext <;> simp only [mulVec, Vec3.add_x, Vec3.add_y, Vec3.add_z, Vec3.smul_x, Vec3.smul_y, Vec3.smul_z] <;> ring
    rw [lin, ha, hb, hc]
    simp only [Vec3.dot, Vec3.add_x, Vec3.add_y, Vec3.add_z, Vec3.smul_x, Vec3.smul_y, Vec3.smul_z]
    ring
  have e2 : (x • a + (y • b + z • c)).dot (x • a + (y • b + z • c)) =
      x ^ 2 * a.dot a + y ^ 2 * b.dot b + z ^ 2 * c.dot c + 2 * (x * y) * a.dot b + 2 * (x * z) * a.dot c +
        2 * (y * z) * b.dot c := by
    simp only [Vec3.dot, Vec3.add_x, Vec3.add_y, Vec3.add_z, Vec3.smul_x, Vec3.smul_y, Vec3.smul_z]
    ring
  rw [e1, e2]
  have pa := mul_nonneg (sq_nonneg x) (dot_self_nonneg a)
  have pb := mul_nonneg (sq_nonneg y) (dot_self_nonneg b)
  have pc := mul_nonneg (sq_nonneg z) (dot_self_nonneg c)
  have pab := dot_self_nonneg (x • a + y • b)
  have pbc := dot_self_nonneg (y • b + z • c)
  have eab : (x • a + y • b).dot (x • a + y • b) = x ^ 2 * a.dot a + y ^ 2 * b.dot b + 2 * (x * y) * a.dot b := by
    simp only [Vec3.dot, Vec3.add_x, Vec3.add_y, Vec3.add_z, Vec3.smul_x, Vec3.smul_y, Vec3.smul_z]; ring
  have ebc : (y • b + z • c).dot (y • b + z • c) = y ^ 2 * b.dot b + z ^ 2 * c.dot c + 2 * (y * z) * b.dot c := by
    simp only [Vec3.dot, Vec3.add_x, Vec3.add_y, Vec3.add_z, Vec3.smul_x, Vec3.smul_y, Vec3.smul_z]; ring
  rw [eab] at pab
  rw [ebc] at pbc
  rcases h01.eq_or_lt with h01 | h01 <;> rcases h12.eq_or_lt with h12 | h12
  · subst h01; subst h12; constructor <;> apply le_of_eq <;> ring
  · subst h01
    have z2 : a.dot c = 0 := (mul_eq_zero.1 o2).resolve_left (by linarith)
    have z3 : b.dot c = 0 := (mul_eq_zero.1 o3).resolve_left (by linarith)
    rw [z2, z3]
    constructor
    · have := mul_nonneg (sub_nonneg.2 h12.le) pc
      linarith
    · have := mul_nonneg (sub_nonneg.2 h12.le) pab
      linarith
  · subst h12
    have z1 : a.dot b = 0 := (mul_eq_zero.1 o1).resolve_left (by linarith)
    have z2 : a.dot c = 0 := (mul_eq_zero.1 o2).resolve_left (by linarith)
    rw [z1, z2]
    constructor
    · have := mul_nonneg (sub_nonneg.2 h01.le) pbc
      linarith
    · have := mul_nonneg (sub_nonneg.2 h01.le) pa
      linarith
  · have z1 : a.dot b = 0 := (mul_eq_zero.1 o1).resolve_left (by linarith)
    have z2 : a.dot c = 0 := (mul_eq_zero.1 o2).resolve_left (by linarith)
    have z3 : b.dot c = 0 := (mul_eq_zero.1 o3).resolve_left (by linarith)
    rw [z1, z2, z3]
    constructor
    · have k1 := mul_nonneg (sub_nonneg.2 h01.le) pb
      have k2 := mul_nonneg (sub_nonneg.2 (h01.trans h12).le) pc
      linarith
    · have k1 := mul_nonneg (sub_nonneg.2 h12.le) pb
      have k2 := mul_nonneg (sub_nonneg.2 (h01.trans h12).le) pa
      linarith

theorem extent_eq (ps : List (Vec3 ℝ)) (hne : ps ≠ []) (w : Vec3 ℝ) : extent ps w = w.dot (mulVec (gyration ps) w) := by
  have hn : (ps.length : ℝ) ≠ 0 := Nat.cast_ne_zero.2 (by simpa using hne)
  have hc : (ps.length : ℝ) • centre ps = ps.sum := by
    ext <;> simp [centre, hn]
  have h := C46_gyration_secondMoment ps hne (centre ps) hc
  have hw : w.dot (mulVec (gyration ps) w) = ∑ m, ∑ n, comp w m * comp w n * gyration ps m n := by
    simp only [Fin.sum_univ_three, Vec3.dot, mulVec, comp, Matrix.cons_val_zero, Matrix.cons_val_one, Matrix.cons_val]
    ring
  rw [hw]
  simp only [h]
  unfold extent
  rw [div_eq_inv_mul, ← one_div]
  have : ∀ l : List (Vec3 ℝ), ∑ m, ∑ n, comp w m * comp w n * (1 / (ps.length : ℝ) *
      (l.map fun p => (comp p m - comp (centre ps) m) * (comp p n - comp (centre ps) n)).sum) =
      1 / (ps.length : ℝ) * (l.map fun p => ((p - centre ps).dot w) ^ 2).sum := by
    intro l
    induction l with
    | nil => simp
    | cons p l ih =>
      simp only [List.map_cons, List.sum_cons, mul_add, Finset.sum_add_distrib]
      rw [← ih]
      congr 1
      simp only [Fin.sum_univ_three, Vec3.dot, comp, Matrix.cons_val_zero, Matrix.cons_val_one, Matrix.cons_val, Vec3.sub_x,
        Vec3.sub_y, Vec3.sub_z]
      ring
  rw [this]

/-- The parts of an eigensystem. -/
theorem eigensystem_parts {S : Mat} {r : List (ℝ × Vec3 ℝ)} (h : Eigensystem S r) :
    ∃ (l0 l1 l2 : ℝ) (a b c : Vec3 ℝ), r = [(l0, a), (l1, b), (l2, c)] ∧ l0 ≤ l1 ∧ l1 ≤ l2 ∧ mulVec S a = l0 • a ∧
      mulVec S b = l1 • b ∧ mulVec S c = l2 • c ∧ a.dot a = 1 ∧ b.dot b = 1 ∧ c.dot c = 1 ∧ a.dot (b.cross c) ≠ 0 := by
  obtain ⟨l, hl, hp, hs⟩ := h
  have hlen := hp.length_eq.trans hl.length
  match r, hlen with
  | [(l0, a), (l1, b), (l2, c)], _ =>
    have e := fun q hq => hl.eigen q (hp.mem_iff.1 hq)
    have e0 := e (l0, a) (by simp)
    have e1 := e (l1, b) (by simp)
    have e2 := e (l2, c) (by simp)
    simp only [List.pairwise_cons, List.mem_cons, List.not_mem_nil, or_false, forall_eq_or_imp, forall_eq] at hs
    refine ⟨l0, l1, l2, a, b, c, rfl, hs.1.1, hs.2.1, e0.1, e1.1, e2.1, e0.2, e1.2, e2.2, ?_⟩
    have hdet := det_ne_zero (J := !![a.x, a.y, a.z; b.x, b.y, b.z; c.x, c.y, c.z]) fun w hw => by
      refine hl.independent w fun q hq => ?_
      have hw' := Vec3.ext_iff.1 hw
      simp [mulVec] at hw'
      have hq' := hp.mem_iff.2 hq
      simp only [List.mem_cons, List.not_mem_nil, or_false] at hq'
      rcases hq' with rfl | rfl | rfl
      · exact hw'.1
      · exact hw'.2.1
      · exact hw'.2.2
    intro h0
    apply hdet
    rw [Matrix.det_fin_three]
    simp [Vec3.dot, Vec3.cross] at h0 ⊢
    linarith

theorem longest_of {ps : List (Vec3 ℝ)} (hne : ps ≠ []) {a b c : Vec3 ℝ} {l0 l1 l2 : ℝ}
    (ha : mulVec (gyration ps) a = l0 • a) (hb : mulVec (gyration ps) b = l1 • b) (hc : mulVec (gyration ps) c = l2 • c)
    (hi : a.dot (b.cross c) ≠ 0) (h01 : l0 ≤ l1) (h12 : l1 ≤ l2) (ua : a.dot a = 1) (uc : c.dot c = 1) :
    Shortest ps a ∧ Longest ps c := by
  have hval : ∀ {l : ℝ} {v : Vec3 ℝ}, mulVec (gyration ps) v = l • v → v.dot v = 1 → extent ps v = l := by
    intro l v h u
    rw [extent_eq ps hne, h]
    simp only [Vec3.dot, Vec3.smul_x, Vec3.smul_y, Vec3.smul_z] at u ⊢
    linear_combination l * u
  refine ⟨⟨ua, fun w hw => ?_⟩, uc, fun w hw => ?_⟩
  · rw [hval ha ua, extent_eq ps hne]
    have := (form_le (C46_gyration_symmetric ps) ha hb hc hi h01 h12 w).1
    rwa [hw, mul_one] at this
  · rw [hval hc uc, extent_eq ps hne]
    have := (form_le (C46_gyration_symmetric ps) ha hb hc hi h01 h12 w).2
    rwa [hw, mul_one] at this

/-! ## The angles -/

theorem unit_ne_zero {v : Vec3 ℝ} (h : v.dot v = 1) : v ≠ 0 := by
  rintro rfl; simp [Vec3.dot] at h

theorem tensor_eq (ops : List Op) (hne : (ops.foldl exec Coll.empty).pos ≠ []) :
    ∃ s', (ops.foldl exec Coll.empty).getGyrationTensor = (s', .ok (gyration (ops.foldl exec Coll.empty).pos)) := by
  have := C46_gyration_current ops
  rw [if_neg hne] at this
  exact ⟨(ops.foldl exec Coll.empty).getGyrationTensor.1, by rw [← this]⟩

/-- C132: whatever has been done to a collection that is not empty, the orientation angle is the angle between the axis, which
has to have a length, and a direction in which the positions extend the most. -/
theorem C132_angle (ops : List Op) (hne : (ops.foldl exec Coll.empty).pos ≠ []) {x y z : ℝ} (hax : (⟨x, y, z⟩ : Vec3 ℝ) ≠ 0)
    {res : Coll × Except PyErr (Option ℝ)} (h : OrientationAngle (ops.foldl exec Coll.empty) [x, y, z] res) :
    ∃ (v : Vec3 ℝ) (θ : ℝ), Longest (ops.foldl exec Coll.empty).pos v ∧ LineAngle v ⟨x, y, z⟩ θ ∧ res.2 = .ok (some θ) := by
  obtain ⟨s', hs⟩ := tensor_eq ops hne
  simp only [OrientationAngle, hs] at h
  obtain ⟨r, hr, rfl⟩ := h
  obtain ⟨l0, l1, l2, a, b, c, rfl, h01, h12, ha, hb, hc, ua, ub, uc, hi⟩ := eigensystem_parts hr
  obtain ⟨θ, e, hθ⟩ := (C132_lines c ⟨x, y, z⟩).2 (unit_ne_zero uc) hax
  exact ⟨c, θ, (longest_of hne ha hb hc hi h01 h12 ua uc).2, hθ, by simp [e]⟩

/-- C132: if the positions extend the most along one line only, the orientation angle is the angle between that line and the
axis. -/
theorem C132_unique (ops : List Op) (hne : (ops.foldl exec Coll.empty).pos ≠ []) {x y z : ℝ} (hax : (⟨x, y, z⟩ : Vec3 ℝ) ≠ 0)
    {v : Vec3 ℝ} (hv : Longest (ops.foldl exec Coll.empty).pos v)
    (hu : ∀ w, Longest (ops.foldl exec Coll.empty).pos w → w = v ∨ w = (-1 : ℝ) • v) {θ : ℝ} (hθ : LineAngle v ⟨x, y, z⟩ θ)
    {res : Coll × Except PyErr (Option ℝ)} (h : OrientationAngle (ops.foldl exec Coll.empty) [x, y, z] res) :
    res.2 = .ok (some θ) := by
  obtain ⟨w, θ', hw, hθ', e⟩ := C132_angle ops hne hax h
  rw [e]
  congr 2
  have hv0 := unit_ne_zero hv.1
  refine lineAngle_unique hv0 hax ?_ hθ
  rcases hu w hw with rfl | rfl
  · exact hθ'
  · refine ⟨hθ'.1, hθ'.2.1, ?_⟩
    have h3 := hθ'.2.2
    have d1 : ((-1 : ℝ) • v).dot ((-1 : ℝ) • v) = v.dot v := by simp [Vec3.dot]
    have d2 : ((-1 : ℝ) • v).dot ⟨x, y, z⟩ = -v.dot ⟨x, y, z⟩ := by simp [Vec3.dot]; ring
    rwa [d1, d2, abs_neg] at h3

/-- C132: an exception is raised exactly if there are no positions or the axis does not have three components; and there is no
angle with an axis that is zero. -/
theorem C132_wrong (ops : List Op) (axis : List ℝ) {res : Coll × Except PyErr (Option ℝ)}
    (h : OrientationAngle (ops.foldl exec Coll.empty) axis res) :
    ((∃ e, res.2 = .error e) ↔ (ops.foldl exec Coll.empty).pos = [] ∨ axis.length ≠ 3) ∧
      (∀ e, res.2 = .error e → e = .valueError) ∧
      ((ops.foldl exec Coll.empty).pos ≠ [] → axis = [0, 0, 0] → res.2 = .ok none) := by
  have hcur := C46_gyration_current ops
  match axis, h with
  | [], h => simp only [OrientationAngle] at h; subst h; simp
  | [_], h => simp only [OrientationAngle] at h; subst h; simp
  | [_, _], h => simp only [OrientationAngle] at h; subst h; simp
  | _ :: _ :: _ :: _ :: _, h => simp only [OrientationAngle] at h; subst h; simp
  | [x, y, z], h =>
    by_cases hne : (ops.foldl exec Coll.empty).pos = []
    · rw [if_pos hne] at hcur
      obtain ⟨s', e⟩ : ∃ s', (ops.foldl exec Coll.empty).getGyrationTensor = (s', .error .valueError) :=
        ⟨(ops.foldl exec Coll.empty).getGyrationTensor.1, by rw [← hcur]⟩
      simp only [OrientationAngle, e] at h
      subst h
      simp [hne]
    · obtain ⟨s', hs⟩ := tensor_eq ops hne
      simp only [OrientationAngle, hs] at h
      obtain ⟨r, hr, rfl⟩ := h
      obtain ⟨l0, l1, l2, a, b, c, rfl, -⟩ := eigensystem_parts hr
      refine ⟨by simp [hne], by simp, fun _ hz => ?_⟩
      simp only [List.cons.injEq, and_true] at hz
      obtain ⟨rfl, rfl, rfl⟩ := hz
      have := (C132_lines c ⟨0, 0, 0⟩).1 (.inr rfl)
      simp [this]

/-- C132: the orientation angles are those of three eigenvectors, from the one in whose direction the positions extend the least
to the one in whose direction they extend the most, with the principal moments in ascending order; if these differ, the squares
of the cosines add up to one. -/
theorem C132_angles (ops : List Op) (hne : (ops.foldl exec Coll.empty).pos ≠ []) {x y z : ℝ} (hax : (⟨x, y, z⟩ : Vec3 ℝ) ≠ 0)
    {res : Coll × Except PyErr (List (ℝ × Option ℝ))} (h : OrientationAngles (ops.foldl exec Coll.empty) [x, y, z] res) :
    ∃ (l0 l1 l2 θ0 θ1 θ2 : ℝ) (a b c : Vec3 ℝ), res.2 = .ok [(l0, some θ0), (l1, some θ1), (l2, some θ2)] ∧
      SortedEigenvalues (gyration (ops.foldl exec Coll.empty).pos) l0 l1 l2 ∧
      extent (ops.foldl exec Coll.empty).pos a = l0 ∧ extent (ops.foldl exec Coll.empty).pos b = l1 ∧
      extent (ops.foldl exec Coll.empty).pos c = l2 ∧
      Shortest (ops.foldl exec Coll.empty).pos a ∧ b.dot b = 1 ∧ Longest (ops.foldl exec Coll.empty).pos c ∧
      LineAngle a ⟨x, y, z⟩ θ0 ∧ LineAngle b ⟨x, y, z⟩ θ1 ∧ LineAngle c ⟨x, y, z⟩ θ2 ∧
      (l0 < l1 → l1 < l2 → a.dot b = 0 ∧ b.dot c = 0 ∧ a.dot c = 0 ∧
        Real.cos θ0 ^ 2 + Real.cos θ1 ^ 2 + Real.cos θ2 ^ 2 = 1) := by
  obtain ⟨s', hs⟩ := tensor_eq ops hne
  set ps := (ops.foldl exec Coll.empty).pos with hps
  simp only [OrientationAngles, hs] at h
  obtain ⟨r, hr, rfl⟩ := h
  obtain ⟨l0, l1, l2, a, b, c, rfl, h01, h12, ha, hb, hc, ua, ub, uc, hi⟩ := eigensystem_parts hr
  obtain ⟨θ0, e0, t0⟩ := (C132_lines a ⟨x, y, z⟩).2 (unit_ne_zero ua) hax
  obtain ⟨θ1, e1, t1⟩ := (C132_lines b ⟨x, y, z⟩).2 (unit_ne_zero ub) hax
  obtain ⟨θ2, e2, t2⟩ := (C132_lines c ⟨x, y, z⟩).2 (unit_ne_zero uc) hax
  obtain ⟨ho1, ho2⟩ := longest_of hne ha hb hc hi h01 h12 ua uc
  have hval : ∀ {l : ℝ} {v : Vec3 ℝ}, mulVec (gyration ps) v = l • v → v.dot v = 1 → extent ps v = l := by
    intro l v h u
    rw [extent_eq ps hne, h]
    simp only [Vec3.dot, Vec3.smul_x, Vec3.smul_y, Vec3.smul_z] at u ⊢
    linear_combination l * u
  refine ⟨l0, l1, l2, θ0, θ1, θ2, a, b, c, by simp [e0, e1, e2], ⟨h01, h12, ?_⟩, hval ha ua, hval hb ub, hval hc uc, ho1, ub, ho2,
    t0, t1, t2, fun k1 k2 => ?_⟩
  · set P : Mat := !![a.x, b.x, c.x; a.y, b.y, c.y; a.z, b.z, c.z] with hP
    have hdet : P.det = a.dot (b.cross c) := by
      rw [hP, Matrix.det_fin_three]
      simp [Vec3.dot, Vec3.cross]
      ring
    have hu : IsUnit P.det := by rw [hdet]; exact isUnit_iff_ne_zero.2 hi
    have hmul : gyration ps * P = P * Matrix.diagonal ![l0, l1, l2] := by
      have ea := Vec3.ext_iff.1 ha
      have eb := Vec3.ext_iff.1 hb
      have ec := Vec3.ext_iff.1 hc
      simp only [mulVec, Vec3.smul_x, Vec3.smul_y, Vec3.smul_z] at ea eb ec
      ext i j
      rw [Matrix.mul_apply, Matrix.mul_diagonal, Fin.sum_univ_three]
      fin_cases i <;> fin_cases j <;> simp [hP] <;> first
        | exact ea.1 | exact ea.2.1 | exact ea.2.2 | exact eb.1 | exact eb.2.1 | exact eb.2.2 | exact ec.1 | exact ec.2.1
        | exact ec.2.2
    have hconj : gyration ps = P * Matrix.diagonal ![l0, l1, l2] * P⁻¹ := by
      rw [← hmul, Matrix.mul_assoc, Matrix.mul_nonsing_inv _ hu, Matrix.mul_one]
    obtain ⟨U, hU⟩ := (Matrix.isUnit_iff_isUnit_det P).2 hu
    have := Matrix.charpoly_units_conj U (Matrix.diagonal ![l0, l1, l2])
    rw [hU, ← hconj] at this
    rw [this, Matrix.charpoly_diagonal, Fin.prod_univ_three]
    simp
  · have z1 : a.dot b = 0 := (mul_eq_zero.1 (ortho (C46_gyration_symmetric ps) ha hb)).resolve_left (by linarith)
    have z2 : a.dot c = 0 := (mul_eq_zero.1 (ortho (C46_gyration_symmetric ps) ha hc)).resolve_left (by linarith)
    have z3 : b.dot c = 0 := (mul_eq_zero.1 (ortho (C46_gyration_symmetric ps) hb hc)).resolve_left (by linarith)
    refine ⟨z1, z3, z2, ?_⟩
    obtain ⟨p, q, t, hw⟩ := combination hi ⟨x, y, z⟩
    have sq : ∀ {v : Vec3 ℝ} {θ : ℝ}, v.dot v = 1 → LineAngle v ⟨x, y, z⟩ θ →
        Real.cos θ ^ 2 * (⟨x, y, z⟩ : Vec3 ℝ).dot ⟨x, y, z⟩ = (v.dot ⟨x, y, z⟩) ^ 2 := by
      intro v θ u hl
      have := hl.2.2
      rw [u, Real.sqrt_one, mul_one] at this
      rw [← sq_abs (v.dot _), ← this, mul_pow, Real.sq_sqrt (dot_self_nonneg _)]
    have q0 := sq ua t0
    have q1 := sq ub t1
    have q2 := sq uc t2
    have hw0 : (⟨x, y, z⟩ : Vec3 ℝ).dot ⟨x, y, z⟩ ≠ 0 := fun h => hax (eq_zero_of_dot_self h)
    rw [hw] at q0 q1 q2 hw0
    have lin : ∀ v : Vec3 ℝ, v.dot (p • a + (q • b + t • c)) = p * v.dot a + q * v.dot b + t * v.dot c := by
      intro v; simp only [Vec3.dot, Vec3.add_x, Vec3.add_y, Vec3.add_z, Vec3.smul_x, Vec3.smul_y, Vec3.smul_z]; ring
    have cm : ∀ v w : Vec3 ℝ, v.dot w = w.dot v := by intro v w; simp only [Vec3.dot]; ring
    have nrm : (p • a + (q • b + t • c)).dot (p • a + (q • b + t • c)) = p ^ 2 + q ^ 2 + t ^ 2 := by
      rw [lin, cm _ a, cm _ b, cm _ c, lin, lin, lin, ua, ub, uc, z1, z2, z3, cm b a, cm c a, cm c b, z1, z2, z3]; ring
    rw [nrm] at q0 q1 q2 hw0
    rw [lin, ua, z1, z2] at q0
    rw [lin, cm b a, z1, ub, z3] at q1
    rw [lin, cm c a, cm c b, z2, z3, uc] at q2
    refine mul_right_cancel₀ hw0 ?_
    linarith

/-! ## There are eigensystems -/

/-- Three orthonormal eigenvectors, sorted by their eigenvalues, are an eigensystem. -/
theorem eigensystem_of {S : Mat} {l : List (ℝ × Vec3 ℝ)} (h : IsEig S l) : ∃ r, Eigensystem S r :=
  ⟨l.insertionSort fun a b => a.1 ≤ b.1, l, h, List.perm_insertionSort _ _,
    haveI : Std.Total fun a b : ℝ × Vec3 ℝ => a.1 ≤ b.1 := ⟨fun a b => le_total a.1 b.1⟩
    haveI : IsTrans (ℝ × Vec3 ℝ) fun a b => a.1 ≤ b.1 := ⟨fun a b c h1 h2 => le_trans h1 h2⟩
    List.pairwise_insertionSort _ _⟩

/-- Orthonormal vectors. -/
theorem isEig_of {S : Mat} {a b c : Vec3 ℝ} {l0 l1 l2 : ℝ} (ha : mulVec S a = l0 • a) (hb : mulVec S b = l1 • b)
    (hc : mulVec S c = l2 • c) (ua : a.dot a = 1) (ub : b.dot b = 1) (uc : c.dot c = 1) (hi : a.dot (b.cross c) ≠ 0) :
    IsEig S [(l0, a), (l1, b), (l2, c)] where
  length := rfl
  eigen := by simp [ha, hb, hc, ua, ub, uc]
  independent w hw := by
    simp only [List.mem_cons, List.not_mem_nil, or_false, forall_eq_or_imp, forall_eq] at hw
    obtain ⟨x, y, z, rfl⟩ := combination hi w
    refine eq_zero_of_dot_self ?_
    have lin : ∀ v : Vec3 ℝ, (x • a + (y • b + z • c)).dot v = x * a.dot v + y * b.dot v + z * c.dot v := by
      intro v; simp only [Vec3.dot, Vec3.add_x, Vec3.add_y, Vec3.add_z, Vec3.smul_x, Vec3.smul_y, Vec3.smul_z]; ring
    rw [lin, hw.1, hw.2.1, hw.2.2]
    ring

/-- C132: there always is a result. -/
theorem C132_defined (ops : List Op) (axis : List ℝ) : ∃ res, OrientationAngle (ops.foldl exec Coll.empty) axis res := by
  have hcur := C46_gyration_current ops
  match axis with
  | [] => exact ⟨_, rfl⟩
  | [_] => exact ⟨_, rfl⟩
  | [_, _] => exact ⟨_, rfl⟩
  | _ :: _ :: _ :: _ :: _ => exact ⟨_, rfl⟩
  | [x, y, z] =>
    by_cases hne : (ops.foldl exec Coll.empty).pos = []
    · rw [if_pos hne] at hcur
      obtain ⟨s', e⟩ : ∃ s', (ops.foldl exec Coll.empty).getGyrationTensor = (s', .error .valueError) :=
        ⟨(ops.foldl exec Coll.empty).getGyrationTensor.1, by rw [← hcur]⟩
      simp only [OrientationAngle, e]
      exact ⟨_, rfl⟩
    · obtain ⟨s', hs⟩ := tensor_eq ops hne
      simp only [OrientationAngle, hs]
      set S := gyration (ops.foldl exec Coll.empty).pos with hS
      have hsym : S.IsHermitian := by
        ext i j
        rw [Matrix.conjTranspose_apply, star_trivial]
        exact C46_gyration_symmetric _ _ _
      set B := hsym.eigenvectorBasis with hB
      let f : Fin 3 → Vec3 ℝ := fun i => ⟨B i 0, B i 1, B i 2⟩
      have hdot : ∀ i j, (f i).dot (f j) = if i = j then 1 else 0 := by
        intro i j
        have := orthonormal_iff_ite.1 B.orthonormal i j
        rw [← this]
        simp [f, Vec3.dot, PiLp.inner_apply, Fin.sum_univ_three]
        ring
      have heig : ∀ i, mulVec S (f i) = hsym.eigenvalues i • f i := by
        intro i
        have := hsym.mulVec_eigenvectorBasis i
        have g0 := congrFun this 0
        have g1 := congrFun this 1
        have g2 := congrFun this 2
        simp only [Matrix.mulVec, dotProduct, Fin.sum_univ_three, Pi.smul_apply, smul_eq_mul] at g0 g1 g2
        ext
        · simp only [mulVec, f, Vec3.smul_x]; rw [g0.trans (mul_comm _ _)]
        · simp only [mulVec, f, Vec3.smul_y]; rw [g1.trans (mul_comm _ _)]
        · simp only [mulVec, f, Vec3.smul_z]; rw [g2.trans (mul_comm _ _)]
      have hgram : ((f 0).dot ((f 1).cross (f 2))) ^ 2 = 1 := by
        have d : ∀ a b c : Vec3 ℝ, (a.dot (b.cross c)) ^ 2 = a.dot a * (b.dot b * c.dot c - b.dot c * b.dot c) -
            a.dot b * (a.dot b * c.dot c - b.dot c * a.dot c) + a.dot c * (a.dot b * b.dot c - b.dot b * a.dot c) := by
          intro a b c; simp only [Vec3.dot, Vec3.cross]; ring
        rw [d]
        simp [hdot]
      obtain ⟨r, hr⟩ := eigensystem_of (isEig_of (heig 0) (heig 1) (heig 2) (by simp [hdot]) (by simp [hdot]) (by simp [hdot])
        (fun h0 => by rw [h0] at hgram; norm_num at hgram))
      exact ⟨_, r, hr, rfl⟩

/-! ## More than one longest direction -/

/-- Six particles at the same distance from the origin. -/
def octahedral : List (Vec3 ℝ) := [⟨1, 0, 0⟩, ⟨-1, 0, 0⟩, ⟨0, 1, 0⟩, ⟨0, -1, 0⟩, ⟨0, 0, 1⟩, ⟨0, 0, -1⟩]

theorem octahedral_gyration (v : Vec3 ℝ) : mulVec (gyration octahedral) v = (1 / 3 : ℝ) • v := by
  have hg : gyration octahedral = Matrix.diagonal ![1 / 3, 1 / 3, 1 / 3] := by
    ext i j
    rw [C46_gyration_definition]
    fin_cases i <;> fin_cases j <;> (simp [octahedral, comp, Matrix.diagonal]; try norm_num)
  rw [hg]
  ext <;> simp [mulVec, Matrix.diagonal] <;> ring

/-- C132: if there is no single direction in which the positions extend the most, the orientation angle may be any angle,
depending on what `numpy` returns. -/
theorem C132_degenerate (s s' : Coll) (hs : s.getGyrationTensor = (s', .ok (gyration octahedral))) {θ : ℝ} (h0 : 0 ≤ θ)
    (h1 : θ ≤ Real.pi / 2) : OrientationAngle s [1, 0, 0] (s', .ok (some θ)) := by
  have hpi := Real.pi_pos
  simp only [OrientationAngle, hs]
  have hsc := Real.sin_sq_add_cos_sq θ
  refine ⟨[(1 / 3, ⟨-Real.sin θ, Real.cos θ, 0⟩), (1 / 3, ⟨0, 0, 1⟩), (1 / 3, ⟨Real.cos θ, Real.sin θ, 0⟩)], ⟨_, isEig_of
    (octahedral_gyration _) (octahedral_gyration _) (octahedral_gyration _) ?_ ?_ ?_ ?_, List.Perm.refl _, by simp⟩, ?_⟩
  · simp [Vec3.dot]; nlinarith
  · simp [Vec3.dot]
  · simp [Vec3.dot]; nlinarith
  · have : (⟨-Real.sin θ, Real.cos θ, 0⟩ : Vec3 ℝ).dot ((⟨0, 0, 1⟩ : Vec3 ℝ).cross ⟨Real.cos θ, Real.sin θ, 0⟩) = 1 := by
      simp [Vec3.dot, Vec3.cross]; nlinarith
    rw [this]; norm_num
  · obtain ⟨θ', e, l⟩ := (C132_lines ⟨Real.cos θ, Real.sin θ, 0⟩ ⟨1, 0, 0⟩).2
      (unit_ne_zero (by simp [Vec3.dot]; nlinarith)) (unit_ne_zero (by simp [Vec3.dot]))
    have hl : LineAngle ⟨Real.cos θ, Real.sin θ, 0⟩ ⟨1, 0, 0⟩ θ := by
      refine ⟨h0, h1, ?_⟩
      have d1 : (⟨Real.cos θ, Real.sin θ, 0⟩ : Vec3 ℝ).dot ⟨Real.cos θ, Real.sin θ, 0⟩ = 1 := by simp [Vec3.dot]; nlinarith
      have d2 : (⟨1, 0, 0⟩ : Vec3 ℝ).dot ⟨1, 0, 0⟩ = 1 := by simp [Vec3.dot]
      have d3 : (⟨Real.cos θ, Real.sin θ, 0⟩ : Vec3 ℝ).dot ⟨1, 0, 0⟩ = Real.cos θ := by simp [Vec3.dot]
      rw [d1, d2, d3, Real.sqrt_one, mul_one, mul_one, abs_of_nonneg (Real.cos_nonneg_of_neg_pi_div_two_le_of_le (by linarith) h1)]
    have : θ' = θ := lineAngle_unique (unit_ne_zero (by simp [Vec3.dot]; nlinarith)) (unit_ne_zero (by simp [Vec3.dot])) l hl
    simp [e, this]

/-! ## The plots of the analysis -/

/-- The curves of `OrientationAngles.getMPLAxesForValueAsFunctionOfTime`
(`Analysis/MPCDAnalysis/StarPolymersAnalysis/OrientationAngles.py:35-53`): label, horizontal and vertical coordinates; `none`: an
exception is raised. Values are lists of lists, or what has been read from a cache. -/
def orientationCurves (data : List (ℝ × List (List ℝ))) : Option (List (String × List ℝ × List ℝ)) := do
  let angles ← [0, 1, 2].mapM fun i => data.mapM fun d => (d.2[i]?).bind fun pair => pair[1]?
  pure (List.zipWith (fun label a => (label, data.map Prod.fst, a))
    ["Orientation Angle: Smallest Eigenvalue", "Orientation Angle: Middle Eigenvalue", "Orientation Angle: Largest Eigenvalue"]
    angles)

/-- The curves of `RotationFrequencyVector.getMPLAxesForValueAsFunctionOfTime`
(`Analysis/MPCDAnalysis/StarPolymersAnalysis/RotationFrequencyVector.py:34-52`). -/
def frequencyCurves (data : List (ℝ × List ℝ)) : Option (List (String × List ℝ × List ℝ)) := do
  let frequencies ← [0, 1, 2].mapM fun i => data.mapM fun d => d.2[i]?
  pure (List.zipWith (fun label a => (label, data.map Prod.fst, a))
    ["Rotation Frequency: x Component", "Rotation Frequency: y Component", "Rotation Frequency: z Component"] frequencies)

/-- The values of one curve. -/
theorem mapM_get {A B C : Type} (l : List A) (k : A → C) (f : C → Option B) (g : A → B) (h : ∀ a, f (k a) = some (g a)) :
    (l.map k).mapM f = some (l.map g) := by
  induction l with
  | nil => rfl
  | cons a l ih =>
    rw [List.map_cons, List.mapM_cons, h a, ih]
    rfl

/-- C132: each curve shows, at the time of each snapshot, the angle of the eigenvector it is labelled with, or the component of the
rotation frequency. -/
theorem C132_curves (angles : List (ℝ × (ℝ × ℝ) × (ℝ × ℝ) × (ℝ × ℝ))) (frequencies : List (ℝ × Vec3 ℝ)) :
    orientationCurves (angles.map fun d => (d.1, [[d.2.1.1, d.2.1.2], [d.2.2.1.1, d.2.2.1.2], [d.2.2.2.1, d.2.2.2.2]])) =
      some [("Orientation Angle: Smallest Eigenvalue", angles.map (·.1), angles.map (·.2.1.2)),
        ("Orientation Angle: Middle Eigenvalue", angles.map (·.1), angles.map (·.2.2.1.2)),
        ("Orientation Angle: Largest Eigenvalue", angles.map (·.1), angles.map (·.2.2.2.2))] ∧
    frequencyCurves (frequencies.map fun d => (d.1, [d.2.x, d.2.y, d.2.z])) =
      some [("Rotation Frequency: x Component", frequencies.map (·.1), frequencies.map (·.2.x)),
        ("Rotation Frequency: y Component", frequencies.map (·.1), frequencies.map (·.2.y)),
        ("Rotation Frequency: z Component", frequencies.map (·.1), frequencies.map (·.2.z))] := by
  constructor
  · unfold orientationCurves
    simp only [List.mapM_cons, List.mapM_nil]
    rw [mapM_get angles _ _ (·.2.1.2) (by intro a; simp), mapM_get angles _ _ (·.2.2.1.2) (by intro a; simp),
      mapM_get angles _ _ (·.2.2.2.2) (by intro a; simp)]
    simp only [List.map_map]
    rfl
  · unfold frequencyCurves
    simp only [List.mapM_cons, List.mapM_nil]
    rw [mapM_get frequencies _ _ (·.2.x) (by intro a; simp), mapM_get frequencies _ _ (·.2.y) (by intro a; simp),
      mapM_get frequencies _ _ (·.2.z) (by intro a; simp)]
    simp only [List.map_map]
    rfl

/-! ## Examples -/

/-- Two particles. -/
noncomputable def two : List Op := [.setPositionsAndVelocities (fun n => if n = 0 then ⟨1, 1, 0⟩ else ⟨-1, -1, 0⟩) [0, 1] []]

theorem two_pos : (two.foldl exec Coll.empty).pos = [⟨1, 1, 0⟩, ⟨-1, -1, 0⟩] := by
  simp [two, exec, Coll.setPositionsAndVelocities, pos]

theorem two_extent (w : Vec3 ℝ) : extent (two.foldl exec Coll.empty).pos w = (w.x + w.y) ^ 2 := by
  rw [two_pos]
  simp [extent, centre, Vec3.dot]
  ring

/-- The two particles extend the most along one line only, which is at an angle of 45 degrees to the first axis. -/
example : ∃ v : Vec3 ℝ, Longest (two.foldl exec Coll.empty).pos v ∧
    (∀ w, Longest (two.foldl exec Coll.empty).pos w → w = v ∨ w = (-1 : ℝ) • v) ∧ LineAngle v ⟨1, 0, 0⟩ (Real.pi / 4) ∧
    (two.foldl exec Coll.empty).pos ≠ [] ∧
    ∃ res, OrientationAngle (two.foldl exec Coll.empty) [1, 0, 0] res := by
  have h2 : Real.sqrt 2 * Real.sqrt 2 = 2 := Real.mul_self_sqrt (by norm_num)
  have hu : (⟨Real.sqrt 2 / 2, Real.sqrt 2 / 2, 0⟩ : Vec3 ℝ).dot ⟨Real.sqrt 2 / 2, Real.sqrt 2 / 2, 0⟩ = 1 := by
    simp [Vec3.dot]; linarith
  have hv : extent (two.foldl exec Coll.empty).pos ⟨Real.sqrt 2 / 2, Real.sqrt 2 / 2, 0⟩ = 2 := by
    rw [two_extent]; simp only; nlinarith
  have hle : ∀ w : Vec3 ℝ, w.dot w = 1 → extent (two.foldl exec Coll.empty).pos w ≤ 2 := by
    intro w hw
    rw [two_extent]
    simp only [Vec3.dot] at hw
    nlinarith [sq_nonneg (w.x - w.y), mul_self_nonneg w.z]
  refine ⟨⟨Real.sqrt 2 / 2, Real.sqrt 2 / 2, 0⟩, ⟨hu, fun w hw => by rw [hv]; exact hle w hw⟩, fun w hw => ?_, ⟨by positivity,
    by linarith [Real.pi_pos], ?_⟩, by rw [two_pos]; simp, C132_defined two [1, 0, 0]⟩
  · have e : extent (two.foldl exec Coll.empty).pos w = 2 := le_antisymm (hle w hw.1) (by rw [← hv]; exact hw.2 _ hu)
    rw [two_extent] at e
    have hw1 := hw.1
    simp only [Vec3.dot] at hw1
    have hz : w.z = 0 := by nlinarith [sq_nonneg (w.x - w.y), mul_self_nonneg w.z]
    have hxy : w.x = w.y := by nlinarith [sq_nonneg (w.x - w.y), mul_self_nonneg w.z]
    have hx : (w.x - Real.sqrt 2 / 2) * (w.x + Real.sqrt 2 / 2) = 0 := by rw [← hxy, hz] at hw1; nlinarith
    rcases mul_eq_zero.1 hx with h | h
    · left; ext <;> simp [hz, ← hxy] <;> linarith
    · right; ext <;> simp [hz, ← hxy] <;> linarith
  · rw [hu, Real.cos_pi_div_four]
    have d2 : (⟨1, 0, 0⟩ : Vec3 ℝ).dot ⟨1, 0, 0⟩ = 1 := by simp [Vec3.dot]
    have d3 : (⟨Real.sqrt 2 / 2, Real.sqrt 2 / 2, 0⟩ : Vec3 ℝ).dot ⟨1, 0, 0⟩ = Real.sqrt 2 / 2 := by simp [Vec3.dot]
    rw [d2, d3, Real.sqrt_one, abs_of_pos (by positivity)]
    ring

/-- The positions of `C132_degenerate`. -/
example : ∃ (s s' : Coll), s.getGyrationTensor = (s', .ok (gyration octahedral)) := by
  have h := C46_gyration_current [.setPositionsAndVelocities (fun n => octahedral.getD n 0) [0, 1, 2, 3, 4, 5] []]
  have hp : (List.foldl exec Coll.empty
      [.setPositionsAndVelocities (fun n => octahedral.getD n 0) [0, 1, 2, 3, 4, 5] []]).pos = octahedral := by
    simp [exec, Coll.setPositionsAndVelocities, pos, octahedral]
  rw [hp, if_neg (by simp [octahedral])] at h
  exact ⟨_, _, Prod.ext rfl h⟩

end OpenMPCD.Particles.Orientation
