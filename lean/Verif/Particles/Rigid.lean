import Verif.Particles.EckartProps
import Mathlib.LinearAlgebra.Matrix.ToLinearEquiv
import Mathlib.LinearAlgebra.Matrix.Charpoly.Coeff
import Mathlib.LinearAlgebra.Matrix.Charpoly.Eigs

/-!
# C56, C57, C58: rigid rotation, rotation frequency, shape descriptors
-/

set_option linter.unusedSimpArgs false
set_option linter.unusedSectionVars false

namespace OpenMPCD.Particles

open Coll

/-- No line through the origin contains all positions. -/
def NotCollinear (as : List (Vec3 ℝ)) : Prop := ∀ u : Vec3 ℝ, u ≠ 0 → ∃ a ∈ as, a.cross u ≠ 0

theorem det_ne_zero {J : Mat} (h : ∀ w : Vec3 ℝ, mulVec J w = 0 → w = 0) : J.det ≠ 0 := by
  intro h0
  obtain ⟨v, hv, hJ⟩ := Matrix.exists_mulVec_eq_zero_iff.2 h0
  apply hv
  have e : (⟨v 0, v 1, v 2⟩ : Vec3 ℝ) = 0 := by
    apply h
    have h0 := congrFun hJ 0
    have h1 := congrFun hJ 1
    have h2 := congrFun hJ 2
    simp only [Matrix.mulVec, dotProduct, Fin.sum_univ_three, Pi.zero_apply] at h0 h1 h2
    ext
    · exact h0
    · exact h1
    · exact h2
  have e0 : v 0 = 0 := congrArg Vec3.x e
  have e1 : v 1 = 0 := congrArg Vec3.y e
  have e2 : v 2 = 0 := congrArg Vec3.z e
  funext i
  fin_cases i
  · exact e0
  · exact e1
  · exact e2

theorem dot_sum (u : Vec3 ℝ) (l : List (Vec3 ℝ)) : u.dot l.sum = (l.map u.dot).sum := by
  induction l with
  | nil => simp
  | cons v l ih => rw [List.sum_cons, Vec3.dot_add, ih, List.map_cons, List.sum_cons]

/-- The inertia tensor about the origin, applied to a vector, vanishes for the zero vector only. -/
theorem inertia_injective {mass : ℝ} (hm : 0 < mass) (cs : List (Vec3 ℝ)) (h : NotCollinear cs)
    (w : Vec3 ℝ) (hw : (cs.map fun c => mass • (c.dot c • w - c.dot w • c)).sum = 0) : w = 0 := by
  by_contra hne
  obtain ⟨a, ha, hx⟩ := h w hne
  have e : w.dot (cs.map fun c => mass • (c.dot c • w - c.dot w • c)).sum =
      (cs.map fun c => mass * ((c.cross w).dot (c.cross w))).sum := by
    rw [dot_sum, List.map_map]
    congr 1
    apply List.map_congr_left
    intro c _
    simp [Vec3.dot, Vec3.cross]
    ring
  rw [hw, Vec3.dot_zero] at e
  have hnn : ∀ x ∈ cs.map (fun c => mass * ((c.cross w).dot (c.cross w))), 0 ≤ x := by
    intro x hx
    obtain ⟨c, -, rfl⟩ := List.mem_map.1 hx
    exact mul_nonneg hm.le (Vec3.dot_self_nonneg _)
  have hle := List.single_le_sum hnn _ (List.mem_map.2 ⟨a, ha, rfl⟩)
  rw [← e] at hle
  have hpos : 0 < (a.cross w).dot (a.cross w) :=
    lt_of_le_of_ne (Vec3.dot_self_nonneg _) (fun h0 => hx (Vec3.dot_self_eq_zero.1 h0.symm))
  nlinarith

/-! ## Rotation frequency -/

theorem inertiaLoop_eq (s : Coll) {mass : ℝ} (hm : s.uniformMass = some mass) (ps : List (Vec3 ℝ))
    (i : ℕ) (hi : i + ps.length ≤ s.positions.length) (xx xy xz yy yz zz : ℝ) :
    ∃ xx' xy' xz' yy' yz' zz', s.inertiaLoop i ps (xx, xy, xz, yy, yz, zz) =
        .ok (xx', xy', xz', yy', yz', zz') ∧
      ∀ w, mulVec !![xx', xy', xz'; xy', yy', yz'; xz', yz', zz'] w =
        mulVec !![xx, xy, xz; xy, yy, yz; xz, yz, zz] w +
          (ps.map fun c => mass • (c.dot c • w - c.dot w • c)).sum := by
  induction ps generalizing i xx xy xz yy yz zz with
  | nil => exact ⟨xx, xy, xz, yy, yz, zz, rfl, by simp⟩
  | cons p ps ih =>
    simp only [List.length_cons] at hi
    have g1 : s.getMass i = .ok mass := by
      unfold getMass getParticleCount; rw [if_neg (by omega), hm]
    rw [inertiaLoop]
    simp only [g1]
    obtain ⟨xx', xy', xz', yy', yz', zz', e1, e2⟩ := ih (i + 1) (by omega)
      (xx + mass * (p.y * p.y + p.z * p.z)) (xy + -mass * p.x * p.y) (xz + -mass * p.x * p.z)
      (yy + mass * (p.x * p.x + p.z * p.z)) (yz + -mass * p.y * p.z)
      (zz + mass * (p.x * p.x + p.y * p.y))
    refine ⟨xx', xy', xz', yy', yz', zz', e1, fun w => ?_⟩
    rw [e2, List.map_cons, List.sum_cons, ← add_assoc]
    congr 1
    ext <;> simp [mulVec, Vec3.dot] <;> ring

theorem angularMomentumLoop_eq (s : Coll) {mass : ℝ} (hm : s.uniformMass = some mass)
    (g : Vec3 ℝ → Vec3 ℝ) (hv : s.vel = s.pos.map g) (ps : List (Vec3 ℝ)) (i : ℕ) (L : Vec3 ℝ)
    (hps : ps = s.pos.drop i) :
    s.angularMomentumLoop i ps L = .ok (L + (ps.map fun p => p.cross (mass • g p)).sum) := by
  induction ps generalizing i L with
  | nil => simp [angularMomentumLoop]
  | cons p ps ih =>
    have hi : i < s.pos.length := by
      by_contra h
      rw [List.drop_eq_nil_of_le (by omega)] at hps
      exact absurd hps (by simp)
    have hp : p = s.pos[i] ∧ ps = s.pos.drop (i + 1) := by
      rw [List.drop_eq_getElem_cons hi] at hps
      exact List.cons.inj hps
    have g1 : s.getMass i = .ok mass := by
      unfold getMass getParticleCount
      rw [if_neg (by have : s.pos.length = s.positions.length := by simp [pos]
                     omega), hm]
    have g2 : s.vel[i]? = some (g p) := by
      rw [hv, List.getElem?_map, List.getElem?_eq_getElem hi, hp.1]
      rfl
    rw [angularMomentumLoop]
    simp only [g1, g2]
    rw [ih (i + 1) _ hp.2, List.map_cons, List.sum_cons, add_assoc]

/-- C57: for a rigidly rotating and translating set of particles with its centre of mass at the
origin, not all on one line, `getRotationFrequencyVector` returns the angular velocity. -/
theorem C57_rotationFrequency (s : Coll) (mass : ℝ) (hm : s.uniformMass = some mass) (hpos : 0 < mass)
    (hne : s.positions ≠ []) (hcom : s.getCenterOfMass = .ok 0) (hcol : NotCollinear s.pos)
    (v0 w : Vec3 ℝ) (hv : s.vel = s.pos.map fun p => v0 + w.cross p) :
    s.getRotationFrequencyVector = .ok w := by
  obtain ⟨xx, xy, xz, yy, yz, zz, e1, e2⟩ := inertiaLoop_eq s hm s.pos 0 (by simp [pos]) 0 0 0 0 0 0
  have hsum : s.pos.sum = 0 := by
    rw [getCenterOfMass_eq s hm hpos hne] at hcom
    have hc : centre s.pos = 0 := Except.ok.inj hcom
    have hn : (s.pos.length : ℝ) ≠ 0 := Nat.cast_ne_zero.2 (by simp [pos, hne])
    unfold centre at hc
    have := congrArg (fun v => (s.pos.length : ℝ) • v) hc
    simpa only [smul_smul, mul_inv_cancel₀ hn, one_smul, smul_zero] using this
  have hz : mulVec !![0, 0, 0; 0, 0, 0; 0, 0, 0] = fun _ => 0 := by
    funext u
    ext <;> simp [mulVec]
  unfold getRotationFrequencyVector getMomentOfInertiaTensor getTotalAngularMomentumVector
  rw [hcom]
  simp only
  rw [if_neg (by simp [Vec3.getLengthSquared])]
  rw [e1]
  simp only
  rw [angularMomentumLoop_eq s hm _ hv s.pos 0 0 (by simp)]
  simp only
  have hdet : (!![xx, xy, xz; xy, yy, yz; xz, yz, zz] : Mat).det ≠ 0 := by
    apply det_ne_zero
    intro u hu
    rw [e2, hz, zero_add] at hu
    exact inertia_injective hpos _ hcol u hu
  rw [if_neg hdet]
  have hrhs : 0 + (s.pos.map fun p => p.cross (mass • (v0 + w.cross p))).sum =
      mulVec !![xx, xy, xz; xy, yy, yz; xz, yz, zz] w := by
    rw [e2, hz, zero_add, zero_add]
    have : (s.pos.map fun p => p.cross (mass • (v0 + w.cross p))).sum =
        mass • s.pos.sum.cross v0 + (s.pos.map fun c => mass • (c.dot c • w - c.dot w • c)).sum := by
      clear hsum hcol hcom hv e1 e2
      induction s.pos with
      | nil => ext <;> simp [Vec3.cross]
      | cons p ps ih =>
        rw [List.map_cons, List.sum_cons, ih, List.sum_cons, List.map_cons, List.sum_cons]
        ext <;> simp [Vec3.cross, Vec3.dot] <;> ring
    rw [this, hsum]
    ext <;> simp [Vec3.cross]
  rw [hrhs, mulVec_mul, Matrix.nonsing_inv_mul _ (isUnit_iff_ne_zero.2 hdet), mulVec_one]

/-! ## The Eckart angular velocity of a rigid rotation -/

theorem NotCoplanar.notCollinear {as : List (Vec3 ℝ)} (h : NotCoplanar as) : NotCollinear as := by
  intro u hu
  by_contra hall
  simp only [not_exists, not_and, not_not] at hall
  -- a vector perpendicular to `u`
  obtain ⟨n, hn, hnu⟩ : ∃ n : Vec3 ℝ, n ≠ 0 ∧ n.dot u = 0 := by
    by_cases hxy : u.x = 0 ∧ u.y = 0
    · exact ⟨⟨1, 0, 0⟩, by intro h; simpa using congrArg Vec3.x h, by simp [Vec3.dot, hxy.1]⟩
    · refine ⟨⟨-u.y, u.x, 0⟩, ?_, by simp [Vec3.dot]; ring⟩
      intro h
      apply hxy
      exact ⟨by simpa using congrArg Vec3.y h, by simpa using congrArg Vec3.x h⟩
  obtain ⟨a, ha, hne⟩ := h n hn
  apply hne
  have hx := hall a ha
  have key : (u.dot u) * (n.dot a) = 0 := by
    have e : u.dot u * n.dot a = n.dot u * a.dot u + (u.cross n).dot (u.cross a) := by
      simp [Vec3.dot, Vec3.cross]; ring
    have e2 : u.cross a = -(a.cross u) := by
      ext <;> simp [Vec3.cross] <;> ring
    rw [e, hnu, e2, hx]
    simp
  rcases mul_eq_zero.1 key with h0 | h0
  · exact absurd (Vec3.dot_self_eq_zero.1 h0) hu
  · exact h0

theorem notCollinear_rotated {as : List (Vec3 ℝ)} (h : NotCollinear as) {Q : Mat}
    (hQ : Q.transpose * Q = 1) : NotCollinear (as.map (mulVec Q)) := by
  have hQ2 : Q * Q.transpose = 1 := mul_eq_one_comm.1 hQ
  have hdot : ∀ u v : Vec3 ℝ, (mulVec Q u).dot (mulVec Q v) = u.dot v := by
    intro u v
    have e : ∀ i j, Q 0 i * Q 0 j + Q 1 i * Q 1 j + Q 2 i * Q 2 j = if i = j then 1 else 0 := by
      intro i j
      have := congrFun (congrFun hQ i) j
      rw [Matrix.mul_apply, Fin.sum_univ_three, Matrix.one_apply] at this
      exact this
    have e00 := e 0 0
    have e01 := e 0 1
    have e02 := e 0 2
    have e11 := e 1 1
    have e12 := e 1 2
    have e22 := e 2 2
    simp at e00 e01 e02 e11 e12 e22
    simp only [mulVec, Vec3.dot]
    linear_combination u.x * v.x * e00 + (u.x * v.y + u.y * v.x) * e01 +
      (u.x * v.z + u.z * v.x) * e02 + u.y * v.y * e11 + (u.y * v.z + u.z * v.y) * e12 +
      u.z * v.z * e22
  have lagrange : ∀ u v : Vec3 ℝ, (u.cross v).dot (u.cross v) = u.dot u * v.dot v - u.dot v * u.dot v := by
    intro u v; simp [Vec3.dot, Vec3.cross]; ring
  intro u hu
  have hu' : u = mulVec Q (mulVec Q.transpose u) := by rw [mulVec_mul, hQ2, mulVec_one]
  obtain ⟨a, ha, hx⟩ := h (mulVec Q.transpose u) (by
    intro h0
    rw [h0] at hu'
    apply hu
    rw [hu']
    ext <;> simp [mulVec])
  refine ⟨mulVec Q a, List.mem_map.2 ⟨a, ha, rfl⟩, ?_⟩
  intro h0
  apply hx
  apply Vec3.dot_self_eq_zero.1
  rw [lagrange, ← hdot a a, ← hdot (mulVec Q.transpose u) (mulVec Q.transpose u),
    ← hdot a (mulVec Q.transpose u), ← hu', ← lagrange, h0]
  simp

theorem centre_rigid (as : List (Vec3 ℝ)) (hne : as ≠ []) (ha : as.sum = 0) (A : Mat) (t : Vec3 ℝ) :
    centre (as.map fun a => mulVec A a + t) = t := by
  have hn : (as.length : ℝ) ≠ 0 := Nat.cast_ne_zero.2 (by simpa using hne)
  have e : (as.map fun a => mulVec A a + t).sum = mulVec A as.sum + (as.length : ℝ) • t := by
    clear hne ha hn
    induction as with
    | nil => ext <;> simp [mulVec]
    | cons a as ih =>
      rw [List.map_cons, List.sum_cons, ih, List.sum_cons, List.length_cons]
      ext <;> simp [mulVec] <;> ring
  unfold centre
  rw [e, ha, List.length_map, smul_add, smul_smul, inv_mul_cancel₀ hn, one_smul]
  ext <;> simp [mulVec]

theorem cross_eq_mulVec (w v : Vec3 ℝ) :
    w.cross v = mulVec !![0, -w.z, w.y; w.z, 0, -w.x; -w.y, w.x, 0] v := by
  ext <;> simp [mulVec, Vec3.cross] <;> ring

/-- C56: for a rigidly rotated, translated, rotating and translating reference configuration that is
not coplanar, the Eckart angular velocity is defined and is the angular velocity. -/
theorem C56_rigid {sqrtm : Mat → Mat} (hs : PrincipalRoot sqrtm) (ref0 inst : Coll) (mass : ℝ)
    (h : Compatible ref0 inst mass) (ref : Coll) (href : construct ref0 = .ok ref)
    (hcop : NotCoplanar ref.pos) (Q : Mat) (hQ : Q.transpose * Q = 1) (t v0 w : Vec3 ℝ)
    (hr : inst.pos = ref.pos.map fun a => mulVec Q a + t)
    (hv : inst.vel = ref.pos.map fun a => v0 + w.cross (mulVec Q a)) :
    getEckartAngularVelocityVector sqrtm ref inst = .ok w := by
  have hframe := C47_rigid hs ref0 inst mass h ref href hcop Q hQ t hr
  obtain ⟨ref', h1, h2, h3, h4⟩ := construct_eq h.refMass h.pos h.nonempty h.velocities
  rw [href] at h1
  obtain rfl := Except.ok.inj h1
  have hsum0 : ref.pos.sum = 0 := by
    rw [h2]; exact sum_centred _ (by simp [pos, h.nonempty])
  have hrne : ref.pos ≠ [] := by
    intro h0
    have := congrArg List.length h0
    simp [pos, h4, h.nonempty] at this
  have hine : inst.positions ≠ [] := by
    intro h0
    have := h.count
    rw [h0] at this
    exact h.nonempty (List.length_eq_zero_iff.1 this.symm)
  have hlen : inst.pos.length = ref.pos.length := by rw [hr]; simp
  have hvlen : inst.velocities.length = inst.positions.length := by
    have e1 := congrArg List.length hv
    have e2 := hlen
    simp only [vel, pos, List.length_map] at e1 e2
    omega
  have hcs : getEckartFrameEquilibriumPositions sqrtm ref inst = .ok (ref.pos.map (mulVec Q)) := by
    unfold getEckartFrameEquilibriumPositions
    rw [hframe]
    simp only
    congr 1
    apply List.map_congr_left
    intro a _
    ext <;> simp [column, mulVec, comp]
  unfold getEckartAngularVelocityVector getEckartMomentOfInertiaTensor
  rw [hcs]
  simp only
  rw [getCenterOfMass_eq inst h.instMass h.pos hine, hr, centre_rigid _ hrne hsum0, ← hr]
  simp only
  obtain ⟨J, hJ, hJw⟩ := momentLoop_eq inst h.instMass t inst.pos (ref.pos.map (mulVec Q)) 0 0
    (by rw [hlen]; simp) (by simp [pos])
  have hJw' : ∀ u, mulVec J u =
      ((ref.pos.map (mulVec Q)).map fun c => mass • (c.dot c • u - c.dot u • c)).sum := by
    intro u
    rw [hJw, mulVec_zero, zero_add, hr, List.zip_map', List.map_map, List.map_map]
    congr 1
    apply List.map_congr_left
    intro a _
    simp only [Function.comp_apply, add_sub_cancel_right]
  rw [hJ]
  simp only
  have hcv : centre inst.vel = v0 := by
    have : inst.vel = ref.pos.map fun a =>
        mulVec (!![0, -w.z, w.y; w.z, 0, -w.x; -w.y, w.x, 0] * Q) a + v0 := by
      rw [hv]
      apply List.map_congr_left
      intro a _
      rw [cross_eq_mulVec, mulVec_mul, add_comm]
    rw [this, centre_rigid _ hrne hsum0]
  rw [getCenterOfMassVelocity_eq inst h.instMass h.pos hine hvlen, hcv]
  simp only
  rw [angularLoop_eq inst h.instMass v0 _ inst.vel 0 0 (by rw [hv]; simp)
    (by rw [List.length_map, ← hlen]; simp [pos])]
  simp only
  have hdet : J.det ≠ 0 := by
    apply det_ne_zero
    intro u hu
    rw [hJw'] at hu
    exact inertia_injective h.pos _ (notCollinear_rotated hcop.notCollinear hQ) u hu
  rw [if_neg hdet]
  have hrhs : 0 + (((ref.pos.map (mulVec Q)).zip inst.vel).map fun p => mass • p.1.cross (p.2 - v0)).sum =
      mulVec J w := by
    rw [hJw', zero_add, hv, List.zip_map', List.map_map, List.map_map]
    congr 1
    apply List.map_congr_left
    intro a _
    simp only [Function.comp_apply, add_sub_cancel_left]
    congr 1
    ext <;> simp only [Vec3.cross, Vec3.dot, Vec3.sub_x, Vec3.sub_y, Vec3.sub_z, Vec3.smul_x,
      Vec3.smul_y, Vec3.smul_z] <;> ring
  rw [hrhs, mulVec_mul, Matrix.nonsing_inv_mul _ (isUnit_iff_ne_zero.2 hdet), mulVec_one]

/-! ## Shape descriptors -/

/-- `x ≤ y ≤ z` are the eigenvalues of `S`, with multiplicity. -/
def SortedEigenvalues (S : Mat) (x y z : ℝ) : Prop :=
  x ≤ y ∧ y ≤ z ∧ S.charpoly = (Polynomial.X - Polynomial.C x) * (Polynomial.X - Polynomial.C y) *
    (Polynomial.X - Polynomial.C z)

/-- C58: the squared radius of gyration computed from the eigenvalues is the mean squared distance to
the centre; asphericity and acylindricity are not negative; the relative shape anisotropy is between
zero and one, and is one exactly if the two smaller eigenvalues vanish, zero exactly if all
eigenvalues agree. -/
theorem C58_shape (ps : List (Vec3 ℝ)) (hne : ps ≠ []) (x y z : ℝ)
    (h : SortedEigenvalues (gyration ps) x y z) :
    0 ≤ x ∧
    radiusOfGyrationSquared x y z = (ps.map fun p => (p - centre ps).dot (p - centre ps)).sum / ps.length ∧
    0 ≤ asphericity x y z ∧ 0 ≤ acylindricity x y z ∧
    (radiusOfGyrationSquared x y z ≠ 0 →
      0 ≤ relativeShapeAnisotropy x y z ∧ relativeShapeAnisotropy x y z ≤ 1 ∧
      (relativeShapeAnisotropy x y z = 1 ↔ x = 0 ∧ y = 0) ∧
      (relativeShapeAnisotropy x y z = 0 ↔ x = y ∧ y = z)) := by
  obtain ⟨hxy, hyz, hch⟩ := h
  have hx0 : 0 ≤ x := by
    have hdet : (Matrix.scalar (Fin 3) x - gyration ps).det = 0 := by
      rw [← Matrix.eval_charpoly, hch]; simp
    obtain ⟨u, hu, he⟩ := Matrix.exists_mulVec_eq_zero_iff.2 hdet
    have hq := C46_gyration_posSemidef ps u
    have e : ∀ m, ∑ n, gyration ps m n * u n = x * u m := by
      intro m
      have := congrFun he m
      rw [Matrix.sub_mulVec, Pi.sub_apply, Pi.zero_apply, sub_eq_zero] at this
      have e2 : (Matrix.scalar (Fin 3) x).mulVec u m = x * u m := by
        simp [Matrix.scalar_apply, Matrix.mulVec_diagonal]
      rw [e2] at this
      exact this.symm
    have e3 : ∑ m, ∑ n, u m * gyration ps m n * u n = x * ∑ m, u m * u m := by
      rw [Finset.mul_sum]
      apply Finset.sum_congr rfl
      intro m _
      rw [show x * (u m * u m) = u m * (x * u m) by ring, ← e m, Finset.mul_sum]
      apply Finset.sum_congr rfl
      intro n _
      ring
    rw [e3] at hq
    have hpos : 0 < ∑ m, u m * u m := by
      obtain ⟨i, hi⟩ := Function.ne_iff.1 hu
      exact Finset.sum_pos' (fun m _ => mul_self_nonneg _)
        ⟨i, Finset.mem_univ i, mul_self_pos.2 hi⟩
    exact nonneg_of_mul_nonneg_left hq hpos
  have hn : (ps.length : ℝ) ≠ 0 := Nat.cast_ne_zero.2 (by simpa using hne)
  have htr : (gyration ps).trace = x + y + z := by
    rw [Matrix.trace_eq_neg_charpoly_coeff, hch]
    have : (Polynomial.X - Polynomial.C x) * (Polynomial.X - Polynomial.C y) *
        (Polynomial.X - Polynomial.C z) = Polynomial.X ^ 3 - Polynomial.C (x + y + z) * Polynomial.X ^ 2 +
          Polynomial.C (x * y + x * z + y * z) * Polynomial.X - Polynomial.C (x * y * z) := by
      simp only [Polynomial.C_add, Polynomial.C_mul]
      ring
    rw [this]
    simp [Polynomial.coeff_X, Polynomial.coeff_C, Polynomial.coeff_X_pow, -map_add]
  have hcentre : (ps.length : ℝ) • centre ps = ps.sum := by
    unfold centre
    rw [smul_smul, mul_inv_cancel₀ hn, one_smul]
  refine ⟨hx0, ?_, ?_, ?_, ?_⟩
  · unfold radiusOfGyrationSquared
    rw [← htr, C46_gyration_trace ps hne (centre ps) hcentre]
    unfold Vec3.getLengthSquared
    ring
  · unfold asphericity
    norm_num
    linarith
  · unfold acylindricity
    linarith
  · intro hR
    have hR' : 0 < (x + y + z) * (x + y + z) := mul_self_pos.2 hR
    have hform : relativeShapeAnisotropy x y z =
        1 - 3 * (x * y + y * z + x * z) / ((x + y + z) * (x + y + z)) := by
      unfold relativeShapeAnisotropy asphericity acylindricity radiusOfGyrationSquared
      rw [eq_sub_iff_add_eq, ← add_div, div_eq_one_iff_eq hR'.ne']
      ring
    have hform2 : relativeShapeAnisotropy x y z =
        ((z - y) ^ 2 + (y - x) ^ 2 + (z - x) ^ 2) / 2 / ((x + y + z) * (x + y + z)) := by
      unfold relativeShapeAnisotropy asphericity acylindricity radiusOfGyrationSquared
      congr 1
      ring
    have hy0 : 0 ≤ y := hx0.trans hxy
    have hz0 : 0 ≤ z := hy0.trans hyz
    have hz1 : 0 < z := by
      rcases hz0.eq_or_lt with h | h
      · exfalso
        have hy : y = 0 := by linarith
        have hx : x = 0 := by linarith
        rw [← h, hy, hx] at hR'
        simp at hR'
      · exact h
    refine ⟨?_, ?_, ?_, ?_⟩
    · rw [hform2]; positivity
    · rw [hform]
      have : 0 ≤ 3 * (x * y + y * z + x * z) / ((x + y + z) * (x + y + z)) := by positivity
      linarith
    · rw [hform]
      constructor
      · intro h
        have h0 : 3 * (x * y + y * z + x * z) / ((x + y + z) * (x + y + z)) = 0 := by linarith
        rcases div_eq_zero_iff.1 h0 with h1 | h1
        · have e1 : 0 ≤ x * y := mul_nonneg hx0 hy0
          have e2 : 0 ≤ y * z := mul_nonneg hy0 hz0
          have e3 : 0 ≤ x * z := mul_nonneg hx0 hz0
          have e4 : x * z = 0 := by linarith
          have e5 : y * z = 0 := by linarith
          exact ⟨(mul_eq_zero.1 e4).resolve_right hz1.ne', (mul_eq_zero.1 e5).resolve_right hz1.ne'⟩
        · exact absurd h1 hR'.ne'
      · rintro ⟨rfl, rfl⟩
        simp
    · rw [hform2]
      constructor
      · intro h
        rcases div_eq_zero_iff.1 h with h1 | h1
        · have e1 : (y - x) ^ 2 = 0 := by
            nlinarith [sq_nonneg (z - y), sq_nonneg (y - x), sq_nonneg (z - x)]
          have e2 : (z - y) ^ 2 = 0 := by
            nlinarith [sq_nonneg (z - y), sq_nonneg (y - x), sq_nonneg (z - x)]
          have e3 := pow_eq_zero_iff (two_ne_zero) |>.1 e1
          have e4 := pow_eq_zero_iff (two_ne_zero) |>.1 e2
          exact ⟨by linarith, by linarith⟩
        · exact absurd h1 hR'.ne'
      · rintro ⟨rfl, rfl⟩
        simp

/-! ## The hypotheses can be met -/

/-- Six particles on the coordinate axes, in motion. -/
noncomputable def octahedron : Coll :=
  { heap := fun n => [(⟨1, 0, 0⟩ : Vec3 ℝ), ⟨-1, 0, 0⟩, ⟨0, 1, 0⟩, ⟨0, -1, 0⟩, ⟨0, 0, 1⟩, ⟨0, 0, -1⟩,
      ⟨0, 1, 0⟩, ⟨0, -1, 0⟩, ⟨-1, 0, 0⟩, ⟨1, 0, 0⟩, 0, 0].getD n 0
    positions := [0, 1, 2, 3, 4, 5]
    velocities := [6, 7, 8, 9, 10, 11]
    uniformMass := some 1
    gyrationTensor := none }

theorem octahedron_pos : octahedron.pos =
    [⟨1, 0, 0⟩, ⟨-1, 0, 0⟩, ⟨0, 1, 0⟩, ⟨0, -1, 0⟩, ⟨0, 0, 1⟩, ⟨0, 0, -1⟩] := by
  simp [pos, octahedron]

theorem octahedron_notCoplanar : NotCoplanar octahedron.pos := by
  rw [octahedron_pos]
  intro u hu
  by_contra hall
  simp only [not_exists, not_and, not_not] at hall
  apply hu
  have hx := hall ⟨1, 0, 0⟩ (by simp)
  have hy := hall ⟨0, 1, 0⟩ (by simp)
  have hz := hall ⟨0, 0, 1⟩ (by simp)
  simp [Vec3.dot] at hx hy hz
  ext
  · exact hx
  · exact hy
  · exact hz

/-- C47, C56: a reference configuration and an instantaneous configuration, rotating about the third
axis, meeting all hypotheses. -/
example : ∃ sqrtm ref, PrincipalRoot sqrtm ∧ Compatible octahedron octahedron 1 ∧
    construct octahedron = .ok ref ∧ NotCoplanar ref.pos ∧
    getEckartFrame sqrtm ref octahedron = .ok (column 1) ∧
    getEckartAngularVelocityVector sqrtm ref octahedron = .ok ⟨0, 0, 1⟩ := by
  obtain ⟨sqrtm, hs⟩ := exists_principalRoot
  have hc : Compatible octahedron octahedron 1 :=
    ⟨by norm_num, rfl, rfl, by simp [octahedron], by simp [octahedron], rfl⟩
  obtain ⟨ref, h1, h2, h3, h4⟩ := construct_eq hc.refMass hc.pos hc.nonempty hc.velocities
  have hcentre : centre octahedron.pos = 0 := by
    rw [octahedron_pos]
    unfold centre
    ext <;> simp
  have hpos : ref.pos = octahedron.pos := by
    rw [h2, hcentre]
    simp
  have hcop : NotCoplanar ref.pos := by rw [hpos]; exact octahedron_notCoplanar
  refine ⟨sqrtm, ref, hs, hc, h1, hcop, ?_, ?_⟩
  · refine C47_rigid hs octahedron octahedron 1 hc ref h1 hcop 1 (by simp) 0 ?_
    rw [hpos]
    simp [mulVec_one]
  · refine C56_rigid hs octahedron octahedron 1 hc ref h1 hcop 1 (by simp) 0 0 ⟨0, 0, 1⟩ ?_ ?_
    · rw [hpos]
      simp [mulVec_one]
    · rw [hpos, octahedron_pos]
      simp [vel, octahedron, mulVec_one, Vec3.cross, Vec3.ext_iff]

/-- C57: the same particles meet the hypotheses. -/
example : octahedron.getCenterOfMass = .ok 0 ∧ NotCollinear octahedron.pos ∧
    octahedron.vel = octahedron.pos.map fun p => 0 + Vec3.cross ⟨0, 0, 1⟩ p := by
  refine ⟨?_, octahedron_notCoplanar.notCollinear, ?_⟩
  · rw [getCenterOfMass_eq octahedron (mass := 1) rfl (by norm_num) (by simp [octahedron]),
      octahedron_pos]
    unfold centre
    congr 1
    ext <;> simp
  · rw [octahedron_pos]
    simp [vel, octahedron, Vec3.cross, Vec3.ext_iff]

/-- C58: two particles on one line. -/
example : SortedEigenvalues (gyration [⟨1, 0, 0⟩, ⟨-1, 0, 0⟩]) 0 0 1 := by
  have hg : gyration [⟨1, 0, 0⟩, ⟨-1, 0, 0⟩] = Matrix.diagonal ![1, 0, 0] := by
    ext i j
    rw [C46_gyration_definition]
    fin_cases i <;> fin_cases j <;> (simp [comp, Matrix.diagonal]; try norm_num)
  refine ⟨le_refl _, by norm_num, ?_⟩
  rw [hg, Matrix.charpoly_diagonal, Fin.prod_univ_three]
  simp
  ring

end OpenMPCD.Particles
