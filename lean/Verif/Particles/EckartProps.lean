import Verif.Particles.Eckart
import Mathlib.Analysis.Matrix.Order
import Mathlib.Analysis.Calculus.Deriv.Mul
import Mathlib.Analysis.Calculus.Deriv.Add

/-!
# C47 and C56: rigid motion and angular velocity of the Eckart frame
-/

set_option linter.unusedSimpArgs false
set_option linter.unusedSectionVars false

namespace OpenMPCD.Particles

open Coll

/-- There is a function meeting the contract of `scipy.linalg.sqrtm`. -/
theorem exists_principalRoot : ∃ sqrtm, PrincipalRoot sqrtm := by
  classical
  have : ∀ A : Mat, ∃ B : Mat, A.PosSemidef → B.PosSemidef ∧ B * B = A := by
    intro A
    by_cases h : A.PosSemidef
    · open scoped MatrixOrder in
      exact ⟨CFC.sqrt A, fun h => ⟨Matrix.nonneg_iff_posSemidef.1 (CFC.sqrt_nonneg A), CFC.sqrt_mul_sqrt_self A h.nonneg⟩⟩
    · exact ⟨0, fun h' => absurd h' h⟩
  choose f hf using this
  exact ⟨f, hf⟩

/-! ## Rigid motion -/

/-- Mass-weighted second moments of a list of positions. -/
noncomputable def moments (mass : ℝ) (as : List (Vec3 ℝ)) : Mat :=
  Matrix.of fun i j => (as.map fun a => mass * (comp a i * comp a j)).sum

theorem moments_quad (mass : ℝ) (as : List (Vec3 ℝ)) (u : Fin 3 → ℝ) :
    dotProduct u ((moments mass as).mulVec u) =
      (as.map fun a => mass * (u 0 * comp a 0 + u 1 * comp a 1 + u 2 * comp a 2) ^ 2).sum := by
  simp only [dotProduct, Matrix.mulVec, Fin.sum_univ_three, moments, Matrix.of_apply]
  induction as with
  | nil => simp
  | cons a as ih =>
    simp only [List.map_cons, List.sum_cons]
    rw [← ih]
    ring

theorem moments_posSemidef {mass : ℝ} (hm : 0 < mass) (as : List (Vec3 ℝ)) :
    (moments mass as).PosSemidef := by
  refine Matrix.PosSemidef.of_dotProduct_mulVec_nonneg ?_ ?_
  · ext i j
    simp only [Matrix.conjTranspose_apply, moments, Matrix.of_apply, star_trivial]
    congr 1
    apply List.map_congr_left
    intro a _
    ring
  · intro u
    have := moments_quad mass as u
    rw [star_trivial, this]
    apply List.sum_nonneg
    intro x hx
    obtain ⟨a, -, rfl⟩ := List.mem_map.1 hx
    positivity

/-- The positions lie in no plane through the origin. -/
def NotCoplanar (as : List (Vec3 ℝ)) : Prop := ∀ u : Vec3 ℝ, u ≠ 0 → ∃ a ∈ as, u.dot a ≠ 0

theorem moments_det {mass : ℝ} (hm : 0 < mass) {as : List (Vec3 ℝ)} (h : NotCoplanar as) :
    (moments mass as).det ≠ 0 := by
  have : (moments mass as).PosDef := by
    refine Matrix.PosDef.of_dotProduct_mulVec_pos (moments_posSemidef hm as).isHermitian ?_
    intro u hu
    rw [star_trivial, moments_quad]
    obtain ⟨a, ha, hne⟩ := h ⟨u 0, u 1, u 2⟩ (by
      intro h0
      apply hu
      have h0x : u 0 = 0 := congrArg Vec3.x h0
      have h0y : u 1 = 0 := congrArg Vec3.y h0
      have h0z : u 2 = 0 := congrArg Vec3.z h0
      funext i
      fin_cases i
      · exact h0x
      · exact h0y
      · exact h0z)
    have hnn : ∀ x ∈ as.map (fun a => mass * (u 0 * comp a 0 + u 1 * comp a 1 + u 2 * comp a 2) ^ 2),
        0 ≤ x := by
      intro x hx
      obtain ⟨a, -, rfl⟩ := List.mem_map.1 hx
      positivity
    refine lt_of_lt_of_le ?_ (List.single_le_sum hnn _ (List.mem_map.2 ⟨a, ha, rfl⟩))
    have : (u 0 * comp a 0 + u 1 * comp a 1 + u 2 * comp a 2) ≠ 0 := hne
    positivity
  exact this.det_pos.ne'

theorem eckart_rigid (mass : ℝ) (as : List (Vec3 ℝ)) (Q : Mat) :
    ofColumns (eckartSum mass (as.map (mulVec Q)) as) = Q * moments mass as := by
  ext i k
  rw [Matrix.mul_apply, Fin.sum_univ_three]
  simp only [ofColumns, eckartSum, moments, Matrix.of_apply]
  induction as with
  | nil => simp [comp_zero]
  | cons a as ih =>
    simp only [List.map_cons, List.zip_cons_cons, List.sum_cons, comp_add]
    rw [ih]
    fin_cases i <;> simp [comp, mulVec] <;> ring

/-- C47: if the instantaneous configuration is the reference configuration, rotated (or reflected) by
an orthogonal matrix `Q` and translated by `t`, the Eckart frame consists of the columns of `Q`; it is
defined if the reference positions are not coplanar. -/
theorem C47_rigid {sqrtm : Mat → Mat} (hs : PrincipalRoot sqrtm) (ref0 inst : Coll) (mass : ℝ)
    (h : Compatible ref0 inst mass) (ref : Coll) (href : construct ref0 = .ok ref)
    (hcop : NotCoplanar ref.pos) (Q : Mat) (hQ : Q.transpose * Q = 1) (t : Vec3 ℝ)
    (hr : inst.pos = ref.pos.map fun a => mulVec Q a + t) :
    getEckartFrame sqrtm ref inst = .ok (column Q) := by
  obtain ⟨ref', h1, h2, h3, h4⟩ := construct_eq h.refMass h.pos h.nonempty h.velocities
  rw [href] at h1
  obtain rfl := Except.ok.inj h1
  set F := eckartSum mass inst.pos ref.pos with hFdef
  have hF : getEckartVectors ref inst = .ok F :=
    getEckartVectors_eq ref inst h3 h.instMass (h.count.trans h4.symm)
  have hcol : ofColumns F = Q * moments mass ref.pos := by
    rw [← eckart_rigid]
    congr 1
    funext k
    rw [hFdef, hr]
    have := eckartSum_add mass (ref.pos.map (mulVec Q)) ref.pos t (by simp) (by
      rw [h2]; exact sum_centred _ (by simp [pos, h.nonempty])) k
    rw [List.map_map] at this
    exact this
  set S := moments mass ref.pos with hS
  have hSp : S.PosSemidef := moments_posSemidef h.pos _
  have hSt : S.transpose = S := transpose_of_posSemidef hSp
  have hSd : IsUnit S.det := isUnit_iff_ne_zero.2 (moments_det h.pos hcop)
  have hG : gram F = S * S := by
    rw [gram_eq, hcol, Matrix.transpose_mul, hSt, Matrix.mul_assoc, ← Matrix.mul_assoc _ Q S, hQ,
      Matrix.one_mul]
  have hGd : (gram F).det ≠ 0 := by
    rw [hG, Matrix.det_mul]
    exact mul_ne_zero hSd.ne_zero hSd.ne_zero
  obtain ⟨f, hf⟩ := (C47_frame_defined sqrtm ref inst F hF).2 hGd
  rw [hf]
  obtain ⟨F', R, hF', hfF, hp, hRR, hu⟩ := frame_spec hs ref inst f hf
  rw [hF] at hF'
  obtain rfl := Except.ok.inj hF'
  have hRd := (frame_algebra hRR hu).2.1
  have hRpd : R.PosDef := hp.posDef_iff_isUnit.2 ((Matrix.isUnit_iff_isUnit_det _).2 hRd)
  have hRS : R = S⁻¹ := by
    apply root_unique hRpd hSp.inv
    rw [hRR, hG, Matrix.mul_inv_rev]
  have : ofColumns f = Q := by
    rw [hfF, hcol, hRS, Matrix.mul_assoc, Matrix.mul_nonsing_inv _ hSd, Matrix.mul_one]
  congr 1
  funext k
  rw [← this]
  rfl

/-! ## Angular velocity -/

theorem sum_zip_range {α β M : Type*} [AddCommMonoid M] (l : List α) (l' : List β) (a : α) (b : β)
    (h : l.length = l'.length) (g : α → β → M) :
    ((l.zip l').map fun p => g p.1 p.2).sum =
      ∑ i ∈ Finset.range l.length, g (l.getD i a) (l'.getD i b) := by
  induction l generalizing l' with
  | nil => simp
  | cons x l ih =>
    obtain ⟨y, l', rfl⟩ := List.exists_cons_of_length_eq_add_one (h.symm.trans (List.length_cons ..))
    simp only [List.length_cons, Nat.add_right_cancel_iff] at h
    rw [List.length_cons, Finset.sum_range_succ']
    simp only [List.zip_cons_cons, List.map_cons, List.sum_cons, ih l' h, List.getD_cons_succ,
      List.getD_cons_zero]
    rw [add_comm]

theorem angularLoop_eq (inst : Coll) {mass : ℝ} (hm : inst.uniformMass = some mass) (u : Vec3 ℝ)
    (cs vs : List (Vec3 ℝ)) (i : ℕ) (rhs : Vec3 ℝ) (hlen : vs.length = cs.length)
    (hi : i + cs.length ≤ inst.positions.length) :
    angularLoop inst u i cs vs rhs =
      .ok (rhs + ((cs.zip vs).map fun p => mass • p.1.cross (p.2 - u)).sum) := by
  induction cs generalizing i vs rhs with
  | nil => simp [angularLoop]
  | cons c cs ih =>
    obtain ⟨v, vs, rfl⟩ := List.exists_cons_of_length_eq_add_one (hlen.trans (List.length_cons ..))
    simp only [List.length_cons, Nat.add_right_cancel_iff] at hlen hi
    have g1 : inst.getMass i = .ok mass := by
      unfold getMass getParticleCount; rw [if_neg (by omega), hm]
    rw [angularLoop]
    simp only [g1]
    rw [ih vs (i + 1) _ hlen (by omega)]
    simp only [List.zip_cons_cons, List.map_cons, List.sum_cons, add_assoc]

theorem mulVec_add (A B : Mat) (v : Vec3 ℝ) : mulVec (A + B) v = mulVec A v + mulVec B v := by
  ext <;> simp [mulVec] <;> ring

theorem mulVec_mul (A B : Mat) (v : Vec3 ℝ) : mulVec A (mulVec B v) = mulVec (A * B) v := by
  ext <;> simp [mulVec, Matrix.mul_apply, Fin.sum_univ_three] <;> ring

theorem mulVec_one (v : Vec3 ℝ) : mulVec 1 v = v := by
  ext <;> simp [mulVec, Matrix.one_apply]

theorem mulVec_zero (v : Vec3 ℝ) : mulVec 0 v = 0 := by
  ext <;> simp [mulVec]

theorem mulVec_moment (m : ℝ) (R c w : Vec3 ℝ) :
    mulVec (m • (R.dot c • (1 : Mat) - Matrix.of fun i j => comp R i * comp c j)) w =
      m • (R.dot c • w - c.dot w • R) := by
  ext <;> simp [mulVec, Matrix.one_apply, Vec3.dot, comp] <;> ring

theorem momentLoop_eq (inst : Coll) {mass : ℝ} (hm : inst.uniformMass = some mass) (u : Vec3 ℝ)
    (ps cs : List (Vec3 ℝ)) (i : ℕ) (J : Mat) (hlen : cs.length = ps.length)
    (hi : i + ps.length ≤ inst.positions.length) :
    ∃ J', momentLoop inst u i ps cs J = .ok J' ∧ ∀ w, mulVec J' w = mulVec J w +
      ((ps.zip cs).map fun p => mass • ((p.1 - u).dot p.2 • w - p.2.dot w • (p.1 - u))).sum := by
  induction ps generalizing i cs J with
  | nil => exact ⟨J, by simp [momentLoop]⟩
  | cons p ps ih =>
    obtain ⟨c, cs, rfl⟩ := List.exists_cons_of_length_eq_add_one (hlen.trans (List.length_cons ..))
    simp only [List.length_cons, Nat.add_right_cancel_iff] at hlen hi
    have g1 : inst.getMass i = .ok mass := by
      unfold getMass getParticleCount; rw [if_neg (by omega), hm]
    rw [momentLoop]
    simp only [g1]
    obtain ⟨J', e1, e2⟩ := ih cs (i + 1)
      (J + mass • ((p - u).dot c • (1 : Mat) - Matrix.of fun i j => comp (p - u) i * comp c j)) hlen
      (by omega)
    refine ⟨J', e1, fun w => ?_⟩
    rw [e2, mulVec_add, mulVec_moment]
    simp only [List.zip_cons_cons, List.map_cons, List.sum_cons, add_assoc]

/-! ### Derivatives of vectors -/

/-- `g` has the derivative `g'` at `t`. -/
def HasVecDeriv (g : ℝ → Vec3 ℝ) (g' : Vec3 ℝ) (t : ℝ) : Prop :=
  HasDerivAt (fun s => (g s).x) g'.x t ∧ HasDerivAt (fun s => (g s).y) g'.y t ∧
    HasDerivAt (fun s => (g s).z) g'.z t

theorem HasVecDeriv.add {g h : ℝ → Vec3 ℝ} {g' h' : Vec3 ℝ} {t : ℝ} (hg : HasVecDeriv g g' t)
    (hh : HasVecDeriv h h' t) : HasVecDeriv (fun s => g s + h s) (g' + h') t :=
  ⟨hg.1.add hh.1, hg.2.1.add hh.2.1, hg.2.2.add hh.2.2⟩

theorem HasVecDeriv.smul {g : ℝ → Vec3 ℝ} {g' : Vec3 ℝ} {t : ℝ} (c : ℝ) (hg : HasVecDeriv g g' t) :
    HasVecDeriv (fun s => c • g s) (c • g') t :=
  ⟨hg.1.mul_const c, hg.2.1.mul_const c, hg.2.2.mul_const c⟩

theorem HasVecDeriv.zero (t : ℝ) : HasVecDeriv (fun _ => 0) 0 t :=
  ⟨hasDerivAt_const t 0, hasDerivAt_const t 0, hasDerivAt_const t 0⟩

theorem HasVecDeriv.cross {g h : ℝ → Vec3 ℝ} {g' h' : Vec3 ℝ} {t : ℝ} (hg : HasVecDeriv g g' t)
    (hh : HasVecDeriv h h' t) :
    HasVecDeriv (fun s => (g s).cross (h s)) (g'.cross (h t) + (g t).cross h') t := by
  obtain ⟨gx, gy, gz⟩ := hg
  obtain ⟨hx, hy, hz⟩ := hh
  refine ⟨?_, ?_, ?_⟩
  · refine ((gy.mul hz).sub (gz.mul hy)).congr_deriv ?_
    simp [Vec3.cross]; ring
  · refine ((gz.mul hx).sub (gx.mul hz)).congr_deriv ?_
    simp [Vec3.cross]; ring
  · refine ((gx.mul hy).sub (gy.mul hx)).congr_deriv ?_
    simp [Vec3.cross]; ring

theorem HasVecDeriv.dot {g h : ℝ → Vec3 ℝ} {g' h' : Vec3 ℝ} {t : ℝ} (hg : HasVecDeriv g g' t)
    (hh : HasVecDeriv h h' t) :
    HasDerivAt (fun s => (g s).dot (h s)) (g'.dot (h t) + (g t).dot h') t := by
  obtain ⟨gx, gy, gz⟩ := hg
  obtain ⟨hx, hy, hz⟩ := hh
  refine (((gx.mul hx).add (gy.mul hy)).add (gz.mul hz)).congr_deriv ?_
  simp [Vec3.dot]; ring

theorem HasVecDeriv.sum {ι : Type*} (S : Finset ι) {g : ι → ℝ → Vec3 ℝ} {g' : ι → Vec3 ℝ} {t : ℝ}
    (h : ∀ i ∈ S, HasVecDeriv (g i) (g' i) t) :
    HasVecDeriv (fun s => ∑ i ∈ S, g i s) (∑ i ∈ S, g' i) t := by
  classical
  induction S using Finset.induction_on with
  | empty => simpa using HasVecDeriv.zero t
  | insert a S ha ih =>
    simp only [Finset.sum_insert ha]
    exact (h a (Finset.mem_insert_self a S)).add (ih fun i hi => h i (Finset.mem_insert_of_mem hi))

theorem HasVecDeriv.unique {g : ℝ → Vec3 ℝ} {g' h' : Vec3 ℝ} {t : ℝ} (hg : HasVecDeriv g g' t)
    (hh : HasVecDeriv g h' t) : g' = h' :=
  Vec3.ext (hg.1.unique hh.1) (hg.2.1.unique hh.2.1) (hg.2.2.unique hh.2.2)

theorem sum_cross {ι : Type*} (S : Finset ι) (g : ι → Vec3 ℝ) (u : Vec3 ℝ) :
    (∑ i ∈ S, g i).cross u = ∑ i ∈ S, (g i).cross u := by
  classical
  induction S using Finset.induction_on with
  | empty => ext <;> simp [Vec3.cross]
  | insert a S ha ih => rw [Finset.sum_insert ha, Finset.sum_insert ha, add_cross, ih]

theorem cross_finsum {ι : Type*} (S : Finset ι) (g : ι → Vec3 ℝ) (u : Vec3 ℝ) :
    u.cross (∑ i ∈ S, g i) = ∑ i ∈ S, u.cross (g i) := by
  classical
  induction S using Finset.induction_on with
  | empty => ext <;> simp [Vec3.cross]
  | insert a S ha ih => rw [Finset.sum_insert ha, Finset.sum_insert ha, cross_add, ih]

theorem sum_dot {ι : Type*} (S : Finset ι) (g : ι → Vec3 ℝ) (u : Vec3 ℝ) :
    (∑ i ∈ S, g i).dot u = ∑ i ∈ S, (g i).dot u := by
  classical
  induction S using Finset.induction_on with
  | empty => simp
  | insert a S ha ih => rw [Finset.sum_insert ha, Finset.sum_insert ha, Vec3.add_dot, ih]

/-! ### Orthonormal frames -/

theorem frame_complete {f : Fin 3 → Vec3 ℝ} (h : ∀ i j, (f i).dot (f j) = if i = j then 1 else 0)
    (u : Vec3 ℝ) : (f 0).dot u • f 0 + (f 1).dot u • f 1 + (f 2).dot u • f 2 = u := by
  have h1 : (ofColumns f).transpose * ofColumns f = 1 := by
    ext i j
    have : ((ofColumns f).transpose * ofColumns f) i j = (f i).dot (f j) := by
      rw [Matrix.mul_apply, Fin.sum_univ_three]; rfl
    rw [this, h, Matrix.one_apply]
  have h2 : ofColumns f * (ofColumns f).transpose = 1 := mul_eq_one_comm.1 h1
  have e : ∀ i j, comp (f 0) i * comp (f 0) j + comp (f 1) i * comp (f 1) j +
      comp (f 2) i * comp (f 2) j = if i = j then 1 else 0 := by
    intro i j
    have := congrFun (congrFun h2 i) j
    rw [Matrix.mul_apply, Fin.sum_univ_three, Matrix.one_apply] at this
    exact this
  have e00 := e 0 0
  have e01 := e 0 1
  have e02 := e 0 2
  have e11 := e 1 1
  have e12 := e 1 2
  have e22 := e 2 2
  simp [comp] at e00 e01 e02 e11 e12 e22
  ext <;> simp [Vec3.dot]
  · linear_combination u.x * e00 + u.y * e01 + u.z * e02
  · linear_combination u.x * e01 + u.y * e11 + u.z * e12
  · linear_combination u.x * e02 + u.y * e12 + u.z * e22

theorem cross_cross (a b c : Vec3 ℝ) : (a.cross b).cross c = a.dot c • b - b.dot c • a := by
  ext <;> simp [Vec3.cross, Vec3.dot] <;> ring

/-- The derivative of an orthonormal frame is a rotation. -/
theorem frame_deriv {f : ℝ → Fin 3 → Vec3 ℝ} {f' : Fin 3 → Vec3 ℝ} {t : ℝ}
    (h : ∀ s i j, (f s i).dot (f s j) = if i = j then 1 else 0)
    (hd : ∀ k, HasVecDeriv (fun s => f s k) (f' k) t) :
    ∃ w : Vec3 ℝ, ∀ k, f' k = w.cross (f t k) := by
  have anti : ∀ i j, (f' i).dot (f t j) = - (f t i).dot (f' j) := by
    intro i j
    have h1 := (hd i).dot (hd j)
    have h2 : HasDerivAt (fun s => (f s i).dot (f s j)) 0 t := by
      have : (fun s => (f s i).dot (f s j)) = fun _ => if i = j then (1 : ℝ) else 0 := by
        funext s; exact h s i j
      rw [this]
      exact hasDerivAt_const t _
    have := h1.unique h2
    linarith
  refine ⟨(1 / 2 : ℝ) • ((f t 0).cross (f' 0) + (f t 1).cross (f' 1) + (f t 2).cross (f' 2)), ?_⟩
  intro k
  have hc := frame_complete (h t) (f' k)
  rw [smul_cross, add_cross, add_cross, cross_cross, cross_cross, cross_cross, anti 0 k, anti 1 k,
    anti 2 k, h t 0 k, h t 1 k, h t 2 k]
  have hk : (if (0 : Fin 3) = k then (1 : ℝ) else 0) • f' 0 + (if (1 : Fin 3) = k then (1 : ℝ) else 0) • f' 1 +
      (if (2 : Fin 3) = k then (1 : ℝ) else 0) • f' 2 = f' k := by
    fin_cases k <;> simp
  calc f' k = (1 / 2 : ℝ) • (f' k + f' k) := by module
    _ = (1 / 2 : ℝ) • (((if (0 : Fin 3) = k then (1 : ℝ) else 0) • f' 0 +
          (if (1 : Fin 3) = k then (1 : ℝ) else 0) • f' 1 +
          (if (2 : Fin 3) = k then (1 : ℝ) else 0) • f' 2) +
          ((f t 0).dot (f' k) • f t 0 + (f t 1).dot (f' k) • f t 1 + (f t 2).dot (f' k) • f t 2)) := by
        rw [hk, hc]
    _ = _ := by module

/-! ### The angular velocity of the Eckart frame -/

/-- The sum `∑ mass * c` over the equilibrium positions in the Eckart frame vanishes. -/
theorem sum_equilibrium (as : List (Vec3 ℝ)) (ha : as.sum = 0) (f : Fin 3 → Vec3 ℝ) :
    (as.map fun a => ((0 + comp a 0 • f 0) + comp a 1 • f 1) + comp a 2 • f 2).sum = 0 := by
  have : (as.map fun a => ((0 + comp a 0 • f 0) + comp a 1 • f 1) + comp a 2 • f 2).sum =
      ((0 + comp as.sum 0 • f 0) + comp as.sum 1 • f 1) + comp as.sum 2 • f 2 := by
    clear ha
    induction as with
    | nil => simp [comp_zero]
    | cons a as ih =>
      rw [List.map_cons, List.sum_cons, ih, List.sum_cons, comp_add, comp_add, comp_add]
      module
  rw [this, ha]
  simp [comp_zero]

/-- C56: the Eckart angular velocity is the angular velocity of the Eckart frame: along every
differentiable trajectory of the instantaneous configuration, whenever the Eckart frame is defined
and differentiable, its derivative is the cross product of the returned vector and the frame. -/
theorem C56_angularVelocity {sqrtm : Mat → Mat} (hs : PrincipalRoot sqrtm) (ref0 : Coll)
    (inst : ℝ → Coll) (mass : ℝ) (h : ∀ t, Compatible ref0 (inst t) mass) (ref : Coll)
    (href : construct ref0 = .ok ref) (f : ℝ → Fin 3 → Vec3 ℝ)
    (hf : ∀ t, getEckartFrame sqrtm ref (inst t) = .ok (f t)) (t : ℝ)
    (hvel : (inst t).velocities.length = (inst t).positions.length)
    (hr : ∀ i < (inst t).positions.length,
      HasVecDeriv (fun s => (inst s).pos.getD i 0) ((inst t).vel.getD i 0) t)
    (f' : Fin 3 → Vec3 ℝ) (hd : ∀ k, HasVecDeriv (fun s => f s k) (f' k) t) (w : Vec3 ℝ)
    (hw : getEckartAngularVelocityVector sqrtm ref (inst t) = .ok w) (k : Fin 3) :
    f' k = w.cross (f t k) := by
  obtain ⟨ref', h1, h2, h3, h4⟩ :=
    construct_eq (h t).refMass (h t).pos (h t).nonempty (h t).velocities
  rw [href] at h1
  obtain rfl := Except.ok.inj h1
  obtain ⟨w0, hw0⟩ := frame_deriv (fun s => C47_orthonormal hs ref (inst s) (f s) (hf s)) hd
  suffices hww : w = w0 by rw [hww]; exact hw0 k
  -- the equilibrium positions
  set n := ref.pos.length with hn
  have hlen : ∀ s, (inst s).pos.length = n := by
    intro s
    simp [hn, pos, (h s).count, h4]
  have hvlen : (inst t).vel.length = n := by
    have := hlen t
    simp only [pos, List.length_map] at this
    simp [vel, hvel, this]
  set c : ℕ → ℝ → Vec3 ℝ := fun i s =>
    ((0 + comp (ref.pos.getD i 0) 0 • f s 0) + comp (ref.pos.getD i 0) 1 • f s 1) +
      comp (ref.pos.getD i 0) 2 • f s 2 with hc
  set cs : ℝ → List (Vec3 ℝ) := fun s => ref.pos.map fun a =>
      ((0 + comp a 0 • f s 0) + comp a 1 • f s 1) + comp a 2 • f s 2 with hcs
  have hcsn : ∀ s, (cs s).length = n := fun s => by simp [hcs, hn]
  have hget : ∀ s i, i < n → (cs s).getD i 0 = c i s := by
    intro s i hi
    simp only [hcs, hc, hn] at hi ⊢
    simp [List.getD_eq_getElem?_getD, List.getElem?_map, List.getElem?_eq_getElem hi]
  have hcseq : ∀ s, getEckartFrameEquilibriumPositions sqrtm ref (inst s) = .ok (cs s) := by
    intro s
    unfold getEckartFrameEquilibriumPositions
    rw [hf s]
  set r : ℕ → ℝ → Vec3 ℝ := fun i s => (inst s).pos.getD i 0 with hrdef
  set v : ℕ → Vec3 ℝ := fun i => (inst t).vel.getD i 0 with hvdef
  -- the Eckart condition at all times
  have hcond : ∀ s, ∑ i ∈ Finset.range n, mass • (c i s).cross (r i s) = 0 := by
    intro s
    have e := C47_condition hs ref0 (inst s) mass (h s) ref href (cs s) (hcseq s)
    rw [sum_zip_range (cs s) (inst s).pos 0 0 (by rw [hcsn, hlen])
      (fun a b => mass • a.cross b), hcsn] at e
    rw [← e]
    apply Finset.sum_congr rfl
    intro i hi
    rw [hget s i (Finset.mem_range.1 hi)]
  -- its derivative
  have hcd : ∀ i, HasVecDeriv (c i) (w0.cross (c i t)) t := by
    intro i
    have := (((HasVecDeriv.zero t).add ((hd 0).smul (comp (ref.pos.getD i 0) 0))).add
      ((hd 1).smul (comp (ref.pos.getD i 0) 1))).add ((hd 2).smul (comp (ref.pos.getD i 0) 2))
    have e : (0 + comp (ref.pos.getD i 0) 0 • f' 0 + comp (ref.pos.getD i 0) 1 • f' 1 +
        comp (ref.pos.getD i 0) 2 • f' 2) = w0.cross (c i t) := by
      simp only [hc, hw0, cross_add, cross_smul, zero_add]
    rw [e] at this
    exact this
  have hsum : ∑ i ∈ Finset.range n,
      mass • ((w0.cross (c i t)).cross (r i t) + (c i t).cross (v i)) = 0 := by
    have d1 := HasVecDeriv.sum (Finset.range n) (g := fun i s => mass • (c i s).cross (r i s))
      (g' := fun i => mass • ((w0.cross (c i t)).cross (r i t) + (c i t).cross (v i))) (t := t)
      (by
        intro i hi
        have hi' : i < (inst t).positions.length := by
          have := hlen t
          simp only [pos, List.length_map] at this
          rw [this]; exact Finset.mem_range.1 hi
        exact ((hcd i).cross (hr i hi')).smul mass)
    have d2 : HasVecDeriv (fun s => ∑ i ∈ Finset.range n, mass • (c i s).cross (r i s)) 0 t := by
      have : (fun s => ∑ i ∈ Finset.range n, mass • (c i s).cross (r i s)) = fun _ => 0 :=
        funext hcond
      rw [this]
      exact HasVecDeriv.zero t
    exact d1.unique d2
  have hc0 : ∑ i ∈ Finset.range n, c i t = 0 := by
    have e := sum_equilibrium ref.pos (by
      rw [h2]; exact sum_centred _ (by simp [pos, (h t).nonempty])) (f t)
    have e2 := sum_zip_range (cs t) (cs t) 0 0 rfl (fun a _ => a)
    rw [hcsn] at e2
    have e3 : ((cs t).zip (cs t)).map (fun p => p.1) = cs t := List.map_fst_zip (by omega)
    rw [e3] at e2
    rw [← e]
    refine Eq.trans (Finset.sum_congr rfl fun i hi => ?_) e2.symm
    rw [hget t i (Finset.mem_range.1 hi)]
  -- the result
  unfold getEckartAngularVelocityVector at hw
  rw [hcseq t] at hw
  simp only at hw
  have hposne : (inst t).positions ≠ [] := by
    intro h0
    have := (h t).count
    rw [h0] at this
    exact (h t).nonempty (List.length_eq_zero_iff.1 this.symm)
  unfold getEckartMomentOfInertiaTensor at hw
  rw [getCenterOfMass_eq (inst t) (h t).instMass (h t).pos hposne] at hw
  simp only at hw
  set u := centre (inst t).pos
  obtain ⟨J, hJ, hJw⟩ := momentLoop_eq (inst t) (h t).instMass u (inst t).pos (cs t) 0 0
    (by rw [hcsn, hlen]) (by simp [pos])
  rw [hJ] at hw
  simp only at hw
  cases hcv : (inst t).getCenterOfMassVelocity with
  | error e => rw [hcv] at hw; simp at hw
  | ok u' =>
    rw [hcv] at hw
    simp only at hw
    rw [angularLoop_eq (inst t) (h t).instMass u' (cs t) (inst t).vel 0 0 (by rw [hcsn, hvlen])
      (by have := hlen t; simp only [pos, List.length_map] at this; rw [hcsn, this]; omega)] at hw
    simp only at hw
    by_cases hdet : J.det = 0
    · rw [if_pos hdet] at hw; simp at hw
    rw [if_neg hdet] at hw
    have hu : IsUnit J.det := isUnit_iff_ne_zero.2 hdet
    rw [← Except.ok.inj hw]
    suffices hrhs : 0 + (((cs t).zip (inst t).vel).map fun p => mass • p.1.cross (p.2 - u')).sum =
        mulVec J w0 by
      rw [hrhs, mulVec_mul, Matrix.nonsing_inv_mul _ hu, mulVec_one]
    rw [hJw, mulVec_zero, zero_add, zero_add,
      sum_zip_range (cs t) (inst t).vel 0 0 (by rw [hcsn, hvlen]) (fun a b => mass • a.cross (b - u')),
      sum_zip_range (inst t).pos (cs t) 0 0 (by rw [hcsn, hlen])
        (fun p q => mass • ((p - u).dot q • w0 - q.dot w0 • (p - u))), hcsn, hlen]
    -- both sides, rewritten
    have L : ∑ i ∈ Finset.range n, mass • ((cs t).getD i 0).cross ((inst t).vel.getD i 0 - u') =
        ∑ i ∈ Finset.range n, mass • (c i t).cross (v i) -
          (mass • ∑ i ∈ Finset.range n, c i t).cross u' := by
      rw [Finset.smul_sum, sum_cross, ← Finset.sum_sub_distrib]
      apply Finset.sum_congr rfl
      intro i hi
      rw [hget t i (Finset.mem_range.1 hi)]
      ext <;> simp [Vec3.cross, hvdef] <;> ring
    have M : ∑ i ∈ Finset.range n, mass • (((inst t).pos.getD i 0 - u).dot ((cs t).getD i 0) • w0 -
          ((cs t).getD i 0).dot w0 • ((inst t).pos.getD i 0 - u)) =
        (∑ i ∈ Finset.range n, -(mass • (w0.cross (c i t)).cross (r i t))) +
          w0.cross (∑ i ∈ Finset.range n, mass • (c i t).cross (r i t)) -
          ((mass • ∑ i ∈ Finset.range n, c i t).dot u • w0 -
            (mass • ∑ i ∈ Finset.range n, c i t).dot w0 • u) := by
      rw [Finset.smul_sum, cross_finsum, sum_dot, sum_dot, Finset.sum_smul, Finset.sum_smul,
        ← Finset.sum_add_distrib, ← Finset.sum_sub_distrib, ← Finset.sum_sub_distrib]
      apply Finset.sum_congr rfl
      intro i hi
      rw [hget t i (Finset.mem_range.1 hi)]
      ext <;> simp [Vec3.cross, Vec3.dot, hrdef] <;> ring
    rw [L, M, hcond t, hc0]
    have key : ∑ i ∈ Finset.range n, mass • (c i t).cross (v i) =
        ∑ i ∈ Finset.range n, -(mass • (w0.cross (c i t)).cross (r i t)) := by
      have : ∑ i ∈ Finset.range n, (mass • (w0.cross (c i t)).cross (r i t) +
          mass • (c i t).cross (v i)) = 0 := by
        rw [← hsum]
        apply Finset.sum_congr rfl
        intro i _
        rw [smul_add]
      rw [Finset.sum_add_distrib] at this
      rw [Finset.sum_neg_distrib]
      exact eq_neg_of_add_eq_zero_right this
    rw [key]
    ext <;> simp [Vec3.cross, Vec3.dot]

end OpenMPCD.Particles
