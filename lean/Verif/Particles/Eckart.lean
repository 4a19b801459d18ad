import Verif.Particles.Model
import Verif.Particles.Props
import Mathlib.LinearAlgebra.Matrix.PosDef
import Mathlib.Algebra.Order.Star.Real
import Mathlib.Tactic.Module

/-!
# C47: `EckartSystem`
-/

set_option linter.unusedSimpArgs false
set_option linter.unusedSectionVars false

namespace OpenMPCD.Particles

open Coll

/-! ## Model -/

/-- The check at the beginning of the constructor (`Analysis/MPCDAnalysis/EckartSystem.py:35-39`). -/
def massesSet (s : Coll) : Bool :=
  (List.range s.getParticleCount).all fun i =>
    match s.getMass i with
    | .error _ => false
    | .ok _ => true

/-- The constructor (`Analysis/MPCDAnalysis/EckartSystem.py:14-43`): the stored reference
configuration. -/
noncomputable def construct (s : Coll) : Except PyErr Coll :=
  if massesSet s = false then .error .valueError
  else match s.shiftToCenterOfMassFrame with
    | (_, .error e) => .error e
    | (s', .ok ()) => .ok s'

open Classical in
/-- The loop of `getEckartVectors` (`Analysis/MPCDAnalysis/EckartSystem.py:123-133`), over the
instantaneous and the reference positions. -/
noncomputable def eckartLoop (ref inst : Coll) :
    ℕ → List (Vec3 ℝ) → List (Vec3 ℝ) → (Fin 3 → Vec3 ℝ) → Except PyErr (Fin 3 → Vec3 ℝ)
  | _, [], _, ret => .ok ret
  | _, _ :: _, [], _ => .error .indexError
  | i, r :: rs, a :: as, ret =>
    match inst.getMass i with
    | .error e => .error e
    | .ok mass =>
      match ref.getMass i with
      | .error e => .error e
      | .ok refMass =>
        if mass ≠ refMass then .error .valueError
        else eckartLoop ref inst (i + 1) rs as (fun coord => ret coord + (mass * comp a coord) • r)

/-- `getEckartVectors` (`Analysis/MPCDAnalysis/EckartSystem.py:81-136`). -/
noncomputable def getEckartVectors (ref inst : Coll) : Except PyErr (Fin 3 → Vec3 ℝ) :=
  if inst.getParticleCount ≠ ref.getParticleCount then .error .valueError
  else eckartLoop ref inst 0 inst.pos ref.pos (fun _ => 0)

/-- The matrix built in `getGramMatrix` (`Analysis/MPCDAnalysis/EckartSystem.py:175-184`). -/
def gram (F : Fin 3 → Vec3 ℝ) : Mat := fun i j => if i ≤ j then (F i).dot (F j) else (F j).dot (F i)

/-- `getGramMatrix` (`Analysis/MPCDAnalysis/EckartSystem.py:139-184`). -/
noncomputable def getGramMatrix (ref inst : Coll) : Except PyErr Mat :=
  match getEckartVectors ref inst with
  | .error e => .error e
  | .ok F => .ok (gram F)

/-- The vector in a column of a matrix (`Analysis/MPCDAnalysis/EckartSystem.py:233-235`). -/
def column (A : Mat) (k : Fin 3) : Vec3 ℝ := ⟨A 0 k, A 1 k, A 2 k⟩

open Classical in
/-- `getEckartFrame` with `_getGramMatrixInverseSquareRoot`
(`Analysis/MPCDAnalysis/EckartSystem.py:187-237,444-480`); `sqrtm` is `scipy.linalg.sqrtm`, and
`scipy.linalg.inv` raises for singular matrices. -/
noncomputable def getEckartFrame (sqrtm : Mat → Mat) (ref inst : Coll) :
    Except PyErr (Fin 3 → Vec3 ℝ) :=
  match getEckartVectors ref inst with
  | .error e => .error e
  | .ok ev =>
    let left : Mat := fun row k => comp (ev k) row
    if (gram ev).det = 0 then .error .exception
    else .ok (fun k => column (left * sqrtm (gram ev)⁻¹) k)

/-- `getEckartFrameEquilibriumPositions` (`Analysis/MPCDAnalysis/EckartSystem.py:240-283`). -/
noncomputable def getEckartFrameEquilibriumPositions (sqrtm : Mat → Mat) (ref inst : Coll) :
    Except PyErr (List (Vec3 ℝ)) :=
  match getEckartFrame sqrtm ref inst with
  | .error e => .error e
  | .ok f => .ok (ref.pos.map fun a =>
      ((0 + comp a 0 • f 0) + comp a 1 • f 1) + comp a 2 • f 2)

/-- The loop of `getEckartMomentOfInertiaTensor` (`Analysis/MPCDAnalysis/EckartSystem.py:356-368`). -/
noncomputable def momentLoop (inst : Coll) (centerOfMass : Vec3 ℝ) :
    ℕ → List (Vec3 ℝ) → List (Vec3 ℝ) → Mat → Except PyErr Mat
  | _, [], _, J => .ok J
  | _, _ :: _, [], _ => .error .indexError
  | alpha, p :: ps, c :: cs, J =>
    match inst.getMass alpha with
    | .error e => .error e
    | .ok m =>
      let R := p - centerOfMass
      momentLoop inst centerOfMass (alpha + 1) ps cs
        (J + m • (R.dot c • (1 : Mat) - Matrix.of fun i j => comp R i * comp c j))

/-- `getEckartMomentOfInertiaTensor` (`Analysis/MPCDAnalysis/EckartSystem.py:286-370`), for given
equilibrium positions. -/
noncomputable def getEckartMomentOfInertiaTensor (inst : Coll) (cs : List (Vec3 ℝ)) :
    Except PyErr Mat :=
  match inst.getCenterOfMass with
  | .error e => .error e
  | .ok centerOfMass => momentLoop inst centerOfMass 0 inst.pos cs 0

/-- The loop of `getEckartAngularVelocityVector` (`Analysis/MPCDAnalysis/EckartSystem.py:428-433`). -/
noncomputable def angularLoop (inst : Coll) (comVelocity : Vec3 ℝ) :
    ℕ → List (Vec3 ℝ) → List (Vec3 ℝ) → Vec3 ℝ → Except PyErr (Vec3 ℝ)
  | _, [], _, rhs => .ok rhs
  | _, _ :: _, [], _ => .error .indexError
  | alpha, c :: cs, v :: vs, rhs =>
    match inst.getMass alpha with
    | .error e => .error e
    | .ok m => angularLoop inst comVelocity (alpha + 1) cs vs
        (rhs + m • c.cross (v - comVelocity))

open Classical in
/-- `getEckartAngularVelocityVector` (`Analysis/MPCDAnalysis/EckartSystem.py:373-441`). -/
noncomputable def getEckartAngularVelocityVector (sqrtm : Mat → Mat) (ref inst : Coll) :
    Except PyErr (Vec3 ℝ) :=
  match getEckartFrameEquilibriumPositions sqrtm ref inst with
  | .error e => .error e
  | .ok cs =>
    match getEckartMomentOfInertiaTensor inst cs with
    | .error e => .error e
    | .ok J =>
      match inst.getCenterOfMassVelocity with
      | .error e => .error e
      | .ok comVelocity =>
        match angularLoop inst comVelocity 0 cs inst.vel 0 with
        | .error e => .error e
        | .ok rhs => if J.det = 0 then .error .exception else .ok (mulVec J⁻¹ rhs)

/-! ## Specification -/

/-- The contract of `scipy.linalg.sqrtm`: the principal square root of a positive semidefinite matrix. -/
def PrincipalRoot (sqrtm : Mat → Mat) : Prop :=
  ∀ A : Mat, A.PosSemidef → (sqrtm A).PosSemidef ∧ sqrtm A * sqrtm A = A

/-- A reference and an instantaneous configuration the documentation allows. -/
structure Compatible (ref0 inst : Coll) (mass : ℝ) : Prop where
  pos : 0 < mass
  refMass : ref0.uniformMass = some mass
  instMass : inst.uniformMass = some mass
  nonempty : ref0.positions ≠ []
  velocities : ref0.velocities.length = ref0.positions.length
  count : inst.positions.length = ref0.positions.length

/-! ## The constructor -/

theorem massesSet_of {s : Coll} {mass : ℝ} (hm : s.uniformMass = some mass) : massesSet s = true := by
  unfold massesSet
  rw [List.all_eq_true]
  intro i hi
  have : s.getMass i = .ok mass := by
    unfold getMass
    rw [if_neg (by have := List.mem_range.1 hi; omega), hm]
  rw [this]

theorem construct_eq {ref0 : Coll} {mass : ℝ} (hm : ref0.uniformMass = some mass) (hpos : 0 < mass)
    (hne : ref0.positions ≠ []) (hv : ref0.velocities.length = ref0.positions.length) :
    ∃ ref, construct ref0 = .ok ref ∧ ref.pos = ref0.pos.map (fun p => p - centre ref0.pos) ∧
      ref.uniformMass = some mass ∧ ref.positions.length = ref0.positions.length := by
  obtain ⟨h1, h2, -, h4⟩ := shift_eq ref0 hm hpos hne hv
  refine ⟨ref0.shiftToCenterOfMassFrame.1, ?_, h2, h4, ?_⟩
  · unfold construct
    rw [if_neg (by rw [massesSet_of hm]; simp)]
    have : ref0.shiftToCenterOfMassFrame = (ref0.shiftToCenterOfMassFrame.1, .ok ()) :=
      Prod.ext rfl h1
    rw [this]
  · have := congrArg List.length h2
    simpa [Coll.pos] using this

/-- C47 fails at the very beginning if the reference configuration has no velocities, which are not
needed for it and which the documentation does not ask for: the constructor raises. -/
theorem C47_construct_violated (ref0 : Coll) (mass : ℝ) (hm : ref0.uniformMass = some mass)
    (hpos : 0 < mass) (hne : ref0.positions ≠ []) (hv : ref0.velocities = []) :
    construct ref0 = .error .valueError := by
  unfold construct
  rw [if_neg (by rw [massesSet_of hm]; simp), C46_shift_violated ref0 mass hm hpos hne hv]

/-! ## Eckart vectors -/

/-- The Eckart vector `k`. -/
noncomputable def eckartSum (mass : ℝ) (rs as : List (Vec3 ℝ)) (k : Fin 3) : Vec3 ℝ :=
  ((rs.zip as).map fun ra => (mass * comp ra.2 k) • ra.1).sum

theorem eckartLoop_eq (ref inst : Coll) {mass : ℝ} (hr : ref.uniformMass = some mass)
    (hi : inst.uniformMass = some mass) (rs as : List (Vec3 ℝ)) (i : ℕ) (ret : Fin 3 → Vec3 ℝ)
    (hlen : as.length = rs.length) (h1 : i + rs.length ≤ inst.positions.length)
    (h2 : i + rs.length ≤ ref.positions.length) :
    eckartLoop ref inst i rs as ret = .ok (fun k => ret k + eckartSum mass rs as k) := by
  induction rs generalizing i as ret with
  | nil => simp [eckartLoop, eckartSum]
  | cons r rs ih =>
    obtain ⟨a, as, rfl⟩ := List.exists_cons_of_length_eq_add_one (hlen.trans (List.length_cons ..))
    simp only [List.length_cons, Nat.add_right_cancel_iff] at hlen h1 h2
    have g1 : inst.getMass i = .ok mass := by
      unfold getMass getParticleCount; rw [if_neg (by omega), hi]
    have g2 : ref.getMass i = .ok mass := by
      unfold getMass getParticleCount; rw [if_neg (by omega), hr]
    rw [eckartLoop]
    simp only [g1, g2]
    rw [if_neg (by simp), ih as (i + 1) _ hlen (by omega) (by omega)]
    congr 1
    funext k
    simp only [eckartSum, List.zip_cons_cons, List.map_cons, List.sum_cons, add_assoc]

theorem getEckartVectors_eq (ref inst : Coll) {mass : ℝ} (hr : ref.uniformMass = some mass)
    (hi : inst.uniformMass = some mass) (hc : inst.positions.length = ref.positions.length) :
    getEckartVectors ref inst = .ok (eckartSum mass inst.pos ref.pos) := by
  unfold getEckartVectors getParticleCount
  rw [if_neg (not_not.2 hc), eckartLoop_eq ref inst hr hi _ _ _ _ (by simp [pos, hc])
    (by simp [pos]) (by simp [pos, hc])]
  simp

/-- C47: the Eckart vectors are the ones of the documentation:
`∑ mass * (a_k - centre_k) * r`, for the reference positions `a` relative to their centre of mass. -/
theorem C47_vectors (ref0 inst : Coll) (mass : ℝ) (h : Compatible ref0 inst mass) :
    ∃ ref c, construct ref0 = .ok ref ∧ ref0.getCenterOfMass = .ok c ∧
      getEckartVectors ref inst = .ok (fun k =>
        ((inst.pos.zip ref0.pos).map fun ra => (mass * (comp ra.2 k - comp c k)) • ra.1).sum) := by
  obtain ⟨ref, h1, h2, h3, h4⟩ := construct_eq h.refMass h.pos h.nonempty h.velocities
  refine ⟨ref, _, h1, getCenterOfMass_eq ref0 h.refMass h.pos h.nonempty, ?_⟩
  rw [getEckartVectors_eq ref inst h3 h.instMass (h.count.trans h4.symm)]
  congr 1
  funext k
  unfold eckartSum
  rw [h2, List.zip_map_right, List.map_map]
  congr 1
  apply List.map_congr_left
  rintro ⟨r, a⟩ _
  simp [comp_sub]

theorem sum_zip_left {α : Type*} (f : Vec3 ℝ → Vec3 ℝ) (as : List (Vec3 ℝ)) (rs : List α)
    (h : rs.length = as.length) :
    ((rs.zip as).map fun ra => f ra.2).sum = (as.map f).sum := by
  have : (rs.zip as).map (fun ra => f ra.2) = as.map f := by
    have e : (rs.zip as).map (fun ra => f ra.2) = ((rs.zip as).map Prod.snd).map f := by
      rw [List.map_map]; rfl
    rw [e, List.map_snd_zip (by omega)]
  rw [this]

theorem sum_centred (l : List (Vec3 ℝ)) (hl : l ≠ []) :
    (l.map fun p => p - centre l).sum = 0 := by
  have hn : (l.length : ℝ) ≠ 0 := Nat.cast_ne_zero.2 (by simpa using hl)
  rw [sum_map_sub (fun p => p) (fun _ => centre l), sum_map_const, List.map_id']
  unfold centre
  rw [smul_smul, mul_inv_cancel₀ hn, one_smul, sub_self]

theorem eckartSum_add (mass : ℝ) (rs as : List (Vec3 ℝ)) (t : Vec3 ℝ) (h : rs.length = as.length)
    (ha : as.sum = 0) (k : Fin 3) :
    eckartSum mass (rs.map fun r => r + t) as k = eckartSum mass rs as k := by
  have e : eckartSum mass (rs.map fun r => r + t) as k = eckartSum mass rs as k +
      ((rs.zip as).map fun ra => (mass * comp ra.2 k) • t).sum := by
    unfold eckartSum
    rw [List.zip_map_left, List.map_map, ← List.sum_map_add]
    congr 1
    apply List.map_congr_left
    rintro ⟨r, a⟩ _
    simp [smul_add]
  have z : ((rs.zip as).map fun ra => (mass * comp ra.2 k) • t).sum =
      (mass * comp as.sum k) • t := by
    have := sum_zip_left (fun a => (mass * comp a k) • t) as rs h
    rw [this]
    clear this e ha h
    induction as with
    | nil => simp [comp_zero]
    | cons a as ih => simp only [List.map_cons, List.sum_cons, ih, comp_add, mul_add, add_smul]
  rw [e, z, ha, comp_zero, mul_zero, zero_smul, add_zero]

/-- C47: the Eckart vectors do not change when the instantaneous configuration is translated. -/
theorem C47_translation (ref0 inst inst' : Coll) (mass : ℝ) (h : Compatible ref0 inst mass)
    (t : Vec3 ℝ) (hm : inst'.uniformMass = some mass)
    (ht : inst'.pos = inst.pos.map (fun r => r + t)) :
    ∃ ref, construct ref0 = .ok ref ∧ getEckartVectors ref inst' = getEckartVectors ref inst := by
  obtain ⟨ref, h1, h2, h3, h4⟩ := construct_eq h.refMass h.pos h.nonempty h.velocities
  have hlen : inst'.positions.length = inst.positions.length := by
    have := congrArg List.length ht
    simpa [pos] using this
  refine ⟨ref, h1, ?_⟩
  rw [getEckartVectors_eq ref inst h3 h.instMass (h.count.trans h4.symm),
    getEckartVectors_eq ref inst' h3 hm (hlen.trans (h.count.trans h4.symm)), ht]
  congr 1
  funext k
  apply eckartSum_add
  · simp [pos, h.count, h4]
  · rw [h2]
    exact sum_centred _ (by simp [pos, h.nonempty])

/-! ## The Gram matrix -/

/-- The matrix with the given columns. -/
def ofColumns (F : Fin 3 → Vec3 ℝ) : Mat := fun i k => comp (F k) i

theorem gram_eq (F : Fin 3 → Vec3 ℝ) : gram F = (ofColumns F).transpose * ofColumns F := by
  ext i j
  have : gram F i j = (F i).dot (F j) := by
    unfold gram
    split
    · rfl
    · exact Vec3.dot_comm _ _
  rw [this, Matrix.mul_apply, Fin.sum_univ_three]
  rfl

theorem gram_posSemidef (F : Fin 3 → Vec3 ℝ) : (gram F).PosSemidef := by
  rw [gram_eq]
  have := Matrix.posSemidef_conjTranspose_mul_self (ofColumns F)
  rwa [Matrix.conjTranspose_eq_transpose_of_trivial] at this

/-- C47: the Gram matrix consists of the dot products of the Eckart vectors, and is symmetric and
positive semidefinite. -/
theorem C47_gram (ref inst : Coll) (F : Fin 3 → Vec3 ℝ) (hF : getEckartVectors ref inst = .ok F) :
    ∃ G, getGramMatrix ref inst = .ok G ∧ (∀ i j, G i j = (F i).dot (F j)) ∧ G.IsSymm ∧
      G.PosSemidef := by
  refine ⟨gram F, by unfold getGramMatrix; rw [hF], ?_, ?_, gram_posSemidef F⟩
  · intro i j
    unfold gram
    split
    · rfl
    · exact Vec3.dot_comm _ _
  · rw [gram_eq]
    exact Matrix.isSymm_transpose_mul_self _

/-! ## The frame -/

section frame
variable {sqrtm : Mat → Mat}

theorem ofColumns_column (A : Mat) : ofColumns (fun k => column A k) = A := by
  ext i k
  fin_cases i <;> rfl

/-- The frame is `F R` with `R` symmetric, invertible, `R G R = 1`. -/
theorem frame_spec (hs : PrincipalRoot sqrtm) (ref inst : Coll) (f : Fin 3 → Vec3 ℝ)
    (hf : getEckartFrame sqrtm ref inst = .ok f) :
    ∃ F R, getEckartVectors ref inst = .ok F ∧ ofColumns f = ofColumns F * R ∧
      R.PosSemidef ∧ R * R = (gram F)⁻¹ ∧ IsUnit (gram F).det := by
  unfold getEckartFrame at hf
  cases hF : getEckartVectors ref inst with
  | error e => rw [hF] at hf; simp at hf
  | ok F =>
    rw [hF] at hf
    simp only at hf
    by_cases hd : (gram F).det = 0
    · rw [if_pos hd] at hf; simp at hf
    · rw [if_neg hd] at hf
      have hu : IsUnit (gram F).det := isUnit_iff_ne_zero.2 hd
      obtain ⟨r1, r2⟩ := hs _ (gram_posSemidef F).inv
      refine ⟨F, sqrtm (gram F)⁻¹, rfl, ?_, r1, r2, hu⟩
      rw [← Except.ok.inj hf, ofColumns_column]
      rfl

theorem frame_algebra {F : Fin 3 → Vec3 ℝ} {R : Mat} (h2 : R * R = (gram F)⁻¹)
    (hu : IsUnit (gram F).det) :
    R * gram F * R = 1 ∧ IsUnit R.det ∧ gram F * R = R * gram F := by
  have hcomm : gram F * R = R * gram F := by
    have e1 : R * (gram F)⁻¹ = (gram F)⁻¹ * R := by rw [← h2, mul_assoc]
    calc gram F * R = gram F * R * ((gram F)⁻¹ * gram F) := by
          rw [Matrix.nonsing_inv_mul _ hu, mul_one]
      _ = gram F * (R * (gram F)⁻¹) * gram F := by simp only [mul_assoc]
      _ = gram F * ((gram F)⁻¹ * R) * gram F := by rw [e1]
      _ = (gram F * (gram F)⁻¹) * R * gram F := by simp only [mul_assoc]
      _ = R * gram F := by rw [Matrix.mul_nonsing_inv _ hu, one_mul]
  have hone : R * gram F * R = 1 := by
    rw [← hcomm, mul_assoc, h2, Matrix.mul_nonsing_inv _ hu]
  refine ⟨hone, ?_, hcomm⟩
  have := congrArg Matrix.det hone
  rw [Matrix.det_mul, Matrix.det_mul, Matrix.det_one] at this
  exact isUnit_iff_exists_inv.2 ⟨(gram F).det * R.det, by rw [← this]; ring⟩

theorem transpose_of_posSemidef {R : Mat} (h : R.PosSemidef) : R.transpose = R := by
  have := h.isHermitian
  rwa [Matrix.IsHermitian, Matrix.conjTranspose_eq_transpose_of_trivial] at this

/-- C47: the Eckart frame vectors are orthonormal. -/
theorem C47_orthonormal (hs : PrincipalRoot sqrtm) (ref inst : Coll) (f : Fin 3 → Vec3 ℝ)
    (hf : getEckartFrame sqrtm ref inst = .ok f) (i j : Fin 3) :
    (f i).dot (f j) = if i = j then 1 else 0 := by
  obtain ⟨F, R, -, h1, hp, h2, hu⟩ := frame_spec hs ref inst f hf
  have h3 := (frame_algebra h2 hu).1
  have h4 : (ofColumns f).transpose * ofColumns f = 1 := by
    rw [h1, Matrix.transpose_mul, transpose_of_posSemidef hp, Matrix.mul_assoc,
      ← Matrix.mul_assoc _ (ofColumns F) R, ← gram_eq, ← Matrix.mul_assoc, h3]
  have h5 : (f i).dot (f j) = ((ofColumns f).transpose * ofColumns f) i j := by
    rw [Matrix.mul_apply, Fin.sum_univ_three]
    rfl
  rw [h5, h4, Matrix.one_apply]

/-- C47: the frame exists exactly if the Gram matrix is invertible. -/
theorem C47_frame_defined (sqrtm : Mat → Mat) (ref inst : Coll) (F : Fin 3 → Vec3 ℝ)
    (hF : getEckartVectors ref inst = .ok F) :
    (∃ f, getEckartFrame sqrtm ref inst = .ok f) ↔ (gram F).det ≠ 0 := by
  unfold getEckartFrame
  rw [hF]
  simp only
  by_cases hd : (gram F).det = 0
  · rw [if_pos hd]; simp [hd]
  · rw [if_neg hd]; simp [hd]

/-! ### Eckart condition -/

theorem cross_sum_symm (f F : Fin 3 → Vec3 ℝ) (T : Mat) (hT : T.transpose = T)
    (h : ofColumns F = ofColumns f * T) :
    (f 0).cross (F 0) + (f 1).cross (F 1) + (f 2).cross (F 2) = 0 := by
  have hc : ∀ i k, comp (F k) i = comp (f 0) i * T 0 k + comp (f 1) i * T 1 k + comp (f 2) i * T 2 k := by
    intro i k
    have := congrFun (congrFun h i) k
    rw [Matrix.mul_apply, Fin.sum_univ_three] at this
    exact this
  have t01 : T 1 0 = T 0 1 := congrFun (congrFun hT 0) 1
  have t02 : T 2 0 = T 0 2 := congrFun (congrFun hT 0) 2
  have t12 : T 2 1 = T 1 2 := congrFun (congrFun hT 1) 2
  have x : ∀ k, (F k).x = (f 0).x * T 0 k + (f 1).x * T 1 k + (f 2).x * T 2 k := fun k => hc 0 k
  have y : ∀ k, (F k).y = (f 0).y * T 0 k + (f 1).y * T 1 k + (f 2).y * T 2 k := fun k => hc 1 k
  have z : ∀ k, (F k).z = (f 0).z * T 0 k + (f 1).z * T 1 k + (f 2).z * T 2 k := fun k => hc 2 k
  ext <;> simp [Vec3.cross, x, y, z, t01, t02, t12] <;> ring

theorem cross_add (u v w : Vec3 ℝ) : u.cross (v + w) = u.cross v + u.cross w := by
  ext <;> simp [Vec3.cross] <;> ring
theorem add_cross (u v w : Vec3 ℝ) : (u + v).cross w = u.cross w + v.cross w := by
  ext <;> simp [Vec3.cross] <;> ring
theorem smul_cross (c : ℝ) (u v : Vec3 ℝ) : (c • u).cross v = c • u.cross v := by
  ext <;> simp [Vec3.cross] <;> ring
theorem cross_smul (c : ℝ) (u v : Vec3 ℝ) : u.cross (c • v) = c • u.cross v := by
  ext <;> simp [Vec3.cross] <;> ring
theorem cross_sum (u : Vec3 ℝ) (l : List (Vec3 ℝ)) : u.cross l.sum = (l.map u.cross).sum := by
  induction l with
  | nil => ext <;> simp [Vec3.cross]
  | cons v l ih => rw [List.sum_cons, cross_add, ih, List.map_cons, List.sum_cons]

/-- C47: the Eckart condition: `∑ mass * c × r = 0` for the equilibrium positions `c` in the Eckart
frame and the instantaneous positions `r`. -/
theorem C47_condition (hs : PrincipalRoot sqrtm) (ref0 inst : Coll) (mass : ℝ) (h : Compatible ref0 inst mass) (ref : Coll)
    (href : construct ref0 = .ok ref) (cs : List (Vec3 ℝ))
    (hcs : getEckartFrameEquilibriumPositions sqrtm ref inst = .ok cs) :
    ((cs.zip inst.pos).map fun cr => mass • cr.1.cross cr.2).sum = 0 := by
  obtain ⟨ref', h1, h2, h3, h4⟩ := construct_eq h.refMass h.pos h.nonempty h.velocities
  rw [href] at h1
  obtain rfl := Except.ok.inj h1
  unfold getEckartFrameEquilibriumPositions at hcs
  cases hf : getEckartFrame sqrtm ref inst with
  | error e => rw [hf] at hcs; simp at hcs
  | ok f =>
    rw [hf] at hcs
    obtain ⟨F, R, hF, hfF, hp, hRR, hu⟩ := frame_spec hs ref inst f hf
    obtain ⟨hone, hRu, hcomm⟩ := frame_algebra hRR hu
    rw [getEckartVectors_eq ref inst h3 h.instMass (h.count.trans h4.symm)] at hF
    have hFk : ∀ k, F k = eckartSum mass inst.pos ref.pos k := fun k => by
      rw [← Except.ok.inj hF]
    have hT : (R⁻¹).transpose = R⁻¹ := by
      rw [Matrix.transpose_nonsing_inv, transpose_of_posSemidef hp]
    have hFf : ofColumns F = ofColumns f * R⁻¹ := by
      rw [hfF, Matrix.mul_assoc, Matrix.mul_nonsing_inv _ hRu, Matrix.mul_one]
    have hsum := cross_sum_symm f F R⁻¹ hT hFf
    rw [← hsum, ← Except.ok.inj hcs]
    have hl : inst.pos.length = ref.pos.length := by simp [pos, h.count, h4]
    simp only [hFk, eckartSum]
    generalize inst.pos = rs at hl
    generalize ref.pos = as at hl
    clear hsum hFf hFk hF hcs
    induction rs generalizing as with
    | nil =>
      have : as = [] := List.length_eq_zero_iff.1 hl.symm
      subst this
      ext <;> simp [Vec3.cross]
    | cons r rs ih =>
      obtain ⟨a, as, rfl⟩ := List.exists_cons_of_length_eq_add_one
        (hl.symm.trans (List.length_cons ..))
      simp only [List.length_cons, Nat.add_right_cancel_iff] at hl
      simp only [List.map_cons, List.zip_cons_cons, List.sum_cons]
      rw [ih as hl]
      simp only [zero_add, add_cross, cross_add, smul_cross, cross_smul, smul_add, smul_smul]
      module

/-! ### Rigid motion -/

/-- Positive definite square roots are unique. -/
theorem root_unique {A B : Mat} (hA : A.PosDef) (hB : B.PosSemidef) (h : A * A = B * B) : A = B := by
  have sA := transpose_of_posSemidef hA.posSemidef
  have sB := transpose_of_posSemidef hB
  set D := A - B with hD
  have sD : D.transpose = D := by rw [hD, Matrix.transpose_sub, sA, sB]
  have e : D * A + B * D = 0 := by
    rw [hD, sub_mul, mul_sub, h]; abel
  have e3 : D * (D * A + B * D) = 0 := by rw [e, mul_zero]
  have t1 : (D * A * D).trace + (D * B * D).trace = 0 := by
    rw [Matrix.trace_mul_comm (D * A) D, ← Matrix.trace_add, mul_assoc D B D, ← mul_add, e3]
    exact Matrix.trace_zero _ _
  have p1 : 0 ≤ (D * A * D).trace := by
    have := (hA.posSemidef.conjTranspose_mul_mul_same D).trace_nonneg
    rwa [Matrix.conjTranspose_eq_transpose_of_trivial, sD] at this
  have p2 : 0 ≤ (D * B * D).trace := by
    have := (hB.conjTranspose_mul_mul_same D).trace_nonneg
    rwa [Matrix.conjTranspose_eq_transpose_of_trivial, sD] at this
  have z1 : (D * A * D).trace = 0 := by linarith
  have hz : D = 0 := by
    by_contra hne
    obtain ⟨j, hj⟩ : ∃ j, (fun i => D i j) ≠ 0 := by
      by_contra hall
      simp only [not_exists, not_not] at hall
      exact hne (by ext i j; exact congrFun (hall j) i)
    have key : ∀ k, (D * A * D) k k = dotProduct (fun i => D i k) (A.mulVec fun i => D i k) := by
      intro k
      have : D * A * D = D.transpose * A * D := by rw [sD]
      rw [this]
      simp only [Matrix.mul_apply, Matrix.transpose_apply, dotProduct, Matrix.mulVec,
        Finset.sum_mul, Finset.mul_sum]
      rw [Finset.sum_comm]
      apply Finset.sum_congr rfl
      intro x _
      apply Finset.sum_congr rfl
      intro y _
      ring
    have nn : ∀ k, 0 ≤ (D * A * D) k k := by
      intro k
      rw [key]
      have := hA.posSemidef.dotProduct_mulVec_nonneg (fun i => D i k)
      simpa using this
    have pj : 0 < (D * A * D) j j := by
      rw [key]
      have := hA.dotProduct_mulVec_pos hj
      simpa using this
    have : 0 < (D * A * D).trace := by
      rw [Matrix.trace]
      exact Finset.sum_pos' (fun k _ => nn k) ⟨j, Finset.mem_univ j, pj⟩
    linarith
  exact sub_eq_zero.1 hz

end frame

end OpenMPCD.Particles
