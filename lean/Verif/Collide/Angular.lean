import Verif.Collide.Props
import Verif.Verlet.Angular

/-!
# Collisions do not conserve the angular momentum (C135)

The first sentence of `README.md` says so; streaming of simple fluids does.
-/

set_option linter.unusedSimpArgs false

namespace OpenMPCD.Collide

/-- Total angular momentum about the origin. -/
noncomputable def angularMomentum (ps : List Particle) : Vec3 ℝ :=
  (ps.map fun p => p.mass • Verlet.moment p.pos p.vel).sum

/-- C135: ballistic streaming conserves the angular momentum. -/
theorem C135_simple (timestep : ℝ) (ps : List Particle) :
    angularMomentum (ps.map (streamSimple timestep)) = angularMomentum ps := by
  unfold angularMomentum
  rw [List.map_map]
  congr 1
  refine List.map_congr_left fun p _ => ?_
  show p.mass • Verlet.moment (p.pos + timestep • p.vel) p.vel = _
  congr 1
  ext <;> simp [Verlet.moment] <;> ring

/-- C135: for every angle of rotation other than multiples of a full turn, there are particles and an axis such that a collision changes
the angular momentum, although it conserves momentum and energy. -/
theorem C135_collision {angle : ℝ} (ha : Real.cos angle ≠ 1) :
    ∃ (P : Params) (R : Randomness) (ps : List Particle), P.Valid ∧ P.srdCollisionAngle = angle ∧
      P.shearRate = 0 ∧ P.bulkThermostatTargetkT = 0 ∧ (∀ p ∈ ps, 0 < p.mass) ∧ (∀ c, (R.axes c).getLength = 1) ∧
      ∀ d d' ps', d.Initial → Collide P R 0 d ps d' ps' → angularMomentum ps' ≠ angularMomentum ps := by
  let P : Params := ⟨2, 2, 2, 0, angle, 0⟩
  let R : Randomness := ⟨0, fun _ => ⟨0, 0, 1⟩, fun _ _ _ => 1⟩
  let p : Particle := ⟨⟨0, 0, 0⟩, ⟨0, -1, 0⟩, 1, 0, 0⟩
  let q : Particle := ⟨⟨1/2, 0, 0⟩, ⟨0, 1, 0⟩, 1, 0, 0⟩
  have hin : ∀ x : ℝ, 0 ≤ x → x < 1 →
      hostImage (⟨x, 0, 0⟩ : Vec3 ℝ) 0 0 2 2 2 = (⟨x, 0, 0⟩, 0) := by
    intro x h0 h1
    apply C18_identity
    refine ⟨⟨h0, ?_⟩, ⟨le_refl _, ?_⟩, le_refl _, ?_⟩ <;> norm_num <;> linarith
  have hp : hostImage (p.pos + R.gridShift) 0 P.shearRate P.Lx P.Ly P.Lz = (⟨0, 0, 0⟩, 0) := by
    have := hin 0 (by norm_num) (by norm_num)
    have e : p.pos + R.gridShift = ⟨0, 0, 0⟩ := by ext <;> simp [p, R]
    rw [e]; exact this
  have hq : hostImage (q.pos + R.gridShift) 0 P.shearRate P.Lx P.Ly P.Lz = (⟨1/2, 0, 0⟩, 0) := by
    have := hin (1/2) (by norm_num) (by norm_num)
    have e : q.pos + R.gridShift = ⟨1/2, 0, 0⟩ := by ext <;> simp [q, R]
    rw [e]; exact this
  have cp : cellOf P R.gridShift 0 p = 0 := by
    unfold cellOf; rw [hp]; simp [getCollisionCellIndex]
  have cq : cellOf P R.gridShift 0 q = 0 := by
    unfold cellOf; rw [hq]
    have : ⌊(1/2 : ℝ)⌋₊ = 0 := Nat.floor_eq_zero.2 (by norm_num)
    simp only [getCollisionCellIndex, this]; simp
  have hmem : members P R.gridShift 0 0 [p, q] = [p, q] := by simp [members, cp, cq]
  have lp : layerVelocity P R.gridShift 0 p = 0 := by
    unfold layerVelocity; rw [hp]; rfl
  have lq : layerVelocity P R.gridShift 0 q = 0 := by
    unfold layerVelocity; rw [hq]; rfl
  have vp : imageVelocity P R.gridShift 0 p = ⟨0, -1, 0⟩ := by
    unfold imageVelocity; rw [lp]; ext <;> simp [p]
  have vq : imageVelocity P R.gridShift 0 q = ⟨0, 1, 0⟩ := by
    unfold imageVelocity; rw [lq]; ext <;> simp [q]
  refine ⟨P, R, [p, q], ⟨Nat.two_pos, Nat.two_pos, Nat.two_pos, by show 2 * 2 * 2 < 2 ^ 32; norm_num⟩, rfl, rfl, rfl, ?_, ?_, ?_⟩
  · intro x hx
    simp only [List.mem_cons, List.not_mem_nil, or_false] at hx
    rcases hx with rfl | rfl <;> norm_num [p, q]
  · intro c
    simp [R, Vec3.getLength, Vec3.getLengthSquared, Vec3.dot]
  · intro d d' ps' hd h heq
    have hP : P.Valid := ⟨Nat.two_pos, Nat.two_pos, Nat.two_pos, by show 2 * 2 * 2 < 2 ^ 32; norm_num⟩
    have hd' := C13_initial (P := P) rfl hd h
    have hrun : ¬ (P.srdCollisionAngle = 0 ∧ P.bulkThermostatTargetkT = 0) := by
      rintro ⟨h0, -⟩
      exact ha (by rw [show angle = 0 from h0, Real.cos_zero])
    have hV : centerOfMassVelocity (imageVelocity P R.gridShift 0) [p, q] = 0 := by
      simp only [centerOfMassVelocity, totalMass, momentum, List.map_cons, List.map_nil,
        List.sum_cons, List.sum_nil, vp, vq]
      ext <;> simp [p, q]
    rw [(collide_eq hP hrun h).2] at heq
    have hz := congrArg Vec3.z heq
    simp only [angularMomentum, List.map_cons, List.map_nil, List.sum_cons, List.sum_nil, outcome, cp, cq, hmem, hV, vp, vq,
      lp, lq, newVel, hd' 0] at hz
    simp [p, q, R, P, Verlet.moment, Vec3.cppRotate, Vec3.rotateCS, Vec3.dot, Vec3.cross] at hz
    exact ha hz

/-- The usual angle of 130 degrees meets the hypothesis. -/
example : Real.cos (130 / 180 * Real.pi) ≠ 1 := by
  have : Real.cos (130 / 180 * Real.pi) < 0 :=
    Real.cos_neg_of_pi_div_two_lt_of_lt (by linarith [Real.pi_pos]) (by linarith [Real.pi_pos])
  linarith

end OpenMPCD.Collide
