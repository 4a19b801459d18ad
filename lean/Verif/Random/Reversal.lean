import Verif.Random.Liouville
import Verif.Collide.Symmetry

/-!
# Reversibility (C103)

Without thermostat, a run is undone by performing its steps in reverse order, with reversed velocities, rotation axes and
shear.
-/

set_option linter.unusedSectionVars false
set_option linter.unusedSimpArgs false

namespace OpenMPCD.Collide

/-! ## Specification -/

/-- The particle with its velocity reversed. -/
def Particle.turned (p : Particle) : Particle := { p with vel := -p.vel }

/-- The random numbers with rotations in the opposite direction. -/
def Randomness.turned (R : Randomness) : Randomness := { R with axes := fun c => -R.axes c }

/-- The opposite shear. -/
def Params.turned (P : Params) : Params := { P with shearRate := -P.shearRate }

/-- The particles are the same: positions, velocities and masses. -/
def Same (ps qs : List Particle) : Prop :=
  ps.map (fun p => (p.pos, p.vel, p.mass)) = qs.map fun p => (p.pos, p.vel, p.mass)

/-- Steps in which the collision takes place before the streaming. -/
inductive BackSteps (P : Params) (dt : ℝ) :
    List Randomness → ℝ × CellData × List Particle → ℝ × CellData × List Particle → Prop
  | nil (s) : BackSteps P dt [] s s
  | cons {Rs s' t d ps d' ps'} (R : Randomness) (hc : Collide P R t d ps d' ps')
      (h : BackSteps P dt Rs (t + dt, d', ps'.map (streamSimple dt)) s') : BackSteps P dt (R :: Rs) (t, d, ps) s'

end OpenMPCD.Collide

namespace OpenMPCD.Random.Phase

open OpenMPCD.Collide

variable {N : ℕ} {P : Params} {R : Randomness} {t : ℝ} {m : Fin N → ℝ}

theorem cellVel_eq_comVel (c : Fin N → ℕ) (m : Fin N → ℝ) (w : Coords N) (k : ℕ) :
    cellVel c m w k = comVel ((List.finRange N).filter fun j => c j = k) m (vecAt w) := by
  unfold cellVel cellMass cellMomentum comVel
  rw [← sum_ite_filter, ← sum_ite_filter, Fin.sum_univ_def, Fin.sum_univ_def]

theorem cellVel_mix (hm : ∀ i, 0 < m i) (c : Fin N → ℕ) (axes : ℕ → Vec3 ℝ) (θ : ℝ) (s : ℕ → ℝ) (w : Coords N) (i : Fin N) :
    cellVel c m (mix c m axes θ s w) (c i) = cellVel c m w (c i) := by
  have hM : (((List.finRange N).filter fun j => c j = c i).map m).sum ≠ 0 :=
    (sum_pos_of_mem (fun j _ => hm j) (List.ne_nil_of_mem (a := i) (by simp))).ne'
  rw [cellVel_eq_comVel, cellVel_eq_comVel]
  refine Eq.trans ?_ (comVel_new (v := vecAt w) (axes (c i)) θ (s (c i)) hM)
  conv_lhs => unfold comVel
  conv_rhs => unfold comVel
  congr 2
  refine List.map_congr_left fun j hj => ?_
  have hj : c j = c i := by simpa using hj
  rw [vecAt_mix, hj, cellVel_eq_comVel]
  rfl

theorem cppRotate_neg {a : Vec3 ℝ} (ha : a.getLength = 1) (u : Vec3 ℝ) (θ : ℝ) :
    (u.cppRotate a θ).cppRotate (-a) θ = u := by
  have h1 := Vec3.C11_inverse ha u θ (Vec3.rotated_eq ha u θ)
  rw [Vec3.rotated_eq ha] at h1
  have h2 := Except.ok.inj h1
  rw [← h2]
  have h3 : ∀ v : Vec3 ℝ, v.cppRotate (-a) θ = v.cppRotate a (-θ) := by
    intro v
    ext <;> simp [Vec3.cppRotate, Vec3.rotateCS, Vec3.dot, Vec3.cross] <;> ring
  rw [h3, h2, h2]

theorem mix_neg (hm : ∀ i, 0 < m i) {c : Fin N → ℕ} {axes : ℕ → Vec3 ℝ} (haxis : ∀ i, (axes (c i)).getLength = 1) (θ : ℝ)
    (w : Coords N) : mix c m (fun k => -axes k) θ (fun _ => 1) (mix c m axes θ (fun _ => 1) w) = w := by
  apply coords_ext
  intro i
  rw [vecAt_mix, cellVel_mix hm, vecAt_mix]
  unfold newVel
  rw [add_sub_cancel_right, one_smul, one_smul, cppRotate_neg (haxis i), sub_add_cancel]

theorem cells_turned (shift : Vec3 ℝ) (x : Coords N) : cells P.turned shift (-t) x = cells P shift t x := by
  funext i
  unfold cells
  rw [posCell_eq, posCell_eq]
  simp only [Params.turned, neg_mul, mul_neg, neg_neg]

theorem layers_turned (shift : Vec3 ℝ) (x : Coords N) : layers P.turned shift (-t) x = -layers P shift t x := by
  funext q
  obtain ⟨i, k⟩ := q
  rw [Pi.neg_apply]
  unfold layers ofVec posLayer layerVelocity hostImage
  fin_cases k <;> simp [Params.turned]

theorem turn_turned (hP : P.Valid) (hm : ∀ i, 0 < m i) (shift : Vec3 ℝ) (axes : ℕ → Vec3 ℝ)
    (haxis : ∀ c < P.cellCount, (axes c).getLength = 1) (x v : Coords N) :
    turn P.turned shift (fun c => -axes c) (-t) m x (-turn P shift axes t m x v) = -v := by
  unfold turn
  rw [cells_turned, layers_turned]
  have e : -(mix (cells P shift t x) m axes P.srdCollisionAngle (fun _ => 1) (v + layers P shift t x) - layers P shift t x) +
      -layers P shift t x =
      -(mix (cells P shift t x) m axes P.srdCollisionAngle (fun _ => 1) (v + layers P shift t x)) := by abel
  rw [e, map_neg]
  have h := mix_neg hm (c := cells P shift t x) (axes := axes) (fun i => haxis _ (cellOf_lt hP _ _ _)) P.srdCollisionAngle
    (v + layers P shift t x)
  have e' : P.turned.srdCollisionAngle = P.srdCollisionAngle := rfl
  rw [e', h]
  abel

theorem Represents.turned {x v : Coords N} {ps : List Particle} (h : Represents m x v ps) :
    Represents m x (-v) (ps.map Particle.turned) := by
  unfold Represents at h ⊢
  have e : (ps.map Particle.turned).map (fun p => (p.pos, p.vel, p.mass)) =
      (ps.map fun p => (p.pos, p.vel, p.mass)).map fun q => (q.1, -q.2.1, q.2.2) := by
    rw [List.map_map, List.map_map]
    rfl
  rw [e, h, List.map_ofFn]
  refine congrArg List.ofFn (funext fun i => ?_)
  simp only [Function.comp]
  rfl

theorem Represents.same {x v : Coords N} {ps qs : List Particle} (h : Represents m x v ps) (hs : Same ps qs) :
    Represents m x v qs := by
  unfold Represents at h ⊢
  rw [← hs, h]

theorem same_of {x v : Coords N} {ps qs : List Particle} (h : Represents m x v ps) (h' : Represents m x v qs) :
    Same ps qs := by
  unfold Represents at h h'
  unfold Same
  rw [h, h']

/-- All particles can be given by coordinates. -/
theorem exists_coords (ps : List Particle) : ∃ (m : Fin ps.length → ℝ) (x v : Coords ps.length), Represents m x v ps := by
  refine ⟨fun i => (ps.get i).mass, ofVec fun i => (ps.get i).pos, ofVec fun i => (ps.get i).vel, ?_⟩
  unfold Represents
  simp only [vecAt_ofVec]
  conv_lhs => rw [← List.ofFn_get ps, List.map_ofFn]
  rfl

end OpenMPCD.Random.Phase

namespace OpenMPCD.Collide

open OpenMPCD.Random.Phase

theorem Same.masses {ps qs : List Particle} (h : Same ps qs) (hm : ∀ p ∈ qs, 0 < p.mass) : ∀ p ∈ ps, 0 < p.mass := by
  intro p hp
  have : (p.pos, p.vel, p.mass) ∈ qs.map fun p => (p.pos, p.vel, p.mass) := by
    rw [← h]
    exact List.mem_map_of_mem hp
  obtain ⟨q, hq, e⟩ := List.mem_map.1 this
  have e : q.mass = p.mass := (Prod.mk.inj (Prod.mk.inj e).2).2
  rw [← e]
  exact hm q hq

/-- C103: without thermostat, a collision is undone by the collision with reversed velocities, axes and shear. -/
theorem C103_undo_collision {P : Params} {R : Randomness} {t : ℝ} {d d' e e' : CellData} {ps ps' qs qs' : List Particle}
    (hP : P.Valid) (hT : P.bulkThermostatTargetkT = 0) (hm : ∀ p ∈ ps, 0 < p.mass)
    (haxis : ∀ c < P.cellCount, (R.axes c).getLength = 1) (hd : d.Initial) (he : e.Initial)
    (h : Collide P R t d ps d' ps') (hq : Same qs (ps'.map Particle.turned))
    (h' : Collide P.turned R.turned (-t) e qs e' qs') : Same qs' (ps.map Particle.turned) := by
  obtain ⟨m, x, v, hr⟩ := exists_coords ps
  have hm' : ∀ i, 0 < m i := by
    intro i
    have : (vecAt x i, vecAt v i, m i) ∈ ps.map fun p => (p.pos, p.vel, p.mass) := by
      rw [hr]
      exact (List.mem_ofFn ..).2 ⟨i, rfl⟩
    obtain ⟨p, hp, e⟩ := List.mem_map.1 this
    have e : p.mass = m i := (Prod.mk.inj (Prod.mk.inj e).2).2
    rw [← e]
    exact hm p hp
  have h1 := (collisionMap_represents hP hT hr hd h).turned.same hq.symm
  have hP' : P.turned.Valid := ⟨hP.1, hP.2, hP.3, hP.4⟩
  have h2 := collisionMap_represents (P := P.turned) (R := R.turned) hP' hT h1 he h'
  have e1 : (collisionMap P.turned R.turned (-t) m
      ((collisionMap P R t m (x, v)).1, -(collisionMap P R t m (x, v)).2)).2 = -v :=
    turn_turned hP hm' R.gridShift R.axes haxis x v
  rw [e1] at h2
  exact same_of h2 hr.turned

theorem Same.stream {ps qs : List Particle} (dt : ℝ) (h : Same ps qs) :
    Same (ps.map (streamSimple dt)) (qs.map (streamSimple dt)) := by
  unfold Same at h ⊢
  have e : ∀ ps : List Particle, (ps.map (streamSimple dt)).map (fun p => (p.pos, p.vel, p.mass)) =
      (ps.map fun p => (p.pos, p.vel, p.mass)).map fun q => (q.1 + dt • q.2.1, q.2) := by
    intro ps
    rw [List.map_map, List.map_map]
    rfl
  rw [e, e, h]

/-- Streaming is undone by streaming with reversed velocities. -/
theorem stream_turned (dt : ℝ) (ps : List Particle) :
    ((ps.map (streamSimple dt)).map Particle.turned).map (streamSimple dt) = ps.map Particle.turned := by
  rw [List.map_map, List.map_map]
  refine List.map_congr_left fun p _ => ?_
  simp only [Function.comp, streamSimple, Particle.turned, smul_neg, add_neg_cancel_right]

theorem backSteps_append {P : Params} {dt : ℝ} {Rs : List Randomness} {R : Randomness}
    {s s' : ℝ × CellData × List Particle} (h : BackSteps P dt (Rs ++ [R]) s s') :
    ∃ t d ps d' ps', BackSteps P dt Rs s (t, d, ps) ∧ Collide P R t d ps d' ps' ∧
      s' = (t + dt, d', ps'.map (streamSimple dt)) := by
  induction Rs generalizing s with
  | nil =>
    cases h with
    | cons _ hc h =>
      cases h
      exact ⟨_, _, _, _, _, .nil _, hc, rfl⟩
  | cons R' Rs ih =>
    cases h with
    | cons _ hc h =>
      obtain ⟨t, d, ps, d', ps', h1, h2, h3⟩ := ih h
      exact ⟨t, d, ps, d', ps', .cons R' hc h1, h2, h3⟩

/-- C103: without thermostat, a run is undone: performing its steps in reverse order, starting with the velocities reversed,
and with reversed rotation axes, shear and time, leads back to the particles at the start, with velocities reversed. -/
theorem C103_reversal {P : Params} {dt t : ℝ} {Rs : List Randomness} {d e : CellData} {ps qs : List Particle}
    {s s' : ℝ × CellData × List Particle} (hP : P.Valid) (hT : P.bulkThermostatTargetkT = 0)
    (hm : ∀ p ∈ ps, 0 < p.mass) (haxis : ∀ R ∈ Rs, ∀ c < P.cellCount, (R.axes c).getLength = 1)
    (hd : d.Initial) (he : e.Initial) (h : Steps P dt Rs (t, d, ps) s) (hq : Same qs (s.2.2.map Particle.turned))
    (h' : BackSteps P.turned dt (Rs.map Randomness.turned).reverse (-s.1, e, qs) s') :
    s'.1 = -t ∧ Same s'.2.2 (ps.map Particle.turned) := by
  suffices s'.1 = -t ∧ s'.2.1.Initial ∧ Same s'.2.2 (ps.map Particle.turned) from ⟨this.1, this.2.2⟩
  induction Rs generalizing t d ps s' with
  | nil =>
    cases h
    cases h'
    exact ⟨rfl, he, hq⟩
  | cons R Rs ih =>
    rw [List.map_cons, List.reverse_cons] at h'
    obtain ⟨t₁, e₁, qs₁, e₂, qs₂, h1, h2, rfl⟩ := backSteps_append h'
    cases h with
    | cons _ hc h =>
      have hm' : ∀ p ∈ ps.map (streamSimple dt), 0 < p.mass := by
        intro p hp
        obtain ⟨q, hq, rfl⟩ := List.mem_map.1 hp
        exact hm q hq
      obtain ⟨i1, i2, i3⟩ := ih (masses_of_collide hP hm' hc) (fun R' hR' => haxis R' (List.mem_cons_of_mem _ hR'))
        (C13_initial hT hd hc) h h1
      simp only at i1 i2 i3
      subst i1
      have j := C103_undo_collision hP hT hm' (haxis R (List.mem_cons_self ..)) hd i2 hc i3 h2
      refine ⟨by simp only; ring, C13_initial (P := P.turned) hT i2 h2, ?_⟩
      have j := j.stream dt
      rw [stream_turned] at j
      exact j

/-- There are such steps. -/
theorem backSteps_exist (P : Params) (dt : ℝ) (Rs : List Randomness) (s : ℝ × CellData × List Particle) :
    ∃ s', BackSteps P dt Rs s s' := by
  induction Rs generalizing s with
  | nil => exact ⟨s, .nil s⟩
  | cons R Rs ih =>
    obtain ⟨t, d, ps⟩ := s
    obtain ⟨d', ps', hc⟩ := C16_exists P R t d ps
    obtain ⟨s', h⟩ := ih (t + dt, d', ps'.map (streamSimple dt))
    exact ⟨s', .cons R hc h⟩

/-- A run with shear, and its reversal, with a rotation axis of length 1. -/
example (n : ℕ) : ∃ (P : Params) (ps : List Particle) (d : CellData) (Rs : List Randomness)
    (s s' : ℝ × CellData × List Particle), P.Valid ∧ P.shearRate ≠ 0 ∧ P.bulkThermostatTargetkT = 0 ∧ ps ≠ [] ∧
      (∀ p ∈ ps, 0 < p.mass) ∧ Rs.length = n ∧ (∀ R ∈ Rs, ∀ c, (R.axes c).getLength = 1) ∧ d.Initial ∧
      Steps P 1 Rs (0, d, ps) s ∧
      BackSteps P.turned 1 (Rs.map Randomness.turned).reverse (-s.1, d, s.2.2.map Particle.turned) s' := by
  let P : Params := ⟨2, 2, 2, 1, 2, 0⟩
  let ps : List Particle := [⟨0, 0, 1, 0, 0⟩]
  let d : CellData := ⟨fun _ => 0, fun _ => 0, fun _ => 0, fun _ => 0, fun _ => 1⟩
  let Rs : List Randomness := List.replicate n ⟨0, fun _ => ⟨0, 0, 1⟩, fun _ _ _ => 0⟩
  obtain ⟨s, h⟩ := steps_exist P 1 Rs (0, d, ps)
  obtain ⟨s', h'⟩ := backSteps_exist P.turned 1 (Rs.map Randomness.turned).reverse (-s.1, d, s.2.2.map Particle.turned)
  refine ⟨P, ps, d, Rs, s, s', ⟨by norm_num [P], by norm_num [P], by norm_num [P], by norm_num [P]⟩, by norm_num [P], rfl,
    by simp [ps], by simp [ps], by simp [Rs], ?_, fun _ => rfl, h, h'⟩
  intro R hR c
  rw [List.eq_of_mem_replicate hR]
  simp [Vec3.getLength, Vec3.getLengthSquared, Vec3.dot]

end OpenMPCD.Collide
