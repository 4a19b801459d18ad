import Verif.Star.Numbering
import Verif.Star.Energy
import Verif.Fluid.Mirror
import Mathlib.Analysis.SpecialFunctions.Trigonometric.Basic
import Mathlib.Analysis.SpecialFunctions.Complex.Log
import Mathlib.RingTheory.RootsOfUnity.Complex
import Mathlib.Algebra.BigOperators.Ring.Finset
import Mathlib.Tactic.LinearCombination

/-!
# The initial state of star polymers (C114)

Real numbers, exact. `StarPolymers.cu` is `src/OpenMPCD/CUDA/MPCSolute/StarPolymers.cu`.
-/

set_option linter.unusedSectionVars false
set_option linter.unusedSimpArgs false
set_option linter.unusedVariables false

namespace OpenMPCD.Star.Initial

open OpenMPCD.Mirror (setVec vecAt_setVec vecAt_setVec_ne)

/-! ## Model -/

/-- `angle` (`StarPolymers.cu:765-767,781-783`). -/
noncomputable def angle (g : Geometry) (arm : ℕ) : ℝ := 2 * Real.pi * arm / g.armCountPerStar

/-- The three values assigned to the coordinates of a particle in an arm (`StarPolymers.cu:772-774,788-790`). -/
noncomputable def onArm (g : Geometry) (arm distance : ℕ) : ℝ × ℝ × ℝ :=
  let beadToBeadDistance : ℝ := 1
  (Real.cos (angle g arm) * (distance * beadToBeadDistance),
   Real.sin (angle g arm) * (distance * beadToBeadDistance), 0)

/-- The body of the loop over the arms in `initializePositionsOnHost` (`StarPolymers.cu:755-791`), as the list of the
assignments to the coordinates of particles, in order; `star` is `0` (`StarPolymers.cu:752`). -/
noncomputable def armPositions (g : Geometry) (arm : ℕ) : List (ℕ × ℝ × ℝ × ℝ) :=
  (g.getCoreParticleID 0, 0, 0, 0) ::
    ((List.range g.particleCountPerArm).map fun pIA => (g.getArmParticleID 0 arm pIA, onArm g arm (pIA + 1))) ++
    (if g.hasMagneticParticles then [(g.getMagneticParticleID 0 arm, onArm g arm (g.particleCountPerArm + 1))] else [])

/-- Executing assignments. -/
def assign (memory : ℕ → ℝ) (writes : List (ℕ × ℝ × ℝ × ℝ)) : ℕ → ℝ :=
  writes.foldl (fun m w => setVec m w.1 w.2) memory

/-- `initializePositionsOnHost` (`StarPolymers.cu:740-793`): `h_positions` afterwards, `garbage` being its contents when
allocated; `none`: `UnimplementedException`, thrown only if `OPENMPCD_DEBUG` is defined. -/
noncomputable def initializePositionsOnHost (debug : Bool) (g : Geometry) (garbage : ℕ → ℝ) : Option (ℕ → ℝ) :=
  if debug = true ∧ g.starCount ≠ 1 then none
  else some (assign garbage ((List.range g.armCountPerStar).flatMap (armPositions g)))

/-- The body of the loop over the arms in `initializeVelocitiesOnHost` (`StarPolymers.cu:810-826`). -/
def armVelocities (g : Geometry) (star arm : ℕ) : List (ℕ × ℝ × ℝ × ℝ) :=
  ((List.range g.particleCountPerArm).map fun pIA => (g.getArmParticleID star arm pIA, 0, 0, 0)) ++
    (if g.hasMagneticParticles then [(g.getMagneticParticleID star arm, 0, 0, 0)] else [])

/-- The body of the loop over the stars in `initializeVelocitiesOnHost` (`StarPolymers.cu:802-827`). -/
def starVelocities (g : Geometry) (star : ℕ) : List (ℕ × ℝ × ℝ × ℝ) :=
  (g.getCoreParticleID star, 0, 0, 0) :: (List.range g.armCountPerStar).flatMap (armVelocities g star)

/-- `initializeVelocitiesOnHost` (`StarPolymers.cu:795-829`). -/
def initializeVelocitiesOnHost (g : Geometry) (garbage : ℕ → ℝ) : ℕ → ℝ :=
  assign garbage ((List.range g.starCount).flatMap (starVelocities g))

/-! ## Specification -/

/-- The distance of two points. -/
noncomputable def distance (u v : ℝ × ℝ × ℝ) : ℝ :=
  Real.sqrt ((u.1 - v.1) ^ 2 + (u.2.1 - v.2.1) ^ 2 + (u.2.2 - v.2.2) ^ 2)

/-- The arm of a place other than the core. -/
def _root_.OpenMPCD.Star.Place.armOf : Place → ℕ
  | .core _ => 0
  | .arm _ a _ => a
  | .magnetic _ a => a

/-- The planned shape: arm `a` of `A` arms points into the direction at `a / A` of a full turn in the `x`-`y` plane, and a
place that is `d` bonds away from the core is at distance `d`. -/
noncomputable def planned (g : Geometry) (p : Place) : ℝ × ℝ × ℝ :=
  (p.depth g * Real.cos (2 * Real.pi * (p.armOf / g.armCountPerStar)),
   p.depth g * Real.sin (2 * Real.pi * (p.armOf / g.armCountPerStar)), 0)

/-! ## Proofs -/

theorem vecAt_assign_other (memory : ℕ → ℝ) (ws : List (ℕ × ℝ × ℝ × ℝ)) (i : ℕ) (h : ∀ w ∈ ws, w.1 ≠ i) :
    Mirror.vecAt (assign memory ws) i = Mirror.vecAt memory i := by
  induction ws generalizing memory with
  | nil => rfl
  | cons w ws ih =>
    have e : assign memory (w :: ws) = assign (setVec memory w.1 w.2) ws := rfl
    rw [e, ih _ fun w' hw' => h w' (List.mem_cons_of_mem _ hw'), vecAt_setVec_ne _ _ (h w (by simp)).symm]

theorem vecAt_assign (memory : ℕ → ℝ) (ws : List (ℕ × ℝ × ℝ × ℝ)) (i : ℕ) (v : ℝ × ℝ × ℝ)
    (hall : ∀ w ∈ ws, w.1 = i → w.2 = v) (hsome : ∃ w ∈ ws, w.1 = i) :
    Mirror.vecAt (assign memory ws) i = v := by
  induction ws generalizing memory with
  | nil => simp at hsome
  | cons w ws ih =>
    have e : assign memory (w :: ws) = assign (setVec memory w.1 w.2) ws := rfl
    rw [e]
    by_cases hs : ∃ w ∈ ws, w.1 = i
    · exact ih _ (fun w' hw' => hall w' (List.mem_cons_of_mem _ hw')) hs
    · push Not at hs
      rw [vecAt_assign_other _ _ _ hs]
      obtain ⟨w', hw', hi⟩ := hsome
      rcases List.mem_cons.1 hw' with rfl | hw'
      · rw [← hi, vecAt_setVec]
        exact hall w' (by simp) hi
      · exact absurd hi (hs w' hw')

theorem onArm_eq (g : Geometry) (arm d : ℕ) :
    onArm g arm d = (d * Real.cos (2 * Real.pi * (arm / g.armCountPerStar)),
      d * Real.sin (2 * Real.pi * (arm / g.armCountPerStar)), 0) := by
  unfold onArm angle
  simp only [mul_one]
  rw [mul_div_assoc]
  ring_nf

/-- Every assignment is to the particle at a place of the first star. -/
theorem mem_positions {g : Geometry} (hg : 0 < g.starCount) {w : ℕ × ℝ × ℝ × ℝ} :
    w ∈ (List.range g.armCountPerStar).flatMap (armPositions g) ↔
      0 < g.armCountPerStar ∧ ∃ p : Place, p.Valid g ∧ p.star = 0 ∧ w = (p.id g, planned g p) := by
  rw [List.mem_flatMap]
  constructor
  · rintro ⟨a, ha, hw⟩
    rw [List.mem_range] at ha
    refine ⟨by omega, ?_⟩
    unfold armPositions at hw
    rw [List.mem_append, List.mem_cons, List.mem_map] at hw
    rcases hw with (rfl | ⟨k, hk, rfl⟩) | hw
    · exact ⟨.core 0, hg, rfl, by simp [Place.id, planned, Place.depth]⟩
    · rw [List.mem_range] at hk
      exact ⟨.arm 0 a k, ⟨hg, ha, hk⟩, rfl, by rw [onArm_eq]; simp [Place.id, planned, Place.depth, Place.armOf]⟩
    · split at hw
      · rename_i hm
        rw [List.mem_singleton] at hw
        subst hw
        exact ⟨.magnetic 0 a, ⟨hg, ha, hm⟩, rfl, by rw [onArm_eq]; simp [Place.id, planned, Place.depth, Place.armOf]⟩
      · simp at hw
  · rintro ⟨hA, p, hp, hs, rfl⟩
    cases p with
    | core s =>
      simp only [Place.star] at hs
      subst hs
      exact ⟨0, List.mem_range.2 hA, by simp [armPositions, Place.id, planned, Place.depth]⟩
    | arm s a k =>
      simp only [Place.star] at hs
      subst hs
      refine ⟨a, List.mem_range.2 hp.2.1, ?_⟩
      unfold armPositions
      rw [List.mem_append, List.mem_cons, List.mem_map]
      exact .inl (.inr ⟨k, List.mem_range.2 hp.2.2, by
        rw [onArm_eq]; simp [Place.id, planned, Place.depth, Place.armOf]⟩)
    | magnetic s a =>
      simp only [Place.star] at hs
      subst hs
      refine ⟨a, List.mem_range.2 hp.2.1, ?_⟩
      unfold armPositions
      rw [List.mem_append, if_pos hp.2.2]
      refine .inr ?_
      rw [onArm_eq]
      simp [Place.id, planned, Place.depth, Place.armOf]

/-- C114, positions (holds for one star with at least one arm): without and with `OPENMPCD_DEBUG`, every particle is at its
planned position, whatever the memory held. -/
theorem C114_positions_partial (debug : Bool) (g : Geometry) (h1 : g.starCount = 1) (hA : 0 < g.armCountPerStar)
    (garbage : ℕ → ℝ) :
    ∃ m, initializePositionsOnHost debug g garbage = some m ∧
      ∀ p : Place, p.Valid g → Mirror.vecAt m (p.id g) = planned g p := by
  refine ⟨_, by rw [initializePositionsOnHost, if_neg (by simp [h1])], ?_⟩
  intro p hp
  have hs : p.star = 0 := by
    cases p with
    | core s => have : s < g.starCount := hp; simp only [Place.star]; omega
    | arm s a k => have : s < g.starCount := hp.1; simp only [Place.star]; omega
    | magnetic s a => have : s < g.starCount := hp.1; simp only [Place.star]; omega
  apply vecAt_assign
  · intro w hw hi
    obtain ⟨-, q, hq, -, rfl⟩ := (mem_positions (by omega)).1 hw
    rw [(C29_bijection g).injOn hq hp hi]
  · exact ⟨(p.id g, planned g p), (mem_positions (by omega)).2 ⟨hA, p, hp, hs, rfl⟩, rfl⟩

theorem sq_dist (g : Geometry) (p q : Place) :
    (distance (planned g p) (planned g q)) ^ 2 =
      (p.depth g : ℝ) ^ 2 + (q.depth g : ℝ) ^ 2 - 2 * p.depth g * q.depth g *
        Real.cos (2 * Real.pi * (p.armOf / g.armCountPerStar) - 2 * Real.pi * (q.armOf / g.armCountPerStar)) := by
  unfold distance planned
  rw [Real.sq_sqrt (by positivity), Real.cos_sub]
  have h1 := Real.sin_sq_add_cos_sq (2 * Real.pi * (p.armOf / g.armCountPerStar))
  have h2 := Real.sin_sq_add_cos_sq (2 * Real.pi * (q.armOf / g.armCountPerStar))
  linear_combination (p.depth g : ℝ) ^ 2 * h1 + (q.depth g : ℝ) ^ 2 * h2

theorem distance_nonneg (u v : ℝ × ℝ × ℝ) : 0 ≤ distance u v := Real.sqrt_nonneg _

/-- C114, bonds: neighbours in the planned shape are at distance exactly one. -/
theorem C114_bonds (g : Geometry) (p q : Place) (h : Place.Adjacent g p q) :
    distance (planned g p) (planned g q) = 1 := by
  have h2 : (distance (planned g p) (planned g q)) ^ 2 = 1 := by
    rw [sq_dist]
    obtain ⟨-, ha, hd⟩ := h
    have key : (p.depth g : ℝ) * q.depth g *
        Real.cos (2 * Real.pi * (p.armOf / g.armCountPerStar) - 2 * Real.pi * (q.armOf / g.armCountPerStar)) =
        (p.depth g : ℝ) * q.depth g := by
      cases p with
      | core s => simp [Place.depth]
      | arm s a k =>
        cases q with
        | core t => simp [Place.depth]
        | arm t b l => simp only [Place.sameArm] at ha; subst ha; simp [Place.armOf]
        | magnetic t b => simp only [Place.sameArm] at ha; subst ha; simp [Place.armOf]
      | magnetic s a =>
        cases q with
        | core t => simp [Place.depth]
        | arm t b l => simp only [Place.sameArm] at ha; subst ha; simp [Place.armOf]
        | magnetic t b => simp only [Place.sameArm] at ha; subst ha; simp [Place.armOf]
    have e : (p.depth g : ℝ) ^ 2 + (q.depth g : ℝ) ^ 2 - 2 * p.depth g * q.depth g *
        Real.cos (2 * Real.pi * (p.armOf / g.armCountPerStar) - 2 * Real.pi * (q.armOf / g.armCountPerStar)) =
        ((p.depth g : ℝ) - q.depth g) ^ 2 := by linear_combination -2 * key
    rw [e]
    rcases hd with hd | hd
    · have : (q.depth g : ℝ) = p.depth g + 1 := by exact_mod_cast hd.symm
      rw [this]; ring
    · have : (p.depth g : ℝ) = q.depth g + 1 := by exact_mod_cast hd.symm
      rw [this]; ring
  have h0 := distance_nonneg (planned g p) (planned g q)
  nlinarith

theorem armOf_lt {g : Geometry} (hA : 0 < g.armCountPerStar) {p : Place} (hp : p.Valid g) :
    p.armOf < g.armCountPerStar := by
  cases p with
  | core s => exact hA
  | arm s a k => exact hp.2.1
  | magnetic s a => exact hp.2.1

theorem angle_range {A a : ℕ} (ha : a < A) : 0 ≤ 2 * Real.pi * ((a : ℝ) / A) ∧ 2 * Real.pi * ((a : ℝ) / A) < 2 * Real.pi := by
  have hA : (0 : ℝ) < A := by exact_mod_cast (by omega : 0 < A)
  have h1 : (a : ℝ) / A < 1 := by rw [div_lt_one hA]; exact_mod_cast ha
  have h0 : (0 : ℝ) ≤ (a : ℝ) / A := by positivity
  have := Real.pi_pos
  constructor
  · positivity
  · nlinarith

/-- C114, no two at the same point: different places of a star have different planned positions. -/
theorem C114_apart (g : Geometry) (p q : Place) (hp : p.Valid g) (hq : q.Valid g) (hs : p.star = q.star) (hne : p ≠ q) :
    0 < distance (planned g p) (planned g q) := by
  by_contra hcon
  have h0 : distance (planned g p) (planned g q) = 0 := le_antisymm (not_lt.1 hcon) (distance_nonneg _ _)
  have h2 := sq_dist g p q
  rw [h0] at h2
  by_cases hA : 0 < g.armCountPerStar
  swap
  · cases p with
    | core s =>
      cases q with
      | core t => exact hne (by simp only [Place.star] at hs; rw [hs])
      | arm t b l => exact hA (by have := hq.2.1; omega)
      | magnetic t b => exact hA (by have := hq.2.1; omega)
    | arm s a k => exact hA (by have := hp.2.1; omega)
    | magnetic s a => exact hA (by have := hp.2.1; omega)
  have hc := Real.cos_le_one (2 * Real.pi * (p.armOf / g.armCountPerStar) - 2 * Real.pi * (q.armOf / g.armCountPerStar))
  have hpq : (0 : ℝ) ≤ (p.depth g : ℝ) * q.depth g := by positivity
  have hd : p.depth g = q.depth g := by
    have : ((p.depth g : ℝ) - q.depth g) ^ 2 ≤ 0 := by nlinarith
    have : (p.depth g : ℝ) - q.depth g = 0 := by nlinarith [sq_nonneg ((p.depth g : ℝ) - q.depth g)]
    exact_mod_cast sub_eq_zero.1 this
  by_cases hz : p.depth g = 0
  · have hz' : q.depth g = 0 := by omega
    cases p <;> cases q <;> simp [Place.depth] at hz hz'
    exact hne (by simp only [Place.star] at hs; rw [hs])
  · have hdpos : (0 : ℝ) < p.depth g := by exact_mod_cast Nat.pos_of_ne_zero hz
    have hcos : Real.cos (2 * Real.pi * (p.armOf / g.armCountPerStar) - 2 * Real.pi * (q.armOf / g.armCountPerStar)) = 1 := by
      rw [← hd] at h2
      have : (p.depth g : ℝ) ^ 2 *
        (1 - Real.cos (2 * Real.pi * (p.armOf / g.armCountPerStar) - 2 * Real.pi * (q.armOf / g.armCountPerStar))) = 0 := by
        linear_combination -h2 / 2
      rcases mul_eq_zero.1 this with h | h
      · exact absurd h (by positivity)
      · linarith
    obtain ⟨p1, p2⟩ := angle_range (armOf_lt hA hp)
    obtain ⟨q1, q2⟩ := angle_range (armOf_lt hA hq)
    rw [Real.cos_eq_one_iff_of_lt_of_lt (by linarith) (by linarith)] at hcos
    have hpi := Real.pi_pos
    have hA' : (0 : ℝ) < g.armCountPerStar := by exact_mod_cast hA
    have harm : p.armOf = q.armOf := by
      have : (p.armOf : ℝ) / g.armCountPerStar = q.armOf / g.armCountPerStar := by
        have : 2 * Real.pi * ((p.armOf : ℝ) / g.armCountPerStar) = 2 * Real.pi * (q.armOf / g.armCountPerStar) := by
          linarith
        exact mul_left_cancel₀ (by positivity) this
      rw [div_left_inj' hA'.ne'] at this
      exact_mod_cast this
    apply hne
    cases p with
    | core s => exact absurd rfl hz
    | arm s a k =>
      cases q with
      | core t => exact absurd (hd.trans rfl) hz
      | arm t b l => simp_all [Place.star, Place.armOf, Place.depth]
      | magnetic t b => have := hp.2.2; simp [Place.depth] at hd; omega
    | magnetic s a =>
      cases q with
      | core t => exact absurd (hd.trans rfl) hz
      | arm t b l => have := hq.2.2; simp [Place.depth] at hd; omega
      | magnetic t b => simp_all [Place.star, Place.armOf, Place.depth]

theorem velocity_writes_zero (g : Geometry) (w : ℕ × ℝ × ℝ × ℝ)
    (hw : w ∈ (List.range g.starCount).flatMap (starVelocities g)) : w.2 = (0, 0, 0) := by
  rw [List.mem_flatMap] at hw
  obtain ⟨s, -, hw⟩ := hw
  unfold starVelocities at hw
  rw [List.mem_cons, List.mem_flatMap] at hw
  rcases hw with rfl | ⟨a, -, hw⟩
  · rfl
  · unfold armVelocities at hw
    rw [List.mem_append, List.mem_map] at hw
    rcases hw with ⟨k, -, rfl⟩ | hw
    · rfl
    · split at hw
      · rw [List.mem_singleton] at hw
        subst hw
        rfl
      · simp at hw

/-- C114, velocities: for any number of stars, every particle is at rest, whatever the memory held. -/
theorem C114_velocities (g : Geometry) (garbage : ℕ → ℝ) (i : ℕ) (hi : i < g.getParticleCount) :
    Mirror.vecAt (initializeVelocitiesOnHost g garbage) i = (0, 0, 0) := by
  obtain ⟨p, hp, rfl⟩ := exists_place g i hi
  refine vecAt_assign _ _ _ _ (fun w hw _ => velocity_writes_zero g w hw) ⟨(p.id g, 0, 0, 0), ?_, rfl⟩
  rw [List.mem_flatMap]
  cases p with
  | core s => exact ⟨s, List.mem_range.2 hp, by simp [starVelocities, Place.id]⟩
  | arm s a k =>
    refine ⟨s, List.mem_range.2 hp.1, ?_⟩
    unfold starVelocities
    rw [List.mem_cons, List.mem_flatMap]
    refine .inr ⟨a, List.mem_range.2 hp.2.1, ?_⟩
    unfold armVelocities
    rw [List.mem_append, List.mem_map]
    exact .inl ⟨k, List.mem_range.2 hp.2.2, rfl⟩
  | magnetic s a =>
    refine ⟨s, List.mem_range.2 hp.1, ?_⟩
    unfold starVelocities
    rw [List.mem_cons, List.mem_flatMap]
    refine .inr ⟨a, List.mem_range.2 hp.2.1, ?_⟩
    unfold armVelocities
    rw [List.mem_append, if_pos hp.2.2]
    exact .inr (by simp [Place.id])

/-! ### Centre of mass -/

theorem sum_roots {A : ℕ} (hA : 1 < A) :
    ∑ a ∈ Finset.range A, Real.cos (2 * Real.pi * ((a : ℝ) / A)) = 0 ∧
    ∑ a ∈ Finset.range A, Real.sin (2 * Real.pi * ((a : ℝ) / A)) = 0 := by
  have h := (Complex.isPrimitiveRoot_exp A (by omega)).geom_sum_eq_zero hA
  have e : ∀ a ∈ Finset.range A, Complex.exp (2 * Real.pi * Complex.I / A) ^ a =
      (Real.cos (2 * Real.pi * ((a : ℝ) / A)) : ℂ) + (Real.sin (2 * Real.pi * ((a : ℝ) / A)) : ℂ) * Complex.I := by
    intro a _
    rw [← Complex.exp_nat_mul]
    have : (a : ℂ) * (2 * Real.pi * Complex.I / A) = ((2 * Real.pi * ((a : ℝ) / A) : ℝ) : ℂ) * Complex.I := by
      push_cast
      ring
    rw [this, Complex.exp_mul_I, Complex.ofReal_cos, Complex.ofReal_sin]
  rw [Finset.sum_congr rfl e, Finset.sum_add_distrib, ← Finset.sum_mul] at h
  have h' : ((∑ a ∈ Finset.range A, Real.cos (2 * Real.pi * ((a : ℝ) / A)) : ℝ) : ℂ) +
      ((∑ a ∈ Finset.range A, Real.sin (2 * Real.pi * ((a : ℝ) / A)) : ℝ) : ℂ) * Complex.I = 0 := by
    push_cast
    simpa using h
  constructor
  · have := congrArg Complex.re h'
    rwa [Complex.add_re, Complex.ofReal_re, Complex.re_ofReal_mul, Complex.I_re, mul_zero, add_zero, Complex.zero_re] at this
  · have := congrArg Complex.im h'
    rwa [Complex.add_im, Complex.ofReal_im, Complex.im_ofReal_mul, Complex.I_im, mul_one, zero_add, Complex.zero_im] at this

theorem sum_blocks (f : ℕ → ℝ) (A L : ℕ) :
    ∑ i ∈ Finset.range (A * L), f i = ∑ a ∈ Finset.range A, ∑ j ∈ Finset.range L, f (a * L + j) := by
  induction A with
  | zero => simp
  | succ A ih => rw [Finset.sum_range_succ, ← ih, Nat.succ_mul, Finset.sum_range_add]

theorem sum_planned {g : Geometry} (h1 : g.starCount = 1) (F : Place → ℝ) (G : ℕ → ℝ)
    (hF : ∀ p : Place, p.Valid g → G (p.id g) = F p) (c : ℕ → ℝ) (h0 : F (.core 0) = 0)
    (harm : ∀ a k, a < g.armCountPerStar → k < g.particleCountPerArm → F (.arm 0 a k) = (k + 1 : ℕ) * c a)
    (hmag : ∀ a, a < g.armCountPerStar → g.hasMagneticParticles = true →
      F (.magnetic 0 a) = (g.particleCountPerArm + 1 : ℕ) * c a) :
    ∑ i ∈ Finset.range g.getParticleCount, G i =
      (∑ j ∈ Finset.range (g.particleCountPerArm + g.hasMagneticParticles.toNat), ((j + 1 : ℕ) : ℝ)) *
        ∑ a ∈ Finset.range g.armCountPerStar, c a := by
  have hcount : g.getParticleCount =
      g.armCountPerStar * (g.particleCountPerArm + g.hasMagneticParticles.toNat) + 1 := by
    unfold Geometry.getParticleCount Geometry.getParticleCountPerStar
    rw [h1]; ring
  rw [hcount, Finset.sum_range_succ']
  have hc : G 0 = 0 := by
    rw [← h0, ← hF (.core 0) (by simp [Place.Valid, h1])]
    simp [Place.id, Geometry.getCoreParticleID]
  rw [hc, add_zero, sum_blocks (fun i => G (i + 1)), Finset.mul_sum]
  refine Finset.sum_congr rfl fun a ha => ?_
  rw [Finset.mem_range] at ha
  rw [Finset.sum_mul]
  refine Finset.sum_congr rfl fun j hj => ?_
  rw [Finset.mem_range] at hj
  by_cases hk : j < g.particleCountPerArm
  · rw [← harm a j ha hk, ← hF (.arm 0 a j) ⟨by omega, ha, hk⟩]
    congr 1
    simp only [Place.id, Geometry.getArmParticleID]
    ring
  · have hm : g.hasMagneticParticles = true := by
      cases h : g.hasMagneticParticles with
      | true => rfl
      | false => rw [h] at hj; simp at hj; omega
    have hjn : j = g.particleCountPerArm := by rw [hm] at hj; simp at hj; omega
    subst hjn
    rw [← hmag a ha hm, ← hF (.magnetic 0 a) ⟨by omega, ha, hm⟩]
    congr 1
    simp only [Place.id, Geometry.getMagneticParticleID]
    ring

/-- C114, centre: with at least two arms, the centre of mass of the star (all particles have the same mass) is where its core
is, at the origin. -/
theorem C114_centre (debug : Bool) (g : Geometry) (h1 : g.starCount = 1) (hA : 1 < g.armCountPerStar) (garbage m : ℕ → ℝ)
    (hm : initializePositionsOnHost debug g garbage = some m) :
    ∑ i ∈ Finset.range g.getParticleCount, (Mirror.vecAt m i).1 = 0 ∧
    ∑ i ∈ Finset.range g.getParticleCount, (Mirror.vecAt m i).2.1 = 0 ∧
    ∑ i ∈ Finset.range g.getParticleCount, (Mirror.vecAt m i).2.2 = 0 := by
  obtain ⟨m', hm', hp⟩ := C114_positions_partial debug g h1 (by omega) garbage
  obtain rfl : m = m' := Option.some.inj (hm.symm.trans hm')
  obtain ⟨hc, hs⟩ := sum_roots hA
  refine ⟨?_, ?_, ?_⟩
  · rw [sum_planned h1 (fun p => (planned g p).1) (fun i => (Mirror.vecAt m i).1) (fun p h => by simp only [hp p h])
      (fun a => Real.cos (2 * Real.pi * ((a : ℝ) / g.armCountPerStar))) (by simp [planned, Place.depth])
      (fun a k _ _ => rfl) (fun a _ _ => rfl), hc, mul_zero]
  · rw [sum_planned h1 (fun p => (planned g p).2.1) (fun i => (Mirror.vecAt m i).2.1) (fun p h => by simp only [hp p h])
      (fun a => Real.sin (2 * Real.pi * ((a : ℝ) / g.armCountPerStar))) (by simp [planned, Place.depth])
      (fun a k _ _ => rfl) (fun a _ _ => rfl), hs, mul_zero]
  · rw [sum_planned h1 (fun p => (planned g p).2.2) (fun i => (Mirror.vecAt m i).2.2) (fun p h => by simp only [hp p h])
      (fun a => 0) (by simp [planned]) (fun a k _ _ => by simp [planned]) (fun a _ _ => by simp [planned])]
    simp

/-! ### Where the claims end -/

/-- C114, violated: without `OPENMPCD_DEBUG`, more than one star is accepted, but the particles of the others have whatever
positions were in the memory; with `OPENMPCD_DEBUG`, an exception is thrown. -/
theorem C114_stars_violated (g : Geometry) (h : 1 < g.starCount) (garbage : ℕ → ℝ) :
    initializePositionsOnHost true g garbage = none ∧
    ∃ m, initializePositionsOnHost false g garbage = some m ∧
      ∀ p : Place, p.Valid g → p.star ≠ 0 → Mirror.vecAt m (p.id g) = Mirror.vecAt garbage (p.id g) := by
  refine ⟨by rw [initializePositionsOnHost, if_pos ⟨rfl, by omega⟩], _,
    by rw [initializePositionsOnHost, if_neg (by simp)], ?_⟩
  intro p hp hs
  apply vecAt_assign_other
  intro w hw hi
  obtain ⟨-, q, hq, hq0, rfl⟩ := (mem_positions (by omega)).1 hw
  rw [(C29_bijection g).injOn hq hp hi] at hq0
  exact hs hq0

/-- C114, violated: the core of a star without arms has whatever position was in the memory. -/
theorem C114_core_violated (debug : Bool) (n : ℕ) (magnetic : Bool) (garbage : ℕ → ℝ) :
    (Geometry.mk 1 0 n magnetic).getParticleCount = 1 ∧
    initializePositionsOnHost debug ⟨1, 0, n, magnetic⟩ garbage = some garbage := by
  refine ⟨by simp [Geometry.getParticleCount, Geometry.getParticleCountPerStar], ?_⟩
  rw [initializePositionsOnHost, if_neg (by simp)]
  rfl

/-- C114, violated: with more than six arms, particles that are not bonded start closer to each other than bonded ones. -/
theorem C114_close_violated (g : Geometry) (hs : 0 < g.starCount) (hA : 6 < g.armCountPerStar)
    (hn : 0 < g.particleCountPerArm) :
    (Place.arm 0 0 0).Valid g ∧ (Place.arm 0 1 0).Valid g ∧ ¬ Place.Adjacent g (.arm 0 0 0) (.arm 0 1 0) ∧
    distance (planned g (.arm 0 0 0)) (planned g (.arm 0 1 0)) < 1 := by
  refine ⟨⟨hs, by omega, hn⟩, ⟨hs, by omega, hn⟩, by simp [Place.Adjacent, Place.sameArm], ?_⟩
  have h2 := sq_dist g (.arm 0 0 0) (.arm 0 1 0)
  simp only [Place.depth, Place.armOf] at h2
  have hA' : (6 : ℝ) < g.armCountPerStar := by exact_mod_cast hA
  have hpi := Real.pi_pos
  have hcos : 1 / 2 < Real.cos (2 * Real.pi * (1 / g.armCountPerStar)) := by
    rw [← Real.cos_pi_div_three]
    apply Real.cos_lt_cos_of_nonneg_of_le_pi
    · positivity
    · linarith
    · rw [mul_one_div, div_lt_div_iff₀ (by linarith) (by norm_num)]
      nlinarith
  simp only [Nat.cast_zero, zero_div, mul_zero, zero_sub, Real.cos_neg, zero_add, Nat.cast_one, mul_one, one_pow] at h2
  have h0 := distance_nonneg (planned g (.arm 0 0 0)) (planned g (.arm 0 1 0))
  nlinarith

open OpenMPCD.Potentials in
/-- C114, violated: nothing is checked about the extensibility of the bonds. If the configured sizes make `1` too long for a
bond — without offsets, for instance, if all `sigma` are at most `2 / 3` — then the logarithm in the potential of every bond is
taken of a number that is not positive. -/
theorem C114_range_violated (p : Parameters) (hD : ∀ a, p.D a = 0) (hpos : ∀ a, 0 < p.sigma a)
    (hsmall : ∀ a, p.sigma a ≤ 2 / 3) (g : Geometry) (hg : 0 < g.particleCountPerArm) (x y : Place)
    (h : Place.Adjacent g x y) :
    ∃ K l_0 R, (createInteractions p).fene (Geometry.getParticleTypeCombinationIndex x.type y.type) = some (fene K l_0 R) ∧
      1 - ((distance (planned g x) (planned g y) - l_0) / R) ^ 2 ≤ 0 := by
  refine ⟨_, _, _, create_fene p _ _ (adjacent_types hg h), ?_⟩
  rw [C114_bonds g x y h, hD, hD]
  have h1 := hpos x.type
  have h2 := hpos y.type
  have h3 := hsmall x.type
  have h4 := hsmall y.type
  have hR : 0 < 1.5 * ((p.sigma x.type + p.sigma y.type) / 2) := by norm_num; linarith
  have hR1 : 1.5 * ((p.sigma x.type + p.sigma y.type) / 2) ≤ 1 := by norm_num; linarith
  have : 1 ≤ (1 - (0 + 0) / 2) / (1.5 * ((p.sigma x.type + p.sigma y.type) / 2)) := by
    rw [le_div_iff₀ hR]; linarith
  nlinarith

/-- A star with three arms of two particles and a magnetic one. -/
example : ∃ m, initializePositionsOnHost true ⟨1, 3, 2, true⟩ (fun _ => 5) = some m ∧
    Mirror.vecAt m ((Place.magnetic 0 0).id ⟨1, 3, 2, true⟩) = (3, 0, 0) := by
  obtain ⟨m, hm, hp⟩ := C114_positions_partial true ⟨1, 3, 2, true⟩ rfl (by decide) (fun _ => 5)
  refine ⟨m, hm, ?_⟩
  rw [hp (.magnetic 0 0) ⟨by decide, by decide, rfl⟩]
  simp [planned, Place.depth, Place.armOf]

end OpenMPCD.Star.Initial
