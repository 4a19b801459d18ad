import Verif.Star.Energy
import Verif.Verlet.Angular

/-!
# Time steps of star polymers and the angular momentum (C135)

Forces between particles of star polymers point along the line between the particles, except for the interaction of magnetic dipoles.
-/

set_option linter.unusedSimpArgs false
set_option linter.unusedVariables false

namespace OpenMPCD.Star

open Potentials Verlet Vec3

/-! ## Specification -/

/-- The total angular momentum about the origin, in units of the mass of a particle. -/
noncomputable def totalAngular (g : Geometry) (s : Solute) : Vec3 ℝ :=
  ∑ a ∈ Finset.range g.getParticleCount, moment (vecAt s.positions a) (vecAt s.velocities a)

/-! ## Sums of torques -/

/-- The potential exerts no torque about the axis `e`. -/
def NoTorque (e : Vec3 ℝ) (p : PairPotential) : Prop := ∀ R F, p.force R = some F → e.dot (moment R F) = 0

/-- The torque about `e` exerted by forces. -/
noncomputable def torque (e : Vec3 ℝ) (N : ℕ) (positions forces : ℕ → ℝ) : ℝ :=
  e.dot (∑ a ∈ Finset.range N, moment (vecAt positions a) (vecAt forces a))

/-- `e.dot`, additive. -/
def dotHom (e : Vec3 ℝ) : Vec3 ℝ →+ ℝ where
  toFun v := e.dot v
  map_zero' := by simp [dot]
  map_add' u v := by simp [dot]; ring

theorem dot_sum (e : Vec3 ℝ) (s : Finset ℕ) (v : ℕ → Vec3 ℝ) : e.dot (∑ a ∈ s, v a) = ∑ a ∈ s, e.dot (v a) :=
  map_sum (dotHom e) v s

theorem moment_sum (x : Vec3 ℝ) (s : Finset ℕ) (v : ℕ → Vec3 ℝ) : moment x (∑ a ∈ s, v a) = ∑ a ∈ s, moment x (v a) := by
  let h : Vec3 ℝ →+ Vec3 ℝ :=
    { toFun := fun v => moment x v
      map_zero' := by ext <;> simp [moment]
      map_add' := fun u v => by ext <;> simp [moment] <;> ring }
  exact map_sum h v s

/-- The torque is half the sum of the torques over ordered pairs. -/
theorem torque_pairs {G B : ℕ} (hG : 0 < G) (hB : 1 < B) {g : Geometry} (hN : g.getParticleCount + G * B ≤ 2 ^ 32)
    {i : Interactions} (hi : Lawful i) {positions forces : ℕ → ℝ}
    (h : ComputesForces G B g i positions (fun _ => 0) forces) (e : Vec3 ℝ) :
    ∃ F : ℕ → ℕ → Vec3 ℝ,
      (∀ a b, a < g.getParticleCount → b < g.getParticleCount → a ≠ b →
        pairForce g i a b (vecAt positions a) (vecAt positions b) = some (F a b)) ∧
      2 * torque e g.getParticleCount positions forces =
        ∑ a ∈ Finset.range g.getParticleCount, ∑ b ∈ Finset.range g.getParticleCount,
          if b = a then 0 else e.dot (moment (vecAt positions a - vecAt positions b) (F a b)) := by
  obtain ⟨F, hF, hsum⟩ := C32_each_pair_once hG hB hN hi h
  refine ⟨F, fun a b h1 h2 h3 => (hF a b h1 h2 h3).1, ?_⟩
  set N := g.getParticleCount
  have e1 : torque e N positions forces = ∑ a ∈ Finset.range N, ∑ b ∈ Finset.range N,
      if b = a then 0 else e.dot (moment (vecAt positions a) (F a b)) := by
    unfold torque
    rw [dot_sum]
    refine Finset.sum_congr rfl fun a ha => ?_
    rw [hsum a (Finset.mem_range.1 ha), moment_sum, dot_sum,
      ← Finset.sum_erase (Finset.range N) (a := a)
        (f := fun b => if b = a then 0 else e.dot (moment (vecAt positions a) (F a b))) (by simp)]
    refine Finset.sum_congr rfl fun b hb => ?_
    rw [if_neg (Finset.ne_of_mem_erase hb)]
  have e2 : torque e N positions forces = ∑ a ∈ Finset.range N, ∑ b ∈ Finset.range N,
      if b = a then 0 else e.dot (moment (-vecAt positions b) (F a b)) := by
    rw [e1, Finset.sum_comm]
    refine Finset.sum_congr rfl fun a ha => Finset.sum_congr rfl fun b hb => ?_
    by_cases hab : a = b
    · subst hab; simp
    · rw [if_neg hab, if_neg (Ne.symm hab),
        (hF a b (Finset.mem_range.1 ha) (Finset.mem_range.1 hb) hab).2]
      simp [moment, dot]
  rw [two_mul]
  nth_rewrite 1 [e1]
  rw [e2, ← Finset.sum_add_distrib]
  refine Finset.sum_congr rfl fun a _ => ?_
  rw [← Finset.sum_add_distrib]
  refine Finset.sum_congr rfl fun b _ => ?_
  split_ifs
  · simp
  · simp [moment, dot]; ring

/-- What a time step does to the angular momentum. -/
theorem angular_step {G B : ℕ} (hG : 0 < G) (hB : 1 < B) {g : Geometry}
    (hN : 3 * g.getParticleCount + G * B ≤ 2 ^ 32) {i : Interactions} {mass timestep : ℝ} {s s' : Solute}
    (h : MDTimestep G B g i mass timestep s s') :
    ∃ f1 f2, ComputesForces G B g i s.positions (fun _ => 0) f1 ∧
      ComputesForces G B g i s'.positions (fun _ => 0) f2 ∧
      ∀ e : Vec3 ℝ, e.dot (totalAngular g s') = e.dot (totalAngular g s) + timestep / 2 / mass *
        (torque e g.getParticleCount s.positions f1 + torque e g.getParticleCount s'.positions f2) := by
  obtain ⟨f1, f2, h1, hp, h2, hv⟩ := h
  rw [launched_iff hG hB hN] at hp hv
  refine ⟨f1, f2, h1, h2, ?_⟩
  intro e
  unfold totalAngular torque
  rw [dot_sum, dot_sum, dot_sum, dot_sum, ← Finset.sum_add_distrib, Finset.mul_sum, ← Finset.sum_add_distrib]
  refine Finset.sum_congr rfl fun a ha => ?_
  rw [Finset.mem_range] at ha
  have e1 : vecAt s'.positions a = vecAt s.positions a + timestep • vecAt s.velocities a +
      (timestep ^ 2 / 2) • ((1 / mass) • vecAt f1 a) := by
    unfold vecAt
    rw [hp, hp, hp, if_pos (by omega), if_pos (by omega), if_pos (by omega)]
    ext <;> simp [Verlet.step1] <;> ring
  have e2 : vecAt s'.velocities a = vecAt s.velocities a +
      (timestep / 2) • ((1 / mass) • vecAt f1 a + (1 / mass) • vecAt f2 a) := by
    unfold vecAt
    rw [hv, hv, hv, if_pos (by omega), if_pos (by omega), if_pos (by omega)]
    ext <;> simp [Verlet.step2] <;> ring
  rw [e2]
  nth_rewrite 1 [e1]
  rw [moment_step, ← e1]
  simp [moment, dot]
  ring

/-! ## The interactions -/

theorem fene_noTorque (e : Vec3 ℝ) (K l R : ℝ) : NoTorque e (fene K l R) := by
  intro R F h
  simp only [fene, cppGetNormalized] at h
  split_ifs at h
  · simp at h
  · simp at h
    subst h
    simp [moment, dot]
    ring

theorem wcaOffset_noTorque (e : Vec3 ℝ) (ε σ d : ℝ) : NoTorque e (wcaOffset ε σ d) := by
  intro R F h
  simp only [wcaOffset] at h
  split_ifs at h
  · obtain rfl := Option.some.inj h
    simp [moment, dot]
  · obtain rfl := Option.some.inj h
    simp [moment, dot]
    ring

/-- Dipoles exert no torque about their own direction. -/
theorem dipole_noTorque (prefactor : ℝ) (o : Vec3 ℝ) : NoTorque o (dipole prefactor o) := by
  intro R F h
  obtain rfl := Option.some.inj h
  simp [moment, dot]
  ring

/-- Without a prefactor, dipoles exert no torque. -/
theorem dipole_zero_noTorque (e o : Vec3 ℝ) : NoTorque e (dipole 0 o) := by
  intro R F h
  obtain rfl := Option.some.inj h
  simp [moment, dot]

/-- No torque of bonds and of the repulsion. -/
theorem createInteractions_noTorque (e : Vec3 ℝ) (p : Parameters) :
    (∀ n q, (createInteractions p).wca n = some q → NoTorque e q) ∧
      (∀ n q, (createInteractions p).fene n = some q → NoTorque e q) := by
  have upd : ∀ (f : ℕ → Option PairPotential) (k : ℕ) (q : PairPotential), (∀ n p, f n = some p → NoTorque e p) →
      NoTorque e q → ∀ n p, Function.update f k (some q) n = some p → NoTorque e p := by
    intro f k q hf hq n p h
    rw [Function.update_apply] at h
    split_ifs at h
    · exact Option.some.inj h ▸ hq
    · exact hf n p h
  have none' : ∀ n p, (fun _ : ℕ => (none : Option PairPotential)) n = some p → NoTorque e p := by
    intro n p h; cases h
  refine ⟨?_, ?_⟩
  · unfold createInteractions
    iterate 6 refine upd _ _ _ ?_ (wcaOffset_noTorque _ _ _ _)
    exact none'
  · unfold createInteractions
    iterate 3 refine upd _ _ _ ?_ (fene_noTorque _ _ _ _)
    exact none'

/-- The torque of a pair is that of its dipoles. -/
theorem pair_torque (e : Vec3 ℝ) (p : Parameters) {g : Geometry} {a b : ℕ} {r s F : Vec3 ℝ}
    (h : pairForce g (createInteractions p) a b r s = some F) :
    e.dot (moment (r - s) F) = if g.getParticleType a = .magnetic ∧ g.getParticleType b = .magnetic then
      e.dot (moment (r - s) (((dipole p.magneticPrefactor p.dipoleOrientation).force (r - s)).getD 0)) else 0 := by
  obtain ⟨hw, hf⟩ := createInteractions_noTorque e p
  have add : ∀ R f f' : Vec3 ℝ, e.dot (moment R (f + f')) = e.dot (moment R f) + e.dot (moment R f') := by
    intro R f f'
    simp [moment, dot]
    ring
  unfold pairForce at h
  simp only at h
  cases h1 : (createInteractions p).wca
    (Geometry.getParticleTypeCombinationIndex (g.getParticleType a) (g.getParticleType b)) with
  | none => rw [h1] at h; cases h
  | some w =>
    rw [h1] at h
    simp only [Option.bind_some] at h
    cases h2 : w.forceOnR1DueToR2 r s with
    | none => rw [h2] at h; cases h
    | some f =>
      rw [h2] at h
      have k1 := hw _ _ h1 (r - s) f h2
      simp only [Option.bind_some] at h
      split_ifs with hm
      · rw [if_pos hm] at h
        have hmag : (createInteractions p).magnetic = dipole p.magneticPrefactor p.dipoleOrientation := rfl
        rw [hmag] at h
        simp only [PairPotential.forceOnR1DueToR2] at h
        cases h3 : (dipole p.magneticPrefactor p.dipoleOrientation).force (r - s) with
        | none => rw [h3] at h; cases h
        | some f' =>
          rw [h3] at h
          obtain rfl := Option.some.inj h
          rw [add, k1, zero_add]
          rfl
      · rw [if_neg hm] at h
        cases h3 : g.particlesAreBonded a b with
        | none => rw [h3] at h; cases h
        | some bo =>
          rw [h3] at h
          cases bo with
          | false => obtain rfl := Option.some.inj h; exact k1
          | true =>
            simp only [Option.bind_some, Bool.not_true, Bool.false_eq_true, if_false] at h
            cases h4 : (createInteractions p).fene (Geometry.getParticleTypeCombinationIndex (g.getParticleType a)
              (g.getParticleType b)) with
            | none => rw [h4] at h; cases h
            | some fe =>
              rw [h4] at h
              simp only [Option.bind_some] at h
              cases h5 : fe.forceOnR1DueToR2 r s with
              | none => rw [h5] at h; cases h
              | some f' =>
                rw [h5] at h
                obtain rfl := Option.some.inj h
                rw [add, k1, zero_add]
                exact hf _ _ h4 (r - s) f' h5

theorem torque_zero {G B : ℕ} (hG : 0 < G) (hB : 1 < B) {g : Geometry} (hN : g.getParticleCount + G * B ≤ 2 ^ 32)
    (p : Parameters) {positions forces : ℕ → ℝ}
    (h : ComputesForces G B g (createInteractions p) positions (fun _ => 0) forces) {e : Vec3 ℝ}
    (he : (∀ a < g.getParticleCount, g.getParticleType a ≠ .magnetic) ∨
      NoTorque e (dipole p.magneticPrefactor p.dipoleOrientation)) :
    torque e g.getParticleCount positions forces = 0 := by
  obtain ⟨F, hF, h2⟩ := torque_pairs hG hB hN (createInteractions_lawful p) h e
  have : (2 : ℝ) * torque e g.getParticleCount positions forces = 0 := by
    rw [h2]
    refine Finset.sum_eq_zero fun a ha => Finset.sum_eq_zero fun b hb => ?_
    rw [Finset.mem_range] at ha hb
    split_ifs with hab
    · rfl
    · rw [pair_torque e p (hF a b ha hb (Ne.symm hab))]
      split_ifs with hm
      · rcases he with he | he
        · exact absurd hm.1 (he a ha)
        · exact he _ _ rfl
      · rfl
  linarith

/-! ## Time steps -/

theorem run_angular {G B : ℕ} (hG : 0 < G) (hB : 1 < B) {g : Geometry} (hN : 3 * g.getParticleCount + G * B ≤ 2 ^ 32)
    (p : Parameters) {mass timestep : ℝ} {s s' : Solute} {e : Vec3 ℝ}
    (he : (∀ a < g.getParticleCount, g.getParticleType a ≠ .magnetic) ∨
      NoTorque e (dipole p.magneticPrefactor p.dipoleOrientation))
    (h : Relation.ReflTransGen (MDTimestep G B g (createInteractions p) mass timestep) s s') :
    e.dot (totalAngular g s') = e.dot (totalAngular g s) := by
  induction h with
  | refl => rfl
  | tail _ h ih =>
    obtain ⟨f1, f2, h1, h2, hs⟩ := angular_step hG hB hN h
    rw [hs e, torque_zero hG hB (by omega) p h1 he, torque_zero hG hB (by omega) p h2 he, ih]
    ring

theorem dot_ext {u v : Vec3 ℝ} (h : ∀ e : Vec3 ℝ, e.dot u = e.dot v) : u = v := by
  have hx := h ⟨1, 0, 0⟩
  have hy := h ⟨0, 1, 0⟩
  have hz := h ⟨0, 0, 1⟩
  simp [dot] at hx hy hz
  ext
  · exact hx
  · exact hy
  · exact hz

/-- C135: star polymers without magnetic particles, or with no magnetic interaction, keep their angular momentum, for any number of
time steps and every schedule. -/
theorem C135_stars {G B : ℕ} (hG : 0 < G) (hB : 1 < B) {g : Geometry} (hN : 3 * g.getParticleCount + G * B ≤ 2 ^ 32)
    (p : Parameters) (hp : g.hasMagneticParticles = false ∨ p.magneticPrefactor = 0) {mass timestep : ℝ} {s s' : Solute}
    (h : Relation.ReflTransGen (MDTimestep G B g (createInteractions p) mass timestep) s s') :
    totalAngular g s' = totalAngular g s := by
  refine dot_ext fun e => run_angular hG hB hN p ?_ h
  rcases hp with hp | hp
  · left
    intro a ha
    unfold Geometry.getParticleType Geometry.getParticleStructureIndices
    simp only [hp, Bool.toNat_false, add_zero]
    by_cases h0 : a % g.getParticleCountPerStar = 0
    · simp [h0]
    · have hpos : 0 < g.particleCountPerArm := by
        rcases Nat.eq_zero_or_pos g.particleCountPerArm with h1 | h1
        · exfalso
          apply h0
          simp [Geometry.getParticleCountPerStar, hp, h1, Nat.mod_one]
        · exact h1
      have := Nat.mod_lt (a % g.getParticleCountPerStar - 1) hpos
      simp [h0, this.ne]
  · right
    rw [hp]
    exact dipole_zero_noTorque e _

/-- C135: in all cases the component along the direction of the dipoles is conserved. -/
theorem C135_stars_axis {G B : ℕ} (hG : 0 < G) (hB : 1 < B) {g : Geometry} (hN : 3 * g.getParticleCount + G * B ≤ 2 ^ 32)
    (p : Parameters) {mass timestep : ℝ} {s s' : Solute}
    (h : Relation.ReflTransGen (MDTimestep G B g (createInteractions p) mass timestep) s s') :
    p.dipoleOrientation.dot (totalAngular g s') = p.dipoleOrientation.dot (totalAngular g s) :=
  run_angular hG hB hN p (Or.inr (dipole_noTorque _ _)) h

/-! ## The violation -/

/-- Two arms, each with one arm particle and a magnetic particle. -/
def twoArms : Geometry := ⟨1, 2, 1, true⟩

/-- Positions along a diagonal. -/
noncomputable def diagonal (k : ℕ) : ℝ := if k % 3 = 1 then 0 else (k / 3 : ℕ)

theorem diagonal_vecAt (a : ℕ) : vecAt diagonal a = ⟨a, 0, a⟩ := by
  have h0 : (a * 3) % 3 = 0 := by omega
  have h1 : (a * 3 + 1) % 3 = 1 := by omega
  have h2 : (a * 3 + 2) % 3 = 2 := by omega
  have h3 : (a * 3 + 2) / 3 = a := by omega
  simp [vecAt, diagonal, h0, h1, h2, h3]

/-- C135: violated for magnetic particles: for all parameters with a magnetic interaction of dipoles along `z`, there is a time step
that changes the angular momentum. -/
theorem C135_magnetic_violated (p : Parameters) (hp : p.magneticPrefactor ≠ 0) (ho : p.dipoleOrientation = ⟨0, 0, 1⟩)
    {mass timestep : ℝ} (hm : mass ≠ 0) (ht : timestep ≠ 0) :
    ∃ s s', MDTimestep 2 3 twoArms (createInteractions p) mass timestep s s' ∧
      (totalAngular twoArms s').y ≠ (totalAngular twoArms s).y := by
  have hcount : twoArms.getParticleCount = 5 := by decide
  obtain ⟨f, hf⟩ := C32_progress (G := 2) (B := 3) (g := twoArms) (i := createInteractions p)
    (positions := diagonal) (before := fun _ => 0) (by norm_num) (by norm_num) (by decide) (by
      intro a b hab hb
      refine C62_partial (by decide) p (by omega) hb hab.ne ?_
      intro h
      rw [diagonal_vecAt, diagonal_vecAt] at h
      have := congrArg Vec3.x h
      simp at this
      omega)
  refine ⟨⟨diagonal, fun c => -(timestep * f c / mass / 2)⟩,
    ⟨diagonal, fun c => if c < 15 then timestep * f c / mass / 2 else -(timestep * f c / mass / 2)⟩, ?_⟩
  have hstep : MDTimestep 2 3 twoArms (createInteractions p) mass timestep
      ⟨diagonal, fun c => -(timestep * f c / mass / 2)⟩
      ⟨diagonal, fun c => if c < 15 then timestep * f c / mass / 2 else -(timestep * f c / mass / 2)⟩ := by
    refine ⟨f, f, hf, ?_, hf, ?_⟩
    · refine (launched_iff (by norm_num) (by norm_num) (by decide) _ _ _).2 fun c => ?_
      simp only [Verlet.step1]
      split_ifs
      · ring
      · rfl
    · refine (launched_iff (by norm_num) (by norm_num) (by decide) _ _ _).2 fun c => ?_
      simp only [Verlet.step2]
      rw [hcount]
      show _ = if c < 15 then _ else _
      split_ifs
      · ring
      · rfl
  refine ⟨hstep, ?_⟩
  obtain ⟨f1, f2, h1, h2, hs⟩ := angular_step (by norm_num) (by norm_num) (by decide) hstep
  have e1 : f1 = f := C32_schedule_independent h1 hf
  have e2 : f2 = f := C32_schedule_independent h2 hf
  subst e1
  subst e2
  obtain ⟨F, hF, hT⟩ := torque_pairs (by norm_num) (by norm_num) (by decide) (createInteractions_lawful p) hf ⟨0, 1, 0⟩
  have hval : ∀ a ∈ Finset.range 5, ∀ b ∈ Finset.range 5, (if b = a then 0 else
      (⟨0, 1, 0⟩ : Vec3 ℝ).dot (moment (vecAt diagonal a - vecAt diagonal b) (F a b))) =
      if b ≠ a ∧ twoArms.getParticleType a = .magnetic ∧ twoArms.getParticleType b = .magnetic then
      (⟨0, 1, 0⟩ : Vec3 ℝ).dot (moment (vecAt diagonal a - vecAt diagonal b)
        (((dipole p.magneticPrefactor p.dipoleOrientation).force (vecAt diagonal a - vecAt diagonal b)).getD 0))
      else 0 := by
    intro a ha b hb
    rw [Finset.mem_range] at ha hb
    by_cases hab : b = a
    · simp [hab]
    · rw [if_neg hab, pair_torque _ p (hF a b (by rw [hcount]; exact ha) (by rw [hcount]; exact hb) (Ne.symm hab))]
      simp [hab]
  rw [hcount] at hT
  rw [Finset.sum_congr rfl fun a ha => Finset.sum_congr rfl fun b hb => hval a ha b hb] at hT
  have t0 : twoArms.getParticleType 0 = .core := by decide
  have t1 : twoArms.getParticleType 1 = .arm := by decide
  have t2 : twoArms.getParticleType 2 = .magnetic := by decide
  have t3 : twoArms.getParticleType 3 = .arm := by decide
  have t4 : twoArms.getParticleType 4 = .magnetic := by decide
  simp only [Finset.sum_range_succ, Finset.sum_range_zero, t0, t1, t2, t3, t4] at hT
  simp [diagonal_vecAt, dipole, ho, moment, dot, cppMagnitudeSquared] at hT
  have hs' := hs ⟨0, 1, 0⟩
  rw [hcount] at hs'
  intro heq
  simp only [dot, heq] at hs'
  have hzero : timestep / 2 / mass * (torque ⟨0, 1, 0⟩ 5 diagonal f2 + torque ⟨0, 1, 0⟩ 5 diagonal f2) = 0 := by
    linarith
  have ht2 : timestep / 2 / mass ≠ 0 := by positivity
  have := (mul_eq_zero.1 hzero).resolve_left ht2
  have hT0 : torque ⟨0, 1, 0⟩ 5 diagonal f2 = 0 := by linarith
  rw [hT0] at hT
  norm_num at hT
  have h8 : (0 : ℝ) < √8 := Real.sqrt_pos.2 (by norm_num)
  have hq : p.magneticPrefactor * (1 / 8 * (1 / 8 / √8)) = 0 := by
    linarith
  have h88 : (1 / 8 * (1 / 8 / √8) : ℝ) ≠ 0 := by positivity
  exact hp ((mul_eq_zero.1 hq).resolve_right h88)

end OpenMPCD.Star
