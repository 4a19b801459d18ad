import Verif.Collide.Lemmas

/-!
# The collision step: C13, C14, C16, C19
-/

set_option linter.unusedSectionVars false
set_option linter.dupNamespace false
set_option linter.unnecessarySeqFocus false

namespace OpenMPCD.Collide

/-! ## Specification -/

/-- Usable box sizes. -/
structure Params.Valid (P : Params) : Prop where
  hx : 0 < P.Lx
  hy : 0 < P.Ly
  hz : 0 < P.Lz
  fits : P.Lx * P.Ly * P.Lz < 2 ^ 32

/-- The collision cell a position belongs to, given grid shift and time. -/
noncomputable def cellOf (P : Params) (shift : Vec3 ℝ) (t : ℝ) (p : Particle) : ℕ :=
  getCollisionCellIndex P.Lx P.Ly
    (hostImage (p.pos + shift) t P.shearRate P.Lx P.Ly P.Lz).1

/-- The velocity of the image particle relative to the particle. -/
noncomputable def layerVelocity (P : Params) (shift : Vec3 ℝ) (t : ℝ) (p : Particle) : Vec3 ℝ :=
  ⟨(hostImage (p.pos + shift) t P.shearRate P.Lx P.Ly P.Lz).2, 0, 0⟩

/-- The velocity the particle's image in the primary volume has. -/
noncomputable def imageVelocity (P : Params) (shift : Vec3 ℝ) (t : ℝ) (p : Particle) : Vec3 ℝ :=
  p.vel + layerVelocity P shift t p

/-- The particles in one cell. -/
noncomputable def members (P : Params) (shift : Vec3 ℝ) (t : ℝ) (c : ℕ) (ps : List Particle) :
    List Particle :=
  ps.filter fun p => cellOf P shift t p = c

/-- Total momentum, with velocities `v`. -/
noncomputable def momentum (v : Particle → Vec3 ℝ) (ps : List Particle) : Vec3 ℝ :=
  (ps.map fun p => p.mass • v p).sum

/-- Total kinetic energy, with velocities `v`. -/
noncomputable def kineticEnergy (v : Particle → Vec3 ℝ) (ps : List Particle) : ℝ :=
  (ps.map fun p => p.mass * (v p).dot (v p) / 2).sum

/-- Total mass. -/
noncomputable def totalMass (ps : List Particle) : ℝ := (ps.map Particle.mass).sum

/-- Centre-of-mass velocity. -/
noncomputable def centerOfMassVelocity (v : Particle → Vec3 ℝ) (ps : List Particle) : Vec3 ℝ :=
  (totalMass ps)⁻¹ • momentum v ps

/-- Kinetic energy relative to the centre of mass. -/
noncomputable def relativeKineticEnergy (v : Particle → Vec3 ℝ) (ps : List Particle) : ℝ :=
  kineticEnergy (fun p => v p - centerOfMassVelocity v ps) ps

/-! ## What the kernels compute -/

section

variable {P : Params} {R : Randomness} {t : ℝ} {d d' : CellData} {ps ps' : List Particle}

theorem sort_cell (P : Params) (shift : Vec3 ℝ) (t : ℝ) (p : Particle) :
    (sortIntoCollisionCell P shift t p).collisionCellIndex = cellOf P shift t p := rfl

theorem sort_vel (P : Params) (shift : Vec3 ℝ) (t : ℝ) (p : Particle) :
    (sortIntoCollisionCell P shift t p).vel = imageVelocity P shift t p := by
  ext <;> simp [sortIntoCollisionCell, imageVelocity, layerVelocity, Params.image, C18_host_device]

theorem cellOf_lt (hP : P.Valid) (shift : Vec3 ℝ) (t : ℝ) (p : Particle) :
    cellOf P shift t p < P.cellCount :=
  C17_lt hP.fits (C18_inBox hP.hx hP.hy hP.hz t P.shearRate (p.pos + shift))

theorem members_map {g : Particle → Particle} (hg : ∀ p, (g p).pos = p.pos) (shift : Vec3 ℝ)
    (c : ℕ) : members P shift t c (ps.map g) = (members P shift t c ps).map g := by
  unfold members
  rw [List.filter_map]
  congr 1
  apply List.filter_congr
  intro p _
  have e : cellOf P shift t (g p) = cellOf P shift t p := by rw [cellOf, hg, cellOf]
  simp only [Function.comp, e]

/-- Momentum and mass of each cell after `collisionCellContributions`, in any order. -/
theorem after_contributions {contributions : List AtomicOp}
    (h : contributions.Perm ((ps.map (sortIntoCollisionCell P R.gridShift t)).flatMap
      collisionCellContributions)) (c : ℕ) (hc : c < P.cellCount) :
    let d₁ := applyOps contributions (resetCollisionCellData P.cellCount d)
    d₁.momenta c = momentum (imageVelocity P R.gridShift t) (members P R.gridShift t c ps) ∧
      d₁.masses c = totalMass (members P R.gridShift t c ps) ∧
      d₁.energies c = 0 ∧ d₁.counts c = 0 := by
  rw [applyOps_perm h]
  refine ⟨?_, ?_, ?_, ?_⟩
  · rw [applyOps_momenta, sum_flatMap, List.map_map, momentum, members, ← sum_ite_filter]
    simp only [resetCollisionCellData, if_pos hc, zero_add]
    congr 1
    apply List.map_congr_left
    intro p _
    simp only [Function.comp, collisionCellContributions, sort_cell, sort_vel, List.map_cons,
      List.map_nil, AtomicOp.dMom, List.sum_cons, List.sum_nil, add_zero]
    by_cases hpc : c = cellOf P R.gridShift t p
    · simp only [if_pos hpc, if_pos hpc.symm]
      ext <;> simp [sortIntoCollisionCell]
    · simp only [if_neg hpc, if_neg (Ne.symm hpc)]
      simp
  · rw [applyOps_masses, sum_flatMap, List.map_map, totalMass, members, ← sum_ite_filter]
    simp only [resetCollisionCellData, if_pos hc, zero_add]
    congr 1
    apply List.map_congr_left
    intro p _
    simp only [Function.comp, collisionCellContributions, sort_cell, List.map_cons,
      List.map_nil, AtomicOp.dMass, List.sum_cons, List.sum_nil, add_zero, zero_add, eq_comm (a := c)]
    rfl
  · rw [applyOps_energies, sum_flatMap, List.map_map]
    simp only [resetCollisionCellData, if_pos hc, zero_add]
    apply List.sum_eq_zero
    intro x hx
    obtain ⟨p, -, rfl⟩ := List.mem_map.1 hx
    simp [collisionCellContributions, AtomicOp.dEnergy]
  · rw [applyOps_counts, sum_flatMap, List.map_map]
    simp only [resetCollisionCellData, if_pos hc, zero_add]
    apply List.sum_eq_zero
    intro x hx
    obtain ⟨p, -, rfl⟩ := List.mem_map.1 hx
    simp [collisionCellContributions, AtomicOp.dCount]

/-- The centre-of-mass velocity computed on the device. -/
theorem com_eq {e : CellData} {c : ℕ} {L : List Particle} {v : Particle → Vec3 ℝ}
    (h1 : e.momenta c = momentum v L) (h2 : e.masses c = totalMass L) :
    getCollisionCellCenterOfMassVelocity e c = centerOfMassVelocity v L := by
  ext <;> simp [getCollisionCellCenterOfMassVelocity, centerOfMassVelocity, h1, h2, div_eq_mul_inv]

/-- Energies and counts after step 1, in any order; momenta and masses are unchanged. -/
theorem after_step1 {d₁ : CellData} {step1Additions : List AtomicOp}
    (h : step1Additions.Perm ((ps.map (sortIntoCollisionCell P R.gridShift t)).flatMap
      (stochasticRotationStep1Ops d₁))) (c : ℕ)
    (h1 : d₁.momenta c = momentum (imageVelocity P R.gridShift t) (members P R.gridShift t c ps))
    (h2 : d₁.masses c = totalMass (members P R.gridShift t c ps))
    (h3 : d₁.energies c = 0) (h4 : d₁.counts c = 0) :
    let d₂ := applyOps step1Additions d₁
    d₂.momenta c = d₁.momenta c ∧ d₂.masses c = d₁.masses c ∧
      d₂.energies c =
        relativeKineticEnergy (imageVelocity P R.gridShift t) (members P R.gridShift t c ps) ∧
      d₂.counts c = (members P R.gridShift t c ps).length := by
  rw [applyOps_perm h]
  refine ⟨?_, ?_, ?_, ?_⟩
  · rw [applyOps_momenta, sum_flatMap, List.map_map]
    conv_rhs => rw [← add_zero (d₁.momenta c)]
    congr 1
    apply List.sum_eq_zero
    intro x hx
    obtain ⟨p, -, rfl⟩ := List.mem_map.1 hx
    simp [stochasticRotationStep1Ops, AtomicOp.dMom]
  · rw [applyOps_masses, sum_flatMap, List.map_map]
    conv_rhs => rw [← add_zero (d₁.masses c)]
    congr 1
    apply List.sum_eq_zero
    intro x hx
    obtain ⟨p, -, rfl⟩ := List.mem_map.1 hx
    simp [stochasticRotationStep1Ops, AtomicOp.dMass]
  · rw [applyOps_energies, sum_flatMap, List.map_map, h3, zero_add, relativeKineticEnergy,
      kineticEnergy]
    conv_rhs => rw [members]
    rw [← sum_ite_filter]
    congr 1
    apply List.map_congr_left
    intro p _
    simp only [Function.comp, stochasticRotationStep1Ops, sort_cell, sort_vel, List.map_cons,
      List.map_nil, AtomicOp.dEnergy, List.sum_cons, List.sum_nil, add_zero]
    by_cases hpc : c = cellOf P R.gridShift t p
    · rw [if_pos hpc, if_pos hpc.symm, ← hpc, com_eq h1 h2]
      rfl
    · rw [if_neg hpc, if_neg (Ne.symm hpc)]
  · have e : (members P R.gridShift t c ps).length =
        ((members P R.gridShift t c ps).map fun _ => 1).sum := by simp
    rw [applyOps_counts, sum_flatMap, List.map_map, h4, zero_add, e, members, ← sum_ite_filter]
    congr 1
    apply List.map_congr_left
    intro p _
    simp only [Function.comp, stochasticRotationStep1Ops, sort_cell, List.map_cons,
      List.map_nil, AtomicOp.dCount, List.sum_cons, List.sum_nil, zero_add, add_zero,
      eq_comm (a := c)]

theorem mbs_momenta (gamma) (e : CellData) :
    (generateCollisionCellMBSFactors P gamma e).momenta = e.momenta := by
  unfold generateCollisionCellMBSFactors; split_ifs <;> rfl

theorem mbs_masses (gamma) (e : CellData) :
    (generateCollisionCellMBSFactors P gamma e).masses = e.masses := by
  unfold generateCollisionCellMBSFactors; split_ifs <;> rfl

theorem mbs_energies (gamma) (e : CellData) :
    (generateCollisionCellMBSFactors P gamma e).energies = e.energies := by
  unfold generateCollisionCellMBSFactors; split_ifs <;> rfl

theorem mbs_counts (gamma) (e : CellData) :
    (generateCollisionCellMBSFactors P gamma e).counts = e.counts := by
  unfold generateCollisionCellMBSFactors; split_ifs <;> rfl

/-- The particle after the collision, given the scaling of its cell and the velocity of the cell's
centre of mass. -/
noncomputable def outcome (P : Params) (R : Randomness) (t : ℝ) (scaling : ℕ → ℝ)
    (V : ℕ → Vec3 ℝ) (p : Particle) : Particle :=
  let c := cellOf P R.gridShift t p
  { pos := p.pos
    vel := newVel (R.axes c) P.srdCollisionAngle (scaling c) (V c) (imageVelocity P R.gridShift t p)
      - layerVelocity P R.gridShift t p
    mass := p.mass
    velocityCorrection := (layerVelocity P R.gridShift t p).x
    collisionCellIndex := c }

/-- Everything about a collision step that is not skipped. -/
theorem collide_eq (hP : P.Valid)
    (hrun : ¬ (P.srdCollisionAngle = 0 ∧ P.bulkThermostatTargetkT = 0))
    (h : Collide P R t d ps d' ps') :
    (∀ c, c < P.cellCount →
      d'.momenta c = momentum (imageVelocity P R.gridShift t) (members P R.gridShift t c ps) ∧
      d'.masses c = totalMass (members P R.gridShift t c ps) ∧
      d'.energies c =
        relativeKineticEnergy (imageVelocity P R.gridShift t) (members P R.gridShift t c ps) ∧
      d'.counts c = (members P R.gridShift t c ps).length ∧
      d'.scalings c =
        if P.bulkThermostatTargetkT = 0 then d.scalings c
        else if d'.counts c < 2 ∨ d'.energies c = 0 then 1
        else Real.sqrt (R.gamma c (1.5 * ((d'.counts c : ℝ) - 1)) P.bulkThermostatTargetkT /
          d'.energies c)) ∧
    ps' = ps.map (outcome P R t d'.scalings fun c =>
      centerOfMassVelocity (imageVelocity P R.gridShift t) (members P R.gridShift t c ps)) := by
  unfold Collide at h
  rw [if_neg hrun] at h
  obtain ⟨ops1, ops2, hperm1, hperm2, rfl, rfl⟩ := h
  have A := fun c hc => after_contributions (d := d) hperm1 c hc
  simp only at A
  set d₁ := applyOps ops1 (resetCollisionCellData P.cellCount d) with hd₁
  have B := fun c hc =>
    after_step1 hperm2 c (A c hc).1 (A c hc).2.1 (A c hc).2.2.1 (A c hc).2.2.2
  simp only at B
  set d₂ := applyOps ops2 d₁ with hd₂
  constructor
  · intro c hc
    obtain ⟨a1, a2, -, -⟩ := A c hc
    obtain ⟨b1, b2, b3, b4⟩ := B c hc
    rw [mbs_momenta, mbs_masses, mbs_energies, mbs_counts]
    refine ⟨b1.trans a1, b2.trans a2, b3, b4, ?_⟩
    unfold generateCollisionCellMBSFactors
    by_cases hk : P.bulkThermostatTargetkT = 0
    · simp only [if_pos hk]
      rw [hd₂, applyOps_scalings, hd₁, applyOps_scalings]
      rfl
    · simp only [if_neg hk, if_pos hc]
  · rw [List.map_map, List.map_map, List.map_map]
    apply List.map_congr_left
    intro p _
    have hc := cellOf_lt hP R.gridShift t p
    obtain ⟨a1, a2, -, -⟩ := A _ hc
    obtain ⟨b1, b2, -, -⟩ := B _ hc
    have c1 := com_eq a1 a2
    have c2 : getCollisionCellCenterOfMassVelocity
        (generateCollisionCellMBSFactors P R.gamma d₂) (cellOf P R.gridShift t p) =
        centerOfMassVelocity (imageVelocity P R.gridShift t)
          (members P R.gridShift t (cellOf P R.gridShift t p) ps) :=
      com_eq (by rw [mbs_momenta, b1, a1]) (by rw [mbs_masses, b2, a2])
    have e1 : stochasticRotationStep1 P R.axes d₁ (sortIntoCollisionCell P R.gridShift t p) =
        { pos := p.pos
          vel := (imageVelocity P R.gridShift t p - centerOfMassVelocity
            (imageVelocity P R.gridShift t)
            (members P R.gridShift t (cellOf P R.gridShift t p) ps)).cppRotate
              (R.axes (cellOf P R.gridShift t p)) P.srdCollisionAngle
          mass := p.mass
          velocityCorrection := (layerVelocity P R.gridShift t p).x
          collisionCellIndex := cellOf P R.gridShift t p } := by
      rw [← c1, ← sort_vel]
      rfl
    simp only [Function.comp, e1, stochasticRotationStep2, c2,
      undoLeesEdwardsVelocityCorrections, outcome, newVel, Particle.mk.injEq, true_and, and_true]
    ext <;> simp [layerVelocity]

end

/-! ## C16: the schedule does not matter -/

/-- Each cell's momentum, mass, particle count and relative kinetic energy are the sums over exactly
the particles in it, whatever the order of the atomic additions. -/
theorem C16_sums {P : Params} {R : Randomness} {t : ℝ} {d d' : CellData} {ps ps' : List Particle}
    (hP : P.Valid) (hrun : ¬ (P.srdCollisionAngle = 0 ∧ P.bulkThermostatTargetkT = 0))
    (h : Collide P R t d ps d' ps') (c : ℕ) (hc : c < P.cellCount) :
    d'.momenta c = momentum (imageVelocity P R.gridShift t) (members P R.gridShift t c ps) ∧
    d'.masses c = totalMass (members P R.gridShift t c ps) ∧
    d'.counts c = (members P R.gridShift t c ps).length ∧
    d'.energies c =
      relativeKineticEnergy (imageVelocity P R.gridShift t) (members P R.gridShift t c ps) := by
  obtain ⟨h1, h2, h3, h4, -⟩ := (collide_eq hP hrun h).1 c hc
  exact ⟨h1, h2, h4, h3⟩

/-- Two executions of the same step with different orders of the atomic additions end in the same
state. -/
theorem C16_deterministic {P : Params} {R : Randomness} {t : ℝ} {d d₁ d₂ : CellData}
    {ps ps₁ ps₂ : List Particle} (h₁ : Collide P R t d ps d₁ ps₁)
    (h₂ : Collide P R t d ps d₂ ps₂) : d₁ = d₂ ∧ ps₁ = ps₂ := by
  unfold Collide at h₁ h₂
  split_ifs at h₁ h₂ with hs
  · exact ⟨h₁.1.trans h₂.1.symm, h₁.2.trans h₂.2.symm⟩
  · obtain ⟨a, b, ha, hb, rfl, rfl⟩ := h₁
    obtain ⟨a', b', ha', hb', rfl, rfl⟩ := h₂
    have e1 : applyOps a (resetCollisionCellData P.cellCount d) =
        applyOps a' (resetCollisionCellData P.cellCount d) := applyOps_perm (ha.trans ha'.symm) _
    rw [e1] at hb ⊢
    rw [applyOps_perm (hb.trans hb'.symm)]
    exact ⟨rfl, rfl⟩

/-- Every state has a successor: the relation is not empty. -/
theorem C16_exists (P : Params) (R : Randomness) (t : ℝ) (d : CellData) (ps : List Particle) :
    ∃ d' ps', Collide P R t d ps d' ps' := by
  unfold Collide
  split_ifs
  · exact ⟨_, _, rfl, rfl⟩
  · exact ⟨_, _, _, _, List.Perm.refl _, List.Perm.refl _, rfl, rfl⟩

/-! ## C13, C14 -/

section

variable {P : Params} {R : Randomness} {t : ℝ} {d d' : CellData} {ps ps' : List Particle}

theorem outcome_pos (s : ℕ → ℝ) (V : ℕ → Vec3 ℝ) (p : Particle) :
    (outcome P R t s V p).pos = p.pos := rfl

theorem imageVelocity_outcome (s : ℕ → ℝ) (V : ℕ → Vec3 ℝ) (p : Particle) :
    imageVelocity P R.gridShift t (outcome P R t s V p) =
      newVel (R.axes (cellOf P R.gridShift t p)) P.srdCollisionAngle
        (s (cellOf P R.gridShift t p)) (V (cellOf P R.gridShift t p))
        (imageVelocity P R.gridShift t p) := by
  have : layerVelocity P R.gridShift t (outcome P R t s V p) = layerVelocity P R.gridShift t p := rfl
  rw [imageVelocity, this]
  simp only [outcome, sub_add_cancel]

theorem mem_members {c : ℕ} {p : Particle} :
    p ∈ members P R.gridShift t c ps ↔ p ∈ ps ∧ cellOf P R.gridShift t p = c := by
  simp [members]

theorem mass_ne_zero (hm : ∀ p ∈ ps, 0 < p.mass) {c : ℕ}
    (hne : members P R.gridShift t c ps ≠ []) :
    ((members P R.gridShift t c ps).map Particle.mass).sum ≠ 0 :=
  (sum_pos_of_mem (fun p hp => hm p (mem_members.1 hp).1) hne).ne'

theorem com_is_comVel (v : Particle → Vec3 ℝ) (L : List Particle) :
    centerOfMassVelocity v L = comVel L Particle.mass v := rfl

/-- The members of a cell after the collision. -/
theorem members_outcome (hP : P.Valid)
    (hrun : ¬ (P.srdCollisionAngle = 0 ∧ P.bulkThermostatTargetkT = 0))
    (h : Collide P R t d ps d' ps') (c : ℕ) :
    members P R.gridShift t c ps' = (members P R.gridShift t c ps).map
      (outcome P R t d'.scalings fun c =>
        centerOfMassVelocity (imageVelocity P R.gridShift t) (members P R.gridShift t c ps)) := by
  conv_lhs => rw [(collide_eq hP hrun h).2]
  exact members_map (fun p => outcome_pos _ _ p) _ _

/-- Sums over a cell after the collision. -/
theorem sum_members_outcome {M : Type*} [AddCommMonoid M] (hP : P.Valid)
    (hrun : ¬ (P.srdCollisionAngle = 0 ∧ P.bulkThermostatTargetkT = 0))
    (h : Collide P R t d ps d' ps') (c : ℕ) (f : ℝ → Vec3 ℝ → M) :
    ((members P R.gridShift t c ps').map fun p =>
      f p.mass (imageVelocity P R.gridShift t p)).sum =
    ((members P R.gridShift t c ps).map fun p =>
      f p.mass (newVel (R.axes c) P.srdCollisionAngle (d'.scalings c)
        (comVel (members P R.gridShift t c ps) Particle.mass (imageVelocity P R.gridShift t))
        (imageVelocity P R.gridShift t p))).sum := by
  rw [members_outcome hP hrun h, List.map_map]
  congr 1
  apply List.map_congr_left
  intro p hp
  have hpc := (mem_members.1 hp).2
  simp only [Function.comp, imageVelocity_outcome, hpc]
  rfl

/-- Positions and masses of the particles (and hence their cells) are not changed. -/
theorem C13_same_particles (hP : P.Valid) (h : Collide P R t d ps d' ps') :
    ps'.map Particle.pos = ps.map Particle.pos ∧ ps'.map Particle.mass = ps.map Particle.mass := by
  by_cases hrun : P.srdCollisionAngle = 0 ∧ P.bulkThermostatTargetkT = 0
  · unfold Collide at h
    rw [if_pos hrun] at h
    rw [h.2]
    exact ⟨rfl, rfl⟩
  · rw [(collide_eq hP hrun h).2, List.map_map, List.map_map]
    exact ⟨rfl, rfl⟩

/-- The momentum of each cell, in the frame of the cell (image velocities), is conserved; with or
without thermostat, for every scaling. -/
theorem C13_cell_momentum (hP : P.Valid) (hm : ∀ p ∈ ps, 0 < p.mass)
    (h : Collide P R t d ps d' ps') (c : ℕ) :
    momentum (imageVelocity P R.gridShift t) (members P R.gridShift t c ps') =
      momentum (imageVelocity P R.gridShift t) (members P R.gridShift t c ps) := by
  by_cases hrun : P.srdCollisionAngle = 0 ∧ P.bulkThermostatTargetkT = 0
  · unfold Collide at h
    rw [if_pos hrun] at h
    rw [h.2]
  by_cases hne : members P R.gridShift t c ps = []
  · rw [members_outcome hP hrun h, hne]
    rfl
  · unfold momentum
    rw [sum_members_outcome hP hrun h c fun m v => m • v]
    exact cell_momentum _ _ _ (mass_ne_zero hm hne)

/-- The momentum of each cell in terms of the particles' own velocities is conserved. -/
theorem C13_cell_momentum_lab (hP : P.Valid) (hm : ∀ p ∈ ps, 0 < p.mass)
    (h : Collide P R t d ps d' ps') (c : ℕ) :
    momentum Particle.vel (members P R.gridShift t c ps') =
      momentum Particle.vel (members P R.gridShift t c ps) := by
  have e : ∀ L : List Particle, momentum Particle.vel L =
      momentum (imageVelocity P R.gridShift t) L -
        (L.map fun p => p.mass • layerVelocity P R.gridShift t p).sum := by
    intro L
    unfold momentum
    rw [← sum_sub]
    congr 1
    apply List.map_congr_left
    intro p _
    rw [← smul_sub, imageVelocity, add_sub_cancel_right]
  rw [e, e, C13_cell_momentum hP hm h]
  congr 1
  by_cases hrun : P.srdCollisionAngle = 0 ∧ P.bulkThermostatTargetkT = 0
  · unfold Collide at h
    rw [if_pos hrun] at h
    rw [h.2]
  · rw [members_outcome hP hrun h, List.map_map]
    rfl

/-- The total momentum is conserved, with or without thermostat. -/
theorem C13_momentum (hP : P.Valid) (hm : ∀ p ∈ ps, 0 < p.mass)
    (h : Collide P R t d ps d' ps') :
    momentum Particle.vel ps' = momentum Particle.vel ps := by
  unfold momentum
  rw [sum_cells ps' (cellOf P R.gridShift t) P.cellCount fun p _ => cellOf_lt hP _ _ _,
    sum_cells ps (cellOf P R.gridShift t) P.cellCount fun p _ => cellOf_lt hP _ _ _]
  exact Finset.sum_congr rfl fun c _ => C13_cell_momentum_lab hP hm h c

theorem cell_relative (hP : P.Valid) (hm : ∀ p ∈ ps, 0 < p.mass)
    (hrun : ¬ (P.srdCollisionAngle = 0 ∧ P.bulkThermostatTargetkT = 0))
    (h : Collide P R t d ps d' ps') (c : ℕ) (haxis : (R.axes c).getLength = 1) :
    relativeKineticEnergy (imageVelocity P R.gridShift t) (members P R.gridShift t c ps') =
      d'.scalings c ^ 2 *
        relativeKineticEnergy (imageVelocity P R.gridShift t) (members P R.gridShift t c ps) := by
  by_cases hne : members P R.gridShift t c ps = []
  · rw [members_outcome hP hrun h, hne]
    simp [relativeKineticEnergy, kineticEnergy]
  · have hV : centerOfMassVelocity (imageVelocity P R.gridShift t)
        (members P R.gridShift t c ps') = centerOfMassVelocity (imageVelocity P R.gridShift t)
        (members P R.gridShift t c ps) := by
      unfold centerOfMassVelocity
      rw [C13_cell_momentum hP hm h]
      congr 2
      unfold totalMass
      rw [members_outcome hP hrun h, List.map_map]
      rfl
    unfold relativeKineticEnergy
    rw [hV]
    unfold kineticEnergy
    rw [sum_members_outcome hP hrun h c fun m v =>
      m * (v - centerOfMassVelocity (imageVelocity P R.gridShift t)
        (members P R.gridShift t c ps)).dot (v - centerOfMassVelocity
        (imageVelocity P R.gridShift t) (members P R.gridShift t c ps)) / 2]
    exact cell_relative_energy _ _ _ (Vec3.unit_lengthSquared haxis)

/-- Without thermostat (target `0`, scalings as initialised), the kinetic energy of each cell is
conserved in the frame of the cell. -/
theorem C13_cell_energy (hP : P.Valid) (hm : ∀ p ∈ ps, 0 < p.mass)
    (hT : P.bulkThermostatTargetkT = 0) (hd : d.Initial)
    (h : Collide P R t d ps d' ps') (c : ℕ) (haxis : (R.axes c).getLength = 1) :
    kineticEnergy (imageVelocity P R.gridShift t) (members P R.gridShift t c ps') =
      kineticEnergy (imageVelocity P R.gridShift t) (members P R.gridShift t c ps) := by
  by_cases hrun : P.srdCollisionAngle = 0 ∧ P.bulkThermostatTargetkT = 0
  · unfold Collide at h
    rw [if_pos hrun] at h
    rw [h.2]
  by_cases hne : members P R.gridShift t c ps = []
  · rw [members_outcome hP hrun h, hne]
    rfl
  · have hc : c < P.cellCount := by
      obtain ⟨p, hp⟩ := List.exists_mem_of_ne_nil _ hne
      rw [← (mem_members.1 hp).2]
      exact cellOf_lt hP _ _ _
    have hs : d'.scalings c = 1 := by
      rw [((collide_eq hP hrun h).1 c hc).2.2.2.2, if_pos hT, hd c]
    have hrel := cell_relative hP hm hrun h c haxis
    rw [hs, one_pow, one_mul] at hrel
    have hM := mass_ne_zero (R := R) (t := t) (P := P) hm hne
    have hMm : ((members P R.gridShift t c ps').map Particle.mass).sum =
        ((members P R.gridShift t c ps).map Particle.mass).sum := by
      rw [members_outcome hP hrun h, List.map_map]
      rfl
    have hmom := C13_cell_momentum hP hm h c
    unfold momentum at hmom
    unfold kineticEnergy
    rw [energy_split hM, energy_split (by rw [hMm]; exact hM)]
    unfold relativeKineticEnergy kineticEnergy at hrel
    simp only [com_is_comVel] at hrel
    rw [hrel, hMm]
    congr 3
    unfold comVel
    rw [hmom, hMm]

/-- The cells not yet scaled stay unscaled. -/
theorem C13_initial (hT : P.bulkThermostatTargetkT = 0) (hd : d.Initial)
    (h : Collide P R t d ps d' ps') : d'.Initial := by
  unfold Collide at h
  split_ifs at h with hs
  · rw [h.1]; exact hd
  · obtain ⟨a, b, -, -, rfl, -⟩ := h
    intro c
    unfold generateCollisionCellMBSFactors
    rw [if_pos hT, applyOps_scalings, applyOps_scalings]
    exact hd c

/-- Without shear and without thermostat, the total kinetic energy is conserved. -/
theorem C13_energy (hP : P.Valid) (hm : ∀ p ∈ ps, 0 < p.mass)
    (hT : P.bulkThermostatTargetkT = 0) (hd : d.Initial) (hshear : P.shearRate = 0)
    (haxis : ∀ c < P.cellCount, (R.axes c).getLength = 1) (h : Collide P R t d ps d' ps') :
    kineticEnergy Particle.vel ps' = kineticEnergy Particle.vel ps := by
  have hl : ∀ p, imageVelocity P R.gridShift t p = p.vel := by
    intro p
    unfold imageVelocity layerVelocity hostImage
    ext <;> simp [hshear]
  have key : ∀ c < P.cellCount, _ :=
    fun c hc => C13_cell_energy hP hm hT hd h c (haxis c hc)
  simp only [kineticEnergy, hl] at key
  unfold kineticEnergy
  rw [sum_cells ps' (cellOf P R.gridShift t) P.cellCount fun p _ => cellOf_lt hP _ _ _,
    sum_cells ps (cellOf P R.gridShift t) P.cellCount fun p _ => cellOf_lt hP _ _ _]
  exact Finset.sum_congr rfl fun c hc => key c (Finset.mem_range.1 hc)

/-- With shear: the total kinetic energy of the images is conserved. -/
theorem C13_energy_images (hP : P.Valid) (hm : ∀ p ∈ ps, 0 < p.mass)
    (hT : P.bulkThermostatTargetkT = 0) (hd : d.Initial)
    (haxis : ∀ c < P.cellCount, (R.axes c).getLength = 1) (h : Collide P R t d ps d' ps') :
    kineticEnergy (imageVelocity P R.gridShift t) ps' =
      kineticEnergy (imageVelocity P R.gridShift t) ps := by
  have key : ∀ c < P.cellCount, _ :=
    fun c hc => C13_cell_energy hP hm hT hd h c (haxis c hc)
  unfold kineticEnergy
  rw [sum_cells ps' (cellOf P R.gridShift t) P.cellCount fun p _ => cellOf_lt hP _ _ _,
    sum_cells ps (cellOf P R.gridShift t) P.cellCount fun p _ => cellOf_lt hP _ _ _]
  exact Finset.sum_congr rfl fun c hc => key c (Finset.mem_range.1 hc)

theorem relative_nonneg (hm : ∀ p ∈ ps, 0 < p.mass) (c : ℕ) :
    0 ≤ relativeKineticEnergy (imageVelocity P R.gridShift t) (members P R.gridShift t c ps) := by
  apply List.sum_nonneg
  intro x hx
  obtain ⟨p, hp, rfl⟩ := List.mem_map.1 hx
  have := hm p (mem_members.1 hp).1
  have h2 := Vec3.dot_self_nonneg (imageVelocity P R.gridShift t p -
    centerOfMassVelocity (imageVelocity P R.gridShift t) (members P R.gridShift t c ps))
  positivity

/-- C14: with thermostat, a cell with at least two particles and non-zero relative kinetic energy ends
up with exactly the drawn relative kinetic energy; the draw is from the gamma distribution of shape
`3 (n - 1) / 2` and scale `kT`. -/
theorem C14_energy (hP : P.Valid) (hm : ∀ p ∈ ps, 0 < p.mass)
    (hT : P.bulkThermostatTargetkT ≠ 0) (h : Collide P R t d ps d' ps') (c : ℕ)
    (haxis : (R.axes c).getLength = 1)
    (hn : 2 ≤ (members P R.gridShift t c ps).length)
    (hE : relativeKineticEnergy (imageVelocity P R.gridShift t) (members P R.gridShift t c ps) ≠ 0)
    (hg : 0 ≤ R.gamma c (3 * (((members P R.gridShift t c ps).length : ℝ) - 1) / 2)
      P.bulkThermostatTargetkT) :
    relativeKineticEnergy (imageVelocity P R.gridShift t) (members P R.gridShift t c ps') =
      R.gamma c (3 * (((members P R.gridShift t c ps).length : ℝ) - 1) / 2)
        P.bulkThermostatTargetkT := by
  have hrun : ¬ (P.srdCollisionAngle = 0 ∧ P.bulkThermostatTargetkT = 0) := fun x => hT x.2
  have hne : members P R.gridShift t c ps ≠ [] := by
    intro e; rw [e] at hn; simp at hn
  have hc : c < P.cellCount := by
    obtain ⟨p, hp⟩ := List.exists_mem_of_ne_nil _ hne
    rw [← (mem_members.1 hp).2]
    exact cellOf_lt hP _ _ _
  obtain ⟨-, -, h3, h4, h5⟩ := (collide_eq hP hrun h).1 c hc
  rw [if_neg hT, if_neg (by rw [h3, h4]; push Not; exact ⟨hn, hE⟩), h3, h4] at h5
  have e : (1.5 : ℝ) * (((members P R.gridShift t c ps).length : ℝ) - 1) =
      3 * (((members P R.gridShift t c ps).length : ℝ) - 1) / 2 := by ring
  rw [e] at h5
  rw [cell_relative hP hm hrun h c haxis, h5, Real.sq_sqrt
    (div_nonneg hg (relative_nonneg hm c)), div_mul_cancel₀ _ hE]

/-- C14: cells with fewer than two particles, or without relative motion, are left as they are. -/
theorem C14_unscaled (hP : P.Valid) (hm : ∀ p ∈ ps, 0 < p.mass)
    (hT : P.bulkThermostatTargetkT ≠ 0) (h : Collide P R t d ps d' ps') (c : ℕ)
    (haxis : (R.axes c).getLength = 1)
    (hn : (members P R.gridShift t c ps).length < 2 ∨
      relativeKineticEnergy (imageVelocity P R.gridShift t) (members P R.gridShift t c ps) = 0) :
    relativeKineticEnergy (imageVelocity P R.gridShift t) (members P R.gridShift t c ps') =
      relativeKineticEnergy (imageVelocity P R.gridShift t) (members P R.gridShift t c ps) := by
  have hrun : ¬ (P.srdCollisionAngle = 0 ∧ P.bulkThermostatTargetkT = 0) := fun x => hT x.2
  by_cases hne : members P R.gridShift t c ps = []
  · rw [members_outcome hP hrun h, hne]
    rfl
  have hc : c < P.cellCount := by
    obtain ⟨p, hp⟩ := List.exists_mem_of_ne_nil _ hne
    rw [← (mem_members.1 hp).2]
    exact cellOf_lt hP _ _ _
  obtain ⟨-, -, h3, h4, h5⟩ := (collide_eq hP hrun h).1 c hc
  rw [if_neg hT, if_pos (by rw [h3, h4]; exact hn)] at h5
  rw [cell_relative hP hm hrun h c haxis, h5, one_pow, one_mul]

/-- C14: the momentum of every cell is kept with the thermostat. -/
theorem C14_momentum (hP : P.Valid) (hm : ∀ p ∈ ps, 0 < p.mass)
    (h : Collide P R t d ps d' ps') (c : ℕ) :
    momentum Particle.vel (members P R.gridShift t c ps') =
      momentum Particle.vel (members P R.gridShift t c ps) := C13_cell_momentum_lab hP hm h c

/-! ## C19 -/

/-- Sorting and undoing without anything in between restores the velocity. -/
theorem C19_restored (P : Params) (shift : Vec3 ℝ) (t : ℝ) (p : Particle) :
    (undoLeesEdwardsVelocityCorrections (sortIntoCollisionCell P shift t p)).vel = p.vel := by
  ext <;> simp [undoLeesEdwardsVelocityCorrections, sortIntoCollisionCell]

/-- Any change of velocities between sorting and undoing appears unchanged in the result. -/
theorem C19_difference (P : Params) (shift : Vec3 ℝ) (t : ℝ) (p : Particle) (v : Vec3 ℝ) :
    (undoLeesEdwardsVelocityCorrections
      { sortIntoCollisionCell P shift t p with vel := v }).vel - p.vel =
      v - (sortIntoCollisionCell P shift t p).vel := by
  ext <;> simp [undoLeesEdwardsVelocityCorrections, sortIntoCollisionCell] <;> ring

/-- A particle alone in its cell keeps its velocity. -/
theorem C19_alone (hP : P.Valid) (hm : ∀ p ∈ ps, 0 < p.mass) (h : Collide P R t d ps d' ps')
    (c : ℕ) (p : Particle) (hp : members P R.gridShift t c ps = [p]) :
    (members P R.gridShift t c ps').map Particle.vel = [p.vel] := by
  by_cases hrun : P.srdCollisionAngle = 0 ∧ P.bulkThermostatTargetkT = 0
  · unfold Collide at h
    rw [if_pos hrun] at h
    rw [h.2, hp]
    rfl
  have hmem : p ∈ members P R.gridShift t c ps := by rw [hp]; exact List.mem_singleton_self _
  have hpc := (mem_members.1 hmem).2
  have hmp := (hm p (mem_members.1 hmem).1).ne'
  rw [members_outcome hP hrun h, hp]
  simp only [List.map_cons, List.map_nil, outcome, hpc, hp]
  have hV : centerOfMassVelocity (imageVelocity P R.gridShift t) [p] =
      imageVelocity P R.gridShift t p := by
    simp only [centerOfMassVelocity, totalMass, momentum, List.map_cons, List.map_nil,
      List.sum_cons, List.sum_nil, add_zero]
    rw [smul_smul, inv_mul_cancel₀ hmp, one_smul]
  rw [hV, newVel, sub_self, cppRotate_zero, smul_zero, zero_add, imageVelocity,
    add_sub_cancel_right]

/-! ## Whole runs -/

/-- Streaming that keeps masses and total momentum. -/
def KeepsMomentum (stream : List Particle → List Particle → Prop) : Prop :=
  ∀ ps ps', stream ps ps' → ps'.map Particle.mass = ps.map Particle.mass ∧
    momentum Particle.vel ps' = momentum Particle.vel ps

theorem pos_of_masses {ps ps' : List Particle} (h : ps'.map Particle.mass = ps.map Particle.mass)
    (hm : ∀ p ∈ ps, 0 < p.mass) : ∀ p ∈ ps', 0 < p.mass := by
  intro p hp
  have : p.mass ∈ ps'.map Particle.mass := List.mem_map_of_mem hp
  rw [h] at this
  obtain ⟨q, hq, e⟩ := List.mem_map.1 this
  rw [← e]
  exact hm q hq

/-- Over any number of steps the total momentum is conserved, with or without thermostat, for all
random numbers and all schedules. -/
theorem C13_run_momentum {P : Params} (hP : P.Valid) {dt : ℝ} {rnd : Randomness → Prop}
    {stream : List Particle → List Particle → Prop} (hs : KeepsMomentum stream) {n : ℕ}
    {s s' : ℝ × CellData × List Particle} (hm : ∀ p ∈ s.2.2, 0 < p.mass)
    (h : Run P dt rnd stream n s s') :
    momentum Particle.vel s'.2.2 = momentum Particle.vel s.2.2 ∧
      s'.2.2.map Particle.mass = s.2.2.map Particle.mass ∧ s'.1 = s.1 + n * dt := by
  induction h with
  | zero => simp
  | succ R hR h hstr hc ih =>
    obtain ⟨i1, i2, i3⟩ := ih hm
    obtain ⟨j1, j2⟩ := hs _ _ hstr
    have hm' := pos_of_masses (j1.trans i2) hm
    refine ⟨?_, ?_, ?_⟩
    · exact (C13_momentum hP hm' hc).trans (j2.trans i1)
    · exact (C13_same_particles hP hc).2.trans (j1.trans i2)
    · simp only at i3 ⊢
      rw [i3]
      push_cast
      ring

/-- Ballistic streaming keeps the momentum. -/
theorem streamSimple_keeps (dt : ℝ) :
    KeepsMomentum fun ps ps' => ps' = ps.map (streamSimple dt) := by
  rintro ps ps' rfl
  unfold momentum
  rw [List.map_map, List.map_map]
  exact ⟨rfl, rfl⟩

/-- A simulation of point particles without shear and without thermostat conserves the energy over
any number of steps. -/
theorem C13_run_energy {P : Params} (hP : P.Valid) (hT : P.bulkThermostatTargetkT = 0)
    (hshear : P.shearRate = 0) {dt : ℝ} {n : ℕ} {s s' : ℝ × CellData × List Particle}
    (hd : s.2.1.Initial) (hm : ∀ p ∈ s.2.2, 0 < p.mass)
    (h : Run P dt (fun R => ∀ c < P.cellCount, (R.axes c).getLength = 1)
      (fun ps ps' => ps' = ps.map (streamSimple dt)) n s s') :
    kineticEnergy Particle.vel s'.2.2 = kineticEnergy Particle.vel s.2.2 ∧ s'.2.1.Initial := by
  have key : kineticEnergy Particle.vel s'.2.2 = kineticEnergy Particle.vel s.2.2 ∧
      s'.2.1.Initial ∧ s'.2.2.map Particle.mass = s.2.2.map Particle.mass := by
    induction h with
    | zero => exact ⟨rfl, hd, rfl⟩
    | succ R hR h hstr hc ih =>
      obtain ⟨i1, i2, i3⟩ := ih hd hm
      simp only at i1 i2 i3
      subst hstr
      have e1 : ∀ qs : List Particle, kineticEnergy Particle.vel (qs.map (streamSimple dt)) =
          kineticEnergy Particle.vel qs := by
        intro qs; unfold kineticEnergy; rw [List.map_map]; rfl
      have e2 : ∀ qs : List Particle, (qs.map (streamSimple dt)).map Particle.mass =
          qs.map Particle.mass := by
        intro qs; rw [List.map_map]; rfl
      have hm' := pos_of_masses ((e2 _).trans i3) hm
      exact ⟨(C13_energy hP hm' hT i2 hshear hR hc).trans ((e1 _).trans i1),
        C13_initial hT i2 hc, (C13_same_particles hP hc).2.trans ((e2 _).trans i3)⟩
  exact ⟨key.1, key.2.1⟩

end

/-! ## The hypotheses can be met -/

/-- Two particles of different mass in one cell of a 2 x 2 x 2 box, with thermostat. -/
example : ∃ (P : Params) (R : Randomness) (ps : List Particle), P.Valid ∧
    P.bulkThermostatTargetkT ≠ 0 ∧ (∀ p ∈ ps, 0 < p.mass) ∧ (∀ c, (R.axes c).getLength = 1) ∧
    2 ≤ (members P R.gridShift 0 0 ps).length ∧
    relativeKineticEnergy (imageVelocity P R.gridShift 0) (members P R.gridShift 0 0 ps) ≠ 0 := by
  let P : Params := ⟨2, 2, 2, 0, 1, 1⟩
  let R : Randomness := ⟨0, fun _ => ⟨1, 0, 0⟩, fun _ _ _ => 1⟩
  let p : Particle := ⟨⟨0, 0, 0⟩, ⟨1, 0, 0⟩, 1, 0, 0⟩
  let q : Particle := ⟨⟨1/2, 0, 0⟩, ⟨-1, 0, 0⟩, 3, 0, 0⟩
  have hin : ∀ x : ℝ, 0 ≤ x → x < 1 →
      hostImage (⟨x, 0, 0⟩ : Vec3 ℝ) 0 0 2 2 2 = (⟨x, 0, 0⟩, 0) := by
    intro x h0 h1
    apply C18_identity
    refine ⟨⟨h0, ?_⟩, ⟨le_refl _, ?_⟩, le_refl _, ?_⟩ <;> norm_num <;> linarith
  have hp : hostImage (p.pos + R.gridShift) 0 P.shearRate P.Lx P.Ly P.Lz = (⟨0, 0, 0⟩, 0) := by
    have := hin 0 (by norm_num) (by norm_num)
    have e : p.pos + R.gridShift = ⟨0, 0, 0⟩ := by ext <;> simp [p, R]
    rw [e]; exact this
  have hq : hostImage (q.pos + R.gridShift) 0 P.shearRate P.Lx P.Ly P.Lz = (⟨1/2, 0, 0⟩, 0) := by
    have := hin (1/2) (by norm_num) (by norm_num)
    have e : q.pos + R.gridShift = ⟨1/2, 0, 0⟩ := by ext <;> simp [q, R]
    rw [e]; exact this
  have cp : cellOf P R.gridShift 0 p = 0 := by
    unfold cellOf; rw [hp]; simp [getCollisionCellIndex]
  have cq : cellOf P R.gridShift 0 q = 0 := by
    unfold cellOf; rw [hq]
    have : ⌊(1/2 : ℝ)⌋₊ = 0 := Nat.floor_eq_zero.2 (by norm_num)
    simp only [getCollisionCellIndex, this]; simp
  have hmem : members P R.gridShift 0 0 [p, q] = [p, q] := by simp [members, cp, cq]
  have vp : imageVelocity P R.gridShift 0 p = ⟨1, 0, 0⟩ := by
    unfold imageVelocity layerVelocity; rw [hp]; ext <;> simp [p]
  have vq : imageVelocity P R.gridShift 0 q = ⟨-1, 0, 0⟩ := by
    unfold imageVelocity layerVelocity; rw [hq]; ext <;> simp [q]
  refine ⟨P, R, [p, q], ⟨by decide, by decide, by decide, by decide⟩, by norm_num [P], ?_, ?_, ?_, ?_⟩
  · intro x hx
    simp only [List.mem_cons, List.not_mem_nil, or_false] at hx
    rcases hx with rfl | rfl <;> norm_num [p, q]
  · intro c
    simp [R, Vec3.getLength, Vec3.getLengthSquared, Vec3.dot]
  · rw [hmem]; simp
  · rw [hmem]
    have hV : centerOfMassVelocity (imageVelocity P R.gridShift 0) [p, q] = ⟨-1/2, 0, 0⟩ := by
      simp only [centerOfMassVelocity, totalMass, momentum, List.map_cons, List.map_nil,
        List.sum_cons, List.sum_nil, vp, vq]
      ext <;> simp [p, q] <;> norm_num
    simp only [relativeKineticEnergy, kineticEnergy, hV, List.map_cons, List.map_nil,
      List.sum_cons, List.sum_nil, vp, vq, Vec3.dot, Vec3.sub_x, Vec3.sub_y, Vec3.sub_z]
    norm_num [p, q]

end OpenMPCD.Collide
