import Verif.Collide.Props

/-!
# The host reference implementation of the collision step

`src/OpenMPCD/ImplementationDetails/Simulation.cpp` implements the steps of a collision once more, as
sequential loops on the host, on the flat arrays that the program uses. The model here is on the
level of these arrays. `C79` states that this implementation and the model of the device code in
`Verif/Collide/Model.lean` compute the same, in every order of the device's atomic additions.
-/

set_option linter.dupNamespace false
set_option linter.unusedSimpArgs false

namespace OpenMPCD.Collide

/-! ## Model -/

/-- Reading through a `RemotelyStoredVector` of dimension 3,
`include/OpenMPCD/RemotelyStoredVector.hpp:42-60`. -/
def readVec (a : ℕ → ℝ) (i : ℕ) : Vec3 ℝ := ⟨a (3 * i + 0), a (3 * i + 1), a (3 * i + 2)⟩

/-- Writing a single array element. -/
def setAt {α : Type} (a : ℕ → α) (i : ℕ) (x : α) : ℕ → α := fun k => if k = i then x else a k

/-- Assignment to a `RemotelyStoredVector`, `include/OpenMPCD/RemotelyStoredVector.hpp:233-243`. -/
def writeVec (a : ℕ → ℝ) (i : ℕ) (v : Vec3 ℝ) : ℕ → ℝ :=
  setAt (setAt (setAt a (3 * i + 0) v.x) (3 * i + 1) v.y) (3 * i + 2) v.z

/-- The arrays that belong to the particles of one kind (fluid or solute), all of one mass. -/
structure Species where
  count : ℕ
  mass : ℝ
  positions : ℕ → ℝ
  velocities : ℕ → ℝ
  corrections : ℕ → ℝ
  indices : ℕ → ℕ

/-- The arrays that belong to the collision cells. -/
structure HostCells where
  momenta : ℕ → ℝ
  masses : ℕ → ℝ
  energies : ℕ → ℝ
  counts : ℕ → ℕ
  scalings : ℕ → ℝ

/-- `getCollisionCellIndex`, `src/OpenMPCD/ImplementationDetails/Simulation.cpp:12-34`, without the debug
assertion. -/
noncomputable def hostCollisionCellIndex (position : Vec3 ℝ) (boxSizeX boxSizeY : ℕ) : ℕ :=
  let cellX := ⌊position.x⌋₊ % 2 ^ 32
  let cellY := ⌊position.y⌋₊ % 2 ^ 32
  let cellZ := ⌊position.z⌋₊ % 2 ^ 32
  (cellZ * boxSizeX * boxSizeY + cellY * boxSizeX + cellX) % 2 ^ 32

/-- `sortIntoCollisionCellsLeesEdwards`, `Simulation.cpp:36-72`. -/
noncomputable def hostSortOne (gridShift : Vec3 ℝ) (shearRate mpcTime : ℝ) (Lx Ly Lz : ℕ)
    (s : Species) (particleID : ℕ) : Species :=
  let image := hostImage (readVec s.positions particleID + gridShift) mpcTime shearRate Lx Ly Lz
  { s with
    velocities := setAt s.velocities (3 * particleID + 0)
      (s.velocities (3 * particleID + 0) + image.2)
    corrections := setAt s.corrections particleID image.2
    indices := setAt s.indices particleID (hostCollisionCellIndex image.1 Lx Ly) }

/-- The caller's loop over all particles. -/
noncomputable def hostSort (gridShift : Vec3 ℝ) (shearRate mpcTime : ℝ) (Lx Ly Lz : ℕ)
    (s : Species) : Species :=
  (List.range s.count).foldl (hostSortOne gridShift shearRate mpcTime Lx Ly Lz) s

/-- One iteration of `collisionCellContributions`, `Simulation.cpp:84-98`. -/
noncomputable def hostContributionsOne (s : Species) (d : HostCells) (particleID : ℕ) : HostCells :=
  let c := s.indices particleID
  let momentum := readVec d.momenta c + s.mass • readVec s.velocities particleID
  { d with
    momenta := writeVec d.momenta c momentum
    masses := setAt d.masses c (d.masses c + s.mass) }

/-- `collisionCellContributions`, `Simulation.cpp:74-99`. -/
noncomputable def hostContributions (s : Species) (d : HostCells) : HostCells :=
  (List.range s.count).foldl (hostContributionsOne s) d

/-- `getCollisionCellCenterOfMassVelocity`, `Simulation.cpp:113-129`. -/
noncomputable def hostCenterOfMassVelocity (c : ℕ) (d : HostCells) : Vec3 ℝ :=
  ⟨(readVec d.momenta c).x / d.masses c, (readVec d.momenta c).y / d.masses c,
    (readVec d.momenta c).z / d.masses c⟩

/-- One iteration of `collisionCellStochasticRotationStep1`, `Simulation.cpp:143-173`. -/
noncomputable def hostStep1One (axes : ℕ → ℝ) (collisionAngle : ℝ) (sd : Species × HostCells)
    (particleID : ℕ) : Species × HostCells :=
  let c := sd.1.indices particleID
  let relativeVelocity := readVec sd.1.velocities particleID - hostCenterOfMassVelocity c sd.2
  let rotated := relativeVelocity.cppRotate (readVec axes c) collisionAngle
  ({ sd.1 with velocities := writeVec sd.1.velocities particleID rotated },
   { sd.2 with
      energies := setAt sd.2.energies c
        (sd.2.energies c + sd.1.mass * relativeVelocity.cppMagnitudeSquared / 2)
      counts := setAt sd.2.counts c (sd.2.counts c + 1) })

/-- `collisionCellStochasticRotationStep1`, `Simulation.cpp:131-174`. -/
noncomputable def hostStep1 (axes : ℕ → ℝ) (collisionAngle : ℝ) (sd : Species × HostCells) :
    Species × HostCells :=
  (List.range sd.1.count).foldl (hostStep1One axes collisionAngle) sd

/-- One iteration of `collisionCellStochasticRotationStep2`, `Simulation.cpp:184-204`. -/
noncomputable def hostStep2One (d : HostCells) (s : Species) (particleID : ℕ) : Species :=
  let c := s.indices particleID
  let v₁ := writeVec s.velocities particleID (d.scalings c • readVec s.velocities particleID)
  let new := readVec v₁ particleID + hostCenterOfMassVelocity c d
  { s with velocities := writeVec v₁ particleID new }

/-- `collisionCellStochasticRotationStep2`, `Simulation.cpp:176-205`. -/
noncomputable def hostStep2 (d : HostCells) (s : Species) : Species :=
  (List.range s.count).foldl (hostStep2One d) s

/-- One iteration of `undoLeesEdwardsVelocityCorrections`, `Simulation.cpp:212-219`. -/
noncomputable def hostUndoOne (s : Species) (particleID : ℕ) : Species :=
  let new := s.velocities (3 * particleID + 0) - s.corrections particleID
  { s with velocities := setAt s.velocities (3 * particleID + 0) new }

/-- `undoLeesEdwardsVelocityCorrections`, `Simulation.cpp:207-220`. -/
noncomputable def hostUndo (s : Species) : Species :=
  (List.range s.count).foldl hostUndoOne s

/-- The cell data as used in the model of the device code. -/
def HostCells.toCellData (d : HostCells) : CellData :=
  ⟨readVec d.momenta, d.masses, d.energies, d.counts, d.scalings⟩

open scoped Classical in
/-- A collision carried out with the host functions, first for the fluid, then for the solute, as
`Simulation::collide` does on the device (`src/OpenMPCD/CUDA/Simulation.cu:273-454`): clear the cells,
sort, sum up, rotate, choose the scalings of the thermostat (there is no host version of this; the
scalings are those of `generateCollisionCellMBSFactors`), add the cell velocity, undo the velocity
corrections. -/
noncomputable def hostCollide (P : Params) (R : Randomness) (axes : ℕ → ℝ) (mpcTime : ℝ)
    (d : HostCells) (fluid solute : Species) : HostCells × Species × Species :=
  if P.srdCollisionAngle = 0 ∧ P.bulkThermostatTargetkT = 0 then (d, fluid, solute)
  else
    let d₀ : HostCells :=
      { momenta := fun k => if k < 3 * P.cellCount then 0 else d.momenta k
        masses := fun c => if c < P.cellCount then 0 else d.masses c
        energies := fun c => if c < P.cellCount then 0 else d.energies c
        counts := fun c => if c < P.cellCount then 0 else d.counts c
        scalings := d.scalings }
    let f₁ := hostSort R.gridShift P.shearRate mpcTime P.Lx P.Ly P.Lz fluid
    let s₁ := hostSort R.gridShift P.shearRate mpcTime P.Lx P.Ly P.Lz solute
    let d₁ := hostContributions s₁ (hostContributions f₁ d₀)
    let f₂ := hostStep1 axes P.srdCollisionAngle (f₁, d₁)
    let s₂ := hostStep1 axes P.srdCollisionAngle (s₁, f₂.2)
    let d₃ : HostCells := { s₂.2 with
      scalings := (generateCollisionCellMBSFactors P R.gamma s₂.2.toCellData).scalings }
    (d₃, hostUndo (hostStep2 d₃ f₂.1), hostUndo (hostStep2 d₃ s₂.1))

/-! ## Specification -/

/-- One particle of a species. -/
def Species.particle (s : Species) (i : ℕ) : Particle :=
  ⟨readVec s.positions i, readVec s.velocities i, s.mass, s.corrections i, s.indices i⟩

/-- The particles whose data the arrays hold. -/
def Species.particles (s : Species) : List Particle := (List.range s.count).map s.particle

/-! ## Proofs -/

theorem readVec_setAt_x (a : ℕ → ℝ) (i j : ℕ) (x : ℝ) :
    readVec (setAt a (3 * i + 0) x) j =
      if j = i then ⟨x, (readVec a i).y, (readVec a i).z⟩ else readVec a j := by
  have h1 : 3 * j + 1 ≠ 3 * i + 0 := by omega
  have h2 : 3 * j + 2 ≠ 3 * i + 0 := by omega
  by_cases h : j = i
  · subst h
    simp only [readVec, setAt, if_true, if_neg h1, if_neg h2]
  · have h0 : 3 * j + 0 ≠ 3 * i + 0 := by omega
    simp only [readVec, setAt, if_neg h0, if_neg h1, if_neg h2, if_neg h]

theorem readVec_writeVec (a : ℕ → ℝ) (i j : ℕ) (v : Vec3 ℝ) :
    readVec (writeVec a i v) j = if j = i then v else readVec a j := by
  by_cases h : j = i
  · subst h
    have h1 : 3 * j + 0 ≠ 3 * j + 1 := by omega
    have h2 : 3 * j + 0 ≠ 3 * j + 2 := by omega
    have h3 : 3 * j + 1 ≠ 3 * j + 2 := by omega
    simp only [readVec, writeVec, setAt, if_true, if_neg h1, if_neg h2, if_neg h3]
  · have e : ∀ x y : ℕ, x < 3 → y < 3 → 3 * j + x ≠ 3 * i + y := by intro x y hx hy; omega
    simp only [readVec, writeVec, setAt, if_neg h, if_neg (e _ _ (by omega : 0 < 3) (by omega : 0 < 3)),
      if_neg (e _ _ (by omega : 0 < 3) (by omega : 1 < 3)),
      if_neg (e _ _ (by omega : 0 < 3) (by omega : 2 < 3)),
      if_neg (e _ _ (by omega : 1 < 3) (by omega : 0 < 3)),
      if_neg (e _ _ (by omega : 1 < 3) (by omega : 1 < 3)),
      if_neg (e _ _ (by omega : 1 < 3) (by omega : 2 < 3)),
      if_neg (e _ _ (by omega : 2 < 3) (by omega : 0 < 3)),
      if_neg (e _ _ (by omega : 2 < 3) (by omega : 1 < 3)),
      if_neg (e _ _ (by omega : 2 < 3) (by omega : 2 < 3))]

/-- A loop whose iteration `i` changes particle `i` only. -/
theorem loop_particles (f : Species → ℕ → Species) (g : Particle → Particle)
    (hcount : ∀ s i, (f s i).count = s.count)
    (hf : ∀ s i j, (f s i).particle j = if j = i then g (s.particle i) else s.particle j)
    (s : Species) (n : ℕ) :
    ((List.range n).foldl f s).count = s.count ∧
    ∀ j, ((List.range n).foldl f s).particle j =
      if j < n then g (s.particle j) else s.particle j := by
  induction n with
  | zero => exact ⟨rfl, fun j => by simp⟩
  | succ n ih =>
    rw [List.range_succ, List.foldl_append, List.foldl_cons, List.foldl_nil]
    refine ⟨by rw [hcount, ih.1], fun j => ?_⟩
    rw [hf]
    by_cases h : j = n
    · subst h
      rw [if_pos rfl, if_pos (Nat.lt_succ_self _), ih.2, if_neg (lt_irrefl _)]
    · rw [if_neg h, ih.2]
      by_cases h' : j < n
      · rw [if_pos h', if_pos (by omega)]
      · rw [if_neg h', if_neg (by omega)]

theorem particles_map (s s' : Species) (g : Particle → Particle) (hc : s'.count = s.count)
    (h : ∀ j < s.count, s'.particle j = g (s.particle j)) :
    s'.particles = s.particles.map g := by
  unfold Species.particles
  rw [hc, List.map_map]
  exact List.map_congr_left fun j hj => h j (List.mem_range.1 hj)

theorem loop_particles' (f : Species → ℕ → Species) (g : Particle → Particle)
    (hcount : ∀ s i, (f s i).count = s.count)
    (hf : ∀ s i j, (f s i).particle j = if j = i then g (s.particle i) else s.particle j)
    (s : Species) :
    ((List.range s.count).foldl f s).particles = s.particles.map g := by
  obtain ⟨h1, h2⟩ := loop_particles f g hcount hf s s.count
  exact particles_map _ _ _ h1 fun j hj => by rw [h2, if_pos hj]

theorem hostSort_particles (P : Params) (shift : Vec3 ℝ) (t : ℝ) (s : Species) :
    (hostSort shift P.shearRate t P.Lx P.Ly P.Lz s).particles =
      s.particles.map (sortIntoCollisionCell P shift t) := by
  apply loop_particles'
  · intro s i; rfl
  · intro s i j
    simp only [hostSortOne, Species.particle, readVec_setAt_x]
    by_cases h : j = i
    · subst h
      simp only [if_true, setAt]
      rfl
    · simp only [if_neg h, setAt]

theorem hostStep2_particles (d : HostCells) (s : Species) :
    (hostStep2 d s).particles = s.particles.map (stochasticRotationStep2 d.toCellData) := by
  apply loop_particles'
  · intro s i; rfl
  · intro s i j
    simp only [hostStep2One, Species.particle, readVec_writeVec]
    by_cases h : j = i
    · subst h; simp only [if_true]; rfl
    · simp only [if_neg h]

theorem hostUndo_particles (s : Species) :
    (hostUndo s).particles = s.particles.map undoLeesEdwardsVelocityCorrections := by
  apply loop_particles'
  · intro s i; rfl
  · intro s i j
    simp only [hostUndoOne, Species.particle, readVec_setAt_x]
    by_cases h : j = i
    · subst h; simp only [if_true]; rfl
    · simp only [if_neg h]

theorem hostContributions_cells (s : Species) (d : HostCells) :
    (hostContributions s d).toCellData =
      applyOps (s.particles.flatMap collisionCellContributions) d.toCellData := by
  unfold hostContributions Species.particles
  generalize s.count = n
  induction n with
  | zero => rfl
  | succ n ih =>
    rw [List.range_succ, List.foldl_append, List.map_append, List.flatMap_append]
    simp only [applyOps, List.foldl_append] at ih ⊢
    rw [← ih]
    simp only [List.map_cons, List.map_nil, List.flatMap_cons, List.flatMap_nil, List.append_nil,
      List.foldl_cons, List.foldl_nil, collisionCellContributions, AtomicOp.apply,
      hostContributionsOne, HostCells.toCellData, Species.particle]
    congr 1
    · funext k
      rw [readVec_writeVec]
      by_cases h : k = s.indices n
      · subst h
        simp only [if_true]
        ext <;> simp [mul_comm]
      · simp only [if_neg h]
    · funext k
      by_cases h : k = s.indices n
      · subst h; simp [setAt]
      · simp only [setAt, if_neg h]

theorem hostStep1_both (P : Params) (axes : ℕ → ℝ) (R : Randomness)
    (hax : ∀ c, R.axes c = readVec axes c) (s : Species) (d : HostCells) :
    (hostStep1 axes P.srdCollisionAngle (s, d)).1.particles =
      s.particles.map (stochasticRotationStep1 P R.axes d.toCellData) ∧
    (hostStep1 axes P.srdCollisionAngle (s, d)).2.toCellData =
      applyOps (s.particles.flatMap (stochasticRotationStep1Ops d.toCellData)) d.toCellData ∧
    (hostStep1 axes P.srdCollisionAngle (s, d)).2.momenta = d.momenta ∧
    (hostStep1 axes P.srdCollisionAngle (s, d)).2.masses = d.masses := by
  have key : ∀ n, n ≤ s.count → ∀ r,
      r = (List.range n).foldl (hostStep1One axes P.srdCollisionAngle) (s, d) →
      r.1.count = s.count ∧
      (∀ j, r.1.particle j = if j < n then
        stochasticRotationStep1 P R.axes d.toCellData (s.particle j) else s.particle j) ∧
      r.2.toCellData = applyOps (((List.range n).map s.particle).flatMap
        (stochasticRotationStep1Ops d.toCellData)) d.toCellData ∧
      r.2.momenta = d.momenta ∧ r.2.masses = d.masses := by
    intro n
    induction n with
    | zero => rintro - r rfl; exact ⟨rfl, fun j => by simp, rfl, rfl, rfl⟩
    | succ n ih =>
      intro hn r hr
      rw [List.range_succ, List.foldl_append] at hr
      obtain ⟨h1, h2, h3, h4, h5⟩ := ih (by omega) _ rfl
      generalize (List.foldl _ (s, d) (List.range n)) = q at h1 h2 h3 h4 h5 hr
      simp only [List.foldl_cons, List.foldl_nil, hostStep1One] at hr
      subst hr
      have hpn : q.1.particle n = s.particle n := by rw [h2, if_neg (lt_irrefl _)]
      have hcom : ∀ c, hostCenterOfMassVelocity c q.2 =
          getCollisionCellCenterOfMassVelocity d.toCellData c := by
        intro c
        simp only [hostCenterOfMassVelocity, h4, h5, getCollisionCellCenterOfMassVelocity,
          HostCells.toCellData]
      have hi : q.1.indices n = s.indices n := congrArg Particle.collisionCellIndex hpn
      have hv : readVec q.1.velocities n = readVec s.velocities n := congrArg Particle.vel hpn
      have hm : q.1.mass = s.mass := congrArg Particle.mass hpn
      refine ⟨h1, fun j => ?_, ?_, h4, h5⟩
      · by_cases h : j = n
        · subst h
          rw [if_pos (Nat.lt_succ_self _), ← hpn]
          simp only [Species.particle, readVec_writeVec, if_true, stochasticRotationStep1, hcom, hax]
        · have : (if j < n + 1 then stochasticRotationStep1 P R.axes d.toCellData (s.particle j)
              else s.particle j) = q.1.particle j := by
            rw [h2]
            by_cases h' : j < n
            · rw [if_pos h', if_pos (by omega)]
            · rw [if_neg h', if_neg (by omega)]
          rw [this]
          simp only [Species.particle, readVec_writeVec, if_neg h]
      · rw [List.range_succ, List.map_append, List.flatMap_append]
        simp only [applyOps, List.foldl_append] at h3 ⊢
        rw [← h3]
        simp only [List.map_cons, List.map_nil, List.flatMap_cons, List.flatMap_nil,
          List.append_nil, List.foldl_cons, List.foldl_nil, stochasticRotationStep1Ops,
          AtomicOp.apply, Species.particle, hcom, hi, hv, hm, HostCells.toCellData]
        congr 1
        · funext k
          by_cases h : k = s.indices n
          · subst h; simp only [setAt, if_true]
          · simp only [setAt, if_neg h]
        · funext k
          by_cases h : k = s.indices n
          · subst h; simp only [setAt, if_true]
          · simp only [setAt, if_neg h]
  obtain ⟨h1, h2, h3, h4, h5⟩ := key s.count (le_refl _) _ rfl
  exact ⟨particles_map _ _ _ h1 fun j hj => (h2 j).trans (if_pos hj), h3, h4, h5⟩

/-- The relative velocities, and so the additions in step 1, only depend on momenta and masses. -/
theorem step1_congr (P : Params) (axes : ℕ → Vec3 ℝ) {d e : CellData} (h : d.momenta = e.momenta)
    (h' : d.masses = e.masses) :
    stochasticRotationStep1 P axes d = stochasticRotationStep1 P axes e ∧
    stochasticRotationStep1Ops d = stochasticRotationStep1Ops e := by
  have : getCollisionCellCenterOfMassVelocity d = getCollisionCellCenterOfMassVelocity e := by
    funext c; simp only [getCollisionCellCenterOfMassVelocity, h, h']
  exact ⟨by funext p; simp only [stochasticRotationStep1, this],
    by funext p; simp only [stochasticRotationStep1Ops, this]⟩

/-- The collision carried out by the host functions, on the arrays, is one of the possible outcomes of
the collision on the device. -/
theorem hostCollide_collide (P : Params) (R : Randomness) (axes : ℕ → ℝ)
    (hax : ∀ c, R.axes c = readVec axes c) (t : ℝ) (d : HostCells) (fluid solute : Species) :
    Collide P R t d.toCellData (fluid.particles ++ solute.particles)
      (hostCollide P R axes t d fluid solute).1.toCellData
      ((hostCollide P R axes t d fluid solute).2.1.particles ++
        (hostCollide P R axes t d fluid solute).2.2.particles) := by
  unfold Collide hostCollide
  by_cases hs : P.srdCollisionAngle = 0 ∧ P.bulkThermostatTargetkT = 0
  · rw [if_pos hs, if_pos hs]; exact ⟨rfl, rfl⟩
  · rw [if_neg hs, if_neg hs]
    simp only
    have hd₀ : HostCells.toCellData
        { momenta := fun k => if k < 3 * P.cellCount then 0 else d.momenta k
          masses := fun c => if c < P.cellCount then 0 else d.masses c
          energies := fun c => if c < P.cellCount then 0 else d.energies c
          counts := fun c => if c < P.cellCount then 0 else d.counts c
          scalings := d.scalings } = resetCollisionCellData P.cellCount d.toCellData := by
      simp only [HostCells.toCellData, resetCollisionCellData]
      congr 1
      funext c
      by_cases h : c < P.cellCount
      · have e : ∀ x < 3, 3 * c + x < 3 * P.cellCount := by intro x hx; omega
        simp only [readVec, if_pos h, if_pos (e 0 (by omega)), if_pos (e 1 (by omega)),
          if_pos (e 2 (by omega))]
        rfl
      · have e : ∀ x, ¬ 3 * c + x < 3 * P.cellCount := by intro x; omega
        simp only [readVec, if_neg h, if_neg (e 0), if_neg (e 1), if_neg (e 2)]
    set d₀ : HostCells := { momenta := fun k => if k < 3 * P.cellCount then 0 else d.momenta k
                            masses := fun c => if c < P.cellCount then 0 else d.masses c
                            energies := fun c => if c < P.cellCount then 0 else d.energies c
                            counts := fun c => if c < P.cellCount then 0 else d.counts c
                            scalings := d.scalings }
    set f₁ := hostSort R.gridShift P.shearRate t P.Lx P.Ly P.Lz fluid with hf₁
    set s₁ := hostSort R.gridShift P.shearRate t P.Lx P.Ly P.Lz solute with hs₁
    set d₁ := hostContributions s₁ (hostContributions f₁ d₀) with hd₁
    have ef : f₁.particles = _ := hostSort_particles P R.gridShift t fluid
    have es : s₁.particles = _ := hostSort_particles P R.gridShift t solute
    have e1 : d₁.toCellData = applyOps ((f₁.particles ++ s₁.particles).flatMap
        collisionCellContributions) (resetCollisionCellData P.cellCount d.toCellData) := by
      rw [hd₁, hostContributions_cells, hostContributions_cells, hd₀, List.flatMap_append, applyOps,
        applyOps, applyOps, List.foldl_append]
    obtain ⟨a1, a2, a3, a4⟩ := hostStep1_both P axes R hax f₁ d₁
    set f₂ := hostStep1 axes P.srdCollisionAngle (f₁, d₁)
    obtain ⟨b1, b2, b3, b4⟩ := hostStep1_both P axes R hax s₁ f₂.2
    set s₂ := hostStep1 axes P.srdCollisionAngle (s₁, f₂.2)
    have hc := step1_congr P R.axes (d := f₂.2.toCellData) (e := d₁.toCellData)
      (by simp only [HostCells.toCellData, a3]) (by simp only [HostCells.toCellData, a4])
    rw [hc.1] at b1
    rw [hc.2, a2] at b2
    refine ⟨_, _, List.Perm.refl _, List.Perm.refl _, ?_, ?_⟩
    all_goals rw [List.map_append, ← ef, ← es, ← e1]
    · have : HostCells.toCellData { s₂.2 with
          scalings := (generateCollisionCellMBSFactors P R.gamma s₂.2.toCellData).scalings } =
          generateCollisionCellMBSFactors P R.gamma s₂.2.toCellData := by
        simp only [generateCollisionCellMBSFactors]
        split_ifs <;> rfl
      rw [this, b2, List.flatMap_append, applyOps, applyOps, applyOps, List.foldl_append]
    · have : HostCells.toCellData { s₂.2 with
          scalings := (generateCollisionCellMBSFactors P R.gamma s₂.2.toCellData).scalings } =
          generateCollisionCellMBSFactors P R.gamma s₂.2.toCellData := by
        simp only [generateCollisionCellMBSFactors]
        split_ifs <;> rfl
      rw [hostUndo_particles, hostUndo_particles, hostStep2_particles, hostStep2_particles, this, a1,
        b1, b2, List.flatMap_append, applyOps, applyOps, applyOps, List.foldl_append]
      simp only [List.map_append]

/-- **C79**. Whatever the order in which the device's atomic additions take effect, the device ends
with exactly the cell data and the particles that the host reference implementation computes on its
arrays, for the fluid and for the solute. -/
theorem C79 (P : Params) (R : Randomness) (axes : ℕ → ℝ)
    (hax : ∀ c, R.axes c = readVec axes c) (t : ℝ) (d : HostCells) (fluid solute : Species)
    (d' : CellData) (ps' : List Particle)
    (h : Collide P R t d.toCellData (fluid.particles ++ solute.particles) d' ps') :
    d' = (hostCollide P R axes t d fluid solute).1.toCellData ∧
    ps' = (hostCollide P R axes t d fluid solute).2.1.particles ++
      (hostCollide P R axes t d fluid solute).2.2.particles :=
  C16_deterministic h (hostCollide_collide P R axes hax t d fluid solute)

/-- No array element beyond those of the particles is touched, and positions are not changed. -/
theorem C79_memory (P : Params) (R : Randomness) (axes : ℕ → ℝ) (t : ℝ) (d : HostCells)
    (fluid solute : Species) (s s' : Species)
    (hs : (s = fluid ∧ s' = (hostCollide P R axes t d fluid solute).2.1) ∨
      (s = solute ∧ s' = (hostCollide P R axes t d fluid solute).2.2)) :
    s'.count = s.count ∧ s'.mass = s.mass ∧ s'.positions = s.positions ∧
    (∀ k, 3 * s.count ≤ k → s'.velocities k = s.velocities k) ∧
    (∀ k, s.count ≤ k → s'.corrections k = s.corrections k) ∧
    ∀ k, s.count ≤ k → s'.indices k = s.indices k := by
  -- what every function preserves
  have key : ∀ {α : Type} (proj : α → Species) (f : α → ℕ → α)
      (_ : ∀ a i, (proj (f a i)).count = (proj a).count ∧ (proj (f a i)).mass = (proj a).mass ∧
        (proj (f a i)).positions = (proj a).positions ∧
        (∀ k, 3 * (i + 1) ≤ k → (proj (f a i)).velocities k = (proj a).velocities k) ∧
        (∀ k, i < k → (proj (f a i)).corrections k = (proj a).corrections k) ∧
        ∀ k, i < k → (proj (f a i)).indices k = (proj a).indices k) (a : α) (n : ℕ),
      (proj ((List.range n).foldl f a)).count = (proj a).count ∧
      (proj ((List.range n).foldl f a)).mass = (proj a).mass ∧
      (proj ((List.range n).foldl f a)).positions = (proj a).positions ∧
      (∀ k, 3 * n ≤ k → (proj ((List.range n).foldl f a)).velocities k = (proj a).velocities k) ∧
      (∀ k, n ≤ k → (proj ((List.range n).foldl f a)).corrections k = (proj a).corrections k) ∧
      ∀ k, n ≤ k → (proj ((List.range n).foldl f a)).indices k = (proj a).indices k := by
    intro α proj f hf a n
    induction n with
    | zero => exact ⟨rfl, rfl, rfl, fun _ _ => rfl, fun _ _ => rfl, fun _ _ => rfl⟩
    | succ n ih =>
      rw [List.range_succ, List.foldl_append, List.foldl_cons, List.foldl_nil]
      obtain ⟨i1, i2, i3, i4, i5, i6⟩ := ih
      obtain ⟨f1, f2, f3, f4, f5, f6⟩ := hf ((List.range n).foldl f a) n
      exact ⟨f1.trans i1, f2.trans i2, f3.trans i3,
        fun k hk => (f4 k hk).trans (i4 k (by omega)),
        fun k hk => (f5 k (by omega)).trans (i5 k (by omega)),
        fun k hk => (f6 k (by omega)).trans (i6 k (by omega))⟩
  have hset : ∀ (a : ℕ → ℝ) (i k : ℕ) (x : ℝ), 3 * (i + 1) ≤ k →
      setAt a (3 * i + 0) x k = a k := by
    intro a i k x hk
    simp only [setAt, if_neg (by omega : ¬ k = 3 * i + 0)]
  have hwrite : ∀ (a : ℕ → ℝ) (i k : ℕ) (v : Vec3 ℝ), 3 * (i + 1) ≤ k →
      writeVec a i v k = a k := by
    intro a i k v hk
    simp only [writeVec, setAt, if_neg (by omega : ¬ k = 3 * i + 0),
      if_neg (by omega : ¬ k = 3 * i + 1), if_neg (by omega : ¬ k = 3 * i + 2)]
  have hat : ∀ {β : Type} (a : ℕ → β) (i k : ℕ) (x : β), i < k → setAt a i x k = a k := by
    intro β a i k x hk
    simp only [setAt, if_neg (by omega : ¬ k = i)]
  have hsort : ∀ s : Species, _ := fun s => key (fun s : Species => s)
    (hostSortOne R.gridShift P.shearRate t P.Lx P.Ly P.Lz)
    (fun a i => ⟨rfl, rfl, rfl, fun k hk => hset _ _ _ _ hk, fun k hk => hat _ _ _ _ hk,
      fun k hk => hat _ _ _ _ hk⟩) s s.count
  have h1 : ∀ (s : Species) (e : HostCells), _ := fun s e => key
    (fun sd : Species × HostCells => sd.1) (hostStep1One axes P.srdCollisionAngle)
    (fun a i => ⟨rfl, rfl, rfl, fun k hk => hwrite _ _ _ _ hk, fun _ _ => rfl, fun _ _ => rfl⟩)
    (s, e) s.count
  have h2 : ∀ (s : Species) (e : HostCells), _ := fun s e => key (fun s : Species => s)
    (hostStep2One e)
    (fun a i => ⟨rfl, rfl, rfl, fun k hk => (hwrite _ _ _ _ hk).trans (hwrite _ _ _ _ hk),
      fun _ _ => rfl, fun _ _ => rfl⟩) s s.count
  have h3 : ∀ s : Species, _ := fun s => key (fun s : Species => s) hostUndoOne
    (fun a i => ⟨rfl, rfl, rfl, fun k hk => hset _ _ _ _ hk, fun _ _ => rfl, fun _ _ => rfl⟩)
    s s.count
  have comp : ∀ (s : Species) (e e' : HostCells),
      let a := hostSort R.gridShift P.shearRate t P.Lx P.Ly P.Lz s
      let b := (hostStep1 axes P.srdCollisionAngle (a, e)).1
      let c := hostStep2 e' b
      let s' := hostUndo c
      s'.count = s.count ∧ s'.mass = s.mass ∧ s'.positions = s.positions ∧
      (∀ k, 3 * s.count ≤ k → s'.velocities k = s.velocities k) ∧
      (∀ k, s.count ≤ k → s'.corrections k = s.corrections k) ∧
      ∀ k, s.count ≤ k → s'.indices k = s.indices k := by
    intro s e e' a b c s'
    obtain ⟨p1, p2, p3, p4, p5, p6⟩ := hsort s
    obtain ⟨q1, q2, q3, q4, q5, q6⟩ := h1 a e
    obtain ⟨r1, r2, r3, r4, r5, r6⟩ := h2 b e'
    obtain ⟨t1, t2, t3, t4, t5, t6⟩ := h3 c
    have ca : a.count = s.count := p1
    have cb : b.count = s.count := Eq.trans (b := a.count) q1 ca
    have cc : c.count = s.count := Eq.trans (b := b.count) r1 cb
    refine ⟨Eq.trans (b := c.count) t1 cc, ?_, ?_, fun k hk => ?_, fun k hk => ?_, fun k hk => ?_⟩
    · exact Eq.trans (b := c.mass) t2 (Eq.trans (b := b.mass) r2 (Eq.trans (b := a.mass) q2 p2))
    · exact Eq.trans (b := c.positions) t3
        (Eq.trans (b := b.positions) r3 (Eq.trans (b := a.positions) q3 p3))
    · exact Eq.trans (b := c.velocities k) (t4 k (by rw [cc]; exact hk))
        (Eq.trans (b := b.velocities k) (r4 k (by rw [cb]; exact hk))
          (Eq.trans (b := a.velocities k) (q4 k (by rw [ca]; exact hk)) (p4 k hk)))
    · exact Eq.trans (b := c.corrections k) (t5 k (by rw [cc]; exact hk))
        (Eq.trans (b := b.corrections k) (r5 k (by rw [cb]; exact hk))
          (Eq.trans (b := a.corrections k) (q5 k (by rw [ca]; exact hk)) (p5 k hk)))
    · exact Eq.trans (b := c.indices k) (t6 k (by rw [cc]; exact hk))
        (Eq.trans (b := b.indices k) (r6 k (by rw [cb]; exact hk))
          (Eq.trans (b := a.indices k) (q6 k (by rw [ca]; exact hk)) (p6 k hk)))
  unfold hostCollide at hs
  by_cases hz : P.srdCollisionAngle = 0 ∧ P.bulkThermostatTargetkT = 0
  · rw [if_pos hz] at hs
    rcases hs with ⟨rfl, rfl⟩ | ⟨rfl, rfl⟩ <;>
      exact ⟨rfl, rfl, rfl, fun _ _ => rfl, fun _ _ => rfl, fun _ _ => rfl⟩
  · rw [if_neg hz] at hs
    rcases hs with ⟨rfl, rfl⟩ | ⟨rfl, rfl⟩
    · exact comp _ _ _
    · exact comp _ _ _

/-- The hypotheses can be met, with fluid and solute particles of different mass, and the collision
does happen. -/
example : ∃ (P : Params) (R : Randomness) (axes : ℕ → ℝ) (d : HostCells) (fluid solute : Species)
    (d' : CellData) (ps' : List Particle), (∀ c, R.axes c = readVec axes c) ∧
    ¬ (P.srdCollisionAngle = 0 ∧ P.bulkThermostatTargetkT = 0) ∧ fluid.particles.length = 2 ∧
    solute.particles.length = 3 ∧ fluid.mass ≠ solute.mass ∧
    Collide P R 0 d.toCellData (fluid.particles ++ solute.particles) d' ps' := by
  let P : Params := ⟨2, 2, 2, 1, 1, 1⟩
  let R : Randomness := ⟨0, fun _ => ⟨1, 1, 1⟩, fun _ _ _ => 1⟩
  let d : HostCells := ⟨fun _ => 7, fun _ => 7, fun _ => 7, fun _ => 7, fun _ => 1⟩
  let fluid : Species := ⟨2, 1, fun k => k, fun k => - (k : ℝ), fun _ => 0, fun _ => 0⟩
  let solute : Species := ⟨3, 5, fun k => k, fun k => (k : ℝ), fun _ => 0, fun _ => 0⟩
  obtain ⟨d', ps', h⟩ := C16_exists P R 0 d.toCellData (fluid.particles ++ solute.particles)
  refine ⟨P, R, fun _ => 1, d, fluid, solute, d', ps', fun c => rfl, by norm_num [P], ?_, ?_, ?_, h⟩
  · simp [Species.particles, fluid]
  · simp [Species.particles, solute]
  · norm_num [fluid, solute]

end OpenMPCD.Collide
