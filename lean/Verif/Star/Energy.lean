import Verif.Star.Forces

/-!
# Star polymers: the potential energy computed in the analysis, and the forces of the simulation (C61, C62)
-/

set_option linter.unusedSimpArgs false

namespace OpenMPCD.Star

open Potentials Vec3

/-! ## Model -/

/-- The interaction parameters as configured; the orientation of the dipoles need not be given. -/
structure Config where
  epsilon : PType → ℝ
  sigma : PType → ℝ
  D : PType → ℝ
  magneticPrefactor : ℝ
  dipoleOrientation : Option (Vec3 ℝ)

/-- How the simulation reads them (`src/OpenMPCD/CUDA/MPCSolute/StarPolymers.cu:242-276`); `none`: the zero vector
is normalised. -/
noncomputable def Config.read (c : Config) : Option Parameters :=
  let magneticDipoleOrientation := c.dipoleOrientation.getD ⟨0, 0, 1⟩
  magneticDipoleOrientation.cppGetNormalized.map fun o =>
    ⟨c.epsilon, c.sigma, c.D, c.magneticPrefactor, o⟩

open Classical in
/-- `getWCAPotentialParameterEpsilon` (`Analysis/MPCDAnalysis/StarPolymers.py:431-464`) for the types of particles
that exist. `math.sqrt` raises for negative arguments. -/
noncomputable def Config.pyEpsilon (c : Config) (type1 type2 : PType) : Except PyErr ℝ :=
  let epsilon1 := c.epsilon type1
  let epsilon2 := c.epsilon type2
  if epsilon1 * epsilon2 < 0 then .error .valueError else .ok (Real.sqrt (epsilon1 * epsilon2))

/-- `getWCAPotentialParameterSigma` (`Analysis/MPCDAnalysis/StarPolymers.py:467-498`). -/
noncomputable def Config.pySigma (c : Config) (type1 type2 : PType) : ℝ := (c.sigma type1 + c.sigma type2) / 2

/-- `getWCAPotentialParameterD` (`Analysis/MPCDAnalysis/StarPolymers.py:501-532`). -/
noncomputable def Config.pyD (c : Config) (type1 type2 : PType) : ℝ := (c.D type1 + c.D type2) / 2

open Classical in
/-- `WeeksChandlerAndersen_DistanceOffset`: constructor and `getPotential` for a vector
(`Analysis/MPCDAnalysis/PairPotentials/WeeksChandlerAndersen_DistanceOffset.py:28-131`). -/
noncomputable def pyWCA (epsilon sigma d : ℝ) (R : Vec3 ℝ) : Except PyErr ℝ :=
  if epsilon < 0 ∨ sigma < 0 ∨ d < 0 then .error .valueError
  else
    let r := R.getLength
    if r ≤ d then .error .valueError
    else
      let sigma2 := sigma * sigma
      let cutoff := (2 : ℝ) ^ (1 / 6 : ℝ) * sigma
      if r - d ≥ cutoff then .ok 0
      else
        let denominator2 := (r - d) * (r - d)
        let frac2 := sigma2 / denominator2
        let frac6 := frac2 * frac2 * frac2
        let frac12 := frac6 * frac6
        .ok (4 * epsilon * (frac12 - frac6 + 1 / 4))

open Classical in
/-- `FENE`: constructor and `getPotential` for a vector
(`Analysis/MPCDAnalysis/PairPotentials/FENE.py:7-99`). -/
noncomputable def pyFENE (K l_0 R : ℝ) (Rvec : Vec3 ℝ) : Except PyErr ℝ :=
  if R ≤ 0 then .error .valueError
  else
    let r := Rvec.getLength
    let prefactor := (-0.5) * K * R * R
    let frac := (r - l_0) / R
    let frac2 := frac * frac
    if frac2 ≥ 1 then .error .valueError else .ok (prefactor * Real.log (1 - frac2))

open Classical in
/-- `getPotential`
(`Analysis/MPCDAnalysis/PairPotentials/MagneticDipoleDipoleInteraction_ConstantIdenticalDipoles.py:88-118`). -/
noncomputable def pyDipole (prefactor : ℝ) (orientation : Vec3 ℝ) (R : Vec3 ℝ) : Except PyErr ℝ :=
  let r2 := R.getLengthSquared
  if r2 = 0 then .error .valueError
  else
    let r_m2 := 1 / r2
    let r_m3 := r_m2 / Real.sqrt r2
    let dot := R.dot orientation
    .ok ((-prefactor) * r_m3 * (3 * dot * dot * r_m2 - 1))

open Classical in
/-- `getMagneticPotential` (`Analysis/MPCDAnalysis/StarPolymers.py:612-642`) with the constructor of the potential
(`Analysis/MPCDAnalysis/PairPotentials/MagneticDipoleDipoleInteraction_ConstantIdenticalDipoles.py:33-68`). -/
noncomputable def pyMagnetic (g : Geometry) (c : Config) : Except PyErr (Vec3 ℝ) :=
  if g.hasMagneticParticles = false then .error .runtimeError
  else match c.dipoleOrientation with
    | none => .error .keyError
    | some orientation =>
      if c.magneticPrefactor < 0 then .error .valueError
      else if orientation.getLengthSquared ≠ 1 then .error .valueError
      else .ok orientation

open Classical in
/-- The body of the inner loop of `getPotentialEnergy` (`Analysis/MPCDAnalysis/StarPolymers.py:664-680`).
`getWCAPotential` (`535-569`) and `getFENEPotential` (`572-609`) are evaluated here; that they are cached makes no
difference since the configuration does not change. -/
noncomputable def pyPair (g : Geometry) (c : Config) (magnetic : Vec3 ℝ) (positions : ℕ → Vec3 ℝ) (ret : ℝ)
    (pIDs : ℕ × ℕ) : Except PyErr ℝ :=
  match g.pyType pIDs.1, g.pyType pIDs.2 with
  | .error e, _ => .error e
  | _, .error e => .error e
  | .ok type1, .ok type2 =>
    let r := positions pIDs.1 - positions pIDs.2
    match c.pyEpsilon type1 type2 with
    | .error e => .error e
    | .ok epsilon =>
      let sigma := c.pySigma type1 type2
      let d := c.pyD type1 type2
      match pyWCA epsilon sigma d r with
      | .error e => .error e
      | .ok wca =>
        match g.pyBonded pIDs.1 pIDs.2 with
        | .error e => .error e
        | .ok bonded =>
          match (if bonded then
              (if sigma * sigma = 0 then .error .zeroDivisionError
              else pyFENE (30 * epsilon / (sigma * sigma)) d (1.5 * sigma) r)
            else .ok 0 : Except PyErr ℝ) with
          | .error e => .error e
          | .ok fene =>
            if type1 = .magnetic ∧ type2 = .magnetic then
              match pyDipole c.magneticPrefactor magnetic r with
              | .error e => .error e
              | .ok m => .ok (ret + wca + fene + m)
            else .ok (ret + wca + fene)

/-- The pairs of particles, in the order of the two loops. -/
def pairs (N : ℕ) : List (ℕ × ℕ) :=
  (List.range N).flatMap fun pID1 => (List.range (N - pID1 - 1)).map fun u => (pID1, pID1 + 1 + u)

/-- `getPotentialEnergy` (`Analysis/MPCDAnalysis/StarPolymers.py:645-682`) after `setParticles`. -/
noncomputable def getPotentialEnergy (g : Geometry) (c : Config) (positions : ℕ → Vec3 ℝ) : Except PyErr ℝ :=
  if g.starCount ≠ 1 then .error .notImplementedError
  else match pyMagnetic g c with
    | .error e => .error e
    | .ok magnetic => (pairs g.pyCount).foldlM (pyPair g c magnetic positions) 0

/-! ## The interactions between bonded particles -/

/-- The energy parameter of the simulation. -/
noncomputable def mixEpsilon (p : Parameters) (a b : PType) : ℝ :=
  if a = b then p.epsilon a else Real.sqrt (p.epsilon a * p.epsilon b)

theorem create_wca (p : Parameters) (a b : PType) :
    (createInteractions p).wca (Geometry.getParticleTypeCombinationIndex a b) =
      some (wcaOffset (mixEpsilon p a b) ((p.sigma a + p.sigma b) / 2) ((p.D a + p.D b) / 2)) := by
  have h2 : ∀ x : ℝ, (x + x) / 2 = x := fun x => by ring
  have h5 : ∀ x y : ℝ, 0.5 * (x + y) = (x + y) / 2 := fun x y => by ring
  have hc : ∀ x y : ℝ, (x + y) / 2 = (y + x) / 2 := fun x y => by ring
  cases a <;> cases b <;>
    simp [createInteractions, Function.update, Geometry.getParticleTypeCombinationIndex, mixEpsilon, h2, h5,
      mul_comm, add_comm]

theorem create_fene (p : Parameters) (a b : PType)
    (h : (a, b) ∈ [(PType.core, PType.arm), (.arm, .core), (.arm, .arm), (.arm, .magnetic), (.magnetic, .arm)]) :
    (createInteractions p).fene (Geometry.getParticleTypeCombinationIndex a b) =
      some (fene (30 * mixEpsilon p a b / ((p.sigma a + p.sigma b) / 2 * ((p.sigma a + p.sigma b) / 2)))
        ((p.D a + p.D b) / 2) (1.5 * ((p.sigma a + p.sigma b) / 2))) := by
  have h2 : ∀ x : ℝ, (x + x) / 2 = x := fun x => by ring
  have h5 : ∀ x y : ℝ, 0.5 * (x + y) = (x + y) / 2 := fun x y => by ring
  cases a <;> cases b <;> simp at h <;>
    simp [createInteractions, Function.update, Geometry.getParticleTypeCombinationIndex, mixEpsilon, h2, h5,
      mul_comm, add_comm]

/-- The types of neighbours, if arms have particles other than the magnetic one. -/
theorem adjacent_types {g : Geometry} (hg : 0 < g.particleCountPerArm) {x y : Place} (h : Place.Adjacent g x y) :
    (x.type, y.type) ∈
      [(PType.core, PType.arm), (.arm, .core), (.arm, .arm), (.arm, .magnetic), (.magnetic, .arm)] := by
  obtain ⟨-, -, h⟩ := h
  cases x <;> cases y <;> simp_all [Place.type, Place.depth]

/-- C62: if arms have particles other than the magnetic one, the force between two particles at different
positions is defined. -/
theorem C62_partial {g : Geometry} (hg : 0 < g.particleCountPerArm) (p : Parameters) {a b : ℕ}
    (ha : a < g.getParticleCount) (hb : b < g.getParticleCount) (hab : a ≠ b) {r s : Vec3 ℝ} (hrs : r ≠ s) :
    ∃ F, pairForce g (createInteractions p) a b r s = some F := by
  classical
  obtain ⟨x, hx, rfl⟩ := exists_place g a ha
  obtain ⟨y, hy, rfl⟩ := exists_place g b hb
  have hxy : x ≠ y := fun h => hab (by rw [h])
  have hw : ∀ e s d R, ∃ F, (wcaOffset e s d).force R = some F := by
    intro e s d R
    simp only [wcaOffset]
    split_ifs <;> exact ⟨_, rfl⟩
  unfold pairForce
  simp only [(C29_cpp g x hx).2.2, (C29_cpp g y hy).2.2, create_wca, Option.bind_some,
    PairPotential.forceOnR1DueToR2, C30_cpp g x y hx hy hxy]
  obtain ⟨F, hF⟩ := hw (mixEpsilon p x.type y.type) ((p.sigma x.type + p.sigma y.type) / 2)
    ((p.D x.type + p.D y.type) / 2) (r - s)
  rw [hF, Option.bind_some]
  by_cases hm : x.type = .magnetic ∧ y.type = .magnetic
  · rw [if_pos hm]
    exact ⟨_, rfl⟩
  · rw [if_neg hm]
    by_cases hadj : Place.Adjacent g x y
    · simp only [hadj, decide_true, Bool.not_true, Bool.false_eq_true, if_false,
        create_fene p _ _ (adjacent_types hg hadj), Option.bind_some, fene,
        normalized_some (sub_ne_zero.2 hrs)]
      exact ⟨_, rfl⟩
    · simp only [hadj, decide_false, Bool.not_false, if_true]
      exact ⟨_, rfl⟩

/-- The star of one core and one magnetic particle. -/
def coreMagnetic : Geometry := ⟨1, 1, 0, true⟩

/-- C62 fails if arms consist of the magnetic particle only: the particle is bonded to the core, and the potential
of the bond has not been set up, whatever the parameters and positions. -/
theorem C62_violated (p : Parameters) (r s : Vec3 ℝ) :
    coreMagnetic.particlesAreBonded 0 1 = some true ∧
    (createInteractions p).fene (Geometry.getParticleTypeCombinationIndex (coreMagnetic.getParticleType 0)
      (coreMagnetic.getParticleType 1)) = none ∧
    pairForce coreMagnetic (createInteractions p) 0 1 r s = none := by
  have h1 : coreMagnetic.getParticleType 0 = .core := by decide
  have h2 : coreMagnetic.getParticleType 1 = .magnetic := by decide
  have h3 : coreMagnetic.particlesAreBonded 0 1 = some true := by decide
  have h4 : (createInteractions p).fene (Geometry.getParticleTypeCombinationIndex .core .magnetic) = none := by
    simp [createInteractions, Function.update, Geometry.getParticleTypeCombinationIndex]
  refine ⟨h3, by rw [h1, h2]; exact h4, ?_⟩
  unfold pairForce
  simp only [h1, h2, h3, h4, Option.bind_some, Option.bind_none]
  rw [create_wca, Option.bind_some]
  simp only [PairPotential.forceOnR1DueToR2]
  cases (wcaOffset _ _ _).force (r - s) with
  | none => rfl
  | some F => simp

/-! ## Pairs -/

theorem pyWCA_ok {e s d : ℝ} {R : Vec3 ℝ} {v : ℝ} (h : pyWCA e s d R = .ok v) :
    0 ≤ e ∧ 0 ≤ s ∧ 0 ≤ d ∧ d < R.cppMagnitude := by
  unfold pyWCA at h
  by_cases h1 : e < 0 ∨ s < 0 ∨ d < 0
  · rw [if_pos h1] at h; cases h
  · rw [if_neg h1] at h
    simp only at h
    by_cases h2 : R.getLength ≤ d
    · rw [if_pos h2] at h; cases h
    · simp only [not_or, not_lt] at h1
      exact ⟨h1.1, h1.2.1, h1.2.2, lt_of_not_ge h2⟩

theorem pyWCA_eq {e s d : ℝ} {R : Vec3 ℝ} (h1 : 0 ≤ e) (h2 : 0 ≤ s) (h3 : 0 ≤ d) (h4 : d < R.cppMagnitude) :
    pyWCA e s d R = .ok ((wcaOffset e s d).potential R) := by
  unfold pyWCA
  rw [if_neg (by simp only [not_or, not_lt]; exact ⟨h1, h2, h3⟩)]
  simp only
  rw [if_neg (show ¬ R.getLength ≤ d from not_le.2 h4)]
  simp only [wcaOffset]
  show (if R.getLength - d ≥ _ then _ else _) = _
  have e1 : R.getLength = Real.sqrt R.cppMagnitudeSquared := rfl
  rw [e1]
  split_ifs <;> rfl

theorem pyFENE_ok {K l R0 : ℝ} {R : Vec3 ℝ} {v : ℝ} (h : pyFENE K l R0 R = .ok v) :
    0 < R0 ∧ ((R.cppMagnitude - l) / R0) ^ 2 < 1 := by
  unfold pyFENE at h
  by_cases h1 : R0 ≤ 0
  · rw [if_pos h1] at h; cases h
  · rw [if_neg h1] at h
    simp only at h
    by_cases h2 : (R.getLength - l) / R0 * ((R.getLength - l) / R0) ≥ 1
    · rw [if_pos h2] at h; cases h
    · refine ⟨lt_of_not_ge h1, ?_⟩
      rw [sq]
      exact lt_of_not_ge h2

theorem pyFENE_eq {K l R0 : ℝ} {R : Vec3 ℝ} (h1 : 0 < R0) (h2 : ((R.cppMagnitude - l) / R0) ^ 2 < 1) :
    pyFENE K l R0 R = .ok ((fene K l R0).potential R) := by
  unfold pyFENE
  rw [if_neg (not_le.2 h1)]
  simp only
  rw [sq] at h2
  rw [if_neg (show ¬ (R.getLength - l) / R0 * ((R.getLength - l) / R0) ≥ 1 from not_le.2 h2)]
  rfl

theorem pyDipole_eq {q : ℝ} {o R : Vec3 ℝ} (h : R ≠ 0) : pyDipole q o R = .ok ((dipole q o).potential R) := by
  unfold pyDipole
  simp only
  rw [if_neg (show R.getLengthSquared ≠ 0 from (dot_pos h).ne')]
  simp only [dipole, cppMagnitudeSquared, getLengthSquared]

/-- What a successful evaluation of a pair says. -/
def Admissible (c : Config) (a b : PType) (bonded : Prop) (R : Vec3 ℝ) : Prop :=
  0 ≤ c.epsilon a * c.epsilon b ∧ 0 ≤ c.pySigma a b ∧ 0 ≤ c.pyD a b ∧ c.pyD a b < R.cppMagnitude ∧
    (bonded → 0 < c.pySigma a b ∧ ((R.cppMagnitude - c.pyD a b) / (1.5 * c.pySigma a b)) ^ 2 < 1)

open Classical in
/-- The energy of a pair. -/
noncomputable def pairEnergy (c : Config) (o : Vec3 ℝ) (a b : PType) (bonded : Prop) (R : Vec3 ℝ) : ℝ :=
  (wcaOffset (Real.sqrt (c.epsilon a * c.epsilon b)) (c.pySigma a b) (c.pyD a b)).potential R +
  (if bonded then (fene (30 * Real.sqrt (c.epsilon a * c.epsilon b) / (c.pySigma a b * c.pySigma a b)) (c.pyD a b)
    (1.5 * c.pySigma a b)).potential R else 0) +
  (if a = .magnetic ∧ b = .magnetic then (dipole c.magneticPrefactor o).potential R else 0)

theorem Admissible.ne_zero {c : Config} {a b : PType} {bonded : Prop} {R : Vec3 ℝ}
    (h : Admissible c a b bonded R) : R ≠ 0 := by
  rintro rfl
  have h0 : (0 : Vec3 ℝ).cppMagnitude = 0 := by simp [cppMagnitude, cppMagnitudeSquared]
  have h1 := h.2.2.1
  have h2 := h.2.2.2.1
  rw [h0] at h2
  linarith

theorem pyPair_eq {g : Geometry} {c : Config} {o : Vec3 ℝ} {positions : ℕ → Vec3 ℝ} {ret : ℝ} {x y : Place}
    (hx : x.Valid g) (hy : y.Valid g)
    (h : Admissible c x.type y.type (Place.Adjacent g x y) (positions (x.id g) - positions (y.id g))) :
    pyPair g c o positions ret (x.id g, y.id g) =
      .ok (ret + pairEnergy c o x.type y.type (Place.Adjacent g x y) (positions (x.id g) - positions (y.id g))) := by
  classical
  have hR := h.ne_zero
  obtain ⟨h1, h2, h3, h4, h5⟩ := h
  unfold pyPair pairEnergy
  simp only [(C29_py g x hx).2.2, (C29_py g y hy).2.2, C30_py g x y hx hy]
  unfold Config.pyEpsilon
  simp only
  rw [if_neg (not_lt.2 h1)]
  simp only
  rw [pyWCA_eq (Real.sqrt_nonneg _) h2 h3 h4]
  simp only
  by_cases hb : Place.Adjacent g x y
  · obtain ⟨h6, h7⟩ := h5 hb
    have h8 : c.pySigma x.type y.type * c.pySigma x.type y.type ≠ 0 := mul_ne_zero h6.ne' h6.ne'
    simp only [hb, decide_true, if_true, h8, if_false]
    rw [pyFENE_eq (by linarith) h7]
    simp only
    by_cases hm : x.type = .magnetic ∧ y.type = .magnetic
    · rw [if_pos hm, if_pos hm, pyDipole_eq hR]
      simp only [add_assoc]
    · rw [if_neg hm, if_neg hm, add_zero]
      simp only [add_assoc]
  · simp only [hb, decide_false, Bool.false_eq_true, if_false]
    by_cases hm : x.type = .magnetic ∧ y.type = .magnetic
    · rw [if_pos hm, if_pos hm, pyDipole_eq hR]
      simp only [add_assoc]
    · rw [if_neg hm, if_neg hm]
      simp only [add_assoc, add_zero]

theorem pyPair_ok {g : Geometry} {c : Config} {o : Vec3 ℝ} {positions : ℕ → Vec3 ℝ} {ret v : ℝ} {x y : Place}
    (hx : x.Valid g) (hy : y.Valid g) (h : pyPair g c o positions ret (x.id g, y.id g) = .ok v) :
    Admissible c x.type y.type (Place.Adjacent g x y) (positions (x.id g) - positions (y.id g)) := by
  classical
  unfold pyPair at h
  simp only [(C29_py g x hx).2.2, (C29_py g y hy).2.2, C30_py g x y hx hy] at h
  unfold Config.pyEpsilon at h
  simp only at h
  by_cases h1 : c.epsilon x.type * c.epsilon y.type < 0
  · rw [if_pos h1] at h; cases h
  · rw [if_neg h1] at h
    simp only at h
    cases hw : pyWCA (Real.sqrt (c.epsilon x.type * c.epsilon y.type)) (c.pySigma x.type y.type)
        (c.pyD x.type y.type) (positions (x.id g) - positions (y.id g)) with
    | error e => rw [hw] at h; cases h
    | ok w =>
      rw [hw] at h
      obtain ⟨-, k2, k3, k4⟩ := pyWCA_ok hw
      refine ⟨le_of_not_gt h1, k2, k3, k4, ?_⟩
      intro hb
      simp only [hb, decide_true, if_true] at h
      by_cases h8 : c.pySigma x.type y.type * c.pySigma x.type y.type = 0
      · rw [if_pos h8] at h; cases h
      · rw [if_neg h8] at h
        cases hf : pyFENE (30 * Real.sqrt (c.epsilon x.type * c.epsilon y.type) /
          (c.pySigma x.type y.type * c.pySigma x.type y.type)) (c.pyD x.type y.type) (1.5 * c.pySigma x.type y.type)
          (positions (x.id g) - positions (y.id g)) with
        | error e => rw [hf] at h; cases h
        | ok f =>
          obtain ⟨k5, k6⟩ := pyFENE_ok hf
          exact ⟨by linarith, k6⟩

theorem foldlM_some {α : Type} {f : ℝ → α → Except PyErr ℝ} : ∀ {l : List α} {r v : ℝ},
    l.foldlM f r = .ok v → ∀ p ∈ l, ∃ r' v', f r' p = .ok v'
  | [], _, _, _ => by simp
  | a :: l, r, v, h => by
    intro p hp
    rw [List.foldlM_cons] at h
    cases ha : f r a with
    | error e => rw [ha] at h; cases h
    | ok w =>
      rw [ha] at h
      rcases List.mem_cons.1 hp with rfl | hp
      · exact ⟨r, w, ha⟩
      · exact foldlM_some (show l.foldlM f w = .ok v from h) p hp

theorem foldlM_sum {α : Type} {f : ℝ → α → Except PyErr ℝ} {e : α → ℝ} : ∀ {l : List α} (r : ℝ),
    (∀ p ∈ l, ∀ r, f r p = .ok (r + e p)) → l.foldlM f r = .ok (r + (l.map e).sum)
  | [], r, _ => by simp; rfl
  | a :: l, r, h => by
    rw [List.foldlM_cons, h a List.mem_cons_self]
    show l.foldlM f (r + e a) = _
    rw [foldlM_sum _ fun p hp => h p (List.mem_cons_of_mem _ hp)]
    simp [add_assoc]

theorem mem_pairs {N : ℕ} {p : ℕ × ℕ} : p ∈ pairs N ↔ p.1 < p.2 ∧ p.2 < N := by
  unfold pairs
  simp only [List.mem_flatMap, List.mem_range, List.mem_map]
  constructor
  · rintro ⟨a, ha, u, hu, rfl⟩
    simp only
    omega
  · rintro ⟨h1, h2⟩
    exact ⟨p.1, by omega, p.2 - p.1 - 1, by omega, by ext <;> (simp; try omega)⟩

theorem sum_pairs_list (f : ℕ × ℕ → ℝ) (N : ℕ) :
    ((pairs N).map f).sum = ∑ a ∈ Finset.range N, ∑ b ∈ Finset.Ico (a + 1) N, f (a, b) := by
  unfold pairs
  rw [List.map_flatMap, List.flatMap_def, List.sum_flatten, List.map_map, sum_range_list]
  refine Finset.sum_congr rfl fun a _ => ?_
  rw [Function.comp, List.map_map, sum_range_list, Finset.sum_Ico_eq_sum_range]
  rw [show N - a - 1 = N - (a + 1) by omega]
  rfl

theorem sum_offDiagonal (f : ℕ → ℕ → ℝ) (N : ℕ) :
    ∑ a ∈ Finset.range N, ∑ b ∈ (Finset.range N).erase a, f a b =
      ∑ a ∈ Finset.range N, ∑ b ∈ Finset.Ico (a + 1) N, (f a b + f b a) := by
  have e : ∀ (N a : ℕ), ∑ b ∈ (Finset.range N).erase a, f a b =
      ∑ b ∈ Finset.range N, if b = a then 0 else f a b := by
    intro N a
    rw [← Finset.sum_erase (Finset.range N) (a := a) (f := fun b => if b = a then 0 else f a b) (by simp)]
    refine Finset.sum_congr rfl fun b hb => ?_
    rw [if_neg (Finset.ne_of_mem_erase hb)]
  simp only [e]
  induction N with
  | zero => simp
  | succ N ih =>
    rw [Finset.sum_range_succ, Finset.sum_range_succ (fun a => ∑ b ∈ Finset.Ico (a + 1) (N + 1), _),
      Finset.Ico_self, Finset.sum_empty, add_zero]
    have e1 : ∀ a ∈ Finset.range N, ∑ b ∈ Finset.Ico (a + 1) (N + 1), (f a b + f b a) =
        ∑ b ∈ Finset.Ico (a + 1) N, (f a b + f b a) + (f a N + f N a) := by
      intro a ha
      rw [Finset.mem_range] at ha
      exact Finset.sum_Ico_succ_top (by omega) _
    have e2 : ∀ a ∈ Finset.range N, (∑ b ∈ Finset.range (N + 1), if b = a then 0 else f a b) =
        (∑ b ∈ Finset.range N, if b = a then 0 else f a b) + f a N := by
      intro a ha
      rw [Finset.mem_range] at ha
      rw [Finset.sum_range_succ, if_neg (by omega)]
    have e3 : (∑ b ∈ Finset.range (N + 1), if b = N then 0 else f N b) = ∑ b ∈ Finset.range N, f N b := by
      rw [Finset.sum_range_succ, if_pos rfl, add_zero]
      refine Finset.sum_congr rfl fun b hb => ?_
      rw [Finset.mem_range] at hb
      rw [if_neg (by omega)]
    rw [Finset.sum_congr rfl e1, Finset.sum_congr rfl e2, e3]
    simp only [Finset.sum_add_distrib] at ih ⊢
    rw [ih]
    ring

/-- The conditions continue to hold under small displacements. -/
theorem Admissible.eventually {c : Config} {a b : PType} {bonded : Prop} {R : Vec3 ℝ}
    (h : Admissible c a b bonded R) (u : Vec3 ℝ) : ∀ᶠ t : ℝ in nhds 0, Admissible c a b bonded (R + t • u) := by
  have hR := h.ne_zero
  obtain ⟨h1, h2, h3, h4, h5⟩ := h
  have hc : ContinuousAt (fun t : ℝ => (R + t • u).cppMagnitude) 0 := (mag_deriv hR u).continuousAt
  have h0 : (R + (0 : ℝ) • u).cppMagnitude = R.cppMagnitude := by simp
  have e1 : ∀ᶠ t : ℝ in nhds 0, c.pyD a b < (R + t • u).cppMagnitude :=
    hc.eventually_const_lt (by simpa only [h0] using h4)
  by_cases hb : bonded
  · obtain ⟨h6, h7⟩ := h5 hb
    have hc2 : ContinuousAt (fun t : ℝ =>
        (((R + t • u).cppMagnitude - c.pyD a b) / (1.5 * c.pySigma a b)) ^ 2) 0 :=
      ((hc.sub continuousAt_const).div_const _).pow 2
    have e2 : ∀ᶠ t : ℝ in nhds 0,
        (((R + t • u).cppMagnitude - c.pyD a b) / (1.5 * c.pySigma a b)) ^ 2 < 1 :=
      hc2.eventually_lt_const (by simpa only [h0] using h7)
    filter_upwards [e1, e2] with t k1 k2
    exact ⟨h1, h2, h3, k1, fun _ => ⟨h6, k2⟩⟩
  · filter_upwards [e1] with t k1
    exact ⟨h1, h2, h3, k1, fun k => absurd k hb⟩

/-- The force of the simulation on a particle due to another is minus the derivative of the energy of the pair. -/
theorem pair_gradient {g : Geometry} (hg : 0 < g.particleCountPerArm) {c : Config} (hε : ∀ t, 0 ≤ c.epsilon t)
    {o : Vec3 ℝ} {x y : Place} (hx : x.Valid g) (hy : y.Valid g) (hxy : x ≠ y) {r s : Vec3 ℝ}
    (h : Admissible c x.type y.type (Place.Adjacent g x y) (r - s)) :
    ∃ F, pairForce g (createInteractions ⟨c.epsilon, c.sigma, c.D, c.magneticPrefactor, o⟩) (x.id g) (y.id g) r s =
        some F ∧
      ∀ u, HasDerivAt (fun t : ℝ => pairEnergy c o x.type y.type (Place.Adjacent g x y) (r - s + t • u))
        (-(F.dot u)) 0 := by
  classical
  have hR := h.ne_zero
  obtain ⟨h1, h2, h3, h4, h5⟩ := h
  set p : Parameters := ⟨c.epsilon, c.sigma, c.D, c.magneticPrefactor, o⟩ with hp
  have hmix : ∀ a b, mixEpsilon p a b = Real.sqrt (c.epsilon a * c.epsilon b) := by
    intro a b
    unfold mixEpsilon
    split_ifs with hab
    · rw [hab, Real.sqrt_mul_self (hε b)]
    · rfl
  obtain ⟨Fw, hFw, dFw⟩ := C33_wcaOffset (Real.sqrt (c.epsilon x.type * c.epsilon y.type))
    (c.pySigma x.type y.type) (c.pyD x.type y.type) h3 (r - s) h4
  unfold pairForce pairEnergy
  simp only [(C29_cpp g x hx).2.2, (C29_cpp g y hy).2.2, create_wca, Option.bind_some,
    PairPotential.forceOnR1DueToR2, C30_cpp g x y hx hy hxy, hmix]
  change ∃ F, ((wcaOffset (Real.sqrt (c.epsilon x.type * c.epsilon y.type))
    (c.pySigma x.type y.type) (c.pyD x.type y.type)).force (r - s)).bind _ = some F ∧ _
  rw [hFw, Option.bind_some]
  by_cases hm : x.type = .magnetic ∧ y.type = .magnetic
  · have hadj : ¬ Place.Adjacent g x y := by
      intro hadj
      have := adjacent_types hg hadj
      rw [hm.1, hm.2] at this
      simp at this
    obtain ⟨Fd, hFd, dFd⟩ := C33_dipole c.magneticPrefactor o (r - s) hR
    have hFd' : (createInteractions p).magnetic.force (r - s) = some Fd := hFd
    rw [if_pos hm, hFd']
    refine ⟨_, rfl, fun u => ?_⟩
    simp only [if_pos hm, if_neg hadj, add_zero]
    refine ((dFw u).add (dFd u)).congr_deriv ?_
    simp [dot]
    ring
  · rw [if_neg hm]
    by_cases hadj : Place.Adjacent g x y
    · obtain ⟨h6, h7⟩ := h5 hadj
      obtain ⟨Ff, hFf, dFf⟩ := C33_fene (30 * Real.sqrt (c.epsilon x.type * c.epsilon y.type) /
        (c.pySigma x.type y.type * c.pySigma x.type y.type)) (c.pyD x.type y.type) (1.5 * c.pySigma x.type y.type)
        (by positivity) (r - s) hR (by linarith)
      simp only [hadj, decide_true, Bool.not_true, Bool.false_eq_true, if_false,
        create_fene p _ _ (adjacent_types hg hadj), Option.bind_some, hmix]
      change ∃ F, ((fene (30 * Real.sqrt (c.epsilon x.type * c.epsilon y.type) /
        (c.pySigma x.type y.type * c.pySigma x.type y.type)) (c.pyD x.type y.type)
        (1.5 * c.pySigma x.type y.type)).force (r - s)).map _ = some F ∧ _
      rw [hFf]
      refine ⟨_, rfl, fun u => ?_⟩
      simp only [if_neg hm, if_true, add_zero]
      refine ((dFw u).add (dFf u)).congr_deriv ?_
      simp [dot]
      ring
    · simp only [hadj, decide_false, Bool.not_false, if_true, if_false]
      refine ⟨_, rfl, fun u => ?_⟩
      simp only [if_neg hm, add_zero]
      exact dFw u

theorem pyMagnetic_ok {g : Geometry} {c : Config} {o : Vec3 ℝ} (h : pyMagnetic g c = .ok o) :
    c.read = some ⟨c.epsilon, c.sigma, c.D, c.magneticPrefactor, o⟩ := by
  unfold pyMagnetic at h
  by_cases h1 : g.hasMagneticParticles = false
  · rw [if_pos h1] at h; cases h
  · rw [if_neg h1] at h
    cases ho : c.dipoleOrientation with
    | none => rw [ho] at h; cases h
    | some o' =>
      rw [ho] at h
      simp only at h
      by_cases h2 : c.magneticPrefactor < 0
      · rw [if_pos h2] at h; cases h
      · rw [if_neg h2] at h
        by_cases h3 : o'.getLengthSquared ≠ 1
        · rw [if_pos h3] at h; cases h
        · rw [if_neg h3] at h
          have he : o' = o := Except.ok.inj h
          subst he
          have hl : o'.cppMagnitude = 1 := by
            have : o'.cppMagnitudeSquared = 1 := not_not.1 h3
            simp [cppMagnitude, this]
          have hne : o' ≠ 0 := by
            rintro rfl
            simp [cppMagnitude, cppMagnitudeSquared] at hl
          unfold Config.read
          simp only [ho, Option.getD_some, normalized_some hne, hl, div_one, one_smul, Option.map_some]

theorem hasDerivAt_listSum {α : Type} (f : α → ℝ → ℝ) (f' : α → ℝ) : ∀ l : List α,
    (∀ p ∈ l, HasDerivAt (f p) (f' p) 0) →
      HasDerivAt (fun t => (l.map fun p => f p t).sum) (l.map f').sum 0
  | [], _ => by simpa using hasDerivAt_const (0 : ℝ) (0 : ℝ)
  | a :: l, h => by
    simp only [List.map_cons, List.sum_cons]
    exact (h a List.mem_cons_self).add
      (hasDerivAt_listSum f f' l fun p hp => h p (List.mem_cons_of_mem _ hp))

/-- C61: where the analysis reports an energy, the forces of the simulation are minus the gradient of this energy,
for every schedule. Assumes that arms have particles other than the magnetic one and that the energy parameters are
not negative. What is missing: energies are not reported for all configurations the simulation accepts
(`C61_violated`). -/
theorem C61_partial {G B : ℕ} (hG : 0 < G) (hB : 1 < B) {g : Geometry} (hN : g.getParticleCount + G * B ≤ 2 ^ 32)
    (hg : 0 < g.particleCountPerArm) {c : Config} (hε : ∀ t, 0 ≤ c.epsilon t) {positions : ℕ → ℝ} {E : ℝ}
    (h : getPotentialEnergy g c (vecAt positions) = .ok E) :
    ∃ p, c.read = some p ∧
      (∃ forces, ComputesForces G B g (createInteractions p) positions (fun _ => 0) forces) ∧
      ∀ forces, ComputesForces G B g (createInteractions p) positions (fun _ => 0) forces →
        ∀ u : ℕ → Vec3 ℝ, ∃ V : ℝ → ℝ,
          (∀ᶠ t in nhds 0, getPotentialEnergy g c (fun a => vecAt positions a + t • u a) = .ok (V t)) ∧ V 0 = E ∧
          HasDerivAt V (-∑ a ∈ Finset.range g.getParticleCount, (vecAt forces a).dot (u a)) 0 := by
  classical
  set N := g.getParticleCount with hNdef
  have hpy : g.pyCount = N := pyCount_eq g
  unfold getPotentialEnergy at h
  by_cases hs : g.starCount ≠ 1
  · rw [if_pos hs] at h; cases h
  rw [if_neg hs] at h
  cases hmag : pyMagnetic g c with
  | error e => rw [hmag] at h; cases h
  | ok o =>
    rw [hmag, hpy] at h
    simp only at h
    set p : Parameters := ⟨c.epsilon, c.sigma, c.D, c.magneticPrefactor, o⟩ with hp
    have hlaw := createInteractions_lawful p
    -- places of particles
    have : Nonempty Place := ⟨.core 0⟩
    choose! pl hpl hid using fun i (hi : i < N) => exists_place g i hi
    have hadm : ∀ q ∈ pairs N, Admissible c (pl q.1).type (pl q.2).type (Place.Adjacent g (pl q.1) (pl q.2))
        (vecAt positions q.1 - vecAt positions q.2) := by
      intro q hq
      obtain ⟨r, v, hv⟩ := foldlM_some h q hq
      obtain ⟨q1, q2⟩ := mem_pairs.1 hq
      have e1 := hid q.1 (by omega)
      have e2 := hid q.2 q2
      have := pyPair_ok (g := g) (x := pl q.1) (y := pl q.2) (hpl _ (by omega)) (hpl _ q2)
        (ret := r) (v := v) (c := c) (o := o) (positions := vecAt positions) (by rw [e1, e2]; exact hv)
      rwa [e1, e2] at this
    -- the pair forces
    have hgrad : ∀ q ∈ pairs N, ∃ F, pairForce g (createInteractions p) q.1 q.2 (vecAt positions q.1)
        (vecAt positions q.2) = some F ∧
        ∀ u, HasDerivAt (fun t : ℝ => pairEnergy c o (pl q.1).type (pl q.2).type
          (Place.Adjacent g (pl q.1) (pl q.2)) (vecAt positions q.1 - vecAt positions q.2 + t • u)) (-(F.dot u)) 0 := by
      intro q hq
      obtain ⟨q1, q2⟩ := mem_pairs.1 hq
      have e1 := hid q.1 (by omega)
      have e2 := hid q.2 q2
      have hne : pl q.1 ≠ pl q.2 := by
        intro he
        rw [he, e2] at e1
        omega
      have := pair_gradient hg hε (o := o) (hpl _ (by omega)) (hpl _ q2) hne (hadm q hq)
      rwa [e1, e2] at this
    refine ⟨p, pyMagnetic_ok hmag, ?_, ?_⟩
    · refine C32_progress hG hB hN fun a b hab hb => ?_
      obtain ⟨F, hF, -⟩ := hgrad (a, b) (mem_pairs.2 ⟨hab, hb⟩)
      exact ⟨F, hF⟩
    · intro forces hforces u
      obtain ⟨F, hF, hsum⟩ := C32_each_pair_once hG hB hN hlaw hforces
      refine ⟨fun t => ((pairs N).map fun q => pairEnergy c o (pl q.1).type (pl q.2).type
          (Place.Adjacent g (pl q.1) (pl q.2))
          (vecAt positions q.1 - vecAt positions q.2 + t • (u q.1 - u q.2))).sum, ?_, ?_, ?_⟩
      · have hev : ∀ l : List (ℕ × ℕ), (∀ q ∈ l, q ∈ pairs N) → ∀ᶠ t : ℝ in nhds 0, ∀ q ∈ l,
            Admissible c (pl q.1).type (pl q.2).type (Place.Adjacent g (pl q.1) (pl q.2))
              (vecAt positions q.1 - vecAt positions q.2 + t • (u q.1 - u q.2)) := by
          intro l
          induction l with
          | nil => intro _; simp
          | cons a l ih =>
            intro hl
            filter_upwards [ih fun q hq => hl q (List.mem_cons_of_mem _ hq),
              (hadm a (hl a List.mem_cons_self)).eventually (u a.1 - u a.2)] with t k1 k2
            intro q hq
            rcases List.mem_cons.1 hq with rfl | hq
            · exact k2
            · exact k1 q hq
        filter_upwards [hev (pairs N) fun q hq => hq] with t ht
        unfold getPotentialEnergy
        rw [if_neg hs, hmag, hpy]
        simp only
        rw [foldlM_sum (e := fun q => pairEnergy c o (pl q.1).type (pl q.2).type
          (Place.Adjacent g (pl q.1) (pl q.2))
          (vecAt positions q.1 - vecAt positions q.2 + t • (u q.1 - u q.2))) 0, zero_add]
        intro q hq r
        obtain ⟨q1, q2⟩ := mem_pairs.1 hq
        have e1 := hid q.1 (by omega)
        have e2 := hid q.2 q2
        have hvec : vecAt positions q.1 + t • u q.1 - (vecAt positions q.2 + t • u q.2) =
            vecAt positions q.1 - vecAt positions q.2 + t • (u q.1 - u q.2) := by module
        have := pyPair_eq (g := g) (x := pl q.1) (y := pl q.2) (hpl _ (by omega)) (hpl _ q2) (ret := r) (c := c)
          (o := o) (positions := fun a => vecAt positions a + t • u a)
          (by rw [e1, e2, hvec]; exact ht q hq)
        rw [e1, e2, hvec] at this
        exact this
      · have h0 := foldlM_sum (l := pairs N) (f := pyPair g c o (vecAt positions))
          (e := fun q => pairEnergy c o (pl q.1).type (pl q.2).type
            (Place.Adjacent g (pl q.1) (pl q.2)) (vecAt positions q.1 - vecAt positions q.2)) 0 (by
          intro q hq r
          obtain ⟨q1, q2⟩ := mem_pairs.1 hq
          have e1 := hid q.1 (by omega)
          have e2 := hid q.2 q2
          have := pyPair_eq (g := g) (x := pl q.1) (y := pl q.2) (hpl _ (by omega)) (hpl _ q2) (ret := r) (c := c)
            (o := o) (positions := vecAt positions) (by rw [e1, e2]; exact hadm q hq)
          rw [e1, e2] at this
          exact this)
        rw [h0, zero_add] at h
        simp only [zero_smul, add_zero]
        exact Except.ok.inj h
      · have hd := hasDerivAt_listSum (fun (q : ℕ × ℕ) (t : ℝ) => pairEnergy c o (pl q.1).type (pl q.2).type
          (Place.Adjacent g (pl q.1) (pl q.2))
          (vecAt positions q.1 - vecAt positions q.2 + t • (u q.1 - u q.2)))
          (fun q => -((F q.1 q.2).dot (u q.1 - u q.2))) (pairs N) (by
            intro q hq
            obtain ⟨q1, q2⟩ := mem_pairs.1 hq
            obtain ⟨F', hF', hd⟩ := hgrad q hq
            have := (hF q.1 q.2 (by omega) q2 (by omega)).1
            rw [hF'] at this
            rw [← Option.some.inj this]
            exact hd _)
        refine hd.congr_deriv ?_
        rw [sum_pairs_list]
        have hdot : ∀ (s : Finset ℕ) (v : ℕ → Vec3 ℝ) (w : Vec3 ℝ), (∑ a ∈ s, v a).dot w = ∑ a ∈ s, (v a).dot w := by
          intro s v w
          induction s using Finset.induction_on with
          | empty => simp [dot]
          | insert a s ha ih =>
            rw [Finset.sum_insert ha, Finset.sum_insert ha, ← ih]
            simp [dot]
            ring
        have e1 : ∑ a ∈ Finset.range N, (vecAt forces a).dot (u a) =
            ∑ a ∈ Finset.range N, ∑ b ∈ (Finset.range N).erase a, (F a b).dot (u a) := by
          refine Finset.sum_congr rfl fun a ha => ?_
          rw [hsum a (Finset.mem_range.1 ha), hdot]
        rw [e1, sum_offDiagonal (fun a b => (F a b).dot (u a)), ← Finset.sum_neg_distrib]
        refine Finset.sum_congr rfl fun a ha => ?_
        rw [← Finset.sum_neg_distrib]
        refine Finset.sum_congr rfl fun b hb => ?_
        rw [Finset.mem_Ico] at hb
        have := (hF a b (by omega) hb.2 (by omega)).2
        rw [this]
        simp [dot]
        ring

/-- C61 fails: the analysis reports no energy if there are no magnetic particles, if the (optional) orientation of
the dipoles is not given, or if it is not given as a unit vector; in the latter cases whatever the positions. The
simulation accepts these configurations. -/
theorem C61_violated (positions : ℕ → Vec3 ℝ) :
    (∀ g c, g.starCount = 1 → g.hasMagneticParticles = false →
      getPotentialEnergy g c positions = .error .runtimeError) ∧
    (∀ g c, g.starCount = 1 → g.hasMagneticParticles = true → c.dipoleOrientation = none →
      getPotentialEnergy g c positions = .error .keyError ∧ c.read.isSome) ∧
    (∀ g c, g.starCount = 1 → g.hasMagneticParticles = true → 0 ≤ c.magneticPrefactor →
      c.dipoleOrientation = some ⟨0, 0, 2⟩ →
      getPotentialEnergy g c positions = .error .valueError ∧ c.read.isSome) := by
  refine ⟨?_, ?_, ?_⟩
  · intro g c h1 h2
    simp [getPotentialEnergy, pyMagnetic, h1, h2]
  · intro g c h1 h2 h3
    refine ⟨by simp [getPotentialEnergy, pyMagnetic, h1, h2, h3], ?_⟩
    have hne : (⟨0, 0, 1⟩ : Vec3 ℝ) ≠ 0 := fun h => by simpa using congrArg Vec3.z h
    simp [Config.read, h3, normalized_some hne]
  · intro g c h1 h2 h3 h4
    have hl : (⟨0, 0, 2⟩ : Vec3 ℝ).getLengthSquared ≠ 1 := by simp [getLengthSquared, dot]; norm_num
    refine ⟨by simp [getPotentialEnergy, pyMagnetic, h1, h2, h4, not_lt.2 h3, hl], ?_⟩
    have hne : (⟨0, 0, 2⟩ : Vec3 ℝ) ≠ 0 := fun h => by simpa using congrArg Vec3.z h
    simp [Config.read, h4, normalized_some hne]

/-! ## A concrete case: one star with a core, an arm particle and a magnetic particle on a line. -/

theorem energy_ok {g : Geometry} {c : Config} {o : Vec3 ℝ} {positions : ℕ → Vec3 ℝ} (hs : g.starCount = 1)
    (hm : pyMagnetic g c = .ok o)
    (h : ∀ x y : Place, x.Valid g → y.Valid g → x ≠ y →
      Admissible c x.type y.type (Place.Adjacent g x y) (positions (x.id g) - positions (y.id g))) :
    ∃ E, getPotentialEnergy g c positions = .ok E := by
  classical
  have : Nonempty Place := ⟨.core 0⟩
  choose! pl hpl hid using fun i (hi : i < g.getParticleCount) => exists_place g i hi
  unfold getPotentialEnergy
  rw [if_neg (not_not.2 hs), hm, pyCount_eq]
  simp only
  refine ⟨_, foldlM_sum (e := fun q => pairEnergy c o (pl q.1).type (pl q.2).type
    (Place.Adjacent g (pl q.1) (pl q.2)) (positions q.1 - positions q.2)) 0 ?_⟩
  intro q hq r
  obtain ⟨q1, q2⟩ := mem_pairs.1 hq
  have e1 := hid q.1 (by omega)
  have e2 := hid q.2 q2
  have hne : pl q.1 ≠ pl q.2 := by
    intro he
    rw [he, e2] at e1
    omega
  have := pyPair_eq (g := g) (x := pl q.1) (y := pl q.2) (hpl _ (by omega)) (hpl _ q2) (ret := r) (c := c)
    (o := o) (positions := positions) (h _ _ (hpl _ (by omega)) (hpl _ q2) hne)
  rw [e1, e2] at this
  exact this

/-- One arm with one arm particle and one magnetic particle. -/
def smallStar : Geometry := ⟨1, 1, 1, true⟩

/-- Its parameters. -/
noncomputable def smallConfig : Config :=
  ⟨fun _ => 1, fun _ => 1, fun _ => 0, 1, some ⟨0, 0, 1⟩⟩

/-- Its positions: distance 1.2 between neighbours. -/
noncomputable def smallPositions (k : ℕ) : ℝ := if k % 3 = 0 then 1.2 * (k / 3 : ℕ) else 0

theorem small_vecAt (a : ℕ) : vecAt smallPositions a = ⟨1.2 * a, 0, 0⟩ := by
  have h1 : (a * 3 + 1) % 3 = 1 := by omega
  have h2 : (a * 3 + 2) % 3 = 2 := by omega
  simp [vecAt, smallPositions, h1, h2]

theorem small_mag (a b : ℕ) : (vecAt smallPositions a - vecAt smallPositions b).cppMagnitude = 1.2 * |(a : ℝ) - b| := by
  rw [small_vecAt, small_vecAt]
  have : (1.2 * (a : ℝ) - 1.2 * b) * (1.2 * a - 1.2 * b) = (1.2 * |(a : ℝ) - b|) ^ 2 := by
    rw [mul_pow, sq_abs]; ring
  simp only [cppMagnitude, cppMagnitudeSquared, dot, sub_x, sub_y, sub_z, sub_zero, mul_zero, add_zero, this]
  exact Real.sqrt_sq (by positivity)

/-- The hypotheses of C61 (and so those of C32) are met. -/
example : ∃ E, getPotentialEnergy smallStar smallConfig (vecAt smallPositions) = .ok E := by
  refine energy_ok (o := ⟨0, 0, 1⟩) rfl ?_ ?_
  · simp [pyMagnetic, smallStar, smallConfig, getLengthSquared, dot]
  · intro x y hx hy hxy
    have hd : ∀ a b : ℕ, a ≠ b → a ≤ 2 → b ≤ 2 → (0 : ℝ) < |(a : ℝ) - b| := by
      intro a b hab _ _
      rw [abs_pos, sub_ne_zero]
      exact_mod_cast hab
    have hidx : ∀ z : Place, z.Valid smallStar → z.id smallStar = z.depth smallStar ∧ z.depth smallStar ≤ 2 := by
      intro z hz
      cases z <;> simp_all [Place.Valid, smallStar, Place.id, Place.depth, Geometry.getCoreParticleID,
        Geometry.getArmParticleID, Geometry.getMagneticParticleID]
    obtain ⟨i1, i2⟩ := hidx x hx
    obtain ⟨j1, j2⟩ := hidx y hy
    have hne : x.depth smallStar ≠ y.depth smallStar := by
      intro h
      exact hxy ((C29_bijection smallStar).injOn hx hy (by rw [i1, j1, h]))
    refine ⟨?_, ?_, ?_, ?_, ?_⟩
    · simp [smallConfig]
    · simp [smallConfig, Config.pySigma]
    · simp [smallConfig, Config.pyD]
    · rw [small_mag, i1, j1]
      have := hd _ _ hne i2 j2
      simp only [smallConfig, Config.pyD, add_zero, zero_div]
      linarith
    · rintro ⟨-, -, h⟩
      rw [small_mag, i1, j1]
      have h1 : |((x.depth smallStar : ℕ) : ℝ) - (y.depth smallStar : ℕ)| = 1 := by
        rcases h with h | h <;> rw [← h] <;> push_cast <;> simp
      rw [h1]
      simp only [smallConfig, Config.pyD, Config.pySigma]
      norm_num

/-- The hypotheses of the theorems on time steps are met. -/
example (p : Parameters) : ∃ s s', MDTimestep 2 3 smallStar (createInteractions p) 1 1 s s' := by
  obtain ⟨f, hf⟩ := C32_progress (G := 2) (B := 3) (g := smallStar) (i := createInteractions p)
    (positions := smallPositions) (before := fun _ => 0) (by norm_num) (by norm_num) (by decide) (by
      intro a b hab hb
      refine C62_partial (by decide) p (by omega) hb hab.ne ?_
      intro h
      have := small_mag a b
      rw [sub_eq_zero.2 h] at this
      have h0 : (0 : Vec3 ℝ).cppMagnitude = 0 := by simp [cppMagnitude, cppMagnitudeSquared, dot]
      rw [h0] at this
      have h1 : (a : ℝ) ≠ b := by exact_mod_cast hab.ne
      have h2 := abs_pos.2 (sub_ne_zero.2 h1)
      linarith)
  refine ⟨⟨smallPositions, fun c => -(f c / 2)⟩,
    ⟨smallPositions, fun c => if c < 9 then f c / 2 else -(f c / 2)⟩, f, f, hf, ?_, hf, ?_⟩
  · refine (launched_iff (by norm_num) (by norm_num) (by decide) _ _ _).2 fun c => ?_
    simp only [Verlet.step1]
    split_ifs
    · ring
    · rfl
  · refine (launched_iff (by norm_num) (by norm_num) (by decide) _ _ _).2 fun c => ?_
    simp only [Verlet.step2]
    show _ = if c < 9 then _ else _
    split_ifs
    · ring
    · rfl

end OpenMPCD.Star
