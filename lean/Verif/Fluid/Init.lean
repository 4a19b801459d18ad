import Verif.Vec.Model
import Verif.Vec.Props
import Mathlib.Algebra.BigOperators.Group.List.Basic

/-!
# Initial states of the MPC fluids

Positions and velocities are arrays of vectors (in the code: flat arrays, see `readVec` in
`Verif/Collide/Host.lean`). The random number generator, together with the state of the
distributions, is an arbitrary type `G`; the distributions are arbitrary functions of it, subject to
the documented ranges. Arithmetic is exact.
-/

set_option linter.unusedSectionVars false
set_option linter.unusedSimpArgs false

namespace OpenMPCD.Fluid

/-! ## Model -/

/-- The random number generator and the distributions used: `boost::random::normal_distribution`,
`boost::random::uniform_01`, `Vector3D::getRandomUnitVector`. -/
structure Rng (G : Type) where
  normal : G → ℝ × G
  uniform : G → ℝ × G
  unitVector : G → Vec3 ℝ × G

/-- Three components drawn one after the other. -/
def draw3 {G : Type} (f : G → ℝ × G) (g : G) : Vec3 ℝ × G :=
  let a := f g
  let b := f a.2
  let c := f b.2
  (⟨a.1, b.1, c.1⟩, c.2)

/-- The first loop of `initializeVelocitiesOnHost`, `src/OpenMPCD/CUDA/MPCFluid/Base.cu:201-206`; `velDist`
is a normal distribution with the configured parameters. -/
def drawVelocities {G : Type} (R : Rng G) : ℕ → G → List (Vec3 ℝ) × G
  | 0, g => ([], g)
  | n + 1, g =>
    let r := drawVelocities R n g
    let v := draw3 R.normal r.2
    (r.1 ++ [v.1], v.2)

/-- `mpcParticleMass`, `include/OpenMPCD/CUDA/MPCFluid/Base.hpp:351`. -/
def mpcParticleMass : ℝ := 1

/-- `getTotalMomentum`, `src/OpenMPCD/CUDA/MPCFluid/Base.cu:241-255`. -/
noncomputable def getTotalMomentum (velocities : List (Vec3 ℝ)) : Vec3 ℝ :=
  mpcParticleMass • velocities.foldl (· + ·) 0

/-- `getMeanMomentum`, `src/OpenMPCD/CUDA/MPCFluid/Base.cu:257-262`. -/
noncomputable def getMeanMomentum (velocities : List (Vec3 ℝ)) : Vec3 ℝ :=
  (1 / (velocities.length : ℝ)) • getTotalMomentum velocities

/-- `getKineticEnergy`, `src/OpenMPCD/CUDA/MPCFluid/Base.cu:264-276`. -/
noncomputable def getKineticEnergy (velocities : List (Vec3 ℝ)) : ℝ :=
  mpcParticleMass *
    velocities.foldl (fun ret v => ((ret + v.x * v.x) + v.y * v.y) + v.z * v.z) 0 / 2

/-- `getkTViaKineticEnergy`, `include/OpenMPCD/CUDA/MPCFluid/Base.hpp:335-339`. -/
noncomputable def getkTViaKineticEnergy (velocities : List (Vec3 ℝ)) : ℝ :=
  2 / 3 * getKineticEnergy velocities / (velocities.length : ℝ)

open scoped Classical in
/-- `globalUnbiasedThermostat`, `src/OpenMPCD/CUDA/MPCFluid/Base.cu:229-239`. `none` means that the velocities are not numbers
afterwards: if there are particles, but the quotient is not defined or negative. -/
noncomputable def globalUnbiasedThermostat (kT : ℝ) (velocities : List (Vec3 ℝ)) :
    Option (List (Vec3 ℝ)) :=
  if velocities = [] then some []
  else if getkTViaKineticEnergy velocities = 0 ∨ kT / getkTViaKineticEnergy velocities < 0 then none
  else
    let scaling := Real.sqrt (kT / getkTViaKineticEnergy velocities)
    some (velocities.map fun v => scaling • v)

/-- `initializeVelocitiesOnHost`, `src/OpenMPCD/CUDA/MPCFluid/Base.cu:193-227`. `kT` is the setting `initialization.kT`. -/
noncomputable def initializeVelocities {G : Type} (R : Rng G) (particleCount : ℕ) (kT : Option ℝ)
    (g : G) : Option (List (Vec3 ℝ)) × G :=
  let r := drawVelocities R particleCount g
  let meanVelocity := (1 / mpcParticleMass) • getMeanMomentum r.1
  let shifted := r.1.map fun v => v - meanVelocity
  match kT with
  | none => (some shifted, r.2)
  | some kT => (globalUnbiasedThermostat kT shifted, r.2)

/-- The simulation box. -/
structure Box where
  x : ℝ
  y : ℝ
  z : ℝ

/-- A position drawn uniformly, e.g. `src/OpenMPCD/CUDA/MPCFluid/GaussianChains.cu:92-94`. -/
def drawPosition {G : Type} (R : Rng G) (B : Box) (g : G) : Vec3 ℝ × G :=
  let r := draw3 R.uniform g
  (⟨r.1.x * B.x, r.1.y * B.y, r.1.z * B.z⟩, r.2)

/-- The test for a position outside of the box, e.g. `GaussianChains.cu:105-108`. -/
def Outside (B : Box) (p : Vec3 ℝ) : Prop :=
  p.x ≥ B.x ∨ p.y ≥ B.y ∨ p.z ≥ B.z ∨ p.x < 0 ∨ p.y < 0 ∨ p.z < 0

/-- Writing an array element. -/
def put (a : ℕ → Vec3 ℝ) (i : ℕ) (v : Vec3 ℝ) : ℕ → Vec3 ℝ := fun k => if k = i then v else a k

/-- The loop of `Simple::initializeOnHost`, `src/OpenMPCD/CUDA/MPCFluid/Simple.cu:57-62`, and
`HarmonicTrimers::initializeOnHost`, `src/OpenMPCD/CUDA/MPCFluid/HarmonicTrimers.cu:85-90`. -/
def initializeSimple {G : Type} (R : Rng G) (B : Box) :
    ℕ → (ℕ → Vec3 ℝ) → G → (ℕ → Vec3 ℝ) × G
  | 0, a, g => (a, g)
  | n + 1, a, g =>
    let r := initializeSimple R B n a g
    let p := drawPosition R B r.2
    (put r.1 n p.1, p.2)

/-- The inner loop in `GaussianChains::initializeOnHost`, `GaussianChains.cu:98-121`:
`PartnerLoop … partnerOffset a g a' g'` holds if the loop, entered with the given offset, array and
generator, ends with `a'` and `g'`. `lastPosition` refers to the array element of the first particle
of the chain. -/
inductive PartnerLoop {G : Type} (R : Rng G) (B : Box) (pID particlesPerChain : ℕ) :
    ℕ → (ℕ → Vec3 ℝ) → G → (ℕ → Vec3 ℝ) → G → Prop
  | exit {off a g} (h : ¬ off < particlesPerChain) :
      PartnerLoop R B pID particlesPerChain off a g a g
  | retry {off a g a' g'} (h : off < particlesPerChain)
      (ho : Outside B (a pID + (R.unitVector g).1))
      (rest : PartnerLoop R B pID particlesPerChain off a (R.unitVector g).2 a' g') :
      PartnerLoop R B pID particlesPerChain off a g a' g'
  | accept {off a g a' g'} (h : off < particlesPerChain)
      (ho : ¬ Outside B (a pID + (R.unitVector g).1))
      (rest : PartnerLoop R B pID particlesPerChain (off + 1)
        (put a (pID + off) (a pID + (R.unitVector g).1)) (R.unitVector g).2 a' g') :
      PartnerLoop R B pID particlesPerChain off a g a' g'

/-- The outer loop in `GaussianChains::initializeOnHost`, `GaussianChains.cu:90-122`. -/
inductive ChainsLoop {G : Type} (R : Rng G) (B : Box) (particleCount particlesPerChain : ℕ) :
    ℕ → (ℕ → Vec3 ℝ) → G → (ℕ → Vec3 ℝ) → G → Prop
  | exit {pID a g} (h : ¬ pID < particleCount) :
      ChainsLoop R B particleCount particlesPerChain pID a g a g
  | iter {pID a g a₁ g₁ a' g'} (h : pID < particleCount)
      (inner : PartnerLoop R B pID particlesPerChain 1 (put a pID (drawPosition R B g).1)
        (drawPosition R B g).2 a₁ g₁)
      (rest : ChainsLoop R B particleCount particlesPerChain (pID + particlesPerChain) a₁ g₁ a' g') :
      ChainsLoop R B particleCount particlesPerChain pID a g a' g'

/-- The loop in `GaussianRods::initializeOnHost`, `src/OpenMPCD/CUDA/MPCFluid/GaussianRods.cu:77-103`, and
`GaussianDumbbells::initializeOnHost`, `src/OpenMPCD/CUDA/MPCFluid/GaussianDumbbells.cu:126-152`;
`displacement` is what `getInitialPartnerPosition` and `getInitialDumbbellPartnerPosition` add to the
first position. `pID -= 2; continue;` starts the same iteration once more. -/
inductive PairsLoop {G : Type} (R : Rng G) (displacement : G → Vec3 ℝ × G) (B : Box)
    (particleCount : ℕ) : ℕ → (ℕ → Vec3 ℝ) → G → (ℕ → Vec3 ℝ) → G → Prop
  | exit {pID a g} (h : ¬ pID < particleCount) :
      PairsLoop R displacement B particleCount pID a g a g
  | retry {pID a g a' g'} (h : pID < particleCount)
      (ho : Outside B ((drawPosition R B g).1 + (displacement (drawPosition R B g).2).1))
      (rest : PairsLoop R displacement B particleCount pID (put a pID (drawPosition R B g).1)
        (displacement (drawPosition R B g).2).2 a' g') :
      PairsLoop R displacement B particleCount pID a g a' g'
  | accept {pID a g a' g'} (h : pID < particleCount)
      (ho : ¬ Outside B ((drawPosition R B g).1 + (displacement (drawPosition R B g).2).1))
      (rest : PairsLoop R displacement B particleCount (pID + 2)
        (put (put a pID (drawPosition R B g).1) (pID + 1)
          ((drawPosition R B g).1 + (displacement (drawPosition R B g).2).1))
        (displacement (drawPosition R B g).2).2 a' g') :
      PairsLoop R displacement B particleCount pID a g a' g'

/-- The displacement in `GaussianRods::getInitialPartnerPosition`, `GaussianRods.cu:106-114`, and, for
the positioning "relaxed", in `getInitialDumbbellPartnerPosition`, `GaussianDumbbells.cu:165-170`. -/
def unitDisplacement {G : Type} (R : Rng G) (length : ℝ) (g : G) : Vec3 ℝ × G :=
  (length • (R.unitVector g).1, (R.unitVector g).2)

/-! ## Specification -/

/-- The documented ranges of the distributions. -/
structure Rng.Lawful {G : Type} (R : Rng G) : Prop where
  uniform : ∀ g, 0 ≤ (R.uniform g).1 ∧ (R.uniform g).1 < 1
  unit : ∀ g, (R.unitVector g).1.getLength = 1

/-- Inside of the box. -/
def Inside (B : Box) (p : Vec3 ℝ) : Prop :=
  (0 ≤ p.x ∧ p.x < B.x) ∧ (0 ≤ p.y ∧ p.y < B.y) ∧ (0 ≤ p.z ∧ p.z < B.z)

/-- The sum of all velocities; the mass of all particles is the same. -/
noncomputable def total (vs : List (Vec3 ℝ)) : Vec3 ℝ := vs.sum

/-- The mean kinetic energy per degree of freedom, times two. -/
noncomputable def temperature (vs : List (Vec3 ℝ)) : ℝ :=
  (vs.map fun v => v.dot v).sum / (3 * (vs.length : ℝ))

/-! ## Velocities -/

theorem foldl_add (vs : List (Vec3 ℝ)) (z : Vec3 ℝ) : vs.foldl (· + ·) z = z + vs.sum := by
  induction vs generalizing z with
  | nil => simp
  | cons v vs ih => rw [List.foldl_cons, ih, List.sum_cons, add_assoc]

theorem kT_eq (vs : List (Vec3 ℝ)) : getkTViaKineticEnergy vs = temperature vs := by
  have h : ∀ z : ℝ, vs.foldl (fun ret v => ((ret + v.x * v.x) + v.y * v.y) + v.z * v.z) z =
      z + (vs.map fun v => v.dot v).sum := by
    induction vs with
    | nil => simp
    | cons v vs ih =>
      intro z
      rw [List.foldl_cons, ih, List.map_cons, List.sum_cons, Vec3.dot]; ring
  unfold getkTViaKineticEnergy getKineticEnergy temperature mpcParticleMass
  rw [h]
  rcases eq_or_ne ((vs.length : ℝ)) 0 with h0 | h0
  · rw [h0]; simp
  · field_simp; ring

theorem drawVelocities_length {G : Type} (R : Rng G) (n : ℕ) (g : G) :
    (drawVelocities R n g).1.length = n := by
  induction n with
  | zero => rfl
  | succ n ih => simp [drawVelocities, ih]

theorem sum_map_sub (vs : List (Vec3 ℝ)) (m : Vec3 ℝ) :
    (vs.map fun v => v - m).sum = vs.sum - (vs.length : ℝ) • m := by
  induction vs with
  | nil => ext <;> simp
  | cons v vs ih =>
    rw [List.map_cons, List.sum_cons, ih, List.sum_cons, List.length_cons]
    ext <;> push_cast <;> simp <;> ring

theorem sum_map_smul (vs : List (Vec3 ℝ)) (s : ℝ) :
    (vs.map fun v => s • v).sum = s • vs.sum := by
  induction vs with
  | nil => ext <;> simp
  | cons v vs ih =>
    rw [List.map_cons, List.sum_cons, ih, List.sum_cons]
    ext <;> simp

/-- The velocities after the mean has been subtracted. -/
theorem shifted_total (vs : List (Vec3 ℝ)) :
    total (vs.map fun v => v - (1 / mpcParticleMass) • getMeanMomentum vs) = 0 := by
  unfold total
  rw [sum_map_sub]
  unfold getMeanMomentum getTotalMomentum mpcParticleMass
  rw [foldl_add, zero_add]
  rcases vs with _ | ⟨v, vs⟩
  · ext <;> simp
  · have h0 : (((v :: vs).length : ℕ) : ℝ) ≠ 0 := by simp; positivity
    ext <;> simp only [Vec3.sub_x, Vec3.sub_y, Vec3.sub_z, Vec3.smul_x, Vec3.smul_y, Vec3.smul_z,
      Vec3.zero_x, Vec3.zero_y, Vec3.zero_z] <;> field_simp <;> ring

theorem temperature_scaled (vs : List (Vec3 ℝ)) (s : ℝ) :
    temperature (vs.map fun v => s • v) = s ^ 2 * temperature vs := by
  unfold temperature
  rw [List.length_map, List.map_map, mul_div_assoc']
  congr 1
  induction vs with
  | nil => simp
  | cons v vs ih =>
    rw [List.map_cons, List.sum_cons, ih, List.map_cons, List.sum_cons]
    simp only [Function.comp, Vec3.dot, Vec3.smul_x, Vec3.smul_y, Vec3.smul_z]; ring

theorem temperature_nonneg (vs : List (Vec3 ℝ)) : 0 ≤ temperature vs := by
  unfold temperature
  apply div_nonneg _ (by positivity)
  apply List.sum_nonneg
  intro x hx
  obtain ⟨v, -, rfl⟩ := List.mem_map.1 hx
  unfold Vec3.dot
  nlinarith [mul_self_nonneg v.x, mul_self_nonneg v.y, mul_self_nonneg v.z]

/-- **C80**, velocities. Whatever the random numbers are, and with or without a configured
temperature, if the velocities of the fluid are numbers, then there is one for each particle, their
sum vanishes, and the temperature is the configured one. -/
theorem C80_velocities {G : Type} (R : Rng G) (n : ℕ) (kT : Option ℝ) (g : G)
    (vs : List (Vec3 ℝ)) (h : (initializeVelocities R n kT g).1 = some vs) :
    vs.length = n ∧ total vs = 0 ∧ ∀ T, kT = some T → n ≠ 0 → temperature vs = T := by
  have hl := drawVelocities_length R n g
  have ht := shifted_total (drawVelocities R n g).1
  cases kT with
  | none =>
    simp only [initializeVelocities, Option.some.injEq] at h
    subst h
    exact ⟨by simp [hl], ht, by simp⟩
  | some T =>
    simp only [initializeVelocities] at h
    set w := (drawVelocities R n g).1.map fun v =>
      v - (1 / mpcParticleMass) • getMeanMomentum (drawVelocities R n g).1
    have hw : w.length = n := by simp [w, hl]
    unfold globalUnbiasedThermostat at h
    by_cases h0 : w = []
    · rw [if_pos h0] at h
      simp only [Option.some.injEq] at h
      subst h
      rw [h0] at hw
      exact ⟨hw, rfl, fun _ _ hn => absurd hw.symm hn⟩
    · rw [if_neg h0] at h
      by_cases h1 : getkTViaKineticEnergy w = 0 ∨ T / getkTViaKineticEnergy w < 0
      · rw [if_pos h1] at h; simp at h
      · rw [if_neg h1] at h
        simp only [Option.some.injEq] at h
        subst h
        push Not at h1
        refine ⟨by rw [List.length_map, hw], ?_, ?_⟩
        · unfold total at ht ⊢
          rw [sum_map_smul, ht]; ext <;> simp
        · rintro T' hT -
          simp only [Option.some.injEq] at hT
          subst hT
          rw [temperature_scaled, Real.sq_sqrt h1.2, ← kT_eq]
          field_simp [h1.1]

/-- When the velocities are numbers: if no temperature is configured, or there is no particle, or the
temperature is not negative and the velocities drawn are not all the same. -/
theorem C80_velocities_defined {G : Type} (R : Rng G) (n : ℕ) (kT : Option ℝ) (g : G)
    (h : ∀ T, kT = some T → n = 0 ∨ (0 ≤ T ∧ ∃ v ∈ (drawVelocities R n g).1,
      ∃ w ∈ (drawVelocities R n g).1, v ≠ w)) :
    ∃ vs, (initializeVelocities R n kT g).1 = some vs := by
  cases kT with
  | none => exact ⟨_, rfl⟩
  | some T =>
    have hl := drawVelocities_length R n g
    simp only [initializeVelocities]
    set u := (drawVelocities R n g).1
    set m := (1 / mpcParticleMass) • getMeanMomentum u
    unfold globalUnbiasedThermostat
    rcases h T rfl with rfl | ⟨hT, v, hv, w, hw, hvw⟩
    · have : u = [] := List.length_eq_zero_iff.1 hl
      rw [if_pos (by rw [this]; rfl)]
      exact ⟨_, rfl⟩
    · have h0 : (u.map fun v => v - m) ≠ [] := by
        intro e; rw [List.map_eq_nil_iff] at e; rw [e] at hv; simp at hv
      rw [if_neg h0]
      have hpos : 0 < temperature (u.map fun v => v - m) := by
        unfold temperature
        apply div_pos
        · apply lt_of_le_of_ne
          · apply List.sum_nonneg
            intro x hx
            obtain ⟨y, -, rfl⟩ := List.mem_map.1 hx
            unfold Vec3.dot
            nlinarith [mul_self_nonneg y.x, mul_self_nonneg y.y, mul_self_nonneg y.z]
          · intro e
            have hz : ∀ y ∈ u, y = m := by
              intro y hy
              have hnn : ∀ x ∈ ((u.map fun v => v - m).map fun v => v.dot v), (0 : ℝ) ≤ x := by
                intro x hx
                obtain ⟨y, -, rfl⟩ := List.mem_map.1 hx
                unfold Vec3.dot
                nlinarith [mul_self_nonneg y.x, mul_self_nonneg y.y, mul_self_nonneg y.z]
              have hle := List.single_le_sum hnn ((y - m).dot (y - m))
                (List.mem_map.2 ⟨y - m, List.mem_map.2 ⟨y, hy, rfl⟩, rfl⟩)
              rw [← e] at hle
              unfold Vec3.dot at hle
              simp only [Vec3.sub_x, Vec3.sub_y, Vec3.sub_z] at hle
              have a1 := mul_self_nonneg (y.x - m.x)
              have a2 := mul_self_nonneg (y.y - m.y)
              have a3 := mul_self_nonneg (y.z - m.z)
              have b1 := mul_self_eq_zero.1 (le_antisymm (by linarith) a1)
              have b2 := mul_self_eq_zero.1 (le_antisymm (by linarith) a2)
              have b3 := mul_self_eq_zero.1 (le_antisymm (by linarith) a3)
              ext <;> linarith
            exact hvw ((hz v hv).trans (hz w hw).symm)
        · have : 0 < (u.map fun v => v - m).length := List.length_pos_iff.2 h0
          positivity
      rw [← kT_eq] at hpos
      rw [if_neg (by
        push Not
        exact ⟨hpos.ne', div_nonneg hT hpos.le⟩)]
      exact ⟨_, rfl⟩

/-- **Violation of C80.** With one particle and a configured temperature, the velocities are not
numbers, whatever is drawn. -/
theorem C80_one_particle_violated {G : Type} (R : Rng G) (T : ℝ) (g : G) :
    (initializeVelocities R 1 (some T) g).1 = none := by
  simp only [initializeVelocities, globalUnbiasedThermostat]
  obtain ⟨v, hv⟩ : ∃ v, (drawVelocities R 1 g).1 = [v] := ⟨_, rfl⟩
  rw [hv]
  have hm : (1 / mpcParticleMass) • getMeanMomentum [v] = v := by
    unfold getMeanMomentum getTotalMomentum mpcParticleMass
    ext <;> simp
  rw [hm, if_neg (by simp), if_pos]
  left
  rw [kT_eq]
  simp [temperature, Vec3.dot]

/-! ## Positions -/

theorem not_outside_iff (B : Box) (p : Vec3 ℝ) : ¬ Outside B p ↔ Inside B p := by
  unfold Outside Inside
  push Not
  constructor
  · rintro ⟨a, b, c, d, e, f⟩; exact ⟨⟨d, a⟩, ⟨e, b⟩, f, c⟩
  · rintro ⟨⟨d, a⟩, ⟨e, b⟩, f, c⟩; exact ⟨a, b, c, d, e, f⟩

theorem drawPosition_inside {G : Type} {R : Rng G} (hR : R.Lawful) {B : Box} (hx : 0 < B.x)
    (hy : 0 < B.y) (hz : 0 < B.z) (g : G) : Inside B (drawPosition R B g).1 := by
  have key : ∀ (u b : ℝ), 0 ≤ u ∧ u < 1 → 0 < b → 0 ≤ u * b ∧ u * b < b := by
    intro u b hu hb
    exact ⟨mul_nonneg hu.1 hb.le, by nlinarith [hu.2]⟩
  exact ⟨key _ _ (hR.uniform _) hx, key _ _ (hR.uniform _) hy, key _ _ (hR.uniform _) hz⟩

/-- **C80**, simple fluid and trimers: all particles start inside of the box; other memory is not
written to. -/
theorem C80_simple {G : Type} {R : Rng G} (hR : R.Lawful) {B : Box} (hx : 0 < B.x)
    (hy : 0 < B.y) (hz : 0 < B.z) (n : ℕ) (a : ℕ → Vec3 ℝ) (g : G) :
    (∀ i < n, Inside B ((initializeSimple R B n a g).1 i)) ∧
    ∀ i, n ≤ i → (initializeSimple R B n a g).1 i = a i := by
  induction n with
  | zero => exact ⟨fun i hi => absurd hi (by omega), fun _ _ => rfl⟩
  | succ n ih =>
    simp only [initializeSimple, put]
    constructor
    · intro i hi
      by_cases h : i = n
      · rw [if_pos h]; exact drawPosition_inside hR hx hy hz _
      · rw [if_neg h]; exact ih.1 i (by omega)
    · intro i hi
      rw [if_neg (by omega)]; exact ih.2 i (by omega)

theorem partnerLoop_spec {G : Type} {R : Rng G} {B : Box} {pID n off : ℕ} {a a' : ℕ → Vec3 ℝ}
    {g g' : G} (h : PartnerLoop R B pID n off a g a' g') (h0 : 0 < off) :
    (∀ i, i < pID + off ∨ pID + n ≤ i → a' i = a i) ∧
    ∀ i, off ≤ i → i < n → Inside B (a' (pID + i)) ∧
      ∃ gi, a' (pID + i) = a pID + (R.unitVector gi).1 := by
  induction h with
  | exit h => exact ⟨fun _ _ => rfl, fun i hi hn => absurd hn (by omega)⟩
  | retry h ho rest ih => exact ih h0
  | @accept off a g a' g' h ho rest ih =>
    obtain ⟨i1, i2⟩ := ih (by omega)
    have hp : put a (pID + off) (a pID + (R.unitVector g).1) pID = a pID := by
      unfold put; rw [if_neg (by omega)]
    constructor
    · intro i hi
      rw [i1 i (by omega)]
      unfold put; rw [if_neg (by omega)]
    · intro i hi hn
      by_cases hio : i = off
      · subst hio
        have : a' (pID + i) = a pID + (R.unitVector g).1 := by
          rw [i1 _ (by omega)]; unfold put; rw [if_pos rfl]
        rw [this]
        exact ⟨(not_outside_iff _ _).1 ho, g, rfl⟩
      · have := i2 i (by omega) hn
        rw [hp] at this
        exact this

theorem chainsLoop_spec {G : Type} {R : Rng G} (hR : R.Lawful) {B : Box} (hx : 0 < B.x)
    (hy : 0 < B.y) (hz : 0 < B.z) {N n pID : ℕ} {a a' : ℕ → Vec3 ℝ} {g g' : G} (hn : 0 < n)
    (h : ChainsLoop R B N n pID a g a' g') :
    (∀ i < pID, a' i = a i) ∧
    ∀ c, pID + c * n < N → Inside B (a' (pID + c * n)) ∧ ∀ off, 0 < off → off < n →
      Inside B (a' (pID + c * n + off)) ∧
      ∃ gi, a' (pID + c * n + off) = a' (pID + c * n) + (R.unitVector gi).1 := by
  induction h with
  | exit h => exact ⟨fun _ _ => rfl, fun c hc => absurd hc (by omega)⟩
  | @iter pID a g a₁ g₁ a' g' h inner rest ih =>
    obtain ⟨i1, i2⟩ := ih
    obtain ⟨p1, p2⟩ := partnerLoop_spec inner (by omega)
    have hfirst : a' pID = (drawPosition R B g).1 := by
      rw [i1 pID (by omega), p1 pID (by omega)]; unfold put; rw [if_pos rfl]
    have hp : put a pID (drawPosition R B g).1 pID = (drawPosition R B g).1 := by
      unfold put; rw [if_pos rfl]
    constructor
    · intro i hi
      rw [i1 i (by omega), p1 i (by omega)]
      unfold put; rw [if_neg (by omega)]
    · intro c hc
      rcases c with _ | c
      · simp only [Nat.zero_mul, Nat.add_zero]
        refine ⟨?_, fun off h0 h1 => ?_⟩
        · rw [hfirst]; exact drawPosition_inside hR hx hy hz _
        · rw [hfirst, i1 _ (by omega)]
          have := p2 off (by omega) h1
          rw [hp] at this
          exact this
      · have e : pID + (c + 1) * n = pID + n + c * n := by rw [Nat.succ_mul]; omega
        rw [e]
        exact i2 c (by rw [← e]; exact hc)

/-- **C80**, chains: if the loop ends, all particles are inside of the box, and each particle is at
distance 1 of the first particle of its chain. -/
theorem C80_chains {G : Type} {R : Rng G} (hR : R.Lawful) {B : Box} (hx : 0 < B.x) (hy : 0 < B.y)
    (hz : 0 < B.z) {N n : ℕ} {a a' : ℕ → Vec3 ℝ} {g g' : G} (hn : 0 < n)
    (h : ChainsLoop R B N n 0 a g a' g') (c off : ℕ) (hc : c * n < N) (hoff : off < n) :
    Inside B (a' (c * n + off)) ∧
    (0 < off → (a' (c * n + off) - a' (c * n)).getLength = 1) := by
  obtain ⟨-, h2⟩ := chainsLoop_spec hR hx hy hz hn h
  have := h2 c (by omega)
  rw [Nat.zero_add] at this
  rcases Nat.eq_zero_or_pos off with rfl | h0
  · exact ⟨this.1, fun h => absurd h (by omega)⟩
  · obtain ⟨i1, gi, i2⟩ := this.2 off h0 hoff
    refine ⟨i1, fun _ => ?_⟩
    rw [i2]
    have : a' (c * n) + (R.unitVector gi).1 - a' (c * n) = (R.unitVector gi).1 := by
      ext <;> simp
    rw [this]; exact hR.unit gi

theorem pairsLoop_spec {G : Type} {R : Rng G} (hR : R.Lawful) {disp : G → Vec3 ℝ × G} {B : Box}
    (hx : 0 < B.x) (hy : 0 < B.y) (hz : 0 < B.z) {N pID : ℕ} {a a' : ℕ → Vec3 ℝ} {g g' : G}
    (h : PairsLoop R disp B N pID a g a' g') :
    (∀ i < pID, a' i = a i) ∧
    ∀ c, pID + 2 * c < N → Inside B (a' (pID + 2 * c)) ∧ Inside B (a' (pID + 2 * c + 1)) ∧
      ∃ gi, a' (pID + 2 * c + 1) = a' (pID + 2 * c) + (disp gi).1 := by
  induction h with
  | exit h => exact ⟨fun _ _ => rfl, fun c hc => absurd hc (by omega)⟩
  | @retry pID a g a' g' h ho rest ih =>
    refine ⟨fun i hi => ?_, ih.2⟩
    rw [ih.1 i hi]; unfold put; rw [if_neg (by omega)]
  | @accept pID a g a' g' h ho rest ih =>
    obtain ⟨i1, i2⟩ := ih
    constructor
    · intro i hi
      rw [i1 i (by omega)]
      unfold put; rw [if_neg (by omega), if_neg (by omega)]
    · intro c hc
      rcases c with _ | c
      · have e0 : a' (pID + 2 * 0) = (drawPosition R B g).1 := by
          rw [i1 _ (by omega)]; unfold put; rw [if_neg (by omega), if_pos (by omega)]
        have e1 : a' (pID + 2 * 0 + 1) =
            (drawPosition R B g).1 + (disp (drawPosition R B g).2).1 := by
          rw [i1 _ (by omega)]; unfold put; rw [if_pos (by omega)]
        rw [e0, e1]
        exact ⟨drawPosition_inside hR hx hy hz _, (not_outside_iff _ _).1 ho, _, rfl⟩
      · have e : pID + 2 * (c + 1) = pID + 2 + 2 * c := by omega
        rw [e]
        exact i2 c (by omega)

/-- **C80**, rods and relaxed dumbbells: if the loop ends, all particles are inside of the box, and the
two particles of each pair have the configured distance. -/
theorem C80_pairs {G : Type} {R : Rng G} (hR : R.Lawful) {B : Box} (hx : 0 < B.x) (hy : 0 < B.y)
    (hz : 0 < B.z) {N : ℕ} {length : ℝ} {a a' : ℕ → Vec3 ℝ} {g g' : G}
    (h : PairsLoop R (unitDisplacement R length) B N 0 a g a' g') (c : ℕ) (hc : 2 * c < N) :
    Inside B (a' (2 * c)) ∧ Inside B (a' (2 * c + 1)) ∧
    (a' (2 * c + 1) - a' (2 * c)).getLength = |length| := by
  obtain ⟨-, h2⟩ := pairsLoop_spec hR hx hy hz h
  have := h2 c (by omega)
  rw [Nat.zero_add] at this
  obtain ⟨i1, i2, gi, i3⟩ := this
  refine ⟨i1, i2, ?_⟩
  rw [i3]
  have e : a' (2 * c) + (unitDisplacement R length gi).1 - a' (2 * c) =
      length • (R.unitVector gi).1 := by
    ext <;> simp [unitDisplacement]
  rw [e]
  have hu := hR.unit gi
  simp only [Vec3.getLength, Vec3.getLengthSquared, Vec3.dot] at hu ⊢
  rw [show (length • (R.unitVector gi).1).x * (length • (R.unitVector gi).1).x +
      (length • (R.unitVector gi).1).y * (length • (R.unitVector gi).1).y +
      (length • (R.unitVector gi).1).z * (length • (R.unitVector gi).1).z =
      length ^ 2 * ((R.unitVector gi).1.x * (R.unitVector gi).1.x +
        (R.unitVector gi).1.y * (R.unitVector gi).1.y +
        (R.unitVector gi).1.z * (R.unitVector gi).1.z) by
    simp only [Vec3.smul_x, Vec3.smul_y, Vec3.smul_z]; ring]
  rw [Real.sqrt_mul (sq_nonneg _), hu, Real.sqrt_sq_eq_abs, mul_one]

/-! ## What does not hold -/

/-- A generator which counts its calls; every number drawn is 1/2, and the unit vectors are in turn along
`x` and `y`. -/
noncomputable def alternating : Rng ℕ where
  normal := fun g => (if g % 2 = 0 then 0 else 1, g + 1)
  uniform := fun g => (1 / 2, g + 1)
  unitVector := fun g => (if g % 2 = 0 then ⟨1, 0, 0⟩ else ⟨0, 1, 0⟩, g + 1)

theorem alternating_lawful : alternating.Lawful where
  uniform := fun g => by constructor <;> norm_num [alternating]
  unit := fun g => by
    simp only [alternating]
    split_ifs <;> simp [Vec3.getLength, Vec3.getLengthSquared, Vec3.dot]

/-- A run of the initialization of a chain of three particles in a box of side length 10. -/
theorem alternating_run : ∃ a' g', ChainsLoop alternating ⟨10, 10, 10⟩ 3 3 0 (fun _ => 0) 0 a' g' ∧
    a' 1 = ⟨5, 6, 5⟩ ∧ a' 2 = ⟨6, 5, 5⟩ := by
  have hf : (drawPosition alternating ⟨10, 10, 10⟩ 0) = (⟨5, 5, 5⟩, 3) := by
    simp only [drawPosition, draw3, alternating]; norm_num
  have hp : put (fun _ => 0) 0 (⟨5, 5, 5⟩ : Vec3 ℝ) 0 = ⟨5, 5, 5⟩ := by simp [put]
  have u3 : alternating.unitVector 3 = (⟨0, 1, 0⟩, 4) := by simp [alternating]
  have u4 : alternating.unitVector 4 = (⟨1, 0, 0⟩, 5) := by simp [alternating]
  have s1 : (⟨5, 5, 5⟩ : Vec3 ℝ) + ⟨0, 1, 0⟩ = ⟨5, 6, 5⟩ := by ext <;> norm_num
  have s2 : (⟨5, 5, 5⟩ : Vec3 ℝ) + ⟨1, 0, 0⟩ = ⟨6, 5, 5⟩ := by ext <;> norm_num
  have hp' : put (put (fun _ => 0) 0 (⟨5, 5, 5⟩ : Vec3 ℝ)) (0 + 1) ⟨5, 6, 5⟩ 0 = ⟨5, 5, 5⟩ := by
    simp [put]
  refine ⟨_, _, .iter (by norm_num) (.accept (by norm_num) ?_ (.accept (by norm_num) ?_
    (.exit (by norm_num)))) (.exit (by norm_num)), ?_, ?_⟩
  · rw [hf]; simp only [hp, u3, s1]; unfold Outside; norm_num
  · rw [hf]; simp only [hp, hp', u3, s1, u4, s2]; unfold Outside; norm_num
  · rw [hf]; simp only [hp, hp', u3, s1, u4, s2]; simp [put]
  · rw [hf]; simp only [hp, hp', u3, s1, u4, s2]; simp [put]

/-- **Violation of C80.** Particles which follow each other in a chain need not have distance 1
initially: the third particle is placed relative to the first, not to the second. -/
theorem C80_consecutive_violated :
    ∃ (R : Rng ℕ) (a' : ℕ → Vec3 ℝ) (g' : ℕ), R.Lawful ∧
      ChainsLoop R ⟨10, 10, 10⟩ 3 3 0 (fun _ => 0) 0 a' g' ∧ (a' 2 - a' 1).getLength ≠ 1 := by
  obtain ⟨a', g', h, h1, h2⟩ := alternating_run
  refine ⟨alternating, a', g', alternating_lawful, h, ?_⟩
  rw [h1, h2]
  simp only [Vec3.getLength, Vec3.getLengthSquared, Vec3.dot, Vec3.sub_x, Vec3.sub_y, Vec3.sub_z]
  norm_num

/-- **Violation of C80.** In a box of side length 1, the initialization of chains of at least two
particles does not end if the first particle is placed at the centre, whatever is drawn afterwards. -/
theorem C80_small_box_violated {G : Type} {R : Rng G} (hR : R.Lawful) {N n : ℕ} (hN : 0 < N)
    (hn : 2 ≤ n) (a : ℕ → Vec3 ℝ) (g : G)
    (hc : (drawPosition R ⟨1, 1, 1⟩ g).1 = ⟨1 / 2, 1 / 2, 1 / 2⟩) (a' : ℕ → Vec3 ℝ) (g' : G) :
    ¬ ChainsLoop R ⟨1, 1, 1⟩ N n 0 a g a' g' := by
  have key : ∀ off (b : ℕ → Vec3 ℝ) (k : G) (b' : ℕ → Vec3 ℝ) (k' : G),
      PartnerLoop R ⟨1, 1, 1⟩ 0 n off b k b' k' → off < n → b 0 = ⟨1 / 2, 1 / 2, 1 / 2⟩ → False := by
    intro off b k b' k' h
    induction h with
    | exit h => intro h'; exact absurd h' h
    | retry h ho rest ih => exact ih
    | @accept off b k b' k' h ho rest ih =>
      intro _ hb
      have hin := (not_outside_iff _ _).1 ho
      have hu := hR.unit k
      unfold Vec3.getLength Vec3.getLengthSquared Vec3.dot at hu
      rw [Real.sqrt_eq_one] at hu
      obtain ⟨⟨x0, x1⟩, ⟨y0, y1⟩, z0, z1⟩ := hin
      rw [hb] at x0 x1 y0 y1 z0 z1
      simp only [Vec3.add_x, Vec3.add_y, Vec3.add_z] at x0 x1 y0 y1 z0 z1
      nlinarith
  intro h
  cases h with
  | exit h => exact h hN
  | iter h inner rest =>
    refine key 1 _ _ _ _ inner (by omega) ?_
    unfold put; rw [if_pos rfl, hc]

/-- **Violation of C80.** If the bond length configured is at least the length of the box's diagonal,
the initialization of rods (and relaxed dumbbells) never ends. -/
theorem C80_long_bond_violated {G : Type} {R : Rng G} (hR : R.Lawful) {B : Box} (hx : 0 < B.x)
    (hy : 0 < B.y) (hz : 0 < B.z) {N : ℕ} (hN : 0 < N) {length : ℝ}
    (hl : B.x ^ 2 + B.y ^ 2 + B.z ^ 2 ≤ length ^ 2) (a : ℕ → Vec3 ℝ) (g : G) (a' : ℕ → Vec3 ℝ)
    (g' : G) : ¬ PairsLoop R (unitDisplacement R length) B N 0 a g a' g' := by
  intro h
  have hd := C80_pairs hR hx hy hz h 0 (by omega)
  obtain ⟨⟨⟨x0, x1⟩, ⟨y0, y1⟩, z0, z1⟩, ⟨⟨x0', x1'⟩, ⟨y0', y1'⟩, z0', z1'⟩, hlen⟩ := hd
  have hsq : (a' (2 * 0 + 1) - a' (2 * 0)).getLength ^ 2 = length ^ 2 := by rw [hlen, sq_abs]
  unfold Vec3.getLength Vec3.getLengthSquared at hsq
  rw [Real.sq_sqrt (by
    unfold Vec3.dot
    nlinarith [mul_self_nonneg (a' (2 * 0 + 1) - a' (2 * 0)).x,
      mul_self_nonneg (a' (2 * 0 + 1) - a' (2 * 0)).y,
      mul_self_nonneg (a' (2 * 0 + 1) - a' (2 * 0)).z])] at hsq
  unfold Vec3.dot at hsq
  simp only [Vec3.sub_x, Vec3.sub_y, Vec3.sub_z] at hsq
  have sq_lt : ∀ p q b : ℝ, 0 ≤ p → p < b → 0 ≤ q → q < b → (p - q) * (p - q) < b ^ 2 := by
    intro p q b hp hpb hq hqb
    nlinarith
  have e1 := sq_lt _ _ _ x0' x1' x0 x1
  have e2 := sq_lt _ _ _ y0' y1' y0 y1
  have e3 := sq_lt _ _ _ z0' z1' z0 z1
  linarith

/-! ## The hypotheses can be met -/

/-- Velocities: two particles with different velocities drawn, and a temperature. -/
example : ∃ vs, (initializeVelocities alternating 3 (some 2) 0).1 = some vs := by
  apply C80_velocities_defined
  rintro T hT
  right
  simp only [Option.some.injEq] at hT
  subst hT
  have : (drawVelocities alternating 3 0).1 = [⟨0, 1, 0⟩, ⟨1, 0, 1⟩, ⟨0, 1, 0⟩] := by
    simp [drawVelocities, draw3, alternating]
  rw [this]
  refine ⟨by norm_num, _, List.mem_cons_self, ⟨1, 0, 1⟩, by simp, ?_⟩
  intro h
  have := congrArg Vec3.x h
  norm_num at this

/-- Chains: `alternating_run` is a run that ends, to which `C80_chains` applies. -/
example : ∃ a' : ℕ → Vec3 ℝ, Inside ⟨10, 10, 10⟩ (a' 2) ∧ (a' 2 - a' 0).getLength = 1 := by
  obtain ⟨a', g', h, -, -⟩ := alternating_run
  have := C80_chains alternating_lawful (by norm_num) (by norm_num) (by norm_num) (by norm_num) h 0 2
    (by norm_num) (by norm_num)
  exact ⟨a', this.1, this.2 (by norm_num)⟩

/-- Rods: a run that ends. -/
example : ∃ a' g', PairsLoop alternating (unitDisplacement alternating 2) ⟨10, 10, 10⟩ 2 0
    (fun _ => 0) 0 a' g' := by
  have hf : (drawPosition alternating ⟨10, 10, 10⟩ 0) = (⟨5, 5, 5⟩, 3) := by
    simp only [drawPosition, draw3, alternating]; norm_num
  refine ⟨_, _, .accept (by norm_num) ?_ (.exit (by norm_num))⟩
  rw [hf]
  simp only [unitDisplacement, alternating, Outside]
  norm_num

end OpenMPCD.Fluid
