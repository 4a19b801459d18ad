import Verif.Common
import Verif.Fluid.Init
import Verif.Verlet.Analytic
import Mathlib.Algebra.CubicDiscriminant
import Mathlib.Data.Multiset.Sort
import Mathlib.Analysis.SpecialFunctions.Gaussian.GaussianIntegral
import Mathlib.MeasureTheory.Integral.IntegralEqImproper
import Mathlib.MeasureTheory.Integral.Prod

/-!
# The spring of a Gaussian dumbbell (C99)

How the strength of the spring is computed from the configured root mean square bond length, the relaxation time
and the shear rate (`AnalyticQuantitiesGaussianDumbbell`), and the placement called "perfect".

Arithmetic is exact. `gsl_poly_solve_cubic` (GNU Scientific Library) is taken to do what is documented: it finds
the real roots, counted with their multiplicity, in ascending order.
-/

set_option linter.unusedSimpArgs false
set_option linter.unusedSectionVars false

namespace OpenMPCD.Fluid.Dumbbell

open Real MeasureTheory Polynomial

/-! ## Model -/

/-- Exceptions: `std::runtime_error`, and `InvalidConfigurationException`. -/
inductive Err
  | runtimeError
  | invalidConfiguration
  deriving DecidableEq

/-- `gsl_poly_solve_cubic(a, b, c, &x0, &x1, &x2)`: the real roots of `x³ + a x² + b x + c` in ascending order;
the length of the list is the value returned. -/
noncomputable def solveCubic (a b c : ℝ) : List ℝ :=
  (Cubic.toPoly ⟨1, a, b, c⟩).roots.sort (· ≤ ·)

/-- `zeroShearLagrangianMultiplier`
(`include/OpenMPCD/AnalyticQuantitiesGaussianDumbbell.hpp:31-34`). -/
noncomputable def zeroShearLagrangianMultiplier (rootMeanSquareBondLength : ℝ) : ℝ :=
  1.5 / (rootMeanSquareBondLength * rootMeanSquareBondLength)

/-- `weissenbergNumber`
(`include/OpenMPCD/AnalyticQuantitiesGaussianDumbbell.hpp:60-63`). -/
def weissenbergNumber (shearRate zeroShearRelaxationTime : ℝ) : ℝ := shearRate * zeroShearRelaxationTime

open Classical in
/-- `lagrangianMultiplierRatio`
(`src/OpenMPCD/AnalyticQuantitiesGaussianDumbbell.cpp:34-49`). -/
noncomputable def lagrangianMultiplierRatio (weissenbergNumber : ℝ) : Except Err ℝ :=
  if weissenbergNumber = 0 then .ok 1
  else
    match solveCubic (-1) 0 (-weissenbergNumber * weissenbergNumber / 6) with
    | [x] => .ok x
    | _ => .error .runtimeError

/-- `lagrangianMultiplier`
(`src/OpenMPCD/AnalyticQuantitiesGaussianDumbbell.cpp:12-19`). -/
noncomputable def lagrangianMultiplier (rootMeanSquareBondLength shearRate zeroShearRelaxationTime : ℝ) :
    Except Err ℝ :=
  let lambda_0 := zeroShearLagrangianMultiplier rootMeanSquareBondLength
  match lagrangianMultiplierRatio (weissenbergNumber shearRate zeroShearRelaxationTime) with
  | .ok mu => .ok (lambda_0 * mu)
  | .error e => .error e

/-- The reduced spring constant and the frequency computed when a fluid of dumbbells is constructed
(`src/OpenMPCD/CUDA/MPCFluid/GaussianDumbbells.cu:57-67`). -/
noncomputable def springConstants (l shearRate tau_0 kT mass : ℝ) : Except Err (ℝ × ℝ) :=
  match lagrangianMultiplier l shearRate tau_0 with
  | .ok lambda => .ok (Verlet.dumbbellConstants lambda kT mass)
  | .error e => .error e

/-- The displacement for the positioning "perfect"
(`src/OpenMPCD/CUDA/MPCFluid/GaussianDumbbells.cu:174-181`). -/
noncomputable def perfectDisplacement (l Wi : ℝ) : Except Err (Vec3 ℝ) :=
  match lagrangianMultiplierRatio Wi with
  | .error e => .error e
  | .ok mu =>
    let prefactor := l * l / (3 * mu)
    .ok ⟨√(prefactor * (1 + Wi * Wi / (2 * mu * mu))), √prefactor, √prefactor⟩

/-- The setting `initialization.dumbbell.relativePosition`. -/
inductive Positioning
  | relaxed
  | perfect
  | other
  deriving DecidableEq

/-- The variables of `getInitialDumbbellPartnerPosition` declared `static`: they belong to the process, and are
computed once (`src/OpenMPCD/CUDA/MPCFluid/GaussianDumbbells.cu:162-163, 174-181`). -/
structure Statics where
  positioning : Option Positioning
  displacement : Option (Vec3 ℝ)

/-- What `getInitialDumbbellPartnerPosition` adds to the position of the first particle
(`src/OpenMPCD/CUDA/MPCFluid/GaussianDumbbells.cu:155-187`), together with the static variables and the generator
afterwards. -/
noncomputable def partnerDisplacement {G : Type} (R : Rng G) (configured : Positioning) (l Wi : ℝ)
    (s : Statics) (g : G) : (Statics × G) × Except Err (Vec3 ℝ) :=
  let positioning := s.positioning.getD configured
  let s := { s with positioning := some positioning }
  match positioning with
  | .relaxed => ((s, (unitDisplacement R l g).2), .ok (unitDisplacement R l g).1)
  | .perfect =>
    match s.displacement with
    | some d => ((s, g), .ok d)
    | none =>
      match perfectDisplacement l Wi with
      | .error e => ((s, g), .error e)
      | .ok d => (({ s with displacement := some d }, g), .ok d)
  | .other => ((s, g), .error .invalidConfiguration)

/-- The generator together with the static variables. -/
def withStatics {G : Type} (R : Rng G) : Rng (Statics × G) where
  normal s := ((R.normal s.2).1, (s.1, (R.normal s.2).2))
  uniform s := ((R.uniform s.2).1, (s.1, (R.uniform s.2).2))
  unitVector s := ((R.unitVector s.2).1, (s.1, (R.unitVector s.2).2))

/-- `partnerDisplacement` as used in the loop `PairsLoop`. (Where an exception is thrown, construction of the fluid
ends; the value is of no importance then.) -/
noncomputable def displacementOf {G : Type} (R : Rng G) (configured : Positioning) (l Wi : ℝ) (s : Statics × G) :
    Vec3 ℝ × (Statics × G) :=
  let r := partnerDisplacement R configured l Wi s.1 s.2
  (match r.2 with
    | .ok d => d
    | .error _ => 0, r.1)

/-! ## Specification -/

/-- A bond is stretched by a shear flow: if the spring is `mu` times as strong as without flow, the mean squares
of the bond vector's components, as fractions of the configured mean square bond length, are `1 / (3 mu)` along
the gradient and vorticity directions, and larger by `Wi² / (2 mu²)` along the flow. The strength is the proper
one if these fractions have the sum 1. -/
def KeepsLength (Wi mu : ℝ) : Prop :=
  0 < mu ∧ 1 / (3 * mu) * (1 + Wi ^ 2 / (2 * mu ^ 2)) + 1 / (3 * mu) + 1 / (3 * mu) = 1

/-- The potential energy of the spring, as in `Verlet.energy`. -/
noncomputable def potential (k : ℝ) (r : Vec3 ℝ) : ℝ := k / 2 * r.dot r

/-- The weight of a bond vector in thermal equilibrium, Boltzmann's factor. -/
noncomputable def weight (k kT : ℝ) (r : ℝ × ℝ × ℝ) : ℝ := exp (-potential k ⟨r.1, r.2.1, r.2.2⟩ / kT)

/-! ## The cubic equation -/

/-- The equation to be solved. -/
theorem keepsLength_iff (Wi mu : ℝ) : KeepsLength Wi mu ↔ 0 < mu ∧ mu ^ 2 * (mu - 1) = Wi ^ 2 / 6 := by
  unfold KeepsLength
  refine and_congr_right fun h => ?_
  constructor
  · intro e
    field_simp at e
    linarith
  · intro e
    field_simp
    linarith

theorem cubic_mono {x y : ℝ} (hx : 1 ≤ x) (hy : 1 ≤ y) :
    |x - y| ≤ |x ^ 2 * (x - 1) - y ^ 2 * (y - 1)| := by
  have e : x ^ 2 * (x - 1) - y ^ 2 * (y - 1) = (x - y) * (x ^ 2 + x * y + y ^ 2 - x - y) := by ring
  have h : 1 ≤ x ^ 2 + x * y + y ^ 2 - x - y := by nlinarith
  rw [e, abs_mul]
  refine le_mul_of_one_le_right (abs_nonneg _) ?_
  rw [abs_of_pos (by linarith)]
  exact h

theorem ge_one {x q : ℝ} (hq : 0 ≤ q) (hx : 0 < x) (h : x ^ 2 * (x - 1) = q) : 1 ≤ x := by
  by_contra hc
  have : x ^ 2 * (x - 1) < 0 := mul_neg_of_pos_of_neg (by positivity) (by linarith)
  linarith

theorem cubic_solution {q : ℝ} (hq : 0 ≤ q) : ∃ x : ℝ, 1 ≤ x ∧ x ^ 2 * (x - 1) = q := by
  have hc : ContinuousOn (fun x : ℝ => x ^ 2 * (x - 1)) (Set.Icc 1 (1 + q)) := by fun_prop
  have := intermediate_value_Icc (by linarith : (1 : ℝ) ≤ 1 + q) hc
  have hm : q ∈ Set.Icc ((1 : ℝ) ^ 2 * (1 - 1)) ((1 + q) ^ 2 * (1 + q - 1)) := by
    constructor
    · simpa using hq
    · nlinarith [mul_nonneg hq hq, mul_nonneg (mul_nonneg hq hq) hq]
  obtain ⟨x, hx, e⟩ := this hm
  exact ⟨x, hx.1, e⟩

theorem solveCubic_eq {q x : ℝ} (hq : 0 < q) (hx : 1 ≤ x) (e : x ^ 2 * (x - 1) = q) :
    solveCubic (-1) 0 (-q) = [x] := by
  have hroots : (Cubic.toPoly (⟨1, -1, 0, -q⟩ : Cubic ℝ)).roots = {x} := by
    set P := Cubic.toPoly (⟨1, -1, 0, -q⟩ : Cubic ℝ) with hP
    have hP0 : P ≠ 0 := Cubic.ne_zero_of_a_ne_zero (by norm_num)
    have hroot : ∀ y, P.IsRoot y ↔ y ^ 2 * (y - 1) = q := by
      intro y
      simp only [IsRoot.def, hP, Cubic.toPoly, eval_add, eval_mul, eval_C, eval_pow, eval_X]
      constructor <;> intro h <;> linarith
    have hx1 : 1 < x := by
      rcases hx.lt_or_eq with h | h
      · exact h
      · rw [← h] at e; norm_num at e; linarith
    have honly : ∀ y, P.IsRoot y → y = x := by
      intro y hy
      rw [hroot] at hy
      have hy1 : 1 < y := by
        by_contra hc
        have : y ^ 2 * (y - 1) ≤ 0 := mul_nonpos_of_nonneg_of_nonpos (sq_nonneg y) (by linarith)
        linarith
      have := cubic_mono hy1.le hx
      rw [hy, e, sub_self, abs_zero] at this
      exact sub_eq_zero.1 (abs_eq_zero.1 (le_antisymm this (abs_nonneg _)))
    have hsimple : P.rootMultiplicity x = 1 := by
      have h1 : 0 < P.rootMultiplicity x := (rootMultiplicity_pos hP0).2 ((hroot x).2 e)
      have h2 : ¬ 1 < P.rootMultiplicity x := by
        rw [one_lt_rootMultiplicity_iff_isRoot hP0]
        rintro ⟨-, h⟩
        simp only [IsRoot.def, hP, Cubic.toPoly, derivative_add, derivative_mul, derivative_C, derivative_X_pow,
          derivative_X, eval_add, eval_mul, eval_C, eval_pow, eval_X] at h
        norm_num at h
        nlinarith
      omega
    ext y
    rw [count_roots, Multiset.count_singleton]
    split
    · next h => rw [h, hsimple]
    · next h => exact rootMultiplicity_eq_zero fun hy => h (honly y hy)
  unfold solveCubic
  rw [hroots]
  simp

/-- **C99**: for every Weissenberg number the ratio is computed without an exception being thrown, and it is the one
number with which the bond keeps its mean square length. -/
theorem C99_ratio (Wi mu : ℝ) : lagrangianMultiplierRatio Wi = .ok mu ↔ KeepsLength Wi mu := by
  rw [keepsLength_iff]
  obtain ⟨x, hx, e⟩ := cubic_solution (q := Wi ^ 2 / 6) (by positivity)
  have hval : lagrangianMultiplierRatio Wi = .ok x := by
    unfold lagrangianMultiplierRatio
    split_ifs with h
    · subst h
      have := cubic_mono hx le_rfl
      rw [e] at this
      norm_num at this
      rw [sub_eq_zero.1 this]
    · have hq : 0 < Wi ^ 2 / 6 := by positivity
      rw [show -Wi * Wi / 6 = -(Wi ^ 2 / 6) by ring, solveCubic_eq hq hx e]
  rw [hval]
  constructor
  · rintro ⟨⟩
    exact ⟨by linarith, e⟩
  · rintro ⟨h0, h⟩
    have hm := ge_one (by positivity) h0 h
    have := cubic_mono hx hm
    rw [e, h, sub_self, abs_zero] at this
    rw [sub_eq_zero.1 (abs_eq_zero.1 (le_antisymm this (abs_nonneg _)))]

/-- The ratio always exists. -/
theorem ratio_ok (Wi : ℝ) : ∃ mu, lagrangianMultiplierRatio Wi = .ok mu := by
  obtain ⟨x, hx, e⟩ := cubic_solution (q := Wi ^ 2 / 6) (by positivity)
  exact ⟨x, (C99_ratio Wi x).2 ((keepsLength_iff _ _).2 ⟨by linarith, e⟩)⟩

/-- **C99**: shear makes the spring stronger, more so the faster the flow, whatever its direction; a small change of
the flow makes a small change only. In particular nothing jumps where the flow comes to rest. -/
theorem C99_monotone {Wi Wi' mu mu' : ℝ} (h : lagrangianMultiplierRatio Wi = .ok mu)
    (h' : lagrangianMultiplierRatio Wi' = .ok mu') :
    1 ≤ mu ∧ (mu = 1 ↔ Wi = 0) ∧ (mu < mu' ↔ |Wi| < |Wi'|) ∧ |mu - mu'| ≤ |Wi ^ 2 - Wi' ^ 2| / 6 := by
  rw [C99_ratio, keepsLength_iff] at h h'
  have h1 := ge_one (by positivity) h.1 h.2
  have h1' := ge_one (by positivity) h'.1 h'.2
  have hl := cubic_mono h1 h1'
  refine ⟨h1, ⟨fun e => ?_, fun e => ?_⟩, ?_, ?_⟩
  · have := h.2
    rw [e] at this
    norm_num at this
    exact pow_eq_zero_iff (two_ne_zero) |>.1 (by linarith)
  · have := h.2
    rw [e] at this
    have h3 : mu - 1 = 0 := by
      rcases mul_eq_zero.1 (this.trans (by norm_num)) with h4 | h4
      · nlinarith
      · exact h4
    linarith
  · rw [← sq_lt_sq]
    have e : Wi' ^ 2 / 6 - Wi ^ 2 / 6 = (mu' - mu) * (mu' ^ 2 + mu' * mu + mu ^ 2 - mu' - mu) := by
      rw [← h.2, ← h'.2]; ring
    have hpos : 0 < mu' ^ 2 + mu' * mu + mu ^ 2 - mu' - mu := by nlinarith
    constructor
    · intro hlt
      have := mul_pos (sub_pos.2 hlt) hpos
      linarith
    · intro hlt
      by_contra hc
      have := mul_nonneg (sub_nonneg.2 (not_lt.1 hc)) hpos.le
      nlinarith
  · rw [h.2, h'.2, ← sub_div, abs_div, abs_of_pos (by norm_num : (0 : ℝ) < 6)] at hl
    exact hl

/-- **C99**: the ratio is a continuous function of the Weissenberg number. -/
theorem C99_continuous {f : ℝ → ℝ} (hf : ∀ Wi, lagrangianMultiplierRatio Wi = .ok (f Wi)) : Continuous f := by
  rw [continuous_iff_continuousAt]
  intro a
  rw [ContinuousAt, tendsto_iff_norm_sub_tendsto_zero]
  refine squeeze_zero (fun _ => norm_nonneg _) (fun x => (C99_monotone (hf x) (hf a)).2.2.2) ?_
  have : Continuous fun x : ℝ => |x ^ 2 - a ^ 2| / 6 := by fun_prop
  simpa using this.tendsto a

/-- **C99**: the constants of the spring are always found, for every shear rate; the frequency used by the analytic
streaming belongs to the spring constant used by velocity Verlet streaming. -/
theorem C99_constants {l shearRate tau_0 kT mass : ℝ} (hl : l ≠ 0) (hkT : 0 < kT) (hm : 0 < mass) :
    ∃ k omega, springConstants l shearRate tau_0 kT mass = .ok (k, omega) ∧ 0 < k ∧ 0 < omega ∧
      omega ^ 2 = 2 * k ∧ 3 * kT / (mass * l ^ 2) ≤ k ∧ (shearRate = 0 → k = 3 * kT / (mass * l ^ 2)) := by
  obtain ⟨mu, hmu⟩ := ratio_ok (weissenbergNumber shearRate tau_0)
  have hmo := C99_monotone hmu hmu
  have hl2 : 0 < l ^ 2 := by positivity
  have hk : 2 * (zeroShearLagrangianMultiplier l * mu) * kT / mass = 3 * kT / (mass * l ^ 2) * mu := by
    unfold zeroShearLagrangianMultiplier
    field_simp
    ring
  have hk0 : 0 < 3 * kT / (mass * l ^ 2) := by positivity
  have hmu0 : 0 < mu := by linarith [hmo.1]
  have h4 : 4 * (zeroShearLagrangianMultiplier l * mu) * kT / mass = 2 * (3 * kT / (mass * l ^ 2) * mu) := by
    rw [← hk]; ring
  refine ⟨3 * kT / (mass * l ^ 2) * mu, √(2 * (3 * kT / (mass * l ^ 2) * mu)), ?_, ?_, ?_, ?_, ?_, ?_⟩
  · unfold springConstants lagrangianMultiplier
    simp only [hmu, Verlet.dumbbellConstants]
    rw [hk, h4]
  · positivity
  · positivity
  · rw [Real.sq_sqrt (by positivity)]
  · exact le_mul_of_one_le_right hk0.le hmo.1
  · intro h0
    rw [(hmo.2.1).2 (by simp [weissenbergNumber, h0]), mul_one]

/-! ## Thermal equilibrium -/

/-- The spring's energy is the one whose conservation is proved in C23. -/
theorem energy_eq (p : ℕ) (k : ℝ) (m : Verlet.Mem ℝ) :
    Verlet.energy p k m = ((m.vel p).dot (m.vel p) + (m.vel (p + 1)).dot (m.vel (p + 1))) / 2 +
      potential k (m.pos (p + 1) - m.pos p) := rfl

theorem integrable_sq {b : ℝ} (hb : 0 < b) : Integrable fun x : ℝ => x ^ 2 * exp (-b * x ^ 2) := by
  have := integrable_rpow_mul_exp_neg_mul_sq hb (s := 2) (by norm_num)
  simpa using this

theorem integral_sq {b : ℝ} (hb : 0 < b) :
    ∫ x : ℝ, x ^ 2 * exp (-b * x ^ 2) = 1 / (2 * b) * ∫ x : ℝ, exp (-b * x ^ 2) := by
  have hd : ∀ x : ℝ, HasDerivAt (fun x : ℝ => x * exp (-b * x ^ 2))
      (exp (-b * x ^ 2) - 2 * b * (x ^ 2 * exp (-b * x ^ 2))) x := by
    intro x
    have h1 : HasDerivAt (fun x : ℝ => -b * x ^ 2) (-b * (2 * x)) x := by
      simpa using (hasDerivAt_pow 2 x).const_mul (-b)
    have := (hasDerivAt_id x).mul h1.exp
    refine this.congr_deriv ?_
    simp only [id]
    ring
  have hi := integrable_sq hb
  have hg := integrable_exp_neg_mul_sq hb
  have hx : Integrable fun x : ℝ => x * exp (-b * x ^ 2) := integrable_mul_exp_neg_mul_sq hb
  have h0 := integral_eq_zero_of_hasDerivAt_of_integrable hd (hg.sub (hi.const_mul (2 * b))) hx
  rw [integral_sub hg (hi.const_mul (2 * b)), integral_const_mul] at h0
  rw [one_div, inv_mul_eq_div, eq_div_iff (by positivity)]
  linarith

/-- **C99**: without shear flow, the mean square bond length in thermal equilibrium is the configured one. -/
theorem C99_equilibrium {l tau_0 kT k omega : ℝ} (hl : l ≠ 0) (hkT : 0 < kT)
    (h : springConstants l 0 tau_0 kT 1 = .ok (k, omega)) :
    0 < ∫ r : ℝ × ℝ × ℝ, weight k kT r ∧
    (∫ r : ℝ × ℝ × ℝ, (r.1 ^ 2 + r.2.1 ^ 2 + r.2.2 ^ 2) * weight k kT r) / (∫ r : ℝ × ℝ × ℝ, weight k kT r)
      = l ^ 2 := by
  obtain ⟨k', omega', h', hk, -, -, -, h0⟩ := C99_constants (shearRate := 0) (tau_0 := tau_0) hl hkT one_pos
  rw [h] at h'
  obtain ⟨rfl, rfl⟩ : k = k' ∧ omega = omega' := by simpa using h'
  have hk' := h0 rfl
  have hl2 : 0 < l ^ 2 := by positivity
  set b : ℝ := 3 / (2 * l ^ 2) with hb
  have hb0 : 0 < b := by positivity
  let E : ℝ → ℝ := fun x => exp (-b * x ^ 2)
  let S : ℝ → ℝ := fun x => x ^ 2 * exp (-b * x ^ 2)
  have hw : weight k kT = fun r : ℝ × ℝ × ℝ => E r.1 * (E r.2.1 * E r.2.2) := by
    funext r
    simp only [weight, potential, Vec3.dot, E]
    rw [← exp_add, ← exp_add, hk', hb]
    congr 1
    field_simp
    ring
  have hE : Integrable E := integrable_exp_neg_mul_sq hb0
  have hS : Integrable S := integrable_sq hb0
  set I : ℝ := ∫ x, E x with hI
  have hI0 : 0 < I := by
    rw [hI, integral_gaussian]
    positivity
  have hSI : ∫ x, S x = 1 / (2 * b) * I := integral_sq hb0
  have hZ : ∫ r : ℝ × ℝ × ℝ, weight k kT r = I * (I * I) := by
    rw [hw, Measure.volume_eq_prod, integral_prod_mul E fun q : ℝ × ℝ => E q.1 * E q.2, Measure.volume_eq_prod,
      integral_prod_mul E E]
  have hn : (fun r : ℝ × ℝ × ℝ => (r.1 ^ 2 + r.2.1 ^ 2 + r.2.2 ^ 2) * weight k kT r) =
      fun r => (S r.1 * (E r.2.1 * E r.2.2) + E r.1 * (S r.2.1 * E r.2.2)) + E r.1 * (E r.2.1 * S r.2.2) := by
    funext r
    rw [hw]
    simp only [S, E]
    ring
  have i1 : Integrable fun r : ℝ × ℝ × ℝ => S r.1 * (E r.2.1 * E r.2.2) := hS.mul_prod (hE.mul_prod hE)
  have i2 : Integrable fun r : ℝ × ℝ × ℝ => E r.1 * (S r.2.1 * E r.2.2) := hE.mul_prod (hS.mul_prod hE)
  have i3 : Integrable fun r : ℝ × ℝ × ℝ => E r.1 * (E r.2.1 * S r.2.2) := hE.mul_prod (hE.mul_prod hS)
  have i12 : Integrable fun r : ℝ × ℝ × ℝ => S r.1 * (E r.2.1 * E r.2.2) + E r.1 * (S r.2.1 * E r.2.2) := i1.add i2
  have hN : ∫ r : ℝ × ℝ × ℝ, (r.1 ^ 2 + r.2.1 ^ 2 + r.2.2 ^ 2) * weight k kT r = 3 * (1 / (2 * b)) * (I * (I * I)) := by
    rw [hn, integral_add i12 i3, integral_add i1 i2, Measure.volume_eq_prod,
      integral_prod_mul S fun q : ℝ × ℝ => E q.1 * E q.2, integral_prod_mul E fun q : ℝ × ℝ => S q.1 * E q.2,
      integral_prod_mul E fun q : ℝ × ℝ => E q.1 * S q.2, Measure.volume_eq_prod,
      integral_prod_mul E E, integral_prod_mul S E, integral_prod_mul E S, hSI]
    ring
  rw [hN, hZ]
  refine ⟨by positivity, ?_⟩
  rw [mul_div_assoc, div_self (by positivity), hb]
  field_simp

/-! ## The placement called "perfect" -/

/-- **C99**: for every shear rate there is a displacement, its length is the configured root mean square bond
length, and its components have the proportions that the bond has in the flow. -/
theorem C99_perfect (l Wi : ℝ) :
    ∃ d, perfectDisplacement l Wi = .ok d ∧ d.getLength = |l| ∧ 0 ≤ d.x ∧ 0 ≤ d.y ∧ 0 ≤ d.z ∧
      ∃ mu, lagrangianMultiplierRatio Wi = .ok mu ∧ d.y ^ 2 = l ^ 2 / (3 * mu) ∧ d.z ^ 2 = l ^ 2 / (3 * mu) ∧
        d.x ^ 2 = l ^ 2 / (3 * mu) * (1 + Wi ^ 2 / (2 * mu ^ 2)) := by
  obtain ⟨mu, hmu⟩ := ratio_ok Wi
  have hk := (C99_ratio Wi mu).1 hmu
  obtain ⟨h0, hsum⟩ := hk
  have hp : 0 ≤ l * l / (3 * mu) := div_nonneg (mul_self_nonneg l) (by positivity)
  have hq : 0 ≤ l * l / (3 * mu) * (1 + Wi * Wi / (2 * mu * mu)) :=
    mul_nonneg hp (by have := mul_self_nonneg Wi; positivity)
  refine ⟨_, by unfold perfectDisplacement; simp only [hmu]; rfl, ?_, sqrt_nonneg _, sqrt_nonneg _, sqrt_nonneg _,
    mu, hmu, ?_, ?_, ?_⟩
  · unfold Vec3.getLength Vec3.getLengthSquared Vec3.dot
    rw [mul_self_sqrt hp, mul_self_sqrt hq, ← sqrt_sq_eq_abs]
    congr 1
    calc _ = l ^ 2 * (1 / (3 * mu) * (1 + Wi ^ 2 / (2 * mu ^ 2)) + 1 / (3 * mu) + 1 / (3 * mu)) := by ring
      _ = l ^ 2 := by rw [hsum, mul_one]
  · rw [sq_sqrt hp]; ring
  · rw [sq_sqrt hp]; ring
  · rw [sq_sqrt hq]; ring

/-- A call made while one fluid is constructed in a process that has not constructed any before. -/
theorem partner_fresh {G : Type} (R : Rng G) {l Wi : ℝ} {d : Vec3 ℝ} (h : perfectDisplacement l Wi = .ok d)
    (s : Statics) (hs : s = ⟨none, none⟩ ∨ s = ⟨some .perfect, some d⟩) (g : G) :
    partnerDisplacement R .perfect l Wi s g = ((⟨some .perfect, some d⟩, g), .ok d) := by
  rcases hs with rfl | rfl
  · simp [partnerDisplacement, h]
  · simp [partnerDisplacement]

/-- If a property of the generator is kept by all draws and gives displacements in `D`, all pairs placed have
displacements in `D`. -/
theorem pairsLoop_inv {G : Type} {R : Rng G} {disp : G → Vec3 ℝ × G} {B : Box} {N : ℕ} {P : G → Prop}
    {D : Vec3 ℝ → Prop} (h1 : ∀ g, P g → P (drawPosition R B g).2) (h2 : ∀ g, P g → P (disp g).2 ∧ D (disp g).1)
    {pID : ℕ} {a a' : ℕ → Vec3 ℝ} {g g' : G} (h : PairsLoop R disp B N pID a g a' g') (hg : P g) :
    (∀ i < pID, a' i = a i) ∧ P g' ∧
    ∀ c, pID + 2 * c < N → ∃ d, D d ∧ a' (pID + 2 * c + 1) = a' (pID + 2 * c) + d := by
  induction h with
  | exit h => exact ⟨fun _ _ => rfl, hg, fun c hc => absurd hc (by omega)⟩
  | @retry pID a g a' g' h ho rest ih =>
    obtain ⟨i1, i2, i3⟩ := ih (h2 _ (h1 _ hg)).1
    refine ⟨fun i hi => ?_, i2, i3⟩
    rw [i1 i hi]; unfold put; rw [if_neg (by omega)]
  | @accept pID a g a' g' h ho rest ih =>
    obtain ⟨i1, i2, i3⟩ := ih (h2 _ (h1 _ hg)).1
    refine ⟨fun i hi => ?_, i2, fun c hc => ?_⟩
    · rw [i1 i (by omega)]
      unfold put; rw [if_neg (by omega), if_neg (by omega)]
    · rcases c with _ | c
      · refine ⟨_, (h2 _ (h1 _ hg)).2, ?_⟩
        have e0 : a' (pID + 2 * 0) = (drawPosition R B g).1 := by
          rw [i1 _ (by omega)]; unfold put; rw [if_neg (by omega), if_pos (by omega)]
        have e1 : a' (pID + 2 * 0 + 1) = (drawPosition R B g).1 + (disp (drawPosition R B g).2).1 := by
          rw [i1 _ (by omega)]; unfold put; rw [if_pos (by omega)]
        rw [e0, e1]
      · have e : pID + 2 * (c + 1) = pID + 2 + 2 * c := by omega
        rw [e]
        exact i3 c (by omega)

/-- **C99**: dumbbells placed "perfect" by the first fluid of a process are inside of the box and have the configured
length, if the placement ends. -/
theorem C99_placement {G : Type} {R : Rng G} (hR : R.Lawful) {B : Box} (hx : 0 < B.x) (hy : 0 < B.y)
    (hz : 0 < B.z) {N : ℕ} {l Wi : ℝ} {a a' : ℕ → Vec3 ℝ} {g g' : Statics × G} (hg : g.1 = ⟨none, none⟩)
    (h : PairsLoop (withStatics R) (displacementOf R .perfect l Wi) B N 0 a g a' g') (c : ℕ) (hc : 2 * c < N) :
    Inside B (a' (2 * c)) ∧ Inside B (a' (2 * c + 1)) ∧ (a' (2 * c + 1) - a' (2 * c)).getLength = |l| := by
  obtain ⟨d, hd, hlen, -⟩ := C99_perfect l Wi
  have hR' : (withStatics R).Lawful := ⟨fun s => hR.uniform s.2, fun s => hR.unit s.2⟩
  obtain ⟨-, h2⟩ := pairsLoop_spec hR' hx hy hz h
  have := h2 c (by omega)
  rw [Nat.zero_add] at this
  obtain ⟨i1, i2, -⟩ := this
  refine ⟨i1, i2, ?_⟩
  obtain ⟨-, -, h3⟩ := pairsLoop_inv (R := withStatics R) (B := B)
    (P := fun s : Statics × G => s.1 = ⟨none, none⟩ ∨ s.1 = ⟨some .perfect, some d⟩) (D := fun e => e = d)
    (fun s hs => hs)
    (fun s hs => by
      unfold displacementOf
      rw [partner_fresh R hd _ hs]
      exact ⟨.inr rfl, rfl⟩) h (.inl hg)
  obtain ⟨e, rfl, h4⟩ := h3 c (by omega)
  rw [Nat.zero_add] at h4
  rw [h4]
  have e' : a' (2 * c) + e - a' (2 * c) = e := by ext <;> simp
  rw [e', hlen]

/-- **Violation of C99.** A further fluid constructed in the same process, with another bond length, gets the
displacement of the first one. -/
theorem C99_second_violated {G : Type} (R : Rng G) (g g' : G) :
    ∃ s d, (partnerDisplacement R .perfect 1 0 ⟨none, none⟩ g).1.1 = s ∧
      (partnerDisplacement R .perfect 2 0 s g').2 = .ok d ∧ d.getLength = 1 := by
  obtain ⟨d, hd, hlen, -⟩ := C99_perfect 1 0
  refine ⟨_, d, rfl, ?_, by simpa using hlen⟩
  rw [partner_fresh R hd _ (.inl rfl)]
  simp [partnerDisplacement]

/-- **C99** fails for a second fluid in the same process also in that its configured way of placing is ignored: configured to
be placed at random, its molecules are placed as those of the first fluid are, whatever the random numbers. -/
theorem C99_positioning_violated {G : Type} (R : Rng G) (l Wi l' Wi' : ℝ) (g : G) :
    ∃ d, perfectDisplacement l Wi = .ok d ∧ ∀ g', (partnerDisplacement R .relaxed l' Wi'
      (partnerDisplacement R .perfect l Wi ⟨none, none⟩ g).1.1 g').2 = .ok d := by
  obtain ⟨d, hd, -⟩ := C99_perfect l Wi
  refine ⟨d, hd, fun g' => ?_⟩
  rw [partner_fresh R hd _ (.inl rfl)]
  simp [partnerDisplacement]

/-! ## The hypotheses can be met -/

/-- With a Weissenberg number of `√24` the spring is twice as strong. -/
example : lagrangianMultiplierRatio √24 = .ok 2 := by
  rw [C99_ratio, keepsLength_iff]
  rw [Real.sq_sqrt (by norm_num)]
  norm_num

example : ∃ k omega, springConstants 2 0 5 3 1 = .ok (k, omega) ∧ k = 9 / 4 := by
  obtain ⟨k, omega, h, -, -, -, -, h0⟩ :=
    C99_constants (l := 2) (shearRate := 0) (tau_0 := 5) (kT := 3) (mass := 1) (by norm_num) (by norm_num) one_pos
  exact ⟨k, omega, h, by rw [h0 rfl]; norm_num⟩

/-- A run of the placement that ends. -/
example : ∃ a' g', PairsLoop (withStatics alternating) (displacementOf alternating .perfect 3 0) ⟨10, 10, 10⟩ 2 0
    (fun _ => 0) (⟨none, none⟩, 0) a' g' := by
  obtain ⟨d, hd, hlen, -, -, -, mu, hmu, h1, h2, h3⟩ := C99_perfect 3 0
  have h4 := ((C99_monotone hmu hmu).2.1).2 rfl
  subst h4
  have hf : drawPosition (withStatics alternating) ⟨10, 10, 10⟩ (⟨none, none⟩, 0) = (⟨5, 5, 5⟩, (⟨none, none⟩, 3)) := by
    simp only [drawPosition, draw3, withStatics, alternating]; norm_num
  norm_num at h1 h2 h3
  refine ⟨_, _, .accept (by norm_num) ?_ (.exit (by norm_num))⟩
  rw [hf]
  have hp : (displacementOf alternating .perfect 3 0 (⟨none, none⟩, 3)).1 = d := by
    unfold displacementOf
    rw [partner_fresh alternating hd _ (.inl rfl)]
  rw [hp]
  simp only [Outside, Vec3.add_x, Vec3.add_y, Vec3.add_z]
  push Not
  refine ⟨?_, ?_, ?_, ?_, ?_, ?_⟩ <;> nlinarith

end OpenMPCD.Fluid.Dumbbell
