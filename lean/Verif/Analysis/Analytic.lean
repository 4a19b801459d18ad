import Verif.Common
import Mathlib.Analysis.SpecialFunctions.Trigonometric.Basic
import Mathlib.Analysis.SpecialFunctions.Exp
import Mathlib.Analysis.SpecialFunctions.Sqrt

/-!
# Predicted transport coefficients (C100)

`AnalyticQuantities` of the C++ code, `AnalyticQuantities_SimpleFluid` of the Python code, and the program
`getSRDKinematicShearViscosityPrediction.py`. Floating-point numbers are real numbers. In the C++ functions a division
by zero gives zero here, and infinity or NaN in the code; the theorems are for arguments for which there is none
(`C100_denominators`).
-/

set_option linter.unusedSimpArgs false

namespace OpenMPCD.Analysis.Analytic

open Real

/-! ## Model: C++ -/

/-- `kineticContributionsToSRDKinematicShearViscosity`
(`src/OpenMPCD/AnalyticQuantities.cpp:15-26`). -/
noncomputable def kineticKinematic (kT m M srdAngle timestep : ℝ) : ℝ :=
  let factor1 := kT * timestep / (2 * m)
  let denominator1 := M - 1 + exp (-M)
  let denominator2 := 2 - cos srdAngle - cos (2 * srdAngle)
  let factor2 := 5 * M / (denominator1 * denominator2) - 1
  factor1 * factor2

/-- `kineticContributionsToSRDDynamicShearViscosity`
(`src/OpenMPCD/AnalyticQuantities.cpp:28-38`). -/
noncomputable def kineticDynamic (kT m linearCellSize M srdAngle timestep : ℝ) : ℝ :=
  let cellVolume := linearCellSize ^ 3
  let particleDensity := M / cellVolume
  let massDensity := particleDensity * m
  massDensity * kineticKinematic kT m M srdAngle timestep

/-- `collisionalContributionsToSRDKinematicShearViscosity`
(`src/OpenMPCD/AnalyticQuantities.cpp:40-50`). -/
noncomputable def collisionalKinematic (linearCellSize M srdAngle timestep : ℝ) : ℝ :=
  let factor1 := linearCellSize * linearCellSize / (6 * 3 * timestep)
  let factor2 := (M - 1 + exp (-M)) / M
  let factor3 := 1 - cos srdAngle
  factor1 * factor2 * factor3

/-- `collisionalContributionsToSRDDynamicShearViscosity`
(`src/OpenMPCD/AnalyticQuantities.cpp:52-62`). -/
noncomputable def collisionalDynamic (m linearCellSize M srdAngle timestep : ℝ) : ℝ :=
  let cellVolume := linearCellSize ^ 3
  let particleDensity := M / cellVolume
  let massDensity := particleDensity * m
  massDensity * collisionalKinematic linearCellSize M srdAngle timestep

/-- `SRDKinematicShearViscosity` (`src/OpenMPCD/AnalyticQuantities.cpp:64-74`). -/
noncomputable def kinematic (kT m linearCellSize M srdAngle timestep : ℝ) : ℝ :=
  let nu_kin := kineticKinematic kT m M srdAngle timestep
  let nu_col := collisionalKinematic linearCellSize M srdAngle timestep
  nu_kin + nu_col

/-- `SRDDynamicShearViscosity` (`src/OpenMPCD/AnalyticQuantities.cpp:76-86`). -/
noncomputable def dynamic (kT m linearCellSize M srdAngle timestep : ℝ) : ℝ :=
  let mu_kin := kineticDynamic kT m linearCellSize M srdAngle timestep
  let mu_col := collisionalDynamic m linearCellSize M srdAngle timestep
  mu_kin + mu_col

/-- `approximateSelfDiffusionCoefficient` (`src/OpenMPCD/AnalyticQuantities.cpp:88-97`). -/
noncomputable def selfDiffusion (dimensions : ℕ) (kT m M srdAngle timestep : ℝ) : ℝ :=
  let factor1 := kT * timestep / (2.0 * m)
  let term2 := dimensions * M / ((1 - cos srdAngle) * (M - 1 + exp (-M)))
  factor1 * (term2 - 1)

/-- `hydrodynamicRadius` (`src/OpenMPCD/AnalyticQuantities.cpp:99-103`). -/
noncomputable def hydrodynamicRadius (kT dynamicStressViscosity selfDiffusionCoefficient : ℝ) : ℝ :=
  kT / (6 * π * dynamicStressViscosity * selfDiffusionCoefficient)

/-- `zeroShearRelaxationTime` of dumbbells
(`src/OpenMPCD/AnalyticQuantitiesGaussianDumbbell.cpp:21-32`). -/
noncomputable def zeroShearRelaxationTime (l D R_H : ℝ) : ℝ :=
  let denominator1 := 6 * D
  let denominator2 := 1 - R_H / l * √(6 / π)
  l * l / (denominator1 * denominator2)

/-! ## Model: Python -/

/-- A number in Python: `int` or `float`. -/
inductive Num
  | int (n : ℤ)
  | float (x : ℝ)

/-- The number. -/
noncomputable def Num.val : Num → ℝ
  | .int n => n
  | .float x => x

/-- `*` -/
noncomputable def Num.mul : Num → Num → Num
  | .int a, .int b => .int (a * b)
  | a, b => .float (a.val * b.val)

/-- Versions of Python. -/
inductive Version
  | python2
  | python3
  deriving DecidableEq

open Classical in
/-- `/`: in Python 2 the quotient of two integers is rounded down. -/
noncomputable def Num.div (v : Version) (a b : Num) : Except PyErr Num :=
  if b.val = 0 then .error .zeroDivisionError
  else
    match v, a, b with
    | .python2, .int a, .int b => .ok (.int (Int.fdiv a b))
    | _, a, b => .ok (.float (a.val / b.val))

/-- `kineticContributionsToSRDKinematicShearViscosity`
(`Analysis/MPCDAnalysis/AnalyticQuantities_SimpleFluid.py:3-13`). What comes after `math.exp` and `math.cos` is of type
`float`. -/
noncomputable def pyKinetic (v : Version) (M kT m mpcTimestep srdAngle : Num) : Except PyErr ℝ := do
  let factor1 ← Num.div v (kT.mul mpcTimestep) ((Num.int 2).mul m)
  let denominator1 := M.val - 1 + exp (-M.val)
  let denominator2 := 2 - cos srdAngle.val - cos (2 * srdAngle.val)
  let quotient ← Num.div v ((Num.int 5).mul M) (.float (denominator1 * denominator2))
  return factor1.val * (quotient.val - 1)

/-- `collisionalContributionsToSRDKinematicShearViscosity`
(`Analysis/MPCDAnalysis/AnalyticQuantities_SimpleFluid.py:15-35`). -/
noncomputable def pyCollisional (v : Version) (linearCellSize M mpcTimestep srdAngle : Num) : Except PyErr ℝ := do
  let factor1 ← Num.div v (linearCellSize.mul linearCellSize) ((Num.int 18).mul mpcTimestep)
  let factor2 ← Num.div v (.float (M.val - 1 + exp (-M.val))) M
  let factor3 := 1 - cos srdAngle.val
  return factor1.val * factor2.val * factor3

/-- `approximateSelfDiffusionCoefficient`
(`Analysis/MPCDAnalysis/AnalyticQuantities_SimpleFluid.py:37-45`). -/
noncomputable def pySelfDiffusion (v : Version) (M m kT mpcTimestep dimensions srdAngle : Num) :
    Except PyErr ℝ := do
  let factor1 ← Num.div v (kT.mul mpcTimestep) ((Num.float 2).mul m)
  let term2 ← Num.div v (dimensions.mul M) (.float ((1 - cos srdAngle.val) * (M.val - 1 + exp (-M.val))))
  return factor1.val * (term2.val - 1)

/-- What the program `getSRDKinematicShearViscosityPrediction.py` ends with: status 1, or the three lines it prints,
or an exception. -/
inductive Outcome
  | invalid
  | printed (kinetic collisional total : ℝ)
  | raised (e : PyErr)

open Classical in
/-- `Analysis/getSRDKinematicShearViscosityPrediction.py:43-85`; the arguments are the ones parsed, where those
declared `float` may be `int` if not given (their default values are `1`), and the mean number of particles is an
`int`. -/
noncomputable def script (v : Version) (kT : Num) (M : ℤ) (m mpcTimestep srdAngle : Num) : Outcome :=
  if kT.val ≤ 0 then .invalid
  else if M ≤ 0 then .invalid
  else if m.val ≤ 0 then .invalid
  else if mpcTimestep.val ≤ 0 then .invalid
  else if srdAngle.val ≤ 0 then .invalid
  else
    match pyKinetic v (.int M) kT m mpcTimestep srdAngle, pyCollisional v (.int 1) (.int M) mpcTimestep srdAngle with
    | .error e, _ => .raised e
    | .ok _, .error e => .raised e
    | .ok k, .ok c => .printed k c (k + c)

/-! ## Specification -/

/-- Arguments that make sense: positive quantities, and an angle of rotation that is not a multiple of a full turn. -/
structure Sensible (kT m a M srdAngle timestep : ℝ) : Prop where
  kT : 0 < kT
  m : 0 < m
  a : 0 < a
  M : 0 < M
  timestep : 0 < timestep
  rotates : ∀ n : ℤ, srdAngle ≠ n * (2 * π)

/-! ## C++ -/

theorem density_pos {M : ℝ} (hM : 0 < M) : 0 < M - 1 + exp (-M) ∧ M - 1 + exp (-M) < M := by
  constructor
  · have := add_one_lt_exp (x := -M) (by linarith)
    linarith
  · have : exp (-M) < 1 := by rw [exp_lt_one_iff]; linarith
    linarith

theorem cos_lt_one {x : ℝ} (h : ∀ n : ℤ, x ≠ n * (2 * π)) : cos x < 1 := by
  refine lt_of_le_of_ne (cos_le_one x) fun e => ?_
  obtain ⟨n, hn⟩ := (cos_eq_one_iff x).1 e
  exact h n hn.symm

theorem angle_pos {x : ℝ} (h : ∀ n : ℤ, x ≠ n * (2 * π)) :
    0 < 2 - cos x - cos (2 * x) ∧ 2 - cos x - cos (2 * x) ≤ 25 / 8 := by
  have h1 := cos_lt_one h
  have h2 := neg_one_le_cos x
  rw [cos_two_mul]
  constructor
  · nlinarith
  · nlinarith [sq_nonneg (cos x + 1 / 4)]

/-- **C100**: nothing is divided by zero. -/
theorem C100_denominators {kT m a M srdAngle timestep : ℝ} (h : Sensible kT m a M srdAngle timestep) :
    0 < M - 1 + exp (-M) ∧ 0 < 2 - cos srdAngle - cos (2 * srdAngle) ∧ 0 < 1 - cos srdAngle := by
  refine ⟨(density_pos h.M).1, (angle_pos h.rotates).1, ?_⟩
  linarith [cos_lt_one h.rotates]

/-- **C100**: both contributions to the viscosity are positive; the kinetic one is at least
`0.3 kT timestep / m`, whatever the angle and the density. -/
theorem C100_viscosity {kT m a M srdAngle timestep : ℝ} (h : Sensible kT m a M srdAngle timestep) :
    0.3 * kT * timestep / m ≤ kineticKinematic kT m M srdAngle timestep ∧
    0 < kineticKinematic kT m M srdAngle timestep ∧ 0 < collisionalKinematic a M srdAngle timestep ∧
    0 < kinematic kT m a M srdAngle timestep ∧ 0 < dynamic kT m a M srdAngle timestep := by
  obtain ⟨d1, d2, d3⟩ := C100_denominators h
  obtain ⟨hkT, hm, ha, hM, ht, hr⟩ := h
  have hb := (density_pos hM).2
  have hc := (angle_pos hr).2
  have hq : 8 / 5 ≤ 5 * M / ((M - 1 + exp (-M)) * (2 - cos srdAngle - cos (2 * srdAngle))) := by
    rw [le_div_iff₀ (mul_pos d1 d2)]
    have := mul_le_mul hb.le hc d2.le hM.le
    linarith
  have hkin : 0.3 * kT * timestep / m ≤ kineticKinematic kT m M srdAngle timestep := by
    unfold kineticKinematic
    have h0 : 0 ≤ kT * timestep / (2 * m) := by positivity
    have := mul_le_mul_of_nonneg_left (sub_le_sub_right hq 1) h0
    refine le_trans (le_of_eq ?_) this
    field_simp
    norm_num
  have hkin0 : 0 < kineticKinematic kT m M srdAngle timestep := lt_of_lt_of_le (by positivity) hkin
  have hcol : 0 < collisionalKinematic a M srdAngle timestep := by
    unfold collisionalKinematic
    positivity
  refine ⟨hkin, hkin0, hcol, add_pos hkin0 hcol, ?_⟩
  have hd : 0 < M / a ^ 3 * m := by positivity
  exact add_pos (mul_pos hd hkin0) (mul_pos hd hcol)

/-- **C100**: the dynamic viscosity is the kinematic one times the mass density, for the contributions and in
total. -/
theorem C100_dynamic (kT m a M srdAngle timestep : ℝ) :
    kineticDynamic kT m a M srdAngle timestep = M * m / a ^ 3 * kineticKinematic kT m M srdAngle timestep ∧
    collisionalDynamic m a M srdAngle timestep = M * m / a ^ 3 * collisionalKinematic a M srdAngle timestep ∧
    dynamic kT m a M srdAngle timestep = M * m / a ^ 3 * kinematic kT m a M srdAngle timestep := by
  refine ⟨?_, ?_, ?_⟩
  · unfold kineticDynamic; ring
  · unfold collisionalDynamic; ring
  · unfold dynamic kineticDynamic collisionalDynamic kinematic; ring

/-- **C100**: in two and more dimensions the self-diffusion coefficient is positive, and with it the hydrodynamic
radius, for which the relation of Stokes and Einstein holds. -/
theorem C100_diffusion {kT m a M srdAngle timestep : ℝ} (h : Sensible kT m a M srdAngle timestep) {d : ℕ}
    (hd : 2 ≤ d) :
    0 < selfDiffusion d kT m M srdAngle timestep ∧
    ∀ eta, 0 < eta → 0 < hydrodynamicRadius kT eta (selfDiffusion d kT m M srdAngle timestep) ∧
      selfDiffusion d kT m M srdAngle timestep =
        kT / (6 * π * eta * hydrodynamicRadius kT eta (selfDiffusion d kT m M srdAngle timestep)) := by
  obtain ⟨d1, d2, d3⟩ := C100_denominators h
  obtain ⟨hkT, hm, ha, hM, ht, hr⟩ := h
  have hb := (density_pos hM).2
  have hD : 0 < selfDiffusion d kT m M srdAngle timestep := by
    unfold selfDiffusion
    refine mul_pos (by positivity) (sub_pos.2 ?_)
    rw [lt_div_iff₀ (mul_pos d3 d1), one_mul]
    have h2 : 1 - cos srdAngle ≤ 2 := by linarith [neg_one_le_cos srdAngle]
    have hd' : (2 : ℝ) ≤ d := by exact_mod_cast hd
    calc (1 - cos srdAngle) * (M - 1 + exp (-M)) ≤ 2 * (M - 1 + exp (-M)) := mul_le_mul_of_nonneg_right h2 d1.le
      _ < 2 * M := by linarith
      _ ≤ d * M := mul_le_mul_of_nonneg_right hd' hM.le
  refine ⟨hD, fun eta he => ⟨?_, ?_⟩⟩
  · unfold hydrodynamicRadius
    have := pi_pos
    positivity
  · unfold hydrodynamicRadius
    have := pi_pos
    generalize selfDiffusion d kT m M srdAngle timestep = D at hD
    field_simp

/-- In one dimension it need not be. -/
theorem C100_one_dimension_violated : ∃ M, Sensible 1 1 1 M π 1 ∧ selfDiffusion 1 1 1 M π 1 < 0 := by
  refine ⟨10, ⟨by norm_num, by norm_num, by norm_num, by norm_num, by norm_num, fun n hn => ?_⟩, ?_⟩
  · have h1 : (1 : ℝ) = n * 2 := by
      have := pi_ne_zero
      field_simp at hn
      linarith
    have h2 : (1 : ℤ) = n * 2 := by exact_mod_cast h1
    omega
  · unfold selfDiffusion
    rw [cos_pi]
    have he := exp_pos (-10 : ℝ)
    have : ((1 : ℕ) : ℝ) * 10 / ((1 - -1) * (10 - 1 + exp (-10))) < 1 := by
      rw [div_lt_one (by linarith)]
      push_cast
      linarith
    norm_num at this ⊢
    linarith

/-- **C100**: the relaxation time of dumbbells is positive exactly if the bond is longer than the hydrodynamic radius times `√(6 / π)`. -/
theorem C100_relaxation {l D R_H : ℝ} (hl : 0 < l) (hD : 0 < D) :
    0 < zeroShearRelaxationTime l D R_H ↔ R_H * √(6 / π) < l := by
  unfold zeroShearRelaxationTime
  have hll : 0 < l * l := by positivity
  have key : 0 < 1 - R_H / l * √(6 / π) ↔ R_H * √(6 / π) < l := by
    rw [sub_pos, div_mul_eq_mul_div, div_lt_one hl]
  rw [← key]
  constructor
  · intro h
    by_contra hc
    have : l * l / (6 * D * (1 - R_H / l * √(6 / π))) ≤ 0 :=
      div_nonpos_of_nonneg_of_nonpos hll.le (mul_nonpos_of_nonneg_of_nonpos (by positivity) (not_lt.1 hc))
    simp only at h
    linarith
  · intro h
    simp only
    positivity

/-! ## Python -/

/-- The quotient is the exact one, unless it is one of two integers in Python 2. -/
theorem div_ok {v : Version} {a b : Num} (hb : b.val ≠ 0)
    (h : v = .python3 ∨ (∃ x, a = .float x) ∨ ∃ x, b = .float x) :
    ∃ q, Num.div v a b = .ok q ∧ q.val = a.val / b.val := by
  unfold Num.div
  rw [if_neg hb]
  rcases h with rfl | ⟨x, rfl⟩ | ⟨x, rfl⟩
  · exact ⟨_, rfl, rfl⟩
  · cases v <;> exact ⟨_, rfl, rfl⟩
  · cases v <;> cases a <;> exact ⟨_, rfl, rfl⟩

theorem mul_val (a b : Num) : (a.mul b).val = a.val * b.val := by
  cases a <;> cases b <;> simp [Num.mul, Num.val]

theorem mul_float (a : Num) (x : ℝ) : ∃ y, a.mul (.float x) = .float y := by
  cases a <;> exact ⟨_, rfl⟩

theorem float_mul (a : Num) (x : ℝ) : ∃ y, (Num.float x).mul a = .float y := by
  cases a <;> exact ⟨_, rfl⟩

/-- **C100**: the Python functions give what the C++ functions give, if the time step is a `float` (or in
Python 3). -/
theorem C100_python {v : Version} {kT m a M srdAngle timestep : Num}
    (h : Sensible kT.val m.val a.val M.val srdAngle.val timestep.val)
    (hv : v = .python3 ∨ ∃ x, timestep = .float x) :
    pyKinetic v M kT m timestep srdAngle =
      .ok (kineticKinematic kT.val m.val M.val srdAngle.val timestep.val) ∧
    pyCollisional v a M timestep srdAngle =
      .ok (collisionalKinematic a.val M.val srdAngle.val timestep.val) ∧
    ∀ d : ℕ, pySelfDiffusion v M m kT timestep (.int d) srdAngle =
      .ok (selfDiffusion d kT.val m.val M.val srdAngle.val timestep.val) := by
  obtain ⟨d1, d2, d3⟩ := C100_denominators h
  obtain ⟨hkT, hm, ha, hM, ht, hr⟩ := h
  have hm' : ((Num.int 2).mul m).val ≠ 0 := by rw [mul_val]; simp only [Num.val]; positivity
  have hm2 : ((Num.float 2).mul m).val ≠ 0 := by rw [mul_val]; simp only [Num.val]; positivity
  have ht' : ((Num.int 18).mul timestep).val ≠ 0 := by rw [mul_val]; simp only [Num.val]; positivity
  refine ⟨?_, ?_, fun d => ?_⟩
  · obtain ⟨q1, e1, f1⟩ := div_ok (v := v) (a := kT.mul timestep) hm' (by
      rcases hv with rfl | ⟨x, rfl⟩
      · exact .inl rfl
      · exact .inr (.inl (mul_float _ _)))
    obtain ⟨q2, e2, f2⟩ := div_ok (v := v) (a := (Num.int 5).mul M)
      (b := .float ((M.val - 1 + exp (-M.val)) * (2 - cos srdAngle.val - cos (2 * srdAngle.val))))
      (ne_of_gt (mul_pos d1 d2)) (.inr (.inr ⟨_, rfl⟩))
    unfold pyKinetic
    rw [e1]
    simp only [bind, Except.bind, e2, pure, Except.pure]
    rw [f1, f2]
    simp only [mul_val]
    simp [Num.val, kineticKinematic]
  · obtain ⟨q1, e1, f1⟩ := div_ok (v := v) (a := a.mul a) ht' (by
      rcases hv with rfl | ⟨x, rfl⟩
      · exact .inl rfl
      · exact .inr (.inr (mul_float _ _)))
    obtain ⟨q2, e2, f2⟩ := div_ok (v := v) (a := .float (M.val - 1 + exp (-M.val))) (b := M) hM.ne'
      (.inr (.inl ⟨_, rfl⟩))
    unfold pyCollisional
    rw [e1]
    simp only [bind, Except.bind, e2, pure, Except.pure]
    rw [f1, f2]
    simp only [mul_val]
    simp only [Num.val, collisionalKinematic]
    congr 4
    norm_num
  · obtain ⟨q1, e1, f1⟩ := div_ok (v := v) (a := kT.mul timestep) hm2 (.inr (.inr (float_mul _ _)))
    obtain ⟨q2, e2, f2⟩ := div_ok (v := v) (a := (Num.int d).mul M)
      (b := .float ((1 - cos srdAngle.val) * (M.val - 1 + exp (-M.val))))
      (ne_of_gt (mul_pos d3 d1)) (.inr (.inr ⟨_, rfl⟩))
    unfold pySelfDiffusion
    rw [e1]
    simp only [bind, Except.bind, e2, pure, Except.pure]
    rw [f1, f2]
    simp only [mul_val]
    simp only [Num.val, selfDiffusion]
    norm_num

/-- **C100**: the program prints the viscosity that the C++ code gives for collision cells of unit size, for every
angle that is not a multiple of a full turn; arguments that are not positive are refused. -/
theorem C100_script (v : Version) (kT : Num) (M : ℤ) (m : Num) (t : ℝ) (srdAngle : Num)
    (hr : ∀ n : ℤ, srdAngle.val ≠ n * (2 * π)) :
    (0 < kT.val ∧ 0 < M ∧ 0 < m.val ∧ 0 < t ∧ 0 < srdAngle.val ∧
      script v kT M m (.float t) srdAngle = .printed (kineticKinematic kT.val m.val M srdAngle.val t)
        (collisionalKinematic 1 M srdAngle.val t) (kinematic kT.val m.val 1 M srdAngle.val t)) ∨
    ¬ (0 < kT.val ∧ 0 < M ∧ 0 < m.val ∧ 0 < t ∧ 0 < srdAngle.val) ∧
      script v kT M m (.float t) srdAngle = .invalid := by
  by_cases hp : 0 < kT.val ∧ 0 < M ∧ 0 < m.val ∧ 0 < t ∧ 0 < srdAngle.val
  · left
    obtain ⟨h1, h2, h3, h4, h5⟩ := hp
    refine ⟨h1, h2, h3, h4, h5, ?_⟩
    have hs : Sensible kT.val m.val (Num.int 1).val (Num.int M).val srdAngle.val (Num.float t).val :=
      ⟨h1, h3, by simp [Num.val], by simpa [Num.val] using h2, h4, hr⟩
    obtain ⟨e1, e2, -⟩ := C100_python (v := v) hs (.inr ⟨t, rfl⟩)
    unfold script
    rw [if_neg (by linarith), if_neg (by omega), if_neg (by linarith), if_neg (by simpa [Num.val] using h4),
      if_neg (by linarith), e1, e2]
    simp [Num.val, kinematic]
  · right
    refine ⟨hp, ?_⟩
    unfold script
    by_cases h1 : kT.val ≤ 0
    · rw [if_pos h1]
    by_cases h2 : M ≤ 0
    · rw [if_neg h1, if_pos h2]
    by_cases h3 : m.val ≤ 0
    · rw [if_neg h1, if_neg h2, if_pos h3]
    by_cases h4 : (Num.float t).val ≤ 0
    · rw [if_neg h1, if_neg h2, if_neg h3, if_pos h4]
    by_cases h5 : srdAngle.val ≤ 0
    · rw [if_neg h1, if_neg h2, if_neg h3, if_neg h4, if_pos h5]
    exact absurd ⟨not_le.1 h1, not_le.1 h2, not_le.1 h3, not_le.1 h4, not_le.1 h5⟩ hp

/-- **Violation of C100.** With integers for temperature, mass and time step, the function gives zero in Python 2. -/
theorem C100_integers_violated :
    ∃ kT m a M srdAngle timestep, Sensible (Num.val kT) (Num.val m) (Num.val a) (Num.val M) (Num.val srdAngle)
      (Num.val timestep) ∧ pyKinetic .python2 M kT m timestep srdAngle = .ok 0 ∧
      0 < kineticKinematic kT.val m.val M.val srdAngle.val timestep.val := by
  have hs : Sensible (Num.val (.int 1)) (Num.val (.int 1)) (Num.val (.int 1)) (Num.val (.int 10))
      (Num.val (.float π)) (Num.val (.int 1)) := by
    refine ⟨?_, ?_, ?_, ?_, ?_, fun n hn => ?_⟩
    · simp [Num.val]
    · simp [Num.val]
    · simp [Num.val]
    · simp [Num.val]
    · simp [Num.val]
    · simp only [Num.val] at hn
      have h1 : (1 : ℝ) = n * 2 := by
        have := pi_ne_zero
        field_simp at hn
        linarith
      have h2 : (1 : ℤ) = n * 2 := by exact_mod_cast h1
      omega
  refine ⟨_, _, _, _, _, _, hs, ?_, (C100_viscosity hs).2.1⟩
  obtain ⟨d1, d2, -⟩ := C100_denominators hs
  obtain ⟨q2, e2, -⟩ := div_ok (v := .python2) (a := (Num.int 5).mul (.int 10))
    (b := .float (((Num.int 10).val - 1 + exp (-(Num.int 10).val)) *
      (2 - cos (Num.float π).val - cos (2 * (Num.float π).val))))
    (ne_of_gt (mul_pos d1 d2)) (.inr (.inr ⟨_, rfl⟩))
  have e1 : Num.div .python2 ((Num.int 1).mul (.int 1)) ((Num.int 2).mul (.int 1)) = .ok (.int 0) := by
    unfold Num.div
    rw [if_neg (by rw [mul_val]; norm_num [Num.val])]
    rfl
  unfold pyKinetic
  rw [e1]
  simp only [bind, Except.bind, e2, pure, Except.pure]
  simp [Num.val]

/-! ## The hypotheses can be met -/

/-- The default values of the program. -/
example : Sensible 1 1 1 10 2.27 0.1 := by
  refine ⟨by norm_num, by norm_num, by norm_num, by norm_num, by norm_num, fun n hn => ?_⟩
  have h1 := two_le_pi
  have h2 : 0 < n := by
    by_contra hc
    have : (n : ℝ) ≤ 0 := by exact_mod_cast not_lt.1 hc
    nlinarith
  have h3 : (1 : ℝ) ≤ n := by exact_mod_cast h2
  nlinarith

end OpenMPCD.Analysis.Analytic
