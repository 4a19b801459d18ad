import Verif.Common
import Verif.Vec.Basic
import Mathlib.Analysis.SpecialFunctions.Trigonometric.Basic
import Mathlib.Analysis.SpecialFunctions.ExpDeriv
import Mathlib.Algebra.Order.BigOperators.Group.List

/-!
# The viscosity computed from the decay of transverse velocities

`transverseVelocityCorrelationFunction.py` compares the boxes of all runs, fits an exponential to the
correlation function (whose rows are the subject of C127), and divides the decay rate by the square of
the wave vector. Real and complex arithmetic is exact. `config.value(…)[0]` of `pylibconfig` is any
function that gives each run a number for each of the three settings; `scipy.optimize.curve_fit` may
return any parameter for which the sum of squares is least.
-/

set_option linter.unusedSectionVars false
set_option linter.unusedSimpArgs false
set_option linter.unusedVariables false

namespace OpenMPCD.Analysis.Viscosity

/-! ## Model -/

/-- The three settings of the box. -/
inductive Key where
  | x | y | z
  deriving DecidableEq

/-- `getSimboxByRundir` (`Analysis/transverseVelocityCorrelationFunction.py:34-41`). -/
def getSimboxByRundir {R : Type} (value : R → Key → ℝ) (rundir : R) : List ℝ :=
  [value rundir .x, value rundir .y, value rundir .z]

open Classical in
/-- The loop of `getSimboxByRundirs` (`Analysis/transverseVelocityCorrelationFunction.py:46-55`);
`none` is `None`. -/
noncomputable def simboxLoop {R : Type} (value : R → Key → ℝ) :
    Option (List ℝ) → List R → Except PyErr (Option (List ℝ))
  | simBox, [] => .ok simBox
  | none, rundir :: rest => simboxLoop value (some (getSimboxByRundir value rundir)) rest
  | some simBox, rundir :: rest =>
    if simBox ≠ getSimboxByRundir value rundir then .error .valueError
    else simboxLoop value (some simBox) rest

/-- `getSimboxByRundirs` (`Analysis/transverseVelocityCorrelationFunction.py:44-55`). -/
noncomputable def getSimboxByRundirs {R : Type} (value : R → Key → ℝ) (rundirs : List R) :
    Except PyErr (Option (List ℝ)) :=
  simboxLoop value none rundirs

/-- `Vector3D.__getitem__` (`Analysis/MPCDAnalysis/Vector3D.py:109-119`). -/
def getItem (v : Vec3 ℂ) (index : ℕ) : Except PyErr ℂ :=
  if index = 0 then .ok v.x else if index = 1 then .ok v.y else if index = 2 then .ok v.z
  else .error .valueError

/-- Indexing a list of numbers. -/
def item (l : List ℝ) (i : ℕ) : Except PyErr ℝ :=
  match l[i]? with
  | some x => .ok x
  | none => .error .indexError

open Classical in
/-- One element of `tmp` (`Analysis/transverseVelocityCorrelationFunction.py:92`). -/
noncomputable def component (k_n : Vec3 ℂ) (simBox : List ℝ) (i : ℕ) : Except PyErr ℂ :=
  match getItem k_n i with
  | .error e => .error e
  | .ok n => match item simBox i with
    | .error e => .error e
    | .ok L => if L = 0 then .error .zeroDivisionError else .ok (2 * Real.pi * n / L)

/-- `getWaveVectorFromIntegerComponents` (`Analysis/transverseVelocityCorrelationFunction.py:89-94`). -/
noncomputable def getWaveVector (k_n : Vec3 ℂ) (simBox : List ℝ) : Except PyErr (Vec3 ℂ) :=
  match component k_n simBox 0 with
  | .error e => .error e
  | .ok a => match component k_n simBox 1 with
    | .error e => .error e
    | .ok b => match component k_n simBox 2 with
      | .error e => .error e
      | .ok c => .ok ⟨a, b, c⟩

/-- `Vector3D.dot` (`Analysis/MPCDAnalysis/Vector3D.py:29-30`). -/
noncomputable def dot (a b : Vec3 ℂ) : ℂ := star a.x * b.x + star a.y * b.y + star a.z * b.z

/-- `Vector3D.getLengthSquared` (`Analysis/MPCDAnalysis/Vector3D.py:38-39`). -/
noncomputable def getLengthSquared (v : Vec3 ℂ) : ℝ := (dot v v).re

/-- `C_vT_fitFunction` (`Analysis/transverseVelocityCorrelationFunction.py:187`). -/
noncomputable def fitFunction (x param : ℝ) : ℝ := Real.exp (-param * x)

/-- The sum of squares that is made least in
`Analysis/transverseVelocityCorrelationFunction.py:188-189`. -/
noncomputable def residual (points : List (ℝ × ℝ)) (param : ℝ) : ℝ :=
  (points.map fun p => (fitFunction p.1 param - p.2) ^ 2).sum

/-- What `curve_fit` may return. -/
def IsFit (points : List (ℝ × ℝ)) (param : ℝ) : Prop := ∀ q, residual points param ≤ residual points q

/-- `nu` (`Analysis/transverseVelocityCorrelationFunction.py:133`,
`Analysis/transverseVelocityCorrelationFunction.py:187-192`), given the result of the fit. A missing box
cannot be indexed (a `TypeError`). -/
noncomputable def viscosity {R : Type} (value : R → Key → ℝ) (rundirs : List R) (k_n : Vec3 ℂ)
    (fit : ℝ) : Except PyErr ℝ :=
  match getSimboxByRundirs value rundirs with
  | .error e => .error e
  | .ok none => .error .typeError
  | .ok (some simBox) => match getWaveVector k_n simBox with
    | .error e => .error e
    | .ok k => .ok (fit / getLengthSquared k)

/-- The part of the main program that decides whether plot files are written
(`Analysis/transverseVelocityCorrelationFunction.py:250-259`): with no run directories, it exits with
status one. -/
def startsWriting {R : Type} (rundirs : List R) : Except ℕ (List R) :=
  if rundirs.length = 0 then .error 1 else .ok rundirs

/-! ## Specification -/

/-- The box of a run. -/
structure Box where
  x : ℝ
  y : ℝ
  z : ℝ

/-- A run has the box. -/
def HasBox {R : Type} (value : R → Key → ℝ) (r : R) (b : Box) : Prop :=
  value r .x = b.x ∧ value r .y = b.y ∧ value r .z = b.z

/-- The square of the wave number of the mode with the given integers, in a box. -/
noncomputable def waveNumberSquared (b : Box) (n : ℤ × ℤ × ℤ) : ℝ :=
  4 * Real.pi ^ 2 * ((n.1 / b.x) ^ 2 + (n.2.1 / b.y) ^ 2 + (n.2.2 / b.z) ^ 2)

/-- The integers of a mode, as a vector. -/
def modeVector (n : ℤ × ℤ × ℤ) : Vec3 ℂ := ⟨n.1, n.2.1, n.2.2⟩

/-! ## Proofs -/

variable {R : Type} {value : R → Key → ℝ}

theorem box_eq_iff (r r' : R) : getSimboxByRundir value r = getSimboxByRundir value r' ↔
    ∀ k, value r k = value r' k := by
  simp only [getSimboxByRundir, List.cons.injEq, and_true]
  constructor
  · rintro ⟨h1, h2, h3⟩ k
    cases k <;> assumption
  · intro h
    exact ⟨h _, h _, h _⟩

theorem loop_some (b : List ℝ) (rs : List R) :
    (simboxLoop value (some b) rs = .ok (some b) ∧ ∀ r ∈ rs, getSimboxByRundir value r = b) ∨
    (simboxLoop value (some b) rs = .error .valueError ∧ ∃ r ∈ rs, getSimboxByRundir value r ≠ b) := by
  induction rs with
  | nil => left; simp [simboxLoop]
  | cons r rs ih =>
    by_cases h : getSimboxByRundir value r = b
    · rcases ih with ⟨h1, h2⟩ | ⟨h1, r', hr', h2⟩
      · left
        refine ⟨by simpa [simboxLoop, h] using h1, ?_⟩
        simpa [h] using h2
      · right
        exact ⟨by simpa [simboxLoop, h] using h1, r', List.mem_cons_of_mem _ hr', h2⟩
    · right
      exact ⟨by simp [simboxLoop, Ne.symm h], r, List.mem_cons_self, h⟩

theorem hasBox_list {r : R} {b : Box} : HasBox value r b ↔ getSimboxByRundir value r = [b.x, b.y, b.z] := by
  simp [HasBox, getSimboxByRundir]

theorem simbox_of_common {rs : List R} (hne : rs ≠ []) {b : Box} (h : ∀ r ∈ rs, HasBox value r b) :
    getSimboxByRundirs value rs = .ok (some [b.x, b.y, b.z]) := by
  cases rs with
  | nil => exact absurd rfl hne
  | cons r rs =>
    have hr := hasBox_list.1 (h r List.mem_cons_self)
    simp only [getSimboxByRundirs, simboxLoop, hr]
    rcases loop_some (value := value) [b.x, b.y, b.z] rs with ⟨h1, -⟩ | ⟨-, r', hr', h2⟩
    · exact h1
    · exact absurd (hasBox_list.1 (h r' (List.mem_cons_of_mem _ hr'))) h2

theorem waveVector_eq {b : Box} (h : b.x ≠ 0 ∧ b.y ≠ 0 ∧ b.z ≠ 0) (k_n : Vec3 ℂ) :
    getWaveVector k_n [b.x, b.y, b.z] =
      .ok ⟨2 * Real.pi * k_n.x / b.x, 2 * Real.pi * k_n.y / b.y, 2 * Real.pi * k_n.z / b.z⟩ := by
  simp [getWaveVector, component, getItem, item, h.1, h.2.1, h.2.2]

theorem lengthSquared_eq (b : Box) (n : ℤ × ℤ × ℤ) :
    getLengthSquared ⟨2 * Real.pi * (modeVector n).x / b.x, 2 * Real.pi * (modeVector n).y / b.y,
      2 * Real.pi * (modeVector n).z / b.z⟩ = waveNumberSquared b n := by
  have key : ∀ (m : ℤ) (L : ℝ), (2 * Real.pi * (m : ℂ) / (L : ℂ)) = ((2 * Real.pi * m / L : ℝ) : ℂ) := by
    intro m L; push_cast; rfl
  simp only [getLengthSquared, dot, modeVector, key, Complex.star_def, Complex.conj_ofReal,
    ← Complex.ofReal_mul, ← Complex.ofReal_add, Complex.ofReal_re, waveNumberSquared]
  ring

theorem sum_squares_zero {l : List ℝ} (h : ∀ x ∈ l, 0 ≤ x) (hs : l.sum ≤ 0) : ∀ x ∈ l, x = 0 := by
  induction l with
  | nil => simp
  | cons a l ih =>
    have ha := h a List.mem_cons_self
    have hl : 0 ≤ l.sum := List.sum_nonneg fun x hx => h x (List.mem_cons_of_mem _ hx)
    rw [List.sum_cons] at hs
    intro x hx
    rcases List.mem_cons.1 hx with rfl | hx
    · linarith
    · exact ih (fun x hx => h x (List.mem_cons_of_mem _ hx)) (by linarith) x hx

theorem fit_eq {points : List (ℝ × ℝ)} {rate p : ℝ} (hp : IsFit points p)
    (h : ∀ q ∈ points, q.2 = Real.exp (-rate * q.1)) (hx : ∃ q ∈ points, q.1 ≠ 0) : p = rate := by
  have h0 : residual points rate = 0 := by
    unfold residual
    refine List.sum_eq_zero ?_
    intro x hx
    obtain ⟨q, hq, rfl⟩ := List.mem_map.1 hx
    simp [fitFunction, h q hq]
  have hle : residual points p ≤ 0 := h0 ▸ hp rate
  obtain ⟨q, hq, hq0⟩ := hx
  have := sum_squares_zero (l := points.map fun q : ℝ × ℝ => (fitFunction q.1 p - q.2) ^ 2)
    (fun x hx => by obtain ⟨q, -, rfl⟩ := List.mem_map.1 hx; positivity) hle _
    (List.mem_map.2 ⟨q, hq, rfl⟩)
  have h1 : fitFunction q.1 p = q.2 := by
    have := pow_eq_zero_iff (two_ne_zero) |>.1 this
    linarith
  rw [h q hq, fitFunction] at h1
  have h2 := Real.exp_injective h1
  have h3 : p * q.1 = rate * q.1 := by linarith
  exact mul_right_cancel₀ hq0 h3

/-! ## Theorems -/

/-- C160: the box is that of all runs; if any two runs have different boxes, in any component, the script
ends with a `ValueError`, for any number and order of runs. Without runs, nothing is computed. -/
theorem C160_box (value : R → Key → ℝ) (rs : List R) :
    ((∃ e, getSimboxByRundirs value rs = .error e) ↔ ∃ r ∈ rs, ∃ r' ∈ rs, ∃ k, value r k ≠ value r' k) ∧
    (∀ e, getSimboxByRundirs value rs = .error e → e = .valueError) ∧
    (∀ l, getSimboxByRundirs value rs = .ok (some l) ↔
      rs ≠ [] ∧ ∃ b : Box, l = [b.x, b.y, b.z] ∧ ∀ r ∈ rs, HasBox value r b) ∧
    (startsWriting rs = .error 1 ↔ rs = []) ∧ (rs ≠ [] → startsWriting rs = .ok rs) := by
  refine ⟨?_, ?_, ?_, by cases rs <;> simp [startsWriting], by cases rs <;> simp [startsWriting]⟩
  · cases rs with
    | nil => simp [getSimboxByRundirs, simboxLoop]
    | cons r rs =>
      simp only [getSimboxByRundirs, simboxLoop]
      rcases loop_some (value := value) (getSimboxByRundir value r) rs with ⟨h1, h2⟩ | ⟨h1, r', hr', h2⟩
      · simp only [h1, reduceCtorEq, exists_false, false_iff]
        rintro ⟨a, ha, b, hb, k, hk⟩
        have : ∀ a ∈ r :: rs, getSimboxByRundir value a = getSimboxByRundir value r := by
          intro a ha
          rcases List.mem_cons.1 ha with rfl | ha
          · rfl
          · exact h2 a ha
        exact hk ((box_eq_iff a b).1 ((this a ha).trans (this b hb).symm) k)
      · simp only [h1, Except.error.injEq, exists_eq', true_iff]
        refine ⟨r', List.mem_cons_of_mem _ hr', r, List.mem_cons_self, ?_⟩
        by_contra hc
        exact h2 ((box_eq_iff r' r).2 fun k => by_contra fun hk => hc ⟨k, hk⟩)
  · intro e
    cases rs with
    | nil => simp [getSimboxByRundirs, simboxLoop]
    | cons r rs =>
      simp only [getSimboxByRundirs, simboxLoop]
      rcases loop_some (value := value) (getSimboxByRundir value r) rs with ⟨h1, -⟩ | ⟨h1, -⟩
      · simp [h1]
      · simp [h1, eq_comm]
  · intro l
    constructor
    · cases rs with
      | nil => simp [getSimboxByRundirs, simboxLoop]
      | cons r rs =>
        simp only [getSimboxByRundirs, simboxLoop]
        rcases loop_some (value := value) (getSimboxByRundir value r) rs with ⟨h1, h2⟩ | ⟨h1, -⟩
        · simp only [h1, Except.ok.injEq, Option.some.injEq]
          rintro rfl
          refine ⟨by simp, ⟨value r .x, value r .y, value r .z⟩, rfl, ?_⟩
          intro a ha
          rw [hasBox_list]
          rcases List.mem_cons.1 ha with rfl | ha
          · rfl
          · exact h2 a ha
        · simp [h1]
    · rintro ⟨hne, b, rfl, h⟩
      exact simbox_of_common hne h

/-- C160: the wave vector is one of the periodic box: moving by any number of boxes in each direction
changes the phase by a multiple of a full turn. -/
theorem C160_periodic {b : Box} (hb : b.x ≠ 0 ∧ b.y ≠ 0 ∧ b.z ≠ 0) (n m : ℤ × ℤ × ℤ) :
    ∃ k, getWaveVector (modeVector n) [b.x, b.y, b.z] = .ok k ∧
      ∃ turns : ℤ, k.x * (m.1 * b.x) + k.y * (m.2.1 * b.y) + k.z * (m.2.2 * b.z) = 2 * Real.pi * turns := by
  refine ⟨_, waveVector_eq hb _, n.1 * m.1 + n.2.1 * m.2.1 + n.2.2 * m.2.2, ?_⟩
  have h1 : (b.x : ℂ) ≠ 0 := by exact_mod_cast hb.1
  have h2 : (b.y : ℂ) ≠ 0 := by exact_mod_cast hb.2.1
  have h3 : (b.z : ℂ) ≠ 0 := by exact_mod_cast hb.2.2
  simp only [modeVector]
  field_simp
  push_cast
  ring

/-- C160: for runs with a common box, and a mode other than the constant one, if the correlation function
decays as hydrodynamics says, with some kinematic viscosity, and has a row for a time other than zero,
then the script finds this viscosity, whichever of the best fits it gets. -/
theorem C160_viscosity {rs : List R} (hne : rs ≠ []) {b : Box} (hb : b.x ≠ 0 ∧ b.y ≠ 0 ∧ b.z ≠ 0)
    (h : ∀ r ∈ rs, HasBox value r b) {n : ℤ × ℤ × ℤ} (hn : n ≠ (0, 0, 0)) (nu : ℝ)
    {points : List (ℝ × ℝ)} (hpts : ∀ q ∈ points, q.2 = Real.exp (-nu * waveNumberSquared b n * q.1))
    (hx : ∃ q ∈ points, q.1 ≠ 0) {fit : ℝ} (hfit : IsFit points fit) :
    viscosity value rs (modeVector n) fit = .ok nu := by
  have hk : waveNumberSquared b n ≠ 0 := by
    have hpi := Real.pi_ne_zero
    unfold waveNumberSquared
    have : 0 < ((n.1 : ℝ) / b.x) ^ 2 + ((n.2.1 : ℝ) / b.y) ^ 2 + ((n.2.2 : ℝ) / b.z) ^ 2 := by
      rcases n with ⟨n1, n2, n3⟩
      by_cases e1 : n1 = 0
      · by_cases e2 : n2 = 0
        · have e3 : n3 ≠ 0 := by rintro rfl; exact hn (by simp [e1, e2])
          have : (n3 : ℝ) / b.z ≠ 0 := div_ne_zero (by exact_mod_cast e3) hb.2.2
          positivity
        · have : (n2 : ℝ) / b.y ≠ 0 := div_ne_zero (by exact_mod_cast e2) hb.2.1
          positivity
      · have : (n1 : ℝ) / b.x ≠ 0 := div_ne_zero (by exact_mod_cast e1) hb.1
        positivity
    positivity
  have hf : fit = nu * waveNumberSquared b n :=
    fit_eq hfit (fun q hq => by rw [hpts q hq]; ring_nf) hx
  simp only [viscosity, simbox_of_common hne h, waveVector_eq hb, lengthSquared_eq, hf]
  congr 1
  field_simp

/-- C160: the result does not depend on the order of the runs. -/
theorem C160_order {rs rs' : List R} (h : rs.Perm rs') (k_n : Vec3 ℂ) (fit : ℝ) :
    viscosity value rs k_n fit = viscosity value rs' k_n fit := by
  have key : getSimboxByRundirs value rs = getSimboxByRundirs value rs' := by
    have c1 := C160_box value rs
    have c2 := C160_box value rs'
    cases e : getSimboxByRundirs value rs with
    | error x =>
      obtain ⟨r, hr, r', hr', k, hk⟩ := c1.1.1 ⟨x, e⟩
      obtain ⟨y, hy⟩ := c2.1.2 ⟨r, h.mem_iff.1 hr, r', h.mem_iff.1 hr', k, hk⟩
      rw [hy, c1.2.1 x e, c2.2.1 y hy]
    | ok o =>
      cases o with
      | some l =>
        obtain ⟨hne, b, hl, hb⟩ := (c1.2.2.1 l).1 e
        exact ((c2.2.2.1 l).2 ⟨fun h' => hne (by subst h'; exact h.eq_nil), b, hl,
          fun r hr => hb r (h.mem_iff.2 hr)⟩).symm
      | none =>
        cases rs with
        | nil => rw [← e, h.nil_eq]
        | cons r rs =>
          simp only [getSimboxByRundirs, simboxLoop] at e
          rcases loop_some (value := value) (getSimboxByRundir value r) rs with ⟨h1, -⟩ | ⟨h1, -⟩
          · rw [h1] at e; cases e
          · rw [h1] at e; cases e
  simp only [viscosity, key]

/-- C160 needs a row for a time other than zero: with a single measurement every parameter is a best fit,
and the script may give any viscosity, for every correlation function. -/
theorem C160_single {rs : List R} (hne : rs ≠ []) {b : Box}
    (hb : b.x ≠ 0 ∧ b.y ≠ 0 ∧ b.z ≠ 0) (h : ∀ r ∈ rs, HasBox value r b) {n : ℤ × ℤ × ℤ}
    (hk : waveNumberSquared b n ≠ 0) (any : ℝ) :
    ∃ fit, IsFit [(0, 1)] fit ∧ viscosity value rs (modeVector n) fit = .ok any := by
  refine ⟨any * waveNumberSquared b n, fun q => by simp [residual, fitFunction], ?_⟩
  simp only [viscosity, simbox_of_common hne h, waveVector_eq hb, lengthSquared_eq]
  congr 1
  field_simp

/-! ## Non-vacuity -/

/-- Two runs in a box of ten by twenty by thirty; the first mode in the direction of `x`, measured at two
times. -/
example : ∃ fit, viscosity (R := ℕ) (fun _ k => match k with | .x => 10 | .y => 20 | .z => 30) [0, 1]
    (modeVector (1, 0, 0)) fit = .ok 0.8 := by
  let b : Box := ⟨10, 20, 30⟩
  let rate := 0.8 * waveNumberSquared b (1, 0, 0)
  refine ⟨rate, C160_viscosity (b := b) (by simp) (by norm_num [b]) (fun r _ => ⟨rfl, rfl, rfl⟩) (by simp) _
    (points := [(0, 1), (1, Real.exp (-rate))]) ?_ ⟨(1, Real.exp (-rate)), by simp, by simp⟩ ?_⟩
  · intro q hq
    simp only [List.mem_cons, List.not_mem_nil, or_false] at hq
    rcases hq with rfl | rfl
    · simp
    · simp [rate]
  · intro q
    have : residual [(0, 1), (1, Real.exp (-rate))] rate = 0 := by simp [residual, fitFunction]
    rw [this]
    refine List.sum_nonneg fun x hx => ?_
    obtain ⟨p, -, rfl⟩ := List.mem_map.1 hx
    positivity

/-- Runs in different boxes. -/
example : getSimboxByRundirs (R := ℕ) (fun r k => if r = 1 ∧ k = .z then 11 else 10) [0, 1] =
    .error .valueError := by
  have h := C160_box (R := ℕ) (fun r k => if r = 1 ∧ k = .z then 11 else 10) [0, 1]
  obtain ⟨e, he⟩ := h.1.2 ⟨0, by simp, 1, by simp, .z, by norm_num⟩
  rw [he, h.2.1 e he]

end OpenMPCD.Analysis.Viscosity
