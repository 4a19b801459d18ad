import Verif.Analysis.Relax
import Verif.Fluid.Dumbbell
import Mathlib.Analysis.Complex.Polynomial.Basic

/-!
# What the scripts for dumbbells plot (C126)
-/

set_option linter.unusedSectionVars false
set_option linter.unusedSimpArgs false

namespace OpenMPCD.Analysis.DumbbellPlots

open Runs (Str)
open Relax (Dict upd keys inner keys_upd lookup_upd inner_lookup inner_nodup inner_append)
open Fluid.Dumbbell (KeepsLength lagrangianMultiplierRatio perfectDisplacement C99_ratio keepsLength_iff cubic_mono ge_one)
open Polynomial

/-! ## Model -/

/-- The polynomial with `coefficients = [1, -1, 0, -Wi * Wi / 6.0]`
(`Analysis/MPCDAnalysis/DumbbellUtilities.py:8`). -/
noncomputable def cubic (Wi : ℝ) : ℂ[X] := Cubic.toPoly ⟨1, -1, 0, ((-Wi * Wi / 6 : ℝ) : ℂ)⟩

/-- `numpy.roots(coefficients)` (`Analysis/MPCDAnalysis/DumbbellUtilities.py:10`): all complex roots, each as often as its
multiplicity, in some order. Simplification: without rounding errors. -/
def Roots (Wi : ℝ) (roots : List ℂ) : Prop := (roots : Multiset ℂ) = (cubic Wi).roots

open Classical in
/-- `getLagrangianMultiplicatorRatioFromWeissenbergNumber`
(`Analysis/MPCDAnalysis/DumbbellUtilities.py:4-18`), for the roots as returned by `numpy`. -/
noncomputable def ratio (Wi : ℝ) (roots : List ℂ) : Except PyErr ℝ :=
  if Wi = 0 then .ok 1
  else if roots.length ≠ 3 then .error .runtimeError
  else if roots.map (fun z => decide (z.im = 0)) ≠ [true, false, false] then .error .runtimeError
  else match roots with
    | z :: _ => .ok z.re
    | [] => .error .indexError

/-- `predictionXX` (`Analysis/plotMeanSquareBondComponents.py:208`). -/
noncomputable def predictionXX (Wi mu : ℝ) : ℝ := 1 / mu * (1 + Wi * Wi / (2 * mu * mu))

/-- `predictionYY` (`Analysis/plotMeanSquareBondComponents.py:209`). -/
noncomputable def predictionYY (mu : ℝ) : ℝ := 1 / mu

/-- `prediction` (`Analysis/plotDumbbellXYCorrelation.py:30`, `Analysis/plotDumbbellXYCorrelation.py:45`). -/
noncomputable def predictionXY (l Wi mu : ℝ) : ℝ := Wi / (4 * mu * mu * (1.5 / (l * l)))

/-- `prediction` (`Analysis/plotDumbbellAlignment.py:58`). -/
noncomputable def predictionTan2Chi (Wi mu : ℝ) : ℝ := 2 * mu / Wi

/-- `getTan2Chi` (`Analysis/MPCDAnalysis/DumbbellAlignment.py:18-20`), for the three means. -/
noncomputable def getTan2Chi (xx yy xy : ℝ) : ℝ := 2 * xy / (xx - yy)

section scripts
variable {K : Type} [Field K] [LinearOrder K] [IsStrictOrderedRing K]

/-- The settings in `config.txt`; `none` if a setting which is tested for is missing
(`Analysis/plotMeanSquareBondComponents.py:40-58`). Simplification: the others are present. -/
structure Settings (K : Type) where
  initialPositions : Str
  length : Option K
  relaxationTime : K
  shearRate : K
  analyticalStreaming : Option Bool
  mdStepCount : ℕ

/-- What the files in a run directory contain: the settings (`none`: no `config.txt`); the arithmetic means of the time
series of the squared bond components, from the first time to consider on (`none`: not both can be read); Weissenberg number and length
in `static_data.txt`; the means of the histograms; whether `git-revision` names the revision with the bug corrected for; the
shear rate in `run.sh` and the means of the values in `stdout.log` (`none`: no `run.sh`). -/
structure Rundir (K : Type) where
  settings : Option (Settings K)
  series : Option (K × K)
  static : Option (K × K)
  histograms : Option (K × K)
  buggyRevision : Bool
  gpu : Option (K × K × K)

/-- The entries of the `dict` describing a point (`Analysis/plotMeanSquareBondComponents.py:93-101`,
`Analysis/plotMeanSquareBondComponents.py:146-152`); `streaming`: `analyticalStreaming` and `mdStepCount`, if present. -/
structure Point (K : Type) where
  xx : K
  yy : K
  length : K
  initialPositions : Str
  streaming : Option (Bool × ℕ)
  deriving DecidableEq

/-- `readRegularData` (`Analysis/plotMeanSquareBondComponents.py:22-103`); `none`: `False` is returned. In the branch for old
data, the variables `analyticalStreaming` and `mdStepCount` have not been assigned to
(`Analysis/plotMeanSquareBondComponents.py:60-72`), whichever of the statements before has raised the exception. -/
def readRegularData (r : Rundir K) : Except PyErr (Option (K × Point K)) :=
  match r.settings with
  | none => .ok none
  | some c =>
    match r.series, c.length with
    | some (xx, yy), some l =>
      if l = 0 then .error .zeroDivisionError
      else
        let f := (if r.buggyRevision then 2 else 1) * (3 / (l * l))
        .ok (some (c.shearRate * c.relaxationTime,
          { xx := xx * f, yy := yy * f, length := l, initialPositions := c.initialPositions,
            streaming := some (match c.analyticalStreaming with
              | none => (true, 0)
              | some true => (true, 0)
              | some false => (false, c.mdStepCount)) }))
    | _, _ =>
      match r.static, r.histograms with
      | some (_, l), some _ => if l = 0 then .error .zeroDivisionError else .error .unboundLocalError
      | _, _ => .error .osError

/-- `readQuickAndDirtyGPUData` (`Analysis/plotMeanSquareBondComponents.py:107-154`); `none`: `False` is returned. `tau_0`: the
number `26.8164398539`. Simplification: the files have the expected format. -/
def readQuickAndDirtyGPUData (tau_0 : K) (r : Rundir K) : Option (K × Point K) :=
  match r.gpu with
  | none => none
  | some (shearRate, xx, yy) =>
    some (shearRate * tau_0,
      { xx := xx * (3 / (3 * 3)), yy := yy * (3 / (3 * 3)), length := 3, initialPositions := ['r', 'a', 'n', 'd', 'o', 'm'],
        streaming := none })

/-- The body of the loop over the run directories (`Analysis/plotMeanSquareBondComponents.py:172-177`). -/
def readRun (tau_0 : K) (r : Rundir K) : Except PyErr (K × Point K) :=
  match readRegularData r with
  | .error e => .error e
  | .ok (some p) => .ok p
  | .ok none =>
    match readQuickAndDirtyGPUData tau_0 r with
    | some p => .ok p
    | none => .error .exception

/-- The loop over the run directories (`Analysis/plotMeanSquareBondComponents.py:160-177`). -/
def readRuns (tau_0 : K) : List (Rundir K) → Except PyErr (List (K × Point K))
  | [] => .ok []
  | r :: rs =>
    match readRun tau_0 r with
    | .error e => .error e
    | .ok p =>
      match readRuns tau_0 rs with
      | .error e => .error e
      | .ok ps => .ok (p :: ps)

/-- What the name of a curve is made of (`Analysis/plotMeanSquareBondComponents.py:183-188`): length, initial positions, and the
number of steps unless streaming is analytical. -/
abbrev Key (K : Type) := K × Str × Option ℕ

/-- `sorted(data.items())`, followed by the loop over the points (`Analysis/plotMeanSquareBondComponents.py:181-182`). -/
def ordered (points : List (K × Point K)) : List (K × Point K) :=
  ((inner points).mergeSort fun a b => decide (a.1 ≤ b.1)).flatMap fun e => e.2.map fun p => (e.1, p)

/-- The key of the curve a point belongs to (`Analysis/plotMeanSquareBondComponents.py:183-188`). -/
def keyOf (p : Point K) : Except PyErr (Key K) :=
  match p.streaming with
  | none => .error .keyError
  | some (true, _) => .ok (p.length, p.initialPositions, none)
  | some (false, n) => .ok (p.length, p.initialPositions, some n)

/-- Assigning the points to the curves (`Analysis/plotMeanSquareBondComponents.py:180-197`). The two curves for the two components
are one entry here: they are inserted one after the other and extended at the same time. -/
def curves (points : List (K × Point K)) : Except PyErr (Dict (Key K) (List (K × K × K))) :=
  (ordered points).foldlM (fun d p =>
    match keyOf p.2 with
    | .error e => .error e
    | .ok k => .ok (upd k (fun o => o.getD [] ++ [(p.1, p.2.xx, p.2.yy)]) d)) []

/-- The curves plotted: their titles (`none`: theory; the component), and the points
(`Analysis/plotMeanSquareBondComponents.py:222-233`), given those of the theory. -/
def plotted (theory : List (K × K × K)) (c : Dict (Key K) (List (K × K × K))) :
    List (Option (Key K) × Bool) × List (List (K × K)) :=
  let xx := fun l : List (K × K × K) => l.map fun p => (p.1, p.2.1)
  let yy := fun l : List (K × K × K) => l.map fun p => (p.1, p.2.2)
  ([(none, true), (none, false)] ++ c.flatMap fun e => [(some e.1, true), (some e.1, false)],
    [xx theory, yy theory] ++ c.flatMap fun e => [xx e.2, yy e.2])

end scripts

/-! ## Specification -/

/-- Second moments of a bond vector which do not change with time, when the bond relaxes with the time `tau` towards a mean
square of `s` per component (`mu` times as fast and to an accordingly smaller mean square, if the spring is `mu` times as
strong), in a shear flow along `x` with the rate `rate`, varying along `y`. -/
structure Stationary (s tau rate mu xx xy yy zz : ℝ) : Prop where
  xx : 2 * rate * xy - 2 / tau * (mu * xx - s) = 0
  xy : rate * yy - 2 / tau * (mu * xy) = 0
  yy : -(2 / tau * (mu * yy - s)) = 0
  zz : -(2 / tau * (mu * zz - s)) = 0

/-! ## Theory -/

theorem roots_cubic {Wi : ℝ} (hWi : Wi ≠ 0) {roots : List ℂ} (h : Roots Wi roots) {mu : ℝ} (hmu : KeepsLength Wi mu) :
    roots.length = 3 ∧ roots.countP (fun z => decide (z.im = 0)) = 1 ∧ ∀ z ∈ roots, z.im = 0 → z = (mu : ℂ) := by
  obtain ⟨hpos, he⟩ := (keepsLength_iff Wi mu).1 hmu
  have hq : 0 < Wi ^ 2 / 6 := by positivity
  have hge : 1 ≤ mu := ge_one hq.le hpos he
  have hmu1 : 1 < mu := by
    rcases hge.lt_or_eq with h | h
    · exact h
    · rw [← h] at he; norm_num at he; exact absurd he.symm (by positivity)
  have hP0 : cubic Wi ≠ 0 := Cubic.ne_zero_of_a_ne_zero (by norm_num)
  have hdeg : (cubic Wi).natDegree = 3 := Cubic.natDegree_of_a_ne_zero (by norm_num)
  have hroot : ∀ y : ℝ, (cubic Wi).IsRoot (y : ℂ) ↔ y = mu := by
    intro y
    have h1 : (cubic Wi).IsRoot (y : ℂ) ↔ y ^ 2 * (y - 1) = Wi ^ 2 / 6 := by
      simp only [IsRoot.def, cubic, Cubic.toPoly, eval_add, eval_mul, eval_C, eval_pow, eval_X]
      rw [show (1 : ℂ) * (y : ℂ) ^ 3 + -1 * (y : ℂ) ^ 2 + 0 * (y : ℂ) + ((-Wi * Wi / 6 : ℝ) : ℂ) =
        ((y ^ 2 * (y - 1) - Wi ^ 2 / 6 : ℝ) : ℂ) by push_cast; ring, Complex.ofReal_eq_zero, sub_eq_zero]
    rw [h1]
    constructor
    · intro hy
      have hy1 : 1 < y := by
        by_contra hc
        have : y ^ 2 * (y - 1) ≤ 0 := mul_nonpos_of_nonneg_of_nonpos (sq_nonneg y) (by linarith)
        linarith
      have := cubic_mono hy1.le hge
      rw [hy, he, sub_self, abs_zero] at this
      exact sub_eq_zero.1 (abs_eq_zero.1 (le_antisymm this (abs_nonneg _)))
    · rintro rfl
      exact he
  have hreal : ∀ z ∈ roots, z.im = 0 → z = (mu : ℂ) := by
    intro z hz him
    have hz' : z ∈ (cubic Wi).roots := by rw [← h]; exact hz
    have hzr : z = (z.re : ℂ) := Complex.ext rfl (by simp [him])
    have := (mem_roots hP0).1 hz'
    rw [hzr, hroot] at this
    rw [hzr, this]
  refine ⟨?_, ?_, hreal⟩
  · have h1 : Multiset.card (cubic Wi).roots = (cubic Wi).natDegree :=
      (splits_iff_card_roots.1 (IsAlgClosed.splits (cubic Wi)))
    rw [← h, hdeg] at h1
    exact h1
  · have hsimple : (cubic Wi).rootMultiplicity (mu : ℂ) = 1 := by
      have h1 : 0 < (cubic Wi).rootMultiplicity (mu : ℂ) := (rootMultiplicity_pos hP0).2 ((hroot mu).2 rfl)
      have h2 : ¬ 1 < (cubic Wi).rootMultiplicity (mu : ℂ) := by
        rw [one_lt_rootMultiplicity_iff_isRoot hP0]
        rintro ⟨-, h⟩
        simp only [IsRoot.def, cubic, Cubic.toPoly, derivative_add, derivative_mul, derivative_C, derivative_X_pow,
          derivative_X, eval_add, eval_mul, eval_C, eval_pow, eval_X] at h
        have h' : ((3 * mu ^ 2 - 2 * mu : ℝ) : ℂ) = 0 := by
          rw [← h]
          push_cast
          norm_num
          ring
        have h' := Complex.ofReal_eq_zero.1 h'
        nlinarith
      omega
    have hcount : roots.count (mu : ℂ) = 1 := by
      rw [← Multiset.coe_count, h, count_roots, hsimple]
    rw [← hcount, List.count]
    apply List.countP_congr
    intro z hz
    simp only [decide_eq_true_eq, beq_iff_eq]
    constructor
    · exact hreal z hz
    · rintro rfl
      simp

/-- C126: for every Weissenberg number and in whichever order the roots come, the ratio of Lagrangian multipliers computed is
that used by the simulation; an exception is raised instead if and only if the real root does not come first. -/
theorem C126_ratio {Wi : ℝ} {roots : List ℂ} (h : Roots Wi roots) :
    (∀ mu, ratio Wi roots = .ok mu → lagrangianMultiplierRatio Wi = .ok mu) ∧
    ((∃ mu, ratio Wi roots = .ok mu) ↔ Wi = 0 ∨ ∃ z ∈ roots.head?, z.im = 0) ∧
    (∀ e, ratio Wi roots = .error e → e = .runtimeError) := by
  obtain ⟨mu, hmu⟩ := Fluid.Dumbbell.ratio_ok Wi
  have hk := (C99_ratio Wi mu).1 hmu
  by_cases hWi : Wi = 0
  · subst hWi
    have h1 : lagrangianMultiplierRatio 0 = .ok 1 := by unfold lagrangianMultiplierRatio; rw [if_pos rfl]
    unfold ratio
    rw [if_pos rfl, h1]
    exact ⟨fun mu h => by cases h; rfl, by simp, fun e h => by cases h⟩
  · obtain ⟨h1, h2, h3⟩ := roots_cubic hWi h hk
    match roots, h1 with
    | [a, b, c], _ =>
      unfold ratio
      rw [if_neg hWi, if_neg (by simp)]
      by_cases ha : a.im = 0
      · have hb : ¬ b.im = 0 := by
          intro hb; simp [List.countP_cons, ha, hb] at h2
        have hc : ¬ c.im = 0 := by
          intro hc; simp [List.countP_cons, ha, hc] at h2
        rw [if_neg (by simp [ha, hb, hc])]
        have ha' := h3 a (by simp) ha
        refine ⟨fun m hm => ?_, by simp [hWi, ha], fun e he => (by cases he)⟩
        cases hm
        rw [hmu, ha', Complex.ofReal_re]
      · rw [if_pos (by simp [ha])]
        refine ⟨fun m hm => (by cases hm), by simp [hWi, ha], fun e he => (by cases he; rfl)⟩

/-- There is such a list of roots, and one with the real root first. -/
example (Wi : ℝ) (hWi : Wi ≠ 0) : ∃ roots mu, Roots Wi roots ∧ ratio Wi roots = .ok mu := by
  obtain ⟨mu, hmu⟩ := Fluid.Dumbbell.ratio_ok Wi
  have hk := (C99_ratio Wi mu).1 hmu
  have h0 : Roots Wi (cubic Wi).roots.toList := Multiset.coe_toList _
  obtain ⟨h1, h2, h3⟩ := roots_cubic hWi h0 hk
  obtain ⟨z, hz, hz'⟩ : ∃ z ∈ (cubic Wi).roots.toList, z.im = 0 := by
    by_contra hc
    push Not at hc
    rw [List.countP_eq_zero.2 (by simpa using hc)] at h2
    cases h2
  have hr : Roots Wi (z :: (cubic Wi).roots.toList.erase z) := by
    have : ((z :: (cubic Wi).roots.toList.erase z : List ℂ) : Multiset ℂ) = ((cubic Wi).roots.toList : Multiset ℂ) :=
      Multiset.coe_eq_coe.2 (List.perm_cons_erase hz).symm
    exact this.trans h0
  obtain ⟨-, h5, -⟩ := C126_ratio hr
  obtain ⟨m, hm⟩ := h5.2 (.inr ⟨z, rfl, hz'⟩)
  exact ⟨_, m, hr, hm⟩

/-- C126: the theoretical curves show the second moments of the bond vector which the shear flow leaves unchanged, and these
only: the mean squares of the components divided by a third of the mean square length, and the mean product of the first
two. -/
theorem C126_stationary {l tau rate mu xx xy yy zz : ℝ} (hl : l ≠ 0) (htau : tau ≠ 0) (hmu : 0 < mu) :
    Stationary (l ^ 2 / 3) tau rate mu xx xy yy zz ↔
      3 * xx / l ^ 2 = predictionXX (rate * tau) mu ∧ 3 * yy / l ^ 2 = predictionYY mu ∧
      3 * zz / l ^ 2 = predictionYY mu ∧ xy = predictionXY l (rate * tau) mu := by
  unfold predictionXX predictionYY predictionXY
  constructor
  · rintro ⟨h1, h2, h3, h4⟩
    have hyy : yy = l ^ 2 / (3 * mu) := by
      field_simp at h3 ⊢
      linarith
    have hzz : zz = l ^ 2 / (3 * mu) := by
      field_simp at h4 ⊢
      linarith
    have hxy : xy = rate * tau * yy / (2 * mu) := by
      field_simp at h2 ⊢
      linarith
    have hxx : xx = (rate * tau * xy + l ^ 2 / 3) / mu := by
      field_simp at h1 ⊢
      linarith
    subst hxx hxy hyy hzz
    refine ⟨?_, ?_, ?_, ?_⟩ <;> field_simp <;> ring
  · rintro ⟨h1, h2, h3, h4⟩
    have hyy : yy = l ^ 2 / (3 * mu) := by
      field_simp at h2 ⊢
      linarith
    have hzz : zz = l ^ 2 / (3 * mu) := by
      field_simp at h3 ⊢
      linarith
    have hxx : xx = l ^ 2 / 3 * (1 / mu * (1 + rate * tau * (rate * tau) / (2 * mu * mu))) := by
      rw [← h1]
      field_simp
    subst hxx h4 hyy hzz
    refine ⟨?_, ?_, ?_, ?_⟩ <;> field_simp <;> ring

/-- C126: with the ratio computed, the mean square length is that without flow, the curves begin at one, and the stronger the
flow, the larger is the one and the smaller is the other component; the former stays below three. -/
theorem C126_curves {Wi Wi' mu mu' : ℝ} {roots roots' : List ℂ} (hr : Roots Wi roots) (hr' : Roots Wi' roots')
    (h : ratio Wi roots = .ok mu) (h' : ratio Wi' roots' = .ok mu') :
    predictionXX Wi mu + 2 * predictionYY mu = 3 ∧ 0 < predictionYY mu ∧ predictionYY mu ≤ 1 ∧ 1 ≤ predictionXX Wi mu ∧
      predictionXX Wi mu < 3 ∧ (predictionYY mu = 1 ↔ Wi = 0) ∧ (predictionXX Wi mu = 1 ↔ Wi = 0) ∧
      (predictionYY mu' < predictionYY mu ↔ |Wi| < |Wi'|) ∧
      (predictionXX Wi mu < predictionXX Wi' mu' ↔ |Wi| < |Wi'|) := by
  have e := (C126_ratio hr).1 mu h
  have e' := (C126_ratio hr').1 mu' h'
  obtain ⟨h1, h2, h3, -⟩ := Fluid.Dumbbell.C99_monotone e e'
  obtain ⟨h1', -, -, -⟩ := Fluid.Dumbbell.C99_monotone e' e
  have sum : ∀ {Wi mu}, lagrangianMultiplierRatio Wi = .ok mu → predictionXX Wi mu + 2 * predictionYY mu = 3 := by
    intro Wi mu e
    obtain ⟨hpos, hk⟩ := (C99_ratio Wi mu).1 e
    unfold predictionXX predictionYY
    have : 1 / mu * (1 + Wi * Wi / (2 * mu * mu)) + 2 * (1 / mu) =
        3 * (1 / (3 * mu) * (1 + Wi ^ 2 / (2 * mu ^ 2)) + 1 / (3 * mu) + 1 / (3 * mu)) := by
      field_simp
      ring
    rw [this, hk, mul_one]
  have s := sum e
  have s' := sum e'
  have hy : 0 < predictionYY mu := by unfold predictionYY; positivity
  have hy1 : predictionYY mu ≤ 1 := by
    unfold predictionYY
    rw [div_le_one (by linarith)]
    exact h1
  have hone : predictionYY mu = 1 ↔ Wi = 0 := by
    rw [← h2]
    unfold predictionYY
    rw [div_eq_one_iff_eq (by linarith)]
    exact eq_comm
  have hlt : predictionYY mu' < predictionYY mu ↔ |Wi| < |Wi'| := by
    rw [← h3]
    unfold predictionYY
    rw [one_div_lt_one_div (by linarith) (by linarith)]
  refine ⟨s, hy, hy1, by linarith, by linarith, hone, ?_, hlt, ?_⟩
  · rw [← hone]
    constructor <;> intro h <;> linarith
  · rw [← hlt]
    constructor <;> intro h <;> linarith

/-- C126: initial bonds placed "perfectly" lie on the theoretical curves. -/
theorem C126_initial {l Wi : ℝ} (hl : l ≠ 0) {d : Vec3 ℝ} (hd : perfectDisplacement l Wi = .ok d) {mu : ℝ}
    {roots : List ℂ} (hr : Roots Wi roots) (h : ratio Wi roots = .ok mu) :
    3 * d.x ^ 2 / l ^ 2 = predictionXX Wi mu ∧ 3 * d.y ^ 2 / l ^ 2 = predictionYY mu := by
  have e := (C126_ratio hr).1 mu h
  obtain ⟨hpos, -⟩ := (C99_ratio Wi mu).1 e
  obtain ⟨d', h1, -, -, -, -, mu', h2, h3, -, h4⟩ := Fluid.Dumbbell.C99_perfect l Wi
  rw [hd] at h1
  rw [e] at h2
  cases h1
  cases h2
  unfold predictionXX predictionYY
  rw [h3, h4]
  constructor <;> field_simp

/-- C126: the angle predicted is that of the moments predicted, measured in the same way as in the simulation's data. -/
theorem C126_angle {l Wi mu : ℝ} (hl : l ≠ 0) (hWi : Wi ≠ 0) (hmu : 0 < mu) :
    predictionTan2Chi Wi mu =
      getTan2Chi (l ^ 2 / 3 * predictionXX Wi mu) (l ^ 2 / 3 * predictionYY mu) (predictionXY l Wi mu) := by
  unfold predictionTan2Chi getTan2Chi predictionXX predictionYY predictionXY
  have h : l ^ 2 / 3 * (1 / mu * (1 + Wi * Wi / (2 * mu * mu))) - l ^ 2 / 3 * (1 / mu) = l ^ 2 * Wi ^ 2 / (6 * mu ^ 3) := by
    field_simp
    ring
  rw [h]
  field_simp
  ring

/-! ## Data -/

section scripts
variable {K : Type} [Field K] [LinearOrder K] [IsStrictOrderedRing K]

/-- C126: a run of the present kind contributes one point: its Weissenberg number, and the mean squares of the bond
components divided by a third of the configured mean square length. -/
theorem C126_point (tau_0 : K) {r : Rundir K} {c : Settings K} {xx yy l : K} (h1 : r.settings = some c)
    (h2 : r.series = some (xx, yy)) (h3 : c.length = some l) (hl : l ≠ 0) (hb : r.buggyRevision = false) :
    ∃ p, readRun tau_0 r = .ok (c.shearRate * c.relaxationTime, p) ∧ p.xx = 3 * xx / l ^ 2 ∧ p.yy = 3 * yy / l ^ 2 ∧
      keyOf p = .ok (l, c.initialPositions, if c.analyticalStreaming = some false then some c.mdStepCount else none) := by
  unfold readRun readRegularData
  simp only [h1, h2, h3, if_neg hl, hb]
  refine ⟨_, rfl, ?_, ?_, ?_⟩
  · dsimp only
    rw [if_neg (by simp)]
    field_simp
  · dsimp only
    rw [if_neg (by simp)]
    field_simp
  · unfold keyOf
    cases h : c.analyticalStreaming with
    | none => rfl
    | some b => cases b <;> rfl

/-- C126 is violated: from a run of the old kind, no point is obtained, although the script provides for it: variables are
read which nothing has been assigned to. -/
theorem C126_old_violated (tau_0 : K) {r : Rundir K} {c : Settings K} (h1 : r.settings = some c)
    (h2 : r.series = none ∨ c.length = none) :
    (∀ p, readRun tau_0 r ≠ .ok p) ∧
      ∀ Wi l m, r.static = some (Wi, l) → l ≠ 0 → r.histograms = some m → readRun tau_0 r = .error .unboundLocalError := by
  have e : readRun tau_0 r = match r.static, r.histograms with
      | some (_, l), some _ => if l = 0 then .error .zeroDivisionError else .error .unboundLocalError
      | _, _ => .error .osError := by
    unfold readRun readRegularData
    simp only [h1]
    rcases h2 with h2 | h2
    · rw [h2]
      cases r.static with
      | none => rfl
      | some a =>
        cases r.histograms with
        | none => rfl
        | some b =>
          dsimp only
          split_ifs <;> rfl
    · rw [h2]
      cases r.series <;> cases r.static with
      | none => rfl
      | some a =>
        cases r.histograms with
        | none => rfl
        | some b =>
          dsimp only
          split_ifs <;> rfl
  constructor
  · intro p
    rw [e]
    cases r.static with
    | none => intro h; cases h
    | some a =>
      cases r.histograms with
      | none => intro h; cases h
      | some b =>
        dsimp only
        split_ifs <;> intro h <;> cases h
  · intro Wi l m h3 h4 h5
    rw [e, h3, h5]
    dsimp only
    rw [if_neg h4]

/-! ### Curves -/

theorem flat_perm {κ V : Type} [DecidableEq κ] (recs : List (κ × V)) :
    ((inner recs).flatMap fun e => e.2.map fun p => (e.1, p)).Perm recs := by
  induction recs using List.reverseRecOn with
  | nil => exact .refl _
  | append_singleton recs r ih =>
    rw [inner_append]
    have : ∀ d : Dict κ (List V), ((upd r.1 (fun o => o.getD [] ++ [r.2]) d).flatMap fun e => e.2.map fun p => (e.1, p)).Perm
        ((d.flatMap fun e => e.2.map fun p => (e.1, p)) ++ [r]) := by
      intro d
      induction d with
      | nil => simp [upd]
      | cons a d ihd =>
        obtain ⟨k, l⟩ := a
        unfold upd
        by_cases h : k = r.1
        · subst h
          rw [if_pos rfl]
          simp only [List.flatMap_cons, Option.getD_some, List.map_append, List.map_cons, List.map_nil, List.append_assoc]
          exact (List.perm_append_comm).append_left _
        · rw [if_neg h]
          simp only [List.flatMap_cons, List.append_assoc]
          exact ihd.append_left _
    exact (this _).trans (ih.append_right _)

/-- C126: the points are those of the runs, each once, by increasing Weissenberg number. -/
theorem ordered_spec (points : List (K × Point K)) :
    (ordered points).Perm points ∧ (ordered points).Pairwise fun a b => a.1 ≤ b.1 := by
  have hp : ((inner points).mergeSort fun a b => decide (a.1 ≤ b.1)).Perm (inner points) := List.mergeSort_perm _ _
  constructor
  · exact (hp.flatMap_right _).trans (flat_perm points)
  · unfold ordered
    rw [List.pairwise_flatMap]
    constructor
    · intro e _
      rw [List.pairwise_map]
      exact List.pairwise_of_forall fun _ _ => le_rfl
    · have hs : ((inner points).mergeSort fun a b => decide (a.1 ≤ b.1)).Pairwise fun a b => decide (a.1 ≤ b.1) = true := by
        refine List.pairwise_mergeSort (fun a b c => ?_) (fun a b => ?_) _
        · simp only [decide_eq_true_eq]
          exact le_trans
        · simp only [Bool.or_eq_true, decide_eq_true_eq]
          exact le_total _ _
      refine hs.imp fun {a b} h x hx y hy => ?_
      obtain ⟨-, -, rfl⟩ := List.mem_map.1 hx
      obtain ⟨-, -, rfl⟩ := List.mem_map.1 hy
      simpa using h

/-- C126: if all runs are of the present kind, there is one pair of curves for each combination of length, initial positions
and integration method occurring, and they consist of exactly the points of the runs with that combination, each once, by
increasing Weissenberg number. -/
theorem C126_plotted (points : List (K × Point K)) (h : ∀ p ∈ points, ∃ k, keyOf p.2 = .ok k) :
    ∃ c, curves points = .ok c ∧ (keys c).Nodup ∧ (∀ k, k ∈ keys c ↔ ∃ p ∈ points, keyOf p.2 = .ok k) ∧
      ∀ k l, (k, l) ∈ c →
        l.Perm ((points.filter fun p => decide (keyOf p.2 = .ok k)).map fun p => (p.1, p.2.xx, p.2.yy)) ∧
        l.Pairwise fun a b => a.1 ≤ b.1 := by
  obtain ⟨ho, hs⟩ := ordered_spec points
  let key : K × Point K → Key K := fun p => match keyOf p.2 with
    | .ok k => k
    | .error _ => (0, [], none)
  have hkey : ∀ p ∈ points, ∀ k, keyOf p.2 = .ok k ↔ key p = k := by
    intro p hp k
    obtain ⟨k', hk'⟩ := h p hp
    simp only [key, hk', Except.ok.injEq]
  let recs := (ordered points).map fun p => (key p, (p.1, p.2.xx, p.2.yy))
  have hc : curves points = .ok (inner recs) := by
    unfold curves Relax.inner
    simp only [recs]
    rw [List.foldl_map]
    have hmem : ∀ p ∈ ordered points, keyOf p.2 = .ok (key p) := fun p hp =>
      (hkey p (ho.mem_iff.1 hp) _).2 rfl
    generalize ([] : Dict (Key K) (List (K × K × K))) = d
    revert hmem d
    generalize ordered points = l
    induction l with
    | nil => intros; rfl
    | cons p l ih =>
      intro hmem d
      rw [List.foldlM_cons, hmem p (by simp)]
      exact ih (fun q hq => hmem q (by simp [hq])) _
  refine ⟨_, hc, inner_nodup _, fun k => ?_, fun k l hl => ?_⟩
  · rw [Relax.mem_keys_iff]
    simp only [Relax.mem_iff_lookup (inner_nodup recs), inner_lookup]
    constructor
    · rintro ⟨v, hv⟩
      by_cases hf : (recs.filter fun r => decide (r.1 = k)) = []
      · rw [if_pos hf] at hv; cases hv
      · obtain ⟨x, hx⟩ := List.exists_mem_of_ne_nil _ hf
        obtain ⟨h1, h2⟩ := List.mem_filter.1 hx
        obtain ⟨p, hp, rfl⟩ := List.mem_map.1 h1
        have hp := ho.mem_iff.1 hp
        exact ⟨p, hp, (hkey p hp k).2 (by simpa using h2)⟩
    · rintro ⟨p, hp, hk⟩
      rw [if_neg]
      · exact ⟨_, rfl⟩
      · rw [List.filter_eq_nil_iff]
        push Not
        exact ⟨_, List.mem_map_of_mem (ho.mem_iff.2 hp), by simpa using (hkey p hp k).1 hk⟩
  · rw [Relax.mem_iff_lookup (inner_nodup recs), inner_lookup] at hl
    split at hl
    · cases hl
    · have hl := Option.some.inj hl
      have e : ((recs.filter fun r => decide (r.1 = k)).map Prod.snd) =
          ((ordered points).filter fun p => decide (key p = k)).map fun p => (p.1, p.2.xx, p.2.yy) := by
        simp only [recs]
        rw [List.filter_map, List.map_map]
        rfl
      rw [← hl, e]
      constructor
      · refine List.Perm.map _ ((ho.filter _).trans (.of_eq ?_))
        apply List.filter_congr
        intro p hp
        rw [decide_eq_decide]
        exact (hkey p hp k).symm
      · rw [List.pairwise_map]
        exact hs.sublist List.filter_sublist

/-- C126 is violated: a run of the graphics processor prototype, though read, makes the script break off when the curves
are made, whatever the other runs are. -/
theorem C126_prototype_violated (tau_0 : K) {rundirs : List (Rundir K)} {points : List (K × Point K)}
    (h : readRuns tau_0 rundirs = .ok points) {r : Rundir K} (hr : r ∈ rundirs) (h1 : r.settings = none)
    (h2 : r.gpu ≠ none) : curves points = .error .keyError := by
  have hp : ∃ p ∈ points, keyOf p.2 = .error .keyError := by
    induction rundirs generalizing points with
    | nil => cases hr
    | cons a rs ih =>
      unfold readRuns at h
      cases ha : readRun tau_0 a with
      | error e => rw [ha] at h; cases h
      | ok p =>
        rw [ha] at h
        cases hrs : readRuns tau_0 rs with
        | error e => rw [hrs] at h; cases h
        | ok ps =>
          rw [hrs] at h
          cases h
          rcases List.mem_cons.1 hr with rfl | hr
          · refine ⟨p, by simp, ?_⟩
            unfold readRun readRegularData readQuickAndDirtyGPUData at ha
            rw [h1] at ha
            cases hg : r.gpu with
            | none => exact absurd hg h2
            | some g =>
              obtain ⟨s, x, y⟩ := g
              rw [hg] at ha
              cases ha
              rfl
          · obtain ⟨q, hq, hq'⟩ := ih hrs hr
            exact ⟨q, by simp [hq], hq'⟩
  obtain ⟨p, hp, hk⟩ := hp
  have herr : ∀ p : Point K, ∀ e, keyOf p = .error e → e = .keyError := by
    intro p e
    unfold keyOf
    split <;> intro h <;> cases h
    rfl
  have hp := (ordered_spec points).1.mem_iff.2 hp
  unfold curves
  generalize ([] : Dict (Key K) (List (K × K × K))) = d
  revert hp d
  generalize ordered points = l
  induction l with
  | nil => intro h; cases h
  | cons a l ih =>
    intro hp d
    rw [List.foldlM_cons]
    cases ha : keyOf a.2 with
    | error e =>
      rw [herr _ _ ha]
      rfl
    | ok k =>
      rcases List.mem_cons.1 hp with rfl | hp
      · rw [hk] at ha; cases ha
      · exact ih hp _

/-- C126: each curve announced to gnuplot is followed by its own data: there are as many blocks of data as titles, those of the
theory first, and the block belonging to a title consists of the points of that curve. -/
theorem C126_blocks (theory : List (K × K × K)) (c : Dict (Key K) (List (K × K × K))) :
    (plotted theory c).1.length = (plotted theory c).2.length ∧
    ∀ (i : ℕ) (t : Option (Key K) × Bool) (b : List (K × K)), (plotted theory c).1[i]? = some t →
      (plotted theory c).2[i]? = some b → ∃ l, (match t.1 with | none => l = theory | some k => (k, l) ∈ c) ∧
        b = l.map fun p : K × K × K => (p.1, if t.2 then p.2.1 else p.2.2) := by
  have key : ∀ c' : Dict (Key K) (List (K × K × K)), (∀ e ∈ c', e ∈ c) →
      List.Forall₂ (fun t b => ∃ l, (match (t : Option (Key K) × Bool).1 with | none => l = theory | some k => (k, l) ∈ c) ∧
        b = l.map fun p => (p.1, if t.2 then p.2.1 else p.2.2))
        (c'.flatMap fun e => [(some e.1, true), (some e.1, false)])
        (c'.flatMap fun e => [e.2.map fun p => (p.1, p.2.1), e.2.map fun p => (p.1, p.2.2)]) := by
    intro c' hc
    induction c' with
    | nil => exact .nil
    | cons e c' ih =>
      rw [List.flatMap_cons, List.flatMap_cons]
      exact .cons ⟨e.2, hc e (by simp), by simp⟩ (.cons ⟨e.2, hc e (by simp), by simp⟩
        (ih fun x hx => hc x (by simp [hx])))
  have h : List.Forall₂ _ (plotted theory c).1 (plotted theory c).2 :=
    List.Forall₂.cons ⟨theory, rfl, by simp⟩ (.cons ⟨theory, rfl, by simp⟩ (key c fun _ h => h))
  refine ⟨h.length_eq, fun i t b ht hb => ?_⟩
  rw [List.forall₂_iff_get] at h
  obtain ⟨h1, h2⟩ := List.getElem?_eq_some_iff.1 ht
  obtain ⟨h3, h4⟩ := List.getElem?_eq_some_iff.1 hb
  have := h.2 i h1 h3
  simp only [List.get_eq_getElem, h2, h4] at this
  exact this

/-- The hypotheses can be met: two runs with different Weissenberg numbers, given in decreasing order. -/
example : ∃ points : List (ℚ × Point ℚ), readRuns 1
    [⟨some ⟨[], some 3, 2, 5, none, 0⟩, some (4, 1), none, none, false, none⟩,
     ⟨some ⟨[], some 3, 2, 1, some true, 7⟩, some (3, 3), none, none, false, none⟩] = .ok points ∧
    (∀ p ∈ points, ∃ k, keyOf p.2 = .ok k) ∧ points.map Prod.fst = [10, 2] := by
  refine ⟨_, rfl, ?_, by norm_num⟩
  intro p hp
  simp only [List.mem_cons, List.not_mem_nil, or_false] at hp
  rcases hp with rfl | rfl <;> exact ⟨_, rfl⟩

end scripts

end OpenMPCD.Analysis.DumbbellPlots
