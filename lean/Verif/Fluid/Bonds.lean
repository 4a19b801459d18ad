import Verif.Profile.Histogram
import Verif.Profile.FlowFile
import Verif.DDDA.Props
import Verif.Vec.Model
import Mathlib.Analysis.SpecialFunctions.Trigonometric.Inverse

/-!
# Measurements of bonds and of self-diffusion in molecular fluids (C104)

`src/OpenMPCD/CUDA/MPCFluid/Instrumentation/` for Gaussian dumbbells, Gaussian rods, harmonic trimers and Gaussian chains.
Real numbers stand for floating-point numbers. The histograms are those of `Verif.Profile.Histogram`, in exact arithmetic.
The positions of the particles at a measurement are a function of the particle's number; they have been fetched from the
device (`src/OpenMPCD/CUDA/Instrumentation.cpp:205`). `none` stands for undefined behaviour.
-/

set_option linter.unusedSectionVars false
set_option linter.unusedSimpArgs false

namespace OpenMPCD.Fluid.Bonds

open Profile Stats

/-! ## Model -/

/-- What a measurement gets to see: the time, and the positions. -/
structure Shot where
  time : ℝ
  pos : ℕ → Vec3 ℝ

open Classical in
/-- `Vector3D::getAngle` (`include/OpenMPCD/Vector3D.hpp:191-203`). If one of the vectors is zero, the result is not a
number, and filling it into a histogram converts it to `unsigned int`, which is undefined. -/
noncomputable def getAngle (u v : Vec3 ℝ) : Option ℝ :=
  if u.cppMagnitude * v.cppMagnitude = 0 then none
  else some (Real.arccos (u.dot v / (u.cppMagnitude * v.cppMagnitude)))

/-- Fills values into the histograms with the given names, one after the other. -/
noncomputable def fillEach {q : Type} [DecidableEq q] (h : q → Histogram ℝ) : List (q × ℝ) → Option (q → Histogram ℝ)
  | [] => some h
  | (n, v) :: rest => ((h n).fill id v).bind fun h' => fillEach (Function.update h n h') rest

/-- `flowDirection` (`GaussianDumbbells.cpp:35`, `HarmonicTrimers.cpp:48`). -/
def flowDirection : Vec3 ℝ := ⟨1, 0, 0⟩

/-- The histograms of `src/OpenMPCD/CUDA/MPCFluid/Instrumentation/GaussianDumbbells.cpp:13-27`. -/
inductive DumbbellHistogram
  | length | lengthSquared | x | y | z | xx | yy | zz | xy | angle | xyAngle
  deriving DecidableEq

/-- What is filled in for a dumbbell, in the order of
`src/OpenMPCD/CUDA/MPCFluid/Instrumentation/GaussianDumbbells.cpp:45-70`. -/
noncomputable def dumbbellFills (R : Vec3 ℝ) : Option (List (DumbbellHistogram × ℝ)) :=
  (getAngle R flowDirection).bind fun angle =>
  (getAngle ⟨R.x, R.y, 0⟩ flowDirection).bind fun xyAngle =>
  some [(.length, R.cppMagnitude), (.lengthSquared, R.cppMagnitudeSquared), (.x, R.x), (.y, R.y), (.z, R.z),
    (.xx, R.x * R.x), (.yy, R.y * R.y), (.zz, R.z * R.z), (.xy, R.x * R.y), (.angle, angle), (.xyAngle, xyAngle)]

/-- The instrumentation of Gaussian dumbbells; the graphs are lists of points. -/
structure Dumbbells where
  hists : DumbbellHistogram → Histogram ℝ
  xxVSTime : List (ℝ × ℝ)
  yyVSTime : List (ℝ × ℝ)
  zzVSTime : List (ℝ × ℝ)

/-- One iteration of the loop (`GaussianDumbbells.cpp:40-71`), for the particles `2 * d` and `2 * d + 1`; the state are the
histograms and `averageBondXX` and so on. -/
noncomputable def dumbbellStep (pos : ℕ → Vec3 ℝ) (s : (DumbbellHistogram → Histogram ℝ) × ℝ × ℝ × ℝ) (d : ℕ) :
    Option ((DumbbellHistogram → Histogram ℝ) × ℝ × ℝ × ℝ) :=
  let R := pos (2 * d + 1) - pos (2 * d)
  (dumbbellFills R).bind fun fills => (fillEach s.1 fills).map fun h =>
    (h, s.2.1 + R.x * R.x, s.2.2.1 + R.y * R.y, s.2.2.2 + R.z * R.z)

/-- `measureSpecific` (`src/OpenMPCD/CUDA/MPCFluid/Instrumentation/GaussianDumbbells.cpp:33-81`), for `N` particles. -/
noncomputable def Dumbbells.measure (N : ℕ) (s : Dumbbells) (m : Shot) : Option Dumbbells :=
  ((List.range ((N + 1) / 2)).foldlM (dumbbellStep m.pos) (s.hists, 0, 0, 0)).map fun r =>
    { hists := r.1
      xxVSTime := s.xxVSTime ++ [(m.time, r.2.1 / ((N / 2 : ℕ) : ℝ))]
      yyVSTime := s.yyVSTime ++ [(m.time, r.2.2.1 / ((N / 2 : ℕ) : ℝ))]
      zzVSTime := s.zzVSTime ++ [(m.time, r.2.2.2 / ((N / 2 : ℕ) : ℝ))] }

/-- `measureSpecific` of Gaussian rods (`src/OpenMPCD/CUDA/MPCFluid/Instrumentation/GaussianRods.cpp:19-32`). -/
noncomputable def rodsMeasure (N : ℕ) (h : Histogram ℝ) (m : Shot) : Option (Histogram ℝ) :=
  (List.range ((N + 1) / 2)).foldlM
    (fun h i => h.fill id (m.pos (2 * i + 1) - m.pos (2 * i)).cppMagnitude) h

/-- The two bonds of a trimer. -/
inductive Bond
  | first | second
  deriving DecidableEq

/-- What is measured of each of them. -/
inductive TrimerKind
  | length | lengthSquared | xx | yy | zz | xy | xyAngle
  deriving DecidableEq

/-- The histograms of `src/OpenMPCD/CUDA/MPCFluid/Instrumentation/HarmonicTrimers.cpp:15-34`. -/
abbrev TrimerHistogram := Bond × TrimerKind

/-- What is filled in for a trimer (`src/OpenMPCD/CUDA/MPCFluid/Instrumentation/HarmonicTrimers.cpp:56-91`). In line 73, the
product for the second bond is that of the first bond's x component and the second bond's y component. -/
noncomputable def trimerFills (R1 R2 : Vec3 ℝ) : Option (List (TrimerHistogram × ℝ)) :=
  (getAngle ⟨R1.x, R1.y, 0⟩ flowDirection).bind fun angle1 =>
  (getAngle ⟨R2.x, R2.y, 0⟩ flowDirection).bind fun angle2 =>
  some [((.first, .length), R1.cppMagnitude), ((.second, .length), R2.cppMagnitude),
    ((.first, .lengthSquared), R1.cppMagnitudeSquared), ((.second, .lengthSquared), R2.cppMagnitudeSquared),
    ((.first, .xx), R1.x * R1.x), ((.second, .xx), R2.x * R2.x),
    ((.first, .yy), R1.y * R1.y), ((.second, .yy), R2.y * R2.y),
    ((.first, .zz), R1.z * R1.z), ((.second, .zz), R2.z * R2.z),
    ((.first, .xy), R1.x * R1.y), ((.second, .xy), R1.x * R2.y),
    ((.first, .xyAngle), angle1), ((.second, .xyAngle), angle2)]

/-- The loop of `measureSpecific` (`src/OpenMPCD/CUDA/MPCFluid/Instrumentation/HarmonicTrimers.cpp:50-92`). -/
noncomputable def trimersFill (N : ℕ) (h : TrimerHistogram → Histogram ℝ) (m : Shot) :
    Option (TrimerHistogram → Histogram ℝ) :=
  (List.range ((N + 2) / 3)).foldlM (fun h i =>
    (trimerFills (m.pos (3 * i + 1) - m.pos (3 * i)) (m.pos (3 * i + 2) - m.pos (3 * i + 1))).bind (fillEach h)) h

/-- `getTrimerCenterOfMass` (`src/OpenMPCD/CUDA/MPCFluid/Instrumentation/HarmonicTrimers.cpp:161-175`). -/
noncomputable def getTrimerCenterOfMass (pos : ℕ → Vec3 ℝ) (t : ℕ) : Vec3 ℝ :=
  (1 / 3 : ℝ) • (pos (3 * t) + pos (3 * t + 1) + pos (3 * t + 2))

/-- The part of the instrumentation of trimers that measures self-diffusion
(`include/OpenMPCD/CUDA/MPCFluid/Instrumentation/HarmonicTrimers.hpp:106-112`). -/
structure Diffusion where
  snapshot : List (Vec3 ℝ)
  snapshotTime : ℝ
  points : List (ℝ × ℝ)

/-- The initial state (`HarmonicTrimers.cpp:36`). -/
noncomputable def Diffusion.init : Diffusion := ⟨[], -1, []⟩

/-- `accumulatedSquares` (`HarmonicTrimers.cpp:110-121`). -/
noncomputable def accumulatedSquares (old new : List (Vec3 ℝ)) : ℝ :=
  (old.zip new).foldl (fun a p => a + (p.2 - p.1).cppMagnitudeSquared) 0

open Classical in
/-- The first part (`src/OpenMPCD/CUDA/MPCFluid/Instrumentation/HarmonicTrimers.cpp:95-105`). -/
noncomputable def Diffusion.start (N : ℕ) (s : Diffusion) (m : Shot) : Diffusion :=
  if s.snapshotTime < 0 then
    { s with
      snapshot := s.snapshot ++ (List.range (N / 3)).map (getTrimerCenterOfMass m.pos)
      snapshotTime := m.time }
  else s

open Classical in
/-- The second part (`src/OpenMPCD/CUDA/MPCFluid/Instrumentation/HarmonicTrimers.cpp:107-129`). -/
noncomputable def Diffusion.finish (measurementTime : ℝ) (N : ℕ) (s : Diffusion) (m : Shot) : Diffusion :=
  if measurementTime ≤ m.time - s.snapshotTime then
    { snapshot := (List.range (N / 3)).map (getTrimerCenterOfMass m.pos)
      snapshotTime := m.time
      points := s.points ++ [(s.snapshotTime,
        accumulatedSquares s.snapshot ((List.range (N / 3)).map (getTrimerCenterOfMass m.pos)) /
          (6 * (m.time - s.snapshotTime) * ((N / 3 : ℕ) : ℝ)))] }
  else s

/-- The rest of `measureSpecific` (`src/OpenMPCD/CUDA/MPCFluid/Instrumentation/HarmonicTrimers.cpp:95-129`). -/
noncomputable def Diffusion.measure (measurementTime : ℝ) (N : ℕ) (s : Diffusion) (m : Shot) : Diffusion :=
  (s.start N m).finish measurementTime N m

/-- `squaredBondLengths` (`src/OpenMPCD/CUDA/MPCFluid/Instrumentation/GaussianChains.cpp:42-44`), for chains of at least two
particles. -/
noncomputable def chainsInit (L : ℕ) : List (DDDA.CppDDDA ℝ) := List.replicate (L - 1) DDDA.cppInit

/-- `measureSpecific` of Gaussian chains (`src/OpenMPCD/CUDA/MPCFluid/Instrumentation/GaussianChains.cpp:48-75`), for `C`
chains of `L` particles each. -/
noncomputable def chainsMeasure (C L : ℕ) (s : List (DDDA.CppDDDA ℝ)) (m : Shot) : List (DDDA.CppDDDA ℝ) :=
  (List.range C).foldl (fun s chain => (List.range (L - 1)).foldl (fun s p =>
    s.modify p fun d =>
      DDDA.cppAddDatum d (m.pos (chain * L + p) - m.pos (chain * L + p + 1)).cppMagnitudeSquared) s) s

/-- The first columns of a line of the file: number of the bond, mean, sample size, standard deviation. -/
structure ChainRow where
  bond : ℕ
  mean : ℝ
  size : ℕ
  deviation : ℝ

/-- A line (`src/OpenMPCD/CUDA/MPCFluid/Instrumentation/GaussianChains.cpp:93-99`, with
`include/OpenMPCD/ImplementationDetails/OnTheFlyStatisticsDDDA.hpp:36-56,86-98`). `none`: an exception is thrown. The columns
from `getOptimalBlockIDForStandardErrorOfTheMean` on are left out here; that function throws if there are less than two
data as well. -/
noncomputable def chainRow (bond : ℕ) (d : DDDA.CppDDDA ℝ) : Option ChainRow :=
  match d with
  | [] => none
  | (b, _) :: _ =>
    if b.getSampleSize < 2 then none
    else some ⟨bond, b.getSampleMean, b.getSampleSize, Real.sqrt b.getSampleVariance⟩

/-- `saveSpecific` of Gaussian chains (`src/OpenMPCD/CUDA/MPCFluid/Instrumentation/GaussianChains.cpp:77-111`). -/
noncomputable def chainsSave (s : List (DDDA.CppDDDA ℝ)) : Option (List ChainRow) :=
  (s.zipIdx).mapM fun p => chainRow p.2 p.1

/-! ## Specification -/

/-- The histogram, of the given range, holds the given values: they are counted below, above or in the bin they lie in. -/
def Tallies (low high : ℝ) (n : ℕ) (vals : List ℝ) (h : Histogram ℝ) : Prop :=
  h.underflows = countP (fun x => x < low) vals ∧
  h.overflows = countP (fun x => low ≤ x ∧ high ≤ x) vals ∧
  h.bins.length = n ∧
  (∀ i (hi : i < h.bins.length), h.bins[i] = countP (fun x => low ≤ x ∧ x < high ∧ InBin low high n i x) vals) ∧
  h.underflows + h.overflows + h.bins.sum = vals.length

/-- The settings of a histogram. -/
structure Setting where
  low : ℝ
  high : ℝ
  binCount : ℕ

noncomputable def Setting.make (c : Setting) : Histogram ℝ := Histogram.make id c.low c.high c.binCount

/-- The vector from one particle to another. -/
def Shot.vector (m : Shot) (a b : ℕ) : Vec3 ℝ := ⟨(m.pos b).x - (m.pos a).x, (m.pos b).y - (m.pos a).y, (m.pos b).z - (m.pos a).z⟩

/-- The length of a vector. -/
noncomputable def len (R : Vec3 ℝ) : ℝ := Real.sqrt (R.x ^ 2 + R.y ^ 2 + R.z ^ 2)

/-- The angle, from 0 to π, between a vector and the x direction. -/
noncomputable def flowAngle (R : Vec3 ℝ) : ℝ := Real.arccos (R.x / len R)

/-- The quantity a histogram is for. -/
noncomputable def DumbbellHistogram.of (R : Vec3 ℝ) : DumbbellHistogram → ℝ
  | .length => len R
  | .lengthSquared => len R ^ 2
  | .x => R.x
  | .y => R.y
  | .z => R.z
  | .xx => R.x ^ 2
  | .yy => R.y ^ 2
  | .zz => R.z ^ 2
  | .xy => R.x * R.y
  | .angle => flowAngle R
  | .xyAngle => flowAngle ⟨R.x, R.y, 0⟩

/-- The same for trimers. -/
noncomputable def TrimerKind.of (R : Vec3 ℝ) : TrimerKind → ℝ
  | .length => len R
  | .lengthSquared => len R ^ 2
  | .xx => R.x ^ 2
  | .yy => R.y ^ 2
  | .zz => R.z ^ 2
  | .xy => R.x * R.y
  | .xyAngle => flowAngle ⟨R.x, R.y, 0⟩

/-- The bonds of the `t`-th trimer. -/
def Bond.vector (m : Shot) (t : ℕ) : Bond → Vec3 ℝ
  | .first => m.vector (3 * t) (3 * t + 1)
  | .second => m.vector (3 * t + 1) (3 * t + 2)

/-- The projection of a vector to the plane of shear is not zero. -/
def Slanted (R : Vec3 ℝ) : Prop := R.x ≠ 0 ∨ R.y ≠ 0

/-- The values of a quantity of molecules, in all measurements. -/
def all (M : ℕ) (f : Shot → ℕ → ℝ) (ms : List Shot) : List ℝ := ms.flatMap fun m => (List.range M).map (f m)

/-- The mean square displacement of the centers of mass of the trimers between two measurements, divided by six times the
time between them. -/
noncomputable def einstein (M : ℕ) (a b : Shot) : ℝ :=
  Spec.mean ((List.range M).map fun t =>
    len ((1 / 3 : ℝ) • (b.pos (3 * t) + b.pos (3 * t + 1) + b.pos (3 * t + 2)) -
      (1 / 3 : ℝ) • (a.pos (3 * t) + a.pos (3 * t + 1) + a.pos (3 * t + 2))) ^ 2) / (6 * (b.time - a.time))

/-- Windows of at least the given duration: the first one starts with the first measurement, each ends with the first
measurement that makes it long enough, the next one starts where the previous one ended, and what remains is too short. -/
inductive Windows (T : ℝ) : Shot → List Shot → List (Shot × Shot) → Prop
  | last {a : Shot} {ms : List Shot} (h : ∀ m ∈ ms, m.time - a.time < T) : Windows T a ms []
  | window {a b : Shot} {before after : List Shot} {w : List (Shot × Shot)}
      (hb : ∀ m ∈ before, m.time - a.time < T) (h : T ≤ b.time - a.time) (rest : Windows T b after w) :
      Windows T a (before ++ b :: after) ((a, b) :: w)

/-! ## Proofs -/

theorem magnitudeSquared_eq (R : Vec3 ℝ) : R.cppMagnitudeSquared = R.x ^ 2 + R.y ^ 2 + R.z ^ 2 := by
  unfold Vec3.cppMagnitudeSquared Vec3.dot; ring

theorem magnitude_eq (R : Vec3 ℝ) : R.cppMagnitude = len R := by
  unfold Vec3.cppMagnitude len; rw [magnitudeSquared_eq]

theorem len_sq (R : Vec3 ℝ) : len R ^ 2 = R.x ^ 2 + R.y ^ 2 + R.z ^ 2 := Real.sq_sqrt (by positivity)

theorem len_flow : len flowDirection = 1 := by simp [len, flowDirection]

theorem len_pos {R : Vec3 ℝ} (h : Slanted R) : 0 < len R := by
  apply Real.sqrt_pos.mpr
  rcases h with h | h
  · have := sq_pos_of_ne_zero h; nlinarith [sq_nonneg R.y, sq_nonneg R.z]
  · have := sq_pos_of_ne_zero h; nlinarith [sq_nonneg R.x, sq_nonneg R.z]

theorem getAngle_eq {R : Vec3 ℝ} (h : Slanted R) : getAngle R flowDirection = some (flowAngle R) := by
  have hp := len_pos h
  unfold getAngle
  rw [magnitude_eq, magnitude_eq, len_flow, mul_one, if_neg hp.ne']
  congr 2
  simp [Vec3.dot, flowDirection]

/-- The values for one of the histograms. -/
def pick {q : Type} [DecidableEq q] (n : q) (l : List (q × ℝ)) : List ℝ := (l.filter fun p => p.1 = n).map Prod.snd

theorem pick_append {q : Type} [DecidableEq q] (n : q) (l l' : List (q × ℝ)) : pick n (l ++ l') = pick n l ++ pick n l' := by
  simp [pick]

theorem fillEach_some {q : Type} [DecidableEq q] (l : List (q × ℝ)) (h h' : q → Histogram ℝ)
    (hh : ∀ n, (h n).fills id (pick n l) = some (h' n)) : fillEach h l = some h' := by
  induction l generalizing h with
  | nil =>
    have : h = h' := by
      funext n
      have := hh n
      simpa [pick, Histogram.fills] using this
    rw [this]; rfl
  | cons p l ih =>
    obtain ⟨n, v⟩ := p
    have h1 := hh n
    simp only [pick, List.filter_cons, decide_true, if_true, List.map_cons, Histogram.fills] at h1
    unfold fillEach
    cases hf : (h n).fill id v with
    | none => rw [hf] at h1; simp at h1
    | some g =>
      rw [hf] at h1
      apply ih
      intro n'
      by_cases hn : n' = n
      · subst hn
        rw [Function.update_self]
        exact h1
      · rw [Function.update_of_ne hn]
        have := hh n'
        simpa [pick, List.filter_cons, Ne.symm hn] using this

theorem fillEach_append {q : Type} [DecidableEq q] (l l' : List (q × ℝ)) (h : q → Histogram ℝ) :
    fillEach h (l ++ l') = (fillEach h l).bind fun g => fillEach g l' := by
  induction l generalizing h with
  | nil => rfl
  | cons p l ih =>
    obtain ⟨n, v⟩ := p
    simp only [List.cons_append, fillEach]
    cases (h n).fill id v with
    | none => rfl
    | some g => exact ih _

/-- Histograms of at least one bin take all values. -/
theorem fillEach_make {q : Type} [DecidableEq q] (c : q → Setting) (hc : ∀ n, 0 < (c n).binCount) (l : List (q × ℝ)) :
    ∃ h, fillEach (fun n => (c n).make) l = some h ∧
      ∀ n, Tallies (c n).low (c n).high (c n).binCount (pick n l) (h n) := by
  choose h h1 h2 h3 h4 h5 h6 h7 h8 h9 using fun n => C24 (c n).low (c n).high (c n).binCount (hc n) (pick n l)
  exact ⟨h, fillEach_some _ _ _ h1, fun n => ⟨h2 n, h3 n, h4 n, h5 n, h6 n⟩⟩

theorem fills_eq_fillEach (h : Histogram ℝ) (l : List ℝ) :
    (fillEach (fun _ : Unit => h) (l.map fun v => ((), v))) = (h.fills id l).map fun g _ => g := by
  induction l generalizing h with
  | nil => rfl
  | cons v l ih =>
    simp only [List.map_cons, fillEach, Histogram.fills]
    cases h.fill id v with
    | none => rfl
    | some g =>
      have : Function.update (fun _ : Unit => h) () g = fun _ => g := by funext u; simp
      simp only [Option.bind_some, this]
      exact ih g

/-! ### Dumbbells -/

/-- The values for a dumbbell. -/
noncomputable def dumbbellList (R : Vec3 ℝ) : List (DumbbellHistogram × ℝ) :=
  [(.length, R.cppMagnitude), (.lengthSquared, R.cppMagnitudeSquared), (.x, R.x), (.y, R.y), (.z, R.z),
    (.xx, R.x * R.x), (.yy, R.y * R.y), (.zz, R.z * R.z), (.xy, R.x * R.y), (.angle, flowAngle R),
    (.xyAngle, flowAngle ⟨R.x, R.y, 0⟩)]

theorem dumbbellFills_eq {R : Vec3 ℝ} (h : Slanted R) : dumbbellFills R = some (dumbbellList R) := by
  unfold dumbbellFills
  rw [getAngle_eq h, getAngle_eq (R := ⟨R.x, R.y, 0⟩) h]
  rfl

theorem pick_dumbbell (n : DumbbellHistogram) (R : Vec3 ℝ) : pick n (dumbbellList R) = [n.of R] := by
  cases n <;>
    simp [pick, dumbbellList, DumbbellHistogram.of, magnitude_eq, magnitudeSquared_eq, len_sq, ← sq]

theorem vector_eq (m : Shot) (a b : ℕ) : m.pos b - m.pos a = m.vector a b := rfl

theorem dumbbell_loop (m : Shot) (l : List ℕ) (hs : ∀ d ∈ l, Slanted (m.vector (2 * d) (2 * d + 1)))
    (h : DumbbellHistogram → Histogram ℝ) (x y z : ℝ) :
    l.foldlM (dumbbellStep m.pos) (h, x, y, z) =
      (fillEach h (l.flatMap fun d => dumbbellList (m.vector (2 * d) (2 * d + 1)))).map fun g =>
        (g, x + (l.map fun d => (m.vector (2 * d) (2 * d + 1)).x ^ 2).sum,
          y + (l.map fun d => (m.vector (2 * d) (2 * d + 1)).y ^ 2).sum,
          z + (l.map fun d => (m.vector (2 * d) (2 * d + 1)).z ^ 2).sum) := by
  induction l generalizing h x y z with
  | nil => simp [fillEach]
  | cons d l ih =>
    have h1 := hs d (by simp)
    rw [List.foldlM_cons, List.flatMap_cons, fillEach_append]
    unfold dumbbellStep
    simp only [vector_eq]
    rw [dumbbellFills_eq h1]
    simp only [Option.bind_some]
    cases fillEach h (dumbbellList (m.vector (2 * d) (2 * d + 1))) with
    | none => rfl
    | some g =>
      have := ih (fun d hd => hs d (by simp [hd])) g (x + (m.vector (2 * d) (2 * d + 1)).x * (m.vector (2 * d) (2 * d + 1)).x)
        (y + (m.vector (2 * d) (2 * d + 1)).y * (m.vector (2 * d) (2 * d + 1)).y)
        (z + (m.vector (2 * d) (2 * d + 1)).z * (m.vector (2 * d) (2 * d + 1)).z)
      simp only [Option.map_some, Option.bind_eq_bind, Option.bind_some, List.map_cons, List.sum_cons]
      unfold dumbbellStep at this
      simp only [vector_eq] at this
      rw [this]
      congr 1
      funext g'
      simp only [sq, add_assoc]

/-- What a graph of averages is to show. -/
noncomputable def averages (M : ℕ) (f : Vec3 ℝ → ℝ) (ms : List Shot) : List (ℝ × ℝ) :=
  ms.map fun m => (m.time, Spec.mean ((List.range M).map fun d => f (m.vector (2 * d) (2 * d + 1))))

theorem mean_range (M : ℕ) (f : ℕ → ℝ) : (0 + ((List.range M).map f).sum) / (M : ℝ) = Spec.mean ((List.range M).map f) := by
  simp [Spec.mean]

theorem dumbbell_run (M : ℕ) (ms : List Shot) (hs : ∀ m ∈ ms, ∀ d < M, Slanted (m.vector (2 * d) (2 * d + 1)))
    (s : Dumbbells) (g : DumbbellHistogram → Histogram ℝ)
    (hg : fillEach s.hists (ms.flatMap fun m => (List.range M).flatMap fun d => dumbbellList (m.vector (2 * d) (2 * d + 1))) =
      some g) :
    ms.foldlM (Dumbbells.measure (2 * M)) s = some
      { hists := g
        xxVSTime := s.xxVSTime ++ averages M (fun R => R.x ^ 2) ms
        yyVSTime := s.yyVSTime ++ averages M (fun R => R.y ^ 2) ms
        zzVSTime := s.zzVSTime ++ averages M (fun R => R.z ^ 2) ms } := by
  induction ms generalizing s with
  | nil =>
    simp only [List.flatMap_nil, fillEach, Option.some.injEq] at hg
    subst hg
    simp [averages]
  | cons m ms ih =>
    rw [List.flatMap_cons, fillEach_append] at hg
    rw [List.foldlM_cons]
    have e : Dumbbells.measure (2 * M) s m = (fillEach s.hists ((List.range M).flatMap fun d =>
        dumbbellList (m.vector (2 * d) (2 * d + 1)))).map fun g =>
        { hists := g
          xxVSTime := s.xxVSTime ++ averages M (fun R => R.x ^ 2) [m]
          yyVSTime := s.yyVSTime ++ averages M (fun R => R.y ^ 2) [m]
          zzVSTime := s.zzVSTime ++ averages M (fun R => R.z ^ 2) [m] } := by
      unfold Dumbbells.measure
      have h1 : (2 * M + 1) / 2 = M := by omega
      have h2 : 2 * M / 2 = M := by omega
      rw [h1, dumbbell_loop m _ (fun d hd => hs m (by simp) d (List.mem_range.mp hd))]
      rw [h2, Option.map_map]
      congr 1
      funext g
      simp only [Function.comp, averages, List.map_cons, List.map_nil, mean_range]
    rw [e]
    cases hf : fillEach s.hists ((List.range M).flatMap fun d => dumbbellList (m.vector (2 * d) (2 * d + 1))) with
    | none => rw [hf] at hg; simp at hg
    | some g1 =>
      rw [hf] at hg
      simp only [Option.map_some, Option.bind_eq_bind, Option.bind_some]
      rw [ih (fun m hm => hs m (by simp [hm])) ⟨g1, _, _, _⟩ hg]
      simp [averages]

theorem pick_flatMap {q α : Type} [DecidableEq q] (n : q) (l : List α) (f : α → List (q × ℝ)) :
    pick n (l.flatMap f) = l.flatMap fun a => pick n (f a) := by
  induction l with
  | nil => rfl
  | cons a l ih => rw [List.flatMap_cons, pick_append, ih, List.flatMap_cons]

/-- C104, dumbbells: after any history of measurements, each histogram holds its quantity for the bond of each dumbbell in
each measurement, and the graphs show the averages, over all dumbbells, of the squares of the components of the bonds, at the
time of the measurement. -/
theorem C104_dumbbells (M : ℕ) (c : DumbbellHistogram → Setting) (hc : ∀ n, 0 < (c n).binCount) (ms : List Shot)
    (hs : ∀ m ∈ ms, ∀ d < M, Slanted (m.vector (2 * d) (2 * d + 1))) :
    ∃ s, ms.foldlM (Dumbbells.measure (2 * M)) ⟨fun n => (c n).make, [], [], []⟩ = some s ∧
      (∀ n, Tallies (c n).low (c n).high (c n).binCount (all M (fun m d => n.of (m.vector (2 * d) (2 * d + 1))) ms)
        (s.hists n)) ∧
      s.xxVSTime = averages M (fun R => R.x ^ 2) ms ∧ s.yyVSTime = averages M (fun R => R.y ^ 2) ms ∧
      s.zzVSTime = averages M (fun R => R.z ^ 2) ms := by
  obtain ⟨g, hg, ht⟩ := fillEach_make c hc
    (ms.flatMap fun m => (List.range M).flatMap fun d => dumbbellList (m.vector (2 * d) (2 * d + 1)))
  refine ⟨_, dumbbell_run M ms hs _ g hg, fun n => ?_, by simp, by simp, by simp⟩
  have := ht n
  simp only [pick_flatMap, pick_dumbbell] at this
  unfold all
  simpa [List.flatMap_singleton', ← List.map_eq_flatMap] using this

/-! ### Rods -/

theorem foldlM_fill (h : Histogram ℝ) (l : List ℝ) : l.foldlM (fun h v => h.fill id v) h = h.fills id l := by
  induction l generalizing h with
  | nil => rfl
  | cons v l ih =>
    rw [List.foldlM_cons, Histogram.fills]
    cases h.fill id v with
    | none => rfl
    | some g => exact ih g

theorem fills_append' (h : Histogram ℝ) (l l' : List ℝ) :
    h.fills id (l ++ l') = (h.fills id l).bind fun g => g.fills id l' := by
  induction l generalizing h with
  | nil => rfl
  | cons v l ih =>
    simp only [List.cons_append, Histogram.fills]
    cases h.fill id v with
    | none => rfl
    | some g => exact ih g

theorem rods_measure (M : ℕ) (h : Histogram ℝ) (m : Shot) :
    rodsMeasure (2 * M) h m = h.fills id ((List.range M).map fun d => len (m.vector (2 * d) (2 * d + 1))) := by
  unfold rodsMeasure
  rw [show (2 * M + 1) / 2 = M by omega, ← foldlM_fill, List.foldlM_map]
  simp only [vector_eq, magnitude_eq]

theorem rods_run (M : ℕ) (ms : List Shot) (h : Histogram ℝ) :
    ms.foldlM (rodsMeasure (2 * M)) h = h.fills id (all M (fun m d => len (m.vector (2 * d) (2 * d + 1))) ms) := by
  induction ms generalizing h with
  | nil => rfl
  | cons m ms ih =>
    rw [List.foldlM_cons, rods_measure]
    unfold all
    rw [List.flatMap_cons, fills_append']
    cases h.fills id ((List.range M).map fun d => len (m.vector (2 * d) (2 * d + 1))) with
    | none => rfl
    | some g => exact ih g

/-- C104, rods: the histogram holds the length of each rod in each measurement. -/
theorem C104_rods (M : ℕ) (c : Setting) (hc : 0 < c.binCount) (ms : List Shot) :
    ∃ h, ms.foldlM (rodsMeasure (2 * M)) c.make = some h ∧
      Tallies c.low c.high c.binCount (all M (fun m d => len (m.vector (2 * d) (2 * d + 1))) ms) h := by
  obtain ⟨h, h1, h2, h3, h4, h5, h6, h7, h8, h9⟩ :=
    C24 c.low c.high c.binCount hc (all M (fun m d => len (m.vector (2 * d) (2 * d + 1))) ms)
  exact ⟨h, by rw [rods_run]; exact h1, h2, h3, h4, h5, h6⟩

/-! ### Trimers -/

/-- The values for a trimer. -/
noncomputable def trimerList (R1 R2 : Vec3 ℝ) : List (TrimerHistogram × ℝ) :=
  [((.first, .length), R1.cppMagnitude), ((.second, .length), R2.cppMagnitude),
    ((.first, .lengthSquared), R1.cppMagnitudeSquared), ((.second, .lengthSquared), R2.cppMagnitudeSquared),
    ((.first, .xx), R1.x * R1.x), ((.second, .xx), R2.x * R2.x),
    ((.first, .yy), R1.y * R1.y), ((.second, .yy), R2.y * R2.y),
    ((.first, .zz), R1.z * R1.z), ((.second, .zz), R2.z * R2.z),
    ((.first, .xy), R1.x * R1.y), ((.second, .xy), R1.x * R2.y),
    ((.first, .xyAngle), flowAngle ⟨R1.x, R1.y, 0⟩), ((.second, .xyAngle), flowAngle ⟨R2.x, R2.y, 0⟩)]

theorem trimerFills_eq {R1 R2 : Vec3 ℝ} (h1 : Slanted R1) (h2 : Slanted R2) :
    trimerFills R1 R2 = some (trimerList R1 R2) := by
  unfold trimerFills
  rw [getAngle_eq (R := ⟨R1.x, R1.y, 0⟩) h1, getAngle_eq (R := ⟨R2.x, R2.y, 0⟩) h2]
  rfl

theorem pick_trimer (m : Shot) (t : ℕ) (b : Bond) (k : TrimerKind) (hk : (b, k) ≠ (.second, .xy)) :
    pick (b, k) (trimerList (Bond.first.vector m t) (Bond.second.vector m t)) = [k.of (b.vector m t)] := by
  cases b <;> cases k <;>
    first
    | exact absurd rfl hk
    | simp [pick, trimerList, TrimerKind.of, magnitude_eq, magnitudeSquared_eq, len_sq, ← sq]

theorem pick_trimer_xy (m : Shot) (t : ℕ) :
    pick (.second, .xy) (trimerList (Bond.first.vector m t) (Bond.second.vector m t)) =
      [(Bond.first.vector m t).x * (Bond.second.vector m t).y] := by
  simp [pick, trimerList]

/-- The values for a measurement. -/
noncomputable def trimersList (M : ℕ) (m : Shot) : List (TrimerHistogram × ℝ) :=
  (List.range M).flatMap fun t => trimerList (Bond.first.vector m t) (Bond.second.vector m t)

theorem trimer_loop (m : Shot) (l : List ℕ) (hs : ∀ t ∈ l, ∀ b : Bond, Slanted (b.vector m t))
    (h : TrimerHistogram → Histogram ℝ) :
    l.foldlM (fun h i =>
      (trimerFills (m.pos (3 * i + 1) - m.pos (3 * i)) (m.pos (3 * i + 2) - m.pos (3 * i + 1))).bind (fillEach h)) h =
      fillEach h (l.flatMap fun t => trimerList (Bond.first.vector m t) (Bond.second.vector m t)) := by
  induction l generalizing h with
  | nil => rfl
  | cons t l ih =>
    rw [List.foldlM_cons, List.flatMap_cons, fillEach_append]
    have e : trimerFills (m.pos (3 * t + 1) - m.pos (3 * t)) (m.pos (3 * t + 2) - m.pos (3 * t + 1)) =
        some (trimerList (Bond.first.vector m t) (Bond.second.vector m t)) :=
      trimerFills_eq (hs t (by simp) .first) (hs t (by simp) .second)
    rw [e]
    simp only [Option.bind_some]
    cases fillEach h (trimerList (Bond.first.vector m t) (Bond.second.vector m t)) with
    | none => rfl
    | some g => exact ih (fun t ht => hs t (by simp [ht])) g

theorem trimer_run (M : ℕ) (ms : List Shot) (hs : ∀ m ∈ ms, ∀ t < M, ∀ b : Bond, Slanted (b.vector m t))
    (h : TrimerHistogram → Histogram ℝ) :
    ms.foldlM (trimersFill (3 * M)) h = fillEach h (ms.flatMap (trimersList M)) := by
  induction ms generalizing h with
  | nil => rfl
  | cons m ms ih =>
    rw [List.foldlM_cons, List.flatMap_cons, fillEach_append]
    have e : trimersFill (3 * M) h m = fillEach h (trimersList M m) := by
      unfold trimersFill
      rw [show (3 * M + 2) / 3 = M by omega]
      exact trimer_loop m _ (fun t ht => hs m (by simp) t (List.mem_range.mp ht)) h
    rw [e]
    cases fillEach h (trimersList M m) with
    | none => rfl
    | some g => exact ih (fun m hm => hs m (by simp [hm])) g

/-- What C104 claims of the histograms of trimers. -/
def TrimersCorrect (b : Bond) (k : TrimerKind) : Prop :=
  ∀ (M : ℕ) (c : TrimerHistogram → Setting) (_ : ∀ n, 0 < (c n).binCount) (ms : List Shot)
    (_ : ∀ m ∈ ms, ∀ t < M, ∀ b : Bond, Slanted (b.vector m t)),
    ∃ h, ms.foldlM (trimersFill (3 * M)) (fun n => (c n).make) = some h ∧
      Tallies (c (b, k)).low (c (b, k)).high (c (b, k)).binCount (all M (fun m t => k.of (b.vector m t)) ms) (h (b, k))

theorem trimers_run (M : ℕ) (c : TrimerHistogram → Setting) (hc : ∀ n, 0 < (c n).binCount) (ms : List Shot)
    (hs : ∀ m ∈ ms, ∀ t < M, ∀ b : Bond, Slanted (b.vector m t)) :
    ∃ h, ms.foldlM (trimersFill (3 * M)) (fun n => (c n).make) = some h ∧
      ∀ n, Tallies (c n).low (c n).high (c n).binCount (pick n (ms.flatMap (trimersList M))) (h n) := by
  obtain ⟨h, h1, h2⟩ := fillEach_make c hc (ms.flatMap (trimersList M))
  exact ⟨h, by rw [trimer_run M ms hs]; exact h1, h2⟩

/-- C104, trimers, except for the product of the components of the second bond: after any history of measurements, each
histogram holds its quantity for its bond of each trimer in each measurement. -/
theorem C104_trimers_partial (b : Bond) (k : TrimerKind) (hk : (b, k) ≠ (.second, .xy)) : TrimersCorrect b k := by
  intro M c hc ms hs
  obtain ⟨h, h1, h2⟩ := trimers_run M c hc ms hs
  refine ⟨h, h1, ?_⟩
  have := h2 (b, k)
  simp only [trimersList, pick_flatMap, pick_trimer _ _ b k hk] at this
  unfold all
  simpa [← List.map_eq_flatMap] using this

/-- The histogram for the product of the x and y components of the second bond holds the products of the x component of the
first bond and the y component of the second one. -/
theorem C104_trimers_xy (M : ℕ) (c : TrimerHistogram → Setting) (hc : ∀ n, 0 < (c n).binCount) (ms : List Shot)
    (hs : ∀ m ∈ ms, ∀ t < M, ∀ b : Bond, Slanted (b.vector m t)) :
    ∃ h, ms.foldlM (trimersFill (3 * M)) (fun n => (c n).make) = some h ∧
      Tallies (c (.second, .xy)).low (c (.second, .xy)).high (c (.second, .xy)).binCount
        (all M (fun m t => (Bond.first.vector m t).x * (Bond.second.vector m t).y) ms) (h (.second, .xy)) := by
  obtain ⟨h, h1, h2⟩ := trimers_run M c hc ms hs
  refine ⟨h, h1, ?_⟩
  have := h2 (.second, .xy)
  simp only [trimersList, pick_flatMap, pick_trimer_xy] at this
  unfold all
  simpa [← List.map_eq_flatMap] using this

/-- One trimer with bonds along y and along the diagonal. -/
def trimerShot : Shot := ⟨0, fun i => if i = 0 then ⟨0, 0, 0⟩ else if i = 1 then ⟨0, 1, 0⟩ else ⟨1, 2, 0⟩⟩

theorem trimerShot_slanted : ∀ m ∈ [trimerShot], ∀ t < 1, ∀ b : Bond, Slanted (b.vector m t) := by
  intro m hm t ht b
  have h0 : t = 0 := by omega
  subst h0
  rw [List.mem_singleton] at hm
  subst hm
  cases b <;> simp [Slanted, Bond.vector, Shot.vector, trimerShot]

/-- C104 is violated for the product of the x and y components of the second bond. -/
theorem C104_trimers_violated : ¬ TrimersCorrect .second .xy := by
  intro h
  obtain ⟨g, hg, ht⟩ := h 1 (fun _ => ⟨1, 2, 1⟩) (by simp) [trimerShot] trimerShot_slanted
  obtain ⟨g', hg', ht'⟩ := C104_trimers_xy 1 (fun _ => ⟨1, 2, 1⟩) (by simp) [trimerShot] trimerShot_slanted
  rw [hg] at hg'
  cases Option.some.inj hg'
  have h1 := ht.1
  have h2 := ht'.1
  rw [h1] at h2
  simp [all, TrimerKind.of, Bond.vector, Shot.vector, trimerShot, countP] at h2
  norm_num at h2

/-! ### Self-diffusion -/

/-- Centers of mass. -/
noncomputable def centers (M : ℕ) (m : Shot) : List (Vec3 ℝ) := (List.range M).map (getTrimerCenterOfMass m.pos)

theorem accumulated_eq (l : List ℕ) (f g : ℕ → Vec3 ℝ) (x : ℝ) :
    ((l.map f).zip (l.map g)).foldl (fun a p => a + (p.2 - p.1).cppMagnitudeSquared) x =
      x + (l.map fun t => len (g t - f t) ^ 2).sum := by
  induction l generalizing x with
  | nil => simp
  | cons t l ih =>
    simp only [List.map_cons, List.zip_cons_cons, List.foldl_cons, List.sum_cons]
    rw [ih, magnitudeSquared_eq, len_sq]
    ring

theorem einstein_eq (M : ℕ) (a b : Shot) :
    accumulatedSquares (centers M a) (centers M b) / (6 * (b.time - a.time) * (M : ℝ)) = einstein M a b := by
  unfold accumulatedSquares centers einstein
  rw [accumulated_eq, zero_add]
  simp only [Spec.mean, List.length_map, List.length_range, getTrimerCenterOfMass]
  rw [div_div, mul_comm (M : ℝ)]

/-- The state while a window is open. -/
noncomputable def openState (M : ℕ) (a : Shot) (points : List (ℝ × ℝ)) : Diffusion := ⟨centers M a, a.time, points⟩

theorem measure_open {T : ℝ} {M : ℕ} {a m : Shot} (ha : 0 ≤ a.time) (points : List (ℝ × ℝ)) :
    (openState M a points).measure T (3 * M) m =
      if T ≤ m.time - a.time then openState M m (points ++ [(a.time, einstein M a m)]) else openState M a points := by
  unfold Diffusion.measure
  have e : (openState M a points).start (3 * M) m = openState M a points := by
    unfold Diffusion.start
    rw [if_neg (by simpa [openState] using ha)]
  rw [e]
  unfold Diffusion.finish
  have h3 : 3 * M / 3 = M := by omega
  rw [h3]
  by_cases h : T ≤ m.time - a.time
  · rw [if_pos (by simpa [openState] using h), if_pos h]
    unfold openState
    congr 3
    exact congrArg _ (einstein_eq M a m)
  · rw [if_neg (by simpa [openState] using h), if_neg h]

theorem measure_first {T : ℝ} (hT : 0 < T) {M : ℕ} (m : Shot) :
    Diffusion.init.measure T (3 * M) m = openState M m [] := by
  unfold Diffusion.measure
  have e : Diffusion.init.start (3 * M) m = openState M m [] := by
    unfold Diffusion.start
    rw [if_pos (by norm_num [Diffusion.init])]
    simp [openState, Diffusion.init, centers, show 3 * M / 3 = M by omega]
  rw [e]
  unfold Diffusion.finish
  rw [if_neg (by simpa [openState] using hT)]

theorem run_open {T : ℝ} {M : ℕ} (ms : List Shot) (hp : ∀ m ∈ ms, 0 ≤ m.time) (a : Shot) (ha : 0 ≤ a.time)
    (points : List (ℝ × ℝ)) :
    ∃ w, Windows T a ms w ∧ (ms.foldl (Diffusion.measure T (3 * M)) (openState M a points)).points =
      points ++ w.map fun p => (p.1.time, einstein M p.1 p.2) := by
  induction ms generalizing a points with
  | nil => exact ⟨[], .last (by simp), by simp [openState]⟩
  | cons m ms ih =>
    rw [List.foldl_cons, measure_open ha]
    by_cases h : T ≤ m.time - a.time
    · rw [if_pos h]
      obtain ⟨w, hw, hpts⟩ := ih (fun m' hm => hp m' (by simp [hm])) m (hp m (by simp)) (points ++ [(a.time, einstein M a m)])
      exact ⟨(a, m) :: w, .window (before := []) (by simp) h hw, by rw [hpts]; simp⟩
    · rw [if_neg h]
      obtain ⟨w, hw, hpts⟩ := ih (fun m' hm => hp m' (by simp [hm])) a ha points
      refine ⟨w, ?_, hpts⟩
      cases hw with
      | last h' =>
        exact .last (by
          intro m' hm
          rcases List.mem_cons.mp hm with rfl | hm
          · linarith
          · exact h' m' hm)
      | window hb hd rest =>
        refine .window (before := m :: _) ?_ hd rest
        intro m' hm
        rcases List.mem_cons.mp hm with rfl | hm
        · linarith
        · exact hb m' hm

/-- Windows for given measurements are unique. -/
theorem Windows.unique {T : ℝ} {a : Shot} {ms : List Shot} {w w' : List (Shot × Shot)} (h : Windows T a ms w)
    (h' : Windows T a ms w') : w = w' := by
  induction h generalizing w' with
  | @last a ms h =>
    cases h' with
    | last _ => rfl
    | @window _ b _ _ _ _ hd _ => exact absurd (h b (by simp)) (by linarith)
  | @window a b before after w hb hd rest ih =>
    generalize hms : before ++ b :: after = ms at h'
    cases h' with
    | last hl => exact absurd (hl b (by rw [← hms]; simp)) (by linarith)
    | @window _ b' before' after' w'' hb' hd' rest' =>
      rcases List.append_eq_append_iff.mp hms with ⟨l, h1, h2⟩ | ⟨l, h1, h2⟩
      · cases l with
        | nil =>
          simp only [List.nil_append, List.cons.injEq] at h2
          obtain ⟨rfl, rfl⟩ := h2
          rw [ih rest']
        | cons x l =>
          simp only [List.cons_append, List.cons.injEq] at h2
          obtain ⟨rfl, _⟩ := h2
          exact absurd (hb' b (by rw [h1]; simp)) (by linarith)
      · cases l with
        | nil =>
          simp only [List.nil_append, List.cons.injEq] at h2
          obtain ⟨rfl, rfl⟩ := h2
          rw [ih rest']
        | cons x l =>
          simp only [List.cons_append, List.cons.injEq] at h2
          obtain ⟨rfl, _⟩ := h2
          exact absurd (hb b' (by rw [h1]; simp)) (by linarith)

/-- C104, self-diffusion: after any history of measurements, at times that are not negative and with a positive measurement
time, there is a point for each of the consecutive windows of at least the measurement time; it has the time at which the
window starts, and the mean square displacement of the centers of mass of the trimers during the window, divided by six times
its duration. -/
theorem C104_diffusion (T : ℝ) (hT : 0 < T) (M : ℕ) (a : Shot) (ms : List Shot) (hp : ∀ m ∈ a :: ms, 0 ≤ m.time) :
    ∃ w, Windows T a ms w ∧ ((a :: ms).foldl (Diffusion.measure T (3 * M)) Diffusion.init).points =
      w.map fun p => (p.1.time, einstein M p.1 p.2) := by
  rw [List.foldl_cons, measure_first hT]
  obtain ⟨w, hw, h⟩ := run_open (T := T) (M := M) ms (fun m hm => hp m (by simp [hm])) a (hp a (by simp)) []
  exact ⟨w, hw, by simpa using h⟩

/-- Without a positive measurement time, the first measurement already adds a point, for a window of no duration: the code
divides by zero there. -/
theorem C104_diffusion_violated (T : ℝ) (hT : T ≤ 0) (M : ℕ) (a : Shot) :
    ∃ y, (Diffusion.init.measure T (3 * M) a).points = [(a.time, y / (6 * (a.time - a.time) * (M : ℝ)))] := by
  unfold Diffusion.measure
  have e : Diffusion.init.start (3 * M) a = openState M a [] := by
    unfold Diffusion.start
    rw [if_pos (by norm_num [Diffusion.init])]
    simp [openState, Diffusion.init, centers, show 3 * M / 3 = M by omega]
  rw [e]
  unfold Diffusion.finish
  rw [if_pos (by simpa [openState] using hT)]
  exact ⟨_, by simp only [openState, show 3 * M / 3 = M by omega, List.nil_append]; rfl⟩

/-! ### Chains -/

/-- The squares of the lengths of the `p`-th bonds of all chains, in all measurements. -/
noncomputable def bondSquares (C L p : ℕ) (ms : List Shot) : List ℝ :=
  all C (fun m chain => len (m.vector (chain * L + p) (chain * L + (p + 1))) ^ 2) ms

theorem inner_loop {d : Type} (l : List ℕ) (hl : l.Nodup) (f : ℕ → d → d) (s : List d) :
    (l.foldl (fun s p => s.modify p (f p)) s).length = s.length ∧
    ∀ p, (l.foldl (fun s p => s.modify p (f p)) s)[p]? = if p ∈ l then s[p]?.map (f p) else s[p]? := by
  induction l generalizing s with
  | nil => simp
  | cons q l ih =>
    rw [List.nodup_cons] at hl
    obtain ⟨h1, h2⟩ := ih hl.2 (s.modify q (f q))
    rw [List.foldl_cons]
    refine ⟨by rw [h1]; simp, fun p => ?_⟩
    rw [h2, List.getElem?_modify]
    by_cases hp : p = q
    · subst hp
      simp [hl.1]
    · simp [hp, Ne.symm hp]

theorem chains_step (C L : ℕ) (m : Shot) (s : List (DDDA.CppDDDA ℝ)) (hs : s.length = L - 1) :
    (chainsMeasure C L s m).length = L - 1 ∧
    ∀ p, (chainsMeasure C L s m)[p]? = s[p]?.map fun d => ((bondSquares C L p [m]).foldl DDDA.cppAddDatum d) := by
  unfold chainsMeasure
  have e : ∀ p, bondSquares C L p [m] = (List.range C).map fun chain =>
      (m.pos (chain * L + p) - m.pos (chain * L + p + 1)).cppMagnitudeSquared := by
    intro p
    unfold bondSquares all
    simp only [List.flatMap_cons, List.flatMap_nil, List.append_nil]
    apply List.map_congr_left
    intro c _
    rw [len_sq, magnitudeSquared_eq]
    simp only [Shot.vector, Vec3.sub_x, Vec3.sub_y, Vec3.sub_z, add_assoc]
    ring
  simp only [e]
  clear e
  generalize List.range C = l
  induction l generalizing s with
  | nil => simp [hs]
  | cons c l ih =>
    obtain ⟨h1, h2⟩ := inner_loop (List.range (L - 1)) List.nodup_range
      (fun p d => DDDA.cppAddDatum d (m.pos (c * L + p) - m.pos (c * L + p + 1)).cppMagnitudeSquared) s
    obtain ⟨h3, h4⟩ := ih _ (h1.trans hs)
    rw [List.foldl_cons]
    refine ⟨h3, fun p => ?_⟩
    rw [h4, h2]
    by_cases hp : p ∈ List.range (L - 1)
    · rw [if_pos hp, Option.map_map]; rfl
    · rw [if_neg hp]
      have : s[p]? = none := List.getElem?_eq_none (by rw [hs]; simpa using hp)
      rw [this]; rfl

theorem chains_run (C L : ℕ) (ms : List Shot) (s : List (DDDA.CppDDDA ℝ)) (hs : s.length = L - 1) :
    (ms.foldl (chainsMeasure C L) s).length = L - 1 ∧
    ∀ p, (ms.foldl (chainsMeasure C L) s)[p]? = s[p]?.map fun d => ((bondSquares C L p ms).foldl DDDA.cppAddDatum d) := by
  induction ms generalizing s with
  | nil => simp [hs, bondSquares, all]
  | cons m ms ih =>
    obtain ⟨h1, h2⟩ := chains_step C L m s hs
    obtain ⟨h3, h4⟩ := ih _ h1
    rw [List.foldl_cons]
    refine ⟨h3, fun p => ?_⟩
    rw [h4, h2, Option.map_map]
    congr 1
    funext d
    simp [bondSquares, all, List.foldl_append]

/-- C104, chains: after any history of measurements, there are as many statistics as bonds in a chain, and each one has
been given the squares of the lengths of its bond in all chains and measurements. -/
theorem C104_chains (C L : ℕ) (ms : List Shot) :
    (ms.foldl (chainsMeasure C L) (chainsInit L)).length = L - 1 ∧
    ∀ p < L - 1, (ms.foldl (chainsMeasure C L) (chainsInit L))[p]? =
      some ((bondSquares C L p ms).foldl DDDA.cppAddDatum DDDA.cppInit) := by
  obtain ⟨h1, h2⟩ := chains_run C L ms (chainsInit L) (by simp [chainsInit])
  refine ⟨h1, fun p hp => ?_⟩
  rw [h2]
  simp [chainsInit, hp]

theorem cpp_first (l : List ℝ) :
    ∃ w rest, l.foldl DDDA.cppAddDatum DDDA.cppInit = (cppFeed l, w) :: rest := by
  have h : ∀ (l : List ℝ) (b : CppOTFS ℝ) (w : Option ℝ) (rest : DDDA.CppDDDA ℝ),
      ∃ w' rest', l.foldl DDDA.cppAddDatum ((b, w) :: rest) = (l.foldl CppOTFS.addDatum b, w') :: rest' := by
    intro l
    induction l with
    | nil => exact fun b w rest => ⟨w, rest, rfl⟩
    | cons x l ih =>
      intro b w rest
      rw [List.foldl_cons, List.foldl_cons]
      cases w with
      | none => exact ih (b.addDatum x) (some x) rest
      | some w => exact ih (b.addDatum x) none (DDDA.cppPushFrom ((x + w) / 2) rest)
  exact h l _ _ _

theorem cpp_size (l : List ℝ) : (cppFeed l).getSampleSize = l.length := (C04_cpp_statistics l).1

theorem chainRow_eq (p : ℕ) (l : List ℝ) : chainRow p (l.foldl DDDA.cppAddDatum DDDA.cppInit) =
    if l.length < 2 then none else some ⟨p, Spec.mean l, l.length, Real.sqrt (Spec.variance l)⟩ := by
  obtain ⟨w, rest, h⟩ := cpp_first l
  rw [h]
  unfold chainRow
  simp only [cpp_size, FlowFile.cpp_mean, FlowFile.cpp_variance]

theorem all_length (M : ℕ) (f : Shot → ℕ → ℝ) (ms : List Shot) : (all M f ms).length = ms.length * M := by
  induction ms with
  | nil => simp [all]
  | cons m ms ih =>
    have : all M f (m :: ms) = (List.range M).map (f m) ++ all M f ms := rfl
    rw [this, List.length_append, ih, List.length_map, List.length_range, List.length_cons]
    ring

/-- The statistics after a history of measurements. -/
theorem chains_eq (C L : ℕ) (ms : List Shot) :
    ms.foldl (chainsMeasure C L) (chainsInit L) =
      (List.range (L - 1)).map fun p => (bondSquares C L p ms).foldl DDDA.cppAddDatum DDDA.cppInit := by
  obtain ⟨h1, h2⟩ := C104_chains C L ms
  apply List.ext_getElem?
  intro p
  by_cases hp : p < L - 1
  · rw [h2 p hp]; simp [hp]
  · rw [List.getElem?_eq_none (by omega), List.getElem?_eq_none (by simp; omega)]

theorem mapM_some {α β : Type} (l : List α) (f : α → Option β) (g : α → β) (h : ∀ a ∈ l, f a = some (g a)) :
    l.mapM f = some (l.map g) := by
  induction l with
  | nil => rfl
  | cons a l ih =>
    rw [List.mapM_cons, h a (by simp), ih fun b hb => h b (by simp [hb])]
    rfl

theorem zipIdx_map_range {α : Type} (n : ℕ) (f : ℕ → α) :
    ((List.range n).map f).zipIdx = (List.range n).map fun i => (f i, i) := by
  apply List.ext_getElem?
  intro i
  by_cases hi : i < n <;> simp [hi]

/-- C104, saved data of chains: if there have been at least two data for each bond, there is a line for each bond, in order,
with the mean of the squares of the lengths of that bond in all chains and measurements, their number, and the square root of
their sample variance. -/
theorem C104_chains_saved (C L : ℕ) (ms : List Shot) (h : 2 ≤ ms.length * C) :
    chainsSave (ms.foldl (chainsMeasure C L) (chainsInit L)) = some ((List.range (L - 1)).map fun p =>
      ⟨p, Spec.mean (bondSquares C L p ms), ms.length * C, Real.sqrt (Spec.variance (bondSquares C L p ms))⟩) := by
  unfold chainsSave
  rw [chains_eq, zipIdx_map_range]
  have := mapM_some ((List.range (L - 1)).map fun i => ((bondSquares C L i ms).foldl DDDA.cppAddDatum DDDA.cppInit, i))
    (fun p => chainRow p.2 p.1)
    (fun p => ⟨p.2, Spec.mean (bondSquares C L p.2 ms), ms.length * C, Real.sqrt (Spec.variance (bondSquares C L p.2 ms))⟩)
    (by
      intro a ha
      obtain ⟨i, _, rfl⟩ := List.mem_map.mp ha
      have hl : (bondSquares C L i ms).length = ms.length * C := all_length _ _ _
      simp only [chainRow_eq, hl]
      rw [if_neg (by omega)])
  rw [this, List.map_map]
  rfl

/-- Otherwise, as when there is a single chain and one measurement, or when the simulation is told to save its data before
the first measurement, saving throws an exception. -/
theorem C104_chains_saved_violated (C L : ℕ) (hL : 2 ≤ L) (ms : List Shot) (h : ms.length * C < 2) :
    chainsSave (ms.foldl (chainsMeasure C L) (chainsInit L)) = none := by
  unfold chainsSave
  rw [chains_eq, zipIdx_map_range]
  obtain ⟨k, hk⟩ : ∃ k, L - 1 = k + 1 := ⟨L - 2, by omega⟩
  have hl : (bondSquares C L 0 ms).length = ms.length * C := all_length _ _ _
  rw [hk, List.range_succ_eq_map, List.map_cons, List.mapM_cons]
  simp only [chainRow_eq, hl]
  rw [if_pos h]
  rfl

/-! ### Examples -/

/-- A dumbbell that lies along the z direction leads to undefined behaviour. -/
example (c : DumbbellHistogram → Setting) :
    Dumbbells.measure 2 ⟨fun n => (c n).make, [], [], []⟩ ⟨0, fun i => ⟨0, 0, i⟩⟩ = none := by
  have h : getAngle ⟨0, 0, 0⟩ flowDirection = none := by
    unfold getAngle
    rw [if_pos (by simp [magnitude_eq, len])]
  have h2 : dumbbellFills ((⟨0, 0, 1⟩ : Vec3 ℝ) - ⟨0, 0, 0⟩) = none := by
    unfold dumbbellFills
    simp only [Vec3.sub_x, Vec3.sub_y, sub_zero, h]
    cases getAngle ((⟨0, 0, 1⟩ : Vec3 ℝ) - ⟨0, 0, 0⟩) flowDirection <;> rfl
  unfold Dumbbells.measure
  simp [List.range_succ, dumbbellStep, h2]

/-- Two dumbbells. -/
example : ∃ s, [(⟨0, fun i => ⟨i, i * i, 0⟩⟩ : Shot)].foldlM (Dumbbells.measure (2 * 2))
      ⟨fun n => ((fun _ => ⟨0, 1, 10⟩ : DumbbellHistogram → Setting) n).make, [], [], []⟩ = some s ∧
    s.yyVSTime = [(0, 13)] := by
  obtain ⟨s, h1, _, _, h4, _⟩ := C104_dumbbells 2 (fun _ => ⟨0, 1, 10⟩) (by simp) [⟨0, fun i => ⟨i, i * i, 0⟩⟩] (by
    intro m hm d _
    rw [List.mem_singleton] at hm
    subst hm
    left
    simp [Shot.vector])
  refine ⟨s, h1, ?_⟩
  rw [h4]
  simp [averages, List.range_succ, Spec.mean, Shot.vector]
  norm_num

/-- A trimer that moves by two along x every second; the window of at least three seconds ends with the third measurement. -/
example : ∃ w, Windows 3 ⟨0, fun _ => ⟨0, 0, 0⟩⟩ [⟨2, fun _ => ⟨4, 0, 0⟩⟩, ⟨4, fun _ => ⟨8, 0, 0⟩⟩] w ∧
    w.map (fun p => (p.1.time, einstein 1 p.1 p.2)) = [(0, 8 / 3)] := by
  refine ⟨[(⟨0, fun _ => ⟨0, 0, 0⟩⟩, ⟨4, fun _ => ⟨8, 0, 0⟩⟩)],
    .window (before := [⟨2, fun _ => ⟨4, 0, 0⟩⟩]) (by norm_num) (by norm_num) (.last (by simp)), ?_⟩
  simp [einstein, Spec.mean, len_sq]
  norm_num

end OpenMPCD.Fluid.Bonds
