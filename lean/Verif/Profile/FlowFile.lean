import Verif.Profile.Flow
import Verif.Analysis.Text
import Mathlib.Analysis.Real.Sqrt

/-!
# C88: flow profiles, from the simulation through the file to the analysis
(`src/OpenMPCD/FlowProfile.cpp`, `Analysis/MPCDAnalysis/FlowProfile.py`)
-/

set_option linter.unusedSectionVars false
set_option linter.unusedSimpArgs false

namespace OpenMPCD.Profile.FlowFile

open OpenMPCD.Stats
open Runs (Str natStr)
open Snapshot (Io Token words natStr_token)
open Analysis (Rounds pyInt pyLines tabLine)

variable {K : Type} [Field K] [LinearOrder K] [IsStrictOrderedRing K]

/-! ## Model: the file -/

/-- The first line of the file, without a line end (`src/OpenMPCD/FlowProfile.cpp:84-87`). -/
irreducible_def header : Str :=
  "#x\ty\tz\tmeanVelX\tmeanVelY\tmeanVelZ\tstdDevVelX\tstdDevVelY\tstdDevVelZ\tsampleSize".toList

/-- The points of a block, in the order they are written (`src/OpenMPCD/FlowProfile.cpp:120-125`). -/
def grid (shape : Point) : List Point :=
  (List.range shape.1).flatMap fun x => (List.range shape.2.1).flatMap fun y =>
    (List.range shape.2.2).map fun z => (x, y, z)

/-- What is written for one point (`src/OpenMPCD/FlowProfile.cpp:130-151`): `sub` are the subdivisions. The debug
assertions at lines 153 to 160 hold by C25. -/
noncomputable def rowText (io : Io ℝ) (sub : Point) (b : Block ℝ) (p : Point) : Str :=
  tabLine (io.fmt ((p.1 : ℝ) / sub.1))
    [io.fmt ((p.2.1 : ℝ) / sub.2.1), io.fmt ((p.2.2 : ℝ) / sub.2.2),
      io.fmt (b p).x.getSampleMean, io.fmt (b p).y.getSampleMean, io.fmt (b p).z.getSampleMean,
      io.fmt (√(b p).x.getSampleVariance), io.fmt (√(b p).y.getSampleVariance), io.fmt (√(b p).z.getSampleVariance),
      natStr (b p).x.getSampleSize]

/-- `printOutputBlockToStream` (`src/OpenMPCD/FlowProfile.cpp:115-163`). -/
noncomputable def blockText (io : Io ℝ) (sub : Point) (shape : Point) (b : Block ℝ) : Str :=
  (grid shape).flatMap (rowText io sub b)

/-- The text written by `saveToFile` (`src/OpenMPCD/FlowProfile.cpp:75-94`). -/
noncomputable def saveToFile (io : Io ℝ) (sub : Point) (f : FlowProfile ℝ) : Str :=
  header ++ f.outputBlocks.flatMap fun b => '\n' :: blockText io sub f.shape b

/-! ## Model: the analysis -/

/-- The coordinates of a point, as read. -/
abbrev Slice := ℤ × ℤ × ℤ

/-- A dictionary of triples of statistics. The dictionaries of `_points` are nested (first `x`, then `y`, then `z`);
here there is one. That changes nothing but the order in which iterating yields the points, which is why the functions
that iterate over all points take the order as an argument. -/
abbrev Dict (κ K : Type) := List (κ × Vec3 (OTFS K))

section
variable {κ : Type} [DecidableEq κ]

/-- Merging component by component (`Analysis/MPCDAnalysis/FlowProfile.py:176-178,445-447`). -/
def mergeV (s t : Vec3 (OTFS K)) : Except PyErr (Vec3 (OTFS K)) := do
  let x ← s.x.mergeSample t.x
  let y ← s.y.mergeSample t.y
  let z ← s.z.mergeSample t.z
  .ok ⟨x, y, z⟩

/-- Three objects without data. -/
def freshV : Vec3 (OTFS K) := ⟨fresh, fresh, fresh⟩

/-- Merging into the entry of a dictionary, which is made if there is none
(`Analysis/MPCDAnalysis/FlowProfile.py:167-178,427-447`). -/
def mergeInto (key : κ) (sample : Vec3 (OTFS K)) : Dict κ K → Except PyErr (Dict κ K)
  | [] => (mergeV freshV sample).map fun v => [(key, v)]
  | (k, v) :: rest =>
    if k = key then (mergeV v sample).map fun v' => (k, v') :: rest
    else (mergeInto key sample rest).map fun rest' => (k, v) :: rest'

end

/-- The columns of a line, converted (`Analysis/MPCDAnalysis/FlowProfile.py:56-60,427,438-443`): the point, and the
sample to merge. Simplification: a negative sample size is rejected (in the code it is not). -/
def parseRow (io : Io K) (columns : List Str) : Except PyErr (Slice × Vec3 (OTFS K)) :=
  match (columns.take 3).mapM pyInt, ((columns.drop 3).take 3).mapM io.parse,
    ((columns.drop 6).take 3).mapM io.parse with
  | some slice, some mean, some sd =>
    match columns[9]? with
    | none => .error .indexError
    | some t =>
      match pyInt t, slice, mean, sd with
      | some (.ofNat n), [x, y, z], [mx, my, mz], [sx, sy, sz] => do
        let tx ← construct (some mx) (some (sx ^ 2)) (some n)
        let ty ← construct (some my) (some (sy ^ 2)) (some n)
        let tz ← construct (some mz) (some (sz ^ 2)) (some n)
        .ok ((x, y, z), ⟨tx, ty, tz⟩)
      | _, _, _, _ => .error .valueError
  | _, _, _ => .error .valueError

/-- What the instance has collected: `_points` and `_outputBlocks` (`Analysis/MPCDAnalysis/FlowProfile.py:15-16`). -/
structure Collected (K : Type) where
  points : Dict Slice K
  outputBlocks : List (Dict Slice K)

/-- The body of the loop of `addRun` (`Analysis/MPCDAnalysis/FlowProfile.py:48-62`), for a line without its line
end. -/
def addLine (io : Io K) (c : Collected K) (line : Str) : Except PyErr (Collected K) :=
  if line.head? = some '#' then .ok c
  else if line = [] then .ok ⟨[], c.outputBlocks ++ [c.points]⟩
  else do
    let (p, sample) ← parseRow io (words line)
    let points ← mergeInto p sample c.points
    .ok ⟨points, c.outputBlocks⟩

/-- The loop of `addRun` (`Analysis/MPCDAnalysis/FlowProfile.py:47-62`): what has been collected when it ends, and
what is raised. -/
def addLines (io : Io K) (c : Collected K) : List Str → Collected K × Except PyErr Unit
  | [] => (c, .ok ())
  | line :: lines =>
    match addLine io c line with
    | .error e => (c, .error e)
    | .ok c' => addLines io c' lines

/-- The Python version: the tests are run with both (`.gitlab-ci.yml:12-13`). -/
inductive Version
  | two | three
  deriving DecidableEq

/-- The settings used (`Analysis/MPCDAnalysis/FlowProfile.py:374-388`): the subdivision along `y`, the shear rate, the
size of the box. -/
structure Config (K : Type) where
  subdivision : Option ℕ
  shearRate : Option K
  box : ℕ × ℕ × ℕ

/-- A run directory: configuration, `flowProfile.data.bz2` (decompressed), `flowProfile.data`. -/
structure Rundir (K : Type) where
  config : Config K
  bz2 : Option Str
  plain : Option Str

/-- An instance (`Analysis/MPCDAnalysis/FlowProfile.py:6-18,374-388`). -/
structure PyFlow (K : Type) where
  linearSubdivisions : ℕ
  shearRate : K
  box : ℕ × ℕ × ℕ
  collected : Collected K

/-- `_setConfigOrCheckCompatibility` of an instance that has a configuration
(`Analysis/MPCDAnalysis/FlowProfile.py:392-408`). -/
def compatible (f : PyFlow K) (c : Config K) : Bool :=
  f.linearSubdivisions = c.subdivision.getD 1 ∧ f.shearRate = c.shearRate.getD 0 ∧ f.box.2.1 = c.box.2.1

/-- `addRun` (`Analysis/MPCDAnalysis/FlowProfile.py:21-66`). In Python 3, iterating over a `BZ2File` gives `bytes`, none
of the comparisons with texts holds, and `int` of the first column of the header raises `ValueError`. -/
def addRun (io : Io K) (version : Version) (f : PyFlow K) (r : Rundir K) : PyFlow K × Except PyErr Unit :=
  if f.collected.outputBlocks ≠ [] then (f, .error .exception)
  else if ¬ compatible f r.config then (f, .error .exception)
  else
    match r.bz2, r.plain with
    | none, none => (f, .error .exception)
    | some text, _ =>
      if version = .three ∧ text ≠ [] then (f, .error .valueError)
      else finish f (addLines io f.collected (pyLines text))
    | none, some text => finish f (addLines io f.collected (pyLines text))
where
  /-- After the loop (`Analysis/MPCDAnalysis/FlowProfile.py:64-66`). -/
  finish (f : PyFlow K) : Collected K × Except PyErr Unit → PyFlow K × Except PyErr Unit
    | (c, .error e) => ({ f with collected := c }, .error e)
    | (c, .ok _) =>
      if c.outputBlocks ≠ [] then ({ f with collected := ⟨[], c.outputBlocks ++ [c.points]⟩ }, .ok ())
      else ({ f with collected := c }, .ok ())

/-- The constructor (`Analysis/MPCDAnalysis/FlowProfile.py:6-18,353-390`). -/
def construct (io : Io K) (version : Version) (r : Rundir K) : Except PyErr (PyFlow K) :=
  match addRun io version ⟨r.config.subdivision.getD 1, r.config.shearRate.getD 0, r.config.box, ⟨[], []⟩⟩ r with
  | (_, .error e) => .error e
  | (f, .ok _) => .ok f

/-- A call of `addRun` after which, if it raises, nothing is done any more. -/
def addRunOk (io : Io K) (version : Version) (f : PyFlow K) (r : Rundir K) : Except PyErr (PyFlow K) :=
  match addRun io version f r with
  | (_, .error e) => .error e
  | (f', .ok _) => .ok f'

/-- An instance made from one run directory to which others are added. -/
def analyse (io : Io K) (version : Version) (r : Rundir K) (rs : List (Rundir K)) : Except PyErr (PyFlow K) := do
  let f ← construct io version r
  rs.foldlM (addRunOk io version) f

/-- The coordinate of a layer (`Analysis/MPCDAnalysis/FlowProfile.py:164-166,251-253`). -/
def yCoord (subdivisions : ℕ) (shift : Bool) (y : ℤ) : K :=
  (y : K) / subdivisions + if shift then 1 / 2 / (subdivisions : K) else 0

/-- `getFlowProfileAsFunctionOfY` (`Analysis/MPCDAnalysis/FlowProfile.py:141-180`), when iterating over the points
yields them in the order given. -/
def getFlowProfileAsFunctionOfY (f : PyFlow K) (order : Dict Slice K) (shift : Bool) : Except PyErr (Dict K K) :=
  order.foldlM (fun ret e => mergeInto (yCoord f.linearSubdivisions shift e.1.2.1) e.2 ret) []

/-- `getGlobalFlowStatistics` (`Analysis/MPCDAnalysis/FlowProfile.py:183-200`), when iterating over the points yields
them in the order given. -/
def getGlobalFlowStatistics (order : Dict Slice K) : Except PyErr (Vec3 (OTFS K)) :=
  order.foldlM (fun ret e => mergeV ret e.2) freshV

/-- `getAnalyticShearFlowProfileAsFunctionOfY` (`Analysis/MPCDAnalysis/FlowProfile.py:204-258`) with the configured
shear rate, which is a `float`: the entries in the order they are made. -/
def getAnalyticShearFlowProfileAsFunctionOfY (f : PyFlow K) (shift : Bool) : List (K × K) :=
  (List.range (f.box.2.1 * f.linearSubdivisions)).map fun i : ℕ =>
    (yCoord f.linearSubdivisions shift i, (yCoord f.linearSubdivisions shift i - 1 / 2 * (f.box.2.1 : K)) * f.shearRate)

/-! ## Specification -/

/-- All velocities that were added at a point. -/
def measuredAt (p : Point) : List (FlowOp K) → List (Vec3 K)
  | [] => []
  | .newSweep :: ops => measuredAt p ops
  | .add q v :: ops => if q = p then v :: measuredAt p ops else measuredAt p ops

/-- The statistics reported are those of the data. -/
def Describes (s : OTFS K) (data : List K) : Prop :=
  s.getSampleSize = data.length ∧
    s.getSampleMean = (if data = [] then .error .valueError else .ok (Spec.mean data)) ∧
    s.getSampleVariance = (if data.length < 2 then .error .valueError else .ok (Spec.variance data))

/-- Data with as many values as were measured, and with the mean and the standard deviation measured, each rounded. -/
def RoundedData (rnd : ℝ → ℝ) (measured data : List ℝ) : Prop :=
  data.length = measured.length ∧ Spec.mean data = rnd (Spec.mean measured) ∧
    (2 ≤ data.length → Spec.variance data = (rnd (√(Spec.variance measured))) ^ 2)

/-- All velocities that were added at a point with some property. -/
def measured (P : Point → Prop) [DecidablePred P] : List (FlowOp K) → List (Vec3 K)
  | [] => []
  | .newSweep :: ops => measured P ops
  | .add q v :: ops => if P q then v :: measured P ops else measured P ops

/-- A run of the simulation: the setting `sweepCountPerOutput`, what happened, and the directory with the results. -/
structure Run where
  sweepCountPerOutput : ℕ
  ops : List (FlowOp ℝ)
  rundir : Rundir ℝ

/-- The file can be read: it is not compressed, or the Python version is 2. -/
def Readable (version : Version) (r : Rundir ℝ) (text : Str) : Prop :=
  (r.bz2 = none ∧ r.plain = some text) ∨ (version = .two ∧ r.bz2 = some text)

/-- The directory contains the flow profile measured in the run, in a simulation box with this many points along the
axes, the collision cells being subdivided `sub` times. -/
def Run.Saved (io : Io ℝ) (version : Version) (shape sub : Point) (r : Run) : Prop :=
  ValidHistory shape r.ops ∧
    ∃ f, (FlowProfile.make shape r.sweepCountPerOutput).run r.ops = some f ∧
      Readable version r.rundir (saveToFile io sub f)

/-- There was at least one sweep, and not more than fit into one output block. -/
def Run.OneBlock (r : Run) : Prop :=
  0 < sweeps r.ops ∧ (r.sweepCountPerOutput = 0 ∨ sweeps r.ops ≤ r.sweepCountPerOutput)

/-- The configuration found in the directory is that of the other runs. -/
def Run.Configured (shearRate : ℝ) (sizeY : ℕ) (r : Run) : Prop :=
  r.rundir.config.subdivision.getD 1 = 1 ∧ r.rundir.config.shearRate.getD 0 = shearRate ∧
    r.rundir.config.box.2.1 = sizeY

/-- The values of a component at these points in all runs, each set of values changed by `data`. -/
def pooled (data : List ℝ → List ℝ) (component : Vec3 ℝ → ℝ) (points : List Point) (runs : List Run) : List ℝ :=
  points.flatMap fun p => runs.flatMap fun r => data ((measuredAt p r.ops).map component)

/-- Assumptions on the conversion of numbers: `Rounds`, whole numbers are written as such (which is the case if they
have no more than 17 digits), what is written does not begin with `#`, and for a fraction it is not a whole number. -/
structure Prints (io : Io ℝ) (rnd : ℝ → ℝ) : Prop extends Rounds io rnd where
  fmt_nat : ∀ n : ℕ, n < 2 ^ 32 → io.fmt n = natStr n
  rnd_zero : rnd 0 = 0
  fmt_head : ∀ x, (io.fmt x).head? ≠ some '#'
  fmt_fraction : ∀ k : ℕ, 2 ≤ k → k < 2 ^ 32 → pyInt (io.fmt (1 / k)) = none

/-! ## Proofs -/

section
variable {κ : Type} [DecidableEq κ]

/-- The statistics of the components. -/
def feedV (d : Vec3 (List K)) : Vec3 (OTFS K) := ⟨feed d.x, feed d.y, feed d.z⟩

/-- Appending component by component. -/
def appendV (d e : Vec3 (List K)) : Vec3 (List K) := ⟨d.x ++ e.x, d.y ++ e.y, d.z ++ e.z⟩

/-- No data. -/
def emptyV : Vec3 (List K) := ⟨[], [], []⟩

theorem mergeV_feed (d e : Vec3 (List K)) : mergeV (feedV d) (feedV e) = .ok (feedV (appendV d e)) := by
  simp only [mergeV, feedV, mergeSample_feed, appendV]
  rfl

theorem freshV_eq : (freshV : Vec3 (OTFS K)) = feedV emptyV := rfl

theorem appendV_emptyV (d : Vec3 (List K)) : appendV d emptyV = d := by
  simp [appendV, emptyV]

theorem emptyV_appendV (d : Vec3 (List K)) : appendV emptyV d = d := by
  simp [appendV, emptyV]

theorem appendV_assoc (d e g : Vec3 (List K)) : appendV (appendV d e) g = appendV d (appendV e g) := by
  simp [appendV]

/-- The dictionary has these keys, and these data stand behind its values. -/
def Holds (d : Dict κ K) (keys : List κ) (data : κ → Vec3 (List K)) : Prop :=
  d = keys.map (fun k => (k, feedV (data k))) ∧ keys.Nodup ∧ ∀ k, k ∉ keys → data k = emptyV

/-- The keys after an entry has been made, if there was none. -/
def addKey (keys : List κ) (key : κ) : List κ := if key ∈ keys then keys else keys ++ [key]

theorem mergeInto_new (key : κ) (s : Vec3 (List K)) (d : Dict κ K) (h : key ∉ d.map Prod.fst) :
    mergeInto key (feedV s) d = .ok (d ++ [(key, feedV s)]) := by
  induction d with
  | nil => rw [mergeInto, freshV_eq, mergeV_feed, emptyV_appendV]; rfl
  | cons e d ih =>
    obtain ⟨k, v⟩ := e
    simp only [List.map_cons, List.mem_cons, not_or] at h
    rw [mergeInto, if_neg (Ne.symm h.1), ih h.2]
    rfl

theorem mergeInto_old (key : κ) (s : Vec3 (List K)) (keys : List κ) (data : κ → Vec3 (List K)) (h : key ∈ keys)
    (hn : keys.Nodup) :
    mergeInto key (feedV s) (keys.map fun k => (k, feedV (data k))) =
      .ok (keys.map fun k => (k, feedV (Function.update data key (appendV (data key) s) k))) := by
  induction keys with
  | nil => cases h
  | cons k keys ih =>
    rw [List.nodup_cons] at hn
    rw [List.map_cons, mergeInto]
    by_cases hk : k = key
    · subst hk
      rw [if_pos rfl, mergeV_feed, List.map_cons, Function.update_self]
      have : (keys.map fun j => (j, feedV (Function.update data k (appendV (data k) s) j))) =
          keys.map fun j => (j, feedV (data j)) := by
        refine List.map_congr_left fun j hj => ?_
        rw [Function.update_of_ne]
        rintro rfl
        exact hn.1 hj
      rw [this]
      rfl
    · rw [if_neg hk, ih ((List.mem_cons.1 h).resolve_left (Ne.symm hk)) hn.2, List.map_cons,
        Function.update_of_ne hk]
      rfl

theorem mergeInto_holds {d : Dict κ K} {keys : List κ} {data : κ → Vec3 (List K)} (h : Holds d keys data) (key : κ)
    (s : Vec3 (List K)) :
    ∃ d', mergeInto key (feedV s) d = .ok d' ∧
      Holds d' (addKey keys key) (Function.update data key (appendV (data key) s)) := by
  obtain ⟨rfl, hn, he⟩ := h
  by_cases hk : key ∈ keys
  · refine ⟨_, mergeInto_old key s keys data hk hn, ?_⟩
    rw [addKey, if_pos hk]
    refine ⟨rfl, hn, fun k hk' => ?_⟩
    rw [Function.update_of_ne (by rintro rfl; exact hk' hk), he k hk']
  · refine ⟨_, mergeInto_new key s _ (by simpa using hk), ?_⟩
    rw [addKey, if_neg hk]
    refine ⟨?_, ?_, fun k hk' => ?_⟩
    · rw [List.map_append, List.map_singleton, Function.update_self, he key hk, emptyV_appendV]
      congr 1
      refine List.map_congr_left fun k hk' => ?_
      rw [Function.update_of_ne (by rintro rfl; exact hk hk')]
    · rw [List.nodup_append]
      refine ⟨hn, by simp, ?_⟩
      rintro a ha b hb rfl
      rw [List.mem_singleton] at hb
      exact hk (hb ▸ ha)
    · rw [List.mem_append, List.mem_singleton, not_or] at hk'
      rw [Function.update_of_ne hk'.2, he k hk'.1]

/-- The data of all entries with a key. -/
def pick (entries : List (κ × Vec3 (List K))) (key : κ) : Vec3 (List K) :=
  ⟨(entries.filter fun e => e.1 = key).flatMap fun e => e.2.x,
    (entries.filter fun e => e.1 = key).flatMap fun e => e.2.y,
    (entries.filter fun e => e.1 = key).flatMap fun e => e.2.z⟩

theorem pick_cons (e : κ × Vec3 (List K)) (l : List (κ × Vec3 (List K))) (key : κ) :
    pick (e :: l) key = if e.1 = key then appendV e.2 (pick l key) else pick l key := by
  by_cases h : e.1 = key <;> simp [pick, appendV, h]

theorem mergeAll_holds {d : Dict κ K} {keys : List κ} {data : κ → Vec3 (List K)} (h : Holds d keys data)
    (l : List (κ × Vec3 (List K))) :
    ∃ d', l.foldlM (fun d e => mergeInto e.1 (feedV e.2) d) d = .ok d' ∧
      Holds d' (l.foldl (fun keys e => addKey keys e.1) keys) (fun k => appendV (data k) (pick l k)) := by
  induction l generalizing d keys data with
  | nil =>
    refine ⟨d, rfl, ?_⟩
    have : (fun k => appendV (data k) (pick [] k)) = data := funext fun k => appendV_emptyV _
    rw [this]
    exact h
  | cons e l ih =>
    obtain ⟨d1, h1, h2⟩ := mergeInto_holds h e.1 e.2
    obtain ⟨d2, h3, h4⟩ := ih h2
    refine ⟨d2, ?_, ?_⟩
    · rw [List.foldlM_cons, h1]
      exact h3
    · rw [List.foldl_cons]
      convert h4 using 2 with k
      rw [pick_cons]
      by_cases hk : e.1 = k
      · subst hk
        rw [if_pos rfl, Function.update_self, appendV_assoc]
      · rw [if_neg hk, Function.update_of_ne (Ne.symm hk)]

theorem mem_addKeys (l : List κ) (keys : List κ) (k : κ) : k ∈ l.foldl addKey keys ↔ k ∈ keys ∨ k ∈ l := by
  induction l generalizing keys with
  | nil => simp
  | cons a l ih =>
    rw [List.foldl_cons, ih, addKey]
    split
    · rename_i h
      constructor
      · rintro (h' | h')
        · exact .inl h'
        · exact .inr (by simp [h'])
      · rintro (h' | h')
        · exact .inl h'
        · rcases List.mem_cons.1 h' with rfl | h'
          · exact .inl h
          · exact .inr h'
    · simp [or_assoc]

theorem addKeys_new (l keys : List κ) (hn : l.Nodup) (hd : ∀ k ∈ l, k ∉ keys) : l.foldl addKey keys = keys ++ l := by
  induction l generalizing keys with
  | nil => simp
  | cons a l ih =>
    rw [List.nodup_cons] at hn
    rw [List.foldl_cons, addKey, if_neg (hd a (by simp)), ih _ hn.2]
    · simp
    · intro k hk hm
      rw [List.mem_append, List.mem_singleton] at hm
      rcases hm with hm | rfl
      · exact hd k (by simp [hk]) hm
      · exact hn.1 hk

theorem addKeys_old (l keys : List κ) (hd : ∀ k ∈ l, k ∈ keys) : l.foldl addKey keys = keys := by
  induction l generalizing keys with
  | nil => simp
  | cons a l ih =>
    rw [List.foldl_cons, addKey, if_pos (hd a (by simp)), ih _ fun k hk => hd k (by simp [hk])]

end

/-! ### Rounded data -/

theorem mean_nil : Spec.mean ([] : List K) = 0 := by simp [Spec.mean]

theorem variance_short (l : List K) (h : l.length < 2) : Spec.variance l = 0 := by
  match l, h with
  | [], _ => simp [Spec.variance, Spec.sumSqDev]
  | [x], _ => simp [Spec.variance, Spec.sumSqDev]

theorem cpp_mean (l : List K) : (cppFeed l).getSampleMean = Spec.mean l := by
  rw [(C04_cpp_statistics l).2.1]
  split
  · rename_i h; rw [h, mean_nil]
  · rfl

theorem cpp_variance (l : List K) : (cppFeed l).getSampleVariance = Spec.variance l := by
  rw [(C04_cpp_statistics l).2.2]
  split
  · rename_i h; rw [variance_short l h]
  · rfl

theorem exists_rounded (rnd : ℝ → ℝ) (h0 : rnd 0 = 0) (xs : List ℝ) :
    ∃ ys, RoundedData rnd xs ys ∧
      feed ys = ⟨xs.length, rnd (Spec.mean xs), rnd (√(Spec.variance xs)) ^ 2 * ((xs.length : ℝ) - 1)⟩ := by
  rcases Nat.lt_or_ge xs.length 2 with h | h
  · match xs, h with
    | [], _ =>
      refine ⟨[], ⟨rfl, by rw [mean_nil, h0], fun h => by simp at h⟩, ?_⟩
      rw [mean_nil, variance_short [] (by simp), Real.sqrt_zero, h0]
      simp [feed_eq, mean_nil, Spec.sumSqDev]
    | [x], _ =>
      have hm : ∀ x : ℝ, Spec.mean [x] = x := fun x => by simp [Spec.mean]
      refine ⟨[rnd x], ⟨rfl, by rw [hm, hm], fun h => by simp at h⟩, ?_⟩
      simp [feed_one, hm]
  · obtain ⟨n, hn⟩ : ∃ n, xs.length = n + 2 := ⟨xs.length - 2, by omega⟩
    generalize hm : rnd (Spec.mean xs) = m
    generalize hv : rnd (√(Spec.variance xs)) = v
    let d : ℝ := v * √(((n : ℝ) + 1) / 2)
    have hd : d ^ 2 = v ^ 2 * (((n : ℝ) + 1) / 2) := by
      simp only [d]
      rw [mul_pow, Real.sq_sqrt (by positivity)]
    let ys : List ℝ := (m + d) :: (m - d) :: List.replicate n m
    have hlen : ys.length = n + 2 := by simp [ys]
    have hmean : Spec.mean ys = m := by
      have : ((n : ℝ) + 1 + 1) ≠ 0 := by positivity
      simp [Spec.mean, ys]
      field_simp
      ring
    have hdev : Spec.sumSqDev ys = v ^ 2 * ((n : ℝ) + 1) := by
      unfold Spec.sumSqDev
      rw [hmean]
      simp [ys]
      rw [← two_mul, hd]
      ring
    have hn1 : ((n : ℝ) + 1) ≠ 0 := by positivity
    refine ⟨ys, ⟨by rw [hlen, hn], by rw [hmean, hm], fun _ => ?_⟩, ?_⟩
    · rw [Spec.variance, hdev, hlen, hv]
      push_cast
      rw [show (n : ℝ) + 2 - 1 = n + 1 by ring]
      field_simp
    · rw [feed_eq, hlen, hmean, hdev, hn]
      simp only [OTFS.mk.injEq, true_and]
      push_cast
      ring

/-- Data as in `RoundedData`. -/
noncomputable def rounded (rnd : ℝ → ℝ) (h0 : rnd 0 = 0) (xs : List ℝ) : List ℝ := (exists_rounded rnd h0 xs).choose

theorem rounded_spec (rnd : ℝ → ℝ) (h0 : rnd 0 = 0) (xs : List ℝ) : RoundedData rnd xs (rounded rnd h0 xs) :=
  (exists_rounded rnd h0 xs).choose_spec.1

theorem feed_rounded (rnd : ℝ → ℝ) (h0 : rnd 0 = 0) (xs : List ℝ) :
    feed (rounded rnd h0 xs) =
      ⟨xs.length, rnd (Spec.mean xs), rnd (√(Spec.variance xs)) ^ 2 * ((xs.length : ℝ) - 1)⟩ :=
  (exists_rounded rnd h0 xs).choose_spec.2

/-! ### Reading a file -/

theorem addLines_append (io : Io K) (c : Collected K) (l l' : List Str) :
    addLines io c (l ++ l') = match addLines io c l with
      | (c', .ok _) => addLines io c' l'
      | (c', .error e) => (c', .error e) := by
  induction l generalizing c with
  | nil => rfl
  | cons a l ih =>
    rw [List.cons_append, addLines, addLines]
    cases addLine io c a with
    | error e => rfl
    | ok c' => exact ih c'

/-- The columns after the first one. -/
noncomputable def restColumns (io : Io ℝ) (sub : Point) (b : Block ℝ) (p : Point) : List Str :=
  [io.fmt ((p.2.1 : ℝ) / sub.2.1), io.fmt ((p.2.2 : ℝ) / sub.2.2),
    io.fmt (b p).x.getSampleMean, io.fmt (b p).y.getSampleMean, io.fmt (b p).z.getSampleMean,
    io.fmt (√(b p).x.getSampleVariance), io.fmt (√(b p).y.getSampleVariance), io.fmt (√(b p).z.getSampleVariance),
    natStr (b p).x.getSampleSize]

/-- A line of the file, without its end. -/
noncomputable def rowLine (io : Io ℝ) (sub : Point) (b : Block ℝ) (p : Point) : Str :=
  io.fmt ((p.1 : ℝ) / sub.1) ++ (restColumns io sub b p).flatMap ('\t' :: ·)

section
variable {io : Io ℝ} {rnd : ℝ → ℝ} (hio : Prints io rnd)
include hio

theorem rest_token (sub : Point) (b : Block ℝ) (p : Point) : ∀ t ∈ restColumns io sub b p, Token t := by
  intro t ht
  simp only [restColumns, List.mem_cons, List.not_mem_nil, or_false] at ht
  rcases ht with rfl | rfl | rfl | rfl | rfl | rfl | rfl | rfl | rfl
  all_goals first | exact hio.token_fmt _ | exact natStr_token _

theorem pyLines_row (sub : Point) (b : Block ℝ) (p : Point) (r : Str) :
    pyLines (rowText io sub b p ++ r) = rowLine io sub b p :: pyLines r :=
  Analysis.pyLines_tabLine _ _ (hio.token_fmt _) (rest_token hio sub b p) r

theorem words_row (sub : Point) (b : Block ℝ) (p : Point) :
    words (rowLine io sub b p) = io.fmt ((p.1 : ℝ) / sub.1) :: restColumns io sub b p :=
  Analysis.words_tabs _ _ (hio.token_fmt _) (rest_token hio sub b p)

theorem pyLines_rows (sub : Point) (b : Block ℝ) (ps : List Point) (r : Str) :
    pyLines (ps.flatMap (rowText io sub b) ++ r) = ps.map (rowLine io sub b) ++ pyLines r := by
  induction ps with
  | nil => rfl
  | cons p ps ih =>
    rw [List.flatMap_cons, List.append_assoc, pyLines_row hio, ih]
    rfl

theorem row_ne (sub : Point) (b : Block ℝ) (p : Point) :
    rowLine io sub b p ≠ [] ∧ (rowLine io sub b p).head? ≠ some '#' := by
  have h1 := hio.token_fmt ((p.1 : ℝ) / sub.1)
  have h2 := hio.fmt_head ((p.1 : ℝ) / sub.1)
  unfold rowLine
  generalize io.fmt ((p.1 : ℝ) / sub.1) = t at h1 h2
  cases t with
  | nil => exact absurd rfl h1.1
  | cons c t => exact ⟨by simp, by simpa using h2⟩

end

theorem header_noNewline : '\n' ∉ header := by
  rw [header_def]
  decide

theorem header_head : header.head? = some '#' := by
  rw [header_def]
  decide

theorem pyLines_noNewline (t : Str) (h : '\n' ∉ t) (hne : t ≠ []) : pyLines t = [t] := by
  induction t with
  | nil => exact absurd rfl hne
  | cons c t ih =>
    have hc : c ≠ '\n' := fun e => h (by simp [e])
    rw [pyLines, if_neg hc]
    by_cases ht : t = []
    · subst ht; rfl
    · rw [ih (fun e => h (by simp [e])) ht]

/-- The lines of the blocks after the first one. -/
noncomputable def laterLines (io : Io ℝ) (sub shape : Point) (bs : List (Block ℝ)) : List Str :=
  bs.flatMap fun b => [] :: (grid shape).map (rowLine io sub b)

theorem pyLines_later {io : Io ℝ} {rnd : ℝ → ℝ} (hio : Prints io rnd) (sub shape : Point) (bs : List (Block ℝ)) :
    pyLines (bs.flatMap fun b => '\n' :: blockText io sub shape b) = laterLines io sub shape bs := by
  induction bs with
  | nil => rfl
  | cons b bs ih =>
    rw [List.flatMap_cons, List.cons_append, Analysis.pyLines_cons_newline, blockText, pyLines_rows hio, ih]
    rfl

theorem pyLines_file {io : Io ℝ} {rnd : ℝ → ℝ} (hio : Prints io rnd) (sub : Point) (f : FlowProfile ℝ) :
    pyLines (saveToFile io sub f) = match f.outputBlocks with
      | [] => [header]
      | b :: bs => header :: ((grid f.shape).map (rowLine io sub b) ++ laterLines io sub f.shape bs) := by
  have hne : header ≠ [] := fun h => by have := header_head; rw [h] at this; cases this
  unfold saveToFile
  cases f.outputBlocks with
  | nil =>
    rw [List.flatMap_nil, List.append_nil]
    exact pyLines_noNewline _ header_noNewline hne
  | cons b bs =>
    rw [List.flatMap_cons, List.cons_append, Analysis.pyLines_line _ _ header_noNewline, blockText,
      pyLines_rows hio, pyLines_later hio]

theorem grid_lt {shape p : Point} (h : p ∈ grid shape) : p.1 < shape.1 ∧ p.2.1 < shape.2.1 ∧ p.2.2 < shape.2.2 := by
  simp only [grid, List.mem_flatMap, List.mem_range, List.mem_map] at h
  obtain ⟨x, hx, y, hy, z, hz, rfl⟩ := h
  exact ⟨hx, hy, hz⟩

theorem mem_grid {shape p : Point} : p ∈ grid shape ↔ p.1 < shape.1 ∧ p.2.1 < shape.2.1 ∧ p.2.2 < shape.2.2 := by
  refine ⟨grid_lt, fun h => ?_⟩
  simp only [grid, List.mem_flatMap, List.mem_range, List.mem_map]
  exact ⟨p.1, h.1, p.2.1, h.2.1, p.2.2, h.2.2, rfl⟩

theorem grid_nodup (shape : Point) : (grid shape).Nodup := by
  unfold grid
  rw [List.nodup_flatMap]
  refine ⟨fun x _ => ?_, ?_⟩
  · rw [List.nodup_flatMap]
    refine ⟨fun y _ => ?_, ?_⟩
    · exact (List.nodup_range).map fun z z' h => by simpa using h
    · refine List.nodup_range.imp fun {y y'} hne => ?_
      rw [Function.onFun, List.disjoint_left]
      intro p hp hp'
      simp only [List.mem_map] at hp hp'
      obtain ⟨z, -, rfl⟩ := hp
      obtain ⟨z', -, h⟩ := hp'
      simp only [Prod.mk.injEq, true_and] at h
      exact hne h.1.symm
  · refine List.nodup_range.imp fun {x x'} hne => ?_
    rw [Function.onFun, List.disjoint_left]
    intro p hp hp'
    simp only [List.mem_flatMap, List.mem_map] at hp hp'
    obtain ⟨y, -, z, -, rfl⟩ := hp
    obtain ⟨y', -, z', -, h⟩ := hp'
    simp only [Prod.mk.injEq] at h
    exact hne h.1.symm

/-- A point, as read. -/
def sliceOf (p : Point) : Slice := (p.1, p.2.1, p.2.2)

theorem sliceOf_inj : Function.Injective sliceOf := by
  rintro ⟨x, y, z⟩ ⟨x', y', z'⟩ h
  simpa [sliceOf] using h

section
variable {io : Io ℝ} {rnd : ℝ → ℝ} (hio : Prints io rnd)

/-- The data behind what is read for a point. -/
noncomputable def roundedV (l : List (Vec3 ℝ)) : Vec3 (List ℝ) :=
  ⟨rounded rnd hio.rnd_zero (l.map Vec3.x), rounded rnd hio.rnd_zero (l.map Vec3.y),
    rounded rnd hio.rnd_zero (l.map Vec3.z)⟩

theorem parseRow_row (b : Block ℝ) (p : Point) (data : List (Vec3 ℝ)) (hb : b p = statistics data)
    (hp : p.1 < 2 ^ 32 ∧ p.2.1 < 2 ^ 32 ∧ p.2.2 < 2 ^ 32) :
    parseRow io (words (rowLine io (1, 1, 1) b p)) = .ok (sliceOf p, feedV (roundedV hio data)) := by
  rw [words_row hio, restColumns, hb]
  have hint : ∀ n : ℕ, n < 2 ^ 32 → pyInt (io.fmt ((n : ℝ) / ((1 : ℕ) : ℝ))) = some (n : ℤ) := by
    intro n hn
    rw [Nat.cast_one, div_one, hio.fmt_nat n hn, Analysis.pyInt_natStr]
  simp only [parseRow, List.take, List.drop, List.mapM_cons, List.mapM_nil, hint _ hp.1, hint _ hp.2.1,
    hint _ hp.2.2, hio.parse_fmt, bind, Option.bind, pure, statistics, cpp_mean, cpp_variance,
    List.getElem?_cons_succ, List.getElem?_cons_zero, Analysis.pyInt_natStr, (C04_cpp_statistics _).1,
    List.length_map]
  simp only [Int.ofNat_eq_natCast, Stats.construct, Except.bind, feedV, roundedV, feed_rounded, List.length_map,
    sliceOf]

theorem addLine_row (b : Block ℝ) (p : Point) (data : List (Vec3 ℝ)) (hb : b p = statistics data)
    (hp : p.1 < 2 ^ 32 ∧ p.2.1 < 2 ^ 32 ∧ p.2.2 < 2 ^ 32) (c : Collected ℝ) :
    addLine io c (rowLine io (1, 1, 1) b p) =
      (mergeInto (sliceOf p) (feedV (roundedV hio data)) c.points).map fun q => ⟨q, c.outputBlocks⟩ := by
  rw [addLine, if_neg (row_ne hio _ b p).2, if_neg (row_ne hio _ b p).1, parseRow_row hio b p data hb hp]
  simp only [bind, Except.bind]
  cases mergeInto (sliceOf p) (feedV (roundedV hio data)) c.points <;> rfl

theorem addLines_rows (b : Block ℝ) (data : Point → List (Vec3 ℝ)) (hb : ∀ p, b p = statistics (data p))
    (ps : List Point) (hp : ∀ p ∈ ps, p.1 < 2 ^ 32 ∧ p.2.1 < 2 ^ 32 ∧ p.2.2 < 2 ^ 32) (c : Collected ℝ)
    (keys : List Slice) (d : Slice → Vec3 (List ℝ)) (h : Holds c.points keys d) :
    ∃ q, addLines io c (ps.map (rowLine io (1, 1, 1) b)) = (⟨q, c.outputBlocks⟩, .ok ()) ∧
      Holds q ((ps.map sliceOf).foldl addKey keys)
        (fun k => appendV (d k) (pick (ps.map fun p => (sliceOf p, roundedV hio (data p))) k)) := by
  obtain ⟨q, h1, h2⟩ := mergeAll_holds h (ps.map fun p => (sliceOf p, roundedV hio (data p)))
  refine ⟨q, ?_, ?_⟩
  · clear h2 h
    obtain ⟨points, blocks⟩ := c
    simp only at h1 ⊢
    induction ps generalizing points with
    | nil =>
      simp only [List.map_nil, List.foldlM_nil, pure, Except.pure, Except.ok.injEq] at h1
      subst h1
      rfl
    | cons p ps ih =>
      rw [List.map_cons, List.foldlM_cons] at h1
      rw [List.map_cons, addLines, addLine_row hio b p (data p) (hb p) (hp p (by simp))]
      cases hm : mergeInto (sliceOf p) (feedV (roundedV hio (data p))) points with
      | error e =>
        simp only [hm] at h1
        cases h1
      | ok points' =>
        simp only [hm] at h1
        exact ih (fun p hp' => hp p (by simp [hp'])) points' h1
  · rw [List.foldl_map] at h2 ⊢
    exact h2

end

/-! ### Adding a run -/

section
variable {κ : Type} [DecidableEq κ]

theorem pick_self {α : Type} (l : List α) (key : α → κ) (hkey : Function.Injective key) (g : α → Vec3 (List K))
    (hn : l.Nodup) (a : α) (ha : a ∈ l) : pick (l.map fun a => (key a, g a)) (key a) = g a := by
  induction l with
  | nil => cases ha
  | cons b l ih =>
    rw [List.nodup_cons] at hn
    rw [List.map_cons, pick_cons]
    by_cases h : b = a
    · subst h
      have : pick (l.map fun a => (key a, g a)) (key b) = emptyV := by
        have hf : ((l.map fun a => (key a, g a)).filter fun e => e.1 = key b) = [] := by
          rw [List.filter_eq_nil_iff]
          intro e he
          obtain ⟨c, hc, rfl⟩ := List.mem_map.1 he
          simp only [decide_eq_true_eq]
          intro h
          exact hn.1 (hkey h ▸ hc)
        simp only [pick, hf]
        rfl
      rw [if_pos rfl, this, appendV_emptyV]
    · rw [if_neg (fun e => h (hkey e)), ih hn.2 ((List.mem_cons.1 ha).resolve_left (Ne.symm h))]

end

theorem one_block_data (s : ℕ) (p : Point) (ops : List (FlowOp K)) (n : ℕ) (h : s = 0 ∨ n + sweeps ops ≤ s)
    (h0 : 0 < n + sweeps ops) : dataAt s 0 p (dataBySweep n ops) = measuredAt p ops := by
  induction ops generalizing n with
  | nil => rfl
  | cons o ops ih =>
    cases o with
    | newSweep =>
      simp only [sweeps] at h h0
      exact ih (n + 1) (by omega) (by omega)
    | add q v =>
      simp only [sweeps] at h h0
      have hb : blockOf s (n - 1) = 0 := by
        unfold blockOf
        split
        · rfl
        · exact Nat.div_eq_of_lt (by omega)
      have := ih n h h0
      simp only [dataAt, Bool.decide_and] at this
      by_cases hq : q = p
      · simp [dataBySweep, measuredAt, dataAt, hb, hq, this]
      · simp [dataBySweep, measuredAt, dataAt, hb, hq, this]

/-- What the instance has after some runs have been added. -/
def After {rnd : ℝ → ℝ} {io : Io ℝ} (hio : Prints io rnd) (shape : Point) (shearRate : ℝ) (sizeY : ℕ) (runs : List Run)
    (keys : List Slice) (f : PyFlow ℝ) : Prop :=
  f.linearSubdivisions = 1 ∧ f.shearRate = shearRate ∧ f.box.2.1 = sizeY ∧ f.collected.outputBlocks = [] ∧
    ∃ d, Holds f.collected.points keys d ∧ ∀ p ∈ grid shape, d (sliceOf p) =
      ⟨runs.flatMap fun r => (roundedV hio (measuredAt p r.ops)).x,
        runs.flatMap fun r => (roundedV hio (measuredAt p r.ops)).y,
        runs.flatMap fun r => (roundedV hio (measuredAt p r.ops)).z⟩

theorem addRun_readable {io : Io ℝ} {version : Version} {f : PyFlow ℝ} {r : Rundir ℝ} {text : Str}
    (hb : f.collected.outputBlocks = []) (hc : compatible f r.config = true) (h : Readable version r text) :
    addRun io version f r = addRun.finish f (addLines io f.collected (pyLines text)) := by
  rw [addRun, if_neg (by simp [hb]), if_neg (by simp [hc])]
  rcases h with ⟨h1, h2⟩ | ⟨h1, h2⟩
  · rw [h1, h2]
  · rw [h2]
    simp only [h1]
    rw [if_neg]
    rintro ⟨h, -⟩
    cases h

theorem addLines_header (io : Io K) (c : Collected K) (lines : List Str) :
    addLines io c (header :: lines) = addLines io c lines := by
  rw [addLines, addLine, if_pos header_head]

section
variable {io : Io ℝ} {rnd : ℝ → ℝ} (hio : Prints io rnd) {version : Version} {shape : Point} {shearRate : ℝ}
  {sizeY : ℕ}

theorem addRun_after (hs : shape.1 < 2 ^ 32 ∧ shape.2.1 < 2 ^ 32 ∧ shape.2.2 < 2 ^ 32) {f : PyFlow ℝ}
    {runs : List Run} {keys : List Slice} (hk : keys = [] ∨ keys = (grid shape).map sliceOf)
    (h : After hio shape shearRate sizeY runs keys f) (r : Run) (hsv : r.Saved io version shape (1, 1, 1))
    (ho : r.OneBlock) (hc : r.Configured shearRate sizeY) :
    ∃ f', addRun io version f r.rundir = (f', .ok ()) ∧
      After hio shape shearRate sizeY (runs ++ [r]) ((grid shape).map sliceOf) f' := by
  obtain ⟨h1, h2, h3, h4, d, h5, h6⟩ := h
  obtain ⟨hv, g, hg, hread⟩ := hsv
  obtain ⟨g', hg', i1, i2, i3, -, i5⟩ := flow_inv shape r.sweepCountPerOutput r.ops hv
  rw [hg, Option.some.injEq] at hg'
  subst hg'
  have hlen : g.outputBlocks.length = 1 := by
    rw [i3]
    unfold blockCount
    rw [if_neg (by have := ho.1; omega)]
    split
    · rfl
    · rename_i hs
      have := ho.2.resolve_left hs
      rw [Nat.div_eq_of_lt (by have := ho.1; omega)]
  obtain ⟨b, hb⟩ := List.length_eq_one_iff.1 hlen
  have hdata : ∀ p, b p = statistics (measuredAt p r.ops) := by
    intro p
    have hget : ∀ (l : List (Block ℝ)) (h : 0 < l.length), l = [b] → l[0] = b := by rintro l h rfl; rfl
    have := i5 0 (by omega) p
    rw [hget _ _ hb] at this
    rw [this, one_block_data _ _ _ 0 (by simpa using ho.2) (by simpa using ho.1)]
  have hcomp : compatible f r.rundir.config = true := by
    obtain ⟨c1, c2, c3⟩ := hc
    simp [compatible, c1, c2, c3, h1, h2, h3]
  obtain ⟨q, q1, q2⟩ := addLines_rows hio b _ hdata (grid shape) (fun p hp => by
    have := grid_lt hp
    omega) f.collected keys d h5
  have hkeys : ((grid shape).map sliceOf).foldl addKey keys = (grid shape).map sliceOf := by
    rcases hk with rfl | rfl
    · rw [addKeys_new _ _ ((grid_nodup shape).map sliceOf_inj) (by simp), List.nil_append]
    · exact addKeys_old _ _ fun _ h => h
  rw [hkeys] at q2
  refine ⟨{ f with collected := ⟨q, f.collected.outputBlocks⟩ }, ?_, h1, h2, h3, h4, _, q2, fun p hp => ?_⟩
  · rw [addRun_readable h4 hcomp hread, pyLines_file hio, hb, i1]
    simp only [laterLines, List.flatMap_nil, List.append_nil]
    rw [addLines_header, q1]
    simp [addRun.finish, h4]
  · rw [h6 p hp, pick_self (grid shape) sliceOf sliceOf_inj _ (grid_nodup shape) p hp]
    simp [appendV]

theorem addRuns_after (hs : shape.1 < 2 ^ 32 ∧ shape.2.1 < 2 ^ 32 ∧ shape.2.2 < 2 ^ 32) (rs : List Run)
    (hsv : ∀ r ∈ rs, r.Saved io version shape (1, 1, 1)) (ho : ∀ r ∈ rs, r.OneBlock)
    (hc : ∀ r ∈ rs, r.Configured shearRate sizeY) {f : PyFlow ℝ} {runs : List Run}
    (h : After hio shape shearRate sizeY runs ((grid shape).map sliceOf) f) :
    ∃ f', (rs.map Run.rundir).foldlM (addRunOk io version) f = .ok f' ∧
      After hio shape shearRate sizeY (runs ++ rs) ((grid shape).map sliceOf) f' := by
  induction rs generalizing f runs with
  | nil => exact ⟨f, rfl, by simpa using h⟩
  | cons r rs ih =>
    obtain ⟨f1, g1, g2⟩ := addRun_after hio hs (.inr rfl) h r (hsv r (by simp)) (ho r (by simp)) (hc r (by simp))
    obtain ⟨f2, g3, g4⟩ := ih (fun r hr => hsv r (by simp [hr])) (fun r hr => ho r (by simp [hr]))
      (fun r hr => hc r (by simp [hr])) g2
    refine ⟨f2, ?_, by simpa using g4⟩
    rw [List.map_cons, List.foldlM_cons, addRunOk, g1]
    exact g3

theorem analyse_after (hs : shape.1 < 2 ^ 32 ∧ shape.2.1 < 2 ^ 32 ∧ shape.2.2 < 2 ^ 32) (r : Run) (rs : List Run)
    (hsv : ∀ r' ∈ r :: rs, r'.Saved io version shape (1, 1, 1)) (ho : ∀ r' ∈ r :: rs, r'.OneBlock)
    (hc : ∀ r' ∈ r :: rs, r'.Configured shearRate sizeY) :
    ∃ f, analyse io version r.rundir (rs.map Run.rundir) = .ok f ∧
      After hio shape shearRate sizeY (r :: rs) ((grid shape).map sliceOf) f := by
  have hc0 := hc r (by simp)
  have h0 : After hio shape shearRate sizeY [] []
      ⟨r.rundir.config.subdivision.getD 1, r.rundir.config.shearRate.getD 0, r.rundir.config.box, ⟨[], []⟩⟩ :=
    ⟨hc0.1, hc0.2.1, hc0.2.2, rfl, fun _ => emptyV, ⟨rfl, by simp, fun _ _ => rfl⟩, fun _ _ => rfl⟩
  obtain ⟨f1, g1, g2⟩ := addRun_after hio hs (.inl rfl) h0 r (hsv r (by simp)) (ho r (by simp)) hc0
  obtain ⟨f2, g3, g4⟩ := addRuns_after hio hs rs (fun r hr => hsv r (by simp [hr])) (fun r hr => ho r (by simp [hr]))
      (fun r hr => hc r (by simp [hr])) g2
  refine ⟨f2, ?_, by simpa using g4⟩
  rw [analyse, construct, g1]
  exact g3

end

/-! ### Iterating over the points -/

theorem describes_feed (l : List K) : Describes (feed l) l := ⟨C01_size l, C01_mean l, C01_variance l⟩

theorem describes_perm {s : OTFS K} {l l' : List K} (h : s = feed l) (hp : l.Perm l') : Describes s l' := by
  rw [h, feed_perm hp]
  exact describes_feed l'

theorem global_feed {κ : Type} (l : List (κ × Vec3 (List K))) (d : Vec3 (List K)) :
    (l.map fun e => (e.1, feedV e.2)).foldlM (fun ret e => mergeV ret e.2) (feedV d) =
      .ok (feedV (appendV d ⟨l.flatMap fun e => e.2.x, l.flatMap fun e => e.2.y, l.flatMap fun e => e.2.z⟩)) := by
  induction l generalizing d with
  | nil => simp [appendV]; rfl
  | cons e l ih =>
    rw [List.map_cons, List.foldlM_cons, mergeV_feed]
    refine (ih (appendV d e.2)).trans ?_
    simp [appendV]

/-- The data of a component. -/
theorem flatMap_perm_of_map {α β : Type} {γ : Type} {l : List α} {l' : List β} {g : α → List γ} {g' : β → List γ}
    (key : β → α) (h : l.Perm (l'.map key)) (hg : ∀ b ∈ l', g (key b) = g' b) : (l.flatMap g).Perm (l'.flatMap g') := by
  refine (h.flatMap_right g).trans ?_
  rw [List.flatMap_map, List.flatMap_congr hg]

theorem yCoord_inj (shift : Bool) : Function.Injective (yCoord (K := K) 1 shift) := by
  intro y y' h
  simpa [yCoord] using h

theorem yCoord_one (shift : Bool) (y : ℕ) : (yCoord 1 shift y : K) = y + if shift then 1 / 2 else 0 := by
  simp [yCoord]

theorem mem_prof {d : Dict K K} {keys : List K} {data : K → Vec3 (List K)} (h : Holds d keys data) {k : K}
    {t : Vec3 (OTFS K)} (ht : (k, t) ∈ d) : t = feedV (data k) := by
  rw [h.1] at ht
  obtain ⟨k', -, e⟩ := List.mem_map.1 ht
  cases e
  rfl

section
variable {io : Io ℝ} {rnd : ℝ → ℝ} (hio : Prints io rnd) {version : Version} {shape : Point} {shearRate : ℝ}
  {sizeY : ℕ}

theorem order_form {d : Slice → Vec3 (List ℝ)} {points order : Dict Slice ℝ}
    (hh : Holds points ((grid shape).map sliceOf) d) (ho : order.Perm points) :
    ∃ ks : List Slice, order = ks.map (fun k => (k, feedV (d k))) ∧ ks.Perm ((grid shape).map sliceOf) := by
  refine ⟨order.map Prod.fst, ?_, ?_⟩
  · rw [List.map_map]
    symm
    calc order.map _ = order.map id := by
          refine List.map_congr_left fun e he => ?_
          have := ho.subset he
          rw [hh.1] at this
          obtain ⟨k, -, rfl⟩ := List.mem_map.1 this
          rfl
      _ = order := by simp
  · refine (ho.map Prod.fst).trans ?_
    rw [hh.1, List.map_map]
    exact List.Perm.of_eq (by simp [Function.comp_def])

/-- Iterating over all points. -/
theorem global_after {runs : List Run} {f : PyFlow ℝ}
    (h : After hio shape shearRate sizeY runs ((grid shape).map sliceOf) f) (order : Dict Slice ℝ)
    (ho : order.Perm f.collected.points) :
    ∃ g, getGlobalFlowStatistics order = .ok g ∧
      Describes g.x (pooled (rounded rnd hio.rnd_zero) Vec3.x (grid shape) runs) ∧
      Describes g.y (pooled (rounded rnd hio.rnd_zero) Vec3.y (grid shape) runs) ∧
      Describes g.z (pooled (rounded rnd hio.rnd_zero) Vec3.z (grid shape) runs) := by
  obtain ⟨-, -, -, -, d, hh, hd⟩ := h
  obtain ⟨ks, rfl, hp⟩ := order_form hh ho
  have hg := global_feed (ks.map fun k => (k, d k)) emptyV
  rw [List.map_map] at hg
  rw [emptyV_appendV] at hg
  have hf : ∀ (g : Vec3 (List ℝ) → List ℝ) (g' : Point → List ℝ), (∀ p ∈ grid shape, g (d (sliceOf p)) = g' p) →
      ((ks.map fun k => (k, d k)).flatMap fun e => g e.2).Perm ((grid shape).flatMap g') := by
    intro g g' hg
    rw [List.flatMap_map]
    exact flatMap_perm_of_map sliceOf hp hg
  refine ⟨_, hg, describes_perm rfl (hf Vec3.x _ fun p hp => ?_), describes_perm rfl (hf Vec3.y _ fun p hp => ?_),
    describes_perm rfl (hf Vec3.z _ fun p hp => ?_)⟩
  all_goals
    rw [hd p hp]
    rfl

/-- The entries of the profile. -/
theorem profile_after {runs : List Run} {f : PyFlow ℝ} (hs : 0 < shape.1 ∧ 0 < shape.2.2)
    (h : After hio shape shearRate sizeY runs ((grid shape).map sliceOf) f) (order : Dict Slice ℝ)
    (ho : order.Perm f.collected.points) (shift : Bool) :
    ∃ prof, getFlowProfileAsFunctionOfY f order shift = .ok prof ∧
      (prof.map Prod.fst).Perm ((List.range shape.2.1).map fun y : ℕ => (y : ℝ) + if shift then 1 / 2 else 0) ∧
      ∀ (y : ℕ) t, (((y : ℝ) + if shift then 1 / 2 else 0), t) ∈ prof →
        Describes t.x (pooled (rounded rnd hio.rnd_zero) Vec3.x ((grid shape).filter fun p => p.2.1 = y) runs) ∧
        Describes t.y (pooled (rounded rnd hio.rnd_zero) Vec3.y ((grid shape).filter fun p => p.2.1 = y) runs) ∧
        Describes t.z (pooled (rounded rnd hio.rnd_zero) Vec3.z ((grid shape).filter fun p => p.2.1 = y) runs) := by
  obtain ⟨h1, -, -, -, d, hh, hd⟩ := h
  obtain ⟨ks, rfl, hp⟩ := order_form hh ho
  have h0 : Holds ([] : Dict ℝ ℝ) [] (fun _ => emptyV) := ⟨rfl, List.nodup_nil, fun _ _ => rfl⟩
  obtain ⟨prof, g1, g2⟩ := mergeAll_holds h0 (ks.map fun k => (yCoord 1 shift k.2.1, d k))
  have e' : getFlowProfileAsFunctionOfY f (ks.map fun k => (k, feedV (d k))) shift = .ok prof := by
    rw [getFlowProfileAsFunctionOfY, h1, ← g1, List.foldlM_map, List.foldlM_map]
  refine ⟨prof, e', ?_, fun y t ht => ?_⟩
  · have hk : prof.map Prod.fst =
        (ks.map fun k => (yCoord 1 shift k.2.1 : ℝ)).foldl addKey [] := by
      conv_lhs => rw [g2.1]
      rw [List.map_map]
      have : (Prod.fst ∘ fun k => (k, feedV (appendV emptyV (pick (ks.map
          fun k => ((yCoord 1 shift k.2.1 : ℝ), d k)) k)))) = id := rfl
      rw [this, List.map_id, List.foldl_map, List.foldl_map]
    rw [hk]
    refine (List.perm_ext_iff_of_nodup ?_ ?_).2 fun c => ?_
    · have := g2.2.1
      rw [List.foldl_map] at this ⊢
      exact this
    · refine List.nodup_range.map fun y y' h => ?_
      simpa using h
    · rw [mem_addKeys]
      simp only [List.not_mem_nil, false_or, List.mem_map, List.mem_range]
      constructor
      · rintro ⟨k, hk, rfl⟩
        have := hp.subset hk
        obtain ⟨p, hp', hk'⟩ := List.mem_map.1 this
        refine ⟨p.2.1, (grid_lt hp').2.1, ?_⟩
        rw [← hk', sliceOf, yCoord_one]
      · rintro ⟨y, hy, rfl⟩
        have : sliceOf (0, y, 0) ∈ ks :=
          hp.symm.subset (List.mem_map_of_mem (mem_grid.2 ⟨hs.1, hy, hs.2⟩))
        exact ⟨_, this, yCoord_one shift y⟩
  · have ht' := mem_prof g2 ht
    rw [emptyV_appendV, ← yCoord_one] at ht'
    have hf : ∀ (g : Vec3 (List ℝ) → List ℝ) (g' : Point → List ℝ),
        (∀ p ∈ grid shape, g (d (sliceOf p)) = g' p) →
        (((ks.map fun k => ((yCoord 1 shift k.2.1 : ℝ), d k)).filter
          fun e => e.1 = yCoord 1 shift y).flatMap fun e => g e.2).Perm
          (((grid shape).filter fun p => p.2.1 = y).flatMap g') := by
      intro g g' hg
      rw [List.filter_map, List.flatMap_map]
      refine flatMap_perm_of_map sliceOf ?_ fun p hp' => hg p (List.mem_of_mem_filter hp')
      have := hp.filter ((fun e : ℝ × Vec3 (List ℝ) => decide (e.1 = yCoord 1 shift y)) ∘
        fun k => ((yCoord 1 shift k.2.1 : ℝ), d k))
      refine this.trans (List.Perm.of_eq ?_)
      rw [List.filter_map]
      congr 1
      refine List.filter_congr fun p _ => ?_
      simp [Function.comp, sliceOf, (yCoord_inj (K := ℝ) shift).eq_iff]
    subst ht'
    refine ⟨describes_perm rfl (hf Vec3.x _ fun p hp => ?_), describes_perm rfl (hf Vec3.y _ fun p hp => ?_),
      describes_perm rfl (hf Vec3.z _ fun p hp => ?_)⟩
    all_goals
      rw [hd p hp]
      rfl

end

/-! ### Exact numbers -/

theorem sumSqDev_short (l : List K) (h : l.length < 2) : Spec.sumSqDev l = 0 := by
  match l, h with
  | [], _ => simp [Spec.sumSqDev]
  | [x], _ => simp [Spec.sumSqDev, Spec.mean]

theorem variance_nonneg (l : List ℝ) : 0 ≤ Spec.variance l := by
  rcases Nat.lt_or_ge l.length 2 with h | h
  · rw [variance_short l h]
  · refine div_nonneg (sumSqDev_nonneg l) ?_
    have : (2 : ℝ) ≤ l.length := by exact_mod_cast h
    linarith

theorem feed_of_rounded {rnd : ℝ → ℝ} {xs ys : List ℝ} (h : RoundedData rnd xs ys)
    (h1 : rnd (Spec.mean xs) = Spec.mean xs) (h2 : rnd (√(Spec.variance xs)) = √(Spec.variance xs)) :
    feed ys = feed xs := by
  obtain ⟨hl, hm, hv⟩ := h
  rw [feed_eq, feed_eq, hl, hm, h1]
  rcases Nat.lt_or_ge xs.length 2 with h | h
  · rw [sumSqDev_short xs h, sumSqDev_short ys (by omega)]
  · have hv := hv (by omega)
    rw [h2, Real.sq_sqrt (variance_nonneg xs)] at hv
    have hne : (xs.length : ℝ) - 1 ≠ 0 := by
      have : (2 : ℝ) ≤ xs.length := by exact_mod_cast h
      intro e
      linarith
    unfold Spec.variance at hv
    rw [hl, div_left_inj' hne] at hv
    rw [hv]

theorem feed_append_congr {a a' b b' : List K} (h1 : feed a = feed a') (h2 : feed b = feed b') :
    feed (a ++ b) = feed (a' ++ b') := by
  have e1 := mergeSample_feed a b
  rw [h1, h2, mergeSample_feed] at e1
  exact (Except.ok.inj e1).symm

theorem feed_flatMap_congr {α : Type} (l : List α) (g g' : α → List K) (h : ∀ a ∈ l, feed (g a) = feed (g' a)) :
    feed (l.flatMap g) = feed (l.flatMap g') := by
  induction l with
  | nil => rfl
  | cons a l ih =>
    rw [List.flatMap_cons, List.flatMap_cons]
    exact feed_append_congr (h a (by simp)) (ih fun b hb => h b (by simp [hb]))

theorem describes_unique {s : OTFS K} {l : List K} (h : Describes s l) (l' : List K) (hf : feed l = feed l') :
    Describes s l' := by
  have h1 := describes_feed l
  have h2 := describes_feed l'
  rw [← hf] at h2
  refine ⟨?_, ?_, ?_⟩
  · rw [h.1, ← h1.1, h2.1]
  · rw [h.2.1, ← h1.2.1, h2.2.1]
  · rw [h.2.2, ← h1.2.2, h2.2.2]

/-- Every datum was added at one of the points. -/
theorem grid_measured {P : Point → Prop} [DecidablePred P] {shape : Point} (ops : List (FlowOp K))
    (h : ∀ p v, FlowOp.add p v ∈ ops → p ∈ grid shape) :
    (((grid shape).filter fun p => P p).flatMap fun p => measuredAt p ops).Perm (measured P ops) := by
  induction ops with
  | nil =>
    exact List.Perm.of_eq (List.flatMap_eq_nil_iff.2 fun _ _ => rfl)
  | cons o ops ih =>
    have ih := ih fun p v hm => h p v (by simp [hm])
    cases o with
    | newSweep => exact ih
    | add q v =>
      have hq := h q v (by simp)
      have hsplit : ∀ p, measuredAt p (.add q v :: ops) = (if q = p then [v] else []) ++ measuredAt p ops := by
        intro p
        rw [measuredAt]
        split <;> rfl
      simp only [hsplit]
      refine (List.flatMap_append_perm _ _ _).symm.trans ?_
      have hsingle : ∀ l : List Point, l.Nodup →
          (l.flatMap fun p => if q = p then [v] else []) = if q ∈ l then [v] else [] := by
        intro l hl
        induction l with
        | nil => rfl
        | cons a l ihl =>
          rw [List.nodup_cons] at hl
          rw [List.flatMap_cons, ihl hl.2]
          by_cases ha : q = a
          · subst ha
            simp [hl.1]
          · simp [ha]
      rw [hsingle _ ((grid_nodup shape).filter _), measured]
      by_cases hP : P q
      · rw [if_pos (by simp [hq, hP]), if_pos hP]
        exact ih.cons v
      · rw [if_neg (by simp [hP]), if_neg hP]
        exact ih

theorem valid_mem {shape : Point} {ops : List (FlowOp K)} (hv : ValidHistory shape ops) (p : Point) (v : Vec3 K)
    (h : FlowOp.add p v ∈ ops) : p ∈ grid shape := by
  obtain ⟨pre, post, e⟩ := List.append_of_mem h
  exact mem_grid.2 (hv pre p v post e).2

theorem pooled_measured {P : Point → Prop} [DecidablePred P] {shape : Point} (runs : List Run)
    (hv : ∀ r ∈ runs, ValidHistory shape r.ops) (c : Vec3 ℝ → ℝ) :
    (pooled id c ((grid shape).filter fun p => P p) runs).Perm
      (runs.flatMap fun r => (measured P r.ops).map c) := by
  unfold pooled
  induction runs with
  | nil => simp
  | cons r runs ih =>
    have ih := ih fun r hr => hv r (by simp [hr])
    simp only [List.flatMap_cons, id]
    refine (List.flatMap_append_perm _ _ _).symm.trans (List.Perm.append ?_ ih)
    have := (grid_measured (P := P) r.ops fun p v h => valid_mem (hv r (by simp)) p v h).map c
    rwa [List.map_flatMap] at this

theorem pooled_exact {rnd : ℝ → ℝ} {data : List ℝ → List ℝ} (hd : ∀ xs, RoundedData rnd xs (data xs))
    {ps : List Point} {runs : List Run} {c : Vec3 ℝ → ℝ}
    (h : ∀ r ∈ runs, ∀ p ∈ ps, rnd (Spec.mean ((measuredAt p r.ops).map c)) = Spec.mean ((measuredAt p r.ops).map c) ∧
      rnd (√(Spec.variance ((measuredAt p r.ops).map c))) = √(Spec.variance ((measuredAt p r.ops).map c))) :
    feed (pooled data c ps runs) = feed (pooled id c ps runs) :=
  feed_flatMap_congr _ _ _ fun p hp => feed_flatMap_congr _ _ _ fun r hr =>
    feed_of_rounded (hd _) (h r hr p hp).1 (h r hr p hp).2

theorem pooled_length {rnd : ℝ → ℝ} {data : List ℝ → List ℝ} (hd : ∀ xs, RoundedData rnd xs (data xs))
    (ps : List Point) (runs : List Run) (c : Vec3 ℝ → ℝ) :
    (pooled data c ps runs).length = (pooled id c ps runs).length := by
  simp only [pooled, List.length_flatMap, (hd _).1, id]

/-! ## C88 -/

section
variable {io : Io ℝ} {rnd : ℝ → ℝ} (hio : Prints io rnd) {version : Version} {shape : Point} {shearRate : ℝ}
  (hs : 0 < shape.1 ∧ 0 < shape.2.2) (hs' : shape.1 < 2 ^ 32 ∧ shape.2.1 < 2 ^ 32 ∧ shape.2.2 < 2 ^ 32)
  (r : Run) (rs : List Run) (hsv : ∀ r' ∈ r :: rs, r'.Saved io version shape (1, 1, 1))
  (ho : ∀ r' ∈ r :: rs, r'.OneBlock) (hc : ∀ r' ∈ r :: rs, r'.Configured shearRate shape.2.1)
include hio hs hs' hsv ho hc

/-- C88 (part): any number of runs with the same settings and one output block each, the collision cells not being
subdivided. The analysis reads their files, and whatever order the points are iterated in, what it reports for the
whole volume and for each layer are the sample size, mean and variance of data that consist of one set for each run and
each point (of the layer), which has as many values as were measured there in that run, and the mean and the standard
deviation of those, rounded to the precision of the file. Layers are at their beginnings or at their centres.

Missing: subdivided cells and several blocks, see `C88_subdivision_violated`, `C88_blocks_violated`. -/
theorem C88_partial :
    ∃ f, analyse io version r.rundir (rs.map Run.rundir) = .ok f ∧
      ∃ data : List ℝ → List ℝ, (∀ xs, RoundedData rnd xs (data xs)) ∧
        ∀ order : Dict Slice ℝ, order.Perm f.collected.points →
          (∃ g, getGlobalFlowStatistics order = .ok g ∧
            Describes g.x (pooled data Vec3.x (grid shape) (r :: rs)) ∧
            Describes g.y (pooled data Vec3.y (grid shape) (r :: rs)) ∧
            Describes g.z (pooled data Vec3.z (grid shape) (r :: rs))) ∧
          ∀ shift, ∃ prof, getFlowProfileAsFunctionOfY f order shift = .ok prof ∧
            (prof.map Prod.fst).Perm ((List.range shape.2.1).map fun y : ℕ => (y : ℝ) + if shift then 1 / 2 else 0) ∧
            ∀ (y : ℕ) t, (((y : ℝ) + if shift then 1 / 2 else 0), t) ∈ prof →
              Describes t.x (pooled data Vec3.x ((grid shape).filter fun p => p.2.1 = y) (r :: rs)) ∧
              Describes t.y (pooled data Vec3.y ((grid shape).filter fun p => p.2.1 = y) (r :: rs)) ∧
              Describes t.z (pooled data Vec3.z ((grid shape).filter fun p => p.2.1 = y) (r :: rs)) := by
  obtain ⟨f, h1, h2⟩ := analyse_after hio hs' r rs hsv ho hc
  exact ⟨f, h1, rounded rnd hio.rnd_zero, rounded_spec rnd hio.rnd_zero, fun order hord =>
    ⟨global_after hio h2 order hord, profile_after hio hs h2 order hord⟩⟩

/-- C88 (part): the sample sizes are the numbers of velocities measured, in the whole volume and in each layer. -/
theorem C88_sizes :
    ∃ f, analyse io version r.rundir (rs.map Run.rundir) = .ok f ∧
      ∀ order : Dict Slice ℝ, order.Perm f.collected.points →
        (∃ g, getGlobalFlowStatistics order = .ok g ∧
          ∀ s ∈ [g.x, g.y, g.z], s.getSampleSize = ((r :: rs).flatMap fun r => measured (fun _ => True) r.ops).length) ∧
        ∀ shift, ∃ prof, getFlowProfileAsFunctionOfY f order shift = .ok prof ∧
          ∀ (y : ℕ) t, (((y : ℝ) + if shift then 1 / 2 else 0), t) ∈ prof →
            ∀ s ∈ [t.x, t.y, t.z],
              s.getSampleSize = ((r :: rs).flatMap fun r => measured (fun p => p.2.1 = y) r.ops).length := by
  obtain ⟨f, h1, data, hd, h2⟩ := C88_partial hio hs hs' r rs hsv ho hc
  refine ⟨f, h1, fun order hord => ?_⟩
  obtain ⟨⟨g, g1, g2, g3, g4⟩, h3⟩ := h2 order hord
  have hlen : ∀ (P : Point → Prop) [DecidablePred P] (c : Vec3 ℝ → ℝ),
      (pooled data c ((grid shape).filter fun p => P p) (r :: rs)).length =
        ((r :: rs).flatMap fun r => measured P r.ops).length := by
    intro P _ c
    rw [pooled_length hd, (pooled_measured (r :: rs) (fun r hr => (hsv r hr).1) c).length_eq]
    simp only [List.length_flatMap, List.length_map]
  have hgrid : (grid shape).filter (fun _ => decide True) = grid shape := by simp
  refine ⟨⟨g, g1, ?_⟩, fun shift => ?_⟩
  · have := hlen (fun _ => True)
    rw [hgrid] at this
    intro s hs
    simp only [List.mem_cons, List.not_mem_nil, or_false] at hs
    rcases hs with rfl | rfl | rfl
    · rw [g2.1, this]
    · rw [g3.1, this]
    · rw [g4.1, this]
  · obtain ⟨prof, h4, -, h5⟩ := h3 shift
    refine ⟨prof, h4, fun y t ht s hs => ?_⟩
    obtain ⟨t1, t2, t3⟩ := h5 y t ht
    simp only [List.mem_cons, List.not_mem_nil, or_false] at hs
    rcases hs with rfl | rfl | rfl
    · rw [t1.1, hlen fun p => p.2.1 = y]
    · rw [t2.1, hlen fun p => p.2.1 = y]
    · rw [t3.1, hlen fun p => p.2.1 = y]

/-- C88 (part): if the means and standard deviations in the files are exact, what is reported for the whole volume and
for each layer are the sample size, mean and variance of all velocities measured there in all runs. -/
theorem C88_exact
    (hex : ∀ r' ∈ r :: rs, ∀ p ∈ grid shape, ∀ c ∈ [Vec3.x, Vec3.y, Vec3.z],
      rnd (Spec.mean ((measuredAt p r'.ops).map c)) = Spec.mean ((measuredAt p r'.ops).map c) ∧
      rnd (√(Spec.variance ((measuredAt p r'.ops).map c))) = √(Spec.variance ((measuredAt p r'.ops).map c))) :
    ∃ f, analyse io version r.rundir (rs.map Run.rundir) = .ok f ∧
      ∀ order : Dict Slice ℝ, order.Perm f.collected.points →
        (∃ g, getGlobalFlowStatistics order = .ok g ∧
          Describes g.x ((r :: rs).flatMap fun r => (measured (fun _ => True) r.ops).map Vec3.x) ∧
          Describes g.y ((r :: rs).flatMap fun r => (measured (fun _ => True) r.ops).map Vec3.y) ∧
          Describes g.z ((r :: rs).flatMap fun r => (measured (fun _ => True) r.ops).map Vec3.z)) ∧
        ∀ shift, ∃ prof, getFlowProfileAsFunctionOfY f order shift = .ok prof ∧
          ∀ (y : ℕ) t, (((y : ℝ) + if shift then 1 / 2 else 0), t) ∈ prof →
            Describes t.x ((r :: rs).flatMap fun r => (measured (fun p => p.2.1 = y) r.ops).map Vec3.x) ∧
            Describes t.y ((r :: rs).flatMap fun r => (measured (fun p => p.2.1 = y) r.ops).map Vec3.y) ∧
            Describes t.z ((r :: rs).flatMap fun r => (measured (fun p => p.2.1 = y) r.ops).map Vec3.z) := by
  obtain ⟨f, h1, data, hd, h2⟩ := C88_partial hio hs hs' r rs hsv ho hc
  refine ⟨f, h1, fun order hord => ?_⟩
  obtain ⟨⟨g, g1, g2, g3, g4⟩, h3⟩ := h2 order hord
  have key : ∀ (P : Point → Prop) [DecidablePred P] (c : Vec3 ℝ → ℝ) (_ : c ∈ [Vec3.x, Vec3.y, Vec3.z]) (s : OTFS ℝ),
      Describes s (pooled data c ((grid shape).filter fun p => P p) (r :: rs)) →
        Describes s ((r :: rs).flatMap fun r => (measured P r.ops).map c) := by
    intro P _ c hcm s hds
    refine describes_unique hds _ ?_
    rw [pooled_exact hd fun r hr p hp => hex r hr p (List.mem_of_mem_filter hp) c hcm]
    exact feed_perm (pooled_measured (r :: rs) (fun r hr => (hsv r hr).1) c)
  have hgrid : (grid shape).filter (fun _ => decide True) = grid shape := by simp
  have key1 := key fun _ => True
  rw [hgrid] at key1
  refine ⟨⟨g, g1, key1 _ (by simp) _ g2, key1 _ (by simp) _ g3, key1 _ (by simp) _ g4⟩, fun shift => ?_⟩
  obtain ⟨prof, h4, -, h5⟩ := h3 shift
  refine ⟨prof, h4, fun y t ht => ?_⟩
  obtain ⟨t1, t2, t3⟩ := h5 y t ht
  exact ⟨key (fun p => p.2.1 = y) _ (by simp) _ t1, key (fun p => p.2.1 = y) _ (by simp) _ t2,
    key (fun p => p.2.1 = y) _ (by simp) _ t3⟩

/-- C88 (part): the theoretical profile is given at the same coordinates as the measured one, and is that of a shear
flow which is at rest at half the height of the box. -/
theorem C88_theory :
    ∃ f, analyse io version r.rundir (rs.map Run.rundir) = .ok f ∧
      ∀ shift, (∀ order : Dict Slice ℝ, order.Perm f.collected.points →
          ∃ prof, getFlowProfileAsFunctionOfY f order shift = .ok prof ∧
            (prof.map Prod.fst).Perm ((getAnalyticShearFlowProfileAsFunctionOfY f shift).map Prod.fst)) ∧
        ∀ e ∈ getAnalyticShearFlowProfileAsFunctionOfY f shift, e.2 = shearRate * (e.1 - shape.2.1 / 2) := by
  obtain ⟨f, h1, h2⟩ := analyse_after hio hs' r rs hsv ho hc
  refine ⟨f, h1, fun shift => ⟨fun order hord => ?_, fun e he => ?_⟩⟩
  · obtain ⟨prof, g1, g2, -⟩ := profile_after hio hs h2 order hord shift
    refine ⟨prof, g1, g2.trans (List.Perm.of_eq ?_)⟩
    obtain ⟨h3, -, h4, -⟩ := h2
    rw [getAnalyticShearFlowProfileAsFunctionOfY, h3, h4, List.map_map, Nat.mul_one]
    refine List.map_congr_left fun y _ => ?_
    exact (yCoord_one shift y).symm
  · obtain ⟨h3, h4, h5, -⟩ := h2
    rw [getAnalyticShearFlowProfileAsFunctionOfY] at he
    obtain ⟨i, -, rfl⟩ := List.mem_map.1 he
    simp only [h4, h5]
    ring

end

/-! ### What does not hold -/

theorem mergeSample_error {s t : OTFS K} {e : PyErr} (h : s.mergeSample t = .error e) : e = .valueError := by
  unfold OTFS.mergeSample OTFS.getSampleMean OTFS.getSampleVariance at h
  simp only [bind, Except.bind] at h
  split_ifs at h <;> simp_all

theorem mergeV_error {s t : Vec3 (OTFS K)} {e : PyErr} (h : mergeV s t = .error e) : e = .valueError := by
  unfold mergeV at h
  simp only [bind, Except.bind] at h
  cases h1 : s.x.mergeSample t.x with
  | error e1 => simp only [h1] at h; cases h; exact mergeSample_error h1
  | ok a1 =>
    simp only [h1] at h
    cases h2 : s.y.mergeSample t.y with
    | error e2 => simp only [h2] at h; cases h; exact mergeSample_error h2
    | ok a2 =>
      simp only [h2] at h
      cases h3 : s.z.mergeSample t.z with
      | error e3 => simp only [h3] at h; cases h; exact mergeSample_error h3
      | ok a3 => simp only [h3] at h; cases h

theorem mergeInto_error {κ : Type} [DecidableEq κ] {k : κ} {s : Vec3 (OTFS K)} {d : Dict κ K} {e : PyErr}
    (h : mergeInto k s d = .error e) : e = .valueError := by
  induction d with
  | nil =>
    rw [mergeInto] at h
    cases hm : mergeV freshV s with
    | error e' => rw [hm] at h; cases h; exact mergeV_error hm
    | ok a => rw [hm] at h; cases h
  | cons a d ih =>
    obtain ⟨k', v⟩ := a
    rw [mergeInto] at h
    split at h
    · cases hm : mergeV v s with
      | error e' => rw [hm] at h; cases h; exact mergeV_error hm
      | ok a => rw [hm] at h; cases h
    · cases hm : mergeInto k s d with
      | error e' => rw [hm] at h; cases h; exact ih hm
      | ok a => rw [hm] at h; cases h

section
variable {io : Io ℝ} {rnd : ℝ → ℝ} (hio : Prints io rnd)
include hio

theorem addLine_row_error (sub : Point) (b : Block ℝ) (p : Point) (c : Collected ℝ) {e : PyErr}
    (h : addLine io c (rowLine io sub b p) = .error e) : e = .valueError := by
  rw [addLine, if_neg (row_ne hio _ b p).2, if_neg (row_ne hio _ b p).1, words_row hio, restColumns] at h
  cases hp : parseRow io (io.fmt ((p.1 : ℝ) / sub.1) :: restColumns io sub b p) with
  | error e' =>
    rw [restColumns] at hp
    rw [hp] at h
    cases h
    simp only [parseRow, List.getElem?_cons_succ, List.getElem?_cons_zero] at hp
    split at hp
    · split at hp
      · simp only [Stats.construct, bind, Except.bind] at hp
        cases hp
      · cases hp; rfl
    · cases hp; rfl
  | ok a =>
    rw [restColumns] at hp
    rw [hp] at h
    simp only [bind, Except.bind] at h
    cases hm : mergeInto a.1 a.2 c.points with
    | error e' => simp only [hm] at h; cases h; exact mergeInto_error hm
    | ok q => simp only [hm] at h; cases h

theorem addLines_rows_error (sub : Point) (b : Block ℝ) (ps : List Point) (p : Point) (hp : p ∈ ps)
    (hfail : ∀ c, addLine io c (rowLine io sub b p) = .error .valueError) (rest : List Str) (c : Collected ℝ) :
    (addLines io c (ps.map (rowLine io sub b) ++ rest)).2 = .error .valueError := by
  induction ps generalizing c with
  | nil => cases hp
  | cons a ps ih =>
    rw [List.map_cons, List.cons_append, addLines]
    cases ha : addLine io c (rowLine io sub b a) with
    | error e => simp only; rw [addLine_row_error hio sub b a c ha]
    | ok c' =>
      simp only
      refine ih ((List.mem_cons.1 hp).resolve_left ?_) c'
      rintro rfl
      rw [hfail] at ha
      cases ha

theorem addLine_fraction (sub : Point) (b : Block ℝ) (p : Point)
    (h : pyInt (io.fmt ((p.1 : ℝ) / sub.1)) = none ∨ pyInt (io.fmt ((p.2.1 : ℝ) / sub.2.1)) = none ∨
      pyInt (io.fmt ((p.2.2 : ℝ) / sub.2.2)) = none) (c : Collected ℝ) :
    addLine io c (rowLine io sub b p) = .error .valueError := by
  rw [addLine, if_neg (row_ne hio _ b p).2, if_neg (row_ne hio _ b p).1, words_row hio, restColumns]
  have hnone : (List.take 3 [io.fmt ((p.1 : ℝ) / sub.1), io.fmt ((p.2.1 : ℝ) / sub.2.1),
      io.fmt ((p.2.2 : ℝ) / sub.2.2), io.fmt (b p).x.getSampleMean, io.fmt (b p).y.getSampleMean,
      io.fmt (b p).z.getSampleMean, io.fmt (√(b p).x.getSampleVariance), io.fmt (√(b p).y.getSampleVariance),
      io.fmt (√(b p).z.getSampleVariance), natStr (b p).x.getSampleSize]).mapM pyInt = none := by
    simp only [List.take, List.mapM_cons, List.mapM_nil, bind, Option.bind]
    rcases h with h | h | h <;> rw [h]
    · cases pyInt (io.fmt ((p.1 : ℝ) / sub.1)) <;> rfl
    · cases pyInt (io.fmt ((p.1 : ℝ) / sub.1)) <;> cases pyInt (io.fmt ((p.2.1 : ℝ) / sub.2.1)) <;> rfl
  rw [parseRow, hnone]
  rfl

/-- C88 does not hold: if the collision cells are subdivided along any axis, the analysis cannot read the file, since
it expects whole numbers as coordinates. -/
theorem C88_subdivision_violated {version : Version} (box sub : Point)
    (hbox : 0 < box.1 ∧ 0 < box.2.1 ∧ 0 < box.2.2) (hsub : 0 < sub.1 ∧ 0 < sub.2.1 ∧ 0 < sub.2.2)
    (hlt : sub.1 < 2 ^ 32 ∧ sub.2.1 < 2 ^ 32 ∧ sub.2.2 < 2 ^ 32) (hne : sub ≠ (1, 1, 1)) (r : Run)
    (hsv : r.Saved io version (box.1 * sub.1, box.2.1 * sub.2.1, box.2.2 * sub.2.2) sub) (ho : 0 < sweeps r.ops) :
    construct io version r.rundir = .error .valueError := by
  obtain ⟨hv, g, hg, hread⟩ := hsv
  obtain ⟨g', hg', i1, -, i3, -⟩ := flow_inv _ r.sweepCountPerOutput r.ops hv
  rw [hg, Option.some.injEq] at hg'
  subst hg'
  have hlen : g.outputBlocks ≠ [] := by
    intro e
    rw [e] at i3
    unfold blockCount at i3
    rw [if_neg (by omega)] at i3
    split at i3 <;> simp at i3
  obtain ⟨b, bs, hb⟩ := List.exists_cons_of_ne_nil hlen
  have hfrac : ∀ k : ℕ, 0 < k → k < 2 ^ 32 → k ≠ 1 → pyInt (io.fmt (((1 : ℕ) : ℝ) / k)) = none := by
    intro k h1 h2 h3
    rw [Nat.cast_one]
    exact hio.fmt_fraction k (by omega) h2
  have hge : ∀ a k : ℕ, 0 < a → 0 < k → k ≠ 1 → 1 < a * k := by
    intro a k ha hk hk1
    calc 1 < k := by omega
      _ ≤ a * k := Nat.le_mul_of_pos_left k ha
  obtain ⟨p, hp, hpf⟩ : ∃ p ∈ grid (box.1 * sub.1, box.2.1 * sub.2.1, box.2.2 * sub.2.2),
      pyInt (io.fmt ((p.1 : ℝ) / sub.1)) = none ∨ pyInt (io.fmt ((p.2.1 : ℝ) / sub.2.1)) = none ∨
        pyInt (io.fmt ((p.2.2 : ℝ) / sub.2.2)) = none := by
    have m1 := Nat.mul_pos hbox.1 hsub.1
    have m2 := Nat.mul_pos hbox.2.1 hsub.2.1
    have m3 := Nat.mul_pos hbox.2.2 hsub.2.2
    by_cases h1 : sub.1 = 1
    · by_cases h2 : sub.2.1 = 1
      · have h3 : sub.2.2 ≠ 1 := fun h3 => hne (by
          obtain ⟨a, b, c⟩ := sub
          simp_all)
        exact ⟨(0, 0, 1), mem_grid.2 ⟨m1, m2, hge _ _ hbox.2.2 hsub.2.2 h3⟩,
          .inr (.inr (hfrac _ hsub.2.2 hlt.2.2 h3))⟩
      · exact ⟨(0, 1, 0), mem_grid.2 ⟨m1, hge _ _ hbox.2.1 hsub.2.1 h2, m3⟩,
          .inr (.inl (hfrac _ hsub.2.1 hlt.2.1 h2))⟩
    · exact ⟨(1, 0, 0), mem_grid.2 ⟨hge _ _ hbox.1 hsub.1 h1, m2, m3⟩, .inl (hfrac _ hsub.1 hlt.1 h1)⟩
  have herr := addLines_rows_error hio sub b _ p hp (addLine_fraction hio sub b p hpf)
    (laterLines io sub g.shape bs) ⟨[], []⟩
  rw [construct, addRun_readable rfl (by simp [compatible]) hread, pyLines_file hio, hb]
  simp only [addLines_header, i1] at herr ⊢
  generalize addLines io ⟨[], []⟩ _ = res at herr ⊢
  obtain ⟨c, e⟩ := res
  simp only at herr
  subst herr
  rfl

omit hio in
/-- C88 does not hold: with Python 3, no compressed file can be read. -/
theorem C88_python3_violated (r : Rundir ℝ) (sub : Point) (g : FlowProfile ℝ)
    (h : r.bz2 = some (saveToFile io sub g)) : construct io .three r = .error .valueError := by
  have hne : saveToFile io sub g ≠ [] := by
    intro e
    have h1 := (List.append_eq_nil_iff.1 e).1
    have h2 := header_head
    rw [h1] at h2
    cases h2
  rw [construct, addRun, if_neg (by simp), if_neg (by simp [compatible]), h]
  simp [hne]

end

/-- The settings that runs have to share: the subdivision along `y`, the shear rate, and the size of the box along `y`. -/
def SameSettings (c c' : Config ℝ) : Prop :=
  c.subdivision.getD 1 = c'.subdivision.getD 1 ∧ c.shearRate.getD 0 = c'.shearRate.getD 0 ∧ c.box.2.1 = c'.box.2.1

theorem addRun_settings (io : Io ℝ) (version : Version) (f : PyFlow ℝ) (r : Rundir ℝ) :
    (addRun io version f r).1.linearSubdivisions = f.linearSubdivisions ∧
    (addRun io version f r).1.shearRate = f.shearRate ∧ (addRun io version f r).1.box = f.box := by
  have hfin : ∀ x, (addRun.finish f x).1.linearSubdivisions = f.linearSubdivisions ∧
      (addRun.finish f x).1.shearRate = f.shearRate ∧ (addRun.finish f x).1.box = f.box := by
    rintro ⟨c, e | u⟩
    · exact ⟨rfl, rfl, rfl⟩
    · by_cases h : c.outputBlocks ≠ []
      · rw [addRun.finish, if_pos h]
        exact ⟨rfl, rfl, rfl⟩
      · rw [addRun.finish, if_neg h]
        exact ⟨rfl, rfl, rfl⟩
  unfold addRun
  split
  · exact ⟨rfl, rfl, rfl⟩
  · split
    · exact ⟨rfl, rfl, rfl⟩
    · split
      · exact ⟨rfl, rfl, rfl⟩
      · split
        · exact ⟨rfl, rfl, rfl⟩
        · exact hfin _
      · exact hfin _

/-- C88: a run with other settings is refused, and nothing is added; no result is obtained from runs with different
settings. -/
theorem C88_refused (io : Io ℝ) (version : Version) (r r' : Rundir ℝ) (rs : List (Rundir ℝ)) (hr : r' ∈ rs)
    (hne : ¬ SameSettings r.config r'.config) :
    (∀ f, construct io version r = .ok f → addRun io version f r' = (f, .error .exception)) ∧
    ∀ f, analyse io version r rs ≠ .ok f := by
  have hc : ∀ f, construct io version r = .ok f → f.linearSubdivisions = r.config.subdivision.getD 1 ∧
      f.shearRate = r.config.shearRate.getD 0 ∧ f.box = r.config.box := by
    intro f hf
    have := addRun_settings io version ⟨r.config.subdivision.getD 1, r.config.shearRate.getD 0, r.config.box, ⟨[], []⟩⟩ r
    unfold construct at hf
    split at hf
    · cases hf
    · rename_i e
      cases hf
      rw [e] at this
      exact this
  have hrefuse : ∀ f : PyFlow ℝ, f.linearSubdivisions = r.config.subdivision.getD 1 →
      f.shearRate = r.config.shearRate.getD 0 → f.box = r.config.box → addRun io version f r' = (f, .error .exception) := by
    intro f h1 h2 h3
    have : ¬ (compatible f r'.config = true) := by
      intro h
      unfold compatible at h
      rw [decide_eq_true_eq, h1, h2, h3] at h
      exact hne h
    unfold addRun
    rw [if_pos this, ite_self]
  refine ⟨fun f hf => ?_, fun f hf => ?_⟩
  · obtain ⟨h1, h2, h3⟩ := hc f hf
    exact hrefuse f h1 h2 h3
  · unfold analyse at hf
    cases h0 : construct io version r with
    | error e => rw [h0] at hf; cases hf
    | ok f0 =>
      obtain ⟨h1, h2, h3⟩ := hc f0 h0
      rw [h0] at hf
      replace hf : rs.foldlM (addRunOk io version) f0 = .ok f := hf
      clear h0
      induction rs generalizing f0 with
      | nil => exact absurd hr (by simp)
      | cons s rs ih =>
        rw [List.foldlM_cons] at hf
        cases hs : addRunOk io version f0 s with
        | error e => rw [hs] at hf; cases hf
        | ok f1 =>
          rw [hs] at hf
          have hset := addRun_settings io version f0 s
          rcases List.mem_cons.1 hr with rfl | hr'
          · rw [addRunOk, hrefuse f0 h1 h2 h3] at hs
            cases hs
          · unfold addRunOk at hs
            split at hs
            · cases hs
            · rename_i e
              cases hs
              rw [e] at hset
              exact ih hr' f1 (hset.1.trans h1) (hset.2.1.trans h2) (hset.2.2.trans h3) hf

example : ¬ SameSettings ⟨none, some 1, (2, 3, 4)⟩ ⟨none, none, (2, 3, 4)⟩ := by
  unfold SameSettings
  simp

theorem addLines_later {io : Io ℝ} {rnd : ℝ → ℝ} (hio : Prints io rnd) {shape : Point}
    (hs : shape.1 < 2 ^ 32 ∧ shape.2.1 < 2 ^ 32 ∧ shape.2.2 < 2 ^ 32) (bs : List (Block ℝ))
    (hb : ∀ b ∈ bs, ∃ data : Point → List (Vec3 ℝ), ∀ p, b p = statistics (data p)) (c : Collected ℝ) :
    ∃ q blocks, addLines io c (laterLines io (1, 1, 1) shape bs) = (⟨q, c.outputBlocks ++ blocks⟩, .ok ()) ∧
      blocks.length = bs.length := by
  induction bs generalizing c with
  | nil => exact ⟨c.points, [], by simp [laterLines, addLines], rfl⟩
  | cons b bs ih =>
    obtain ⟨data, hdata⟩ := hb b (by simp)
    obtain ⟨q, q1, -⟩ := addLines_rows hio b data hdata (grid shape) (fun p hp => by
      have := grid_lt hp
      omega) ⟨[], c.outputBlocks ++ [c.points]⟩ [] (fun _ => emptyV) ⟨rfl, by simp, fun _ _ => rfl⟩
    obtain ⟨q', blocks, e1, e2⟩ := ih (fun b hb' => hb b (by simp [hb'])) ⟨q, c.outputBlocks ++ [c.points]⟩
    refine ⟨q', c.points :: blocks, ?_, by simp [e2]⟩
    rw [laterLines, List.flatMap_cons, List.cons_append, addLines, addLine, if_neg (by simp), if_pos rfl]
    simp only
    rw [addLines_append, q1]
    simp only
    rw [← laterLines, e1]
    simp

/-- C88 does not hold: if a run has more than one output block, the profile obtained from it is empty, and the
statistics for the whole volume contain no data, whatever was measured. -/
theorem C88_blocks_violated {io : Io ℝ} {rnd : ℝ → ℝ} (hio : Prints io rnd) {version : Version} {shape : Point}
    (hs : shape.1 < 2 ^ 32 ∧ shape.2.1 < 2 ^ 32 ∧ shape.2.2 < 2 ^ 32) (r : Run)
    (hsv : r.Saved io version shape (1, 1, 1)) (h0 : 0 < r.sweepCountPerOutput)
    (h1 : r.sweepCountPerOutput < sweeps r.ops) :
    ∃ f, construct io version r.rundir = .ok f ∧
      ∀ order : Dict Slice ℝ, order.Perm f.collected.points →
        getGlobalFlowStatistics order = .ok ⟨fresh, fresh, fresh⟩ ∧
          ∀ shift, getFlowProfileAsFunctionOfY f order shift = .ok [] := by
  obtain ⟨hv, g, hg, hread⟩ := hsv
  obtain ⟨g', hg', i1, -, i3, -, i5⟩ := flow_inv _ r.sweepCountPerOutput r.ops hv
  rw [hg, Option.some.injEq] at hg'
  subst hg'
  have hlen : 2 ≤ g.outputBlocks.length := by
    rw [i3]
    unfold blockCount
    rw [if_neg (by omega), if_neg (by omega)]
    have : 1 ≤ (sweeps r.ops - 1) / r.sweepCountPerOutput := (Nat.one_le_div_iff h0).2 (by omega)
    omega
  have hall : ∀ b ∈ g.outputBlocks, ∃ data : Point → List (Vec3 ℝ), ∀ p, b p = statistics (data p) := by
    intro b hb
    obtain ⟨i, hi, rfl⟩ := List.getElem_of_mem hb
    exact ⟨_, i5 i hi⟩
  cases hb : g.outputBlocks with
  | nil => rw [hb] at hlen; simp at hlen
  | cons b bs =>
    rw [hb] at hall hlen
    obtain ⟨data, hdata⟩ := hall b (by simp)
    obtain ⟨q, q1, -⟩ := addLines_rows hio b data hdata (grid shape) (fun p hp => by
      have := grid_lt hp
      omega) ⟨[], []⟩ [] (fun _ => emptyV) ⟨rfl, by simp, fun _ _ => rfl⟩
    obtain ⟨q', blocks, e1, e2⟩ := addLines_later hio hs bs (fun b hb' => hall b (by simp [hb'])) ⟨q, []⟩
    have hne : blocks ≠ [] := by
      intro e
      rw [e] at e2
      simp at e2 hlen
      omega
    refine ⟨⟨r.rundir.config.subdivision.getD 1, r.rundir.config.shearRate.getD 0, r.rundir.config.box,
      ⟨[], blocks ++ [q']⟩⟩, ?_, ?_⟩
    · rw [construct, addRun_readable rfl (by simp [compatible]) hread, pyLines_file hio, hb]
      simp only [addLines_header, i1]
      rw [addLines_append, q1]
      simp only
      rw [e1]
      simp [addRun.finish, hne]
    · intro order hord
      rw [List.perm_nil.1 hord]
      exact ⟨rfl, fun _ => rfl⟩

/-- Conversions for whole numbers only. -/
def digitsIo : Io ℚ := ⟨fun _ => [], fun t => some (Runs.digitsValue t : ℚ), fun _ => false⟩

/-- C88 does not hold: if adding a run raises since its file breaks off, the data of the lines before have been added
nevertheless. -/
theorem C88_failed_violated :
    ∃ (f : PyFlow ℚ) (r : Rundir ℚ), f.collected = ⟨[], []⟩ ∧
      (addRun digitsIo .three f r).2 = .error .indexError ∧
      (addRun digitsIo .three f r).1.collected.points.map (fun e => e.2.x.getSampleSize) = [2] := by
  refine ⟨⟨1, 0, (1, 2, 1), ⟨[], []⟩⟩,
    ⟨⟨none, none, (1, 2, 1)⟩, none, some "#\n0\t0\t0\t1\t1\t1\t0\t0\t0\t2\n0\t1".toList⟩, rfl, ?_, ?_⟩
  · rfl
  · rfl

/-! ### Examples -/

/-- Conversions that write whole numbers as such and everything else as `0.5`. -/
noncomputable def halfIo : Io ℝ where
  fmt x := open Classical in if x = (⌊x⌋₊ : ℝ) then natStr ⌊x⌋₊ else "0.5".toList
  parse t := if t = "0.5".toList then some (1 / 2) else some (Runs.digitsValue t : ℝ)
  negative x := open Classical in decide (x < 0)

theorem halfIo_prints : ∃ rnd, Prints halfIo rnd ∧ ∀ n : ℕ, rnd n = n := by
  have hdot : ∀ n : ℕ, natStr n ≠ "0.5".toList := by
    intro n h
    have := Runs.natStr_digits n '.' (by rw [h]; decide)
    exact absurd this (by decide)
  refine ⟨fun x => open Classical in if x = (⌊x⌋₊ : ℝ) then x else 1 / 2,
    { parse_fmt := fun x => ?_, token_fmt := fun x => ?_, fmt_nat := fun n _ => ?_, rnd_zero := by simp,
      fmt_head := fun x => ?_, fmt_fraction := fun k hk _ => ?_ }, fun n => by simp⟩
  · simp only [halfIo]
    split
    · rename_i h
      rw [if_neg (hdot _), Runs.digitsValue_natStr, ← h]
    · simp
  · simp only [halfIo]
    split
    · exact natStr_token _
    · exact ⟨by decide, by decide⟩
  · simp [halfIo]
  · simp only [halfIo]
    split
    · intro h
      have hm : '#' ∈ natStr ⌊x⌋₊ := List.mem_of_head? h
      exact absurd (Runs.natStr_digits _ _ hm) (by decide)
    · decide
  · have hk' : (2 : ℝ) ≤ k := by exact_mod_cast hk
    have hf : ⌊(1 / k : ℝ)⌋₊ = 0 := by
      rw [Nat.floor_eq_zero, div_lt_one (by linarith)]
      linarith
    simp only [halfIo, hf]
    rw [if_neg]
    · decide
    · have : (0 : ℝ) < 1 / k := by positivity
      simpa using this.ne'

/-- A run with velocities at two points, in two sweeps. -/
def sampleOps : List (FlowOp ℝ) :=
  [.newSweep, .add (0, 0, 0) ⟨1, 0, 2⟩, .add (0, 1, 0) ⟨5, 0, 2⟩, .newSweep, .add (0, 0, 0) ⟨3, 0, 2⟩]

theorem sampleOps_valid : ValidHistory (1, 2, 1) sampleOps := by
  rintro pre p v post h
  simp only [sampleOps] at h
  match pre, h with
  | [], h => simp at h
  | [a], h => simp at h; obtain ⟨rfl, ⟨rfl, rfl⟩, -⟩ := h; simp [sweeps]
  | [a, b], h => simp at h; obtain ⟨rfl, rfl, ⟨rfl, rfl⟩, -⟩ := h; simp [sweeps]
  | [a, b, c], h => simp at h
  | [a, b, c, d], h => simp at h; obtain ⟨rfl, rfl, rfl, rfl, ⟨rfl, rfl⟩, -⟩ := h; simp [sweeps]
  | a :: b :: c :: d :: e :: pre, h => simp at h

/-- There are a run as in C88, and two output blocks in another. -/
example : ∃ rnd, Prints halfIo rnd ∧ ∀ s : ℕ, ∃ r : Run, r.Saved halfIo .three (1, 2, 1) (1, 1, 1) ∧
    r.sweepCountPerOutput = s ∧ r.ops = sampleOps ∧ (s = 0 → r.OneBlock ∧ r.Configured 3 2) := by
  obtain ⟨rnd, h, -⟩ := halfIo_prints
  refine ⟨rnd, h, fun s => ?_⟩
  obtain ⟨f, hf, -⟩ := flow_inv (1, 2, 1) s sampleOps sampleOps_valid
  refine ⟨⟨s, sampleOps, ⟨⟨none, some 3, (1, 2, 1)⟩, none, some (saveToFile halfIo (1, 1, 1) f)⟩⟩,
    ⟨sampleOps_valid, f, hf, .inl ⟨rfl, rfl⟩⟩, rfl, rfl, fun hs => ⟨⟨by simp [sampleOps, sweeps], .inl hs⟩, rfl, rfl, rfl⟩⟩

/-- The mean and the variance at each point are exact in the example: rounding leaves the numbers that occur as they
are. -/
example : Spec.mean ((measuredAt (0, 0, 0) sampleOps).map Vec3.x) = 2 ∧
    (measuredAt (0, 1, 0) sampleOps).map Vec3.x = [5] ∧
    (measured (fun _ => True) sampleOps).map Vec3.x = [1, 5, 3] := by
  refine ⟨?_, ?_, ?_⟩ <;> simp [measuredAt, measured, sampleOps, Spec.mean]
  norm_num

end OpenMPCD.Profile.FlowFile
