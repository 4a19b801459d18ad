import Verif.Analysis.Text
import Verif.Instr.Fourier
import Verif.Vec.Props
import Verif.DDDA.Props
import Verif.Sim.Main

/-!
# The transverse velocity correlation function (C93)

The files written by the simulation with the Fourier-transformed velocities, and the program
`computeTransverseVelocityCorrelationFunction` which analyses them. Real numbers, exact, except that those in files are
rounded.
-/

set_option linter.unusedSectionVars false
set_option linter.unusedSimpArgs false

namespace OpenMPCD.Analysis.Transverse

open Runs (Str)
open Snapshot (Io Token isSpace)
open Instr.Fourier (waveVector)
open Vec3
open Stats (cppFeed C04_cpp_statistics)
open Runs

/-! ## Model -/

/-- A file saved by the simulation: `saveFourierTransformedVelocities`
(`src/OpenMPCD/CUDA/MPCFluid/Instrumentation/FourierTransformedVelocity/Base.cpp:82-105`). -/
def fileText (io : Io ℝ) (k_n : Vec3 ℝ) (records : List (ℝ × Vec3 ℂ)) : Str :=
  tabLine "#k_n:".toList [io.fmt k_n.x, io.fmt k_n.y, io.fmt k_n.z] ++
    records.flatMap fun r => tabLine (io.fmt r.1)
      [io.fmt r.2.x.re, io.fmt r.2.x.im, io.fmt r.2.y.re, io.fmt r.2.y.im, io.fmt r.2.z.re, io.fmt r.2.z.im]

/-- The exceptions. -/
inductive Err where
  /-- `OpenMPCD::IOException` -/
  | io
  /-- `boost::bad_lexical_cast` -/
  | badLexicalCast
  /-- `OpenMPCD::DivisionByZeroException` -/
  | divisionByZero
  /-- `OpenMPCD::InvalidCallException` -/
  | invalidCall
  /-- `OpenMPCD::InvalidConfigurationException` -/
  | invalidConfiguration
  /-- `OpenMPCD::InvalidArgumentException` -/
  | invalidArgument
  deriving DecidableEq

/-- `boost::algorithm::split(tokens, line, boost::is_any_of(" \t"))`, e.g.
`Analysis/src/computeTransverseVelocityCorrelationFunction/writePlotfiles.cpp:45`: empty parts are kept. -/
def splitBlank : Str → List Str
  | [] => [[]]
  | c :: cs =>
    if c = ' ' ∨ c = '\t' then [] :: splitBlank cs
    else match splitBlank cs with
      | [] => [[c]]
      | p :: ps => (c :: p) :: ps

/-- `boost::algorithm::trim`, e.g.
`Analysis/src/computeTransverseVelocityCorrelationFunction/writePlotfiles.cpp:53`. -/
def trim (s : Str) : Str := ((s.dropWhile isSpace).reverse.dropWhile isSpace).reverse

/-- `boost::lexical_cast<double>` of each of the trimmed parts. -/
noncomputable def parseAll (io : Io ℝ) (tokens : List Str) : Except Err (List ℝ) :=
  tokens.mapM fun t => match io.parse (trim t) with
    | none => .error .badLexicalCast
    | some x => .ok x

/-- The wave vector in the first line of a file
(`Analysis/src/computeTransverseVelocityCorrelationFunction/getWaveVectorsAndFiles.cpp:32-51`). -/
noncomputable def readHeaderLine (io : Io ℝ) (line : Str) : Except Err (Vec3 ℝ) :=
  if line.take 5 ≠ "#k_n:".toList then .error .io
  else
    let tokens := splitBlank (trim (line.drop 5))
    if tokens.length ≠ 3 then .error .io
    else match parseAll io tokens with
      | .error e => .error e
      | .ok [x, y, z] => .ok ⟨x, y, z⟩
      | .ok _ => .error .io

/-- The wave vector of a file
(`Analysis/src/computeTransverseVelocityCorrelationFunction/getWaveVectorsAndFiles.cpp:26-51`). The line is empty if there
is none. -/
noncomputable def readHeader (io : Io ℝ) (text : Str) : Except Err (Vec3 ℝ) :=
  readHeaderLine io ((pyLines text).headD [])

open Classical in
/-- One of the further lines; `none` for lines that are skipped
(`Analysis/src/computeTransverseVelocityCorrelationFunction/writePlotfiles.cpp:44-69`). The perpendicular part is that of
C53, with the same formula as in C++ (`include/OpenMPCD/Vector3D.hpp:241-288`), where a zero length makes `normalize`
throw. -/
noncomputable def dataLine (io : Io ℝ) (k : Vec3 ℂ) (minimumTime : ℝ) (line : Str) :
    Except Err (Option (ℝ × Vec3 ℂ)) :=
  let tokens := splitBlank line
  if tokens.length ≠ 7 then .error .io
  else match parseAll io tokens with
    | .error e => .error e
    | .ok [t, a, b, c, d, e, f] =>
      if t < minimumTime then .ok none
      else match Vec3.cGetPerpendicularTo ⟨⟨a, b⟩, ⟨c, d⟩, ⟨e, f⟩⟩ k with
        | none => .error .divisionByZero
        | some vT => .ok (some (t, vT))
    | .ok _ => .error .io

/-- `getDataFromFile` (`Analysis/src/computeTransverseVelocityCorrelationFunction/writePlotfiles.cpp:26-73`). -/
noncomputable def getDataFromFile (io : Io ℝ) (k : Vec3 ℂ) (minimumTime : ℝ) (text : Str) :
    Except Err (List (ℝ × Vec3 ℂ)) :=
  match (pyLines text).tail.mapM (dataLine io k minimumTime) with
  | .error e => .error e
  | .ok l => .ok (l.filterMap id)

/-- The data for one stride
(`Analysis/src/computeTransverseVelocityCorrelationFunction/writePlotfiles.cpp:119-135`), in the order they are added. -/
noncomputable def strideData (measurements : List (List (ℝ × Vec3 ℂ))) (stride : ℕ) : List ℝ :=
  measurements.flatMap fun set =>
    ((List.range set.length).takeWhile fun i => ¬ i + stride ≥ set.length).map fun i =>
      (Vec3.cdot (set.getD (i + stride) (0, 0)).2 (set.getD i (0, 0)).2).re

/-- `getTVACFFT` (`Analysis/src/computeTransverseVelocityCorrelationFunction/writePlotfiles.cpp:75-146`). -/
noncomputable def getTVACFFT (io : Io ℝ) (texts : List Str) (k : Vec3 ℂ) (minimumTime timestep : ℝ) (maxStride : ℕ) :
    Except Err (List (ℝ × DDDA.CppDDDA ℝ)) :=
  match texts.mapM (getDataFromFile io k minimumTime) with
  | .error e => .error e
  | .ok measurements =>
    .ok ((List.range maxStride).map fun (stride : ℕ) =>
      ((stride : ℝ) * timestep, (strideData measurements stride).foldl DDDA.cppAddDatum DDDA.cppInit))

/-- A row of the table. -/
@[ext] structure Row where
  time : ℝ
  normalized : ℝ
  mean : ℝ
  sampleSize : ℕ
  standardDeviation : ℝ

open Classical in
/-- The loop writing the table
(`Analysis/src/computeTransverseVelocityCorrelationFunction/writePlotfiles.cpp:208-224`): the rows written, and how it
ends. `getSampleMean` throws without data, `getSampleStandardDeviation` with less than two
(`include/OpenMPCD/ImplementationDetails/OnTheFlyStatisticsDDDA.hpp:42-53,82-107`). Simplification: the last three columns
(see C51) are left out, and with them a row that is not complete. -/
noncomputable def writeRows : ℝ → List (ℝ × DDDA.CppDDDA ℝ) → List Row × Except Err Unit
  | _, [] => ([], .ok ())
  | normalization, (t, d) :: rest =>
    match d with
    | [] => ([], .error .invalidCall)
    | (b, _) :: _ =>
      if b.getSampleSize < 2 then ([], .error .invalidCall)
      else
        let normalization := if normalization = 0 then b.getSampleMean else normalization
        let r := writeRows normalization rest
        (⟨t, b.getSampleMean / normalization, b.getSampleMean, b.getSampleSize, Real.sqrt b.getSampleVariance⟩ :: r.1,
          r.2)

/-- A file in the directory `fourierTransformedVelocities` of a run: its name and its (uncompressed, see
`Analysis/src/MPCDAnalysis/File.cpp:14-35`) content. -/
structure Entry where
  name : Str
  text : Str

/-- The name matches the regular expression `[0-9]+\.data.*`
(`Analysis/src/computeTransverseVelocityCorrelationFunction/getWaveVectorsAndFiles.cpp:17`,
`Analysis/src/MPCDAnalysis/Utilities.cpp:24`). -/
def isDataName (name : Str) : Bool :=
  (name.takeWhile Char.isDigit ≠ []) && (".data".toList).isPrefixOf (name.dropWhile Char.isDigit)

open Classical in
/-- `ret[k].push_back(filename)`
(`Analysis/src/computeTransverseVelocityCorrelationFunction/getWaveVectorsAndFiles.cpp:53`). Simplification: wave vectors
are in the order they are first found. -/
noncomputable def addPath (m : List (Vec3 ℝ × List Str)) (k : Vec3 ℝ) (text : Str) : List (Vec3 ℝ × List Str) :=
  if k ∈ m.map Prod.fst then m.map fun p => if p.1 = k then (p.1, p.2 ++ [text]) else p
  else m ++ [(k, [text])]

/-- `getWaveVectorsAndPaths`
(`Analysis/src/computeTransverseVelocityCorrelationFunction/getWaveVectorsAndFiles.cpp:12-58`), for the regular files of
the directories in the order they are found. The content of a file stands for its path. -/
noncomputable def getWaveVectorsAndPaths (io : Io ℝ) (entries : List Entry) :
    Except Err (List (Vec3 ℝ × List Str)) :=
  (entries.filter fun e => isDataName e.name).foldlM (fun m e =>
    match readHeader io e.text with
    | .error x => .error x
    | .ok k => .ok (addPath m k e.text)) []

open Classical in
/-- `getConsistentConfigValue` (`Analysis/include/MPCDAnalysis/Utilities.hpp:42-74`), given the values in the
configurations of the runs. -/
noncomputable def getConsistent (values : List ℝ) : Except Err ℝ :=
  match values with
  | [] => .error .invalidArgument
  | v :: vs => if ∀ x ∈ vs, v = x then .ok v else .error .invalidConfiguration

/-- The loop over the wave vectors
(`Analysis/src/computeTransverseVelocityCorrelationFunction/writePlotfiles.cpp:256-287`): the plot files written, and how
it ends. A plot file that could not be completed counts as written. -/
noncomputable def writeAll (io : Io ℝ) (box : ℕ × ℕ × ℕ) (minimumTime timestep : ℝ) (maxStride : ℕ) :
    List (Vec3 ℝ × List Str) → List (Vec3 ℝ × List Row) × Except Err Unit
  | [] => ([], .ok ())
  | (k_n, texts) :: rest =>
    match getTVACFFT io texts (waveVector box k_n).toComplex minimumTime timestep maxStride with
    | .error e => ([], .error e)
    | .ok tvacfft =>
      match (writeRows 0 tvacfft).2 with
      | .error e => ([(k_n, (writeRows 0 tvacfft).1)], .error e)
      | .ok () =>
        let r := writeAll io box minimumTime timestep maxStride rest
        ((k_n, (writeRows 0 tvacfft).1) :: r.1, r.2)

/-- `writePlotfiles` (`Analysis/src/computeTransverseVelocityCorrelationFunction/writePlotfiles.cpp:227-287`), given the
simulation box and the values of `mpc.timestep` in the configurations of the runs, and their files. Simplification: box
sizes and `kT` agree, the number of correlation times is in the range of `unsigned int`, and the wave vectors differ in the
first six digits that are used in the names of the plot files (`:267-272`). -/
noncomputable def writePlotfiles (io : Io ℝ) (box : ℕ × ℕ × ℕ) (minimumTime maxCorrelationTime : ℝ)
    (timesteps : List ℝ) (rundirs : List (List Entry)) : List (Vec3 ℝ × List Row) × Except Err Unit :=
  match getConsistent timesteps with
  | .error e => ([], .error e)
  | .ok mpcTimestep =>
    match getWaveVectorsAndPaths io rundirs.flatten with
    | .error e => ([], .error e)
    | .ok m => writeAll io box minimumTime mpcTimestep ⌈maxCorrelationTime / mpcTimestep⌉₊ m

/-! ## Specification -/

/-- A file of a run: its name, the wave vector, and what has been recorded. -/
structure DataFile where
  name : Str
  k_n : Vec3 ℝ
  records : List (ℝ × Vec3 ℂ)

/-- The file in the file system. -/
def DataFile.entry (io : Io ℝ) (f : DataFile) : Entry := ⟨f.name, fileText io f.k_n f.records⟩

/-- Rounding the components. -/
def roundVec (rnd : ℝ → ℝ) (u : Vec3 ℝ) : Vec3 ℝ := ⟨rnd u.x, rnd u.y, rnd u.z⟩
def roundComplex (rnd : ℝ → ℝ) (z : ℂ) : ℂ := ⟨rnd z.re, rnd z.im⟩
def roundVelocity (rnd : ℝ → ℝ) (u : Vec3 ℂ) : Vec3 ℂ :=
  ⟨roundComplex rnd u.x, roundComplex rnd u.y, roundComplex rnd u.z⟩

/-- The part of a velocity that is perpendicular to a (real) vector. -/
noncomputable def transverse (k : Vec3 ℝ) (v : Vec3 ℂ) : Vec3 ℂ :=
  v - (k.toComplex.cdot v / k.toComplex.cdot k.toComplex) • k.toComplex

open Classical in
/-- The transverse velocities recorded from the minimum time on, rounded as in the file. -/
noncomputable def kept (rnd : ℝ → ℝ) (minimumTime : ℝ) (k : Vec3 ℝ) (records : List (ℝ × Vec3 ℂ)) :
    List (ℝ × Vec3 ℂ) :=
  (records.filter fun r => minimumTime ≤ rnd r.1).map fun r => (rnd r.1, transverse k (roundVelocity rnd r.2))

/-- The products of velocities that were recorded `s` measurements apart, for a number of series of measurements. -/
noncomputable def products (series : List (List (ℝ × Vec3 ℂ))) (s : ℕ) : List ℝ :=
  series.flatMap fun l => List.zipWith (fun earlier later => (later.2.cdot earlier.2).re) l (l.drop s)

/-- The row for the products of velocities that were recorded `s` measurements apart. -/
noncomputable def expectedRow (series : List (List (ℝ × Vec3 ℂ))) (time : ℝ) (s : ℕ) : Row where
  time := time
  normalized := Spec.mean (products series s) / Spec.mean (products series 0)
  mean := Spec.mean (products series s)
  sampleSize := (products series s).length
  standardDeviation := Real.sqrt (Spec.variance (products series s))

open Classical in
/-- The series of measurements for a wave vector. -/
noncomputable def seriesOf (rnd : ℝ → ℝ) (box : ℕ × ℕ × ℕ) (minimumTime : ℝ) (files : List DataFile) (k_n : Vec3 ℝ) :
    List (List (ℝ × Vec3 ℂ)) :=
  (files.filter fun f => roundVec rnd f.k_n = k_n).map fun f => kept rnd minimumTime (waveVector box k_n) f.records

/-- All times in the rows are the differences of the times at which the velocities were recorded. -/
def TimesCorrect (series : List (List (ℝ × Vec3 ℂ))) (rows : List Row) : Prop :=
  ∀ (s : ℕ) (row : Row), rows[s]? = some row → ∀ l ∈ series, ∀ (i : ℕ) (a b : ℝ × Vec3 ℂ),
    l[i]? = some a → l[i + s]? = some b → row.time = b.1 - a.1

/-! ## Proofs -/

section reading

variable {io : Io ℝ} {rnd : ℝ → ℝ}

theorem token_noBlank {t : Str} (h : Token t) : ∀ c ∈ t, ¬ (c = ' ' ∨ c = '\t') := by
  intro c hc hb
  have := (h.2 c hc).1
  rcases hb with rfl | rfl <;> revert this <;> decide

theorem splitBlank_noBlank {t : Str} (h : ∀ c ∈ t, ¬ (c = ' ' ∨ c = '\t')) : splitBlank t = [t] := by
  induction t with
  | nil => rfl
  | cons c t ih =>
    rw [splitBlank, if_neg (h c (by simp)), ih fun x hx => h x (by simp [hx])]

theorem splitBlank_append {t : Str} (h : ∀ c ∈ t, ¬ (c = ' ' ∨ c = '\t')) (r : Str) :
    splitBlank (t ++ '\t' :: r) = t :: splitBlank r := by
  induction t with
  | nil => rw [List.nil_append, splitBlank, if_pos (.inr rfl)]
  | cons c t ih =>
    rw [List.cons_append, splitBlank, if_neg (h c (by simp)), ih fun x hx => h x (by simp [hx])]

theorem splitBlank_tabs (t : Str) (ts : List Str) (ht : Token t) (h : ∀ t ∈ ts, Token t) :
    splitBlank (t ++ ts.flatMap ('\t' :: ·)) = t :: ts := by
  induction ts generalizing t with
  | nil => rw [List.flatMap_nil, List.append_nil, splitBlank_noBlank (token_noBlank ht)]
  | cons u ts ih =>
    rw [List.flatMap_cons, List.cons_append, splitBlank_append (token_noBlank ht),
      ih u (h u (by simp)) fun x hx => h x (by simp [hx])]

theorem trim_of_ends {s : Str} {a b : Char} (ha : s.head? = some a) (hb : s.getLast? = some b)
    (hsa : isSpace a = false) (hsb : isSpace b = false) : trim s = s := by
  unfold trim
  have h1 : s.dropWhile isSpace = s := by
    cases s with
    | nil => rfl
    | cons c s =>
      simp only [List.head?_cons, Option.some.injEq] at ha
      subst ha
      rw [List.dropWhile_cons, if_neg (by simp [hsa])]
  have h2 : s.reverse.dropWhile isSpace = s.reverse := by
    have hb' : s.reverse.head? = some b := by rw [List.head?_reverse, hb]
    cases hr : s.reverse with
    | nil => rfl
    | cons c r =>
      rw [hr] at hb'
      simp only [List.head?_cons, Option.some.injEq] at hb'
      subst hb'
      rw [List.dropWhile_cons, if_neg (by simp [hsb])]
  rw [h1, h2, List.reverse_reverse]

theorem trim_token {t : Str} (h : Token t) : trim t = t := by
  obtain ⟨hne, h⟩ := h
  refine trim_of_ends (List.head?_eq_some_head hne) (List.getLast?_eq_some_getLast hne)
    (h _ (List.head_mem hne)).1 (h _ (List.getLast_mem hne)).1

theorem trim_cons_space {c : Char} {s : Str} (h : isSpace c = true) : trim (c :: s) = trim s := by
  unfold trim
  rw [List.dropWhile_cons, if_pos h]

theorem parseAll_fmt (hio : Rounds io rnd) (xs : List ℝ) : parseAll io (xs.map io.fmt) = .ok (xs.map rnd) := by
  unfold parseAll
  induction xs with
  | nil => rfl
  | cons x xs ih =>
    rw [List.map_cons, List.mapM_cons, ih, trim_token (hio.token_fmt x), hio.parse_fmt]
    rfl

theorem headerToken : Token "#k_n:".toList := by
  refine ⟨by decide, ?_⟩
  decide

theorem lines_fileText (hio : Rounds io rnd) (k_n : Vec3 ℝ) (records : List (ℝ × Vec3 ℂ)) :
    pyLines (fileText io k_n records) =
      ("#k_n:".toList ++ [io.fmt k_n.x, io.fmt k_n.y, io.fmt k_n.z].flatMap ('\t' :: ·)) ::
        records.map fun r => io.fmt r.1 ++
          ([r.2.x.re, r.2.x.im, r.2.y.re, r.2.y.im, r.2.z.re, r.2.z.im].map io.fmt).flatMap ('\t' :: ·) := by
  have ht := hio.token_fmt
  unfold fileText
  rw [pyLines_tabLine _ _ headerToken (by simp [ht])]
  congr 1
  induction records with
  | nil => rfl
  | cons r records ih =>
    rw [List.flatMap_cons, pyLines_tabLine _ _ (ht _) (by simp [ht]), ih]
    rfl

theorem readHeader_fileText (hio : Rounds io rnd) (k_n : Vec3 ℝ) (records : List (ℝ × Vec3 ℂ)) :
    readHeader io (fileText io k_n records) = .ok (roundVec rnd k_n) := by
  have ht := hio.token_fmt
  unfold readHeader
  rw [lines_fileText hio]
  have e1 : ("#k_n:".toList ++ [io.fmt k_n.x, io.fmt k_n.y, io.fmt k_n.z].flatMap ('\t' :: ·)).take 5 =
      "#k_n:".toList := by
    exact List.take_left' (by decide)
  have e2 : ("#k_n:".toList ++ [io.fmt k_n.x, io.fmt k_n.y, io.fmt k_n.z].flatMap ('\t' :: ·)).drop 5 =
      '\t' :: (io.fmt k_n.x ++ [io.fmt k_n.y, io.fmt k_n.z].flatMap ('\t' :: ·)) := by
    exact List.drop_left' (by decide)
  have e3 : trim (io.fmt k_n.x ++ [io.fmt k_n.y, io.fmt k_n.z].flatMap ('\t' :: ·)) =
      io.fmt k_n.x ++ [io.fmt k_n.y, io.fmt k_n.z].flatMap ('\t' :: ·) := by
    have hx := ht k_n.x
    have hz := ht k_n.z
    refine trim_of_ends (a := (io.fmt k_n.x).head hx.1) (b := (io.fmt k_n.z).getLast hz.1) ?_ ?_
      (hx.2 _ (List.head_mem _)).1 (hz.2 _ (List.getLast_mem _)).1
    · rw [List.head?_append, List.head?_eq_some_head hx.1]
      rfl
    · have : io.fmt k_n.x ++ [io.fmt k_n.y, io.fmt k_n.z].flatMap ('\t' :: ·) =
          (io.fmt k_n.x ++ '\t' :: io.fmt k_n.y ++ ['\t']) ++ io.fmt k_n.z := by
        simp
      rw [this, List.getLast?_append, List.getLast?_eq_some_getLast hz.1]
      rfl
  have e4 : parseAll io (io.fmt k_n.x :: [io.fmt k_n.y, io.fmt k_n.z]) = .ok [rnd k_n.x, rnd k_n.y, rnd k_n.z] :=
    parseAll_fmt hio [k_n.x, k_n.y, k_n.z]
  have e5 := splitBlank_tabs _ [io.fmt k_n.y, io.fmt k_n.z] (ht k_n.x) (by simp [ht])
  have e6 : trim ('\t' :: (io.fmt k_n.x ++ [io.fmt k_n.y, io.fmt k_n.z].flatMap ('\t' :: ·))) =
      io.fmt k_n.x ++ [io.fmt k_n.y, io.fmt k_n.z].flatMap ('\t' :: ·) := by
    rw [trim_cons_space (by rfl), e3]
  rw [List.headD_cons]
  unfold readHeaderLine
  rw [if_neg (not_not.2 e1), e2, e6, e5]
  dsimp only
  rw [if_neg (by simp), e4]
  rfl

theorem perpendicular_transverse (k : Vec3 ℝ) (hk : k ≠ 0) (v : Vec3 ℂ) :
    Vec3.cGetPerpendicularTo v k.toComplex = some (transverse k v) := by
  have hkc : k.toComplex ≠ 0 := by
    intro h
    apply hk
    have hx := congrArg Vec3.x h
    have hy := congrArg Vec3.y h
    have hz := congrArg Vec3.z h
    simp only [toComplex, zero_x, zero_y, zero_z, Complex.ofReal_eq_zero] at hx hy hz
    ext <;> simp [hx, hy, hz]
  obtain ⟨p, q, -, hq, hpq, ⟨t, rfl⟩, horth⟩ := C53_projection v k.toComplex hkc
  rw [hq]
  unfold transverse
  have hself : k.toComplex.cdot k.toComplex ≠ 0 := by
    rw [← (C53_dot k.toComplex 0 0 0).2.2.1]
    intro h
    exact hkc ((cLengthSquared_eq_zero _).1 (by exact_mod_cast h))
  have hdot : k.toComplex.cdot v = t * k.toComplex.cdot k.toComplex := by
    rw [← hpq, (C53_dot k.toComplex k.toComplex q t).2.1, horth, add_zero]
  rw [hdot, mul_div_cancel_right₀ _ hself, ← hpq, add_sub_cancel_left]

theorem dataLine_fmt (hio : Rounds io rnd) {k : Vec3 ℝ} (hk : k ≠ 0) (minimumTime : ℝ) (r : ℝ × Vec3 ℂ) :
    dataLine io k.toComplex minimumTime (io.fmt r.1 ++
        ([r.2.x.re, r.2.x.im, r.2.y.re, r.2.y.im, r.2.z.re, r.2.z.im].map io.fmt).flatMap ('\t' :: ·)) =
      .ok (if rnd r.1 < minimumTime then none else some (rnd r.1, transverse k (roundVelocity rnd r.2))) := by
  have ht := hio.token_fmt
  unfold dataLine
  rw [splitBlank_tabs _ _ (ht _) (by simp [ht])]
  dsimp only
  rw [if_neg (by simp)]
  have e := parseAll_fmt hio [r.1, r.2.x.re, r.2.x.im, r.2.y.re, r.2.y.im, r.2.z.re, r.2.z.im]
  rw [List.map_cons] at e
  rw [e]
  simp only [List.map_cons, List.map_nil]
  by_cases h : rnd r.1 < minimumTime
  · rw [if_pos h, if_pos h]
  · rw [if_neg h, if_neg h]
    have := perpendicular_transverse k hk (roundVelocity rnd r.2)
    unfold roundVelocity roundComplex at this
    rw [this]
    rfl

theorem mapM_ok {α β ε : Type} (f : α → Except ε β) (g : α → β) (l : List α) (h : ∀ a ∈ l, f a = .ok (g a)) :
    l.mapM f = .ok (l.map g) := by
  induction l with
  | nil => rfl
  | cons a l ih =>
    rw [List.mapM_cons, h a (by simp), ih fun x hx => h x (by simp [hx])]
    rfl

theorem mapM_ok_mem {α β ε : Type} {f : α → Except ε β} {l : List α} {l' : List β} (h : l.mapM f = .ok l') {a : α}
    (ha : a ∈ l) : ∃ b, f a = .ok b := by
  induction l generalizing l' with
  | nil => simp at ha
  | cons x l ih =>
    rw [List.mapM_cons] at h
    cases hx : f x with
    | error e =>
      rw [hx] at h
      exact absurd h nofun
    | ok b =>
      rw [hx] at h
      cases hl : l.mapM f with
      | error e =>
        rw [hl] at h
        exact absurd h nofun
      | ok bs =>
        rcases List.mem_cons.1 ha with rfl | ha
        · exact ⟨b, hx⟩
        · exact ih hl ha

theorem getDataFromFile_fileText (hio : Rounds io rnd) {k : Vec3 ℝ} (hk : k ≠ 0) (minimumTime : ℝ) (k_n : Vec3 ℝ)
    (records : List (ℝ × Vec3 ℂ)) :
    getDataFromFile io k.toComplex minimumTime (fileText io k_n records) = .ok (kept rnd minimumTime k records) := by
  unfold getDataFromFile
  rw [lines_fileText hio, List.tail_cons,
    mapM_ok _ (fun line => (dataLine io k.toComplex minimumTime line).toOption.getD none)]
  · simp only [List.map_map, List.filterMap_map]
    congr 1
    unfold kept
    induction records with
    | nil => rfl
    | cons r records ih =>
      have h := dataLine_fmt hio hk minimumTime r
      rw [List.filterMap_cons]
      simp only [Function.comp] at ih ⊢
      rw [h, ih]
      by_cases hlt : rnd r.1 < minimumTime
      · rw [if_pos hlt, List.filter_cons, if_neg (by simpa using hlt)]
        rfl
      · rw [if_neg hlt, List.filter_cons, if_pos (by simpa using hlt)]
        rfl
  · intro line hl
    obtain ⟨r, -, rfl⟩ := List.mem_map.1 hl
    rw [dataLine_fmt hio hk]
    rfl

end reading

section statistics

theorem takeWhile_range (n s : ℕ) :
    (List.range n).takeWhile (fun i => ¬ i + s ≥ n) = List.range (n - s) := by
  have h : n = (n - s) + min n s := by omega
  conv_lhs => rw [h, List.range_add]
  rw [List.takeWhile_append_of_pos]
  · have : (List.map (fun x => n - s + x) (List.range (min n s))).takeWhile
        (fun i => decide ¬ i + s ≥ n - s + min n s) = [] := by
      cases hm : min n s with
      | zero => rfl
      | succ m =>
        rw [List.range_succ_eq_map, List.map_cons, List.takeWhile_cons, if_neg]
        simp only [decide_eq_true_eq]
        omega
    rw [this, List.append_nil]
  · intro i hi
    have := List.mem_range.1 hi
    simp only [decide_eq_true_eq]
    omega

theorem strideData_eq (series : List (List (ℝ × Vec3 ℂ))) (s : ℕ) : strideData series s = products series s := by
  unfold strideData products
  congr 1
  funext l
  rw [takeWhile_range]
  apply List.ext_getElem
  · simp
  · intro i h1 h2
    have hi : i + s < l.length := by
      simp only [List.length_map, List.length_range] at h1
      omega
    simp [List.getElem_drop, List.getD_eq_getElem?_getD, List.getElem?_eq_getElem hi,
      List.getElem?_eq_getElem (show i < l.length by omega), Nat.add_comm s i]

theorem feed_block (xs : List ℝ) :
    ∃ w rest, xs.foldl DDDA.cppAddDatum DDDA.cppInit = (cppFeed xs, w) :: rest := by
  induction xs using List.reverseRecOn with
  | nil => exact ⟨none, [], rfl⟩
  | append_singleton xs x ih =>
    obtain ⟨w, rest, ih⟩ := ih
    rw [List.foldl_append, ih]
    have e : cppFeed (xs ++ [x]) = (cppFeed xs).addDatum x := by simp [cppFeed]
    rw [e]
    cases w with
    | none => exact ⟨_, _, rfl⟩
    | some w => exact ⟨_, _, rfl⟩

theorem writeRows_eq (series : List (List (ℝ × Vec3 ℂ))) (dt : ℝ) (n : ℕ)
    (h2 : ∀ s < n, 2 ≤ (products series s).length) (h0 : Spec.mean (products series 0) ≠ 0) (m : ℕ) (hm : m ≤ n)
    (norm : ℝ) (hnorm : norm = if m = n then 0 else Spec.mean (products series 0)) :
    writeRows norm ((List.range' (n - m) m).map fun (s : ℕ) =>
      ((s : ℝ) * dt, (strideData series s).foldl DDDA.cppAddDatum DDDA.cppInit)) =
      ((List.range' (n - m) m).map fun (s : ℕ) => expectedRow series (s * dt) s, .ok ()) := by
  induction m generalizing norm with
  | zero => rfl
  | succ m ih =>
    rw [List.range'_succ, List.map_cons, List.map_cons, strideData_eq]
    obtain ⟨w, rest, hb⟩ := feed_block (products series (n - (m + 1)))
    have hlen := h2 (n - (m + 1)) (by omega)
    obtain ⟨c1, c2, c3⟩ := C04_cpp_statistics (products series (n - (m + 1)))
    rw [if_neg (by intro h; rw [h] at hlen; simp at hlen)] at c2
    rw [if_neg (by omega)] at c3
    rw [hb, writeRows]
    dsimp only
    rw [c1, if_neg (by omega), c2, c3]
    have hn : (if norm = 0 then Spec.mean (products series (n - (m + 1))) else norm) =
        Spec.mean (products series 0) := by
      rw [hnorm]
      by_cases hmn : m + 1 = n
      · rw [if_pos hmn, if_pos rfl, hmn, Nat.sub_self]
      · rw [if_neg hmn, if_neg h0]
    rw [hn]
    have := ih (by omega) (Spec.mean (products series 0)) (by rw [if_neg (by omega)])
    rw [show n - (m + 1) + 1 = n - m by omega, this]
    rfl

end statistics

section program

variable {io : Io ℝ} {rnd : ℝ → ℝ}

open Classical in
/-- What is known about the map from wave vectors to files. -/
def MapInv (io : Io ℝ) (rnd : ℝ → ℝ) (files : List DataFile) (m : List (Vec3 ℝ × List Str)) : Prop :=
  (m.map Prod.fst).Nodup ∧ (∀ k, k ∈ m.map Prod.fst ↔ ∃ f ∈ files, roundVec rnd f.k_n = k) ∧
    ∀ p ∈ m, p.2 = (files.filter fun f => roundVec rnd f.k_n = p.1).map fun f => fileText io f.k_n f.records

theorem MapInv.add {files : List DataFile} {m : List (Vec3 ℝ × List Str)} (h : MapInv io rnd files m) (f : DataFile) :
    MapInv io rnd (files ++ [f]) (addPath m (roundVec rnd f.k_n) (fileText io f.k_n f.records)) := by
  classical
  obtain ⟨h1, h2, h3⟩ := h
  unfold addPath
  by_cases hk : roundVec rnd f.k_n ∈ m.map Prod.fst
  · rw [if_pos hk]
    have hfst : (m.map fun p => if p.1 = roundVec rnd f.k_n then (p.1, p.2 ++ [fileText io f.k_n f.records]) else p).map
        Prod.fst = m.map Prod.fst := by
      rw [List.map_map]
      apply List.map_congr_left
      intro p _
      simp only [Function.comp]
      split_ifs <;> rfl
    refine ⟨by rw [hfst]; exact h1, fun k => ?_, ?_⟩
    · rw [hfst, h2]
      constructor
      · rintro ⟨g, hg, e⟩
        exact ⟨g, by simp [hg], e⟩
      · rintro ⟨g, hg, e⟩
        rcases List.mem_append.1 hg with hg | hg
        · exact ⟨g, hg, e⟩
        · rw [List.mem_singleton.1 hg] at e
          rw [← e]
          exact (h2 _).1 hk
    · intro p hp
      obtain ⟨q, hq, rfl⟩ := List.mem_map.1 hp
      have hq3 := h3 q hq
      by_cases e : q.1 = roundVec rnd f.k_n
      · rw [if_pos e]
        dsimp only
        rw [List.filter_append, List.map_append, hq3]
        simp [e]
      · rw [if_neg e, List.filter_append, List.map_append, hq3]
        simp [Ne.symm e]
  · rw [if_neg hk]
    have hno : ∀ g ∈ files, ¬ roundVec rnd g.k_n = roundVec rnd f.k_n := fun g hg e => hk ((h2 _).2 ⟨g, hg, e⟩)
    refine ⟨?_, fun k => ?_, ?_⟩
    · rw [List.map_append, List.nodup_append]
      refine ⟨h1, by simp, ?_⟩
      intro a ha b hb e
      rw [List.map_singleton, List.mem_singleton] at hb
      subst hb
      rw [e] at ha
      exact hk ha
    · rw [List.map_append, List.mem_append, h2]
      simp only [List.map_singleton, List.mem_singleton, List.mem_append]
      constructor
      · rintro (⟨g, hg, e⟩ | e)
        · exact ⟨g, .inl hg, e⟩
        · exact ⟨f, .inr rfl, e.symm⟩
      · rintro ⟨g, hg | rfl, e⟩
        · exact .inl ⟨g, hg, e⟩
        · exact .inr e.symm
    · intro p hp
      rcases List.mem_append.1 hp with hp | hp
      · have e : ¬ roundVec rnd f.k_n = p.1 := fun e => hk (e ▸ List.mem_map_of_mem hp)
        rw [List.filter_append, List.map_append, h3 p hp]
        simp [e]
      · rw [List.mem_singleton.1 hp, List.filter_append, List.map_append,
          List.filter_eq_nil_iff.2 (by simpa using hno)]
        simp

theorem getWaveVectorsAndPaths_eq (hio : Rounds io rnd) (files : List DataFile)
    (hn : ∀ f ∈ files, isDataName f.name = true) :
    ∃ m, getWaveVectorsAndPaths io (files.map (DataFile.entry io)) = .ok m ∧ MapInv io rnd files m := by
  unfold getWaveVectorsAndPaths
  rw [List.filter_eq_self.2]
  · clear hn
    induction files using List.reverseRecOn with
    | nil => exact ⟨[], rfl, by simp, by simp, by simp⟩
    | append_singleton files f ih =>
      obtain ⟨m, h1, h2⟩ := ih
      refine ⟨_, ?_, h2.add f⟩
      rw [List.map_append, List.foldlM_append, h1]
      simp only [List.map_cons, List.map_nil, List.foldlM_cons, List.foldlM_nil, DataFile.entry,
        readHeader_fileText hio]
      rfl
  · intro e he
    obtain ⟨f, hf, rfl⟩ := List.mem_map.1 he
    exact hn f hf

theorem waveVector_ne_zero {box : ℕ × ℕ × ℕ} (hbox : box.1 ≠ 0 ∧ box.2.1 ≠ 0 ∧ box.2.2 ≠ 0) {k : Vec3 ℝ} (hk : k ≠ 0) :
    waveVector box k ≠ 0 := by
  intro h
  apply hk
  have hx := congrArg Vec3.x h
  have hy := congrArg Vec3.y h
  have hz := congrArg Vec3.z h
  have hpi := Real.pi_ne_zero
  simp only [waveVector, zero_x, zero_y, zero_z, mul_eq_zero, div_eq_zero_iff, Nat.cast_eq_zero, hbox.1, hbox.2.1,
    hbox.2.2, hpi, or_false, OfNat.ofNat_ne_zero] at hx hy hz
  ext <;> assumption

/-- The settings and files are such that there is something to be computed: time steps agree, no wave vector is zero, and
for each of them there are at least two products for each of the correlation times, and the transverse velocities are not
all zero. -/
structure Analysable (rnd : ℝ → ℝ) (box : ℕ × ℕ × ℕ) (minimumTime : ℝ) (maxStride : ℕ) (files : List DataFile) : Prop where
  boxSize : box.1 ≠ 0 ∧ box.2.1 ≠ 0 ∧ box.2.2 ≠ 0
  names : ∀ f ∈ files, isDataName f.name = true
  nonzero : ∀ f ∈ files, roundVec rnd f.k_n ≠ 0
  enough : ∀ f ∈ files, ∀ s < maxStride, 2 ≤ (products (seriesOf rnd box minimumTime files (roundVec rnd f.k_n)) s).length
  norm : ∀ f ∈ files, Spec.mean (products (seriesOf rnd box minimumTime files (roundVec rnd f.k_n)) 0) ≠ 0

theorem writeAll_eq (hio : Rounds io rnd) {box : ℕ × ℕ × ℕ} {minimumTime : ℝ} {maxStride : ℕ} {files : List DataFile}
    (ha : Analysable rnd box minimumTime maxStride files) (dt : ℝ) (m : List (Vec3 ℝ × List Str))
    (hm : ∀ p ∈ m, (∃ f ∈ files, roundVec rnd f.k_n = p.1) ∧
      p.2 = by classical exact
        (files.filter fun f => roundVec rnd f.k_n = p.1).map fun f => fileText io f.k_n f.records) :
    writeAll io box minimumTime dt maxStride m =
      (m.map fun p => (p.1, (List.range maxStride).map fun (s : ℕ) =>
        expectedRow (seriesOf rnd box minimumTime files p.1) (s * dt) s), .ok ()) := by
  induction m with
  | nil => rfl
  | cons p m ih =>
    obtain ⟨k_n, texts⟩ := p
    obtain ⟨⟨f, hf, hfk⟩, htexts⟩ := hm (k_n, texts) (by simp)
    dsimp only at hfk htexts
    subst hfk
    have hk := waveVector_ne_zero ha.boxSize (ha.nonzero f hf)
    have hread : texts.mapM (getDataFromFile io (waveVector box (roundVec rnd f.k_n)).toComplex minimumTime) =
        .ok (seriesOf rnd box minimumTime files (roundVec rnd f.k_n)) := by
      rw [htexts, List.mapM_map, mapM_ok _ fun g => kept rnd minimumTime (waveVector box (roundVec rnd f.k_n)) g.records]
      · rfl
      · intro g _
        exact getDataFromFile_fileText hio hk minimumTime g.k_n g.records
    rw [writeAll]
    unfold getTVACFFT
    rw [hread]
    dsimp only
    have hrows := writeRows_eq (seriesOf rnd box minimumTime files (roundVec rnd f.k_n)) dt maxStride (ha.enough f hf)
      (ha.norm f hf) maxStride le_rfl 0 (by rw [if_pos rfl])
    rw [Nat.sub_self, ← List.range_eq_range'] at hrows
    rw [hrows, ih fun p hp => hm p (by simp [hp])]
    rfl

/-- C93: each plot file contains, for each multiple of the time step less than the maximum correlation time, the number,
the average and the standard deviation of the products of the transverse velocities that were recorded this number of
measurements apart from each other, in all files of all runs for this wave vector, and the average divided by that for
time zero; and there is a plot file for each wave vector. -/
theorem C93_table_partial (hio : Rounds io rnd) (box : ℕ × ℕ × ℕ) (minimumTime maxCorrelationTime dt : ℝ)
    (runs : List (List DataFile)) (hne : runs ≠ [])
    (ha : Analysable rnd box minimumTime ⌈maxCorrelationTime / dt⌉₊ runs.flatten) :
    ∃ plots, writePlotfiles io box minimumTime maxCorrelationTime (runs.map fun _ => dt)
        (runs.map fun r => r.map (DataFile.entry io)) = (plots, .ok ()) ∧
      (plots.map Prod.fst).Nodup ∧
      (∀ k, k ∈ plots.map Prod.fst ↔ ∃ f ∈ runs.flatten, roundVec rnd f.k_n = k) ∧
      ∀ p ∈ plots, p.2 = (List.range ⌈maxCorrelationTime / dt⌉₊).map fun (s : ℕ) =>
        expectedRow (seriesOf rnd box minimumTime runs.flatten p.1) (s * dt) s := by
  obtain ⟨m, hm, i1, i2, i3⟩ := getWaveVectorsAndPaths_eq hio runs.flatten ha.names
  have hcons : getConsistent (runs.map fun _ => dt) = .ok dt := by
    cases runs with
    | nil => exact absurd rfl hne
    | cons r rs =>
      unfold getConsistent
      rw [List.map_cons]
      dsimp only
      rw [if_pos]
      intro x hx
      obtain ⟨-, -, rfl⟩ := List.mem_map.1 hx
      rfl
  have hflat : (runs.map fun r => r.map (DataFile.entry io)).flatten = runs.flatten.map (DataFile.entry io) := by
    rw [List.map_flatten]
  have hall := writeAll_eq hio ha dt m fun p hp => ⟨(i2 p.1).1 (List.mem_map_of_mem hp), by rw [i3 p hp]⟩
  have hw : writePlotfiles io box minimumTime maxCorrelationTime (runs.map fun _ => dt)
      (runs.map fun r => r.map (DataFile.entry io)) = writeAll io box minimumTime dt ⌈maxCorrelationTime / dt⌉₊ m := by
    unfold writePlotfiles
    rw [hcons]
    dsimp only
    rw [hflat, hm]
  refine ⟨_, hw.trans hall, ?_, ?_, ?_⟩
  · simpa [List.map_map, Function.comp_def] using i1
  · intro k
    rw [← i2 k]
    simp [List.map_map, Function.comp_def]
  · intro p hp
    obtain ⟨q, -, rfl⟩ := List.mem_map.1 hp
    rfl

/-! ### Times -/

/-- The times of consecutive records are a fixed time apart. -/
def Equidistant (rnd : ℝ → ℝ) (δ : ℝ) (records : List (ℝ × Vec3 ℂ)) : Prop :=
  List.IsChain (fun a b => rnd b.1 = rnd a.1 + δ) records

theorem Equidistant.ge {δ : ℝ} (hδ : 0 < δ) {r : ℝ × Vec3 ℂ} {records : List (ℝ × Vec3 ℂ)}
    (h : Equidistant rnd δ (r :: records)) : ∀ x ∈ records, rnd r.1 ≤ rnd x.1 := by
  induction records generalizing r with
  | nil => simp
  | cons a l ih =>
    unfold Equidistant at h
    rw [List.isChain_cons_cons] at h
    intro x hx
    rcases List.mem_cons.1 hx with rfl | hx
    · linarith [h.1]
    · linarith [h.1, ih h.2 x hx]

theorem kept_times {δ : ℝ} (hδ : 0 < δ) (minimumTime : ℝ) (k : Vec3 ℝ) {records : List (ℝ × Vec3 ℂ)}
    (h : Equidistant rnd δ records) :
    List.IsChain (fun a b => b.1 = a.1 + δ) (kept rnd minimumTime k records) := by
  induction records with
  | nil => exact List.IsChain.nil
  | cons r l ih =>
    by_cases hr : minimumTime ≤ rnd r.1
    · have hall : (r :: l).filter (fun r => decide (minimumTime ≤ rnd r.1)) = r :: l := by
        rw [List.filter_eq_self]
        intro x hx
        rcases List.mem_cons.1 hx with rfl | hx
        · simpa using hr
        · simpa using hr.trans (h.ge hδ x hx)
      unfold kept
      have e : (r :: l).filter (fun r => @decide (minimumTime ≤ rnd r.1) (Classical.propDecidable _)) = r :: l := by
        rw [← hall]
        simp
      rw [e, List.isChain_map]
      exact h
    · have : kept rnd minimumTime k (r :: l) = kept rnd minimumTime k l := by
        unfold kept
        rw [List.filter_cons, if_neg (by simpa using hr)]
      rw [this]
      apply ih
      unfold Equidistant at h ⊢
      cases l with
      | nil => exact List.IsChain.nil
      | cons a l => exact (List.isChain_cons_cons.1 h).2

theorem chain_difference {δ : ℝ} {l : List (ℝ × Vec3 ℂ)} (h : List.IsChain (fun a b => b.1 = a.1 + δ) l) (i s : ℕ)
    (a b : ℝ × Vec3 ℂ) (ha : l[i]? = some a) (hb : l[i + s]? = some b) : b.1 - a.1 = s * δ := by
  induction s generalizing b with
  | zero =>
    rw [Nat.add_zero, ha, Option.some.injEq] at hb
    subst hb
    simp
  | succ s ih =>
    have hlt : i + s + 1 < l.length := (List.getElem?_eq_some_iff.1 hb).1
    have hc := (List.isChain_iff_getElem.1 h) (i + s) hlt
    have := ih l[i + s] (List.getElem?_eq_getElem (by omega))
    rw [show i + (s + 1) = i + s + 1 by omega, List.getElem?_eq_getElem hlt, Option.some.injEq] at hb
    rw [← hb, hc]
    push_cast
    linarith

/-- C93: if measurements are one time step apart, the times given are the differences of the times at which the velocities
were recorded. -/
theorem C93_time_partial (box : ℕ × ℕ × ℕ) (minimumTime : ℝ) {dt : ℝ} (hdt : 0 < dt) (n : ℕ) (files : List DataFile)
    (k_n : Vec3 ℝ) (h : ∀ f ∈ files, Equidistant rnd dt f.records) :
    TimesCorrect (seriesOf rnd box minimumTime files k_n) ((List.range n).map fun (s : ℕ) =>
      expectedRow (seriesOf rnd box minimumTime files k_n) (s * dt) s) := by
  intro s row hrow l hl i a b ha hb
  rw [List.getElem?_map] at hrow
  obtain ⟨s', hs', rfl⟩ := Option.map_eq_some_iff.1 hrow
  obtain ⟨hlt, e⟩ := List.getElem?_eq_some_iff.1 hs'
  rw [List.getElem_range] at e
  subst e
  obtain ⟨f, hf, rfl⟩ := List.mem_map.1 hl
  rw [chain_difference (kept_times hdt minimumTime _ (h f (List.mem_filter.1 hf).1)) i s a b ha hb]
  rfl

/-- The `n`-th measurement takes place at the time given by C68, so that measurements are `sweepSize` time steps apart. -/
theorem C93_distance (warmupSteps sweepSize : ℕ) (dt : ℝ) (velocities : List (Vec3 ℂ)) :
    Equidistant id (sweepSize * dt) (velocities.mapIdx fun n v =>
      (((warmupSteps + (n + 1) * sweepSize : ℕ) : ℝ) * dt, v)) := by
  unfold Equidistant
  rw [List.isChain_iff_getElem]
  intro i hi
  simp only [List.getElem_mapIdx, id]
  push_cast
  ring

/-! ### Violations -/

theorem writeAll_ok {box : ℕ × ℕ × ℕ} {minimumTime dt : ℝ} {maxStride : ℕ} {m : List (Vec3 ℝ × List Str)}
    (h : (writeAll io box minimumTime dt maxStride m).2 = .ok ()) : ∀ p ∈ m, ∃ tvacfft,
      getTVACFFT io p.2 (waveVector box p.1).toComplex minimumTime dt maxStride = .ok tvacfft ∧
      (writeRows 0 tvacfft).2 = .ok () := by
  induction m with
  | nil => simp
  | cons q m ih =>
    obtain ⟨k_n, texts⟩ := q
    rw [writeAll] at h
    cases hg : getTVACFFT io texts (waveVector box k_n).toComplex minimumTime dt maxStride with
    | error e =>
      rw [hg] at h
      exact absurd h nofun
    | ok tvacfft =>
      rw [hg] at h
      dsimp only at h
      cases hw : (writeRows 0 tvacfft).2 with
      | error e =>
        rw [hw] at h
        exact absurd h nofun
      | ok u =>
        rw [hw] at h
        intro p hp
        rcases List.mem_cons.1 hp with rfl | hp
        · exact ⟨tvacfft, hg, hw⟩
        · exact ih h p hp

theorem writeRows_ok {norm : ℝ} {l : List (ℝ × DDDA.CppDDDA ℝ)} (h : (writeRows norm l).2 = .ok ()) :
    ∀ p ∈ l, ∃ b rest, p.2 = b :: rest ∧ 2 ≤ b.1.getSampleSize := by
  induction l generalizing norm with
  | nil => simp
  | cons q l ih =>
    obtain ⟨t, d⟩ := q
    cases d with
    | nil =>
      rw [writeRows] at h
      exact absurd h nofun
    | cons b d =>
      obtain ⟨b, w⟩ := b
      rw [writeRows] at h
      by_cases hb : b.getSampleSize < 2
      · rw [if_pos hb] at h
        exact absurd h nofun
      · rw [if_neg hb] at h
        intro p hp
        rcases List.mem_cons.1 hp with rfl | hp
        · exact ⟨(b, w), d, rfl, not_lt.1 hb⟩
        · exact ih h p hp

open Classical in
/-- The files for a wave vector. -/
noncomputable def textsOf (io : Io ℝ) (rnd : ℝ → ℝ) (files : List DataFile) (k : Vec3 ℝ) : List Str :=
  (files.filter fun g => roundVec rnd g.k_n = k).map fun g => fileText io g.k_n g.records

theorem writePlotfiles_ok (hio : Rounds io rnd) {box : ℕ × ℕ × ℕ} {minimumTime maxCorrelationTime dt : ℝ}
    {runs : List (List DataFile)} (hn : ∀ f ∈ runs.flatten, isDataName f.name = true)
    (h : (writePlotfiles io box minimumTime maxCorrelationTime (runs.map fun _ => dt)
      (runs.map fun r => r.map (DataFile.entry io))).2 = .ok ()) {f : DataFile} (hf : f ∈ runs.flatten) :
    ∃ texts tvacfft, fileText io f.k_n f.records ∈ texts ∧
      getTVACFFT io texts (waveVector box (roundVec rnd f.k_n)).toComplex minimumTime dt ⌈maxCorrelationTime / dt⌉₊ =
        .ok tvacfft ∧ (writeRows 0 tvacfft).2 = .ok () ∧
      texts = textsOf io rnd runs.flatten (roundVec rnd f.k_n) := by
  classical
  obtain ⟨m, hm, i1, i2, i3⟩ := getWaveVectorsAndPaths_eq hio runs.flatten hn
  have hcons : getConsistent (runs.map fun _ => dt) = .ok dt := by
    cases runs with
    | nil => simp at hf
    | cons r rs =>
      unfold getConsistent
      rw [List.map_cons]
      dsimp only
      rw [if_pos]
      intro x hx
      obtain ⟨-, -, rfl⟩ := List.mem_map.1 hx
      rfl
  have hflat : (runs.map fun r => r.map (DataFile.entry io)).flatten = runs.flatten.map (DataFile.entry io) := by
    rw [List.map_flatten]
  unfold writePlotfiles at h
  rw [hcons] at h
  dsimp only at h
  rw [hflat, hm] at h
  obtain ⟨p, hp, hpk⟩ := List.mem_map.1 ((i2 (roundVec rnd f.k_n)).2 ⟨f, hf, rfl⟩)
  obtain ⟨tvacfft, h1, h2⟩ := writeAll_ok h p hp
  rw [hpk] at h1
  have h3 := i3 p hp
  rw [hpk] at h3
  refine ⟨p.2, tvacfft, ?_, h1, h2, h3⟩
  rw [h3]
  exact List.mem_map.2 ⟨f, List.mem_filter.2 ⟨hf, by simp⟩, rfl⟩

/-- C93 does not hold if the measurements do not reach as far as the maximum correlation time (which is 250 by default):
the program then breaks off with an exception. -/
theorem C93_short_violated (hio : Rounds io rnd) {box : ℕ × ℕ × ℕ} (hbox : box.1 ≠ 0 ∧ box.2.1 ≠ 0 ∧ box.2.2 ≠ 0)
    (minimumTime maxCorrelationTime dt : ℝ) (runs : List (List DataFile))
    (hn : ∀ f ∈ runs.flatten, isDataName f.name = true) {f : DataFile} (hf : f ∈ runs.flatten)
    (hk : roundVec rnd f.k_n ≠ 0) {s : ℕ} (hs : s < ⌈maxCorrelationTime / dt⌉₊)
    (hshort : (products (seriesOf rnd box minimumTime runs.flatten (roundVec rnd f.k_n)) s).length < 2) :
    (writePlotfiles io box minimumTime maxCorrelationTime (runs.map fun _ => dt)
      (runs.map fun r => r.map (DataFile.entry io))).2 ≠ .ok () := by
  intro h
  obtain ⟨texts, tvacfft, -, h1, h2, htexts⟩ := writePlotfiles_ok hio hn h hf
  have hread : texts.mapM (getDataFromFile io (waveVector box (roundVec rnd f.k_n)).toComplex minimumTime) =
      .ok (seriesOf rnd box minimumTime runs.flatten (roundVec rnd f.k_n)) := by
    rw [htexts, textsOf, List.mapM_map,
      mapM_ok _ fun g => kept rnd minimumTime (waveVector box (roundVec rnd f.k_n)) g.records]
    · rfl
    · intro g _
      exact getDataFromFile_fileText hio (waveVector_ne_zero hbox hk) minimumTime g.k_n g.records
  unfold getTVACFFT at h1
  rw [hread] at h1
  dsimp only at h1
  rw [Except.ok.injEq] at h1
  subst h1
  obtain ⟨b, rest, e, h3⟩ := writeRows_ok h2 _ (List.mem_map.2 ⟨s, List.mem_range.2 hs, rfl⟩)
  dsimp only at e
  rw [strideData_eq] at e
  obtain ⟨w, rest', e'⟩ := feed_block (products (seriesOf rnd box minimumTime runs.flatten (roundVec rnd f.k_n)) s)
  rw [e'] at e
  obtain ⟨rfl, -⟩ := List.cons.inj e
  rw [(C04_cpp_statistics _).1] at h3
  omega

/-- C93 does not hold if one of the wave vectors is zero: the program breaks off with an exception. -/
theorem C93_zero_violated (hio : Rounds io rnd) (box : ℕ × ℕ × ℕ) (minimumTime maxCorrelationTime dt : ℝ)
    (runs : List (List DataFile)) (hn : ∀ f ∈ runs.flatten, isDataName f.name = true) {f : DataFile}
    (hf : f ∈ runs.flatten) (hk : roundVec rnd f.k_n = 0) {r : ℝ × Vec3 ℂ} (hr : r ∈ f.records)
    (hmin : minimumTime ≤ rnd r.1) :
    (writePlotfiles io box minimumTime maxCorrelationTime (runs.map fun _ => dt)
      (runs.map fun r => r.map (DataFile.entry io))).2 ≠ .ok () := by
  intro h
  obtain ⟨texts, tvacfft, hmem, h1, -, -⟩ := writePlotfiles_ok hio hn h hf
  have hzero : (waveVector box (roundVec rnd f.k_n)).toComplex = 0 := by
    rw [hk]
    ext <;> simp [waveVector, toComplex]
  rw [hzero] at h1
  have hline : ∀ v : Vec3 ℂ, Vec3.cGetPerpendicularTo v 0 = none := by
    intro v
    have h0 : cLength (0 : Vec3 ℂ) = 0 := by
      simp [cLength, (cLengthSquared_eq_zero (0 : Vec3 ℂ)).2 rfl]
    simp [Vec3.cGetPerpendicularTo, Vec3.cGetProjectionOnto, Vec3.cGetNormalized, h0]
  unfold getTVACFFT at h1
  cases hm : texts.mapM (getDataFromFile io 0 minimumTime) with
  | error e =>
    rw [hm] at h1
    exact absurd h1 nofun
  | ok l =>
    obtain ⟨y, hy⟩ := mapM_ok_mem hm hmem
    unfold getDataFromFile at hy
    rw [lines_fileText hio, List.tail_cons] at hy
    cases hl : (f.records.map fun r => io.fmt r.1 ++
        ([r.2.x.re, r.2.x.im, r.2.y.re, r.2.y.im, r.2.z.re, r.2.z.im].map io.fmt).flatMap ('\t' :: ·)).mapM
        (dataLine io 0 minimumTime) with
    | error e =>
      rw [hl] at hy
      exact absurd hy nofun
    | ok l' =>
      obtain ⟨z, hz⟩ := mapM_ok_mem hl (List.mem_map.2 ⟨r, hr, rfl⟩)
      have ht := hio.token_fmt
      unfold dataLine at hz
      rw [splitBlank_tabs _ _ (ht _) (by simp [ht])] at hz
      dsimp only at hz
      rw [if_neg (by simp)] at hz
      have e := parseAll_fmt hio [r.1, r.2.x.re, r.2.x.im, r.2.y.re, r.2.y.im, r.2.z.re, r.2.z.im]
      rw [List.map_cons] at e
      rw [e] at hz
      simp only [List.map_cons, List.map_nil] at hz
      rw [if_neg (not_lt.2 hmin), hline] at hz
      exact absurd hz nofun

/-- A name of a data file: decimal digits, `.data`, and anything. -/
def DataName (name : Str) : Prop :=
  ∃ digits rest : Str, digits ≠ [] ∧ (∀ c ∈ digits, c.isDigit = true) ∧ name = digits ++ ".data".toList ++ rest

/-- C93: which files are read: those whose names consist of a number, `.data`, and anything; all others are ignored. -/
theorem C93_names (io : Io ℝ) (name : Str) :
    (isDataName name = true ↔ DataName name) ∧
    (¬ DataName name → ∀ (entries entries' : List Entry) (text : Str),
      getWaveVectorsAndPaths io (entries ++ ⟨name, text⟩ :: entries') = getWaveVectorsAndPaths io (entries ++ entries')) := by
  have key : isDataName name = true ↔ DataName name := by
    constructor
    · intro h
      unfold isDataName at h
      rw [Bool.and_eq_true, List.isPrefixOf_iff_prefix] at h
      obtain ⟨h1, rest, h2⟩ := h
      refine ⟨name.takeWhile Char.isDigit, rest, by simpa using h1, fun c hc => ?_, ?_⟩
      · exact List.all_eq_true.1 (List.all_takeWhile (p := Char.isDigit) (l := name)) c hc
      · rw [List.append_assoc, h2, List.takeWhile_append_dropWhile]
    · rintro ⟨digits, rest, h1, h2, rfl⟩
      have e1 : (digits ++ ".data".toList ++ rest).takeWhile Char.isDigit = digits := by
        rw [List.append_assoc, List.takeWhile_append_of_pos h2]
        simp [Char.isDigit]
      have e2 : (digits ++ ".data".toList ++ rest).dropWhile Char.isDigit = ".data".toList ++ rest := by
        rw [List.append_assoc, List.dropWhile_append_of_pos h2]
        simp [Char.isDigit]
      unfold isDataName
      rw [e1, e2, Bool.and_eq_true, List.isPrefixOf_iff_prefix]
      exact ⟨by simpa using h1, List.prefix_append _ _⟩
  refine ⟨key, fun h entries entries' text => ?_⟩
  have : isDataName name = false := by
    rw [← Bool.not_eq_true]
    exact fun x => h (key.1 x)
  unfold getWaveVectorsAndPaths
  rw [List.filter_append, List.filter_append, List.filter_cons_of_neg (by simp [this])]

/-- C93 does not hold if there is a backup copy, or both a compressed and an uncompressed copy, of a file: everything in it
is counted twice. -/
theorem C93_backup_violated (box : ℕ × ℕ × ℕ) (minimumTime : ℝ) (k_n : Vec3 ℝ) (records : List (ℝ × Vec3 ℂ)) :
    isDataName "0.data".toList = true ∧ isDataName "0.data~".toList = true ∧ isDataName "0.data.bz2".toList = true ∧
    ∀ (a b : Str) (s : ℕ),
      (products (seriesOf rnd box minimumTime [⟨a, k_n, records⟩, ⟨b, k_n, records⟩] (roundVec rnd k_n)) s).length =
        2 * (products (seriesOf rnd box minimumTime [⟨a, k_n, records⟩] (roundVec rnd k_n)) s).length := by
  refine ⟨by decide, by decide, by decide, fun a b s => ?_⟩
  simp [seriesOf, products, two_mul]

/-- A file with records of the same velocity, perpendicular to the wave vector, at given times. -/
def sampleFile (times : List ℝ) : DataFile := ⟨"0.data".toList, ⟨1, 0, 0⟩, times.map fun t => (t, ⟨0, 1, 0⟩)⟩

theorem sample_series (h0 : rnd 0 = 0) (h1 : rnd 1 = 1) {times : List ℝ} (ht : ∀ t ∈ times, rnd t = t ∧ 0 ≤ t) :
    roundVec rnd (sampleFile times).k_n = ⟨1, 0, 0⟩ ∧
    seriesOf rnd (1, 1, 1) 0 [sampleFile times] ⟨1, 0, 0⟩ = [times.map fun t => (t, ⟨0, 1, 0⟩)] := by
  have hk : roundVec rnd (sampleFile times).k_n = ⟨1, 0, 0⟩ := by simp [sampleFile, roundVec, h0, h1]
  refine ⟨hk, ?_⟩
  unfold seriesOf
  rw [List.filter_cons, if_pos (by simpa using hk)]
  simp only [List.filter_nil, List.map_cons, List.map_nil]
  congr 1
  unfold kept sampleFile
  dsimp only
  rw [List.filter_eq_self.2, List.map_map]
  · apply List.map_congr_left
    intro t htm
    simp only [Function.comp, (ht t htm).1, Prod.mk.injEq, true_and]
    have hr : roundVelocity rnd ⟨0, 1, 0⟩ = ⟨0, 1, 0⟩ := by
      simp only [roundVelocity, roundComplex, Complex.zero_re, Complex.zero_im, Complex.one_re, Complex.one_im, h0, h1]
      rfl
    rw [hr]
    ext <;> simp [transverse, waveVector, toComplex, Vec3.cdot]
  · intro r hr
    obtain ⟨t, htm, rfl⟩ := List.mem_map.1 hr
    simpa [(ht t htm).1] using (ht t htm).2

theorem sample_products (times : List ℝ) (s : ℕ) :
    products [times.map fun t => (t, (⟨0, 1, 0⟩ : Vec3 ℂ))] s = List.replicate (times.length - s) 1 := by
  unfold products
  rw [List.flatMap_cons, List.flatMap_nil, List.append_nil]
  apply List.ext_getElem
  · simp
  · intro i _ _
    simp [Vec3.cdot]

theorem mean_replicate_one {n : ℕ} (h : 0 < n) : Spec.mean (List.replicate n (1 : ℝ)) = 1 := by
  have : (n : ℝ) ≠ 0 := by exact_mod_cast h.ne'
  simp [Spec.mean, this]

/-- The sample file can be analysed. -/
theorem sample_analysable (h0 : rnd 0 = 0) (h1 : rnd 1 = 1) {times : List ℝ} (ht : ∀ t ∈ times, rnd t = t ∧ 0 ≤ t)
    {n : ℕ} (hn : n + 1 ≤ times.length) (hpos : 0 < n) : Analysable rnd (1, 1, 1) 0 n [sampleFile times] := by
  obtain ⟨e1, e2⟩ := sample_series h0 h1 ht
  refine ⟨by simp, ?_, ?_, ?_, ?_⟩
  · intro f hf
    rw [List.mem_singleton.1 hf]
    show isDataName "0.data".toList = true
    decide
  · intro f hf
    rw [List.mem_singleton.1 hf, e1]
    intro h
    simpa using congrArg Vec3.x h
  · intro f hf s hs
    rw [List.mem_singleton.1 hf, e1, e2, sample_products, List.length_replicate]
    omega
  · intro f hf
    rw [List.mem_singleton.1 hf, e1, e2, sample_products, mean_replicate_one (by omega)]
    exact one_ne_zero

/-- C93 does not hold if there is more than one time step between measurements, i.e. if `mpc.sweepSize` is not one: here
two, with time step one. -/
theorem C93_sweep_violated (hio : Rounds io rnd) (h0 : rnd 0 = 0) (h1 : rnd 1 = 1) (h2 : rnd 2 = 2) (h4 : rnd 4 = 4)
    (h6 : rnd 6 = 6) :
    Equidistant rnd (2 * 1) (sampleFile [2, 4, 6]).records ∧
    ∃ rows, writePlotfiles io (1, 1, 1) 0 2 [1] [[(sampleFile [2, 4, 6]).entry io]] = ([(⟨1, 0, 0⟩, rows)], .ok ()) ∧
      rows.length = 2 ∧ ¬ TimesCorrect (seriesOf rnd (1, 1, 1) 0 [sampleFile [2, 4, 6]] ⟨1, 0, 0⟩) rows := by
  have ht : ∀ t ∈ [(2 : ℝ), 4, 6], rnd t = t ∧ 0 ≤ t := by
    simp only [List.mem_cons, List.not_mem_nil, or_false]
    rintro t (rfl | rfl | rfl)
    · exact ⟨h2, by norm_num⟩
    · exact ⟨h4, by norm_num⟩
    · exact ⟨h6, by norm_num⟩
  obtain ⟨e1, e2⟩ := sample_series h0 h1 ht
  have hceil : ⌈(2 : ℝ) / 1⌉₊ = 2 := by
    rw [div_one]
    exact Nat.ceil_ofNat 2
  refine ⟨?_, ?_⟩
  · unfold Equidistant sampleFile
    simp only [List.map_cons, List.map_nil, List.isChain_cons_cons, h2, h4, h6]
    norm_num
  · obtain ⟨plots, p1, p2, p3, p4⟩ := C93_table_partial hio (1, 1, 1) 0 2 1 [[sampleFile [2, 4, 6]]] (by simp)
      (by rw [hceil]; exact sample_analysable h0 h1 ht (by simp) (by norm_num))
    have hkeys : plots.map Prod.fst = [⟨1, 0, 0⟩] := by
      have h1 : ∀ k ∈ plots.map Prod.fst, k = ⟨1, 0, 0⟩ := by
        intro k hk
        obtain ⟨f, hf, e⟩ := (p3 k).1 hk
        obtain rfl : f = sampleFile [2, 4, 6] := by simpa using hf
        rw [← e, e1]
      have h2 : (⟨1, 0, 0⟩ : Vec3 ℝ) ∈ plots.map Prod.fst := (p3 _).2 ⟨_, by simp, e1⟩
      generalize plots.map Prod.fst = l at h1 h2 p2
      match l with
      | [] => simp at h2
      | [a] => rw [h1 a (by simp)]
      | a :: b :: l =>
        rw [h1 a (by simp), h1 b (by simp)] at p2
        simp at p2
    obtain ⟨q, rfl⟩ : ∃ q, plots = [q] := by
      have : plots.length = 1 := by rw [← List.length_map (f := Prod.fst), hkeys]; rfl
      exact List.length_eq_one_iff.1 this
    obtain ⟨k, rows⟩ := q
    obtain rfl : k = ⟨1, 0, 0⟩ := by simpa using hkeys
    have hrows := p4 _ (List.mem_singleton_self _)
    dsimp only at hrows
    refine ⟨rows, p1, by rw [hrows, hceil]; rfl, ?_⟩
    intro h
    rw [hrows, hceil] at h
    have := h 1 _ rfl
    rw [e2] at this
    have := this _ (List.mem_singleton_self _) 0 (2, ⟨0, 1, 0⟩) (4, ⟨0, 1, 0⟩) rfl rfl
    simp only [expectedRow] at this
    norm_num at this

/-- C93: no row is for the maximum correlation time itself, even if measurements reach that far. -/
theorem C93_maximum_violated (hio : Rounds io rnd) (box : ℕ × ℕ × ℕ) (minimumTime maxCorrelationTime : ℝ) {dt : ℝ}
    (hdt : 0 < dt) (runs : List (List DataFile)) (hne : runs ≠ [])
    (ha : Analysable rnd box minimumTime ⌈maxCorrelationTime / dt⌉₊ runs.flatten) :
    ∀ p ∈ (writePlotfiles io box minimumTime maxCorrelationTime (runs.map fun _ => dt)
        (runs.map fun r => r.map (DataFile.entry io))).1, ∀ row ∈ p.2, row.time < maxCorrelationTime := by
  obtain ⟨plots, h1, -, -, h4⟩ := C93_table_partial hio box minimumTime maxCorrelationTime dt runs hne ha
  rw [h1]
  intro p hp row hrow
  rw [h4 p hp] at hrow
  obtain ⟨s, hs, rfl⟩ := List.mem_map.1 hrow
  exact (lt_div_iff₀ hdt).1 (Nat.lt_ceil.1 (List.mem_range.1 hs))

/-- Conversions as assumed above; integers are read as they were written. -/
noncomputable def floorIo : Io ℝ where
  fmt x := if 0 ≤ ⌊x⌋ then natStr ⌊x⌋.toNat else '-' :: natStr ⌊x⌋.natAbs
  parse s := (pyInt s).map fun n : ℤ => (n : ℝ)
  negative x := decide (⌊x⌋ < 0)

theorem floorIo_rounds : Rounds floorIo fun x => (⌊x⌋ : ℝ) where
  parse_fmt x := by
    unfold floorIo
    dsimp only
    by_cases h : 0 ≤ ⌊x⌋
    · rw [if_pos h, pyInt_natStr, Int.toNat_of_nonneg h]
      rfl
    · have hd : (natStr ⌊x⌋.natAbs).all Char.isDigit = true := List.all_eq_true.2 (natStr_digits _)
      rw [if_neg h, pyInt, if_pos ⟨natStr_ne_nil _, hd⟩, digitsValue_natStr, Option.map_some, Option.some.injEq]
      exact_mod_cast (by omega : -(⌊x⌋.natAbs : ℤ) = ⌊x⌋)
  token_fmt x := by
    unfold floorIo
    dsimp only
    by_cases h : 0 ≤ ⌊x⌋
    · rw [if_pos h]
      exact Snapshot.natStr_token _
    · rw [if_neg h]
      refine ⟨by simp, fun c hc => ?_⟩
      rcases List.mem_cons.1 hc with rfl | hc
      · decide
      · exact (Snapshot.natStr_token _).2 c hc

example : DataName "12.data.bz2".toList ∧ ¬ DataName "a.data".toList :=
  ⟨((C93_names floorIo _).1).1 (by decide), fun h => absurd (((C93_names floorIo _).1).2 h) (by decide)⟩

/-- The hypotheses are met: three measurements, one time step apart, and correlation times 0 and 1. -/
example : Rounds floorIo (fun x => (⌊x⌋ : ℝ)) ∧
    Analysable (fun x => (⌊x⌋ : ℝ)) (1, 1, 1) 0 ⌈(2 : ℝ) / 1⌉₊ [[sampleFile [1, 2, 3]]].flatten ∧
    Equidistant (fun x => (⌊x⌋ : ℝ)) 1 (sampleFile [1, 2, 3]).records := by
  refine ⟨floorIo_rounds, ?_, ?_⟩
  · rw [div_one, show ⌈(2 : ℝ)⌉₊ = 2 from Nat.ceil_ofNat 2]
    refine sample_analysable (by simp) (by simp) ?_ (by simp) (by norm_num)
    simp only [List.mem_cons, List.not_mem_nil, or_false]
    rintro t (rfl | rfl | rfl) <;> norm_num
  · unfold Equidistant sampleFile
    simp only [List.map_cons, List.map_nil, List.isChain_cons_cons, Int.floor_one, Int.floor_ofNat]
    norm_num

/-- The hypotheses of the violation for sweeps are met. -/
example := C93_sweep_violated floorIo_rounds (by simp) (by simp) (by simp) (by simp) (by simp)

/-- And those for measurements that are too short: two measurements, and the default maximum correlation time. -/
example : (writePlotfiles floorIo (1, 1, 1) 0 250 ([[sampleFile [1, 2]]].map fun _ => 1)
    ([[sampleFile [1, 2]]].map fun r => r.map (DataFile.entry floorIo))).2 ≠ .ok () := by
  have ht : ∀ t ∈ [(1 : ℝ), 2], (fun x => (⌊x⌋ : ℝ)) t = t ∧ 0 ≤ t := by
    simp only [List.mem_cons, List.not_mem_nil, or_false]
    rintro t (rfl | rfl) <;> norm_num
  obtain ⟨e1, e2⟩ := sample_series (rnd := fun x => (⌊x⌋ : ℝ)) (by simp) (by simp) ht
  have hf : sampleFile [1, 2] ∈ [[sampleFile [1, 2]]].flatten := by simp
  refine C93_short_violated floorIo_rounds (by simp) 0 250 1 _ ?_ hf ?_ (s := 1) ?_ ?_
  · intro f hf
    obtain rfl : f = sampleFile [1, 2] := by simpa using hf
    show isDataName "0.data".toList = true
    decide
  · rw [e1]
    intro h
    simpa using congrArg Vec3.x h
  · rw [div_one, Nat.lt_ceil]
    norm_num
  · rw [e1]
    show (products (seriesOf _ _ _ [sampleFile [1, 2]] _) 1).length < 2
    rw [e2, sample_products]
    simp

end program

end OpenMPCD.Analysis.Transverse
