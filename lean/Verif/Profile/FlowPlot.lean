import Verif.Profile.FlowFile

/-!
# C115: what plots of flow profiles show
(`Analysis/MPCDAnalysis/FlowProfile.py`, `Analysis/MPCDAnalysis/PlotTools.py`)
-/

set_option linter.unusedSectionVars false
set_option linter.unusedSimpArgs false
set_option linter.unusedVariables false

namespace OpenMPCD.Profile.FlowPlot

open OpenMPCD.Stats
open FlowFile (Dict Slice Version PyFlow Describes getFlowProfileAsFunctionOfY
  getAnalyticShearFlowProfileAsFunctionOfY)

/-! ## Model: the plot of the profile -/

/-- What may be raised: `NameError` has no counterpart in `PyErr`. -/
inductive Raised
  | nameError
  | py (e : PyErr)
  deriving DecidableEq

/-- An exception, wrapped. -/
def wrap {α : Type} : Except PyErr α → Except Raised α
  | .ok a => .ok a
  | .error e => .error (.py e)

/-- What has been drawn: the points connected for the profile, those for the theory, and for the shaded region the
abscissas with lower and upper bounds. What `matplotlib` does with the arguments of `plot` and `fill_between` is not
modelled. -/
structure Picture where
  line : List (ℝ × ℝ)
  theory : Option (List (ℝ × ℝ))
  band : Option (List (ℝ × ℝ × ℝ))

/-- The ordinates, with their abscissas (`Analysis/MPCDAnalysis/FlowProfile.py:101-104`). -/
noncomputable def means (data : Dict ℝ ℝ) : Except PyErr (List (ℝ × ℝ)) :=
  data.mapM fun e => do
    let m ← e.2.x.getSampleMean
    .ok (e.1, m)

/-- The name `velocity` after the list comprehension (`Analysis/MPCDAnalysis/FlowProfile.py:101-103,123`): in Python 2
it is the last value iterated over, and unbound if there was none; in Python 3 the variable of a comprehension is not
visible outside, and there is no global one of this name. -/
def leaked (version : Version) (data : Dict ℝ ℝ) : Except Raised (Vec3 (OTFS ℝ)) :=
  match version with
  | .three => .error .nameError
  | .two =>
    match data.getLast? with
    | none => .error (.py .unboundLocalError)
    | some e => .ok e.2

/-- The errors (`Analysis/MPCDAnalysis/FlowProfile.py:124-128`). -/
noncomputable def errors (sqrtN : ℝ) (data : Dict ℝ ℝ) : Except PyErr (List ℝ) :=
  data.mapM fun e => do
    let s ← e.2.x.getSampleStandardDeviation
    .ok (s / sqrtN)

/-- The shaded region (`Analysis/MPCDAnalysis/FlowProfile.py:119-134`). -/
noncomputable def shade (version : Version) (data : Dict ℝ ℝ) (line : List (ℝ × ℝ)) (standardError : ℝ) :
    Except Raised (List (ℝ × ℝ × ℝ)) := do
  let velocity ← leaked version data
  let es ← wrap (errors (√(velocity.x.getSampleSize : ℝ)) data)
  .ok (List.zipWith (fun (p : ℝ × ℝ) (e : ℝ) => (p.1, p.2 - standardError * e, p.2 + standardError * e)) line es)

open Classical in
/-- The condition for the shaded region (`Analysis/MPCDAnalysis/FlowProfile.py:115-134`). -/
noncomputable def band (version : Version) (data : Dict ℝ ℝ) (line : List (ℝ × ℝ)) (standardError : ℝ) :
    Except Raised (Option (List (ℝ × ℝ × ℝ))) :=
  if standardError ≠ 0 then
    if standardError < 0 then .error (.py .exception)
    else (shade version data line standardError).map some
  else .ok none

/-- `getMPLAxesForFlowAlongXAsFunctionOfY` (`Analysis/MPCDAnalysis/FlowProfile.py:69-138`). `order` is the order in
which the points are iterated over, `iter` that in which a dictionary is iterated over (which is the same for `keys`
and `values`). The order for the theory is that of insertion; nothing depends on it. -/
noncomputable def getMPLAxes (version : Version) (iter : Dict ℝ ℝ → Dict ℝ ℝ) (f : PyFlow ℝ) (order : Dict Slice ℝ)
    (standardError : ℝ) (theory shift : Bool) : Except Raised Picture := do
  let profile ← wrap (getFlowProfileAsFunctionOfY f order shift)
  let line ← wrap (means (iter profile))
  let b ← band version (iter profile) line standardError
  .ok ⟨line, if theory then some (getAnalyticShearFlowProfileAsFunctionOfY f shift) else none, b⟩

/-! ## Model: the display of the vector field -/

/-- An output block: dictionaries for `x`, in them for `y`, in them for `z`
(`Analysis/MPCDAnalysis/FlowProfile.py:427-436`). -/
abbrev Nested := List (ℤ × List (ℤ × List (ℤ × Vec3 (OTFS ℝ))))

/-- The keys of a dictionary. -/
def keys {α : Type} (d : List (ℤ × α)) : List ℤ := d.map Prod.fst

/-- The access `d[k]` of a dictionary. -/
def get {α : Type} (d : List (ℤ × α)) (k : ℤ) : Except PyErr α :=
  match d.lookup k with
  | some a => .ok a
  | none => .error .keyError

/-- The access `l[i]` of a list, for natural `i`. -/
def item {α : Type} (l : List α) (i : ℕ) : Except PyErr α :=
  match l[i]? with
  | some a => .ok a
  | none => .error .indexError

/-- `v = [v[i].getSampleMean() for i in range(0, 3)]` (`Analysis/MPCDAnalysis/FlowProfile.py:316`). -/
def meanOf (v : Vec3 (OTFS ℝ)) : Except PyErr (Vec3 ℝ) := do
  let x ← v.x.getSampleMean
  let y ← v.y.getSampleMean
  let z ← v.z.getSampleMean
  .ok ⟨x, y, z⟩

/-- `outputBlock[x][y][z]` and its mean (`Analysis/MPCDAnalysis/FlowProfile.py:315-316`). -/
def valueAt (b : Nested) (x y z : ℤ) : Except PyErr (Vec3 ℝ) := do
  let bx ← get b x
  let bxy ← get bx y
  let v ← get bxy z
  meanOf v

/-- What the display of the vector field holds: the chosen output block and `z` (`currentParameters`), and the arrows
drawn, if any: where they are (of `xPoints`, `yPoints`, in the plane), and mean velocities (`U`, `V`, `C`). -/
structure Display where
  outputBlockID : ℕ
  z : ℕ
  arrows : Option (List ((ℝ × ℝ) × Vec3 ℝ))

/-- The arrows of `updateData` (`Analysis/MPCDAnalysis/FlowProfile.py:298-330`): row by row. Rows and columns of `U`,
`V`, `C` are those of `X` and `Y`, which are made from the same keys. -/
noncomputable def field (blocks : List Nested) (id : ℕ) (z : ℤ) : Except PyErr (List ((ℝ × ℝ) × Vec3 ℝ)) := do
  let b ← item blocks id
  let b0 ← item blocks 0
  let b1 ← item blocks 1
  let rows ← (keys b1).mapM fun y => (keys b0).mapM fun x => do
    let v ← valueAt b x y z
    .ok (((x : ℝ) + 1 / 2, (y : ℝ) + 1 / 2), v)
  .ok rows.flatten

/-- `updateData` (`Analysis/MPCDAnalysis/FlowProfile.py:306-332`): if something is raised, the arrows stay. -/
noncomputable def updateData (blocks : List Nested) (d : Display) : Display × Except PyErr Unit :=
  match field blocks d.outputBlockID d.z with
  | .error e => (d, .error e)
  | .ok a => ({ d with arrows := some a }, .ok ())

/-- The value passed to the callbacks of a slider with a step size of one (`Analysis/MPCDAnalysis/PlotTools.py:142`),
which is not negative here, since the slider's minimum is zero. -/
noncomputable def discreteValue (continuousValue : ℝ) : ℕ := ⌊continuousValue⌋.toNat

/-- One of the sliders has been moved to a value. -/
inductive Move
  | time (continuousValue : ℝ)
  | z (continuousValue : ℝ)

/-- The callbacks (`Analysis/MPCDAnalysis/FlowProfile.py:334-343`, `Analysis/MPCDAnalysis/PlotTools.py:131-154`). -/
noncomputable def move (blocks : List Nested) (d : Display) : Move → Display × Except PyErr Unit
  | .time c => updateData blocks { d with outputBlockID := discreteValue c }
  | .z c => updateData blocks { d with z := discreteValue c }

/-- `showVectorFieldGUI` up to the point where the window is shown (`Analysis/MPCDAnalysis/FlowProfile.py:278-346`):
`xPoints` and `yPoints` need the first two blocks. -/
noncomputable def open_ (blocks : List Nested) : Except PyErr Display := do
  let _ ← item blocks 0
  let _ ← item blocks 1
  match updateData blocks ⟨0, 0, none⟩ with
  | (d, .ok _) => .ok d
  | (_, .error e) => .error e

/-- A history of moves of the sliders: an exception in a callback does not end it. -/
noncomputable def moves (blocks : List Nested) (d : Display) (ms : List Move) : Display :=
  ms.foldl (fun d m => (move blocks d m).1) d

/-! ## Specification -/

/-- What a shaded region of `k` times the standard error around the means of the velocities at `y` is. -/
noncomputable def bandAt (k : ℝ) (y : ℝ) (velocities : List ℝ) : ℝ × ℝ × ℝ :=
  (y, Spec.mean velocities - k * √(Spec.variance velocities / velocities.length),
    Spec.mean velocities + k * √(Spec.variance velocities / velocities.length))

/-- The block has statistics for all points of a box of this size, and for no others, made from these velocities. -/
def Complete (size : ℕ × ℕ × ℕ) (b : Nested) (d : ℕ → ℕ → ℕ → List (Vec3 ℝ)) : Prop :=
  (keys b).Perm ((List.range size.1).map Int.ofNat) ∧
    ∀ x < size.1, ∃ bx, b.lookup (x : ℤ) = some bx ∧ (keys bx).Perm ((List.range size.2.1).map Int.ofNat) ∧
      ∀ y < size.2.1, ∃ bxy, bx.lookup (y : ℤ) = some bxy ∧ (keys bxy).Perm ((List.range size.2.2).map Int.ofNat) ∧
        ∀ z < size.2.2, ∃ v, bxy.lookup (z : ℤ) = some v ∧ Describes v.x ((d x y z).map Vec3.x) ∧
          Describes v.y ((d x y z).map Vec3.y) ∧ Describes v.z ((d x y z).map Vec3.z)

/-- The mean of velocities. -/
noncomputable def meanVelocity (l : List (Vec3 ℝ)) : Vec3 ℝ :=
  ⟨Spec.mean (l.map Vec3.x), Spec.mean (l.map Vec3.y), Spec.mean (l.map Vec3.z)⟩

/-- The arrow in the centre of a cell. -/
noncomputable def arrow (x y : ℕ) (v : Vec3 ℝ) : (ℝ × ℝ) × Vec3 ℝ := (((x : ℝ) + 1 / 2, (y : ℝ) + 1 / 2), v)

/-- The arrows are those of the means of these velocities in all cells with these coordinates. -/
def ShowsField (nx ny : ℕ) (arrows : List ((ℝ × ℝ) × Vec3 ℝ)) (d : ℕ → ℕ → List (Vec3 ℝ)) : Prop :=
  arrows.Perm ((List.range ny).flatMap fun y => (List.range nx).map fun x => arrow x y (meanVelocity (d x y)))

/-- The move is possible with sliders from zero to the number of blocks, and of layers along `z`, minus one. -/
def Move.Within (blocks sizeZ : ℕ) : Move → Prop
  | .time c => 0 ≤ c ∧ c ≤ (blocks : ℝ) - 1
  | .z c => 0 ≤ c ∧ c ≤ (sizeZ : ℝ) - 1

/-- The block chosen last. -/
noncomputable def chosenBlock : List Move → ℕ
  | [] => 0
  | .time c :: ms => if ms.any (fun m => match m with | .time _ => true | .z _ => false) then chosenBlock ms else ⌊c⌋₊
  | .z _ :: ms => chosenBlock ms

/-- The coordinate chosen last. -/
noncomputable def chosenZ : List Move → ℕ
  | [] => 0
  | .z c :: ms => if ms.any (fun m => match m with | .z _ => true | .time _ => false) then chosenZ ms else ⌊c⌋₊
  | .time _ :: ms => chosenZ ms

/-! ## Proofs: the plot of the profile -/

theorem mapM_ok {ε α β : Type} {f : α → Except ε β} (g : α → β) : ∀ (l : List α), (∀ a ∈ l, f a = .ok (g a)) →
    l.mapM f = .ok (l.map g)
  | [], _ => rfl
  | a :: l, h => by
    rw [List.mapM_cons, h a (by simp), mapM_ok g l fun b hb => h b (by simp [hb])]
    rfl

theorem mapM_error {ε α β : Type} {f : α → Except ε β} : ∀ (l : List α), (∃ a ∈ l, ∃ e, f a = .error e) →
    ∃ a ∈ l, ∃ e, f a = .error e ∧ l.mapM f = .error e
  | [], h => by obtain ⟨a, ha, -⟩ := h; cases ha
  | a :: l, h => by
    rw [List.mapM_cons]
    cases ha : f a with
    | error e => exact ⟨a, by simp, e, ha, rfl⟩
    | ok b =>
      obtain ⟨a', h1, e, h2⟩ := h
      rcases List.mem_cons.1 h1 with rfl | h1
      · rw [ha] at h2; cases h2
      · obtain ⟨a'', h3, e', h4, h5⟩ := mapM_error l ⟨a', h1, e, h2⟩
        refine ⟨a'', by simp [h3], e', h4, ?_⟩
        rw [h5]; rfl

theorem means_ok (data : Dict ℝ ℝ) (xs : ℝ → List ℝ) (h : ∀ e ∈ data, Describes e.2.x (xs e.1) ∧ xs e.1 ≠ []) :
    means data = .ok (data.map fun e => (e.1, Spec.mean (xs e.1))) := by
  refine mapM_ok (fun e : ℝ × Vec3 (OTFS ℝ) => (e.1, Spec.mean (xs e.1))) data fun e he => ?_
  obtain ⟨⟨-, h2, -⟩, h3⟩ := h e he
  rw [if_neg h3] at h2
  rw [h2]; rfl

theorem errors_ok (n : ℝ) (data : Dict ℝ ℝ) (xs : ℝ → List ℝ)
    (h : ∀ e ∈ data, Describes e.2.x (xs e.1) ∧ 2 ≤ (xs e.1).length) :
    errors n data = .ok (data.map fun e => √(Spec.variance (xs e.1)) / n) := by
  refine mapM_ok (fun e : ℝ × Vec3 (OTFS ℝ) => √(Spec.variance (xs e.1)) / n) data fun e he => ?_
  obtain ⟨⟨-, -, h2⟩, h3⟩ := h e he
  rw [if_neg (by omega)] at h2
  rw [OTFS.getSampleStandardDeviation, h2]; rfl

theorem zipWith_map {α β γ δ : Type} (g : β → γ → δ) (a : α → β) (b : α → γ) (l : List α) :
    List.zipWith g (l.map a) (l.map b) = l.map fun x => g (a x) (b x) := by
  induction l with
  | nil => rfl
  | cons x l ih => simp [ih]

theorem shade_two (data : Dict ℝ ℝ) (xs : ℝ → List ℝ) (k : ℝ) (e : ℝ × Vec3 (OTFS ℝ)) (hl : data.getLast? = some e)
    (h : ∀ e ∈ data, Describes e.2.x (xs e.1) ∧ 2 ≤ (xs e.1).length) :
    shade .two data (data.map fun e => (e.1, Spec.mean (xs e.1))) k = .ok (data.map fun e' =>
      (e'.1, Spec.mean (xs e'.1) - k * √(Spec.variance (xs e'.1) / (xs e.1).length),
        Spec.mean (xs e'.1) + k * √(Spec.variance (xs e'.1) / (xs e.1).length))) := by
  have he : e ∈ data := List.mem_of_getLast? hl
  unfold shade
  simp only [leaked, hl, bind, Except.bind, errors_ok _ data xs h, wrap, (h e he).1.1, zipWith_map]
  refine congrArg Except.ok (List.map_congr_left fun e' he' => ?_)
  rw [Real.sqrt_div (FlowFile.variance_nonneg _)]

section
variable {f : PyFlow ℝ} {order : Dict Slice ℝ} {shift : Bool} {profile : Dict ℝ ℝ} {xs : ℝ → List ℝ}
  {iter : Dict ℝ ℝ → Dict ℝ ℝ}

/-- C115 (part): if each layer of the profile has data, the points of the plot are those of the means, and the theory,
if asked for, is what C88 says; without a shaded region (`standardError` zero), with any version of Python and whatever
the orders of iteration. -/
theorem C115_line (version : Version) (hp : getFlowProfileAsFunctionOfY f order shift = .ok profile)
    (hit : ∀ d, (iter d).Perm d) (hd : ∀ e ∈ profile, Describes e.2.x (xs e.1) ∧ xs e.1 ≠ []) (theory : Bool) :
    ∃ p, getMPLAxes version iter f order 0 theory shift = .ok p ∧
      p.line.Perm (profile.map fun e => (e.1, Spec.mean (xs e.1))) ∧
      p.theory = (if theory then some (getAnalyticShearFlowProfileAsFunctionOfY f shift) else none) ∧
      p.band = none := by
  have h : ∀ e ∈ iter profile, Describes e.2.x (xs e.1) ∧ xs e.1 ≠ [] := fun e he => hd e ((hit _).mem_iff.1 he)
  refine ⟨⟨(iter profile).map fun e => (e.1, Spec.mean (xs e.1)),
    if theory then some (getAnalyticShearFlowProfileAsFunctionOfY f shift) else none, none⟩, ?_, (hit profile).map _, rfl,
    rfl⟩
  simp [getMPLAxes, hp, wrap, means_ok _ xs h, band, bind, Except.bind]

/-- C115 (part): in Python 2, if each layer has at least two data and all have equally many, the shaded region is that
of the standard errors. Missing: different numbers of data, see `C115_size_violated`, and Python 3, see
`C115_python3_violated`. -/
theorem C115_band_partial (hp : getFlowProfileAsFunctionOfY f order shift = .ok profile) (hne : profile ≠ [])
    (hit : ∀ d, (iter d).Perm d) (hd : ∀ e ∈ profile, Describes e.2.x (xs e.1) ∧ 2 ≤ (xs e.1).length) (n : ℕ)
    (hn : ∀ e ∈ profile, (xs e.1).length = n) (theory : Bool) (k : ℝ) (hk : 0 < k) :
    ∃ p b, getMPLAxes .two iter f order k theory shift = .ok p ∧
      p.line.Perm (profile.map fun e => (e.1, Spec.mean (xs e.1))) ∧
      p.theory = (if theory then some (getAnalyticShearFlowProfileAsFunctionOfY f shift) else none) ∧
      p.band = some b ∧ b.Perm (profile.map fun e => bandAt k e.1 (xs e.1)) := by
  have hmem : ∀ e, e ∈ iter profile ↔ e ∈ profile := fun e => (hit _).mem_iff
  have h : ∀ e ∈ iter profile, Describes e.2.x (xs e.1) ∧ 2 ≤ (xs e.1).length := fun e he => hd e ((hmem e).1 he)
  have h' : ∀ e ∈ iter profile, Describes e.2.x (xs e.1) ∧ xs e.1 ≠ [] := fun e he =>
    ⟨(h e he).1, by rintro h0; have := (h e he).2; rw [h0] at this; simp at this⟩
  have hne' : iter profile ≠ [] := fun h0 => hne (by have := hit profile; rw [h0] at this; exact this.nil_eq.symm)
  obtain ⟨e, hl⟩ : ∃ e, (iter profile).getLast? = some e := ⟨_, List.getLast?_eq_some_getLast hne'⟩
  have hs := shade_two (iter profile) xs k e hl h
  have hb : band .two (iter profile) ((iter profile).map fun e => (e.1, Spec.mean (xs e.1))) k = .ok (some
      ((iter profile).map fun e => bandAt k e.1 (xs e.1))) := by
    rw [band, if_pos hk.ne', if_neg (not_lt.2 hk.le), hs]
    refine congrArg (fun l => Except.ok (some l)) (List.map_congr_left fun e' he' => ?_)
    rw [bandAt, hn e ((hmem e).1 (List.mem_of_getLast? hl)), hn e' ((hmem e').1 he')]
  refine ⟨⟨(iter profile).map fun e => (e.1, Spec.mean (xs e.1)),
    if theory then some (getAnalyticShearFlowProfileAsFunctionOfY f shift) else none,
    some ((iter profile).map fun e => bandAt k e.1 (xs e.1))⟩, _, ?_, (hit profile).map _, rfl, rfl,
    (hit profile).map _⟩
  simp [getMPLAxes, hp, wrap, means_ok _ xs h', hb, bind, Except.bind]

/-- C115 (violation): in Python 2, the shaded region is wrong at each layer that has another number of data than the
layer iterated over last, unless all its data are equal. -/
theorem C115_size_violated (hp : getFlowProfileAsFunctionOfY f order shift = .ok profile)
    (hit : ∀ d, (iter d).Perm d) (hd : ∀ e ∈ profile, Describes e.2.x (xs e.1) ∧ 2 ≤ (xs e.1).length)
    (e l : ℝ × Vec3 (OTFS ℝ)) (he : e ∈ profile) (hl : (iter profile).getLast? = some l)
    (hs : (xs e.1).length ≠ (xs l.1).length) (hv : Spec.variance (xs e.1) ≠ 0) (theory : Bool) (k : ℝ) (hk : 0 < k) :
    ∃ p b, getMPLAxes .two iter f order k theory shift = .ok p ∧ p.band = some b ∧ bandAt k e.1 (xs e.1) ∉ b := by
  have hmem : ∀ e, e ∈ iter profile ↔ e ∈ profile := fun e => (hit _).mem_iff
  have h : ∀ e ∈ iter profile, Describes e.2.x (xs e.1) ∧ 2 ≤ (xs e.1).length := fun e he => hd e ((hmem e).1 he)
  have h' : ∀ e ∈ iter profile, Describes e.2.x (xs e.1) ∧ xs e.1 ≠ [] := fun e he =>
    ⟨(h e he).1, by rintro h0; have := (h e he).2; rw [h0] at this; simp at this⟩
  have hsh := shade_two (iter profile) xs k l hl h
  refine ⟨⟨(iter profile).map fun e => (e.1, Spec.mean (xs e.1)),
    if theory then some (getAnalyticShearFlowProfileAsFunctionOfY f shift) else none,
    some ((iter profile).map fun e' =>
      (e'.1, Spec.mean (xs e'.1) - k * √(Spec.variance (xs e'.1) / (xs l.1).length),
        Spec.mean (xs e'.1) + k * √(Spec.variance (xs e'.1) / (xs l.1).length)))⟩, _, ?_, rfl, ?_⟩
  · have hb : band .two (iter profile) ((iter profile).map fun e => (e.1, Spec.mean (xs e.1))) k = .ok (some
        ((iter profile).map fun e' =>
          (e'.1, Spec.mean (xs e'.1) - k * √(Spec.variance (xs e'.1) / (xs l.1).length),
            Spec.mean (xs e'.1) + k * √(Spec.variance (xs e'.1) / (xs l.1).length)))) := by
      rw [band, if_pos hk.ne', if_neg (not_lt.2 hk.le), hsh]
      rfl
    simp [getMPLAxes, hp, wrap, means_ok _ xs h', hb, bind, Except.bind]
  · intro hin
    obtain ⟨e', he', heq⟩ := List.mem_map.1 hin
    simp only [bandAt, Prod.mk.injEq] at heq
    obtain ⟨h1, -, h3⟩ := heq
    rw [h1] at h3
    have h4 : √(Spec.variance (xs e.1) / (xs l.1).length) = √(Spec.variance (xs e.1) / (xs e.1).length) := by
      have := add_left_cancel h3
      exact mul_left_cancel₀ hk.ne' this
    have hv0 := FlowFile.variance_nonneg (xs e.1)
    have h5 := (Real.sqrt_inj (by positivity) (by positivity)).1 h4
    have n1 : ((xs e.1).length : ℝ) ≠ 0 := by have := (hd e he).2; exact_mod_cast (by omega)
    have n2 : ((xs l.1).length : ℝ) ≠ 0 := by
      have := (h l (List.mem_of_getLast? hl)).2; exact_mod_cast (by omega)
    rw [div_eq_div_iff n2 n1] at h5
    exact hs (by exact_mod_cast mul_left_cancel₀ hv h5)

/-- C115 (violation): in Python 3, there is never a plot if a shaded region is asked for, as is the default. -/
theorem C115_python3_violated (k : ℝ) (hk : k ≠ 0) (theory : Bool) :
    ∀ p, getMPLAxes .three iter f order k theory shift ≠ .ok p := by
  intro p h
  unfold getMPLAxes at h
  cases h1 : getFlowProfileAsFunctionOfY f order shift with
  | error e => simp [h1, wrap, bind, Except.bind] at h
  | ok d =>
    cases h2 : means (iter d) with
    | error e => simp [h1, h2, wrap, bind, Except.bind] at h
    | ok line =>
      have h3 : ∃ e, band .three (iter d) line k = .error e := by
        rw [band, if_pos hk]
        split
        · exact ⟨_, rfl⟩
        · exact ⟨.nameError, rfl⟩
      obtain ⟨e, h3⟩ := h3
      simp [h1, h2, h3, wrap, bind, Except.bind] at h

/-- C115 (part): with a negative factor, there is no plot. -/
theorem C115_negative (version : Version) (k : ℝ) (hk : k < 0) (theory : Bool) :
    ∀ p, getMPLAxes version iter f order k theory shift ≠ .ok p := by
  intro p h
  unfold getMPLAxes at h
  cases h1 : getFlowProfileAsFunctionOfY f order shift with
  | error e => simp [h1, wrap, bind, Except.bind] at h
  | ok d =>
    cases h2 : means (iter d) with
    | error e => simp [h1, h2, wrap, bind, Except.bind] at h
    | ok line =>
      have h3 : band version (iter d) line k = .error (.py .exception) := by
        rw [band, if_pos hk.ne, if_pos hk]
      simp [h1, h2, h3, wrap, bind, Except.bind] at h

/-- C115 (violation): a layer without data, that is, one in which no particle has been met, prevents the plot of all
others. -/
theorem C115_empty_violated (version : Version) (hp : getFlowProfileAsFunctionOfY f order shift = .ok profile)
    (hit : ∀ d, (iter d).Perm d) (e : ℝ × Vec3 (OTFS ℝ)) (he : e ∈ profile) (h0 : Describes e.2.x [])
    (theory : Bool) (k : ℝ) : getMPLAxes version iter f order k theory shift = .error (.py .valueError) := by
  have hm : e ∈ iter profile := (hit _).mem_iff.2 he
  have h1 : ∃ e ∈ iter profile, ∃ err, (do let m ← e.2.x.getSampleMean; .ok (e.1, m) : Except PyErr (ℝ × ℝ)) =
      .error err := ⟨e, hm, .valueError, by rw [h0.2.1]; rfl⟩
  obtain ⟨a, ha, err, h2, h3⟩ := mapM_error (iter profile) h1
  have h4 : err = .valueError := by
    unfold OTFS.getSampleMean at h2
    split at h2
    · simp [bind, Except.bind] at h2; exact h2.symm
    · simp [bind, Except.bind] at h2
  have h5 : means (iter profile) = .error .valueError := by rw [← h4]; exact h3
  simp [getMPLAxes, hp, wrap, h5, bind, Except.bind]

end

/-! ## Proofs: the display of the vector field -/

theorem lookup_some_of_mem {α : Type} (d : List (ℤ × α)) (k : ℤ) (h : k ∈ keys d) : ∃ a, d.lookup k = some a := by
  cases h' : d.lookup k with
  | some a => exact ⟨a, rfl⟩
  | none =>
    rw [List.lookup_eq_none_iff] at h'
    obtain ⟨p, hp, rfl⟩ := List.mem_map.1 h
    simpa using h' p hp

theorem lookup_none {α : Type} (d : List (ℤ × α)) (k : ℤ) (h : k ∉ keys d) : d.lookup k = none := by
  rw [List.lookup_eq_none_iff]
  rintro p hp
  simp only [bne_iff_ne, ne_eq, beq_eq_false_iff_ne, beq_iff_eq]
  rintro rfl
  exact h (List.mem_map.2 ⟨p, hp, rfl⟩)

theorem meanOf_ok {v : Vec3 (OTFS ℝ)} {l : List (Vec3 ℝ)} (hx : Describes v.x (l.map Vec3.x))
    (hy : Describes v.y (l.map Vec3.y)) (hz : Describes v.z (l.map Vec3.z)) (hl : l ≠ []) :
    meanOf v = .ok (meanVelocity l) := by
  have h1 := hx.2.1
  have h2 := hy.2.1
  have h3 := hz.2.1
  rw [if_neg (by simpa using hl)] at h1 h2 h3
  simp [meanOf, h1, h2, h3, bind, Except.bind, meanVelocity]

theorem valueAt_ok {size : ℕ × ℕ × ℕ} {b : Nested} {d : ℕ → ℕ → ℕ → List (Vec3 ℝ)} (h : Complete size b d)
    {x y z : ℕ} (hx : x < size.1) (hy : y < size.2.1) (hz : z < size.2.2) (hd : d x y z ≠ []) :
    valueAt b x y z = .ok (meanVelocity (d x y z)) := by
  obtain ⟨bx, h1, -, h2⟩ := h.2 x hx
  obtain ⟨bxy, h3, -, h4⟩ := h2 y hy
  obtain ⟨v, h5, h6, h7, h8⟩ := h4 z hz
  simp [valueAt, get, h1, h3, h5, bind, Except.bind, meanOf_ok h6 h7 h8 hd]

theorem item_ok {α : Type} {l : List α} {i : ℕ} (h : i < l.length) : item l i = .ok l[i] := by
  simp [item, h]

theorem flatMap_perm {α β : Type} {l l' : List α} (h : l.Perm l') {g g' : α → List β}
    (hg : ∀ a ∈ l, (g a).Perm (g' a)) : (l.flatMap g).Perm (l'.flatMap g') :=
  (List.Perm.flatMap_left l hg).trans (h.flatMap_right g')

theorem field_ok {blocks : List Nested} {nx ny nz rows : ℕ} {d : ℕ → ℕ → ℕ → ℕ → List (Vec3 ℝ)}
    (hb : ∀ i (h : i < blocks.length), Complete (nx, ny, nz) blocks[i] (d i)) (h2 : 2 ≤ blocks.length)
    (hsq : nx ≤ ny) {id z : ℕ} (hid : id < blocks.length) (hz : z < nz)
    (hne : ∀ x < nx, ∀ y < nx, d id x y z ≠ []) :
    ∃ a, field blocks id z = .ok a ∧ ShowsField nx nx a fun x y => d id x y z := by
  have h0 := (hb 0 (by omega)).1
  have h1 := (hb 1 (by omega)).1
  have hk : ∀ (l : List ℤ), l.Perm ((List.range nx).map Int.ofNat) → ∀ k ∈ l, ∃ n : ℕ, n < nx ∧ k = n := by
    intro l hl k hk
    obtain ⟨n, hn, rfl⟩ := List.mem_map.1 (hl.mem_iff.1 hk)
    exact ⟨n, List.mem_range.1 hn, rfl⟩
  let g : ℤ → ℤ → (ℝ × ℝ) × Vec3 ℝ := fun y x =>
    (((x : ℝ) + 1 / 2, (y : ℝ) + 1 / 2), meanVelocity (d id x.toNat y.toNat z))
  have hrow : ∀ y ∈ keys blocks[1], (keys blocks[0]).mapM (fun x => do
      let v ← valueAt blocks[id] x y z
      (.ok (((x : ℝ) + 1 / 2, (y : ℝ) + 1 / 2), v) : Except PyErr ((ℝ × ℝ) × Vec3 ℝ))) =
        .ok ((keys blocks[0]).map (g y)) := by
    intro y hy
    refine mapM_ok (g y) _ fun x hx => ?_
    obtain ⟨n, hn, rfl⟩ := hk _ h0 x hx
    obtain ⟨m, hm, rfl⟩ := hk _ h1 y hy
    have := valueAt_ok (hb id hid) (x := n) (y := m) (z := z) hn (lt_of_lt_of_le hm hsq) hz (hne n hn m hm)
    rw [this]; rfl
  refine ⟨((keys blocks[1]).map fun y => (keys blocks[0]).map (g y)).flatten, ?_, ?_⟩
  · unfold field
    rw [item_ok hid, item_ok (show 0 < blocks.length by omega), item_ok (show 1 < blocks.length by omega)]
    simp only [bind, Except.bind]
    have := mapM_ok (fun y => (keys blocks[0]).map (g y)) _ hrow
    simp only [bind, Except.bind] at this
    rw [this]
  · rw [← List.flatMap_def]
    have e1 : ((keys blocks[1]).flatMap fun y => (keys blocks[0]).map (g y)).Perm
        (((List.range nx).map Int.ofNat).flatMap fun y => ((List.range nx).map Int.ofNat).map (g y)) :=
      flatMap_perm h1 fun y _ => h0.map _
    refine e1.trans (List.Perm.of_eq ?_)
    rw [List.flatMap_map]
    simp only [List.map_map]
    rfl

theorem discrete_lt {n : ℕ} {c : ℝ} (h0 : 0 ≤ c) (h1 : c ≤ (n : ℝ) - 1) : discreteValue c < n := by
  have h2 : (⌊c⌋ : ℝ) ≤ (n : ℝ) - 1 := (Int.floor_le c).trans h1
  have h3 : ⌊c⌋ ≤ (n : ℤ) - 1 := by exact_mod_cast h2
  have h4 : 0 ≤ ⌊c⌋ := Int.floor_nonneg.2 h0
  unfold discreteValue
  omega

/-- The parameters after a history. -/
theorem moves_params (blocks : List Nested) (ms : List Move) (d : Display) :
    (moves blocks d ms).outputBlockID =
      (if ms.any (fun m => match m with | .time _ => true | .z _ => false) then chosenBlock ms else d.outputBlockID) ∧
    (moves blocks d ms).z =
      (if ms.any (fun m => match m with | .z _ => true | .time _ => false) then chosenZ ms else d.z) := by
  have hu : ∀ d, (updateData blocks d).1.outputBlockID = d.outputBlockID ∧ (updateData blocks d).1.z = d.z := by
    intro d
    unfold updateData
    split <;> exact ⟨rfl, rfl⟩
  induction ms generalizing d with
  | nil => exact ⟨rfl, rfl⟩
  | cons m ms ih =>
    have hstep : moves blocks d (m :: ms) = moves blocks (move blocks d m).1 ms := rfl
    rw [hstep]
    obtain ⟨i1, i2⟩ := ih (move blocks d m).1
    cases m with
    | time c =>
      rw [i1, i2]
      simp only [move, hu, List.any_cons, Bool.true_or, Bool.false_or, if_true, chosenBlock, chosenZ]
      refine ⟨?_, trivial⟩
      rfl
    | z c =>
      rw [i1, i2]
      simp only [move, hu, List.any_cons, Bool.true_or, Bool.false_or, if_true, chosenBlock, chosenZ]
      refine ⟨trivial, ?_⟩
      rfl

theorem open_eq (blocks : List Nested) (h2 : 2 ≤ blocks.length) {a : List ((ℝ × ℝ) × Vec3 ℝ)}
    (h : field blocks 0 ((0 : ℕ) : ℤ) = .ok a) : open_ blocks = .ok ⟨0, 0, some a⟩ := by
  unfold open_
  rw [item_ok (show 0 < blocks.length by omega), item_ok (show 1 < blocks.length by omega)]
  simp only [bind, Except.bind, updateData, h]

section
variable {blocks : List Nested} {nx ny nz : ℕ} {d : ℕ → ℕ → ℕ → ℕ → List (Vec3 ℝ)}

/-- What is shown after any history of moves, for boxes not longer along `x` than along `y`: the first `nx` rows. -/
theorem shown (hb : ∀ i (h : i < blocks.length), Complete (nx, ny, nz) blocks[i] (d i)) (h2 : 2 ≤ blocks.length)
    (hsq : nx ≤ ny) (hz : 0 < nz)
    (hne : ∀ i < blocks.length, ∀ x < nx, ∀ y < ny, ∀ z < nz, d i x y z ≠ []) (ms : List Move)
    (hms : ∀ m ∈ ms, m.Within blocks.length nz) :
    ∃ g a, open_ blocks = .ok g ∧ (moves blocks g ms).arrows = some a ∧
      ShowsField nx nx a fun x y => d (chosenBlock ms) x y (chosenZ ms) := by
  have hf : ∀ id z, id < blocks.length → z < nz → ∃ a, field blocks id (z : ℤ) = .ok a ∧
      ShowsField nx nx a fun x y => d id x y z := fun id z hid hz' =>
    field_ok (rows := 0) hb h2 hsq hid hz' fun x hx y hy => hne id hid x hx y (lt_of_lt_of_le hy hsq) z hz'
  obtain ⟨a0, h3, h4⟩ := hf 0 0 (by omega) hz
  have key : ∀ (ms : List Move) (g : Display), (∀ m ∈ ms, m.Within blocks.length nz) → g.outputBlockID < blocks.length →
      g.z < nz → (∃ a, g.arrows = some a ∧ ShowsField nx nx a fun x y => d g.outputBlockID x y g.z) →
      ∃ a, (moves blocks g ms).arrows = some a ∧
        ShowsField nx nx a fun x y => d (moves blocks g ms).outputBlockID x y (moves blocks g ms).z := by
    intro ms
    induction ms with
    | nil => exact fun g _ _ _ h => h
    | cons m ms ih =>
      intro g hw hi hzz _
      have hm := hw m (by simp)
      have hup : ∀ g' : Display, g'.outputBlockID < blocks.length → g'.z < nz → ∃ a,
          (updateData blocks g').1 = { g' with arrows := some a } ∧
            ShowsField nx nx a fun x y => d g'.outputBlockID x y g'.z := by
        intro g' q1 q2
        obtain ⟨a, r1, r2⟩ := hf _ _ q1 q2
        exact ⟨a, by simp only [updateData, r1], r2⟩
      have hnext : (move blocks g m).1.outputBlockID < blocks.length ∧ (move blocks g m).1.z < nz ∧
          ∃ a, (move blocks g m).1.arrows = some a ∧
            ShowsField nx nx a fun x y => d (move blocks g m).1.outputBlockID x y (move blocks g m).1.z := by
        cases m with
        | time c =>
          have hc := discrete_lt hm.1 hm.2
          obtain ⟨a, r1, r2⟩ := hup { g with outputBlockID := discreteValue c } hc hzz
          simp only [move, r1]
          exact ⟨hc, hzz, a, rfl, r2⟩
        | z c =>
          have hc := discrete_lt hm.1 hm.2
          obtain ⟨a, r1, r2⟩ := hup { g with z := discreteValue c } hi hc
          simp only [move, r1]
          exact ⟨hi, hc, a, rfl, r2⟩
      exact ih (move blocks g m).1 (fun m' hm' => hw m' (by simp [hm'])) hnext.1 hnext.2.1 hnext.2.2
  obtain ⟨a, h5, h6⟩ := key ms ⟨0, 0, some a0⟩ hms (by show 0 < blocks.length; omega) hz ⟨a0, rfl, h4⟩
  refine ⟨_, a, open_eq blocks h2 h3, h5, ?_⟩
  obtain ⟨p1, p2⟩ := moves_params blocks ms ⟨0, 0, some a0⟩
  have c1 : chosenBlock ms = (moves blocks ⟨0, 0, some a0⟩ ms).outputBlockID := by
    rw [p1]
    split
    · rfl
    · rename_i hno
      clear * - hno
      induction ms with
      | nil => rfl
      | cons m ms ih => cases m with
        | time c => simp at hno
        | z c => exact ih (by simpa using hno)
  have c2 : chosenZ ms = (moves blocks ⟨0, 0, some a0⟩ ms).z := by
    rw [p2]
    split
    · rfl
    · rename_i hno
      clear * - hno
      induction ms with
      | nil => rfl
      | cons m ms ih => cases m with
        | z c => simp at hno
        | time c => exact ih (by simpa using hno)
  rw [c1, c2]
  exact h6

/-- C115 (part): for boxes as long along `x` as along `y`, with at least two output blocks and data everywhere, the
display shows after any history of moves of the sliders, and whatever the order of iteration over dictionaries, in each
cell the mean velocity in the block and at the `z` chosen last. Missing: other boxes, see `C115_long_violated` and
`C115_short_violated`, and fewer blocks, see `C115_blocks_violated`. -/
theorem C115_field_partial (hb : ∀ i (h : i < blocks.length), Complete (nx, ny, nz) blocks[i] (d i))
    (h2 : 2 ≤ blocks.length) (hsq : nx = ny) (hz : 0 < nz)
    (hne : ∀ i < blocks.length, ∀ x < nx, ∀ y < ny, ∀ z < nz, d i x y z ≠ []) (ms : List Move)
    (hms : ∀ m ∈ ms, m.Within blocks.length nz) :
    ∃ g a, open_ blocks = .ok g ∧ (moves blocks g ms).arrows = some a ∧
      ShowsField nx ny a fun x y => d (chosenBlock ms) x y (chosenZ ms) := by
  subst hsq
  exact shown hb h2 le_rfl hz hne ms hms

/-- C115 (violation): with fewer than two output blocks, nothing is shown. -/
theorem C115_blocks_violated (h2 : blocks.length < 2) : open_ blocks = .error .indexError := by
  match blocks, h2 with
  | [], _ => rfl
  | [_], _ => rfl
  | _ :: _ :: _, h => simp at h

/-- C115 (violation): if the box is longer along `x` than along `y`, nothing is shown. -/
theorem C115_long_violated (hb : ∀ i (h : i < blocks.length), Complete (nx, ny, nz) blocks[i] (d i))
    (h2 : 2 ≤ blocks.length) (hlong : ny < nx) : ∀ g, open_ blocks ≠ .ok g := by
  intro g hg
  have h0 := (hb 0 (by omega)).1
  have h1 := (hb 1 (by omega)).1
  have herr : ∃ e, field blocks 0 ((0 : ℕ) : ℤ) = .error e := by
    have hv : ∀ x ∈ keys blocks[0], ∃ e, (do
        let v ← valueAt blocks[0] x (ny : ℤ) ((0 : ℕ) : ℤ)
        (.ok (((x : ℝ) + 1 / 2, ((ny : ℤ) : ℝ) + 1 / 2), v) : Except PyErr ((ℝ × ℝ) × Vec3 ℝ))) = .error e := by
      intro x hx
      obtain ⟨n, hn, rfl⟩ := List.mem_map.1 (h0.mem_iff.1 hx)
      obtain ⟨bx, q1, q2, -⟩ := (hb 0 (by omega)).2 n (List.mem_range.1 hn)
      have q3 : bx.lookup (ny : ℤ) = none := by
        refine lookup_none _ _ fun hin => ?_
        obtain ⟨m, hm, he⟩ := List.mem_map.1 (q2.mem_iff.1 hin)
        have h7 : m = ny := Int.ofNat.inj he
        have h8 : m < ny := List.mem_range.1 hm
        omega
      refine ⟨.keyError, ?_⟩
      simp [valueAt, get, q1, q3, bind, Except.bind]
    have hx0 : ((0 : ℕ) : ℤ) ∈ keys blocks[0] := h0.mem_iff.2 (List.mem_map.2 ⟨0, List.mem_range.2 (by omega), rfl⟩)
    have hy0 : (ny : ℤ) ∈ keys blocks[1] := h1.mem_iff.2 (List.mem_map.2 ⟨ny, List.mem_range.2 hlong, rfl⟩)
    obtain ⟨-, -, e, -, h5⟩ := mapM_error (f := fun x => do
        let v ← valueAt blocks[0] x (ny : ℤ) ((0 : ℕ) : ℤ)
        (.ok (((x : ℝ) + 1 / 2, ((ny : ℤ) : ℝ) + 1 / 2), v) : Except PyErr ((ℝ × ℝ) × Vec3 ℝ))) (keys blocks[0])
      ⟨_, hx0, hv _ hx0⟩
    obtain ⟨-, -, e', -, h6⟩ := mapM_error (f := fun y => (keys blocks[0]).mapM fun x => do
        let v ← valueAt blocks[0] x y ((0 : ℕ) : ℤ)
        (.ok (((x : ℝ) + 1 / 2, (y : ℝ) + 1 / 2), v) : Except PyErr ((ℝ × ℝ) × Vec3 ℝ))) (keys blocks[1]) ⟨_, hy0, e, h5⟩
    refine ⟨e', ?_⟩
    unfold field
    rw [item_ok (show 0 < blocks.length by omega), item_ok (show 1 < blocks.length by omega)]
    simp only [bind, Except.bind] at h6 ⊢
    rw [h6]
  obtain ⟨e, herr⟩ := herr
  unfold open_ at hg
  rw [item_ok (show 0 < blocks.length by omega), item_ok (show 1 < blocks.length by omega)] at hg
  simp only [bind, Except.bind, updateData, herr] at hg
  cases hg

/-- C115 (violation): if the box is shorter along `x` than along `y`, the rows from `nx` on are never shown. -/
theorem C115_short_violated (hb : ∀ i (h : i < blocks.length), Complete (nx, ny, nz) blocks[i] (d i))
    (h2 : 2 ≤ blocks.length) (hshort : nx < ny) (hz : 0 < nz)
    (hne : ∀ i < blocks.length, ∀ x < nx, ∀ y < ny, ∀ z < nz, d i x y z ≠ []) (ms : List Move)
    (hms : ∀ m ∈ ms, m.Within blocks.length nz) :
    ∃ g a, open_ blocks = .ok g ∧ (moves blocks g ms).arrows = some a ∧
      ∀ e ∈ a, e.1.2 < (nx : ℝ) ∧ ∀ x y v, nx ≤ y → e ≠ arrow x y v := by
  obtain ⟨g, a, h3, h4, h5⟩ := shown hb h2 hshort.le hz hne ms hms
  have hlt : ∀ e ∈ a, e.1.2 < (nx : ℝ) := by
    intro e he
    obtain ⟨y, hy, he⟩ := List.mem_flatMap.1 (h5.mem_iff.1 he)
    obtain ⟨x, -, rfl⟩ := List.mem_map.1 he
    have : (y : ℝ) + 1 ≤ nx := by exact_mod_cast List.mem_range.1 hy
    show (y : ℝ) + 1 / 2 < nx
    linarith
  refine ⟨g, a, h3, h4, fun e he => ⟨hlt e he, fun x y v hy heq => ?_⟩⟩
  have := hlt e he
  rw [heq] at this
  have hy' : (nx : ℝ) ≤ y := by exact_mod_cast hy
  have h6 : (y : ℝ) + 1 / 2 < nx := this
  linarith

end

/-! ## Examples -/

section
/-- The statistics of these velocities. -/
noncomputable def stat (l : List (Vec3 ℝ)) : Vec3 (OTFS ℝ) :=
  ⟨feed (l.map Vec3.x), feed (l.map Vec3.y), feed (l.map Vec3.z)⟩

/-- A block for a box with one cell along `x` and `z` and `ny` along `y`. -/
noncomputable def column (ny : ℕ) (l : List (Vec3 ℝ)) : Nested :=
  [(0, (List.range ny).map fun y : ℕ => ((y : ℤ), [(0, stat l)]))]

theorem column_complete (ny : ℕ) (l : List (Vec3 ℝ)) : Complete (1, ny, 1) (column ny l) fun _ _ _ => l := by
  have hlk : ∀ (n y : ℕ), y < n → ((List.range n).map fun y : ℕ => ((y : ℤ), [((0 : ℤ), stat l)])).lookup (y : ℤ) =
      some [(0, stat l)] := by
    intro n y hy
    obtain ⟨a, ha⟩ := lookup_some_of_mem ((List.range n).map fun y : ℕ => ((y : ℤ), [((0 : ℤ), stat l)])) (y : ℤ)
      (List.mem_map.2 ⟨((y : ℤ), [((0 : ℤ), stat l)]), List.mem_map.2 ⟨y, List.mem_range.2 hy, rfl⟩, rfl⟩)
    have : ((y : ℤ), a) ∈ (List.range n).map fun y : ℕ => ((y : ℤ), [((0 : ℤ), stat l)]) := by
      obtain ⟨l₁, l₂, h1, -⟩ := List.lookup_eq_some_iff.1 ha
      rw [h1]; simp
    obtain ⟨m, -, hm⟩ := List.mem_map.1 this
    rw [ha]
    exact congrArg some (Prod.mk.inj hm).2.symm
  refine ⟨by simp [column, keys], fun x hx => ?_⟩
  obtain rfl : x = 0 := by simpa using hx
  refine ⟨_, rfl, by rw [keys, List.map_map]; exact List.Perm.refl _, fun y hy => ⟨_, hlk ny y hy, by simp [keys],
    fun z hz => ?_⟩⟩
  obtain rfl : z = 0 := by simpa using hz
  exact ⟨_, rfl, FlowFile.describes_feed _, FlowFile.describes_feed _, FlowFile.describes_feed _⟩

/-- Two blocks of a box with one cell (the hypotheses of `C115_field_partial`), the second one chosen. -/
example : ∃ g a, open_ [column 1 [⟨1, 0, 0⟩], column 1 [⟨3, 0, 0⟩, ⟨1, 0, 0⟩]] = .ok g ∧
    (moves [column 1 [⟨1, 0, 0⟩], column 1 [⟨3, 0, 0⟩, ⟨1, 0, 0⟩]] g [.time 1, .z 0]).arrows = some a ∧
    ShowsField 1 1 a fun _ _ => [⟨3, 0, 0⟩, ⟨1, 0, 0⟩] := by
  have h := C115_field_partial (blocks := [column 1 [⟨1, 0, 0⟩], column 1 [⟨3, 0, 0⟩, ⟨1, 0, 0⟩]]) (nx := 1) (ny := 1)
    (nz := 1) (d := fun i _ _ _ => if i = 0 then [⟨1, 0, 0⟩] else [⟨3, 0, 0⟩, ⟨1, 0, 0⟩])
    (by
      intro i hi
      match i, hi with
      | 0, _ => exact column_complete 1 _
      | 1, _ => exact column_complete 1 _
      | n + 2, h => simp at h)
    (by simp) rfl (by simp) (by intro i _ x _ y _ z _; split <;> simp) [.time 1, .z 0]
    (by simp [Move.Within]; norm_num)
  simpa [chosenBlock] using h

/-- Boxes that are longer along `y` exist (the hypotheses of `C115_short_violated`). -/
example : ∀ i (h : i < [column 2 [⟨1, 0, 0⟩], column 2 [⟨1, 0, 0⟩]].length),
    Complete (1, 2, 1) [column 2 [⟨1, 0, 0⟩], column 2 [⟨1, 0, 0⟩]][i] fun _ _ _ => [⟨1, 0, 0⟩] := by
  intro i hi
  match i, hi with
  | 0, _ => exact column_complete 2 _
  | 1, _ => exact column_complete 2 _
  | n + 2, h => simp at h

/-- Layers with different numbers of data (the hypotheses of `C115_size_violated`). -/
example : ∃ (f : PyFlow ℝ) (order : Dict Slice ℝ) (profile : Dict ℝ ℝ) (xs : ℝ → List ℝ) (e l : ℝ × Vec3 (OTFS ℝ)),
    getFlowProfileAsFunctionOfY f order false = .ok profile ∧
      (∀ e ∈ profile, Describes e.2.x (xs e.1) ∧ 2 ≤ (xs e.1).length) ∧ e ∈ profile ∧
      profile.getLast? = some l ∧ (xs e.1).length ≠ (xs l.1).length ∧ Spec.variance (xs e.1) ≠ 0 := by
  classical
  let a : List (Vec3 ℝ) := [⟨0, 0, 0⟩, ⟨2, 0, 0⟩]
  let b : List (Vec3 ℝ) := [⟨0, 0, 0⟩, ⟨2, 0, 0⟩, ⟨2, 0, 0⟩]
  let va : Vec3 (List ℝ) := ⟨a.map Vec3.x, a.map Vec3.y, a.map Vec3.z⟩
  let vb : Vec3 (List ℝ) := ⟨b.map Vec3.x, b.map Vec3.y, b.map Vec3.z⟩
  refine ⟨⟨1, 0, (1, 2, 1), ⟨[], []⟩⟩, [((0, 0, 0), FlowFile.feedV va), ((0, 1, 0), FlowFile.feedV vb)],
    [(0, FlowFile.feedV va), (1, FlowFile.feedV vb)], fun y => if y = 0 then va.x else vb.x, (0, FlowFile.feedV va),
    (1, FlowFile.feedV vb), ?_, ?_, by simp, rfl, by simp [va, vb, a, b], ?_⟩
  · have h1 : FlowFile.mergeInto (0 : ℝ) (FlowFile.feedV va) [] = .ok [(0, FlowFile.feedV va)] := by
      simpa using FlowFile.mergeInto_new (0 : ℝ) va [] (by simp)
    have h2 : FlowFile.mergeInto (1 : ℝ) (FlowFile.feedV vb) [(0, FlowFile.feedV va)] =
        .ok [(0, FlowFile.feedV va), (1, FlowFile.feedV vb)] := by
      simpa using FlowFile.mergeInto_new (1 : ℝ) vb [(0, FlowFile.feedV va)] (by simp)
    have y0 : (FlowFile.yCoord 1 false 0 : ℝ) = 0 := by simp [FlowFile.yCoord]
    have y1 : (FlowFile.yCoord 1 false 1 : ℝ) = 1 := by simp [FlowFile.yCoord]
    simp only [getFlowProfileAsFunctionOfY, List.foldlM_cons, List.foldlM_nil, y0, y1, h1, bind, Except.bind]
    rw [h2]
    rfl
  · intro e he
    simp only [List.mem_cons, List.not_mem_nil, or_false] at he
    rcases he with rfl | rfl
    · exact ⟨by simpa [FlowFile.feedV] using FlowFile.describes_feed va.x, by simp [va, a]⟩
    · exact ⟨by simpa [FlowFile.feedV] using FlowFile.describes_feed vb.x, by simp [vb, b]⟩
  · simp [va, a, Spec.variance, Spec.sumSqDev, Spec.mean]
    norm_num
end

end OpenMPCD.Profile.FlowPlot
