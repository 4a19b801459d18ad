import Verif.Launch.Props
import Mathlib.Analysis.SpecialFunctions.Pow.Real

/-!
# The random number generators on the device

The generators in device memory, one for each collision cell: how they are constructed
(`src/OpenMPCD/CUDA/Simulation.cu:175-180`,
`cudaDeviceCode/OpenMPCD/CUDA/DeviceCode/Simulation.cu:410-422`), and who uses them in a collision
(`src/OpenMPCD/CUDA/Simulation.cu:273-286`, `src/OpenMPCD/CUDA/Simulation.cu:398`,
`src/OpenMPCD/CUDA/Simulation.cu:456-496`,
`cudaDeviceCode/OpenMPCD/CUDA/DeviceCode/Simulation.cu:193-229`,
`cudaDeviceCode/OpenMPCD/CUDA/DeviceCode/Simulation.cu:277-311`).

The cuRAND library is not modelled: `random seed subsequence position` is any function that says which
word is at which position of which subsequence. The distributions are any functions of the words that
follow the generator's position; they say how many words they consume, and may keep something in the
generator's state (the second number of a pair of normally distributed ones). It is assumed that they
consume finitely many words, which the loop of `Gamma_shape_ge_1` does only with probability one.
Positions are unbounded. Memory outside of the allocated generators must not be accessed: this gives
`none`.
-/

set_option linter.unusedSectionVars false
set_option linter.unusedSimpArgs false
set_option linter.unusedVariables false

namespace OpenMPCD.Sim.Generators

open OpenMPCD.Launch

variable {σ α A : Type}

/-! ## Model -/

/-- The state of a `Philox4x32_10`,
`include/OpenMPCD/CUDA/Random/Generators/Philox4x32-10.hpp:30-59`: seed and subsequence, the number of
words consumed, and whatever else is kept by the library. -/
structure Gen (σ : Type) where
  seed : ℕ
  sub : ℕ
  pos : ℕ
  kept : σ

/-- The constructor, `include/OpenMPCD/CUDA/Random/Generators/Philox4x32-10.hpp:39-45`: offset zero. -/
def newGen (initial : σ) (seed subsequence : ℕ) : Gen σ := ⟨seed, subsequence, 0, initial⟩

/-- A distribution: from the words that follow, and what has been kept, it makes a value, the number of
words consumed, and what is to be kept. -/
abbrev Draw (σ α : Type) := (ℕ → ℕ) → σ → α × ℕ × σ

/-- What a distribution makes of the state of a generator. -/
def ask (random : ℕ → ℕ → ℕ → ℕ) (d : Draw σ α) (g : Gen σ) : α × ℕ × σ :=
  d (fun k => random g.seed g.sub (g.pos + k)) g.kept

/-- The generator after the distribution has been applied to it. -/
def advance (random : ℕ → ℕ → ℕ → ℕ) (d : Draw σ α) (g : Gen σ) : Gen σ :=
  { g with pos := g.pos + (ask random d g).2.1, kept := (ask random d g).2.2 }

/-- Device memory: the number of generators allocated, the generators, the grid shift, rotation axes
and velocity scalings. `log` is not part of the program: it records which words (subsequence and
position) have been used. -/
structure Device (σ A : Type) where
  allocated : ℕ
  gens : ℕ → Gen σ
  shift : ℕ → ℝ
  axes : ℕ → A
  scalings : ℕ → ℝ
  log : List (ℕ × ℕ)

/-- `dist(rngs[i])`. -/
def use (random : ℕ → ℕ → ℕ → ℕ) (i : ℕ) (d : Draw σ α) (dev : Device σ A) :
    Option (α × Device σ A) :=
  if i < dev.allocated then
    some ((ask random d (dev.gens i)).1,
      { dev with
        gens := fun j => if j = i then advance random d (dev.gens i) else dev.gens j
        log := dev.log ++ (List.range (ask random d (dev.gens i)).2.1).map
          fun k => ((dev.gens i).sub, (dev.gens i).pos + k) })
  else none

/-- One thread of `constructGPURNGs`,
`cudaDeviceCode/OpenMPCD/CUDA/DeviceCode/Simulation.cu:416-421`. -/
def constructThread (initial : σ) (count seed threadID : ℕ) (dev : Device σ A) : Device σ A :=
  if threadID ≠ 0 then dev
  else (List.range count).foldl (fun dev i =>
    { dev with gens := fun j => if j = i then newGen initial seed i else dev.gens j }) dev

/-- `constructGPURNGs`, with its threads in the given order; it is launched with one thread,
`src/OpenMPCD/CUDA/Simulation.cu:177-178`. -/
def construct (initial : σ) (count seed : ℕ) (order : List ℕ) (dev : Device σ A) : Device σ A :=
  order.foldl (fun dev t => constructThread initial count seed t dev) dev

/-- The distributions: `Uniform0e1i`, random unit vectors, and `Gamma_shape_ge_1` with shape and scale. -/
structure Distributions (σ A : Type) where
  uniform : Draw σ ℝ
  unitVector : Draw σ A
  gamma : ℝ → ℝ → Draw σ ℝ

/-- `generateGridShiftVector`,
`cudaDeviceCode/OpenMPCD/CUDA/DeviceCode/Simulation.cu:205-209`. -/
def generateGridShiftVector (random : ℕ → ℕ → ℕ → ℕ) (ds : Distributions σ A) (gridShiftScale : ℝ)
    (dev : Device σ A) : Option (Device σ A) :=
  (use random 0 ds.uniform dev).bind fun r =>
  (use random 0 ds.uniform
    { r.2 with shift := fun j => if j = 0 then r.1 * gridShiftScale else r.2.shift j }).bind fun r =>
  (use random 0 ds.uniform
    { r.2 with shift := fun j => if j = 1 then r.1 * gridShiftScale else r.2.shift j }).bind fun r =>
  some { r.2 with shift := fun j => if j = 2 then r.1 * gridShiftScale else r.2.shift j }

/-- One thread of `generateCollisionCellRotationAxes`,
`cudaDeviceCode/OpenMPCD/CUDA/DeviceCode/Simulation.cu:218-228`. -/
def axesThread (random : ℕ → ℕ → ℕ → ℕ) (ds : Distributions σ A) (collisionCellCount : ℕ)
    (dev : Device σ A) (collisionCellID : ℕ) : Option (Device σ A) :=
  if collisionCellID ≥ collisionCellCount then some dev
  else (use random collisionCellID ds.unitVector dev).bind fun r =>
    some { r.2 with axes := fun j => if j = collisionCellID then r.1 else r.2.axes j }

/-- One thread of `generateCollisionCellMBSFactors`,
`cudaDeviceCode/OpenMPCD/CUDA/DeviceCode/Simulation.cu:286-310`. -/
noncomputable def factorsThread (random : ℕ → ℕ → ℕ → ℕ) (ds : Distributions σ A)
    (collisionCellCount : ℕ) (counts : ℕ → ℕ) (energies : ℕ → ℝ) (kT : ℝ)
    (dev : Device σ A) (collisionCellID : ℕ) : Option (Device σ A) :=
  if collisionCellID ≥ collisionCellCount then some dev
  else if counts collisionCellID < 2 ∨ energies collisionCellID = 0 then
    some { dev with scalings := fun j => if j = collisionCellID then 1 else dev.scalings j }
  else (use random collisionCellID (ds.gamma (1.5 * ((counts collisionCellID : ℝ) - 1)) kT) dev).bind
    fun r => some { r.2 with scalings := fun j =>
      if j = collisionCellID then Real.sqrt (r.1 / energies collisionCellID) else r.2.scalings j }

/-- The parts of the configuration that matter here. -/
structure Config where
  hasFluid : Bool
  hasSolute : Bool
  angle : ℝ
  kT : ℝ
  gridShiftScale : ℝ
  cells : ℕ

/-- What happens outside of this model in a collision: the numbers of particles and the kinetic
energies in the cells when the scalings are computed, and the orders in which the threads of the two
kernels act. -/
structure Round where
  counts : ℕ → ℕ
  energies : ℕ → ℝ
  axesOrder : List ℕ
  factorsOrder : List ℕ

/-- `collide`, as far as it uses generators: `src/OpenMPCD/CUDA/Simulation.cu:273-286`,
`src/OpenMPCD/CUDA/Simulation.cu:398`, `src/OpenMPCD/CUDA/Simulation.cu:456-496`. -/
noncomputable def collide (random : ℕ → ℕ → ℕ → ℕ) (ds : Distributions σ A) (c : Config) (r : Round)
    (dev : Device σ A) : Option (Device σ A) :=
  if !c.hasFluid && !c.hasSolute then some dev
  else if c.angle = 0 ∧ c.kT = 0 then some dev
  else
    (generateGridShiftVector random ds c.gridShiftScale dev).bind fun dev =>
    (r.axesOrder.foldlM (axesThread random ds c.cells) dev).bind fun dev =>
    if c.kT = 0 then some dev
    else r.factorsOrder.foldlM (factorsThread random ds c.cells r.counts r.energies c.kT) dev

/-- A history of collisions. -/
noncomputable def run (random : ℕ → ℕ → ℕ → ℕ) (ds : Distributions σ A) (c : Config)
    (rounds : List Round) (dev : Device σ A) : Option (Device σ A) :=
  rounds.foldlM (fun dev r => collide random ds c r dev) dev

/-- The memory after `src/OpenMPCD/CUDA/Simulation.cu:176-178`: as many generators as there are
collision cells, constructed by one thread. -/
def start (initial : σ) (c : Config) (seed : ℕ) (memory : Device σ A) : Device σ A :=
  construct initial c.cells seed [0] { memory with allocated := c.cells, log := [] }

/-! ## Specification -/

/-- The numbers of the threads of all launches of a kernel for `N` cells (`Verif/Launch`), in any order:
also those of idle threads. -/
def ThreadOrder (G B N : ℕ) (order : List ℕ) : Prop :=
  ∃ ls, Loop G B N 0 ls ∧
    order.Perm (ls.flatMap fun l => (threads l.2 B).map (workUnitOf B l.1))

/-- The threads of the kernels of all rounds act in an order that is possible. -/
def Scheduled (G B N : ℕ) (rounds : List Round) : Prop :=
  ∀ r ∈ rounds, ThreadOrder G B N r.axesOrder ∧ ThreadOrder G B N r.factorsOrder

/-- Two histories in which the same happens, up to the order of threads. -/
def SameInputs (rs rs' : List Round) : Prop :=
  List.Forall₂ (fun r r' => r.counts = r'.counts ∧ r.energies = r'.energies) rs rs'

/-- What can be seen of the memory, apart from the order in which words have been used. -/
structure SameMemory (dev dev' : Device σ A) : Prop where
  gens : dev.gens = dev'.gens
  shift : dev.shift = dev'.shift
  axes : dev.axes = dev'.axes
  scalings : dev.scalings = dev'.scalings

/-! ## Proofs -/

theorem order_perm {G B N : ℕ} (hG : 0 < G) (hB : 1 < B) (hN : N + G * B ≤ 2 ^ 32) {order : List ℕ}
    (h : ThreadOrder G B N order) : (order.filter (· < N)).Perm (List.range N) := by
  obtain ⟨ls, hl, hp⟩ := h
  obtain ⟨ls', hl', hp', -⟩ := C20_exactly_once hG hB hN
  obtain rfl := loop_unique hl hl'
  refine (hp.filter _).trans ?_
  rw [List.filter_flatMap]
  exact hp'

theorem construct_gens (initial : σ) (count seed : ℕ) (dev : Device σ A) :
    constructThread initial count seed 0 dev =
      { dev with gens := fun j => if j < count then newGen initial seed j else dev.gens j } := by
  simp only [constructThread, ne_eq, not_true_eq_false, if_false]
  induction count with
  | zero => simp
  | succ n ih =>
    rw [List.range_succ, List.foldl_append, ih]
    simp only [List.foldl_cons, List.foldl_nil]
    congr 1
    funext j
    by_cases h : j = n
    · subst h; simp
    · have : j < n + 1 ↔ j < n := by omega
      simp [h, this]

/-- The memory that belongs to one cell. -/
def view (dev : Device σ A) (j : ℕ) : Gen σ × A × ℝ := (dev.gens j, dev.axes j, dev.scalings j)

/-- A kernel in which the thread for a cell changes only what belongs to the cell. -/
theorem kernel_view {thread : Device σ A → ℕ → Option (Device σ A)} {N : ℕ}
    {f : ℕ → Gen σ × A × ℝ → Gen σ × A × ℝ}
    (hskip : ∀ dev i, N ≤ i → thread dev i = some dev)
    (hdo : ∀ dev i, i < N → dev.allocated = N → ∃ dev', thread dev i = some dev' ∧
      dev'.allocated = N ∧ dev'.shift = dev.shift ∧
      view dev' = fun j => if j = i then f i (view dev i) else view dev j)
    (order : List ℕ) (dev : Device σ A) (ha : dev.allocated = N) :
    ∃ dev', order.foldlM thread dev = some dev' ∧ dev'.allocated = N ∧ dev'.shift = dev.shift ∧
      view dev' = execute f (order.filter (· < N)) (view dev) := by
  induction order generalizing dev with
  | nil => exact ⟨dev, rfl, ha, rfl, rfl⟩
  | cons i is ih =>
    by_cases hi : i < N
    · obtain ⟨d1, h1, h2, h3, h4⟩ := hdo dev i hi ha
      obtain ⟨d2, g1, g2, g3, g4⟩ := ih d1 h2
      refine ⟨d2, ?_, g2, g3.trans h3, ?_⟩
      · rw [List.foldlM_cons, h1]; exact g1
      · rw [g4, h4, List.filter_cons_of_pos (by simpa using hi)]
        rfl
    · obtain ⟨d2, g1, g2, g3, g4⟩ := ih dev ha
      refine ⟨d2, ?_, g2, g3, ?_⟩
      · rw [List.foldlM_cons, hskip dev i (by omega)]; exact g1
      · rw [g4, List.filter_cons_of_neg (by simpa using hi)]

/-- What a thread for axes does to its cell. -/
def axesCell (random : ℕ → ℕ → ℕ → ℕ) (ds : Distributions σ A) (v : Gen σ × A × ℝ) : Gen σ × A × ℝ :=
  (advance random ds.unitVector v.1, (ask random ds.unitVector v.1).1, v.2.2)

open Classical in
/-- What a thread for scalings does to its cell. -/
noncomputable def factorsCell (random : ℕ → ℕ → ℕ → ℕ) (ds : Distributions σ A) (count : ℕ)
    (energy kT : ℝ) (v : Gen σ × A × ℝ) : Gen σ × A × ℝ :=
  if count < 2 ∨ energy = 0 then (v.1, v.2.1, 1)
  else (advance random (ds.gamma (1.5 * ((count : ℝ) - 1)) kT) v.1, v.2.1,
    Real.sqrt ((ask random (ds.gamma (1.5 * ((count : ℝ) - 1)) kT) v.1).1 / energy))

theorem axes_view (random : ℕ → ℕ → ℕ → ℕ) (ds : Distributions σ A) (N : ℕ) (order : List ℕ)
    (dev : Device σ A) (ha : dev.allocated = N) :
    ∃ dev', order.foldlM (axesThread random ds N) dev = some dev' ∧ dev'.allocated = N ∧
      dev'.shift = dev.shift ∧
      view dev' = execute (fun _ => axesCell random ds) (order.filter (· < N)) (view dev) := by
  refine kernel_view (fun dev i h => by simp [axesThread, h]) (fun dev i hi ha => ?_) order dev ha
  have hi' : i < dev.allocated := ha ▸ hi
  simp only [axesThread, ge_iff_le, if_neg (not_le.2 hi), use, if_pos hi', Option.bind_some]
  refine ⟨_, rfl, ha, rfl, ?_⟩
  funext j
  by_cases h : j = i
  · subst h; simp [view, axesCell]
  · simp [view, h]

theorem factors_view (random : ℕ → ℕ → ℕ → ℕ) (ds : Distributions σ A) (N : ℕ) (counts : ℕ → ℕ)
    (energies : ℕ → ℝ) (kT : ℝ) (order : List ℕ) (dev : Device σ A) (ha : dev.allocated = N) :
    ∃ dev', order.foldlM (factorsThread random ds N counts energies kT) dev = some dev' ∧
      dev'.allocated = N ∧ dev'.shift = dev.shift ∧
      view dev' = execute (fun i => factorsCell random ds (counts i) (energies i) kT)
        (order.filter (· < N)) (view dev) := by
  refine kernel_view (fun dev i h => by simp [factorsThread, h]) (fun dev i hi ha => ?_) order dev ha
  by_cases hc : counts i < 2 ∨ energies i = 0
  · simp only [factorsThread, ge_iff_le, if_neg (not_le.2 hi), if_pos hc]
    refine ⟨_, rfl, ha, rfl, ?_⟩
    funext j
    by_cases h : j = i
    · subst h; simp only [view, factorsCell, if_pos hc, if_pos]
    · simp [view, h]
  · have hi' : i < dev.allocated := ha ▸ hi
    simp only [factorsThread, ge_iff_le, if_neg (not_le.2 hi), if_neg hc, use, if_pos hi',
      Option.bind_some]
    refine ⟨_, rfl, ha, rfl, ?_⟩
    funext j
    by_cases h : j = i
    · subst h; simp only [view, factorsCell, if_neg hc, if_pos]
    · simp [view, h]

/-- The three numbers of the grid shift. -/
theorem shift_view (random : ℕ → ℕ → ℕ → ℕ) (ds : Distributions σ A) (s : ℝ) (dev : Device σ A)
    (h0 : 0 < dev.allocated) :
    ∃ dev', generateGridShiftVector random ds s dev = some dev' ∧ dev'.allocated = dev.allocated ∧
      (dev'.shift = fun j =>
        let g := dev.gens 0
        let g' := advance random ds.uniform g
        let g'' := advance random ds.uniform g'
        if j = 2 then (ask random ds.uniform g'').1 * s
        else if j = 1 then (ask random ds.uniform g').1 * s
        else if j = 0 then (ask random ds.uniform g).1 * s else dev.shift j) ∧
      view dev' = fun j => if j = 0 then
        (advance random ds.uniform (advance random ds.uniform (advance random ds.uniform (dev.gens 0))),
          dev.axes 0, dev.scalings 0) else view dev j := by
  simp only [generateGridShiftVector, use, if_pos h0, Option.bind_some]
  refine ⟨_, rfl, rfl, ?_, ?_⟩
  · funext j; simp
  · funext j
    by_cases h : j = 0
    · subst h; simp [view]
    · simp [view, h]

/-- The effect of a collision on what belongs to a cell. -/
noncomputable def cellStep (random : ℕ → ℕ → ℕ → ℕ) (ds : Distributions σ A) (kT : ℝ) (count : ℕ)
    (energy : ℝ) (j : ℕ) (v : Gen σ × A × ℝ) : Gen σ × A × ℝ :=
  let u := advance random ds.uniform
  let v := axesCell random ds (if j = 0 then (u (u (u v.1)), v.2) else v)
  open Classical in if kT = 0 then v else factorsCell random ds count energy kT v

/-- Whether `collide` does anything. -/
def Active (c : Config) : Prop :=
  (c.hasFluid = true ∨ c.hasSolute = true) ∧ ¬ (c.angle = 0 ∧ c.kT = 0)

theorem collide_idle (random : ℕ → ℕ → ℕ → ℕ) (ds : Distributions σ A) {c : Config} (h : ¬ Active c)
    (r : Round) (dev : Device σ A) : collide random ds c r dev = some dev := by
  unfold collide
  split_ifs with h1 h2
  · rfl
  · rfl
  all_goals exact absurd ⟨by
      cases hf : c.hasFluid <;> cases hs : c.hasSolute <;> simp [hf, hs] at h1 ⊢, h2⟩ h

theorem execute_range {f : ℕ → α → α} {N : ℕ} {order : List ℕ}
    (h : order.Perm (List.range N)) (data : ℕ → α) :
    execute f order data = fun j => if j < N then f j (data j) else data j := by
  funext j
  rw [execute_of_nodup f order (h.nodup_iff.2 List.nodup_range)]
  simp only [h.mem_iff, List.mem_range]

theorem collide_view (random : ℕ → ℕ → ℕ → ℕ) (ds : Distributions σ A) {c : Config} (hc : Active c)
    (r : Round) (dev : Device σ A) (ha : dev.allocated = c.cells) (h0 : 0 < c.cells)
    (h1 : (r.axesOrder.filter (· < c.cells)).Perm (List.range c.cells))
    (h2 : (r.factorsOrder.filter (· < c.cells)).Perm (List.range c.cells)) :
    ∃ dev', collide random ds c r dev = some dev' ∧ dev'.allocated = c.cells ∧
      (dev'.shift = fun j =>
        let g := dev.gens 0
        let g' := advance random ds.uniform g
        let g'' := advance random ds.uniform g'
        if j = 2 then (ask random ds.uniform g'').1 * c.gridShiftScale
        else if j = 1 then (ask random ds.uniform g').1 * c.gridShiftScale
        else if j = 0 then (ask random ds.uniform g).1 * c.gridShiftScale else dev.shift j) ∧
      view dev' = fun j => if j < c.cells then
        cellStep random ds c.kT (r.counts j) (r.energies j) j (view dev j) else view dev j := by
  obtain ⟨d1, e1, a1, s1, v1⟩ := shift_view random ds c.gridShiftScale dev (ha ▸ h0)
  obtain ⟨d2, e2, a2, s2, v2⟩ := axes_view random ds c.cells r.axesOrder d1 (a1.trans ha)
  have hcf : (!c.hasFluid && !c.hasSolute) = false := by
    rcases hc.1 with h | h <;> simp [h]
  rw [execute_range h1, v1] at v2
  by_cases hk : c.kT = 0
  · refine ⟨d2, ?_, a2, s2.trans s1, ?_⟩
    · simp only [collide, hcf, hc.2, if_false, e1, e2, Option.bind_some, hk, if_true]
      simp only [Bool.false_eq_true, if_false]
      rw [if_neg]
      intro h; exact hc.2 ⟨h.1, hk⟩
    · rw [v2]
      funext j
      by_cases hj : j = 0
      · subst hj; simp [cellStep, h0, hk, view]
      · simp [cellStep, hj, hk]
  · obtain ⟨d3, e3, a3, s3, v3⟩ :=
      factors_view random ds c.cells r.counts r.energies c.kT r.factorsOrder d2 a2
    rw [execute_range h2, v2] at v3
    refine ⟨d3, ?_, a3, s3.trans (s2.trans s1), ?_⟩
    · simp only [collide, hcf, hc.2, if_false, e1, e2, Option.bind_some, hk, e3,
        Bool.false_eq_true, if_false, and_false]
    · rw [v3]
      funext j
      by_cases hj : j = 0
      · subst hj; simp [cellStep, h0, hk, view]
      · by_cases hjN : j < c.cells
        · simp [cellStep, hj, hk, hjN]
        · simp [hj, hjN]

/-! ### Words are used once -/

/-- The words used of each subsequence are the first ones, in order. -/
structure Inv (N seed : ℕ) (dev : Device σ A) : Prop where
  alloc : dev.allocated = N
  seed : ∀ i < N, (dev.gens i).seed = seed
  sub : ∀ i < N, (dev.gens i).sub = i
  mem : ∀ x ∈ dev.log, x.1 < N
  pos : ∀ i < N, (dev.log.filter (·.1 = i)).map (·.2) = List.range (dev.gens i).pos

theorem use_inv {N seed : ℕ} {random : ℕ → ℕ → ℕ → ℕ} {i : ℕ} {d : Draw σ α} {dev : Device σ A}
    (h : Inv N seed dev) {r : α × Device σ A} (hr : use random i d dev = some r) : Inv N seed r.2 := by
  unfold use at hr
  split_ifs at hr with hi
  cases hr
  have hi' : i < N := h.alloc ▸ hi
  refine ⟨h.alloc, ?_, ?_, ?_, ?_⟩
  · intro j hj
    by_cases hji : j = i
    · subst hji; simpa [advance] using h.seed j hj
    · simpa [hji] using h.seed j hj
  · intro j hj
    by_cases hji : j = i
    · subst hji; simpa [advance] using h.sub j hj
    · simpa [hji] using h.sub j hj
  · intro x hx
    rcases List.mem_append.1 hx with hx | hx
    · exact h.mem x hx
    · obtain ⟨k, -, rfl⟩ := List.mem_map.1 hx
      simpa [h.sub i hi'] using hi'
  · intro j hj
    simp only [List.filter_append, List.map_append, h.pos j hj, List.filter_map, h.sub i hi']
    by_cases hji : j = i
    · subst hji
      simp only [advance, if_pos, List.range_add]
      congr 1
      rw [List.filter_eq_self.2 (by simp), List.map_map]
      rfl
    · rw [List.filter_eq_nil_iff.2 (by simp [Ne.symm hji])]
      simp [hji]

theorem Inv.outputs {N seed : ℕ} {dev : Device σ A} (h : Inv N seed dev)
    (shift : ℕ → ℝ) (axes : ℕ → A) (scalings : ℕ → ℝ) :
    Inv N seed { dev with shift := shift, axes := axes, scalings := scalings } :=
  ⟨h.alloc, h.seed, h.sub, h.mem, h.pos⟩

theorem shift_inv {N seed : ℕ} {random : ℕ → ℕ → ℕ → ℕ} {ds : Distributions σ A} {s : ℝ}
    {dev dev' : Device σ A} (h : Inv N seed dev)
    (hr : generateGridShiftVector random ds s dev = some dev') : Inv N seed dev' := by
  simp only [generateGridShiftVector, Option.bind_eq_some_iff, Option.some.injEq] at hr
  obtain ⟨r1, e1, r2, e2, r3, e3, rfl⟩ := hr
  exact (use_inv ((use_inv ((use_inv h e1).outputs _ _ _) e2).outputs _ _ _) e3).outputs _ _ _

theorem axesThread_inv {N seed n : ℕ} {random : ℕ → ℕ → ℕ → ℕ} {ds : Distributions σ A}
    {dev dev' : Device σ A} {i : ℕ} (h : Inv N seed dev)
    (hr : axesThread random ds n dev i = some dev') : Inv N seed dev' := by
  unfold axesThread at hr
  split_ifs at hr
  · cases hr; exact h
  · simp only [Option.bind_eq_some_iff, Option.some.injEq] at hr
    obtain ⟨r, e, rfl⟩ := hr
    exact (use_inv h e).outputs _ _ _

theorem factorsThread_inv {N seed n : ℕ} {random : ℕ → ℕ → ℕ → ℕ} {ds : Distributions σ A}
    {counts : ℕ → ℕ} {energies : ℕ → ℝ} {kT : ℝ} {dev dev' : Device σ A} {i : ℕ}
    (h : Inv N seed dev)
    (hr : factorsThread random ds n counts energies kT dev i = some dev') : Inv N seed dev' := by
  unfold factorsThread at hr
  split_ifs at hr
  · cases hr; exact h
  · cases hr; exact h.outputs _ _ _
  · simp only [Option.bind_eq_some_iff, Option.some.injEq] at hr
    obtain ⟨r, e, rfl⟩ := hr
    exact (use_inv h e).outputs _ _ _

theorem foldlM_inv {β S : Type} {P : S → Prop} {f : S → β → Option S}
    (hf : ∀ s b s', P s → f s b = some s' → P s') (l : List β) {s s' : S} (h : P s)
    (hr : l.foldlM f s = some s') : P s' := by
  induction l generalizing s with
  | nil => cases hr; exact h
  | cons b l ih =>
    rw [List.foldlM_cons] at hr
    obtain ⟨t, e, hr⟩ := Option.bind_eq_some_iff.1 hr
    exact ih (hf _ _ _ h e) hr

theorem collide_inv {N seed : ℕ} {random : ℕ → ℕ → ℕ → ℕ} {ds : Distributions σ A} {c : Config}
    {r : Round} {dev dev' : Device σ A} (h : Inv N seed dev)
    (hr : collide random ds c r dev = some dev') : Inv N seed dev' := by
  unfold collide at hr
  split_ifs at hr with h1 h2 h3
  · cases hr; exact h
  · cases hr; exact h
  all_goals
    obtain ⟨d1, e1, hr⟩ := Option.bind_eq_some_iff.1 hr
    obtain ⟨d2, e2, hr⟩ := Option.bind_eq_some_iff.1 hr
    have i2 := foldlM_inv (P := Inv N seed) (fun _ _ _ => axesThread_inv) _ (shift_inv h e1) e2
  · cases hr; exact i2
  · exact foldlM_inv (P := Inv N seed) (fun _ _ _ => factorsThread_inv) _ i2 hr

theorem run_cons (random : ℕ → ℕ → ℕ → ℕ) (ds : Distributions σ A) (c : Config) (r : Round)
    (rs : List Round) (dev : Device σ A) : run random ds c (r :: rs) dev =
      (collide random ds c r dev).bind (run random ds c rs) := by
  rw [run, List.foldlM_cons]
  rfl

theorem start_inv (initial : σ) (c : Config) (seed : ℕ) (memory : Device σ A) :
    Inv c.cells seed (start initial c seed memory) := by
  simp only [start, construct, List.foldl_cons, List.foldl_nil, construct_gens]
  refine ⟨rfl, ?_, ?_, by simp, ?_⟩ <;> intro i hi <;> simp [hi, newGen]

theorem run_inv {initial : σ} {c : Config} {seed : ℕ} {memory dev : Device σ A}
    {random : ℕ → ℕ → ℕ → ℕ} {ds : Distributions σ A} {rounds : List Round}
    (hr : run random ds c rounds (start initial c seed memory) = some dev) : Inv c.cells seed dev :=
  foldlM_inv (P := Inv c.cells seed) (fun _ _ _ => collide_inv) _ (start_inv initial c seed memory) hr

theorem Inv.mem_iff {N seed : ℕ} {dev : Device σ A} (h : Inv N seed dev) (s p : ℕ) :
    (s, p) ∈ dev.log ↔ s < N ∧ p < (dev.gens s).pos := by
  constructor
  · intro hm
    have hs := h.mem _ hm
    refine ⟨hs, ?_⟩
    have : p ∈ (dev.log.filter (·.1 = s)).map (·.2) :=
      List.mem_map.2 ⟨(s, p), List.mem_filter.2 ⟨hm, by simp⟩, rfl⟩
    rw [h.pos s hs] at this
    exact List.mem_range.1 this
  · rintro ⟨hs, hp⟩
    have : p ∈ (dev.log.filter (·.1 = s)).map (·.2) := by
      rw [h.pos s hs]; exact List.mem_range.2 hp
    obtain ⟨⟨a, b⟩, hx, rfl⟩ := List.mem_map.1 this
    have := List.mem_filter.1 hx
    have ha : a = s := by simpa using this.2
    subst ha
    exact this.1

theorem Inv.nodup {N seed : ℕ} {dev : Device σ A} (h : Inv N seed dev) : dev.log.Nodup := by
  rw [List.nodup_iff_count_le_one]
  rintro ⟨s, p⟩
  by_cases hm : (s, p) ∈ dev.log
  · have hs := h.mem _ hm
    have hn : (dev.log.filter (·.1 = s)).Nodup :=
      List.Nodup.of_map (f := fun x : ℕ × ℕ => x.2) (by rw [h.pos s hs]; exact List.nodup_range)
    have := List.nodup_iff_count_le_one.1 hn (s, p)
    rwa [List.count_filter (by simp)] at this
  · rw [List.count_eq_zero_of_not_mem hm]; omega

/-! ## Theorems -/

/-- C159: constructing the generators, with any number of threads that act in any order, as long as
there is one thread with number zero, makes each of the allocated generators start at the beginning of
its own subsequence, with the common seed; nothing else is written to. -/
theorem C159_construct (initial : σ) (count seed : ℕ) {order : List ℕ} (h : 0 ∈ order)
    (dev : Device σ A) :
    (∀ i < count, (construct initial count seed order dev).gens i = ⟨seed, i, 0, initial⟩) ∧
      (∀ i, count ≤ i → (construct initial count seed order dev).gens i = dev.gens i) ∧
      (construct initial count seed order dev).allocated = dev.allocated := by
  have key : ∀ (order : List ℕ) (dev : Device σ A), construct initial count seed order dev =
      { dev with gens := fun j => if j < count ∧ 0 ∈ order then newGen initial seed j
        else dev.gens j } := by
    intro order
    induction order with
    | nil => intro dev; simp [construct]
    | cons t ts ih =>
      intro dev
      have : construct initial count seed (t :: ts) dev =
          construct initial count seed ts (constructThread initial count seed t dev) := rfl
      rw [this, ih]
      by_cases ht : t = 0
      · subst ht
        rw [construct_gens]
        congr 1
        funext j
        by_cases hj : j < count <;> simp [hj]
      · have h1 : constructThread initial count seed t dev = dev := by simp [constructThread, ht]
        rw [h1]
        simp [Ne.symm ht]
  rw [key]
  refine ⟨fun i hi => by simp [hi, h, newGen], fun i hi => ?_, rfl⟩
  simp [not_lt.2 hi]

/-- C159: from the start of a simulation, over any history of collisions and for any order in which
threads act, no access is made to a generator that does not exist. -/
theorem C159_defined {G B : ℕ} (hG : 0 < G) (hB : 1 < B) (initial : σ) (c : Config)
    (hN : c.cells + G * B ≤ 2 ^ 32) (h0 : 0 < c.cells) (seed : ℕ) (memory : Device σ A)
    (random : ℕ → ℕ → ℕ → ℕ) (ds : Distributions σ A) {rounds : List Round}
    (hs : Scheduled G B c.cells rounds) :
    ∃ dev, run random ds c rounds (start initial c seed memory) = some dev := by
  have := (start_inv initial c seed memory).alloc
  generalize start initial c seed memory = dev at this
  induction rounds generalizing dev with
  | nil => exact ⟨dev, rfl⟩
  | cons r rs ih =>
    have ih := ih (fun r hr => hs r (List.mem_cons_of_mem _ hr))
    by_cases hc : Active c
    · obtain ⟨o1, o2⟩ := hs r List.mem_cons_self
      obtain ⟨d1, e1, a1, -, -⟩ := collide_view random ds hc r dev this h0
        (order_perm hG hB hN o1) (order_perm hG hB hN o2)
      obtain ⟨d2, e2⟩ := ih d1 a1
      refine ⟨d2, ?_⟩
      simp only [run_cons, e1, Option.bind_some]
      exact e2
    · obtain ⟨d2, e2⟩ := ih dev this
      refine ⟨d2, ?_⟩
      simp only [run_cons, collide_idle random ds hc, Option.bind_some]
      exact e2

/-- C159: over any history of collisions, with any order of threads, no random number is used twice; the
numbers used are the ones at the beginning of the subsequences `0, …, cells - 1`, and those of each
subsequence are used one after the other, with none left out. -/
theorem C159_fresh {initial : σ} {c : Config} {seed : ℕ} {memory dev : Device σ A}
    {random : ℕ → ℕ → ℕ → ℕ} {ds : Distributions σ A} {rounds : List Round}
    (hr : run random ds c rounds (start initial c seed memory) = some dev) :
    dev.log.Nodup ∧ (∀ x ∈ dev.log, x.1 < c.cells) ∧
      ∀ i < c.cells, ∃ n, (dev.log.filter (·.1 = i)).map (·.2) = List.range n := by
  have h := run_inv hr
  exact ⟨h.nodup, h.mem, fun i hi => ⟨_, h.pos i hi⟩⟩

theorem run_same {G B : ℕ} (hG : 0 < G) (hB : 1 < B) {c : Config}
    (hN : c.cells + G * B ≤ 2 ^ 32) (h0 : 0 < c.cells)
    {random : ℕ → ℕ → ℕ → ℕ} {ds : Distributions σ A} {rs rs' : List Round}
    (hi : SameInputs rs rs') (hs : Scheduled G B c.cells rs) (hs' : Scheduled G B c.cells rs')
    {d d' e e' : Device σ A} (ha : d.allocated = c.cells) (ha' : d'.allocated = c.cells)
    (hv : view d = view d') (hsh : d.shift = d'.shift)
    (he : run random ds c rs d = some e) (he' : run random ds c rs' d' = some e') :
    view e = view e' ∧ e.shift = e'.shift := by
  induction hi generalizing d d' with
  | nil => cases he; cases he'; exact ⟨hv, hsh⟩
  | @cons r r' rs rs' hrr hrest ih =>
    have ih := fun {d d'} => @ih (fun r hr => hs r (List.mem_cons_of_mem _ hr))
      (fun r hr => hs' r (List.mem_cons_of_mem _ hr)) d d'
    have hg : d.gens = d'.gens := by
      funext j; exact congrArg Prod.fst (congrFun hv j)
    by_cases hc : Active c
    · obtain ⟨o1, o2⟩ := hs r List.mem_cons_self
      obtain ⟨o1', o2'⟩ := hs' r' List.mem_cons_self
      obtain ⟨d1, e1, a1, s1, v1⟩ := collide_view random ds hc r d ha h0
        (order_perm hG hB hN o1) (order_perm hG hB hN o2)
      obtain ⟨d1', e1', a1', s1', v1'⟩ := collide_view random ds hc r' d' ha' h0
        (order_perm hG hB hN o1') (order_perm hG hB hN o2')
      simp only [run_cons, e1, Option.bind_some] at he
      simp only [run_cons, e1', Option.bind_some] at he'
      refine ih a1 a1' ?_ ?_ he he'
      · rw [v1, v1', hv, hrr.1, hrr.2]
      · rw [s1, s1', hg, hsh]
    · simp only [run_cons, collide_idle random ds hc, Option.bind_some] at he he'
      exact ih ha ha' hv hsh he he'

/-- C159: the order in which threads act has no influence on the grid shifts, rotation axes and
scalings of velocities, nor on the states of the generators, over any history of collisions; it only has
one on the order in which the same random numbers are used. -/
theorem C159_schedule {G B : ℕ} (hG : 0 < G) (hB : 1 < B) {initial : σ} {c : Config}
    (hN : c.cells + G * B ≤ 2 ^ 32) (h0 : 0 < c.cells) {seed : ℕ} {memory dev dev' : Device σ A}
    {random : ℕ → ℕ → ℕ → ℕ} {ds : Distributions σ A} {rs rs' : List Round}
    (hi : SameInputs rs rs') (hs : Scheduled G B c.cells rs) (hs' : Scheduled G B c.cells rs')
    (hr : run random ds c rs (start initial c seed memory) = some dev)
    (hr' : run random ds c rs' (start initial c seed memory) = some dev') :
    SameMemory dev dev' ∧ dev.log.Perm dev'.log := by
  have ha := (start_inv initial c seed memory).alloc
  obtain ⟨hv, hsh⟩ := run_same hG hB hN h0 hi hs hs' ha ha rfl rfl hr hr'
  have i1 := run_inv hr
  have i2 := run_inv hr'
  have hg : dev.gens = dev'.gens := by funext j; exact congrArg Prod.fst (congrFun hv j)
  refine ⟨⟨hg, hsh, ?_, ?_⟩, ?_⟩
  · funext j; exact congrArg (fun v => v.2.1) (congrFun hv j)
  · funext j; exact congrArg (fun v => v.2.2) (congrFun hv j)
  · rw [List.perm_ext_iff_of_nodup i1.nodup i2.nodup]
    rintro ⟨s, p⟩
    rw [i1.mem_iff, i2.mem_iff, hg]

theorem ask_congr {random random' : ℕ → ℕ → ℕ → ℕ} (d : Draw σ α) (g : Gen σ)
    (h : ∀ p, random g.seed g.sub p = random' g.seed g.sub p) :
    ask random d g = ask random' d g := by
  simp only [ask, h]

theorem advance_congr {random random' : ℕ → ℕ → ℕ → ℕ} (d : Draw σ α) (g : Gen σ)
    (h : ∀ p, random g.seed g.sub p = random' g.seed g.sub p) :
    advance random d g = advance random' d g := by
  simp only [advance, ask_congr d g h]

theorem cellStep_congr {random random' : ℕ → ℕ → ℕ → ℕ} (ds : Distributions σ A) (kT : ℝ)
    (count : ℕ) (energy : ℝ) (j : ℕ) (v : Gen σ × A × ℝ)
    (h : ∀ p, random v.1.seed v.1.sub p = random' v.1.seed v.1.sub p) :
    cellStep random ds kT count energy j v = cellStep random' ds kT count energy j v := by
  have u1 := advance_congr ds.uniform v.1 h
  have u2 := advance_congr ds.uniform (advance random' ds.uniform v.1) h
  have u3 := advance_congr ds.uniform
    (advance random' ds.uniform (advance random' ds.uniform v.1)) h
  simp only [cellStep, u1, u2, u3]
  generalize hw : (if j = 0 then _ else v : Gen σ × A × ℝ) = w
  have hw' : ∀ p, random w.1.seed w.1.sub p = random' w.1.seed w.1.sub p := by
    subst hw
    split_ifs
    · exact h
    · exact h
  have : axesCell random ds w = axesCell random' ds w := by
    simp only [axesCell, ask_congr _ _ hw', advance_congr _ _ hw']
  rw [this]
  split_ifs
  · rfl
  · simp only [factorsCell]
    have hx : ∀ p, random (axesCell random' ds w).1.seed (axesCell random' ds w).1.sub p =
      random' (axesCell random' ds w).1.seed (axesCell random' ds w).1.sub p := hw'
    rw [ask_congr _ _ hx, advance_congr _ _ hx]

/-- C159: what happens in a collision cell depends on the random numbers of its own subsequence only. If
two histories agree in the random numbers of the subsequence of a cell, and in the numbers of particles
and energies in that cell, they agree in the rotation axis and scaling of that cell, whatever the other
random numbers, the other cells, and the orders of threads are. -/
theorem C159_own {G B : ℕ} (hG : 0 < G) (hB : 1 < B) {initial : σ} {c : Config}
    (hN : c.cells + G * B ≤ 2 ^ 32) {seed : ℕ} {memory dev dev' : Device σ A}
    {random random' : ℕ → ℕ → ℕ → ℕ} {ds : Distributions σ A} {rs rs' : List Round}
    {j : ℕ} (hj : j < c.cells) (hrand : ∀ p, random seed j p = random' seed j p)
    (hi : List.Forall₂ (fun r r' => r.counts j = r'.counts j ∧ r.energies j = r'.energies j) rs rs')
    (hs : Scheduled G B c.cells rs) (hs' : Scheduled G B c.cells rs')
    (hr : run random ds c rs (start initial c seed memory) = some dev)
    (hr' : run random' ds c rs' (start initial c seed memory) = some dev') :
    dev.axes j = dev'.axes j ∧ dev.scalings j = dev'.scalings j := by
  have key : ∀ (d d' : Device σ A), Inv c.cells seed d → Inv c.cells seed d' → view d j = view d' j →
      run random ds c rs d = some dev → run random' ds c rs' d' = some dev' →
      view dev j = view dev' j := by
    clear hr hr'
    induction hi with
    | nil => intro d d' _ _ hv he he'; cases he; cases he'; exact hv
    | @cons r r' rs rs' hrr hrest ih =>
      have ih := ih (fun r hr => hs r (List.mem_cons_of_mem _ hr))
        (fun r hr => hs' r (List.mem_cons_of_mem _ hr))
      intro d d' id id' hv he he'
      by_cases hc : Active c
      · obtain ⟨o1, o2⟩ := hs r List.mem_cons_self
        obtain ⟨o1', o2'⟩ := hs' r' List.mem_cons_self
        obtain ⟨d1, e1, a1, s1, v1⟩ := collide_view random ds hc r d id.alloc (by omega)
          (order_perm hG hB hN o1) (order_perm hG hB hN o2)
        obtain ⟨d1', e1', a1', s1', v1'⟩ := collide_view random' ds hc r' d' id'.alloc (by omega)
          (order_perm hG hB hN o1') (order_perm hG hB hN o2')
        simp only [run_cons, e1, Option.bind_some] at he
        simp only [run_cons, e1', Option.bind_some] at he'
        refine ih d1 d1' (collide_inv id e1) (collide_inv id' e1') ?_ he he'
        rw [v1, v1']
        simp only [if_pos hj, hv, hrr.1, hrr.2]
        refine cellStep_congr ds _ _ _ _ _ ?_
        intro p
        have h1 : (view d' j).1.seed = seed := id'.seed j hj
        have h2 : (view d' j).1.sub = j := id'.sub j hj
        rw [h1, h2]
        exact hrand p
      · simp only [run_cons, collide_idle random ds hc, Option.bind_some] at he
        simp only [run_cons, collide_idle random' ds hc, Option.bind_some] at he'
        exact ih d d' id id' hv he he'
  have := key _ _ (start_inv initial c seed memory) (start_inv initial c seed memory) rfl hr hr'
  exact ⟨congrArg (fun v => v.2.1) this, congrArg (fun v => v.2.2) this⟩

/-- C159: the values of the first collision, in terms of the words of the subsequences. The grid shift is
made of three uniform numbers from subsequence zero; a cell other than the first one takes its axis from
the beginning of its own subsequence, and then its scaling from the words after it, if it has two
particles or more and these move relative to each other; it is one otherwise. -/
theorem C159_first {G B : ℕ} (hG : 0 < G) (hB : 1 < B) {initial : σ} {c : Config}
    (hN : c.cells + G * B ≤ 2 ^ 32) (h0 : 0 < c.cells) {seed : ℕ} {memory dev : Device σ A}
    {random : ℕ → ℕ → ℕ → ℕ} {ds : Distributions σ A} {r : Round}
    (hs : Scheduled G B c.cells [r]) (hf : c.hasFluid = true ∨ c.hasSolute = true) (hk : c.kT ≠ 0)
    (hr : run random ds c [r] (start initial c seed memory) = some dev) :
    (let u := ds.uniform (random seed 0) initial
     let u' := ds.uniform (fun k => random seed 0 (u.2.1 + k)) u.2.2
     let u'' := ds.uniform (fun k => random seed 0 (u.2.1 + u'.2.1 + k)) u'.2.2
     dev.shift 0 = u.1 * c.gridShiftScale ∧ dev.shift 1 = u'.1 * c.gridShiftScale ∧
       dev.shift 2 = u''.1 * c.gridShiftScale) ∧
    ∀ j, 0 < j → j < c.cells →
      let a := ds.unitVector (random seed j) initial
      dev.axes j = a.1 ∧
      ((r.counts j < 2 ∨ r.energies j = 0) → dev.scalings j = 1) ∧
      (¬ (r.counts j < 2 ∨ r.energies j = 0) → dev.scalings j = Real.sqrt
        ((ds.gamma (1.5 * ((r.counts j : ℝ) - 1)) c.kT (fun k => random seed j (a.2.1 + k)) a.2.2).1 /
          r.energies j)) := by
  have hst := start_inv initial c seed memory
  have hg : ∀ j < c.cells, (start initial c seed memory).gens j = ⟨seed, j, 0, initial⟩ := by
    intro j hj
    exact (C159_construct initial c.cells seed (order := [0]) (by simp)
      { memory with allocated := c.cells, log := [] }).1 j hj
  obtain ⟨o1, o2⟩ := hs r (by simp)
  obtain ⟨d1, e1, a1, s1, v1⟩ := collide_view random ds (c := c) ⟨hf, fun h => hk h.2⟩ r
    (start initial c seed memory) hst.alloc h0 (order_perm hG hB hN o1) (order_perm hG hB hN o2)
  simp only [run_cons, e1, Option.bind_some] at hr
  obtain rfl : d1 = dev := Option.some.inj hr
  refine ⟨?_, ?_⟩
  · simp only [s1, hg 0 h0]
    simp [ask, advance]
  · intro j hj hjN
    have hvj := congrFun v1 j
    simp only [if_pos hjN, cellStep, if_neg hj.ne', if_neg hk] at hvj
    have hax : d1.axes j = (view d1 j).2.1 := rfl
    have hsc : d1.scalings j = (view d1 j).2.2 := rfl
    have hgj : (view (start initial c seed memory) j).1 = ⟨seed, j, 0, initial⟩ := hg j hjN
    rw [hax, hsc, hvj]
    by_cases hcnt : r.counts j < 2 ∨ r.energies j = 0
    · simp only [factorsCell, axesCell, if_pos hcnt, hgj, ask]
      refine ⟨by simp, fun _ => trivial, fun h => absurd hcnt h⟩
    · simp only [factorsCell, axesCell, if_neg hcnt, hgj, ask, advance]
      refine ⟨by simp, fun h => absurd h hcnt, fun _ => by simp⟩

/-! ## Non-vacuity -/

/-- Four cells, and launches of two blocks with three threads each: one launch with six threads, two of
which are idle; they may act in any order, for instance backwards. -/
example : ThreadOrder 2 3 4 [5, 4, 3, 2, 1, 0] := by
  refine ⟨[(0, 2)], ?_, ?_⟩
  · exact Loop.iter (by norm_num) (Loop.exit (by norm_num))
  · decide

/-- Two collisions, with different orders of threads; a cell with two particles that move. -/
example : Scheduled 2 3 4 [⟨fun _ => 2, fun _ => 1, [5, 4, 3, 2, 1, 0], [0, 1, 2, 3, 4, 5]⟩,
    ⟨fun _ => 0, fun _ => 0, [0, 2, 4, 1, 3, 5], [0, 1, 2, 3, 4, 5]⟩] := by
  have key : ∀ l : List ℕ, l.Perm [0, 1, 2, 3, 4, 5] → ThreadOrder 2 3 4 l := fun l h =>
    ⟨[(0, 2)], Loop.iter (by norm_num) (Loop.exit (by norm_num)), h.trans (by decide)⟩
  intro r hr
  simp only [List.mem_cons, List.not_mem_nil, or_false] at hr
  rcases hr with rfl | rfl
  · exact ⟨key _ (by decide), key _ (by decide)⟩
  · exact ⟨key _ (by decide), key _ (by decide)⟩

end OpenMPCD.Sim.Generators
