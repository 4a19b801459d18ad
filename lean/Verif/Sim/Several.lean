import Verif.Sim.Startup
import Verif.Fluid.Dumbbell
import Mathlib.Tactic.FieldSimp

/-!
# Several simulations in one process (C106)

Some of the settings of a simulation are kept in constants of the device, which all simulations of a process share. Each
simulation writes them while it is being constructed, and never again.

Simplifications: arithmetic is exact. The threads of a kernel run one after the other (`Verif/Verlet/Props.lean` has other
orders for dumbbells). What the collision step and the solute do is arbitrary; of the constants, the collision step only
reads the size of the box, the number of cells, the rotation angle, and the velocity of the layers
(`cudaDeviceCode/OpenMPCD/CUDA/DeviceCode/Simulation.cu`, `LeesEdwardsBoundaryConditions.cu`), and the solute none.
Measurements are not part of the model. The dumbbells' initial positions, which depend on variables of the process as well, are
in `Verif/Fluid/Dumbbell.lean`.
-/

set_option linter.unusedSectionVars false
set_option linter.unusedSimpArgs false
set_option linter.unusedVariables false

namespace OpenMPCD.Sim.Several

open Startup Verlet

variable {X : Type}

/-! ## Model -/

/-- What the collision step reads of the constants of the device
(`src/OpenMPCD/CUDA/DeviceCode/Symbols.cu:17-25`,
`cudaDeviceCode/OpenMPCD/CUDA/DeviceCode/LeesEdwardsBoundaryConditions.cu:7`). -/
structure CellConsts where
  boxX : ℕ
  boxY : ℕ
  boxZ : ℕ
  cellCount : ℕ
  angle : ℝ
  layerVelocity : ℝ

/-- The constants of the device
(`src/OpenMPCD/CUDA/DeviceCode/Symbols.cu:17-25`, `src/OpenMPCD/CUDA/MPCFluid/DeviceCode/Symbols.cu:12-16`,
`cudaDeviceCode/OpenMPCD/CUDA/DeviceCode/LeesEdwardsBoundaryConditions.cu:7`). The streaming time step is part of the
symbols of dumbbells here. -/
structure Consts extends CellConsts where
  particleCount : ℕ
  symbols : Symbols

/-- `setLeesEdwardsSymbols`
(`cudaDeviceCode/OpenMPCD/CUDA/DeviceCode/LeesEdwardsBoundaryConditions.cu:9-15`). -/
noncomputable def setLeesEdwardsSymbols (shearRate : ℝ) (boxY : ℕ) (c : Consts) : Consts :=
  { c with layerVelocity := shearRate * boxY }

/-- `setMPCParticleCountSymbol` (`cudaDeviceCode/OpenMPCD/CUDA/MPCFluid/DeviceCode/Base.cu:8-12`). -/
def setParticleCount (n : ℕ) (c : Consts) : Consts := { c with particleCount := n }

/-- `setGaussianDumbbellSymbols`
(`cudaDeviceCode/OpenMPCD/CUDA/MPCFluid/DeviceCode/GaussianDumbbells.cu:10-24`). -/
noncomputable def setDumbbellSymbols (omega timestep : ℝ) (c : Consts) : Consts :=
  { c with symbols := { setSymbols omega timestep with streamingTimestep := c.symbols.streamingTimestep } }

/-- `setSimulationBoxSizeSymbols` (`src/OpenMPCD/CUDA/DeviceCode/Symbols.cu:28-51`). -/
def setBox (x y z : ℕ) (c : Consts) : Consts :=
  { c with boxX := x, boxY := y, boxZ := z, cellCount := x * y * z % 2 ^ 32 }

/-- `setMPCStreamingTimestep` (`src/OpenMPCD/CUDA/DeviceCode/Symbols.cu:53-62`). -/
def setTimestep (dt : ℝ) (c : Consts) : Consts :=
  { c with symbols := { c.symbols with streamingTimestep := dt } }

/-- `setSRDCollisionAngleSymbol` (`src/OpenMPCD/CUDA/DeviceCode/Symbols.cu:65-69`). -/
def setAngle (angle : ℝ) (c : Consts) : Consts := { c with angle := angle }

/-- The reduced spring constant and the frequency of dumbbells
(`src/OpenMPCD/CUDA/MPCFluid/GaussianDumbbells.cu:57-67`); the mass is one (`include/OpenMPCD/CUDA/MPCFluid/Base.hpp:351`).
(There is a Lagrangian multiplier for every shear rate, see `C99_ratio`.) -/
noncomputable def springs (l tau kT shearRate : ℝ) : ℝ × ℝ :=
  match Fluid.Dumbbell.springConstants l shearRate tau kT 1 with
  | .ok k => k
  | .error _ => (0, 0)

/-- What the constructor of a fluid writes
(`src/OpenMPCD/CUDA/MPCFluid/Base.cu:29`, `src/OpenMPCD/CUDA/MPCFluid/GaussianDumbbells.cu:64-68`). -/
noncomputable def fluidWrites (dt : ℝ) : Option (Startup.Fluid ℝ × ℕ) → List (Consts → Consts)
  | none => []
  | some (.dumbbells l tau kT shearRate none, n) =>
    [setParticleCount n, setDumbbellSymbols (springs l tau kT shearRate).2 dt]
  | some (_, n) => [setParticleCount n]

/-- What the constructor of a simulation writes, in order (`src/OpenMPCD/CUDA/Simulation.cu:130-143,182-184`,
`src/OpenMPCD/CUDA/BoundaryCondition/LeesEdwards.cu:30`). -/
noncomputable def writes (s : Simulation ℝ) : List (Consts → Consts) :=
  [setLeesEdwardsSymbols s.shearRate s.params.boxY] ++ fluidWrites s.params.timestep s.fluid ++
  [setBox s.params.boxX s.params.boxY s.params.boxZ, setTimestep s.params.timestep, setAngle s.params.angle]

/-- Writing one after the other. -/
def writeAll (l : List (Consts → Consts)) (c : Consts) : Consts := l.foldl (fun c w => w c) c

/-- The buffers of positions and velocities are replaced. -/
def withMem (m : ChainMem ℝ) (m' : Mem ℝ) : ChainMem ℝ := { m with toMem := m' }

/-- `streamSimpleMPCParticle` (`cudaDeviceCode/OpenMPCD/CUDA/MPCFluid/DeviceCode/Simple.cu:6-46`). -/
noncomputable def simpleThread (c : Consts) (m : ChainMem ℝ) (particleID : ℕ) : ChainMem ℝ :=
  if particleID ≥ c.particleCount then m
  else m.setPos' particleID (m.pos particleID + c.symbols.streamingTimestep • m.vel particleID)

/-- `streamDumbbellsAnalytically`
(`cudaDeviceCode/OpenMPCD/CUDA/MPCFluid/DeviceCode/GaussianDumbbells.cu:122-135`). -/
noncomputable def analyticThread (c : Consts) (m : ChainMem ℝ) (workUnit : ℕ) : ChainMem ℝ :=
  if 2 * workUnit ≥ c.particleCount then m
  else withMem m (streamAnalytically c.symbols (2 * workUnit) m.toMem)

/-- `streamGaussianRodsVelocityVerlet`
(`cudaDeviceCode/OpenMPCD/CUDA/MPCFluid/DeviceCode/GaussianRods.cu:67-85`). -/
noncomputable def rodThread (c : Consts) (meanBondLength k dt : ℝ) (steps : ℕ) (m : Option (ChainMem ℝ)) (workUnit : ℕ) :
    Option (ChainMem ℝ) :=
  m.bind fun m =>
    if 2 * workUnit ≥ c.particleCount then some m
    else (streamRod (2 * workUnit) meanBondLength k dt steps m.toMem).map (withMem m)

/-- `stream` of the fluids (`src/OpenMPCD/CUDA/MPCFluid/Simple.cu:41-49`, `GaussianDumbbells.cu:88-114`,
`GaussianChains.cu:66-82`, `GaussianRods.cu:54-69`, `HarmonicTrimers.cu:55-77`); `none`: an exception is thrown, or an
assertion fails. -/
noncomputable def streamFluid (c : Consts) (dt : ℝ) (n : ℕ) (m : ChainMem ℝ) : Startup.Fluid ℝ → Option (ChainMem ℝ)
  | .simple => some ((List.range n).foldl (simpleThread c) m)
  | .dumbbells l tau kT shearRate none => some ((List.range (n / 2)).foldl (analyticThread c) m)
  | .dumbbells l tau kT shearRate (some steps) =>
    some (withMem m ((List.range (n / 2)).foldl
      (dumbbellThread c.particleCount (springs l tau kT shearRate).1 (dt / steps) steps) m.toMem))
  | .chains size k steps =>
    some ((List.range (n / size)).foldl (chainThread c.particleCount size (k / 1) (dt / steps) steps) m)
  | .rods length k steps => (List.range (n / 2)).foldl (rodThread c length (k / 1) (dt / steps) steps) (some m)
  | .trimers _ _ none => none
  | .trimers k1 k2 (some steps) =>
    some (withMem m ((List.range (n / 3)).foldl
      (trimerThread c.particleCount (k1 / 1) (k2 / 1) (dt / steps) steps) m.toMem))

/-- What belongs to one simulation: the buffers of the fluid, the time, and anything else. -/
structure Own (X : Type) where
  mem : ChainMem ℝ
  time : ℝ
  rest : X

/-- The parts that are arbitrary. -/
structure Parts (X : Type) where
  solute : Simulation ℝ → X → X
  collide : CellConsts → Simulation ℝ → Own X → Own X

/-- `Simulation::stream` (`src/OpenMPCD/CUDA/Simulation.cu:253-271`). -/
noncomputable def stream (P : Parts X) (c : Consts) (s : Simulation ℝ) (o : Own X) : Option (Own X) :=
  (match s.fluid with
  | none => some o.mem
  | some (f, n) => streamFluid c s.params.timestep n o.mem f).map fun mem =>
    { o with
      mem := mem
      rest := match s.solute with
        | none => o.rest
        | some (_, n) => (P.solute s)^[n] o.rest
      time := o.time + s.params.timestep }

/-- `Simulation::run` (`src/OpenMPCD/CUDA/Simulation.cu:241-251`). -/
noncomputable def runFor (P : Parts X) (c : Consts) (s : Simulation ℝ) : ℕ → Own X → Option (Own X)
  | 0, o => some o
  | n + 1, o => (stream P c s o).bind fun o => runFor P c s n (P.collide c.toCellConsts s o)

/-- What is done with simulations; they are told apart by numbers. -/
inductive Op (X : Type)
  /-- A simulation is constructed, in place of any earlier one of this number. -/
  | construct (i : ℕ) (s : Simulation ℝ) (o : Own X)
  /-- The constructor throws an exception, having done the first `n` of its writes. -/
  | refused (s : Simulation ℝ) (n : ℕ)
  | run (i : ℕ) (steps : ℕ)

/-- A process. A simulation that has failed has no state of its own any more. -/
structure Process (X : Type) where
  consts : Consts
  sims : ℕ → Option (Simulation ℝ × Option (Own X))

/-- One operation. -/
noncomputable def Process.step (P : Parts X) (p : Process X) : Op X → Process X
  | .construct i s o => ⟨writeAll (writes s) p.consts, Function.update p.sims i (some (s, some o))⟩
  | .refused s n => { p with consts := writeAll ((writes s).take n) p.consts }
  | .run i n =>
    match p.sims i with
    | none => p
    | some (s, o) => { p with sims := Function.update p.sims i (some (s, o.bind (runFor P p.consts s n))) }

/-- A process, the constants having any initial value. -/
noncomputable def process (P : Parts X) (c : Consts) (h : List (Op X)) : Process X :=
  h.foldl (Process.step P) ⟨c, fun _ => none⟩

/-- The guard in the constructor of dumbbells (`src/OpenMPCD/CUDA/MPCFluid/GaussianDumbbells.cu:33-37`): the variable, which
is static, after the constructor, and whether the constructor throws an `InvalidCallException`. -/
def guardDumbbells (firstInvocation : Bool) : Bool × Bool := (firstInvocation, !firstInvocation)

/-! ## Specification -/

/-- The operations that concern a simulation. -/
def Op.Of (i : ℕ) : Op X → Prop
  | .construct j _ _ => j = i
  | .refused _ _ => False
  | .run j _ => j = i

instance (i : ℕ) (op : Op X) : Decidable (op.Of i) :=
  match op with
  | .construct j _ _ => inferInstanceAs (Decidable (j = i))
  | .refused _ _ => inferInstanceAs (Decidable False)
  | .run j _ => inferInstanceAs (Decidable (j = i))

/-- A history with nothing but the operations that concern a simulation. -/
def alone (i : ℕ) (h : List (Op X)) : List (Op X) := h.filter fun op => decide (op.Of i)

/-- The settings of a simulation after a history. -/
def settings (i : ℕ) (h : List (Op X)) : Option (Simulation ℝ) :=
  h.foldl (fun r op => match op with
    | .construct j s _ => if j = i then some s else r
    | _ => r) none

/-- The settings other simulations have been constructed with, or have been refused with, since the simulation has been
constructed. -/
def since (i : ℕ) (h : List (Op X)) : List (Simulation ℝ) :=
  h.foldl (fun l op => match op with
    | .construct j s _ => if j = i then [] else l ++ [s]
    | .refused s _ => l ++ [s]
    | .run _ _ => l) []

/-- Whenever the simulation is run, only simulations with the same settings have been constructed since it has been. -/
def Undisturbed (i : ℕ) (h : List (Op X)) : Prop :=
  ∀ h₁ n h₂, h = h₁ ++ .run i n :: h₂ → ∀ s ∈ since i h₁, settings i h₁ = some s

/-! ## Proofs -/

/-- The constants are as a simulation needs them. -/
structure Agrees (s : Simulation ℝ) (c : Consts) : Prop where
  layer : c.layerVelocity = s.shearRate * s.params.boxY
  x : c.boxX = s.params.boxX
  y : c.boxY = s.params.boxY
  z : c.boxZ = s.params.boxZ
  cells : c.cellCount = s.params.boxX * s.params.boxY * s.params.boxZ % 2 ^ 32
  angle : c.angle = s.params.angle
  timestep : c.symbols.streamingTimestep = s.params.timestep
  count : ∀ f n, s.fluid = some (f, n) → c.particleCount = n
  analytic : ∀ l tau kT r n, s.fluid = some (.dumbbells l tau kT r none, n) →
    c.symbols = setSymbols (springs l tau kT r).2 s.params.timestep

theorem writeAll_append (a b : List (Consts → Consts)) (c : Consts) :
    writeAll (a ++ b) c = writeAll b (writeAll a c) := by
  unfold writeAll; rw [List.foldl_append]

/-- Constructing a simulation makes the constants agree with it, whatever they were. -/
theorem agrees_writes (s : Simulation ℝ) (c : Consts) : Agrees s (writeAll (writes s) c) := by
  obtain ⟨p, r, f, sol⟩ := s
  rcases f with _ | ⟨f, n⟩
  · constructor <;> simp [writes, fluidWrites, writeAll, setLeesEdwardsSymbols, setBox, setTimestep, setAngle]
  · rcases f with _ | ⟨l, tau, kT, r', _ | steps⟩ | _ | _ | _ <;> constructor <;>
      simp [writes, fluidWrites, writeAll, setLeesEdwardsSymbols, setBox, setTimestep, setAngle, setParticleCount,
        setDumbbellSymbols, setSymbols]
    intro l tau kT r' n' h1 h2 h3 h4 _
    subst h1 h2 h3 h4
    simp

/-- Once the constants agree, writing them again changes nothing. -/
theorem agrees_write {s : Simulation ℝ} {c : Consts} (h : Agrees s c) {w : Consts → Consts} (hw : w ∈ writes s) :
    w c = c := by
  obtain ⟨p, r, f, sol⟩ := s
  obtain ⟨⟨x, y, z, cells, angle, layer⟩, count, ⟨om, co, si, dt⟩⟩ := c
  obtain ⟨h1, h2, h3, h4, h5, h6, h7, h8, h9⟩ := h
  simp only at h1 h2 h3 h4 h5 h6 h7
  subst h1 h2 h3 h4 h5 h6 h7
  unfold writes at hw
  simp only [List.mem_append, List.mem_cons, List.not_mem_nil, or_false] at hw
  rcases hw with (rfl | hw) | rfl | rfl | rfl
  · rfl
  · rcases f with _ | ⟨f, n⟩
    · simp [fluidWrites] at hw
    · have hc := h8 f n rfl
      simp only at hc
      subst hc
      rcases f with _ | ⟨l, tau, kT, r', _ | steps⟩ | _ | _ | _ <;>
        simp only [fluidWrites, List.mem_cons, List.not_mem_nil, or_false] at hw
      case dumbbells.none =>
        rcases hw with rfl | rfl
        · rfl
        · have := h9 l tau kT r' _ rfl
          unfold setDumbbellSymbols
          simp only [setSymbols] at this ⊢
          simp only [Symbols.mk.injEq] at this
          obtain ⟨a, b, d, _⟩ := this
          subst a b d
          rfl
      all_goals (subst hw; rfl)
  · rfl
  · rfl
  · rfl

theorem agrees_writeAll {s : Simulation ℝ} {c : Consts} (h : Agrees s c) {l : List (Consts → Consts)}
    (hl : ∀ w ∈ l, w ∈ writes s) : writeAll l c = c := by
  induction l with
  | nil => rfl
  | cons w l ih =>
    unfold writeAll at ih ⊢
    rw [List.foldl_cons, agrees_write h (hl w (by simp))]
    exact ih fun w' hw' => hl w' (by simp [hw'])

/-- What a fluid does depends on the constants only as far as they agree with the simulation. -/
theorem streamFluid_congr {s : Simulation ℝ} {c c' : Consts} (h : Agrees s c) (h' : Agrees s c') {f : Startup.Fluid ℝ} {n : ℕ}
    (hf : s.fluid = some (f, n)) (m : ChainMem ℝ) :
    streamFluid c s.params.timestep n m f = streamFluid c' s.params.timestep n m f := by
  have hn : c.particleCount = c'.particleCount := by rw [h.count _ _ hf, h'.count _ _ hf]
  have ht : c.symbols.streamingTimestep = c'.symbols.streamingTimestep := by rw [h.timestep, h'.timestep]
  rcases f with _ | ⟨l, tau, kT, r', _ | steps⟩ | _ | _ | ⟨k1, k2, _ | steps⟩
  · have : simpleThread c = simpleThread c' := by
      funext m i; unfold simpleThread; rw [hn, ht]
    unfold streamFluid; simp only [this]
  · have hs : c.symbols = c'.symbols := by rw [h.analytic _ _ _ _ _ hf, h'.analytic _ _ _ _ _ hf]
    have : analyticThread c = analyticThread c' := by
      funext m i; unfold analyticThread; rw [hn, hs]
    unfold streamFluid; simp only [this]
  · unfold streamFluid; simp only [hn]
  · unfold streamFluid; simp only [hn]
  · rename_i length k steps
    have : rodThread c length = rodThread c' length := by
      funext k dt steps m i; unfold rodThread; rw [hn]
    unfold streamFluid; simp only [this]
  · rfl
  · unfold streamFluid; simp only [hn]

theorem runFor_congr (P : Parts X) {s : Simulation ℝ} {c c' : Consts} (h : Agrees s c) (h' : Agrees s c') (n : ℕ)
    (o : Own X) : runFor P c s n o = runFor P c' s n o := by
  have hcell : c.toCellConsts = c'.toCellConsts := by
    obtain ⟨⟨_, _, _, _, _, _⟩, _, _⟩ := c
    obtain ⟨⟨_, _, _, _, _, _⟩, _, _⟩ := c'
    have := h.layer; have := h.x; have := h.y; have := h.z; have := h.cells; have := h.angle
    have := h'.layer; have := h'.x; have := h'.y; have := h'.z; have := h'.cells; have := h'.angle
    simp_all
  have hs : ∀ o : Own X, stream P c s o = stream P c' s o := by
    intro o
    rcases hf : s.fluid with _ | ⟨f, k⟩
    · unfold stream; simp only [hf]
    · unfold stream; simp only [hf, streamFluid_congr h h' hf]
  induction n generalizing o with
  | zero => rfl
  | succ n ih =>
    unfold runFor
    rw [hs, hcell]
    congr 1
    funext o'
    exact ih _

theorem process_snoc (P : Parts X) (c : Consts) (h : List (Op X)) (op : Op X) :
    process P c (h ++ [op]) = (process P c h).step P op := by
  unfold process; rw [List.foldl_append]; rfl

theorem settings_snoc (i : ℕ) (h : List (Op X)) (op : Op X) :
    settings i (h ++ [op]) = match op with
      | .construct j s _ => if j = i then some s else settings i h
      | _ => settings i h := by
  unfold settings; rw [List.foldl_append]; rfl

theorem since_snoc (i : ℕ) (h : List (Op X)) (op : Op X) :
    since i (h ++ [op]) = match op with
      | .construct j s _ => if j = i then [] else since i h ++ [s]
      | .refused s _ => since i h ++ [s]
      | .run _ _ => since i h := by
  unfold since; rw [List.foldl_append]; rfl

/-- **C106.** If, whenever a simulation is run, only simulations with the same settings have been constructed since it has
been, then its state is what it would be without the others. -/
theorem C106_partial (P : Parts X) (c c' : Consts) (i : ℕ) (h : List (Op X)) (hu : Undisturbed i h) :
    (process P c h).sims i = (process P c' (alone i h)).sims i := by
  have key : (process P c h).sims i = (process P c' (alone i h)).sims i ∧
      (∀ s o, (process P c h).sims i = some (s, o) → settings i h = some s ∧
        Agrees s (process P c' (alone i h)).consts ∧
        ((∀ s' ∈ since i h, s' = s) → Agrees s (process P c h).consts)) := by
    induction h using List.reverseRecOn with
    | nil => exact ⟨rfl, fun s o hs => by simp [process] at hs⟩
    | append_singleton h op ih =>
      obtain ⟨ih1, ih2⟩ := ih (by
        intro h₁ n h₂ heq s hs
        exact hu h₁ n (h₂ ++ [op]) (by rw [heq]; simp) s hs)
      have halone : alone i (h ++ [op]) = alone i h ++ if op.Of i then [op] else [] := by
        unfold alone
        rw [List.filter_append]
        congr 1
        by_cases ho : op.Of i <;> simp [ho]
      rw [halone, process_snoc]
      rcases op with ⟨j, s, o⟩ | ⟨s, n⟩ | ⟨j, n⟩
      · by_cases hj : j = i
        · subst hj
          rw [if_pos (show (Op.construct j s o).Of j from rfl), process_snoc]
          refine ⟨by simp [Process.step], fun s' o' hs => ?_⟩
          simp only [Process.step, Function.update_self, Option.some.injEq, Prod.mk.injEq] at hs
          obtain ⟨rfl, rfl⟩ := hs
          exact ⟨by rw [settings_snoc]; simp, agrees_writes _ _, fun _ => agrees_writes _ _⟩
        · rw [if_neg (by exact hj), List.append_nil]
          have hsim : ((process P c h).step P (.construct j s o)).sims i = (process P c h).sims i := by
            simp [Process.step, Function.update_of_ne (Ne.symm hj)]
          refine ⟨hsim.trans ih1, fun s' o' hs => ?_⟩
          rw [hsim] at hs
          obtain ⟨a, b, d⟩ := ih2 s' o' hs
          refine ⟨by rw [settings_snoc]; simp [hj, a], b, fun hall => ?_⟩
          rw [since_snoc] at hall
          simp only [if_neg hj, List.mem_append, List.mem_singleton] at hall
          have hag := d fun s'' hs'' => hall s'' (Or.inl hs'')
          have hss := hall s (Or.inr rfl)
          subst hss
          exact agrees_writes _ _
      · rw [if_neg (by exact id), List.append_nil]
        refine ⟨ih1, fun s' o' hs => ?_⟩
        obtain ⟨a, b, d⟩ := ih2 s' o' hs
        refine ⟨by rw [settings_snoc]; exact a, b, fun hall => ?_⟩
        rw [since_snoc] at hall
        simp only [List.mem_append, List.mem_singleton] at hall
        have hag := d fun s'' hs'' => hall s'' (Or.inl hs'')
        have hss := hall s (Or.inr rfl)
        subst hss
        show Agrees s (writeAll ((writes s).take n) (process P c h).consts)
        rw [agrees_writeAll hag fun w hw => List.mem_of_mem_take hw]
        exact hag
      · by_cases hj : j = i
        · subst hj
          rw [if_pos (show (Op.run (X := X) j n).Of j from rfl), process_snoc]
          rcases hsim : (process P c h).sims j with _ | ⟨s, o⟩
          · have h2 : (process P c' (alone j h)).sims j = none := by rw [← ih1, hsim]
            refine ⟨?_, fun s' o' hs => ?_⟩
            · simp only [Process.step, hsim, h2]
            · simp [Process.step, hsim] at hs
          · have h2 : (process P c' (alone j h)).sims j = some (s, o) := by rw [← ih1, hsim]
            obtain ⟨a, b, d⟩ := ih2 s o hsim
            have hag : Agrees s (process P c h).consts := d fun s' hs' => by
              have := hu h n [] rfl s' hs'
              rw [a] at this
              exact (Option.some.inj this).symm
            have hrun : runFor P (process P c h).consts s n = runFor P (process P c' (alone j h)).consts s n := by
              funext o'; exact runFor_congr P hag b n o'
            refine ⟨?_, fun s' o' hs => ?_⟩
            · simp only [Process.step, hsim, h2, Function.update_self, hrun]
            · simp only [Process.step, hsim, Function.update_self, Option.some.injEq, Prod.mk.injEq] at hs
              obtain ⟨rfl, -⟩ := hs
              refine ⟨by rw [settings_snoc]; exact a, ?_, fun _ => ?_⟩
              · simp only [Process.step, h2]; exact b
              · simp only [Process.step, hsim]; exact hag
        · rw [if_neg (by exact hj), List.append_nil]
          have hsim : ((process P c h).step P (.run j n)).sims i = (process P c h).sims i := by
            rcases hj2 : (process P c h).sims j with _ | ⟨s, o⟩
            · simp only [Process.step, hj2]
            · simp only [Process.step, hj2, Function.update_of_ne (Ne.symm hj)]
          have hcon : ((process P c h).step P (.run j n)).consts = (process P c h).consts := by
            rcases hj2 : (process P c h).sims j with _ | ⟨s, o⟩ <;> simp only [Process.step, hj2]
          refine ⟨hsim.trans ih1, fun s' o' hs => ?_⟩
          rw [hsim] at hs
          obtain ⟨a, b, d⟩ := ih2 s' o' hs
          refine ⟨by rw [settings_snoc]; exact a, b, fun hall => ?_⟩
          rw [hcon]
          rw [since_snoc] at hall
          exact d hall
  exact key.1

/-! ## Violations -/

/-- A simulation of a simple fluid without shear and without collisions. -/
noncomputable def plain (dt : ℝ) (box n : ℕ) : Simulation ℝ :=
  ⟨⟨box, 1, 1, dt, 0, 1, 0, 1⟩, 0, some (.simple, n), none⟩

/-- Nothing happens in collisions. -/
def quiet : Parts Unit := ⟨fun _ x => x, fun _ _ o => o⟩

/-- All particles start at the origin, moving along the x axis. -/
noncomputable def startState : Own Unit := ⟨⟨⟨fun _ => 0, fun _ => ⟨1, 0, 0⟩⟩, fun _ => 0⟩, 0, ()⟩

/-- The constants before anything has been written. -/
noncomputable def blank : Consts := ⟨⟨0, 0, 0, 0, 0, 0⟩, 0, ⟨0, 0, 0, 0⟩⟩

/-- The position of a particle of a simulation along the x axis. -/
noncomputable def posX (p : Process Unit) (i k : ℕ) : Option ℝ :=
  ((p.sims i).bind Prod.snd).map fun o => (o.mem.pos k).x

/-- The time of a simulation. -/
noncomputable def timeOf (p : Process Unit) (i : ℕ) : Option ℝ := ((p.sims i).bind Prod.snd).map Own.time

/-- Two simulations that start, with one particle each. The first one streams with the time step of the second one, while
its clock does not. -/
theorem C106_violated (dt dt' : ℝ) :
    posX (process quiet blank [.construct 0 (plain dt 1 1) startState, .construct 1 (plain dt' 1 1) startState, .run 0 1]) 0 0
      = some dt' ∧
    timeOf (process quiet blank
      [.construct 0 (plain dt 1 1) startState, .construct 1 (plain dt' 1 1) startState, .run 0 1]) 0 = some dt ∧
    posX (process quiet blank (alone 0
      [.construct 0 (plain dt 1 1) startState, .construct 1 (plain dt' 1 1) startState, .run 0 1])) 0 0 = some dt := by
  refine ⟨?_, ?_, ?_⟩ <;>
  simp [posX, timeOf, process, Process.step, plain, quiet, startState, blank, runFor, stream, streamFluid, simpleThread, writes,
    fluidWrites, writeAll, setLeesEdwardsSymbols, setParticleCount, setBox, setTimestep, setAngle, ChainMem.setPos',
    Mem.setPos, alone, List.filter_cons, Op.Of, Function.update, List.range_succ]

/-- Particles beyond the number of particles of the simulation constructed last stay where they are. -/
theorem C106_count_violated :
    posX (process quiet blank [.construct 0 (plain 1 2 2) startState, .construct 1 (plain 1 1 1) startState, .run 0 1]) 0 1
      = some 0 ∧
    posX (process quiet blank (alone 0
      [.construct 0 (plain 1 2 2) startState, .construct 1 (plain 1 1 1) startState, .run 0 1])) 0 1 = some 1 := by
  refine ⟨?_, ?_⟩ <;>
  simp [posX, timeOf, process, Process.step, plain, quiet, startState, blank, runFor, stream, streamFluid, simpleThread, writes,
    fluidWrites, writeAll, setLeesEdwardsSymbols, setParticleCount, setBox, setTimestep, setAngle, ChainMem.setPos',
    Mem.setPos, alone, List.filter_cons, Op.Of, Function.update, List.range_succ]

/-- Even a simulation that could not be constructed disturbs the others. -/
theorem C106_refused_violated :
    posX (process quiet blank [.construct 0 (plain 1 2 2) startState, .refused (plain 1 1 1) 2, .run 0 1]) 0 1 = some 0 ∧
    posX (process quiet blank (alone 0
      [.construct 0 (plain 1 2 2) startState, .refused (plain 1 1 1) 2, .run 0 1])) 0 1 = some 1 := by
  have ha : alone 0 [.construct 0 (plain 1 2 2) startState, .refused (plain 1 1 1) 2, .run 0 1] =
      [.construct 0 (plain 1 2 2) startState, .run 0 1] := rfl
  rw [ha]
  refine ⟨?_, ?_⟩ <;>
  simp [posX, timeOf, process, Process.step, plain, quiet, startState, blank, runFor, stream, streamFluid, simpleThread, writes,
    fluidWrites, writeAll, setLeesEdwardsSymbols, setParticleCount, setBox, setTimestep, setAngle, ChainMem.setPos',
    Mem.setPos, alone, List.filter_cons, Op.Of, Function.update, List.range_succ]

/-- The constructor of dumbbells is to throw from the second time on; it never does. -/
theorem C106_guard_violated (n : ℕ) : (guardDumbbells ((fun b => (guardDumbbells b).1)^[n] true)).2 = false := by
  have : ∀ n, (fun b => (guardDumbbells b).1)^[n] true = true := by
    intro n
    induction n with
    | zero => rfl
    | succ n ih => rw [Function.iterate_succ_apply', ih]; rfl
  rw [this]; rfl

/-- One simulation after the other, and two of the same settings at the same time, are undisturbed. -/
example : Undisturbed 0 [.construct 0 (plain 1 1 1) startState, .construct 1 (plain 1 1 1) startState, .run 0 5, .run 1 7,
    .run 0 5, .construct 1 (plain 2 2 2) startState, .run 1 3] := by
  intro h₁ n h₂ heq s hs
  match h₁, heq with
  | [_, _], heq =>
    simp only [List.cons_append, List.nil_append, List.cons.injEq] at heq
    obtain ⟨rfl, rfl, -⟩ := heq
    simp [since] at hs
    subst hs; rfl
  | [_, _, _, _], heq =>
    simp only [List.cons_append, List.nil_append, List.cons.injEq] at heq
    obtain ⟨rfl, rfl, rfl, rfl, -⟩ := heq
    simp [since] at hs
    subst hs; rfl
  | [], heq => simp at heq
  | [_], heq => simp at heq
  | [_, _, _], heq => simp at heq
  | [_, _, _, _, _], heq => simp at heq
  | [_, _, _, _, _, _], heq => simp at heq
  | _ :: _ :: _ :: _ :: _ :: _ :: _ :: l, heq => simp at heq

end OpenMPCD.Sim.Several
