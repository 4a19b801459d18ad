import Mathlib.Data.List.Range
import Mathlib.Data.List.Flatten

/-!
# Model of the kernel launch loop

The macros in `include/OpenMPCD/CUDA/Macros.hpp:53-91`. All variables are of type `unsigned int` with
arithmetic modulo `2 ^ 32`.
-/

namespace OpenMPCD.Launch

/-- `gridSize`, `include/OpenMPCD/CUDA/Macros.hpp:61-63`. -/
def gridSize (maxGridSize blockSize numberOfWorkUnits workUnit : ℕ) : ℕ :=
  let requiredGridSize := ((numberOfWorkUnits - workUnit) / blockSize + 1) % 2 ^ 32
  if requiredGridSize > maxGridSize then maxGridSize else requiredGridSize

/-- The `for` loop, `include/OpenMPCD/CUDA/Macros.hpp:59-75`: `Loop … workUnit ls` holds if the loop,
entered with the given value of `_workUnit`, ends after launches with the given values of
`(workUnitOffset, gridSize)`. -/
inductive Loop (maxGridSize blockSize numberOfWorkUnits : ℕ) : ℕ → List (ℕ × ℕ) → Prop
  | exit {workUnit : ℕ} (h : ¬ workUnit < numberOfWorkUnits) :
      Loop maxGridSize blockSize numberOfWorkUnits workUnit []
  | iter {workUnit : ℕ} {ls : List (ℕ × ℕ)} (h : workUnit < numberOfWorkUnits)
      (rest : Loop maxGridSize blockSize numberOfWorkUnits
        ((workUnit + maxGridSize * blockSize) % 2 ^ 32) ls) :
      Loop maxGridSize blockSize numberOfWorkUnits workUnit
        ((workUnit, gridSize maxGridSize blockSize numberOfWorkUnits workUnit) :: ls)

/-- The threads `(blockIdx.x, threadIdx.x)` of a launch `<<<gridDim, blockDim>>>`. -/
def threads (gridDim blockDim : ℕ) : List (ℕ × ℕ) :=
  (List.range gridDim).flatMap fun b => (List.range blockDim).map fun t => (b, t)

/-- The work unit of a thread, as computed at the beginning of each kernel, e.g.
`cudaDeviceCode/OpenMPCD/CUDA/DeviceCode/Simulation.cu:126`. -/
def workUnitOf (blockDim workUnitOffset : ℕ) (thread : ℕ × ℕ) : ℕ :=
  (thread.1 * blockDim + thread.2 + workUnitOffset) % 2 ^ 32

/-- The work units processed by a launch: threads with a number that is too large return at once,
e.g. `Simulation.cu:127-128`. -/
def processed (numberOfWorkUnits gridDim blockDim workUnitOffset : ℕ) : List ℕ :=
  ((threads gridDim blockDim).map (workUnitOf blockDim workUnitOffset)).filter
    (· < numberOfWorkUnits)

/-- All work units processed when each launch is `<<<gridSize, blockSize>>>`. -/
def processedAll (numberOfWorkUnits blockSize : ℕ) (ls : List (ℕ × ℕ)) : List ℕ :=
  ls.flatMap fun l => processed numberOfWorkUnits l.2 blockSize l.1

/-- All work units processed when each launch is `<<<blockSize, gridSize>>>`, as in
`src/OpenMPCD/CUDA/MPCFluid/Simple.cu:44` and `src/OpenMPCD/CUDA/MPCFluid/HarmonicTrimers.cu:64`. -/
def processedAllSwapped (numberOfWorkUnits blockSize : ℕ) (ls : List (ℕ × ℕ)) : List ℕ :=
  ls.flatMap fun l => processed numberOfWorkUnits blockSize l.2 l.1

/-- Executing a kernel in which the thread for work unit `i` replaces the data of unit `i` by
`f i` of it, and accesses no other unit's data; the threads act in the given order. -/
def execute {α : Type} (f : ℕ → α → α) (order : List ℕ) (data : ℕ → α) : ℕ → α :=
  order.foldl (fun data i => fun j => if j = i then f i (data i) else data j) data

end OpenMPCD.Launch
