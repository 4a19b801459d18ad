import Mathlib.Data.Finset.Basic

/-!
# Model of `DeviceMemoryManager`

`src/OpenMPCD/CUDA/DeviceMemoryManager.cpp`. Addresses are natural numbers, `0` is `NULL`. The calls to
`cudaMalloc` and `cudaFree` are recorded in a log. Simplifications: error states of the CUDA runtime
other than a failing `cudaMalloc` are not modelled; the checks compiled with `OPENMPCD_DEBUG` (`src/OpenMPCD/CUDA/DeviceMemoryManager.cpp:58-75,120-127,155-162`) only fail if the runtime breaks the contract stated at `Answer`, or a caller frees
something that is not device memory.
-/

namespace OpenMPCD.Memory

/-- A call to the CUDA runtime. -/
inductive Event where
  | malloc (pointer : ℕ)
  | free (pointer : ℕ)

/-- The manager, and the log of calls to the runtime (latest last). -/
structure State where
  allocatedBuffers : Finset ℕ
  autofree : Bool
  log : List Event

/-- Constructor (`src/OpenMPCD/CUDA/DeviceMemoryManager.cpp:12-15`). -/
def initial : State := ⟨∅, false, []⟩

/-- `MemoryManagementException`. -/
inductive Err where
  | memoryManagement
  deriving DecidableEq

/-- What `cudaMalloc` answers: failure (`none`) or an address. -/
abbrev Answer := Option ℕ

/-- `allocateMemoryInternalUnregistered` (`src/OpenMPCD/CUDA/DeviceMemoryManager.cpp:134-165`): the log and the returned pointer. -/
def allocateUnregistered (bufferSize : ℕ) (answer : Answer) (log : List Event) :
    List Event × Except Err ℕ :=
  if bufferSize = 0 then (log, .ok 0)
  else match answer with
    | none => (log, .error .memoryManagement)
    | some pointer => (log ++ [.malloc pointer], .ok pointer)

/-- `allocateMemoryInternal` (`src/OpenMPCD/CUDA/DeviceMemoryManager.cpp:113-132`). -/
def allocate (bufferSize : ℕ) (answer : Answer) (s : State) : State × Except Err ℕ :=
  if bufferSize = 0 then (s, .ok 0)
  else match allocateUnregistered bufferSize answer s.log with
    | (log, .error e) => ({ s with log := log }, .error e)
    | (log, .ok pointer) =>
      ({ s with log := log, allocatedBuffers := insert pointer s.allocatedBuffers }, .ok pointer)

/-- `freeMemoryUnregistered` (`src/OpenMPCD/CUDA/DeviceMemoryManager.cpp:53-79`). -/
def freeUnregistered (pointer : ℕ) (log : List Event) : List Event :=
  if pointer = 0 then log else log ++ [.free pointer]

/-- `freeMemory` (`src/OpenMPCD/CUDA/DeviceMemoryManager.cpp:40-51`). -/
def free (pointer : ℕ) (s : State) : State × Except Err Unit :=
  if pointer = 0 then (s, .ok ())
  else if pointer ∉ s.allocatedBuffers then (s, .error .memoryManagement)
  else
    let s := { s with allocatedBuffers := s.allocatedBuffers.erase pointer }
    ({ s with log := freeUnregistered pointer s.log }, .ok ())

/-- `setAutofree`, `include/OpenMPCD/CUDA/DeviceMemoryManager.hpp:207-210`. -/
def setAutofree (enable : Bool) (s : State) : State := { s with autofree := enable }

/-- The destructor (`src/OpenMPCD/CUDA/DeviceMemoryManager.cpp:17-38`): the log afterwards, and the pointers reported on standard error.
`elements` enumerates `allocatedBuffers`. -/
def destroy (elements : List ℕ) (s : State) : List Event × List ℕ :=
  if elements = [] then (s.log, [])
  else if s.autofree then (s.log ++ elements.map .free, [])
  else (s.log, elements)

/-- One call to the manager. `allocateUnregistered` and `freeUnregistered` are the static functions used
by classes that keep track of their buffers themselves (e.g. `DeviceBuffer`). -/
inductive Op where
  | allocate (bufferSize : ℕ) (answer : Answer)
  | allocateUnregistered (bufferSize : ℕ) (answer : Answer)
  | free (pointer : ℕ)
  | freeUnregistered (pointer : ℕ)
  | setAutofree (enable : Bool)

/-- The effect of one call. -/
def exec (s : State) : Op → State
  | .allocate n a => (allocate n a s).1
  | .allocateUnregistered n a => { s with log := (allocateUnregistered n a s.log).1 }
  | .free p => (free p s).1
  | .freeUnregistered p => { s with log := freeUnregistered p s.log }
  | .setAutofree b => setAutofree b s

end OpenMPCD.Memory
