import Mathlib.Data.Fintype.Basic
import Mathlib.Logic.Function.Basic

/-!
# Model of the compare-and-swap loop `atomicAdd`

`cudaDeviceCode/OpenMPCD/CUDA/DeviceCode/Utilities.cu:3-14`. Any number of threads, each executing one
call on the same location. `W` is the type of 64-bit words; `add w v` is the word that encodes the
sum of the number encoded by `w` and the increment `v` (line 12). Nothing is assumed about `add`:
floating-point rounding and NaN are covered.
-/

namespace OpenMPCD.Atomic

/-- Control state of one thread. -/
inductive Pc (W : Type) where
  /-- Before line 6. -/
  | start
  /-- Before an iteration of the loop (line 11), with the current value of the variable `old`. -/
  | loop (old : W)
  /-- After the call. -/
  | done
  deriving DecidableEq

/-- The memory location and the control states of the threads `ι`. -/
structure State (ι W : Type) where
  mem : W
  pc : ι → Pc W

/-- Initially no thread has begun its call. -/
def initial {ι W : Type} (w : W) : State ι W := ⟨w, fun _ => .start⟩

variable {ι W V : Type} [DecidableEq ι] [DecidableEq W]

/-- One memory access of thread `i` together with the local computation after it: the read at line 6, or
the `atomicCAS` at line 12 with the loop test at line 13. `atomicCAS` returns the previous content
and writes only if that equals `assumed`. Threads that are done do nothing. Simplification: memory
accesses to one location are totally ordered. -/
def step (add : W → V → W) (val : ι → V) (i : ι) (s : State ι W) : State ι W :=
  match s.pc i with
  | .start => { s with pc := Function.update s.pc i (.loop s.mem) }
  | .loop old =>
    let assumed := old
    let new := add assumed (val i)
    let old := s.mem
    let mem := if s.mem = assumed then new else s.mem
    { mem := mem, pc := Function.update s.pc i (if assumed ≠ old then .loop old else .done) }
  | .done => s

/-- An execution: the threads whose accesses happen, in order. -/
def run (add : W → V → W) (val : ι → V) (s : State ι W) (sched : List ι) : State ι W :=
  sched.foldl (fun s i => step add val i s) s

end OpenMPCD.Atomic
