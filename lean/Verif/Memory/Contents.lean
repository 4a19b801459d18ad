import Mathlib.Data.List.Basic
import Mathlib.Tactic.NormNum
import Mathlib.Tactic.Linarith

/-!
# The contents of Device memory (C124)

`DeviceMemoryManager` and `DeviceBuffer`. Memory is a map from addresses to bytes, one for the Host and one for the Device;
address `0` is `NULL`. The CUDA runtime is modelled by its contract: copying within allocated memory copies, and anything
else is undefined.
-/

set_option linter.unusedVariables false
set_option linter.unusedSimpArgs false

namespace OpenMPCD.Memory.Contents

/-! ## Model -/

/-- Errors the CUDA runtime reports. -/
inductive CudaError where
  | invalidValue | invalidDevice | other
  deriving DecidableEq

/-- Memory, allocated blocks (address and size), and the error `cudaGetLastError` would report. -/
structure World where
  host : ℕ → UInt8
  device : ℕ → UInt8
  hostBlocks : List (ℕ × ℕ)
  deviceBlocks : List (ℕ × ℕ)
  pending : Option CudaError

/-- Exceptions. -/
inductive Err where
  | nullPointer | invalidArgument | memoryManagement | cuda
  deriving DecidableEq

/-- The outcome of a call: it returns, throws, or the program is undefined. -/
inductive Out (α : Type) where
  | ok (value : α)
  | throws (e : Err)
  | undefined

/-- The `n` bytes at `p` are part of one block. -/
def inside (blocks : List (ℕ × ℕ)) (p n : ℕ) : Prop := ∃ b ∈ blocks, b.1 ≤ p ∧ p + n ≤ b.1 + b.2

instance (blocks : List (ℕ × ℕ)) (p n : ℕ) : Decidable (inside blocks p n) := by
  unfold inside; infer_instance

/-- Memory after `n` bytes at `p` have been written. -/
def write (m : ℕ → UInt8) (p n : ℕ) (value : ℕ → UInt8) : ℕ → UInt8 :=
  fun a => if p ≤ a ∧ a < p + n then value (a - p) else m a

/-- Conversion to `unsigned int`, and to `std::size_t`. -/
def uint (n : ℕ) : ℕ := n % 2 ^ 32
def sizeT (n : ℕ) : ℕ := n % 2 ^ 64

/-- `allocateMemory<Pointee>` (`include/OpenMPCD/CUDA/DeviceMemoryManager.hpp:62-65`) and `allocateMemoryUnregistered<Pointee>`
(`include/OpenMPCD/CUDA/DeviceMemoryManager.hpp:119-127`): the number of bytes requested. The argument is converted to
`unsigned int`. `size`: the size of `Pointee`. -/
def requestedBytes (size instanceCount : ℕ) : ℕ := sizeT (uint instanceCount * size)

/-- `allocateMemoryInternalUnregistered` (`src/OpenMPCD/CUDA/DeviceMemoryManager.cpp:134-165`), given the address `cudaMalloc`
returns, if it succeeds. The contents are indeterminate: those there were. -/
def allocateInternal (bufferSize : ℕ) (answer : Option ℕ) (w : World) : World × Out ℕ :=
  if bufferSize = 0 then (w, .ok 0)
  else match answer with
    | none => ({ w with pending := none }, .throws .memoryManagement)
    | some p => ({ w with deviceBlocks := (p, bufferSize) :: w.deviceBlocks }, .ok p)

/-- `isDeviceMemoryPointer` (`src/OpenMPCD/CUDA/DeviceMemoryManager.cpp:81-103`). `cudaPointerGetAttributes` fails for pointers
that are not to Device memory, as for `malloc`ed Host memory; otherwise, `cudaGetLastError` reports an earlier error, if there
is one. -/
def isDeviceMemoryPointer (p : ℕ) (w : World) : World × Out Bool :=
  match (if inside w.deviceBlocks p 1 then w.pending else some .invalidValue) with
  | none => ({ w with pending := none }, .ok true)
  | some .invalidValue => ({ w with pending := none }, .ok false)
  | some _ => ({ w with pending := none }, .throws .cuda)

/-- `isHostMemoryPointer` (`src/OpenMPCD/CUDA/DeviceMemoryManager.cpp:105-111`). -/
def isHostMemoryPointer (p : ℕ) (w : World) : World × Out Bool :=
  if p = 0 then (w, .ok false)
  else match isDeviceMemoryPointer p w with
    | (w, .ok b) => (w, .ok !b)
    | (w, .throws e) => (w, .throws e)
    | (w, .undefined) => (w, .undefined)

/-- Continue with a call if the check returns `true`, and throw an exception if it returns `false`. -/
def require (check : World → World × Out Bool) (next : World → World × Out Unit) (w : World) : World × Out Unit :=
  match check w with
  | (w, .ok true) => next w
  | (w, .ok false) => (w, .throws .invalidArgument)
  | (w, .throws e) => (w, .throws e)
  | (w, .undefined) => (w, .undefined)

/-- `OPENMPCD_CUDA_THROW_ON_ERROR` (`include/OpenMPCD/CUDA/Macros.hpp:96`). -/
def throwOnError (w : World) : World × Out Unit :=
  match w.pending with
  | none => (w, .ok ())
  | some _ => ({ w with pending := none }, .throws .cuda)

/-- The kinds of memory. -/
inductive Kind where
  | host | device
  deriving DecidableEq

def World.blocks (w : World) : Kind → List (ℕ × ℕ)
  | .host => w.hostBlocks
  | .device => w.deviceBlocks

def World.bytes (w : World) : Kind → ℕ → UInt8
  | .host => w.host
  | .device => w.device

def World.set (w : World) (k : Kind) (m : ℕ → UInt8) : World :=
  match k with
  | .host => { w with host := m }
  | .device => { w with device := m }

/-- The check of a pointer in debug mode. -/
def isPointerTo : Kind → ℕ → World → World × Out Bool
  | .host => isHostMemoryPointer
  | .device => isDeviceMemoryPointer

/-- `cudaMemcpy(dest, src, n, …)`. -/
def memcpy (from_ to_ : Kind) (src dest n : ℕ) (w : World) : World × Out Unit :=
  if n = 0 then (w, .ok ())
  else if ¬ inside (w.blocks from_) src n ∨ ¬ inside (w.blocks to_) dest n ∨
      (from_ = to_ ∧ src < dest + n ∧ dest < src + n) then (w, .undefined)
  else (w.set to_ (write (w.bytes to_) dest n fun i => w.bytes from_ (src + i)), .ok ())

/-- `copyElementsFromHostToDevice` (`include/OpenMPCD/CUDA/ImplementationDetails/DeviceMemoryManager.hpp:21-41`),
`copyElementsFromDeviceToHost` (`include/OpenMPCD/CUDA/ImplementationDetails/DeviceMemoryManager.hpp:43-63`) and
`copyElementsFromDeviceToDevice` (`include/OpenMPCD/CUDA/ImplementationDetails/DeviceMemoryManager.hpp:65-85`): they differ
only in the kinds of memory. `size`: the size of `T`. -/
def copyElements (debug : Bool) (from_ to_ : Kind) (size src dest count : ℕ) (w : World) : World × Out Unit :=
  let copy : World → World × Out Unit := fun w =>
    match memcpy from_ to_ src dest (sizeT (size * count)) w with
    | (w, .ok ()) => throwOnError w
    | r => r
  if debug then
    if src = 0 then (w, .throws .nullPointer)
    else if dest = 0 then (w, .throws .nullPointer)
    else require (isPointerTo from_ src) (require (isPointerTo to_ dest) copy) w
  else copy w

/-- `cudaMemset(start, 0, n)`. -/
def memset (start n : ℕ) (w : World) : World × Out Unit :=
  if n = 0 then (w, .ok ())
  else if ¬ inside w.deviceBlocks start n then (w, .undefined)
  else ({ w with device := write w.device start n fun _ => 0 }, .ok ())

/-- `zeroMemory` (`include/OpenMPCD/CUDA/ImplementationDetails/DeviceMemoryManager.hpp:87-101`). -/
def zeroMemory (debug : Bool) (size start numberOfElements : ℕ) (w : World) : World × Out Unit :=
  let zero : World → World × Out Unit := fun w =>
    match memset start (sizeT (size * numberOfElements)) w with
    | (w, .ok ()) => throwOnError w
    | r => r
  if debug then
    if start = 0 then (w, .throws .nullPointer)
    else require (isDeviceMemoryPointer start) zero w
  else zero w

/-- `elementMemoryEqualOnHostAndDevice` (`include/OpenMPCD/CUDA/ImplementationDetails/DeviceMemoryManager.hpp:103-131`) without
the checks compiled in debug mode (which are as for copying). The temporary memory is not modelled. -/
def elementMemoryEqual (size host device count : ℕ) (w : World) : World × Out Bool :=
  let byteCount := sizeT (size * count)
  if byteCount ≠ 0 ∧ (¬ inside w.hostBlocks host byteCount ∨ ¬ inside w.deviceBlocks device byteCount) then (w, .undefined)
  else match throwOnError w with
    | (w, .ok ()) => (w, .ok ((List.range byteCount).all fun i => w.host (host + i) == w.device (device + i)))
    | (w, .throws e) => (w, .throws e)
    | (w, .undefined) => (w, .undefined)

/-- `DeviceBuffer` (`include/OpenMPCD/CUDA/DeviceBuffer.hpp:23-92`). -/
structure DeviceBuffer where
  pointer : ℕ
  elementCount : ℕ

/-- The constructor of `DeviceBuffer` (`include/OpenMPCD/CUDA/ImplementationDetails/DeviceBuffer.hpp:18-28`): it asks for
`sizeof(T) * elementCount` instances. `getElementCount`
(`include/OpenMPCD/CUDA/ImplementationDetails/DeviceBuffer.hpp:48-52`) returns the number given. -/
def DeviceBuffer.make (debug : Bool) (size elementCount : ℕ) (answer : Option ℕ) (w : World) : World × Out DeviceBuffer :=
  if debug ∧ elementCount = 0 then (w, .throws .invalidArgument)
  else match allocateInternal (requestedBytes size (sizeT (size * elementCount))) answer w with
    | (w, .ok p) => (w, .ok ⟨p, elementCount⟩)
    | (w, .throws e) => (w, .throws e)
    | (w, .undefined) => (w, .undefined)

/-- `DeviceBuffer::zeroMemory` (`include/OpenMPCD/CUDA/ImplementationDetails/DeviceBuffer.hpp:63-67`). -/
def DeviceBuffer.zeroMemory (debug : Bool) (size : ℕ) (b : DeviceBuffer) (w : World) : World × Out Unit :=
  Contents.zeroMemory debug size b.pointer b.elementCount w

/-- `DeviceBuffer::copyFromDevice` (`include/OpenMPCD/CUDA/ImplementationDetails/DeviceBuffer.hpp:54-61`). -/
def DeviceBuffer.copyFromDevice (debug : Bool) (size : ℕ) (b : DeviceBuffer) (src : ℕ) (w : World) : World × Out Unit :=
  if debug ∧ src = 0 then (w, .throws .nullPointer)
  else copyElements debug .device .device size src b.pointer b.elementCount w

/-- `getCollisionCellCount` (`include/OpenMPCD/CUDA/Simulation.hpp:129-135`), the box sizes being `unsigned int`. -/
def collisionCellCount (x y z : ℕ) : ℕ := uint (uint (x * y) * z)

/-- The memory requested for the momenta of the collision cells (`src/OpenMPCD/CUDA/Simulation.cu:190`), of which each has
three components. -/
def momentaBytes (size x y z : ℕ) : ℕ := requestedBytes size (uint (3 * collisionCellCount x y z))

/-! ## Specification -/

/-- `n` bytes of one memory equal those of another. -/
def Same (m : ℕ → UInt8) (p : ℕ) (m' : ℕ → UInt8) (q n : ℕ) : Prop := ∀ i < n, m (p + i) = m' (q + i)

/-- The runtime returns memory that is not in use. -/
def Fresh (w : World) (p n : ℕ) : Prop := p ≠ 0 ∧ ∀ b ∈ w.deviceBlocks, b.1 + b.2 ≤ p ∨ p + n ≤ b.1

/-! ## Proofs -/

theorem write_in {m : ℕ → UInt8} {p n : ℕ} {v : ℕ → UInt8} {i : ℕ} (h : i < n) : write m p n v (p + i) = v i := by
  unfold write; rw [if_pos (by omega)]; congr 1; omega

theorem write_out {m : ℕ → UInt8} {p n : ℕ} {v : ℕ → UInt8} {a : ℕ} (h : a < p ∨ p + n ≤ a) : write m p n v a = m a := by
  unfold write; rw [if_neg (by omega)]

theorem pointer_ok {w : World} (hw : w.pending = none) {k : Kind} {p n : ℕ} (h0 : p ≠ 0)
    (h : inside (w.blocks k) p n) (hn : 0 < n) (hk : k = .host → ¬ inside w.deviceBlocks p 1) :
    isPointerTo k p w = (w, .ok true) := by
  have hw' : { w with pending := none } = w := by cases w; simp_all
  cases k with
  | device =>
    have : inside w.deviceBlocks p 1 := by
      obtain ⟨b, hb, h1, h2⟩ := h
      exact ⟨b, hb, h1, by omega⟩
    simp only [isPointerTo, isDeviceMemoryPointer, if_pos this, hw, hw']
  | host =>
    simp only [isPointerTo, isHostMemoryPointer, if_neg h0, isDeviceMemoryPointer, if_neg (hk rfl), hw', Bool.not_false]

/-- A valid request to copy elements copies exactly those, and changes nothing else, with or without checks. -/
theorem C124_copy (debug : Bool) {from_ to_ : Kind} {size src dest count : ℕ} {w : World} (hw : w.pending = none)
    (hpos : 0 < size * count) (h64 : size * count < 2 ^ 64) (hs : inside (w.blocks from_) src (size * count))
    (hd : inside (w.blocks to_) dest (size * count)) (hs0 : src ≠ 0) (hd0 : dest ≠ 0)
    (hdis : from_ = to_ → dest + size * count ≤ src ∨ src + size * count ≤ dest)
    (hsh : from_ = .host → ¬ inside w.deviceBlocks src 1) (hdh : to_ = .host → ¬ inside w.deviceBlocks dest 1) :
    ∃ w', copyElements debug from_ to_ size src dest count w = (w', .ok ()) ∧
      Same (w'.bytes to_) dest (w.bytes from_) src (size * count) ∧
      (∀ k a, k ≠ to_ ∨ a < dest ∨ dest + size * count ≤ a → w'.bytes k a = w.bytes k a) ∧
      w'.hostBlocks = w.hostBlocks ∧ w'.deviceBlocks = w.deviceBlocks ∧ w'.pending = none := by
  have hsz : sizeT (size * count) = size * count := Nat.mod_eq_of_lt h64
  have hov : ¬ (¬ inside (w.blocks from_) src (size * count) ∨ ¬ inside (w.blocks to_) dest (size * count) ∨
      (from_ = to_ ∧ src < dest + size * count ∧ dest < src + size * count)) := by
    rintro (h | h | ⟨h1, h2, h3⟩)
    · exact h hs
    · exact h hd
    · have := hdis h1; omega
  have hcopy : (match memcpy from_ to_ src dest (sizeT (size * count)) w with
      | (w, .ok ()) => throwOnError w
      | r => r) = (w.set to_ (write (w.bytes to_) dest (size * count) fun i => w.bytes from_ (src + i)), .ok ()) := by
    rw [hsz, memcpy, if_neg (by omega), if_neg hov]
    cases to_ <;> simp [throwOnError, World.set, hw]
  refine ⟨w.set to_ (write (w.bytes to_) dest (size * count) fun i => w.bytes from_ (src + i)), ?_, ?_, ?_, ?_, ?_, ?_⟩
  · unfold copyElements
    cases debug with
    | false => simp only [Bool.false_eq_true, if_false]; exact hcopy
    | true =>
      simp only [if_true, if_neg hs0, if_neg hd0, require, pointer_ok hw hs0 hs hpos hsh, pointer_ok hw hd0 hd hpos hdh]
      exact hcopy
  · intro i hi
    cases to_ <;> simp only [World.set, World.bytes] <;> exact write_in hi
  · intro k a h
    cases to_ <;> cases k <;> simp only [World.set, World.bytes] at h ⊢ <;>
      first | rfl | exact write_out (by simpa using h)
  all_goals cases to_ <;> simp [World.set, hw]

/-- What is copied to the Device and back arrives unchanged. -/
theorem C124_roundtrip (debug : Bool) {size src dev dest count : ℕ} {w : World} (hw : w.pending = none)
    (hpos : 0 < size * count) (h64 : size * count < 2 ^ 64) (hs : inside w.hostBlocks src (size * count))
    (hv : inside w.deviceBlocks dev (size * count)) (hd : inside w.hostBlocks dest (size * count))
    (hs0 : src ≠ 0) (hv0 : dev ≠ 0) (hd0 : dest ≠ 0) (hsh : ¬ inside w.deviceBlocks src 1)
    (hdh : ¬ inside w.deviceBlocks dest 1) :
    ∃ w' w'', copyElements debug .host .device size src dev count w = (w', .ok ()) ∧
      copyElements debug .device .host size dev dest count w' = (w'', .ok ()) ∧
      Same w''.host dest w.host src (size * count) ∧ Same w''.device dev w.host src (size * count) := by
  obtain ⟨w', e1, s1, o1, hb1, db1, p1⟩ := C124_copy debug (from_ := .host) (to_ := .device) hw hpos h64 hs hv hs0 hv0
    (by simp) (fun _ => hsh) (by simp)
  obtain ⟨w'', e2, s2, o2, -, -, -⟩ := C124_copy debug (from_ := .device) (to_ := .host) (w := w') (src := dev) (dest := dest) p1
    hpos h64 (by simp only [World.blocks, db1]; exact hv) (by simp only [World.blocks, hb1]; exact hd) hv0 hd0
    (by simp) (by simp) (fun _ => by rw [db1]; exact hdh)
  refine ⟨w', w'', e1, e2, fun i hi => ?_, fun i hi => ?_⟩
  · exact (s2 i hi).trans (s1 i hi)
  · exact (o2 .device (dev + i) (.inl (by simp))).trans (s1 i hi)

/-- Zeroing sets the bytes to zero, and changes nothing else. -/
theorem C124_zero (debug : Bool) {size start count : ℕ} {w : World} (hw : w.pending = none) (hpos : 0 < size * count)
    (h64 : size * count < 2 ^ 64) (hs : inside w.deviceBlocks start (size * count)) (h0 : start ≠ 0) :
    ∃ w', zeroMemory debug size start count w = (w', .ok ()) ∧ (∀ i < size * count, w'.device (start + i) = 0) ∧
      (∀ a, a < start ∨ start + size * count ≤ a → w'.device a = w.device a) ∧ w'.host = w.host ∧
      w'.deviceBlocks = w.deviceBlocks ∧ w'.pending = none := by
  have hsz : sizeT (size * count) = size * count := Nat.mod_eq_of_lt h64
  have hp := pointer_ok hw (k := .device) h0 hs hpos (by simp)
  simp only [isPointerTo] at hp
  refine ⟨{ w with device := write w.device start (size * count) fun _ => 0 }, ?_, fun i hi => write_in (m := w.device) (v := fun _ => 0) hi,
    fun a ha => write_out (m := w.device) (v := fun _ => 0) ha, rfl, rfl, hw⟩
  unfold zeroMemory
  simp only [hsz, memset, if_neg hpos.ne', if_neg (not_not.2 hs), throwOnError, hw]
  cases debug with
  | false => simp
  | true =>
    simp only [if_true, if_neg h0, require, hp, if_neg (not_not.2 hs), hw]

/-- Memory is reported as equal exactly if all bytes are. -/
theorem C124_equal {size host device count : ℕ} {w : World} (hw : w.pending = none) (h64 : size * count < 2 ^ 64)
    (hh : inside w.hostBlocks host (size * count)) (hd : inside w.deviceBlocks device (size * count)) :
    ∃ b, elementMemoryEqual size host device count w = (w, .ok b) ∧
      (b = true ↔ Same w.host host w.device device (size * count)) := by
  have hsz : sizeT (size * count) = size * count := Nat.mod_eq_of_lt h64
  unfold elementMemoryEqual
  simp only [hsz, throwOnError, hw]
  rw [if_neg (by rintro ⟨-, h | h⟩; exacts [h hh, h hd])]
  refine ⟨_, rfl, ?_⟩
  rw [List.all_eq_true]
  simp only [List.mem_range, beq_iff_eq, Same]

/-- In debug mode, invalid pointers are refused as documented, before anything is changed. -/
theorem C124_debug {from_ to_ : Kind} {size src dest count : ℕ} {w : World} (hw : w.pending = none) :
    (src = 0 ∨ dest = 0 → copyElements true from_ to_ size src dest count w = (w, .throws .nullPointer)) ∧
      (src ≠ 0 → dest ≠ 0 → (from_ = .device ↔ ¬ inside w.deviceBlocks src 1) →
        copyElements true from_ to_ size src dest count w = (w, .throws .invalidArgument)) ∧
      (src ≠ 0 → dest ≠ 0 → (from_ = .device ↔ inside w.deviceBlocks src 1) →
        (to_ = .device ↔ ¬ inside w.deviceBlocks dest 1) →
        copyElements true from_ to_ size src dest count w = (w, .throws .invalidArgument)) := by
  have hw' : { w with pending := none } = w := by cases w; simp_all
  have ptr : ∀ (k : Kind) (p : ℕ), p ≠ 0 → isPointerTo k p w =
      (w, .ok (match k with | .host => !decide (inside w.deviceBlocks p 1) | .device => decide (inside w.deviceBlocks p 1))) := by
    intro k p hp
    by_cases h : inside w.deviceBlocks p 1 <;> cases k <;>
      simp [isPointerTo, isHostMemoryPointer, isDeviceMemoryPointer, hp, h, hw, hw']
  refine ⟨?_, ?_, ?_⟩
  · rintro (h | h)
    · simp [copyElements, h]
    · by_cases hs : src = 0 <;> simp [copyElements, h, hs]
  · intro h1 h2 h3
    simp only [copyElements, if_true, if_neg h1, if_neg h2, require, ptr from_ src h1]
    cases from_ <;> by_cases h : inside w.deviceBlocks src 1 <;> simp_all
  · intro h1 h2 h3 h4
    simp only [copyElements, if_true, if_neg h1, if_neg h2, require, ptr from_ src h1, ptr to_ dest h2]
    cases from_ <;> cases to_ <;> by_cases h : inside w.deviceBlocks src 1 <;>
      by_cases h' : inside w.deviceBlocks dest 1 <;> simp_all

/-- `NULL` is neither a pointer to Device memory nor to Host memory. -/
theorem C124_null {w : World} (hw : w.pending = none) (h0 : ¬ inside w.deviceBlocks 0 1) :
    (isDeviceMemoryPointer 0 w).2 = .ok false ∧ (isHostMemoryPointer 0 w).2 = .ok false := by
  simp [isDeviceMemoryPointer, isHostMemoryPointer, h0]

/-- After an error of an earlier call, a valid pointer to Device memory is said to point to Host memory. -/
theorem C124_pending_violated {w : World} (hw : w.pending = some .invalidValue) {p : ℕ} (hp : p ≠ 0)
    (h : inside w.deviceBlocks p 1) :
    (isDeviceMemoryPointer p w).2 = .ok false ∧ (isHostMemoryPointer p w).2 = .ok true ∧
      (isDeviceMemoryPointer p w).1.pending = none := by
  simp [isDeviceMemoryPointer, isHostMemoryPointer, h, hp, hw]

/-! ### Sizes -/

/-- Memory requested is large enough for the number of instances given, if it is an `unsigned int`. -/
theorem C124_allocate {size n : ℕ} (hn : n < 2 ^ 32) (h64 : n * size < 2 ^ 64) (hpos : 0 < n * size) {p : ℕ} (w : World) :
    allocateInternal (requestedBytes size n) (some p) w =
      ({ w with deviceBlocks := (p, n * size) :: w.deviceBlocks }, .ok p) := by
  have : requestedBytes size n = n * size := by
    unfold requestedBytes uint sizeT
    rw [Nat.mod_eq_of_lt hn, Nat.mod_eq_of_lt h64]
  rw [this, allocateInternal, if_neg (by omega)]

theorem buffer_bytes {size n : ℕ} (h : size * n < 2 ^ 32) (hs : size < 2 ^ 32) :
    requestedBytes size (sizeT (size * n)) = size * n * size := by
  unfold requestedBytes uint sizeT
  have h1 : size * n < 2 ^ 64 := h.trans (by norm_num)
  have h2 : size * n * size < 2 ^ 64 := by
    calc size * n * size ≤ (2 ^ 32 - 1) * (2 ^ 32 - 1) := Nat.mul_le_mul (by omega) (by omega)
      _ < 2 ^ 64 := by norm_num
  rw [Nat.mod_eq_of_lt h1, Nat.mod_eq_of_lt h, Nat.mod_eq_of_lt h2]

/-- A buffer has room for the number of elements it says, and can be zeroed, if they take less than 4 GiB. Missing: larger
ones. -/
theorem C124_buffer_partial (debug : Bool) {size n : ℕ} (hs : 0 < size) (hn : 0 < n) (h : size * n < 2 ^ 32) {w : World}
    (hw : w.pending = none) {p : ℕ} (hp : p ≠ 0) :
    ∃ w' b, DeviceBuffer.make debug size n (some p) w = (w', .ok b) ∧ b.elementCount = n ∧
      inside w'.deviceBlocks b.pointer (size * n) ∧
      ∃ w'', b.zeroMemory debug size w' = (w'', .ok ()) ∧ ∀ i < size * n, w''.device (b.pointer + i) = 0 := by
  have hs32 : size < 2 ^ 32 := lt_of_le_of_lt (Nat.le_mul_of_pos_right size hn) h
  have hb := buffer_bytes h hs32
  have hpos : 0 < size * n := Nat.mul_pos hs hn
  have hpos2 : 0 < size * n * size := Nat.mul_pos hpos hs
  have hin : inside ((p, size * n * size) :: w.deviceBlocks) p (size * n) :=
    ⟨_, List.mem_cons_self, le_rfl, by simpa using Nat.le_mul_of_pos_right _ hs⟩
  refine ⟨{ w with deviceBlocks := (p, size * n * size) :: w.deviceBlocks }, ⟨p, n⟩, ?_, rfl, hin, ?_⟩
  · rw [DeviceBuffer.make, if_neg (by simp; omega), hb, allocateInternal, if_neg (by omega)]
  · obtain ⟨w', e, z, -⟩ := C124_zero debug (size := size) (start := p) (count := n)
      (w := { w with deviceBlocks := (p, size * n * size) :: w.deviceBlocks }) hw hpos (h.trans (by norm_num)) hin hp
    exact ⟨w', e, z⟩

/-- Filling a buffer from Device memory copies exactly its elements into it, and changes nothing else; in debug mode, NULL is
refused. -/
theorem C124_fill (debug : Bool) {size src : ℕ} {b : DeviceBuffer} {w : World} (hw : w.pending = none)
    (hpos : 0 < size * b.elementCount) (h64 : size * b.elementCount < 2 ^ 64)
    (hs : inside w.deviceBlocks src (size * b.elementCount)) (hd : inside w.deviceBlocks b.pointer (size * b.elementCount))
    (hs0 : src ≠ 0) (hd0 : b.pointer ≠ 0)
    (hdis : b.pointer + size * b.elementCount ≤ src ∨ src + size * b.elementCount ≤ b.pointer) :
    (∃ w', b.copyFromDevice debug size src w = (w', .ok ()) ∧
      Same w'.device b.pointer w.device src (size * b.elementCount) ∧
      (∀ k a, k ≠ .device ∨ a < b.pointer ∨ b.pointer + size * b.elementCount ≤ a → w'.bytes k a = w.bytes k a) ∧
      w'.pending = none) ∧
    b.copyFromDevice true size 0 w = (w, .throws .nullPointer) := by
  constructor
  · obtain ⟨w', h1, h2, h3, -, -, h4⟩ := C124_copy debug (from_ := .device) (to_ := .device) hw hpos h64 hs hd hs0 hd0
      (fun _ => hdis) (fun h => by cases h) (fun h => by cases h)
    refine ⟨w', ?_, h2, h3, h4⟩
    rw [DeviceBuffer.copyFromDevice, if_neg (by simp [hs0])]
    exact h1
  · rw [DeviceBuffer.copyFromDevice, if_pos (by simp)]

/-- Buffers of `2^29` to `613566756` numbers of eight bytes are too small: zeroing one is undefined, unless the runtime
happens to have room elsewhere. -/
theorem C124_buffer_violated (debug : Bool) {n : ℕ} (h1 : 2 ^ 29 < n) (h2 : n ≤ 613566756) {w : World}
    (hw : w.pending = none) {p : ℕ} (hf : Fresh w p (8 * (8 * n - 2 ^ 32))) :
    ∃ w' b, DeviceBuffer.make debug 8 n (some p) w = (w', .ok b) ∧ b.elementCount = n ∧
      ¬ inside w'.deviceBlocks b.pointer (8 * n) ∧ ∃ w'', b.zeroMemory debug 8 w' = (w'', .undefined) := by
  have hreq : requestedBytes 8 (sizeT (8 * n)) = 8 * (8 * n - 2 ^ 32) := by
    unfold requestedBytes uint sizeT
    have : 8 * n % 2 ^ 64 = 8 * n := Nat.mod_eq_of_lt (by omega)
    rw [this]
    omega
  have hpos : 8 * (8 * n - 2 ^ 32) ≠ 0 := by omega
  obtain ⟨hp, hf⟩ := hf
  have hnot : ¬ inside ((p, 8 * (8 * n - 2 ^ 32)) :: w.deviceBlocks) p (8 * n) := by
    rintro ⟨b, hb, h3, h4⟩
    rcases List.mem_cons.1 hb with rfl | hb
    · simp only at h4; omega
    · rcases hf b hb with h | h <;> omega
  refine ⟨{ w with deviceBlocks := (p, 8 * (8 * n - 2 ^ 32)) :: w.deviceBlocks }, ⟨p, n⟩, ?_, rfl, hnot, ?_⟩
  · rw [DeviceBuffer.make, if_neg (by simp; omega), hreq, allocateInternal, if_neg hpos]
  · have hsz : sizeT (8 * n) = 8 * n := Nat.mod_eq_of_lt (by omega)
    have hin : inside ((p, 8 * (8 * n - 2 ^ 32)) :: w.deviceBlocks) p 1 :=
      ⟨_, List.mem_cons_self, le_rfl, by simp only; omega⟩
    have hn0 : 8 * n ≠ 0 := by omega
    unfold DeviceBuffer.zeroMemory Contents.zeroMemory
    simp only [hsz, memset, if_neg hn0]
    cases debug with
    | false => simp only [Bool.false_eq_true, if_false, if_pos hnot]; exact ⟨_, rfl⟩
    | true =>
      simp only [if_true, if_neg hp, require, isDeviceMemoryPointer, if_pos hin, hw, if_pos hnot]
      exact ⟨_, rfl⟩

/-- The momenta of the collision cells fit the memory requested if there are less than `2^32 / 3` cells. Missing: more cells. -/
theorem C124_momenta_partial {x y z : ℕ} (h : 3 * (x * y * z) < 2 ^ 32) : momentaBytes 8 x y z = 8 * (3 * (x * y * z)) := by
  unfold momentaBytes requestedBytes collisionCellCount uint sizeT
  by_cases hz : z = 0
  · subst hz; simp
  have hxy : x * y ≤ x * y * z := Nat.le_mul_of_pos_right _ (by omega)
  rw [Nat.mod_eq_of_lt (a := x * y) (by omega), Nat.mod_eq_of_lt (a := x * y * z) (by omega), Nat.mod_mod,
    Nat.mod_eq_of_lt (a := 3 * (x * y * z)) h, Nat.mod_eq_of_lt (by omega)]
  omega

/-- Otherwise they do not, for all boxes up to the size at which the number of cells itself is not representable. -/
theorem C124_momenta_violated {x y z : ℕ} (h : 2 ^ 32 ≤ 3 * (x * y * z)) (h' : x * y * z < 2 ^ 32) :
    momentaBytes 8 x y z < 8 * (3 * (x * y * z)) := by
  unfold momentaBytes requestedBytes collisionCellCount uint sizeT
  have hz : z ≠ 0 := by rintro rfl; simp at h
  have hxy : x * y ≤ x * y * z := Nat.le_mul_of_pos_right _ (by omega)
  rw [Nat.mod_eq_of_lt (a := x * y) (by omega), Nat.mod_eq_of_lt (a := x * y * z) h']
  have h1 : 3 * (x * y * z) % 2 ^ 32 < 2 ^ 32 := Nat.mod_lt _ (by norm_num)
  have h2 := Nat.mod_le (3 * (x * y * z) % 2 ^ 32 % 2 ^ 32 * 8) (2 ^ 64)
  have h3 := Nat.mod_le (3 * (x * y * z) % 2 ^ 32) (2 ^ 32)
  omega

/-! ### Histories -/

/-- A request to change memory. -/
inductive Op where
  | copy (from_ to_ : Kind) (size src dest count : ℕ)
  | zero (size start count : ℕ)

def Op.exec (debug : Bool) : Op → World → World × Out Unit
  | .copy f t s p q n => copyElements debug f t s p q n
  | .zero s p n => zeroMemory debug s p n

/-- The bytes a request is about. -/
def Op.touches (k : Kind) (a : ℕ) : Op → Prop
  | .copy _ t s _ q n => k = t ∧ q ≤ a ∧ a < q + s * n
  | .zero s p n => k = .device ∧ p ≤ a ∧ a < p + s * n

theorem sizeT_le (n : ℕ) : sizeT n ≤ n := Nat.mod_le _ _

theorem pointer_bytes (k : Kind) (p : ℕ) (w : World) (k' : Kind) : (isPointerTo k p w).1.bytes k' = w.bytes k' := by
  cases k <;> cases k' <;> simp only [isPointerTo, isHostMemoryPointer, isDeviceMemoryPointer] <;> repeat' split
  all_goals first | rfl | (simp_all [World.bytes]; done) | skip
  all_goals (rename_i h; revert h; split <;> intro h <;> cases h <;> rfl)

theorem require_bytes {check : World → World × Out Bool} {next : World → World × Out Unit} {k : Kind} {a : ℕ} (w : World)
    (h1 : ∀ w, (check w).1.bytes k a = w.bytes k a) (h2 : ∀ w, (next w).1.bytes k a = w.bytes k a) :
    (require check next w).1.bytes k a = w.bytes k a := by
  have := h1 w
  unfold require
  rcases hc : check w with ⟨w', o⟩
  rw [hc] at this
  rcases o with b | e | _
  · cases b
    · exact this
    · exact (h2 w').trans this
  · exact this
  · exact this

theorem throw_bytes (w : World) (k : Kind) : (throwOnError w).1.bytes k = w.bytes k := by
  unfold throwOnError; split <;> cases k <;> rfl

theorem exec_frame (debug : Bool) (op : Op) (w : World) (k : Kind) (a : ℕ) (h : ¬ op.touches k a) :
    (op.exec debug w).1.bytes k a = w.bytes k a := by
  cases op with
  | copy f t s p q n =>
    have hcopy : ∀ w : World, (match memcpy f t p q (sizeT (s * n)) w with
      | (w, .ok ()) => throwOnError w
      | r => r).1.bytes k a = w.bytes k a := by
      intro w
      have hm : (memcpy f t p q (sizeT (s * n)) w).1.bytes k a = w.bytes k a := by
        unfold memcpy
        split
        · rfl
        split
        · rfl
        · have := sizeT_le (s * n)
          simp only [Op.touches] at h
          cases t <;> cases k <;> simp only [World.set, World.bytes] <;> first | rfl | exact write_out (by
            simp only [true_and] at h; omega)
      rcases hr : memcpy f t p q (sizeT (s * n)) w with ⟨w', o⟩
      rw [hr] at hm
      rcases o with _ | e | _
      · exact (congrFun (throw_bytes w' k) a).trans hm
      · exact hm
      · exact hm
    simp only [Op.exec, copyElements]
    cases debug
    · exact hcopy w
    · simp only [if_true]
      split
      · rfl
      split
      · rfl
      · exact require_bytes w (fun w => congrFun (pointer_bytes f p w k) a)
          fun w => require_bytes w (fun w => congrFun (pointer_bytes t q w k) a) hcopy
  | zero s p n =>
    have hzero : ∀ w : World, (match memset p (sizeT (s * n)) w with
      | (w, .ok ()) => throwOnError w
      | r => r).1.bytes k a = w.bytes k a := by
      intro w
      have hm : (memset p (sizeT (s * n)) w).1.bytes k a = w.bytes k a := by
        unfold memset
        split
        · rfl
        split
        · rfl
        · have := sizeT_le (s * n)
          simp only [Op.touches] at h
          cases k
          · rfl
          · simp only [World.bytes]
            exact write_out (by simp only [true_and] at h; omega)
      rcases hr : memset p (sizeT (s * n)) w with ⟨w', o⟩
      rw [hr] at hm
      rcases o with _ | e | _
      · exact (congrFun (throw_bytes w' k) a).trans hm
      · exact hm
      · exact hm
    simp only [Op.exec, zeroMemory]
    cases debug
    · exact hzero w
    · simp only [if_true]
      split
      · rfl
      · exact require_bytes w (fun w => congrFun (pointer_bytes .device p w k) a) hzero

/-- Whatever is copied or zeroed, successfully or not, memory that no request is about keeps its contents. -/
theorem C124_others (debug : Bool) (ops : List Op) (w : World) (k : Kind) (a : ℕ) (h : ∀ op ∈ ops, ¬ op.touches k a) :
    (ops.foldl (fun w op => (op.exec debug w).1) w).bytes k a = w.bytes k a := by
  induction ops generalizing w with
  | nil => rfl
  | cons op ops ih =>
    rw [List.foldl_cons, ih _ fun o ho => h o (List.mem_cons_of_mem _ ho)]
    exact exec_frame debug op w k a (h op List.mem_cons_self)

/-- Two numbers of eight bytes, copied to the Device and back to another place. -/
example (debug : Bool) (m m' : ℕ → UInt8) : ∃ w' w'',
    copyElements debug .host .device 8 16 1000 2 ⟨m, m', [(16, 16), (64, 16)], [(1000, 32)], none⟩ = (w', .ok ()) ∧
      copyElements debug .device .host 8 1000 64 2 w' = (w'', .ok ()) ∧ Same w''.host 64 m 16 16 ∧
      Same w''.device 1000 m 16 16 :=
  C124_roundtrip debug (size := 8) (src := 16) (dev := 1000) (dest := 64) (count := 2) rfl (by norm_num) (by norm_num)
    (by dsimp only; decide) (by dsimp only; decide) (by dsimp only; decide) (by decide) (by decide) (by decide)
    (by dsimp only; decide) (by dsimp only; decide)

example : (2 : ℕ) ^ 29 < 600000000 ∧ 600000000 ≤ 613566756 := by norm_num

end OpenMPCD.Memory.Contents
