import Verif.Vec.Basic
import Mathlib.Data.Rat.Floor
import Mathlib.Algebra.BigOperators.Group.List.Basic

/-!
# C116: vectors whose components are stored elsewhere (`include/OpenMPCD/RemotelyStoredVector.hpp`)
-/

set_option linter.unusedSectionVars false
set_option linter.unusedSimpArgs false
set_option linter.unusedVariables false

namespace OpenMPCD.Remote

/-! ## Model -/

/-- The memory: what is stored at each address, addresses counting elements. -/
abbrev Mem (T : Type) := ℕ → T

variable {T : Type}

/-- Writing to one address. -/
def write (m : Mem T) (a : ℕ) (t : T) : Mem T := fun b => if b = a then t else m b

/-- The constructor (`include/OpenMPCD/RemotelyStoredVector.hpp:37-40`): the member `storage` of the vector with the
given number. The copy constructor (`include/OpenMPCD/RemotelyStoredVector.hpp:47-50`) yields the same address. -/
def construct (D storageBase vectorID : ℕ) : ℕ := storageBase + D * vectorID

/-- `get` (`include/OpenMPCD/RemotelyStoredVector.hpp:59-66`); `none`: the exception thrown on the host in debug
mode. -/
def get (debug : Bool) (D : ℕ) (m : Mem T) (storage i : ℕ) : Option T :=
  if debug ∧ D ≤ i then none else some (m (storage + i))

/-- `operator=` from a vector stored elsewhere (`include/OpenMPCD/RemotelyStoredVector.hpp:222-228`): one component
after the other, the first `n` of them. -/
def assign (m : Mem T) (storage rhs : ℕ) : ℕ → Mem T
  | 0 => m
  | n + 1 => write (assign m storage rhs n) (storage + n) (assign m storage rhs n (rhs + n))

/-- `isFinite` (`include/OpenMPCD/RemotelyStoredVector.hpp:200-213`), `finite` being `isfinite`: the components from
`i` on, `n` of them. -/
def isFinite (finite : T → Bool) (m : Mem T) (storage : ℕ) : ℕ → ℕ → Bool
  | _, 0 => true
  | i, n + 1 => if finite (m (storage + i)) then isFinite finite m storage (i + 1) n else false

section
variable [Field T]

/-- `dot` (`include/OpenMPCD/RemotelyStoredVector.hpp:170-176`), the sum of the first `n` terms. -/
def dot (m : Mem T) (storage rhs : ℕ) : ℕ → T
  | 0 => 0
  | n + 1 => dot m storage rhs n + m (storage + n) * m (rhs + n)

/-- `getMagnitudeSquared` (`include/OpenMPCD/RemotelyStoredVector.hpp:182-185`). -/
def getMagnitudeSquared (D : ℕ) (m : Mem T) (storage : ℕ) : T := dot m storage storage D

/-- The conversion to a `Vector3D` (`include/OpenMPCD/RemotelyStoredVector.hpp:395-400`) with `getX`, `getY`, `getZ`
(`include/OpenMPCD/RemotelyStoredVector.hpp:72-75,101-106,124-129`); `viaFP` is the conversion to `FP`, the return type
of `getZ`, and back to `T`. -/
def load (viaFP : T → T) (m : Mem T) (storage : ℕ) : Vec3 T := ⟨m storage, m (storage + 1), viaFP (m (storage + 2))⟩

/-- `operator+` (`include/OpenMPCD/RemotelyStoredVector.hpp:268-294`), for a second operand with these components. -/
def plus (viaFP : T → T) (m : Mem T) (storage : ℕ) (rhs : Vec3 T) : Vec3 T :=
  ⟨m storage + rhs.x, m (storage + 1) + rhs.y, viaFP (m (storage + 2)) + rhs.z⟩

/-- `operator-` (`include/OpenMPCD/RemotelyStoredVector.hpp:300-326`), for a second operand with these components. -/
def minus (viaFP : T → T) (m : Mem T) (storage : ℕ) (rhs : Vec3 T) : Vec3 T :=
  ⟨m storage - rhs.x, m (storage + 1) - rhs.y, viaFP (m (storage + 2)) - rhs.z⟩

/-- `operator*` and `operator/` (`include/OpenMPCD/RemotelyStoredVector.hpp:349-373`). -/
def times (viaFP : T → T) (m : Mem T) (storage : ℕ) (rhs : T) : Vec3 T :=
  ⟨m storage * rhs, m (storage + 1) * rhs, viaFP (m (storage + 2)) * rhs⟩

/-- `operator/` (`include/OpenMPCD/RemotelyStoredVector.hpp:364-373`). -/
def over (viaFP : T → T) (m : Mem T) (storage : ℕ) (rhs : T) : Vec3 T :=
  ⟨m storage / rhs, m (storage + 1) / rhs, viaFP (m (storage + 2)) / rhs⟩

/-- `operator==` (`include/OpenMPCD/RemotelyStoredVector.hpp:408-421`); `operator!=`
(`include/OpenMPCD/RemotelyStoredVector.hpp:429-436`) is its negation. -/
def equals [DecidableEq T] (m : Mem T) (storage : ℕ) (rhs : Vec3 T) : Bool :=
  if m storage ≠ rhs.x then false
  else if m (storage + 1) ≠ rhs.y then false
  else if m (storage + 2) ≠ rhs.z then false
  else true

/-- `operator=` from a `Vector3D` (`include/OpenMPCD/RemotelyStoredVector.hpp:236-245`). -/
def store (m : Mem T) (storage : ℕ) (v : Vec3 T) : Mem T :=
  write (write (write m storage v.x) (storage + 1) v.y) (storage + 2) v.z

/-- `operator+=` (`include/OpenMPCD/RemotelyStoredVector.hpp:253-262`). -/
def addAssign (m : Mem T) (storage : ℕ) (v : Vec3 T) : Mem T :=
  let m := write m storage (m storage + v.x)
  let m := write m (storage + 1) (m (storage + 1) + v.y)
  write m (storage + 2) (m (storage + 2) + v.z)

/-- `operator*=` (`include/OpenMPCD/RemotelyStoredVector.hpp:334-343`). -/
def mulAssign (m : Mem T) (storage : ℕ) (s : T) : Mem T :=
  let m := write m storage (m storage * s)
  let m := write m (storage + 1) (m (storage + 1) * s)
  write m (storage + 2) (m (storage + 2) * s)

/-- `operator/=` (`include/OpenMPCD/RemotelyStoredVector.hpp:380-389`). There is no check for zero. -/
def divAssign (m : Mem T) (storage : ℕ) (s : T) : Mem T :=
  let m := write m storage (m storage / s)
  let m := write m (storage + 1) (m (storage + 1) / s)
  write m (storage + 2) (m (storage + 2) / s)

/-- What is done to vectors, given by their numbers: `assign` stands for `operator=` from another stored vector,
`store`, `add`, `mul`, `div` for the operators with these names, and the others for `setX`, `addToX`, `setY`, `setZ`
(`include/OpenMPCD/RemotelyStoredVector.hpp:82-95,113-118,136-141`). -/
inductive Op (T : Type)
  | assign (i j : ℕ)
  | store (i : ℕ) (v : Vec3 T)
  | add (i : ℕ) (v : Vec3 T)
  | mul (i : ℕ) (s : T)
  | div (i : ℕ) (s : T)
  | setX (i : ℕ) (t : T)
  | addToX (i : ℕ) (t : T)
  | setY (i : ℕ) (t : T)
  | setZ (i : ℕ) (t : T)

/-- One operation on an array of vectors that begins at `base`. -/
def step (viaFP : T → T) (base : ℕ) (m : Mem T) : Op T → Mem T
  | .assign i j => assign m (construct 3 base i) (construct 3 base j) 3
  | .store i v => store m (construct 3 base i) v
  | .add i v => addAssign m (construct 3 base i) v
  | .mul i s => mulAssign m (construct 3 base i) s
  | .div i s => divAssign m (construct 3 base i) s
  | .setX i t => write m (construct 3 base i) t
  | .addToX i t => write m (construct 3 base i) (m (construct 3 base i) + t)
  | .setY i t => write m (construct 3 base i + 1) (viaFP t)
  | .setZ i t => write m (construct 3 base i + 2) (viaFP t)

/-- The steps of `atomicAdd` (`cudaDeviceCode/OpenMPCD/RemotelyStoredVector.cu:8-33`): each adds a value to the content
of an address, atomically (see C15). The vector to add is not at an address other threads write to. -/
def atomicAdd (D storage : ℕ) (v : ℕ → T) : List (ℕ × T) := (List.range D).map fun i => (storage + i, v i)

/-- Atomic additions, one after the other. -/
def atomics (m : Mem T) (steps : List (ℕ × T)) : Mem T := steps.foldl (fun m s => write m s.1 (m s.1 + s.2)) m

end

/-! ## Specification -/

section
variable [Field T]

/-- An array of vectors as such: each number has its own vector. -/
abbrev Vectors (T : Type) := ℕ → Vec3 T

/-- Replacing one vector. -/
def replace (a : Vectors T) (i : ℕ) (v : Vec3 T) : Vectors T := fun k => if k = i then v else a k

/-- What the operations should do. -/
def Op.effect (a : Vectors T) : Op T → Vectors T
  | .assign i j => replace a i (a j)
  | .store i v => replace a i v
  | .add i v => replace a i (a i + v)
  | .mul i s => replace a i (s • a i)
  | .div i s => replace a i ⟨(a i).x / s, (a i).y / s, (a i).z / s⟩
  | .setX i t => replace a i ⟨t, (a i).y, (a i).z⟩
  | .addToX i t => replace a i ⟨(a i).x + t, (a i).y, (a i).z⟩
  | .setY i t => replace a i ⟨(a i).x, t, (a i).z⟩
  | .setZ i t => replace a i ⟨(a i).x, (a i).y, t⟩

/-- The vectors in the memory from an address on. -/
def vectors (base : ℕ) (m : Mem T) : Vectors T := fun i => ⟨m (base + 3 * i), m (base + 3 * i + 1), m (base + 3 * i + 2)⟩

end

/-! ## Proofs -/

theorem write_same (m : Mem T) (a : ℕ) (t : T) : write m a t a = t := if_pos rfl

theorem write_other (m : Mem T) {a b : ℕ} (t : T) (h : b ≠ a) : write m a t b = m b := if_neg h

section
variable [Field T]

theorem store_three (base : ℕ) (m : Mem T) (i : ℕ) (x y z : T) :
    vectors base (write (write (write m (base + 3 * i) x) (base + 3 * i + 1) y) (base + 3 * i + 2) z) =
      replace (vectors base m) i ⟨x, y, z⟩ := by
  funext k
  by_cases h : k = i
  · subst h
    simp [vectors, replace, write]
  · have h0 : base + 3 * k ≠ base + 3 * i := by omega
    have h1 : base + 3 * k ≠ base + 3 * i + 1 := by omega
    have h2 : base + 3 * k ≠ base + 3 * i + 2 := by omega
    have h3 : base + 3 * k + 1 ≠ base + 3 * i := by omega
    have h4 : base + 3 * k + 1 ≠ base + 3 * i + 2 := by omega
    have h5 : base + 3 * k + 2 ≠ base + 3 * i := by omega
    have h6 : base + 3 * k + 2 ≠ base + 3 * i + 1 := by omega
    simp [vectors, replace, write, h, h0, h1, h2, h3, h4, h5, h6]

theorem step_effect (viaFP : T → T) (hf : ∀ t, viaFP t = t) (base : ℕ) (m : Mem T) (op : Op T) :
    vectors base (step viaFP base m op) = op.effect (vectors base m) := by
  have hset : ∀ (i c : ℕ) (t : T), c < 3 → vectors base (write m (base + 3 * i + c) t) =
      replace (vectors base m) i
        ⟨if c = 0 then t else m (base + 3 * i), if c = 1 then t else m (base + 3 * i + 1),
          if c = 2 then t else m (base + 3 * i + 2)⟩ := by
    intro i c t hc
    funext k
    simp only [vectors, replace, write]
    by_cases h : k = i
    · subst h
      rw [if_pos rfl]
      ext
      · simp only; congr 1; exact propext ⟨fun h => by omega, fun h => by omega⟩
      · simp only; congr 1; exact propext ⟨fun h => by omega, fun h => by omega⟩
      · simp only; congr 1; exact propext ⟨fun h => by omega, fun h => by omega⟩
    · rw [if_neg h, if_neg (by omega), if_neg (by omega), if_neg (by omega)]
  cases op with
  | assign i j =>
    simp only [step, construct, assign, Nat.add_zero]
    rw [show base + 3 * i + 1 = base + 3 * i + 1 from rfl, store_three, Op.effect]
    congr 1
    by_cases h : j = i
    · subst h
      simp [vectors, write]
    · have h1 : base + 3 * j + 1 ≠ base + 3 * i := by omega
      have h2 : base + 3 * j + 2 ≠ base + 3 * i + 1 := by omega
      have h3 : base + 3 * j + 2 ≠ base + 3 * i := by omega
      simp [vectors, write, h1, h2, h3]
  | store i v => exact store_three base m i v.x v.y v.z
  | add i v =>
    simp only [step, construct, addAssign]
    rw [store_three, Op.effect]
    congr 1
    ext <;> simp [vectors, write]
  | mul i s =>
    simp only [step, construct, mulAssign]
    rw [store_three, Op.effect]
    congr 1
    ext <;> simp [vectors, write]
  | div i s =>
    simp only [step, construct, divAssign]
    rw [store_three, Op.effect]
    congr 1
    ext <;> simp [vectors, write]
  | setX i t => simpa [step, construct, Op.effect, hf, vectors] using hset i 0 t (by omega)
  | addToX i t => simpa [step, construct, Op.effect, hf, vectors] using hset i 0 (m (base + 3 * i) + t) (by omega)
  | setY i t => simpa [step, construct, Op.effect, hf, vectors] using hset i 1 t (by omega)
  | setZ i t => simpa [step, construct, Op.effect, hf, vectors] using hset i 2 t (by omega)

/-- The numbers of the vectors an operation is applied to. -/
def Op.target : Op T → ℕ
  | .assign i _ | .store i _ | .add i _ | .mul i _ | .div i _ | .setX i _ | .addToX i _ | .setY i _ | .setZ i _ => i

theorem step_elsewhere (viaFP : T → T) (base : ℕ) (m : Mem T) (op : Op T) (a : ℕ)
    (ha : a < base + 3 * op.target ∨ base + 3 * op.target + 3 ≤ a) : step viaFP base m op a = m a := by
  have h3 : ∀ (m : Mem T) (i : ℕ) (x y z : T), (a < base + 3 * i ∨ base + 3 * i + 3 ≤ a) →
      write (write (write m (base + 3 * i) x) (base + 3 * i + 1) y) (base + 3 * i + 2) z a = m a := by
    intro m i x y z h
    rw [write_other _ _ (by omega), write_other _ _ (by omega), write_other _ _ (by omega)]
  cases op with
  | assign i j => exact h3 _ _ _ _ _ ha
  | store i v => exact h3 _ _ _ _ _ ha
  | add i v => exact h3 _ _ _ _ _ ha
  | mul i s => exact h3 _ _ _ _ _ ha
  | div i s => exact h3 _ _ _ _ _ ha
  | setX i t => exact write_other _ _ (by simp only [Op.target, construct] at *; omega)
  | addToX i t => exact write_other _ _ (by simp only [Op.target, construct] at *; omega)
  | setY i t => exact write_other _ _ (by simp only [Op.target, construct] at *; omega)
  | setZ i t => exact write_other _ _ (by simp only [Op.target, construct] at *; omega)

/-- C116: an array of stored vectors behaves as an array of vectors each of which has its own components: after any
history of operations, with values that `FP` represents, the vectors are what the operations yield one after the other.
In particular, operations on one vector do not affect others, and assigning a vector to itself changes nothing. -/
theorem C116_array (viaFP : T → T) (hf : ∀ t, viaFP t = t) (base : ℕ) (ops : List (Op T)) (m : Mem T) :
    vectors base (ops.foldl (step viaFP base) m) = ops.foldl Op.effect (vectors base m) := by
  induction ops generalizing m with
  | nil => rfl
  | cons op ops ih => rw [List.foldl_cons, List.foldl_cons, ih, step_effect viaFP hf]

/-- C116: nothing but the components of the vectors operated on is written to; this does not depend on `FP`. -/
theorem C116_frame (viaFP : T → T) (base : ℕ) (ops : List (Op T)) (m : Mem T) (a : ℕ)
    (ha : ∀ op ∈ ops, a < base + 3 * op.target ∨ base + 3 * op.target + 3 ≤ a) :
    ops.foldl (step viaFP base) m a = m a := by
  induction ops generalizing m with
  | nil => rfl
  | cons op ops ih =>
    rw [List.foldl_cons, ih _ fun o ho => ha o (by simp [ho]), step_elsewhere viaFP base m op a (ha op (by simp))]

/-- C116: what is computed from stored vectors is computed from their components: conversion, sum, difference,
multiples, comparison. -/
theorem C116_values [DecidableEq T] (viaFP : T → T) (hf : ∀ t, viaFP t = t) (base : ℕ) (m : Mem T) (i : ℕ) (v : Vec3 T)
    (s : T) :
    load viaFP m (construct 3 base i) = vectors base m i ∧
      plus viaFP m (construct 3 base i) v = vectors base m i + v ∧
      minus viaFP m (construct 3 base i) v = vectors base m i - v ∧
      times viaFP m (construct 3 base i) s = s • vectors base m i ∧
      over viaFP m (construct 3 base i) s = s⁻¹ • vectors base m i ∧
      (equals m (construct 3 base i) v = true ↔ vectors base m i = v) := by
  refine ⟨?_, ?_, ?_, ?_, ?_, ?_⟩
  · simp [load, construct, vectors, hf]
  · ext <;> simp [plus, construct, vectors, hf]
  · ext <;> simp [minus, construct, vectors, hf]
  · ext <;> simp [times, construct, vectors, hf]
  · ext <;> simp [over, construct, vectors, hf, div_eq_mul_inv]
  · unfold equals construct
    rw [Vec3.ext_iff]
    simp only [vectors]
    split_ifs with h1 h2 h3 <;> simp_all

/-- C116: the scalar product, in any dimension, is the sum of the products of components; in three dimensions, that of
`Vector3D`. -/
theorem C116_dot (D base : ℕ) (m : Mem T) (i j : ℕ) :
    dot m (construct D base i) (construct D base j) D =
        ((List.range D).map fun c => m (base + D * i + c) * m (base + D * j + c)).sum ∧
      dot m (construct 3 base i) (construct 3 base j) 3 = (vectors base m i).dot (vectors base m j) := by
  constructor
  · have h : ∀ n, dot m (construct D base i) (construct D base j) n =
        ((List.range n).map fun c => m (base + D * i + c) * m (base + D * j + c)).sum := by
      intro n
      induction n with
      | zero => rfl
      | succ n ih => rw [dot, ih, List.range_succ, List.map_append, List.sum_append]; simp [construct]
    exact h D
  · simp [dot, construct, vectors, Vec3.dot]

/-- C116: the square of the magnitude is not negative, and zero only for the zero vector. -/
theorem C116_magnitude [LinearOrder T] [IsStrictOrderedRing T] (base : ℕ) (m : Mem T) (i : ℕ) :
    0 ≤ getMagnitudeSquared 3 m (construct 3 base i) ∧
      (getMagnitudeSquared 3 m (construct 3 base i) = 0 ↔ vectors base m i = 0) := by
  have h : getMagnitudeSquared 3 m (construct 3 base i) =
      m (base + 3 * i) ^ 2 + m (base + 3 * i + 1) ^ 2 + m (base + 3 * i + 2) ^ 2 := by
    simp only [getMagnitudeSquared, dot, construct, Nat.add_zero]
    ring
  rw [h]
  refine ⟨by positivity, ⟨fun h0 => ?_, fun h0 => ?_⟩⟩
  · have a := sq_nonneg (m (base + 3 * i))
    have b := sq_nonneg (m (base + 3 * i + 1))
    have c := sq_nonneg (m (base + 3 * i + 2))
    ext
    · show m (base + 3 * i) = 0
      exact pow_eq_zero_iff two_ne_zero |>.1 (by linarith)
    · show m (base + 3 * i + 1) = 0
      exact pow_eq_zero_iff two_ne_zero |>.1 (by linarith)
    · show m (base + 3 * i + 2) = 0
      exact pow_eq_zero_iff two_ne_zero |>.1 (by linarith)
  · have := Vec3.ext_iff.1 h0
    simp only [vectors, Vec3.zero_x, Vec3.zero_y, Vec3.zero_z] at this
    simp [this.1, this.2.1, this.2.2]

end

/-- C116: a stored vector is finite if and only if each of its components is, in any dimension. -/
theorem C116_finite (finite : T → Bool) (m : Mem T) (storage D : ℕ) :
    isFinite finite m storage 0 D = true ↔ ∀ c < D, finite (m (storage + c)) = true := by
  have h : ∀ n i, isFinite finite m storage i n = true ↔ ∀ c, i ≤ c → c < i + n → finite (m (storage + c)) = true := by
    intro n
    induction n with
    | zero => intro i; simp only [isFinite, true_iff]; intro c h1 h2; omega
    | succ n ih =>
      intro i
      rw [isFinite]
      split
      · rename_i hf
        rw [ih]
        refine ⟨fun h c h1 h2 => ?_, fun h c h1 h2 => h c (by omega) (by omega)⟩
        rcases Nat.eq_or_lt_of_le h1 with rfl | h3
        · exact hf
        · exact h c h3 (by omega)
      · rename_i hf
        simp only [Bool.false_eq_true, false_iff]
        exact fun h => hf (h i le_rfl (by omega))
  rw [h D 0]
  exact ⟨fun h c hc => h c (by omega) (by omega), fun h c _ hc => h c (by omega)⟩

/-- C116: components are returned; an index that is too large is refused in debug mode, and otherwise reaches into the
next vector. -/
theorem C116_get (D base : ℕ) (m : Mem T) (i c : ℕ) :
    (c < D → ∀ debug, get debug D m (construct D base i) c = some (m (base + D * i + c))) ∧
      (D ≤ c → get true D m (construct D base i) c = none) ∧
      (0 < D → get false D m (construct D base i) D = get true D m (construct D base (i + 1)) 0) := by
  refine ⟨fun h debug => ?_, fun h => by simp [get, h], fun h => ?_⟩
  · rw [get, if_neg (by omega)]; rfl
  · simp only [get, Bool.false_eq_true, false_and, if_false, construct]
    rw [if_neg (by simp; omega)]
    congr 2
    ring

section
variable [Field T]

/-- C116: any number of threads, each adding vectors atomically to stored vectors: whatever the order in which the
components are added, all components of all vectors are added, and nothing else is written to. -/
theorem C116_atomic (D : ℕ) (base : ℕ) (adds : List (ℕ × (ℕ → T))) (steps : List (ℕ × T))
    (hs : steps.Perm (adds.flatMap fun a => atomicAdd D (construct D base a.1) a.2)) (m : Mem T) :
    (∀ i, ∀ c < D, atomics m steps (base + D * i + c) =
      m (base + D * i + c) + ((adds.filter fun a => a.1 = i).map fun a => a.2 c).sum) ∧
      ∀ b < base, atomics m steps b = m b := by
  have hat : ∀ (steps : List (ℕ × T)) (m : Mem T) (b : ℕ), atomics m steps b =
      m b + ((steps.filter fun s => s.1 = b).map Prod.snd).sum := by
    intro steps
    induction steps with
    | nil => intro m b; simp [atomics]
    | cons s steps ih =>
      intro m b
      have : atomics m (s :: steps) = atomics (write m s.1 (m s.1 + s.2)) steps := rfl
      rw [this, ih]
      by_cases h : s.1 = b
      · subst h
        simp [write, add_assoc]
      · simp [write, h, Ne.symm h]
  have hp : ∀ b, atomics m steps b = m b + (((adds.flatMap fun a =>
      atomicAdd D (construct D base a.1) a.2).filter fun s => s.1 = b).map Prod.snd).sum := by
    intro b
    rw [hat, ((hs.filter _).map Prod.snd).sum_eq]
  constructor
  · intro i c hc
    rw [hp]
    congr 1
    clear hs hp
    induction adds with
    | nil => rfl
    | cons a adds ih =>
      rw [List.flatMap_cons, List.filter_append, List.map_append, List.sum_append, ih, List.filter_cons]
      have hone : (((atomicAdd D (construct D base a.1) a.2).filter fun s => s.1 = base + D * i + c).map Prod.snd).sum =
          if a.1 = i then a.2 c else 0 := by
        have hidx : ∀ x < D, (construct D base a.1 + x = base + D * i + c ↔ a.1 = i ∧ x = c) := by
          intro x hx
          rw [construct]
          constructor
          · intro h
            have h1 : (D * a.1 + x) = (D * i + c) := by omega
            have h2 : (D * a.1 + x) / D = (D * i + c) / D := by rw [h1]
            rw [Nat.mul_add_div (by omega), Nat.mul_add_div (by omega), Nat.div_eq_of_lt hx, Nat.div_eq_of_lt hc] at h2
            have h3 : a.1 = i := by omega
            subst h3
            exact ⟨rfl, by omega⟩
          · rintro ⟨rfl, rfl⟩; rfl
        rw [atomicAdd, List.filter_map, List.map_map]
        have hfil : (List.range D).filter ((fun s : ℕ × T => decide (s.1 = base + D * i + c)) ∘
            fun x => (construct D base a.1 + x, a.2 x)) = (List.range D).filter fun x => decide (a.1 = i ∧ x = c) := by
          refine List.filter_congr fun x hx => ?_
          simp only [Function.comp]
          exact decide_eq_decide.2 (hidx x (List.mem_range.1 hx))
        rw [hfil]
        by_cases h : a.1 = i
        · simp only [h, true_and, if_true]
          have : (List.range D).filter (fun x => decide (x = c)) = [c] := by
            have h1 : (List.range D).filter (fun x => decide (x = c)) = List.replicate ((List.range D).count c) c := by
              exact List.filter_beq c
            rw [h1, List.count_eq_one_of_mem List.nodup_range (List.mem_range.2 hc)]; rfl
          rw [this]; simp
        · simp [h]
      rw [hone]
      by_cases h : a.1 = i <;> simp [h]
  · intro b hb
    rw [hp]
    have : ((adds.flatMap fun a => atomicAdd D (construct D base a.1) a.2).filter fun s => s.1 = b) = [] := by
      rw [List.filter_eq_nil_iff]
      intro s hs'
      obtain ⟨a, -, ha⟩ := List.mem_flatMap.1 hs'
      obtain ⟨x, -, rfl⟩ := List.mem_map.1 ha
      simp only [decide_eq_true_eq, construct]
      have hle : base ≤ base + D * a.1 + x := by rw [Nat.add_assoc]; exact Nat.le_add_right _ _
      intro he
      rw [of_decide_eq_true he] at hle
      exact absurd hb (not_lt.2 hle)
    rw [this]; simp

/-- C116 (violation): the third component, when set or read, passes through `FP`, unlike the first, even if the type of
the components has values `FP` does not have. -/
theorem C116_precision_violated (viaFP : T → T) (hid : ∀ t, viaFP (viaFP t) = viaFP t) (t : T) (ht : viaFP t ≠ t)
    (base : ℕ) (m : Mem T) (i : ℕ) :
    (load viaFP (step viaFP base m (.setX i t)) (construct 3 base i)).x = t ∧
      (load viaFP (step viaFP base m (.setZ i t)) (construct 3 base i)).z ≠ t ∧
      (load viaFP (store m (construct 3 base i) ⟨t, t, t⟩) (construct 3 base i)).z ≠ t := by
  refine ⟨?_, ?_, ?_⟩
  · simp [load, step, write]
  · simp [load, step, write, hid, ht]
  · simp [load, store, write, ht]

/-- C116 (violation): for vectors that overlap (of arrays with different beginnings), assigning does not yield the
vector assigned: components are overwritten before they are read. -/
theorem C116_overlap_violated (m : Mem T) (a : ℕ) (h : m a ≠ m (a + 1)) :
    assign m (a + 1) a 3 (a + 1 + 1) ≠ m (a + 1) := by
  simp [assign, write, h]

/-- C116: if vectors overlap, but the target begins first, assigning yields the vector assigned. -/
theorem C116_overlap (m : Mem T) (D storage rhs : ℕ) (h : storage ≤ rhs) :
    ∀ c < D, assign m storage rhs D (storage + c) = m (rhs + c) := by
  have h1 : ∀ n b, storage + n ≤ b → assign m storage rhs n b = m b := by
    intro n
    induction n with
    | zero => intro b _; rfl
    | succ n ih => intro b hb; rw [assign, write_other _ _ (by omega), ih b (by omega)]
  have h2 : ∀ n, ∀ c < n, assign m storage rhs n (storage + c) = m (rhs + c) := by
    intro n
    induction n with
    | zero => intro c hc; omega
    | succ n ih =>
      intro c hc
      rw [assign]
      rcases Nat.lt_succ_iff_lt_or_eq.1 hc with hc | rfl
      · rw [write_other _ _ (by omega), ih c hc]
      · rw [write_same, h1 c _ (by omega)]
  exact h2 D

end

/-! ## Examples -/

/-- A history on two vectors. -/
example : vectors 5 ([Op.store 0 ⟨1, 2, 3⟩, .assign 1 0, .mul 0 2, .add 1 ⟨1, 1, 1⟩].foldl (step id 5) fun _ => (0 : ℚ)) 1 =
    ⟨2, 3, 4⟩ := by
  rw [C116_array id (fun _ => rfl)]
  norm_num [Op.effect, replace, Vec3.ext_iff]

/-- Two threads whose additions to one vector are interleaved. -/
example : [((0 : ℕ), (1 : ℚ)), (0, 10), (1, 20), (1, 2), (2, 3), (2, 30)].Perm
    ([((0 : ℕ), fun i : ℕ => (i : ℚ) + 1), (0, fun i : ℕ => 10 * ((i : ℚ) + 1))].flatMap fun a =>
      atomicAdd 3 (construct 3 0 a.1) a.2) := by
  norm_num [atomicAdd, construct, List.range_succ]
  decide +kernel

/-- Rounding to whole numbers as `FP` (the hypotheses of `C116_precision_violated`). -/
example : (∀ t : ℚ, ((⌊((⌊t⌋ : ℤ) : ℚ)⌋ : ℤ) : ℚ) = ⌊t⌋) ∧ (((⌊(1 / 2 : ℚ)⌋ : ℤ) : ℚ) ≠ 1 / 2) := by
  refine ⟨fun t => by simp, by norm_num⟩

end OpenMPCD.Remote
