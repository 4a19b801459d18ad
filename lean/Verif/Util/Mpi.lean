import Mathlib.Data.List.Induction
import Mathlib.Data.List.Nodup
import Mathlib.Data.Int.Basic
import Mathlib.Tactic.NormNum
import Mathlib.Tactic.Ring

/-!
# The wrapper around MPI (C110)

`src/OpenMPCD/MPI.cpp`, `include/OpenMPCD/ImplementationDetails/MPI.hpp`. Of the MPI library, what the standard says about
initializing and finalizing it: to initialize it twice, to finalize it twice or before it has been initialized, and to
communicate while it is not running, is erroneous. Otherwise, its functions succeed.
-/

set_option linter.unusedSectionVars false
set_option linter.unusedSimpArgs false
set_option linter.unusedVariables false

namespace OpenMPCD.Mpi

/-! ## Model -/

/-- The state of the MPI library. -/
inductive Library
  | fresh
  | running
  | finalized
  deriving DecidableEq

/-- What comes of an operation. -/
inductive Outcome
  | ok
  /-- `OpenMPCD::Exception` -/
  | exception
  /-- An exception leaves a destructor, and the program ends. -/
  | terminate
  /-- The MPI library is used in a way it must not be. -/
  | erroneous
  deriving DecidableEq

/-- `MPI_Initialized` -/
def Library.initialized : Library → Bool
  | .fresh => false
  | _ => true

/-- The process: the library, and of the instances there are, whether they have initialized it. -/
structure Process where
  library : Library
  instances : List (ℕ × Bool)

/-- The process in the beginning. -/
def start : Process := ⟨.fresh, []⟩

/-- The constructor (`src/OpenMPCD/MPI.cpp:12-42`). `provided`: the library provides the thread level asked for. -/
def construct (p : Process) (i : ℕ) (provided : Bool) : Process × Outcome :=
  if p.library.initialized then (⟨p.library, p.instances ++ [(i, false)]⟩, .ok)
  else if provided then (⟨.running, p.instances ++ [(i, true)]⟩, .ok)
  else (⟨.finalized, p.instances⟩, .exception)

/-- `MPI_Finalize` -/
def finalize (p : Process) : Process × Outcome :=
  match p.library with
  | .running => (⟨.finalized, p.instances⟩, .ok)
  | _ => (p, .erroneous)

/-- The destructor (`src/OpenMPCD/MPI.cpp:44-77`), for an instance with the given flag. -/
def destructor (p : Process) (initializedByThisInstance : Bool) : Process × Outcome :=
  if p.library = .finalized then
    if initializedByThisInstance then (p, .terminate) else (p, .ok)
  else
    if initializedByThisInstance then finalize p else (p, .ok)

/-- The end of an instance; nothing happens if there is no such instance. -/
def destroy (p : Process) (i : ℕ) : Process × Outcome :=
  match p.instances.find? fun e => e.1 = i with
  | none => (p, .ok)
  | some e => destructor ⟨p.library, p.instances.filter fun e => e.1 ≠ i⟩ e.2

/-- A call such as `getRank` (`src/OpenMPCD/MPI.cpp:79-125`). -/
def communicate (p : Process) : Process × Outcome :=
  if p.library = .running then (p, .ok) else (p, .erroneous)

/-- What is done with instances; they are numbered. -/
inductive Op
  | construct (i : ℕ) (provided : Bool)
  /-- The implicit copy constructor (`include/OpenMPCD/MPI.hpp:26-113` does not prevent it). -/
  | copy (i new : ℕ)
  | destroy (i : ℕ)
  | communicate (i : ℕ)

/-- The effect of an operation. -/
def step (p : Process) : Op → Process × Outcome
  | .construct i b => construct p i b
  | .copy i new => (⟨p.library, p.instances ++ (p.instances.filter fun e => e.1 = i).map fun e => (new, e.2)⟩, .ok)
  | .destroy i => destroy p i
  | .communicate _ => communicate p

/-- The process after a history. -/
def after (h : List Op) : Process := h.foldl (fun p o => (step p o).1) start

/-- Conversion of `std::size_t` to `int`, on the platforms supported. -/
def toInt (n : ℕ) : ℤ := if n % 2 ^ 32 < 2 ^ 31 then (n % 2 ^ 32 : ℕ) else (n % 2 ^ 32 : ℕ) - 2 ^ 32

/-- `MPI_Bcast` of bytes: the bytes of all processes afterwards; `none`: an error (which by default ends all processes). -/
def bcast (buffers : ℕ → ℕ → UInt8) (count : ℤ) (root : ℕ) : Option (ℕ → ℕ → UInt8) :=
  if count < 0 then none
  else some fun r k => if (k : ℤ) < count then buffers root k else buffers r k

/-- `broadcast` (`include/OpenMPCD/ImplementationDetails/MPI.hpp:18-37`), with valid arguments, by all processes: the bytes of
the buffers of all processes afterwards; `none`: an exception is thrown. `size` is `sizeof(T)`. -/
def broadcast (buffers : ℕ → ℕ → UInt8) (size count root : ℕ) : Option (ℕ → ℕ → UInt8) :=
  if count = 0 then some buffers else bcast buffers (toInt (count * size % 2 ^ 64)) root

/-! ## Specification -/

/-- The rules in the documentation (`include/OpenMPCD/MPI.hpp:16-24`): of the instances there are, in the order they were
constructed, the first one ends last, and then none is constructed any more. Instances are not copied. -/
inductive Abides : List Op → List ℕ → Bool → Prop
  | nil : Abides [] [] false
  | construct {h alive} (i : ℕ) : Abides h alive false → i ∉ alive → Abides (h ++ [.construct i true]) (alive ++ [i]) false
  | other {h first rest} (i : ℕ) : Abides h (first :: rest) false → i ∈ rest → i ≠ first →
      Abides (h ++ [.destroy i]) (first :: rest.filter (· ≠ i)) false
  | last {h first} : Abides h [first] false → Abides (h ++ [.destroy first]) [] true
  | communicate {h alive} (i : ℕ) : Abides h alive false → i ∈ alive → Abides (h ++ [.communicate i]) alive false

/-- All processes have the data of the root. -/
def Delivered (buffers result : ℕ → ℕ → UInt8) (bytes root : ℕ) : Prop :=
  ∀ r k, result r k = if k < bytes then buffers root k else buffers r k

/-! ## Proofs -/

/-- What the process is like, for the instances there are. -/
def Matches (p : Process) (alive : List ℕ) (ended : Bool) : Prop :=
  alive.Nodup ∧
  match alive, ended with
  | [], false => p = start
  | [], true => p = ⟨.finalized, []⟩
  | first :: rest, false => p = ⟨.running, (first, true) :: rest.map fun i => (i, false)⟩
  | _ :: _, true => False

theorem find_other {first i : ℕ} (hne : i ≠ first) : ∀ (rest : List ℕ), i ∈ rest →
    ((first, true) :: rest.map fun i => (i, false)).find? (fun e : ℕ × Bool => decide (e.1 = i)) = some (i, false) := by
  intro rest hi
  rw [List.find?_cons_of_neg (by simpa using Ne.symm hne)]
  induction rest with
  | nil => simp at hi
  | cons a rest ih =>
    by_cases ha : a = i
    · subst ha; simp
    · rw [List.map_cons, List.find?_cons_of_neg (by simpa using ha)]
      exact ih ((List.mem_cons.1 hi).resolve_left (Ne.symm ha))

theorem after_snoc (h : List Op) (o : Op) : after (h ++ [o]) = (step (after h) o).1 := by
  unfold after; rw [List.foldl_append]; rfl

theorem abides_matches {h : List Op} {alive : List ℕ} {ended : Bool} (ha : Abides h alive ended) :
    Matches (after h) alive ended := by
  induction ha with
  | nil => exact ⟨List.nodup_nil, rfl⟩
  | @construct h alive i _ hi ih =>
    obtain ⟨hn, hm⟩ := ih
    refine ⟨List.nodup_append.2 ⟨hn, by simp, by rintro a ha b hb rfl; simp at hb; subst hb; exact hi ha⟩, ?_⟩
    rw [after_snoc]
    cases alive with
    | nil => simp only at hm; rw [hm]; rfl
    | cons f r =>
      simp only at hm
      rw [hm]
      simp [step, construct, Library.initialized]
  | @other h first rest i _ hi hne ih =>
    obtain ⟨hn, hm⟩ := ih
    obtain ⟨h1, h2⟩ := List.nodup_cons.1 hn
    refine ⟨List.nodup_cons.2 ⟨fun hf => h1 (List.mem_filter.1 hf).1, h2.filter _⟩, ?_⟩
    simp only at hm ⊢
    rw [after_snoc, hm]
    have hf := find_other hne rest hi
    simp only [step, destroy, hf, destructor]
    have : (((first, true) :: rest.map fun i => (i, false)).filter fun e : ℕ × Bool => decide (e.1 ≠ i)) =
        (first, true) :: (rest.filter (· ≠ i)).map fun i => (i, false) := by
      rw [List.filter_cons_of_pos (by simpa using Ne.symm hne), List.filter_map]
      rfl
    rw [this]
    simp
  | @last h first _ ih =>
    obtain ⟨hn, hm⟩ := ih
    refine ⟨List.nodup_nil, ?_⟩
    simp only at hm ⊢
    rw [after_snoc, hm]
    simp [step, destroy, destructor, finalize]
  | @communicate h alive i _ hi ih =>
    obtain ⟨hn, hm⟩ := ih
    refine ⟨hn, ?_⟩
    cases alive with
    | nil => simp at hi
    | cons f r =>
      simp only at hm ⊢
      rw [after_snoc, hm]
      simp [step, communicate]

/-- **C110.** If the rules are kept to, no operation fails or uses the MPI library in a way it must not be. -/
theorem C110_outcome {h : List Op} {o : Op} {alive : List ℕ} {ended : Bool} (ha : Abides (h ++ [o]) alive ended) :
    (step (after h) o).2 = .ok := by
  generalize he : h ++ [o] = h' at ha
  cases ha with
  | nil => simp at he
  | @construct h₁ alive i hb hi =>
    obtain ⟨rfl, e⟩ := List.append_inj' he rfl
    obtain rfl : o = _ := by simpa using e
    simp only [step, construct]
    split <;> rfl
  | @other h₁ first rest i hb hi hne =>
    obtain ⟨rfl, e⟩ := List.append_inj' he rfl
    obtain rfl : o = _ := by simpa using e
    obtain ⟨hn, hm⟩ := abides_matches hb
    simp only at hm
    rw [hm]
    simp only [step, destroy]
    have hf := find_other hne rest hi
    rw [hf]
    simp [destructor]
  | @last h₁ first hb =>
    obtain ⟨rfl, e⟩ := List.append_inj' he rfl
    obtain rfl : o = _ := by simpa using e
    obtain ⟨hn, hm⟩ := abides_matches hb
    simp only at hm
    rw [hm]
    simp [step, destroy, destructor, finalize]
  | @communicate h₁ alive i hb hi =>
    obtain ⟨rfl, e⟩ := List.append_inj' he rfl
    obtain rfl : o = _ := by simpa using e
    obtain ⟨hn, hm⟩ := abides_matches hb
    cases alive with
    | nil => simp at hi
    | cons f r =>
      simp only at hm
      rw [hm]
      simp [step, communicate]

/-- **C110.** If the rules are kept to, the MPI library is running exactly while there are instances, and has been finalized
when the last one has ended. -/
theorem C110_lifetime {h : List Op} {alive : List ℕ} {ended : Bool} (ha : Abides h alive ended) :
    ((after h).library = .running ↔ alive ≠ []) ∧ ((after h).library = .finalized ↔ ended = true) ∧
    (after h).instances.map Prod.fst = alive := by
  obtain ⟨-, hm⟩ := abides_matches ha
  cases alive with
  | nil => cases ended <;> simp only at hm <;> rw [hm] <;> simp [start]
  | cons f r =>
    cases ended with
    | true => exact absurd hm (by simp)
    | false =>
      simp only at hm
      rw [hm]
      simp [List.map_map, Function.comp_def]

/-- **C110.** If the MPI library was running before the first instance was constructed, then it is running all the time, and
whatever the instances are constructed, copied and ended in which order, no operation fails. -/
theorem C110_foreign (h : List Op) (o : Op) :
    (h.foldl (fun p o => (step p o).1) ⟨.running, []⟩).library = .running ∧
    (step (h.foldl (fun p o => (step p o).1) ⟨.running, []⟩) o).2 = .ok := by
  have one : ∀ (p : Process) (o : Op), p.library = .running → (∀ e ∈ p.instances, e.2 = false) →
      (step p o).2 = .ok ∧ (step p o).1.library = .running ∧ ∀ e ∈ (step p o).1.instances, e.2 = false := by
    intro p o hl hi
    cases o with
    | construct i b =>
      simp only [step, construct, hl, Library.initialized, if_true, true_and]
      intro e he
      rcases List.mem_append.1 he with he | he
      · exact hi e he
      · rw [List.mem_singleton.1 he]
    | copy i new =>
      refine ⟨rfl, hl, fun e he => ?_⟩
      rcases List.mem_append.1 he with he | he
      · exact hi e he
      · obtain ⟨e', he', rfl⟩ := List.mem_map.1 he
        exact hi e' (List.mem_filter.1 he').1
    | destroy i =>
      simp only [step, destroy]
      cases hf : p.instances.find? fun e => decide (e.1 = i) with
      | none => exact ⟨rfl, hl, hi⟩
      | some e =>
        have he := hi e (List.mem_of_find?_eq_some hf)
        simp only [destructor, hl, he]
        exact ⟨rfl, rfl, fun e' he' => hi e' (List.mem_filter.1 he').1⟩
    | communicate i =>
      simp only [step, communicate, hl, if_true]
      exact ⟨trivial, trivial, hi⟩
  have all : (h.foldl (fun p o => (step p o).1) ⟨.running, []⟩).library = .running ∧
      ∀ e ∈ (h.foldl (fun p o => (step p o).1) (⟨.running, []⟩ : Process)).instances, e.2 = false := by
    induction h using List.reverseRecOn with
    | nil => exact ⟨rfl, by simp⟩
    | append_singleton h o ih =>
      rw [List.foldl_append]
      exact (one _ o ih.1 ih.2).2
  exact ⟨all.1, (one _ o all.1 all.2).1⟩

theorem toInt_small {n : ℕ} (h : n < 2 ^ 31) : toInt n = n := by
  unfold toInt
  rw [Nat.mod_eq_of_lt (by omega), if_pos h]

/-- **C110.** If the data have less than 2³¹ bytes, all processes have those of the root afterwards.

What is missing for the full statement: it is false for more data, see `C110_broadcast_violated`. -/
theorem C110_partial (buffers : ℕ → ℕ → UInt8) (size count root : ℕ) (h : count * size < 2 ^ 31) :
    ∃ result, broadcast buffers size count root = some result ∧ Delivered buffers result (count * size) root := by
  unfold broadcast
  by_cases hc : count = 0
  · subst hc
    exact ⟨buffers, by simp, fun r k => by simp⟩
  · rw [if_neg hc, Nat.mod_eq_of_lt (by omega), toInt_small h]
    unfold bcast
    rw [if_neg (by omega)]
    exact ⟨_, rfl, fun r k => by simp only [Nat.cast_lt]⟩

/-- **C110** fails for more data: between 2³¹ and 2³² bytes, an exception is thrown; from 2³² bytes on, it may happen that
nothing is sent, and no exception is thrown. -/
theorem C110_broadcast_violated (root : ℕ) (buffers : ℕ → ℕ → UInt8) :
    (∀ count, 2 ^ 31 ≤ count → count < 2 ^ 32 → broadcast buffers 1 count root = none) ∧
    broadcast buffers 8 (2 ^ 29) root = some buffers ∧
    ((∃ r, buffers r 0 ≠ buffers root 0) → ¬ Delivered buffers buffers (2 ^ 29 * 8) root) := by
  refine ⟨?_, ?_, fun ⟨r, hr⟩ hd => hr (by simpa using hd r 0)⟩
  · intro count h1 h2
    unfold broadcast
    rw [if_neg (by omega), mul_one, Nat.mod_eq_of_lt (by omega)]
    have ht : toInt count < 0 := by
      unfold toInt
      rw [Nat.mod_eq_of_lt h2, if_neg (by omega)]
      omega
    unfold bcast
    rw [if_pos ht]
  · unfold broadcast
    rw [if_neg (by norm_num)]
    have : toInt (2 ^ 29 * 8 % 2 ^ 64) = 0 := by unfold toInt; norm_num
    rw [this]
    unfold bcast
    rw [if_neg (by omega)]
    refine congrArg some (funext fun r => funext fun k => ?_)
    rw [if_neg (by omega)]

/-- **C110** fails for copies: if the first instance has been copied, the program is ended when the second of both
ends. -/
theorem C110_copy_violated (i j : ℕ) (h : i ≠ j) :
    (step (after [.construct i true, .copy i j, .destroy j]) (.destroy i)).2 = .terminate := by
  simp [after, step, construct, destroy, destructor, finalize, start, Library.initialized, h, Ne.symm h]

/-- **C110** (failure): if the library does not provide what is needed, the constructor throws, and nothing is left behind: there
is no instance, and the library has been finalized. -/
theorem C110_failure (i : ℕ) :
    (step (after []) (.construct i false)).2 = .exception ∧ (after [.construct i false]).instances = [] ∧
    (after [.construct i false]).library = .finalized := by
  simp [after, step, construct, start, Library.initialized]

/-- **C110** fails in that keeping to the rules is not checked: instances constructed after the library has been finalized do
not throw, but cannot be used. -/
theorem C110_late_violated (i j : ℕ) :
    (step (after [.construct i true, .destroy i]) (.construct j true)).2 = .ok ∧
    (step (after [.construct i true, .destroy i, .construct j true]) (.communicate j)).2 = .erroneous := by
  simp [after, step, construct, destroy, destructor, finalize, start, Library.initialized, communicate]

/-! ## Examples -/

/-- A history that keeps to the rules. -/
example : Abides [.construct 0 true, .construct 1 true, .communicate 1, .construct 2 true, .destroy 1, .communicate 0,
    .destroy 2, .destroy 0] [] true := by
  have h0 := Abides.construct 0 .nil (by simp)
  have h1 := Abides.construct 1 h0 (by simp)
  have h2 := Abides.communicate 1 h1 (by simp)
  have h3 := Abides.construct 2 h2 (by simp)
  have h4 : Abides [.construct 0 true, .construct 1 true, .communicate 1, .construct 2 true, .destroy 1] [0, 2] false :=
    Abides.other (first := 0) (rest := [1, 2]) 1 h3 (by simp) (by simp)
  have h5 := Abides.communicate 0 h4 (by simp)
  have h6 : Abides [.construct 0 true, .construct 1 true, .communicate 1, .construct 2 true, .destroy 1, .communicate 0,
      .destroy 2] [0] false := Abides.other (first := 0) (rest := [2]) 2 h5 (by simp) (by simp)
  exact Abides.last h6

end OpenMPCD.Mpi
