import Mathlib.Data.List.Basic
import Mathlib.Tactic.Linarith
import Mathlib.Tactic.Ring

/-!
# Iterators with a stride as objects (C155)

`include/OpenMPCD/StridedPointerIterator.hpp` and `include/OpenMPCD/StridedPointerIteratorRange.hpp`, on the host, where calls are
checked, and on the device, where they are not. Which elements a loop visits is C37 (`Verif/Util/Ranges.lean`).

Simplifications: a pointer into the array is the number of the element it points at, so that the array begins with 0; the null
pointer is `none`, and incrementing it (which is undefined) leaves it as it is. Arrays, also empty ones, do not begin at the null
pointer. Numbers do not overflow. The constant `operator*`
(`include/OpenMPCD/StridedPointerIterator.hpp:142-150`) returns a pointer where a reference to the element is
declared, and can not be compiled if it is used; it is not modelled.
-/

set_option linter.unusedSectionVars false
set_option linter.unusedSimpArgs false
set_option linter.unusedVariables false

namespace OpenMPCD.StridedIterators

/-! ## Model -/

/-- Where the code runs: `__CUDA_ARCH__` is defined on the device only. -/
inductive Place
  | host
  | device

/-- `InvalidCallException`. -/
inductive Err
  | invalidCall

/-- Members (`include/OpenMPCD/StridedPointerIterator.hpp:283-284`). -/
structure Iter where
  current : Option ℕ
  pastEnd : Option ℕ

/-- The default constructor (`include/OpenMPCD/StridedPointerIterator.hpp:33-35`). -/
def Iter.default : Iter := ⟨none, none⟩

/-- `StridedPointerIteratorRange::begin` for an array of `length` elements
(`include/OpenMPCD/StridedPointerIteratorRange.hpp:40-43`). -/
def rangeBegin (length : ℕ) : Iter := ⟨some 0, some length⟩

/-- `StridedPointerIteratorRange::end` (`include/OpenMPCD/StridedPointerIteratorRange.hpp:48-51`). -/
def rangeEnd (length : ℕ) : Iter := ⟨some length, some length⟩

/-- `isSingular` (`include/OpenMPCD/StridedPointerIterator.hpp:62-65`). -/
def isSingular (it : Iter) : Bool := it.current.isNone

/-- `isPastTheEnd` (`include/OpenMPCD/StridedPointerIterator.hpp:72-80`). -/
def isPastTheEnd (place : Place) (it : Iter) : Except Err Bool :=
  match place, isSingular it with
  | .host, true => .error .invalidCall
  | _, _ => .ok (decide (it.current = it.pastEnd))

/-- `isDereferenceable` (`include/OpenMPCD/StridedPointerIterator.hpp:86-95`), and `isIncrementable`, which is the same
(`include/OpenMPCD/StridedPointerIterator.hpp:110-119`). -/
def isDereferenceable (place : Place) (it : Iter) : Except Err Bool :=
  if isSingular it then .ok false
  else do
    if ← isPastTheEnd place it then return false
    return true

/-- `isValid` (`include/OpenMPCD/StridedPointerIterator.hpp:101-104`): the second operand of `||` is evaluated if the first one is
false. -/
def isValid (place : Place) (it : Iter) : Except Err Bool := do
  if ← isDereferenceable place it then return true
  isPastTheEnd place it

/-- The check of the operators, on the host only (`include/OpenMPCD/StridedPointerIterator.hpp:129-132,189-192,212-215`). -/
def check (place : Place) (it : Iter) : Except Err Unit :=
  match place with
  | .host => do
    if !(← isDereferenceable place it) then .error .invalidCall
    else return ()
  | .device => .ok ()

/-- `operator*` of iterators that are not constant (`include/OpenMPCD/StridedPointerIterator.hpp:127-135`): the number of the
element. -/
def deref (place : Place) (it : Iter) : Except Err (Option ℕ) := do
  check place it
  return it.current

/-- The loops of `operator++` (`include/OpenMPCD/StridedPointerIterator.hpp:194-200,219-225`), with the number of turns left. -/
def advance (it : Iter) : ℕ → Iter
  | 0 => it
  | n + 1 =>
    let it := { it with current := it.current.map (· + 1) }
    if it.current = it.pastEnd then it else advance it n

/-- `++it` (`include/OpenMPCD/StridedPointerIterator.hpp:187-203`): the iterator after the call, and what is returned. -/
def preIncrement (place : Place) (stride : ℕ) (it : Iter) : Iter × Except Err Iter :=
  match check place it with
  | .error e => (it, .error e)
  | .ok _ => (advance it stride, .ok (advance it stride))

/-- `it++` (`include/OpenMPCD/StridedPointerIterator.hpp:210-228`). -/
def postIncrement (place : Place) (stride : ℕ) (it : Iter) : Iter × Except Err Iter :=
  match check place it with
  | .error e => (it, .error e)
  | .ok _ =>
    let ret := it
    (advance it stride, .ok ret)

/-- `it += n` (`include/OpenMPCD/StridedPointerIterator.hpp:235-246`). -/
def addAssign (place : Place) (stride : ℕ) : ℕ → Iter → Iter × Except Err Iter
  | 0, it => (it, .ok it)
  | n + 1, it =>
    match preIncrement place stride it with
    | (it, .error e) => (it, .error e)
    | (it, .ok _) =>
      match isPastTheEnd place it with
      | .error e => (it, .error e)
      | .ok true => (it, .ok it)
      | .ok false => addAssign place stride n it

/-- `operator==` (`include/OpenMPCD/StridedPointerIterator.hpp:255-263`). -/
def eq (place : Place) (it rhs : Iter) : Except Err Bool :=
  match place with
  | .host => do
    if !(← isValid place it) then .error .invalidCall
    else return decide (it.current = rhs.current)
  | .device => .ok (decide (it.current = rhs.current))

/-- `operator!=` (`include/OpenMPCD/StridedPointerIterator.hpp:272-280`). -/
def ne (place : Place) (it rhs : Iter) : Except Err Bool :=
  match place with
  | .host => do
    if !(← isValid place it) then .error .invalidCall
    else return decide (it.current ≠ rhs.current)
  | .device => .ok (decide (it.current ≠ rhs.current))

/-- Calls that may change an iterator. -/
inductive Op
  | pre
  | post
  | add (n : ℕ)

/-- The iterator after a call; exceptions are caught by the caller. -/
def step (place : Place) (stride : ℕ) (it : Iter) : Op → Iter
  | .pre => (preIncrement place stride it).1
  | .post => (postIncrement place stride it).1
  | .add n => (addAssign place stride n it).1

/-- The iterator after any calls. -/
def run (place : Place) (stride : ℕ) (it : Iter) (ops : List Op) : Iter := ops.foldl (step place stride) it

/-! ## Specification -/

/-- By how many strides a call is to advance. -/
def amount : Op → ℕ
  | .pre => 1
  | .post => 1
  | .add n => n

/-- An iterator at place `p` of an array of `length` elements. -/
def at_ (length p : ℕ) : Iter := ⟨some p, some length⟩

/-! ## Proofs -/

theorem advance_at {length : ℕ} (n : ℕ) {p : ℕ} (hp : p < length) : advance (at_ length p) n = at_ length (min (p + n) length) := by
  induction n generalizing p with
  | zero => rw [advance, Nat.add_zero, Nat.min_eq_left hp.le]
  | succ n ih =>
    by_cases h : p + 1 = length
    · have : min (p + (n + 1)) length = p + 1 := by omega
      rw [this]
      simp [advance, at_, h]
    · have h2 := ih (p := p + 1) (by omega)
      have : p + 1 + n = p + (n + 1) := by omega
      rw [this] at h2
      rw [← h2]
      simp [advance, at_, h]

theorem check_host {length p : ℕ} : check .host (at_ length p) = if p = length then .error .invalidCall else .ok () := by
  by_cases h : p = length <;>
    simp [check, isDereferenceable, isPastTheEnd, isSingular, at_, h, bind, Except.bind, pure, Except.pure]

theorem pre_host {stride length p : ℕ} (hp : p ≤ length) : (preIncrement .host stride (at_ length p)).1 =
    at_ length (min (p + stride) length) := by
  rw [preIncrement, check_host]
  by_cases h : p = length
  · rw [if_pos h]
    have : min (p + stride) length = p := by omega
    rw [this]
  · rw [if_neg h]
    exact advance_at stride (by omega)

theorem post_host {stride length p : ℕ} (hp : p ≤ length) : (postIncrement .host stride (at_ length p)).1 =
    at_ length (min (p + stride) length) := by
  rw [← pre_host hp, postIncrement, preIncrement]
  cases check .host (at_ length p) <;> rfl

theorem past_at (place : Place) (length p : ℕ) : isPastTheEnd place (at_ length p) = .ok (decide (p = length)) := by
  cases place <;> simp [isPastTheEnd, isSingular, at_]

theorem pre_ok {place : Place} {stride length p : ℕ} (hp : p < length) : preIncrement place stride (at_ length p) =
    (at_ length (min (p + stride) length), .ok (at_ length (min (p + stride) length))) := by
  have hc : check place (at_ length p) = .ok () := by
    cases place
    · rw [check_host, if_neg (by omega)]
    · rfl
  rw [preIncrement, hc, ← advance_at stride hp]

theorem add_ok {place : Place} {stride length : ℕ} (n : ℕ) {p : ℕ} (hp : p < length ∨ n = 0 ∧ p = length) :
    addAssign place stride n (at_ length p) =
      (at_ length (min (p + n * stride) length), .ok (at_ length (min (p + n * stride) length))) := by
  induction n generalizing p with
  | zero =>
    have : min (p + 0 * stride) length = p := by omega
    rw [this, addAssign]
  | succ n ih =>
    have hp' : p < length := by omega
    rw [addAssign, pre_ok hp']
    simp only [past_at]
    have hmul : (n + 1) * stride = n * stride + stride := Nat.succ_mul _ _
    by_cases h : min (p + stride) length = length
    · have : min (p + (n + 1) * stride) length = length := by
        rw [hmul]
        have : p + stride ≥ length := by omega
        have : p + (n * stride + stride) ≥ length := by
          have := Nat.zero_le (n * stride)
          omega
        omega
      simp [h, this]
    · have hlt : p + stride < length := by omega
      have he : min (p + stride) length = p + stride := by omega
      have : p + stride + n * stride = p + (n + 1) * stride := by
        rw [hmul]
        omega
      simp only [h, decide_false]
      rw [he, ih (.inl hlt), this]

theorem step_host (stride : ℕ) {length p : ℕ} (hp : p ≤ length) (op : Op) : step .host stride (at_ length p) op =
    at_ length (min (p + amount op * stride) length) := by
  cases op with
  | pre => simpa [step, amount] using pre_host hp
  | post => simpa [step, amount] using post_host hp
  | add n =>
    rcases Nat.lt_or_eq_of_le hp with h | h
    · simp only [step, amount, add_ok n (.inl h)]
    · have hm : min (p + n * stride) length = p := by
        have := Nat.zero_le (n * stride)
        omega
      simp only [step, amount]
      rw [hm]
      cases n with
      | zero => rfl
      | succ n => rw [addAssign, preIncrement, check_host, if_pos h]

/-- C155: on the host, whatever calls are made, an iterator stays within its array: it is where as many strides lead as have been
asked for, or past the end, if this is beyond. -/
theorem C155_position (stride length : ℕ) {p : ℕ} (hp : p ≤ length) (ops : List Op) :
    run .host stride (at_ length p) ops = at_ length (min (p + (ops.map amount).sum * stride) length) := by
  induction ops generalizing p with
  | nil =>
    simp [run, Nat.min_eq_left hp]
  | cons op ops ih =>
    have h := ih (p := min (p + amount op * stride) length) (Nat.min_le_right _ _)
    have e : run .host stride (at_ length p) (op :: ops) =
      run .host stride (at_ length (min (p + amount op * stride) length)) ops := by
      rw [run, List.foldl_cons, step_host stride hp]
      rfl
    rw [e, h, List.map_cons, List.sum_cons, Nat.add_mul]
    congr 1
    generalize amount op * stride = a
    generalize (ops.map amount).sum * stride = b
    omega

/-- C155: after any calls, the beginning of a range has become an iterator that refers to the element expected if there is one,
and otherwise throws `InvalidCallException`, and then compares equal to the end. -/
theorem C155_element (stride length : ℕ) (ops : List Op) :
    let p := (ops.map amount).sum * stride
    let it := run .host stride (rangeBegin length) ops
    deref .host it = (if p < length then .ok (some p) else .error .invalidCall) ∧
    eq .host it (rangeEnd length) = .ok (decide (length ≤ p)) ∧
    ne .host it (rangeEnd length) = .ok (decide (p < length)) := by
  intro p it
  have hit : it = at_ length (min p length) := by
    have := C155_position stride length (Nat.zero_le length) ops
    rwa [Nat.zero_add] at this
  rw [hit]
  have hv : isValid .host (at_ length (min p length)) = .ok true := by
    by_cases h : min p length = length <;>
      simp [isValid, isDereferenceable, isPastTheEnd, isSingular, at_, h, bind, Except.bind, pure, Except.pure]
  refine ⟨?_, ?_, ?_⟩
  · rw [deref, check_host]
    by_cases h : p < length
    · rw [if_pos h, if_neg (by omega), Nat.min_eq_left h.le]
      rfl
    · rw [if_neg h, if_pos (by omega)]
      rfl
  · simp only [eq, hv, bind, Except.bind, pure, Except.pure]
    simp [at_, rangeEnd]
  · simp only [ne, hv, bind, Except.bind, pure, Except.pure]
    simp [at_, rangeEnd]

/-- C155: the prefix operator returns the iterator after the call and the postfix operator the one before; both throw exactly past
the end. -/
theorem C155_increment (stride : ℕ) {length p : ℕ} (hp : p ≤ length) :
    (p = length ∧ preIncrement .host stride (at_ length p) = (at_ length p, .error .invalidCall) ∧
      postIncrement .host stride (at_ length p) = (at_ length p, .error .invalidCall)) ∨
    p < length ∧ ∃ it, preIncrement .host stride (at_ length p) = (it, .ok it) ∧
      postIncrement .host stride (at_ length p) = (it, .ok (at_ length p)) := by
  rcases Nat.lt_or_eq_of_le hp with h | h
  · refine .inr ⟨h, _, pre_ok h, ?_⟩
    rw [postIncrement, check_host, if_neg (by omega), ← advance_at stride h]
  · exact .inl ⟨h, by rw [preIncrement, check_host, if_pos h], by rw [postIncrement, check_host, if_pos h]⟩

/-- C155: `it += n` advances by `n` strides, or to the end, whichever comes first, both on the host and on the device, unless the
iterator is past the end already. What is missing: `C155_add_violated`, `C155_device_violated`. -/
theorem C155_add_partial (place : Place) (stride n : ℕ) {length p : ℕ} (hp : p < length) :
    addAssign place stride n (at_ length p) =
      (at_ length (min (p + n * stride) length), .ok (at_ length (min (p + n * stride) length))) :=
  add_ok n (.inl hp)

/-- C155 fails for iterators past the end: on the host, `it += n` throws for every `n` but 0, although the end has been reached. -/
theorem C155_add_violated (stride length n : ℕ) (hn : 0 < n) :
    addAssign .host stride n (rangeEnd length) = (rangeEnd length, .error .invalidCall) := by
  obtain ⟨m, rfl⟩ := Nat.exists_eq_succ_of_ne_zero hn.ne'
  have : rangeEnd length = at_ length length := rfl
  rw [this, addAssign, preIncrement, check_host, if_pos rfl]

theorem advance_beyond {length : ℕ} (n : ℕ) {p : ℕ} (hp : length ≤ p) : advance (at_ length p) n = at_ length (p + n) := by
  induction n generalizing p with
  | zero => rfl
  | succ n ih =>
    have h2 := ih (p := p + 1) (by omega)
    have : p + 1 + n = p + (n + 1) := by omega
    rw [this] at h2
    rw [← h2]
    have : ¬ p + 1 = length := by omega
    simp [advance, at_, this]

/-- C155 fails on the device: an iterator past the end leaves the array, by the full number of strides, and is then taken for one
that can be dereferenced. -/
theorem C155_device_violated {stride : ℕ} (hs : 0 < stride) (length : ℕ) {n : ℕ} (hn : 0 < n) :
    ∃ it, addAssign .device stride n (rangeEnd length) = (it, .ok it) ∧ it.current = some (length + n * stride) ∧
      isDereferenceable .device it = .ok true := by
  have key : ∀ (n p : ℕ), length ≤ p → addAssign .device stride n (at_ length p) =
      (at_ length (p + n * stride), .ok (at_ length (p + n * stride))) := by
    intro n
    induction n with
    | zero =>
      intro p _
      rw [Nat.zero_mul, Nat.add_zero, addAssign]
    | succ n ih =>
      intro p hp
      have hc : check .device (at_ length p) = .ok () := rfl
      have hne : ¬ p + stride = length := by omega
      rw [addAssign, preIncrement, hc]
      simp only [advance_beyond stride hp, past_at, hne, decide_false]
      rw [ih (p + stride) (by omega), Nat.succ_mul, show p + stride + n * stride = p + (n * stride + stride) by omega]
  refine ⟨at_ length (length + n * stride), key n length le_rfl, rfl, ?_⟩
  have hpos : 0 < n * stride := Nat.mul_pos hn hs
  have : ¬ length + n * stride = length := by omega
  simp [isDereferenceable, isSingular, at_, isPastTheEnd, this, bind, Except.bind, pure, Except.pure]
  exact ⟨hn.ne', hs.ne'⟩

/-- C155: `isValid` is true for every iterator into an array. What is missing: `C155_valid_violated`. -/
theorem C155_valid_partial (place : Place) (length p : ℕ) : isValid place (at_ length p) = .ok true := by
  cases place <;> by_cases h : p = length <;>
    simp [isValid, isDereferenceable, isPastTheEnd, isSingular, at_, h, bind, Except.bind, pure, Except.pure]

/-- C155 fails for `isValid`: it never is false on the host, where it throws for singular iterators, and for those that have been
constructed without an array, it is true on the device. -/
theorem C155_valid_violated : (∀ it, isValid .host it ≠ .ok false) ∧ isValid .host Iter.default = .error .invalidCall ∧
    isValid .device Iter.default = .ok true := by
  refine ⟨?_, rfl, rfl⟩
  rintro ⟨c, e⟩
  cases c with
  | none => simp [isValid, isDereferenceable, isPastTheEnd, isSingular, bind, Except.bind, pure, Except.pure]
  | some c =>
    by_cases h : some c = e
    · subst h
      simp [isValid, isDereferenceable, isPastTheEnd, isSingular, bind, Except.bind, pure, Except.pure]
    · simp [isValid, isDereferenceable, isPastTheEnd, isSingular, h, bind, Except.bind, pure, Except.pure]

/-! A range of seven elements with stride 3: the elements 0, 3, and 6, and then the end. -/

example : deref .host (run .host 3 (rangeBegin 7) [.pre, .post]) = .ok (some 6) := rfl
example : run .host 3 (rangeBegin 7) [.pre, .add 5, .post] = rangeEnd 7 := rfl
example : deref .host (run .host 3 (rangeBegin 7) [.add 2, .pre]) = .error .invalidCall := rfl
example : (addAssign .device 3 2 (rangeEnd 7)).1 = ⟨some 13, some 7⟩ := rfl

end OpenMPCD.StridedIterators
