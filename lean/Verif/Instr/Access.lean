import Verif.Instr.Msd
import Verif.Instr.NormalMode

/-!
# Access to stored mean square displacements and autocorrelations (C153)

The functions by which programs get single results. With the checks of the debugging mode, a wrong argument is answered
by an exception; a failed check of the function's own reasoning is `assertion`; `outside` stands for access outside of
the vectors (`std::vector::operator[]` past the end).
-/

namespace OpenMPCD.Instr.Access

/-- How a call may fail. -/
inductive Err
  | invalidArgument
  | assertion
  | outside
  deriving DecidableEq

variable {S R K : Type}

/-- `OPENMPCD_DEBUG_ASSERT_EXCEPTIONTYPE` (`include/OpenMPCD/OPENMPCD_DEBUG_ASSERT.hpp:61-78`): nothing is checked unless
`OPENMPCD_DEBUG` is defined. -/
def check (debug : Bool) (condition : Prop) [Decidable condition] (e : Err) : Except Err Unit :=
  if debug = true ∧ ¬ condition then .error e else .ok ()

/-- Access to an element of a `std::vector`. -/
def at' (l : List R) (i : ℕ) : Except Err R :=
  match l[i]? with
  | some x => .ok x
  | none => .error .outside

/-- `getMeasurementCount` (`src/OpenMPCD/CUDA/MPCFluid/Instrumentation/LogicalEntityMeanSquareDisplacement.cu:171-174`,
`src/OpenMPCD/CUDA/MPCFluid/Instrumentation/NormalModeAutocorrelation.cpp:166-169`). -/
def measurementCount (r : Ring S R) : ℕ := r.results.length

/-- `getMaximumMeasurementTime`
(`src/OpenMPCD/CUDA/MPCFluid/Instrumentation/LogicalEntityMeanSquareDisplacement.cu:164-169`). -/
def maximumMeasurementTime (debug : Bool) (argumentCount : ℕ) : Except Err ℕ := do
  check debug (argumentCount > 0) .assertion
  return argumentCount

/-- `getMaximumCorrelationTime` (`src/OpenMPCD/CUDA/MPCFluid/Instrumentation/NormalModeAutocorrelation.cpp:171-176`). -/
def maximumCorrelationTime (debug : Bool) (argumentCount : ℕ) : Except Err ℕ := do
  check debug (argumentCount > 0) .assertion
  return argumentCount - 1

/-- `getMeanSquareDisplacement`
(`src/OpenMPCD/CUDA/MPCFluid/Instrumentation/LogicalEntityMeanSquareDisplacement.cu:176-193`). Simplified:
differences of unsigned numbers are natural numbers, which matters only for wrong arguments while nothing is checked. -/
def getMeanSquareDisplacement (debug : Bool) (argumentCount : ℕ) (r : Ring S R) (t T : ℕ) : Except Err R := do
  check debug (t < measurementCount r) .invalidArgument
  check debug (T < measurementCount r) .invalidArgument
  check debug (t < T) .invalidArgument
  let maximum ← maximumMeasurementTime debug argumentCount
  check debug (T - t ≤ maximum) .invalidArgument
  check debug (T < r.results.length) .assertion
  let row ← at' r.results T
  check debug (T - t - 1 < row.length) .assertion
  at' row (T - t - 1)

/-- `getAutocorrelation` (`src/OpenMPCD/CUDA/MPCFluid/Instrumentation/NormalModeAutocorrelation.cpp:178-199`), for
chains of `chainLength` particles. -/
def getAutocorrelation (debug : Bool) (argumentCount chainLength : ℕ) (r : Ring S (List K)) (t T normalMode : ℕ) :
    Except Err K := do
  check debug (t < measurementCount r) .invalidArgument
  check debug (T < measurementCount r) .invalidArgument
  check debug (t ≤ T) .invalidArgument
  let maximum ← maximumCorrelationTime debug argumentCount
  check debug (T - t ≤ maximum) .invalidArgument
  check debug (normalMode ≤ chainLength) .invalidArgument
  check debug (T < r.results.length) .assertion
  let row ← at' r.results T
  check debug (T - t < row.length) .assertion
  let modes ← at' row (T - t)
  check debug (normalMode < modes.length) .assertion
  at' modes normalMode

/-! ## Specification -/

/-- What is to be answered: if a measurement has been made at both calls, and the arguments are in the range documented,
the value for these two snapshots; otherwise, the argument is refused, if arguments are checked at all. -/
def Answers (debug : Bool) (every : ℕ) (calls : List S) (t T : ℕ) (inRange : Prop) (value : S → S → R)
    (answer : Except Err R) : Prop :=
  (∀ a b, calls[t * every]? = some a → calls[T * every]? = some b → inRange → answer = .ok (value a b)) ∧
    (debug = true → (calls[t * every]? = none ∨ calls[T * every]? = none ∨ ¬ inRange) → answer = .error .invalidArgument)

/-! ## Proofs -/

theorem check_pos {c : Prop} [Decidable c] (h : c) (debug : Bool) (e : Err) : check debug c e = .ok () := if_neg fun x => x.2 h

theorem check_neg {c : Prop} [Decidable c] (h : ¬ c) (e : Err) : check true c e = .error e := if_pos ⟨rfl, h⟩

/-- The element of a row of results. -/
theorem row_at {every capacity first : ℕ} (he : 0 < every) (f : S → S → R) (garbage : ℕ → S) (calls : List S) {t T : ℕ}
    {a b : S} (ha : calls[t * every]? = some a) (hb : calls[T * every]? = some b) (hf : t + first ≤ T)
    (hc : T - t < capacity) :
    ∃ row, ((Ring.make garbage : Ring S R).run every capacity first f calls).results[T]? = some row ∧
      row[T - t - first]? = some (f a b) := by
  obtain ⟨-, -, -, h4⟩ := ring_inv (capacity := capacity) he first f garbage calls
  rw [← C34_everyNth he] at ha hb
  obtain ⟨hT, hb⟩ := List.getElem?_eq_some_iff.1 hb
  obtain ⟨ht, ha⟩ := List.getElem?_eq_some_iff.1 ha
  refine ⟨_, h4 T hT, ?_⟩
  rw [List.getElem?_map, lags_getElem capacity first T (T - t - first) (by omega) (by omega), Option.map_some]
  have e : T - (first + (T - t - first)) = t := by omega
  simp only [e, ha, hb]

/-- Which measurements there are. -/
theorem count_iff {every capacity first : ℕ} (he : 0 < every) (f : S → S → R) (garbage : ℕ → S) (calls : List S)
    (t : ℕ) :
    t < measurementCount ((Ring.make garbage : Ring S R).run every capacity first f calls) ↔
      ∃ a, calls[t * every]? = some a := by
  obtain ⟨h1, -⟩ := ring_inv (capacity := capacity) he first f garbage calls
  rw [measurementCount, h1, ← C34_everyNth he]
  exact ⟨fun h => ⟨_, List.getElem?_eq_getElem h⟩, fun ⟨a, h⟩ => (List.getElem?_eq_some_iff.1 h).1⟩

/-- C153, mean square displacements: after any history, exactly the pairs of measurements made, the second later than
the first by at most the number configured, have an answer, which is the mean square displacement between the snapshots
at these two; all others are refused as
invalid arguments, if arguments are checked. -/
theorem C153_displacement [Field K] (debug : Bool) {every argumentCount : ℕ} (he : 0 < every) (hc : 0 < argumentCount) (entities : ℕ)
    (garbage : ℕ → Centers K) (calls : List (Centers K)) (t T : ℕ) :
    Answers debug every calls t T (t < T ∧ T ≤ t + argumentCount) (meanSquareDisplacement entities)
      (getMeanSquareDisplacement debug argumentCount
        ((Ring.make garbage).run every (argumentCount + 1) 1 (msd entities) calls) t T) := by
  have hcount := count_iff (capacity := argumentCount + 1) (first := 1) he (msd entities) garbage calls
  refine ⟨fun a b ha hb ⟨h1, h2⟩ => ?_, fun hd h => ?_⟩
  · obtain ⟨row, hr, hx⟩ := row_at (capacity := argumentCount + 1) (first := 1) he (msd entities) garbage calls ha hb
      (by omega) (by omega)
    have hT := (hcount T).2 ⟨b, hb⟩
    have hT' := hT
    rw [measurementCount] at hT'
    simp only [getMeanSquareDisplacement, check_pos ((hcount t).2 ⟨a, ha⟩), check_pos hT, check_pos h1,
      maximumMeasurementTime, check_pos hc, bind, Except.bind, pure, Except.pure,
      check_pos (show T - t ≤ argumentCount by omega), check_pos hT', at', hr,
      check_pos (List.getElem?_eq_some_iff.1 hx).1, hx, msd_eq]
  · subst hd
    by_cases h1 : t < measurementCount ((Ring.make garbage).run every (argumentCount + 1) 1 (msd entities) calls)
    swap
    · simp [getMeanSquareDisplacement, check_neg h1, bind, Except.bind]
    by_cases h2 : T < measurementCount ((Ring.make garbage).run every (argumentCount + 1) 1 (msd entities) calls)
    swap
    · simp [getMeanSquareDisplacement, check_pos h1, check_neg h2, bind, Except.bind]
    have hr : ¬ (t < T ∧ T ≤ t + argumentCount) := by
      obtain ⟨a, ha⟩ := (hcount t).1 h1
      obtain ⟨b, hb⟩ := (hcount T).1 h2
      simpa [ha, hb] using h
    by_cases h3 : t < T
    swap
    · simp [getMeanSquareDisplacement, check_pos h1, check_pos h2, check_neg h3, bind, Except.bind]
    simp only [getMeanSquareDisplacement, check_pos h1, check_pos h2, check_pos h3, bind, Except.bind, maximumMeasurementTime,
      check_pos hc, pure, Except.pure, check_neg (show ¬ T - t ≤ argumentCount by omega)]

/-- The elements of a list of autocorrelations. -/
theorem average_at (L C : ℕ) (a b : Mem) {n : ℕ} (hn : n ≤ L) :
    (averageAutocorrelation L C a b)[n]? = some (autocorrelationOfMode L C a b n) := by
  unfold averageAutocorrelation
  rw [List.getElem?_map, List.getElem?_range (by omega), Option.map_some]

/-- C153, normal modes: after any history, exactly the pairs of measurements made, the second not earlier than the first
and later by less than the number configured, and the modes from `0` to the length of the chains have an answer, which
has been computed from the buffers filled at these two measurements; all others are refused as
invalid arguments, if arguments are checked. -/
theorem C153_modes (debug : Bool) {every argumentCount : ℕ} (he : 0 < every) (hc : 0 < argumentCount) (L C : ℕ) (garbage : ℕ → Mem)
    (calls : List Mem) (t T n : ℕ) :
    Answers debug every calls t T (t ≤ T ∧ T < t + argumentCount ∧ n ≤ L) (fun a b => autocorrelationOfMode L C a b n)
      (getAutocorrelation debug argumentCount L
        ((Ring.make garbage).run every argumentCount 0 (averageAutocorrelation L C) calls) t T n) := by
  have hcount := count_iff (capacity := argumentCount) (first := 0) he (averageAutocorrelation L C) garbage calls
  refine ⟨fun a b ha hb ⟨h1, h2, h3⟩ => ?_, fun hd h => ?_⟩
  · obtain ⟨row, hr, hx⟩ := row_at (capacity := argumentCount) (first := 0) he (averageAutocorrelation L C) garbage calls
      ha hb (by omega) (by omega)
    rw [Nat.sub_zero] at hx
    have hT := (hcount T).2 ⟨b, hb⟩
    have hT' := hT
    rw [measurementCount] at hT'
    have hn := average_at L C a b h3
    simp only [getAutocorrelation, check_pos ((hcount t).2 ⟨a, ha⟩), check_pos hT, check_pos h1, check_pos h3,
      maximumCorrelationTime, check_pos hc, bind, Except.bind, pure, Except.pure,
      check_pos (show T - t ≤ argumentCount - 1 by omega), check_pos hT', at', hr,
      check_pos (List.getElem?_eq_some_iff.1 hx).1, hx, check_pos (List.getElem?_eq_some_iff.1 hn).1, hn]
  · subst hd
    by_cases h1 : t < measurementCount ((Ring.make garbage).run every argumentCount 0 (averageAutocorrelation L C) calls)
    swap
    · simp only [getAutocorrelation, check_neg h1, bind, Except.bind]
    by_cases h2 : T < measurementCount ((Ring.make garbage).run every argumentCount 0 (averageAutocorrelation L C) calls)
    swap
    · simp only [getAutocorrelation, check_pos h1, check_neg h2, bind, Except.bind]
    have hr : ¬ (t ≤ T ∧ T < t + argumentCount ∧ n ≤ L) := by
      obtain ⟨a, ha⟩ := (hcount t).1 h1
      obtain ⟨b, hb⟩ := (hcount T).1 h2
      rcases h with h | h | h
      · simp [ha] at h
      · simp [hb] at h
      · exact h
    by_cases h3 : t ≤ T
    swap
    · simp only [getAutocorrelation, check_pos h1, check_pos h2, check_neg h3, bind, Except.bind]
    by_cases h4 : T - t ≤ argumentCount - 1
    swap
    · simp only [getAutocorrelation, check_pos h1, check_pos h2, check_pos h3, bind, Except.bind, maximumCorrelationTime,
        check_pos hc, pure, Except.pure, check_neg h4]
    simp only [getAutocorrelation, check_pos h1, check_pos h2, check_pos h3, bind, Except.bind, maximumCorrelationTime,
      check_pos hc, pure, Except.pure, check_pos h4, check_neg (show ¬ n ≤ L by omega)]

/-- C153: what is answered for a normal mode is the average over the chains of the products of the normal coordinates of
the chains at the two measurements. Proved for less than `2 ^ 32` normal coordinate components. -/
theorem C153_coordinates_partial (debug : Bool) {every argumentCount : ℕ} (he : 0 < every) (hc : 0 < argumentCount) {L C : ℕ}
    (h : 3 * C * (L + 1) ≤ 2 ^ 32) (shift : ℝ) (garbage : ℕ → Mem) (calls : List (Mem × Mem))
    (hcalls : ∀ c ∈ calls, IsKernelResult L C c.1 shift c.2) (t T n : ℕ) :
    Answers debug every calls t T (t ≤ T ∧ T < t + argumentCount ∧ n ≤ L) (fun a b => averageProduct L C shift a.1 b.1 n)
      (getAutocorrelation debug argumentCount L
        ((Ring.make garbage).run every argumentCount 0 (averageAutocorrelation L C) (calls.map Prod.snd)) t T n) := by
  obtain ⟨h1, h2⟩ := C153_modes debug he hc L C garbage (calls.map Prod.snd) t T n
  refine ⟨fun a b ha hb hr => ?_, fun hd hn => h2 hd ?_⟩
  · rw [h1 a.2 b.2 (by simp [ha]) (by simp [hb]) hr]
    have e := C66_average_partial h (hcalls a (List.mem_of_getElem? ha)) (hcalls b (List.mem_of_getElem? hb))
    have e1 := average_at L C a.2 b.2 hr.2.2
    rw [e, List.getElem?_map, List.getElem?_range (by omega), Option.map_some, Option.some.injEq] at e1
    exact congrArg Except.ok e1.symm
  · simpa using hn

/-- Hypotheses met: three measurements, every second call; the last one is compared with the first. -/
example (a b c d e : Centers ℚ) (garbage : ℕ → Centers ℚ) :
    getMeanSquareDisplacement false 2 ((Ring.make garbage).run 2 3 1 (msd 4) [a, b, c, d, e]) 0 2 =
      .ok (meanSquareDisplacement 4 a e) :=
  (C153_displacement false (by norm_num) (by norm_num) 4 garbage [a, b, c, d, e] 0 2).1 a e rfl rfl (by norm_num)

/-- A lag that is too large is refused. -/
example (a b c d e : Centers ℚ) (garbage : ℕ → Centers ℚ) :
    getMeanSquareDisplacement true 1 ((Ring.make garbage).run 2 2 1 (msd 4) [a, b, c, d, e]) 0 2 = .error .invalidArgument :=
  (C153_displacement true (by norm_num) (by norm_num) 4 garbage [a, b, c, d, e] 0 2).2 rfl (by norm_num)

/-- A mode past the length of the chains is refused; the length itself is not. -/
example (a b : Mem) (garbage : ℕ → Mem) :
    getAutocorrelation true 2 5 ((Ring.make garbage).run 1 2 0 (averageAutocorrelation 5 7) [a, b]) 0 1 5 =
        .ok (autocorrelationOfMode 5 7 a b 5) ∧
      getAutocorrelation true 2 5 ((Ring.make garbage).run 1 2 0 (averageAutocorrelation 5 7) [a, b]) 0 1 6 =
        .error .invalidArgument :=
  ⟨(C153_modes true (by norm_num) (by norm_num) 5 7 garbage [a, b] 0 1 5).1 a b rfl rfl (by norm_num),
    (C153_modes true (by norm_num) (by norm_num) 5 7 garbage [a, b] 0 1 6).2 rfl (by norm_num)⟩

end OpenMPCD.Instr.Access
