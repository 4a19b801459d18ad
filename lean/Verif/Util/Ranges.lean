import Mathlib.Data.List.Basic
import Mathlib.Data.List.Sort
import Mathlib.Data.Nat.ModEq
import Mathlib.Tactic.Ring
import Mathlib.Tactic.IntervalCases

/-!
# Bunched and strided ranges (C37)

A range of an underlying sequence is given by its length; an iterator is given by the position of the element it
refers to.
-/

namespace OpenMPCD.Ranges

/-! ## Model -/

/-- One turn of the loop in `AdvancingFunctor::operator()` (`include/OpenMPCD/CUDA/BunchIteratorRange.hpp:93-100`);
the state is `(ret, positionInBunch)`, of type `unsigned int` (32 bits). -/
def advanceTurn (bunch gap : ℕ) (s : ℕ × ℕ) : ℕ × ℕ :=
  let positionInBunch := (s.2 + 1) % 2 ^ 32
  let ret := (s.1 + 1) % 2 ^ 32
  if positionInBunch = bunch then ((ret + gap) % 2 ^ 32, 0) else (ret, positionInBunch)

/-- The loop with the given number of turns. -/
def advanceLoop (bunch gap : ℕ) : ℕ → ℕ × ℕ
  | 0 => (0, 0)
  | n + 1 => advanceTurn bunch gap (advanceLoop bunch gap n)

/-- `AdvancingFunctor::operator()` (`include/OpenMPCD/CUDA/BunchIteratorRange.hpp:84-104`): the position of the element
the iterator refers to after `i` increments. The number of increments is truncated to 32 bits (line 91). -/
def advance (bunch gap i : ℕ) : ℕ := (advanceLoop bunch gap (i % 2 ^ 32)).1

/-- The loop in `BunchIteratorRange::end` (`include/OpenMPCD/CUDA/BunchIteratorRange.hpp:171-186`): the number of
elements in the range. (`bunch` must not be zero; the code does not terminate if `gap` is zero, too.) -/
def bunchCount (bunch gap : ℕ) (remaining : ℕ) : ℕ :=
  if _h : bunch = 0 ∨ remaining ≤ bunch then remaining
  else if remaining - bunch ≤ gap then bunch
  else bunch + bunchCount bunch gap (remaining - bunch - gap)
termination_by remaining
decreasing_by omega

/-- The positions visited when iterating from `begin` to `end`
(`include/OpenMPCD/CUDA/BunchIteratorRange.hpp:154-189`). -/
def bunchVisited (bunch gap length : ℕ) : List ℕ :=
  (List.range (bunchCount bunch gap length)).map (advance bunch gap)

/-- The positions visited when iterating from `begin` to `end` of a `StridedIteratorRange`
(`include/OpenMPCD/CUDA/StridedIteratorRange.hpp:73-77,114-126,173-177,219-232`); no overflow of the 64-bit
differences. -/
def strideVisited (stride length : ℕ) : List ℕ :=
  (List.range ((length + (stride - 1)) / stride)).map fun i => stride * i

/-- The loop in `StridedPointerIterator::operator++` (`include/OpenMPCD/StridedPointerIterator.hpp:194-200`), with the
number of remaining turns. -/
def stepLoop (pastEnd : ℕ) : ℕ → ℕ → ℕ
  | 0, current => current
  | n + 1, current => if current + 1 = pastEnd then current + 1 else stepLoop pastEnd n (current + 1)

/-- `StridedPointerIterator::operator++` (`include/OpenMPCD/StridedPointerIterator.hpp:187-203`) on the host, for an
iterator that is not singular; `none`: an exception is thrown. -/
def incr (stride pastEnd current : ℕ) : Option ℕ :=
  if current = pastEnd then none else some (stepLoop pastEnd stride current)

/-- `StridedPointerIterator::operator+=` (`include/OpenMPCD/StridedPointerIterator.hpp:235-246`). -/
def addAssign (stride pastEnd : ℕ) : ℕ → ℕ → Option ℕ
  | 0, current => some current
  | n + 1, current => (incr stride pastEnd current).bind fun c =>
      if c = pastEnd then some c else addAssign stride pastEnd n c

/-- A loop of a user of `StridedPointerIterator`: visit the current element and increment until past the end. -/
inductive PtrVisits (stride pastEnd : ℕ) : ℕ → List ℕ → Prop
  | done : PtrVisits stride pastEnd pastEnd []
  | next {current c : ℕ} {l : List ℕ} (h : current ≠ pastEnd) (hi : incr stride pastEnd current = some c)
      (hl : PtrVisits stride pastEnd c l) : PtrVisits stride pastEnd current (current :: l)

/-! ## Specification -/

/-- The positions of the elements of bunches. -/
def bunchSpec (bunch gap length : ℕ) : List ℕ := (List.range length).filter fun p => p % (bunch + gap) < bunch

/-- The multiples of the stride. -/
def strideSpec (stride length : ℕ) : List ℕ := (List.range length).filter fun p => stride ∣ p

/-! ## Proofs -/

/-- Position after `i` increments, without overflow. -/
def pos (bunch gap i : ℕ) : ℕ := i + i / bunch * gap

theorem advanceLoop_eq {bunch : ℕ} (hb : 0 < bunch) (hb' : bunch < 2 ^ 32) (gap n : ℕ) :
    advanceLoop bunch gap n = (pos bunch gap n % 2 ^ 32, n % bunch) := by
  induction n with
  | zero => simp [advanceLoop, pos]
  | succ n ih =>
    have hlt : n % bunch < bunch := Nat.mod_lt _ hb
    rw [advanceLoop, ih, advanceTurn]
    dsimp only
    have e1 : (n % bunch + 1) % 2 ^ 32 = n % bunch + 1 := Nat.mod_eq_of_lt (by omega)
    rw [e1]
    by_cases h : n % bunch + 1 = bunch
    · rw [if_pos h]
      have hd : bunch ∣ n + 1 := ⟨n / bunch + 1, by
        have := Nat.div_add_mod n bunch
        rw [Nat.mul_add]; omega⟩
      have hq : (n + 1) / bunch = n / bunch + 1 := by
        rw [Nat.succ_div, if_pos hd]
      rw [Nat.mod_eq_zero_of_dvd hd, pos, pos, hq]
      congr 1
      rw [Nat.mod_add_mod, Nat.add_assoc ((n + _) % _), Nat.mod_add_mod]
      congr 1
      ring
    · rw [if_neg h]
      have hm : (n + 1) % bunch = n % bunch + 1 := by
        rw [Nat.add_mod]
        rcases Nat.lt_or_ge 1 bunch with h1 | h1
        · rw [Nat.mod_eq_of_lt h1, Nat.mod_eq_of_lt (by omega)]
        · have : bunch = 1 := by omega
          subst this
          simp [Nat.mod_one] at h
      have hd : ¬ bunch ∣ n + 1 := fun hd => by
        rw [Nat.mod_eq_zero_of_dvd hd] at hm
        omega
      have hq : (n + 1) / bunch = n / bunch := by
        rw [Nat.succ_div, if_neg hd, Nat.add_zero]
      rw [hm, pos, pos, hq, Nat.mod_add_mod]
      congr 2
      ring

theorem pos_add {bunch : ℕ} (hb : 0 < bunch) (gap i : ℕ) : pos bunch gap (i + bunch) = pos bunch gap i + bunch + gap := by
  unfold pos
  rw [Nat.add_div_right _ hb, Nat.succ_mul]
  omega

theorem pos_lt {bunch gap i : ℕ} (h : i < bunch) : pos bunch gap i = i := by
  rw [pos, Nat.div_eq_of_lt h]
  simp

theorem le_pos (bunch gap i : ℕ) : i ≤ pos bunch gap i := Nat.le_add_right _ _

theorem pos_strictMono (bunch gap : ℕ) : StrictMono (pos bunch gap) := by
  intro i j h
  unfold pos
  have : i / bunch * gap ≤ j / bunch * gap := Nat.mul_le_mul_right _ (Nat.div_le_div_right h.le)
  omega

theorem lt_bunchCount {bunch : ℕ} (hb : 0 < bunch) (gap length : ℕ) :
    ∀ i, i < bunchCount bunch gap length ↔ pos bunch gap i < length := by
  induction length using Nat.strong_induction_on with
  | _ length ih =>
    intro i
    rw [bunchCount]
    by_cases h1 : bunch = 0 ∨ length ≤ bunch
    · rw [dif_pos h1]
      constructor
      · intro h
        rwa [pos_lt (by omega)]
      · intro h
        exact lt_of_le_of_lt (le_pos _ _ _) h
    · rw [dif_neg h1]
      by_cases h2 : length - bunch ≤ gap
      · rw [if_pos h2]
        constructor
        · intro h
          rw [pos_lt h]
          omega
        · intro h
          by_contra hc
          have : pos bunch gap i = pos bunch gap (i - bunch) + bunch + gap := by
            rw [← pos_add hb]
            congr 1
            omega
          omega
      · rw [if_neg h2]
        rcases Nat.lt_or_ge i bunch with h | h
        · rw [pos_lt h]
          omega
        · have e := pos_add hb gap (i - bunch)
          rw [Nat.sub_add_cancel h] at e
          have := ih (length - bunch - gap) (by omega) (i - bunch)
          rw [e]
          omega

theorem mem_pos_iff {bunch : ℕ} (hb : 0 < bunch) (gap p : ℕ) :
    (∃ i, pos bunch gap i = p) ↔ p % (bunch + gap) < bunch := by
  constructor
  · rintro ⟨i, rfl⟩
    have e : pos bunch gap i = i % bunch + (bunch + gap) * (i / bunch) := by
      have := Nat.mod_add_div i bunch
      rw [pos, Nat.add_mul, Nat.mul_comm gap]
      omega
    rw [e, Nat.add_mul_mod_self_left]
    have : i % bunch < bunch := Nat.mod_lt _ hb
    rwa [Nat.mod_eq_of_lt (by omega)]
  · intro h
    refine ⟨p % (bunch + gap) + bunch * (p / (bunch + gap)), ?_⟩
    rw [pos, Nat.add_mul_div_left _ _ hb, Nat.div_eq_of_lt h, Nat.zero_add]
    have := Nat.mod_add_div p (bunch + gap)
    rw [Nat.add_mul] at this
    rw [Nat.mul_comm (p / (bunch + gap)) gap]
    omega

/-- Strictly increasing lists with the same elements are equal. -/
theorem eq_of_sorted {l l' : List ℕ} (h : l.Pairwise (· < ·)) (h' : l'.Pairwise (· < ·)) (hm : ∀ x, x ∈ l ↔ x ∈ l') :
    l = l' := by
  apply List.Perm.eq_of_pairwise' (r := (· < ·)) h h'
  exact (List.perm_ext_iff_of_nodup (h.imp Nat.ne_of_lt) (h'.imp Nat.ne_of_lt)).2 hm

theorem map_sorted {f : ℕ → ℕ} (hf : StrictMono f) (n : ℕ) : ((List.range n).map f).Pairwise (· < ·) := by
  rw [List.pairwise_map]
  exact List.pairwise_lt_range.imp fun h => hf h

theorem bunchVisited_pos {bunch gap length : ℕ} (hb : 0 < bunch) (hb' : bunch < 2 ^ 32) (hl : length ≤ 2 ^ 32) :
    bunchVisited bunch gap length = (List.range (bunchCount bunch gap length)).map (pos bunch gap) := by
  unfold bunchVisited
  apply List.map_congr_left
  intro i hi
  have h := (lt_bunchCount hb gap length i).1 (List.mem_range.1 hi)
  have h' := le_pos bunch gap i
  rw [advance, Nat.mod_eq_of_lt (by omega), advanceLoop_eq hb hb', Nat.mod_eq_of_lt (by omega)]

/-- C37 for `BunchIteratorRange`: exactly the positions of elements of bunches are visited, in increasing order, for
ranges of at most `2 ^ 32` elements. -/
theorem C37_bunch_partial {bunch gap length : ℕ} (hb : 0 < bunch) (hb' : bunch < 2 ^ 32) (hl : length ≤ 2 ^ 32) :
    bunchVisited bunch gap length = bunchSpec bunch gap length := by
  rw [bunchVisited_pos hb hb' hl]
  refine eq_of_sorted (map_sorted (pos_strictMono _ _) _) (List.pairwise_lt_range.filter _) fun x => ?_
  simp only [List.mem_map, List.mem_range, lt_bunchCount hb, bunchSpec, List.mem_filter, decide_eq_true_eq]
  rw [← mem_pos_iff hb]
  constructor
  · rintro ⟨i, hi, rfl⟩
    exact ⟨hi, i, rfl⟩
  · rintro ⟨hx, i, rfl⟩
    exact ⟨i, hx, rfl⟩

/-- C37 fails for longer ranges: the element at position `2 ^ 32` is not visited, and the first one twice. -/
theorem C37_bunch_violated : ∃ bunch gap length, 0 < bunch ∧ bunch < 2 ^ 32 ∧ gap < 2 ^ 32 ∧
    bunchVisited bunch gap length ≠ bunchSpec bunch gap length := by
  refine ⟨1, 0, 2 ^ 32 + 1, by norm_num, by norm_num, by norm_num, fun h => ?_⟩
  have hm : 2 ^ 32 ∈ bunchSpec 1 0 (2 ^ 32 + 1) := by
    rw [bunchSpec, List.mem_filter, List.mem_range]
    exact ⟨Nat.lt_succ_self _, by simp [Nat.mod_one]⟩
  rw [← h, bunchVisited, List.mem_map] at hm
  obtain ⟨i, -, hi⟩ := hm
  rw [advance, advanceLoop_eq (by norm_num) (by norm_num)] at hi
  have : pos 1 0 (i % 2 ^ 32) % 2 ^ 32 < 2 ^ 32 := Nat.mod_lt _ (by norm_num)
  exact absurd hi (Nat.ne_of_lt this)

/-- C37 for `StridedIteratorRange`. -/
theorem C37_strided {stride : ℕ} (hs : 0 < stride) (length : ℕ) :
    strideVisited stride length = strideSpec stride length := by
  refine eq_of_sorted (map_sorted (fun i j h => Nat.mul_lt_mul_of_pos_left h hs) _)
    (List.pairwise_lt_range.filter _) fun x => ?_
  simp only [List.mem_map, List.mem_range, strideSpec, List.mem_filter, decide_eq_true_eq, strideVisited]
  have key : ∀ i, i < (length + (stride - 1)) / stride ↔ stride * i < length := by
    intro i
    rw [Nat.lt_iff_add_one_le, Nat.le_div_iff_mul_le hs, Nat.add_mul, Nat.mul_comm]
    omega
  constructor
  · rintro ⟨i, hi, rfl⟩
    exact ⟨(key i).1 hi, i, rfl⟩
  · rintro ⟨hx, i, rfl⟩
    exact ⟨i, (key i).2 hx, rfl⟩

theorem stepLoop_eq {pastEnd n current : ℕ} (h : current < pastEnd) :
    stepLoop pastEnd n current = min (current + n) pastEnd := by
  induction n generalizing current with
  | zero => simp [stepLoop, h.le]
  | succ n ih =>
    rw [stepLoop]
    split_ifs with h'
    · omega
    · rw [ih (by omega)]
      omega

/-- C37 for `StridedPointerIterator`: from every multiple of the stride (in particular, from the beginning), all
further multiples of the stride are visited, and the loop ends exactly past the end, without an exception. -/
theorem ptr_from {stride : ℕ} (hs : 0 < stride) (pastEnd : ℕ) (d : ℕ) :
    ∀ k, pastEnd - stride * k = d → stride * k < pastEnd →
      PtrVisits stride pastEnd (stride * k) ((strideSpec stride pastEnd).drop k) := by
  have hspec := C37_strided hs pastEnd
  induction d using Nat.strong_induction_on with
  | _ d ih =>
    intro k hd hk
    have hlen : k < (strideSpec stride pastEnd).length := by
      rw [← hspec, strideVisited, List.length_map, List.length_range, Nat.lt_iff_add_one_le, Nat.le_div_iff_mul_le hs,
        Nat.add_mul, Nat.mul_comm]
      omega
    have hget : (strideSpec stride pastEnd)[k] = stride * k := by
      simp only [← hspec, strideVisited, List.getElem_map, List.getElem_range]
    rw [List.drop_eq_getElem_cons hlen, hget]
    have hi : incr stride pastEnd (stride * k) = some (min (stride * k + stride) pastEnd) := by
      rw [incr, if_neg hk.ne, stepLoop_eq hk]
    refine .next hk.ne hi ?_
    rcases Nat.lt_or_ge (stride * k + stride) pastEnd with h | h
    · rw [Nat.min_eq_left h.le, ← Nat.mul_succ]
      rw [← Nat.mul_succ] at h
      exact ih _ (by rw [Nat.mul_succ] at *; omega) (k + 1) rfl h
    · rw [Nat.min_eq_right h]
      have : (strideSpec stride pastEnd).length ≤ k + 1 := by
        rw [← hspec, strideVisited, List.length_map, List.length_range, Nat.div_le_iff_le_mul_add_pred hs,
          Nat.mul_succ]
        omega
      rw [List.drop_eq_nil_of_le this]
      exact .done

/-- C37 for `StridedPointerIterator`: a loop from the beginning visits exactly the multiples of the stride. -/
theorem C37_pointer {stride : ℕ} (hs : 0 < stride) (length : ℕ) :
    PtrVisits stride length 0 (strideSpec stride length) := by
  rcases Nat.eq_zero_or_pos length with rfl | h
  · exact .done
  · simpa using ptr_from hs length length 0 (by simp) (by simpa using h)

theorem ptrVisits_unique {stride pastEnd c : ℕ} {l l' : List ℕ} (h : PtrVisits stride pastEnd c l)
    (h' : PtrVisits stride pastEnd c l') : l = l' := by
  induction h generalizing l' with
  | done =>
    cases h' with
    | done => rfl
    | next h => exact absurd rfl h
  | next hc hi hl ih =>
    cases h' with
    | done => exact absurd rfl hc
    | next hc' hi' hl' =>
      rw [hi] at hi'
      cases Option.some.inj hi'
      rw [ih hl']

/-- C37: such a loop visits nothing else. -/
theorem C37_pointer_unique {stride : ℕ} (hs : 0 < stride) (length : ℕ) {l : List ℕ}
    (h : PtrVisits stride length 0 l) : l = strideSpec stride length :=
  ptrVisits_unique h (C37_pointer hs length)

/-- C37: advancing by several steps at once does the same as single steps, and does not go past the end. -/
theorem C37_pointer_add (stride : ℕ) {length current : ℕ} (h : current < length) (n : ℕ) :
    addAssign stride length n current = some (min (current + stride * n) length) := by
  induction n generalizing current with
  | zero => simp [addAssign, h.le]
  | succ n ih =>
    rw [addAssign, incr, if_neg h.ne, Option.bind_some, stepLoop_eq h]
    have e : stride * (n + 1) = stride + stride * n := by ring
    split_ifs with h'
    · congr 1
      omega
    · rw [ih (by omega)]
      congr 1
      omega

/-- The documented example. -/
example : bunchSpec 3 2 12 = [0, 1, 2, 5, 6, 7, 10, 11] := by decide

example : strideSpec 3 8 = [0, 3, 6] := by decide

end OpenMPCD.Ranges
