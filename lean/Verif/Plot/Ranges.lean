import Mathlib.Data.List.Basic
import Mathlib.Data.List.Range
import Mathlib.Data.List.Chain
import Mathlib.Order.Basic

/-!
# C48: ranges of equal sign, `PlotTools.findRangesOfEqualSign`
-/

namespace OpenMPCD.Plot

/-! ## Model -/

/-- The variables of the loop. `sign` is `None` before the first iteration. -/
structure LoopState where
  sign : Option Bool
  lastPos : ℕ
  ranges : List ((ℕ × ℕ) × Bool)

/-- The body of the loop (`Analysis/MPCDAnalysis/PlotTools.py:13-24`); `pos` is `value >= 0`. -/
def loopBody (s : LoopState) (index : ℕ) (pos : Bool) : LoopState :=
  match s.sign with
  | none => { s with sign := some pos, lastPos := 0 }
  | some sign =>
    if pos ≠ sign then ⟨some (!sign), index, s.ranges ++ [((s.lastPos, index), sign)]⟩ else s

/-- The loop (`Analysis/MPCDAnalysis/PlotTools.py:12-24`), starting at the given index. -/
def loop : ℕ → List Bool → LoopState → LoopState
  | _, [], s => s
  | index, pos :: rest, s => loop (index + 1) rest (loopBody s index pos)

/-- `findRangesOfEqualSign` (`Analysis/MPCDAnalysis/PlotTools.py:5-29`), for numbers compared to zero
by `nonneg`; a range `[a, b]` is a pair. The first element of the list makes `sign` not `None`, the
value `true` standing in for `None` at the end is not reached. -/
def findRangesOfEqualSign {α : Type*} (nonneg : α → Bool) (data : List α) :
    List ((ℕ × ℕ) × Bool) :=
  if data.length = 0 then []
  else
    let s := loop 0 (data.map nonneg) ⟨none, 0, []⟩
    s.ranges ++ [((s.lastPos, data.length), s.sign.getD true)]

/-! ## Specification -/

/-- The indices `a, ..., b - 1`. -/
def indices (r : (ℕ × ℕ) × Bool) : List ℕ := List.range' r.1.1 (r.1.2 - r.1.1)

/-- What the ranges are to be. -/
structure SignRanges {α : Type*} (nonneg : α → Bool) (data : List α)
    (ranges : List ((ℕ × ℕ) × Bool)) : Prop where
  /-- Together, in order, the ranges contain every index once. -/
  cover : ranges.flatMap indices = List.range data.length
  /-- No range is empty. -/
  nonempty : ∀ r ∈ ranges, r.1.1 < r.1.2
  /-- All elements in a range have the sign noted with it. -/
  sign : ∀ r ∈ ranges, ∀ i ∈ indices r, ∀ v, data[i]? = some v → nonneg v = r.2
  /-- Adjacent ranges have different signs. -/
  alternate : ranges.IsChain (fun r r' => r.2 ≠ r'.2)

/-! ## Proof -/

theorem range'_split (a m n : ℕ) (h : m ≤ n) :
    List.range' a m ++ List.range' (a + m) (n - m) = List.range' a n := by
  have e := List.range'_append (s := a) (m := m) (n := n - m) (step := 1)
  rw [Nat.one_mul, Nat.add_sub_cancel' h] at e
  exact e

/-- What the loop maintains, after the signs `done`. -/
structure Inv (done : List Bool) (s : LoopState) (sign : Bool) : Prop where
  sgn : s.sign = some sign
  lt : s.lastPos < done.length
  cover : s.ranges.flatMap indices = List.range s.lastPos
  nonempty : ∀ r ∈ s.ranges, r.1.1 < r.1.2
  signs : ∀ r ∈ s.ranges, ∀ i ∈ indices r, done[i]? = some r.2
  last : ∀ i, s.lastPos ≤ i → i < done.length → done[i]? = some sign
  alternate : (s.ranges ++ [((s.lastPos, done.length), sign)]).IsChain (fun r r' => r.2 ≠ r'.2)

theorem chain_last {R : List ((ℕ × ℕ) × Bool)} {a b b' : ℕ} {g : Bool}
    (h : (R ++ [((a, b), g)]).IsChain (fun r r' => r.2 ≠ r'.2)) :
    (R ++ [((a, b'), g)]).IsChain (fun r r' => r.2 ≠ r'.2) := by
  rw [List.isChain_append] at h ⊢
  exact ⟨h.1, by simp, fun x hx y hy => by
    simp only [List.head?_cons, Option.mem_def, Option.some.injEq] at hy
    have := h.2.2 x hx ((a, b), g) (by simp)
    rw [← hy]; exact this⟩

theorem inv_step {done : List Bool} {s : LoopState} {sign : Bool} (h : Inv done s sign) (pos : Bool) :
    ∃ sign', Inv (done ++ [pos]) (loopBody s done.length pos) sign' := by
  have hg : ∀ (i : ℕ) (b : Bool), done[i]? = some b → (done ++ [pos])[i]? = some b := by
    intro i b hi
    rw [List.getElem?_append_left (List.getElem?_eq_some_iff.1 hi).1, hi]
  by_cases hp : pos ≠ sign
  · refine ⟨!sign, ?_⟩
    have hb : loopBody s done.length pos =
        ⟨some (!sign), done.length, s.ranges ++ [((s.lastPos, done.length), sign)]⟩ := by
      simp only [loopBody, h.sgn, if_pos hp]
    have hpos : pos = !sign := by cases pos <;> cases sign <;> simp_all
    rw [hb]
    refine ⟨rfl, by simp, ?_, ?_, ?_, ?_, ?_⟩
    · have := h.lt
      simp only [List.flatMap_append, h.cover, List.flatMap_cons, List.flatMap_nil, List.append_nil,
        indices, List.range_eq_range']
      simpa using range'_split 0 s.lastPos done.length (by omega)
    · intro r hr
      rcases List.mem_append.1 hr with hr | hr
      · exact h.nonempty r hr
      · rw [List.mem_singleton.1 hr]; exact h.lt
    · intro r hr i hi
      rcases List.mem_append.1 hr with hr | hr
      · exact hg _ _ (h.signs r hr i hi)
      · rw [List.mem_singleton.1 hr] at hi ⊢
        simp only [indices, List.mem_range'_1] at hi
        exact hg _ _ (h.last i hi.1 (by have := h.lt; omega))
    · intro i h1 h2
      have : i = done.length := by simp at h1 h2; omega
      subst this
      simp [hpos]
    · rw [List.isChain_append]
      refine ⟨h.alternate, by simp, ?_⟩
      intro x hx y hy
      simp at hx hy
      rw [← hx, ← hy]
      simp
  · refine ⟨sign, ?_⟩
    have hpos : pos = sign := not_not.1 hp
    have hb : loopBody s done.length pos = s := by
      simp only [loopBody, h.sgn, if_neg hp]
    rw [hb]
    refine ⟨h.sgn, by have := h.lt; simp; omega, h.cover, h.nonempty,
      fun r hr i hi => hg _ _ (h.signs r hr i hi), ?_, ?_⟩
    · intro i h1 h2
      by_cases hi : i < done.length
      · exact hg _ _ (h.last i h1 hi)
      · have : i = done.length := by simp at h2; omega
        subst this
        simp [hpos]
    · exact chain_last h.alternate

theorem inv_loop (rest done : List Bool) (s : LoopState) (sign : Bool) (h : Inv done s sign) :
    ∃ sign', Inv (done ++ rest) (loop done.length rest s) sign' := by
  induction rest generalizing done s sign with
  | nil => exact ⟨sign, by simpa [loop] using h⟩
  | cons pos rest ih =>
    obtain ⟨sign', h'⟩ := inv_step h pos
    obtain ⟨sign'', h''⟩ := ih (done ++ [pos]) _ sign' h'
    refine ⟨sign'', ?_⟩
    simpa [loop] using h''

/-- C48: the ranges returned cover every index exactly once and in order, no range is empty, all values
of a range lie on the side of zero noted with it, and adjacent ranges differ in sign. -/
theorem C48_ranges {α : Type*} (nonneg : α → Bool) (data : List α) :
    SignRanges nonneg data (findRangesOfEqualSign nonneg data) := by
  cases data with
  | nil => exact ⟨rfl, by simp [findRangesOfEqualSign], by simp [findRangesOfEqualSign],
      by simp [findRangesOfEqualSign]⟩
  | cons v vs =>
    have h0 : Inv [nonneg v] (loopBody ⟨none, 0, []⟩ 0 (nonneg v)) (nonneg v) := by
      refine ⟨rfl, by simp [loopBody], by simp [loopBody], by simp [loopBody], by simp [loopBody],
        ?_, by simp [loopBody]⟩
      intro i _ h2
      have : i = 0 := by simpa using h2
      subst this; rfl
    obtain ⟨sign, h⟩ := inv_loop (vs.map nonneg) [nonneg v] _ _ h0
    have hl : loop 0 ((v :: vs).map nonneg) ⟨none, 0, []⟩ =
        loop 1 (vs.map nonneg) (loopBody ⟨none, 0, []⟩ 0 (nonneg v)) := rfl
    have hlen : [nonneg v].length = 1 := rfl
    rw [hlen, ← hl] at h
    have hd : [nonneg v] ++ vs.map nonneg = (v :: vs).map nonneg := rfl
    rw [hd] at h
    have hf : findRangesOfEqualSign nonneg (v :: vs) =
        (loop 0 ((v :: vs).map nonneg) ⟨none, 0, []⟩).ranges ++
          [(((loop 0 ((v :: vs).map nonneg) ⟨none, 0, []⟩).lastPos, (v :: vs).length), sign)] := by
      unfold findRangesOfEqualSign
      rw [if_neg (by simp)]
      simp only [h.sgn, Option.getD_some]
    have hlt := h.lt
    rw [List.length_map] at hlt
    have hmap : ∀ (i : ℕ) (w : α) (b : Bool), ((v :: vs).map nonneg)[i]? = some b →
        (v :: vs)[i]? = some w → nonneg w = b := by
      intro i w b h1 h2
      rw [List.getElem?_map, h2] at h1
      simpa using h1
    rw [hf]
    set s := loop 0 ((v :: vs).map nonneg) ⟨none, 0, []⟩ with hs
    refine ⟨?_, ?_, ?_, ?_⟩
    · simp only [List.flatMap_append, h.cover, List.flatMap_cons, List.flatMap_nil, List.append_nil,
        indices, List.range_eq_range']
      simpa using range'_split 0 s.lastPos (v :: vs).length (by omega)
    · intro r hr
      rcases List.mem_append.1 hr with hr | hr
      · exact h.nonempty r hr
      · rw [List.mem_singleton.1 hr]; exact hlt
    · intro r hr i hi w hw
      rcases List.mem_append.1 hr with hr | hr
      · exact hmap i w _ (h.signs r hr i hi) hw
      · rw [List.mem_singleton.1 hr] at hi ⊢
        simp only [indices, List.mem_range'_1] at hi
        exact hmap i w _ (h.last i hi.1 (by rw [List.length_map]; omega)) hw
    · have := h.alternate
      rw [List.length_map] at this
      exact this

/-- C48: the conditions of the specification determine the ranges. -/
theorem C48_unique {α : Type*} (nonneg : α → Bool) (data : List α)
    (ranges : List ((ℕ × ℕ) × Bool)) (h : SignRanges nonneg data ranges) :
    ranges = findRangesOfEqualSign nonneg data := by
  -- both are determined by the first range, and so on
  have key : ∀ (R R' : List ((ℕ × ℕ) × Bool)) (a n : ℕ),
      R.flatMap indices = List.range' a n → R'.flatMap indices = List.range' a n →
      (∀ r ∈ R, r.1.1 < r.1.2) → (∀ r ∈ R', r.1.1 < r.1.2) →
      (∀ r ∈ R, ∀ i ∈ indices r, ∀ v, data[i]? = some v → nonneg v = r.2) →
      (∀ r ∈ R', ∀ i ∈ indices r, ∀ v, data[i]? = some v → nonneg v = r.2) →
      R.IsChain (fun r r' => r.2 ≠ r'.2) → R'.IsChain (fun r r' => r.2 ≠ r'.2) →
      a + n ≤ data.length → R = R' := by
    intro R
    induction R with
    | nil =>
      intro R' a n h1 h2 _ h4 _ _ _ _ _
      cases R' with
      | nil => rfl
      | cons r' R' =>
        exfalso
        have hn : n = 0 := by
          have := congrArg List.length h1
          simpa using this.symm
        subst hn
        have := congrArg List.length h2
        have h4' := h4 r' (by simp)
        simp [indices] at this
        omega
    | cons r R ih =>
      intro R' a n h1 h2 h3 h4 h5 h6 h7 h8 hle
      cases R' with
      | nil =>
        exfalso
        have hn : n = 0 := by
          have := congrArg List.length h2
          simpa using this.symm
        subst hn
        have := congrArg List.length h1
        have h3' := h3 r (by simp)
        simp [indices] at this
        omega
      | cons r' R' =>
        -- lengths of the first ranges
        have e := h1.trans h2.symm
        rw [List.flatMap_cons] at h1 h2
        have l1 := h3 r (by simp)
        have l2 := h4 r' (by simp)
        have first : ∀ (q : (ℕ × ℕ) × Bool) (Q : List ((ℕ × ℕ) × Bool)), q.1.1 < q.1.2 →
            indices q ++ Q.flatMap indices = List.range' a n →
            q.1.1 = a ∧ q.1.2 ≤ a + n ∧ Q.flatMap indices = List.range' q.1.2 (a + n - q.1.2) := by
          intro q Q hq hQ
          have hlen := congrArg List.length hQ
          simp only [List.length_append, indices, List.length_range'] at hlen
          have e1 : indices q = List.range' a (q.1.2 - q.1.1) := by
            have := congrArg (List.take (q.1.2 - q.1.1)) hQ
            rw [List.take_left' (by simp [indices])] at this
            rw [this, ← range'_split a (q.1.2 - q.1.1) n (by omega), List.take_left' (by simp)]
          have e2 : q.1.1 = a := by
            have := congrArg List.head? e1
            simp only [indices] at this
            obtain ⟨m, hm⟩ : ∃ m, q.1.2 - q.1.1 = m + 1 := ⟨q.1.2 - q.1.1 - 1, by omega⟩
            rw [hm] at this
            simpa [List.range'_succ] using this
          refine ⟨e2, by omega, ?_⟩
          have := congrArg (List.drop (q.1.2 - q.1.1)) hQ
          rw [List.drop_left' (by simp [indices])] at this
          rw [this, List.drop_range']
          congr 1 <;> omega
        obtain ⟨a1, a2, a3⟩ := first r R l1 h1
        obtain ⟨b1, b2, b3⟩ := first r' R' l2 h2
        -- the signs agree
        have sgn : r.2 = r'.2 := by
          obtain ⟨v, hv⟩ : ∃ v, data[a]? = some v :=
            ⟨data[a]'(by omega), List.getElem?_eq_getElem (by omega)⟩
          rw [← h5 r (by simp) a (by simp [indices, a1]; omega) v hv]
          exact h6 r' (by simp) a (by simp [indices, b1]; omega) v hv
        -- the ends agree: otherwise the longer one would contain the beginning of the next range
        have stop : ∀ (q q' : (ℕ × ℕ) × Bool) (Q Q' : List ((ℕ × ℕ) × Bool)),
            q.1.1 = a → q'.1.1 = a → q'.1.2 ≤ a + n → q.2 = q'.2 → q.1.1 < q.1.2 →
            Q.flatMap indices = List.range' q.1.2 (a + n - q.1.2) →
            (∀ x ∈ Q, x.1.1 < x.1.2) →
            (∀ x ∈ Q, ∀ i ∈ indices x, ∀ v, data[i]? = some v → nonneg v = x.2) →
            (∀ i ∈ indices q', ∀ v, data[i]? = some v → nonneg v = q'.2) →
            (q :: Q).IsChain (fun r r' => r.2 ≠ r'.2) → ¬ q.1.2 < q'.1.2 := by
          intro q q' Q Q' c1 c2 c3 c4 c5 c6 c7 c8 c9 c10 hlt
          cases Q with
          | nil =>
            have := congrArg List.length c6
            simp at this
            omega
          | cons x Q =>
            have hx := c7 x (by simp)
            have hxa : x.1.1 = q.1.2 := by
              have := congrArg List.head? c6
              obtain ⟨m, hm⟩ : ∃ m, x.1.2 - x.1.1 = m + 1 := ⟨x.1.2 - x.1.1 - 1, by omega⟩
              obtain ⟨m', hm'⟩ : ∃ m', a + n - q.1.2 = m' + 1 := ⟨a + n - q.1.2 - 1, by omega⟩
              rw [List.flatMap_cons, hm'] at this
              simp only [indices, hm, List.range'_succ] at this
              simpa using this
            obtain ⟨v, hv⟩ : ∃ v, data[q.1.2]? = some v :=
              ⟨data[q.1.2]'(by omega), List.getElem?_eq_getElem (by omega)⟩
            have s1 := c8 x (by simp) q.1.2 (by simp [indices, hxa]; omega) v hv
            have s2 := c9 q.1.2 (by simp [indices]; omega) v hv
            rw [List.isChain_cons_cons] at c10
            apply c10.1
            rw [c4, ← s2, s1]
        have e12 : r.1.2 = r'.1.2 := by
          have x1 := stop r r' R R' a1 b1 b2 sgn l1 a3 (fun x hx => h3 x (by simp [hx]))
            (fun x hx => h5 x (by simp [hx])) (h6 r' (by simp)) h7
          have x2 := stop r' r R' R b1 a1 a2 sgn.symm l2 b3 (fun x hx => h4 x (by simp [hx]))
            (fun x hx => h6 x (by simp [hx])) (h5 r (by simp)) h8
          omega
        have er : r = r' := Prod.ext (Prod.ext (a1.trans b1.symm) e12) sgn
        rw [er, ih R' r.1.2 (a + n - r.1.2) a3 (by rw [e12]; exact b3)
          (fun x hx => h3 x (by simp [hx])) (fun x hx => h4 x (by simp [hx]))
          (fun x hx => h5 x (by simp [hx])) (fun x hx => h6 x (by simp [hx]))
          (List.IsChain.of_cons h7) (List.IsChain.of_cons h8) (by omega)]
  have h' := C48_ranges nonneg data
  exact key _ _ 0 data.length (by rw [h.cover, List.range_eq_range'])
    (by rw [h'.cover, List.range_eq_range']) h.nonempty h'.nonempty h.sign h'.sign h.alternate
    h'.alternate (by omega)

/-- A case with three ranges. -/
example : findRangesOfEqualSign (fun v : Int => decide (0 ≤ v)) [1, 0, -2, -1, 3] =
    [((0, 2), true), ((2, 4), false), ((4, 5), true)] := by decide

end OpenMPCD.Plot
