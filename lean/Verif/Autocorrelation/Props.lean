import Verif.Autocorrelation.Model
import Verif.DDDA.Props

/-!
# Property C09: autocorrelation
-/

set_option linter.unusedSectionVars false

namespace OpenMPCD.Spec

/-- The products `x_{i+N} * x_i` for all `i` for which both exist, in order. -/
def lagProducts {X K : Type} (mult : X → X → K) (N : ℕ) (xs : List X) : List K :=
  List.zipWith (fun later earlier => mult later earlier) (xs.drop N) xs

end OpenMPCD.Spec

namespace OpenMPCD.Autocorrelation

open DDDA (DDDA feedD)

variable {K : Type} [Field K] [LinearOrder K] [IsStrictOrderedRing K] {X : Type}

/-- What the object holds for correlation time `N` after `xs`. -/
def lagState (mult : X → X → K) (N : ℕ) (xs : List X) : Lag K X :=
  (feedD (Spec.lagProducts mult N xs), if N = 0 then [] else xs.drop (xs.length - N))

theorem lagProducts_snoc (mult : X → X → K) (N : ℕ) (xs : List X) (x : X) :
    Spec.lagProducts mult N (xs ++ [x]) =
      Spec.lagProducts mult N xs ++
        (match (xs ++ [x])[xs.length - N]? with
          | some y => if N ≤ xs.length then [mult x y] else []
          | none => []) := by
  unfold Spec.lagProducts
  by_cases h : N ≤ xs.length
  · have hi : xs.length - N < (xs ++ [x]).length := by simp
    rw [List.getElem?_eq_getElem hi]
    simp only [h, if_true]
    rw [List.drop_append_of_le_length h]
    have hlen : (xs.drop N).length = xs.length - N := by simp
    have hsplit : (xs.drop N ++ [x]).zipWith (fun later earlier => mult later earlier)
        ((xs ++ [x]).take (xs.length - N) ++ (xs ++ [x]).drop (xs.length - N)) =
        (xs.drop N).zipWith (fun later earlier => mult later earlier)
          ((xs ++ [x]).take (xs.length - N)) ++
        [x].zipWith (fun later earlier => mult later earlier)
          ((xs ++ [x]).drop (xs.length - N)) :=
      List.zipWith_append (by rw [List.length_take, List.length_drop, List.length_append]; omega)
    rw [List.take_append_drop] at hsplit
    rw [hsplit]
    congr 1
    · rw [List.take_append_of_le_length (by omega)]
      conv_rhs => rw [List.zipWith_eq_zipWith_take_min]
      rw [hlen, List.take_of_length_le (l := xs.drop N) (by rw [hlen]; omega),
        show min (xs.length - N) xs.length = xs.length - N by omega]
    · have hcons : (xs ++ [x]).drop (xs.length - N) =
          (xs ++ [x])[xs.length - N] :: (xs ++ [x]).drop (xs.length - N + 1) :=
        List.drop_eq_getElem_cons hi
      rw [hcons]
      simp only [List.zipWith_cons_cons, List.zipWith_nil_left]
  · have h' : xs.length + 1 ≤ N := by omega
    rw [List.drop_of_length_le (by simpa using h'), List.drop_of_length_le (by omega)]
    simp only [List.zipWith_nil_left, List.nil_append]
    split
    · simp [h]
    · rfl

theorem stepLag_state (mult : X → X → K) (N : ℕ) (hN : N ≠ 0) (xs : List X) (x : X) :
    stepLag mult x N (lagState mult N xs) = .ok (lagState mult N (xs ++ [x])) := by
  unfold stepLag lagState
  simp only [hN, if_false, List.length_drop]
  by_cases h : N ≤ xs.length
  · have h1 : xs.length - (xs.length - N) = N := by omega
    rw [if_pos h1]
    have hi : xs.length - N < xs.length := by omega
    rw [List.drop_eq_getElem_cons hi]
    simp only
    rw [lagProducts_snoc]
    have hi' : xs.length - N < (xs ++ [x]).length := by simp
    rw [List.getElem?_eq_getElem hi']
    simp only [h, if_true, ← DDDA.feedD_append_singleton]
    rw [List.getElem_append_left hi, List.length_append, List.length_singleton,
      show xs.length + 1 - N = xs.length - N + 1 by omega,
      List.drop_append_of_le_length (by omega)]
  · rw [if_neg (by omega), lagProducts_snoc]
    have : xs.length - N = 0 := by omega
    have h2 : (xs ++ [x]).length - N = 0 := by simp; omega
    rw [this, h2]
    simp only [List.drop_zero, h, if_false]
    split <;> simp

theorem stepLags_state (mult : X → X → K) (xs : List X) (x : X) (m : ℕ) :
    ∀ N, N ≠ 0 → stepLags mult x N ((List.range m).map fun i => lagState mult (N + i) xs) =
      .ok ((List.range m).map fun i => lagState mult (N + i) (xs ++ [x])) := by
  induction m with
  | zero => intro N _; simp [stepLags]
  | succ m ih =>
    intro N hN
    have h := ih (N + 1) (by omega)
    rw [List.range_succ_eq_map]
    simp only [List.map_cons, List.map_map, Nat.add_zero, stepLags, stepLag_state mult N hN, bind,
      Except.bind]
    have e : ∀ ys : List X, ((List.range m).map ((fun i => lagState mult (N + i) ys) ∘ Nat.succ)) =
        (List.range m).map fun i => lagState mult (N + 1 + i) ys := by
      intro ys
      apply List.map_congr_left
      intro i _
      simp only [Function.comp, Nat.succ_eq_add_one]
      congr 1; omega
    rw [e, e, h]

/-- State after any data. -/
def stateAfter (mult : X → X → K) (m : ℕ) (xs : List X) : Autocorr K X :=
  ⟨m, (List.range (m + 1)).map fun i => lagState mult i xs⟩

theorem addDatum_state (mult : X → X → K) (m : ℕ) (xs : List X) (x : X) :
    (stateAfter mult m xs).addDatum mult x = .ok (stateAfter mult m (xs ++ [x])) := by
  have h := stepLags_state mult xs x m 1 (by omega)
  have e : ∀ ys : List X, (List.range (m + 1)).map (fun i => lagState mult i ys) =
      lagState mult 0 ys :: (List.range m).map fun i => lagState mult (1 + i) ys := by
    intro ys
    rw [List.range_succ_eq_map, List.map_cons, List.map_map]
    congr 1
    apply List.map_congr_left
    intro i _
    simp only [Function.comp, Nat.succ_eq_add_one]
    congr 1; omega
  have h0 : lagState mult 0 (xs ++ [x]) =
      (DDDA.addDatum (lagState mult 0 xs).1 (mult x x), (lagState mult 0 xs).2) := by
    simp only [lagState, if_true, ← DDDA.feedD_append_singleton, lagProducts_snoc, Nat.zero_le,
      Nat.sub_zero]
    simp
  unfold stateAfter Autocorr.addDatum
  rw [e, e]
  simp only [h, bind, Except.bind, h0]

theorem addData_state (mult : X → X → K) (m : ℕ) (xs ys : List X) :
    (stateAfter mult m xs).addData mult ys = .ok (stateAfter mult m (xs ++ ys)) := by
  induction ys generalizing xs with
  | nil => simp [Autocorr.addData]
  | cons y ys ih =>
    simp only [Autocorr.addData, addDatum_state, bind, Except.bind, ih]
    simp

/-- C09: constructing with maximal correlation time `m` and supplying any data never raises; afterwards,
for every correlation time `N` up to the maximum, the autocorrelation is available exactly if there
are more than `N` data, and it then is the (blocking) statistics of the products `x_{i+N} * x_i`;
otherwise, and for other `N`, asking for it raises `ValueError`. -/
theorem C09_autocorrelation (mult : X → X → K) (m : ℕ) (xs : List X) :
    ∃ a b, construct (m : ℤ) = .ok a ∧ a.addData mult xs = .ok b ∧
      ∀ N : ℤ,
        (b.correlationTimeIsAvailable N =
          if 0 ≤ N ∧ N ≤ m then .ok (decide (N < xs.length)) else .error .valueError) ∧
        (b.getAutocorrelation N =
          if 0 ≤ N ∧ N ≤ m ∧ N < xs.length
          then .ok (feedD (Spec.lagProducts mult N.toNat xs)) else .error .valueError) := by
  have h0 : construct (m : ℤ) = .ok (stateAfter mult m ([] : List X) : Autocorr K X) := by
    unfold construct
    rw [if_neg (by omega)]
    congr 2
    apply List.ext_getElem
    · simp
    · intro i h1 h2
      simp [lagState, Spec.lagProducts, feedD]
  refine ⟨_, _, h0, addData_state mult m [] xs, fun N => ?_⟩
  simp only [List.nil_append]
  have hav : (stateAfter mult m xs).correlationTimeIsAvailable N =
      if 0 ≤ N ∧ N ≤ m then .ok (decide (N < xs.length)) else .error .valueError := by
    unfold Autocorr.correlationTimeIsAvailable
    by_cases h1 : N < 0
    · simp [h1]
    by_cases h2 : N > (m : ℤ)
    · rw [if_neg h1, if_pos (by simpa [stateAfter] using h2), if_neg (by omega)]
    · rw [if_neg h1, if_neg (by simpa [stateAfter] using h2), if_pos (by omega)]
      have : (stateAfter mult m xs).lags[0]? = some (lagState mult 0 xs) := by simp [stateAfter]
      rw [this]
      have hl : (Spec.lagProducts mult 0 xs).length = xs.length := by simp [Spec.lagProducts]
      simp only [lagState, (DDDA.C05_size_mean _).1, hl, bind, Except.bind, gt_iff_lt]
  refine ⟨hav, ?_⟩
  unfold Autocorr.getAutocorrelation
  by_cases h1 : N < 0
  · simp [h1]
  by_cases h2 : N > (m : ℤ)
  · rw [if_neg h1, if_pos (by simpa [stateAfter] using h2), if_neg (by omega)]
  · rw [if_neg h1, if_neg (by simpa [stateAfter] using h2), hav, if_pos (by omega)]
    by_cases h3 : N < xs.length
    · have h4 : 0 ≤ N ∧ N ≤ (m : ℤ) ∧ N < xs.length := by omega
      have hlt : N.toNat < m + 1 := by omega
      have : (stateAfter mult m xs).lags[N.toNat]? = some (lagState mult N.toNat xs) := by
        simp [stateAfter, hlt]
      simp only [bind, Except.bind, h3, h4, decide_true, not_true, if_false, this, if_true, and_self,
        lagState]
    · have h4 : ¬ (0 ≤ N ∧ N ≤ (m : ℤ) ∧ N < xs.length) := by omega
      rw [if_neg h4]
      simp only [bind, Except.bind, h3, decide_false, Bool.false_eq_true, not_false_eq_true,
        if_true]

/-- C09: hence the mean reported at correlation time `N < n` is `1 / (n - N)` times the sum of the
products. -/
theorem C09_mean (mult : X → X → K) (m : ℕ) (xs : List X) (N : ℕ) (hN : N ≤ m)
    (hn : N < xs.length) :
    ∃ a b c, construct (m : ℤ) = .ok a ∧ a.addData mult xs = .ok b ∧
      b.getAutocorrelation N = .ok c ∧ DDDA.getSampleSize c = .ok (xs.length - N) ∧
      DDDA.getSampleMean c = .ok ((Spec.lagProducts mult N xs).sum / ((xs.length - N : ℕ) : K)) := by
  obtain ⟨a, b, h1, h2, h3⟩ := C09_autocorrelation mult m xs
  have h := (h3 N).2
  rw [if_pos ⟨by omega, by exact_mod_cast hN, by exact_mod_cast hn⟩, Int.toNat_natCast] at h
  have hl : (Spec.lagProducts mult N xs).length = xs.length - N := by
    simp [Spec.lagProducts]
  refine ⟨a, b, _, h1, h2, h, by rw [(DDDA.C05_size_mean _).1, hl], ?_⟩
  rw [(DDDA.C05_size_mean _).2, if_neg]
  · simp [Spec.mean, hl]
  · intro h0; rw [h0] at hl; simp at hl; omega

/-- C09: a negative maximal correlation time is rejected. -/
theorem C09_negative (m : ℤ) (h : m < 0) :
    (construct m : Except PyErr (Autocorr K X)) = .error .valueError := by simp [construct, h]

/-- Data `1, 2, 3, 5`, correlation time 2: products `3 * 1` and `5 * 2`. -/
example : Spec.lagProducts (fun a b : ℚ => a * b) 2 [1, 2, 3, 5] = [3, 10] := by
  norm_num [Spec.lagProducts]

end OpenMPCD.Autocorrelation
