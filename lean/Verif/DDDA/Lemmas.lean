import Verif.DDDA.Model
import Verif.DDDA.Spec
import Verif.Stats.Lemmas
import Mathlib.Data.Nat.Log

/-! Auxiliary facts about the DDDA model. -/

set_option linter.unusedSectionVars false
set_option linter.dupNamespace false
set_option linter.unusedSimpArgs false

namespace OpenMPCD.DDDA

open Stats

variable {K : Type} [Field K] [LinearOrder K] [IsStrictOrderedRing K]

/-- A client adding data to a new object. -/
def feedD (xs : List K) : DDDA K := xs.foldl addDatum init

theorem feedD_append_singleton (xs : List K) (x : K) :
    feedD (xs ++ [x]) = addDatum (feedD xs) x := by simp [feedD]

/-! ### Adding data only -/

def pairMeans : List K → List K
  | a :: b :: r => (a + b) / 2 :: pairMeans r
  | _ => []

theorem pairMeans_length {K : Type} [Field K] (xs : List K) : (pairMeans xs).length = xs.length / 2 := by
  induction xs using pairMeans.induct with
  | case1 a b r ih => simp only [pairMeans, List.length_cons, ih]; omega
  | case2 xs h =>
    match xs, h with
    | [], _ => simp [pairMeans]
    | [x], _ => simp [pairMeans]
    | a :: b :: r, h => exact absurd rfl (h a b r)

theorem pairMeans_append_even (xs ys : List K) (h : xs.length % 2 = 0) :
    pairMeans (xs ++ ys) = pairMeans xs ++ pairMeans ys := by
  induction xs using pairMeans.induct with
  | case1 a b r ih =>
    simp only [List.length_cons] at h
    simp only [List.cons_append, pairMeans, ih (by omega)]
  | case2 xs h' =>
    match xs, h' with
    | [], _ => rfl
    | [x], _ => simp at h
    | a :: b :: r, h' => exact absurd rfl (h' a b r)

/-- The datum waiting for a partner. -/
def pendingOf (xs : List K) : Option K := if xs.length % 2 = 1 then xs.getLast? else none

/-- Closed form of the state after adding `xs`. -/
def layers (xs : List K) : DDDA K :=
  if _h : xs.length < 2 then [(feed xs, pendingOf xs)]
  else (feed xs, pendingOf xs) :: layers (pairMeans xs)
termination_by xs.length
decreasing_by simp only [pairMeans_length]; omega

theorem layers_lt {xs : List K} (h : xs.length < 2) :
    layers xs = [(feed xs, pendingOf xs)] := by rw [layers]; simp [h]

theorem layers_ge {xs : List K} (h : ¬ xs.length < 2) :
    layers xs = (feed xs, pendingOf xs) :: layers (pairMeans xs) := by
  conv_lhs => rw [layers]
  simp [h]

theorem pushFrom_layers (n : ℕ) : ∀ (xs : List K) (x : K), xs.length ≤ n →
    pushFrom x (layers xs) = layers (xs ++ [x]) := by
  induction n with
  | zero =>
    intro xs x h
    have : xs = [] := by simpa using h
    subst this
    rw [layers_lt (by simp), layers_lt (by simp)]
    simp [pushFrom, pendingOf, feed, addAll]
  | succ n ih =>
    intro xs x h
    by_cases hpar : xs.length % 2 = 1
    · -- there is a pending datum
      have hne : xs ≠ [] := by rintro rfl; simp at hpar
      obtain ⟨ys, w, rfl⟩ := List.eq_nil_or_concat' xs |>.resolve_left hne
      have hys : ys.length % 2 = 0 := by simp at hpar; omega
      have hp : pendingOf (ys ++ [w]) = some w := by simp only [pendingOf, hpar, if_true]; simp
      have hp' : pendingOf (ys ++ [w] ++ [x]) = none := by
        simp only [pendingOf]; rw [if_neg]; simp; omega
      have hpm : pairMeans (ys ++ [w] ++ [x]) = pairMeans (ys ++ [w]) ++ [(w + x) / 2] := by
        rw [List.append_assoc, pairMeans_append_even _ _ hys, pairMeans_append_even _ _ hys]
        simp [pairMeans]
      have h2 : ¬ (ys ++ [w] ++ [x]).length < 2 := by simp
      rw [layers_ge h2, hp', hpm]
      by_cases h1 : (ys ++ [w]).length < 2
      · have : ys = [] := by
          simp at h1; exact h1
        subst this
        rw [layers_lt h1, hp]
        simp only [pushFrom, pairMeans, List.nil_append]
        rw [layers_lt (by simp)]
        simp [feed, addAll, pendingOf]
      · rw [layers_ge h1, hp]
        simp only [pushFrom]
        rw [ih _ _ (by rw [pairMeans_length]; simp at h ⊢; omega)]
        rw [← feed_append_singleton]
    · -- no pending datum
      have hev : xs.length % 2 = 0 := by omega
      have hp : pendingOf xs = none := by simp [pendingOf, hev]
      have hp' : pendingOf (xs ++ [x]) = some x := by
        simp only [pendingOf]; rw [if_pos]; · simp
        simp; omega
      have hpm : pairMeans (xs ++ [x]) = pairMeans xs := by
        rw [pairMeans_append_even _ _ hev]; simp [pairMeans]
      by_cases h1 : xs.length < 2
      · have : xs = [] := by
          have : xs.length = 0 := by omega
          simpa using this
        subst this
        rw [layers_lt (by simp), layers_lt (by simp)]
        simp [pushFrom, pendingOf, feed, addAll]
      · have h1' : ¬ (xs ++ [x]).length < 2 := by
          rw [List.length_append]; omega
        rw [layers_ge h1, layers_ge h1', hp, hp', hpm]
        simp only [pushFrom, feed_append_singleton]

theorem feedD_eq_layers (xs : List K) : feedD xs = layers xs := by
  induction xs using List.reverseRecOn with
  | nil => rw [layers_lt (by simp)]; simp [feedD, init, pendingOf, feed, addAll]
  | append_singleton xs x ih =>
    rw [feedD_append_singleton, ih, addDatum, pushFrom_layers _ _ _ le_rfl]

theorem pairMeans_iter_length (k : ℕ) (xs : List K) :
    (pairMeans^[k] xs).length = xs.length / 2 ^ k := by
  induction k generalizing xs with
  | zero => simp
  | succ k ih => rw [Function.iterate_succ_apply, ih, pairMeans_length, pow_succ',
      Nat.div_div_eq_div_mul]

theorem layers_getElem? (k : ℕ) (xs : List K) :
    (layers xs)[k]? =
      if k = 0 ∨ 2 ^ k ≤ xs.length then
        some (feed (pairMeans^[k] xs), pendingOf (pairMeans^[k] xs)) else none := by
  induction k generalizing xs with
  | zero =>
    by_cases h : xs.length < 2
    · rw [layers_lt h]; simp
    · rw [layers_ge h]; simp
  | succ k ih =>
    by_cases h : xs.length < 2
    · rw [layers_lt h]
      have : ¬ 2 ^ (k + 1) ≤ xs.length := by
        have : 1 ≤ 2 ^ k := Nat.one_le_two_pow
        rw [pow_succ]; omega
      simp [this]
    · rw [layers_ge h]
      simp only [List.getElem?_cons_succ, ih, pairMeans_length, Function.iterate_succ_apply]
      have : (k = 0 ∨ 2 ^ k ≤ xs.length / 2) ↔ (k + 1 = 0 ∨ 2 ^ (k + 1) ≤ xs.length) := by
        rw [Nat.le_div_iff_mul_le (by norm_num), ← pow_succ]
        constructor
        · rintro (rfl | h')
          · right; simp; omega
          · right; exact h'
        · rintro (h' | h')
          · omega
          · right; exact h'
      simp only [this]

theorem layers_length (xs : List K) : (layers xs).length = Nat.log 2 xs.length + 1 := by
  have h : ∀ k, k < (layers xs).length ↔ (k = 0 ∨ 2 ^ k ≤ xs.length) := by
    intro k
    have := layers_getElem? k xs
    constructor
    · intro hk
      by_contra hn
      rw [if_neg hn] at this
      rw [List.getElem?_eq_none_iff] at this
      omega
    · intro hk
      rw [if_pos hk] at this
      exact (List.getElem?_eq_some_iff.mp this).1
  apply le_antisymm
  · by_contra hlt
    push Not at hlt
    have := (h _).mp hlt
    rcases this with h0 | h1
    · omega
    · by_cases hz : xs.length = 0
      · rw [hz] at h1; simp at h1
      · have := Nat.lt_pow_succ_log_self (b := 2) (by norm_num) xs.length
        omega
  · have : Nat.log 2 xs.length < (layers xs).length := by
      rw [h]
      by_cases hz : xs.length = 0
      · left; simp [hz]
      · right; exact Nat.pow_log_le_self 2 hz
    omega

/-! ### Pairwise means and group means -/

theorem pairMeans_drop (a : ℕ) (xs : List K) :
    pairMeans (xs.drop (2 * a)) = (pairMeans xs).drop a := by
  induction a generalizing xs with
  | zero => simp
  | succ a ih =>
    match xs with
    | [] => simp [pairMeans]
    | [x] =>
      have : ([x] : List K).drop (2 * (a + 1)) = [] := by
        apply List.drop_eq_nil_of_le; simp; omega
      rw [this]; simp [pairMeans]
    | x :: y :: r =>
      have : (x :: y :: r).drop (2 * (a + 1)) = r.drop (2 * a) := by
        rw [show 2 * (a + 1) = 2 * a + 1 + 1 by ring]; simp
      rw [this, ih]; simp [pairMeans]

theorem pairMeans_take (a : ℕ) (xs : List K) :
    pairMeans (xs.take (2 * a)) = (pairMeans xs).take a := by
  induction a generalizing xs with
  | zero => simp [pairMeans]
  | succ a ih =>
    match xs with
    | [] => simp [pairMeans]
    | [x] =>
      have : ([x] : List K).take (2 * (a + 1)) = [x] := by
        apply List.take_of_length_le; simp; omega
      rw [this]; simp [pairMeans]
    | x :: y :: r =>
      have : (x :: y :: r).take (2 * (a + 1)) = x :: y :: r.take (2 * a) := by
        rw [show 2 * (a + 1) = 2 * a + 1 + 1 by ring]; simp
      rw [this]; simp [pairMeans, ih]

theorem pairMeans_sum (xs : List K) (h : xs.length % 2 = 0) :
    (pairMeans xs).sum = xs.sum / 2 := by
  induction xs using pairMeans.induct with
  | case1 a b r ih =>
    simp only [List.length_cons] at h
    simp only [pairMeans, List.sum_cons, ih (by omega)]; ring
  | case2 xs h' =>
    match xs, h' with
    | [], _ => simp [pairMeans]
    | [x], _ => simp at h
    | a :: b :: r, h' => exact absurd rfl (h' a b r)

theorem mean_pairMeans (xs : List K) (h : xs.length % 2 = 0) :
    Spec.mean (pairMeans xs) = Spec.mean xs := by
  unfold Spec.mean
  rw [pairMeans_sum xs h, pairMeans_length]
  obtain ⟨m, hm⟩ : ∃ m, xs.length = 2 * m := ⟨xs.length / 2, by omega⟩
  rw [hm]
  have : 2 * m / 2 = m := by omega
  rw [this]; push_cast
  by_cases hm0 : (m : K) = 0
  · simp [hm0]
  · field_simp

theorem groupMeans_pairMeans (m : ℕ) (xs : List K) :
    Spec.groupMeans m (pairMeans xs) = Spec.groupMeans (2 * m) xs := by
  unfold Spec.groupMeans
  rw [pairMeans_length, Nat.div_div_eq_div_mul]
  apply List.map_congr_left
  intro j hj
  have hj' : (j + 1) * (2 * m) ≤ xs.length := by
    rw [List.mem_range] at hj
    have := Nat.div_mul_le_self xs.length (2 * m)
    calc (j + 1) * (2 * m) ≤ (xs.length / (2 * m)) * (2 * m) := Nat.mul_le_mul_right _ hj
      _ ≤ _ := this
  rw [← pairMeans_drop, ← pairMeans_take, mean_pairMeans]
  · ring_nf
  · rw [List.length_take, List.length_drop]
    have : (j + 1) * (2 * m) = 2 * (j * m) + 2 * m := by ring
    omega

theorem groupMeans_one (xs : List K) : Spec.groupMeans 1 xs = xs := by
  apply List.ext_getElem
  · simp [Spec.groupMeans]
  · intro i h1 h2
    simp only [Spec.groupMeans, List.getElem_map, List.getElem_range, mul_one, Spec.mean]
    rw [List.take_one, List.head?_drop, List.getElem?_eq_getElem h2]
    simp

theorem pairMeans_iter (k : ℕ) (xs : List K) :
    pairMeans^[k] xs = Spec.groupMeans (2 ^ k) xs := by
  induction k generalizing xs with
  | zero => simp [groupMeans_one]
  | succ k ih => rw [Function.iterate_succ_apply, ih, groupMeans_pairMeans, pow_succ']

/-- Block `k` after adding `xs`. -/
theorem feedD_getElem? (k : ℕ) (xs : List K) :
    (feedD xs)[k]? =
      if k = 0 ∨ 2 ^ k ≤ xs.length then
        some (feed (Spec.groupMeans (2 ^ k) xs), pendingOf (Spec.groupMeans (2 ^ k) xs))
      else none := by
  rw [feedD_eq_layers, layers_getElem?, pairMeans_iter]

theorem groupMeans_length (m : ℕ) (xs : List K) :
    (Spec.groupMeans m xs).length = xs.length / m := by simp [Spec.groupMeans]

/-! ### Merging -/

/-- The value of `mergeSample`, which never raises. -/
def mergeS (s t : OTFS K) : OTFS K :=
  match s.mergeSample t with
  | .ok u => u
  | .error _ => s

theorem mergeSample_ok (s t : OTFS K) :
    s.mergeSample t = .ok (mergeS s t) ∧ (mergeS s t).n = s.n + t.n := by
  unfold mergeS OTFS.mergeSample
  by_cases h0 : s.n = 0
  · simp [h0]
  by_cases h1 : s.n = 1
  · simp only [h0, h1, if_true, if_false]
    simp [OTFS.addDatum]; omega
  by_cases h2 : t.n = 0
  · simp [h0, h1, h2]
  by_cases h3 : t.n = 1
  · simp only [h0, h1, h2, h3, if_true, if_false]
    simp [OTFS.addDatum, OTFS.getSampleMean, h3, bind, Except.bind]
  have h4 : ¬ s.n ≤ 1 := by omega
  have h5 : ¬ t.n ≤ 1 := by omega
  simp only [h0, h1, h2, h3, if_false, OTFS.getSampleMean, OTFS.getSampleVariance, h4, h5, bind,
    Except.bind]
  exact ⟨trivial, rfl⟩

theorem mergeS_feed (xs ys : List K) : mergeS (feed xs) (feed ys) = feed (xs ++ ys) := by
  have h1 := mergeSample_feed xs ys
  rw [(mergeSample_ok _ _).1] at h1
  exact Except.ok.inj h1

/-- Blocks of `self` (padded) merged with those of `rhs`; pending data of `self` kept. -/
def zipMerge : DDDA K → DDDA K → DDDA K
  | [], r => r.map fun p => (mergeS fresh p.1, none)
  | s, [] => s
  | (b, w) :: s, (b2, _) :: r => (mergeS b b2, w) :: zipMerge s r

theorem mergeBlocks_replicate (r : DDDA K) :
    mergeBlocks (List.replicate r.length ((fresh : OTFS K), none)) (r.map Prod.fst) =
      .ok (r.map fun p => (mergeS fresh p.1, none)) := by
  induction r with
  | nil => simp [mergeBlocks]
  | cons p r ih =>
    simp only [List.length_cons, List.replicate_succ, List.map_cons, mergeBlocks,
      (mergeSample_ok fresh p.1).1, ih, bind, Except.bind]

theorem mergeBlocks_eq (s r : DDDA K) :
    mergeBlocks (padTo r.length s) (r.map Prod.fst) = .ok (zipMerge s r) := by
  induction s generalizing r with
  | nil => simp [padTo, zipMerge, mergeBlocks_replicate]
  | cons p s ih =>
    obtain ⟨b, w⟩ := p
    cases r with
    | nil => simp [padTo, zipMerge, mergeBlocks]
    | cons q r =>
      obtain ⟨b2, w2⟩ := q
      have hp : padTo (List.length ((b2, w2) :: r)) ((b, w) :: s) = (b, w) :: padTo r.length s := by
        simp [padTo]
      have := ih r
      simp only [hp, List.map_cons, mergeBlocks, (mergeSample_ok b b2).1, this, bind, Except.bind,
        zipMerge]

theorem merge_eq (s r : DDDA K) :
    merge s r = .ok (mergeWaiting (zipMerge s r) (r.map Prod.snd)) := by
  simp [merge, mergeBlocks_eq, bind, Except.bind]

theorem mergeWaiting_nil (d : DDDA K) : mergeWaiting d [] = d := by cases d <;> simp [mergeWaiting]

/-! #### The data hierarchy -/

def avg (p : K × K) : K := (p.1 + p.2) / 2
def flat (P : List (K × K)) : List K := P.flatMap fun p => [p.1, p.2]

/-- Intermediate states of `merge`: as the hierarchy, but the pending data `ws` of the argument have
been counted in the blocks and not yet been dealt with. -/
def Semi : List K → DDDA K → List (Option K) → Prop
  | D, [], ws => D = [] ∧ ws = []
  | D, (b, w) :: rest, ws =>
    D ≠ [] ∧ b = feed D ∧ ∃ P : List (K × K),
      D.Perm (flat P ++ (w.toList ++ (ws.headD none).toList)) ∧ Semi (P.map avg) rest ws.tail

theorem Semi.perm {D E : List K} (h : D.Perm E) {d : DDDA K} {ws : List (Option K)}
    (hs : Semi D d ws) : Semi E d ws := by
  match d, hs with
  | [], hs => exact ⟨by rw [hs.1] at h; exact h.nil_eq.symm, hs.2⟩
  | (b, w) :: rest, hs =>
    obtain ⟨hne, hb, P, hP, hr⟩ := hs
    refine ⟨?_, by rw [hb, feed_perm h], P, h.symm.trans hP, hr⟩
    rintro rfl
    exact hne (h.eq_nil)

theorem feed_cons_perm (x : K) (D : List K) : (feed D).addDatum x = feed (x :: D) := by
  rw [← feed_append_singleton]
  exact feed_perm (List.perm_append_singleton x D)

theorem Semi.push {D : List K} {d : DDDA K} {ws : List (Option K)} (h : Semi D d ws) (x : K) :
    Semi (x :: D) (pushFrom x d) ws := by
  induction d generalizing D ws x with
  | nil =>
    obtain ⟨rfl, rfl⟩ := h
    refine ⟨by simp, by simp [feed, addAll], [], by simp [flat], by simp [Semi]⟩
  | cons p rest ih =>
    obtain ⟨b, w⟩ := p
    obtain ⟨hne, hb, P, hP, hr⟩ := h
    cases w with
    | none =>
      refine ⟨by simp, by rw [hb, feed_cons_perm], P, ?_, hr⟩
      have h1 : (x :: D).Perm (x :: (flat P ++ (ws.headD none).toList)) :=
        List.Perm.cons x (by simpa using hP)
      refine h1.trans ?_
      simpa using (List.perm_middle (a := x) (l₁ := flat P) (l₂ := (ws.headD none).toList)).symm
    | some y =>
      have hrec := ih hr ((y + x) / 2)
      refine ⟨by simp, by rw [hb, feed_cons_perm], (y, x) :: P, ?_, by simpa [avg] using hrec⟩
      have h1 : (x :: D).Perm (x :: (flat P ++ ([y] ++ (ws.headD none).toList))) :=
        List.Perm.cons x (by simpa using hP)
      refine h1.trans ?_
      have h2 : (flat P ++ ([y] ++ (ws.headD none).toList)).Perm
          (y :: (flat P ++ (ws.headD none).toList)) := by
        simp
      refine (List.Perm.cons x h2).trans ?_
      simpa [flat] using List.Perm.swap y x (flat P ++ (ws.headD none).toList)

theorem Semi.finish {D : List K} {d : DDDA K} {ws : List (Option K)} (h : Semi D d ws) :
    Semi D (mergeWaiting d ws) [] := by
  induction ws generalizing D d with
  | nil =>
    cases d with
    | nil => simpa [mergeWaiting] using h
    | cons p rest => simpa [mergeWaiting] using h
  | cons w2 ws ih =>
    match d, h with
    | [], h => exact absurd h.2 (by simp)
    | (b, w) :: rest, h =>
      obtain ⟨hne, hb, P, hP, hr⟩ := h
      simp only [List.headD_cons, List.tail_cons] at hP hr
      cases w2 with
      | none =>
        simp only [mergeWaiting]
        exact ⟨hne, hb, P, by simpa using hP, by simpa using ih hr⟩
      | some y =>
        cases w with
        | none =>
          simp only [mergeWaiting]
          exact ⟨hne, hb, P, by simpa using hP, by simpa using ih hr⟩
        | some x =>
          simp only [mergeWaiting]
          have hpush : Semi (((x, y) :: P).map avg) (pushFrom ((x + y) / 2) rest) ws := by
            simpa [avg] using hr.push ((x + y) / 2)
          refine ⟨hne, hb, (x, y) :: P, ?_, by simpa using ih hpush⟩
          refine hP.trans ?_
          have := List.perm_append_comm (l₁ := flat P) (l₂ := [x, y])
          simpa [flat] using this

/-- Hierarchies of two operands give the intermediate state of the merge. -/
theorem Semi.zip {D E : List K} {s r : DDDA K} (hs : Semi D s []) (hr : Semi E r []) :
    Semi (D ++ E) (zipMerge s r) (r.map Prod.snd) := by
  induction s generalizing D E r with
  | nil =>
    obtain ⟨rfl, -⟩ := hs
    simp only [List.nil_append, zipMerge]
    induction r generalizing E with
    | nil => simpa using hr
    | cons q r ih =>
      obtain ⟨b2, w2⟩ := q
      obtain ⟨hne, hb, P, hP, hrr⟩ := hr
      refine ⟨hne, ?_, P, by simpa using hP, by simpa using ih hrr⟩
      have := mergeS_feed [] E
      rw [hb]; simpa [feed, addAll] using this
  | cons p s ih =>
    obtain ⟨b, w⟩ := p
    cases r with
    | nil =>
      obtain ⟨rfl, -⟩ := hr
      simpa [zipMerge] using hs
    | cons q r =>
      obtain ⟨b2, w2⟩ := q
      obtain ⟨hne, hb, P, hP, hsr⟩ := hs
      obtain ⟨hne2, hb2, P2, hP2, hrr⟩ := hr
      simp only [List.headD_nil, Option.toList_none, List.append_nil] at hP hP2
      refine ⟨by simp [hne], by rw [hb, hb2, mergeS_feed], P ++ P2, ?_, ?_⟩
      · simp only [List.map_cons, List.headD_cons]
        refine (hP.append hP2).trans ?_
        have hf : flat (P ++ P2) = flat P ++ flat P2 := by simp [flat]
        rw [hf, List.append_assoc, List.append_assoc]
        apply List.Perm.append_left
        rw [← List.append_assoc, ← List.append_assoc]
        apply List.Perm.append_right
        exact List.perm_append_comm
      · have := ih hsr hrr
        simpa using this

/-- Reports of the blocks, as the specification reads them. -/
def report (d : DDDA K) : List (Spec.BlockReport K) :=
  d.map fun p => ⟨p.1.n, p.1.M, p.1.S, p.2⟩

theorem Semi.hierarchy {D : List K} {d : DDDA K} (h : Semi D d []) :
    Spec.Hierarchy D (report d) := by
  induction d generalizing D with
  | nil => exact h.1
  | cons p d ih =>
    obtain ⟨b, w⟩ := p
    obtain ⟨hne, hb, P, hP, hr⟩ := h
    rw [feed_eq] at hb
    refine ⟨hne, by rw [hb], by rw [hb], by rw [hb], P, ?_, ih hr⟩
    simpa [flat] using hP

/-! #### Sizes: enough for the internal assertion, also with self-merges -/

/-- Block sizes: at least as many data as are pending, at least one, and at least two unless it is the
last block. -/
def SizesOk : DDDA K → List (Option K) → Prop
  | [], ws => ws = []
  | (b, w) :: rest, ws =>
    w.toList.length + (ws.headD none).toList.length ≤ b.n ∧ 1 ≤ b.n ∧ (rest ≠ [] → 2 ≤ b.n) ∧
      SizesOk rest ws.tail

theorem pushFrom_ne_nil (x : K) (d : DDDA K) : pushFrom x d ≠ [] := by
  match d with
  | [] => simp [pushFrom]
  | (b, none) :: r => simp [pushFrom]
  | (b, some w) :: r => simp [pushFrom]

theorem SizesOk.push {d : DDDA K} {ws : List (Option K)} (h : SizesOk d ws) (x : K) :
    SizesOk (pushFrom x d) ws := by
  induction d generalizing ws x with
  | nil =>
    have hw : ws = [] := h
    subst hw
    simp [pushFrom, SizesOk, fresh, OTFS.addDatum]
  | cons p rest ih =>
    obtain ⟨b, w⟩ := p
    obtain ⟨h1, h2, h3, h4⟩ := h
    cases w with
    | none =>
      refine ⟨?_, ?_, ?_, h4⟩
      · simp [OTFS.addDatum] at h1 ⊢; omega
      · simp [OTFS.addDatum]
      · intro hr; have := h3 hr; simp [OTFS.addDatum]; omega
    | some y =>
      refine ⟨?_, ?_, ?_, ih h4 _⟩
      · simp [OTFS.addDatum] at h1 ⊢; omega
      · simp [OTFS.addDatum]
      · intro _; simp [OTFS.addDatum]; omega

theorem SizesOk.finish {d : DDDA K} {ws : List (Option K)} (h : SizesOk d ws) :
    SizesOk (mergeWaiting d ws) [] := by
  induction ws generalizing d with
  | nil =>
    cases d with
    | nil => simpa [mergeWaiting] using h
    | cons p rest => simpa [mergeWaiting] using h
  | cons w2 ws ih =>
    match d, h with
    | [], h => exact absurd h (by simp [SizesOk])
    | (b, w) :: rest, h =>
      obtain ⟨h1, h2, h3, h4⟩ := h
      simp only [List.headD_cons, List.tail_cons] at h1 h4
      have hnil : ∀ {d : DDDA K} {v : List (Option K)}, SizesOk d v →
          mergeWaiting d v ≠ [] → d ≠ [] := by
        rintro d v - hm rfl
        exact hm (by simp [mergeWaiting])
      cases w2 with
      | none =>
        simp only [mergeWaiting]
        exact ⟨by simpa using h1, h2, fun hr => h3 (hnil h4 hr), by simpa using ih h4⟩
      | some y =>
        cases w with
        | none =>
          simp only [mergeWaiting]
          exact ⟨by simpa using h1, h2, fun hr => h3 (hnil h4 hr), by simpa using ih h4⟩
        | some x =>
          simp only [mergeWaiting]
          have : 2 ≤ b.n := by simpa using h1
          exact ⟨by simp, h2, fun _ => this, by simpa using ih (h4.push _)⟩

theorem SizesOk.zip {s r : DDDA K} (hs : SizesOk s []) (hr : SizesOk r []) :
    SizesOk (zipMerge s r) (r.map Prod.snd) := by
  induction s generalizing r with
  | nil =>
    simp only [zipMerge]
    clear hs
    induction r with
    | nil => simp [SizesOk]
    | cons q r ih =>
      obtain ⟨b2, w2⟩ := q
      obtain ⟨h1, h2, h3, h4⟩ := hr
      refine ⟨?_, ?_, ?_, by simpa using ih h4⟩
      · simp only [(mergeSample_ok _ _).2]; simpa [fresh] using h1
      · simp only [(mergeSample_ok _ _).2]; simpa [fresh] using h2
      · intro hne
        simp only [(mergeSample_ok _ _).2]
        have : r ≠ [] := by rintro rfl; simp at hne
        have := h3 this
        simpa [fresh] using this
  | cons p s ih =>
    obtain ⟨b, w⟩ := p
    cases r with
    | nil => simpa [zipMerge] using hs
    | cons q r =>
      obtain ⟨b2, w2⟩ := q
      obtain ⟨h1, h2, h3, h4⟩ := hs
      obtain ⟨g1, g2, g3, g4⟩ := hr
      refine ⟨?_, ?_, ?_, by simpa using ih h4 g4⟩
      · simp only [(mergeSample_ok _ _).2]
        simp at h1 g1 ⊢; omega
      · simp only [(mergeSample_ok _ _).2]; omega
      · intro _; simp only [(mergeSample_ok _ _).2]; omega

/-- Self-merge. -/
theorem mergeBlocks_self (d : DDDA K) :
    mergeBlocks d (d.map Prod.fst) = .ok (d.map fun p => (mergeS p.1 p.1, p.2)) := by
  induction d with
  | nil => simp [mergeBlocks]
  | cons p d ih =>
    obtain ⟨b, w⟩ := p
    simp only [List.map_cons, mergeBlocks, (mergeSample_ok b b).1, ih, bind, Except.bind]

theorem mergeSelf_eq (d : DDDA K) :
    mergeSelf d = .ok (selfMergeWaiting d.length (d.map fun p => (mergeS p.1 p.1, p.2))) := by
  simp [mergeSelf, mergeBlocks_self, bind, Except.bind]

/-- The first `m` blocks have at least two data. -/
def FirstTwo (m : ℕ) (d : DDDA K) : Prop := m ≤ d.length ∧ ∀ p ∈ d.take m, 2 ≤ p.1.n

theorem FirstTwo.push {m : ℕ} {d : DDDA K} (h : FirstTwo m d) (x : K) :
    FirstTwo m (pushFrom x d) := by
  induction d generalizing m x with
  | nil =>
    have : m = 0 := by simpa using h.1
    subst this; exact ⟨by simp, by simp⟩
  | cons p rest ih =>
    obtain ⟨b, w⟩ := p
    cases m with
    | zero => exact ⟨by simp, by simp⟩
    | succ m =>
      have hb : 2 ≤ b.n := h.2 (b, w) (by simp)
      have hrest : FirstTwo m rest :=
        ⟨by simpa using h.1, fun p hp => h.2 p (by simp [hp])⟩
      cases w with
      | none =>
        refine ⟨by simpa [pushFrom] using h.1, ?_⟩
        intro p hp
        simp only [pushFrom, List.take_succ_cons, List.mem_cons] at hp
        rcases hp with rfl | hp
        · simp [OTFS.addDatum]; omega
        · exact hrest.2 p hp
      | some y =>
        have := ih hrest ((y + x) / 2)
        refine ⟨by simpa [pushFrom] using this.1, ?_⟩
        intro p hp
        simp only [pushFrom, List.take_succ_cons, List.mem_cons] at hp
        rcases hp with rfl | hp
        · simp [OTFS.addDatum]; omega
        · exact this.2 p hp

theorem SizesOk.selfFinish {m : ℕ} {d : DDDA K} (h : SizesOk d []) (h2 : FirstTwo m d) :
    SizesOk (selfMergeWaiting m d) [] := by
  induction m generalizing d with
  | zero => simpa [selfMergeWaiting] using h
  | succ m ih =>
    match d, h, h2 with
    | [], h, _ => simpa [selfMergeWaiting] using h
    | (b, none) :: rest, h, h2 =>
      obtain ⟨h1, h1', h3, h4⟩ := h
      have hb : 2 ≤ b.n := h2.2 (b, none) (by simp)
      have hrest : FirstTwo m rest := ⟨by simpa using h2.1, fun p hp => h2.2 p (by simp [hp])⟩
      exact ⟨by simp, h1', fun _ => hb, ih h4 hrest⟩
    | (b, some x) :: rest, h, h2 =>
      obtain ⟨h1, h1', h3, h4⟩ := h
      have hb : 2 ≤ b.n := h2.2 (b, some x) (by simp)
      have hrest : FirstTwo m rest := ⟨by simpa using h2.1, fun p hp => h2.2 p (by simp [hp])⟩
      exact ⟨by simp, h1', fun _ => hb, ih (h4.push _) (hrest.push _)⟩

theorem SizesOk.double {d : DDDA K} (h : SizesOk d []) :
    SizesOk (d.map fun p => (mergeS p.1 p.1, p.2)) [] ∧
      FirstTwo d.length (d.map fun p => (mergeS p.1 p.1, p.2)) := by
  constructor
  · induction d with
    | nil => simpa using h
    | cons p d ih =>
      obtain ⟨b, w⟩ := p
      obtain ⟨h1, h2, h3, h4⟩ := h
      refine ⟨?_, ?_, ?_, ih h4⟩
      · simp only [(mergeSample_ok _ _).2]; omega
      · simp only [(mergeSample_ok _ _).2]; omega
      · intro _; simp only [(mergeSample_ok _ _).2]; omega
  · refine ⟨by simp, ?_⟩
    have : ∀ p ∈ d, 1 ≤ p.1.n := by
      induction d with
      | nil => simp
      | cons p d ih =>
        obtain ⟨b, w⟩ := p
        obtain ⟨h1, h2, h3, h4⟩ := h
        intro q hq
        rcases List.mem_cons.mp hq with rfl | hq
        · exact h2
        · exact ih h4 q hq
    intro p hp
    rw [List.take_of_length_le (by simp)] at hp
    obtain ⟨q, hq, rfl⟩ := List.mem_map.mp hp
    simp only [(mergeSample_ok _ _).2]
    have := this q hq
    omega

end OpenMPCD.DDDA
