import Verif.Analysis.DumbbellPlots
import Mathlib.Data.List.Sort
import Mathlib.Tactic.Linarith
import Mathlib.Tactic.FieldSimp

/-!
# What the script for the alignment of dumbbells plots (C157)

`Analysis/plotDumbbellAlignment.py`. The theoretical value at one Weissenberg number is C126 (`Verif/Analysis/DumbbellPlots.lean`).

Simplifications: real numbers, without rounding; a quotient by zero, which is infinite or not a number for `numpy`, is `none`. The
shear rate is present in the configuration if the relaxation time is. What is sent to `gnuplot` are the rows; how numbers are printed
is not modelled.
-/

set_option linter.unusedSectionVars false
set_option linter.unusedSimpArgs false
set_option linter.unusedVariables false

namespace OpenMPCD.Analysis.AlignmentPlot

/-! ## Model -/

/-- What the script reads from a run directory: the relaxation time (`none`: not set), and the shear rate in `config.txt`, the
Weissenberg number in `static_data.txt`, and the measured tangent; the last two may raise exceptions. -/
structure Rundir where
  relaxationTime : Option ℝ
  shearRate : ℝ
  static : Except PyErr ℝ
  tan2Chi : Except PyErr ℝ

/-- `Wi` (`Analysis/plotDumbbellAlignment.py:23-32`). -/
noncomputable def weissenberg (r : Rundir) : Except PyErr ℝ :=
  match r.relaxationTime with
  | some tau_0 => .ok (r.shearRate * tau_0)
  | none => r.static

open Classical in
/-- The body of the loop (`Analysis/plotDumbbellAlignment.py:19-42`). -/
noncomputable def turn (data : List (ℝ × ℝ)) (r : Rundir) : Except PyErr (List (ℝ × ℝ)) := do
  let wi ← weissenberg r
  if wi ∈ data.map Prod.fst then .error .runtimeError
  else
    let tmp ← r.tan2Chi
    let tmp := if tmp < 0 then tmp * -1 else tmp
    return data ++ [(wi, tmp)]

/-- The loop over the run directories (`Analysis/plotDumbbellAlignment.py:16-42`). -/
noncomputable def collect : List (ℝ × ℝ) → List Rundir → Except PyErr (List (ℝ × ℝ))
  | data, [] => .ok data
  | data, r :: rs => do
    let data ← turn data r
    collect data rs

open Classical in
/-- `sorted(data.items())` (`Analysis/plotDumbbellAlignment.py:46,51-52`). The second components are compared only if the first ones
are equal, which they are not. -/
noncomputable def sorted (data : List (ℝ × ℝ)) : List (ℝ × ℝ) := data.insertionSort fun p q => p.1 ≤ q.1

/-- `numpy.linspace(a, b, n + 1)` for positive `n`. -/
noncomputable def linspace (a b : ℝ) (n : ℕ) : List ℝ := (List.range (n + 1)).map fun (i : ℕ) => a + i * ((b - a) / n)

open Classical in
/-- A row of the theory (`Analysis/plotDumbbellAlignment.py:57-59`), for the ratio `mu` as a function of the Weissenberg number. -/
noncomputable def theoryRow (mu : ℝ → ℝ) (wi : ℝ) : ℝ × Option ℝ := (wi, if wi = 0 then none else some (2 * mu wi / wi))

/-- The script (`Analysis/plotDumbbellAlignment.py:12-73`): the rows of both curves. Without arguments, it exits; here, as an
exception. -/
noncomputable def script (mu : ℝ → ℝ) (runs : List Rundir) : Except PyErr (List (ℝ × ℝ) × List (ℝ × Option ℝ)) :=
  if runs = [] then .error .exception
  else do
    let data ← collect [] runs
    match (sorted data).head?, (sorted data).getLast? with
    | some first, some last => return (sorted data, (linspace first.1 last.1 99).map (theoryRow mu))
    | _, _ => .error .indexError

/-! ## Specification -/

/-- The point that a run is to contribute: its Weissenberg number and the absolute value measured. -/
def Contributes (r : Rundir) (p : ℝ × ℝ) : Prop :=
  ((∃ tau, r.relaxationTime = some tau ∧ p.1 = tau * r.shearRate) ∨ r.relaxationTime = none ∧ r.static = .ok p.1) ∧
    ∃ t, r.tan2Chi = .ok t ∧ p.2 = |t|

/-! ## Proofs -/

theorem weissenberg_iff (r : Rundir) (w : ℝ) : weissenberg r = .ok w ↔
    ((∃ tau, r.relaxationTime = some tau ∧ w = tau * r.shearRate) ∨ r.relaxationTime = none ∧ r.static = .ok w) := by
  unfold weissenberg
  cases h : r.relaxationTime with
  | none => simp
  | some tau =>
    simp only [Except.ok.injEq, Option.some.injEq, exists_eq_left', reduceCtorEq, false_and, or_false]
    rw [mul_comm]
    exact eq_comm

theorem abs_eq (t : ℝ) : (if t < 0 then t * -1 else t) = |t| := by
  split_ifs with h
  · rw [abs_of_neg h]
    ring
  · exact (abs_of_nonneg (not_lt.1 h)).symm

theorem turn_iff (data data' : List (ℝ × ℝ)) (r : Rundir) : turn data r = .ok data' ↔
    ∃ p, Contributes r p ∧ p.1 ∉ data.map Prod.fst ∧ data' = data ++ [p] := by
  constructor
  · intro h
    unfold turn at h
    cases hw : weissenberg r with
    | error e => simp [hw, bind, Except.bind] at h
    | ok w =>
      simp only [hw, bind, Except.bind] at h
      split_ifs at h with hm
      cases ht : r.tan2Chi with
      | error e => simp [ht] at h
      | ok t =>
        simp only [ht, pure, Except.pure, Except.ok.injEq] at h
        exact ⟨(w, |t|), ⟨(weissenberg_iff r w).1 hw, t, ht, rfl⟩, hm, by rw [← h, abs_eq]⟩
  · rintro ⟨⟨w, v⟩, ⟨hw, t, ht, hv⟩, hm, rfl⟩
    simp only at hw hv hm
    unfold turn
    rw [(weissenberg_iff r w).2 hw]
    simp only [bind, Except.bind, if_neg hm, ht, pure, Except.pure, abs_eq, hv]

theorem collect_iff (runs : List Rundir) (data data' : List (ℝ × ℝ)) (hd : (data.map Prod.fst).Nodup) :
    collect data runs = .ok data' ↔
      ∃ ps, List.Forall₂ Contributes runs ps ∧ data' = data ++ ps ∧ ((data ++ ps).map Prod.fst).Nodup := by
  induction runs generalizing data data' with
  | nil =>
    simp only [collect, Except.ok.injEq, List.forall₂_nil_left_iff, exists_eq_left, List.append_nil]
    constructor
    · rintro rfl
      exact ⟨rfl, hd⟩
    · exact fun h => h.1.symm
  | cons r rs ih =>
    constructor
    · intro h
      rw [collect] at h
      cases ht : turn data r with
      | error e => simp [ht, bind, Except.bind] at h
      | ok d =>
        simp only [ht, bind, Except.bind] at h
        obtain ⟨p, hp, hm, rfl⟩ := (turn_iff data d r).1 ht
        have hd' : ((data ++ [p]).map Prod.fst).Nodup := by
          rw [List.map_append, List.map_singleton, List.nodup_append]
          refine ⟨hd, List.nodup_singleton _, ?_⟩
          intro a ha b hb e
          rw [List.mem_singleton] at hb
          exact hm (by rw [← hb, ← e]; exact ha)
        obtain ⟨ps, h1, h2, h3⟩ := (ih _ _ hd').1 h
        refine ⟨p :: ps, .cons hp h1, by rw [h2, List.append_assoc]; rfl, ?_⟩
        rwa [List.append_assoc] at h3
    · rintro ⟨ps, hps, rfl, hn⟩
      cases hps with
      | cons hp hrs =>
        rename_i p ps
        have e : data ++ p :: ps = (data ++ [p]) ++ ps := by rw [List.append_assoc]; rfl
        rw [e] at hn ⊢
        have hd' : ((data ++ [p]).map Prod.fst).Nodup := by
          rw [List.map_append] at hn
          exact (List.nodup_append.1 hn).1
        have hm : p.1 ∉ data.map Prod.fst := by
          rw [List.map_append, List.nodup_append] at hd'
          intro h
          exact hd'.2.2 _ h _ (by simp) rfl
        rw [collect, (turn_iff data _ r).2 ⟨p, hp, hm, rfl⟩]
        exact (ih _ _ hd').2 ⟨ps, hrs, rfl, hn⟩

theorem sorted_perm (data : List (ℝ × ℝ)) : (sorted data).Perm data := List.perm_insertionSort _ data

theorem sorted_lt (d : List (ℝ × ℝ)) (h : (d.map Prod.fst).Nodup) : (sorted d).Pairwise fun p q => p.1 < q.1 := by
  classical
  have : Std.Total (fun p q : ℝ × ℝ => p.1 ≤ q.1) := ⟨fun p q => le_total p.1 q.1⟩
  have : IsTrans (ℝ × ℝ) (fun p q => p.1 ≤ q.1) := ⟨fun p q r h1 h2 => le_trans h1 h2⟩
  have h1 : (sorted d).Pairwise fun p q => p.1 ≤ q.1 := List.pairwise_insertionSort _ d
  have h2 : ((sorted d).map Prod.fst).Nodup := (((sorted_perm d).map Prod.fst).nodup_iff).mpr h
  have h3 : (sorted d).Pairwise fun p q => p.1 ≠ q.1 := List.pairwise_map.mp h2
  exact (h1.and h3).imp fun h => lt_of_le_of_ne h.1 h.2

/-- C157: the script plots something exactly if there are runs, all of them can be read, and no two of them have the same Weissenberg
number; it then plots one point for each run, with increasing Weissenberg numbers. -/
theorem C157_points (mu : ℝ → ℝ) (runs : List Rundir) (rows : List (ℝ × ℝ)) :
    (∃ theory, script mu runs = .ok (rows, theory)) ↔ runs ≠ [] ∧ rows.Pairwise (fun p q => p.1 < q.1) ∧
      ∃ ps, List.Forall₂ Contributes runs ps ∧ rows.Perm ps := by
  constructor
  · rintro ⟨theory, h⟩
    unfold script at h
    split_ifs at h with hr
    cases hc : collect [] runs with
    | error e => simp [hc, bind, Except.bind] at h
    | ok data =>
      obtain ⟨ps, hps, hdata, hn⟩ := (collect_iff runs [] data List.nodup_nil).1 hc
      rw [← hdata] at hn
      simp only [hc, bind, Except.bind] at h
      split at h
      · simp only [pure, Except.pure, Except.ok.injEq, Prod.mk.injEq] at h
        rw [← h.1]
        exact ⟨hr, sorted_lt _ hn, ps, hps, hdata ▸ sorted_perm data⟩
      · cases h
  · rintro ⟨hr, hlt, ps, hps, hp⟩
    have hn : (ps.map Prod.fst).Nodup := by
      refine ((hp.map Prod.fst).nodup_iff).1 ?_
      exact List.pairwise_map.2 (hlt.imp fun h => ne_of_lt h)
    have hs : sorted ps = rows := by
      have h1 := sorted_lt ps hn
      have : Std.Antisymm (fun p q : ℝ × ℝ => p.1 < q.1) := ⟨fun p q h1 h2 => absurd h1 (not_lt.2 h2.le)⟩
      exact ((sorted_perm ps).trans hp.symm).eq_of_pairwise (fun a b _ _ h1 h2 => absurd h1 (not_lt.2 h2.le)) h1 hlt
    have hne : rows ≠ [] := by
      rintro rfl
      rw [List.nil_perm] at hp
      subst hp
      cases hps
      exact hr rfl
    have hc : collect [] runs = .ok ps := (collect_iff runs [] ps List.nodup_nil).2 ⟨ps, hps, rfl, hn⟩
    obtain ⟨a, ha⟩ : ∃ a, rows.head? = some a := ⟨_, List.head?_eq_some_head hne⟩
    obtain ⟨b, hb⟩ : ∃ b, rows.getLast? = some b := ⟨_, List.getLast?_eq_some_getLast hne⟩
    refine ⟨(linspace a.1 b.1 99).map (theoryRow mu), ?_⟩
    simp only [script, if_neg hr, hc, bind, Except.bind, hs, ha, hb]
    rfl

/-- C157: the order in which the run directories are given does not matter for what is plotted. -/
theorem C157_order (mu : ℝ → ℝ) {runs runs' : List Rundir} (h : runs.Perm runs') {plot} (hs : script mu runs = .ok plot) :
    script mu runs' = .ok plot := by
  obtain ⟨rows, theory⟩ := plot
  obtain ⟨hr, hlt, ps, hps, hp⟩ := (C157_points mu runs rows).1 ⟨theory, hs⟩
  obtain ⟨ps', hps', hp'⟩ : ∃ ps', List.Forall₂ Contributes runs' ps' ∧ ps.Perm ps' := by
    obtain ⟨ps', h1, h2⟩ := List.perm_comp_forall₂ h.symm hps
    exact ⟨ps', h1, h2.symm⟩
  have hr' : runs' ≠ [] := fun e => hr (by rw [e] at h; exact h.eq_nil)
  obtain ⟨theory', hs'⟩ := (C157_points mu runs' rows).2 ⟨hr', hlt, ps', hps', hp.trans hp'⟩
  have aux : ∀ {runs theory}, script mu runs = .ok (rows, theory) → ∃ a b, rows.head? = some a ∧ rows.getLast? = some b ∧
      theory = (linspace a.1 b.1 99).map (theoryRow mu) := by
    intro runs theory h
    unfold script at h
    split_ifs at h
    cases hc : collect [] runs with
    | error e => simp [hc, bind, Except.bind] at h
    | ok data =>
      simp only [hc, bind, Except.bind] at h
      split at h
      · rename_i a b ha hb
        simp only [pure, Except.pure, Except.ok.injEq, Prod.mk.injEq] at h
        rw [h.1] at ha hb
        exact ⟨a, b, ha, hb, h.2.symm⟩
      · cases h
  obtain ⟨a, b, ha, hb, ht⟩ := aux hs
  obtain ⟨a', b', ha', hb', ht'⟩ := aux hs'
  rw [ha] at ha'
  rw [hb] at hb'
  cases ha'
  cases hb'
  rw [hs', ht, ht']

/-- C157: the theory is plotted for a hundred Weissenberg numbers at equal distances, from the smallest one to the largest one of the
runs; the values are those of the theory if all runs have positive Weissenberg numbers. -/
theorem C157_theory_partial (mu : ℝ → ℝ) (runs : List Rundir) {rows : List (ℝ × ℝ)} {theory : List (ℝ × Option ℝ)}
    (h : script mu runs = .ok (rows, theory)) : theory.length = 100 ∧
    ∃ a b, rows.head? = some a ∧ rows.getLast? = some b ∧
      (∀ i : ℕ, i < 100 → theory[i]?.map Prod.fst = some (a.1 + (b.1 - a.1) * i / 99)) ∧
      ((∀ p ∈ rows, 0 < p.1) → ∀ q ∈ theory, a.1 ≤ q.1 ∧ q.1 ≤ b.1 ∧
        q.2 = some (DumbbellPlots.predictionTan2Chi q.1 (mu q.1))) := by
  have hlt := ((C157_points mu runs rows).1 ⟨theory, h⟩).2.1
  unfold script at h
  split_ifs at h
  cases hc : collect [] runs with
  | error e => simp [hc, bind, Except.bind] at h
  | ok data =>
    simp only [hc, bind, Except.bind] at h
    split at h
    · rename_i a b ha hb
      simp only [pure, Except.pure, Except.ok.injEq, Prod.mk.injEq] at h
      rw [h.1] at ha hb
      obtain ⟨-, rfl⟩ := h
      refine ⟨by simp [linspace], a, b, ha, hb, ?_, ?_⟩
      · intro i hi
        simp only [linspace, List.map_map, List.getElem?_map, List.getElem?_range hi, Option.map_some, Function.comp, theoryRow,
          Option.some.injEq]
        push_cast
        ring
      · intro hpos q hq
        obtain ⟨w, hw, rfl⟩ := List.mem_map.1 hq
        obtain ⟨i, hi, rfl⟩ := List.mem_map.1 hw
        have hi' : i ≤ 99 := by
          have := List.mem_range.1 hi
          omega
        have hi'' : (i : ℝ) ≤ 99 := by exact_mod_cast hi'
        have h0 : (0 : ℝ) ≤ i := Nat.cast_nonneg i
        have hab : a.1 ≤ b.1 := by
          cases rows with
          | nil => cases ha
          | cons r rs =>
            cases ha
            have hm : b ∈ a :: rs := List.mem_of_getLast? hb
            rcases List.mem_cons.1 hm with rfl | hm
            · exact le_rfl
            · exact ((List.pairwise_cons.1 hlt).1 b hm).le
        have hapos : 0 < a.1 := hpos a (List.mem_of_head? ha)
        have hd : 0 ≤ (b.1 - a.1) / (99 : ℕ) := div_nonneg (by linarith) (by positivity)
        have hw0 : 0 ≤ (i : ℝ) * ((b.1 - a.1) / (99 : ℕ)) := mul_nonneg h0 hd
        have hw1 : (i : ℝ) * ((b.1 - a.1) / (99 : ℕ)) ≤ b.1 - a.1 := by
          calc (i : ℝ) * ((b.1 - a.1) / (99 : ℕ)) ≤ 99 * ((b.1 - a.1) / (99 : ℕ)) := mul_le_mul_of_nonneg_right hi'' hd
            _ = b.1 - a.1 := by push_cast; ring
        have hne : a.1 + (i : ℝ) * ((b.1 - a.1) / (99 : ℕ)) ≠ 0 := by
          have : 0 < a.1 + (i : ℝ) * ((b.1 - a.1) / (99 : ℕ)) := by linarith
          exact this.ne'
        refine ⟨by simp only [theoryRow]; linarith, by simp only [theoryRow]; linarith, ?_⟩
        simp only [theoryRow, if_neg hne]
        rfl
    · cases h

/-- C157 fails if the smallest Weissenberg number is zero, as without shear: the first value of the theory is not a number. -/
theorem C157_theory_violated (mu : ℝ → ℝ) (runs : List Rundir) {rows : List (ℝ × ℝ)} {theory : List (ℝ × Option ℝ)}
    (h : script mu runs = .ok (rows, theory)) (h0 : rows.head?.map Prod.fst = some 0) : theory.head? = some (0, none) := by
  unfold script at h
  split_ifs at h
  cases hc : collect [] runs with
  | error e => simp [hc, bind, Except.bind] at h
  | ok data =>
    simp only [hc, bind, Except.bind] at h
    split at h
    · rename_i a b ha hb
      simp only [pure, Except.pure, Except.ok.injEq, Prod.mk.injEq] at h
      rw [h.1] at ha
      obtain ⟨-, rfl⟩ := h
      rw [ha] at h0
      have h0' : a.1 = 0 := Option.some.inj h0
      rw [List.head?_map, linspace, List.head?_map, List.head?_range]
      simp [theoryRow, h0']
    · cases h

/-! Two runs, one with a negative tangent, given with the larger Weissenberg number first. -/

example : ∃ theory, script (fun _ => 1) [⟨some 2, 3, .error .osError, .ok (-1)⟩, ⟨none, 0, .ok 4, .ok (1 / 2)⟩] =
    .ok ([(4, 1 / 2), (6, 1)], theory) := by
  rw [C157_points]
  refine ⟨by simp, by norm_num, [(6, 1), (4, 1 / 2)], ?_, List.Perm.swap _ _ _⟩
  refine .cons ⟨.inl ⟨2, rfl, by norm_num⟩, -1, rfl, by norm_num⟩ (.cons ⟨.inr ⟨rfl, rfl⟩, 1 / 2, rfl, ?_⟩ .nil)
  rw [abs_of_nonneg (by norm_num)]

end OpenMPCD.Analysis.AlignmentPlot
