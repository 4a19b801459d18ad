import Verif.Analysis.AlignmentPlot

/-!
# What the script for the correlation of dumbbell components plots (C165)

`Analysis/plotDumbbellXYCorrelation.py`. Simplifications: real numbers, without rounding. What is sent to `gnuplot` are the rows; how
numbers are printed is not modelled. The theoretical values are computed but not plotted; only that computing the ratio may raise an
exception is modelled.
-/

set_option linter.unusedSectionVars false
set_option linter.unusedSimpArgs false
set_option linter.unusedVariables false

namespace OpenMPCD.Analysis.XYPlot

open AlignmentPlot (sorted linspace sorted_perm sorted_lt)

/-! ## Model -/

/-- What `static_data.txt` has: the Weissenberg number and the equilibrium length; `none` is a missing key. -/
structure Static where
  weissenbergNumber : Option ℝ
  equilibriumLength : Option ℝ

/-- What the script reads from a run directory: the static data, and the mean in the histogram; both may raise exceptions. -/
structure Rundir where
  static : Except PyErr Static
  mean : Except PyErr ℝ

/-- Taking a value that may be missing from a dictionary. -/
def get (x : Option ℝ) : Except PyErr ℝ :=
  match x with
  | none => .error .keyError
  | some v => .ok v

open Classical in
/-- The body of the loop (`Analysis/plotDumbbellXYCorrelation.py:18-26`): the points, and the static data of the run. -/
noncomputable def turn (data : List (ℝ × ℝ)) (r : Rundir) : Except PyErr (List (ℝ × ℝ) × Static) :=
  match r.static with
  | .error e => .error e
  | .ok s => match get s.weissenbergNumber with
    | .error e => .error e
    | .ok wi =>
      if wi ∈ data.map Prod.fst then .error .runtimeError
      else match r.mean with
        | .error e => .error e
        | .ok m => .ok (data ++ [(wi, m)], s)

/-- The loop (`Analysis/plotDumbbellXYCorrelation.py:15-26`); `staticData` keeps the value of the last turn. -/
noncomputable def collect : List (ℝ × ℝ) → Option Static → List Rundir → Except PyErr (List (ℝ × ℝ) × Option Static)
  | data, s, [] => .ok (data, s)
  | data, s, r :: rs => match turn data r with
    | .error e => .error e
    | .ok (data, s) => collect data (some s) rs

/-- The loop for the theory (`Analysis/plotDumbbellXYCorrelation.py:43-46`): only whether it raises an exception. -/
def theory (ratio : ℝ → Except PyErr ℝ) : List ℝ → Except PyErr Unit
  | [] => .ok ()
  | w :: ws => match ratio w with
    | .error e => .error e
    | .ok _ => theory ratio ws

open Classical in
/-- The script (`Analysis/plotDumbbellXYCorrelation.py:11-61`): the rows plotted. Without arguments, it exits; here, as an exception. -/
noncomputable def script (ratio : ℝ → Except PyErr ℝ) (runs : List Rundir) : Except PyErr (List (ℝ × ℝ)) :=
  if runs = [] then .error .exception
  else match collect [] none runs with
    | .error e => .error e
    | .ok (_, none) => .error .exception
    | .ok (data, some s) => match get s.equilibriumLength with
      | .error e => .error e
      | .ok l =>
        if l * l = 0 then .error .zeroDivisionError
        else match (sorted data).head?, (sorted data).getLast? with
          | some first, some last => match theory ratio (linspace first.1 last.1 99) with
            | .error e => .error e
            | .ok () => .ok (sorted data)
          | _, _ => .error .indexError

/-! ## Specification -/

/-- The point that a run is to contribute: its Weissenberg number and the mean. -/
def Contributes (r : Rundir) (p : ℝ × ℝ) : Prop :=
  (∃ s, r.static = .ok s ∧ s.weissenbergNumber = some p.1) ∧ r.mean = .ok p.2

/-- The static data of the run contain a length other than zero. -/
def HasLength (r : Rundir) : Prop := ∃ s l, r.static = .ok s ∧ s.equilibriumLength = some l ∧ l ≠ 0

/-! ## Proofs -/

theorem turn_iff (data data' : List (ℝ × ℝ)) (r : Rundir) (s : Static) : turn data r = .ok (data', s) ↔
    r.static = .ok s ∧ ∃ p, Contributes r p ∧ p.1 ∉ data.map Prod.fst ∧ data' = data ++ [p] := by
  constructor
  · intro h
    unfold turn at h
    cases hs : r.static with
    | error e => simp [hs] at h
    | ok s' =>
      cases hw : s'.weissenbergNumber with
      | none => simp [hs, hw, get] at h
      | some w =>
        simp only [hs, hw, get] at h
        split_ifs at h with hm
        cases ht : r.mean with
        | error e => simp [ht] at h
        | ok t =>
          simp only [ht, Except.ok.injEq, Prod.mk.injEq] at h
          obtain ⟨rfl, rfl⟩ := h
          exact ⟨rfl, (w, t), ⟨⟨s', hs, hw⟩, ht⟩, hm, rfl⟩
  · rintro ⟨hs, ⟨w, v⟩, ⟨⟨s', hs', hw⟩, ht⟩, hm, rfl⟩
    rw [hs] at hs'
    cases hs'
    simp only at hw ht hm
    simp only [turn, hs, hw, get, if_neg hm, ht]

theorem collect_iff (runs : List Rundir) (data data' : List (ℝ × ℝ)) (s s' : Option Static) (hd : (data.map Prod.fst).Nodup) :
    collect data s runs = .ok (data', s') ↔
      (∃ ps, List.Forall₂ Contributes runs ps ∧ data' = data ++ ps ∧ ((data ++ ps).map Prod.fst).Nodup) ∧
        (runs = [] ∧ s' = s ∨ ∃ r t, runs.getLast? = some r ∧ r.static = .ok t ∧ s' = some t) := by
  induction runs generalizing data s with
  | nil =>
    simp only [collect, Except.ok.injEq, Prod.mk.injEq, List.forall₂_nil_left_iff, exists_eq_left, List.append_nil, true_and,
      List.getLast?_nil, reduceCtorEq, false_and, exists_false, or_false]
    constructor
    · rintro ⟨rfl, rfl⟩
      exact ⟨⟨rfl, hd⟩, rfl⟩
    · exact fun h => ⟨h.1.1.symm, h.2.symm⟩
  | cons r rs ih =>
    have app : ∀ p : ℝ × ℝ, p.1 ∉ data.map Prod.fst → ((data ++ [p]).map Prod.fst).Nodup := by
      intro p hm
      rw [List.map_append, List.map_singleton, List.nodup_append]
      refine ⟨hd, List.nodup_singleton _, ?_⟩
      intro a ha b hb e
      rw [List.mem_singleton] at hb
      exact hm (by rw [← hb, ← e]; exact ha)
    constructor
    · intro h
      rw [collect] at h
      cases ht : turn data r with
      | error e => simp [ht] at h
      | ok d =>
        obtain ⟨d, t⟩ := d
        simp only [ht] at h
        obtain ⟨hst, p, hp, hm, rfl⟩ := (turn_iff data d r t).1 ht
        obtain ⟨⟨ps, h1, h2, h3⟩, h4⟩ := (ih _ _ (app p hm)).1 h
        refine ⟨⟨p :: ps, .cons hp h1, by rw [h2, List.append_assoc]; rfl, by rwa [List.append_assoc] at h3⟩, .inr ?_⟩
        rcases h4 with ⟨rfl, rfl⟩ | ⟨r', t', h5, h6, h7⟩
        · exact ⟨r, t, rfl, hst, rfl⟩
        · refine ⟨r', t', ?_, h6, h7⟩
          rw [List.getLast?_cons, h5]
          rfl
    · rintro ⟨⟨ps, hps, rfl, hn⟩, hl⟩
      cases hps with
      | cons hp hrs =>
        rename_i p ps
        have e : data ++ p :: ps = (data ++ [p]) ++ ps := by rw [List.append_assoc]; rfl
        rw [e] at hn
        have hd' : ((data ++ [p]).map Prod.fst).Nodup := by
          rw [List.map_append] at hn
          exact (List.nodup_append.1 hn).1
        have hm : p.1 ∉ data.map Prod.fst := by
          rw [List.map_append, List.nodup_append] at hd'
          intro h
          exact hd'.2.2 _ h _ (by simp) rfl
        obtain ⟨t, hst, _⟩ := hp.1
        rw [collect, (turn_iff data _ r t).2 ⟨hst, p, hp, hm, rfl⟩]
        refine (ih _ _ hd').2 ⟨⟨ps, hrs, e, hn⟩, ?_⟩
        rcases hl with ⟨h, _⟩ | ⟨r', t', h5, h6, h7⟩
        · cases h
        · cases rs with
          | nil =>
            cases h5
            change r.static = _ at h6
            rw [hst] at h6
            cases h6
            exact .inl ⟨rfl, h7⟩
          | cons x xs => exact .inr ⟨r', t', by simpa [List.getLast?_cons_cons] using h5, h6, h7⟩

theorem theory_iff (ratio : ℝ → Except PyErr ℝ) (ws : List ℝ) : theory ratio ws = .ok () ↔ ∀ w ∈ ws, ∃ v, ratio w = .ok v := by
  induction ws with
  | nil => simp [theory]
  | cons w ws ih =>
    rw [theory, List.forall_mem_cons]
    cases h : ratio w with
    | error e => simp
    | ok v => simp [ih]

/-- C165: the script plots something exactly if there are runs, all of them can be read, no two of them have the same Weissenberg number,
the last one has a length, and the theory can be evaluated at a hundred numbers between the smallest and the largest one; it then plots
one point for each run, with increasing Weissenberg numbers. -/
theorem C165_points (ratio : ℝ → Except PyErr ℝ) (runs : List Rundir) (rows : List (ℝ × ℝ)) :
    script ratio runs = .ok rows ↔ rows.Pairwise (fun p q => p.1 < q.1) ∧
      (∃ ps, List.Forall₂ Contributes runs ps ∧ rows.Perm ps) ∧ (∃ r, runs.getLast? = some r ∧ HasLength r) ∧
      ∃ a b, rows.head? = some a ∧ rows.getLast? = some b ∧
        ∀ i : ℕ, i < 100 → ∃ v, ratio (a.1 + i * ((b.1 - a.1) / 99)) = .ok v := by
  have lin : ∀ a b : ℝ, (∀ w ∈ linspace a b 99, ∃ v, ratio w = .ok v) ↔
      ∀ i : ℕ, i < 100 → ∃ v, ratio (a + i * ((b - a) / 99)) = .ok v := by
    intro a b
    simp [linspace]
  constructor
  · intro h
    unfold script at h
    split_ifs at h with hr
    cases hc : collect [] none runs with
    | error e => simp [hc] at h
    | ok d =>
      obtain ⟨data, s⟩ := d
      obtain ⟨⟨ps, hps, hdata, hn⟩, hl⟩ := (collect_iff runs [] data none s List.nodup_nil).1 hc
      rcases hl with ⟨h', _⟩ | ⟨r, t, h1, h2, rfl⟩
      · exact absurd h' hr
      rw [← hdata] at hn
      simp only [hc] at h
      cases hg : t.equilibriumLength with
      | none => simp [hg, get] at h
      | some l =>
        simp only [hg, get] at h
        split_ifs at h with h0
        split at h
        · rename_i a b ha hb
          cases ht : theory ratio (linspace a.1 b.1 99) with
          | error e => simp [ht] at h
          | ok u =>
            simp only [ht, Except.ok.injEq] at h
            rw [← h]
            refine ⟨sorted_lt _ hn, ⟨ps, hps, hdata ▸ sorted_perm data⟩, ⟨r, h1, t, l, h2, hg, ?_⟩, a, b, ha, hb, ?_⟩
            · rintro rfl
              exact h0 (by ring)
            · exact (lin _ _).1 ((theory_iff ratio _).1 ht)
        · cases h
  · rintro ⟨hlt, ⟨ps, hps, hp⟩, ⟨r, h1, t, l, h2, hg, h0⟩, a, b, ha, hb, ht⟩
    have hn : (ps.map Prod.fst).Nodup := by
      refine ((hp.map Prod.fst).nodup_iff).1 ?_
      exact List.pairwise_map.2 (hlt.imp fun h => ne_of_lt h)
    have hs : sorted ps = rows := by
      have h1 := sorted_lt ps hn
      exact ((sorted_perm ps).trans hp.symm).eq_of_pairwise (fun a b _ _ h1 h2 => absurd h1 (not_lt.2 h2.le)) h1 hlt
    have hr : runs ≠ [] := by
      rintro rfl
      cases h1
    have hc : collect [] none runs = .ok (ps, some t) :=
      (collect_iff runs [] ps none _ List.nodup_nil).2 ⟨⟨ps, hps, rfl, hn⟩, .inr ⟨r, t, h1, h2, rfl⟩⟩
    have hth : theory ratio (linspace a.1 b.1 99) = .ok () := (theory_iff ratio _).2 ((lin _ _).2 ht)
    have hll : ¬ l * l = 0 := mul_ne_zero h0 h0
    simp only [script, if_neg hr, hc, hg, get, if_neg hll, hs, ha, hb, hth]

/-- C165: two runs with the same Weissenberg number are reported, if those before can be read. -/
theorem C165_twice (ratio : ℝ → Except PyErr ℝ) (before after : List Rundir) (r : Rundir) (s : Static) (ps : List (ℝ × ℝ))
    (hps : List.Forall₂ Contributes before ps) (hn : (ps.map Prod.fst).Nodup) (p : ℝ × ℝ) (hp : p ∈ ps) (hs : r.static = .ok s)
    (hw : s.weissenbergNumber = some p.1) : script ratio (before ++ r :: after) = .error .runtimeError := by
  have app : ∀ (b : List Rundir) (data : List (ℝ × ℝ)) (s0 : Option Static) (qs : List (ℝ × ℝ)), List.Forall₂ Contributes b qs →
      ((data ++ qs).map Prod.fst).Nodup → p ∈ data ++ qs → collect data s0 (b ++ r :: after) = .error .runtimeError := by
    intro b
    induction b with
    | nil =>
      intro data s0 qs hq hn hp
      cases hq
      rw [List.append_nil] at hp
      have hm : p.1 ∈ data.map Prod.fst := List.mem_map_of_mem hp
      simp only [List.nil_append, collect, turn, hs, hw, get, if_pos hm]
    | cons x xs ih =>
      intro data s0 qs hq hn hp
      cases hq with
      | cons hx hxs =>
        rename_i q qs
        have e : data ++ q :: qs = (data ++ [q]) ++ qs := by rw [List.append_assoc]; rfl
        rw [e] at hn hp
        have hm : q.1 ∉ data.map Prod.fst := by
          rw [List.map_append] at hn
          have := (List.nodup_append.1 hn).1
          rw [List.map_append, List.nodup_append] at this
          intro h
          exact this.2.2 _ h _ (by simp) rfl
        obtain ⟨t, hst, _⟩ := hx.1
        rw [List.cons_append, collect, (turn_iff data _ x t).2 ⟨hst, q, hx, hm, rfl⟩]
        exact ih _ _ qs hxs hn hp
  unfold script
  rw [if_neg (by simp), app before [] none ps hps (by simpa using hn) (by simpa using hp)]

/-- C165: if all runs have a length, the order in which they are given does not matter for what is plotted. Missing: runs without. -/
theorem C165_order_partial (ratio : ℝ → Except PyErr ℝ) {runs runs' : List Rundir} (h : runs.Perm runs') (hl : ∀ r ∈ runs, HasLength r)
    {rows} (hs : script ratio runs = .ok rows) : script ratio runs' = .ok rows := by
  obtain ⟨hlt, ⟨ps, hps, hp⟩, ⟨r, h1, _⟩, ht⟩ := (C165_points ratio runs rows).1 hs
  obtain ⟨ps', hps', hp'⟩ : ∃ ps', List.Forall₂ Contributes runs' ps' ∧ ps.Perm ps' := by
    obtain ⟨ps', h1, h2⟩ := List.perm_comp_forall₂ h.symm hps
    exact ⟨ps', h1, h2.symm⟩
  have hr' : runs' ≠ [] := by
    rintro rfl
    rw [h.eq_nil] at h1
    cases h1
  refine (C165_points ratio runs' rows).2 ⟨hlt, ⟨ps', hps', hp.trans hp'⟩, ⟨_, List.getLast?_eq_some_getLast hr', ?_⟩, ht⟩
  exact hl _ (h.mem_iff.2 (List.getLast_mem hr'))

/-- The length is not used for what is plotted; still, of two runs one of which has none, the script plots the points only if that one is
not given last. -/
theorem C165_order_violated : ∃ r r' : Rundir, (∃ rows, script (fun _ => .ok 1) [r, r'] = .ok rows ∧ rows.length = 2) ∧
    ∀ rows, script (fun _ => .ok 1) [r', r] ≠ .ok rows := by
  refine ⟨⟨.ok ⟨some 1, none⟩, .ok 5⟩, ⟨.ok ⟨some 2, some 1⟩, .ok 7⟩, ⟨[(1, 5), (2, 7)], ?_, rfl⟩, ?_⟩
  · refine (C165_points _ _ _).2 ⟨by simp, ⟨[(1, 5), (2, 7)], ?_, List.Perm.refl _⟩, ⟨_, rfl, _, 1, rfl, rfl, one_ne_zero⟩,
      _, _, rfl, rfl, fun _ _ => ⟨_, rfl⟩⟩
    exact .cons ⟨⟨_, rfl, rfl⟩, rfl⟩ (.cons ⟨⟨_, rfl, rfl⟩, rfl⟩ .nil)
  · intro rows h
    obtain ⟨_, _, ⟨x, hx, s, l, h1, h2, _⟩, _⟩ := (C165_points _ _ _).1 h
    cases hx
    cases h1
    cases h2

/-- Two runs with lengths. -/
example : HasLength ⟨.ok ⟨some 1, some 3⟩, .ok 5⟩ ∧ Contributes ⟨.ok ⟨some 1, some 3⟩, .ok 5⟩ (1, 5) ∧
    HasLength ⟨.ok ⟨some 2, some 3⟩, .ok 7⟩ ∧ Contributes ⟨.ok ⟨some 2, some 3⟩, .ok 7⟩ (2, 7) :=
  ⟨⟨_, 3, rfl, rfl, three_ne_zero⟩, ⟨⟨_, rfl, rfl⟩, rfl⟩, ⟨_, 3, rfl, rfl, three_ne_zero⟩, ⟨_, rfl, rfl⟩, rfl⟩

end OpenMPCD.Analysis.XYPlot
