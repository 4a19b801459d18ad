import Verif.Collection.Props

/-!
# Model of `OnTheFlyStatisticsCollection.getMPLAxes` and property C52

What is modelled is the data handed to the plotting library, not the drawing.
-/

set_option linter.unusedSectionVars false

namespace OpenMPCD.Collection

open Stats
open scoped Classical

variable {κ : Type} [LinearOrder κ]

/-- The arguments `showStandardErrorOfTheMean`, `showStandardDeviation`: `False`, `True`, or a
floating-point number; anything else is rejected. `OnTheFlyStatisticsCollection.py:107-173`. -/
inductive ShowOpt where
  | off | bars | shaded (alpha : ℝ)

/-- Truth value of such an argument; a number in `(0, 1]` is true. -/
def ShowOpt.truthy : ShowOpt → Bool
  | .off => false
  | _ => true

/-- Whether the argument is exactly `True`, `OnTheFlyStatisticsCollection.py:244-249`. -/
def ShowOpt.isBars : ShowOpt → Bool
  | .bars => true
  | _ => false

/-- Whether the argument is a floating-point number, `OnTheFlyStatisticsCollection.py:253,262`. -/
def ShowOpt.isShaded : ShowOpt → Bool
  | .shaded _ => true
  | _ => false

/-- Checks at `OnTheFlyStatisticsCollection.py:156-160` (and 164-168). -/
noncomputable def ShowOpt.check : ShowOpt → Except PyErr Unit
  | .shaded a => if a ≤ 0 then .error .valueError else if a > 1 then .error .valueError else .ok ()
  | _ => .ok ()

/-- `singularSampleTreatment`; other strings are rejected, `OnTheFlyStatisticsCollection.py:175-178`. -/
inductive Treatment where
  | raise | discard | warn | warnAndDiscard | unknown
  deriving DecidableEq

/-- Whether the treatment is `"discard"` or `"warnAndDiscard"`. -/
def Treatment.discards : Treatment → Bool
  | .discard => true
  | .warnAndDiscard => true
  | _ => false

/-- What is passed to `axes.errorbar` and `axes.fill_between`. -/
structure PlotData (κ : Type) where
  keys : List κ
  values : List ℝ
  errorbars : Option (List ℝ)
  /-- Lower and upper edges of the area for the standard error of the mean. -/
  semArea : Option (List ℝ × List ℝ)
  /-- Lower and upper edges of the area for the standard deviation. -/
  sdArea : Option (List ℝ × List ℝ)

/-- Loop at `OnTheFlyStatisticsCollection.py:195-204`: the means, and the keys of singular samples. -/
def collectValues (discard : Bool) : List (κ × OTFS ℝ) → Except PyErr (List ℝ × List κ)
  | [] => .ok ([], [])
  | (key, value) :: rest =>
    if value.getSampleSize = 0 then .error .assertionError
    else if value.getSampleSize = 1 then
      if discard then do
        let r ← collectValues discard rest
        .ok (r.1, key :: r.2)
      else do
        let m ← value.getSampleMean
        let r ← collectValues discard rest
        .ok (m :: r.1, key :: r.2)
    else do
      let m ← value.getSampleMean
      let r ← collectValues discard rest
      .ok (m :: r.1, r.2)

/-- Loops at `OnTheFlyStatisticsCollection.py:225-241`: the errors of all data points, `0` for samples
of size 1. -/
def collectErrors (f : OTFS ℝ → Except PyErr ℝ) : List (κ × OTFS ℝ) → Except PyErr (List ℝ)
  | [] => .ok []
  | (_, value) :: rest =>
    if value.getSampleSize = 1 then do
      let r ← collectErrors f rest
      .ok (0 :: r)
    else do
      let e ← f value
      let r ← collectErrors f rest
      .ok (e :: r)

/-- `del data[key]` for each of the given keys, `OnTheFlyStatisticsCollection.py:219-220`. -/
def deleteKeys (data : List (κ × OTFS ℝ)) (ks : List κ) : List (κ × OTFS ℝ) :=
  ks.foldl (fun d k => d.filter fun p => p.1 ≠ k) data

/-- `getMPLAxes`, `OnTheFlyStatisticsCollection.py:107-271`. Simplifications: the arguments are booleans
or floating-point numbers, resp. a string; printing of warnings and the drawing are omitted;
`plotEveryNth` is ignored by the code. -/
noncomputable def getMPLAxes (c : Coll κ ℝ) (sem sd : ShowOpt) (t : Treatment) :
    Except PyErr (PlotData κ) := do
  sem.check
  sd.check
  if sem.isBars && sd.isBars then .error .valueError else
  if t = .unknown then .error .valueError else
  let any := sem.truthy || sd.truthy
  let discard := any && t.discards
  let data ← getOrderedData c
  let vs ← collectValues discard data
  if any && (t = .raise) && (vs.2.length ≠ 0) then .error .runtimeError else
  let data := if any && t.discards then deleteKeys data vs.2 else data
  let sems ← if sem.truthy then (collectErrors OTFS.getStandardErrorOfTheMean data).map some
    else .ok none
  let sds ← if sd.truthy then (collectErrors OTFS.getSampleStandardDeviation data).map some
    else .ok none
  let errorbars := if sd.isBars then sds else if sem.isBars then sems else none
  .ok { keys := data.map Prod.fst
        values := vs.1
        errorbars := errorbars
        semArea := if sem.isShaded then
            sems.map fun e => (List.zipWith (· - ·) vs.1 e, List.zipWith (· + ·) vs.1 e) else none
        sdArea := if sd.isShaded then
            sds.map fun e => (List.zipWith (· - ·) vs.1 e, List.zipWith (· + ·) vs.1 e) else none }

/-! ### Specification -/

namespace Spec

/-- Standard deviation of a list of data, or 0 for a single datum. -/
noncomputable def sd (xs : List ℝ) : ℝ :=
  if xs.length = 1 then 0 else Real.sqrt (OpenMPCD.Spec.variance xs)

/-- Standard error of the mean, or 0 for a single datum. -/
noncomputable def sem (xs : List ℝ) : ℝ :=
  if xs.length = 1 then 0 else Real.sqrt (OpenMPCD.Spec.variance xs) / Real.sqrt xs.length

end Spec

/-! ### Proofs -/

theorem collectValues_eq (discard : Bool) (l : List (κ × List ℝ)) (hl : ∀ p ∈ l, p.2 ≠ []) :
    collectValues discard (l.map fun p => (p.1, feed p.2)) = .ok
      ((l.filter fun p => ¬ (discard = true ∧ p.2.length = 1)).map (fun p => OpenMPCD.Spec.mean p.2),
       (l.filter fun p => p.2.length = 1).map Prod.fst) := by
  induction l with
  | nil => rfl
  | cons p l ih =>
    have ih := ih (fun q hq => hl q (by simp [hq]))
    have hp := hl p (by simp)
    have hm : (feed p.2).getSampleMean = .ok (OpenMPCD.Spec.mean p.2) := by rw [C01_mean, if_neg hp]
    have hn : (feed p.2).getSampleSize = p.2.length := C01_size p.2
    have h0 : p.2.length ≠ 0 := by simpa using hp
    simp only [List.map_cons, collectValues, hn, hm, ih, bind, Except.bind]
    rw [if_neg h0]
    by_cases h1 : p.2.length = 1
    · cases discard <;> simp [h1]
    · simp [h1]

theorem collectErrors_eq (f : OTFS ℝ → Except PyErr ℝ) (g : List ℝ → ℝ) (l : List (κ × List ℝ))
    (hf : ∀ p ∈ l, p.2.length ≠ 1 → f (feed p.2) = .ok (g p.2))
    (hg : ∀ p ∈ l, p.2.length = 1 → g p.2 = 0) :
    collectErrors f (l.map fun p => (p.1, feed p.2)) = .ok (l.map fun p => g p.2) := by
  induction l with
  | nil => rfl
  | cons p l ih =>
    have ih := ih (fun q hq => hf q (by simp [hq])) (fun q hq => hg q (by simp [hq]))
    have hn : (feed p.2).getSampleSize = p.2.length := C01_size p.2
    simp only [List.map_cons, collectErrors, hn, ih, bind, Except.bind]
    by_cases h1 : p.2.length = 1
    · rw [if_pos h1, hg p (by simp) h1]
    · rw [if_neg h1, hf p (by simp) h1]

theorem deleteKeys_eq (d : List (κ × OTFS ℝ)) (ks : List κ) :
    deleteKeys d ks = d.filter fun p => p.1 ∉ ks := by
  unfold deleteKeys
  induction ks generalizing d with
  | nil => simp
  | cons k ks ih =>
    rw [List.foldl_cons, ih, List.filter_filter]
    congr 1
    funext p
    simp only [List.mem_cons, ne_eq, Bool.decide_and, decide_not, not_or, Bool.and_comm]

theorem delete_singular {l : List (κ × List ℝ)} (hn : (l.map Prod.fst).Nodup) :
    deleteKeys (l.map fun p => (p.1, feed p.2)) ((l.filter fun p => p.2.length = 1).map Prod.fst) =
      (l.filter fun p => ¬ p.2.length = 1).map fun p => (p.1, feed p.2) := by
  rw [deleteKeys_eq, List.filter_map]
  congr 1
  apply List.filter_congr
  intro p hp
  simp only [Function.comp, decide_eq_decide]
  rw [not_iff_not]
  constructor
  · intro h
    obtain ⟨q, hq, hqp⟩ := List.mem_map.mp h
    obtain ⟨hq1, hq2⟩ := List.mem_filter.mp hq
    have : q = p := List.inj_on_of_nodup_map hn hq1 hp hqp
    rw [← this]; simpa using hq2
  · intro h
    exact List.mem_map_of_mem (f := Prod.fst) (List.mem_filter.mpr ⟨hp, by simpa using h⟩)

theorem sd_ok (xs : List ℝ) (h0 : xs ≠ []) (h1 : xs.length ≠ 1) :
    (feed xs).getSampleStandardDeviation = .ok (Spec.sd xs) := by
  have hl : 2 ≤ xs.length := by
    have : xs.length ≠ 0 := by simpa using h0
    omega
  unfold OTFS.getSampleStandardDeviation
  rw [C01_variance xs, if_neg (by omega)]
  simp [bind, Except.bind, Spec.sd, h1]

theorem sem_ok (xs : List ℝ) (h0 : xs ≠ []) (h1 : xs.length ≠ 1) :
    (feed xs).getStandardErrorOfTheMean = .ok (Spec.sem xs) := by
  unfold OTFS.getStandardErrorOfTheMean
  rw [sd_ok xs h0 h1, C01_size xs]
  simp [bind, Except.bind, Spec.sd, Spec.sem, h1]

/-- The first hypotheses of `C52_plot` hold of every collection filled through `addData`. -/
theorem C52_reachable (calls : List (List (κ × Val ℝ))) (contrib : List (κ × List ℝ))
    (h : List.Forall₂ (fun i d => i.1 = d.1 ∧ Supplies i.2 d.2) calls.flatten contrib)
    (hne : ∀ d ∈ contrib, d.2 ≠ []) :
    ∃ l : List (κ × List ℝ),
      getOrderedData (addCalls init calls).1 = .ok (l.map fun p => (p.1, feed p.2)) ∧
      (l.map Prod.fst).Nodup ∧ (∀ p ∈ l, p.2 ≠ []) ∧
      (∀ p ∈ l, p.2 = supplied contrib p.1) ∧ ∀ k, k ∈ l.map Prod.fst ↔ k ∈ contrib.map Prod.fst := by
  obtain ⟨c, h1, h2⟩ := describes_addData h describes_nil
  have hcalls : addCalls init calls = (c, .ok ()) := by rw [addCalls_eq]; exact h1
  have hg := h2.2
  simp only [List.nil_append] at hg
  have hr : Reach c := .add _ .init h1
  obtain ⟨l, hl1, hl2, hl3⟩ := C10_ordered hr
  have hmem : ∀ k, k ∈ l.map Prod.fst ↔ k ∈ contrib.map Prod.fst := by
    intro k
    constructor
    · intro hk
      obtain ⟨p, hp, rfl⟩ := List.mem_map.mp hk
      have := (hl3 p.1 p.2).mp hp
      rw [hg] at this
      by_contra hcon
      rw [if_neg hcon] at this; simp at this
    · intro hk
      have := hg k
      rw [if_pos hk] at this
      exact List.mem_map_of_mem (f := Prod.fst) ((hl3 k _).mpr this)
  refine ⟨l.map fun p => (p.1, supplied contrib p.1), ?_, ?_, ?_, ?_, ?_⟩
  · rw [hcalls]
    simp only [hl1, List.map_map, Except.ok.injEq]
    symm
    conv_rhs => rw [← List.map_id l]
    apply List.map_congr_left
    intro p hp
    have := (hl3 p.1 p.2).mp hp
    rw [hg, if_pos ((hmem p.1).mp (List.mem_map_of_mem hp))] at this
    simp only [Function.comp, id]
    rw [Option.some.inj this]
  · rw [List.map_map]
    exact hl2.imp fun h => ne_of_lt h
  · intro p hp
    obtain ⟨q, hq, rfl⟩ := List.mem_map.mp hp
    have hk := (hmem q.1).mp (List.mem_map_of_mem hq)
    obtain ⟨d, hd, hdk⟩ := List.mem_map.mp hk
    intro hcon
    simp only [supplied, List.flatMap_eq_nil_iff, List.mem_filter, decide_eq_true_eq, and_imp] at hcon
    exact hne d hd (hcon d hd hdk)
  · intro p hp
    obtain ⟨q, hq, rfl⟩ := List.mem_map.mp hp
    rfl
  · intro k
    rw [List.map_map]
    exact hmem k

/-- The arguments that `getMPLAxes` accepts. -/
def ValidArgs (sem sd : ShowOpt) (t : Treatment) : Prop :=
  (∀ a, sem = .shaded a → 0 < a ∧ a ≤ 1) ∧ (∀ a, sd = .shaded a → 0 < a ∧ a ≤ 1) ∧
    ¬ (sem = .bars ∧ sd = .bars) ∧ t ≠ .unknown

/-- C52: let `l` be the keys of the collection in increasing order with the (non-empty) data supplied for
each. Unless the treatment is `"raise"`, errors are to be shown and some key has a single datum, the
plot shows, for each key (except those with a single datum if these are to be discarded and errors
are to be shown) and in this order, the mean of the data of that key, with error bars, or bounds of
shaded areas, computed from the data of that same key. -/
theorem C52_plot (c : Coll κ ℝ) (l : List (κ × List ℝ)) (sem sd : ShowOpt) (t : Treatment)
    (hc : getOrderedData c = .ok (l.map fun p => (p.1, feed p.2)))
    (hnd : (l.map Prod.fst).Nodup) (hne : ∀ p ∈ l, p.2 ≠ [])
    (hargs : ValidArgs sem sd t)
    (hraise : t = .raise → sem ≠ .off ∨ sd ≠ .off → ∀ p ∈ l, p.2.length ≠ 1)
    (shown : List (κ × List ℝ))
    (hshown : shown = if (sem ≠ .off ∨ sd ≠ .off) ∧ (t = .discard ∨ t = .warnAndDiscard) then
      l.filter (fun p => p.2.length ≠ 1) else l) :
    ∃ r, getMPLAxes c sem sd t = .ok r ∧
      r.keys = shown.map Prod.fst ∧
      r.values = shown.map (fun p => OpenMPCD.Spec.mean p.2) ∧
      r.errorbars = (if sem = .bars then some (shown.map fun p => Spec.sem p.2)
        else if sd = .bars then some (shown.map fun p => Spec.sd p.2) else none) ∧
      (∀ a, sem = .shaded a → r.semArea =
        some (shown.map (fun p => OpenMPCD.Spec.mean p.2 - Spec.sem p.2),
              shown.map (fun p => OpenMPCD.Spec.mean p.2 + Spec.sem p.2))) ∧
      (∀ a, sd = .shaded a → r.sdArea =
        some (shown.map (fun p => OpenMPCD.Spec.mean p.2 - Spec.sd p.2),
              shown.map (fun p => OpenMPCD.Spec.mean p.2 + Spec.sd p.2))) := by
  obtain ⟨hs1, hs2, hs3, hs4⟩ := hargs
  have hck1 : sem.check = .ok () := by
    cases sem with
    | shaded a =>
      obtain ⟨h1, h2⟩ := hs1 a rfl
      simp [ShowOpt.check, not_le.mpr h1, not_lt.mpr h2]
    | _ => rfl
  have hck2 : sd.check = .ok () := by
    cases sd with
    | shaded a =>
      obtain ⟨h1, h2⟩ := hs2 a rfl
      simp [ShowOpt.check, not_le.mpr h1, not_lt.mpr h2]
    | _ => rfl
  have hbars : (sem.isBars && sd.isBars) = false := by
    cases sem <;> cases sd <;> simp_all [ShowOpt.isBars]
  have hany : (sem.truthy || sd.truthy) = true ↔ (sem ≠ .off ∨ sd ≠ .off) := by
    cases sem <;> cases sd <;> simp [ShowOpt.truthy]
  have hdis : t.discards = true ↔ (t = .discard ∨ t = .warnAndDiscard) := by
    cases t <;> simp [Treatment.discards]
  -- the data left after deletion
  have hsub : ∀ p ∈ shown, p ∈ l := by
    rw [hshown]; split
    · exact fun p hp => (List.mem_filter.mp hp).1
    · exact fun p hp => hp
  have hdata : (if ((sem.truthy || sd.truthy) && t.discards) = true then
      deleteKeys (l.map fun p => (p.1, feed p.2))
        ((l.filter fun p => p.2.length = 1).map Prod.fst) else (l.map fun p => (p.1, feed p.2))) =
      shown.map fun p => (p.1, feed p.2) := by
    rw [hshown, delete_singular hnd]
    simp only [Bool.and_eq_true, hany, hdis]
    split <;> simp
  have hvals : (l.filter fun p => ¬ (((sem.truthy || sd.truthy) && t.discards) = true ∧
      p.2.length = 1)) = shown := by
    rw [hshown]
    simp only [Bool.and_eq_true, hany, hdis]
    split
    · rename_i h; simp [h]
    · rename_i h; simp [h]
  have hr : ((sem.truthy || sd.truthy) && (decide (t = .raise)) &&
      (decide (((l.filter fun p => p.2.length = 1).map Prod.fst).length ≠ 0))) = false := by
    by_contra hcon
    rw [Bool.not_eq_false] at hcon
    simp only [Bool.and_eq_true, decide_eq_true_eq] at hcon
    obtain ⟨⟨h1, h2⟩, h3⟩ := hcon
    have := hraise h2 (hany.mp (by simpa using h1))
    apply h3
    rw [List.length_map, List.length_eq_zero_iff, List.filter_eq_nil_iff]
    intro p hp; simpa using this p hp
  have hsem : collectErrors OTFS.getStandardErrorOfTheMean (shown.map fun p => (p.1, feed p.2)) =
      .ok (shown.map fun p => Spec.sem p.2) :=
    collectErrors_eq _ _ _ (fun p hp h => sem_ok _ (hne p (hsub p hp)) h)
      (fun p _ h => by simp [Spec.sem, h])
  have hsd : collectErrors OTFS.getSampleStandardDeviation (shown.map fun p => (p.1, feed p.2)) =
      .ok (shown.map fun p => Spec.sd p.2) :=
    collectErrors_eq _ _ _ (fun p hp h => sd_ok _ (hne p (hsub p hp)) h)
      (fun p _ h => by simp [Spec.sd, h])
  have hzip : ∀ (op : ℝ → ℝ → ℝ) (g : List ℝ → ℝ), List.zipWith op
      (shown.map fun p => OpenMPCD.Spec.mean p.2) (shown.map fun p => g p.2) =
      shown.map fun p => op (OpenMPCD.Spec.mean p.2) (g p.2) := by
    intro op g
    rw [List.zipWith_map_left, List.zipWith_map_right, List.zipWith_self]
  have hfst : (shown.map fun p => (p.1, feed p.2)).map Prod.fst = shown.map Prod.fst := by
    simp
  refine ⟨{ keys := shown.map Prod.fst
            values := shown.map fun p => OpenMPCD.Spec.mean p.2
            errorbars := (if sem = .bars then some (shown.map fun p => Spec.sem p.2)
              else if sd = .bars then some (shown.map fun p => Spec.sd p.2) else none)
            semArea := if sem.isShaded then
              some (shown.map (fun p => OpenMPCD.Spec.mean p.2 - Spec.sem p.2),
                shown.map (fun p => OpenMPCD.Spec.mean p.2 + Spec.sem p.2)) else none
            sdArea := if sd.isShaded then
              some (shown.map (fun p => OpenMPCD.Spec.mean p.2 - Spec.sd p.2),
                shown.map (fun p => OpenMPCD.Spec.mean p.2 + Spec.sd p.2)) else none },
    ?_, rfl, rfl, rfl, ?_, ?_⟩
  · unfold getMPLAxes
    simp only [hck1, hck2, hbars, hc, collectValues_eq _ l hne, hvals, bind, Except.bind]
    rw [if_neg (by simp), if_neg hs4]
    rw [if_neg (by rw [hr]; simp)]
    simp only [hdata, hsem, hsd, hfst]
    cases sem <;> cases sd <;>
      simp [ShowOpt.truthy, ShowOpt.isBars, ShowOpt.isShaded, Except.map, hzip]
    simp at hs3
  · intro a ha; subst ha; simp [ShowOpt.isShaded]
  · intro a ha; subst ha; simp [ShowOpt.isShaded]

/-- C52: if the treatment is `"raise"`, errors are to be shown and some key has a single datum, then
`getMPLAxes` raises `RuntimeError`. -/
theorem C52_raise (c : Coll κ ℝ) (l : List (κ × List ℝ)) (sem sd : ShowOpt)
    (hc : getOrderedData c = .ok (l.map fun p => (p.1, feed p.2)))
    (hne : ∀ p ∈ l, p.2 ≠ [])
    (hargs : ValidArgs sem sd .raise) (hs : sem ≠ .off ∨ sd ≠ .off)
    (hsing : ∃ p ∈ l, p.2.length = 1) :
    getMPLAxes c sem sd .raise = .error .runtimeError := by
  obtain ⟨hs1, hs2, hs3, hs4⟩ := hargs
  have hck1 : sem.check = .ok () := by
    cases sem with
    | shaded a =>
      obtain ⟨h1, h2⟩ := hs1 a rfl
      simp [ShowOpt.check, not_le.mpr h1, not_lt.mpr h2]
    | _ => rfl
  have hck2 : sd.check = .ok () := by
    cases sd with
    | shaded a =>
      obtain ⟨h1, h2⟩ := hs2 a rfl
      simp [ShowOpt.check, not_le.mpr h1, not_lt.mpr h2]
    | _ => rfl
  have hbars : (sem.isBars && sd.isBars) = false := by
    cases sem <;> cases sd <;> simp_all [ShowOpt.isBars]
  have hany : (sem.truthy || sd.truthy) = true := by
    cases sem <;> cases sd <;> simp_all [ShowOpt.truthy]
  unfold getMPLAxes
  simp only [hck1, hck2, hbars, hc, collectValues_eq _ l hne, hany, bind, Except.bind]
  rw [if_neg (by simp), if_neg hs4, if_pos]
  obtain ⟨p, hp, h1⟩ := hsing
  simp only [Bool.true_and, decide_true, ne_eq, List.length_map, List.length_eq_zero_iff,
    List.filter_eq_nil_iff, decide_eq_true_eq]
  intro h
  exact h p hp h1

/-- A collection with keys 1 (two data) and 2 (one datum), plotted with error bars and discarding. -/
example : ∃ c : Coll ℕ ℝ, addData init [(2, .num 4), (1, .num 1)] = (c, .ok ()) ∧
    getOrderedData c = .ok ([(1, [1]), (2, [4])].map fun p => (p.1, feed p.2)) := by
  refine ⟨_, rfl, ?_⟩
  simp [getOrderedData, sortedKeys, put, init, current, get_cons, get_nil, lookupAll, List.insertionSort,
    List.orderedInsert, bind, Except.bind, feed, addAll]

example : ValidArgs .bars (.shaded 0.3) .discard := by
  refine ⟨by simp, ?_, by simp, by simp⟩
  intro a ha
  simp only [ShowOpt.shaded.injEq] at ha
  subst ha; norm_num

end OpenMPCD.Collection
