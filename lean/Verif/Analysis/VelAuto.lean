import Verif.Analysis.Msd
import Verif.Instr.VelAuto
import Mathlib.Algebra.Order.Floor.Ring
import Mathlib.Algebra.Order.Round
import Mathlib.Data.Rat.Floor

/-!
# Reading measured velocity autocorrelations (C76)
-/

set_option linter.unusedSectionVars false

namespace OpenMPCD.Analysis

open Runs (Str)
open Snapshot (Io Token words)
open DDDA (DDDA feedD)
open Instr (VA Slot Mem correlation meanProduct)

variable {K : Type} [Field K] [LinearOrder K] [IsStrictOrderedRing K] [FloorRing K]

/-! ## Model -/

/-- Python's `round(x)`: to the nearest integer, halves to even. -/
def pyRound (x : K) : ℤ :=
  if x - ⌊x⌋ < 1 / 2 then ⌊x⌋
  else if x - ⌊x⌋ > 1 / 2 then ⌊x⌋ + 1
  else if Even ⌊x⌋ then ⌊x⌋ else ⌊x⌋ + 1

/-- `_getDeltaT` (`Analysis/MPCDAnalysis/VelocityAutocorrelation.py:139-164`), for numbers of type `float`. -/
def getDeltaT (timestep t₁ t₂ : K) : Except PyErr K :=
  if t₁ < 0 ∨ t₂ < t₁ then .error .valueError
  else if timestep = 0 then .error .zeroDivisionError
  else .ok (pyRound ((t₂ - t₁) / timestep) * timestep)

/-- `self._statistics`, a dictionary. -/
abbrev TimeStats (K : Type) := List (K × DDDA K)

/-- Add a datum to the entry with the given key, which is created if it does not exist
(`Analysis/MPCDAnalysis/VelocityAutocorrelation.py:191-194`). -/
def addTo (key x : K) : TimeStats K → TimeStats K
  | [] => [(key, DDDA.addDatum DDDA.init x)]
  | (k, d) :: r => if k = key then (k, DDDA.addDatum d x) :: r else (k, d) :: addTo key x r

/-- The body of the loop in `_parse` (`Analysis/MPCDAnalysis/VelocityAutocorrelation.py:180-194`), for the columns of a
line. -/
def vaParseLine (io : Io K) (timestep minimumTime : K) (s : TimeStats K) (parts : List Str) :
    Except PyErr (TimeStats K) :=
  match parts.mapM io.parse with
  | some [t₁, t₂, value] =>
    if t₂ < minimumTime then .ok s
    else match getDeltaT timestep t₁ t₂ with
      | .error e => .error e
      | .ok d => .ok (addTo d value s)
  | _ => .error .valueError

/-- `_parse` (`Analysis/MPCDAnalysis/VelocityAutocorrelation.py:167-197`), apart from the list of correlation times, for
which see `correlationTimes`. -/
def vaParse (io : Io K) (timestep minimumTime : K) (s : TimeStats K) (text : Str) : Except PyErr (TimeStats K) :=
  ((pyLines text).map words).foldlM (vaParseLine io timestep minimumTime) s

/-- The loop of the constructor after the first run directory
(`Analysis/MPCDAnalysis/VelocityAutocorrelation.py:70-103`). -/
def vaReadMore {C : Type} (equivalent : C → C → Bool) (io : Io K) (timestep minimumTime : K) (config : C)
    (s : TimeStats K) (r : Rundir C) : Except PyErr (TimeStats K) :=
  match r.text with
  | none => .error .valueError
  | some text => if equivalent config r.config then vaParse io timestep minimumTime s text else .error .valueError

/-- The constructor (`Analysis/MPCDAnalysis/VelocityAutocorrelation.py:21-103`). `timestep`: the setting `mpc.timestep`.
Simplifications: the arguments have the right types; compressed files can be read; the configuration has the settings
required. -/
def vaRead {C : Type} (equivalent : C → C → Bool) (timestep : C → K) (io : Io K) (minimumTime : K) :
    List (Rundir C) → Except PyErr (TimeStats K)
  | [] => .error .valueError
  | r :: rs =>
    match r.text with
    | none => .error .valueError
    | some text => do
      let s ← vaParse io (timestep r.config) minimumTime [] text
      rs.foldlM (vaReadMore equivalent io (timestep r.config) minimumTime r.config) s

/-- `getCorrelationTimes` (`Analysis/MPCDAnalysis/VelocityAutocorrelation.py:131-136,196-197`): the sorted keys. -/
def correlationTimes (s : TimeStats K) : List K := (s.map Prod.fst).mergeSort fun a b => decide (a ≤ b)

/-- `getAutocorrelation` (`Analysis/MPCDAnalysis/VelocityAutocorrelation.py:106-128`), for a `float`. -/
def vaGet (s : TimeStats K) (deltaT : K) : Except PyErr (DDDA K) :=
  if deltaT ∈ correlationTimes s then
    match s.lookup deltaT with
    | none => .error .keyError
    | some d => .ok d
  else .error .valueError

/-- The text of the file saved by the simulation
(`src/OpenMPCD/CUDA/MPCFluid/Instrumentation/VelocityAutocorrelation/Base.cu:277-291`), given its lines. -/
def vaText (io : Io K) (records : List (K × K × K)) : Str :=
  records.flatMap fun r => tabLine (io.fmt r.1) [io.fmt r.2.1, io.fmt r.2.2]

/-! ## Specification -/

/-- The number of time steps that have passed at a time, if that is close to a multiple of the time step. -/
def stepAt (timestep t : K) : ℤ := ⌊t / timestep + 1 / 2⌋

/-- The time is a multiple of the time step, up to inaccuracies of less than a quarter of a step. -/
def NearStep (timestep t : K) : Prop := ∃ n : ℤ, |t - n * timestep| < timestep / 4

/-- The values of the records whose second time is at least the minimum and whose times differ by `m` steps. -/
def pooled (timestep minimumTime : K) (records : List (K × K × K)) (m : ℤ) : List K :=
  (records.filter fun r => minimumTime ≤ r.2.1 ∧ stepAt timestep r.2.1 - stepAt timestep r.1 = m).map fun r => r.2.2

/-! ## Proofs -/

theorem stepAt_eq {timestep t : K} (h : 0 < timestep) {n : ℤ} (hn : |t - n * timestep| < timestep / 4) :
    stepAt timestep t = n := by
  unfold stepAt
  rw [Int.floor_eq_iff]
  have e : t / timestep = n + (t - n * timestep) / timestep := by field_simp; ring
  rw [abs_lt] at hn
  have h1 : (t - n * timestep) / timestep < 1 / 4 := by
    rw [div_lt_iff₀ h]; linarith [hn.2]
  have h2 : -(1 / 4) < (t - n * timestep) / timestep := by
    rw [lt_div_iff₀ h]; linarith [hn.1]
  rw [e]
  constructor <;> linarith

theorem pyRound_eq {x : K} {n : ℤ} (h : |x - n| < 1 / 2) : pyRound x = n := by
  rw [abs_lt] at h
  unfold pyRound
  rcases le_or_gt (n : K) x with hx | hx
  · have : ⌊x⌋ = n := by rw [Int.floor_eq_iff]; exact ⟨hx, by linarith [h.2]⟩
    rw [this, if_pos (by linarith [h.2])]
  · have : ⌊x⌋ = n - 1 := by
      rw [Int.floor_eq_iff]; push_cast; exact ⟨by linarith [h.1], by linarith⟩
    rw [this]
    push_cast
    rw [if_neg (by linarith [h.1]), if_pos (by linarith [h.1])]
    omega

/-- C76: the rounded time difference is the number of steps between the times. -/
theorem C76_deltaT {timestep t₁ t₂ : K} (h : 0 < timestep) (h0 : 0 ≤ t₁) (h12 : t₁ ≤ t₂) (h1 : NearStep timestep t₁)
    (h2 : NearStep timestep t₂) :
    getDeltaT timestep t₁ t₂ = .ok ((stepAt timestep t₂ - stepAt timestep t₁ : ℤ) * timestep) := by
  obtain ⟨n₁, h1⟩ := h1
  obtain ⟨n₂, h2⟩ := h2
  rw [stepAt_eq h h1, stepAt_eq h h2]
  unfold getDeltaT
  rw [if_neg (by push Not; exact ⟨h0, h12⟩), if_neg h.ne', pyRound_eq (n := n₂ - n₁)]
  have e : (t₂ - t₁) / timestep - ((n₂ - n₁ : ℤ) : K) =
      ((t₂ - n₂ * timestep) - (t₁ - n₁ * timestep)) / timestep := by
    push_cast; field_simp; ring
  rw [e, abs_div, abs_of_pos h, div_lt_iff₀ h]
  have := abs_sub (t₂ - n₂ * timestep) (t₁ - n₁ * timestep)
  linarith

/-- What the statistics hold, in terms of the records read so far. -/
structure VaInv (timestep minimumTime : K) (records : List (K × K × K)) (s : TimeStats K) : Prop where
  keys : ∀ x, x ∈ s.map Prod.fst ↔ ∃ r ∈ records, minimumTime ≤ r.2.1 ∧
    x = (stepAt timestep r.2.1 - stepAt timestep r.1 : ℤ) * timestep
  nodup : (s.map Prod.fst).Nodup
  data : ∀ m : ℤ, s.lookup (m * timestep) =
    if pooled timestep minimumTime records m = [] then none
    else some (feedD (pooled timestep minimumTime records m))

theorem mem_addTo (key x : K) (s : TimeStats K) (y : K) :
    y ∈ (addTo key x s).map Prod.fst ↔ y = key ∨ y ∈ s.map Prod.fst := by
  induction s with
  | nil => simp [addTo]
  | cons p r ih =>
    obtain ⟨k, d⟩ := p
    unfold addTo
    by_cases h : k = key
    · subst h; simp
    · rw [if_neg h, List.map_cons, List.mem_cons, ih, List.map_cons, List.mem_cons]
      tauto

theorem nodup_addTo (key x : K) (s : TimeStats K) (h : (s.map Prod.fst).Nodup) :
    ((addTo key x s).map Prod.fst).Nodup := by
  induction s with
  | nil => simp [addTo]
  | cons p r ih =>
    obtain ⟨k, d⟩ := p
    unfold addTo
    rw [List.map_cons, List.nodup_cons] at h
    by_cases hk : k = key
    · rw [if_pos hk]; exact List.nodup_cons.2 h
    · rw [if_neg hk, List.map_cons, List.nodup_cons, mem_addTo]
      exact ⟨fun e => e.elim hk h.1, ih h.2⟩

theorem lookup_addTo (key x : K) (s : TimeStats K) (y : K) :
    (addTo key x s).lookup y =
      if y = key then some (DDDA.addDatum ((s.lookup key).getD DDDA.init) x) else s.lookup y := by
  induction s with
  | nil =>
    by_cases h : y = key
    · subst h; simp [addTo]
    · have h1 : (y == key) = false := by simpa using h
      simp [addTo, List.lookup_cons, h1, h]
  | cons p r ih =>
    obtain ⟨k, d⟩ := p
    unfold addTo
    by_cases hk : k = key
    · subst hk
      rw [if_pos rfl]
      by_cases hy : y = k
      · subst hy; simp
      · have : (y == k) = false := by simpa using hy
        simp [List.lookup_cons, this, hy]
    · rw [if_neg hk]
      by_cases hy : y = k
      · subst hy
        simp [hk]
      · have h1 : (y == k) = false := by simpa using hy
        have h2 : (key == k) = false := by simpa using fun e : key = k => hk e.symm
        rw [List.lookup_cons, h1, ih, List.lookup_cons, h2, List.lookup_cons, h1]

theorem vaInv_nil (timestep minimumTime : K) : VaInv timestep minimumTime [] [] :=
  ⟨by simp, by simp, by simp [pooled]⟩

theorem vaInv_skip {timestep minimumTime : K} {records : List (K × K × K)} {s : TimeStats K}
    (h : VaInv timestep minimumTime records s) (r : K × K × K) (hr : r.2.1 < minimumTime) :
    VaInv timestep minimumTime (records ++ [r]) s := by
  have e : ∀ m, pooled timestep minimumTime (records ++ [r]) m = pooled timestep minimumTime records m := by
    intro m
    unfold pooled
    simp [not_le.2 hr]
  refine ⟨fun x => ?_, h.nodup, fun m => by rw [e]; exact h.data m⟩
  rw [h.keys]
  simp only [List.mem_append, List.mem_singleton]
  constructor
  · rintro ⟨r', h1, h2⟩
    exact ⟨r', .inl h1, h2⟩
  · rintro ⟨r', h1 | rfl, h2, h3⟩
    · exact ⟨r', h1, h2, h3⟩
    · exact absurd h2 (not_le.2 hr)

theorem vaInv_add {timestep minimumTime : K} (ht : 0 < timestep) {records : List (K × K × K)} {s : TimeStats K}
    (h : VaInv timestep minimumTime records s) (r : K × K × K) (hr : minimumTime ≤ r.2.1) :
    VaInv timestep minimumTime (records ++ [r])
      (addTo ((stepAt timestep r.2.1 - stepAt timestep r.1 : ℤ) * timestep) r.2.2 s) := by
  refine ⟨fun x => ?_, nodup_addTo _ _ _ h.nodup, fun m => ?_⟩
  · rw [mem_addTo, h.keys]
    simp only [List.mem_append, List.mem_singleton]
    constructor
    · rintro (h1 | ⟨r', h1, h2⟩)
      · exact ⟨r, .inr rfl, hr, h1⟩
      · exact ⟨r', .inl h1, h2⟩
    · rintro ⟨r', h1 | rfl, h2, h3⟩
      · exact .inr ⟨r', h1, h2, h3⟩
      · exact .inl h3
  · rw [lookup_addTo]
    by_cases hm : stepAt timestep r.2.1 - stepAt timestep r.1 = m
    · rw [hm, if_pos rfl, h.data m]
      have e : pooled timestep minimumTime (records ++ [r]) m = pooled timestep minimumTime records m ++ [r.2.2] := by
        unfold pooled
        simp [hr, hm]
      have hne : ¬ pooled timestep minimumTime records m ++ [r.2.2] = [] := by simp
      rw [e, if_neg hne, DDDA.feedD_append_singleton]
      by_cases h0 : pooled timestep minimumTime records m = []
      · rw [if_pos h0, h0]; rfl
      · rw [if_neg h0]; rfl
    · have e : pooled timestep minimumTime (records ++ [r]) m = pooled timestep minimumTime records m := by
        unfold pooled
        simp [hm]
      rw [if_neg, e]
      · exact h.data m
      · intro e'
        have := mul_right_cancel₀ ht.ne' e'
        exact hm (by exact_mod_cast this.symm)

/-- The numbers of a record as they are read. -/
def rounded (rnd : K → K) (r : K × K × K) : K × K × K := (rnd r.1, rnd r.2.1, rnd r.2.2)

/-- Records the reader accepts: the times are those of time steps, in order. -/
def GoodRecord (timestep : K) (r : K × K × K) : Prop :=
  0 ≤ r.1 ∧ r.1 ≤ r.2.1 ∧ NearStep timestep r.1 ∧ NearStep timestep r.2.1

theorem vaParse_records {io : Io K} {rnd : K → K} (hio : Rounds io rnd) {timestep minimumTime : K} (ht : 0 < timestep)
    (records before : List (K × K × K)) (s : TimeStats K) (h : VaInv timestep minimumTime before s)
    (hr : ∀ r ∈ records, GoodRecord timestep (rounded rnd r)) :
    ∃ s', vaParse io timestep minimumTime s (vaText io records) = .ok s' ∧
      VaInv timestep minimumTime (before ++ records.map (rounded rnd)) s' := by
  have e : (pyLines (vaText io records)).map words =
      records.map fun r => [io.fmt r.1, io.fmt r.2.1, io.fmt r.2.2] := by
    have := words_pyLines (records.map fun r => (io.fmt r.1, [io.fmt r.2.1, io.fmt r.2.2])) (by
      intro r hr
      obtain ⟨r', -, rfl⟩ := List.mem_map.1 hr
      refine ⟨hio.token_fmt _, fun t ht => ?_⟩
      simp only [List.mem_cons, List.not_mem_nil, or_false] at ht
      rcases ht with rfl | rfl <;> exact hio.token_fmt _)
    rw [List.flatMap_map, List.map_map] at this
    exact this
  unfold vaParse
  rw [e]
  clear e
  induction records generalizing before s with
  | nil => exact ⟨s, rfl, by simpa using h⟩
  | cons r records ih =>
    obtain ⟨g1, g2, g3, g4⟩ := hr r (by simp)
    have hline : ∃ s₁, vaParseLine io timestep minimumTime s [io.fmt r.1, io.fmt r.2.1, io.fmt r.2.2] = .ok s₁ ∧
        VaInv timestep minimumTime (before ++ [rounded rnd r]) s₁ := by
      unfold vaParseLine
      have hm : [io.fmt r.1, io.fmt r.2.1, io.fmt r.2.2].mapM io.parse = some [rnd r.1, rnd r.2.1, rnd r.2.2] := by
        simp [List.mapM_cons, hio.parse_fmt]
      rw [hm]
      dsimp only
      by_cases hmin : rnd r.2.1 < minimumTime
      · rw [if_pos hmin]
        exact ⟨s, rfl, vaInv_skip h _ hmin⟩
      · have hd := C76_deltaT ht g1 g2 g3 g4
        simp only [rounded] at hd
        rw [if_neg hmin, hd]
        exact ⟨_, rfl, vaInv_add ht h (rounded rnd r) (not_lt.1 hmin)⟩
    obtain ⟨s₁, h1, h2⟩ := hline
    obtain ⟨s', h3, h4⟩ := ih (before ++ [rounded rnd r]) s₁ h2 fun r' hr' => hr r' (by simp [hr'])
    refine ⟨s', ?_, by simpa using h4⟩
    rw [List.map_cons, List.foldlM_cons, h1]
    exact h3

theorem correlationTimes_mem (s : TimeStats K) (x : K) : x ∈ correlationTimes s ↔ x ∈ s.map Prod.fst :=
  (List.mergeSort_perm _ _).mem_iff

theorem lookup_isSome (s : TimeStats K) (x : K) : (s.lookup x).isSome ↔ x ∈ s.map Prod.fst := by
  induction s with
  | nil => simp
  | cons p r ih =>
    obtain ⟨k, d⟩ := p
    rw [List.lookup_cons]
    by_cases h : x = k
    · subst h; simp
    · have : (x == k) = false := by simpa using h
      rw [this, List.map_cons, List.mem_cons]
      simp only
      rw [ih]
      simp [h]

theorem vaGet_of_inv {timestep minimumTime : K} {records : List (K × K × K)} {s : TimeStats K}
    (h : VaInv timestep minimumTime records s) (m : ℤ) :
    vaGet s (m * timestep) = if pooled timestep minimumTime records m = [] then .error .valueError
      else .ok (feedD (pooled timestep minimumTime records m)) := by
  have h1 := h.data m
  have h2 := lookup_isSome s (m * timestep)
  unfold vaGet
  by_cases h0 : pooled timestep minimumTime records m = []
  · rw [if_pos h0] at h1
    rw [if_pos h0, if_neg]
    rw [correlationTimes_mem, ← h2, h1]
    simp
  · rw [if_neg h0] at h1
    rw [if_neg h0, if_pos, h1]
    rw [correlationTimes_mem, ← h2, h1]
    rfl

/-- The lines of files of any number of runs. -/
theorem vaRead_records {C : Type} (equivalent : C → C → Bool) (timestepOf : C → K) {io : Io K} {rnd : K → K}
    (hio : Rounds io rnd) {timestep : K} (ht : 0 < timestep) (minimumTime : K)
    (runs : List (Rundir C × List (K × K × K))) (hne : runs ≠ [])
    (hts : ∀ r ∈ runs, timestepOf r.1.config = timestep)
    (heq : ∀ r ∈ runs, ∀ r' ∈ runs, equivalent r.1.config r'.1.config = true)
    (htext : ∀ r ∈ runs, r.1.text = some (vaText io r.2))
    (hgood : ∀ r ∈ runs, ∀ l ∈ r.2, GoodRecord timestep (rounded rnd l)) :
    ∃ s, vaRead equivalent timestepOf io minimumTime (runs.map Prod.fst) = .ok s ∧
      VaInv timestep minimumTime (runs.flatMap fun r => r.2.map (rounded rnd)) s := by
  have key : ∀ (rs : List (Rundir C × List (K × K × K))) (c : C) (before : List (K × K × K)) (s : TimeStats K),
      (∀ r ∈ rs, equivalent c r.1.config = true) → (∀ r ∈ rs, r.1.text = some (vaText io r.2)) →
      (∀ r ∈ rs, ∀ l ∈ r.2, GoodRecord timestep (rounded rnd l)) → VaInv timestep minimumTime before s →
      ∃ s', (rs.map Prod.fst).foldlM (vaReadMore equivalent io timestep minimumTime c) s = .ok s' ∧
        VaInv timestep minimumTime (before ++ rs.flatMap fun r => r.2.map (rounded rnd)) s' := by
    intro rs
    induction rs with
    | nil => intro c before s _ _ _ h; exact ⟨s, rfl, by simpa using h⟩
    | cons r rs ih =>
      intro c before s h1 h2 h3 h
      obtain ⟨s₁, h4, h5⟩ := vaParse_records hio ht r.2 before s h (h3 r (by simp))
      obtain ⟨s', h6, h7⟩ := ih c _ s₁ (fun x hx => h1 x (by simp [hx])) (fun x hx => h2 x (by simp [hx]))
        (fun x hx => h3 x (by simp [hx])) h5
      refine ⟨s', ?_, by simpa using h7⟩
      rw [List.map_cons, List.foldlM_cons]
      have : vaReadMore equivalent io timestep minimumTime c s r.1 = .ok s₁ := by
        unfold vaReadMore
        rw [h2 r (by simp)]
        simp only [h1 r (by simp), if_true]
        exact h4
      rw [this]
      exact h6
  match runs, hne with
  | r :: rs, _ =>
    obtain ⟨s₁, h4, h5⟩ := vaParse_records hio ht (minimumTime := minimumTime) r.2 [] [] (vaInv_nil _ _) (hgood r (by simp))
    obtain ⟨s', h6, h7⟩ := key rs r.1.config _ s₁ (fun x hx => heq r (by simp) x (by simp [hx]))
      (fun x hx => htext x (by simp [hx])) (fun x hx => hgood x (by simp [hx])) h5
    refine ⟨s', ?_, by simpa using h7⟩
    rw [List.map_cons]
    unfold vaRead
    simp only [htext r (by simp), hts r (by simp), h4]
    exact h6

/-- A run of a simulation: its directory, the initial contents of the buffers, and its measurements. -/
structure VaRun (C : Type) where
  rundir : Rundir C
  garbage : List Mem
  calls : List (Slot ℝ Mem)

/-- What the simulation has recorded. -/
noncomputable def VaRun.records {C : Type} (measurementTime : ℝ) (constituents : ℕ) (r : VaRun C) : List (ℝ × ℝ × ℝ) :=
  ((VA.make r.garbage).run measurementTime (correlation constituents) r.calls).records

/-- C76, as far as it holds. From the directories of any number of runs with equivalent configurations, in which the
simulation has saved its measurements, one obtains for each number of time steps the statistics of exactly those
correlations recorded whose times differ by that number of steps and whose *later* time is at least the minimum given, each
once, rounded to the precision of the file, in the order of the runs and of the records, even if times are inaccurate by
up to a quarter of a step; the correlation times are the differences that occur, in increasing order, each once; other
times are rejected. What the records are says C36. `_partial`: the documentation asks for both times to be at least the
minimum. -/
theorem C76_partial {C : Type} (equivalent : C → C → Bool) (timestepOf : C → ℝ) {io : Io ℝ} {rnd : ℝ → ℝ}
    (hio : Rounds io rnd) {timestep measurementTime : ℝ} (ht : 0 < timestep) (hT : 0 ≤ measurementTime)
    (minimumTime : ℝ) (constituents : ℕ) (runs : List (VaRun C)) (hne : runs ≠ [])
    (hts : ∀ r ∈ runs, timestepOf r.rundir.config = timestep)
    (heq : ∀ r ∈ runs, ∀ r' ∈ runs, equivalent r.rundir.config r'.rundir.config = true)
    (htext : ∀ r ∈ runs, r.rundir.text = some (vaText io (r.records measurementTime constituents)))
    (hcalls : ∀ r ∈ runs, (∀ c ∈ r.calls, 0 ≤ c.time ∧ rnd c.time = c.time ∧ NearStep timestep c.time) ∧
      r.calls.Pairwise fun a b => a.time ≤ b.time) :
    ∃ s, vaRead equivalent timestepOf io minimumTime (runs.map VaRun.rundir) = .ok s ∧
      (∀ m : ℤ, vaGet s (m * timestep) =
        let xs := runs.flatMap fun r => (pooled timestep minimumTime (r.records measurementTime constituents) m).map rnd
        if xs = [] then .error .valueError else .ok (feedD xs)) ∧
      (∀ x, x ∈ correlationTimes s ↔ ∃ r ∈ runs, ∃ l ∈ r.records measurementTime constituents, minimumTime ≤ l.2.1 ∧
        x = (stepAt timestep l.2.1 - stepAt timestep l.1 : ℤ) * timestep) ∧
      (correlationTimes s).Pairwise (· < ·) ∧
      ∀ x, x ∉ correlationTimes s → vaGet s x = .error .valueError := by
  have hrec : ∀ r ∈ runs, ∀ l ∈ r.records measurementTime constituents,
      rounded rnd l = (l.1, l.2.1, rnd l.2.2) ∧ GoodRecord timestep (rounded rnd l) := by
    intro r hr l hl
    obtain ⟨h1, h2⟩ := hcalls r hr
    obtain ⟨i, j, a, b, -, h3, h4, h5, h6, -, h7, -⟩ :=
      Instr.C36 hT constituents r.garbage r.calls (fun c hc => (h1 c hc).1) h2 l.1 l.2.1 l.2.2 hl
    obtain ⟨a1, a2, a3⟩ := h1 a (List.mem_of_getElem? h3)
    obtain ⟨b1, b2, b3⟩ := h1 b (List.mem_of_getElem? h4)
    have e1 : rnd l.1 = l.1 := by rw [h5]; exact a2
    have e2 : rnd l.2.1 = l.2.1 := by rw [h6]; exact b2
    refine ⟨by simp [rounded, e1, e2], ?_⟩
    unfold GoodRecord rounded
    dsimp only
    rw [e1, e2]
    exact ⟨by rw [h5]; exact a1, h7, by rw [h5]; exact a3, by rw [h6]; exact b3⟩
  obtain ⟨s, h1, h2⟩ := vaRead_records equivalent timestepOf hio ht minimumTime
    (runs.map fun r => (r.rundir, r.records measurementTime constituents)) (by simpa using hne)
    (by simpa using hts) (by simpa using heq) (by simpa using htext) (by
      intro r hr l hl
      obtain ⟨r', hr', rfl⟩ := List.mem_map.1 hr
      exact (hrec r' hr' l hl).2)
  rw [List.map_map] at h1
  rw [List.flatMap_map] at h2
  refine ⟨s, h1, fun m => ?_, fun x => ?_, ?_, fun x hx => ?_⟩
  · rw [vaGet_of_inv h2 m]
    have e : pooled timestep minimumTime (runs.flatMap fun r =>
        (r.records measurementTime constituents).map (rounded rnd)) m =
        runs.flatMap fun r => (pooled timestep minimumTime (r.records measurementTime constituents) m).map rnd := by
      unfold pooled
      rw [List.filter_flatMap, List.map_flatMap]
      apply List.flatMap_congr
      intro r hr
      have e1 : (r.records measurementTime constituents).map (rounded rnd) =
          (r.records measurementTime constituents).map fun l => (l.1, l.2.1, rnd l.2.2) :=
        List.map_congr_left fun l hl => (hrec r hr l hl).1
      rw [e1, List.filter_map, List.map_map, List.map_map]
      rfl
    rw [e]
  · rw [correlationTimes_mem, h2.keys]
    constructor
    · rintro ⟨l, hl, h3, h4⟩
      obtain ⟨r, hr, hl⟩ := List.mem_flatMap.1 hl
      obtain ⟨l', hl', rfl⟩ := List.mem_map.1 hl
      rw [(hrec r hr l' hl').1] at h3 h4
      exact ⟨r, hr, l', hl', h3, h4⟩
    · rintro ⟨r, hr, l, hl, h3, h4⟩
      refine ⟨rounded rnd l, List.mem_flatMap.2 ⟨r, hr, List.mem_map.2 ⟨l, hl, rfl⟩⟩, ?_⟩
      rw [(hrec r hr l hl).1]
      exact ⟨h3, h4⟩
  · have h3 : (correlationTimes s).Pairwise (· ≤ ·) := by
      have := List.pairwise_mergeSort (le := fun a b : ℝ => decide (a ≤ b))
        (fun a b c => by simpa using fun h1 h2 => le_trans h1 h2) (fun a b => by simpa using le_total a b)
        (s.map Prod.fst)
      exact this.imp fun h => by simpa using h
    have h4 : (correlationTimes s).Nodup := (List.mergeSort_perm _ _).nodup_iff.2 h2.nodup
    exact (h3.and h4).imp fun h => lt_of_le_of_ne h.1 h.2
  · unfold vaGet
    rw [if_neg hx]

/-- C76 does not hold: of a file with measurements at times 0 and 1 only, the correlation of both is used even if all
measurements involving times smaller than 1 are to be discarded. -/
theorem C76_violated {io : Io K} {rnd : K → K} (hio : Rounds io rnd) (h0 : rnd 0 = 0) (h1 : rnd 1 = 1) (x : K) :
    ∃ s, vaRead (fun _ _ => true) (fun _ : Unit => 1) io 1 [⟨(), some (vaText io [(0, 1, x)]), none⟩] = .ok s ∧
      vaGet s 1 = .ok (feedD [rnd x]) := by
  have near0 : NearStep (1 : K) 0 := ⟨0, by norm_num⟩
  have near1 : NearStep (1 : K) 1 := ⟨1, by norm_num⟩
  obtain ⟨s, h2, h3⟩ := vaRead_records (fun _ _ => true) (fun _ : Unit => (1 : K)) hio zero_lt_one 1
    [(⟨(), some (vaText io [(0, 1, x)]), none⟩, [(0, 1, x)])] (by simp) (by simp) (by simp)
    (by simp [Rundir.text]) (by
      intro r hr l hl
      rw [List.mem_singleton.1 hr] at hl
      rw [List.mem_singleton.1 hl]
      simp only [rounded, h0, h1, GoodRecord]
      exact ⟨le_rfl, zero_le_one, near0, near1⟩)
  refine ⟨s, h2, ?_⟩
  have := vaGet_of_inv h3 1
  have s0 : stepAt (1 : K) 0 = 0 := stepAt_eq zero_lt_one (n := 0) (by norm_num)
  have s1 : stepAt (1 : K) 1 = 1 := stepAt_eq zero_lt_one (n := 1) (by norm_num)
  have e : pooled 1 1 (List.flatMap (fun r => List.map (rounded rnd) r.2)
      [((⟨(), some (vaText io [(0, 1, x)]), none⟩ : Rundir Unit), [((0 : K), (1 : K), x)])]) 1 = [rnd x] := by
    simp [pooled, rounded, h0, h1, s0, s1]
  rw [e] at this
  simpa using this

/-! ## Examples -/

example : getDeltaT (1 / 10 : ℚ) (3 / 10) (71 / 100) = .ok (4 / 10) := by decide +kernel

/-- Times that meet the hypotheses of `C76_partial`, one of them inaccurate. -/
example : NearStep (1 / 10 : ℚ) (3 / 10) ∧ NearStep (1 / 10 : ℚ) (71 / 100) :=
  ⟨⟨3, by norm_num⟩, ⟨7, by norm_num [abs_lt]⟩⟩

/-- A history that meets the hypotheses of `C76_partial`, with two records of distance one. -/
example (v w : Mem) : (∀ c ∈ [(⟨0, v⟩ : Slot ℝ Mem), ⟨1, w⟩, ⟨2, v⟩], 0 ≤ c.time ∧ NearStep 1 c.time) ∧
    [(⟨0, v⟩ : Slot ℝ Mem), ⟨1, w⟩, ⟨2, v⟩].Pairwise fun a b => a.time ≤ b.time := by
  refine ⟨?_, by simp⟩
  intro c hc
  simp only [List.mem_cons, List.not_mem_nil, or_false] at hc
  rcases hc with rfl | rfl | rfl
  · exact ⟨by norm_num, 0, by norm_num⟩
  · exact ⟨by norm_num, 1, by norm_num⟩
  · exact ⟨by norm_num, 2, by norm_num⟩

end OpenMPCD.Analysis
