import Verif.Common
import Mathlib.Data.Int.Notation
import Mathlib.Data.List.Induction
import Mathlib.Tactic.Tauto

/-!
# Fitting data (C85)

`Analysis/MPCDAnalysis/Fit.py`. The optimiser, `scipy.optimize.curve_fit`, is a parameter: it may return anything of the
right shape or raise.
-/

set_option linter.unusedSectionVars false

namespace OpenMPCD.Analysis.Fitting

variable {F X V : Type} [DecidableEq V]

/-! ## Model -/

/-- What is given as bounds. -/
inductive Bounds (V : Type) where
  | none
  | list (values : List (Option V))
  | other

/-- What is handed to the optimiser as one of the bounds: the infinity for all parameters, or one value for each. -/
inductive Limit (V : Type) where
  | infinite
  | each (values : List V)
  deriving DecidableEq

/-- The arguments of `fit`. The parameter `f` is a callable with a number of arguments, or not callable (`none`). -/
structure Args (F X V : Type) where
  f : Option (F × ℕ)
  xData : List X
  yData : List V
  yErrs : Option (List V)
  lowerBounds : Bounds V
  upperBounds : Bounds V

/-- What is handed to the optimiser (`Analysis/MPCDAnalysis/Fit.py:150-157`). -/
structure Request (F X V : Type) where
  f : F
  xValues : List X
  yValues : List V
  sigma : Option (List V)
  absoluteSigma : Bool
  lower : Limit V
  upper : Limit V

/-- What the optimiser returns: estimates and their covariances. -/
structure Result (V : Type) where
  popt : List V
  pcov : List (List V)
  deriving DecidableEq

/-- The check of bounds, `Fit.py:79-85`. -/
def checkBounds (parameterCount : ℕ) : Bounds V → Except PyErr Unit
  | .none => .ok ()
  | .other => .error .typeError
  | .list values => if values.length ≠ parameterCount then .error .typeError else .ok ()

/-- The substitution of infinity for missing bounds, `Fit.py:127-143`. -/
def limit (infinity : V) : Bounds V → Limit V
  | .list values => .each (values.map fun b => b.getD infinity)
  | _ => .infinite

/-- `fit` up to the call of the optimiser, `Fit.py:70-143`. The number of parameters is one less than the number of
arguments of the callable (line 84); for a callable without arguments, no length of bounds is right. -/
def prepare (minusInfinity infinity : V) (a : Args F X V) : Except PyErr (Request F X V) := do
  match a.f with
  | none => .error .typeError
  | some (f, argumentCount) =>
    if a.xData.length ≠ a.yData.length then .error .valueError
    else
      if (match a.yErrs with | some e => decide (e.length ≠ a.yData.length) | none => false) then .error .valueError
      else
        checkBounds (argumentCount - 1) a.lowerBounds
        checkBounds (argumentCount - 1) a.upperBounds
        .ok ⟨f, a.xData, a.yData, a.yErrs, a.yErrs.isSome, limit minusInfinity a.lowerBounds,
          limit infinity a.upperBounds⟩

/-- The environment: the infinities and the optimiser. -/
structure Env (F X V : Type) where
  minusInfinity : V
  infinity : V
  curveFit : Request F X V → Except PyErr (Result V)

/-- The state of an instance, `Fit.py:12-17`. -/
abbrev State (V : Type) := Option (Result V)

/-- `fit`, `Fit.py:20-157`: the state afterwards, and the exception raised. -/
def fit (env : Env F X V) (s : State V) (a : Args F X V) : State V × Except PyErr Unit :=
  match prepare env.minusInfinity env.infinity a with
  | .error e => (s, .error e)
  | .ok r =>
    match env.curveFit r with
    | .error e => (s, .error e)
    | .ok res => (some res, .ok ())

/-- An index given by the user: an `int`, or something else. -/
inductive Index where
  | int (z : ℤ)
  | other

/-- `getFitParameterCount`, `Fit.py:160-172`. -/
def getFitParameterCount (s : State V) : Except PyErr ℕ :=
  match s with
  | none => .error .runtimeError
  | some r => .ok r.popt.length

/-- The checks of indices, e.g. `Fit.py:192-199`. -/
def checkIndex (r : Result V) : Index → Except PyErr ℕ
  | .other => .error .typeError
  | .int z => if z < 0 ∨ (r.popt.length : ℤ) ≤ z then .error .valueError else .ok z.toNat

/-- Reading an element of a sequence, with a non-negative index. -/
def item {A : Type} (l : List A) (i : ℕ) : Except PyErr A :=
  match l[i]? with
  | none => .error .indexError
  | some x => .ok x

/-- `getFitParameter`, `Fit.py:175-201`. -/
def getFitParameter (s : State V) (index : Index) : Except PyErr V :=
  match s with
  | none => .error .runtimeError
  | some r => do
    let i ← checkIndex r index
    item r.popt i

/-- `getFitParameterVariance`, `Fit.py:204-232`. -/
def getFitParameterVariance (s : State V) (index : Index) : Except PyErr V :=
  match s with
  | none => .error .runtimeError
  | some r => do
    let i ← checkIndex r index
    let row ← item r.pcov i
    item row i

/-- The checks of two indices, `Fit.py:284-292`: the types of both are checked first. -/
def checkIndices (r : Result V) : Index → Index → Except PyErr (ℕ × ℕ)
  | .int z1, .int z2 => do
    let i1 ← checkIndex r (.int z1)
    let i2 ← checkIndex r (.int z2)
    .ok (i1, i2)
  | _, _ => .error .typeError

/-- `getFitParameterCovariance`, `Fit.py:258-294`. -/
def getFitParameterCovariance (s : State V) (index1 index2 : Index) : Except PyErr V :=
  match s with
  | none => .error .runtimeError
  | some r => do
    let p ← checkIndices r index1 index2
    let row ← item r.pcov p.1
    item row p.2

/-- The body of the loop in `multipleIndependentDataFits`, `Fit.py:327-330`: each data set is a list of abscissas, values
and errors. -/
def fitOne (env : Env F X V) (f : Option (F × ℕ)) (data : List X × List V × Option (List V)) :
    Except PyErr ((List X × List V × Option (List V)) × State V) :=
  match fit env none ⟨f, data.1, data.2.1, data.2.2, .none, .none⟩ with
  | (_, .error e) => .error e
  | (s, .ok ()) => .ok (data, s)

/-- `multipleIndependentDataFits`, `Fit.py:297-332`. -/
def multipleFits (env : Env F X V) (f : Option (F × ℕ)) (dataSet : List (List X × List V × Option (List V))) :
    Except PyErr (List ((List X × List V × Option (List V)) × State V)) :=
  dataSet.mapM (fitOne env f)

/-- The body of the loop in `getBestOutOfMultipleIndependentDataFits`, `Fit.py:375-381`. -/
def bestStep {R : Type} (comparator : R → R → Bool) (best : Option R) (result : R) : Option R :=
  match best with
  | none => some result
  | some b => if comparator b result then some result else some b

/-- `getBestOutOfMultipleIndependentDataFits`, `Fit.py:335-383`. -/
def getBest (env : Env F X V) (f : Option (F × ℕ)) (dataSet : List (List X × List V × Option (List V)))
    (comparator : (List X × List V × Option (List V)) × State V → (List X × List V × Option (List V)) × State V → Bool) :
    Except PyErr (Option ((List X × List V × Option (List V)) × State V)) := do
  let results ← multipleFits env f dataSet
  if results.isEmpty then .ok none else .ok (results.foldl (bestStep comparator) none)

/-- `numpy.any(a != b)` for arrays with one dimension; arrays of length 1 are repeated as needed. For other lengths which
differ, the result depends on the version of NumPy (`mismatch`). -/
def anyNe (mismatch : Except PyErr Bool) (a b : List V) : Except PyErr Bool :=
  if a.length = b.length then .ok (decide (a ≠ b))
  else match a, b with
    | [x], b => .ok (b.any fun y => decide (x ≠ y))
    | a, [y] => .ok (a.any fun x => decide (x ≠ y))
    | _, _ => mismatch

/-- The same for square arrays. -/
def anyNe2 (mismatch : Except PyErr Bool) (a b : List (List V)) : Except PyErr Bool :=
  if a.length = b.length then .ok (decide (a ≠ b))
  else match a, b with
    | [[x]], b => .ok (b.any fun r => r.any fun y => decide (x ≠ y))
    | a, [[y]] => .ok (a.any fun r => r.any fun x => decide (x ≠ y))
    | _, _ => mismatch

/-- `__eq__`, `Fit.py:386-424`, for two instances: the only attribute is the one with the results. `len(None)` raises
`TypeError`. -/
def eq (mismatch : Except PyErr Bool) (s t : State V) : Except PyErr Bool :=
  match s, t with
  | none, none => .ok true
  | none, some _ => .ok false
  | some _, none => .error .typeError
  | some r, some q => do
    if ← anyNe mismatch r.popt q.popt then .ok false
    else if ← anyNe2 mismatch r.pcov q.pcov then .ok false
    else .ok true

/-- Fitting repeatedly with one instance. -/
def fits (env : Env F X V) (calls : List (Args F X V)) : State V := calls.foldl (fun s a => (fit env s a).1) none

/-! ## Specification -/

/-- Whether the arguments are valid, as documented. -/
def ValidBounds (parameterCount : ℕ) (b : Bounds V) : Prop :=
  match b with
  | .none => True
  | .list values => values.length = parameterCount
  | .other => False

/-- Valid arguments for a function. -/
structure Valid (a : Args F X V) (f : F) (parameterCount : ℕ) : Prop where
  callable : a.f = some (f, parameterCount + 1)
  values : a.xData.length = a.yData.length
  errors : ∀ e, a.yErrs = some e → e.length = a.yData.length
  lower : ValidBounds parameterCount a.lowerBounds
  upper : ValidBounds parameterCount a.upperBounds

/-- What has to be asked from the optimiser: the data and errors as given (errors are absolute), and bounds with the
infinity in place of missing ones. -/
structure Asks (minusInfinity infinity : V) (a : Args F X V) (f : F) (r : Request F X V) : Prop where
  f : r.f = f
  data : r.xValues = a.xData ∧ r.yValues = a.yData
  errors : r.sigma = a.yErrs ∧ (r.absoluteSigma = true ↔ a.yErrs ≠ none)
  noLower : a.lowerBounds = .none → r.lower = .infinite
  lower : ∀ l, a.lowerBounds = .list l → ∃ l', r.lower = .each l' ∧ l'.length = l.length ∧
    ∀ i : ℕ, ∀ v : Option V, l[i]? = some v → l'[i]? = some (match v with | none => minusInfinity | some b => b)
  noUpper : a.upperBounds = .none → r.upper = .infinite
  upper : ∀ l, a.upperBounds = .list l → ∃ l', r.upper = .each l' ∧ l'.length = l.length ∧
    ∀ i : ℕ, ∀ v : Option V, l[i]? = some v → l'[i]? = some (match v with | none => infinity | some b => b)

/-- The optimiser returns as many covariances as there are pairs of parameters. -/
def WellShaped (r : Result V) : Prop := r.pcov.length = r.popt.length ∧ ∀ row ∈ r.pcov, row.length = r.popt.length

/-- `res` is the result of the last of the calls that succeeded. -/
def LastSuccess (env : Env F X V) (calls : List (Args F X V)) (res : Result V) : Prop :=
  ∃ before a after r, calls = before ++ a :: after ∧
    prepare env.minusInfinity env.infinity a = .ok r ∧ env.curveFit r = .ok res ∧
    ∀ a' ∈ after, ∀ r', prepare env.minusInfinity env.infinity a' = .ok r' → ∀ res', env.curveFit r' ≠ .ok res'

/-! ## Proofs -/

theorem limit_each (inf : V) (l : List (Option V)) : ∃ l', limit inf (.list l) = .each l' ∧ l'.length = l.length ∧
    ∀ i : ℕ, ∀ v : Option V, l[i]? = some v → l'[i]? = some (match v with | none => inf | some b => b) := by
  refine ⟨_, rfl, by simp, fun i v h => ?_⟩
  rw [List.getElem?_map, h]
  cases v <;> rfl

theorem checkBounds_ok {n : ℕ} {b : Bounds V} : checkBounds n b = .ok () ↔ ValidBounds n b := by
  cases b with
  | none => simp [checkBounds, ValidBounds]
  | other => simp [checkBounds, ValidBounds]
  | list l => by_cases h : l.length = n <;> simp [checkBounds, ValidBounds, h]

theorem checkBounds_cases (n : ℕ) (b : Bounds V) : checkBounds n b = .ok () ∨ checkBounds n b = .error .typeError := by
  cases b with
  | none => simp [checkBounds]
  | other => simp [checkBounds]
  | list l => by_cases h : l.length = n <;> simp [checkBounds, h]

/-- **C85** for valid arguments: the optimiser is asked for what the user wants. -/
theorem C85_request (minusInfinity infinity : V) (a : Args F X V) (f : F) (n : ℕ) (h : Valid a f n) :
    ∃ r, prepare minusInfinity infinity a = .ok r ∧ Asks minusInfinity infinity a f r := by
  have he : (match a.yErrs with | some e => decide (e.length ≠ a.yData.length) | none => false) = false := by
    cases hy : a.yErrs with
    | none => rfl
    | some e => simpa using h.errors e hy
  have hl := checkBounds_ok.2 h.lower
  have hu := checkBounds_ok.2 h.upper
  refine ⟨_, by
    unfold prepare
    simp only [h.callable, h.values, ne_eq, not_true_eq_false, if_false, he, Bool.false_eq_true, Nat.add_sub_cancel,
      hl, hu]
    rfl, ?_⟩
  constructor
  · rfl
  · exact ⟨rfl, rfl⟩
  · refine ⟨rfl, ?_⟩
    cases a.yErrs <;> simp
  · intro e; simp [e, limit]
  · intro l e; simp only [e]; exact limit_each _ _
  · intro e; simp [e, limit]
  · intro l e; simp only [e]; exact limit_each _ _

/-- **C85** for invalid arguments: an exception is raised, and it is `ValueError` exactly if the function is callable and
the lengths of the data differ. -/
theorem C85_invalid (env : Env F X V) (s : State V) (a : Args F X V)
    (h : ¬ ∃ f n, a.f = some (f, n) ∧ a.xData.length = a.yData.length ∧
      (∀ e, a.yErrs = some e → e.length = a.yData.length) ∧ ValidBounds (n - 1) a.lowerBounds ∧
      ValidBounds (n - 1) a.upperBounds) :
    (fit env s a).1 = s ∧
    ((fit env s a).2 = .error .typeError ∨ (fit env s a).2 = .error .valueError) ∧
    ((fit env s a).2 = .error .valueError ↔ a.f.isSome ∧
      (a.xData.length ≠ a.yData.length ∨ ∃ e, a.yErrs = some e ∧ e.length ≠ a.yData.length)) := by
  have key : (prepare env.minusInfinity env.infinity a = .error .typeError ∨
      prepare env.minusInfinity env.infinity a = .error .valueError) ∧
      (prepare env.minusInfinity env.infinity a = .error .valueError ↔ a.f.isSome ∧
      (a.xData.length ≠ a.yData.length ∨ ∃ e, a.yErrs = some e ∧ e.length ≠ a.yData.length)) := by
    unfold prepare
    cases hf : a.f with
    | none => simp
    | some p =>
      obtain ⟨f, n⟩ := p
      by_cases hx : a.xData.length = a.yData.length
      · simp only [hx, ne_eq, not_true_eq_false, if_false, Option.isSome_some, true_and, false_or]
        cases hy : a.yErrs with
        | none =>
          have : ¬ (ValidBounds (n - 1) a.lowerBounds ∧ ValidBounds (n - 1) a.upperBounds) := by
            rintro ⟨h1, h2⟩
            exact h ⟨f, n, hf, hx, by simp [hy], h1, h2⟩
          rw [← checkBounds_ok, ← checkBounds_ok] at this
          rcases checkBounds_cases (n - 1) a.lowerBounds with hl | hl <;>
          rcases checkBounds_cases (n - 1) a.upperBounds with hu | hu <;>
          simp [hl, hu, bind, Except.bind] at this ⊢
        | some e =>
          by_cases he : e.length = a.yData.length
          · have : ¬ (ValidBounds (n - 1) a.lowerBounds ∧ ValidBounds (n - 1) a.upperBounds) := by
              rintro ⟨h1, h2⟩
              exact h ⟨f, n, hf, hx, by simp [hy, he], h1, h2⟩
            rw [← checkBounds_ok, ← checkBounds_ok] at this
            rcases checkBounds_cases (n - 1) a.lowerBounds with hl | hl <;>
            rcases checkBounds_cases (n - 1) a.upperBounds with hu | hu <;>
            simp [hl, hu, he, bind, Except.bind] at this ⊢
          · simp [he]
      · simp [hx]
  unfold fit
  rcases key with ⟨hk | hk, hiff⟩
  · rw [hk] at hiff ⊢
    simpa using hiff
  · rw [hk] at hiff ⊢
    simpa using hiff

/-- **Violation of C85.** Bounds of the wrong length raise `TypeError` instead of the documented `ValueError`. -/
theorem C85_bounds_violated (env : Env F X V) (s : State V) (f : F) (n : ℕ) (bounds : List (Option V))
    (h : bounds.length ≠ n) :
    (fit env s ⟨some (f, n + 1), [], [], none, .list bounds, .none⟩).2 = .error .typeError := by
  simp [fit, prepare, checkBounds, h, bind, Except.bind]

theorem fits_append (env : Env F X V) (calls : List (Args F X V)) (a : Args F X V) :
    fits env (calls ++ [a]) = (fit env (fits env calls) a).1 := by
  simp [fits, List.foldl_append]

/-- **C85**: after any calls of `fit`, the state is the result of the last call that succeeded; calls that raise leave it
alone. -/
theorem C85_history (env : Env F X V) (calls : List (Args F X V)) :
    match fits env calls with
    | none => ∀ res, ¬ LastSuccess env calls res
    | some res => ∀ res', LastSuccess env calls res' ↔ res' = res := by
  induction calls using List.reverseRecOn with
  | nil =>
    rintro res ⟨b, a, c, r, h, -⟩
    simp at h
  | append_singleton calls a ih =>
    rw [fits_append]
    have hfail : (∀ r, prepare env.minusInfinity env.infinity a = .ok r → ∀ res, env.curveFit r ≠ .ok res) →
        (∀ res, LastSuccess env (calls ++ [a]) res ↔ LastSuccess env calls res) := by
      intro hf res
      constructor
      · rintro ⟨b, a', c, r, h, h1, h2, h3⟩
        rcases List.eq_nil_or_concat c with rfl | ⟨c', x, rfl⟩
        · have := List.append_inj_right' h (by simp)
          have ha : a = a' := by simpa using this
          subst ha
          exact absurd h2 (hf r h1 res)
        · rw [List.concat_eq_append] at h h3
          rw [← List.cons_append, ← List.append_assoc] at h
          have := List.append_inj_left' h (by simp)
          exact ⟨b, a', c', r, this, h1, h2, fun x hx => h3 x (by simp [hx])⟩
      · rintro ⟨b, a', c, r, h, h1, h2, h3⟩
        refine ⟨b, a', c ++ [a], r, by simp [h], h1, h2, fun x hx => ?_⟩
        rcases List.mem_append.1 hx with hx | hx
        · exact h3 x hx
        · rw [List.mem_singleton] at hx; subst hx; exact hf
    unfold fit
    cases hp : prepare env.minusInfinity env.infinity a with
    | error e =>
      have := hfail (by simp [hp])
      cases hs : fits env calls with
      | none => rw [hs] at ih; intro res; rw [this]; exact ih res
      | some res => rw [hs] at ih; intro res'; rw [this]; exact ih res'
    | ok r =>
      cases hc : env.curveFit r with
      | error e =>
        have := hfail (by
          intro r' h' res
          rw [hp] at h'
          cases h'
          simp [hc])
        simp only [hc]
        cases hs : fits env calls with
        | none => rw [hs] at ih; intro res; rw [this]; exact ih res
        | some res => rw [hs] at ih; intro res'; rw [this]; exact ih res'
      | ok res =>
        simp only [hc]
        intro res'
        constructor
        · rintro ⟨b, a', c, r', h, h1, h2, h3⟩
          rcases List.eq_nil_or_concat c with rfl | ⟨c', x, rfl⟩
          · have := List.append_inj_right' h (by simp)
            have ha : a = a' := by simpa using this
            subst ha
            rw [hp] at h1
            cases h1
            rw [hc] at h2
            cases h2
            rfl
          · rw [List.concat_eq_append] at h h3
            rw [← List.cons_append, ← List.append_assoc] at h
            have := List.append_inj_right' h (by simp)
            have ha : a = x := by simpa using this
            subst ha
            exact absurd hc (h3 a (by simp) r hp res)
        · rintro rfl
          exact ⟨calls, a, [], r, rfl, hp, hc, by simp⟩

/-- **C85**: the getters, for an instance with results. Exceptions are as documented, and otherwise the values are those
of the result. -/
theorem C85_getters (r : Result V) (h : WellShaped r) :
    getFitParameterCount (some r) = .ok r.popt.length ∧
    (∀ i (hi : i < r.popt.length), getFitParameter (some r) (.int i) = .ok r.popt[i] ∧
      ∀ j (_ : j < r.popt.length), ∃ row v, r.pcov[i]? = some row ∧ row[j]? = some v ∧
        getFitParameterCovariance (some r) (.int i) (.int j) = .ok v ∧
        (i = j → getFitParameterVariance (some r) (.int i) = .ok v)) ∧
    (∀ z : ℤ, (z < 0 ∨ (r.popt.length : ℤ) ≤ z) → getFitParameter (some r) (.int z) = .error .valueError ∧
      getFitParameterVariance (some r) (.int z) = .error .valueError ∧
      ∀ z' : ℤ, getFitParameterCovariance (some r) (.int z) (.int z') = .error .valueError ∧
        getFitParameterCovariance (some r) (.int z') (.int z) = .error .valueError) ∧
    getFitParameter (some r) .other = .error .typeError ∧ getFitParameterVariance (some r) .other = .error .typeError ∧
    ∀ i, getFitParameterCovariance (some r) .other i = .error .typeError ∧
      getFitParameterCovariance (some r) i .other = .error .typeError := by
  have hc : ∀ i : ℕ, i < r.popt.length → checkIndex r (.int i) = .ok i := by
    intro i hi
    have hn : ¬ ((i : ℤ) < 0 ∨ (r.popt.length : ℤ) ≤ i) := by omega
    simp only [checkIndex, if_neg hn, Int.toNat_natCast]
  have hbad : ∀ z : ℤ, (z < 0 ∨ (r.popt.length : ℤ) ≤ z) → checkIndex r (.int z) = .error .valueError := by
    intro z hz
    simp only [checkIndex, if_pos hz]
  refine ⟨rfl, fun i hi => ⟨?_, fun j hj => ?_⟩, fun z hz => ⟨?_, ?_, fun z' => ⟨?_, ?_⟩⟩, rfl, rfl,
    fun i => ⟨?_, ?_⟩⟩
  · simp only [getFitParameter, hc i hi, bind, Except.bind, item, List.getElem?_eq_getElem hi]
  · have hrow : i < r.pcov.length := by rw [h.1]; exact hi
    have hcol : j < (r.pcov[i]).length := by rw [h.2 _ (List.getElem_mem _)]; exact hj
    refine ⟨_, _, List.getElem?_eq_getElem hrow, List.getElem?_eq_getElem hcol, ?_, ?_⟩
    · simp only [getFitParameterCovariance, checkIndices, hc i hi, hc j hj, bind, Except.bind, item,
        List.getElem?_eq_getElem hrow, List.getElem?_eq_getElem hcol]
    · rintro rfl
      simp only [getFitParameterVariance, hc i hi, bind, Except.bind, item,
        List.getElem?_eq_getElem hrow, List.getElem?_eq_getElem hcol]
  · simp only [getFitParameter, hbad z hz, bind, Except.bind]
  · simp only [getFitParameterVariance, hbad z hz, bind, Except.bind]
  · simp only [getFitParameterCovariance, checkIndices, hbad z hz, bind, Except.bind]
  · have : ∀ x, checkIndex r (.int z') = .error x → x = .valueError := by
      intro x hx
      simp only [checkIndex] at hx
      split at hx
      · cases hx; rfl
      · cases hx
    simp only [getFitParameterCovariance, checkIndices, hbad z hz, bind, Except.bind]
    cases hz' : checkIndex r (.int z') with
    | error x => rw [this x hz']
    | ok i => rfl
  · rfl
  · cases i <;> rfl

/-- **C85**: the getters, for an instance without results. -/
theorem C85_unfitted (i j : Index) : getFitParameterCount (none : State V) = .error .runtimeError ∧
    getFitParameter (none : State V) i = .error .runtimeError ∧
    getFitParameterVariance (none : State V) i = .error .runtimeError ∧
    getFitParameterCovariance (none : State V) i j = .error .runtimeError := ⟨rfl, rfl, rfl, rfl⟩

/-! ### The best of many fits -/

theorem bestStep_foldl {R : Type} (comparator : R → R → Bool)
    (trans : ∀ a b c, comparator a b → comparator b c → comparator a c)
    (negTrans : ∀ a b c, comparator a b = false → comparator b c = false → comparator a c = false)
    (results : List R) (h : results ≠ []) :
    ∃ before best after, results = before ++ best :: after ∧
      results.foldl (bestStep comparator) none = some best ∧
      (∀ r ∈ before, comparator r best = true) ∧ ∀ r ∈ after, comparator best r = false := by
  induction results using List.reverseRecOn with
  | nil => exact absurd rfl h
  | append_singleton l x ih =>
    rw [List.foldl_append, List.foldl_cons, List.foldl_nil]
    by_cases hl : l = []
    · subst hl
      exact ⟨[], x, [], rfl, rfl, by simp, by simp⟩
    · obtain ⟨before, best, after, rfl, h2, h3, h4⟩ := ih hl
      rw [h2]
      cases hc : comparator best x with
      | false =>
        refine ⟨before, best, after ++ [x], by simp, by simp [bestStep, hc], h3, fun r hr => ?_⟩
        rcases List.mem_append.1 hr with hr | hr
        · exact h4 r hr
        · rw [List.mem_singleton] at hr; subst hr; exact hc
      | true =>
        refine ⟨before ++ best :: after, x, [], by simp, by simp [bestStep, hc], fun r hr => ?_, by simp⟩
        rcases List.mem_append.1 hr with hr | hr
        · exact trans r best x (h3 r hr) hc
        · rcases List.mem_cons.1 hr with rfl | hr
          · exact hc
          · by_contra hn
            have := negTrans best r x (h4 r hr) (by simpa using hn)
            rw [hc] at this
            exact absurd this (by decide)

theorem mapM_ok {A B : Type} (f : A → Except PyErr B) (l : List A) (r : List B) (h : l.mapM f = .ok r) :
    r.length = l.length ∧ ∀ i (hi : i < l.length) (hr : i < r.length), f l[i] = .ok r[i] := by
  induction l generalizing r with
  | nil =>
    simp only [List.mapM_nil, pure, Except.pure] at h
    cases h
    simp
  | cons a l ih =>
    rw [List.mapM_cons] at h
    simp only [bind, Except.bind, pure, Except.pure] at h
    cases ha : f a with
    | error e => rw [ha] at h; cases h
    | ok b =>
      rw [ha] at h
      simp only at h
      cases hl : l.mapM f with
      | error e => rw [hl] at h; cases h
      | ok t =>
        rw [hl] at h
        cases h
        obtain ⟨h1, h2⟩ := ih t hl
        refine ⟨by simp [h1], fun i hi hr => ?_⟩
        cases i with
        | zero => exact ha
        | succ i => exact h2 i (by simpa using hi) (by simpa using hr)

/-- **C85** for many data sets: the results are in the order of the data sets, each along with its data set, and are those
of the optimiser for this data set. -/
theorem C85_multiple (env : Env F X V) (f : Option (F × ℕ)) (dataSet : List (List X × List V × Option (List V)))
    (results : List ((List X × List V × Option (List V)) × State V)) (h : multipleFits env f dataSet = .ok results) :
    results.map Prod.fst = dataSet ∧
    ∀ d s, (d, s) ∈ results → ∃ r res, prepare env.minusInfinity env.infinity ⟨f, d.1, d.2.1, d.2.2, .none, .none⟩ = .ok r ∧
      env.curveFit r = .ok res ∧ s = some res := by
  obtain ⟨h1, h2⟩ := mapM_ok _ _ _ h
  have hone : ∀ d y, fitOne env f d = .ok y → y.1 = d ∧ ∃ r res,
      prepare env.minusInfinity env.infinity ⟨f, d.1, d.2.1, d.2.2, .none, .none⟩ = .ok r ∧
      env.curveFit r = .ok res ∧ y.2 = some res := by
    intro d y hy
    unfold fitOne fit at hy
    cases hp : prepare env.minusInfinity env.infinity ⟨f, d.1, d.2.1, d.2.2, .none, .none⟩ with
    | error e => rw [hp] at hy; cases hy
    | ok r =>
      rw [hp] at hy
      simp only at hy
      cases hc : env.curveFit r with
      | error e => rw [hc] at hy; cases hy
      | ok res =>
        rw [hc] at hy
        cases hy
        exact ⟨rfl, r, res, rfl, hc, rfl⟩
  constructor
  · apply List.ext_getElem
    · simpa using h1
    · intro i hi1 hi2
      rw [List.getElem_map]
      exact (hone _ _ (h2 i hi2 (by omega))).1
  · intro d s hm
    obtain ⟨i, hi, he⟩ := List.getElem_of_mem hm
    obtain ⟨e, r, res, hr⟩ := hone _ _ (h2 i (by omega) hi)
    rw [he] at e hr
    simp only at e
    exact ⟨r, res, by rw [e]; exact hr.1, hr.2.1, hr.2.2⟩

/-- **C85** for the best of many data sets: if the comparator is a strict weak order, the result is the first one of those
which no other one is better than; it is `None` only if there are no data sets. -/
theorem C85_best (env : Env F X V) (f : Option (F × ℕ)) (dataSet : List (List X × List V × Option (List V)))
    (comparator : (List X × List V × Option (List V)) × State V → (List X × List V × Option (List V)) × State V → Bool)
    (irrefl : ∀ a, comparator a a = false) (trans : ∀ a b c, comparator a b → comparator b c → comparator a c)
    (negTrans : ∀ a b c, comparator a b = false → comparator b c = false → comparator a c = false) :
    match multipleFits env f dataSet with
    | .error e => getBest env f dataSet comparator = .error e
    | .ok results => ∃ best, getBest env f dataSet comparator = .ok best ∧
      match best with
      | none => dataSet = []
      | some best => ∃ before after, results = before ++ best :: after ∧
        (∀ r ∈ before, comparator r best = true) ∧ ∀ r ∈ results, comparator best r = false := by
  unfold getBest
  cases h : multipleFits env f dataSet with
  | error e => rfl
  | ok results =>
    simp only [bind, Except.bind]
    by_cases hr : results = []
    · subst hr
      refine ⟨none, rfl, ?_⟩
      have := (mapM_ok _ _ _ h).1
      exact List.eq_nil_of_length_eq_zero (by simpa using this.symm)
    · have : results.isEmpty = false := by simpa using hr
      rw [this]
      obtain ⟨before, best, after, h1, h2, h3, h4⟩ := bestStep_foldl comparator trans negTrans results hr
      refine ⟨some best, by simp [h2], before, after, h1, h3, fun r hr => ?_⟩
      rw [h1] at hr
      rcases List.mem_append.1 hr with hr | hr
      · by_contra hn
        have := trans r best r (h3 r hr) (by simpa using hn)
        rw [irrefl] at this
        exact absurd this (by decide)
      · rcases List.mem_cons.1 hr with rfl | hr
        · exact irrefl _
        · exact h4 r hr

/-! ### Equality -/

/-- **C85** for comparisons, as far as it holds: if the left-hand side is not fitted, or both sides are with the same
number of parameters. -/
theorem C85_eq_partial (mismatch : Except PyErr Bool) (s t : State V)
    (hs : ∀ r, s = some r → WellShaped r) (ht : ∀ r, t = some r → WellShaped r)
    (h : s = none ∨ ∃ r q, s = some r ∧ t = some q ∧ r.popt.length = q.popt.length) :
    eq mismatch s t = .ok (decide (s = t)) := by
  rcases h with rfl | ⟨r, q, rfl, rfl, hl⟩
  · cases t with
    | none => simp [eq]
    | some q => simp [eq]
  · have hl2 : r.pcov.length = q.pcov.length := by rw [(hs r rfl).1, (ht q rfl).1, hl]
    obtain ⟨p1, c1⟩ := r
    obtain ⟨p2, c2⟩ := q
    simp only at hl hl2
    simp only [eq, anyNe, anyNe2, hl, hl2, if_true, bind, Except.bind]
    by_cases e1 : p1 = p2 <;> by_cases e2 : c1 = c2 <;> simp [e1, e2]

/-- **Violation of C85.** Comparing a fitted instance to one which is not raises `TypeError`; -/
theorem C85_eq_unfitted_violated (mismatch : Except PyErr Bool) (r : Result V) :
    eq mismatch (some r) none = .error .typeError ∧ eq mismatch none (some r) = .ok false := ⟨rfl, rfl⟩

/-- ... and a fit with one parameter may be equal to one with two, e.g. if no covariances could be estimated and
`numpy.inf` is given for all of them. -/
theorem C85_eq_violated (mismatch : Except PyErr Bool) (x inf : V) :
    eq mismatch (some ⟨[x], [[inf]]⟩) (some ⟨[x, x], [[inf, inf], [inf, inf]]⟩) = .ok true ∧
    getFitParameterCount (some (⟨[x], [[inf]]⟩ : Result V)) = .ok 1 ∧
    getFitParameterCount (some (⟨[x, x], [[inf, inf], [inf, inf]]⟩ : Result V)) = .ok 2 := by
  refine ⟨?_, rfl, rfl⟩
  simp [eq, anyNe, anyNe2, bind, Except.bind]

/-! ### Examples -/

/-- An optimiser for a constant function. -/
def exampleEnv : Env Unit ℤ ℤ where
  minusInfinity := -1000
  infinity := 1000
  curveFit r := if r.yValues = [] then .error .runtimeError else .ok ⟨[r.yValues.sum / r.yValues.length], [[1]]⟩

example : Valid (⟨some ((), 2), [0, 1], [4, 6], some [1, 1], .list [none], .none⟩ : Args Unit ℤ ℤ) () 1 where
  callable := rfl
  values := rfl
  errors := by simp
  lower := rfl
  upper := trivial

example : fits exampleEnv [⟨some ((), 2), [0, 1], [4, 6], none, .list [none], .none⟩,
    ⟨some ((), 2), [], [], none, .none, .none⟩] = some ⟨[5], [[1]]⟩ := by decide +kernel

example : getBest exampleEnv (some ((), 2)) [([0], [1], none), ([0], [3], none), ([0, 1], [3, 3], none)]
    (fun a b => decide ((a.2.map fun r => r.popt.sum).getD 0 < (b.2.map fun r => r.popt.sum).getD 0)) =
    .ok (some (([0], [3], none), some ⟨[3], [[1]]⟩)) := by rfl

end OpenMPCD.Analysis.Fitting
