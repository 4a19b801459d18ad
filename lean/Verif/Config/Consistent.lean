import Verif.Config.Props
import Mathlib.Data.List.Perm.Basic
import Mathlib.Data.Rat.Defs

/-!
# Configuration values common to several runs (C144)

`getConfigValueAndCheckConstistency` and `getConsistentConfigValue`, `Analysis/MPCDAnalysis/Utilities.py:108-200`, on the configurations
of C50.
-/

set_option linter.unusedSectionVars false
set_option linter.unusedSimpArgs false
set_option linter.unusedVariables false

namespace OpenMPCD.Config.Consistent

/-! ## Model -/

/-- The number a value is, when Python compares it: `True` is one, `False` is zero. -/
def number : Scalar → Option ℚ
  | .str _ => none
  | .bool b => some (if b then 1 else 0)
  | .int i => some i
  | .float q => some q

/-- `==` of strings, truth values and numbers. -/
def scalarEq (a b : Scalar) : Bool :=
  match number a, number b with
  | some x, some y => x = y
  | none, none => a = b
  | _, _ => false

/-- `==` of what `config[key]` returns: groups, lists and arrays are returned as new instances of `Configuration` each time
(`Analysis/MPCDAnalysis/Configuration.py:332-402`), which has no `__eq__`, so that instances are equal to themselves only. -/
def valueEq : Value → Value → Bool
  | .scalar a, .scalar b => scalarEq a b
  | _, _ => false

/-- `getConfigValueAndCheckConstistency` (`Analysis/MPCDAnalysis/Utilities.py:143-155`). Configurations do not contain `None`. The checks
of the types of the arguments are not represented. -/
def check (config : Conf) (valueKey : List Comp) (knownValue : Option Value) : Except PyErr Value :=
  match config.getitem valueKey with
  | .error e => .error e
  | .ok currentValue =>
    match knownValue with
    | none => .ok currentValue
    | some known => if valueEq known currentValue then .ok known else .error .valueError

/-- The loop in `getConsistentConfigValue` (`Analysis/MPCDAnalysis/Utilities.py:194-196`); `load` is the constructor of `Configuration`
for the given directory. -/
def loop {D : Type} (load : D → Except PyErr Conf) (valueKey : List Comp) : List D → Option Value → Except PyErr (Option Value)
  | [], value => .ok value
  | d :: ds, value =>
    match load d with
    | .error e => .error e
    | .ok config =>
      match check config valueKey value with
      | .error e => .error e
      | .ok v => loop load valueKey ds (some v)

/-- `getConsistentConfigValue` (`Analysis/MPCDAnalysis/Utilities.py:191-200`); `none`: `None`. -/
def getConsistentConfigValue {D : Type} (load : D → Except PyErr Conf) (rundirs : List D) (valueKey : List Comp) :
    Except PyErr (Option Value) :=
  match loop load valueKey rundirs none with
  | .error .keyError => .error .valueError
  | r => r

/-! ## Specification -/

/-- The configuration of the run gives this value to the setting. -/
def Gives {D : Type} (load : D → Except PyErr Conf) (key : List Comp) (d : D) (v : Value) : Prop :=
  ∃ c : Conf, load d = .ok c ∧ c.root = true ∧ lookup c.value key = some v

/-- Equal texts, or equal numbers. -/
inductive Same : Value → Value → Prop
  | text (s : String) : Same (.scalar (.str s)) (.scalar (.str s))
  | number (a b : Scalar) (x : ℚ) (ha : number a = some x) (hb : number b = some x) : Same (.scalar a) (.scalar b)

/-- All runs have readable configurations. -/
def Readable {D : Type} (load : D → Except PyErr Conf) (ds : List D) : Prop := ∀ d ∈ ds, ∃ c : Conf, load d = .ok c ∧ c.root = true

/-! ## Proofs -/

theorem valueEq_iff (v w : Value) : valueEq v w = true ↔ Same v w := by
  constructor
  · intro h
    rcases v with a | _ | _ <;> rcases w with b | _ | _ <;> simp [valueEq] at h
    unfold scalarEq at h
    rcases ha : number a with _ | x <;> rcases hb : number b with _ | y <;> simp [ha, hb] at h
    · subst h
      cases a <;> simp [number] at ha
      exact .text _
    · subst h; exact .number a b x ha hb
  · rintro (s | ⟨a, b, x, ha, hb⟩)
    · simp [valueEq, scalarEq, number]
    · simp [valueEq, scalarEq, ha, hb]

theorem Same.symm {v w : Value} (h : Same v w) : Same w v := by
  rcases h with s | ⟨a, b, x, ha, hb⟩
  · exact .text s
  · exact .number b a x hb ha

theorem Same.trans {u v w : Value} (h : Same u v) (h' : Same v w) : Same u w := by
  rcases h with s | ⟨a, b, x, ha, hb⟩
  · exact h'
  · rcases h' with s | ⟨_, c, y, hy, hc⟩
    · simp [Consistent.number] at hb
    · rw [hb] at hy; cases hy; exact .number a c x ha hc

theorem same_refl_iff (v : Value) : Same v v ↔ ∃ s, v = .scalar s := by
  constructor
  · rintro (s | ⟨a, b, x, ha, hb⟩) <;> exact ⟨_, rfl⟩
  · rintro ⟨s, rfl⟩
    cases s with
    | str s => exact .text s
    | bool b => exact .number _ _ _ rfl rfl
    | int i => exact .number _ _ _ rfl rfl
    | float q => exact .number _ _ _ rfl rfl

variable {D : Type} {load : D → Except PyErr Conf} {key : List Comp}

theorem gives_unique {d : D} {v w : Value} (h : Gives load key d v) (h' : Gives load key d w) : v = w := by
  obtain ⟨c, h1, -, h2⟩ := h
  obtain ⟨c', h1', -, h2'⟩ := h'
  rw [h1] at h1'; cases h1'
  rw [h2] at h2'; exact Option.some.inj h2'

theorem check_root {c : Conf} (hc : c.root = true) (known : Option Value) :
    check c key known = match lookup c.value key with
      | none => .error .keyError
      | some w => match known with
        | none => .ok w
        | some v => if valueEq v w then .ok v else .error .valueError := by
  simp only [check, Conf.getitem, hc, if_true]
  cases lookup c.value key <;> rfl

theorem loop_known (ds : List D) (hr : Readable load ds) (v : Value) :
    (loop load key ds (some v) = .ok (some v) ∧ ∀ d ∈ ds, ∃ w, Gives load key d w ∧ Same v w) ∨
    ((loop load key ds (some v) = .error .valueError ∨ loop load key ds (some v) = .error .keyError) ∧
      ∃ d ∈ ds, ¬ ∃ w, Gives load key d w ∧ Same v w) := by
  induction ds with
  | nil => left; simp [loop]
  | cons d ds ih =>
    obtain ⟨c, hl, hroot⟩ := hr d (by simp)
    have ih := ih (fun x hx => hr x (by simp [hx]))
    simp only [loop, hl, check_root hroot]
    rcases hx : lookup c.value key with _ | w
    · right
      refine ⟨.inr rfl, d, by simp, ?_⟩
      rintro ⟨w, ⟨c', h1, -, h2⟩, -⟩
      rw [hl] at h1; cases h1; simp [hx] at h2
    · have hg : Gives load key d w := ⟨c, hl, hroot, hx⟩
      by_cases hs : valueEq v w = true
      · simp only [hs, if_true]
        rcases ih with ⟨e, h⟩ | ⟨e, x, hx', h⟩
        · left
          refine ⟨e, fun y hy => ?_⟩
          rcases List.mem_cons.mp hy with hy' | hy'
          · exact ⟨w, hy' ▸ hg, (valueEq_iff v w).mp hs⟩
          · exact h y hy'
        · right; exact ⟨e, x, by simp [hx'], h⟩
      · right
        simp only [hs]
        refine ⟨.inl rfl, d, by simp, ?_⟩
        rintro ⟨w', hw', hs'⟩
        rw [gives_unique hw' hg] at hs'
        exact hs ((valueEq_iff v w).mpr hs')

/-- What the function returns, for runs with readable configurations. -/
theorem result (d : D) (ds : List D) (hr : Readable load (d :: ds)) :
    (∃ v, getConsistentConfigValue load (d :: ds) key = .ok (some v) ∧ Gives load key d v ∧ ∀ e ∈ ds, ∃ w, Gives load key e w ∧ Same v w) ∨
    (getConsistentConfigValue load (d :: ds) key = .error .valueError ∧
      ∀ v, Gives load key d v → ∃ e ∈ ds, ¬ ∃ w, Gives load key e w ∧ Same v w) := by
  obtain ⟨c, hl, hroot⟩ := hr d (by simp)
  simp only [getConsistentConfigValue, loop, hl, check_root hroot]
  rcases hx : lookup c.value key with _ | v
  · right
    refine ⟨rfl, ?_⟩
    rintro v ⟨c', h1, -, h2⟩
    rw [hl] at h1; cases h1; simp [hx] at h2
  · have hg : Gives load key d v := ⟨c, hl, hroot, hx⟩
    rcases loop_known (key := key) ds (fun x hx => hr x (by simp [hx])) v with ⟨e, h⟩ | ⟨e, h⟩
    · left; exact ⟨v, by simp only [e], hg, h⟩
    · right
      refine ⟨by rcases e with e | e <;> simp only [e], ?_⟩
      intro v' hv'
      rw [gives_unique hv' hg]; exact h

/-- C144: a value that is returned is the one of every run, as texts or as numbers. -/
theorem C144_common {d : D} {ds : List D} (hr : Readable load (d :: ds)) {o : Option Value}
    (h : getConsistentConfigValue load (d :: ds) key = .ok o) :
    ∃ v, o = some v ∧ Gives load key d v ∧ ∀ e ∈ ds, ∃ w, Gives load key e w ∧ Same v w := by
  rcases result (key := key) d ds hr with ⟨v, e, h1, h2⟩ | ⟨e, -⟩
  · rw [e] at h; cases h; exact ⟨v, rfl, h1, h2⟩
  · rw [e] at h; cases h

/-- C144: if a run does not have the setting, or two runs disagree, `ValueError` is raised. -/
theorem C144_rejected {ds : List D} (hr : Readable load ds)
    (h : (∃ e ∈ ds, ∀ w, ¬ Gives load key e w) ∨
      ∃ e ∈ ds, ∃ e' ∈ ds, ∃ w w', Gives load key e w ∧ Gives load key e' w' ∧ w ≠ w' ∧ ¬ Same w w') :
    getConsistentConfigValue load ds key = .error .valueError := by
  cases ds with
  | nil => simp at h
  | cons d ds =>
    rcases result (key := key) d ds hr with ⟨v, -, h1, h2⟩ | ⟨e, -⟩
    · exfalso
      rcases h with ⟨e, he, hn⟩ | ⟨e, he, e', he', w, w', hw, hw', hne, hs⟩
      · rcases List.mem_cons.mp he with h' | h'
        · exact hn v (h' ▸ h1)
        · obtain ⟨w, hw, -⟩ := h2 e h'; exact hn w hw
      · have a : ∀ x ∈ d :: ds, ∀ y, Gives load key x y → y = v ∨ Same v y := by
          intro x hx y hy
          rcases List.mem_cons.mp hx with h' | h'
          · subst h'; exact .inl (gives_unique hy h1)
          · obtain ⟨z, hz, hs⟩ := h2 x h'
            rw [gives_unique hy hz]; exact .inr hs
        rcases a e he w hw with p | p <;> rcases a e' he' w' hw' with q | q
        · exact hne (p.trans q.symm)
        · exact hs (p ▸ q)
        · exact hs (q ▸ p.symm)
        · exact hs (p.symm.trans q)
    · exact e

/-- C144, as far as it holds: if all runs agree on a text, a truth value or a number, that is returned. What is missing: groups, lists
and arrays, see below. -/
theorem C144_agreed_partial {d : D} {ds : List D} (hr : Readable load (d :: ds)) {v : Value} (hd : Gives load key d v)
    (h : ∀ e ∈ ds, ∃ w, Gives load key e w ∧ Same v w) : getConsistentConfigValue load (d :: ds) key = .ok (some v) := by
  rcases result (key := key) d ds hr with ⟨v', e, h1, h2⟩ | ⟨-, h'⟩
  · rw [e, gives_unique h1 hd]
  · obtain ⟨e, he, hn⟩ := h' v hd
    exact absurd (h e he) hn

/-- C144: the order of the runs does not matter: the values returned are the same, and so are the exceptions. -/
theorem C144_order {ds es : List D} (hp : ds.Perm es) (hr : Readable load ds) {v : Value}
    (h : getConsistentConfigValue load ds key = .ok (some v)) :
    ∃ w, getConsistentConfigValue load es key = .ok (some w) ∧ (v = w ∨ Same v w) := by
  have hr' : Readable load es := fun x hx => hr x (hp.mem_iff.mpr hx)
  rcases ds with _ | ⟨d, ds⟩
  · simp [getConsistentConfigValue, loop] at h
  rcases es with _ | ⟨e, es⟩
  · simp at hp
  obtain ⟨v', e', h1, h2⟩ := C144_common hr h
  cases e'
  -- a single run, or scalars only
  rcases ds with _ | ⟨d2, ds⟩
  · have : e :: es = [d] := by simpa using hp.symm
    simp only [List.cons.injEq] at this
    obtain ⟨rfl, rfl⟩ := this
    exact ⟨v, h, .inl rfl⟩
  have hvv : Same v v := by obtain ⟨w, -, hs⟩ := h2 d2 (by simp); exact hs.trans hs.symm
  have a : ∀ x ∈ d :: d2 :: ds, ∃ w, Gives load key x w ∧ Same v w := by
    intro x hx
    rcases List.mem_cons.mp hx with h' | h'
    · exact ⟨v, h' ▸ h1, hvv⟩
    · exact h2 x h'
  obtain ⟨w, hw, hs⟩ := a e (hp.mem_iff.mpr (by simp))
  refine ⟨w, C144_agreed_partial hr' hw fun x hx => ?_, .inr hs⟩
  obtain ⟨u, hu, hs'⟩ := a x (hp.mem_iff.mpr (by simp [hx]))
  exact ⟨u, hu, hs.symm.trans hs'⟩

/-- C144: a configuration that cannot be read makes the call fail, unless another problem is found earlier. -/
theorem C144_unreadable {ds : List D} {d : D} (hd : d ∈ ds) {e : PyErr} (he : load d = .error e) :
    ∀ o, getConsistentConfigValue load ds key ≠ .ok o := by
  have key' : ∀ (ds : List D), d ∈ ds → ∀ known o, loop load key ds known ≠ .ok o := by
    intro ds
    induction ds with
    | nil => simp
    | cons x xs ih =>
      intro hx known o
      rcases List.mem_cons.mp hx with h | h
      · subst h; simp [loop, he]
      · simp only [loop]
        cases load x with
        | error e => simp
        | ok c =>
          simp only []
          cases check c key known with
          | error e => simp
          | ok v => simpa using ih h (some v) o
  intro o h
  unfold getConsistentConfigValue at h
  split at h
  · cases h
  · exact key' ds hd none o h

/-- C144 fails for groups, lists and arrays: for two runs or more, `ValueError` is raised even if they agree. -/
theorem C144_group_violated {d e : D} {ds : List D} (hr : Readable load (d :: e :: ds)) {v : Value} (hv : ∀ s, v ≠ .scalar s)
    (hd : Gives load key d v) : getConsistentConfigValue load (d :: e :: ds) key = .error .valueError := by
  rcases result (key := key) d (e :: ds) hr with ⟨v', -, h1, h2⟩ | ⟨e, -⟩
  · obtain ⟨w, -, hs⟩ := h2 e (by simp)
    rw [gives_unique h1 hd] at hs
    obtain ⟨s, rfl⟩ := (same_refl_iff v).mp (hs.trans hs.symm)
    exact absurd rfl (hv s)
  · exact e

/-- C144: without runs, there is no value, and no exception. -/
theorem C144_no_runs : getConsistentConfigValue load [] key = .ok none := rfl

/-! ## Examples -/

/-- The configuration of a run at the given temperature. -/
def sample (kT : Scalar) : Conf := ⟨true, .group [(.name "bulkThermostat", .group [(.name "targetkT", .scalar kT)])]⟩

/-- The setting. -/
def kTKey : List Comp := [.name "bulkThermostat", .name "targetkT"]

theorem sample_gives (f : D → Scalar) (d : D) : Gives (fun d => .ok (sample (f d))) kTKey d (.scalar (f d)) :=
  ⟨_, rfl, rfl, by simp [sample, kTKey, lookup, dictGet]⟩

theorem sample_readable (f : D → Scalar) (ds : List D) : Readable (fun d => .ok (sample (f d))) ds := fun d _ => ⟨_, rfl, rfl⟩

/-- `1` and `1.0` are consistent, and the first is returned. -/
example : getConsistentConfigValue (fun d : Bool => .ok (sample (if d then .int 1 else .float 1))) [true, false] kTKey =
    .ok (some (.scalar (.int 1))) :=
  C144_agreed_partial (sample_readable _ _) (sample_gives (fun d : Bool => if d then .int 1 else .float 1) true) (by
    intro e he
    simp at he; subst he
    exact ⟨_, sample_gives (fun d : Bool => if d then .int 1 else .float 1) false, .number _ _ 1 rfl rfl⟩)

/-- `1` and `2` are not. -/
example : getConsistentConfigValue (fun d : Bool => .ok (sample (.int (if d then 1 else 2)))) [true, false] kTKey = .error .valueError :=
  C144_rejected (sample_readable _ _) (.inr ⟨true, by simp, false, by simp, _, _,
    sample_gives (fun d : Bool => .int (if d then 1 else 2)) true, sample_gives (fun d : Bool => .int (if d then 1 else 2)) false,
    by simp, by rw [← valueEq_iff]; simp [valueEq, scalarEq, number]⟩)

/-- Two runs with one and the same group. -/
example : getConsistentConfigValue (fun _ : Unit => .ok (sample (.int 1))) [(), ()] [.name "bulkThermostat"] = .error .valueError :=
  C144_group_violated (fun d _ => ⟨_, rfl, rfl⟩) (v := .group [(.name "targetkT", .scalar (.int 1))]) (by simp)
    ⟨_, rfl, rfl, by simp [sample, lookup, dictGet]⟩

end OpenMPCD.Config.Consistent
