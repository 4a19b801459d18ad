import Verif.Common
import Mathlib.Data.List.Induction
import Mathlib.Data.List.Infix

/-!
# Which analysis tools are registered (C163)

`Analysis/MPCDAnalysis/StarPolymersAnalysis/Registry.py`. Simplification: `getRegisteredClasses` returns the dictionary itself;
callers are assumed not to change it.
-/

set_option linter.unusedSectionVars false
set_option linter.unusedSimpArgs false
set_option linter.unusedVariables false

namespace OpenMPCD.Analysis.Registry

abbrev Str := List Char

/-! ## Model -/

/-- A Python object that is passed to `register`: a class, with its `__name__` and its identity, or something else. -/
inductive Obj where
  | cls (name : Str) (ident : ℕ)
  | other
  deriving DecidableEq

/-- `_registry`, an `OrderedDict` from names to classes (`Analysis/MPCDAnalysis/StarPolymersAnalysis/Registry.py:20`). -/
abbrev Dict := List (Str × Obj)

/-- The module's `registry` (`Analysis/MPCDAnalysis/StarPolymersAnalysis/Registry.py:2,49`); `none` is `None`. -/
abbrev Module := Option Dict

/-- The constructor (`Analysis/MPCDAnalysis/StarPolymersAnalysis/Registry.py:9-20`): the new, empty dictionary. -/
def construct (m : Module) : Except PyErr Dict :=
  if m.isSome then .error .exception else .ok []

/-- What happens when the module is imported (`Analysis/MPCDAnalysis/StarPolymersAnalysis/Registry.py:2,49`). -/
def load : Except PyErr Module :=
  match construct none with
  | .error e => .error e
  | .ok d => .ok (some d)

/-- `register` (`Analysis/MPCDAnalysis/StarPolymersAnalysis/Registry.py:23-38`): the dictionary after the call, and the outcome. -/
def register (d : Dict) : Obj → Dict × Except PyErr Unit
  | .other => (d, .error .valueError)
  | .cls name ident =>
    if name ∈ d.map Prod.fst then (d, .error .valueError)
    else (d ++ [(name, .cls name ident)], .ok ())

/-- `getRegisteredClasses` (`Analysis/MPCDAnalysis/StarPolymersAnalysis/Registry.py:41-46`). -/
def getRegisteredClasses (d : Dict) : Dict := d

/-- What a program does with the registry: registering something, or trying to make another registry. -/
inductive Op where
  | register (o : Obj)
  | construct

/-- The effect of an operation, and its outcome. An exception is caught by the program. -/
def step (m : Module) : Op → Module × Except PyErr Unit
  | .register o => match m with
    | none => (m, .error .attributeError)
    | some d => (some (register d o).1, (register d o).2)
  | .construct => (m, (construct m).map fun _ => ())

/-- The module after a history of operations. -/
def run (m : Module) (ops : List Op) : Module := ops.foldl (fun m o => (step m o).1) m

/-! ## Specification -/

/-- The class was passed to `register` in the history, and no other object of the name before. -/
def First (ops : List Op) (name : Str) (o : Obj) : Prop :=
  ∃ before after, ops = before ++ .register o :: after ∧ (∃ i, o = .cls name i) ∧ ∀ i, Op.register (.cls name i) ∉ before

/-! ## Proofs -/

theorem run_append (m : Module) (a b : List Op) : run m (a ++ b) = run (run m a) b := List.foldl_append

theorem first_append (ops : List Op) (op : Op) (name : Str) (o : Obj) : First (ops ++ [op]) name o ↔
    First ops name o ∨ (op = .register o ∧ (∃ i, o = .cls name i) ∧ ∀ i, Op.register (.cls name i) ∉ ops) := by
  constructor
  · rintro ⟨b, a, e, h1, h2⟩
    rcases List.eq_nil_or_concat a with rfl | ⟨a', y, rfl⟩
    · obtain ⟨e1, e2⟩ := List.append_inj' e rfl
      cases e2
      subst e1
      exact .inr ⟨rfl, h1, h2⟩
    · have e' : ops ++ [op] = (b ++ .register o :: a') ++ [y] := by simpa using e
      obtain ⟨e1, e2⟩ := List.append_inj' e' rfl
      exact .inl ⟨b, a', e1, h1, h2⟩
  · rintro (⟨b, a, e, h1, h2⟩ | ⟨rfl, h1, h2⟩)
    · exact ⟨b, a ++ [op], by rw [e]; simp, h1, h2⟩
    · exact ⟨ops, [], rfl, h1, h2⟩

theorem exists_first (ops : List Op) (name : Str) (i : ℕ) (h : Op.register (.cls name i) ∈ ops) : ∃ o, First ops name o := by
  induction ops using List.reverseRecOn with
  | nil => simp at h
  | append_singleton ops op ih =>
    by_cases hx : ∃ j, Op.register (.cls name j) ∈ ops
    · by_cases hi : Op.register (.cls name i) ∈ ops
      · obtain ⟨o, ho⟩ := ih hi
        exact ⟨o, (first_append ..).2 (.inl ho)⟩
      · clear ih h hi
        obtain ⟨j, hj⟩ := hx
        have key : ∀ l : List Op, (∃ j, Op.register (.cls name j) ∈ l) → ∃ o, First l name o := by
          intro l
          induction l with
          | nil => simp
          | cons x xs ih =>
            intro hl
            by_cases hc : ∃ k, x = Op.register (.cls name k)
            · obtain ⟨k, rfl⟩ := hc
              exact ⟨_, [], xs, rfl, ⟨k, rfl⟩, by simp⟩
            · obtain ⟨k, hk⟩ := hl
              rcases List.mem_cons.1 hk with e | hk
              · exact absurd ⟨k, e.symm⟩ hc
              · obtain ⟨o, b, a, e, h1, h2⟩ := ih ⟨k, hk⟩
                refine ⟨o, x :: b, a, by rw [e]; rfl, h1, ?_⟩
                intro n hn
                rcases List.mem_cons.1 hn with e' | hn
                · exact hc ⟨n, e'.symm⟩
                · exact h2 n hn
        obtain ⟨o, ho⟩ := key ops ⟨j, hj⟩
        exact ⟨o, (first_append ..).2 (.inl ho)⟩
    · rcases List.mem_append.1 h with h | h
      · exact absurd ⟨i, h⟩ hx
      · rw [List.mem_singleton] at h
        exact ⟨_, (first_append ..).2 (.inr ⟨h.symm, ⟨i, rfl⟩, fun j hj => hx ⟨j, hj⟩⟩)⟩

/-- What is in the dictionary after a history. -/
theorem run_spec (ops : List Op) : ∃ d, run (some []) ops = some d ∧ (d.map Prod.fst).Nodup ∧
    ∀ name o, (name, o) ∈ d ↔ First ops name o := by
  induction ops using List.reverseRecOn with
  | nil => exact ⟨[], rfl, by simp, by simp [First]⟩
  | append_singleton ops op ih =>
    obtain ⟨d, h1, h2, h3⟩ := ih
    have hmem : ∀ name, name ∈ d.map Prod.fst ↔ ∃ i, Op.register (.cls name i) ∈ ops := by
      intro name
      rw [List.mem_map]
      constructor
      · rintro ⟨⟨n, o⟩, hm, rfl⟩
        obtain ⟨b, a, e, ⟨i, rfl⟩, _⟩ := (h3 n o).1 hm
        exact ⟨i, by simp [e]⟩
      · rintro ⟨i, hi⟩
        obtain ⟨o, ho⟩ := exists_first ops name i hi
        exact ⟨(name, o), (h3 name o).2 ho, rfl⟩
    rw [run_append, h1]
    have same : (∀ name o, op = .register o → (∃ i, o = .cls name i) → ∃ i, Op.register (.cls name i) ∈ ops) →
        ∀ name o, (name, o) ∈ d ↔ First (ops ++ [op]) name o := by
      intro hs name o
      rw [h3, first_append]
      constructor
      · exact .inl
      · rintro (h | ⟨e, hi, hn⟩)
        · exact h
        · obtain ⟨i, hi⟩ := hs name o e hi
          exact absurd hi (hn i)
    cases op with
    | construct => exact ⟨d, rfl, h2, same (by simp)⟩
    | register o =>
      cases o with
      | other =>
        refine ⟨d, rfl, h2, same ?_⟩
        rintro name o e ⟨i, rfl⟩
        cases e
      | cls n k =>
        by_cases hn : n ∈ d.map Prod.fst
        · refine ⟨d, by simp only [run, List.foldl, step, register, if_pos hn], h2, same ?_⟩
          rintro name o e ⟨i, rfl⟩
          cases e
          exact (hmem n).1 hn
        · refine ⟨d ++ [(n, .cls n k)], by simp only [run, List.foldl, step, register, if_neg hn], ?_, ?_⟩
          · rw [List.map_append, List.map_singleton, List.nodup_append]
            refine ⟨h2, by simp, ?_⟩
            intro a ha b hb e
            rw [List.mem_singleton] at hb
            subst e hb
            exact hn ha
          · intro name o
            rw [List.mem_append, List.mem_singleton, first_append, h3, Prod.mk.injEq]
            constructor
            · rintro (h | ⟨rfl, rfl⟩)
              · exact .inl h
              · exact .inr ⟨rfl, ⟨k, rfl⟩, fun i hi => hn ((hmem _).2 ⟨i, hi⟩)⟩
            · rintro (h | ⟨e, ⟨i, rfl⟩, hi⟩)
              · exact .inl h
              · cases e
                exact .inr ⟨rfl, rfl⟩

/-- C163: importing the module gives an empty registry, and after that there is always one, whatever is done: each name is there once,
with the class that was first registered with it. -/
theorem C163_classes (ops : List Op) : ∃ m d, load = .ok m ∧ run m ops = some d ∧
    ((getRegisteredClasses d).map Prod.fst).Nodup ∧ ∀ name o, (name, o) ∈ getRegisteredClasses d ↔ First ops name o := by
  obtain ⟨d, h⟩ := run_spec ops
  exact ⟨some [], d, rfl, h⟩

/-- C163: classes stay registered, and new ones come after the old ones. -/
theorem C163_order (d : Dict) (ops : List Op) : ∃ new, run (some d) ops = some (d ++ new) := by
  induction ops using List.reverseRecOn with
  | nil => exact ⟨[], by simp [run]⟩
  | append_singleton ops op ih =>
    obtain ⟨new, h⟩ := ih
    rw [run_append, h]
    cases op with
    | construct => exact ⟨new, rfl⟩
    | register o =>
      cases o with
      | other => exact ⟨new, rfl⟩
      | cls n k =>
        by_cases hn : n ∈ (d ++ new).map Prod.fst
        · exact ⟨new, by simp only [run, List.foldl, step, register, if_pos hn]⟩
        · exact ⟨new ++ [(n, .cls n k)], by simp only [run, List.foldl, step, register, if_neg hn, List.append_assoc]⟩

/-- C163: registering something after any history succeeds exactly if it is a class whose name no class registered before has; otherwise
the exception is a `ValueError`, and nothing changes. -/
theorem C163_register (ops : List Op) (o : Obj) :
    ((step (run (some []) ops) (.register o)).2 = .ok () ↔
      ∃ name i, o = .cls name i ∧ ∀ j, Op.register (.cls name j) ∉ ops) ∧
    ∀ e, (step (run (some []) ops) (.register o)).2 = .error e →
      e = .valueError ∧ (step (run (some []) ops) (.register o)).1 = run (some []) ops := by
  obtain ⟨d, h1, h2, h3⟩ := run_spec ops
  rw [h1]
  cases o with
  | other => simp [step, register, eq_comm]
  | cls n k =>
    have hmem : n ∈ d.map Prod.fst ↔ ∃ i, Op.register (.cls n i) ∈ ops := by
      rw [List.mem_map]
      constructor
      · rintro ⟨⟨n, o⟩, hm, rfl⟩
        obtain ⟨b, a, e, ⟨i, rfl⟩, _⟩ := (h3 n o).1 hm
        exact ⟨i, by simp [e]⟩
      · rintro ⟨i, hi⟩
        obtain ⟨o, ho⟩ := exists_first ops n i hi
        exact ⟨(n, o), (h3 n o).2 ho, rfl⟩
    by_cases hn : n ∈ d.map Prod.fst
    · simp only [step, register, if_pos hn, reduceCtorEq, false_iff, Except.error.injEq]
      refine ⟨?_, fun e he => ⟨he.symm, trivial⟩⟩
      rintro ⟨name, i, e, hj⟩
      cases e
      obtain ⟨j, hj'⟩ := hmem.1 hn
      exact hj j hj'
    · simp only [step, register, if_neg hn, true_iff, reduceCtorEq, false_imp_iff, implies_true, and_true]
      exact ⟨n, k, rfl, fun j hj => hn (hmem.2 ⟨j, hj⟩)⟩

/-- C163: another registry cannot be made. -/
theorem C163_single (ops : List Op) : (step (run (some []) ops) .construct).2 = .error .exception := by
  obtain ⟨d, h1, _⟩ := run_spec ops
  rw [h1]
  rfl

/-- Two classes, another one of the first name, something that is not a class, and another registry. -/
example : run (some []) [.register (.cls "A".toList 0), .register (.cls "B".toList 1), .register (.cls "A".toList 2), .register .other,
      .construct] = some [("A".toList, .cls "A".toList 0), ("B".toList, .cls "B".toList 1)] := by decide

/-- The import of the package registers its ten classes
(`Analysis/MPCDAnalysis/StarPolymersAnalysis/__init__.py:14-24`), starting with these. -/
example : (step (run (some []) [.register (.cls "PotentialEnergy".toList 0)]) (.register (.cls "Acylindricity".toList 1))).2 =
    .ok () := by rfl

end OpenMPCD.Analysis.Registry
