import Verif.Common
import Mathlib.Logic.Function.Basic
import Mathlib.Data.List.Induction
import Mathlib.Data.List.Infix

/-!
# What files of static data say (C162)

`Analysis/MPCDAnalysis/StaticData.py`. Simplifications: what `float` gives for a text, and which characters `strip` removes, are
arbitrary; a file that cannot be opened is left out.
-/

set_option linter.unusedSectionVars false
set_option linter.unusedSimpArgs false
set_option linter.unusedVariables false

namespace OpenMPCD.Analysis.StaticData

variable {F : Type}

abbrev Str := List Char

/-! ## Model -/

/-- `line.find(description)` (`Analysis/MPCDAnalysis/StaticData.py:22`); `none` is `-1`. -/
def find (d : Str) : Str → Option ℕ
  | [] => if d.isPrefixOf [] then some 0 else none
  | c :: cs => if d.isPrefixOf (c :: cs) then some 0 else (find d cs).map (· + 1)

/-- `strip` (`Analysis/MPCDAnalysis/StaticData.py:26`). -/
def strip (space : Char → Bool) (s : Str) : Str := ((s.dropWhile space).reverse.dropWhile space).reverse

/-- `self.data` (`Analysis/MPCDAnalysis/StaticData.py:3`). -/
abbrev Data (F : Type) := Str → Option F

/-- `extractFloat` (`Analysis/MPCDAnalysis/StaticData.py:21-27`): the data after the call, and whether something has been found. -/
def extractFloat (space : Char → Bool) (float : Str → Option F) (description key line : Str) (data : Data F) :
    Except PyErr (Data F × Bool) :=
  match find description line with
  | none => .ok (data, false)
  | some pos => match float (strip space (line.drop (pos + description.length))) with
    | none => .error .valueError
    | some x => .ok (Function.update data key (some x), true)

/-- `floatKeys` (`Analysis/MPCDAnalysis/StaticData.py:10-15`). -/
def floatKeys : List (Str × Str) :=
  [("dumbbell equilibrium length:".toList, "dumbbellEquilibriumLength".toList),
   ("Weissenberg number:".toList, "weissenbergNumber".toList),
   ("lagrangian multiplier ratio:".toList, "lagrangianMultiplierRatio".toList)]

/-- The loop in `readline` (`Analysis/MPCDAnalysis/StaticData.py:17-19`). -/
def readKeys (space : Char → Bool) (float : Str → Option F) (line : Str) : List (Str × Str) → Data F → Except PyErr (Data F)
  | [], data => .ok data
  | k :: ks, data => match extractFloat space float k.1 k.2 line data with
    | .error e => .error e
    | .ok (data, true) => .ok data
    | .ok (data, false) => readKeys space float line ks data

/-- `readline` (`Analysis/MPCDAnalysis/StaticData.py:9-19`). -/
def readline (space : Char → Bool) (float : Str → Option F) (line : Str) (data : Data F) : Except PyErr (Data F) :=
  readKeys space float line floatKeys data

/-- The loop in the constructor (`Analysis/MPCDAnalysis/StaticData.py:6-7`). -/
def readLines (space : Char → Bool) (float : Str → Option F) : List Str → Data F → Except PyErr (Data F)
  | [], data => .ok data
  | l :: ls, data => match readline space float l data with
    | .error e => .error e
    | .ok data => readLines space float ls data

/-- The constructor (`Analysis/MPCDAnalysis/StaticData.py:2-7`), for the lines of the file. -/
def construct (space : Char → Bool) (float : Str → Option F) (lines : List Str) : Except PyErr (Data F) :=
  readLines space float lines fun _ => none

/-- `__getitem__` (`Analysis/MPCDAnalysis/StaticData.py:29-30`). -/
def getitem (data : Data F) (val : Str) : Except PyErr F :=
  match data val with
  | none => .error .keyError
  | some x => .ok x

/-! ## Specification -/

/-- The text `rest` is what follows the first occurrence of `d` in the line. -/
def Follows (d line rest : Str) : Prop :=
  ∃ pre, line = pre ++ d ++ rest ∧ ∀ pre' rest', line = pre' ++ d ++ rest' → pre.length ≤ pre'.length

/-- The line is about the quantity of this name, and `rest` is to be its value. -/
inductive About (line : Str) : Str → Str → Prop
  | length (rest) : Follows "dumbbell equilibrium length:".toList line rest →
      About line "dumbbellEquilibriumLength".toList rest
  | weissenberg (rest) : ¬ "dumbbell equilibrium length:".toList <:+: line →
      Follows "Weissenberg number:".toList line rest → About line "weissenbergNumber".toList rest
  | ratio (rest) : ¬ "dumbbell equilibrium length:".toList <:+: line → ¬ "Weissenberg number:".toList <:+: line →
      Follows "lagrangian multiplier ratio:".toList line rest → About line "lagrangianMultiplierRatio".toList rest

/-- The text is a number, up to space around it. -/
def Number (space : Char → Bool) (float : Str → Option F) (text : Str) (x : F) : Prop :=
  ∃ a t b, text = a ++ t ++ b ∧ (∀ c ∈ a, space c) ∧ (∀ c ∈ b, space c) ∧ (∀ c ∈ t.head?, ¬ space c) ∧
    (∀ c ∈ t.getLast?, ¬ space c) ∧ float t = some x

/-! ## Proofs -/

theorem find_some (d line : Str) (n : ℕ) (h : find d line = some n) :
    ∃ pre, pre.length = n ∧ line = pre ++ d ++ line.drop (n + d.length) ∧
      ∀ pre' rest', line = pre' ++ d ++ rest' → n ≤ pre'.length := by
  induction line generalizing n with
  | nil =>
    simp only [find] at h
    split_ifs at h with hp
    cases h
    have : d = [] := by simpa using hp
    subst this
    exact ⟨[], rfl, rfl, fun _ _ _ => Nat.zero_le _⟩
  | cons c cs ih =>
    simp only [find] at h
    split_ifs at h with hp
    · cases h
      obtain ⟨r, hr⟩ := List.isPrefixOf_iff_prefix.1 hp
      refine ⟨[], rfl, ?_, fun _ _ _ => Nat.zero_le _⟩
      rw [← hr]
      simp
    · obtain ⟨m, hm, rfl⟩ := Option.map_eq_some_iff.1 h
      obtain ⟨pre, h1, h2, h3⟩ := ih m hm
      refine ⟨c :: pre, by simp [h1], ?_, ?_⟩
      · rw [show m + 1 + d.length = (m + d.length) + 1 by omega, List.drop_succ_cons]
        simpa using h2
      · intro pre' rest' e
        cases pre' with
        | nil => exact absurd (List.isPrefixOf_iff_prefix.2 ⟨rest', by simpa using e.symm⟩) hp
        | cons c' p' =>
          simp only [List.cons_append, List.cons.injEq] at e
          have := h3 p' rest' e.2
          simp only [List.length_cons]
          omega

theorem find_none (d line : Str) : find d line = none ↔ ¬ d <:+: line := by
  induction line with
  | nil =>
    simp only [find]
    split_ifs with hp
    · have : d = [] := by simpa using hp
      simp [this]
    · have : d ≠ [] := by simpa using hp
      simpa using this
  | cons c cs ih =>
    simp only [find]
    rw [List.infix_cons_iff]
    split_ifs with hp
    · simp [List.isPrefixOf_iff_prefix.1 hp]
    · rw [Option.map_eq_none_iff, ih]
      have : ¬ d <+: c :: cs := fun h => hp (List.isPrefixOf_iff_prefix.2 h)
      simp [this]

theorem follows_iff (d line rest : Str) : Follows d line rest ↔ ∃ n, find d line = some n ∧ rest = line.drop (n + d.length) := by
  constructor
  · rintro ⟨pre, h1, h2⟩
    cases hf : find d line with
    | none => exact absurd ⟨pre, rest, h1.symm⟩ ((find_none d line).1 hf)
    | some n =>
      obtain ⟨p, hp, he, hmin⟩ := find_some d line n hf
      refine ⟨n, rfl, ?_⟩
      have e1 := h2 p _ he
      have e2 := hmin pre rest h1
      have : n = pre.length := by omega
      rw [h1, this, ← List.length_append, List.drop_left]
  · rintro ⟨n, hn, rfl⟩
    obtain ⟨p, hp, he, hmin⟩ := find_some d line n hn
    exact ⟨p, he, fun a b e => by rw [hp]; exact hmin a b e⟩

theorem dropWhile_spec (space : Char → Bool) (s : Str) :
    ∃ a, s = a ++ s.dropWhile space ∧ (∀ c ∈ a, space c) ∧ ∀ c ∈ (s.dropWhile space).head?, ¬ space c := by
  induction s with
  | nil => exact ⟨[], by simp⟩
  | cons c cs ih =>
    rw [List.dropWhile_cons]
    split_ifs with h
    · obtain ⟨a, h1, h2, h3⟩ := ih
      refine ⟨c :: a, by rw [List.cons_append, ← h1], ?_, h3⟩
      intro x hx
      rcases List.mem_cons.1 hx with rfl | hx
      · exact h
      · exact h2 x hx
    · exact ⟨[], by simp, by simp, by simpa using h⟩

theorem dropWhile_eq (space : Char → Bool) (a t : Str) (ha : ∀ c ∈ a, space c) (ht : ∀ c ∈ t.head?, ¬ space c) :
    (a ++ t).dropWhile space = t := by
  induction a with
  | nil =>
    cases t with
    | nil => rfl
    | cons c cs =>
      have hc := ht c (by simp)
      simp [List.dropWhile_cons, hc]
  | cons x xs ih =>
    rw [List.cons_append, List.dropWhile_cons, if_pos (ha x (by simp))]
    exact ih fun c hc => ha c (by simp [hc])

theorem number_iff (space : Char → Bool) (float : Str → Option F) (text : Str) (x : F) :
    Number space float text x ↔ float (strip space text) = some x := by
  constructor
  · rintro ⟨a, t, b, rfl, ha, hb, h1, h2, hx⟩
    have : strip space (a ++ t ++ b) = t := by
      unfold strip
      by_cases ht : t = []
      · subst ht
        have e : (a ++ [] ++ b).dropWhile space = [] := by
          have := dropWhile_eq space (a ++ b) [] (fun c hc => (List.mem_append.1 hc).elim (ha c) (hb c)) (by simp)
          simpa using this
        rw [e]
        rfl
      · rw [List.append_assoc, dropWhile_eq space a (t ++ b) ha, List.reverse_append, dropWhile_eq, List.reverse_reverse]
        · simpa using hb
        · simpa using h2
        · intro c hc
          rw [List.head?_append_of_ne_nil _ ht] at hc
          exact h1 c hc
    rw [this, hx]
  · intro hx
    obtain ⟨a, e1, ha, h1⟩ := dropWhile_spec space text
    obtain ⟨b, e2, hb, h2⟩ := dropWhile_spec space (text.dropWhile space).reverse
    refine ⟨a, strip space text, b.reverse, ?_, ha, by simpa using hb, ?_, ?_, hx⟩
    · have := congrArg List.reverse e2
      rw [List.reverse_reverse, List.reverse_append] at this
      rw [List.append_assoc, strip, ← this, ← e1]
    · have := congrArg List.reverse e2
      rw [List.reverse_reverse, List.reverse_append] at this
      intro c hc
      refine h1 c ?_
      rw [this]
      have hne : strip space text ≠ [] := by
        intro h
        rw [h] at hc
        simp at hc
      change c ∈ (strip space text ++ b.reverse).head?
      rw [List.head?_append_of_ne_nil _ hne]
      exact hc
    · simpa [strip] using h2

/-- What a line does to the data. -/
theorem readline_spec (space : Char → Bool) (float : Str → Option F) (line : Str) (data : Data F) :
    (∃ key rest x, About line key rest ∧ float (strip space rest) = some x ∧ (∀ k r, About line k r → k = key ∧ r = rest) ∧
        readline space float line data = .ok (Function.update data key (some x))) ∨
      (∃ key rest, About line key rest ∧ float (strip space rest) = none ∧ (∀ k r, About line k r → k = key ∧ r = rest) ∧
        readline space float line data = .error .valueError) ∨
      ((∀ key rest, ¬ About line key rest) ∧ readline space float line data = .ok data) := by
  have key : ∀ d n, find d line = some n → d <:+: line := by
    intro d n h
    by_contra hc
    rw [(find_none d line).2 hc] at h
    cases h
  cases h1 : find "dumbbell equilibrium length:".toList line with
  | some n =>
    have hu : ∀ k r, About line k r → k = "dumbbellEquilibriumLength".toList ∧
        r = line.drop (n + "dumbbell equilibrium length:".toList.length) := by
      intro k r h
      cases h with
      | length _ h =>
        obtain ⟨m, hm, e⟩ := (follows_iff _ _ _).1 h
        rw [h1] at hm
        cases hm
        exact ⟨rfl, e⟩
      | weissenberg _ h _ => exact absurd (key _ _ h1) h
      | ratio _ h _ _ => exact absurd (key _ _ h1) h
    have ha := About.length (line := line) _ ((follows_iff _ _ _).2 ⟨n, h1, rfl⟩)
    cases hf : float (strip space (line.drop (n + "dumbbell equilibrium length:".toList.length))) with
    | some x =>
      exact .inl ⟨_, _, x, ha, hf, hu, by simp only [readline, floatKeys, readKeys, extractFloat, h1, hf]⟩
    | none =>
      exact .inr (.inl ⟨_, _, ha, hf, hu, by simp only [readline, floatKeys, readKeys, extractFloat, h1, hf]⟩)
  | none =>
    have n1 := (find_none _ _).1 h1
    cases h2 : find "Weissenberg number:".toList line with
    | some n =>
      have hu : ∀ k r, About line k r → k = "weissenbergNumber".toList ∧
          r = line.drop (n + "Weissenberg number:".toList.length) := by
        intro k r h
        cases h with
        | length _ h =>
          obtain ⟨m, hm, e⟩ := (follows_iff _ _ _).1 h
          exact absurd (key _ _ hm) n1
        | weissenberg _ _ h =>
          obtain ⟨m, hm, e⟩ := (follows_iff _ _ _).1 h
          rw [h2] at hm
          cases hm
          exact ⟨rfl, e⟩
        | ratio _ _ h _ => exact absurd (key _ _ h2) h
      have ha := About.weissenberg (line := line) _ n1 ((follows_iff _ _ _).2 ⟨n, h2, rfl⟩)
      cases hf : float (strip space (line.drop (n + "Weissenberg number:".toList.length))) with
      | some x =>
        exact .inl ⟨_, _, x, ha, hf, hu, by simp only [readline, floatKeys, readKeys, extractFloat, h1, h2, hf]⟩
      | none =>
        exact .inr (.inl ⟨_, _, ha, hf, hu, by simp only [readline, floatKeys, readKeys, extractFloat, h1, h2, hf]⟩)
    | none =>
      have n2 := (find_none _ _).1 h2
      cases h3 : find "lagrangian multiplier ratio:".toList line with
      | some n =>
        have hu : ∀ k r, About line k r → k = "lagrangianMultiplierRatio".toList ∧
            r = line.drop (n + "lagrangian multiplier ratio:".toList.length) := by
          intro k r h
          cases h with
          | length _ h =>
            obtain ⟨m, hm, e⟩ := (follows_iff _ _ _).1 h
            exact absurd (key _ _ hm) n1
          | weissenberg _ _ h =>
            obtain ⟨m, hm, e⟩ := (follows_iff _ _ _).1 h
            exact absurd (key _ _ hm) n2
          | ratio _ _ _ h =>
            obtain ⟨m, hm, e⟩ := (follows_iff _ _ _).1 h
            rw [h3] at hm
            cases hm
            exact ⟨rfl, e⟩
        have ha := About.ratio (line := line) _ n1 n2 ((follows_iff _ _ _).2 ⟨n, h3, rfl⟩)
        cases hf : float (strip space (line.drop (n + "lagrangian multiplier ratio:".toList.length))) with
        | some x =>
          exact .inl ⟨_, _, x, ha, hf, hu, by simp only [readline, floatKeys, readKeys, extractFloat, h1, h2, h3, hf]⟩
        | none =>
          exact .inr (.inl ⟨_, _, ha, hf, hu, by simp only [readline, floatKeys, readKeys, extractFloat, h1, h2, h3, hf]⟩)
      | none =>
        have n3 := (find_none _ _).1 h3
        refine .inr (.inr ⟨?_, by simp only [readline, floatKeys, readKeys, extractFloat, h1, h2, h3]⟩)
        intro k r h
        cases h with
        | length _ h =>
          obtain ⟨m, hm, e⟩ := (follows_iff _ _ _).1 h
          exact n1 (key _ _ hm)
        | weissenberg _ _ h =>
          obtain ⟨m, hm, e⟩ := (follows_iff _ _ _).1 h
          exact n2 (key _ _ hm)
        | ratio _ _ _ h =>
          obtain ⟨m, hm, e⟩ := (follows_iff _ _ _).1 h
          exact n3 (key _ _ hm)

theorem readLines_append (space : Char → Bool) (float : Str → Option F) (a b : List Str) (data : Data F) :
    readLines space float (a ++ b) data = (readLines space float a data).bind (readLines space float b) := by
  induction a generalizing data with
  | nil => rfl
  | cons l ls ih =>
    rw [List.cons_append, readLines, readLines]
    cases readline space float l data with
    | error e => rfl
    | ok d => exact ih d

/-- C162: once the file has been read, the value of a quantity is the number in the last line that is about it. -/
theorem C162_value (space : Char → Bool) (float : Str → Option F) (lines : List Str) (data : Data F)
    (h : construct space float lines = .ok data) (key : Str) (x : F) :
    getitem data key = .ok x ↔ ∃ before line after, lines = before ++ line :: after ∧
      (∃ rest, About line key rest ∧ Number space float rest x) ∧ ∀ l ∈ after, ∀ rest, ¬ About l key rest := by
  have hg : getitem data key = .ok x ↔ data key = some x := by
    unfold getitem
    cases data key <;> simp
  rw [hg]
  clear hg
  unfold construct at h
  induction lines using List.reverseRecOn generalizing data with
  | nil =>
    cases h
    simp
  | append_singleton ls l ih =>
    rw [readLines_append] at h
    cases hd : readLines space float ls fun _ => none with
    | error e => simp [hd, Except.bind] at h
    | ok d =>
      simp only [hd, Except.bind, readLines] at h
      have ih := ih d hd
      -- lines that are about something else, or nothing
      have other : (∀ rest, ¬ About l key rest) → data key = d key → (data key = some x ↔
          ∃ before line after, ls ++ [l] = before ++ line :: after ∧
            (∃ rest, About line key rest ∧ Number space float rest x) ∧ ∀ l ∈ after, ∀ rest, ¬ About l key rest) := by
        intro hl he
        rw [he]
        refine ih.trans ?_
        constructor
        · rintro ⟨b, m, a, rfl, h1, h2⟩
          refine ⟨b, m, a ++ [l], by simp, h1, ?_⟩
          intro y hy
          rcases List.mem_append.1 hy with hy | hy
          · exact h2 y hy
          · rw [List.mem_singleton.1 hy]
            exact hl
        · rintro ⟨b, m, a, e, h1, h2⟩
          rcases List.eq_nil_or_concat a with rfl | ⟨a', y, rfl⟩
          · obtain ⟨e1, e2⟩ := List.append_inj' e rfl
            cases e2
            obtain ⟨r, hr, _⟩ := h1
            exact absurd hr (hl r)
          · have e' : ls ++ [l] = (b ++ m :: a') ++ [y] := by simpa using e
            obtain ⟨e1, e2⟩ := List.append_inj' e' rfl
            exact ⟨b, m, a', e1, h1, fun z hz => h2 z (by simp [hz])⟩
      rcases readline_spec space float l d with ⟨k, r, v, ha, hv, hu, hr⟩ | ⟨k, r, ha, hv, hu, hr⟩ | ⟨hn, hr⟩
      · rw [hr] at h
        cases h
        by_cases hk : key = k
        · subst hk
          rw [Function.update_self]
          constructor
          · intro e
            cases e
            exact ⟨ls, l, [], rfl, ⟨r, ha, (number_iff _ _ _ _).2 hv⟩, by simp⟩
          · rintro ⟨b, m, a, e, ⟨r', h1, h1'⟩, h2⟩
            rcases List.eq_nil_or_concat a with rfl | ⟨a', y, rfl⟩
            · obtain ⟨e1, e2⟩ := List.append_inj' e rfl
              cases e2
              rw [(hu _ _ h1).2, number_iff, hv] at h1'
              exact h1'
            · have e' : ls ++ [l] = (b ++ m :: a') ++ [y] := by simpa using e
              obtain ⟨e1, e2⟩ := List.append_inj' e' rfl
              cases e2
              exact absurd ha (h2 l (by simp) r)
        · exact other (fun rest hrest => hk (hu _ _ hrest).1) (Function.update_of_ne hk _ _)
      · rw [hr] at h
        cases h
      · rw [hr] at h
        cases h
        exact other (fun rest => hn key rest) rfl

/-- C162: reading the file fails exactly if a line is about a quantity, but does not have a number for it. -/
theorem C162_error (space : Char → Bool) (float : Str → Option F) (lines : List Str) (e : PyErr) :
    construct space float lines = .error e ↔ e = .valueError ∧
      ∃ line ∈ lines, ∃ key rest, About line key rest ∧ ∀ x, ¬ Number space float rest x := by
  unfold construct
  generalize (fun _ : Str => (none : Option F)) = data
  induction lines generalizing data with
  | nil => simp [readLines]
  | cons l ls ih =>
    rw [readLines]
    rcases readline_spec space float l data with ⟨k, r, v, ha, hv, hu, hr⟩ | ⟨k, r, ha, hv, hu, hr⟩ | ⟨hn, hr⟩
    · rw [hr]
      simp only
      rw [ih]
      simp only [List.mem_cons, exists_eq_or_imp]
      have : ¬ ∃ key rest, About l key rest ∧ ∀ x, ¬ Number space float rest x := by
        rintro ⟨k', r', h1, h2⟩
        rw [(hu _ _ h1).2] at h2
        exact h2 v ((number_iff _ _ _ _).2 hv)
      simp only [this, false_or]
    · rw [hr]
      simp only [Except.error.injEq]
      constructor
      · rintro rfl
        refine ⟨rfl, l, by simp, k, r, ha, ?_⟩
        intro x hx
        rw [number_iff, hv] at hx
        cases hx
      · exact fun h => h.1.symm
    · rw [hr]
      simp only
      rw [ih]
      simp only [List.mem_cons, exists_eq_or_imp]
      have : ¬ ∃ key rest, About l key rest ∧ ∀ x, ¬ Number space float rest x := by
        rintro ⟨k', r', h1, h2⟩
        exact hn k' r' h1
      simp only [this, false_or]

/-- C162: a quantity that no line is about cannot be asked for. -/
theorem C162_missing (space : Char → Bool) (float : Str → Option F) (lines : List Str) (data : Data F)
    (h : construct space float lines = .ok data) (key : Str) (e : PyErr) :
    getitem data key = .error e ↔ e = .keyError ∧ ∀ line ∈ lines, ∀ rest, ¬ About line key rest := by
  have hne : ¬ ∃ line ∈ lines, ∃ key rest, About line key rest ∧ ∀ x, ¬ Number space float rest x := by
    intro hc
    have := (C162_error space float lines .valueError).2 ⟨rfl, hc⟩
    rw [h] at this
    cases this
  have last : (∃ line ∈ lines, ∃ rest, About line key rest) → ∃ before line after, lines = before ++ line :: after ∧
      (∃ rest, About line key rest) ∧ ∀ l ∈ after, ∀ rest, ¬ About l key rest := by
    clear h hne
    induction lines with
    | nil => simp
    | cons l ls ih =>
      intro hx
      by_cases hls : ∃ line ∈ ls, ∃ rest, About line key rest
      · obtain ⟨b, m, a, e, h1, h2⟩ := ih hls
        exact ⟨l :: b, m, a, by rw [e, List.cons_append], h1, h2⟩
      · obtain ⟨m, hm, hr⟩ := hx
        rcases List.mem_cons.1 hm with rfl | hm
        · exact ⟨[], m, ls, rfl, hr, fun y hy rest hrest => hls ⟨y, hy, rest, hrest⟩⟩
        · exact absurd ⟨m, hm, hr⟩ hls
  cases hg : getitem data key with
  | ok x =>
    obtain ⟨b, m, a, e1, ⟨r, h1, _⟩, _⟩ := (C162_value space float lines data h key x).1 hg
    simp only [reduceCtorEq, false_iff, not_and]
    intro _ hc
    exact hc m (by simp [e1]) r h1
  | error e' =>
    have he : e' = .keyError := by
      unfold getitem at hg
      cases hd : data key <;> simp [hd] at hg
      exact hg.symm
    subst he
    simp only [Except.error.injEq]
    constructor
    · rintro rfl
      refine ⟨rfl, ?_⟩
      by_contra hc
      push Not at hc
      obtain ⟨b, m, a, e1, ⟨r, h1⟩, h2⟩ := last hc
      have : ∃ x, Number space float r x := by
        by_contra hx
        push Not at hx
        exact hne ⟨m, by simp [e1], key, r, h1, hx⟩
      obtain ⟨x, hx⟩ := this
      have := (C162_value space float lines data h key x).2 ⟨b, m, a, e1, ⟨r, h1, hx⟩, h2⟩
      rw [hg] at this
      cases this
    · exact fun h => h.1.symm

/-- A file with two quantities, one of them twice, and a line about nothing. -/
example : ∃ data : Data ℕ, construct (· = ' ') (fun s => some s.length)
      ["Weissenberg number: 12".toList, "some text".toList, "dumbbell equilibrium length:  1.5 ".toList,
        "the Weissenberg number: 100.5".toList] = .ok data ∧
    getitem data "weissenbergNumber".toList = .ok 5 ∧ getitem data "dumbbellEquilibriumLength".toList = .ok 3 ∧
    getitem data "lagrangianMultiplierRatio".toList = .error .keyError :=
  ⟨_, rfl, rfl, rfl, rfl⟩

/-- A line without a number. -/
example : construct (· = ' ') (fun s => if s = [] then none else some s.length) ["Weissenberg number: ".toList] =
    .error .valueError := rfl

end OpenMPCD.Analysis.StaticData
