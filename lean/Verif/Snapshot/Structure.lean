import Mathlib.Data.List.Basic
import Mathlib.Data.List.Induction
import Mathlib.Tactic.Linarith
import Mathlib.Tactic.Tauto
import Mathlib.Data.Prod.Lex
import Mathlib.Order.Basic

/-!
# Snapshot files: atoms and bonds (C26, C27)
-/

set_option linter.unusedSimpArgs false

namespace OpenMPCD.Snapshot

abbrev Str := List Char

/-! ## Model -/

/-- `VTFSnapshotFile::AtomProperties` (`include/OpenMPCD/VTFSnapshotFile.hpp:55-60`). -/
structure AtomProps (FP : Type) where
  radius : Option FP := none
  name : Option Str := none
  type : Option Str := none
  deriving DecidableEq

/-- `VTFSnapshotFile::AtomRange` (`include/OpenMPCD/VTFSnapshotFile.hpp:349-358`). `std::size_t` is
represented by natural numbers. -/
structure AtomRange (FP : Type) where
  first : ℕ
  last : ℕ
  properties : AtomProps FP
  deriving DecidableEq

/-- The exceptions. -/
inductive Err
  | invalidCall | invalidArgument | outOfBounds | malformedFile | io | assertion | exception
  | badLexicalCast | unimplemented | nullPointer
  deriving DecidableEq

/-- The state of a `VTFSnapshotFile` without the file
(`include/OpenMPCD/VTFSnapshotFile.hpp:518-537`). The bonds, an `std::set`, are a list in increasing
order. -/
structure Snap (FP : Type) where
  writeMode : Bool
  structureBlockProcessed : Bool := false
  volume : Option (FP × FP × FP) := none
  defaultAtomProperties : AtomProps FP := {}
  atomRanges : List (AtomRange FP) := []
  bonds : List (ℕ × ℕ) := []
  deriving DecidableEq

variable {FP : Type}

/-- `getNumberOfAtoms` (`include/OpenMPCD/VTFSnapshotFile.hpp:199-205`). -/
def numberOfAtoms (ranges : List (AtomRange FP)) : ℕ :=
  match ranges.getLast? with
  | none => 0
  | some r => r.last + 1

/-- `getAtomProperties` (`src/OpenMPCD/VTFSnapshotFile.cpp:137-150`). -/
def getAtomProperties : List (AtomRange FP) → ℕ → Except Err (AtomProps FP)
  | [], _ => .error .outOfBounds
  | it :: rest, atomID => if atomID > it.last then getAtomProperties rest atomID else .ok it.properties

/-- The `while` loop and what follows in `setAtomRange` (`src/OpenMPCD/VTFSnapshotFile.cpp:665-688`), in
builds without `OPENMPCD_DEBUG`. -/
def overwrite (range : AtomRange FP) : List (AtomRange FP) → List (AtomRange FP)
  | [] => [range]
  | it :: rest =>
    if range.last ≥ it.last then overwrite range rest
    else range :: { it with first := range.last + 1 } :: rest

/-- The `for` loop of `setAtomRange` (`src/OpenMPCD/VTFSnapshotFile.cpp:647-689`), in builds without
`OPENMPCD_DEBUG`; `none`: no return from within the loop. -/
def setLoop (range : AtomRange FP) : List (AtomRange FP) → Option (List (AtomRange FP))
  | [] => none
  | it :: rest =>
    if range.first > it.last then (setLoop range rest).map (it :: ·)
    else if range.first > it.first then
      some ({ it with last := range.first - 1 } :: overwrite range ({ it with first := range.first } :: rest))
    else some (overwrite range (it :: rest))

/-- `setAtomRange` (`src/OpenMPCD/VTFSnapshotFile.cpp:626-700`), in builds without `OPENMPCD_DEBUG`;
`dflt`: the default properties. If the list is empty, the range is inserted, and the loop is entered
nevertheless. -/
def setAtomRange (dflt : AtomProps FP) (ranges : List (AtomRange FP)) (range : AtomRange FP) :
    List (AtomRange FP) :=
  let ranges :=
    if ranges = [] then
      (if range.first ≠ 0 then [⟨0, range.first - 1, dflt⟩] else []) ++ [range]
    else ranges
  match setLoop range ranges with
  | some result => result
  | none =>
    let lastAtomID := numberOfAtoms ranges - 1
    (if lastAtomID + 1 < range.first then ranges ++ [⟨lastAtomID + 1, range.first - 1, dflt⟩] else ranges)
      ++ [range]

/-- The `while` loop of `setAtomRange` with its debug assertions
(`src/OpenMPCD/VTFSnapshotFile.cpp:665-688`): `none` if one fails. -/
def overwriteDebug (range : AtomRange FP) : List (AtomRange FP) → Option (List (AtomRange FP))
  | [] => some [range]
  | it :: rest =>
    if range.last ≥ it.last then overwriteDebug range rest
    else if ¬ range.first ≤ it.first then none
    else if ¬ range.last ≥ it.first then none
    else some (range :: { it with first := range.last + 1 } :: rest)

/-- `setAtomRange` in builds with `OPENMPCD_DEBUG`, for a non-empty list whose range to be changed comes
first (`src/OpenMPCD/VTFSnapshotFile.cpp:647-689`). -/
def setAtomRangeDebugHead (range it : AtomRange FP) (rest : List (AtomRange FP)) :
    Option (List (AtomRange FP)) :=
  if ¬ range.first ≥ it.first then none
  else if range.first > it.first then
    (overwriteDebug range ({ it with first := range.first } :: rest)).map
      ({ it with last := range.first - 1 } :: ·)
  else overwriteDebug range (it :: rest)

/-- `assertWriteMode` and `assertStructureBlockNotProcessed`
(`src/OpenMPCD/VTFSnapshotFile.cpp:333-355`). -/
def checkWritable (s : Snap FP) : Except Err Unit :=
  if ¬ s.writeMode then .error .invalidCall
  else if s.structureBlockProcessed then .error .invalidCall
  else .ok ()

/-- `setPrimarySimulationVolumeSize` (`src/OpenMPCD/VTFSnapshotFile.cpp:65-76`). -/
def setVolume (s : Snap FP) (v : FP × FP × FP) : Snap FP × Except Err Unit :=
  match checkWritable s with
  | .error e => (s, .error e)
  | .ok () => ({ s with volume := some v }, .ok ())

open Classical in
/-- `declareAtoms` (`src/OpenMPCD/VTFSnapshotFile.cpp:97-135`). Both variants: that with one parameter
(lines 78-95) behaves like the other one with the default values -1 and "" for the others. The radius
is `none` for the value -1, and `negative` tells whether the radius is negative and not -1. -/
noncomputable def declareAtoms (negative : FP → Prop) (s : Snap FP) (count : ℕ) (radius : Option FP)
    (name type : Str) : Snap FP × Except Err (ℕ × ℕ) :=
  match checkWritable s with
  | .error e => (s, .error e)
  | .ok () =>
    if count = 0 then (s, .ok (0, 0))
    else if ∃ r, radius = some r ∧ negative r then (s, .error .invalidArgument)
    else if name.length > 16 then (s, .error .invalidArgument)
    else if type.length > 16 then (s, .error .invalidArgument)
    else
      let first := numberOfAtoms s.atomRanges
      let last := first + count - 1
      let properties := s.defaultAtomProperties
      let properties := match radius with
        | some r => { properties with radius := some r }
        | none => properties
      let properties := if name ≠ [] then { properties with name := some name } else properties
      let properties := if type ≠ [] then { properties with type := some type } else properties
      ({ s with atomRanges := s.atomRanges ++ [⟨first, last, properties⟩] }, .ok (first, last))

/-- Order of pairs in `std::set` (`std::less` of `std::pair`). -/
def pairLt (p q : ℕ × ℕ) : Bool := p.1 < q.1 || (p.1 = q.1 && p.2 < q.2)

/-- `std::set::insert` of an element not contained. -/
def setInsert (b : ℕ × ℕ) : List (ℕ × ℕ) → List (ℕ × ℕ)
  | [] => [b]
  | c :: rest => if pairLt b c then b :: c :: rest else c :: setInsert b rest

/-- `declareBond` (`src/OpenMPCD/VTFSnapshotFile.cpp:152-172`). -/
def declareBond (s : Snap FP) (atom1 atom2 : ℕ) : Snap FP × Except Err Unit :=
  match checkWritable s with
  | .error e => (s, .error e)
  | .ok () =>
    if ¬ atom1 < numberOfAtoms s.atomRanges ∨ ¬ atom2 < numberOfAtoms s.atomRanges then
      (s, .error .outOfBounds)
    else if atom1 = atom2 then (s, .error .invalidArgument)
    else
      let bond := if atom2 < atom1 then (atom2, atom1) else (atom1, atom2)
      if bond ∈ s.bonds then (s, .error .invalidArgument)
      else ({ s with bonds := setInsert bond s.bonds }, .ok ())

/-- `hasBond` (`src/OpenMPCD/VTFSnapshotFile.cpp:174-188`). -/
def hasBond (s : Snap FP) (atom1 atom2 : ℕ) : Except Err Bool :=
  if ¬ atom1 < numberOfAtoms s.atomRanges ∨ ¬ atom2 < numberOfAtoms s.atomRanges then
    .error .outOfBounds
  else if atom1 = atom2 then .error .invalidArgument
  else
    let bond := if atom2 < atom1 then (atom2, atom1) else (atom1, atom2)
    .ok (decide (bond ∈ s.bonds))

/-! ## C26 -/

/-- The list of ranges is sorted and without gaps, starting with the given atom. -/
def Contiguous : ℕ → List (AtomRange FP) → Prop
  | _, [] => True
  | n, r :: rest => r.first = n ∧ r.first ≤ r.last ∧ Contiguous (r.last + 1) rest

/-- The properties of an atom, if the list is contiguous from `n`. -/
def lookup : List (AtomRange FP) → ℕ → Option (AtomProps FP)
  | [], _ => none
  | r :: rest, i => if i ≤ r.last then some r.properties else lookup rest i

/-- The number of atoms. -/
def ending : ℕ → List (AtomRange FP) → ℕ
  | n, [] => n
  | _, r :: rest => ending (r.last + 1) rest

theorem ending_append (n : ℕ) (l : List (AtomRange FP)) (r : AtomRange FP) :
    ending n (l ++ [r]) = r.last + 1 := by
  induction l generalizing n with
  | nil => rfl
  | cons a l ih => exact ih _

theorem numberOfAtoms_eq (l : List (AtomRange FP)) : numberOfAtoms l = ending 0 l := by
  rcases List.eq_nil_or_concat l with rfl | ⟨l', r, rfl⟩
  · rfl
  · unfold numberOfAtoms
    simp only [List.concat_eq_append, List.getLast?_append, List.getLast?_singleton, Option.some_or]
    rw [ending_append]

theorem contiguous_ending {n : ℕ} {l : List (AtomRange FP)} (h : Contiguous n l) : n ≤ ending n l := by
  induction l generalizing n with
  | nil => exact le_refl _
  | cons a l ih =>
    have := ih h.2.2
    have := h.1
    have := h.2.1
    simp only [ending]
    omega

theorem contiguous_append {n : ℕ} {l : List (AtomRange FP)} (h : Contiguous n l) {r : AtomRange FP}
    (hf : r.first = ending n l) (hr : r.first ≤ r.last) : Contiguous n (l ++ [r]) := by
  induction l generalizing n with
  | nil => exact ⟨hf, hr, trivial⟩
  | cons a l ih => exact ⟨h.1, h.2.1, ih h.2.2 hf⟩

theorem getAtomProperties_eq (l : List (AtomRange FP)) (i : ℕ) :
    getAtomProperties l i = match lookup l i with
      | some p => .ok p
      | none => .error .outOfBounds := by
  induction l with
  | nil => rfl
  | cons r l ih =>
    simp only [getAtomProperties, lookup]
    by_cases h : i ≤ r.last
    · rw [if_neg (by omega), if_pos h]
    · rw [if_pos (by omega), if_neg h, ih]

theorem lookup_lt {n : ℕ} {l : List (AtomRange FP)} (h : Contiguous n l) (i : ℕ) :
    (lookup l i = none ↔ (ending n l ≤ i ∨ l = [])) := by
  induction l generalizing n with
  | nil => simp [lookup]
  | cons r l ih =>
    have := contiguous_ending h.2.2
    simp only [lookup, ending]
    by_cases hi : i ≤ r.last
    · rw [if_pos hi]
      simp
      omega
    · rw [if_neg hi, ih h.2.2]
      constructor
      · rintro (h1 | rfl)
        · exact Or.inl h1
        · left; simp only [ending]; omega
      · rintro (h1 | h1)
        · exact Or.inl h1
        · cases h1

theorem lookup_append {n : ℕ} {l : List (AtomRange FP)} (h : Contiguous n l) (r : AtomRange FP)
    (hf : r.first = ending n l) (i : ℕ) :
    lookup (l ++ [r]) i = if i < r.first ∧ l ≠ [] then lookup l i
      else if i ≤ r.last then some r.properties else none := by
  induction l generalizing n with
  | nil => simp [lookup]
  | cons a l ih =>
    have := contiguous_ending h.2.2
    simp only [List.cons_append, lookup]
    simp only [ending] at hf
    by_cases hi : i ≤ a.last
    · rw [if_pos hi, if_pos ⟨by omega, by simp⟩, if_pos hi]
    · rw [if_neg hi, ih h.2.2 hf, if_neg hi]
      by_cases hl : l = []
      · subst hl
        simp only [ending] at hf
        have : ¬ i < r.first := by omega
        simp [this]
      · simp [hl]

/-- Overwriting the start of a contiguous list with a range. -/
theorem overwrite_spec (range : AtomRange FP) (hr : range.first ≤ range.last) :
    ∀ (n : ℕ) (l : List (AtomRange FP)), Contiguous n l → range.first ≤ n → n ≤ range.last + 1 →
      Contiguous range.first (overwrite range l) ∧
      ending range.first (overwrite range l) = max (range.last + 1) (ending n l) ∧
      ∀ i, n ≤ i ∨ i ≤ range.last → lookup (overwrite range l) i =
        if i ≤ range.last then some range.properties else lookup l i := by
  intro n l
  induction l generalizing n with
  | nil =>
    intro _ _ hn
    refine ⟨⟨rfl, hr, trivial⟩, ?_, ?_⟩
    · simp only [overwrite, ending]; omega
    · intro i _; simp [overwrite, lookup]
  | cons a l ih =>
    intro h h1 h2
    have hend := contiguous_ending h.2.2
    have hfirst := h.1
    simp only [overwrite]
    by_cases hc : range.last ≥ a.last
    · rw [if_pos hc]
      obtain ⟨g1, g2, g3⟩ := ih (a.last + 1) h.2.2 (by have := h.2.1; omega) (by omega)
      refine ⟨g1, g2, ?_⟩
      intro i hi
      by_cases hil : i ≤ range.last
      · rw [g3 i (Or.inr hil), if_pos hil, if_pos hil]
      · rw [g3 i (Or.inl (by omega)), if_neg hil, if_neg hil, lookup, if_neg (by omega)]
    · rw [if_neg hc]
      refine ⟨⟨rfl, hr, rfl, by simp only; omega, h.2.2⟩, ?_, ?_⟩
      · simp only [ending]; omega
      · intro i hi
        simp only [lookup]

theorem setLoop_spec (range : AtomRange FP) (hr : range.first ≤ range.last) :
    ∀ (n : ℕ) (l : List (AtomRange FP)), Contiguous n l → n ≤ range.first →
      (∀ l', setLoop range l = some l' → range.first < ending n l ∧ Contiguous n l' ∧
        ending n l' = max (range.last + 1) (ending n l) ∧
        ∀ i, n ≤ i → lookup l' i =
          if range.first ≤ i ∧ i ≤ range.last then some range.properties else lookup l i) ∧
      (setLoop range l = none → ending n l ≤ range.first) := by
  intro n l
  induction l generalizing n with
  | nil =>
    intro _ hn
    refine ⟨?_, fun _ => hn⟩
    intro l' h; cases h
  | cons a l ih =>
    intro h hn
    have hend := contiguous_ending h.2.2
    have hfirst := h.1
    have hal := h.2.1
    simp only [setLoop]
    by_cases hc : range.first > a.last
    · rw [if_pos hc]
      obtain ⟨g1, g2⟩ := ih (a.last + 1) h.2.2 (by omega)
      refine ⟨?_, ?_⟩
      · intro l' hl'
        obtain ⟨l'', hl'', rfl⟩ := Option.map_eq_some_iff.1 hl'
        obtain ⟨k0, k1, k2, k3⟩ := g1 l'' hl''
        refine ⟨k0, ⟨h.1, h.2.1, k1⟩, k2, ?_⟩
        intro i hi
        simp only [lookup]
        by_cases hia : i ≤ a.last
        · rw [if_pos hia, if_pos hia, if_neg (by omega)]
        · rw [if_neg hia, if_neg hia, k3 i (by omega)]
      · intro hnone
        exact g2 (by simpa using hnone)
    · rw [if_neg hc]
      by_cases hc2 : range.first > a.first
      · rw [if_pos hc2]
        refine ⟨?_, by intro h; cases h⟩
        intro l' hl'
        have hl' := (Option.some.inj hl').symm
        have hcont : Contiguous range.first ({ a with first := range.first } :: l) :=
          ⟨rfl, by simp only; omega, h.2.2⟩
        obtain ⟨g1, g2, g3⟩ := overwrite_spec range hr range.first _ hcont (le_refl _) (by omega)
        have e : range.first - 1 + 1 = range.first := by omega
        subst hl'
        refine ⟨by simp only [ending]; omega, ⟨h.1, by simp only; omega, by simp only [e]; exact g1⟩, ?_, ?_⟩
        · simp only [ending, e] at g2 ⊢
          exact g2
        · intro i hi
          simp only [lookup]
          by_cases hi1 : i ≤ range.first - 1
          · rw [if_pos hi1, if_neg (by omega), if_pos (by omega)]
          · rw [if_neg hi1, g3 i (Or.inl (by omega))]
            simp only [lookup]
            have : range.first ≤ i := by omega
            simp [this]
      · rw [if_neg hc2]
        refine ⟨?_, by intro h; cases h⟩
        intro l' hl'
        have hl' := (Option.some.inj hl').symm
        have ef : range.first = n := by omega
        obtain ⟨g1, g2, g3⟩ := overwrite_spec range hr n _ h (by omega) (by omega)
        subst hl'
        rw [ef] at g1 g2
        refine ⟨by simp only [ending]; omega, g1, g2, ?_⟩
        intro i hi
        rw [g3 i (Or.inl hi)]
        have : range.first ≤ i := by omega
        simp [this]

/-- C26, one declaration: atoms covered get the properties of the declaration, other atoms keep theirs,
atoms of a gap before the range get the default properties. -/
theorem C26_step (dflt : AtomProps FP) (ranges : List (AtomRange FP)) (range : AtomRange FP)
    (h : Contiguous 0 ranges) (hr : range.first ≤ range.last) :
    Contiguous 0 (setAtomRange dflt ranges range) ∧
    numberOfAtoms (setAtomRange dflt ranges range) = max (numberOfAtoms ranges) (range.last + 1) ∧
    ∀ i, lookup (setAtomRange dflt ranges range) i =
      if range.first ≤ i ∧ i ≤ range.last then some range.properties
      else if i < numberOfAtoms ranges then lookup ranges i
      else if i < range.first then some dflt
      else none := by
  simp only [numberOfAtoms_eq]
  by_cases hnil : ranges = []
  · subst hnil
    simp only [setAtomRange, if_true]
    have hinit : Contiguous 0 ((if range.first ≠ 0 then [(⟨0, range.first - 1, dflt⟩ : AtomRange FP)] else [])
        ++ [range]) ∧ ending 0 ((if range.first ≠ 0 then [(⟨0, range.first - 1, dflt⟩ : AtomRange FP)] else [])
        ++ [range]) = range.last + 1 ∧
        ∀ i, lookup ((if range.first ≠ 0 then [(⟨0, range.first - 1, dflt⟩ : AtomRange FP)] else [])
        ++ [range]) i = if range.first ≤ i ∧ i ≤ range.last then some range.properties
          else if i < range.first then some dflt else none := by
      refine ⟨?_, ending_append _ _ _, ?_⟩
      · by_cases h0 : range.first = 0
        · simp [h0, Contiguous]
        · simp only [ne_eq, h0, not_false_eq_true, if_true, List.singleton_append]
          exact ⟨rfl, Nat.zero_le _, by simp only; omega, hr, trivial⟩
      · intro i
        by_cases h0 : range.first = 0
        · simp [h0, lookup]
        · simp only [ne_eq, h0, not_false_eq_true, if_true, List.singleton_append, lookup]
          by_cases h1 : i ≤ range.first - 1
          · rw [if_pos h1, if_neg (by omega), if_pos (by omega)]
          · rw [if_neg h1]
            by_cases h2 : i ≤ range.last
            · rw [if_pos h2, if_pos ⟨by omega, h2⟩]
            · rw [if_neg h2, if_neg (by omega), if_neg (by omega)]
    revert hinit
    generalize ((if range.first ≠ 0 then [(⟨0, range.first - 1, dflt⟩ : AtomRange FP)] else []) ++ [range]) = l
    rintro ⟨k1, k2, k3⟩
    obtain ⟨g1, g2⟩ := setLoop_spec range hr 0 l k1 (Nat.zero_le _)
    rcases hl : setLoop range l with _ | l'
    · have := g2 hl
      omega
    · obtain ⟨-, m1, m2, m3⟩ := g1 l' hl
      refine ⟨m1, ?_, ?_⟩
      · simp only [m2, k2, ending]; omega
      · intro i
        simp only
        rw [m3 i (Nat.zero_le _), k3 i]
        simp only [ending, Nat.not_lt_zero, if_false]
        split <;> rfl
  · simp only [setAtomRange, hnil, if_false]
    obtain ⟨g1, g2⟩ := setLoop_spec range hr 0 ranges h (Nat.zero_le _)
    have hpos : 0 < ending 0 ranges := by
      cases ranges with
      | nil => exact absurd rfl hnil
      | cons a l => have := contiguous_ending h.2.2; simp only [ending]; omega
    rcases hl : setLoop range ranges with _ | l'
    · have hle := g2 hl
      simp only [numberOfAtoms_eq]
      have e : ending 0 ranges - 1 + 1 = ending 0 ranges := by omega
      rw [e]
      by_cases hgap : ending 0 ranges < range.first
      · rw [if_pos hgap]
        have hc1 : Contiguous 0 (ranges ++ [(⟨ending 0 ranges, range.first - 1, dflt⟩ : AtomRange FP)]) :=
          contiguous_append h rfl (by simp only; omega)
        have he1 : ending 0 (ranges ++ [(⟨ending 0 ranges, range.first - 1, dflt⟩ : AtomRange FP)]) =
            range.first := by rw [ending_append]; simp only; omega
        refine ⟨contiguous_append hc1 he1.symm hr, ?_, ?_⟩
        · rw [ending_append]; omega
        · intro i
          rw [lookup_append hc1 range he1.symm, lookup_append h _ rfl]
          by_cases h1 : i < range.first
          · simp only [h1, hnil, ne_eq, List.append_eq_nil_iff, List.cons_ne_self, and_false,
              not_false_eq_true, and_true, if_true, List.cons_ne_nil, reduceCtorEq]
            have hn : ¬ (range.first ≤ i ∧ i ≤ range.last) := by omega
            rw [if_neg hn]
            by_cases h2 : i < ending 0 ranges
            · rw [if_pos h2, if_pos h2]
            · rw [if_neg h2, if_neg h2, if_pos (show i ≤ range.first - 1 by omega)]
          · simp only [h1, false_and, if_false]
            by_cases h2 : i ≤ range.last
            · rw [if_pos h2, if_pos ⟨by omega, h2⟩]
            · rw [if_neg h2, if_neg (by omega), if_neg (by omega)]
      · rw [if_neg hgap]
        have hfe : range.first = ending 0 ranges := by omega
        refine ⟨contiguous_append h hfe hr, ?_, ?_⟩
        · rw [ending_append]; omega
        · intro i
          rw [lookup_append h range hfe]
          by_cases h1 : i < range.first
          · simp only [h1, hnil, ne_eq, not_false_eq_true, and_true, if_true]
            rw [if_neg (by omega), if_pos (by omega)]
          · simp only [h1, false_and, if_false]
            by_cases h2 : i ≤ range.last
            · rw [if_pos h2, if_pos ⟨by omega, h2⟩]
            · rw [if_neg h2, if_neg (by omega), if_neg (by omega)]
    · obtain ⟨m0, m1, m2, m3⟩ := g1 l' hl
      refine ⟨m1, ?_, ?_⟩
      · simp only [m2]; omega
      · intro i
        simp only
        rw [m3 i (Nat.zero_le _)]
        by_cases h1 : range.first ≤ i ∧ i ≤ range.last
        · rw [if_pos h1, if_pos h1]
        · rw [if_neg h1, if_neg h1]
          by_cases h2 : i < ending 0 ranges
          · rw [if_pos h2]
          · rw [if_neg h2, if_neg (by omega)]
            exact (lookup_lt h i).2 (Or.inl (by omega))

/-- C26 (builds without `OPENMPCD_DEBUG`): after any sequence of range declarations, the atoms are
`0` to the largest declared ID, every atom has the properties of the last declaration covering it,
or the default properties if there is none. -/
theorem C26_declarations (dflt : AtomProps FP) (decls : List (AtomRange FP))
    (hd : ∀ r ∈ decls, r.first ≤ r.last) :
    let ranges := decls.foldl (setAtomRange dflt) []
    Contiguous 0 ranges ∧
    (∀ i, i < numberOfAtoms ranges ↔ ∃ r ∈ decls, i ≤ r.last) ∧
    (∀ i, i < numberOfAtoms ranges → getAtomProperties ranges i =
      .ok ((decls.reverse.find? fun r => r.first ≤ i ∧ i ≤ r.last).elim dflt AtomRange.properties)) ∧
    ∀ i, ¬ i < numberOfAtoms ranges → getAtomProperties ranges i = .error .outOfBounds := by
  have key : Contiguous 0 (decls.foldl (setAtomRange dflt) []) ∧
      (∀ i, i < numberOfAtoms (decls.foldl (setAtomRange dflt) []) ↔ ∃ r ∈ decls, i ≤ r.last) ∧
      ∀ i, lookup (decls.foldl (setAtomRange dflt) []) i =
        if i < numberOfAtoms (decls.foldl (setAtomRange dflt) []) then
          some ((decls.reverse.find? fun r => r.first ≤ i ∧ i ≤ r.last).elim dflt AtomRange.properties)
        else none := by
    induction decls using List.reverseRecOn with
    | nil =>
      refine ⟨trivial, ?_, ?_⟩
      · intro i; simp [numberOfAtoms]
      · intro i; simp [numberOfAtoms, lookup]
    | append_singleton l r ih =>
      obtain ⟨k1, k2, k3⟩ := ih fun r hr => hd r (List.mem_append_left _ hr)
      have hr := hd r (by simp)
      have e : (l ++ [r]).foldl (setAtomRange dflt) [] =
          setAtomRange dflt (l.foldl (setAtomRange dflt) []) r := by
        rw [List.foldl_append]; rfl
      rw [e]
      obtain ⟨g1, g2, g3⟩ := C26_step dflt _ r k1 hr
      refine ⟨g1, ?_, ?_⟩
      · intro i
        rw [g2, lt_max_iff, k2]
        constructor
        · rintro (⟨q, hq, hi⟩ | hi)
          · exact ⟨q, List.mem_append_left _ hq, hi⟩
          · exact ⟨r, by simp, by omega⟩
        · rintro ⟨q, hq, hi⟩
          rcases List.mem_append.1 hq with hq | hq
          · exact Or.inl ⟨q, hq, hi⟩
          · rw [List.mem_singleton] at hq
            subst hq
            exact Or.inr (by omega)
      · intro i
        rw [g3, g2, List.reverse_append]
        simp only [List.reverse_cons, List.reverse_nil, List.nil_append, List.cons_append,
          List.find?_cons]
        by_cases h1 : r.first ≤ i ∧ i ≤ r.last
        · rw [if_pos h1, if_pos (by omega)]
          simp [h1]
        · rw [if_neg h1]
          simp only [h1, decide_false]
          by_cases h2 : i < numberOfAtoms (l.foldl (setAtomRange dflt) [])
          · rw [if_pos h2, if_pos (by omega), k3 i, if_pos h2]
          · rw [if_neg h2]
            by_cases h3 : i < r.first
            · rw [if_pos h3, if_pos (by omega)]
              have hnone : (l.reverse.find? fun r => decide (r.first ≤ i ∧ i ≤ r.last)) = none := by
                rw [List.find?_eq_none]
                intro q hq
                have hni : ¬ ∃ r ∈ l, i ≤ r.last := fun h => h2 ((k2 i).2 h)
                have : ¬ i ≤ q.last := fun h => hni ⟨q, List.mem_reverse.1 hq, h⟩
                simp [this]
              rw [hnone]
              rfl
            · rw [if_neg h3, if_neg (by omega)]
  obtain ⟨k1, k2, k3⟩ := key
  refine ⟨k1, k2, ?_, ?_⟩
  · intro i hi
    rw [getAtomProperties_eq, k3, if_pos hi]
  · intro i hi
    rw [getAtomProperties_eq, k3, if_neg hi]

/-- C26, declarations in write mode: a declared range follows the atoms there are, whose properties do
not change; the returned IDs are those of the range. -/
theorem C26_declareAtoms (negative : FP → Prop) (s : Snap FP) (h : Contiguous 0 s.atomRanges)
    (hw : s.writeMode = true) (hp : s.structureBlockProcessed = false) (count : ℕ) (hc : count ≠ 0)
    (radius : Option FP) (hr : ∀ r, radius = some r → ¬ negative r) (name type : Str)
    (hn : name.length ≤ 16) (ht : type.length ≤ 16) :
    ∃ s' props, declareAtoms negative s count radius name type =
        (s', .ok (numberOfAtoms s.atomRanges, numberOfAtoms s.atomRanges + count - 1)) ∧
      props.radius = radius.or s.defaultAtomProperties.radius ∧
      props.name = (if name = [] then s.defaultAtomProperties.name else some name) ∧
      props.type = (if type = [] then s.defaultAtomProperties.type else some type) ∧
      Contiguous 0 s'.atomRanges ∧
      numberOfAtoms s'.atomRanges = numberOfAtoms s.atomRanges + count ∧
      s'.bonds = s.bonds ∧ s'.writeMode = s.writeMode ∧
      s'.structureBlockProcessed = s.structureBlockProcessed ∧
      s'.defaultAtomProperties = s.defaultAtomProperties ∧ s'.volume = s.volume ∧
      s'.atomRanges = s.atomRanges ++ [⟨numberOfAtoms s.atomRanges,
        numberOfAtoms s.atomRanges + count - 1, props⟩] ∧
      ∀ i, lookup s'.atomRanges i = if i < numberOfAtoms s.atomRanges then lookup s.atomRanges i
        else if i < numberOfAtoms s.atomRanges + count then some props else none := by
  unfold declareAtoms
  have hchk : checkWritable s = .ok () := by simp [checkWritable, hw, hp]
  simp only [hchk]
  rw [if_neg hc, if_neg (by rintro ⟨r, h1, h2⟩; exact hr r h1 h2), if_neg (by omega), if_neg (by omega)]
  refine ⟨_, _, rfl, ?_, ?_, ?_, ?_, ?_, rfl, rfl, rfl, rfl, rfl, rfl, ?_⟩
  · by_cases h1 : name = [] <;> by_cases h2 : type = [] <;> cases radius <;> simp [h1, h2]
  · by_cases h1 : name = [] <;> by_cases h2 : type = [] <;> cases radius <;> simp [h1, h2]
  · by_cases h1 : name = [] <;> by_cases h2 : type = [] <;> cases radius <;> simp [h1, h2]
  · exact contiguous_append h (numberOfAtoms_eq _) (by simp only; omega)
  · rw [numberOfAtoms_eq, ending_append]; simp only; omega
  · intro i
    rw [lookup_append h _ (numberOfAtoms_eq _)]
    by_cases h1 : i < numberOfAtoms s.atomRanges
    · have hnil : s.atomRanges ≠ [] := by
        intro h2
        rw [h2] at h1
        simp [numberOfAtoms] at h1
      simp only [h1, hnil, ne_eq, not_false_eq_true, and_self, if_true]
    · simp only [h1, false_and, if_false]
      by_cases h2 : i < numberOfAtoms s.atomRanges + count
      · rw [if_pos (by omega), if_pos h2]
      · rw [if_neg (by omega), if_neg h2]

/-- C26 does not hold in builds with `OPENMPCD_DEBUG`: declaring a range again that is followed by
another one fails an assertion. -/
theorem C26_debug_violated : ∃ (range it : AtomRange ℕ) (rest : List (AtomRange ℕ)),
    range.first ≤ range.last ∧ Contiguous 0 (it :: rest) ∧ range.first = it.first ∧
    setAtomRangeDebugHead range it rest = none :=
  ⟨⟨0, 1, {}⟩, ⟨0, 1, {}⟩, [⟨2, 3, {}⟩], by decide, ⟨rfl, by decide, rfl, by decide, trivial⟩, rfl,
    by decide⟩

/-- A nested declaration splits a range, a later one leaves a gap. -/
example : [(⟨0, 9, { radius := some 1 }⟩ : AtomRange ℕ), ⟨3, 4, { radius := some 2 }⟩,
      ⟨12, 12, { radius := some 3 }⟩].foldl (setAtomRange {}) [] =
    [⟨0, 2, { radius := some 1 }⟩, ⟨3, 4, { radius := some 2 }⟩, ⟨5, 9, { radius := some 1 }⟩,
      ⟨10, 11, {}⟩, ⟨12, 12, { radius := some 3 }⟩] := by decide

/-! ## C27 -/

theorem mem_setInsert (b c : ℕ × ℕ) (l : List (ℕ × ℕ)) : c ∈ setInsert b l ↔ c = b ∨ c ∈ l := by
  induction l with
  | nil => simp [setInsert]
  | cons a l ih =>
    simp only [setInsert]
    split
    · simp
    · simp only [List.mem_cons, ih]
      tauto

/-- The bonds are between different, declared atoms, and in increasing order. -/
def BondsOK (s : Snap FP) : Prop :=
  (∀ b ∈ s.bonds, b.1 < b.2 ∧ b.2 < numberOfAtoms s.atomRanges) ∧
  s.bonds.Pairwise fun p q => pairLt p q = true

theorem pairLt_trans {p q r : ℕ × ℕ} (h1 : pairLt p q = true) (h2 : pairLt q r = true) :
    pairLt p r = true := by
  simp [pairLt] at *
  omega

theorem pairLt_total {p q : ℕ × ℕ} (h : pairLt p q ≠ true) (hne : p ≠ q) : pairLt q p = true := by
  have hne' : ¬ (p.1 = q.1 ∧ p.2 = q.2) := fun h => hne (Prod.ext h.1 h.2)
  simp [pairLt] at *
  omega

theorem sorted_setInsert (b : ℕ × ℕ) (l : List (ℕ × ℕ)) (hl : l.Pairwise fun p q => pairLt p q = true)
    (hb : b ∉ l) : (setInsert b l).Pairwise fun p q => pairLt p q = true := by
  induction l with
  | nil => simp [setInsert]
  | cons a l ih =>
    simp only [setInsert]
    rw [List.pairwise_cons] at hl
    split
    · rename_i h
      refine List.pairwise_cons.2 ⟨?_, List.pairwise_cons.2 hl⟩
      intro c hc
      rcases List.mem_cons.1 hc with rfl | hc
      · exact h
      · exact pairLt_trans h (hl.1 c hc)
    · rename_i h
      refine List.pairwise_cons.2 ⟨?_, ih hl.2 fun h => hb (List.mem_cons_of_mem _ h)⟩
      intro c hc
      rcases (mem_setInsert b c l).1 hc with rfl | hc
      · exact pairLt_total h fun h => hb (h ▸ List.mem_cons_self)
      · exact hl.1 c hc

/-- C27: `declareBond` adds exactly the given bond, or, if it is invalid, reports an error and changes
nothing. -/
theorem C27_declareBond (s : Snap FP) (hok : BondsOK s) (a b : ℕ) :
    ((declareBond s a b).2 = .ok () ↔
      s.writeMode = true ∧ s.structureBlockProcessed = false ∧
      a < numberOfAtoms s.atomRanges ∧ b < numberOfAtoms s.atomRanges ∧ a ≠ b ∧
      hasBond s a b = .ok false) ∧
    ((declareBond s a b).2 ≠ .ok () → (declareBond s a b).1 = s) ∧
    BondsOK (declareBond s a b).1 ∧
    (declareBond s a b).1.atomRanges = s.atomRanges ∧
    ((declareBond s a b).2 = .ok () → ∀ c d, c < numberOfAtoms s.atomRanges →
      d < numberOfAtoms s.atomRanges → c ≠ d →
      (hasBond (declareBond s a b).1 c d = .ok true ↔
        hasBond s c d = .ok true ∨ (c = a ∧ d = b) ∨ (c = b ∧ d = a))) := by
  unfold declareBond checkWritable
  by_cases hw : s.writeMode = true
  · by_cases hp : s.structureBlockProcessed = true
    · simp [hw, hp, hok]
    · simp only [hw, hp, not_true_eq_false, if_false, Bool.false_eq_true]
      by_cases hv : ¬ a < numberOfAtoms s.atomRanges ∨ ¬ b < numberOfAtoms s.atomRanges
      · simp only [if_pos hv]
        refine ⟨?_, by intros; trivial, hok, by trivial, by intro h; cases h⟩
        constructor
        · intro h; cases h
        · rintro ⟨-, -, h1, h2, -⟩; rcases hv with h | h <;> contradiction
      · simp only [if_neg hv]
        by_cases hab : a = b
        · simp [hab, hok]
        · simp only [if_neg hab]
          have hhas : ∀ t : Snap FP, t.atomRanges = s.atomRanges →
              ∀ c d, c < numberOfAtoms s.atomRanges → d < numberOfAtoms s.atomRanges → c ≠ d →
              hasBond t c d = .ok (decide ((if d < c then (d, c) else (c, d)) ∈ t.bonds)) := by
            intro t ht c d hc hd hcd
            unfold hasBond
            rw [ht, if_neg (by omega), if_neg hcd]
          have ha : a < numberOfAtoms s.atomRanges := by omega
          have hb : b < numberOfAtoms s.atomRanges := by omega
          rw [hhas s rfl a b ha hb hab]
          set bond := (if b < a then (b, a) else (a, b)) with hbond
          by_cases hmem : bond ∈ s.bonds
          · simp [hmem, hok]
          · simp only [if_neg hmem]
            refine ⟨by simp [ha, hb, hab, hmem, hp], by simp, ?_, by trivial, ?_⟩
            · refine ⟨?_, sorted_setInsert _ _ hok.2 hmem⟩
              intro c hc
              rcases (mem_setInsert _ _ _).1 hc with rfl | hc
              · rw [hbond]; split <;> simp <;> omega
              · exact hok.1 c hc
            · intro _ c d hc hd hcd
              rw [hhas s rfl c d hc hd hcd, hhas ⟨true, false, s.volume, s.defaultAtomProperties, s.atomRanges, setInsert bond s.bonds⟩ rfl c d hc hd hcd]
              simp only [Except.ok.injEq, decide_eq_true_eq, mem_setInsert, hbond]
              constructor
              · rintro (h | h)
                · right
                  split at h <;> split at h <;> simp [Prod.ext_iff] at h <;> omega
                · exact Or.inl h
              · rintro (h | ⟨rfl, rfl⟩ | ⟨rfl, rfl⟩)
                · exact Or.inr h
                · exact Or.inl rfl
                · left
                  split <;> split <;> simp [Prod.ext_iff] <;> omega
  · simp [hw, hok]

/-- C27: the order of the arguments of `hasBond` is irrelevant; invalid and equal atom IDs are
rejected. -/
theorem C27_hasBond (s : Snap FP) (a b : ℕ) :
    hasBond s a b = hasBond s b a ∧
    (a < numberOfAtoms s.atomRanges ∧ b < numberOfAtoms s.atomRanges ∧ a ≠ b ↔
      ∃ r, hasBond s a b = .ok r) := by
  unfold hasBond
  by_cases h1 : a < numberOfAtoms s.atomRanges
  · by_cases h2 : b < numberOfAtoms s.atomRanges
    · by_cases h3 : a = b
      · subst h3
        simp [h1]
      · have h4 : ¬ b = a := fun h => h3 h.symm
        simp only [h1, h2, h3, h4, not_true_eq_false, or_self, if_false, ne_eq, not_false_eq_true,
          and_self, Except.ok.injEq, exists_eq', true_and]
        rcases Nat.lt_or_gt_of_ne h3 with h | h
        · rw [if_neg (by omega), if_pos h]; simp
        · rw [if_pos h, if_neg (by omega)]; simp
    · simp [h1, h2]
  · simp [h1]

/-- A call of `declareBond`, and the state after a sequence of them. -/
def declareBonds (s : Snap FP) (calls : List (ℕ × ℕ)) : Snap FP :=
  calls.foldl (fun s c => (declareBond s c.1 c.2).1) s

theorem or_aux {X P Q M N : Prop} : ((X ∨ P ∨ Q) ∨ M ∨ N) ↔ (X ∨ (P ∨ M) ∨ (Q ∨ N)) := by tauto

theorem or_aux' {X P Q M N : Prop} (h : P ∨ Q → X) : (X ∨ M ∨ N) ↔ (X ∨ (P ∨ M) ∨ (Q ∨ N)) := by tauto

/-- C27: after any sequence of calls of `declareBond`, of which some may have failed, two atoms share a
bond exactly if it was there before, or a call named them in either order. -/
theorem C27_history (s : Snap FP) (hok : BondsOK s) (hw : s.writeMode = true)
    (hp : s.structureBlockProcessed = false) (calls : List (ℕ × ℕ)) (c d : ℕ)
    (hc : c < numberOfAtoms s.atomRanges) (hd : d < numberOfAtoms s.atomRanges) (hcd : c ≠ d) :
    BondsOK (declareBonds s calls) ∧
    (hasBond (declareBonds s calls) c d = .ok true ↔
      hasBond s c d = .ok true ∨ (c, d) ∈ calls ∨ (d, c) ∈ calls) := by
  have hw' : ∀ (t : Snap FP) (a b : ℕ), (declareBond t a b).1.writeMode = t.writeMode ∧
      (declareBond t a b).1.structureBlockProcessed = t.structureBlockProcessed := by
    intro t a b
    simp only [declareBond]
    repeat' split
    all_goals exact ⟨rfl, rfl⟩
  induction calls generalizing s with
  | nil => exact ⟨hok, by simp [declareBonds]⟩
  | cons call calls ih =>
    obtain ⟨a, b⟩ := call
    obtain ⟨k1, k2, k3, k4, k5⟩ := C27_declareBond s hok a b
    have := ih (declareBond s a b).1 k3 ((hw' s a b).1.trans hw) ((hw' s a b).2.trans hp)
      (k4 ▸ hc) (k4 ▸ hd)
    refine ⟨this.1, ?_⟩
    refine this.2.trans ?_
    by_cases hres : (declareBond s a b).2 = .ok ()
    · rw [k5 hres c d hc hd hcd]
      simp only [List.mem_cons, Prod.mk.injEq]
      rw [and_comm (a := d = a)]
      exact or_aux
    · rw [k2 hres]
      have hno : ((c = a ∧ d = b) ∨ (d = a ∧ c = b)) → hasBond s c d = .ok true := by
        intro h
        have hab : hasBond s a b = hasBond s c d := by
          rcases h with ⟨rfl, rfl⟩ | ⟨rfl, rfl⟩
          · rfl
          · exact (C27_hasBond s _ _).1
        have hr : ¬ hasBond s a b = .ok false := by
          intro hf
          apply hres
          rw [k1]
          rcases h with ⟨rfl, rfl⟩ | ⟨rfl, rfl⟩
          · exact ⟨hw, hp, hc, hd, hcd, hf⟩
          · exact ⟨hw, hp, hd, hc, hcd.symm, hf⟩
        obtain ⟨r, hr'⟩ := (C27_hasBond s c d).2.1 ⟨hc, hd, hcd⟩
        rw [hab, hr'] at hr
        rw [hr']
        cases r
        · exact absurd rfl hr
        · rfl
      simp only [List.mem_cons, Prod.mk.injEq]
      exact or_aux' hno

example : let s : Snap ℕ := { writeMode := true, atomRanges := [⟨0, 5, {}⟩] }
    BondsOK s ∧ hasBond (declareBonds s [(4, 2), (2, 4), (3, 3), (1, 9)]) 2 4 = .ok true := by
  refine ⟨⟨by simp, by simp⟩, by decide⟩

end OpenMPCD.Snapshot
