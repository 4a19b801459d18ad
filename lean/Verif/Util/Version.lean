import Verif.Common
import Mathlib.Logic.Relation
import Mathlib.Data.List.Basic
import Mathlib.Tactic.NormNum

/-!
# The version of the program (C111)

`tools/writeVersionFile.sh`, `include/OpenMPCD/getGitCommitIdentifier.hpp`, and
`Analysis/MPCDAnalysis/ProgramVersionDatabase.py`.
-/

set_option linter.unusedSectionVars false
set_option linter.unusedSimpArgs false
set_option linter.unusedVariables false

namespace OpenMPCD.Version

/-! ## Model -/

/-- The id of an object: its hash, in hexadecimal digits. -/
abbrev Id := List Char

/-- A reference: its name (without `tags/` or `heads/`), whether it is a tag, the id of the tag object if it is an annotated
tag, and the commit. -/
structure Ref where
  name : List Char
  isTag : Bool
  annotated : Option Id
  target : Id

/-- The name with its kind. References other than tags and branches of the repository itself are left out. -/
def Ref.full (t : Ref) : List Char :=
  (if t.isTag then ['t', 'a', 'g', 's', '/'] else ['h', 'e', 'a', 'd', 's', '/']) ++ t.name

/-- The name in outputs of `git describe`. -/
def Ref.display (all : Bool) (t : Ref) : List Char := if all then t.full else t.name

/-- A repository: the parents of each commit, references, the current commit, whether tracked files are modified, and whether
there are files neither tracked nor ignored. -/
structure Repository where
  parents : Id → List Id
  refs : List Ref
  head : Id
  modified : Bool
  untracked : Bool

/-- `a` contains `b` in its history (possibly being the same). -/
def Repository.Contains (r : Repository) : Id → Id → Prop :=
  Relation.ReflTransGen fun a b => b ∈ r.parents a

/-- The priorities of `git describe`. -/
def Ref.priority (t : Ref) : ℕ := if t.annotated.isSome then 2 else if t.isTag then 1 else 0

/-- The decimal digits of a number. -/
def digits (n : ℕ) : List Char := Nat.toDigits 10 n

/-- What `git describe` outputs, but for the suffix for modifications. Unless `all` is set, only annotated tags are considered.
Which one of several references is chosen is not determined here, except that for the current commit, the priority decides.
The last case is for `--always` only. -/
inductive Describe (r : Repository) (all always : Bool) : List Char → Prop
  | exact (t : Ref) : t ∈ r.refs → (all = true ∨ t.annotated.isSome) → t.target = r.head →
      (∀ u ∈ r.refs, u.target = r.head → u.priority ≤ t.priority) → Describe r all always (t.display all)
  | near (t : Ref) (n : ℕ) : t ∈ r.refs → (all = true ∨ t.annotated.isSome) → t.target ≠ r.head →
      (∀ u ∈ r.refs, (all = true ∨ u.annotated.isSome) → u.target ≠ r.head) → r.Contains r.head t.target →
      Describe r all always (t.display all ++ '-' :: digits n ++ '-' :: 'g' :: r.head)
  | hash : always = true → (∀ u ∈ r.refs, (all = true ∨ u.annotated.isSome) → ¬ r.Contains r.head u.target) →
      Describe r all always r.head

/-- `+MODIFICATIONS` -/
def modifications : List Char := ['+', 'M', 'O', 'D', 'I', 'F', 'I', 'C', 'A', 'T', 'I', 'O', 'N', 'S']

/-- `+UNTRACKED` -/
def untracked : List Char := ['+', 'U', 'N', 'T', 'R', 'A', 'C', 'K', 'E', 'D']

/-- `getGitCommitString` (`tools/writeVersionFile.sh:3-22`) in a repository: the outputs there may be. -/
inductive CommitString (r : Repository) : List Char → Prop
  | intro (d : List Char) : Describe r false true d →
      CommitString r (d ++ (if r.modified then modifications else []) ++ if r.untracked then untracked else [])

/-- The text replaced in the template (`src/OpenMPCD/getGitCommitIdentifier.cpp.template:5`). -/
def placeholder : List Char := ['O', 'P', 'E', 'N', 'M', 'P', 'C', 'D', '_', 'V', 'E', 'R', 'S', 'I', 'O', 'N']

/-- The characters `sed` accepts after the closing slash of the command `s`. -/
def sedFlags : List Char := ['g', 'p', 'i', 'I', 'm', 'M', 'e', 'w', '0', '1', '2', '3', '4', '5', '6', '7', '8', '9', ' ', ';', '}', '#']

/-- What becomes of the placeholder under `s/OPENMPCD_VERSION/text/g` (`tools/writeVersionFile.sh:30`): an ampersand stands for
the text replaced; if there is a slash in the text, it ends the replacement, and the command is refused if no flag follows;
otherwise, the result is not modelled (`other`). Git does not allow backslashes in names. -/
def sed (other : List Char → List Char) (text : List Char) : List Char :=
  match text.dropWhile (· ≠ '/') with
  | [] => text.flatMap fun c => if c = '&' then placeholder else [c]
  | [_] => other text
  | _ :: flag :: _ => if flag ∈ sedFlags then other text else placeholder

/-- The script (`tools/writeVersionFile.sh:24-34`): what is between the quotation marks in the file afterwards (`none`: no such
file), given what is there before. Without a repository, the script ends before that (`tools/writeVersionFile.sh:17-18`). -/
inductive Script (other : List Char → List Char) : Option Repository → Option (List Char) → Option (List Char) → Prop
  | repository {r s} (before : Option (List Char)) : CommitString r s → Script other (some r) before (some (sed other s))
  | none (before : Option (List Char)) : Script other none before before

/-- The object id a reference stands for. -/
def Ref.object (t : Ref) : Id := t.annotated.getD t.target

/-- `revparse_single` of the output of `describe`: references take precedence; otherwise, what follows the last `g` (there is
none in hashes) is the id of a commit. Whether other things precede is not looked at. -/
def revparse (r : Repository) (s : List Char) : Id :=
  match r.refs.find? fun t => t.full = s with
  | some t => t.object
  | none => (s.reverse.takeWhile (· ≠ 'g')).reverse

/-- `returnCurrentRepositoryDescription` (`Analysis/MPCDAnalysis/ProgramVersionDatabase.py:38-74`). -/
inductive Description (r : Repository) : List Char → Prop
  | intro (d : List Char) : Describe r true false d →
      Description r
        (let description := d ++ if r.modified then modifications else []
         let modified : Bool := modifications.isSuffixOf description
         let description := if modified then description.take (description.length - modifications.length) else description
         revparse r description ++ (if modified then modifications else []) ++ if r.untracked then untracked else [])

/-- A walk over the history of a commit (`repository.walk`): each commit in it comes up, in some order. -/
def IsWalk (r : Repository) (c : Id) (walk : List Id) : Prop := ∀ d, d ∈ walk ↔ r.Contains c d

/-- `_gitCommitAContainsCommitB` (`Analysis/MPCDAnalysis/ProgramVersionDatabase.py:117-130`). -/
def containsCommit (walk : List Id) (b : Id) : Bool :=
  match walk with
  | [] => false
  | c :: rest => if c = b then true else containsCommit rest b

/-- `commitContainsNoKnownBugs` (`Analysis/MPCDAnalysis/ProgramVersionDatabase.py:77-89`), the walks being those of the given
commit; `bugs` are the commits that have fixed them, if any. -/
def noKnownBugs (walk : List Id) : List (Option Id) → Bool
  | [] => true
  | none :: _ => false
  | some f :: rest => if containsCommit walk f then noKnownBugs walk rest else false

/-! ## Specification -/

/-- What is documented (`include/OpenMPCD/getGitCommitIdentifier.hpp:14-28`,
`Analysis/MPCDAnalysis/ProgramVersionDatabase.py:38-44`). -/
def Identifies (r : Repository) (s : List Char) : Prop :=
  s = r.head ++ (if r.modified then modifications else []) ++ if r.untracked then untracked else []

/-- Names and ids are as Git makes them. -/
structure Proper (r : Repository) : Prop where
  hex : ∀ c ∈ r.head, c ∈ ['0', '1', '2', '3', '4', '5', '6', '7', '8', '9', 'a', 'b', 'c', 'd', 'e', 'f']
  unique : r.refs.Pairwise fun t u => t.full ≠ u.full

/-- A bug: the commit that brought it in, and the one that fixed it. -/
structure Bug where
  introduced : Id
  fixed : Option Id

/-- A commit has a bug. -/
def HasBug (r : Repository) (c : Id) (b : Bug) : Prop :=
  r.Contains c b.introduced ∧ ∀ f, b.fixed = some f → ¬ r.Contains c f

/-! ## Proofs -/

theorem hex_plain {r : Repository} (hp : Proper r) : ∀ c ∈ r.head, c ≠ '/' ∧ c ≠ '&' ∧ c ≠ 'g' := by
  intro c hc
  have := hp.hex c hc
  simp only [List.mem_cons, List.not_mem_nil, or_false] at this
  rcases this with h | h | h | h | h | h | h | h | h | h | h | h | h | h | h | h <;> subst h <;> decide

theorem dropWhile_nil {p : Char → Bool} : ∀ {l : List Char}, (∀ c ∈ l, p c = true) → l.dropWhile p = []
  | [], _ => rfl
  | a :: l, h => by
    rw [List.dropWhile_cons_of_pos (h a List.mem_cons_self)]
    exact dropWhile_nil fun c hc => h c (List.mem_cons_of_mem _ hc)

theorem sed_plain (other : List Char → List Char) {s : List Char} (h : ∀ c ∈ s, c ≠ '/' ∧ c ≠ '&') : sed other s = s := by
  have hd : s.dropWhile (· ≠ '/') = [] := by
    refine dropWhile_nil fun c hc => ?_
    simpa using (h c hc).1
  unfold sed
  rw [hd]
  simp only
  clear hd
  induction s with
  | nil => rfl
  | cons c s ih =>
    rw [List.flatMap_cons, ih (fun d hd => h d (List.mem_cons_of_mem _ hd)), if_neg (h c List.mem_cons_self).2]
    rfl

theorem suffix_plain (r : Repository) :
    (∀ c ∈ (if r.modified then modifications else []), c ≠ '/' ∧ c ≠ '&') ∧
    ∀ c ∈ (if r.untracked then untracked else []), c ≠ '/' ∧ c ≠ '&' := by
  constructor
  · split
    · intro c hc
      simp only [modifications, List.mem_cons, List.not_mem_nil, or_false] at hc
      rcases hc with h | h | h | h | h | h | h | h | h | h | h | h | h | h <;> subst h <;> decide
    · simp
  · split
    · intro c hc
      simp only [untracked, List.mem_cons, List.not_mem_nil, or_false] at hc
      rcases hc with h | h | h | h | h | h | h | h | h | h <;> subst h <;> decide
    · simp

/-- **C111.** If no annotated tag is in the history of the current commit, the program's identifier is as documented, whatever
was in the file before.

What is missing for the full statement: it is false for repositories with annotated tags, and without a repository, see
`C111_tag_violated`, `C111_slash_violated`, `C111_stale_violated`. -/
theorem C111_partial (other : List Char → List Char) {r : Repository} (hp : Proper r)
    (ht : ∀ t ∈ r.refs, t.annotated.isSome → ¬ r.Contains r.head t.target) (before result : Option (List Char))
    (h : Script other (some r) before result) : ∃ s, result = some s ∧ Identifies r s := by
  cases h with
  | repository _ hc =>
    cases hc with
    | intro d hd =>
      have hd' : d = r.head := by
        cases hd with
        | exact t hm ha hh _ =>
          exact absurd (hh ▸ Relation.ReflTransGen.refl) (ht t hm (by simpa using ha))
        | near t n hm ha _ _ hc => exact absurd hc (ht t hm (by simpa using ha))
        | hash => rfl
      subst hd'
      refine ⟨_, rfl, ?_⟩
      rw [sed_plain other]
      · rfl
      · intro c hc
        rcases List.mem_append.1 hc with hc | hc
        · rcases List.mem_append.1 hc with hc | hc
          · exact ⟨(hex_plain hp c hc).1, (hex_plain hp c hc).2.1⟩
          · exact (suffix_plain r).1 c hc
        · exact (suffix_plain r).2 c hc

/-- **C111** fails with an annotated tag in the history: if the current commit has one, the identifier starts with the name of
the tag instead of the commit; if only an earlier one has, it is not the commit, either. -/
theorem C111_tag_violated (other : List Char → List Char) {r : Repository} (hp : Proper r)
    (ht : ∃ t ∈ r.refs, t.annotated.isSome ∧ r.Contains r.head t.target)
    (hn : ∀ t ∈ r.refs, t.annotated.isSome → (∀ c ∈ t.name, c ≠ '/' ∧ c ≠ '&') ∧ t.name ≠ r.head) (before result : Option (List Char))
    (h : Script other (some r) before result) : ∃ s, result = some s ∧ ¬ Identifies r s := by
  cases h with
  | repository _ hc =>
    cases hc with
    | intro d hd =>
      refine ⟨_, rfl, ?_⟩
      have key : (∀ c ∈ d, c ≠ '/' ∧ c ≠ '&') ∧ d ≠ r.head := by
        cases hd with
        | exact t hm ha hh _ => exact hn t hm (by simpa using ha)
        | near t n hm ha _ _ hc =>
          constructor
          · intro c hc
            rcases List.mem_append.1 hc with hc | hc
            · rcases List.mem_append.1 hc with hc | hc
              · exact (hn t hm (by simpa using ha)).1 c hc
              · rcases List.mem_cons.1 hc with rfl | hc
                · decide
                · have hdig := Nat.isDigit_of_mem_toDigits (b := 10) (by norm_num) (by norm_num) hc
                  constructor <;> rintro rfl <;> exact absurd hdig (by decide)
            · rcases List.mem_cons.1 hc with rfl | hc
              · decide
              · rcases List.mem_cons.1 hc with rfl | hc
                · decide
                · exact ⟨(hex_plain hp c hc).1, (hex_plain hp c hc).2.1⟩
          · intro e
            have := congrArg List.length e
            simp only [List.length_append, List.length_cons] at this
            omega
        | hash _ hno =>
          obtain ⟨t, hm, ha, hc⟩ := ht
          exact absurd hc (hno t hm (Or.inr ha))
      rw [sed_plain other]
      · intro hi
        unfold Identifies at hi
        rw [List.append_assoc, List.append_assoc] at hi
        exact key.2 (List.append_cancel_right hi)
      · intro c hc
        rcases List.mem_append.1 hc with hc | hc
        · rcases List.mem_append.1 hc with hc | hc
          · exact key.1 c hc
          · exact (suffix_plain r).1 c hc
        · exact (suffix_plain r).2 c hc

/-- **C111** fails with annotated tags on the current commit that have slashes in their names: the identifier is the
placeholder. -/
theorem C111_slash_violated (other : List Char → List Char) {r : Repository} {first rest : List Char} {flag : Char}
    (ht : ∃ t ∈ r.refs, t.annotated.isSome ∧ t.target = r.head)
    (hn : ∀ t ∈ r.refs, t.annotated.isSome → t.name = first ++ '/' :: flag :: rest) (hf : '/' ∉ first) (hflag : flag ∉ sedFlags)
    (before result : Option (List Char)) (h : Script other (some r) before result) : result = some placeholder := by
  cases h with
  | repository _ hc =>
    cases hc with
    | intro d hd =>
      obtain ⟨t, hm, ha, hh⟩ := ht
      have hd' : d = first ++ '/' :: flag :: rest := by
        cases hd with
        | exact u hu hua _ _ => exact hn u hu (by simpa using hua)
        | near u n hu _ _ hno _ => exact absurd hh (hno t hm (Or.inr ha))
        | hash _ hno => exact absurd (hh ▸ Relation.ReflTransGen.refl) (hno t hm (Or.inr ha))
      subst hd'
      congr 1
      unfold sed
      have : ∀ x : List Char, (first ++ '/' :: x).dropWhile (· ≠ '/') = '/' :: x := by
        intro x
        rw [List.dropWhile_append, dropWhile_nil]
        · simp
        · intro c hc
          simp only [ne_eq, decide_not, Bool.not_eq_true', decide_eq_false_iff_not]
          rintro rfl
          exact hf hc
      rw [List.append_assoc, List.append_assoc, List.cons_append, List.cons_append, this]
      simp only
      rw [if_neg hflag]

/-- **C111** fails without a repository: the identifier is that of when there was one, and not the empty string. -/
theorem C111_stale_violated (other : List Char → List Char) (before : List Char) (result : Option (List Char))
    (h : Script other none (some before) result) : result = some before := by
  cases h with
  | none => rfl

theorem isSuffixOf_append (a b : List Char) : b.isSuffixOf (a ++ b) = true := by
  rw [List.isSuffixOf_iff_suffix]; exact List.suffix_append a b

theorem takeWhile_g {h : List Char} (hg : ∀ c ∈ h, c ≠ 'g') (x : List Char) :
    ((x ++ 'g' :: h).reverse.takeWhile (· ≠ 'g')).reverse = h := by
  rw [List.reverse_append, List.reverse_cons, List.append_assoc, List.takeWhile_append_of_pos]
  · simp
  · intro c hc
    simpa using hg c (List.mem_reverse.1 hc)

/-- The unique names, found. -/
theorem find_name {r : Repository} (hu : r.refs.Pairwise fun t u => t.full ≠ u.full) {t : Ref} (ht : t ∈ r.refs) :
    (r.refs.find? fun u => u.full = t.full) = some t := by
  induction hl : r.refs generalizing r with
  | nil => rw [hl] at ht; simp at ht
  | cons a l ih =>
    rw [hl] at hu ht
    rw [List.pairwise_cons] at hu
    rcases List.mem_cons.1 ht with rfl | ht'
    · simp
    · rw [List.find?_cons_of_neg (by simpa using hu.1 t ht')]
      exact ih (r := { r with refs := l }) hu.2 ht' rfl

theorem display_all (t : Ref) : t.display true = t.full := rfl

/-- What an output stands for. -/
theorem revparse_describe {r : Repository} (hp : Proper r) {d : List Char} (hd : Describe r true false d)
    (hn : ∀ t ∈ r.refs, t.target ≠ r.head → ∀ n, ∀ u ∈ r.refs, u.full ≠ t.full ++ '-' :: digits n ++ '-' :: 'g' :: r.head) :
    revparse r d = r.head ∨ ∃ t ∈ r.refs, t.target = r.head ∧ t.annotated = some (revparse r d) := by
  cases hd with
  | exact t hm _ hh _ =>
    unfold revparse
    rw [display_all, find_name hp.unique hm]
    simp only [Ref.object]
    cases ha : t.annotated with
    | none => exact Or.inl hh
    | some i => exact Or.inr ⟨t, hm, hh, by rw [ha]; rfl⟩
  | near t n hm _ hne _ _ =>
    left
    unfold revparse
    have : (r.refs.find? fun u => u.full = t.full ++ '-' :: digits n ++ '-' :: 'g' :: r.head) = none := by
      rw [List.find?_eq_none]
      intro u hu
      simpa using hn t hm hne n u hu
    rw [display_all, this]
    simp only
    have e : t.full ++ '-' :: digits n ++ '-' :: 'g' :: r.head = (t.full ++ '-' :: digits n ++ ['-']) ++ 'g' :: r.head := by simp
    rw [e]
    exact takeWhile_g (fun c hc => (hex_plain hp c hc).2.2) _
  | hash h => exact absurd h (by simp)

theorem take_suffix (a b : List Char) : (a ++ b).take ((a ++ b).length - b.length) = a := by
  rw [List.length_append, Nat.add_sub_cancel, List.take_left']
  rfl

/-- Outputs do not end as if there were modifications. -/
def Plain (r : Repository) : Prop :=
  (∀ t ∈ r.refs, ¬ modifications <:+ t.full) ∧
  ∀ t ∈ r.refs, ∀ n, ∀ u ∈ r.refs, u.full ≠ t.full ++ '-' :: digits n ++ '-' :: 'g' :: r.head

theorem not_suffix {r : Repository} (hp : Proper r) (hpl : Plain r) (h0 : r.head ≠ []) {d : List Char}
    (hd : Describe r true false d) : ¬ modifications <:+ d := by
  cases hd with
  | exact t hm _ _ _ => exact hpl.1 t hm
  | near t n hm _ _ _ _ =>
    intro ⟨x, hx⟩
    have h1 := congrArg List.getLast? hx
    rw [List.getLast?_append, List.getLast?_append] at h1
    simp only [modifications] at h1
    obtain ⟨l, c, hl⟩ := List.eq_nil_or_concat r.head |>.resolve_left h0
    have hc : c ∈ r.head := by rw [hl]; simp
    rw [hl] at h1
    have e : ('-' :: 'g' :: (l ++ [c])) = ('-' :: 'g' :: l) ++ [c] := by simp
    simp only [List.concat_eq_append] at h1
    rw [e, List.getLast?_append] at h1
    simp at h1
    have := hp.hex c hc
    rw [← h1] at this
    exact absurd this (by decide)
  | hash h => exact absurd h (by simp)

/-- **C111.** The description by the analysis package is as documented, if the current commit has no annotated tag, and names
of references do not look like outputs of `git describe`. -/
theorem C111_description {r : Repository} (hp : Proper r) (h0 : r.head ≠ []) (hpl : Plain r)
    (ht : ∀ t ∈ r.refs, t.target = r.head → t.annotated = none) (s : List Char) (h : Description r s) : Identifies r s := by
  cases h with
  | intro d hd =>
    have hr : revparse r d = r.head := by
      rcases revparse_describe hp hd (fun t ht _ n u hu => hpl.2 t ht n u hu) with h | ⟨t, hm, hh, ha⟩
      · exact h
      · rw [ht t hm hh] at ha; exact absurd ha (by simp)
    unfold Identifies
    cases hmod : r.modified with
    | true =>
      simp only [if_true, isSuffixOf_append, take_suffix, hr]
    | false =>
      have hs : modifications.isSuffixOf d = false := by
        rw [Bool.eq_false_iff]
        intro hc
        exact not_suffix hp hpl h0 hd (List.isSuffixOf_iff_suffix.1 hc)
      simp [hs, hr]

/-- **C111** fails if the current commit has an annotated tag: the description has the id of the tag object instead of that of
the commit. -/
theorem C111_description_violated {r : Repository} (hp : Proper r) (hpl : Plain r) (hm : r.modified = false)
    (hu : r.untracked = false) (ht : ∃ t ∈ r.refs, t.target = r.head ∧ t.annotated.isSome) (s : List Char)
    (h : Description r s) : ∃ t ∈ r.refs, t.target = r.head ∧ t.annotated = some s := by
  cases h with
  | intro d hd =>
    cases hd with
    | exact t htm _ hh hprio =>
      obtain ⟨u, hum, huh, hua⟩ := ht
      have h2 := hprio u hum huh
      have hta : t.annotated.isSome := by
        unfold Ref.priority at h2
        rw [if_pos hua] at h2
        by_contra hc
        rw [if_neg hc] at h2
        split at h2 <;> omega
      obtain ⟨i, hi⟩ := Option.isSome_iff_exists.1 hta
      have hs : modifications.isSuffixOf t.full = false := by
        rw [Bool.eq_false_iff]
        intro hc
        exact hpl.1 t htm (List.isSuffixOf_iff_suffix.1 hc)
      refine ⟨t, htm, hh, ?_⟩
      rw [display_all]
      simp only [hm, hu, Bool.false_eq_true, if_false, List.append_nil, hs, revparse, find_name hp.unique htm, Ref.object, hi,
        Option.getD_some]
    | near t n htm _ _ hno _ =>
      obtain ⟨u, hum, huh, hua⟩ := ht
      exact absurd huh (hno u hum (Or.inl rfl))
    | hash h => exact absurd h (by simp)

theorem containsCommit_iff (walk : List Id) (b : Id) : containsCommit walk b = true ↔ b ∈ walk := by
  induction walk with
  | nil => simp [containsCommit]
  | cons c rest ih =>
    rw [containsCommit]
    by_cases h : c = b
    · subst h; simp
    · rw [if_neg h, ih, List.mem_cons]
      exact ⟨Or.inr, fun h' => h'.resolve_left (Ne.symm h)⟩

theorem noKnownBugs_iff (walk : List Id) (bugs : List (Option Id)) :
    noKnownBugs walk bugs = true ↔ ∀ b ∈ bugs, ∃ f, b = some f ∧ f ∈ walk := by
  induction bugs with
  | nil => simp [noKnownBugs]
  | cons b bugs ih =>
    cases b with
    | none => simp [noKnownBugs]
    | some f =>
      rw [noKnownBugs]
      by_cases h : containsCommit walk f = true
      · rw [if_pos h, ih]
        simp [(containsCommit_iff walk f).1 h]
      · rw [if_neg h]
        simp only [Bool.false_eq_true, List.mem_cons, forall_eq_or_imp, false_iff, not_and]
        rintro ⟨f', e, hf'⟩
        cases e
        exact absurd ((containsCommit_iff walk f).2 hf') h

/-- **C111.** If a commit is said to have no known bugs, it has none, and neither has any commit that has it in its history;
and if there is one that is not fixed, no commit is said to have none. -/
theorem C111_bugs (r : Repository) (c d : Id) (walk walk' : List Id) (hw : IsWalk r c walk) (hw' : IsWalk r d walk')
    (bugs : List Bug) :
    (noKnownBugs walk (bugs.map Bug.fixed) = true → ∀ b ∈ bugs, ¬ HasBug r c b) ∧
    (r.Contains d c → noKnownBugs walk (bugs.map Bug.fixed) = true → noKnownBugs walk' (bugs.map Bug.fixed) = true) ∧
    ((∃ b ∈ bugs, b.fixed = none) → noKnownBugs walk (bugs.map Bug.fixed) = false) := by
  refine ⟨fun h b hb hh => ?_, fun hdc h => ?_, fun ⟨b, hb, hf⟩ => ?_⟩
  · obtain ⟨f, e, hf⟩ := (noKnownBugs_iff _ _).1 h b.fixed (List.mem_map_of_mem hb)
    exact hh.2 f e ((hw f).1 hf)
  · rw [noKnownBugs_iff] at h ⊢
    intro b hb
    obtain ⟨f, e, hf⟩ := h b hb
    exact ⟨f, e, (hw' f).2 (hdc.trans ((hw f).1 hf))⟩
  · rw [Bool.eq_false_iff]
    intro h
    obtain ⟨f, e, -⟩ := (noKnownBugs_iff _ _).1 h b.fixed (List.mem_map_of_mem hb)
    rw [hf] at e
    exact absurd e (by simp)

/-- **C111** fails in the other direction: a commit from before a bug was brought in does not have it, and is said not to be
free of known bugs all the same. -/
theorem C111_bugs_violated (r : Repository) (c : Id) (walk : List Id) (hw : IsWalk r c walk) (b : Bug) (f : Id)
    (hf : b.fixed = some f) (h1 : ¬ r.Contains c b.introduced) (h2 : r.Contains f b.introduced) :
    ¬ HasBug r c b ∧ noKnownBugs walk [b.fixed] = false := by
  refine ⟨fun h => h1 h.1, ?_⟩
  rw [Bool.eq_false_iff]
  intro h
  obtain ⟨f', e, hf'⟩ := (noKnownBugs_iff _ _).1 h b.fixed (by simp)
  rw [hf] at e
  cases e
  exact h1 (((hw f).1 hf').trans h2)

/-! ## Examples -/

/-- Two commits; the second has the first as its parent, is the current one, and is where the branch points to. -/
def sample (tag : Option Id) (name : List Char) : Repository where
  parents := fun c => if c = ['b'] then [['a']] else []
  refs := [⟨name, tag.isSome, tag, ['b']⟩]
  head := ['b']
  modified := false
  untracked := false

example (tag : Option Id) (name : List Char) : Proper (sample tag name) :=
  ⟨by simp [sample], by simp [sample]⟩

/-- There is a description. -/
example (other : List Char → List Char) : Script other (some (sample none ['m'])) none (some ['b']) := by
  have h : Describe (sample none ['m']) false true ['b'] := .hash rfl (by simp [sample])
  have := Script.repository (other := other) none (CommitString.intro _ h)
  simpa [sample, sed] using this

example : Description (sample (some ['t']) ['v']) ['t'] := by
  have h : Describe (sample (some ['t']) ['v']) true false ['t', 'a', 'g', 's', '/', 'v'] :=
    .exact ⟨['v'], true, some ['t'], ['b']⟩ (List.mem_singleton_self _) (Or.inl rfl) rfl
      (fun u hu _ => by rw [List.mem_singleton.1 hu]; rfl)
  have := Description.intro _ h
  simpa [sample, modifications, revparse, Ref.object, Ref.full, List.isSuffixOf, List.isPrefixOf] using this

example : Plain (sample (some ['t']) ['v']) := by
  constructor
  · intro t ht
    simp only [sample, List.mem_singleton] at ht
    subst ht
    intro h
    exact absurd h.length_le (by simp [modifications, Ref.full])
  · intro t ht n u hu e
    simp only [sample, List.mem_singleton] at ht hu
    subst ht; subst hu
    have := congrArg List.length e
    simp at this

end OpenMPCD.Version
