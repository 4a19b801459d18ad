import Verif.Config.Equiv
import Verif.Runs.Paths
import Mathlib.Data.List.Sort

/-!
# Parameter files (C141)

`Configuration.saveToParameterFile`, `Analysis/MPCDAnalysis/Configuration.py:265-329`. Texts are lists of characters, ordered as Python
orders strings, by the code points.
-/

set_option linter.unusedSectionVars false
set_option linter.unusedSimpArgs false
set_option linter.unusedVariables false

namespace OpenMPCD.Config.ParameterFile

/-! ## Model -/

/-- Values, by how lines 316-326 distinguish them; `other`: anything else, given by the result of `str`. -/
inductive PVal
  | str (s : List Char)
  | none
  | bool (b : Bool)
  | other (s : List Char)
  deriving DecidableEq

/-- A dictionary with texts as keys. -/
abbrev Dict := List (List Char × PVal)

/-- Lines 316-326. -/
def text : PVal → List Char
  | .str s => '{' :: s ++ ['}']
  | .none => "None".toList
  | .bool true => "true".toList
  | .bool false => "false".toList
  | .other s => s

/-- Assignment to an item of a dictionary. -/
def assign (d : Dict) (k : List Char) (x : PVal) : Dict :=
  match d with
  | [] => [(k, x)]
  | (k', y) :: d => if k' = k then (k', x) :: d else (k', y) :: assign d k x

/-- Lines 302-304; `asserts`: whether assertions are enabled (they are unless Python is started with `-O`). -/
def addAll (asserts : Bool) : Dict → Dict → Except PyErr Dict
  | d, [] => .ok d
  | d, (k, x) :: more => if asserts && d.any (fun p => p.1 = k) then .error .assertionError else addAll asserts (assign d k x) more

/-- The body of the loop, lines 309-326: header and value line so far. -/
def step (hv : List Char × List Char) (p : List Char × PVal) : List Char × List Char :=
  if hv.1 ≠ [] then (hv.1 ++ ['\t'] ++ p.1, hv.2 ++ ['\t'] ++ text p.2) else (hv.1 ++ p.1, hv.2 ++ text p.2)

/-- `saveToParameterFile`, lines 301-329: the contents written, for the dictionary that `getAsFlatDictionary` returns. The checks of the
types of the arguments are not represented. -/
def save (asserts : Bool) (flatDict additional : Dict) : Except PyErr (List Char) := do
  let d ← addAll asserts flatDict additional
  let sorted := d.insertionSort fun p q => p.1 ≤ q.1
  let hv := sorted.foldl step ([], [])
  .ok (hv.1 ++ '\n' :: hv.2)

/-- `str` of a whole number. -/
def intText (i : ℤ) : List Char := if i < 0 then '-' :: Runs.natStr i.natAbs else Runs.natStr i.natAbs

/-- The text of a component of the name of a setting, see `Comp`. -/
def compText : Comp → List Char
  | .empty => []
  | .name s => s.toList
  | .index i => '[' :: intText i ++ [']']
  | .looseIndex _ s => '[' :: s.toList ++ [']']
  | .noIndex s => '[' :: s.toList ++ [']']

/-- The name of a setting in the flat dictionary, `Configuration.py:206,218`. -/
def keyText : List Comp → List Char
  | [] => []
  | [c] => compText c
  | c :: cs => compText c ++ '.' :: keyText cs

/-- Values of the flat dictionary; `str` is Python's conversion of numbers and other values. -/
def pval (str : Value → List Char) : Option Value → PVal
  | none => .none
  | some (.scalar (.str s)) => .str s.toList
  | some (.scalar (.bool b)) => .bool b
  | some v => .other (str v)

/-- The flat dictionary (C50), with texts as keys. -/
def flatDict (str : Value → List Char) (v : Value) : Dict := (flat v).map fun p => (keyText p.1, pval str p.2)

/-! ## Specification -/

/-- A table of two lines of columns separated by tabs. -/
def IsTable (file : List Char) (names values : List (List Char)) : Prop :=
  ∃ h v, splitChar '\n' file = [h, v] ∧ splitChar '\t' h = names ∧ splitChar '\t' v = values

/-- No tab, and no end of line. -/
def Clean (s : List Char) : Prop := '\t' ∉ s ∧ '\n' ∉ s

/-- How the documentation says values are to be read: texts in curly braces, `None`, `true` and `false`, and others. -/
def decode (s : List Char) : PVal :=
  if s = "None".toList then .none else if s = "true".toList then .bool true else if s = "false".toList then .bool false
  else if s.head? = some '{' ∧ s.getLast? = some '}' then .str s.tail.dropLast else .other s

/-- The text of a number does not look like one of the other values. -/
def Proper : PVal → Prop
  | .other s => s ≠ "None".toList ∧ s ≠ "true".toList ∧ s ≠ "false".toList ∧ s.head? ≠ some '{'
  | _ => True

/-- The components of names in configurations: names have neither dots nor opening brackets, and indices count from zero. -/
inductive Plain : Comp → Prop
  | name (s : String) (h : ∀ c ∈ s.toList, c ≠ '.' ∧ c ≠ '[') : Plain (.name s)
  | index (i : ℕ) : Plain (.index i)

/-- What is to be read for the values a setting may have: texts, truth values, numbers (as their text), and `None` for what is empty. -/
def Reads (str : Value → List Char) : Option Value → PVal → Prop
  | none, x => x = .none
  | some (.scalar (.str s)), x => x = .str s.toList
  | some (.scalar (.bool b)), x => x = .bool b
  | some v, x => x = .other (str v)

/-! ## Proofs -/

theorem steps (es : Dict) (h v : List Char) (hne : h ≠ []) :
    es.foldl step (h, v) = (h ++ (es.map Prod.fst).flatMap (fun k => '\t' :: k), v ++ (es.map fun p => text p.2).flatMap (fun k => '\t' :: k)) := by
  induction es generalizing h v with
  | nil => simp
  | cons p es ih =>
    have : step (h, v) p = (h ++ ['\t'] ++ p.1, v ++ ['\t'] ++ text p.2) := by simp [step, hne]
    rw [List.foldl_cons, this, ih _ _ (by simp)]
    simp

theorem notMem_flatMap {c : Char} (hc : c ≠ '\t') (ks : List (List Char)) (h : ∀ k ∈ ks, c ∉ k) : c ∉ ks.flatMap (fun k => '\t' :: k) := by
  simp only [List.mem_flatMap, List.mem_cons, not_exists, not_and, not_or]
  exact fun k hk => ⟨hc, h k hk⟩

/-- The two lines, for a list of entries without empty names. -/
theorem lines (es : Dict) (hne : es ≠ []) (hk : ∀ p ∈ es, p.1 ≠ [] ∧ Clean p.1 ∧ Clean (text p.2)) :
    IsTable ((es.foldl step ([], [])).1 ++ '\n' :: (es.foldl step ([], [])).2) (es.map Prod.fst) (es.map fun p => text p.2) := by
  obtain ⟨p, es, rfl⟩ : ∃ p rest, es = p :: rest := by
    cases es with
    | nil => exact absurd rfl hne
    | cons p rest => exact ⟨p, rest, rfl⟩
  obtain ⟨h1, h2, h3⟩ := hk p (by simp)
  have hs : step ([], []) p = (p.1, text p.2) := by simp [step]
  rw [List.foldl_cons, hs, steps _ _ _ h1]
  have c1 : ∀ k ∈ es.map Prod.fst, Clean k := by
    intro k hk'
    obtain ⟨q, hq, rfl⟩ := List.mem_map.mp hk'
    exact (hk q (by simp [hq])).2.1
  have c2 : ∀ k ∈ es.map (fun p => text p.2), Clean k := by
    intro k hk'
    obtain ⟨q, hq, rfl⟩ := List.mem_map.mp hk'
    exact (hk q (by simp [hq])).2.2
  refine ⟨p.1 ++ (es.map Prod.fst).flatMap (fun k => '\t' :: k), text p.2 ++ (es.map fun p => text p.2).flatMap (fun k => '\t' :: k),
    ?_, ?_, ?_⟩
  · rw [splitChar_append_cons, splitChar_of_notMem]
    · rw [List.mem_append, not_or]
      exact ⟨h3.2, notMem_flatMap (by decide) _ fun k hk => (c2 k hk).2⟩
    · rw [List.mem_append, not_or]
      exact ⟨h2.2, notMem_flatMap (by decide) _ fun k hk => (c1 k hk).2⟩
  · exact splitChar_flatMap _ _ h2.1 fun k hk => (c1 k hk).1
  · exact splitChar_flatMap _ _ h3.1 fun k hk => (c2 k hk).1

theorem assign_new (d : Dict) (k : List Char) (x : PVal) (h : ∀ p ∈ d, p.1 ≠ k) : assign d k x = d ++ [(k, x)] := by
  induction d with
  | nil => rfl
  | cons p d ih =>
    obtain ⟨k', y⟩ := p
    have : k' ≠ k := h (k', y) (by simp)
    simp [assign, this, ih (fun q hq => h q (by simp [hq]))]

theorem addAll_ok (asserts : Bool) (d more : Dict) (h : ((d ++ more).map Prod.fst).Nodup) : addAll asserts d more = .ok (d ++ more) := by
  induction more generalizing d with
  | nil => simp [addAll]
  | cons p more ih =>
    obtain ⟨k, x⟩ := p
    have hnew : ∀ q ∈ d, q.1 ≠ k := by
      intro q hq hqk
      rw [List.map_append, List.nodup_append] at h
      exact h.2.2 q.1 (List.mem_map_of_mem hq) k (by simp) hqk
    have : d.any (fun p => decide (p.1 = k)) = false := by
      rw [List.any_eq_false]
      intro q hq
      simpa using hnew q hq
    simp only [addAll, this, Bool.and_false, Bool.false_eq_true, if_false, assign_new d k x hnew]
    have := ih (d ++ [(k, x)]) (by simpa using h)
    simpa using this

theorem sorted_perm (d : Dict) : (d.insertionSort fun p q => p.1 ≤ q.1).Perm d := List.perm_insertionSort _ d

theorem sorted_lt (d : Dict) (h : (d.map Prod.fst).Nodup) : (d.insertionSort fun p q => p.1 ≤ q.1).Pairwise fun p q => p.1 < q.1 := by
  have : Std.Total (fun p q : List Char × PVal => p.1 ≤ q.1) := ⟨fun a b => List.le_total _ _⟩
  have : IsTrans (List Char × PVal) (fun p q => p.1 ≤ q.1) := ⟨fun a b c h1 h2 => List.le_trans h1 h2⟩
  have h1 : (d.insertionSort fun p q => p.1 ≤ q.1).Pairwise fun p q => p.1 ≤ q.1 := List.pairwise_insertionSort _ d
  have h2 : ((d.insertionSort fun p q => p.1 ≤ q.1).map Prod.fst).Nodup := (((sorted_perm d).map Prod.fst).nodup_iff).mpr h
  have h3 : (d.insertionSort fun p q => p.1 ≤ q.1).Pairwise fun p q => p.1 ≠ q.1 := List.pairwise_map.mp h2
  refine (h1.and h3).imp ?_
  rintro a b ⟨h4, h5⟩
  by_contra hc
  exact h5 (List.le_antisymm h4 hc)

/-- C141: for settings and additional parameters with different, non-empty names, of which there is at least one, the file is a table with two lines:
the names of all of them, in order, and below each name its value. Missing: names and values with tabs or ends of lines in them, and
empty names, for which this is false (`C141_separators_violated`, `C141_emptyName_violated`). -/
theorem C141_table_partial (asserts : Bool) (d more : Dict) (hne : d ++ more ≠ []) (hd : ((d ++ more).map Prod.fst).Nodup)
    (hk : ∀ p ∈ d ++ more, p.1 ≠ [] ∧ Clean p.1 ∧ Clean (text p.2)) :
    ∃ (file : List Char) (rows : Dict), save asserts d more = .ok file ∧
      IsTable file (rows.map Prod.fst) (rows.map fun p => text p.2) ∧ rows.Perm (d ++ more) ∧ rows.Pairwise (fun p q => p.1 < q.1) := by
  have hp := sorted_perm (d ++ more)
  have ht := lines ((d ++ more).insertionSort fun p q => p.1 ≤ q.1) (by
      intro h
      rw [h] at hp
      exact hne (List.nil_perm.mp hp)) (fun p hp' => hk p (hp.mem_iff.mp hp'))
  refine ⟨_, _, ?_, ht, hp, sorted_lt _ hd⟩
  simp only [save, addAll_ok asserts d more hd, bind, Except.bind]

/-- C141: the values are read back from the table as documented. -/
theorem C141_decode (x : PVal) (h : Proper x) : decode (text x) = x := by
  cases x with
  | str s =>
    have h1 : text (.str s) ≠ "None".toList := by simp [text]
    have h2 : text (.str s) ≠ "true".toList := by simp [text]
    have h3 : text (.str s) ≠ "false".toList := by simp [text]
    unfold decode
    rw [if_neg h1, if_neg h2, if_neg h3, if_pos (by simp [text, List.getLast?_cons])]
    simp [text]
  | none => decide
  | bool b => cases b <;> decide
  | other s =>
    obtain ⟨h1, h2, h3, h4⟩ := h
    show decode s = _
    unfold decode
    rw [if_neg h1, if_neg h2, if_neg h3, if_neg (fun h => h4 h.1)]

/-- C141: what the file contains are the settings there are: for every path at which there is a value or an empty group, one row with its name
and value, and no others. -/
theorem C141_settings (str : Value → List Char) {v : Value} (ha : Arrays v) (k : List Char) (x : PVal) :
    (k, x) ∈ flatDict str v ↔ ∃ p, p ≠ [] ∧ k = keyText p ∧ ∃ w o, At v p w ∧ Entry w o ∧ x = pval str o := by
  constructor
  · intro h
    obtain ⟨⟨p, o⟩, hp, he⟩ := List.mem_map.mp h
    obtain ⟨h1, w, h2, h3⟩ := (C50_flat ha p o).1 hp
    simp only [Prod.mk.injEq] at he
    exact ⟨p, h1, he.1.symm, w, o, h2, h3, he.2.symm⟩
  · rintro ⟨p, h1, rfl, w, o, h2, h3, rfl⟩
    exact List.mem_map.mpr ⟨(p, o), (C50_flat ha p o).2 ⟨h1, w, h2, h3⟩, rfl⟩

theorem keyText_eq (c : Comp) (cs : List Comp) : keyText (c :: cs) = compText c ++ cs.flatMap fun k => '.' :: compText k := by
  induction cs generalizing c with
  | nil => simp [keyText]
  | cons k cs ih =>
    rw [keyText, ih k]
    · simp
    · simp

theorem intText_nat (i : ℕ) : intText i = Runs.natStr i := by
  simp [intText]

theorem plain_noDot {c : Comp} (h : Plain c) : '.' ∉ compText c := by
  cases h with
  | name s h => exact fun hm => (h _ hm).1 rfl
  | index i =>
    rw [compText, intText_nat]
    intro hm
    have hm : '.' ∈ Runs.natStr i := by simpa using hm
    have := Runs.natStr_digits i _ hm
    revert this
    decide

theorem plain_inj {c d : Comp} (hc : Plain c) (hd : Plain d) (h : compText c = compText d) : c = d := by
  cases hc with
  | name s hs =>
    cases hd with
    | name t ht => rw [String.toList_inj.1 h]
    | index j =>
      exact absurd rfl (hs '[' (by
        rw [show s.toList = _ from h, compText]
        simp)).2
  | index i =>
    cases hd with
    | name t ht =>
      exact absurd rfl (ht '[' (by
        rw [show t.toList = _ from h.symm, compText]
        simp)).2
    | index j =>
      rw [compText, compText, intText_nat, intText_nat] at h
      have := List.append_cancel_right (List.cons.inj h).2
      rw [Runs.natStr_inj this]

/-- C141: the name in the file tells which setting it is: its parts between dots are the names of the groups and of the setting, from
the outside to the inside, and different settings have different names. -/
theorem C141_names {p q : List Comp} (hp : ∀ c ∈ p, Plain c) (hq : ∀ c ∈ q, Plain c) (hpn : p ≠ []) (hqn : q ≠ []) :
    splitChar '.' (keyText p) = p.map compText ∧ (keyText p = keyText q → p = q) := by
  have key : ∀ p : List Comp, (∀ c ∈ p, Plain c) → p ≠ [] → splitChar '.' (keyText p) = p.map compText := by
    intro p
    induction p with
    | nil => intro _ h; exact absurd rfl h
    | cons c cs ih =>
      intro hp _
      have hc := plain_noDot (hp c (by simp))
      cases cs with
      | nil => rw [keyText, splitChar_of_notMem hc]; rfl
      | cons k cs =>
        rw [keyText, splitChar_append_cons hc, ih (fun x hx => hp x (by simp at hx ⊢; tauto)) (by simp)]
        · rfl
        · simp
  refine ⟨key p hp hpn, fun h => ?_⟩
  have e : p.map compText = q.map compText := by rw [← key p hp hpn, ← key q hq hqn, h]
  clear h key hpn hqn
  induction p generalizing q with
  | nil =>
    cases q with
    | nil => rfl
    | cons d ds => simp at e
  | cons c cs ih =>
    cases q with
    | nil => simp at e
    | cons d ds =>
      simp only [List.map_cons, List.cons.injEq] at e
      rw [plain_inj (hp c (by simp)) (hq d (by simp)) e.1,
        ih (fun x hx => hp x (by simp [hx])) (fun x hx => hq x (by simp [hx])) e.2]

/-- C141: what is read for a setting is what it is set to, if the texts of numbers do not look like other values. -/
theorem C141_values (str : Value → List Char) (o : Option Value)
    (hs : ∀ v, o = some v → (∀ s, v ≠ .scalar (.str s)) → (∀ b, v ≠ .scalar (.bool b)) → Proper (.other (str v))) :
    Reads str o (decode (text (pval str o))) := by
  have h : Proper (pval str o) ∧ Reads str o (pval str o) := by
    match o, hs with
    | none, _ => exact ⟨trivial, rfl⟩
    | some (.scalar (.str s)), _ => exact ⟨trivial, rfl⟩
    | some (.scalar (.bool b)), _ => exact ⟨trivial, rfl⟩
    | some (.scalar (.int i)), hs => exact ⟨hs _ rfl (by simp) (by simp), rfl⟩
    | some (.scalar (.float q)), hs => exact ⟨hs _ rfl (by simp) (by simp), rfl⟩
    | some (.group f), hs => exact ⟨hs _ rfl (by simp) (by simp), rfl⟩
    | some (.list a l), hs => exact ⟨hs _ rfl (by simp) (by simp), rfl⟩
  rw [C141_decode _ h.1]
  exact h.2

theorem addAll_mem (d more : Dict) (k : List Char) (x : PVal) (hm : (k, x) ∈ more) (hd : ∃ y, (k, y) ∈ d) :
    addAll true d more = .error .assertionError := by
  induction more generalizing d with
  | nil => simp at hm
  | cons p more ih =>
    obtain ⟨k', x'⟩ := p
    simp only [addAll, Bool.true_and]
    split
    · rfl
    · rename_i hnot
      have hne : k' ≠ k := by
        rintro rfl
        obtain ⟨y, hy⟩ := hd
        apply hnot
        rw [List.any_eq_true]
        exact ⟨_, hy, by simp⟩
      have hm' : (k, x) ∈ more := by
        rcases List.mem_cons.mp hm with h | h
        · exact absurd (congrArg Prod.fst h).symm hne
        · exact h
      refine ih _ hm' ?_
      obtain ⟨y, hy⟩ := hd
      refine ⟨y, ?_⟩
      clear ih hnot hm hm'
      induction d with
      | nil => simp at hy
      | cons q d ihd =>
        obtain ⟨k2, y2⟩ := q
        simp only [assign]
        rcases List.mem_cons.mp hy with h | h
        · have : k2 ≠ k' := by
            rintro rfl
            exact hne (congrArg Prod.fst h).symm
          rw [if_neg this, ← h]; simp
        · split
          · exact List.mem_cons_of_mem _ h
          · exact List.mem_cons_of_mem _ (ihd h)

/-- C141: if an additional parameter has the name of a setting, nothing is saved. -/
theorem C141_conflict (d more : Dict) (k : List Char) (x y : PVal) (hd : (k, y) ∈ d) (hm : (k, x) ∈ more) :
    save true d more = .error .assertionError := by
  simp only [save, addAll_mem d more k x hm ⟨y, hd⟩, bind, Except.bind]

/-- C141, violated: with assertions disabled, the additional parameter takes the place of the setting, whose value is not saved. -/
theorem C141_conflict_violated (k s t : List Char) :
    save false [(k, .other s)] [(k, .other t)] = save false [(k, .other t)] [] := by
  simp [save, addAll, assign, bind, Except.bind]

/-- C141, violated: an additional parameter with the empty name leads to a table that has one name fewer than it has values, or the same number
but none for the first value. -/
theorem C141_emptyName_violated :
    ∃ file, save true [("a".toList, .other ['1'])] [([], .other ['2'])] = .ok file ∧ IsTable file ["a".toList] [['2', '1']] := by
  have h : ([([], PVal.other ['2']), ("a".toList, .other ['1'])] : Dict).foldl step ([], []) = (['a'], ['2', '1']) := by decide +kernel
  have hs : ([("a".toList, .other ['1']), ([], PVal.other ['2'])] : Dict).insertionSort (fun p q => p.1 ≤ q.1) =
      [([], PVal.other ['2']), ("a".toList, .other ['1'])] := by decide +kernel
  refine ⟨['a', '\n', '2', '1'], ?_, ['a'], ['2', '1'], by decide +kernel, by decide +kernel, by decide +kernel⟩
  have ha : addAll true [("a".toList, .other ['1'])] [([], .other ['2'])] = .ok [("a".toList, .other ['1']), ([], PVal.other ['2'])] := by
    decide +kernel
  simp only [save, ha, bind, Except.bind, hs, h]
  rfl

/-- C141, violated: a setting with a tab in its value, which configurations may have, is read as two values. -/
theorem C141_separators_violated (k : List Char) (hk : k ≠ []) (hc : Clean k) (s t : List Char) (hs : Clean s) (ht : Clean t) :
    ∃ file, save true [(k, .str (s ++ '\t' :: t))] [] = .ok file ∧ IsTable file [k] ['{' :: s, t ++ ['}']] := by
  refine ⟨k ++ '\n' :: ('{' :: s ++ '\t' :: (t ++ ['}'])), ?_, k, '{' :: s ++ '\t' :: (t ++ ['}']), ?_, ?_, ?_⟩
  · simp [save, addAll, bind, Except.bind, step, text]
  · rw [splitChar_append_cons hc.2, splitChar_of_notMem]
    have h1 := hs.2
    have h2 := ht.2
    simp [h1, h2]
  · exact splitChar_of_notMem hc.1
  · rw [splitChar_append_cons (by have := hs.1; simp [this]), splitChar_of_notMem (by have := ht.1; simp [this])]

example : ∃ file, save true [("b".toList, .str "x y".toList), ("a.c".toList, .bool true)] [("z".toList, .other "1.5".toList)] = .ok file ∧
    file = "a.c\tb\tz\ntrue\t{x y}\t1.5".toList := ⟨_, by decide +kernel, rfl⟩

example (str : Value → List Char) : Arrays (.group [(.name "a", .scalar (.int 1)), (.name "b", .group [])]) ∧
    flatDict str (.group [(.name "a", .scalar (.int 1)), (.name "b", .group [])]) =
      [("a".toList, .other (str (.scalar (.int 1)))), ("b".toList, .none)] := by
  refine ⟨.group ?_, ?_⟩
  · intro p hp
    simp only [List.mem_cons, List.not_mem_nil, or_false] at hp
    rcases hp with rfl | rfl
    · exact .scalar _
    · exact .group (by simp)
  · simp [flatDict, flat, flatFields, keyText, compText, pval]

/-- The hypotheses of `C141_names`: `a.b` and `a.[3]`. -/
example : (∀ c ∈ [Comp.name "a", .name "b"], Plain c) ∧ ∀ c ∈ [Comp.name "a", .index 3], Plain c := by
  constructor <;> intro c hc <;> simp only [List.mem_cons, List.not_mem_nil, or_false] at hc <;> rcases hc with rfl | rfl
  · exact .name _ (by decide)
  · exact .name _ (by decide)
  · exact .name _ (by decide)
  · exact .index 3

/-- The hypothesis of `C141_values`. -/
example : Proper (.other (intText 12)) := by
  rw [show (12 : ℤ) = ((12 : ℕ) : ℤ) from rfl, intText_nat]
  simp [Proper, Runs.natStr, Nat.digitChar]

end OpenMPCD.Config.ParameterFile
