import Verif.Runs.Model

/-!
# C44: SLURM node lists
-/

set_option linter.unusedSimpArgs false

namespace OpenMPCD.Runs

/-! ## Specification: what SLURM means by a node list -/
namespace Spec

/-- An entry between brackets: a number, or a range of numbers. -/
inductive Item where
  | single (digits : Str)
  | range (lo hi : Str)

/-- A part of a host expression: plain text, or a bracketed list of numbers. -/
inductive Seg where
  | lit (s : Str)
  | brackets (items : List Item)

/-- The texts joined by commas. -/
def commaJoin : List Str → Str
  | [] => []
  | [s] => s
  | s :: t :: ts => s ++ ',' :: commaJoin (t :: ts)

def Item.render : Item → Str
  | .single d => d
  | .range lo hi => lo ++ '-' :: hi

def Seg.render : Seg → Str
  | .lit s => s
  | .brackets items => '[' :: commaJoin (items.map Item.render) ++ [']']

/-- The text of a node list. -/
def render (hosts : List (List Seg)) : Str :=
  commaJoin (hosts.map fun h => h.flatMap Seg.render)

/-- The numerals an entry stands for: a range keeps the width of its lower bound. -/
def Item.denote : Item → List Str
  | .single d => [d]
  | .range lo hi =>
    ((List.range (digitsValue hi + 1 - digitsValue lo)).map
      fun k => zeroPadded lo.length (digitsValue lo + k))

def Seg.denote : Seg → List Str
  | .lit s => [s]
  | .brackets items => items.flatMap Item.denote

/-- All combinations, the last bracket varying fastest. -/
def denoteHost : List Seg → List Str
  | [] => [[]]
  | s :: ss => s.denote.flatMap fun a => (denoteHost ss).map fun b => a ++ b

/-- The host names a node list stands for. -/
def denote (hosts : List (List Seg)) : List Str := hosts.flatMap denoteHost

/-- The names a SLURM node list is made of. -/
def PlainText (s : Str) : Prop := ',' ∉ s ∧ '[' ∉ s

end Spec

open Spec

/-! ## Matching -/

theorem findMatch_none_of_noBracket {s : Str} (h : '[' ∉ s) : findMatch s = none := by
  induction s with
  | nil => rfl
  | cons c cs ih =>
    simp only [List.mem_cons, not_or] at h
    rw [findMatch]
    have : matchHere (c :: cs) = none := by
      unfold matchHere
      split
      · rename_i heq
        injection heq with h1 _
        exact absurd h1.symm h.1
      · rfl
    simp [this, ih h.2]

theorem matchHere_range {a b : Str} (ha : a ≠ []) (hb : b ≠ []) (ha' : ∀ c ∈ a, c.isDigit = true)
    (hb' : ∀ c ∈ b, c.isDigit = true) (rest : Str) :
    matchHere ('[' :: (a ++ '-' :: (b ++ ']' :: rest))) = some (a, b, rest) := by
  have t : ∀ (a : Str) (x : Char) (r : Str), (∀ c ∈ a, c.isDigit = true) → x.isDigit = false →
      (a ++ x :: r).takeWhile Char.isDigit = a ∧
      (a ++ x :: r).dropWhile Char.isDigit = x :: r := by
    intro a x r ha hx
    induction a with
    | nil => simp [hx]
    | cons c cs ih =>
      have := ih (fun y hy => ha y (by simp [hy]))
      simp [ha c (by simp), this]
  have h1 := t a '-' (b ++ ']' :: rest) ha' (by decide)
  have h2 := t b ']' rest hb' (by decide)
  unfold matchHere
  simp only [h1, h2, ha, hb, or_self, if_false]

theorem matchHere_none_of_ne {c : Char} {cs : Str} (h : c ≠ '[') : matchHere (c :: cs) = none := by
  unfold matchHere
  split
  · rename_i heq
    injection heq with h1 _
    exact absurd h1 h
  · rfl

theorem findMatch_append {pre s : Str} (h : '[' ∉ pre) :
    findMatch (pre ++ s) = match findMatch s with
      | some (p, a, b, rest) => some (pre ++ p, a, b, rest)
      | none => none := by
  induction pre with
  | nil => simp only [List.nil_append]; split <;> simp_all
  | cons c cs ih =>
    simp only [List.mem_cons, not_or] at h
    rw [List.cons_append, findMatch, matchHere_none_of_ne (Ne.symm h.1), ih h.2]
    cases findMatch s <;> simp

theorem findMatch_range {pre a b : Str} (hp : '[' ∉ pre) (ha : a ≠ []) (hb : b ≠ [])
    (ha' : ∀ c ∈ a, c.isDigit = true) (hb' : ∀ c ∈ b, c.isDigit = true) (rest : Str) :
    findMatch (pre ++ '[' :: (a ++ '-' :: (b ++ ']' :: rest))) = some (pre, a, b, rest) := by
  rw [findMatch_append hp, findMatch, matchHere_range ha hb ha' hb']
  simp

theorem matchHere_sound {s a b rest : Str} (h : matchHere s = some (a, b, rest)) :
    s = '[' :: (a ++ '-' :: (b ++ ']' :: rest)) := by
  unfold matchHere at h
  split at h
  · rename_i s
    dsimp only at h
    split at h
    · rename_i t ht
      split at h
      · rename_i rest' hr
        split at h
        · simp at h
        · simp only [Option.some.injEq, Prod.mk.injEq] at h
          obtain ⟨rfl, rfl, rfl⟩ := h
          have e1 := List.takeWhile_append_dropWhile (p := Char.isDigit) (l := s)
          have e2 := List.takeWhile_append_dropWhile (p := Char.isDigit) (l := t)
          rw [hr] at e2
          rw [ht] at e1
          rw [e2, e1]
      · simp at h
    · simp at h
  · simp at h

theorem findMatch_sound {s p a b rest : Str} (h : findMatch s = some (p, a, b, rest)) :
    s = p ++ '[' :: (a ++ '-' :: (b ++ ']' :: rest)) := by
  induction s generalizing p with
  | nil => simp [findMatch] at h
  | cons c cs ih =>
    rw [findMatch] at h
    split at h
    · rename_i a' b' r' hm
      simp only [Option.some.injEq, Prod.mk.injEq] at h
      obtain ⟨rfl, rfl, rfl, rfl⟩ := h
      exact matchHere_sound hm
    · split at h
      · rename_i p' a' b' r' hm
        simp only [Option.some.injEq, Prod.mk.injEq] at h
        obtain ⟨rfl, rfl, rfl, rfl⟩ := h
        rw [ih hm]
        simp
      · simp at h

theorem natStr_noBracket (n : ℕ) : '[' ∉ natStr n := fun h =>
  absurd (natStr_digits n _ h) (by decide)

/-- Every level of the recursion removes an opening bracket. -/
theorem splitRegex_count {s pre a b suffix : Str} (h : splitRegex s = some (pre, a, b, suffix))
    (n : ℕ) : (pre ++ natStr n ++ suffix).count '[' < s.count '[' := by
  unfold splitRegex at h
  split at h
  · simp at h
  · rename_i p a' b' rest hm
    simp only [Option.some.injEq, Prod.mk.injEq] at h
    obtain ⟨rfl, rfl, rfl, hsuf⟩ := h
    have hs := findMatch_sound hm
    have hn : (natStr n).count '[' = 0 := List.count_eq_zero.2 (natStr_noBracket n)
    have hle : suffix.count '[' ≤ rest.count '[' := by
      rw [← hsuf]
      split
      · exact le_refl _
      · rename_i hm2
        have := findMatch_sound hm2
        rw [this]
        simp only [List.count_append]
        omega
    rw [hs]
    simp only [List.count_append, List.count_cons, hn, beq_self_eq_true, if_true]
    omega

theorem parsePartFuel_stable (f : ℕ) : ∀ (g : ℕ) (s : Str), s.count '[' ≤ f → s.count '[' ≤ g →
    parsePartFuel f s = parsePartFuel g s := by
  induction f with
  | zero =>
    intro g s hf _
    cases hm : splitRegex s with
    | none => cases g <;> simp [parsePartFuel, hm]
    | some q =>
      have := splitRegex_count hm 0
      omega
  | succ f ih =>
    intro g s hf hg
    cases hm : splitRegex s with
    | none => cases g <;> simp [parsePartFuel, hm]
    | some q =>
      have hc := fun n => splitRegex_count hm n
      have h0 := hc 0
      obtain ⟨g, rfl⟩ : ∃ g', g = g' + 1 := ⟨g - 1, by omega⟩
      simp only [parsePartFuel, hm]
      congr 1
      funext n
      have := hc n
      exact ih _ _ (by omega) (by omega)

/-- `parsePart` satisfies the recursion equation of the source
(`Analysis/MPCDAnalysis/DataManager.py:886-896`): the bound on the recursion is never reached. -/
theorem parsePart_eq (s : Str) : parsePart s =
    match splitRegex s with
    | none => [s]
    | some (pre, a, b, suffix) =>
      (rangeIncl (digitsValue a) (digitsValue b)).flatMap
        (fun n => parsePart (pre ++ natStr n ++ suffix)) := by
  cases hm : splitRegex s with
  | none =>
    rw [parsePart]
    cases s.count '[' <;> simp [parsePartFuel, hm]
  | some q =>
    obtain ⟨pre, a, b, suffix⟩ := q
    have hc := fun n => splitRegex_count hm n
    have h0 := hc 0
    obtain ⟨g, hg⟩ : ∃ g, s.count '[' = g + 1 := ⟨s.count '[' - 1, by omega⟩
    rw [parsePart, hg]
    simp only [parsePartFuel, hm]
    congr 1
    funext n
    have := hc n
    exact parsePartFuel_stable _ _ _ (by omega) (le_refl _)

theorem parsePart_plain {s : Str} (h : '[' ∉ s) : parsePart s = [s] := by
  rw [parsePart, List.count_eq_zero.2 h]
  rfl

theorem parsePart_range {pre a b suf : Str} (hp : '[' ∉ pre) (hs : '[' ∉ suf) (ha : a ≠ [])
    (hb : b ≠ []) (ha' : ∀ c ∈ a, c.isDigit = true) (hb' : ∀ c ∈ b, c.isDigit = true) :
    parsePart (pre ++ '[' :: (a ++ '-' :: (b ++ ']' :: suf))) =
      (rangeIncl (digitsValue a) (digitsValue b)).map (fun n => pre ++ natStr n ++ suf) := by
  have hsp : splitRegex (pre ++ '[' :: (a ++ '-' :: (b ++ ']' :: suf))) = some (pre, a, b, suf) := by
    simp only [splitRegex, findMatch_range hp ha hb ha' hb', findMatch_none_of_noBracket hs]
  rw [parsePart_eq, hsp]
  simp only
  rw [List.map_eq_flatMap]
  congr 1
  funext n
  apply parsePart_plain
  simp [hp, hs, natStr_noBracket]

/-! ## Comma-separated lists -/

theorem splitChar_commaJoin {l : List Str} (hl : l ≠ []) (h : ∀ s ∈ l, ',' ∉ s) :
    splitChar ',' (commaJoin l) = l := by
  induction l with
  | nil => exact absurd rfl hl
  | cons s l ih =>
    cases l with
    | nil => exact splitChar_of_notMem (h s (by simp))
    | cons t ts =>
      rw [commaJoin, splitChar_append_cons (h s (by simp)), ih (by simp)
        (fun x hx => h x (by simp at hx ⊢; tauto))]

theorem parse_commaJoin {l : List Str} (hl : l ≠ []) (h : ∀ s ∈ l, ',' ∉ s) :
    parseSlurmNodeList (commaJoin l) = l.flatMap parsePart := by
  unfold parseSlurmNodeList
  split
  · rw [splitChar_commaJoin hl h]
  · rename_i hc
    cases l with
    | nil => exact absurd rfl hl
    | cons s l =>
      cases l with
      | nil => simp [commaJoin]
      | cons t ts =>
        rw [commaJoin] at hc
        simp at hc

/-! ## C44 -/

/-- The host expressions the parser understands: plain text without comma and bracket, around at
most one bracket, which holds a single range whose lower bound has no leading zero. -/
inductive Simple : List Seg → Prop
  | plain {p : Str} : PlainText p → Simple [.lit p]
  | ranged {p q hi : Str} {lo : ℕ} : PlainText p → PlainText q → hi ≠ [] →
      (∀ c ∈ hi, c.isDigit = true) → Simple [.lit p, .brackets [.range (natStr lo) hi], .lit q]

theorem natStr_length_mono {m n : ℕ} (h : m ≤ n) : (natStr m).length ≤ (natStr n).length := by
  unfold natStr
  by_cases hm : m = 0
  · have := List.length_pos_iff.2 (natStr_ne_nil n)
    unfold natStr at this
    simp only [hm, if_true, List.length_singleton]
    omega
  · rw [if_neg hm, if_neg (by omega)]
    simp only [List.length_reverse, List.length_map]
    exact Nat.le_digits_len_le 10 m n h

theorem zeroPadded_natStr {m n : ℕ} (h : m ≤ n) : zeroPadded (natStr m).length n = natStr n := by
  have := natStr_length_mono h
  rw [zeroPadded, Nat.sub_eq_zero_of_le this]
  rfl

/-- The parser and SLURM agree on a host expression of the simple kind. -/
theorem parsePart_simple {h : List Seg} (hs : Simple h) :
    parsePart (h.flatMap Seg.render) = denoteHost h := by
  cases hs with
  | plain hp =>
    rename_i p
    simp [denoteHost, Seg.render, Seg.denote, parsePart_plain hp.2]
  | ranged hp hq hne hd =>
    rename_i p q hi lo
    have := parsePart_range (suf := q) hp.2 hq.2 (natStr_ne_nil lo) hne (natStr_digits lo) hd
    have e : List.flatMap Seg.render
        [Seg.lit p, Seg.brackets [Item.range (natStr lo) hi], Seg.lit q] =
        p ++ '[' :: (natStr lo ++ '-' :: (hi ++ ']' :: q)) := by
      simp [Seg.render, commaJoin, Item.render]
    rw [e, this]
    simp only [denoteHost, Seg.denote, Item.denote, rangeIncl, digitsValue_natStr, List.map_cons,
      List.map_nil, List.flatMap_cons, List.flatMap_nil, List.append_nil, List.flatMap_map,
      List.map_map]
    rw [List.map_eq_flatMap, List.map_flatMap]
    congr 1
    funext k
    simp [zeroPadded_natStr (Nat.le_add_right lo k)]

theorem simple_noComma {h : List Seg} (hs : Simple h) : ',' ∉ h.flatMap Seg.render := by
  cases hs with
  | plain hp => simpa [Seg.render] using hp.1
  | ranged hp hq hne hd =>
    rename_i p q hi lo
    have h1 : ',' ∉ natStr lo := fun h => absurd (natStr_digits lo _ h) (by decide)
    have h2 : ',' ∉ hi := fun h => absurd (hd _ h) (by decide)
    simp [Seg.render, commaJoin, Item.render, hp.1, hq.1, h1, h2]

/-- C44, for the node lists within the parser's reach: it returns exactly the host names SLURM means.

What is missing for the full statement: zero-padded ranges, several brackets in a host expression,
and lists or single numbers between brackets; for each of them it is false, see below. -/
theorem C44_parse_partial {hosts : List (List Seg)} (hne : hosts ≠ [])
    (h : ∀ x ∈ hosts, Simple x) : parseSlurmNodeList (render hosts) = denote hosts := by
  unfold render denote
  rw [parse_commaJoin (by simpa using hne)
    (by simp only [List.mem_map]; rintro s ⟨x, hx, rfl⟩; exact simple_noComma (h x hx))]
  rw [List.flatMap_map]
  induction hosts with
  | nil => rfl
  | cons x xs ih =>
    rw [List.flatMap_cons, List.flatMap_cons, parsePart_simple (h x (by simp))]
    congr 1
    cases xs with
    | nil => rfl
    | cons y ys => exact ih (by simp) (fun z hz => h z (by simp at hz ⊢; tauto))

example : ∃ hosts : List (List Seg), hosts ≠ [] ∧ (∀ x ∈ hosts, Simple x) ∧
    denote hosts = ["n25".toList, "g8x".toList, "g9x".toList, "g10x".toList] := by
  refine ⟨[[.lit "n25".toList],
    [.lit "g".toList, .brackets [.range (natStr 8) "10".toList], .lit "x".toList]], by simp, ?_, ?_⟩
  · intro x hx
    simp only [List.mem_cons, List.not_mem_nil, or_false] at hx
    rcases hx with rfl | rfl
    · exact .plain ⟨by decide, by decide⟩
    · exact .ranged ⟨by decide, by decide⟩ ⟨by decide, by decide⟩ (by decide) (by decide)
  · decide

/-- C44 fails for zero-padded ranges: of `n[08-10]` the parser makes `n8`, `n9`, `n10`. -/
theorem C44_zero_padding_violated :
    parseSlurmNodeList (render [[.lit "n".toList, .brackets [.range "08".toList "10".toList]]]) ≠
      denote [[.lit "n".toList, .brackets [.range "08".toList "10".toList]]] := by
  decide

/-- C44 fails for two brackets: of `r[1-2]n[1-2]` the parser makes `r1n`, `r2n`. -/
theorem C44_two_brackets_violated :
    parseSlurmNodeList (render [[.lit "r".toList, .brackets [.range "1".toList "2".toList],
      .lit "n".toList, .brackets [.range "1".toList "2".toList]]]) ≠
      denote [[.lit "r".toList, .brackets [.range "1".toList "2".toList],
      .lit "n".toList, .brackets [.range "1".toList "2".toList]]] := by
  decide

/-- C44 fails for lists between brackets: of `n[1-2,5]` the parser makes `n[1-2` and `5]`. -/
theorem C44_bracket_list_violated :
    parseSlurmNodeList (render [[.lit "n".toList,
      .brackets [.range "1".toList "2".toList, .single "5".toList]]]) ≠
      denote [[.lit "n".toList,
      .brackets [.range "1".toList "2".toList, .single "5".toList]]] := by
  decide

/-- The list generated from names is the names joined by commas. -/
theorem makeSlurmNodeList_eq {nodes : List Str} (h : ∀ s ∈ nodes, s ≠ []) :
    makeSlurmNodeList nodes = commaJoin nodes := by
  have key : ∀ (l : List Str) (acc : Str), acc ≠ [] → (∀ s ∈ l, s ≠ []) →
      l.foldl (fun ret node => (if ret = [] then ret else ret ++ ",".toList) ++ node) acc =
        commaJoin (acc :: l) := by
    intro l
    induction l with
    | nil => intro acc _ _; rfl
    | cons s l ih =>
      intro acc hacc hl
      rw [List.foldl_cons, if_neg hacc, ih _ (by simp) (fun x hx => hl x (by simp [hx]))]
      cases l with
      | nil => simp [commaJoin]
      | cons t ts => simp [commaJoin]
  unfold makeSlurmNodeList
  cases nodes with
  | nil => rfl
  | cons s l =>
    rw [List.foldl_cons]
    simpa using key l s (h s (by simp)) (fun x hx => h x (by simp [hx]))

/-- C44, generated lists: parsing the list generated from plain names returns these names, in order
and with repetitions. -/
theorem C44_roundtrip {nodes : List Str} (hne : nodes ≠ [])
    (h : ∀ s ∈ nodes, s ≠ [] ∧ PlainText s) :
    parseSlurmNodeList (makeSlurmNodeList nodes) = nodes := by
  rw [makeSlurmNodeList_eq (fun s hs => (h s hs).1), parse_commaJoin hne (fun s hs => (h s hs).2.1)]
  clear hne
  induction nodes with
  | nil => rfl
  | cons s l ih =>
    rw [List.flatMap_cons, parsePart_plain (h s (by simp)).2.2,
      ih (fun x hx => h x (by simp [hx]))]
    rfl

example : ∃ nodes : List Str, nodes ≠ [] ∧ (∀ s ∈ nodes, s ≠ [] ∧ PlainText s) :=
  ⟨["n25-021".toList, "n25-022".toList], by simp, by
    intro s hs
    simp only [List.mem_cons, List.not_mem_nil, or_false] at hs
    rcases hs with rfl | rfl <;> exact ⟨by decide, by decide, by decide⟩⟩

/-- C44, the empty list does not round-trip: its text is parsed as one node without name. -/
theorem C44_roundtrip_empty_violated : parseSlurmNodeList (makeSlurmNodeList []) ≠ [] := by
  decide

end OpenMPCD.Runs
