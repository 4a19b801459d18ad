import Verif.Snapshot.File
import Mathlib.Tactic.Ring

/-!
# Snapshot files written can be read back (C28)
-/

set_option linter.unusedSimpArgs false
set_option linter.unusedVariables false

namespace OpenMPCD.Snapshot

open Runs (natStr digitsValue digitsValue_natStr natStr_digits natStr_ne_nil)

variable {FP : Type}

/-- Text that is one token: not empty, without white space and commas. -/
def Token (t : Str) : Prop := t ≠ [] ∧ ∀ c ∈ t, isSpace c = false ∧ c ≠ ','

/-- Assumptions on the conversion of numbers: what is written is a token and is read as the same
number. -/
structure Lawful (io : Io FP) : Prop where
  parse_fmt : ∀ x, io.parse (io.fmt x) = some x
  token_fmt : ∀ x, Token (io.fmt x)

/-! ## Lines and tokens -/

/-- A line made of tokens with single spaces between them. -/
def mkLine (t : Str) (ts : List Str) : Str := t ++ ts.flatMap (' ' :: ·)

theorem Token.notSep {t : Str} (h : Token t) : ∀ c ∈ t, (c = ' ' || c = '\t') = false := by
  intro c hc
  have := (h.2 c hc).1
  simp only [isSpace, Bool.or_eq_false_iff, decide_eq_false_iff_not] at this ⊢
  exact ⟨this.1.1.1.1.1, this.1.1.1.1.2⟩

theorem Token.noNewline {t : Str} (h : Token t) : '\n' ∉ t := by
  intro hc
  have := (h.2 _ hc).1
  simp [isSpace] at this

theorem tokensGo_append (acc t r : Str) (h : ∀ c ∈ t, (c = ' ' || c = '\t') = false) :
    tokensGo acc (t ++ r) = tokensGo (acc ++ t) r := by
  induction t generalizing acc with
  | nil => simp
  | cons c t ih =>
    have hc := h c List.mem_cons_self
    simp only [List.cons_append, tokensGo]
    rw [if_neg (by simp [hc]), ih _ fun d hd => h d (List.mem_cons_of_mem _ hd)]
    simp

theorem tokensGo_flatMap (acc : Str) (ts : List Str) (hacc : acc ≠ []) (h : ∀ t ∈ ts, Token t) :
    tokensGo acc (ts.flatMap (' ' :: ·)) = acc :: ts := by
  induction ts generalizing acc with
  | nil => simp [tokensGo, hacc]
  | cons t ts ih =>
    have ht := h t List.mem_cons_self
    simp only [List.flatMap_cons, List.cons_append, tokensGo]
    rw [if_pos (by rfl), if_neg hacc, tokensGo_append _ _ _ ht.notSep, List.nil_append,
      ih t ht.1 fun u hu => h u (List.mem_cons_of_mem _ hu)]

theorem tokens_mkLine (t : Str) (ts : List Str) (ht : Token t) (h : ∀ t ∈ ts, Token t) :
    tokens (mkLine t ts) = t :: ts := by
  unfold tokens mkLine
  rw [tokensGo_append _ _ _ ht.notSep, List.nil_append, tokensGo_flatMap _ _ ht.1 h]

theorem wordsGo_append (acc t r : Str) (h : ∀ c ∈ t, isSpace c = false) :
    wordsGo acc (t ++ r) = wordsGo (acc ++ t) r := by
  induction t generalizing acc with
  | nil => simp
  | cons c t ih =>
    have hc := h c List.mem_cons_self
    simp only [List.cons_append, wordsGo, hc]
    rw [if_neg (by simp), ih _ fun d hd => h d (List.mem_cons_of_mem _ hd)]
    simp

theorem wordsGo_flatMap (acc : Str) (ts : List Str) (hacc : acc ≠ []) (h : ∀ t ∈ ts, Token t) :
    wordsGo acc (ts.flatMap (' ' :: ·)) = acc :: ts := by
  induction ts generalizing acc with
  | nil => simp [wordsGo, hacc]
  | cons t ts ih =>
    have ht := h t List.mem_cons_self
    simp only [List.flatMap_cons, List.cons_append, wordsGo]
    rw [if_pos (by rfl), if_neg hacc, wordsGo_append _ _ _ fun c hc => (ht.2 c hc).1, List.nil_append,
      ih t ht.1 fun u hu => h u (List.mem_cons_of_mem _ hu)]

theorem words_mkLine (t : Str) (ts : List Str) (ht : Token t) (h : ∀ t ∈ ts, Token t) :
    words (mkLine t ts) = t :: ts := by
  unfold words mkLine
  rw [wordsGo_append _ _ _ fun c hc => (ht.2 c hc).1, List.nil_append, wordsGo_flatMap _ _ ht.1 h]

theorem replaceCommaGo_id (ws s : Str) (h : ',' ∉ s) : replaceCommaGo ws false s = ws ++ s := by
  induction s generalizing ws with
  | nil => simp [replaceCommaGo]
  | cons c s ih =>
    have hc : c ≠ ',' := fun hc => h (hc ▸ List.mem_cons_self)
    have hs : ',' ∉ s := fun hs => h (List.mem_cons_of_mem _ hs)
    simp only [replaceCommaGo, hc, if_false, Bool.false_eq_true]
    rw [ih _ hs, ih _ hs]
    split <;> simp

theorem mkLine_noComma (t : Str) (ts : List Str) (ht : Token t) (h : ∀ t ∈ ts, Token t) :
    ',' ∉ mkLine t ts := by
  unfold mkLine
  simp only [List.mem_append, List.mem_flatMap, List.mem_cons, not_or, not_exists, not_and]
  exact ⟨fun hc => (ht.2 _ hc).2 rfl, fun u hu => ⟨by decide, fun hc => ((h u hu).2 _ hc).2 rfl⟩⟩

theorem mkLine_noNewline (t : Str) (ts : List Str) (ht : Token t) (h : ∀ t ∈ ts, Token t) :
    '\n' ∉ mkLine t ts := by
  unfold mkLine
  simp only [List.mem_append, List.mem_flatMap, List.mem_cons, not_or, not_exists, not_and]
  exact ⟨ht.noNewline, fun u hu => ⟨by decide, (h u hu).noNewline⟩⟩

theorem strip_mkLine (t : Str) (ts : List Str) (ht : Token t) : strip (mkLine t ts) = mkLine t ts := by
  obtain ⟨c, t', rfl⟩ := List.exists_cons_of_ne_nil ht.1
  have := (ht.2 c List.mem_cons_self).1
  simp only [isSpace, Bool.or_eq_false_iff, decide_eq_false_iff_not] at this
  simp [strip, mkLine, List.dropWhile_cons, this]

theorem splitLine_append (l r : Str) (h : '\n' ∉ l) : splitLine (l ++ '\n' :: r) = (l, r, false) := by
  induction l with
  | nil => simp [splitLine]
  | cons c l ih =>
    have hc : c ≠ '\n' := fun hc => h (hc ▸ List.mem_cons_self)
    simp only [List.cons_append, splitLine, hc, if_false]
    rw [ih fun hl => h (List.mem_cons_of_mem _ hl)]

theorem getLine_mkLine (extract : Bool) (t : Str) (ts : List Str) (ht : Token t) (h : ∀ t ∈ ts, Token t)
    (rest : Str) : getLine extract ⟨mkLine t ts ++ '\n' :: rest, false⟩ =
      (mkLine t ts, if extract then ⟨rest, false⟩ else ⟨mkLine t ts ++ '\n' :: rest, false⟩) := by
  unfold getLine
  simp only [Bool.false_eq_true, if_false]
  rw [if_neg (by simp), splitLine_append _ _ (mkLine_noNewline t ts ht h), strip_mkLine t ts ht]

theorem natStr_token (n : ℕ) : Token (natStr n) := by
  refine ⟨natStr_ne_nil n, ?_⟩
  intro c hc
  have hd := natStr_digits n c hc
  constructor
  · by_contra hs
    rw [Bool.not_eq_false] at hs
    simp only [isSpace, Bool.or_eq_true, decide_eq_true_eq] at hs
    rcases hs with ((((rfl | rfl) | rfl) | rfl) | rfl) | rfl <;> revert hd <;> decide
  · rintro rfl
    revert hd; decide

theorem token_append {s t : Str} (hs : Token s) (ht : Token t) : Token (s ++ ':' :: t) := by
  refine ⟨by simp, ?_⟩
  intro c hc
  rcases List.mem_append.1 hc with hc | hc
  · exact hs.2 c hc
  · rcases List.mem_cons.1 hc with rfl | hc
    · decide
    · exact ht.2 c hc

/-! ## Atom lines -/

theorem takeWhile_digits (s r : Str) (h : ∀ c ∈ s, c.isDigit = true) (hr : ∀ c ∈ r.head?, c.isDigit = false) :
    (s ++ r).takeWhile Char.isDigit = s ∧ (s ++ r).dropWhile Char.isDigit = r := by
  induction s with
  | nil =>
    cases r with
    | nil => simp
    | cons c r =>
      have := hr c (by simp)
      simp [this]
  | cons c s ih =>
    have hc := h c List.mem_cons_self
    obtain ⟨i1, i2⟩ := ih fun d hd => h d (List.mem_cons_of_mem _ hd)
    simp [hc, i1, i2]

theorem aidMatch_single (n : ℕ) : aidMatch (natStr n) = some (n, none, false) := by
  obtain ⟨h1, h2⟩ := takeWhile_digits (natStr n) [] (natStr_digits n) (by simp)
  rw [List.append_nil] at h1 h2
  unfold aidMatch
  simp only [h1, h2, if_neg (natStr_ne_nil n), digitsValue_natStr]

theorem aidMatch_range (m n : ℕ) : aidMatch (natStr m ++ ':' :: natStr n) = some (m, some n, false) := by
  obtain ⟨h1, h2⟩ := takeWhile_digits (natStr m) (':' :: natStr n) (natStr_digits m) (by simp)
  obtain ⟨h3, h4⟩ := takeWhile_digits (natStr n) [] (natStr_digits n) (by simp)
  rw [List.append_nil] at h3 h4
  unfold aidMatch
  simp only [h1, h2, h3, h4, if_neg (natStr_ne_nil m), if_neg (natStr_ne_nil n), digitsValue_natStr]

/-- The atom specifier. -/
def aid (r : AtomRange FP) : Str :=
  if r.first = r.last then natStr r.first else natStr r.first ++ ':' :: natStr r.last

theorem aid_token (r : AtomRange FP) : Token (aid r) := by
  unfold aid
  split
  · exact natStr_token _
  · exact token_append (natStr_token _) (natStr_token _)

theorem aid_not_default (r : AtomRange FP) : ¬ (aid r = "default".toList ∨ aid r = "default,".toList) := by
  obtain ⟨c, s, hs⟩ := List.exists_cons_of_ne_nil (natStr_ne_nil r.first)
  have hd : c.isDigit = true := natStr_digits r.first c (hs ▸ List.mem_cons_self)
  have hh : (aid r).head? = some c := by
    unfold aid
    split <;> simp [hs]
  rintro (h | h) <;> rw [h] at hh <;> · have : c = 'd' := by simpa using hh.symm
                                        subst this; revert hd; decide

/-- The tokens of an atom line after the first two. -/
def optionTokens (io : Io FP) (p : AtomProps FP) : List Str :=
  (match p.name with | some n => ["name".toList, n] | none => []) ++
  (match p.type with | some t => ["type".toList, t] | none => []) ++
  (match p.radius with | some x => ["radius".toList, io.fmt x] | none => [])

/-- Properties that can be written. -/
def Writable (io : Io FP) (p : AtomProps FP) : Prop :=
  (∀ n, p.name = some n → Token n ∧ n.length ≤ 16) ∧ (∀ t, p.type = some t → Token t ∧ t.length ≤ 16) ∧
  (∀ x, p.radius = some x → io.negative x = false)

theorem token_name : Token "name".toList := ⟨by decide, by decide⟩
theorem token_type : Token "type".toList := ⟨by decide, by decide⟩
theorem token_radius : Token "radius".toList := ⟨by decide, by decide⟩
theorem token_atom : Token "atom".toList := ⟨by decide, by decide⟩
theorem token_bond : Token "bond".toList := ⟨by decide, by decide⟩
theorem token_pbc : Token "pbc".toList := ⟨by decide, by decide⟩
theorem token_timestep : Token "timestep".toList := ⟨by decide, by decide⟩

theorem optionTokens_token (io : Io FP) (hio : Lawful io) (p : AtomProps FP) (hp : Writable io p) :
    ∀ t ∈ optionTokens io p, Token t := by
  intro t ht
  unfold optionTokens at ht
  rcases List.mem_append.1 ht with ht | ht
  · rcases List.mem_append.1 ht with ht | ht
    · cases hn : p.name with
      | none => rw [hn] at ht; cases ht
      | some n =>
        rw [hn] at ht
        rcases List.mem_cons.1 ht with rfl | ht
        · exact token_name
        · rw [List.mem_singleton.1 ht]; exact (hp.1 n hn).1
    · cases hn : p.type with
      | none => rw [hn] at ht; cases ht
      | some n =>
        rw [hn] at ht
        rcases List.mem_cons.1 ht with rfl | ht
        · exact token_type
        · rw [List.mem_singleton.1 ht]; exact (hp.2.1 n hn).1
  · cases hn : p.radius with
    | none => rw [hn] at ht; cases ht
    | some n =>
      rw [hn] at ht
      rcases List.mem_cons.1 ht with rfl | ht
      · exact token_radius
      · rw [List.mem_singleton.1 ht]; exact hio.token_fmt n

theorem atomLine_eq (io : Io FP) (r : AtomRange FP) :
    atomLine io r = mkLine "atom".toList (aid r :: optionTokens io r.properties) ++ ['\n'] := by
  unfold atomLine mkLine aid optionTokens
  have e1 : "atom ".toList = "atom".toList ++ [' '] := by decide
  have e2 : " name ".toList = [' '] ++ "name".toList ++ [' '] := by decide
  have e3 : " type ".toList = [' '] ++ "type".toList ++ [' '] := by decide
  have e4 : " radius ".toList = [' '] ++ "radius".toList ++ [' '] := by decide
  have e5 : ":".toList = [':'] := by decide
  have e6 : "\n".toList = ['\n'] := by decide
  rw [e1, e2, e3, e4, e5, e6]
  generalize "atom".toList = sa
  generalize "name".toList = sn
  generalize "type".toList = st
  generalize "radius".toList = sr
  by_cases h : r.first = r.last <;> cases r.properties.name <;> cases r.properties.type <;>
    cases r.properties.radius <;> simp [h]

theorem optionFold (io : Io FP) (hio : Lawful io) (p : AtomProps FP) (hp : Writable io p)
    (ranges : List (ℕ × ℕ)) :
    (optionTokens io p).foldlM (atomToken io)
      ({ properties := {}, newRanges := ranges, expectAID := false } : AtomLine FP) =
    .ok { properties := p, newRanges := ranges, expectAID := false } := by
  obtain ⟨radius, name, type⟩ := p
  have hN : ∀ st : AtomLine FP, st.expectAID = false → st.optionName = none →
      atomToken io st "name".toList = .ok { st with optionName := some .name } := by
    intro st h1 h2; unfold atomToken; simp only [h1, h2]; rfl
  have hT : ∀ st : AtomLine FP, st.expectAID = false → st.optionName = none →
      atomToken io st "type".toList = .ok { st with optionName := some .type } := by
    intro st h1 h2; unfold atomToken; simp only [h1, h2]; rfl
  have hR : ∀ st : AtomLine FP, st.expectAID = false → st.optionName = none →
      atomToken io st "radius".toList = .ok { st with optionName := some .radius } := by
    intro st h1 h2; unfold atomToken; simp only [h1, h2]; rfl
  have hN2 : ∀ (st : AtomLine FP) (n : Str), n.length ≤ 16 → st.expectAID = false →
      st.optionName = some .name → atomToken io st n =
        .ok { st with properties := { st.properties with name := some n }, optionName := none } := by
    intro st n hn h1 h2; unfold atomToken; simp only [h1, h2]
    rw [if_neg (by simp), if_neg (by simp), if_neg (by omega)]
  have hT2 : ∀ (st : AtomLine FP) (n : Str), n.length ≤ 16 → st.expectAID = false →
      st.optionName = some .type → atomToken io st n =
        .ok { st with properties := { st.properties with type := some n }, optionName := none } := by
    intro st n hn h1 h2; unfold atomToken; simp only [h1, h2]
    rw [if_neg (by simp), if_neg (by simp), if_neg (by omega)]
  have hR2 : ∀ (st : AtomLine FP) (x : FP), io.negative x = false → st.expectAID = false →
      st.optionName = some .radius → atomToken io st (io.fmt x) =
        .ok { st with properties := { st.properties with radius := some x }, optionName := none } := by
    intro st x hn h1 h2; unfold atomToken castFP; simp only [h1, h2, hio.parse_fmt]
    rw [if_neg (by simp), if_neg (by simp)]
    simp only [bind, Except.bind, hn]; rfl
  have q1 : ∀ n, name = some n → n.length ≤ 16 := fun n hn => (hp.1 n hn).2
  have q2 : ∀ n, type = some n → n.length ≤ 16 := fun n hn => (hp.2.1 n hn).2
  have q3 : ∀ n, radius = some n → io.negative n = false := fun n hn => hp.2.2 n hn
  unfold optionTokens
  rw [List.foldlM_append, List.foldlM_append]
  generalize hna : "name".toList = sn at *
  generalize hta : "type".toList = st at *
  generalize hra : "radius".toList = sr at *
  cases name with
  | none =>
    cases type with
    | none =>
      cases radius with
      | none => rfl
      | some x =>
        simp only [List.foldlM_nil, List.foldlM_cons, bind, Except.bind, pure, Except.pure, hR, hR2 _ x (q3 x rfl)]
    | some t =>
      cases radius with
      | none =>
        simp only [List.foldlM_nil, List.foldlM_cons, bind, Except.bind, pure, Except.pure, hT, hT2 _ t (q2 t rfl)]
      | some x =>
        simp only [List.foldlM_nil, List.foldlM_cons, bind, Except.bind, pure, Except.pure, hR, hR2 _ x (q3 x rfl),
          hT, hT2 _ t (q2 t rfl)]
  | some n =>
    cases type with
    | none =>
      cases radius with
      | none =>
        simp only [List.foldlM_nil, List.foldlM_cons, bind, Except.bind, pure, Except.pure, hN, hN2 _ n (q1 n rfl)]
      | some x =>
        simp only [List.foldlM_nil, List.foldlM_cons, bind, Except.bind, pure, Except.pure, hR, hR2 _ x (q3 x rfl),
          hN, hN2 _ n (q1 n rfl)]
    | some t =>
      cases radius with
      | none =>
        simp only [List.foldlM_nil, List.foldlM_cons, bind, Except.bind, pure, Except.pure, hT, hT2 _ t (q2 t rfl),
          hN, hN2 _ n (q1 n rfl)]
      | some x =>
        simp only [List.foldlM_nil, List.foldlM_cons, bind, Except.bind, pure, Except.pure, hR, hR2 _ x (q3 x rfl),
          hT, hT2 _ t (q2 t rfl), hN, hN2 _ n (q1 n rfl)]

theorem setLoop_none (range : AtomRange FP) (l : List (AtomRange FP)) (n : ℕ) (h : Contiguous n l)
    (hr : ending n l ≤ range.first) : setLoop range l = none := by
  induction l generalizing n with
  | nil => rfl
  | cons a l ih =>
    have := contiguous_ending h.2.2
    simp only [ending] at hr
    simp only [setLoop]
    rw [if_pos (by omega), ih (a.last + 1) h.2.2 hr]
    rfl

/-- Declaring the range that follows those there are. -/
theorem setAtomRange_append (dflt : AtomProps FP) (l : List (AtomRange FP)) (range : AtomRange FP)
    (h : Contiguous 0 l) (hr : range.first = numberOfAtoms l) (hle : range.first ≤ range.last) :
    setAtomRange dflt l range = l ++ [range] := by
  unfold setAtomRange
  by_cases hl : l = []
  · subst hl
    have h0 : range.first = 0 := by simpa [numberOfAtoms] using hr
    have : setLoop range [range] = some [range] := by
      simp only [setLoop, overwrite]
      rw [if_neg (by omega), if_neg (by omega), if_pos (le_refl _)]
    simp [h0, this]
  · simp only [if_neg hl]
    rw [setLoop_none range l 0 h (by rw [hr, numberOfAtoms_eq])]
    have hpos : numberOfAtoms l ≠ 0 := by
      rcases List.eq_nil_or_concat l with rfl | ⟨l', r, rfl⟩
      · exact absurd rfl hl
      · simp [numberOfAtoms]
    simp only
    rw [if_neg (by omega)]

/-- Reading an atom line that has been written. -/
theorem readAtomLine_written (io : Io FP) (hio : Lawful io) (s : Snap FP) (r : AtomRange FP)
    (hd : s.defaultAtomProperties = {}) (hc : Contiguous 0 s.atomRanges)
    (hr : r.first = numberOfAtoms s.atomRanges) (hle : r.first ≤ r.last) (hp : Writable io r.properties) :
    readAtomLine io s (mkLine "atom".toList (aid r :: optionTokens io r.properties)) =
      .ok { s with atomRanges := s.atomRanges ++ [r] } := by
  have htok : ∀ t ∈ aid r :: optionTokens io r.properties, Token t := by
    intro t ht
    rcases List.mem_cons.1 ht with rfl | ht
    · exact aid_token r
    · exact optionTokens_token io hio _ hp t ht
  unfold readAtomLine
  have e : replaceComma (mkLine "atom".toList (aid r :: optionTokens io r.properties)) =
      mkLine "atom".toList (aid r :: optionTokens io r.properties) := by
    unfold replaceComma
    rw [replaceCommaGo_id _ _ (mkLine_noComma _ _ token_atom htok), List.nil_append]
  rw [e, tokens_mkLine _ _ token_atom htok]
  simp only [or_true, if_true, List.foldlM_cons]
  have h1 : atomToken io ({ properties := s.defaultAtomProperties } : AtomLine FP) (aid r) =
      .ok { properties := {}, newRanges := [(r.first, r.last)], expectAID := false } := by
    unfold atomToken
    rw [if_neg (by rintro ⟨-, h⟩; exact aid_not_default r h), if_pos rfl]
    unfold aid
    by_cases hfl : r.first = r.last
    · rw [if_pos hfl, aidMatch_single]
      simp only [Option.getD_none, lt_irrefl, if_false, List.nil_append, hd]
      rw [← hfl]
    · rw [if_neg hfl, aidMatch_range]
      simp only [Option.getD_some, List.nil_append, hd]
      rw [if_neg (by omega)]
  rw [h1]
  simp only [bind, Except.bind]
  rw [optionFold io hio _ hp]
  simp only [ne_eq, not_true_eq_false, if_false, Bool.false_eq_true, List.foldl_cons, List.foldl_nil, pure,
    Except.pure]
  rw [setAtomRange_append _ _ _ hc hr hle]

/-! ## Bond lines -/

theorem bondMatch_written (m n : ℕ) :
    bondMatch (natStr m ++ ':' :: natStr n) = some (m, false, n, false) := by
  obtain ⟨h1, h2⟩ := takeWhile_digits (natStr m) (':' :: natStr n) (natStr_digits m) (by simp)
  obtain ⟨h3, h4⟩ := takeWhile_digits (natStr n) [] (natStr_digits n) (by simp)
  rw [List.append_nil] at h3 h4
  obtain ⟨c, s, hs⟩ := List.exists_cons_of_ne_nil (natStr_ne_nil n)
  have hc : c ≠ ':' := by
    rintro rfl
    have := natStr_digits n ':' (hs ▸ List.mem_cons_self)
    revert this; decide
  unfold bondMatch
  simp only [h1, h2, if_neg (natStr_ne_nil m), digitsValue_natStr]
  split
  · rename_i r heq
    rw [hs] at heq
    simp only [List.cons.injEq, true_and] at heq
    exact absurd heq.1 hc
  · rename_i r hno heq
    simp only [List.cons.injEq, true_and] at heq
    subst heq
    simp only [h3, h4, if_neg (natStr_ne_nil n), digitsValue_natStr]
  · rename_i hno1 hno2
    exact absurd rfl (hno2 _)

theorem bondLine_eq (b : ℕ × ℕ) :
    bondLine b = mkLine "bond".toList [natStr b.1 ++ ':' :: natStr b.2] ++ ['\n'] := by
  unfold bondLine mkLine
  have e1 : "bond ".toList = "bond".toList ++ [' '] := by decide
  have e5 : ":".toList = [':'] := by decide
  have e6 : "\n".toList = ['\n'] := by decide
  rw [e1, e5, e6]
  generalize "bond".toList = sb
  simp

theorem setInsert_append (b : ℕ × ℕ) (l : List (ℕ × ℕ)) (h : ∀ c ∈ l, pairLt c b = true) :
    setInsert b l = l ++ [b] := by
  induction l with
  | nil => rfl
  | cons c l ih =>
    have hc := h c List.mem_cons_self
    have : pairLt b c = false := by
      simp only [pairLt, Bool.or_eq_true, Bool.and_eq_true, decide_eq_true_eq, Bool.or_eq_false_iff,
        Bool.and_eq_false_iff, decide_eq_false_iff_not] at hc ⊢
      omega
    simp only [setInsert, this]
    rw [if_neg (by simp), ih fun d hd => h d (List.mem_cons_of_mem _ hd)]
    rfl

theorem readBondLine_written (s : Snap FP) (b : ℕ × ℕ) (hb : b.1 < b.2)
    (hn : b.2 < numberOfAtoms s.atomRanges) (h : ∀ c ∈ s.bonds, pairLt c b = true) :
    readBondLine s (mkLine "bond".toList [natStr b.1 ++ ':' :: natStr b.2]) =
      .ok { s with bonds := s.bonds ++ [b] } := by
  have htok : ∀ t ∈ [natStr b.1 ++ ':' :: natStr b.2], Token t := by
    intro t ht
    rw [List.mem_singleton.1 ht]
    exact token_append (natStr_token _) (natStr_token _)
  have hmem : b ∉ s.bonds := by
    intro hm
    have := h b hm
    simp [pairLt] at this
  unfold readBondLine
  have e : replaceComma (mkLine "bond".toList [natStr b.1 ++ ':' :: natStr b.2]) =
      mkLine "bond".toList [natStr b.1 ++ ':' :: natStr b.2] := by
    unfold replaceComma
    rw [replaceCommaGo_id _ _ (mkLine_noComma _ _ token_bond htok), List.nil_append]
  rw [e, tokens_mkLine _ _ token_bond htok]
  have h1 : bondToken (s, true) (natStr b.1 ++ ':' :: natStr b.2) =
      .ok ({ s with bonds := s.bonds ++ [b] }, false) := by
    unfold bondToken
    simp only [not_true_eq_false, if_false, bondMatch_written]
    rw [if_neg (by omega), if_neg (by omega)]
    unfold addBond
    simp only [Bool.false_eq_true, if_false, if_neg hmem]
    rw [setInsert_append b _ h]
    rfl
  simp only [or_true, if_true, List.foldlM_cons, h1, bind, Except.bind, List.foldlM_nil, pure, Except.pure]

/-! ## The structure block -/

theorem readStructureBlock_line (io : Io FP) (s s' : Snap FP) (t : Str) (ts : List Str) (ht : Token t)
    (h : ∀ t ∈ ts, Token t) (rest : Str)
    (hs : structureLine io s (mkLine t ts) = .ok (some s')) :
    readStructureBlock io s ⟨mkLine t ts ++ '\n' :: rest, false⟩ = readStructureBlock io s' ⟨rest, false⟩ := by
  rw [readStructureBlock]
  simp only [getLine_mkLine _ t ts ht h, if_true, if_false, Bool.false_eq_true, dite_false, hs]

theorem structureLine_atom (io : Io FP) (s : Snap FP) (ts : List Str) :
    structureLine io s (mkLine "atom".toList ts) = (readAtomLine io s (mkLine "atom".toList ts)).map some := rfl

theorem structureLine_bond (io : Io FP) (s : Snap FP) (ts : List Str) :
    structureLine io s (mkLine "bond".toList ts) = (readBondLine s (mkLine "bond".toList ts)).map some := rfl

theorem structureLine_pbc (io : Io FP) (s : Snap FP) (ts : List Str) :
    structureLine io s (mkLine "pbc".toList ts) = (readUnitcellLine io s (mkLine "pbc".toList ts)).map some :=
  rfl

theorem structureLine_timestep (io : Io FP) (s : Snap FP) (ts : List Str) :
    structureLine io s (mkLine "timestep".toList ts) = .ok none := rfl

theorem readUnitcellLine_written (io : Io FP) (hio : Lawful io) (s : Snap FP) (x y z : FP) :
    readUnitcellLine io s (mkLine "pbc".toList [io.fmt x, io.fmt y, io.fmt z]) =
      .ok { s with volume := some (x, y, z) } := by
  unfold readUnitcellLine
  rw [words_mkLine _ _ token_pbc (by simp [hio.token_fmt])]
  simp only [castFP, hio.parse_fmt]
  rw [if_pos ⟨by simp, by simp, by rfl⟩]
  rfl

theorem read_atoms (io : Io FP) (hio : Lawful io) (rs : List (AtomRange FP)) (rest : Str) :
    ∀ s : Snap FP, s.defaultAtomProperties = {} → Contiguous 0 (s.atomRanges ++ rs) →
      (∀ r ∈ rs, Writable io r.properties) →
      readStructureBlock io s ⟨rs.flatMap (atomLine io) ++ rest, false⟩ =
        readStructureBlock io { s with atomRanges := s.atomRanges ++ rs } ⟨rest, false⟩ := by
  induction rs with
  | nil => intro s _ _ _; simp
  | cons r rs ih =>
    intro s hd hc hw
    have hcont : Contiguous 0 s.atomRanges ∧ r.first = numberOfAtoms s.atomRanges ∧ r.first ≤ r.last := by
      rw [numberOfAtoms_eq]
      have key : ∀ (l : List (AtomRange FP)) (n : ℕ), Contiguous n (l ++ r :: rs) →
          Contiguous n l ∧ r.first = ending n l ∧ r.first ≤ r.last := by
        intro l
        induction l with
        | nil => intro n h; exact ⟨trivial, h.1, h.2.1⟩
        | cons a l ih =>
          intro n h
          obtain ⟨g1, g2, g3⟩ := ih _ h.2.2
          exact ⟨⟨h.1, h.2.1, g1⟩, g2, g3⟩
      exact key _ 0 hc
    obtain ⟨h1, h2, h3⟩ := hcont
    have hwr := hw r List.mem_cons_self
    have htok : ∀ t ∈ aid r :: optionTokens io r.properties, Token t := by
      intro t ht
      rcases List.mem_cons.1 ht with rfl | ht
      · exact aid_token r
      · exact optionTokens_token io hio _ hwr t ht
    rw [List.flatMap_cons, atomLine_eq]
    simp only [List.append_assoc, List.singleton_append, List.cons_append, List.nil_append]
    rw [readStructureBlock_line io s { s with atomRanges := s.atomRanges ++ [r] } _ _ token_atom htok
      _ (by rw [structureLine_atom, readAtomLine_written io hio s r hd h1 h2 h3 hwr]; rfl)]
    rw [ih { s with atomRanges := s.atomRanges ++ [r] } hd (by simpa using hc) fun q hq => hw q (List.mem_cons_of_mem _ hq)]
    simp

theorem read_bonds (io : Io FP) (bs : List (ℕ × ℕ)) (rest : Str) :
    ∀ s : Snap FP, (∀ b ∈ bs, b.1 < b.2 ∧ b.2 < numberOfAtoms s.atomRanges) →
      (s.bonds ++ bs).Pairwise (fun p q => pairLt p q = true) →
      readStructureBlock io s ⟨bs.flatMap bondLine ++ rest, false⟩ =
        readStructureBlock io { s with bonds := s.bonds ++ bs } ⟨rest, false⟩ := by
  induction bs with
  | nil => intro s _ _; simp
  | cons b bs ih =>
    intro s hb hp
    have hb0 := hb b List.mem_cons_self
    have htok : ∀ t ∈ [natStr b.1 ++ ':' :: natStr b.2], Token t := by
      intro t ht
      rw [List.mem_singleton.1 ht]
      exact token_append (natStr_token _) (natStr_token _)
    rw [List.flatMap_cons, bondLine_eq]
    simp only [List.append_assoc, List.singleton_append, List.cons_append, List.nil_append]
    rw [readStructureBlock_line io s { s with bonds := s.bonds ++ [b] } _ _ token_bond htok
      _ (by
        rw [structureLine_bond, readBondLine_written s b hb0.1 hb0.2]
        · rfl
        · intro c hc
          exact (List.pairwise_append.1 hp).2.2 c hc b List.mem_cons_self)]
    rw [ih { s with bonds := s.bonds ++ [b] } (fun c hc => hb c (List.mem_cons_of_mem _ hc))
      (by simpa using hp)]
    simp

/-- What holds of a snapshot whose structure can be written and read. -/
structure Sound (io : Io FP) (s : Snap FP) : Prop where
  writeMode : s.writeMode = true
  dflt : s.defaultAtomProperties = {}
  contiguous : Contiguous 0 s.atomRanges
  bonds : BondsOK s
  writable : ∀ r ∈ s.atomRanges, Writable io r.properties

/-- The snapshot after opening the written file. -/
def reread (s : Snap FP) : Snap FP :=
  { s with writeMode := false, structureBlockProcessed := true }

theorem volumeText_eq (io : Io FP) (x y z : FP) :
    volumeText io (some (x, y, z)) = mkLine "pbc".toList [io.fmt x, io.fmt y, io.fmt z] ++ ['\n'] := by
  have e1 : "pbc ".toList = "pbc".toList ++ [' '] := by decide
  have e5 : " ".toList = [' '] := by decide
  have e6 : "\n".toList = ['\n'] := by decide
  unfold volumeText mkLine
  simp only [e1, e5, e6]
  generalize "pbc".toList = sb
  simp

theorem read_volume (io : Io FP) (hio : Lawful io) (v : Option (FP × FP × FP)) (r : Str) :
    readStructureBlock io { writeMode := false } ⟨volumeText io v ++ r, false⟩ =
      readStructureBlock io { writeMode := false, volume := v } ⟨r, false⟩ := by
  match v with
  | none => rw [show volumeText io none = [] from rfl, List.nil_append]
  | some (x, y, z) =>
    rw [volumeText_eq]
    simp only [List.append_assoc, List.singleton_append, List.cons_append, List.nil_append]
    have htok : ∀ t ∈ [io.fmt x, io.fmt y, io.fmt z], Token t := by simp [hio.token_fmt]
    refine readStructureBlock_line io _ { writeMode := false, volume := some (x, y, z) } _ _ token_pbc htok _ ?_
    rw [structureLine_pbc, readUnitcellLine_written io hio]
    rfl

theorem read_structure (io : Io FP) (hio : Lawful io) (s : Snap FP) (hs : Sound io s) (rest : Str) :
    readStructureBlock io { writeMode := false } ⟨structureText io s ++ rest, false⟩ =
      readStructureBlock io { (reread s) with structureBlockProcessed := false } ⟨rest, false⟩ := by
  unfold structureText
  rw [List.append_assoc, List.append_assoc, read_volume io hio,
    read_atoms io hio s.atomRanges _ _ rfl (by simpa using hs.contiguous) hs.writable,
    read_bonds io s.bonds _ _ (by simpa using hs.bonds.1) (by simpa using hs.bonds.2)]
  simp only [List.nil_append, reread, hs.dflt]

/-! ## Timesteps -/

/-- Positions and velocities, three numbers for each atom. -/
abbrev Frame (FP : Type) := (ℕ → FP) × Option (ℕ → FP)

/-- Tokens of the line of an atom. -/
def frameTokens (io : Io FP) (f : Frame FP) (i : ℕ) : List Str :=
  [io.fmt (f.1 (3 * i + 1)), io.fmt (f.1 (3 * i + 2))] ++
  match f.2 with
  | some v => [io.fmt (v (3 * i)), io.fmt (v (3 * i + 1)), io.fmt (v (3 * i + 2))]
  | none => []

theorem frameTokens_token (io : Io FP) (hio : Lawful io) (f : Frame FP) (i : ℕ) :
    ∀ t ∈ frameTokens io f i, Token t := by
  obtain ⟨p, v⟩ := f
  cases v <;> simp [frameTokens, hio.token_fmt]

theorem timestepText_eq (io : Io FP) (n : ℕ) (f : Frame FP) :
    timestepText io n f.1 f.2 = mkLine "timestep".toList [] ++ '\n' ::
      (List.range' 0 n).flatMap fun i => mkLine (io.fmt (f.1 (3 * i))) (frameTokens io f i) ++ ['\n'] := by
  unfold timestepText mkLine frameTokens
  have e1 : "timestep\n".toList = "timestep".toList ++ ['\n'] := by decide
  have e5 : " ".toList = [' '] := by decide
  have e6 : "\n".toList = ['\n'] := by decide
  rw [e1, e5, e6, List.range_eq_range']
  generalize "timestep".toList = sb
  obtain ⟨p, v⟩ := f
  cases v <;> simp

/-- The buffer after the first `a` atoms have been read into it. -/
def filled (p : ℕ → FP) (a : ℕ) (b : ℕ → FP) : ℕ → FP := fun j => if j < 3 * a then p j else b j

theorem filled_step (p : ℕ → FP) (a : ℕ) (b : ℕ → FP) :
    Function.update (Function.update (Function.update (filled p a b) (3 * a) (p (3 * a))) (3 * a + 1)
      (p (3 * a + 1))) (3 * a + 2) (p (3 * a + 2)) = filled p (a + 1) b := by
  funext j
  simp only [Function.update_apply, filled]
  by_cases h2 : j = 3 * a + 2
  · subst h2; rw [if_pos rfl, if_pos (by omega)]
  · rw [if_neg h2]
    by_cases h1 : j = 3 * a + 1
    · subst h1; rw [if_pos rfl, if_pos (by omega)]
    · rw [if_neg h1]
      by_cases h0 : j = 3 * a
      · subst h0; rw [if_pos rfl, if_pos (by omega)]
      · rw [if_neg h0]
        by_cases h : j < 3 * a
        · rw [if_pos h, if_pos (by omega)]
        · rw [if_neg h, if_neg (by omega)]

/-- The velocity buffer after the first `a` atoms. -/
def filledVel (f : Frame FP) (a : ℕ) (b : Option (ℕ → FP)) : Option (ℕ → FP) :=
  match f.2 with
  | some v => b.map (filled v a)
  | none => b

theorem coordTokens_written (io : Io FP) (hio : Lawful io) (f : Frame FP) (a : ℕ) (pos vel : Option (ℕ → FP)) :
    coordTokens io a 0 (io.fmt (f.1 (3 * a)) :: frameTokens io f a) (pos.map (filled f.1 a))
        (filledVel f a vel) =
      .ok (if f.2.isSome then 6 else 3, pos.map (filled f.1 (a + 1)), filledVel f (a + 1) vel) := by
  obtain ⟨p, v⟩ := f
  have e3 : ∀ v : ℕ → FP, ∀ a b, Function.update (Function.update (Function.update (filled v a b)
      (3 * a + 3 - 3) (v (3 * a))) (3 * a + 4 - 3) (v (3 * a + 1))) (3 * a + 5 - 3) (v (3 * a + 2)) =
      filled v (a + 1) b := by
    intro v a b
    exact filled_step v a b
  cases v with
  | none =>
    cases pos with
    | none =>
      cases vel <;>
      simp [frameTokens, coordTokens, store, castFP, hio.parse_fmt, bind, Except.bind, Except.map, filledVel]
    | some b =>
      cases vel <;>
      simp [frameTokens, coordTokens, store, castFP, hio.parse_fmt, bind, Except.bind, Except.map, filledVel,
        filled_step]
  | some v =>
    cases pos with
    | none =>
      cases vel with
      | none =>
        simp [frameTokens, coordTokens, store, castFP, hio.parse_fmt, bind, Except.bind, Except.map, filledVel]
      | some w =>
        simp [frameTokens, coordTokens, store, castFP, hio.parse_fmt, bind, Except.bind, Except.map, filledVel,
          filled_step]
    | some b =>
      cases vel with
      | none =>
        simp [frameTokens, coordTokens, store, castFP, hio.parse_fmt, bind, Except.bind, Except.map, filledVel,
          filled_step]
      | some w =>
        simp [frameTokens, coordTokens, store, castFP, hio.parse_fmt, bind, Except.bind, Except.map, filledVel,
          filled_step]

theorem mkLine_ne_nil (t : Str) (ts : List Str) (ht : Token t) : mkLine t ts ≠ [] := by
  unfold mkLine
  simp [ht.1]

theorem atomLoop_written (io : Io FP) (hio : Lawful io) (f : Frame FP) (pos vel : Option (ℕ → FP))
    (rest : Str) (n : ℕ) : ∀ (k a : ℕ) (wV woV : Bool), a + k = n →
    atomLoop io n a wV woV (pos.map (filled f.1 a)) (filledVel f a vel)
      ⟨((List.range' a k).flatMap fun i => mkLine (io.fmt (f.1 (3 * i))) (frameTokens io f i) ++ ['\n'])
        ++ rest, false⟩ =
    .ok ((n, wV || (f.2.isSome && decide (0 < k)), woV || (!f.2.isSome && decide (0 < k)),
      pos.map (filled f.1 n), filledVel f n vel), ⟨rest, false⟩) := by
  intro k
  induction k with
  | zero =>
    intro a wV woV ha
    have : a = n := by omega
    subst this
    rw [atomLoop, if_pos (by omega)]
    simp
  | succ k ih =>
    intro a wV woV ha
    rw [atomLoop, if_neg (by omega), dif_neg (by simp)]
    simp only [List.range'_succ, List.flatMap_cons, List.append_assoc, List.singleton_append, List.cons_append, List.nil_append]
    rw [getLine_mkLine true _ _ (hio.token_fmt _) (frameTokens_token io hio f a)]
    simp only [if_neg (mkLine_ne_nil _ _ (hio.token_fmt _)), if_true]
    rw [tokens_mkLine _ _ (hio.token_fmt _) (frameTokens_token io hio f a), coordTokens_written io hio]
    simp only
    cases hv : f.2 with
    | none =>
      have := ih (a + 1) wV true (by omega)
      simp only [hv] at this
      simp only [Option.isSome_none, Bool.false_eq_true, if_false, if_true]
      rw [this]
      simp
    | some v =>
      have := ih (a + 1) true woV (by omega)
      simp only [hv] at this
      simp only [Option.isSome_some, if_true]
      rw [if_neg (by decide), this]
      simp

/-- Reading a timestep that has been written. -/
theorem readTimestepBlock_written (io : Io FP) (hio : Lawful io) (s : Snap FP) (hs : s.writeMode = false)
    (f : Frame FP) (rest : Str) (pos vel : Option (ℕ → FP)) :
    readTimestepBlock io s ⟨timestepText io (numberOfAtoms s.atomRanges) f.1 f.2 ++ rest, false⟩ pos vel =
      .ok (⟨true, if numberOfAtoms s.atomRanges = 0 then none else some f.2.isSome,
        pos.map (filled f.1 (numberOfAtoms s.atomRanges)),
        filledVel f (numberOfAtoms s.atomRanges) vel⟩, ⟨rest, false⟩) := by
  unfold readTimestepBlock
  rw [if_neg (by simp [hs]), timestepText_eq]
  simp only [List.append_assoc, List.cons_append]
  rw [headerLine, dif_neg (by simp), getLine_mkLine true _ _ token_timestep (by simp)]
  rw [if_neg (mkLine_ne_nil _ _ token_timestep)]
  have hc : checkHeader (mkLine "timestep".toList []) = .ok () := by
    unfold checkHeader
    rw [tokens_mkLine _ _ token_timestep (by simp)]
    simp
  simp only [if_true, hc, bind, Except.bind]
  have h0 : ∀ (g : ℕ → FP) b, filled g 0 b = b := by intro g b; funext j; simp [filled]
  have hf0 : (filled f.1 0 : (ℕ → FP) → ℕ → FP) = id := by funext b; simp [h0]
  have hv0 : filledVel f 0 vel = vel := by
    unfold filledVel
    cases f.2 with
    | none => rfl
    | some v =>
      have : (filled v 0 : (ℕ → FP) → ℕ → FP) = id := by funext b; simp [h0]
      simp [this]
  by_cases hn : numberOfAtoms s.atomRanges = 0
  · simp only [hn, if_true, pure, Except.pure]
    simp [hf0, hv0]
  · have := atomLoop_written io hio f pos vel rest (numberOfAtoms s.atomRanges) _ 0 false false (Nat.zero_add _)
    simp only [hf0, hv0, Option.map_id_fun, id] at this
    simp only [if_neg hn, this]
    have hpos : 0 < numberOfAtoms s.atomRanges := Nat.pos_of_ne_zero hn
    cases hv : f.2 <;> simp [hn, hpos, pure, Except.pure]

/-! ## C28 -/

/-- Reading a sequence of timesteps, with any buffers, each of which may be missing: every call returns
`true`, fills the buffers with the data of the timestep (the velocity buffer only if there are velocities),
leaves the rest of the buffers unchanged, and reports whether there are velocities; the call after the last
timestep returns `false` and changes nothing, as do all further calls. -/
def Reads (io : Io FP) (s : Snap FP) : Stream → List (Frame FP) → Prop
  | st, [] => ∀ pos vel, ∃ st', readTimestepBlock io s st pos vel = .ok (⟨false, none, pos, vel⟩, st') ∧
      ∀ pos vel, readTimestepBlock io s st' pos vel = .ok (⟨false, none, pos, vel⟩, st')
  | st, f :: fs => ∀ pos vel, ∃ r st', readTimestepBlock io s st pos vel = .ok (r, st') ∧
      r.returned = true ∧
      (numberOfAtoms s.atomRanges ≠ 0 → r.velocitiesEncountered = some f.2.isSome) ∧
      (r.positions.isSome = pos.isSome ∧ r.velocities.isSome = vel.isSome) ∧
      (∀ b ∈ pos, ∀ c ∈ r.positions, ∀ j,
        c j = if j < 3 * numberOfAtoms s.atomRanges then f.1 j else b j) ∧
      (∀ b ∈ vel, ∀ c ∈ r.velocities, ∀ j,
        c j = match f.2 with
          | some v => if j < 3 * numberOfAtoms s.atomRanges then v j else b j
          | none => b j) ∧
      Reads io s st' fs

/-- The text of a sequence of timesteps. -/
def framesText (io : Io FP) (n : ℕ) (fs : List (Frame FP)) : Str :=
  fs.flatMap fun f => timestepText io n f.1 f.2

theorem reads_end (io : Io FP) (s : Snap FP) (hs : s.writeMode = false) (e : Bool) :
    Reads io s ⟨[], e⟩ [] := by
  have h1 : ∀ pos vel, readTimestepBlock io s ⟨[], true⟩ pos vel =
      .ok (⟨false, none, pos, vel⟩, ⟨[], true⟩) := by
    intro pos vel
    unfold readTimestepBlock
    rw [if_neg (by simp [hs]), headerLine, dif_pos rfl]
  intro pos vel
  cases e with
  | true => exact ⟨_, h1 pos vel, h1⟩
  | false =>
    refine ⟨⟨[], true⟩, ?_, h1⟩
    unfold readTimestepBlock
    rw [if_neg (by simp [hs]), headerLine, dif_neg (by simp)]
    have : getLine true ⟨[], false⟩ = ([], ⟨[], true⟩) := rfl
    rw [this, if_pos rfl, headerLine, dif_pos rfl]

theorem reads_frames (io : Io FP) (hio : Lawful io) (s : Snap FP) (hs : s.writeMode = false)
    (fs : List (Frame FP)) :
    Reads io s ⟨framesText io (numberOfAtoms s.atomRanges) fs, false⟩ fs := by
  induction fs with
  | nil => exact reads_end io s hs false
  | cons f fs ih =>
    intro pos vel
    refine ⟨_, _, readTimestepBlock_written io hio s hs f _ pos vel, rfl, ?_, ?_, ?_, ?_, ih⟩
    · intro hn
      simp [hn]
    · cases pos <;> cases vel <;> cases hv : f.2 <;> simp [filledVel, hv]
    · intro b hb c hc j
      rw [Option.mem_def] at hb
      subst hb
      simp only [Option.map_some, Option.mem_some_iff] at hc
      subst hc
      rfl
    · intro b hb c hc j
      rw [Option.mem_def] at hb
      subst hb
      unfold filledVel at hc
      cases hv : f.2 with
      | none =>
        simp only [hv, Option.mem_some_iff] at hc
        subst hc
        rfl
      | some v =>
        simp only [hv, Option.map_some, Option.mem_some_iff] at hc
        subst hc
        rfl

/-- The timesteps written by a sequence of calls. -/
def framesOf : List (WriteOp FP) → List (Frame FP)
  | [] => []
  | .writeTimestep (some p) v :: ops => (p, v) :: framesOf ops
  | _ :: ops => framesOf ops

/-- The names and types in the calls contain neither white space nor commas. -/
def OpsOK (ops : List (WriteOp FP)) : Prop :=
  ∀ op ∈ ops, match op with
    | .declareAtoms _ _ name type => (∀ c ∈ name, isSpace c = false ∧ c ≠ ',') ∧
        ∀ c ∈ type, isSpace c = false ∧ c ≠ ','
    | _ => True

theorem framesOf_append (xs ys : List (WriteOp FP)) : framesOf (xs ++ ys) = framesOf xs ++ framesOf ys := by
  induction xs with
  | nil => rfl
  | cons x xs ih =>
    rcases x with v | ⟨c, r, n, t⟩ | ⟨a, b⟩ | ⟨_ | p, v⟩ <;> simp [framesOf, ih]

/-- Invariant of writing. -/
structure Inv (io : Io FP) (ops : List (WriteOp FP)) (sf : Snap FP × Str) : Prop where
  sound : Sound io sf.1
  text : sf.2 = if sf.1.structureBlockProcessed then
      structureText io sf.1 ++ framesText io (numberOfAtoms sf.1.atomRanges) (framesOf ops)
    else []
  frames : sf.1.structureBlockProcessed = false → framesOf ops = []

theorem inv_ensure (io : Io FP) (ops : List (WriteOp FP)) (sf : Snap FP × Str) (h : Inv io ops sf) :
    Inv io ops (ensureStructure io sf) ∧ (ensureStructure io sf).1.structureBlockProcessed = true ∧
    (ensureStructure io sf).1.atomRanges = sf.1.atomRanges := by
  unfold ensureStructure
  by_cases hp : sf.1.structureBlockProcessed = true
  · rw [if_pos hp]; exact ⟨h, hp, rfl⟩
  · rw [if_neg hp]
    have hp' : sf.1.structureBlockProcessed = false := by simpa using hp
    refine ⟨⟨⟨h.sound.writeMode, h.sound.dflt, h.sound.contiguous, h.sound.bonds, h.sound.writable⟩, ?_, ?_⟩,
      rfl, rfl⟩
    · have ht := h.text
      rw [if_neg hp] at ht
      simp only [ht, h.frames hp', framesText, List.nil_append, List.flatMap_nil, List.append_nil, if_true]
      rfl
    · intro h'; cases h'

theorem inv_step (io : Io FP) (hio : Lawful io) (ops : List (WriteOp FP)) (op : WriteOp FP) (hop : OpsOK [op])
    (sf : Snap FP × Str) (h : Inv io ops sf) : Inv io (ops ++ [op]) (writeStep io sf op) := by
  have hadd : ∀ o : WriteOp FP, framesOf [o] = [] → framesOf (ops ++ [o]) = framesOf ops := by
    intro o ho; rw [framesOf_append, ho, List.append_nil]
  have hop := hop op (by simp)
  rcases op with v | ⟨c, r, n, t⟩ | ⟨a, b⟩ | ⟨_ | p, v⟩
  · -- setVolume
    simp only [writeStep]
    have hf := hadd (.setVolume v) rfl
    unfold setVolume checkWritable
    simp only [h.sound.writeMode, not_true_eq_false, if_false]
    by_cases hp : sf.1.structureBlockProcessed = true
    · simp only [if_pos hp]
      exact ⟨h.sound, by rw [hf]; exact h.text, by rw [hf]; exact h.frames⟩
    · simp only [if_neg hp]
      have hp' : sf.1.structureBlockProcessed = false := by simpa using hp
      have ht := h.text
      rw [if_neg hp] at ht
      refine ⟨⟨rfl, h.sound.dflt, h.sound.contiguous, h.sound.bonds, h.sound.writable⟩, ?_,
        by rw [hf]; exact h.frames⟩
      simp only [hp', ht]
      rfl
  · -- declareAtoms
    simp only [writeStep]
    have hf := hadd (.declareAtoms c r n t) rfl
    have same : Inv io (ops ++ [.declareAtoms c r n t]) (sf.1, sf.2) :=
      ⟨h.sound, by rw [hf]; exact h.text, by rw [hf]; exact h.frames⟩
    by_cases hp : sf.1.structureBlockProcessed = true
    · unfold declareAtoms checkWritable
      simp only [h.sound.writeMode, not_true_eq_false, if_false, if_pos hp]
      exact same
    · have hp' : sf.1.structureBlockProcessed = false := by simpa using hp
      by_cases hc : c = 0
      · unfold declareAtoms checkWritable
        simp only [h.sound.writeMode, not_true_eq_false, if_false, if_neg hp, if_pos hc]
        exact same
      by_cases hr : ∃ x, r = some x ∧ io.negative x = true
      · unfold declareAtoms checkWritable
        simp only [h.sound.writeMode, not_true_eq_false, if_false, if_neg hp, if_neg hc, if_pos hr]
        exact same
      by_cases hn : n.length > 16
      · unfold declareAtoms checkWritable
        simp only [h.sound.writeMode, not_true_eq_false, if_false, if_neg hp, if_neg hc, if_neg hr, if_pos hn]
        exact same
      by_cases ht : t.length > 16
      · unfold declareAtoms checkWritable
        simp only [h.sound.writeMode, not_true_eq_false, if_false, if_neg hp, if_neg hc, if_neg hr, if_neg hn,
          if_pos ht]
        exact same
      obtain ⟨s', props, e, pr, pn, pt, hcont, hnum, hbonds, hwm, hsp, hdf, hvol, hrg, -⟩ :=
        C26_declareAtoms (fun x => io.negative x = true) sf.1 h.sound.contiguous h.sound.writeMode hp' c hc r
          (fun x hx hneg => hr ⟨x, hx, hneg⟩) n t (by omega) (by omega)
      rw [e]
      have htx := h.text
      rw [if_neg hp] at htx
      refine ⟨⟨by rw [hwm]; exact h.sound.writeMode, by rw [hdf]; exact h.sound.dflt, hcont, ?_, ?_⟩, ?_, ?_⟩
      · refine ⟨?_, by simp only [hbonds]; exact h.sound.bonds.2⟩
        intro b hb
        simp only [hbonds] at hb
        have := h.sound.bonds.1 b hb
        exact ⟨this.1, by simp only [hnum]; omega⟩
      · intro q hq
        simp only [hrg] at hq
        rcases List.mem_append.1 hq with hq | hq
        · exact h.sound.writable q hq
        · rw [List.mem_singleton.1 hq]
          rw [h.sound.dflt] at pr pn pt
          refine ⟨?_, ?_, ?_⟩
          · intro m hm
            simp only [pn] at hm
            split at hm
            · cases hm
            · rename_i hne
              rw [← Option.some.inj hm]
              exact ⟨⟨hne, hop.1⟩, by omega⟩
          · intro m hm
            simp only [pt] at hm
            split at hm
            · cases hm
            · rename_i hne
              rw [← Option.some.inj hm]
              exact ⟨⟨hne, hop.2⟩, by omega⟩
          · intro x hx
            simp only [pr, Option.or_none] at hx
            by_contra hcon
            exact hr ⟨x, hx, by simpa using hcon⟩
      · rw [if_neg (by simp only [hsp, hp']; simp)]
        exact htx
      · intro _
        rw [hf]; exact h.frames hp'
  · -- declareBond
    simp only [writeStep]
    have hf := hadd (.declareBond a b) rfl
    obtain ⟨-, herr, hok, hrg, -⟩ := C27_declareBond sf.1 h.sound.bonds a b
    have hfields : (declareBond sf.1 a b).1.writeMode = sf.1.writeMode ∧
        (declareBond sf.1 a b).1.structureBlockProcessed = sf.1.structureBlockProcessed ∧
        (declareBond sf.1 a b).1.defaultAtomProperties = sf.1.defaultAtomProperties ∧
        (sf.1.structureBlockProcessed = true → (declareBond sf.1 a b).1 = sf.1) := by
      unfold declareBond checkWritable
      by_cases hp : sf.1.structureBlockProcessed = true
      · simp [h.sound.writeMode, hp]
      · simp only [h.sound.writeMode, hp]
        simp only [not_true_eq_false, if_false, Bool.false_eq_true]
        split
        · simp [h.sound.writeMode, hp]
        · split
          · simp [h.sound.writeMode, hp]
          · by_cases hm : (if b < a then (b, a) else (a, b)) ∈ sf.1.bonds
            · simp only [if_pos hm, h.sound.writeMode, hp]; simp
            · simp only [if_neg hm]; simp
    obtain ⟨g1, g2, g3, g4⟩ := hfields
    refine ⟨⟨by rw [g1]; exact h.sound.writeMode, by rw [g3]; exact h.sound.dflt,
      by rw [hrg]; exact h.sound.contiguous, hok, by rw [hrg]; exact h.sound.writable⟩, ?_, ?_⟩
    · simp only [g2, hf]
      have ht := h.text
      by_cases hp : sf.1.structureBlockProcessed = true
      · rw [if_pos hp, g4 hp, ht, if_pos hp]
      · rw [if_neg hp, ht, if_neg hp]
    · simp only [g2, hf]; exact h.frames
  · -- NULL positions
    simp only [writeStep]
    have hf := hadd (.writeTimestep none v) rfl
    obtain ⟨k1, -, -⟩ := inv_ensure io ops sf h
    exact ⟨k1.sound, by rw [hf]; exact k1.text, by rw [hf]; exact k1.frames⟩
  · simp only [writeStep]
    obtain ⟨k1, k2, k3⟩ := inv_ensure io ops sf h
    refine ⟨k1.sound, ?_, ?_⟩
    · have ht := k1.text
      rw [if_pos k2] at ht
      simp only [k2, if_true]
      rw [ht, framesOf_append, k3]
      simp [framesText, framesOf]
    · intro hcon
      simp only [k2] at hcon
      cases hcon

theorem inv_all (io : Io FP) (hio : Lawful io) (ops : List (WriteOp FP)) (hop : OpsOK ops) :
    Inv io ops (ops.foldl (writeStep io) ({ writeMode := true }, [])) := by
  induction ops using List.reverseRecOn with
  | nil =>
    refine ⟨⟨rfl, rfl, trivial, ⟨by simp, by simp⟩, by simp⟩, rfl, fun _ => rfl⟩
  | append_singleton ops op ih =>
    rw [List.foldl_append]
    exact inv_step io hio ops op (fun o ho => hop o (List.mem_append_right _ ho)) _
      (ih fun o ho => hop o (List.mem_append_left _ ho))

/-- Opening a file with a structure and timesteps. -/
theorem open_written (io : Io FP) (hio : Lawful io) (s : Snap FP) (hs : Sound io s) (fs : List (Frame FP)) :
    ∃ st, openRead io (structureText io s ++ framesText io (numberOfAtoms s.atomRanges) fs) =
        .ok (reread s, st) ∧ Reads io (reread s) st fs := by
  unfold openRead
  rw [read_structure io hio _ hs]
  cases fs with
  | nil =>
    refine ⟨⟨[], true⟩, ?_, reads_end io _ rfl true⟩
    simp only [framesText, List.flatMap_nil]
    rw [readStructureBlock]
    rfl
  | cons f fs =>
    refine ⟨_, ?_, reads_frames io hio (reread s) rfl (f :: fs)⟩
    simp only [framesText, List.flatMap_cons]
    simp only [reread]
    rw [timestepText_eq]
    simp only [List.append_assoc, List.cons_append]
    rw [readStructureBlock]
    have hnil : ∀ t ∈ ([] : List Str), Token t := by simp
    simp only [getLine_mkLine false _ _ token_timestep hnil, structureLine_timestep]
    simp only [Bool.false_eq_true, if_false, dite_false, reread]

/-- C28: after any sequence of calls in write mode, including calls rejected with an exception, opening the
file gives a snapshot with the same primary simulation volume, atoms and bonds, and the timesteps are read as
they have been written. Assumptions: numbers are read as they have been written, and names and types contain
neither white space nor commas. -/
theorem C28_round_trip_partial (io : Io FP) (hio : Lawful io) (ops : List (WriteOp FP)) (hop : OpsOK ops) :
    ∃ s st, openRead io (written io ops).2 = .ok (s, st) ∧ s.writeMode = false ∧
      s.volume = (written io ops).1.volume ∧ s.atomRanges = (written io ops).1.atomRanges ∧
      s.bonds = (written io ops).1.bonds ∧ Reads io s st (framesOf ops) := by
  obtain ⟨k1, k2, -⟩ := inv_ensure io ops _ (inv_all io hio ops hop)
  change Inv io ops (written io ops) at k1
  change (written io ops).1.structureBlockProcessed = true at k2
  have ht := k1.text
  rw [if_pos k2] at ht
  unfold openRead
  rw [ht, read_structure io hio _ k1.sound]
  have hopen := open_written io hio (written io ops).1 k1.sound (framesOf ops)
  obtain ⟨st, ho, hr⟩ := hopen
  unfold openRead at ho
  rw [read_structure io hio _ k1.sound] at ho
  exact ⟨_, st, ho, rfl, rfl, rfl, rfl, hr⟩

/-- Numbers without sign and fraction. -/
def natIo : Io ℕ where
  fmt := natStr
  parse s := some (digitsValue s)
  negative _ := false

theorem natIo_lawful : Lawful natIo :=
  ⟨fun x => congrArg some (digitsValue_natStr x), natStr_token⟩

/-- A sequence of calls with a repeated bond, which is rejected, and declarations after the first timestep,
which are rejected too. -/
def sampleOps : List (WriteOp ℕ) :=
  [.setVolume (4, 5, 6), .declareAtoms 2 (some 1) "A".toList "tp".toList, .declareAtoms 1 none [] [],
    .declareBond 2 0, .declareBond 0 2, .writeTimestep (some fun i => i) none,
    .declareAtoms 7 none [] [], .writeTimestep (some fun i => 2 * i) (some fun i => i + 1)]

example : OpsOK sampleOps ∧ (framesOf sampleOps).length = 2 := by
  refine ⟨?_, rfl⟩
  intro op hop
  simp only [sampleOps, List.mem_cons, List.not_mem_nil, or_false] at hop
  rcases hop with rfl | rfl | rfl | rfl | rfl | rfl | rfl | rfl
  · trivial
  · exact ⟨by decide, by decide⟩
  · exact ⟨by decide, by decide⟩
  all_goals trivial

/-- C28 does not hold for all names: a name with a comma is accepted when declaring atoms, but the file cannot
be opened. -/
theorem C28_comma_violated :
    (declareAtoms (fun x => natIo.negative x = true) { writeMode := true } 1 none "a,b".toList []).2 =
      .ok (0, 0) ∧
    openRead natIo (written natIo [.declareAtoms 1 none "a,b".toList []]).2 = .error .malformedFile := by
  have hneg : ¬ ∃ r, (none : Option ℕ) = some r ∧ natIo.negative r = true := by simp
  have hd : declareAtoms (fun x => natIo.negative x = true) { writeMode := true } 1 none "a,b".toList [] =
      ({ writeMode := true, atomRanges := [⟨0, 0, { name := some "a,b".toList }⟩] }, .ok (0, 0)) := by
    unfold declareAtoms
    simp only [checkWritable]
    rw [if_neg (by decide), if_neg (by decide), if_neg hneg, if_neg (by decide), if_neg (by decide)]
    rfl
  refine ⟨by rw [hd], ?_⟩
  have h0 : natStr 0 = "0".toList := by decide
  have hw : (written natIo [.declareAtoms 1 none "a,b".toList []]).2 = "atom 0 name a,b\n".toList := by
    have ha : atomLine natIo ⟨0, 0, { name := some "a,b".toList }⟩ = "atom 0 name a,b\n".toList := by
      unfold atomLine
      rw [h0]
      decide
    have hs : writeStep natIo ({ writeMode := true }, []) (.declareAtoms 1 none "a,b".toList []) =
        ({ writeMode := true, atomRanges := [⟨0, 0, { name := some "a,b".toList }⟩] }, []) := by
      change ((declareAtoms (fun x => natIo.negative x = true) { writeMode := true } 1 none
        "a,b".toList []).1, ([] : Str)) = _
      rw [hd]
    unfold written
    rw [List.foldl_cons, List.foldl_nil, hs]
    unfold ensureStructure structureText
    rw [if_neg (by decide), List.flatMap_cons, ha]
    rfl
  rw [hw]
  unfold openRead
  rw [readStructureBlock, if_neg (by decide), dif_neg (by decide)]
  have hl : structureLine natIo { writeMode := false } (getLine false ⟨"atom 0 name a,b\n".toList, false⟩).1 =
      .error .malformedFile := by decide
  simp only [hl]

end OpenMPCD.Snapshot
