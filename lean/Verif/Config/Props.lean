import Verif.Config.Model
import Mathlib.Data.List.Nodup
import Mathlib.Tactic.Linarith

/-!
# Configurations: proofs (C50, C63)
-/

set_option linter.unusedSimpArgs false

namespace OpenMPCD.Config

/-! ## Specification -/

/-- There is the setting `x` at the given path: names lead to settings of groups, numbers to elements of lists. -/
inductive At : Value → List Comp → Value → Prop
  | here (v) : At v [] v
  | field {fields k w p x} : (k, w) ∈ fields → At w p x → At (.group fields) (k :: p) x
  | item {a items} {i : ℕ} {w p x} : items[i]? = some w → At w p x → At (.list a items) (.index i :: p) x

/-- Names of settings are unique within each group, at all levels. -/
inductive WF : Value → Prop
  | scalar (s) : WF (.scalar s)
  | group {fields : List (Comp × Value)} : (fields.map Prod.fst).Nodup → (∀ p ∈ fields, WF p.2) → WF (.group fields)
  | list {a items} : (∀ v ∈ items, WF v) → WF (.list a items)

/-- Neither path leads to a part of what the other leads to. -/
def Apart (p q : List Comp) : Prop := ¬ p <+: q ∧ ¬ q <+: p

/-- Names, and numbers of elements counted from the front. -/
def Plain : Comp → Prop
  | .name _ => True
  | .index i => 0 ≤ i
  | _ => False

/-! ## Dictionaries -/

theorem dictGet_mem {d : List (Comp × Value)} {k : Comp} {v : Value} (h : dictGet d k = some v) : (k, v) ∈ d := by
  induction d with
  | nil => simp [dictGet] at h
  | cons p d ih =>
    obtain ⟨k', v'⟩ := p
    unfold dictGet at h
    split_ifs at h with hk
    · cases h; subst hk; exact List.mem_cons_self
    · exact List.mem_cons_of_mem _ (ih h)

theorem dictGet_eq {d : List (Comp × Value)} (hd : (d.map Prod.fst).Nodup) {k : Comp} {v : Value} (h : (k, v) ∈ d) :
    dictGet d k = some v := by
  induction d with
  | nil => cases h
  | cons p d ih =>
    obtain ⟨k', v'⟩ := p
    rw [List.map_cons, List.nodup_cons] at hd
    unfold dictGet
    rcases List.mem_cons.1 h with h | h
    · cases h; rw [if_pos rfl]
    · rw [if_neg, ih hd.2 h]
      rintro rfl
      exact hd.1 (List.mem_map.2 ⟨_, h, rfl⟩)

theorem dictGet_none {d : List (Comp × Value)} {k : Comp} : dictGet d k = none ↔ k ∉ d.map Prod.fst := by
  induction d with
  | nil => simp [dictGet]
  | cons p d ih =>
    obtain ⟨k', v'⟩ := p
    unfold dictGet
    split_ifs with hk
    · subst hk; simp
    · rw [ih]
      simp only [List.map_cons, List.mem_cons, not_or]
      exact ⟨fun h => ⟨fun e => hk e.symm, h⟩, fun h => h.2⟩

theorem dictGet_set (d : List (Comp × Value)) (k k' : Comp) (v : Value) :
    dictGet (dictSet d k v) k' = if k = k' then some v else dictGet d k' := by
  induction d with
  | nil => simp [dictSet, dictGet]
  | cons p d ih =>
    obtain ⟨k₀, v₀⟩ := p
    unfold dictSet
    by_cases h0 : k₀ = k
    · subst h0
      rw [if_pos rfl]
      simp only [dictGet]
      by_cases h : k₀ = k' <;> simp [h]
    · rw [if_neg h0]
      simp only [dictGet, ih]
      by_cases h1 : k₀ = k'
      · subst h1
        rw [if_pos rfl, if_neg (Ne.symm h0), if_pos rfl]
      · rw [if_neg h1, if_neg h1]

theorem dictSet_keys (d : List (Comp × Value)) (k : Comp) (v : Value) :
    (dictSet d k v).map Prod.fst = if k ∈ d.map Prod.fst then d.map Prod.fst else d.map Prod.fst ++ [k] := by
  induction d with
  | nil => simp [dictSet]
  | cons p d ih =>
    obtain ⟨k₀, v₀⟩ := p
    unfold dictSet
    by_cases h0 : k₀ = k
    · subst h0; simp
    · rw [if_neg h0, List.map_cons, ih, List.map_cons]
      have : k ≠ k₀ := Ne.symm h0
      by_cases h1 : k ∈ d.map Prod.fst
      · rw [if_pos h1, if_pos (List.mem_cons_of_mem _ h1)]
      · rw [if_neg h1, if_neg]
        · rfl
        · simp only [List.mem_cons, not_or]
          exact ⟨this, h1⟩

theorem mem_dictSet {d : List (Comp × Value)} {k : Comp} {v : Value} {p : Comp × Value} (h : p ∈ dictSet d k v) :
    p ∈ d ∨ p = (k, v) := by
  induction d with
  | nil => simpa [dictSet] using h
  | cons q d ih =>
    obtain ⟨k₀, v₀⟩ := q
    unfold dictSet at h
    split_ifs at h with h0
    · subst h0
      rcases List.mem_cons.1 h with h | h
      · exact Or.inr h
      · exact Or.inl (List.mem_cons_of_mem _ h)
    · rcases List.mem_cons.1 h with h | h
      · exact Or.inl (h ▸ List.mem_cons_self)
      · rcases ih h with h | h
        · exact Or.inl (List.mem_cons_of_mem _ h)
        · exact Or.inr h

/-! ## Reading -/

/-- C50: the whole configuration finds exactly the settings that exist. -/
theorem C50_lookup {v : Value} (hv : WF v) (p : List Comp) (x : Value) : lookup v p = some x ↔ At v p x := by
  constructor
  · intro h
    induction p generalizing v with
    | nil =>
      simp only [lookup] at h
      cases h
      exact .here _
    | cons c cs ih =>
      cases v with
      | scalar s => simp [lookup] at h
      | group fields =>
        cases hv with
        | group h1 h2 =>
        simp only [lookup] at h
        cases hd : dictGet fields c with
        | none => rw [hd] at h; cases h
        | some w =>
          rw [hd] at h
          exact .field (dictGet_mem hd) (ih (h2 _ (dictGet_mem hd)) h)
      | list a items =>
        cases hv with
        | list h2 =>
        cases c with
        | index i =>
          simp only [lookup] at h
          split_ifs at h with hi
          · cases hd : items[i.toNat]? with
            | none => rw [hd] at h; cases h
            | some w =>
              rw [hd] at h
              have e : (i.toNat : ℤ) = i := Int.toNat_of_nonneg hi
              rw [← e]
              exact .item hd (ih (h2 _ (List.mem_of_getElem? hd)) h)
          · cases h
        | empty => simp [lookup] at h
        | name s => simp [lookup] at h
        | looseIndex i s => simp [lookup] at h
        | noIndex s => simp [lookup] at h
  · intro h
    induction h with
    | here v => simp [lookup]
    | field hm _ ih =>
      cases hv with
      | group h1 h2 =>
      simp only [lookup, dictGet_eq h1 hm, Option.bind_some]
      exact ih (h2 _ hm)
    | item hi _ ih =>
      cases hv with
      | list h2 =>
      simp only [lookup]
      rw [if_pos (by omega), Int.toNat_natCast, hi, Option.bind_some]
      exact ih (h2 _ (List.mem_of_getElem? hi))

/-- C50: for the whole configuration, reading succeeds exactly if there is the setting, and membership tells which. -/
theorem C50_membership {v : Value} (hv : WF v) (p : List Comp) :
    (∀ x, Conf.getitem ⟨true, v⟩ p = .ok x ↔ At v p x) ∧
      (∃ b, Conf.contains ⟨true, v⟩ p = .ok b ∧ (b = true ↔ ∃ x, Conf.getitem ⟨true, v⟩ p = .ok x)) := by
  have h1 : ∀ x, Conf.getitem ⟨true, v⟩ p = .ok x ↔ At v p x := by
    intro x
    rw [← C50_lookup hv]
    simp only [Conf.getitem, if_true]
    cases lookup v p <;> simp
  refine ⟨h1, _, rfl, ?_⟩
  simp only [Conf.getitem, if_true]
  cases lookup v p <;> simp

/-- Reading a part of the configuration along a path that leads through groups only. -/
theorem containsGroup_iff (v : Value) (p : List Comp) (b : Bool) (h : containsGroup v p = .ok b) :
    (b = true ↔ ∃ x, getFrom v p = .ok x) ∧ (b = false → getFrom v p = .error .keyError) := by
  induction p generalizing v with
  | nil =>
    simp only [containsGroup] at h
    cases h
    simp [getFrom]
  | cons c cs ih =>
    cases v with
    | scalar s => simp [containsGroup] at h
    | list a items => simp [containsGroup] at h
    | group fields =>
      simp only [containsGroup] at h
      simp only [getFrom]
      cases hd : dictGet fields c with
      | none =>
        rw [hd] at h
        cases h
        simp
      | some w =>
        rw [hd] at h
        exact ih w h

/-- C50: for groups, membership tells whether reading succeeds whenever it does not raise. What is missing: it may
raise (`C50_membership_violated`); for lists it may be wrong. -/
theorem C50_membership_group_partial (fields : List (Comp × Value)) (p : List Comp) (b : Bool)
    (h : Conf.contains ⟨false, .group fields⟩ p = .ok b) :
    (b = true ↔ ∃ x, Conf.getitem ⟨false, .group fields⟩ p = .ok x) :=
  (containsGroup_iff (.group fields) p b (by simpa [Conf.contains] using h)).1

/-- C50 fails for parts of configurations: of a group with a list, membership of an element of the list raises though
the element can be read; of a list, a setting missing in an element is claimed to be there; and of a list, what follows
the number of a scalar element is ignored when reading. -/
theorem C50_membership_violated :
    (let c : Conf := ⟨false, .group [(.name "a", .list false [.scalar (.int 1)])]⟩
     c.contains [.name "a", .index 0] = .error .attributeError ∧
        c.getitem [.name "a", .index 0] = .ok (.scalar (.int 1))) ∧
    (let c : Conf := ⟨false, .list false [.group [(.name "a", .scalar (.int 1))]]⟩
     c.contains [.index 0, .name "b"] = .ok true ∧ c.getitem [.index 0, .name "b"] = .error .keyError) ∧
    (let c : Conf := ⟨false, .list false [.scalar (.int 1)]⟩
     c.getitem [.index 0, .name "b"] = .ok (.scalar (.int 1)) ∧
        ¬ ∃ x, At c.value [.index 0, .name "b"] x) := by
  refine ⟨⟨rfl, rfl⟩, ⟨rfl, rfl⟩, rfl, ?_⟩
  rintro ⟨x, h⟩
  have hwf : WF (.list false [.scalar (.int 1)]) := .list (by
    intro v hv
    rw [List.mem_singleton] at hv
    subst hv
    exact .scalar _)
  have := (C50_lookup hwf _ _).2 h
  simp [lookup] at this

/-! ## Writing -/

theorem pySetIndex_nonneg {l l' : List Value} {i : ℤ} {v : Value} (hi : 0 ≤ i) (h : pySetIndex l i v = .ok l') :
    i.toNat < l.length ∧ l' = l.set i.toNat v := by
  unfold pySetIndex at h
  rw [if_pos hi] at h
  split_ifs at h with h1
  exact ⟨h1, (Except.ok.inj h).symm⟩

/-- Setting at the end of a path. -/
theorem setLast_lookup {single : Bool} {v v' : Value} {c : Comp} {x : Value} (hc : Plain c)
    (h : setLast single v c x = .ok v') (q : List Comp) :
    (∀ r, q = c :: r → lookup v' q = lookup x r) ∧ (Apart [c] q → lookup v' q = lookup v q) := by
  cases v with
  | scalar s => simp [setLast] at h
  | group fields =>
    simp only [setLast] at h
    cases Except.ok.inj h
    refine ⟨?_, ?_⟩
    · rintro r rfl
      simp [lookup, dictGet_set]
    · intro hq
      cases q with
      | nil => exact absurd (List.nil_prefix) hq.2
      | cons d ds =>
        simp only [lookup, dictGet_set]
        rw [if_neg]
        rintro rfl
        exact hq.1 (by simp)
  | list a items =>
    cases a with
    | false => simp [setLast] at h
    | true =>
      simp only [setLast] at h
      split_ifs at h
      cases c with
      | empty => cases hc
      | name s => cases h
      | looseIndex i s => cases hc
      | noIndex s => cases hc
      | index i =>
        simp only at h
        cases hp : pySetIndex items i x with
        | error e => rw [hp] at h; cases h
        | ok l' =>
          rw [hp] at h
          cases Except.ok.inj h
          obtain ⟨h1, rfl⟩ := pySetIndex_nonneg hc hp
          refine ⟨?_, ?_⟩
          · rintro r rfl
            simp only [lookup]
            rw [if_pos (show 0 ≤ i from hc), List.getElem?_set_self h1, Option.bind_some]
          · intro hq
            cases q with
            | nil => exact absurd (List.nil_prefix) hq.2
            | cons d ds =>
              cases d with
              | index j =>
                simp only [lookup]
                by_cases hj : 0 ≤ j
                · rw [if_pos hj, if_pos hj, List.getElem?_set_ne]
                  intro e
                  have : i = j := by have := hc; simp only [Plain] at this; omega
                  subst this
                  exact hq.1 (by simp)
                · rw [if_neg hj, if_neg hj]
              | empty => simp [lookup]
              | name s => simp [lookup]
              | looseIndex i s => simp [lookup]
              | noIndex s => simp [lookup]

theorem lookup_empty_group {c : Comp} {q : List Comp} : lookup (.group []) (c :: q) = none := by
  simp [lookup, dictGet]

theorem apart_cons {c : Comp} {p q : List Comp} (h : Apart (c :: p) (c :: q)) : Apart p q :=
  ⟨fun h' => h.1 (by rw [List.cons_prefix_cons]; exact ⟨rfl, h'⟩),
    fun h' => h.2 (by rw [List.cons_prefix_cons]; exact ⟨rfl, h'⟩)⟩

/-- Setting along a path: what is read afterwards. -/
theorem setPath_lookup (p : List Comp) (hp : ∀ c ∈ p, Plain c) (x : Value) :
    ∀ (single : Bool) (v v' : Value), setPath single v p x = .ok v' →
      (∀ r, lookup v' (p ++ r) = lookup x r) ∧ ∀ q, Apart p q → lookup v' q = lookup v q := by
  induction p with
  | nil => intro single v v' h; simp [setPath] at h
  | cons c cs ih =>
    intro single v v' h
    have hc := hp c List.mem_cons_self
    cases cs with
    | nil =>
      have h' : setLast single v c x = .ok v' := by
        cases v <;> simpa only [setPath] using h
      refine ⟨fun r => (setLast_lookup hc h' (c :: r)).1 r rfl, fun q hq => (setLast_lookup hc h' q).2 hq⟩
    | cons c' cs =>
      have ih' := ih fun d hd => hp d (List.mem_cons_of_mem _ hd)
      cases v with
      | scalar s => simp [setPath] at h
      | group fields =>
        simp only [setPath] at h
        -- the value the rest of the path is set in
        have key : ∀ w w', setPath false w (c' :: cs) x = .ok w' → v' = .group (dictSet fields c w') →
            (∀ r, lookup v' (c :: (c' :: cs) ++ r) = lookup x r) ∧
            ((∀ q, dictGet fields c = none → Apart (c' :: cs) q → lookup w q = none) →
              (∀ w₀, dictGet fields c = some w₀ → w₀ = w) →
              ∀ q, Apart (c :: c' :: cs) q → lookup v' q = lookup (.group fields) q) := by
          intro w w' hw hv'
          subst hv'
          obtain ⟨i1, i2⟩ := ih' false w w' hw
          refine ⟨?_, ?_⟩
          · intro r
            rw [List.cons_append]
            simp only [lookup, dictGet_set, if_true, Option.bind_some]
            exact i1 r
          · intro hnone hsome q hq
            cases q with
            | nil => exact absurd (List.nil_prefix) hq.2
            | cons d ds =>
              simp only [lookup, dictGet_set]
              by_cases hcd : c = d
              · subst hcd
                rw [if_pos rfl, Option.bind_some, i2 ds (apart_cons hq)]
                cases hd : dictGet fields c with
                | none => simp only [Option.bind_none]; exact hnone ds hd (apart_cons hq)
                | some w₀ => rw [hsome w₀ hd]; rfl
              · rw [if_neg hcd]
        cases hd : dictGet fields c with
        | some w =>
          rw [hd] at h
          simp only at h
          cases hs : setPath false w (c' :: cs) x with
          | error e => rw [hs] at h; cases h
          | ok w' =>
            rw [hs] at h
            obtain ⟨k1, k2⟩ := key w w' hs (Except.ok.inj h).symm
            exact ⟨k1, k2 (fun q hn => by rw [hd] at hn; cases hn)
              (fun w₀ h0 => by rw [hd] at h0; exact (Option.some.inj h0).symm)⟩
        | none =>
          rw [hd] at h
          cases c with
          | empty => cases h
          | index i => cases h
          | looseIndex i s => cases h
          | noIndex s => cases h
          | name s =>
            simp only at h
            split_ifs at h
            cases hs : setPath false (.group []) (c' :: cs) x with
            | error e => rw [hs] at h; cases h
            | ok w' =>
              rw [hs] at h
              obtain ⟨k1, k2⟩ := key (.group []) w' hs (Except.ok.inj h).symm
              refine ⟨k1, k2 ?_ (fun w₀ h0 => by rw [hd] at h0; cases h0)⟩
              intro q _ hq
              cases q with
              | nil => exact absurd (List.nil_prefix) hq.2
              | cons d ds => exact lookup_empty_group
      | list a items =>
        cases c with
        | empty => cases hc
        | name s => simp [setPath] at h
        | looseIndex i s => cases hc
        | noIndex s => cases hc
        | index i =>
          have hi : 0 ≤ i := hc
          simp only [setPath] at h
          cases hg : pyIndex items i with
          | none => rw [hg] at h; cases h
          | some w =>
            rw [hg] at h
            simp only at h
            cases hs : setPath false w (c' :: cs) x with
            | error e => rw [hs] at h; cases h
            | ok w' =>
              rw [hs] at h
              simp only at h
              cases hl : pySetIndex items i w' with
              | error e => rw [hl] at h; cases h
              | ok l' =>
                rw [hl] at h
                cases Except.ok.inj h
                obtain ⟨h1, rfl⟩ := pySetIndex_nonneg hi hl
                obtain ⟨i1, i2⟩ := ih' false w w' hs
                have hw : items[i.toNat]? = some w := by
                  unfold pyIndex at hg
                  rwa [if_pos hi] at hg
                refine ⟨?_, ?_⟩
                · intro r
                  rw [List.cons_append]
                  simp only [lookup]
                  rw [if_pos hi, List.getElem?_set_self h1, Option.bind_some]
                  exact i1 r
                · intro q hq
                  cases q with
                  | nil => exact absurd (List.nil_prefix) hq.2
                  | cons d ds =>
                    cases d with
                    | index j =>
                      simp only [lookup]
                      by_cases hj : 0 ≤ j
                      · rw [if_pos hj, if_pos hj]
                        by_cases hij : i = j
                        · subst hij
                          rw [List.getElem?_set_self h1, hw, Option.bind_some, Option.bind_some,
                            i2 ds (apart_cons hq)]
                        · rw [List.getElem?_set_ne (by omega)]
                      · rw [if_neg hj, if_neg hj]
                    | empty => simp [lookup]
                    | name s => simp [lookup]
                    | looseIndex i s => simp [lookup]
                    | noIndex s => simp [lookup]

/-- C50: after setting, the setting (and each part of it) is read as set, and all settings elsewhere are
unchanged. -/
theorem C50_set {v : Value} {p : List Comp} (hp : ∀ c ∈ p, Plain c) {x : Value} {c' : Conf}
    (h : Conf.setitem ⟨true, v⟩ p x = .ok c') :
    (∀ r, lookup c'.value (p ++ r) = lookup x r) ∧ c'.getitem p = .ok x ∧
      ∀ q, Apart p q → c'.getitem q = Conf.getitem ⟨true, v⟩ q ∧ c'.contains q = Conf.contains ⟨true, v⟩ q := by
  unfold Conf.setitem at h
  split_ifs at h
  simp only at h
  cases hs : setPath true v p x with
  | error e => rw [hs] at h; cases h
  | ok v' =>
    rw [hs] at h
    cases Except.ok.inj h
    obtain ⟨h1, h2⟩ := setPath_lookup p hp x true v v' hs
    have h3 := h1 []
    rw [List.append_nil] at h3
    refine ⟨h1, ?_, ?_⟩
    · simp only [Conf.getitem, if_true, h3]
      simp [lookup]
    · intro q hq
      simp only [Conf.getitem, Conf.contains, if_true, h2 q hq]
      exact ⟨trivial, trivial⟩

/-- Setting succeeds at the end of a path to a group, or to an array with the element in question. -/
theorem setPath_ok {v : Value} (hv : WF v) {p : List Comp} {w : Value} (h : At v p w) {k : Comp} {x : Value}
    (hk : (∃ fields, w = .group fields) ∨ (∃ items, w = .list true items ∧ p ≠ [] ∧
      ∃ i : ℕ, k = .index i ∧ i < items.length)) (single : Bool) :
    ∃ v', setPath single v (p ++ [k]) x = .ok v' := by
  induction h generalizing single with
  | here v =>
    rcases hk with ⟨fields, rfl⟩ | ⟨items, rfl, h0, -⟩
    · exact ⟨_, rfl⟩
    · exact absurd rfl h0
  | @field fields c w' p y hm hat ih =>
    cases hv with
    | group h1 h2 =>
    have hd := dictGet_eq h1 hm
    have : ∃ v', setPath false w' (p ++ [k]) x = .ok v' := by
      cases p with
      | nil =>
        cases hat
        rcases hk with ⟨fs, rfl⟩ | ⟨items, rfl, -, i, rfl, hi⟩
        · exact ⟨_, rfl⟩
        · refine ⟨.list true (items.set i x), ?_⟩
          simp [setPath, setLast, pySetIndex, hi, Except.map]
      | cons c' cs =>
        refine ih (h2 _ hm) ?_ false
        rcases hk with hk | ⟨items, e1, -, e2⟩
        · exact Or.inl hk
        · exact Or.inr ⟨items, e1, by simp, e2⟩
    obtain ⟨v', hv'⟩ := this
    cases p with
    | nil => exact ⟨_, by simp only [List.cons_append, List.nil_append, setPath, hd] at hv' ⊢; rw [hv']; rfl⟩
    | cons c' cs => exact ⟨_, by simp only [List.cons_append, setPath, hd] at hv' ⊢; rw [hv']; rfl⟩
  | @item a items i w' p y hi hat ih =>
    cases hv with
    | list h2 =>
    have : ∃ v', setPath false w' (p ++ [k]) x = .ok v' := by
      cases p with
      | nil =>
        cases hat
        rcases hk with ⟨fs, rfl⟩ | ⟨items', rfl, -, j, rfl, hj⟩
        · exact ⟨_, rfl⟩
        · refine ⟨.list true (items'.set j x), ?_⟩
          simp [setPath, setLast, pySetIndex, hj, Except.map]
      | cons c' cs =>
        refine ih (h2 _ (List.mem_of_getElem? hi)) ?_ false
        rcases hk with hk | ⟨items', e1, -, e2⟩
        · exact Or.inl hk
        · exact Or.inr ⟨items', e1, by simp, e2⟩
    obtain ⟨v', hv'⟩ := this
    have hlt : i < items.length := (List.getElem?_eq_some_iff.1 hi).1
    have hg : pyIndex items i = some w' := by simp [pyIndex, hi]
    have hset : ∀ z, pySetIndex items i z = .ok (items.set i z) := by intro z; simp [pySetIndex, hlt]
    cases p with
    | nil =>
      refine ⟨.list a (items.set i v'), ?_⟩
      simp only [List.cons_append, List.nil_append, setPath, hg] at hv' ⊢
      rw [hv']
      simp only [hset]
      rfl
    | cons c' cs =>
      refine ⟨.list a (items.set i v'), ?_⟩
      simp only [List.cons_append, setPath, hg] at hv' ⊢
      rw [hv']
      simp only [hset]
      rfl

/-- C50: every existing setting of a group or element of an array can be set. What is missing: elements of lists
(`C50_set_violated`). -/
theorem C50_set_ok_partial {v : Value} (hv : WF v) {p : List Comp} {k : Comp} (hp : ∀ c ∈ p ++ [k], Plain c) {w : Value}
    (h : At v p w) (hw : (∃ fields, w = .group fields) ∨ (∃ items, w = .list true items ∧ p ≠ []))
    (hk : ∃ y, At w [k] y) (x : Value) :
    ∃ c', Conf.setitem ⟨true, v⟩ (p ++ [k]) x = .ok c' := by
  have hwf : ∀ {v p w}, WF v → At v p w → WF w := by
    intro v p w hv h
    induction h with
    | here v => exact hv
    | field hm _ ih => cases hv with | group _ h2 => exact ih (h2 _ hm)
    | item hi _ ih => cases hv with | list h2 => exact ih (h2 _ (List.mem_of_getElem? hi))
  obtain ⟨v', hv'⟩ := setPath_ok hv h (k := k) (x := x) (by
    rcases hw with hw | ⟨items, rfl, h0⟩
    · exact Or.inl hw
    · refine Or.inr ⟨items, rfl, h0, ?_⟩
      obtain ⟨y, hy⟩ := hk
      cases hy with
      | item hi _ => exact ⟨_, rfl, (List.getElem?_eq_some_iff.1 hi).1⟩) true
  refine ⟨⟨true, v'⟩, ?_⟩
  unfold Conf.setitem
  rw [if_neg, hv']
  · rfl
  · intro he
    exact hp _ he

/-- C50 fails: an existing element of a list cannot be set. -/
theorem C50_set_violated :
    let c : Conf := ⟨true, .group [(.name "a", .list false [.scalar (.int 1)])]⟩
    c.contains [.name "a", .index 0] = .ok true ∧
      (c.setitem [.name "a", .index 0] (.scalar (.int 2))).toOption.isSome = false := by
  exact ⟨rfl, rfl⟩

end OpenMPCD.Config
