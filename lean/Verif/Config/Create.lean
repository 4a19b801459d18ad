import Verif.Config.Equiv

/-!
# Configurations: creating groups and deleting settings (C63, C50)
-/

set_option linter.unusedSimpArgs false

namespace OpenMPCD.Config

theorem createFrom_lookup (p : List Comp) : ∀ v v', createFrom v p = .ok v' → lookup v p = none →
    lookup v' p = some (.group []) ∧ ∀ q, Apart p q → lookup v' q = lookup v q := by
  induction p with
  | nil => intro v v' _ hn; simp [lookup] at hn
  | cons c cs ih =>
    intro v v' h hn
    cases v with
    | scalar s => simp [createFrom] at h
    | list a items => simp [createFrom] at h
    | group fields =>
      simp only [createFrom] at h
      cases hw : createFrom ((dictGet fields c).getD (.group [])) cs with
      | error e => rw [hw] at h; cases h
      | ok w' =>
        rw [hw] at h
        cases Except.ok.inj h
        simp only [lookup] at hn
        have hw' : lookup w' cs = some (.group []) ∧
            ∀ q, Apart cs q → lookup w' q = lookup ((dictGet fields c).getD (.group [])) q := by
          cases hd : dictGet fields c with
          | some w =>
            rw [hd] at hw hn
            exact ih w w' hw hn
          | none =>
            rw [hd] at hw
            simp only [Option.getD_none] at hw ⊢
            cases cs with
            | nil =>
              simp only [createFrom] at hw
              cases Except.ok.inj hw
              exact ⟨by simp [lookup], fun q _ => rfl⟩
            | cons c' cs => exact ih _ w' hw lookup_empty_group
        refine ⟨?_, ?_⟩
        · simp only [lookup, dictGet_set, if_true, Option.bind_some]
          exact hw'.1
        · intro q hq
          cases q with
          | nil => exact absurd (List.nil_prefix) hq.2
          | cons d ds =>
            simp only [lookup, dictGet_set]
            by_cases hcd : c = d
            · subst hcd
              rw [if_pos rfl, Option.bind_some, hw'.2 ds (apart_cons hq)]
              cases hd : dictGet fields c with
              | some w => rfl
              | none =>
                cases ds with
                | nil => exact absurd (List.nil_prefix) (apart_cons hq).2
                | cons d' ds => simp [lookup, dictGet]
            · rw [if_neg hcd]

theorem createFrom_ok (p : List Comp) : ∀ v, WF v → lookup v p = none →
    (∀ q w, q <+: p → At v q w → ∃ fields, w = .group fields) → ∃ v', createFrom v p = .ok v' := by
  induction p with
  | nil => intro v _ _ _; exact ⟨v, by simp [createFrom]⟩
  | cons c cs ih =>
    intro v hv hn hg
    obtain ⟨fields, rfl⟩ := hg [] v List.nil_prefix (.here _)
    have : ∃ w', createFrom ((dictGet fields c).getD (.group [])) cs = .ok w' := by
      cases hd : dictGet fields c with
      | none =>
        have : ∀ cs : List Comp, ∃ w', createFrom (.group []) cs = .ok w' := by
          intro cs
          induction cs with
          | nil => exact ⟨_, rfl⟩
          | cons d ds ih =>
            obtain ⟨w', hw'⟩ := ih
            exact ⟨.group [(d, w')], by simp [createFrom, dictGet, hw', Except.map, dictSet]⟩
        exact this cs
      | some w =>
        cases hv with
        | group h1 h2 =>
        have hm := dictGet_mem hd
        simp only [lookup, hd, Option.bind_some] at hn
        refine ih w (h2 _ hm) hn fun q u hq hat => hg (c :: q) u ?_ (.field hm hat)
        rw [List.cons_prefix_cons]
        exact ⟨rfl, hq⟩
    obtain ⟨w', hw'⟩ := this
    exact ⟨_, by simp only [createFrom, hw']; rfl⟩

/-- C63: where nothing on the way to the path is anything but a group, and there is nothing at the path, creating a
group succeeds, returns it, and changes no setting elsewhere. What is missing: groups that exist
(`C63_violated`). -/
theorem C63_partial {v : Value} (hv : WF v) (p : List Comp) (hn : ¬ ∃ x, At v p x)
    (hg : ∀ q w, q <+: p → At v q w → ∃ fields, w = .group fields) :
    ∃ v', Conf.createGroup ⟨true, v⟩ p = (⟨true, v'⟩, .ok (.group [])) ∧ lookup v' p = some (.group []) ∧
      ∀ q, Apart p q → lookup v' q = lookup v q := by
  have hl : lookup v p = none := by
    cases h : lookup v p with
    | none => rfl
    | some x => exact absurd ⟨x, (C50_lookup hv p x).1 h⟩ hn
  obtain ⟨v', hv'⟩ := createFrom_ok p v hv hl hg
  obtain ⟨h1, h2⟩ := createFrom_lookup p v v' hv' hl
  refine ⟨v', ?_, h1, h2⟩
  simp [Conf.createGroup, Conf.contains, hl, hv', Conf.getitem, h1]

/-- C63: a group right in the configuration is returned if it exists. -/
theorem C63_exists_partial {fields : List (Comp × Value)} (hv : WF (.group fields)) (k : Comp)
    (gs : List (Comp × Value)) (h : (k, .group gs) ∈ fields) :
    Conf.createGroup ⟨true, .group fields⟩ [k] = (⟨true, .group fields⟩, .ok (.group gs)) := by
  cases hv with
  | group h1 h2 =>
  have hd := dictGet_eq h1 h
  simp [Conf.createGroup, Conf.contains, lookup, hd]

/-- C63 fails: creating a nested group twice raises the second time, though it exists. -/
theorem C63_violated :
    ∃ c : Conf, Conf.createGroup ⟨true, .group []⟩ [.name "a", .name "b"] = (c, .ok (.group [])) ∧
      c.createGroup [.name "a", .name "b"] = (c, .error .exception) := by
  refine ⟨⟨true, .group [(.name "a", .group [(.name "b", .group [])])]⟩, ?_, ?_⟩ <;>
    simp [Conf.createGroup, Conf.contains, lookup, dictGet, createFrom, dictSet, Except.map, Conf.getitem]

/-! ## Deleting -/

theorem dictGet_del (d : List (Comp × Value)) (k k' : Comp) :
    dictGet (dictDel d k) k' = if k = k' then none else dictGet d k' := by
  unfold dictDel
  induction d with
  | nil => simp [dictGet]
  | cons p d ih =>
    obtain ⟨k₀, v₀⟩ := p
    by_cases h0 : k₀ = k
    · subst h0
      simp only [List.filter_cons, ne_eq, not_true_eq_false, decide_false, Bool.false_eq_true, if_false, ih]
      simp only [dictGet]
      by_cases h : k₀ = k' <;> simp [h]
    · simp only [List.filter_cons, ne_eq, h0, not_false_eq_true, decide_true, if_true]
      simp only [dictGet, ih]
      by_cases h1 : k₀ = k'
      · subst h1
        rw [if_pos rfl, if_neg (Ne.symm h0), if_pos rfl]
      · rw [if_neg h1, if_neg h1]

theorem delPath_lookup (p : List Comp) (hp : ∀ c ∈ p, Plain c) : ∀ v v', delPath v p = .ok v' →
    lookup v' p = none ∧ ∀ q, Apart p q → lookup v' q = lookup v q := by
  induction p with
  | nil => intro v v' h; cases v <;> simp [delPath] at h
  | cons c cs ih =>
    intro v v' h
    have hc := hp c List.mem_cons_self
    have ih' := ih fun d hd => hp d (List.mem_cons_of_mem _ hd)
    cases v with
    | scalar s => cases cs <;> simp [delPath] at h
    | group fields =>
      cases cs with
      | nil =>
        simp only [delPath] at h
        split_ifs at h with hd
        cases Except.ok.inj h
        refine ⟨by simp [lookup, dictGet_del], ?_⟩
        intro q hq
        cases q with
        | nil => exact absurd (List.nil_prefix) hq.2
        | cons d ds =>
          simp only [lookup, dictGet_del]
          rw [if_neg]
          rintro rfl
          exact hq.1 (by simp)
      | cons c' cs =>
        simp only [delPath] at h
        cases hd : dictGet fields c with
        | none => rw [hd] at h; cases h
        | some w =>
          rw [hd] at h
          simp only at h
          cases hw : delPath w (c' :: cs) with
          | error e => rw [hw] at h; cases h
          | ok w' =>
            rw [hw] at h
            cases Except.ok.inj h
            obtain ⟨i1, i2⟩ := ih' w w' hw
            refine ⟨by simp only [lookup, dictGet_set, if_true, Option.bind_some]; exact i1, ?_⟩
            intro q hq
            cases q with
            | nil => exact absurd (List.nil_prefix) hq.2
            | cons d ds =>
              simp only [lookup, dictGet_set]
              by_cases hcd : c = d
              · subst hcd
                rw [if_pos rfl, Option.bind_some, i2 ds (apart_cons hq), hd]
                rfl
              · rw [if_neg hcd]
    | list a items =>
      cases cs with
      | nil => simp [delPath] at h
      | cons c' cs =>
        cases c with
        | empty => cases hc
        | name s => simp [delPath] at h
        | looseIndex i s => cases hc
        | noIndex s => cases hc
        | index i =>
          have hi : 0 ≤ i := hc
          simp only [delPath] at h
          cases hg : pyIndex items i with
          | none => rw [hg] at h; cases h
          | some w =>
            rw [hg] at h
            simp only at h
            cases hs : delPath w (c' :: cs) with
            | error e => rw [hs] at h; cases h
            | ok w' =>
              rw [hs] at h
              simp only at h
              cases hl : pySetIndex items i w' with
              | error e => rw [hl] at h; cases h
              | ok l' =>
                rw [hl] at h
                cases Except.ok.inj h
                obtain ⟨h1, rfl⟩ := pySetIndex_nonneg hi hl
                obtain ⟨i1, i2⟩ := ih' w w' hs
                have hw : items[i.toNat]? = some w := by
                  unfold pyIndex at hg
                  rwa [if_pos hi] at hg
                refine ⟨?_, ?_⟩
                · simp only [lookup]
                  rw [if_pos hi, List.getElem?_set_self h1, Option.bind_some]
                  exact i1
                · intro q hq
                  cases q with
                  | nil => exact absurd (List.nil_prefix) hq.2
                  | cons d ds =>
                    cases d with
                    | index j =>
                      simp only [lookup]
                      by_cases hj : 0 ≤ j
                      · rw [if_pos hj, if_pos hj]
                        by_cases hij : i = j
                        · subst hij
                          rw [List.getElem?_set_self h1, hw, Option.bind_some, Option.bind_some,
                            i2 ds (apart_cons hq)]
                        · rw [List.getElem?_set_ne (by omega)]
                      · rw [if_neg hj, if_neg hj]
                    | empty => simp [lookup]
                    | name s => simp [lookup]
                    | looseIndex i s => simp [lookup]
                    | noIndex s => simp [lookup]

/-- C50: deleting a setting that does not exist changes nothing; where deleting succeeds, the setting is gone and all
settings elsewhere are unchanged. -/
theorem C50_delete {v : Value} {p : List Comp} (hp : ∀ c ∈ p, Plain c) {c' : Conf}
    (h : Conf.delitem ⟨true, v⟩ p = .ok c') :
    c'.contains p = .ok false ∧
      ∀ q, Apart p q → c'.getitem q = Conf.getitem ⟨true, v⟩ q ∧ c'.contains q = Conf.contains ⟨true, v⟩ q := by
  unfold Conf.delitem at h
  cases hl : lookup v p with
  | none =>
    simp only [Conf.contains, if_true, hl, Option.isSome_none] at h
    cases Except.ok.inj h
    exact ⟨by simp [Conf.contains, hl], fun q _ => ⟨rfl, rfl⟩⟩
  | some x =>
    simp only [Conf.contains, if_true, hl, Option.isSome_some] at h
    cases hs : delPath v p with
    | error e => rw [hs] at h; cases h
    | ok v' =>
      rw [hs] at h
      cases Except.ok.inj h
      obtain ⟨h1, h2⟩ := delPath_lookup p hp v v' hs
      refine ⟨by simp [Conf.contains, h1], fun q hq => ?_⟩
      simp only [Conf.getitem, Conf.contains, if_true, h2 q hq]
      exact ⟨trivial, trivial⟩

/-- C50 fails: deleting an existing element of a list raises. -/
theorem C50_delete_violated :
    let c : Conf := ⟨true, .group [(.name "a", .list true [.scalar (.int 1)])]⟩
    c.contains [.name "a", .index 0] = .ok true ∧
      (c.delitem [.name "a", .index 0]).toOption.isSome = false := by
  exact ⟨rfl, rfl⟩

/-! ## The hypotheses can be met -/

/-- A configuration with all kinds of settings. -/
def sample : Value := .group [
  (.name "mpc", .group [(.name "timestep", .scalar (.float (1 / 10))), (.name "sweeps", .scalar (.int 5))]),
  (.name "box", .list true [.scalar (.int 10), .scalar (.int 20)]),
  (.name "stars", .list false [.group [(.name "arms", .scalar (.int 3))], .scalar (.str "x")]),
  (.name "empty", .group [])]

theorem sample_wf : WF sample := by
  refine .group (by decide) ?_
  simp only [List.forall_mem_cons, List.not_mem_nil, false_imp_iff, implies_true, and_true]
  refine ⟨.group (by decide) ?_, .list ?_, .list ?_, .group (by decide) (by simp)⟩ <;>
    simp only [List.forall_mem_cons, List.not_mem_nil, false_imp_iff, implies_true, and_true]
  · exact ⟨.scalar _, .scalar _⟩
  · exact ⟨.scalar _, .scalar _⟩
  · refine ⟨.group (by decide) ?_, .scalar _⟩
    simp only [List.forall_mem_cons, List.not_mem_nil, false_imp_iff, implies_true, and_true]
    exact .scalar _

theorem sample_arrays : Arrays sample := by
  refine .group ?_
  simp only [List.forall_mem_cons, List.not_mem_nil, false_imp_iff, implies_true, and_true]
  refine ⟨.group ?_, .array ?_, .list ?_, .group (by simp)⟩ <;>
    simp only [List.forall_mem_cons, List.not_mem_nil, false_imp_iff, implies_true, and_true]
  · exact ⟨.scalar _, .scalar _⟩
  · exact ⟨⟨_, rfl⟩, ⟨_, rfl⟩⟩
  · refine ⟨.group ?_, .scalar _⟩
    simp only [List.forall_mem_cons, List.not_mem_nil, false_imp_iff, implies_true, and_true]
    exact .scalar _

example : ∃ c', Conf.setitem ⟨true, sample⟩ [.name "box", .index 1] (.scalar (.int 30)) = .ok c' ∧
    c'.getitem [.name "box", .index 1] = .ok (.scalar (.int 30)) ∧
    c'.getitem [.name "box", .index 0] = .ok (.scalar (.int 10)) := ⟨_, rfl, rfl, rfl⟩

example : ∃ c', Conf.setitem ⟨true, sample⟩ [.name "stars", .index 0, .name "arms"] (.scalar (.int 4)) = .ok c' ∧
    c'.getitem [.name "stars", .index 0, .name "arms"] = .ok (.scalar (.int 4)) := ⟨_, rfl, rfl⟩

example : ([.name "stars", .index 0, .name "arms"], some (.scalar (.int 3))) ∈ flat sample :=
  (C50_flat_read sample_wf sample_arrays _).2.1 _ (by simp) rfl

example : ([.name "empty"], none) ∈ flat sample :=
  (C50_flat sample_arrays _ _).2 ⟨by simp, .group [], .field (by simp [sample]) (.here _), rfl⟩

example : isEquivalent id sample sample = true := C50_equivalent_refl sample_wf (by simp [sample])

example : ¬ ∃ x, At sample [.name "mpc", .name "grid", .name "shift"] x := by
  rintro ⟨x, h⟩
  have := (C50_lookup sample_wf _ _).2 h
  simp [lookup, sample, dictGet] at this

end OpenMPCD.Config
