import Verif.Config.Create

/-!
# Configurations: deprecated settings (C64)
-/

set_option linter.unusedSimpArgs false

namespace OpenMPCD.Config

/-- `boundaryConditions.type` -/
def bcType : List Comp := [.name "boundaryConditions", .name "type"]
/-- `boundaryConditions.shearRate` -/
def bcShear : List Comp := [.name "boundaryConditions", .name "shearRate"]
/-- `boundaryConditions.LeesEdwards.shearRate` -/
def bcNew : List Comp := [.name "boundaryConditions", .name "LeesEdwards", .name "shearRate"]
/-- `instrumentation.cellSubdivision` -/
def cellOld : List Comp := [.name "instrumentation", .name "cellSubdivision"]
/-- `instrumentation.flowProfile` -/
def flowGroup : List Comp := [.name "instrumentation", .name "flowProfile"]
/-- `instrumentation.densityProfile` -/
def densityGroup : List Comp := [.name "instrumentation", .name "densityProfile"]
/-- `instrumentation.flowProfile.cellSubdivision` -/
def flowNew : List Comp := [.name "instrumentation", .name "flowProfile", .name "cellSubdivision"]
/-- `instrumentation.densityProfile.cellSubdivision` -/
def densityNew : List Comp := [.name "instrumentation", .name "densityProfile", .name "cellSubdivision"]

/-- The first half of `_canonicalize` (`Analysis/MPCDAnalysis/Configuration.py:555-562`). -/
def canonicalizeBoundary (c : Conf) : Except PyErr Conf :=
  match c.contains bcType with
  | .error e => .error e
  | .ok false => .ok c
  | .ok true =>
    match c.getitem bcType with
    | .error e => .error e
    | .ok (.scalar (.str "Lees-Edwards")) =>
      match c.getitem bcShear with
      | .error e => .error e
      | .ok shearRate =>
        match c.delitem bcType with
        | .error e => .error e
        | .ok c =>
          match c.delitem bcShear with
          | .error e => .error e
          | .ok c => c.setitem bcNew shearRate
    | .ok _ => .error .runtimeError

/-- The second half of `_canonicalize` (`Analysis/MPCDAnalysis/Configuration.py:564-574`). -/
def canonicalizeInstrumentation (c : Conf) : Except PyErr Conf :=
  match c.contains cellOld with
  | .error e => .error e
  | .ok false => .ok c
  | .ok true =>
    if c.contains flowGroup ≠ .ok false then .error .assertionError
    else if c.contains densityGroup ≠ .ok false then .error .assertionError
    else
      match c.getitem cellOld with
      | .error e => .error e
      | .ok cellSubdivision =>
        match c.delitem cellOld with
        | .error e => .error e
        | .ok c =>
          match c.setitem flowNew cellSubdivision with
          | .error e => .error e
          | .ok c => c.setitem densityNew cellSubdivision

/-- `_canonicalize` (`Analysis/MPCDAnalysis/Configuration.py:549-574`). -/
def canonicalize (c : Conf) : Except PyErr Conf :=
  match canonicalizeBoundary c with
  | .error e => .error e
  | .ok c => canonicalizeInstrumentation c

theorem setitem_root {c c' : Conf} {p x} (h : c.setitem p x = .ok c') : c'.root = c.root := by
  unfold Conf.setitem at h
  split_ifs at h
  cases hs : setPath true c.value p x with
  | error e => rw [hs] at h; cases h
  | ok v => rw [hs] at h; cases Except.ok.inj h; rfl

theorem delitem_root {c c' : Conf} {p} (h : c.delitem p = .ok c') : c'.root = c.root := by
  unfold Conf.delitem at h
  cases hc : c.contains p with
  | error e => rw [hc] at h; cases h
  | ok b =>
    rw [hc] at h
    cases b with
    | false => cases Except.ok.inj h; rfl
    | true =>
      simp only at h
      cases hs : delPath c.value p with
      | error e => rw [hs] at h; cases h
      | ok v => rw [hs] at h; cases Except.ok.inj h; rfl

/-- Reading and membership of the whole configuration `c'` at `q` are those of `c`. -/
def SameAt (c c' : Conf) (q : List Comp) : Prop := c'.getitem q = c.getitem q ∧ c'.contains q = c.contains q

theorem set_step {c c' : Conf} (hr : c.root = true) {p : List Comp} (hp : ∀ c ∈ p, Plain c) {x : Value}
    (h : c.setitem p x = .ok c') :
    c'.root = true ∧ c'.getitem p = .ok x ∧ ∀ q, Apart p q → SameAt c c' q := by
  obtain ⟨r, v⟩ := c
  cases hr
  exact ⟨setitem_root h, (C50_set hp h).2.1, (C50_set hp h).2.2⟩

theorem del_step {c c' : Conf} (hr : c.root = true) {p : List Comp} (hp : ∀ c ∈ p, Plain c)
    (h : c.delitem p = .ok c') :
    c'.root = true ∧ c'.contains p = .ok false ∧ ∀ q, Apart p q → SameAt c c' q := by
  obtain ⟨r, v⟩ := c
  cases hr
  exact ⟨delitem_root h, (C50_delete hp h).1, (C50_delete hp h).2⟩

theorem root_contains {c : Conf} (hr : c.root = true) (p : List Comp) :
    (c.contains p = .ok true ∧ ∃ x, c.getitem p = .ok x) ∨
      (c.contains p = .ok false ∧ c.getitem p = .error .keyError) := by
  obtain ⟨r, v⟩ := c
  cases hr
  simp only [Conf.contains, Conf.getitem, if_true]
  cases lookup v p <;> simp

instance (p q : List Comp) : Decidable (Apart p q) := by unfold Apart; infer_instance

instance : DecidablePred Plain := fun c => by cases c <;> unfold Plain <;> infer_instance

/-- The boundary settings: what canonicalising does. -/
theorem boundary_spec {c c' : Conf} (hr : c.root = true) (h : canonicalizeBoundary c = .ok c') :
    c'.root = true ∧ c'.contains bcType = .ok false ∧
      (c.contains bcType = .ok false → c' = c) ∧
      (c.contains bcType = .ok true → c.getitem bcType = .ok (.scalar (.str "Lees-Edwards")) ∧
        c'.getitem bcNew = c.getitem bcShear ∧ c'.contains bcShear = .ok false) ∧
      ∀ q, Apart bcType q → Apart bcShear q → Apart bcNew q → SameAt c c' q := by
  unfold canonicalizeBoundary at h
  rcases root_contains hr bcType with ⟨h1, x, hx⟩ | ⟨h1, hx⟩
  · rw [h1] at h
    simp only [hx] at h
    split at h
    · rename_i e; cases e
    · rename_i e
      cases Except.ok.inj e
      rcases root_contains hr bcShear with ⟨h2, y, hy⟩ | ⟨h2, hy⟩
      · rw [hy] at h
        simp only at h
        cases hd1 : c.delitem bcType with
        | error e => rw [hd1] at h; cases h
        | ok c1 =>
          rw [hd1] at h
          simp only at h
          obtain ⟨r1, d1, s1⟩ := del_step hr (by decide) hd1
          cases hd2 : c1.delitem bcShear with
          | error e => rw [hd2] at h; cases h
          | ok c2 =>
            rw [hd2] at h
            simp only at h
            obtain ⟨r2, d2, s2⟩ := del_step r1 (by decide) hd2
            obtain ⟨r3, d3, s3⟩ := set_step r2 (by decide) h
            refine ⟨r3, ?_, ?_, ?_, ?_⟩
            · rw [(s3 bcType (by decide)).2, (s2 bcType (by decide)).2, d1]
            · intro h0; rw [h1] at h0; cases h0
            · intro _
              exact ⟨hx, by rw [d3, hy], by rw [(s3 bcShear (by decide)).2, d2]⟩
            · intro q q1 q2 q3
              exact ⟨by rw [(s3 q q3).1, (s2 q q2).1, (s1 q q1).1], by rw [(s3 q q3).2, (s2 q q2).2, (s1 q q1).2]⟩
      · rw [hy] at h; cases h
    · cases h
  · rw [h1] at h
    cases Except.ok.inj h
    refine ⟨hr, h1, fun _ => rfl, fun h0 => ?_, fun q _ _ _ => ⟨rfl, rfl⟩⟩
    rw [h1] at h0
    cases h0

/-- The instrumentation settings: what canonicalising does. -/
theorem instrumentation_spec {c c' : Conf} (hr : c.root = true) (h : canonicalizeInstrumentation c = .ok c') :
    c'.root = true ∧ c'.contains cellOld = .ok false ∧
      (c.contains cellOld = .ok false → c' = c) ∧
      (c.contains cellOld = .ok true →
        c'.getitem flowNew = c.getitem cellOld ∧ c'.getitem densityNew = c.getitem cellOld) ∧
      ∀ q, Apart cellOld q → Apart flowNew q → Apart densityNew q → SameAt c c' q := by
  unfold canonicalizeInstrumentation at h
  rcases root_contains hr cellOld with ⟨h1, x, hx⟩ | ⟨h1, hx⟩
  · rw [h1] at h
    simp only [hx] at h
    split_ifs at h with h2 h3
    cases hd1 : c.delitem cellOld with
    | error e => rw [hd1] at h; cases h
    | ok c1 =>
      rw [hd1] at h
      simp only at h
      obtain ⟨r1, d1, s1⟩ := del_step hr (by decide) hd1
      cases hd2 : c1.setitem flowNew x with
      | error e => rw [hd2] at h; cases h
      | ok c2 =>
        rw [hd2] at h
        simp only at h
        obtain ⟨r2, d2, s2⟩ := set_step r1 (by decide) hd2
        obtain ⟨r3, d3, s3⟩ := set_step r2 (by decide) h
        refine ⟨r3, ?_, ?_, ?_, ?_⟩
        · rw [(s3 cellOld (by decide)).2, (s2 cellOld (by decide)).2, d1]
        · intro h0; rw [h1] at h0; cases h0
        · intro _
          exact ⟨by rw [(s3 flowNew (by decide)).1, d2, hx], by rw [d3, hx]⟩
        · intro q q1 q2 q3
          exact ⟨by rw [(s3 q q3).1, (s2 q q2).1, (s1 q q1).1], by rw [(s3 q q3).2, (s2 q q2).2, (s1 q q1).2]⟩
  · rw [h1] at h
    cases Except.ok.inj h
    refine ⟨hr, h1, fun _ => rfl, fun h0 => ?_, fun q _ _ _ => ⟨rfl, rfl⟩⟩
    rw [h1] at h0
    cases h0

/-- C64: when a configuration is loaded, deprecated settings are gone, their values are found at the settings that
replace them, and all other settings are unchanged. -/
theorem C64 {c c' : Conf} (hr : c.root = true) (h : canonicalize c = .ok c') :
    c'.contains bcType = .ok false ∧ c'.contains cellOld = .ok false ∧
    (c.contains bcType = .ok true → c.getitem bcType = .ok (.scalar (.str "Lees-Edwards")) ∧
      c'.getitem bcNew = c.getitem bcShear ∧ c'.contains bcShear = .ok false) ∧
    (c.contains bcType = .ok false → c'.getitem bcNew = c.getitem bcNew ∧ c'.getitem bcShear = c.getitem bcShear) ∧
    (c.contains cellOld = .ok true →
      c'.getitem flowNew = c.getitem cellOld ∧ c'.getitem densityNew = c.getitem cellOld) ∧
    (c.contains cellOld = .ok false →
      c'.getitem flowNew = c.getitem flowNew ∧ c'.getitem densityNew = c.getitem densityNew) ∧
    ∀ q, (∀ p ∈ [bcType, bcShear, bcNew, cellOld, flowNew, densityNew], Apart p q) → SameAt c c' q := by
  unfold canonicalize at h
  cases hb : canonicalizeBoundary c with
  | error e => rw [hb] at h; cases h
  | ok c1 =>
    rw [hb] at h
    simp only at h
    obtain ⟨r1, b1, b2, b3, b4⟩ := boundary_spec hr hb
    obtain ⟨r2, i1, i2, i3, i4⟩ := instrumentation_spec r1 h
    have tNew := i4 bcNew (by decide) (by decide) (by decide)
    have tShear := i4 bcShear (by decide) (by decide) (by decide)
    have tType := i4 bcType (by decide) (by decide) (by decide)
    have tOld := b4 cellOld (by decide) (by decide) (by decide)
    have tFlow := b4 flowNew (by decide) (by decide) (by decide)
    have tDens := b4 densityNew (by decide) (by decide) (by decide)
    refine ⟨by rw [tType.2, b1], i1, ?_, ?_, ?_, ?_, ?_⟩
    · intro h0
      obtain ⟨g1, g2, g3⟩ := b3 h0
      exact ⟨g1, by rw [tNew.1, g2], by rw [tShear.2, g3]⟩
    · intro h0
      have := b2 h0
      subst this
      exact ⟨tNew.1, tShear.1⟩
    · intro h0
      obtain ⟨g1, g2⟩ := i3 (by rw [tOld.2, h0])
      exact ⟨by rw [g1, tOld.1], by rw [g2, tOld.1]⟩
    · intro h0
      have := i2 (by rw [tOld.2, h0])
      subst this
      exact ⟨tFlow.1, tDens.1⟩
    · intro q hq
      simp only [List.forall_mem_cons, List.not_mem_nil, false_imp_iff, implies_true, and_true] at hq
      obtain ⟨q1, q2, q3, q4, q5, q6⟩ := hq
      have s1 := b4 q q1 q2 q3
      have s2 := i4 q q4 q5 q6
      exact ⟨by rw [s2.1, s1.1], by rw [s2.2, s1.2]⟩

/-- C64: a configuration without deprecated settings is taken as it is; in particular canonicalising again changes
nothing. -/
theorem C64_idempotent {c c' : Conf} (hr : c.root = true) (h : canonicalize c = .ok c') :
    canonicalize c' = .ok c' := by
  obtain ⟨h1, h2, -⟩ := C64 hr h
  simp only [canonicalize, canonicalizeBoundary, canonicalizeInstrumentation, h1, h2]

/-- An old configuration. -/
def oldSample : Value := .group [
  (.name "boundaryConditions", .group [(.name "type", .scalar (.str "Lees-Edwards")),
    (.name "shearRate", .scalar (.float (1 / 10)))]),
  (.name "instrumentation", .group [(.name "cellSubdivision", .scalar (.int 2))])]

example : (canonicalize ⟨true, oldSample⟩).map Conf.value = .ok (.group [
    (.name "boundaryConditions", .group [(.name "LeesEdwards", .group [(.name "shearRate", .scalar (.float (1 / 10)))])]),
    (.name "instrumentation", .group [(.name "flowProfile", .group [(.name "cellSubdivision", .scalar (.int 2))]),
      (.name "densityProfile", .group [(.name "cellSubdivision", .scalar (.int 2))])])]) := by
  simp [canonicalize, canonicalizeBoundary, canonicalizeInstrumentation, oldSample, Conf.contains, Conf.getitem, lookup,
    bcType, bcShear, bcNew, cellOld, flowGroup, densityGroup, flowNew, densityNew, dictGet, dictSet, dictDel,
    Conf.delitem, delPath, Conf.setitem, setPath, setLast, Except.map]

end OpenMPCD.Config
