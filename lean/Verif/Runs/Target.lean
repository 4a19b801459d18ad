import Verif.Runs.Model
import Verif.Config.Canonical

/-!
# Target data specifications (C89)

`DataManager.getTargetDataSpecifications`. A target data specification file provides a configuration and lists of
"config part generators"; for each element of the Cartesian product of the generators of a list there is one
specification.
-/

set_option linter.unusedSimpArgs false

namespace OpenMPCD.Runs.Target

open OpenMPCD.Config

/-! ## Model -/

/-- What is to be done to a setting: assign a value, or a `ConfigPartSpecialAction`
(`Analysis/MPCDAnalysis/DataManager.py:907-951`), of which there are two. -/
inductive Action where
  | assign (v : Value)
  | delete
  | createGroup

/-- What a config part generator yields (`Analysis/MPCDAnalysis/DataManager.py:14-28`). The settings are a dictionary:
they are listed in the order of iteration. -/
structure ConfigPart where
  settings : List (List Comp × Action)
  pathComponents : Option (List Str)
  targetSweepCount : Option ℤ

/-- An object that can be iterated over: a Python list or tuple, or a generator object (`oneShot`), of which each
element can be obtained only once. Simplification: generators are finite and do not raise. -/
structure Gen where
  oneShot : Bool
  remaining : List ConfigPart

/-- The objects there are, by identity. -/
abbrev Heap := ℕ → Gen

/-- `tuple(g)`, with which `itertools.product` starts for each of its arguments. -/
def iterate (h : Heap) (g : ℕ) : Heap × List ConfigPart :=
  (if (h g).oneShot then Function.update h g ⟨true, []⟩ else h, (h g).remaining)

/-- The same for all arguments, from first to last. -/
def pools (h : Heap) : List ℕ → Heap × List (List ConfigPart)
  | [] => (h, [])
  | g :: gs =>
    let r := iterate h g
    let rs := pools r.1 gs
    (rs.1, r.2 :: rs.2)

/-- What `itertools.product` yields. -/
def product {α : Type} : List (List α) → List (List α)
  | [] => [[]]
  | l :: ls => l.flatMap fun a => (product ls).map (a :: ·)

/-- Lines `Analysis/MPCDAnalysis/DataManager.py:348-356`. -/
def applySetting (c : Conf) (s : List Comp × Action) : Except PyErr Conf :=
  match s.2 with
  | .assign v => c.setitem s.1 v
  | .delete => c.delitem s.1
  | .createGroup =>
    match (c.createGroup s.1).2 with
    | .ok _ => .ok (c.createGroup s.1).1
    | .error e => .error e

/-- The loop in lines `Analysis/MPCDAnalysis/DataManager.py:347-356`. -/
def applySettings : Conf → List (List Comp × Action) → Except PyErr Conf
  | c, [] => .ok c
  | c, s :: ss =>
    match applySetting c s with
    | .ok c' => applySettings c' ss
    | .error e => .error e

/-- The dictionaries returned by `getTargetDataSpecifications`. -/
structure Specification where
  config : Conf
  targetSweepCount : Option ℤ
  pathComponents : List Str

/-- Lines `Analysis/MPCDAnalysis/DataManager.py:361-364`. -/
def raiseTarget (target : Option ℤ) (new : Option ℤ) : Option ℤ :=
  match new with
  | none => target
  | some tmp =>
    match target with
    | none => some tmp
    | some t => if t < tmp then some tmp else some t

/-- The body of the loop in lines `Analysis/MPCDAnalysis/DataManager.py:346-364`. -/
def addPart (s : Specification) (part : ConfigPart) : Except PyErr Specification :=
  match applySettings s.config part.settings with
  | .error e => .error e
  | .ok config => .ok {
      config := config
      targetSweepCount := raiseTarget s.targetSweepCount part.targetSweepCount
      pathComponents := s.pathComponents ++ part.pathComponents.getD [] }

/-- Lines `Analysis/MPCDAnalysis/DataManager.py:343-369`, for one element of the product. `copy.deepcopy` of the base
configuration: configurations are values here. -/
def specify (base : Conf) (element : List ConfigPart) : Except PyErr Specification :=
  element.foldlM addPart ⟨base, none, []⟩

/-- The loop in lines `Analysis/MPCDAnalysis/DataManager.py:342-369`. -/
def specifyAll (base : Conf) : List (List ConfigPart) → Except PyErr (List Specification)
  | [] => .ok []
  | element :: elements =>
    match specify base element with
    | .error e => .error e
    | .ok s =>
      match specifyAll base elements with
      | .error e => .error e
      | .ok ss => .ok (s :: ss)

/-- The loop in lines `Analysis/MPCDAnalysis/DataManager.py:341-369`. -/
def specifyGroups (base : Conf) : Heap → List (List ℕ) → Heap × Except PyErr (List Specification)
  | h, [] => (h, .ok [])
  | h, generators :: rest =>
    let p := pools h generators
    match specifyAll base (product p.2) with
    | .error e => (p.1, .error e)
    | .ok ss =>
      let r := specifyGroups base p.1 rest
      match r.2 with
      | .error e => (r.1, .error e)
      | .ok ss' => (r.1, .ok (ss ++ ss'))

/-- What `selectProject` takes from the target data specification file
(`Analysis/MPCDAnalysis/DataManager.py:205-209`); `selectProject` executes the file, which is arbitrary Python code. -/
structure Project where
  baseConfig : Conf
  configPartGenerators : List (List ℕ)

/-- `getTargetDataSpecifications` (`Analysis/MPCDAnalysis/DataManager.py:323-371`). -/
def getTargetDataSpecifications (project : Option Project) (h : Heap) : Heap × Except PyErr (List Specification) :=
  match project with
  | none => (h, .error .exception)
  | some p => specifyGroups p.baseConfig h p.configPartGenerators

/-! ## Specification -/

/-- The number of ways to choose one element of each list. -/
def ways {α : Type} (ls : List (List α)) : ℕ := (ls.map List.length).prod

/-- Choice number `j`, if choices are numbered like an odometer counts: the last position changes fastest. -/
def choice {α : Type} : List (List α) → ℕ → Option (List α)
  | [], _ => some []
  | l :: ls, j =>
    match l[j / ways ls]?, choice ls (j % ways ls) with
    | some a, some as => some (a :: as)
    | _, _ => none

/-- The configuration `c` results from `base` and the given settings: what is set, deleted, or created last is there,
is not there, or is a group, respectively; all that is not concerned by any setting is as in `base`. -/
structure Results (base : Conf) (settings : List (List Comp × Action)) (c : Conf) : Prop where
  assigned : ∀ before p x after, settings = before ++ (p, .assign x) :: after → (∀ s ∈ after, Apart s.1 p) →
    c.getitem p = .ok x
  deleted : ∀ before p after, settings = before ++ (p, .delete) :: after → (∀ s ∈ after, Apart s.1 p) →
    c.contains p = .ok false ∧ c.getitem p = .error .keyError
  created : ∀ before p after, settings = before ++ (p, .createGroup) :: after → (∀ s ∈ after, Apart s.1 p) →
    ∃ fields, c.getitem p = .ok (.group fields)
  other : ∀ q, (∀ s ∈ settings, Apart s.1 q) → SameAt base c q

/-- What a specification made from the given parts should be. -/
structure Describes (base : Conf) (parts : List ConfigPart) (s : Specification) : Prop where
  config : Results base (parts.flatMap ConfigPart.settings) s.config
  path : s.pathComponents = (parts.filterMap ConfigPart.pathComponents).flatten
  noTarget : s.targetSweepCount = none ↔ ∀ part ∈ parts, part.targetSweepCount = none
  target : ∀ n, s.targetSweepCount = some n →
    (∃ part ∈ parts, part.targetSweepCount = some n) ∧
      ∀ part ∈ parts, ∀ m, part.targetSweepCount = some m → m ≤ n

/-- The specifications of one list of generators, with the given elements each. -/
def DescribesGroup (base : Conf) (elements : List (List ConfigPart)) (ss : List Specification) : Prop :=
  ss.length = ways elements ∧
    ∀ j s, ss[j]? = some s → ∃ parts, choice elements j = some parts ∧ Describes base parts s

/-- Paths of names and numbers of list elements only. -/
def PlainPart (part : ConfigPart) : Prop := ∀ s ∈ part.settings, ∀ c ∈ s.1, Plain c

/-! ## Combinations -/

theorem product_length {α : Type} (ls : List (List α)) : (product ls).length = ways ls := by
  induction ls with
  | nil => simp [product, ways]
  | cons l ls ih =>
    simp only [product, List.length_flatMap, List.length_map, ih, ways, List.map_cons, List.prod_cons]
    simp

theorem getElem?_flatMap_const {α β : Type} (n : ℕ) (f : α → List β) (hf : ∀ a, (f a).length = n) (l : List α)
    (j : ℕ) (hn : 0 < n) : (l.flatMap f)[j]? = (l[j / n]?).bind fun a => (f a)[j % n]? := by
  induction l generalizing j with
  | nil => simp
  | cons a l ih =>
    rw [List.flatMap_cons]
    by_cases hj : j < n
    · rw [List.getElem?_append_left (by rw [hf]; exact hj), Nat.div_eq_of_lt hj, Nat.mod_eq_of_lt hj]
      simp
    · rw [List.getElem?_append_right (by rw [hf]; omega), hf, ih (j - n)]
      have h1 : j / n = (j - n) / n + 1 := by
        have : j = j - n + n := by omega
        conv_lhs => rw [this]
        exact Nat.add_div_right _ hn
      have h2 : j % n = (j - n) % n := (Nat.mod_eq_sub_mod (by omega))
      rw [h1, h2]
      simp

theorem product_choice {α : Type} (ls : List (List α)) (j : ℕ) (hj : j < ways ls) :
    (product ls)[j]? = choice ls j ∧ (choice ls j).isSome = true := by
  induction ls generalizing j with
  | nil =>
    have : j = 0 := by simpa [ways] using hj
    subst this
    simp [product, choice]
  | cons l ls ih =>
    have hw : ways (l :: ls) = l.length * ways ls := by simp [ways]
    rw [hw] at hj
    have hpos : 0 < ways ls := Nat.pos_of_ne_zero fun h => by rw [h, Nat.mul_zero] at hj; omega
    have hd : j / ways ls < l.length := by
      rw [Nat.div_lt_iff_lt_mul hpos]; exact hj
    obtain ⟨h1, h2⟩ := ih (j % ways ls) (Nat.mod_lt _ hpos)
    obtain ⟨as, has⟩ := Option.isSome_iff_exists.1 h2
    simp only [product]
    rw [getElem?_flatMap_const (ways ls) _ (fun a => by rw [List.length_map, product_length]) l j hpos]
    simp only [choice, has, List.getElem?_eq_getElem hd, Option.bind_some, List.getElem?_map, h1]
    simp

/-! ## Single specifications -/

theorem apart_trans_split {settings : List (List Comp × Action)} {s a : List Comp × Action}
    {before after : List (List Comp × Action)} (h : settings ++ [s] = before ++ a :: after) :
    (after = [] ∧ a = s ∧ before = settings) ∨
      ∃ after', after = after' ++ [s] ∧ settings = before ++ a :: after' := by
  rcases List.eq_nil_or_concat after with rfl | ⟨after', s', rfl⟩
  · left
    have := List.append_inj' h rfl
    exact ⟨rfl, by simpa using this.2.symm, this.1.symm⟩
  · right
    have h' : settings ++ [s] = (before ++ a :: after') ++ [s'] := by simpa using h
    have := List.append_inj' h' rfl
    refine ⟨after', ?_, this.1⟩
    have h3 := this.2
    simp only [List.cons.injEq, and_true] at h3
    simp [h3]

theorem createGroup_step {c : Conf} (hr : c.root = true) {p : List Comp} {w : Value}
    (h : (c.createGroup p).2 = .ok w) :
    (c.createGroup p).1.root = true ∧ (∃ fields, (c.createGroup p).1.getitem p = .ok (.group fields)) ∧
      ∀ q, Apart p q → SameAt c (c.createGroup p).1 q := by
  obtain ⟨r, v⟩ := c
  cases hr
  cases hl : lookup v p with
  | some x =>
    have hc : Conf.contains ⟨true, v⟩ p = .ok true := by simp [Conf.contains, hl]
    unfold Conf.createGroup at h ⊢
    simp only [hc] at h ⊢
    cases v with
    | scalar s => simp at h
    | list a items => simp at h
    | group fields =>
      match p, h with
      | [], h => simp at h
      | [k], h =>
        simp only at h ⊢
        cases hd : dictGet fields k with
        | none => rw [hd] at h; simp at h
        | some u =>
          cases u with
          | group hs =>
            simp only
            refine ⟨trivial, ⟨hs, ?_⟩, fun q _ => ⟨rfl, rfl⟩⟩
            simp [Conf.getitem, lookup, hd]
          | scalar s => rw [hd] at h; simp at h
          | list a items => rw [hd] at h; simp at h
      | k :: k' :: ks, h => simp at h
  | none =>
    have hc : Conf.contains ⟨true, v⟩ p = .ok false := by simp [Conf.contains, hl]
    unfold Conf.createGroup at h ⊢
    simp only [hc] at h ⊢
    cases hf : createFrom v p with
    | error e => rw [hf] at h; simp at h
    | ok v' =>
      obtain ⟨h1, h2⟩ := createFrom_lookup p v v' hf hl
      simp only
      refine ⟨trivial, ⟨[], by simp [Conf.getitem, h1]⟩, fun q hq => ?_⟩
      simp [SameAt, Conf.getitem, Conf.contains, h2 q hq]

theorem apart_symm {p q : List Comp} (h : Apart p q) : Apart q p := ⟨h.2, h.1⟩

theorem applySetting_step {c c' : Conf} (hr : c.root = true) {s : List Comp × Action} (hp : ∀ d ∈ s.1, Plain d)
    (h : applySetting c s = .ok c') :
    c'.root = true ∧ (∀ x, s.2 = .assign x → c'.getitem s.1 = .ok x) ∧
      (s.2 = .delete → c'.contains s.1 = .ok false) ∧
      (s.2 = .createGroup → ∃ fields, c'.getitem s.1 = .ok (.group fields)) ∧ ∀ q, Apart s.1 q → SameAt c c' q := by
  obtain ⟨p, a⟩ := s
  cases a with
  | assign v =>
    obtain ⟨h1, h2, h3⟩ := set_step hr hp h
    refine ⟨h1, fun x hx => ?_, nofun, nofun, h3⟩
    cases hx; exact h2
  | delete =>
    obtain ⟨h1, h2, h3⟩ := del_step hr hp h
    exact ⟨h1, nofun, fun _ => h2, nofun, h3⟩
  | createGroup =>
    simp only [applySetting] at h
    cases hg : (c.createGroup p).2 with
    | error e => rw [hg] at h; cases h
    | ok w =>
      rw [hg] at h
      cases Except.ok.inj h
      obtain ⟨h1, h2, h3⟩ := createGroup_step hr hg
      exact ⟨h1, nofun, nofun, fun _ => h2, h3⟩

theorem results_snoc {base c c' : Conf} (hr : c.root = true) {settings : List (List Comp × Action)}
    {s : List Comp × Action} (hp : ∀ d ∈ s.1, Plain d) (hc : Results base settings c)
    (h : applySetting c s = .ok c') : c'.root = true ∧ Results base (settings ++ [s]) c' := by
  obtain ⟨h1, h2, h3, h4, h5⟩ := applySetting_step hr hp h
  have gone : ∀ p, c'.contains p = .ok false → c'.getitem p = .error .keyError := by
    intro p hp
    rcases root_contains h1 p with ⟨e, _⟩ | ⟨_, e⟩
    · rw [hp] at e; cases e
    · exact e
  refine ⟨h1, ?_, ?_, ?_, ?_⟩
  · intro before p x after he ha
    rcases apart_trans_split he with ⟨rfl, rfl, rfl⟩ | ⟨after', rfl, rfl⟩
    · exact h2 x rfl
    · rw [(h5 p (ha s (by simp))).1]
      exact hc.assigned before p x after' rfl fun t ht => ha t (by simp [ht])
  · intro before p after he ha
    rcases apart_trans_split he with ⟨rfl, rfl, rfl⟩ | ⟨after', rfl, rfl⟩
    · exact ⟨h3 rfl, gone _ (h3 rfl)⟩
    · rw [(h5 p (ha s (by simp))).1, (h5 p (ha s (by simp))).2]
      exact hc.deleted before p after' rfl fun t ht => ha t (by simp [ht])
  · intro before p after he ha
    rcases apart_trans_split he with ⟨rfl, rfl, rfl⟩ | ⟨after', rfl, rfl⟩
    · exact h4 rfl
    · rw [(h5 p (ha s (by simp))).1]
      exact hc.created before p after' rfl fun t ht => ha t (by simp [ht])
  · intro q hq
    have e1 := hc.other q fun t ht => hq t (by simp [ht])
    have e2 := h5 q (hq s (by simp))
    exact ⟨e2.1.trans e1.1, e2.2.trans e1.2⟩

theorem results_append {base : Conf} (ss : List (List Comp × Action)) : ∀ {c c' : Conf}, c.root = true →
    (∀ s ∈ ss, ∀ d ∈ s.1, Plain d) → ∀ {settings}, Results base settings c → applySettings c ss = .ok c' →
    c'.root = true ∧ Results base (settings ++ ss) c' := by
  induction ss with
  | nil =>
    intro c c' hr _ settings hc h
    cases Except.ok.inj h
    exact ⟨hr, by simpa using hc⟩
  | cons s ss ih =>
    intro c c' hr hp settings hc h
    simp only [applySettings] at h
    cases hs : applySetting c s with
    | error e => rw [hs] at h; cases h
    | ok c1 =>
      rw [hs] at h
      obtain ⟨r1, hc1⟩ := results_snoc hr (hp s (by simp)) hc hs
      have := ih r1 (fun t ht => hp t (by simp [ht])) hc1 h
      simpa using this

theorem results_nil (base : Conf) : Results base [] base where
  assigned := by intro before p x after h; simp at h
  deleted := by intro before p after h; simp at h
  created := by intro before p after h; simp at h
  other := fun _ _ => ⟨rfl, rfl⟩

theorem raiseTarget_spec (parts : List ConfigPart) (part : ConfigPart) (t : Option ℤ)
    (h0 : t = none ↔ ∀ part ∈ parts, part.targetSweepCount = none)
    (h1 : ∀ n, t = some n → (∃ part ∈ parts, part.targetSweepCount = some n) ∧
      ∀ part ∈ parts, ∀ m, part.targetSweepCount = some m → m ≤ n) :
    (raiseTarget t part.targetSweepCount = none ↔ ∀ p ∈ parts ++ [part], p.targetSweepCount = none) ∧
    ∀ n, raiseTarget t part.targetSweepCount = some n → (∃ p ∈ parts ++ [part], p.targetSweepCount = some n) ∧
      ∀ p ∈ parts ++ [part], ∀ m, p.targetSweepCount = some m → m ≤ n := by
  cases hp : part.targetSweepCount with
  | none =>
    simp only [raiseTarget]
    refine ⟨?_, ?_⟩
    · rw [h0]
      simp [or_imp, forall_and, hp]
    · intro n hn
      obtain ⟨⟨p, hm, hpn⟩, h3⟩ := h1 n hn
      refine ⟨⟨p, by simp [hm], hpn⟩, ?_⟩
      intro q hq m hqm
      rcases List.mem_append.1 hq with hq | hq
      · exact h3 q hq m hqm
      · simp only [List.mem_singleton] at hq
        subst hq
        rw [hp] at hqm; cases hqm
  | some tmp =>
    have hb : ∀ n, tmp ≤ n → (∀ p ∈ parts, ∀ m, p.targetSweepCount = some m → m ≤ n) →
        ∀ p ∈ parts ++ [part], ∀ m, p.targetSweepCount = some m → m ≤ n := by
      intro n hn h p hpm m hm
      rcases List.mem_append.1 hpm with hq | hq
      · exact h p hq m hm
      · simp only [List.mem_singleton] at hq
        subst hq
        rw [hp] at hm; cases hm; exact hn
    have hself : ∃ p ∈ parts ++ [part], p.targetSweepCount = some tmp := ⟨part, by simp, hp⟩
    cases t with
    | none =>
      simp only [raiseTarget]
      have h0' := h0.1 rfl
      refine ⟨⟨fun h => (by cases h), fun h => ?_⟩, fun n hn => ?_⟩
      · have := h part (by simp)
        rw [hp] at this; cases this
      · cases hn
        exact ⟨hself, hb tmp le_rfl fun p hm m hpm => by rw [h0' p hm] at hpm; cases hpm⟩
    | some t =>
      obtain ⟨⟨p, hm, hpt⟩, h3⟩ := h1 t rfl
      simp only [raiseTarget]
      split_ifs with hlt
      · refine ⟨⟨fun h => (by cases h), fun h => ?_⟩, fun n hn => ?_⟩
        · have := h part (by simp)
          rw [hp] at this; cases this
        · cases hn
          exact ⟨hself, hb tmp le_rfl fun p hm m hpm => (h3 p hm m hpm).trans hlt.le⟩
      · refine ⟨⟨fun h => (by cases h), fun h => ?_⟩, fun n hn => ?_⟩
        · have := h part (by simp)
          rw [hp] at this; cases this
        · cases hn
          exact ⟨⟨p, by simp [hm], hpt⟩, hb t (not_lt.1 hlt) h3⟩

theorem specify_describes {base : Conf} (hr : base.root = true) (parts : List ConfigPart)
    (hp : ∀ part ∈ parts, PlainPart part) : ∀ s, specify base parts = .ok s →
    s.config.root = true ∧ Describes base parts s := by
  induction parts using List.reverseRecOn with
  | nil =>
    intro s h
    cases Except.ok.inj h
    exact ⟨hr, results_nil base, rfl, by simp, by simp⟩
  | append_singleton parts part ih =>
    intro s h
    unfold specify at h ih
    rw [List.foldlM_append] at h
    cases h1 : List.foldlM addPart ⟨base, none, []⟩ parts with
    | error e => rw [h1] at h; cases h
    | ok s1 =>
      rw [h1] at h
      obtain ⟨r1, d1⟩ := ih (fun p hm => hp p (by simp [hm])) s1 h1
      have h2 : addPart s1 part = .ok s := by
        cases h3 : addPart s1 part with
        | error e => simp [bind, Except.bind, h3] at h
        | ok s2 => simp [bind, Except.bind, pure, Except.pure, h3] at h; rw [h]
      unfold addPart at h2
      cases h3 : applySettings s1.config part.settings with
      | error e => rw [h3] at h2; cases h2
      | ok c =>
        rw [h3] at h2
        cases Except.ok.inj h2
        obtain ⟨r2, d2⟩ := results_append part.settings r1 (hp part (by simp)) d1.config h3
        obtain ⟨t1, t2⟩ := raiseTarget_spec parts part s1.targetSweepCount d1.noTarget d1.target
        refine ⟨r2, ?_, ?_, t1, t2⟩
        · simpa using d2
        · simp only [d1.path, List.filterMap_append, List.flatten_append]
          cases hc : part.pathComponents <;> simp [hc]

theorem specifyAll_spec {base : Conf} (es : List (List ConfigPart)) : ∀ ss, specifyAll base es = .ok ss →
    List.Forall₂ (fun e s => specify base e = .ok s) es ss := by
  induction es with
  | nil => intro ss h; cases Except.ok.inj h; exact .nil
  | cons e es ih =>
    intro ss h
    simp only [specifyAll] at h
    cases h1 : specify base e with
    | error e' => rw [h1] at h; cases h
    | ok s =>
      rw [h1] at h
      simp only at h
      cases h2 : specifyAll base es with
      | error e' => rw [h2] at h; cases h
      | ok ss' =>
        rw [h2] at h
        cases Except.ok.inj h
        exact .cons h1 (ih ss' h2)

theorem mem_product {α : Type} {ls : List (List α)} {t : List α} (h : t ∈ product ls) :
    ∀ a ∈ t, ∃ l ∈ ls, a ∈ l := by
  induction ls generalizing t with
  | nil =>
    simp only [product, List.mem_singleton] at h
    subst h; simp
  | cons l ls ih =>
    simp only [product, List.mem_flatMap, List.mem_map] at h
    obtain ⟨a, ha, t', ht', rfl⟩ := h
    intro b hb
    rcases List.mem_cons.1 hb with rfl | hb
    · exact ⟨l, by simp, ha⟩
    · obtain ⟨l', hl', hb'⟩ := ih ht' b hb
      exact ⟨l', by simp [hl'], hb'⟩

theorem describesGroup {base : Conf} (hr : base.root = true) {elements : List (List ConfigPart)}
    (hp : ∀ l ∈ elements, ∀ part ∈ l, PlainPart part) {ss : List Specification}
    (h : specifyAll base (product elements) = .ok ss) : DescribesGroup base elements ss := by
  have h1 := specifyAll_spec _ _ h
  have hlen := h1.length_eq
  rw [product_length] at hlen
  refine ⟨hlen.symm, fun j s hs => ?_⟩
  have hj : j < ways elements := by
    rw [hlen]; exact (List.getElem?_eq_some_iff.1 hs).1
  obtain ⟨h2, h3⟩ := product_choice elements j hj
  obtain ⟨parts, hparts⟩ := Option.isSome_iff_exists.1 h3
  refine ⟨parts, hparts, ?_⟩
  rw [hparts] at h2
  have h4 : specify base parts = .ok s := by
    have := h1.get (i := j) (by rw [product_length]; exact hj) (by rw [← hlen]; exact hj)
    have e1 := (List.getElem?_eq_some_iff.1 h2).2
    have e2 := (List.getElem?_eq_some_iff.1 hs).2
    simpa [List.get_eq_getElem, e1, e2] using this
  refine (specify_describes hr parts (fun part hm => ?_) s h4).2
  obtain ⟨l, hl, hpl⟩ := mem_product (List.mem_of_getElem? h2) part hm
  exact hp l hl part hpl

/-! ## All specifications -/

/-- Each generator object can be iterated over repeatedly, or is used once only. -/
def UsedOnce (h : Heap) (groups : List (List ℕ)) : Prop :=
  (groups.flatten.filter fun g => (h g).oneShot).Nodup

/-- The elements of the generators with the given identities. -/
def elementsOf (h : Heap) (generators : List ℕ) : List (List ConfigPart) := generators.map fun g => (h g).remaining

theorem pools_spec (gs : List ℕ) : ∀ h : Heap, (gs.filter fun g => (h g).oneShot).Nodup →
    (pools h gs).2 = elementsOf h gs ∧
      (∀ g, ((pools h gs).1 g).oneShot = (h g).oneShot) ∧
      ∀ g, (g ∉ gs ∨ (h g).oneShot = false) → (pools h gs).1 g = h g := by
  induction gs with
  | nil => intro h _; exact ⟨rfl, fun _ => rfl, fun _ _ => rfl⟩
  | cons g gs ih =>
    intro h hn
    have hshot : ∀ x, ((iterate h g).1 x).oneShot = (h x).oneShot := by
      intro x
      simp only [iterate]
      split_ifs with hg
      · by_cases hx : x = g
        · subst hx; simp [hg]
        · simp [Function.update_of_ne hx]
      · rfl
    have hn' : (gs.filter fun x => ((iterate h g).1 x).oneShot).Nodup := by
      simp only [hshot]
      rw [List.filter_cons] at hn
      split_ifs at hn
      · exact (List.nodup_cons.1 hn).2
      · exact hn
    have hsame : ∀ x, (x ≠ g ∨ (h x).oneShot = false) → (iterate h g).1 x = h x := by
      intro x hx
      simp only [iterate]
      split_ifs with hg
      · by_cases he : x = g
        · subst he
          rcases hx with hx | hx
          · exact absurd rfl hx
          · rw [hx] at hg; cases hg
        · rw [Function.update_of_ne he]
      · rfl
    obtain ⟨i1, i2, i3⟩ := ih _ hn'
    refine ⟨?_, ?_, ?_⟩
    · simp only [pools, elementsOf, List.map_cons, i1]
      congr 1
      refine List.map_congr_left fun x hx => ?_
      rw [hsame x]
      by_cases he : x = g
      · subst he
        right
        by_contra hc
        rw [Bool.not_eq_false] at hc
        rw [List.filter_cons_of_pos (by simpa using hc)] at hn
        exact (List.nodup_cons.1 hn).1 (List.mem_filter.2 ⟨hx, by simpa using hc⟩)
      · exact Or.inl he
    · intro x
      simp only [pools]
      rw [i2, hshot]
    · intro x hx
      simp only [pools]
      rw [i3 x (by
        rw [hshot]
        rcases hx with hx | hx
        · exact Or.inl fun hm => hx (by simp [hm])
        · exact Or.inr hx)]
      exact hsame x (by
        rcases hx with hx | hx
        · exact Or.inl fun he => hx (by simp [he])
        · exact Or.inr hx)

theorem specifyGroups_spec {base : Conf} (hr : base.root = true) (groups : List (List ℕ)) : ∀ (h : Heap),
    UsedOnce h groups → (∀ gs ∈ groups, ∀ g ∈ gs, ∀ part ∈ (h g).remaining, PlainPart part) →
    ∀ h' ss, specifyGroups base h groups = (h', .ok ss) →
    ∃ per : List (List Specification), ss = per.flatten ∧
      List.Forall₂ (fun gs ss => DescribesGroup base (elementsOf h gs) ss) groups per := by
  induction groups with
  | nil =>
    intro h _ _ h' ss hs
    simp only [specifyGroups, Prod.mk.injEq, Except.ok.injEq] at hs
    exact ⟨[], hs.2.symm, .nil⟩
  | cons gs groups ih =>
    intro h hu hp h' ss hs
    simp only [UsedOnce, List.flatten_cons, List.filter_append] at hu
    obtain ⟨n1, n2, n3⟩ := List.nodup_append.1 hu
    obtain ⟨p1, p2, p3⟩ := pools_spec gs h n1
    simp only [specifyGroups] at hs
    cases h1 : specifyAll base (product (pools h gs).2) with
    | error e => simp [h1] at hs
    | ok ss1 =>
      simp only [h1] at hs
      cases h2 : (specifyGroups base (pools h gs).1 groups).2 with
      | error e => simp [h2] at hs
      | ok ss2 =>
        simp only [h2, Prod.mk.injEq, Except.ok.injEq] at hs
        have hrest : ∀ gs' ∈ groups, ∀ g ∈ gs', (pools h gs).1 g = h g := by
          intro gs' hgs' g hg
          refine p3 g ?_
          by_cases ho : (h g).oneShot = true
          · left
            intro hm
            exact n3 g (List.mem_filter.2 ⟨hm, by simpa using ho⟩) g
              (List.mem_filter.2 ⟨List.mem_flatten.2 ⟨gs', hgs', hg⟩, by simpa using ho⟩) rfl
          · right; simpa using ho
        obtain ⟨per, e1, e2⟩ := ih (pools h gs).1 (by
            simp only [UsedOnce, p2]; exact n2) (by
            intro gs' hgs' g hg part hpart
            rw [hrest gs' hgs' g hg] at hpart
            exact hp gs' (by simp [hgs']) g hg part hpart) _ ss2 (Prod.ext rfl h2)
        refine ⟨ss1 :: per, by rw [← hs.2, e1]; simp, .cons ?_ ?_⟩
        · rw [p1] at h1
          refine describesGroup hr ?_ h1
          intro l hl part hpart
          simp only [elementsOf, List.mem_map] at hl
          obtain ⟨g, hg, rfl⟩ := hl
          exact hp gs (by simp) g hg part hpart
        · have : ∀ gs' ∈ groups, elementsOf (pools h gs).1 gs' = elementsOf h gs' := by
            intro gs' hgs'
            exact List.map_congr_left fun g hg => by rw [hrest gs' hgs' g hg]
          clear ih hs h2 h1 hu hp p1 p2 p3 n1 n2 n3 hrest e1
          induction e2 with
          | nil => exact .nil
          | cons hd _ ih =>
            refine .cons ?_ (ih fun gs' hgs' => this gs' (by simp [hgs']))
            rw [← this _ (by simp)]
            exact hd

/-- C89: where the call succeeds and no generator object is asked twice, there is, for each list of generators, in
order, one specification for each combination of their elements, the last generator varying fastest; each
specification is the base configuration with the settings of its parts, the path components of its parts in order, and
the largest of the target sweep counts. What is missing: generator objects that have been used before
(`C89_repeat_violated`). -/
theorem C89_partial {p : Project} (hr : p.baseConfig.root = true) {h h' : Heap} {ss : List Specification}
    (hu : UsedOnce h p.configPartGenerators)
    (hp : ∀ gs ∈ p.configPartGenerators, ∀ g ∈ gs, ∀ part ∈ (h g).remaining, PlainPart part)
    (hs : getTargetDataSpecifications (some p) h = (h', .ok ss)) :
    ∃ per : List (List Specification), ss = per.flatten ∧
      List.Forall₂ (fun gs ss => DescribesGroup p.baseConfig (elementsOf h gs) ss) p.configPartGenerators per :=
  specifyGroups_spec hr _ h hu hp h' ss hs


/-- C89: without a project nothing is specified. -/
theorem C89_no_project (h : Heap) : getTargetDataSpecifications none h = (h, .error .exception) := rfl

theorem pools_reusable (gs : List ℕ) (h : Heap) (hr : ∀ g ∈ gs, (h g).oneShot = false) : (pools h gs).1 = h := by
  induction gs with
  | nil => rfl
  | cons g gs ih =>
    have h1 : (iterate h g).1 = h := by simp [iterate, hr g (by simp)]
    simp only [pools, h1]
    exact ih fun x hx => hr x (by simp [hx])

theorem specifyGroups_reusable (base : Conf) (groups : List (List ℕ)) (h : Heap)
    (hr : ∀ gs ∈ groups, ∀ g ∈ gs, (h g).oneShot = false) : (specifyGroups base h groups).1 = h := by
  induction groups with
  | nil => rfl
  | cons gs groups ih =>
    have hp := pools_reusable gs h (hr gs (by simp))
    have ih' := ih fun x hx => hr x (by simp [hx])
    simp only [specifyGroups, hp]
    cases specifyAll base (product (pools h gs).2) with
    | error e => rfl
    | ok ss =>
      simp only
      cases h2 : (specifyGroups base h groups).2 <;> simp [h2, ih']

/-- C89: if all generators are lists, every call has the same result. What is missing: generator objects, which the
documentation asks for (`C89_repeat_violated`). -/
theorem C89_repeat_partial (p : Project) (h : Heap)
    (hr : ∀ gs ∈ p.configPartGenerators, ∀ g ∈ gs, (h g).oneShot = false) (n : ℕ) :
    getTargetDataSpecifications (some p)
      ((fun h => (getTargetDataSpecifications (some p) h).1)^[n] h) = getTargetDataSpecifications (some p) h := by
  have h1 : (getTargetDataSpecifications (some p) h).1 = h := specifyGroups_reusable _ _ _ hr
  have h2 : (fun h => (getTargetDataSpecifications (some p) h).1)^[n] h = h := by
    induction n with
    | zero => rfl
    | succ n ih => rw [Function.iterate_succ_apply, h1, ih]
  rw [h2]

/-! ## Success -/

/-- A name that can be used for a group. -/
def ProperName (c : Comp) : Prop := ∃ s : String, c = .name s ∧ s.toList.head? ≠ some '['

/-- On the way to `p` there are groups only, as far as there is anything. -/
def Free (v : Value) (p : List Comp) : Prop :=
  ∀ q, q <+: p → q ≠ p → lookup v q = none ∨ ∃ fields, lookup v q = some (.group fields)

theorem setPath_names (x : Value) (p : List Comp) (hne : p ≠ []) (hp : ∀ c ∈ p, ProperName c) :
    ∀ (single : Bool) (v : Value), Free v p → ∃ v', setPath single v p x = .ok v' := by
  induction p with
  | nil => exact absurd rfl hne
  | cons c cs ih =>
    intro single v hv
    have h0 := hv [] List.nil_prefix (by simp)
    simp only [lookup, Option.some.injEq, reduceCtorEq, false_or] at h0
    obtain ⟨fields, rfl⟩ := h0
    cases cs with
    | nil => exact ⟨.group (dictSet fields c x), by simp [setPath, setLast]⟩
    | cons c' cs =>
      obtain ⟨s, rfl, hs⟩ := hp c (by simp)
      have ih' := ih (by simp) (fun d hd => hp d (by simp [hd])) false
      cases hd : dictGet fields (.name s) with
      | some w =>
        obtain ⟨w', hw'⟩ := ih' w (by
          intro q hq hne'
          have := hv (.name s :: q) (by rw [List.cons_prefix_cons]; exact ⟨rfl, hq⟩) (by simpa using hne')
          simpa [lookup, hd] using this)
        exact ⟨.group (dictSet fields (.name s) w'), by simp [setPath, hd, hw', Except.map]⟩
      | none =>
        obtain ⟨w', hw'⟩ := ih' (.group []) (by
          intro q _ _
          cases q with
          | nil => exact Or.inr ⟨[], rfl⟩
          | cons d ds => exact Or.inl (by simp [lookup, dictGet]))
        exact ⟨.group (dictSet fields (.name s) w'), by simp [setPath, hd, hs, hw', Except.map]⟩

theorem lookup_prefix_name {v y : Value} (q : List Comp) {s : String} {r : List Comp}
    (h : lookup v (q ++ .name s :: r) = some y) : ∃ fields, lookup v q = some (.group fields) := by
  induction q generalizing v with
  | nil =>
    cases v with
    | group fields => exact ⟨fields, rfl⟩
    | scalar t => simp [lookup] at h
    | list a items => simp [lookup] at h
  | cons c cs ih =>
    cases v with
    | group fields =>
      simp only [List.cons_append, lookup] at h ⊢
      cases hd : dictGet fields c with
      | none => rw [hd] at h; simp at h
      | some w =>
        rw [hd] at h
        simp only [Option.bind_some] at h ⊢
        exact ih h
    | scalar t => simp [lookup] at h
    | list a items =>
      cases c with
      | index i =>
        simp only [List.cons_append, lookup] at h ⊢
        cases hd : (if 0 ≤ i then items[i.toNat]? else none) with
        | none => rw [hd] at h; simp at h
        | some w =>
          rw [hd] at h
          simp only [Option.bind_some] at h ⊢
          exact ih h
      | _ => simp [lookup] at h

/-- The settings at `paths` can be given independently of each other. -/
structure Independent (base : Conf) (paths : Set (List Comp)) : Prop where
  root : base.root = true
  nonempty : ∀ p ∈ paths, p ≠ []
  names : ∀ p ∈ paths, ∀ c ∈ p, ProperName c
  apart : ∀ p ∈ paths, ∀ q ∈ paths, p ≠ q → Apart p q
  free : ∀ p ∈ paths, Free base.value p

theorem Independent.set {c : Conf} {paths : Set (List Comp)} (hi : Independent c paths) {p : List Comp} (hp : p ∈ paths)
    (x : Value) : ∃ c', c.setitem p x = .ok c' ∧ Independent c' paths := by
  obtain ⟨v', hv'⟩ := setPath_names x p (hi.nonempty p hp) (hi.names p hp) true c.value (hi.free p hp)
  have hplain : ∀ d ∈ p, Plain d := by
    intro d hd
    obtain ⟨s, rfl, -⟩ := hi.names p hp d hd
    trivial
  obtain ⟨h1, h2⟩ := setPath_lookup p hplain x true c.value v' hv'
  refine ⟨⟨c.root, v'⟩, ?_, hi.root, hi.nonempty, hi.names, hi.apart, ?_⟩
  · unfold Conf.setitem
    rw [if_neg, hv']
    · rfl
    · intro he
      exact hplain _ he
  · intro p' hp' q hq hne
    change lookup v' q = none ∨ ∃ fields, lookup v' q = some (.group fields)
    by_cases hqp : q <+: p
    · by_cases he : q = p
      · subst he
        exact absurd hq (hi.apart q hp p' hp' hne).1
      · right
        obtain ⟨r, rfl⟩ := hqp
        cases r with
        | nil => simp at he
        | cons d ds =>
          obtain ⟨s, rfl, -⟩ := hi.names _ hp d (by simp)
          exact lookup_prefix_name q (s := s) (r := ds) (by simpa [lookup] using h1 [])
    · by_cases hpq : p <+: q
      · by_cases he : p = p'
        · subst he
          exact absurd hq hqp
        · exact absurd (hpq.trans hq) (hi.apart p hp p' hp' he).1
      · rw [h2 q ⟨hpq, hqp⟩]
        exact hi.free p' hp' q hq hne

/-- The part assigns values to settings among `paths`. -/
def Assigns (paths : Set (List Comp)) (part : ConfigPart) : Prop :=
  ∀ s ∈ part.settings, s.1 ∈ paths ∧ ∃ v, s.2 = .assign v

theorem applySettings_ok {paths : Set (List Comp)} (ss : List (List Comp × Action)) : ∀ {c : Conf},
    Independent c paths → (∀ s ∈ ss, s.1 ∈ paths ∧ ∃ v, s.2 = .assign v) →
    ∃ c', applySettings c ss = .ok c' ∧ Independent c' paths := by
  induction ss with
  | nil => intro c hc _; exact ⟨c, rfl, hc⟩
  | cons s ss ih =>
    intro c hc h
    obtain ⟨h1, v, hv⟩ := h s (by simp)
    obtain ⟨c1, e1, i1⟩ := hc.set h1 v
    obtain ⟨c2, e2, i2⟩ := ih i1 fun t ht => h t (by simp [ht])
    have : applySetting c s = .ok c1 := by simp only [applySetting, hv]; exact e1
    exact ⟨c2, by simp only [applySettings, this]; exact e2, i2⟩

theorem specify_ok {base : Conf} {paths : Set (List Comp)} (hb : Independent base paths) (parts : List ConfigPart)
    (h : ∀ part ∈ parts, Assigns paths part) : ∃ s, specify base parts = .ok s := by
  have : ∀ s : Specification, Independent s.config paths → ∃ s', parts.foldlM addPart s = .ok s' := by
    induction parts with
    | nil => intro s _; exact ⟨s, rfl⟩
    | cons part parts ih =>
      intro s hs
      obtain ⟨c, e, i⟩ := applySettings_ok part.settings hs (h part (by simp))
      obtain ⟨s', hs'⟩ := ih (fun x hx => h x (by simp [hx])) ⟨c, raiseTarget s.targetSweepCount
        part.targetSweepCount, s.pathComponents ++ part.pathComponents.getD []⟩ i
      refine ⟨s', ?_⟩
      rw [List.foldlM_cons]
      simp only [addPart, e]
      exact hs'
  exact this _ hb

theorem specifyAll_ok {base : Conf} (es : List (List ConfigPart)) (h : ∀ e ∈ es, ∃ s, specify base e = .ok s) :
    ∃ ss, specifyAll base es = .ok ss := by
  induction es with
  | nil => exact ⟨[], rfl⟩
  | cons e es ih =>
    obtain ⟨s, hs⟩ := h e (by simp)
    obtain ⟨ss, hss⟩ := ih fun x hx => h x (by simp [hx])
    exact ⟨s :: ss, by simp [specifyAll, hs, hss]⟩

theorem pools_sub (gs : List ℕ) : ∀ h : Heap, (∀ g, ((pools h gs).1 g).remaining ⊆ (h g).remaining) ∧
    ∀ l ∈ (pools h gs).2, ∃ g ∈ gs, l ⊆ (h g).remaining := by
  induction gs with
  | nil => intro h; exact ⟨fun _ => List.Subset.refl _, by simp [pools]⟩
  | cons g gs ih =>
    intro h
    have hsub : ∀ x, ((iterate h g).1 x).remaining ⊆ (h x).remaining := by
      intro x
      simp only [iterate]
      split_ifs
      · by_cases he : x = g
        · subst he; simp
        · rw [Function.update_of_ne he]; exact List.Subset.refl _
      · exact List.Subset.refl _
    obtain ⟨i1, i2⟩ := ih (iterate h g).1
    refine ⟨fun x => List.Subset.trans (i1 x) (hsub x), fun l hl => ?_⟩
    simp only [pools, List.mem_cons] at hl
    rcases hl with rfl | hl
    · exact ⟨g, by simp, by simp [iterate]⟩
    · obtain ⟨x, hx, hs⟩ := i2 l hl
      exact ⟨x, by simp [hx], List.Subset.trans hs (hsub x)⟩

/-- C89: if all that the generators ask for is that settings be given values, which do not interfere with each other
or with what there is, the specifications are returned. -/
theorem C89_succeeds {p : Project} {paths : Set (List Comp)} (hb : Independent p.baseConfig paths) (h : Heap)
    (ha : ∀ gs ∈ p.configPartGenerators, ∀ g ∈ gs, ∀ part ∈ (h g).remaining, Assigns paths part) :
    ∃ h' ss, getTargetDataSpecifications (some p) h = (h', .ok ss) := by
  obtain ⟨base, groups⟩ := p
  simp only [getTargetDataSpecifications]
  simp only at ha hb
  have : ∀ h : Heap, (∀ gs ∈ groups, ∀ g ∈ gs, ∀ part ∈ (h g).remaining, Assigns paths part) →
      ∃ ss, (specifyGroups base h groups).2 = .ok ss := by
    clear ha h
    induction groups with
    | nil => intro h _; exact ⟨[], rfl⟩
    | cons gs groups ih =>
      intro h ha
      obtain ⟨s1, s2⟩ := pools_sub gs h
      obtain ⟨ss, hss⟩ := specifyAll_ok (base := base) (product (pools h gs).2) (by
        intro e he
        refine specify_ok hb e fun part hpart => ?_
        obtain ⟨l, hl, hpl⟩ := mem_product he part hpart
        obtain ⟨g, hg, hs⟩ := s2 l hl
        exact ha gs (by simp) g hg part (hs hpl))
      obtain ⟨ss', hss'⟩ := ih (pools h gs).1 fun gs' hgs' g hg part hpart =>
        ha gs' (by simp [hgs']) g hg part (s1 g hpart)
      exact ⟨ss ++ ss', by simp [specifyGroups, hss, hss']⟩
  obtain ⟨ss, hss⟩ := this h ha
  exact ⟨(specifyGroups base h groups).1, ss, Prod.ext rfl hss⟩

/-! ## Examples and violations -/

/-- The path `mpc.timestep`. -/
def timestepPath : List Comp := [.name "mpc", .name "timestep"]
/-- The path `mpc.sweeps`. -/
def sweepsPath : List Comp := [.name "mpc", .name "sweeps"]

/-- A part which sets the number of sweeps. -/
def sweepsPart (n : ℤ) : ConfigPart := ⟨[(sweepsPath, .assign (.scalar (.int n)))], none, some n⟩
/-- A part which sets the length of a time step. -/
def timestepPart (x : ℚ) (name : String) : ConfigPart :=
  ⟨[(timestepPath, .assign (.scalar (.float x)))], some [name.toList], none⟩

/-- Two generators with two elements each: `0` and `1`. -/
def sampleHeap (oneShot : Bool) : Heap := fun g =>
  if g = 0 then ⟨oneShot, [timestepPart (1 / 10) "a", timestepPart (1 / 5) "b"]⟩
  else ⟨oneShot, [sweepsPart 10, sweepsPart 20]⟩

/-- Both generators are combined. -/
def sampleProject : Project := ⟨⟨true, sample⟩, [[0, 1]]⟩

theorem sample_independent : Independent sampleProject.baseConfig {timestepPath, sweepsPath} where
  root := rfl
  nonempty := by rintro p (rfl | rfl) <;> decide
  names := by
    rintro p (rfl | rfl) c hc <;> simp only [timestepPath, sweepsPath, List.mem_cons, List.not_mem_nil, or_false] at hc <;>
      rcases hc with rfl | rfl <;> exact ⟨_, rfl, by decide⟩
  apart := by
    rintro p (rfl | rfl) q (rfl | rfl) h <;> first | exact absurd rfl h | decide
  free := by
    have key : ∀ s : String, Free sampleProject.baseConfig.value [.name "mpc", .name s] := by
      intro s q hq hne
      match q, hq, hne with
      | [], _, _ => exact Or.inr ⟨_, rfl⟩
      | [a], hq, _ =>
        rw [List.cons_prefix_cons] at hq
        obtain ⟨rfl, -⟩ := hq
        exact Or.inr ⟨_, rfl⟩
      | a :: b :: q, hq, hne =>
        rw [List.cons_prefix_cons, List.cons_prefix_cons, List.prefix_nil] at hq
        obtain ⟨rfl, rfl, rfl⟩ := hq
        exact absurd rfl hne
    rintro p (rfl | rfl) <;> exact key _

theorem sample_assigns (b : Bool) : ∀ gs ∈ sampleProject.configPartGenerators, ∀ g ∈ gs,
    ∀ part ∈ ((sampleHeap b) g).remaining, Assigns {timestepPath, sweepsPath} part := by
  intro gs _ g _ part hpart
  have : part = timestepPart (1 / 10) "a" ∨ part = timestepPart (1 / 5) "b" ∨ part = sweepsPart 10 ∨
      part = sweepsPart 20 := by
    unfold sampleHeap at hpart
    split_ifs at hpart <;> simp only [List.mem_cons, List.not_mem_nil, or_false] at hpart <;> tauto
  rcases this with rfl | rfl | rfl | rfl <;> intro s hs <;>
    simp only [timestepPart, sweepsPart, List.mem_singleton] at hs <;> subst hs
  · exact ⟨Or.inl rfl, _, rfl⟩
  · exact ⟨Or.inl rfl, _, rfl⟩
  · exact ⟨Or.inr rfl, _, rfl⟩
  · exact ⟨Or.inr rfl, _, rfl⟩

/-- The hypotheses of `C89_partial` and `C89_succeeds` can be met, by generator objects too. -/
example (b : Bool) : sampleProject.baseConfig.root = true ∧
    UsedOnce (sampleHeap b) sampleProject.configPartGenerators ∧
    (∀ gs ∈ sampleProject.configPartGenerators, ∀ g ∈ gs, ∀ part ∈ ((sampleHeap b) g).remaining, PlainPart part) ∧
    ∃ h' ss, getTargetDataSpecifications (some sampleProject) (sampleHeap b) = (h', .ok ss) ∧ ss.length = 4 := by
  have hp : ∀ gs ∈ sampleProject.configPartGenerators, ∀ g ∈ gs, ∀ part ∈ ((sampleHeap b) g).remaining,
      PlainPart part := by
    intro gs hgs g hg part hpart s hs c hc
    have := (sample_assigns b gs hgs g hg part hpart s hs).1
    obtain ⟨t, rfl, -⟩ := sample_independent.names _ this c hc
    trivial
  have hu : UsedOnce (sampleHeap b) sampleProject.configPartGenerators := by
    cases b <;> simp [UsedOnce, sampleProject, sampleHeap]
  obtain ⟨h', ss, hs⟩ := C89_succeeds sample_independent (sampleHeap b) (sample_assigns b)
  obtain ⟨per, e1, e2⟩ := C89_partial rfl hu hp hs
  refine ⟨rfl, hu, hp, h', ss, hs, ?_⟩
  cases e2 with
  | cons hd tl =>
    cases tl
    rw [e1]
    simp only [List.flatten_cons, List.flatten_nil, List.append_nil, hd.1]
    simp [ways, elementsOf, sampleHeap]

/-- C89 fails: with generator objects, which is what the documentation asks for, a second call returns nothing. -/
theorem C89_repeat_violated : ∃ ss, ss.length = 4 ∧
    (getTargetDataSpecifications (some sampleProject) (sampleHeap true)).2 = .ok ss ∧
    (getTargetDataSpecifications (some sampleProject)
      (getTargetDataSpecifications (some sampleProject) (sampleHeap true)).1).2 = .ok [] := by
  refine ⟨_, ?_, rfl, rfl⟩
  rfl

/-- C89 fails: a generator object used in two lists of generators provides its elements to the first only. -/
theorem C89_shared_violated : ∃ ss, ss.length = 2 ∧
    (getTargetDataSpecifications (some ⟨⟨true, sample⟩, [[0], [0]]⟩) (sampleHeap true)).2 = .ok ss := by
  refine ⟨_, ?_, rfl⟩
  rfl

/-- C89 fails: asking for a group that exists within another one raises, though the documentation of `createGroup`
promises a group in any case; then nothing is specified at all. -/
theorem C89_group_violated :
    let base : Conf := ⟨true, .group [(.name "a", .group [(.name "b", .group [])])]⟩
    let part : ConfigPart := ⟨[([.name "a", .name "b"], .createGroup)], none, none⟩
    (getTargetDataSpecifications (some ⟨base, [[0]]⟩) (fun _ => ⟨false, [part]⟩)).2 = .error .exception := by
  rfl

end OpenMPCD.Runs.Target
