import Verif.Common
import Mathlib.Data.List.Induction

/-!
# Selecting a project

`DataManager.selectProject`, `getProject` and `getProjects`. The dictionaries of the configured projects
are shared: `self.project` refers to one of the elements of `self.projects`, here by its position. The
target data specification file is arbitrary Python code; executing it may give any result, and another
one each time. Executed files are assumed not to change the `DataManager` themselves.
-/

set_option linter.unusedSectionVars false
set_option linter.unusedSimpArgs false
set_option linter.unusedVariables false

namespace OpenMPCD.Runs.Selection

variable {B G : Type}

abbrev Str := List Char

/-! ## Model -/

/-- A project as in the configuration file; `none` stands for a missing key. `baseConfig` and
`configPartGenerators` are added when the project is selected. -/
structure Project (B G : Type) where
  name : Option Str
  localBase : Option Str
  serverBase : Option Str
  file : Option Str
  baseConfig : Option B
  generators : Option G

/-- Executing a file, in a scope with the two base paths: an exception, or the values of `baseConfig` and
`generators` in the scope (`none`: not defined). -/
abbrev Files (B G : Type) := Str → Str → Str → Except PyErr (Option B × Option G)

/-- The parts of a `DataManager` (`Analysis/MPCDAnalysis/DataManager.py:95-96`): the projects, and the
position of the selected one. -/
structure Manager (B G : Type) where
  projects : List (Project B G)
  selected : Option ℕ

/-- The attributes set by the constructor (`Analysis/MPCDAnalysis/DataManager.py:95-96`), given the
projects in the configuration file, if it has any. -/
def newManager (configured : Option (List (Project B G))) : Manager B G :=
  ⟨configured.getD [], none⟩

/-- The body of the loop in `selectProject` for the project of the name
(`Analysis/MPCDAnalysis/DataManager.py:185-210`): the project after the call, and the outcome. -/
def load (files : Files B G) (p : Project B G) : Project B G × Except PyErr Unit :=
  match p.localBase with
  | none => (p, .error .keyError)
  | some localBase => match p.serverBase with
    | none => (p, .error .keyError)
    | some serverBase => match p.file with
      | none => (p, .error .keyError)
      | some file => match files localBase serverBase file with
        | .error e => (p, .error e)
        | .ok (none, _) => (p, .error .keyError)
        | .ok (some b, none) => ({ p with baseConfig := some b }, .error .keyError)
        | .ok (some b, some g) => ({ p with baseConfig := some b, generators := some g }, .ok ())

/-- Looking for the name (`Analysis/MPCDAnalysis/DataManager.py:181-182`). -/
def find (name : Str) : List (Project B G) → Except PyErr (Option ℕ)
  | [] => .ok none
  | p :: ps => match p.name with
    | none => .error .keyError
    | some n => if n = name then .ok (some 0)
      else match find name ps with
        | .error e => .error e
        | .ok r => .ok (r.map (· + 1))

/-- `selectProject` (`Analysis/MPCDAnalysis/DataManager.py:176-212`). -/
def selectProject (files : Files B G) (name : Str) (m : Manager B G) :
    Manager B G × Except PyErr Unit :=
  match find name m.projects with
  | .error e => (m, .error e)
  | .ok none => (m, .error .exception)
  | .ok (some i) => match m.projects[i]? with
    | none => (m, .error .exception)
    | some p => (⟨m.projects.set i (load files p).1, some i⟩, (load files p).2)

/-- `getProject` (`Analysis/MPCDAnalysis/DataManager.py:215-221`). -/
def getProject (m : Manager B G) : Option (Project B G) := m.selected.bind (m.projects[·]?)

/-- `getProjects` (`Analysis/MPCDAnalysis/DataManager.py:113-118`). -/
def getProjects (m : Manager B G) : List (Project B G) := m.projects

/-- A history of calls of `selectProject`, with what is in the files at that time; the caller handles
exceptions. -/
def run (m : Manager B G) (calls : List (Files B G × Str)) : Manager B G :=
  calls.foldl (fun m c => (selectProject c.1 c.2 m).1) m

/-! ## Specification -/

/-- What the configuration file says about a project. -/
structure Entry where
  name : Str
  localBase : Str
  serverBase : Str
  file : Str
  deriving DecidableEq

/-- The project as configured. -/
def Entry.project (e : Entry) : Project B G := ⟨e.name, e.localBase, e.serverBase, e.file, none, none⟩

/-- The entry of a name: the first one. -/
def entryOf (es : List Entry) (name : Str) : Option Entry := es.find? (·.name = name)

/-- The project of an entry, with what its file gave. -/
def Entry.loaded (e : Entry) (b : B) (g : G) : Project B G :=
  ⟨e.name, e.localBase, e.serverBase, e.file, some b, some g⟩

/-- All files can be executed and define what they should. -/
def Sound (b : Str → B) (g : Str → G) (files : Files B G) (es : List Entry) : Prop :=
  ∀ e ∈ es, files e.localBase e.serverBase e.file = .ok (some (b e.file), some (g e.file))

/-! ## Proofs -/

/-- The fixed part of a project. -/
def fixed (p : Project B G) : Option Str × Option Str × Option Str × Option Str :=
  (p.name, p.localBase, p.serverBase, p.file)

theorem load_fixed (files : Files B G) (p : Project B G) : fixed (load files p).1 = fixed p := by
  unfold load
  split
  · rfl
  · split
    · rfl
    · split
      · rfl
      · split <;> rfl

theorem select_fixed (files : Files B G) (name : Str) (m : Manager B G) :
    (selectProject files name m).1.projects.map fixed = m.projects.map fixed := by
  unfold selectProject
  split
  · rfl
  · rfl
  · next i hi =>
    split
    · rfl
    · next p hp =>
      simp only [List.map_set, load_fixed]
      apply List.ext_getElem?
      intro j
      by_cases hj : j = i
      · subst hj
        rw [List.getElem?_set]
        simp only [List.getElem?_map, hp, Option.map_some, if_true]
        obtain ⟨hlt, -⟩ := List.getElem?_eq_some_iff.1 hp
        simp [hlt]
      · rw [List.getElem?_set_ne (Ne.symm hj)]

/-- The manager has the entries. -/
def Has (es : List Entry) (m : Manager B G) : Prop :=
  m.projects.map fixed = es.map fun e => (some e.name, some e.localBase, some e.serverBase, some e.file)

theorem has_select {es : List Entry} {m : Manager B G} (h : Has es m) (files : Files B G) (name : Str) :
    Has es (selectProject files name m).1 := by
  unfold Has at h ⊢
  rw [select_fixed, h]

theorem has_new (es : List Entry) : Has (B := B) (G := G) es (newManager (some (es.map Entry.project))) := by
  simp [Has, newManager, fixed, Entry.project, Function.comp_def]

theorem has_run {es : List Entry} {m : Manager B G} (h : Has es m) (calls : List (Files B G × Str)) :
    Has es (run m calls) := by
  induction calls generalizing m with
  | nil => exact h
  | cons c cs ih => exact ih (has_select h c.1 c.2)

theorem find_eq {es : List Entry} {ps : List (Project B G)} (name : Str)
    (h : ps.map fixed = es.map fun e => (some e.name, some e.localBase, some e.serverBase, some e.file)) :
    find name ps = .ok (es.findIdx? (·.name = name)) := by
  induction ps generalizing es with
  | nil =>
    cases es with
    | nil => rfl
    | cons e es => simp at h
  | cons p ps ih =>
    cases es with
    | nil => simp at h
    | cons e es =>
      simp only [List.map_cons, List.cons.injEq, fixed, Prod.mk.injEq] at h
      obtain ⟨⟨h1, -⟩, h2⟩ := h
      rw [List.findIdx?_cons]
      by_cases hn : e.name = name
      · simp [find, h1, hn]
      · have := ih h2
        simp [find, h1, hn, this]

theorem project_at {es : List Entry} {m : Manager B G} (h : Has es m) {i : ℕ} {e : Entry}
    (he : es[i]? = some e) : ∃ p, m.projects[i]? = some p ∧ p.name = some e.name ∧
      p.localBase = some e.localBase ∧ p.serverBase = some e.serverBase ∧ p.file = some e.file := by
  have := congrArg (·[i]?) h
  simp only [List.getElem?_map, he, Option.map_some] at this
  cases hp : m.projects[i]? with
  | none => simp [hp] at this
  | some p =>
    simp only [hp, Option.map_some, Option.some.injEq, fixed, Prod.mk.injEq] at this
    exact ⟨p, rfl, this⟩

theorem select_known {es : List Entry} {m : Manager B G} (h : Has es m) (files : Files B G) {name : Str}
    {e : Entry} (he : entryOf es name = some e) :
    ∃ i p, es[i]? = some e ∧ m.projects[i]? = some p ∧ p.name = some e.name ∧
      p.localBase = some e.localBase ∧ p.serverBase = some e.serverBase ∧ p.file = some e.file ∧
      selectProject files name m = (⟨m.projects.set i (load files p).1, some i⟩, (load files p).2) := by
  have hf := find_eq name h
  cases hi : es.findIdx? (·.name = name) with
  | none =>
    rw [List.findIdx?_eq_none_iff] at hi
    have := List.find?_some he
    have h2 := hi e (List.mem_of_find?_eq_some he)
    simp_all
  | some i =>
    have hei : es[i]? = some e := by
      rw [List.findIdx?_eq_some_iff_getElem] at hi
      obtain ⟨hlt, hp, hmin⟩ := hi
      unfold entryOf at he
      rw [List.find?_eq_some_iff_getElem] at he
      obtain ⟨hpe, j, hj, hje, hjmin⟩ := he
      have : i = j := by
        rcases Nat.lt_trichotomy i j with hlt' | heq | hgt
        · have := hjmin i hlt'
          simp_all
        · exact heq
        · have := hmin j hgt
          simp_all
      subst this
      rw [List.getElem?_eq_getElem hj, hje]
    obtain ⟨p, hp, h1, h2, h3, h4⟩ := project_at h hei
    refine ⟨i, p, hei, hp, h1, h2, h3, h4, ?_⟩
    simp only [selectProject, hf, hi, hp]

theorem getProject_set {l : List (Project B G)} {i : ℕ} {p q : Project B G} (h : l[i]? = some p) :
    getProject ⟨l.set i q, some i⟩ = some q := by
  obtain ⟨hlt, -⟩ := List.getElem?_eq_some_iff.1 h
  simp [getProject, hlt]

/-! ## Theorems -/

/-- C161: whatever has been selected before, with whatever outcome, selecting a configured name whose file
can be executed and defines what it should makes this project the selected one, as configured, with what
the file gives now; of several projects of a name it is the first. -/
theorem C161_select (es : List Entry) (calls : List (Files B G × Str)) (files : Files B G) {name : Str}
    {e : Entry} (he : entryOf es name = some e) {b : B} {g : G}
    (hfile : files e.localBase e.serverBase e.file = .ok (some b, some g)) :
    let m := run (newManager (some (es.map Entry.project))) calls
    (selectProject files name m).2 = .ok () ∧
      getProject (selectProject files name m).1 = some (e.loaded b g) := by
  intro m
  have hm : Has es m := has_run (has_new es) calls
  obtain ⟨i, p, hi, hp, h1, h2, h3, h4, hsel⟩ := select_known hm files he
  have hl : load files p = (e.loaded b g, .ok ()) := by
    simp only [load, h2, h3, h4, hfile, Entry.loaded]
    congr 1
    cases p
    simp_all
  rw [hsel, hl]
  exact ⟨rfl, getProject_set hp⟩

/-- C161: a name that is not configured gives an exception, and changes nothing. -/
theorem C161_unknown (es : List Entry) (calls : List (Files B G × Str)) (files : Files B G) {name : Str}
    (h : ∀ e ∈ es, e.name ≠ name) :
    let m := run (newManager (some (es.map Entry.project))) calls
    selectProject files name m = (m, .error .exception) := by
  intro m
  have hm : Has es m := has_run (has_new es) calls
  have : es.findIdx? (·.name = name) = none := by
    rw [List.findIdx?_eq_none_iff]
    intro e he
    simpa using h e he
  simp only [selectProject, find_eq name hm, this]

/-- C161: no history of calls changes the names, paths and order of the configured projects; before any
call no project is selected, and without projects in the configuration there are none. -/
theorem C161_configured (es : List Entry) (calls : List (Files B G × Str)) :
    ((getProjects (run (newManager (B := B) (G := G) (some (es.map Entry.project))) calls)).map
      fun p => (p.name, p.localBase, p.serverBase, p.file)) =
        es.map (fun e => (some e.name, some e.localBase, some e.serverBase, some e.file)) ∧
    getProject (newManager (B := B) (G := G) (some (es.map Entry.project))) = none ∧
    getProjects (newManager (B := B) (G := G) none) = [] :=
  ⟨has_run (has_new es) calls, rfl, rfl⟩

/-- C161: selecting a project does not change what others have been given. -/
theorem C161_others (files : Files B G) (name : Str) (m : Manager B G) (i : ℕ) {p : Project B G}
    (hp : m.projects[i]? = some p) (hn : p.name ≠ some name) :
    (getProjects (selectProject files name m).1)[i]? = some p := by
  have key : ∀ (l : List (Project B G)) (j : ℕ), find name l = .ok (some j) →
      ∃ q, l[j]? = some q ∧ q.name = some name := by
    intro l
    induction l with
    | nil => intro j h; simp [find] at h
    | cons q qs ih =>
      intro j h
      unfold find at h
      split at h
      · cases h
      · next n hq =>
        split_ifs at h with hnn
        · cases h
          exact ⟨q, rfl, by rw [hq, hnn]⟩
        · split at h
          · cases h
          · next r hr =>
            cases r with
            | none => simp at h
            | some j' =>
              simp only [Option.map_some, Except.ok.injEq, Option.some.injEq] at h
              subst h
              obtain ⟨q', h1, h2⟩ := ih j' hr
              exact ⟨q', by simpa using h1, h2⟩
  unfold selectProject getProjects
  split
  · exact hp
  · exact hp
  · next j hj =>
    split
    · exact hp
    · next q hq =>
      obtain ⟨q', h1, h2⟩ := key _ _ hj
      have hij : j ≠ i := by
        rintro rfl
        rw [hp] at h1
        cases h1
        exact hn h2
      simp only [List.getElem?_set_ne hij]
      exact hp

/-- C161, for histories in which all files can be executed and define what they should: the selected
project is the last one that was asked for by a configured name, with what its file gave; missing is what
happens if files cannot be executed, see `C161_failed_violated`. -/
theorem C161_history_partial (es : List Entry) (b : Str → B) (g : Str → G)
    (calls : List (Files B G × Str)) (hs : ∀ c ∈ calls, Sound b g c.1 es) :
    getProject (run (newManager (some (es.map Entry.project))) calls) =
      ((calls.filterMap fun c => entryOf es c.2).getLast?).map fun e => e.loaded (b e.file) (g e.file) := by
  induction calls using List.reverseRecOn with
  | nil => rfl
  | append_singleton cs c ih =>
    have ih := ih fun c hc => hs c (List.mem_append_left _ hc)
    have hc := hs c (by simp)
    have hrun : run (newManager (some (es.map Entry.project))) (cs ++ [c]) =
        (selectProject c.1 c.2 (run (newManager (some (es.map Entry.project))) cs)).1 := by
      simp [run]
    rw [hrun, List.filterMap_append]
    cases he : entryOf es c.2 with
    | none =>
      have hne : ∀ e ∈ es, e.name ≠ c.2 := by
        intro e hm
        have := List.find?_eq_none.1 he e hm
        simpa using this
      rw [C161_unknown es cs c.1 hne]
      simpa [he] using ih
    | some e =>
      have := (C161_select es cs c.1 he (hc e (List.mem_of_find?_eq_some he))).2
      rw [this]
      simp [he]

/-- C161 fails if the file of a project cannot be executed: the call raises the exception, but the project
that was selected before no longer is. Instead, the new one is, which has no base configuration, if it has
not been selected before. -/
theorem C161_failed_violated (es : List Entry) (files : Files B G) {name : Str} {e : Entry}
    (he : entryOf es name = some e) {x : PyErr} (hx : files e.localBase e.serverBase e.file = .error x)
    (calls : List (Files B G × Str)) (hother : ∀ c ∈ calls, c.2 ≠ name) :
    let m := run (newManager (some (es.map Entry.project))) calls
    (selectProject files name m).2 = .error x ∧
      getProject (selectProject files name m).1 = some e.project := by
  intro m
  have hm : Has es m := has_run (has_new es) calls
  obtain ⟨i, p, hi, hp, h1, h2, h3, h4, hsel⟩ := select_known hm files he
  have hname : e.name = name := by simpa using List.find?_some he
  have hfresh : m.projects[i]? = some e.project := by
    have : ∀ (calls : List (Files B G × Str)) (m : Manager B G), (∀ c ∈ calls, c.2 ≠ name) →
        m.projects[i]? = some e.project → (run m calls).projects[i]? = some e.project := by
      intro calls
      induction calls with
      | nil => intro m _ h; exact h
      | cons c cs ih =>
        intro m ho h
        refine ih _ (fun c hc => ho c (List.mem_cons_of_mem _ hc)) ?_
        refine C161_others c.1 c.2 m i h ?_
        simp only [Entry.project, hname, ne_eq, Option.some.injEq]
        exact fun h' => ho c List.mem_cons_self h'.symm
    refine this calls _ hother ?_
    simp [newManager, hi]
  have hpe : p = e.project := by rw [hp] at hfresh; exact Option.some.inj hfresh
  have hl : load files p = (p, .error x) := by
    simp only [load, h2, h3, h4, hx]
  rw [hsel, hl]
  exact ⟨rfl, by rw [getProject_set hp, hpe]⟩

/-! ## Non-vacuity -/

/-- Two projects. -/
def exampleEntries : List Entry :=
  [⟨"a".toList, "/l".toList, "/s".toList, "f".toList⟩, ⟨"b".toList, "/l".toList, "/s".toList, "h".toList⟩]

/-- Files that can be executed. -/
def exampleFiles : Files ℕ ℕ := fun _ _ f => .ok (some f.length, some 7)

/-- The second project is the selected one, also after a name has been asked for that does not exist. -/
example : getProject (run (newManager (some (exampleEntries.map Entry.project)))
    [(exampleFiles, "a".toList), (exampleFiles, "b".toList), (exampleFiles, "c".toList)]) =
      some (Entry.loaded ⟨"b".toList, "/l".toList, "/s".toList, "h".toList⟩ 1 7) := by
  rw [C161_history_partial exampleEntries (fun f => f.length) (fun _ => 7) _ (fun c hc => by
    simp only [List.mem_cons, List.not_mem_nil, or_false] at hc
    rcases hc with rfl | rfl | rfl <;> intro e _ <;> rfl)]
  rfl

/-- Selecting the second project fails; the first is no longer selected. -/
example : (getProject (selectProject (fun _ _ _ => .error .osError) "b".toList
    (run (newManager (some (exampleEntries.map Entry.project))) [(exampleFiles, "a".toList)])).1).map
      (fun p => (p.name, p.baseConfig)) = some (some "b".toList, none) := by
  rw [(C161_failed_violated exampleEntries _ (name := "b".toList) rfl rfl _ (by
    simp)).2]
  rfl

end OpenMPCD.Runs.Selection
