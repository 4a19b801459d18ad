import Verif.Sim.Main
import Mathlib.Data.Fintype.Pigeonhole
import Mathlib.Data.Nat.ModEq
import Mathlib.Tactic.Ring
import Mathlib.Tactic.Linarith

/-!
# The program from outside: its random seed, its signals and its exit status
-/

set_option linter.unusedSectionVars false
set_option linter.unusedSimpArgs false
set_option linter.unusedVariables false

namespace OpenMPCD.Sim.Status

variable {K : Type} [Field K]

/-! ## Model -/

/-- `generateSeed` (`src/OpenMPCD/main.cpp:139-148`): `time` is what `std::time(0)` returns, in seconds, `now` what
`boost::chrono::high_resolution_clock` has counted, in nanoseconds. All are converted to a 32 bit `unsigned int`. -/
def generateSeed (time now : ℕ) : ℕ := (time % 2 ^ 32 + now % 2 ^ 32) % 2 ^ 32

/-- The seed of a program started `t` nanoseconds after the epoch, on a computer started `boot` nanoseconds after the epoch
(`src/OpenMPCD/main.cpp:141-147`): `high_resolution_clock` is the monotonic clock, and counts from the start of the computer.
Simplification: both clocks are read at the same moment. -/
def seedAt (boot t : ℕ) : ℕ := generateSeed (t / 10 ^ 9) (t - boot)

/-- The signals which are handled (`src/OpenMPCD/main.cpp:126-129`). -/
inductive Signal where
  | hup | int | term | usr1
  deriving DecidableEq

/-- The global variables the signal handler changes (`src/OpenMPCD/main.cpp:75-76`). -/
structure Flags where
  terminateProgram : Bool
  earlySave : Bool
  deriving DecidableEq

/-- `signalHandler` (`src/OpenMPCD/main.cpp:79-108`); `none`: the program has been aborted. -/
def signalHandler (f : Flags) : Signal → Option Flags
  | .hup => some f
  | .int => if f.terminateProgram then none else some { f with terminateProgram := true }
  | .term => if f.terminateProgram then none else some { f with terminateProgram := true }
  | .usr1 => some { f with earlySave := true }

/-- The effect of the signals received so far (`src/OpenMPCD/main.cpp:75-76,79-108`). Simplification: the main loop does not
clear `earlySave` here; the flag `terminateProgram` is never cleared. -/
def receive (l : List Signal) : Option Flags := l.foldlM signalHandler ⟨false, false⟩

/-- What happens while signals arrive: `sig h` are the signals received when the history is `h`. `abort()`
(`src/OpenMPCD/main.cpp:92`) ends the program where it is, without destructors being run. The second component is `none` in
this case. -/
def execute (c : Config K) (e : Env K) (sig : List (Event K) → List Signal) : List (Event K) × Option End :=
  match (run c e).1.inits.find? fun h => (receive (sig h)).isNone with
  | some h => (h, none)
  | none => ((run c e).1, some (run c e).2)

/-- What may be thrown. -/
inductive Thrown where
  /-- an `OpenMPCD::Exception`, which has no base class (`include/OpenMPCD/Exceptions.hpp:37`) -/
  | openMPCD
  /-- a `boost::program_options::error` -/
  | programOptions
  /-- another `std::exception` -/
  | std
  | other
  deriving DecidableEq

/-- The handlers of `main` (`src/OpenMPCD/main.cpp:279-307`): the exit status. -/
def handle : Thrown → ℕ
  | .openMPCD => 1
  | .programOptions => 0
  | .std => 2
  | .other => 3

/-- The options given (`src/OpenMPCD/main.cpp:231-259`). -/
structure Options where
  help : Bool
  maxRuntime : ℕ
  rundir : List Char

/-- `main` (`src/OpenMPCD/main.cpp:221-308`): what happens, and the exit status. `commandLine` is what
`boost::program_options` makes of the command line (not modelled), `setup` what comes of the run directory, the configuration
file and the device (`src/OpenMPCD/main.cpp:152-167`; see `Verif.Sim.Rundir`), `thrown` what is thrown if something is thrown
later. -/
def program (commandLine : Except Thrown Options) (setup : Options → Except Thrown (Config K)) (e : Env K) (thrown : Thrown) :
    List (Event K) × ℕ :=
  match commandLine with
  | .error t => ([], handle t)
  | .ok o =>
    if o.help then ([], 1)
    else match setup o with
      | .error t => ([], handle t)
      | .ok c => ((run c e).1, if (run c e).2 = .exception then handle thrown else 0)

/-! ## Specification -/

/-- The program is asked to end. -/
def Signal.isTermination : Signal → Bool
  | .int => true
  | .term => true
  | _ => false

/-! ## Seeds -/

/-- C117: two programs have the same seed if and only if the sums of their two clock readings differ by a multiple of
2³². -/
theorem C117_same (time now time' now' : ℕ) :
    generateSeed time now = generateSeed time' now' ↔ (time + now) ≡ (time' + now') [MOD 2 ^ 32] := by
  simp only [generateSeed, ← Nat.add_mod, Nat.ModEq]

/-- C117: programs started one after the other on the same computer within 4.29 seconds have different seeds. -/
theorem C117_soon (boot t t' : ℕ) (hb : boot ≤ t) (h : t < t') (h' : t' < t + (2 ^ 32 - 5)) : seedAt boot t ≠ seedAt boot t' := by
  intro hs
  rw [seedAt, seedAt, C117_same] at hs
  have hle : t / 10 ^ 9 + (t - boot) ≤ t' / 10 ^ 9 + (t' - boot) :=
    Nat.add_le_add (Nat.div_le_div_right h.le) (Nat.sub_le_sub_right h.le _)
  have h1 := (Nat.modEq_iff_dvd' hle).1 hs
  have hd : t' / 10 ^ 9 ≤ t / 10 ^ 9 + 5 := by omega
  have hd2 : t / 10 ^ 9 ≤ t' / 10 ^ 9 := Nat.div_le_div_right h.le
  have h2 : 0 < t' / 10 ^ 9 + (t' - boot) - (t / 10 ^ 9 + (t - boot)) := by omega
  have h3 := Nat.le_of_dvd h2 h1
  omega

/-- C117 fails for programs started later: 4.294967292 seconds after any program has been started, if this is in the first
0.7 seconds of a second, one started on the same computer has the same seed. -/
theorem C117_later_violated (boot t : ℕ) (hb : boot ≤ t) (h : t % 10 ^ 9 < 705032708) :
    seedAt boot t = seedAt boot (t + (2 ^ 32 - 4)) := by
  rw [seedAt, seedAt, C117_same]
  have hd : (t + (2 ^ 32 - 4)) / 10 ^ 9 = t / 10 ^ 9 + 4 := by omega
  have hs : t + (2 ^ 32 - 4) - boot = (t - boot) + (2 ^ 32 - 4) := by omega
  rw [hd, hs]
  have : t / 10 ^ 9 + 4 + (t - boot + (2 ^ 32 - 4)) = t / 10 ^ 9 + (t - boot) + 2 ^ 32 := by omega
  rw [this, Nat.ModEq, Nat.add_mod_right]

/-- C117: programs started at the same moment on two computers have the same seed if and only if the times at which the
computers were started differ by a multiple of 2³² nanoseconds. -/
theorem C117_computers (boot boot' t : ℕ) (hb : boot ≤ t) (hb' : boot' ≤ t) :
    seedAt boot t = seedAt boot' t ↔ boot ≡ boot' [MOD 2 ^ 32] := by
  rw [seedAt, seedAt, C117_same, Nat.ModEq, Nat.ModEq]
  omega

/-- C117: whenever they are started, among more than 2³² programs two have the same seed. -/
theorem C117_many_violated (n : ℕ) (hn : 2 ^ 32 < n) (time now : Fin n → ℕ) :
    ∃ i j, i ≠ j ∧ generateSeed (time i) (now i) = generateSeed (time j) (now j) := by
  let f : Fin n → Fin (2 ^ 32) := fun i => ⟨generateSeed (time i) (now i), Nat.mod_lt _ (by norm_num)⟩
  obtain ⟨i, j, hij, h⟩ := Fintype.exists_ne_map_eq_of_card_lt f (by simpa using hn)
  exact ⟨i, j, hij, congrArg Fin.val h⟩

/-- Hypotheses of `C117_soon` and `C117_later_violated` are met: a computer started one day before. -/
example : seedAt (1800000000 * 10 ^ 9 - 86400 * 10 ^ 9) (1800000000 * 10 ^ 9) ≠
    seedAt (1800000000 * 10 ^ 9 - 86400 * 10 ^ 9) (1800000000 * 10 ^ 9 + 1) ∧
    seedAt (1800000000 * 10 ^ 9 - 86400 * 10 ^ 9) (1800000000 * 10 ^ 9) =
    seedAt (1800000000 * 10 ^ 9 - 86400 * 10 ^ 9) (1800000000 * 10 ^ 9 + (2 ^ 32 - 4)) :=
  ⟨C117_soon _ _ _ (by norm_num) (by norm_num) (by norm_num), C117_later_violated _ _ (by norm_num) (by norm_num)⟩

/-! ## Signals -/

theorem receive_from (l : List Signal) (f : Flags) :
    l.foldlM signalHandler f = if l.countP Signal.isTermination + (if f.terminateProgram then 1 else 0) < 2 then
        some ⟨f.terminateProgram || l.any Signal.isTermination, f.earlySave || l.any (· == .usr1)⟩ else none := by
  have e1 : (Signal.hup == Signal.usr1) = false := rfl
  have e2 : (Signal.int == Signal.usr1) = false := rfl
  have e3 : (Signal.term == Signal.usr1) = false := rfl
  induction l generalizing f with
  | nil => cases f with | mk a b => cases a <;> cases b <;> rfl
  | cons s l ih =>
    rcases f with ⟨a, b⟩
    cases s with
    | hup => simp [List.foldlM_cons, signalHandler, ih, Signal.isTermination, List.countP_cons, e1, e2, e3]
    | usr1 => simp [List.foldlM_cons, signalHandler, ih, Signal.isTermination, List.countP_cons, e1, e2, e3]
    | int =>
      cases a with
      | true => simp [List.foldlM_cons, signalHandler, Signal.isTermination, List.countP_cons, e1, e2, e3]
      | false => simp [List.foldlM_cons, signalHandler, ih, Signal.isTermination, List.countP_cons, e1, e2, e3]
    | term =>
      cases a with
      | true => simp [List.foldlM_cons, signalHandler, Signal.isTermination, List.countP_cons, e1, e2, e3]
      | false => simp [List.foldlM_cons, signalHandler, ih, Signal.isTermination, List.countP_cons, e1, e2, e3]

theorem receive_eq (l : List Signal) :
    receive l = if l.countP Signal.isTermination < 2 then
        some ⟨l.any Signal.isTermination, l.any (· == .usr1)⟩ else none := by
  rw [receive, receive_from]; simp

/-- C118: the program is aborted exactly if it has been asked to end at least twice; the other signals do not matter. -/
theorem C118_abort (l : List Signal) : receive l = none ↔ 2 ≤ l.countP Signal.isTermination := by
  rw [receive_eq]; split <;> simp <;> omega

/-- C118: the program ends early exactly if it has been asked to, and saves early exactly if it has been asked to. Closing the
terminal does neither. -/
theorem C118_flags (l : List Signal) (f : Flags) (h : receive l = some f) :
    (f.terminateProgram = true ↔ .int ∈ l ∨ .term ∈ l) ∧ (f.earlySave = true ↔ .usr1 ∈ l) := by
  rw [receive_eq] at h
  split at h
  · cases h
    refine ⟨?_, by simp⟩
    rw [List.any_eq_true]
    constructor
    · rintro ⟨s, hs, h⟩
      cases s <;> simp_all [Signal.isTermination]
    · rintro (h | h)
      · exact ⟨_, h, rfl⟩
      · exact ⟨_, h, rfl⟩
  · cases h

/-- C118: however many signals arrive, as long as at most one asks the program to end, it saves the results at its end. -/
theorem C118_saves (c : Config K) (e : Env K) (hc : c.sweepCount < 2 ^ 32) (sig : List (Event K) → List Signal)
    (h : ∀ l, (sig l).countP Signal.isTermination < 2) :
    ∃ tr k, (execute c e sig).1 = tr ++ [.saved .rundir k] ∧ k = sweeps tr := by
  have hn : (run c e).1.inits.find? (fun h => (receive (sig h)).isNone) = none := by
    rw [List.find?_eq_none]
    intro l _
    rw [receive_eq, if_pos (h l)]
    simp
  rw [execute, hn]
  obtain ⟨tr, k, h1, -⟩ := C68_saves_once (e := e) hc
  exact ⟨tr, k, h1, (C68_save hc (by rw [h1])).1⟩

/-- C118 fails when the program is asked twice to end: however long it has been running, unless it has ended before the second
signal arrives, nothing is ever saved to the run directory. -/
theorem C118_twice_violated (c : Config K) (e : Env K) (hc : c.sweepCount < 2 ^ 32) (sig : List (Event K) → List Signal)
    (l : List (Event K)) (hl : l <+: (run c e).1) (hne : l ≠ (run c e).1)
    (h2 : 2 ≤ (sig l).countP Signal.isTermination) :
    (execute c e sig).2 = none ∧ (∀ k, Event.saved .rundir k ∉ (execute c e sig).1) ∧ (execute c e sig).1 <+: l := by
  have hw : ∃ m, (run c e).1.inits.find? (fun h => (receive (sig h)).isNone) = some m ∧ m <+: l := by
    cases hf : (run c e).1.inits.find? (fun h => (receive (sig h)).isNone) with
    | none =>
      rw [List.find?_eq_none] at hf
      have := hf l (by rwa [List.mem_inits])
      rw [(C118_abort _).2 h2] at this
      simp at this
    | some m =>
      refine ⟨m, rfl, ?_⟩
      rw [List.find?_eq_some_iff_append] at hf
      obtain ⟨-, as, bs, has, hno⟩ := hf
      have hm : m <+: (run c e).1 := by rw [← List.mem_inits, has]; simp
      rcases List.prefix_or_prefix_of_prefix hm hl with h | h
      · exact h
      · -- `l` comes no later than `m` among the prefixes
        by_cases heq : l = m
        · rw [heq]
        · exfalso
          have hlt : l.length < m.length := by
            rcases Nat.lt_or_ge l.length m.length with h' | h'
            · exact h'
            · exact absurd (h.eq_of_length (le_antisymm h.length_le h')) heq
          have hlen : ∀ (i : ℕ) (hi : i < (run c e).1.inits.length), ((run c e).1.inits[i]).length = i := by
            intro i hi
            rw [List.length_inits] at hi
            simp only [List.getElem_inits, List.length_take]
            omega
          have hmi := hlen as.length (by rw [has]; simp)
          have hm' : (run c e).1.inits[as.length]'(by rw [has]; simp) = m := by simp [has]
          rw [hm'] at hmi
          have hli : l.length < (run c e).1.inits.length := by rw [List.length_inits]; have := hl.length_le; omega
          have hl' : (run c e).1.inits[l.length]'hli = l := by
            rw [List.getElem_inits]; exact (List.prefix_iff_eq_take.1 hl).symm
          have hmem : l ∈ as := by
            have : (as ++ m :: bs)[l.length]'(by rw [← has]; exact hli) = l := by
              simp only [← has]; exact hl'
            rw [List.getElem_append_left (by omega)] at this
            rw [← this]; exact List.getElem_mem _
          have := hno l hmem
          rw [(C118_abort _).2 h2] at this
          simp at this
  obtain ⟨m, hm, hml⟩ := hw
  rw [execute, hm]
  refine ⟨rfl, fun k hk => ?_, hml⟩
  obtain ⟨tr, k', h1, hno⟩ := C68_saves_once (e := e) hc
  have hk' : Event.saved .rundir k ∈ l := hml.subset hk
  obtain ⟨post, hpost⟩ := hl
  rcases List.eq_nil_or_concat post with rfl | ⟨p, z, rfl⟩
  · exact hne (by simpa using hpost)
  · rw [h1, List.concat_eq_append, ← List.append_assoc] at hpost
    have := List.append_inj_left' hpost rfl
    exact hno k (by rw [← this]; exact List.mem_append_left _ hk')

/-- The program does nothing but what it does without signals, until it is aborted. -/
theorem C118_prefix (c : Config K) (e : Env K) (sig : List (Event K) → List Signal) : (execute c e sig).1 <+: (run c e).1 := by
  rw [execute]
  split
  · rename_i m hm
    have := List.mem_of_find?_eq_some hm
    rwa [List.mem_inits] at this
  · exact List.prefix_rfl

/-! ## Exit status -/

/-- C118: the exit status is 0 exactly if the command line has been refused by the parser, or a simulation has been run and has
thrown nothing. -/
theorem C118_status (commandLine : Except Thrown Options) (setup : Options → Except Thrown (Config K)) (e : Env K)
    (thrown : Thrown) (ht : thrown ≠ .programOptions) (hs : ∀ o, setup o ≠ .error .programOptions) :
    (program commandLine setup e thrown).2 = 0 ↔
      commandLine = .error .programOptions ∨
      ∃ o c, commandLine = .ok o ∧ o.help = false ∧ setup o = .ok c ∧ (run c e).2 ≠ .exception := by
  have hh : ∀ t, t ≠ Thrown.programOptions → handle t ≠ 0 := by intro t; cases t <;> simp [handle]
  cases commandLine with
  | error t =>
    cases t <;> simp [program, handle]
  | ok o =>
    rw [program]
    cases ho : o.help with
    | true => simp [ho]
    | false =>
      have hso := hs o
      cases h : setup o with
      | error t => 
        rw [h] at hso
        have : t ≠ .programOptions := fun h => hso (by rw [h])
        have := hh t this
        simpa [ho, h] using this
      | ok c =>
        by_cases hr : (run c e).2 = .exception
        · simpa [ho, h, hr] using hh thrown ht
        · simp [ho, h, hr]

/-- C118: a program that has been stopped by an exception does not report success. -/
theorem C118_exception (o : Options) (setup : Options → Except Thrown (Config K)) (c : Config K) (e : Env K)
    (thrown : Thrown) (ht : thrown ≠ .programOptions) (ho : o.help = false) (hs : setup o = .ok c)
    (h : (run c e).2 = .exception) : (program (.ok o) setup e thrown).2 ∈ [1, 2, 3] := by
  simp only [program, ho, hs, h]
  cases thrown <;> simp_all [handle]

/-- C118 fails: whatever is wrong with the command line, success is reported, and nothing has been done. -/
theorem C118_refused_violated (setup : Options → Except Thrown (Config K)) (e : Env K) (thrown : Thrown) :
    program (.error .programOptions) setup e thrown = ([], 0) := rfl

/-- C118 fails: a program printing its help as requested reports a failure. -/
theorem C118_help_violated (o : Options) (ho : o.help = true) (setup : Options → Except Thrown (Config K)) (e : Env K)
    (thrown : Thrown) : program (.ok o) setup e thrown = ([], 1) := by
  simp [program, ho]

/-- C118 fails: success is reported by a program that has been asked to end during the warmup, although it has not performed
a single sweep. -/
theorem C118_incomplete_violated (o : Options) (setup : Options → Except Thrown (Config K)) (c : Config K)
    (e : Env K) (thrown : Thrown) (ho : o.help = false) (hs : setup o = .ok c) (hc : 0 < c.sweepCount)
    (hterm : ∀ h, e.terminate h = true) (hstep : ∀ h, e.stepThrows h = false) :
    (program (.ok o) setup e thrown).2 = 0 ∧ sweeps (program (.ok o) setup e thrown).1 = 0 := by
  have hr : ∀ n (s : State K), sweeps s.trace = 0 →
      (runSteps c e n s).2 = false ∧ sweeps (runSteps c e n s).1.trace = 0 := by
    intro n
    induction n with
    | zero => intro s h; exact ⟨rfl, h⟩
    | succ n ih =>
      intro s h
      rw [runSteps, hstep]
      exact ih _ (by simpa [sweeps, Event.isSweep] using h)
  obtain ⟨h1, h2⟩ := hr c.warmupSteps ⟨0, 0, []⟩ rfl
  have hl : ∀ s : State K, (loop c e c.sweepCount s).1 = s ∧ (loop c e c.sweepCount s).2 ≠ .exception := by
    intro s
    obtain ⟨n, hn⟩ := Nat.exists_eq_succ_of_ne_zero hc.ne'
    rw [hn, loop]
    split
    · exact ⟨rfl, by simp⟩
    · rw [hterm]; exact ⟨rfl, by simp⟩
  have hrun : (run c e).2 ≠ .exception ∧ sweeps (run c e).1 = 0 := by
    rw [run]
    rcases hq : runSteps c e c.warmupSteps ⟨0, 0, []⟩ with ⟨s, b⟩
    rw [hq] at h1 h2
    simp only at h1 h2
    subst h1
    simp only
    refine ⟨(hl s).2, ?_⟩
    rw [(hl s).1]
    simpa [sweeps, Event.isSweep] using h2
  simp only [program, ho, hs]
  simp [hrun.1, hrun.2]

/-- An outside world in which nothing happens but a request to end. -/
def asked : Env ℚ := ⟨fun _ => 0, fun _ => true, fun _ => false, fun _ => .ok, fun _ => false, fun _ => false⟩

example : (program (.ok ⟨false, 0, []⟩) (fun _ => .ok ⟨0, 3, 2, 5, 1⟩) asked .other).2 = 0 ∧
    sweeps (program (.ok ⟨false, 0, []⟩) (fun _ => .ok ⟨0, 3, 2, 5, 1⟩) asked .other).1 = 0 :=
  C118_incomplete_violated _ _ ⟨0, 3, 2, 5, 1⟩ _ _ rfl rfl (by norm_num) (fun _ => rfl) (fun _ => rfl)

/-- An outside world in which nothing happens. -/
def quiet : Env ℚ := ⟨fun _ => 0, fun _ => false, fun _ => false, fun _ => .ok, fun _ => false, fun _ => false⟩

/-- Two requests after the second step: nothing is saved. -/
example : (execute (⟨0, 3, 2, 5, 1⟩ : Config ℚ) quiet (fun h => if 2 ≤ h.length then [.int, .hup, .term] else [])).2 = none :=
  (C118_twice_violated _ _ (by norm_num) _ [.step, .step]
    ⟨(run (⟨0, 3, 2, 5, 1⟩ : Config ℚ) quiet).1.drop 2, rfl⟩
    (fun h => absurd (congrArg List.length h) (by decide +kernel)) (by decide)).1

end OpenMPCD.Sim.Status
