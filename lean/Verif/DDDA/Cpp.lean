import Verif.DDDA.Props2

/-!
# Saving and restoring the blocking analysis in C++ (C121)

`include/OpenMPCD/ImplementationDetails/OnTheFlyStatisticsDDDA.hpp`. Numbers are written and read by the parameter `io`, as in
C03, C04 and C08; C119 is about which numbers keep their value.
-/

set_option linter.unusedSectionVars false
set_option linter.unusedSimpArgs false
set_option linter.unusedVariables false

namespace OpenMPCD.DDDA.Cpp

open Stats

variable {K : Type} [Field K] [LinearOrder K] [IsStrictOrderedRing K]

/-! ## Model -/

/-- How a call ends. `undefined`: an element is accessed which does not exist, so that anything may happen. -/
inductive Outcome
  | ok
  | invalidArgument
  | undefined
  deriving DecidableEq

/-- `boost::lexical_cast<unsigned int>`, where a leading minus sign has been ruled out before; `none`: it throws. -/
def unsignedCast (io : NumIO K) (s : List Char) : Option ℕ :=
  match io.intParse s with
  | none => none
  | some n => if 0 ≤ n ∧ n < 2 ^ 32 then some n.toNat else none

/-- The loop over the blocks (`include/OpenMPCD/ImplementationDetails/OnTheFlyStatisticsDDDA.hpp:285-291`); `none`: an exception
is thrown. -/
def readBlocks (io : NumIO K) : List (List Char) → Option (List (CppOTFS K))
  | [] => some []
  | p :: ps =>
    match (CppOTFS.fresh : CppOTFS K).unserializeFromString io p with
    | (_, .error _) => none
    | (b, .ok ()) => (readBlocks io ps).map (b :: ·)

/-- The loop over the waiting data (`include/OpenMPCD/ImplementationDetails/OnTheFlyStatisticsDDDA.hpp:293-301`). -/
def readWaiting (io : NumIO K) : List (List Char) → Option (List (Option K))
  | [] => some []
  | p :: ps =>
    if p.length > 0 then
      match io.numParse p with
      | none => none
      | some w => (readWaiting io ps).map (some w :: ·)
    else (readWaiting io ps).map (none :: ·)

/-- `unserializeFromString` (`include/OpenMPCD/ImplementationDetails/OnTheFlyStatisticsDDDA.hpp:259-316`): the receiver after the
call, and how it ends. The first character of an empty `std::string` is NUL. -/
def unserialize (io : NumIO K) (self : CppDDDA K) (state : List Char) : CppDDDA K × Outcome :=
  match splitChar '|' state with
  | [] => (self, .undefined)
  | p0 :: parts =>
    if p0.head? = some '-' then (self, .invalidArgument) else
    match unsignedCast io p0 with
    | none => (self, .invalidArgument)
    | some version =>
      if version ≠ 1 then (self, .invalidArgument) else
      match parts with
      | [] => (self, .undefined)
      | p1 :: rest =>
        if p1.head? = some '-' then (self, .invalidArgument) else
        match unsignedCast io p1 with
        | none => (self, .invalidArgument)
        | some blockCount =>
          if 2 + rest.length ≠ 2 + 2 * blockCount then (self, .invalidArgument) else
          match readBlocks io (rest.take blockCount), readWaiting io (rest.drop blockCount) with
          | some blocks, some waiting =>
            if blockCount = 0 then ([(CppOTFS.fresh, none)], .ok) else (blocks.zip waiting, .ok)
          | _, _ => (self, .invalidArgument)

/-! ## Specification -/

/-- The statistics after adding data. -/
def fed (xs : List K) : CppDDDA K := xs.foldl cppAddDatum cppInit

/-- A state that statistics can have. -/
def Reachable (d : CppDDDA K) : Prop := ∃ xs : List K, d = fed xs

/-! ## Properties -/

theorem fed_eq (xs : List K) : fed xs = toCppD (feedD xs) := by
  unfold fed
  induction xs using List.reverseRecOn with
  | nil => rfl
  | append_singleton xs x ih =>
    rw [List.foldl_append, ih, feedD_append_singleton]
    exact cppPushFrom_eq x _

theorem hist_feed (xs : List K) : Hist (feedD xs) := by
  induction xs using List.reverseRecOn with
  | nil => exact .init
  | append_singleton xs x ih => rw [feedD_append_singleton]; exact .add x ih

theorem block_ser (io : NumIO K) (t : CppOTFS K) {b : OTFS K} (hs : PlausibleState b) :
    t.unserializeFromString io (b.serializeToString io) = (toCpp b, .ok ()) := by
  have h1 : io.intParse ['1'] = some 1 := by rw [← io.one_is, io.int_round]
  have hS : ¬ b.S < 0 := not_lt.mpr hs.1
  have hz : ¬ ((b.n : ℤ) = 0 ∧ (b.M ≠ 0 ∨ b.S ≠ 0)) := by
    rintro ⟨h, h'⟩
    have := hs.2 (by exact_mod_cast h)
    rcases h' with h' | h'
    · exact h' this.1
    · exact h' this.2
  have hn : ¬ ((b.n : ℤ) < 0) := by omega
  have hm := io.nat_no_minus b.n
  have hd : ¬ (['1'] : List Char).head? = some '-' := by decide
  unfold CppOTFS.unserializeFromString
  simp only [split_serialized, h1, io.int_round, io.num_round, hn, hz, hS, if_false, ne_eq,
    not_true_eq_false, Int.toNat_natCast, hm, hd]
  rfl

theorem readBlocks_ser (io : NumIO K) {d : DDDA K} (h : AllPlausible d) :
    readBlocks io (d.map fun p => p.1.serializeToString io) = some (d.map fun p => toCpp p.1) := by
  induction d with
  | nil => rfl
  | cons p d ih =>
    obtain ⟨b, w⟩ := p
    rw [plausible_cons] at h
    simp only [List.map_cons, readBlocks, block_ser io _ h.1, ih h.2, Option.map_some]

theorem readWaiting_eq (io : NumIO K) (ps : List (List Char)) : readWaiting io ps = parseWaiting io ps := by
  induction ps with
  | nil => rfl
  | cons p ps ih =>
    unfold readWaiting parseWaiting
    by_cases hp : p.length = 0
    · simp [hp, ih]
    · rw [if_pos (Nat.pos_of_ne_zero hp), if_neg hp, ih]
      cases io.numParse p <;> rfl

theorem cast_nat (io : NumIO K) {n : ℕ} (h : n < 2 ^ 32) : unsignedCast io (io.intPrint n) = some n := by
  unfold unsignedCast
  rw [io.int_round]
  simp only
  rw [if_pos ⟨by omega, by exact_mod_cast h⟩]
  simp

/-- **C121** (both languages): what Python wrote, after any history of additions and merges, is restored in C++, into any object,
as the same blocks and waiting data. -/
theorem C121_python (io : NumIO K) {d : DDDA K} (h : Hist d) (hl : d.length < 2 ^ 32) (t : CppDDDA K) :
    unserialize io t (serializeToString io d) = (toCppD d, .ok) := by
  have h1 : unsignedCast io ['1'] = some 1 := by rw [← io.one_is]; exact cast_nat io (n := 1) (by norm_num)
  have hd : ¬ (['1'] : List Char).head? = some '-' := by decide
  have hm := io.nat_no_minus d.length
  have hne := hist_ne_nil h
  have h3 : ¬ d.length = 0 := by simpa using hne
  have h4 : ¬ (2 + ((d.map fun p => p.1.serializeToString io) ++ (d.map fun p => waitingText io p.2)).length ≠
      2 + 2 * d.length) := by
    simp; ring
  have h5 : ((d.map fun p => p.1.serializeToString io) ++ (d.map fun p => waitingText io p.2)).take d.length =
      d.map fun p => p.1.serializeToString io := by
    rw [List.take_append_of_le_length (by simp)]; simp
  have h6 : ((d.map fun p => p.1.serializeToString io) ++ (d.map fun p => waitingText io p.2)).drop d.length =
      d.map fun p => waitingText io p.2 := by
    rw [List.drop_append]; simp
  unfold unserialize
  simp only [split_ddda, hd, h1, ne_eq, not_true_eq_false, if_false, hm, cast_nat io hl, h4, h5, h6,
    readBlocks_ser io (hist_plausible h), readWaiting_eq, parseWaiting_ser, h3]
  congr 1
  unfold toCppD
  clear hne h h3 h4 h5 h6 hl hm
  induction d with
  | nil => rfl
  | cons p d ih => simp [ih]

theorem cppSerialize_eq (io : NumIO K) (d : DDDA K) : cppSerializeToString io (toCppD d) = serializeToString io d := by
  simp only [cppSerializeToString, serializeToString, toCppD, List.length_map, List.flatMap_map]
  rfl

/-- **C121**: statistics saved at any moment, and restored into any object, go on as if there had been no interruption. -/
theorem C121_continue (io : NumIO K) (xs ys : List K) (h : xs.length < 2 ^ 64) (t : CppDDDA K) :
    (unserialize io t (cppSerializeToString io (fed xs))).2 = .ok ∧
    ys.foldl cppAddDatum (unserialize io t (cppSerializeToString io (fed xs))).1 = fed (xs ++ ys) := by
  have hl : (feedD xs).length < 2 ^ 32 := by
    rw [feedD_length]
    have : Nat.log 2 xs.length < 64 := Nat.log_lt_of_lt_pow' (by norm_num) h
    omega
  rw [fed_eq, cppSerialize_eq, C121_python io (hist_feed xs) hl, ← fed_eq]
  exact ⟨rfl, by rw [fed, fed, List.foldl_append]⟩

theorem readBlocks_props (io : NumIO K) {ps : List (List Char)} {bs : List (CppOTFS K)} (h : readBlocks io ps = some bs) :
    bs.length = ps.length ∧
    ∀ b ∈ bs, 0 ≤ b.varianceHelper ∧ (b.sampleSize = 0 → b.mean = 0 ∧ b.varianceHelper = 0) := by
  induction ps generalizing bs with
  | nil => simp only [readBlocks, Option.some.injEq] at h; subst h; simp
  | cons p ps ih =>
    simp only [readBlocks] at h
    have hany := C04_cpp_any_string io (CppOTFS.fresh : CppOTFS K) p
    split at h
    · simp at h
    · rename_i b heq
      rw [heq] at hany
      cases hrec : readBlocks io ps with
      | none => rw [hrec] at h; simp at h
      | some bs' =>
        rw [hrec] at h
        simp only [Option.map_some, Option.some.injEq] at h
        subst h
        obtain ⟨h1, h2⟩ := ih hrec
        refine ⟨by simp [h1], ?_⟩
        intro b' hb'
        rcases List.mem_cons.mp hb' with rfl | hb'
        · rcases hany with h | h
          · exact h.2
          · simp at h
        · exact h2 b' hb'

/-- **C121** (any text): a text is accepted, and then there is at least one block, and no block has a negative variance, or has a
mean or variance without data; or it is refused, and the object stays as it was; or the behaviour is undefined, which only
happens for texts without `|`. -/
theorem C121_any (io : NumIO K) (t : CppDDDA K) (state : List Char) :
    ((unserialize io t state).2 = .ok ∧ (unserialize io t state).1 ≠ [] ∧
      ∀ p ∈ (unserialize io t state).1, 0 ≤ p.1.varianceHelper ∧
        (p.1.sampleSize = 0 → p.1.mean = 0 ∧ p.1.varianceHelper = 0)) ∨
    ((unserialize io t state).2 = .invalidArgument ∧ (unserialize io t state).1 = t) ∨
    ((unserialize io t state).2 = .undefined ∧ '|' ∉ state ∧ io.intParse state = some 1) := by
  have hne := splitChar_ne_nil '|' state
  unfold unserialize
  cases hs : splitChar '|' state with
  | nil => exact absurd hs hne
  | cons p0 parts =>
    simp only
    split
    · simp
    cases hv : unsignedCast io p0 with
    | none => simp
    | some v =>
      simp only
      split
      · simp
      rename_i h1
      cases parts with
      | nil =>
        right; right
        have hb : '|' ∉ state := by
          intro hc
          obtain ⟨a, b, rfl, ha⟩ := List.eq_append_cons_of_mem hc
          rw [splitChar_append_cons ha] at hs
          exact splitChar_ne_nil '|' b (List.cons.inj hs).2
        rw [splitChar_of_notMem hb] at hs
        obtain rfl : state = p0 := by simpa using hs
        refine ⟨rfl, hb, ?_⟩
        unfold unsignedCast at hv
        cases hp : io.intParse state with
        | none => rw [hp] at hv; simp at hv
        | some n =>
          rw [hp] at hv
          simp only at hv
          split at hv
          · rename_i hn
            have : n.toNat = v := by simpa using hv
            have : v = 1 := by simpa using h1
            congr 1
            omega
          · simp at hv
      | cons p1 rest =>
        simp only
        split
        · simp
        cases hc : unsignedCast io p1 with
        | none => simp
        | some bc =>
          simp only
          split
          · simp
          rename_i hl
          cases hb : readBlocks io (rest.take bc) with
          | none => simp
          | some bs =>
            cases hw : readWaiting io (rest.drop bc) with
            | none => simp
            | some ws =>
              left
              simp only
              rw [readWaiting_eq] at hw
              have h2 := readBlocks_props io hb
              have h3 := parseWaiting_length io hw
              split
              · simp [CppOTFS.fresh]
              · refine ⟨rfl, fun hz => ?_, fun p hp => ?_⟩
                · have := congrArg List.length hz
                  rw [List.length_zip, h2.1, h3, List.length_take, List.length_drop] at this
                  simp at this
                  omega
                · obtain ⟨b, w⟩ := p
                  exact h2.2 b (List.of_mem_zip hp).1

/-- **C121** fails: for the text `1`, and every text without `|` which is read as the number 1, the behaviour is undefined, where
the documentation has an exception. -/
theorem C121_undefined_violated (io : NumIO K) (t : CppDDDA K) (state : List Char) (hb : '|' ∉ state)
    (hm : state.head? ≠ some '-') (h : io.intParse state = some 1) : (unserialize io t state).2 = .undefined := by
  unfold unserialize
  rw [splitChar_of_notMem hb]
  simp only
  rw [if_neg hm]
  have : unsignedCast io state = some 1 := by unfold unsignedCast; rw [h]; norm_num
  rw [this]
  simp

/-- **C121** fails: texts are accepted which no statistics have written. Here there is one block with two data, none of which
waits, for whatever mean and variance. -/
theorem C121_valid_violated (io : NumIO K) (t : CppDDDA K) (m v : K) (hv : 0 ≤ v) :
    ∃ state, unserialize io t state = ([(⟨2, m, v⟩, none)], .ok) ∧ ¬ Reachable ([(⟨2, m, v⟩, none)] : CppDDDA K) := by
  refine ⟨serializeToString io [(⟨2, m, v⟩, none)], ?_, ?_⟩
  · have h1 : unsignedCast io ['1'] = some 1 := by rw [← io.one_is]; exact cast_nat io (n := 1) (by norm_num)
    have hd : ¬ (['1'] : List Char).head? = some '-' := by decide
    have hp : AllPlausible [((⟨2, m, v⟩ : OTFS K), (none : Option K))] := by
      intro p hp
      obtain rfl : p = _ := by simpa using hp
      exact ⟨hv, by simp⟩
    have hb := readBlocks_ser io hp
    have hw := parseWaiting_ser io [((⟨2, m, v⟩ : OTFS K), (none : Option K))]
    have h1' : io.intPrint ((1 : ℕ) : ℤ) = ['1'] := by simpa using io.one_is
    unfold unserialize
    rw [split_ddda]
    simp only [List.map_cons, List.map_nil] at hb hw ⊢
    simp [hd, h1, h1', hb, hw, readWaiting_eq, io.one_is]
    rfl
  · rintro ⟨xs, hx⟩
    have hl := congrArg List.length hx
    rw [fed_eq] at hl
    simp only [toCppD, List.length_map, feedD_length, List.length_cons, List.length_nil] at hl
    rcases xs with _ | ⟨a, _ | ⟨b, r⟩⟩
    · simp [fed, cppInit, CppOTFS.fresh] at hx
    · simp [fed, cppInit, cppAddDatum, cppPushFrom, CppOTFS.fresh, CppOTFS.addDatum] at hx
    · have : 1 ≤ Nat.log 2 (a :: b :: r).length := by
        exact Nat.le_log_of_pow_le (by norm_num) (by simp)
      omega

/-! ## Examples -/

/-- What three data give, saved and restored. -/
example (t : CppDDDA ℚ) : (unserialize unaryIO t (cppSerializeToString unaryIO (fed [1, 2, 6]))).1 = fed [1, 2, 6] := by
  have := (C121_continue unaryIO [1, 2, 6] [] (by norm_num) t).2
  simpa using this

/-- The hypotheses of `C121_undefined_violated` can be met. -/
example : '|' ∉ ['1'] ∧ ['1'].head? ≠ some '-' ∧ unaryIO.intParse ['1'] = some 1 :=
  ⟨by decide, by decide, by rw [← unaryIO.one_is, unaryIO.int_round]⟩

end OpenMPCD.DDDA.Cpp
