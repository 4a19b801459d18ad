import Verif.DDDA.Props

/-!
# Properties C08 (state strings) and C51 (optimal block in C++)
-/

set_option linter.unusedSectionVars false
set_option linter.unusedSimpArgs false
set_option linter.dupNamespace false

namespace OpenMPCD.DDDA

open Stats

variable {K : Type} [Field K] [LinearOrder K] [IsStrictOrderedRing K]

/-! ## C08 -/

def AllPlausible (d : DDDA K) : Prop := ∀ p ∈ d, PlausibleState p.1

theorem plausible_fresh : PlausibleState (fresh : OTFS K) := by simp [PlausibleState, fresh]

theorem plausible_addDatum {s : OTFS K} (h : PlausibleState s) (x : K) :
    PlausibleState (s.addDatum x) := by
  refine ⟨?_, fun h0 => by simp [OTFS.addDatum] at h0⟩
  simp only [OTFS.addDatum]
  have hn : (0 : K) < ((s.n + 1 : ℕ) : K) := by exact_mod_cast Nat.succ_pos _
  have hn0 : (0 : K) ≤ (s.n : K) := by positivity
  have : (x - s.M) * (x - (s.M + (x - s.M) / ((s.n + 1 : ℕ) : K))) =
      (x - s.M) ^ 2 * ((s.n : K) / ((s.n + 1 : ℕ) : K)) := by
    push_cast at hn ⊢; field_simp; ring
  rw [this]
  have := h.1
  positivity

theorem plausible_mergeS {s t : OTFS K} (hs : PlausibleState s) (ht : PlausibleState t) :
    PlausibleState (mergeS s t) := by
  unfold mergeS OTFS.mergeSample
  by_cases h0 : s.n = 0
  · simpa [h0] using ht
  by_cases h1 : s.n = 1
  · simp only [h0, h1, if_true, if_false]; exact plausible_addDatum ht _
  by_cases h2 : t.n = 0
  · simpa [h0, h1, h2] using hs
  by_cases h3 : t.n = 1
  · simp only [h0, h1, h2, h3, if_true, if_false, OTFS.getSampleMean, bind, Except.bind]
    exact plausible_addDatum hs _
  have h4 : ¬ s.n ≤ 1 := by omega
  have h5 : ¬ t.n ≤ 1 := by omega
  simp only [h0, h1, h2, h3, if_false, OTFS.getSampleMean, OTFS.getSampleVariance, h4, h5, bind,
    Except.bind, OTFS.getSampleSize]
  refine ⟨?_, fun h => by simp at h; omega⟩
  have e1 : (0 : K) < (s.n : K) - 1 := by
    have : (1 : K) < s.n := by exact_mod_cast (by omega : 1 < s.n)
    linarith
  have e2 : (0 : K) < (t.n : K) - 1 := by
    have : (1 : K) < t.n := by exact_mod_cast (by omega : 1 < t.n)
    linarith
  have := hs.1
  have := ht.1
  simp only [zero_add]
  positivity

theorem plausible_push {d : DDDA K} (h : AllPlausible d) (x : K) : AllPlausible (pushFrom x d) := by
  induction d generalizing x with
  | nil =>
    intro p hp
    simp only [pushFrom, List.mem_singleton] at hp
    rw [hp]; exact plausible_addDatum plausible_fresh x
  | cons q d ih =>
    obtain ⟨b, w⟩ := q
    have hb : PlausibleState b := h (b, w) (by simp)
    have hd : AllPlausible d := fun p hp => h p (by simp [hp])
    cases w with
    | none =>
      intro p hp
      simp only [pushFrom, List.mem_cons] at hp
      rcases hp with rfl | hp
      · exact plausible_addDatum hb x
      · exact hd p hp
    | some w =>
      intro p hp
      simp only [pushFrom, List.mem_cons] at hp
      rcases hp with rfl | hp
      · exact plausible_addDatum hb x
      · exact ih hd _ p hp

theorem plausible_cons {b : OTFS K} {w : Option K} {d : DDDA K} :
    AllPlausible ((b, w) :: d) ↔ PlausibleState b ∧ AllPlausible d := by
  simp [AllPlausible]

theorem plausible_zip {d e : DDDA K} (hd : AllPlausible d) (he : AllPlausible e) :
    AllPlausible (zipMerge d e) := by
  induction d generalizing e with
  | nil =>
    intro p hp
    simp only [zipMerge, List.mem_map] at hp
    obtain ⟨q, hq, rfl⟩ := hp
    exact plausible_mergeS plausible_fresh (he q hq)
  | cons p d ih =>
    obtain ⟨b, w⟩ := p
    cases e with
    | nil => simpa [zipMerge] using hd
    | cons q e =>
      obtain ⟨b2, w2⟩ := q
      rw [plausible_cons] at hd he
      rw [zipMerge, plausible_cons]
      exact ⟨plausible_mergeS hd.1 he.1, ih hd.2 he.2⟩

theorem plausible_mergeWaiting {ws : List (Option K)} {d : DDDA K} (h : AllPlausible d) :
    AllPlausible (mergeWaiting d ws) := by
  induction ws generalizing d with
  | nil => rwa [mergeWaiting_nil]
  | cons w2 ws ih =>
    match d, h with
    | [], h => simpa [mergeWaiting] using h
    | (b, w) :: ds, h =>
      rw [plausible_cons] at h
      cases w2 with
      | none => simp only [mergeWaiting, plausible_cons]; exact ⟨h.1, ih h.2⟩
      | some y =>
        cases w with
        | none => simp only [mergeWaiting, plausible_cons]; exact ⟨h.1, ih h.2⟩
        | some x =>
          simp only [mergeWaiting, plausible_cons]; exact ⟨h.1, ih (plausible_push h.2 _)⟩

theorem plausible_selfMerge {n : ℕ} {d : DDDA K} (h : AllPlausible d) :
    AllPlausible (selfMergeWaiting n d) := by
  induction n generalizing d with
  | zero => simpa [selfMergeWaiting] using h
  | succ n ih =>
    match d, h with
    | [], h => simpa [selfMergeWaiting] using h
    | (b, none) :: ds, h =>
      rw [plausible_cons] at h
      simp only [selfMergeWaiting, plausible_cons]; exact ⟨h.1, ih h.2⟩
    | (b, some x) :: ds, h =>
      rw [plausible_cons] at h
      simp only [selfMergeWaiting, plausible_cons]; exact ⟨h.1, ih (plausible_push h.2 _)⟩

theorem hist_plausible {d : DDDA K} (h : Hist d) : AllPlausible d := by
  induction h with
  | init => intro p hp; simp [DDDA.init] at hp; rw [hp]; exact plausible_fresh
  | add x _ ih => exact plausible_push ih x
  | merge _ _ hu ihd ihe =>
    rw [merge_eq] at hu
    obtain rfl := Except.ok.inj hu
    exact plausible_mergeWaiting (plausible_zip ihd ihe)
  | mergeSelf _ hu ih =>
    rw [mergeSelf_eq] at hu
    obtain rfl := Except.ok.inj hu
    apply plausible_selfMerge
    intro p hp
    obtain ⟨q, hq, rfl⟩ := List.mem_map.mp hp
    exact plausible_mergeS (ih q hq) (ih q hq)

theorem hist_ne_nil {d : DDDA K} (h : Hist d) : d ≠ [] := by
  rcases hist_sizes h with rfl | h
  · simp [DDDA.init]
  · exact h.1

theorem bar_notMem_int (io : NumIO K) (x : ℤ) : '|' ∉ io.intPrint x := fun h =>
  (io.int_clean x _ h).2 rfl

theorem bar_notMem_num (io : NumIO K) (x : K) : '|' ∉ io.numPrint x := fun h =>
  (io.num_clean x _ h).2 rfl

theorem bar_notMem_block (io : NumIO K) (b : OTFS K) : '|' ∉ b.serializeToString io := by
  simp only [OTFS.serializeToString, List.mem_append, List.mem_cons, List.not_mem_nil, or_false,
    not_or]
  exact ⟨⟨⟨⟨⟨⟨by decide, by decide⟩, bar_notMem_int io _⟩, by decide⟩, bar_notMem_num io _⟩,
    by decide⟩, bar_notMem_num io _⟩

theorem bar_notMem_waiting (io : NumIO K) (w : Option K) : '|' ∉ waitingText io w := by
  cases w with
  | none => simp [waitingText]
  | some w => exact bar_notMem_num io w

theorem split_ddda (io : NumIO K) (d : DDDA K) :
    splitChar '|' (serializeToString io d) =
      ['1'] :: io.intPrint d.length :: ((d.map fun p => p.1.serializeToString io) ++
        (d.map fun p => waitingText io p.2)) := by
  have h := splitChar_flatMap (sep := '|') ['1']
    (io.intPrint d.length :: ((d.map fun p => p.1.serializeToString io) ++
        (d.map fun p => waitingText io p.2))) (by decide) (by
      intro p hp
      simp only [List.mem_cons, List.mem_append, List.mem_map] at hp
      rcases hp with rfl | ⟨q, -, rfl⟩ | ⟨q, -, rfl⟩
      · exact bar_notMem_int io _
      · exact bar_notMem_block io _
      · exact bar_notMem_waiting io _)
  rw [← h]
  simp [serializeToString, List.flatMap_append, List.flatMap_map]

theorem parseBlocks_ser (io : NumIO K) {d : DDDA K} (h : AllPlausible d) :
    parseBlocks io (d.map fun p => p.1.serializeToString io) = some (d.map Prod.fst) := by
  induction d with
  | nil => rfl
  | cons p d ih =>
    obtain ⟨b, w⟩ := p
    rw [plausible_cons] at h
    simp only [List.map_cons, parseBlocks, unserialize_serialize io fresh b h.1, ih h.2,
      Option.map_some]

theorem waitingText_none (io : NumIO K) : waitingText io none = [] := rfl
theorem waitingText_some (io : NumIO K) (w : K) : waitingText io (some w) = io.numPrint w := rfl

theorem parseWaiting_ser (io : NumIO K) (d : DDDA K) :
    parseWaiting io (d.map fun p => waitingText io p.2) = some (d.map Prod.snd) := by
  induction d with
  | nil => rfl
  | cons p d ih =>
    obtain ⟨b, w⟩ := p
    cases w with
    | none => simp [parseWaiting, waitingText_none, ih]
    | some w =>
      have : ¬ (io.numPrint w).length = 0 := by
        have := io.num_nonempty w
        simpa using this
      simp only [List.map_cons, parseWaiting, waitingText_some, this, if_false, io.num_round, ih,
        Option.map_some]

theorem unserialize_ok (io : NumIO K) {d : DDDA K} (hne : d ≠ []) (h : AllPlausible d)
    (t : DDDA K) : unserializeFromString io t (serializeToString io d) = (d, .ok ()) := by
  have h1 : io.intParse ['1'] = some 1 := by rw [← io.one_is, io.int_round]
  have h2 : ¬ ((d.length : ℤ) < 0) := by omega
  have h3 : ¬ ((d.length : ℤ) = 0) := by simpa using hne
  have h4 : ¬ (((((d.map fun p => p.1.serializeToString io) ++
        (d.map fun p => waitingText io p.2)).length : ℕ) : ℤ) ≠ 2 * (d.length : ℤ)) := by
    simp; ring
  have h5 : ((d.map fun p => p.1.serializeToString io) ++
        (d.map fun p => waitingText io p.2)).take d.length =
      d.map fun p => p.1.serializeToString io := by
    rw [List.take_append_of_le_length (by simp)]; simp
  have h6 : ((d.map fun p => p.1.serializeToString io) ++
        (d.map fun p => waitingText io p.2)).drop d.length =
      d.map fun p => waitingText io p.2 := by
    rw [List.drop_append]; simp
  unfold unserializeFromString
  simp only [split_ddda, h1, ne_eq, not_true_eq_false, if_false, io.int_round, h2, h4,
    Int.toNat_natCast, h5, h6, parseBlocks_ser io h, parseWaiting_ser, h3]
  congr 1
  clear hne h h2 h3 h4 h5 h6
  induction d with
  | nil => rfl
  | cons p d ih => simp [ih]

/-- C08: restoring a state string - into any object - gives the object that was saved, after any
history of additions and merges. -/
theorem C08_roundtrip (io : NumIO K) {d : DDDA K} (h : Hist d) (t : DDDA K) :
    unserializeFromString io t (serializeToString io d) = (d, .ok ()) :=
  unserialize_ok io (hist_ne_nil h) (hist_plausible h) t

theorem parseBlocks_props (io : NumIO K) {ps : List (List Char)} {bs : List (OTFS K)}
    (h : parseBlocks io ps = some bs) : bs.length = ps.length ∧ ∀ b ∈ bs, PlausibleState b := by
  induction ps generalizing bs with
  | nil => simp only [parseBlocks, Option.some.injEq] at h; subst h; simp
  | cons p ps ih =>
    simp only [parseBlocks] at h
    have hany := C03_any_string io (fresh : OTFS K) p
    split at h
    · simp at h
    · rename_i b heq
      rw [heq] at hany
      cases hrec : parseBlocks io ps with
      | none => rw [hrec] at h; simp at h
      | some bs' =>
        rw [hrec] at h
        simp only [Option.map_some, Option.some.injEq] at h
        subst h
        obtain ⟨h1, h2⟩ := ih hrec
        refine ⟨by simp [h1], ?_⟩
        intro b' hb'
        rcases List.mem_cons.mp hb' with rfl | hb'
        · rcases hany with h | h
          · exact h.2
          · simp at h
        · exact h2 b' hb'

theorem parseWaiting_length (io : NumIO K) {ps : List (List Char)} {ws : List (Option K)}
    (h : parseWaiting io ps = some ws) : ws.length = ps.length := by
  induction ps generalizing ws with
  | nil => simp only [parseWaiting, Option.some.injEq] at h; subst h; simp
  | cons p ps ih =>
    simp only [parseWaiting] at h
    split at h
    · cases hrec : parseWaiting io ps with
      | none => rw [hrec] at h; simp at h
      | some ws' =>
        rw [hrec] at h; simp only [Option.map_some, Option.some.injEq] at h
        subst h; simp [ih hrec]
    · split at h
      · simp at h
      · cases hrec : parseWaiting io ps with
        | none => rw [hrec] at h; simp at h
        | some ws' =>
          rw [hrec] at h; simp only [Option.map_some, Option.some.injEq] at h
          subst h; simp [ih hrec]

/-- C08: whatever the string, restoring either installs a state with at least one block and plausible
blocks, or raises and leaves the object unchanged. -/
theorem C08_any_string (io : NumIO K) (t : DDDA K) (str : List Char) :
    let r := unserializeFromString io t str
    (r.2 = .ok () ∧ r.1 ≠ [] ∧ ∀ p ∈ r.1, PlausibleState p.1) ∨
      ((r.2 = .error .valueError ∨ r.2 = .error .indexError) ∧ r.1 = t) := by
  intro r
  simp only [r, unserializeFromString]
  split
  · right; simp
  split
  · right; simp
  split
  · right; simp
  split
  · right; simp
  split
  · right; simp
  split
  · right; simp
  split
  · right; simp
  split
  · right; simp
  split
  · right; simp
  rename_i rest _ _ bc _ hneg hlen _ bs hbs _ ws hws
  left
  split
  · refine ⟨rfl, by simp, ?_⟩
    intro p hp
    simp only [List.mem_singleton] at hp
    rw [hp]; exact plausible_fresh
  · rename_i hz
    have hb := parseBlocks_props io hbs
    have hw := parseWaiting_length io hws
    have hlen' : (rest.length : ℤ) = 2 * bc := by simpa using hlen
    have h1 : bs.length = bc.toNat := by
      rw [hb.1, List.length_take]; omega
    have h2 : ws.length = bc.toNat := by
      rw [hw, List.length_drop]; omega
    refine ⟨rfl, ?_, ?_⟩
    · intro h
      have := congrArg List.length h
      rw [List.length_zip, h1, h2] at this
      simp at this; omega
    · intro p hp
      obtain ⟨b, w⟩ := p
      exact hb.2 b (List.of_mem_zip hp).1

/-- The documentation promises `ValueError` for every invalid string; the string `1` (without any
separator) raises `IndexError` instead. -/
theorem C08_documentedError_violated (io : NumIO K) (t : DDDA K) :
    unserializeFromString io t ['1'] = (t, .error .indexError) := by
  have h1 : io.intParse ['1'] = some 1 := by rw [← io.one_is, io.int_round]
  have h2 : splitChar '|' ['1'] = [['1']] := by decide
  unfold unserializeFromString
  simp only [h2, h1, ne_eq, not_true_eq_false, if_false]

/-- C08: Python reads what C++ wrote, with the same blocks. -/
theorem C08_cpp_to_python (io : NumIO K) (xs : List K) (t : DDDA K) :
    unserializeFromString io t (cppSerializeToString io (xs.foldl cppAddDatum cppInit)) =
      (feedD xs, .ok ()) := by
  have h1 : xs.foldl cppAddDatum cppInit = toCppD (feedD xs) := by
    induction xs using List.reverseRecOn with
    | nil => rfl
    | append_singleton xs x ih =>
      rw [List.foldl_append, ih, feedD_append_singleton]
      exact cppPushFrom_eq x _
  have h2 : cppSerializeToString io (toCppD (feedD xs)) = serializeToString io (feedD xs) := by
    simp only [cppSerializeToString, serializeToString, toCppD, List.length_map, List.flatMap_map]
    rfl
  have h3 : Hist (feedD xs) := by
    clear h1 h2
    induction xs using List.reverseRecOn with
    | nil => exact .init
    | append_singleton xs x ih => rw [feedD_append_singleton]; exact .add x ih
  rw [h1, h2, C08_roundtrip io h3]

example (t : DDDA ℚ) : unserializeFromString unaryIO t
    (serializeToString unaryIO (feedD [1, 2, 6])) = (feedD [1, 2, 6], .ok ()) :=
  C08_roundtrip unaryIO (.add 6 (.add 2 (.add 1 .init))) t

/-! ## C51 -/

theorem toCppD_getElem? (d : DDDA K) (k : ℕ) :
    (toCppD d)[k]? = (d[k]?).map fun p => (toCpp p.1, p.2) := by simp [toCppD]

theorem cppStandardError_toCpp {b : OTFS ℝ} (h : 2 ≤ b.n) :
    b.getStandardErrorOfTheMean = .ok (cppStandardError (toCpp b)) := by
  have h1 : ¬ b.n ≤ 1 := by omega
  have h2 : ¬ b.n < 2 := by omega
  simp only [OTFS.getStandardErrorOfTheMean, OTFS.getSampleStandardDeviation,
    OTFS.getSampleVariance, h1, if_false, bind, Except.bind, OTFS.getSampleSize, cppStandardError,
    CppOTFS.getSampleVariance, CppOTFS.getSampleSize, toCpp, h2]
  rw [Nat.cast_sub (by omega)]
  simp

open Classical in
theorem cppStep_eq {d : DDDA ℝ} {n : ℕ} {se0 : ℝ} (hn : getSampleSize d = .ok n)
    (h0 : getBlockStandardErrorOfTheMean d 0 = .ok se0) (o k : ℕ) (b : OTFS ℝ) (w : Option ℝ)
    (hk : d[k]? = some (b, w)) (hb : 2 ≤ b.n) (hk22 : k < 22) :
    cppOptimalStep (toCppD d) n se0 o k = some (if Criterion d k then k else o) := by
  have hv : hasBlockVariance d k = .ok true := by
    simp [hasBlockVariance, hk, OTFS.getSampleSize, hb]
  have hbse : getBlockStandardErrorOfTheMean d k = .ok (cppStandardError (toCpp b)) := by
    simp only [getBlockStandardErrorOfTheMean, hv, bind, Except.bind, not_true, if_false, hk,
      cppStandardError_toCpp hb]
  set se := cppStandardError (toCpp b) with hsedef
  have hc : Criterion d k ↔ (((2 ^ k) ^ 3 : ℕ) : ℝ) > 2 * (n : ℝ) * (se / se0) ^ 4 := by
    constructor
    · rintro ⟨n', se', se0', h1, h2, h3, h4⟩
      rw [hn] at h1; rw [hbse] at h2; rw [h0] at h3
      obtain rfl := Except.ok.inj h1
      obtain rfl := Except.ok.inj h2
      obtain rfl := Except.ok.inj h3
      push_cast; exact h4
    · intro h
      refine ⟨n, se, se0, hn, hbse, h0, ?_⟩
      push_cast at h; exact h
  have hcube : 2 ^ k % 2 ^ 64 * (2 ^ k % 2 ^ 64) * (2 ^ k % 2 ^ 64) % 2 ^ 64 = (2 ^ k) ^ 3 := by
    have h1 : 2 ^ k < 2 ^ 64 := Nat.pow_lt_pow_right (by norm_num) (by omega)
    rw [Nat.mod_eq_of_lt h1]
    have h2 : 2 ^ k * 2 ^ k * 2 ^ k = (2 ^ k) ^ 3 := by ring
    rw [h2]
    apply Nat.mod_eq_of_lt
    rw [← pow_mul]
    exact Nat.pow_lt_pow_right (by norm_num) (by omega)
  have hq : (se / se0 * (se / se0)) * (se / se0 * (se / se0)) = (se / se0) ^ 4 := by ring
  have hb' : 2 ≤ (toCpp b).getSampleSize := hb
  unfold cppOptimalStep
  rw [toCppD_getElem?, hk]
  simp only [Option.map_some, hb', not_true, if_false, hcube, ← hsedef, hq]
  by_cases h : Criterion d k
  · rw [if_pos (hc.mp h), if_pos h]
  · rw [if_neg (fun h' => h (hc.mpr h')), if_neg h]

theorem cppLoop_eq {d : DDDA ℝ} {n : ℕ} {se0 : ℝ} (hn : getSampleSize d = .ok n)
    (h0 : getBlockStandardErrorOfTheMean d 0 = .ok se0) (m : ℕ) (hm22 : m ≤ 22)
    (hm : ∀ k < m, ∃ b w, d[k]? = some (b, w) ∧ 2 ≤ b.n) (o : ℕ) :
    ∃ r : ℕ, (List.range m).reverse.foldlM (cppOptimalStep (toCppD d) n se0) o = some r ∧
      ((r < m ∧ Criterion d r ∧ ∀ j < r, ¬ Criterion d j) ∨
        (r = o ∧ ∀ j < m, ¬ Criterion d j)) := by
  induction m generalizing o with
  | zero => exact ⟨o, by simp [pure], Or.inr ⟨rfl, by simp⟩⟩
  | succ m ih =>
    obtain ⟨b, w, hk, hb⟩ := hm m (by omega)
    rw [List.range_succ, List.reverse_append, List.reverse_singleton, List.singleton_append,
      List.foldlM_cons, cppStep_eq hn h0 _ m b w hk hb (by omega)]
    by_cases hc : Criterion d m
    · obtain ⟨r, hr, hcase⟩ := ih (by omega) (fun k hk => hm k (by omega)) m
      refine ⟨r, by simpa [hc, bind] using hr, Or.inl ?_⟩
      rcases hcase with ⟨h1, h2, h3⟩ | ⟨rfl, h2⟩
      · exact ⟨by omega, h2, h3⟩
      · exact ⟨by omega, hc, h2⟩
    · obtain ⟨r, hr, hcase⟩ := ih (by omega) (fun k hk => hm k (by omega)) o
      refine ⟨r, by simpa [hc, bind] using hr, ?_⟩
      rcases hcase with ⟨h1, h2, h3⟩ | ⟨rfl, h2⟩
      · exact Or.inl ⟨by omega, h2, h3⟩
      · refine Or.inr ⟨rfl, fun j hj => ?_⟩
        rcases Nat.lt_succ_iff_lt_or_eq.mp hj with h | rfl
        · exact h2 j h
        · exact hc

theorem loop_unique {d : DDDA ℝ} {m o r s : ℕ}
    (hr : (r < m ∧ Criterion d r ∧ ∀ j < r, ¬ Criterion d j) ∨ (r = o ∧ ∀ j < m, ¬ Criterion d j))
    (hs : (s < m ∧ Criterion d s ∧ ∀ j < s, ¬ Criterion d j) ∨ (s = o ∧ ∀ j < m, ¬ Criterion d j)) :
    r = s := by
  rcases hr with ⟨h1, h2, h3⟩ | ⟨rfl, h2⟩ <;> rcases hs with ⟨g1, g2, g3⟩ | ⟨rfl, g2⟩
  · rcases lt_trichotomy r s with h | h | h
    · exact absurd h2 (g3 r h)
    · exact h
    · exact absurd g2 (h3 s h)
  · exact absurd h2 (g2 r h1)
  · exact absurd g2 (h2 s g1)
  · rfl

/-- C51, restricted to objects with at most 22 blocks (fewer than `2 ^ 22` data): the C++ class chooses
the same block as the Python class. Missing: objects with more blocks, for which the claim is false
(`C51_optimalBlock_violated`). -/
theorem C51_optimalBlock_partial {d : DDDA ℝ} (h : Hist d) (n : ℕ) (hn : getSampleSize d = .ok n)
    (h2 : 2 ≤ n) (hlen : d.length ≤ 22) :
    ∃ r : ℕ, getOptimalBlockID d = .ok (r : ℤ) ∧ cppGetOptimalBlockID (toCppD d) = some r := by
  rcases hist_sizes h with rfl | ⟨hne, hs⟩
  · simp [init, getSampleSize, OTFS.getSampleSize, fresh] at hn; omega
  obtain ⟨b0, w0, rest, rfl⟩ : ∃ b w rest, d = (b, w) :: rest := by
    match d, hne with
    | (b, w) :: rest, _ => exact ⟨b, w, rest, rfl⟩
  set d : DDDA ℝ := (b0, w0) :: rest with hd
  have hb0 : b0.n = n := by simpa [hd, getSampleSize, OTFS.getSampleSize] using hn
  have hv0 : hasBlockVariance d 0 = .ok true := by
    simp [hd, hasBlockVariance, OTFS.getSampleSize, hb0, h2]
  set se0 := cppStandardError (toCpp b0) with hse0
  have hse : b0.getStandardErrorOfTheMean = .ok se0 := cppStandardError_toCpp (by omega)
  have h0 : getBlockStandardErrorOfTheMean d 0 = .ok se0 := by
    have he : d[0]? = some (b0, w0) := rfl
    simp only [getBlockStandardErrorOfTheMean, hv0, bind, Except.bind, not_true, if_false, he, hse]
  have hn2 : ¬ n < 2 := by omega
  have hunf : getOptimalBlockID d = if se0 = 0 then .ok 0 else
      (List.range (getMaximumBlockID d + 1)).reverse.foldlM (optimalStep d se0)
        (getMaximumBlockID d : ℤ) := by
    unfold getOptimalBlockID
    rw [hn]
    simp only [bind, Except.bind, hn2, if_false, hd, hse]
  have hcunf : cppGetOptimalBlockID (toCppD d) = if se0 = 0 then some 0 else
      (List.range d.length).reverse.foldlM (cppOptimalStep (toCppD d) n se0) (d.length - 1) := by
    have hc : toCppD d = (toCpp b0, w0) :: toCppD rest := rfl
    have hl : (toCppD d).length = d.length := by simp [toCppD]
    have hsz : (toCpp b0).getSampleSize = n := hb0
    unfold cppGetOptimalBlockID
    rw [hc]
    simp only
    rw [← hc, hl, hsz, if_neg hn2]
  by_cases hz : se0 = 0
  · exact ⟨0, by simp [hunf, hz], by simp [hcunf, hz]⟩
  rw [hunf, if_neg hz, hcunf, if_neg hz]
  set M := getMaximumBlockID d with hM
  have hlen1 : d.length = M + 1 := by simp [hM, getMaximumBlockID, hd]
  have hbelow : ∀ k < M, ∃ b w, d[k]? = some (b, w) ∧ 2 ≤ b.n := by
    intro k hk
    obtain ⟨p, hp⟩ : ∃ p, d[k]? = some p := ⟨d[k]'(by omega), List.getElem?_eq_getElem (by omega)⟩
    exact ⟨p.1, p.2, hp, hs.nontop hp (by omega)⟩
  obtain ⟨⟨bM, wM⟩, hpM⟩ : ∃ p, d[M]? = some p :=
    ⟨d[M]'(by omega), List.getElem?_eq_getElem (by omega)⟩
  rw [hlen1, Nat.add_sub_cancel]
  by_cases hvM : 2 ≤ bM.n
  · have hall : ∀ k < M + 1, ∃ b w, d[k]? = some (b, w) ∧ 2 ≤ b.n := by
      intro k hk
      rcases Nat.lt_succ_iff_lt_or_eq.mp hk with h | rfl
      · exact hbelow k h
      · exact ⟨bM, wM, hpM, hvM⟩
    obtain ⟨r, hr, hcase⟩ := loop_eq hn h0 (M + 1) hall M
    obtain ⟨s, hs', hcase'⟩ := cppLoop_eq hn h0 (M + 1) (by omega) hall M
    obtain rfl := loop_unique hcase hcase'
    exact ⟨r, hr, hs'⟩
  · have hvM' : hasBlockVariance d M = .ok false := by
      have : hasBlockVariance d M = .ok (decide (2 ≤ bM.n)) := by
        unfold hasBlockVariance; rw [hpM]; rfl
      rw [this, decide_eq_false hvM]
    have hM1 : 1 ≤ M := by
      by_contra hM0
      have : M = 0 := by omega
      rw [this, hv0] at hvM'
      simp at hvM'
    have hstep : optimalStep d se0 (M : ℤ) M = .ok ((M - 1 : ℕ) : ℤ) := by
      simp only [optimalStep, hvM', bind, Except.bind, Bool.false_eq_true, not_false_eq_true,
        if_true, ← hM, ne_eq, not_true, if_false]
      congr 1; push_cast [hM1]; rfl
    have hcstep : cppOptimalStep (toCppD d) n se0 M M = some (M - 1) := by
      unfold cppOptimalStep
      rw [toCppD_getElem?, hpM]
      have hnb : ¬ 2 ≤ (toCpp bM).getSampleSize := hvM
      have hl : M = (toCppD d).length - 1 := by simp [toCppD]; omega
      simp only [Option.map_some, hnb, not_false_eq_true, if_true]
      rw [if_pos hl]
    obtain ⟨r, hr, hcase⟩ := loop_eq hn h0 M hbelow (M - 1)
    obtain ⟨s, hs', hcase'⟩ := cppLoop_eq hn h0 M (by omega) hbelow (M - 1)
    obtain rfl := loop_unique hcase hcase'
    refine ⟨r, ?_, ?_⟩
    · rw [List.range_succ, List.reverse_append, List.reverse_singleton, List.singleton_append,
        List.foldlM_cons, hstep]
      simpa [bind, Except.bind] using hr
    · rw [List.range_succ, List.reverse_append, List.reverse_singleton, List.singleton_append,
        List.foldlM_cons, hcstep]
      simpa [bind] using hs'

/-- Three data meet the hypotheses. -/
example : Hist (feedD ([1, 2, 6] : List ℝ)) ∧ getSampleSize (feedD ([1, 2, 6] : List ℝ)) = .ok 3 ∧
    (feedD ([1, 2, 6] : List ℝ)).length ≤ 22 := by
  refine ⟨.add 6 (.add 2 (.add 1 .init)), (C05_size_mean _).1, ?_⟩
  rw [feedD_length]
  have : Nat.log 2 3 = 1 := by decide
  simp [this]

end OpenMPCD.DDDA
