import Verif.Snapshot.Truncated

/-!
# C72: snapshot files which have been cut off at any point

The number of lines read is bounded by the number of lines there are, whatever they contain.
-/

set_option linter.unusedSimpArgs false

namespace OpenMPCD.Snapshot

variable {FP : Type}

/-! ## Counting lines -/

/-- The number of lines in a text, counting one at the end without line break; `b`: whether a line has begun already. -/
def lineCount : Bool → Str → ℕ
  | b, [] => b.toNat
  | _, c :: r => if c = '\n' then 1 + lineCount false r else lineCount true r

theorem lineCount_le (b : Bool) (u : Str) : b.toNat ≤ lineCount b u := by
  induction u generalizing b with
  | nil => simp [lineCount]
  | cons c u ih =>
    rw [lineCount]
    split
    · have := Bool.toNat_le b; omega
    · have h1 := ih true
      have h2 := Bool.toNat_le b
      simp only [Bool.toNat_true] at h1
      omega

/-- A longer text does not have fewer lines. -/
theorem lineCount_append (b : Bool) (t u : Str) : lineCount b t ≤ lineCount b (t ++ u) := by
  induction t generalizing b with
  | nil => simpa [lineCount] using lineCount_le b u
  | cons c t ih =>
    simp only [List.cons_append, lineCount]
    split
    · have := ih false; omega
    · exact ih true

theorem lineCount_true (r : Str) : lineCount true r ≤ 1 + lineCount false (splitLine r).2.1 := by
  induction r with
  | nil => simp [lineCount, splitLine]
  | cons c r ih =>
    simp only [lineCount, splitLine]
    split
    · simp
    · exact ih

theorem lineCount_true' (r : Str) : 1 + lineCount false (splitLine r).2.1 ≤ lineCount true r := by
  induction r with
  | nil => simp [lineCount, splitLine]
  | cons c r ih =>
    simp only [lineCount, splitLine]
    split
    · simp
    · exact ih

/-- Removing the first line. -/
theorem lineCount_split {r : Str} (h : r ≠ []) : lineCount false r = 1 + lineCount false (splitLine r).2.1 := by
  match r, h with
  | c :: r, _ =>
    simp only [lineCount, splitLine]
    split
    · simp
    · exact le_antisymm (lineCount_true r) (lineCount_true' r)

/-- The number of lines still to be read. -/
def Stream.lines (st : Stream) : ℕ := if st.eof then 0 else lineCount false st.rest

/-- A line that is not empty uses up a line. -/
theorem getLine_lines (st : Stream) :
    (getLine true st).2.lines + (if (getLine true st).1 = [] then 0 else 1) ≤ st.lines := by
  unfold getLine
  split
  · rename_i h; simp [Stream.lines, h]
  · rename_i h
    split
    · simp [Stream.lines]
    · rename_i hr
      have e := lineCount_split hr
      simp only [if_true]
      have h1 : st.lines = 1 + lineCount false (splitLine st.rest).2.1 := by simp [Stream.lines, h, e]
      rw [h1]
      have h2 : Stream.lines ⟨(splitLine st.rest).2.1, (splitLine st.rest).2.2⟩ ≤ lineCount false (splitLine st.rest).2.1 := by
        unfold Stream.lines; split <;> simp
      have h3 : (if strip (splitLine st.rest).1 = [] then 0 else 1) ≤ 1 := by split <;> simp
      omega

theorem headerLine_lines (st : Stream) :
    (headerLine st).2.lines + (if (headerLine st).1 = none then 0 else 1) ≤ st.lines := by
  fun_induction headerLine st with
  | case1 st h => simp
  | case2 st h hl ih =>
    have := getLine_lines st
    rw [if_pos hl] at this
    omega
  | case3 st h hl =>
    have := getLine_lines st
    rw [if_neg hl] at this
    simpa using this

theorem atomLoop_count (io : Io FP) (n a : ℕ) (wV woV : Bool) (pos vel : Option (ℕ → FP)) (st : Stream)
    {res : (ℕ × Bool × Bool × Option (ℕ → FP) × Option (ℕ → FP)) × Stream}
    (h : atomLoop io n a wV woV pos vel st = .ok res) : res.1.1 ≤ a + st.lines := by
  fun_induction atomLoop io n a wV woV pos vel st with
  | case1 a wV woV pos vel st h1 => cases h; simp
  | case2 a wV woV pos vel st h1 h2 => cases h; simp
  | case3 a wV woV pos vel st h1 h2 hl ih =>
    have := getLine_lines st
    have := ih h
    omega
  | case4 => cases h
  | case5 a wV woV pos vel st h1 h2 hl p v e ih =>
    have h4 := getLine_lines st
    rw [if_neg hl] at h4
    have := ih h
    omega
  | case6 a wV woV pos vel st h1 h2 hl p v hne e ih =>
    have h4 := getLine_lines st
    rw [if_neg hl] at h4
    have := ih h
    omega
  | case7 => cases h

/-- A timestep is only returned if there are enough lines. -/
theorem read_needs_lines (io : Io FP) (s : Snap FP) (st : Stream) (pos vel : Option (ℕ → FP))
    (hn : numberOfAtoms s.atomRanges ≠ 0) {r : ReadResult FP} {st' : Stream}
    (h : readTimestepBlock io s st pos vel = .ok (r, st')) (hr : r.returned = true) :
    numberOfAtoms s.atomRanges + 1 ≤ st.lines := by
  unfold readTimestepBlock at h
  split at h
  · cases h
  · have hh := headerLine_lines st
    match hd : headerLine st with
    | (none, st1) =>
      rw [hd] at h
      simp only [Except.ok.injEq, Prod.mk.injEq] at h
      rw [← h.1] at hr
      simp at hr
    | (some line, st1) =>
      rw [hd] at h hh
      simp only [reduceCtorEq, if_false] at hh
      simp only at h
      match hc : checkHeader line with
      | .error e => rw [hc] at h; cases h
      | .ok () =>
        rw [hc] at h
        simp only [bind, Except.bind, if_neg hn] at h
        match ha : atomLoop io (numberOfAtoms s.atomRanges) 0 false false pos vel st1 with
        | .error e => rw [ha] at h; cases h
        | .ok ((atom, wV, woV, p, v), st2) =>
          rw [ha] at h
          have hcnt := atomLoop_count io _ _ _ _ _ _ _ ha
          simp only at hcnt h
          split at h
          · simp only [pure, Except.pure, Except.ok.injEq, Prod.mk.injEq] at h
            rw [← h.1] at hr
            simp at hr
          · split at h
            · cases h
            · split at h
              · cases h
              · rename_i h3
                simp only [not_not] at h3
                omega

/-! ## Files that break off -/

theorem lineCount_line (l r : Str) (h : '\n' ∉ l) (b : Bool) : lineCount b (l ++ '\n' :: r) = 1 + lineCount false r := by
  induction l generalizing b with
  | nil => simp [lineCount]
  | cons c l ih =>
    have hc : c ≠ '\n' := fun e => h (by simp [e])
    rw [List.cons_append, lineCount, if_neg hc]
    exact ih (fun e => h (by simp [e])) true

theorem atomLines_succ (io : Io FP) (f : Frame FP) (a k : ℕ) :
    atomLines io f a (k + 1) = mkLine (io.fmt (f.1 (3 * a))) (frameTokens io f a) ++ '\n' :: atomLines io f (a + 1) k := by
  simp [atomLines, List.range'_succ]

theorem lineCount_atomLines (io : Io FP) (hio : Lawful io) (f : Frame FP) (k : ℕ) :
    ∀ a, lineCount false (atomLines io f a k) = k := by
  induction k with
  | zero => intro a; simp [atomLines, lineCount]
  | succ k ih =>
    intro a
    rw [atomLines_succ, lineCount_line _ _ (mkLine_noNewline _ _ (hio.token_fmt _) (frameTokens_token io hio f a)), ih]
    omega

theorem lineCount_cut (io : Io FP) (hio : Lawful io) (f : Frame FP) (k : ℕ) : lineCount false (cutText io f k) = k + 1 := by
  rw [cutText, lineCount_line _ _ (mkLine_noNewline _ _ token_timestep (by simp)), lineCount_atomLines io hio]
  omega

/-- C72: if a file breaks off anywhere before the last line of a timestep, be it within a line or at its end, the timesteps before
are read, and this one is not returned: the end of the file is reported, or an exception is thrown. -/
theorem C72_cut (io : Io FP) (hio : Lawful io) (s : Snap FP) (hs : s.writeMode = false) (fs : List (Frame FP)) (f : Frame FP)
    (hn : numberOfAtoms s.atomRanges ≠ 0) (t : Str) (ht : t <+: cutText io f (numberOfAtoms s.atomRanges - 1))
    (pos vel : Option (ℕ → FP)) :
    ∃ st, readMany io s pos vel fs.length ⟨framesText io (numberOfAtoms s.atomRanges) fs ++ t, false⟩ = .ok (some st) ∧
      ∀ r st', readTimestepBlock io s st pos vel = .ok (r, st') → r.returned = false := by
  refine ⟨_, readMany_frames io hio s hs pos vel fs t, ?_⟩
  intro r st' h
  by_contra hr
  have h1 := read_needs_lines io s _ pos vel hn h (by simpa using hr)
  obtain ⟨u, hu⟩ := ht
  have h2 := lineCount_append false t u
  rw [hu, lineCount_cut io hio] at h2
  simp only [Stream.lines, Bool.false_eq_true, if_false] at h1
  omega

/-! ## The last line -/

theorem coordTokens_count (io : Io FP) (a : ℕ) : ∀ (ts : List Str) (k : ℕ) (pos vel : Option (ℕ → FP))
    {res : ℕ × Option (ℕ → FP) × Option (ℕ → FP)}, coordTokens io a k ts pos vel = .ok res → res.1 = k + ts.length := by
  intro ts
  induction ts with
  | nil => intro k pos vel res h; cases h; simp
  | cons t ts ih =>
    intro k pos vel res h
    rw [coordTokens] at h
    match h1 : store io pos (k < 3) (3 * a + k) t with
    | .error e => rw [h1] at h; cases h
    | .ok p =>
      rw [h1] at h
      simp only [bind, Except.bind] at h
      match h2 : store io vel (k ≥ 3 ∧ k < 6) (3 * a + k - 3) t with
      | .error e => rw [h2] at h; cases h
      | .ok v =>
        rw [h2] at h
        have := ih _ _ _ h
        rw [this, List.length_cons]; omega

/-- One line without line break at the end of the file: the timestep is returned only if it has as many numbers as the lines
before. -/
theorem atomLoop_last (io : Io FP) (n : ℕ) (wV woV : Bool) (pos vel : Option (ℕ → FP)) (l : Str) (hl : '\n' ∉ l)
    (m : ℕ) (hm : n = m + 1) {res : (ℕ × Bool × Bool × Option (ℕ → FP) × Option (ℕ → FP)) × Stream}
    (h : atomLoop io n m wV woV pos vel ⟨l, false⟩ = .ok res) (hres : res.1.1 = n) :
    ((tokens (strip l)).length = 3 ∧ res.1.2.1 = wV ∧ res.1.2.2.1 = true) ∨
      ((tokens (strip l)).length = 6 ∧ res.1.2.1 = true ∧ res.1.2.2.1 = woV) := by
  have hsplit : ∀ l : Str, '\n' ∉ l → splitLine l = (l, [], true) := by
    intro l
    induction l with
    | nil => intro _; rfl
    | cons c l ih =>
      intro h
      have hc : c ≠ '\n' := fun e => h (by simp [e])
      rw [splitLine, if_neg hc, ih (fun e => h (by simp [e]))]
  have hend : ∀ (a : ℕ) (wV woV : Bool) (pos vel : Option (ℕ → FP)) (rest : Str),
      atomLoop io n a wV woV pos vel ⟨rest, true⟩ = .ok ((a, wV, woV, pos, vel), ⟨rest, true⟩) := by
    intro a wV woV pos vel rest
    rw [atomLoop]; simp
  rw [atomLoop, if_neg (by omega), dif_neg (by simp)] at h
  by_cases hne : l = []
  · subst hne
    simp only [getLine, Bool.false_eq_true, if_false, if_true, hend] at h
    cases h
    simp only at hres
    omega
  · have hg : getLine true ⟨l, false⟩ = (strip l, ⟨[], true⟩) := by
      unfold getLine
      simp [hne, hsplit l hl]
    rw [hg] at h
    simp only at h
    split at h
    · rw [hend] at h
      cases h
      simp only at hres
      omega
    · match hc : coordTokens io m 0 (tokens (strip l)) pos vel with
      | .error e => rw [hc] at h; cases h
      | .ok (token, p, v) =>
        rw [hc] at h
        have ht := coordTokens_count io m _ _ _ _ hc
        simp only at h ht
        split at h
        · rw [hend] at h
          cases h
          left; exact ⟨by omega, rfl, rfl⟩
        · split at h
          · rw [hend] at h
            cases h
            right; exact ⟨by omega, rfl, rfl⟩
          · cases h

/-- C72: if a file breaks off within the last line of a timestep, that is not returned unless what is there of the line has as many
numbers as the whole line, or the timestep has one atom and exactly its position is there. Missing: the cases named; in these, the
timestep is returned with a wrong number or without velocities (`C72_violated`), or is complete but for the line break. -/
theorem C72_last_partial (io : Io FP) (hio : Lawful io) (s : Snap FP) (hs : s.writeMode = false) (fs : List (Frame FP)) (f : Frame FP)
    (hn : numberOfAtoms s.atomRanges ≠ 0) (l : Str) (hl : '\n' ∉ l)
    (h1 : (tokens (strip l)).length ≠ if f.2.isSome then 6 else 3)
    (h2 : numberOfAtoms s.atomRanges = 1 → (tokens (strip l)).length ≠ 3 ∧ (tokens (strip l)).length ≠ 6) (pos vel : Option (ℕ → FP)) :
    ∃ st, readMany io s pos vel fs.length ⟨framesText io (numberOfAtoms s.atomRanges) fs ++
        (cutText io f (numberOfAtoms s.atomRanges - 1) ++ l), false⟩ = .ok (some st) ∧
      ∀ r st', readTimestepBlock io s st pos vel = .ok (r, st') → r.returned = false := by
  refine ⟨_, readMany_frames io hio s hs pos vel fs _, ?_⟩
  intro r st' h
  by_contra hr
  obtain ⟨m, hm⟩ : ∃ m, numberOfAtoms s.atomRanges = m + 1 := ⟨_, (Nat.succ_pred_eq_of_ne_zero hn).symm⟩
  rw [cutText, List.append_assoc, List.cons_append, read_header io s hs _ pos vel hn] at h
  obtain ⟨p, v, he⟩ := atomLoop_lines io hio f l (numberOfAtoms s.atomRanges) (numberOfAtoms s.atomRanges - 1) 0 false false pos vel
    (by omega)
  rw [he, Nat.zero_add] at h
  match ha : atomLoop io (numberOfAtoms s.atomRanges) (numberOfAtoms s.atomRanges - 1)
      (false || (f.2.isSome && decide (0 < numberOfAtoms s.atomRanges - 1)))
      (false || (!f.2.isSome && decide (0 < numberOfAtoms s.atomRanges - 1))) p v ⟨l, false⟩ with
  | .error e => rw [ha] at h; cases h
  | .ok ((atom, wV, woV, p', v'), st2) =>
    rw [ha] at h
    simp only [bind, Except.bind] at h
    split at h
    · simp only [pure, Except.pure, Except.ok.injEq, Prod.mk.injEq] at h
      rw [← h.1] at hr
      simp at hr
    · split at h
      · cases h
      · rename_i hmix
        split at h
        · cases h
        · rename_i hat
          have hlast := atomLoop_last io _ _ _ _ _ l hl (numberOfAtoms s.atomRanges - 1) (by omega) ha (by simpa using hat)
          simp only at hlast
          by_cases hone : numberOfAtoms s.atomRanges = 1
          · have := h2 hone
            rcases hlast with h3 | h3
            · exact this.1 h3.1
            · exact this.2 h3.1
          · have hpos : 0 < numberOfAtoms s.atomRanges - 1 := by omega
            rcases hlast with ⟨h3, h4, h5⟩ | ⟨h3, h4, h5⟩
            · cases hv : f.2 <;> simp [hv, hpos] at h1 h4 h5
              · exact h1 h3
              · exact hmix ⟨h4, h5⟩
            · cases hv : f.2 <;> simp [hv, hpos] at h1 h4 h5
              · exact hmix ⟨h4, h5⟩
              · exact h1 h3

/-! ## Before the last number -/

theorem tokensGo_le (acc u : Str) : (tokensGo acc []).length ≤ (tokensGo acc u).length := by
  induction u generalizing acc with
  | nil => simp
  | cons c u ih =>
    by_cases ha : acc = []
    · subst ha; simp [tokensGo]
    · have e : (tokensGo acc []).length = 1 := by simp [tokensGo, ha]
      have := ih (acc ++ [c])
      have e' : (tokensGo (acc ++ [c]) []).length = 1 := by simp [tokensGo]
      rw [e]
      rw [e'] at this
      simp only [tokensGo, ha, if_false]
      split
      · simp
      · exact this

/-- A longer text does not have fewer tokens. -/
theorem tokensGo_mono (acc t u : Str) : (tokensGo acc t).length ≤ (tokensGo acc (t ++ u)).length := by
  induction t generalizing acc with
  | nil => exact tokensGo_le acc u
  | cons c t ih =>
    simp only [List.cons_append, tokensGo]
    split
    · split
      · exact ih []
      · simpa using ih []
    · exact ih _

theorem tokens_space (acc t : Str) : tokensGo acc (t ++ [' ']) = tokensGo acc t := by
  induction t generalizing acc with
  | nil => by_cases h : acc = [] <;> simp [tokensGo, h]
  | cons c t ih => simp only [List.cons_append, tokensGo, ih]

theorem tokens_strip {l : Str} (h : '\n' ∉ l) : tokens (strip l) = tokens l := by
  induction l with
  | nil => rfl
  | cons c l ih =>
    have hc : c ≠ '\n' := fun e => h (by simp [e])
    have hl : '\n' ∉ l := fun e => h (by simp [e])
    by_cases h1 : c = ' ' ∨ c = '\t'
    · have e : strip (c :: l) = strip l := by
        unfold strip
        rcases h1 with rfl | rfl <;> simp
      rw [e, ih hl, tokens, tokens, tokensGo]
      rcases h1 with rfl | rfl <;> simp
    · simp only [not_or] at h1
      have e : strip (c :: l) = c :: l := by
        unfold strip
        simp [h1.1, h1.2, hc]
      rw [e]

/-- The line of an atom without its last number. -/
def lineStart (io : Io FP) (f : Frame FP) (i : ℕ) : Str :=
  mkLine (io.fmt (f.1 (3 * i))) (frameTokens io f i).dropLast ++ [' ']

/-- The last number in the line of an atom. -/
def lastNumber (io : Io FP) (f : Frame FP) (i : ℕ) : Str :=
  match f.2 with
  | some v => io.fmt (v (3 * i + 2))
  | none => io.fmt (f.1 (3 * i + 2))

/-- A timestep is what precedes its last number, that number, and a line break. -/
theorem timestep_split (io : Io FP) (f : Frame FP) (m : ℕ) :
    timestepText io (m + 1) f.1 f.2 = (cutText io f m ++ lineStart io f m) ++ (lastNumber io f m ++ ['\n']) := by
  rw [← cutText_full, cutText, cutText, atomLines, List.range'_concat, List.flatMap_append, ← atomLines, lineStart, lastNumber]
  obtain ⟨p, v⟩ := f
  cases v <;> simp [frameTokens, mkLine]

/-- C72: if a file breaks off anywhere before the last number of a timestep, the timesteps before are read, and this one is not
returned, if there are at least two atoms or there are no velocities. Missing: a single atom with velocities, whose position alone
is accepted (`C72_violated`). Behind, the last number itself may lack digits (`C72_violated`). -/
theorem C72_anywhere_partial (io : Io FP) (hio : Lawful io) (s : Snap FP) (hs : s.writeMode = false) (fs : List (Frame FP)) (f : Frame FP)
    {m : ℕ} (hm : numberOfAtoms s.atomRanges = m + 1) (h1 : 1 ≤ m ∨ f.2 = none)
    {t : Str} (ht : t <+: cutText io f m ++ lineStart io f m) (pos vel : Option (ℕ → FP)) :
    ∃ st, readMany io s pos vel fs.length ⟨framesText io (m + 1) fs ++ t, false⟩ = .ok (some st) ∧
      ∀ r st', readTimestepBlock io s st pos vel = .ok (r, st') → r.returned = false := by
  have hm' : numberOfAtoms s.atomRanges - 1 = m := by omega
  rcases List.prefix_or_prefix_of_prefix ht (List.prefix_append _ _) with h | ⟨l, rfl⟩
  · have := C72_cut io hio s hs fs f (by omega) t (by rw [hm']; exact h) pos vel
    rwa [hm] at this
  · have hl : l <+: lineStart io f m := (List.prefix_append_right_inj _).1 ht
    obtain ⟨u, hu⟩ := hl
    have htok : ∀ t ∈ (frameTokens io f m).dropLast, Token t := fun t h => frameTokens_token io hio f m t (List.mem_of_mem_dropLast h)
    have hnn : '\n' ∉ lineStart io f m := by
      unfold lineStart
      have := mkLine_noNewline _ _ (hio.token_fmt (f.1 (3 * m))) htok
      simp [this]
    have hln : '\n' ∉ l := fun e => hnn (by rw [← hu]; simp [e])
    have hcount : (tokens (strip l)).length < if f.2.isSome then 6 else 3 := by
      rw [tokens_strip hln]
      have h2 := tokensGo_mono [] l u
      rw [hu, lineStart, tokens_space, ← tokens, ← tokens, tokens_mkLine _ _ (hio.token_fmt _) htok] at h2
      obtain ⟨p, v⟩ := f
      cases v <;> simp [frameTokens] at h2 ⊢ <;> omega
    have := C72_last_partial io hio s hs fs f (by omega) l hln (by omega) ?_ pos vel
    · rwa [hm', hm] at this
    · intro h0
      rcases h1 with h1 | h1
      · omega
      · rw [h1] at hcount
        simp only [Option.isSome_none, Bool.false_eq_true, if_false] at hcount
        omega

/-- Two atoms, opened for reading, and a file that breaks off within the line of the first one, and one that breaks off within that
of the second one. -/
example : numberOfAtoms ({ writeMode := false, atomRanges := [⟨0, 1, {}⟩] } : Snap ℕ).atomRanges = 1 + 1 ∧
    ("timestep\n10 2".toList <+: cutText natIo (fun i => [10, 20, 30, 40, 50, 60].getD i 0, none) 1 ++
      lineStart natIo (fun i => [10, 20, 30, 40, 50, 60].getD i 0, none) 1) ∧
    ("timestep\n10 20 30\n40 5".toList <+: cutText natIo (fun i => [10, 20, 30, 40, 50, 60].getD i 0, none) 1 ++
      lineStart natIo (fun i => [10, 20, 30, 40, 50, 60].getD i 0, none) 1) ∧
    '\n' ∉ "40 5".toList ∧ (tokens (strip "40 5".toList)).length = 2 := by
  refine ⟨by decide, by decide, by decide, by decide, by decide⟩

end OpenMPCD.Snapshot
