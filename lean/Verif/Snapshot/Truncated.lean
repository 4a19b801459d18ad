import Verif.Snapshot.RoundTrip

/-!
# C72: snapshot files which have been cut off
-/

set_option linter.unusedSimpArgs false

namespace OpenMPCD.Snapshot

open Runs (natStr digitsValue digitsValue_natStr natStr_digits natStr_ne_nil)

variable {FP : Type}

/-- The lines of the atoms from `a` on, `k` of them, as written by `writeTimestepBlock`. -/
def atomLines (io : Io FP) (f : Frame FP) (a k : ℕ) : Str :=
  (List.range' a k).flatMap fun i => mkLine (io.fmt (f.1 (3 * i))) (frameTokens io f i) ++ ['\n']

/-- The beginning of a timestep block: the first line and those of `k` atoms. -/
def cutText (io : Io FP) (f : Frame FP) (k : ℕ) : Str :=
  mkLine "timestep".toList [] ++ '\n' :: atomLines io f 0 k

/-- A complete block is one with all atoms. -/
theorem cutText_full (io : Io FP) (f : Frame FP) (n : ℕ) :
    cutText io f n = timestepText io n f.1 f.2 := by
  rw [timestepText_eq, cutText, atomLines]

/-- Reading `m` timesteps one after the other, with the given buffers for each; `none`: fewer were found. -/
def readMany (io : Io FP) (s : Snap FP) (pos vel : Option (ℕ → FP)) : ℕ → Stream → Except Err (Option Stream)
  | 0, st => .ok (some st)
  | m + 1, st =>
    match readTimestepBlock io s st pos vel with
    | .error e => .error e
    | .ok (r, st) => if r.returned then readMany io s pos vel m st else .ok none

theorem readMany_frames (io : Io FP) (hio : Lawful io) (s : Snap FP) (hs : s.writeMode = false)
    (pos vel : Option (ℕ → FP)) (fs : List (Frame FP)) (rest : Str) :
    readMany io s pos vel fs.length ⟨framesText io (numberOfAtoms s.atomRanges) fs ++ rest, false⟩ =
      .ok (some ⟨rest, false⟩) := by
  induction fs with
  | nil => rfl
  | cons f fs ih =>
    simp only [framesText, List.flatMap_cons, List.length_cons, readMany, List.append_assoc]
    rw [readTimestepBlock_written io hio s hs]
    exact ih

/-- Reading the lines of some of the atoms. -/
theorem atomLoop_lines (io : Io FP) (hio : Lawful io) (f : Frame FP) (rest : Str) (n : ℕ) :
    ∀ (k a : ℕ) (wV woV : Bool) (pos vel : Option (ℕ → FP)), a + k ≤ n →
    ∃ pos' vel', atomLoop io n a wV woV pos vel ⟨atomLines io f a k ++ rest, false⟩ =
      atomLoop io n (a + k) (wV || (f.2.isSome && decide (0 < k))) (woV || (!f.2.isSome && decide (0 < k)))
        pos' vel' ⟨rest, false⟩ := by
  intro k
  induction k with
  | zero =>
    intro a wV woV pos vel _
    exact ⟨pos, vel, by simp [atomLines]⟩
  | succ k ih =>
    intro a wV woV pos vel ha
    have htok : ∃ pos' vel', coordTokens io a 0 (io.fmt (f.1 (3 * a)) :: frameTokens io f a) pos vel =
        .ok (if f.2.isSome then 6 else 3, pos', vel') := by
      obtain ⟨p, v⟩ := f
      cases v <;> cases pos <;> cases vel <;>
        simp [frameTokens, coordTokens, store, castFP, hio.parse_fmt, bind, Except.bind, Except.map]
    obtain ⟨pos1, vel1, htok⟩ := htok
    have hlines : atomLines io f a (k + 1) = mkLine (io.fmt (f.1 (3 * a))) (frameTokens io f a) ++ '\n' ::
        atomLines io f (a + 1) k := by
      simp [atomLines, List.range'_succ]
    cases hv : f.2 with
    | none =>
      obtain ⟨p2, v2, h2⟩ := ih (a + 1) wV true pos1 vel1 (by omega)
      refine ⟨p2, v2, ?_⟩
      rw [atomLoop, if_neg (by omega), dif_neg (by simp), hlines]
      simp only [List.append_assoc, List.cons_append]
      rw [getLine_mkLine true _ _ (hio.token_fmt _) (frameTokens_token io hio f a)]
      simp only [if_neg (mkLine_ne_nil _ _ (hio.token_fmt _)), if_true]
      rw [tokens_mkLine _ _ (hio.token_fmt _) (frameTokens_token io hio f a), htok]
      simp only [hv, Option.isSome_none, Bool.false_eq_true, if_false, if_true] at h2 ⊢
      rw [h2, show a + 1 + k = a + (k + 1) by omega]
      simp
    | some v =>
      obtain ⟨p2, v2, h2⟩ := ih (a + 1) true woV pos1 vel1 (by omega)
      refine ⟨p2, v2, ?_⟩
      rw [atomLoop, if_neg (by omega), dif_neg (by simp), hlines]
      simp only [List.append_assoc, List.cons_append]
      rw [getLine_mkLine true _ _ (hio.token_fmt _) (frameTokens_token io hio f a)]
      simp only [if_neg (mkLine_ne_nil _ _ (hio.token_fmt _)), if_true]
      rw [tokens_mkLine _ _ (hio.token_fmt _) (frameTokens_token io hio f a), htok]
      simp only [hv, Option.isSome_some, if_true] at h2 ⊢
      rw [if_neg (by decide), h2, show a + 1 + k = a + (k + 1) by omega]
      simp

/-- Reaching the end of the file. -/
theorem atomLoop_end (io : Io FP) (n a : ℕ) (wV woV : Bool) (pos vel : Option (ℕ → FP)) (h : a < n) :
    atomLoop io n a wV woV pos vel ⟨[], false⟩ = .ok ((a, wV, woV, pos, vel), ⟨[], true⟩) := by
  have e : getLine true ⟨[], false⟩ = ([], ⟨[], true⟩) := rfl
  rw [atomLoop, if_neg (by omega), dif_neg (by simp), e]
  simp only [if_true]
  rw [atomLoop, if_neg (by omega), dif_pos rfl]

/-- Reading the first line of a block. -/
theorem read_header (io : Io FP) (s : Snap FP) (hs : s.writeMode = false) (body : Str)
    (pos vel : Option (ℕ → FP)) (hn : numberOfAtoms s.atomRanges ≠ 0) :
    readTimestepBlock io s ⟨mkLine "timestep".toList [] ++ '\n' :: body, false⟩ pos vel =
      (do
        let ((atom, withVel, withoutVel, positions, velocities), st) ←
          atomLoop io (numberOfAtoms s.atomRanges) 0 false false pos vel ⟨body, false⟩
        if atom = 0 then return (⟨false, some withVel, positions, velocities⟩, st)
        if withVel ∧ withoutVel then .error .malformedFile
        if atom ≠ numberOfAtoms s.atomRanges then .error .malformedFile
        return (⟨true, some withVel, positions, velocities⟩, st)) := by
  unfold readTimestepBlock
  rw [if_neg (by simp [hs])]
  have hnil : ∀ t ∈ ([] : List Str), Token t := by simp
  rw [headerLine, dif_neg (by simp), getLine_mkLine true _ _ token_timestep hnil]
  rw [if_neg (mkLine_ne_nil _ _ token_timestep)]
  have hc : checkHeader (mkLine "timestep".toList []) = .ok () := by
    unfold checkHeader
    rw [tokens_mkLine _ _ token_timestep hnil]
    simp
  simp only [if_true, hc, if_neg hn]
  rfl

/-- C72, as far as it holds: if a file with timesteps breaks off at the end of a line, the complete timesteps
are read, and reading the incomplete one raises an exception. -/
theorem C72_lines_partial (io : Io FP) (hio : Lawful io) (s : Snap FP) (hs : s.writeMode = false)
    (fs : List (Frame FP)) (f : Frame FP) (k : ℕ) (h0 : 0 < k) (hk : k < numberOfAtoms s.atomRanges)
    (pos vel : Option (ℕ → FP)) :
    ∃ st, readMany io s pos vel fs.length
        ⟨framesText io (numberOfAtoms s.atomRanges) fs ++ cutText io f k, false⟩ = .ok (some st) ∧
      readTimestepBlock io s st pos vel = .error .malformedFile := by
  refine ⟨_, readMany_frames io hio s hs pos vel fs (cutText io f k), ?_⟩
  rw [cutText, read_header io s hs _ pos vel (by omega)]
  obtain ⟨p, v, h⟩ := atomLoop_lines io hio f [] (numberOfAtoms s.atomRanges) k 0 false false pos vel (by omega)
  rw [List.append_nil, Nat.zero_add] at h
  rw [h, atomLoop_end io _ _ _ _ _ _ hk]
  have hk0 : k ≠ 0 := by omega
  have hkn : k ≠ numberOfAtoms s.atomRanges := by omega
  cases hv : f.2 <;> simp [bind, Except.bind, hk0, hkn, h0, hv]

/-- C72: if it breaks off after the first line of a timestep, the end of the file is reported. -/
theorem C72_header (io : Io FP) (hio : Lawful io) (s : Snap FP) (hs : s.writeMode = false)
    (fs : List (Frame FP)) (f : Frame FP) (hn : numberOfAtoms s.atomRanges ≠ 0) (pos vel : Option (ℕ → FP)) :
    ∃ st, readMany io s pos vel fs.length
        ⟨framesText io (numberOfAtoms s.atomRanges) fs ++ cutText io f 0, false⟩ = .ok (some st) ∧
      ∃ r st', readTimestepBlock io s st pos vel = .ok (r, st') ∧ r.returned = false ∧
        r.positions = pos ∧ r.velocities = vel := by
  refine ⟨_, readMany_frames io hio s hs pos vel fs (cutText io f 0), ?_⟩
  have := read_header io s hs [] pos vel hn
  have h0 : cutText io f 0 = mkLine "timestep".toList [] ++ '\n' :: [] := rfl
  rw [h0, this, atomLoop_end io _ _ _ _ _ _ (by omega)]
  exact ⟨_, _, rfl, rfl, rfl, rfl⟩

/-- C72: a timestep in which only some atoms have velocities is rejected. -/
theorem C72_mixed (io : Io FP) (hio : Lawful io) (s : Snap FP) (hs : s.writeMode = false)
    (f g : Frame FP) (hfg : f.2.isSome ≠ g.2.isSome) (k : ℕ) (h0 : 0 < k)
    (hk : k < numberOfAtoms s.atomRanges) (rest : Str) (pos vel : Option (ℕ → FP)) :
    readTimestepBlock io s ⟨cutText io f k ++
        (atomLines io g k (numberOfAtoms s.atomRanges - k) ++ rest), false⟩ pos vel =
      .error .malformedFile := by
  rw [cutText, List.append_assoc, List.cons_append, read_header io s hs _ pos vel (by omega)]
  obtain ⟨p, v, h⟩ := atomLoop_lines io hio f (atomLines io g k (numberOfAtoms s.atomRanges - k) ++ rest)
    (numberOfAtoms s.atomRanges) k 0 false false pos vel (by omega)
  rw [Nat.zero_add] at h
  obtain ⟨p', v', h'⟩ := atomLoop_lines io hio g rest (numberOfAtoms s.atomRanges)
    (numberOfAtoms s.atomRanges - k) k (false || (f.2.isSome && decide (0 < k)))
    (false || (!f.2.isSome && decide (0 < k))) p v (by omega)
  rw [show k + (numberOfAtoms s.atomRanges - k) = numberOfAtoms s.atomRanges by omega] at h'
  rw [h, h', atomLoop, if_pos (by omega)]
  have hn : numberOfAtoms s.atomRanges ≠ 0 := by omega
  cases hf : f.2 <;> cases hg : g.2 <;> simp [hf, hg] at hfg <;>
    simp [bind, Except.bind, hn, h0, hk]

/-- A snapshot file with one atom, opened for reading. -/
def oneAtom : Snap ℕ := { writeMode := false, atomRanges := [⟨0, 0, {}⟩] }

theorem tokens_two : tokens "10 20 3".toList = ["10".toList, "20".toList, "3".toList] := by decide

/-- C72 does not hold in general: if the file breaks off within the last number, the digits found are taken for
the number; if it breaks off within the last line, behind the position, the velocity is taken to be absent. In
both cases reading the timestep succeeds. -/
theorem C72_violated :
    let f : Frame ℕ := (fun i => [10, 20, 30].getD i 0, none)
    let g : Frame ℕ := (fun i => [10, 20, 3].getD i 0, some fun _ => 7)
    ("timestep\n10 20 3".toList <+: timestepText natIo 1 f.1 f.2) ∧
    ("timestep\n10 20 3".toList <+: timestepText natIo 1 g.1 g.2) ∧
    ∃ r st, readTimestepBlock natIo oneAtom ⟨"timestep\n10 20 3".toList, false⟩ (some fun _ => 0)
        (some fun _ => 0) = .ok (r, st) ∧
      r.returned = true ∧ r.velocitiesEncountered = some false ∧
      (r.positions.map fun p => [p 0, p 1, p 2]) = some [10, 20, 3] ∧
      (r.velocities.map fun p => [p 0, p 1, p 2]) = some [0, 0, 0] := by
  refine ⟨by decide, by decide, ?_⟩
  have hn : numberOfAtoms oneAtom.atomRanges = 1 := by decide
  have h := read_header natIo oneAtom rfl "10 20 3".toList (some fun _ => 0) (some fun _ => 0) (by rw [hn]; simp)
  have e : mkLine "timestep".toList [] ++ '\n' :: "10 20 3".toList = "timestep\n10 20 3".toList := by decide
  rw [e, hn] at h
  have hl : getLine true ⟨"10 20 3".toList, false⟩ = ("10 20 3".toList, ⟨[], true⟩) := by decide
  rw [atomLoop, if_neg (by omega), dif_neg (by simp), hl] at h
  simp only [tokens_two] at h
  rw [if_neg (by decide)] at h
  have htok : coordTokens natIo 0 0 ["10".toList, "20".toList, "3".toList] (some fun _ => 0) (some fun _ => 0) =
      .ok (3, some (Function.update (Function.update (Function.update (fun _ => 0) 0 10) 1 20) 2 3),
        some fun _ => 0) := by
    have h1 : natIo.parse "10".toList = some 10 := by decide
    have h2 : natIo.parse "20".toList = some 20 := by decide
    have h3 : natIo.parse "3".toList = some 3 := by decide
    simp only [coordTokens, store, castFP, h1, h2, h3]
    rfl
  rw [htok] at h
  simp only [if_true] at h
  rw [atomLoop, if_pos (by omega)] at h
  refine ⟨_, _, h, rfl, rfl, by decide, by decide⟩

example : ∃ s : Snap ℕ, s.writeMode = false ∧ 1 < numberOfAtoms s.atomRanges ∧ Lawful natIo :=
  ⟨{ writeMode := false, atomRanges := [⟨0, 2, {}⟩] }, rfl, by decide, natIo_lawful⟩

end OpenMPCD.Snapshot
