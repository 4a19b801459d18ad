import Verif.DDDA.Overflow

/-!
# Property C51: which block the C++ class chooses, for any number of data
-/

namespace OpenMPCD.DDDA

open OpenMPCD.Stats

/-! ## The loop -/

/-- From block 22 on, the cube of the block size is zero modulo `2 ^ 64`, so that the block is never chosen. -/
theorem cppStep_wrap {d : DDDA ℝ} {n : ℕ} {se0 : ℝ} (o k : ℕ) (b : OTFS ℝ) (w : Option ℝ)
    (hk : d[k]? = some (b, w)) (hb : 2 ≤ b.n) (h22 : 22 ≤ k) : cppOptimalStep (toCppD d) n se0 o k = some o := by
  have hb' : 2 ≤ (toCpp b).getSampleSize := hb
  have hcube : 2 ^ k % 2 ^ 64 * (2 ^ k % 2 ^ 64) * (2 ^ k % 2 ^ 64) % 2 ^ 64 = 0 := by
    have e : 2 ^ k % 2 ^ 64 ≡ 2 ^ k [MOD 2 ^ 64] := Nat.mod_modEq _ _
    have e3 : 2 ^ k % 2 ^ 64 * (2 ^ k % 2 ^ 64) * (2 ^ k % 2 ^ 64) % 2 ^ 64 = 2 ^ k * 2 ^ k * 2 ^ k % 2 ^ 64 := (e.mul e).mul e
    rw [e3, ← pow_add, ← pow_add]
    exact Nat.mod_eq_zero_of_dvd (pow_dvd_pow 2 (by omega))
  unfold cppOptimalStep
  rw [toCppD_getElem?, hk]
  simp only [Option.map_some, hb', not_true, if_false, hcube]
  rw [if_neg]
  simp only [Nat.cast_zero, gt_iff_lt, not_lt]
  exact mul_nonneg (by positivity) (mul_self_nonneg _)

theorem cppLoop_all {d : DDDA ℝ} {n : ℕ} {se0 : ℝ} (hn : getSampleSize d = .ok n)
    (h0 : getBlockStandardErrorOfTheMean d 0 = .ok se0) (m : ℕ)
    (hm : ∀ k < m, ∃ b w, d[k]? = some (b, w) ∧ 2 ≤ b.n) (o : ℕ) :
    ∃ r : ℕ, (List.range m).reverse.foldlM (cppOptimalStep (toCppD d) n se0) o = some r ∧
      ((r < m ∧ r < 22 ∧ Criterion d r ∧ ∀ j < r, ¬ Criterion d j) ∨
        (r = o ∧ ∀ j < m, j < 22 → ¬ Criterion d j)) := by
  induction m generalizing o with
  | zero => exact ⟨o, by simp [pure], Or.inr ⟨rfl, by simp⟩⟩
  | succ m ih =>
    obtain ⟨b, w, hk, hb⟩ := hm m (by omega)
    rcases Nat.lt_or_ge m 22 with h22 | h22
    · obtain ⟨r, hr, hcase⟩ := cppLoop_eq hn h0 (m + 1) (by omega) hm o
      refine ⟨r, hr, ?_⟩
      rcases hcase with ⟨h1, h2, h3⟩ | ⟨h1, h2⟩
      · exact Or.inl ⟨h1, by omega, h2, h3⟩
      · exact Or.inr ⟨h1, fun j hj _ => h2 j hj⟩
    · rw [foldlM_range_succ, cppStep_wrap o m b w hk hb h22, Option.bind_some]
      obtain ⟨r, hr, hcase⟩ := ih (fun k hk => hm k (by omega)) o
      refine ⟨r, hr, ?_⟩
      rcases hcase with ⟨h1, h2⟩ | ⟨h1, h2⟩
      · exact Or.inl ⟨by omega, h2⟩
      · exact Or.inr ⟨h1, fun j hj h => h2 j (by omega) h⟩

/-! ## The block chosen -/

/-- C51: whatever the history, the C++ class chooses the block the Python class
chooses if that is below block 22, and otherwise the last block that has a variance, whether or not it meets the criterion. -/
theorem C51_exact {d : DDDA ℝ} (h : Hist d) (n : ℕ) (hn : getSampleSize d = .ok n) (h2 : 2 ≤ n) :
    ∃ r s m : ℕ, getOptimalBlockID d = .ok (r : ℤ) ∧ cppGetOptimalBlockID (toCppD d) = some s ∧
      (hasBlockVariance d m = .ok true ∧ ∀ j, m < j → hasBlockVariance d j ≠ .ok true) ∧
      r ≤ m ∧ s = if r < 22 then r else m := by
  obtain ⟨se0, h0, r, hr, hrv, hz, hopt⟩ := C06_optimal h n hn h2
  rcases hist_sizes h with rfl | ⟨hne, hs⟩
  · simp [init, getSampleSize, OTFS.getSampleSize, fresh] at hn; omega
  obtain ⟨b0, w0, rest, rfl⟩ : ∃ b w rest, d = (b, w) :: rest := by
    match d, hne with
    | (b, w) :: rest, _ => exact ⟨b, w, rest, rfl⟩
  set d : DDDA ℝ := (b0, w0) :: rest with hd
  have hb0 : b0.n = n := by simpa [hd, getSampleSize, OTFS.getSampleSize] using hn
  have hv0 : hasBlockVariance d 0 = .ok true := by
    simp [hd, hasBlockVariance, OTFS.getSampleSize, hb0, h2]
  have hse : cppStandardError (toCpp b0) = se0 := by
    have he : d[0]? = some (b0, w0) := rfl
    have h1 := cppStandardError_toCpp (b := b0) (by omega)
    simp only [getBlockStandardErrorOfTheMean, hv0, bind, Except.bind, not_true, if_false, he, h1] at h0
    exact Except.ok.inj h0
  obtain ⟨M, hM⟩ : ∃ M, d.length = M + 1 := ⟨rest.length, by simp [hd]⟩
  have hvar : ∀ k p, d[k]? = some p → hasBlockVariance d k = .ok (decide (2 ≤ p.1.n)) := by
    intro k p hp
    obtain ⟨b, w⟩ := p
    unfold hasBlockVariance; rw [hp]; rfl
  have hbelow : ∀ k < M, ∃ b w, d[k]? = some (b, w) ∧ 2 ≤ b.n := by
    intro k hk
    obtain ⟨p, hp⟩ : ∃ p, d[k]? = some p := ⟨d[k]'(by omega), List.getElem?_eq_getElem (by omega)⟩
    exact ⟨p.1, p.2, hp, hs.nontop hp (by omega)⟩
  have habove : ∀ j, M < j → hasBlockVariance d j ≠ .ok true := by
    intro j hj
    have : d[j]? = none := List.getElem?_eq_none (by omega)
    simp [hasBlockVariance, this]
  obtain ⟨⟨bM, wM⟩, hpM⟩ : ∃ p, d[M]? = some p := ⟨d[M]'(by omega), List.getElem?_eq_getElem (by omega)⟩
  -- the last block that has a variance
  obtain ⟨m, hmv, hmax, hall, hloop⟩ : ∃ m, hasBlockVariance d m = .ok true ∧
      (∀ j, m < j → hasBlockVariance d j ≠ .ok true) ∧ (∀ k < m + 1, ∃ b w, d[k]? = some (b, w) ∧ 2 ≤ b.n) ∧
      (se0 ≠ 0 → cppGetOptimalBlockID (toCppD d) =
        (List.range (m + 1)).reverse.foldlM (cppOptimalStep (toCppD d) n se0) m) := by
    have hunf : se0 ≠ 0 → cppGetOptimalBlockID (toCppD d) =
        (List.range (M + 1)).reverse.foldlM (cppOptimalStep (toCppD d) n se0) M := fun hne0 =>
      cppUnfold (d := toCppD d) (b := toCpp b0) (w := w0) (rest := toCppD rest) rfl hb0 h2 hse hne0 (by simp [toCppD, hM])
    by_cases hvM : 2 ≤ bM.n
    · refine ⟨M, by simp [hvar M _ hpM, hvM], habove, ?_, hunf⟩
      intro k hk
      rcases Nat.lt_succ_iff_lt_or_eq.mp hk with h | rfl
      · exact hbelow k h
      · exact ⟨bM, wM, hpM, hvM⟩
    · have hM1 : 1 ≤ M := by
        by_contra hM0
        have : M = 0 := by omega
        subst this
        rw [hvar 0 _ hpM, decide_eq_false hvM] at hv0
        simp at hv0
      obtain ⟨k, rfl⟩ : ∃ k, M = k + 1 := ⟨M - 1, by omega⟩
      obtain ⟨bk, wk, hk1, hk2⟩ := hbelow k (by omega)
      refine ⟨k, by simp [hvar k _ hk1, hk2], ?_, hbelow, ?_⟩
      · intro j hj
        rcases Nat.lt_or_ge (k + 1) j with h | h
        · exact habove j h
        · obtain rfl : j = k + 1 := by omega
          simp [hvar _ _ hpM, hvM]
      · intro hne0
        have hcstep : cppOptimalStep (toCppD d) n se0 (k + 1) (k + 1) = some k := by
          unfold cppOptimalStep
          rw [toCppD_getElem?, hpM]
          have hnb : ¬ 2 ≤ (toCpp bM).getSampleSize := hvM
          have hl : k + 1 = (toCppD d).length - 1 := by simp [toCppD, hM]
          simp only [Option.map_some, hnb, not_false_eq_true, if_true]
          rw [if_pos hl]; rfl
        rw [hunf hne0, foldlM_range_succ, hcstep, Option.bind_some]
  have hrm : r ≤ m := by
    by_contra hlt
    exact hmax r (by omega) hrv
  by_cases hne0 : se0 = 0
  · have hr0 := hz hne0
    subst hr0
    refine ⟨0, 0, m, hr, ?_, ⟨hmv, hmax⟩, hrm, by simp⟩
    have : cppGetOptimalBlockID (toCppD d) = some 0 := by
      have hc : toCppD d = (toCpp b0, w0) :: toCppD rest := rfl
      have h3 : ¬ (toCpp b0).getSampleSize < 2 := by
        show ¬ b0.n < 2
        omega
      unfold cppGetOptimalBlockID
      rw [hc]
      simp only [h3, if_false, hse, hne0, if_true]
    exact this
  obtain ⟨s, hs', hcase⟩ := cppLoop_all hn h0 (m + 1) hall m
  refine ⟨r, s, m, hr, by rw [hloop hne0, hs'], ⟨hmv, hmax⟩, hrm, ?_⟩
  obtain ⟨-, hro⟩ := hopt hne0
  rcases hcase with ⟨h1, h3, h4, h5⟩ | ⟨rfl, h3⟩
  · have : r = s := by
      rcases hro with ⟨g1, g2⟩ | ⟨g1, -⟩
      · rcases lt_trichotomy r s with h | h | h
        · exact absurd g1 (h5 r h)
        · exact h
        · exact absurd h4 (g2 s h)
      · exact absurd h4 (g1 s)
    rw [this, if_pos h3]
  · split
    · rename_i h22
      rcases hro with ⟨g1, g2⟩ | ⟨g1, g2⟩
      · exact absurd g1 (h3 r (by omega) h22)
      · by_contra hne
        exact g2 s (by omega) hmv
    · rfl

/-- C51: the C++ class and the Python class choose the same block as long as block 23 has no variance. Missing: objects for which it
has, which is so for all objects to which `2 ^ 24` data or more have been added; for these, the claim is false
(`C51_optimalBlock_violated`). -/
theorem C51_same_partial {d : DDDA ℝ} (h : Hist d) (n : ℕ) (hn : getSampleSize d = .ok n) (h2 : 2 ≤ n)
    (h23 : hasBlockVariance d 23 ≠ .ok true) :
    ∃ r : ℕ, getOptimalBlockID d = .ok (r : ℤ) ∧ cppGetOptimalBlockID (toCppD d) = some r := by
  obtain ⟨r, s, m, hr, hs, ⟨hm, hmax⟩, hrm, e⟩ := C51_exact h n hn h2
  refine ⟨r, hr, ?_⟩
  rw [hs, e]
  split
  · rfl
  · have hlt : m < 23 := by
      by_contra hge
      rcases Nat.lt_or_ge 23 m with h3 | h3
      · -- block 23 lies below block `m`, and has a variance then
        apply h23
        rcases hist_sizes h with rfl | ⟨hne, hsz⟩
        · simp [init, getSampleSize, OTFS.getSampleSize, fresh] at hn; omega
        have hml : m < d.length := by
          by_contra hl
          have : d[m]? = none := List.getElem?_eq_none (by omega)
          simp [hasBlockVariance, this] at hm
        have hp : d[23]? = some d[23] := List.getElem?_eq_getElem (by omega)
        have h5 := hsz.nontop hp (by omega)
        unfold hasBlockVariance
        rw [hp]
        simp [OTFS.getSampleSize, h5]
      · obtain rfl : m = 23 := by omega
        exact h23 hm
    congr 1; omega

/-- C51: the C++ class and the Python class choose the same block for all sequences of less than `2 ^ 24` data, and not for all
sequences of `2 ^ 24` data. -/
theorem C51_sharp :
    (∀ xs : List ℝ, 2 ≤ xs.length → xs.length < 2 ^ 24 →
      ∃ r : ℕ, getOptimalBlockID (feedD xs) = .ok (r : ℤ) ∧ cppGetOptimalBlockID (xs.foldl cppAddDatum cppInit) = some r) ∧
    ∃ xs : List ℝ, xs.length = 2 ^ 24 ∧
      ¬ ∃ r : ℕ, getOptimalBlockID (feedD xs) = .ok (r : ℤ) ∧ cppGetOptimalBlockID (xs.foldl cppAddDatum cppInit) = some r := by
  constructor
  · intro xs h2 hlt
    have hfold : xs.foldl cppAddDatum cppInit = toCppD (feedD xs) := by
      clear * -
      induction xs using List.reverseRecOn with
      | nil => rfl
      | append_singleton xs x ih =>
        rw [List.foldl_append, ih, feedD_append_singleton]
        exact cppPushFrom_eq x _
    rw [hfold]
    refine C51_same_partial (hist_feedD xs) xs.length (C05_size_mean xs).1 h2 ?_
    intro hv
    by_cases h3 : 2 ^ 23 ≤ xs.length
    · rw [C05_hasBlockVariance, if_pos (Or.inr h3)] at hv
      have h4 : xs.length / 2 ^ 23 < 2 := Nat.div_lt_of_lt_mul (by omega)
      simp only [Except.ok.injEq, decide_eq_true_eq] at hv
      omega
    · rw [C05_hasBlockVariance, if_neg (by omega)] at hv
      simp at hv
  · obtain ⟨xs, h1, h2, h3⟩ := C51_optimalBlock_violated
    refine ⟨xs, h1, ?_⟩
    rintro ⟨r, h4, h5⟩
    rw [h2] at h4
    rw [h3] at h5
    have h6 := Option.some.inj h5
    have h7 := Except.ok.inj h4
    omega

/-- Objects with any number of data meet the hypotheses of `C51_exact`, and such with three those of `C51_same_partial`. -/
example : Hist (feedD ([1, 2, 6] : List ℝ)) ∧ getSampleSize (feedD ([1, 2, 6] : List ℝ)) = .ok 3 ∧
    hasBlockVariance (feedD ([1, 2, 6] : List ℝ)) 23 ≠ .ok true := by
  refine ⟨hist_feedD _, (C05_size_mean _).1, ?_⟩
  rw [C05_hasBlockVariance, if_neg (by simp)]
  simp

end OpenMPCD.DDDA
