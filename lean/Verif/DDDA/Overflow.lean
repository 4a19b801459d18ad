import Verif.DDDA.Props2

/-!
# Property C51: the case in which C++ and Python choose different blocks
-/


set_option linter.unusedSectionVars false
set_option linter.unusedSimpArgs false
set_option linter.dupNamespace false

namespace OpenMPCD.DDDA

open Stats

/-- Four times `m` zeros followed by `m` ones. -/
def alternating (m : ℕ) : List ℝ :=
  List.replicate m 0 ++ (List.replicate m 1 ++ (List.replicate m 0 ++ (List.replicate m 1 ++
    (List.replicate m 0 ++ (List.replicate m 1 ++ (List.replicate m 0 ++ List.replicate m 1))))))

theorem pairMeans_replicate (m : ℕ) (c : ℝ) :
    pairMeans (List.replicate (2 * m) c) = List.replicate m c := by
  induction m with
  | zero => simp [pairMeans]
  | succ m ih =>
    rw [show 2 * (m + 1) = 2 * m + 1 + 1 by ring, List.replicate_succ, List.replicate_succ,
      pairMeans, ih, List.replicate_succ]
    congr 1; ring

theorem pairMeans_alternating (m : ℕ) : pairMeans (alternating (2 * m)) = alternating m := by
  have h : ∀ c : ℝ, (List.replicate (2 * m) c).length % 2 = 0 := by intro c; simp
  unfold alternating
  simp only [pairMeans_append_even _ _ (h _), pairMeans_replicate]

theorem groupMeans_alternating (j k : ℕ) (h : k ≤ j) :
    Spec.groupMeans (2 ^ k) (alternating (2 ^ j)) = alternating (2 ^ (j - k)) := by
  rw [← pairMeans_iter]
  induction k generalizing j with
  | zero => simp
  | succ k ih =>
    obtain ⟨j, rfl⟩ : ∃ i, j = i + 1 := ⟨j - 1, by omega⟩
    rw [Function.iterate_succ_apply, pow_succ', pairMeans_alternating, ih j (by omega)]
    congr 2; omega

theorem alternating_length (m : ℕ) : (alternating m).length = 8 * m := by
  simp [alternating]; ring

theorem alternating_variance (m : ℕ) (hm : 0 < m) :
    Spec.variance (alternating m) = 2 * m / (8 * m - 1) := by
  have hmr : (m : ℝ) ≠ 0 := by positivity
  have hmean : Spec.mean (alternating m) = 1 / 2 := by
    rw [Spec.mean, alternating_length]
    simp only [alternating, List.sum_append, List.sum_replicate, nsmul_eq_mul]
    push_cast; field_simp; ring
  rw [Spec.variance, Spec.sumSqDev, hmean, alternating_length]
  simp only [alternating, List.map_append, List.map_replicate, List.sum_append, List.sum_replicate,
    nsmul_eq_mul]
  push_cast
  congr 1
  ring

theorem constant_variance (m : ℕ) (c : ℝ) : Spec.variance (List.replicate m c) = 0 := by
  by_cases hm : m = 0
  · subst hm; simp [Spec.variance, Spec.sumSqDev]
  have hmr : (m : ℝ) ≠ 0 := by exact_mod_cast hm
  have hmean : Spec.mean (List.replicate m c) = c := by
    rw [Spec.mean]; simp only [List.sum_replicate, List.length_replicate, nsmul_eq_mul]
    field_simp
  rw [Spec.variance, Spec.sumSqDev, hmean]
  simp

theorem pairMeans_alternating_one :
    pairMeans (alternating 1) = List.replicate 4 (1 / 2 : ℝ) := by
  norm_num [alternating, pairMeans, List.replicate_succ]

theorem groupMeans_alternating_const (j : ℕ) :
    Spec.groupMeans (2 ^ (j + 1)) (alternating (2 ^ j)) = List.replicate 4 (1 / 2 : ℝ) ∧
    Spec.groupMeans (2 ^ (j + 2)) (alternating (2 ^ j)) = List.replicate 2 (1 / 2 : ℝ) ∧
    Spec.groupMeans (2 ^ (j + 3)) (alternating (2 ^ j)) = List.replicate 1 (1 / 2 : ℝ) := by
  have h21 := groupMeans_alternating j j le_rfl
  rw [← pairMeans_iter] at h21
  have h22 : pairMeans^[j + 1] (alternating (2 ^ j)) = List.replicate (2 * 2) (1 / 2 : ℝ) := by
    rw [Function.iterate_succ_apply', h21, Nat.sub_self, pow_zero, pairMeans_alternating_one]
  have h23 : pairMeans^[j + 2] (alternating (2 ^ j)) = List.replicate (2 * 1) (1 / 2 : ℝ) := by
    rw [Function.iterate_succ_apply', h22, pairMeans_replicate]
  have h24 : pairMeans^[j + 3] (alternating (2 ^ j)) = List.replicate 1 (1 / 2 : ℝ) := by
    rw [Function.iterate_succ_apply', h23, pairMeans_replicate]
  rw [← pairMeans_iter, ← pairMeans_iter, ← pairMeans_iter]
  exact ⟨h22, h23, h24⟩

theorem hist_feedD (xs : List ℝ) : Hist (feedD xs) := by
  induction xs using List.reverseRecOn with
  | nil => exact .init
  | append_singleton xs x ih => rw [feedD_append_singleton]; exact .add x ih

theorem witness_data : ∃ xs : List ℝ, xs.length = 2 ^ 24 ∧
    (∀ k ≤ 21, Spec.groupMeans (2 ^ k) xs = alternating (2 ^ (21 - k))) ∧
    Spec.groupMeans (2 ^ 22) xs = List.replicate 4 (1 / 2 : ℝ) ∧
    Spec.groupMeans (2 ^ 24) xs = List.replicate 1 (1 / 2 : ℝ) := by
  obtain ⟨j, hj⟩ : ∃ j : ℕ, j = 21 := ⟨_, rfl⟩
  refine ⟨alternating (2 ^ j), ?_, ?_, ?_, ?_⟩
  · rw [alternating_length, hj]; norm_num
  · intro k hk; rw [← hj] at hk ⊢; exact groupMeans_alternating j k hk
  · have := (groupMeans_alternating_const j).1
    rwa [show j + 1 = 22 by omega] at this
  · have := (groupMeans_alternating_const j).2.2
    rwa [show j + 3 = 24 by omega] at this


theorem cppUnfold {d rest : CppDDDA ℝ} {b : CppOTFS ℝ} {w : Option ℝ} {n m : ℕ} {se0 : ℝ}
    (hc : d = (b, w) :: rest) (hn : b.getSampleSize = n) (h2 : 2 ≤ n)
    (hse : cppStandardError b = se0) (hne : se0 ≠ 0) (hl : d.length = m + 1) :
    cppGetOptimalBlockID d = (List.range (m + 1)).reverse.foldlM (cppOptimalStep d n se0) m := by
  subst hc
  have h3 : ¬ n < 2 := by omega
  have h4 : rest.length = m := by simpa using hl
  simp only [cppGetOptimalBlockID, hn, h3, if_false, hse, hne]
  simp [h4]

theorem foldlM_range_succ (f : ℕ → ℕ → Option ℕ) (m o : ℕ) :
    (List.range (m + 1)).reverse.foldlM f o = (f o m).bind fun o => (List.range m).reverse.foldlM f o := by
  rw [List.range_succ, List.reverse_append, List.reverse_singleton, List.singleton_append,
    List.foldlM_cons]
  rfl

/-- The claim that C++ and Python choose the same block is false in general: for the `2 ^ 24` data
consisting of alternating runs of `2 ^ 21` zeros and ones, Python chooses block 22 and C++ block 23,
because the cube of the block size does not fit into 64 bits from block 22 on. -/
theorem C51_optimalBlock_violated :
    ∃ xs : List ℝ, xs.length = 2 ^ 24 ∧ getOptimalBlockID (feedD xs) = .ok 22 ∧
      cppGetOptimalBlockID (xs.foldl cppAddDatum cppInit) = some 23 := by
  obtain ⟨xs, hlen, hg, hg22, hg24⟩ := witness_data
  refine ⟨xs, hlen, ?_⟩
  have hn : getSampleSize (feedD xs) = .ok (2 ^ 24) := by rw [(C05_size_mean xs).1, hlen]
  -- standard errors
  have hse : ∀ k ≤ 21, getBlockStandardErrorOfTheMean (feedD xs) k =
      .ok (Real.sqrt (1 / (4 * (2 ^ (24 - k) - 1)))) := by
    intro k hk
    have hk' : 2 * 2 ^ k ≤ xs.length := by
      rw [hlen, ← pow_succ']; exact Nat.pow_le_pow_right (by norm_num) (by omega)
    rw [C05_blockStandardError xs k hk', hg k hk, alternating_variance _ (by positivity), hlen,
      Nat.pow_div (by omega) (by norm_num)]
    congr 2
    have e : (2 : ℝ) ^ (24 - k) = 8 * 2 ^ (21 - k) := by
      rw [show 24 - k = 21 - k + 3 by omega, pow_add]; norm_num; ring
    push_cast
    rw [e]
    have hp : (0 : ℝ) < 2 ^ (21 - k) := by positivity
    have hp1 : (1 : ℝ) ≤ 2 ^ (21 - k) := one_le_pow₀ (by norm_num)
    have : (8 : ℝ) * 2 ^ (21 - k) - 1 ≠ 0 := by intro h; linarith
    field_simp; ring
  have hse22 : getBlockStandardErrorOfTheMean (feedD xs) 22 = .ok 0 := by
    rw [C05_blockStandardError xs 22 (by rw [hlen]; norm_num), hg22, constant_variance]; simp
  set se0 := Real.sqrt (1 / (4 * (2 ^ (24 - 0) - 1) : ℝ)) with hse0
  have h0 : getBlockStandardErrorOfTheMean (feedD xs) 0 = .ok se0 := hse 0 (by norm_num)
  have hse0pos : 0 < se0 := by rw [hse0]; apply Real.sqrt_pos.mpr; norm_num
  have hnot : ∀ k ≤ 21, ¬ Criterion (feedD xs) k := by
    rintro k hk ⟨n, se, se0', h1, h2, h3, h4⟩
    rw [hn] at h1; rw [hse k hk] at h2; rw [h0] at h3
    obtain rfl := Except.ok.inj h1
    obtain rfl := Except.ok.inj h2
    obtain rfl := Except.ok.inj h3
    have hp1 : (8 : ℝ) ≤ 2 ^ (24 - k) := by
      calc (8 : ℝ) = 2 ^ 3 := by norm_num
        _ ≤ _ := pow_le_pow_right₀ (by norm_num) (by omega)
    have hsq : (Real.sqrt (1 / (4 * (2 ^ (24 - k) - 1))) / se0) ^ 4 =
        ((2 ^ 24 - 1) / (2 ^ (24 - k) - 1)) ^ 2 := by
      have a1 : (Real.sqrt (1 / (4 * (2 ^ (24 - k) - 1) : ℝ))) ^ 2 = 1 / (4 * (2 ^ (24 - k) - 1)) :=
        Real.sq_sqrt (by apply div_nonneg <;> linarith)
      have a2 : se0 ^ 2 = 1 / (4 * (2 ^ 24 - 1)) := by
        rw [hse0]; exact Real.sq_sqrt (by norm_num)
      have : ∀ a b : ℝ, (a / b) ^ 4 = (a ^ 2 / b ^ 2) ^ 2 := by intro a b; ring
      rw [this, a1, a2]
      have : (2 : ℝ) ^ (24 - k) - 1 ≠ 0 := by intro h; linarith
      congr 1
      field_simp
    rw [hsq] at h4
    have hr : (2 : ℝ) ^ k ≤ (2 ^ 24 - 1) / (2 ^ (24 - k) - 1) := by
      rw [le_div_iff₀ (by linarith), mul_sub, ← pow_add, show k + (24 - k) = 24 by omega]
      have : (1 : ℝ) ≤ 2 ^ k := one_le_pow₀ (by norm_num)
      linarith
    have hk3 : (2 : ℝ) ^ k ≤ 2 ^ 21 := pow_le_pow_right₀ (by norm_num) hk
    have hpos : (0 : ℝ) < 2 ^ k := by positivity
    have hr2 : ((2 : ℝ) ^ k) ^ 2 ≤ ((2 ^ 24 - 1) / (2 ^ (24 - k) - 1)) ^ 2 :=
      pow_le_pow_left₀ hpos.le hr 2
    push_cast at h4
    have : ((2 : ℝ) ^ k) ^ 3 ≤ 2 * 2 ^ 24 * ((2 : ℝ) ^ k) ^ 2 := by
      have e : ((2 : ℝ) ^ k) ^ 3 = 2 ^ k * ((2 : ℝ) ^ k) ^ 2 := by ring
      rw [e]
      apply mul_le_mul_of_nonneg_right _ (by positivity)
      calc (2 : ℝ) ^ k ≤ 2 ^ 21 := hk3
        _ ≤ 2 * 2 ^ 24 := by norm_num
    have : 2 * 2 ^ 24 * ((2 : ℝ) ^ k) ^ 2 ≤
        2 * 2 ^ 24 * ((2 ^ 24 - 1) / (2 ^ (24 - k) - 1)) ^ 2 :=
      mul_le_mul_of_nonneg_left hr2 (by norm_num)
    linarith
  have hyes : Criterion (feedD xs) 22 := by
    refine ⟨2 ^ 24, 0, se0, hn, hse22, h0, ?_⟩
    norm_num
  have hist := hist_feedD xs
  constructor
  · obtain ⟨se0', h0', r, hr, -, -, hopt⟩ := C06_optimal hist _ hn (by norm_num)
    rw [h0] at h0'
    obtain rfl := Except.ok.inj h0'
    obtain ⟨-, h⟩ := hopt hse0pos.ne'
    rw [hr]
    rcases h with ⟨h1, h2⟩ | ⟨h1, -⟩
    · have : r = 22 := by
        rcases lt_trichotomy r 22 with h | h | h
        · exact absurd h1 (hnot r (by omega))
        · exact h
        · exact absurd hyes (h2 22 h)
      rw [this]; rfl
    · exact absurd hyes (h1 22)
  · have hfold : xs.foldl cppAddDatum cppInit = toCppD (feedD xs) := by
      clear * -
      induction xs using List.reverseRecOn with
      | nil => rfl
      | append_singleton xs x ih =>
        rw [List.foldl_append, ih, feedD_append_singleton]
        exact cppPushFrom_eq x _
    rw [hfold]
    obtain ⟨w0, rest, hcons⟩ := feedD_cons xs
    have hl : (feedD xs).length = 25 := by
      rw [feedD_length, hlen, Nat.log_pow (by norm_num)]
    have hblk : ∀ k ≤ 24, ∃ w, (feedD xs)[k]? = some (feed (Spec.groupMeans (2 ^ k) xs), w) := by
      intro k hk
      rw [feedD_getElem?, if_pos]
      · exact ⟨_, rfl⟩
      · right; rw [hlen]; exact Nat.pow_le_pow_right (by norm_num) hk
    have hbig : ∀ k ≤ 23, 2 ≤ (feed (Spec.groupMeans (2 ^ k) xs)).n := by
      intro k hk
      rw [feed_n, groupMeans_length, hlen, Nat.pow_div (by omega) (by norm_num)]
      calc 2 = 2 ^ 1 := by norm_num
        _ ≤ _ := Nat.pow_le_pow_right (by norm_num) (by omega)
    have hse0' : cppStandardError (toCpp (feed xs)) = se0 := by
      have h1 := cppStandardError_toCpp (b := feed xs) (by rw [feed_n, hlen]; norm_num)
      have hv0 : hasBlockVariance (feedD xs) 0 = .ok true := by
        rw [C05_hasBlockVariance, if_pos (Or.inl rfl), hlen]; simp
      have he : (feedD xs)[0]? = some (feed xs, w0) := by rw [hcons]; rfl
      simp only [getBlockStandardErrorOfTheMean, hv0, bind, Except.bind, not_true, if_false, he,
        h1] at h0
      exact Except.ok.inj h0
    have hstep24 : cppOptimalStep (toCppD (feedD xs)) (2 ^ 24) se0 24 24 = some 23 := by
      obtain ⟨w, hw⟩ := hblk 24 le_rfl
      unfold cppOptimalStep
      rw [toCppD_getElem?, hw, hg24]
      have hnb : ¬ 2 ≤ (toCpp (feed (List.replicate 1 (1 / 2 : ℝ)))).getSampleSize := by
        show ¬ 2 ≤ (feed (List.replicate 1 (1 / 2 : ℝ))).n
        rw [feed_n]; simp
      simp only [Option.map_some, hnb, not_false_eq_true, if_true]
      rw [if_pos (by simp [toCppD, hl])]
    have hwrap : ∀ k, 22 ≤ k → k ≤ 23 →
        cppOptimalStep (toCppD (feedD xs)) (2 ^ 24) se0 23 k = some 23 := by
      intro k hk1 hk2
      obtain ⟨w, hw⟩ := hblk k (by omega)
      unfold cppOptimalStep
      rw [toCppD_getElem?, hw]
      have hb : 2 ≤ (toCpp (feed (Spec.groupMeans (2 ^ k) xs))).getSampleSize := hbig k hk2
      have hcube : 2 ^ k % 2 ^ 64 * (2 ^ k % 2 ^ 64) * (2 ^ k % 2 ^ 64) % 2 ^ 64 = 0 := by
        have : k = 22 ∨ k = 23 := by omega
        rcases this with rfl | rfl <;> norm_num
      simp only [Option.map_some, hb, not_true, if_false, hcube]
      rw [if_neg]
      have hq : ∀ q : ℝ, 0 ≤ q * q * (q * q) := fun q => mul_self_nonneg _
      simp only [Nat.cast_zero, gt_iff_lt, not_lt]
      apply mul_nonneg (by positivity) (hq _)
    obtain ⟨r, hr, hcase⟩ := cppLoop_eq hn h0 22 le_rfl (fun k hk => by
      obtain ⟨w, hw⟩ := hblk k (by omega)
      exact ⟨_, w, hw, hbig k (by omega)⟩) 23
    have hr23 : r = 23 := by
      rcases hcase with ⟨h1, h2, -⟩ | ⟨h, -⟩
      · exact absurd h2 (hnot r (by omega))
      · exact h
    subst hr23
    have hc : toCppD (feedD xs) = (toCpp (feed xs), w0) :: toCppD rest := by rw [hcons]; rfl
    have hl' : (toCppD (feedD xs)).length = 24 + 1 := by simp [toCppD, hl]
    have hsz : (toCpp (feed xs)).getSampleSize = 2 ^ 24 := by
      show (feed xs).n = _
      rw [feed_n, hlen]
    rw [cppUnfold hc hsz (by norm_num) hse0' hse0pos.ne' hl', foldlM_range_succ, hstep24,
      Option.bind_some, foldlM_range_succ, hwrap 23 (by norm_num) (by norm_num), Option.bind_some,
      foldlM_range_succ, hwrap 22 (by norm_num) (by norm_num), Option.bind_some]
    exact hr

end OpenMPCD.DDDA
