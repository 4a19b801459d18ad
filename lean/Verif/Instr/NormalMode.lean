import Verif.Instr.Msd
import Verif.Util.Ranges
import Mathlib.Analysis.SpecialFunctions.Trigonometric.Basic
import Mathlib.Algebra.BigOperators.Ring.Finset

/-!
# Normal mode autocorrelation (C35, C66)

Real numbers, exact. Memory is a function from the index to the number stored.
-/

namespace OpenMPCD.Instr

open OpenMPCD.Ranges

/-- Memory. -/
abbrev Mem := ℕ → ℝ

/-- `RemotelyStoredVector` (`include/OpenMPCD/RemotelyStoredVector.hpp:26-40`): the vector at an index. -/
def vecAt (m : Mem) (i : ℕ) : Vec3 ℝ := ⟨m (3 * i), m (3 * i + 1), m (3 * i + 2)⟩

/-! ## Model -/

/-- `computeNormalCoordinate` (`include/OpenMPCD/CUDA/DeviceCode/ImplementationDetails/NormalMode.hpp:51-75`), for the
vectors from the index `base` on. -/
noncomputable def computeNormalCoordinate (i : ℕ) (vectors : Mem) (base N : ℕ) (shift : ℝ) : Vec3 ℝ :=
  let argPart : ℝ := (i : ℝ) / N
  let ret := (List.range N).foldl (fun ret n =>
    ret + Real.cos (argPart * ((n + 1 : ℕ) + shift) * Real.pi) • vecAt (fun k => vectors (base + k)) n) (0 : Vec3 ℝ)
  ⟨ret.x / N, ret.y / N, ret.z / N⟩

/-- The host version (`include/OpenMPCD/ImplementationDetails/NormalMode.hpp:21-41`). -/
noncomputable def hostNormalCoordinate (i : ℕ) (vectors : ℕ → Vec3 ℝ) (N : ℕ) (shift : ℝ) : Vec3 ℝ :=
  let argPart : ℝ := (i : ℝ) * Real.pi / N
  let ret := (List.range N).foldl (fun ret n =>
    ret + Real.cos (argPart * ((n + 1 : ℕ) + shift)) • vectors n) (0 : Vec3 ℝ)
  ⟨ret.x / N, ret.y / N, ret.z / N⟩

/-- The writes of the thread for one chain
(`include/OpenMPCD/CUDA/DeviceCode/ImplementationDetails/NormalMode.hpp:79-91,115-119`). -/
noncomputable def chainWrites (chainLength : ℕ) (positions : Mem) (shift : ℝ) (chain : ℕ) : List (ℕ × ℝ) :=
  (List.range (chainLength + 1)).flatMap fun i =>
    let r := computeNormalCoordinate i positions (3 * chain * chainLength) chainLength shift
    let a := 3 * chain * (chainLength + 1) + 3 * i
    [(a, r.x), (a + 1, r.y), (a + 2, r.z)]

/-- Executing writes one after the other. -/
def execWrites (m : Mem) (ws : List (ℕ × ℝ)) : Mem := ws.foldl (fun m w => Function.update m w.1 w.2) m

/-- The buffer after the kernel (`src/OpenMPCD/CUDA/NormalMode.cu:17-45`) has been run: the writes of all threads,
which are executed in any order (each chain's thread runs once, see C20), to a buffer with any content. -/
def IsKernelResult (chainLength chainCount : ℕ) (positions : Mem) (shift : ℝ) (result : Mem) : Prop :=
  ∃ (m : Mem) (ws : List (ℕ × ℝ)),
    ws.Perm ((List.range chainCount).flatMap (chainWrites chainLength positions shift)) ∧ result = execWrites m ws

/-- One turn of the loop in `getAverageNormalCoordinateAutocorrelation` (`src/OpenMPCD/CUDA/NormalMode.cu:48-98`). -/
noncomputable def autocorrelationOfMode (chainLength chainCount : ℕ) (modes0 modesT : Mem) (mode : ℕ) : ℝ :=
  let gapSize := 3 * chainLength
  let offset := 3 * mode
  let positions := bunchVisited 3 gapSize (3 * chainCount * (chainLength + 1) - offset)
  (positions.map fun p => modes0 (offset + p) * modesT (offset + p)).sum / chainCount

/-- `getAverageNormalCoordinateAutocorrelation` (`src/OpenMPCD/CUDA/NormalMode.cu:47-102`). -/
noncomputable def averageAutocorrelation (chainLength chainCount : ℕ) (modes0 modesT : Mem) : List ℝ :=
  (List.range (chainLength + 1)).map (autocorrelationOfMode chainLength chainCount modes0 modesT)

/-- The content of the file saved after a history of calls to `measure`, given the results of the kernel at each of
them, for the settings `measureEveryNthSweep` and `autocorrelationArgumentCount`. -/
noncomputable def nmaSaved (every argumentCount chainLength chainCount : ℕ) (garbage : ℕ → Mem) (calls : List Mem) :
    Option (List (ℕ × ℕ × List ℝ)) :=
  ((Ring.make garbage).run every argumentCount 0 (averageAutocorrelation chainLength chainCount) calls).save
    argumentCount 0

/-- The number of elements the memory of a snapshot has room for: `bufferElementCount`
(`src/OpenMPCD/CUDA/MPCFluid/Instrumentation/NormalModeAutocorrelation.cpp:52-54`), passed to the `DeviceBuffer`, which
multiplies it by the size of an element (`include/OpenMPCD/CUDA/ImplementationDetails/DeviceBuffer.hpp:18-28`) and
passes it as `unsigned int` (`include/OpenMPCD/CUDA/DeviceMemoryManager.hpp:154-164`) to a function that multiplies it
again (`include/OpenMPCD/CUDA/DeviceMemoryManager.hpp:119-127`). `size`: size of an element in bytes. -/
def allocatedElements (size chainLength chainCount : ℕ) : ℕ :=
  size * (chainCount * (chainLength + 1) % 2 ^ 32) % 2 ^ 32

/-! ## Specification -/

/-- The normal coordinate `i` of a chain of `N` particles, as documented (`include/OpenMPCD/NormalMode.hpp:17-29`). -/
noncomputable def normalCoordinate (r : ℕ → Vec3 ℝ) (N : ℕ) (shift : ℝ) (i : ℕ) : Vec3 ℝ :=
  ((1 : ℝ) / N) • ∑ n ∈ Finset.range N, Real.cos (i * Real.pi * ((n + 1 : ℕ) + shift) / N) • r n

/-- The particles of a chain. -/
def chainOf (chainLength : ℕ) (positions : Mem) (chain : ℕ) : ℕ → Vec3 ℝ :=
  fun n => vecAt positions (chain * chainLength + n)

/-- The average over the chains of the products of the normal coordinates at two times. -/
noncomputable def averageProduct (chainLength chainCount : ℕ) (shift : ℝ) (p0 pT : Mem) (mode : ℕ) : ℝ :=
  (∑ c ∈ Finset.range chainCount,
    (normalCoordinate (chainOf chainLength p0 c) chainLength shift mode).dot
      (normalCoordinate (chainOf chainLength pT c) chainLength shift mode)) / chainCount

/-! ## Proofs -/

theorem foldl_add_eq_sum {M : Type} [AddCommMonoid M] (f : ℕ → M) (N : ℕ) :
    (List.range N).foldl (fun r n => r + f n) 0 = ∑ n ∈ Finset.range N, f n := by
  induction N with
  | zero => rfl
  | succ N ih => rw [List.range_succ, List.foldl_append, ih, Finset.sum_range_succ]; rfl

/-- C66: the kernel's function computes the normal coordinates. -/
theorem C66_coordinate (i : ℕ) (positions : Mem) (chain N : ℕ) (shift : ℝ) :
    computeNormalCoordinate i positions (3 * chain * N) N shift =
      normalCoordinate (chainOf N positions chain) N shift i := by
  unfold computeNormalCoordinate normalCoordinate
  dsimp only
  rw [foldl_add_eq_sum]
  have : ∀ n, Real.cos ((i : ℝ) / N * ((n + 1 : ℕ) + shift) * Real.pi) •
      vecAt (fun k => positions (3 * chain * N + k)) n =
      Real.cos (i * Real.pi * ((n + 1 : ℕ) + shift) / N) • chainOf N positions chain n := by
    intro n
    congr 1
    · congr 1
      ring
    · unfold chainOf vecAt
      have e : 3 * (chain * N + n) = 3 * chain * N + 3 * n := by ring
      rw [e]
      rfl
  simp only [this]
  ext <;> simp [div_eq_mul_inv]

/-- C66: the host version computes the normal coordinates, too. -/
theorem C66_host (i : ℕ) (r : ℕ → Vec3 ℝ) (N : ℕ) (shift : ℝ) :
    hostNormalCoordinate i r N shift = normalCoordinate r N shift i := by
  unfold hostNormalCoordinate normalCoordinate
  dsimp only
  rw [foldl_add_eq_sum]
  have : ∀ n, Real.cos ((i : ℝ) * Real.pi / N * ((n + 1 : ℕ) + shift)) • r n =
      Real.cos (i * Real.pi * ((n + 1 : ℕ) + shift) / N) • r n := by
    intro n
    congr 2
    ring
  simp only [this]
  ext <;> simp [div_eq_mul_inv]

/-- If all writes to an address write the same value, and there is one, that value is there afterwards. -/
theorem execWrites_eq {ws : List (ℕ × ℝ)} {a : ℕ} {v : ℝ} (h : (a, v) ∈ ws) (hu : ∀ w, (a, w) ∈ ws → w = v)
    (m : Mem) : execWrites m ws a = v := by
  induction ws using List.reverseRecOn with
  | nil => simp at h
  | append_singleton ws w ih =>
    unfold execWrites at *
    rw [List.foldl_append, List.foldl_cons, List.foldl_nil]
    by_cases hw : w.1 = a
    · rw [← hw, Function.update_self]
      apply hu
      simp [← hw]
    · rw [Function.update_of_ne (Ne.symm hw)]
      apply ih
      · rcases List.mem_append.1 h with h | h
        · exact h
        · rw [List.mem_singleton] at h
          exact absurd (by rw [← h]) hw
      · intro x hx
        exact hu x (List.mem_append_left _ hx)

theorem mem_chainWrites {L : ℕ} {positions : Mem} {shift : ℝ} {chain a : ℕ} {v : ℝ} :
    (a, v) ∈ chainWrites L positions shift chain ↔
      ∃ i ≤ L, (a = 3 * chain * (L + 1) + 3 * i ∧
          v = (normalCoordinate (chainOf L positions chain) L shift i).x) ∨
        (a = 3 * chain * (L + 1) + 3 * i + 1 ∧ v = (normalCoordinate (chainOf L positions chain) L shift i).y) ∨
        (a = 3 * chain * (L + 1) + 3 * i + 2 ∧ v = (normalCoordinate (chainOf L positions chain) L shift i).z) := by
  unfold chainWrites
  simp only [List.mem_flatMap, List.mem_range, C66_coordinate, List.mem_cons, Prod.mk.injEq, List.not_mem_nil, or_false,
    Nat.lt_succ_iff]

/-- Equal addresses belong to equal chains and modes. -/
theorem address_inj {L c c' i i' k k' : ℕ} (hi : i ≤ L) (hi' : i' ≤ L) (hk : k < 3) (hk' : k' < 3)
    (h : 3 * c * (L + 1) + 3 * i + k = 3 * c' * (L + 1) + 3 * i' + k') : c = c' ∧ i = i' ∧ k = k' := by
  have e : ∀ c i k, 3 * c * (L + 1) + 3 * i + k = k + 3 * (i + (L + 1) * c) := by intros; ring
  rw [e, e] at h
  have h1 := congrArg (· % 3) h
  have h2 := congrArg (· / 3) h
  simp only [Nat.add_mul_mod_self_left, Nat.mod_eq_of_lt hk, Nat.mod_eq_of_lt hk'] at h1
  simp only [Nat.add_mul_div_left _ _ (by norm_num : 0 < 3), Nat.div_eq_of_lt hk, Nat.div_eq_of_lt hk',
    Nat.zero_add] at h2
  have h3 := congrArg (· % (L + 1)) h2
  have h4 := congrArg (· / (L + 1)) h2
  simp only [Nat.add_mul_mod_self_left, Nat.mod_eq_of_lt (Nat.lt_succ_of_le hi),
    Nat.mod_eq_of_lt (Nat.lt_succ_of_le hi')] at h3
  simp only [Nat.add_mul_div_left _ _ (Nat.succ_pos L), Nat.div_eq_of_lt (Nat.lt_succ_of_le hi),
    Nat.div_eq_of_lt (Nat.lt_succ_of_le hi'), Nat.zero_add] at h4
  exact ⟨h4, h3, h1⟩

/-- C66: after the kernel, the buffer contains the normal coordinates of all chains, in any order of execution. -/
theorem C66_kernel {L C : ℕ} {positions : Mem} {shift : ℝ} {result : Mem}
    (h : IsKernelResult L C positions shift result) {c i : ℕ} (hc : c < C) (hi : i ≤ L) :
    vecAt result (c * (L + 1) + i) = normalCoordinate (chainOf L positions c) L shift i := by
  obtain ⟨m, ws, hperm, rfl⟩ := h
  have e : 3 * (c * (L + 1) + i) = 3 * c * (L + 1) + 3 * i := by ring
  have mem : ∀ {a v}, (a, v) ∈ ws ↔ ∃ c < C, (a, v) ∈ chainWrites L positions shift c := by
    intro a v
    rw [hperm.mem_iff, List.mem_flatMap]
    simp only [List.mem_range]
  unfold vecAt
  rw [e]
  ext
  · refine execWrites_eq (mem.2 ⟨c, hc, mem_chainWrites.2 ⟨i, hi, .inl ⟨rfl, rfl⟩⟩⟩) (fun w hw => ?_) m
    obtain ⟨c', -, hw⟩ := mem.1 hw
    obtain ⟨i', hi', ⟨ha, rfl⟩ | ⟨ha, rfl⟩ | ⟨ha, rfl⟩⟩ := mem_chainWrites.1 hw
    · obtain ⟨rfl, rfl, -⟩ := address_inj (k := 0) (k' := 0) hi hi' (by norm_num) (by norm_num) ha
      rfl
    · exact absurd (address_inj (k := 0) (k' := 1) hi hi' (by norm_num) (by norm_num) ha).2.2 (by norm_num)
    · exact absurd (address_inj (k := 0) (k' := 2) hi hi' (by norm_num) (by norm_num) ha).2.2 (by norm_num)
  · refine execWrites_eq (mem.2 ⟨c, hc, mem_chainWrites.2 ⟨i, hi, .inr (.inl ⟨rfl, rfl⟩)⟩⟩) (fun w hw => ?_) m
    obtain ⟨c', -, hw⟩ := mem.1 hw
    obtain ⟨i', hi', ⟨ha, rfl⟩ | ⟨ha, rfl⟩ | ⟨ha, rfl⟩⟩ := mem_chainWrites.1 hw
    · exact absurd (address_inj (k := 1) (k' := 0) hi hi' (by norm_num) (by norm_num) ha).2.2 (by norm_num)
    · obtain ⟨rfl, rfl, -⟩ := address_inj (k := 1) (k' := 1) hi hi' (by norm_num) (by norm_num) ha
      rfl
    · exact absurd (address_inj (k := 1) (k' := 2) hi hi' (by norm_num) (by norm_num) ha).2.2 (by norm_num)
  · refine execWrites_eq (mem.2 ⟨c, hc, mem_chainWrites.2 ⟨i, hi, .inr (.inr ⟨rfl, rfl⟩)⟩⟩) (fun w hw => ?_) m
    obtain ⟨c', -, hw⟩ := mem.1 hw
    obtain ⟨i', hi', ⟨ha, rfl⟩ | ⟨ha, rfl⟩ | ⟨ha, rfl⟩⟩ := mem_chainWrites.1 hw
    · exact absurd (address_inj (k := 2) (k' := 0) hi hi' (by norm_num) (by norm_num) ha).2.2 (by norm_num)
    · exact absurd (address_inj (k := 2) (k' := 1) hi hi' (by norm_num) (by norm_num) ha).2.2 (by norm_num)
    · obtain ⟨rfl, rfl, -⟩ := address_inj (k := 2) (k' := 2) hi hi' (by norm_num) (by norm_num) ha
      rfl

/-- C66: no memory outside of the documented size is written. -/
theorem C66_kernel_bounds {L C : ℕ} {positions : Mem} {shift : ℝ} {a : ℕ} {v : ℝ}
    (h : (a, v) ∈ (List.range C).flatMap (chainWrites L positions shift)) : a < 3 * C * (L + 1) := by
  rw [List.mem_flatMap] at h
  obtain ⟨c, hc, h⟩ := h
  obtain ⟨i, hi, h⟩ := mem_chainWrites.1 h
  have hc := List.mem_range.1 hc
  have h1 : 3 * c * (L + 1) + 3 * (L + 1) ≤ 3 * C * (L + 1) := by
    have : (c + 1) * (3 * (L + 1)) ≤ C * (3 * (L + 1)) := Nat.mul_le_mul_right _ hc
    calc 3 * c * (L + 1) + 3 * (L + 1) = (c + 1) * (3 * (L + 1)) := by ring
      _ ≤ C * (3 * (L + 1)) := this
      _ = _ := by ring
  omega

theorem sum_bunch (L C mode : ℕ) (hm : mode ≤ L) (h : 3 * C * (L + 1) ≤ 2 ^ 32) (g : ℕ → ℝ) :
    ((bunchVisited 3 (3 * L) (3 * C * (L + 1) - 3 * mode)).map g).sum =
      ∑ c ∈ Finset.range C, (g (3 * c * (L + 1)) + g (3 * c * (L + 1) + 1) + g (3 * c * (L + 1) + 2)) := by
  rw [C37_bunch_partial (by norm_num) (by norm_num) (by omega)]
  have hsum : ((bunchSpec 3 (3 * L) (3 * C * (L + 1) - 3 * mode)).map g).sum =
      ∑ p ∈ (Finset.range (3 * C * (L + 1) - 3 * mode)).filter (fun p => p % (3 + 3 * L) < 3), g p := by
    have hn : (bunchSpec 3 (3 * L) (3 * C * (L + 1) - 3 * mode)).Nodup := List.nodup_range.filter _
    rw [← List.sum_toFinset _ hn]
    congr 1
    ext p
    simp [bunchSpec]
  have hrhs : ∑ c ∈ Finset.range C, (g (3 * c * (L + 1)) + g (3 * c * (L + 1) + 1) + g (3 * c * (L + 1) + 2)) =
      ∑ q ∈ Finset.range C ×ˢ Finset.range 3, g (3 * q.1 * (L + 1) + q.2) := by
    rw [Finset.sum_product]
    refine Finset.sum_congr rfl fun c _ => ?_
    simp [Finset.sum_range_succ]
  rw [hsum, hrhs]
  symm
  refine Finset.sum_nbij (fun q => 3 * q.1 * (L + 1) + q.2) ?_ ?_ ?_ fun _ _ => rfl
  · rintro ⟨c, k⟩ hq
    rw [Finset.mem_product, Finset.mem_range, Finset.mem_range] at hq
    obtain ⟨hc, hk⟩ := hq
    dsimp only at hc hk ⊢
    rw [Finset.mem_filter, Finset.mem_range]
    have h1 : 3 * c * (L + 1) + 3 * (L + 1) ≤ 3 * C * (L + 1) := by
      have : (c + 1) * (3 * (L + 1)) ≤ C * (3 * (L + 1)) := Nat.mul_le_mul_right _ hc
      calc 3 * c * (L + 1) + 3 * (L + 1) = (c + 1) * (3 * (L + 1)) := by ring
        _ ≤ C * (3 * (L + 1)) := this
        _ = _ := by ring
    refine ⟨by omega, ?_⟩
    have e : 3 * c * (L + 1) + k = k + (3 + 3 * L) * c := by ring
    rw [e, Nat.add_mul_mod_self_left, Nat.mod_eq_of_lt (by omega)]
    exact hk
  · rintro ⟨c, k⟩ hq ⟨c', k'⟩ hq' he
    simp only [Finset.coe_product, Set.mem_prod, Finset.mem_coe, Finset.mem_range] at hq hq'
    obtain ⟨rfl, -, rfl⟩ := address_inj (L := L) (i := 0) (i' := 0) (Nat.zero_le _) (Nat.zero_le _) hq.2 hq'.2
      (by simpa using he)
    rfl
  · intro p hp
    simp only [Finset.coe_filter, Finset.mem_range, Set.mem_ofPred_eq] at hp
    refine ⟨(p / (3 + 3 * L), p % (3 + 3 * L)), ?_, ?_⟩
    · simp only [Finset.coe_product, Set.mem_prod, Finset.mem_coe, Finset.mem_range]
      refine ⟨?_, hp.2⟩
      rw [Nat.div_lt_iff_lt_mul (by omega)]
      have e : 3 * C * (L + 1) = C * (3 + 3 * L) := by ring
      omega
    · have := Nat.mod_add_div p (3 + 3 * L)
      dsimp only
      calc 3 * (p / (3 + 3 * L)) * (L + 1) + p % (3 + 3 * L) = p % (3 + 3 * L) + (3 + 3 * L) * (p / (3 + 3 * L)) := by
            ring
        _ = p := this

/-- C66: the average autocorrelation is taken over the same mode of all chains. -/
theorem C66_average_partial {L C : ℕ} (h : 3 * C * (L + 1) ≤ 2 ^ 32) {p0 pT m0 mT : Mem} {shift : ℝ}
    (h0 : IsKernelResult L C p0 shift m0) (hT : IsKernelResult L C pT shift mT) :
    averageAutocorrelation L C m0 mT = (List.range (L + 1)).map (averageProduct L C shift p0 pT) := by
  unfold averageAutocorrelation
  apply List.map_congr_left
  intro mode hmode
  have hm : mode ≤ L := Nat.lt_succ_iff.1 (List.mem_range.1 hmode)
  unfold autocorrelationOfMode averageProduct
  dsimp only
  rw [sum_bunch L C mode hm h]
  congr 1
  refine Finset.sum_congr rfl fun c hc => ?_
  have hc := Finset.mem_range.1 hc
  rw [← C66_kernel h0 hc hm, ← C66_kernel hT hc hm]
  have e : 3 * (c * (L + 1) + mode) = 3 * mode + 3 * c * (L + 1) := by ring
  simp only [vecAt, Vec3.dot, e, Nat.add_assoc]

/-- C35. Every pair of a measurement and a later or the same one, with a lag less than the number configured, is
contained exactly once, ordered by start and lag, along with what has been computed from the buffers as they were filled
at these two measurements, whatever the buffers contained at first. Measurements are made at the first call and every
`every`-th one after that. -/
theorem C35 {every : ℕ} (he : 0 < every) (argumentCount L C : ℕ) (garbage : ℕ → Mem) (calls : List Mem) :
    ∃ lines, nmaSaved every argumentCount L C garbage calls = some lines ∧
      lines.map (fun l => (l.1, l.2.1)) = pairs argumentCount 0 (everyNth every calls).length ∧
      ∀ t d x, (t, d, x) ∈ lines → ∃ a b, calls[t * every]? = some a ∧ calls[(t + d) * every]? = some b ∧
        x = averageAutocorrelation L C a b := by
  obtain ⟨lines, h1, h2, h3⟩ := ring_save he argumentCount 0 (averageAutocorrelation L C) garbage calls
  refine ⟨lines, h1, h2, fun t d x hx => ?_⟩
  obtain ⟨a, b, ha, hb, hx⟩ := h3 t d x hx
  rw [C34_everyNth he] at ha hb
  exact ⟨a, b, ha, hb, hx⟩

/-- C66: the file saved. Every pair of a measurement and a later or the same one, with a lag less than the number configured, is
contained exactly once, ordered by start and lag, along with, for each normal mode, the average product of the normal
coordinates at these two measurements. Measurements are made at the first call and every `every`-th one after that.
Proved for less than `2 ^ 32` normal coordinate components. -/
theorem C66_saved_partial {every : ℕ} (he : 0 < every) {argumentCount : ℕ} (L C : ℕ) (h : 3 * C * (L + 1) ≤ 2 ^ 32)
    (shift : ℝ) (garbage : ℕ → Mem) (calls : List (Mem × Mem))
    (hcalls : ∀ c ∈ calls, IsKernelResult L C c.1 shift c.2) :
    ∃ lines, nmaSaved every argumentCount L C garbage (calls.map Prod.snd) = some lines ∧
      lines.map (fun l => (l.1, l.2.1)) = pairs argumentCount 0 (everyNth every calls).length ∧
      ∀ t d x, (t, d, x) ∈ lines → ∃ a b, (everyNth every calls)[t]? = some a ∧
        (everyNth every calls)[t + d]? = some b ∧
        x = (List.range (L + 1)).map (averageProduct L C shift a.1 b.1) := by
  obtain ⟨lines, h1, h2, h3⟩ :=
    ring_save he argumentCount 0 (averageAutocorrelation L C) garbage (calls.map Prod.snd)
  have hev : everyNth every (calls.map Prod.snd) = (everyNth every calls).map Prod.snd := by
    apply List.ext_getElem?
    intro i
    rw [C34_everyNth he, List.getElem?_map, List.getElem?_map, C34_everyNth he]
  refine ⟨lines, h1, by rw [h2, hev, List.length_map], fun t d x hx => ?_⟩
  obtain ⟨a, b, ha, hb, rfl⟩ := h3 t d x hx
  rw [hev, List.getElem?_map, Option.map_eq_some_iff] at ha hb
  obtain ⟨a', ha, rfl⟩ := ha
  obtain ⟨b', hb, rfl⟩ := hb
  refine ⟨a', b', ha, hb, C66_average_partial h (hcalls a' ?_) (hcalls b' ?_)⟩
  · rw [C34_everyNth he] at ha
    exact List.mem_of_getElem? ha
  · rw [C34_everyNth he] at hb
    exact List.mem_of_getElem? hb

/-- C66: the memory of a snapshot is large enough, if there are less than `2 ^ 29` normal coordinates and elements have
at least three and at most eight bytes. (The number of elements asked for lacks a factor of three; it is made up for by
the size of an element being applied twice.) -/
theorem C66_memory_partial {size L C : ℕ} (hs : 3 ≤ size) (hs' : size ≤ 8) (h : C * (L + 1) < 2 ^ 29) :
    3 * C * (L + 1) ≤ allocatedElements size L C := by
  unfold allocatedElements
  rw [Nat.mod_eq_of_lt (a := C * (L + 1)) (by omega), Nat.mod_eq_of_lt, Nat.mul_assoc]
  · exact Nat.mul_le_mul_right _ hs
  · calc size * (C * (L + 1)) ≤ 8 * (C * (L + 1)) := Nat.mul_le_mul_right _ hs'
      _ < 2 ^ 32 := by omega

/-- C66 fails for larger systems: no memory is allocated. -/
theorem C66_memory_violated : ∃ L C, 0 < L ∧ 0 < C ∧ 3 * C * (L + 1) ≤ 2 ^ 32 ∧ allocatedElements 8 L C = 0 :=
  ⟨1, 2 ^ 28, by norm_num, by norm_num, by norm_num, by norm_num [allocatedElements]⟩

/-- There are kernel results. -/
example (L C : ℕ) (positions : Mem) (shift : ℝ) : ∃ m, IsKernelResult L C positions shift m :=
  ⟨_, fun _ => 0, _, List.Perm.refl _, rfl⟩

end OpenMPCD.Instr
