import Verif.Collide.Rounded
import Verif.Instr.VelAuto
import Mathlib.Algebra.Order.Round

/-!
# Simulation time in floating-point arithmetic (C123)

The simulation time is accumulated, one time step at a time, and every addition rounds.
-/

set_option linter.unusedSectionVars false
set_option linter.unusedSimpArgs false
set_option linter.unusedVariables false

namespace OpenMPCD.Time

open OpenMPCD.Decimal OpenMPCD.Collide.Rounded OpenMPCD.Instr

/-! ## Model -/

/-- `mpcTime` after a number of calls to `stream`: it is initialized with `0` (`src/OpenMPCD/CUDA/Simulation.cu:26,38`), and
each call does `mpcTime += mpcTimestep` (`src/OpenMPCD/CUDA/Simulation.cu:270`). -/
def time (rnd : ℝ → ℝ) (mpcTimestep : ℝ) : ℕ → ℝ
  | 0 => 0
  | n + 1 => rnd (time rnd mpcTimestep n + mpcTimestep)

/-- `deltaT + 1e-6 > snapshotSeparation`
(`src/OpenMPCD/CUDA/MPCFluid/Instrumentation/VelocityAutocorrelation/Base.cu:161-166`). `tol`: the number nearest `1e-6`. -/
def begins (rnd : ℝ → ℝ) (tol snapshotSeparation now previous : ℝ) : Prop :=
  rnd (rnd (now - previous) + tol) > snapshotSeparation

/-- `mpcTime - snapshot->getSnapshotTime() - 1e-6 > measurementTime`
(`src/OpenMPCD/CUDA/MPCFluid/Instrumentation/VelocityAutocorrelation/Base.cu:124`). -/
def ends (rnd : ℝ → ℝ) (tol measurementTime now taken : ℝ) : Prop :=
  rnd (rnd (now - taken) - tol) > measurementTime

section
variable {D : Type}

open Classical in
/-- `initializeSnapshotIfAppropriate` (`src/OpenMPCD/CUDA/MPCFluid/Instrumentation/VelocityAutocorrelation/Base.cu:143-173`),
as in `Instr.initSlot`, but with rounding. -/
noncomputable def initSlot (rnd : ℝ → ℝ) (tol measurementTime : ℝ) (count : ℕ) (new : Slot ℝ D) (previous : Option ℝ)
    (s : Slot ℝ D) : Bool × Slot ℝ D :=
  if s.time ≥ 0 then (true, s)
  else
    match previous with
    | none => (true, new)
    | some p =>
      if p < 0 then (false, s)
      else if begins rnd tol (rnd (measurementTime / count)) new.time p then (true, new)
      else (false, s)

open Classical in
/-- The loop in `updateSnapshots` (`src/OpenMPCD/CUDA/MPCFluid/Instrumentation/VelocityAutocorrelation/Base.cu:113-127`), as in
`Instr.updateLoop`, but with rounding. -/
noncomputable def updateLoop (rnd : ℝ → ℝ) (tol measurementTime : ℝ) (count : ℕ) (new : Slot ℝ D) (previous : Option ℝ) :
    List (Slot ℝ D) → List (Slot ℝ D)
  | [] => []
  | s :: rest =>
    if (initSlot rnd tol measurementTime count new previous s).1 then
      if ends rnd tol measurementTime new.time (initSlot rnd tol measurementTime count new previous s).2.time then
        new :: updateLoop rnd tol measurementTime count new (some new.time) rest
      else
        (initSlot rnd tol measurementTime count new previous s).2 ::
          updateLoop rnd tol measurementTime count new
            (some (initSlot rnd tol measurementTime count new previous s).2.time) rest
    else (initSlot rnd tol measurementTime count new previous s).2 :: rest

open Classical in
/-- `measure` (`src/OpenMPCD/CUDA/MPCFluid/Instrumentation/VelocityAutocorrelation/Base.cu:60-71,175-192`), as in
`Instr.VA.measure`, but with rounding of the times. -/
noncomputable def measure {R : Type} (rnd : ℝ → ℝ) (tol measurementTime : ℝ) (f : D → D → R) (va : VA ℝ D R)
    (new : Slot ℝ D) : VA ℝ D R :=
  ⟨updateLoop rnd tol measurementTime va.slots.length new none va.slots,
    va.records ++ ((updateLoop rnd tol measurementTime va.slots.length new none va.slots).filter fun s => s.time ≥ 0).map
      fun s => (s.time, new.time, f s.data new.data)⟩

/-! ## Specification -/

/-- The snapshots by the number of the sweep they were taken at: the first is taken at once; the next ones when at least
`separation` sweeps have passed since the one before it has been taken; and they are overridden when more than `length` sweeps
old. -/
def sweeps (separation length now : ℕ) (previous : Option ℕ) : List (Option ℕ) → List (Option ℕ)
  | [] => []
  | some taken :: rest =>
    if length < now - taken then some now :: sweeps separation length now (some now) rest
    else some taken :: sweeps separation length now (some taken) rest
  | none :: rest =>
    match previous with
    | none => some now :: sweeps separation length now (some now) rest
    | some p => if separation ≤ now - p then some now :: sweeps separation length now (some now) rest else none :: rest

/-- The snapshots after measurements at given sweeps. -/
def history (separation length count : ℕ) (calls : List ℕ) : List (Option ℕ) :=
  calls.foldl (fun slots now => sweeps separation length now none slots) (List.replicate count none)

/-- The pairs of sweeps of which the correlations are recorded. -/
def pairs (separation length count : ℕ) (calls : List ℕ) : List (ℕ × ℕ) :=
  (List.range calls.length).flatMap fun i =>
    (history separation length count (calls.take (i + 1))).filterMap fun s => s.map fun taken => (taken, calls.getD i 0)

end

/-! ## The error of one addition -/

variable {p : ℕ} {emin emax : ℤ} {rnd : ℝ → ℝ}

theorem normal_error (hp : 0 < p) (hr : IsRounding p emin emax rnd) {x : ℝ} {k : ℤ} (h1 : (2 : ℝ) ^ k ≤ |x|)
    (h2 : |x| < 2 ^ (k + 1)) (h3 : emin ≤ k - p + 1) (h4 : k + 1 ≤ emax) : |rnd x - x| ≤ 2 ^ (-(p : ℤ)) * |x| := by
  have hu := two_zpow_pos (k - p + 1)
  set e : ℤ := k - p + 1 with he
  have hround := abs_sub_round (x / 2 ^ e)
  have herr : |x - (round (x / 2 ^ e) : ℝ) * 2 ^ e| ≤ 2 ^ (k - p) := by
    have : x - (round (x / 2 ^ e) : ℝ) * 2 ^ e = (x / 2 ^ e - round (x / 2 ^ e)) * 2 ^ e := by field_simp
    rw [this, abs_mul, abs_of_pos hu]
    calc _ ≤ 1 / 2 * (2 : ℝ) ^ e := mul_le_mul_of_nonneg_right hround hu.le
      _ = 2 ^ (k - p) := by
        rw [he, zpow_add_one₀ (by norm_num)]; ring
  have hmem : (round (x / 2 ^ e) : ℝ) * 2 ^ e ∈ Bin p emin emax := by
    have hlt : |x / 2 ^ e| < 2 ^ p := by
      rw [abs_div, abs_of_pos hu, div_lt_iff₀ hu, ← zpow_natCast, ← zpow_add₀ (by norm_num)]
      exact h2.trans_eq (by congr 1; omega)
    have hle : |round (x / 2 ^ e)| ≤ 2 ^ p := by
      have h5 : |(round (x / 2 ^ e) : ℝ)| < 2 ^ p + 1 := by
        have := abs_sub_abs_le_abs_sub (round (x / 2 ^ e) : ℝ) (x / 2 ^ e)
        rw [abs_sub_comm] at this
        linarith
      have h6 : |round (x / 2 ^ e)| < 2 ^ p + 1 := by
        rw [← Int.cast_abs] at h5; exact_mod_cast h5
      omega
    have h12 : (1 : ℤ) < 2 ^ p := one_lt_pow₀ (by norm_num) hp.ne'
    have hpe : (2 : ℝ) ^ p * 2 ^ e = 2 ^ (k + 1) := by
      rw [← zpow_natCast, ← zpow_add₀ (by norm_num)]; congr 1; omega
    rcases hle.lt_or_eq with h | h
    · exact ⟨_, e, h, h3, by omega, rfl⟩
    · rcases abs_choice (round (x / 2 ^ e)) with h' | h'
      · refine ⟨1, k + 1, by simpa using h12, by omega, h4, ?_⟩
        rw [show round (x / 2 ^ e) = 2 ^ p by rw [← h, h']]
        push_cast; rw [hpe]; ring
      · refine ⟨-1, k + 1, by simpa using h12, by omega, h4, ?_⟩
        rw [show round (x / 2 ^ e) = -2 ^ p by rw [← h, h']; ring]
        push_cast; rw [neg_mul, hpe]; ring
  rw [abs_sub_comm]
  refine ((hr x).2 _ hmem).trans (herr.trans ?_)
  calc (2 : ℝ) ^ (k - p) = 2 ^ (-(p : ℤ)) * 2 ^ k := by rw [← zpow_add₀ (by norm_num)]; congr 1; ring
    _ ≤ _ := mul_le_mul_of_nonneg_left h1 (two_zpow_pos _).le

theorem grid {a : ℝ} (ha : a ∈ Bin p emin emax) : ∃ m : ℤ, a = m * 2 ^ emin := by
  obtain ⟨m, e, -, h, -, rfl⟩ := ha
  obtain ⟨d, hd⟩ := Int.le.dest h
  refine ⟨m * 2 ^ d, ?_⟩
  rw [← hd, zpow_add₀ (by norm_num), zpow_natCast]; push_cast; ring

/-- Adding two floating-point numbers has a small relative error, even if the sum is tiny. -/
theorem add_error (hp : 0 < p) (hem : emin ≤ emax) (hr : IsRounding p emin emax rnd) {a b : ℝ} (ha : a ∈ Bin p emin emax)
    (hb : b ∈ Bin p emin emax) (h : |a + b| < 2 ^ emax) : |rnd (a + b) - (a + b)| ≤ 2 ^ (-(p : ℤ)) * |a + b| := by
  obtain ⟨m, hm⟩ := grid ha
  obtain ⟨m', hm'⟩ := grid hb
  have hs : a + b = ((m + m' : ℤ) : ℝ) * 2 ^ emin := by rw [hm, hm']; push_cast; ring
  by_cases hsmall : |m + m'| < 2 ^ p
  · rw [hr.eq_self (x := a + b) ⟨m + m', emin, hsmall, le_rfl, hem, hs⟩, sub_self, abs_zero]
    have := two_zpow_pos (-(p : ℤ))
    positivity
  · push Not at hsmall
    have habs : |a + b| = |((m + m' : ℤ) : ℝ)| * 2 ^ emin := by
      rw [hs, abs_mul, abs_of_pos (two_zpow_pos emin)]
    have hbig : (2 : ℝ) ^ ((p : ℤ) + emin) ≤ |a + b| := by
      rw [habs, zpow_add₀ (by norm_num), zpow_natCast]
      refine mul_le_mul_of_nonneg_right ?_ (two_zpow_pos _).le
      rw [← Int.cast_abs]; exact_mod_cast hsmall
    have hpos : 0 < |a + b| := (two_zpow_pos _).trans_le hbig
    obtain ⟨k, hk1, hk2⟩ := exists_mem_Ico_zpow hpos (by norm_num : (1 : ℝ) < 2)
    have e1 : (p : ℤ) + emin < k + 1 := (zpow_lt_zpow_iff_right₀ (by norm_num : (1 : ℝ) < 2)).1 (hbig.trans_lt hk2)
    have e2 : k < emax := (zpow_lt_zpow_iff_right₀ (by norm_num : (1 : ℝ) < 2)).1 (hk1.trans_lt h)
    exact normal_error hp hr hk1 hk2 (by omega) (by omega)

theorem neg_mem {a : ℝ} (ha : a ∈ Bin p emin emax) : -a ∈ Bin p emin emax := by
  obtain ⟨m, e, hm, h3, h4, rfl⟩ := ha
  exact ⟨-m, e, by rwa [abs_neg], h3, h4, by push_cast; ring⟩

/-! ## The time -/

theorem compound {u : ℝ} (hu : 0 ≤ u) (n : ℕ) (h : n * u ≤ 1) : (1 + u) ^ n - 1 ≤ 2 * (n * u) := by
  have h1 : (1 + u) ^ n ≤ Real.exp (n * u) := by
    rw [Real.exp_nat_mul]
    exact pow_le_pow_left₀ (by linarith) (by rw [add_comm]; exact Real.add_one_le_exp u) n
  have h2 : Real.exp (n * u) ≤ 1 + 2 * (n * u) := by
    have hx : 0 ≤ n * u := by positivity
    have := Real.abs_exp_sub_one_le (x := n * u) (by rwa [abs_of_nonneg hx])
    rw [abs_of_nonneg hx] at this
    have := (abs_le.1 this).2
    linarith
  linarith

section
variable (ht : Type_ p emin emax) (hr : IsRounding p emin emax rnd) {dt : ℝ} (hdt : dt ∈ Bin p emin emax) (hpos : 0 < dt)
include ht hr hdt hpos

theorem time_mem (n : ℕ) : time rnd dt n ∈ Bin p emin emax := by
  cases n with
  | zero => exact zero_mem (by have := ht.small; have := ht.large; omega)
  | succ n => exact hr.mem _

/-- Time does not go backwards. -/
theorem C123_monotone : Monotone (time rnd dt) :=
  monotone_nat_of_le_succ fun n => hr.ge_of_ge (time_mem ht hr hdt hpos n) (by linarith)

theorem time_nonneg (n : ℕ) : 0 ≤ time rnd dt n := C123_monotone ht hr hdt hpos (Nat.zero_le n)

theorem step_error {n : ℕ} (h : time rnd dt n + dt < 2 ^ emax) :
    |time rnd dt (n + 1) - (time rnd dt n + dt)| ≤ 2 ^ (-(p : ℤ)) * (time rnd dt n + dt) := by
  have h0 := time_nonneg ht hr hdt hpos n
  have h1 : |time rnd dt n + dt| = time rnd dt n + dt := abs_of_nonneg (by linarith)
  have := add_error ht.pos (by have := ht.small; have := ht.large; omega) hr (time_mem ht hr hdt hpos n) hdt (by rwa [h1])
  rwa [h1] at this

/-- The relative error of the time is that of one rounding, compounded. -/
theorem C123_error {n : ℕ} (hn : n * dt * (1 + 2 ^ (-(p : ℤ))) ^ n < 2 ^ emax) :
    |time rnd dt n - n * dt| ≤ n * dt * ((1 + 2 ^ (-(p : ℤ))) ^ n - 1) := by
  have hu := two_zpow_pos (-(p : ℤ))
  set u : ℝ := 2 ^ (-(p : ℤ)) with hudef
  have hu1 : u ≤ 1 := by
    rw [hudef]; exact zpow_le_one_of_nonpos₀ (by norm_num) (by omega)
  induction n with
  | zero => simp [time]
  | succ n ih =>
    have hpow1 : (1 : ℝ) ≤ (1 + u) ^ n := one_le_pow₀ (by linarith)
    have hpow2 : (1 + u) ^ n ≤ (1 + u) ^ (n + 1) := pow_le_pow_right₀ (by linarith) (by omega)
    have hn0 : (0 : ℝ) ≤ n := Nat.cast_nonneg n
    push_cast at hn ⊢
    have hle : n * dt * (1 + u) ^ n + dt ≤ (n + 1) * dt * (1 + u) ^ n := by nlinarith
    have hle2 : (n + 1) * dt * (1 + u) ^ n ≤ (n + 1) * dt * (1 + u) ^ (n + 1) :=
      mul_le_mul_of_nonneg_left hpow2 (by positivity)
    have ih' := ih (by nlinarith)
    have hup : time rnd dt n + dt ≤ (n + 1) * dt * (1 + u) ^ n := by
      have := (abs_le.1 ih').2
      nlinarith
    have hstep := step_error ht hr hdt hpos (n := n) (by linarith)
    rw [← hudef] at hstep
    have h1 : |time rnd dt (n + 1) - (n + 1) * dt| ≤ u * ((n + 1) * dt * (1 + u) ^ n) + n * dt * ((1 + u) ^ n - 1) := by
      have e : time rnd dt (n + 1) - (n + 1) * dt =
          (time rnd dt (n + 1) - (time rnd dt n + dt)) + (time rnd dt n - n * dt) := by ring
      rw [e]
      refine (abs_add_le _ _).trans (add_le_add (hstep.trans ?_) ih')
      exact mul_le_mul_of_nonneg_left hup hu.le
    refine h1.trans ?_
    have : (1 + u) ^ (n + 1) = (1 + u) ^ n + u * (1 + u) ^ n := by ring
    rw [this]
    nlinarith [mul_pos hpos hu]

/-- For `n` time steps the relative error is at most `2 n` times that of one rounding. -/
theorem C123_relative {n : ℕ} (hn : n * (2 : ℝ) ^ (-(p : ℤ)) ≤ 1) (hmax : 3 * (n * dt) < 2 ^ emax) :
    |time rnd dt n - n * dt| ≤ 2 * n * 2 ^ (-(p : ℤ)) * (n * dt) := by
  have hu := two_zpow_pos (-(p : ℤ))
  have hc := compound hu.le n hn
  have hnd : 0 ≤ n * dt := by positivity
  refine (C123_error ht hr hdt hpos (n := n) ?_).trans ?_
  · have : n * dt * (1 + 2 ^ (-(p : ℤ))) ^ n ≤ n * dt * 3 := mul_le_mul_of_nonneg_left (by linarith) hnd
    linarith
  · calc _ ≤ n * dt * (2 * (n * 2 ^ (-(p : ℤ)))) := mul_le_mul_of_nonneg_left hc hnd
      _ = _ := by ring

/-- The time is exact if the time step is a small integer times a power of two. -/
theorem C123_exact {m : ℤ} {e : ℤ} (hm : dt = m * 2 ^ e) (he : emin ≤ e) (he' : e + p ≤ emax) {n : ℕ}
    (hn : n * m ≤ 2 ^ p) : time rnd dt n = n * dt := by
  have h2 := two_zpow_pos e
  have hm0 : 0 < m := by
    have : (0 : ℝ) < m := pos_of_mul_pos_left (by rw [← hm]; exact hpos) h2.le
    exact_mod_cast this
  induction n with
  | zero => simp [time]
  | succ n ih =>
    have hn' : (n : ℤ) * m ≤ 2 ^ p := by push_cast at hn; nlinarith
    rw [time, ih hn']
    have : (n * dt + dt : ℝ) = ((n + 1 : ℕ) : ℝ) * dt := by push_cast; ring
    rw [this]
    apply hr.eq_self
    have h12 : (1 : ℤ) < 2 ^ p := one_lt_pow₀ (by norm_num) ht.pos.ne'
    rcases hn.lt_or_eq with h | h
    · refine ⟨(n + 1 : ℕ) * m, e, ?_, he, by omega, by rw [hm]; push_cast; ring⟩
      rw [abs_of_nonneg (by positivity)]; exact h
    · refine ⟨1, e + p, by simpa using h12, by omega, he', ?_⟩
      have h' : ((n + 1 : ℕ) : ℝ) * m = 2 ^ p := by exact_mod_cast h
      rw [hm, zpow_add₀ (by norm_num), zpow_natCast, ← mul_assoc, h']; push_cast; ring

/-- Every time step advances the time, until it is about `2^p` times the time step. -/
theorem C123_advances {n : ℕ} (hn : time rnd dt n < (2 ^ p - 1) * dt) (hmax : 2 ^ p * dt < 2 ^ emax) :
    time rnd dt n < time rnd dt (n + 1) := by
  have hu := two_zpow_pos (-(p : ℤ))
  have hpu : (2 : ℝ) ^ p * 2 ^ (-(p : ℤ)) = 1 := by
    rw [← zpow_natCast, ← zpow_add₀ (by norm_num)]; simp
  have hstep := step_error ht hr hdt hpos (n := n) (by linarith)
  have := (abs_le.1 hstep).1
  have h3 : time rnd dt n + dt < 2 ^ p * dt := by linarith
  have h4 : 2 ^ (-(p : ℤ)) * (time rnd dt n + dt) < 2 ^ (-(p : ℤ)) * (2 ^ p * dt) := mul_lt_mul_of_pos_left h3 hu
  have h5 : (2 : ℝ) ^ (-(p : ℤ)) * (2 ^ p * dt) = dt := by
    rw [← mul_assoc, mul_comm ((2 : ℝ) ^ (-(p : ℤ))), hpu, one_mul]
  linarith

theorem stuck {w : ℝ} (hw : w ∈ Bin p emin emax) {k : ℤ} (hk : (2 : ℝ) ^ k ≤ w) (hsmall : dt < 2 ^ (k - p)) :
    rnd (w + dt) = w := by
  have hmin := (hr (w + dt)).2 w hw
  rw [show w + dt - w = dt by ring, abs_of_pos hpos] at hmin
  have hv := hr.mem (w + dt)
  have hge : w ≤ rnd (w + dt) := hr.ge_of_ge hw (by linarith)
  refine le_antisymm ?_ hge
  by_contra hc
  push Not at hc
  obtain ⟨m, hm⟩ := multiple hw (hk.trans (le_abs_self w))
  have hab := above hv hm hk hc
  have : (2 : ℝ) ^ (k - p + 1) = 2 * 2 ^ (k - p) := by rw [zpow_add_one₀ (by norm_num)]; ring
  have := (abs_le.1 hmin).1
  linarith

/-- Then time stops: no number of time steps takes it beyond the least power of two that is more than `2^p` times the time
step. -/
theorem C123_stops {k : ℤ} (hk : emin ≤ k) (hk' : k ≤ emax) (hsmall : dt < 2 ^ (k - p)) (n : ℕ) :
    time rnd dt n ≤ 2 ^ k := by
  have h12 : (1 : ℤ) < 2 ^ p := one_lt_pow₀ (by norm_num) ht.pos.ne'
  have hmem : (2 : ℝ) ^ k ∈ Bin p emin emax := ⟨1, k, by simpa using h12, hk, hk', by simp⟩
  have hk0 := two_zpow_pos k
  induction n with
  | zero => exact hk0.le
  | succ n ih =>
    rcases ih.eq_or_lt with h | h
    · rw [time, h, stuck ht hr hdt hpos hmem le_rfl hsmall]
    · refine hr.le_of_le hmem ?_
      have hM : (2 : ℝ) ^ k = ((2 ^ p : ℤ) : ℝ) * 2 ^ ((k - 1) - p + 1) := by
        push_cast
        rw [← zpow_natCast, ← zpow_add₀ (by norm_num)]; congr 1; ring
      have hb := below ht.pos (time_mem ht hr hdt hpos n) hM
        ((zpow_lt_zpow_iff_right₀ (by norm_num)).2 (by omega)) h
      rw [show k - 1 - (p : ℤ) + 1 = k - p by ring] at hb
      linarith

/-! ## Intervals of time -/

theorem difference {B : ℝ} (hB : B < 2 ^ emax) (i d : ℕ) (h : ∀ k < i + d, time rnd dt k + dt ≤ B) :
    |time rnd dt (i + d) - time rnd dt i - d * dt| ≤ d * (2 ^ (-(p : ℤ)) * B) := by
  have hu := two_zpow_pos (-(p : ℤ))
  induction d with
  | zero => simp
  | succ d ih =>
    have h1 := ih fun k hk => h k (by omega)
    have hb := h (i + d) (by omega)
    have h2 := step_error ht hr hdt hpos (n := i + d) (by linarith)
    have e : time rnd dt (i + (d + 1)) - time rnd dt i - ((d + 1 : ℕ) : ℝ) * dt =
        (time rnd dt (i + d + 1) - (time rnd dt (i + d) + dt)) + (time rnd dt (i + d) - time rnd dt i - d * dt) := by
      rw [← add_assoc]; push_cast; ring
    rw [e]
    refine (abs_add_le _ _).trans ?_
    have h3 : 2 ^ (-(p : ℤ)) * (time rnd dt (i + d) + dt) ≤ 2 ^ (-(p : ℤ)) * B := mul_le_mul_of_nonneg_left hb hu.le
    push_cast
    linarith

/-- The time between two points in time is the number of time steps times their length, up to one rounding error per time
step. -/
theorem C123_difference {B : ℝ} (hB : B < 2 ^ emax) {i j : ℕ} (hij : i ≤ j) (h : time rnd dt j + dt ≤ B) :
    |time rnd dt j - time rnd dt i - (j - i : ℕ) * dt| ≤ (j - i : ℕ) * (2 ^ (-(p : ℤ)) * B) := by
  have := difference ht hr hdt hpos hB i (j - i) fun k hk => by
    have := C123_monotone ht hr hdt hpos (show k ≤ j by omega)
    linarith
  rwa [show i + (j - i) = j by omega] at this

section
variable {tol : ℝ} (htol : tol ∈ Bin p emin emax) (htol0 : 0 ≤ tol)
include htol htol0

/-- Adding to, or subtracting from, such a difference. -/
theorem shifted {B : ℝ} (hB : B < 2 ^ emax) {i j : ℕ} (hij : i ≤ j) (h : time rnd dt j + dt + tol ≤ B) {s : ℝ}
    (hs : s = tol ∨ s = -tol) :
    |rnd (rnd (time rnd dt j - time rnd dt i) + s) - ((j - i : ℕ) * dt + s)| ≤
      ((j - i : ℕ) + 2) * (2 ^ (-(p : ℤ)) * B) := by
  have hem : emin ≤ emax := by have := ht.small; have := ht.large; omega
  have hu := two_zpow_pos (-(p : ℤ))
  have hj := time_mem ht hr hdt hpos j
  have hi := time_mem ht hr hdt hpos i
  have hi0 := time_nonneg ht hr hdt hpos i
  have hmono := C123_monotone ht hr hdt hpos hij
  have hd := C123_difference ht hr hdt hpos hB hij (by linarith)
  have hr0 : 0 ≤ rnd (time rnd dt j - time rnd dt i) := hr.ge_of_ge (zero_mem hem) (by linarith)
  have hr1 : rnd (time rnd dt j - time rnd dt i) ≤ time rnd dt j := hr.le_of_le hj (by linarith)
  have e1 : |rnd (time rnd dt j - time rnd dt i) - (time rnd dt j - time rnd dt i)| ≤ 2 ^ (-(p : ℤ)) * B := by
    have habs : |time rnd dt j + -time rnd dt i| ≤ B := by
      rw [abs_of_nonneg (by linarith)]; linarith
    have := add_error ht.pos hem hr hj (neg_mem hi) (habs.trans_lt hB)
    rw [← sub_eq_add_neg] at this habs
    exact this.trans (mul_le_mul_of_nonneg_left habs hu.le)
  have hsm : s ∈ Bin p emin emax := by
    rcases hs with rfl | rfl
    · exact htol
    · exact neg_mem htol
  have habs2 : |rnd (time rnd dt j - time rnd dt i) + s| ≤ B := by
    rw [abs_le]; rcases hs with rfl | rfl <;> constructor <;> linarith
  have e2 : |rnd (rnd (time rnd dt j - time rnd dt i) + s) - (rnd (time rnd dt j - time rnd dt i) + s)| ≤
      2 ^ (-(p : ℤ)) * B :=
    (add_error ht.pos hem hr (hr.mem _) hsm (habs2.trans_lt hB)).trans (mul_le_mul_of_nonneg_left habs2 hu.le)
  rw [abs_le] at *
  constructor <;> linarith [e1.1, e1.2, e2.1, e2.2, hd.1, hd.2]

/-- Whether a snapshot is overridden depends on the number of time steps since it has been taken, as without rounding, if the
rounding errors are less than the tolerance. -/
theorem C123_ends {B : ℝ} (hB : B < 2 ^ emax) {M : ℕ} {T : ℝ}
    (h1 : M * dt + (M + 3) * (2 ^ (-(p : ℤ)) * B) ≤ T + tol)
    (h2 : T + tol + (M + 3) * (2 ^ (-(p : ℤ)) * B) < (M + 1) * dt) {i j : ℕ} (hij : i ≤ j)
    (h : time rnd dt j + dt + tol ≤ B) :
    ends rnd tol T (time rnd dt j) (time rnd dt i) ↔ M < j - i := by
  have hu := two_zpow_pos (-(p : ℤ))
  have hj0 := time_nonneg ht hr hdt hpos j
  have hu0 : 0 ≤ (2 : ℝ) ^ (-(p : ℤ)) * B := mul_nonneg hu.le (by linarith)
  unfold ends
  rw [sub_eq_add_neg (rnd _) tol]
  constructor
  · intro hgt
    by_contra hc
    push Not at hc
    have hc' : ((j - i : ℕ) : ℝ) ≤ M := by exact_mod_cast hc
    have := (abs_le.1 (shifted ht hr hdt hpos htol htol0 hB hij h (.inr rfl))).2
    nlinarith
  · intro hlt
    have hle : i + (M + 1) ≤ j := by omega
    have hm := C123_monotone ht hr hdt hpos hle
    have := (abs_le.1 (shifted ht hr hdt hpos htol htol0 hB (i := i) (j := i + (M + 1)) (by omega) (by linarith)
      (.inr rfl))).1
    have hmono : rnd (rnd (time rnd dt (i + (M + 1)) - time rnd dt i) + -tol) ≤
        rnd (rnd (time rnd dt j - time rnd dt i) + -tol) := hr.mono (by have := hr.mono (show
          time rnd dt (i + (M + 1)) - time rnd dt i ≤ time rnd dt j - time rnd dt i by linarith); linarith)
    rw [show i + (M + 1) - i = M + 1 by omega] at this
    push_cast at this
    nlinarith

/-- Likewise for whether a further snapshot is taken. -/
theorem C123_begins {B : ℝ} (hB : B < 2 ^ emax) {S : ℕ} (hS : 0 < S) {sep : ℝ}
    (h1 : sep + (S + 2) * (2 ^ (-(p : ℤ)) * B) < S * dt + tol)
    (h2 : (S - 1) * dt + tol + (S + 2) * (2 ^ (-(p : ℤ)) * B) ≤ sep) {i j : ℕ} (hij : i ≤ j)
    (h : time rnd dt j + dt + tol ≤ B) :
    begins rnd tol sep (time rnd dt j) (time rnd dt i) ↔ S ≤ j - i := by
  have hu := two_zpow_pos (-(p : ℤ))
  have hj0 := time_nonneg ht hr hdt hpos j
  have hu0 : 0 ≤ (2 : ℝ) ^ (-(p : ℤ)) * B := mul_nonneg hu.le (by linarith)
  unfold begins
  constructor
  · intro hgt
    by_contra hc
    push Not at hc
    have hc' : ((j - i : ℕ) : ℝ) ≤ S - 1 := by
      have : ((j - i : ℕ) : ℝ) + 1 ≤ S := by exact_mod_cast hc
      linarith
    have := (abs_le.1 (shifted ht hr hdt hpos htol htol0 hB hij h (.inl rfl))).2
    nlinarith
  · intro hlt
    have hle : i + S ≤ j := by omega
    have hm := C123_monotone ht hr hdt hpos hle
    have := (abs_le.1 (shifted ht hr hdt hpos htol htol0 hB (i := i) (j := i + S) (by omega) (by linarith) (.inl rfl))).1
    have hmono : rnd (rnd (time rnd dt (i + S) - time rnd dt i) + tol) ≤
        rnd (rnd (time rnd dt j - time rnd dt i) + tol) := hr.mono (by have := hr.mono (show
          time rnd dt (i + S) - time rnd dt i ≤ time rnd dt j - time rnd dt i by linarith); linarith)
    rw [show i + S - i = S by omega] at this
    nlinarith

/-- A slot of the program stands for the snapshot of a sweep. -/
def Stands {D : Type} (t : ℕ → ℝ) (d : ℕ → D) : Option ℕ → Slot ℝ D → Prop
  | none, s => s.time < 0
  | some n, s => s = ⟨t n, d n⟩

omit ht hr hdt hpos htol htol0 in
theorem loop_stands {D : Type} {t : ℕ → ℝ} (t0 : ∀ n, 0 ≤ t n) {d : ℕ → D} {T : ℝ} {count S M now : ℕ}
    (hb : ∀ i ≤ now, begins rnd tol (rnd (T / count)) (t now) (t i) ↔ S ≤ now - i)
    (he : ∀ i ≤ now, ends rnd tol T (t now) (t i) ↔ M < now - i) {os : List (Option ℕ)} {ss : List (Slot ℝ D)}
    (h : List.Forall₂ (Stands t d) os ss) (hle : ∀ i, some i ∈ os → i ≤ now) (prev : Option ℕ) (hprev : ∀ i ∈ prev, i ≤ now) :
    List.Forall₂ (Stands t d) (sweeps S M now prev os)
      (updateLoop rnd tol T count ⟨t now, d now⟩ (prev.map t) ss) := by
  induction h generalizing prev with
  | nil => exact .nil
  | @cons o s os ss h1 h2 ih =>
    have ih' := ih fun i hi => hle i (List.mem_cons_of_mem _ hi)
    cases o with
    | some n =>
      have hs : s = ⟨t n, d n⟩ := h1
      have hinit : initSlot rnd tol T count ⟨t now, d now⟩ (prev.map t) s = (true, s) := by
        unfold initSlot; rw [if_pos (by rw [hs]; exact t0 n)]
      have hn : n ≤ now := hle n List.mem_cons_self
      have hends := he n hn
      rw [updateLoop, hinit, sweeps]
      simp only [if_true]
      by_cases hM : M < now - n
      · rw [if_pos hM, if_pos (by rw [hs]; exact hends.2 hM)]
        exact .cons rfl (ih' (some now) fun i hi => by simp at hi; omega)
      · rw [if_neg hM, if_neg (by rw [hs]; exact fun h => hM (hends.1 h)), hs]
        exact .cons rfl (ih' (some n) fun i hi => by simp at hi; omega)
    | none =>
      have hs : ¬ s.time ≥ 0 := not_le.2 h1
      have hends : ¬ ends rnd tol T (t now) (t now) := fun h => by have := (he now le_rfl).1 h; omega
      cases prev with
      | none =>
        have hinit : initSlot rnd tol T count ⟨t now, d now⟩ (Option.map t none) s = (true, ⟨t now, d now⟩) := by
          unfold initSlot; rw [if_neg hs]; rfl
        rw [updateLoop, hinit, sweeps]
        simp only [if_true]
        rw [if_neg hends]
        exact .cons rfl (ih' (some now) fun i hi => by simp at hi; omega)
      | some q =>
        have hq : q ≤ now := hprev q rfl
        have hbegins := hb q hq
        rw [updateLoop, sweeps]
        by_cases hS : S ≤ now - q
        · have hinit : initSlot rnd tol T count ⟨t now, d now⟩ (Option.map t (some q)) s = (true, ⟨t now, d now⟩) := by
            unfold initSlot
            rw [if_neg hs]
            simp only [Option.map_some]
            rw [if_neg (not_lt.2 (t0 q)), if_pos (hbegins.2 hS)]
          rw [hinit]
          simp only [if_true]
          rw [if_neg hends, if_pos hS]
          exact .cons rfl (ih' (some now) fun i hi => by simp at hi; omega)
        · have hinit : initSlot rnd tol T count ⟨t now, d now⟩ (Option.map t (some q)) s = (false, s) := by
            unfold initSlot
            rw [if_neg hs]
            simp only [Option.map_some]
            rw [if_neg (not_lt.2 (t0 q)), if_neg fun h => hS (hbegins.1 h)]
          rw [hinit, if_neg hS]
          exact .cons h1 h2

omit ht hr hdt hpos htol htol0 in
theorem sweeps_length (S M now : ℕ) (prev : Option ℕ) (os : List (Option ℕ)) : (sweeps S M now prev os).length = os.length := by
  induction os generalizing prev with
  | nil => rfl
  | cons o os ih =>
    cases o with
    | some n => rw [sweeps]; split_ifs <;> simp [ih]
    | none =>
      cases prev with
      | none => rw [sweeps]; simp [ih]
      | some q => rw [sweeps]; split_ifs <;> simp [ih]

omit ht hr hdt hpos htol htol0 in
theorem sweeps_mem {S M now : ℕ} {os : List (Option ℕ)} {prev : Option ℕ} {i : ℕ} (h : some i ∈ sweeps S M now prev os) :
    i = now ∨ some i ∈ os := by
  induction os generalizing prev with
  | nil => exact .inr h
  | cons o os ih =>
    have key : ∀ {x : Option ℕ} {pr : Option ℕ}, (x = some now ∨ x = o) → some i ∈ x :: sweeps S M now pr os →
        i = now ∨ some i ∈ o :: os := by
      intro x pr hx hi
      rcases List.mem_cons.1 hi with hi | hi
      · rcases hx with rfl | rfl
        · exact .inl (Option.some.inj hi)
        · exact .inr (hi ▸ List.mem_cons_self)
      · exact (ih hi).imp_right (List.mem_cons_of_mem _)
    cases o with
    | some n =>
      rw [sweeps] at h
      split_ifs at h
      · exact key (.inl rfl) h
      · exact key (.inr rfl) h
    | none =>
      cases prev with
      | none => rw [sweeps] at h; exact key (.inl rfl) h
      | some q =>
        rw [sweeps] at h
        split_ifs at h
        · exact key (.inl rfl) h
        · exact .inr h

omit ht hr hdt hpos htol htol0 in
theorem history_append (S M count : ℕ) (calls : List ℕ) (now : ℕ) :
    history S M count (calls ++ [now]) = sweeps S M now none (history S M count calls) := by
  simp [history]

omit ht hr hdt hpos htol htol0 in
theorem history_mem {S M count : ℕ} (calls : List ℕ) {i : ℕ} (h : some i ∈ history S M count calls) : i ∈ calls := by
  induction calls using List.reverseRecOn with
  | nil => simp [history] at h
  | append_singleton calls now ih =>
    rw [history_append] at h
    rcases sweeps_mem h with rfl | h
    · simp
    · exact List.mem_append_left _ (ih h)

omit ht hr hdt hpos htol htol0 in
theorem pairs_append (S M count : ℕ) (calls : List ℕ) (now : ℕ) : pairs S M count (calls ++ [now]) =
    pairs S M count calls ++ (history S M count (calls ++ [now])).filterMap fun s => s.map fun taken => (taken, now) := by
  unfold pairs
  rw [List.length_append, List.length_singleton, List.range_succ, List.flatMap_append]
  congr 1
  · apply List.flatMap_congr
    intro i hi
    rw [List.mem_range] at hi
    rw [List.take_append_of_le_length (by omega)]
    simp [List.getD, List.getElem?_append_left hi]
  · simp [List.take_of_length_le]

omit ht hr hdt hpos htol htol0 in
open Classical in
theorem records_stand {D R : Type} {t : ℕ → ℝ} (t0 : ∀ n, 0 ≤ t n) {d : ℕ → D} (f : D → D → R) (now : ℕ)
    {os : List (Option ℕ)} {ss : List (Slot ℝ D)} (h : List.Forall₂ (Stands t d) os ss) :
    ((ss.filter fun s => s.time ≥ 0).map fun s => (s.time, t now, f s.data (d now))) =
      (os.filterMap fun s => s.map fun taken => (taken, now)).map fun q => (t q.1, t q.2, f (d q.1) (d q.2)) := by
  induction h with
  | nil => rfl
  | @cons o s os ss h1 h2 ih =>
    cases o with
    | none =>
      have hs : ¬ s.time ≥ 0 := not_le.2 h1
      rw [List.filter_cons_of_neg (by simpa using hs)]
      simpa using ih
    | some n =>
      have hs : s = ⟨t n, d n⟩ := h1
      rw [hs, List.filter_cons_of_pos (by simpa using t0 n)]
      simp only [List.map_cons, List.filterMap_cons, Option.map_some]
      rw [ih]

/-- The snapshots taken, and the correlations recorded, are those of the sweeps they should be, whenever measurements are made:
rounding does not change them, if the rounding errors are less than the tolerance. -/
theorem C123_snapshots {B : ℝ} (hB : B < 2 ^ emax) {S M count : ℕ} (hS : 0 < S) {T : ℝ}
    (h1 : M * dt + (M + 3) * (2 ^ (-(p : ℤ)) * B) ≤ T + tol)
    (h2 : T + tol + (M + 3) * (2 ^ (-(p : ℤ)) * B) < (M + 1) * dt)
    (h3 : rnd (T / count) + (S + 2) * (2 ^ (-(p : ℤ)) * B) < S * dt + tol)
    (h4 : (S - 1) * dt + tol + (S + 2) * (2 ^ (-(p : ℤ)) * B) ≤ rnd (T / count))
    {D R : Type} (f : D → D → R) (d : ℕ → D) (garbage : List D) (hcount : garbage.length = count)
    (calls : List ℕ) (hsorted : calls.Pairwise (· ≤ ·)) (hcalls : ∀ j ∈ calls, time rnd dt j + dt + tol ≤ B) :
    List.Forall₂ (Stands (time rnd dt) d) (history S M count calls)
        ((calls.map fun j => (⟨time rnd dt j, d j⟩ : Slot ℝ D)).foldl (measure rnd tol T f) (VA.make garbage)).slots ∧
      ((calls.map fun j => (⟨time rnd dt j, d j⟩ : Slot ℝ D)).foldl (measure rnd tol T f) (VA.make garbage)).records =
        (pairs S M count calls).map fun q => (time rnd dt q.1, time rnd dt q.2, f (d q.1) (d q.2)) := by
  have t0 := time_nonneg ht hr hdt hpos
  induction calls using List.reverseRecOn with
  | nil =>
    refine ⟨?_, by simp [pairs, VA.make]⟩
    simp only [history, List.map_nil, List.foldl_nil, VA.make]
    rw [← hcount]
    clear hcount
    induction garbage with
    | nil => exact .nil
    | cons g gs ih => exact .cons (show (-1 : ℝ) < 0 by norm_num) ih
  | append_singleton calls now ih =>
    rw [List.pairwise_append] at hsorted
    obtain ⟨ihs, ihr⟩ := ih hsorted.1 fun j hj => hcalls j (List.mem_append_left _ hj)
    have hnow := hcalls now (by simp)
    have hlen : ((calls.map fun j => (⟨time rnd dt j, d j⟩ : Slot ℝ D)).foldl (measure rnd tol T f)
        (VA.make garbage)).slots.length = count := by
      rw [← ihs.length_eq]
      clear ihs ihr hnow hcalls hsorted ih
      induction calls using List.reverseRecOn with
      | nil => simp [history]
      | append_singleton calls now ih => rw [history_append, sweeps_length, ih]
    have hl := loop_stands t0 (d := d) (T := T) (count := count) (S := S) (M := M) (now := now)
      (fun i hi => C123_begins ht hr hdt hpos htol htol0 hB hS h3 h4 hi hnow)
      (fun i hi => C123_ends ht hr hdt hpos htol htol0 hB h1 h2 hi hnow) ihs
      (fun i hi => hsorted.2.2 i (history_mem calls hi) now (by simp)) none (by simp)
    rw [List.map_append, List.foldl_append]
    simp only [List.map_cons, List.map_nil, List.foldl_cons, List.foldl_nil, measure, hlen]
    rw [history_append, pairs_append, List.map_append, history_append]
    exact ⟨hl, by rw [ihr, ← records_stand t0 f now hl]; rfl⟩

end
end

/-- The conditions are met by a run with `double`, a time step of `0.1`, a measurement time of `10`, and two snapshots, for a
million sweeps: a snapshot is overridden when more than 100 sweeps old, and the second is taken 50 sweeps after the first. -/
example (hr : IsRounding 53 (-1074) 971 rnd) {D R : Type} (f : D → D → R) (d : ℕ → D) (g g' : D) (calls : List ℕ)
    (hsorted : calls.Pairwise (· ≤ ·)) (hcalls : ∀ j ∈ calls, j ≤ 10 ^ 6) :
    ((calls.map fun j => (⟨time rnd (rnd (1 / 10)) j, d j⟩ : Slot ℝ D)).foldl
        (measure rnd (rnd (1 / 1000000)) 10 f) (VA.make [g, g'])).records =
      (pairs 50 100 2 calls).map fun q =>
        (time rnd (rnd (1 / 10)) q.1, time rnd (rnd (1 / 10)) q.2, f (d q.1) (d q.2)) := by
  have ht : Type_ 53 (-1074) 971 := ⟨by norm_num, by norm_num, by norm_num⟩
  have e1 := normal_error ht.pos hr (x := 1 / 10) (k := -4) (by norm_num [abs_of_pos]) (by norm_num [abs_of_pos]) (by norm_num)
    (by norm_num)
  have e2 := normal_error ht.pos hr (x := 1 / 1000000) (k := -20) (by norm_num [abs_of_pos]) (by norm_num [abs_of_pos])
    (by norm_num) (by norm_num)
  rw [abs_of_pos (by norm_num : (0 : ℝ) < 1 / 10)] at e1
  rw [abs_of_pos (by norm_num : (0 : ℝ) < 1 / 1000000)] at e2
  have e3 : rnd (10 / (2 : ℕ)) = 5 := by
    rw [show (10 / (2 : ℕ) : ℝ) = 5 by norm_num]
    exact hr.eq_self ⟨5, 0, by norm_num, by norm_num, by norm_num, by norm_num⟩
  have hu : (2 : ℝ) ^ (-((53 : ℕ) : ℤ)) = 1 / 2 ^ 53 := by norm_num
  rw [hu, abs_le] at e1 e2
  obtain ⟨e11, e12⟩ := e1
  obtain ⟨e21, e22⟩ := e2
  have hmem := hr.mem (1 / 10)
  have hmem2 := hr.mem (1 / 1000000)
  have hpos : 0 < rnd (1 / 10) := by norm_num at *; linarith
  have hbig : (2 : ℝ) ^ (20 : ℤ) < 2 ^ (971 : ℤ) := (zpow_lt_zpow_iff_right₀ (by norm_num)).2 (by norm_num)
  refine (C123_snapshots ht hr hmem hpos hmem2 (by norm_num at *; linarith) (B := 2 ^ (20 : ℤ)) hbig (S := 50) (M := 100)
    (count := 2) (by norm_num) ?_ ?_ ?_ ?_ f d [g, g'] rfl calls hsorted fun j hj => ?_).2
  · rw [hu]; norm_num at *; linarith
  · rw [hu]; norm_num at *; linarith
  · rw [hu, e3]; norm_num at *; linarith
  · rw [hu, e3]; norm_num at *; linarith
  · have hj' : (j : ℝ) ≤ 10 ^ 6 := by exact_mod_cast hcalls j hj
    have hj0 : (0 : ℝ) ≤ j := Nat.cast_nonneg j
    have hle : rnd (1 / 10) ≤ 2 / 10 := by norm_num at *; linarith
    have hjd : j * rnd (1 / 10) ≤ 2 * 10 ^ 5 := by nlinarith
    have h1 := C123_relative ht hr hmem hpos (n := j) (by rw [hu]; norm_num; linarith) (by
      refine lt_trans ?_ hbig
      rw [show (2 : ℝ) ^ (20 : ℤ) = 1048576 by norm_num]
      linarith)
    rw [hu] at h1
    have h2 : 2 * j * (1 / 2 ^ 53) * (j * rnd (1 / 10)) ≤ 1 * (2 * 10 ^ 5) :=
      mul_le_mul (by norm_num; linarith) hjd (by positivity) (by norm_num)
    have h3 := (abs_le.1 h1).2
    have : (2 : ℝ) ^ (20 : ℤ) = 1048576 := by norm_num
    have h4 : rnd (1 / 1000000) ≤ 1 := by norm_num at *; linarith
    linarith

/-- A time step of `1` is exact for `2^53` sweeps; and then time stops. -/
example (hr : IsRounding 53 (-1074) 971 rnd) : (∀ n : ℕ, n ≤ 2 ^ 53 → time rnd 1 n = n) ∧
    ∀ n : ℕ, time rnd 1 n ≤ 2 ^ 54 := by
  have ht : Type_ 53 (-1074) 971 := ⟨by norm_num, by norm_num, by norm_num⟩
  have h1 : (1 : ℝ) ∈ Bin 53 (-1074) 971 := ⟨1, 0, by norm_num, by norm_num, by norm_num, by norm_num⟩
  refine ⟨fun n hn => ?_, fun n => ?_⟩
  · have := C123_exact ht hr h1 one_pos (m := 1) (e := 0) (by norm_num) (by norm_num) (by norm_num) (n := n)
      (by push_cast; rw [mul_one]; exact_mod_cast hn)
    rwa [mul_one] at this
  · have := C123_stops ht hr h1 one_pos (k := 54) (by norm_num) (by norm_num) (by norm_num) n
    exact_mod_cast this

end OpenMPCD.Time
