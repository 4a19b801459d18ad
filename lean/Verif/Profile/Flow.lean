import Verif.Stats.Props
import Verif.Vec.Basic

/-!
# Flow profiles (C25)
-/

set_option linter.unusedSectionVars false

namespace OpenMPCD.Profile

open OpenMPCD.Stats

variable {K : Type} [Field K] [LinearOrder K] [IsStrictOrderedRing K]

/-- A point of the grid. -/
abbrev Point := ℕ × ℕ × ℕ

/-- An output block: the statistics of the three components of the velocities at each point
(`include/OpenMPCD/FlowProfile.hpp:231-234`). -/
abbrev Block (K : Type) := Point → Vec3 (CppOTFS K)

/-- `FlowProfile` (`include/OpenMPCD/FlowProfile.hpp:205-234`); `shape`: the numbers of points along the axes. The
counter is a natural number (in the code: `unsigned int`). -/
structure FlowProfile (K : Type) where
  shape : Point
  sweepCountPerOutput : ℕ
  currentBlockSweepCount : ℕ
  outputBlocks : List (Block K)

/-- The constructor (`src/OpenMPCD/FlowProfile.cpp:12-49`) after reading the settings, which it rejects if a
subdivision is zero. -/
def FlowProfile.make (shape : Point) (sweepCountPerOutput : ℕ) : FlowProfile K := ⟨shape, sweepCountPerOutput, 0, []⟩

/-- A block without data, `createOutputBlock` (`src/OpenMPCD/FlowProfile.cpp:96-113`). -/
def emptyBlock : Block K := fun _ => ⟨.fresh, .fresh, .fresh⟩

/-- `newSweep` (`src/OpenMPCD/FlowProfile.cpp:51-75`). The debug assertion (`src/OpenMPCD/FlowProfile.cpp:67`) is what `flow_inv` shows. -/
def FlowProfile.newSweep (f : FlowProfile K) : FlowProfile K :=
  if f.outputBlocks.isEmpty then { f with outputBlocks := f.outputBlocks ++ [emptyBlock] }
  else
    let f := { f with currentBlockSweepCount := f.currentBlockSweepCount + 1 }
    if f.sweepCountPerOutput = 0 then f
    else if f.currentBlockSweepCount ≠ f.sweepCountPerOutput then f
    else { f with currentBlockSweepCount := 0, outputBlocks := f.outputBlocks ++ [emptyBlock] }

/-- Adding a datum at a point. -/
def Block.add (b : Block K) (p : Point) (v : Vec3 K) : Block K :=
  fun q => if q = p then ⟨(b q).x.addDatum v.x, (b q).y.addDatum v.y, (b q).z.addDatum v.z⟩ else b q

/-- `add` (`include/OpenMPCD/FlowProfile.hpp:129-145`); `none`: there is no block, or no such point (undefined
behaviour, or an exception if `OPENMPCD_DEBUG` is defined). -/
def FlowProfile.add (f : FlowProfile K) (p : Point) (v : Vec3 K) : Option (FlowProfile K) :=
  match f.outputBlocks.getLast? with
  | none => none
  | some b =>
    if p.1 < f.shape.1 ∧ p.2.1 < f.shape.2.1 ∧ p.2.2 < f.shape.2.2 then
      some { f with outputBlocks := f.outputBlocks.dropLast ++ [b.add p v] }
    else none

/-- What is done with a flow profile. -/
inductive FlowOp (K : Type)
  | newSweep
  | add (p : Point) (v : Vec3 K)

/-- A history of calls. -/
def FlowProfile.run (f : FlowProfile K) : List (FlowOp K) → Option (FlowProfile K)
  | [] => some f
  | .newSweep :: ops => f.newSweep.run ops
  | .add p v :: ops => (f.add p v).bind fun f' => f'.run ops

/-! ## Specification -/

/-- The number of sweeps begun. -/
def sweeps : List (FlowOp K) → ℕ
  | [] => 0
  | .newSweep :: ops => sweeps ops + 1
  | .add _ _ :: ops => sweeps ops

/-- All data added, with the number of the sweep they were added in (counting from zero); `n` sweeps have begun
before. -/
def dataBySweep (n : ℕ) : List (FlowOp K) → List (ℕ × Point × Vec3 K)
  | [] => []
  | .newSweep :: ops => dataBySweep (n + 1) ops
  | .add p v :: ops => (n - 1, p, v) :: dataBySweep n ops

/-- The block the data of a sweep belong to. -/
def blockOf (sweepCountPerOutput sweep : ℕ) : ℕ := if sweepCountPerOutput = 0 then 0 else sweep / sweepCountPerOutput

/-- The data that belong to a block and a point. -/
def dataAt (s b : ℕ) (p : Point) (data : List (ℕ × Point × Vec3 K)) : List (Vec3 K) :=
  (data.filter fun d => blockOf s d.1 = b ∧ d.2.1 = p).map fun d => d.2.2

/-- All points added to exist, and no data are added before the first sweep. -/
def ValidHistory (shape : Point) (ops : List (FlowOp K)) : Prop :=
  ∀ pre p v post, ops = pre ++ .add p v :: post →
    0 < sweeps pre ∧ p.1 < shape.1 ∧ p.2.1 < shape.2.1 ∧ p.2.2 < shape.2.2

/-! ## Proofs -/

theorem sweeps_append (l l' : List (FlowOp K)) : sweeps (l ++ l') = sweeps l + sweeps l' := by
  induction l with
  | nil => simp [sweeps]
  | cons o l ih => cases o <;> simp [sweeps, ih]; omega

theorem dataBySweep_append (n : ℕ) (l l' : List (FlowOp K)) :
    dataBySweep n (l ++ l') = dataBySweep n l ++ dataBySweep (n + sweeps l) l' := by
  induction l generalizing n with
  | nil => simp [dataBySweep, sweeps]
  | cons o l ih =>
    cases o with
    | newSweep =>
      simp only [List.cons_append, dataBySweep, sweeps, ih]
      rw [show n + 1 + sweeps l = n + (sweeps l + 1) by omega]
    | add p v => simp [dataBySweep, sweeps, ih]

theorem dataBySweep_lt (l : List (FlowOp K)) (n : ℕ) (hn : 0 < n + sweeps l) :
    ∀ d ∈ dataBySweep n l, d.1 < n + sweeps l := by
  induction l generalizing n with
  | nil => simp [dataBySweep]
  | cons o l ih =>
    cases o with
    | newSweep =>
      intro d hd
      simp only [sweeps] at hn ⊢
      have := ih (n + 1) (by omega) d hd
      omega
    | add p v =>
      intro d hd
      simp only [sweeps] at hn ⊢
      simp only [dataBySweep, List.mem_cons] at hd
      rcases hd with rfl | hd
      · simp only; omega
      · exact ih n hn d hd

theorem run_append (f : FlowProfile K) (l l' : List (FlowOp K)) :
    f.run (l ++ l') = (f.run l).bind fun f' => f'.run l' := by
  induction l generalizing f with
  | nil => simp [FlowProfile.run]
  | cons o l ih =>
    cases o with
    | newSweep => simp only [List.cons_append, FlowProfile.run]; exact ih _
    | add p v =>
      simp only [List.cons_append, FlowProfile.run]
      cases f.add p v with
      | none => rfl
      | some f' => exact ih f'

/-- Number of blocks after `n` sweeps. -/
def blockCount (s n : ℕ) : ℕ := if n = 0 then 0 else if s = 0 then 1 else (n - 1) / s + 1

/-- Statistics of the components of the data. -/
def statistics (l : List (Vec3 K)) : Vec3 (CppOTFS K) :=
  ⟨cppFeed (l.map Vec3.x), cppFeed (l.map Vec3.y), cppFeed (l.map Vec3.z)⟩

/-- What holds throughout a history. -/
def FlowInv (shape : Point) (s : ℕ) (ops : List (FlowOp K)) (f : FlowProfile K) : Prop :=
  f.shape = shape ∧ f.sweepCountPerOutput = s ∧
    f.outputBlocks.length = blockCount s (sweeps ops) ∧
    (s ≠ 0 → f.currentBlockSweepCount = (sweeps ops - 1) % s) ∧
    ∀ b (hb : b < f.outputBlocks.length) p, f.outputBlocks[b] p = statistics (dataAt s b p (dataBySweep 0 ops))

theorem blockCount_succ (s n : ℕ) : blockCount s (n + 1) =
    if n = 0 then 1 else if s ≠ 0 ∧ (n - 1) % s + 1 = s then blockCount s n + 1 else blockCount s n := by
  unfold blockCount
  rcases Nat.eq_zero_or_pos n with rfl | hn
  · by_cases hs : s = 0 <;> simp [hs]
  · have hn' : n ≠ 0 := by omega
    rw [if_neg (Nat.succ_ne_zero n), if_neg hn', if_neg hn', Nat.add_sub_cancel]
    by_cases hs : s = 0
    · simp [hs]
    · simp only [if_neg hs]
      have hs' : 0 < s := Nat.pos_of_ne_zero hs
      have h1 := Nat.div_add_mod (n - 1) s
      have h2 := Nat.mod_lt (n - 1) hs'
      split_ifs with h
      · have : n = ((n - 1) / s + 1) * s := by
          rw [add_mul, one_mul, mul_comm]
          omega
        rw [this, Nat.mul_div_cancel _ hs', ← this]
      · have h3 : (n - 1) % s + 1 < s := by
          rcases Nat.lt_or_ge ((n - 1) % s + 1) s with h4 | h4
          · exact h4
          · exact absurd ⟨hs, by omega⟩ h
        congr 1
        have e : n = s * ((n - 1) / s) + ((n - 1) % s + 1) := by omega
        conv_lhs => rw [e]
        rw [Nat.mul_add_div hs', Nat.div_eq_of_lt h3, Nat.add_zero]

theorem dataAt_append (s b : ℕ) (p : Point) (l l' : List (ℕ × Point × Vec3 K)) :
    dataAt s b p (l ++ l') = dataAt s b p l ++ dataAt s b p l' := by
  simp [dataAt]

theorem cppFeed_append (l : List K) (x : K) : cppFeed (l ++ [x]) = (cppFeed l).addDatum x := by
  simp [cppFeed]

theorem blockOf_lt {s n i : ℕ} (h : i < n) : blockOf s i < blockCount s n := by
  unfold blockOf blockCount
  have hn : n ≠ 0 := by omega
  by_cases hs : s = 0
  · simp [hs, hn]
  · simp only [if_neg hs, if_neg hn]
    have := Nat.div_le_div_right (c := s) (show i ≤ n - 1 by omega)
    omega

theorem dataAt_new {s b n : ℕ} (p : Point) (data : List (ℕ × Point × Vec3 K)) (hd : ∀ d ∈ data, d.1 < n)
    (hb : blockCount s n ≤ b) : dataAt s b p data = [] := by
  unfold dataAt
  rw [List.map_eq_nil_iff, List.filter_eq_nil_iff]
  intro d hm h
  simp only [decide_eq_true_eq] at h
  have := blockOf_lt (s := s) (hd d hm)
  omega

theorem flow_inv (shape : Point) (s : ℕ) (ops : List (FlowOp K)) (hv : ValidHistory shape ops) :
    ∃ f, (FlowProfile.make shape s).run ops = some f ∧ FlowInv shape s ops f := by
  induction ops using List.reverseRecOn with
  | nil =>
    refine ⟨_, rfl, rfl, rfl, ?_, ?_, ?_⟩
    · simp [FlowProfile.make, sweeps, blockCount]
    · intro _; simp [FlowProfile.make, sweeps]
    · intro b hb; simp [FlowProfile.make] at hb
  | append_singleton ops o ih =>
    obtain ⟨f, hf, i1, i2, i3, i4, i5⟩ := ih (fun pre p v post h => hv pre p v (post ++ [o]) (by simp [h]))
    rw [run_append, hf, Option.bind_some]
    cases o with
    | newSweep =>
      refine ⟨f.newSweep, rfl, ?_⟩
      have hdat : dataBySweep 0 (ops ++ [.newSweep]) = dataBySweep 0 ops := by
        rw [dataBySweep_append]; simp [dataBySweep]
      have hsw : sweeps (ops ++ [FlowOp.newSweep (K := K)]) = sweeps ops + 1 := by
        rw [sweeps_append]; rfl
      have hnew : ∀ n, n = blockCount s (sweeps ops) → ∀ p, statistics (dataAt s n p (dataBySweep 0 ops)) =
          (emptyBlock p : Vec3 (CppOTFS K)) := by
        intro n hn p
        have : dataAt s n p (dataBySweep 0 ops) = [] := by
          rcases Nat.eq_zero_or_pos (sweeps ops) with h0 | h0
          · have hempty : dataBySweep 0 ops = [] := by
              cases hd : dataBySweep 0 ops with
              | nil => rfl
              | cons d ds =>
                exfalso
                -- data only after a sweep has begun
                have : ∀ (l pre : List (FlowOp K)), ops = pre ++ l → dataBySweep (sweeps pre) l = [] := by
                  intro l
                  induction l with
                  | nil => intro pre _; rfl
                  | cons o l ih =>
                    intro pre hpre
                    cases o with
                    | newSweep =>
                      have := congrArg sweeps hpre
                      rw [sweeps_append] at this
                      simp only [sweeps] at this
                      omega
                    | add q v =>
                      have := (hv pre q v (l ++ [.newSweep]) (by rw [hpre]; simp)).1
                      have h2 := congrArg sweeps hpre
                      rw [sweeps_append] at h2
                      omega
                have := this ops [] rfl
                simp only [sweeps] at this
                rw [hd] at this
                cases this
            rw [hempty]
            rfl
          · refine dataAt_new (n := sweeps ops) p _ ?_ (by omega)
            have := dataBySweep_lt ops 0 (by omega)
            simpa using this
        rw [this]
        rfl
      unfold FlowProfile.newSweep
      by_cases he : f.outputBlocks = []
      · rw [if_pos (by rw [he]; rfl)]
        have h0 : sweeps ops = 0 := by
          rw [he] at i3
          unfold blockCount at i3
          by_contra h0
          rw [if_neg h0] at i3
          split_ifs at i3
        refine ⟨i1, i2, ?_, ?_, ?_⟩
        · rw [hsw, h0]; simp only [he]; unfold blockCount; by_cases hs : s = 0 <;> simp [hs]
        · intro hs; rw [hsw, h0]; simp only; rw [i4 hs, h0]
        · intro b hb p
          simp only [he, List.nil_append, List.length_singleton] at hb
          have hb0 : b = 0 := by omega
          subst hb0
          rw [hdat, hnew 0 (by rw [h0]; rfl)]
          have : ∀ (l : List (Block K)) (h : 0 < (l ++ [emptyBlock]).length), l = [] →
              (l ++ [emptyBlock])[0] p = emptyBlock p := by
            rintro l h rfl; rfl
          exact this _ _ he
      · rw [if_neg (by simpa using he)]
        have h0 : sweeps ops ≠ 0 := by
          intro h0
          rw [h0] at i3
          exact he (List.length_eq_zero_iff.1 i3)
        simp only
        by_cases hs : s = 0
        · rw [if_pos (by rw [i2]; exact hs)]
          refine ⟨i1, i2, ?_, fun h => absurd hs h, ?_⟩
          · rw [hsw, blockCount_succ, if_neg h0, if_neg (fun h => h.1 hs)]; exact i3
          · intro b hb p; rw [hdat]; exact i5 b hb p
        · rw [if_neg (by rw [i2]; exact hs)]
          have hs' : 0 < s := Nat.pos_of_ne_zero hs
          have hmod := Nat.mod_lt (sweeps ops - 1) hs'
          have hnext : ((sweeps ops - 1) % s + 1 = s → (sweeps ops) % s = 0) ∧
              ((sweeps ops - 1) % s + 1 ≠ s → (sweeps ops) % s = (sweeps ops - 1) % s + 1) := by
            have e : sweeps ops = s * ((sweeps ops - 1) / s) + ((sweeps ops - 1) % s + 1) := by
              have := Nat.div_add_mod (sweeps ops - 1) s
              omega
            constructor
            · intro h
              rw [h] at e
              rw [e]
              simp
            · intro h
              conv_lhs => rw [e]
              rw [Nat.mul_add_mod, Nat.mod_eq_of_lt (by omega)]
          by_cases hc : f.currentBlockSweepCount + 1 = f.sweepCountPerOutput
          · rw [if_neg (by simpa using hc)]
            rw [i2, i4 hs] at hc
            refine ⟨i1, i2, ?_, ?_, ?_⟩
            · rw [hsw, blockCount_succ, if_neg h0, if_pos ⟨hs, hc⟩, List.length_append, i3]; rfl
            · intro _; rw [hsw, Nat.add_sub_cancel, hnext.1 hc]
            · intro b hb p
              rw [hdat]
              simp only [List.length_append, List.length_singleton] at hb
              rcases Nat.lt_or_ge b f.outputBlocks.length with h | h
              · rw [← i5 b h p]
                simp only [List.getElem_append_left h]
              · have hb' : b = f.outputBlocks.length := by omega
                subst hb'
                rw [hnew _ i3]
                simp
          · rw [if_pos hc]
            rw [i2, i4 hs] at hc
            refine ⟨i1, i2, ?_, ?_, ?_⟩
            · rw [hsw, blockCount_succ, if_neg h0, if_neg (fun h => hc h.2)]; exact i3
            · intro _; rw [hsw, Nat.add_sub_cancel, hnext.2 hc]; simp only; rw [i4 hs]
            · intro b hb p; rw [hdat]; exact i5 b hb p
    | add p v =>
      obtain ⟨hsw0, hp1, hp2, hp3⟩ := hv ops p v [] rfl
      have hlen : f.outputBlocks.length = blockOf s (sweeps ops - 1) + 1 := by
        rw [i3]
        unfold blockCount blockOf
        have hn : sweeps ops ≠ 0 := by omega
        by_cases hs : s = 0
        · simp [hs, hn]
        · simp only [if_neg hs, if_neg hn]
      have hne : f.outputBlocks ≠ [] := by
        intro h
        rw [h] at hlen
        simp at hlen
      have hlast : f.outputBlocks.getLast? = some (f.outputBlocks.getLast hne) := List.getLast?_eq_some_getLast hne
      simp only [FlowProfile.run, FlowProfile.add, hlast, i1]
      rw [if_pos ⟨hp1, hp2, hp3⟩, Option.bind_some]
      refine ⟨_, rfl, rfl, i2, ?_, ?_, ?_⟩
      · rw [sweeps_append]
        simp only [sweeps, Nat.add_zero, List.length_append, List.length_dropLast, List.length_singleton]
        rw [← i3]
        omega
      · rw [sweeps_append]; exact i4
      · intro b hb q
        rw [dataBySweep_append, dataAt_append]
        simp only [dataBySweep, Nat.zero_add]
        simp only [List.length_append, List.length_dropLast, List.length_singleton] at hb
        by_cases hbl : b < f.outputBlocks.length - 1
        · have hno : dataAt s b q [(sweeps ops - 1, p, v)] = [] := by
            unfold dataAt
            rw [List.filter_cons_of_neg, List.filter_nil, List.map_nil]
            simp only [decide_eq_true_eq]
            rintro ⟨h, -⟩
            omega
          rw [hno, List.append_nil, ← i5 b (by omega) q]
          rw [List.getElem_append_left (by simpa using hbl), List.getElem_dropLast]
        · have hb' : b = f.outputBlocks.length - 1 := by omega
          have hbb : b = blockOf s (sweeps ops - 1) := by omega
          have hget : (f.outputBlocks.dropLast ++ [(f.outputBlocks.getLast hne).add p v])[b]'(by simpa using hb) =
              (f.outputBlocks.getLast hne).add p v := by
            rw [List.getElem_append_right (by simp; omega)]
            simp
          have hl : f.outputBlocks.getLast hne q = statistics (dataAt s b q (dataBySweep 0 ops)) := by
            have := i5 (f.outputBlocks.length - 1) (by omega) q
            rw [hb', ← this, List.getLast_eq_getElem]
          rw [hget]
          unfold Block.add
          by_cases hq : q = p
          · subst hq
            have : dataAt s b q [(sweeps ops - 1, q, v)] = [v] := by
              simp [dataAt, hbb]
            rw [if_pos rfl, this, hl]
            simp [statistics, cppFeed_append]
          · have : dataAt s b q [(sweeps ops - 1, p, v)] = [] := by
              simp [dataAt, Ne.symm hq]
            rw [if_neg hq, this, List.append_nil, hl]

/-- C25: after any history, data added during sweep `i` are in block `i / s` (in block `0` if `s = 0`) at the point
they were added to, and nothing else is: sample size, mean and variance in each block and at each point are those of the
data that belong there. There are as many blocks as the sweeps begun need. -/
theorem C25 (shape : Point) (s : ℕ) (ops : List (FlowOp K)) (hv : ValidHistory shape ops) :
    ∃ f, (FlowProfile.make shape s).run ops = some f ∧
      f.outputBlocks.length = (if sweeps ops = 0 then 0 else if s = 0 then 1 else (sweeps ops - 1) / s + 1) ∧
      ∀ b (hb : b < f.outputBlocks.length) p,
        let data := dataAt s b p (dataBySweep 0 ops)
        (∀ c ∈ [(f.outputBlocks[b] p).x, (f.outputBlocks[b] p).y, (f.outputBlocks[b] p).z],
          c.getSampleSize = data.length) ∧
        (data ≠ [] → (f.outputBlocks[b] p).x.getSampleMean = Spec.mean (data.map Vec3.x) ∧
          (f.outputBlocks[b] p).y.getSampleMean = Spec.mean (data.map Vec3.y) ∧
          (f.outputBlocks[b] p).z.getSampleMean = Spec.mean (data.map Vec3.z)) ∧
        (2 ≤ data.length → (f.outputBlocks[b] p).x.getSampleVariance = Spec.variance (data.map Vec3.x) ∧
          (f.outputBlocks[b] p).y.getSampleVariance = Spec.variance (data.map Vec3.y) ∧
          (f.outputBlocks[b] p).z.getSampleVariance = Spec.variance (data.map Vec3.z)) := by
  obtain ⟨f, hf, i1, i2, i3, i4, i5⟩ := flow_inv shape s ops hv
  refine ⟨f, hf, i3, fun b hb p => ?_⟩
  simp only
  rw [i5 b hb p]
  generalize dataAt s b p (dataBySweep 0 ops) = data
  have st := fun (g : Vec3 K → K) => C04_cpp_statistics (data.map g)
  refine ⟨?_, ?_, ?_⟩
  · simp only [statistics, List.forall_mem_cons, List.not_mem_nil, false_imp_iff, implies_true, and_true,
      (st _).1, List.length_map]
  · intro hne
    have hne' : ∀ g : Vec3 K → K, data.map g ≠ [] := fun g => by simpa using hne
    simp only [statistics, (st _).2.1, hne', if_false, and_self]
  · intro h2
    have h2' : ¬ data.length < 2 := by omega
    simp only [statistics, (st _).2.2, List.length_map, h2', if_false, and_self]

/-- C25: the datum of every add is in exactly one block. -/
theorem C25_block_exists (shape : Point) (s : ℕ) (ops : List (FlowOp K)) (hv : ValidHistory shape ops)
    (f : FlowProfile K) (hf : (FlowProfile.make shape s).run ops = some f) :
    ∀ d ∈ dataBySweep 0 ops, blockOf s d.1 < f.outputBlocks.length := by
  obtain ⟨f', hf', -, -, i3, -⟩ := flow_inv shape s ops hv
  rw [hf] at hf'
  cases Option.some.inj hf'
  intro d hd
  rw [i3]
  refine blockOf_lt ?_
  rcases Nat.eq_zero_or_pos (sweeps ops) with h0 | h0
  · exfalso
    have : ∀ (l pre : List (FlowOp K)), ops = pre ++ l → dataBySweep (sweeps pre) l = [] := by
      intro l
      induction l with
      | nil => intro pre _; rfl
      | cons o l ih =>
        intro pre hpre
        have h2 := congrArg sweeps hpre
        rw [sweeps_append] at h2
        cases o with
        | newSweep => simp only [sweeps] at h2; omega
        | add q v =>
          have := (hv pre q v l hpre).1
          omega
    have := this ops [] rfl
    simp only [sweeps] at this
    rw [this] at hd
    cases hd
  · have := dataBySweep_lt ops 0 (by omega) d hd
    omega

/-- Two sweeps per block; three sweeps with one datum each. -/
example : ∃ f, (FlowProfile.make (K := ℚ) (1, 1, 1) 2).run
    [.newSweep, .add (0, 0, 0) ⟨1, 0, 0⟩, .newSweep, .add (0, 0, 0) ⟨3, 0, 0⟩, .newSweep, .add (0, 0, 0) ⟨5, 0, 0⟩] =
      some f ∧ f.outputBlocks.map (fun b => (b (0, 0, 0)).x.getSampleMean) = [2, 5] := by
  refine ⟨_, rfl, ?_⟩
  simp [FlowProfile.newSweep, FlowProfile.make, Block.add, emptyBlock, CppOTFS.addDatum, CppOTFS.fresh,
    CppOTFS.getSampleMean]
  norm_num

end OpenMPCD.Profile
