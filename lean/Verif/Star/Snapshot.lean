import Verif.Star.Numbering
import Verif.Snapshot.Structure

/-!
# C31: the structure of star polymers in snapshot files
-/

set_option linter.unusedSimpArgs false

namespace OpenMPCD.Star

open Snapshot

variable {FP : Type}

/-! ## Model -/

/-- The names of the particle types in snapshot files
(`src/OpenMPCD/CUDA/MPCSolute/StarPolymers.cu:494-510`). -/
def typeString : PType → Str
  | .core => "Core".toList
  | .arm => "Arm".toList
  | .magnetic => "Magnetic".toList

/-- Calls of functions that change the snapshot or throw. The state of the snapshot after an exception
is not represented here; it is shown that there are none. -/
def call {α : Type} (r : Snap FP × Except Err α) : Except Err (Snap FP × α) :=
  match r with
  | (s, .ok a) => .ok (s, a)
  | (_, .error e) => .error e

/-- `Helper::declareAtoms` (`src/OpenMPCD/CUDA/MPCSolute/StarPolymers.cu:484-514`). -/
noncomputable def declare (s : Snap FP) (count : ℕ) (type : PType) : Except Err (Snap FP × (ℕ × ℕ)) :=
  call (declareAtoms (fun _ => False) s count none [] (typeString type))

/-- One arm (`src/OpenMPCD/CUDA/MPCSolute/StarPolymers.cu:522-554`). -/
noncomputable def writeArm (g : Geometry) (coreID : ℕ) (s : Snap FP) : Except Err (Snap FP) := do
  let (s, firstArmParticleID, _) ← declare s g.particleCountPerArm .arm
  let s ← (List.range g.particleCountPerArm).foldlM (fun s pIA => do
    if pIA = 0 then
      let (s, _) ← call (declareBond s coreID firstArmParticleID)
      return s
    let ID := firstArmParticleID + pIA
    let (s, _) ← call (declareBond s (ID - 1) ID)
    return s) s
  if g.hasMagneticParticles then
    let (s, ID, _) ← declare s 1 .magnetic
    if g.particleCountPerArm = 0 then
      let (s, _) ← call (declareBond s coreID ID)
      return s
    else
      let (s, _) ← call (declareBond s (ID - 1) ID)
      return s
  else return s

/-- `writeStructureToSnapshot` (`src/OpenMPCD/CUDA/MPCSolute/StarPolymers.cu:467-556`), for an existing
snapshot. -/
noncomputable def writeStructureToSnapshot (g : Geometry) (s : Snap FP) : Except Err (Snap FP) :=
  if ¬ s.writeMode then .error .invalidArgument
  else if s.structureBlockProcessed then .error .invalidArgument
  else (List.range g.starCount).foldlM (fun s _ => do
    let (s, coreID, _) ← declare s 1 .core
    (List.range g.armCountPerStar).foldlM (fun s _ => writeArm g coreID s) s) s

/-- A loop returning `false` as soon as a check fails. -/
def allM (f : ℕ → Except Err Bool) : List ℕ → Except Err Bool
  | [] => .ok true
  | i :: rest => do if ← f i then allM f rest else return false

/-- `snapshotStructureIsCompatible` (`src/OpenMPCD/CUDA/MPCSolute/StarPolymers.cu:592-648`); the debug
assertion in `particlesAreBonded` concerns equal arguments only. A read of an uninitialised variable
appears as an exception. -/
def snapshotStructureIsCompatible (g : Geometry) (s : Snap FP) : Except Err Bool :=
  if s.writeMode then .ok false
  else if numberOfAtoms s.atomRanges ≠ g.getParticleCount then .ok false
  else do
    let types ← allM (fun p => do
      let props ← getAtomProperties s.atomRanges p
      return decide (props.type = some (typeString (g.getParticleType p)))) (List.range g.getParticleCount)
    if ¬ types then return false
    allM (fun p1 => allM (fun p2 =>
      match g.particlesAreBonded p1 p2 with
      | none => .error .exception
      | some bonded => do return decide (bonded = (← hasBond s p1 p2)))
      (List.range' (p1 + 1) (g.getParticleCount - (p1 + 1)))) (List.range g.getParticleCount)

/-! ## Parents -/

theorem id_lt_of_depth (g : Geometry) {x y : Place} (h : Place.Adjacent g x y)
    (hd : x.depth g + 1 = y.depth g) : x.id g < y.id g := by
  obtain ⟨h1, h2, -⟩ := h
  cases x <;> cases y <;> simp only [Place.star, Place.sameArm, Place.depth] at h1 h2 hd <;>
    subst h1 <;>
    simp only [Place.id, Geometry.getCoreParticleID, Geometry.getArmParticleID,
      Geometry.getMagneticParticleID] <;>
    first
      | omega
      | (subst h2; omega)

/-- Bonds to particles with smaller IDs are those to the parent. -/
theorem bonded_lt_iff (g : Geometry) (x : Place) (hx : x.Valid g) (i : ℕ) (hi : i < x.id g) :
    Bonded g i (x.id g) ↔ x.type ≠ .core ∧ i = (parent g x).id g := by
  have hicount : i < g.getParticleCount := lt_trans hi (id_lt g x hx)
  obtain ⟨y, hy, rfl⟩ := exists_place g i hicount
  constructor
  · intro hb
    have hb' := (C30_symmetric g _ _ hb).1
    have hadj := (bonded_iff g hx hy).1 hb'
    have hd : y.depth g < x.depth g := by
      rcases hadj.2.2 with h | h
      · have := id_lt_of_depth g hadj h
        omega
      · omega
    have hc : x.type ≠ .core := by
      intro hc
      have := (C30_tree g x hx).2.2 hc y hy hb'
      omega
    refine ⟨hc, ?_⟩
    obtain ⟨z, -, hz⟩ := (C30_tree g x hx).1 hc
    have e1 := hz y ⟨hy, hb', hd⟩
    have hp := parent_spec g x hx hc
    have e2 := hz (parent g x) ⟨hp.1, (bonded_iff g hx hp.1).2 hp.2.1, by omega⟩
    rw [e1, e2]
  · rintro ⟨hc, he⟩
    have hp := parent_spec g x hx hc
    rw [he]
    exact (C30_symmetric g _ _ ((bonded_iff g hx hp.1).2 hp.2.1)).1

/-! ## Writing -/

/-- The state after atoms below `n` have been declared, and bonds up to atom `m`. -/
structure Written (g : Geometry) (n m : ℕ) (s : Snap FP) : Prop where
  write : s.writeMode = true
  notProcessed : s.structureBlockProcessed = false
  dflt : s.defaultAtomProperties = {}
  contiguous : Contiguous 0 s.atomRanges
  count : numberOfAtoms s.atomRanges = n
  types : ∀ i < n, lookup s.atomRanges i = some { type := some (typeString (g.getParticleType i)) }
  bondsOK : BondsOK s
  bonds : ∀ i j, (i, j) ∈ s.bonds ↔ i < j ∧ j < m ∧ Bonded g i j

theorem declare_spec (g : Geometry) {n m : ℕ} {s : Snap FP} (h : Written g n m s) (count : ℕ)
    (hc : count ≠ 0) (t : PType) (ht : ∀ k < count, g.getParticleType (n + k) = t) :
    ∃ s', declare s count t = .ok (s', n, n + count - 1) ∧ Written g (n + count) m s' := by
  obtain ⟨s', props, h1, h2, h3, h4, h5, h6, h7, h8, h9, h10, -, -, h13⟩ :=
    C26_declareAtoms (fun _ => False) s h.contiguous h.write h.notProcessed count hc none
      (by simp) [] (typeString t) (by simp) (by cases t <;> decide)
  refine ⟨s', ?_, ?_⟩
  · unfold declare
    rw [h1, h.count]
    rfl
  · rw [h.count] at h6 h13
    have hprops : props = { type := some (typeString t) } := by
      have hne : typeString t ≠ [] := by cases t <;> decide
      cases props
      simp only [h.dflt, hne, if_false, if_true, Option.or_none, Option.none_or] at h2 h3 h4
      simp [h2, h3, h4]
    refine ⟨h8.trans h.write, h9.trans h.notProcessed, h10.trans h.dflt, h5, h6, ?_, ?_, ?_⟩
    · intro i hi
      rw [h13]
      by_cases hin : i < n
      · rw [if_pos hin]
        exact h.types i hin
      · rw [if_neg hin, if_pos hi, hprops]
        have := ht (i - n) (by omega)
        rw [show n + (i - n) = i by omega] at this
        rw [this]
    · refine ⟨?_, by rw [h7]; exact h.bondsOK.2⟩
      intro b hb
      rw [h7] at hb
      have := h.bondsOK.1 b hb
      rw [h.count] at this
      rw [h6]
      omega
    · intro i j
      rw [h7]
      exact h.bonds i j

theorem bond_spec (g : Geometry) {n : ℕ} {s : Snap FP} (x : Place) (hx : x.Valid g)
    (hc : x.type ≠ .core) (h : Written g n (x.id g) s) (hn : x.id g < n) :
    ∃ s', call (declareBond s ((parent g x).id g) (x.id g)) = .ok (s', ()) ∧
      Written g n (x.id g + 1) s' := by
  have hp := parent_spec g x hx hc
  have hlt : (parent g x).id g < x.id g := by
    refine id_lt_of_depth g ?_ hp.2.2
    exact (bonded_iff g hp.1 hx).1 (C30_symmetric g _ _ ((bonded_iff g hx hp.1).2 hp.2.1)).1
  have hcall : declareBond s ((parent g x).id g) (x.id g) =
      ({ s with bonds := setInsert ((parent g x).id g, x.id g) s.bonds }, .ok ()) := by
    unfold declareBond
    have hchk : checkWritable s = .ok () := by simp [checkWritable, h.write, h.notProcessed]
    simp only [hchk, h.count]
    rw [if_neg (by omega), if_neg (by omega), if_neg (by omega : ¬ x.id g < (parent g x).id g)]
    rw [if_neg]
    rw [h.bonds]
    omega
  have hok := (C27_declareBond s h.bondsOK ((parent g x).id g) (x.id g)).2.2.1
  rw [hcall] at hok
  refine ⟨{ s with bonds := setInsert ((parent g x).id g, x.id g) s.bonds }, by rw [hcall]; rfl,
    ⟨h.write, h.notProcessed, h.dflt, h.contiguous, h.count, h.types, hok, ?_⟩⟩
  intro i j
  simp only [mem_setInsert, h.bonds, Prod.mk.injEq]
  constructor
  · rintro (⟨rfl, rfl⟩ | ⟨h1, h2, h3⟩)
    · exact ⟨hlt, by omega, (bonded_lt_iff g x hx _ hlt).2 ⟨hc, rfl⟩⟩
    · exact ⟨h1, by omega, h3⟩
  · rintro ⟨h1, h2, h3⟩
    by_cases hj : j = x.id g
    · left
      subst hj
      exact ⟨((bonded_lt_iff g x hx i h1).1 h3).2, rfl⟩
    · exact Or.inr ⟨h1, by omega, h3⟩

theorem core_spec (g : Geometry) {n : ℕ} {s : Snap FP} (x : Place) (hx : x.Valid g)
    (hc : x.type = .core) (h : Written g n (x.id g) s) : Written g n (x.id g + 1) s := by
  refine ⟨h.write, h.notProcessed, h.dflt, h.contiguous, h.count, h.types, h.bondsOK, ?_⟩
  intro i j
  rw [h.bonds]
  constructor
  · rintro ⟨h1, h2, h3⟩
    exact ⟨h1, by omega, h3⟩
  · rintro ⟨h1, h2, h3⟩
    by_cases hj : j = x.id g
    · subst hj
      exact absurd hc ((bonded_lt_iff g x hx i h1).1 h3).1
    · exact ⟨h1, by omega, h3⟩

/-- Loops over a range with an invariant. -/
theorem foldlM_range {S : Type} (P : ℕ → S → Prop) (body : S → ℕ → Except Err S) (n : ℕ)
    (hstep : ∀ k < n, ∀ s, P k s → ∃ s', body s k = .ok s' ∧ P (k + 1) s') (s : S) (h0 : P 0 s) :
    ∃ s', (List.range n).foldlM body s = .ok s' ∧ P n s' := by
  induction n with
  | zero => exact ⟨s, rfl, h0⟩
  | succ n ih =>
    obtain ⟨s1, h1, h2⟩ := ih fun k hk => hstep k (by omega)
    obtain ⟨s2, h3, h4⟩ := hstep n (by omega) s1 h2
    refine ⟨s2, ?_, h4⟩
    rw [List.range_succ, List.foldlM_append, h1]
    show (do let x ← body s1 n; List.foldlM body x []) = _
    rw [h3]
    rfl

/-- Size of an arm with its magnetic particle. -/
def extended (g : Geometry) : ℕ := g.particleCountPerArm + g.hasMagneticParticles.toNat

theorem writeArm_spec (g : Geometry) (st a : ℕ) (hs : st < g.starCount) (ha : a < g.armCountPerStar)
    {s : Snap FP}
    (h : Written g (g.getCoreParticleID st + 1 + a * extended g)
      (g.getCoreParticleID st + 1 + a * extended g) s) :
    ∃ s', writeArm g (g.getCoreParticleID st) s = .ok s' ∧
      Written g (g.getCoreParticleID st + 1 + (a + 1) * extended g)
        (g.getCoreParticleID st + 1 + (a + 1) * extended g) s' := by
  set n := g.getCoreParticleID st + 1 + a * extended g with hn
  have harm : ∀ k, (Place.arm st a k).id g = n + k := fun k => rfl
  have hmag : (Place.magnetic st a).id g = n + g.particleCountPerArm := rfl
  have hval : ∀ k < g.particleCountPerArm, (Place.arm st a k).Valid g := fun k hk => ⟨hs, ha, hk⟩
  -- the arm particles
  have step1 : ∃ s1 f l, declare s g.particleCountPerArm .arm = .ok (s1, f, l) ∧
      (g.particleCountPerArm ≠ 0 → f = n) ∧ Written g (n + g.particleCountPerArm) n s1 := by
    by_cases h0 : g.particleCountPerArm = 0
    · refine ⟨s, 0, 0, ?_, fun h => absurd h0 h, by rw [h0]; exact h⟩
      unfold declare declareAtoms
      have hchk : checkWritable s = .ok () := by simp [checkWritable, h.write, h.notProcessed]
      simp only [hchk]
      rw [if_pos h0]
      rfl
    · obtain ⟨s1, h1, h2⟩ := declare_spec g h g.particleCountPerArm h0 .arm (by
        intro k hk
        rw [← harm k]
        exact (C29_cpp g _ (hval k hk)).2.2)
      exact ⟨s1, n, _, h1, fun _ => rfl, h2⟩
  obtain ⟨s1, f, l, e1, hf, w1⟩ := step1
  -- their bonds
  obtain ⟨s2, e2, w2⟩ := foldlM_range (fun k s => Written g (n + g.particleCountPerArm) (n + k) s)
    (fun s pIA => do
      if pIA = 0 then
        let (s, _) ← call (declareBond s (g.getCoreParticleID st) f)
        return s
      let ID := f + pIA
      let (s, _) ← call (declareBond s (ID - 1) ID)
      return s) g.particleCountPerArm (by
    intro k hk t ht
    have hfn : f = n := hf (by omega)
    subst hfn
    obtain ⟨t', e, w⟩ := bond_spec g (Place.arm st a k) (hval k hk) (by simp [Place.type])
      (by rw [harm]; exact ht) (by rw [harm]; omega)
    refine ⟨t', ?_, by rw [harm] at w; exact w⟩
    rw [harm] at e
    cases k with
    | zero =>
      have : (parent g (Place.arm st a 0)).id g = g.getCoreParticleID st := rfl
      rw [this] at e
      simp only [if_true]
      show (do let (s, _) ← call (declareBond t (g.getCoreParticleID st) n); return s) = _
      rw [show n + 0 = n from rfl] at e
      rw [e]
      rfl
    | succ k =>
      have : (parent g (Place.arm st a (k + 1))).id g = n + (k + 1) - 1 := by
        show (Place.arm st a k).id g = _
        rw [harm]; omega
      rw [this] at e
      rw [if_neg (Nat.succ_ne_zero k)]
      show (do let (s, _) ← call (declareBond t (n + (k + 1) - 1) (n + (k + 1))); return s) = _
      rw [e]
      rfl) s1 w1
  unfold writeArm
  rw [e1]
  simp only [bind, Except.bind]
  erw [e2]
  simp only
  have hnext : g.getCoreParticleID st + 1 + (a + 1) * extended g = n + extended g := by
    rw [hn]; ring
  rw [hnext]
  by_cases hm : g.hasMagneticParticles = true
  · have hext : extended g = g.particleCountPerArm + 1 := by unfold extended; rw [hm]; rfl
    have hvalm : (Place.magnetic st a).Valid g := ⟨hs, ha, hm⟩
    rw [if_pos hm]
    obtain ⟨s3, e3, w3⟩ := declare_spec g w2 1 (by omega) .magnetic (by
      intro k hk
      have : k = 0 := by omega
      subst this
      rw [Nat.add_zero, ← hmag]
      exact (C29_cpp g _ hvalm).2.2)
    rw [e3]
    obtain ⟨s4, e4, w4⟩ := bond_spec g (Place.magnetic st a) hvalm (by simp [Place.type])
      (by rw [hmag]; exact w3) (by rw [hmag]; omega)
    rw [hmag] at e4 w4
    refine ⟨s4, ?_, by rw [hext]; exact w4⟩
    simp only
    by_cases h0 : g.particleCountPerArm = 0
    · rw [if_pos h0]
      have : (parent g (Place.magnetic st a)) = .core st := if_pos h0
      rw [this] at e4
      have e5 : call (declareBond s3 (g.getCoreParticleID st) (n + g.particleCountPerArm)) =
        .ok (s4, ()) := e4
      rw [e5]
      rfl
    · rw [if_neg h0]
      have : (parent g (Place.magnetic st a)) = .arm st a (g.particleCountPerArm - 1) := if_neg h0
      rw [this, harm] at e4
      rw [show n + (g.particleCountPerArm - 1) = n + g.particleCountPerArm - 1 by omega] at e4
      rw [e4]
      rfl
  · rw [if_neg hm]
    have hext : extended g = g.particleCountPerArm := by
      unfold extended
      simp only [Bool.not_eq_true] at hm
      rw [hm]; rfl
    exact ⟨s2, rfl, by rw [hext]; exact w2⟩

theorem write_spec (g : Geometry) :
    ∃ s' : Snap FP, writeStructureToSnapshot g { writeMode := true } = .ok s' ∧
      Written g g.getParticleCount g.getParticleCount s' := by
  unfold writeStructureToSnapshot
  simp only [not_true_eq_false, if_false, Bool.false_eq_true]
  have hper : ∀ st, g.getCoreParticleID (st + 1) =
      g.getCoreParticleID st + 1 + g.armCountPerStar * extended g := by
    intro st
    unfold Geometry.getCoreParticleID Geometry.getParticleCountPerStar extended
    ring
  obtain ⟨s', e, w⟩ := foldlM_range
    (fun st s => Written (FP := FP) g (g.getCoreParticleID st) (g.getCoreParticleID st) s)
    (fun s _ => do
      let (s, coreID, _) ← declare s 1 .core
      (List.range g.armCountPerStar).foldlM (fun s _ => writeArm g coreID s) s) g.starCount (by
    intro st hst t ht
    have hv : (Place.core st).Valid g := hst
    obtain ⟨s1, e1, w1⟩ := declare_spec g ht 1 (by omega) .core (by
      intro k hk
      have : k = 0 := by omega
      subst this
      exact (C29_cpp g _ hv).2.2)
    have w1' := core_spec g (Place.core st) hv rfl w1
    obtain ⟨s2, e2, w2⟩ := foldlM_range
      (fun a s => Written (FP := FP) g (g.getCoreParticleID st + 1 + a * extended g)
        (g.getCoreParticleID st + 1 + a * extended g) s)
      (fun s _ => writeArm g (g.getCoreParticleID st) s) g.armCountPerStar
      (fun a ha t ht => writeArm_spec g st a hst ha ht) s1 (by rw [Nat.zero_mul, Nat.add_zero]; exact w1')
    refine ⟨s2, ?_, by rw [hper]; exact w2⟩
    rw [e1]
    simp only [bind, Except.bind]
    exact e2) ({ writeMode := true } : Snap FP) (by
      have h0 : g.getCoreParticleID 0 = 0 := by simp [Geometry.getCoreParticleID]
      rw [h0]
      exact ⟨rfl, rfl, rfl, trivial, rfl, fun i hi => absurd hi (Nat.not_lt_zero _),
        ⟨by simp, by simp⟩, by simp⟩)
  exact ⟨s', e, w⟩

/-! ## Checking -/

theorem allM_ok (f : ℕ → Except Err Bool) (l : List ℕ) (h : ∀ i ∈ l, f i = .ok true) :
    allM f l = .ok true := by
  induction l with
  | nil => rfl
  | cons a l ih =>
    unfold allM
    rw [h a List.mem_cons_self]
    exact ih fun i hi => h i (List.mem_cons_of_mem _ hi)

theorem allM_true (f : ℕ → Except Err Bool) (l : List ℕ) (h : allM f l = .ok true) :
    ∀ i ∈ l, f i = .ok true := by
  induction l with
  | nil => simp
  | cons a l ih =>
    unfold allM at h
    rcases hf : f a with e | b
    · rw [hf] at h; cases h
    · rw [hf] at h
      cases b
      · cases h
      · intro i hi
        rcases List.mem_cons.1 hi with rfl | hi
        · exact hf
        · exact ih h i hi

/-- A snapshot describing these star polymers: number and types of the atoms, bonds. -/
structure Describes (g : Geometry) (s : Snap FP) : Prop where
  read : s.writeMode = false
  count : numberOfAtoms s.atomRanges = g.getParticleCount
  types : ∀ x : Place, x.Valid g → ∃ props, getAtomProperties s.atomRanges (x.id g) = .ok props ∧
    props.type = some (typeString x.type)
  bonds : ∀ x y : Place, x.Valid g → y.Valid g → x ≠ y →
    (hasBond s (x.id g) (y.id g) = .ok true ↔ Place.Adjacent g x y)

/-- C31: `snapshotStructureIsCompatible` is true exactly for the snapshots describing the star
polymers. -/
theorem C31_compatible_iff (g : Geometry) (s : Snap FP) :
    snapshotStructureIsCompatible g s = .ok true ↔ Describes g s := by
  classical
  constructor
  · intro h
    unfold snapshotStructureIsCompatible at h
    by_cases hw : s.writeMode = true
    · rw [if_pos hw] at h; cases h
    · rw [if_neg hw] at h
      by_cases hc : numberOfAtoms s.atomRanges = g.getParticleCount
      · rw [if_neg (by simpa using hc)] at h
        rcases ht : allM (fun p => do
            let props ← getAtomProperties s.atomRanges p
            return decide (props.type = some (typeString (g.getParticleType p))))
            (List.range g.getParticleCount) with e | b
        · rw [ht] at h; cases h
        · rw [ht] at h
          cases b
          · cases h
          · have hb : allM (fun p1 => allM (fun p2 =>
                match g.particlesAreBonded p1 p2 with
                | none => .error .exception
                | some bonded => do return decide (bonded = (← hasBond s p1 p2)))
                (List.range' (p1 + 1) (g.getParticleCount - (p1 + 1))))
                (List.range g.getParticleCount) = .ok true := h
            refine ⟨by simpa using hw, hc, ?_, ?_⟩
            · intro x hx
              have := allM_true _ _ ht (x.id g) (List.mem_range.2 (id_lt g x hx))
              rcases hp : getAtomProperties s.atomRanges (x.id g) with e | props
              · rw [hp] at this; cases this
              · rw [hp] at this
                refine ⟨props, rfl, ?_⟩
                have h2 : Except.ok (decide (props.type = some (typeString (g.getParticleType (x.id g))))) =
                  (Except.ok true : Except Err Bool) := this
                rw [(C29_cpp g x hx).2.2] at h2
                simpa using h2
            · have key : ∀ x y : Place, x.Valid g → y.Valid g → x.id g < y.id g →
                  (hasBond s (x.id g) (y.id g) = .ok true ↔ Place.Adjacent g x y) := by
                intro x y hx hy hlt
                have hne : x ≠ y := by rintro rfl; exact lt_irrefl _ hlt
                have h1 := allM_true _ _ hb (x.id g) (List.mem_range.2 (id_lt g x hx))
                have h2 := allM_true _ _ h1 (y.id g) (by
                  rw [List.mem_range'_1]
                  have := id_lt g y hy
                  omega)
                rw [C30_cpp g x y hx hy hne] at h2
                rcases hh : hasBond s (x.id g) (y.id g) with e | b
                · rw [hh] at h2; cases h2
                · rw [hh] at h2
                  have h3 : Except.ok (decide (decide (Place.Adjacent g x y) = b)) =
                    (Except.ok true : Except Err Bool) := h2
                  simp only [Except.ok.injEq, decide_eq_true_eq] at h3
                  rw [← h3]
                  simp
              intro x y hx hy hne
              have hid : x.id g ≠ y.id g := fun h => hne ((C29_bijection g).injOn hx hy h)
              rcases Nat.lt_or_gt_of_ne hid with hlt | hlt
              · exact key x y hx hy hlt
              · rw [(C27_hasBond s _ _).1, key y x hy hx hlt, ← bonded_iff g hy hx, ← bonded_iff g hx hy]
                exact ⟨fun h => (C30_symmetric g _ _ h).1, fun h => (C30_symmetric g _ _ h).1⟩
      · rw [if_pos (by simpa using hc)] at h; cases h
  · intro h
    unfold snapshotStructureIsCompatible
    rw [if_neg (by simp [h.read]), if_neg (by simpa using h.count)]
    rw [allM_ok]
    · show allM _ _ = _
      apply allM_ok
      intro p1 hp1
      apply allM_ok
      intro p2 hp2
      rw [List.mem_range] at hp1
      rw [List.mem_range'_1] at hp2
      obtain ⟨x, hx, rfl⟩ := exists_place g p1 hp1
      obtain ⟨y, hy, rfl⟩ := exists_place g p2 (by omega)
      have hne : x ≠ y := by rintro rfl; omega
      rw [C30_cpp g x y hx hy hne]
      obtain ⟨r, hr⟩ := (C27_hasBond s (x.id g) (y.id g)).2.1
        ⟨by rw [h.count]; exact hp1, by rw [h.count]; omega, by omega⟩
      have := h.bonds x y hx hy hne
      rw [hr] at this ⊢
      show Except.ok (decide (decide (Place.Adjacent g x y) = r)) = _
      cases r
      · have : ¬ Place.Adjacent g x y := by rw [← this]; simp
        simp [this]
      · have : Place.Adjacent g x y := this.1 rfl
        simp [this]
    · intro i hi
      rw [List.mem_range] at hi
      obtain ⟨x, hx, rfl⟩ := exists_place g i hi
      obtain ⟨props, h1, h2⟩ := h.types x hx
      rw [h1, (C29_cpp g x hx).2.2]
      show Except.ok (decide (props.type = some (typeString x.type))) = _
      simp [h2]

/-- C31: writing the structure to a new snapshot never fails; the same structure in read mode is
compatible, and its bonds are exactly the bonded pairs. -/
theorem C31_write (g : Geometry) :
    ∃ s : Snap FP, writeStructureToSnapshot g { writeMode := true } = .ok s ∧
      s.writeMode = true ∧ s.structureBlockProcessed = false ∧ s.defaultAtomProperties = {} ∧
      numberOfAtoms s.atomRanges = g.getParticleCount ∧
      Contiguous 0 s.atomRanges ∧ BondsOK s ∧
      (∀ r ∈ s.atomRanges, r.properties.radius = none ∧ r.properties.name = none ∧
        ∃ t, r.properties.type = some (typeString t)) ∧
      (∀ i j, (i, j) ∈ s.bonds ↔ i < j ∧ Bonded g i j) ∧
      (∀ s' : Snap FP, s'.writeMode = false → s'.atomRanges = s.atomRanges → s'.bonds = s.bonds →
        snapshotStructureIsCompatible g s' = .ok true) := by
  obtain ⟨s, e, w⟩ := write_spec (FP := FP) g
  refine ⟨s, e, w.write, w.notProcessed, w.dflt, w.count, w.contiguous, w.bondsOK, ?_, ?_, ?_⟩
  · -- every range contains an atom
    have key : ∀ (n : ℕ) (l : List (AtomRange FP)), Contiguous n l → ∀ r ∈ l,
        lookup l r.last = some r.properties ∧ r.last < ending n l := by
      intro n l
      induction l generalizing n with
      | nil => intro _ r hr; cases hr
      | cons a l ih =>
        intro hl r hr
        have hend := contiguous_ending hl.2.2
        rcases List.mem_cons.1 hr with rfl | hr
        · exact ⟨if_pos (le_refl _), by simp only [ending]; omega⟩
        · obtain ⟨k1, k2⟩ := ih _ hl.2.2 r hr
          refine ⟨?_, k2⟩
          have : a.last < r.last := by
            have hfirst : ∀ (n : ℕ) (l : List (AtomRange FP)), Contiguous n l → ∀ r ∈ l, n ≤ r.last := by
              intro n l
              induction l generalizing n with
              | nil => intro _ r hr; cases hr
              | cons b l ih =>
                intro hl r hr
                have h1 := hl.1
                have h2 := hl.2.1
                rcases List.mem_cons.1 hr with rfl | hr
                · omega
                · have := ih _ hl.2.2 r hr
                  omega
            exact hfirst _ l hl.2.2 r hr
          rw [lookup, if_neg (by omega)]
          exact k1
    intro r hr
    obtain ⟨k1, k2⟩ := key 0 _ w.contiguous r hr
    rw [← numberOfAtoms_eq, w.count] at k2
    rw [w.types _ k2] at k1
    have := Option.some.inj k1
    rw [← this]
    exact ⟨rfl, rfl, _, rfl⟩
  · intro i j
    rw [w.bonds]
    constructor
    · rintro ⟨h1, -, h3⟩
      exact ⟨h1, h3⟩
    · rintro ⟨h1, h3⟩
      exact ⟨h1, h3.2.1, h3⟩
  · intro s' hr ha hb
    rw [C31_compatible_iff]
    refine ⟨hr, by rw [ha]; exact w.count, ?_, ?_⟩
    · intro x hx
      rw [ha, getAtomProperties_eq, w.types _ (id_lt g x hx), (C29_cpp g x hx).2.2]
      exact ⟨_, rfl, rfl⟩
    · have key : ∀ x y : Place, x.Valid g → y.Valid g → x.id g < y.id g →
          (hasBond s' (x.id g) (y.id g) = .ok true ↔ Place.Adjacent g x y) := by
        intro x y hx hy hlt
        unfold hasBond
        have h1 := id_lt g x hx
        have h2 := id_lt g y hy
        rw [ha, w.count, if_neg (by omega), if_neg (by omega), if_neg (by omega : ¬ y.id g < x.id g), hb]
        simp only [Except.ok.injEq, decide_eq_true_eq, w.bonds]
        rw [← bonded_iff g hx hy]
        constructor
        · rintro ⟨-, -, h⟩; exact h
        · intro h; exact ⟨hlt, h2, h⟩
      intro x y hx hy hne
      have hid : x.id g ≠ y.id g := fun h => hne ((C29_bijection g).injOn hx hy h)
      rcases Nat.lt_or_gt_of_ne hid with hlt | hlt
      · exact key x y hx hy hlt
      · rw [(C27_hasBond s' _ _).1, key y x hy hx hlt, ← bonded_iff g hy hx, ← bonded_iff g hx hy]
        exact ⟨fun h => (C30_symmetric g _ _ h).1, fun h => (C30_symmetric g _ _ h).1⟩

end OpenMPCD.Star
