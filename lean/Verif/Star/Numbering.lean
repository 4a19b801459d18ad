import Verif.Star.Model
import Mathlib.Data.Set.Function
import Mathlib.Logic.Relation
import Mathlib.Tactic.Ring
import Mathlib.Algebra.Order.Group.Int

/-!
# C29 and C30: particle numbering and bonds of star polymers
-/

set_option linter.unusedSimpArgs false

namespace OpenMPCD.Star

/-! ## Specification -/

/-- The places in a set of star polymers. -/
inductive Place
  | core (star : ℕ)
  | arm (star arm position : ℕ)
  | magnetic (star arm : ℕ)
  deriving DecidableEq

namespace Place

/-- The places that exist. -/
def Valid (g : Geometry) : Place → Prop
  | core s => s < g.starCount
  | arm s a k => s < g.starCount ∧ a < g.armCountPerStar ∧ k < g.particleCountPerArm
  | magnetic s a => s < g.starCount ∧ a < g.armCountPerStar ∧ g.hasMagneticParticles = true

def star : Place → ℕ
  | core s => s
  | arm s _ _ => s
  | magnetic s _ => s

def type : Place → PType
  | core _ => .core
  | arm _ _ _ => .arm
  | magnetic _ _ => .magnetic

/-- Number of bonds between the place and the core. -/
def depth (g : Geometry) : Place → ℕ
  | core _ => 0
  | arm _ _ k => k + 1
  | magnetic _ _ => g.particleCountPerArm + 1

/-- Both in the same arm, or one of them the core. -/
def sameArm : Place → Place → Prop
  | core _, _ => True
  | _, core _ => True
  | arm _ a _, arm _ b _ => a = b
  | arm _ a _, magnetic _ b => a = b
  | magnetic _ a, arm _ b _ => a = b
  | magnetic _ a, magnetic _ b => a = b

/-- Neighbours: next to each other in the same star and arm. -/
def Adjacent (g : Geometry) (x y : Place) : Prop :=
  x.star = y.star ∧ sameArm x y ∧ (x.depth g + 1 = y.depth g ∨ y.depth g + 1 = x.depth g)

/-- The particle ID the three overloads of `getParticleID` return. -/
def id (g : Geometry) : Place → ℕ
  | core s => g.getCoreParticleID s
  | arm s a k => g.getArmParticleID s a k
  | magnetic s a => g.getMagneticParticleID s a

/-- What the C++ function reports about a place. The position of a magnetic particle in its arm is the
one following the last arm particle. -/
def cppIndices (g : Geometry) : Place → Geometry.Indices
  | core s => ⟨s, true, none, false, none⟩
  | arm s a k => ⟨s, false, some a, false, some k⟩
  | magnetic s a => ⟨s, false, some a, true, some g.particleCountPerArm⟩

/-- What the Python function is documented to report about a place. -/
def pyIndices : Place → ℕ × Option ℕ × Option ℕ
  | core s => (s, none, none)
  | arm s a k => (s, some a, some k)
  | magnetic s a => (s, some a, none)

end Place

/-! ## Arithmetic -/

theorem decode {P n s a k : ℕ} {A : ℕ} (hP : P = 1 + A * n) (ha : a < A) (hk : k < n) :
    (s * P + 1 + a * n + k) / P = s ∧ (s * P + 1 + a * n + k) % P ≠ 0 ∧
    ((s * P + 1 + a * n + k) % P - 1) / n = a ∧ ((s * P + 1 + a * n + k) % P - 1) % n = k ∧
    s * P + 1 + a * n + k < (s + 1) * P := by
  have h1 : a * n + k < A * n := by
    calc a * n + k < a * n + n := by omega
      _ = (a + 1) * n := by ring
      _ ≤ A * n := Nat.mul_le_mul_right n ha
  have hlt : 1 + (a * n + k) < P := by omega
  have e : s * P + 1 + a * n + k = 1 + (a * n + k) + P * s := by ring
  have hPpos : 0 < P := by omega
  have hdiv : (1 + (a * n + k) + P * s) / P = s := by
    rw [Nat.add_mul_div_left _ _ hPpos, Nat.div_eq_of_lt hlt, zero_add]
  have hmod : (1 + (a * n + k) + P * s) % P = 1 + (a * n + k) := by
    rw [Nat.add_mul_mod_self_left, Nat.mod_eq_of_lt hlt]
  have hn : 0 < n := by omega
  rw [e, hdiv, hmod]
  refine ⟨rfl, by omega, ?_, ?_, ?_⟩
  · have : 1 + (a * n + k) - 1 = k + n * a := by rw [Nat.add_sub_cancel_left]; ring
    rw [this, Nat.add_mul_div_left _ _ hn, Nat.div_eq_of_lt hk, zero_add]
  · have : 1 + (a * n + k) - 1 = k + n * a := by rw [Nat.add_sub_cancel_left]; ring
    rw [this, Nat.add_mul_mod_self_left, Nat.mod_eq_of_lt hk]
  · have : (s + 1) * P = P + P * s := by ring
    omega

theorem lt_count {s S P i : ℕ} (hs : s < S) (hi : i < (s + 1) * P) : i < S * P :=
  lt_of_lt_of_le hi (Nat.mul_le_mul_right P hs)

theorem perStar_pos (g : Geometry) : 0 < g.getParticleCountPerStar := by
  unfold Geometry.getParticleCountPerStar; omega

/-- The extended arm length of places in arms. -/
theorem place_in_arm (g : Geometry) {s a k : ℕ} (ha : a < g.armCountPerStar)
    (hk : k < g.particleCountPerArm + g.hasMagneticParticles.toNat) :
    (s * g.getParticleCountPerStar + 1 +
      a * (g.particleCountPerArm + g.hasMagneticParticles.toNat) + k) / g.getParticleCountPerStar = s ∧
    (s * g.getParticleCountPerStar + 1 +
      a * (g.particleCountPerArm + g.hasMagneticParticles.toNat) + k) % g.getParticleCountPerStar ≠ 0 ∧
    ((s * g.getParticleCountPerStar + 1 +
      a * (g.particleCountPerArm + g.hasMagneticParticles.toNat) + k) % g.getParticleCountPerStar - 1) /
        (g.particleCountPerArm + g.hasMagneticParticles.toNat) = a ∧
    ((s * g.getParticleCountPerStar + 1 +
      a * (g.particleCountPerArm + g.hasMagneticParticles.toNat) + k) % g.getParticleCountPerStar - 1) %
        (g.particleCountPerArm + g.hasMagneticParticles.toNat) = k ∧
    s * g.getParticleCountPerStar + 1 +
      a * (g.particleCountPerArm + g.hasMagneticParticles.toNat) + k <
        (s + 1) * g.getParticleCountPerStar :=
  decode (A := g.armCountPerStar) rfl ha hk

theorem arm_bound {g : Geometry} {k : ℕ} (hk : k < g.particleCountPerArm) :
    k < g.particleCountPerArm + g.hasMagneticParticles.toNat := by omega

theorem magnetic_bound {g : Geometry} (h : g.hasMagneticParticles = true) :
    g.particleCountPerArm < g.particleCountPerArm + g.hasMagneticParticles.toNat := by
  rw [h]; simp

/-! ## C29 -/

/-- The particle ID of every place is in range. -/
theorem id_lt (g : Geometry) (x : Place) (h : x.Valid g) : x.id g < g.getParticleCount := by
  unfold Geometry.getParticleCount
  cases x with
  | core s =>
    refine lt_count h ?_
    show s * g.getParticleCountPerStar < _
    have := perStar_pos g
    rw [Nat.succ_mul]
    omega
  | arm s a k => exact lt_count h.1 (place_in_arm g h.2.1 (arm_bound h.2.2)).2.2.2.2
  | magnetic s a => exact lt_count h.1 (place_in_arm g h.2.1 (magnetic_bound h.2.2)).2.2.2.2

/-- C29 (C++): the structure indices of the ID of a place are those of the place. -/
theorem C29_cpp (g : Geometry) (x : Place) (h : x.Valid g) :
    x.id g < g.getParticleCount ∧ g.getParticleStructureIndices (x.id g) = x.cppIndices g ∧
      g.getParticleType (x.id g) = x.type := by
  have key : g.getParticleStructureIndices (x.id g) = x.cppIndices g := by
    unfold Geometry.getParticleStructureIndices
    cases x with
    | core s =>
      show (if (s * g.getParticleCountPerStar) % g.getParticleCountPerStar = 0 then _ else _) = _
      rw [if_pos (Nat.mul_mod_left _ _)]
      show Geometry.Indices.mk ((s * g.getParticleCountPerStar) / _) _ _ _ _ = _
      rw [Nat.mul_div_cancel _ (perStar_pos g)]
      rfl
    | arm s a k =>
      obtain ⟨h1, h2, h3, h4, -⟩ := place_in_arm g (s := s) h.2.1 (arm_bound h.2.2)
      rw [if_neg (show ¬ (Place.id g (.arm s a k)) % g.getParticleCountPerStar = 0 from h2)]
      simp only [Place.id, Geometry.getArmParticleID]
      simp only [h1, h3, h4, Place.cppIndices]
      have : k ≠ g.particleCountPerArm := by have := h.2.2; omega
      simp [this]
    | magnetic s a =>
      obtain ⟨h1, h2, h3, h4, -⟩ := place_in_arm g (s := s) h.2.1 (magnetic_bound h.2.2)
      rw [if_neg (show ¬ (Place.id g (.magnetic s a)) % g.getParticleCountPerStar = 0 from h2)]
      simp only [Place.id, Geometry.getMagneticParticleID]
      simp only [h1, h3, h4, Place.cppIndices]
      simp
  refine ⟨id_lt g x h, key, ?_⟩
  unfold Geometry.getParticleType
  simp only [key]
  cases x <;> rfl

theorem pyCountPerArm_eq (g : Geometry) :
    g.pyCountPerArm = g.particleCountPerArm + g.hasMagneticParticles.toNat := by
  unfold Geometry.pyCountPerArm
  cases g.hasMagneticParticles <;> simp

theorem pyCountPerStar_eq (g : Geometry) : g.pyCountPerStar = g.getParticleCountPerStar := by
  unfold Geometry.pyCountPerStar Geometry.getParticleCountPerStar
  rw [pyCountPerArm_eq]

theorem pyCount_eq (g : Geometry) : g.pyCount = g.getParticleCount := by
  unfold Geometry.pyCount Geometry.getParticleCount
  rw [pyCountPerStar_eq]

/-- C29 (Python): the documented structure indices and types, for the same IDs as in C++. -/
theorem C29_py (g : Geometry) (x : Place) (h : x.Valid g) :
    g.pyCount = g.getParticleCount ∧ g.pyIndices (x.id g) = .ok x.pyIndices ∧
      g.pyType (x.id g) = .ok x.type := by
  have hr : ¬ (((x.id g : ℕ) : ℤ) < 0 ∨ ((x.id g : ℕ) : ℤ) ≥ g.pyCount) := by
    have := id_lt g x h
    rw [pyCount_eq]
    omega
  refine ⟨pyCount_eq g, ?_, ?_⟩
  · unfold Geometry.pyIndices
    rw [if_neg hr]
    simp only [Int.toNat_natCast, pyCountPerStar_eq, pyCountPerArm_eq]
    cases x with
    | core s =>
      show (if (s * g.getParticleCountPerStar) % g.getParticleCountPerStar = 0 then _ else _) = _
      rw [if_pos (Nat.mul_mod_left _ _)]
      show Except.ok ((s * g.getParticleCountPerStar) / _, _, _) = _
      rw [Nat.mul_div_cancel _ (perStar_pos g)]
      rfl
    | arm s a k =>
      obtain ⟨h1, h2, h3, h4, -⟩ := place_in_arm g (s := s) h.2.1 (arm_bound h.2.2)
      rw [if_neg (show ¬ (Place.id g (.arm s a k)) % g.getParticleCountPerStar = 0 from h2)]
      simp only [Place.id, Geometry.getArmParticleID]
      have : k ≠ g.particleCountPerArm := by have := h.2.2; omega
      simp only [h1, h3, h4, Place.pyIndices, this, and_false, if_false]
    | magnetic s a =>
      obtain ⟨h1, h2, h3, h4, -⟩ := place_in_arm g (s := s) h.2.1 (magnetic_bound h.2.2)
      rw [if_neg (show ¬ (Place.id g (.magnetic s a)) % g.getParticleCountPerStar = 0 from h2)]
      simp only [Place.id, Geometry.getMagneticParticleID]
      simp only [h1, h3, h4, Place.pyIndices]
      rw [if_pos ⟨h.2.2, trivial⟩]
  · unfold Geometry.pyType
    rw [if_neg hr]
    simp only [Int.toNat_natCast, pyCountPerStar_eq, pyCountPerArm_eq]
    cases x with
    | core s =>
      show (if (s * g.getParticleCountPerStar) % g.getParticleCountPerStar = 0 then _ else _) = _
      rw [if_pos (Nat.mul_mod_left _ _)]
      rfl
    | arm s a k =>
      obtain ⟨h1, h2, h3, h4, -⟩ := place_in_arm g (s := s) h.2.1 (arm_bound h.2.2)
      rw [if_neg (show ¬ (Place.id g (.arm s a k)) % g.getParticleCountPerStar = 0 from h2)]
      simp only [Place.id, Geometry.getArmParticleID]
      have : k ≠ g.particleCountPerArm := by have := h.2.2; omega
      simp only [h4, this, if_false, Place.type]
    | magnetic s a =>
      obtain ⟨h1, h2, h3, h4, -⟩ := place_in_arm g (s := s) h.2.1 (magnetic_bound h.2.2)
      rw [if_neg (show ¬ (Place.id g (.magnetic s a)) % g.getParticleCountPerStar = 0 from h2)]
      simp only [Place.id, Geometry.getMagneticParticleID]
      simp only [h4, if_true, Place.type]

/-- C29 (Python): IDs out of range are rejected. -/
theorem C29_py_range (g : Geometry) (i : ℤ) (h : i < 0 ∨ (g.getParticleCount : ℤ) ≤ i) :
    g.pyIndices i = .error .indexError ∧ g.pyType i = .error .indexError := by
  unfold Geometry.pyIndices Geometry.pyType
  rw [pyCount_eq, if_pos h, if_pos h]
  exact ⟨rfl, rfl⟩

/-- Every ID belongs to a place. -/
theorem exists_place (g : Geometry) (i : ℕ) (hi : i < g.getParticleCount) :
    ∃ x : Place, x.Valid g ∧ x.id g = i := by
  set P := g.getParticleCountPerStar with hP
  set n := g.particleCountPerArm + g.hasMagneticParticles.toNat with hn
  have hPpos : 0 < P := perStar_pos g
  have hs : i / P < g.starCount := Nat.div_lt_of_lt_mul (by
    unfold Geometry.getParticleCount at hi
    rw [Nat.mul_comm]; exact hi)
  have hdm : i / P * P + i % P = i := by rw [Nat.mul_comm]; exact Nat.div_add_mod i P
  by_cases h0 : i % P = 0
  · refine ⟨.core (i / P), hs, ?_⟩
    show i / P * P = i
    omega
  · have hlt : i % P < 1 + g.armCountPerStar * n := Nat.mod_lt i hPpos
    have hw : i % P - 1 < g.armCountPerStar * n := by omega
    have hnpos : 0 < n := by
      rcases Nat.eq_zero_or_pos n with h | h
      · rw [h] at hw; simp at hw
      · exact h
    have ha : (i % P - 1) / n < g.armCountPerStar := Nat.div_lt_of_lt_mul (by
      rw [Nat.mul_comm]; exact hw)
    have hdm2 : (i % P - 1) / n * n + (i % P - 1) % n = i % P - 1 := by
      rw [Nat.mul_comm]; exact Nat.div_add_mod _ n
    have hk : (i % P - 1) % n < n := Nat.mod_lt _ hnpos
    by_cases hm : (i % P - 1) % n < g.particleCountPerArm
    · refine ⟨.arm (i / P) ((i % P - 1) / n) ((i % P - 1) % n), ⟨hs, ha, hm⟩, ?_⟩
      show i / P * P + 1 + (i % P - 1) / n * n + (i % P - 1) % n = i
      omega
    · have hmag : g.hasMagneticParticles = true ∧ (i % P - 1) % n = g.particleCountPerArm := by
        cases hmm : g.hasMagneticParticles
        · simp [hmm] at hn; omega
        · simp [hmm] at hn; exact ⟨rfl, by omega⟩
      refine ⟨.magnetic (i / P) ((i % P - 1) / n), ⟨hs, ha, hmag.1⟩, ?_⟩
      show i / P * P + 1 + (i % P - 1) / n * n + g.particleCountPerArm = i
      omega

theorem cppIndices_injective (g : Geometry) {x y : Place} (hx : x.Valid g) (hy : y.Valid g)
    (h : x.cppIndices g = y.cppIndices g) : x = y := by
  cases x <;> cases y <;> simp [Place.cppIndices] at h <;> simp [h]

/-- C29: `getParticleID` is a bijection between the places and the IDs below the particle count. -/
theorem C29_bijection (g : Geometry) :
    Set.BijOn (Place.id g) {x | x.Valid g} {i | i < g.getParticleCount} := by
  refine ⟨fun x hx => id_lt g x hx, ?_, ?_⟩
  · intro x hx y hy hxy
    apply cppIndices_injective g hx hy
    rw [← (C29_cpp g x hx).2.1, ← (C29_cpp g y hy).2.1]
    exact congrArg _ hxy
  · intro i hi
    obtain ⟨x, hx, rfl⟩ := exists_place g i hi
    exact ⟨x, hx, rfl⟩

/-! ## C30 -/

open Classical in
/-- C30 (C++): two different particles are bonded exactly if they are neighbours; no variable is read
before it is written. -/
theorem C30_cpp (g : Geometry) (x y : Place) (hx : x.Valid g) (hy : y.Valid g) (hne : x ≠ y) :
    g.particlesAreBonded (x.id g) (y.id g) = some (decide (Place.Adjacent g x y)) := by
  unfold Geometry.particlesAreBonded
  simp only [(C29_cpp g x hx).2.1, (C29_cpp g y hy).2.1]
  cases x with
  | core s =>
    cases y with
    | core t =>
      have : s ≠ t := fun h => hne (by rw [h])
      simp [Place.cppIndices, Place.Adjacent, Place.star, this]
    | arm t b l =>
      simp only [Place.cppIndices, Place.Adjacent, Place.star, Place.sameArm, Place.depth]
      by_cases hst : s = t <;> simp [hst, eq_comm]
    | magnetic t b =>
      simp only [Place.cppIndices, Place.Adjacent, Place.star, Place.sameArm, Place.depth]
      by_cases hst : s = t <;> simp [hst, eq_comm]
  | arm s a k =>
    cases y with
    | core t =>
      simp only [Place.cppIndices, Place.Adjacent, Place.star, Place.sameArm, Place.depth]
      by_cases hst : s = t <;> simp [hst, eq_comm]
    | arm t b l =>
      simp only [Place.cppIndices, Place.Adjacent, Place.star, Place.sameArm, Place.depth]
      by_cases hst : s = t <;> by_cases hab : a = b <;> by_cases h1 : k + 1 = l <;>
        by_cases h2 : l + 1 = k <;> simp [hst, hab, h1, h2]
    | magnetic t b =>
      have hk := hx.2.2
      simp only [Place.cppIndices, Place.Adjacent, Place.star, Place.sameArm, Place.depth]
      have h2 : ¬ (g.particleCountPerArm + 1 = k) := by omega
      have h3 : ¬ (g.particleCountPerArm + 1 + 1 = k + 1) := by omega
      by_cases hst : s = t <;> by_cases hab : a = b <;>
        by_cases h1 : k + 1 = g.particleCountPerArm <;> simp [hst, hab, h1, h2, h3]
  | magnetic s a =>
    cases y with
    | core t =>
      simp only [Place.cppIndices, Place.Adjacent, Place.star, Place.sameArm, Place.depth]
      by_cases hst : s = t <;> simp [hst, eq_comm]
    | arm t b l =>
      have hk := hy.2.2
      simp only [Place.cppIndices, Place.Adjacent, Place.star, Place.sameArm, Place.depth]
      have h2 : ¬ (g.particleCountPerArm + 1 = l) := by omega
      have h3 : ¬ (g.particleCountPerArm + 1 + 1 = l + 1) := by omega
      by_cases hst : s = t <;> by_cases hab : a = b <;>
        by_cases h1 : l + 1 = g.particleCountPerArm <;> simp [hst, hab, h1, h2, h3]
    | magnetic t b =>
      simp only [Place.cppIndices, Place.Adjacent, Place.star, Place.sameArm, Place.depth]
      by_cases hst : s = t <;> by_cases hab : a = b <;> simp [hst, hab]

open Classical in
/-- C30 (Python): the same, also for a particle and itself. -/
theorem C30_py (g : Geometry) (x y : Place) (hx : x.Valid g) (hy : y.Valid g) :
    g.pyBonded (x.id g) (y.id g) = .ok (decide (Place.Adjacent g x y)) := by
  have hrx : ¬ (((x.id g : ℕ) : ℤ) < 0 ∨ ((x.id g : ℕ) : ℤ) ≥ g.pyCount) := by
    have := id_lt g x hx
    rw [pyCount_eq]
    omega
  have hry : ¬ (((y.id g : ℕ) : ℤ) < 0 ∨ ((y.id g : ℕ) : ℤ) ≥ g.pyCount) := by
    have := id_lt g y hy
    rw [pyCount_eq]
    omega
  unfold Geometry.pyBonded
  rw [if_neg hrx, if_neg hry]
  by_cases hxy : x = y
  · subst hxy
    rw [if_pos rfl]
    have : ¬ Place.Adjacent g x x := by
      rintro ⟨-, -, h | h⟩ <;> omega
    simp [this]
  · have hid : ((x.id g : ℕ) : ℤ) ≠ (y.id g : ℕ) := by
      intro h
      exact hxy ((C29_bijection g).injOn hx hy (by exact_mod_cast h))
    rw [if_neg hid, (C29_py g x hx).2.1, (C29_py g y hy).2.1]
    cases x with
    | core s =>
      cases y with
      | core t =>
        have : s ≠ t := fun h => hxy (by rw [h])
        simp [Place.pyIndices, Place.Adjacent, Place.star, this]
      | arm t b l =>
        have := hy.2.2
        have h0 : g.particleCountPerArm ≠ 0 := by omega
        simp only [Place.pyIndices, Place.Adjacent, Place.star, Place.sameArm, Place.depth]
        by_cases hst : s = t <;> simp [hst, h0]
      | magnetic t b =>
        have hm := hy.2.2
        simp only [Place.pyIndices, Place.Adjacent, Place.star, Place.sameArm, Place.depth]
        by_cases hst : s = t <;> by_cases h0 : g.particleCountPerArm = 0 <;> simp [hst, h0, hm]
    | arm s a k =>
      have hk := hx.2.2
      cases y with
      | core t =>
        have h0 : g.particleCountPerArm ≠ 0 := by omega
        simp only [Place.pyIndices, Place.Adjacent, Place.star, Place.sameArm, Place.depth]
        by_cases hst : s = t <;> simp [hst, h0]
      | arm t b l =>
        simp only [Place.pyIndices, Place.Adjacent, Place.star, Place.sameArm, Place.depth]
        have habs : |(k : ℤ) - l| = 1 ↔ (k + 1 = l ∨ l + 1 = k) := by
          constructor
          · intro h
            rcases abs_eq (by norm_num : (0 : ℤ) ≤ 1) |>.1 h with h | h <;> omega
          · rintro (h | h)
            · have : (k : ℤ) - l = -1 := by omega
              rw [this]; rfl
            · have : (k : ℤ) - l = 1 := by omega
              rw [this]; rfl
        by_cases hst : s = t <;> by_cases hab : a = b <;> simp [hst, hab, habs]
      | magnetic t b =>
        simp only [Place.pyIndices, Place.Adjacent, Place.star, Place.sameArm, Place.depth]
        have h3 : ¬ (g.particleCountPerArm + 1 + 1 = k + 1) := by omega
        have h4 : ((k : ℤ) = (g.particleCountPerArm : ℤ) - 1) ↔ k + 1 = g.particleCountPerArm := by omega
        by_cases hst : s = t <;> by_cases hab : a = b <;> simp [hst, hab, h3, h4]
        omega
    | magnetic s a =>
      have hm := hx.2.2
      cases y with
      | core t =>
        simp only [Place.pyIndices, Place.Adjacent, Place.star, Place.sameArm, Place.depth]
        by_cases hst : s = t <;> by_cases h0 : g.particleCountPerArm = 0 <;> simp [hst, h0, hm]
      | arm t b l =>
        have hk := hy.2.2
        simp only [Place.pyIndices, Place.Adjacent, Place.star, Place.sameArm, Place.depth]
        have h3 : ¬ (g.particleCountPerArm + 1 + 1 = l + 1) := by omega
        have h4 : ((l : ℤ) = (g.particleCountPerArm : ℤ) - 1) ↔ l + 1 = g.particleCountPerArm := by omega
        by_cases hst : s = t <;> by_cases hab : a = b <;> simp [hst, hab, h3, h4]
        omega
      | magnetic t b =>
        simp only [Place.pyIndices, Place.Adjacent, Place.star, Place.sameArm, Place.depth]
        by_cases hst : s = t <;> by_cases hab : a = b <;> simp [hst, hab]

/-- Bonds in the C++ code between valid, different particle IDs. -/
def Bonded (g : Geometry) (i j : ℕ) : Prop :=
  i < g.getParticleCount ∧ j < g.getParticleCount ∧ i ≠ j ∧ g.particlesAreBonded i j = some true

theorem bonded_iff (g : Geometry) {x y : Place} (hx : x.Valid g) (hy : y.Valid g) :
    Bonded g (x.id g) (y.id g) ↔ Place.Adjacent g x y := by
  classical
  by_cases hxy : x = y
  · subst hxy
    constructor
    · rintro ⟨-, -, h, -⟩; exact absurd rfl h
    · rintro ⟨-, -, h | h⟩ <;> omega
  · have hid : x.id g ≠ y.id g := fun h => hxy ((C29_bijection g).injOn hx hy h)
    unfold Bonded
    rw [C30_cpp g x y hx hy hxy]
    simp [id_lt g x hx, id_lt g y hy, hid]

/-- C30: the bond relation is symmetric, and links particles of the same star only. -/
theorem C30_symmetric (g : Geometry) (i j : ℕ) (h : Bonded g i j) :
    Bonded g j i ∧ (g.getParticleStructureIndices i).starID = (g.getParticleStructureIndices j).starID := by
  obtain ⟨x, hx, rfl⟩ := exists_place g i h.1
  obtain ⟨y, hy, rfl⟩ := exists_place g j h.2.1
  rw [bonded_iff g hx hy] at h
  rw [bonded_iff g hy hx, (C29_cpp g x hx).2.1, (C29_cpp g y hy).2.1]
  refine ⟨⟨h.1.symm, ?_, h.2.2.symm⟩, ?_⟩
  · have := h.2.1
    cases x <;> cases y <;> simp_all [Place.sameArm]
  · have := h.1
    cases x <;> cases y <;> simpa [Place.star, Place.cppIndices] using this

/-- The place one bond closer to the core. -/
def parent (g : Geometry) : Place → Place
  | .core s => .core s
  | .arm s _ 0 => .core s
  | .arm s a (k + 1) => .arm s a k
  | .magnetic s a => if g.particleCountPerArm = 0 then .core s else .arm s a (g.particleCountPerArm - 1)

theorem parent_spec (g : Geometry) (x : Place) (hx : x.Valid g) (hcore : x.type ≠ .core) :
    (parent g x).Valid g ∧ Place.Adjacent g x (parent g x) ∧
      (parent g x).depth g + 1 = x.depth g := by
  cases x with
  | core s => exact absurd rfl hcore
  | arm s a k =>
    cases k with
    | zero => exact ⟨hx.1, ⟨rfl, trivial, Or.inr rfl⟩, rfl⟩
    | succ k =>
      refine ⟨⟨hx.1, hx.2.1, ?_⟩, ⟨rfl, rfl, Or.inr rfl⟩, rfl⟩
      have := hx.2.2
      omega
  | magnetic s a =>
    by_cases h0 : g.particleCountPerArm = 0
    · rw [show parent g (.magnetic s a) = .core s from if_pos h0]
      refine ⟨hx.1, ⟨rfl, trivial, Or.inr ?_⟩, ?_⟩ <;> simp [Place.depth, h0]
    · rw [show parent g (.magnetic s a) = .arm s a (g.particleCountPerArm - 1) from if_neg h0]
      refine ⟨⟨hx.1, hx.2.1, by omega⟩, ⟨rfl, rfl, Or.inr ?_⟩, ?_⟩ <;>
        simp [Place.depth] <;> omega

/-- C30: every particle that is not a core has exactly one bonded neighbour closer to the core, by one
bond; cores have none. All bonds are of this kind. Hence the bonds of each star form a tree. -/
theorem C30_tree (g : Geometry) (x : Place) (hx : x.Valid g) :
    (x.type ≠ .core → ∃! y : Place, y.Valid g ∧ Bonded g (x.id g) (y.id g) ∧
      y.depth g < x.depth g) ∧
    (∀ y : Place, y.Valid g → Bonded g (x.id g) (y.id g) →
      x.depth g = y.depth g + 1 ∨ y.depth g = x.depth g + 1) ∧
    (x.type = .core → ∀ y : Place, y.Valid g → Bonded g (x.id g) (y.id g) → x.depth g < y.depth g) := by
  refine ⟨?_, ?_, ?_⟩
  · intro hcore
    have hp := parent_spec g x hx hcore
    refine ⟨parent g x, ⟨hp.1, (bonded_iff g hx hp.1).2 hp.2.1, by omega⟩, ?_⟩
    rintro y ⟨hy, hb, hd⟩
    rw [bonded_iff g hx hy] at hb
    obtain ⟨h1, h2, h3⟩ := hb
    have h3' : y.depth g + 1 = x.depth g := by omega
    clear hp h3 hd
    cases x with
    | core s => exact absurd rfl hcore
    | arm s a k =>
      cases y with
      | core t =>
        simp [Place.depth] at h3'
        simp [Place.star] at h1
        rw [h3', h1]; rfl
      | arm t b l =>
        simp [Place.depth] at h3'
        simp [Place.star] at h1
        simp [Place.sameArm] at h2
        rw [← h3', h1, h2]; rfl
      | magnetic t b =>
        have := hx.2.2
        simp [Place.depth] at h3'
        omega
    | magnetic s a =>
      cases y with
      | core t =>
        simp [Place.depth] at h3'
        simp [Place.star] at h1
        rw [show parent g (.magnetic s a) = .core s from if_pos h3', h1]
      | arm t b l =>
        have := hy.2.2
        simp [Place.depth] at h3'
        simp [Place.star] at h1
        simp [Place.sameArm] at h2
        rw [show parent g (.magnetic s a) = .arm s a (g.particleCountPerArm - 1) from if_neg (by omega), h1, h2]
        congr 1
        omega
      | magnetic t b => simp [Place.depth] at h3'
  · intro y hy hb
    rw [bonded_iff g hx hy] at hb
    obtain ⟨-, -, h | h⟩ := hb
    · exact Or.inr h.symm
    · exact Or.inl h.symm
  · intro hc y hy hb
    rw [bonded_iff g hx hy] at hb
    cases x with
    | core s =>
      obtain ⟨-, -, h | h⟩ := hb
      · omega
      · simp [Place.depth] at h
    | arm s a k => simp [Place.type] at hc
    | magnetic s a => simp [Place.type] at hc

/-- C30: every particle is connected with the core of its star by bonds. -/
theorem C30_connected (g : Geometry) (x : Place) (hx : x.Valid g) :
    Relation.ReflTransGen (Bonded g) (x.id g) (g.getCoreParticleID x.star) := by
  induction hn : x.depth g using Nat.strong_induction_on generalizing x with
  | _ n ih =>
    by_cases hc : x.type = .core
    · cases x with
      | core s => exact Relation.ReflTransGen.refl
      | arm s a k => simp [Place.type] at hc
      | magnetic s a => simp [Place.type] at hc
    · obtain ⟨y, ⟨hy, hb, hd⟩, -⟩ := (C30_tree g x hx).1 hc
      have hs : x.star = y.star := ((bonded_iff g hx hy).1 hb).1
      rw [hs]
      exact Relation.ReflTransGen.head hb (ih _ (hn ▸ hd) y hy rfl)

/-- The hypotheses are met by a geometry with two stars of three arms, with magnetic ends. -/
example : let g : Geometry := ⟨2, 3, 4, true⟩
    (Place.arm 1 2 3).Valid g ∧ (Place.magnetic 1 2).Valid g ∧
    (Place.magnetic 1 2).id g = 31 ∧ g.getParticleCount = 32 ∧
    Bonded g ((Place.arm 1 2 3).id g) ((Place.magnetic 1 2).id g) := by
  refine ⟨⟨by decide, by decide, by decide⟩, ⟨by decide, by decide, rfl⟩, rfl, rfl, ?_⟩
  exact ⟨by decide, by decide, by decide, by decide⟩

end OpenMPCD.Star
