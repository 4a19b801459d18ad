import Verif.Collide.Cells
import Mathlib.Tactic.Linarith
import Mathlib.Tactic.LinearCombination
import Mathlib.Tactic.FieldSimp
import Mathlib.Tactic.NormNum
import Mathlib.Data.Rat.Floor

/-!
# Lees-Edwards image and cell numbering (C17, C18)
-/

set_option linter.unusedSectionVars false

namespace OpenMPCD.Collide

variable {K : Type} [Field K] [LinearOrder K] [IsStrictOrderedRing K] [FloorRing K]

/-! ## Specification -/

/-- The primary simulation volume. -/
def InBox (Lx Ly Lz : ℕ) (p : Vec3 K) : Prop :=
  (0 ≤ p.x ∧ p.x < Lx) ∧ (0 ≤ p.y ∧ p.y < Ly) ∧ (0 ≤ p.z ∧ p.z < Lz)

/-- `q` moved by `nx`, `ny`, `nz` boxes, where the layer `ny` has been displaced along `x` by
`ny * rate * Ly * t`. -/
def translate (Lx Ly Lz : ℕ) (rate t : K) (nx ny nz : ℤ) (q : Vec3 K) : Vec3 K :=
  ⟨q.x + nx * Lx + ny * (rate * Ly * t), q.y + ny * Ly, q.z + nz * Lz⟩

/-- The integer coordinates of the cell a position lies in. -/
def SameUnitCell (p q : Vec3 K) : Prop := ⌊p.x⌋ = ⌊q.x⌋ ∧ ⌊p.y⌋ = ⌊q.y⌋ ∧ ⌊p.z⌋ = ⌊q.z⌋

/-! ## Lees-Edwards -/

theorem reduce_range {L : ℕ} (hL : 0 < L) (x : K) :
    0 ≤ x - (⌊x / (L : K)⌋ : ℤ) * (L : K) ∧ x - (⌊x / (L : K)⌋ : ℤ) * (L : K) < L := by
  have hL' : (0 : K) < L := by exact_mod_cast hL
  have h1 := Int.floor_le (x / (L : K))
  have h2 := Int.lt_floor_add_one (x / (L : K))
  rw [le_div_iff₀ hL'] at h1
  rw [div_lt_iff₀ hL'] at h2
  constructor
  · linarith
  · linarith

theorem floor_unique {L : ℕ} (hL : 0 < L) {x r : K} {n : ℤ} (h0 : 0 ≤ r) (h1 : r < L)
    (h : x = r + n * L) : ⌊x / (L : K)⌋ = n := by
  have hL' : (0 : K) < L := by exact_mod_cast hL
  rw [Int.floor_eq_iff, le_div_iff₀ hL', div_lt_iff₀ hL']
  subst h
  constructor
  · linarith
  · linarith

/-- The two implementations agree. -/
theorem C18_host_device (Lx Ly Lz : ℕ) (t rate : K) (p : Vec3 K) :
    hostImage p t rate Lx Ly Lz =
      deviceImage (relativeLayerVelocity rate Ly) Lx Ly Lz t p := rfl

/-- The image lies in the primary simulation volume. -/
theorem C18_inBox {Lx Ly Lz : ℕ} (hx : 0 < Lx) (hy : 0 < Ly) (hz : 0 < Lz) (t rate : K)
    (p : Vec3 K) : InBox Lx Ly Lz (hostImage p t rate Lx Ly Lz).1 :=
  ⟨reduce_range hx _, reduce_range hy _, reduce_range hz _⟩

/-- The position is a sheared-lattice translate of its image, and the velocity correction is
`-ny * rate * Ly` for the same `ny`. -/
theorem C18_translate (Lx Ly Lz : ℕ) (t rate : K) (p : Vec3 K) :
    ∃ nx ny nz : ℤ,
      p = translate Lx Ly Lz rate t nx ny nz (hostImage p t rate Lx Ly Lz).1 ∧
      (hostImage p t rate Lx Ly Lz).2 = -(ny * (rate * Ly)) := by
  refine ⟨⌊(p.x - (⌊p.y / (Ly : K)⌋ : ℤ) * (rate * Ly * t)) / (Lx : K)⌋,
    ⌊p.y / (Ly : K)⌋, ⌊p.z / (Lz : K)⌋, ?_, ?_⟩
  · ext <;> simp only [hostImage, translate] <;> ring
  · simp only [hostImage]
    ring

/-- The image and the correction are determined: whenever a position is a translate by
`(nx, ny, nz)` of a position in the primary volume, that position is the image, and the correction
is `-ny * rate * Ly`. -/
theorem C18_unique {Lx Ly Lz : ℕ} (t rate : K) {q : Vec3 K} (hq : InBox Lx Ly Lz q)
    (nx ny nz : ℤ) :
    hostImage (translate Lx Ly Lz rate t nx ny nz q) t rate Lx Ly Lz =
      (q, -(ny * (rate * Ly))) := by
  obtain ⟨⟨hx0, hx1⟩, ⟨hy0, hy1⟩, hz0, hz1⟩ := hq
  have Lxp : 0 < Lx := by
    have : (0 : K) < Lx := lt_of_le_of_lt hx0 hx1
    exact_mod_cast this
  have Lyp : 0 < Ly := by
    have : (0 : K) < Ly := lt_of_le_of_lt hy0 hy1
    exact_mod_cast this
  have Lzp : 0 < Lz := by
    have : (0 : K) < Lz := lt_of_le_of_lt hz0 hz1
    exact_mod_cast this
  have e1 : ⌊(q.y + ny * Ly) / (Ly : K)⌋ = ny := floor_unique Lyp hy0 hy1 rfl
  have e2 : ⌊(q.z + nz * Lz) / (Lz : K)⌋ = nz := floor_unique Lzp hz0 hz1 rfl
  have e3 : ⌊(q.x + nx * Lx + ny * (rate * Ly * t) - (ny : K) * (rate * Ly * t)) / (Lx : K)⌋ = nx :=
    floor_unique Lxp hx0 hx1 (by ring)
  simp only [hostImage, translate, e1, e2, e3]
  refine Prod.ext ?_ ?_
  · ext <;> simp only <;> ring
  · simp only
    ring

/-- Positions in the primary volume are their own images, with no velocity correction. -/
theorem C18_identity {Lx Ly Lz : ℕ} (t rate : K) {q : Vec3 K} (hq : InBox Lx Ly Lz q) :
    hostImage q t rate Lx Ly Lz = (q, 0) := by
  have h := C18_unique t rate hq 0 0 0
  have e : translate Lx Ly Lz rate t 0 0 0 q = q := by
    ext <;> simp [translate]
  rw [e] at h
  simpa using h

/-- Positions that are translates of each other have the same image, and their corrections differ
by the relative velocity of their layers. -/
theorem C18_periodic {Lx Ly Lz : ℕ} (hx : 0 < Lx) (hy : 0 < Ly) (hz : 0 < Lz) (t rate : K)
    (p : Vec3 K) (nx ny nz : ℤ) :
    (hostImage (translate Lx Ly Lz rate t nx ny nz p) t rate Lx Ly Lz).1 =
        (hostImage p t rate Lx Ly Lz).1 ∧
      (hostImage (translate Lx Ly Lz rate t nx ny nz p) t rate Lx Ly Lz).2 =
        (hostImage p t rate Lx Ly Lz).2 - ny * (rate * Ly) := by
  obtain ⟨mx, my, mz, hp, hc⟩ := C18_translate Lx Ly Lz t rate p
  have hin := C18_inBox hx hy hz t rate p
  set q := (hostImage p t rate Lx Ly Lz).1 with hqdef
  have e : translate Lx Ly Lz rate t nx ny nz p =
      translate Lx Ly Lz rate t (nx + mx) (ny + my) (nz + mz) q := by
    conv_lhs => rw [hp]
    ext <;> simp only [translate] <;> push_cast <;> ring
  rw [e, C18_unique t rate hin]
  refine ⟨rfl, ?_⟩
  rw [hc]
  push_cast
  ring

/-- A position three layers up and one box to the left, in a sheared box. -/
example : hostImage (⟨-3, 13, 5⟩ : Vec3 ℚ) 2 (1/4) 10 4 6 = (⟨1, 1, 5⟩, -3) := by
  have hq : InBox 10 4 6 (⟨1, 1, 5⟩ : Vec3 ℚ) := by
    refine ⟨⟨?_, ?_⟩, ⟨?_, ?_⟩, ?_, ?_⟩ <;> norm_num
  have h := C18_unique (2 : ℚ) (1/4) hq (-1) 3 0
  have e : translate 10 4 6 (1/4 : ℚ) 2 (-1) 3 0 ⟨1, 1, 5⟩ = ⟨-3, 13, 5⟩ := by
    ext <;> simp only [translate] <;> norm_num
  rw [e] at h
  rw [h]
  norm_num

/-! ## Cell numbering -/

theorem isInPrimarySimulationVolume_iff (Lx Ly Lz : ℕ) (p : Vec3 K) :
    isInPrimarySimulationVolume Lx Ly Lz p = true ↔ InBox Lx Ly Lz p := by
  unfold isInPrimarySimulationVolume InBox
  split_ifs with h1 h2 h3
  · simp only [false_iff]
    rintro ⟨⟨a, b⟩, -⟩
    rcases h1 with h | h <;> linarith
  · simp only [false_iff]
    rintro ⟨-, ⟨a, b⟩, -⟩
    rcases h2 with h | h <;> linarith
  · simp only [false_iff]
    rintro ⟨-, -, a, b⟩
    rcases h3 with h | h <;> linarith
  · simp only [true_iff]
    push Not at h1 h2 h3
    exact ⟨h1, h2, h3⟩

theorem floor_lt_of_inBox {L : ℕ} {x : K} (h0 : 0 ≤ x) (h1 : x < L) : ⌊x⌋₊ < L :=
  (Nat.floor_lt h0).2 h1

theorem index_lt {Lx Ly Lz a b c : ℕ} (ha : a < Lx) (hb : b < Ly) (hc : c < Lz) :
    c * Lx * Ly + b * Lx + a < Lx * Ly * Lz := by
  have h1 : b * Lx + a < Lx * Ly := by
    calc b * Lx + a < b * Lx + Lx := by omega
      _ = (b + 1) * Lx := by ring
      _ ≤ Ly * Lx := Nat.mul_le_mul_right _ hb
      _ = Lx * Ly := by ring
  calc c * Lx * Ly + b * Lx + a < c * Lx * Ly + Lx * Ly := by omega
    _ = (c + 1) * (Lx * Ly) := by ring
    _ ≤ Lz * (Lx * Ly) := Nat.mul_le_mul_right _ hc
    _ = Lx * Ly * Lz := by ring

theorem index_inj {Lx Ly a b c a' b' c' : ℕ} (ha : a < Lx) (hb : b < Ly) (ha' : a' < Lx)
    (hb' : b' < Ly) (h : c * Lx * Ly + b * Lx + a = c' * Lx * Ly + b' * Lx + a') :
    a = a' ∧ b = b' ∧ c = c' := by
  have e1 : Lx * (c * Ly + b) + a = Lx * (c' * Ly + b') + a' := by
    have l : Lx * (c * Ly + b) + a = c * Lx * Ly + b * Lx + a := by ring
    have r : Lx * (c' * Ly + b') + a' = c' * Lx * Ly + b' * Lx + a' := by ring
    rw [l, r, h]
  have m := congrArg (· % Lx) e1
  have d := congrArg (· / Lx) e1
  have hL : 0 < Lx := by omega
  simp only [Nat.mul_add_mod, Nat.mod_eq_of_lt ha, Nat.mod_eq_of_lt ha'] at m
  simp only [Nat.mul_add_div hL, Nat.div_eq_of_lt ha, Nat.div_eq_of_lt ha', Nat.add_zero] at d
  have hM : 0 < Ly := by omega
  have m2 := congrArg (· % Ly) d
  have d2 := congrArg (· / Ly) d
  simp only [Nat.mul_comm _ Ly, Nat.mul_add_mod, Nat.mod_eq_of_lt hb, Nat.mod_eq_of_lt hb'] at m2
  simp only [Nat.mul_comm _ Ly, Nat.mul_add_div hM, Nat.div_eq_of_lt hb, Nat.div_eq_of_lt hb',
    Nat.add_zero] at d2
  exact ⟨m, m2, d2⟩

/-- The index without the modular arithmetic. -/
theorem getCollisionCellIndex_eq {Lx Ly Lz : ℕ} (hN : Lx * Ly * Lz < 2 ^ 32) {p : Vec3 K}
    (hp : InBox Lx Ly Lz p) :
    getCollisionCellIndex Lx Ly p = ⌊p.z⌋₊ * Lx * Ly + ⌊p.y⌋₊ * Lx + ⌊p.x⌋₊ := by
  obtain ⟨⟨hx0, hx1⟩, ⟨hy0, hy1⟩, hz0, hz1⟩ := hp
  have hx := floor_lt_of_inBox hx0 hx1
  have hy := floor_lt_of_inBox hy0 hy1
  have hz := floor_lt_of_inBox hz0 hz1
  have hi := index_lt hx hy hz
  have px : Lx ≤ Lx * Ly * Lz := by
    rw [Nat.mul_assoc]; exact Nat.le_mul_of_pos_right _ (Nat.mul_pos (by omega) (by omega))
  have py : Ly ≤ Lx * Ly * Lz := by
    rw [Nat.mul_comm Lx Ly, Nat.mul_assoc]
    exact Nat.le_mul_of_pos_right _ (Nat.mul_pos (by omega) (by omega))
  have pz : Lz ≤ Lx * Ly * Lz := Nat.le_mul_of_pos_left _ (Nat.mul_pos (by omega) (by omega))
  unfold getCollisionCellIndex
  simp only
  rw [Nat.mod_eq_of_lt (show ⌊p.x⌋₊ < 2 ^ 32 by omega),
    Nat.mod_eq_of_lt (show ⌊p.y⌋₊ < 2 ^ 32 by omega),
    Nat.mod_eq_of_lt (show ⌊p.z⌋₊ < 2 ^ 32 by omega), Nat.mod_eq_of_lt (by omega)]

/-- The index is smaller than the number of cells. -/
theorem C17_lt {Lx Ly Lz : ℕ} (hN : Lx * Ly * Lz < 2 ^ 32) {p : Vec3 K}
    (hp : InBox Lx Ly Lz p) :
    getCollisionCellIndex Lx Ly p < getCollisionCellCount Lx Ly Lz := by
  rw [getCollisionCellIndex_eq hN hp, getCollisionCellCount, Nat.mod_eq_of_lt hN]
  obtain ⟨⟨hx0, hx1⟩, ⟨hy0, hy1⟩, hz0, hz1⟩ := hp
  exact index_lt (floor_lt_of_inBox hx0 hx1) (floor_lt_of_inBox hy0 hy1)
    (floor_lt_of_inBox hz0 hz1)

theorem floor_eq_iff_natFloor_eq {x y : K} (hx : 0 ≤ x) (hy : 0 ≤ y) :
    ⌊x⌋ = ⌊y⌋ ↔ ⌊x⌋₊ = ⌊y⌋₊ := by
  rw [← Int.natCast_floor_eq_floor hx, ← Int.natCast_floor_eq_floor hy]
  exact Nat.cast_inj

/-- Two positions share an index exactly if they lie in the same unit cell. -/
theorem C17_inj {Lx Ly Lz : ℕ} (hN : Lx * Ly * Lz < 2 ^ 32) {p q : Vec3 K}
    (hp : InBox Lx Ly Lz p) (hq : InBox Lx Ly Lz q) :
    getCollisionCellIndex Lx Ly p = getCollisionCellIndex Lx Ly q ↔ SameUnitCell p q := by
  rw [getCollisionCellIndex_eq hN hp, getCollisionCellIndex_eq hN hq, SameUnitCell]
  obtain ⟨⟨hx0, hx1⟩, ⟨hy0, hy1⟩, hz0, hz1⟩ := hp
  obtain ⟨⟨kx0, kx1⟩, ⟨ky0, ky1⟩, kz0, kz1⟩ := hq
  rw [floor_eq_iff_natFloor_eq hx0 kx0, floor_eq_iff_natFloor_eq hy0 ky0,
    floor_eq_iff_natFloor_eq hz0 kz0]
  constructor
  · exact index_inj (floor_lt_of_inBox hx0 hx1) (floor_lt_of_inBox hy0 hy1)
      (floor_lt_of_inBox kx0 kx1) (floor_lt_of_inBox ky0 ky1)
  · rintro ⟨a, b, c⟩
    rw [a, b, c]

/-- Every index is attained by a position in the primary volume. -/
theorem C17_onto {Lx Ly Lz : ℕ} (hN : Lx * Ly * Lz < 2 ^ 32) {i : ℕ}
    (hi : i < getCollisionCellCount Lx Ly Lz) :
    ∃ p : Vec3 K, InBox Lx Ly Lz p ∧ getCollisionCellIndex Lx Ly p = i := by
  rw [getCollisionCellCount, Nat.mod_eq_of_lt hN] at hi
  have hpos : 0 < Lx * Ly * Lz := by omega
  have hLx : 0 < Lx := Nat.pos_of_ne_zero (by rintro rfl; simp at hpos)
  have hLy : 0 < Ly := Nat.pos_of_ne_zero (by rintro rfl; simp at hpos)
  have a : i % Lx < Lx := Nat.mod_lt _ hLx
  have b : i / Lx % Ly < Ly := Nat.mod_lt _ hLy
  have c : i / Lx / Ly < Lz := by
    rw [Nat.div_div_eq_div_mul]
    exact Nat.div_lt_of_lt_mul hi
  have hp : InBox Lx Ly Lz
      (⟨((i % Lx : ℕ) : K), ((i / Lx % Ly : ℕ) : K), ((i / Lx / Ly : ℕ) : K)⟩ : Vec3 K) :=
    ⟨⟨Nat.cast_nonneg _, Nat.cast_lt.2 a⟩, ⟨Nat.cast_nonneg _, Nat.cast_lt.2 b⟩,
      Nat.cast_nonneg _, Nat.cast_lt.2 c⟩
  refine ⟨_, hp, ?_⟩
  rw [getCollisionCellIndex_eq hN hp]
  simp only [Nat.floor_natCast]
  have e1 := Nat.div_add_mod i Lx
  have e2 := Nat.div_add_mod (i / Lx) Ly
  calc i / Lx / Ly * Lx * Ly + i / Lx % Ly * Lx + i % Lx
      = Lx * (Ly * (i / Lx / Ly) + i / Lx % Ly) + i % Lx := by ring
    _ = i := by rw [e2, e1]

/-- After any grid shift and the Lees-Edwards image the index is in range. -/
theorem C17_sorted {Lx Ly Lz : ℕ} (hx : 0 < Lx) (hy : 0 < Ly) (hz : 0 < Lz)
    (hN : Lx * Ly * Lz < 2 ^ 32) (t rate : K) (position gridShift : Vec3 K) :
    isInPrimarySimulationVolume Lx Ly Lz (deviceImage (relativeLayerVelocity rate Ly) Lx Ly Lz t
        (position + gridShift)).1 = true ∧
      getCollisionCellIndex Lx Ly (deviceImage (relativeLayerVelocity rate Ly) Lx Ly Lz t
        (position + gridShift)).1 < getCollisionCellCount Lx Ly Lz := by
  rw [← C18_host_device]
  have h := C18_inBox hx hy hz t rate (position + gridShift)
  exact ⟨(isInPrimarySimulationVolume_iff _ _ _ _).2 h, C17_lt hN h⟩

/-- When the number of cells does not fit into 32 bits, the index of a position in the volume can be
out of range: the condition on the box sizes is needed. -/
theorem C17_overflow : ∃ p : Vec3 ℚ, InBox 65536 65536 1 p ∧
    ¬ getCollisionCellIndex 65536 65536 p < getCollisionCellCount 65536 65536 1 := by
  refine ⟨⟨0, 0, 0⟩, ⟨⟨le_refl _, by norm_num⟩, ⟨le_refl _, by norm_num⟩, le_refl _, by norm_num⟩, ?_⟩
  simp [getCollisionCellCount]

/-- The hypotheses are met by a box of 10 x 4 x 6 and a position in it. -/
example : ∃ p : Vec3 ℚ, InBox 10 4 6 p ∧ 10 * 4 * 6 < 2 ^ 32 ∧
    getCollisionCellIndex 10 4 p = 123 := by
  have h := C17_onto (K := ℚ) (Lx := 10) (Ly := 4) (Lz := 6) (by norm_num) (i := 123)
    (by simp [getCollisionCellCount])
  obtain ⟨p, h1, h2⟩ := h
  exact ⟨p, h1, by norm_num, h2⟩

end OpenMPCD.Collide
