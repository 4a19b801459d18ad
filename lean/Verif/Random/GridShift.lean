import Mathlib.MeasureTheory.Function.Floor
import Mathlib.MeasureTheory.Integral.IntervalIntegral.Periodic
import Verif.Collide.Props

/-!
# Random grid shifts (C98)

`generateGridShiftVector` draws the grid shift. What is drawn is modelled by its law, a measure on triples of coordinates.

Assumed: `curand_uniform` and `curand_uniform_double` return independent numbers which are uniform in `(0, 1]`.

Simplification: real numbers instead of floating-point numbers.
-/

set_option linter.unusedSectionVars false
set_option linter.unusedSimpArgs false

open MeasureTheory Set
open scoped ENNReal

namespace OpenMPCD.Random.GridShift

open OpenMPCD.Collide

/-! ## Model -/

/-- `generateGridShiftVector` (`cudaDeviceCode/OpenMPCD/CUDA/DeviceCode/Simulation.cu:193-210`). -/
noncomputable def gridShiftLaw (gridShiftScale : ℝ) : Measure (ℝ × ℝ × ℝ) :=
  ((volume.restrict (Ioc 0 1)).prod ((volume.restrict (Ioc 0 1)).prod (volume.restrict (Ioc 0 1)))).map
    fun u => (u.1 * gridShiftScale, u.2.1 * gridShiftScale, u.2.2 * gridShiftScale)

/-! ## Specification -/

/-- The vector with given coordinates. -/
def toVec (u : ℝ × ℝ × ℝ) : Vec3 ℝ := ⟨u.1, u.2.1, u.2.2⟩

/-- The grid shifts for which exactly those pairs of particles share a collision cell for which `together` holds. -/
def shifts {ι : Type} (P : Params) (t : ℝ) (ps : ι → Particle) (together : ι → ι → Prop) : Set (ℝ × ℝ × ℝ) :=
  {u | ∀ i j, cellOf P (toVec u) t (ps i) = cellOf P (toVec u) t (ps j) ↔ together i j}

/-- The particle at another place. -/
def moved (a : Vec3 ℝ) (p : Particle) : Particle := { p with pos := p.pos + a }

/-! ## Proofs -/

theorem floor_reduce (L : ℕ) (u : ℝ) : ⌊u - (⌊u / (L : ℝ)⌋ : ℤ) * (L : ℝ)⌋ = ⌊u⌋ % (L : ℤ) := by
  have e : ((⌊u / (L : ℝ)⌋ : ℤ) : ℝ) * (L : ℝ) = ((⌊u / (L : ℝ)⌋ * (L : ℤ) : ℤ) : ℝ) := by push_cast; rfl
  have hd : ⌊u / (L : ℝ)⌋ = ⌊u⌋ / (L : ℤ) := by
    rw [Int.floor_div_natCast]
  rw [e, Int.floor_sub_intCast, hd, Int.emod_def]
  ring

/-- The coordinates of the cell. -/
noncomputable def cellX (P : Params) (t : ℝ) (x : Vec3 ℝ) : ℤ :=
  ⌊x.x - (⌊x.y / (P.Ly : ℝ)⌋ : ℤ) * (P.shearRate * P.Ly * t)⌋ % (P.Lx : ℤ)

theorem cell_iff {P : Params} (hP : P.Valid) (s : Vec3 ℝ) (t : ℝ) (p q : Particle) :
    cellOf P s t p = cellOf P s t q ↔
      cellX P t (p.pos + s) = cellX P t (q.pos + s) ∧
      ⌊(p.pos + s).y⌋ % (P.Ly : ℤ) = ⌊(q.pos + s).y⌋ % (P.Ly : ℤ) ∧
      ⌊(p.pos + s).z⌋ % (P.Lz : ℤ) = ⌊(q.pos + s).z⌋ % (P.Lz : ℤ) := by
  unfold cellOf
  rw [C17_inj hP.fits (C18_inBox hP.hx hP.hy hP.hz _ _ _) (C18_inBox hP.hx hP.hy hP.hz _ _ _), SameUnitCell]
  simp only [hostImage]
  simp only [floor_reduce]
  rfl

theorem emod_shift {a b : ℤ} (n L : ℤ) : (a + n) % L = (b + n) % L ↔ a % L = b % L :=
  ⟨fun h => Int.ModEq.add_right_cancel' n h, fun h => Int.ModEq.add_right n h⟩

theorem periodic_lintegral {f : ℝ → ℝ≥0∞} (hf : Function.Periodic f 1) (a : ℝ) :
    ∫⁻ x in Ioc 0 1, f (x + a) = ∫⁻ x in Ioc 0 1, f x := by
  have h1 : ∫⁻ x in Ioc 0 1, f (x + a) = ∫⁻ x in Ioc a (a + 1), f x := by
    rw [← lintegral_indicator measurableSet_Ioc, ← lintegral_indicator measurableSet_Ioc,
      ← lintegral_add_right_eq_self ((Ioc a (a + 1)).indicator _) a]
    refine lintegral_congr fun x => ?_
    by_cases h : x ∈ Ioc (0 : ℝ) 1
    · rw [indicator_of_mem h, indicator_of_mem]
      exact ⟨by linarith [h.1], by linarith [h.2]⟩
    · rw [indicator_of_notMem h, indicator_of_notMem]
      exact fun h' => h ⟨by linarith [h'.1], by linarith [h'.2]⟩
  have h2 : ∀ t, ∫⁻ x in Ioc t (t + 1), f x = ∫⁻ b : UnitAddCircle, hf.lift b := fun t =>
    (lintegral_congr fun x => (hf.lift_coe x).symm).trans (UnitAddCircle.lintegral_preimage t hf.lift)
  rw [h1, h2 a, ← h2 0, zero_add]

section

variable {ι : Type} {P : Params} {t : ℝ} {ps : ι → Particle} {together : ι → ι → Prop}

theorem mem_shifts (hP : P.Valid) (u : ℝ × ℝ × ℝ) : u ∈ shifts P t ps together ↔ ∀ i j,
    (cellX P t ((ps i).pos + toVec u) = cellX P t ((ps j).pos + toVec u) ∧
      ⌊((ps i).pos + toVec u).y⌋ % (P.Ly : ℤ) = ⌊((ps j).pos + toVec u).y⌋ % (P.Ly : ℤ) ∧
      ⌊((ps i).pos + toVec u).z⌋ % (P.Lz : ℤ) = ⌊((ps j).pos + toVec u).z⌋ % (P.Lz : ℤ)) ↔ together i j := by
  show (∀ i j, _ ↔ _) ↔ _
  simp only [cell_iff hP]

theorem shift_x (hP : P.Valid) (x y z : ℝ) : (x + 1, y, z) ∈ shifts P t ps together ↔ (x, y, z) ∈ shifts P t ps together := by
  have h : ∀ v : Vec3 ℝ, cellX P t (v + toVec (x + 1, y, z)) =
      (⌊(v + toVec (x, y, z)).x - (⌊(v + toVec (x, y, z)).y / (P.Ly : ℝ)⌋ : ℤ) * (P.shearRate * P.Ly * t)⌋ + 1) %
        (P.Lx : ℤ) := by
    intro v
    unfold cellX
    rw [← Int.floor_add_one]
    simp only [toVec, Vec3.add_x, Vec3.add_y]
    ring_nf
  simp only [mem_shifts hP, h, emod_shift]
  rfl

theorem shift_z (hP : P.Valid) (x y z : ℝ) : (x, y, z + 1) ∈ shifts P t ps together ↔ (x, y, z) ∈ shifts P t ps together := by
  have h : ∀ v : Vec3 ℝ, ⌊(v + toVec (x, y, z + 1)).z⌋ % (P.Lz : ℤ) = (⌊(v + toVec (x, y, z)).z⌋ + 1) % (P.Lz : ℤ) := by
    intro v
    rw [← Int.floor_add_one]
    simp only [toVec, Vec3.add_z, add_assoc]
  simp only [mem_shifts hP, h, emod_shift]
  rfl

theorem shift_y (hP : P.Valid) (hs : P.shearRate * t = 0) (x y z : ℝ) :
    (x, y + 1, z) ∈ shifts P t ps together ↔ (x, y, z) ∈ shifts P t ps together := by
  have h : ∀ v : Vec3 ℝ, ⌊(v + toVec (x, y + 1, z)).y⌋ % (P.Ly : ℤ) = (⌊(v + toVec (x, y, z)).y⌋ + 1) % (P.Ly : ℤ) := by
    intro v
    rw [← Int.floor_add_one]
    simp only [toVec, Vec3.add_y, add_assoc]
  have hx : ∀ v : Vec3 ℝ, cellX P t (v + toVec (x, y + 1, z)) = cellX P t (v + toVec (x, y, z)) := by
    intro v
    unfold cellX
    have : P.shearRate * P.Ly * t = 0 := by linear_combination (P.Ly : ℝ) * hs
    rw [this, mul_zero, mul_zero]
    rfl
  simp only [mem_shifts hP, h, hx, emod_shift]
  rfl

theorem measurable_shifts [Countable ι] (hP : P.Valid) : MeasurableSet (shifts P t ps together) := by
  have hX : ∀ v : Vec3 ℝ, Measurable fun u : ℝ × ℝ × ℝ => cellX P t (v + toVec u) := by
    intro v
    unfold cellX
    refine (measurable_of_countable fun n : ℤ => n % (P.Lx : ℤ)).comp (Measurable.floor ?_)
    simp only [toVec, Vec3.add_x, Vec3.add_y]
    have : Measurable fun u : ℝ × ℝ × ℝ => ((⌊(v.y + u.2.1) / (P.Ly : ℝ)⌋ : ℤ) : ℝ) :=
      (measurable_of_countable fun n : ℤ => (n : ℝ)).comp (Measurable.floor (by fun_prop))
    fun_prop
  have hY : ∀ v : Vec3 ℝ, Measurable fun u : ℝ × ℝ × ℝ => ⌊(v + toVec u).y⌋ % (P.Ly : ℤ) := by
    intro v
    refine (measurable_of_countable fun n : ℤ => n % (P.Ly : ℤ)).comp (Measurable.floor ?_)
    simp only [toVec, Vec3.add_y]
    fun_prop
  have hZ : ∀ v : Vec3 ℝ, Measurable fun u : ℝ × ℝ × ℝ => ⌊(v + toVec u).z⌋ % (P.Lz : ℤ) := by
    intro v
    refine (measurable_of_countable fun n : ℤ => n % (P.Lz : ℤ)).comp (Measurable.floor ?_)
    simp only [toVec, Vec3.add_z]
    fun_prop
  have e : shifts P t ps together = ⋂ i, ⋂ j, {u | (cellX P t ((ps i).pos + toVec u) = cellX P t ((ps j).pos + toVec u) ∧
      ⌊((ps i).pos + toVec u).y⌋ % (P.Ly : ℤ) = ⌊((ps j).pos + toVec u).y⌋ % (P.Ly : ℤ) ∧
      ⌊((ps i).pos + toVec u).z⌋ % (P.Lz : ℤ) = ⌊((ps j).pos + toVec u).z⌋ % (P.Lz : ℤ)) ↔ together i j} := by
    ext u
    rw [mem_shifts hP]
    simp only [mem_iInter]
    rfl
  rw [e]
  refine MeasurableSet.iInter fun i => MeasurableSet.iInter fun j => ?_
  have h1 : MeasurableSet {u : ℝ × ℝ × ℝ | cellX P t ((ps i).pos + toVec u) = cellX P t ((ps j).pos + toVec u) ∧
      ⌊((ps i).pos + toVec u).y⌋ % (P.Ly : ℤ) = ⌊((ps j).pos + toVec u).y⌋ % (P.Ly : ℤ) ∧
      ⌊((ps i).pos + toVec u).z⌋ % (P.Lz : ℤ) = ⌊((ps j).pos + toVec u).z⌋ % (P.Lz : ℤ)} :=
    (measurableSet_eq_fun (hX _) (hX _)).inter
      ((measurableSet_eq_fun (hY _) (hY _)).inter (measurableSet_eq_fun (hZ _) (hZ _)))
  by_cases h : together i j
  · simpa only [h, iff_true] using h1
  · simp only [h, iff_false]
    exact h1.compl

theorem moved_shifts (a : Vec3 ℝ) (x y z : ℝ) :
    (x, y, z) ∈ shifts P t (fun i => moved a (ps i)) together ↔ (x + a.x, y + a.y, z + a.z) ∈ shifts P t ps together := by
  have h : ∀ i, cellOf P (toVec (x, y, z)) t (moved a (ps i)) = cellOf P (toVec (x + a.x, y + a.y, z + a.z)) t (ps i) := by
    intro i
    unfold cellOf moved
    have : (ps i).pos + a + toVec (x, y, z) = (ps i).pos + toVec (x + a.x, y + a.y, z + a.z) := by
      ext <;> simp only [toVec, Vec3.add_x, Vec3.add_y, Vec3.add_z] <;> ring
    rw [this]
  show (∀ i j, _ ↔ _) ↔ ∀ i j, _ ↔ _
  simp only [h]

theorem law_apply {S : Set (ℝ × ℝ × ℝ)} (hS : MeasurableSet S) :
    gridShiftLaw 1 S = ∫⁻ x in Ioc 0 1, ∫⁻ y in Ioc 0 1, ∫⁻ z in Ioc 0 1, S.indicator 1 (x, y, z) := by
  have hid : (fun u : ℝ × ℝ × ℝ => (u.1 * 1, u.2.1 * 1, u.2.2 * 1)) = id := by
    funext u
    simp
  have hm : Measurable (S.indicator (1 : ℝ × ℝ × ℝ → ℝ≥0∞)) := measurable_one.indicator hS
  unfold gridShiftLaw
  rw [hid, Measure.map_id, ← lintegral_indicator_one hS, lintegral_prod _ hm.aemeasurable]
  refine lintegral_congr fun x => ?_
  rw [lintegral_prod (fun u => S.indicator 1 (x, u))
    (hm.comp (by fun_prop : Measurable fun u : ℝ × ℝ => (x, u))).aemeasurable]

/-- C98: with random grid shifts (of scale one), it does not matter where the cells are: the probability that a given set of
pairs of particles share their cells is not changed if all particles are moved by the same vector. This holds for all
vectors if the boundaries are not sheared (or have not been displaced yet), and for all vectors in the planes of shear
otherwise. -/
theorem C98_translation [Countable ι] (hP : P.Valid) (a : Vec3 ℝ) (ha : a.y = 0 ∨ P.shearRate * t = 0)
    (ps : ι → Particle) (together : ι → ι → Prop) :
    gridShiftLaw 1 (shifts P t (fun i => moved a (ps i)) together) = gridShiftLaw 1 (shifts P t ps together) := by
  rw [law_apply (measurable_shifts hP), law_apply (measurable_shifts hP)]
  generalize hg : (shifts P t ps together).indicator (1 : ℝ × ℝ × ℝ → ℝ≥0∞) = g
  have hmoved : ∀ x y z, (shifts P t (fun i => moved a (ps i)) together).indicator (1 : ℝ × ℝ × ℝ → ℝ≥0∞) (x, y, z) =
      g (x + a.x, y + a.y, z + a.z) := by
    intro x y z
    rw [← hg]
    by_cases h : (x, y, z) ∈ shifts P t (fun i => moved a (ps i)) together
    · rw [indicator_of_mem h, indicator_of_mem ((moved_shifts a x y z).1 h)]
      rfl
    · rw [indicator_of_notMem h, indicator_of_notMem fun h' => h ((moved_shifts a x y z).2 h')]
  have hind : ∀ u v : ℝ × ℝ × ℝ, (u ∈ shifts P t ps together ↔ v ∈ shifts P t ps together) → g u = g v := by
    intro u v h
    rw [← hg]
    by_cases hu : u ∈ shifts P t ps together
    · rw [indicator_of_mem hu, indicator_of_mem (h.1 hu)]
      rfl
    · rw [indicator_of_notMem hu, indicator_of_notMem fun h' => hu (h.2 h')]
  have hx : ∀ x y z, g (x + 1, y, z) = g (x, y, z) := fun x y z => hind _ _ (shift_x hP x y z)
  have hz : ∀ x y z, g (x, y, z + 1) = g (x, y, z) := fun x y z => hind _ _ (shift_z hP x y z)
  simp_rw [hmoved]
  have ez : ∀ x y, ∫⁻ z in Ioc 0 1, g (x, y, z + a.z) = ∫⁻ z in Ioc 0 1, g (x, y, z) := fun x y =>
    periodic_lintegral (f := fun z => g (x, y, z)) (fun z => hz x y z) a.z
  simp_rw [ez]
  have ey : ∀ x, ∫⁻ y in Ioc 0 1, ∫⁻ z in Ioc 0 1, g (x, y + a.y, z) = ∫⁻ y in Ioc 0 1, ∫⁻ z in Ioc 0 1, g (x, y, z) := by
    intro x
    rcases ha with ha | ha
    · simp_rw [ha, add_zero]
    · have hy : ∀ x y z, g (x, y + 1, z) = g (x, y, z) := fun x y z => hind _ _ (shift_y hP ha x y z)
      exact periodic_lintegral (f := fun y => ∫⁻ z in Ioc 0 1, g (x, y, z))
        (fun y => lintegral_congr fun z => hy x y z) a.y
  simp_rw [ey]
  exact periodic_lintegral (f := fun x => ∫⁻ y in Ioc 0 1, ∫⁻ z in Ioc 0 1, g (x, y, z))
    (fun x => lintegral_congr fun y => lintegral_congr fun z => hx x y z) a.x

/-- C98 needs the scale of the shifts to be one: without grid shifts, whether two particles share a cell depends on where they
are. -/
theorem C98_scale : ∃ (P : Params) (ps : Bool → Particle) (a : Vec3 ℝ), P.Valid ∧ P.shearRate = 0 ∧
    gridShiftLaw 0 (shifts P 0 ps fun _ _ => True) = 1 ∧
    gridShiftLaw 0 (shifts P 0 (fun i => moved a (ps i)) fun _ _ => True) = 0 := by
  have hP : (⟨2, 2, 2, 0, 1, 1⟩ : Params).Valid := ⟨by decide, by decide, by decide, by decide⟩
  have hlaw : gridShiftLaw 0 = Measure.dirac (0, 0, 0) := by
    unfold gridShiftLaw
    simp only [mul_zero]
    rw [Measure.map_const]
    have : IsProbabilityMeasure (volume.restrict (Ioc (0 : ℝ) 1)) := ⟨by simp⟩
    simp
  refine ⟨⟨2, 2, 2, 0, 1, 1⟩, fun b => ⟨⟨if b then 1 / 2 else 0, 0, 0⟩, 0, 1, 0, 0⟩, ⟨1 / 2, 0, 0⟩, hP, rfl, ?_, ?_⟩
  · rw [hlaw, Measure.dirac_apply' _ (measurable_shifts hP), indicator_of_mem]
    · rfl
    · rw [mem_shifts hP]
      intro i j
      have h0 : ⌊(2⁻¹ : ℝ)⌋ = 0 := by norm_num [Int.floor_eq_iff]
      cases i <;> cases j <;> simp [cellX, toVec, h0]
  · rw [hlaw, Measure.dirac_apply' _ (measurable_shifts hP), indicator_of_notMem]
    rw [mem_shifts hP]
    intro h
    have := (h true false).2 trivial
    have h0 : ⌊(2⁻¹ : ℝ)⌋ = 0 := by norm_num [Int.floor_eq_iff]
    have h1 : ⌊(2⁻¹ + 2⁻¹ : ℝ)⌋ = 1 := by norm_num
    simp [cellX, toVec, moved, h0, h1] at this

example : (⟨20, 30, 40, 1 / 2, 1, 1⟩ : Params).Valid := ⟨by decide, by decide, by decide, by decide⟩

end

end OpenMPCD.Random.GridShift
