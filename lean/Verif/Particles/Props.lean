import Verif.Particles.Model
import Verif.Vec.Props
import Mathlib.Algebra.BigOperators.Group.List.Basic
import Mathlib.Algebra.BigOperators.Ring.List
import Mathlib.Tactic.FinCases
import Mathlib.Tactic.FieldSimp

/-!
# C46: particle collections
-/

set_option linter.unusedSimpArgs false
set_option linter.unusedSectionVars false

namespace OpenMPCD.Particles

open Coll

/-! ## Sums -/

theorem foldl_add_map {α M : Type*} [AddCommMonoid M] (f : α → M) (l : List α) (a : M) :
    l.foldl (fun acc x => acc + f x) a = a + (l.map f).sum := by
  induction l generalizing a with
  | nil => simp
  | cons x xs ih => rw [List.foldl_cons, ih, List.map_cons, List.sum_cons, add_assoc]

theorem sum_map_sub {α M : Type*} [AddCommGroup M] (f g : α → M) (l : List α) :
    (l.map fun x => f x - g x).sum = (l.map f).sum - (l.map g).sum := by
  induction l with
  | nil => simp
  | cons x xs ih => simp only [List.map_cons, List.sum_cons, ih]; abel

theorem sum_map_const {α : Type*} (l : List α) (c : Vec3 ℝ) :
    (l.map fun _ => c).sum = (l.length : ℝ) • c := by
  induction l with
  | nil => simp
  | cons x xs ih =>
    simp only [List.map_cons, List.sum_cons, ih, List.length_cons, Nat.cast_add, Nat.cast_one,
      add_smul, one_smul]
    abel

theorem sum_map_smul {α : Type*} (f : α → Vec3 ℝ) (c : ℝ) (l : List α) :
    (l.map fun x => c • f x).sum = c • (l.map f).sum := by
  induction l with
  | nil => simp
  | cons x xs ih => simp only [List.map_cons, List.sum_cons, ih, smul_add]

theorem comp_add (u v : Vec3 ℝ) (i : Fin 3) : comp (u + v) i = comp u i + comp v i := by
  fin_cases i <;> rfl

theorem comp_sub (u v : Vec3 ℝ) (i : Fin 3) : comp (u - v) i = comp u i - comp v i := by
  fin_cases i <;> rfl

theorem comp_smul (c : ℝ) (u : Vec3 ℝ) (i : Fin 3) : comp (c • u) i = c * comp u i := by
  fin_cases i <;> simp [comp, mul_comm]

theorem comp_zero (i : Fin 3) : comp (0 : Vec3 ℝ) i = 0 := by fin_cases i <;> rfl

theorem comp_sum {α : Type*} (f : α → Vec3 ℝ) (i : Fin 3) (l : List α) :
    comp (l.map f).sum i = (l.map fun x => comp (f x) i).sum := by
  induction l with
  | nil => simp [comp_zero]
  | cons x xs ih => simp only [List.map_cons, List.sum_cons, comp_add, ih]

theorem truediv_eq (u : Vec3 ℝ) {a : ℝ} (h : a ≠ 0) : u.truediv a = .ok (a⁻¹ • u) := by
  unfold Vec3.truediv
  rw [if_neg h]
  rfl

/-! ## Centre of mass -/

/-- The geometric centre. -/
noncomputable def centre (l : List (Vec3 ℝ)) : Vec3 ℝ := (l.length : ℝ)⁻¹ • l.sum

theorem accumulate_eq (s : Coll) {mass : ℝ} (hm : s.uniformMass = some mass) (vs : List (Vec3 ℝ))
    (index : ℕ) (c : Vec3 ℝ) (w : ℝ) (h : index + vs.length ≤ s.positions.length) :
    s.accumulate index vs c w = .ok (c + mass • vs.sum, w + mass * vs.length) := by
  induction vs generalizing index c w with
  | nil => simp [accumulate]
  | cons v vs ih =>
    simp only [List.length_cons] at h
    have hg : s.getMass index = .ok mass := by
      unfold getMass getParticleCount
      rw [if_neg (by omega), hm]
    rw [accumulate]
    simp only [hg]
    rw [ih (index + 1) _ _ (by omega)]
    simp only [List.sum_cons, smul_add, List.length_cons, Nat.cast_add, Nat.cast_one, add_assoc]
    congr 2
    ring

theorem getCenterOfMass_eq (s : Coll) {mass : ℝ} (hm : s.uniformMass = some mass) (hpos : 0 < mass)
    (hne : s.positions ≠ []) : s.getCenterOfMass = .ok (centre s.pos) := by
  have hlen : s.positions.length ≠ 0 := fun h => hne (List.length_eq_zero_iff.1 h)
  have hn : (s.positions.length : ℝ) ≠ 0 := Nat.cast_ne_zero.2 hlen
  unfold getCenterOfMass
  rw [if_neg (by simp [isEmpty, hne]), accumulate_eq s hm s.pos 0 0 0 (by simp [pos])]
  simp only [zero_add, pos, List.length_map]
  rw [truediv_eq _ (mul_ne_zero hpos.ne' hn), smul_smul]
  congr 2
  rw [List.length_map]
  field_simp

theorem getCenterOfMassVelocity_eq (s : Coll) {mass : ℝ} (hm : s.uniformMass = some mass)
    (hpos : 0 < mass) (hne : s.positions ≠ []) (hv : s.velocities.length = s.positions.length) :
    s.getCenterOfMassVelocity = .ok (centre s.vel) := by
  have hlen : s.positions.length ≠ 0 := fun h => hne (List.length_eq_zero_iff.1 h)
  have hn : (s.velocities.length : ℝ) ≠ 0 := by rw [hv]; exact Nat.cast_ne_zero.2 hlen
  unfold getCenterOfMassVelocity
  rw [if_neg (by simp [isEmpty, hne]), accumulate_eq s hm s.vel 0 0 0 (by simp [vel, hv])]
  simp only [zero_add, vel, List.length_map]
  rw [truediv_eq _ (mul_ne_zero hpos.ne' hn), smul_smul]
  congr 2
  rw [List.length_map]
  field_simp

theorem centre_sub (l : List (Vec3 ℝ)) (hl : l ≠ []) (c : Vec3 ℝ) :
    centre (l.map fun p => p - c) = centre l - c := by
  have hn : (l.length : ℝ) ≠ 0 := Nat.cast_ne_zero.2 (by simpa using hl)
  unfold centre
  rw [List.length_map, sum_map_sub (fun p => p) (fun _ => c), sum_map_const, List.map_id', smul_sub,
    smul_smul, inv_mul_cancel₀ hn, one_smul]

/-- C46: `getCenterOfMass` returns the mass-weighted mean of the positions. -/
theorem C46_centerOfMass (s : Coll) (mass : ℝ) (hm : s.uniformMass = some mass) (hpos : 0 < mass)
    (hne : s.positions ≠ []) :
    ∃ c, s.getCenterOfMass = .ok c ∧
      (s.pos.map fun _ => mass).sum • c = (s.pos.map fun p => mass • p).sum := by
  refine ⟨_, getCenterOfMass_eq s hm hpos hne, ?_⟩
  have hn : (s.pos.length : ℝ) ≠ 0 := Nat.cast_ne_zero.2 (by simp [pos, hne])
  rw [List.map_const', List.sum_replicate, nsmul_eq_mul, sum_map_smul, List.map_id']
  unfold centre
  rw [smul_smul]
  congr 1
  field_simp

theorem shift_eq (s : Coll) {mass : ℝ} (hm : s.uniformMass = some mass) (hpos : 0 < mass)
    (hne : s.positions ≠ []) (hv : s.velocities.length = s.positions.length) :
    s.shiftToCenterOfMassFrame.2 = .ok () ∧
    s.shiftToCenterOfMassFrame.1.pos = s.pos.map (fun p => p - centre s.pos) ∧
    s.shiftToCenterOfMassFrame.1.vel = s.vel.map (fun v => v - centre s.vel) ∧
    s.shiftToCenterOfMassFrame.1.uniformMass = some mass := by
  unfold shiftToCenterOfMassFrame
  simp only [getCenterOfMass_eq s hm hpos hne, getCenterOfMassVelocity_eq s hm hpos hne hv]
  refine ⟨trivial, ?_, ?_, hm⟩
  · apply List.ext_getElem
    · simp [pos]
    · intro i h1 h2
      have hi : i < s.positions.length := by simpa [pos] using h1
      simp [pos, hi, List.getElem?_append_left]
  · apply List.ext_getElem
    · simp [vel]
    · intro i h1 h2
      have hi : i < s.velocities.length := by simpa [vel] using h1
      simp [pos, vel, hi, List.getElem?_append_right]

/-- C46: after `shiftToCenterOfMassFrame` the centre of mass is at the origin and at rest, and the
particles have all been moved by the same amount. -/
theorem C46_shift (s : Coll) (mass : ℝ) (hm : s.uniformMass = some mass) (hpos : 0 < mass)
    (hne : s.positions ≠ []) (hv : s.velocities.length = s.positions.length) :
    ∃ s' c v, s.shiftToCenterOfMassFrame = (s', .ok ()) ∧
      s.getCenterOfMass = .ok c ∧ s.getCenterOfMassVelocity = .ok v ∧
      s'.pos = s.pos.map (fun p => p - c) ∧ s'.vel = s.vel.map (fun w => w - v) ∧
      s'.getCenterOfMass = .ok 0 ∧ s'.getCenterOfMassVelocity = .ok 0 := by
  obtain ⟨h1, h2, h3, h4⟩ := shift_eq s hm hpos hne hv
  refine ⟨s.shiftToCenterOfMassFrame.1, _, _, Prod.ext rfl h1, getCenterOfMass_eq s hm hpos hne,
    getCenterOfMassVelocity_eq s hm hpos hne hv, h2, h3, ?_, ?_⟩
  · have hne' : s.shiftToCenterOfMassFrame.1.positions ≠ [] := by
      have := congrArg List.length h2
      simp only [pos, List.length_map] at this
      intro h
      rw [h] at this
      exact hne (List.length_eq_zero_iff.1 this.symm)
    rw [getCenterOfMass_eq _ h4 hpos hne', h2, centre_sub _ (by simp [pos, hne]), sub_self]
  · have hne' : s.shiftToCenterOfMassFrame.1.positions ≠ [] := by
      have := congrArg List.length h2
      simp only [pos, List.length_map] at this
      intro h
      rw [h] at this
      exact hne (List.length_eq_zero_iff.1 this.symm)
    have hv' : s.shiftToCenterOfMassFrame.1.velocities.length =
        s.shiftToCenterOfMassFrame.1.positions.length := by
      have e2 := congrArg List.length h2
      have e3 := congrArg List.length h3
      simp only [pos, vel, List.length_map] at e2 e3
      rw [e2, e3, hv]
    have hvn : s.vel ≠ [] := by
      intro h
      have := congrArg List.length h
      simp only [vel, List.length_map, List.length_nil] at this
      rw [hv] at this
      exact hne (List.length_eq_zero_iff.1 this)
    rw [getCenterOfMassVelocity_eq _ h4 hpos hne' hv', h3, centre_sub _ hvn, sub_self]

/-- C46 fails for collections without velocities, although these are allowed: the shift raises. -/
theorem C46_shift_violated (s : Coll) (mass : ℝ) (hm : s.uniformMass = some mass) (hpos : 0 < mass)
    (hne : s.positions ≠ []) (hv : s.velocities = []) :
    s.shiftToCenterOfMassFrame = (s, .error .valueError) := by
  unfold shiftToCenterOfMassFrame
  have : s.getCenterOfMassVelocity = .error .valueError := by
    unfold getCenterOfMassVelocity
    rw [if_neg (by simp [isEmpty, hne])]
    simp [vel, hv, accumulate, Vec3.truediv]
  simp only [getCenterOfMass_eq s hm hpos hne, this]

/-! ## Gyration tensor -/

theorem inner_sum {α : Type*} (f g : α → ℝ) (x y : ℝ) (l : List α) :
    (l.map fun b => (x - f b) * (y - g b)).sum =
      l.length * (x * y) - x * (l.map g).sum - y * (l.map f).sum +
        (l.map fun b => f b * g b).sum := by
  induction l with
  | nil => simp
  | cons b l ih =>
    simp only [List.map_cons, List.sum_cons, ih, List.length_cons, Nat.cast_add, Nat.cast_one]
    ring

theorem double_sum {α : Type*} (f g : α → ℝ) (l : List α) :
    (l.map fun a => (l.map fun b => (f a - f b) * (g a - g b)).sum).sum =
      2 * (l.length * (l.map fun b => f b * g b).sum - (l.map f).sum * (l.map g).sum) := by
  have key : ∀ l' : List α, (l'.map fun a => (l.map fun b => (f a - f b) * (g a - g b)).sum).sum =
      l.length * (l'.map fun b => f b * g b).sum - (l'.map f).sum * (l.map g).sum -
        (l'.map g).sum * (l.map f).sum + l'.length * (l.map fun b => f b * g b).sum := by
    intro l'
    induction l' with
    | nil => simp
    | cons a l' ih =>
      rw [List.map_cons, List.sum_cons, ih, inner_sum f g]
      simp only [List.map_cons, List.sum_cons, List.length_cons, Nat.cast_add, Nat.cast_one]
      ring
  rw [key]; ring

theorem gyrationEntry_eq (ps : List (Vec3 ℝ)) (m n : Fin 3) :
    gyrationEntry ps m n = (ps.map fun a => (ps.map fun b =>
      (comp a m - comp b m) * (comp a n - comp b n)).sum).sum / (2 * ps.length * ps.length) := by
  unfold gyrationEntry
  have : ∀ r1 : Vec3 ℝ, (fun (acc : ℝ) => ps.foldl (fun acc r2 =>
      acc + (comp r1 m - comp r2 m) * (comp r1 n - comp r2 n)) acc) =
      fun acc => acc + (ps.map fun b => (comp r1 m - comp b m) * (comp r1 n - comp b n)).sum := by
    intro r1
    funext acc
    rw [foldl_add_map]
  have h2 : (fun (acc : ℝ) (r1 : Vec3 ℝ) => ps.foldl (fun acc r2 =>
      acc + (comp r1 m - comp r2 m) * (comp r1 n - comp r2 n)) acc) =
      fun acc r1 => acc + (ps.map fun b => (comp r1 m - comp b m) * (comp r1 n - comp b n)).sum := by
    funext acc r1
    exact congrFun (this r1) acc
  rw [h2, foldl_add_map, zero_add, mul_one_div]

theorem gyrationEntry_symm (ps : List (Vec3 ℝ)) (m n : Fin 3) :
    gyrationEntry ps m n = gyrationEntry ps n m := by
  rw [gyrationEntry_eq, gyrationEntry_eq]
  simp only [mul_comm]

/-- C46: the gyration tensor is the one of the documentation (all nine entries). -/
theorem C46_gyration_definition (ps : List (Vec3 ℝ)) (m n : Fin 3) :
    gyration ps m n = (1 / (2 * (ps.length : ℝ) ^ 2)) * (ps.map fun a => (ps.map fun b =>
      (comp a m - comp b m) * (comp a n - comp b n)).sum).sum := by
  have : gyration ps m n = gyrationEntry ps m n := by
    unfold gyration
    split
    · rfl
    · exact gyrationEntry_symm ps n m
  rw [this, gyrationEntry_eq]
  ring

/-- C46: the gyration tensor is symmetric. -/
theorem C46_gyration_symmetric (ps : List (Vec3 ℝ)) (m n : Fin 3) :
    gyration ps m n = gyration ps n m := by
  rw [C46_gyration_definition, C46_gyration_definition]
  simp only [mul_comm]

/-- C46: the gyration tensor is positive semidefinite. -/
theorem C46_gyration_posSemidef (ps : List (Vec3 ℝ)) (u : Fin 3 → ℝ) :
    0 ≤ ∑ m, ∑ n, u m * gyration ps m n * u n := by
  have key : ∀ w : Fin 3 → Fin 3 → ℝ, ∀ F : Vec3 ℝ → Vec3 ℝ → Fin 3 → Fin 3 → ℝ,
      ∑ m, ∑ n, w m n * (ps.map fun a => (ps.map fun b => F a b m n).sum).sum =
        (ps.map fun a => (ps.map fun b => ∑ m, ∑ n, w m n * F a b m n).sum).sum := by
    intro w F
    have inner : ∀ (l : List (Vec3 ℝ)) (G : Vec3 ℝ → Fin 3 → Fin 3 → ℝ),
        ∑ m, ∑ n, w m n * (l.map fun a => G a m n).sum = (l.map fun a => ∑ m, ∑ n, w m n * G a m n).sum := by
      intro l G
      induction l with
      | nil => simp
      | cons a l ih =>
        simp only [List.map_cons, List.sum_cons, ← ih, mul_add, Finset.sum_add_distrib]
    rw [inner ps (fun a m n => (ps.map fun b => F a b m n).sum)]
    congr 1
    apply List.map_congr_left
    intro a _
    exact inner ps (F a)
  have h : ∑ m, ∑ n, u m * gyration ps m n * u n = (1 / (2 * (ps.length : ℝ) ^ 2)) *
      (ps.map fun a => (ps.map fun b => (∑ m, u m * (comp a m - comp b m)) ^ 2).sum).sum := by
    have e : ∀ m n, u m * gyration ps m n * u n = (1 / (2 * (ps.length : ℝ) ^ 2)) * ((u m * u n) *
        (ps.map fun a => (ps.map fun b => (comp a m - comp b m) * (comp a n - comp b n)).sum).sum) := by
      intro m n
      rw [C46_gyration_definition]; ring
    simp only [e, ← Finset.mul_sum]
    congr 1
    rw [key (fun m n => u m * u n) (fun a b m n => (comp a m - comp b m) * (comp a n - comp b n))]
    congr 1
    apply List.map_congr_left
    intro a _
    congr 1
    apply List.map_congr_left
    intro b _
    simp only [Fin.sum_univ_three]
    ring
  rw [h]
  apply mul_nonneg (by positivity)
  apply List.sum_nonneg
  intro x hx
  obtain ⟨a, _, rfl⟩ := List.mem_map.1 hx
  apply List.sum_nonneg
  intro y hy
  obtain ⟨b, _, rfl⟩ := List.mem_map.1 hy
  positivity

/-- C46: the gyration tensor does not change when all particles are translated. -/
theorem C46_gyration_translation (ps : List (Vec3 ℝ)) (t : Vec3 ℝ) :
    gyration (ps.map fun p => p + t) = gyration ps := by
  ext m n
  rw [C46_gyration_definition, C46_gyration_definition]
  simp only [List.length_map, List.map_map, Function.comp_def, comp_add, add_sub_add_right_eq_sub]

/-- C46: the gyration tensor is the second moment of the positions about their geometric centre. -/
theorem C46_gyration_secondMoment (ps : List (Vec3 ℝ)) (hne : ps ≠ []) (c : Vec3 ℝ)
    (hc : (ps.length : ℝ) • c = ps.sum) (m n : Fin 3) :
    gyration ps m n =
      (1 / (ps.length : ℝ)) * (ps.map fun p => (comp p m - comp c m) * (comp p n - comp c n)).sum := by
  have hn : (ps.length : ℝ) ≠ 0 := Nat.cast_ne_zero.2 (by simpa using hne)
  have hsum : ∀ i, (ps.map fun p => comp p i).sum = ps.length * comp c i := by
    intro i
    have := comp_sum (fun p => p) i ps
    rw [List.map_id'] at this
    rw [← this, ← hc, comp_smul]
  have h2 : (ps.map fun p => (comp p m - comp c m) * (comp p n - comp c n)).sum =
      (ps.map fun p => comp p m * comp p n).sum - ps.length * (comp c m * comp c n) := by
    have := inner_sum (fun p => comp p m) (fun p => comp p n) (comp c m) (comp c n) ps
    have e : (fun p => (comp p m - comp c m) * (comp p n - comp c n)) =
        fun p => (comp c m - comp p m) * (comp c n - comp p n) := by
      funext p; ring
    rw [e, this, hsum, hsum]; ring
  rw [C46_gyration_definition, double_sum (fun p => comp p m) (fun p => comp p n), hsum, hsum, h2]
  field_simp

/-- C46: the trace of the gyration tensor is the mean squared distance from the geometric centre. -/
theorem C46_gyration_trace (ps : List (Vec3 ℝ)) (hne : ps ≠ []) (c : Vec3 ℝ)
    (hc : (ps.length : ℝ) • c = ps.sum) :
    (gyration ps).trace = (1 / (ps.length : ℝ)) * (ps.map fun p => (p - c).getLengthSquared).sum := by
  rw [Matrix.trace, Fin.sum_univ_three]
  simp only [Matrix.diag_apply, C46_gyration_secondMoment ps hne c hc, ← mul_add]
  congr 1
  have : ∀ l : List (Vec3 ℝ), (l.map fun p => (comp p 0 - comp c 0) * (comp p 0 - comp c 0)).sum +
      (l.map fun p => (comp p 1 - comp c 1) * (comp p 1 - comp c 1)).sum +
      (l.map fun p => (comp p 2 - comp c 2) * (comp p 2 - comp c 2)).sum =
      (l.map fun p => (p - c).getLengthSquared).sum := by
    intro l
    induction l with
    | nil => simp
    | cons p l ih =>
      simp only [List.map_cons, List.sum_cons, ← ih]
      simp [Vec3.getLengthSquared, Vec3.dot, comp]
      ring
  exact this ps

/-! ## Histories -/

/-- A call on a collection. -/
inductive Op where
  | setPositionsAndVelocities (store : ℕ → Vec3 ℝ) (positions velocities : List ℕ)
  | setUniformMass (mass : ℝ)
  | rotate (axis : Vec3 ℝ) (angle : ℝ)
  | shift
  | getGyrationTensor

/-- The collection after a call, whether or not it raised. -/
noncomputable def exec (s : Coll) : Op → Coll
  | .setPositionsAndVelocities st p v => (s.setPositionsAndVelocities st p v).1
  | .setUniformMass m => (s.setUniformMass m).1
  | .rotate a θ => (s.rotateAroundNormalizedAxis a θ).1
  | .shift => s.shiftToCenterOfMassFrame.1
  | .getGyrationTensor => s.getGyrationTensor.1

/-- What is true after every history: the cached tensor belongs to the current positions, and the lists
match. -/
structure Good (s : Coll) : Prop where
  cache : ∀ S, s.gyrationTensor = some S → s.positions ≠ [] ∧ S = gyration s.pos
  lengths : s.velocities = [] ∨ s.velocities.length = s.positions.length
  mass : ∀ m, s.uniformMass = some m → 0 ≤ m

theorem good_exec {s : Coll} (h : Good s) (o : Op) : Good (exec s o) := by
  cases o with
  | setPositionsAndVelocities st p v =>
    simp only [exec, setPositionsAndVelocities]
    split
    · exact h
    · rename_i hc
      refine ⟨by simp, ?_, h.mass⟩
      simp only [List.map_eq_nil_iff, List.length_map]
      by_cases hv : v = []
      · exact .inl hv
      · right
        by_contra hne
        exact hc ⟨by simpa using hv, fun e => hne e.symm⟩
  | setUniformMass m =>
    simp only [exec, setUniformMass]
    split
    · exact h
    · rename_i hm
      exact ⟨h.cache, h.lengths, fun m' e => by
        have : m = m' := by simpa using e
        rw [← this]; exact not_lt.1 hm⟩
  | rotate a θ =>
    simp only [exec, rotateAroundNormalizedAxis]
    split
    · exact h
    · exact ⟨by simp, h.lengths, h.mass⟩
  | shift =>
    simp only [exec, shiftToCenterOfMassFrame]
    split
    · exact h
    · split
      · exact h
      · refine ⟨by simp, ?_, h.mass⟩
        simp only [List.length_range', List.length_range]
        rcases h.lengths with h' | h'
        · left; simp [h']
        · exact .inr h'
  | getGyrationTensor =>
    simp only [exec, Coll.getGyrationTensor]
    split
    · exact h
    · split
      · exact h
      · rename_i hne
        refine ⟨?_, h.lengths, h.mass⟩
        intro S hS
        refine ⟨by intro e; exact hne (by simp [isEmpty, show s.positions = [] from e]), ?_⟩
        have : gyration s.pos = S := by simpa using hS
        exact this.symm

theorem good_run (ops : List Op) : Good (ops.foldl exec Coll.empty) := by
  have : ∀ s, Good s → Good (ops.foldl exec s) := by
    induction ops with
    | nil => exact fun s h => h
    | cons o ops ih => exact fun s h => ih _ (good_exec h o)
  exact this _ ⟨by simp [Coll.empty], .inl rfl, by simp [Coll.empty]⟩

/-- C46: whatever has been done to the collection before, `getGyrationTensor` returns the tensor of the
current positions (or raises `ValueError` if there are none). -/
theorem C46_gyration_current (ops : List Op) :
    (ops.foldl exec Coll.empty).getGyrationTensor.2 =
      if (ops.foldl exec Coll.empty).pos = [] then .error .valueError
      else .ok (gyration (ops.foldl exec Coll.empty).pos) := by
  have h := good_run ops
  set s := ops.foldl exec Coll.empty
  have hpos : s.pos = [] ↔ s.positions = [] := by simp [pos]
  unfold Coll.getGyrationTensor
  cases hS : s.gyrationTensor with
  | some S =>
    obtain ⟨h1, h2⟩ := h.cache S hS
    rw [if_neg (fun e => h1 (hpos.1 e)), h2]
  | none =>
    simp only
    by_cases he : s.positions = []
    · rw [if_pos (by simp [isEmpty, he]), if_pos (hpos.2 he)]
    · rw [if_neg (by simp [isEmpty, he]), if_neg (fun e => he (hpos.1 e))]

/-! ## Rotation -/

theorem rotateObjects_eq (axis : Vec3 ℝ) (angle : ℝ) (heap : ℕ → Vec3 ℝ) (objects : List ℕ)
    (hd : objects.Nodup) (n : ℕ) :
    rotateObjects axis angle heap objects n =
      if n ∈ objects then ((heap n).rotateAroundNormalizedAxis axis angle).1 else heap n := by
  induction objects generalizing heap with
  | nil => rfl
  | cons o os ih =>
    rw [List.nodup_cons] at hd
    show rotateObjects axis angle _ os n = _
    rw [ih _ hd.2]
    by_cases hn : n = o
    · subst hn
      simp [hd.1]
    · simp [Function.update_of_ne hn, hn]

/-- C46: if no object occurs twice in the lists, `rotateAroundNormalizedAxis` rotates every position and
every velocity once. -/
theorem C46_rotate_partial (s : Coll) (axis : Vec3 ℝ) (angle : ℝ) (ha : axis.getLengthSquared = 1)
    (hd : (s.positions ++ s.velocities).Nodup) :
    (s.rotateAroundNormalizedAxis axis angle).2 = .ok () ∧
    (s.rotateAroundNormalizedAxis axis angle).1.pos = s.pos.map (fun p => p.cppRotate axis angle) ∧
    (s.rotateAroundNormalizedAxis axis angle).1.vel = s.vel.map (fun v => v.cppRotate axis angle) := by
  have hlen : axis.getLength = 1 := by rw [Vec3.getLength, ha, Real.sqrt_one]
  have hr : ∀ u : Vec3 ℝ, (u.rotateAroundNormalizedAxis axis angle).1 = u.cppRotate axis angle :=
    fun u => by rw [(Vec3.C11_cpp_agrees hlen u angle).2]
  obtain ⟨h1, h2, h3⟩ := List.nodup_append.1 hd
  unfold rotateAroundNormalizedAxis
  rw [if_neg (not_not.2 ha)]
  refine ⟨rfl, ?_, ?_⟩
  · simp only [pos, List.map_map]
    apply List.map_congr_left
    intro n hn
    have hnv : n ∉ s.velocities := fun hv => h3 n hn n hv rfl
    simp only [rotateObjects_eq axis angle _ _ h2, if_neg hnv, rotateObjects_eq axis angle _ _ h1,
      if_pos hn, hr, Function.comp_def]
  · simp only [vel, List.map_map]
    apply List.map_congr_left
    intro n hn
    have hnp : n ∉ s.positions := fun hp => h3 n hp n hn rfl
    simp only [rotateObjects_eq axis angle _ _ h2, if_pos hn, rotateObjects_eq axis angle _ _ h1,
      if_neg hnp, hr, Function.comp_def]

/-- C46 fails for rotations in general: if the same vector object is given for two particles, it is
rotated twice. Two particles at `(1, 0, 0)` end up at `(-1, 0, 0)` when rotated by a quarter turn
about the z axis. -/
theorem C46_rotate_violated :
    ∃ (store : ℕ → Vec3 ℝ) (positions : List ℕ) (axis : Vec3 ℝ) (angle : ℝ),
      axis.getLengthSquared = 1 ∧ positions.map store = [⟨1, 0, 0⟩, ⟨1, 0, 0⟩] ∧
      let s := (Coll.empty.setPositionsAndVelocities store positions []).1
      (s.rotateAroundNormalizedAxis axis angle).1.pos = [⟨-1, 0, 0⟩, ⟨-1, 0, 0⟩] ∧
      (⟨1, 0, 0⟩ : Vec3 ℝ).getRotatedAroundNormalizedAxis axis angle = .ok ⟨0, 1, 0⟩ := by
  have hax : (⟨0, 0, 1⟩ : Vec3 ℝ).getLengthSquared = 1 := by simp [Vec3.getLengthSquared, Vec3.dot]
  have hlen : (⟨0, 0, 1⟩ : Vec3 ℝ).getLength = 1 := by rw [Vec3.getLength, hax, Real.sqrt_one]
  have hr : ∀ u : Vec3 ℝ, u.cppRotate ⟨0, 0, 1⟩ (Real.pi / 2) = ⟨-u.y, u.x, u.z⟩ := by
    intro u
    ext <;> simp [Vec3.cppRotate, Vec3.rotateCS, Vec3.dot, Vec3.cross]
  have hrot : ∀ u : Vec3 ℝ, (u.rotateAroundNormalizedAxis ⟨0, 0, 1⟩ (Real.pi / 2)).1 =
      ⟨-u.y, u.x, u.z⟩ := fun u => by rw [(Vec3.C11_cpp_agrees hlen u _).2, hr]
  refine ⟨fun _ => ⟨1, 0, 0⟩, [0, 0], ⟨0, 0, 1⟩, Real.pi / 2, hax, rfl, ?_, ?_⟩
  · simp [rotateAroundNormalizedAxis, hax, setPositionsAndVelocities, Coll.empty, rotateObjects,
      hrot, pos]
  · rw [(Vec3.C11_cpp_agrees hlen _ _).1, hr]
    simp

/-- The gyration tensor of rotated particles, `R S Rᵀ`, for any linear map with matrix `R`. -/
theorem C46_gyration_linear (ps : List (Vec3 ℝ)) (R : Mat) (f : Vec3 ℝ → Vec3 ℝ)
    (hf : ∀ u i, comp (f u) i = ∑ j, R i j * comp u j) :
    gyration (ps.map f) = R * gyration ps * R.transpose := by
  have inner : ∀ (l : List (Vec3 ℝ)) (w : Fin 3 → Fin 3 → ℝ) (G : Vec3 ℝ → Fin 3 → Fin 3 → ℝ),
      (l.map fun a => ∑ k, ∑ j, w k j * G a k j).sum = ∑ k, ∑ j, w k j * (l.map fun a => G a k j).sum := by
    intro l w G
    induction l with
    | nil => simp
    | cons a l ih => simp only [List.map_cons, List.sum_cons, ih, mul_add, Finset.sum_add_distrib]
  ext m n
  rw [C46_gyration_definition]
  simp only [List.length_map, List.map_map, Function.comp_def]
  have e : ∀ a b, (comp (f a) m - comp (f b) m) * (comp (f a) n - comp (f b) n) =
      ∑ k, ∑ j, (R m k * R n j) * ((comp a k - comp b k) * (comp a j - comp b j)) := by
    intro a b
    simp only [hf, Fin.sum_univ_three]
    ring
  simp only [e, inner, Matrix.mul_apply, Matrix.transpose_apply]
  simp only [C46_gyration_definition, Fin.sum_univ_three]
  ring

/-! ## Equality -/

/-- C46: with velocities, `==` compares positions, velocities and mass. -/
theorem C46_eq_partial (s t : Coll) (hs : s.velocities.length = s.positions.length)
    (ht : t.velocities.length = t.positions.length) :
    s.eq t = .ok (open Classical in decide (s.pos = t.pos ∧ s.vel = t.vel ∧ s.uniformMass = t.uniformMass)) := by
  classical
  have key : ∀ (ps qs vs ws : List (Vec3 ℝ)), qs.length = ps.length → vs.length = ps.length →
      ws.length = ps.length → eqLoop ps qs vs ws = .ok (decide (ps = qs ∧ vs = ws)) := by
    intro ps
    induction ps with
    | nil =>
      intro qs vs ws h1 h2 h3
      have e1 := List.length_eq_zero_iff.1 h1
      have e2 := List.length_eq_zero_iff.1 h2
      have e3 := List.length_eq_zero_iff.1 h3
      subst e1 e2 e3
      simp [eqLoop]
    | cons p ps ih =>
      intro qs vs ws h1 h2 h3
      obtain ⟨q, qs, rfl⟩ := List.exists_cons_of_length_eq_add_one (h1.trans (List.length_cons ..))
      obtain ⟨v, vs, rfl⟩ := List.exists_cons_of_length_eq_add_one (h2.trans (List.length_cons ..))
      obtain ⟨w, ws, rfl⟩ := List.exists_cons_of_length_eq_add_one (h3.trans (List.length_cons ..))
      simp only [List.length_cons, Nat.add_right_cancel_iff] at h1 h2 h3
      rw [eqLoop]
      by_cases hp : p = q
      · rw [if_neg (not_not.2 hp)]
        by_cases hv : v = w
        · rw [if_neg (not_not.2 hv), ih _ _ _ h1 h2 h3]
          simp [hp, hv]
        · rw [if_pos hv]
          simp [hv]
      · rw [if_pos hp]
        simp [hp]
  unfold Coll.eq
  by_cases hl : s.positions.length = t.positions.length
  · rw [if_neg (not_not.2 hl)]
    by_cases hm : s.uniformMass = t.uniformMass
    · rw [if_neg (not_not.2 hm), key]
      · congr 1
        simp [hm]
      · simp [pos, hl]
      · simp [pos, vel, hs]
      · simp [pos, vel, ht, hl]
    · rw [if_pos hm]
      simp [hm]
  · rw [if_pos hl]
    congr 1
    symm
    rw [decide_eq_false_iff_not]
    rintro ⟨h, -, -⟩
    have := congrArg List.length h
    simp only [pos, List.length_map] at this
    exact hl this

/-- C46 fails for `==`: comparing a collection without velocities with itself raises. -/
theorem C46_eq_violated (s : Coll) (hne : s.positions ≠ []) (hv : s.velocities = []) :
    s.eq s = .error .indexError := by
  obtain ⟨n, ns, hn⟩ := List.exists_cons_of_ne_nil hne
  unfold Coll.eq
  rw [if_neg (by simp), if_neg (by simp)]
  simp [pos, vel, hn, hv, eqLoop]

/-! ## Examples -/

/-- Two particles with velocities and mass. -/
noncomputable def exampleColl : Coll :=
  (((Coll.empty.setPositionsAndVelocities (fun n => ⟨n, 1, 0⟩) [0, 2] [1, 3]).1).setUniformMass 2).1

/-- The hypotheses of `C46_shift` and `C46_rotate_partial` can be met. -/
example : exampleColl.uniformMass = some 2 ∧ exampleColl.positions ≠ [] ∧
    exampleColl.velocities.length = exampleColl.positions.length ∧
    (exampleColl.positions ++ exampleColl.velocities).Nodup ∧
    exampleColl.pos = [⟨0, 1, 0⟩, ⟨2, 1, 0⟩] := by
  have h : ¬ ((2 : ℝ) < 0) := by norm_num
  refine ⟨?_, ?_, ?_, ?_, ?_⟩ <;>
    simp [exampleColl, setUniformMass, setPositionsAndVelocities, Coll.empty, h, pos]

end OpenMPCD.Particles
