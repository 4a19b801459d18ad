import Verif.Verlet.Props
import Mathlib.Analysis.SpecialFunctions.Trigonometric.Deriv
import Mathlib.Analysis.Calculus.Deriv.Mul

/-!
# Analytic streaming of dumbbells (C23)
-/

set_option linter.unusedSimpArgs false

namespace OpenMPCD.Verlet

/-- Streaming the dumbbell `p` for the time `t`. -/
noncomputable def streamFor (omega : ℝ) (p : ℕ) (t : ℝ) (m : Mem ℝ) : Mem ℝ :=
  streamAnalytically (setSymbols omega t) p m

/-- Kinetic and potential energy of two particles of unit mass joined by a spring. -/
noncomputable def energy (p : ℕ) (k : ℝ) (m : Mem ℝ) : ℝ :=
  ((m.vel p).dot (m.vel p) + (m.vel (p + 1)).dot (m.vel (p + 1))) / 2 +
    k / 2 * (m.pos (p + 1) - m.pos p).dot (m.pos (p + 1) - m.pos p)

/-- Derivative of a curve of vectors. -/
def VecDeriv (f : ℝ → Vec3 ℝ) (f' : Vec3 ℝ) (t : ℝ) : Prop :=
  HasDerivAt (fun s => (f s).x) f'.x t ∧ HasDerivAt (fun s => (f s).y) f'.y t ∧
    HasDerivAt (fun s => (f s).z) f'.z t

/-- Explicit form of the motion. -/
theorem streamFor_vals (omega : ℝ) (p : ℕ) (t : ℝ) (m : Mem ℝ) :
    let c := Real.cos (omega * t)
    let s := Real.sin (omega * t)
    let R := m.pos (p + 1) - m.pos p
    let V := m.vel (p + 1) - m.vel p
    let X := (1 / 2 : ℝ) • (m.pos p + m.pos (p + 1)) + t • (1 / 2 : ℝ) • (m.vel p + m.vel (p + 1))
    let W := (1 / 2 : ℝ) • (m.vel p + m.vel (p + 1))
    (streamFor omega p t m).pos p = X - (1 / 2 : ℝ) • (c • R + (1 / omega) • s • V) ∧
    (streamFor omega p t m).pos (p + 1) = X + (1 / 2 : ℝ) • (c • R + (1 / omega) • s • V) ∧
    (streamFor omega p t m).vel p = W - (1 / 2 : ℝ) • (s • (-omega) • R + c • V) ∧
    (streamFor omega p t m).vel (p + 1) = W + (1 / 2 : ℝ) • (s • (-omega) • R + c • V) := by
  simp [streamFor, streamAnalytically, setSymbols, Mem.setPos, Mem.setVel, Function.update_apply]

theorem streamFor_other (omega : ℝ) (p : ℕ) (t : ℝ) (m : Mem ℝ) {j : ℕ} (h1 : j ≠ p) (h2 : j ≠ p + 1) :
    (streamFor omega p t m).pos j = m.pos j ∧ (streamFor omega p t m).vel j = m.vel j := by
  simp [streamFor, streamAnalytically, setSymbols, Mem.setPos, Mem.setVel, Function.update_apply, h1, h2]

/-- C23: the frequency and the spring constant used by the program belong together. -/
theorem C23_constants {lambda kT mass : ℝ} (h : 0 ≤ 4 * lambda * kT / mass) :
    (dumbbellConstants lambda kT mass).2 ^ 2 = 2 * (dumbbellConstants lambda kT mass).1 := by
  simp only [dumbbellConstants]
  rw [Real.sq_sqrt h]
  ring

/-- C23: positions and velocities start with the given ones and obey the equations of motion of two particles
joined by the spring that is also used for velocity Verlet streaming. -/
theorem C23_equations_of_motion {omega k : ℝ} (h : omega ≠ 0) (hk : omega ^ 2 = 2 * k) (p : ℕ) (m : Mem ℝ) :
    streamFor omega p 0 m = m ∧
    ∀ j ∈ ({p, p + 1} : Finset ℕ), ∀ t,
      VecDeriv (fun s => (streamFor omega p s m).pos j) ((streamFor omega p t m).vel j) t ∧
      VecDeriv (fun s => (streamFor omega p s m).vel j) (springPair p k (streamFor omega p t m).pos j) t := by
  obtain rfl : k = omega ^ 2 / 2 := by linarith
  constructor
  · obtain ⟨h1, h2, h3, h4⟩ := streamFor_vals omega p 0 m
    refine Mem.ext' (fun j => ?_) (fun j => ?_)
    · by_cases e1 : j = p
      · subst e1
        rw [h1]
        simp only [mul_zero, Real.cos_zero, Real.sin_zero]
        module
      · by_cases e2 : j = p + 1
        · subst e2
          rw [h2]
          simp only [mul_zero, Real.cos_zero, Real.sin_zero]
          module
        · exact (streamFor_other omega p 0 m e1 e2).1
    · by_cases e1 : j = p
      · subst e1
        rw [h3]
        simp only [mul_zero, Real.cos_zero, Real.sin_zero]
        module
      · by_cases e2 : j = p + 1
        · subst e2
          rw [h4]
          simp only [mul_zero, Real.cos_zero, Real.sin_zero]
          module
        · exact (streamFor_other omega p 0 m e1 e2).2
  · have hv := fun t => streamFor_vals omega p t m
    have hlin : ∀ t : ℝ, HasDerivAt (fun s : ℝ => omega * s) omega t := fun t => by
      simpa using (hasDerivAt_id t).const_mul omega
    have hcos : ∀ t : ℝ, HasDerivAt (fun s : ℝ => Real.cos (omega * s)) (-Real.sin (omega * t) * omega) t :=
      fun t => (hlin t).cos
    have hsin : ∀ t : ℝ, HasDerivAt (fun s : ℝ => Real.sin (omega * s)) (Real.cos (omega * t) * omega) t :=
      fun t => (hlin t).sin
    -- the general form of one component
    have hp : ∀ (σ A B C D : ℝ) (t : ℝ), HasDerivAt (fun s : ℝ => A + B * s +
        σ * (C * Real.cos (omega * s) + D * Real.sin (omega * s)))
        (B + σ * (C * (-Real.sin (omega * t) * omega) + D * (Real.cos (omega * t) * omega))) t := by
      intro σ A B C D t
      have h1 : HasDerivAt (fun s : ℝ => A + B * s) B t := by
        simpa using ((hasDerivAt_id t).const_mul B).const_add A
      exact h1.add ((((hcos t).const_mul C).add ((hsin t).const_mul D)).const_mul σ)
    intro j hj t
    have hj : j = p ∨ j = p + 1 := by simpa using hj
    rcases hj with rfl | rfl
    · simp only [(hv _).1, (hv _).2.1, (hv _).2.2.1, (hv _).2.2.2, springPair, if_true]
      refine ⟨⟨?_, ?_, ?_⟩, ?_, ?_, ?_⟩
      · have := hp (-1 / 2) ((m.pos j + m.pos (j + 1)).x / 2) ((m.vel j + m.vel (j + 1)).x / 2)
          (m.pos (j + 1) - m.pos j).x ((m.vel (j + 1) - m.vel j).x / omega) t
        convert this using 1
        · funext s; simp; ring
        · simp; field_simp; try ring
      · have := hp (-1 / 2) ((m.pos j + m.pos (j + 1)).y / 2) ((m.vel j + m.vel (j + 1)).y / 2)
          (m.pos (j + 1) - m.pos j).y ((m.vel (j + 1) - m.vel j).y / omega) t
        convert this using 1
        · funext s; simp; ring
        · simp; field_simp; try ring
      · have := hp (-1 / 2) ((m.pos j + m.pos (j + 1)).z / 2) ((m.vel j + m.vel (j + 1)).z / 2)
          (m.pos (j + 1) - m.pos j).z ((m.vel (j + 1) - m.vel j).z / omega) t
        convert this using 1
        · funext s; simp; ring
        · simp; field_simp; try ring
      · have := hp (-1 / 2) ((m.vel j + m.vel (j + 1)).x / 2) 0
          (m.vel (j + 1) - m.vel j).x (-omega * (m.pos (j + 1) - m.pos j).x) t
        convert this using 1
        · funext s; simp; ring
        · simp; field_simp; try ring
      · have := hp (-1 / 2) ((m.vel j + m.vel (j + 1)).y / 2) 0
          (m.vel (j + 1) - m.vel j).y (-omega * (m.pos (j + 1) - m.pos j).y) t
        convert this using 1
        · funext s; simp; ring
        · simp; field_simp; try ring
      · have := hp (-1 / 2) ((m.vel j + m.vel (j + 1)).z / 2) 0
          (m.vel (j + 1) - m.vel j).z (-omega * (m.pos (j + 1) - m.pos j).z) t
        convert this using 1
        · funext s; simp; ring
        · simp; field_simp; try ring
    · simp only [(hv _).1, (hv _).2.1, (hv _).2.2.1, (hv _).2.2.2, springPair, if_true,
        show p + 1 ≠ p by omega, if_false]
      refine ⟨⟨?_, ?_, ?_⟩, ?_, ?_, ?_⟩
      · have := hp (1 / 2) ((m.pos p + m.pos (p + 1)).x / 2) ((m.vel p + m.vel (p + 1)).x / 2)
          (m.pos (p + 1) - m.pos p).x ((m.vel (p + 1) - m.vel p).x / omega) t
        convert this using 1
        · funext s; simp; ring
        · simp; field_simp; try ring
      · have := hp (1 / 2) ((m.pos p + m.pos (p + 1)).y / 2) ((m.vel p + m.vel (p + 1)).y / 2)
          (m.pos (p + 1) - m.pos p).y ((m.vel (p + 1) - m.vel p).y / omega) t
        convert this using 1
        · funext s; simp; ring
        · simp; field_simp; try ring
      · have := hp (1 / 2) ((m.pos p + m.pos (p + 1)).z / 2) ((m.vel p + m.vel (p + 1)).z / 2)
          (m.pos (p + 1) - m.pos p).z ((m.vel (p + 1) - m.vel p).z / omega) t
        convert this using 1
        · funext s; simp; ring
        · simp; field_simp; try ring
      · have := hp (1 / 2) ((m.vel p + m.vel (p + 1)).x / 2) 0
          (m.vel (p + 1) - m.vel p).x (-omega * (m.pos (p + 1) - m.pos p).x) t
        convert this using 1
        · funext s; simp; ring
        · simp; field_simp; try ring
      · have := hp (1 / 2) ((m.vel p + m.vel (p + 1)).y / 2) 0
          (m.vel (p + 1) - m.vel p).y (-omega * (m.pos (p + 1) - m.pos p).y) t
        convert this using 1
        · funext s; simp; ring
        · simp; field_simp; try ring
      · have := hp (1 / 2) ((m.vel p + m.vel (p + 1)).z / 2) 0
          (m.vel (p + 1) - m.vel p).z (-omega * (m.pos (p + 1) - m.pos p).z) t
        convert this using 1
        · funext s; simp; ring
        · simp; field_simp; try ring

/-- C23: momentum of the pair and its energy are conserved, and the centre of mass moves uniformly; other
particles are not affected. -/
theorem C23_conservation {omega k : ℝ} (h : omega ≠ 0) (hk : omega ^ 2 = 2 * k) (p : ℕ) (t : ℝ) (m : Mem ℝ) :
    let m' := streamFor omega p t m
    m'.vel p + m'.vel (p + 1) = m.vel p + m.vel (p + 1) ∧
    m'.pos p + m'.pos (p + 1) = m.pos p + m.pos (p + 1) + t • (m.vel p + m.vel (p + 1)) ∧
    energy p k m' = energy p k m ∧
    ∀ j, j ≠ p → j ≠ p + 1 → m'.pos j = m.pos j ∧ m'.vel j = m.vel j := by
  obtain rfl : k = omega ^ 2 / 2 := by linarith
  obtain ⟨h1, h2, h3, h4⟩ := streamFor_vals omega p t m
  simp only
  refine ⟨?_, ?_, ?_, fun j e1 e2 => streamFor_other omega p t m e1 e2⟩
  · rw [h3, h4]; module
  · rw [h1, h2]; module
  · simp only [energy, h1, h2, h3, h4]
    have hsc := Real.sin_sq_add_cos_sq (omega * t)
    generalize Real.sin (omega * t) = s at hsc
    generalize Real.cos (omega * t) = c at hsc
    generalize m.pos p = r1
    generalize m.pos (p + 1) = r2
    generalize m.vel p = v1
    generalize m.vel (p + 1) = v2
    have key : ∀ a b u v : ℝ, ((((u + v) / 2 - (s * -omega * (b - a) + c * (v - u)) / 2) ^ 2 +
        ((u + v) / 2 + (s * -omega * (b - a) + c * (v - u)) / 2) ^ 2) / 2 + omega ^ 2 / 2 / 2 *
        (c * (b - a) + s * (v - u) / omega) ^ 2) = (u ^ 2 + v ^ 2) / 2 + omega ^ 2 / 2 / 2 * (b - a) ^ 2 := by
      intro a b u v
      field_simp
      linear_combination 2 * (omega ^ 2 * (b - a) ^ 2 + (v - u) ^ 2) * hsc
    have kx := key r1.x r2.x v1.x v2.x
    have ky := key r1.y r2.y v1.y v2.y
    have kz := key r1.z r2.z v1.z v2.z
    simp only [Vec3.dot, Vec3.add_x, Vec3.add_y, Vec3.add_z, Vec3.sub_x, Vec3.sub_y, Vec3.sub_z, Vec3.smul_x,
      Vec3.smul_y, Vec3.smul_z]
    linear_combination kx + ky + kz

/-- C23: streaming for two times in a row is streaming for their sum. -/
theorem C23_composition {omega : ℝ} (h : omega ≠ 0) (p : ℕ) (t u : ℝ) (m : Mem ℝ) :
    streamFor omega p u (streamFor omega p t m) = streamFor omega p (t + u) m := by
  obtain ⟨h1, h2, h3, h4⟩ := streamFor_vals omega p t m
  obtain ⟨g1, g2, g3, g4⟩ := streamFor_vals omega p u (streamFor omega p t m)
  obtain ⟨f1, f2, f3, f4⟩ := streamFor_vals omega p (t + u) m
  rw [h1, h2, h3, h4] at g1 g2 g3 g4
  rw [mul_add, Real.cos_add, Real.sin_add] at f1 f2 f3 f4
  refine Mem.ext' (fun j => ?_) (fun j => ?_)
  · by_cases e1 : j = p
    · subst e1
      rw [g1, f1]
      ext <;> simp <;> field_simp <;> ring
    · by_cases e2 : j = p + 1
      · subst e2
        rw [g2, f2]
        ext <;> simp <;> field_simp <;> ring
      · rw [(streamFor_other omega p u _ e1 e2).1, (streamFor_other omega p t m e1 e2).1,
          (streamFor_other omega p (t + u) m e1 e2).1]
  · by_cases e1 : j = p
    · subst e1
      rw [g3, f3]
      ext <;> simp <;> field_simp <;> ring
    · by_cases e2 : j = p + 1
      · subst e2
        rw [g4, f4]
        ext <;> simp <;> field_simp <;> ring
      · rw [(streamFor_other omega p u _ e1 e2).2, (streamFor_other omega p t m e1 e2).2,
          (streamFor_other omega p (t + u) m e1 e2).2]

/-- Constants meeting the conditions. -/
example : (2 : ℝ) ≠ 0 ∧ (2 : ℝ) ^ 2 = 2 * 2 ∧ (0 : ℝ) ≤ 4 * 1 * 1 / 1 := by norm_num

end OpenMPCD.Verlet
