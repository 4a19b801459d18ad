import Verif.Potentials.Model
import Mathlib.Analysis.Calculus.Deriv.Pow
import Mathlib.Analysis.Calculus.Deriv.Inv
import Mathlib.Analysis.Calculus.Deriv.ZPow
import Mathlib.Analysis.SpecialFunctions.ExpDeriv
import Mathlib.Analysis.SpecialFunctions.Log.Deriv
import Mathlib.Analysis.SpecialFunctions.Sqrt

/-!
# Forces are minus the gradient of the potential (C33)
-/

set_option linter.unusedSimpArgs false

namespace OpenMPCD.Potentials

open Vec3

/-- The force is defined at `R`, and in every direction minus the derivative of the potential there is the
component of the force. -/
def IsForce (p : PairPotential) (R : Vec3 ℝ) : Prop :=
  ∃ F, p.force R = some F ∧
    ∀ u : Vec3 ℝ, HasDerivAt (fun t : ℝ => p.potential (R + t • u)) (-(F.dot u)) 0

/-! ## Distances -/

theorem dot_pos {R : Vec3 ℝ} (h : R ≠ 0) : 0 < R.dot R :=
  lt_of_le_of_ne (dot_self_nonneg R) fun h' => h (dot_self_eq_zero.1 h'.symm)

theorem mag_pos {R : Vec3 ℝ} (h : R ≠ 0) : 0 < R.cppMagnitude := Real.sqrt_pos.2 (dot_pos h)

theorem mag_sq (R : Vec3 ℝ) : R.cppMagnitude * R.cppMagnitude = R.dot R :=
  Real.mul_self_sqrt (dot_self_nonneg R)

theorem magSq_deriv (R u : Vec3 ℝ) :
    HasDerivAt (fun t : ℝ => (R + t • u).cppMagnitudeSquared) (2 * R.dot u) 0 := by
  have e : (fun t : ℝ => (R + t • u).cppMagnitudeSquared) =
      fun t => R.dot R + t * (2 * R.dot u) + t ^ 2 * u.dot u := by
    funext t
    simp [cppMagnitudeSquared, dot]
    ring
  rw [e]
  have h1 : HasDerivAt (fun t : ℝ => t * (2 * R.dot u)) (1 * (2 * R.dot u)) 0 := (hasDerivAt_id _).mul_const _
  have h2 : HasDerivAt (fun t : ℝ => t ^ 2 * u.dot u) ((2 : ℕ) * (0 : ℝ) ^ (2 - 1) * u.dot u) 0 :=
    (hasDerivAt_pow 2 (0 : ℝ)).mul_const _
  have h3 := (h1.const_add (R.dot R)).add h2
  exact h3.congr_deriv (by simp)

theorem mag_deriv {R : Vec3 ℝ} (h : R ≠ 0) (u : Vec3 ℝ) :
    HasDerivAt (fun t : ℝ => (R + t • u).cppMagnitude) (R.dot u / R.cppMagnitude) 0 := by
  have h0 : (R + (0 : ℝ) • u).cppMagnitudeSquared = R.dot R := by simp [cppMagnitudeSquared]
  have := (magSq_deriv R u).sqrt (by rw [h0]; exact (dot_pos h).ne')
  rw [h0] at this
  refine this.congr_deriv ?_
  have hm : R.cppMagnitude ≠ 0 := (mag_pos h).ne'
  change 2 * R.dot u / (2 * R.cppMagnitude) = _
  field_simp

theorem normalized_some {R : Vec3 ℝ} (h : R ≠ 0) :
    R.cppGetNormalized = some ((1 / R.cppMagnitude) • R) := by
  unfold cppGetNormalized
  rw [if_neg (mag_pos h).ne']
  congr 1
  ext <;> simp <;> ring

/-- A potential depending on the distance only. -/
theorem radial {p : PairPotential} {R : Vec3 ℝ} (h : R ≠ 0) {φ : ℝ → ℝ} {φ' c : ℝ}
    (hφ : HasDerivAt φ φ' R.cppMagnitude) (hp : ∀ᶠ S in nhds R.cppMagnitude, ∀ v : Vec3 ℝ,
      v.cppMagnitude = S → p.potential v = φ S)
    (hF : p.force R = some (c • ((1 / R.cppMagnitude) • R))) (hc : c = -φ') : IsForce p R := by
  refine ⟨_, hF, ?_⟩
  intro u
  have hm := mag_deriv h u
  have h0 : (R + (0 : ℝ) • u).cppMagnitude = R.cppMagnitude := by simp
  have hcomp : HasDerivAt (fun t : ℝ => φ (R + t • u).cppMagnitude) (φ' * (R.dot u / R.cppMagnitude)) 0 := by
    have hφ' : HasDerivAt φ φ' ((fun t : ℝ => (R + t • u).cppMagnitude) 0) := by simpa using hφ
    exact hφ'.comp 0 hm
  have hev : ∀ᶠ t in nhds (0 : ℝ), p.potential (R + t • u) = φ (R + t • u).cppMagnitude := by
    have hcont : Filter.Tendsto (fun t : ℝ => (R + t • u).cppMagnitude) (nhds 0) (nhds R.cppMagnitude) := by
      have := hm.continuousAt.tendsto
      rwa [h0] at this
    filter_upwards [hcont.eventually hp] with t ht
    exact ht _ rfl
  have := hcomp.congr_of_eventuallyEq hev
  refine this.congr_deriv ?_
  rw [hc, smul_dot, smul_dot]
  ring

/-! ## The potentials -/

/-- C33, FENE: wherever the argument of the logarithm is positive. -/
theorem C33_fene (K l0 R0 : ℝ) (hR0 : R0 ≠ 0) (R : Vec3 ℝ) (h : R ≠ 0)
    (hdom : 0 < 1 - ((R.cppMagnitude - l0) / R0) ^ 2) : IsForce (fene K l0 R0) R := by
  set r := R.cppMagnitude with hr
  have hd : HasDerivAt (fun S : ℝ => -0.5 * K * R0 * R0 * Real.log (1 - (S - l0) / R0 * ((S - l0) / R0)))
      (-0.5 * K * R0 * R0 * ((-(1 / R0 * ((r - l0) / R0) + (r - l0) / R0 * (1 / R0))) /
        (1 - (r - l0) / R0 * ((r - l0) / R0)))) r := by
    have h1 : HasDerivAt (fun S : ℝ => (S - l0) / R0) (1 / R0) r := ((hasDerivAt_id r).sub_const l0).div_const R0
    have h2 := (h1.mul h1).const_sub 1
    have h3 := h2.log (by have := hdom.ne'; rwa [sq] at this)
    exact h3.const_mul _
  refine radial h hd (Filter.Eventually.of_forall fun S v hv => ?_)
    (c := -((K * (r - l0)) / (1 - ((r - l0) * (r - l0)) / (R0 * R0)))) ?_ ?_
  · simp only [fene, hv]
  · simp only [fene, normalized_some h, Option.bind_eq_bind, Option.bind_some]
    congr 1
    ext <;> simp [hr]
  · have hne : (1 - (r - l0) / R0 * ((r - l0) / R0)) ≠ 0 := by have := hdom.ne'; rwa [sq] at this
    have e : (r - l0) * (r - l0) / (R0 * R0) = (r - l0) / R0 * ((r - l0) / R0) := by field_simp
    rw [e]
    field_simp
    ring

/-- C33, GEMn. -/
theorem C33_gemn (epsilon sigma : ℝ) (hs : sigma ≠ 0) (n : ℤ) (R : Vec3 ℝ) (h : R ≠ 0) :
    IsForce (gemn epsilon sigma n) R := by
  set r := R.cppMagnitude with hr
  have hr0 : r ≠ 0 := (mag_pos h).ne'
  have hx : r / sigma ≠ 0 := div_ne_zero hr0 hs
  have hd : HasDerivAt (fun S : ℝ => epsilon * Real.exp ((-1) * (S / sigma) ^ n))
      (epsilon * (Real.exp ((-1) * (r / sigma) ^ n) * ((-1) * (n * (r / sigma) ^ (n - 1) * (1 / sigma))))) r := by
    have h1 : HasDerivAt (fun S : ℝ => S / sigma) (1 / sigma) r := (hasDerivAt_id r).div_const sigma
    have h2 : HasDerivAt (fun S : ℝ => (S / sigma) ^ n) (n * (r / sigma) ^ (n - 1) * (1 / sigma)) r :=
      HasDerivAt.comp (h₂ := fun y : ℝ => y ^ n) r (hasDerivAt_zpow n (r / sigma) (Or.inl hx)) h1
    exact ((h2.const_mul (-1)).exp).const_mul _
  refine radial h hd (Filter.Eventually.of_forall fun S v hv => ?_)
    (c := (n * epsilon * (r / sigma) ^ n * Real.exp ((-1) * (r / sigma) ^ n)) / r) ?_ ?_
  · simp only [gemn, hv]
  · simp only [gemn, normalized_some h, Option.bind_eq_bind, Option.bind_some]
    rfl
  · rw [zpow_sub_one₀ hx]
    field_simp

/-- C33, Morse. -/
theorem C33_morse (epsilon alpha sigma shift : ℝ) (R : Vec3 ℝ) (h : R ≠ 0) :
    IsForce (morse epsilon alpha sigma shift) R := by
  set r := R.cppMagnitude with hr
  have hexp : ∀ k : ℝ, HasDerivAt (fun S : ℝ => Real.exp (k * (S - sigma)))
      (Real.exp (k * (r - sigma)) * (k * 1)) r := fun k =>
    (((hasDerivAt_id r).sub_const sigma).const_mul k).exp
  have hd : HasDerivAt (fun S : ℝ => epsilon * (Real.exp (-2 * alpha * (S - sigma)) -
      2 * Real.exp ((-1) * alpha * (S - sigma))) - shift)
      (epsilon * (Real.exp (-2 * alpha * (r - sigma)) * (-2 * alpha * 1) -
        2 * (Real.exp ((-1) * alpha * (r - sigma)) * ((-1) * alpha * 1)))) r :=
    ((((hexp (-2 * alpha)).sub ((hexp ((-1) * alpha)).const_mul 2)).const_mul epsilon).sub_const shift)
  refine radial h hd (Filter.Eventually.of_forall fun S v hv => ?_)
    (c := (-1) * epsilon * ((-2) * alpha * Real.exp (-2 * alpha * (r - sigma)) +
      2 * alpha * Real.exp ((-1) * alpha * (r - sigma)))) ?_ ?_
  · simp only [morse, hv]
  · simp only [morse, normalized_some h, Option.bind_eq_bind, Option.bind_some]
    rfl
  · ring

/-- C33, Lennard-Jones: everywhere but at the cut-off distance, where the potential jumps, and at the
offset. -/
theorem C33_lennardJones (r_offset r_cut sigma epsilon : ℝ) (R : Vec3 ℝ) (h : R ≠ 0)
    (hcut : R.cppMagnitude ≠ r_cut) (hoff : R.cppMagnitude ≠ r_offset) :
    IsForce (lennardJones r_offset r_cut sigma epsilon) R := by
  set r := R.cppMagnitude with hr
  rcases lt_or_gt_of_ne hcut with hlt | hgt
  · have hne : r - r_offset ≠ 0 := sub_ne_zero.2 hoff
    have h1 : HasDerivAt (fun S : ℝ => sigma / (S - r_offset)) (-(sigma * 1) / (r - r_offset) ^ 2) r := by
      have := ((hasDerivAt_const r sigma).div ((hasDerivAt_id r).sub_const r_offset) hne)
      exact this.congr_deriv (by simp)
    have hd : HasDerivAt (fun S : ℝ => 4 * epsilon * ((sigma / (S - r_offset)) ^ 12 -
        (sigma / (S - r_offset)) ^ 6)) (4 * epsilon * (((12 : ℕ) * (sigma / (r - r_offset)) ^ (12 - 1) *
          (-(sigma * 1) / (r - r_offset) ^ 2)) - ((6 : ℕ) * (sigma / (r - r_offset)) ^ (6 - 1) *
          (-(sigma * 1) / (r - r_offset) ^ 2)))) r :=
      ((h1.pow 12).sub (h1.pow 6)).const_mul _
    refine radial h hd ?_ (c := 24 * epsilon * (2 * ((sigma * (1 / (r - r_offset))) ^ 6 *
      (sigma * (1 / (r - r_offset))) ^ 6) - (sigma * (1 / (r - r_offset))) ^ 6) * (1 / (r - r_offset))) ?_ ?_
    · filter_upwards [eventually_lt_nhds hlt] with S hS v hv
      simp only [lennardJones, hv]
      rw [if_neg (not_lt.2 hS.le)]
    · simp only [lennardJones]
      rw [if_neg (not_lt.2 (hr ▸ hlt.le)), normalized_some h]
      rfl
    · push_cast
      field_simp
      ring
  · refine radial h (hasDerivAt_const r (0 : ℝ)) ?_ (c := 0) ?_ (by simp)
    · filter_upwards [eventually_gt_nhds hgt] with S hS v hv
      simp only [lennardJones, hv]
      rw [if_pos hS]
    · simp only [lennardJones]
      rw [if_pos (hr ▸ hgt), zero_smul]

/-- A function between zero and a function whose value and derivative vanish. -/
theorem hasDerivAt_of_le {f g : ℝ → ℝ} {x : ℝ} (hg : HasDerivAt g 0 x) (hg0 : g x = 0)
    (hfg : ∀ t, f t = g t ∨ f t = 0) : HasDerivAt f 0 x := by
  have hf0 : f x = 0 := by rcases hfg x with h | h <;> simp [h, hg0]
  rw [hasDerivAt_iff_isLittleO] at hg ⊢
  simp only [hg0, hf0, smul_zero, sub_zero] at hg ⊢
  refine Asymptotics.IsBigO.trans_isLittleO ?_ hg
  refine Asymptotics.IsBigO.of_bound 1 (Filter.Eventually.of_forall fun t => ?_)
  rcases hfg t with h | h <;> simp [h]

theorem cube_root_two : ((2 : ℝ) ^ (1 / 3 : ℝ)) ^ 3 = 2 := by
  rw [← Real.rpow_natCast, ← Real.rpow_mul (by norm_num)]
  norm_num

theorem sixth_root_two : ((2 : ℝ) ^ (1 / 6 : ℝ)) ^ 6 = 2 := by
  rw [← Real.rpow_natCast, ← Real.rpow_mul (by norm_num)]
  norm_num

/-- C33, WCA: everywhere except for vanishing distance, including the cut-off distance. -/
theorem C33_wca (epsilon sigma : ℝ) (R : Vec3 ℝ) (h : R ≠ 0) : IsForce (wca epsilon sigma) R := by
  have hpos := dot_pos h
  set c : ℝ := (2 : ℝ) ^ (1 / 3 : ℝ) with hc
  have hcpos : 0 < c := Real.rpow_pos_of_pos (by norm_num) _
  have hc3 : c ^ 3 = 2 := cube_root_two
  set s2 := sigma * sigma with hs2
  let g : ℝ → ℝ := fun q => 4 * epsilon * (s2 / q * (s2 / q) * (s2 / q) * (s2 / q * (s2 / q) * (s2 / q)) -
    s2 / q * (s2 / q) * (s2 / q) + 1 / 4)
  have hgd : ∀ u : Vec3 ℝ, HasDerivAt (fun t : ℝ => g (R + t • u).cppMagnitudeSquared)
      (4 * epsilon * (6 * (s2 / R.dot R) ^ 5 - 3 * (s2 / R.dot R) ^ 2) * (-(s2) / (R.dot R) ^ 2) *
        (2 * R.dot u)) 0 := by
    intro u
    have h0 : (R + (0 : ℝ) • u).cppMagnitudeSquared = R.dot R := by simp [cppMagnitudeSquared]
    have h1 : HasDerivAt (fun t : ℝ => s2 / (R + t • u).cppMagnitudeSquared)
        (-(s2) / (R.dot R) ^ 2 * (2 * R.dot u)) 0 := by
      have := (hasDerivAt_const (0 : ℝ) s2).div (magSq_deriv R u) (by rw [h0]; exact hpos.ne')
      rw [h0] at this
      exact this.congr_deriv (by ring)
    have h2 := ((h1.mul h1).mul h1)
    have h3 := (((h2.mul h2).sub h2).add_const (1 / 4)).const_mul (4 * epsilon)
    refine h3.congr_deriv ?_
    simp only [Pi.mul_apply, h0]
    ring
  by_cases hcut : R.dot R ≥ c * s2
  · refine ⟨0, ?_, ?_⟩
    · exact if_pos hcut
    · intro u
      rw [zero_dot, neg_zero]
      rcases lt_or_eq_of_le hcut with hlt | heq
      · have hev : ∀ᶠ t in nhds (0 : ℝ), (wca epsilon sigma).potential (R + t • u) = 0 := by
          have hcont := (magSq_deriv R u).continuousAt.tendsto
          simp only [zero_smul, add_zero] at hcont
          filter_upwards [hcont.eventually (eventually_gt_nhds (show c * s2 < R.cppMagnitudeSquared from hlt))]
            with t ht
          simp only [wca]
          rw [if_pos ht.le]
        exact (hasDerivAt_const (0 : ℝ) (0 : ℝ)).congr_of_eventuallyEq hev
      · have hs2pos : s2 ≠ 0 := by
          intro h0
          rw [h0, mul_zero] at heq
          exact hpos.ne heq
        have hx : s2 / R.dot R = 1 / c := by
          rw [← heq]
          field_simp
        have hx3 : (s2 / R.dot R) ^ 3 = 1 / 2 := by rw [hx, div_pow, hc3, one_pow]
        have hder := hgd u
        have hz : (4 * epsilon * (6 * (s2 / R.dot R) ^ 5 - 3 * (s2 / R.dot R) ^ 2) * (-(s2) / (R.dot R) ^ 2) *
            (2 * R.dot u)) = 0 := by
          have : 6 * (s2 / R.dot R) ^ 5 - 3 * (s2 / R.dot R) ^ 2 = 0 := by
            have e : 6 * (s2 / R.dot R) ^ 5 - 3 * (s2 / R.dot R) ^ 2 =
              (s2 / R.dot R) ^ 2 * (6 * (s2 / R.dot R) ^ 3 - 3) := by ring
            rw [e, hx3]; ring
          rw [this]; ring
        rw [hz] at hder
        refine hasDerivAt_of_le hder ?_ ?_
        · simp only [g, zero_smul, add_zero, cppMagnitudeSquared]
          have e : s2 / R.dot R * (s2 / R.dot R) * (s2 / R.dot R) = 1 / 2 := by rw [← hx3]; ring
          rw [e]; ring
        · intro t
          simp only [wca]
          split
          · exact Or.inr rfl
          · exact Or.inl rfl
  · refine ⟨_, if_neg hcut, ?_⟩
    intro u
    have hev : ∀ᶠ t in nhds (0 : ℝ), (wca epsilon sigma).potential (R + t • u) =
        g (R + t • u).cppMagnitudeSquared := by
      have hcont := (magSq_deriv R u).continuousAt.tendsto
      simp only [zero_smul, add_zero] at hcont
      filter_upwards [hcont.eventually (eventually_lt_nhds (show R.cppMagnitudeSquared < c * s2 from
        not_le.1 hcut))] with t ht
      simp only [wca]
      rw [if_neg (not_le.2 ht)]
    have := (hgd u).congr_of_eventuallyEq hev
    refine this.congr_deriv ?_
    rw [smul_dot]
    have := hpos.ne'
    simp only [cppMagnitudeSquared]
    field_simp
    ring

/-- C33, WCA with an offset: for all distances greater than the offset. -/
theorem C33_wcaOffset (epsilon sigma d : ℝ) (hd : 0 ≤ d) (R : Vec3 ℝ) (h : d < R.cppMagnitude) :
    IsForce (wcaOffset epsilon sigma d) R := by
  have hR : R ≠ 0 := by
    rintro rfl
    have : (0 : Vec3 ℝ).cppMagnitude = 0 := by simp [cppMagnitude, cppMagnitudeSquared]
    linarith
  set r := R.cppMagnitude with hr
  have hrpos : 0 < r := mag_pos hR
  set c : ℝ := (2 : ℝ) ^ (1 / 6 : ℝ) with hc
  have hcpos : 0 < c := Real.rpow_pos_of_pos (by norm_num) _
  have hc6 : c ^ 6 = 2 := sixth_root_two
  set s2 := sigma * sigma with hs2
  have hrd : 0 < r - d := by linarith
  let g : ℝ → ℝ := fun S => 4 * epsilon * (s2 / ((S - d) * (S - d)) * (s2 / ((S - d) * (S - d))) *
    (s2 / ((S - d) * (S - d))) * (s2 / ((S - d) * (S - d)) * (s2 / ((S - d) * (S - d))) *
    (s2 / ((S - d) * (S - d)))) -
    s2 / ((S - d) * (S - d)) * (s2 / ((S - d) * (S - d))) * (s2 / ((S - d) * (S - d))) + 1 / 4)
  have hgd : HasDerivAt g (4 * epsilon * (6 * (s2 / (r - d) ^ 2) ^ 5 - 3 * (s2 / (r - d) ^ 2) ^ 2) *
      (-(2 * s2) / (r - d) ^ 3)) r := by
    have h1 : HasDerivAt (fun S : ℝ => s2 / ((S - d) * (S - d))) (-(2 * s2) / (r - d) ^ 3) r := by
      have hs : HasDerivAt (fun S : ℝ => S - d) 1 r := (hasDerivAt_id r).sub_const d
      have := (hasDerivAt_const r s2).div (hs.mul hs) (by simpa using hrd.ne')
      refine this.congr_deriv ?_
      simp only [Pi.mul_apply]
      have := hrd.ne'
      field_simp
      ring
    have h2 := ((h1.mul h1).mul h1)
    have h3 := (((h2.mul h2).sub h2).add_const (1 / 4)).const_mul (4 * epsilon)
    refine h3.congr_deriv ?_
    simp only [Pi.mul_apply]
    rw [sq (r - d)]
    ring
  have hsqrt : ∀ v : Vec3 ℝ, Real.sqrt v.cppMagnitudeSquared = v.cppMagnitude := fun v => rfl
  by_cases hcut : r - d ≥ c * sigma
  · rcases lt_or_eq_of_le hcut with hlt | heq
    · refine radial hR (hasDerivAt_const r (0 : ℝ)) ?_ (c := 0) ?_ (by simp)
      · filter_upwards [eventually_gt_nhds (show c * sigma + d < r by linarith)] with S hS v hv
        simp only [wcaOffset, hsqrt, hv]
        rw [if_pos (by linarith)]
      · simp only [wcaOffset, hsqrt]
        rw [if_pos hcut, zero_smul]
    · have hsig : sigma ≠ 0 := by
        rintro rfl
        rw [mul_zero] at heq
        linarith
      have hx : s2 / (r - d) ^ 2 = 1 / c ^ 2 := by
        rw [← heq, hs2]
        field_simp
      have hx3 : (s2 / (r - d) ^ 2) ^ 3 = 1 / 2 := by
        rw [hx, div_pow, one_pow, ← pow_mul, hc6]
      have hz : 4 * epsilon * (6 * (s2 / (r - d) ^ 2) ^ 5 - 3 * (s2 / (r - d) ^ 2) ^ 2) *
          (-(2 * s2) / (r - d) ^ 3) = 0 := by
        have : 6 * (s2 / (r - d) ^ 2) ^ 5 - 3 * (s2 / (r - d) ^ 2) ^ 2 = 0 := by
          have e : 6 * (s2 / (r - d) ^ 2) ^ 5 - 3 * (s2 / (r - d) ^ 2) ^ 2 =
            (s2 / (r - d) ^ 2) ^ 2 * (6 * (s2 / (r - d) ^ 2) ^ 3 - 3) := by ring
          rw [e, hx3]; ring
        rw [this]; ring
      rw [hz] at hgd
      have hg0 : g r = 0 := by
        simp only [g]
        have e : s2 / ((r - d) * (r - d)) * (s2 / ((r - d) * (r - d))) * (s2 / ((r - d) * (r - d))) = 1 / 2 := by
          rw [← hx3, sq (r - d)]; ring
        rw [e]; ring
      have hfd := hasDerivAt_of_le (f := fun S => if S - d ≥ c * sigma then 0 else g S) hgd hg0
        (fun t => by by_cases ht : t - d ≥ c * sigma <;> simp [ht])
      refine radial hR hfd (Filter.Eventually.of_forall fun S v hv => ?_) (c := 0) ?_ (by simp)
      · simp only [wcaOffset, hsqrt, hv]
        rfl
      · simp only [wcaOffset, hsqrt]
        rw [if_pos hcut, zero_smul]
  · refine radial hR hgd ?_ (c := 24 * epsilon / (r - d) * (2 * (s2 / ((r - d) * (r - d))) ^ 6 -
      (s2 / ((r - d) * (r - d))) ^ 3)) ?_ ?_
    · filter_upwards [eventually_lt_nhds (show r < c * sigma + d by linarith [not_le.1 hcut])] with S hS v hv
      simp only [wcaOffset, hsqrt, hv]
      rw [if_neg (by push Not; linarith)]
    · simp only [wcaOffset, hsqrt]
      rw [if_neg hcut, smul_smul]
      congr 2
      have := hrpos.ne'
      have := hrd.ne'
      rw [← hr, ← hs2]
      field_simp
    · have := hrd.ne'
      field_simp
      ring

/-- C33, dipoles. -/
theorem C33_dipole (prefactor : ℝ) (orientation : Vec3 ℝ) (R : Vec3 ℝ) (h : R ≠ 0) :
    IsForce (dipole prefactor orientation) R := by
  refine ⟨_, rfl, ?_⟩
  intro u
  have hm := mag_deriv h u
  have hq := magSq_deriv R u
  have hpos := (mag_pos h).ne'
  have hsq : R.dot R = R.cppMagnitude ^ 2 := by rw [sq, mag_sq]
  have hqpos : R.dot R ≠ 0 := (dot_pos h).ne'
  have hdot : HasDerivAt (fun t : ℝ => (R + t • u).dot orientation) (u.dot orientation) 0 := by
    have e : (fun t : ℝ => (R + t • u).dot orientation) =
        fun t => R.dot orientation + t * u.dot orientation := by
      funext t; rw [add_dot, smul_dot]
    rw [e]
    simpa using ((hasDerivAt_id (0 : ℝ)).mul_const (u.dot orientation)).const_add (R.dot orientation)
  have h0 : R + (0 : ℝ) • u = R := by simp
  have hi : HasDerivAt (fun t : ℝ => 1 / (R + t • u).cppMagnitudeSquared)
      (-(2 * R.dot u) / (R.dot R) ^ 2) 0 := by
    have := (hasDerivAt_const (0 : ℝ) (1 : ℝ)).div hq (by rw [h0]; exact hqpos)
    rw [h0] at this
    exact this.congr_deriv (by simp [cppMagnitudeSquared])
  have hi3 : HasDerivAt (fun t : ℝ => 1 / (R + t • u).cppMagnitudeSquared /
      (R + t • u).cppMagnitude) ((-(2 * R.dot u) / (R.dot R) ^ 2 * R.cppMagnitude -
        1 / R.dot R * (R.dot u / R.cppMagnitude)) / R.cppMagnitude ^ 2) 0 := by
    have := hi.div hm (by rw [h0]; exact hpos)
    rw [h0] at this
    exact this
  have hA := (((hdot.const_mul 3).mul hdot).mul hi).sub_const 1
  have hV := ((hi3.const_mul (-prefactor)).mul hA)
  have hV' : HasDerivAt (fun t : ℝ => (dipole prefactor orientation).potential (R + t • u)) _ 0 := hV
  refine hV'.congr_deriv ?_
  simp only [Pi.mul_apply, h0]
  have e1 : R.cppMagnitudeSquared = R.cppMagnitude ^ 2 := hsq
  have e2 : Real.sqrt R.cppMagnitudeSquared = R.cppMagnitude := rfl
  rw [e2, e1, hsq, smul_dot, sub_dot, smul_dot, smul_dot, dot_comm orientation R, dot_comm orientation u]
  field_simp
  ring

/-- C33, dipoles along the z axis: the same as for the given orientation. -/
theorem dipoleZ_eq (prefactor : ℝ) (R : Vec3 ℝ) :
    (dipoleZ prefactor).force R = (dipole prefactor ⟨0, 0, 1⟩).force R ∧
    (dipoleZ prefactor).potential R = (dipole prefactor ⟨0, 0, 1⟩).potential R := by
  constructor
  · simp only [dipoleZ, dipole]
    congr 1
    ext <;> simp [dot] <;> ring
  · simp only [dipoleZ, dipole, dot]
    ring

theorem C33_dipoleZ (prefactor : ℝ) (R : Vec3 ℝ) (h : R ≠ 0) : IsForce (dipoleZ prefactor) R := by
  obtain ⟨F, hF, hd⟩ := C33_dipole prefactor ⟨0, 0, 1⟩ R h
  refine ⟨F, by rw [(dipoleZ_eq prefactor R).1, hF], ?_⟩
  intro u
  have e : (fun t : ℝ => (dipoleZ prefactor).potential (R + t • u)) =
      fun t : ℝ => (dipole prefactor ⟨0, 0, 1⟩).potential (R + t • u) := by
    funext t; exact (dipoleZ_eq prefactor _).2
  rw [e]; exact hd u

/-- C33, sums. -/
theorem C33_additive (p1 p2 : PairPotential) (R : Vec3 ℝ) (h1 : IsForce p1 R) (h2 : IsForce p2 R) :
    IsForce (additivePair p1 p2) R := by
  obtain ⟨F1, e1, d1⟩ := h1
  obtain ⟨F2, e2, d2⟩ := h2
  refine ⟨F1 + F2, by simp [additivePair, e1, e2], ?_⟩
  intro u
  have := (d1 u).add (d2 u)
  rw [add_dot, neg_add]
  exact this

/-- C33, no interaction. -/
theorem C33_null (R : Vec3 ℝ) : IsForce null R :=
  ⟨0, rfl, fun u => by rw [zero_dot, neg_zero]; exact hasDerivAt_const (0 : ℝ) (0 : ℝ)⟩

/-! ## Newton's third law -/

/-- The force on one particle due to the other is opposite to the force on the other due to the first, and one is
defined if the other is. -/
def ThirdLaw (p : PairPotential) : Prop :=
  ∀ r1 r2, p.forceOnR1DueToR2 r2 r1 = (p.forceOnR1DueToR2 r1 r2).map (fun F => -F)

theorem magSq_neg (R : Vec3 ℝ) : (-R).cppMagnitudeSquared = R.cppMagnitudeSquared := by
  simp [cppMagnitudeSquared, dot]

theorem mag_neg (R : Vec3 ℝ) : (-R).cppMagnitude = R.cppMagnitude := by
  simp only [cppMagnitude, magSq_neg]

theorem normalized_neg (R : Vec3 ℝ) : (-R).cppGetNormalized = R.cppGetNormalized.map (fun n => -n) := by
  simp only [cppGetNormalized, mag_neg]
  split_ifs
  · rfl
  · simp only [Option.map_some]
    congr 1
    ext <;> simp <;> ring

theorem thirdLaw_of_odd {p : PairPotential} (h : ∀ R, p.force (-R) = (p.force R).map (fun F => -F)) :
    ThirdLaw p := by
  intro r1 r2
  unfold PairPotential.forceOnR1DueToR2
  rw [← h, neg_sub]

theorem fene_thirdLaw (K l0 R0 : ℝ) : ThirdLaw (fene K l0 R0) := by
  refine thirdLaw_of_odd fun R => ?_
  simp only [fene, mag_neg, normalized_neg]
  cases R.cppGetNormalized with
  | none => rfl
  | some n => simp

theorem gemn_thirdLaw (epsilon sigma : ℝ) (n : ℤ) : ThirdLaw (gemn epsilon sigma n) := by
  refine thirdLaw_of_odd fun R => ?_
  simp only [gemn, mag_neg, normalized_neg]
  cases R.cppGetNormalized with
  | none => rfl
  | some n => simp

theorem morse_thirdLaw (epsilon alpha sigma shift : ℝ) : ThirdLaw (morse epsilon alpha sigma shift) := by
  refine thirdLaw_of_odd fun R => ?_
  simp only [morse, mag_neg, normalized_neg]
  cases R.cppGetNormalized with
  | none => rfl
  | some n => simp

theorem lennardJones_thirdLaw (r_offset r_cut sigma epsilon : ℝ) :
    ThirdLaw (lennardJones r_offset r_cut sigma epsilon) := by
  refine thirdLaw_of_odd fun R => ?_
  simp only [lennardJones, mag_neg, normalized_neg]
  split_ifs
  · simp
  · cases R.cppGetNormalized with
    | none => rfl
    | some n => simp

theorem wca_thirdLaw (epsilon sigma : ℝ) : ThirdLaw (wca epsilon sigma) := by
  refine thirdLaw_of_odd fun R => ?_
  simp only [wca, magSq_neg]
  split_ifs
  · simp
  · simp

theorem wcaOffset_thirdLaw (epsilon sigma d : ℝ) : ThirdLaw (wcaOffset epsilon sigma d) := by
  refine thirdLaw_of_odd fun R => ?_
  simp only [wcaOffset, magSq_neg]
  split_ifs
  · simp
  · simp

theorem dipole_thirdLaw (prefactor : ℝ) (orientation : Vec3 ℝ) : ThirdLaw (dipole prefactor orientation) := by
  refine thirdLaw_of_odd fun R => ?_
  simp only [dipole, magSq_neg, dot_neg, Option.map_some]
  congr 1
  ext <;> simp <;> ring

theorem additive_thirdLaw {p1 p2 : PairPotential} (h1 : ThirdLaw p1) (h2 : ThirdLaw p2) :
    ThirdLaw (additivePair p1 p2) := by
  intro r1 r2
  have e1 := h1 r1 r2
  have e2 := h2 r1 r2
  simp only [PairPotential.forceOnR1DueToR2, additivePair] at *
  rw [e1, e2]
  cases p1.force (r1 - r2) with
  | none => rfl
  | some f1 => cases p2.force (r1 - r2) with
    | none => rfl
    | some f2 =>
      simp
      abel

/-- C33: Newton's third law for all pair potentials. -/
theorem C33_third_law (K l0 R0 epsilon sigma alpha shift r_offset r_cut d prefactor : ℝ) (n : ℤ)
    (orientation : Vec3 ℝ) :
    ThirdLaw (fene K l0 R0) ∧ ThirdLaw (gemn epsilon sigma n) ∧ ThirdLaw (morse epsilon alpha sigma shift) ∧
    ThirdLaw (lennardJones r_offset r_cut sigma epsilon) ∧ ThirdLaw (wca epsilon sigma) ∧
    ThirdLaw (wcaOffset epsilon sigma d) ∧ ThirdLaw (dipole prefactor orientation) ∧
    ThirdLaw (dipoleZ prefactor) :=
  ⟨fene_thirdLaw _ _ _, gemn_thirdLaw _ _ _, morse_thirdLaw _ _ _ _, lennardJones_thirdLaw _ _ _ _,
    wca_thirdLaw _ _, wcaOffset_thirdLaw _ _ _, dipole_thirdLaw _ _, fun r1 r2 => by
      have := dipole_thirdLaw prefactor ⟨0, 0, 1⟩ r1 r2
      simp only [PairPotential.forceOnR1DueToR2] at *
      rw [(dipoleZ_eq prefactor _).1, (dipoleZ_eq prefactor _).1, this]⟩

/-! ## Non-trivial cases -/

/-- A bond stretched within its range. -/
example : (⟨1.2, 0, 0⟩ : Vec3 ℝ) ≠ 0 ∧ 0 < 1 - (((⟨1.2, 0, 0⟩ : Vec3 ℝ).cppMagnitude - 0.5) / 1.5) ^ 2 := by
  have : (⟨1.2, 0, 0⟩ : Vec3 ℝ).cppMagnitude = 1.2 := by
    simp only [cppMagnitude, cppMagnitudeSquared, dot]
    rw [show (1.2 * 1.2 + 0 * 0 + 0 * 0 : ℝ) = 1.2 ^ 2 by norm_num, Real.sqrt_sq (by norm_num)]
  constructor
  · intro h
    have := congrArg Vec3.x h
    norm_num at this
  · rw [this]; norm_num

/-- A pair within the range of the repulsion, where the force does not vanish. -/
example : ∃ F, (wca 1 1).force ⟨1, 0, 0⟩ = some F ∧ F.x = 24 := by
  have h : ¬ ((1 : ℝ) ≥ 2 ^ (1 / 3 : ℝ)) := by
    have := Real.one_lt_rpow (x := 2) (z := 1 / 3) (by norm_num) (by norm_num)
    linarith
  refine ⟨_, if_neg ?_, ?_⟩
  · simpa [cppMagnitudeSquared, dot] using h
  · simp [cppMagnitudeSquared, dot]
    norm_num

end OpenMPCD.Potentials
