import Verif.Collide.Props

/-!
# Galilean invariance, and the order of the particles (C103)

A run seen from a moving observer is a run, and the order in which the particles are stored does not matter.
-/

set_option linter.unusedSectionVars false
set_option linter.unusedSimpArgs false

namespace OpenMPCD.Collide

/-! ## Specification -/

/-- What an observer sees who is displaced by `-a` and moves with velocity `-V`. -/
def Particle.seen (a V : Vec3 ℝ) (p : Particle) : Particle := { p with pos := p.pos + a, vel := p.vel + V }

/-- The same random numbers, with the grid displaced by `a`. -/
def Randomness.displaced (a : Vec3 ℝ) (R : Randomness) : Randomness := { R with gridShift := R.gridShift - a }

/-- The steps of a run, together with the random numbers drawn; the first step's first. -/
inductive Steps (P : Params) (dt : ℝ) :
    List Randomness → ℝ × CellData × List Particle → ℝ × CellData × List Particle → Prop
  | nil (s) : Steps P dt [] s s
  | cons {Rs s' t d ps d' ps'} (R : Randomness) (hc : Collide P R (t + dt) d (ps.map (streamSimple dt)) d' ps')
      (h : Steps P dt Rs (t + dt, d', ps') s') : Steps P dt (R :: Rs) (t, d, ps) s'

/-- The random numbers for the moving observer: before the collision of the `k`th step, it has moved for the time
`k * dt`. -/
def displacedSteps (V : Vec3 ℝ) (dt : ℝ) : Vec3 ℝ → List Randomness → List Randomness
  | _, [] => []
  | a, R :: Rs => R.displaced (a + dt • V) :: displacedSteps V dt (a + dt • V) Rs

/-! ## Collisions -/

section

variable {P : Params} {R : Randomness} {t : ℝ} {d d' e e' : CellData} {ps ps' qs qs' : List Particle}

theorem seen_displaced (a V : Vec3 ℝ) (shift : Vec3 ℝ) (p : Particle) : (p.seen a V).pos + (shift - a) = p.pos + shift := by
  unfold Particle.seen
  ext <;> simp

theorem cellOf_seen (a V : Vec3 ℝ) (p : Particle) :
    cellOf P (R.displaced a).gridShift t (p.seen a V) = cellOf P R.gridShift t p := by
  unfold cellOf Randomness.displaced
  simp only [seen_displaced]

theorem layerVelocity_seen (a V : Vec3 ℝ) (p : Particle) :
    layerVelocity P (R.displaced a).gridShift t (p.seen a V) = layerVelocity P R.gridShift t p := by
  unfold layerVelocity Randomness.displaced
  simp only [seen_displaced]

theorem imageVelocity_seen (a V : Vec3 ℝ) (p : Particle) :
    imageVelocity P (R.displaced a).gridShift t (p.seen a V) = imageVelocity P R.gridShift t p + V := by
  unfold imageVelocity
  rw [layerVelocity_seen]
  unfold Particle.seen
  ext <;> simp <;> ring

theorem members_seen (a V : Vec3 ℝ) (c : ℕ) (ps : List Particle) :
    members P (R.displaced a).gridShift t c (ps.map (Particle.seen a V)) =
      (members P R.gridShift t c ps).map (Particle.seen a V) := by
  unfold members
  rw [List.filter_map]
  congr 1
  apply List.filter_congr
  intro p _
  simp only [Function.comp, cellOf_seen]

theorem com_seen (a V : Vec3 ℝ) {L : List Particle} (hM : totalMass L ≠ 0) :
    centerOfMassVelocity (imageVelocity P (R.displaced a).gridShift t) (L.map (Particle.seen a V)) =
      centerOfMassVelocity (imageVelocity P R.gridShift t) L + V := by
  have h1 : totalMass (L.map (Particle.seen a V)) = totalMass L := by
    unfold totalMass
    rw [List.map_map]
    rfl
  have h2 : momentum (imageVelocity P (R.displaced a).gridShift t) (L.map (Particle.seen a V)) =
      momentum (imageVelocity P R.gridShift t) L + totalMass L • V := by
    unfold momentum totalMass
    rw [List.map_map, ← sum_smul_const, ← sum_add]
    refine congrArg List.sum (List.map_congr_left fun p _ => ?_)
    simp only [Function.comp, imageVelocity_seen, smul_add]
    rfl
  unfold centerOfMassVelocity
  rw [h1, h2, smul_add, smul_smul, inv_mul_cancel₀ hM, one_smul]

theorem energy_seen (a V : Vec3 ℝ) {L : List Particle} (hM : totalMass L ≠ 0) :
    relativeKineticEnergy (imageVelocity P (R.displaced a).gridShift t) (L.map (Particle.seen a V)) =
      relativeKineticEnergy (imageVelocity P R.gridShift t) L := by
  unfold relativeKineticEnergy kineticEnergy
  rw [com_seen a V hM, List.map_map]
  refine congrArg List.sum (List.map_congr_left fun p _ => ?_)
  simp only [Function.comp, imageVelocity_seen, add_sub_add_right_eq_sub]
  rfl

theorem members_mass (hm : ∀ p ∈ ps, 0 < p.mass) {c : ℕ} (h : members P R.gridShift t c ps ≠ []) :
    totalMass (members P R.gridShift t c ps) ≠ 0 := by
  obtain ⟨p, hp⟩ := List.exists_mem_of_ne_nil _ h
  exact mass_ne_zero hm (List.ne_nil_of_mem hp)

/-- C103: a collision as seen by a moving observer is a collision with the displaced grid. -/
theorem C103_collision (hP : P.Valid) (hm : ∀ p ∈ ps, 0 < p.mass) (a V : Vec3 ℝ)
    (hde : ∀ c < P.cellCount, e.scalings c = d.scalings c) (h : Collide P R t d ps d' ps')
    (h' : Collide P (R.displaced a) t e (ps.map (Particle.seen a V)) e' qs) :
    qs = ps'.map (Particle.seen a V) ∧ ∀ c < P.cellCount, e'.scalings c = d'.scalings c := by
  by_cases hrun : P.srdCollisionAngle = 0 ∧ P.bulkThermostatTargetkT = 0
  · unfold Collide at h h'
    rw [if_pos hrun] at h h'
    rw [h.1, h.2, h'.1, h'.2]
    exact ⟨rfl, hde⟩
  · obtain ⟨h1, h2⟩ := collide_eq hP hrun h
    obtain ⟨h1', h2'⟩ := collide_eq hP hrun h'
    have hs : ∀ c < P.cellCount, e'.scalings c = d'.scalings c := by
      intro c hc
      obtain ⟨-, -, a3, a4, a5⟩ := h1 c hc
      obtain ⟨-, -, b3, b4, b5⟩ := h1' c hc
      rw [members_seen] at b3 b4
      rw [List.length_map, ← a4] at b4
      rw [a5, b5, b4, hde c hc]
      by_cases hn : members P R.gridShift t c ps = []
      · rw [hn] at a4
        rw [if_pos (Or.inl (by rw [a4]; simp)), if_pos (Or.inl (by rw [a4]; simp))]
      · rw [energy_seen a V (members_mass hm hn), ← a3] at b3
        rw [b3]
        rfl
    refine ⟨?_, hs⟩
    rw [h2, h2', List.map_map, List.map_map]
    refine List.map_congr_left fun p hp => ?_
    have hne : members P R.gridShift t (cellOf P R.gridShift t p) ps ≠ [] :=
      List.ne_nil_of_mem (mem_members.2 ⟨hp, rfl⟩)
    simp only [Function.comp, outcome, cellOf_seen, layerVelocity_seen, imageVelocity_seen, members_seen,
      com_seen a V (members_mass hm hne), hs _ (cellOf_lt hP _ _ _)]
    unfold Particle.seen newVel
    simp only [add_sub_add_right_eq_sub, Particle.mk.injEq, true_and, and_true]
    simp only [Randomness.displaced]
    abel

theorem members_perm {c : ℕ} (h : ps.Perm qs) :
    (members P R.gridShift t c ps).Perm (members P R.gridShift t c qs) := h.filter _

theorem com_perm (v : Particle → Vec3 ℝ) {L L' : List Particle} (h : L.Perm L') :
    centerOfMassVelocity v L = centerOfMassVelocity v L' := by
  unfold centerOfMassVelocity totalMass momentum
  rw [(h.map _).sum_eq, (h.map _).sum_eq]

theorem energy_perm (v : Particle → Vec3 ℝ) {L L' : List Particle} (h : L.Perm L') :
    relativeKineticEnergy v L = relativeKineticEnergy v L' := by
  unfold relativeKineticEnergy kineticEnergy
  rw [com_perm v h, (h.map _).sum_eq]

/-- C103: what happens to a particle in a collision does not depend on the order of the particles. -/
theorem C103_order_collision (hP : P.Valid) (hde : ∀ c < P.cellCount, e.scalings c = d.scalings c) (hq : ps.Perm qs)
    (h : Collide P R t d ps d' ps') (h' : Collide P R t e qs e' qs') :
    (∃ f : Particle → Particle, ps' = ps.map f ∧ qs' = qs.map f) ∧ ∀ c < P.cellCount, e'.scalings c = d'.scalings c := by
  by_cases hrun : P.srdCollisionAngle = 0 ∧ P.bulkThermostatTargetkT = 0
  · unfold Collide at h h'
    rw [if_pos hrun] at h h'
    rw [h.1, h.2, h'.1, h'.2]
    exact ⟨⟨id, by simp⟩, hde⟩
  · obtain ⟨h1, h2⟩ := collide_eq hP hrun h
    obtain ⟨h1', h2'⟩ := collide_eq hP hrun h'
    have hs : ∀ c < P.cellCount, e'.scalings c = d'.scalings c := by
      intro c hc
      obtain ⟨-, -, a3, a4, a5⟩ := h1 c hc
      obtain ⟨-, -, b3, b4, b5⟩ := h1' c hc
      rw [← (members_perm hq).length_eq, ← a4] at b4
      rw [← energy_perm _ (members_perm hq), ← a3] at b3
      rw [a5, b5, b3, b4, hde c hc]
    refine ⟨⟨_, h2, ?_⟩, hs⟩
    rw [h2']
    refine List.map_congr_left fun p _ => ?_
    simp only [outcome, hs _ (cellOf_lt hP _ _ _), com_perm _ (members_perm hq)]

end

/-! ## Runs -/

theorem masses_of_collide {P : Params} {R : Randomness} {t : ℝ} {d d' : CellData} {ps ps' : List Particle} (hP : P.Valid)
    (hm : ∀ p ∈ ps, 0 < p.mass) (h : Collide P R t d ps d' ps') : ∀ p ∈ ps', 0 < p.mass :=
  pos_of_masses (C13_same_particles hP h).2 hm

theorem stream_seen (dt : ℝ) (a V : Vec3 ℝ) (ps : List Particle) :
    (ps.map (Particle.seen a V)).map (streamSimple dt) =
      (ps.map (streamSimple dt)).map (Particle.seen (a + dt • V) V) := by
  rw [List.map_map, List.map_map]
  refine List.map_congr_left fun p _ => ?_
  simp only [Function.comp, streamSimple, Particle.seen, smul_add, Particle.mk.injEq, true_and, and_true]
  abel

/-- C103: a run as seen by a moving observer is a run: with the same random numbers, except for the grid, which moves
with the observer. With and without shear, with and without thermostat. -/
theorem C103_galilei {P : Params} {dt : ℝ} {Rs : List Randomness} {t : ℝ} {d : CellData} {ps : List Particle}
    {s s' : ℝ × CellData × List Particle} (hP : P.Valid) (hm : ∀ p ∈ ps, 0 < p.mass) (a V : Vec3 ℝ)
    (h : Steps P dt Rs (t, d, ps) s)
    (h' : Steps P dt (displacedSteps V dt a Rs) (t, d, ps.map (Particle.seen a V)) s') :
    s'.1 = s.1 ∧ s'.2.2 = s.2.2.map (Particle.seen (a + (Rs.length * dt) • V) V) := by
  suffices ∀ e : CellData, (∀ c < P.cellCount, e.scalings c = d.scalings c) →
      Steps P dt (displacedSteps V dt a Rs) (t, e, ps.map (Particle.seen a V)) s' →
      s'.1 = s.1 ∧ s'.2.2 = s.2.2.map (Particle.seen (a + (Rs.length * dt) • V) V) from this d (fun _ _ => rfl) h'
  clear h'
  intro e hde h'
  induction Rs generalizing a t d e ps with
  | nil =>
    cases h
    cases h'
    simp
  | cons R Rs ih =>
    cases h with
    | cons _ hc h =>
      cases h' with
      | cons _ hc' h' =>
        have hm' : ∀ p ∈ ps.map (streamSimple dt), 0 < p.mass := by
          intro p hp
          obtain ⟨q, hq, rfl⟩ := List.mem_map.1 hp
          exact hm q hq
        rw [stream_seen] at hc'
        obtain ⟨h1, h2⟩ := C103_collision hP hm' (a + dt • V) V hde hc hc'
        rw [h1] at h'
        obtain ⟨i1, i2⟩ := ih (masses_of_collide hP hm' hc) (a + dt • V) h _ h2 h'
        refine ⟨i1, i2.trans ?_⟩
        rw [List.length_cons]
        congr 2
        push_cast
        rw [add_mul, add_smul, one_mul]
        abel

/-- C103: what happens to a particle in a run does not depend on the order in which the particles are stored. -/
theorem C103_order {P : Params} {dt : ℝ} {Rs : List Randomness} {t : ℝ} {d : CellData} {ps qs : List Particle}
    {s s' : ℝ × CellData × List Particle} (hP : P.Valid) (hq : ps.Perm qs) (h : Steps P dt Rs (t, d, ps) s)
    (h' : Steps P dt Rs (t, d, qs) s') : ∃ f : Particle → Particle, s.2.2 = ps.map f ∧ s'.2.2 = qs.map f := by
  suffices ∀ e : CellData, (∀ c < P.cellCount, e.scalings c = d.scalings c) → Steps P dt Rs (t, e, qs) s' →
      ∃ f : Particle → Particle, s.2.2 = ps.map f ∧ s'.2.2 = qs.map f from this d (fun _ _ => rfl) h'
  clear h'
  intro e hde h'
  induction Rs generalizing t d e ps qs with
  | nil =>
    cases h
    cases h'
    exact ⟨id, by simp⟩
  | cons R Rs ih =>
    cases h with
    | cons _ hc h =>
      cases h' with
      | cons _ hc' h' =>
        obtain ⟨⟨f, h1, h2⟩, h3⟩ := C103_order_collision hP hde (hq.map (streamSimple dt)) hc hc'
        rw [h1] at h
        rw [h2] at h'
        obtain ⟨g, i1, i2⟩ := ih ((hq.map _).map f) h _ h3 h'
        exact ⟨g ∘ f ∘ streamSimple dt, by rw [i1, List.map_map, List.map_map]; rfl,
          by rw [i2, List.map_map, List.map_map]; rfl⟩

/-- There are runs, for all random numbers. -/
theorem steps_exist (P : Params) (dt : ℝ) (Rs : List Randomness) (s : ℝ × CellData × List Particle) :
    ∃ s', Steps P dt Rs s s' := by
  induction Rs generalizing s with
  | nil => exact ⟨s, .nil s⟩
  | cons R Rs ih =>
    obtain ⟨t, d, ps⟩ := s
    obtain ⟨d', ps', hc⟩ := C16_exists P R (t + dt) d (ps.map (streamSimple dt))
    obtain ⟨s', h⟩ := ih (t + dt, d', ps')
    exact ⟨s', .cons R hc h⟩

/-- The runs of the simulation are made of such steps. -/
theorem run_iff_steps (P : Params) (dt : ℝ) (rnd : Randomness → Prop) (n : ℕ) (s s' : ℝ × CellData × List Particle) :
    Run P dt rnd (fun ps ps' => ps' = ps.map (streamSimple dt)) n s s' ↔
      ∃ Rs : List Randomness, Rs.length = n ∧ (∀ R ∈ Rs, rnd R) ∧ Steps P dt Rs s s' := by
  have snoc : ∀ {Rs s t d ps d' ps'} (R : Randomness), Steps P dt Rs s (t, d, ps) →
      Collide P R (t + dt) d (ps.map (streamSimple dt)) d' ps' → Steps P dt (Rs ++ [R]) s (t + dt, d', ps') := by
    intro Rs s t d ps d' ps' R h hc
    generalize hs : (t, d, ps) = s₁ at h
    induction h with
    | nil s => subst hs; exact .cons R hc (.nil _)
    | cons R' hc' _ ih => exact .cons R' hc' (ih hs)
  have head : ∀ {n s t d ps d' ps'} (R : Randomness), rnd R →
      Collide P R (t + dt) d (ps.map (streamSimple dt)) d' ps' →
      Run P dt rnd (fun ps ps' => ps' = ps.map (streamSimple dt)) n (t + dt, d', ps') s →
      Run P dt rnd (fun ps ps' => ps' = ps.map (streamSimple dt)) (n + 1) (t, d, ps) s := by
    intro n s t d ps d' ps' R hR hc h
    generalize hs : (t + dt, d', ps') = s₁ at h
    induction h with
    | zero s => subst hs; exact .succ R hR (.zero _) rfl hc
    | succ R' hR' _ hs' hc' ih => exact .succ R' hR' (ih hs) hs' hc'
  constructor
  · intro h
    induction h with
    | zero s => exact ⟨[], rfl, by simp, .nil s⟩
    | succ R hR _ hs hc ih =>
      obtain ⟨Rs, h1, h2, h3⟩ := ih
      subst hs
      refine ⟨Rs ++ [R], by simp [h1], ?_, snoc R h3 hc⟩
      intro R' hR'
      rcases List.mem_append.1 hR' with h | h
      · exact h2 _ h
      · rw [List.mem_singleton.1 h]
        exact hR
  · rintro ⟨Rs, rfl, h2, h3⟩
    induction h3 with
    | nil s => exact .zero s
    | cons R hc _ ih => exact head R (h2 R (List.mem_cons_self ..)) hc (ih fun R' h => h2 R' (List.mem_cons_of_mem _ h))

/-- Both observers' runs exist, for a particle and a box. -/
example (Rs : List Randomness) : ∃ (P : Params) (ps : List Particle) (d : CellData) (s s' : ℝ × CellData × List Particle),
    P.Valid ∧ ps ≠ [] ∧ (∀ p ∈ ps, 0 < p.mass) ∧ Steps P 1 Rs (0, d, ps) s ∧
      Steps P 1 (displacedSteps ⟨1, 2, 3⟩ 1 0 Rs) (0, d, ps.map (Particle.seen 0 ⟨1, 2, 3⟩)) s' := by
  let P : Params := ⟨2, 2, 2, 1, 2, 1⟩
  let ps : List Particle := [⟨0, 0, 1, 0, 0⟩]
  let d : CellData := ⟨fun _ => 0, fun _ => 0, fun _ => 0, fun _ => 0, fun _ => 1⟩
  obtain ⟨s, h⟩ := steps_exist P 1 Rs (0, d, ps)
  obtain ⟨s', h'⟩ := steps_exist P 1 (displacedSteps ⟨1, 2, 3⟩ 1 0 Rs) (0, d, ps.map (Particle.seen 0 ⟨1, 2, 3⟩))
  exact ⟨P, ps, d, s, s', ⟨by norm_num [P], by norm_num [P], by norm_num [P], by norm_num [P]⟩, by simp [ps],
    by simp [ps], h, h'⟩

end OpenMPCD.Collide
