import Verif.Random.Phase

/-!
# Volumes in phase space (C101)
-/

set_option linter.unusedSectionVars false
set_option linter.unusedSimpArgs false

open MeasureTheory

namespace OpenMPCD.Random.Phase

open OpenMPCD.Collide

variable {N : ℕ} {P : Params} {R : Randomness} {t : ℝ} {m : Fin N → ℝ}

/-! ## Energy -/

theorem newVel_angle_zero (a V u : Vec3 ℝ) : newVel a 0 1 V u = u := by
  unfold newVel Vec3.cppRotate
  ext <;> simp [Vec3.rotateCS]

theorem mix_angle_zero (c : Fin N → ℕ) (m : Fin N → ℝ) (axes : ℕ → Vec3 ℝ) :
    mix c m axes 0 (fun _ => 1) = LinearMap.id := by
  apply LinearMap.ext
  intro w
  apply coords_ext
  intro i
  rw [vecAt_mix, newVel_angle_zero]
  rfl

/-- Rotation without scaling keeps the kinetic energy. -/
theorem mix_energy (hP : P.Valid) (hm : ∀ i, 0 < m i) (shift : Vec3 ℝ) (axes : ℕ → Vec3 ℝ) (θ : ℝ)
    (haxis : ∀ c < P.cellCount, (axes c).getLength = 1) (x w : Coords N) :
    ∑ q : Fin N × Fin 3, m q.1 / 2 * mix (cells P shift t x) m axes θ (fun _ => 1) w q ^ 2 =
      ∑ q : Fin N × Fin 3, m q.1 / 2 * w q ^ 2 := by
  by_cases hθ : θ = 0
  · rw [hθ, mix_angle_zero]
    rfl
  let P' : Params := { P with srdCollisionAngle := θ, bulkThermostatTargetkT := 0 }
  let R' : Randomness := ⟨shift, axes, fun _ _ _ => 0⟩
  have hP' : P'.Valid := ⟨hP.1, hP.2, hP.3, hP.4⟩
  obtain ⟨ps, hps⟩ := exists_represents m x (w - layers P shift t x)
  let d : CellData := ⟨fun _ => 0, fun _ => 0, fun _ => 0, fun _ => 0, fun _ => 1⟩
  have hd : d.Initial := fun _ => rfl
  obtain ⟨d', ps', h⟩ := C16_exists P' R' t d ps
  have hrun : ¬ (P'.srdCollisionAngle = 0 ∧ P'.bulkThermostatTargetkT = 0) := fun e => hθ e.1
  have h1 := hps.collide hP' hrun h
  have h2 := C13_energy_images (P := P') hP' (hps.mass_pos hm) rfl hd (R := R') (fun c hc => haxis c hc) h
  have h3 : d'.scalings = fun _ => 1 := funext (C13_initial (P := P') rfl hd h)
  rw [h1.energy, hps.energy, h3] at h2
  have e : layers P' R'.gridShift t x = layers P shift t x := rfl
  have e' : cells P' R'.gridShift t x = cells P shift t x := rfl
  rw [e, e', sub_add_cancel, sub_add_cancel] at h2
  exact h2

theorem mix_measurePreserving (hP : P.Valid) (hm : ∀ i, 0 < m i) (shift : Vec3 ℝ) (axes : ℕ → Vec3 ℝ) (θ : ℝ)
    (haxis : ∀ c < P.cellCount, (axes c).getLength = 1) (x : Coords N) :
    MeasurePreserving (mix (cells P shift t x) m axes θ fun _ => 1) (volume : Measure (Coords N)) volume :=
  measurePreserving_linear (w := fun q => m q.1 / 2) (fun q => half_pos (hm q.1)) _
    fun w => mix_energy hP hm shift axes θ haxis x w

/-! ## The maps of phase space -/

/-- The effect of a collision without scaling on the velocities. -/
noncomputable def turn (P : Params) (shift : Vec3 ℝ) (axes : ℕ → Vec3 ℝ) (t : ℝ) (m : Fin N → ℝ) (x v : Coords N) :
    Coords N :=
  mix (cells P shift t x) m axes P.srdCollisionAngle (fun _ => 1) (v + layers P shift t x) - layers P shift t x

theorem turn_measurePreserving (hP : P.Valid) (hm : ∀ i, 0 < m i) (shift : Vec3 ℝ) (axes : ℕ → Vec3 ℝ)
    (haxis : ∀ c < P.cellCount, (axes c).getLength = 1) (x : Coords N) :
    MeasurePreserving (turn P shift axes t m x) (volume : Measure (Coords N)) volume := by
  have h1 := measurePreserving_add_right (volume : Measure (Coords N)) (layers P shift t x)
  have h2 := measurePreserving_sub_right (volume : Measure (Coords N)) (layers P shift t x)
  exact h2.comp ((mix_measurePreserving hP hm shift axes _ haxis x).comp h1)

theorem measurable_family {α ι β γ : Type*} [MeasurableSpace α] [MeasurableSpace ι] [MeasurableSpace β]
    [MeasurableSpace γ] [Countable ι] [MeasurableSingletonClass ι] (L : ι → β → γ) (hL : ∀ c, Measurable (L c)) (f : α → ι)
    (hf : Measurable f) (g : α → β) (hg : Measurable g) : Measurable fun p => L (f p) (g p) := by
  have h : Measurable fun p : ι × β => L p.1 p.2 := measurable_from_prod_countable_right hL
  exact h.comp (hf.prodMk hg)

theorem measurable_mix_of (c : Fin N → ℕ) (m : Fin N → ℝ) (axes : ℕ → Vec3 ℝ) (θ : ℝ) (s : ℕ → ℝ) :
    Measurable (mix c m axes θ s) := by
  have := measurable_linear (ι := Fin N × Fin 3) (mix c m axes θ s)
  exact this

theorem measurable_mix (f : Coords N → Fin N → ℕ) (hf : Measurable f) (m : Fin N → ℝ) (axes : ℕ → Vec3 ℝ) (θ : ℝ)
    (s : ℕ → ℝ) : Measurable fun p : Coords N × Coords N => mix (f p.1) m axes θ s p.2 := by
  have h1 : Measurable fun p : Coords N × Coords N => f p.1 := hf.comp measurable_fst
  exact measurable_family (fun c : Fin N → ℕ => ⇑(mix c m axes θ s)) (fun c => measurable_mix_of c m axes θ s) _ h1 _
    measurable_snd

theorem measurable_turn (P : Params) (shift : Vec3 ℝ) (axes : ℕ → Vec3 ℝ) (t : ℝ) (m : Fin N → ℝ) :
    Measurable (Function.uncurry (turn P shift axes t m)) := by
  have hl : Measurable fun p : Coords N × Coords N => layers P shift t p.1 :=
    (measurable_layers P shift t).comp measurable_fst
  have h := (measurable_mix (cells P shift t) (measurable_cells P shift t) m axes P.srdCollisionAngle fun _ => 1).comp
    (measurable_fst.prodMk (measurable_snd.add hl))
  exact h.sub hl

/-- A collision without scaling. -/
noncomputable def collisionMap (P : Params) (R : Randomness) (t : ℝ) (m : Fin N → ℝ) (p : Coords N × Coords N) :
    Coords N × Coords N := (p.1, turn P R.gridShift R.axes t m p.1 p.2)

theorem collisionMap_measurePreserving (hP : P.Valid) (hm : ∀ i, 0 < m i)
    (haxis : ∀ c < P.cellCount, (R.axes c).getLength = 1) :
    MeasurePreserving (collisionMap P R t m) (volume : Measure (Coords N × Coords N)) volume := by
  rw [Measure.volume_eq_prod]
  exact (MeasurePreserving.id _).skew_product (measurable_turn P R.gridShift R.axes t m)
    (Filter.Eventually.of_forall fun x => (turn_measurePreserving hP hm _ _ haxis x).map_eq)

theorem collisionMap_represents (hP : P.Valid) (hT : P.bulkThermostatTargetkT = 0) {x v : Coords N}
    {ps ps' : List Particle} {d d' : CellData} (h : Represents m x v ps) (hd : d.Initial)
    (hc : Collide P R t d ps d' ps') :
    Represents m (collisionMap P R t m (x, v)).1 (collisionMap P R t m (x, v)).2 ps' := by
  by_cases hrun : P.srdCollisionAngle = 0 ∧ P.bulkThermostatTargetkT = 0
  · unfold Collide at hc
    rw [if_pos hrun] at hc
    rw [hc.2]
    unfold collisionMap turn
    rw [hrun.1, mix_angle_zero]
    simpa using h
  · have h1 := h.collide hP hrun hc
    have h3 : d'.scalings = fun _ => 1 := funext (C13_initial hT hd hc)
    rw [h3] at h1
    exact h1

/-- Streaming. -/
def streamMap (dt : ℝ) (p : Coords N × Coords N) : Coords N × Coords N := (p.1 + dt • p.2, p.2)

theorem streamMap_measurePreserving (dt : ℝ) :
    MeasurePreserving (streamMap dt) (volume : Measure (Coords N × Coords N)) volume := by
  rw [Measure.volume_eq_prod]
  have h : MeasurePreserving (fun p : Coords N × Coords N => (p.1, dt • p.1 + p.2))
      ((volume : Measure (Coords N)).prod volume) (volume.prod volume) := by
    refine (MeasurePreserving.id _).skew_product (g := fun a b => dt • a + b) ?_ ?_
    · exact ((measurable_fst.const_smul dt).add measurable_snd)
    · exact Filter.Eventually.of_forall fun a => (measurePreserving_add_left volume (dt • a)).map_eq
  have hs := Measure.measurePreserving_swap (μ := (volume : Measure (Coords N))) (ν := (volume : Measure (Coords N)))
  have := hs.comp (h.comp hs)
  have e : Prod.swap ∘ (fun p : Coords N × Coords N => (p.1, dt • p.1 + p.2)) ∘ Prod.swap = streamMap dt := by
    funext p
    simp only [Function.comp, Prod.swap, streamMap, add_comm]
  rw [← e]
  exact this

theorem streamMap_represents {dt : ℝ} {x v : Coords N} {ps : List Particle} (h : Represents m x v ps) :
    Represents m (streamMap dt (x, v)).1 (streamMap dt (x, v)).2 (ps.map (streamSimple dt)) := by
  unfold Represents at h ⊢
  have e : (ps.map (streamSimple dt)).map (fun p => (p.pos, p.vel, p.mass)) =
      (ps.map fun p => (p.pos, p.vel, p.mass)).map fun q => (q.1 + dt • q.2.1, q.2) := by
    rw [List.map_map, List.map_map]
    rfl
  rw [e, h, List.map_ofFn]
  refine congrArg List.ofFn (funext fun i => ?_)
  simp only [Function.comp, streamMap, vecAt_add, vecAt_smul]

/-! ## C101 -/

/-- C101: without thermostat, whatever is drawn, a collision maps the phase space of the positions and velocities of any
number of particles to itself without changing volumes; with and without shear. -/
theorem C101_collision (hP : P.Valid) (hT : P.bulkThermostatTargetkT = 0) (hm : ∀ i, 0 < m i)
    (haxis : ∀ c < P.cellCount, (R.axes c).getLength = 1) :
    ∃ T : Coords N × Coords N → Coords N × Coords N, MeasurePreserving T volume volume ∧
      ∀ x v ps d d' ps', Represents m x v ps → d.Initial → Collide P R t d ps d' ps' →
        Represents m (T (x, v)).1 (T (x, v)).2 ps' :=
  ⟨collisionMap P R t m, collisionMap_measurePreserving hP hm haxis,
    fun _ _ _ _ _ _ h hd hc => collisionMap_represents hP hT h hd hc⟩

/-- C101: likewise streaming. -/
theorem C101_streaming (m : Fin N → ℝ) (dt : ℝ) :
    ∃ T : Coords N × Coords N → Coords N × Coords N, MeasurePreserving T volume volume ∧
      ∀ x v ps, Represents m x v ps → Represents m (T (x, v)).1 (T (x, v)).2 (ps.map (streamSimple dt)) :=
  ⟨streamMap dt, streamMap_measurePreserving dt, fun _ _ _ h => streamMap_represents h⟩

/-- The runs in which the given random numbers are drawn, in the given order (the last step's first). -/
inductive RunWith (P : Params) (dt : ℝ) :
    List Randomness → ℝ × CellData × List Particle → ℝ × CellData × List Particle → Prop
  | nil (s) : RunWith P dt [] s s
  | cons {Rs s t d ps d' ps'} (R : Randomness) (h : RunWith P dt Rs s (t, d, ps))
      (hc : Collide P R (t + dt) d (ps.map (streamSimple dt)) d' ps') :
      RunWith P dt (R :: Rs) s (t + dt, d', ps')

/-- The runs of the simulation are the runs in which some random numbers are drawn. -/
theorem run_iff (P : Params) (dt : ℝ) (rnd : Randomness → Prop) (n : ℕ) (s s' : ℝ × CellData × List Particle) :
    Run P dt rnd (fun ps ps' => ps' = ps.map (streamSimple dt)) n s s' ↔
      ∃ Rs : List Randomness, Rs.length = n ∧ (∀ R ∈ Rs, rnd R) ∧ RunWith P dt Rs s s' := by
  constructor
  · intro h
    induction h with
    | zero s => exact ⟨[], rfl, by simp, .nil s⟩
    | succ R hR _ hs hc ih =>
      obtain ⟨Rs, h1, h2, h3⟩ := ih
      subst hs
      refine ⟨R :: Rs, by simp [h1], ?_, .cons R h3 hc⟩
      intro R' hR'
      rcases List.mem_cons.1 hR' with rfl | h
      · exact hR
      · exact h2 _ h
  · rintro ⟨Rs, rfl, h2, h3⟩
    induction h3 with
    | nil s => exact .zero s
    | cons R _ hc ih =>
      exact .succ R (h2 R (List.mem_cons_self ..)) (ih fun R' h => h2 R' (List.mem_cons_of_mem _ h)) rfl hc

/-- C101: likewise any number of steps of a run. -/
theorem C101_run (hP : P.Valid) (hT : P.bulkThermostatTargetkT = 0) (hm : ∀ i, 0 < m i) (dt t : ℝ)
    (Rs : List Randomness) (haxis : ∀ R ∈ Rs, ∀ c < P.cellCount, (R.axes c).getLength = 1) :
    ∃ T : Coords N × Coords N → Coords N × Coords N, MeasurePreserving T volume volume ∧
      ∀ x v ps d s', Represents m x v ps → d.Initial → RunWith P dt Rs (t, d, ps) s' →
        Represents m (T (x, v)).1 (T (x, v)).2 s'.2.2 := by
  suffices ∃ T : Coords N × Coords N → Coords N × Coords N, MeasurePreserving T volume volume ∧
      ∀ x v ps d s', Represents m x v ps → d.Initial → RunWith P dt Rs (t, d, ps) s' →
        s'.1 = t + Rs.length * dt ∧ s'.2.1.Initial ∧ Represents m (T (x, v)).1 (T (x, v)).2 s'.2.2 by
    obtain ⟨T, h1, h2⟩ := this
    exact ⟨T, h1, fun x v ps d s' a b c => (h2 x v ps d s' a b c).2.2⟩
  induction Rs with
  | nil =>
    refine ⟨id, MeasurePreserving.id _, ?_⟩
    intro x v ps d s' h hd hr
    cases hr
    exact ⟨by simp, hd, h⟩
  | cons R Rs ih =>
    obtain ⟨T, h1, h2⟩ := ih fun R' h => haxis R' (List.mem_cons_of_mem _ h)
    refine ⟨collisionMap P R (t + (Rs.length * dt) + dt) m ∘ streamMap dt ∘ T,
      (collisionMap_measurePreserving hP hm (haxis R (List.mem_cons_self ..))).comp
        ((streamMap_measurePreserving dt).comp h1), ?_⟩
    intro x v ps d s' h hd hr
    cases hr with
    | cons _ hr hc =>
      obtain ⟨a, b, c⟩ := h2 x v ps d _ h hd hr
      simp only at a b c
      subst a
      refine ⟨by push_cast [List.length_cons]; ring, C13_initial hT b hc, ?_⟩
      exact collisionMap_represents hP hT (streamMap_represents c) b hc

/-- There are such runs: for all particles, and for all random numbers. -/
example (P : Params) (dt t : ℝ) (Rs : List Randomness) (m : Fin N → ℝ) (x v : Coords N) : ∃ ps d s',
    Represents m x v ps ∧ d.Initial ∧ RunWith P dt Rs (t, d, ps) s' := by
  obtain ⟨ps, hps⟩ := exists_represents m x v
  refine ⟨ps, ⟨fun _ => 0, fun _ => 0, fun _ => 0, fun _ => 0, fun _ => 1⟩, ?_⟩
  induction Rs with
  | nil => exact ⟨_, hps, fun _ => rfl, .nil _⟩
  | cons R Rs ih =>
    obtain ⟨⟨t', d', ps'⟩, h1, h2, h3⟩ := ih
    obtain ⟨d'', ps'', hc⟩ := C16_exists P R (t' + dt) d' (ps'.map (streamSimple dt))
    exact ⟨_, h1, h2, .cons R h3 hc⟩

/-- A box, and a rotation axis of length 1. -/
example : (⟨2, 2, 2, 1, 2, 0⟩ : Params).Valid ∧ (⟨0, 0, 1⟩ : Vec3 ℝ).getLength = 1 := by
  refine ⟨⟨by norm_num, by norm_num, by norm_num, by norm_num⟩, ?_⟩
  simp [Vec3.getLength, Vec3.getLengthSquared, Vec3.dot]

end OpenMPCD.Random.Phase
