import Verif.Star.Numbering
import Verif.Vec.Model
import Mathlib.Data.List.Perm.Basic
import Mathlib.Data.List.Basic
import Mathlib.Tactic.NormNum
import Mathlib.Tactic.IntervalCases

/-!
# C49: magnetic clusters
-/

set_option linter.unusedSectionVars false

namespace OpenMPCD.Star

/-! ## Model -/

section Merge
variable {P : Type*} [DecidableEq P] (close : P → P → Bool)

/-- The two inner loops of `_mergeClusters` (`Analysis/MPCDAnalysis/StarPolymers.py:691-695`): is there a
pair of positions within the maximum distance? -/
def touching (cluster otherCluster : List P) : Bool :=
  cluster.any fun position => otherCluster.any fun otherPosition => close position otherPosition

/-- The two outer loops of `_mergeClusters` (`Analysis/MPCDAnalysis/StarPolymers.py:686-695`): the first
pair of clusters, not comparing equal, that are to be merged. -/
def findPair (clusters : List (List P)) : Option (List P × List P) :=
  clusters.findSome? fun cluster => clusters.findSome? fun otherCluster =>
    if otherCluster = cluster then none
    else if touching close cluster otherCluster then some (cluster, otherCluster)
    else none

/-- The list passed to the recursive call (`Analysis/MPCDAnalysis/StarPolymers.py:696-703`). -/
def merged (clusters : List (List P)) (cluster otherCluster : List P) : List (List P) :=
  (clusters.filter fun newCluster => !(newCluster = cluster || newCluster = otherCluster)) ++
    [cluster ++ otherCluster]

theorem findPair_some {clusters : List (List P)} {c o : List P}
    (h : findPair close clusters = some (c, o)) :
    c ∈ clusters ∧ o ∈ clusters ∧ o ≠ c ∧ touching close c o = true := by
  unfold findPair at h
  obtain ⟨c', hc', h⟩ := List.exists_of_findSome?_eq_some h
  obtain ⟨o', ho', h⟩ := List.exists_of_findSome?_eq_some h
  by_cases h1 : o' = c'
  · rw [if_pos h1] at h; cases h
  · rw [if_neg h1] at h
    by_cases h2 : touching close c' o' = true
    · rw [if_pos h2] at h
      cases h
      exact ⟨hc', ho', h1, h2⟩
    · rw [if_neg h2] at h; cases h

theorem findPair_none {clusters : List (List P)} (h : findPair close clusters = none) :
    ∀ c ∈ clusters, ∀ o ∈ clusters, o ≠ c → touching close c o = false := by
  intro c hc o ho hne
  unfold findPair at h
  rw [List.findSome?_eq_none_iff] at h
  have h1 := h c hc
  rw [List.findSome?_eq_none_iff] at h1
  have h2 := h1 o ho
  rw [if_neg hne] at h2
  by_cases h3 : touching close c o = true
  · rw [if_pos h3] at h2; cases h2
  · simpa using h3

theorem filter_two_length {α : Type*} [DecidableEq α] (l : List α) {a b : α} (ha : a ∈ l) (hb : b ∈ l)
    (hne : b ≠ a) : (l.filter fun x => !(x = a || x = b)).length + 2 ≤ l.length := by
  have hperm := l.filter_append_perm (fun x => !(x = a || x = b))
  have hlen := hperm.length_eq
  rw [List.length_append] at hlen
  have h2 : 2 ≤ (l.filter fun x => !(!(decide (x = a) || decide (x = b)))).length := by
    have ha' : a ∈ l.filter fun x => !(!(decide (x = a) || decide (x = b))) := by simp [ha]
    have hb' : b ∈ l.filter fun x => !(!(decide (x = a) || decide (x = b))) := by simp [hb]
    rcases hl : (l.filter fun x => !(!(decide (x = a) || decide (x = b)))) with _ | ⟨x, _ | ⟨y, t⟩⟩
    · rw [hl] at ha'; cases ha'
    · rw [hl] at ha' hb'
      simp at ha' hb'
      exact absurd (hb'.trans ha'.symm) hne
    · simp
  omega

theorem merged_length {clusters : List (List P)} {c o : List P}
    (h : findPair close clusters = some (c, o)) :
    (merged clusters c o).length < clusters.length := by
  obtain ⟨h1, h2, h3, -⟩ := findPair_some close h
  have := filter_two_length clusters h1 h2 h3
  unfold merged
  rw [List.length_append, List.length_singleton]
  omega

/-- `_mergeClusters` (`Analysis/MPCDAnalysis/StarPolymers.py:685-709`); clusters are compared by value,
as lists of vectors are in Python (`Analysis/MPCDAnalysis/Vector3DReal.py:312-330`). The limit on the
recursion depth of the Python interpreter is not represented. -/
def mergeClusters (clusters : List (List P)) : List (List P) :=
  match _h : findPair close clusters with
  | some (cluster, otherCluster) => mergeClusters (merged clusters cluster otherCluster)
  | none => clusters
termination_by clusters.length
decreasing_by exact merged_length close _h

end Merge

open Classical in
/-- Not farther apart than the maximum distance (`Analysis/MPCDAnalysis/StarPolymers.py:693-695`). -/
noncomputable def within (d : ℝ) (p q : Vec3 ℝ) : Bool := decide ((p - q).getLength ≤ d)

/-- The list of positions collected by the loop at `Analysis/MPCDAnalysis/StarPolymers.py:397-400`. -/
def magnetPositions (g : Geometry) (particles : List (Vec3 ℝ)) : List (Vec3 ℝ) :=
  (List.range particles.length).filterMap fun (index : ℕ) =>
    match g.pyType (index : ℤ) with
    | .ok .magnetic => particles[index]?
    | _ => none

open Classical in
/-- `getMagneticClusters` (`Analysis/MPCDAnalysis/StarPolymers.py:360-404`); `particles`: the positions in
the collection given to `setParticles`, which has the right size (`StarPolymers.py:351-355`), `none`
before the first call. The type check of the argument is not represented. -/
noncomputable def getMagneticClusters (g : Geometry) (particles : Option (List (Vec3 ℝ)))
    (magneticClusterMaxDistance : ℝ) : Except PyErr (List (List (Vec3 ℝ))) :=
  if magneticClusterMaxDistance < 0 then .error .valueError
  else if !g.hasMagneticParticles then .error .valueError
  else match particles with
    | none => .error .valueError
    | some particles =>
      .ok (mergeClusters (within magneticClusterMaxDistance)
        ((magnetPositions g particles).map fun pos => [pos]))

/-! ## Properties of the merging -/

section
variable {P : Type*} [DecidableEq P] {close : P → P → Bool}

/-- Reachable within a set, in steps between close elements. -/
def Linked (close : P → P → Bool) (S : P → Prop) : P → P → Prop :=
  Relation.ReflTransGen fun a b => S a ∧ S b ∧ close a b = true

theorem Linked.mono {S T : P → Prop} (hST : ∀ a, S a → T a) {p q : P} (h : Linked close S p q) :
    Linked close T p q :=
  Relation.ReflTransGen.mono (fun _ _ h => ⟨hST _ h.1, hST _ h.2.1, h.2.2⟩) _ _ h

theorem Linked.symm (hsym : ∀ a b, close a b = close b a) {S : P → Prop} {p q : P}
    (h : Linked close S p q) : Linked close S q p := by
  unfold Linked at *
  induction h with
  | refl => exact Relation.ReflTransGen.refl
  | tail _ hstep ih =>
    exact Relation.ReflTransGen.head ⟨hstep.2.1, hstep.1, by rw [hsym]; exact hstep.2.2⟩ ih

/-- The state of the clusters during merging. -/
structure Inv (close : P → P → Bool) (ps : List P) (cs : List (List P)) : Prop where
  perm : cs.flatten.Perm ps
  nonempty : ∀ c ∈ cs, c ≠ []
  linked : ∀ c ∈ cs, ∀ p ∈ c, ∀ q ∈ c, Linked close (· ∈ c) p q

theorem nodup_of_flatten {cs : List (List P)} (hne : ∀ c ∈ cs, c ≠ []) (h : cs.flatten.Nodup) :
    cs.Nodup := by
  induction cs with
  | nil => exact List.nodup_nil
  | cons c cs ih =>
    rw [List.flatten_cons, List.nodup_append] at h
    refine List.nodup_cons.2 ⟨?_, ih (fun c hc => hne c (List.mem_cons_of_mem _ hc)) h.2.1⟩
    intro hc
    obtain ⟨p, hp⟩ := List.exists_mem_of_ne_nil c (hne c List.mem_cons_self)
    exact h.2.2 p hp p (List.mem_flatten.2 ⟨c, hc, hp⟩) rfl

theorem inv_merged (hsym : ∀ a b, close a b = close b a) {ps : List P} (hps : ps.Nodup)
    {cs : List (List P)} (hinv : Inv close ps cs) {c o : List P}
    (h : findPair close cs = some (c, o)) : Inv close ps (merged cs c o) := by
  obtain ⟨hc, ho, hne, ht⟩ := findPair_some close h
  have hnd : cs.Nodup := nodup_of_flatten hinv.nonempty (hinv.perm.nodup_iff.2 hps)
  refine ⟨?_, ?_, ?_⟩
  · refine List.Perm.trans ?_ hinv.perm
    have hp : cs.Perm (c :: o :: cs.filter fun x => !(x = c || x = o)) := by
      refine (List.perm_ext_iff_of_nodup hnd ?_).2 ?_
      · refine List.nodup_cons.2 ⟨?_, List.nodup_cons.2 ⟨?_, hnd.filter _⟩⟩
        · simp [Ne.symm hne]
        · simp
      · intro x
        simp only [List.mem_cons, List.mem_filter]
        by_cases h1 : x = c
        · simp [h1, hc]
        · by_cases h2 : x = o
          · simp [h2, ho]
          · simp [h1, h2]
    unfold merged
    refine List.Perm.trans ?_ hp.symm.flatten
    rw [List.flatten_append]
    simp only [List.flatten_cons, List.flatten_nil, List.append_nil]
    refine List.perm_append_comm.trans ?_
    rw [List.append_assoc]
  · intro x hx
    unfold merged at hx
    rcases List.mem_append.1 hx with hx | hx
    · exact hinv.nonempty x (List.mem_of_mem_filter hx)
    · rw [List.mem_singleton] at hx
      rw [hx]
      intro hnil
      exact hinv.nonempty c hc (List.append_eq_nil_iff.1 hnil).1
  · intro x hx
    unfold merged at hx
    rcases List.mem_append.1 hx with hx | hx
    · exact hinv.linked x (List.mem_of_mem_filter hx)
    · rw [List.mem_singleton] at hx
      rw [hx]
      unfold touching at ht
      obtain ⟨a, ha, ht⟩ := List.any_eq_true.1 ht
      obtain ⟨b, hb, ht⟩ := List.any_eq_true.1 ht
      have hab : Linked close (· ∈ c ++ o) a b :=
        Relation.ReflTransGen.single
          ⟨List.mem_append_left _ ha, List.mem_append_right _ hb, ht⟩
      have hcl : ∀ p ∈ c, ∀ q ∈ c, Linked close (· ∈ c ++ o) p q := fun p hp q hq =>
        (hinv.linked c hc p hp q hq).mono fun _ h => List.mem_append_left _ h
      have hol : ∀ p ∈ o, ∀ q ∈ o, Linked close (· ∈ c ++ o) p q := fun p hp q hq =>
        (hinv.linked o ho p hp q hq).mono fun _ h => List.mem_append_right _ h
      intro p hp q hq
      rcases List.mem_append.1 hp with hp | hp <;> rcases List.mem_append.1 hq with hq | hq
      · exact hcl p hp q hq
      · exact (hcl p hp a ha).trans (hab.trans (hol b hb q hq))
      · exact (hol p hp b hb).trans ((hab.symm hsym).trans (hcl a ha q hq))
      · exact hol p hp q hq

theorem mergeClusters_spec (hsym : ∀ a b, close a b = close b a) {ps : List P} (hps : ps.Nodup)
    (cs : List (List P)) (hinv : Inv close ps cs) :
    Inv close ps (mergeClusters close cs) ∧ findPair close (mergeClusters close cs) = none := by
  induction hn : cs.length using Nat.strong_induction_on generalizing cs with
  | _ n ih =>
    rw [mergeClusters]
    split
    · rename_i c o h
      exact ih _ (hn ▸ merged_length close h) _ (inv_merged hsym hps hinv h) rfl
    · rename_i h
      exact ⟨hinv, h⟩

/-- The clusters are the connected components. -/
theorem components (hsym : ∀ a b, close a b = close b a) {ps : List P} (hps : ps.Nodup) :
    (mergeClusters close (ps.map fun p => [p])).flatten.Perm ps ∧
    (∀ c ∈ mergeClusters close (ps.map fun p => [p]), c ≠ []) ∧
    ∀ p ∈ ps, ∀ q ∈ ps,
      (∃ c ∈ mergeClusters close (ps.map fun p => [p]), p ∈ c ∧ q ∈ c) ↔ Linked close (· ∈ ps) p q := by
  have hinit : Inv close ps (ps.map fun p => [p]) := by
    refine ⟨?_, ?_, ?_⟩
    · rw [show (ps.map fun p => [p]).flatten = ps by induction ps <;> simp_all]
    · intro c hc
      obtain ⟨p, -, rfl⟩ := List.mem_map.1 hc
      simp
    · intro c hc p hp q hq
      obtain ⟨r, -, rfl⟩ := List.mem_map.1 hc
      rw [List.mem_singleton] at hp hq
      rw [hp, hq]
      exact Relation.ReflTransGen.refl
  obtain ⟨hinv, hnone⟩ := mergeClusters_spec hsym hps _ hinit
  refine ⟨hinv.perm, hinv.nonempty, ?_⟩
  intro p hp q hq
  constructor
  · rintro ⟨c, hc, hpc, hqc⟩
    exact (hinv.linked c hc p hpc q hqc).mono fun a ha =>
      hinv.perm.mem_iff.1 (List.mem_flatten.2 ⟨c, hc, ha⟩)
  · intro h
    unfold Linked at h
    induction h with
    | refl =>
      obtain ⟨c, hc, hpc⟩ := List.mem_flatten.1 (hinv.perm.mem_iff.2 hp)
      exact ⟨c, hc, hpc, hpc⟩
    | tail _ hstep ih =>
      obtain ⟨c, hc, hpc, hbc⟩ := ih hstep.1
      obtain ⟨o, ho, hdo⟩ := List.mem_flatten.1 (hinv.perm.mem_iff.2 hstep.2.1)
      by_cases hoc : o = c
      · exact ⟨c, hc, hpc, hoc ▸ hdo⟩
      · have := findPair_none close hnone c hc o ho hoc
        unfold touching at this
        have h1 := List.any_eq_false.1 this _ hbc
        have h2 : (o.any fun otherPosition => close _ otherPosition) = true :=
          List.any_eq_true.2 ⟨_, hdo, hstep.2.2⟩
        exact absurd h2 h1

/-- Also when positions coincide, the positions occurring are preserved. -/
theorem mergeClusters_mem (cs : List (List P)) (p : P) :
    p ∈ (mergeClusters close cs).flatten ↔ p ∈ cs.flatten := by
  induction hn : cs.length using Nat.strong_induction_on generalizing cs with
  | _ n ih =>
    rw [mergeClusters]
    split
    · rename_i c o h
      rw [ih _ (hn ▸ merged_length close h) _ rfl]
      obtain ⟨hc, ho, -, -⟩ := findPair_some close h
      simp only [List.mem_flatten, merged, List.mem_append, List.mem_filter, List.mem_singleton]
      constructor
      · rintro ⟨l, ⟨hl, -⟩ | rfl, hp⟩
        · exact ⟨l, hl, hp⟩
        · rcases List.mem_append.1 hp with hp | hp
          · exact ⟨c, hc, hp⟩
          · exact ⟨o, ho, hp⟩
      · rintro ⟨l, hl, hp⟩
        by_cases h1 : l = c
        · exact ⟨c ++ o, Or.inr rfl, List.mem_append_left _ (h1 ▸ hp)⟩
        · by_cases h2 : l = o
          · exact ⟨c ++ o, Or.inr rfl, List.mem_append_right _ (h2 ▸ hp)⟩
          · exact ⟨l, Or.inl ⟨hl, by simp [h1, h2]⟩, hp⟩
    · rfl

end

/-! ## C49 -/

/-- Magnetic particle with the given ID at the given position. -/
def MagnetAt (g : Geometry) (ps : List (Vec3 ℝ)) (i : ℕ) (v : Vec3 ℝ) : Prop :=
  (∃ s a, (Place.magnetic s a).Valid g ∧ (Place.magnetic s a).id g = i) ∧ ps[i]? = some v

theorem getLength_sub_comm (p q : Vec3 ℝ) : (p - q).getLength = (q - p).getLength := by
  unfold Vec3.getLength Vec3.getLengthSquared
  congr 1
  simp [Vec3.dot]
  ring

theorem within_comm (d : ℝ) (p q : Vec3 ℝ) : within d p q = within d q p := by
  unfold within
  rw [getLength_sub_comm]

theorem pyType_magnetic_iff (g : Geometry) (i : ℕ) :
    g.pyType i = .ok .magnetic ↔ ∃ s a, (Place.magnetic s a).Valid g ∧ (Place.magnetic s a).id g = i := by
  constructor
  · intro h
    by_cases hi : i < g.getParticleCount
    · obtain ⟨x, hx, rfl⟩ := exists_place g i hi
      rw [(C29_py g x hx).2.2] at h
      cases x with
      | core s => cases h
      | arm s a k => cases h
      | magnetic s a => exact ⟨s, a, hx, rfl⟩
    · rw [(C29_py_range g i (Or.inr (by omega))).2] at h
      cases h
  · rintro ⟨s, a, h, rfl⟩
    exact (C29_py g _ h).2.2

theorem mem_magnetPositions (g : Geometry) (ps : List (Vec3 ℝ)) (v : Vec3 ℝ) :
    v ∈ magnetPositions g ps ↔ ∃ i, MagnetAt g ps i v := by
  unfold magnetPositions MagnetAt
  rw [List.mem_filterMap]
  constructor
  · rintro ⟨i, -, h⟩
    refine ⟨i, ?_⟩
    split at h
    · rename_i ht
      exact ⟨(pyType_magnetic_iff g i).1 ht, h⟩
    · cases h
  · rintro ⟨i, ht, h⟩
    refine ⟨i, ?_, ?_⟩
    · rw [List.mem_range]
      exact (List.getElem?_eq_some_iff.1 h).1
    · rw [(pyType_magnetic_iff g i).2 ht]
      exact h

theorem nodup_magnetPositions (g : Geometry) (ps : List (Vec3 ℝ))
    (hdist : ∀ i j v, MagnetAt g ps i v → MagnetAt g ps j v → i = j) :
    (magnetPositions g ps).Nodup := by
  unfold magnetPositions
  refine List.Nodup.filterMap ?_ List.nodup_range
  intro i j v hi hj
  have key : ∀ i, v ∈ (match g.pyType (i : ℕ) with
      | .ok .magnetic => ps[i]?
      | _ => none) → MagnetAt g ps i v := by
    intro i h
    split at h
    · rename_i ht
      exact ⟨(pyType_magnetic_iff g i).1 ht, h⟩
    · cases h
  exact hdist i j v (key i hi) (key j hj)

/-- C49, for magnetic particles at different positions: the clusters are the connected components of the
graph joining magnetic particles not farther apart than the maximum distance. Missing: particles at
the same position. -/
theorem C49_components_partial (g : Geometry) (ps : List (Vec3 ℝ)) (d : ℝ) (hd : 0 ≤ d)
    (hmag : g.hasMagneticParticles = true)
    (hdist : ∀ i j v, MagnetAt g ps i v → MagnetAt g ps j v → i = j) :
    ∃ cs, getMagneticClusters g (some ps) d = .ok cs ∧
      (∀ c ∈ cs, c ≠ []) ∧ cs.flatten.Nodup ∧
      (∀ v, v ∈ cs.flatten ↔ ∃ i, MagnetAt g ps i v) ∧
      ∀ v w, (∃ i, MagnetAt g ps i v) → (∃ j, MagnetAt g ps j w) →
        ((∃ c ∈ cs, v ∈ c ∧ w ∈ c) ↔
          Relation.ReflTransGen (fun a b => (∃ i, MagnetAt g ps i a) ∧ (∃ j, MagnetAt g ps j b) ∧
            (a - b).getLength ≤ d) v w) := by
  classical
  have hnd := nodup_magnetPositions g ps hdist
  have hu : getMagneticClusters g (some ps) d =
      .ok (mergeClusters (within d) ((magnetPositions g ps).map fun pos => [pos])) := by
    unfold getMagneticClusters
    rw [if_neg (not_lt.2 hd)]
    simp only [hmag]
    rfl
  obtain ⟨h1, h2, h3⟩ := components (close := within d) (within_comm d) hnd
  refine ⟨_, hu, h2, h1.nodup_iff.2 hnd, ?_, ?_⟩
  · intro v
    rw [h1.mem_iff, mem_magnetPositions]
  · intro v w hv hw
    rw [h3 v ((mem_magnetPositions g ps v).2 hv) w ((mem_magnetPositions g ps w).2 hw)]
    unfold Linked
    simp only [mem_magnetPositions, within, decide_eq_true_eq]

/-- Also when positions coincide: the positions in the clusters are those of the magnetic particles. -/
theorem C49_positions (g : Geometry) (ps : List (Vec3 ℝ)) (d : ℝ) (cs : List (List (Vec3 ℝ)))
    (h : getMagneticClusters g (some ps) d = .ok cs) (v : Vec3 ℝ) :
    v ∈ cs.flatten ↔ ∃ i, MagnetAt g ps i v := by
  unfold getMagneticClusters at h
  split at h
  · cases h
  · split at h
    · cases h
    · cases h
      rw [mergeClusters_mem, ← mem_magnetPositions]
      have : ∀ l : List (Vec3 ℝ), (l.map fun pos => [pos]).flatten = l := by
        intro l; induction l <;> simp_all
      rw [this]

/-- C49: documented errors. -/
theorem C49_errors (g : Geometry) (ps : Option (List (Vec3 ℝ))) (d : ℝ)
    (h : d < 0 ∨ g.hasMagneticParticles = false ∨ ps = none) :
    getMagneticClusters g ps d = .error .valueError := by
  unfold getMagneticClusters
  by_cases h1 : d < 0
  · rw [if_pos h1]
  · rw [if_neg h1]
    rcases h with h | h | h
    · exact absurd h h1
    · simp [h]
    · cases hm : g.hasMagneticParticles <;> simp [h]

/-- The geometry of the counterexample: one star, three arms of one magnetic particle each. -/
def starOfMagnets : Geometry := ⟨1, 3, 0, true⟩

theorem getLength_zero : (0 : Vec3 ℝ).getLength = 0 := by
  unfold Vec3.getLength Vec3.getLengthSquared
  simp

/-- C49 does not hold for particles at the same position: of three magnetic particles, all within the
maximum distance of each other, two of them at the same position, one is lost. -/
theorem C49_violated : ∃ (ps : List (Vec3 ℝ)) (cs : List (List (Vec3 ℝ))),
    ps.length = starOfMagnets.pyCount ∧
    getMagneticClusters starOfMagnets (some ps) 1 = .ok cs ∧
    (∀ i ∈ [1, 2, 3], ∃ v, MagnetAt starOfMagnets ps i v) ∧ cs.flatten.length = 2 := by
  classical
  let o : Vec3 ℝ := ⟨0, 0, 0⟩
  let e : Vec3 ℝ := ⟨1, 0, 0⟩
  have hoe : o ≠ e := by
    intro h
    have := congrArg Vec3.x h
    simp [o, e] at this
  have hw : within 1 o e = true := by
    unfold within
    rw [decide_eq_true_eq]
    unfold Vec3.getLength Vec3.getLengthSquared
    simp [o, e, Vec3.dot]
  have hm : magnetPositions starOfMagnets [o, o, o, e] = [o, o, e] := by
    have t0 : starOfMagnets.pyType ((0 : ℕ) : ℤ) = .ok .core := by decide
    have t1 : starOfMagnets.pyType ((1 : ℕ) : ℤ) = .ok .magnetic := by decide
    have t2 : starOfMagnets.pyType ((2 : ℕ) : ℤ) = .ok .magnetic := by decide
    have t3 : starOfMagnets.pyType ((3 : ℕ) : ℤ) = .ok .magnetic := by decide
    unfold magnetPositions
    rw [show List.range [o, o, o, e].length = [0, 1, 2, 3] from rfl]
    simp only [List.filterMap_cons, t0, t1, t2, t3, List.filterMap_nil]
    rfl
  have hfp : findPair (within 1) [[o], [o], [e]] = some ([o], [e]) := by
    unfold findPair touching
    simp [hoe.symm, hw]
  have hmg : merged [[o], [o], [e]] [o] [e] = [[o, e]] := by
    unfold merged
    simp [hoe]
  have hfp2 : findPair (within 1) [[o, e]] = none := by
    unfold findPair touching
    simp
  have hres : mergeClusters (within 1) [[o], [o], [e]] = [[o, e]] := by
    rw [mergeClusters]
    split
    · rename_i c' o' h
      rw [hfp] at h
      cases h
      rw [hmg, mergeClusters]
      split
      · rename_i h2
        rw [hfp2] at h2
        cases h2
      · rfl
    · rename_i h
      rw [hfp] at h
      cases h
  refine ⟨[o, o, o, e], [[o, e]], rfl, ?_, ?_, rfl⟩
  · unfold getMagneticClusters
    rw [if_neg (by norm_num)]
    simp only [starOfMagnets, Bool.not_true, Bool.false_eq_true, if_false]
    show Except.ok (mergeClusters _ ((magnetPositions starOfMagnets [o, o, o, e]).map _)) = _
    rw [hm]
    exact congrArg _ hres
  · intro i hi
    have hval : ∀ a < 3, (Place.magnetic 0 a).Valid starOfMagnets := fun a ha => ⟨by decide, ha, rfl⟩
    simp only [List.mem_cons, List.not_mem_nil, or_false] at hi
    rcases hi with rfl | rfl | rfl
    · exact ⟨o, ⟨0, 0, hval 0 (by decide), rfl⟩, rfl⟩
    · exact ⟨o, ⟨0, 1, hval 1 (by decide), rfl⟩, rfl⟩
    · exact ⟨e, ⟨0, 2, hval 2 (by decide), rfl⟩, rfl⟩

/-- The hypotheses of `C49_components_partial` are met by three magnets at different positions. -/
example : ∀ i j v, MagnetAt starOfMagnets [⟨0, 0, 0⟩, ⟨1, 0, 0⟩, ⟨2, 0, 0⟩, ⟨9, 0, 0⟩] i v →
    MagnetAt starOfMagnets [⟨0, 0, 0⟩, ⟨1, 0, 0⟩, ⟨2, 0, 0⟩, ⟨9, 0, 0⟩] j v → i = j := by
  have key : ∀ i v, MagnetAt starOfMagnets [⟨0, 0, 0⟩, ⟨1, 0, 0⟩, ⟨2, 0, 0⟩, ⟨9, 0, 0⟩] i v →
      (i = 1 ∧ v.x = 1) ∨ (i = 2 ∧ v.x = 2) ∨ (i = 3 ∧ v.x = 9) := by
    rintro i v ⟨⟨s, a, ⟨hs, ha, -⟩, rfl⟩, hv⟩
    have hs : s < 1 := hs
    have ha : a < 3 := ha
    have : s = 0 := by omega
    subst this
    interval_cases a <;> simp [Place.id, Geometry.getMagneticParticleID, starOfMagnets] at hv <;>
      subst hv <;> simp [Place.id, Geometry.getMagneticParticleID, starOfMagnets]
  intro i j v hi hj
  rcases key i v hi with h | h | h <;> rcases key j v hj with h' | h' | h' <;>
    first
      | omega
      | (exfalso; have := h.2.symm.trans h'.2; norm_num at this)

end OpenMPCD.Star
