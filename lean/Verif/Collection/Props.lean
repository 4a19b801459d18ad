import Verif.Collection.Model
import Verif.Stats.Props

/-!
# Property C10: collections of statistics
-/

set_option linter.unusedSectionVars false
set_option linter.unusedSimpArgs false

namespace OpenMPCD.Collection

open Stats

variable {κ : Type} [LinearOrder κ] {K : Type} [Field K] [LinearOrder K] [IsStrictOrderedRing K]

/-! ### Dictionaries -/

theorem get_nil (k : κ) : get ([] : Coll κ K) k = none := rfl

theorem get_cons (p : κ × OTFS K) (c : Coll κ K) (k : κ) :
    get (p :: c) k = if p.1 = k then some p.2 else get c k := by
  unfold get
  by_cases h : p.1 = k <;> simp [List.find?_cons, h]

theorem get_put (c : Coll κ K) (k : κ) (s : OTFS K) (k' : κ) :
    get (put c k s) k' = if k = k' then some s else get c k' := by
  induction c with
  | nil => simp only [put, get_cons, get_nil]
  | cons p c ih =>
    simp only [put]
    by_cases h : p.1 = k
    · rw [if_pos h, get_cons, get_cons]
      by_cases h' : k = k'
      · simp [h']
      · simp only [h', if_false]; rw [if_neg (by rw [h]; exact h')]
    · rw [if_neg h, get_cons, get_cons, ih]
      by_cases h' : p.1 = k'
      · have : k ≠ k' := fun e => h (h'.trans e.symm)
        simp [h', this]
      · simp [h']

theorem mem_keys_put (c : Coll κ K) (k : κ) (s : OTFS K) (k' : κ) :
    k' ∈ (put c k s).map Prod.fst ↔ k' = k ∨ k' ∈ c.map Prod.fst := by
  induction c with
  | nil => simp [put]
  | cons p c ih =>
    simp only [put]
    by_cases h : p.1 = k
    · rw [if_pos h]; simp only [List.map_cons, List.mem_cons, h]; tauto
    · rw [if_neg h]; simp only [List.map_cons, List.mem_cons, ih]; tauto

theorem nodup_put {c : Coll κ K} (hc : (c.map Prod.fst).Nodup) (k : κ) (s : OTFS K) :
    ((put c k s).map Prod.fst).Nodup := by
  induction c with
  | nil => simp [put]
  | cons p c ih =>
    simp only [List.map_cons, List.nodup_cons] at hc
    simp only [put]
    by_cases h : p.1 = k
    · rw [if_pos h]; simp only [List.map_cons, List.nodup_cons, ← h]; exact hc
    · rw [if_neg h]
      simp only [List.map_cons, List.nodup_cons]
      refine ⟨?_, ih hc.2⟩
      rw [mem_keys_put]
      rintro (h' | h')
      · exact h h'
      · exact hc.1 h'

theorem get_eq_some_iff {c : Coll κ K} (hc : (c.map Prod.fst).Nodup) (k : κ) (s : OTFS K) :
    get c k = some s ↔ (k, s) ∈ c := by
  induction c with
  | nil => simp [get_nil]
  | cons p c ih =>
    simp only [List.map_cons, List.nodup_cons] at hc
    rw [get_cons]
    by_cases h : p.1 = k
    · rw [if_pos h]
      constructor
      · intro h'
        have : p.2 = s := Option.some.inj h'
        simp [← h, ← this]
      · intro h'
        rcases List.mem_cons.mp h' with h' | h'
        · rw [← h']
        · exact absurd (List.mem_map_of_mem (f := Prod.fst) h') (by simpa [← h] using hc.1)
    · rw [if_neg h, ih hc.2]
      constructor
      · intro h'; exact List.mem_cons_of_mem _ h'
      · intro h'
        rcases List.mem_cons.mp h' with h' | h'
        · rw [← h'] at h; simp at h
        · exact h'

theorem get_isSome_iff (c : Coll κ K) (k : κ) : (∃ s, get c k = some s) ↔ k ∈ c.map Prod.fst := by
  induction c with
  | nil => simp [get_nil]
  | cons p c ih =>
    rw [get_cons]
    by_cases h : p.1 = k
    · simp [h]
    · rw [if_neg h, ih]
      simp only [List.map_cons, List.mem_cons]
      constructor
      · exact Or.inr
      · rintro (h' | h')
        · exact absurd h'.symm h
        · exact h'

/-! ### Histories -/

/-- The value `v` contributes the data `ys`: a number contributes itself, a sample whatever data it was
built from. -/
inductive Supplies : Val K → List K → Prop
  | num (x : K) : Supplies (.num x) [x]
  | sample {s : OTFS K} {ys : List K} : Built s ys → Supplies (.sample s) ys

/-- All data contributed for key `k`, in order. -/
def supplied (contrib : List (κ × List K)) (k : κ) : List K :=
  (contrib.filter fun c => c.1 = k).flatMap Prod.snd

/-- A client making several calls of `addData`; stops at the first that raises. -/
def addCalls (c : Coll κ K) : List (List (κ × Val K)) → Coll κ K × Except PyErr Unit
  | [] => (c, .ok ())
  | items :: calls =>
    match addData c items with
    | (c', .ok ()) => addCalls c' calls
    | (c', .error e) => (c', .error e)

theorem addData_append (c : Coll κ K) (i1 i2 : List (κ × Val K)) :
    addData c (i1 ++ i2) = match addData c i1 with
      | (c', .ok ()) => addData c' i2
      | (c', .error e) => (c', .error e) := by
  induction i1 generalizing c with
  | nil => rfl
  | cons p i1 ih =>
    obtain ⟨k, v⟩ := p
    simp only [List.cons_append, addData]
    cases update c k v with
    | error e => rfl
    | ok c' => exact ih c'

theorem addCalls_eq (c : Coll κ K) (calls : List (List (κ × Val K))) :
    addCalls c calls = addData c calls.flatten := by
  induction calls generalizing c with
  | nil => rfl
  | cons items calls ih =>
    rw [List.flatten_cons, addData_append, addCalls]
    split <;> simp_all

/-- State described by contributions. -/
def Describes (c : Coll κ K) (contrib : List (κ × List K)) : Prop :=
  (c.map Prod.fst).Nodup ∧ ∀ k, get c k =
    if k ∈ contrib.map Prod.fst then some (feed (supplied contrib k)) else none

theorem describes_nil : Describes (init : Coll κ K) [] := by
  refine ⟨by simp [init], ?_⟩
  intro k; simp [init, get_nil]

theorem supplied_snoc (contrib : List (κ × List K)) (k : κ) (ys : List K) (k' : κ) :
    supplied (contrib ++ [(k, ys)]) k' =
      if k = k' then supplied contrib k' ++ ys else supplied contrib k' := by
  unfold supplied
  by_cases h : k = k' <;> simp [List.filter_append, h]

theorem describes_update {c : Coll κ K} {contrib : List (κ × List K)} (h : Describes c contrib)
    (k : κ) {v : Val K} {ys : List K} (hv : Supplies v ys) :
    ∃ c', update c k v = .ok c' ∧ Describes c' (contrib ++ [(k, ys)]) := by
  have hold : current c k = feed (supplied contrib k) := by
    unfold current
    rw [h.2 k]
    by_cases hk : k ∈ contrib.map Prod.fst
    · rw [if_pos hk]; rfl
    · rw [if_neg hk]
      have : supplied contrib k = [] := by
        unfold supplied
        rw [List.filter_eq_nil_iff.mpr]
        · rfl
        · intro p hp
          have : p.1 ≠ k := by
            rintro rfl; exact hk (List.mem_map_of_mem hp)
          simpa using this
      rw [this]; rfl
  have key : update c k v = .ok (put c k (feed (supplied contrib k ++ ys))) := by
    unfold update
    simp only [hold]
    cases hv with
    | num x => simp [feed_append_singleton]
    | sample hb => simp [C02_built_eq_feed hb, mergeSample_feed, bind, Except.bind]
  refine ⟨_, key, nodup_put h.1 _ _, fun k' => ?_⟩
  rw [get_put, h.2 k', supplied_snoc]
  by_cases hk : k = k'
  · subst hk; simp
  · have hk2 : ¬ k' = k := fun e => hk e.symm
    rw [if_neg hk, if_neg hk]
    have : k' ∈ List.map Prod.fst (contrib ++ [(k, ys)]) ↔ k' ∈ List.map Prod.fst contrib := by
      rw [List.map_append, List.mem_append]
      simp [hk2]
    simp only [this]

theorem describes_addData {items : List (κ × Val K)} {new : List (κ × List K)}
    (hi : List.Forall₂ (fun i d => i.1 = d.1 ∧ Supplies i.2 d.2) items new) :
    ∀ {c : Coll κ K} {contrib : List (κ × List K)}, Describes c contrib →
    ∃ c', addData c items = (c', .ok ()) ∧ Describes c' (contrib ++ new) := by
  induction hi with
  | nil => intro c contrib h; exact ⟨c, rfl, by simpa using h⟩
  | @cons i d items new h1 _ ih =>
    intro c contrib h
    obtain ⟨k, v⟩ := i
    obtain ⟨k', ys⟩ := d
    obtain ⟨rfl, hv⟩ := h1
    obtain ⟨c1, hu, hd⟩ := describes_update h k hv
    obtain ⟨c2, h2, hd2⟩ := ih hd
    have hd2' : Describes c2 (contrib ++ (k, ys) :: new) := by simpa using hd2
    exact ⟨c2, by simp only [addData]; rw [hu]; exact h2, hd2'⟩

/-- C10: after any sequence of calls of `addData` with valid dictionaries, none of which raises, the
statistics at each key are those of all data supplied for that key (as numbers or as samples), and
keys for which nothing was supplied are absent. -/
theorem C10_values (calls : List (List (κ × Val K))) (contrib : List (κ × List K))
    (h : List.Forall₂ (fun i d => i.1 = d.1 ∧ Supplies i.2 d.2) calls.flatten contrib) :
    ∃ c, addCalls init calls = (c, .ok ()) ∧ ∀ k, get c k =
      if k ∈ contrib.map Prod.fst then some (feed (supplied contrib k)) else none := by
  obtain ⟨c, h1, h2⟩ := describes_addData h describes_nil
  refine ⟨c, by rw [addCalls_eq]; exact h1, ?_⟩
  simpa using h2.2

/-- C10: the statistics do not depend on the order in which items were supplied (for instance the
iteration order of the dictionaries). -/
theorem C10_order_irrelevant {calls calls' : List (List (κ × Val K))}
    {contrib contrib' : List (κ × List K)}
    (h : List.Forall₂ (fun i d => i.1 = d.1 ∧ Supplies i.2 d.2) calls.flatten contrib)
    (h' : List.Forall₂ (fun i d => i.1 = d.1 ∧ Supplies i.2 d.2) calls'.flatten contrib')
    (hp : contrib.Perm contrib') (k : κ) :
    get (addCalls init calls).1 k = get (addCalls init calls').1 k := by
  obtain ⟨c, h1, h2⟩ := C10_values calls contrib h
  obtain ⟨c', h1', h2'⟩ := C10_values calls' contrib' h'
  rw [h1, h1']
  simp only [h2 k, h2' k]
  have e1 : k ∈ contrib.map Prod.fst ↔ k ∈ contrib'.map Prod.fst := (hp.map _).mem_iff
  have e2 : (supplied contrib k).Perm (supplied contrib' k) := (hp.filter _).flatMap_right _
  simp only [e1, feed_perm e2]

/-- Reachable collections. -/
inductive Reach : Coll κ K → Prop
  | init : Reach init
  | add {c c' : Coll κ K} {r : Except PyErr Unit} (items : List (κ × Val K)) :
      Reach c → addData c items = (c', r) → Reach c'
  | keep {c c' : Coll κ K} {r : Except PyErr Unit} (n : ℤ) :
      Reach c → keepOnlyEveryNthDataPoint c n = (c', r) → Reach c'

theorem nodup_update {c c' : Coll κ K} {k : κ} {v : Val K} (h : (c.map Prod.fst).Nodup)
    (hu : update c k v = .ok c') : (c'.map Prod.fst).Nodup := by
  unfold update at hu
  cases v with
  | num x =>
    simp only [Except.ok.injEq] at hu
    rw [← hu]; exact nodup_put h _ _
  | sample s =>
    simp only [bind, Except.bind] at hu
    split at hu
    · simp at hu
    · simp only [Except.ok.injEq] at hu
      rw [← hu]; exact nodup_put h _ _
  | other => simp at hu

theorem nodup_addData {items : List (κ × Val K)} : ∀ {c : Coll κ K}, (c.map Prod.fst).Nodup →
    ((addData c items).1.map Prod.fst).Nodup := by
  induction items with
  | nil => intro c h; exact h
  | cons p items ih =>
    intro c h
    obtain ⟨k, v⟩ := p
    simp only [addData]
    cases hu : update c k v with
    | error e => exact h
    | ok c' => exact ih (nodup_update h hu)

theorem lookupAll_ok {c : Coll κ K} {ks : List κ} (h : ∀ k ∈ ks, k ∈ c.map Prod.fst) :
    ∃ l, lookupAll c ks = .ok l ∧ l.map Prod.fst = ks ∧ ∀ p ∈ l, get c p.1 = some p.2 := by
  induction ks with
  | nil => exact ⟨[], rfl, rfl, by simp⟩
  | cons k ks ih =>
    obtain ⟨s, hs⟩ := (get_isSome_iff c k).mpr (h k (by simp))
    obtain ⟨l, h1, h2, h3⟩ := ih (fun k hk => h k (by simp [hk]))
    refine ⟨(k, s) :: l, by simp [lookupAll, hs, h1, bind, Except.bind], by simp [h2], ?_⟩
    intro p hp
    rcases List.mem_cons.mp hp with rfl | hp
    · exact hs
    · exact h3 p hp

theorem keepLoop_sublist (n s : ℤ) (ks : List κ) : (keepLoop n s ks).Sublist ks := by
  induction ks generalizing s with
  | nil => simp [keepLoop]
  | cons k ks ih =>
    simp only [keepLoop]
    split
    · exact (ih _).cons _
    · exact (ih _).cons_cons _

theorem mem_sortedKeys (c : Coll κ K) (k : κ) : k ∈ sortedKeys c ↔ k ∈ c.map Prod.fst := by
  unfold sortedKeys; exact List.mem_insertionSort _

theorem sortedKeys_pairwise {c : Coll κ K} (h : (c.map Prod.fst).Nodup) :
    (sortedKeys c).Pairwise (· < ·) := by
  have h1 : (sortedKeys c).Pairwise (· ≤ ·) := List.pairwise_insertionSort _ _
  have h2 : (sortedKeys c).Nodup := (List.perm_insertionSort _ _).nodup_iff.mpr h
  exact (h1.and h2).imp fun ⟨h, h'⟩ => lt_of_le_of_ne h h'

theorem keep_props (c : Coll κ K) (n : ℤ) (hn : 2 ≤ n) :
    ∃ l, keepOnlyEveryNthDataPoint c n = (l, .ok ()) ∧
      l.map Prod.fst = keepLoop n 0 (sortedKeys c) ∧ ∀ p ∈ l, get c p.1 = some p.2 := by
  obtain ⟨l, h1, h2, h3⟩ := lookupAll_ok (c := c) (ks := keepLoop n 0 (sortedKeys c)) (by
    intro k hk
    rw [← mem_sortedKeys]
    exact (keepLoop_sublist _ _ _).subset hk)
  refine ⟨l, ?_, h2, h3⟩
  unfold keepOnlyEveryNthDataPoint
  rw [if_neg (by omega), if_neg (by omega), h1]

theorem reach_nodup {c : Coll κ K} (h : Reach c) : (c.map Prod.fst).Nodup := by
  induction h with
  | init => simp [init]
  | @add c c' r items _ hi ih =>
    have := nodup_addData (items := items) ih
    rw [hi] at this; exact this
  | @keep c c' r n _ hk ih =>
    by_cases h1 : n ≤ 0
    · simp only [keepOnlyEveryNthDataPoint, h1, if_true, Prod.mk.injEq] at hk
      rw [← hk.1]; exact ih
    by_cases h2 : n = 1
    · subst h2
      simp [keepOnlyEveryNthDataPoint] at hk
      rw [← hk.1]; exact ih
    · obtain ⟨l, h3, h4, -⟩ := keep_props c n (by omega)
      rw [h3] at hk
      have : l = c' := (Prod.mk.inj hk).1
      rw [← this, h4]
      exact ((sortedKeys_pairwise ih).imp (fun h => ne_of_lt h)).sublist (keepLoop_sublist _ _ _)

/-- C10: `getOrderedData` never raises and lists every key exactly once, in strictly increasing order,
with its statistics. -/
theorem C10_ordered {c : Coll κ K} (h : Reach c) :
    ∃ l, getOrderedData c = .ok l ∧ (l.map Prod.fst).Pairwise (· < ·) ∧
      ∀ k s, (k, s) ∈ l ↔ get c k = some s := by
  have hn := reach_nodup h
  obtain ⟨l, h1, h2, h3⟩ := lookupAll_ok (c := c) (ks := sortedKeys c)
    (fun k hk => (mem_sortedKeys c k).mp hk)
  refine ⟨l, h1, by rw [h2]; exact sortedKeys_pairwise hn, fun k s => ⟨fun hm => h3 _ hm, fun hg => ?_⟩⟩
  have hk : k ∈ l.map Prod.fst := by
    rw [h2, mem_sortedKeys]; exact (get_isSome_iff c k).mp ⟨s, hg⟩
  obtain ⟨p, hp, rfl⟩ := List.mem_map.mp hk
  have := h3 p hp
  rw [hg] at this
  rw [Option.some.inj this]; exact hp

theorem keepLoop_mem (n : ℤ) (hn : 1 ≤ n) (ks : List κ) (hnd : ks.Nodup) (s : ℤ) (hs0 : 0 ≤ s)
    (hs : s < n) (k : κ) :
    k ∈ keepLoop n s ks ↔ ∃ i : ℕ, ks[i]? = some k ∧ n ∣ s + i + 1 := by
  induction ks generalizing s with
  | nil => simp [keepLoop]
  | cons a ks ih =>
    have hnd' := (List.nodup_cons.mp hnd)
    have hz : ∀ {m : ℤ}, 0 < m → m < n → ¬ n ∣ m := fun h1 h2 h3 => by
      have := Int.le_of_dvd h1 h3; omega
    simp only [keepLoop]
    by_cases h : s + 1 = n
    · rw [if_neg (by simpa using h), List.mem_cons, ih hnd'.2 0 le_rfl (by omega)]
      constructor
      · rintro (rfl | ⟨i, h1, h2⟩)
        · exact ⟨0, by simp, by rw [← h]; simp⟩
        · refine ⟨i + 1, by simpa using h1, ?_⟩
          have : s + ((i + 1 : ℕ) : ℤ) + 1 = n + (0 + i + 1) := by push_cast; omega
          rw [this]; exact dvd_add dvd_rfl h2
      · rintro ⟨i, h1, h2⟩
        cases i with
        | zero => left; simpa using h1.symm
        | succ i =>
          right
          refine ⟨i, by simpa using h1, ?_⟩
          have : s + ((i + 1 : ℕ) : ℤ) + 1 = n + (0 + i + 1) := by push_cast; omega
          rw [this] at h2
          exact (Int.dvd_add_right dvd_rfl).mp h2
    · rw [if_pos h, ih hnd'.2 (s + 1) (by omega) (by omega)]
      constructor
      · rintro ⟨i, h1, h2⟩
        refine ⟨i + 1, by simpa using h1, ?_⟩
        have : s + ((i + 1 : ℕ) : ℤ) + 1 = s + 1 + i + 1 := by push_cast; ring
        rw [this]; exact h2
      · rintro ⟨i, h1, h2⟩
        cases i with
        | zero => exact absurd h2 (hz (by push_cast; omega) (by push_cast; omega))
        | succ i =>
          refine ⟨i, by simpa using h1, ?_⟩
          have : s + ((i + 1 : ℕ) : ℤ) + 1 = s + 1 + i + 1 := by push_cast; ring
          rw [this] at h2; exact h2

/-- C10: `keepOnlyEveryNthDataPoint(n)` keeps exactly the keys at position `n`, `2 n`, ... (counting
from 1) in increasing order, with unchanged statistics. -/
theorem C10_keepEveryNth {c : Coll κ K} (h : Reach c) (n : ℤ) (hn : 1 ≤ n)
    (l : List (κ × OTFS K)) (hl : getOrderedData c = .ok l) :
    ∃ c', keepOnlyEveryNthDataPoint c n = (c', .ok ()) ∧
      ∀ k s, get c' k = some s ↔ ∃ i : ℕ, l[i]? = some (k, s) ∧ n ∣ (i : ℤ) + 1 := by
  have hnd := reach_nodup h
  obtain ⟨l', h1, h2, h3⟩ := lookupAll_ok (c := c) (ks := sortedKeys c)
    (fun k hk => (mem_sortedKeys c k).mp hk)
  have : l' = l := by
    unfold getOrderedData at hl
    rw [h1] at hl; exact Except.ok.inj hl
  subst this
  have hidx : ∀ (k : κ) (s : OTFS K) (i : ℕ),
      l'[i]? = some (k, s) ↔ ((sortedKeys c)[i]? = some k ∧ get c k = some s) := by
    intro k s i
    rw [← h2, List.getElem?_map]
    constructor
    · intro h
      rw [h]
      exact ⟨rfl, h3 (k, s) (List.mem_of_getElem? h)⟩
    · rintro ⟨ha, hb⟩
      cases hp : l'[i]? with
      | none => rw [hp] at ha; simp at ha
      | some p =>
        rw [hp] at ha
        have hk : p.1 = k := by simpa using ha
        have := h3 p (List.mem_of_getElem? hp)
        rw [hk, hb] at this
        rw [← hk, Option.some.inj this]
  by_cases hn1 : n = 1
  · subst hn1
    refine ⟨c, by simp [keepOnlyEveryNthDataPoint], fun k s => ?_⟩
    constructor
    · intro hg
      have hk : k ∈ sortedKeys c := (mem_sortedKeys c k).mpr ((get_isSome_iff c k).mp ⟨s, hg⟩)
      obtain ⟨i, hi⟩ := List.mem_iff_getElem?.mp hk
      exact ⟨i, (hidx k s i).mpr ⟨hi, hg⟩, one_dvd _⟩
    · rintro ⟨i, hi, -⟩
      exact ((hidx k s i).mp hi).2
  · obtain ⟨c', hk, hkeys, hvals⟩ := keep_props c n (by omega)
    refine ⟨c', hk, fun k s => ?_⟩
    have hreach := reach_nodup (Reach.keep n h hk)
    have hmem := fun k => keepLoop_mem n hn (sortedKeys c)
      ((sortedKeys_pairwise hnd).imp (fun h => ne_of_lt h)) 0 le_rfl (by omega) k
    rw [get_eq_some_iff hreach]
    constructor
    · intro hm
      have h4 : k ∈ keepLoop n 0 (sortedKeys c) := by
        rw [← hkeys]; exact List.mem_map_of_mem (f := Prod.fst) hm
      obtain ⟨i, hi, hd⟩ := (hmem k).mp h4
      exact ⟨i, (hidx k s i).mpr ⟨hi, hvals _ hm⟩, by simpa using hd⟩
    · rintro ⟨i, hi, hd⟩
      obtain ⟨ha, hb⟩ := (hidx k s i).mp hi
      have h4 : k ∈ c'.map Prod.fst := by
        rw [hkeys]; exact (hmem k).mpr ⟨i, ha, by simpa using hd⟩
      obtain ⟨p, hp, rfl⟩ := List.mem_map.mp h4
      have := hvals p hp
      rw [hb] at this
      rw [Option.some.inj this]; exact hp

/-- C10: `keepOnlyEveryNthDataPoint` rejects `n <= 0` without changing the collection. -/
theorem C10_keep_rejects (c : Coll κ K) (n : ℤ) (hn : n ≤ 0) :
    keepOnlyEveryNthDataPoint c n = (c, .error .valueError) := by
  simp [keepOnlyEveryNthDataPoint, hn]

/-- C10, rejected calls, what does hold: a rejected call has processed exactly the items that precede the
first inadmissible one. Missing: that the collection is unchanged, which is false
(`C10_rejected_violated`). -/
theorem C10_rejected_partial (c c' : Coll κ K) (e : PyErr) (items : List (κ × Val K))
    (hv : ∀ i ∈ items, i.2 = .other ∨ ∃ ys, Supplies i.2 ys)
    (h : addData c items = (c', .error e)) :
    e = .typeError ∧ ∃ pre k post, items = pre ++ (k, .other) :: post ∧
      addData c pre = (c', .ok ()) := by
  induction items generalizing c with
  | nil => simp [addData] at h
  | cons p items ih =>
    obtain ⟨k, v⟩ := p
    simp only [addData] at h
    cases hu : update c k v with
    | error e' =>
      rw [hu] at h
      simp only [Prod.mk.injEq, Except.error.injEq] at h
      obtain ⟨rfl, rfl⟩ := h
      rcases hv (k, v) (by simp) with rfl | ⟨ys, hs⟩
      · simp only [update, Except.error.injEq] at hu
        exact ⟨hu.symm, [], k, items, rfl, rfl⟩
      · exfalso
        cases hs with
        | num x => simp [update] at hu
        | sample hb =>
          unfold update at hu
          simp only [bind, Except.bind] at hu
          split at hu
          · rename_i heq
            have hok : ∀ a b : OTFS K, ∃ u, a.mergeSample b = .ok u := by
              intro a b
              unfold OTFS.mergeSample
              by_cases h0 : a.n = 0
              · exact ⟨_, by rw [if_pos h0]⟩
              by_cases h1 : a.n = 1
              · exact ⟨_, by rw [if_neg h0, if_pos h1]⟩
              by_cases h2 : b.n = 0
              · exact ⟨_, by rw [if_neg h0, if_neg h1, if_pos h2]⟩
              by_cases h3 : b.n = 1
              · exact ⟨_, by
                  rw [if_neg h0, if_neg h1, if_neg h2, if_pos h3]
                  simp only [OTFS.getSampleMean, h2, if_false, bind, Except.bind]; rfl⟩
              have h4 : ¬ a.n ≤ 1 := by omega
              have h5 : ¬ b.n ≤ 1 := by omega
              exact ⟨_, by
                simp only [h0, h1, h2, h3, if_false, OTFS.getSampleMean, OTFS.getSampleVariance, h4,
                  h5, bind, Except.bind]; rfl⟩
            obtain ⟨u, hu'⟩ := hok _ _
            rw [hu'] at heq; simp at heq
          · simp at hu
    | ok c1 =>
      rw [hu] at h
      obtain ⟨h1, pre, k', post, h2, h3⟩ := ih c1 (fun i hi => hv i (by simp [hi])) h
      refine ⟨h1, (k, v) :: pre, k', post, by simp [h2], ?_⟩
      simp only [addData, hu, h3]

/-- The last sentence of C10 is false: a rejected call can leave the collection changed. -/
theorem C10_rejected_violated :
    ∃ (items : List (ℕ × Val ℚ)) (c' : Coll ℕ ℚ) (e : PyErr),
      addData init items = (c', .error e) ∧ get c' 1 ≠ get (init : Coll ℕ ℚ) 1 := by
  refine ⟨[(1, .num 5), (2, .other)], _, _, rfl, ?_⟩
  simp [get_cons, get_nil, init, put]

/-- Two calls, three keys, one value given as a sample of two data. -/
example : ∃ c, addCalls (init : Coll ℕ ℚ)
      [[(7, .num 1), (3, .num 2)], [(7, .sample (feed [4, 6])), (5, .num 0)]] = (c, .ok ()) ∧
    get c 7 = some (feed [1, 4, 6]) ∧ get c 8 = none := by
  have hb : Built (feed ([4, 6] : List ℚ)) [4, 6] := .add 6 (.add 4 .fresh)
  obtain ⟨c, h1, h2⟩ := C10_values [[(7, .num 1), (3, .num 2)], [(7, .sample (feed [4, 6])), (5, .num 0)]]
    [(7, [1]), (3, [2]), (7, [4, 6]), (5, ([0] : List ℚ))]
    (.cons ⟨rfl, .num 1⟩ (.cons ⟨rfl, .num 2⟩ (.cons ⟨rfl, .sample hb⟩ (.cons ⟨rfl, .num 0⟩ .nil))))
  refine ⟨c, h1, ?_, ?_⟩
  · rw [h2]; simp [supplied]
  · rw [h2]; simp

/-- Of the keys 2, 4, 6, 8, 10, every second one: 4 and 8. -/
example : keepLoop 2 0 [2, 4, 6, 8, 10] = [4, 8] := by decide

end OpenMPCD.Collection
