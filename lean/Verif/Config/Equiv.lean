import Verif.Config.Props

/-!
# Configurations: comparing and flattening (C50)
-/

set_option linter.unusedSimpArgs false

namespace OpenMPCD.Config

variable {tr : String → String}

/-- Comparison of elements of lists. -/
def elemEq (tr : String → String) : Value → Value → Bool
  | .scalar s, .scalar t => scalarEqList tr s t
  | v, w => isEquivalent tr v w

/-- Comparison of settings of groups. -/
def fieldEq (tr : String → String) : Value → Value → Bool
  | .scalar s, .scalar t => scalarEqGroup tr s t
  | v, w => isEquivalent tr v w

theorem isEquivalent_scalar_left (s : Scalar) (w : Value) : isEquivalent tr (.scalar s) w = false := by
  cases w <;> simp [isEquivalent]

theorem isEquivalent_scalar_right (v : Value) (s : Scalar) : isEquivalent tr v (.scalar s) = false := by
  cases v <;> simp [isEquivalent]

theorem itemsEquivalent_iff (xs ys : List Value) :
    (xs.length = ys.length ∧ itemsEquivalent tr xs ys = true) ↔ List.Forall₂ (fun v w => elemEq tr v w = true) xs ys := by
  induction xs generalizing ys with
  | nil => cases ys <;> simp [itemsEquivalent]
  | cons x xs ih =>
    cases ys with
    | nil => simp
    | cons y ys =>
      rw [List.forall₂_cons, ← ih ys]
      cases x <;> cases y <;>
        simp [itemsEquivalent, elemEq, isEquivalent_scalar_left, isEquivalent_scalar_right] <;> tauto

theorem fieldsEquivalent_iff (fs gs : List (Comp × Value)) :
    fieldsEquivalent tr fs gs = true ↔ ∀ k v, (k, v) ∈ fs → ∃ w, dictGet gs k = some w ∧ fieldEq tr v w = true := by
  induction fs with
  | nil => simp [fieldsEquivalent]
  | cons f fs ih =>
    obtain ⟨k, v⟩ := f
    have hsplit : (∀ k' v', (k', v') ∈ (k, v) :: fs → ∃ w, dictGet gs k' = some w ∧ fieldEq tr v' w = true) ↔
        (∃ w, dictGet gs k = some w ∧ fieldEq tr v w = true) ∧
          ∀ k' v', (k', v') ∈ fs → ∃ w, dictGet gs k' = some w ∧ fieldEq tr v' w = true := by
      constructor
      · intro h
        exact ⟨h k v List.mem_cons_self, fun k' v' h' => h k' v' (List.mem_cons_of_mem _ h')⟩
      · rintro ⟨h1, h2⟩ k' v' h'
        rcases List.mem_cons.1 h' with h' | h'
        · cases h'; exact h1
        · exact h2 k' v' h'
    rw [hsplit, ← ih]
    cases hd : dictGet gs k with
    | none => cases v <;> simp [fieldsEquivalent, hd]
    | some w =>
      cases v <;> cases w <;>
        simp [fieldsEquivalent, hd, fieldEq, isEquivalent_scalar_left, isEquivalent_scalar_right]

theorem isEquivalent_list {a b : Bool} {xs ys : List Value} :
    isEquivalent tr (.list a xs) (.list b ys) = true ↔ List.Forall₂ (fun v w => elemEq tr v w = true) xs ys := by
  rw [← itemsEquivalent_iff]
  simp [isEquivalent]

theorem isEquivalent_group {fs gs : List (Comp × Value)} :
    isEquivalent tr (.group fs) (.group gs) = true ↔
      (∀ k v, (k, v) ∈ fs → ∃ w, dictGet gs k = some w ∧ fieldEq tr v w = true) ∧
      ∀ k w, (k, w) ∈ gs → ∃ v, dictGet fs k = some v := by
  rw [← fieldsEquivalent_iff]
  simp only [isEquivalent, Bool.and_eq_true, List.all_eq_true]
  refine and_congr_right fun _ => ⟨fun h k w hm => ?_, fun h p hp => ?_⟩
  · exact Option.isSome_iff_exists.1 (h (k, w) hm)
  · exact Option.isSome_iff_exists.2 (h p.1 p.2 hp)

theorem scalarEqList_group {s t : Scalar} (h : scalarEqList tr s t = true) : scalarEqGroup tr s t = true := by
  cases s <;> cases t <;> simp_all [scalarEqList, scalarEqGroup, Scalar.number]

theorem scalarEqGroup_refl (s : Scalar) : scalarEqGroup tr s s = true := by
  cases s <;> simp [scalarEqGroup]

theorem scalarEqList_refl (s : Scalar) : scalarEqList tr s s = true := by
  cases s <;> simp [scalarEqList]

theorem scalarEqGroup_symm {s t : Scalar} (h : scalarEqGroup tr s t = true) : scalarEqGroup tr t s = true := by
  cases s <;> cases t <;> simp_all [scalarEqGroup]

theorem scalarEqList_symm {s t : Scalar} (h : scalarEqList tr s t = true) : scalarEqList tr t s = true := by
  cases s <;> cases t <;> simp_all [scalarEqList]

theorem scalarEqGroup_trans {s t u : Scalar} (h : scalarEqGroup tr s t = true) (h' : scalarEqGroup tr t u = true) :
    scalarEqGroup tr s u = true := by
  cases s <;> cases t <;> cases u <;> simp_all [scalarEqGroup]

theorem scalarEqList_trans {s t u : Scalar} (h : scalarEqList tr s t = true) (h' : scalarEqList tr t u = true) :
    scalarEqList tr s u = true := by
  cases s <;> cases t <;> cases u <;> simp_all [scalarEqList]

theorem eq_refl {v : Value} (hv : WF v) : elemEq tr v v = true ∧ fieldEq tr v v = true := by
  induction hv with
  | scalar s => exact ⟨scalarEqList_refl s, scalarEqGroup_refl s⟩
  | group h1 _ ih =>
    refine ⟨?_, ?_⟩ <;> simp only [elemEq, fieldEq] <;> rw [isEquivalent_group] <;>
      exact ⟨fun k v hm => ⟨v, dictGet_eq h1 hm, (ih _ hm).2⟩, fun k w hm => ⟨w, dictGet_eq h1 hm⟩⟩
  | list _ ih =>
    refine ⟨?_, ?_⟩ <;> simp only [elemEq, fieldEq] <;> rw [isEquivalent_list, List.forall₂_same] <;>
      exact fun v hv => (ih v hv).1

/-- C50: a configuration is equivalent to itself. -/
theorem C50_equivalent_refl {v : Value} (hv : WF v) (hs : ∀ s, v ≠ .scalar s) : isEquivalent tr v v = true := by
  have := (eq_refl (tr := tr) hv).1
  cases v with
  | scalar s => exact absurd rfl (hs s)
  | group _ => exact this
  | list _ _ => exact this

theorem eq_symm {v : Value} (hv : WF v) : ∀ {w : Value}, WF w →
    (elemEq tr v w = true → elemEq tr w v = true) ∧ (fieldEq tr v w = true → fieldEq tr w v = true) ∧
      (isEquivalent tr v w = true → isEquivalent tr w v = true) := by
  induction hv with
  | scalar s =>
    intro w _
    cases w <;> simp only [elemEq, fieldEq, isEquivalent_scalar_left, isEquivalent_scalar_right]
    · exact ⟨scalarEqList_symm, scalarEqGroup_symm, id⟩
    all_goals exact ⟨fun h => (by cases h), fun h => (by cases h), fun h => (by cases h)⟩
  | @group fs h1 h2 ih =>
    intro w hw
    have key : isEquivalent tr (.group fs) w = true → isEquivalent tr w (.group fs) = true := by
      intro h
      cases hw with
      | scalar s => rw [isEquivalent_scalar_right] at h; cases h
      | list _ => simp [isEquivalent] at h
      | @group gs g1 g2 =>
        rw [isEquivalent_group] at h ⊢
        refine ⟨fun k w hm => ?_, fun k v hm => ?_⟩
        · obtain ⟨v, hv⟩ := h.2 k w hm
          refine ⟨v, hv, ?_⟩
          have hmv := dictGet_mem hv
          obtain ⟨w', e1, e2⟩ := h.1 k v hmv
          rw [dictGet_eq g1 hm] at e1
          cases e1
          exact (ih _ hmv (g2 _ hm)).2.1 e2
        · obtain ⟨w, hw, -⟩ := h.1 k v hm
          exact ⟨w, hw⟩
    refine ⟨?_, ?_, key⟩ <;> cases w <;> simpa only [elemEq, fieldEq] using key
  | @list a xs h2 ih =>
    intro w hw
    have key : isEquivalent tr (.list a xs) w = true → isEquivalent tr w (.list a xs) = true := by
      intro h
      cases hw with
      | scalar s => rw [isEquivalent_scalar_right] at h; cases h
      | group _ _ => simp [isEquivalent] at h
      | @list b ys g2 =>
        rw [isEquivalent_list] at h ⊢
        have : ∀ xs ys : List Value, (∀ v ∈ xs, ∀ {w}, WF w → elemEq tr v w = true → elemEq tr w v = true) →
            (∀ w ∈ ys, WF w) → List.Forall₂ (fun v w => elemEq tr v w = true) xs ys →
            List.Forall₂ (fun v w => elemEq tr v w = true) ys xs := by
          intro xs ys hx hy h
          induction h with
          | nil => exact .nil
          | cons h _ ih =>
            exact .cons (hx _ List.mem_cons_self (hy _ List.mem_cons_self) h)
              (ih (fun v hv => hx v (List.mem_cons_of_mem _ hv)) (fun w hw => hy w (List.mem_cons_of_mem _ hw)))
        exact this xs ys (fun v hv w hw => (ih v hv hw).1) g2 h
    refine ⟨?_, ?_, key⟩ <;> cases w <;> simpa only [elemEq, fieldEq] using key

/-- C50: equivalence is symmetric. -/
theorem C50_equivalent_symm {v w : Value} (hv : WF v) (hw : WF w) :
    isEquivalent tr v w = isEquivalent tr w v := by
  have h1 := (eq_symm (tr := tr) hv hw).2.2
  have h2 := (eq_symm (tr := tr) hw hv).2.2
  cases e1 : isEquivalent tr v w <;> cases e2 : isEquivalent tr w v <;> simp_all

theorem eq_trans {v : Value} (hv : WF v) : ∀ {w u : Value},
    (elemEq tr v w = true → elemEq tr w u = true → elemEq tr v u = true) ∧
      (fieldEq tr v w = true → fieldEq tr w u = true → fieldEq tr v u = true) ∧
      (isEquivalent tr v w = true → isEquivalent tr w u = true → isEquivalent tr v u = true) := by
  induction hv with
  | scalar s =>
    intro w u
    cases w <;> cases u <;> simp only [elemEq, fieldEq, isEquivalent_scalar_left, isEquivalent_scalar_right]
    · exact ⟨scalarEqList_trans, scalarEqGroup_trans, fun h => by cases h⟩
    all_goals exact ⟨fun h h' => (by first | cases h | cases h'), fun h h' => (by first | cases h | cases h'),
      fun h => (by cases h)⟩
  | @group fs h1 h2 ih =>
    intro w u
    have key : isEquivalent tr (.group fs) w = true → isEquivalent tr w u = true →
        isEquivalent tr (.group fs) u = true := by
      intro h h'
      cases w with
      | scalar s => rw [isEquivalent_scalar_right] at h; cases h
      | list _ _ => simp [isEquivalent] at h
      | group gs =>
        cases u with
        | scalar s => rw [isEquivalent_scalar_right] at h'; cases h'
        | list _ _ => simp [isEquivalent] at h'
        | group us =>
          rw [isEquivalent_group] at h h' ⊢
          refine ⟨fun k v hm => ?_, fun k x hm => ?_⟩
          · obtain ⟨w, e1, e2⟩ := h.1 k v hm
            obtain ⟨x, e3, e4⟩ := h'.1 k w (dictGet_mem e1)
            exact ⟨x, e3, (ih _ hm).2.1 e2 e4⟩
          · obtain ⟨w, e1⟩ := h'.2 k x hm
            exact h.2 k w (dictGet_mem e1)
    refine ⟨?_, ?_, key⟩ <;> cases w <;> cases u <;>
      simp only [elemEq, fieldEq, isEquivalent_scalar_left, isEquivalent_scalar_right] at key ⊢ <;>
      first | exact key | (intro h; cases h)
  | @list a xs h2 ih =>
    intro w u
    have key : isEquivalent tr (.list a xs) w = true → isEquivalent tr w u = true →
        isEquivalent tr (.list a xs) u = true := by
      intro h h'
      cases w with
      | scalar s => rw [isEquivalent_scalar_right] at h; cases h
      | group _ => simp [isEquivalent] at h
      | list b ys =>
        cases u with
        | scalar s => rw [isEquivalent_scalar_right] at h'; cases h'
        | group _ => simp [isEquivalent] at h'
        | list c us =>
          rw [isEquivalent_list] at h h' ⊢
          have : ∀ xs ys us : List Value,
              (∀ v ∈ xs, ∀ {w u}, elemEq tr v w = true → elemEq tr w u = true → elemEq tr v u = true) →
              List.Forall₂ (fun v w => elemEq tr v w = true) xs ys →
              List.Forall₂ (fun v w => elemEq tr v w = true) ys us →
              List.Forall₂ (fun v w => elemEq tr v w = true) xs us := by
            intro xs ys us hx h
            induction h generalizing us with
            | nil => exact id
            | cons h _ ih =>
              intro h'
              cases h' with
              | cons g gs =>
                exact .cons (hx _ List.mem_cons_self h g)
                  (ih _ (fun v hv => hx v (List.mem_cons_of_mem _ hv)) gs)
          exact this xs ys us (fun v hv w u => (ih v hv).1) h h'
    refine ⟨?_, ?_, key⟩ <;> cases w <;> cases u <;>
      simp only [elemEq, fieldEq, isEquivalent_scalar_left, isEquivalent_scalar_right] at key ⊢ <;>
      first | exact key | (intro h; cases h)

/-- C50: equivalence is transitive. -/
theorem C50_equivalent_trans {v w u : Value} (hv : WF v) (h : isEquivalent tr v w = true)
    (h' : isEquivalent tr w u = true) : isEquivalent tr v u = true :=
  (eq_trans hv).2.2 h h'

/-! ## What equivalence says -/

/-- Same kind of setting; scalars have the same value (numbers of any type, strings after translation). -/
def Like (tr : String → String) : Value → Value → Prop
  | .scalar (.str s), .scalar (.str t) => tr s = tr t
  | .scalar s, .scalar t => s.number = t.number ∧ s.number.isSome
  | .group _, .group _ => True
  | .list _ _, .list _ _ => True
  | _, _ => False

/-- Same kind and type of setting. -/
def LikeTyped (tr : String → String) : Value → Value → Prop
  | .scalar (.str s), .scalar (.str t) => tr s = tr t
  | .scalar s, .scalar t => s = t
  | .group _, .group _ => True
  | .list _ _, .list _ _ => True
  | _, _ => False

theorem like_of_scalarEqGroup {s t : Scalar} (h : scalarEqGroup tr s t = true) :
    Like tr (.scalar s) (.scalar t) := by
  cases s <;> cases t <;> simp_all [scalarEqGroup, Like, Scalar.number]

theorem at_like {v : Value} {p : List Comp} {x : Value} (h : At v p x) :
    ∀ w, (elemEq tr v w = true ∨ fieldEq tr v w = true) → ∃ y, At w p y ∧ Like tr x y := by
  induction h with
  | here v =>
    intro w hw
    refine ⟨w, .here w, ?_⟩
    cases v with
    | scalar s =>
      cases w with
      | scalar t =>
        rcases hw with hw | hw
        · exact like_of_scalarEqGroup (scalarEqList_group hw)
        · exact like_of_scalarEqGroup hw
      | group _ => simp [elemEq, fieldEq, isEquivalent] at hw
      | list _ _ => simp [elemEq, fieldEq, isEquivalent] at hw
    | group _ => cases w <;> simp [elemEq, fieldEq, isEquivalent, Like] at hw ⊢
    | list _ _ => cases w <;> simp [elemEq, fieldEq, isEquivalent, Like] at hw ⊢
  | @field fields k w' p x hm _ ih =>
    intro w hw
    have hw : isEquivalent tr (.group fields) w = true := by
      cases w <;> simpa only [elemEq, fieldEq, or_self] using hw
    cases w with
    | scalar s => rw [isEquivalent_scalar_right] at hw; cases hw
    | list _ _ => simp [isEquivalent] at hw
    | group gs =>
      obtain ⟨u, e1, e2⟩ := (isEquivalent_group.1 hw).1 k w' hm
      obtain ⟨y, h1, h2⟩ := ih u (Or.inr e2)
      exact ⟨y, .field (dictGet_mem e1) h1, h2⟩
  | @item a items i w' p x hi _ ih =>
    intro w hw
    have hw : isEquivalent tr (.list a items) w = true := by
      cases w <;> simpa only [elemEq, fieldEq, or_self] using hw
    cases w with
    | scalar s => rw [isEquivalent_scalar_right] at hw; cases hw
    | group _ => simp [isEquivalent] at hw
    | list b ys =>
      have hf := isEquivalent_list.1 hw
      rw [List.forall₂_iff_get] at hf
      obtain ⟨hlt, e⟩ := List.getElem?_eq_some_iff.1 hi
      have h2 := hf.2 i hlt (hf.1 ▸ hlt)
      simp only [List.get_eq_getElem, e] at h2
      obtain ⟨y, h3, h4⟩ := ih _ (Or.inl h2)
      exact ⟨y, .item (List.getElem?_eq_some_iff.2 ⟨_, rfl⟩) h3, h4⟩

/-- C50: equivalent configurations have the same settings with the same values. -/
theorem C50_equivalent_same {v w : Value} (hv : WF v) (hw : WF w) (h : isEquivalent tr v w = true) :
    (∀ p x, At v p x → ∃ y, At w p y ∧ Like tr x y) ∧ (∀ p y, At w p y → ∃ x, At v p x ∧ Like tr y x) := by
  have toElem : ∀ {v w}, isEquivalent tr v w = true → elemEq tr v w = true := by
    intro v w h
    cases v with
    | scalar s => rw [isEquivalent_scalar_left] at h; cases h
    | group _ => cases w <;> exact h
    | list _ _ => cases w <;> exact h
  refine ⟨fun p x hx => at_like hx w (Or.inl (toElem h)), fun p y hy => at_like hy v (Or.inl (toElem ?_))⟩
  rw [C50_equivalent_symm hw hv]
  exact h

theorem equiv_of_same {v : Value} (hv : WF v) : ∀ {w : Value}, WF w →
    (∀ p x, At v p x → ∃ y, At w p y ∧ LikeTyped tr x y) → (∀ p y, At w p y → ∃ x, At v p x) →
    elemEq tr v w = true ∧ fieldEq tr v w = true := by
  induction hv with
  | scalar s =>
    intro w _ h _
    obtain ⟨y, h1, h2⟩ := h [] _ (.here _)
    cases h1
    cases w with
    | scalar t =>
      have : scalarEqList tr s t = true := by
        cases s <;> cases t <;> simp_all [LikeTyped, scalarEqList]
      exact ⟨this, scalarEqList_group this⟩
    | group _ => cases s <;> simp [LikeTyped] at h2
    | list _ _ => cases s <;> simp [LikeTyped] at h2
  | @group fs h1 h2 ih =>
    intro w hw h h'
    have key : isEquivalent tr (.group fs) w = true := by
      obtain ⟨y, a1, a2⟩ := h [] _ (.here _)
      cases a1
      cases hw with
      | scalar t => simp [LikeTyped] at a2
      | list _ => simp [LikeTyped] at a2
      | @group gs g1 g2 =>
        rw [isEquivalent_group]
        refine ⟨fun k v hm => ?_, fun k w hm => ?_⟩
        · obtain ⟨y, b1, -⟩ := h [k] v (.field hm (.here _))
          obtain ⟨w, hw⟩ : ∃ w, (k, w) ∈ gs := by
            cases b1 with
            | field hm' _ => exact ⟨_, hm'⟩
          refine ⟨w, dictGet_eq g1 hw, (ih _ hm (g2 _ hw) (fun p x hx => ?_) fun p y hy => ?_).2⟩
          · obtain ⟨y, c1, c2⟩ := h (k :: p) x (.field hm hx)
            cases c1 with
            | field hm' hat =>
              have e := dictGet_eq g1 hm'
              rw [dictGet_eq g1 hw] at e
              cases e
              exact ⟨y, hat, c2⟩
          · obtain ⟨x, c1⟩ := h' (k :: p) y (.field hw hy)
            cases c1 with
            | field hm' hat =>
              have e := dictGet_eq h1 hm'
              rw [dictGet_eq h1 hm] at e
              cases e
              exact ⟨x, hat⟩
        · obtain ⟨x, c1⟩ := h' [k] w (.field hm (.here _))
          cases c1 with
          | field hm' _ => exact ⟨_, dictGet_eq h1 hm'⟩
    exact ⟨by cases w <;> exact key, by cases w <;> exact key⟩
  | @list a xs h2 ih =>
    intro w hw h h'
    have key : isEquivalent tr (.list a xs) w = true := by
      obtain ⟨y, a1, a2⟩ := h [] _ (.here _)
      cases a1
      cases hw with
      | scalar t => simp [LikeTyped] at a2
      | group _ _ => simp [LikeTyped] at a2
      | @list b ys g2 =>
        rw [isEquivalent_list, List.forall₂_iff_get]
        have hget : ∀ {c : Bool} {zs : List Value} {i : ℕ} {p y}, At (.list c zs) (.index (i : ℤ) :: p) y →
            ∃ u, zs[i]? = some u ∧ At u p y := by
          intro c zs i p y h
          generalize hq : (Comp.index (i : ℤ) :: p) = q at h
          cases h with
          | here => cases hq
          | @item _ _ j u _ _ hj hat =>
            injection hq with e1 e2
            injection e1 with e1
            have : i = j := by exact_mod_cast e1
            subst this
            subst e2
            exact ⟨u, hj, hat⟩
        have hlen : xs.length = ys.length := by
          apply le_antisymm
          · by_contra hlt
            push Not at hlt
            obtain ⟨y, b1, -⟩ := h [.index (ys.length : ℤ)] _
              (.item (List.getElem?_eq_some_iff.2 ⟨hlt, rfl⟩) (.here _))
            obtain ⟨u, hu, -⟩ := hget b1
            simp at hu
          · by_contra hlt
            push Not at hlt
            obtain ⟨y, b1⟩ := h' [.index (xs.length : ℤ)] _
              (.item (List.getElem?_eq_some_iff.2 ⟨hlt, rfl⟩) (.here _))
            obtain ⟨u, hu, -⟩ := hget b1
            simp at hu
        refine ⟨hlen, fun i hi hi' => ?_⟩
        have ex : xs[i]? = some (xs.get ⟨i, hi⟩) := List.getElem?_eq_some_iff.2 ⟨hi, rfl⟩
        have ey : ys[i]? = some (ys.get ⟨i, hi'⟩) := List.getElem?_eq_some_iff.2 ⟨hi', rfl⟩
        refine (ih _ (List.get_mem _ _) (g2 _ (List.get_mem _ _)) (fun p x hx => ?_) fun p y hy => ?_).1
        · obtain ⟨y, c1, c2⟩ := h (.index (i : ℤ) :: p) x (.item ex hx)
          obtain ⟨u, hu, hat⟩ := hget c1
          rw [ey] at hu
          cases hu
          exact ⟨y, hat, c2⟩
        · obtain ⟨x, c1⟩ := h' (.index (i : ℤ) :: p) y (.item ey hy)
          obtain ⟨u, hu, hat⟩ := hget c1
          rw [ex] at hu
          cases hu
          exact ⟨x, hat⟩
    exact ⟨by cases w <;> exact key, by cases w <;> exact key⟩

/-- C50: configurations with the same settings, of the same types and with the same values, are equivalent. -/
theorem C50_equivalent_complete {v w : Value} (hv : WF v) (hw : WF w) (hs : ∀ s, v ≠ .scalar s)
    (h : ∀ p x, At v p x → ∃ y, At w p y ∧ LikeTyped tr x y) (h' : ∀ p y, At w p y → ∃ x, At v p x) :
    isEquivalent tr v w = true := by
  have := (equiv_of_same (tr := tr) hv hw h h').1
  cases v with
  | scalar s => exact absurd rfl (hs s)
  | group _ => cases w <;> exact this
  | list _ _ => cases w <;> exact this

/-- C50, a limit: whether the type of a number matters depends on where it is. As a setting, `1` and `1.0` are
equivalent; as elements of lists they are not. -/
theorem C50_equivalent_types_violated :
    isEquivalent id (.group [(.name "a", .scalar (.int 1))]) (.group [(.name "a", .scalar (.float 1))]) = true ∧
    isEquivalent id (.group [(.name "a", .list true [.scalar (.int 1)])])
      (.group [(.name "a", .list true [.scalar (.float 1)])]) = false := by
  constructor <;>
    simp [isEquivalent, fieldsEquivalent, itemsEquivalent, dictGet, scalarEqGroup, scalarEqList, Scalar.number]

/-! ## Flattening -/

/-- The elements of arrays are scalars, as the file format requires, at all levels. -/
inductive Arrays : Value → Prop
  | scalar (s) : Arrays (.scalar s)
  | group {fields : List (Comp × Value)} : (∀ p ∈ fields, Arrays p.2) → Arrays (.group fields)
  | array {items} : (∀ v ∈ items, ∃ s, v = .scalar s) → Arrays (.list true items)
  | list {items} : (∀ v ∈ items, Arrays v) → Arrays (.list false items)

/-- What the flat dictionary holds for a setting: the value of a scalar, `None` for an empty group or list. -/
def Entry : Value → Option Value → Prop
  | .scalar s, o => o = some (.scalar s)
  | .group [], o => o = none
  | .list _ [], o => o = none
  | _, _ => False

/-- The entries for one setting. -/
def flatEntry (k : Comp) : Value → List (List Comp × Option Value)
  | .scalar s => [([k], some (.scalar s))]
  | w => if (flat w).isEmpty then [([k], none)] else (flat w).map fun p => (k :: p.1, p.2)

theorem flatFields_eq (fs : List (Comp × Value)) : flatFields fs = fs.flatMap fun f => flatEntry f.1 f.2 := by
  induction fs with
  | nil => simp [flatFields]
  | cons f fs ih =>
    obtain ⟨k, v⟩ := f
    cases v <;> simp [flatFields, flatEntry, ih]

theorem flatItems_mem (xs : List Value) (n : ℕ) (e : List Comp × Option Value) :
    e ∈ flatItems n xs ↔ ∃ (i : ℕ) (v : Value), xs[i]? = some v ∧ e ∈ flatEntry (.index ((n + i : ℕ) : ℤ)) v := by
  induction xs generalizing n with
  | nil => simp [flatItems]
  | cons x xs ih =>
    have hs : e ∈ flatItems n (x :: xs) ↔ e ∈ flatEntry (.index (n : ℤ)) x ∨ e ∈ flatItems (n + 1) xs := by
      cases x <;> simp [flatItems, flatEntry]
    rw [hs, ih]
    constructor
    · rintro (h | ⟨i, v, h1, h2⟩)
      · exact ⟨0, x, rfl, by simpa using h⟩
      · exact ⟨i + 1, v, by simpa using h1, by rwa [show n + (i + 1) = n + 1 + i by omega]⟩
    · rintro ⟨i, v, h1, h2⟩
      cases i with
      | zero =>
        left
        simp only [List.getElem?_cons_zero, Option.some.injEq] at h1
        subst h1
        simpa using h2
      | succ i =>
        right
        exact ⟨i, v, by simpa using h1, by rwa [show n + (i + 1) = n + 1 + i by omega] at h2⟩

theorem flatEntry_ne_nil (k : Comp) (v : Value) : flatEntry k v ≠ [] := by
  cases v with
  | scalar s => simp [flatEntry]
  | group fs =>
    simp only [flatEntry]
    split_ifs with h
    · simp
    · intro e
      rw [List.map_eq_nil_iff] at e
      rw [e] at h
      exact h rfl
  | list a xs =>
    simp only [flatEntry]
    split_ifs with h
    · simp
    · intro e
      rw [List.map_eq_nil_iff] at e
      rw [e] at h
      exact h rfl

theorem flat_group (fs : List (Comp × Value)) : flat (.group fs) = fs.flatMap fun f => flatEntry f.1 f.2 := by
  simp [flat, flatFields_eq]

/-- The flat dictionary is empty for empty groups and lists only. -/
theorem flat_isEmpty {v : Value} (hs : ∀ s, v ≠ .scalar s) : (flat v).isEmpty = true ↔ Entry v none := by
  cases v with
  | scalar s => exact absurd rfl (hs s)
  | group fs =>
    cases fs with
    | nil => simp [flat, flatFields, Entry]
    | cons f fs =>
      rw [flat_group]
      have := flatEntry_ne_nil f.1 f.2
      simp [Entry, this]
  | list a xs =>
    cases xs with
    | nil => cases a <;> simp [flat, flatItems, Entry]
    | cons x xs =>
      cases a with
      | true => simp [flat, Entry]
      | false =>
        simp only [flat, Entry]
        rw [List.isEmpty_iff]
        constructor
        · intro h
          have := flatEntry_ne_nil (.index 0) x
          obtain ⟨e, he⟩ := List.exists_mem_of_ne_nil _ this
          have : e ∈ flatItems 0 (x :: xs) := (flatItems_mem _ _ _).2 ⟨0, x, rfl, by simpa using he⟩
          rw [h] at this
          cases this
        · exact False.elim

theorem at_nil {v x : Value} : At v [] x ↔ v = x :=
  ⟨fun h => by cases h; rfl, fun h => h ▸ .here _⟩

/-- Entries of a setting, given the entries of its value. -/
theorem flatEntry_iff {k : Comp} {v : Value}
    (ih : ∀ p o, (p, o) ∈ flat v ↔ p ≠ [] ∧ ∃ x, At v p x ∧ Entry x o) (p : List Comp) (o : Option Value) :
    (p, o) ∈ flatEntry k v ↔ ∃ p', p = k :: p' ∧ ∃ x, At v p' x ∧ Entry x o := by
  by_cases hs : ∃ s, v = .scalar s
  · obtain ⟨s, rfl⟩ := hs
    simp only [flatEntry, List.mem_singleton, Prod.mk.injEq]
    constructor
    · rintro ⟨rfl, rfl⟩
      exact ⟨[], rfl, _, .here _, rfl⟩
    · rintro ⟨p', rfl, x, hx, he⟩
      cases hx
      exact ⟨rfl, he⟩
  · push Not at hs
    have hfe : flatEntry k v = if (flat v).isEmpty then [([k], none)] else (flat v).map fun p => (k :: p.1, p.2) := by
      cases v with
      | scalar s => exact absurd rfl (hs s)
      | group _ => rfl
      | list _ _ => rfl
    rw [hfe]
    split_ifs with he
    · simp only [List.mem_singleton, Prod.mk.injEq]
      constructor
      · rintro ⟨rfl, rfl⟩
        exact ⟨[], rfl, v, .here _, (flat_isEmpty hs).1 he⟩
      · rintro ⟨p', rfl, x, hx, hxo⟩
        have hp : p' = [] := by
          by_contra hp
          have := (ih p' o).2 ⟨hp, x, hx, hxo⟩
          rw [List.isEmpty_iff.1 he] at this
          cases this
        subst hp
        cases hx
        refine ⟨rfl, ?_⟩
        have := (flat_isEmpty hs).1 he
        cases v with
        | scalar s => exact absurd rfl (hs s)
        | group fs => cases fs <;> simp_all [Entry]
        | list a xs => cases xs <;> simp_all [Entry]
    · simp only [List.mem_map, Prod.mk.injEq, Prod.exists]
      constructor
      · rintro ⟨p', o', hm, rfl, rfl⟩
        exact ⟨p', rfl, ((ih p' o').1 hm).2⟩
      · rintro ⟨p', rfl, x, hx, hxo⟩
        refine ⟨p', o, (ih p' o).2 ⟨?_, x, hx, hxo⟩, rfl, rfl⟩
        rintro rfl
        cases hx
        apply he
        rw [flat_isEmpty hs]
        cases v with
        | scalar s => exact absurd rfl (hs s)
        | group fs => cases fs <;> simp_all [Entry]
        | list a xs => cases xs <;> simp_all [Entry]

/-- C50: the flat dictionary holds exactly the scalars of the configuration under the paths they are found at, and
`None` for empty groups and lists. -/
theorem C50_flat {v : Value} (ha : Arrays v) (p : List Comp) (o : Option Value) :
    (p, o) ∈ flat v ↔ p ≠ [] ∧ ∃ x, At v p x ∧ Entry x o := by
  induction ha generalizing p o with
  | scalar s =>
    simp only [flat, List.not_mem_nil, false_iff, not_and, not_exists]
    intro hp x hx
    cases hx
    exact absurd rfl hp
  | @group fs _ ih =>
    rw [flat_group, List.mem_flatMap]
    constructor
    · rintro ⟨⟨k, v⟩, hm, h⟩
      obtain ⟨p', rfl, x, hx, he⟩ := (flatEntry_iff (ih _ hm) p o).1 h
      exact ⟨by simp, x, .field hm hx, he⟩
    · rintro ⟨hp, x, hx, he⟩
      cases hx with
      | here => exact absurd rfl hp
      | @field _ k w p' _ hm hat =>
        exact ⟨(k, w), hm, (flatEntry_iff (ih _ hm) _ o).2 ⟨p', rfl, x, hat, he⟩⟩
  | @array xs hx =>
    simp only [flat, List.mem_mapIdx, Prod.mk.injEq]
    constructor
    · rintro ⟨i, hi, rfl, rfl⟩
      refine ⟨by simp, xs[i], .item (List.getElem?_eq_some_iff.2 ⟨hi, rfl⟩) (.here _), ?_⟩
      obtain ⟨s, hs⟩ := hx _ (List.getElem_mem hi)
      rw [hs]
      rfl
    · rintro ⟨hp, x, hat, he⟩
      cases hat with
      | here => exact absurd rfl hp
      | @item _ _ i w p' _ hi hat =>
        obtain ⟨hlt, e⟩ := List.getElem?_eq_some_iff.1 hi
        obtain ⟨s, rfl⟩ := hx _ (List.mem_of_getElem? hi)
        cases hat
        exact ⟨i, hlt, rfl, by rw [e]; exact he.symm⟩
  | @list xs _ ih =>
    rw [show flat (.list false xs) = flatItems 0 xs by simp [flat], flatItems_mem]
    constructor
    · rintro ⟨i, v, hi, h⟩
      obtain ⟨p', rfl, x, hx, he⟩ := (flatEntry_iff (ih _ (List.mem_of_getElem? hi)) p o).1 h
      rw [Nat.zero_add]
      exact ⟨by simp, x, .item hi hx, he⟩
    · rintro ⟨hp, x, hx, he⟩
      cases hx with
      | here => exact absurd rfl hp
      | @item _ _ i w p' _ hi hat =>
        refine ⟨i, w, hi, ?_⟩
        rw [Nat.zero_add]
        exact (flatEntry_iff (ih _ (List.mem_of_getElem? hi)) _ o).2 ⟨p', rfl, x, hat, he⟩

theorem at_unique {v : Value} (hv : WF v) {p : List Comp} {x y : Value} (hx : At v p x) (hy : At v p y) : x = y := by
  have h1 := (C50_lookup hv p x).2 hx
  rw [(C50_lookup hv p y).2 hy] at h1
  exact (Option.some.inj h1).symm

theorem entry_unique {x : Value} {o o' : Option Value} (h : Entry x o) (h' : Entry x o') : o = o' := by
  cases x with
  | scalar s => simp_all [Entry]
  | group fs => cases fs <;> simp_all [Entry]
  | list a xs => cases xs <;> simp_all [Entry]

/-- C50: each key of the flat dictionary has one value, which reading the key from the configuration gives. -/
theorem C50_flat_read {v : Value} (hv : WF v) (ha : Arrays v) (p : List Comp) :
    (∀ x, (p, some x) ∈ flat v → Conf.getitem ⟨true, v⟩ p = .ok x) ∧
    (∀ s, p ≠ [] → Conf.getitem ⟨true, v⟩ p = .ok (.scalar s) → (p, some (.scalar s)) ∈ flat v) ∧
    (∀ o o', (p, o) ∈ flat v → (p, o') ∈ flat v → o = o') := by
  refine ⟨fun x h => ?_, fun s hp h => ?_, fun o o' h h' => ?_⟩
  · obtain ⟨hp, y, hy, he⟩ := (C50_flat ha p _).1 h
    rw [(C50_membership hv p).1]
    have : y = x := by
      cases y with
      | scalar s => simp [Entry] at he; exact he.symm
      | group fs => cases fs <;> simp [Entry] at he
      | list a xs => cases xs <;> simp [Entry] at he
    exact this ▸ hy
  · rw [(C50_membership hv p).1] at h
    exact (C50_flat ha p _).2 ⟨hp, _, h, rfl⟩
  · obtain ⟨hp, y, hy, he⟩ := (C50_flat ha p _).1 h
    obtain ⟨_, y', hy', he'⟩ := (C50_flat ha p _).1 h'
    have := at_unique hv hy hy'
    subst this
    exact entry_unique he he'

/-! ## Differences -/

theorem find_flat {d : List (List Comp × Option Value)} (hd : ∀ p o o', (p, o) ∈ d → (p, o') ∈ d → o = o')
    (p : List Comp) (o : Option Value) :
    (d.find? fun q => q.1 = p).map Prod.snd = some o ↔ (p, o) ∈ d := by
  constructor
  · intro h
    rw [Option.map_eq_some_iff] at h
    obtain ⟨q, hq, rfl⟩ := h
    have h1 := List.mem_of_find?_eq_some hq
    have h2 := List.find?_some hq
    simp only [decide_eq_true_eq] at h2
    subst h2
    exact h1
  · intro h
    cases hf : d.find? fun q => q.1 = p with
    | none =>
      rw [List.find?_eq_none] at hf
      exact absurd (by simp) (hf _ h)
    | some q =>
      have h1 := List.mem_of_find?_eq_some hf
      have h2 := List.find?_some hf
      simp only [decide_eq_true_eq] at h2
      subst h2
      rw [Option.map_some, hd _ _ _ h1 h]

theorem find_flat_none {d : List (List Comp × Option Value)} (p : List Comp) :
    (d.find? fun q => q.1 = p).map Prod.snd = none ↔ ∀ o, (p, o) ∉ d := by
  rw [Option.map_eq_none_iff, List.find?_eq_none]
  constructor
  · intro h o hm
    exact absurd (by simp) (h _ hm)
  · rintro h ⟨q, o⟩ hm
    simp only [decide_eq_true_eq]
    rintro rfl
    exact h o hm

/-- C50: the differences are exactly the keys that only one of the flat dictionaries has, with the value there, and the
keys both have with values that differ, with both values. -/
theorem C50_differences (ne : Option Value → Option Value → Bool) {v w : Value} (hv : WF v) (hw : WF w)
    (av : Arrays v) (aw : Arrays w) (p : List Comp) (x y : Option (Option Value)) :
    (p, x, y) ∈ differences ne v w ↔
      (∃ o, x = some o ∧ y = none ∧ (p, o) ∈ flat v ∧ ∀ o', (p, o') ∉ flat w) ∨
      (∃ o, x = none ∧ y = some o ∧ (p, o) ∈ flat w ∧ ∀ o', (p, o') ∉ flat v) ∨
      (∃ o o', x = some o ∧ y = some o' ∧ (p, o) ∈ flat v ∧ (p, o') ∈ flat w ∧ ne o o' = true) := by
  have uv : ∀ p o o', (p, o) ∈ flat v → (p, o') ∈ flat v → o = o' := fun p => (C50_flat_read hv av p).2.2
  have uw : ∀ p o o', (p, o) ∈ flat w → (p, o') ∈ flat w → o = o' := fun p => (C50_flat_read hw aw p).2.2
  unfold differences
  simp only [List.mem_append, List.mem_filterMap]
  constructor
  · rintro (⟨⟨q, o⟩, hm, h⟩ | ⟨⟨q, o⟩, hm, h⟩)
    · simp only at h
      cases hf : ((flat w).find? fun r => r.1 = q).map Prod.snd with
      | none =>
        rw [hf] at h
        simp only [Option.some.injEq, Prod.mk.injEq] at h
        obtain ⟨rfl, rfl, rfl⟩ := h
        exact Or.inl ⟨o, rfl, rfl, hm, (find_flat_none q).1 hf⟩
      | some o' =>
        rw [hf] at h
        simp only at h
        split_ifs at h with hne
        simp only [Option.some.injEq, Prod.mk.injEq] at h
        obtain ⟨rfl, rfl, rfl⟩ := h
        exact Or.inr (Or.inr ⟨o, o', rfl, rfl, hm, (find_flat uw q o').1 hf, hne⟩)
    · simp only at h
      cases hf : ((flat v).find? fun r => r.1 = q).map Prod.snd with
      | none =>
        rw [hf] at h
        simp only [Option.some.injEq, Prod.mk.injEq] at h
        obtain ⟨rfl, rfl, rfl⟩ := h
        exact Or.inr (Or.inl ⟨o, rfl, rfl, hm, (find_flat_none q).1 hf⟩)
      | some o' => rw [hf] at h; cases h
  · rintro (⟨o, rfl, rfl, h1, h2⟩ | ⟨o, rfl, rfl, h1, h2⟩ | ⟨o, o', rfl, rfl, h1, h2, h3⟩)
    · exact Or.inl ⟨(p, o), h1, by simp only [(find_flat_none p).2 h2]⟩
    · exact Or.inr ⟨(p, o), h1, by simp only [(find_flat_none p).2 h2]⟩
    · exact Or.inl ⟨(p, o), h1, by simp only [(find_flat uw p o').2 h2, if_pos h3]⟩

end OpenMPCD.Config
