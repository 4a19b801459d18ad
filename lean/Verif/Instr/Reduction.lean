import Verif.Collide.Drift
import Mathlib.Data.List.Range
import Mathlib.Tactic.Ring
import Mathlib.Tactic.Linarith
import Mathlib.Tactic.Positivity
import Mathlib.Tactic.NormNum

/-!
# Velocity autocorrelations, added up in parallel with rounding

The graphics card adds the products of velocity components in an order that is not specified, and each operation rounds.
-/

set_option linter.unusedSectionVars false
set_option linter.unusedSimpArgs false
set_option linter.unusedVariables false

namespace OpenMPCD.Instr.Reduction

open OpenMPCD.Collide.Rounded OpenMPCD.Decimal

/-! ## Model -/

/-- A way to compute an inner product: which intermediate results are added to which. `fused i t` is the product with number
`i` added to the result of `t` with one rounding, as compilers may do. -/
inductive Way
  | init
  | product (i : ℕ)
  | add (l r : Way)
  | fused (i : ℕ) (t : Way)

/-- The products added. -/
def Way.products : Way → List ℕ
  | .init => []
  | .product i => [i]
  | .add l r => l.products ++ r.products
  | .fused i t => i :: t.products

/-- How often the initial value is added. -/
def Way.inits : Way → ℕ
  | .init => 1
  | .product _ => 0
  | .add l r => l.inits + r.inits
  | .fused _ t => t.inits

/-- `thrust::inner_product` (as called in
`src/OpenMPCD/CUDA/MPCFluid/Instrumentation/VelocityAutocorrelation/Base.cu:182-187` and `265-270`), with the initial value 0: its
documentation leaves the order of the additions open, so it is a parameter. The result of each operation is rounded. -/
noncomputable def innerProduct (rnd : ℝ → ℝ) (a b : ℕ → ℝ) : Way → ℝ
  | .init => 0
  | .product i => rnd (a i * b i)
  | .add l r => rnd (innerProduct rnd a b l + innerProduct rnd a b r)
  | .fused i t => rnd (a i * b i + innerProduct rnd a b t)

/-- The ways to add `n` products to the initial value: each product once, and the initial value at most once (it need not be
added to anything, being 0). -/
def Way.Complete (n : ℕ) (t : Way) : Prop := t.products.Perm (List.range n) ∧ t.inits ≤ 1

/-- The result of `measureWithSnapshot` (`src/OpenMPCD/CUDA/MPCFluid/Instrumentation/VelocityAutocorrelation/Base.cu:182-192`),
with the three components of the velocities of `numberOfConstituents` constituents in a row. The conversion of the number of
constituents to a floating-point number rounds, too. -/
noncomputable def autocorrelation (rnd : ℝ → ℝ) (numberOfConstituents : ℕ) (snapshot current : ℕ → ℝ) (way : Way) : ℝ :=
  rnd (innerProduct rnd snapshot current way / rnd numberOfConstituents)

/-- The loop of `getCorrelationForSnapshot_CPU_naive`
(`src/OpenMPCD/CUDA/MPCFluid/Instrumentation/VelocityAutocorrelation/Base.cu:234-236`), with `fused i` telling whether the
compiler has combined multiplication and addition. -/
noncomputable def naiveSum (rnd : ℝ → ℝ) (fused : ℕ → Bool) (current snap : ℕ → ℝ) : ℕ → ℝ
  | 0 => 0
  | i + 1 =>
    if fused i then rnd (current i * snap i + naiveSum rnd fused current snap i)
    else rnd (naiveSum rnd fused current snap i + rnd (current i * snap i))

/-- `getCorrelationForSnapshot_CPU_naive`
(`src/OpenMPCD/CUDA/MPCFluid/Instrumentation/VelocityAutocorrelation/Base.cu:213-242`): the value returned. -/
noncomputable def naive (rnd : ℝ → ℝ) (fused : ℕ → Bool) (numberOfConstituents : ℕ) (snapshot current : ℕ → ℝ) : ℝ :=
  rnd (naiveSum rnd fused current snapshot (3 * numberOfConstituents) / rnd numberOfConstituents)

/-- The check in debug mode (`src/OpenMPCD/CUDA/MPCFluid/Instrumentation/VelocityAutocorrelation/Base.cu:194-210`): whether an
exception is thrown. `gpu` and `host` are the ways in which the two calls of `thrust::inner_product` add. -/
def Throws (rnd : ℝ → ℝ) (fused : ℕ → Bool) (numberOfConstituents : ℕ) (snapshot current : ℕ → ℝ) (gpu host : Way) : Prop :=
  rnd (1 / 10 ^ 8) < |rnd (autocorrelation rnd numberOfConstituents snapshot current gpu -
      naive rnd fused numberOfConstituents snapshot current)| ∨
    rnd (1 / 10 ^ 8) < |rnd (autocorrelation rnd numberOfConstituents snapshot current gpu -
      autocorrelation rnd numberOfConstituents snapshot current host)|

/-- How memory has been obtained, and is to be given back. -/
inductive Kind
  | single
  | array
  deriving DecidableEq

/-- What a function does with the heap: `new`, and `delete` of the block obtained by the `i`th `new`. -/
inductive HeapOp
  | new (k : Kind)
  | delete (i : ℕ) (k : Kind)

/-- Executes such operations; `none` if the behaviour is undefined, i.e. if a block is given back that has not been obtained, has
been given back already, or is given back by the operator for the other kind of blocks. -/
def runHeap : List (Option Kind) → List HeapOp → Option (List (Option Kind))
  | blocks, [] => some blocks
  | blocks, .new k :: ops => runHeap (blocks ++ [some k]) ops
  | blocks, .delete i k :: ops => if blocks[i]? = some (some k) then runHeap (blocks.set i none) ops else none

/-- What `getCorrelationForSnapshot_CPU_naive` and `getCorrelationForSnapshot_CPU_thrust` do with the heap
(`src/OpenMPCD/CUDA/MPCFluid/Instrumentation/VelocityAutocorrelation/Base.cu:215-216,238-239` and `246-247,272-273`): two times
`new[]`, two times `delete`. -/
def correlationHeap : List HeapOp := [.new .array, .new .array, .delete 0 .single, .delete 1 .single]

/-! ## Specification -/

/-- The velocity autocorrelation: the average over the constituents of the scalar products. -/
noncomputable def mean (N : ℕ) (a b : ℕ → ℝ) : ℝ := ((List.range (3 * N)).map fun i => a i * b i).sum / N

/-- The average over the constituents of the magnitudes of the products. -/
noncomputable def size (N : ℕ) (a b : ℕ → ℝ) : ℝ := ((List.range (3 * N)).map fun i => |a i * b i|).sum / N

/-- The error allowed: relative to the magnitudes, the accuracy of the numbers for each of the operations that a product may
undergo; and what may be lost since there is a smallest positive number. -/
noncomputable def allowed (p : ℕ) (emin : ℤ) (N : ℕ) (a b : ℕ → ℝ) : ℝ :=
  ((1 + 2 ^ (-(p : ℤ))) ^ (3 * N + 2) - 1) * size N a b + (6 * N + 1) * (1 + 2 ^ (-(p : ℤ))) ^ (3 * N + 2) * 2 ^ emin

/-- No overflow. -/
def Moderate (p : ℕ) (emin emax : ℤ) (N : ℕ) (a b : ℕ → ℝ) : Prop :=
  (1 + 2 ^ (-(p : ℤ))) ^ (3 * N + 2) * (N * size N a b + (6 * N + 1) * 2 ^ emin) < 2 ^ emax

/-! ## Proofs -/

namespace Way

/-- The greatest number of roundings a product undergoes. -/
def depth : Way → ℕ
  | .init => 0
  | .product _ => 1
  | .add l r => max l.depth r.depth + 1
  | .fused _ t => t.depth + 1

/-- The number of roundings. -/
def ops : Way → ℕ
  | .init => 0
  | .product _ => 1
  | .add l r => l.ops + r.ops + 1
  | .fused _ t => t.ops + 1

theorem leaves_pos (t : Way) : 1 ≤ t.products.length + t.inits := by
  induction t with
  | init => simp [products, inits]
  | product i => simp [products, inits]
  | add l r hl hr => simp [products, inits]; omega
  | fused i t ih => simp [products, inits]; omega

theorem depth_le (t : Way) : t.depth ≤ t.products.length + t.inits := by
  induction t with
  | init => simp [depth]
  | product i => simp [depth, products, inits]
  | add l r hl hr =>
    have := leaves_pos l; have := leaves_pos r
    simp only [depth, products, inits, List.length_append]
    rcases max_cases l.depth r.depth with h | h <;> omega
  | fused i t ih => simp only [depth, products, inits, List.length_cons]; omega

theorem ops_le (t : Way) : t.ops + 1 ≤ 2 * t.products.length + t.inits := by
  induction t with
  | init => simp [ops, products, inits]
  | product i => simp [ops, products, inits]
  | add l r hl hr => simp only [ops, products, inits, List.length_append]; omega
  | fused i t ih => simp only [ops, products, inits, List.length_cons]; omega

end Way

section error
variable {rnd : ℝ → ℝ} {u η B : ℝ}

/-- The exact sum over some products. -/
noncomputable def exact (a b : ℕ → ℝ) (l : List ℕ) : ℝ := (l.map fun i => a i * b i).sum

/-- The sum of their magnitudes. -/
noncomputable def magnitude (a b : ℕ → ℝ) (l : List ℕ) : ℝ := (l.map fun i => |a i * b i|).sum

theorem magnitude_nonneg (a b : ℕ → ℝ) (l : List ℕ) : 0 ≤ magnitude a b l :=
  List.sum_nonneg (by intro x hx; obtain ⟨i, -, rfl⟩ := List.mem_map.1 hx; exact abs_nonneg _)

theorem exact_le (a b : ℕ → ℝ) (l : List ℕ) : |exact a b l| ≤ magnitude a b l := by
  induction l with
  | nil => simp [exact, magnitude]
  | cons i l ih =>
    simp only [exact, magnitude, List.map_cons, List.sum_cons] at *
    exact (abs_add_le _ _).trans (by linarith)

/-- One more operation. -/
theorem step_error (hu : 0 ≤ u) (hη : 0 ≤ η) (hR : ∀ x, |x| ≤ B → |rnd x - x| ≤ u * |x| + η) {x y A : ℝ} {k d : ℕ}
    (hA : |y| ≤ A) (hx : |x - y| ≤ ((1 + u) ^ d - 1) * A + η * k * (1 + u) ^ d) (hB : (1 + u) ^ d * (A + η * k) ≤ B) :
    |rnd x - y| ≤ ((1 + u) ^ (d + 1) - 1) * A + η * (k + 1) * (1 + u) ^ (d + 1) := by
  have hA0 : 0 ≤ A := (abs_nonneg _).trans hA
  have hU : 1 ≤ (1 + u) ^ d := one_le_pow₀ (by linarith)
  have hU' : 1 ≤ (1 + u) ^ (d + 1) := one_le_pow₀ (by linarith)
  have h1 : |x| ≤ (1 + u) ^ d * (A + η * k) := by
    have := abs_sub_abs_le_abs_sub x y
    nlinarith
  have h2 := hR x (h1.trans hB)
  have h3 : |rnd x - y| ≤ |rnd x - x| + |x - y| := abs_sub_le _ _ _
  have h4 := mul_le_mul_of_nonneg_left h1 hu
  have h5 : η ≤ η * (1 + u) ^ (d + 1) := le_mul_of_one_le_right hη hU'
  have e1 : (1 + u) ^ (d + 1) = (1 + u) ^ d * (1 + u) := pow_succ _ _
  calc |rnd x - y| ≤ u * ((1 + u) ^ d * (A + η * k)) + η + (((1 + u) ^ d - 1) * A + η * k * (1 + u) ^ d) := by linarith
    _ ≤ u * ((1 + u) ^ d * (A + η * k)) + η * (1 + u) ^ (d + 1) + (((1 + u) ^ d - 1) * A + η * k * (1 + u) ^ d) := by linarith
    _ = _ := by rw [e1]; ring

theorem weaken (hu : 0 ≤ u) (hη : 0 ≤ η) {A e : ℝ} {k d d' : ℕ} (hA : 0 ≤ A) (hd : d ≤ d')
    (h : e ≤ ((1 + u) ^ d - 1) * A + η * k * (1 + u) ^ d) : e ≤ ((1 + u) ^ d' - 1) * A + η * k * (1 + u) ^ d' := by
  have hU : (1 + u) ^ d ≤ (1 + u) ^ d' := pow_le_pow_right₀ (by linarith) hd
  have h1 := mul_le_mul_of_nonneg_right (sub_le_sub_right hU 1) hA
  have h2 := mul_le_mul_of_nonneg_left hU (show 0 ≤ η * k by positivity)
  linarith

/-- The error of a sum of products, in whatever order they are added. -/
theorem way_error (hu : 0 ≤ u) (hη : 0 ≤ η) (hR : ∀ x, |x| ≤ B → |rnd x - x| ≤ u * |x| + η) (a b : ℕ → ℝ) (t : Way)
    (hB : (1 + u) ^ t.depth * (magnitude a b t.products + η * t.ops) ≤ B) :
    |innerProduct rnd a b t - exact a b t.products| ≤
      ((1 + u) ^ t.depth - 1) * magnitude a b t.products + η * t.ops * (1 + u) ^ t.depth := by
  induction t with
  | init => simp [innerProduct, exact, Way.products, Way.ops, Way.depth]
  | product i =>
    have := step_error (x := a i * b i) (y := a i * b i) (A := |a i * b i|) (k := 0) (d := 0) hu hη hR le_rfl (by simp) (by
      simp only [Way.depth, Way.products, magnitude, Way.ops, List.map_cons, List.map_nil, List.sum_cons, List.sum_nil] at hB
      have : 0 ≤ |a i * b i| := abs_nonneg _
      refine le_trans ?_ hB
      simp only [pow_zero, pow_one, Nat.cast_zero, Nat.cast_one]
      nlinarith)
    simpa [innerProduct, exact, magnitude, Way.products, Way.ops, Way.depth] using this
  | add l r hl hr =>
    have mag : magnitude a b (l.products ++ r.products) = magnitude a b l.products + magnitude a b r.products := by
      simp [magnitude]
    have ex : exact a b (l.products ++ r.products) = exact a b l.products + exact a b r.products := by simp [exact]
    have ml := magnitude_nonneg a b l.products
    have mr := magnitude_nonneg a b r.products
    simp only [Way.depth, Way.products, Way.ops, innerProduct, mag, ex] at hB ⊢
    set d := max l.depth r.depth with hd
    have dl : l.depth ≤ d := le_max_left _ _
    have dr : r.depth ≤ d := le_max_right _ _
    have pl : (1 + u) ^ l.depth ≤ (1 + u) ^ (d + 1) := pow_le_pow_right₀ (by linarith) (by omega)
    have pr : (1 + u) ^ r.depth ≤ (1 + u) ^ (d + 1) := pow_le_pow_right₀ (by linarith) (by omega)
    have pd : (1 + u) ^ d ≤ (1 + u) ^ (d + 1) := pow_le_pow_right₀ (by linarith) (by omega)
    have p0 : 0 ≤ (1 + u) ^ (d + 1) := by positivity
    have kl : 0 ≤ η * (l.ops : ℝ) := by positivity
    have kr : 0 ≤ η * (r.ops : ℝ) := by positivity
    push_cast at hB ⊢
    have bound : ∀ {q m k : ℝ}, q ≤ (1 + u) ^ (d + 1) → 0 ≤ m → 0 ≤ k →
        m + k ≤ magnitude a b l.products + magnitude a b r.products + η * (l.ops + r.ops + 1) → q * (m + k) ≤ B :=
      fun hq hm hk hle => (mul_le_mul hq hle (by linarith) p0).trans hB
    have il := weaken hu hη ml dl (hl (bound pl ml kl (by nlinarith)))
    have ir := weaken hu hη mr dr (hr (bound pr mr kr (by nlinarith)))
    have := step_error (x := innerProduct rnd a b l + innerProduct rnd a b r) (y := exact a b l.products + exact a b r.products)
      (A := magnitude a b l.products + magnitude a b r.products) (k := l.ops + r.ops) (d := d) hu hη hR
      ((abs_add_le _ _).trans (add_le_add (exact_le _ _ _) (exact_le _ _ _))) (by
        have e : innerProduct rnd a b l + innerProduct rnd a b r - (exact a b l.products + exact a b r.products) =
          (innerProduct rnd a b l - exact a b l.products) + (innerProduct rnd a b r - exact a b r.products) := by ring
        rw [e]
        refine (abs_add_le _ _).trans ((add_le_add il ir).trans (le_of_eq ?_))
        push_cast; ring)
      (by push_cast; exact bound pd (by linarith) (by nlinarith) (by nlinarith))
    push_cast at this
    exact this
  | fused i t ih =>
    have mag : magnitude a b (i :: t.products) = |a i * b i| + magnitude a b t.products := by simp [magnitude]
    have ex : exact a b (i :: t.products) = a i * b i + exact a b t.products := by simp [exact]
    have mt := magnitude_nonneg a b t.products
    have m0 : 0 ≤ |a i * b i| := abs_nonneg _
    simp only [Way.depth, Way.products, Way.ops, innerProduct, mag, ex] at hB ⊢
    have pd : (1 + u) ^ t.depth ≤ (1 + u) ^ (t.depth + 1) := pow_le_pow_right₀ (by linarith) (by omega)
    have p1 : 1 ≤ (1 + u) ^ t.depth := one_le_pow₀ (by linarith)
    have p0 : 0 ≤ (1 + u) ^ (t.depth + 1) := by positivity
    have k0 : 0 ≤ η * (t.ops : ℝ) := by positivity
    push_cast at hB ⊢
    have it := ih ((mul_le_mul pd (by nlinarith) (by linarith) p0).trans hB)
    have := step_error (x := a i * b i + innerProduct rnd a b t) (y := a i * b i + exact a b t.products)
      (A := |a i * b i| + magnitude a b t.products) (k := t.ops) (d := t.depth) hu hη hR
      ((abs_add_le _ _).trans (by linarith [exact_le a b t.products])) (by
        rw [add_sub_add_left_eq_sub]
        refine it.trans ?_
        have : 0 ≤ ((1 + u) ^ t.depth - 1) * |a i * b i| := mul_nonneg (by linarith) m0
        linarith)
      ((mul_le_mul pd (by nlinarith) (by nlinarith) p0).trans hB)
    exact this

end error

/-- The loop on the host adds in one of the ways considered. -/
def combWay (fused : ℕ → Bool) : ℕ → Way
  | 0 => .init
  | i + 1 => if fused i then .fused i (combWay fused i) else .add (combWay fused i) (.product i)

theorem naiveSum_eq (rnd : ℝ → ℝ) (fused : ℕ → Bool) (current snap : ℕ → ℝ) (n : ℕ) :
    naiveSum rnd fused current snap n = innerProduct rnd snap current (combWay fused n) := by
  induction n with
  | zero => rfl
  | succ n ih =>
    simp only [naiveSum, combWay]
    split <;> simp [innerProduct, ih, mul_comm]

theorem combWay_complete (fused : ℕ → Bool) (n : ℕ) : (combWay fused n).Complete n := by
  induction n with
  | zero => exact ⟨List.Perm.refl _, le_rfl⟩
  | succ n ih =>
    simp only [combWay]
    rw [Way.Complete, List.range_succ]
    split
    · exact ⟨(ih.1.cons n).trans (List.perm_append_singleton n _).symm, ih.2⟩
    · exact ⟨ih.1.append_right [n], by simpa [Way.inits] using ih.2⟩

section rounding
variable {p : ℕ} {emin emax : ℤ} {rnd : ℝ → ℝ}

/-- The velocity autocorrelation recorded is the average of the scalar products, up to rounding, in whatever order the graphics
card adds, and whether or not multiplications and additions are combined. -/
theorem C138_accurate (hp : 0 < p) (h0 : emin ≤ 0) (hem : emin + p ≤ emax) (hpe : (p : ℤ) ≤ emax) (hr : IsRounding p emin emax rnd)
    {N : ℕ} (hN : 0 < N) (hN' : N ≤ 2 ^ p) {snapshot current : ℕ → ℝ} (hm : Moderate p emin emax N snapshot current) {way : Way}
    (hw : way.Complete (3 * N)) :
    |autocorrelation rnd N snapshot current way - mean N snapshot current| ≤ allowed p emin N snapshot current := by
  set a := snapshot
  set b := current
  set u : ℝ := 2 ^ (-(p : ℤ)) with hu
  set η : ℝ := 2 ^ emin with hη
  have u0 : 0 ≤ u := (two_zpow_pos _).le
  have η0 : 0 ≤ η := (two_zpow_pos _).le
  have hNr : (0 : ℝ) < N := by exact_mod_cast hN
  have hN1 : (1 : ℝ) ≤ N := by exact_mod_cast hN
  have fix : rnd (N : ℝ) = N := hr.eq_self (by
    have := int_mem (p := p) (emin := emin) (emax := emax) h0 hp hpe (n := N) (by
      rw [abs_of_nonneg (by positivity)]; exact_mod_cast hN')
    exact_mod_cast this)
  set B : ℝ := (1 + u) ^ (3 * N + 2) * (N * size N a b + (6 * N + 1) * η) with hBdef
  have hR : ∀ x, |x| ≤ B → |rnd x - x| ≤ u * |x| + η := fun x hx =>
    OpenMPCD.Collide.Drift.rounding_error hp hem hr (lt_of_le_of_lt hx hm)
  have hlen : way.products.length = 3 * N := by rw [hw.1.length_eq, List.length_range]
  have hd : way.depth ≤ 3 * N + 1 := way.depth_le.trans (by have := hw.2; omega)
  have ho : way.ops ≤ 6 * N := by have := way.ops_le; have := hw.2; omega
  have hmag : magnitude a b way.products = N * size N a b := by
    rw [magnitude, (hw.1.map _).sum_eq, size]; field_simp
  have hex : exact a b way.products = N * mean N a b := by
    rw [exact, (hw.1.map _).sum_eq, mean]; field_simp
  have s0 : 0 ≤ size N a b := by
    have := magnitude_nonneg a b way.products
    rw [hmag] at this
    exact nonneg_of_mul_nonneg_right this hNr
  have hor : (way.ops : ℝ) ≤ 6 * N := by exact_mod_cast ho
  have pw : ∀ {d}, d ≤ 3 * N + 2 → (1 + u) ^ d ≤ (1 + u) ^ (3 * N + 2) := fun h => pow_le_pow_right₀ (by linarith) h
  have p0 : 0 ≤ (1 + u) ^ (3 * N + 2) := by positivity
  have k0 : 0 ≤ η * (way.ops : ℝ) := by positivity
  have kle : η * (way.ops : ℝ) ≤ η * (6 * N) := mul_le_mul_of_nonneg_left hor η0
  have ns0 : 0 ≤ N * size N a b := by positivity
  have h1 := way_error (rnd := rnd) (B := B) u0 η0 hR a b way (by
    rw [hmag]
    exact mul_le_mul (pw (by omega)) (by linarith) (by linarith) p0)
  rw [hmag, hex] at h1
  have h2 := weaken u0 η0 ns0 hd h1
  have h3 : |innerProduct rnd a b way / N - mean N a b| ≤
      ((1 + u) ^ (3 * N + 1) - 1) * size N a b + η * way.ops * (1 + u) ^ (3 * N + 1) := by
    have e : innerProduct rnd a b way / N - mean N a b = (innerProduct rnd a b way - N * mean N a b) / N := by field_simp
    rw [e, abs_div, abs_of_pos hNr, div_le_iff₀ hNr]
    refine h2.trans ?_
    have : 0 ≤ η * way.ops * (1 + u) ^ (3 * N + 1) := by positivity
    nlinarith
  have hmean : |mean N a b| ≤ size N a b := by
    have := exact_le a b way.products
    rw [hex, hmag, abs_mul, abs_of_pos hNr] at this
    exact le_of_mul_le_mul_left this hNr
  have h4 := step_error (rnd := rnd) (B := B) (d := 3 * N + 1) u0 η0 hR hmean h3 (by
    refine mul_le_mul (pw (by omega)) ?_ (by linarith) p0
    have := le_mul_of_one_le_left s0 hN1
    linarith)
  rw [autocorrelation, fix]
  refine h4.trans ?_
  have h5 : η * ((way.ops : ℝ) + 1) * (1 + u) ^ (3 * N + 2) ≤ (6 * N + 1) * (1 + u) ^ (3 * N + 2) * η := by
    have : η * ((way.ops : ℝ) + 1) ≤ η * (6 * N + 1) := mul_le_mul_of_nonneg_left (by linarith) η0
    nlinarith
  simp only [allowed]
  linarith

/-- The loop on the host computes one of these results. -/
theorem C138_host (rnd : ℝ → ℝ) (fused : ℕ → Bool) (N : ℕ) (snapshot current : ℕ → ℝ) :
    ∃ way : Way, way.Complete (3 * N) ∧ naive rnd fused N snapshot current = autocorrelation rnd N snapshot current way :=
  ⟨combWay fused (3 * N), combWay_complete _ _, by rw [naive, naiveSum_eq, autocorrelation]⟩

/-- Two computations, on whatever device, differ by no more than twice the error allowed. -/
theorem C138_agree (hp : 0 < p) (h0 : emin ≤ 0) (hem : emin + p ≤ emax) (hpe : (p : ℤ) ≤ emax) (hr : IsRounding p emin emax rnd)
    {N : ℕ} (hN : 0 < N) (hN' : N ≤ 2 ^ p) {snapshot current : ℕ → ℝ} (hm : Moderate p emin emax N snapshot current)
    {way way' : Way} (hw : way.Complete (3 * N)) (hw' : way'.Complete (3 * N)) :
    |autocorrelation rnd N snapshot current way - autocorrelation rnd N snapshot current way'| ≤
      2 * allowed p emin N snapshot current := by
  have h1 := C138_accurate hp h0 hem hpe hr hN hN' hm hw
  have h2 := C138_accurate hp h0 hem hpe hr hN hN' hm hw'
  have := abs_sub_le (autocorrelation rnd N snapshot current way) (mean N snapshot current)
    (autocorrelation rnd N snapshot current way')
  rw [abs_sub_comm (mean N snapshot current)] at this
  linarith

/-- The check in debug mode does not throw as long as the error allowed is below half of the tolerance. -/
theorem C138_check_partial (hp : 0 < p) (h0 : emin ≤ 0) (hem : emin + p ≤ emax) (hpe : (p : ℤ) ≤ emax)
    (hr : IsRounding p emin emax rnd) {N : ℕ} (hN : 0 < N) (hN' : N ≤ 2 ^ p) {snapshot current : ℕ → ℝ}
    (hm : Moderate p emin emax N snapshot current) (hs : 2 * allowed p emin N snapshot current ≤ rnd (1 / 10 ^ 8))
    (fused : ℕ → Bool) {gpu host : Way} (hg : gpu.Complete (3 * N)) (hh : host.Complete (3 * N)) :
    ¬ Throws rnd fused N snapshot current gpu host := by
  have zero : rnd 0 = 0 := hr.eq_self (zero_mem (by omega))
  have key : ∀ x : ℝ, |x| ≤ rnd (1 / 10 ^ 8) → |rnd x| ≤ rnd (1 / 10 ^ 8) := fun x hx => by
    obtain ⟨h1, h2⟩ := abs_le.1 hx
    refine abs_le.2 ⟨?_, hr.le_of_le (hr.mem _) h2⟩
    exact hr.ge_of_ge (neg_mem (hr.mem _)) h1
  obtain ⟨w, hw, e⟩ := C138_host rnd fused N snapshot current
  rintro (h | h)
  · rw [e] at h
    exact absurd (key _ ((C138_agree hp h0 hem hpe hr hN hN' hm hg hw).trans hs)) (not_le.2 h)
  · exact absurd (key _ ((C138_agree hp h0 hem hpe hr hN hN' hm hg hh).trans hs)) (not_le.2 h)
where
  neg_mem {x : ℝ} (h : x ∈ Bin p emin emax) : -x ∈ Bin p emin emax := by
    obtain ⟨m, e, hm, h1, h2, rfl⟩ := h
    exact ⟨-m, e, by rwa [abs_neg], h1, h2, by push_cast; ring⟩

/-- Numbers close enough to others are rounded down to them. -/
theorem absorbed (hr : IsRounding p emin emax rnd) {x y : ℝ} (hy : y ∈ Bin p emin emax)
    (h : ∀ w ∈ Bin p emin emax, w ≠ y → |x - y| < |x - w|) : rnd x = y := by
  by_contra hne
  exact absurd ((hr x).2 y hy) (not_le.2 (h _ (hr.mem x) hne))

end rounding

section double
variable {rnd : ℝ → ℝ} (hr : IsRounding 53 (-1074) 971 rnd)
include hr

theorem tolerance : 9 / 10 ^ 9 ≤ rnd (1 / 10 ^ 8) := by
  have h := OpenMPCD.Collide.Drift.rounding_error (by norm_num) (by norm_num) hr (x := 1 / 10 ^ 8) (by
    rw [abs_of_pos (by positivity)]
    calc (1 / 10 ^ 8 : ℝ) < 2 ^ (0 : ℤ) := by norm_num
      _ ≤ 2 ^ (971 : ℤ) := zpow_le_zpow_right₀ (by norm_num) (by norm_num))
  have h1 : (2 : ℝ) ^ (-1074 : ℤ) ≤ 2 ^ (-53 : ℤ) := zpow_le_zpow_right₀ (by norm_num) (by norm_num)
  have h2 := (abs_le.1 h).1
  rw [abs_of_pos (by positivity : (0 : ℝ) < 1 / 10 ^ 8)] at h2
  norm_num at h1 h2 ⊢
  linarith

/-- `(1 + u) ^ n` is close to one. -/
theorem pow_close {u : ℝ} (hu : 0 ≤ u) (n : ℕ) (h : n * u ≤ 1 / 2) : (1 + u) ^ n ≤ 1 + 2 * (n * u) := by
  induction n with
  | zero => simp
  | succ n ih =>
    push_cast at h ⊢
    have := ih (by nlinarith)
    rw [pow_succ]
    have h1 := mul_le_mul_of_nonneg_right this (by linarith : 0 ≤ 1 + u)
    have : (n : ℝ) * u * u ≤ 1 / 2 * u := mul_le_mul_of_nonneg_right (by nlinarith) hu
    nlinarith

/-- With double precision, up to a million constituents, and components of velocities of magnitude up to 1, the check never
throws. -/
theorem C138_ordinary {N : ℕ} (hN : 0 < N) (hN' : N ≤ 10 ^ 6) {snapshot current : ℕ → ℝ} (hs : ∀ i, |snapshot i| ≤ 1)
    (hc : ∀ i, |current i| ≤ 1) (fused : ℕ → Bool) {gpu host : Way} (hg : gpu.Complete (3 * N)) (hh : host.Complete (3 * N)) :
    ¬ Throws rnd fused N snapshot current gpu host := by
  have hNr : (0 : ℝ) < N := by exact_mod_cast hN
  have hN6 : (N : ℝ) ≤ 10 ^ 6 := by exact_mod_cast hN'
  have size3 : size N snapshot current ≤ 3 := by
    rw [size, div_le_iff₀ hNr]
    have : ((List.range (3 * N)).map fun i => |snapshot i * current i|).sum ≤ ((List.range (3 * N)).map fun _ => (1 : ℝ)).sum :=
      List.sum_le_sum fun i _ => by
        rw [abs_mul]
        exact mul_le_one₀ (hs i) (abs_nonneg _) (hc i)
    refine this.trans (le_of_eq ?_)
    simp
  have size0 : 0 ≤ size N snapshot current := div_nonneg (magnitude_nonneg _ _ _) hNr.le
  have hu : (2 : ℝ) ^ (-((53 : ℕ) : ℤ)) = 1 / 9007199254740992 := by norm_num
  have hη : (2 : ℝ) ^ (-1074 : ℤ) ≤ 1 / 9007199254740992 / 10 ^ 9 := by
    refine (zpow_le_zpow_right₀ (by norm_num : (1 : ℝ) ≤ 2) (show (-1074 : ℤ) ≤ -100 by norm_num)).trans ?_
    norm_num
  have hη0 : (0 : ℝ) < 2 ^ (-1074 : ℤ) := two_zpow_pos _
  have hpow := pow_close hr (u := (2 : ℝ) ^ (-((53 : ℕ) : ℤ))) (by positivity) (3 * N + 2) (by rw [hu]; push_cast; linarith)
  rw [hu] at hpow
  push_cast at hpow
  have hpow1 : (1 + 1 / 9007199254740992 : ℝ) ^ (3 * N + 2) ≤ 1 + 7 / 10 ^ 10 := hpow.trans (by linarith)
  have hpow0 : (1 : ℝ) ≤ (1 + 1 / 9007199254740992 : ℝ) ^ (3 * N + 2) := one_le_pow₀ (by norm_num)
  have h7 : (6 * (N : ℝ) + 1) * 2 ^ (-1074 : ℤ) ≤ 7 * 10 ^ 6 * (1 / 9007199254740992 / 10 ^ 9) :=
    mul_le_mul (by linarith) hη hη0.le (by norm_num)
  have h70 : 0 ≤ (6 * (N : ℝ) + 1) * 2 ^ (-1074 : ℤ) := by positivity
  refine C138_check_partial (by norm_num) (by norm_num) (by norm_num) (by norm_num) hr hN (hN'.trans (by norm_num)) ?_ ?_ fused hg hh
  · rw [Moderate, hu]
    have h3 : N * size N snapshot current ≤ 10 ^ 6 * 3 := mul_le_mul hN6 size3 size0 (by norm_num)
    have h30 : 0 ≤ N * size N snapshot current := by positivity
    have h4 : (1 + 1 / 9007199254740992 : ℝ) ^ (3 * N + 2) * (N * size N snapshot current + (6 * N + 1) * 2 ^ (-1074 : ℤ)) ≤
        2 * (10 ^ 6 * 3 + 1) := mul_le_mul (hpow1.trans (by norm_num)) (by linarith) (by linarith) (by norm_num)
    refine h4.trans_lt (lt_of_lt_of_le ?_ (zpow_le_zpow_right₀ (by norm_num : (1 : ℝ) ≤ 2) (show (50 : ℤ) ≤ 971 by norm_num)))
    norm_num
  · refine le_trans ?_ (tolerance hr)
    rw [allowed, hu]
    have h3 : ((1 + 1 / 9007199254740992 : ℝ) ^ (3 * N + 2) - 1) * size N snapshot current ≤ 7 / 10 ^ 10 * 3 :=
      mul_le_mul (by linarith) size3 size0 (by norm_num)
    have h4 : (6 * (N : ℝ) + 1) * (1 + 1 / 9007199254740992 : ℝ) ^ (3 * N + 2) * 2 ^ (-1074 : ℤ) ≤
        2 * (7 * 10 ^ 6 * (1 / 9007199254740992 / 10 ^ 9)) := by
      rw [mul_right_comm, mul_comm]
      exact mul_le_mul (hpow1.trans (by norm_num)) h7 h70 (by norm_num)
    norm_num at h3 h4 ⊢
    linarith

/-- The numbers are integers times powers of two. -/
theorem pow_add_one : rnd (2 ^ 54 + 1) = 2 ^ 54 ∧ rnd (1 + 2 ^ 54) = 2 ^ 54 := by
  have mem : ((2 : ℝ) ^ 54) ∈ Bin 53 (-1074) 971 := ⟨2 ^ 52, 2, by norm_num, by norm_num, by norm_num, by norm_num⟩
  have h : rnd (2 ^ 54 + 1) = 2 ^ 54 := by
    refine absorbed hr mem fun w hw hne => ?_
    by_contra hle
    push Not at hle
    have h1 : |(2 : ℝ) ^ 54 + 1 - 2 ^ 54| = 1 := by norm_num
    rw [h1] at hle
    obtain ⟨h2, h3⟩ := abs_le.1 hle
    have hw1 : (2 : ℝ) ^ (54 : ℤ) ≤ |w| := by
      rw [abs_of_nonneg (by norm_num at h3 ⊢; linarith)]
      norm_num at h3 ⊢; linarith
    obtain ⟨m, rfl⟩ := multiple hw hw1
    norm_num at h2 h3 hne
    have k1 : (m : ℝ) ≥ 4503599627370496 := by linarith
    have k2 : (m : ℝ) ≤ 4503599627370496 + 1 / 2 := by linarith
    have k3 : m ≥ 4503599627370496 := by exact_mod_cast k1
    have k4 : (m : ℝ) < 4503599627370497 := by linarith
    have k5 : m < 4503599627370497 := by exact_mod_cast k4
    apply hne
    rw [show m = 4503599627370496 by omega]
    norm_num
  exact ⟨h, by rwa [add_comm]⟩

end double

/-- Velocities of two constituents: `(2 ^ 27, 1, 1)` and `(1, 1, 0)`. -/
def fast : ℕ → ℝ
  | 0 => 2 ^ 27
  | 5 => 0
  | _ => 1

/-- A reduction in parallel: products 1 and 2, 3 and 4, the two results, 5 and the initial value, and finally 0. -/
def balanced : Way :=
  .add (.product 0) (.add (.add (.add (.product 1) (.product 2)) (.add (.product 3) (.product 4))) (.add (.product 5) .init))

theorem balanced_complete : balanced.Complete (3 * 2) := ⟨by decide, by decide⟩

/-- In general, the check throws though all computations have been performed correctly, as the tolerance does not take account of
the magnitude of the velocities: the sum 2 ^ 54 + 4 computed by the graphics card is exact, that computed by the host is 2 ^ 54. -/
theorem C138_check_violated {rnd : ℝ → ℝ} (hr : IsRounding 53 (-1074) 971 rnd) (fused : ℕ → Bool) :
    (balanced.Complete (3 * 2) ∧ autocorrelation rnd 2 fast fast balanced = mean 2 fast fast) ∧
      ∀ host, Throws rnd fused 2 fast fast balanced host := by
  have int : ∀ n : ℤ, |n| ≤ 2 ^ 53 → rnd (n : ℝ) = n := fun n hn =>
    hr.eq_self (int_mem (by norm_num) (by norm_num) (by norm_num) hn)
  have r0 : rnd 0 = 0 := by exact_mod_cast int 0 (by norm_num)
  have r1 : rnd 1 = 1 := by exact_mod_cast int 1 (by norm_num)
  have r2 : rnd 2 = 2 := by exact_mod_cast int 2 (by norm_num)
  have r4 : rnd 4 = 4 := by exact_mod_cast int 4 (by norm_num)
  have big : rnd (2 ^ 54) = 2 ^ 54 := hr.eq_self ⟨2 ^ 52, 2, by norm_num, by norm_num, by norm_num, by norm_num⟩
  have big4 : rnd (2 ^ 54 + 4) = 2 ^ 54 + 4 := hr.eq_self ⟨2 ^ 52 + 1, 2, by norm_num, by norm_num, by norm_num, by norm_num⟩
  have half : rnd (2 ^ 53) = 2 ^ 53 := hr.eq_self ⟨2 ^ 52, 1, by norm_num, by norm_num, by norm_num, by norm_num⟩
  have half2 : rnd (2 ^ 53 + 2) = 2 ^ 53 + 2 := hr.eq_self ⟨2 ^ 52 + 1, 1, by norm_num, by norm_num, by norm_num, by norm_num⟩
  obtain ⟨a1, a2⟩ := pow_add_one hr
  have gpu : autocorrelation rnd 2 fast fast balanced = 2 ^ 53 + 2 := by
    have : innerProduct rnd fast fast balanced = 2 ^ 54 + 4 := by
      have e : (2 : ℝ) ^ 27 * 2 ^ 27 = 2 ^ 54 := by norm_num
      simp only [balanced, innerProduct, fast, e, mul_one, mul_zero, r1, r0, big, add_zero]
      rw [show (1 : ℝ) + 1 = 2 by norm_num, r2, show (2 : ℝ) + 2 = 4 by norm_num, r4, r4, big4]
    rw [autocorrelation, this, Nat.cast_ofNat, r2, show ((2 : ℝ) ^ 54 + 4) / 2 = 2 ^ 53 + 2 by norm_num, half2]
  have cpu : naive rnd fused 2 fast fast = 2 ^ 53 := by
    have s1 : naiveSum rnd fused fast fast 1 = 2 ^ 54 := by
      have e : (2 : ℝ) ^ 27 * 2 ^ 27 = 2 ^ 54 := by norm_num
      simp [naiveSum, fast, e, big]
    have more : ∀ n, fast n = 1 → naiveSum rnd fused fast fast n = 2 ^ 54 → naiveSum rnd fused fast fast (n + 1) = 2 ^ 54 := by
      intro n hn h
      rw [naiveSum, h, hn, mul_one, r1, a1, a2, ite_self]
    have s5 := more 4 rfl (more 3 rfl (more 2 rfl (more 1 rfl s1)))
    have s6 : naiveSum rnd fused fast fast (3 * 2) = 2 ^ 54 := by
      show naiveSum rnd fused fast fast (5 + 1) = 2 ^ 54
      have e5 : fast 5 = 0 := rfl
      rw [naiveSum, s5, e5, mul_zero, r0, add_zero, zero_add, big, ite_self]
    rw [naive, s6, Nat.cast_ofNat, r2, show (2 : ℝ) ^ 54 / 2 = 2 ^ 53 by norm_num, half]
  refine ⟨⟨balanced_complete, ?_⟩, fun host => Or.inl ?_⟩
  · rw [gpu, mean]
    simp [List.range_succ, fast]
    norm_num
  · rw [gpu, cpu, add_sub_cancel_left, r2, abs_of_pos (by norm_num)]
    refine lt_of_le_of_lt ?_ (by norm_num : (1 : ℝ) < 2)
    exact (hr.mono (by norm_num : (1 / 10 ^ 8 : ℝ) ≤ 1)).trans_eq r1

/-- Memory is not given back in the way it has been obtained, so what the check does is undefined. -/
theorem C138_release_violated : runHeap [] correlationHeap = none := by decide

/-- With `delete[]`, it would be given back completely. -/
example : runHeap [] [.new .array, .new .array, .delete 0 .array, .delete 1 .array] = some [none, none] := by decide

/-- There are such roundings, and ways to add. -/
example : ∃ rnd, IsRounding 53 (-1074) 971 rnd := exists_isRounding (by norm_num)

example : (combWay (fun _ => false) 3).Complete 3 := combWay_complete _ _

end OpenMPCD.Instr.Reduction
