import Mathlib.NumberTheory.LucasPrimality
import Mathlib.GroupTheory.OrderOfElement
import Mathlib.FieldTheory.Finite.Basic
import Mathlib.Tactic.NormNum.Prime
import Mathlib.Tactic.IntervalCases

/-!
# The linear congruential generators (C39)
-/

namespace OpenMPCD.Random

/-- `LinearCongruent::operator()` (`include/OpenMPCD/CUDA/Random/Generators/LinearCongruent.hpp:87-91`) for an
unsigned type of `width` bits: the state after a call, which is also the value returned. All operations are modulo
`2 ^ width`. -/
def step (width a c m x : ℕ) : ℕ := ((a * x % 2 ^ width + c) % 2 ^ width % m) % 2 ^ width

/-- The modulus of both generators (`include/OpenMPCD/CUDA/Random/Generators/minstd.hpp:24,28`). -/
def modulus : ℕ := 2147483647

/-- `minstd_rand` (`include/OpenMPCD/CUDA/Random/Generators/minstd.hpp:23-25`). `uint_fast32_t` has at least 32 bits;
which width it has depends on the platform (64 bits with glibc on 64-bit systems). -/
def minstdRand (width x : ℕ) : ℕ := step width 48271 0 modulus x

/-- `minstd_rand0` (`include/OpenMPCD/CUDA/Random/Generators/minstd.hpp:27-29`). -/
def minstdRand0 (width x : ℕ) : ℕ := step width 16807 0 modulus x

/-- The state after `n` calls. -/
def iter (f : ℕ → ℕ) : ℕ → ℕ → ℕ
  | 0, x => x
  | n + 1, x => f (iter f n x)

/-! ## Specification -/

/-- A generator does what it is specified to do for states in `1..m-1`: the next state is `a x mod m`, it is again in
that range, different states have different successors, and from every state, every state is reached after a number
of steps less than `m - 1`, and only after that number of steps modulo `m - 1`. -/
structure Good (f : ℕ → ℕ) (a m : ℕ) : Prop where
  value : ∀ x, 0 < x → x < m → f x = a * x % m
  range : ∀ x, 0 < x → x < m → ∀ n, 0 < iter f n x ∧ iter f n x < m
  injective : ∀ x y, 0 < x → x < m → 0 < y → y < m → f x = f y → x = y
  period : ∀ x y, 0 < x → x < m → 0 < y → y < m → ∃ k < m - 1, ∀ n, iter f n x = y ↔ n % (m - 1) = k

/-! ## Proofs -/

/-- Power modulo `m`, by squaring, given the binary digits of the exponent, most significant first. -/
def powMod (m a : ℕ) (bits : List Bool) : ℕ :=
  bits.foldl (fun r b => if b then r * r % m * a % m else r * r % m) (1 % m)

/-- The number with these binary digits. -/
def ofBits (bits : List Bool) : ℕ := bits.foldl (fun r b => if b then 2 * r + 1 else 2 * r) 0

theorem powMod_eq (m a : ℕ) (bits : List Bool) : powMod m a bits = a ^ ofBits bits % m := by
  induction bits using List.reverseRecOn with
  | nil => simp [powMod, ofBits]
  | append_singleton bits b ih =>
    unfold powMod ofBits at *
    rw [List.foldl_append, List.foldl_append, ih]
    cases b
    · simp only [List.foldl_cons, List.foldl_nil, Bool.false_eq_true, if_false]
      rw [← Nat.mul_mod, ← pow_add, two_mul]
    · simp only [List.foldl_cons, List.foldl_nil, if_true]
      rw [← Nat.mul_mod, ← pow_add, Nat.mod_mul_mod, ← pow_succ, two_mul]

/-- Binary digits, most significant first. -/
def bitsOf (n : ℕ) : List Bool := (List.range 31).reverse.map n.testBit

theorem pow_cast {a n r : ℕ} (hb : ofBits (bitsOf n) = n) (h : powMod modulus a (bitsOf n) = r) :
    ((a : ZMod modulus) ^ n) = (r : ZMod modulus) := by
  rw [powMod_eq, hb] at h
  rw [← h]
  simp

theorem primeFactors_sub_one {q : ℕ} (hq : q.Prime) (h : q ∣ modulus - 1) :
    q = 2 ∨ q = 3 ∨ q = 7 ∨ q = 11 ∨ q = 31 ∨ q = 151 ∨ q = 331 := by
  have e : modulus - 1 = 2 * 3 * 3 * 7 * 11 * 31 * 151 * 331 := by norm_num [modulus]
  rw [e] at h
  simp only [hq.dvd_mul] at h
  have p2 : Nat.Prime 2 := by norm_num
  have p3 : Nat.Prime 3 := by norm_num
  have p7 : Nat.Prime 7 := by norm_num
  have p11 : Nat.Prime 11 := by norm_num
  have p31 : Nat.Prime 31 := by norm_num
  have p151 : Nat.Prime 151 := by norm_num
  have p331 : Nat.Prime 331 := by norm_num
  have e {p : ℕ} (hp : p.Prime) (h : q ∣ p) : q = p := (Nat.prime_dvd_prime_iff_eq hq hp).1 h
  rcases h with ((((((h | h) | h) | h) | h) | h) | h) | h
  · exact .inl (e p2 h)
  · exact .inr (.inl (e p3 h))
  · exact .inr (.inl (e p3 h))
  · exact .inr (.inr (.inl (e p7 h)))
  · exact .inr (.inr (.inr (.inl (e p11 h))))
  · exact .inr (.inr (.inr (.inr (.inl (e p31 h)))))
  · exact .inr (.inr (.inr (.inr (.inr (.inl (e p151 h))))))
  · exact .inr (.inr (.inr (.inr (.inr (.inr (e p331 h))))))

theorem cast_ne_one {r : ℕ} (h1 : 1 < r) (h2 : r < modulus) : (r : ZMod modulus) ≠ 1 := by
  have := ZMod.natCast_eq_natCast_iff r 1 modulus
  rw [Nat.cast_one] at this
  rw [ne_eq, this, Nat.ModEq, Nat.mod_eq_of_lt h2, Nat.mod_eq_of_lt (by unfold modulus; omega)]
  omega

/-- The test that an element generates the multiplicative group. -/
theorem isGenerator {a : ℕ}
    (h : powMod modulus a (bitsOf (modulus - 1)) = 1)
    (hd : ∀ q ∈ [2, 3, 7, 11, 31, 151, 331], 1 < powMod modulus a (bitsOf ((modulus - 1) / q)) ∧
      powMod modulus a (bitsOf ((modulus - 1) / q)) < modulus)
    (hb : ∀ q ∈ [1, 2, 3, 7, 11, 31, 151, 331],
      ofBits (bitsOf ((modulus - 1) / q)) = (modulus - 1) / q) :
    (a : ZMod modulus) ^ (modulus - 1) = 1 ∧
      ∀ q : ℕ, q.Prime → q ∣ modulus - 1 → (a : ZMod modulus) ^ ((modulus - 1) / q) ≠ 1 := by
  constructor
  · have := pow_cast (a := a) (n := modulus - 1) (by simpa using hb 1 (by simp)) h
    simpa using this
  · intro q hq hqd
    have hm : q ∈ [2, 3, 7, 11, 31, 151, 331] := by
      rcases primeFactors_sub_one hq hqd with rfl | rfl | rfl | rfl | rfl | rfl | rfl <;> simp
    rw [pow_cast (hb q (List.mem_cons_of_mem _ hm)) rfl]
    exact cast_ne_one (hd q hm).1 (hd q hm).2

theorem gen_48271 : ((48271 : ℕ) : ZMod modulus) ^ (modulus - 1) = 1 ∧
    ∀ q : ℕ, q.Prime → q ∣ modulus - 1 → ((48271 : ℕ) : ZMod modulus) ^ ((modulus - 1) / q) ≠ 1 :=
  isGenerator (by decide +kernel) (by decide +kernel) (by decide +kernel)

theorem gen_16807 : ((16807 : ℕ) : ZMod modulus) ^ (modulus - 1) = 1 ∧
    ∀ q : ℕ, q.Prime → q ∣ modulus - 1 → ((16807 : ℕ) : ZMod modulus) ^ ((modulus - 1) / q) ≠ 1 :=
  isGenerator (by decide +kernel) (by decide +kernel) (by decide +kernel)

theorem modulus_prime : modulus.Prime := lucas_primality _ _ gen_48271.1 gen_48271.2

instance : Fact modulus.Prime := ⟨modulus_prime⟩

theorem step_eq {width a x : ℕ} (hw : 64 ≤ width) (ha : a < 2 ^ 32) (hx : x < modulus) :
    step width a 0 modulus x = a * x % modulus := by
  have h64 : 2 ^ 64 ≤ 2 ^ width := Nat.pow_le_pow_right (by norm_num) hw
  have hax : a * x < 2 ^ width := by
    calc a * x ≤ 2 ^ 32 * x := Nat.mul_le_mul_right _ ha.le
      _ ≤ 2 ^ 32 * modulus := Nat.mul_le_mul_left _ hx.le
      _ < 2 ^ 64 := by norm_num [modulus]
      _ ≤ _ := h64
  have hm : a * x % modulus < 2 ^ width := by
    have : a * x % modulus ≤ a * x := Nat.mod_le _ _
    omega
  simp only [step, Nat.add_zero, Nat.mod_mod]
  rw [Nat.mod_eq_of_lt hax, Nat.mod_eq_of_lt hm]

theorem cast_pos_iff {x : ℕ} (hx : x < modulus) : (x : ZMod modulus) ≠ 0 ↔ 0 < x := by
  rw [ne_eq, ZMod.natCast_eq_zero_iff]
  constructor
  · intro h
    rcases Nat.eq_zero_or_pos x with rfl | h'
    · exact absurd (dvd_zero _) h
    · exact h'
  · intro h1 h2
    exact absurd (Nat.le_of_dvd h1 h2) (by omega)

theorem cast_inj {x y : ℕ} (hx : x < modulus) (hy : y < modulus) (h : (x : ZMod modulus) = y) : x = y := by
  rw [ZMod.natCast_eq_natCast_iff, Nat.ModEq, Nat.mod_eq_of_lt hx, Nat.mod_eq_of_lt hy] at h
  exact h

theorem iter_cast {f : ℕ → ℕ} {a : ℕ} (ha : (a : ZMod modulus) ≠ 0)
    (hf : ∀ x, x < modulus → f x = a * x % modulus) {x : ℕ} (h0 : 0 < x) (hx : x < modulus) (n : ℕ) :
    (0 < iter f n x ∧ iter f n x < modulus) ∧ (iter f n x : ZMod modulus) = a ^ n * x := by
  induction n with
  | zero => exact ⟨⟨h0, hx⟩, by simp [iter]⟩
  | succ n ih =>
    obtain ⟨⟨i1, i2⟩, i3⟩ := ih
    have hlt : iter f (n + 1) x < modulus := by
      rw [iter, hf _ i2]
      exact Nat.mod_lt _ modulus_prime.pos
    have hc : (iter f (n + 1) x : ZMod modulus) = a ^ (n + 1) * x := by
      rw [iter, hf _ i2]
      simp only [ZMod.natCast_mod, Nat.cast_mul, i3]
      ring
    refine ⟨⟨(cast_pos_iff hlt).1 ?_, hlt⟩, hc⟩
    rw [hc]
    exact mul_ne_zero (pow_ne_zero _ ha) ((cast_pos_iff hx).2 h0)

theorem good_of_generator {f : ℕ → ℕ} {a : ℕ} (hf : ∀ x, x < modulus → f x = a * x % modulus)
    (hg : (a : ZMod modulus) ^ (modulus - 1) = 1 ∧
      ∀ q : ℕ, q.Prime → q ∣ modulus - 1 → (a : ZMod modulus) ^ ((modulus - 1) / q) ≠ 1) :
    Good f a modulus := by
  have hm1 : 0 < modulus - 1 := by norm_num [modulus]
  have ha : (a : ZMod modulus) ≠ 0 := by
    intro h
    have := hg.1
    rw [h, zero_pow hm1.ne'] at this
    exact zero_ne_one this
  have hord : orderOf (a : ZMod modulus) = modulus - 1 := orderOf_eq_of_pow_and_pow_div_prime hm1 hg.1 hg.2
  refine ⟨fun x _ hx => hf x hx, fun x h0 hx n => (iter_cast ha hf h0 hx n).1, ?_, ?_⟩
  · intro x y _ hx _ hy h
    rw [hf x hx, hf y hy] at h
    have h' : ((a * x % modulus : ℕ) : ZMod modulus) = ((a * y % modulus : ℕ) : ZMod modulus) := by rw [h]
    simp only [ZMod.natCast_mod, Nat.cast_mul] at h'
    exact cast_inj hx hy (mul_left_cancel₀ ha h')
  · intro x y x0 hx y0 hy
    have hx' := (cast_pos_iff hx).2 x0
    have hy' := (cast_pos_iff hy).2 y0
    -- the powers of `a` are all nonzero elements
    have hsurj : ∀ z : ZMod modulus, z ≠ 0 → ∃ k < modulus - 1, (a : ZMod modulus) ^ k = z := by
      classical
      have hcard : ((Finset.range (modulus - 1)).image fun k => (a : ZMod modulus) ^ k) =
          Finset.univ.erase 0 := by
        apply Finset.eq_of_subset_of_card_le
        · intro z hz
          obtain ⟨k, -, rfl⟩ := Finset.mem_image.1 hz
          exact Finset.mem_erase.2 ⟨pow_ne_zero _ ha, Finset.mem_univ _⟩
        · rw [Finset.card_erase_of_mem (Finset.mem_univ _), Finset.card_univ, ZMod.card,
            Finset.card_image_of_injOn, Finset.card_range]
          intro i hi j hj hij
          rw [Finset.coe_range, Set.mem_Iio] at hi hj
          exact pow_injOn_Iio_orderOf (by rwa [Set.mem_Iio, hord]) (by rwa [Set.mem_Iio, hord]) hij
      intro z hz
      have : z ∈ Finset.univ.erase (0 : ZMod modulus) := Finset.mem_erase.2 ⟨hz, Finset.mem_univ _⟩
      rw [← hcard] at this
      obtain ⟨k, hk, rfl⟩ := Finset.mem_image.1 this
      exact ⟨k, Finset.mem_range.1 hk, rfl⟩
    obtain ⟨k, hk, hkz⟩ := hsurj ((y : ZMod modulus) / x) (div_ne_zero hy' hx')
    refine ⟨k, hk, fun n => ?_⟩
    obtain ⟨⟨-, i2⟩, i3⟩ := iter_cast ha hf x0 hx n
    have e1 : iter f n x = y ↔ (a : ZMod modulus) ^ n * x = y := by
      constructor
      · intro h
        rw [← i3, h]
      · intro h
        exact cast_inj i2 hy (by rw [i3, h])
    rw [e1, ← eq_div_iff hx', ← hkz, ← pow_mod_orderOf _ n, hord]
    constructor
    · intro h
      exact pow_injOn_Iio_orderOf (by rw [Set.mem_Iio, hord]; exact Nat.mod_lt _ hm1) (by rwa [Set.mem_Iio, hord]) h
    · intro h
      rw [h]

/-- C39, for `minstd_rand` with at least 64 bits. -/
theorem C39_minstd_rand {width : ℕ} (hw : 64 ≤ width) : Good (minstdRand width) 48271 modulus :=
  good_of_generator (fun _ hx => step_eq hw (by norm_num) hx) gen_48271

/-- C39, for `minstd_rand0` with at least 64 bits. -/
theorem C39_minstd_rand0 {width : ℕ} (hw : 64 ≤ width) : Good (minstdRand0 width) 16807 modulus :=
  good_of_generator (fun _ hx => step_eq hw (by norm_num) hx) gen_16807

/-- C39: no intermediate result exceeds 64 bits. -/
theorem C39_no_overflow {a x : ℕ} (ha : a = 48271 ∨ a = 16807) (hx : x < modulus) : a * x + 0 < 2 ^ 64 := by
  have : x < 2147483647 := hx
  rcases ha with rfl | rfl <;> omega

/-- C39 fails if `uint_fast32_t` has 32 bits: a valid seed leads to zero, where the generators stay forever. -/
theorem C39_width32_violated :
    (∃ x, 0 < x ∧ x < modulus ∧ ∀ n, 0 < n → iter (minstdRand 32) n x = 0) ∧
      ∃ x, 0 < x ∧ x < modulus ∧ ∀ n, 0 < n → iter (minstdRand0 32) n x = 0 := by
  constructor
  · refine ⟨1622613393, by norm_num, by norm_num [modulus], fun n hn => ?_⟩
    induction n with
    | zero => omega
    | succ n ih =>
      rw [iter]
      rcases Nat.eq_zero_or_pos n with rfl | h
      · norm_num [iter, minstdRand, step, modulus]
      · rw [ih h]
        norm_num [minstdRand, step, modulus]
  · refine ⟨868985321, by norm_num, by norm_num [modulus], fun n hn => ?_⟩
    induction n with
    | zero => omega
    | succ n ih =>
      rw [iter]
      rcases Nat.eq_zero_or_pos n with rfl | h
      · norm_num [iter, minstdRand0, step, modulus]
      · rw [ih h]
        norm_num [minstdRand0, step, modulus]

/-- The documented seed zero makes the generator return zero forever. -/
theorem C39_seed_zero (width n : ℕ) : iter (minstdRand width) n 0 = 0 := by
  induction n with
  | zero => rfl
  | succ n ih =>
    rw [iter, ih]
    simp [minstdRand, step]

/-- The third value of `minstd_rand0` with seed 1. -/
example : iter (minstdRand0 64) 3 1 = 1622650073 := by
  norm_num [iter, minstdRand0, step, modulus]

end OpenMPCD.Random
