import Mathlib.Data.Nat.Bitwise
import Mathlib.Data.List.Basic
import Mathlib.Tactic.NormNum

/-!
# The bit set for CUDA code (C38)

Words have 32 bits. A schedule is a list of atomic operations on the memory, from any number of threads.
-/

namespace OpenMPCD.Bits

/-! ## Model -/

/-- `bitsPerElement` (`include/OpenMPCD/CUDA/Bitset.hpp:103`). -/
def bitsPerElement : ℕ := 32

/-- `Bitset` (`include/OpenMPCD/CUDA/Bitset.hpp:98-100`); the memory for `storage` is the list of words. -/
structure Bitset where
  storage : List (BitVec 32)
  bitCount : ℕ

/-- The constructor (`include/OpenMPCD/CUDA/ImplementationDetails/Bitset.hpp:20-25`). The member `storage` is
initialised first (it is declared first, `include/OpenMPCD/CUDA/Bitset.hpp:99-100`), from the *member* `bitCount`, whose
value is indeterminate at this point; `garbage` stands for that value. `fill` gives the words that happen to be in the
memory allocated. -/
def Bitset.make (garbage bitCount : ℕ) (fill : ℕ → BitVec 32) : Bitset :=
  ⟨(List.range ((garbage + bitsPerElement - 1) / bitsPerElement)).map fill, bitCount⟩

/-- Atomic accesses to the memory, by threads in `set` or `setAll`. -/
inductive Access
  /-- `atomicOr` (`include/OpenMPCD/CUDA/ImplementationDetails/Bitset.hpp:49`). -/
  | or (element : ℕ) (mask : BitVec 32)
  /-- `atomicAnd` (`include/OpenMPCD/CUDA/ImplementationDetails/Bitset.hpp:53`). -/
  | and (element : ℕ) (mask : BitVec 32)
  /-- A store (`include/OpenMPCD/CUDA/ImplementationDetails/Bitset.hpp:75`). -/
  | store (element : ℕ) (value : BitVec 32)

/-- The word accessed. -/
def Access.element : Access → ℕ
  | .or e _ | .and e _ | .store e _ => e

/-- The access `set` makes (`include/OpenMPCD/CUDA/ImplementationDetails/Bitset.hpp:40-55`). The conversion of the
`int` `1 << 31` to `unsigned int` is taken to preserve the bit pattern. -/
def setAccess (bit : ℕ) (value : Bool) : Access :=
  let element := bit / bitsPerElement
  let bitInElement := bit % bitsPerElement
  if value then .or element (1#32 <<< bitInElement) else .and element (~~~(1#32 <<< bitInElement))

/-- The accesses `setAll` makes, in this order (`include/OpenMPCD/CUDA/ImplementationDetails/Bitset.hpp:69-76`). -/
def setAllAccesses (bitCount : ℕ) (value : Bool) : List Access :=
  (List.range ((bitCount + bitsPerElement - 1) / bitsPerElement)).map fun i =>
    .store i (if value then BitVec.allOnes 32 else 0#32)

/-- The effect of an access; `none`: memory outside of `storage` is accessed. -/
def Access.exec (a : Access) (s : List (BitVec 32)) : Option (List (BitVec 32)) :=
  match s[a.element]? with
  | none => none
  | some w => some (s.set a.element (match a with
    | .or _ m => w ||| m
    | .and _ m => w &&& m
    | .store _ v => v))

/-- A schedule of accesses. -/
def execAll : List Access → List (BitVec 32) → Option (List (BitVec 32))
  | [], s => some s
  | a :: as, s => (a.exec s).bind (execAll as)

/-- `get` (`include/OpenMPCD/CUDA/ImplementationDetails/Bitset.hpp:58-66`); `none`: memory outside of `storage` is
accessed. -/
def Bitset.get (b : Bitset) (bit : ℕ) : Option Bool :=
  (b.storage[bit / bitsPerElement]?).map fun (w : BitVec 32) => ((w >>> (bit % bitsPerElement)) &&& 1#32) != 0#32

/-! ## Specification -/

/-- What users of the bit set ask for: setting one bit, or (as one step of setting all bits) setting all bits of one
word. -/
inductive Request
  | set (bit : ℕ) (value : Bool)
  | setWord (word : ℕ) (value : Bool)

/-- Whether a request concerns a bit. -/
def Request.Concerns (r : Request) (bit : ℕ) : Prop :=
  match r with
  | .set b _ => b = bit
  | .setWord w _ => 32 * w ≤ bit ∧ bit < 32 * w + 32

instance (r : Request) (bit : ℕ) : Decidable (r.Concerns bit) := by
  cases r <;> unfold Request.Concerns <;> infer_instance

/-- The value requested. -/
def Request.value : Request → Bool
  | .set _ v | .setWord _ v => v

/-- Requests are for existing bits. -/
def Request.Valid (bitCount : ℕ) : Request → Prop
  | .set b _ => b < bitCount
  | .setWord w _ => 32 * w < bitCount

/-- The value of a bit after a schedule of requests: that of the last request concerning it, or the initial one. -/
def finalValue (initial : Bool) (rs : List Request) (bit : ℕ) : Bool :=
  ((rs.filter fun r => r.Concerns bit).getLast?.map Request.value).getD initial

/-! ## Proofs -/

/-- The access for a request. -/
def Request.access : Request → Access
  | .set b v => setAccess b v
  | .setWord w v => .store w (if v then BitVec.allOnes 32 else 0#32)

/-- C38: setting all bits is setting the bits of each word that has bits of the set. -/
theorem C38_setAll (bitCount : ℕ) (value : Bool) :
    ∃ ws : List ℕ, ws.Nodup ∧ (∀ w, w ∈ ws ↔ 32 * w < bitCount) ∧
      setAllAccesses bitCount value = ws.map fun w => (Request.setWord w value).access := by
  refine ⟨List.range ((bitCount + bitsPerElement - 1) / bitsPerElement), List.nodup_range, fun w => ?_, ?_⟩
  · rw [List.mem_range]
    unfold bitsPerElement
    omega
  · unfold setAllAccesses Request.access
    rfl

theorem get_eq (w : BitVec 32) (i : ℕ) : (((w >>> i) &&& 1#32) != 0#32) = w.getLsbD i := by
  have : ((w >>> i) &&& 1#32) = if w.getLsbD i then 1#32 else 0#32 := by
    apply BitVec.eq_of_getLsbD_eq
    intro j hj
    rw [BitVec.getLsbD_and, BitVec.getLsbD_ushiftRight]
    by_cases h0 : j = 0
    · subst h0
      cases h : w.getLsbD i <;> simp
    · have : (1#32).getLsbD j = false := by simp [BitVec.getLsbD_one, h0]
      rw [this, Bool.and_false]
      split_ifs
      · exact this.symm
      · simp
  rw [this]
  cases w.getLsbD i <;> simp

/-- The bit of a word list. -/
def bitAt (s : List (BitVec 32)) (bit : ℕ) : Option Bool := (s[bit / 32]?).map fun w => w.getLsbD (bit % 32)

theorem get_eq_bitAt (b : Bitset) (bit : ℕ) : b.get bit = bitAt b.storage bit := by
  unfold Bitset.get bitAt bitsPerElement
  simp only [get_eq]

theorem access_element {bitCount : ℕ} {r : Request} (h : r.Valid bitCount) :
    r.access.element < (bitCount + 31) / 32 := by
  cases r with
  | set b v =>
    have h : b < bitCount := h
    unfold Request.access setAccess bitsPerElement
    cases v <;> simp only [Access.element, if_true, Bool.false_eq_true, if_false] <;> omega
  | setWord w v =>
    have h : 32 * w < bitCount := h
    simp only [Request.access, Access.element]
    omega

theorem mask_bit {i j : ℕ} (hj : j < 32) : (1#32 <<< i).getLsbD j = decide (j = i) := by
  rw [BitVec.getLsbD_shiftLeft]
  by_cases h : j = i
  · subst h
    simp [hj]
  · rcases Nat.lt_or_ge j i with h' | h'
    · simp [h, h']
    · have : j - i ≠ 0 := by omega
      simp [h, BitVec.getLsbD_one, this]

theorem exec_request {bitCount : ℕ} {r : Request} (h : r.Valid bitCount) {s : List (BitVec 32)}
    (hs : (bitCount + 31) / 32 ≤ s.length) :
    ∃ s', r.access.exec s = some s' ∧ s'.length = s.length ∧
      ∀ bit < 32 * s.length, bitAt s' bit = if r.Concerns bit then some r.value else bitAt s bit := by
  have he := access_element h
  have hlt : r.access.element < s.length := by omega
  unfold Access.exec
  rw [List.getElem?_eq_getElem hlt]
  refine ⟨_, rfl, by simp, fun bit hb => ?_⟩
  have hbl : bit / 32 < s.length := by omega
  have hj : bit % 32 < 32 := Nat.mod_lt _ (by norm_num)
  unfold bitAt
  rw [List.getElem?_set, List.getElem?_eq_getElem hbl]
  cases r with
  | set b v =>
    have hel : (Request.set b v).access.element = b / 32 := by
      unfold Request.access setAccess bitsPerElement
      cases v <;> rfl
    simp only [hel]
    by_cases hw : b / 32 = bit / 32
    · rw [if_pos hw, if_pos (by omega)]
      simp only [Option.map_some, hw, Request.Concerns, Request.value, Request.access, setAccess, bitsPerElement]
      by_cases hbb : b = bit
      · subst hbb
        cases v
        · simp [hj]
        · simp [mask_bit hj]
      · have : bit % 32 ≠ b % 32 := by omega
        cases v
        · simp [hj, hbb]
          omega
        · simp [mask_bit hj, this, hbb]
    · rw [if_neg hw]
      have : b ≠ bit := fun e => hw (by rw [e])
      simp only [Request.Concerns, this, if_false]
  | setWord w v =>
    change w < s.length at hlt
    change Option.map (fun w : BitVec 32 => w.getLsbD (bit % 32))
      (if w = bit / 32 then (if w < s.length then some (if v then BitVec.allOnes 32 else 0#32) else none)
        else some s[bit / 32]) = _
    by_cases hw : w = bit / 32
    · rw [if_pos hw, if_pos hlt]
      have : (Request.setWord w v).Concerns bit := by
        simp only [Request.Concerns]
        omega
      rw [if_pos this]
      cases v
      · simp [Request.value]
      · simp only [if_true, Option.map_some, BitVec.getLsbD_allOnes, hj, decide_true, Request.value]
    · rw [if_neg hw]
      have : ¬ (Request.setWord w v).Concerns bit := by
        simp only [Request.Concerns]
        omega
      rw [if_neg this]

theorem execAll_requests {bitCount : ℕ} (rs : List Request) (hr : ∀ r ∈ rs, r.Valid bitCount)
    (s : List (BitVec 32)) (hs : (bitCount + 31) / 32 ≤ s.length) :
    ∃ s', execAll (rs.map Request.access) s = some s' ∧ s'.length = s.length ∧
      ∀ bit < bitCount, ∀ v, bitAt s bit = some v → bitAt s' bit = some (finalValue v rs bit) := by
  induction rs generalizing s with
  | nil => exact ⟨s, rfl, rfl, fun bit _ v hv => by simpa [finalValue] using hv⟩
  | cons r rs ih =>
    obtain ⟨s₁, e1, e2, e3⟩ := exec_request (hr r List.mem_cons_self) hs
    obtain ⟨s₂, f1, f2, f3⟩ := ih (fun r hr' => hr r (List.mem_cons_of_mem _ hr')) s₁ (by omega)
    refine ⟨s₂, ?_, f2.trans e2, fun bit hb v hv => ?_⟩
    · rw [List.map_cons, execAll, e1, Option.bind_some, f1]
    · have h1 := e3 bit (by omega)
      by_cases hc : r.Concerns bit
      · rw [if_pos hc] at h1
        rw [f3 bit hb _ h1]
        simp only [finalValue, List.filter_cons, hc, decide_true, if_true, List.getLast?_cons]
        cases ((rs.filter fun r => r.Concerns bit).getLast?) <;> rfl
      · rw [if_neg hc] at h1
        rw [f3 bit hb v (h1.trans hv)]
        simp only [finalValue, List.filter_cons, hc, decide_false, Bool.false_eq_true, if_false]

/-- C38, given that the memory allocated is sufficient for the bits: for every schedule of requests for existing bits,
no memory outside is accessed, and each bit finally has the value of the last request concerning it, or else the one it
had before. -/
theorem C38_partial {b : Bitset} (hb : (b.bitCount + 31) / 32 ≤ b.storage.length) (rs : List Request)
    (hr : ∀ r ∈ rs, r.Valid b.bitCount) :
    ∃ s, execAll (rs.map Request.access) b.storage = some s ∧
      ∀ bit < b.bitCount, ∃ v, b.get bit = some v ∧
        Bitset.get { b with storage := s } bit = some (finalValue v rs bit) := by
  obtain ⟨s, h1, -, h2⟩ := execAll_requests rs hr b.storage hb
  refine ⟨s, h1, fun bit hbit => ?_⟩
  have hlt : bit / 32 < b.storage.length := by omega
  refine ⟨(b.storage[bit / 32]).getLsbD (bit % 32), ?_, ?_⟩
  · rw [get_eq_bitAt, bitAt, List.getElem?_eq_getElem hlt, Option.map_some]
  · rw [get_eq_bitAt]
    apply h2 bit hbit
    rw [bitAt, List.getElem?_eq_getElem hlt, Option.map_some]

/-- The memory is sufficient if the indeterminate value used by the constructor happens to be at least the number of
bits. -/
theorem C38_make {garbage bitCount : ℕ} (h : bitCount ≤ garbage) (fill : ℕ → BitVec 32) :
    ((Bitset.make garbage bitCount fill).bitCount + 31) / 32 ≤ (Bitset.make garbage bitCount fill).storage.length := by
  simp only [Bitset.make, List.length_map, List.length_range, bitsPerElement]
  omega

/-- C38 fails: the constructor allocates memory for an indeterminate number of bits; if that happens to be too small,
setting a bit accesses memory outside. -/
theorem C38_violated (bitCount : ℕ) (h : 0 < bitCount) (fill : ℕ → BitVec 32) :
    ∃ garbage, ∃ bit < bitCount, ∀ value,
      (setAccess bit value).exec (Bitset.make garbage bitCount fill).storage = none := by
  refine ⟨0, 0, h, fun value => ?_⟩
  have : (Bitset.make 0 bitCount fill).storage = [] := rfl
  rw [this]
  cases value <;> rfl

example : ∃ b : Bitset, b.bitCount = 40 ∧ (b.bitCount + 31) / 32 ≤ b.storage.length :=
  ⟨⟨[0#32, 0#32], 40⟩, rfl, by decide⟩

example : finalValue false [.set 33 true, .set 34 true, .set 33 false, .setWord 0 true] 34 = true := by decide

end OpenMPCD.Bits
