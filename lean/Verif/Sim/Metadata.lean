import Verif.Common
import Mathlib.Data.Nat.Digits.Defs
import Mathlib.Data.Nat.Digits.Lemmas
import Mathlib.Tactic.NormNum
import Mathlib.Tactic.Linarith

/-!
# What the metadata saved with a run say (C145)

`CUDA::Device::getPCIAddressString` (`src/OpenMPCD/CUDA/Device.cpp:56-65`), `HostInformation::getCurrentUTCTimeAsString`
(`src/OpenMPCD/Utility/HostInformation.cpp:21-36`), and the file `metadata.txt` written by `CUDA::Instrumentation::save`
(`src/OpenMPCD/CUDA/Instrumentation.cpp:150-171`). Texts are lists of characters.
-/

set_option linter.unusedSectionVars false
set_option linter.unusedSimpArgs false
set_option linter.unusedVariables false

namespace OpenMPCD.Sim.Metadata

abbrev Str := List Char

/-! ## Model -/

/-- A `std::stringstream`: what has been written, the base for numbers, the fill character, and the minimum width of the next output. -/
structure Stream where
  out : Str := []
  base : ℕ := 10
  fill : Char := ' '
  width : ℕ := 0

/-- Formatted output: filled up on the left; the width applies once. -/
def Stream.put (s : Stream) (t : Str) : Stream :=
  { s with out := s.out ++ (List.replicate (s.width - t.length) s.fill ++ t), width := 0 }

/-- Unsigned numbers, in the base of the stream, with small letters. -/
def digits (base n : ℕ) : Str := if n = 0 then ['0'] else ((Nat.digits base n).map Nat.digitChar).reverse

/-- `stream << n`. -/
def Stream.number (s : Stream) (n : ℕ) : Stream := s.put (digits s.base n)

/-- `std::hex`. -/
def Stream.hex (s : Stream) : Stream := { s with base := 16 }

/-- `std::setfill`. -/
def Stream.setfill (s : Stream) (c : Char) : Stream := { s with fill := c }

/-- `std::setw`. -/
def Stream.setw (s : Stream) (n : ℕ) : Stream := { s with width := n }

/-- `getPCIAddressString` (`src/OpenMPCD/CUDA/Device.cpp:56-65`). The identifiers are those of the device properties, which are not
negative. -/
def pciAddress (domain bus slot : ℕ) : Str :=
  let ss : Stream := {}
  let ss := (ss.hex).setfill '0'
  let ss := (((ss.setw 4).number domain).put [':'])
  let ss := (((ss.setw 2).number bus).put [':'])
  let ss := (ss.setw 2).number slot
  ss.out

/-- Broken-down time, as of `std::gmtime`. -/
structure Time where
  year : ℕ
  month : ℕ
  day : ℕ
  hour : ℕ
  minute : ℕ
  second : ℕ
  deriving DecidableEq

/-- Two decimal digits. -/
def two (n : ℕ) : Str := [Nat.digitChar (n / 10), Nat.digitChar (n % 10)]

/-- Four decimal digits. -/
def four (n : ℕ) : Str := two (n / 100) ++ two (n % 100)

/-- `getCurrentUTCTimeAsString` (`src/OpenMPCD/Utility/HostInformation.cpp:21-36`): `std::strftime` with the format
`%Y-%m-%dT%H:%M:%S`. The buffer is always large enough. Simplification: years have four digits. -/
def timeText (t : Time) : Str :=
  four t.year ++ '-' :: (two t.month ++ '-' :: (two t.day ++ 'T' :: (two t.hour ++ ':' :: (two t.minute ++ ':' :: two t.second))))

/-- The names of the entries of `metadata.txt`, with what is between name and value. -/
def sweepsName : Str := "numberOfCompletedSweeps: ".toList
def hostName : Str := "executingHost: \"".toList
def addressName : Str := "DefaultCUDADevicePCIAddress: \"".toList
def startName : Str := "startTimeUTC: \"".toList
def endName : Str := "endTimeUTC: \"".toList

/-- The contents of `metadata.txt` (`src/OpenMPCD/CUDA/Instrumentation.cpp:150-171`). -/
def metadata (sweeps : ℕ) (host address start stop : Str) : Str :=
  sweepsName ++ digits 10 sweeps ++ '\n' ::
  (hostName ++ host ++ '"' :: '\n' ::
  (addressName ++ address ++ '"' :: '\n' ::
  (startName ++ start ++ '"' :: '\n' ::
  (endName ++ stop ++ ['"', '\n']))))

/-! ## Specification -/

/-- The value of a hexadecimal digit. -/
def hexDigit (c : Char) : ℕ :=
  match ['0', '1', '2', '3', '4', '5', '6', '7', '8', '9', 'a', 'b', 'c', 'd', 'e', 'f'].idxOf? c with
  | some i => i
  | none => 16

/-- The number a text is, in base sixteen. -/
def hexValue (s : Str) : ℕ := s.foldl (fun n c => 16 * n + hexDigit c) 0

/-- Small hexadecimal digits, `w` of them, that are the number. -/
def IsHex (s : Str) (w n : ℕ) : Prop := s.length = w ∧ (∀ c ∈ s, hexDigit c < 16) ∧ hexValue s = n

/-- `DDDD:BB:SS`, see `include/OpenMPCD/CUDA/Device.hpp:60-64`. -/
def Documented (s : Str) (domain bus slot : ℕ) : Prop :=
  ∃ a b c, s = a ++ ':' :: (b ++ ':' :: c) ∧ IsHex a 4 domain ∧ IsHex b 2 bus ∧ IsHex c 2 slot

/-- Points in time there are; there may be leap seconds. -/
def Time.Valid (t : Time) : Prop :=
  1000 ≤ t.year ∧ t.year < 10000 ∧ 1 ≤ t.month ∧ t.month ≤ 12 ∧ 1 ≤ t.day ∧ t.day ≤ 31 ∧ t.hour < 24 ∧ t.minute < 60 ∧ t.second ≤ 60

/-- A number that increases with time. -/
def Time.rank (t : Time) : ℕ := ((((t.year * 13 + t.month) * 32 + t.day) * 24 + t.hour) * 60 + t.minute) * 61 + t.second

/-! ## Proofs: addresses -/

theorem hexDigit_digitChar {d : ℕ} (h : d < 16) : hexDigit (Nat.digitChar d) = d := by
  have : ∀ d : Fin 16, hexDigit (Nat.digitChar d) = d := by decide
  exact this ⟨d, h⟩

theorem hexValue_append (s t : Str) : hexValue (s ++ t) = t.foldl (fun n c => 16 * n + hexDigit c) (hexValue s) := by
  simp [hexValue, List.foldl_append]

theorem hexValue_zeros (k : ℕ) : hexValue (List.replicate k '0') = 0 := by
  have h0 : hexDigit '0' = 0 := by decide
  induction k with
  | zero => rfl
  | succ k ih => rw [List.replicate_succ', hexValue_append, ih]; simp [h0]

theorem hexValue_digits (l : List ℕ) (h : ∀ d ∈ l, d < 16) : hexValue ((l.map Nat.digitChar).reverse) = Nat.ofDigits 16 l := by
  induction l with
  | nil => rfl
  | cons d l ih =>
    rw [List.map_cons, List.reverse_cons, hexValue_append, ih (fun x hx => h x (by simp [hx]))]
    simp [hexDigit_digitChar (h d (by simp)), Nat.ofDigits_cons]; omega

theorem digits_value (n : ℕ) : hexValue (digits 16 n) = n := by
  unfold digits
  split
  · rename_i h; subst h; decide
  · rw [hexValue_digits _ (fun d hd => Nat.digits_lt_base (by norm_num) hd), Nat.ofDigits_digits]

theorem digits_hex (n : ℕ) : ∀ c ∈ digits 16 n, hexDigit c < 16 := by
  unfold digits
  split
  · intro c hc; simp at hc; subst hc; decide
  · intro c hc
    simp only [List.mem_reverse, List.mem_map] at hc
    obtain ⟨d, hd, rfl⟩ := hc
    have := Nat.digits_lt_base (by norm_num) hd
    rw [hexDigit_digitChar this]; exact this

theorem digits_length {n w : ℕ} (hw : 0 < w) : (digits 16 n).length ≤ w ↔ n < 16 ^ w := by
  unfold digits
  split
  · rename_i h; subst h; simp; omega
  · simpa using Nat.digits_length_le_iff (by norm_num) n

/-- A number, filled up with zeros. -/
def padded (w n : ℕ) : Str := List.replicate (w - (digits 16 n).length) '0' ++ digits 16 n

theorem padded_value (w n : ℕ) : hexValue (padded w n) = n := by
  rw [padded, hexValue_append, hexValue_zeros]; exact digits_value n

theorem padded_hex (w n : ℕ) : ∀ c ∈ padded w n, hexDigit c < 16 := by
  intro c hc
  rcases List.mem_append.mp hc with h | h
  · rw [(List.mem_replicate.mp h).2]; decide
  · exact digits_hex n c h

theorem padded_isHex {w n : ℕ} (hw : 0 < w) (h : n < 16 ^ w) : IsHex (padded w n) w n := by
  have := (digits_length hw).mpr h
  exact ⟨by simp [padded]; omega, padded_hex w n, padded_value w n⟩

theorem colon_padded (w n : ℕ) : ':' ∉ padded w n := fun h => absurd (padded_hex w n _ h) (by decide)

theorem pciAddress_eq (domain bus slot : ℕ) :
    pciAddress domain bus slot = padded 4 domain ++ ':' :: (padded 2 bus ++ ':' :: padded 2 slot) := by
  simp [pciAddress, Stream.hex, Stream.setfill, Stream.setw, Stream.number, Stream.put, padded, List.append_assoc]

/-- C145: addresses are as documented for all domains with four digits, and all buses and slots with two. -/
theorem C145_address_partial {domain bus slot : ℕ} (hd : domain < 16 ^ 4) (hb : bus < 16 ^ 2) (hs : slot < 16 ^ 2) :
    Documented (pciAddress domain bus slot) domain bus slot :=
  ⟨_, _, _, pciAddress_eq domain bus slot, padded_isHex (by norm_num) hd, padded_isHex (by norm_num) hb, padded_isHex (by norm_num) hs⟩

example : pciAddress 0 0x5e 0 = "0000:5e:00".toList := by
  rw [pciAddress_eq]; simp [padded, digits]

/-- C145: equal addresses are those of the same device, for all identifiers. -/
theorem C145_identifies {domain bus slot domain' bus' slot' : ℕ} (h : pciAddress domain bus slot = pciAddress domain' bus' slot') :
    domain = domain' ∧ bus = bus' ∧ slot = slot' := by
  have sp : ∀ d b s, splitChar ':' (pciAddress d b s) = [padded 4 d, padded 2 b, padded 2 s] := by
    intro d b s
    rw [pciAddress_eq, splitChar_append_cons (colon_padded 4 d), splitChar_append_cons (colon_padded 2 b),
      splitChar_of_notMem (colon_padded 2 s)]
  have := sp domain bus slot
  rw [h, sp domain' bus' slot'] at this
  simp only [List.cons.injEq, and_true] at this
  obtain ⟨h1, h2, h3⟩ := this
  exact ⟨by rw [← padded_value 4 domain, ← h1, padded_value], by rw [← padded_value 2 bus, ← h2, padded_value],
    by rw [← padded_value 2 slot, ← h3, padded_value]⟩

/-- C145 fails for domains from `10000` (hexadecimal) on, which exist: the address is longer than documented. -/
theorem C145_domain_violated {domain bus slot : ℕ} (hd : 16 ^ 4 ≤ domain) :
    10 < (pciAddress domain bus slot).length ∧ ¬ Documented (pciAddress domain bus slot) domain bus slot := by
  have l : 4 < (digits 16 domain).length := by
    by_contra h
    have := (digits_length (n := domain) (w := 4) (by norm_num)).mp (by omega)
    omega
  have p : ∀ w n, w ≤ (padded w n).length := by intro w n; simp [padded]; omega
  have l' : 10 < (pciAddress domain bus slot).length := by
    have e : (padded 4 domain).length = (digits 16 domain).length := by simp [padded]; omega
    have := p 2 bus
    have := p 2 slot
    rw [pciAddress_eq]; simp only [List.length_append, List.length_cons]; omega
  refine ⟨l', ?_⟩
  rintro ⟨a, b, c, e, ⟨ha, -⟩, ⟨hb, -⟩, ⟨hc, -⟩⟩
  rw [e] at l'
  simp only [List.length_append, List.length_cons] at l'
  omega

example : pciAddress 0x10000 1 0 = "10000:01:00".toList := by rw [pciAddress_eq]; simp [padded, digits]

/-! ## Proofs: times -/

theorem char_lt {a b : ℕ} (ha : a < 10) (hb : b < 10) : Nat.digitChar a < Nat.digitChar b ↔ a < b := by
  have : ∀ a b : Fin 10, (Nat.digitChar a < Nat.digitChar b ↔ a < b) := by decide
  simpa using this ⟨a, ha⟩ ⟨b, hb⟩

theorem char_eq {a b : ℕ} (ha : a < 10) (hb : b < 10) : Nat.digitChar a = Nat.digitChar b ↔ a = b := by
  have : ∀ a b : Fin 10, (Nat.digitChar a = Nat.digitChar b ↔ a = b) := by decide
  simpa using this ⟨a, ha⟩ ⟨b, hb⟩

/-- Comparing the digits of a number first. -/
theorem two_lt {a b : ℕ} (ha : a < 100) (hb : b < 100) (s t : Str) : two a ++ s < two b ++ t ↔ a < b ∨ a = b ∧ s < t := by
  simp only [two, List.cons_append, List.nil_append, List.cons_lt_cons_iff,
    char_lt (show a / 10 < 10 by omega) (show b / 10 < 10 by omega), char_eq (show a / 10 < 10 by omega) (show b / 10 < 10 by omega),
    char_lt (show a % 10 < 10 by omega) (show b % 10 < 10 by omega), char_eq (show a % 10 < 10 by omega) (show b % 10 < 10 by omega)]
  by_cases h : s < t <;> simp only [h, and_true, and_false, or_false] <;> omega

theorem sep_lt (c : Char) (s t : Str) : c :: s < c :: t ↔ s < t := by
  simp [List.cons_lt_cons_iff]

theorem two_lt_end {a b : ℕ} (ha : a < 100) (hb : b < 100) : two a < two b ↔ a < b := by
  have := two_lt ha hb [] []
  simpa using this

theorem four_lt {a b : ℕ} (ha : a < 10000) (hb : b < 10000) (s t : Str) : four a ++ s < four b ++ t ↔ a < b ∨ a = b ∧ s < t := by
  rw [four, four, List.append_assoc, List.append_assoc, two_lt (by omega) (by omega), two_lt (by omega) (by omega)]
  by_cases h : s < t <;> simp only [h, and_true, and_false, or_false] <;> omega

theorem regroup {X E Y F R : Prop} : (X ∨ E ∧ (Y ∨ F ∧ R)) ↔ ((X ∨ E ∧ Y) ∨ (E ∧ F) ∧ R) := by tauto

/-- C145: comparing the texts of two points in time, as texts, is comparing the points in time. -/
theorem C145_times {t u : Time} (ht : t.Valid) (hu : u.Valid) : timeText t < timeText u ↔ t.rank < u.rank := by
  obtain ⟨_, t1, _, t2, _, t3, t4, t5, t6⟩ := ht
  obtain ⟨_, u1, _, u2, _, u3, u4, u5, u6⟩ := hu
  have step : ∀ a b k p q : ℕ, p < k → q < k → (a * k + p < b * k + q ↔ a < b ∨ a = b ∧ p < q) := by
    intro a b k p q hp hq
    constructor
    · intro h
      rcases lt_trichotomy a b with h' | h' | h'
      · exact .inl h'
      · subst h'; exact .inr ⟨rfl, by omega⟩
      · exfalso
        have : (b + 1) * k ≤ a * k := Nat.mul_le_mul_right k h'
        rw [Nat.add_mul, Nat.one_mul] at this
        omega
    · rintro (h | ⟨rfl, h⟩)
      · have : (a + 1) * k ≤ b * k := Nat.mul_le_mul_right k h
        rw [Nat.add_mul, Nat.one_mul] at this
        omega
      · omega
  have eq : ∀ a b k p q : ℕ, p < k → q < k → (a * k + p = b * k + q ↔ a = b ∧ p = q) := by
    intro a b k p q hp hq
    have h1 := step a b k p q hp hq
    have h2 := step b a k q p hq hp
    omega
  simp only [timeText, four_lt t1 u1, sep_lt, two_lt (show t.month < 100 by omega) (show u.month < 100 by omega),
    two_lt (show t.day < 100 by omega) (show u.day < 100 by omega), two_lt (show t.hour < 100 by omega) (show u.hour < 100 by omega),
    two_lt (show t.minute < 100 by omega) (show u.minute < 100 by omega),
    two_lt_end (show t.second < 100 by omega) (show u.second < 100 by omega), Time.rank]
  rw [step _ _ 61 _ _ (by omega) (by omega), step _ _ 60 _ _ (by omega) (by omega), step _ _ 24 _ _ (by omega) (by omega),
    step _ _ 32 _ _ (by omega) (by omega), step _ _ 13 _ _ (by omega) (by omega),
    eq _ _ 60 _ _ (by omega) (by omega), eq _ _ 24 _ _ (by omega) (by omega), eq _ _ 32 _ _ (by omega) (by omega),
    eq _ _ 13 _ _ (by omega) (by omega)]
  exact regroup.trans (regroup.trans (regroup.trans regroup))

/-- The text of a point in time has the documented form, and its parts are the numbers. -/
theorem C145_time_text (t : Time) (ht : t.Valid) :
    (timeText t).length = 19 ∧ (timeText t)[4]? = some '-' ∧ (timeText t)[7]? = some '-' ∧ (timeText t)[10]? = some 'T' ∧
    (timeText t)[13]? = some ':' ∧ (timeText t)[16]? = some ':' ∧
    hexDigit ((timeText t)[17]?.getD 'x') * 10 + hexDigit ((timeText t)[18]?.getD 'x') = t.second := by
  obtain ⟨_, t1, _, t2, _, t3, t4, t5, t6⟩ := ht
  refine ⟨by simp [timeText, four, two], by simp [timeText, four, two], by simp [timeText, four, two], by simp [timeText, four, two],
    by simp [timeText, four, two], by simp [timeText, four, two], ?_⟩
  simp only [timeText, four, two, List.cons_append, List.nil_append, List.getElem?_cons_succ, List.getElem?_cons_zero, Option.getD_some]
  rw [hexDigit_digitChar (show t.second / 10 < 16 by omega), hexDigit_digitChar (show t.second % 10 < 16 by omega)]
  omega

example : timeText ⟨2026, 11, 16, 9, 5, 0⟩ = "2026-11-16T09:05:00".toList := by decide

/-! ## Proofs: the file -/

theorem digits_no {c : Char} (hc : 16 ≤ hexDigit c) (n : ℕ) : c ∉ digits 10 n := by
  unfold digits
  split
  · intro h; simp at h; subst h; exact absurd hc (by decide)
  · intro h
    simp only [List.mem_reverse, List.mem_map] at h
    obtain ⟨d, hd, rfl⟩ := h
    have := Nat.digits_lt_base (by norm_num : 1 < 10) hd
    rw [hexDigit_digitChar (by omega)] at hc; omega

theorem digits_ten (n : ℕ) : (digits 10 n).foldl (fun n c => 10 * n + hexDigit c) 0 = n := by
  have key : ∀ l : List ℕ, (∀ d ∈ l, d < 10) → ((l.map Nat.digitChar).reverse).foldl (fun n c => 10 * n + hexDigit c) 0 = Nat.ofDigits 10 l := by
    intro l h
    induction l with
    | nil => rfl
    | cons d l ih =>
      rw [List.map_cons, List.reverse_cons, List.foldl_append, ih (fun x hx => h x (by simp [hx]))]
      simp [hexDigit_digitChar (show d < 16 by have := h d (by simp); omega), Nat.ofDigits_cons]; omega
  unfold digits
  split
  · rename_i h; subst h; decide
  · rw [key _ (fun d hd => Nat.digits_lt_base (by norm_num) hd), Nat.ofDigits_digits]

/-- C145: the file consists of five lines, one for each of the entries, with texts in quotation marks. -/
theorem C145_file {sweeps : ℕ} {host address start stop : Str} (h : '\n' ∉ host) (ha : '\n' ∉ address) (hs : '\n' ∉ start)
    (he : '\n' ∉ stop) :
    splitChar '\n' (metadata sweeps host address start stop) =
      [sweepsName ++ digits 10 sweeps, hostName ++ host ++ ['"'],
       addressName ++ address ++ ['"'], startName ++ start ++ ['"'],
       endName ++ stop ++ ['"'], []] := by
  have e : metadata sweeps host address start stop =
      (sweepsName ++ digits 10 sweeps) ++ '\n' :: ((hostName ++ host ++ ['"']) ++ '\n' ::
      ((addressName ++ address ++ ['"']) ++ '\n' :: ((startName ++ start ++ ['"']) ++ '\n' ::
      ((endName ++ stop ++ ['"']) ++ '\n' :: [])))) := by
    simp only [metadata, List.append_assoc, List.cons_append, List.nil_append]
  have d := digits_no (c := '\n') (by decide) sweeps
  have n1 : '\n' ∉ sweepsName := by decide
  have n2 : '\n' ∉ hostName := by decide
  have n3 : '\n' ∉ addressName := by decide
  have n4 : '\n' ∉ startName := by decide
  have n5 : '\n' ∉ endName := by decide
  have q : ∀ p s : Str, '\n' ∉ p → '\n' ∉ s → '\n' ∉ p ++ s ++ ['"'] := by
    intro p s h1 h2 h3
    simp only [List.mem_append, List.mem_singleton] at h3
    rcases h3 with (h3 | h3) | h3
    · exact h1 h3
    · exact h2 h3
    · exact absurd h3 (by decide)
  rw [e, splitChar_append_cons (by intro h3; rcases List.mem_append.mp h3 with h3 | h3; exacts [n1 h3, d h3]),
    splitChar_append_cons (q _ _ n2 h), splitChar_append_cons (q _ _ n3 ha), splitChar_append_cons (q _ _ n4 hs),
    splitChar_append_cons (q _ _ n5 he)]
  rfl

/-- C145: the file determines what has been saved. -/
theorem C145_metadata {sweeps sweeps' : ℕ} {host address start stop host' address' start' stop' : Str}
    (h : '\n' ∉ host) (ha : '\n' ∉ address) (hs : '\n' ∉ start) (he : '\n' ∉ stop)
    (h' : '\n' ∉ host') (ha' : '\n' ∉ address') (hs' : '\n' ∉ start') (he' : '\n' ∉ stop')
    (e : metadata sweeps host address start stop = metadata sweeps' host' address' start' stop') :
    sweeps = sweeps' ∧ host = host' ∧ address = address' ∧ start = start' ∧ stop = stop' := by
  have x := C145_file (sweeps := sweeps) h ha hs he
  rw [e, C145_file h' ha' hs' he'] at x
  simp only [List.cons.injEq, List.append_cancel_left_eq, List.append_cancel_right_eq, List.append_left_inj, List.append_right_inj,
    and_true] at x
  obtain ⟨x1, x2, x3, x4, x5⟩ := x
  exact ⟨by rw [← digits_ten sweeps, ← x1, digits_ten], x2.symm, x3.symm, x4.symm, x5.symm⟩

end OpenMPCD.Sim.Metadata
