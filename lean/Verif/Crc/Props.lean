import Verif.Crc.Register

/-!
# C25: checksums can be computed incrementally and match their polynomial
-/
namespace Verif.Crc
open Spec

/-- Each checksum of a concatenation is the checksum of the second part started from that of the first. -/
theorem C25_incremental (crc : BitVec 32) (a b : Bytes) :
    crc32c crc (a ++ b) = crc32c (crc32c crc a) b ∧
    crc32 crc (a ++ b) = crc32 (crc32 crc a) b ∧
    crc32LE crc (a ++ b) = crc32LE (crc32LE crc a) b ∧
    crc16 crc (a ++ b) = crc16 (crc16 crc a) b ∧
    crc8 crc (a ++ b) = crc8 (crc8 crc a) b := by
  simp [crc32c, crc32, crc32LE, crc16, crc8]

theorem fold_feed {g : List Bool} {idx : List Nat} {step : BitVec 32 → UInt8 → BitVec 32}
    {sb : UInt8 → List Bool} (h : ∀ x b, rho idx (step x b) = feed g (rho idx x) (sb b))
    (x : BitVec 32) (data : Bytes) :
    rho idx (data.foldl step x) = feed g (rho idx x) (data.map sb).flatten := by
  induction data generalizing x with
  | nil => rfl
  | cons b r ih => simp only [List.foldl_cons, ih, h, List.map_cons, List.flatten_cons, feed_append]

theorem bytesBits_flatten (s : Bytes) : bytesBits s = (s.map fun b => toBits 8 b.toNat).flatten := by
  induction s with
  | nil => rfl
  | cons b r ih => simp [bytesBits, ih]

theorem crc32c_feed (crc : BitVec 32) (data : Bytes) :
    toBits 32 (crc32c crc data).toNat = feed gen32 (toBits 32 crc.toNat) (bytesBits data) := by
  rw [toBits_msb32, toBits_msb32, bytesBits_flatten]
  exact fold_feed step32c_feed crc data

theorem crc32_feed (crc : BitVec 32) (data : Bytes) :
    bytesBits (leEnc 4 (crc32 crc data).toNat) = feed gen32 (bytesBits (leEnc 4 crc.toNat)) (bytesBits data) := by
  rw [mem_bits, mem_bits, bytesBits_flatten data]
  exact fold_feed step32_feed crc data

theorem crc32LE_feed (crc : BitVec 32) (data : Bytes) :
    (toBits 32 (crc32LE crc data).toNat).reverse = feed gen32 (toBits 32 crc.toNat).reverse (bitsLsbFirst data) := by
  rw [toBits_lsb32, toBits_lsb32, bitsLsbFirst]
  exact fold_feed step32LE_feed crc data

theorem crc16_feed (crc : BitVec 32) (data : Bytes) :
    toBits 16 (crc16 crc data).toNat = feed gen16 (toBits 16 crc.toNat) (bytesBits data) := by
  rw [toBits_msb16, toBits_msb16, bytesBits_flatten]
  exact fold_feed step16_feed crc data

theorem crc8_feed (crc : BitVec 32) (data : Bytes) :
    toBits 8 (crc8 crc data).toNat = feed gen8 (toBits 8 crc.toNat) (bytesBits data) := by
  rw [toBits_msb8, toBits_msb8, bytesBits_flatten]
  exact fold_feed step8_feed crc data

/-- `crc32c` is the check value for the generator `0x04C11DB7` (bytes sent most significant bit first). -/
theorem C25_crc32c (crc : BitVec 32) (data : Bytes) :
    IsCrc gen32 (toBits 32 crc.toNat) (bytesBits data) (toBits 32 (crc32c crc data).toNat) := by
  rw [crc32c_feed]; exact feed_isCrc (by simp [gen32]) (by decide) _

/-- `crc32`, stored as it lies in the memory of a little-endian machine, is the check value for the
generator `0x04C11DB7`. -/
theorem C25_crc32 (crc : BitVec 32) (data : Bytes) :
    IsCrc gen32 (bytesBits (leEnc 4 crc.toNat)) (bytesBits data) (bytesBits (leEnc 4 (crc32 crc data).toNat)) := by
  rw [crc32_feed]; exact feed_isCrc (by simp [gen32]) (by decide) _

/-- `crc32LE` is the check value for the same generator when bytes are sent least significant bit first. -/
theorem C25_crc32LE (crc : BitVec 32) (data : Bytes) :
    IsCrc gen32 (toBits 32 crc.toNat).reverse (bitsLsbFirst data) (toBits 32 (crc32LE crc data).toNat).reverse := by
  rw [crc32LE_feed]; exact feed_isCrc (by simp [gen32]) (by decide) _

/-- The low 16 bits of `crc16` are the check value for the generator `0x8005`. What is missing from the full
claim is that the result is those 16 bits: see `C25_crc16_fails`. -/
theorem C25_crc16_partial (crc : BitVec 32) (data : Bytes) :
    IsCrc gen16 (toBits 16 crc.toNat) (bytesBits data) (toBits 16 (crc16 crc data).toNat) := by
  rw [crc16_feed]; exact feed_isCrc (by simp [gen16]) (by decide) _

/-- `crc8` of a non-empty string is a byte, and it is the check value for the generator `0x07`. -/
theorem C25_crc8 (crc : BitVec 32) (data : Bytes) :
    IsCrc gen8 (toBits 8 crc.toNat) (bytesBits data) (toBits 8 (crc8 crc data).toNat) := by
  rw [crc8_feed]; exact feed_isCrc (by simp [gen8]) (by decide) _

theorem look8_hi (c : UInt8) : (look table8 (wide c)).toNat < 256 := by
  revert c; decide +kernel

theorem C25_crc8_byte (crc : BitVec 32) (data : Bytes) (h : data ≠ []) : (crc8 crc data).toNat < 256 := by
  obtain ⟨d, b, rfl⟩ : ∃ d b, data = d ++ [b] := by
    rcases List.eq_nil_or_concat data with h' | ⟨d, b, h'⟩
    · exact absurd h' h
    · exact ⟨d, b, by simpa using h'⟩
  simp only [crc8, List.foldl_append, List.foldl_cons, List.foldl_nil]
  generalize List.foldl step8 crc d = x
  refine Nat.lt_pow_two_of_testBit (n := 8) _ ?_
  intro i hi
  have h8 : ¬ i < 8 := by omega
  simp only [step8, BitVec.toNat_xor, Nat.testBit_xor, BitVec.toNat_and, Nat.testBit_and]
  rw [← byte_of_hi (fun k hk => top_hi b x hk)]
  rw [Nat.testBit_lt_two_pow (Nat.lt_of_lt_of_le (look8_hi _) (Nat.pow_le_pow_right (n := 2) (by decide) hi))]
  simp [testBit_ff, h8]

/-- The result of `crc16` is not a 16-bit number: two bytes already push bits above it. -/
theorem C25_crc16_fails : ∃ data : Bytes, ¬ (crc16 0 data).toNat < 2 ^ 16 :=
  ⟨[1, 2], by decide +kernel⟩

/-! The check value is determined by the specification: there is only one. -/
theorem C25_unique {g start m a b : List Bool} (ha : IsCrc g start m a) (hb : IsCrc g start m b) : a = b :=
  ha.unique hb

/-! ## Verification: a message followed by its own checksum gives zero -/

theorem toBits_zero (w : Nat) : toBits w 0 = zeros w := by
  induction w with
  | zero => rfl
  | succ w ih => simp [toBits, zeros_succ, ih]

theorem feed_self {g r : List Bool} (hr : r.length = g.length) : feed g r r = zeros g.length := by
  have := feed_own g r []
  simpa [hr] using this

theorem C25_crc32c_residue (crc : BitVec 32) (data : Bytes) :
    crc32c crc (data ++ beEnc 4 (crc32c crc data).toNat) = 0 := by
  apply BitVec.eq_of_toNat_eq
  refine toBits_inj (w := 32) (BitVec.isLt _) (by decide) ?_
  rw [crc32c_feed, bytesBits_append, feed_append, ← crc32c_feed, bytesBits_beEnc]
  exact (feed_self (by simp [gen32])).trans (toBits_zero 32).symm

theorem leEnc4_inj {a b : Nat} (ha : a < 2 ^ 32) (hb : b < 2 ^ 32) (h : leEnc 4 a = leEnc 4 b) : a = b := by
  have := congrArg leVal h
  rw [leVal_leEnc, leVal_leEnc] at this
  omega

/-- This is the form the transport stream tables use: the value of `crc32` copied from memory behind the section. -/
theorem C25_crc32_residue (crc : BitVec 32) (data : Bytes) :
    crc32 crc (data ++ leEnc 4 (crc32 crc data).toNat) = 0 := by
  apply BitVec.eq_of_toNat_eq
  refine leEnc4_inj (BitVec.isLt _) (by decide) (bytesBits_inj ?_)
  rw [crc32_feed, bytesBits_append, feed_append, ← crc32_feed, feed_self (by simp [gen32])]
  decide +kernel

theorem lsb_bits (n : Nat) : bitsLsbFirst (leEnc 4 n) = (toBits 32 n).reverse := by
  simp only [bitsLsbFirst, leEnc, u8n, toBits8_mod, Nat.div_div_eq_div_mul, List.map_cons, List.map_nil, List.flatten_cons,
    List.flatten_nil, List.append_nil]
  rw [show (256 : Nat) = 2 ^ 8 from rfl, show (2 ^ 8 * 2 ^ 8 : Nat) = 2 ^ 16 from rfl,
    show (2 ^ 16 * 2 ^ 8 : Nat) = 2 ^ 24 from rfl, toBits_add 24 8, toBits_add 16 8, toBits_add 8 8]
  simp only [List.reverse_append, List.append_assoc, Nat.div_div_eq_div_mul]
  rfl

theorem C25_crc32LE_residue (crc : BitVec 32) (data : Bytes) :
    crc32LE crc (data ++ leEnc 4 (crc32LE crc data).toNat) = 0 := by
  apply BitVec.eq_of_toNat_eq
  refine toBits_inj (w := 32) (BitVec.isLt _) (by decide) ?_
  refine List.reverse_inj.mp ?_
  rw [crc32LE_feed]
  have : ∀ a b : Bytes, bitsLsbFirst (a ++ b) = bitsLsbFirst a ++ bitsLsbFirst b := by simp [bitsLsbFirst]
  rw [this, feed_append, ← crc32LE_feed, lsb_bits, feed_self (by simp [gen32])]
  decide +kernel

theorem C25_crc8_residue (crc : BitVec 32) (data : Bytes) :
    crc8 crc (data ++ [UInt8.ofNat (crc8 crc data).toNat]) = 0 := by
  apply BitVec.eq_of_toNat_eq
  refine toBits_inj (w := 8) (C25_crc8_byte _ _ (by simp)) (by decide) ?_
  rw [crc8_feed, bytesBits_append, feed_append, ← crc8_feed]
  simp only [bytesBits, u8n, toBits8_mod, List.append_nil]
  exact (feed_self (by simp [gen8])).trans (toBits_zero 8).symm

/-! ## Damage is noticed: bursts no longer than the check value always change it -/

/-- Two messages that differ only inside a window no longer than the check value have different check
values (any start value). -/
theorem C25_burst (crc : BitVec 32) (x y : Bytes) (a u v c : List Bool)
    (hx : bytesBits x = a ++ u ++ c) (hy : bytesBits y = a ++ v ++ c) (hl : u.length = v.length) (huv : u ≠ v) :
    (u.length ≤ 32 → crc32c crc x ≠ crc32c crc y ∧ crc32 crc x ≠ crc32 crc y) ∧
    (u.length ≤ 16 → crc16 crc x ≠ crc16 crc y) ∧
    (u.length ≤ 8 → crc8 crc x ≠ crc8 crc y) := by
  have key : ∀ (g r : List Bool), g.getLast? = some true → r.length = g.length → u.length ≤ g.length →
      feed g r (bytesBits x) ≠ feed g r (bytesBits y) := by
    intro g r hg hr hu h
    rw [hx, hy, feed_append, feed_append, feed_append, feed_append] at h
    have h2 := feed_inj hg (feed_length (feed_length hr a) u) (feed_length (feed_length hr a) v) h
    exact huv (feed_burst hg (feed_length hr a) hl hu h2)
  refine ⟨fun hu => ⟨fun e => ?_, fun e => ?_⟩, fun hu e => ?_, fun hu e => ?_⟩
  · exact key gen32 (toBits 32 crc.toNat) (by decide) (by simp [gen32]) (by simpa [gen32] using hu)
      (by rw [← crc32c_feed, ← crc32c_feed, e])
  · exact key gen32 (bytesBits (leEnc 4 crc.toNat)) (by decide) (by simp [gen32]) (by simpa [gen32] using hu)
      (by rw [← crc32_feed, ← crc32_feed, e])
  · exact key gen16 (toBits 16 crc.toNat) (by decide) (by simp [gen16]) (by simpa [gen16] using hu)
      (by rw [← crc16_feed, ← crc16_feed, e])
  · exact key gen8 (toBits 8 crc.toNat) (by decide) (by simp [gen8]) (by simpa [gen8] using hu)
      (by rw [← crc8_feed, ← crc8_feed, e])

/-- The same for `crc32LE`, whose messages are read least significant bit first. -/
theorem C25_burst_lsb (crc : BitVec 32) (x y : Bytes) (a u v c : List Bool)
    (hx : bitsLsbFirst x = a ++ u ++ c) (hy : bitsLsbFirst y = a ++ v ++ c) (hl : u.length = v.length)
    (huv : u ≠ v) (hu : u.length ≤ 32) : crc32LE crc x ≠ crc32LE crc y := by
  intro e
  have h : feed gen32 (toBits 32 crc.toNat).reverse (bitsLsbFirst x) =
      feed gen32 (toBits 32 crc.toNat).reverse (bitsLsbFirst y) := by
    rw [← crc32LE_feed, ← crc32LE_feed, e]
  rw [hx, hy, feed_append, feed_append, feed_append, feed_append] at h
  have hr : (toBits 32 crc.toNat).reverse.length = gen32.length := by simp [gen32]
  have h2 := feed_inj (by decide) (feed_length (feed_length hr a) u) (feed_length (feed_length hr a) v) h
  exact huv (feed_burst (by decide) (feed_length hr a) hl (by simpa [gen32] using hu) h2)

/-! Published check values of the string `123456789`. -/
example : crc32c 0xffffffff [0x31, 0x32, 0x33, 0x34, 0x35, 0x36, 0x37, 0x38, 0x39] = 0x0376e6e7 := by decide +kernel
example : crc32LE 0xffffffff [0x31, 0x32, 0x33, 0x34, 0x35, 0x36, 0x37, 0x38, 0x39] = 0xcbf43926 ^^^ 0xffffffff := by
  decide +kernel
example : crc32 0xffffffff [0x31, 0x32, 0x33, 0x34, 0x35, 0x36, 0x37, 0x38, 0x39] = 0xe7e67603 := by decide +kernel
example : crc8 0 [0x31, 0x32, 0x33, 0x34, 0x35, 0x36, 0x37, 0x38, 0x39] = 0xf4 := by decide +kernel

/-- A burst: one flipped bit in the second of two bytes. -/
example : ∃ a u v c : List Bool, bytesBits [1, 2] = a ++ u ++ c ∧ bytesBits [1, 0x82] = a ++ v ++ c ∧
    u.length = v.length ∧ u ≠ v ∧ u.length ≤ 8 :=
  ⟨toBits 8 1, [false], [true], toBits 7 2, by decide +kernel⟩

end Verif.Crc
