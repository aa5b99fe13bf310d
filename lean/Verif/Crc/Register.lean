import Verif.Crc.Lemmas

/-!
# The table-driven steps are eight steps of the shift register
-/
namespace Verif.Crc
open Spec

/-! ## Registers as bit strings -/

/-- The bits of a register in the order of the coefficients it holds, highest coefficient first. -/
def rho (idx : List Nat) (x : BitVec 32) : List Bool := idx.map fun i => x.toNat.testBit i

def msb32 : List Nat := [31, 30, 29, 28, 27, 26, 25, 24, 23, 22, 21, 20, 19, 18, 17, 16,
  15, 14, 13, 12, 11, 10, 9, 8, 7, 6, 5, 4, 3, 2, 1, 0]
def mem32 : List Nat := [7, 6, 5, 4, 3, 2, 1, 0, 15, 14, 13, 12, 11, 10, 9, 8,
  23, 22, 21, 20, 19, 18, 17, 16, 31, 30, 29, 28, 27, 26, 25, 24]
def lsb32 : List Nat := [0, 1, 2, 3, 4, 5, 6, 7, 8, 9, 10, 11, 12, 13, 14, 15,
  16, 17, 18, 19, 20, 21, 22, 23, 24, 25, 26, 27, 28, 29, 30, 31]
def msb16 : List Nat := [15, 14, 13, 12, 11, 10, 9, 8, 7, 6, 5, 4, 3, 2, 1, 0]
def msb8 : List Nat := [7, 6, 5, 4, 3, 2, 1, 0]
def lsb8 : List Nat := [0, 1, 2, 3, 4, 5, 6, 7]

theorem rho_xor (idx : List Nat) (x y : BitVec 32) : rho idx (x ^^^ y) = xorL (rho idx x) (rho idx y) := by
  induction idx with
  | nil => rfl
  | cons i idx ih =>
    simp only [rho, List.map_cons, xorL_cons, BitVec.toNat_xor, Nat.testBit_xor] at *
    rw [ih]

theorem tb (v k : Nat) : decide (v / 2 ^ k % 2 = 1) = v.testBit k :=
  (Nat.testBit_eq_decide_div_mod_eq).symm

theorem toBits_msb32 (x : BitVec 32) : toBits 32 x.toNat = rho msb32 x := by
  simp only [toBits, tb, rho, msb32, List.map]
theorem toBits_msb16 (x : BitVec 32) : toBits 16 x.toNat = rho msb16 x := by
  simp only [toBits, tb, rho, msb16, List.map]
theorem toBits_msb8 (x : BitVec 32) : toBits 8 x.toNat = rho msb8 x := by
  simp only [toBits, tb, rho, msb8, List.map]
theorem toBits_lsb32 (x : BitVec 32) : (toBits 32 x.toNat).reverse = rho lsb32 x := by
  simp only [toBits, tb, rho, lsb32, List.map, List.reverse, List.reverseAux]

theorem toBits8_mod (n : Nat) : toBits 8 (n % 256) = toBits 8 n := toBits_congr (by omega)

theorem testBit_div (v k i : Nat) : (v / 2 ^ k).testBit i = v.testBit (k + i) := by
  rw [Nat.testBit_div_two_pow, Nat.add_comm]

theorem mem_bits (x : BitVec 32) : bytesBits (leEnc 4 x.toNat) = rho mem32 x := by
  simp only [leEnc, bytesBits, u8n, toBits8_mod, Nat.div_div_eq_div_mul, List.append_nil]
  rw [show (256 : Nat) = 2 ^ 8 from rfl, show (2 ^ 8 * 2 ^ 8 : Nat) = 2 ^ 16 from rfl,
    show (2 ^ 16 * 2 ^ 8 : Nat) = 2 ^ 24 from rfl]
  simp only [toBits, tb, testBit_div, rho, mem32, List.map, List.cons_append, List.nil_append, Nat.reduceAdd]

theorem wide_lt (b : UInt8) : (wide b).toNat = b.toNat := by
  have := b.toNat_lt
  simp only [wide, BitVec.toNat_ofNat]
  omega

theorem rho_wide_msb (b : UInt8) : rho msb8 (wide b) = toBits 8 b.toNat := by
  rw [← toBits_msb8, wide_lt]

theorem rho_wide_lsb (b : UInt8) : rho lsb8 (wide b) = (toBits 8 b.toNat).reverse := by
  simp only [← wide_lt b, toBits, tb, rho, lsb8, List.map, List.reverse, List.reverseAux]

theorem testBit_ff (i : Nat) : (255 : Nat).testBit i = decide (i < 8) :=
  Nat.testBit_two_pow_sub_one 8 i

theorem wide_hi (b : UInt8) {i : Nat} (h : 8 ≤ i) : (wide b).toNat.testBit i = false := by
  rw [wide_lt]
  exact Nat.testBit_lt_two_pow (Nat.lt_of_lt_of_le b.toNat_lt (Nat.pow_le_pow_right (by decide) h))

theorem byte_of_hi {x : BitVec 32} (h : ∀ i, 8 ≤ i → x.toNat.testBit i = false) :
    wide (UInt8.ofNat x.toNat) = x := by
  have hx : x.toNat < 2 ^ 8 := by
    refine Nat.lt_pow_two_of_testBit _ ?_
    exact h
  apply BitVec.eq_of_toNat_eq
  rw [wide_lt, u8n]
  omega

/-- A table-driven step is eight steps of the register. -/
theorem step_feed {g : List Bool} {idx i8 : List Nat} {t : List Nat} {x i : BitVec 32} {m : List Bool}
    (hlen : idx.length = g.length) (hg : 8 ≤ g.length)
    (htab : ∀ c : UInt8, rho idx (look t (wide c)) =
      feed g (rho i8 (wide c) ++ zeros (g.length - 8)) (zeros 8))
    (hm : m.length = 8) (hhi : ∀ k, 8 ≤ k → i.toNat.testBit k = false)
    (hi : rho i8 i = xorL ((rho idx x).take 8) m) :
    xorL (rho idx (look t i)) ((rho idx x).drop 8 ++ zeros 8) = feed g (rho idx x) m := by
  rw [feed_split (by simp [rho, hlen]) (by omega), hm, ← hi, ← byte_of_hi hhi, htab]

theorem tab32c (c : UInt8) : rho msb32 (look table32c (wide c)) =
    feed gen32 (rho msb8 (wide c) ++ zeros 24) (zeros 8) := by
  revert c; decide +kernel

theorem tab32 (c : UInt8) : rho mem32 (look table32 (wide c)) =
    feed gen32 (rho msb8 (wide c) ++ zeros 24) (zeros 8) := by
  revert c; decide +kernel

theorem tab32LE (c : UInt8) : rho lsb32 (look table32LE (wide c)) =
    feed gen32 (rho lsb8 (wide c) ++ zeros 24) (zeros 8) := by
  revert c; decide +kernel

theorem tab16 (c : UInt8) : rho msb16 (look table16 (wide c)) =
    feed gen16 (rho msb8 (wide c) ++ zeros 8) (zeros 8) := by
  revert c; decide +kernel

theorem tab8 (c : UInt8) : rho msb8 (look table8 (wide c)) =
    feed gen8 (rho msb8 (wide c) ++ zeros 0) (zeros 8) := by
  revert c; decide +kernel

theorem shl8 (x : BitVec 32) (i : Nat) : (x <<< 8).toNat.testBit i = (decide (i < 32) && decide (8 ≤ i) && x.toNat.testBit (i - 8)) := by
  rw [BitVec.toNat_shiftLeft, Nat.testBit_mod_two_pow, Nat.testBit_shiftLeft, Bool.and_assoc]

theorem top_hi (b : UInt8) (x : BitVec 32) {k : Nat} (h : 8 ≤ k) :
    (wide b ^^^ (x &&& 0xff)).toNat.testBit k = false := by
  have h8 : ¬ k < 8 := by omega
  simp only [BitVec.toNat_xor, Nat.testBit_xor, wide_hi b h, BitVec.toNat_and, Nat.testBit_and]
  simp [testBit_ff, h8]

theorem step32c_feed (x : BitVec 32) (b : UInt8) :
    rho msb32 (step32c x b) = feed gen32 (rho msb32 x) (toBits 8 b.toNat) := by
  rw [← step_feed (i8 := msb8) (i := wide b ^^^ ((x >>> 24) &&& 0xff)) (by decide) (by decide) tab32c (by simp) (fun _ h => top_hi _ _ h)]
  · simp only [step32c]
    rw [rho_xor]
    congr 1
    simp only [rho, msb32, List.map, shl8]
    simp [zeros, List.replicate]
  · rw [rho_xor, rho_wide_msb, xorL_comm]
    congr 1
    simp only [rho, msb8, msb32, List.map, BitVec.toNat_and, Nat.testBit_and, BitVec.toNat_ushiftRight,
      Nat.testBit_shiftRight]
    simp [testBit_ff]

theorem step32_feed (x : BitVec 32) (b : UInt8) :
    rho mem32 (step32 x b) = feed gen32 (rho mem32 x) (toBits 8 b.toNat) := by
  rw [← step_feed (i8 := msb8) (i := (x &&& 0xff) ^^^ wide b) (by decide) (by decide) tab32 (by simp)
    (fun _ h => by rw [BitVec.xor_comm]; exact top_hi _ _ h)]
  · simp only [step32]
    rw [rho_xor]
    congr 1
    have hx : ∀ i, 32 ≤ i → x.toNat.testBit i = false := fun i h =>
      Nat.testBit_lt_two_pow (Nat.lt_of_lt_of_le x.isLt (Nat.pow_le_pow_right (by decide) h))
    simp only [rho, mem32, List.map, BitVec.toNat_ushiftRight, Nat.testBit_shiftRight]
    simp [zeros, List.replicate, hx]
  · rw [rho_xor, rho_wide_msb]
    congr 1
    simp only [rho, msb8, mem32, List.map, BitVec.toNat_and, Nat.testBit_and]
    simp [testBit_ff]

theorem step32LE_feed (x : BitVec 32) (b : UInt8) :
    rho lsb32 (step32LE x b) = feed gen32 (rho lsb32 x) (toBits 8 b.toNat).reverse := by
  have hk : ∀ k, 8 ≤ k → ((wide b ^^^ x) &&& 0xff).toNat.testBit k = false := by
    intro k h
    have h8 : ¬ k < 8 := by omega
    simp only [BitVec.toNat_and, Nat.testBit_and]
    simp [testBit_ff, h8]
  rw [← step_feed (i8 := lsb8) (i := (wide b ^^^ x) &&& 0xff) (by decide) (by decide) tab32LE (by simp) hk]
  · simp only [step32LE]
    rw [rho_xor]
    congr 1
    have hx : ∀ i, 32 ≤ i → x.toNat.testBit i = false := fun i h =>
      Nat.testBit_lt_two_pow (Nat.lt_of_lt_of_le x.isLt (Nat.pow_le_pow_right (by decide) h))
    simp only [rho, lsb32, List.map, BitVec.toNat_ushiftRight, Nat.testBit_shiftRight]
    simp [zeros, List.replicate, hx]
  · have e : rho lsb8 ((wide b ^^^ x) &&& 0xff) = rho lsb8 (wide b ^^^ x) := by
      simp only [rho, lsb8, List.map, BitVec.toNat_and, Nat.testBit_and]
      simp [testBit_ff]
    rw [e, rho_xor, rho_wide_lsb, xorL_comm]
    rfl

theorem step16_feed (x : BitVec 32) (b : UInt8) :
    rho msb16 (step16 x b) = feed gen16 (rho msb16 x) (toBits 8 b.toNat) := by
  have hk : ∀ k, 8 ≤ k → (((x >>> 8) ^^^ wide b) &&& 0x00ff).toNat.testBit k = false := by
    intro k h
    have h8 : ¬ k < 8 := by omega
    simp only [BitVec.toNat_and, Nat.testBit_and]
    simp [testBit_ff, h8]
  rw [← step_feed (i8 := msb8) (i := ((x >>> 8) ^^^ wide b) &&& 0x00ff) (by decide) (by decide) tab16 (by simp) hk]
  · simp only [step16]
    rw [rho_xor, xorL_comm]
    congr 1
    simp only [rho, msb16, List.map, shl8]
    simp [zeros, List.replicate]
  · have e : rho msb8 (((x >>> 8) ^^^ wide b) &&& 0x00ff) = rho msb8 ((x >>> 8) ^^^ wide b) := by
      simp only [rho, msb8, List.map, BitVec.toNat_and, Nat.testBit_and]
      simp [testBit_ff]
    rw [e, rho_xor, rho_wide_msb]
    congr 1

theorem step8_feed (x : BitVec 32) (b : UInt8) :
    rho msb8 (step8 x b) = feed gen8 (rho msb8 x) (toBits 8 b.toNat) := by
  rw [← step_feed (i8 := msb8) (i := wide b ^^^ (x &&& 0xff)) (by decide) (by decide) tab8 (by simp) (fun _ h => top_hi _ _ h)]
  · simp only [step8]
    rw [rho_xor]
    congr 1
    simp only [rho, msb8, List.map, BitVec.toNat_and, Nat.testBit_and, shl8]
    simp [zeros, List.replicate]
  · rw [rho_xor, rho_wide_msb, xorL_comm]
    congr 1
    simp only [rho, msb8, List.map, BitVec.toNat_and, Nat.testBit_and]
    simp [testBit_ff]

end Verif.Crc
