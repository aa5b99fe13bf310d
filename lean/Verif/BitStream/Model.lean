import Verif.Bit.Model

/-!
# Model of `/repo/lib/bitstream.cpp`: bit reader, bit writer, Exp-Golomb codes

The reader's buffer is `data`; growth by `realloc` is not modelled (allocation succeeds).
`int` conversions of byte indices are exact below 2^31 bytes.
-/
namespace Verif.BitStream
open Verif.Bit

/-! ## Reader (`Utils::bitstream`) -/

structure R where
  data : Bytes
  offset : Nat
  deriving DecidableEq

/-- `append` (34-39): bytes are added at the end. -/
def R.append (r : R) (input : Bytes) : R := { r with data := r.data ++ input }

/-- `size` (105). -/
def R.size (r : R) : Nat := 8 * r.data.length - r.offset

/-- `peekOffset` (43-46); `none` is a read outside the buffer. -/
def R.peekOffset (r : R) (i : Nat) : Option Bool :=
  (r.data[(i + r.offset) >>> 3]?).map fun b =>
    ((b.toNat >>> (7 - ((i + r.offset) &&& 7))) &&& 1) == 1

/-- The loop of `peek` (62-82). -/
def peekLoop (data : Bytes) (offset count cur retval : Nat) : Option Nat :=
  if _h : cur < count then
    match data[(offset + cur) / 8]? with
    | none => none
    | some b =>
      let readOff := (offset + cur) % 8
      let readSize := 8 - readOff
      let readBuff := if readOff ≠ 0 then b.toNat &&& ((1 <<< readSize) - 1) else b.toNat
      if _h2 : count - cur < readSize then
        peekLoop data offset count (cur + (count - cur))
          (((retval <<< (count - cur)) + (readBuff >>> (8 - (count - cur) - readOff))) % 2 ^ 64)
      else
        peekLoop data offset count (cur + readSize) (((retval <<< readSize) + readBuff) % 2 ^ 64)
  else some retval
  termination_by count - cur
  decreasing_by
    · omega
    · omega

/-- `peek` (48-84). -/
def R.peek (r : R) (count : Nat) : Option Nat :=
  if count > r.size then some 0 else peekLoop r.data r.offset count 0 0

/-- `skip` (97-103). -/
def R.skip (r : R) (count : Nat) : R :=
  if count ≤ r.size then { r with offset := r.offset + count }
  else { r with offset := r.data.length * 8 }

/-- `get` (86-95). -/
def R.get (r : R) (count : Nat) : Option (Nat × R) :=
  if count ≤ r.size then (r.peek count).map fun v => (v, r.skip count) else some (0, r)

/-- `flush` (112-116): drops the whole bytes already read. -/
def R.flush (r : R) : R := ⟨r.data.drop (r.offset / 8), r.offset % 8⟩

/-- The loop of `golombGetter` (125-130) from index `i` on. -/
def golombLoop (r : R) (i : Nat) : Option (Nat × R) :=
  if _h : i < 64 ∧ i < r.size then
    match r.peekOffset i with
    | none => none
    | some true => r.get (i * 2 + 1)
    | some false => golombLoop r (i + 1)
  else some (0, r)
  termination_by 64 - i

/-- `golombGetter` (125-130). -/
def R.golombGetter (r : R) : Option (Nat × R) := golombLoop r 0

/-- `getUExpGolomb` (137); unsigned subtraction. -/
def R.getUExpGolomb (r : R) : Option (Nat × R) :=
  r.golombGetter.map fun (v, r') => ((v + (2 ^ 64 - 1)) % 2 ^ 64, r')

/-- A 64-bit pattern as a signed number. -/
def toSigned (x : Nat) : Int := if x % 2 ^ 64 < 2 ^ 63 then (x % 2 ^ 64 : Nat) else (x % 2 ^ 64 : Nat) - 2 ^ 64

/-- `getExpGolomb` (132-135); the product is computed modulo 2^64. -/
def R.getExpGolomb (r : R) : Option (Int × R) :=
  r.golombGetter.map fun (t, r') =>
    (toSigned ((t >>> 1) * ((1 + 2 ^ 64 - ((t &&& 1) <<< 1)) % 2 ^ 64)), r')

/-- `bitSizeUExpGolomb` (bitstream.h 34-42), valid while `power` stays below 2^64. -/
def bitSizeLoop (value i power : Nat) : Nat :=
  if _h : power - 2 < value ∧ 0 < power then bitSizeLoop value (i + 2) (power * 2) else i
  termination_by value + 2 - power

def bitSizeUExpGolomb (value : Nat) : Nat := bitSizeLoop value 1 2

/-! ## Writer (`Utils::bitWriter`) -/

structure W where
  p : Bytes
  bitSize : Nat
  deriving DecidableEq

def W.init : W := ⟨[], 0⟩

/-- The scratch buffer after lines 162-168, for `bitShift = 64 - bitLength - bitSize % 8`.
The ninth byte is only assigned in the second branch. -/
def scratch (val bitLength off : Nat) : Bytes :=
  if bitLength + off ≤ 64 then htob .ll ((val <<< (64 - bitLength - off)) % 2 ^ 64)
  else
    htob .ll (val >>> (bitLength + off - 64)) ++
      [UInt8.ofNat ((val <<< (8 - (bitLength + off - 64))) &&& 0xFF)]

/-- `for (i) p[start + i] |= buf[i]`, over the first bytes of `p` from `start`. -/
def orInto : Bytes → Bytes → Bytes
  | p, [] => p
  | [], _ :: _ => []
  | a :: p, b :: buf => (a ||| b) :: orInto p buf

/-- `bitWriter::append(uint64_t, size_t)` (154-175). `none`: shift by 64 or more, or the
nine-byte scratch buffer is overrun (undefined behaviour). -/
def W.append (w : W) (val bitLength : Nat) : Option W :=
  let off := w.bitSize % 8
  if bitLength + off = 0 ∨ bitLength + off > 72 then none
  else
    let byteLength := (w.bitSize + bitLength) / 8 + 1
    let p := w.p ++ List.replicate (byteLength - w.p.length) 0
    let adjBits := off + bitLength
    let adjBytes := adjBits / 8 + (if adjBits % 8 ≠ 0 then 1 else 0)
    let q := w.bitSize / 8
    let p' := p.take q ++ orInto (p.drop q) ((scratch val bitLength off).take adjBytes)
    some ⟨p', w.bitSize + bitLength⟩

/-- `str` (bitstream.h 67). -/
def W.str (w : W) : Bytes := w.p.take (w.bitSize / 8 + (if w.bitSize % 8 ≠ 0 then 1 else 0))

/-- The loop of `UExpGolombEncodedSize` (186-189). `maxVal` is always `2^k-1` below `value`,
so the 64-bit shift does not overflow. -/
def sizeLoop (value res maxVal : Nat) : Nat :=
  if _h : value > maxVal then sizeLoop value (res + 1) (maxVal <<< 1 ||| 1) else res
  termination_by value - maxVal
  decreasing_by
    have h1 : maxVal <<< 1 ≤ maxVal <<< 1 ||| 1 := Nat.left_le_or
    have h2 : 1 ≤ maxVal <<< 1 ||| 1 := Nat.right_le_or
    have _h3 : maxVal * 2 = maxVal <<< 1 := by rw [Nat.shiftLeft_eq]
    omega

/-- `UExpGolombEncodedSize` (182-191); `value++` wraps at 2^64. -/
def encodedSize (value : Nat) : Nat := 2 * sizeLoop ((value + 1) % 2 ^ 64) 1 1 - 1

/-- `appendUExpGolomb` (202-204). -/
def W.appendUExpGolomb (w : W) (value : Nat) : Option W :=
  w.append ((value + 1) % 2 ^ 64) (encodedSize value)

/-- `appendExpGolomb` (193-200), for values whose double fits in 64 bits. -/
def W.appendExpGolomb (w : W) (value : Int) : Option W :=
  w.appendUExpGolomb (if value < 0 then (value * -2).toNat
    else if value > 0 then (value * 2 - 1).toNat else 0)

end Verif.BitStream
