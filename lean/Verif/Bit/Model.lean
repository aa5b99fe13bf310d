import Verif.Base.Bytes

/-!
# Model of the fixed-width integer helpers (`/repo/lib/bitfields.h`, `bitfields.cpp`)

A pointer `p` into a buffer is a buffer (`List UInt8`) and a position. Stores and loads that
would leave the buffer give `none` (undefined behaviour in C++).
Values are natural numbers; conversion to the C++ parameter type keeps the low bits, which is
what the stores do anyway.
-/
namespace Verif.Bit

/-- The store/load function pairs of bitfields.h. -/
inductive Codec where
  | s | b24 | l | b40 | b48 | b56 | ll | s_le | b24_le | l_le | ll_le
  deriving DecidableEq, Repr

/-- `(val >> k) & 0xFF` stored in a `char`. -/
def byteAt (val k : Nat) : UInt8 := UInt8.ofNat ((val >>> k) &&& 0xFF)

/-- The bytes assigned to `p[0]`, `p[1]`, ... by the store functions:
`htobs` 26-29, `htobl` 37-42, `htob24` 50-54, `htob40` 63-69, `htob48` 78-85,
`htob56` 94-102, `htobll` 112-121, `htobs_le` 141-144, `htobl_le` 152-157,
`htob24_le` 165-169, `htobll_le` 179-188 (bitfields.h). -/
def htob : Codec → Nat → Bytes
  | .s, v => [byteAt v 8, byteAt v 0]
  | .b24, v => [byteAt v 16, byteAt v 8, byteAt v 0]
  | .l, v => [byteAt v 24, byteAt v 16, byteAt v 8, byteAt v 0]
  | .b40, v => [byteAt v 32, byteAt v 24, byteAt v 16, byteAt v 8, byteAt v 0]
  | .b48, v => [byteAt v 40, byteAt v 32, byteAt v 24, byteAt v 16, byteAt v 8, byteAt v 0]
  | .b56, v => [byteAt v 48, byteAt v 40, byteAt v 32, byteAt v 24, byteAt v 16, byteAt v 8,
      byteAt v 0]
  | .ll, v => [byteAt v 56, byteAt v 48, byteAt v 40, byteAt v 32, byteAt v 24, byteAt v 16,
      byteAt v 8, byteAt v 0]
  | .s_le, v => [byteAt v 0, byteAt v 8]
  | .b24_le, v => [byteAt v 0, byteAt v 8, byteAt v 16]
  | .l_le, v => [byteAt v 0, byteAt v 8, byteAt v 16, byteAt v 24]
  | .ll_le, v => [byteAt v 0, byteAt v 8, byteAt v 16, byteAt v 24, byteAt v 32, byteAt v 40,
      byteAt v 48, byteAt v 56]

/-- The load functions, on the bytes from `p` on: `btohs` 23, `btohl` 32-34, `btoh24` 45-47,
`btoh40` 57-60, `btoh48` 72-75, `btoh56` 88-91, `btohll` 105-109, `btohs_le` 138,
`btohl_le` 147-149, `btoh24_le` 160-162, `btohll_le` 172-176 (bitfields.h). -/
def btoh : Codec → Bytes → Option Nat
  | .s, a :: b :: _ => some ((a.toNat <<< 8) ||| b.toNat)
  | .b24, a :: b :: c :: _ => some ((a.toNat <<< 16) ||| (b.toNat <<< 8) ||| c.toNat)
  | .l, a :: b :: c :: d :: _ =>
    some ((a.toNat <<< 24) ||| (b.toNat <<< 16) ||| (c.toNat <<< 8) ||| d.toNat)
  | .b40, a :: b :: c :: d :: e :: _ =>
    some ((a.toNat <<< 32) ||| (b.toNat <<< 24) ||| (c.toNat <<< 16) ||| (d.toNat <<< 8) |||
      e.toNat)
  | .b48, a :: b :: c :: d :: e :: f :: _ =>
    some ((a.toNat <<< 40) ||| (b.toNat <<< 32) ||| (c.toNat <<< 24) ||| (d.toNat <<< 16) |||
      (e.toNat <<< 8) ||| f.toNat)
  | .b56, a :: b :: c :: d :: e :: f :: g :: _ =>
    some ((a.toNat <<< 48) ||| (b.toNat <<< 40) ||| (c.toNat <<< 32) ||| (d.toNat <<< 24) |||
      (e.toNat <<< 16) ||| (f.toNat <<< 8) ||| g.toNat)
  | .ll, a :: b :: c :: d :: e :: f :: g :: h :: _ =>
    some ((a.toNat <<< 56) ||| (b.toNat <<< 48) ||| (c.toNat <<< 40) ||| (d.toNat <<< 32) |||
      (e.toNat <<< 24) ||| (f.toNat <<< 16) ||| (g.toNat <<< 8) ||| h.toNat)
  | .s_le, a :: b :: _ => some ((b.toNat <<< 8) ||| a.toNat)
  | .b24_le, a :: b :: c :: _ => some ((c.toNat <<< 16) ||| (b.toNat <<< 8) ||| a.toNat)
  | .l_le, a :: b :: c :: d :: _ =>
    some ((d.toNat <<< 24) ||| (c.toNat <<< 16) ||| (b.toNat <<< 8) ||| a.toNat)
  | .ll_le, a :: b :: c :: d :: e :: f :: g :: h :: _ =>
    some ((h.toNat <<< 56) ||| (g.toNat <<< 48) ||| (f.toNat <<< 40) ||| (e.toNat <<< 32) |||
      (d.toNat <<< 24) ||| (c.toNat <<< 16) ||| (b.toNat <<< 8) ||| a.toNat)
  | _, _ => none

/-- Assigning `p[0] .. p[k-1]` for a pointer `p = buf + pos`. -/
def poke (buf : Bytes) (pos : Nat) (bs : Bytes) : Option Bytes :=
  if pos + bs.length ≤ buf.length then some (buf.take pos ++ bs ++ buf.drop (pos + bs.length))
  else none

/-- `Bit::htobX(buf + pos, v)`. -/
def store (c : Codec) (buf : Bytes) (pos v : Nat) : Option Bytes := poke buf pos (htob c v)

/-- `Bit::btohX(buf + pos)`. -/
def load (c : Codec) (buf : Bytes) (pos : Nat) : Option Nat := btoh c (buf.drop pos)

/-- `htobd` (bitfields.h 135): the double's 64-bit pattern is read back through a
`uint32_t*`, so (little-endian host) only its low 32 bits reach `htobll`. -/
def storeD (buf : Bytes) (pos pattern : Nat) : Option Bytes := store .ll buf pos (pattern % 2 ^ 32)

/-- `btohd` (bitfields.h 130-133): the bit pattern of the loaded double. -/
def loadD (buf : Bytes) (pos : Nat) : Option Nat := load .ll buf pos

/-- `htobf` (bitfields.h 128). -/
def storeF (buf : Bytes) (pos pattern : Nat) : Option Bytes := store .l buf pos pattern

/-- `btohf` (bitfields.h 123-126). -/
def loadF (buf : Bytes) (pos : Nat) : Option Nat := load .l buf pos

/-- The loop of `Bit::getMSB` (bitfields.cpp 15-29) on the bytes from `pointer` on, with
`offsetBits < 8`. `*pointer << offsetBits` is done in `int`, so bits pushed out of the byte
stay. The 64-bit accumulator drops bits above 2^64. -/
def getMSBLoop : Nat → Bytes → Nat → Nat → Option Nat
  | _, _, 0, acc => some acc
  | _, [], _ + 1, _ => none
  | off, b :: r, n + 1, acc =>
    let cur := min (8 - off) (n + 1)
    getMSBLoop 0 r (n + 1 - cur)
      (((acc <<< cur) ||| ((b.toNat <<< off) >>> (8 - cur))) % 2 ^ 64)
  termination_by _ p _ => p.length

/-- `Bit::getMSB` (bitfields.cpp 8-31). -/
def getMSB (p : Bytes) (offsetBits dataBits : Nat) : Option Nat :=
  getMSBLoop (offsetBits % 8) (p.drop (offsetBits / 8)) dataBits 0

end Verif.Bit
