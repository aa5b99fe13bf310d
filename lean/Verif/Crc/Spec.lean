import Verif.Base.Bits
import Mathlib.Algebra.Polynomial.Basic
import Mathlib.Data.ZMod.Basic

/-!
# What a cyclic redundancy check is

A message is a list of bits, read as a polynomial over the field of two elements, first bit highest. The
check value of width `w` for the generator `G` (of degree `w`) is the remainder of the message times
`X ^ w` on division by `G`, where a non-zero start value stands for a polynomial put in front of the message.
-/
namespace Verif.Crc.Spec
open Polynomial

/-- A list of bits as a polynomial, first bit highest. -/
noncomputable def poly : List Bool → (ZMod 2)[X]
  | [] => 0
  | b :: r => (if b then X ^ r.length else 0) + poly r

/-- `crc` is the check value of width `w` of the message `m`, started at `start`, for the generator
`X ^ w + poly g`: it has `w` bits and is congruent to `start * X ^ length m + m * X ^ w`. -/
def IsCrc (g start m crc : List Bool) : Prop :=
  crc.length = g.length ∧
    (X ^ g.length + poly g) ∣ poly crc - (poly start * X ^ m.length + poly m * X ^ g.length)

/-- The four generators, leading coefficient left out, highest coefficient first. -/
def gen32 : List Bool := toBits 32 0x04C11DB7
def gen16 : List Bool := toBits 16 0x8005
def gen8 : List Bool := toBits 8 0x07

/-- The bits of a byte string, each byte least significant bit first. -/
def bitsLsbFirst (s : Bytes) : List Bool := (s.map fun b => (toBits 8 b.toNat).reverse).flatten

end Verif.Crc.Spec
