import Verif.Base.Bits

/-!
# Model of address matching (`/repo/lib/socket.cpp` 367-381 and 423-441)

Logging and name resolution are left out: an address is the 16-byte form `Address::binForm` returns.
-/
namespace Verif.Ip

/-- `s.data()[i]`: the characters, the terminating zero, and nothing beyond (`none`). -/
def rd (s : Bytes) (i : Nat) : Option UInt8 :=
  if i < s.length then s[i]? else if i = s.length then some 0 else none

/-- `memcmp(A.data(), B.data(), n) == 0`. -/
def same (a b : Bytes) (n : Nat) : Option Bool :=
  if n ≤ a.length + 1 ∧ n ≤ b.length + 1 then some ((a ++ [0]).take n == (b ++ [0]).take n) else none

/-- `Socket::matchIPv6Addr` (socket.cpp 367-381); `none` stands for reading outside the strings. -/
def matchIPv6Addr (a b : Bytes) (prefixBits : Nat) : Option Bool :=
  let p := if prefixBits = 0 then 128 else prefixBits
  match same a b (p / 8) with
  | none => none
  | some false => some false
  | some true =>
    if p % 8 ≠ 0 then
      match rd a (p / 8), rd b (p / 8) with
      | some x, some y => some ((x.toNat &&& (0xFF <<< (8 - p % 8))) == (y.toNat &&& (0xFF <<< (8 - p % 8))))
      | _, _ => none
    else some true

/-- The comparison `isBinAddress` (423-441) makes with one address of the given family; the prefix length
is a `uint8_t`. -/
def matchOne (v4 : Bool) (addr bin : Bytes) (prefixLen : Nat) : Option Bool :=
  if v4 then matchIPv6Addr addr bin (if prefixLen % 256 ≠ 0 then (prefixLen % 256 + 96) % 256 else 0)
  else matchIPv6Addr addr bin (prefixLen % 256)

end Verif.Ip
