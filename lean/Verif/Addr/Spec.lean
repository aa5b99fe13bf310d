import Verif.Base.Bytes

/-!
# What the text of an address means (RFC 4291, section 2.2)

Numbers separated by dots or colons; `::` once for one or more groups of zeros; an IPv4 address in place of the last two groups.
-/
namespace Verif.Addr.Spec

/-- The parts of a text between the separators. -/
def split (c : UInt8) : Bytes → List Bytes
  | [] => [[]]
  | x :: r =>
    if x = c then [] :: split c r
    else match split c r with
      | [] => [[x]]
      | f :: l => (x :: f) :: l

/-- The value of a digit. -/
def digitValue (b : Nat) (c : UInt8) : Option Nat :=
  let v := if 48 ≤ c.toNat ∧ c.toNat ≤ 57 then some (c.toNat - 48)
    else if 97 ≤ c.toNat ∧ c.toNat ≤ 102 then some (c.toNat - 87)
    else if 65 ≤ c.toNat ∧ c.toNat ≤ 70 then some (c.toNat - 55)
    else none
  v.bind fun v => if v < b then some v else none

/-- The value of digits that follow on the value `acc`. -/
def digits (b : Nat) : Nat → Bytes → Option Nat
  | acc, [] => some acc
  | acc, c :: r => (digitValue b c).bind fun v => digits b (acc * b + v) r

/-- A number of at least one and at most `most` digits. -/
def value (b most : Nat) (s : Bytes) : Option Nat := if s = [] ∨ most < s.length then none else digits b 0 s

/-- A byte in decimal digits. -/
def byte (s : Bytes) : Option UInt8 := (value 10 3 s).bind fun v => if v < 256 then some (UInt8.ofNat v) else none

/-- An IPv4 address. -/
def parse4 (s : Bytes) : Option Bytes :=
  match split 46 s with
  | [a, b, c, d] => (byte a).bind fun a => (byte b).bind fun b => (byte c).bind fun c => (byte d).map fun d => [a, b, c, d]
  | _ => none

/-- Two bytes in up to four hexadecimal digits. -/
def pair (s : Bytes) : Option Bytes := (value 16 4 s).map fun v => [UInt8.ofNat (v / 256), UInt8.ofNat (v % 256)]

/-- Groups; the last one may be an IPv4 address. -/
def groups : List Bytes → Option Bytes
  | [] => some []
  | [f] => if 46 ∈ f then parse4 f else pair f
  | f :: r => (pair f).bind fun a => (groups r).map fun b => a ++ b

/-- The text on one side of `::`. -/
def side (s : Bytes) : Option Bytes := if s = [] then some [] else groups (split 58 s)

/-- The text before and behind the first `::`. -/
def gap : Bytes → Option (Bytes × Bytes)
  | 58 :: 58 :: r => some ([], r)
  | x :: r => (gap r).map fun p => (x :: p.1, p.2)
  | [] => none

/-- An IPv6 address. -/
def parse6 (s : Bytes) : Option Bytes :=
  match gap s with
  | none => (side s).bind fun b => if b.length = 16 then some b else none
  | some (l, r) => (side l).bind fun a => (side r).bind fun b =>
      if a.length + b.length < 16 then some (a ++ List.replicate (16 - a.length - b.length) 0 ++ b) else none

/-- The sixteen bytes that the text of an address means: an IPv4 address is `::ffff:` and four bytes. -/
def parse (s : Bytes) : Option Bytes :=
  if 58 ∈ s then parse6 s else (parse4 s).map fun b => [0, 0, 0, 0, 0, 0, 0, 0, 0, 0, 255, 255] ++ b

end Verif.Addr.Spec
