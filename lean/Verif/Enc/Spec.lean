import Verif.Base.Bits

/-!
# Independent specification vocabulary for the text encodings

RFC 4648 Base64 is described on bit strings; nothing here mentions the model.
-/
namespace Verif.Enc.Spec

/-- The standard Base64 alphabet of RFC 4648 section 4, and the URL alphabet of section 5. -/
def alphabet (url : Bool) : String :=
  if url then "ABCDEFGHIJKLMNOPQRSTUVWXYZabcdefghijklmnopqrstuvwxyz0123456789-_"
  else "ABCDEFGHIJKLMNOPQRSTUVWXYZabcdefghijklmnopqrstuvwxyz0123456789+/"

/-- The byte of the alphabet character with the given 6-bit value. -/
def digit (url : Bool) (v : Nat) : UInt8 := UInt8.ofNat ((alphabet url).toList.getD v ' ').toNat

/-- Cut a bit string into groups of six, filling the last one with zero bits. -/
def sextets : List Bool → List Nat
  | a :: b :: c :: d :: e :: f :: r => ofBits [a, b, c, d, e, f] :: sextets r
  | [] => []
  | l => [ofBits (l ++ List.replicate (6 - l.length) false)]

/-- RFC 4648 text: one digit per six bits, then (if `pad`) '=' up to a multiple of four. -/
def base64 (url pad : Bool) (s : Bytes) : Bytes :=
  let d := (sextets (bytesBits s)).map (digit url)
  d ++ (if pad then List.replicate ((4 - d.length % 4) % 4) 61 else [])

/-- Lower-case hexadecimal digit characters. -/
def isLowerHex (c : UInt8) : Prop := (48 ≤ c ∧ c ≤ 57) ∨ (97 ≤ c ∧ c ≤ 102)

/-- ASCII upper-casing of a letter. -/
def upper (c : UInt8) : UInt8 := if 97 ≤ c ∧ c ≤ 122 then c - 32 else c

/-- `a` and `b` are the same text up to the case of letters. -/
def sameUpToCase (a b : Bytes) : Prop := a.map upper = b.map upper

/-- Value of a hexadecimal digit character, either case. -/
def hexVal (c : UInt8) : Option Nat :=
  if 48 ≤ c ∧ c ≤ 57 then some (c.toNat - 48)
  else if 97 ≤ c ∧ c ≤ 102 then some (c.toNat - 87)
  else if 65 ≤ c ∧ c ≤ 70 then some (c.toNat - 55)
  else none

/-- Characters of an URL that may stand for themselves: letters, digits and the marks
`$-_.,!~;*()'`. -/
def unreserved (c : UInt8) : Prop :=
  (48 ≤ c ∧ c ≤ 57) ∨ (97 ≤ c ∧ c ≤ 122) ∨ (65 ≤ c ∧ c ≤ 90) ∨
  c ∈ ("$-_.,!~;*()'".toList.map fun ch => UInt8.ofNat ch.toNat)

end Verif.Enc.Spec
