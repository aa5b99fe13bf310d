import Verif.Json.Model
import Verif.Bit.Model

/-!
# Model of the binary form of JSON values, DTMI (`/repo/lib/json.cpp`)

A double is opaque: `bits` gives its 64-bit pattern and `ofBits` the double with a pattern.
-/
namespace Verif.Json
open Verif.Bit

/-- A 64-bit integer as the unsigned number of its two's complement form. -/
def toU64 (i : Int) : Nat := (i % 2 ^ 64).toNat

/-- The cast to `int64_t` (json.cpp 727-729). -/
def toI64 (n : Nat) : Int := if n < 2 ^ 63 then n else (n : Int) - 2 ^ 64

/-- json.cpp 907-908: the two bytes of the length of a key; `char` drops what does not fit. -/
def keyLen (k : Bytes) : Bytes := [UInt8.ofNat (k.length / 256), UInt8.ofNat (k.length % 256)]

mutual
/-- json.cpp 890-935: `Value::toPacked`. The literal for doubles (902) has a ninth character behind the type, `8`. -/
def pack (bits : Dbl → Nat) : JVal → Bytes
  | .int i => 1 :: htob .ll (toU64 i)
  | .bool b => 1 :: htob .ll (if b then 1 else 0)
  | .str s => 2 :: htob .l s.length ++ s
  | .dbl d => 4 :: htob .ll (bits d % 2 ^ 32) ++ [56]
  | .unset => [3]
  | .null => [3]
  | .obj l => 0xE0 :: packMembers bits l ++ [0, 0, 0xEE]
  | .arr l => 0x0A :: packElems bits l ++ [0, 0, 0xEE]
/-- json.cpp 911-918. -/
def packMembers (bits : Dbl → Nat) : List (Bytes × JVal) → Bytes
  | [] => []
  | m :: r => (if m.1.length > 0 then keyLen m.1 ++ m.1 ++ pack bits m.2 else []) ++ packMembers bits r
/-- json.cpp 928. -/
def packElems (bits : Dbl → Nat) : List JVal → Bytes
  | [] => []
  | v :: r => pack bits v ++ packElems bits r
end

mutual
/-- json.cpp 1010-1029: `Value::packedSize` (64-bit overflow is left out). -/
def packedSize : JVal → Nat
  | .int _ => 9
  | .bool _ => 9
  | .null => 1
  | .unset => 1
  | .dbl _ => 9
  | .str s => 5 + s.length
  | .obj l => 4 + sizeMembers l
  | .arr l => 4 + sizeElems l
/-- json.cpp 1018-1020. -/
def sizeMembers : List (Bytes × JVal) → Nat
  | [] => 0
  | m :: r => (if m.1.length > 0 then 2 + m.1.length + packedSize m.2 else 0) + sizeMembers r
/-- json.cpp 1026. -/
def sizeElems : List JVal → Nat
  | [] => 0
  | v :: r => packedSize v + sizeElems r
end

/-- The outcome of decoding: a read outside the readable memory, no end within the rounds given, or a result. -/
inductive R (α : Type) where
  | oob
  | more
  | ok (a : α)
  deriving DecidableEq

/-- Carries on with a result. -/
def R.bind {α β : Type} (x : R α) (f : α → R β) : R β :=
  match x with
  | .oob => .oob
  | .more => .more
  | .ok a => f a

/-- A read that must stay inside the memory. -/
def R.of {α : Type} : Option α → R α
  | none => .oob
  | some a => .ok a

/-- `std::string(data + i, n)`. -/
def sub (buf : Bytes) (i n : Nat) : R Bytes := if i + n ≤ buf.length then .ok ((buf.drop i).take n) else .oob

/-- Arithmetic on the `uint32_t` position. -/
def w32 (n : Nat) : Nat := n % 2 ^ 32

mutual
/-- json.cpp 1414-1479: `fromDTMI` on the readable memory `buf`, of which the first `len` bytes are the data, from position
`i` on. The first argument bounds depth and rounds. -/
def decode (ofBits : Nat → Dbl) : Nat → Bytes → Nat → Nat → R (JVal × Nat)
  | 0, _, _, _ => .more
  | n + 1, buf, len, i =>
    if i ≥ len then .ok (.unset, i)
    else (R.of buf[i]?).bind fun t =>
      if t = 1 then
        if w32 (i + 8) ≥ len then .ok (.unset, i)
        else (R.of (load .ll buf (i + 1))).bind fun v => .ok (.int (toI64 v), w32 (i + 9))
      else if t = 2 then
        if w32 (i + 4) ≥ len then .ok (.unset, i)
        else (R.of (load .l buf (i + 1))).bind fun k => (sub buf (i + 5) k).bind fun s =>
          if w32 (i + 4 + k) ≥ len then .ok (.unset, i) else .ok (.str s, w32 (i + (k + 5)))
      else if t = 3 then .ok (.null, w32 (i + 1))
      else if t = 4 then
        if w32 (i + 8) ≥ len then .ok (.unset, i)
        else (R.of (load .ll buf (i + 1))).bind fun v => .ok (.dbl (ofBits v), w32 (i + 9))
      else if t = 0xFF ∨ t = 0xE0 then
        (decodeMembers ofBits n buf len (w32 (i + 1)) []).bind fun r =>
          .ok (if r.1.isEmpty then .unset else .obj r.1, r.2)
      else if t = 0x0A then
        (decodeElems ofBits n buf len (w32 (i + 1)) []).bind fun r =>
          .ok (if r.1.isEmpty then .unset else .arr r.1, r.2)
      else .ok (.unset, w32 (i + 1))
/-- json.cpp 1449-1458: the members; the result also has the position after them. -/
def decodeMembers (ofBits : Nat → Dbl) : Nat → Bytes → Nat → Nat → List (Bytes × JVal) → R (List (Bytes × JVal) × Nat)
  | 0, _, _, _, _ => .more
  | n + 1, buf, len, i, acc =>
    (R.of buf[i]?).bind fun a => (R.of buf[i + 1]?).bind fun b =>
      if a.toNat + b.toNat ≠ 0 ∧ i < len then
        if w32 (i + 2) ≥ len then .ok (acc, i)
        else (R.of (load .s buf i)).bind fun k => (sub buf (i + 2) k).bind fun key =>
          (decode ofBits n buf len (w32 (i + (k + 2)))).bind fun r =>
            decodeMembers ofBits n buf len r.2 (mapSet acc key r.1)
      else .ok (acc, w32 (i + 3))
/-- json.cpp 1464-1469: the elements. -/
def decodeElems (ofBits : Nat → Dbl) : Nat → Bytes → Nat → Nat → List JVal → R (List JVal × Nat)
  | 0, _, _, _, _ => .more
  | n + 1, buf, len, i, acc =>
    (R.of buf[i]?).bind fun a => (R.of buf[i + 1]?).bind fun b =>
      if a.toNat + b.toNat ≠ 0 ∧ i < len then
        (decode ofBits n buf len i).bind fun r => decodeElems ofBits n buf len r.2 (acc ++ [r.1])
      else .ok (acc, w32 (i + 3))
end

/-- json.cpp 1483-1492: decoding a `std::string`; `c_str()` has a zero byte behind the data. -/
def fromDTMI (ofBits : Nat → Dbl) (n : Nat) (s : Bytes) : R (JVal × Nat) := decode ofBits n (s ++ [0]) s.length 0

end Verif.Json
