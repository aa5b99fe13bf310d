import Verif.Amf.Model

/-! # What an AMF0 value is, independently of how the code stores or writes it -/
namespace Verif.Amf

/-- AMF0 values. Doubles are given by their 64-bit pattern. -/
inductive Val where
  | number (pattern : Nat)
  | date (pattern : Nat)
  | bool (b : Bool)
  | str (s : Bytes)
  | xml (s : Bytes)
  | null
  | undefined
  | unsupported
  | ref (n : Nat)
  | object (members : List (Bytes × Val))
  | ecma (members : List (Bytes × Val))
  | array (elems : List Val)

mutual
/-- The value held by an object of the library: strings of either size class are strings, the
names of array elements do not matter. -/
def denote : Obj → Option Val
  | .mk _ t str num c =>
    if t = 0x00 then some (.number num)
    else if t = 0x0B then some (.date num)
    else if t = 0x01 then (if num = 0 then some (.bool false) else if num = 1 then some (.bool true) else none)
    else if t = 0x02 ∨ t = 0x0C then some (.str str)
    else if t = 0x0F then some (.xml str)
    else if t = 0x05 then some .null
    else if t = 0x06 then some .undefined
    else if t = 0x0D then some .unsupported
    else if t = 0x07 then some (.ref num)
    else if t = 0x03 then (denoteMembers c).map .object
    else if t = 0x08 then (denoteMembers c).map .ecma
    else if t = 0x0A then (denoteElems c).map .array
    else none
def denoteMembers : List Obj → Option (List (Bytes × Val))
  | [] => some []
  | o :: l =>
    match denote o, denoteMembers l with
    | some v, some ms => some ((o.name, v) :: ms)
    | _, _ => none
def denoteElems : List Obj → Option (List Val)
  | [] => some []
  | o :: l =>
    match denote o, denoteElems l with
    | some v, some vs => some (v :: vs)
    | _, _ => none
end

mutual
/-- Limits of the wire format: patterns of 64 bits, references of 16 bits, member names of 1 to
65535 bytes. -/
def Val.ok : Val → Prop
  | .number p => p < 2 ^ 64
  | .date p => p < 2 ^ 64
  | .ref n => n < 2 ^ 16
  | .object ms => okMembers ms
  | .ecma ms => okMembers ms
  | .array es => okElems es
  | _ => True
def okMembers : List (Bytes × Val) → Prop
  | [] => True
  | (k, v) :: l => 0 < k.length ∧ k.length < 65536 ∧ v.ok ∧ okMembers l
def okElems : List Val → Prop
  | [] => True
  | v :: l => v.ok ∧ okElems l
end

end Verif.Amf
