import Verif.Json.Model

/-!
# What the binary form can hold
-/
namespace Verif.Json.Spec

mutual
/-- Values the binary form has room for: 64-bit integers, strings below 4 GiB, keys of at most 65535 bytes, the members
ordered by their keys as in a map, and no doubles. -/
def Fits : JVal → Prop
  | .dbl _ => False
  | .int i => -(2 ^ 63) ≤ i ∧ i < 2 ^ 63
  | .str s => s.length < 2 ^ 32
  | .arr l => FitsElems l
  | .obj l => (l.map (·.1)).Pairwise (fun a b => keyLt a b = true) ∧ FitsMembers l
  | _ => True
/-- All elements. -/
def FitsElems : List JVal → Prop
  | [] => True
  | v :: r => Fits v ∧ FitsElems r
/-- All members. -/
def FitsMembers : List (Bytes × JVal) → Prop
  | [] => True
  | m :: r => m.1.length < 65536 ∧ Fits m.2 ∧ FitsMembers r
end

mutual
/-- What comes back: booleans as the integers 0 and 1, an unset value as null, members with an empty key not at all, and
empty objects and arrays as unset. -/
def norm : JVal → JVal
  | .unset => .null
  | .null => .null
  | .bool b => .int (if b then 1 else 0)
  | .int i => .int i
  | .dbl d => .dbl d
  | .str s => .str s
  | .arr l => if (normElems l).isEmpty then .unset else .arr (normElems l)
  | .obj l => if (normMembers l).isEmpty then .unset else .obj (normMembers l)
/-- All elements. -/
def normElems : List JVal → List JVal
  | [] => []
  | v :: r => norm v :: normElems r
/-- All members. -/
def normMembers : List (Bytes × JVal) → List (Bytes × JVal)
  | [] => []
  | m :: r => if m.1.isEmpty then normMembers r else (m.1, norm m.2) :: normMembers r
end

mutual
/-- Values without doubles, booleans, unset values, empty objects, empty arrays and empty keys. -/
def Exact : JVal → Prop
  | .unset => False
  | .null => True
  | .bool _ => False
  | .int _ => True
  | .dbl _ => False
  | .str _ => True
  | .arr l => l ≠ [] ∧ ExactElems l
  | .obj l => l ≠ [] ∧ ExactMembers l
/-- All elements. -/
def ExactElems : List JVal → Prop
  | [] => True
  | v :: r => Exact v ∧ ExactElems r
/-- All members. -/
def ExactMembers : List (Bytes × JVal) → Prop
  | [] => True
  | m :: r => m.1 ≠ [] ∧ Exact m.2 ∧ ExactMembers r
end

mutual
/-- No doubles anywhere. -/
def NoDbl : JVal → Prop
  | .dbl _ => False
  | .arr l => NoDblElems l
  | .obj l => NoDblMembers l
  | _ => True
/-- All elements. -/
def NoDblElems : List JVal → Prop
  | [] => True
  | v :: r => NoDbl v ∧ NoDblElems r
/-- All members. -/
def NoDblMembers : List (Bytes × JVal) → Prop
  | [] => True
  | m :: r => NoDbl m.2 ∧ NoDblMembers r
end

end Verif.Json.Spec
