import Verif.Json.Model
import Verif.Json.Spec

/-!
# JSON values: what the properties range over
-/
namespace Verif.Json.Spec

mutual
/-- A value of objects, arrays, integers, booleans, null and strings. Integers are 64-bit and above the smallest one, the
members of an object are ordered by their keys (they are in a map), every key satisfies `K` and every string `S`. -/
def Good (K S : Bytes → Prop) : JVal → Prop
  | .unset => False
  | .null => True
  | .bool _ => True
  | .int i => -(2 ^ 63) < i ∧ i < 2 ^ 63
  | .dbl _ => False
  | .str s => S s
  | .arr l => GoodElems K S l
  | .obj l => (l.map (·.1)).Pairwise (fun a b => keyLt a b = true) ∧ GoodMembers K S l
/-- All elements. -/
def GoodElems (K S : Bytes → Prop) : List JVal → Prop
  | [] => True
  | v :: r => Good K S v ∧ GoodElems K S r
/-- All members. -/
def GoodMembers (K S : Bytes → Prop) : List (Bytes × JVal) → Prop
  | [] => True
  | m :: r => K m.1 ∧ Good K S m.2 ∧ GoodMembers K S r
end

mutual
/-- The same value with another text in every string; keys and everything else stay. -/
def mapStr (g : Bytes → Bytes) : JVal → JVal
  | .unset => .unset
  | .null => .null
  | .bool b => .bool b
  | .int i => .int i
  | .dbl d => .dbl d
  | .str s => .str (g s)
  | .arr l => .arr (mapElems g l)
  | .obj l => .obj (mapMembers g l)
/-- All elements. -/
def mapElems (g : Bytes → Bytes) : List JVal → List JVal
  | [] => []
  | v :: r => mapStr g v :: mapElems g r
/-- All members. -/
def mapMembers (g : Bytes → Bytes) : List (Bytes × JVal) → List (Bytes × JVal)
  | [] => []
  | m :: r => (m.1, mapStr g m.2) :: mapMembers g r
end

/-- A string that is UTF-8 text without the characters U+0800 to U+FFFF. -/
def KeptText (s : Bytes) : Prop := ∃ cs : List Char, s = text cs ∧ ∀ c ∈ cs, c.toNat < 0x800 ∨ 0x10000 ≤ c.toNat

end Verif.Json.Spec
