import Verif.Json.Model

/-!
# What reading the binary form should give, in terms of the value
-/
namespace Verif.Dtsc.Spec
open Verif.Json (JVal)

mutual
/-- Values the binary form has room for: strings below 4 GiB, keys of 1 to 65535 bytes, and no doubles. -/
def Room : JVal → Prop
  | .dbl _ => False
  | .str s => s.length < 2 ^ 32
  | .arr l => RoomElems l
  | .obj l => RoomMembers l
  | _ => True
/-- All elements. -/
def RoomElems : List JVal → Prop
  | [] => True
  | v :: r => Room v ∧ RoomElems r
/-- All members. -/
def RoomMembers : List (Bytes × JVal) → Prop
  | [] => True
  | m :: r => (0 < m.1.length ∧ m.1.length < 65536) ∧ Room m.2 ∧ RoomMembers r
end

/-- The member of an object with a name. -/
def member (v : JVal) (name : Bytes) : Option JVal :=
  match v with
  | .obj l => l.lookup name
  | _ => none

/-- The number of elements or members. -/
def size : JVal → Nat
  | .arr l => l.length
  | .obj l => l.length
  | _ => 0

/-- The element or member at a place, with its name (elements have none). -/
def nth (v : JVal) (i : Nat) : Option (Bytes × JVal) :=
  match v with
  | .arr l => l[i]?.map fun x => ([], x)
  | .obj l => l[i]?
  | _ => none

/-- A step into a value: to the member with a name, or to a place in it. -/
inductive Step where
  | name (k : Bytes)
  | place (i : Nat)

/-- One step. -/
def step (v : JVal) : Step → Option JVal
  | .name k => member v k
  | .place i => (nth v i).map (·.2)

/-- Several steps. -/
def follow (v : JVal) : List Step → Option JVal
  | [] => some v
  | s :: r => (step v s).bind fun w => follow w r

/-- Names that end at the first zero byte, as C strings do, have none. -/
def PlainSteps (l : List Step) : Prop := ∀ s ∈ l, ∀ k, s = .name k → (0 : UInt8) ∉ k

end Verif.Dtsc.Spec
