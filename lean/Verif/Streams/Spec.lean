import Verif.Streams.Model

/-!
# What is expected of the configured streams

Words for the claims, apart from the program's own helpers: which members others are told of, when two values are the
same, and which values have no members.
-/

namespace Verif.Streams.Spec
open Verif Verif.Streams

/-- Members that tell the state of a stream and are not told to other processes: "online", "error", "x-LSP-name". -/
def Told (k : Bytes) : Prop :=
  k ≠ [0x6f, 0x6e, 0x6c, 0x69, 0x6e, 0x65] ∧ k ≠ [0x65, 0x72, 0x72, 0x6f, 0x72]
    ∧ k ≠ [0x78, 0x2d, 0x4c, 0x53, 0x50, 0x2d, 0x6e, 0x61, 0x6d, 0x65]

/-- Names that are lost on saving: "log", "online", "error". -/
def Lost (k : Bytes) : Prop :=
  k = [0x6c, 0x6f, 0x67] ∨ k = [0x6f, 0x6e, 0x6c, 0x69, 0x6e, 0x65] ∨ k = [0x65, 0x72, 0x72, 0x6f, 0x72]

/-- The same value, for an object as far as its members are among `P`. -/
def SameOn (P : Bytes → Prop) : Val → Val → Prop
  | .null, .null => True
  | .str a, .str b => a = b
  | .num a, .num b => a = b
  | .arr l, .arr l' => l = l'
  | .obj m, .obj m' => ∀ k, P k → m.lookup k = m'.lookup k
  | _, _ => False

/-- The same value or both absent. -/
def SameOpt (P : Bytes → Prop) : Option Val → Option Val → Prop
  | some v, some w => SameOn P v w
  | none, none => True
  | _, _ => False

/-- The same members with the same values. -/
def SameConf (a b : Conf) : Prop := ∀ k, SameOpt (fun _ => True) (a.lookup k) (b.lookup k)

/-- An empty list, or an object without members to tell. -/
def Hollow : Val → Prop
  | .arr l => l = []
  | .obj m => ∀ k, Told k → m.lookup k = none
  | _ => False

/-- A value without members: null, a string, a number, or hollow. -/
def Bare : Val → Prop
  | .arr l => l = []
  | .obj m => ∀ k, Told k → m.lookup k = none
  | _ => True

/-- What others read of one member agrees with what is configured. -/
def Agrees (read conf : Option Val) : Prop := SameOpt Told read conf

/-- The same, but an empty list or object may be read for another value without members. -/
def AgreesNearly (read conf : Option Val) : Prop :=
  Agrees read conf ∨ ∃ v w, read = some v ∧ conf = some w ∧ Hollow v ∧ Bare w

/-- A null member counts as absent. -/
def nonNull : Option Val → Option Val
  | some .null => none
  | v => v

/-- The stream keeps its members. -/
def Kept (old now : Option Conf) : Prop :=
  match old, now with
  | none, none => True
  | some o, some c => ∀ k, k ≠ [] → c.lookup k = nonNull (o.lookup k)
  | _, _ => False

/-- "name", as bytes. -/
def nameKey : Bytes := [0x6e, 0x61, 0x6d, 0x65]
/-- "source", as bytes. -/
def sourceKey : Bytes := [0x73, 0x6f, 0x75, 0x72, 0x63, 0x65]

/-- A non-null source, or a null one, if there is none. -/
def sourceOf (c : Conf) : Option Val :=
  match c.lookup sourceKey with
  | none => some .null
  | some v => some v

/-- The stream `n` is configured as asked: what the input for its source prescribes, else its name, else the member
asked for. -/
def Taken (hard : Option Val → Conf) (n : Bytes) (asked : Conf) (now : Option Conf) : Prop :=
  ∃ c, now = some c ∧ ∀ k, k ≠ [] → ∀ v, c.lookup k = some v ↔
    v ≠ .null ∧
      (match ((hard (sourceOf asked)).reverse).lookup k with
       | some h => v = h
       | none => if k = nameKey then v = .str n else asked.lookup k = some v)

/-- Events after which pages follow: requests that do not ask for a reload, status checks, and restarts. -/
def Orderly : Event → Prop
  | .request _ l => ∀ c ∈ l, ∀ disk, c ≠ .reload disk
  | .check _ => True
  | .restart => True
  | _ => False

/-- `b` is the name of the stream that `n` names, which may have a '+' or a space and more behind it. -/
def Names (n b : Bytes) : Prop :=
  ∃ rest, n = b ++ rest ∧ (∀ c ∈ b, c ≠ 0x2B ∧ c ≠ 0x20) ∧ (rest = [] ∨ ∃ t, rest = 0x2B :: t ∨ rest = 0x20 :: t)

/-- A stream after a request to add `asked` under its name: as before if it is the same or refused, else as asked. -/
def Added (e : Env) (n : Bytes) (asked : Conf) (old now : Option Conf) : Prop :=
  match old with
  | some o =>
    if e.refuse n asked then Kept old now
    else (SameConf asked o ∧ Kept old now) ∨ (¬ SameConf asked o ∧ Taken e.hard n asked now)
  | none =>
    if e.refuse n asked then now = none
    else (n ≠ [] ∧ Text.sanitizeName n = n ∧ Taken e.hard n asked now) ∨ ((n = [] ∨ Text.sanitizeName n ≠ n) ∧ now = none)

end Verif.Streams.Spec
