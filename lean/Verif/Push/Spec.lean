import Verif.Push.Model

/-!
# What decides about a push
-/
namespace Verif.Push.Spec

/-- A source for pushes: `push://`, the host that may push (empty: all), and after an `@` the password (empty: none). -/
def Source (src host password : Bytes) : Prop :=
  64 ∉ host ∧ ((src = pushPrefix ++ host ∧ password = []) ∨ src = pushPrefix ++ host ++ 64 :: password)

/-- The source is reserved for the programs of the server. -/
def Reserved (src : Bytes) : Prop := ∃ a b, src = a ++ internal ++ b

/-- Who may push by name: who has the password; everybody when there is neither a host nor a password; and who comes from the
host. -/
def May (host password given : Bytes) (here : Bytes → Bool) : Prop :=
  (password ≠ [] ∧ given = password) ∨ (host = [] ∧ password = []) ∨ (host ≠ [] ∧ here host = true)

/-- The stream a key stands for, after an edit: a function from keys to streams. -/
abbrev Meaning := Bytes → Option Bytes

/-- Setting one key. -/
def Meaning.set (m : Meaning) (k : Bytes) (v : Option Bytes) : Meaning := fun x => if x = k then v else m x

/-- All keys are replaced. -/
def Meaning.replaced (m : Meaning) : Option (List Item) → Meaning
  | none => m
  | some l => l.foldl (fun m x => if x.isString then m.set x.name (some x.text) else m) (fun _ => none)

/-- Some are deleted; with a value only if they have it. -/
def Meaning.deleted (m : Meaning) : Option Del → Meaning
  | none => m
  | some (.object l) => l.foldl (fun m x => if m x.name = some x.text then m.set x.name none else m) m
  | some (.array l) => l.foldl (fun m x => if x.2 then m.set x.1 none else m) m
  | some (.string s) => m.set s none

/-- Some are set. -/
def Meaning.added (m : Meaning) : Option (List Item) → Meaning
  | none => m
  | some l => l.foldl (fun m x => if x.isString then m.set x.name (some x.text) else m) m

/-- One request: first all keys are replaced, then some are deleted, then some are set. Members that are not strings count for
nothing. -/
def after (m : Meaning) (r : Request) : Meaning := ((m.replaced r.all).deleted r.del).added r.add

/-- What the keys mean after a history of requests. -/
def meaning (history : List Request) : Meaning := history.foldl after (fun _ => none)

/-- A text that fits into a field of so many bytes with its end. -/
def Fits (size : Nat) (s : Bytes) : Prop := s.length < size ∧ 0 ∉ s

end Verif.Push.Spec
