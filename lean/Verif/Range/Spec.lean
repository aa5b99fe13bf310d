import Verif.Range.Model

/-!
# What range requests mean (RFC 9110, 14.1 and 14.2)
-/
namespace Verif.Range.Spec
open Verif.Range

/-- Decimal digits, at least one. -/
def Digits (l : Bytes) : Prop := l ≠ [] ∧ ∀ c ∈ l, 48 ≤ c ∧ c ≤ 57

/-- Their value. -/
def value (l : Bytes) : Nat := l.foldl (fun v c => v * 10 + (c.toNat - 48)) 0

/-- A request for a range: from one byte to another, from a byte on, or the last bytes. -/
inductive Ask where
  | fromTo (a b : Bytes)
  | from (a : Bytes)
  | last (n : Bytes)

/-- It is written as it should be. -/
def Ask.Valid : Ask → Prop
  | .fromTo a b => Digits a ∧ Digits b ∧ value a ≤ value b
  | .from a => Digits a
  | .last n => Digits n

/-- The header. -/
def Ask.text : Ask → Bytes
  | .fromTo a b => "bytes=".toUTF8.toList ++ a ++ [45] ++ b
  | .from a => "bytes=".toUTF8.toList ++ a ++ [45]
  | .last n => "bytes=".toUTF8.toList ++ [45] ++ n

/-- The numbers of the first and last bytes that are to be sent of a file, if any (14.1.2): the first byte must exist; the last
byte is that of the file, if it is beyond. -/
def Ask.wanted (size : Nat) : Ask → Option (Nat × Nat)
  | .fromTo a b => if value a < size then some (value a, min (value b) (size - 1)) else none
  | .from a => if value a < size then some (value a, size - 1) else none
  | .last n => if 0 < value n ∧ 0 < size then some (size - value n, size - 1) else none

/-- The answer that is due: the range, or a refusal (15.5.17). -/
def Ask.due (size : Nat) (q : Ask) : Answer :=
  match q.wanted size with
  | some (a, b) => .part a b (b + 1 - a)
  | none => .refused

end Verif.Range.Spec
