import Verif.Servers.Model

/-!
# What users of the list of servers rely on
-/
namespace Verif.Servers.Spec
open Verif.Servers

/-- A name that can be kept: not empty, without zero bytes, not too long. -/
def Proper (n : Bytes) : Prop := n ≠ [] ∧ 0 ∉ n ∧ n.length < 1024

/-- Only such names are added and removed. -/
def Good (l : List Act) : Prop := ∀ a ∈ l, match a with | .add n => Proper n | .del n => Proper n | _ => True

/-- States that can be reached. -/
def Reach (S : Sys) : Prop := ∃ l, Good l ∧ S = run {} l

/-- The thread of a slot lives: it will go on to poll the server. -/
def Polled (x : Slot) : Prop := (x.phase = .start ∨ x.phase = .poll ∨ x.phase = .wait) ∧ x.state ≠ .godown ∧ x.state ≠ .reqclean

end Verif.Servers.Spec
