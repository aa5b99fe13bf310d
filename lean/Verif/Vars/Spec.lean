import Verif.Vars.Model

/-!
# Specification: the values of custom variables

In terms of what happened only.
-/
namespace Verif.Vars.Spec
open Verif Verif.Vars

/-- The values of the variables there are, and the outputs of programs that the controller has not looked at. -/
structure Desk where
  vals : Bytes → Option Bytes := fun _ => none
  pend : List (Bytes × Bytes) := []

/-- A variable gets a value. -/
def Desk.set (d : Desk) (name : Bytes) (v : Option Bytes) : Desk := { d with vals := fun n => if n = name then v else d.vals n }

/-- The value that the output of a target means: without white space at its ends, at most 127 bytes. -/
def meant (out : Bytes) : Bytes := (Text.stringTrim out).take 127

/-- What an event means for the values. Requests set the value they contain; a new variable without a value has the empty one; names have at most
31 bytes. -/
def after (d : Desk) : Op → Desk
  | .add n q => d.set (n.take 31) (some (q.value.getD ((d.vals (n.take 31)).getD [])))
  | .refused _ => d
  | .remove n => d.set n none
  | .finish n out => { d with pend := d.pend ++ [(n, out)] }
  | .check => { d.pend.foldl (fun d e => d.set e.1 (some (meant e.2))) d with pend := [] }
  | .got n data => d.set n (some (meant data))
  | .failed _ => d
  | .clock _ _ => d
  | .restart => { d with pend := [] }

/-- After a history. -/
def desk (ops : List Op) : Desk := ops.foldl after {}

/-- What a text field of 128 bytes can hold: at most 127 bytes, up to the first zero. -/
def shown (v : Bytes) : Bytes := (v.take 127).takeWhile (· ≠ 0)

/-- The values a process finds for a name in shared memory. -/
def found (p : Page) (name : Bytes) : List Bytes := (p.all.filter (·.name = name)).map (·.lastVal)

/-- The event is a usual one: names have no zero bytes; programs and downloads end that are running, and their variables have not been removed in
the meantime; requests have no more than five elements; at most 94 variables are kept over a restart. -/
def Usual (s : State) : Op → Prop
  | .add n _ => 0 ∉ n
  | .refused _ => False
  | .finish n _ => n ∈ s.runs ∧ ∀ e ∈ s.collect, e.1 ≠ n
  | .check => ∀ e ∈ s.collect, ∃ v, (e.1, v) ∈ s.config
  | .got n _ => n ∈ s.gets ∧ ∃ v, (n, v) ∈ s.config
  | .restart => s.config.length < 95
  | _ => True

/-- All events of a history are usual. -/
def AllUsual : State → List Op → Prop
  | _, [] => True
  | s, o :: l => Usual s o ∧ AllUsual (step s o) l

end Verif.Vars.Spec
