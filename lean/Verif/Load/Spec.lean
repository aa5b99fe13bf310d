import Verif.Load.Model

/-!
# What the load balancer should do
-/
namespace Verif.Load.Spec
open Verif.Load

/-- The name of a stream before its first `+` or space. -/
def BaseOf (s b : Bytes) : Prop := ∃ r, s = b ++ r ∧ 43 ∉ b ∧ 32 ∉ b ∧ ∀ c, r.head? = some c → c = 43 ∨ c = 32

/-- A server offers a stream: its list of streams is not known, or has the stream or the part of its name before a `+` or space. -/
def Offers (h : Host) (s : Bytes) : Prop := h.conf = [] ∨ s ∈ h.conf ∨ ∃ b, BaseOf s b ∧ b ∈ h.conf

/-- A server has bandwidth left. -/
def Room (h : Host) : Prop := h.up + h.add < h.avail

/-- The load of a server is within its bounds, and all numbers are not too large. -/
structure Sane (W : Weights) (h : Host) : Prop where
  cpu : h.cpu ≤ 1000
  ram : h.ramCurr ≤ h.ramMax
  mem : 0 < h.ramMax ∧ h.ramMax < 2 ^ 50
  link : 0 < h.avail ∧ h.avail < 2 ^ 50
  use : h.up + h.add < 2 ^ 50
  weights : W.cpu < 2 ^ 13 ∧ W.ram < 2 ^ 13 ∧ W.bw < 2 ^ 13 ∧ W.bonus < 2 ^ 13

/-- Points of a server for what it has left: of each resource its weight, less the used share of it. -/
def points (W : Weights) (h : Host) : Nat :=
  (W.cpu - h.cpu * W.cpu / 1000) + (W.ram - h.ramCurr * W.ram / h.ramMax) + (W.bw - (h.up + h.add) * W.bw / h.avail)

/-- Points for already having the stream. -/
def bonus (W : Weights) (h : Host) (s : Bytes) : Nat := if s ∈ h.streams.map Prod.fst then W.bonus else 0

/-- A condition on tags: one of the names must be a tag, or none of them. -/
structure Tagged where
  none : Bool
  names : List Bytes

/-- Its text is not empty and can be read. -/
def Tagged.Plain (t : Tagged) : Prop :=
  t.names ≠ [] ∧ (∀ n ∈ t.names, 44 ∉ n) ∧ (t.none = false → t.names.head? ≠ some [] ∧ ∀ n, t.names.head? = some n → n.head? ≠ some 45)

/-- The text: names with commas between, after a minus sign if none of them may be a tag. -/
def Tagged.text (t : Tagged) : Bytes := (if t.none then [45] else []) ++ [44].intercalate t.names

/-- The condition holds for these tags. -/
def Tagged.Holds (t : Tagged) (tags : List Bytes) : Prop := if t.none then ∀ n ∈ t.names, n ∉ tags else ∃ n ∈ t.names, n ∈ tags

instance (t : Tagged) (tags : List Bytes) : Decidable (t.Holds tags) := by unfold Tagged.Holds; infer_instance

/-- The sum of the adjustments whose conditions hold. -/
def tagPoints (tags : List Bytes) (l : List (Tagged × Int)) : Int := (l.map fun a => if a.1.Holds tags then a.2 else 0).sum

/-- The adjustments as they are asked for. -/
def texts (l : List (Tagged × Int)) : List (Bytes × Int) := l.map fun a => (a.1.text, a.2)

/-- A server can be a source of a stream: it has it, from an input that is not another server of the group. -/
def HasInput (h : Host) (s : Bytes) : Prop := ∃ x, h.streams.lookup s = some x ∧ 0 < x.inputs ∧ x.rep = false

/-- The list after some steps. -/
def run (W : Weights) (E : List Entry) (ops : List Op) : List Entry := ops.foldl (step W) E

/-- The last report of host `i`. -/
def lastReport (i : Nat) : List Op → Option Report
  | [] => none
  | op :: ops =>
    match lastReport i ops with
    | some d => some d
    | none => match op with | .report j d _ => if j = i then some d else none | _ => none

/-- The viewers of a stream by a report. -/
def reported (s : Bytes) : Option Report → Nat
  | none => 0
  | some d => match d.streams.lookup s with | some r => r.viewers | none => 0

/-- How many viewers are sent to host `i`. -/
def sentTo (W : Weights) (i : Nat) : List Entry → List Op → Nat
  | _, [] => 0
  | E, op :: ops => (match op with | .view s geo adj => if choose W E s geo adj = some i then 1 else 0 | _ => 0) + sentTo W i (step W E op) ops

/-- Steps without a poll of host `i`. -/
def Unpolled (i : Nat) (ops : List Op) : Prop := ∀ op ∈ ops, match op with | .view _ _ _ => True | .report j _ _ => j ≠ i | .failed j => j ≠ i

/-- A report as servers make them: names once, and numbers that are not too large. -/
structure Fine (d : Report) : Prop where
  names : (d.streams.map Prod.fst).Nodup
  small : ∀ r ∈ d.streams, r.2.viewers < 2 ^ 32 ∧ r.2.inputs < 2 ^ 32 ∧ r.2.outputs < 2 ^ 32 ∧ r.2.up < 2 ^ 62 ∧ r.2.down < 2 ^ 62

end Verif.Load.Spec
