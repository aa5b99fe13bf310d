import Verif.Conn.Model

/-! # What the protocols that run have to be -/
namespace Verif.Conn
open Verif

/-- The configuration gives a value for a parameter: a text, or a list that begins with one. -/
def Gives (e : Entry) (name : Bytes) : Prop :=
  (∃ s, s ≠ [] ∧ (name, Param.str s) ∈ e.params) ∨ (∃ l, (name, Param.arr (true :: l)) ∈ e.params)

/-- A connector is one that listens by itself. -/
def Listens (c : Cap) : Prop := c.pushOnly = false ∧ c.socket = false ∧ (c.deps = some sHttp → c.provides = true)

/-- An entry of the configuration that stands for a listener. -/
def Listener (caps : List Cap) (e : Entry) : Prop :=
  ∃ c ∈ caps, e.connector = some c.name ∧ c.name ≠ [] ∧ Listens c ∧ ∀ r ∈ c.required, Gives e r

/-- The listeners a configuration asks for. -/
def Wanted (caps : List Cap) (entries : List Entry) (text : Bytes) : Prop := ∃ e ∈ entries, e.text = text ∧ Listener caps e

/-- Names are used once: for the connectors and for the members of an entry. -/
def Named (caps : List Cap) (entries : List Entry) : Prop := (caps.map (·.name)).Nodup ∧ ∀ e ∈ entries, (e.params.map (·.1)).Nodup

/-- A listener runs. -/
def Runs (s : State) (text : Bytes) : Prop := ∃ q ∈ s.alive, q.text = text

/-- New processes have new numbers, each its own. -/
def Fresh (s : State) (fork : Bytes → Option Nat) : Prop :=
  (∀ t p, fork t = some p → p ∉ s.alive.map (·.pid) ∧ p ∉ s.current.map (·.2) ∧ p ∉ s.page.map (·.2)) ∧
  ∀ t t' p, fork t = some p → fork t' = some p → t = t'

/-- The texts fit in the page. -/
def Short (entries : List Entry) : Prop := ∀ e ∈ entries, e.text ≠ [] ∧ e.text.length ≤ 511

/-- What may happen in a state. -/
def May (s : State) : Op → Prop
  | .check entries fork _ => Fresh s fork ∧ Short entries
  | .crash => s.hung = false
  | _ => True

/-- The states that can be reached. -/
inductive Reach (caps : List Cap) : State → Prop where
  | init : Reach caps {}
  | step {s : State} (op : Op) : Reach caps s → May s op → Reach caps (step caps s op)

/-- All that is asked for can be started. -/
def Startable (fork : Bytes → Option Nat) (missing : Bytes → Bool) : Prop := (∀ t, missing t = false) ∧ ∀ t, fork t ≠ none

end Verif.Conn
