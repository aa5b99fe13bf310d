import Verif.Trig.Model

/-!
# What triggers promise
-/
namespace Verif.Trig.Spec

/-- The part of a name before its first '+' or space. -/
def base (name : Bytes) : Bytes := name.takeWhile fun c => c ≠ 43 ∧ c ≠ 32

/-- An entry of a list of streams names a stream: by its name, by the name it is a wildcard of, or by one of its tags. -/
def Names (e name : Bytes) (tags : List Bytes) : Prop := e = name ∨ e = base name ∨ ∃ t ∈ tags, e = 35 :: t

instance (e name : Bytes) (tags : List Bytes) : Decidable (Names e name tags) :=
  inferInstanceAs (Decidable (e = name ∨ e = base name ∨ ∃ t ∈ tags, e = 35 :: t))

/-- An entry with its sign: `!` for "not". -/
structure Entry where
  negative : Bool
  text : Bytes

def Entry.written (e : Entry) : Bytes := if e.negative then 33 :: e.text else e.text

/-- What the last entry that names the stream says, if there is one. -/
def lastSays (name : Bytes) (tags : List Bytes) : List Entry → Option Bool
  | [] => none
  | e :: l => (lastSays name tags l).or (if Names e.text name tags then some (!e.negative) else none)

/-- A list of streams selects a stream: by the last entry that names it; if none does, only if there are no positive entries (or
there is no stream). -/
def Selects (name : Bytes) (tags : List Bytes) (l : List Entry) : Prop :=
  match lastSays name tags l with
  | some b => b = true
  | none => name = [] ∨ ∀ e ∈ l, e.negative = true

instance (name : Bytes) (tags : List Bytes) (l : List Entry) : Decidable (Selects name tags l) := by
  unfold Selects
  split <;> infer_instance

/-- A configured trigger with the entries of its list. -/
structure Trigger where
  handler : Bytes
  sync : Bool
  streams : List Entry
  params : Bytes
  default : Bytes

def Trigger.config (t : Trigger) : Config := ⟨t.handler, t.sync, t.streams.map Entry.written, t.params, t.default⟩

/-- The answer of a trigger: of its handler if it is waited for and answers; else its default, "true" if there is none. -/
def Trigger.answer (t : Trigger) (ask : Bytes → Option Bytes) : Bytes :=
  if t.sync ∧ t.handler ≠ [] ∧ ask t.handler ≠ none then (ask t.handler).getD [] else if t.default = [] then yes else t.default

/-- It fits into the table: the address, the parameter and the default have at most 127 bytes without zeroes; the entries of the list
are not empty, have no zeroes, and need at most 256 bytes with four for each; a positive entry does not start with `!`. -/
structure Trigger.Fits (t : Trigger) : Prop where
  handler : t.handler.length < 128 ∧ 0 ∉ t.handler
  params : t.params.length < 128 ∧ 0 ∉ t.params
  default : t.default.length < 128 ∧ 0 ∉ t.default
  entries : ∀ e ∈ t.streams, e.text ≠ [] ∧ 0 ∉ e.text ∧ (e.negative = false → e.text.head? ≠ some 33)
  size : (t.streams.map fun e => e.written.length + 4).sum ≤ 256

/-- White space. -/
def White (c : UInt8) : Prop := c = 32 ∨ c = 9 ∨ c = 10 ∨ c = 11 ∨ c = 12 ∨ c = 13

instance (c : UInt8) : Decidable (White c) := inferInstanceAs (Decidable (c = 32 ∨ c = 9 ∨ c = 10 ∨ c = 11 ∨ c = 12 ∨ c = 13))

/-- The letters of an answer without white space, small. -/
def letters (s : Bytes) : Bytes := (s.filter fun c => ¬ White c).map fun c => if 65 ≤ c ∧ c ≤ 90 then c + 32 else c

/-- An answer says yes: it starts with "1", "yes", "true" or "cont". -/
def Yes (s : Bytes) : Prop := [49] <+: letters s ∨ [121, 101, 115] <+: letters s ∨ yes <+: letters s ∨ [99, 111, 110, 116] <+: letters s

end Verif.Trig.Spec
