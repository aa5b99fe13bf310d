import Verif.Base.Bytes

/-!
# Playlists with times of day
-/

namespace Verif.Pls.Spec
open Verif

/-- A line of a playlist. -/
inductive Item where
  /-- a file to play -/
  | entry (name : Bytes)
  /-- the next file is to start at this hour and minute -/
  | time (hour minute : Nat)
  /-- anything else: an empty line or a comment -/
  | note (text : Bytes)

/-- "#X-STARTTIME:" -/
def key : Bytes := [0x23, 0x58, 0x2D, 0x53, 0x54, 0x41, 0x52, 0x54, 0x54, 0x49, 0x4D, 0x45, 0x3A]

/-- Two digits. -/
def two (n : Nat) : Bytes := [UInt8.ofNat (48 + n / 10), UInt8.ofNat (48 + n % 10)]

/-- A line as text, without its end. -/
def Item.text : Item → Bytes
  | entry n => n
  | time h m => key ++ two h ++ [0x3A] ++ two m
  | note t => t

/-- A line that can be written. -/
def Item.Ok : Item → Prop
  | entry n => n ≠ [] ∧ n.head? ≠ some 0x23 ∧ (10 : UInt8) ∉ n
  | time h m => h < 24 ∧ m < 60
  | note t => (t = [] ∨ t.head? = some 0x23) ∧ t.take 13 ≠ key ∧ (10 : UInt8) ∉ t

/-- The text of a playlist. -/
def text (l : List Item) : Bytes := l.flatMap fun i => i.text ++ [10]

/-- The files to play, with the minute of the day at which they are to start, if any; given the time of the last line. -/
def entries : Option Nat → List Item → List (Bytes × Option Nat)
  | _, [] => []
  | s, .entry n :: t => (n, s) :: entries none t
  | _, .time h m :: t => entries (some (h * 60 + m)) t
  | s, .note _ :: t => entries s t

/-- Entry `j` is to start at minute `s`. -/
def At (l : List (Bytes × Option Nat)) (j s : Nat) : Prop := ∃ n, l[j]? = some (n, some s)

/-- Entry `i` may play at minute `now`: every entry that was to start by then comes no later in the list, and every entry that is to start after then comes
later in the list. -/
def Due (l : List (Bytes × Option Nat)) (now i : Nat) : Prop :=
  i < l.length ∧ ∀ j s, At l j s → (s ≤ now → j ≤ i) ∧ (now < s → i < j)

/-- Times go up. -/
def Ordered (l : List (Bytes × Option Nat)) : Prop := ∀ i j s s', i < j → At l i s → At l j s' → s ≤ s'

end Verif.Pls.Spec
