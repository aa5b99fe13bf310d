import Verif.Base.Bytes

/-!
# Playlists as input

`src/input/input_playlist.cpp`.

Simplifications: times are minutes of the day; starting an entry (its path, variables in it, whether the file exists) is an outcome from outside; shutdown is
left out. `npos` is `none`. Numbers in `#X-STARTTIME` do not overflow an `int`.
-/

namespace Verif.Pls
open Verif

/-- The complete lines of a file (input_playlist.cpp 166-168): a last line without end of line leaves `good()` false and is not used. -/
def lines : Bytes → Bytes → List Bytes
  | _, [] => []
  | acc, c :: t => if c = 10 then acc :: lines [] t else lines (acc ++ [c]) t

/-- Digits read by `%d`. -/
def digits : Option Nat → Bytes → Option Nat × Bytes
  | acc, [] => (acc, [])
  | acc, c :: t => if 48 ≤ c.toNat ∧ c.toNat ≤ 57 then digits (some (acc.getD 0 * 10 + (c.toNat - 48))) t else (acc, c :: t)

/-- White space passed over by `%d`. -/
def blanks : Bytes → Bytes
  | [] => []
  | c :: t => if c = 32 ∨ (9 ≤ c.toNat ∧ c.toNat ≤ 13) then blanks t else c :: t

/-- `%d` of `sscanf` (input_playlist.cpp 185). -/
def scanInt (b : Bytes) : Option (Int × Bytes) :=
  match blanks b with
  | 45 :: t => (digits none t).1.map fun n => (-(n : Int), (digits none t).2)
  | 43 :: t => (digits none t).1.map fun n => ((n : Int), (digits none t).2)
  | t => (digits none t).1.map fun n => ((n : Int), (digits none t).2)

/-- "#X-STARTTIME:" -/
def tag : Bytes := [0x23, 0x58, 0x2D, 0x53, 0x54, 0x41, 0x52, 0x54, 0x54, 0x49, 0x4D, 0x45, 0x3A]

/-- `sscanf` with `%d:%d`, as minutes in 16 bits (input_playlist.cpp 183-188). -/
def scanTime (b : Bytes) : Option Nat :=
  (scanInt b).bind fun h =>
    match h.2 with
    | 0x3A :: t => (scanInt t).map fun m => ((h.1 * 60 + m.1) % 65536).toNat
    | _ => none

/-- What is kept while and after reading (input_playlist.h 19-28, input_playlist.cpp 162-165). -/
structure Pls where
  /-- `playlist` -/
  entries : List Bytes
  /-- `plsStartTime`; 0xFFFF if not given -/
  start : Nat
  /-- `minIndex` -/
  min : Option Nat
  /-- `maxIndex` -/
  max : Option Nat
  /-- `reloadOn`; 0xFFFF if not needed -/
  reloadOn : Nat
deriving DecidableEq

/-- Before the first line (input_playlist.cpp 145-146, 162-165). -/
def empty : Pls := { entries := [], start := 0xFFFF, min := none, max := none, reloadOn := 0xFFFF }

/-- A line with an entry (input_playlist.cpp 169-181). For the first entry `playlist.size() - 2` is `npos`. -/
def addEntry (wall : Nat) (p : Pls) (line : Bytes) : Pls :=
  if p.start = 0xFFFF then { p with entries := p.entries ++ [line] }
  else
    { entries := p.entries ++ [line], start := 0xFFFF,
      min := if p.start ≤ wall then some p.entries.length else p.min,
      max := if wall < p.start ∧ p.max = none then (if p.entries.length = 0 then none else some (p.entries.length - 1)) else p.max,
      reloadOn := if wall < p.start ∧ p.max = none then p.start else p.reloadOn }

/-- One line (input_playlist.cpp 167-191). -/
def readLine (wall : Nat) (p : Pls) (line : Bytes) : Pls :=
  if line ≠ [] ∧ line.head? ≠ some 0x23 then addEntry wall p line
  else if 13 < line.length ∧ line.take 13 = tag then { p with start := (scanTime (line.drop 13)).getD p.start }
  else p

/-- `reloadPlaylist` (input_playlist.cpp 144-194) at a time of day; `none` is a file that cannot be opened. -/
def load (wall : Nat) (file : Option Bytes) (p : Pls) : Pls :=
  match file with
  | none => { p with min := none, max := none }
  | some b => (lines [] b).foldl (readLine wall) empty

/-- What is kept between entries. -/
structure St where
  /-- the list -/
  pls : Pls
  /-- `playlistIndex` -/
  index : Nat
  /-- `seenValidEntry` -/
  seen : Bool
deriving DecidableEq

/-- At the start (input_playlist.cpp 27, 50). -/
def boot : St := { pls := empty, index := 0xFFFFFFFE, seen := true }

/-- The lower limit (input_playlist.cpp 78-82). -/
def clipMin : Option Nat → Nat → Nat
  | some m, i => if i < m then m else i
  | none, i => i

/-- The upper limit (input_playlist.cpp 83-87). -/
def clipMax : Option Nat → Nat → Nat
  | some m, i => if m < i then m else i
  | none, i => i

/-- An index kept within limits (input_playlist.cpp 78-87). -/
def clip (p : Pls) (i : Nat) : Nat := clipMax p.max (clipMin p.min i)

/-- The choice of an entry (input_playlist.cpp 59-88): the new state and whether it waited a second; `none` is the end of the input. -/
def turn (wall : Nat) (file : Option Bytes) (s : St) : Option (St × Bool) :=
  let p := load wall file s.pls
  if p.entries = [] then none
  else if p.entries.length ≤ s.index + 1 then some ({ pls := p, index := clip p 0, seen := false }, !s.seen)
  else some ({ pls := p, index := clip p (s.index + 1), seen := s.seen }, false)

/-- The outcome of starting the entry (input_playlist.cpp 104-119). -/
def started (ok : Bool) (s : St) : St := { s with seen := s.seen || ok }

/-- Whether an index is below the lower limit (input_playlist.cpp 132). -/
def below : Option Nat → Nat → Bool
  | some m, i => decide (i < m)
  | none, _ => false

/-- Whether an index is above the upper limit (input_playlist.cpp 133). -/
def above : Option Nat → Nat → Bool
  | some m, i => decide (m < i)
  | none, _ => false

/-- Every second while an entry plays (input_playlist.cpp 127-138): the new state and whether the entry is stopped. -/
def tick (wall : Nat) (file : Option Bytes) (s : St) : St × Bool :=
  if s.pls.reloadOn = 0xFFFF then (s, false)
  else
    let p := if s.pls.reloadOn ≤ wall then load wall file s.pls else s.pls
    ({ s with pls := p }, below p.min s.index || above p.max s.index)

end Verif.Pls
