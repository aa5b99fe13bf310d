import Verif.Json.Dtmi

/-!
# What a packet holds
-/
namespace Verif.Dtsc.Spec
open Verif.Json (JVal)

/-- What a packet is built from, and what the operations on it do in plain terms. `key` is whether the packet is a
keyframe, if it has room to say so. The data is `done` followed by the NAL unit that can still grow, if there is one,
behind its length in four bytes. -/
structure Content where
  time : Nat
  off : Int
  track : Nat
  bpos : Nat
  key : Option Bool
  done : Bytes
  nal : Option Bytes

/-- A number in four bytes, the most significant first. -/
def be4 (n : Nat) : Bytes :=
  [UInt8.ofNat (n / 2 ^ 24), UInt8.ofNat (n / 2 ^ 16), UInt8.ofNat (n / 2 ^ 8), UInt8.ofNat n]

/-- The data of the packet. -/
def Content.data (c : Content) : Bytes :=
  match c.nal with
  | none => c.done
  | some x => c.done ++ be4 x.length ++ x

/-- Whether the packet is a keyframe. -/
def Content.isKey (c : Content) : Bool := c.key == some true

/-- What happens to a packet. -/
inductive Op where
  | append (x : Bytes)
  | nal (x : Bytes)
  | grow (x : Bytes)
  | key (b : Bool)
  | time (t : Nat)

/-- The effect. A NAL unit can grow only while it is the last thing in the packet. -/
def apply (c : Content) : Op → Option Content
  | .append x => some { c with done := c.data ++ x, nal := none }
  | .nal x => if x = [] then some c else some { c with done := c.data, nal := some x }
  | .grow y => if y = [] then some c else c.nal.map fun x => { c with nal := some (x ++ y) }
  | .key b => some { c with key := c.key.map fun _ => b }
  | .time t => some { c with time := t }

/-- The effect of several operations. -/
def applyAll (c : Content) : List Op → Option Content
  | [] => some c
  | o :: r => (apply c o).bind fun c => applyAll c r

/-- The bytes an operation adds. -/
def added : Op → Nat
  | .append x => x.length
  | .nal x => x.length + 4
  | .grow y => y.length
  | _ => 0

/-- All the bytes that operations add. -/
def addedAll : List Op → Nat
  | [] => 0
  | o :: r => added o + addedAll r

/-- The size of a packet: 20 bytes of header, 4 for the object, 17, 15, 19 and 11 for the members "offset", "bpos", the key
flag and "data", and the data. -/
def packetSize (c : Content) : Nat :=
  20 + 4 + (if c.off = 0 then 0 else 17) + (if c.bpos = 0 then 0 else 15) + (if c.key = none then 0 else 19) + 11 + c.data.length

/-- Numbers that fit: 64-bit times, offsets and positions and a 32-bit track. -/
def FitsPacket (c : Content) : Prop :=
  c.time < 2 ^ 64 ∧ -(2 ^ 63) ≤ c.off ∧ c.off < 2 ^ 63 ∧ c.track < 2 ^ 32 ∧ c.bpos < 2 ^ 64

end Verif.Dtsc.Spec
