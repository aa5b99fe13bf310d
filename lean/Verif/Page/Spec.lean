import Verif.Page.Model
import Verif.Dtsc.PacketProps

/-!
# What readers of a page should find
-/
namespace Verif.Page.Spec
open Verif.Dtsc Verif.Dtsc.Spec

/-- What a packet holds. -/
def content (p : Pack) : Content :=
  ⟨p.time, p.off, p.track, p.bpos, if p.key then some true else none, p.data, none⟩

/-- The bytes that packets take up. -/
def total : List Content → Nat
  | [] => 0
  | c :: r => packetSize c + total r

/-- The packets that a page of `size` bytes takes, of which `used` are in use: those that are in order and fit in what is
left. -/
def accepted (size : Nat) : Nat → List Call → List Content
  | _, [] => []
  | used, c :: r =>
    if (c.vod = true ∨ c.lastms ≤ c.pack.time) ∧ used + packetSize (content c.pack) ≤ size then
      content c.pack :: accepted size (used + packetSize (content c.pack)) r
    else accepted size used r

/-- Packets one after the other from `off` on: their places and lengths. -/
def places (off : Nat) : List Content → List (Nat × Nat)
  | [] => []
  | c :: r => (off, packetSize c) :: places (off + packetSize c) r

/-- The part of a page where a packet is, as a packet of its own. -/
def cut (m : Nat → UInt8) (off len : Nat) : Pkt :=
  ⟨some ((List.range len).map fun i => m (off + i)), .v2, 0⟩

end Verif.Page.Spec
