import Verif.Av1.Model

/-!
# What a receiver of AV1 over RTP does
-/

namespace Verif.Av1.Spec
open Verif

/-- The elements of a packet with what was left open before. -/
def merge (z : Bool) (pend : Bytes) (els : List Bytes) : List Bytes :=
  if z then (pend ++ els.headD []) :: els.tail else els

/-- The units a receiver gets from packets, with the beginning of one that was left open. -/
def recv : Bytes → List Pkt → List Bytes
  | _, [] => []
  | pend, p :: t => if p.y then (merge p.z pend p.els).dropLast ++ recv ((merge p.z pend p.els).getLastD []) t else merge p.z pend p.els ++ recv [] t

/-- A number in seven bits a byte, lowest first, and the bytes behind it. -/
def lebVal : Bytes → Nat × Bytes
  | [] => (0, [])
  | c :: t => if 128 ≤ c.toNat then (c.toNat - 128 + 128 * (lebVal t).1, (lebVal t).2) else (c.toNat, t)

/-- Elements with their lengths. -/
def elements : Nat → Bytes → List Bytes
  | 0, _ => []
  | f + 1, b => if b = [] then [] else (lebVal b).2.take (lebVal b).1 :: elements f ((lebVal b).2.drop (lebVal b).1)

end Verif.Av1.Spec
