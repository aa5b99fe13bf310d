import Verif.Base.Bytes

/-!
# Units in packets, in byte streams and in frames for players
-/

namespace Verif.H264Out.Spec
open Verif

/-- Data of a packet: each unit behind its length in `l` bytes. -/
def packed (l : Nat) (us : List Bytes) : Bytes := us.flatMap fun u => beEnc l u.length ++ u

/-- Size of the length fields by the configuration of the track: low two bits of byte 4 (H.264) or 21 (H.265), plus one. -/
def fieldSize (h264 : Bool) (init : Bytes) : Nat := 1 + ((if h264 then init.getD 4 0 else init.getD 21 0) &&& 3).toNat

/-- Byte stream (Annex B): each unit behind a start code. -/
def stream (us : List Bytes) : Bytes := us.flatMap fun u => [0, 0, 0, 1] ++ u

/-- What a player takes from a frame: track, key flag, time, offset and the byte stream. -/
def parse (b : Bytes) : Nat × Bool × Nat × Nat × Bytes :=
  ((b.getD 0 0).toNat, b.getD 1 0 == 1, beVal ((b.drop 2).take 8), beVal ((b.drop 10).take 2), b.drop 12)

/-- A configuration record: version, three bytes of profile and level, the size of length fields, sequence and picture parameter sets, and what may follow. -/
def record (a b c e : UInt8) (ss ps : List Bytes) (ext : Bytes) : Bytes :=
  [1, a, b, c, e, UInt8.ofNat (0xE0 + ss.length)] ++ packed 2 ss ++ [UInt8.ofNat ps.length] ++ packed 2 ps ++ ext

end Verif.H264Out.Spec
