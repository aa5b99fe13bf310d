import Verif.Base.Bytes

/-!
# What an RTP packet is (RFC 3550, section 5.1 and 5.3.1)

Independent of the model: a record of the fields, and the bytes they stand for.
-/
namespace Verif.Rtp.Spec

/-- The content of an RTP packet. `pad` is the number of padding bytes, zero if the padding flag is
clear; `ext` the profile word and the extension words. -/
structure Pkt where
  marker : Bool
  payloadType : Nat
  sequence : Nat
  timestamp : Nat
  ssrc : Nat
  csrc : List Nat := []
  ext : Option (Nat × List Nat) := none
  payload : Bytes
  pad : Nat := 0

/-- Field ranges. -/
structure Pkt.Valid (p : Pkt) : Prop where
  payloadType : p.payloadType < 128
  sequence : p.sequence < 2 ^ 16
  timestamp : p.timestamp < 2 ^ 32
  ssrc : p.ssrc < 2 ^ 32
  csrc : p.csrc.length ≤ 15
  ext : ∀ e, p.ext = some e → e.2.length < 2 ^ 16
  pad : p.pad < 256

/-- The extension: profile, number of words, the words. -/
def extBytes : Option (Nat × List Nat) → Bytes
  | none => []
  | some (profile, words) => beEnc 2 profile ++ beEnc 2 words.length ++ words.flatMap (beEnc 4)

/-- Padding: the last byte says how many bytes there are. -/
def padBytes (n : Nat) : Bytes :=
  if n = 0 then [] else List.replicate (n - 1) 0 ++ [UInt8.ofNat n]

/-- Version 2, the padding and extension flags, the number of contributing sources; marker and
payload type; sequence number, timestamp, source; contributing sources; extension. -/
def Pkt.header (p : Pkt) : Bytes :=
  [UInt8.ofNat (2 * 64 + (if p.pad = 0 then 0 else 32) + (if p.ext.isSome then 16 else 0) + p.csrc.length),
    UInt8.ofNat ((if p.marker then 128 else 0) + p.payloadType)] ++
  beEnc 2 p.sequence ++ beEnc 4 p.timestamp ++ beEnc 4 p.ssrc ++ p.csrc.flatMap (beEnc 4) ++
  extBytes p.ext

/-- The bytes on the wire. -/
def Pkt.encode (p : Pkt) : Bytes := p.header ++ p.payload ++ padBytes p.pad

/-- The header length: 12 bytes, 4 per contributing source, and the extension if there is one. -/
def Pkt.headerLen (p : Pkt) : Nat :=
  12 + 4 * p.csrc.length + (match p.ext with | none => 0 | some (_, words) => 4 + 4 * words.length)

/-- The packets of one frame: the pieces in order, consecutive sequence numbers (modulo 2^16)
starting at `seq`, the same payload type, timestamp and source, and the marker on the last one if
`mark`. -/
def framePackets (mark : Bool) (pt seq ts ssrc : Nat) (pieces : List Bytes) : List Bytes :=
  pieces.mapIdx fun i piece =>
    Pkt.encode { marker := mark && i + 1 == pieces.length, payloadType := pt
                 sequence := (seq + i) % 65536, timestamp := ts, ssrc := ssrc, payload := piece }

end Verif.Rtp.Spec
