import Verif.Rtp.Spec

/-!
# Receiving forward error correction (SMPTE 2022-1, RFC 2733)

What a receiver that follows the standard does with a parity packet. Independent of the model.
-/
namespace Verif.Rtp.Spec

/-- Bitwise exclusive or of two byte strings. -/
def xorB (a b : Bytes) : Bytes := List.zipWith (· ^^^ ·) a b

/-- The bytes of a media packet that are protected (RFC 2733 section 6): padding, extension and source count
bits; marker and payload type; timestamp; the length of what follows the fixed header; what follows the
fixed header. -/
def mediaBits (m : Bytes) : Bytes :=
  [m.getD 0 0 &&& 0x3f, m.getD 1 0] ++ (m.drop 4).take 4 ++ beEnc 2 (m.length - 12) ++ m.drop 12

/-- The same bytes of the parity: the first two from its RTP header (marker) and its FEC header (payload
type), the others from the FEC header (bytes 12 to 27) and the parity payload. -/
def parityBits (f : Bytes) : Bytes :=
  [f.getD 0 0 &&& 0x3f, (f.getD 1 0 &&& 0x80) ||| (f.getD 16 0 &&& 0x7f)] ++ (f.drop 20).take 4 ++ (f.drop 14).take 2 ++ f.drop 28

/-- The sequence numbers of the packets a parity packet protects: base, offset and number. -/
def protectedSeqs (f : Bytes) : List Nat :=
  (List.range (f.getD 26 0).toNat).map fun i => (beVal ((f.drop 12).take 2) + i * (f.getD 25 0).toNat) % 65536

/-- The lost packet with sequence number `seq`, rebuilt from the parity packet and the other packets it
protects, in any order. -/
def recover (f : Bytes) (others : List Bytes) (seq ssrc : Nat) : Bytes :=
  let b := others.foldl (fun acc m => xorB acc (mediaBits m)) (parityBits f)
  [0x80 ||| b.getD 0 0, b.getD 1 0] ++ beEnc 2 seq ++ (b.drop 2).take 4 ++ beEnc 4 ssrc ++
    (b.drop 8).take (beVal ((b.drop 6).take 2))

/-- The sequence number of a media packet. -/
def seqOf (m : Bytes) : Nat := beVal ((m.drop 2).take 2)

/-- The `D` bit of the FEC header: set for rows. -/
def isRow (f : Bytes) : Bool := f.getD 24 0 &&& 0x40 = 0x40

/-- The exclusive or of a non-empty list of byte strings. -/
def xorAll : List Bytes → Bytes
  | [] => []
  | a :: l => l.foldl xorB a

/-- A parity packet (SMPTE 2022-1) for packets whose protected bytes combine to `bits`: an RTP header with
payload type 96, source 0 and its own sequence number and timestamp; the FEC header with the lowest
protected sequence number, the length recovery, the extension bit and payload type recovery, an empty
mask, the timestamp recovery, the row bit, offset and number of protected packets; the parity payload. -/
def parityPacket (row : Bool) (sn ts base offset number : Nat) (bits : Bytes) : Bytes :=
  [0x80 ||| (bits.getD 0 0 &&& 0x3f), (bits.getD 1 0 &&& 0x80) ||| 96] ++ beEnc 2 sn ++ beEnc 4 ts ++ beEnc 4 0 ++
  beEnc 2 base ++ (bits.drop 6).take 2 ++ [0x80 ||| bits.getD 1 0, 0, 0, 0] ++ (bits.drop 2).take 4 ++
  [if row then 0x40 else 0, UInt8.ofNat offset, UInt8.ofNat number, 0] ++ bits.drop 8

end Verif.Rtp.Spec
