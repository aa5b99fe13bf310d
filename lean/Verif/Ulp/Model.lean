import Verif.Rtp.Model

/-!
# Model of forward error correction in received media packets

`/repo/lib/rtp_fec.cpp`: the history of packets (`FECSorter::addPacket`), packets that carry media or error correction (`addREDPacket`), and the recovery of a lost packet
(`PacketFEC`). The packet handed to the sorter is the result; the sorter itself is `Rtp.Sorter`. A read outside of a buffer, or through a null pointer, is a `fault`.
-/
namespace Verif.Ulp
open Verif

/-- The history of packets: a `std::map` from sequence numbers. -/
abbrev Hist := List (Nat × Bytes)

/-- A packet of the history. -/
def find (h : Hist) (k : Nat) : Option Bytes := (h.find? (·.1 = k)).map (·.2)

/-- The part of `FECSorter::addPacket` about the history (rtp_fec.cpp 419-425): a packet replaces the one with its number, and numbers below its number minus 500 are erased. -/
def addHist (h : Hist) (seq : Nat) (p : Bytes) : Hist := ((seq, p) :: h.filter fun x => x.1 ≠ seq).filter fun x => ¬ x.1 + 500 < seq

/-- What is done with a packet. -/
inductive Out where
  | fault
  | nothing
  | media (p : Bytes)
  | recovered (p : Bytes)
  deriving DecidableEq, Repr

/-- A byte, 0 outside of the buffer (the callers check that first). -/
def at' (b : Bytes) (i : Nat) : UInt8 := b.getD i 0

/-- `getNumBytesUsedForMask` (rtp_fec.cpp 140-151). -/
def maskLen (f : Bytes) : Nat := if (at' f 0).toNat / 64 % 2 = 0 then 2 else 6

/-- `getSequenceBaseNumber` (rtp_fec.cpp 153-162). -/
def snBase (f : Bytes) : Nat := (at' f 2).toNat * 256 + (at' f 3).toNat

/-- The test of a bit of the mask (rtp_fec.cpp 266): `maskByte & ((1 << 7) - bitDX)`. -/
def maskBit (m : UInt8) (bit : Nat) : Bool := m &&& UInt8.ofNat (128 - bit) ≠ 0

/-- `extractCoveringSequenceNumbers` (rtp_fec.cpp 238-274). -/
def covered (f : Bytes) : List Nat := ((List.range (8 * maskLen f)).filter fun i => maskBit (at' f (12 + i / 8)) (i % 8)).map fun i => (snBase f + i) % 65536

/-- `getLevel0ProtectionLength` (rtp_fec.cpp 196-212). -/
def protLen (f : Bytes) : Nat := (at' f 10).toNat * 256 + (at' f 11).toNat

/-- Bytes combined. -/
def xorB (start : UInt8) (l : List UInt8) : UInt8 := l.foldl (· ^^^ ·) start

/-- The length of the payload that is recovered (rtp_fec.cpp 361-397): 16 bits. -/
def size (f : Bytes) (others : List Bytes) : Nat :=
  others.foldl (fun a o => a ^^^ ((Rtp.getPayloadSize o).getD 0 % 65536)) ((at' f 8).toNat * 256 + (at' f 9).toNat)

/-- The buffer that is recovered (rtp_fec.cpp 345-411) with `n` bytes of payload combined. -/
def buffer (f : Bytes) (others : List Bytes) (n : Nat) : Bytes :=
  let x := fun j => xorB (at' f j) (others.map (at' · j))
  [x 0, x 1, at' f 2, at' f 3, x 4, x 5, x 6, x 7, at' f 8, at' f 9, at' f 10, at' f 11] ++
    (List.range (protLen f)).map fun i =>
      if i < n then xorB (at' f (12 + maskLen f + i)) (others.map fun o => at' o ((Rtp.getHsize o).getD 0 + i)) else at' f (12 + maskLen f + i)

/-- `tryToRecoverMissingPacket` (rtp_fec.cpp 302-417). Into a packet of 1 to 3 bytes the sequence number does not fit and is written behind it; one of 0 bytes is replaced by one of
zeroes (rtp.cpp 756-761), here without any. Messages, which read bytes of the payload for the log, are left out. -/
def recover (h : Hist) (f : Bytes) : Out :=
  if f.length < 12 + maskLen f then .fault
  else
    match (covered f).filter fun s => (find h s).isNone with
    | [missing] =>
      if protLen f = 0 then .nothing
      else if f.length < 12 + maskLen f + protLen f then .fault
      else
        let others := (covered f).filterMap (find h)
        let n := size f others
        if others.any fun o => decide (protLen f < n) || decide (o.length < (Rtp.getHsize o).getD 0 + n) then .fault
        else if 0 < n ∧ n < 4 then .fault
        else .recovered ((Rtp.setSequence (buffer f others n) missing).take n)
    | _ => .nothing

/-- The packet with the media of a RED packet (rtp_fec.cpp 475-478). -/
def unwrap (d : Bytes) (hs codec : Nat) : Bytes := (d.take hs ++ d.drop (hs + 1)).set 1 ((at' d 1 &&& 0x80) ||| UInt8.ofNat codec)

/-- `addREDPacket` (rtp_fec.cpp 451-518; `initWithREDPacket` 63-115). `moreBlocks == 1` never holds, since it is 0 or 0x80. If the correction is too short, `fec` is null and is used all the same. -/
def addRed (h : Hist) (d : Bytes) (codec red ulp : Nat) : Out :=
  match Rtp.getHsize d, Rtp.getPayloadType d with
  | some hs, some t =>
    if t ≠ red then .nothing
    else
      match d[hs]? with
      | none => .fault
      | some r =>
        if r.toNat % 128 = codec then .media (unwrap d hs codec)
        else if r.toNat % 128 = ulp then (if d.length < 23 then .fault else recover h (d.drop (hs + 1)))
        else .nothing
  | _, _ => .fault

end Verif.Ulp
