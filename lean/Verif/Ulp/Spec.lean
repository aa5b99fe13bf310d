import Verif.Ulp.Model

/-! # Generic forward error correction (RFC 5109) and redundant data (RFC 2198) -/
namespace Verif.Ulp
open Verif

/-- Bytes combined with exclusive or. -/
def xorAll (l : List UInt8) : UInt8 := l.foldr (· ^^^ ·) 0

/-- Numbers combined with exclusive or. -/
def xorNat (l : List Nat) : Nat := l.foldr (· ^^^ ·) 0

/-- A media packet: version 2, no padding, no extension, no contributing sources, 12 bytes of header. -/
structure Media (seq : Nat) (p : Bytes) : Prop where
  long : 12 < p.length
  short : p.length < 65536
  first : p[0]? = some 0x80
  num : (p[2]?, p[3]?) = (some (UInt8.ofNat (seq / 256)), some (UInt8.ofNat seq))

/-- A byte of a packet, 0 behind its end. -/
def byte (p : Bytes) (i : Nat) : UInt8 := (p[i]?).getD 0

/-- The mask of offsets from the base number: the first offset is the highest bit. -/
def maskOf (offs : List Nat) : Nat := (offs.map fun i => 2 ^ (15 - i)).sum

/-- The error correction for the packets at some offsets from a base number (RFC 5109, 7.3 and 7.4), with the short mask. -/
def protect (base : Nat) (offs : List Nat) (p : Nat → Bytes) : Bytes :=
  let x := fun j => xorAll (offs.map fun i => byte (p i) j)
  let len := xorNat (offs.map fun i => (p i).length - 12)
  let most := (offs.map fun i => (p i).length - 12).foldr max 0
  [x 0 &&& 0x3f, x 1, UInt8.ofNat (base / 256), UInt8.ofNat base, x 4, x 5, x 6, x 7, UInt8.ofNat (len / 256), UInt8.ofNat len,
    UInt8.ofNat (most / 256), UInt8.ofNat most, UInt8.ofNat (maskOf offs / 256), UInt8.ofNat (maskOf offs)] ++
    (List.range most).map fun j => xorAll (offs.map fun i => byte (p i) (12 + j))

/-- A media packet as redundant data with one block (RFC 2198): another payload type, and a byte with the old one behind the header. -/
def wrap (p : Bytes) (codec red : Nat) : Bytes := (p.take 12 ++ [UInt8.ofNat codec] ++ p.drop 12).set 1 ((byte p 1 &&& 0x80) ||| UInt8.ofNat red)

/-- Packets that arrive, as a history. -/
def arrive (l : List (Nat × Bytes)) : Hist := l.foldl (fun h x => addHist h x.1 x.2) []

end Verif.Ulp
