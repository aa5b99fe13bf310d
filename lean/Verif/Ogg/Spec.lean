import Verif.Ogg.Model
import Verif.Crc.Spec

/-! # OGG pages (RFC 3533) -/
namespace Verif.Ogg
open Verif

/-- A page. -/
structure Page where
  typ : UInt8
  granule : Nat
  serial : Nat
  seq : Nat
  crc : Nat
  lacing : Bytes
  body : Bytes
  deriving DecidableEq, Repr

/-- The size of the body. -/
def size (lacing : Bytes) : Nat := (lacing.map (·.toNat)).sum

/-- A page at the start of some bytes, and what follows it: the capture pattern, version 0, type, granule position, serial number, page number and checksum (all with the
lowest byte first), the number of lacing values, these values, and as many bytes as they add up to. -/
def parsePage (b : Bytes) : Option (Page × Bytes) :=
  if b.take 5 ≠ [0x4f, 0x67, 0x67, 0x53, 0] then none
  else if b.length < 27 then none
  else if b.length < 27 + ((b.drop 26).headD 0).toNat then none
  else if b.length < 27 + ((b.drop 26).headD 0).toNat + size ((b.drop 27).take ((b.drop 26).headD 0).toNat) then none
  else some (⟨(b.drop 5).headD 0, leVal ((b.drop 6).take 8), leVal ((b.drop 14).take 4), leVal ((b.drop 18).take 4), leVal ((b.drop 22).take 4),
      (b.drop 27).take ((b.drop 26).headD 0).toNat, (b.drop (27 + ((b.drop 26).headD 0).toNat)).take (size ((b.drop 27).take ((b.drop 26).headD 0).toNat))⟩,
    b.drop (27 + ((b.drop 26).headD 0).toNat + size ((b.drop 27).take ((b.drop 26).headD 0).toNat)))

/-- All bytes are pages. -/
def parsePages : Nat → Bytes → Option (List Page)
  | 0, b => if b = [] then some [] else none
  | n + 1, b =>
    if b = [] then some []
    else match parsePage b with
    | none => none
    | some (p, rest) => (parsePages n rest).map (p :: ·)

/-- The pages of a stream. -/
def pagesOf (b : Bytes) : Option (List Page) := parsePages b.length b

/-- The packets that end on a page, and the beginning of the one that does not: a packet ends with a lacing value below 255. -/
def split : Bytes → Bytes → Bytes → List Bytes × Bytes
  | cur, [], _ => ([], cur)
  | cur, n :: l, body =>
    if n = 255 then split (cur ++ body.take 255) l (body.drop 255)
    else ((cur ++ body.take n.toNat) :: (split [] l (body.drop n.toNat)).1, (split [] l (body.drop n.toNat)).2)

/-- Whether a page goes on with the packet of the page before. -/
def Page.continued (p : Page) : Bool := p.typ.toNat % 2 = 1

/-- The packets of some pages, after `cur`: what a page does not continue is lost. -/
def assemble : Bytes → List Page → List Bytes × Bytes
  | cur, [] => ([], cur)
  | cur, p :: l =>
    ((split (if p.continued then cur else []) p.lacing p.body).1 ++ (assemble (split (if p.continued then cur else []) p.lacing p.body).2 l).1,
      (assemble (split (if p.continued then cur else []) p.lacing p.body).2 l).2)

/-- The packets that are complete. -/
def packets (pages : List Page) : List Bytes := (assemble [] pages).1

/-- The granule positions of packets: times 48 for Opus; all samples up to the end for Vorbis; for Theora the frame of the last key frame, and the frames since. -/
def granules : Codec → Nat → List Packet → List Nat
  | _, _, [] => []
  | .opus, k, p :: l => p.time * 48 :: granules .opus k l
  | .vorbis r, k, p :: l => (k + p.samples) :: granules (.vorbis r) (k + p.samples) l
  | .theora s, k, p :: l =>
    if p.key then p.frame * 2 ^ s :: granules (.theora s) p.frame l
    else (k * 2 ^ s + (p.frame - k)) :: granules (.theora s) k l

/-- The granule positions are below 2^31 and, for Theora, there is room for the frames since the last key frame. -/
def Steady : Codec → Nat → List Packet → Prop
  | _, _, [] => True
  | .opus, k, p :: l => p.time * 48 < 2 ^ 31 ∧ Steady .opus k l
  | .vorbis r, k, p :: l => k + p.samples < 2 ^ 31 ∧ Steady (.vorbis r) (k + p.samples) l
  | .theora s, k, p :: l =>
    if p.key then p.frame * 2 ^ s < 2 ^ 31 ∧ Steady (.theora s) p.frame l
    else k ≤ p.frame ∧ p.frame - k < 2 ^ s ∧ k * 2 ^ s + (p.frame - k) < 2 ^ 31 ∧ Steady (.theora s) k l

/-- The history: headers, then packets. -/
def sent (c : Codec) (serial : Nat) (h0 : Bytes) (hs : List Bytes) (ps : List Packet) : Track := ps.foldl sendNext (start c serial h0 hs)

/-- The length is not a multiple of 255, but for the empty packet. -/
def Odd (b : Bytes) : Prop := b.length % 255 ≠ 0 ∨ b.length = 0

/-- The first header fits on a page; the others but for the last one too. -/
def Headers (h0 : Bytes) (hs : List Bytes) : Prop := h0.length < 65025 ∧ (hs.dropLast.map fun h => h.length / 255 + 1).sum ≤ 254

/-- What a page after the pages `a` says: if no packet ends on it, that; else the granule position of the last one that does (`gs` are those of all packets). -/
def Marked (gs : List Nat) (a : List Page) (p : Page) : Prop :=
  ((packets (a ++ [p])).length = (packets a).length → p.granule = 2 ^ 64 - 1) ∧
  ((packets (a ++ [p])).length ≠ (packets a).length → gs[(packets (a ++ [p])).length - 1]? = some p.granule)

/-- The bytes of a page, with `sum` for its checksum. -/
def Page.bytes (p : Page) (sum : Bytes) : Bytes :=
  [0x4f, 0x67, 0x67, 0x53, 0, p.typ] ++ leEnc 8 p.granule ++ leEnc 4 p.serial ++ leEnc 4 p.seq ++ sum ++ [UInt8.ofNat p.lacing.length] ++ p.lacing ++ p.body

/-- The CRC of some bytes, as RFC 3533 has it: generator 0x04c11db7, from zero, the highest bit first. -/
def IsSum (b : Bytes) (sum : Nat) : Prop := Crc.Spec.IsCrc Crc.Spec.gen32 (toBits 32 0) (bytesBits b) (toBits 32 sum)

/-- What is read from a page: the packets that end on it, and the beginning of another one. -/
def parts (p : Page) : List Bytes := (split [] p.lacing p.body).1 ++ (if (split [] p.lacing p.body).2 = [] then [] else [(split [] p.lacing p.body).2])

end Verif.Ogg
