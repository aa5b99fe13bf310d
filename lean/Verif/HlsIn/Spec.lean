import Verif.Base.Bytes
import Verif.Enc.Spec
import Verif.Subs.Spec

/-!
# Media playlists (RFC 8216)
-/

namespace Verif.HlsIn.Spec
open Verif

/-- What a media playlist consists of, after the tag with the first number. -/
inductive Item where
  /-- `#EXTINF:` and the duration -/
  | inf (text : Bytes)
  /-- `#EXT-X-BYTERANGE:` with length and offset -/
  | range (len off : Nat)
  /-- `#EXT-X-KEY:METHOD=AES-128`, vector and its digits, address of the key -/
  | key (iv hex uri : Bytes)
  /-- the address of a segment -/
  | seg (uri : Bytes)
  /-- another tag, a comment or an empty line -/
  | note (text : Bytes)

/-- A text of ASCII characters. -/
def ascii (s : String) : Bytes := s.toList.map (fun c => UInt8.ofNat c.toNat)

/-- A decimal number. -/
def number (n : Nat) : Bytes := Subs.dec n

/-- The line of an item. -/
def Item.line : Item → Bytes
  | .inf t => [0x23, 0x45, 0x58, 0x54, 0x49, 0x4E, 0x46, 0x3A] ++ t
  | .range len off => [0x23, 0x45, 0x58, 0x54, 0x2D, 0x58, 0x2D, 0x42, 0x59, 0x54, 0x45, 0x52, 0x41, 0x4E, 0x47, 0x45, 0x3A]
      ++ number len ++ [0x40] ++ number off
  | .key _ hex uri => [0x23, 0x45, 0x58, 0x54, 0x2D, 0x58, 0x2D, 0x4B, 0x45, 0x59, 0x3A, 0x4D, 0x45, 0x54, 0x48, 0x4F, 0x44,
      0x3D, 0x41, 0x45, 0x53, 0x2D, 0x31, 0x32, 0x38, 0x2C, 0x49, 0x56, 0x3D, 0x30, 0x78] ++ hex
      ++ [0x2C, 0x55, 0x52, 0x49, 0x3D, 0x22] ++ uri ++ [0x22]
  | .seg uri => uri
  | .note t => t

example : (Item.inf (ascii "6.0,")).line = ascii "#EXTINF:6.0," := by decide
example : (Item.range 7 3).line = ascii "#EXT-X-BYTERANGE:7@3" := by decide +kernel
example : (Item.key [] (ascii "00") (ascii "k")).line = ascii "#EXT-X-KEY:METHOD=AES-128,IV=0x00,URI=\"k\"" := by decide

/-- Digits of bytes: two for each. -/
def Digits : Bytes → Bytes → Prop
  | [], t => t = []
  | b :: r, t => ∃ x y u, t = x :: y :: u ∧ Enc.Spec.hexVal x = some (b.toNat / 16) ∧ Enc.Spec.hexVal y = some (b.toNat % 16)
      ∧ Digits r u

/-- The tags that say something about segments. -/
def known : List Bytes := [ascii "KEY", ascii "BYTERANGE", ascii "MEDIA-SEQUENCE"]

/-- The item can be written in a line. -/
def Item.Ok : Item → Prop
  | .inf t => (0x0A : UInt8) ∉ t ∧ t.getLast? ≠ some 0x0D
  | .range len off => 0 < len ∧ len < 2 ^ 64 ∧ off < 2 ^ 64
  | .key iv hex uri => iv.length = 16 ∧ Digits iv hex ∧ (0x0A : UInt8) ∉ uri ∧ (0x22 : UInt8) ∉ uri
  | .seg uri => (0x0A : UInt8) ∉ uri ∧ uri.getLast? ≠ some 0x0D ∧ uri ≠ [] ∧ uri.head? ≠ some 0x23
  | .note t => t = [] ∨ ((0x0A : UInt8) ∉ t ∧ t.getLast? ≠ some 0x0D ∧ t.head? = some 0x23 ∧ t.take 7 ≠ ascii "#EXTINF"
      ∧ (t.take 7 = ascii "#EXT-X-" → (t.drop 7).takeWhile (· != 0x3A) ∉ known))

/-- Lines, each ended by a line feed, with or without a carriage return. -/
def lines : List (Item × Bool) → Bytes
  | [] => []
  | (i, cr) :: t => i.line ++ (if cr then [0x0D, 0x0A] else [0x0A]) ++ lines t

/-- The text of a playlist: its first line, the number of its first segment, and its items. -/
def text (seq : Nat) (l : List (Item × Bool)) : Bytes :=
  ascii "#EXTM3U" ++ [0x0A] ++ [0x23, 0x45, 0x58, 0x54, 0x2D, 0x58, 0x2D, 0x4D, 0x45, 0x44, 0x49, 0x41, 0x2D, 0x53, 0x45, 0x51,
    0x55, 0x45, 0x4E, 0x43, 0x45, 0x3A] ++ number seq ++ [0x0A] ++ lines l

/-- A segment: number, address, duration, range of bytes, and the vector and address of its key. -/
structure Seg where
  /-- number -/
  num : Nat
  /-- address -/
  uri : Bytes
  /-- duration -/
  dur : Bytes
  /-- first byte and byte after the last -/
  range : Option (Nat × Nat)
  /-- vector and address of the key -/
  key : Option (Bytes × Bytes)

/-- The segments of a playlist: they count up; duration and range are said of the next segment, keys of all that
follow. -/
def segs (num : Nat) (dur : Bytes) (range : Option (Nat × Nat)) (key : Option (Bytes × Bytes)) : List Item → List Seg
  | [] => []
  | .inf t :: l => segs num t range key l
  | .range len off :: l => segs num dur (some (off, off + len)) key l
  | .key iv _ uri :: l => segs num dur range (some (iv, uri)) l
  | .seg uri :: l => { num := num, uri := uri, dur := dur, range := range, key := key } :: segs (num + 1) [] none key l
  | .note _ :: l => segs num dur range key l

/-- The segments of a playlist whose first has this number. -/
def segments (seq : Nat) (l : List Item) : List Seg := segs seq [] none none l

/-- What happens to a live stream: a playlist is published and loaded, or segments are read; `ok` says which reads
succeed and `n` how many are tried. -/
inductive Event (α : Type) where
  | list (seq : Nat) (items : List (Item × Bool))
  | read (ok : α → Bool) (n : Nat)

/-- An address of a key that works: it is not empty and gives sixteen bytes. -/
def Works (fetch : Bytes → Bytes) : Item → Prop
  | .key _ _ uri => uri ≠ [] ∧ (fetch uri).length = 16
  | _ => True

/-- A playlist that can be published: it can be written, its keys work and its numbers fit in 64 bits. -/
def Playlist (fetch : Bytes → Bytes) (seq : Nat) (l : List (Item × Bool)) : Prop :=
  seq + l.length + 1 < 2 ^ 64 ∧ ∀ x ∈ l, x.1.Ok ∧ Works fetch x.1

/-- A live stream: each playlist has a segment, and the number of the first segment, at least `m`, does not go down. -/
def Live {α : Type} (fetch : Bytes → Bytes) : Nat → List (Event α) → Prop
  | _, [] => True
  | m, .list seq l :: t => m ≤ seq ∧ Playlist fetch seq l ∧ segments seq (l.map (·.1)) ≠ [] ∧ Live fetch seq t
  | m, .read _ _ :: t => Live fetch m t

/-- The segment was in one of the playlists. -/
def Listed {α : Type} (g : Seg) : List (Event α) → Prop
  | [] => False
  | .list seq l :: t => g ∈ segments seq (l.map (·.1)) ∨ Listed g t
  | .read _ _ :: t => Listed g t

/-- All reads succeed. -/
def AllWell {α : Type} : List (Event α) → Prop
  | [] => True
  | .list _ _ :: t => AllWell t
  | .read ok _ :: t => (∀ x, ok x = true) ∧ AllWell t

end Verif.HlsIn.Spec
