import Verif.Json.Dtmi

/-!
# Model of DTSC packets and of reading their binary form (`/repo/lib/dtsc.cpp`)

The memory of a packet is a list of bytes that is exactly `dataLen` long; that the allocation may be larger is left out, as
no function uses what lies behind `dataLen`. `oob` is a read or write outside the memory (or through a null pointer),
`more` that the rounds given did not suffice.
-/
namespace Verif.Dtsc
open Verif.Bit
open Verif.Json (R JVal sub)

/-! ## Reading the binary form -/

mutual
/-- dtsc.cpp 349-392: `skipDTSC` from position `p` on, where `max` is the end of the data; `none` is the null pointer. The
first argument bounds depth and rounds. -/
def skip : Nat → Bytes → Nat → Nat → R (Option Nat)
  | 0, _, _, _ => .more
  | n + 1, buf, p, max =>
    if p + 1 ≥ max then .ok none
    else (R.of buf[p]?).bind fun t =>
      if t = 0 then .ok none
      else if t = 1 ∨ t = 4 then .ok (some (p + 9))
      else if t = 3 then .ok (some (p + 1))
      else if t = 2 then
        if p + 4 ≥ max then .ok none else (R.of (load .l buf (p + 1))).bind fun k => .ok (some (p + 5 + k))
      else if t = 0xE0 ∨ t = 0xFF then skipMembers n buf (p + 1) max
      else if t = 0x0A then skipElems n buf (p + 1) max
      else .ok none
/-- dtsc.cpp 370-380: the members of an object. -/
def skipMembers : Nat → Bytes → Nat → Nat → R (Option Nat)
  | 0, _, _, _ => .more
  | n + 1, buf, p, max =>
    if p < max then
      (R.of buf[p]?).bind fun a => (R.of buf[p + 1]?).bind fun b =>
        if a.toNat + b.toNat ≠ 0 then
          if p + 2 ≥ max then .ok none
          else (R.of (load .s buf p)).bind fun k => (skip n buf (p + (2 + k)) max).bind fun r =>
            match r with
            | none => .ok none
            | some q => skipMembers n buf q max
        else .ok (some (p + 3))
    else .ok (some (p + 3))
/-- dtsc.cpp 384-389: the elements of an array. -/
def skipElems : Nat → Bytes → Nat → Nat → R (Option Nat)
  | 0, _, _, _ => .more
  | n + 1, buf, p, max =>
    if p < max then
      (R.of buf[p]?).bind fun a => (R.of buf[p + 1]?).bind fun b =>
        if a.toNat + b.toNat ≠ 0 then
          (skip n buf p max).bind fun r =>
            match r with
            | none => .ok none
            | some q => skipElems n buf q max
        else .ok (some (p + 3))
    else .ok (some (p + 3))
end

/-- A `Scan` (dtsc.h): the position of a value and the number of bytes from there on; `none` is the null pointer. -/
abbrev Scan := Option (Nat × Nat)

/-- dtsc.cpp 731-734: `getType`. -/
def getType (buf : Bytes) : Scan → R UInt8
  | none => .ok 0
  | some s => R.of buf[s.1]?

/-- C library: whether `strncmp(name, buf + i, n)` is zero, where `n` is the length of `name`. -/
def sameName (buf : Bytes) : Bytes → Nat → R Bool
  | [], _ => .ok true
  | c :: r, i => (R.of buf[i]?).bind fun b => if b = c then (if c = 0 then .ok true else sameName buf r (i + 1)) else .ok false

/-- dtsc.cpp 557-568: the loop of `getMember` at position `i`, for a value of `len` bytes at position `p`. -/
def memberLoop (buf name : Bytes) (p len : Nat) : Nat → Nat → R Scan
  | 0, _ => .more
  | n + 1, i =>
    (R.of buf[i]?).bind fun a => (R.of buf[i + 1]?).bind fun b =>
      if a.toNat + b.toNat ≠ 0 ∧ i < p + len then
        if i + 2 ≥ p + len then .ok none
        else (R.of (load .s buf i)).bind fun k =>
          (if name.length = k then sameName buf name (i + 2) else .ok false).bind fun same =>
            if same then .ok (some (i + 2 + k, len - (i + 2 - p)))
            else (skip n buf (i + 2 + k) (p + len)).bind fun r =>
              match r with
              | none => .ok none
              | some q => memberLoop buf name p len n q
      else .ok none

/-- dtsc.cpp 553-570: `getMember`. -/
def getMember (n : Nat) (buf : Bytes) (s : Scan) (name : Bytes) : R Scan :=
  (getType buf s).bind fun t =>
    match s with
    | none => .ok none
    | some s => if t ≠ 0xE0 ∧ t ≠ 0xFF then .ok none else memberLoop buf name s.1 s.2 n (s.1 + 1)

/-- dtsc.cpp 620-627 and 631-642: the loops of `getSize`, counting from `k` on. -/
def sizeLoop (buf : Bytes) (obj : Bool) (p len : Nat) : Nat → Nat → Nat → R Nat
  | 0, _, _ => .more
  | n + 1, i, c =>
    (R.of buf[i]?).bind fun a => (R.of buf[i + 1]?).bind fun b =>
      if a.toNat + b.toNat ≠ 0 ∧ i < p + len then
        if obj ∧ i + 2 ≥ p + len then .ok 0
        else (if obj then (R.of (load .s buf i)).bind fun k => .ok (i + 2 + k) else .ok i).bind fun v =>
          (skip n buf v (p + len)).bind fun r =>
            match r with
            | none => .ok (c + 1)
            | some q => sizeLoop buf obj p len n q (c + 1)
      else .ok c

/-- dtsc.cpp 616-645: `getSize` (the counter's 32 bits are left out). -/
def getSize (n : Nat) (buf : Bytes) (s : Scan) : R Nat :=
  (getType buf s).bind fun t =>
    match s with
    | none => .ok 0
    | some s =>
      if t = 0x0A then sizeLoop buf false s.1 s.2 n (s.1 + 1) 0
      else if t = 0xE0 ∨ t = 0xFF then sizeLoop buf true s.1 s.2 n (s.1 + 1) 0
      else .ok 0

/-- dtsc.cpp 676-687 and 690-708: the loops of `getIndice`. The result also has the name of the member (as in
`getIndiceName`, 715-733), which is empty for arrays. -/
def indexLoop (buf : Bytes) (obj : Bool) (p len : Nat) : Nat → Nat → Nat → R (Option (Bytes × Nat × Nat))
  | 0, _, _ => .more
  | n + 1, i, num =>
    (R.of buf[i]?).bind fun a => (R.of buf[i + 1]?).bind fun b =>
      if a.toNat + b.toNat ≠ 0 ∧ i < p + len then
        if obj ∧ i + 2 ≥ p + len then .ok none
        else (if obj then (R.of (load .s buf i)).bind fun k => .ok (k, i + 2) else .ok (0, i)).bind fun v =>
          if num = 0 then (sub buf v.2 v.1).bind fun name => .ok (some (name, v.2 + v.1, len - (v.2 - p)))
          else (skip n buf (v.2 + v.1) (p + len)).bind fun r =>
            match r with
            | none => .ok none
            | some q => indexLoop buf obj p len n q (num - 1)
      else .ok none

/-- dtsc.cpp 672-710 and 714-735: `getIndice` with `getIndiceName`. -/
def getIndice (n : Nat) (buf : Bytes) (s : Scan) (num : Nat) : R (Option (Bytes × Nat × Nat)) :=
  (getType buf s).bind fun t =>
    match s with
    | none => .ok none
    | some s =>
      if t = 0x0A then indexLoop buf false s.1 s.2 n (s.1 + 1) num
      else if t = 0xE0 ∨ t = 0xFF then indexLoop buf true s.1 s.2 n (s.1 + 1) num
      else .ok none

/-- dtsc.cpp 789-803: `asInt`, as the unsigned number of 64 bits that `getInt` stores. Numbers in strings and doubles are
left out (`more`). -/
def asInt (buf : Bytes) (s : Scan) : R Nat :=
  (getType buf s).bind fun t =>
    match s with
    | none => .ok 0
    | some s =>
      if t = 1 then R.of (load .ll buf (s.1 + 1))
      else if t = 4 ∨ t = 2 then .more
      else .ok 0

/-- dtsc.cpp 850-858: `getString`; the result is what the pointer and the length that are returned refer to. `none`: the
null pointer. -/
def getString (buf : Bytes) (s : Scan) : R (Option Bytes) :=
  (getType buf s).bind fun t =>
    match s with
    | none => .ok none
    | some s =>
      if t = 2 then (R.of (load .l buf (s.1 + 1))).bind fun k => (sub buf (s.1 + 5) k).bind fun x => .ok (some x) else .ok none

/-! ## Packets -/

/-- The first four bytes of a packet: what kind it is (dtsc.cpp 24-27, 208-211). -/
inductive Kind where
  | v2 | v1 | head | command | invalid
  deriving DecidableEq

/-- A packet (dtsc.h): its memory (`none`: no data), its kind, and the length of the last NAL unit. -/
structure Pkt where
  data : Option Bytes := none
  kind : Kind := .invalid
  prevNal : Nat := 0

/-- "DTP2" -/
def magic2 : Bytes := [68, 84, 80, 50]
/-- "DTPD" -/
def magic1 : Bytes := [68, 84, 80, 68]
/-- "DTSC" -/
def magicHead : Bytes := [68, 84, 83, 67]
/-- "DTCM" -/
def magicCommand : Bytes := [68, 84, 67, 77]

/-- dtsc.cpp 208-211. -/
def kindOf (m : Bytes) : Kind :=
  if m = magicCommand then .command else if m = magicHead then .head else if m = magic1 then .v1
  else if m = magic2 then .v2 else .invalid

/-- What `genericFill` gets: a pointer to data and its size, or a null pointer and a size. -/
inductive Src where
  | ptr (d : Bytes)
  | null (size : Nat)

/-- The size passed. -/
def Src.size : Src → Nat
  | .ptr d => d.length
  | .null n => n

/-- `memcpy` from the source: from a null pointer only nothing can be copied. -/
def Src.bytes : Src → Option Bytes
  | .ptr d => some d
  | .null n => if n = 0 then some [] else none

/-- dtsc.cpp 235-236, and the same sum at 2852-2853 (what the index counts) and io.cpp 256-257 (what pages reserve). -/
def sendSize (off : Int) (bpos : Nat) (key : Bool) (size : Nat) : Nat :=
  24 + (if off ≠ 0 then 17 else 0) + (if bpos ≠ 0 then 15 else 0) + (if key then 19 else 0) + size + 11

/-- "\000\006offset\001" -/
def fOffset : Bytes := [0, 6, 111, 102, 102, 115, 101, 116, 1]
/-- "\000\004bpos\001" -/
def fBpos : Bytes := [0, 4, 98, 112, 111, 115, 1]
/-- "\000\010keyframe\001" with the number 1 -/
def fKey : Bytes := [0, 8, 107, 101, 121, 102, 114, 97, 109, 101, 1, 0, 0, 0, 0, 0, 0, 0, 1]
/-- "\000\004data\002" -/
def fData : Bytes := [0, 4, 100, 97, 116, 97, 2]
/-- The end of an object. -/
def fEnd : Bytes := [0, 0, 0xEE]

/-- dtsc.cpp 247-251: the optional member "offset" at `pos`. -/
def putOffset (buf : Bytes) (pos : Nat) (off : Int) : Option (Bytes × Nat) :=
  if off ≠ 0 then
    (poke buf pos fOffset).bind fun b => (store .ll b (pos + 9) (Json.toU64 off)).bind fun b => some (b, pos + 17)
  else some (buf, pos)

/-- dtsc.cpp 252-256: the optional member "bpos". -/
def putBpos (buf : Bytes) (pos : Nat) (bpos : Nat) : Option (Bytes × Nat) :=
  if bpos ≠ 0 then
    (poke buf pos fBpos).bind fun b => (store .ll b (pos + 7) bpos).bind fun b => some (b, pos + 15)
  else some (buf, pos)

/-- dtsc.cpp 257-260: the optional member "keyframe". -/
def putKey (buf : Bytes) (pos : Nat) (key : Bool) : Option (Bytes × Nat) :=
  if key then (poke buf pos fKey).bind fun b => some (b, pos + 19) else some (buf, pos)

/-- dtsc.cpp 261-265: the member "data" and the end. -/
def putData (buf : Bytes) (pos : Nat) (d : Bytes) : Option Bytes :=
  (poke buf pos fData).bind fun b => (store .l b (pos + 7) d.length).bind fun b =>
    (poke b (pos + 11) d).bind fun b => poke b (pos + 11 + d.length) fEnd

/-- dtsc.cpp 244-265: the object at position 20, from the memory with the header in it. -/
def putBody (buf : Bytes) (off : Int) (d : Bytes) (bpos : Nat) (key : Bool) : Option Bytes :=
  (poke buf 20 [0xE0]).bind fun b => (putOffset b 21 off).bind fun b => (putBpos b.1 b.2 bpos).bind fun b =>
    (putKey b.1 b.2 key).bind fun b => putData b.1 b.2 d

/-- dtsc.cpp 240-243: the header. -/
def putHead (buf : Bytes) (time track len : Nat) : Option Bytes :=
  (poke buf 0 magic2).bind fun b => (store .l b 4 (len + 2 ^ 32 - 8)).bind fun b =>
    (store .l b 8 track).bind fun b => store .ll b 12 time

/-- dtsc.cpp 220-266: `genericFill`. The 32-bit length may be smaller than what is written. The contents of the new memory
are not determined; zero stands for them here. The length of the last NAL unit is not reset. -/
def fill (p : Pkt) (time : Nat) (off : Int) (track : Nat) (src : Src) (bpos : Nat) (key : Bool) : R Pkt :=
  match src with
  | .ptr [] => .ok { p with data := none, kind := .invalid }
  | src =>
    let len := sendSize off bpos key src.size % 2 ^ 32
    (R.of src.bytes).bind fun d => (R.of (putHead (List.replicate len 0) time track len)).bind fun b =>
      (R.of (putBody b off d bpos key)).bind fun b => .ok { p with data := some b, kind := .v2 }

/-- dtsc.cpp 334-346: the loop of `getDataStringLenOffset`; `none` is the result -1 for unknown members. -/
def dataLenPos (buf : Bytes) : Nat → Nat → R (Option Nat)
  | 0, _ => .more
  | n + 1, i =>
    (R.of buf[i]?).bind fun c =>
      if c = 100 then .ok (some (i + 5))
      else if c = 111 then dataLenPos buf n (i + 17)
      else if c = 98 then dataLenPos buf n (i + 15)
      else if c = 107 ∨ c = 75 then dataLenPos buf n (i + 19)
      else .ok none

/-- Adds to a 32-bit number in memory: `htobl(data + i, btohl(data + i) + k)`. -/
def addAt (buf : Bytes) (i k : Nat) : R Bytes :=
  (R.of (load .l buf i)).bind fun v => R.of (store .l buf i (v + k))

/-- dtsc.cpp 289-295: replaces the end of the object by `x` and a new end, and raises the two lengths. -/
def extend (buf x : Bytes) : R Bytes :=
  if buf.length < 3 then .oob
  else
    let b := buf.take (buf.length - 3) ++ x ++ fEnd
    (addAt b 4 x.length).bind fun b => (dataLenPos b b.length 23).bind fun o =>
      match o with
      | none => .oob
      | some o => addAt b o x.length

/-- dtsc.cpp 288-296: `appendData`. -/
def appendData (p : Pkt) (x : Bytes) : R Pkt :=
  match p.data with
  | none => .oob
  | some b => (extend b x).bind fun b => .ok { p with data := some b }

/-- dtsc.cpp 298-311: `appendNal`. -/
def appendNal (p : Pkt) (x : Bytes) : R Pkt :=
  if x = [] then .ok p
  else
    match p.data with
    | none => .oob
    | some b => (extend b (htob .l x.length ++ x)).bind fun b => .ok { p with data := some b, prevNal := x.length }

/-- dtsc.cpp 313-329: `upgradeNal`. -/
def upgradeNal (p : Pkt) (x : Bytes) : R Pkt :=
  if x = [] then .ok p
  else
    match p.data with
    | none => .oob
    | some b =>
      if b.length < 7 + p.prevNal then .oob
      else
        let i := b.length - 3 - 4 - p.prevNal
        (R.of (load .l b i)).bind fun v =>
          if v ≠ p.prevNal then .ok p
          else (R.of (store .l b i (p.prevNal + x.length))).bind fun b =>
            (extend b x).bind fun b => .ok { p with data := some b, prevNal := (p.prevNal + x.length) % 2 ^ 32 }

/-- dtsc.cpp 271-278: the loop of `setKeyFrame`; unknown members are looked at forever. -/
def keyPos (buf : Bytes) : Nat → Nat → R Nat
  | 0, _ => .more
  | n + 1, i =>
    (R.of buf[i]?).bind fun c =>
      if c = 100 ∨ c = 107 ∨ c = 75 then .ok i
      else if c = 111 then keyPos buf n (i + 17)
      else if c = 98 then keyPos buf n (i + 15)
      else keyPos buf n i

/-- dtsc.cpp 270-286: `setKeyFrame`. -/
def setKeyFrame (p : Pkt) (kf : Bool) : R Pkt :=
  match p.data with
  | none => .oob
  | some b =>
    (keyPos b b.length 23).bind fun i => (R.of b[i]?).bind fun c =>
      if c = 107 ∨ c = 75 then
        (R.of (poke b i [if kf then 107 else 75])).bind fun b =>
          (R.of (poke b (i + 16) [if kf then 1 else 0])).bind fun b => .ok { p with data := some b }
      else .ok p

/-- dtsc.cpp 84-103: whether a packet is valid; `oob` cannot happen, as eight bytes are there. -/
def valid (p : Pkt) : Bool :=
  match p.data with
  | none => false
  | some b =>
    8 ≤ b.length && p.kind != .invalid &&
      (match load .l b 4 with
       | none => false
       | some v => (v + 8) % 2 ^ 32 ≤ b.length)

/-- dtsc.cpp 508-514: `getPayloadLen` for packets of at least that size. -/
def headLen (p : Pkt) : Nat := if p.kind = .v2 then 20 else 8

/-- dtsc.cpp 518-523: `getScan`. A packet shorter than its header would give a length below zero; that is the invalid
result, too, as `getDataLen() <= getPayloadLen()` holds then. -/
def getScan (p : Pkt) : Scan :=
  match p.data with
  | none => none
  | some b => if valid p && decide (headLen p < b.length) then some (headLen p, b.length - headLen p) else none

/-- dtsc.cpp 395-426: reading a member of a packet. `n` bounds the rounds. -/
def pktInt (n : Nat) (p : Pkt) (name : Bytes) : R Nat :=
  (getMember n (p.data.getD []) (getScan p) name).bind fun s => asInt (p.data.getD []) s

/-- dtsc.cpp 398-400. -/
def pktString (n : Nat) (p : Pkt) (name : Bytes) : R (Option Bytes) :=
  (getMember n (p.data.getD []) (getScan p) name).bind fun s => getString (p.data.getD []) s

/-- dtsc.cpp 449-451: `hasMember`. -/
def pktHas (n : Nat) (p : Pkt) (name : Bytes) : R Bool :=
  (getMember n (p.data.getD []) (getScan p) name).bind fun s => (getType (p.data.getD []) s).bind fun t => .ok (t != 0)

/-- dtsc.cpp 455-461: `getTime` of a packet of the second version. -/
def pktTime (p : Pkt) : R Nat := R.of (load .ll (p.data.getD []) 12)

/-- dtsc.cpp 481-484: `getTrackId` of a packet of the second version. -/
def pktTrack (p : Pkt) : R Nat := R.of (load .l (p.data.getD []) 8)

/-- dtsc.cpp 463-469: `setTime`. -/
def setTime (p : Pkt) (t : Nat) : R Pkt :=
  match p.data with
  | none => .oob
  | some b => (R.of (store .ll b 12 t)).bind fun b => .ok { p with data := some b }

/-- dtsc.cpp 172-215: `reInit` on the memory `mem`, with a copy; a length of zero means that the length in the header is
used. -/
def reInit (p : Pkt) (mem : Bytes) (len : Nat) : R Pkt :=
  (R.of mem[0]?).bind fun a => if a = 0 then .ok { p with data := none, kind := .invalid } else
  (R.of mem[1]?).bind fun b => if b = 0 then .ok { p with data := none, kind := .invalid } else
  (R.of mem[2]?).bind fun c => if c = 0 then .ok { p with data := none, kind := .invalid } else
  (R.of mem[3]?).bind fun d => if d = 0 then .ok { p with data := none, kind := .invalid } else
  if a ≠ 68 ∨ b ≠ 84 then .ok { p with data := none, kind := .invalid }
  else
    (if len = 0 then (R.of (load .l mem 4)).bind fun v => .ok ((v + 8) % 2 ^ 32) else .ok len).bind fun len =>
      (sub mem 0 len).bind fun x =>
        .ok { p with data := some x, kind := if x.length < 4 then .invalid else kindOf (x.take 4) }

end Verif.Dtsc
