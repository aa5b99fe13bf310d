import Verif.Bit.Model

/-!
# Model of RTMP chunking (`/repo/lib/rtmpchunks.cpp` 76-185 and 361-541, `/repo/src/output/output_rtmp.cpp` 1130-1225)

The receive buffer is a byte queue (`Verif.SockBuf`). Byte and error counters are left out.
-/
namespace Verif.Rtmp
open Verif.Bit

/-- What is remembered of the last chunk on a chunk stream (`lastsend`/`lastrecv`, rtmpchunks.h 57-67);
`data` is the payload received so far of an unfinished message. The default is `Chunk()` (187-199). -/
structure Prev where
  timestamp : Nat := 0
  tsDelta : Nat := 0
  tsHeader : Nat := 0
  len : Nat := 0
  lenLeft : Nat := 0
  mtype : Nat := 0
  mstream : Nat := 0
  data : Bytes := []
  deriving DecidableEq

structure Msg where
  cs : Nat
  timestamp : Nat
  mtype : Nat
  mstream : Nat
  data : Bytes
  deriving DecidableEq

/-! ## Sending -/

/-- Basic header (101-112 and 159-170): chunk type and chunk stream id. -/
def basicOut (chtype cs : Nat) : Bytes :=
  if cs ≤ 63 then [UInt8.ofNat (chtype ||| cs)]
  else if cs ≤ 255 + 64 then [UInt8.ofNat (chtype ||| 0), UInt8.ofNat (cs - 64)]
  else [UInt8.ofNat (chtype ||| 1), UInt8.ofNat ((cs - 64) % 256), UInt8.ofNat ((cs - 64) / 256)]

/-- Header type (84-100). -/
def chooseType (prev : Option Prev) (m : Msg) : Nat :=
  match prev with
  | none => 0x00
  | some p =>
    if m.timestamp < p.timestamp then 0x00
    else if m.mstream = p.mstream then
      if m.data.length = p.len then
        if m.mtype = p.mtype then
          if m.timestamp - p.timestamp = p.tsDelta then 0xC0 else 0x80
        else 0x40
      else 0x40
    else 0x00

/-- The payload loop (152-180): pieces of at most `c` bytes with `cont` between them. -/
def body (c : Nat) (cont data : Bytes) : Bytes :=
  if _h : c = 0 ∨ data.length ≤ c then data else data.take c ++ cont ++ body c cont (data.drop c)
  termination_by data.length
  decreasing_by simp only [List.length_drop]; omega

/-- The 24-bit time field and the extended time (116-127, 141-144), for the given time or time
difference `t`; `ext` is empty when no extended time is sent. -/
def ext32 (ntime : Nat) : Bytes := if ntime ≠ 0 then htob .l ntime else []

/-- `Chunk::Pack` (76-185), `c` is `chunk_snd_max`; `stale` is the `ts_delta` member of the chunk object,
left from the last message packed with the same object. Returns the bytes and the new entry of
`lastsend`. -/
def pack (c : Nat) (prev : Option Prev) (stale : Nat) (m : Msg) : Bytes × Prev :=
  let chtype := chooseType prev m
  let p := prev.getD {}
  let t := if chtype = 0x00 then m.timestamp else m.timestamp - p.timestamp
  let header := if t ≥ 0xffffff then 0xffffff else t
  let tsHeader := if chtype = 0xC0 then p.tsHeader else header
  let ntime :=
    if chtype ≠ 0xC0 then (if t ≥ 0xffffff then t else 0)
    else if p.tsHeader = 0xffffff then m.timestamp else 0
  let tsDelta := if chtype ≠ 0xC0 then t % 2 ^ 32 else stale
  let head :=
    (if chtype ≠ 0xC0 then
      htob .b24 header ++
        (if chtype ≠ 0x80 then
          htob .b24 m.data.length ++ [UInt8.ofNat m.mtype] ++
            (if chtype ≠ 0x40 then leEnc 4 m.mstream else [])
        else [])
    else []) ++ ext32 ntime
  (basicOut chtype m.cs ++ head ++ body c (basicOut 0xC0 m.cs ++ ext32 ntime) m.data,
    ⟨m.timestamp, tsDelta, tsHeader, m.data.length, m.data.length, m.mtype, m.mstream, m.data⟩)

/-- The header type chosen by the media output (output_rtmp.cpp 1129-1158). -/
def mediaType (prev : Option Prev) (m : Msg) : Nat :=
  match prev with
  | none => 0x00
  | some p =>
    if p.mstream = 1 then
      if m.timestamp < p.timestamp then 0x00
      else if m.data.length = p.len ∧ m.mtype = p.mtype then
        if m.timestamp = p.timestamp then 0xC0 else 0x80
      else 0x40
    else 0x00

/-- The media output's own chunk writer (output_rtmp.cpp 1129-1225), always on chunk stream 4 and message
stream 1; `c` is at least the length of the codec header (2 or 5 bytes), so that codec header and frame
together behave as one payload. The remembered `ts_delta` and `ts_header` are not touched. -/
def sendNext (c : Nat) (prev : Option Prev) (m : Msg) : Bytes × Prev :=
  let chtype := mediaType prev m
  let p := prev.getD {}
  let t := if chtype = 0x00 then m.timestamp else m.timestamp - p.timestamp
  let ext := if t ≥ 0xffffff then htob .l t else []
  let head :=
    (if chtype ≠ 0xC0 then
      htob .b24 (if t ≥ 0xffffff then 0xffffff else t) ++
        (if chtype ≠ 0x80 then
          htob .b24 m.data.length ++ [UInt8.ofNat m.mtype] ++ (if chtype ≠ 0x40 then leEnc 4 1 else [])
        else [])
    else []) ++ ext
  (basicOut chtype 4 ++ head ++ body c (basicOut 0xC0 4 ++ ext) m.data,
    { p with timestamp := m.timestamp, len := m.data.length, mtype := m.mtype, mstream := 1 })

/-! ## Receiving -/

/-- Chunk type byte, chunk stream id and header bytes used (376-386). -/
def basicIn (d : Bytes) : Nat × Nat × Nat :=
  let b := d.getD 0 0
  if b &&& 0x3F = 0 then (b.toNat, (d.getD 1 0).toNat + 64, 2)
  else if b &&& 0x3F = 1 then (b.toNat, (d.getD 1 0).toNat + 64 + (d.getD 2 0).toNat * 256, 3)
  else (b.toNat, (b &&& 0x3F).toNat, 1)

structure Hdr where
  timestamp : Nat
  tsDelta : Nat
  tsHeader : Nat
  len : Nat
  lenLeft : Nat
  mtype : Nat
  mstream : Nat
  /-- bytes used after the basic header -/
  used : Nat

def get24 (d : Bytes) : Nat := (btoh .b24 d).getD 0

/-- The message header (396-474) from the bytes after the basic header; `none`: not enough bytes. -/
def readHdr (headertype : Nat) (prev : Prev) (d : Bytes) : Option Hdr :=
  if headertype = 0x00 then
    if d.length < 11 then none
    else some ⟨get24 d, get24 d, get24 d, get24 (d.drop 3), 0, (d.getD 6 0).toNat, (btoh .l_le (d.drop 7)).getD 0, 11⟩
  else if headertype = 0x40 then
    if d.length < 7 then none
    else some ⟨(prev.timestamp + get24 d) % 2 ^ 64, get24 d, get24 d, get24 (d.drop 3), 0, (d.getD 6 0).toNat, prev.mstream, 7⟩
  else if headertype = 0x80 then
    if d.length < 3 then none
    else some ⟨(prev.timestamp + get24 d) % 2 ^ 64, get24 d, get24 d, prev.len, prev.lenLeft, prev.mtype, prev.mstream, 3⟩
  else
    some ⟨if prev.lenLeft > 0 then prev.timestamp else (prev.timestamp + prev.tsDelta) % 2 ^ 64, prev.tsDelta, prev.tsHeader,
      prev.len, prev.lenLeft, prev.mtype, prev.mstream, 0⟩

/-- `int` to `uint64_t`: the extended time is assembled in a (signed) `int` (494-497), so values from
2^31 on are sign-extended. -/
def sext (v : Nat) : Nat := if v < 2 ^ 31 then v else v + (2 ^ 64 - 2 ^ 32)

/-- The extended timestamp (489-505): the header with the time replaced. -/
def readExt (prev : Prev) (h : Hdr) (d : Bytes) : Option Hdr :=
  if h.tsHeader = 0xffffff then
    if (d.drop h.used).length < 4 then none
    else
      let v := (btoh .l (d.drop h.used)).getD 0
      let t := if sext v > 0xFFFF8000 ∧ prev.timestamp % 2 ^ 32 < 0xFFFF0000 then (prev.timestamp + sext v) % 2 ^ 64 else sext v
      some { h with timestamp := t, tsDelta := v, used := h.used + 4 }
  else some h

inductive Step where
  | wait
  | got (cs : Nat) (p : Prev) (msg : Option Msg) (rest : Bytes)
  deriving DecidableEq

/-- `real_len` (476-484). -/
def realLen (recMax : Nat) (h : Hdr) : Nat := min (if h.lenLeft > 0 then h.lenLeft else h.len) recMax

/-- `len_left` after this chunk (476-484). -/
def leftAfter (recMax : Nat) (h : Hdr) : Nat := (if h.lenLeft > 0 then h.lenLeft else h.len) - recMax

/-- The end of one round of the loop (507-540): payload and bookkeeping. `i` header bytes. -/
def takePayload (recMax cs i : Nat) (prev : Prev) (h : Hdr) (q : Bytes) : Step :=
  if q.length < i + realLen recMax h ∨ q = [] then .wait
  else
    let data := (if realLen recMax h ≠ 0 ∧ prev.lenLeft ≠ 0 then prev.data else []) ++ (q.drop i).take (realLen recMax h)
    let left := leftAfter recMax h
    .got cs ⟨h.timestamp, h.tsDelta, h.tsHeader, h.len, left, h.mtype, h.mstream, if left ≠ 0 then data else []⟩
      (if realLen recMax h = 0 ∨ left = 0 then some ⟨cs, h.timestamp, h.mtype, h.mstream, data⟩ else none)
      ((q.drop i).drop (realLen recMax h))

/-- One round of the loop of `Chunk::Parse` (361-541); at most 18 bytes are looked at for the header.
When the round has to wait nothing has changed. (After a complete message `prev.data` holds
whatever buffer was swapped in; it is never used then, and modelled as empty.) -/
def parseChunk (recMax : Nat) (last : Nat → Prev) (q : Bytes) : Step :=
  let d := q.take 18
  if d.length < 3 then .wait
  else
    let b := basicIn d
    let prev := last b.2.1
    match readHdr (b.1 &&& 0xC0) prev (d.drop b.2.2) with
    | none => .wait
    | some h =>
      match readExt prev h (d.drop b.2.2) with
      | none => .wait
      | some h' => takePayload recMax b.2.1 (b.2.2 + h'.used) prev h' q

/-- `lastrecv[cs] = p`. -/
def update (last : Nat → Prev) (cs : Nat) (p : Prev) : Nat → Prev := fun x => if x = cs then p else last x

end Verif.Rtmp
