import Verif.Dtsc.Packet

/-!
# Model of buffering packets on a shared page and of reading them while that goes on (`/repo/src/io.cpp`, `/repo/src/output/output.cpp`)

The page is memory that another process reads. Its writer is a list of stores in program order; a store of several bytes
happens byte by byte in any order. The stores of one process become visible in program order (as on x86).
-/
namespace Verif.Page
open Verif.Bit
open Verif.Json (R)
open Verif.Dtsc

/-- The arguments of `bufferNext` (io.cpp 254-255). -/
structure Pack where
  time : Nat
  off : Int
  track : Nat
  data : Bytes
  bpos : Nat
  key : Bool

/-- io.cpp 256-257: `packDataLen`. -/
def packLen (p : Pack) : Nat := sendSize p.off p.bpos p.key p.data.length

/-- io.cpp 304-308: the member "offset" at `o`. -/
def offStores (o : Nat) (p : Pack) : List (Nat × Bytes) :=
  if p.off ≠ 0 then [(o, fOffset), (o + 9, htob .ll (Json.toU64 p.off))] else []

/-- io.cpp 309-313: the member "bpos". -/
def bposStores (o : Nat) (p : Pack) : List (Nat × Bytes) :=
  if p.bpos ≠ 0 then [(o, fBpos), (o + 7, htob .ll p.bpos)] else []

/-- io.cpp 314-317: the member "keyframe". -/
def keyStores (o : Nat) (p : Pack) : List (Nat × Bytes) := if p.key then [(o, fKey)] else []

/-- io.cpp 318-322: the member "data" and the end of the object. -/
def dataStores (o : Nat) (p : Pack) : List (Nat × Bytes) :=
  [(o, fData), (o + 7, htob .l p.data.length), (o + 11, p.data), (o + 11 + p.data.length, fEnd)]

/-- io.cpp 302-322: the object. -/
def bodyStores (base : Nat) (p : Pack) : List (Nat × Bytes) :=
  let a := base + 21
  let b := a + if p.off ≠ 0 then 17 else 0
  let c := b + if p.bpos ≠ 0 then 15 else 0
  let d := c + if p.key then 19 else 0
  [(base + 20, [0xE0])] ++ offStores a p ++ bposStores b p ++ keyStores c p ++ dataStores d p

/-- io.cpp 324-332: the time, the track and the size. -/
def headStores (base : Nat) (p : Pack) : List (Nat × Bytes) :=
  [(base + 12, htob .ll p.time), (base + 8, htob .l p.track), (base + 4, htob .l (packLen p - 8))]

/-- io.cpp 299-334: all stores of a packet, in order. -/
def stores (base : Nat) (p : Pack) : List (Nat × Bytes) :=
  bodyStores base p ++ headStores base p ++ [(base, magic2)]

/-- A call of `bufferNext`: whether the stream is a recording, the time of the last packet, and the packet. -/
structure Call where
  vod : Bool
  lastms : Nat
  pack : Pack

/-- io.cpp 252-338: `bufferNext` on an open page of `size` bytes with `avail` bytes in use: the stores and the new number of
bytes in use. -/
def bufferNext (size avail : Nat) (c : Call) : List (Nat × Bytes) × Nat :=
  if c.vod = false ∧ c.pack.time < c.lastms then ([], avail)
  else if (size + 2 ^ 64 - avail) % 2 ^ 64 < packLen c.pack then ([], avail)
  else (stores avail c.pack, avail + packLen c.pack)

/-- Several calls. -/
def bufferAll (size : Nat) : Nat → List Call → List (Nat × Bytes) × Nat
  | avail, [] => ([], avail)
  | avail, c :: r =>
    let x := bufferNext size avail c
    let y := bufferAll size x.2 r
    (x.1 ++ y.1, y.2)

/-- The single bytes of a store. -/
def spread (pos : Nat) : Bytes → List (Nat × UInt8)
  | [] => []
  | b :: r => (pos, b) :: spread (pos + 1) r

/-- The orders in which the bytes of stores can be written. -/
inductive Sched : List (Nat × Bytes) → List (Nat × UInt8) → Prop
  | nil : Sched [] []
  | cons {s : Nat × Bytes} {r : List (Nat × Bytes)} {w v : List (Nat × UInt8)} :
      w.Perm (spread s.1 s.2) → Sched r v → Sched (s :: r) (w ++ v)

/-- Writing a byte. -/
def put (m : Nat → UInt8) (w : Nat × UInt8) : Nat → UInt8 := fun i => if i = w.1 then w.2 else m i

/-- The memory at an instant: when `t` of the bytes have been written to a page that is new (all bytes zero). -/
def memAt (ws : List (Nat × UInt8)) (t : Nat) : Nat → UInt8 := (ws.take t).foldl put fun _ => 0

/-- A read of a page of `size` bytes: `see k i` is what the `k`-th read of the reader finds at place `i`. -/
def peek (size : Nat) (see : Nat → Nat → UInt8) (k i : Nat) : R UInt8 := if i < size then .ok (see k i) else .oob

/-- dtsc.cpp 193: the length, from reads `k` to `k + 3`. -/
def peekLen (size : Nat) (see : Nat → Nat → UInt8) (k off : Nat) : R Nat :=
  (peek size see k (off + 4)).bind fun a => (peek size see (k + 1) (off + 5)).bind fun b =>
  (peek size see (k + 2) (off + 6)).bind fun c => (peek size see (k + 3) (off + 7)).bind fun d =>
  (R.of (btoh .l [a, b, c, d])).bind fun v => .ok ((v + 8) % 2 ^ 32)

/-- dtsc.cpp 208-212: the kind, from reads `k` to `k + 3`; the four comparisons read the same bytes once here. -/
def peekKind (size : Nat) (see : Nat → Nat → UInt8) (k off : Nat) : R Kind :=
  (peek size see k off).bind fun a => (peek size see (k + 1) (off + 1)).bind fun b =>
  (peek size see (k + 2) (off + 2)).bind fun c => (peek size see (k + 3) (off + 3)).bind fun d =>
    .ok (kindOf [a, b, c, d])

/-- dtsc.cpp 172-213: `reInit(data, 0, true)` on a page that is being written to, with the reads from the `k`-th on. The
result is the length and the kind of the packet, which stays in the page; `none`: no packet. -/
def reInitLive (size : Nat) (see : Nat → Nat → UInt8) (k off : Nat) : R (Option (Nat × Kind)) :=
  (peek size see k off).bind fun a => if a = 0 then .ok none else
  (peek size see (k + 1) (off + 1)).bind fun b => if b = 0 then .ok none else
  (peek size see (k + 2) (off + 2)).bind fun c => if c = 0 then .ok none else
  (peek size see (k + 3) (off + 3)).bind fun d => if d = 0 then .ok none else
  (peek size see (k + 4) off).bind fun a => (peek size see (k + 5) (off + 1)).bind fun b =>
  if a ≠ 68 ∨ b ≠ 84 then .ok none
  else
    (peekLen size see (k + 6) off).bind fun len =>
      if len < 4 then .ok (some (len, .invalid))
      else (peekKind size see (k + 10) off).bind fun kind => .ok (some (len, kind))

/-- dtsc.cpp 84-103: whether a packet of `len` bytes in the page is valid. -/
def validLive (size : Nat) (see : Nat → Nat → UInt8) (k off len : Nat) (kind : Kind) : R Bool :=
  if len < 8 ∨ kind = .invalid then .ok false
  else (peekLen size see k off).bind fun v => .ok (decide (v ≤ len))

/-- output.cpp 1027-1037 and 2501-2510: going through the packets on a page from `off` on, as long as there are any and at
most `n`; each packet takes twenty reads. The result are the places and lengths of the packets. -/
def walk (size : Nat) (see : Nat → Nat → UInt8) : Nat → Nat → Nat → R (List (Nat × Nat))
  | 0, _, _ => .ok []
  | n + 1, k, off =>
    (reInitLive size see k off).bind fun p =>
      match p with
      | none => .ok []
      | some (len, kind) =>
        (validLive size see (k + 14) off len kind).bind fun v =>
          if v then (walk size see n (k + 20) (off + len)).bind fun r => .ok ((off, len) :: r) else .ok []

/-- output.cpp 2559-2560: looking for the time of a packet at `off`, with reads `k` to `k + 11`; `none`: there is none yet. -/
def nextTime (size : Nat) (see : Nat → Nat → UInt8) (k off : Nat) : Option (R Nat) :=
  if off + 20 < size then
    if see k off ≠ 0 ∨ see (k + 1) (off + 1) ≠ 0 ∨ see (k + 2) (off + 2) ≠ 0 ∨ see (k + 3) (off + 3) ≠ 0 then
      some (R.of (btoh .ll ((List.range 8).map fun i => see (k + 4 + i) (off + 12 + i))))
    else none
  else none

end Verif.Page
