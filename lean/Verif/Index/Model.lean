import Verif.Base.Arith

/-!
# Model of a track's index (`/repo/lib/dtsc.cpp`: `Meta::update`, `Meta::resizeTrack`, `Meta::removeFirstKey`, lookups)

The tables are rings of records, as `Util::RelAccX` (util.cpp 842-1331, modelled byte by byte in `Verif/Rax`) lays them out;
here a record is a structure instead of bytes. What a field of 16 or 32 bits cannot hold is cut off when it is written.
Jitter, frame rate, the list of tracks, embedded frames and the reloading of shared pages are left out.
-/
namespace Verif.Index

/-- Subtraction of numbers of 64 bits. -/
def sub64 (a b : Nat) : Nat := (a + 2 ^ 64 - b) % 2 ^ 64

/-! ## Tables -/

/-- A table: the number of slots, the records deleted and written so far, the records present, the position where the records
start (32 bits) and the slots (util.h 155-235). -/
structure Tab (α : Type) where
  n : Nat
  del : Nat := 0
  fin : Nat := 0
  pres : Nat := 0
  start : Nat := 0
  slot : Nat → α

namespace Tab
variable {α : Type}

/-- util.cpp 41: the slot of a record. -/
def idx (t : Tab α) (i : Nat) : Nat := if t.n ≠ 0 then i % t.n else i

/-- util.cpp 1014-1037: `getInt`, for all fields of a record at once. -/
def get (t : Tab α) (i : Nat) : α := t.slot (t.idx i)

/-- util.cpp 1266-1289: `setInt`, for any fields of a record. -/
def set (t : Tab α) (i : Nat) (f : α → α) : Tab α :=
  { t with slot := fun x => if x = t.idx i then f (t.slot x) else t.slot x }

/-- util.cpp 1322-1331: `addRecords(1)`. -/
def add (t : Tab α) : Tab α :=
  { t with pres := if sub64 (t.fin + 1) t.del > t.n then 0 else (t.pres + 1) % 2 ^ 32, fin := (t.fin + 1) % 2 ^ 64 }

/-- util.cpp 1307-1318: `deleteRecords`; `none`: the process exits. -/
def drop (t : Tab α) (k : Nat) : Option (Tab α) :=
  if k ≤ t.pres then
    some { t with start := (t.start + k) % 2 ^ 32, del := (t.del + k) % 2 ^ 64, pres := t.pres - k }
  else none

/-- dtsc.cpp 1862-1867, 1898-1906 and 1926-1931: copying the records from the `i`-th on, `k` of them. -/
def copy (old : Tab α) : Nat → Nat → Tab α → Tab α
  | 0, _, t => t
  | k + 1, i, t => copy old k (i + 1) (t.set i fun _ => old.get i)

/-- dtsc.cpp 1742-1965: a table in its new, zeroed memory with `m` slots. -/
def resize (zero : α) (t : Tab α) (m : Nat) : Tab α :=
  copy t (t.fin - t.start) t.start { t with n := m, slot := fun _ => zero }

end Tab

/-! ## Records -/

/-- dtsc.cpp 2180-2182. -/
structure Part where
  size : Nat
  dur : Nat
  off : Int

/-- dtsc.cpp 2190-2196. -/
structure Key where
  firstPart : Nat
  bpos : Nat
  dur : Nat
  num : Nat
  parts : Nat
  time : Nat
  size : Nat

/-- dtsc.cpp 2208-2211. -/
structure Frag where
  dur : Nat
  keys : Nat
  firstKey : Nat
  size : Nat

/-- Fresh memory. -/
def Part.zero : Part := ⟨0, 0, 0⟩
/-- Fresh memory. -/
def Key.zero : Key := ⟨0, 0, 0, 0, 0, 0, 0⟩
/-- Fresh memory. -/
def Frag.zero : Frag := ⟨0, 0, 0, 0⟩

/-- A number in a signed field of 16 bits. -/
def cut16 (x : Int) : Int := (x + 2 ^ 15) % 2 ^ 16 - 2 ^ 15

/-- A track (dtsc.h): its tables and the fields of dtsc.cpp 2110-2131 that the functions below use. `video` is
`getType() == "video"`, `minFrag` the stream's smallest duration of fragments (dtsc.cpp 2599-2604). -/
structure Track where
  video : Bool
  minFrag : Nat
  parts : Tab Part
  keys : Tab Key
  frags : Tab Frag
  firstms : Nat := 0
  lastms : Nat := 0
  nowms : Nat := 0
  bps : Nat := 0
  maxbps : Nat := 0
  missed : Nat := 0

/-- The arguments of `update` (dtsc.cpp 2835-2836). -/
structure Packet where
  time : Nat
  off : Int
  size : Nat
  bpos : Nat
  key : Bool
  sent : Nat

/-- dtsc.cpp 2599-2604: `getMinimumFragmentDuration`, from the stream's setting. -/
def minFragOf (setting : Nat) : Nat := if setting > 0 then setting else 1900

/-- dtsc.cpp 1990-2040 and defines.h 160-162: a new track, with room for `p` packets, `k` keys and `f` fragments. -/
def newTrack (video : Bool) (setting p k f : Nat) : Track where
  video := video
  minFrag := minFragOf setting
  parts := { n := p, slot := fun _ => Part.zero }
  keys := { n := k, slot := fun _ => Key.zero }
  frags := { n := f, slot := fun _ => Frag.zero }

/-- dtsc.cpp 1742-1965: `resizeTrack`. -/
def resizeTrack (t : Track) (f k p : Nat) : Track :=
  { t with parts := t.parts.resize Part.zero p, keys := t.keys.resize Key.zero k, frags := t.frags.resize Frag.zero f }

/-! ## A packet arrives -/

/-- dtsc.cpp 2881-2884. -/
def roomParts (t : Track) : Track :=
  if sub64 t.parts.fin t.parts.del ≥ t.parts.n then resizeTrack t t.frags.n t.keys.n (t.parts.n * 2) else t

/-- dtsc.cpp 2903-2905. -/
def roomKeys (t : Track) : Track :=
  if sub64 t.keys.fin t.keys.del ≥ t.keys.n then resizeTrack t t.frags.n (t.keys.n * 2) t.parts.n else t

/-- dtsc.cpp 2934-2936. -/
def roomFrags (t : Track) : Track :=
  if sub64 t.frags.fin t.frags.del ≥ t.frags.n then resizeTrack t (t.frags.n * 2) t.keys.n t.parts.n else t

/-- dtsc.cpp 2885-2894: the packet's entry. -/
def addPart (t : Track) (p : Packet) : Track :=
  let i := t.parts.fin
  let parts := t.parts.set i fun r => { r with size := p.size % 2 ^ 32, off := cut16 p.off }
  if i ≠ 0 then
    let d := sub64 p.time t.lastms % 2 ^ 16
    { t with parts := ((parts.set (i - 1) fun r => { r with dur := d }).set i fun r => { r with dur := d }).add }
  else { t with parts := (parts.set i fun r => { r with dur := 0 }).add, firstms := p.time }

/-- dtsc.cpp 2899-2901: whether the packet starts a key. -/
def startsKey (t : Track) (p : Packet) : Bool :=
  p.key || t.keys.fin == 0 ||
    (!t.video && decide (p.time ≥ 2047) && decide (sub64 p.time (t.keys.get (t.keys.fin - 1)).time ≥ 2047))

/-- dtsc.cpp 2906-2929: the new key. -/
def addKey (t : Track) (p : Packet) : Track :=
  let i := t.keys.fin
  let keys := t.keys.set i fun r => { r with bpos := p.bpos, time := p.time, parts := 0, dur := 0, size := 0, num := i % 2 ^ 32 }
  let keys :=
    if i ≠ 0 then
      let keys := keys.set i fun r => { r with firstPart := ((keys.get (i - 1)).firstPart + (keys.get (i - 1)).parts) % 2 ^ 64 }
      keys.set (i - 1) fun r => { r with dur := sub64 p.time (keys.get (i - 1)).time % 2 ^ 32 }
    else keys.set i fun r => { r with firstPart := 0 }
  let keys := keys.add
  { t with keys := keys, firstms := (keys.get keys.del).time }

/-- dtsc.cpp 2932-2935: whether the new key starts a fragment. -/
def startsFrag (t : Track) (p : Packet) : Bool :=
  t.frags.fin == 0 ||
    (decide (p.time ≥ t.minFrag) &&
      decide (sub64 p.time t.minFrag ≥ (t.keys.get (t.frags.get (t.frags.fin - 1)).firstKey).time))

/-- dtsc.cpp 2948-2951: the bytes and milliseconds of the fragments from the `i`-th on. -/
def totals (f : Tab Frag) : Nat → Nat → Nat × Nat
  | 0, _ => (0, 0)
  | k + 1, i => ((totals f k (i + 1)).1 + (f.get i).size, (totals f k (i + 1)).2 + (f.get i).dur)

/-- dtsc.cpp 2938-2957: the previous fragment is complete; `none` is a division by zero. -/
def closeFrag (t : Track) (p : Packet) : Option Track :=
  let i := t.frags.fin
  if i ≠ 0 then
    let d := sub64 p.time (t.keys.get (t.frags.get (i - 1)).firstKey).time % 2 ^ 32
    let frags := t.frags.set (i - 1) fun r => { r with dur := d }
    let s := totals frags (i - frags.start) frags.start
    let f := frags.get (i - 1)
    if f.dur = 0 then none
    else
      some { t with
        frags := frags
        bps := (if s.2 % 2 ^ 64 ≠ 0 then (s.1 % 2 ^ 64 * 1000) % 2 ^ 64 / (s.2 % 2 ^ 64) else 0) % 2 ^ 32
        maxbps := max t.maxbps ((f.size * 1000) % 2 ^ 64 / f.dur) % 2 ^ 32 }
  else some t

/-- dtsc.cpp 2958-2963: the new fragment; the key's number is `t.keys.fin - 1` here. -/
def addFrag (t : Track) : Track :=
  let k := (t.keys.get (t.keys.fin - 1)).num
  { t with frags := (t.frags.set t.frags.fin fun _ => ⟨0, 1, k % 2 ^ 32, 0⟩).add }

/-- dtsc.cpp 2964-2967: the key belongs to the last fragment. -/
def extendFrag (t : Track) : Track :=
  { t with frags := t.frags.set (t.frags.fin - 1) fun r => { r with keys := (r.keys + 1) % 2 ^ 16 } }

/-- dtsc.cpp 2968-2974: the packet belongs to the last key; the last packet but one is `t.parts.fin - 2` here. The C++ code
writes `newPartNum - 1`, and `newPartNum` is the number of this packet. -/
def extendKey (t : Track) : Track :=
  { t with keys := t.keys.set (t.keys.fin - 1) fun r =>
      { r with dur := (r.dur + (t.parts.get (t.parts.fin - 2)).dur) % 2 ^ 32 } }

/-- dtsc.cpp 2976-2984. -/
def count (t : Track) (p : Packet) : Track :=
  { t with
    keys := t.keys.set (t.keys.fin - 1) fun r =>
      { r with parts := (r.parts + 1) % 2 ^ 32, size := (r.size + p.sent) % 2 ^ 32 }
    frags := t.frags.set (t.frags.fin - 1) fun r => { r with size := (r.size + p.size) % 2 ^ 32 }
    lastms := p.time
    nowms := p.time }

/-- dtsc.cpp 2930-2967: a key that may start a fragment. -/
def addKeyFrag (t : Track) (p : Packet) : Option Track :=
  let t := addKey (roomKeys t) p
  if startsFrag t p then (closeFrag (roomFrags t) p).map addFrag else some (extendFrag t)

/-- dtsc.cpp 2835-2984: `update`; `none` is a crash. The size of the packet on the wire is passed or computed as in
`Verif.Dtsc.sendSize`. -/
def update (t : Track) (p : Packet) : Option Track :=
  if p.time < t.lastms then some t
  else
    let t := addPart (roomParts t) p
    (if startsKey t p then addKeyFrag t p else some (extendKey t)).map fun t => count t p

/-! ## The first key is removed -/

/-- dtsc.cpp 2710-2714: fragments whose first key is gone. -/
def dropFrag (t : Track) : Option Track :=
  if (t.frags.get t.frags.del).firstKey < t.keys.del then
    (t.frags.drop 1).map fun f => { t with frags := f, missed := (t.missed + 1) % 2 ^ 32 }
  else some t

/-- dtsc.cpp 2688-2717: `removeFirstKey`, without the pages; `none`: the process exits. -/
def removeFirstKey (t : Track) : Option Track :=
  let k := (t.keys.get t.keys.del).parts
  (t.parts.drop k).bind fun parts => (t.keys.drop 1).bind fun keys =>
    (dropFrag { t with parts := parts, keys := keys }).map fun t => { t with firstms := (t.keys.get t.keys.del).time }

end Verif.Index
