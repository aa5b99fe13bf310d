import Verif.Page.Model
import Verif.Index.Model

/-!
# Model of loading recordings into memory

`/repo/src/input/input.cpp`: `parseHeader`, `bufferFrame`, `removeUnused`, `userOnActive`, with `bufferStart`, `bufferNext`, `bufferRemove` and
`bufferedOnPage` of `/repo/src/io.cpp`, for one track of a recording. The packets are written to a page by `Page.bufferNext`. Simplifications: no keys
of a recording are removed, so the first key is number 0 and no page is deleted; the sizes of keys are in the index (input.cpp 1365-1380 is left out);
the table of pages is as large as needed; shared memory can be had; what the messages say is left out; times of keys do not go back, so differences
of times are not negative.
-/
namespace Verif.Vod
open Verif Verif.Page

/-- The index of a track: its keys, the sizes of its packets and the time of the last one. -/
structure Track where
  keys : List Index.Key
  sizes : List Nat
  lastms : Nat

/-- A record of the table of pages (dtsc.cpp 2214-2220), without `avail`. -/
structure Rec where
  firstTime : Nat
  firstKey : Nat
  keyCount : Nat
  parts : Nat
  size : Nat
  lastKeyTime : Nat
  deriving DecidableEq, Repr

/-- A page: its record, `avail`, and what was written to its memory. -/
structure Slot where
  info : Rec
  avail : Nat := 0
  mem : List (Nat × Bytes) := []
  deriving DecidableEq

/-- The state of the input: the pages and `pageCounter` (when a page was last asked for, in seconds). -/
structure State where
  slots : List Slot
  counter : List (Nat × Nat) := []
  deriving DecidableEq

/-- A key is counted on a page (input.cpp 1404-1407): fields of 32 bits. -/
def count (r : Rec) (k : Index.Key) : Rec :=
  { r with keyCount := (r.keyCount + 1) % 4294967296, parts := (r.parts + k.parts) % 4294967296, size := (r.size + k.size) % 4294967296,
           lastKeyTime := k.time }

/-- Whether the next key is on a new page (input.cpp 1408-1412, defines.h 141-145). -/
def flips (r : Rec) (time : Nat) : Bool :=
  decide ((r.size > 8388608 ∨ time - r.firstTime > 60000) ∧ time - r.firstTime > 20000)

/-- The loop of `parseHeader` (input.cpp 1390-1413) from key `j` on; `cur`: the page the next key is on, if it is not a new one. -/
def split : Nat → Option Rec → List Index.Key → List Rec
  | _, cur, [] => cur.toList
  | j, cur, k :: ks =>
    if flips (count (cur.getD ⟨k.time, j, 0, 0, 0, 0⟩) k) k.time then count (cur.getD ⟨k.time, j, 0, 0, 0, 0⟩) k :: split (j + 1) none ks
    else split (j + 1) (some (count (cur.getD ⟨k.time, j, 0, 0, 0, 0⟩) k)) ks

/-- `parseHeader` (input.cpp 1347-1459): the pages of a track. -/
def parseHeader (t : Track) : State := { slots := (split 0 none t.keys).map fun r => { info := r } }

/-- The place of the page for a key (input.cpp 1570-1574): the last page before the first one that starts after the key. -/
def pageIdx (key : Nat) : List Slot → Nat → Nat → Nat
  | [], _, res => res
  | s :: r, i, res => if s.info.firstKey > key then res else pageIdx key r (i + 1) i

/-- `isBuffered` (io.cpp 221-245). -/
def isBuffered (key : Nat) : List Slot → Bool
  | [] => false
  | s :: r =>
    if s.info.firstKey > key then isBuffered key r
    else if s.info.keyCount = 0 ∨ s.info.firstKey + s.info.keyCount - 1 < key then isBuffered key r
    else decide (s.avail ≠ 0)

/-- What `bufferNext` wrote to the page, and its new `avail`. -/
def Slot.add (s : Slot) (x : List (Nat × Bytes) × Nat) : Slot := { s with avail := x.2, mem := s.mem ++ x.1 }

/-- `bufferNext` on the page (io.cpp 254-338). -/
def buffer (s : Slot) (p : Pack) : Slot := s.add (bufferNext s.info.size s.avail ⟨true, 0, p⟩)

/-- Whether the size of the packet shows that the file is not the one of the index (input.cpp 1690-1701). -/
def wrong (sizes : List Nat) (partNo : Nat) (p : Pack) : Bool :=
  decide (p.data.length ≠ sizes.getD partNo 0 ∧
    ((partNo ≠ 0 ∧ p.data.length = sizes.getD (partNo - 1) 0) ∨ p.data.length = sizes.getD (partNo + 1) 0))

/-- The loop of `bufferFrame` (input.cpp 1632-1711) over the packets that `getNext` gives: the page and `packCounter`. -/
def load (sizes : List Nat) (stop : Nat) : Nat → Nat → Nat → Slot → List Pack → Slot × Nat
  | _, _, n, s, [] => (s, n)
  | partNo, last, n, s, p :: rest =>
    if stop ≤ p.time then (s, n)
    else if p.time < last then load sizes stop partNo last n s rest
    else if wrong sizes partNo p then (s, n)
    else load sizes stop (partNo + 1) p.time (n + 1) (buffer s p) rest

/-- `pageCounter[idx][page] = now`. -/
def mark (page now : Nat) (c : List (Nat × Nat)) : List (Nat × Nat) := (page, now) :: c.filter (·.1 ≠ page)

/-- The key of a number. -/
def Track.key (t : Track) (i : Nat) : Index.Key := t.keys.getD i Index.Key.zero

/-- Where the packets of a page end (input.cpp 1609-1612). -/
def stopOf (t : Track) (s : State) (i : Nat) (r : Rec) : Nat :=
  if i ≠ s.slots.length - 1 then (t.key (r.firstKey + r.keyCount)).time else t.lastms + 1

/-- An empty page (io.cpp 117-123, 181-183). -/
def Slot.empty (s : Slot) : Slot := { info := s.info }

/-- What is loaded (input.cpp 1585-1711): `rest` is what `getNext` gives after `seek`. -/
def loaded (t : Track) (s : State) (i : Nat) (sl : Slot) (rest : List Pack) : Slot × Nat :=
  load t.sizes (stopOf t s i sl.info) (t.key sl.info.firstKey).firstPart 0 0 sl.empty
    (rest.dropWhile fun p => decide (p.time < (t.key sl.info.firstKey).time))

/-- `bufferFrame` (input.cpp 1540-1746) at second `now`; `src`: what `getNext` gives after seeking to a time. -/
def bufferFrame (t : Track) (s : State) (key now : Nat) (src : Nat → List Pack) : State × Bool :=
  if key > t.keys.length then (s, true)
  else match s.slots[pageIdx key s.slots 0 0]? with
  | none => (s, false)
  | some sl =>
    if isBuffered sl.info.firstKey s.slots then ({ s with counter := mark sl.info.firstKey now s.counter }, true)
    else if (loaded t s (pageIdx key s.slots 0 0) sl (src (t.key sl.info.firstKey).time)).2 < sl.info.parts then
      ({ slots := s.slots.set (pageIdx key s.slots 0 0) sl.empty, counter := s.counter.filter (·.1 ≠ sl.info.firstKey) }, false)
    else
      ({ slots := s.slots.set (pageIdx key s.slots 0 0) (loaded t s (pageIdx key s.slots 0 0) sl (src (t.key sl.info.firstKey).time)).1,
         counter := mark sl.info.firstKey now s.counter }, true)

/-- `removeUnused` (input.cpp 1299-1322) with `bufferRemove` (io.cpp 158-218). -/
def removeUnused (timeout : Nat) (s : State) (now : Nat) : State :=
  { slots := s.slots.map fun sl => if s.counter.any (fun e => decide (e.1 = sl.info.firstKey ∧ now > e.2 + timeout)) then sl.empty else sl,
    counter := s.counter.filter fun e => !decide (now > e.2 + timeout) }

/-- What happens to an input: a page is asked for, or unused pages are removed. -/
inductive Op where
  | want (key now : Nat) (src : Nat → List Pack)
  | clean (now : Nat)

/-- One of these. -/
def step (t : Track) (timeout : Nat) (s : State) : Op → State
  | .want key now src => (bufferFrame t s key now src).1
  | .clean now => removeUnused timeout s now

/-- A history from the start of the input. -/
def run (t : Track) (timeout : Nat) (ops : List Op) : State := ops.foldl (step t timeout) (parseHeader t)

/-! ## What viewers ask for -/

/-- `getKeyIndexForTime` (dtsc.cpp 3701-3711), from key `i` on. -/
def keyForTime (ts : Nat) : Nat → List Index.Key → Nat
  | i, [] => i
  | i, k :: ks => if k.time = ts ∨ k.time + k.dur > ts then i else keyForTime ts (i + 1) ks

/-- The last key that is loaded for a viewer at a key (input.cpp 43-49). -/
def endKey (t : Track) (key : Nat) : Nat :=
  min (key + 1000)
    (if keyForTime ((t.key key).time + 120000) 0 t.keys = key then key + 1 else keyForTime ((t.key key).time + 120000) 0 t.keys)

/-- The page of a key (input.cpp 60-67). -/
def pageOf (i : Nat) (slots : List Slot) : Option Rec :=
  (slots.find? fun s => decide (s.info.firstKey ≤ i ∧ s.info.firstKey + s.info.keyCount > i)).map (·.info)

/-- What a page adds to its priority (input.cpp 70-75): numbers of 64 bits. -/
def priority (t : Track) (time page : Nat) : Nat :=
  if (t.key page).time ≤ time then 10000
  else (600 + 18446744073709551616 - ((t.key page).time - time) / 1000) % 18446744073709551616

/-- The loop of `userOnActive` (input.cpp 51-79) from key `i` to `last`, in at most `n` steps: the pages and their priorities. -/
def ahead (t : Track) (slots : List Slot) (time last : Nat) : Nat → Nat → List (Nat × Nat)
  | 0, _ => []
  | n + 1, i =>
    if last < i ∨ t.keys.length < i then []
    else match pageOf i slots with
    | none => []
    | some r => (r.firstKey, priority t time r.firstKey) :: ahead t slots time last n (r.firstKey + if r.keyCount = 0 then 1 else r.keyCount)

/-- `userOnActive` (input.cpp 33-81) for a viewer at a key. -/
def userOnActive (t : Track) (s : State) (key : Nat) : List (Nat × Nat) :=
  ahead t s.slots (t.key key).time (endKey t key) (endKey t key + 1 - key) key

/-- The order in which pages are loaded for one viewer (input.cpp 83-95): by priority, the highest first, of equal ones the last first. -/
def insertPage (e : Nat × Nat) : List (Nat × Nat) → List (Nat × Nat)
  | [] => [e]
  | x :: l => if x.2 ≤ e.2 then e :: x :: l else x :: insertPage e l

/-- `userLeadOut` (input.cpp 83-95): the order of the pages of one viewer. -/
def order (l : List (Nat × Nat)) : List Nat := (l.foldl (fun acc e => insertPage e acc) []).map (·.1)

end Verif.Vod
