import Verif.Index.Seek
import Verif.Page.Model

/-!
# Model of the data pages of a live track (`/repo/src/io.cpp`, `/repo/lib/dtsc.cpp`, `/repo/src/output/output.cpp`)

A source puts packets on pages of shared memory and lists the pages in a table next to the index of the track, which is
modelled in `Verif/Index`. Here a page holds whole packets; their bytes are in `Verif/Page`. Each operation happens as a whole.
The number of packets of a page (field "parts"), embedded frames, data read from packets with keys, and sources that close a
page and continue on another one later are left out.
-/
namespace Verif.Live
open Verif.Index (Tab Track sub64)
open Verif.Page (Pack packLen)

/-- A record of the table of pages (dtsc.cpp 2214-2220), without "parts". -/
structure Rec where
  firstKey : Nat
  keyCount : Nat
  avail : Nat
  size : Nat
  firstTime : Nat
  lastKeyTime : Nat

/-- Fresh memory. -/
def Rec.zero : Rec := ⟨0, 0, 0, 0, 0, 0⟩

/-- A live track: its index, the table of pages, the number of the page its source has open (`livePage`, io.h) and the pages
that exist, by their numbers. -/
structure Live where
  track : Track
  pages : Tab Rec
  cur : Option Nat
  data : Nat → Option (List Pack)

/-- defines.h 134 and meson_options.txt 15: `DEFAULT_DATA_PAGE_SIZE`. -/
def pageSize : Nat := 40 * 1024 * 1024
/-- defines.h 141: `FLIP_DATA_PAGE_SIZE`. -/
def flipSize : Nat := 8 * 1024 * 1024
/-- defines.h 142: `FLIP_TARGET_DURATION`. -/
def flipTime : Nat := 60000
/-- defines.h 278: `AUDIO_KEY_INTERVAL`. -/
def audioKey : Nat := 2047

/-- What the index learns of a packet (io.cpp 518; the size on the wire is computed at dtsc.cpp 2847-2855). -/
def entry (p : Pack) : Index.Packet := ⟨p.time, p.off, p.data.length, p.bpos, p.key, packLen p⟩

/-- A new track with room for `np` pages (defines.h 163). -/
def new (t : Track) (np : Nat) : Live := ⟨t, { n := np, slot := fun _ => Rec.zero }, none, fun _ => none⟩

/-! ## Finding pages -/

/-- io.cpp 82-87, 282-288 and 421-427: the record of the page with number `num`, from the `i`-th on. -/
def findLoop (t : Tab Rec) (num : Nat) : Nat → Nat → Option Nat
  | 0, _ => none
  | k + 1, i => if (t.get i).firstKey = num then some i else findLoop t num k (i + 1)

/-- The same, for the whole table. -/
def findPage (t : Tab Rec) (num : Nat) : Option Nat := findLoop t num (t.fin - t.del) t.del

/-- io.cpp 231-243: `bufferedOnPage`; the value for "none" is `none` here. -/
def onPageLoop (t : Tab Rec) (key : Nat) : Nat → Nat → Option Nat
  | 0, _ => none
  | k + 1, i =>
    let r := t.get i
    if r.firstKey > key then onPageLoop t key k (i + 1)
    else if r.keyCount = 0 ∨ r.firstKey + r.keyCount - 1 < key then onPageLoop t key k (i + 1)
    else if r.avail ≠ 0 then some r.firstKey else none

/-- io.cpp 222-226: `isBuffered`. -/
def isBuffered (t : Tab Rec) (key : Nat) : Bool := (onPageLoop t key (t.fin - t.del) t.del).isSome

/-- output.cpp 604-615: `pageNumForKey`, the page that a viewer opens for a key; `none`: it waits. The subtraction wraps
around in the code; a page without keys is passed over there as well (`pageNum + 0 - 1 < keyNum`), except that number 0
without keys is taken for any key. -/
def numLoop (t : Tab Rec) (key : Nat) : Nat → Nat → Option Nat
  | 0, _ => none
  | k + 1, i =>
    let r := t.get i
    if r.firstKey > key then numLoop t key k (i + 1)
    else if key > sub64 (r.firstKey + r.keyCount) 1 then numLoop t key k (i + 1)
    else if r.avail = 0 then none else some r.firstKey

/-- output.cpp 604-615. -/
def pageNumForKey (l : Live) (key : Nat) : Option Nat := numLoop l.pages key (l.pages.fin - l.pages.del) l.pages.del

/-- dtsc.cpp 3806-3811: the loop of `getPageNumberForKey`. -/
def keyLoop (t : Tab Rec) (key : Nat) : Nat → Nat → Nat → Nat
  | 0, _, res => res
  | k + 1, i, res =>
    if (t.get i).avail = 0 then keyLoop t key k (i + 1) res
    else if (t.get i).firstKey > key then res
    else keyLoop t key k (i + 1) i

/-- dtsc.cpp 3803-3813: `getPageNumberForKey`. -/
def pageForKey (l : Live) (key : Nat) : Nat :=
  (l.pages.get (keyLoop l.pages key (l.pages.fin - l.pages.start) l.pages.start l.pages.start)).firstKey

/-- dtsc.cpp 3785-3795: the loop of `getPageNumbersForTime`: the record of the page and the number of the next page. -/
def timeLoop (t : Tab Rec) (time : Nat) : Nat → Nat → Nat → Nat × Option Nat
  | 0, _, res => (res, none)
  | k + 1, i, res =>
    if (t.get i).avail = 0 then timeLoop t time k (i + 1) res
    else if (t.get i).firstTime > time then (res, some (t.get i).firstKey)
    else timeLoop t time k (i + 1) i

/-- dtsc.cpp 3781-3799: `getPageNumbersForTime`; `none`: the argument `nextPage` is left as it is. -/
def pagesForTime (l : Live) (time : Nat) : Nat × Option Nat :=
  let r := timeLoop l.pages time (l.pages.fin - l.pages.start) l.pages.start l.pages.start
  ((l.pages.get r.1).firstKey, r.2)

/-- dtsc.cpp 3771-3775: the loop of `nextPageAvailable`. -/
def nextLoop (t : Tab Rec) (num : Nat) : Nat → Nat → Bool
  | 0, _ => false
  | k + 1, i =>
    if i + 1 < t.fin then
      if (t.get i).firstKey = num then decide ((t.get (i + 1)).avail ≠ 0) else nextLoop t num k (i + 1)
    else false

/-- dtsc.cpp 3768-3777: `nextPageAvailable`. -/
def nextPageAvailable (l : Live) (num : Nat) : Bool := nextLoop l.pages num (l.pages.fin - l.pages.start) l.pages.start

/-! ## Buffering -/

/-- io.cpp 395-405: whether the packet starts a key. -/
def isKey (l : Live) (p : Pack) : Bool :=
  if l.track.video then p.key
  else
    match l.cur with
    | none => true
    | some _ => l.pages.fin == 0 || decide (sub64 p.time (l.pages.get (l.pages.fin - 1)).lastKeyTime ≥ audioKey)

/-- io.cpp 440-442 and 466-468, with dtsc.cpp 1934-1962: room for another page. -/
def roomPages (l : Live) : Live :=
  if sub64 l.pages.fin l.pages.del ≥ l.pages.n then
    { l with
      track := Index.resizeTrack l.track l.track.frags.n l.track.keys.n l.track.parts.n
      pages := l.pages.resize Rec.zero (l.pages.n * 2) }
  else l

/-- io.cpp 62-128: `bufferStart`, when no page is open; whether it succeeded. -/
def bufferStart (l : Live) (num : Nat) : Live × Bool :=
  match findPage l.pages num with
  | none => (l, false)
  | some i =>
    if isBuffered l.pages num then (l, false)
    else
      ({ l with
         cur := some num
         data := fun x => if x = num then some [] else l.data x
         pages := l.pages.set i fun r => { r with avail := 0 } }, true)

/-- io.cpp 445-451 and 478-486: the record of a new page (`lastkeytime` is set at once by the caller). -/
def addPage (l : Live) (num time : Nat) : Live :=
  { l with
    cur := none
    pages := (l.pages.set l.pages.fin fun r =>
      { r with firstKey := num % 2 ^ 32, firstTime := time, size := pageSize, keyCount := 0, avail := 0 }).add }

/-- io.cpp 433-438: the number of the first page of a source. -/
def firstNumber (l : Live) (time : Nat) : Nat :=
  match Index.keyNumForTime l.track time with
  | none => 0
  | some k => k + 1

/-- io.cpp 461-464: whether the open page, the `i`-th, is full enough. -/
def flips (l : Live) (i time : Nat) : Bool :=
  decide ((l.pages.get i).avail > flipSize) || decide (sub64 time (l.pages.get i).firstTime > flipTime)

/-- io.cpp 497-498: the key in the record of its page. -/
def noted (time : Nat) (r : Rec) : Rec := { r with lastKeyTime := time, keyCount := (r.keyCount + 1) % 2 ^ 32 }

/-- io.cpp 497-498: the same, for the `i`-th page. -/
def noteKey (time : Nat) (l : Live) (i : Nat) : Live := { l with pages := l.pages.set i (noted time) }

/-- io.cpp 415-499: a packet that starts a key: perhaps a new page; then the record of the page, the `i`-th, is updated.
The result is the track and whether the packet is buffered. -/
def startKey (l : Live) (time : Nat) : Live × Bool :=
  let last := l.pages.fin
  match l.cur with
  | none =>
    let r := bufferStart (addPage (roomPages l) (firstNumber l time) time) (firstNumber l time)
    if r.2 then (noteKey time r.1 last, true) else (r.1, false)
  | some num =>
    let i := (findPage l.pages num).getD 0
    if flips l i time then
      let next := (l.pages.get i).firstKey + (l.pages.get i).keyCount
      let r := bufferStart (addPage (roomPages l) next time) next
      if r.2 then (noteKey time r.1 last, true) else (r.1, false)
    else (noteKey time l i, true)

/-- io.cpp 252-338: `bufferNext` on the open page `num`. The packet's order was checked. -/
def bufferNext (l : Live) (num : Nat) (p : Pack) : Live :=
  let i := (findPage l.pages num).getD 0
  let r := l.pages.get i
  if (r.size + 2 ^ 64 - r.avail) % 2 ^ 64 < packLen p then l
  else
    { l with
      pages := l.pages.set i fun r => { r with avail := (r.avail + packLen p) % 2 ^ 32 }
      data := fun x => if x = num then (l.data x).map (· ++ [p]) else l.data x }

/-- io.cpp 500-519: the packet is put on the open page and in the index; `none` is a crash. A page that was deleted ends the
source. -/
def putPacket (l : Live) (p : Pack) : Option Live :=
  match l.cur with
  | none => some l
  | some num =>
    if l.data num = none then some { l with cur := none }
    else
      let l := bufferNext l num p
      (Index.update l.track (entry p)).map fun t => { l with track := t }

/-- io.cpp 375-519: `bufferLivePacket`; `none` is a crash. -/
def buffer (l : Live) (p : Pack) : Option Live :=
  let p := { p with key := isKey l p }
  if p.time < l.track.lastms then some l
  else if p.key then
    let r := startKey l p.time
    if r.2 then putPacket r.1 p else some r.1
  else putPacket l p

/-! ## Removing the first key -/

/-- dtsc.cpp 2719-2740: the pages after key `deleted` was removed; `none`: the process exits. -/
def removePage (l : Live) (deleted : Nat) : Option Live :=
  let r := l.pages.get l.pages.del
  if (r.firstKey + r.keyCount) % 2 ^ 32 ≤ deleted + 1 then
    (l.pages.drop 1).map fun pages =>
      { l with pages := pages, data := if r.avail ≠ 0 then fun x => if x = r.firstKey then none else l.data x else l.data }
  else if r.avail = 0 then
    some { l with pages := l.pages.set l.pages.del fun r =>
      { r with keyCount := (r.keyCount + 2 ^ 32 - 1) % 2 ^ 32, firstKey := (deleted + 1) % 2 ^ 32 } }
  else some l

/-- dtsc.cpp 2688-2742: `removeFirstKey`. -/
def removeFirstKey (l : Live) : Option Live :=
  (Index.removeFirstKey l.track).bind fun t => removePage { l with track := t } l.track.keys.del

/-! ## Histories -/

/-- What happens to a live track. -/
inductive Op where
  | packet (p : Pack)
  | remove

/-- One event. As in `Index.step`, a key is only removed if there are at least two fragments; the stream's buffer asks for
five while it is active (`/repo/src/input/input_buffer.cpp` 285-311). -/
def step (l : Live) : Op → Option Live
  | .packet p => buffer l p
  | .remove => if 2 ≤ l.track.frags.fin - l.track.frags.del then removeFirstKey l else some l

/-- A history; `none` is a crash. -/
def run (l : Live) : List Op → Option Live
  | [] => some l
  | o :: r => (step l o).bind fun l => run l r

end Verif.Live
