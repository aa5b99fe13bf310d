import Verif.Base.Bytes

/-!
# Model of playback: `prepareNext` (`/repo/src/output/output.cpp`) and `packetSorter` (`/repo/lib/stream.cpp`)

A viewer has selected tracks. Each has an entry in a sorter with the place of its next packet; `prepareNext` takes the first
entry, loads pages as needed, and hands out the packet.

Simplifications: pages hold whole packets, so an offset is the number of packets before it (the bytes are in `Verif/Page`;
a packet takes more than 20 bytes, so the room test of line 2559 is that there is a packet). The tables of pages and keys are
lists without deleted records (`Verif/Live` has the writer). Left out: embedded frames, look-ahead, limiters, timeouts, sources
that shut down, and tracks that vanish. A page that is not loaded yet when it is asked for is waited for by the program;
here the request fails.
-/
namespace Verif.Play

/-- A packet: its time and its bytes. -/
structure Pkt where
  time : Nat
  data : Bytes
  deriving DecidableEq

/-- A record of the table of pages (dtsc.cpp 2214-2220), with the packets on the page. -/
structure Page where
  num : Nat
  count : Nat
  firstTime : Nat
  avail : Bool
  pkts : List Pkt

/-- A record of the table of keys: its time, and the duration of the part before its first part, if there is one
(dtsc.cpp 3844-3845). -/
structure Key where
  time : Nat
  before : Option Nat

/-- What a viewer sees of a track: the tables of keys and pages, the number of the first key, and the times of the last
packet and of "now". -/
structure Src where
  first : Nat
  keys : List Key
  pages : List Page
  lastms : Nat
  nowms : Nat

/-- stream.h 61-72: `sortedPageInfo`, without the part index. -/
structure Entry where
  tid : Nat
  time : Nat
  off : Nat
  ghost : Bool
  unavail : Bool
  deriving DecidableEq

/-- A viewer: the mode of its sorter, whether the stream is live, the tracks, the numbers of the open pages (`currentPage`),
the entries in the sorter, and the packets handed out so far with their tracks. -/
structure State where
  sync : Bool
  live : Bool
  src : Nat → Src
  cur : Nat → Option Nat
  buf : List Entry
  out : List (Nat × Pkt)

/-! ## Looking up keys and pages -/

/-- dtsc.cpp 3785-3795: the loop of `getPageNumbersForTime`. -/
def timeLoop (time : Nat) : List Page → Nat → Nat × Nat
  | [], res => (res, 0)
  | p :: ps, res =>
    if !p.avail then timeLoop time ps res
    else if p.firstTime > time then (res, p.num)
    else timeLoop time ps p.num

/-- dtsc.cpp 3781-3799: `getPageNumbersForTime`, with 0 for "no next page" (output.cpp 2479-2480). -/
def pagesForTime (s : Src) (time : Nat) : Nat × Nat := timeLoop time s.pages ((s.pages.head?.map Page.num).getD 0)

/-- dtsc.cpp 3807-3811: the loop of `getPageNumberForKey`. -/
def keyLoop (key : Nat) : List Page → Nat → Nat
  | [], res => res
  | p :: ps, res =>
    if !p.avail then keyLoop key ps res
    else if p.num > key then res
    else keyLoop key ps p.num

/-- dtsc.cpp 3803-3813: `getPageNumberForKey`. -/
def pageForKey (s : Src) (key : Nat) : Nat := keyLoop key s.pages ((s.pages.head?.map Page.num).getD 0)

/-- output.cpp 604-615: `pageNumForKey`. A page in the list has at least one key. -/
def pageNumForKey : List Page → Nat → Option Nat
  | [], _ => none
  | p :: ps, key =>
    if p.num > key then pageNumForKey ps key
    else if key > p.num + p.count - 1 then pageNumForKey ps key
    else if p.avail then some p.num else none

/-- dtsc.cpp 3837-3852: the loop of `getKeyNumForTime` from the key with number `i` on. -/
def keyNumLoop (time : Nat) : List Key → Nat → Nat → Nat
  | [], _, res => res
  | k :: ks, i, res =>
    if k.time > time then
      match k.before with
      | none => keyNumLoop time ks (i + 1) res
      | some dur => keyNumLoop time ks (i + 1) (if k.time - dur < time then i else res)
    else keyNumLoop time ks (i + 1) i

/-- dtsc.cpp 3819-3855: `getKeyNumForTime`; `none` is `INVALID_KEY_NUM`. -/
def keyNumForTime (s : Src) (time : Nat) : Option Nat :=
  match s.keys with
  | [] => none
  | _ => some (keyNumLoop time s.keys s.first s.first)

/-- dtsc.cpp: `Keys::getEndValid`. -/
def endKey (s : Src) : Nat := s.first + s.keys.length

/-- dtsc.cpp: `Keys::getTime`, for a valid key. -/
def keyTime (s : Src) (key : Nat) : Nat := (s.keys[key - s.first]?.map Key.time).getD 0

/-- The packets on the open page. -/
def mapped (s : Src) (cur : Option Nat) : Option (List Pkt) :=
  match cur with
  | none => none
  | some n => (s.pages.find? (fun p => p.num == n)).map Page.pkts

/-- output.cpp 745-822: `loadPageForKey`: the page that is open afterwards. -/
def loadPage (live : Bool) (s : Src) (cur : Option Nat) (key : Nat) : Option Nat :=
  if s.keys.isEmpty then cur
  else if !live && decide (key ≥ endKey s) then none
  else pageNumForKey s.pages key

/-! ## The sorter -/

/-- stream.h 62-65: the order of entries. -/
def before (a b : Entry) : Bool := decide (a.time < b.time) || (a.time == b.time && decide (a.tid < b.tid))

/-- stream.cpp 337-343: insertion in sync mode, into a `std::set`. -/
def insert (e : Entry) : List Entry → List Entry
  | [] => [e]
  | x :: xs => if before e x then e :: x :: xs else if before x e then x :: insert e xs else x :: xs

/-- stream.cpp 337-343: `insert`. -/
def put (sync : Bool) (e : Entry) (b : List Entry) : List Entry := if sync then insert e b else b ++ [e]

/-- stream.cpp 366-376: `replaceFirst`. -/
def replaceFirst (sync : Bool) (e : Entry) (b : List Entry) : List Entry := put sync e b.tail

/-- stream.cpp 379-386: `moveFirstToEnd` (only called when not in sync mode). -/
def moveFirstToEnd : List Entry → List Entry
  | [] => []
  | e :: b => b ++ [{ e with unavail := true }]

/-- stream.cpp 346-363: `dropTrack`. -/
def dropTrack (tid : Nat) : List Entry → List Entry
  | [] => []
  | e :: b => if e.tid == tid then b else e :: dropTrack tid b

/-! ## Preparing the next packet -/

/-- The return value of `prepareNext`: 0 with a packet, 0 without one (the end), or a time to wait. -/
inductive Res where
  | packet
  | finished
  | wait (ms : Nat)
  deriving DecidableEq

/-- How a try of the loop (output.cpp 2408) ends. -/
inductive Try where
  | stop (st : State) (r : Res)
  | again (st : State)

/-- output.cpp 2243-2283: `dropTrack`, and waiting for a millisecond. -/
def drop (st : State) (tid : Nat) : Try := .stop { st with buf := Play.dropTrack tid st.buf } (.wait 1)

/-- output.cpp 2503-2510: how many packets of the page come before the first one with at least this time; and the time of that
one, if there is one. -/
def scan (time : Nat) : List Pkt → Nat × Nat
  | [] => (0, time)
  | p :: ps => if p.time ≥ time then (0, p.time) else ((scan time ps).1 + 1, (scan time ps).2)

/-- output.cpp 2483-2516: the entry after the page of key `key` was opened, if that worked; `fromStart`: at its first packet. -/
def opened (e : Entry) (pkts : Option (List Pkt)) (fromStart : Bool) : Entry :=
  match pkts with
  | none => { e with off := 0, ghost := true, unavail := true }
  | some [] => { e with off := 0, ghost := true, unavail := true }
  | some (p :: ps) =>
    if fromStart then { e with off := 0, time := p.time, ghost := false, unavail := false }
    else { e with off := (scan e.time (p :: ps)).1, time := (scan e.time (p :: ps)).2, ghost := false, unavail := false }

/-- output.cpp 2483-2518: opening another page, or the same one again. -/
def openPage (st : State) (e : Entry) (key : Nat) (fromStart : Bool) : Try :=
  let cur := loadPage st.live (st.src e.tid) (st.cur e.tid) key
  let e' := opened e (mapped (st.src e.tid) cur) fromStart
  .stop { st with
    cur := fun t => if t = e.tid then cur else st.cur t
    buf := replaceFirst st.sync e' st.buf } (.wait (if e'.ghost then 10 else 1))

/-- output.cpp 2527-2541: an entry without a packet that waits at the end of the page. -/
def waitGhost (st : State) (e : Entry) : Try :=
  let s := st.src e.tid
  let e' := if s.lastms ≤ e.time then { e with time := s.nowms } else e
  let st' := { st with buf := replaceFirst st.sync e' st.buf }
  if st.sync then .stop st' (.wait 2000) else .again st'

/-- output.cpp 2467-2549: no page is open, or the entry is at the end of the page. -/
def atEnd (st : State) (e : Entry) (closed : Bool) : Try :=
  let s := st.src e.tid
  if !st.live && decide (e.time ≥ s.lastms) then drop st e.tid
  else
    let r := pagesForTime s e.time
    if closed || decide (s.lastms ≥ e.time) || !(st.cur e.tid == some r.1) then
      if !closed && r.2 != 0 && st.cur e.tid == some r.1 then openPage st e r.2 true
      else openPage st e r.1 false
    else if e.ghost then waitGhost st e
    else drop st e.tid

/-- output.cpp 2675-2717: the packet is handed out, and the entry points to the next one, at `next` (0: not known). -/
def deliver (st : State) (e : Entry) (p : Pkt) (next : Nat) : Try :=
  let s := st.src e.tid
  let e' : Entry :=
    if next = 0 then
      { e with off := e.off + 1, time := if p.time = s.lastms then s.nowms else p.time, ghost := true, unavail := true }
    else { e with off := e.off + 1, time := next, ghost := false, unavail := false }
  .stop { st with out := st.out ++ [(e.tid, p)], buf := replaceFirst st.sync e' st.buf } .packet

/-- output.cpp 2588-2594: the page of the next key, if there is a next key. -/
def nextKey (s : Src) (time : Nat) : Option (Nat × Nat) :=
  match keyNumForTime s time with
  | none => none
  | some k => if endKey s > k + 1 then some (k + 1, pageForKey s (k + 1)) else none

/-- output.cpp 2624-2648: nothing is known about what comes after packet `p`. -/
def noNext (st : State) (e : Entry) (p : Pkt) : Try :=
  let s := st.src e.tid
  if s.nowms > p.time then deliver st e p 0
  else if !st.sync then .again { st with buf := moveFirstToEnd st.buf }
  else
    .stop (if e.unavail then st
      else { st with buf := replaceFirst st.sync { e with time := p.time, unavail := true } st.buf }) (.wait 2000)

/-- output.cpp 2578-2623: packet `p` is the last one on the page. The last packet of a track that is not live is prepared, but
the return value says that there is no packet, so that the caller (1985-1993) passes it over. -/
def lastOnPage (st : State) (e : Entry) (p : Pkt) : Try :=
  let s := st.src e.tid
  if !st.live && decide (p.time ≥ s.lastms) then drop st e.tid
  else
    match nextKey s p.time with
    | none => noNext st e p
    | some (k, n) =>
      if st.cur e.tid == some n then noNext st e p
      else if keyTime s k < p.time then drop st e.tid
      else deliver st e p (keyTime s k)

/-- output.cpp 2552-2576: the entry points to packet `p`, and `q` is the next one on the page. -/
def onPage (st : State) (e : Entry) (p : Pkt) (q : Option Pkt) : Try :=
  match q with
  | none => lastOnPage st e p
  | some q => if q.time = 0 then drop st e.tid else if q.time < p.time then drop st e.tid else deliver st e p q.time

/-- output.cpp 2408-2655: one try, with the first entry. -/
def attempt (st : State) : Try :=
  match st.buf with
  | [] => .stop st .finished
  | e :: _ =>
    match mapped (st.src e.tid) (st.cur e.tid) with
    | none => atEnd st e true
    | some ps =>
      match ps[e.off]? with
      | none => atEnd st e false
      | some p => onPage st e p ps[e.off + 1]?

/-- output.cpp 2408-2660: the loop over the tries. -/
def tries : Nat → State → State × Res
  | 0, st => (st, .wait 2000)
  | k + 1, st =>
    match attempt st with
    | .stop st' r => (st', r)
    | .again st' => tries k st'

/-- output.cpp 2364-2718: `prepareNext`. The sorter and the selection hold the same tracks. -/
def prepareNext (st : State) : State × Res := if st.buf.isEmpty then (st, .finished) else tries st.buf.length st

/-! ## Seeking -/

/-- output.cpp 1034-1056: the loop over the packets of a page, from offset `off` with a packet of time `time` on: the place of
the first packet at `pos` or later, with its time; or that the end of the page was reached after a packet of this time. -/
def seekLoop (pos : Nat) : List Pkt → Nat → Nat → Nat × Nat × Bool
  | [], off, time => (off, time, false)
  | p :: ps, off, _ => if p.time < pos then seekLoop pos ps (off + 1) p.time else (off, p.time, true)

/-- output.cpp 1060-1071: the entry that a seek puts in the sorter; `none`: nothing appeared in time. `junk` is the value of
the flag that is not set by this function (1024-1027). -/
def seekEntry (tid : Nat) (junk : Bool) (s : Src) (r : Nat × Nat × Bool) : Option Entry :=
  if r.2.2 then some ⟨tid, r.2.1, r.1, false, junk⟩
  else if s.lastms ≤ r.2.1 ∧ s.nowms > r.2.1 then some ⟨tid, s.nowms, r.1, true, true⟩
  else none

/-- output.cpp 986-995: in async mode, the start of a live track is its middle. -/
def asyncPos (st : State) (s : Src) (firstms pos : Nat) : Nat :=
  if st.live && pos == 0 && !st.sync then
    keyTime s ((keyNumForTime s ((firstms + s.lastms) / 2)).getD 0)
  else pos

/-- output.cpp 957-1072: `seek` of a track. A position past the end becomes "now". The result tells whether it worked. -/
def seek (st : State) (tid : Nat) (junk : Bool) (pos : Nat) : State × Bool :=
  let s := st.src tid
  let pos := asyncPos st s (keyTime s s.first) (if s.nowms < pos then s.nowms else pos)
  match keyNumForTime s pos with
  | none => (st, false)
  | some k =>
    let pos := if keyTime s k > pos then keyTime s k else pos
    let cur := loadPage st.live s (st.cur tid) k
    let st := { st with cur := fun t => if t = tid then cur else st.cur t }
    match mapped s cur with
    | none => (st, false)
    | some ps =>
      match seekEntry tid junk s (seekLoop pos ps 0 0) with
      | none => (st, false)
      | some e => ({ st with buf := put st.sync e st.buf }, true)

/-- output.cpp 911-955: `seek` of the tracks `tids`. -/
def seekAll (st : State) (tids : List (Nat × Bool)) (pos : Nat) : State :=
  tids.foldl (fun st t => (seek st t.1 t.2 pos).1) { st with buf := [] }

end Verif.Play
