import Verif.Base.Bytes

/-!
# Model of the totals of the server

`/repo/src/controller/controller_statistics.cpp`: the records of all sessions are read once per second (`runStats` 412-626, `statOnActive` and
`statOnDisconnect` 1104-1115), each session keeps a log of ten minutes (`statStorage::update` 1071-1098), and what has increased is added to the totals of the
server and of its stream (`statSession::update` 666-778). Simplifications: totals are integers, where the code has 64 bits; of the
counters there are the bytes down and up (packets are handled alike); one time stands for all calls of `Util::bootSecs` in a pass; the host of a session is
reduced to whether it is in a range that is not counted. Tags, triggers, the status of streams and the locks of sessions are left out.
-/
namespace Verif.Totals

open Verif

/-- `sessType` (controller_statistics.h 45), by the first letter of the name of the session (668-679). -/
inductive Kind where
  | input
  | output
  | unspecified
  | viewer
  deriving DecidableEq

/-- controller_statistics.cpp 671-678. -/
def kindOf (sid : Bytes) : Kind :=
  match sid.head? with
  | some c => if c = 73 then .input else if c = 79 then .output else if c = 85 then .unspecified else .viewer
  | none => .viewer

/-- What the record of a session says when it is read. `free`: the address is in a range that is not counted (717-723). -/
structure Report where
  sid : Bytes
  now : Nat
  time : Nat := 0
  down : Nat := 0
  up : Nat := 0
  stream : Bytes := []
  free : Bool := false
  deriving DecidableEq

/-- `statLog` (controller_statistics.h 31-43). The default is `emptyLogEntry` (88). -/
structure Entry where
  time : Nat := 0
  first : Nat := 0
  down : Nat := 0
  up : Nat := 0
  stream : Bytes := []
  deriving DecidableEq

/-- `statSession`: `noBWCount` (`none` if 0, `some true` if 2) and the log, newest first. The code has a map by time; entries are only added
with the newest time or a later one. -/
structure Sess where
  free : Option Bool := none
  log : List (Nat × Entry) := []
  deriving DecidableEq

/-- `streamTotals` (96-112). -/
structure Strm where
  down : Int := 0
  up : Int := 0
  seconds : Int := 0
  total : Kind → Nat := fun _ => 0
  now : Kind → Nat := fun _ => 0
  sess : Nat := 0

/-- A line of the access log (`logAccess`, 797). -/
structure Access where
  sid : Bytes
  stream : Bytes
  duration : Nat
  up : Nat
  down : Nat
  deriving DecidableEq

/-- The state of the controller (115-133): sessions, streams, the time of the pass, `firstRun`, the totals in bytes of what is counted and what is not, the numbers of
sessions by kind, `servSeconds`, `viewSecondsTotal` and the access log. -/
structure State where
  sessions : List (Bytes × Sess) := []
  streams : List (Bytes × Strm) := []
  boot : Nat := 0
  first : Bool := true
  down : Int := 0
  up : Int := 0
  otherDown : Int := 0
  otherUp : Int := 0
  count : Kind → Nat := fun _ => 0
  seconds : Nat := 0
  wiped : Nat := 0
  access : List Access := []

/-- `std::map::operator[]` for reading. -/
def find {α : Type} [Inhabited α] (l : List (Bytes × α)) (k : Bytes) : α := ((l.find? (fun p => p.1 == k)).map Prod.snd).getD default

/-- Storing under a name. -/
def put {α : Type} (l : List (Bytes × α)) (k : Bytes) (v : α) : List (Bytes × α) :=
  match l with
  | [] => [(k, v)]
  | p :: l => if p.1 = k then (k, v) :: l else p :: put l k v

instance : Inhabited Sess := ⟨{}⟩
instance : Inhabited Strm := ⟨{}⟩

/-- The newest entry: what `getDown`, `getUp`, `getStreamName`, `getConnTime` and `getFirstActive` read (870-1000). -/
def Sess.last (x : Sess) : Entry := (x.log.head?.map Prod.snd).getD {}

/-- `getEnd` (852-855). -/
def Sess.stop (x : Sess) : Nat := (x.log.head?.map Prod.fst).getD 0

/-- The oldest time that is kept (1089-1096, 484-489). -/
def cutoff (boot : Nat) : Nat := boot - 600

/-- `statStorage::update` (1071-1098). -/
def keep (boot : Nat) (r : Report) (log : List (Nat × Entry)) : List (Nat × Entry) :=
  let f := (log.head?.map fun p => p.2.first).getD 0
  let e : Entry := { time := r.time, first := if f = 0 then r.now else f, down := r.down, up := r.up, stream := r.stream }
  let log := match log with
    | [] => [(r.now, e)]
    | p :: l => if p.1 = r.now then (r.now, e) :: l else (r.now, e) :: p :: l
  log.filter fun p => cutoff boot ≤ p.1

/-- `++` of one of the counters. -/
def bump (f : Kind → Nat) (k : Kind) : Kind → Nat := fun j => if j = k then f j + 1 else f j

/-- The totals of the server after a session has gone from one entry to the next (701-741). -/
def server (s : State) (r : Report) (x : Sess) (old new : Entry) : State × Option Bool :=
  if (new.up : Int) - old.up < 0 ∨ (new.down : Int) - old.down < 0 then (s, x.free)
  else
    let f := x.free.getD r.free
    if f = true then ({ s with otherUp := s.otherUp + (new.up - old.up), otherDown := s.otherDown + (new.down - old.down) }, some f)
    else ({ s with up := s.up + (new.up - old.up), down := s.down + (new.down - old.down) }, some f)

/-- The number of sessions, which is counted when one gets active (743-764). -/
def started (s : State) (k : Kind) (old new : Entry) : State :=
  if old.first = 0 ∧ new.stream ≠ [] then
    { s with count := bump s.count k, streams := put s.streams new.stream { find s.streams new.stream with total := bump (find s.streams new.stream).total k } }
  else s

/-- The totals of the stream (766-777). -/
def stream (s : State) (k : Kind) (free : Option Bool) (secs : Nat) (old new : Entry) : State :=
  if free ≠ some true ∧ new.stream ≠ [] then
    let t := find s.streams new.stream
    { s with streams := put s.streams new.stream { t with up := t.up + (new.up - old.up), down := t.down + (new.down - old.down), seconds := t.seconds + (if k = .viewer then secs else 0 : Nat) } }
  else s

/-- `statSession::update` (666-778). -/
def update (s : State) (r : Report) : State :=
  let x := find s.sessions r.sid
  -- 681-683
  if r.now < x.stop then { s with sessions := put s.sessions r.sid x }
  else
    let log := keep s.boot r x.log
    let new := ({ x with log := log } : Sess).last
    let secs := if x.last.first = 0 then 0 else r.now - x.stop
    let (s, free) := server s r x x.last new
    let s := started s (kindOf r.sid) x.last new
    let s := stream s (kindOf r.sid) free secs x.last new
    { s with sessions := put s.sessions r.sid { free := free, log := log } }

/-- `statSession::finish` (785-839). -/
def finish (s : State) (sid : Bytes) : State :=
  let x := find s.sessions sid
  if x.last.first = 0 then { s with sessions := put s.sessions sid x }
  else
    let d := max 1 (x.stop - x.last.first)
    { s with
      access := s.access ++ [{ sid := sid, stream := x.last.stream, duration := d, up := x.last.up, down := x.last.down }]
      sessions := put s.sessions sid { x with log := (x.stop + 1, {}) :: x.log } }

/-- `hasDataFor` (1054-1057, 861-864) for a time some seconds ago. The time has 32 bits, so that it is in the far future if the system has just
started. -/
def since (boot ago : Nat) (x : Sess) : Bool :=
  match x.log.getLast? with
  | none => false
  | some p => boot < ago || p.1 ≤ boot - ago

/-- How long a session must have been there to be counted (466-467, defines.h 122-124). -/
def delay : Kind → Nat
  | .input => 2
  | _ => 15

/-- One session in the loop of 490-520, except for its removal. -/
def visit (s : State) (p : Bytes × Sess) : State :=
  let x := p.2
  let strm := x.last.stream
  let s := if strm ≠ [] then { s with streams := put s.streams strm { find s.streams strm with sess := (find s.streams strm).sess + 1 } } else s
  if x.stop < cutoff s.boot then { s with wiped := s.wiped + x.last.time }
  else if strm ≠ [] then
    let k := kindOf p.1
    let s := if since s.boot (delay k) x = true then
        { s with streams := put s.streams strm { find s.streams strm with now := bump (find s.streams strm).now k } } else s
    if k = .viewer then { s with seconds := s.seconds + x.last.time } else s
  else s

/-- 421-438: the first pass only finds out where the counters are. -/
def begun (s : State) : State :=
  if s.first = true then
    { s with first := false, down := 0, up := 0, otherDown := 0, otherUp := 0, seconds := 0, streams := s.streams.map fun p : Bytes × Strm => (p.1, { p.2 with down := 0, up := 0, seconds := 0 }) }
  else s

/-- 469-476. -/
def zeroed (s : State) : State := { s with streams := s.streams.map fun p : Bytes × Strm => (p.1, { p.2 with now := fun _ => 0, sess := 0 }) }

/-- The second part of `runStats` (421-626). -/
def sweep (s : State) : State :=
  let s := s.sessions.foldl visit (zeroed (begun s))
  -- 521-524, 550, 601-623
  { s with
    sessions := s.sessions.filter fun p => cutoff s.boot ≤ p.2.stop
    streams := s.streams.filter fun p => p.1 = [] || p.2.sess ≠ 0 }

/-- What happens: a pass starts at a time, the record of a session is read, it is found to have ended, and the rest of the pass. -/
inductive Ev where
  | tick (t : Nat)
  | rep (r : Report)
  | fin (sid : Bytes)
  | sweep
  deriving DecidableEq

/-- The state after an event. The time 3 seconds ago is a number of 64 bits (1100-1108). -/
def step (s : State) : Ev → State
  | .tick t => { s with boot := t }
  | .rep r => if 3 ≤ s.boot ∧ s.boot - 3 ≤ r.now then update s r else s
  | .fin sid => finish s sid
  | .sweep => sweep s

/-- The state after a history. -/
def run (evs : List Ev) : State := evs.foldl step {}

end Verif.Totals
