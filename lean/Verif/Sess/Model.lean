import Verif.Base.Bytes

/-!
# Model of the accounting of a session

`/repo/src/session.cpp` (`userOnActive`, `userOnDisconnect`, the main loop), the macro `COMM_LOOP` (`/repo/lib/comms.h` 9-27) and the side of the
connections (`/repo/lib/comms.cpp` 60-70, 135-185, 462-500; `/repo/src/output/output.cpp` 2734-2834). Connections and the session are different processes that
share one table; every step below is one read or write of the shared memory by the session, or one update by a connection. Simplifications: of the
five counters (bytes down and up, packets, lost and sent again), which are handled alike, there is one; counters are numbers without bound; the loop
runs over all records of the table.
-/
namespace Verif.Sess

/-- The status of a record (`COMM_STATUS_INVALID`, `COMM_STATUS_ACTIVE`, and with `COMM_STATUS_DISCONNECT`). -/
inductive Status where
  | invalid
  | active
  | gone
  deriving DecidableEq

/-- A record of the shared table (comms.cpp 470-484), whether its process runs, and what the session has kept of it (`connDown`, session.cpp 31; zero when
there is no entry). -/
structure Slot where
  status : Status := .invalid
  alive : Bool := false
  now : Nat := 0
  down : Nat := 0
  kept : Nat := 0
  deriving DecidableEq

/-- Where the session is in its loop: the number of the record, and the status `s` that was read (whether it has `COMM_STATUS_DISCONNECT`). -/
inductive Phase where
  | idle
  | top (i : Nat)
  | look (i : Nat) (gone : Bool)
  | check (i : Nat) (gone : Bool)
  | add (i : Nat) (gone : Bool)
  | store (i : Nat) (gone : Bool)
  | finish (i : Nat) (gone : Bool)
  | over
  deriving DecidableEq

/-- The table, the phase, the time of the pass (`now`), the total (`globalDown`), the kind of session (`thisType == 1`), and, for the statements, the sum of
all that connections reported. -/
structure State where
  slots : List Slot
  phase : Phase := .idle
  now : Nat := 0
  total : Nat := 0
  input : Bool := false
  sent : Nat := 0
  deriving DecidableEq

/-- What happens: a connection takes a record, sets the time, reports more bytes, lets go of the record, or its process ends without that; the session starts
a pass, takes the next step, or ends. -/
inductive Op where
  | open (i : Nat)
  | stamp (i : Nat) (t : Nat)
  | send (i : Nat) (n : Nat)
  | close (i : Nat)
  | die (i : Nat)
  | pass (t : Nat)
  | turn
  | quit

/-- comms.cpp 170-180, 486-499: the fields are set to zero before the record gets active. -/
def opened (x : Slot) : Slot := if x.status = .invalid then { x with status := .active, alive := true, now := 0, down := 0 } else x

/-- A record belongs to a running connection. -/
def Slot.live (x : Slot) : Bool := x.status = .active && x.alive

/-- session.cpp 55: `lastUpdate < now - 10` in unsigned arithmetic of 64 bits, where `now - 10` is larger than any time if `now < 10`. -/
def stale (now : Nat) (x : Slot) : Bool := now < 10 || x.now + 10 < now

/-- One step of the session. -/
def turn (s : State) : State :=
  match s.phase with
  | .idle => s
  | .over => s
  | .top i =>
    match s.slots[i]? with
    | none => { s with phase := .idle }
    | some x =>
      -- comms.h 14-18
      if x.status = .invalid then { s with phase := .top (i + 1) }
      else if x.status = .active ∧ x.alive = false then
        { s with phase := .look i false, slots := s.slots.modify i fun x => { x with status := .gone } }
      else { s with phase := .look i (x.status = .gone) }
  | .look i g =>
    -- session.cpp 54-55
    match s.slots[i]? with
    | none => s
    | some x => if stale s.now x = true ∧ s.input = false then { s with phase := .finish i g } else { s with phase := .check i g }
  | .check i g =>
    -- session.cpp 76-79
    { s with phase := .add i g, slots := s.slots.modify i fun x => if x.down < x.kept then { x with kept := x.down } else x }
  | .add i g =>
    -- session.cpp 97
    match s.slots[i]? with
    | none => s
    | some x => { s with phase := .store i g, total := s.total + (x.down - x.kept) }
  | .store i g =>
    -- session.cpp 104
    { s with phase := .finish i g, slots := s.slots.modify i fun x => { x with kept := x.down } }
  | .finish i g =>
    -- session.cpp 112-119, comms.h 20-23
    if g = true then { s with phase := .top (i + 1), slots := s.slots.modify i fun x => { x with status := .invalid, kept := 0 } }
    else { s with phase := .top (i + 1) }

/-- The state after a step. -/
def step (s : State) : Op → State
  | .open i => { s with slots := s.slots.modify i opened }
  | .stamp i t => { s with slots := s.slots.modify i fun x => if x.live then { x with now := t } else x }
  | .send i n =>
    -- output.cpp 2830-2834: the counter of the connection is written, which only grows
    match s.slots[i]? with
    | none => s
    | some x => if x.live then { s with slots := s.slots.modify i fun x => { x with down := x.down + n }, sent := s.sent + n } else s
  | .close i => { s with slots := s.slots.modify i fun x => if x.live then { x with status := .gone, alive := false } else x }
  | .die i => { s with slots := s.slots.modify i fun x => { x with alive := false } }
  | .pass t => if s.phase = .idle then { s with phase := .top 0, now := t } else s
  | .turn => turn s
  | .quit => { s with phase := .over }

/-- The state after a history, of a session with a table of `n` records. -/
def run (n : Nat) (input : Bool) (ops : List Op) : State := ops.foldl step { slots := List.replicate n {}, input := input }

end Verif.Sess
