/-!
# Model of the shared client tables (`/repo/lib/comms.cpp`, `/repo/lib/comms.h`)

A client table is a page of shared memory with one record per client, a semaphore, a number of clients in any number of
processes that each look for a free record, and one master that watches the records. The model is a transition system:
one step is one access to shared memory or one semaphore operation, of any client or of the master, in any order.
A process may die between any two steps.

Simplifications: memory is sequentially consistent; the semaphore is a counter that no one else touches (the master
removing it together with the page at the end is not modelled); fields of a record other than `status` and `pid` are left
out; creating and resizing the page is left out; a process whose number is given to another process is left out.
-/
namespace Verif.Shm

/-- One entry of a function changed: a store to memory. -/
def upd {α : Type} (f : Nat → α) (i : Nat) (v : α) : Nat → α := fun k => if k = i then v else f k

/-- Where a client (an object of class `Comms::Comms`) is. The record number is the member `index`. -/
inductive CPc where
  | idle
  /-- comms.cpp 170-171: about to read the status of record `i` -/
  | scan (i : Nat)
  /-- comms.cpp 172: about to wait for the semaphore -/
  | want (i : Nat)
  /-- comms.cpp 173: has the semaphore, about to read the status again -/
  | chk (i : Nat)
  /-- comms.cpp 173 (`continue`): about to give the semaphore back -/
  | skip (i : Nat)
  /-- comms.cpp 174, 68-70: about to write its process number -/
  | null (i : Nat)
  /-- comms.cpp 175: about to write the status -/
  | mark (i : Nat)
  /-- comms.cpp 177: about to compare the end position -/
  | endp (i : Nat)
  /-- comms.cpp 177: about to write the end position -/
  | endw (i : Nat)
  /-- comms.cpp 178: about to give the semaphore back -/
  | post (i : Nat)
  /-- registered -/
  | own (i : Nat)
  /-- comms.cpp 51 and 466: read the status `s`, about to write it back -/
  | rel (i : Nat) (s : UInt8)
  /-- released -/
  | done (i : Nat)
  /-- comms.cpp 51: released before (input_ts.cpp 162) and now destroyed; read the status `s`, about to write it back -/
  | drel (i : Nat) (s : UInt8)
  | fail
  deriving DecidableEq

/-- Where the master is. -/
inductive MPc where
  | idle
  /-- comms.h 13-15: about to read the status of record `id` -/
  | pass (id rc mx : Nat)
  /-- comms.h 16: about to look at the process; it read the status `s` -/
  | pid (id rc mx : Nat) (s : UInt8)
  /-- comms.h 17: about to mark the record as disconnected -/
  | kill (id rc mx : Nat) (s : UInt8)
  /-- comms.h 22: about to free the record -/
  | clear (id rc mx : Nat)
  /-- comms.h 26 -/
  | cut (rc mx : Nat)
  /-- comms.cpp 82: has the semaphore -/
  | cutl (rc mx : Nat)
  /-- comms.cpp 84: about to give the semaphore back -/
  | cutu
  /-- comms.cpp 108-109: about to read the status of record `id` -/
  | fin (id : Nat)
  /-- comms.cpp 117: about to read the status again -/
  | finr (id : Nat)
  /-- comms.cpp 117: about to write the status -/
  | finw (id : Nat) (s : UInt8)
  deriving DecidableEq

/-- The table and everyone using it. -/
structure Table where
  status : Nat → UInt8
  pid : Nat → Nat
  endPos : Nat
  sem : Nat
  pc : Nat → CPc
  m : MPc
  alive : Nat → Bool

/-- What does not change: the number of records, the process a client is in, `defaultCommFlags` (comms.cpp 19), and
whether clients that were explicitly released are destroyed as well (as in input_ts.cpp 162-163). -/
structure Cfg where
  count : Nat
  pidOf : Nat → Nat
  flags : UInt8
  twice : Bool

/-- A fresh table (comms.cpp 146-154; the semaphore starts at 1, comms.cpp 263). -/
def Table.init : Table := ⟨fun _ => 0, fun _ => 0, 1, 1, fun _ => .idle, .idle, fun _ => true⟩

/-- What a client may do next. `go` follows the program; the other two are up to the client. -/
inductive CAct where
  | go
  | release
  | set (v : UInt8)
  deriving DecidableEq

/-- What the master may do next. -/
inductive MAct where
  | go
  | pass
  | finish
  deriving DecidableEq

inductive Act where
  | client (c : Nat) (a : CAct)
  | master (a : MAct)
  | crash (p : Nat)
  deriving DecidableEq

/-- One step of client `c`: `Comms::reload` (comms.cpp 168-184) from `idle` to `own`; any change of its own status that
does not release it (`setStatus`, comms.cpp 88); `~Comms` or `unload` (comms.cpp 49-52, 464-467) from `own` to `done`. -/
def clientStep (k : Cfg) (t : Table) (c : Nat) (a : CAct) : Option Table :=
  match t.pc c, a with
  | .idle, .go => some { t with pc := upd t.pc c (.scan 0) }
  | .scan i, .go =>
    if i < k.count then
      if t.status i = 0 then some { t with pc := upd t.pc c (.want i) }
      else some { t with pc := upd t.pc c (.scan (i + 1)) }
    else some { t with pc := upd t.pc c .fail }
  | .want i, .go => if t.sem = 0 then none else some { t with sem := t.sem - 1, pc := upd t.pc c (.chk i) }
  | .chk i, .go =>
    if t.status i = 0 then some { t with pc := upd t.pc c (.null i) } else some { t with pc := upd t.pc c (.skip i) }
  | .skip i, .go => some { t with sem := t.sem + 1, pc := upd t.pc c (.scan (i + 1)) }
  | .null i, .go => some { t with pid := upd t.pid i (k.pidOf c), pc := upd t.pc c (.mark i) }
  | .mark i, .go => some { t with status := upd t.status i (1 ||| k.flags), pc := upd t.pc c (.endp i) }
  | .endp i, .go =>
    if t.endPos ≤ i then some { t with pc := upd t.pc c (.endw i) } else some { t with pc := upd t.pc c (.post i) }
  | .endw i, .go => some { t with endPos := i + 1, pc := upd t.pc c (.post i) }
  | .post i, .go => some { t with sem := t.sem + 1, pc := upd t.pc c (.own i) }
  | .own i, .set v => if v ≠ 0 ∧ v &&& 0x20 = 0 then some { t with status := upd t.status i v } else none
  | .own i, .release => some { t with pc := upd t.pc c (.rel i (t.status i)) }
  | .rel i s, .go => some { t with status := upd t.status i (0x20 ||| s), pc := upd t.pc c (.done i) }
  | .done i, .release => if k.twice then some { t with pc := upd t.pc c (.drel i (t.status i)) } else none
  | .drel i s, .go => some { t with status := upd t.status i (0x20 ||| s), pc := upd t.pc c .fail }
  | _, _ => none

/-- One step of the master: `COMM_LOOP` (comms.h 10-27) and `Comms::finishAll` (comms.cpp 108-118, one round). -/
def masterStep (t : Table) (a : MAct) : Option Table :=
  match t.m, a with
  | .idle, .pass => some { t with m := .pass 0 t.endPos 0 }
  | .idle, .finish => some { t with m := .fin 0 }
  | .pass id rc mx, .go =>
    if id < rc then
      if t.status id = 0 then some { t with m := .pass (id + 1) rc mx }
      else if t.status id &&& 0x20 = 0 then some { t with m := .pid id rc mx (t.status id) }
      else some { t with m := .clear id rc mx }
    else some { t with m := .cut rc mx }
  | .pid id rc mx s, .go =>
    if t.pid id ≠ 0 ∧ t.alive (t.pid id) = false then some { t with m := .kill id rc mx s }
    else some { t with m := .pass (id + 1) rc id }
  | .kill id rc _ s, .go => some { t with status := upd t.status id (0x20 ||| s), m := .pass (id + 1) rc id }
  | .clear id rc _, .go => some { t with status := upd t.status id 0, m := .pass (id + 1) rc id }
  | .cut rc mx, .go =>
    if mx + 1 < rc then
      if t.sem = 0 then none else some { t with sem := t.sem - 1, m := .cutl rc mx }
    else some { t with m := .idle }
  | .cutl rc mx, .go => some { t with endPos := if t.endPos ≤ rc then mx + 1 else t.endPos, m := .cutu }
  | .cutu, .go => some { t with sem := t.sem + 1, m := .idle }
  | .fin id, .go =>
    if id < t.endPos then
      if t.status id = 0 ∨ t.status id &&& 0x20 ≠ 0 then some { t with m := .fin (id + 1) }
      else some { t with m := .finr id }
    else some { t with m := .idle }
  | .finr id, .go => some { t with m := .finw id (t.status id) }
  | .finw id s, .go => some { t with status := upd t.status id (0x10 ||| s), m := .fin (id + 1) }
  | _, _ => none

/-- One step of anyone. Dead processes do nothing. -/
def step (k : Cfg) (t : Table) : Act → Option Table
  | .client c a => if t.alive (k.pidOf c) then clientStep k t c a else none
  | .master a => masterStep t a
  | .crash p => some { t with alive := upd t.alive p false }

/-- A schedule; `none` if some step of it is not possible. -/
def run (k : Cfg) (t : Table) : List Act → Option Table
  | [] => some t
  | a :: r => (step k t a).bind fun t' => run k t' r

end Verif.Shm
