import Verif.Base.Strings

/-!
# Model of the load balancer (`/repo/src/utils/util_load.cpp`)

Simplifications: numbers in reports are not negative, as the reports of servers have them; the score for the distance
(`weight_geo - weight_geo * geoDist(…)`, floating point, 76-80, 250-253) is a number that is given, whatever it is; the factors 1.2 and 0.75
(150, 437) are applied exactly and rounded down, which is what they do to numbers below 2^50. Each method of a host holds its lock, so they
are steps.
-/
namespace Verif.Load

/-- util_load.cpp 20-24. -/
structure Weights where
  cpu : Nat := 500
  ram : Nat := 500
  bw : Nat := 1000
  bonus : Nat := 50

/-- util_load.cpp 47-55. -/
structure Stream where
  total : Nat := 0
  inputs : Nat := 0
  bandwidth : Nat := 0
  prevTotal : Nat := 0
  bytesUp : Nat := 0
  bytesDown : Nat := 0
  rep : Bool := false
  deriving DecidableEq

/-- util_load.cpp 104-150. `bin` is its address. -/
structure Host where
  name : Bytes := []
  bin : Bytes := []
  streams : List (Bytes × Stream) := []
  conf : List Bytes := []
  tags : List Bytes := []
  outputs : List (Bytes × (Bytes × Bytes)) := []
  cpu : Nat := 1000
  ramMax : Nat := 0
  ramCurr : Nat := 0
  up : Nat := 0
  down : Nat := 0
  total : Nat := 0
  upPrev : Nat := 0
  downPrev : Nat := 0
  prevTime : Nat := 0
  add : Nat := 0
  avail : Nat := 128 * 1024 * 1024
  deriving DecidableEq

/-- util_load.cpp 35-40. -/
inductive State where
  | off | boot | error | online | godown | reqclean
  deriving DecidableEq

/-- util_load.cpp 437-443: an entry of the list of hosts. -/
structure Entry where
  state : State
  host : Host
  deriving DecidableEq

/-! ## Scores -/

/-- Subtraction of numbers of 64 bits. -/
def sub64 (a b : Nat) : Nat := (a + (2 ^ 64 - b % 2 ^ 64)) % 2 ^ 64

/-- util_load.cpp 92-98: looks whether one of the names, with commas between them, is a tag; `cur` is the name so far, backwards. -/
def anyTag (tags : List Bytes) : Bytes → Bytes → Bool
  | [], cur => decide (cur.reverse ∈ tags)
  | c :: l, cur => if c = 44 then decide (cur.reverse ∈ tags) || anyTag tags l [] else anyTag tags l (c :: cur)

/-- util_load.cpp 82-102. -/
def applyAdjustment (tags : List Bytes) (m : Bytes) (adj : Int) : Int :=
  match m with
  | [] => 0
  | c :: l => if c = 45 then (if anyTag tags l [] = false then adj else 0) else (if anyTag tags (c :: l) [] = true then adj else 0)

/-- util_load.cpp 256-261, 299-304. -/
def adjustment (tags : List Bytes) (adj : List (Bytes × Int)) : Int := (adj.map fun a => applyAdjustment tags a.1 a.2).sum

/-- util_load.cpp 262-266, 305-309. -/
def adjusted (score : Nat) (a : Int) : Nat := if a ≥ 0 ∨ -a < score then ((score + a) % 2 ^ 64).toNat else 0

/-- util_load.cpp 248, 291. -/
def cpuScore (W : Weights) (h : Host) : Nat := sub64 W.cpu (h.cpu * W.cpu % 2 ^ 64 / 1000)
/-- util_load.cpp 249, 292. -/
def ramScore (W : Weights) (h : Host) : Nat := sub64 W.ram (h.ramCurr * W.ram % 2 ^ 64 / h.ramMax)
/-- util_load.cpp 250, 293. -/
def bwScore (W : Weights) (h : Host) : Nat := sub64 W.bw ((h.up + h.add) % 2 ^ 64 * W.bw % 2 ^ 64 / h.avail)

/-- `s.substr(0, s.find_first_of("+ "))` (243). -/
def base (s : Bytes) : Bytes := s.takeWhile fun c => c ≠ 43 ∧ c ≠ 32

/-- util_load.cpp 228-273: the score of a host for a viewer of stream `s`; `geo` is the score for the distance. -/
def rate (W : Weights) (h : Host) (s : Bytes) (geo : Nat) (adj : List (Bytes × Int)) : Nat :=
  if h.ramMax = 0 ∨ h.avail = 0 then 0
  else if h.up ≥ h.avail ∨ (h.up + h.add) % 2 ^ 64 ≥ h.avail then 0
  else if h.conf ≠ [] ∧ s ∉ h.conf ∧ base s ∉ h.conf then 0
  else adjusted ((cpuScore W h + ramScore W h + bwScore W h + geo + (if (h.streams.lookup s).isSome then W.bonus else 0)) % 2 ^ 64)
    (adjustment h.tags adj)

/-- util_load.cpp 274-316: the score of a host as a source of stream `s`, or as an ingest point if `s` is empty. -/
def source (W : Weights) (h : Host) (s : Bytes) (geo : Nat) (adj : List (Bytes × Int)) (minCpu : Nat) : Nat :=
  if s ≠ [] ∧ (match h.streams.lookup s with | none => true | some x => x.inputs == 0 || x.rep) = true then 0
  else if h.ramMax = 0 ∨ h.avail = 0 then 1
  else if h.up ≥ h.avail ∨ (h.up + h.add) % 2 ^ 64 ≥ h.avail then 1
  else if minCpu ≠ 0 ∧ h.cpu + minCpu ≥ 1000 then 0
  else adjusted ((cpuScore W h + ramScore W h + bwScore W h + geo + 1) % 2 ^ 64) (adjustment h.tags adj)

/-! ## Choice -/

/-- util_load.cpp 631-643, 680-688, 764-772: goes over the hosts, from number `i` on; the best so far and its score. `f` is the score,
nothing for hosts that are passed over. -/
def best (f : Nat → Entry → Option Nat) : List Entry → Nat → Option Nat × Nat → Option Nat × Nat
  | [], _, r => r
  | e :: l, i, r =>
    match f i e with
    | none => best f l (i + 1) r
    | some score => best f l (i + 1) (if score > r.2 then (some i, score) else r)

/-- util_load.cpp 32-33, 766-767: the score of an entry for a viewer. -/
def rated (W : Weights) (s : Bytes) (geo : Nat → Nat) (adj : List (Bytes × Int)) (i : Nat) (e : Entry) : Option Nat :=
  if e.state = .online then some (rate W e.host s (geo i) adj) else none

/-- util_load.cpp 763-776: the host for a viewer, if there is one. -/
def choose (W : Weights) (E : List Entry) (s : Bytes) (geo : Nat → Nat) (adj : List (Bytes × Int)) : Option Nat :=
  let r := best (rated W s geo adj) E 0 (none, 0)
  if r.2 = 0 then none else r.1

/-- util_load.cpp 633-638: the score of an entry as a source; one with the address of the client is passed over. -/
def sourced (W : Weights) (s : Bytes) (geo : Nat → Nat) (adj : List (Bytes × Int)) (client : Bytes) (i : Nat) (e : Entry) : Option Nat :=
  if e.state = .online ∧ e.host.bin ≠ client then some (source W e.host s (geo i) adj 0) else none

/-- util_load.cpp 613-653: the source for a stream. The request was cleaned before (482), so that no tags, latitude or longitude are
found in it: `tag_adjust`, `X-Tag-Adjust`, `lat`, `lon`, `X-Latitude` and `X-Longitude` have no effect, and the distance scores zero. -/
def chooseSource (W : Weights) (E : List Entry) (s client : Bytes) (_geo : Nat → Nat) (_adj : List (Bytes × Int)) : Option Nat :=
  let r := best (sourced W s (fun _ => 0) [] client) E 0 (none, 0)
  if r.2 = 0 then none else r.1

/-- util_load.cpp 661-698: the ingest point, for an expected use of the processor (in tenths of a percent). Tags and places have no
effect either. -/
def chooseIngest (W : Weights) (E : List Entry) (cpu : Nat) (_geo : Nat → Nat) (_adj : List (Bytes × Int)) : Option Nat :=
  let r := best (fun _ e => if e.state = .online then some (source W e.host [] 0 [] cpu) else none) E 0 (none, 0)
  if r.2 = 0 then none else r.1

/-! ## What is known of a host -/

/-- util_load.cpp 324-341: the bandwidth that is set aside for a new viewer. -/
def viewerCost (h : Host) (s : Bytes) : Nat :=
  let toAdd := match h.streams.lookup s with
    | some x => x.bandwidth
    | none => if h.total ≠ 0 then (h.up + h.down) % 2 ^ 64 / h.total else 131072
  let toAdd := if toAdd < 64 * 1024 then 64 * 1024 else toAdd
  if toAdd > 1024 * 1024 then 1024 * 1024 else toAdd

/-- util_load.cpp 324-341. -/
def addViewer (h : Host) (s : Bytes) : Host := { h with add := (h.add + viewerCost h s) % 2 ^ 64 }

/-- util_load.cpp 151-156. -/
def badNess (h : Host) : Host := { h with add := (h.add + 1024 * 1024) % 2 ^ 64 * 6 / 5 }

/-- A stream in a report: viewers, inputs, outputs, bytes up and down, and whether it has the member `rep`. -/
structure RStream where
  viewers : Nat
  inputs : Nat
  outputs : Nat
  up : Nat
  down : Nat
  rep : Bool
  deriving DecidableEq

/-- The report of a server, as far as it is used; members that are missing are zero or empty (JSON objects have every name once). -/
structure Report where
  cpu : Nat
  bwlimit : Nat
  memTotal : Nat
  memUsed : Nat
  shmTotal : Nat
  shmUsed : Nat
  tags : Option (List Bytes)
  viewers : Nat
  up : Nat
  down : Nat
  streams : List (Bytes × RStream)
  conf : List Bytes
  outputs : List (Bytes × (Bytes × Bytes))

/-- util_load.cpp 352-355, 364-372: the memory, ordinary or shared, that is scarcer. -/
def memory (d : Report) : Nat × Nat :=
  let ramMax := if d.memTotal = 0 then 1 else d.memTotal
  let shmMax := if d.shmTotal = 0 then 1 else d.shmTotal
  if (d.memUsed + d.shmUsed) * 1000 / ramMax > d.shmUsed * 1000 / shmMax then (ramMax, d.memUsed + d.shmUsed) else (shmMax, d.shmUsed)

/-- The entry of a name in a map. -/
def setStream (l : List (Bytes × Stream)) (k : Bytes) (x : Stream) : List (Bytes × Stream) := (k, x) :: l.filter fun p => p.1 ≠ k

/-- util_load.cpp 388-411: one stream of a report. -/
def takeStream (timeDiff total up down : Nat) (l : List (Bytes × Stream)) (r : Bytes × RStream) : List (Bytes × Stream) :=
  let count := (r.2.viewers + r.2.inputs + r.2.outputs) % 2 ^ 64
  if count = 0 then l.filter fun p => p.1 ≠ r.1
  else
    let old := (l.lookup r.1).getD {}
    let currTotal := (r.2.up + r.2.down) % 2 ^ 64
    let bandwidth := if timeDiff ≠ 0 then sub64 currTotal old.prevTotal / timeDiff / count
      else if total ≠ 0 then (up + down) % 2 ^ 64 / total else (up + down) % 2 ^ 64 + 100000
    setStream l r.1 ⟨r.2.viewers, r.2.inputs % 2 ^ 32, bandwidth % 2 ^ 32, currTotal, r.2.up, r.2.down, r.2.rep⟩

/-- util_load.cpp 387-424: all streams of a report. -/
def takeStreams (timeDiff total up down : Nat) (l : List (Bytes × Stream)) (d : List (Bytes × RStream)) : List (Bytes × Stream) :=
  if d = [] then []
  else (d.foldl (takeStream timeDiff total up down) l).filter fun p => (d.lookup p.1).isSome

/-- util_load.cpp 342-434: takes a report at time `now` (in seconds). -/
def update (h : Host) (d : Report) (now : Nat) : Host :=
  let timeDiff := if h.prevTime ≠ 0 then sub64 now h.prevTime else 0
  let up := if timeDiff ≠ 0 then sub64 d.up h.upPrev / timeDiff else h.up
  let down := if timeDiff ≠ 0 then sub64 d.down h.downPrev / timeDiff else h.down
  { h with
    cpu := d.cpu
    avail := if d.bwlimit ≠ 0 then d.bwlimit else h.avail
    tags := match d.tags with | some t => t.filter (· ≠ []) | none => h.tags
    ramMax := (memory d).1
    ramCurr := (memory d).2
    total := d.viewers
    up := up
    down := down
    prevTime := now
    upPrev := d.up
    downPrev := d.down
    streams := takeStreams timeDiff d.viewers up down h.streams d.streams
    conf := d.conf
    outputs := d.outputs
    add := h.add * 3 / 4 }

/-- util_load.cpp 600-606: the number of viewers of a stream on all hosts (which are not off). -/
def viewers (E : List Entry) (s : Bytes) : Nat :=
  ((E.filter fun e => e.state ≠ .off).map fun e => match e.host.streams.lookup s with | some x => x.total | none => 0).sum % 2 ^ 64

/-! ## Requests and polls as steps -/

/-- What happens to the list of hosts: a viewer asks for a stream; a poll of a host succeeds or fails. -/
inductive Op where
  | view (s : Bytes) (geo : Nat → Nat) (adj : List (Bytes × Int))
  | report (i : Nat) (d : Report) (now : Nat)
  | failed (i : Nat)

/-- util_load.cpp 763-780, 820-845: the list after a step. -/
def step (W : Weights) (E : List Entry) : Op → List Entry
  | .view s geo adj =>
    match choose W E s geo adj with
    | none => E
    | some i => E.modify i fun e => { e with host := addViewer e.host s }
  | .report i d now => E.modify i fun e => { e with state := .online, host := update e.host d now }
  | .failed i => E.modify i fun e => { e with state := .error, host := badNess e.host }

end Verif.Load
