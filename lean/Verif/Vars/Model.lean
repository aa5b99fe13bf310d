import Verif.Text.Model

/-!
# Model of custom variables

`/repo/src/controller/controller_variables.cpp`: the variables in the configuration, their copy in shared memory that every process reads
when it replaces variables in texts, and the running of their targets. Simplifications: the variables are kept in the order in which they
were added (the program sorts them by name); numbers of seconds are given in whole milliseconds; the requests are given with the members
they contain already turned into strings and numbers; starting a program does not fail.
-/
namespace Verif.Vars
open Verif Verif.Text

/-- A variable in the configuration (controller_variables.cpp 139-168): the members it has. -/
structure Var where
  target : Option Bytes := none
  interval : Option Nat := none
  value : Option Bytes := none
  waitTime : Option Nat := none
  lastunix : Option Nat := none
  deriving DecidableEq, Repr

/-- A record of the page (controller_variables.cpp 119-124). -/
structure Rec where
  name : Bytes := []
  target : Bytes := []
  interval : Nat := 0
  lastRun : Nat := 0
  lastVal : Bytes := []
  waitTime : Nat := 0
  deriving DecidableEq, Repr

/-- The page: the records there is room for, and `getEndPos`. -/
structure Page where
  recs : List Rec
  endPos : Nat
  deriving DecidableEq, Repr

/-- The state of the controller: `Storage["variables"]`, the page (controller_variables.cpp 104, 117), `pageSize`, `mutateShm`,
`varExecs`, `varCollect` with the outputs, the downloads that are going on (`varDowners`), `Util::bootMS` and `Util::epoch`. -/
structure State where
  config : List (Bytes × Var) := []
  page : Option Page := none
  pageSize : Nat := 65536
  stale : Bool := true
  runs : List Bytes := []
  collect : List (Bytes × Bytes) := []
  gets : List Bytes := []
  boot : Nat
  unix : Nat
  deriving DecidableEq, Repr

/-- What a string field of the given size holds (util.cpp 1243-1251, read as a C string): at most `size - 1` bytes, up to the first
zero. -/
def cstr (size : Nat) (s : Bytes) : Bytes := (s.take (size - 1)).takeWhile (· ≠ 0)

/-- A 32 bit field (util.cpp 1270). -/
def u32 (n : Nat) : Nat := n % 4294967296

/-- The offset of the records after the six fields (util.cpp 33, 1168-1195; controller_variables.cpp 119-124). -/
def offset : Nat := 36 + (1 + 4 + 1) + (1 + 6 + 1) + (1 + 8 + 1) + (1 + 7 + 1) + (1 + 7 + 1) + (1 + 8 + 1)

/-- The size of a record (util.cpp 1195; controller_variables.cpp 119-124). -/
def recSize : Nat := 32 + 512 + 4 + 8 + 128 + 4

/-- `lastRun` of a record that is written (controller_variables.cpp 155-161). -/
def lastRunOf (boot unix : Nat) (v : Var) : Nat :=
  match v.lastunix with
  | some l => ((boot : Int) - ((l : Int) - (unix : Int)) * 1000).toNat
  | none => 0

/-- The record of a variable (controller_variables.cpp 141-173). -/
def recOf (boot unix : Nat) (e : Bytes × Var) : Rec :=
  ⟨cstr 32 e.1, cstr 512 (e.2.target.getD []), u32 (e.2.interval.getD 0), lastRunOf boot unix e.2, cstr 128 (e.2.value.getD []),
    u32 (e.2.waitTime.getD 0)⟩

/-- Writing record `i`: `RECORD_POINTER` wraps at the number of records (util.cpp 41). -/
def setRec (recs : List Rec) (i : Nat) (r : Rec) : List Rec := recs.set (i % recs.length) r

/-- The loop of `writeToShm` (controller_variables.cpp 139-175). -/
def fill : List Rec → Nat → List Rec → List Rec
  | recs, _, [] => recs
  | recs, i, r :: rest => fill (setRec recs i r) (i + 1) rest

/-- The size of the page to write (controller_variables.cpp 103-112): only looked at when there is a page already. -/
def nextSize (s : State) : Nat :=
  if s.page.isSome ∧ s.pageSize < offset + recSize * s.config.length then offset + recSize * s.config.length else s.pageSize

/-- `writeToShm` (controller_variables.cpp 101-180). -/
def writeToShm (s : State) : State :=
  { s with pageSize := nextSize s,
           page := some ⟨fill (List.replicate ((nextSize s - offset) / recSize) {}) 0 (s.config.map (recOf s.boot s.unix)), s.config.length⟩,
           stale := false }

/-- The record that is read for a number (util.cpp 41). -/
def Page.at (p : Page) (i : Nat) : Rec := p.recs.getD (i % p.recs.length) {}

/-- The records the readers go over (controller_variables.cpp 72-74; stream.cpp 169-170). -/
def Page.all (p : Page) : List Rec := (List.range p.endPos).map p.at

/-- The variable of a name in the configuration. -/
def find (config : List (Bytes × Var)) (name : Bytes) : Option Var := (config.find? (·.1 = name)).map (·.2)

/-- Changing the variable of a name, or adding it. -/
def put (f : Var → Var) (name : Bytes) : List (Bytes × Var) → List (Bytes × Var)
  | [] => [(name, f {})]
  | e :: rest => if e.1 = name then (name, f e.2) :: rest else e :: put f name rest

/-- The members of a request to add a variable that are there (controller_variables.cpp 186-231). -/
structure Req where
  target : Option Bytes := none
  interval : Option Nat := none
  value : Option Bytes := none
  waitTime : Option Nat := none
  deriving DecidableEq, Repr

/-- The members of the request replace those of the variable (controller_variables.cpp 195-208, 225-228). -/
def Req.apply (q : Req) (v : Var) : Var :=
  { v with target := q.target.or v.target, interval := q.interval.or v.interval, value := q.value.or v.value,
           waitTime := q.waitTime.or v.waitTime }

/-- `addVariable` (controller_variables.cpp 185-240): names are cut to 31 bytes. -/
def addVariable (s : State) (name : Bytes) (q : Req) : State :=
  writeToShm { s with config := put q.apply (name.take 31) s.config }

/-- `addVariable` with a list of more than five elements (controller_variables.cpp 209-213). -/
def addRefused (s : State) (name : Bytes) : State := { s with config := s.config.filter (·.1 ≠ name.take 31) }

/-- `removeVariableByName` (controller_variables.cpp 258-265). -/
def removeVariable (s : State) (name : Bytes) : State :=
  if (find s.config name).isSome then writeToShm { s with config := s.config.filter (·.1 ≠ name) } else s

/-- What is stored of the output of a target (controller_variables.cpp 328-332). -/
def trimmed (out : Bytes) : Bytes := (stringTrim out).take 127

/-- The first record of the name gets the value and the time (controller_variables.cpp 347-353), from record `i` on, `n` records. -/
def mutatePage (recs : List Rec) (name val : Bytes) (boot : Nat) : Nat → Nat → List Rec
  | _, 0 => recs
  | i, n + 1 =>
    if (recs.getD (i % recs.length) {}).name = name then
      setRec recs i { recs.getD (i % recs.length) {} with lastRun := boot, lastVal := cstr 128 val }
    else mutatePage recs name val boot (i + 1) n

/-- `mutateVariable` (controller_variables.cpp 327-356). -/
def mutateVariable (s : State) (name out : Bytes) : State :=
  { s with config := put (fun v => { v with lastunix := some s.unix, value := some (trimmed out) }) name s.config,
           stale := s.stale || s.page.isNone,
           page := s.page.map fun p => ⟨mutatePage p.recs name (trimmed out) s.boot 0 p.endPos, p.endPos⟩ }

/-- Whether the target is fetched and not executed (controller_variables.cpp 274). -/
def isUrl (target : Bytes) : Bool :=
  target.take 7 = [0x68, 0x74, 0x74, 0x70, 0x3a, 0x2f, 0x2f] ∨ target.take 8 = [0x68, 0x74, 0x74, 0x70, 0x73, 0x3a, 0x2f, 0x2f]

/-- A start of a target: the name, the target and the time it gets. -/
structure Start where
  name : Bytes
  target : Bytes
  wait : Nat
  deriving DecidableEq, Repr

/-- Whether the record is due (controller_variables.cpp 81). -/
def due (now : Nat) (r : Rec) : Bool := r.lastRun = 0 ∨ (r.interval ≠ 0 ∧ r.lastRun + r.interval ≤ now)

/-- The time the target gets (controller_variables.cpp 83-84). -/
def waitOf (r : Rec) : Nat := max 1000 (if r.waitTime = 0 then r.interval else r.waitTime)

/-- What the loop of `variableRun` changes: `varExecs`, `varDowners`, `nextCheck`, and what is started. -/
structure Loop where
  runs : List Bytes
  gets : List Bytes
  next : Nat
  starts : List Start
  deriving DecidableEq, Repr

/-- `nextCheck` is lowered (controller_variables.cpp 86, 90). -/
def lower (l : Loop) (r : Rec) (at_ : Nat) : Loop :=
  if r.interval ≠ 0 ∧ at_ < l.next then { l with next := at_ } else l

/-- One record in the loop of `variableRun` (controller_variables.cpp 72-92) with `runVariableTarget` (269-323). -/
def visit (now : Nat) (l : Loop) (r : Rec) : Loop :=
  if r.name = [] ∨ r.target = [] then l
  else if due now r then
    if isUrl r.target then
      if r.name ∈ l.gets then lower l r (now + r.interval)
      else { l with gets := l.gets ++ [r.name], starts := l.starts ++ [⟨r.name, r.target, waitOf r⟩] }
    else
      if r.name ∈ l.runs then lower l r (now + r.interval)
      else { l with runs := l.runs ++ [r.name], starts := l.starts ++ [⟨r.name, r.target, waitOf r⟩] }
  else lower l r (r.lastRun + r.interval)

/-- One collected output (controller_variables.cpp 42-58). -/
def collectOne (s : State) (e : Bytes × Bytes) : State :=
  if e.1 ∈ s.runs then { mutateVariable s e.1 e.2 with runs := s.runs.filter (· ≠ e.1) } else s

/-- The first part of `variableRun` (controller_variables.cpp 41-60). -/
def collectAll (s : State) : State := { s.collect.foldl collectOne s with collect := [] }

/-- The loop over the page (controller_variables.cpp 62-94). -/
def loopOf (s : State) : Loop :=
  ((s.page.map Page.all).getD []).foldl (visit s.boot) ⟨s.runs, s.gets, s.boot + 10000, []⟩

/-- The end of `variableRun` (controller_variables.cpp 95-96). -/
def flush (s : State) : State := if s.stale then writeToShm s else s

/-- `variableRun` (controller_variables.cpp 37-99). -/
def variableRun (s : State) : State :=
  flush { collectAll s with runs := (loopOf (collectAll s)).runs, gets := (loopOf (collectAll s)).gets }

/-- What `variableRun` starts. -/
def startsOf (s : State) : List Start := (loopOf (collectAll s)).starts

/-- What `variableRun` returns (controller_variables.cpp 97-98): in how many milliseconds it is to be called again. -/
def delayOf (s : State) : Nat := (loopOf (collectAll s)).next - s.boot

/-- What happens to the controller: the clocks move, requests to add (or with too many elements) and to remove, the timer goes off, a
program ends with an output (controller_variables.cpp 306-321), a download succeeds (280-282) or fails, the controller restarts
(controller.cpp 456, 573). -/
inductive Op where
  | clock (boot unix : Nat)
  | add (name : Bytes) (q : Req)
  | refused (name : Bytes)
  | remove (name : Bytes)
  | check
  | finish (name out : Bytes)
  | got (name data : Bytes)
  | failed (name : Bytes)
  | restart
  deriving DecidableEq, Repr

/-- One of these. -/
def step (s : State) : Op → State
  | .clock b u => { s with boot := b, unix := u }
  | .add n q => addVariable s n q
  | .refused n => addRefused s n
  | .remove n => removeVariable s n
  | .check => variableRun s
  | .finish n out => { s with collect := s.collect ++ [(n, out)] }
  | .got n data => if n ∈ s.gets then { mutateVariable s n data with gets := s.gets.filter (· ≠ n) } else s
  | .failed n => { s with gets := s.gets.filter (· ≠ n) }
  | .restart => { config := s.config, boot := s.boot, unix := s.unix }

/-- A history. -/
def run (s : State) (ops : List Op) : State := ops.foldl step s

end Verif.Vars
