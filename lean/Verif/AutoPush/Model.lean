import Verif.Base.Strings
import Verif.Text.Model
import Verif.Http.Model

/-!
# Model of automatic pushes

`/repo/src/controller/controller_push.cpp` (all but the parsing of requests by `makePushObject`, 50-100, and the shared page, 231-286,
which is in `Verif/AutoPush/Page.lean`), `streamMatches` and `getActiveStreams` of `/repo/src/controller/controller_statistics.cpp`
(251-275, 627-645), `Util::stringToBool` (`/repo/lib/bitfields.cpp` 65-73) and the iterator of `/repo/lib/json.cpp` (52-88).

Simplifications: what the controller sees of the rest of the world during one operation (time, streams, tags, values of variables, the
outcome of starting a process) is an `Env`, constant during that operation; processes end between operations. A settings member of the
wrong type reads as its default in the program; here members have their types. The status and log texts of pushes and the waiting for
the list to be read after a start of the controller are left out. An inhibitor that is a single string is a list of one.
-/
namespace Verif.AutoPush

/-! ## Conditions -/

/-- `strcmp(a.c_str(), b.c_str())` (controller_push.cpp 340): negative, zero or positive as −1, 0, 1; a zero byte ends a string. -/
def strcmp : Bytes → Bytes → Int
  | [], [] => 0
  | [], b :: _ => if b = 0 then 0 else -1
  | a :: _, [] => if a = 0 then 0 else 1
  | a :: s, b :: t => if a < b then -1 else if b < a then 1 else if a = 0 then 0 else strcmp s t

/-- `Util::stringToBool` (bitfields.cpp 65-73): the first four characters that are no white space, in lower case. -/
def stringToBool (s : Bytes) : Bool :=
  let tmp := ((s.filter fun c => !Http.space c).take 4).map Http.lower
  List.isPrefixOf [0x31] tmp || List.isPrefixOf [0x79, 0x65, 0x73] tmp || tmp == [0x74, 0x72, 0x75, 0x65] || tmp == [0x63, 0x6F, 0x6E, 0x74]

/-- `checkCondition` on integers (controller_push.cpp 319-338). -/
def checkInt (cur : Int) (op : Nat) (val : Int) : Bool :=
  if op = 10 then decide (val < cur)
  else if op = 11 then decide (val ≤ cur)
  else if op = 12 then decide (cur < val)
  else if op = 13 then decide (cur ≤ val)
  else false

/-- `checkCondition` on strings (controller_push.cpp 339-359). -/
def checkStr (cur : Bytes) (op : Nat) (val : Bytes) : Bool :=
  if op = 20 then decide (strcmp cur val > 0)
  else if op = 21 then decide (strcmp cur val ≥ 0)
  else if op = 22 then decide (strcmp cur val < 0)
  else if op = 23 then decide (strcmp cur val ≤ 0)
  else false

/-- `checkCondition` on two JSON strings (controller_push.cpp 303-318), which is how `checkPushRule` calls it. -/
def checkCondition (cur : Bytes) (op : Nat) (val : Bytes) : Bool :=
  if op = 0 then stringToBool cur
  else if op = 1 then !stringToBool cur
  else if op = 2 then cur == val
  else if op = 3 then cur != val
  else if op ≥ 10 ∧ op < 20 then checkInt (Http.atoll cur) op (Http.atoll val)
  else checkStr cur op val

/-! ## The world -/

/-- A rule with its three elements: the name of a variable, the operator and the value. -/
structure Rule where
  name : Bytes
  op : Int
  value : Bytes
deriving DecidableEq, Repr

/-- What an operation sees of the rest of the system. -/
structure Env where
  /-- `Util::epoch()` -/
  now : Int
  /-- The streams in state ready, in the order of a `std::set`. -/
  ready : List Bytes
  /-- Whether a stream has a tag. -/
  tagged : Bytes → Bytes → Bool
  /-- `Util::streamVariables(text, stream)`: the text after replacement and whether anything was replaced. -/
  expand : Bytes → Bytes → Bytes × Bool
  /-- `Util::startPush(stream, target)` while some processes run: the new process and the final target, `none` when it could not be
  started. -/
  spawn : List Nat → Bytes → Bytes → Option (Nat × Bytes)

/-- An entry of `auto_push`: its key and its members; `none` for a member that is absent. A rule that is no array of three elements
is `some none`. -/
structure Entry where
  key : Bytes
  stream : Option Bytes
  target : Option Bytes
  schedule : Option Int := none
  complete : Option Int := none
  startRule : Option (Option Rule) := none
  endRule : Option (Option Rule) := none
  inhibit : List Bytes := []
deriving DecidableEq, Repr

/-- A push in the list of active pushes. -/
structure Push where
  pid : Nat
  stream : Bytes
  orig : Bytes
  target : Bytes
deriving DecidableEq, Repr

/-- What can be seen from outside: starts of pushes, signals sent to processes and reports that a push ended (`PUSH_END`). -/
inductive Event where
  | started (pid : Nat) (stream orig : Bytes)
  | term (pid : Nat)
  | hup (pid : Nat)
  | ended (pid : Nat) (stream : Bytes)
deriving DecidableEq, Repr

/-- The state of the controller that matters here, with the processes that run on the machine. `waiting` is 0 where the map has no
entry. -/
structure State where
  auto : List Entry := []
  wait : Int := 0
  speed : Int := 0
  pushes : List Push := []
  waiting : Bytes → Bytes → Nat := fun _ _ => 0
  procs : List Nat := []
  log : List Event := []

/-! ## Matching of streams and rules -/

/-- `Controller::streamMatches` (controller_statistics.cpp 251-275). Where the tags of a stream come from is left to `tagged`. -/
def streamMatches (env : Env) (stream pat : Bytes) : Bool :=
  if stream = pat then true
  else if pat.getLast? = some 0x2B ∧ stream.take pat.length = pat then true
  else match pat with
    | 0x23 :: tag => env.tagged stream tag
    | _ => false

/-- `Controller::getActiveStreams` (controller_statistics.cpp 627-645). -/
def getActiveStreams (env : Env) (pat : Bytes) : List Bytes :=
  if pat ≠ [] then env.ready.filter fun n => streamMatches env n pat else env.ready

/-- `checkPushRule` (controller_push.cpp 362-378); the operator is cut to eight bits by the call. -/
def checkPushRule (env : Env) (stream : Bytes) : Option Rule → Bool
  | none => false
  | some r =>
    let v := env.expand stream (0x24 :: r.name)
    if !v.2 then false
    else checkCondition v.1 (r.op % 256).toNat (if r.value ≠ [] then (env.expand stream r.value).1 else r.value)

/-- The test of both rules (controller_push.cpp 390-398), also in `doAutoPush` (629-630). -/
def rulesHold (env : Env) (stream : Bytes) (e : Entry) : Bool :=
  if (match e.endRule with | some r => checkPushRule env stream r | none => false) then false
  else match e.startRule with
    | some r => checkPushRule env stream r
    | none => true

/-- `checkPush` (controller_push.cpp 380-399). -/
def checkPush (env : Env) (stream0 : Bytes) (e : Entry) : Bool :=
  let stream := Text.sanitizeName stream0
  if (match e.schedule with | some t => decide (stream.getLast? ≠ some 0x2B ∧ t > env.now) | none => false) then false
  else rulesHold env stream e

/-- The test of the inhibitors (controller_push.cpp 454-469, 608-623). -/
def inhibited (env : Env) (e : Entry) (stream : Bytes) : Bool := e.inhibit.any fun p => streamMatches env stream p

/-! ## The list of active pushes -/

/-- `activePushes[p.pid] = p` on a map ordered by process. -/
def put (p : Push) (l : List Push) : List Push := l.filter (fun q => q.pid < p.pid) ++ p :: l.filter (fun q => p.pid < q.pid)

/-- `removeActivePush` for each push whose process ended (controller_push.cpp 132-150, 170-177, 195-202, 486-498). -/
def wipe (s : State) : State :=
  { s with
    pushes := s.pushes.filter fun p => decide (p.pid ∈ s.procs)
    log := s.log ++ (s.pushes.filter fun p => decide (p.pid ∉ s.procs)).map fun p => .ended p.pid p.stream }

/-- The comparison in `isPushActive` (controller_push.cpp 160-169). -/
def same (env : Env) (stream target : Bytes) (p : Push) : Bool :=
  decide (p.stream = stream) && (decide (p.orig = target) || decide ((env.expand stream p.orig).1 = (env.expand stream target).1))

/-- `isPushActive` (controller_push.cpp 153-180): pushes that ended are only cleaned up when no match is found. -/
def isPushActive (env : Env) (s : State) (stream target : Bytes) : Bool × State :=
  if s.pushes.any fun p => decide (p.pid ∈ s.procs) && same env stream target p then (true, s) else (false, wipe s)

/-- `startPush` (controller_push.cpp 32-47). A new process never has the number of a running one. -/
def startPush (env : Env) (s : State) (stream target : Bytes) : State :=
  let a := isPushActive env s stream target
  if a.1 then a.2
  else match env.spawn a.2.procs stream target with
    | none => a.2
    | some (pid, t) =>
      if pid = 0 ∨ pid ∈ a.2.procs then a.2
      else { a.2 with
        pushes := put ⟨pid, stream, target, t⟩ a.2.pushes
        procs := pid :: a.2.procs
        log := a.2.log ++ [.started pid stream target] }

/-- The comparison in `stopActivePushes` (controller_push.cpp 190-192). -/
def stops (stream target : Bytes) (p : Push) : Bool :=
  decide (p.orig = target) &&
    (decide (p.stream = stream) || (decide (stream.getLast? = some 0x2B) && decide (p.stream.take stream.length = stream)))

/-- `stopActivePushes` (controller_push.cpp 183-204). -/
def stopActivePushes (s : State) (stream target : Bytes) : State :=
  wipe { s with
    log := s.log ++ (s.pushes.filter fun p => decide (p.pid ∈ s.procs) && stops stream target p).map fun p => .term p.pid }

/-! ## Removal from the list of automatic pushes -/

/-- Where the iterator is after a removal and the step of the loop: `remove` resets it to the first element (json.cpp 85), `++` advances it
if there is one (52-59). -/
def after {α : Type} : List α → Nat
  | [] => 0
  | _ :: _ => 1

/-- A `jsonForEach` loop that removes the elements with `p` (json.h 169, json.cpp 52-59 and 76-88): removing resets the iterator to the
first element, and the loop then advances it. -/
def removeLoop {α : Type} (p : α → Bool) (l : List α) (i : Nat) : List α :=
  if h : i < l.length then
    if p l[i] then removeLoop p (l.eraseIdx i) (after (l.eraseIdx i))
    else removeLoop p l (i + 1)
  else l
termination_by (l.length, l.length - i)
decreasing_by
  · apply Prod.Lex.left; rw [List.length_eraseIdx_of_lt h]; omega
  · apply Prod.Lex.right; omega

/-- `removeAllPush` (controller_push.cpp 590-596). -/
def removeAllPush (l : List Entry) (stream : Bytes) : List Entry :=
  removeLoop (fun e => decide (e.stream = none) || decide (e.stream = some stream)) l 0

/-- Equality of two entries without their keys, as `JSON::Value::operator==` on the values of the map. -/
def sameValue (a b : Entry) : Bool := { a with key := [] } == { b with key := [] }

/-- `removePush` on a specification (controller_push.cpp 564-571). -/
def removeSpec (l : List Entry) (e : Entry) : List Entry := removeLoop (fun x => sameValue x e) l 0

/-- `removePush` on a string (controller_push.cpp 572-582): a key if there is one, otherwise a stream. -/
def removeName (l : List Entry) (name : Bytes) : List Entry :=
  if l.any fun e => e.key == name then l.filter fun e => !(e.key == name) else removeAllPush l name

/-- `std::map` order of the keys. -/
def keyLess : Bytes → Bytes → Bool
  | [], [] => false
  | [], _ :: _ => true
  | _ :: _, [] => false
  | a :: s, b :: t => if a < b then true else if b < a then false else keyLess s t

/-- `Storage["auto_push"][key] = newPush` (controller_push.cpp 542, 556). -/
def addEntry (e : Entry) (l : List Entry) : List Entry :=
  l.filter (fun x => keyLess x.key e.key) ++ e :: l.filter (fun x => keyLess e.key x.key)

/-! ## The periodic check -/

/-- `waitingPushes[stream][target] = n`; 0 for an erased entry. -/
def setWaiting (s : State) (stream target : Bytes) (n : Nat) : State :=
  { s with waiting := fun a b => if a = stream ∧ b = target then n else s.waiting a b }

/-- The loop over the active streams of one entry (controller_push.cpp 448-482), with the number of starts so far. -/
def startAll (env : Env) (e : Entry) (target : Bytes) : List Bytes → State → Int → State × Int
  | [], s, n => (s, n)
  | name :: rest, s, n =>
    let a := isPushActive env s name target
    if a.1 then startAll env e target rest a.2 n
    else
      let c := a.2.waiting name target
      let s1 := setWaiting a.2 name target ((c + 1) % 2 ^ 32)
      if (c : Int) ≥ s1.wait ∧ (n < s1.speed ∨ s1.speed = 0) then
        let s2 := setWaiting s1 name target 0
        if inhibited env e name then startAll env e target rest s2 n
        else
          let s3 := startPush env s2 name target
          if e.schedule.isSome ∧ e.complete.isNone then ({ s3 with auto := removeSpec s3.auto e }, n + 1)
          else startAll env e target rest s3 (n + 1)
      else startAll env e target rest s1 n

/-- The treatment of an entry whose end time did not pass (controller_push.cpp 434-484). -/
def checkEntry (env : Env) (e : Entry) (stream target : Bytes) (s : State) (n : Int) : State × Int :=
  if !checkPush env stream e then
    let a := isPushActive env s stream target
    (if a.1 then stopActivePushes a.2 stream target else a.2, n)
  else
    let a := isPushActive env s stream target
    if a.1 then (a.2, n)
    else if a.2.wait ≠ 0 ∨ e.schedule.isSome then startAll env e target (getActiveStreams env stream) a.2 n
    else (a.2, n)

/-- The test of the end time (controller_push.cpp 428). -/
def elapsed (env : Env) (e : Entry) : Bool := match e.complete with | some t => decide (t < env.now) | none => false

/-- The loop over the configured pushes (controller_push.cpp 421-485). The program removes an entry inside of this loop (477) without
moving its iterator, which then points to freed memory; here the walk goes on with the next entry that is still there. -/
def checkAll (env : Env) : List Entry → State → Int → State
  | [], s, _ => s
  | e :: rest, s, n =>
    if e ∈ s.auto then
      match e.stream, e.target with
      | some stream, some target =>
        if elapsed env e then
          let s1 := stopActivePushes s stream target
          { s1 with auto := removeName s1.auto e.key }
        else
          let r := checkEntry env e stream target s n
          checkAll env rest r.1 r.2
      | _, _ => checkAll env rest s n
    else checkAll env rest s n

/-- `runPushCheck` (controller_push.cpp 416-506), without the writing of the page. -/
def runPushCheck (env : Env) (s : State) : State := wipe (checkAll env s.auto s 0)

/-! ## Streams that become active -/

/-- The test of the scheduled time in `doAutoPush` (controller_push.cpp 603-604); the comment there reads "skip if scheduled in the
future". -/
def skipTime (env : Env) (e : Entry) : Bool := match e.schedule with | some t => decide (t < env.now) | none => false

/-- The body of the loop of `doAutoPush` (controller_push.cpp 600-634). -/
def autoEntry (env : Env) (name : Bytes) (s : State) (e : Entry) : State :=
  match e.stream, e.target with
  | some pat, some target =>
    if skipTime env e then s
    else if !streamMatches env name pat then s
    else if inhibited env e name then s
    else if !rulesHold env (Text.sanitizeName name) e then s
    else startPush env s (Text.sanitizeName name) target
  | _, _ => s

/-- `doAutoPush` (controller_push.cpp 599-635). -/
def doAutoPush (env : Env) (name : Bytes) (s : State) : State := s.auto.foldl (autoEntry env name) s

/-! ## Histories -/

/-- What happens to the controller. -/
inductive Op where
  /-- the check of every second -/
  | check (env : Env)
  /-- a stream became active -/
  | became (env : Env) (name : Bytes)
  /-- `push_start` for one stream -/
  | start (env : Env) (stream target : Bytes)
  /-- `push_stop` and `push_stop_graceful` by number and by stream -/
  | stop (pid : Nat)
  | stopStream (stream : Bytes)
  | hang (pid : Nat)
  | hangStream (stream : Bytes)
  /-- `push_list` -/
  | list
  /-- `push_auto_add`, `push_auto_remove` -/
  | add (e : Entry)
  | remove (name : Bytes)
  | removeSpec (e : Entry)
  | settings (wait speed : Int)
  /-- a process ended -/
  | died (pid : Nat)
  /-- some other process of the machine was started -/
  | born (pid : Nat)
  /-- a running process reports itself to be a push -/
  | status (p : Push)

/-- The pushes of a stream that run (controller_push.cpp 214-216, 226-228). -/
def ofStream (s : State) (stream : Bytes) : List Push :=
  s.pushes.filter fun p => decide (p.stream = stream) && decide (p.pid ∈ s.procs)

/-- One operation; the functions as cited above, `stopPush` and `stopPushGraceful` (controller_push.cpp 207-229), `listPush` (509-526),
`setPushStatus` (102-113). -/
def step (s : State) : Op → State
  | .check env => runPushCheck env s
  | .became env name => doAutoPush env name s
  | .start env stream target => startPush env s stream target
  | .stop pid => if pid > 1 ∧ (s.pushes.any fun p => p.pid == pid) then { s with log := s.log ++ [.term pid] } else s
  | .stopStream st => { s with log := s.log ++ (ofStream s st).map fun p => .term p.pid }
  | .hang pid => if pid > 1 ∧ (s.pushes.any fun p => p.pid == pid) then { s with log := s.log ++ [.hup pid] } else s
  | .hangStream st => { s with log := s.log ++ (ofStream s st).map fun p => .hup p.pid }
  | .list => wipe s
  | .add e => { s with auto := addEntry e s.auto }
  | .remove name => { s with auto := removeName s.auto name }
  | .removeSpec e => { s with auto := removeSpec s.auto e }
  | .settings w m => { s with wait := w, speed := m }
  | .died pid => { s with procs := s.procs.filter (· ≠ pid) }
  | .born pid => if pid ∈ s.procs then s else { s with procs := pid :: s.procs }
  | .status p => if (s.pushes.any fun q => q.pid == p.pid) || decide (p.pid ∉ s.procs) then s else { s with pushes := put p s.pushes }

/-- A history from the start of the controller. -/
def run (ops : List Op) : State := ops.foldl step {}

end Verif.AutoPush
