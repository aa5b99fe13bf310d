import Verif.Json.Model

/-!
# Model of the protocols of the controller

`/repo/src/controller/controller_connectors.cpp`, and the requests about protocols of `/repo/src/controller/controller_api.cpp`. Simplifications: an entry of
the configuration is its text (`toString` without "online"), its connector and its other members; the table of processes is that of the listeners only,
so that a process number is not taken by another program while it is in use here; `Stop` (a signal) ends a process at once; the controller is not
shutting down (`conf.is_active`); the page has room for all listeners.
-/
namespace Verif.Conn
open Verif Verif.Json

/-- What a parameter of an entry is (controller_connectors.cpp 143-146). -/
inductive Param where
  | null
  | str (s : Bytes)
  | arr (strings : List Bool)
  | other
  deriving DecidableEq, Repr

/-- An entry of the configuration. -/
structure Entry where
  text : Bytes
  connector : Option Bytes := none
  params : List (Bytes × Param) := []
  deriving DecidableEq, Repr

/-- What is known of a connector (`capabilities`). -/
structure Cap where
  name : Bytes
  pushOnly : Bool := false
  socket : Bool := false
  deps : Option Bytes := none
  provides : Bool := false
  required : List Bytes := []
  deriving DecidableEq, Repr

/-- The member "online" of an entry. -/
inductive Status where
  | noName
  | notInstalled
  | pushOnly
  | enabled
  | invalid
  | running
  | starting
  deriving DecidableEq, Repr

/-- Whether a required parameter is missing (controller_connectors.cpp 143-146). -/
def lacks (e : Entry) (name : Bytes) : Bool :=
  match e.params.find? (fun x => decide (x.1 = name)) with
  | none => true
  | some (_, Param.null) => true
  | some (_, Param.str s) => decide (s = [])
  | some (_, Param.arr l) => decide (l.head? ≠ some true)
  | some (_, Param.other) => true

/-- "HTTP". -/
def sHttp : Bytes := [0x48, 0x54, 0x54, 0x50]

/-- What becomes of an entry (controller_connectors.cpp 112-157): `none` if it is to be started. -/
def refusal (caps : List Cap) (e : Entry) : Option Status :=
  match e.connector with
  | none => some .noName
  | some n =>
    if n = [] then some .noName
    else match caps.find? (·.name = n) with
    | none => some .notInstalled
    | some c =>
      if c.pushOnly then some .pushOnly
      else if c.socket || (decide (c.deps = some sHttp) && !c.provides) then some .enabled
      else if c.required.any (lacks e) then some .invalid
      else none

/-- A process. -/
structure Proc where
  pid : Nat
  text : Bytes
  deriving DecidableEq, Repr

/-- The state of the controller: `currentConnectors`, the processes that run, `needsReload`, the reload signals sent so far, the page in shared memory, and
whether `CheckProtocols` did not return. -/
structure State where
  current : List (Bytes × Nat) := []
  alive : List Proc := []
  reloads : List Nat := []
  signals : List Nat := []
  page : List (Bytes × Nat) := []
  hung : Bool := false
  deriving DecidableEq, Repr

/-- `currentConnectors[text]`. -/
def pidOf (cur : List (Bytes × Nat)) (text : Bytes) : Option Nat := (cur.find? (·.1 = text)).map (·.2)

/-- `Util::Procs::isActive` (procs.cpp 593-595). -/
def isActive (alive : List Proc) (pid : Nat) : Bool := alive.any (·.pid = pid)

/-- Whether there is a listener for the text that runs (controller_connectors.cpp 164, 197-198). -/
def runs (s : State) (text : Bytes) : Bool :=
  match pidOf s.current text with
  | none => false
  | some p => isActive s.alive p

/-- `runningConns.insert`: a sorted set. -/
def insertText (t : Bytes) : List Bytes → List Bytes
  | [] => [t]
  | x :: l => if t = x then x :: l else if keyLt t x then t :: x :: l else x :: insertText t l

/-- The first loop (controller_connectors.cpp 111-174) over entries with their numbers, with the set of texts. -/
def wanted (caps : List Cap) : List Entry → List Bytes → List Bytes
  | [], acc => acc
  | e :: l, acc => if refusal caps e = none then wanted caps l (insertText e.text acc) else wanted caps l acc

/-- The first loop: "online" of an entry. -/
def online (caps : List Cap) (s : State) (e : Entry) : Status :=
  match refusal caps e with
  | some r => r
  | none => if runs s e.text then .running else .starting

/-- The first loop: reload signals (controller_connectors.cpp 167-170) from entry `i` on. -/
def signalLoop (caps : List Cap) (cur : List (Bytes × Nat)) (alive : List Proc) : Nat → List Entry → List Nat → List Nat × List Nat
  | _, [], reloads => (reloads, [])
  | i, e :: l, reloads =>
    match (if refusal caps e = none ∧ i ∈ reloads then pidOf cur e.text else none : Option Nat) with
    | none => signalLoop caps cur alive (i + 1) l reloads
    | some p =>
      if isActive alive p then
        ((signalLoop caps cur alive (i + 1) l (reloads.filter (· ≠ i))).1, p :: (signalLoop caps cur alive (i + 1) l (reloads.filter (· ≠ i))).2)
      else signalLoop caps cur alive (i + 1) l reloads

/-- The second loop (controller_connectors.cpp 178-193): the entry at the iterator is removed if it is not wanted, the iterator goes to the first entry and
is then advanced. `done`: the entries before the iterator; at most `n` removals. The result are the entries left and those removed. -/
def removeLoop (keep : Bytes → Bool) : Nat → List (Bytes × Nat) → List (Bytes × Nat) → List (Bytes × Nat) × List (Bytes × Nat)
  | 0, done, rest => (done ++ rest, [])
  | n + 1, done, rest =>
    match rest.dropWhile (fun e => keep e.1) with
    | [] => (done ++ rest, [])
    | e :: after =>
      match done ++ rest.takeWhile (fun e => keep e.1) ++ after with
      | [] => ([], [e])
      | f :: l => ((removeLoop keep n [f] l).1, e :: (removeLoop keep n [f] l).2)

/-- `currentConnectors[text] = pid`, in order. -/
def insertConn (t : Bytes) (pid : Nat) : List (Bytes × Nat) → List (Bytes × Nat)
  | [] => [(t, pid)]
  | x :: l => if keyLt t x.1 then (t, pid) :: x :: l else x :: insertConn t pid l

/-- `currentConnectors[text] = pid`. -/
def putConn (t : Bytes) (pid : Nat) (cur : List (Bytes × Nat)) : List (Bytes × Nat) :=
  if cur.any (·.1 = t) then cur.map fun e => if e.1 = t then (t, pid) else e else insertConn t pid cur

/-- The third loop (controller_connectors.cpp 196-224); `fork`: what `StartPiped` gives for a text, `missing`: there is no such program. -/
def startLoop (fork : Bytes → Option Nat) (missing : Bytes → Bool) : List Bytes → State → State
  | [], s => s
  | t :: l, s =>
    if runs s t then startLoop fork missing l s
    else if missing t then { s with hung := true }
    else match fork t with
    | none => startLoop fork missing l s
    | some p => startLoop fork missing l { s with current := putConn t p s.current, alive := s.alive ++ [⟨p, t⟩] }

/-- What is in the page (controller_connectors.cpp 31-59): texts of 512 bytes with a zero at the end. -/
def saved (cur : List (Bytes × Nat)) : List (Bytes × Nat) := cur.map fun e => (e.1.take 511, e.2)

/-- The second loop, with the processes that are stopped. -/
def removed (s : State) (want : List Bytes) : State :=
  { s with current := (removeLoop (fun t => decide (t ∈ want)) s.current.length [] s.current).1,
           alive := s.alive.filter fun p => decide (p.pid ∉ (removeLoop (fun t => decide (t ∈ want)) s.current.length [] s.current).2.map (·.2)) }

/-- The first loop, as far as it changes the state. -/
def signalled (caps : List Cap) (s : State) (entries : List Entry) : State :=
  { s with reloads := (signalLoop caps s.current s.alive 0 entries s.reloads).1, signals := s.signals ++ (signalLoop caps s.current s.alive 0 entries s.reloads).2 }

/-- The page is written when listeners were started or stopped (controller_connectors.cpp 225). -/
def save (before s : State) : State := if s.hung ∨ s.alive = before.alive then s else { s with page := saved s.current }

/-- `CheckProtocols` (controller_connectors.cpp 108-227). -/
def check (caps : List Cap) (entries : List Entry) (fork : Bytes → Option Nat) (missing : Bytes → Bool) (s : State) : State :=
  if s.hung then s
  else save s (startLoop fork missing (wanted caps entries []) (removed (signalled caps s entries) (wanted caps entries [])))

/-- `loadActiveConnectors` (controller_connectors.cpp 62-76): a later record of the same text replaces an earlier one. -/
def load (page : List (Bytes × Nat)) : List (Bytes × Nat) := page.foldl (fun cur e => if e.1 = [] then cur else putConn e.1 e.2 cur) []

/-- What happens. -/
inductive Op where
  | check (entries : List Entry) (fork : Bytes → Option Nat) (missing : Bytes → Bool)
  | die (pid : Nat)
  | reload (index : Nat)
  | restart
  | crash

/-- One of these. `die`: a listener ends; `reload`: `reloadProtocol` (28); `restart`: a rolling restart (62-91); `crash`: the controller ends without one and is
started again. -/
def step (caps : List Cap) (s : State) : Op → State
  | .check entries fork missing => check caps entries fork missing s
  | .die pid => { s with alive := s.alive.filter (·.pid ≠ pid) }
  | .reload i => { s with reloads := i :: s.reloads }
  | .restart => if s.hung then s else { s with page := saved s.current, current := load (saved s.current), reloads := [], signals := s.signals ++ (load (saved s.current)).map (·.2) }
  | .crash => { s with current := load s.page, reloads := [], signals := s.signals ++ (load s.page).map (·.2), hung := false }

/-- A history. -/
def run (caps : List Cap) (ops : List Op) : State := ops.foldl (step caps) {}

/-! ## Requests -/

/-- One round of `removeDuplicateProtocols` (controller_api.cpp 610-620): the first entry that is like another one, from the first entry on; that other one is
removed. `none`: there is none. -/
def dropDuplicate : List Entry → List Entry → Option (List Entry)
  | _, [] => none
  | before, e :: l =>
    match before.dropWhile (fun x => !decide (x = e)) with
    | _ :: after => some (before.takeWhile (fun x => !decide (x = e)) ++ after ++ e :: l)
    | [] =>
      match l.dropWhile (fun x => !decide (x = e)) with
      | _ :: after => some (before ++ e :: (l.takeWhile (fun x => !decide (x = e)) ++ after))
      | [] => dropDuplicate (before ++ [e]) l

/-- `removeDuplicateProtocols` (controller_api.cpp 602-622), at most `n` rounds. -/
def removeDuplicates : Nat → List Entry → List Entry
  | 0, l => l
  | n + 1, l =>
    match dropDuplicate [] l with
    | none => l
    | some l' => removeDuplicates n l'

/-- A request about protocols (controller_api.cpp 697-710, 1072-1121). -/
inductive Req where
  | set (l : List Entry)
  | add (l : List Entry)
  | delete (l : List Entry)
  | update (a b : Entry)

/-- What it does to the configuration. -/
def apply (conf : List Entry) : Req → List Entry
  | .set l => removeDuplicates l.length l
  | .add l => removeDuplicates (conf ++ l).length (conf ++ l)
  | .delete l => conf.filter fun e => !decide (e ∈ l)
  | .update a b => removeDuplicates conf.length (conf.map fun e => if e = a then b else e)

end Verif.Conn
