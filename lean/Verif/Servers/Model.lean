import Verif.Base.Bytes

/-!
# The list of servers of the load balancer (util_load.cpp)

Servers are added and removed by requests, each handled by a thread of its own, and every server has a thread that polls it. The model interleaves
these threads: an action is what one of them does next.
-/
namespace Verif.Servers

abbrev Bytes := List UInt8

/-- util_load.cpp 35-40. -/
inductive State where
  | off | boot | error | online | godown | reqclean
  deriving DecidableEq

/-- Where the thread of a server is (util_load.cpp 798-851): before it has set its state (798-815), in a poll (820-845), before it looks whether to stop (816-819, 846), or
past its end (848-850). `gone` if there is none. -/
inductive Phase where
  | gone | start | poll | wait | done
  deriving DecidableEq

/-- util_load.cpp 437-443, with the local variable `down` of its thread (815), and whether the details exist (`details`). -/
structure Slot where
  state : State
  name : Bytes
  phase : Phase
  down : Bool
  alive : Bool
  deriving DecidableEq

/-- What the removal of a server does next (util_load.cpp 518-526, 995-1009): joins the thread of the slot, or has deleted the thread and the details and will clear
the name and state. -/
inductive Stage where
  | join | clear
  deriving DecidableEq

/-- The list (445: an array of 1000 entries, of which `hostsCounter` are used), and the removal that holds the lock, if there is one: the name, the slot
and the stage. The lock is also held by additions, which have no place where they wait. -/
structure Sys where
  slots : List Slot := []
  lock : Option (Bytes × Nat × Stage) := none

/-- The size of the array (45). -/
def maxHosts : Nat := 1000

/-- A name as it is kept: up to its first zero byte (`(std::string)hosts[i].name`). -/
def kept (n : Bytes) : Bytes := n.takeWhile (· ≠ 0)

/-- util_load.cpp 984-993: a new server. -/
def fresh (n : Bytes) : Slot := ⟨.boot, kept n, .start, true, true⟩

/-- util_load.cpp 534-568: a request to add a server. One whose name is too long or in the list is ignored; a slot that is off is used again. -/
def add (S : Sys) (n : Bytes) : Sys :=
  if n.length ≥ 1024 then S
  else if S.slots.any fun x => x.state ≠ .off ∧ x.name = n then S
  else
    match S.slots.findIdx? fun x => x.state = .off with
    | some i => { S with slots := S.slots.set i (fresh n) }
    | none => { S with slots := S.slots ++ [fresh n] }

/-- util_load.cpp 520-526, 995-998: goes on with the removal of `n` from slot `i` on: looks for it, asks its thread to stop, and waits for that;
or gives the lock back. A slot with an empty name is not removed. -/
def seek (S : Sys) (n : Bytes) (i : Nat) : Sys :=
  match (S.slots.drop i).findIdx? fun x => x.state ≠ .off ∧ x.name = n ∧ x.name ≠ [] with
  | some k => { slots := S.slots.modify (i + k) fun x => { x with state := .godown }, lock := some (n, i + k, .join) }
  | none => { S with lock := none }

/-- The thread of a server goes on; `ok` is whether the poll it is in succeeds. 814-815: it sets its state at the start. 819: it stops if it is asked to.
820-845: after a poll. -/
def turn (x : Slot) (ok : Bool) : Slot :=
  match x.phase with
  | .gone => x
  | .done => x
  | .start => { x with state := .boot, down := true, phase := .wait }
  | .poll => if ok then (if x.down then { x with state := .online, down := false, phase := .wait } else { x with phase := .wait })
    else { x with state := .error, down := true, phase := .wait }
  | .wait => if x.state = .godown then { x with state := .reqclean, phase := .done } else { x with phase := .poll }

/-- What can happen next. -/
inductive Act where
  | add (n : Bytes)
  | del (n : Bytes)
  | turn (i : Nat) (ok : Bool)
  | remover
  deriving DecidableEq

/-- One action; nothing happens if it has to wait. Additions and removals wait for the lock (518, 535). The removal waits for the end of the
thread (1001), then deletes it and the details (1002-1006), then clears the name and the state (1007-1008) and goes on. -/
def step (S : Sys) : Act → Sys
  | .add n => match S.lock with | some _ => S | none => add S n
  | .del n => match S.lock with | some _ => S | none => seek S n 0
  | .turn i ok => { S with slots := S.slots.modify i fun x => turn x ok }
  | .remover =>
    match S.lock with
    | none => S
    | some (n, i, .join) =>
      match S.slots[i]? with
      | some x => if x.phase = .done then { slots := S.slots.set i { x with phase := .gone, alive := false }, lock := some (n, i, .clear) } else S
      | none => S
    | some (n, i, .clear) => seek { S with slots := S.slots.modify i fun x => { x with name := [], state := .off } } n (i + 1)

/-- A run. -/
def run (S : Sys) (l : List Act) : Sys := l.foldl step S

/-- util_load.cpp 505-509: the servers that are listed. -/
def listed (S : Sys) : List Bytes := (S.slots.filter fun x => x.state ≠ .off).map (·.name)

/-- util_load.cpp 577-604: requests that go over the list use the details of all slots that are not off; they do not use the lock. Whether the details exist. -/
def readable (S : Sys) : Bool := S.slots.all fun x => decide (x.state = .off) || x.alive

end Verif.Servers
