import Verif.Shm.Comms

/-!
# Model of claiming and abandoning tracks (`/repo/lib/dtsc.cpp`)

The list of tracks of a stream is in shared memory; one of its columns holds the number of the process that produces the
track, or 0. A named semaphore guards additions and claims; giving a track up takes no semaphore. One step of the model is
one access to shared memory or one semaphore operation of any producer; a producer may stop for ever at any point.

Simplifications: memory is sequentially consistent; resizing the list (dtsc.cpp 1996-1998) and removing tracks and the
stream are left out, but the stream's exit flag may be set at any moment; in-memory metadata (`isMemBuf`), which is not
shared, is left out.
-/
namespace Verif.Shm

/-- Where a producer is. -/
inductive PPc where
  | idle
  /-- dtsc.cpp 2058: about to wait for the semaphore -/
  | want (k : Nat)
  /-- dtsc.cpp 2059: has the semaphore, about to look at the exit flag -/
  | lk (k : Nat)
  /-- dtsc.cpp 2065: about to look at the track's process -/
  | chk (k : Nat)
  /-- dtsc.cpp 2069: about to write its process number -/
  | set (k : Nat)
  /-- dtsc.cpp 2070: about to give the semaphore back and return true -/
  | yes (k : Nat)
  /-- dtsc.cpp 2060 and 2067 (destructor of the semaphore): about to give the semaphore back and return false -/
  | no (k : Nat)
  /-- dtsc.cpp 2075: about to look at the track's process -/
  | drop (k : Nat)
  /-- dtsc.cpp 2079: about to clear the track's process -/
  | clr (k : Nat)
  /-- dtsc.cpp 1986: about to wait for the semaphore -/
  | awant
  /-- dtsc.cpp 1987: has the semaphore, about to look at the exit flag -/
  | alk
  /-- dtsc.cpp 1988 -/
  | ano
  /-- dtsc.cpp 2011: about to read the number of tracks -/
  | anum
  /-- dtsc.cpp 2032: about to write its process number -/
  | aset (k : Nat)
  /-- dtsc.cpp 2034: about to raise the number of tracks -/
  | ainc (k : Nat)
  /-- dtsc.cpp 2036: about to give the semaphore back -/
  | ayes (k : Nat)
  deriving DecidableEq

/-- The list of tracks and its producers. `has p k`: producer `p` writes packets to track `k`. -/
structure Tracks where
  owner : Nat → Nat
  present : Nat
  exit : Bool
  sem : Nat
  pc : Nat → PPc
  has : Nat → Nat → Bool

/-- The process a producer runs in, and whether it ignores what `claimTrack` returns (input.cpp 1220). -/
structure PCfg where
  pidOf : Nat → Nat
  ignores : Nat → Bool

def Tracks.init : Tracks := ⟨fun _ => 0, 0, false, 1, fun _ => .idle, fun _ _ => false⟩

inductive PAct where
  | go
  | claim (k : Nat)
  | abandon (k : Nat)
  | add
  deriving DecidableEq

inductive TAct where
  | prod (p : Nat) (a : PAct)
  | exit
  deriving DecidableEq

/-- `has` with one entry changed. -/
def upd2 (f : Nat → Nat → Bool) (p k : Nat) (v : Bool) : Nat → Nat → Bool := upd f p (upd (f p) k v)

/-- One step of producer `p`: `Meta::claimTrack` (dtsc.cpp 2048-2072) and `Meta::abandonTrack`
(2074-2080; a producer stops writing before it calls it) of any track in the list, and `Meta::addTrack` (1976-2037). -/
def prodStep (g : PCfg) (t : Tracks) (p : Nat) (a : PAct) : Option Tracks :=
  match t.pc p, a with
  | .idle, .claim k => if k < t.present then some { t with pc := upd t.pc p (.want k) } else none
  | .want k, .go => if t.sem = 0 then none else some { t with sem := t.sem - 1, pc := upd t.pc p (.lk k) }
  | .lk k, .go =>
    if t.exit then some { t with pc := upd t.pc p (.no k) } else some { t with pc := upd t.pc p (.chk k) }
  | .chk k, .go =>
    if t.owner k ≠ 0 then some { t with pc := upd t.pc p (.no k) } else some { t with pc := upd t.pc p (.set k) }
  | .set k, .go => some { t with owner := upd t.owner k (g.pidOf p), pc := upd t.pc p (.yes k) }
  | .yes k, .go => some { t with sem := t.sem + 1, has := upd2 t.has p k true, pc := upd t.pc p .idle }
  | .no k, .go =>
    some { t with sem := t.sem + 1, has := if g.ignores p then upd2 t.has p k true else t.has, pc := upd t.pc p .idle }
  | .idle, .abandon k =>
    if k < t.present then some { t with has := upd2 t.has p k false, pc := upd t.pc p (.drop k) } else none
  | .drop k, .go =>
    if t.owner k ≠ g.pidOf p then some { t with pc := upd t.pc p .idle } else some { t with pc := upd t.pc p (.clr k) }
  | .clr k, .go => some { t with owner := upd t.owner k 0, pc := upd t.pc p .idle }
  | .idle, .add => some { t with pc := upd t.pc p .awant }
  | .awant, .go => if t.sem = 0 then none else some { t with sem := t.sem - 1, pc := upd t.pc p .alk }
  | .alk, .go =>
    if t.exit then some { t with pc := upd t.pc p .ano } else some { t with pc := upd t.pc p .anum }
  | .ano, .go => some { t with sem := t.sem + 1, pc := upd t.pc p .idle }
  | .anum, .go => some { t with pc := upd t.pc p (.aset t.present) }
  | .aset k, .go => some { t with owner := upd t.owner k (g.pidOf p), pc := upd t.pc p (.ainc k) }
  | .ainc k, .go => some { t with present := t.present + 1, pc := upd t.pc p (.ayes k) }
  | .ayes k, .go => some { t with sem := t.sem + 1, has := upd2 t.has p k true, pc := upd t.pc p .idle }
  | _, _ => none

def tstep (g : PCfg) (t : Tracks) : TAct → Option Tracks
  | .prod p a => prodStep g t p a
  | .exit => some { t with exit := true }

/-- A schedule; `none` if some step of it is not possible. -/
def trun (g : PCfg) (t : Tracks) : List TAct → Option Tracks
  | [] => some t
  | a :: r => (tstep g t a).bind fun t' => trun g t' r

end Verif.Shm
