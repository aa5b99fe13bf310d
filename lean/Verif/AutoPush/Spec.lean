import Verif.AutoPush.Model

/-!
# What automatic pushes should do

Stated without the functions of the model, except for its data types and `Http.atoll` (the value of a decimal number in a text).
-/
namespace Verif.AutoPush.Spec
open Verif.AutoPush (Env Entry Rule Push State Event Op)

/-- A stream is meant by a pattern: its name, a prefix that ends in '+', or '#' and one of its tags. -/
def Meant (env : Env) (stream pat : Bytes) : Prop :=
  stream = pat ∨ (∃ base rest, pat = base ++ [0x2B] ∧ stream = pat ++ rest) ∨ ∃ tag, pat = 0x23 :: tag ∧ env.tagged stream tag = true

/-- A text up to its first zero byte. -/
def text (s : Bytes) : Bytes := s.takeWhile (· ≠ 0)

/-- A text that means yes: without white space and in lower case it begins with "1", "yes", "true" or "cont". -/
def Yes (s : Bytes) : Prop :=
  ∃ w ∈ [[0x31], [0x79, 0x65, 0x73], [0x74, 0x72, 0x75, 0x65], [0x63, 0x6F, 0x6E, 0x74]],
    w <+: (s.filter fun c => !Http.space c).map Http.lower

/-- The documented operators. -/
def Compare (cur : Bytes) (op : Nat) (val : Bytes) : Prop :=
  match op with
  | 0 => Yes cur
  | 1 => ¬ Yes cur
  | 2 => cur = val
  | 3 => cur ≠ val
  | 10 => Http.atoll cur > Http.atoll val
  | 11 => Http.atoll cur ≥ Http.atoll val
  | 12 => Http.atoll cur < Http.atoll val
  | 13 => Http.atoll cur ≤ Http.atoll val
  | 20 => text val < text cur
  | 21 => ¬ text cur < text val
  | 22 => text cur < text val
  | 23 => ¬ text val < text cur
  | _ => False

/-- A rule holds for a stream: it is complete, its variable exists and compares to its value as the operator says. -/
def RuleHolds (env : Env) (stream : Bytes) (r : Option Rule) : Prop :=
  ∃ q, r = some q ∧ (env.expand stream (0x24 :: q.name)).2 = true ∧
    Compare (env.expand stream (0x24 :: q.name)).1 (q.op % 256).toNat (if q.value = [] then [] else (env.expand stream q.value).1)

/-- The rules of an entry allow a push of a stream. -/
def Allowed (env : Env) (stream : Bytes) (e : Entry) : Prop :=
  (∀ r, e.endRule = some r → ¬ RuleHolds env stream r) ∧ ∀ r, e.startRule = some r → RuleHolds env stream r

/-- No inhibitor of an entry means a stream. -/
def Free (env : Env) (stream : Bytes) (e : Entry) : Prop := ∀ p ∈ e.inhibit, ¬ Meant env stream p

/-- An automatic push may be started for a stream now: the entry means it, nothing inhibits it, its rules allow it, its time of start
has come and its end time has not passed. -/
def MayStart (env : Env) (e : Entry) (stream target : Bytes) : Prop :=
  (∃ pat, e.stream = some pat ∧ Meant env stream pat) ∧ e.target = some target ∧ Free env stream e ∧ Allowed env stream e ∧
    (∀ t, e.schedule = some t → t ≤ env.now) ∧ ∀ t, e.complete = some t → env.now ≤ t

/-- A push of a stream runs whose target is the given one, as it is or after the replacement of variables. -/
def Covered (env : Env) (s : State) (stream target : Bytes) : Prop :=
  ∃ p ∈ s.pushes, p.pid ∈ s.procs ∧ p.stream = stream ∧
    (p.orig = target ∨ (env.expand stream p.orig).1 = (env.expand stream target).1)

/-- What can be seen of an operation. -/
def news (s s' : State) : List Event := s'.log.drop s.log.length

/-- The starts among some events. -/
def starts (l : List Event) : List Event := l.filter fun e => match e with | .started .. => true | _ => false

/-- The name of one stream: not empty, no tag, no wildcard, written as names are stored. -/
def Plain (pat : Bytes) : Prop := pat ≠ [] ∧ pat.head? ≠ some 0x23 ∧ pat.getLast? ≠ some 0x2B ∧ Text.sanitizeName pat = pat

/-- Starting a process for a push works. -/
def Works (env : Env) (stream target : Bytes) : Prop :=
  ∀ procs, ∃ pid t, env.spawn procs stream target = some (pid, t) ∧ pid ≠ 0 ∧ pid ∉ procs

/-- A push of an entry is to end: its end time passed, its time of start has not come, or its rules do not allow it. -/
def ToEnd (env : Env) (e : Entry) (pat : Bytes) : Prop :=
  (∃ t, e.complete = some t ∧ t < env.now) ∨ (∃ t, e.schedule = some t ∧ env.now < t) ∨ ¬ Allowed env (Text.sanitizeName pat) e

/-- The times in which an entry is to be checked: none of its end times passed. -/
def NoneEnded (env : Env) (l : List Entry) : Prop := ∀ e ∈ l, ∀ t, e.complete = some t → env.now ≤ t

/-- Operations that neither change the configuration nor, if they are checks, violate `H`. -/
def Undisturbed (H : Env → Prop) : Op → Prop
  | .check env => H env
  | .add _ | .remove _ | .removeSpec _ | .settings _ _ => False
  | _ => True

/-- The number of checks in a history. -/
def checks (ops : List Op) : Nat := ops.countP fun o => match o with | .check _ => true | _ => false

/-- The controller learns of a push that it did not start. -/
def Foreign : Op → Prop
  | .status _ => True
  | _ => False

end Verif.AutoPush.Spec
