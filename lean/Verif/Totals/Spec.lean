import Verif.Totals.Model

/-!
# Specification: what the totals of a server should be

In terms of the history of events only.
-/
namespace Verif.Totals.Spec

open Verif Verif.Totals

/-- The event is about the session. -/
def about (sid : Bytes) : Ev → Bool
  | .rep r => r.sid = sid
  | .fin i => i = sid
  | _ => false

/-- What comes next for the session is another report. -/
def goesOn (sid : Bytes) : List Ev → Bool
  | [] => false
  | .rep r :: l => if r.sid = sid then true else goesOn sid l
  | .fin i :: l => if i = sid then false else goesOn sid l
  | _ :: l => goesOn sid l

/-- The sum over the last reports of all sessions, from their start to their end. A session that ends and starts again counts twice. -/
def final (w : Report → Nat) : List Ev → Nat
  | [] => 0
  | .rep r :: l => (if goesOn r.sid l then 0 else w r) + final w l
  | _ :: l => final w l

/-- The last report of a session that has not ended. -/
def current (sid : Bytes) (evs : List Ev) : Option Report :=
  evs.foldl (fun c e => match e with | .rep r => if r.sid = sid then some r else c | .fin i => if i = sid then none else c | _ => c) none

/-- The first report of a session that has not ended. -/
def opening (sid : Bytes) (evs : List Ev) : Option Report :=
  evs.foldl (fun c e => match e with
    | .rep r => if r.sid = sid then (match c with | none => some r | some q => some q) else c
    | .fin i => if i = sid then none else c
    | _ => c) none

/-- The last report of a session, ended or not. -/
def latest (sid : Bytes) (evs : List Ev) : Option Report :=
  evs.foldl (fun c e => match e with | .rep r => if r.sid = sid then some r else c | _ => c) none

/-- The time of the pass. -/
def clock (evs : List Ev) : Nat := evs.foldl (fun c e => match e with | .tick t => t | _ => c) 0

/-- How old a report of a session must be for it to be counted. -/
def age : Kind → Nat
  | .input => 2
  | .output => 15
  | .unspecified => 15
  | .viewer => 15

/-- The next event is what one expects: time does not go back; reports are at most three seconds old, later than those before, and counters do not go back until the session
ends; sessions that have not ended reported within the last ten minutes. -/
def Expected (pre : List Ev) : Ev → Prop
  | .rep r => 0 < r.now ∧ 3 ≤ clock pre ∧ clock pre ≤ r.now + 3 ∧
      (∀ q ∈ latest r.sid pre, q.now ≤ r.now ∧ (current r.sid pre = none → q.now < r.now)) ∧
      (∀ q ∈ current r.sid pre, q.down ≤ r.down ∧ q.up ≤ r.up)
  | .sweep => ∀ e ∈ pre, match e with
      | .rep q => current q.sid pre = some q → clock pre ≤ q.now + 600
      | _ => True
  | .tick t => clock pre ≤ t
  | .fin _ => True

/-- All events of a history are as expected. -/
def Orderly (evs : List Ev) : Prop := ∀ pre e post, evs = pre ++ e :: post → Expected pre e

/-- What was known after the first pass, which is not counted: it was transferred before the controller started. -/
def known (w : Report → Nat) (evs : List Ev) : Nat := if .sweep ∈ evs then final w (evs.takeWhile (· ≠ .sweep)) else 0

/-- The addresses of a session are all counted, or all not. -/
def Settled (evs : List Ev) : Prop := ∀ r q, .rep r ∈ evs → .rep q ∈ evs → r.sid = q.sid → r.free = q.free

/-- The sessions of a kind that started with a stream, from the newest event to the oldest: reports of a session that was not there before. -/
def startsRev (k : Kind) : List Ev → Nat
  | [] => 0
  | .rep r :: older => startsRev k older + (if current r.sid older.reverse = none ∧ kindOf r.sid = k ∧ r.stream ≠ [] then 1 else 0)
  | _ :: older => startsRev k older

/-- The number of sessions of a kind that started with a stream. -/
def starts (k : Kind) (evs : List Ev) : Nat := startsRev k evs.reverse

/-- The lines of the access log, from the newest event to the oldest: one for each session that ends, with what it reported last. -/
def linesRev : List Ev → List Access
  | [] => []
  | .fin i :: older =>
    match opening i older.reverse, current i older.reverse with
    | some p, some q => { sid := i, stream := q.stream, duration := max 1 (q.now - p.now), up := q.up, down := q.down } :: linesRev older
    | _, _ => linesRev older
  | _ :: older => linesRev older

/-- The lines of the access log. -/
def lines (evs : List Ev) : List Access := (linesRev evs.reverse).reverse

end Verif.Totals.Spec
