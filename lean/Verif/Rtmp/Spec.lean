import Verif.Rtmp.Lemmas

/-!
# What an RTMP connection is used for (C18)
-/
namespace Verif.Rtmp
open Verif.Bit

/-- One thing a connection sends: a message through `Chunk::Pack` (`erase`: the last-sent entry of its
chunk stream is removed first, as `SendCTL` and `SendUSR` do, rtmpchunks.cpp 268-350), or a media frame
through the media output. -/
inductive Item where
  | command (erase : Bool) (m : Msg)
  | media (m : Msg)

def Item.msg : Item → Msg
  | .command _ m => m
  | .media m => m

/-- `lastsend` and the `ts_delta` members of the chunk objects, one object per chunk stream. -/
structure Sender where
  snd : Nat → Option Prev := fun _ => none
  obj : Nat → Nat := fun _ => 0

def setSnd (f : Nat → Option Prev) (cs : Nat) (p : Option Prev) : Nat → Option Prev := fun x => if x = cs then p else f x

def sendItem (c : Nat) (w : Sender) : Item → Bytes × Sender
  | .command erase m =>
    let prev := if erase then none else w.snd m.cs
    let r := pack c prev (w.obj m.cs) m
    (r.1, ⟨setSnd w.snd m.cs (some r.2), fun x => if x = m.cs then r.2.tsDelta else w.obj x⟩)
  | .media m =>
    let r := sendNext c (w.snd 4) m
    (r.1, ⟨setSnd w.snd 4 (some r.2), w.obj⟩)

/-- The bytes of a whole session; the chunk size changes after each message by the same rule as on the
receiving side. -/
def sendAll (onMsg : Nat → Msg → Nat) (c : Nat) (w : Sender) : List Item → Bytes
  | [] => []
  | it :: l => (sendItem c w it).1 ++ sendAll onMsg (onMsg c it.msg) (sendItem c w it).2 l

/-- A message that fits the wire format; times below 2^31 ms. -/
def Msg.plain (m : Msg) : Prop :=
  2 ≤ m.cs ∧ m.cs ≤ 65599 ∧ m.timestamp < 2 ^ 31 ∧ m.data.length < 2 ^ 24 ∧ m.mtype < 256 ∧ m.mstream < 2 ^ 32

/-- Less than 4 h 39 min after the previous message of the same chunk stream, or before it. -/
def gapOk (seen : Nat → Option Msg) (m : Msg) : Prop := ∀ p, seen m.cs = some p → m.timestamp < p.timestamp + 0xffffff

def see (seen : Nat → Option Msg) (m : Msg) : Nat → Option Msg := fun x => if x = m.cs then some m else seen x

/-- The sessions covered: `seen` is the last message per chunk stream, `started` tells that media
frames have been sent. Media frames use chunk stream 4 and message stream 1, no two successive ones
agree in time, type and length, and `Chunk::Pack` is not used on chunk stream 4 once they have started. -/
def session (seen : Nat → Option Msg) (started : Bool) : List Item → Prop
  | [] => True
  | .command erase m :: l =>
    m.plain ∧ (erase = false → gapOk seen m) ∧ (started = true → m.cs ≠ 4) ∧ session (see seen m) started l
  | .media m :: l =>
    m.plain ∧ m.cs = 4 ∧ m.mstream = 1 ∧ gapOk seen m ∧
      (∀ p, seen 4 = some p → ¬(p.timestamp = m.timestamp ∧ p.mtype = m.mtype ∧ p.data.length = m.data.length)) ∧
      session (see seen m) true l

/-- Feeding a connection its bytes as they arrive. -/
def feed (onMsg : Nat → Msg → Nat) (recMax : Nat) (last : Nat → Prev) (buf : Bytes) : List Bytes → List Msg × Nat × (Nat → Prev) × Bytes
  | [] => ([], recMax, last, buf)
  | piece :: ps =>
    let r := drain onMsg recMax last (buf ++ piece)
    let s := feed onMsg r.2.1 r.2.2.1 r.2.2.2 ps
    (r.1 ++ s.1, s.2)

end Verif.Rtmp
