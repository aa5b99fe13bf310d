import Verif.Subs.Model

/-!
# What subtitle files mean
-/

namespace Verif.Subs.Spec
open Verif Verif.Subs

/-- `t` is the number `n` in decimal digits, with zeros in front up to a width of `w` but no more. -/
def Decimal (w n : Nat) (t : Bytes) : Prop :=
  (∀ c ∈ t, 0x30 ≤ c.toNat ∧ c.toNat ≤ 0x39) ∧ t.foldl (fun a c => a * 10 + (c.toNat - 0x30)) 0 = n ∧ t ≠ [] ∧ w ≤ t.length
    ∧ (w < t.length → 1 < t.length → t.head? ≠ some 0x30)

/-- `txt` is the time of `t` milliseconds: hours, minutes, seconds, and milliseconds after the separator. -/
def Time (sep : UInt8) (t : Nat) (txt : Bytes) : Prop :=
  ∃ h m s ms th tm ts tms, t = h * 3600000 + m * 60000 + s * 1000 + ms ∧ m < 60 ∧ s < 60 ∧ ms < 1000
    ∧ Decimal 2 h th ∧ Decimal 2 m tm ∧ Decimal 2 s ts ∧ Decimal 3 ms tms
    ∧ txt = th ++ [0x3A] ++ tm ++ [0x3A] ++ ts ++ [sep] ++ tms

/-- A subtitle in a file: its number, its times and its lines. -/
structure Cue where
  /-- number -/
  index : Nat
  /-- start in milliseconds -/
  start : Nat
  /-- end in milliseconds -/
  stop : Nat
  /-- lines of text -/
  lines : List Bytes

/-- The lines joined by newlines. -/
def joined : List Bytes → Bytes
  | [] => []
  | [l] => l
  | l :: t => l ++ [0x0A] ++ joined t

/-- The lines each ended by a newline. -/
def ended : List Bytes → Bytes
  | [] => []
  | l :: t => l ++ [0x0A] ++ ended t

/-- A subtitle as a SubRip file has it: number, times with commas, lines, and an empty line. -/
def Written (c : Cue) (txt : Bytes) : Prop :=
  ∃ n a b, Decimal 1 c.index n ∧ Time 0x2C c.start a ∧ Time 0x2C c.stop b
    ∧ txt = n ++ [0x0A] ++ (a ++ [0x20, 0x2D, 0x2D, 0x3E, 0x20] ++ b) ++ [0x0A] ++ ended c.lines ++ [0x0A]

/-- A subtitle that can be read: times in order and below 2^31, lines with text, the first with at least two bytes if
there are more. -/
def Readable (c : Cue) : Prop :=
  c.start ≤ c.stop ∧ c.stop < 2147483648 ∧ c.index < 2147483648 ∧ c.lines ≠ []
    ∧ (∀ l ∈ c.lines, l ≠ [] ∧ l ≠ [0x0D] ∧ 0x0A ∉ l) ∧ (∀ l r t, c.lines = l :: r :: t → 2 ≤ l.length)

/-- The packet for a subtitle. -/
def packet (c : Cue) : Acc := { index := some c.index, time := some c.start, duration := some (c.stop - c.start), data := joined c.lines }

/-- A packet with text: not empty and not a single space. -/
def hasText (p : Sub) : Bool := !(p.data == [] || p.data == [0x20])

/-- The packets that are asked for: all, or those up to the first after the end that was asked for. -/
def asked (from' to : Nat) (l : List Sub) : List Sub :=
  if 0 < to ∧ from' < to then l.takeWhile (fun p => p.time ≤ to) else l

/-- When a subtitle ends: after its duration, or after a time that grows with its length. -/
def stops (p : Sub) : Nat := p.time + (if p.duration = 0 then p.data.length * 75 + 800 else p.duration)

/-- One subtitle as sent: number `i` unless it is WebVTT, times with periods, the text without newlines at its end, and
an empty line. -/
def Block (vtt : Bool) (i : Nat) (p : Sub) (txt : Bytes) : Prop :=
  ∃ n a b body k, Decimal 1 i n ∧ Time 0x2E p.time a ∧ Time 0x2E (stops p) b
    ∧ p.data = body ++ List.replicate k 0x0A ∧ body.getLast? ≠ some 0x0A
    ∧ txt = (if vtt then [] else n ++ [0x0A]) ++ a ++ [0x20, 0x2D, 0x2D, 0x3E, 0x20] ++ b ++ [0x0A] ++ body ++ [0x0A, 0x0A]

end Verif.Subs.Spec
