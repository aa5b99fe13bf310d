import Verif.Live.Model

/-!
# What viewers of a live track should find
-/
namespace Verif.Live.Spec
open Verif.Page (Pack packLen)

/-- The packets of a history. -/
def packets : List Op → List Pack
  | [] => []
  | .packet p :: r => p :: packets r
  | .remove :: r => packets r

/-- The time of the last packet. -/
def lastTime (ks : List (List Pack)) : Nat := ((ks.flatten.getLast?).map Pack.time).getD 0

/-- The time of a key is that of its first packet. -/
def keyTime (g : List Pack) : Nat := (g.head?.map Pack.time).getD 0

/-- Whether a packet starts a key after key `g`: video says so itself, anything else is cut every 2047 milliseconds. -/
def starts (video : Bool) (g : List Pack) (p : Pack) : Bool := if video then p.key else decide (keyTime g + 2047 ≤ p.time)

/-- The packet in a stream of keys: packets that go back in time, and video before the first key, are thrown away. -/
def add (video : Bool) (ks : List (List Pack)) (p : Pack) : List (List Pack) :=
  if p.time < lastTime ks then ks
  else
    match ks.getLast? with
    | none => if video && !p.key then [] else [[{ p with key := true }]]
    | some g =>
      if starts video g p then ks ++ [[{ p with key := true }]] else ks.dropLast ++ [g ++ [{ p with key := false }]]

/-- The keys of a stream. -/
def keysOf (video : Bool) (ps : List Pack) : List (List Pack) := ps.foldl (add video) []

/-- The bytes of a key on a page. -/
def bytes (g : List Pack) : Nat := (g.map packLen).sum

/-- The page of number `n` holds the `c` keys from the `n`-th on, all their packets and nothing else. -/
def Holds (l : Live) (ks : List (List Pack)) (n c : Nat) : Prop := l.data n = some ((ks.drop n).take c).flatten

/-- The pages of the track are right for a stream with the keys `ks`, of which the first `d` are gone. -/
structure Serves (l : Live) (ks : List (List Pack)) (d : Nat) : Prop where
  /-- For every key that is left, both ways to look up its page give the number of a page with all its packets; and there is
  said to be a next page exactly if there are keys after those of the page, which start the next page. -/
  byKey : ∀ k, d ≤ k → k < ks.length → ∃ n c, n ≤ k ∧ k < n + c ∧ n + c ≤ ks.length ∧ Holds l ks n c ∧
    pageForKey l k = n ∧ pageNumForKey l k = some n ∧
    (nextPageAvailable l n = true ↔ n + c < ks.length) ∧
    (n + c < ks.length → pageForKey l (n + c) = n + c)
  /-- For a time from that of the first key that is left on, the page is that of the last key that does not start later; and
  the next page is the one that starts with the first key that is not on this page, if there is one. -/
  byTime : ∀ k g t, d ≤ k → ks[k]? = some g → keyTime g ≤ t → (∀ h, ks[k + 1]? = some h → t < keyTime h) →
    ∃ n c, n ≤ k ∧ k < n + c ∧ Holds l ks n c ∧ pagesForTime l t = (n, if n + c < ks.length then some (n + c) else none)

end Verif.Live.Spec
