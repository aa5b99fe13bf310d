import Verif.Vod.Model
import Verif.Page.Spec

/-!
# Specification: recordings and their pages
-/
namespace Verif.Vod.Spec
open Verif Verif.Page Verif.Vod

/-- The keys of a recording in pages: a page has keys up to the first that is more than 20 seconds after its first key, if the page then has more than
8 MiB or the key is more than a minute after the first. -/
def pagesOf : List Index.Key → List Index.Key → List (List Index.Key)
  | cur, [] => if cur = [] then [] else [cur]
  | cur, k :: ks =>
    if (((cur ++ [k]).map (·.size)).sum > 8388608 ∨ k.time - ((cur ++ [k]).head (by simp)).time > 60000) ∧ k.time - ((cur ++ [k]).head (by simp)).time > 20000
    then (cur ++ [k]) :: pagesOf [] ks
    else pagesOf (cur ++ [k]) ks

/-- No page has 2^32 or more keys, packets or bytes. -/
def Small (g : List Index.Key) : Prop := g.length < 4294967296 ∧ (g.map (·.parts)).sum < 4294967296 ∧ (g.map (·.size)).sum < 4294967296

/-- The index describes a recording, given as the packets of each key: the time of a key is that of its first packet; the number of packets and their
sizes are right, and there is room for all of them; times do not go back, and a key is later than all packets before it. -/
structure Describes (t : Track) (gs : List (List Pack)) : Prop where
  keys : t.keys.length = gs.length
  key : ∀ (i : Nat) g, gs[i]? = some g → ∃ p, g.head? = some p ∧ (t.key i).time = p.time ∧ (t.key i).parts = g.length ∧
    (g.map packLen).sum ≤ (t.key i).size ∧ (t.key i).firstPart = (gs.take i).flatten.length
  sizes : t.sizes = gs.flatten.map (·.data.length)
  last : ∀ p, gs.flatten.getLast? = some p → t.lastms = p.time
  order : gs.flatten.Pairwise (fun a b => a.time ≤ b.time)
  later : ∀ (i : Nat) g p, gs[i]? = some g → g.head? = some p → ∀ q ∈ (gs.take i).flatten, q.time < p.time
  small : ∀ g ∈ pagesOf [] t.keys, Small g

/-- The file is read as the recording: after seeking to a time `getNext` gives all packets from that time on in order, and maybe some before it. -/
def Faithful (gs : List (List Pack)) (src : Nat → List Pack) : Prop :=
  ∀ time, ∃ skipped, gs.flatten = skipped ++ src time ∧ ∀ p ∈ skipped, p.time < time

/-- The packets of the keys from `i` on, `n` keys. -/
def packets (gs : List (List Pack)) (i n : Nat) : List Pack := ((gs.drop i).take n).flatten

/-- What the memory of a page is when exactly the given packets are written to it. -/
def written (size : Nat) (ps : List Pack) : List (Nat × Bytes) := (bufferAll size 0 (ps.map fun p => ⟨true, 0, p⟩)).1

/-- The page has exactly the packets of its keys. -/
def Full (gs : List (List Pack)) (sl : Slot) : Prop :=
  sl.avail = ((packets gs sl.info.firstKey sl.info.keyCount).map packLen).sum ∧
  sl.mem = written sl.info.size (packets gs sl.info.firstKey sl.info.keyCount)

/-- The page of a key. -/
def On (sl : Slot) (key : Nat) : Prop := sl.info.firstKey ≤ key ∧ key < sl.info.firstKey + sl.info.keyCount

/-- The file is read as the recording whenever a page is asked for. -/
def AllFaithful (gs : List (List Pack)) (ops : List Op) : Prop := ∀ key now src, .want key now src ∈ ops → Faithful gs src

end Verif.Vod.Spec
