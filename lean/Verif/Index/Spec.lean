import Verif.Index.Model

/-!
# What the index of a track should say

A stream is a list of fragments, a fragment a list of keys and a key a list of packets.
-/
namespace Verif.Index

/-- A key: the packets from one that can be decoded on its own up to the next one. -/
abbrev Group := List Packet

/-- The time of a key is that of its first packet. -/
def first (g : Group) : Nat := (g.head?.map Packet.time).getD 0

/-- The time of the last packet of a key. -/
def last (g : Group) : Nat := (g.getLast?.map Packet.time).getD 0

/-- The time of a fragment is that of its first key. -/
def fragFirst (f : List Group) : Nat := first (f.head?.getD [])

/-- The sum of a number over packets. -/
def total (f : Packet → Nat) (g : Group) : Nat := (g.map f).sum

/-- Of the packets that arrive, those that are not earlier than one before them are kept. -/
def accepted : Nat → List Packet → List Packet
  | _, [] => []
  | l, p :: r => if p.time < l then accepted l r else p :: accepted p.time r

/-- A packet starts a key after a key of time `t` if it is marked so or, in tracks without video, 2047 milliseconds later. -/
def Starts (video : Bool) (t : Nat) (q : Packet) : Prop := q.key = true ∨ (video = false ∧ t + 2047 ≤ q.time)

/-- The fragments and keys are cut where they should be. -/
structure Grouped (video : Bool) (minFrag : Nat) (fs : List (List Group)) : Prop where
  /-- there are no empty fragments -/
  frags : ∀ f ∈ fs, f ≠ []
  /-- there are no empty keys -/
  keys : ∀ g ∈ fs.flatten, g ≠ []
  /-- no packet inside a key should have started another one -/
  inside : ∀ g ∈ fs.flatten, ∀ q ∈ g.tail, ¬ Starts video (first g) q
  /-- every key but the first starts with a packet that should start one -/
  starts : ∀ k g h, fs.flatten[k]? = some g → fs.flatten[k + 1]? = some h → ∃ q, h.head? = some q ∧ Starts video (first g) q
  /-- no key inside a fragment comes `minFrag` or more after the fragment's start -/
  fragInside : ∀ f ∈ fs, ∀ g ∈ f.tail, first g < fragFirst f + minFrag
  /-- every fragment starts at least `minFrag` after the one before -/
  fragStarts : ∀ i f e, fs[i]? = some f → fs[i + 1]? = some e → fragFirst f + minFrag ≤ fragFirst e
  /-- times never decrease -/
  times : (fs.flatten.flatten.map Packet.time).Pairwise (· ≤ ·)

/-- The duration of the `i`-th packet: the time up to the next one; for the last one, that of the packet before. -/
def partDur (ps : List Packet) (i : Nat) : Nat :=
  match ps[i + 1]? with
  | some q => q.time - ((ps[i]?.map Packet.time).getD 0)
  | none => if i = 0 then 0 else ((ps[i]?.map Packet.time).getD 0) - ((ps[i - 1]?.map Packet.time).getD 0)

/-- The entry of the `i`-th packet. -/
structure PartIs (r : Part) (ps : List Packet) (i : Nat) (p : Packet) : Prop where
  size : r.size = p.size
  off : r.off = p.off
  dur : r.dur = partDur ps i

/-- The end of the `k`-th key: the start of the next key or, for the last one, its last packet. -/
def keyEnd (ks : List Group) (k : Nat) (g : Group) : Nat :=
  match ks[k + 1]? with
  | some h => first h
  | none => last g

/-- The entry of the `k`-th key. Durations, counts and sums are kept in 32 bits. -/
structure KeyIs (r : Key) (ks : List Group) (k : Nat) (g : Group) : Prop where
  /-- its first packet comes right after those of the keys before -/
  firstPart : r.firstPart = (ks.take k).flatten.length
  parts : r.parts = g.length % 2 ^ 32
  num : r.num = k % 2 ^ 32
  time : r.time = first g
  bpos : r.bpos = (g.head?.map Packet.bpos).getD 0
  dur : r.dur = (keyEnd ks k g - first g) % 2 ^ 32
  size : r.size = total Packet.sent g % 2 ^ 32

/-- The duration of the `i`-th fragment: up to the next one; zero for the last one. -/
def fragDur (fs : List (List Group)) (i : Nat) (f : List Group) : Nat :=
  match fs[i + 1]? with
  | some e => fragFirst e - fragFirst f
  | none => 0

/-- The entry of the `i`-th fragment. -/
structure FragIs (r : Frag) (fs : List (List Group)) (i : Nat) (f : List Group) : Prop where
  /-- its first key comes right after those of the fragments before -/
  firstKey : r.firstKey = (fs.take i).flatten.length % 2 ^ 32
  keys : r.keys = f.length % 2 ^ 16
  dur : r.dur = fragDur fs i f % 2 ^ 32
  size : r.size = total Packet.size f.flatten % 2 ^ 32

/-- A table offers exactly the records from `d` on to `n`. -/
structure Offers {α : Type} (t : Tab α) (d n : Nat) : Prop where
  del : t.del = d
  fin : t.fin = n
  pres : t.pres = n - d

/-- The index of track `t` describes the stream `fs` without its first `d` keys and its first `e` fragments. -/
structure Shows (t : Track) (fs : List (List Group)) (d e : Nat) : Prop where
  offParts : Offers t.parts (fs.flatten.take d).flatten.length fs.flatten.flatten.length
  offKeys : Offers t.keys d fs.flatten.length
  offFrags : Offers t.frags e fs.length
  parts : ∀ i p, (fs.flatten.take d).flatten.length ≤ i → fs.flatten.flatten[i]? = some p →
    PartIs (t.parts.get i) fs.flatten.flatten i p
  keys : ∀ k g, d ≤ k → fs.flatten[k]? = some g → KeyIs (t.keys.get k) fs.flatten k g
  frags : ∀ i f, e ≤ i → fs[i]? = some f → FragIs (t.frags.get i) fs i f
  /-- the first time is that of the first key that is left -/
  firstms : ∀ g, fs.flatten[d]? = some g → t.firstms = first g
  /-- the last time is that of the last packet -/
  lastms : t.lastms = last fs.flatten.flatten

/-- What the fields for single packets can hold: sizes of 32 bits, offsets of 16 bits with sign. -/
def Fits (p : Packet) : Prop := p.time < 2 ^ 64 ∧ p.size < 2 ^ 32 ∧ -2 ^ 15 ≤ p.off ∧ p.off < 2 ^ 15

/-- No more than 65535 milliseconds from one packet to the next. -/
def Close : List Packet → Prop
  | p :: q :: r => q.time - p.time < 2 ^ 16 ∧ Close (q :: r)
  | _ => True

/-! ## Histories -/

/-- What happens to a track. -/
inductive Op where
  | packet (p : Packet)
  | remove

/-- One event. A key is only removed if there are at least two fragments; the stream's buffer asks for five while it is
active (`/repo/src/input/input_buffer.cpp` 285-311). `none` is a crash. -/
def step (t : Track) : Op → Option Track
  | .packet p => update t p
  | .remove => if 2 ≤ t.frags.fin - t.frags.del then removeFirstKey t else some t

/-- A history. -/
def run (t : Track) : List Op → Option Track
  | [] => some t
  | o :: r => (step t o).bind fun t => run t r

/-- The packets of a history. -/
def packets : List Op → List Packet
  | [] => []
  | .packet p :: r => p :: packets r
  | .remove :: r => packets r

/-- The number of removals that a history asks for. -/
def removals : List Op → Nat
  | [] => 0
  | .packet _ :: r => removals r
  | .remove :: r => removals r + 1

end Verif.Index
