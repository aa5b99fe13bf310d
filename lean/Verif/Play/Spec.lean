import Verif.Play.Model

/-!
# What a viewer should receive

A track is a sequence of packets, cut into keys, and the keys are spread over pages. Here are the tables that a correct index
has for it (that the index is correct is the subject of `Verif/Index` and `Verif/Live`), the ways a live track grows, and runs
of a viewer between them.
-/
namespace Verif.Play.Spec

/-- Pages of keys of packets. -/
abbrev Pages := List (List (List Pkt))

/-- A track: the number of its first key, its pages, and the time up to which nothing new will appear. -/
structure Track where
  n : Nat
  pages : Pages
  now : Nat

/-- All packets of the pages. -/
def packets (G : Pages) : List Pkt := G.flatten.flatten

/-- The time of the first packet. -/
def firstTime (l : List Pkt) : Nat := (l.head?.map Pkt.time).getD 0

/-- The time of the last packet. -/
def lastTime (l : List Pkt) : Nat := (l.getLast?.map Pkt.time).getD 0

/-- No page is empty, no key is empty, time goes forward, and "now" is not before the last packet. -/
structure Good (T : Track) : Prop where
  pages : T.pages ≠ []
  page : ∀ p ∈ T.pages, p ≠ []
  key : ∀ g ∈ T.pages.flatten, g ≠ []
  time : (packets T.pages).Pairwise (fun a b => a.time < b.time)
  now : lastTime (packets T.pages) ≤ T.now

/-- The table of pages. -/
def pageTable : Nat → Pages → List Page
  | _, [] => []
  | n, p :: G => ⟨n, p.length, firstTime p.flatten, true, p.flatten⟩ :: pageTable (n + p.length) G

/-- The table of keys; `prev` is the time of the packet before. -/
def keyTable : Option Nat → List (List Pkt) → List Key
  | _, [] => []
  | prev, g :: K => ⟨firstTime g, prev.map (firstTime g - ·)⟩ :: keyTable (some (lastTime g)) K

/-- What a viewer sees of a track all of whose pages are loaded. -/
def source (T : Track) : Src := ⟨T.n, keyTable none T.pages.flatten, pageTable T.n T.pages, lastTime (packets T.pages), T.now⟩

/-- What happens while a viewer watches: a packet is added to the last key of a track, or starts a key on the last page, or
starts a key on a new page; or the source tells that nothing before some time will come; or the viewer asks for a packet. -/
inductive Event where
  | more (tid : Nat) (p : Pkt)
  | key (tid : Nat) (p : Pkt)
  | page (tid : Nat) (p : Pkt)
  | clock (tid : Nat) (time : Nat)
  | play

/-- The pages with a packet in the last key. -/
def addPacket (G : Pages) (p : Pkt) : Pages :=
  G.dropLast ++ [(G.getLast?.getD []).dropLast ++ [((G.getLast?.getD []).getLast?.getD []) ++ [p]]]

/-- The pages with a packet in a new key on the last page. -/
def addKey (G : Pages) (p : Pkt) : Pages := G.dropLast ++ [(G.getLast?.getD []) ++ [[p]]]

/-- What an event does to track `t`. -/
def Event.grow (t : Nat) (T : Track) : Event → Track
  | .more tid p => if t = tid then { T with pages := addPacket T.pages p, now := p.time } else T
  | .key tid p => if t = tid then { T with pages := addKey T.pages p, now := p.time } else T
  | .page tid p => if t = tid then { T with pages := T.pages ++ [[[p]]], now := p.time } else T
  | .clock tid time => if t = tid then { T with now := time } else T
  | .play => T

/-- A source keeps its word: a packet comes after the packets before it and not before "now"; and "now" goes forward. -/
def Event.Legal (T : Nat → Track) : Event → Prop
  | .more tid p => lastTime (packets (T tid).pages) < p.time ∧ (T tid).now ≤ p.time
  | .key tid p => lastTime (packets (T tid).pages) < p.time ∧ (T tid).now ≤ p.time
  | .page tid p => lastTime (packets (T tid).pages) < p.time ∧ (T tid).now ≤ p.time
  | .clock tid time => (T tid).now ≤ time
  | .play => True

/-- Tracks and a viewer. -/
structure World where
  tracks : Nat → Track
  viewer : State

/-- The viewer looks at the tracks. -/
def look (T : Nat → Track) (st : State) : State := { st with src := fun t => source (T t) }

/-- An event happens. -/
def World.step (w : World) (ev : Event) : World :=
  match ev with
  | .play => { w with viewer := (prepareNext w.viewer).1 }
  | ev => ⟨fun t => ev.grow t (w.tracks t), look (fun t => ev.grow t (w.tracks t)) w.viewer⟩

/-- Events happen one after the other. -/
def World.run (w : World) (evs : List Event) : World := evs.foldl World.step w

/-- All events are legal when they happen. -/
def LegalRun : (Nat → Track) → List Event → Prop
  | _, [] => True
  | T, ev :: evs => ev.Legal T ∧ LegalRun (fun t => ev.grow t (T t)) evs

/-- A viewer that has selected tracks and sought to a position: track numbers come with a value for a flag that the program
does not set. -/
def start (sync live : Bool) (T : Nat → Track) (tids : List (Nat × Bool)) (pos : Nat) : World :=
  ⟨T, seekAll ⟨sync, live, fun t => source (T t), fun _ => none, [], []⟩ tids pos⟩

/-- The packets of track `t` that were handed out. -/
def sent (t : Nat) (out : List (Nat × Pkt)) : List Pkt := (out.filter (fun x => x.1 == t)).map Prod.snd

/-- The packets at a position and later. -/
def from_ (pos : Nat) (l : List Pkt) : List Pkt := l.filter (fun p => decide (pos ≤ p.time))

/-- How often the viewer asks for a packet. -/
def asks : List Event → Nat
  | [] => 0
  | .play :: evs => asks evs + 1
  | _ :: evs => asks evs

/-- Packets come in order of time; at the same time, in order of tracks. -/
def InOrder (out : List (Nat × Pkt)) : Prop :=
  out.Pairwise (fun a b => a.2.time < b.2.time ∨ (a.2.time = b.2.time ∧ a.1 < b.1))

/-- `k` times `prepareNext`. -/
def plays : Nat → State → State
  | 0, st => st
  | k + 1, st => plays k (prepareNext st).1

end Verif.Play.Spec
