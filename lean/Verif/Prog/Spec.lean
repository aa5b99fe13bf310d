import Verif.Prog.Model
import Verif.Stbl.Spec
import Verif.Play.Spec

/-!
# What the MP4 file of a recording should be

The meaning of the tables is that of `Verif/Stbl/Spec.lean`, after the standard; the viewer that gets the packets is that of
`Verif/Play`.
-/
namespace Verif.Prog.Spec
open Verif.Prog

/-- Selected tracks of a recording. -/
structure Fine (R : List Trk) : Prop where
  ids : (R.map Trk.id).Nodup
  some : R ≠ []
  /-- every track has more than one packet, and not too many -/
  two : ∀ t ∈ R, 2 ≤ t.samples.length ∧ t.samples.length < 2 ^ 29
  /-- time goes forward, by less than 65.536 seconds, and is not extreme -/
  time : ∀ t ∈ R, t.samples.Pairwise (fun a b => a.time < b.time)
  gap : ∀ t ∈ R, ∀ (i : Nat) (a b : Sample), t.samples[i]? = .some a → t.samples[i + 1]? = .some b → b.time - a.time < 2 ^ 16
  early : ∀ t ∈ R, ∀ s ∈ t.samples, s.time < 2 ^ 64 - 1
  /-- packets are not too large, and their offsets are not negative and not too large -/
  size : ∀ t ∈ R, ∀ s ∈ t.samples, s.data.length < 2 ^ 31
  off : ∀ t ∈ R, ∀ s ∈ t.samples, 0 ≤ s.off ∧ s.off < 2 ^ 15

/-- The pages that a viewer reads hold the packets of the recording. -/
structure Holds (R : List Trk) (T : Nat → Play.Spec.Track) : Prop where
  good : ∀ t ∈ R, Play.Spec.Good (T t.id)
  now : ∀ t ∈ R, (T t.id).now = Play.Spec.lastTime (Play.Spec.packets (T t.id).pages)
  packets : ∀ t ∈ R, Play.Spec.packets (T t.id).pages = t.samples.map fun s => ⟨s.time, s.data⟩

/-- The tables in the header of the file for a track, as the standard reads them: offsets of version 0 are not negative. -/
def tables (t : Trk) (large : Bool) (calls : List (KeyPart × Nat)) : Stbl.Tables where
  scale := 1000
  video := t.video
  count := (stszOf t).length
  sizes := stszOf t
  stts := (sttsOf t).rows
  ctts := (cttsOf t).map fun b => b.rows.map fun e => (e.1, (e.2 : Int))
  stss := stssOf t
  stsc := stsc
  chunks := chunksOf t large calls

/-- All packets that a viewer of the recording gets from position `pos` on, after `k` requests. -/
def got (R : List Trk) (T : Nat → Play.Spec.Track) (flag : Nat → Bool) (pos k : Nat) : List (Nat × Play.Pkt) :=
  (Play.Spec.plays k (Play.Spec.start true false T (R.map fun t => (t.id, flag t.id)) pos).viewer).out

/-- The number of packets of the recording. -/
def total (R : List Trk) : Nat := (R.map fun t => t.samples.length).sum

/-- The file of a recording: the header, then all packets. -/
def file (header : Bytes) (out : List (Nat × Play.Pkt)) : Bytes := header ++ (out.map fun x => x.2.data).flatten

/-- The place of the `n`-th packet of the file. -/
def place (header : Bytes) (out : List (Nat × Play.Pkt)) (n : Nat) : Nat := header.length + ((out.take n).map fun x => x.2.data.length).sum

/-- What a client gets: bytes, up to the end of the response, or up to where they are not those of a packet. -/
def delivered : List Out → Bytes
  | [] => []
  | .beyond _ :: _ => []
  | .bytes b :: l => if b = [] then [] else b ++ delivered l

/-- Packets of different tracks have different times. -/
def Distinct (R : List Trk) : Prop := ∀ t ∈ R, ∀ u ∈ R, t.id ≠ u.id → ∀ a ∈ t.samples, ∀ b ∈ u.samples, a.time ≠ b.time

end Verif.Prog.Spec
