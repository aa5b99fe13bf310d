import Verif.Mp4.Spec
import Verif.Fmp4.Model

/-!
# Fragments of MP4 files, with all optional fields (ISO/IEC 14496-12, 8.8)
-/
namespace Verif.Fmp4
open Verif.Mp4 Verif.Stbl

/-- A field that may be missing. -/
def opt (w : Nat) : Option Nat → Bytes
  | none => []
  | some v => beEnc w v

/-- A flag. -/
def bit (b : Bool) (v : Nat) : Nat := if b then v else 0

/-- Track fragment header (8.8.7). -/
structure Tfhd where
  track : Nat
  /-- default-base-is-moof -/
  moof : Bool
  base : Option Nat
  desc : Option Nat
  dur : Option Nat
  size : Option Nat
  flags : Option Nat

/-- The flags of a track fragment header. -/
def Tfhd.word (h : Tfhd) : Nat :=
  bit h.base.isSome 1 + bit h.desc.isSome 2 + bit h.dur.isSome 8 + bit h.size.isSome 0x10 + bit h.flags.isSome 0x20 + bit h.moof 0x20000

/-- The content of the box. -/
def Tfhd.bytes (h : Tfhd) : Bytes :=
  beEnc 1 0 ++ beEnc 3 h.word ++ beEnc 4 h.track ++ opt 8 h.base ++ opt 4 h.desc ++ opt 4 h.dur ++ opt 4 h.size ++ opt 4 h.flags

/-- What fits into the fields. -/
def Tfhd.Fits (h : Tfhd) : Prop :=
  h.track < 2 ^ 32 ∧ (∀ x, h.dur = some x → x < 2 ^ 32) ∧ (∀ x, h.size = some x → x < 2 ^ 32) ∧ (∀ x, h.flags = some x → x < 2 ^ 32)

/-- One sample of a run; those fields count that the run has. -/
structure Row where
  dur : Nat := 0
  size : Nat := 0
  flags : Nat := 0
  off : Nat := 0
  deriving DecidableEq, Repr

/-- A run (8.8.8). -/
structure Run where
  data : Option Nat
  first : Option Nat
  hasDur : Bool
  hasSize : Bool
  hasFlags : Bool
  hasOff : Bool
  rows : List Row

/-- The flags of a run. -/
def Run.word (r : Run) : Nat :=
  bit r.data.isSome 1 + bit r.first.isSome 4 + bit r.hasDur 0x100 + bit r.hasSize 0x200 + bit r.hasFlags 0x400 + bit r.hasOff 0x800

/-- A sample of a run. -/
def Run.row (r : Run) (x : Row) : Bytes :=
  (if r.hasDur then beEnc 4 x.dur else []) ++ (if r.hasSize then beEnc 4 x.size else []) ++ (if r.hasFlags then beEnc 4 x.flags else []) ++
    (if r.hasOff then beEnc 4 x.off else [])

/-- The content of the box, of any version. -/
def Run.bytes (r : Run) (version : Nat) : Bytes :=
  beEnc 1 version ++ beEnc 3 r.word ++ beEnc 4 r.rows.length ++ opt 4 r.data ++ opt 4 r.first ++ r.rows.flatMap r.row

/-- What fits into the fields. -/
def Run.Fits (r : Run) : Prop :=
  (∀ x, r.data = some x → x < 2 ^ 32) ∧ (∀ x, r.first = some x → x < 2 ^ 32) ∧
    (∀ x ∈ r.rows, x.dur < 2 ^ 32 ∧ x.size < 2 ^ 32 ∧ x.flags < 2 ^ 32 ∧ x.off < 2 ^ 32) ∧ r.rows.length < 2 ^ 31

/-- Base decode time (8.8.12), in 32 or 64 bits. -/
def tfdtBytes (wide : Bool) (base : Nat) : Bytes := if wide then beEnc 4 0x01000000 ++ beEnc 8 base else beEnc 4 0 ++ beEnc 4 base

/-- Boxes in a row, by their types and contents. -/
def pack (kids : List (Bytes × Bytes)) : Bytes := kids.flatMap fun k => box k.1 k.2

/-- Types of four bytes, contents that are not empty, and less than a gigabyte in all. -/
def Kids (kids : List (Bytes × Bytes)) : Prop := (∀ k ∈ kids, k.1.length = 4 ∧ 0 < k.2.length) ∧ (pack kids).length < 2 ^ 30

/-- The contents of the boxes of a type. -/
def kidsOf (kids : List (Bytes × Bytes)) (ty : Bytes) : List Bytes := (kids.filter fun k => k.1 == ty).map Prod.snd

/-- What a fragment says about one track: the header, the base decode time, and the runs. -/
structure Traf where
  head : Tfhd
  wide : Bool
  base : Nat
  runs : List (Nat × Run)

/-- Boxes that say so; there may be others in between. -/
structure Traf.Says (t : Traf) (l : List (Bytes × Bytes)) : Prop where
  kids : Kids l
  head : kidsOf l tyTfhd = [t.head.bytes]
  base : kidsOf l tyTfdt = [tfdtBytes t.wide t.base]
  runs : kidsOf l tyTrun = t.runs.map fun r => r.2.bytes r.1
  fits : t.head.Fits ∧ t.base < 2 ^ (if t.wide then 64 else 32) ∧ ∀ r ∈ t.runs, r.2.Fits

/-- The duration of a sample: of its own, of the fragment, or of the track (8.8.3). -/
def durOf (t : Traf) (trex : Option Trex) (r : Run) (x : Row) : Nat :=
  if r.hasDur then x.dur else t.head.dur.getD ((trex.map Trex.dur).getD 0)
/-- The size of a sample. -/
def sizeOf (t : Traf) (trex : Option Trex) (r : Run) (x : Row) : Nat :=
  if r.hasSize then x.size else t.head.size.getD ((trex.map Trex.size).getD 0)
/-- The flags of the `i`-th sample of a run: its own, those of the first, those of the fragment or of the track. -/
def flagsOf (t : Traf) (trex : Option Trex) (r : Run) (i : Nat) (x : Row) : Nat :=
  if r.hasFlags then x.flags else
  match i, r.first with
  | 0, some f => f
  | _, _ => t.head.flags.getD ((trex.map Trex.flags).getD 0)
/-- The composition offset of a sample; zero if the run has none. -/
def offOf (r : Run) (x : Row) : Nat := if r.hasOff then x.off else 0

/-- The durations of all samples of a track in a fragment. -/
def Traf.durs (t : Traf) (trex : Option Trex) : List Nat := t.runs.flatMap fun r => r.2.rows.map (durOf t trex r.2)

/-- The number of samples. -/
def Traf.count (t : Traf) : Nat := (t.runs.map fun r => r.2.rows.length).sum

/-- A fragment: boxes in a box. The boxes of type `traf` are these, in this order. -/
structure Moof (l : List (Bytes × Bytes)) (ts : List (Traf × List (Bytes × Bytes))) : Prop where
  kids : Kids l
  trafs : kidsOf l tyTraf = ts.map fun t => pack t.2
  meaning : ∀ t ∈ ts, t.1.Says t.2

/-- What there is to know about the `n`-th sample of a track in a fragment that starts at byte `at0` of the file: it is the `i`-th of a run, it starts after those
before it in the run, which start at the data offset of the run; it is decoded at the base time and the durations of all samples before it; it is a key frame
unless the flag sample_is_non_sync_sample (bit 16) is set. -/
def Traf.IsSample (t : Traf) (trex : Option Trex) (scale at0 n : Nat) (p : Part) : Prop :=
  ∃ (pre post : List (Nat × Run)) (v : Nat) (r : Run) (i : Nat) (x : Row) (data : Nat),
    t.runs = pre ++ (v, r) :: post ∧ n = (pre.map fun q => q.2.rows.length).sum + i ∧ r.rows[i]? = some x ∧ r.data = some data ∧
    p.time = (t.base + ((t.durs trex).take n).sum) * 1000 / scale ∧ p.off = ((offOf r x * 1000 / scale : Nat) : Int) ∧
    p.key = !(flagsOf t trex r i x).testBit 16 ∧ p.pos = at0 + data + ((r.rows.take i).map (sizeOf t trex r)).sum ∧ p.size = sizeOf t trex r x

/-- Fragments whose samples are where their runs say, after the start of the fragment, with times that are not extreme. -/
structure Traf.Plain (t : Traf) (trex : Option Trex) (scale : Nat) : Prop where
  moof : t.head.moof = true
  base : t.head.base = none
  data : ∀ r ∈ t.runs, r.2.data.isSome = true
  few : t.count < 2 ^ 32
  /-- every sample takes a millisecond or more -/
  slow : ∀ d ∈ t.durs trex, scale ≤ d * 1000
  time : t.base + (t.durs trex).sum < 2 ^ 54
  offs : ∀ r ∈ t.runs, ∀ x ∈ r.2.rows, offOf r.2 x * 1000 < 2 ^ 31

end Verif.Fmp4
