import Verif.Base.Bytes
import Verif.Mp4.Model

/-!
# Fragments of MP4 files (ISO/IEC 14496-12)
-/
namespace Verif.Mp4

/-- A box (4.2): its size, its type and its content. -/
def box (ty content : Bytes) : Bytes := beEnc 4 (8 + content.length) ++ ty ++ content

/-- One sample of a run (8.8.8), with duration, size and composition offset. -/
structure Row where
  dur : Nat
  size : Nat
  off : Nat
  deriving DecidableEq, Repr

/-- What fits into the fields. -/
def Row.Fits (r : Row) : Prop := r.dur < 2 ^ 32 ∧ r.size < 2 ^ 32 ∧ r.off < 2 ^ 32

/-- A sample in a run box. -/
def Row.bytes (r : Row) : Bytes := beEnc 4 r.dur ++ beEnc 4 r.size ++ beEnc 4 r.off

/-- What a fragment with one run says. -/
structure Frag where
  /-- `sequence_number` (8.8.5) -/
  seq : Nat
  /-- `track_ID` (8.8.7) -/
  track : Nat
  /-- `default_sample_flags` (8.8.7) -/
  flags : Nat
  /-- `baseMediaDecodeTime` (8.8.12) -/
  base : Nat
  /-- `data_offset` from the start of the fragment (8.8.8) -/
  data : Nat
  /-- `first_sample_flags` (8.8.8) -/
  first : Nat
  rows : List Row

/-- A fragment with one run: `moof` with `mfhd` and `traf`; `traf` with `tfhd` (default-base-is-moof, sample description 1, default sample
flags), `tfdt` (version 1) and `trun` (version 0, with data offset, flags of the first sample, and duration, size and composition
offset of every sample). -/
def Frag.bytes (f : Frag) : Bytes :=
  box tyMoof (box tyMfhd (beEnc 4 0 ++ beEnc 4 f.seq) ++
    box tyTraf (box tyTfhd (beEnc 4 0x020022 ++ beEnc 4 f.track ++ beEnc 4 1 ++ beEnc 4 f.flags) ++
      box tyTfdt (beEnc 4 0x01000000 ++ beEnc 8 f.base) ++
      box tyTrun (beEnc 4 0xB05 ++ beEnc 4 f.rows.length ++ beEnc 4 f.data ++ beEnc 4 f.first ++ f.rows.flatMap Row.bytes)))

/-- The decode time of the `i`-th sample: the base and the durations of those before. -/
def Frag.time (f : Frag) (i : Nat) : Nat := f.base + ((f.rows.take i).map Row.dur).sum

/-- The place of the `i`-th sample, from the start of the fragment: after those before. -/
def Frag.place (f : Frag) (i : Nat) : Nat := f.data + ((f.rows.take i).map Row.size).sum

/-- The data of the `i`-th sample in a file that starts with the fragment. -/
def Frag.sample (f : Frag) (file : Bytes) (i : Nat) : Bytes := (file.drop (f.place i)).take ((f.rows[i]?.map Row.size).getD 0)

/-- Decoding can start at the `i`-th sample: the bit `sample_is_non_sync_sample` (8.8.3) is not set. -/
def Frag.sync (f : Frag) (i : Nat) : Bool := (if i = 0 then f.first else f.flags) / 2 ^ 16 % 2 = 0

end Verif.Mp4
