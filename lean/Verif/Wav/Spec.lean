import Verif.Wav.Model

/-!
# RIFF files and samples
-/

namespace Verif.Wav.Spec
open Verif Verif.Wav

/-- A chunk: four bytes of type, the size of its content in four bytes, and the content, filled up to an even size. -/
def Chunk (type content b : Bytes) : Prop :=
  ∃ sz pad : Bytes, type.length = 4 ∧ sz.length = 4 ∧ leVal sz = content.length
    ∧ pad.length = content.length % 2 ∧ b = type ++ sz ++ content ++ pad

/-- Chunks one after the other. -/
def Chunks : List (Bytes × Bytes) → Bytes → Prop
  | [], b => b = []
  | c :: t, b => ∃ x y, Chunk c.1 c.2 x ∧ Chunks t y ∧ b = x ++ y

/-- A WAVE file with these chunks. -/
def WaveFile (cs : List (Bytes × Bytes)) (b : Bytes) : Prop :=
  ∃ body, Chunk [0x52, 0x49, 0x46, 0x46] ([0x57, 0x41, 0x56, 0x45] ++ body) b ∧ Chunks cs body

/-- The content of a format chunk. -/
structure Format where
  /-- format number -/
  tag : Nat
  /-- channels -/
  channels : Nat
  /-- samples per second -/
  rate : Nat
  /-- bytes per second -/
  bps : Nat
  /-- bytes per sample of all channels -/
  block : Nat
  /-- bits per sample -/
  bits : Nat
deriving DecidableEq

/-- The registered numbers of the codecs. -/
def formatTag : Codec → Nat
  | .pcm => 1
  | .float => 3
  | .alaw => 6
  | .ulaw => 7
  | .mp3 => 0x55

/-- The fields of a format chunk, by their place. -/
def readFormat (c : Bytes) : Format :=
  { tag := leVal (c.take 2), channels := leVal ((c.drop 2).take 2), rate := leVal ((c.drop 4).take 4),
    bps := leVal ((c.drop 8).take 4), block := leVal ((c.drop 12).take 2), bits := leVal ((c.drop 14).take 2) }

/-- Bytes in groups of `w`. -/
def Groups (w : Nat) : List Bytes → Bytes → Prop
  | [], b => b = []
  | g :: t, b => ∃ r, g.length = w ∧ Groups w t r ∧ b = g ++ r

end Verif.Wav.Spec
