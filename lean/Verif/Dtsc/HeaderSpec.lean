import Verif.Dtsc.Header

/-!
# When a loaded track says the same as the one sent
-/
namespace Verif.Dtsc.Spec
open Verif.Index (Tab Part Key Frag)

/-- The records of a table, in order. -/
def rows {α : Type} (t : Tab α) : List α := (List.range t.pres).map fun i => t.get (t.start + i)

/-- The same kind of media, codec, data for decoders, language, times and bit rates, under the identifier `id`; sound also
with the same format, pictures with the same size and rates. A language that is not determined is left out. -/
structure SameInfo (a b : Info) (id : Nat) : Prop where
  type : b.type = a.type
  codec : b.codec = a.codec
  init : b.init = a.init
  lang : b.lang = if a.lang = [117, 110, 100] then [] else a.lang
  id : b.id = id
  firstms : b.firstms = a.firstms
  lastms : b.lastms = a.lastms
  bps : b.bps = a.bps
  maxbps : b.maxbps = a.maxbps
  audio : a.type = [97, 117, 100, 105, 111] → b.rate = a.rate ∧ b.size = a.size ∧ b.channels = a.channels
  video : a.type = [118, 105, 100, 101, 111] → b.width = a.width ∧ b.height = a.height ∧ b.fpks = a.fpks ∧ b.efpks = a.efpks

/-- The keys, with the packets counted from the first key on. -/
def counted (total : Nat) : List Key → List Key
  | [] => []
  | k :: r => { k with firstPart := total } :: counted (total + k.parts) r

/-- The same fragments, keys and packets, none of which counts as removed; the numbers by which fragments refer to keys
mean the same keys as before. -/
structure SameTables (a b : Trk) : Prop where
  frags : rows b.frags = rows a.frags
  keys : rows b.keys = counted 0 (rows a.keys)
  parts : rows b.parts = rows a.parts
  first : b.frags.del = 0 ∧ b.keys.del = 0 ∧ b.parts.del = 0
  link : ∀ i, i < a.keys.pres → { b.keys.get i with firstPart := 0 } = { a.keys.get i with firstPart := 0 }
  last : b.frags.fin = a.frags.pres ∧ b.keys.fin = a.keys.pres ∧ b.parts.fin = a.parts.pres

end Verif.Dtsc.Spec
