import Verif.Stbl.Model

/-!
# What the sample tables mean (ISO/IEC 14496-12, 8.6 and 8.7)
-/
namespace Verif.Stbl

/-- The durations of the samples, one by one (8.6.1.2). -/
def durations (t : Tables) : List Nat := t.stts.flatMap fun e => List.replicate e.1 e.2

/-- The decode time of the `n`-th sample, in units of the track: the durations of those before. -/
def decodeTime (t : Tables) (n : Nat) : Nat := ((durations t).take n).sum

/-- The composition offsets of the samples, one by one (8.6.1.3); zero if there is no table. -/
def offsets (t : Tables) : List Int :=
  match t.ctts with
  | none => List.replicate t.count 0
  | some l => l.flatMap fun e => List.replicate e.1 e.2

/-- The samples are key frames if the table lists their numbers, which start at one; without a table, all are (8.6.2). -/
def isSync (t : Tables) (n : Nat) : Prop :=
  match t.stss with
  | none => True
  | some l => n + 1 ∈ l

/-- The number of samples in a chunk, by its number, which starts at one: that of the last entry that does not start later (8.7.4). -/
def perChunk : List (Nat × Nat) → Nat → Nat
  | [], _ => 0
  | [e], _ => e.2
  | e :: f :: r, c => if c < f.1 then e.2 else perChunk (f :: r) c

/-- The samples before the `c`-th chunk, counted from zero. -/
def before (t : Tables) (c : Nat) : Nat := ((List.range c).map fun i => perChunk t.stsc (i + 1)).sum

/-- The size of the `n`-th sample (8.7.3): all are as large, or each has its entry. -/
def size (t : Tables) (n : Nat) : Nat := if t.allSize = 0 then t.sizes.getD n 0 else t.allSize

/-- The sizes of the samples from the `a`-th up to the `b`-th. -/
def sizes (t : Tables) (a b : Nat) : Nat := ((List.range' a (b - a)).map (size t)).sum

/-- Tables that describe the samples of a file. -/
structure Sound (t : Tables) : Prop where
  scale : 0 < t.scale
  few : t.count < 2 ^ 31
  /-- every sample has a duration -/
  times : (durations t).length = t.count
  /-- and the duration of the track is not extreme -/
  long : (durations t).sum < 2 ^ 54
  /-- every sample has an offset -/
  offs : (offsets t).length = t.count
  /-- the first sample is a key frame, the numbers of key frames increase and are those of samples -/
  keys : ∀ l, t.stss = some l → (∃ r, l = 1 :: r) ∧ l.Pairwise (· < ·) ∧ ∀ x ∈ l, x ≤ t.count
  /-- the table of chunks starts at the first chunk, the numbers of chunks increase and are those of chunks -/
  first : ∃ n r, t.stsc = (1, n) :: r
  order : (t.stsc.map Prod.fst).Pairwise (· < ·)
  inside : ∀ e ∈ t.stsc, e.1 ≤ t.chunks.length ∧ 0 < e.2
  /-- every sample is in a chunk -/
  filled : before t t.chunks.length = t.count
  /-- sizes of single samples, or one for all -/
  sized : t.allSize = 0 ∨ t.sizes = []
  /-- the file has less than 2^63 bytes -/
  file : ∀ (c p : Nat), t.chunks[c]? = some p → p < 2 ^ 62
  total : sizes t 0 t.count < 2 ^ 62

end Verif.Stbl
