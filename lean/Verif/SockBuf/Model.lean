import Verif.Base.Bytes

/-!
# Model of `Socket::Buffer` (`/repo/lib/socket.cpp` 646-928)

The deque of blocks is listed oldest block first (`data.back()` is the head of `blocks`, new
blocks are added at the end). `unsigned int` sums are modulo 2^32. Logging is left out.
-/
namespace Verif.SockBuf

structure Buf where
  blocks : List Bytes
  splitter : Bytes
  deriving DecidableEq

/-- Constructor (646-648): splitter "\n". -/
def Buf.init : Buf := ⟨[], [0x0A]⟩

/-- `size` (653-656) drops empty blocks at the old end. -/
def Buf.popEmpty (b : Buf) : Buf := { b with blocks := b.blocks.dropWhile (·.isEmpty) }

/-- The loops of `bytes` (661-664), newest block first. -/
def bytesLoop (max : Nat) : List Bytes → Nat → Nat
  | [], i => i
  | b :: r, i => if (i + b.length) % 2 ^ 32 ≥ max then max else bytesLoop max r ((i + b.length) % 2 ^ 32)

/-- `bytes` (659-666). -/
def Buf.bytes (b : Buf) (max : Nat) : Nat := bytesLoop max b.blocks.reverse 0

/-- `bytesToSplit` (669-678). -/
def toSplitLoop (splitter : Bytes) : List Bytes → Nat → Nat
  | [], _ => 0
  | b :: r, i =>
    if b.length ≥ splitter.length ∧ b.drop (b.length - splitter.length) = splitter then (i + b.length) % 2 ^ 32
    else toSplitLoop splitter r ((i + b.length) % 2 ^ 32)

def Buf.bytesToSplit (b : Buf) : Nat := toSplitLoop b.splitter b.blocks 0

/-- `BUFFER_BLOCKSIZE` (socket.cpp 35). -/
def blockSize : Nat := 4096

/-- The scan for the end of one block with a splitter (709-716): `j` bytes of `s` taken so far. -/
def scanBlock (splitter s : Bytes) (j : Nat) : Nat :=
  if _h : j < s.length ∧ j < blockSize then
    if j + 1 ≥ splitter.length ∧ (s.drop (j + 1 - splitter.length)).take splitter.length = splitter then j + 1
    else scanBlock splitter s (j + 1)
  else j
  termination_by s.length - j

/-- Length of the next block (700-717) when `s` is still to be appended. -/
def nextBlock (splitter s : Bytes) : Nat :=
  if splitter = [] then (if s.length > blockSize then blockSize else s.length) else scanBlock splitter s 0

/-- The loop of `append` (698-726); the new blocks in order. -/
def cut (splitter s : Bytes) : List Bytes :=
  if h : s = [] ∨ nextBlock splitter s = 0 then []
  else s.take (nextBlock splitter s) :: cut splitter (s.drop (nextBlock splitter s))
  termination_by s.length
  decreasing_by
    have : s.length ≠ 0 := fun hh => h (.inl (List.eq_nil_of_length_eq_zero hh))
    simp only [List.length_drop]; omega

/-- `append` (696-731). -/
def Buf.append (b : Buf) (s : Bytes) : Buf := { b with blocks := b.blocks ++ cut b.splitter s }

/-- `prepend` (735-743). -/
def Buf.prepend (b : Buf) (s : Bytes) : Buf := { b with blocks := s :: b.blocks }

/-- The loop of `available` (749-752). -/
def availLoop (count : Nat) : List Bytes → Nat → Bool
  | [], _ => false
  | b :: r, i => if (i + b.length) % 2 ^ 32 ≥ count then true else availLoop count r ((i + b.length) % 2 ^ 32)

/-- `available` (746-754); the parameter is an `unsigned int`. -/
def Buf.available (b : Buf) (count : Nat) : Bool × Buf :=
  (availLoop (count % 2 ^ 32) b.popEmpty.blocks.reverse 0, b.popEmpty)

/-- `skip` (767-778). -/
def skipLoop (count : Nat) : List Bytes → Nat → List Bytes
  | [], _ => []
  | b :: r, i => if i + b.length ≤ count then skipLoop count r (i + b.length) else b.drop (count - i) :: r

def Buf.skip (b : Buf) (count : Nat) : Buf := { b with blocks := skipLoop count b.blocks 0 }

/-- The loop of both `remove` functions (787-797, 807-817): bytes taken, blocks left. -/
def removeLoop (count : Nat) : List Bytes → Nat → Bytes × List Bytes
  | [], _ => ([], [])
  | b :: r, i =>
    if i + b.length < count then
      let t := removeLoop count r (i + b.length)
      (b ++ t.1, [] :: t.2)
    else (b.take (count - i), b.drop (count - i) :: r)

/-- `remove` (782-799 and 803-818). -/
def Buf.remove (b : Buf) (count : Nat) : Bytes × Buf :=
  if (b.popEmpty.available count).1 then
    let t := removeLoop count b.popEmpty.blocks 0
    (t.1, { b with blocks := t.2 })
  else ([], b.popEmpty)

/-- The loop of `copy(count)` (828-836). -/
def copyLoop (count : Nat) : List Bytes → Nat → Bytes
  | [], _ => []
  | b :: r, i => if i + b.length < count then b ++ copyLoop count r (i + b.length) else b.take (count - i)

/-- `copy(count)` (822-838). -/
def Buf.copy (b : Buf) (count : Nat) : Bytes × Buf :=
  if (b.popEmpty.available count).1 then (copyLoop count b.popEmpty.blocks 0, b.popEmpty) else ([], b.popEmpty)

/-- `copy(ptr, count)` (842-853): the bytes appended to `ptr`. -/
def copyShortLoop (count : Nat) : List Bytes → Nat → Bytes
  | [], _ => []
  | b :: r, i =>
    let n := if i + b.length > count then count - i else b.length
    if i + n ≥ count then b.take n else b.take n ++ copyShortLoop count r (i + n)

def Buf.copyShort (b : Buf) (count : Nat) : Bytes := copyShortLoop count b.blocks 0

/-- `get` (858-866): the oldest block (after dropping empty ones). -/
def Buf.get (b : Buf) : Bytes × Buf := (b.popEmpty.blocks.headD [], b.popEmpty)

/-- `clear` (869-871). -/
def Buf.clear (b : Buf) : Buf := { b with blocks := [] }

/-- The chunk size chosen by `compact` (877-891); `none`: more than 256 MiB, give up. -/
def compactSize (preBytes : Nat) : Option Nat :=
  if preBytes > 4194304 then
    if preBytes > 16777216 then
      if preBytes > 33554432 then
        if preBytes > 268435456 then none else some 32768
      else some 16384
    else some 8192
  else some 4096

/-- The inner merging loop of `compact` (899-905): `cur` absorbs following blocks until it is large
enough. Returns the merged block, the number of absorbed blocks and what is left. -/
def absorb (size : Nat) (cur : Bytes) : List Bytes → Bytes × Nat × List Bytes
  | [] => (cur, 0, [])
  | b :: r =>
    if (cur ++ b).length ≥ size then (cur ++ b, 1, r)
    else
      let t := absorb size (cur ++ b) r
      (t.1, t.2.1 + 1, t.2.2)

theorem absorb_length (size : Nat) (cur : Bytes) (l : List Bytes) : (absorb size cur l).2.2.length ≤ l.length := by
  induction l generalizing cur with
  | nil => simp [absorb]
  | cons b r ih =>
    simp only [absorb]; split
    · simp
    · have := ih (cur ++ b); simp; omega

/-- The outer loop of `compact` (894-909): the blocks afterwards (absorbed blocks are left empty)
and whether anything was merged. -/
def compactLoop (size : Nat) (l : List Bytes) : List Bytes × Bool :=
  match l with
  | [] => ([], false)
  | b :: r =>
    if b.length < size then
      let t := absorb size b r
      let u := compactLoop size t.2.2
      (t.1 :: (List.replicate t.2.1 [] ++ u.1), t.2.1 ≠ 0 || u.2)
    else
      let u := compactLoop size r
      (b :: u.1, u.2)
  termination_by l.length
  decreasing_by
    · have := absorb_length size b r; simp; omega
    · simp

/-- `compact` (873-928): result and buffer. Empty blocks are erased one by one (914-922). -/
def Buf.compact (b : Buf) : Bool × Buf :=
  match compactSize (b.popEmpty.bytes 0xFFFFFFFF) with
  | none => (false, b.popEmpty)
  | some size =>
    let t := compactLoop size b.popEmpty.blocks
    if t.2 then (true, { b with blocks := t.1.filter (!·.isEmpty) }) else (false, { b with blocks := t.1 })

end Verif.SockBuf
