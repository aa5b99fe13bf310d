import Verif.Bit.Model

/-!
# Model of `Util::RelAccX` (`/repo/lib/util.cpp` 842-1331, `/repo/lib/util.h` 102-235)

The header fields (4-byte counters and so on at fixed offsets) are kept as numbers; the memory
behind `p` is a function from addresses relative to `p` to bytes. The host is little-endian.
Nested tables, `DTSC` fields, printing and the out-of-band flags are not modelled.
-/
namespace Verif.Rax
open Verif.Bit

abbrev Mem := Nat → UInt8

/-- `memcpy` to memory. -/
def Mem.write (m : Mem) (a : Nat) (bs : Bytes) : Mem := fun x => if a ≤ x ∧ x < a + bs.length then bs.getD (x - a) 0 else m x

/-- `n` bytes from memory. -/
def Mem.read (m : Mem) (a n : Nat) : Bytes := (List.range n).map fun i => m (a + i)

/-- `RelAccXFieldData` (util.h 103-119). -/
structure FD where
  type : UInt8
  size : Nat
  offset : Nat
  deriving DecidableEq

structure Rax where
  rcount : Nat
  rsize : Nat
  startPos : Nat
  deleted : Nat
  present : Nat
  offset : Nat
  endPos : Nat
  mem : Mem

/-- `RECORD_POINTER` (41). -/
def Rax.addr (r : Rax) (fd : FD) (recordNo : Nat) : Nat :=
  r.offset + (if r.rcount ≠ 0 then recordNo % r.rcount else recordNo) * r.rsize + fd.offset

/-- `isRecordAvailable` (968-974). -/
def Rax.isRecordAvailable (r : Rax) (n : Nat) : Bool :=
  if r.deleted > n then false else if n ≥ r.endPos then false else true

/-- The stored form of an integer (1268-1287), both signednesses: 24-bit integers are big-endian, the
others in host order; other sizes are not written. -/
def encInt (size val : Nat) : Option Bytes :=
  if size = 1 ∨ size = 2 ∨ size = 4 ∨ size = 8 then some (leEnc size val)
  else if size = 3 then some (htob .b24 val)
  else none

def isUint (t : UInt8) : Bool := t &&& 0xF0 == 0x10
def isInt (t : UInt8) : Bool := t &&& 0xF0 == 0x20
def isString (t : UInt8) : Bool := t &&& 0xF0 == 0x30
def isRaw (t : UInt8) : Bool := t &&& 0xF0 == 0x40

/-- `setInt` (1266-1289). -/
def Rax.setInt (r : Rax) (fd : FD) (val recordNo : Nat) : Rax :=
  if isUint fd.type || isInt fd.type then
    match encInt fd.size val with
    | some bs => { r with mem := r.mem.write (r.addr fd recordNo) bs }
    | none => r
  else r

/-- Conversion of a signed integer of `8*size` bits to `uint64_t`. -/
def signExtend (size v : Nat) : Nat := if v < 256 ^ size / 2 then v else 2 ^ 64 - 256 ^ size + v

/-- `getInt` (1014-1037). -/
def Rax.getInt (r : Rax) (fd : FD) (recordNo : Nat) : Nat :=
  let bs := r.mem.read (r.addr fd recordNo) fd.size
  let plain := fd.size = 1 ∨ fd.size = 2 ∨ fd.size = 4 ∨ fd.size = 8
  if isUint fd.type then
    if plain then leVal bs else if fd.size = 3 then (btoh .b24 bs).getD 0 else 0
  else if isInt fd.type then
    if plain then signExtend fd.size (leVal bs) else if fd.size = 3 then (btoh .b24 bs).getD 0 else 0
  else 0

/-- `setString` (1245-1253). -/
def Rax.setString (r : Rax) (fd : FD) (val : Bytes) (recordNo : Nat) : Rax :=
  if isString fd.type || isRaw fd.type then
    let m := r.mem.write (r.addr fd recordNo) (val.take fd.size)
    if isString fd.type then { r with mem := m.write (r.addr fd recordNo + min val.length (fd.size - 1)) [0] }
    else { r with mem := m }
  else r

/-- `getPointer` with `getSize` (983-1004): a string field up to its terminator, at most the whole
field. -/
def Rax.getString (r : Rax) (fd : FD) (recordNo : Nat) : Bytes :=
  (r.mem.read (r.addr fd recordNo) fd.size).takeWhile (· ≠ 0)

/-- `deleteRecords` (1307-1318); `none`: the process exits. -/
def Rax.deleteRecords (r : Rax) (amount : Nat) : Option Rax :=
  if r.present ≥ amount then
    some { r with
      startPos := (r.startPos + amount) % 2 ^ 32
      deleted := (r.deleted + amount) % 2 ^ 64
      present := r.present - amount }
  else none

/-- `addRecords` (1322-1331); the difference is taken modulo 2^64. -/
def Rax.addRecords (r : Rax) (amount : Nat) : Rax :=
  { r with
    present := if (r.endPos + amount + (2 ^ 64 - r.deleted)) % 2 ^ 64 > r.rcount then 0 else (r.present + amount) % 2 ^ 32
    endPos := (r.endPos + amount) % 2 ^ 64 }

/-! ## The field list -/

/-- `getDefaultSize` (1134-1142). -/
def defaultSize (t : UInt8) : Nat :=
  if isInt t || isUint t then (t &&& 0x0F).toNat + 1
  else if isString t || isRaw t then 16 <<< (t &&& 0x0F).toNat
  else 0

/-- The table while fields are being added: the parsed fields, the descriptor bytes written from
offset 36 on, and the record size. -/
structure Schema where
  fields : List (Bytes × FD)
  bytes : Bytes
  rsize : Nat

def Schema.init : Schema := ⟨[], [], 0⟩

/-- `fields[name] = fd` on a `std::map`. -/
def setField (l : List (Bytes × FD)) (name : Bytes) (fd : FD) : List (Bytes × FD) :=
  (name, fd) :: l.filter (·.1 ≠ name)

/-- The number of type bytes (1173-1180). -/
def typeLen (t : UInt8) (len : Nat) : Nat :=
  if defaultSize t = len then 1 else if len < 0x100 then 2 else if len < 0x10000 then 3 else 5

/-- `addField` (1148-1196) on a table that is not ready yet. -/
def Schema.addField (s : Schema) (name : Bytes) (t : UInt8) (fLen : Nat) : Schema :=
  if name.length = 0 ∨ name.length > 31 then s
  else
    let len := if fLen = 0 then defaultSize t else fLen
    if len = 0 then s
    else
      let tl := typeLen t len
      { fields := setField s.fields name ⟨t, len, s.rsize⟩
        bytes := s.bytes ++ [UInt8.ofNat ((name.length <<< 3) ||| (tl &&& 7))] ++ name ++ [t] ++ leEnc (tl - 1) len
        rsize := (s.rsize + len) % 2 ^ 32 }

/-- Field size from a descriptor (899-925); `rest` follows the type byte. -/
def readSize (tl : Nat) (t : UInt8) (rest : Bytes) : Option Nat :=
  if tl = 1 then some (defaultSize t)
  else if tl = 2 then (if rest.length < 1 then none else some (leVal (rest.take 1)))
  else if tl = 3 then (if rest.length < 2 then none else some (leVal (rest.take 2)))
  else if tl = 4 then btoh .b24 rest
  else if tl = 5 then (if rest.length < 4 then none else some (leVal (rest.take 4)))
  else some 0

/-- Opening a ready table (888-932): the descriptors between offset 36 and the first record.
`none` stands for a read past the descriptors. -/
def openFields (bs : Bytes) (dataOffset : Nat) (acc : List (Bytes × FD)) : Option (List (Bytes × FD)) :=
  match bs with
  | [] => some acc
  | b :: r =>
    match r.drop (b.toNat >>> 3) with
    | [] => none
    | t :: rest =>
      match readSize (b.toNat &&& 7) t rest with
      | none => none
      | some size =>
        openFields (r.drop ((b.toNat >>> 3) + (b.toNat &&& 7))) (dataOffset + size)
          (setField acc (r.take (b.toNat >>> 3)) ⟨t, size, dataOffset % 2 ^ 32⟩)
  termination_by bs.length
  decreasing_by simp only [List.length_drop, List.length_cons]; omega

end Verif.Rax
