import Verif.Base.Bits

/-!
# Reading a transport stream packet (ISO/IEC 13818-1, 2.4.3)

Written from the standard's packet layout, without reference to the model of the code.
-/
namespace Verif.Ts.Spec

/-- What a transport stream packet says. `field` is the contents of the adaptation field. -/
structure View where
  pid : Nat
  unitStart : Bool
  cc : Nat
  field : Bytes
  payload : Bytes
deriving DecidableEq, Repr

/-- Reads a packet: exactly 188 bytes; sync byte; 1 bit error (must be 0), 1 bit unit start, 1 bit
priority, 13 bits PID; 2 bits scrambling (must be 0), 2 bits adaptation field control, 4 bits
continuity counter; optional adaptation field with its length byte; payload to the end. -/
def view (b : Bytes) : Option View :=
  match b with
  | s :: b1 :: b2 :: b3 :: r =>
    if b.length = 188 ∧ s = 0x47 ∧ b1.toNat < 128 ∧ b3.toNat < 64 then
      let pid := b1.toNat % 32 * 256 + b2.toNat
      let us : Bool := b1.toNat / 64 % 2 = 1
      let cc := b3.toNat % 16
      if b3.toNat / 16 = 1 then some ⟨pid, us, cc, [], r⟩
      else if b3.toNat / 16 = 3 then
        match r with
        | l :: r' => if l.toNat ≤ 183 then some ⟨pid, us, cc, r'.take l.toNat, r'.drop l.toNat⟩ else none
        | [] => none
      else none
    else none
  | _ => none

/-- Program clock reference of an adaptation field: bit 4 of the flags byte announces it; 33 bits
base, 6 reserved bits, 9 bits extension; the value is base * 300 + extension (27 MHz units). -/
def pcr (field : Bytes) : Option Nat :=
  match field with
  | fl :: r =>
    if fl.toNat / 16 % 2 = 1 ∧ 6 ≤ r.length then
      let bits := bytesBits (r.take 6)
      some (ofBits (bits.take 33) * 300 + ofBits (bits.drop 39))
    else none
  | [] => none

/-- Random access indicator (bit 6 of the flags byte). -/
def randomAccess (field : Bytes) : Bool :=
  match field with
  | fl :: _ => fl.toNat / 64 % 2 = 1
  | [] => false

/-- A 33-bit time stamp in a PES header: 4 lead bits, then 3 + 15 + 15 bits, each group followed by
a marker bit that is set (ISO/IEC 13818-1, 2.4.3.7). -/
def stampBits (lead t : Nat) : List Bool :=
  toBits 4 lead ++ toBits 3 (t / 2 ^ 30) ++ [true] ++ toBits 15 (t / 2 ^ 15) ++ [true] ++ toBits 15 t ++ [true]

/-- A media unit as the receiver should see it: payload bytes, decode time and presentation offset
in milliseconds. -/
structure Frame where
  data : Bytes
  time : Nat
  offset : Nat
deriving DecidableEq, Repr

/-- How often the 33-bit 90 kHz clock has wrapped at `t` milliseconds. -/
def wraps (t : Nat) : Nat := t * 90 / 2 ^ 33

/-- A track whose times do not go back, have no gap above 9000 seconds where the clock wraps, and end
before the clock wraps a fourth time. `last` is the previous frame's time. -/
def Steady : Nat → List Frame → Prop
  | _, [] => True
  | last, f :: r => last ≤ f.time ∧ (f.time ≤ last + 9000000 ∨ wraps f.time = wraps last) ∧ wraps f.time ≤ 3 ∧
      wraps (f.time + f.offset) = wraps f.time ∧ Steady f.time r

/-- What the `k`-th packet of a frame has to say. -/
structure PacketOf (pid c0 : Nat) (video key : Bool) (time k : Nat) (p : Bytes) (v : View) : Prop where
  pid : v.pid = pid % 8192
  unitStart : v.unitStart = decide (k = 0)
  cc : v.cc = (c0 + 1 + k) % 16
  payload : v.payload = p
  nonempty : p ≠ []
  clock : k = 0 ∧ video = true → Spec.pcr v.field = .some (time * 27000 % (2 ^ 33 * 300)) ∧ randomAccess v.field = key
  plain : ¬ (k = 0 ∧ video = true) → Spec.pcr v.field = none ∧ randomAccess v.field = false

/-- The packets `bs`, numbered from `k`, carry the payloads `ps` one by one. -/
def Carries (pid c0 : Nat) (video key : Bool) (time : Nat) : Nat → List Bytes → List Bytes → Prop
  | _, [], [] => True
  | k, b :: bs, p :: ps =>
    (∃ v, view b = some v ∧ PacketOf pid c0 video key time k p v) ∧ Carries pid c0 video key time (k + 1) bs ps
  | _, _, _ => False

end Verif.Ts.Spec
