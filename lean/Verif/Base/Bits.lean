import Verif.Base.Bytes

/-!
# Bit strings, most significant bit first

Specification vocabulary: a number as a fixed-width list of bits and back.
-/
namespace Verif

/-- The `w` low bits of `v`, most significant first. -/
def toBits : Nat → Nat → List Bool
  | 0, _ => []
  | w + 1, v => (decide (v / 2 ^ w % 2 = 1)) :: toBits w v

/-- The number written by a list of bits, most significant first. -/
def ofBits : List Bool → Nat
  | [] => 0
  | b :: r => (if b then 2 ^ r.length else 0) + ofBits r

/-- All bits of a byte string, in transmission order. -/
def bytesBits : Bytes → List Bool
  | [] => []
  | b :: r => toBits 8 b.toNat ++ bytesBits r

@[simp] theorem toBits_length (w v : Nat) : (toBits w v).length = w := by
  induction w with
  | zero => rfl
  | succ w ih => simp [toBits, ih]

@[simp] theorem bytesBits_length (bs : Bytes) : (bytesBits bs).length = 8 * bs.length := by
  induction bs with
  | nil => rfl
  | cons b r ih => simp [bytesBits, ih]; omega

theorem bytesBits_append (a b : Bytes) : bytesBits (a ++ b) = bytesBits a ++ bytesBits b := by
  induction a with
  | nil => rfl
  | cons x r ih => simp [bytesBits, ih]

theorem ofBits_lt (l : List Bool) : ofBits l < 2 ^ l.length := by
  induction l with
  | nil => simp [ofBits]
  | cons b r ih =>
    simp only [ofBits, List.length_cons, Nat.pow_succ]
    split <;> omega

theorem ofBits_toBits (w v : Nat) : ofBits (toBits w v) = v % 2 ^ w := by
  induction w with
  | zero => simp [toBits, ofBits, Nat.mod_one]
  | succ w ih =>
    simp only [toBits, ofBits, toBits_length, ih]
    rw [Nat.pow_succ, Nat.mod_mul]
    rcases Nat.mod_two_eq_zero_or_one (v / 2 ^ w) with h | h <;> simp [h] <;> omega

theorem ofBits_append (a b : List Bool) : ofBits (a ++ b) = ofBits a * 2 ^ b.length + ofBits b := by
  induction a with
  | nil => simp [ofBits]
  | cons x r ih =>
    simp only [List.cons_append, ofBits, ih, List.length_append, Nat.pow_add, Nat.add_mul]
    split <;> omega

theorem toBits_congr {w a b : Nat} (h : a % 2 ^ w = b % 2 ^ w) : toBits w a = toBits w b := by
  induction w with
  | zero => rfl
  | succ w ih =>
    have h1 : a % 2 ^ w = b % 2 ^ w := by
      have := congrArg (· % 2 ^ w) h
      simpa [Nat.pow_succ, Nat.mod_mul_right_mod] using this
    have h2 : a / 2 ^ w % 2 = b / 2 ^ w % 2 := by
      rw [Nat.pow_succ] at h
      have := congrArg (· / 2 ^ w) h
      simpa [Nat.mod_mul_right_div_self] using this
    simp [toBits, ih h1, h2]

theorem toBits_ofBits (l : List Bool) : toBits l.length (ofBits l) = l := by
  induction l with
  | nil => rfl
  | cons b r ih =>
    have hlt := ofBits_lt r
    have hp : 0 < 2 ^ r.length := Nat.pow_pos (by omega)
    simp only [List.length_cons, toBits, ofBits]
    congr 1
    · cases b
      · simp [Nat.div_eq_of_lt hlt]
      · simp [Nat.add_div_left _ hp, Nat.div_eq_of_lt hlt]
    · rw [toBits_congr (b := ofBits r), ih]
      cases b <;> simp

theorem toBits_add (m n v : Nat) : toBits (m + n) v = toBits m (v / 2 ^ n) ++ toBits n v := by
  induction m with
  | zero => simp [toBits]
  | succ m ih =>
    rw [Nat.succ_add]
    simp only [toBits, ih, List.cons_append]
    rw [Nat.add_comm m n, Nat.pow_add, Nat.div_div_eq_div_mul]

theorem toBits_inj {w a b : Nat} (ha : a < 2 ^ w) (hb : b < 2 ^ w) (h : toBits w a = toBits w b) :
    a = b := by
  have := congrArg ofBits h
  rwa [ofBits_toBits, ofBits_toBits, Nat.mod_eq_of_lt ha, Nat.mod_eq_of_lt hb] at this

theorem bytesBits_inj {a b : Bytes} (h : bytesBits a = bytesBits b) : a = b := by
  induction a generalizing b with
  | nil =>
    cases b with
    | nil => rfl
    | cons y s => simp [bytesBits, toBits] at h
  | cons x r ih =>
    cases b with
    | nil => simp [bytesBits, toBits] at h
    | cons y s =>
      simp only [bytesBits] at h
      obtain ⟨h1, h2⟩ := List.append_inj h (by simp)
      have := toBits_inj x.toNat_lt y.toNat_lt h1
      rw [Byte.ext_nat this, ih h2]

/-- Bits of the big-endian encoding of a number. -/
theorem bytesBits_beEnc (n v : Nat) : bytesBits (beEnc n v) = toBits (8 * n) v := by
  induction n with
  | zero => rfl
  | succ n ih =>
    simp only [beEnc, bytesBits, ih]
    rw [show 8 * (n + 1) = 8 + 8 * n by omega, toBits_add 8 (8 * n)]
    congr 1
    apply toBits_congr
    rw [u8n, Nat.pow_mul]
    simp

end Verif
