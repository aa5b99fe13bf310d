/-!
# Byte strings

Shared vocabulary. `std::string` / `char*` buffers are modelled as `List UInt8`
(the code base is built with `-funsigned-char`, `/repo/meson.build` line 2).
-/
namespace Verif

/-- A C++ `char` (unsigned, see above). -/
abbrev Byte := UInt8

/-- A C++ `std::string` or a length-delimited `char` buffer. -/
abbrev Bytes := List UInt8

/-- `UInt8` quantifiers can be decided by checking the 256 values. -/
theorem forall_byte {P : UInt8 → Prop} (h : ∀ n : Fin 256, P (UInt8.ofNat n.val)) (b : UInt8) :
    P b := by
  have := h ⟨b.toNat, b.toNat_lt⟩
  simpa using this

instance decForallByte (P : UInt8 → Prop) [DecidablePred P] : Decidable (∀ b, P b) :=
  if h : ∀ n : Fin 256, P (UInt8.ofNat n.val) then
    .isTrue (forall_byte h)
  else
    .isFalse fun h' => h fun _ => h' _

theorem Byte.ext_nat {a b : UInt8} (h : a.toNat = b.toNat) : a = b := UInt8.toNat_inj.mp h

theorem ofNat_toNat_byte (b : UInt8) : UInt8.ofNat b.toNat = b := by simp

/-- `static_cast<char>(n)` keeps the low 8 bits. -/
theorem u8n (n : Nat) : (UInt8.ofNat n).toNat = n % 256 := by
  simp [UInt8.toNat_ofNat']

theorem toNat_ofNat_byte {n : Nat} (h : n < 256) : (UInt8.ofNat n).toNat = n := by
  simp [UInt8.toNat_ofNat']; omega

/-- Big-endian value of a byte string (specification vocabulary). -/
def beVal : Bytes → Nat
  | [] => 0
  | b :: r => b.toNat * 256 ^ r.length + beVal r

/-- The `n`-byte big-endian representation of a number (low `8*n` bits of it). -/
def beEnc : Nat → Nat → Bytes
  | 0, _ => []
  | n + 1, v => UInt8.ofNat (v / 256 ^ n) :: beEnc n v

/-- Little-endian value of a byte string. -/
def leVal : Bytes → Nat
  | [] => 0
  | b :: r => b.toNat + 256 * leVal r

/-- The `n`-byte little-endian representation of a number. -/
def leEnc : Nat → Nat → Bytes
  | 0, _ => []
  | n + 1, v => UInt8.ofNat v :: leEnc n (v / 256)

@[simp] theorem beEnc_length (n v : Nat) : (beEnc n v).length = n := by
  induction n with
  | zero => rfl
  | succ n ih => simp [beEnc, ih]

@[simp] theorem leEnc_length (n v : Nat) : (leEnc n v).length = n := by
  induction n generalizing v with
  | zero => rfl
  | succ n ih => simp [leEnc, ih]

theorem beVal_lt (bs : Bytes) : beVal bs < 256 ^ bs.length := by
  induction bs with
  | nil => simp [beVal]
  | cons b r ih =>
    simp only [beVal, List.length_cons, Nat.pow_succ]
    have := b.toNat_lt
    have h2 : b.toNat * 256 ^ r.length ≤ 255 * 256 ^ r.length :=
      Nat.mul_le_mul_right _ (by omega)
    omega

theorem beVal_beEnc (n v : Nat) : beVal (beEnc n v) = v % 256 ^ n := by
  induction n with
  | zero => simp [beEnc, beVal, Nat.mod_one]
  | succ n ih =>
    simp only [beEnc, beVal, beEnc_length, ih, u8n]
    rw [Nat.pow_succ, Nat.mod_mul, Nat.mul_comm, Nat.add_comm]

theorem leVal_leEnc (n v : Nat) : leVal (leEnc n v) = v % 256 ^ n := by
  induction n generalizing v with
  | zero => simp [leEnc, leVal, Nat.mod_one]
  | succ n ih =>
    simp only [leEnc, leVal, ih, u8n]
    rw [Nat.pow_succ, Nat.mul_comm (256 ^ n) 256, Nat.mod_mul]

theorem beEnc_beVal (bs : Bytes) : beEnc bs.length (beVal bs) = bs := by
  induction bs with
  | nil => rfl
  | cons b r ih =>
    simp only [List.length_cons, beEnc, beVal]
    have hlt := beVal_lt r
    have hpos : 0 < 256 ^ r.length := Nat.pow_pos (by omega)
    congr 1
    · apply Byte.ext_nat
      rw [Nat.mul_comm, Nat.mul_add_div hpos, Nat.div_eq_of_lt hlt, u8n]
      have := b.toNat_lt
      omega
    · have key : ∀ n, n ≤ r.length → beEnc n (b.toNat * 256 ^ r.length + beVal r) = beEnc n (beVal r) := by
        intro n hn
        induction n with
        | zero => rfl
        | succ n ihn =>
          simp only [beEnc]
          rw [ihn (by omega)]
          congr 1
          apply Byte.ext_nat
          simp only [u8n]
          obtain ⟨k, hk⟩ : ∃ k, r.length = n + (k + 1) := ⟨r.length - n - 1, by omega⟩
          rw [hk, Nat.pow_add, Nat.pow_succ, ← Nat.mul_assoc, Nat.mul_comm b.toNat (256 ^ n), Nat.mul_assoc,
            Nat.mul_add_div (Nat.pow_pos (by omega))]
          rw [show b.toNat * (256 ^ k * 256) + beVal r / 256 ^ n
              = beVal r / 256 ^ n + 256 * (b.toNat * 256 ^ k) by grind, Nat.add_mul_mod_self_left]
      rw [key _ (Nat.le_refl _), ih]

end Verif
