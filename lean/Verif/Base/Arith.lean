import Verif.Base.Bytes

/-!
# Turning bit operations on numbers into arithmetic
-/
namespace Verif

/-- Or-ing in bits below position `k` is addition. -/
theorem or_eq_add (k : Nat) {x y : Nat} (hx : x % 2 ^ k = 0) (hy : y < 2 ^ k) :
    x ||| y = x + y := by
  have h := Nat.shiftLeft_add_eq_or_of_lt hy (x / 2 ^ k)
  rw [Nat.shiftLeft_eq] at h
  have : x / 2 ^ k * 2 ^ k = x := Nat.div_mul_cancel (Nat.dvd_of_mod_eq_zero hx)
  rw [this] at h
  exact h.symm

theorem and_mask (k x : Nat) : x &&& (2 ^ k - 1) = x % 2 ^ k := Nat.and_two_pow_sub_one_eq_mod x k

theorem and_ff (x : Nat) : x &&& 0xFF = x % 256 := and_mask 8 x

theorem shr (x k : Nat) : x >>> k = x / 2 ^ k := Nat.shiftRight_eq_div_pow x k

theorem shl (x k : Nat) : x <<< k = x * 2 ^ k := Nat.shiftLeft_eq x k

end Verif
