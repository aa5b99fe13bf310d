import Verif.Ip.Model
import Verif.Base.Arith

/-!
# C40: address ranges
-/
namespace Verif.Ip

theorem bytesBits_length (a : Bytes) : (bytesBits a).length = 8 * a.length := by
  induction a with
  | nil => rfl
  | cons x r ih => simp [bytesBits, ih, toBits]; omega

theorem mask_eq : ∀ (x : UInt8) (j : Fin 8), x.toNat &&& (0xFF <<< (8 - j.val)) = x.toNat / 2 ^ (8 - j.val) * 2 ^ (8 - j.val) := by
  decide +kernel

theorem toBits_length (w v : Nat) : (toBits w v).length = w := by
  induction w with
  | zero => rfl
  | succ w ih => simp [toBits, ih]

theorem mask_bits (x y : UInt8) (j : Nat) (hj : j < 8) :
    (x.toNat &&& (0xFF <<< (8 - j))) = (y.toNat &&& (0xFF <<< (8 - j))) ↔ (toBits 8 x.toNat).take j = (toBits 8 y.toNat).take j := by
  rw [mask_eq x ⟨j, hj⟩, mask_eq y ⟨j, hj⟩]
  simp only
  have e : ∀ v, (toBits 8 v).take j = toBits j (v / 2 ^ (8 - j)) := by
    intro v
    have := toBits_add j (8 - j) v
    rw [show j + (8 - j) = 8 by omega] at this
    have hl : j = (toBits j (v / 2 ^ (8 - j))).length := by rw [toBits_length]
    rw [this]
    conv => lhs; arg 1; rw [hl]
    rw [List.take_left]
  rw [e, e]
  constructor
  · intro h
    have hp : 0 < 2 ^ (8 - j) := Nat.two_pow_pos _
    rw [Nat.eq_of_mul_eq_mul_right hp h]
  · intro h
    have hx : x.toNat / 2 ^ (8 - j) < 2 ^ j := by
      rw [Nat.div_lt_iff_lt_mul (Nat.two_pow_pos _), ← Nat.pow_add, show j + (8 - j) = 8 by omega]
      exact x.toNat_lt
    have hy : y.toNat / 2 ^ (8 - j) < 2 ^ j := by
      rw [Nat.div_lt_iff_lt_mul (Nat.two_pow_pos _), ← Nat.pow_add, show j + (8 - j) = 8 by omega]
      exact y.toNat_lt
    rw [toBits_inj hx hy h]

/-- Addresses agree in their first `p` bits (specification). -/
def agree (p : Nat) (a b : Bytes) : Prop := (bytesBits a).take p = (bytesBits b).take p

instance (p : Nat) (a b : Bytes) : Decidable (agree p a b) := by unfold agree; infer_instance

theorem take_bits (a : Bytes) (k : Nat) (h : k ≤ a.length) : (bytesBits a).take (8 * k) = bytesBits (a.take k) := by
  conv => lhs; rw [← List.take_append_drop k a, bytesBits_append]
  have : 8 * k = (bytesBits (a.take k)).length := by rw [bytesBits_length]; simp; omega
  rw [this, List.take_left]

theorem take_bits_more (a : Bytes) (k j : Nat) (hj : j < 8) (h : k < a.length) :
    (bytesBits a).take (8 * k + j) = bytesBits (a.take k) ++ (toBits 8 a[k].toNat).take j := by
  have e : a = a.take k ++ a[k] :: a.drop (k + 1) := by
    rw [← List.drop_eq_getElem_cons h, List.take_append_drop]
  conv => lhs; rw [e, bytesBits_append]
  have hl : (bytesBits (a.take k)).length = 8 * k := by rw [bytesBits_length]; simp; omega
  rw [List.take_append, hl, show 8 * k + j - 8 * k = j by omega, List.take_of_length_le (by rw [hl]; omega)]
  rw [bytesBits, List.take_append_of_le_length (by rw [toBits_length]; omega)]

/-- C40. For prefix lengths from 1 to 128 two addresses match exactly when their first bits agree.
(Partial: prefix 0 and prefixes above 128 do not behave, see the `_fails` theorems.) -/
theorem C40_match_partial (a b : Bytes) (ha : a.length = 16) (hb : b.length = 16) (p : Nat) (h1 : 1 ≤ p) (h2 : p ≤ 128) :
    matchIPv6Addr a b p = some (decide (agree p a b)) := by
  have hk : p / 8 ≤ 16 := by omega
  have hp : p = 8 * (p / 8) + p % 8 := by omega
  have hs : same a b (p / 8) = some (a.take (p / 8) == b.take (p / 8)) := by
    unfold same
    rw [if_pos (by omega), List.take_append_of_le_length (by omega), List.take_append_of_le_length (by omega)]
  unfold matchIPv6Addr
  simp only [if_neg (show p ≠ 0 by omega), hs]
  by_cases he : a.take (p / 8) = b.take (p / 8)
  · rw [he, beq_self_eq_true]
    simp only
    by_cases hj : p % 8 = 0
    · rw [if_neg (by omega)]
      have : agree p a b := by
        unfold agree
        rw [show p = 8 * (p / 8) by omega, take_bits a _ (by omega), take_bits b _ (by omega)]
        rw [he]
      simp [this]
    · rw [if_pos hj]
      have hka : p / 8 < a.length := by omega
      have hkb : p / 8 < b.length := by omega
      have ra : rd a (p / 8) = some a[p / 8] := by unfold rd; rw [if_pos hka, List.getElem?_eq_getElem hka]
      have rb : rd b (p / 8) = some b[p / 8] := by unfold rd; rw [if_pos hkb, List.getElem?_eq_getElem hkb]
      rw [ra, rb]
      simp only [Option.some.injEq]
      have hiff : agree p a b ↔ (a[p / 8].toNat &&& (0xFF <<< (8 - p % 8))) = (b[p / 8].toNat &&& (0xFF <<< (8 - p % 8))) := by
        rw [mask_bits _ _ _ (by omega)]
        unfold agree
        have ea := take_bits_more a (p / 8) (p % 8) (by omega) hka
        have eb := take_bits_more b (p / 8) (p % 8) (by omega) hkb
        rw [← hp] at ea eb
        rw [ea, eb, he, List.append_cancel_left_eq]
      by_cases hq : agree p a b
      · simp [hq, hiff.mp hq]
      · have : ¬ _ := fun hh => hq (hiff.mpr hh)
        simp only [hq, decide_false]
        exact beq_eq_false_iff_ne.mpr this
  · have : ¬ agree p a b := by
      intro h
      apply he
      unfold agree at h
      have h' := congrArg (List.take (8 * (p / 8))) h
      rw [List.take_take, List.take_take, show min (8 * (p / 8)) p = 8 * (p / 8) by omega, take_bits a _ (by omega), take_bits b _ (by omega)] at h'
      exact bytesBits_inj h'
    rw [show (a.take (p / 8) == b.take (p / 8)) = false from beq_eq_false_iff_ne.mpr he]
    simp [this]

/-- The 16-byte form of an IPv4 address (::ffff:a.b.c.d). -/
def v4mapped (a : Bytes) : Bytes := [0, 0, 0, 0, 0, 0, 0, 0, 0, 0, 0xFF, 0xFF] ++ a

/-- C40. An IPv4 range with a prefix length from 1 to 32 matches exactly the IPv4 addresses that agree in
that many bits. -/
theorem C40_v4_partial (a b : Bytes) (ha : a.length = 4) (hb : b.length = 4) (p : Nat) (h1 : 1 ≤ p) (h2 : p ≤ 32) :
    matchOne true (v4mapped a) (v4mapped b) p = some (decide (agree p a b)) := by
  unfold matchOne
  rw [if_pos rfl, show p % 256 = p by omega, if_pos (by omega), show (p + 96) % 256 = 96 + p by omega]
  rw [C40_match_partial _ _ (by simp [v4mapped, ha]) (by simp [v4mapped, hb]) _ (by omega) (by omega)]
  have e : ∀ x : Bytes, (bytesBits (v4mapped x)).take (96 + p) = bytesBits [0, 0, 0, 0, 0, 0, 0, 0, 0, 0, 0xFF, 0xFF] ++ (bytesBits x).take p := by
    intro x
    unfold v4mapped
    have hl : (bytesBits [0, 0, 0, 0, 0, 0, 0, 0, 0, 0, 0xFF, 0xFF]).length = 96 := by rw [bytesBits_length]; rfl
    rw [bytesBits_append, List.take_append, hl, show 96 + p - 96 = p by omega, List.take_of_length_le (by omega)]
  have : agree (96 + p) (v4mapped a) (v4mapped b) ↔ agree p a b := by
    unfold agree; rw [e, e, List.append_cancel_left_eq]
  simp [this]

/-- C40. Without a prefix length (0) only the address itself matches. -/
theorem C40_exact (a b : Bytes) (ha : a.length = 16) (hb : b.length = 16) (v4 : Bool) : matchOne v4 a b 0 = some (decide (a = b)) := by
  have hm : matchIPv6Addr a b 0 = some (decide (a = b)) := by
    have := C40_match_partial a b ha hb 128 (by omega) (by omega)
    have e : matchIPv6Addr a b 0 = matchIPv6Addr a b 128 := rfl
    rw [e, this]
    have : agree 128 a b ↔ a = b := by
      unfold agree
      rw [List.take_of_length_le (by rw [bytesBits_length]; omega), List.take_of_length_le (by rw [bytesBits_length]; omega)]
      exact ⟨bytesBits_inj, congrArg _⟩
    simp [this]
  cases v4 <;> exact hm

/-- 10.0.0.0/9 contains 10.1.2.3 and not 10.128.2.3. -/
example : matchOne true (v4mapped [10, 0, 0, 0]) (v4mapped [10, 1, 2, 3]) 9 = some true ∧
    matchOne true (v4mapped [10, 0, 0, 0]) (v4mapped [10, 128, 2, 3]) 9 = some false := by decide +kernel

/-- C40 fails for a written prefix length of 0: "0.0.0.0/0" and "::/0" match only themselves. -/
theorem C40_zero_fails : ∃ a b : Bytes, a.length = 16 ∧ b.length = 16 ∧ agree 0 a b ∧ matchOne false a b 0 = some false :=
  ⟨List.replicate 16 0, List.replicate 16 1, by decide, by decide, by decide, by decide +kernel⟩

/-- C40 fails for IPv4 prefix lengths that are too long: "1.2.3.4/161" matches every IPv4 address. -/
theorem C40_long_v4_fails (a b : Bytes) (p : Nat) (h1 : 161 ≤ p) (h2 : p ≤ 255) (ha : a.length = 4) (hb : b.length = 4) :
    matchOne true (v4mapped a) (v4mapped b) p = some true := by
  unfold matchOne
  rw [if_pos rfl, show p % 256 = p by omega, if_pos (by omega), show (p + 96) % 256 = p - 160 by omega]
  rw [C40_match_partial _ _ (by simp [v4mapped, ha]) (by simp [v4mapped, hb]) _ (by omega) (by omega)]
  have hl : (bytesBits [0, 0, 0, 0, 0, 0, 0, 0, 0, 0, 0xFF, 0xFF]).length = 96 := by rw [bytesBits_length]; rfl
  have : agree (p - 160) (v4mapped a) (v4mapped b) := by
    unfold agree v4mapped
    rw [bytesBits_append, bytesBits_append, List.take_append_of_le_length (by omega), List.take_append_of_le_length (by omega)]
  simp [this]

/-- C40 fails for longer IPv6 prefix lengths, and IPv4 ones from 48: memory outside the address is
compared when the addresses are equal. -/
theorem C40_out_of_bounds_fails (a : Bytes) (ha : a.length = 16) (p : Nat) (h1 : 144 ≤ p) (h2 : p ≤ 255) : matchOne false a a p = none := by
  unfold matchOne matchIPv6Addr
  rw [show p % 256 = p by omega]
  simp only [Bool.false_eq_true, if_false, if_neg (show p ≠ 0 by omega)]
  have : same a a (p / 8) = none := by unfold same; rw [if_neg (by omega)]
  rw [this]

end Verif.Ip
