import Verif.Ebml.Model
import Verif.Bit.Props

/-! Helper lemmas for the EBML properties. -/
namespace Verif.Ebml
open Verif.Bit

theorem readSize1_spec (n : Nat) (h1 : 1 ≤ n) (h8 : n ≤ 8) (b : UInt8)
    (hlo : 2 ^ (8 - n) ≤ b.toNat) (hhi : b.toNat < 2 ^ (9 - n)) : readSize1 b = n := by
  have key : ∀ m : Fin 8, ∀ b : UInt8, 2 ^ (8 - (m.val + 1)) ≤ b.toNat → b.toNat < 2 ^ (9 - (m.val + 1)) →
      readSize1 b = m.val + 1 := by decide +kernel
  have := key ⟨n - 1, by omega⟩ b
  simp only [show n - 1 + 1 = n by omega] at this
  exact this hlo hhi

theorem htob_be (c : Codec) (hc : c.big = true) (v : Nat) : htob c v = beEnc c.width v := by
  rw [htob_eq, Codec.notation, if_pos hc]

theorem btoh_be (c : Codec) (hc : c.big = true) (v : Nat) (r : Bytes) :
    btoh c (beEnc c.width v ++ r) = some (v % 256 ^ c.width) := by
  rw [btoh_eq c _ _ (beEnc_length _ _), if_pos hc, beVal_beEnc]

/-- What a written number looks like. -/
theorem writeInt_spec (v : Nat) (h : v ≤ 0xFFFFFFFFFFFFFE) :
    1 ≤ writeSize v ∧ writeSize v ≤ 8 ∧ v ≤ 2 ^ (7 * writeSize v) - 2 ∧
      (∀ m, 1 ≤ m → m < writeSize v → 2 ^ (7 * m) - 2 < v) ∧
      writeInt v = beEnc (writeSize v) (v + 2 ^ (7 * writeSize v)) := by
  have minim : ∀ n, (∀ m : Fin n, m.val ≠ 0 → 2 ^ (7 * m.val) - 2 < v) → ∀ m, 1 ≤ m → m < n → 2 ^ (7 * m) - 2 < v :=
    fun n hn m h1 h2 => hn ⟨m, h2⟩ (by simp; omega)
  have fin : ∀ n, n ≤ 8 → 2 ^ (7 * (n - 1)) - 2 < v ∨ n ≤ 1 → ∀ m, 1 ≤ m → m < n → 2 ^ (7 * m) - 2 < v := by
    intro n hn hv m h1 h2
    rcases hv with hv | hv
    · have : 2 ^ (7 * m) ≤ 2 ^ (7 * (n - 1)) := Nat.pow_le_pow_right (by decide) (by omega)
      omega
    · omega
  unfold writeInt writeSize
  by_cases h1 : v ≤ 0x7E
  · simp only [h1, if_true]
    refine ⟨by decide, by decide, by first | trivial | omega, fin 1 (by decide) (.inr (by decide)), ?_⟩
    rw [Nat.or_comm, or_eq_add 7 (by decide) (by omega), Nat.add_comm]
    simp [beEnc]
  simp only [h1, if_false]
  by_cases h2 : v ≤ 0x3FFE
  · simp only [h2, if_true]
    refine ⟨by decide, by decide, by first | trivial | omega, fin 2 (by decide) (.inl (by omega)), ?_⟩
    rw [Nat.or_comm, or_eq_add 14 (by decide) (by omega), Nat.add_comm, htob_be _ rfl]; rfl
  simp only [h2, if_false]
  by_cases h3 : v ≤ 0x1FFFFE
  · simp only [h3, if_true]
    refine ⟨by decide, by decide, by first | trivial | omega, fin 3 (by decide) (.inl (by omega)), ?_⟩
    rw [Nat.or_comm, or_eq_add 21 (by decide) (by omega), Nat.add_comm, htob_be _ rfl]; rfl
  simp only [h3, if_false]
  by_cases h4 : v ≤ 0xFFFFFFE
  · simp only [h4, if_true]
    refine ⟨by decide, by decide, by first | trivial | omega, fin 4 (by decide) (.inl (by omega)), ?_⟩
    rw [Nat.or_comm, or_eq_add 28 (by decide) (by omega), Nat.add_comm, htob_be _ rfl]; rfl
  simp only [h4, if_false]
  by_cases h5 : v ≤ 0x7FFFFFFFE
  · simp only [h5, if_true]
    refine ⟨by decide, by decide, by first | trivial | omega, fin 5 (by decide) (.inl (by omega)), ?_⟩
    rw [Nat.or_comm, or_eq_add 35 (by decide) (by omega), Nat.add_comm, htob_be _ rfl]; rfl
  simp only [h5, if_false]
  by_cases h6 : v ≤ 0x3FFFFFFFFFE
  · simp only [h6, if_true]
    refine ⟨by decide, by decide, by first | trivial | omega, fin 6 (by decide) (.inl (by omega)), ?_⟩
    rw [Nat.or_comm, or_eq_add 42 (by decide) (by omega), Nat.add_comm, htob_be _ rfl]; rfl
  simp only [h6, if_false]
  by_cases h7 : v ≤ 0x1FFFFFFFFFFFE
  · simp only [h7, if_true]
    refine ⟨by decide, by decide, by first | trivial | omega, fin 7 (by decide) (.inl (by omega)), ?_⟩
    rw [Nat.or_comm, or_eq_add 49 (by decide) (by omega), Nat.add_comm, htob_be _ rfl]; rfl
  simp only [h7, h, if_false, if_true]
  refine ⟨by decide, by decide, by first | trivial | omega, fin 8 (by decide) (.inl (by omega)), ?_⟩
  rw [Nat.or_comm, or_eq_add 56 (by decide) (by omega), Nat.add_comm, htob_be _ rfl]; rfl

theorem writeSize_pos {v : Nat} (h : v ≤ 0xFFFFFFFFFFFFFE) : writeSize v ≠ 0 := by
  have := (writeInt_spec v h).1; omega

theorem writeSize_zero {v : Nat} : writeSize v = 0 ↔ 0xFFFFFFFFFFFFFE < v := by
  constructor
  · intro h; apply Classical.byContradiction; intro h2
    exact writeSize_pos (by omega) h
  · intro h
    unfold writeSize
    repeat rw [if_neg (by omega)]

theorem writeSize_le (v : Nat) : writeSize v ≤ 8 := by
  by_cases h : v ≤ 0xFFFFFFFFFFFFFE
  · exact (writeInt_spec v h).2.1
  · rw [writeSize_zero.mpr (by omega)]; decide

theorem beEnc_cons (n x : Nat) (h : 1 ≤ n) : beEnc n x = UInt8.ofNat (x / 256 ^ (n - 1)) :: beEnc (n - 1) x := by
  cases n with
  | zero => omega
  | succ n => rfl

theorem first_byte (n v : Nat) (h1 : 1 ≤ n) (h8 : n ≤ 8) (hv : v < 2 ^ (7 * n)) :
    readSize1 (UInt8.ofNat ((v + 2 ^ (7 * n)) / 256 ^ (n - 1))) = n := by
  have h256 : (256 : Nat) ^ (n - 1) = 2 ^ (8 * (n - 1)) := by rw [show (256 : Nat) = 2 ^ 8 by decide, ← Nat.pow_mul]
  have e1 : 2 ^ (7 * n) = 2 ^ (8 - n) * 2 ^ (8 * (n - 1)) := by rw [← Nat.pow_add]; congr 1; omega
  have e2 : 2 ^ (9 - n) * 2 ^ (8 * (n - 1)) = 2 * 2 ^ (7 * n) := by
    rw [← Nat.pow_add, Nat.mul_comm 2, ← Nat.pow_succ]; congr 1; omega
  have hpos : 0 < 2 ^ (8 * (n - 1)) := Nat.pow_pos (by decide)
  have hlo : 2 ^ (8 - n) ≤ (v + 2 ^ (7 * n)) / 256 ^ (n - 1) := by
    rw [h256, Nat.le_div_iff_mul_le hpos]; omega
  have hhi : (v + 2 ^ (7 * n)) / 256 ^ (n - 1) < 2 ^ (9 - n) := by
    rw [h256, Nat.div_lt_iff_lt_mul hpos]; omega
  have h256' : 2 ^ (9 - n) ≤ 256 := by
    have : 2 ^ (9 - n) ≤ 2 ^ 8 := Nat.pow_le_pow_right (by decide) (by omega)
    simpa using this
  apply readSize1_spec n h1 h8
  · rw [u8n, Nat.mod_eq_of_lt (by omega)]; exact hlo
  · rw [u8n, Nat.mod_eq_of_lt (by omega)]; exact hhi

theorem readSize_write (v : Nat) (h : v ≤ 0xFFFFFFFFFFFFFE) (r : Bytes) :
    readSize (writeInt v ++ r) = some (writeSize v) := by
  obtain ⟨h1, h8, hv, _, he⟩ := writeInt_spec v h
  rw [he, beEnc_cons _ _ h1, List.cons_append, readSize]
  have : v < 2 ^ (7 * writeSize v) := by
    have : 0 < 2 ^ (7 * writeSize v) := Nat.pow_pos (by decide)
    omega
  rw [first_byte _ _ h1 h8 this]

theorem writeInt_length (v : Nat) : (writeInt v).length = writeSize v := by
  by_cases h : v ≤ 0xFFFFFFFFFFFFFE
  · rw [(writeInt_spec v h).2.2.2.2, beEnc_length]
  · unfold writeInt; rw [writeSize_zero.mpr (by omega)]; rfl

theorem readInt_write (v : Nat) (h : v ≤ 0xFFFFFFFFFFFFFE) (r : Bytes) :
    readInt (writeInt v ++ r) = some v := by
  obtain ⟨h1, h8, hv, _, he⟩ := writeInt_spec v h
  generalize hn : writeSize v = n at *
  have hpos : 0 < 2 ^ (7 * n) := Nat.pow_pos (by decide)
  have hfb := first_byte n v h1 h8 (by omega)
  have hc : ∀ c : Codec, c.big = true → c.width = n → 2 ≤ n →
      (btoh c (beEnc n (v + 2 ^ (7 * n)) ++ r)) = some (v + 2 ^ (7 * n)) := by
    intro c hb hw h2
    rw [← hw, btoh_be c hb, hw]
    congr 1
    apply Nat.mod_eq_of_lt
    have : 2 * 2 ^ (7 * n) ≤ 256 ^ n := by
      rw [show (256 : Nat) = 2 ^ 8 by decide, ← Nat.pow_mul, Nat.mul_comm, ← Nat.pow_succ]
      exact Nat.pow_le_pow_right (by decide) (by omega)
    omega
  rw [he]
  have hcons : beEnc n (v + 2 ^ (7 * n)) ++ r =
      UInt8.ofNat ((v + 2 ^ (7 * n)) / 256 ^ (n - 1)) :: (beEnc (n - 1) (v + 2 ^ (7 * n)) ++ r) := by
    rw [beEnc_cons _ _ h1]; rfl
  have hmod : (v + 2 ^ (7 * n)) % 2 ^ (7 * n) = v := by
    rw [Nat.add_mod_right, Nat.mod_eq_of_lt (by omega)]
  rw [readInt.eq_def, hcons]
  simp only [hfb]
  rw [← hcons]
  have cases8 : n = 1 ∨ n = 2 ∨ n = 3 ∨ n = 4 ∨ n = 5 ∨ n = 6 ∨ n = 7 ∨ n = 8 := by omega
  rcases cases8 with rfl | rfl | rfl | rfl | rfl | rfl | rfl | rfl
  · simp only [Nat.sub_self, Nat.pow_zero, Nat.div_one]
    have hlt : v < 127 := by simpa using (show v < 2 ^ 7 - 1 by omega)
    have hne : UInt8.ofNat (v + 2 ^ (7 * 1)) ≠ 0xFF := by
      intro h
      have := congrArg UInt8.toNat h
      rw [u8n] at this
      simp at this; omega
    rw [if_neg hne, UInt8.toNat_and, u8n]
    congr 1
    show (v + 128) % 256 &&& (2 ^ 7 - 1) = v
    rw [and_mask]; omega
  all_goals
    simp only
    first
    | rw [hc .s rfl rfl (by decide)]
    | rw [hc .b24 rfl rfl (by decide)]
    | rw [hc .l rfl rfl (by decide)]
    | rw [hc .b40 rfl rfl (by decide)]
    | rw [hc .b48 rfl rfl (by decide)]
    | rw [hc .b56 rfl rfl (by decide)]
    | rw [hc .ll rfl rfl (by decide)]
    rw [Option.map_some]
    refine congrArg some ?_
  · exact (and_mask 14 _).trans hmod
  · exact (and_mask 21 _).trans hmod
  · exact (and_mask 28 _).trans hmod
  · exact (and_mask 35 _).trans hmod
  · exact (and_mask 42 _).trans hmod
  · exact (and_mask 49 _).trans hmod
  · exact (and_mask 56 _).trans hmod

end Verif.Ebml
