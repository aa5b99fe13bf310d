import Verif.Json.Model
import Verif.Base.Arith

/-!
# JSON strings: what `readString` makes of what `escOne` writes
-/
namespace Verif.Json

theorem c2hex_hex2c (n : Nat) (h : n < 16) : c2hex (hex2c n) = n := by
  have : ∀ k : Fin 16, c2hex (hex2c k.val) = k.val := by decide +kernel
  exact this ⟨n, h⟩

theorem hex2c_range (n : Nat) : (48 ≤ (hex2c n).toNat ∧ (hex2c n).toNat ≤ 57) ∨ (65 ≤ (hex2c n).toNat ∧ (hex2c n).toNat ≤ 70) := by
  have : ∀ k : Fin 16, (48 ≤ (hex2c k.val).toNat ∧ (hex2c k.val).toNat ≤ 57) ∨
      (65 ≤ (hex2c k.val).toNat ∧ (hex2c k.val).toNat ≤ 70) := by decide +kernel
  by_cases h : n < 16
  · exact this ⟨n, h⟩
  · rw [hex2c, if_neg (by omega), if_neg h]; decide

theorem hex2c_ne_quote (n : Nat) : hex2c n ≠ 34 := by
  intro h
  have := hex2c_range n
  rw [h] at this
  revert this
  decide

theorem hex2c_ne_tick (n : Nat) : hex2c n ≠ 39 := by
  intro h
  have := hex2c_range n
  rw [h] at this
  revert this
  decide

/-- The value of the four digits. -/
theorem unit_val (v : Nat) (h : v < 65536) :
    c2hex (hex2c (v &&& 0xf)) + (c2hex (hex2c ((v >>> 4) &&& 0xf)) <<< 4) + (c2hex (hex2c ((v >>> 8) &&& 0xf)) <<< 8) +
      (c2hex (hex2c ((v >>> 12) &&& 0xf)) <<< 12) = v := by
  have e : ∀ x : Nat, x &&& 0xf = x % 16 := fun x => Nat.and_two_pow_sub_one_eq_mod x 4
  simp only [e]
  rw [c2hex_hex2c _ (by omega), c2hex_hex2c _ (by omega), c2hex_hex2c _ (by omega), c2hex_hex2c _ (by omega)]
  simp only [Nat.shiftRight_eq_div_pow, Nat.shiftLeft_eq, Nat.reducePow]
  omega

/-- Reading one UTF-16 unit. -/
theorem read_unit (v : Nat) (hv : v < 65536) (full : Nat) (out r : Bytes) :
    readString 34 false full out (utf16Unit v ++ r) =
      (let flush := full ≠ 0 ∧ (v < 0xDC00 ∨ v > 0xDFFF)
       let out := if flush then out ++ utf8 (full >>> 16) else out
       let full := (if flush then 0 else full) ||| v
       if 0xD800 ≤ full ∧ full ≤ 0xDBFF then readString 34 false (full <<< 16) out r
       else readString 34 false 0 (out ++ utf8 full) r) := by
  simp only [utf16Unit, List.cons_append, List.nil_append]
  rw [readString, if_pos rfl, readString]
  simp only [hex2c_ne_quote, unit_val v hv, if_false]
  simp

/-- Reading an ordinary character. -/
theorem read_plain (c : UInt8) (h1 : c ≠ 92) (h2 : c ≠ 34) (out r : Bytes) :
    readString 34 false 0 out (c :: r) = readString 34 false 0 (out ++ [c]) r := by
  rw [readString]
  simp [h1, h2]

theorem utf8Seq_pos {c : UInt8} {r : Bytes} {v k : Nat} (h : utf8Seq c r = some (v, k)) : 1 ≤ k := by
  unfold utf8Seq at h
  repeat' split at h
  all_goals (cases h <;> omega)

theorem escOne_pos (c : UInt8) (r : Bytes) : 1 ≤ (escOne c r).2 := by
  unfold escOne
  split
  · exact Nat.le_refl _
  · split
    · split
      · rename_i h; exact utf8Seq_pos h
      · exact Nat.le_refl _
    · exact Nat.le_refl _

theorem escLoop_fuel (n m : Nat) (s : Bytes) (hn : s.length ≤ n) (hm : s.length ≤ m) : escLoop n s = escLoop m s := by
  induction n generalizing m s with
  | zero =>
    have : s = [] := List.length_eq_zero_iff.mp (by omega)
    subst this
    cases m <;> rfl
  | succ n ih =>
    cases s with
    | nil => cases m <;> rfl
    | cons c r =>
      cases m with
      | zero => simp at hm
      | succ m =>
        have hpos := escOne_pos c r
        rw [escLoop, escLoop, ih m]
        · simp only [List.length_drop, List.length_cons] at *; omega
        · simp only [List.length_drop, List.length_cons] at *; omega

/-- The text of a string without its quotes. -/
def esc (s : Bytes) : Bytes := escLoop s.length s

theorem esc_cons (c : UInt8) (r : Bytes) : esc (c :: r) = (escOne c r).1 ++ esc ((c :: r).drop (escOne c r).2) := by
  rw [esc, List.length_cons, escLoop, esc]
  congr 1
  refine escLoop_fuel _ _ _ ?_ (Nat.le_refl _)
  have hpos := escOne_pos c r
  simp only [List.length_drop, List.length_cons]
  omega

theorem special_ne {c : UInt8} (h : special c = none) : c ≠ 34 ∧ c ≠ 92 := by
  revert h
  have : ∀ c : UInt8, special c = none → c ≠ 34 ∧ c ≠ 92 := by decide +kernel
  exact this c

theorem read_special (b e : UInt8) (h : special b = some e) (out r : Bytes) :
    readString 34 false 0 out (92 :: e :: r) = readString 34 false 0 (out ++ [b]) r := by
  rw [readString, if_pos rfl]
  unfold special at h
  repeat' split at h
  all_goals cases h
  all_goals (subst_vars; rw [readString.eq_def]; simp)

/-- ASCII. -/
theorem read_ascii (b : UInt8) (hb : b.toNat ≤ 127) (t out r : Bytes) :
    (escOne b t).2 = 1 ∧ readString 34 false 0 out ((escOne b t).1 ++ r) = readString 34 false 0 (out ++ [b]) r := by
  unfold escOne
  cases hs : special b with
  | some e => exact ⟨rfl, read_special b e hs out r⟩
  | none =>
    obtain ⟨h34, h92⟩ := special_ne hs
    dsimp only
    by_cases hc : b.toNat < 32 ∨ b.toNat > 126
    · have hu : utf8Seq b t = none := by
        have : ∀ b : UInt8, b.toNat ≤ 127 → ¬ (b &&& 0xC0 = 0xC0) := by decide +kernel
        rw [utf8Seq, if_neg (this b hb)]
      rw [if_pos hc, hu]
      refine ⟨rfl, ?_⟩
      have e : [92, 117, 48, 48, hex2c ((b.toNat >>> 4) &&& 0xf), hex2c (b.toNat &&& 0xf)] = utf16Unit b.toNat := by
        have : ∀ b : UInt8, hex2c ((b.toNat >>> 12) &&& 0xf) = 48 ∧ hex2c ((b.toNat >>> 8) &&& 0xf) = 48 := by decide +kernel
        rw [utf16Unit, (this b).1, (this b).2]
      dsimp only
      rw [e, read_unit _ (by omega)]
      have e8 : utf8 b.toNat = [b] := by rw [utf8, if_pos hb, ofNat_toNat_byte]
      simp only [ne_eq, not_true_eq_false, false_and, if_false, Nat.zero_or, e8]
      rw [if_neg (by omega)]
    · rw [if_neg hc]
      exact ⟨rfl, read_plain b h92 h34 out r⟩

theorem special_high {b : UInt8} (h : 127 < b.toNat) : special b = none := by
  have : ∀ b : UInt8, 127 < b.toNat → special b = none := by decide +kernel
  exact this b h

theorem contByte (y : Nat) (h : y < 64) : cont (UInt8.ofNat (y + 0x80)) = true ∧ (UInt8.ofNat (y + 0x80)).toNat &&& 0x3F = y := by
  have : ∀ k : Fin 64, cont (UInt8.ofNat (k.val + 0x80)) = true ∧ (UInt8.ofNat (k.val + 0x80)).toNat &&& 0x3F = k.val := by
    decide +kernel
  exact this ⟨y, h⟩

theorem lead2 (x : Nat) (h : x < 32) : UInt8.ofNat (x + 0xc0) &&& 0xC0 = 0xC0 ∧ UInt8.ofNat (x + 0xc0) &&& 0xE0 = 0xC0 ∧
    (UInt8.ofNat (x + 0xc0)).toNat &&& 0x1F = x ∧ 127 < (UInt8.ofNat (x + 0xc0)).toNat := by
  have : ∀ k : Fin 32, UInt8.ofNat (k.val + 0xc0) &&& 0xC0 = 0xC0 ∧ UInt8.ofNat (k.val + 0xc0) &&& 0xE0 = 0xC0 ∧
    (UInt8.ofNat (k.val + 0xc0)).toNat &&& 0x1F = k.val ∧ 127 < (UInt8.ofNat (k.val + 0xc0)).toNat := by decide +kernel
  exact this ⟨x, h⟩

theorem lead3 (x : Nat) (h : x < 16) : UInt8.ofNat (x + 0xe0) &&& 0xC0 = 0xC0 ∧ ¬ UInt8.ofNat (x + 0xe0) &&& 0xE0 = 0xC0 ∧
    UInt8.ofNat (x + 0xe0) &&& 0xF0 = 0xE0 ∧ (UInt8.ofNat (x + 0xe0)).toNat &&& 0x1F = x ∧
    127 < (UInt8.ofNat (x + 0xe0)).toNat := by
  have : ∀ k : Fin 16, UInt8.ofNat (k.val + 0xe0) &&& 0xC0 = 0xC0 ∧ ¬ UInt8.ofNat (k.val + 0xe0) &&& 0xE0 = 0xC0 ∧
    UInt8.ofNat (k.val + 0xe0) &&& 0xF0 = 0xE0 ∧ (UInt8.ofNat (k.val + 0xe0)).toNat &&& 0x1F = k.val ∧
    127 < (UInt8.ofNat (k.val + 0xe0)).toNat := by decide +kernel
  exact this ⟨x, h⟩

theorem lead4 (x : Nat) (h : x < 8) : UInt8.ofNat (x + 0xf0) &&& 0xC0 = 0xC0 ∧ ¬ UInt8.ofNat (x + 0xf0) &&& 0xE0 = 0xC0 ∧
    ¬ UInt8.ofNat (x + 0xf0) &&& 0xF0 = 0xE0 ∧ UInt8.ofNat (x + 0xf0) &&& 0xF8 = 0xF0 ∧
    (UInt8.ofNat (x + 0xf0)).toNat &&& 0x1F = 16 + x ∧ 127 < (UInt8.ofNat (x + 0xf0)).toNat := by
  have : ∀ k : Fin 8, UInt8.ofNat (k.val + 0xf0) &&& 0xC0 = 0xC0 ∧ ¬ UInt8.ofNat (k.val + 0xf0) &&& 0xE0 = 0xC0 ∧
    ¬ UInt8.ofNat (k.val + 0xf0) &&& 0xF0 = 0xE0 ∧ UInt8.ofNat (k.val + 0xf0) &&& 0xF8 = 0xF0 ∧
    (UInt8.ofNat (k.val + 0xf0)).toNat &&& 0x1F = 16 + k.val ∧ 127 < (UInt8.ofNat (k.val + 0xf0)).toNat := by
    decide +kernel
  exact this ⟨x, h⟩

/-- What is written for a two-byte sequence. -/
theorem esc2 (v : Nat) (h : v < 0x800) (t : Bytes) :
    escOne (UInt8.ofNat (v / 64 % 0x20 + 0xc0)) (UInt8.ofNat (v % 0x40 + 0x80) :: t) = (utf16Unit v, 2) := by
  obtain ⟨a1, a2, a3, a4⟩ := lead2 (v / 64 % 0x20) (by omega)
  obtain ⟨b1, b2⟩ := contByte (v % 0x40) (by omega)
  have hu : utf8Seq (UInt8.ofNat (v / 64 % 0x20 + 0xc0)) (UInt8.ofNat (v % 0x40 + 0x80) :: t) = some (v, 2) := by
    rw [utf8Seq, if_pos a1]
    simp only [List.getD_cons_zero]
    rw [if_pos ⟨a2, by simp, b1⟩, a3, b2, shl, or_eq_add 6 (by omega) (by omega)]
    exact congrArg some (Prod.ext (by dsimp only; omega) rfl)
  rw [escOne, special_high a4]
  dsimp only
  rw [if_pos (by omega), hu]
  dsimp only
  rw [utf16, if_neg (by omega)]

/-- What is written for a three-byte sequence. -/
theorem esc3 (v : Nat) (h : v < 0x10000) (t : Bytes) :
    escOne (UInt8.ofNat (v / 4096 % 0x10 + 0xe0)) (UInt8.ofNat (v / 64 % 0x40 + 0x80) :: UInt8.ofNat (v % 0x40 + 0x80) :: t) =
      (utf16Unit v, 3) := by
  obtain ⟨a1, a2, a3, a4, a5⟩ := lead3 (v / 4096 % 0x10) (by omega)
  obtain ⟨b1, b2⟩ := contByte (v / 64 % 0x40) (by omega)
  obtain ⟨c1, c2⟩ := contByte (v % 0x40) (by omega)
  have hu : utf8Seq (UInt8.ofNat (v / 4096 % 0x10 + 0xe0))
      (UInt8.ofNat (v / 64 % 0x40 + 0x80) :: UInt8.ofNat (v % 0x40 + 0x80) :: t) = some (v, 3) := by
    rw [utf8Seq, if_pos a1]
    simp only [List.getD_cons_zero, List.getD_cons_succ]
    rw [if_neg (fun q => a2 q.1), if_pos ⟨a3, by simp, b1, c1⟩, a4, b2, c2, shl, shl,
      or_eq_add 12 (x := v / 4096 % 0x10 * 2 ^ 12) (by omega) (by omega), or_eq_add 6 (by omega) (by omega)]
    exact congrArg some (Prod.ext (by dsimp only; omega) rfl)
  rw [escOne, special_high a5]
  dsimp only
  rw [if_pos (by omega), hu]
  dsimp only
  rw [utf16, if_neg (by omega)]

/-- What is written for a four-byte sequence. -/
theorem esc4 (v : Nat) (h0 : 0x10000 ≤ v) (h : v < 0x110000) (t : Bytes) :
    escOne (UInt8.ofNat (v / 262144 % 0x08 + 0xf0)) (UInt8.ofNat (v / 4096 % 0x40 + 0x80) ::
      UInt8.ofNat (v / 64 % 0x40 + 0x80) :: UInt8.ofNat (v % 0x40 + 0x80) :: t) =
      (utf16Unit (0xD800 + (v - 0x10000) / 1024) ++ utf16Unit (0xDC00 + v % 1024), 4) := by
  obtain ⟨a1, a2, a3, a4, a5, a6⟩ := lead4 (v / 262144 % 0x08) (by omega)
  obtain ⟨b1, b2⟩ := contByte (v / 4096 % 0x40) (by omega)
  obtain ⟨c1, c2⟩ := contByte (v / 64 % 0x40) (by omega)
  obtain ⟨d1, d2⟩ := contByte (v % 0x40) (by omega)
  have hu : utf8Seq (UInt8.ofNat (v / 262144 % 0x08 + 0xf0)) (UInt8.ofNat (v / 4096 % 0x40 + 0x80) ::
      UInt8.ofNat (v / 64 % 0x40 + 0x80) :: UInt8.ofNat (v % 0x40 + 0x80) :: t) = some (v + 0x400000, 4) := by
    rw [utf8Seq, if_pos a1]
    simp only [List.getD_cons_zero, List.getD_cons_succ]
    rw [if_neg (fun q => a2 q.1), if_neg (fun q => a3 q.1), if_pos ⟨a4, by simp, b1, c1, d1⟩, a5, b2, c2, d2, shl, shl, shl,
      or_eq_add 18 (x := (16 + v / 262144 % 0x08) * 2 ^ 18) (by omega) (by omega),
      or_eq_add 12 (y := v / 64 % 0x40 * 2 ^ 6) (by omega) (by omega), or_eq_add 6 (by omega) (by omega)]
    exact congrArg some (Prod.ext (by dsimp only; omega) rfl)
  rw [escOne, special_high a6]
  dsimp only
  rw [if_pos (by omega), hu]
  dsimp only
  have e : ∀ x : Nat, x &&& 0x3FF = x % 1024 := fun x => and_mask 10 x
  rw [utf16, if_pos (by omega), e, e, shr]
  rw [show (v + 0x400000 - 0x10000) / 2 ^ 10 % 1024 = (v - 0x10000) / 1024 by omega,
    show (v + 0x400000 - 0x10000) % 1024 = v % 1024 by omega]

theorem read2 (v : Nat) (h0 : 0x80 ≤ v) (h : v < 0x800) (out r : Bytes) : readString 34 false 0 out (utf16Unit v ++ r) =
    readString 34 false 0 (out ++ [UInt8.ofNat (v / 64 % 0x20 + 0xc0), UInt8.ofNat (v % 0x40 + 0x80)]) r := by
  have e8 : utf8 v = [UInt8.ofNat (v / 64 % 0x20 + 0xc0), UInt8.ofNat (v % 0x40 + 0x80)] := by
    rw [utf8, if_neg (by omega), if_pos (by omega), shr, show v &&& 0x3F = v % 2 ^ 6 from and_mask 6 v,
      or_eq_add 6 (by decide) (by omega), or_eq_add 6 (by decide) (by omega),
      show 0xC0 + v / 2 ^ 6 = v / 64 % 0x20 + 0xc0 by omega, show 0x80 + v % 2 ^ 6 = v % 0x40 + 0x80 by omega]
  rw [read_unit _ (by omega)]
  simp only [ne_eq, not_true_eq_false, false_and, if_false, Nat.zero_or, e8]
  rw [if_neg (by omega)]

theorem read4 (v : Nat) (h0 : 0x10000 ≤ v) (h : v < 0x110000) (out r : Bytes) :
    readString 34 false 0 out ((utf16Unit (0xD800 + (v - 0x10000) / 1024) ++ utf16Unit (0xDC00 + v % 1024)) ++ r) =
    readString 34 false 0 (out ++ [UInt8.ofNat (v / 262144 % 0x08 + 0xf0), UInt8.ofNat (v / 4096 % 0x40 + 0x80),
      UInt8.ofNat (v / 64 % 0x40 + 0x80), UInt8.ofNat (v % 0x40 + 0x80)]) r := by
  rw [List.append_assoc, read_unit _ (by omega)]
  simp only [ne_eq, not_true_eq_false, false_and, if_false, Nat.zero_or]
  rw [if_pos (by omega), read_unit _ (by omega)]
  have hne : (0xD800 + (v - 0x10000) / 1024) <<< 16 ≠ 0 := by rw [shl]; omega
  have hfl : ¬ ((0xD800 + (v - 0x10000) / 1024) <<< 16 ≠ 0 ∧ (0xDC00 + v % 1024 < 0xDC00 ∨ 0xDC00 + v % 1024 > 0xDFFF)) := by
    omega
  have hor : (0xD800 + (v - 0x10000) / 1024) <<< 16 ||| (0xDC00 + v % 1024) =
      (0xD800 + (v - 0x10000) / 1024) * 65536 + (0xDC00 + v % 1024) := by
    rw [shl, or_eq_add 16 (by omega) (by omega)]
  dsimp only
  simp only [if_neg hfl]
  rw [hor, if_neg (by omega)]
  congr 1
  have e3 : ∀ x : Nat, x &&& 0x3ff = x % 1024 := fun x => and_mask 10 x
  have e6 : ∀ x : Nat, x &&& 0x3F = x % 64 := fun x => and_mask 6 x
  have e7 : ∀ x : Nat, x &&& 0x07 = x % 8 := fun x => and_mask 3 x
  have ef : ∀ x : Nat, x &&& 0xFFFF = x % 65536 := fun x => and_mask 16 x
  have hc : ((((0xD800 + (v - 0x10000) / 1024) * 65536 + (0xDC00 + v % 1024)) >>> 16 &&& 0x3ff) <<< 10) +
      ((((0xD800 + (v - 0x10000) / 1024) * 65536 + (0xDC00 + v % 1024)) &&& 0xFFFF) &&& 0x3ff) + 0x10000 = v := by
    rw [e3, e3, ef, shr, shl]
    omega
  rw [utf8, if_neg (by omega), if_neg (by omega), if_neg (by omega)]
  simp only [hc]
  rw [e6, e6, e6, e7, shr, shr, shr, or_eq_add 4 (x := 0xF0) (by decide) (by omega),
    or_eq_add 6 (y := v / 2 ^ 12 % 64) (by decide) (by omega), or_eq_add 6 (y := v / 2 ^ 6 % 64) (by decide) (by omega),
    or_eq_add 6 (y := v % 64) (by decide) (by omega)]
  rw [show 0xF0 + v / 2 ^ 18 % 8 = v / 262144 % 8 + 0xf0 by omega, show 0x80 + v / 2 ^ 12 % 64 = v / 4096 % 0x40 + 0x80 by omega,
    show 0x80 + v / 2 ^ 6 % 64 = v / 64 % 0x40 + 0x80 by omega, show 0x80 + v % 64 = v % 0x40 + 0x80 by omega]

end Verif.Json
