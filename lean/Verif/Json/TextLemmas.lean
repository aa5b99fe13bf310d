import Verif.Json.StrLemmas
import Verif.Json.Spec

/-!
# Whole strings
-/
namespace Verif.Json
open Spec

theorem unit_mod (v : Nat) : utf16Unit v = utf16Unit (v % 65536) := by
  have e : ∀ x : Nat, x &&& 0xf = x % 16 := fun x => and_mask 4 x
  simp only [utf16Unit, e, shr]
  rw [show v / 2 ^ 12 % 16 = v % 65536 / 2 ^ 12 % 16 by omega, show v / 2 ^ 8 % 16 = v % 65536 / 2 ^ 8 % 16 by omega,
    show v / 2 ^ 4 % 16 = v % 65536 / 2 ^ 4 % 16 by omega, show v % 16 = v % 65536 % 16 by omega]

/-- What a round of `string_escape` can write. -/
inductive Piece : Bytes → Prop
  | special {b e : UInt8} : special b = some e → Piece [92, e]
  | plain {b : UInt8} : b ≠ 34 → b ≠ 92 → 32 ≤ b.toNat → b.toNat ≤ 126 → Piece [b]
  | unit (v : Nat) : v < 65536 → Piece (utf16Unit v)
  | pair (v w : Nat) : v < 65536 → w < 65536 → Piece (utf16Unit v ++ utf16Unit w)

theorem escOne_piece (b : UInt8) (t : Bytes) : Piece (escOne b t).1 := by
  unfold escOne
  cases hs : special b with
  | some e => exact .special hs
  | none =>
    dsimp only
    split
    · split
      · rename_i v k _
        dsimp only
        rw [utf16]
        split
        · rw [unit_mod, unit_mod (0xDC00 + _)]
          exact .pair _ _ (Nat.mod_lt _ (by decide)) (Nat.mod_lt _ (by decide))
        · rw [unit_mod]
          exact .unit _ (Nat.mod_lt _ (by decide))
      · have : ∀ b : UInt8, [92, 117, 48, 48, hex2c ((b.toNat >>> 4) &&& 0xf), hex2c (b.toNat &&& 0xf)] = utf16Unit b.toNat := by
          intro b
          have : ∀ b : UInt8, hex2c ((b.toNat >>> 12) &&& 0xf) = 48 ∧ hex2c ((b.toNat >>> 8) &&& 0xf) = 48 := by decide +kernel
          rw [utf16Unit, (this b).1, (this b).2]
        dsimp only
        rw [this]
        exact .unit _ (Nat.lt_trans b.toNat_lt (by decide))
    · rename_i h
      obtain ⟨h1, h2⟩ := special_ne hs
      exact .plain h1 h2 (by omega) (by omega)

theorem read_special_any (b e : UInt8) (h : special b = some e) (full : Nat) (out r : Bytes) :
    readString 34 false full out (92 :: e :: r) =
      readString 34 false 0 ((if full ≠ 0 then out ++ utf8 (full >>> 16) else out) ++ [b]) r := by
  rw [readString, if_pos rfl]
  unfold special at h
  by_cases hf : full = 0
  · subst hf
    repeat' split at h
    all_goals cases h
    all_goals (subst_vars; rw [readString.eq_def]; simp)
  · repeat' split at h
    all_goals cases h
    all_goals (subst_vars; rw [readString.eq_def]; simp [hf])

/-- Reading a piece, whatever is pending. -/
theorem read_piece {p : Bytes} (hp : Piece p) (full : Nat) (out : Bytes) :
    ∃ full' out', ∀ r, readString 34 false full out (p ++ r) = readString 34 false full' out' r := by
  cases hp with
  | @special b e h => exact ⟨_, _, fun r => read_special_any b e h full out r⟩
  | @plain b h1 h2 _ _ =>
    refine ⟨0, (if full ≠ 0 then out ++ utf8 (full >>> 16) else out) ++ [b], fun r => ?_⟩
    rw [List.cons_append, readString, if_neg h2]
    simp only [if_neg h1, List.nil_append]
  | unit v h =>
    by_cases hc : 0xD800 ≤ ((if full ≠ 0 ∧ (v < 0xDC00 ∨ v > 0xDFFF) then 0 else full) ||| v) ∧
        ((if full ≠ 0 ∧ (v < 0xDC00 ∨ v > 0xDFFF) then 0 else full) ||| v) ≤ 0xDBFF
    · exact ⟨_, _, fun r => by rw [read_unit _ h]; simp only [if_pos hc]; rfl⟩
    · exact ⟨_, _, fun r => by rw [read_unit _ h]; simp only [if_neg hc]; rfl⟩
  | pair v w hv hw =>
    have one : ∀ v, v < 65536 → ∀ full out, ∃ full' out', ∀ r,
        readString 34 false full out (utf16Unit v ++ r) = readString 34 false full' out' r := by
      intro v h full out
      by_cases hc : 0xD800 ≤ ((if full ≠ 0 ∧ (v < 0xDC00 ∨ v > 0xDFFF) then 0 else full) ||| v) ∧
          ((if full ≠ 0 ∧ (v < 0xDC00 ∨ v > 0xDFFF) then 0 else full) ||| v) ≤ 0xDBFF
      · exact ⟨_, _, fun r => by rw [read_unit _ h]; simp only [if_pos hc]; rfl⟩
      · exact ⟨_, _, fun r => by rw [read_unit _ h]; simp only [if_neg hc]; rfl⟩
    obtain ⟨f1, o1, e1⟩ := one v hv full out
    obtain ⟨f2, o2, e2⟩ := one w hw f1 o1
    exact ⟨f2, o2, fun r => by rw [List.append_assoc, e1, e2]⟩

/-- Reading back any string ends at its closing quote. -/
theorem read_esc (s : Bytes) : ∀ (full : Nat) (out : Bytes), ∃ o, ∀ r,
    readString 34 false full out (esc s ++ 34 :: r) = some (o, r) := by
  suffices h : ∀ (k : Nat) (s : Bytes), s.length ≤ k → ∀ (full : Nat) (out : Bytes), ∃ o, ∀ r,
      readString 34 false full out (esc s ++ 34 :: r) = some (o, r) from h s.length s (Nat.le_refl _)
  intro k
  induction k with
  | zero =>
    intro s hs full out
    have : s = [] := List.length_eq_zero_iff.mp (by omega)
    subst this
    exact ⟨_, fun r => by rw [esc, List.length_nil, escLoop, List.nil_append, readString]; simp; rfl⟩
  | succ k ih =>
    intro s hs full out
    cases s with
    | nil => exact ⟨_, fun r => by rw [esc, List.length_nil, escLoop, List.nil_append, readString]; simp; rfl⟩
    | cons b t =>
      obtain ⟨f1, o1, e1⟩ := read_piece (escOne_piece b t) full out
      have hpos := escOne_pos b t
      obtain ⟨o2, e2⟩ := ih ((b :: t).drop (escOne b t).2) (by
        simp only [List.length_drop, List.length_cons] at *; omega) f1 o1
      exact ⟨o2, fun r => by rw [esc_cons, List.append_assoc, e1, e2]⟩

/-- What reading back makes of a string. -/
noncomputable def reread (s : Bytes) : Bytes := (read_esc s 0 []).choose

theorem reread_spec (s r : Bytes) : readString 34 false 0 [] (esc s ++ 34 :: r) = some (reread s, r) :=
  (read_esc s 0 []).choose_spec r

theorem char_lt (c : Char) : c.val.toNat < 0x110000 := by
  have := c.valid
  simp only [UInt32.isValidChar, Nat.isValidChar] at this
  omega

/-- The characters that come back. -/
def Kept (c : Char) : Prop := c.toNat < 0x800 ∨ 0x10000 ≤ c.toNat

theorem read_text (cs : List Char) (h : ∀ c ∈ cs, Kept c) (out r : Bytes) :
    readString 34 false 0 out (esc (text cs) ++ 34 :: r) = some (out ++ text cs, r) := by
  induction cs generalizing out with
  | nil => simp [text, esc, escLoop, readString]
  | cons c cs ih =>
    have hk : Kept c := h c (by simp)
    have ih := fun out => ih (fun d hd => h d (by simp [hd])) out
    have ht : text (c :: cs) = String.utf8EncodeChar c ++ text cs := rfl
    have hlt := char_lt c
    have hk' : c.val.toNat < 0x800 ∨ 0x10000 ≤ c.val.toNat := hk
    rw [ht]
    unfold String.utf8EncodeChar
    dsimp only
    by_cases h1 : c.val.toNat ≤ 0x7f
    · rw [if_pos h1, List.cons_append, esc_cons, List.append_assoc]
      have hb : (UInt8.ofNat c.val.toNat).toNat ≤ 127 := by
        rw [toNat_ofNat_byte] <;> omega
      obtain ⟨e2, er⟩ := read_ascii _ hb ([] ++ text cs) out
        (esc ((UInt8.ofNat c.val.toNat :: ([] ++ text cs)).drop (escOne (UInt8.ofNat c.val.toNat) ([] ++ text cs)).2) ++ 34 :: r)
      rw [er, e2, List.drop_one, List.tail_cons, List.nil_append, ih]
      simp
    · rw [if_neg h1]
      by_cases h2 : c.val.toNat ≤ 0x7ff
      · rw [if_pos h2, List.cons_append, List.cons_append, List.nil_append, esc_cons, esc2 _ (by omega), List.append_assoc,
          read2 _ (by omega) (by omega)]
        simp only [List.drop_succ_cons, List.drop_zero]
        rw [ih]
        simp
      · rw [if_neg h2, if_neg (by omega)]
        simp only [List.cons_append, List.nil_append]
        rw [esc_cons, esc4 _ (by omega) (by omega), List.append_assoc, read4 _ (by omega) (by omega)]
        simp only [List.drop_succ_cons, List.drop_zero]
        rw [ih]
        simp

theorem reread_text (cs : List Char) (h : ∀ c ∈ cs, Kept c) : reread (text cs) = text cs := by
  have a := reread_spec (text cs) []
  rw [read_text cs h] at a
  simpa using a.symm

/-! ## The strict reader -/

theorem hexDigit_hex2c (n : Nat) (h : n < 16) : hexDigit (hex2c n) = some n := by
  have : ∀ k : Fin 16, hexDigit (hex2c k.val) = some k.val := by decide +kernel
  exact this ⟨n, h⟩

theorem scan_unit (v : Nat) (h : v < 65536) (r : Bytes) : scan (utf16Unit v ++ r) = (scan r).map fun t => (v :: t.1, t.2) := by
  have e : ∀ x : Nat, x &&& 0xf = x % 16 := fun x => and_mask 4 x
  simp only [utf16Unit, List.cons_append, List.nil_append, e, shr]
  rw [scan]
  simp only [show (92 : UInt8) ≠ 34 by decide, if_false, if_true, hexDigit_hex2c _ (Nat.mod_lt _ (by decide : 16 > 0))]
  rw [show v / 2 ^ 12 % 16 * 4096 + v / 2 ^ 8 % 16 * 256 + v / 2 ^ 4 % 16 * 16 + v % 16 = v by omega]

theorem scan_special (b e : UInt8) (h : special b = some e) (r : Bytes) :
    scan (92 :: e :: r) = (scan r).map fun t => (b.toNat :: t.1, t.2) := by
  rw [scan.eq_def]
  unfold special at h
  repeat' split at h
  all_goals cases h
  all_goals (subst_vars; simp [simple])

theorem scan_piece {p : Bytes} (hp : Piece p) : ∃ u, ∀ r, scan (p ++ r) = (scan r).map fun t => (u ++ t.1, t.2) := by
  cases hp with
  | @special b e h => exact ⟨[b.toNat], fun r => scan_special b e h r⟩
  | @plain b h1 h2 h3 h4 =>
    exact ⟨[b.toNat], fun r => by
      rw [List.cons_append, scan.eq_def]
      simp only [if_neg h1, if_neg h2, if_pos (And.intro h3 h4), List.nil_append]; rfl⟩
  | unit v h => exact ⟨[v], fun r => by rw [scan_unit v h]; rfl⟩
  | pair v w hv hw =>
    refine ⟨[v, w], fun r => ?_⟩
    rw [List.append_assoc, scan_unit v hv, scan_unit w hw, Option.map_map]
    rfl

theorem piece_ascii {p : Bytes} (hp : Piece p) : ∀ b ∈ p, 32 ≤ b.toNat ∧ b.toNat ≤ 126 := by
  have hx : ∀ n, 32 ≤ (hex2c n).toNat ∧ (hex2c n).toNat ≤ 126 := fun n => by have := hex2c_range n; omega
  have hu : ∀ v, ∀ b ∈ utf16Unit v, 32 ≤ b.toNat ∧ b.toNat ≤ 126 := by
    intro v b hb
    simp only [utf16Unit, List.mem_cons, List.not_mem_nil, or_false] at hb
    rcases hb with h | h | h | h | h | h
    · subst h; decide
    · subst h; decide
    all_goals (subst h; exact hx _)
  cases hp with
  | @special b e h =>
    intro x hx
    simp only [List.mem_cons, List.not_mem_nil, or_false] at hx
    rcases hx with hx | hx
    · subst hx; decide
    · subst hx
      have : ∀ b : UInt8, ∀ e, Json.special b = some e → 32 ≤ e.toNat ∧ e.toNat ≤ 126 := by
        intro b e h
        unfold Json.special at h
        repeat' split at h
        all_goals (cases h <;> decide)
      exact this b _ h
  | @plain b h1 h2 h3 h4 =>
    intro x hx
    simp only [List.mem_cons, List.not_mem_nil, or_false] at hx
    subst hx
    exact ⟨h3, h4⟩
  | unit v h => exact hu v
  | pair v w hv hw =>
    intro b hb
    rcases List.mem_append.mp hb with h | h
    · exact hu v b h
    · exact hu w b h

theorem esc_ind {P : Bytes → Prop} (h0 : P []) (h1 : ∀ b t, P ((b :: t).drop (escOne b t).2) → P (b :: t)) (s : Bytes) : P s := by
  suffices h : ∀ (k : Nat) (s : Bytes), s.length ≤ k → P s from h s.length s (Nat.le_refl _)
  intro k
  induction k with
  | zero =>
    intro s hs
    have : s = [] := List.length_eq_zero_iff.mp (by omega)
    subst this
    exact h0
  | succ k ih =>
    intro s hs
    cases s with
    | nil => exact h0
    | cons b t =>
      have hpos := escOne_pos b t
      exact h1 b t (ih _ (by simp only [List.length_drop, List.length_cons] at *; omega))

theorem esc_nil : esc [] = [] := rfl

theorem esc_ascii (s : Bytes) : ∀ b ∈ esc s, 32 ≤ b.toNat ∧ b.toNat ≤ 126 := by
  induction s using esc_ind with
  | h0 => intro b hb; rw [esc_nil] at hb; cases hb
  | h1 c t ih =>
    intro b hb
    rw [esc_cons] at hb
    rcases List.mem_append.mp hb with h | h
    · exact piece_ascii (escOne_piece c t) b h
    · exact ih b h

theorem scan_esc (s : Bytes) : ∃ u, ∀ r, scan (esc s ++ 34 :: r) = some (u, r) := by
  induction s using esc_ind with
  | h0 => exact ⟨[], fun r => by rw [esc_nil, List.nil_append, scan.eq_def]; rfl⟩
  | h1 c t ih =>
    obtain ⟨u1, e1⟩ := scan_piece (escOne_piece c t)
    obtain ⟨u2, e2⟩ := ih
    exact ⟨u1 ++ u2, fun r => by rw [esc_cons, List.append_assoc, e1, e2]; rfl⟩

/-- ASCII, for the strict reader. -/
theorem scan_ascii (b : UInt8) (hb : b.toNat ≤ 127) (t r : Bytes) :
    (escOne b t).2 = 1 ∧ scan ((escOne b t).1 ++ r) = (scan r).map fun t => (b.toNat :: t.1, t.2) := by
  unfold escOne
  cases hs : special b with
  | some e =>
    exact ⟨rfl, scan_special b e hs r⟩
  | none =>
    obtain ⟨h34, h92⟩ := special_ne hs
    dsimp only
    by_cases hc : b.toNat < 32 ∨ b.toNat > 126
    · have hu : utf8Seq b t = none := by
        have : ∀ b : UInt8, b.toNat ≤ 127 → ¬ (b &&& 0xC0 = 0xC0) := by decide +kernel
        rw [utf8Seq, if_neg (this b hb)]
      rw [if_pos hc, hu]
      refine ⟨rfl, ?_⟩
      have e : [92, 117, 48, 48, hex2c ((b.toNat >>> 4) &&& 0xf), hex2c (b.toNat &&& 0xf)] = utf16Unit b.toNat := by
        have : ∀ b : UInt8, hex2c ((b.toNat >>> 12) &&& 0xf) = 48 ∧ hex2c ((b.toNat >>> 8) &&& 0xf) = 48 := by decide +kernel
        rw [utf16Unit, (this b).1, (this b).2]
      dsimp only
      rw [e, scan_unit _ (by omega)]
    · rw [if_neg hc]
      refine ⟨rfl, ?_⟩
      dsimp only
      rw [List.cons_append, scan.eq_def]
      simp only [if_neg h34, if_neg h92, if_pos (show 32 ≤ b.toNat ∧ b.toNat ≤ 126 by omega), List.nil_append]

theorem scan_text (cs : List Char) (r : Bytes) : scan (esc (text cs) ++ 34 :: r) = some (cs.flatMap Spec.utf16, r) := by
  induction cs with
  | nil => simp [text, esc, escLoop, scan.eq_def (34 :: r)]
  | cons c cs ih =>
    have ht : text (c :: cs) = String.utf8EncodeChar c ++ text cs := rfl
    have hlt := char_lt c
    have hu : Spec.utf16 c = if c.val.toNat < 0x10000 then [c.val.toNat]
      else [0xD800 + (c.val.toNat - 0x10000) / 1024, 0xDC00 + (c.val.toNat - 0x10000) % 1024] := rfl
    rw [ht, List.flatMap_cons, hu]
    unfold String.utf8EncodeChar
    dsimp only
    by_cases h1 : c.val.toNat ≤ 0x7f
    · rw [if_pos h1, if_pos (by omega), List.cons_append, esc_cons, List.append_assoc]
      have hbn : (UInt8.ofNat c.val.toNat).toNat = c.val.toNat := by
        rw [toNat_ofNat_byte] <;> omega
      have hb : (UInt8.ofNat c.val.toNat).toNat ≤ 127 := by omega
      obtain ⟨e2, er⟩ := scan_ascii _ hb ([] ++ text cs)
        (esc ((UInt8.ofNat c.val.toNat :: ([] ++ text cs)).drop (escOne (UInt8.ofNat c.val.toNat) ([] ++ text cs)).2) ++ 34 :: r)
      rw [er, e2, List.drop_one, List.tail_cons, List.nil_append, ih, hbn]
      rfl
    · rw [if_neg h1]
      by_cases h2 : c.val.toNat ≤ 0x7ff
      · rw [if_pos h2, if_pos (by omega), List.cons_append, List.cons_append, List.nil_append, esc_cons, esc2 _ (by omega),
          List.append_assoc, scan_unit _ (by omega)]
        simp only [List.drop_succ_cons, List.drop_zero]
        rw [ih]
        rfl
      · rw [if_neg h2]
        by_cases h3 : c.val.toNat ≤ 0xffff
        · rw [if_pos h3, if_pos (by omega)]
          simp only [List.cons_append, List.nil_append]
          rw [esc_cons, esc3 _ (by omega), List.append_assoc, scan_unit _ (by omega)]
          simp only [List.drop_succ_cons, List.drop_zero]
          rw [ih]
          rfl
        · rw [if_neg h3, if_neg (by omega)]
          simp only [List.cons_append, List.nil_append]
          rw [esc_cons, esc4 _ (by omega) (by omega), List.append_assoc, List.append_assoc, scan_unit _ (by omega),
            scan_unit _ (by omega)]
          simp only [List.drop_succ_cons, List.drop_zero]
          rw [ih, show c.val.toNat % 1024 = (c.val.toNat - 0x10000) % 1024 by omega]
          rfl

end Verif.Json
