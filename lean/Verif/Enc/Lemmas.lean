import Verif.Enc.Model
import Verif.Enc.Spec

namespace Verif.Enc
open Spec

theorem b64Chr_digit (url : Bool) : ∀ v : Fin 64, b64Chr url (UInt8.ofNat v.val) = digit url v.val := by
  cases url <;> decide +kernel

theorem b64Chr_val (url : Bool) : ∀ v : Fin 64, b64CharVal (b64Chr url (UInt8.ofNat v.val)) = UInt8.ofNat v.val := by
  cases url <;> decide +kernel

theorem b64Chr_ne_pad (url : Bool) : ∀ v : Fin 64, b64Chr url (UInt8.ofNat v.val) ≠ 61 := by
  cases url <;> decide +kernel

theorem six_fin {v : UInt8} (h : v.toNat < 64) : ∃ f : Fin 64, v = UInt8.ofNat f.val :=
  ⟨⟨v.toNat, h⟩, by simp⟩

theorem and_fc (a : UInt8) : ((a &&& 0xFC) >>> 2).toNat = a.toNat / 4 := by
  revert a; decide +kernel
theorem and_03 (a : UInt8) : ((a &&& 0x03) <<< 4).toNat = a.toNat % 4 * 16 := by
  revert a; decide +kernel
theorem and_f0 (a : UInt8) : ((a &&& 0xF0) >>> 4).toNat = a.toNat / 16 := by
  revert a; decide +kernel
theorem and_0f (a : UInt8) : ((a &&& 0x0F) <<< 2).toNat = a.toNat % 16 * 4 := by
  revert a; decide +kernel
theorem and_c0 (a : UInt8) : ((a &&& 0xC0) >>> 6).toNat = a.toNat / 64 := by
  revert a; decide +kernel
theorem and_3f (a : UInt8) : (a &&& 0x3F).toNat = a.toNat % 64 := by
  revert a; decide +kernel
theorem and_30 (a : UInt8) : ((a &&& 0x30) >>> 4).toNat = a.toNat / 16 % 4 := by
  revert a; decide +kernel
theorem and_f_4 (a : UInt8) : ((a &&& 0xf) <<< 4).toNat = a.toNat % 16 * 16 := by
  revert a; decide +kernel
theorem and_3c (a : UInt8) : ((a &&& 0x3c) >>> 2).toNat = a.toNat / 4 % 16 := by
  revert a; decide +kernel
theorem and_3_6 (a : UInt8) : ((a &&& 0x3) <<< 6).toNat = a.toNat % 4 * 64 := by
  revert a; decide +kernel
theorem shl2 (a : UInt8) : (a <<< 2).toNat = a.toNat * 4 % 256 := by
  revert a; decide +kernel

theorem or_16 : ∀ (x : Fin 4) (y : Fin 16), (x.val * 16) ||| y.val = x.val * 16 + y.val := by decide
theorem or_4 : ∀ (x : Fin 16) (y : Fin 4), (x.val * 4) ||| y.val = x.val * 4 + y.val := by decide

theorem sext1 (a b : UInt8) :
    (((a &&& 0x03) <<< 4) ||| ((b &&& 0xF0) >>> 4)).toNat = a.toNat % 4 * 16 + b.toNat / 16 := by
  rw [UInt8.toNat_or, and_03, and_f0]
  have := b.toNat_lt
  exact or_16 ⟨a.toNat % 4, by omega⟩ ⟨b.toNat / 16, by omega⟩

theorem sext2 (a b : UInt8) :
    (((a &&& 0x0F) <<< 2) ||| ((b &&& 0xC0) >>> 6)).toNat = a.toNat % 16 * 4 + b.toNat / 64 := by
  rw [UInt8.toNat_or, and_0f, and_c0]
  have := b.toNat_lt
  exact or_4 ⟨a.toNat % 16, by omega⟩ ⟨b.toNat / 64, by omega⟩

/-- Value of a character produced from a 6-bit value. -/
theorem chr_val (url : Bool) {v : UInt8} (h : v.toNat < 64) : b64CharVal (b64Chr url v) = v := by
  obtain ⟨f, rfl⟩ := six_fin h; exact b64Chr_val url f

theorem chr_ne_pad (url : Bool) {v : UInt8} (h : v.toNat < 64) : b64Chr url v ≠ 61 := by
  obtain ⟨f, rfl⟩ := six_fin h; exact b64Chr_ne_pad url f

theorem chr_digit (url : Bool) {v : UInt8} {n : Nat} (h : v.toNat = n) (hn : n < 64) :
    b64Chr url v = digit url n := by
  subst h
  obtain ⟨f, hf⟩ := six_fin hn
  have : v.toNat = f.val := by rw [hf, u8n]; omega
  rw [this, ← b64Chr_digit url f, ← hf]

theorem val_ne_64 {v : UInt8} (h : v.toNat < 64) : v ≠ 64 := by
  intro he; subst he; simp at h

theorem b64CharVal_zero : b64CharVal 0 = 64 := by decide

/-- one decoding step on a good character -/
theorem decLoop_good {c : UInt8} {r : Bytes} {p : List UInt8} (h1 : c ≠ 61) (h2 : b64CharVal c ≠ 64) :
    b64DecLoop (c :: r) p = (match p with
      | [x, y, z] =>
        b64Three (b64CharVal x) (b64CharVal y) (b64CharVal z) (b64CharVal c) ++ b64DecLoop r []
      | _ => b64DecLoop r (p ++ [c])) := by
  rw [b64DecLoop.eq_def]; simp only [h1, h2, or_self, if_false]; rfl

theorem decLoop_pad {r : Bytes} {p : List UInt8} : b64DecLoop (61 :: r) p = b64Flush p := by
  rw [b64DecLoop.eq_def]; simp

theorem lt_fc (a : UInt8) : ((a &&& 0xFC) >>> 2).toNat < 64 := by
  rw [and_fc]; have := a.toNat_lt; omega
theorem lt_s1 (a b : UInt8) : (((a &&& 0x03) <<< 4) ||| ((b &&& 0xF0) >>> 4)).toNat < 64 := by
  rw [sext1]; have := b.toNat_lt; omega
theorem lt_s2 (a b : UInt8) : (((a &&& 0x0F) <<< 2) ||| ((b &&& 0xC0) >>> 6)).toNat < 64 := by
  rw [sext2]; have := b.toNat_lt; omega
theorem lt_3f (a : UInt8) : (a &&& 0x3F).toNat < 64 := by
  rw [and_3f]; omega

theorem three_0 (a b : UInt8) :
    (((a &&& 0xFC) >>> 2) <<< 2) + (((((a &&& 0x03) <<< 4) ||| ((b &&& 0xF0) >>> 4)) &&& 0x30) >>> 4) = a := by
  apply Byte.ext_nat
  rw [UInt8.toNat_add, shl2, and_fc, and_30, sext1]
  have := a.toNat_lt; have := b.toNat_lt; omega

theorem three_1 (a b c : UInt8) :
    (((((a &&& 0x03) <<< 4) ||| ((b &&& 0xF0) >>> 4)) &&& 0xf) <<< 4) +
      (((((b &&& 0x0F) <<< 2) ||| ((c &&& 0xC0) >>> 6)) &&& 0x3c) >>> 2) = b := by
  apply Byte.ext_nat
  rw [UInt8.toNat_add, and_f_4, sext1, and_3c, sext2]
  have := a.toNat_lt; have := b.toNat_lt; have := c.toNat_lt; omega

theorem three_2 (b c : UInt8) :
    (((((b &&& 0x0F) <<< 2) ||| ((c &&& 0xC0) >>> 6)) &&& 0x3) <<< 6) + (c &&& 0x3F) = c := by
  apply Byte.ext_nat
  rw [UInt8.toNat_add, and_3_6, sext2, and_3f]
  have := b.toNat_lt; have := c.toNat_lt; omega

/-- Decoding a whole quad. -/
theorem dec_quad3 (url : Bool) (a b c : UInt8) (r : Bytes) :
    b64DecLoop (b64Quad url a b c 3 ++ r) [] = a :: b :: c :: b64DecLoop r [] := by
  have h0 := lt_fc a; have h1 := lt_s1 a b; have h2 := lt_s2 b c; have h3 := lt_3f c
  simp only [b64Quad, List.cons_append, List.nil_append, show ¬ (3 < 2) by omega, show ¬ (3 < 3) by omega, if_false]
  rw [decLoop_good (chr_ne_pad url h0) (by rw [chr_val url h0]; exact val_ne_64 h0)]
  simp only [List.nil_append]
  rw [decLoop_good (chr_ne_pad url h1) (by rw [chr_val url h1]; exact val_ne_64 h1)]
  simp only [List.cons_append, List.nil_append]
  rw [decLoop_good (chr_ne_pad url h2) (by rw [chr_val url h2]; exact val_ne_64 h2)]
  simp only [List.cons_append, List.nil_append]
  rw [decLoop_good (chr_ne_pad url h3) (by rw [chr_val url h3]; exact val_ne_64 h3)]
  simp only [chr_val url h0, chr_val url h1, chr_val url h2, chr_val url h3, b64Three,
    three_0, three_1, three_2, List.cons_append, List.nil_append]

theorem flush2 (url : Bool) (a : UInt8) :
    b64Flush [b64Chr url ((a &&& 0xFC) >>> 2),
      b64Chr url (((a &&& 0x03) <<< 4) ||| (((0 : UInt8) &&& 0xF0) >>> 4))] = [a] := by
  simp only [b64Flush, chr_val url (lt_fc a), chr_val url (lt_s1 a 0), b64Three, three_0]
  rfl

theorem flush3 (url : Bool) (a b : UInt8) :
    b64Flush [b64Chr url ((a &&& 0xFC) >>> 2),
      b64Chr url (((a &&& 0x03) <<< 4) ||| ((b &&& 0xF0) >>> 4)),
      b64Chr url (((b &&& 0x0F) <<< 2) ||| (((0 : UInt8) &&& 0xC0) >>> 6))] = [a, b] := by
  simp only [b64Flush, chr_val url (lt_fc a), chr_val url (lt_s1 a b), chr_val url (lt_s2 b 0),
    b64Three, three_0, three_1]
  rfl

/-- Decoding the last, incomplete group; whatever begins with '=' or is empty follows. -/
theorem dec_quad1 (url : Bool) (a : UInt8) (r : Bytes) (hr : ∀ p, b64DecLoop r p = b64Flush p) :
    b64DecLoop (b64Chr url ((a &&& 0xFC) >>> 2) ::
      b64Chr url (((a &&& 0x03) <<< 4) ||| (((0 : UInt8) &&& 0xF0) >>> 4)) :: r) [] = [a] := by
  have h0 := lt_fc a; have h1 := lt_s1 a 0
  rw [decLoop_good (chr_ne_pad url h0) (by rw [chr_val url h0]; exact val_ne_64 h0)]
  simp only [List.nil_append]
  rw [decLoop_good (chr_ne_pad url h1) (by rw [chr_val url h1]; exact val_ne_64 h1)]
  simp only [List.cons_append, List.nil_append, hr]
  exact flush2 url a

theorem dec_quad2 (url : Bool) (a b : UInt8) (r : Bytes) (hr : ∀ p, b64DecLoop r p = b64Flush p) :
    b64DecLoop (b64Chr url ((a &&& 0xFC) >>> 2) ::
      b64Chr url (((a &&& 0x03) <<< 4) ||| ((b &&& 0xF0) >>> 4)) ::
      b64Chr url (((b &&& 0x0F) <<< 2) ||| (((0 : UInt8) &&& 0xC0) >>> 6)) :: r) [] = [a, b] := by
  have h0 := lt_fc a; have h1 := lt_s1 a b; have h2 := lt_s2 b 0
  rw [decLoop_good (chr_ne_pad url h0) (by rw [chr_val url h0]; exact val_ne_64 h0)]
  simp only [List.nil_append]
  rw [decLoop_good (chr_ne_pad url h1) (by rw [chr_val url h1]; exact val_ne_64 h1)]
  simp only [List.cons_append, List.nil_append]
  rw [decLoop_good (chr_ne_pad url h2) (by rw [chr_val url h2]; exact val_ne_64 h2)]
  simp only [List.cons_append, List.nil_append, hr]
  exact flush3 url a b

theorem flush_nil : ∀ p, b64DecLoop [] p = b64Flush p := fun p => by rw [b64DecLoop]

theorem flush_pad (r : Bytes) : ∀ p, b64DecLoop (61 :: r) p = b64Flush p := fun _ => decLoop_pad

theorem bytesBits_eq (bs : Bytes) : bytesBits bs = toBits (8 * bs.length) (beVal bs) := by
  rw [← bytesBits_beEnc, beEnc_beVal]

theorem sextets_cons (v : Nat) (r : List Bool) : sextets (toBits 6 v ++ r) = v % 64 :: sextets r := by
  have : toBits 6 v = [decide (v / 2 ^ 5 % 2 = 1), decide (v / 2 ^ 4 % 2 = 1), decide (v / 2 ^ 3 % 2 = 1),
    decide (v / 2 ^ 2 % 2 = 1), decide (v / 2 ^ 1 % 2 = 1), decide (v / 2 ^ 0 % 2 = 1)] := rfl
  have h := ofBits_toBits 6 v
  rw [this] at h ⊢
  simp only [List.cons_append, List.nil_append, sextets, h]

theorem sextets_2 (v : Nat) : sextets (toBits 2 v) = [v % 4 * 16] := by
  have : toBits 2 v = [decide (v / 2 ^ 1 % 2 = 1), decide (v / 2 ^ 0 % 2 = 1)] := rfl
  have h := ofBits_append (toBits 2 v) (List.replicate 4 false)
  rw [ofBits_toBits] at h
  rw [this] at h ⊢
  simp only [sextets]
  rw [show (6 - [decide (v / 2 ^ 1 % 2 = 1), decide (v / 2 ^ 0 % 2 = 1)].length) = 4 by rfl, h]
  rfl

theorem sextets_4 (v : Nat) : sextets (toBits 4 v) = [v % 16 * 4] := by
  have : toBits 4 v = [decide (v / 2 ^ 3 % 2 = 1), decide (v / 2 ^ 2 % 2 = 1),
    decide (v / 2 ^ 1 % 2 = 1), decide (v / 2 ^ 0 % 2 = 1)] := rfl
  have h := ofBits_append (toBits 4 v) (List.replicate 2 false)
  rw [ofBits_toBits] at h
  rw [this] at h ⊢
  simp only [sextets]
  rw [show (6 - [decide (v / 2 ^ 3 % 2 = 1), decide (v / 2 ^ 2 % 2 = 1),
    decide (v / 2 ^ 1 % 2 = 1), decide (v / 2 ^ 0 % 2 = 1)].length) = 2 by rfl, h]
  rfl

theorem sextets_3bytes (a b c : UInt8) (r : List Bool) :
    sextets (bytesBits [a, b, c] ++ r) =
      a.toNat / 4 :: (a.toNat % 4 * 16 + b.toNat / 16) :: (b.toNat % 16 * 4 + c.toNat / 64) ::
        (c.toNat % 64) :: sextets r := by
  have ha := a.toNat_lt; have hb := b.toNat_lt; have hc := c.toNat_lt
  rw [bytesBits_eq]
  simp only [List.length_cons, List.length_nil, beVal]
  rw [show 8 * (0 + 1 + 1 + 1) = 6 + (6 + (6 + 6)) by rfl, toBits_add, toBits_add, toBits_add]
  simp only [List.append_assoc, sextets_cons]
  congr 1
  · omega
  congr 1
  · omega
  congr 1
  · omega
  congr 1
  omega

theorem sextets_1byte (a : UInt8) :
    sextets (bytesBits [a]) = [a.toNat / 4, a.toNat % 4 * 16] := by
  have ha := a.toNat_lt
  rw [bytesBits_eq]
  simp only [List.length_cons, List.length_nil, beVal]
  rw [show 8 * (0 + 1) = 6 + 2 by rfl, toBits_add, sextets_cons, sextets_2]
  congr 1
  · omega
  congr 1
  omega

theorem sextets_2bytes (a b : UInt8) :
    sextets (bytesBits [a, b]) = [a.toNat / 4, a.toNat % 4 * 16 + b.toNat / 16, b.toNat % 16 * 4] := by
  have ha := a.toNat_lt; have hb := b.toNat_lt
  rw [bytesBits_eq]
  simp only [List.length_cons, List.length_nil, beVal]
  rw [show 8 * (0 + 1 + 1) = 6 + (6 + 4) by rfl, toBits_add, toBits_add, sextets_cons, sextets_cons, sextets_4]
  congr 1
  · omega
  congr 1
  · omega
  congr 1
  omega

/-- The digits the encoder emits, without padding. -/
def digits (url : Bool) (s : Bytes) : Bytes := (sextets (bytesBits s)).map (digit url)

theorem quad3_digits (url : Bool) (a b c : UInt8) :
    b64Quad url a b c 3 = [digit url (a.toNat / 4), digit url (a.toNat % 4 * 16 + b.toNat / 16),
      digit url (b.toNat % 16 * 4 + c.toNat / 64), digit url (c.toNat % 64)] := by
  have ha := a.toNat_lt; have hb := b.toNat_lt; have hc := c.toNat_lt
  simp only [b64Quad, show ¬ (3 < 2) by omega, show ¬ (3 < 3) by omega, if_false]
  rw [chr_digit url (and_fc a) (by omega), chr_digit url (sext1 a b) (by omega),
    chr_digit url (sext2 b c) (by omega), chr_digit url (and_3f c) (by omega)]

theorem loop_eq (url : Bool) (s : Bytes) :
    b64Loop url s = digits url s ++ List.replicate ((3 - s.length % 3) % 3) 61 ∧
      (digits url s).length + (3 - s.length % 3) % 3 = 4 * ((s.length + 2) / 3) := by
  induction s using b64Loop.induct with
  | case1 => simp [b64Loop, digits, bytesBits, sextets]
  | case2 a =>
    have ha := a.toNat_lt
    have : ((0 : UInt8).toNat) = 0 := rfl
    simp only [b64Loop, digits, sextets_1byte, List.map, b64Quad]
    rw [chr_digit url (and_fc a) (by omega), chr_digit url (sext1 a 0) (by omega)]
    simp [List.replicate]
  | case3 a b =>
    have ha := a.toNat_lt; have hb := b.toNat_lt
    have : ((0 : UInt8).toNat) = 0 := rfl
    simp only [b64Loop, digits, sextets_2bytes, List.map, b64Quad]
    rw [chr_digit url (and_fc a) (by omega), chr_digit url (sext1 a b) (by omega),
      chr_digit url (sext2 b 0) (by omega)]
    simp
  | case4 a b c r ih =>
    obtain ⟨ih1, ih2⟩ := ih
    have hd : digits url (a :: b :: c :: r) = b64Quad url a b c 3 ++ digits url r := by
      rw [quad3_digits]
      unfold digits
      rw [show a :: b :: c :: r = [a, b, c] ++ r by rfl, bytesBits_append, sextets_3bytes]
      simp
    have hl : (b64Quad url a b c 3).length = 4 := rfl
    simp only [b64Loop, hd, ih1, List.length_append, hl, List.length_cons]
    constructor
    · rw [show (r.length + 1 + 1 + 1) % 3 = r.length % 3 by omega]; simp
    · omega

theorem digits_ne_pad (url : Bool) (s : Bytes) : ∀ c ∈ digits url s, c ≠ 61 := by
  induction s using b64Loop.induct with
  | case1 => simp [digits, bytesBits, sextets]
  | case2 a =>
    have ha := a.toNat_lt
    simp only [digits, sextets_1byte, List.map, List.mem_cons, List.not_mem_nil, or_false]
    rintro c (rfl | rfl) <;> (rw [← b64Chr_digit url ⟨_, by omega⟩]; exact b64Chr_ne_pad url ⟨_, by omega⟩)
  | case3 a b =>
    have ha := a.toNat_lt; have hb := b.toNat_lt
    simp only [digits, sextets_2bytes, List.map, List.mem_cons, List.not_mem_nil, or_false]
    rintro c (rfl | rfl | rfl) <;>
      (rw [← b64Chr_digit url ⟨_, by omega⟩]; exact b64Chr_ne_pad url ⟨_, by omega⟩)
  | case4 a b c r ih =>
    have ha := a.toNat_lt; have hb := b.toNat_lt; have hc := c.toNat_lt
    intro x hx
    unfold digits at hx ih
    rw [show a :: b :: c :: r = [a, b, c] ++ r by rfl, bytesBits_append, sextets_3bytes] at hx
    simp only [List.map, List.mem_cons] at hx
    rcases hx with rfl | rfl | rfl | rfl | hx
    · rw [← b64Chr_digit url ⟨_, by omega⟩]; exact b64Chr_ne_pad url ⟨_, by omega⟩
    · rw [← b64Chr_digit url ⟨_, by omega⟩]; exact b64Chr_ne_pad url ⟨_, by omega⟩
    · rw [← b64Chr_digit url ⟨_, by omega⟩]; exact b64Chr_ne_pad url ⟨_, by omega⟩
    · rw [← b64Chr_digit url ⟨_, by omega⟩]; exact b64Chr_ne_pad url ⟨_, by omega⟩
    · exact ih x hx

theorem dropWhile_pad (n : Nat) (l : Bytes) :
    (List.replicate n (61 : UInt8) ++ l).dropWhile (· == 61) = l.dropWhile (· == 61) := by
  induction n with
  | zero => rfl
  | succ n ih => simp [List.replicate_succ, ih]

theorem dropWhile_none {l : Bytes} (h : ∀ c ∈ l, c ≠ 61) : l.dropWhile (· == 61) = l := by
  cases l with
  | nil => rfl
  | cons a r => simp [h a (by simp)]

theorem stripPad_digits (url : Bool) (s : Bytes) (n : Nat) :
    stripPad (digits url s ++ List.replicate n 61) = digits url s := by
  unfold stripPad
  rw [List.reverse_append, List.reverse_replicate, dropWhile_pad, dropWhile_none, List.reverse_reverse]
  intro c hc
  exact digits_ne_pad url s c (List.mem_reverse.mp hc)

theorem dec_digits (url : Bool) (s : Bytes) (n : Nat) :
    b64DecLoop (digits url s ++ List.replicate n 61) [] = s := by
  have htail : ∀ p, b64DecLoop (List.replicate n 61) p = b64Flush p := by
    cases n with
    | zero => exact flush_nil
    | succ n => exact flush_pad _
  induction s using b64Loop.induct with
  | case1 =>
    simp only [digits, bytesBits, sextets, List.map, List.nil_append, htail]; rfl
  | case2 a =>
    have ha := a.toNat_lt
    have : ((0 : UInt8).toNat) = 0 := rfl
    have h := dec_quad1 url a _ htail
    rw [chr_digit url (and_fc a) (by omega), chr_digit url (sext1 a 0) (by omega)] at h
    simpa [digits, sextets_1byte] using h
  | case3 a b =>
    have ha := a.toNat_lt; have hb := b.toNat_lt
    have : ((0 : UInt8).toNat) = 0 := rfl
    have h := dec_quad2 url a b _ htail
    rw [chr_digit url (and_fc a) (by omega), chr_digit url (sext1 a b) (by omega),
      chr_digit url (sext2 b 0) (by omega)] at h
    simpa [digits, sextets_2bytes] using h
  | case4 a b c r ih =>
    have hd : digits url (a :: b :: c :: r) = b64Quad url a b c 3 ++ digits url r := by
      rw [quad3_digits]
      unfold digits
      rw [show a :: b :: c :: r = [a, b, c] ++ r by rfl, bytesBits_append, sextets_3bytes]
      simp
    rw [hd, List.append_assoc, dec_quad3, ih]

theorem sextets_lt (l : List Bool) : ∀ v ∈ sextets l, v < 64 := by
  induction l using sextets.induct with
  | case1 a b c d e f r ih =>
    intro v hv
    simp only [sextets, List.mem_cons] at hv
    rcases hv with rfl | hv
    · exact ofBits_lt _
    · exact ih v hv
  | case2 => simp [sextets]
  | case3 l h1 h2 =>
    intro v hv
    have hl : l.length < 6 := by
      match l, h1 with
      | [], _ => simp
      | [_], _ => simp
      | [_, _], _ => simp
      | [_, _, _], _ => simp
      | [_, _, _, _], _ => simp
      | [_, _, _, _, _], _ => simp
      | _ :: _ :: _ :: _ :: _ :: _ :: _, h1 => exact absurd rfl (h1 _ _ _ _ _ _ _)
    rw [sextets] at hv
    · simp only [List.mem_cons, List.not_mem_nil, or_false] at hv
      subst hv
      have := ofBits_lt (l ++ List.replicate (6 - l.length) false)
      rwa [List.length_append, List.length_replicate, show l.length + (6 - l.length) = 6 by omega] at this
    · exact h1
    · exact h2

/-! ### Hexadecimal -/

theorem hexChr_spec (b : UInt8) : ∃ x y, hexChr b = [x, y] ∧ isLowerHex x ∧ isLowerHex y ∧
    hexVal x = some (b.toNat / 16) ∧ hexVal y = some (b.toNat % 16) := by
  refine ⟨(hexChr b).getD 0 0, (hexChr b).getD 1 0, ?_⟩
  unfold isLowerHex
  revert b
  decide +kernel

theorem hexOrd_val (c : UInt8) (v : Nat) (h : hexVal c = some v) : (hexOrd c).toNat = v ∧ v < 16 := by
  have : ∀ c : UInt8, ∀ v ∈ hexVal c, (hexOrd c).toNat = v ∧ v < 16 := by decide +kernel
  exact this c v h

theorem hexVal_upper (c : UInt8) : hexVal (upper c) = hexVal c := by
  revert c; decide +kernel

theorem hexOrd_upper (c : UInt8) (v : Nat) (h : hexVal c = some v) : hexOrd (upper c) = hexOrd c := by
  apply Byte.ext_nat
  rw [(hexOrd_val c v h).1, (hexOrd_val (upper c) v (by rw [hexVal_upper, h])).1]

theorem nib : ∀ (x y : Fin 16), (UInt8.ofNat x.val <<< 4 ||| UInt8.ofNat y.val) = UInt8.ofNat (x.val * 16 + y.val) ∧
    (UInt8.ofNat x.val <<< 4 + UInt8.ofNat y.val) = UInt8.ofNat (x.val * 16 + y.val) := by
  decide +kernel

theorem hex_pair {x y : UInt8} {b : UInt8} (hx : hexVal x = some (b.toNat / 16))
    (hy : hexVal y = some (b.toNat % 16)) :
    (hexOrd x <<< 4 ||| hexOrd y) = b ∧ (hexOrd x <<< 4 + hexOrd y) = b := by
  obtain ⟨h1, h2⟩ := hexOrd_val x _ hx
  obtain ⟨h3, h4⟩ := hexOrd_val y _ hy
  have e1 : hexOrd x = UInt8.ofNat (b.toNat / 16) := by rw [← h1]; simp
  have e2 : hexOrd y = UInt8.ofNat (b.toNat % 16) := by rw [← h3]; simp
  have := nib ⟨b.toNat / 16, h2⟩ ⟨b.toNat % 16, h4⟩
  simp only at this
  rw [e1, e2, this.1, this.2, show b.toNat / 16 * 16 + b.toNat % 16 = b.toNat by omega]
  simp

instance : DecidablePred unreserved := fun c => by unfold unreserved; infer_instance
instance : DecidablePred isLowerHex := fun c => by unfold isLowerHex; infer_instance

theorem urlPlain_unreserved (c : UInt8) (h : urlPlain c = true) : unreserved c := by
  have : ∀ c : UInt8, urlPlain c = true → unreserved c := by decide +kernel
  exact this c h

theorem lowerHex_unreserved (c : UInt8) (h : isLowerHex c) : unreserved c := by
  unfold isLowerHex at h
  unfold unreserved
  rcases h with h | h
  · exact .inl h
  · refine .inr (.inl ⟨h.1, ?_⟩)
    have h2 := h.2
    rw [UInt8.le_iff_toNat_le] at *
    simp at *; omega

end Verif.Enc
