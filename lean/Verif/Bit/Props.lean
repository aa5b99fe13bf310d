import Verif.Bit.Model
import Verif.Base.Bits
import Verif.Base.Arith

/-!
# C05: fixed-width integer storage
-/
namespace Verif.Bit

/-- Number of bytes of a stored integer (specification). -/
def Codec.width : Codec → Nat
  | .s | .s_le => 2
  | .b24 | .b24_le => 3
  | .l | .l_le => 4
  | .b40 => 5
  | .b48 => 6
  | .b56 => 7
  | .ll | .ll_le => 8

/-- Whether the most significant byte comes first (specification). -/
def Codec.big : Codec → Bool
  | .s | .b24 | .l | .b40 | .b48 | .b56 | .ll => true
  | _ => false

/-- Positional notation in the byte order of the codec (specification). -/
def Codec.notation (c : Codec) (v : Nat) : Bytes :=
  if c.big then beEnc c.width v else leEnc c.width v

theorem byteAt_eq (v k : Nat) : byteAt v k = UInt8.ofNat (v / 2 ^ k) := by
  apply Byte.ext_nat; rw [byteAt, u8n, u8n, and_ff, shr]; omega

theorem htob_eq (c : Codec) (v : Nat) : htob c v = c.notation v := by
  cases c <;> simp [htob, Codec.notation, Codec.big, Codec.width, beEnc, leEnc, byteAt_eq, Nat.div_div_eq_div_mul]

theorem htob_length (c : Codec) (v : Nat) : (htob c v).length = c.width := by
  cases c <;> rfl

theorem byteAt_toNat (v k : Nat) : (byteAt v k).toNat = v / 2 ^ k % 256 := by
  rw [byteAt_eq, u8n]

/-- The load of a full-width byte list is its positional value. -/
theorem btoh_eq (c : Codec) (bs r : Bytes) (h : bs.length = c.width) :
    btoh c (bs ++ r) = some (if c.big then beVal bs else leVal bs) := by
  have lt : ∀ b : UInt8, b.toNat < 256 := fun b => b.toNat_lt
  cases c
  all_goals
    simp only [Codec.width] at h
  case s =>
    match bs, h with
    | [a, b], _ =>
      simp only [List.cons_append, btoh, shl, Codec.big, if_true, beVal, List.length_cons, List.length_nil,
        Nat.reduceAdd, Nat.reducePow]
      rw [or_eq_add 8 (by omega) (lt _)]; simp
  case s_le =>
    match bs, h with
    | [a, b], _ =>
      have := lt a; have := lt b
      simp only [List.cons_append, btoh, shl, Codec.big, Bool.false_eq_true, if_false, leVal]
      rw [or_eq_add 8 (by omega) (lt _)]; congr 1; omega
  case b24 =>
    match bs, h with
    | [a, b, c], _ =>
      have := lt a; have := lt b; have := lt c
      simp only [List.cons_append, btoh, shl, Codec.big, if_true, beVal, List.length_cons, List.length_nil,
        Nat.reduceAdd, Nat.reducePow]
      rw [or_eq_add 16 (x := _ * _) (by omega) (by omega), or_eq_add 8 (by omega) (by omega)]; exact congrArg some (by omega)
  case b24_le =>
    match bs, h with
    | [a, b, c], _ =>
      have := lt a; have := lt b; have := lt c
      simp only [List.cons_append, btoh, shl, Codec.big, Bool.false_eq_true, if_false, leVal]
      rw [or_eq_add 16 (x := _ * _) (by omega) (by omega), or_eq_add 8 (by omega) (by omega)]; exact congrArg some (by omega)
  case l =>
    match bs, h with
    | [a, b, c, d], _ =>
      have := lt a; have := lt b; have := lt c; have := lt d
      simp only [List.cons_append, btoh, shl, Codec.big, if_true, beVal, List.length_cons, List.length_nil,
        Nat.reduceAdd, Nat.reducePow]
      rw [or_eq_add 24 (x := _ * _) (by omega) (by omega), or_eq_add 16 (x := _ + _) (by omega) (by omega),
        or_eq_add 8 (by omega) (by omega)]; exact congrArg some (by omega)
  case l_le =>
    match bs, h with
    | [a, b, c, d], _ =>
      have := lt a; have := lt b; have := lt c; have := lt d
      simp only [List.cons_append, btoh, shl, Codec.big, Bool.false_eq_true, if_false, leVal]
      rw [or_eq_add 24 (x := _ * _) (by omega) (by omega), or_eq_add 16 (x := _ + _) (by omega) (by omega),
        or_eq_add 8 (by omega) (by omega)]; exact congrArg some (by omega)
  case b40 =>
    match bs, h with
    | [a, b, c, d, e], _ =>
      have := lt a; have := lt b; have := lt c; have := lt d; have := lt e
      simp only [List.cons_append, btoh, shl, Codec.big, if_true, beVal, List.length_cons, List.length_nil,
        Nat.reduceAdd, Nat.reducePow]
      rw [or_eq_add 32 (x := _ * _) (by omega) (by omega), or_eq_add 24 (x := _ + _) (by omega) (by omega),
        or_eq_add 16 (x := _ + _) (by omega) (by omega), or_eq_add 8 (by omega) (by omega)]; exact congrArg some (by omega)
  case b48 =>
    match bs, h with
    | [a, b, c, d, e, f], _ =>
      have := lt a; have := lt b; have := lt c; have := lt d; have := lt e; have := lt f
      simp only [List.cons_append, btoh, shl, Codec.big, if_true, beVal, List.length_cons, List.length_nil,
        Nat.reduceAdd, Nat.reducePow]
      rw [or_eq_add 40 (x := _ * _) (by omega) (by omega), or_eq_add 32 (x := _ + _) (by omega) (by omega),
        or_eq_add 24 (x := _ + _) (by omega) (by omega),
        or_eq_add 16 (x := _ + _) (by omega) (by omega), or_eq_add 8 (by omega) (by omega)]; exact congrArg some (by omega)
  case b56 =>
    match bs, h with
    | [a, b, c, d, e, f, g], _ =>
      have := lt a; have := lt b; have := lt c; have := lt d; have := lt e; have := lt f; have := lt g
      simp only [List.cons_append, btoh, shl, Codec.big, if_true, beVal, List.length_cons, List.length_nil,
        Nat.reduceAdd, Nat.reducePow]
      rw [or_eq_add 48 (x := _ * _) (by omega) (by omega),
        or_eq_add 40 (x := _ + _) (by omega) (by omega), or_eq_add 32 (x := _ + _) (by omega) (by omega),
        or_eq_add 24 (x := _ + _) (by omega) (by omega),
        or_eq_add 16 (x := _ + _) (by omega) (by omega), or_eq_add 8 (by omega) (by omega)]; exact congrArg some (by omega)
  case ll =>
    match bs, h with
    | [a, b, c, d, e, f, g, i], _ =>
      have := lt a; have := lt b; have := lt c; have := lt d; have := lt e; have := lt f; have := lt g; have := lt i
      simp only [List.cons_append, btoh, shl, Codec.big, if_true, beVal, List.length_cons, List.length_nil,
        Nat.reduceAdd, Nat.reducePow]
      rw [or_eq_add 56 (x := _ * _) (by omega) (by omega), or_eq_add 48 (x := _ + _) (by omega) (by omega),
        or_eq_add 40 (x := _ + _) (by omega) (by omega), or_eq_add 32 (x := _ + _) (by omega) (by omega),
        or_eq_add 24 (x := _ + _) (by omega) (by omega),
        or_eq_add 16 (x := _ + _) (by omega) (by omega), or_eq_add 8 (by omega) (by omega)]; exact congrArg some (by omega)
  case ll_le =>
    match bs, h with
    | [a, b, c, d, e, f, g, i], _ =>
      have := lt a; have := lt b; have := lt c; have := lt d; have := lt e; have := lt f; have := lt g; have := lt i
      simp only [List.cons_append, btoh, shl, Codec.big, Bool.false_eq_true, if_false, leVal]
      rw [or_eq_add 56 (x := _ * _) (by omega) (by omega), or_eq_add 48 (x := _ + _) (by omega) (by omega),
        or_eq_add 40 (x := _ + _) (by omega) (by omega), or_eq_add 32 (x := _ + _) (by omega) (by omega),
        or_eq_add 24 (x := _ + _) (by omega) (by omega),
        or_eq_add 16 (x := _ + _) (by omega) (by omega), or_eq_add 8 (by omega) (by omega)]; exact congrArg some (by omega)

/-- C05. A store succeeds exactly when the width fits in the buffer; it then replaces exactly
`width` bytes by the positional notation of the value and leaves every other byte alone. -/
theorem C05_store_frame (c : Codec) (buf : Bytes) (pos v : Nat) :
    store c buf pos v =
      if pos + c.width ≤ buf.length then
        some (buf.take pos ++ c.notation v ++ buf.drop (pos + c.width))
      else none := by
  rw [store, poke, htob_length, htob_eq]

/-- C05. Loading what was stored gives the value modulo the width. -/
theorem C05_load_store (c : Codec) (buf buf' : Bytes) (pos v : Nat)
    (h : store c buf pos v = some buf') : load c buf' pos = some (v % 256 ^ c.width) := by
  rw [C05_store_frame] at h
  split at h
  next hl =>
    simp only [Option.some.injEq] at h
    subst h
    have : (buf.take pos ++ c.notation v ++ buf.drop (pos + c.width)).drop pos =
        c.notation v ++ buf.drop (pos + c.width) := by
      rw [List.append_assoc, List.drop_append_of_le_length (by simp; omega)]
      simp
    rw [load, this, btoh_eq c _ _ (by rw [← htob_eq]; exact htob_length c v)]
    unfold Codec.notation
    cases c.big
    · simp [leVal_leEnc]
    · simp [beVal_beEnc]
  next => cases h

/-- C05. A store never changes what a load of any codec elsewhere returns. -/
theorem C05_load_elsewhere (c d : Codec) (buf buf' : Bytes) (pos q v : Nat)
    (h : store c buf pos v = some buf') (hq : q + d.width ≤ pos ∨ pos + c.width ≤ q)
    (hb : q + d.width ≤ buf.length) :
    load d buf' q = load d buf q := by
  rw [C05_store_frame] at h
  split at h
  next hl =>
    simp only [Option.some.injEq] at h
    have hn : (c.notation v).length = c.width := by rw [← htob_eq]; exact htob_length c v
    have key : ∀ b : Bytes, q + d.width ≤ b.length →
        load d b q = some (if d.big then beVal ((b.drop q).take d.width) else leVal ((b.drop q).take d.width)) := by
      intro b hb
      rw [load]
      conv => lhs; rw [← List.take_append_drop d.width (b.drop q)]
      rw [btoh_eq d _ _ (by simp; omega)]
    have hlen : buf'.length = buf.length := by subst h; simp [hn]; omega
    rw [key buf hb, key buf' (by omega)]
    have : (buf'.drop q).take d.width = (buf.drop q).take d.width := by
      subst h
      rcases hq with hq | hq
      · apply List.ext_getElem?
        intro i
        simp only [List.getElem?_take, List.getElem?_drop, List.append_assoc]
        split
        · rw [List.getElem?_append_left (by simp; omega), List.getElem?_take_of_lt (by omega)]
        · rfl
      · apply List.ext_getElem?
        intro i
        simp only [List.getElem?_take, List.getElem?_drop]
        split
        · rw [List.getElem?_append_right (by simp [hn]; omega), List.getElem?_drop]
          congr 1; simp [hn]; omega
        · rfl
    rw [this]
  next => cases h

/-- C05, floats: the 32-bit pattern survives. -/
theorem C05_float_roundtrip (buf buf' : Bytes) (pos pattern : Nat) (hp : pattern < 2 ^ 32)
    (h : storeF buf pos pattern = some buf') : loadF buf' pos = some pattern := by
  have := C05_load_store .l buf buf' pos pattern h
  rw [loadF, this, Nat.mod_eq_of_lt (by simpa [Codec.width] using hp)]

/-- C05, doubles: the code stores only the low 32 bits of the pattern. -/
theorem C05_double_roundtrip_partial (buf buf' : Bytes) (pos pattern : Nat)
    (h : storeD buf pos pattern = some buf') : loadD buf' pos = some (pattern % 2 ^ 32) := by
  have := C05_load_store .ll buf buf' pos _ h
  rw [loadD, this, Nat.mod_eq_of_lt]
  have : pattern % 2 ^ 32 < 2 ^ 32 := Nat.mod_lt _ (by decide)
  simp only [Codec.width]; omega

/-- C05, doubles: 1.0 (pattern 0x3FF0000000000000) reads back as 0.0. The claim "a stored
double reads back as the same bit pattern" is false of the code. -/
theorem C05_double_roundtrip_fails :
    ¬ ∀ buf buf' pos pattern, pattern < 2 ^ 64 → storeD buf pos pattern = some buf' →
      loadD buf' pos = some pattern := by
  intro h
  have := h (List.replicate 8 0) (List.replicate 8 0) 0 0x3FF0000000000000 (by decide) (by decide)
  revert this; decide

example : store .b24_le [1, 2, 3, 4, 5] 1 0xABCDEF = some [1, 0xEF, 0xCD, 0xAB, 5] ∧
    load .b24_le [1, 0xEF, 0xCD, 0xAB, 5] 1 = some 0xABCDEF := by decide

/-! `Bit::getMSB` -/

/-- `getMSB` at a byte-aligned offset with a whole number of bytes reads positional notation. -/
theorem getMSB_bytes (p r : Bytes) (acc : Nat) :
    getMSBLoop 0 (p ++ r) (8 * p.length) acc = some ((acc * 256 ^ p.length + beVal p) % 2 ^ 64) ∨ p = [] := by
  induction p generalizing acc with
  | nil => exact .inr rfl
  | cons b p ih =>
    left
    have hb := b.toNat_lt
    have h8 : 8 * (b :: p).length = (8 * p.length + 7) + 1 := by simp; omega
    rw [h8, List.cons_append, getMSBLoop]
    have hcur : min (8 - 0) (8 * p.length + 7 + 1) = 8 := by omega
    simp only [hcur]
    have hstep : (((acc <<< 8) ||| ((b.toNat <<< 0) >>> (8 - 8))) % 2 ^ 64) = (acc * 256 + b.toNat) % 2 ^ 64 := by
      simp only [Nat.sub_self, Nat.shiftRight_zero, shl, Nat.pow_zero, Nat.mul_one]
      rw [or_eq_add 8 (by omega) hb]
    rw [hstep, show 8 * p.length + 7 + 1 - 8 = 8 * p.length by omega]
    have hval : ∀ x : Nat, (x % 2 ^ 64 * 256 ^ p.length + beVal p) % 2 ^ 64 = (x * 256 ^ p.length + beVal p) % 2 ^ 64 := by
      intro x
      rw [Nat.add_mod, Nat.mul_mod, Nat.mod_mod, ← Nat.mul_mod, ← Nat.add_mod]
    rcases ih ((acc * 256 + b.toNat) % 2 ^ 64) with h | h
    · rw [h, hval]
      simp only [beVal, List.length_cons, Nat.pow_succ]
      congr 2; grind
    · subst h
      simp [getMSBLoop, beVal]

/-- C05, `getMSB` on whole bytes: the big-endian value, last 64 bits. -/
theorem C05_getMSB_aligned (pre p r : Bytes) :
    getMSB (pre ++ p ++ r) (8 * pre.length) (8 * p.length) = some (beVal p % 2 ^ 64) := by
  have h1 : 8 * pre.length % 8 = 0 := by omega
  have h2 : 8 * pre.length / 8 = pre.length := by omega
  rw [getMSB, h1, h2, List.append_assoc, List.drop_append_of_le_length (by simp)]
  simp only [List.drop_length, List.nil_append]
  rcases getMSB_bytes p r 0 with h | h
  · simpa using h
  · subst h; simp [getMSBLoop, beVal]

theorem byte_slice : ∀ b : UInt8, ∀ off < 8, ∀ cur ≤ 8 - off,
    ofBits (((toBits 8 b.toNat).drop off).take cur) = ((b.toNat <<< off) >>> (8 - cur)) % 2 ^ cur := by decide +kernel

theorem take_bits (b : UInt8) (r : Bytes) (off n : Nat) (ho : off < 8) :
    ((bytesBits (b :: r)).drop off).take n =
      ((toBits 8 b.toNat).drop off).take (min (8 - off) n) ++ (bytesBits r).take (n - min (8 - off) n) := by
  have h8 : (toBits 8 b.toNat).length = 8 := toBits_length ..
  rw [show bytesBits (b :: r) = toBits 8 b.toNat ++ bytesBits r by rfl, List.drop_append_of_le_length (by omega),
    List.take_append]
  have hl : ((toBits 8 b.toNat).drop off).length = 8 - off := by simp [h8]
  rw [hl]
  by_cases h : n ≤ 8 - off
  · rw [Nat.min_eq_right h, show n - (8 - off) = 0 by omega, show n - n = 0 by omega]
  · rw [Nat.min_eq_left (by omega), List.take_of_length_le (by omega : ((toBits 8 b.toNat).drop off).length ≤ n),
      List.take_of_length_le (by omega : ((toBits 8 b.toNat).drop off).length ≤ 8 - off)]

/-- From a byte boundary on, any number of bits is appended to the accumulator. -/
theorem getMSB_rest (p : Bytes) (n acc : Nat) (hn : n ≤ 8 * p.length) :
    getMSBLoop 0 p n acc = some ((acc * 2 ^ n + ofBits ((bytesBits p).take n)) % 2 ^ 64) ∨ (n = 0 ∧ getMSBLoop 0 p n acc = some acc) := by
  induction p generalizing n acc with
  | nil =>
    right
    have : n = 0 := by simpa using hn
    subst this
    exact ⟨rfl, by rw [getMSBLoop]⟩
  | cons b r ih =>
    match n with
    | 0 => right; exact ⟨rfl, by rw [getMSBLoop]⟩
    | n + 1 =>
      left
      have hb := b.toNat_lt
      rw [getMSBLoop]
      simp only [Nat.sub_zero]
      obtain ⟨cur, hcur⟩ : ∃ cur, cur = min 8 (n + 1) := ⟨_, rfl⟩
      rw [← hcur]
      have hs := byte_slice b 0 (by omega) cur (by omega)
      rw [List.drop_zero] at hs
      have hsmall : (b.toNat <<< 0) >>> (8 - cur) < 2 ^ cur := by
        rw [shl, shr, Nat.pow_zero, Nat.mul_one, Nat.div_lt_iff_lt_mul (Nat.two_pow_pos _), ← Nat.pow_add,
          show cur + (8 - cur) = 8 by omega]
        exact hb
      rw [Nat.mod_eq_of_lt hsmall] at hs
      rw [← hs, shl, or_eq_add cur (x := acc * 2 ^ cur) (y := ofBits ((toBits 8 b.toNat).take cur)) (by simp) (by rw [hs]; exact hsmall)]
      have ht := take_bits b r 0 (n + 1) (by omega)
      simp only [List.drop_zero, Nat.sub_zero] at ht
      rw [← hcur] at ht
      have hlen : ((bytesBits r).take (n + 1 - cur)).length = n + 1 - cur := by
        rw [List.length_take, bytesBits_length]
        simp only [List.length_cons] at hn
        omega
      have hgoal : (acc * 2 ^ (n + 1) + ofBits ((bytesBits (b :: r)).take (n + 1))) % 2 ^ 64 =
          (((acc * 2 ^ cur + ofBits ((toBits 8 b.toNat).take cur)) % 2 ^ 64) * 2 ^ (n + 1 - cur) +
            ofBits ((bytesBits r).take (n + 1 - cur))) % 2 ^ 64 := by
        rw [ht, ofBits_append, hlen, Nat.add_mod (_ % _ * _), Nat.mul_mod (_ % _), Nat.mod_mod, ← Nat.mul_mod, ← Nat.add_mod,
          Nat.add_mul, Nat.mul_assoc, ← Nat.pow_add, show cur + (n + 1 - cur) = n + 1 by omega, Nat.add_assoc]
      rw [hgoal]
      rcases ih (n + 1 - cur) ((acc * 2 ^ cur + ofBits ((toBits 8 b.toNat).take cur)) % 2 ^ 64) (by simp only [List.length_cons] at hn; omega) with h | ⟨h0, h⟩
      · rw [h]
      · rw [h, h0]
        simp [ofBits]

/-- **C05**, `getMSB` at any bit offset: the bits asked for are the low bits of the result, and nothing outside
the buffer is touched. (Higher bits may be set, see `C05_getMSB_unaligned_fails`.) -/
theorem C05_getMSB_low_bits (p : Bytes) (off n : Nat) (h : off + n ≤ 8 * p.length) (hn : n ≤ 64) :
    ∃ v, getMSB p off n = some v ∧ v % 2 ^ n = ofBits (((bytesBits p).drop off).take n) := by
  obtain ⟨q, hq⟩ : ∃ q, q = p.drop (off / 8) := ⟨_, rfl⟩
  have hbits : (bytesBits p).drop off = (bytesBits q).drop (off % 8) := by
    have hsplit : p = p.take (off / 8) ++ q := by rw [hq]; simp
    have hl : (p.take (off / 8)).length = off / 8 := by rw [List.length_take]; omega
    conv => lhs; rw [hsplit, bytesBits_append]
    have h2 : (bytesBits (p.take (off / 8))).length = 8 * (off / 8) := by rw [bytesBits_length, hl]
    have e : ∀ l, l.length = 8 * (off / 8) → (l ++ bytesBits q).drop off = (bytesBits q).drop (off % 8) := by
      intro l hl
      have h3 : (l ++ bytesBits q).drop (l.length + off % 8) = (bytesBits q).drop (off % 8) := by
        rw [← List.drop_drop, List.drop_left]
      rwa [show l.length + off % 8 = off by omega] at h3
    exact e _ h2
  have hql : off % 8 + n ≤ 8 * q.length := by rw [hq, List.length_drop]; omega
  rw [getMSB, ← hq, hbits]
  clear hbits
  match n, q, hql with
  | 0, [], _ => exact ⟨0, by rw [getMSBLoop], by simp [ofBits]⟩
  | 0, _ :: _, _ => exact ⟨0, by rw [getMSBLoop], by simp [ofBits]⟩
  | n + 1, [], hql => simp at hql
  | n + 1, b :: r, hql =>
    have ho : off % 8 < 8 := Nat.mod_lt _ (by omega)
    generalize off % 8 = o at *
    rw [getMSBLoop]
    obtain ⟨cur, hcur⟩ : ∃ cur, cur = min (8 - o) (n + 1) := ⟨_, rfl⟩
    simp only [← hcur]
    have hs := byte_slice b o ho cur (by omega)
    have ht := take_bits b r o (n + 1) ho
    rw [← hcur] at ht
    have hlen : ((bytesBits r).take (n + 1 - cur)).length = n + 1 - cur := by
      rw [List.length_take, bytesBits_length]
      simp only [List.length_cons] at hql
      omega
    obtain ⟨X, hX⟩ : ∃ X, X = (b.toNat <<< o) >>> (8 - cur) := ⟨_, rfl⟩
    rw [← hX] at hs ⊢
    have e0 : ((0 <<< cur ||| X) % 2 ^ 64) = X % 2 ^ 64 := by simp
    rw [e0, ht, ofBits_append, hlen, hs]
    have hc64 : (2 ^ cur * 2 ^ (n + 1 - cur) : Nat) = 2 ^ (n + 1) := by
      rw [← Nat.pow_add, show cur + (n + 1 - cur) = n + 1 by omega]
    have hlt : ofBits ((bytesBits r).take (n + 1 - cur)) < 2 ^ (n + 1 - cur) := by
      have := ofBits_lt ((bytesBits r).take (n + 1 - cur))
      rwa [hlen] at this
    have hdvd : 2 ^ (n + 1) ∣ 2 ^ 64 := Nat.pow_dvd_pow 2 hn
    have fin : (X * 2 ^ (n + 1 - cur) + ofBits ((bytesBits r).take (n + 1 - cur))) % 2 ^ (n + 1) =
        X % 2 ^ cur * 2 ^ (n + 1 - cur) + ofBits ((bytesBits r).take (n + 1 - cur)) := by
      rw [← hc64, Nat.mul_comm (2 ^ cur), Nat.mod_mul, Nat.mul_comm X, Nat.mul_add_mod, Nat.mod_eq_of_lt hlt,
        Nat.mul_add_div (Nat.two_pow_pos _), Nat.div_eq_of_lt hlt, Nat.add_zero, Nat.mul_comm (2 ^ (n + 1 - cur)),
        Nat.add_comm (ofBits _), Nat.add_zero]
    rcases getMSB_rest r (n + 1 - cur) (X % 2 ^ 64) (by simp only [List.length_cons] at hql; omega) with h | ⟨h0, h⟩
    · refine ⟨_, h, ?_⟩
      rw [Nat.mod_mod_of_dvd _ hdvd, ← fin]
      have e : (X % 2 ^ 64 * 2 ^ (n + 1 - cur)) % 2 ^ (n + 1) = (X * 2 ^ (n + 1 - cur)) % 2 ^ (n + 1) := by
        rw [Nat.mul_mod, Nat.mod_mod_of_dvd _ hdvd, ← Nat.mul_mod]
      rw [Nat.add_mod, e, ← Nat.add_mod]
    · refine ⟨_, h, ?_⟩
      rw [Nat.mod_mod_of_dvd _ hdvd, ← fin, h0]
      simp [ofBits]

example : getMSB [0xAB, 0xCD] 4 8 = some 0xABC ∧ 0xABC % 2 ^ 8 = ofBits (((bytesBits [0xAB, 0xCD]).drop 4).take 8) := by
  decide +kernel

/-- C05, `getMSB` at an unaligned offset returns bits that were not asked for: reading 4 bits
at offset 4 of the byte 0xFF gives 0xFF instead of 0xF. -/
theorem C05_getMSB_unaligned_fails : getMSB [0xFF] 4 4 = some 0xFF := by decide +kernel

end Verif.Bit
