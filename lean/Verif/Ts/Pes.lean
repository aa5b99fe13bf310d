import Verif.Ts.Mux

/-!
# PES time stamps and headers
-/
namespace Verif.Ts
open Spec

theorem and14 (x : Nat) : x &&& 14 = x / 2 % 8 * 2 := by
  have h : x &&& 14 = (x % 16) &&& 14 := by
    rw [show (14 : Nat) = (2 ^ 4 - 1) &&& 14 by decide, ← Nat.and_assoc, and_mask]
    rfl
  have key : ∀ y : Fin 16, y.val &&& 14 = y.val / 2 % 8 * 2 := by decide
  have := key ⟨x % 16, Nat.mod_lt _ (by omega)⟩
  simp only at this
  rw [h, this]; omega

theorem andfe (x : Nat) : x &&& 0xFE = x / 2 % 128 * 2 := by
  have h : x &&& 0xFE = (x % 256) &&& 0xFE := by
    rw [show (0xFE : Nat) = (2 ^ 8 - 1) &&& 0xFE by decide, ← Nat.and_assoc, and_mask]
    rfl
  have key : ∀ y : UInt8, y.toNat &&& 0xFE = y.toNat / 2 % 128 * 2 := by decide +kernel
  have := key (UInt8.ofNat x)
  rw [u8n] at this
  rw [h, this]; omega

/-- The five bytes of a time stamp. -/
theorem enc_eq (l : Nat) (_hl : l < 16) (t : Nat) : encodePESTimestamp (l * 16) t =
    [UInt8.ofNat (l * 16 + t / 2 ^ 30 % 8 * 2 + 1), UInt8.ofNat (t / 2 ^ 22), UInt8.ofNat (t / 2 ^ 15 % 128 * 2 + 1),
      UInt8.ofNat (t / 2 ^ 7), UInt8.ofNat (t % 128 * 2 + 1)] := by
  have a1 : (t &&& 0x1C0000000) >>> 29 = t / 2 ^ 30 % 8 * 2 := by
    rw [Nat.shiftRight_and_distrib, show 0x1C0000000 >>> 29 = 14 by decide, and14, shr]
    omega
  have a2 : (t &&& 0x3FC00000) >>> 22 = t / 2 ^ 22 % 256 := by
    rw [Nat.shiftRight_and_distrib, show 0x3FC00000 >>> 22 = 0xFF by decide, and_ff, shr]
  have a3 : (t &&& 0x3F8000) >>> 14 = t / 2 ^ 15 % 128 * 2 := by
    rw [Nat.shiftRight_and_distrib, show 0x3F8000 >>> 14 = 0xFE by decide, andfe, shr]
    omega
  have a4 : (t &&& 0x7F80) >>> 7 = t / 2 ^ 7 % 256 := by
    rw [Nat.shiftRight_and_distrib, show 0x7F80 >>> 7 = 0xFF by decide, and_ff, shr]
  have a5 : (t &&& 0x7F) <<< 1 = t % 128 * 2 := by
    rw [show 0x7F = 2 ^ 7 - 1 by decide, and_mask, shl]
  have o1 : l * 16 ||| t / 2 ^ 30 % 8 * 2 ||| 1 = l * 16 + t / 2 ^ 30 % 8 * 2 + 1 := by
    rw [or_eq_add 4 (x := l * 16) (y := t / 2 ^ 30 % 8 * 2) (by omega) (by omega), or_eq_add 1 (by omega) (by omega)]
  have o2 : t / 2 ^ 15 % 128 * 2 ||| 1 = t / 2 ^ 15 % 128 * 2 + 1 := or_eq_add 1 (by omega) (by omega)
  have o3 : t % 128 * 2 ||| 1 = t % 128 * 2 + 1 := or_eq_add 1 (by omega) (by omega)
  simp only [encodePESTimestamp, a1, a2, a3, a4, a5, o1, o2, o3, List.cons.injEq, and_true, true_and]
  refine ⟨?_, ?_⟩ <;> apply Byte.ext_nat <;> rw [u8n, u8n] <;> omega

theorem enc_length (lead t : Nat) : (encodePESTimestamp lead t).length = 5 := rfl

/-- Reading the number back. -/
theorem decode33_enc (l : Nat) (hl : l < 16) (t : Nat) (r : Bytes) :
    decode33 (encodePESTimestamp (l * 16) t ++ r) = t % 2 ^ 33 := by
  rw [enc_eq l hl]
  have b0 : (UInt8.ofNat (l * 16 + t / 2 ^ 30 % 8 * 2 + 1)).toNat = l * 16 + t / 2 ^ 30 % 8 * 2 + 1 :=
    toNat_ofNat_byte (by omega)
  have b2 : (UInt8.ofNat (t / 2 ^ 15 % 128 * 2 + 1)).toNat = t / 2 ^ 15 % 128 * 2 + 1 := toNat_ofNat_byte (by omega)
  have b4 : (UInt8.ofNat (t % 128 * 2 + 1)).toNat = t % 128 * 2 + 1 := toNat_ofNat_byte (by omega)
  simp only [decode33, List.cons_append, List.getD_cons_succ, List.getD_cons_zero, b0, b2, b4, u8n, shr, shl]
  rw [show 7 = 2 ^ 3 - 1 by decide, and_mask, show 0x7F = 2 ^ 7 - 1 by decide, and_mask, and_mask]
  have e1 : t / 2 ^ 22 % 256 * 2 ^ (2 ^ 3 - 1) ||| (t / 2 ^ 15 % 128 * 2 + 1) / 2 ^ 1 % 2 ^ 7 = t / 2 ^ 15 % 2 ^ 15 := by
    rw [or_eq_add 7 (by omega) (by omega)]; omega
  have e2 : t / 2 ^ (2 ^ 3 - 1) % 256 * 2 ^ (2 ^ 3 - 1) ||| (t % 128 * 2 + 1) / 2 ^ 1 % 2 ^ 7 = t % 2 ^ 15 := by
    rw [or_eq_add 7 (by omega) (by omega)]; omega
  rw [e1, e2, or_eq_add 15 (by omega) (by omega), or_eq_add 15 (by omega) (by omega)]
  omega

/-- The bits on the wire are the ones of the standard. -/
theorem enc_bits (l : Nat) (hl : l < 16) (t : Nat) : bytesBits (encodePESTimestamp (l * 16) t) = Spec.stampBits l t := by
  rw [enc_eq l hl]
  have marker : ∀ w x, toBits (w + 1) (x * 2 + 1) = toBits w x ++ [true] := by
    intro w x
    rw [toBits_add]
    have : (x * 2 + 1) / 2 ^ 1 = x := by omega
    rw [this]
    have : toBits 1 (x * 2 + 1) = [true] := by
      have : (x * 2 + 1) % 2 = 1 := by omega
      simp [toBits, this]
    rw [this]
  have c1 : toBits 8 (UInt8.ofNat (l * 16 + t / 2 ^ 30 % 8 * 2 + 1)).toNat = toBits 4 l ++ (toBits 3 (t / 2 ^ 30) ++ [true]) := by
    rw [toNat_ofNat_byte (by omega), show 8 = 4 + (3 + 1) by omega, toBits_add,
      show l * 16 + t / 2 ^ 30 % 8 * 2 + 1 = (l * 8 + t / 2 ^ 30 % 8) * 2 + 1 by omega, marker,
      toBits_congr (w := 3) (a := l * 8 + t / 2 ^ 30 % 8) (b := t / 2 ^ 30) (by omega)]
    rw [show ((l * 8 + t / 2 ^ 30 % 8) * 2 + 1) / 2 ^ (3 + 1) = l by omega]
  have c2 : toBits 8 (UInt8.ofNat (t / 2 ^ 22)).toNat ++ toBits 8 (UInt8.ofNat (t / 2 ^ 15 % 128 * 2 + 1)).toNat
      = toBits 15 (t / 2 ^ 15) ++ [true] := by
    rw [toNat_ofNat_byte (n := t / 2 ^ 15 % 128 * 2 + 1) (by omega), u8n, marker 7, show 15 = 8 + 7 by omega, toBits_add,
      toBits_congr (w := 8) (a := t / 2 ^ 22 % 256) (b := t / 2 ^ 15 / 2 ^ 7) (by omega),
      toBits_congr (w := 7) (a := t / 2 ^ 15 % 128) (b := t / 2 ^ (8 + 7)) (by omega)]
    simp
  have c3 : toBits 8 (UInt8.ofNat (t / 2 ^ 7)).toNat ++ toBits 8 (UInt8.ofNat (t % 128 * 2 + 1)).toNat
      = toBits 15 t ++ [true] := by
    rw [toNat_ofNat_byte (n := t % 128 * 2 + 1) (by omega), u8n, marker 7, show 15 = 8 + 7 by omega, toBits_add,
      toBits_congr (w := 8) (a := t / 2 ^ 7 % 256) (b := t / 2 ^ 7) (by omega),
      toBits_congr (w := 7) (a := t % 128) (b := t) (by omega)]
    simp
  simp only [bytesBits, Spec.stampBits, List.append_nil]
  rw [c1]
  rw [← List.append_assoc (toBits 8 (UInt8.ofNat (t / 2 ^ 22)).toNat), c2, c3]
  simp

/-! ## One PES packet -/

/-- The 33-bit number as milliseconds. -/
def ms33 (t : Nat) : Nat := t % 2 ^ 33 / 90

theorem decodePTS_enc (l : Nat) (hl : l < 16) (t : Nat) (r : Bytes) :
    decodePTS (encodePESTimestamp (l * 16) t ++ r) = ms33 t := by
  rw [decodePTS, decode33_enc l hl, ms33]

/-- State after a complete PES packet. -/
def accept (s : Demux) (data : Bytes) (p : Nat) (off : Int) (bpos : Nat) (al : Bool) : Demux :=
  let time := p + s.roll * rollover
  if rolled time s.lastms then
    { s with roll := s.roll + 1, lastms := time + rollover,
             found := s.found ++ [⟨data, time + rollover, off, bpos, al⟩] }
  else { s with lastms := time, found := s.found ++ [⟨data, time, off, bpos, al⟩] }

/-- A PES packet whose announced sizes are right is accepted whole. -/
theorem pesOne_accept (s : Demux) (bpos : Nat) (sid l1 l2 al fl hl : Byte) (T data : Bytes) (time : Nat) (off : Int) (po : Nat)
    (htimes : pesTimes (0 :: 0 :: 1 :: sid :: l1 :: l2 :: al :: fl :: hl :: (T ++ data)) = (time, off, po))
    (hT : T.length = hl.toNat) (hpo : po + pesSkip fl.toNat = 9 + hl.toNat)
    (hlen : l1.toNat * 256 + l2.toNat = 0 ∨ l1.toNat * 256 + l2.toNat = 3 + hl.toNat + data.length)
    (hsmall : 9 + hl.toNat + data.length < 2 ^ 32) :
    pesOne s (9 + hl.toNat + data.length) bpos (0 :: 0 :: 1 :: sid :: l1 :: l2 :: al :: fl :: hl :: (T ++ data))
      = (accept s data time off bpos (al.toNat &&& 4 ≠ 0), 9 + hl.toNat + data.length) := by
  have hb := hl.toNat_lt
  have hrl : (0 :: 0 :: 1 :: sid :: l1 :: l2 :: al :: fl :: hl :: (T ++ data)).length = 9 + hl.toNat + data.length := by
    simp [hT]; omega
  have hreal : pesReal (9 + hl.toNat + data.length) (0 :: 0 :: 1 :: sid :: l1 :: l2 :: al :: fl :: hl :: (T ++ data))
      = data.length := by
    simp only [pesReal, List.getD_cons_succ, List.getD_cons_zero]
    rcases hlen with h | h
    · rw [if_pos h]; omega
    · split <;> omega
  have hdrop : ((0 :: 0 :: 1 :: sid :: l1 :: l2 :: al :: fl :: hl :: (T ++ data)).drop (9 + hl.toNat)).take data.length = data := by
    have : (0 :: 0 :: 1 :: sid :: l1 :: l2 :: al :: fl :: hl :: (T ++ data)).drop (9 + hl.toNat) = data := by
      rw [show 9 + hl.toNat = hl.toNat + 9 by omega]
      simp only [List.drop_succ_cons]
      rw [← hT, List.drop_left]
    rw [this, List.take_length]
  unfold pesOne
  simp only [htimes, hrl, hreal, List.getD_cons_succ, List.getD_cons_zero, hpo]
  have hleft : (9 + hl.toNat + data.length + 2 ^ 64 - (9 + hl.toNat)) % 2 ^ 64 = data.length := by omega
  rw [hleft, if_neg (by simp), hdrop]
  unfold accept
  simp only
  split
  · simp only [Prod.mk.injEq]
    exact ⟨trivial, by omega⟩
  · simp only [Prod.mk.injEq]
    exact ⟨trivial, by omega⟩

/-- The header loop consumes it and stops. -/
theorem pesLoop_accept (s : Demux) (bpos : Nat) (sid l1 l2 al fl hl : Byte) (T data : Bytes) (time : Nat) (off : Int) (po : Nat)
    (htimes : pesTimes (0 :: 0 :: 1 :: sid :: l1 :: l2 :: al :: fl :: hl :: (T ++ data)) = (time, off, po))
    (hT : T.length = hl.toNat) (hpo : po + pesSkip fl.toNat = 9 + hl.toNat)
    (hlen : l1.toNat * 256 + l2.toNat = 0 ∨ l1.toNat * 256 + l2.toNat = 3 + hl.toNat + data.length)
    (hsmall : 9 + hl.toNat + data.length < 2 ^ 32) (pay : Bytes)
    (hpay : pay = 0 :: 0 :: 1 :: sid :: l1 :: l2 :: al :: fl :: hl :: (T ++ data)) :
    pesLoop pay.length bpos pay.length s pay = accept s data time off bpos (al.toNat &&& 4 ≠ 0) := by
  have hrl : pay.length = 9 + hl.toNat + data.length := by
    rw [hpay]; simp [hT]; omega
  obtain ⟨k, hk⟩ : ∃ k, pay.length = k + 2 := ⟨pay.length - 2, by omega⟩
  have h1 := pesOne_accept s bpos sid l1 l2 al fl hl T data time off po htimes hT hpo hlen hsmall
  rw [← hpay, ← hrl] at h1
  have h8 : pay.getD 8 0 = hl := by rw [hpay]; rfl
  have e : ∀ f, pesLoop pay.length bpos (f + 1) s pay = pesLoop pay.length bpos f (accept s data time off bpos (al.toNat &&& 4 ≠ 0)) [] := by
    intro f
    conv => lhs; unfold pesLoop
    rw [if_neg (by omega), if_neg (by rw [h8]; omega), if_neg (by rw [hpay]; simp)]
    simp only [h1]
    have hm : pay.length % 2 ^ 32 = pay.length := Nat.mod_eq_of_lt (by omega)
    rw [hm, List.drop_length]
  have e2 : ∀ f s', pesLoop pay.length bpos (f + 1) s' [] = s' := by
    intro f s'
    conv => lhs; unfold pesLoop
    rfl
  have : pesLoop pay.length bpos (k + 2) s pay = accept s data time off bpos (al.toNat &&& 4 ≠ 0) := by rw [e, e2]
  rw [← hk] at this
  exact this

theorem rate_length (bps : Nat) : (rateField bps).length = if 50 ≤ bps then 3 else 0 := by
  unfold rateField; split <;> rfl

/-- A video frame with its lead-in is accepted with its times. -/
theorem video_accept (s : Demux) (bpos len pts off bps : Nat) (al : Bool) (data : Bytes)
    (hlen : len = 0 ∨ (len = data.length ∧ data.length ≤ 65519)) (hsmall : data.length + 64 < 2 ^ 32)
    (hdts : off ≠ 0 → ms33 pts ≤ ms33 (pts + off)) (h64 : pts + off < 2 ^ 64) (pay : Bytes)
    (hpay : pay = videoLeadIn len pts off al bps ++ data) :
    pesLoop pay.length bpos pay.length s pay =
      accept s data (if off = 0 then ms33 (pts + off) else ms33 pts)
        (if off = 0 then 0 else (ms33 (pts + off) : Int) - ms33 pts) bpos al := by
  have h64' : (pts + off) % 2 ^ 64 = pts + off := Nat.mod_eq_of_lt h64
  have hal : ((if al then (0x84 : Byte) else 0x80).toNat &&& 4 ≠ 0 : Bool) = al := by cases al <;> decide
  -- announced length
  have hann : ∀ n : Nat, len = 0 ∨ len + n < 65536 →
      (UInt8.ofNat ((if len ≠ 0 then len + n else 0) >>> 8)).toNat * 256 +
        (UInt8.ofNat (if len ≠ 0 then len + n else 0)).toNat = if len ≠ 0 then len + n else 0 := by
    intro n hn
    have key : ∀ x, x < 65536 → (UInt8.ofNat (x >>> 8)).toNat * 256 + (UInt8.ofNat x).toNat = x := by
      intro x hx
      rw [u8n, u8n, shr]
      omega
    exact key _ (by split <;> omega)
  have hlen2 : (let len1 := if len ≠ 0 then (len + (if off ≠ 0 then 13 else 8)) % 2 ^ 32 else len
      if 50 ≤ bps ∧ len1 ≠ 0 then (len1 + 3) % 2 ^ 32 else len1) =
      if len ≠ 0 then len + ((if off ≠ 0 then 13 else 8) + (if 50 ≤ bps then 3 else 0)) else 0 := by
    simp only
    by_cases h0 : len = 0
    · simp [h0]
    · have : len ≤ 65519 := by omega
      simp only [h0, ne_eq, not_false_eq_true, if_true]
      by_cases ho : off = 0 <;> by_cases hb : 50 ≤ bps <;> simp only [ho, hb, not_true_eq_false, not_false_eq_true, if_true, if_false, true_and, false_and] <;> (try split) <;> omega
  have hv : videoLeadIn len pts off al bps = [0, 0, 1, 0xE0,
      UInt8.ofNat ((if len ≠ 0 then len + ((if off ≠ 0 then 13 else 8) + (if 50 ≤ bps then 3 else 0)) else 0) >>> 8),
      UInt8.ofNat (if len ≠ 0 then len + ((if off ≠ 0 then 13 else 8) + (if 50 ≤ bps then 3 else 0)) else 0),
      if al then 0x84 else 0x80,
      UInt8.ofNat ((if off ≠ 0 then 0xC0 else 0x80) ||| (if 50 ≤ bps then 0x10 else 0)),
      UInt8.ofNat ((if off ≠ 0 then 10 else 5) + (if 50 ≤ bps then 3 else 0))] ++
      (encodePESTimestamp (if off ≠ 0 then 0x30 else 0x20) (pts + off) ++
      (if off ≠ 0 then encodePESTimestamp 0x10 pts else []) ++ rateField bps) := by
    rw [← hlen2]
    simp only [videoLeadIn, h64', List.append_assoc]
  rw [hv] at hpay
  have d2 : ∀ r, decodePTS (encodePESTimestamp 0x20 (pts + off) ++ r) = ms33 (pts + off) := decodePTS_enc 2 (by omega) _
  have d3 : ∀ r, decodePTS (encodePESTimestamp 0x30 (pts + off) ++ r) = ms33 (pts + off) := decodePTS_enc 3 (by omega) _
  have d1 : ∀ r, decodePTS (encodePESTimestamp 0x10 pts ++ r) = ms33 pts := decodePTS_enc 1 (by omega) _
  by_cases ho : off = 0
  · subst ho
    simp only [ne_eq, not_true_eq_false, if_false, List.append_nil, if_true] at hpay hann hlen2 ⊢
    have hrate := rate_length bps
    have hhl : (UInt8.ofNat (5 + (if 50 ≤ bps then 3 else 0))).toNat = 5 + (if 50 ≤ bps then 3 else 0) :=
      toNat_ofNat_byte (by split <;> omega)
    have hfl : (UInt8.ofNat (0x80 ||| (if 50 ≤ bps then 0x10 else 0))).toNat = if 50 ≤ bps then 0x90 else 0x80 := by
      split <;> rfl
    rw [← hal]
    refine pesLoop_accept s bpos 0xE0 (UInt8.ofNat ((if ¬ len = 0 then len + (8 + (if 50 ≤ bps then 3 else 0)) else 0) >>> 8))
      (UInt8.ofNat (if ¬ len = 0 then len + (8 + (if 50 ≤ bps then 3 else 0)) else 0)) (if al then 0x84 else 0x80)
      (UInt8.ofNat (0x80 ||| (if 50 ≤ bps then 0x10 else 0))) (UInt8.ofNat (5 + (if 50 ≤ bps then 3 else 0)))
      (encodePESTimestamp 0x20 (pts + 0) ++ rateField bps) data
      (ms33 (pts + 0)) 0 14 ?_ ?_ ?_ ?_ ?_ pay ?_
    · rw [pesTimes]
      simp only [List.getD_cons_succ, List.getD_cons_zero, hfl, List.drop_succ_cons, List.drop_zero, List.append_assoc, d2]
      split <;> rfl
    · rw [List.length_append, enc_length, hrate, hhl]
    · rw [hfl, hhl]; split <;> rfl
    · rw [hhl]
      rw [hann (8 + if 50 ≤ bps then 3 else 0) (by split <;> omega)]
      rcases hlen with h | ⟨h, -⟩
      · left; simp [h]
      · by_cases h0 : len = 0
        · left; simp [h0]
        · right; rw [if_pos h0]; omega
    · rw [hhl]; split <;> omega
    · rw [hpay]; simp
  · simp only [ne_eq, ho, not_false_eq_true, if_true, if_false] at hpay hann hlen2 ⊢
    have hrate := rate_length bps
    have hhl : (UInt8.ofNat (10 + (if 50 ≤ bps then 3 else 0))).toNat = 10 + (if 50 ≤ bps then 3 else 0) :=
      toNat_ofNat_byte (by split <;> omega)
    have hfl : (UInt8.ofNat (0xC0 ||| (if 50 ≤ bps then 0x10 else 0))).toNat = if 50 ≤ bps then 0xD0 else 0xC0 := by
      split <;> rfl
    have hd := hdts ho
    rw [← hal]
    refine pesLoop_accept s bpos 0xE0 (UInt8.ofNat ((if ¬ len = 0 then len + (13 + (if 50 ≤ bps then 3 else 0)) else 0) >>> 8))
      (UInt8.ofNat (if ¬ len = 0 then len + (13 + (if 50 ≤ bps then 3 else 0)) else 0)) (if al then 0x84 else 0x80)
      (UInt8.ofNat (0xC0 ||| (if 50 ≤ bps then 0x10 else 0))) (UInt8.ofNat (10 + (if 50 ≤ bps then 3 else 0)))
      (encodePESTimestamp 0x30 (pts + off) ++ encodePESTimestamp 0x10 pts ++ rateField bps) data
      (ms33 pts) ((ms33 (pts + off) : Int) - ms33 pts) 19 ?_ ?_ ?_ ?_ ?_ pay ?_
    · have hdr : ∀ x y : Bytes, (encodePESTimestamp 0x30 (pts + off) ++ (x ++ y)).drop 5 = x ++ y := by
        intro x y
        rw [← enc_length 0x30 (pts + off), List.drop_left]
      rw [pesTimes]
      simp only [List.getD_cons_succ, List.getD_cons_zero, hfl, List.drop_succ_cons, List.append_assoc, List.drop_zero, d3, hdr, d1]
      rw [if_neg (show ¬ (ms33 pts > ms33 (pts + off)) by omega)]
      split <;> rfl
    · rw [List.length_append, List.length_append, enc_length, enc_length, hrate, hhl]
    · rw [hfl, hhl]; split <;> rfl
    · rw [hhl]
      rw [hann (13 + if 50 ≤ bps then 3 else 0) (by split <;> omega)]
      rcases hlen with h | ⟨h, -⟩
      · left; simp [h]
      · by_cases h0 : len = 0
        · left; simp [h0]
        · right; rw [if_pos h0]; omega
    · rw [hhl]; split <;> omega
    · rw [hpay]; simp

/-- An audio or metadata frame with its lead-in is accepted with its time. -/
theorem plain_accept (s : Demux) (bpos pts bps : Nat) (sid : Byte) (data : Bytes)
    (hlen : data.length ≤ 65524) (pay : Bytes) (hpay : pay = plainLeadIn sid data.length pts bps ++ data) :
    pesLoop pay.length bpos pay.length s pay = accept s data (ms33 pts) 0 bpos true := by
  have d2 : ∀ r, decodePTS (encodePESTimestamp 0x20 pts ++ r) = ms33 pts := decodePTS_enc 2 (by omega) _
  have hrate := rate_length bps
  have hhl : (UInt8.ofNat (5 + (if 50 ≤ bps then 3 else 0))).toNat = 5 + (if 50 ≤ bps then 3 else 0) :=
    toNat_ofNat_byte (by split <;> omega)
  have hfl : (UInt8.ofNat (0x80 ||| (if 50 ≤ bps then 0x10 else 0))).toNat = if 50 ≤ bps then 0x90 else 0x80 := by
    split <;> rfl
  have hann : ∀ n < 65536, (UInt8.ofNat ((n &&& 0xFF00) >>> 8)).toNat * 256 + (UInt8.ofNat (n &&& 0xFF)).toNat = n := by
    intro n hn
    rw [Nat.shiftRight_and_distrib, show 0xFF00 >>> 8 = 0xFF by decide, and_ff, and_ff, u8n, u8n, shr]
    omega
  have hL : ((if 50 ≤ bps then (data.length + 3) % 2 ^ 32 else data.length) + 8) % 2 ^ 32
      = data.length + (if 50 ≤ bps then 3 else 0) + 8 := by
    split <;> omega
  have hv : plainLeadIn sid data.length pts bps = [0, 0, 1, sid,
      UInt8.ofNat (((data.length + (if 50 ≤ bps then 3 else 0) + 8) &&& 0xFF00) >>> 8),
      UInt8.ofNat ((data.length + (if 50 ≤ bps then 3 else 0) + 8) &&& 0xFF), 0x84,
      UInt8.ofNat (0x80 ||| (if 50 ≤ bps then 0x10 else 0)), UInt8.ofNat (5 + (if 50 ≤ bps then 3 else 0))] ++
      (encodePESTimestamp 0x20 pts ++ rateField bps) := by
    simp only [plainLeadIn, hL, List.append_assoc]
  rw [hv] at hpay
  have hal : ((0x84 : Byte).toNat &&& 4 ≠ 0 : Bool) = true := by decide
  rw [← hal]
  refine pesLoop_accept s bpos sid (UInt8.ofNat (((data.length + (if 50 ≤ bps then 3 else 0) + 8) &&& 0xFF00) >>> 8))
    (UInt8.ofNat ((data.length + (if 50 ≤ bps then 3 else 0) + 8) &&& 0xFF)) 0x84
    (UInt8.ofNat (0x80 ||| (if 50 ≤ bps then 0x10 else 0))) (UInt8.ofNat (5 + (if 50 ≤ bps then 3 else 0))) (encodePESTimestamp 0x20 pts ++ rateField bps) data
    (ms33 pts) 0 14 ?_ ?_ ?_ ?_ ?_ pay ?_
  · rw [pesTimes]
    simp only [List.getD_cons_succ, List.getD_cons_zero, hfl, List.drop_succ_cons, List.drop_zero, List.append_assoc, d2]
    split <;> rfl
  · rw [List.length_append, enc_length, hrate, hhl]
  · rw [hfl, hhl]; split <;> rfl
  · rw [hhl, hann _ (by split <;> omega)]
    right; omega
  · rw [hhl]; split <;> omega
  · rw [hpay]; simp

end Verif.Ts
