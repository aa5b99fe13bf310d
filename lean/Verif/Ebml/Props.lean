import Verif.Ebml.Lemmas

/-!
# C06–C08: EBML numbers, element sizes, element payloads
-/
namespace Verif.Ebml
open Verif.Bit

/-! ## C06 -/

/-- C06. Every number up to 2^56-2 is read back, from exactly the announced number of bytes,
whatever follows. -/
theorem C06_uniint_roundtrip (v : Nat) (h : v ≤ 2 ^ 56 - 2) (r : Bytes) :
    readInt (writeInt v ++ r) = some v ∧ readSize (writeInt v ++ r) = some (writeInt v).length ∧
      (writeInt v).length = writeSize v :=
  ⟨readInt_write v h r, by rw [readSize_write v h r, writeInt_length], writeInt_length v⟩

/-- C06. The announced size is the least `n ≥ 1` such that `v` fits in `7n` bits and is not the
all-ones ("unknown size") pattern of that length. -/
theorem C06_uniint_minimal (v : Nat) (h : v ≤ 2 ^ 56 - 2) :
    1 ≤ writeSize v ∧ v < 2 ^ (7 * writeSize v) - 1 ∧
      ∀ n, 1 ≤ n → v < 2 ^ (7 * n) - 1 → writeSize v ≤ n := by
  obtain ⟨h1, _, hv, hm, _⟩ := writeInt_spec v h
  have hp : 128 ≤ 2 ^ (7 * writeSize v) := by
    have : 2 ^ 7 ≤ 2 ^ (7 * writeSize v) := Nat.pow_le_pow_right (by decide) (by omega)
    simpa using this
  refine ⟨h1, by omega, ?_⟩
  intro n hn hlt
  apply Classical.byContradiction
  intro hgt
  have := hm n hn (by omega)
  omega

/-- C06. Written numbers are self-delimiting: a stream of them splits in one way only. -/
theorem C06_uniint_prefix_free (v w : Nat) (hv : v ≤ 2 ^ 56 - 2) (hw : w ≤ 2 ^ 56 - 2) (r s : Bytes)
    (h : writeInt v ++ r = writeInt w ++ s) : v = w ∧ r = s := by
  have h1 := (C06_uniint_roundtrip v hv r).1
  rw [h, (C06_uniint_roundtrip w hw s).1] at h1
  simp only [Option.some.injEq] at h1
  subst h1
  exact ⟨rfl, List.append_cancel_left h⟩

/-- C06. Larger numbers are sent as the one-byte "unknown" marker, which is read as such. -/
theorem C06_uniint_unknown (v : Nat) (h : 2 ^ 56 - 2 < v) (r : Bytes) :
    sendUniInt v = [0xFF] ∧ readInt (sendUniInt v ++ r) = some (2 ^ 64 - 1) ∧
      readSize (sendUniInt v ++ r) = some 1 := by
  have : sendUniInt v = [0xFF] := by rw [sendUniInt, if_pos (writeSize_zero.mpr h)]
  rw [this]
  exact ⟨rfl, rfl, rfl⟩

/-- C06. Signed numbers of `n` bytes are the unsigned ones minus `2^(7n-1) - 1`. -/
theorem C06_signed_bias (p : Bytes) (n v : Nat) (hn : readSize p = some n) (hv : readInt p = some v) :
    readSInt p = some ((v : Int) - ((2 ^ (7 * n - 1) - 1 : Nat) : Int)) := by
  cases p with
  | nil => cases hn
  | cons b t =>
    simp only [readSize, Option.some.injEq] at hn
    rw [readSInt.eq_def]
    simp only [hn, hv, Option.map_some]
    have h1 : 1 ≤ n ∧ n ≤ 8 := by
      rw [← hn]
      have : ∀ b : UInt8, 1 ≤ readSize1 b ∧ readSize1 b ≤ 8 := by decide +kernel
      exact this b
    obtain rfl | rfl | rfl | rfl | rfl | rfl | rfl | rfl : n = 1 ∨ n = 2 ∨ n = 3 ∨ n = 4 ∨ n = 5 ∨ n = 6 ∨ n = 7 ∨ n = 8 := by omega
    all_goals rfl

example : readSInt (writeInt 0x2000) = some 1 ∧ readSInt (writeInt 0) = some (-63) := by decide +kernel

theorem btoh_mono (c : Codec) (hc : c.big = true) (p r : Bytes) (x : Nat) (h : btoh c p = some x) :
    btoh c (p ++ r) = some x := by
  by_cases hl : c.width ≤ p.length
  · have e : p = p.take c.width ++ p.drop c.width := (List.take_append_drop _ _).symm
    rw [e, btoh_eq c _ _ (by simp; omega)] at h
    rw [e, List.append_assoc, btoh_eq c _ _ (by simp; omega), h]
  · exfalso
    have hl' : p.length < c.width := by omega
    cases c <;> simp only [Codec.width] at hl' <;> (try cases hc)
    all_goals
      rcases p with _ | ⟨_, _ | ⟨_, _ | ⟨_, _ | ⟨_, _ | ⟨_, _ | ⟨_, _ | ⟨_, _ | _⟩⟩⟩⟩⟩⟩⟩ <;>
        first
        | (simp only [btoh] at h; cases h; done)
        | (simp only [List.length_cons] at hl'; omega)

/-- C06. Trailing data never changes the value or length read, for any bytes at all. -/
theorem C06_uniint_trailing (p r : Bytes) (v : Nat) (h : readInt p = some v) :
    readInt (p ++ r) = some v ∧ readSize (p ++ r) = readSize p := by
  cases p with
  | nil => cases h
  | cons b t =>
    refine ⟨?_, rfl⟩
    rw [List.cons_append]
    rw [readInt.eq_def] at h ⊢
    simp only at h ⊢
    have key : ∀ (c : Codec) (m : Nat), c.big = true → (btoh c (b :: t)).map (· &&& m) = some v →
        (btoh c (b :: (t ++ r))).map (· &&& m) = some v := by
      intro c m hc hb
      rw [Option.map_eq_some_iff] at hb
      obtain ⟨x, hx, hxv⟩ := hb
      have := btoh_mono c hc _ r x hx
      rw [List.cons_append] at this
      rw [this, Option.map_some, hxv]
    split at h
    next => exact h
    next => exact key _ _ rfl h
    next => exact key _ _ rfl h
    next => exact key _ _ rfl h
    next => exact key _ _ rfl h
    next => exact key _ _ rfl h
    next => exact key _ _ rfl h
    next => exact key _ _ rfl h
    next => exact h

example : writeInt 0x4000 = [0x20, 0x40, 0x00] ∧ readInt [0x20, 0x40, 0x00, 9, 9] = some 0x4000 ∧
    writeInt 0x7F = [0x40, 0x7F] := by decide +kernel

/-! ## C07 -/

/-- Everything the sender can emit. -/
inductive Elem where
  | uint (id val : Nat)
  | int (id : Nat) (val : Int)
  | ident (id val : Nat)
  | dbl (id : Nat) (val : Dbl)
  | str (id : Nat) (val : Bytes)
  | ebml (doctype : Bytes)
  | info (app : Bytes) (duration : Option Dbl) (date : Int)
  | block (data : Bytes) (track time : Nat) (key : Bool) (cluster : Nat)
  | seek (id pos : Nat)
  | cue (time track cluster rela : Nat)

/-- Bytes sent. -/
def Elem.send : Elem → Bytes
  | .uint i v => sendElemUInt i v
  | .int i v => sendElemInt i v
  | .ident i v => sendElemID i v
  | .dbl i v => sendElemDbl i v
  | .str i v => sendElemStr i v
  | .ebml d => sendElemEBML d
  | .info a d t => sendElemInfo a d t
  | .block d tr t k c => sendSimpleBlock d tr t k c
  | .seek i p => sendElemSeek i p
  | .cue t tr c r => sendElemCuePoint t tr c r

/-- Size announced beforehand. -/
def Elem.size : Elem → Nat
  | .uint i v => sizeElemUInt i v
  | .int i v => sizeElemInt i v
  | .ident i v => sizeElemID i v
  | .dbl i v => sizeElemDbl i v
  | .str i v => sizeElemStr i v
  | .ebml d => sizeElemEBML d
  | .info a d t => sizeElemInfo a d t
  | .block d tr _ _ _ => sizeSimpleBlock tr d.length
  | .seek i p => sizeElemSeek i p
  | .cue t tr c r => sizeElemCuePoint t tr c r

/-- Identifiers are at most four bytes long as EBML numbers, values are 64-bit, strings stay
below 2^31 bytes; the last lines are the cases in which the claim holds although it is not
true in general (see the `_fails` theorems below). -/
def Elem.ok : Elem → Prop
  | .uint i v => i < 2 ^ 32 ∧ v < 2 ^ 64
  | .int i _ => i < 2 ^ 32
  | .dbl i _ => i < 2 ^ 32
  | .str i s => i < 2 ^ 32 ∧ s.length < 2 ^ 31
  | .cue t tr c r => t < 2 ^ 64 ∧ tr < 2 ^ 64 ∧ c < 2 ^ 64 ∧ r < 2 ^ 64
  | .ident i v => i < 2 ^ 32 ∧ v ≤ 2 ^ 56 - 2
  | .ebml d => d.length ≤ 126
  | .info a _ t => a.length ≤ 126 ∧ t ≠ 978307200000
  | .block d tr _ _ _ => tr ≤ 2 ^ 56 - 2 ∧ d.length < 2 ^ 31
  | .seek i p => i < 2 ^ 32 ∧ p < 2 ^ 64 ∧ sizeUInt i = writeSize i

theorem sendUniInt_eq (v : Nat) (h : v ≤ 2 ^ 56 - 2) : sendUniInt v = writeInt v := by
  rw [sendUniInt, if_neg (writeSize_pos h)]

theorem head_length (id size : Nat) (hi : id < 2 ^ 32) :
    (sendElemHead id size).length = sizeElemHead id size := by
  unfold sendElemHead sizeElemHead
  rw [List.length_append, sendUniInt_eq id (by omega), writeInt_length, sendUniInt]
  split
  · rfl
  · rw [writeInt_length]

theorem head_read (id size : Nat) (hi : id < 2 ^ 32) (hs : size ≤ 2 ^ 56 - 2) (r : Bytes) :
    getID (sendElemHead id size ++ r) = some id ∧
    getPayloadLen (sendElemHead id size ++ r) = some size ∧
    getHeaderLen (sendElemHead id size ++ r) = some (sizeElemHead id size) ∧
    ∀ m, getOuterLen m (sendElemHead id size ++ r) = some (sizeElemHead id size + size) := by
  have hid : id ≤ 2 ^ 56 - 2 := by omega
  unfold sendElemHead
  rw [sendUniInt_eq id hid, sendUniInt_eq size hs, List.append_assoc]
  have e1 := readSize_write id hid (writeInt size ++ r)
  have e2 : (writeInt id ++ (writeInt size ++ r)).drop (writeSize id) = writeInt size ++ r := by
    rw [← writeInt_length id, List.drop_append_of_le_length (by simp)]; simp
  have e3 := readSize_write size hs r
  have e4 := readInt_write size hs r
  have hz := writeSize_pos hs
  have h8 := writeSize_le size
  have h8' := writeSize_le id
  have hh : sizeElemHead id size = writeSize id + writeSize size := by
    unfold sizeElemHead; rw [if_neg hz]
  refine ⟨?_, ?_, ?_, ?_⟩
  · rw [getID, readInt_write id hid]; simp only [Option.map_some]; rw [Nat.mod_eq_of_lt hi]
  · simp only [getPayloadLen, e1, e2, e4, Option.bind_eq_bind, Option.bind_some]
  · simp only [getHeaderLen, e1, e2, e3, Option.bind_eq_bind, Option.bind_some, hh]; rfl
  · intro m
    simp only [getOuterLen, e1, e2, e3, e4, Option.bind_eq_bind, Option.bind_some, hh]
    have : ¬ (m = true ∧ size = 0xFFFFFFFFFFFFFFFF) := by omega
    rw [if_neg this, Nat.mod_eq_of_lt (by omega)]
    show some _ = some _
    congr 1; omega

theorem sizeUInt_range (v : Nat) : 1 ≤ sizeUInt v ∧ sizeUInt v ≤ 8 := by
  unfold sizeUInt; split <;> (try split) <;> (try split) <;> (try split) <;> (try split) <;>
    (try split) <;> (try split) <;> simp

theorem sizeInt_range (v : Int) : 1 ≤ sizeInt v ∧ sizeInt v ≤ 8 := by
  unfold sizeInt; split <;> (try split) <;> (try split) <;> (try split) <;> (try split) <;>
    (try split) <;> (try split) <;> simp

theorem payloadInt_eq (n v : Nat) (h1 : 1 ≤ n) (h8 : n ≤ 8) : payloadInt n v = beEnc n v := by
  have : n = 1 ∨ n = 2 ∨ n = 3 ∨ n = 4 ∨ n = 5 ∨ n = 6 ∨ n = 7 ∨ n = 8 := by omega
  rcases this with rfl | rfl | rfl | rfl | rfl | rfl | rfl | rfl <;>
    simp only [payloadInt] <;> first
      | (rw [htob_be _ rfl]; rfl)
      | simp [beEnc]

/-- An element that is a head announcing `size` followed by `size` bytes. -/
theorem elem_ok (id size : Nat) (body : Bytes) (hi : id < 2 ^ 32) (hs : size ≤ 2 ^ 56 - 2)
    (hb : body.length = size) :
    (sendElemHead id size ++ body).length = sizeElemHead id size + size ∧
    ∀ m r, getOuterLen m ((sendElemHead id size ++ body) ++ r) = some (sizeElemHead id size + size) := by
  refine ⟨by rw [List.length_append, head_length id size hi, hb], ?_⟩
  intro m r
  rw [List.append_assoc]
  exact (head_read id size hi hs _).2.2.2 m

theorem uint_ok (id v : Nat) (hi : id < 2 ^ 32) :
    (sendElemUInt id v).length = sizeElemUInt id v ∧
    ∀ m r, getOuterLen m (sendElemUInt id v ++ r) = some (sizeElemUInt id v) := by
  have hr := sizeUInt_range v
  unfold sendElemUInt sizeElemUInt
  exact elem_ok id _ _ hi (by omega) (by rw [payloadInt_eq _ _ hr.1 hr.2, beEnc_length])

theorem int_ok (id : Nat) (v : Int) (hi : id < 2 ^ 32) :
    (sendElemInt id v).length = sizeElemInt id v ∧
    ∀ m r, getOuterLen m (sendElemInt id v ++ r) = some (sizeElemInt id v) := by
  have hr := sizeInt_range v
  unfold sendElemInt sizeElemInt
  exact elem_ok id _ _ hi (by omega) (by rw [payloadInt_eq _ _ hr.1 hr.2, beEnc_length])

theorem dbl_ok (id : Nat) (v : Dbl) (hi : id < 2 ^ 32) :
    (sendElemDbl id v).length = sizeElemDbl id v ∧
    ∀ m r, getOuterLen m (sendElemDbl id v ++ r) = some (sizeElemDbl id v) := by
  unfold sendElemDbl sizeElemDbl
  cases v.float? with
  | some f => exact elem_ok id 4 _ hi (by omega) rfl
  | none => exact elem_ok id 8 _ hi (by omega) rfl

theorem str_ok (id : Nat) (s : Bytes) (hi : id < 2 ^ 32) (hs : s.length < 2 ^ 31) :
    (sendElemStr id s).length = sizeElemStr id s ∧
    ∀ m r, getOuterLen m (sendElemStr id s ++ r) = some (sizeElemStr id s) := by
  unfold sendElemStr sizeElemStr
  have h8 := writeSize_le id
  have h8' := writeSize_le s.length
  have : sizeElemHead id s.length ≤ 16 := by unfold sizeElemHead; split <;> omega
  rw [Nat.mod_eq_of_lt (by omega)]
  exact elem_ok id _ _ hi (by omega) rfl

theorem sizeElemHead_le (id size : Nat) : sizeElemHead id size ≤ 16 := by
  have h8 := writeSize_le id
  have h8' := writeSize_le size
  unfold sizeElemHead; split <;> omega

theorem writeSize_small {n : Nat} (h : n ≤ 126) : writeSize n = 1 := by
  unfold writeSize; rw [if_pos h]

/-- C07. The size announced for an element is the number of bytes sent, and a receiver that
skips the element by its own header lands exactly behind it, whatever follows. Missing from
the full property: the cases excluded by `ok`, in which it is false (below). -/
theorem C07_announced_size_partial (e : Elem) (h : e.ok) :
    e.send.length = e.size ∧ ∀ m r, getOuterLen m (e.send ++ r) = some e.size := by
  cases e with
  | uint i v => exact uint_ok i v h.1
  | int i v => exact int_ok i v h
  | dbl i v => exact dbl_ok i v h
  | str i s => exact str_ok i s h.1 h.2
  | ident i v =>
    obtain ⟨hi, hv⟩ := h
    have := writeSize_le v
    simp only [Elem.send, Elem.size, sendElemID, sizeElemID]
    exact elem_ok i _ _ hi (by omega) (by rw [sendUniInt_eq v hv, writeInt_length])
  | ebml d =>
    have hd : d.length ≤ 126 := h
    simp only [Elem.send, Elem.size, sendElemEBML, sizeElemEBML]
    have hh := sizeElemHead_le EID_EBML (27 + d.length)
    rw [Nat.mod_eq_of_lt (by omega), Nat.add_comm (27 + d.length)]
    simp only [List.append_assoc]
    have hst : (sendElemStr EID_DOCTYPE d).length = 3 + d.length := by
      rw [(str_ok EID_DOCTYPE d (by decide) (by omega)).1, sizeElemStr, sizeElemHead]
      rw [writeSize_small hd, show writeSize EID_DOCTYPE = 2 by decide]
      simp only [Nat.one_ne_zero, if_false]; omega
    have := elem_ok EID_EBML (27 + d.length) (sendElemUInt EID_EBMLVERSION 1 ++
      (sendElemUInt EID_EBMLREADVERSION 1 ++ (sendElemUInt EID_EBMLMAXIDLENGTH 4 ++
      (sendElemUInt EID_EBMLMAXSIZELENGTH 8 ++ (sendElemStr EID_DOCTYPE d ++
      (if d = matroska then
        sendElemUInt EID_DOCTYPEVERSION 4 ++ sendElemUInt EID_DOCTYPEREADVERSION 1
      else
        sendElemUInt EID_DOCTYPEVERSION 1 ++ sendElemUInt EID_DOCTYPEREADVERSION 1))))))
      (by decide) (by omega) (by
        have h1 : (sendElemUInt EID_EBMLVERSION 1).length = 4 := by decide
        have h2 : (sendElemUInt EID_EBMLREADVERSION 1).length = 4 := by decide
        have h3 : (sendElemUInt EID_EBMLMAXIDLENGTH 4).length = 4 := by decide
        have h4 : (sendElemUInt EID_EBMLMAXSIZELENGTH 8).length = 4 := by decide
        have h5 : (sendElemUInt EID_DOCTYPEVERSION 4).length = 4 := by decide
        have h6 : (sendElemUInt EID_DOCTYPEVERSION 1).length = 4 := by decide
        have h7 : (sendElemUInt EID_DOCTYPEREADVERSION 1).length = 4 := by decide
        split <;> simp only [List.length_append, h1, h2, h3, h4, h5, h6, h7, hst] <;> omega)
    simpa only [List.append_assoc] using this
  | info a d t =>
    obtain ⟨ha, ht⟩ := h
    simp only [Elem.send, Elem.size, sendElemInfo, sizeElemInfo]
    have hh := sizeElemHead_le EID_INFO (infoLen a d t)
    have hm : (sendElemStr EID_MUXINGAPP a).length = 3 + a.length := by
      rw [(str_ok EID_MUXINGAPP a (by decide) (by omega)).1, sizeElemStr, sizeElemHead,
        writeSize_small ha, show writeSize EID_MUXINGAPP = 2 by decide]
      simp only [Nat.one_ne_zero, if_false]; omega
    have hw : (sendElemStr EID_WRITINGAPP a).length = 3 + a.length := by
      rw [(str_ok EID_WRITINGAPP a (by decide) (by omega)).1, sizeElemStr, sizeElemHead,
        writeSize_small ha, show writeSize EID_WRITINGAPP = 2 by decide]
      simp only [Nat.one_ne_zero, if_false]; omega
    have htc : (sendElemUInt EID_TIMECODESCALE 1000000).length = 7 := by decide
    have hdl : (durSend d).length = durSize d := by
      cases d with
      | none => rfl
      | some d => exact (dbl_ok EID_DURATION d (by decide)).1
    have hil : ((if rescale t = 0 then [] else sendElemInt EID_DATEUTC (rescale t) : Bytes)).length =
        (if t = 0 then 0 else sizeElemInt EID_DATEUTC (rescale t)) := by
      by_cases h0 : t = 0
      · subst h0; rfl
      · have : rescale t ≠ 0 := by unfold rescale; rw [if_neg h0]; omega
        rw [if_neg this, if_neg h0]
        exact (int_ok EID_DATEUTC _ (by decide)).1
    have hdle : durSize d ≤ 24 := by
      cases d with
      | none => simp [durSize]
      | some d =>
        have := sizeElemHead_le EID_DURATION (if d.float?.isSome then 4 else 8)
        simp only [durSize, sizeElemDbl]; split at this <;> simp_all <;> omega
    have hile : (if t = 0 then 0 else sizeElemInt EID_DATEUTC (rescale t)) ≤ 24 := by
      have := sizeElemHead_le EID_DATEUTC (sizeInt (rescale t))
      have := sizeInt_range (rescale t)
      unfold sizeElemInt
      split <;> omega
    have hinf : infoLen a d t = 13 + 2 * a.length + durSize d
      + (if t = 0 then 0 else sizeElemInt EID_DATEUTC (rescale t)) := rfl
    rw [Nat.mod_eq_of_lt (by omega), Nat.add_comm (infoLen a d t)]
    have := elem_ok EID_INFO (infoLen a d t) (sendElemUInt EID_TIMECODESCALE 1000000 ++
      (durSend d ++
      ((if rescale t = 0 then [] else sendElemInt EID_DATEUTC (rescale t)) ++
      (sendElemStr EID_MUXINGAPP a ++ sendElemStr EID_WRITINGAPP a)))) (by decide) (by omega) (by
        simp only [List.length_append, htc, hdl, hil, hm, hw]; omega)
    simpa only [List.append_assoc] using this
  | block d tr t k c =>
    obtain ⟨htr, hd⟩ := h
    have h8 := writeSize_le tr
    simp only [Elem.send, Elem.size, sendSimpleBlock, sizeSimpleBlock]
    have hh := sizeElemHead_le EID_SIMPLEBLOCK (writeSize tr + 3 + d.length)
    rw [Nat.mod_eq_of_lt (show writeSize tr + 3 + d.length < 2 ^ 32 by omega),
      Nat.mod_eq_of_lt (by omega), Nat.add_comm (writeSize tr + 3 + d.length)]
    have := elem_ok EID_SIMPLEBLOCK (writeSize tr + 3 + d.length)
      (sendUniInt tr ++ (htob .s (((t : Int) - c) % 2 ^ 16).toNat ++ ([if k then 0x80 else 0] ++ d)))
      (by decide) (by omega) (by
        rw [sendUniInt_eq tr htr]
        simp only [List.length_append, writeInt_length, htob_length, Codec.width, List.length_cons,
          List.length_nil]; omega)
    simpa only [List.append_assoc] using this
  | seek i p =>
    obtain ⟨hi, hp, he⟩ := h
    simp only [Elem.send, Elem.size, sendElemSeek, sizeElemSeek]
    have hid : (sendElemID EID_SEEKID i).length = sizeElemID EID_SEEKID i := by
      simp only [sendElemID, sizeElemID, List.length_append, head_length EID_SEEKID _ (by decide),
        sendUniInt_eq i (by omega), writeInt_length]
    have hsz : sizeElemUInt EID_SEEKID i = sizeElemID EID_SEEKID i := by
      simp only [sizeElemUInt, sizeElemID, he]
    rw [hsz]
    have l1 : sizeElemID EID_SEEKID i ≤ 24 := by
      have := sizeElemHead_le EID_SEEKID (writeSize i)
      have := writeSize_le i
      simp only [sizeElemID]; omega
    have l2 : sizeElemUInt EID_SEEKPOSITION p ≤ 24 := by
      have := sizeElemHead_le EID_SEEKPOSITION (sizeUInt p)
      have := sizeUInt_range p
      simp only [sizeElemUInt]; omega
    have := elem_ok EID_SEEK (sizeElemID EID_SEEKID i + sizeElemUInt EID_SEEKPOSITION p)
      (sendElemID EID_SEEKID i ++ sendElemUInt EID_SEEKPOSITION p) (by decide) (by omega) (by
        rw [List.length_append, hid, (uint_ok EID_SEEKPOSITION p (by decide)).1])
    simpa only [List.append_assoc] using this
  | cue t tr c r =>
    simp only [Elem.send, Elem.size, sendElemCuePoint, sizeElemCuePoint]
    have l : ∀ i v, sizeElemUInt i v ≤ 24 := by
      intro i v
      have := sizeElemHead_le i (sizeUInt v)
      have := sizeUInt_range v
      simp only [sizeElemUInt]; omega
    have l1 := l EID_CUETRACK tr
    have l2 := l EID_CUECLUSTERPOSITION c
    have l3 := l EID_CUERELATIVEPOSITION r
    have l4 := l EID_CUETIME t
    have l5 := sizeElemHead_le EID_CUETRACKPOSITIONS (sizeElemUInt EID_CUETRACK tr +
      sizeElemUInt EID_CUECLUSTERPOSITION c + sizeElemUInt EID_CUERELATIVEPOSITION r)
    generalize he : sizeElemUInt EID_CUETRACK tr +
      sizeElemUInt EID_CUECLUSTERPOSITION c + sizeElemUInt EID_CUERELATIVEPOSITION r = e at *
    rw [show e + sizeElemHead EID_CUETRACKPOSITIONS e + sizeElemUInt EID_CUETIME t =
      e + sizeElemUInt EID_CUETIME t + sizeElemHead EID_CUETRACKPOSITIONS e by omega]
    have := elem_ok EID_CUEPOINT (e + sizeElemUInt EID_CUETIME t + sizeElemHead EID_CUETRACKPOSITIONS e)
      (sendElemUInt EID_CUETIME t ++ (sendElemHead EID_CUETRACKPOSITIONS e ++ (sendElemUInt EID_CUETRACK tr ++
      (sendElemUInt EID_CUECLUSTERPOSITION c ++ sendElemUInt EID_CUERELATIVEPOSITION r))))
      (by decide) (by omega) (by
        simp only [List.length_append, head_length EID_CUETRACKPOSITIONS e (by decide),
          (uint_ok EID_CUETIME t (by decide)).1, (uint_ok EID_CUETRACK tr (by decide)).1,
          (uint_ok EID_CUECLUSTERPOSITION c (by decide)).1,
          (uint_ok EID_CUERELATIVEPOSITION r (by decide)).1]; omega)
    simpa only [List.append_assoc] using this

/-- C07. A stream of elements can be walked element by element using announced sizes only:
after skipping `k` elements the receiver is exactly at the start of element `k`. -/
theorem C07_skip_lands_on_next (es : List Elem) (h : ∀ e ∈ es, e.ok) (k : Nat) (hk : k < es.length) (tail : Bytes) :
    ((es.flatMap Elem.send) ++ tail).drop ((es.take k).map Elem.size).sum =
      ((es.drop k).flatMap Elem.send) ++ tail := by
  induction k generalizing es with
  | zero => simp
  | succ k ih =>
    cases es with
    | nil => simp at hk
    | cons e es =>
      have he := (C07_announced_size_partial e (h e (by simp))).1
      simp only [List.take_succ_cons, List.map_cons, List.sum_cons, List.flatMap_cons, List.drop_succ_cons]
      rw [← List.drop_drop, ← he, List.append_assoc, List.drop_append_of_le_length (Nat.le_refl _)]
      simp only [List.drop_length, List.nil_append]
      exact ih es (fun e he => h e (by simp [he])) (by simpa using hk)

/-- C07 is false for seek entries of elements whose identifier needs more bytes as an EBML
number than as a plain number: the header says 9 bytes of content, 10 are sent. -/
theorem C07_seek_fails : (sendElemSeek 0x4000 5).length = 13 ∧
    getOuterLen true (sendElemSeek 0x4000 5) = some 12 ∧ sizeElemSeek 0x4000 5 = 13 ∧
    sendElemSeek 0x4000 5 = [0x4D, 0xBB, 0x89, 0x53, 0xAB, 0x83] ++ [0x20, 0x40, 0x00] ++
      [0x53, 0xAC, 0x81, 5] := by
  decide +kernel

/-- C07 is false for a file date of exactly 2001-01-01T00:00:00Z. -/
theorem C07_info_date_fails : (sendElemInfo [] none 978307200000).length + 4 =
    sizeElemInfo [] none 978307200000 := by decide +kernel

/-- C07 is false for identifiers of 2^56-1 and above used as element values. -/
theorem C07_ident_fails : (sendElemID EID_SEEKID (2 ^ 56 - 1)).length = sizeElemID EID_SEEKID (2 ^ 56 - 1) + 1 := by
  decide +kernel

/-- C07 is false for application names longer than 126 bytes. -/
theorem C07_long_name_fails :
    (sendElemInfo (List.replicate 127 65) none 0).length = sizeElemInfo (List.replicate 127 65) none 0 + 2 := by
  decide +kernel

/-- The identifiers the muxer writes seek entries for meet the hypothesis of `C07_announced_size_partial`. -/
example : (Elem.seek EID_INFO 1000).ok ∧ (Elem.seek 0x0654AE6B 70000).ok ∧ (Elem.seek 0xC53BB6B 5).ok ∧
    (Elem.seek 0x254c367 5).ok ∧ (Elem.block [1, 2, 3] 300 1000 true 990).ok ∧
    (Elem.info [77, 105, 115, 116] (some ⟨0x40C3880000000000, some 0x461C4000⟩) 1700000000000).ok := by
  simp only [Elem.ok]; decide +kernel

/-! ## C08 -/

theorem uint_fits (v : Nat) (h : v < 2 ^ 64) : v < 256 ^ sizeUInt v := by
  unfold sizeUInt
  split; · omega
  split; · omega
  split; · omega
  split; · omega
  split; · omega
  split; · omega
  split; · omega
  omega

/-- Reading `n` payload bytes as the readers do. -/
theorem btoh_n (n x : Nat) (r : Bytes) (h2 : n ≤ 8) (h1 : 1 ≤ n) :
    payUInt n (beEnc n x ++ r) = some (x % 256 ^ n) := by
  have : n = 1 ∨ n = 2 ∨ n = 3 ∨ n = 4 ∨ n = 5 ∨ n = 6 ∨ n = 7 ∨ n = 8 := by omega
  rcases this with rfl | rfl | rfl | rfl | rfl | rfl | rfl | rfl
  · simp [payUInt, beEnc]
  · exact btoh_be .s rfl x r
  · exact btoh_be .b24 rfl x r
  · exact btoh_be .l rfl x r
  · exact btoh_be .b40 rfl x r
  · exact btoh_be .b48 rfl x r
  · exact btoh_be .b56 rfl x r
  · exact btoh_be .ll rfl x r

theorem drop_head (id size : Nat) (hi : id < 2 ^ 32) (r : Bytes) :
    (sendElemHead id size ++ r).drop (sizeElemHead id size) = r := by
  rw [← head_length id size hi, List.drop_append_of_le_length (Nat.le_refl _)]; simp

/-- C08. An unsigned 64-bit number sent as an element is read back. -/
theorem C08_uint_roundtrip (id v : Nat) (hi : id < 2 ^ 32) (hv : v < 2 ^ 64) (r : Bytes) :
    getValUInt (sendElemUInt id v ++ r) = some v := by
  have hr := sizeUInt_range v
  unfold sendElemUInt
  rw [List.append_assoc]
  obtain ⟨_, e1, e2, _⟩ := head_read id (sizeUInt v) hi (by omega) (payloadInt (sizeUInt v) v ++ r)
  simp only [getValUInt, e1, e2, Option.bind_eq_bind, Option.bind_some, drop_head id _ hi]
  rw [payloadInt_eq _ _ hr.1 hr.2]
  have := btoh_n (sizeUInt v) v r hr.2 hr.1
  rw [Nat.mod_eq_of_lt (uint_fits v hv)] at this
  exact this

/-- Two's complement with `n` bits is undone by reading `n` bits as signed. -/
theorem signed_mod (n : Nat) (hn : 1 ≤ n) (hle : n ≤ 64) (v : Int) (h1 : -(2 ^ (n - 1) : Nat) ≤ v) (h2 : v < (2 ^ (n - 1) : Nat)) :
    signed n ((v % 2 ^ 64).toNat % 2 ^ n) = v := by
  have hd : (2 : Int) ^ 64 = (2 ^ n : Nat) * (2 ^ (64 - n) : Nat) := by
    rw [← Int.natCast_mul, ← Nat.pow_add, show n + (64 - n) = 64 by omega]; rfl
  have hm : (v % 2 ^ 64).toNat % 2 ^ n = (v % (2 ^ n : Nat)).toNat := by
    have hpos : (0 : Int) < (2 ^ n : Nat) := by exact_mod_cast Nat.pow_pos (by decide)
    have a1 : 0 ≤ v % 2 ^ 64 := Int.emod_nonneg _ (by decide)
    have a2 : 0 ≤ v % (2 ^ n : Nat) := Int.emod_nonneg _ (by omega)
    apply Int.ofNat_inj.mp
    rw [Int.natCast_emod, Int.toNat_of_nonneg a1, Int.toNat_of_nonneg a2, hd]
    exact Int.emod_emod_of_dvd _ ⟨_, rfl⟩
  rw [hm]
  have hpow : 2 ^ n = 2 * 2 ^ (n - 1) := by rw [Nat.mul_comm, ← Nat.pow_succ]; congr 1; omega
  have hpos : 0 < 2 ^ (n - 1) := Nat.pow_pos (by decide)
  unfold signed
  rw [hpow]
  generalize 2 ^ (n - 1) = k at *
  rcases (by omega : v < 0 ∨ 0 ≤ v) with hneg | hnn
  · have e : v % ((2 * k : Nat) : Int) = v + (2 * k : Nat) := by
      rw [← Int.add_emod_right, Int.emod_eq_of_lt (by omega) (by omega)]
    rw [e]
    have : (v + ((2 * k : Nat) : Int)).toNat % (2 * k) = (v + ((2 * k : Nat) : Int)).toNat := Nat.mod_eq_of_lt (by omega)
    rw [this, if_neg (by omega)]; omega
  · have e : v % ((2 * k : Nat) : Int) = v := Int.emod_eq_of_lt hnn (by omega)
    rw [e]
    have : v.toNat % (2 * k) = v.toNat := Nat.mod_eq_of_lt (by omega)
    rw [this, if_pos (by omega)]; omega

/-- C08, signed numbers. Missing from the full property: the numbers that do not fit in two's
complement in the size the sender picks (128..255, -255..-129, and likewise at each size). -/
theorem C08_int_roundtrip_partial (id : Nat) (v : Int) (hi : id < 2 ^ 32)
    (h1 : -(2 ^ (8 * sizeInt v - 1) : Nat) ≤ v) (h2 : v < (2 ^ (8 * sizeInt v - 1) : Nat)) (r : Bytes) :
    getValInt (sendElemInt id v ++ r) = some v := by
  have hr := sizeInt_range v
  unfold sendElemInt
  rw [List.append_assoc]
  obtain ⟨_, e1, e2, _⟩ := head_read id (sizeInt v) hi (by omega) (payloadInt (sizeInt v) (v % 2 ^ 64).toNat ++ r)
  simp only [getValInt, e1, e2, Option.bind_eq_bind, Option.bind_some, drop_head id _ hi]
  rw [payloadInt_eq _ _ hr.1 hr.2]
  have hs := signed_mod (8 * sizeInt v) (by omega) (by omega) v h1 h2
  have hb := btoh_n (sizeInt v) (v % 2 ^ 64).toNat r hr.2 hr.1
  have h256 : 256 ^ sizeInt v = 2 ^ (8 * sizeInt v) := by
    rw [show (256 : Nat) = 2 ^ 8 by decide, ← Nat.pow_mul]
  rw [h256] at hb
  generalize sizeInt v = n at *
  have : n = 1 ∨ n = 2 ∨ n = 3 ∨ n = 4 ∨ n = 5 ∨ n = 6 ∨ n = 7 ∨ n = 8 := by omega
  rcases this with rfl | rfl | rfl | rfl | rfl | rfl | rfl | rfl
  case inl =>
    simp only [payUInt] at hb ⊢
    rw [Option.map_eq_some_iff] at hb
    obtain ⟨b, hb1, hb2⟩ := hb
    rw [hb1, Option.map_some, hb2]
    exact congrArg some hs
  all_goals
    simp only [payUInt] at hb ⊢
    rw [hb, Option.map_some]
    exact congrArg some hs

/-- C08, signed numbers of more than 56 bits (such as every real date): always exact. -/
theorem C08_int_large (id : Nat) (v : Int) (hi : id < 2 ^ 32) (hv : v ≥ 2 ^ 56 ∨ v ≤ -2 ^ 56)
    (h1 : -2 ^ 63 ≤ v) (h2 : v < 2 ^ 63) (r : Bytes) : getValInt (sendElemInt id v ++ r) = some v := by
  have : sizeInt v = 8 := by unfold sizeInt; rw [if_pos (by omega)]
  apply C08_int_roundtrip_partial id v hi <;> rw [this]
  · simpa using h1
  · simpa using h2

/-- C08 is false for signed numbers: 128 is sent as the single byte 0x80 and read as -128. -/
theorem C08_int_fails : getValInt (sendElemInt EID_DATEUTC 128) = some (-128) := by decide +kernel

/-- C08. A float keeps its bit pattern. -/
theorem C08_float_roundtrip (id f bits : Nat) (hi : id < 2 ^ 32) (hf : f < 2 ^ 32) (r : Bytes) :
    getValFloat (sendElemDbl id ⟨bits, some f⟩ ++ r) = some (32, f) := by
  unfold sendElemDbl
  simp only
  rw [List.append_assoc]
  obtain ⟨_, e1, e2, _⟩ := head_read id 4 hi (by omega) (htob .l f ++ r)
  simp only [getValFloat, e1, e2, Option.bind_eq_bind, Option.bind_some, drop_head id _ hi]
  rw [htob_be .l rfl, btoh_be .l rfl, Option.map_some]
  congr 2
  exact Nat.mod_eq_of_lt hf

/-- C08 is false for doubles that are not floats: 1/3 loses its upper 32 bits. -/
theorem C08_double_fails :
    getValFloat (sendElemDbl EID_DURATION ⟨0x3FD5555555555555, none⟩) = some (64, 0x55555555) := by
  decide +kernel

/-- C08. A string payload is read back byte for byte. -/
theorem C08_str_roundtrip (id : Nat) (s : Bytes) (hi : id < 2 ^ 32) (hs : s.length < 2 ^ 31) (r : Bytes) :
    getValStringUntrimmed (sendElemStr id s ++ r) = some s := by
  unfold sendElemStr
  rw [List.append_assoc]
  obtain ⟨_, e1, e2, _⟩ := head_read id s.length hi (by omega) (s ++ r)
  simp only [getValStringUntrimmed, e1, e2, Option.bind_eq_bind, Option.bind_some, drop_head id _ hi]
  rw [if_pos (by rw [List.length_append, head_length id _ hi, List.length_append]; omega)]
  simp

/-- C08. The trimming reader returns the string without trailing zero bytes. -/
theorem C08_str_trimmed (id : Nat) (s : Bytes) (hi : id < 2 ^ 32) (r : Bytes) (k : Nat)
    (hk : s.length + k < 2 ^ 31) (hz : s.getLast? ≠ some 0) :
    getValString (sendElemStr id (s ++ List.replicate k 0) ++ r) = some s := by
  rw [getValString, C08_str_roundtrip id _ hi (by simp; omega), Option.map_some]
  congr 1
  rw [List.reverse_append, List.reverse_replicate, List.dropWhile_append_of_pos]
  · cases h : s.reverse with
    | nil => have : s = [] := by simpa using congrArg List.reverse h
             simp [this]
    | cons a t =>
      have hs' : s = t.reverse ++ [a] := by simpa using congrArg List.reverse h
      have ha : a ≠ 0 := by
        rintro rfl
        apply hz; rw [hs']; simp
      rw [List.dropWhile_cons, if_neg (by simpa using ha), hs']; simp
  · intro x hx
    simp only [List.mem_replicate] at hx
    simp [hx.2]

/-- C08. A media block keeps its track number, its relative time (when it fits in 16 signed
bits), its key flag and its data, and is not laced. -/
theorem C08_block_roundtrip (d : Bytes) (tr t : Nat) (k : Bool) (c : Nat) (htr : tr ≤ 2 ^ 56 - 2)
    (hd : d.length < 2 ^ 31) (h1 : (-32768 : Int) ≤ (t : Int) - c) (h2 : (t : Int) - c < 32768) (r : Bytes) :
    let p := sendSimpleBlock d tr t k c ++ r
    getTrackNum p = some tr ∧ getTimecode p = some ((t : Int) - c) ∧ isKeyframe p = some k ∧
      getLacing p = some 0 ∧ frameNoLacing p = some d := by
  intro p
  have h8 := writeSize_le tr
  have hlen : writeSize tr + 3 + d.length < 2 ^ 32 := by omega
  have hp : p = sendElemHead EID_SIMPLEBLOCK (writeSize tr + 3 + d.length) ++
      (writeInt tr ++ (htob .s (((t : Int) - c) % 2 ^ 16).toNat ++ ([if k then 0x80 else 0] ++ (d ++ r)))) := by
    show sendSimpleBlock d tr t k c ++ r = _
    unfold sendSimpleBlock
    rw [Nat.mod_eq_of_lt hlen, sendUniInt_eq tr htr]
    simp only [List.append_assoc]
  generalize hB : (writeInt tr ++ (htob .s (((t : Int) - c) % 2 ^ 16).toNat ++ ([if k then 0x80 else 0] ++ (d ++ r)))) = B at hp
  obtain ⟨_, e1, e2, _⟩ := head_read EID_SIMPLEBLOCK (writeSize tr + 3 + d.length) (by decide) (by omega) B
  rw [← hp] at e1 e2
  have hpay : getPayload p = some B := by
    rw [getPayload, e2, Option.map_some, hp, drop_head EID_SIMPLEBLOCK _ (by decide)]
  have hrs : readSize B = some (writeSize tr) := by rw [← hB]; exact readSize_write tr htr _
  have hdr : B.drop (writeSize tr) = htob .s (((t : Int) - c) % 2 ^ 16).toNat ++ ([if k then 0x80 else 0] ++ (d ++ r)) := by
    rw [← hB, ← writeInt_length tr, List.drop_append_of_le_length (Nat.le_refl _)]; simp
  have hflag : B[writeSize tr + 2]? = some (if k then 0x80 else 0) := by
    have : (B.drop (writeSize tr))[2]? = some (if k then 0x80 else 0) := by
      rw [hdr, List.getElem?_append_right (by simp [htob_length, Codec.width])]
      simp [htob_length, Codec.width]
    rwa [List.getElem?_drop] at this
  refine ⟨?_, ?_, ?_, ?_, ?_⟩
  · simp only [getTrackNum, hpay, Option.bind_eq_bind, Option.bind_some]
    rw [← hB]; exact readInt_write tr htr _
  · simp only [getTimecode, hpay, hrs, hdr, Option.bind_eq_bind, Option.bind_some]
    rw [htob_be .s rfl, btoh_be .s rfl, Option.map_some]
    refine congrArg some ?_
    have := signed_mod 16 (by decide) (by decide) ((t : Int) - c) (by simpa using h1) (by simpa using h2)
    have e : (((t : Int) - c) % 2 ^ 16).toNat % 256 ^ Codec.s.width = (((t : Int) - c) % 2 ^ 64).toNat % 2 ^ 16 := by
      simp only [Codec.width]; omega
    rw [e]; exact this
  · simp only [isKeyframe, hpay, hrs, hflag, Option.bind_eq_bind, Option.bind_some]
    cases k <;> rfl
  · simp only [getLacing, hpay, hrs, hflag, Option.bind_eq_bind, Option.bind_some]
    cases k <;> rfl
  · simp only [frameNoLacing, hpay, hrs, e1, Option.bind_eq_bind, Option.bind_some]
    have hBl : B.length = writeSize tr + 3 + (d.length + r.length) := by
      rw [← hB]; simp [writeInt_length, htob_length, Codec.width]; omega
    rw [if_pos (by omega)]
    have hd3 : B.drop (writeSize tr + 3) = d ++ r := by
      rw [← List.drop_drop, hdr, List.drop_append, List.drop_eq_nil_of_le (by simp [htob_length, Codec.width])]
      simp [htob_length, Codec.width]
    rw [hd3, show writeSize tr + 3 + d.length - (writeSize tr + 3) = d.length by omega]
    simp

example : getValInt (sendElemInt EID_DATEUTC (-70000)) = some (-70000) ∧ sizeInt (-70000) = 3 := by decide +kernel

end Verif.Ebml
