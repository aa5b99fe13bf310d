import Verif.Dtsc.ScanProps
import Verif.Dtsc.PacketSpec

/-!
# Building and changing packets
-/
namespace Verif.Dtsc
open Spec Verif.Bit Verif.Json

/-- "offset" -/
def nOffset : Bytes := [111, 102, 102, 115, 101, 116]
/-- "bpos" -/
def nBpos : Bytes := [98, 112, 111, 115]
/-- "keyframe" -/
def nKey : Bytes := [107, 101, 121, 102, 114, 97, 109, 101]
/-- "Keyframe" -/
def nNoKey : Bytes := [75, 101, 121, 102, 114, 97, 109, 101]
/-- "data" -/
def nData : Bytes := [100, 97, 116, 97]

/-- The number with the bit pattern of an unsigned one. -/
def bposInt (b : Nat) : Int := (b : Int)

/-- The members of the object in a packet, without the data. -/
def options (off : Int) (bpos : Nat) (key : Option Bool) : List (Bytes × JVal) :=
  (if off = 0 then [] else [(nOffset, .int off)]) ++ (if bpos = 0 then [] else [(nBpos, .int (bposInt bpos))]) ++
  (match key with
   | none => []
   | some true => [(nKey, .int 1)]
   | some false => [(nNoKey, .int 0)])

/-- The object in a packet. -/
def object (off : Int) (bpos : Nat) (key : Option Bool) (d : Bytes) : JVal := .obj (options off bpos key ++ [(nData, .str d)])

/-- The bytes of the optional members. -/
def optBytes (off : Int) (bpos : Nat) (key : Option Bool) : Bytes :=
  (if off = 0 then [] else fOffset ++ htob .ll (toU64 off)) ++ (if bpos = 0 then [] else fBpos ++ htob .ll bpos) ++
  (match key with
   | none => []
   | some true => fKey
   | some false => [0, 8, 75, 101, 121, 102, 114, 97, 109, 101, 1, 0, 0, 0, 0, 0, 0, 0, 0])

/-- The bytes of a packet with length field `len` and data length field `dl`. -/
def raw (len time track : Nat) (o : Bytes) (dl : Nat) (d : Bytes) : Bytes :=
  magic2 ++ htob .l len ++ htob .l track ++ htob .ll time ++ [0xE0] ++ o ++ fData ++ htob .l dl ++ d ++ fEnd

theorem raw_length (len time track : Nat) (o : Bytes) (dl : Nat) (d : Bytes) : (raw len time track o dl d).length = 35 + o.length + d.length := by
  simp only [raw, List.length_append, htob_length, Codec.width, magic2, fData, fEnd, List.length_cons, List.length_nil]
  omega

theorem opt_length (off : Int) (bpos : Nat) (key : Option Bool) :
    (optBytes off bpos key).length = (if off = 0 then 0 else 17) + (if bpos = 0 then 0 else 15) + (if key = none then 0 else 19) := by
  rw [optBytes.eq_def]
  simp only [List.length_append]
  have h1 : (if off = 0 then [] else fOffset ++ htob .ll (toU64 off)).length = if off = 0 then 0 else 17 := by
    by_cases h : off = 0 <;> simp [h, htob_length, Codec.width, fOffset]
  have h2 : (if bpos = 0 then [] else fBpos ++ htob .ll bpos).length = if bpos = 0 then 0 else 15 := by
    by_cases h : bpos = 0 <;> simp [h, htob_length, Codec.width, fBpos]
  rw [h1, h2]
  match key with
  | none => rfl
  | some true => rfl
  | some false => rfl

theorem toU64_nat (b : Nat) (h : b < 2 ^ 64) : toU64 (bposInt b) = b := by
  rw [toU64, bposInt]
  omega

theorem members_app (bits : Dbl → Nat) (l m : List (Bytes × JVal)) : packMembers bits (l ++ m) = packMembers bits l ++ packMembers bits m := by
  induction l with
  | nil => simp [packMembers]
  | cons a l ih => rw [List.cons_append, packMembers, packMembers, ih]; simp

theorem opt_pack (bits : Dbl → Nat) (off : Int) (bpos : Nat) (hb : bpos < 2 ^ 64) (key : Option Bool) :
    packMembers bits (options off bpos key) = optBytes off bpos key := by
  rw [options.eq_def, members_app, members_app, optBytes.eq_def]
  congr 1
  · congr 1
    · by_cases h : off = 0
      · rw [if_pos h, if_pos h]; rfl
      · rw [if_neg h, if_neg h]; simp [packMembers, pack, nOffset, keyLen, fOffset]
    · by_cases h : bpos = 0
      · rw [if_pos h, if_pos h]; rfl
      · rw [if_neg h, if_neg h]
        simp only [packMembers, pack, toU64_nat bpos hb]
        simp [nBpos, keyLen, fBpos]
  · match key with
    | none => rfl
    | some true => simp [packMembers, pack, nKey, keyLen, fKey, toU64, htob, byteAt]
    | some false => simp [packMembers, pack, nNoKey, keyLen, toU64, htob, byteAt]

theorem raw_pack (bits : Dbl → Nat) (len time track : Nat) (off : Int) (bpos : Nat) (hb : bpos < 2 ^ 64) (key : Option Bool) (d : Bytes) :
    raw len time track (optBytes off bpos key) d.length d =
      magic2 ++ htob .l len ++ htob .l track ++ htob .ll time ++ pack bits (object off bpos key d) := by
  rw [object, pack, members_app, opt_pack bits off bpos hb, raw]
  simp [packMembers, pack, nData, keyLen, fData, fEnd]

theorem options_room (off : Int) (bpos : Nat) (key : Option Bool) (d : Bytes) (hd : d.length < 2 ^ 32) : Room (object off bpos key d) := by
  rw [object, Room, options.eq_def]
  by_cases h1 : off = 0 <;> by_cases h2 : bpos = 0 <;> rcases key with _ | _ | _ <;>
    simp [h1, h2, RoomMembers, Room, nOffset, nBpos, nKey, nNoKey, nData, hd]

/-! ## Writing one after the other -/

theorem poke_seq (done bs : Bytes) (k : Nat) (h : bs.length ≤ k) (pos : Nat) (hp : pos = done.length) :
    poke (done ++ List.replicate k 0) pos bs = some (done ++ bs ++ List.replicate (k - bs.length) 0) := by
  subst hp
  rw [poke, if_pos (by rw [List.length_append, List.length_replicate]; omega), List.take_left]
  rw [List.drop_append, List.drop_of_length_le (by omega), show done.length + bs.length - done.length = bs.length by omega, List.drop_replicate]
  simp

theorem store_seq (c : Codec) (v : Nat) (done : Bytes) (k : Nat) (h : c.width ≤ k) (pos : Nat) (hp : pos = done.length) :
    store c (done ++ List.replicate k 0) pos v = some (done ++ htob c v ++ List.replicate (k - c.width) 0) := by
  rw [store, poke_seq done _ k (by rw [htob_length]; exact h) pos hp, htob_length]

theorem put_offset (done : Bytes) (off : Int) (k : Nat) (h : 17 ≤ k ∨ off = 0) :
    ∃ k', k' + (if off = 0 then 0 else 17) = k ∧ putOffset (done ++ List.replicate k 0) done.length off =
      some (done ++ (if off = 0 then [] else fOffset ++ htob .ll (toU64 off)) ++ List.replicate k' 0,
        done.length + (if off = 0 then 0 else 17)) := by
  by_cases h0 : off = 0
  · rw [if_pos h0]
    exact ⟨k, rfl, by rw [putOffset, if_neg (by simp [h0]), if_pos h0]; simp⟩
  · have hk : 17 ≤ k := h.resolve_right h0
    rw [if_neg h0]
    refine ⟨k - 17, by omega, ?_⟩
    rw [putOffset, if_pos h0, if_neg h0, poke_seq done fOffset k (by simp [fOffset]; omega) _ rfl]
    simp only [Option.bind]
    rw [store_seq .ll (toU64 off) (done ++ fOffset) _ (by simp [fOffset, Codec.width]; omega) _ (by simp [fOffset])]
    simp only [show k - fOffset.length - Codec.ll.width = k - 17 by simp only [fOffset, Codec.width, List.length_cons, List.length_nil]; omega, List.append_assoc]

theorem put_bpos (done : Bytes) (bpos : Nat) (k : Nat) (h : 15 ≤ k ∨ bpos = 0) :
    ∃ k', k' + (if bpos = 0 then 0 else 15) = k ∧ putBpos (done ++ List.replicate k 0) done.length bpos =
      some (done ++ (if bpos = 0 then [] else fBpos ++ htob .ll bpos) ++ List.replicate k' 0,
        done.length + (if bpos = 0 then 0 else 15)) := by
  by_cases h0 : bpos = 0
  · rw [if_pos h0]
    exact ⟨k, rfl, by rw [putBpos, if_neg (by simp [h0]), if_pos h0]; simp⟩
  · have hk : 15 ≤ k := h.resolve_right h0
    rw [if_neg h0]
    refine ⟨k - 15, by omega, ?_⟩
    rw [putBpos, if_pos h0, if_neg h0, poke_seq done fBpos k (by simp [fBpos]; omega) _ rfl]
    simp only [Option.bind]
    rw [store_seq .ll bpos (done ++ fBpos) _ (by simp [fBpos, Codec.width]; omega) _ (by simp [fBpos])]
    simp only [show k - fBpos.length - Codec.ll.width = k - 15 by simp only [fBpos, Codec.width, List.length_cons, List.length_nil]; omega, List.append_assoc]

theorem put_key (done : Bytes) (key : Bool) (k : Nat) (h : 19 ≤ k ∨ key = false) :
    ∃ k', k' + (if key then 19 else 0) = k ∧ putKey (done ++ List.replicate k 0) done.length key =
      some (done ++ (if key then fKey else []) ++ List.replicate k' 0, done.length + (if key then 19 else 0)) := by
  cases key with
  | false => exact ⟨k, rfl, by rw [putKey]; simp⟩
  | true =>
    have hk : 19 ≤ k := h.resolve_right (by simp)
    refine ⟨k - 19, by simp; omega, ?_⟩
    rw [putKey, if_pos rfl, poke_seq done fKey k (by simp [fKey]; omega) _ rfl]
    rfl

theorem put_data (done d : Bytes) (k : Nat) (h : k = 14 + d.length) :
    putData (done ++ List.replicate k 0) done.length d = some (done ++ fData ++ htob .l d.length ++ d ++ fEnd) := by
  rw [putData, poke_seq done fData k (by simp [fData]; omega) _ rfl]
  simp only [Option.bind]
  rw [store_seq .l d.length (done ++ fData) _ (by simp [fData, Codec.width]; omega) _ (by simp [fData])]
  simp only []
  rw [poke_seq _ d _ (by simp [fData, Codec.width]; omega) _ (by simp [fData, htob_length, Codec.width])]
  simp only []
  rw [poke_seq _ fEnd _ (by simp [fData, fEnd, Codec.width]; omega) _ (by simp [fData, htob_length, Codec.width]; omega)]
  rw [show k - fData.length - Codec.l.width - d.length - fEnd.length = 0 by simp only [fData, fEnd, Codec.width, List.length_cons, List.length_nil]; omega]
  simp

theorem htob_l_mod (a b : Nat) (h : a % 2 ^ 32 = b % 2 ^ 32) : htob .l a = htob .l b := by
  have e : ∀ v, htob .l v = htob .l (v % 2 ^ 32) := by
    intro v
    have := Ebml.htob_be .l rfl v
    simp only [htob, byteAt, and_ff, shr]
    simp only [List.cons.injEq, and_true]
    refine ⟨?_, ?_, ?_, ?_⟩ <;> (apply congrArg; omega)
  rw [e a, e b, h]

theorem put_head (L time track : Nat) (h : 20 ≤ L) :
    putHead (List.replicate L 0) time track L = some (magic2 ++ htob .l (L - 8) ++ htob .l track ++ htob .ll time ++ List.replicate (L - 20) 0) := by
  rw [putHead, show List.replicate L (0 : UInt8) = [] ++ List.replicate L 0 from rfl, poke_seq [] magic2 L (by simp [magic2]; omega) 0 rfl]
  simp only [Option.bind]
  rw [store_seq .l _ _ _ (by simp [magic2, Codec.width]; omega) _ (by simp [magic2])]
  simp only []
  rw [store_seq .l _ _ _ (by simp [magic2, Codec.width]; omega) _ (by simp [magic2, htob_length, Codec.width])]
  simp only []
  rw [store_seq .ll _ _ _ (by simp [magic2, Codec.width]; omega) _ (by simp [magic2, htob_length, Codec.width])]
  rw [htob_l_mod (L + 2 ^ 32 - 8) (L - 8) (by omega)]
  rw [show L - magic2.length - Codec.l.width - Codec.l.width - Codec.ll.width = L - 20 by simp only [magic2, Codec.width, List.length_cons, List.length_nil]; omega]
  simp

theorem put_body (done : Bytes) (hd : done.length = 20) (off : Int) (d : Bytes) (bpos : Nat) (key : Bool) (L : Nat)
    (hL : L = sendSize off bpos key d.length) :
    putBody (done ++ List.replicate (L - 20) 0) off d bpos key =
      some (done ++ [0xE0] ++ optBytes off bpos (if key then some true else none) ++ fData ++ htob .l d.length ++ d ++ fEnd) := by
  have e1 : (if off ≠ 0 then 17 else 0) = if off = 0 then 0 else 17 := by by_cases h : off = 0 <;> simp [h]
  have e2 : (if bpos ≠ 0 then 15 else 0) = if bpos = 0 then 0 else 15 := by by_cases h : bpos = 0 <;> simp [h]
  rw [sendSize, e1, e2] at hL
  rw [putBody, poke_seq done [0xE0] _ (by simp; omega) _ hd.symm]
  simp only [Option.bind]
  have l1 : (done ++ [(0xE0 : UInt8)]).length = 21 := by simp [hd]
  obtain ⟨k1, hk1, h1⟩ := put_offset (done ++ [0xE0]) off (L - 20 - [(0xE0 : UInt8)].length) (by
    by_cases h : off = 0
    · exact .inr h
    · left; rw [if_neg h] at hL; simp; omega)
  rw [l1] at h1
  rw [h1]
  simp only []
  have l2 : (done ++ [(0xE0 : UInt8)] ++ if off = 0 then [] else fOffset ++ htob .ll (toU64 off)).length = 21 + if off = 0 then 0 else 17 := by
    rw [List.length_append, l1]
    by_cases h : off = 0 <;> simp [h, fOffset, htob_length, Codec.width]
  obtain ⟨k2, hk2, h2⟩ := put_bpos (done ++ [0xE0] ++ if off = 0 then [] else fOffset ++ htob .ll (toU64 off)) bpos k1 (by
    by_cases h : bpos = 0
    · exact .inr h
    · left; rw [if_neg h] at hL; simp only [List.length_cons, List.length_nil] at hk1; omega)
  rw [l2] at h2
  rw [h2]
  simp only []
  have l3 : (done ++ [(0xE0 : UInt8)] ++ (if off = 0 then [] else fOffset ++ htob .ll (toU64 off)) ++ if bpos = 0 then [] else fBpos ++ htob .ll bpos).length =
      (21 + if off = 0 then 0 else 17) + if bpos = 0 then 0 else 15 := by
    rw [List.length_append, l2]
    by_cases h : bpos = 0 <;> simp [h, fBpos, htob_length, Codec.width]
  obtain ⟨k3, hk3, h3⟩ := put_key (done ++ [0xE0] ++ (if off = 0 then [] else fOffset ++ htob .ll (toU64 off)) ++ if bpos = 0 then [] else fBpos ++ htob .ll bpos) key k2 (by
    by_cases h : key = false
    · exact .inr h
    · left
      have hk : key = true := by simpa using h
      subst hk
      simp only [if_true] at hL
      simp only [List.length_cons, List.length_nil] at hk1
      omega)
  rw [l3] at h3
  rw [h3]
  simp only []
  have l4 : (done ++ [(0xE0 : UInt8)] ++ (if off = 0 then [] else fOffset ++ htob .ll (toU64 off)) ++ (if bpos = 0 then [] else fBpos ++ htob .ll bpos) ++ if key then fKey else []).length =
      ((21 + if off = 0 then 0 else 17) + if bpos = 0 then 0 else 15) + if key then 19 else 0 := by
    rw [List.length_append, l3]
    cases key <;> simp [fKey]
  have h4 := put_data (done ++ [0xE0] ++ (if off = 0 then [] else fOffset ++ htob .ll (toU64 off)) ++ (if bpos = 0 then [] else fBpos ++ htob .ll bpos) ++ if key then fKey else []) d k3 (by
    simp only [List.length_cons, List.length_nil] at hk1
    omega)
  rw [l4] at h4
  rw [h4, optBytes.eq_def]
  cases key <;> simp

/-- The memory of a packet with some content. -/
def bytesOf (c : Content) : Bytes :=
  raw (packetSize c - 8) c.time c.track (optBytes c.off c.bpos c.key) c.data.length c.data

theorem bytesOf_length (c : Content) : (bytesOf c).length = packetSize c := by
  rw [bytesOf, raw_length, opt_length, packetSize]
  omega

theorem size_send (c : Content) : packetSize c = sendSize c.off c.bpos (c.key != none) c.data.length := by
  rw [packetSize, sendSize]
  by_cases h1 : c.off = 0 <;> by_cases h2 : c.bpos = 0 <;> by_cases h3 : c.key = none <;> simp [h1, h2, h3] <;> omega

/-- The content of a new packet. -/
def newContent (time : Nat) (off : Int) (track : Nat) (d : Bytes) (bpos : Nat) (key : Bool) : Content :=
  ⟨time, off, track, bpos, if key then some true else none, d, none⟩

theorem fill_bytes (p : Pkt) (time : Nat) (off : Int) (track : Nat) (src : Src) (d : Bytes) (hs : src.bytes = some d) (hne : src ≠ .ptr [])
    (bpos : Nat) (key : Bool) (h : packetSize (newContent time off track d bpos key) < 2 ^ 32) :
    fill p time off track src bpos key = .ok { p with data := some (bytesOf (newContent time off track d bpos key)), kind := .v2 } := by
  have hsz : src.size = d.length := by
    cases src with
    | ptr x => simp only [Src.bytes, Option.some.injEq] at hs; rw [Src.size, hs]
    | null n =>
      rw [Src.bytes] at hs
      split at hs
      · next e => cases hs; exact e
      · cases hs
  have hps : packetSize (newContent time off track d bpos key) = sendSize off bpos key d.length := by
    rw [size_send]; cases key <;> rfl
  have hge : 20 ≤ sendSize off bpos key d.length := by rw [sendSize]; omega
  have e : fill p time off track src bpos key =
      (R.of src.bytes).bind fun d => (R.of (putHead (List.replicate (sendSize off bpos key src.size % 2 ^ 32) 0) time track (sendSize off bpos key src.size % 2 ^ 32))).bind fun b =>
      (R.of (putBody b off d bpos key)).bind fun b => .ok { p with data := some b, kind := .v2 } := by
    match src, hne with
    | .ptr [], hne => exact absurd rfl hne
    | .ptr (a :: b), _ => rfl
    | .null n, _ => rfl
  rw [e, hs, hsz, Nat.mod_eq_of_lt (by rw [← hps]; exact h)]
  simp only [R.of, R.bind]
  rw [put_head _ time track hge]
  simp only []
  rw [put_body _ (by simp [magic2, htob_length, Codec.width]) off d bpos key _ rfl]
  simp only []
  rw [bytesOf, raw, hps]
  rfl

end Verif.Dtsc
