import Verif.Dtsc.PacketLemmas

/-!
# Packets hold what they were built from (C29)
-/
namespace Verif.Dtsc
open Spec Verif.Bit Verif.Json

theorem be4_htob (n : Nat) : be4 n = htob .l n := by
  simp only [be4, htob, byteAt, and_ff, shr, List.cons.injEq, and_true]
  refine ⟨?_, ?_, ?_, ?_⟩ <;> (apply UInt8.toNat_inj.mp; rw [u8n, u8n]; omega)

theorem add_at (A B : Bytes) (v k pos : Nat) (hp : pos = A.length) (hv : v < 2 ^ 32) :
    addAt (A ++ htob .l v ++ B) pos k = .ok (A ++ htob .l (v + k) ++ B) := by
  subst hp
  have hd : (A ++ htob .l v ++ B).drop A.length = htob .l v ++ B := by rw [List.append_assoc, List.drop_left]
  rw [addAt, load_be .l rfl v hd, show v % 256 ^ Codec.l.width = v from Nat.mod_eq_of_lt hv]
  simp only [R.of, R.bind]
  rw [store, poke, if_pos (by simp [htob_length])]
  simp only [htob_length]
  rw [show (A ++ htob .l v ++ B).take A.length = A by rw [List.append_assoc, List.take_left],
    show (A ++ htob .l v ++ B).drop (A.length + Codec.l.width) = B by
      rw [show A.length + Codec.l.width = (A ++ htob .l v).length by simp [htob_length], List.drop_left]]

theorem pos_step {buf : Bytes} {i : Nat} {c : UInt8} {t : Bytes} (n : Nat) (h : buf.drop i = c :: t) :
    dataLenPos buf (n + 1) i = if c = 100 then .ok (some (i + 5)) else if c = 111 then dataLenPos buf n (i + 17)
      else if c = 98 then dataLenPos buf n (i + 15) else if c = 107 ∨ c = 75 then dataLenPos buf n (i + 19) else .ok none := by
  rw [dataLenPos, get_drop h]
  rfl

theorem key_step {buf : Bytes} {i : Nat} {c : UInt8} {t : Bytes} (n : Nat) (h : buf.drop i = c :: t) :
    keyPos buf (n + 1) i = if c = 100 ∨ c = 107 ∨ c = 75 then .ok i else if c = 111 then keyPos buf n (i + 17)
      else if c = 98 then keyPos buf n (i + 15) else keyPos buf n i := by
  rw [keyPos, get_drop h]
  rfl

/-- The three optional members. -/
def optO (off : Int) : Bytes := if off = 0 then [] else fOffset ++ htob .ll (toU64 off)
/-- The position. -/
def optB (bpos : Nat) : Bytes := if bpos = 0 then [] else fBpos ++ htob .ll bpos
/-- The key flag. -/
def optK : Option Bool → Bytes
  | none => []
  | some true => fKey
  | some false => [0, 8, 75, 101, 121, 102, 114, 97, 109, 101, 1, 0, 0, 0, 0, 0, 0, 0, 0]

theorem opt_split (off : Int) (bpos : Nat) (key : Option Bool) : optBytes off bpos key = optO off ++ (optB bpos ++ optK key) := by
  rw [optBytes.eq_def, List.append_assoc]
  rcases key with _ | _ | _ <;> rfl

theorem pos_off (buf : Bytes) (off : Int) (n i : Nat) (r : Bytes) (h : buf.drop i = optO off ++ r) :
    dataLenPos buf (n + 1) (i + 2) = if off = 0 then dataLenPos buf (n + 1) (i + 2) else dataLenPos buf n (i + (optO off).length + 2) := by
  by_cases h0 : off = 0
  · rw [if_pos h0]
  · rw [if_neg h0]
    have hl : (optO off).length = 17 := by simp [optO, h0, fOffset, htob_length, Codec.width]
    rw [optO, if_neg h0] at h
    have h2 : buf.drop (i + 2) = 111 :: ([102, 102, 115, 101, 116, 1] ++ htob .ll (toU64 off) ++ r) := by
      rw [← List.drop_drop, h]; simp [fOffset]
    rw [pos_step n h2, hl, if_neg (by decide), if_pos (by decide), show i + 2 + 17 = i + 17 + 2 by omega]

theorem pos_bpos (buf : Bytes) (bpos : Nat) (n i : Nat) (r : Bytes) (h : buf.drop i = optB bpos ++ r) :
    dataLenPos buf (n + 1) (i + 2) = if bpos = 0 then dataLenPos buf (n + 1) (i + 2) else dataLenPos buf n (i + (optB bpos).length + 2) := by
  by_cases h0 : bpos = 0
  · rw [if_pos h0]
  · rw [if_neg h0]
    have hl : (optB bpos).length = 15 := by simp [optB, h0, fBpos, htob_length, Codec.width]
    rw [optB, if_neg h0] at h
    have h2 : buf.drop (i + 2) = 98 :: ([112, 111, 115, 1] ++ htob .ll bpos ++ r) := by
      rw [← List.drop_drop, h]; simp [fBpos]
    rw [pos_step n h2, hl, if_neg (by decide), if_neg (by decide), if_pos (by decide), show i + 2 + 15 = i + 15 + 2 by omega]

theorem pos_data (buf : Bytes) (off : Int) (bpos : Nat) (key : Option Bool) (n i : Nat) (hn : 4 ≤ n) (r : Bytes)
    (h : buf.drop i = optBytes off bpos key ++ fData ++ r) :
    dataLenPos buf n (i + 2) = .ok (some (i + (optBytes off bpos key).length + 7)) := by
  rw [opt_split] at h ⊢
  simp only [List.append_assoc] at h
  obtain ⟨m, rfl⟩ : ∃ m, n = m + 4 := ⟨n - 4, by omega⟩
  have last : ∀ m i, buf.drop i = fData ++ r → dataLenPos buf (m + 1) (i + 2) = .ok (some (i + 7)) := by
    intro m i h
    have h2 : buf.drop (i + 2) = 100 :: ([97, 116, 97, 2] ++ r) := by rw [← List.drop_drop, h]; simp [fData]
    rw [pos_step m h2, if_pos (by decide)]
  have third : ∀ m i, buf.drop i = optK key ++ (fData ++ r) → dataLenPos buf (m + 2) (i + 2) = .ok (some (i + (optK key).length + 7)) := by
    intro m i h
    have h3 := drop_add h
    rcases key with _ | _ | _
    · exact last _ _ h
    · have h2 : buf.drop (i + 2) = 75 :: ([101, 121, 102, 114, 97, 109, 101, 1, 0, 0, 0, 0, 0, 0, 0, 0] ++ (fData ++ r)) := by
        rw [← List.drop_drop, h]; simp [optK]
      rw [pos_step (m + 1) h2, if_neg (by decide), if_neg (by decide), if_neg (by decide), if_pos (by decide)]
      exact last m (i + 19) h3
    · have h2 : buf.drop (i + 2) = 107 :: ([101, 121, 102, 114, 97, 109, 101, 1, 0, 0, 0, 0, 0, 0, 0, 1] ++ (fData ++ r)) := by
        rw [← List.drop_drop, h]; simp [optK, fKey]
      rw [pos_step (m + 1) h2, if_neg (by decide), if_neg (by decide), if_neg (by decide), if_pos (by decide)]
      exact last m (i + 19) h3
  have second : ∀ m i, buf.drop i = optB bpos ++ (optK key ++ (fData ++ r)) →
      dataLenPos buf (m + 3) (i + 2) = .ok (some (i + ((optB bpos).length + (optK key).length) + 7)) := by
    intro m i h
    have h3 := drop_add h
    rw [pos_bpos buf bpos (m + 2) i _ h]
    by_cases h0 : bpos = 0
    · rw [if_pos h0]
      have e : optB bpos = [] := by rw [optB, if_pos h0]
      rw [e] at h ⊢
      simpa using third (m + 1) i h
    · rw [if_neg h0, third m _ h3, Nat.add_assoc i]
  have h3 := drop_add h
  rw [pos_off buf off (m + 3) i _ h]
  simp only [List.length_append]
  by_cases h0 : off = 0
  · rw [if_pos h0]
    have e : optO off = [] := by rw [optO, if_pos h0]
    rw [e] at h ⊢
    simpa using second (m + 1) i h
  · rw [if_neg h0, second m _ h3, Nat.add_assoc i]

theorem raw_drop21 (len time track : Nat) (o : Bytes) (dl : Nat) (d : Bytes) :
    (raw len time track o dl d).drop 21 = o ++ fData ++ (htob .l dl ++ d ++ fEnd) := by
  have e : raw len time track o dl d = (magic2 ++ htob .l len ++ htob .l track ++ htob .ll time ++ [0xE0]) ++ (o ++ fData ++ (htob .l dl ++ d ++ fEnd)) := by
    simp [raw]
  rw [e, show 21 = (magic2 ++ htob .l len ++ htob .l track ++ htob .ll time ++ [0xE0]).length by simp [magic2, htob_length, Codec.width], List.drop_left]

/-- Adding to the data of a packet, whatever its size fields were. -/
theorem extend_raw (len time track : Nat) (off : Int) (bpos : Nat) (key : Option Bool) (dl : Nat) (d x : Bytes) (hl : len < 2 ^ 32) (hdl : dl < 2 ^ 32) :
    extend (raw len time track (optBytes off bpos key) dl d) x =
      .ok (raw (len + x.length) time track (optBytes off bpos key) (dl + x.length) (d ++ x)) := by
  have hlen := raw_length len time track (optBytes off bpos key) dl d
  rw [extend, if_neg (by omega)]
  have e1 : (raw len time track (optBytes off bpos key) dl d).take ((raw len time track (optBytes off bpos key) dl d).length - 3) ++ x ++ fEnd =
      raw len time track (optBytes off bpos key) dl (d ++ x) := by
    have : (raw len time track (optBytes off bpos key) dl d) = (magic2 ++ htob .l len ++ htob .l track ++ htob .ll time ++ [0xE0] ++ optBytes off bpos key ++ fData ++ htob .l dl ++ d) ++ fEnd := rfl
    rw [this, List.length_append, show fEnd.length = 3 from rfl, Nat.add_sub_cancel, List.take_left]
    simp [raw]
  dsimp only
  rw [e1]
  have e2 : ∀ len d, raw len time track (optBytes off bpos key) dl d = magic2 ++ htob .l len ++ (htob .l track ++ htob .ll time ++ [0xE0] ++ optBytes off bpos key ++ fData ++ htob .l dl ++ d ++ fEnd) := by
    intro len d; simp [raw]
  rw [e2 len (d ++ x), add_at magic2 _ len x.length 4 rfl hl, ← e2]
  simp only [R.bind]
  rw [pos_data _ off bpos key _ 21 (by rw [raw_length]; omega) _ (raw_drop21 _ _ _ _ _ _)]
  dsimp only
  have e3 : ∀ dl, raw (len + x.length) time track (optBytes off bpos key) dl (d ++ x) =
      (magic2 ++ htob .l (len + x.length) ++ htob .l track ++ htob .ll time ++ [0xE0] ++ optBytes off bpos key ++ fData) ++ htob .l dl ++ (d ++ x ++ fEnd) := by
    intro dl; simp [raw]
  rw [e3 dl, add_at _ _ dl x.length _ (by simp [magic2, fData, htob_length, Codec.width]; omega) hdl, ← e3]

/-- What is true of a packet with some content. -/
structure Holds (p : Pkt) (c : Content) : Prop where
  kind : p.kind = .v2
  data : p.data = some (bytesOf c)
  nal : ∀ x, c.nal = some x → p.prevNal = x.length

theorem data_append (c : Content) (x : Bytes) : ({ c with done := c.data ++ x, nal := none } : Content).data = c.data ++ x := rfl

theorem append_holds (p : Pkt) (c : Content) (x : Bytes) (h : Holds p c) (hs : packetSize c + x.length < 2 ^ 32) (c' : Content)
    (h1 : c'.time = c.time) (h2 : c'.off = c.off) (h3 : c'.track = c.track) (h4 : c'.bpos = c.bpos) (h5 : c'.key = c.key) (h6 : c'.data = c.data ++ x) :
    extend (bytesOf c) x = .ok (bytesOf c') := by
  have hd : c.data.length + 35 ≤ packetSize c := by rw [packetSize]; omega
  rw [bytesOf, extend_raw _ _ _ _ _ _ _ _ _ (by omega) (by omega), bytesOf, h1, h2, h3, h4, h5, h6]
  have e : packetSize c' = packetSize c + x.length := by
    rw [packetSize, packetSize, h2, h4, h5, h6, List.length_append]; omega
  rw [e, List.length_append]
  congr 2
  omega

/-- One operation of the code. -/
def runOp (p : Pkt) : Op → R Pkt
  | .append x => appendData p x
  | .nal x => appendNal p x
  | .grow x => upgradeNal p x
  | .key b => setKeyFrame p b
  | .time t => setTime p t

/-- Several operations. -/
def runOps (p : Pkt) : List Op → R Pkt
  | [] => .ok p
  | o :: r => (runOp p o).bind fun p => runOps p r

theorem grow_holds (p : Pkt) (c : Content) (x y : Bytes) (hy : y ≠ []) (hn : c.nal = some x) (h : Holds p c) (hs : packetSize c + y.length < 2 ^ 32) :
    ∃ q, upgradeNal p y = .ok q ∧ Holds q { c with nal := some (x ++ y) } := by
  have hd : c.data.length + 35 ≤ packetSize c := by rw [packetSize]; omega
  have hp : p.prevNal = x.length := h.nal x hn
  have hdata : c.data = c.done ++ htob .l x.length ++ x := by rw [Content.data, hn, ← be4_htob]
  have hdl : c.data.length = c.done.length + 4 + x.length := by rw [hdata]; simp [htob_length, Codec.width]; omega
  have hlen := bytesOf_length c
  rw [upgradeNal, if_neg hy, h.data]
  dsimp only
  rw [if_neg (by rw [hlen, hp]; omega)]
  have split : bytesOf c = (magic2 ++ htob .l (packetSize c - 8) ++ htob .l c.track ++ htob .ll c.time ++ [0xE0] ++ optBytes c.off c.bpos c.key ++ fData ++ htob .l c.data.length ++ c.done) ++
      htob .l x.length ++ (x ++ fEnd) := by
    rw [bytesOf, raw]
    conv => lhs; rw [show c.data.length = c.data.length from rfl]
    simp [hdata]
  generalize hA : (magic2 ++ htob .l (packetSize c - 8) ++ htob .l c.track ++ htob .ll c.time ++ [0xE0] ++ optBytes c.off c.bpos c.key ++ fData ++ htob .l c.data.length ++ c.done) = A at split
  have hAl : A.length + 4 + x.length + 3 = packetSize c := by
    rw [← hlen, split]; simp [htob_length, Codec.width, fEnd]; omega
  have hpos : (bytesOf c).length - 3 - 4 - p.prevNal = A.length := by rw [hlen, hp]; omega
  have hxl : x.length < 2 ^ 32 := by omega
  rw [hpos]
  have hld : load .l (bytesOf c) A.length = some x.length := by
    have hd : (A ++ htob .l x.length ++ (x ++ fEnd)).drop A.length = htob .l x.length ++ (x ++ fEnd) := by rw [List.append_assoc, List.drop_left]
    rw [split, load_be .l rfl x.length hd, show x.length % 256 ^ Codec.l.width = x.length from Nat.mod_eq_of_lt hxl]
  rw [hld]
  simp only [R.of, R.bind]
  rw [if_neg (by rw [hp]; simp)]
  have hst : store .l (bytesOf c) A.length (p.prevNal + y.length) = some (A ++ htob .l (x.length + y.length) ++ (x ++ fEnd)) := by
    rw [split, hp, store, poke, if_pos (by simp [htob_length])]
    simp only [htob_length]
    rw [show (A ++ htob .l x.length ++ (x ++ fEnd)).take A.length = A by rw [List.append_assoc, List.take_left],
      show (A ++ htob .l x.length ++ (x ++ fEnd)).drop (A.length + Codec.l.width) = x ++ fEnd by
        rw [show A.length + Codec.l.width = (A ++ htob .l x.length).length by simp [htob_length], List.drop_left]]
  rw [hst]
  dsimp only
  have hraw : A ++ htob .l (x.length + y.length) ++ (x ++ fEnd) =
      raw (packetSize c - 8) c.time c.track (optBytes c.off c.bpos c.key) c.data.length (c.done ++ htob .l (x.length + y.length) ++ x) := by
    rw [← hA, raw]; simp
  rw [hraw, extend_raw _ _ _ _ _ _ _ _ _ (by omega) (by omega)]
  dsimp only
  refine ⟨_, rfl, h.kind, ?_, ?_⟩
  · have hd' : ({ c with nal := some (x ++ y) } : Content).data = c.done ++ htob .l (x.length + y.length) ++ x ++ y := by
      rw [Content.data]; dsimp only; rw [be4_htob, List.length_append]; simp
    have hsz : packetSize { c with nal := some (x ++ y) } = packetSize c + y.length := by
      rw [packetSize, packetSize, hd', hdata]
      simp only [List.length_append, htob_length]
      omega
    dsimp only
    rw [bytesOf, hsz, hd']
    have e1 : packetSize c - 8 + y.length = packetSize c + y.length - 8 := by omega
    have e2 : c.data.length + y.length = (c.done ++ htob .l (x.length + y.length) ++ x ++ y).length := by
      rw [hdl]; simp [htob_length, Codec.width]; omega
    rw [e1, e2]
  · intro z hz
    dsimp only at hz ⊢
    cases hz
    rw [hp, List.length_append]
    exact Nat.mod_eq_of_lt (by omega)

theorem kpos_off (buf : Bytes) (off : Int) (n i : Nat) (r : Bytes) (h : buf.drop i = optO off ++ r) :
    keyPos buf (n + 1) (i + 2) = if off = 0 then keyPos buf (n + 1) (i + 2) else keyPos buf n (i + (optO off).length + 2) := by
  by_cases h0 : off = 0
  · rw [if_pos h0]
  · rw [if_neg h0]
    have hl : (optO off).length = 17 := by simp [optO, h0, fOffset, htob_length, Codec.width]
    rw [optO, if_neg h0] at h
    have h2 : buf.drop (i + 2) = 111 :: ([102, 102, 115, 101, 116, 1] ++ htob .ll (toU64 off) ++ r) := by
      rw [← List.drop_drop, h]; simp [fOffset]
    rw [key_step n h2, hl, if_neg (by decide), if_pos (by decide), show i + 2 + 17 = i + 17 + 2 by omega]

theorem kpos_bpos (buf : Bytes) (bpos : Nat) (n i : Nat) (r : Bytes) (h : buf.drop i = optB bpos ++ r) :
    keyPos buf (n + 1) (i + 2) = if bpos = 0 then keyPos buf (n + 1) (i + 2) else keyPos buf n (i + (optB bpos).length + 2) := by
  by_cases h0 : bpos = 0
  · rw [if_pos h0]
  · rw [if_neg h0]
    have hl : (optB bpos).length = 15 := by simp [optB, h0, fBpos, htob_length, Codec.width]
    rw [optB, if_neg h0] at h
    have h2 : buf.drop (i + 2) = 98 :: ([112, 111, 115, 1] ++ htob .ll bpos ++ r) := by
      rw [← List.drop_drop, h]; simp [fBpos]
    rw [key_step n h2, hl, if_neg (by decide), if_neg (by decide), if_pos (by decide), show i + 2 + 15 = i + 15 + 2 by omega]

/-- The loop of `setKeyFrame` stops at the name of the key flag, or of the data if there is no key flag. -/
theorem key_pos (buf : Bytes) (off : Int) (bpos : Nat) (key : Option Bool) (n i : Nat) (hn : 3 ≤ n) (r : Bytes)
    (h : buf.drop i = optBytes off bpos key ++ fData ++ r) :
    keyPos buf n (i + 2) = .ok (i + (optO off).length + (optB bpos).length + 2) := by
  rw [opt_split] at h
  simp only [List.append_assoc] at h
  obtain ⟨m, rfl⟩ : ∃ m, n = m + 3 := ⟨n - 3, by omega⟩
  have third : ∀ m i, buf.drop i = optK key ++ (fData ++ r) → keyPos buf (m + 1) (i + 2) = .ok (i + 2) := by
    intro m i h
    rcases key with _ | _ | _
    · have h2 : buf.drop (i + 2) = 100 :: ([97, 116, 97, 2] ++ r) := by rw [← List.drop_drop, h]; simp [fData, optK]
      rw [key_step m h2, if_pos (by decide)]
    · have h2 : buf.drop (i + 2) = 75 :: ([101, 121, 102, 114, 97, 109, 101, 1, 0, 0, 0, 0, 0, 0, 0, 0] ++ (fData ++ r)) := by
        rw [← List.drop_drop, h]; simp [optK]
      rw [key_step m h2, if_pos (by decide)]
    · have h2 : buf.drop (i + 2) = 107 :: ([101, 121, 102, 114, 97, 109, 101, 1, 0, 0, 0, 0, 0, 0, 0, 1] ++ (fData ++ r)) := by
        rw [← List.drop_drop, h]; simp [optK, fKey]
      rw [key_step m h2, if_pos (by decide)]
  have second : ∀ m i, buf.drop i = optB bpos ++ (optK key ++ (fData ++ r)) →
      keyPos buf (m + 2) (i + 2) = .ok (i + (optB bpos).length + 2) := by
    intro m i h
    have h3 := drop_add h
    rw [kpos_bpos buf bpos (m + 1) i _ h]
    by_cases h0 : bpos = 0
    · rw [if_pos h0]
      have e : optB bpos = [] := by rw [optB, if_pos h0]
      rw [e] at h ⊢
      simpa using third (m + 1) i h
    · rw [if_neg h0, third m _ h3]
  have h3 := drop_add h
  rw [kpos_off buf off (m + 2) i _ h]
  by_cases h0 : off = 0
  · rw [if_pos h0]
    have e : optO off = [] := by rw [optO, if_pos h0]
    rw [e] at h ⊢
    simpa using second (m + 1) i h
  · rw [if_neg h0, second m _ h3]

theorem poke_at (A x y B : Bytes) (pos : Nat) (hp : pos = A.length) (hl : x.length = y.length) : poke (A ++ x ++ B) pos y = some (A ++ y ++ B) := by
  subst hp
  rw [poke, if_pos (by simp [hl]), ← hl, show A.length + x.length = (A ++ x).length by simp, List.drop_left, List.append_assoc A x B, List.take_left, List.append_assoc]

theorem key_holds (p : Pkt) (c : Content) (b : Bool) (h : Holds p c) : ∃ q, setKeyFrame p b = .ok q ∧ Holds q { c with key := c.key.map fun _ => b } := by
  have hlen := bytesOf_length c
  have hge : 35 ≤ packetSize c := by rw [packetSize]; omega
  have hdrop : (bytesOf c).drop 21 = optBytes c.off c.bpos c.key ++ fData ++ (htob .l c.data.length ++ c.data ++ fEnd) := raw_drop21 _ _ _ _ _ _
  rw [setKeyFrame, h.data]
  dsimp only
  rw [show 23 = 21 + 2 from rfl, key_pos _ c.off c.bpos c.key _ 21 (by rw [hlen]; omega) _ hdrop]
  simp only [R.bind]
  generalize hi : 21 + (optO c.off).length + (optB c.bpos).length = i
  have hdi : (bytesOf c).drop i = optK c.key ++ (fData ++ (htob .l c.data.length ++ c.data ++ fEnd)) := by
    rw [opt_split] at hdrop
    simp only [List.append_assoc] at hdrop
    have := drop_add (drop_add hdrop)
    rw [hi] at this
    simpa using this
  match hk : c.key with
  | none =>
    rw [hk] at hdi
    have h2 : (bytesOf c).drop (i + 2) = 100 :: ([97, 116, 97, 2] ++ (htob .l c.data.length ++ c.data ++ fEnd)) := by
      rw [← List.drop_drop, hdi]; simp [fData, optK]
    rw [get_drop h2]
    simp only [R.of]
    rw [if_neg (by decide)]
    refine ⟨p, rfl, ?_⟩
    have e : ({ c with key := Option.map (fun (_ : Bool) => b) none } : Content) = c := by
      cases c; simp only at hk; subst hk; rfl
    rw [e]
    exact h
  | some kf =>
    rw [hk] at hdi
    have hil : i = ((bytesOf c).take i).length := by
      rw [List.length_take]
      have := congrArg List.length hdi
      rw [List.length_drop] at this
      have hk19 : (optK (some kf)).length = 19 := by cases kf <;> rfl
      simp only [List.length_append, hk19] at this
      omega
    have hsplit : bytesOf c = (bytesOf c).take i ++ (optK (some kf) ++ (fData ++ (htob .l c.data.length ++ c.data ++ fEnd))) := by
      rw [← hdi, List.take_append_drop]
    generalize hA : (bytesOf c).take i = A at hil hsplit
    have hA2 : A = magic2 ++ htob .l (packetSize c - 8) ++ htob .l c.track ++ htob .ll c.time ++ [0xE0] ++ optO c.off ++ optB c.bpos := by
      rw [← hA, bytesOf, raw, opt_split]
      rw [show magic2 ++ htob .l (packetSize c - 8) ++ htob .l c.track ++ htob .ll c.time ++ [0xE0] ++ (optO c.off ++ (optB c.bpos ++ optK c.key)) ++ fData ++ htob .l c.data.length ++ c.data ++ fEnd =
        (magic2 ++ htob .l (packetSize c - 8) ++ htob .l c.track ++ htob .ll c.time ++ [0xE0] ++ optO c.off ++ optB c.bpos) ++ (optK c.key ++ fData ++ htob .l c.data.length ++ c.data ++ fEnd) by simp]
      rw [show i = (magic2 ++ htob .l (packetSize c - 8) ++ htob .l c.track ++ htob .ll c.time ++ [0xE0] ++ optO c.off ++ optB c.bpos).length by
        rw [← hi]; simp [magic2, htob_length, Codec.width]; omega, List.take_left]
    generalize hB : fData ++ (htob .l c.data.length ++ c.data ++ fEnd) = B at hsplit
    have hopt : ∀ k : Bool, optK (some k) = [0, 8] ++ [if k then 107 else 75] ++ [101, 121, 102, 114, 97, 109, 101, 1, 0, 0, 0, 0, 0, 0, 0] ++ [if k then 1 else 0] := by
      intro k; cases k <;> rfl
    have hget : (bytesOf c)[i + 2]? = some (if kf then 107 else 75) := by
      apply get_drop (t := [101, 121, 102, 114, 97, 109, 101, 1, 0, 0, 0, 0, 0, 0, 0] ++ [if kf then 1 else 0] ++ B)
      rw [← List.drop_drop, hsplit, hil, List.drop_left, hopt]
      simp
    rw [hget]
    simp only [R.of]
    rw [if_pos (by cases kf <;> decide)]
    have p1 : poke (bytesOf c) (i + 2) [if b then 107 else 75] = some (A ++ [0, 8] ++ [if b then 107 else 75] ++ ([101, 121, 102, 114, 97, 109, 101, 1, 0, 0, 0, 0, 0, 0, 0] ++ [if kf then 1 else 0] ++ B)) := by
      rw [hsplit, hopt, show A ++ ([0, 8] ++ [if kf then (107 : UInt8) else 75] ++ [101, 121, 102, 114, 97, 109, 101, 1, 0, 0, 0, 0, 0, 0, 0] ++ [if kf then (1 : UInt8) else 0] ++ B) =
        (A ++ [0, 8]) ++ [if kf then 107 else 75] ++ ([101, 121, 102, 114, 97, 109, 101, 1, 0, 0, 0, 0, 0, 0, 0] ++ [if kf then 1 else 0] ++ B) by simp]
      exact poke_at _ _ _ _ _ (by simp [hil]) rfl
    rw [p1]
    dsimp only
    have p2 : poke (A ++ [0, 8] ++ [if b then 107 else 75] ++ ([101, 121, 102, 114, 97, 109, 101, 1, 0, 0, 0, 0, 0, 0, 0] ++ [if kf then 1 else 0] ++ B)) (i + 2 + 16) [if b then 1 else 0] =
        some (A ++ optK (some b) ++ B) := by
      rw [hopt b, show A ++ [0, 8] ++ [if b then (107 : UInt8) else 75] ++ ([101, 121, 102, 114, 97, 109, 101, 1, 0, 0, 0, 0, 0, 0, 0] ++ [if kf then (1 : UInt8) else 0] ++ B) =
        (A ++ [0, 8] ++ [if b then (107 : UInt8) else 75] ++ [101, 121, 102, 114, 97, 109, 101, 1, 0, 0, 0, 0, 0, 0, 0]) ++ [if kf then (1 : UInt8) else 0] ++ B by simp]
      rw [poke_at _ ([if kf then 1 else 0] : Bytes) ([if b then 1 else 0] : Bytes) _ _ (by simp [hil]) rfl]
      simp
    rw [p2]
    dsimp only
    refine ⟨_, rfl, h.kind, ?_, fun x hx => h.nal x hx⟩
    dsimp only
    rw [bytesOf, raw, opt_split]
    have hsz : packetSize { c with key := Option.map (fun _ => b) (some kf) } = packetSize c := by
      rw [packetSize, packetSize, hk]; rfl
    have hdt : ({ c with key := Option.map (fun _ => b) (some kf) } : Content).data = c.data := rfl
    rw [hsz, hdt, hA2, ← hB]
    simp

theorem time_holds (p : Pkt) (c : Content) (t : Nat) (h : Holds p c) : ∃ q, setTime p t = .ok q ∧ Holds q { c with time := t } := by
  rw [setTime, h.data]
  dsimp only
  have e : ∀ t, raw (packetSize c - 8) t c.track (optBytes c.off c.bpos c.key) c.data.length c.data =
      (magic2 ++ htob .l (packetSize c - 8) ++ htob .l c.track) ++ htob .ll t ++ ([0xE0] ++ optBytes c.off c.bpos c.key ++ fData ++ htob .l c.data.length ++ c.data ++ fEnd) := by
    intro t; simp [raw]
  have hst : store .ll (bytesOf c) 12 t = some (raw (packetSize c - 8) t c.track (optBytes c.off c.bpos c.key) c.data.length c.data) := by
    rw [bytesOf, e c.time, store, poke_at _ _ _ _ _ (by simp [magic2, htob_length, Codec.width]) (by rw [htob_length, htob_length]), ← e t]
  rw [hst]
  exact ⟨_, rfl, h.kind, rfl, h.nal⟩

theorem op_holds (p : Pkt) (c c' : Content) (o : Op) (h : Holds p c) (ha : apply c o = some c') (hs : packetSize c + added o < 2 ^ 32) :
    (∃ q, runOp p o = .ok q ∧ Holds q c') ∧ packetSize c' ≤ packetSize c + added o := by
  cases o with
  | append x =>
    cases ha
    refine ⟨⟨{ p with data := some (bytesOf { c with done := c.data ++ x, nal := none }) }, ?_, h.kind, rfl, fun x hx => by cases hx⟩, ?_⟩
    · rw [runOp, appendData, h.data]
      dsimp only
      rw [append_holds p c x h hs { c with done := c.data ++ x, nal := none } rfl rfl rfl rfl rfl rfl]
      rfl
    · rw [packetSize, packetSize, data_append, List.length_append, added]; dsimp only; omega
  | nal x =>
    rw [apply] at ha
    by_cases hx : x = []
    · rw [if_pos hx] at ha
      cases ha
      refine ⟨⟨p, by rw [runOp, appendNal, if_pos hx], h⟩, by omega⟩
    · rw [if_neg hx] at ha
      cases ha
      have hdat : ({ c with done := c.data, nal := some x } : Content).data = c.data ++ (htob .l x.length ++ x) := by
        rw [Content.data]; dsimp only; rw [be4_htob]; simp
      refine ⟨⟨{ p with data := some (bytesOf { c with done := c.data, nal := some x }), prevNal := x.length }, ?_, h.kind, rfl, ?_⟩, ?_⟩
      · rw [runOp, appendNal, if_neg hx, h.data]
        dsimp only
        rw [append_holds p c (htob .l x.length ++ x) h (by simp only [added, List.length_append, htob_length, Codec.width] at *; omega) { c with done := c.data, nal := some x } rfl rfl rfl rfl rfl hdat]
        rfl
      · intro z hz; cases hz; rfl
      · rw [packetSize, packetSize, hdat, added]; simp [htob_length, Codec.width]; omega
  | grow y =>
    rw [apply] at ha
    by_cases hy : y = []
    · rw [if_pos hy] at ha
      cases ha
      refine ⟨⟨p, by rw [runOp, upgradeNal, if_pos hy], h⟩, by omega⟩
    · rw [if_neg hy, Option.map_eq_some_iff] at ha
      obtain ⟨x, hx, rfl⟩ := ha
      refine ⟨grow_holds p c x y hy hx h hs, ?_⟩
      have hd1 : c.data = c.done ++ be4 x.length ++ x := by rw [Content.data, hx]
      have hd2 : ({ c with nal := some (x ++ y) } : Content).data = c.done ++ be4 (x ++ y).length ++ (x ++ y) := rfl
      rw [packetSize, packetSize, hd2, hd1, added]
      simp [be4]; omega
  | key b =>
    cases ha
    refine ⟨key_holds p c b h, ?_⟩
    rw [packetSize, packetSize]
    have : ({ c with key := c.key.map fun _ => b } : Content).data = c.data := rfl
    rw [this]
    cases c.key <;> simp [added]
  | time t =>
    cases ha
    refine ⟨time_holds p c t h, ?_⟩
    rw [packetSize, packetSize]
    exact Nat.le_add_right _ _

theorem ops_hold (p : Pkt) (c c' : Content) (l : List Op) (h : Holds p c) (ha : applyAll c l = some c') (hs : packetSize c + addedAll l < 2 ^ 32) :
    (∃ q, runOps p l = .ok q ∧ Holds q c') ∧ packetSize c' ≤ packetSize c + addedAll l := by
  induction l generalizing p c with
  | nil => cases ha; exact ⟨⟨p, rfl, h⟩, by omega⟩
  | cons o r ih =>
    rw [applyAll] at ha
    rw [addedAll] at hs ⊢
    match hap : apply c o with
    | none => rw [hap] at ha; cases ha
    | some d =>
      rw [hap] at ha
      obtain ⟨⟨q, hq, hh⟩, hsz⟩ := op_holds p c d o h hap (by omega)
      obtain ⟨⟨q', hq', hh'⟩, hsz'⟩ := ih q d hh ha (by omega)
      refine ⟨⟨q', ?_, hh'⟩, by omega⟩
      rw [runOps, hq]
      exact hq'

/-- What the accessors of a packet should say. -/
structure Reads (p : Pkt) (c : Content) : Prop where
  valid : valid p = true
  time : pktTime p = .ok c.time
  track : pktTrack p = .ok c.track
  offset : ∃ u, pktInt (packetSize c) p nOffset = .ok u ∧ toI64 u = c.off
  bpos : pktInt (packetSize c) p nBpos = .ok c.bpos
  key : ∃ u, pktInt (packetSize c) p nKey = .ok u ∧ (u ≠ 0 ↔ c.isKey = true)
  hasKey : pktHas (packetSize c) p nKey = .ok c.isKey
  data : pktString (packetSize c) p nData = .ok (some c.data)
  size : ∃ b, p.data = some b ∧ b.length = packetSize c ∧ load .l b 4 = some (packetSize c - 8)

theorem lookup_options (off : Int) (bpos : Nat) (key : Option Bool) (d : Bytes) :
    member (object off bpos key d) nOffset = (if off = 0 then none else some (.int off)) ∧
    member (object off bpos key d) nBpos = (if bpos = 0 then none else some (.int (bposInt bpos))) ∧
    member (object off bpos key d) nKey = (if key = some true then some (.int 1) else none) ∧
    member (object off bpos key d) nData = some (.str d) := by
  simp only [member, object, options.eq_def]
  by_cases h1 : off = 0 <;> by_cases h2 : bpos = 0 <;> rcases key with _ | _ | _ <;>
    simp [h1, h2, List.lookup, nOffset, nBpos, nKey, nNoKey, nData]

theorem toI64_small (u : Nat) (h : u < 2 ^ 63) : toI64 u = u := by rw [toI64, if_pos h]

theorem holds_reads (p : Pkt) (c : Content) (h : Holds p c) (hf : FitsPacket c) (hs : packetSize c < 2 ^ 32) : Reads p c := by
  obtain ⟨f1, f2, f3, f4, f5⟩ := hf
  have hlen := bytesOf_length c
  have hge : 35 ≤ packetSize c := by rw [packetSize]; omega
  have hdl : c.data.length + 35 ≤ packetSize c := by rw [packetSize]; omega
  have e0 : bytesOf c = magic2 ++ (htob .l (packetSize c - 8) ++ (htob .l c.track ++ (htob .ll c.time ++ pack (fun _ => 0) (object c.off c.bpos c.key c.data)))) := by
    rw [bytesOf, raw_pack (fun _ => 0) _ _ _ _ _ f5]; simp
  have d4 := drop_add (i := 0) (buf := bytesOf c) (by rw [List.drop_zero]; exact e0)
  rw [show 0 + magic2.length = 4 from rfl] at d4
  have d8 := drop_add d4
  rw [htob_length, show 4 + Codec.l.width = 8 from rfl] at d8
  have d12 := drop_add d8
  rw [htob_length, show 8 + Codec.l.width = 12 from rfl] at d12
  have d20 := drop_add d12
  rw [htob_length, show 12 + Codec.ll.width = 20 from rfl] at d20
  have l4 : load .l (bytesOf c) 4 = some (packetSize c - 8) := by
    rw [load_be .l rfl _ d4]; exact congrArg some (Nat.mod_eq_of_lt (by simp only [Codec.width]; omega))
  have hval : valid p = true := by
    rw [valid, h.data]
    dsimp only
    rw [l4, h.kind, hlen]
    dsimp only
    have e : (packetSize c - 8 + 8) % 2 ^ 32 ≤ packetSize c := Nat.le_trans (Nat.mod_le _ _) (by omega)
    have e1 : decide (8 ≤ packetSize c) = true := decide_eq_true (by omega)
    rw [decide_eq_true e, e1]
    rfl
  have hpl : (pack (fun _ => 0) (object c.off c.bpos c.key c.data)).length = packetSize c - 20 := by
    have := congrArg List.length d20
    rw [List.length_drop, hlen] at this
    omega
  have hscan : getScan p = some (20, packetSize c - 20) := by
    rw [getScan, h.data]
    dsimp only
    rw [hval, headLen, h.kind, if_pos rfl, hlen, if_pos]
    simp only [Bool.true_and, decide_eq_true_eq]
    omega
  have hview : Views (fun _ => 0) (bytesOf c) (some (20, packetSize c - 20)) (object c.off c.bpos c.key c.data) :=
    ⟨20, packetSize c - 20, [], rfl, by rw [d20]; simp, by omega⟩
  have hroom := options_room c.off c.bpos c.key c.data (by omega)
  obtain ⟨m1, m2, m3, m4⟩ := lookup_options c.off c.bpos c.key c.data
  have look : ∀ name, (0 : UInt8) ∉ name → ∃ t, getMember (packetSize c) (bytesOf c) (some (20, packetSize c - 20)) name = .ok t ∧
      ViewsOpt (fun _ => 0) (bytesOf c) t (member (object c.off c.bpos c.key c.data) name) := fun name h0 =>
    C58_member _ hroom _ _ hview name h0 _ (by omega)
  refine ⟨hval, ?_, ?_, ?_, ?_, ?_, ?_, ?_, ⟨_, h.data, hlen, l4⟩⟩
  · rw [pktTime, h.data, Option.getD_some, load_be .ll rfl _ d12]
    exact congrArg R.ok (Nat.mod_eq_of_lt f1)
  · rw [pktTrack, h.data, Option.getD_some, load_be .l rfl _ d8]
    exact congrArg R.ok (Nat.mod_eq_of_lt f4)
  · obtain ⟨t, ht, hw⟩ := look nOffset (by decide)
    rw [pktInt, h.data, hscan, Option.getD_some, ht]
    simp only [R.bind]
    rw [m1] at hw
    by_cases h0 : c.off = 0
    · rw [if_pos h0] at hw
      rw [show t = none from hw]
      exact ⟨0, rfl, by rw [h0]; rfl⟩
    · rw [if_neg h0] at hw
      exact C58_int c.off f2 f3 _ _ hw
  · obtain ⟨t, ht, hw⟩ := look nBpos (by decide)
    rw [pktInt, h.data, hscan, Option.getD_some, ht]
    simp only [R.bind]
    rw [m2] at hw
    by_cases h0 : c.bpos = 0
    · rw [if_pos h0] at hw
      rw [show t = none from hw, h0]
      rfl
    · rw [if_neg h0] at hw
      obtain ⟨q, len, rest, rfl, hq, _⟩ := hw
      rw [pack, toU64_nat _ f5] at hq
      rw [asInt, getType, get_drop hq]
      simp only [R.of, R.bind]
      rw [if_pos trivial, load_be .ll rfl _ (drop_one' hq)]
      exact congrArg R.ok (Nat.mod_eq_of_lt f5)
  · obtain ⟨t, ht, hw⟩ := look nKey (by decide)
    rw [pktInt, h.data, hscan, Option.getD_some, ht]
    simp only [R.bind]
    rw [m3] at hw
    by_cases h0 : c.key = some true
    · rw [if_pos h0] at hw
      obtain ⟨u, hu, hi⟩ := C58_int 1 (by decide) (by decide) _ _ hw
      refine ⟨u, hu, ?_⟩
      have : u ≠ 0 := fun e => by rw [e] at hi; exact absurd hi (by decide)
      simp [Content.isKey, h0, this]
    · rw [if_neg h0] at hw
      rw [show t = none from hw]
      exact ⟨0, rfl, by simp [Content.isKey, h0]⟩
  · obtain ⟨t, ht, hw⟩ := look nKey (by decide)
    rw [pktHas, h.data, hscan, Option.getD_some, ht]
    simp only [R.bind]
    rw [m3] at hw
    by_cases h0 : c.key = some true
    · rw [if_pos h0] at hw
      obtain ⟨q, len, rest, rfl, hq, _⟩ := hw
      rw [pack] at hq
      rw [getType, get_drop hq]
      simp [R.of, Content.isKey, h0]
    · rw [if_neg h0] at hw
      rw [show t = none from hw]
      have e : c.isKey = false := by simp [Content.isKey, h0]
      rw [e]
      rfl
  · obtain ⟨t, ht, hw⟩ := look nData (by decide)
    rw [pktString, h.data, hscan, Option.getD_some, ht]
    simp only [R.bind]
    rw [m4] at hw
    exact C58_string c.data (by omega) _ _ hw

/-- A packet found in memory, whatever follows it there, is taken over whole when no length is given. -/
theorem copy_holds (p : Pkt) (c : Content) (q : Pkt) (b rest : Bytes) (hb : q.data = some b) (hq : Holds q c) (hs : packetSize c < 2 ^ 32) :
    ∃ r, reInit p (b ++ rest) 0 = .ok r ∧ r.data = some b ∧ r.kind = .v2 := by
  have hlen := bytesOf_length c
  have hge : 35 ≤ packetSize c := by rw [packetSize]; omega
  obtain rfl : b = bytesOf c := by have := hq.data; rw [hb] at this; exact Option.some.inj this
  have e0 : bytesOf c = magic2 ++ (htob .l (packetSize c - 8) ++ (htob .l c.track ++ htob .ll c.time ++ [0xE0] ++ optBytes c.off c.bpos c.key ++ fData ++ htob .l c.data.length ++ c.data ++ fEnd)) := by
    rw [bytesOf, raw]; simp
  generalize hB : (htob .l c.track ++ htob .ll c.time ++ [0xE0] ++ optBytes c.off c.bpos c.key ++ fData ++ htob .l c.data.length ++ c.data ++ fEnd) = B at e0
  have g0 : (bytesOf c ++ rest)[0]? = some 68 := by rw [e0]; rfl
  have g1 : (bytesOf c ++ rest)[1]? = some 84 := by rw [e0]; rfl
  have g2 : (bytesOf c ++ rest)[2]? = some 80 := by rw [e0]; rfl
  have g3 : (bytesOf c ++ rest)[3]? = some 50 := by rw [e0]; rfl
  have l4 : load .l (bytesOf c ++ rest) 4 = some (packetSize c - 8) := by
    have d4 : (bytesOf c ++ rest).drop 4 = htob .l (packetSize c - 8) ++ (B ++ rest) := by rw [e0]; simp [magic2]
    rw [load_be .l rfl _ d4]; exact congrArg some (Nat.mod_eq_of_lt (by simp only [Codec.width]; omega))
  rw [reInit, g0]
  simp only [R.of, R.bind]
  rw [if_neg (by decide), g1]
  dsimp only
  rw [if_neg (by decide), g2]
  dsimp only
  rw [if_neg (by decide), g3]
  dsimp only
  rw [if_neg (by decide), if_neg (by decide), if_pos trivial, l4]
  dsimp only
  have hmod : (packetSize c - 8 + 8) % 2 ^ 32 = (bytesOf c).length := by rw [hlen]; omega
  rw [hmod, sub_eq (k := bytesOf c) (r := rest) (by rw [List.drop_zero]) (Nat.zero_le _)]
  dsimp only
  refine ⟨_, rfl, rfl, ?_⟩
  dsimp only
  rw [if_neg (by omega)]
  have : (bytesOf c).take 4 = magic2 := by rw [e0]; rfl
  rw [this]
  rfl

/-- **C29.** A packet is filled from a time, an offset, a track, some data, a position and a keyframe flag, and then any
operations happen to it: data and NAL units are appended, the last NAL unit grows, the keyframe flag and the time change.
As long as everything fits in 32 bits, every operation succeeds, and afterwards the accessors give back exactly what
the operations say in plain terms; the length field is the size of the packet less eight, and that size is the sum
that the index and the pages count with. Taken over from a place in memory where anything may follow it, the packet
is the same. -/
theorem C29_history_partial (p : Pkt) (time : Nat) (off : Int) (track : Nat) (src : Src) (d : Bytes) (hsrc : src.bytes = some d) (hne : src ≠ .ptr [])
    (bpos : Nat) (key : Bool) (ops : List Op) (c : Content)
    (hops : applyAll ⟨time, off, track, bpos, if key then some true else none, d, none⟩ ops = some c)
    (hfit : FitsPacket c)
    (hsize : packetSize ⟨time, off, track, bpos, if key then some true else none, d, none⟩ + addedAll ops < 2 ^ 32) :
    ∃ q r, fill p time off track src bpos key = .ok q ∧ runOps q ops = .ok r ∧ Reads r c ∧
      packetSize c = sendSize c.off c.bpos key c.data.length ∧
      ∀ p' rest, ∃ r', reInit p' (r.data.getD [] ++ rest) 0 = .ok r' ∧ r'.data = r.data ∧ Reads r' c := by
  have hf := fill_bytes p time off track src d hsrc hne bpos key (by rw [newContent]; omega)
  obtain ⟨⟨r, hr, hh⟩, hsz⟩ := ops_hold { p with data := some (bytesOf (newContent time off track d bpos key)), kind := .v2 }
    (newContent time off track d bpos key) c ops ⟨rfl, rfl, fun x hx => by cases hx⟩ hops hsize
  have hsz2 : packetSize c < 2 ^ 32 := by rw [newContent] at hsz; omega
  refine ⟨_, r, hf, hr, holds_reads r c hh hfit hsz2, ?_, ?_⟩
  rotate_left
  · intro p' rest
    obtain ⟨r', h1, h2, h3⟩ := copy_holds p' { c with nal := none, done := c.data } r _ rest hh.data ⟨hh.kind, hh.data, fun x hx => by cases hx⟩ hsz2
    have hh' : Holds { r' with prevNal := r.prevNal } c := ⟨h3, h2, hh.nal⟩
    rw [hh.data]
    have := holds_reads _ c hh' hfit hsz2
    exact ⟨r', h1, h2, ⟨this.valid, this.time, this.track, this.offset, this.bpos, this.key, this.hasKey, this.data, this.size⟩⟩
  rw [size_send]
  have hk : ∀ (l : List Op) (c c' : Content), applyAll c l = some c' → (c'.key != none) = (c.key != none) := by
    intro l
    induction l with
    | nil => intro c c' h; cases h; rfl
    | cons o l ih =>
      intro c c' h
      rw [applyAll] at h
      match ho : apply c o with
      | none => rw [ho] at h; cases h
      | some e =>
        rw [ho] at h
        rw [ih e c' h]
        cases o with
        | append x => cases ho; rfl
        | nal x => rw [apply] at ho; split at ho <;> cases ho <;> rfl
        | grow y =>
          rw [apply] at ho
          split at ho
          · cases ho; rfl
          · rw [Option.map_eq_some_iff] at ho
            obtain ⟨_, _, rfl⟩ := ho
            rfl
        | key b => cases ho; cases c.key <;> rfl
        | time t => cases ho; rfl
  rw [hk ops _ c hops]
  cases key <;> rfl

/-- A packet with an offset, a keyframe flag and a NAL unit that grows: the hypotheses of `C29_history` can be met. -/
example : ∃ c, applyAll ⟨1000, -40, 3, 0, some true, [9, 9], none⟩
      [.nal [0x65, 1], .grow [2, 3], .key false, .append [7], .time 2000] = some c ∧ FitsPacket c ∧
    packetSize ⟨1000, -40, 3, 0, some true, [9, 9], none⟩ + addedAll [.nal [0x65, 1], .grow [2, 3], .key false, .append [7], .time 2000] < 2 ^ 32 ∧
    c.data = [9, 9, 0, 0, 0, 4, 0x65, 1, 2, 3, 7] ∧ c.isKey = false ∧ c.time = 2000 := by
  refine ⟨_, rfl, ?_, ?_, rfl, rfl, rfl⟩
  · exact ⟨by decide, by decide, by decide, by decide, by decide⟩
  · decide

/-- **C29 fails** for an empty string of data: there is no packet at all. -/
theorem C29_empty_fails (p : Pkt) (time : Nat) (off : Int) (track bpos : Nat) (key : Bool) :
    ∃ q, fill p time off track (.ptr []) bpos key = .ok q ∧ valid q = false := ⟨_, rfl, rfl⟩

/-- **C29 fails** for data given as a null pointer with a length: the comment in the header promises zeroes, the code
copies from the null pointer. -/
theorem C29_null_fails (p : Pkt) : fill p 0 0 0 (.null 5) 0 false = .oob := rfl

/-- **C29 fails** when a NAL unit grows in a packet that was never filled: memory before the packet is read. The TS
reader does this for a stream that does not start with a start code. -/
theorem C29_grow_unfilled_fails (x : UInt8) : upgradeNal ⟨none, .invalid, 0⟩ [x] = .oob := rfl

/-- **C29 fails** when a NAL unit grows right after a fill without data: the length of the data takes the place of the length of
the NAL unit and is counted twice, so that one byte of data is read back as two. -/
theorem C29_grow_empty_fails : ∃ q r, fill ⟨none, .invalid, 0⟩ 0 0 0 (.null 0) 0 false = .ok q ∧ upgradeNal q [7] = .ok r ∧
    pktString 99 r nData = .ok (some [7, 0]) := by
  refine ⟨_, _, rfl, rfl, ?_⟩
  rfl

/-- A packet without a member that `setKeyFrame` knows makes it loop: no amount of time is enough. -/
theorem C29_setKeyFrame_fails (n : Nat) : keyPos (magic2 ++ [0, 0, 0, 40, 0, 0, 0, 1, 0, 0, 0, 0, 0, 0, 0, 1, 0xE0, 0, 3, 120]) n 23 = .more := by
  induction n with
  | zero => rfl
  | succ n ih =>
    rw [key_step n (c := 120) (t := []) rfl, if_neg (by decide), if_neg (by decide), if_neg (by decide), ih]

end Verif.Dtsc
