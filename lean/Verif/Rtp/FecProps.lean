import Verif.Rtp.FecModel
import Verif.Rtp.FecSpec
import Verif.Rtp.Send

/-!
# C43: forward error correction
-/
namespace Verif.Rtp
open Spec

/-! ## Exclusive or -/

theorem xorB_length {a b : Bytes} (h : a.length = b.length) : (xorB a b).length = a.length := by
  simp [xorB, h]

theorem xorB_comm (a b : Bytes) : xorB a b = xorB b a := by
  unfold xorB
  induction a generalizing b with
  | nil => simp
  | cons x a ih => cases b <;> simp [ih, UInt8.xor_comm]

theorem xorB_assoc (a b c : Bytes) : xorB (xorB a b) c = xorB a (xorB b c) := by
  unfold xorB
  induction a generalizing b c with
  | nil => simp
  | cons x a ih => cases b <;> cases c <;> simp [ih, UInt8.xor_assoc]

theorem xorB_cancel {a b : Bytes} (h : a.length = b.length) : xorB (xorB a b) b = a := by
  unfold xorB
  induction a generalizing b with
  | nil => simp
  | cons x a ih =>
    cases b with
    | nil => cases h
    | cons y b => simp [ih (by simpa using h), UInt8.xor_assoc]

theorem foldl_xorB_comm (l : List Bytes) (a b : Bytes) : l.foldl xorB (xorB a b) = xorB (l.foldl xorB a) b := by
  induction l generalizing a with
  | nil => rfl
  | cons x l ih => rw [List.foldl_cons, List.foldl_cons, xorB_assoc, xorB_comm b x, ← xorB_assoc, ih]

theorem foldl_xorB_length (n : Nat) (l : List Bytes) (hl : ∀ x ∈ l, x.length = n) (a : Bytes) (ha : a.length = n) :
    (l.foldl xorB a).length = n := by
  induction l generalizing a with
  | nil => exact ha
  | cons x l ih =>
    rw [List.foldl_cons]
    exact ih (fun y hy => hl y (List.mem_cons_of_mem _ hy)) _
      ((xorB_length (ha.trans (hl x (List.mem_cons_self ..)).symm)).trans ha)

theorem xorAll_snoc (l : List Bytes) (b : Bytes) (hl : l ≠ []) : xorAll (l ++ [b]) = xorB (xorAll l) b := by
  cases l with
  | nil => exact absurd rfl hl
  | cons a l => simp [xorAll]

theorem xorAll_perm {l m : List Bytes} (h : l.Perm m) : xorAll l = xorAll m := by
  induction h with
  | nil => rfl
  | cons x h ih =>
    rename_i l1 l2
    show l1.foldl xorB x = l2.foldl xorB x
    exact h.foldl_eq' (fun a _ b _ z => by rw [xorB_assoc z, xorB_assoc z]; exact congrArg _ (xorB_comm _ _)) x
  | swap x y l => show l.foldl xorB (xorB y x) = l.foldl xorB (xorB x y); rw [xorB_comm]
  | trans _ _ ih1 ih2 => exact ih1.trans ih2

/-- Combining the parity with all packets but one leaves that one. -/
theorem xorAll_recover (n : Nat) (lost : Bytes) (others l : List Bytes) (h : (lost :: others).Perm l) (hl : ∀ x ∈ l, x.length = n) :
    others.foldl xorB (xorAll l) = lost := by
  rw [← xorAll_perm h]
  have hlen : ∀ x ∈ lost :: others, x.length = n := fun x hx => hl x (h.mem_iff.mp hx)
  clear h hl
  show others.foldl xorB (others.foldl xorB lost) = lost
  induction others generalizing lost with
  | nil => rfl
  | cons x r ih =>
    have h1 := hlen _ (List.mem_cons_self ..)
    have h2 := hlen x (List.mem_cons_of_mem _ (List.mem_cons_self ..))
    rw [List.foldl_cons, List.foldl_cons, foldl_xorB_comm, ih, xorB_cancel (h1.trans h2.symm)]
    intro y hy
    rcases List.mem_cons.mp hy with rfl | hy
    · exact (xorB_length (h1.trans h2.symm)).trans h1
    · exact hlen _ (List.mem_cons_of_mem _ (List.mem_cons_of_mem _ hy))

/-! ## What a receiver can do with a parity packet -/

/-- A media packet of a stream whose packets all have `L` bytes of payload. -/
def IsMedia (ssrc L : Nat) (x : Bytes) : Prop :=
  ∃ m pt seq ts pl, pt < 128 ∧ seq < 65536 ∧ pl.length = L ∧
    x = Pkt.encode { marker := m, payloadType := pt, sequence := seq, timestamp := ts, ssrc := ssrc, payload := pl }

theorem beEnc2 (v : Nat) : beEnc 2 v = [UInt8.ofNat (v / 256), UInt8.ofNat v] := by
  simp [beEnc]

theorem beEnc4 (v : Nat) : beEnc 4 v = [UInt8.ofNat (v / 16777216), UInt8.ofNat (v / 65536), UInt8.ofNat (v / 256), UInt8.ofNat v] := by
  simp [beEnc]

theorem mediaBits_hdr (m : Bool) (pt seq ts ssrc : Nat) (pl : Bytes) :
    mediaBits (hdr m pt seq ts ssrc ++ pl) =
      0 :: UInt8.ofNat ((if m then 128 else 0) + pt) :: (beEnc 4 ts ++ (beEnc 2 pl.length ++ pl)) := by
  have hl : (hdr m pt seq ts ssrc ++ pl).length - 12 = pl.length := by simp [hdr_length]
  have h0 : (0x80 : UInt8) &&& 0x3f = 0 := by decide
  rw [mediaBits, hl, hdr_eq, beEnc2 seq, beEnc4 ts, beEnc4 ssrc, ← h0]
  rfl

theorem mediaBits_length {ssrc L : Nat} {x : Bytes} (h : IsMedia ssrc L x) : (mediaBits x).length = L + 8 := by
  obtain ⟨m, pt, seq, ts, pl, -, -, hl, rfl⟩ := h
  rw [encode_hdr, mediaBits_hdr]
  simp [hl]
  omega

theorem xorB_zero_head (a b : Bytes) : xorB (0 :: a) (0 :: b) = 0 :: xorB a b := by
  simp [xorB]

theorem xorAll_zero_head (l : List Bytes) (hne : l ≠ []) (hl : ∀ x ∈ l, ∃ t, x = 0 :: t) : ∃ t, xorAll l = 0 :: t := by
  cases l with
  | nil => exact absurd rfl hne
  | cons a l =>
    obtain ⟨t, rfl⟩ := hl a (List.mem_cons_self ..)
    have hl' : ∀ x ∈ l, ∃ t, x = 0 :: t := fun x hx => hl x (List.mem_cons_of_mem _ hx)
    clear hne hl
    show ∃ t', l.foldl xorB (0 :: t) = 0 :: t'
    induction l generalizing t with
    | nil => exact ⟨t, rfl⟩
    | cons b l ih =>
      obtain ⟨u, rfl⟩ := hl' b (List.mem_cons_self ..)
      rw [List.foldl_cons, xorB_zero_head]
      exact ih _ fun x hx => hl' x (List.mem_cons_of_mem _ hx)

theorem parityBits_packet (row : Bool) (sn ts base offset number : Nat) (t : Bytes) (ht : 7 ≤ t.length) :
    parityBits (parityPacket row sn ts base offset number (0 :: t)) = 0 :: t := by
  match t, ht with
  | b1 :: b2 :: b3 :: b4 :: b5 :: b6 :: b7 :: r, _ =>
    have h : ∀ b : UInt8, (((b &&& 0x80) ||| 96) &&& 0x80) ||| ((0x80 ||| b) &&& 0x7f) = b := by decide +kernel
    have h1 := h b1
    unfold parityPacket
    rw [beEnc2, beEnc4, beEnc4, beEnc2]
    show ((0x80 ||| ((0 : UInt8) &&& 0x3f)) &&& 0x3f) :: ((((b1 &&& 0x80) ||| 96) &&& 0x80) ||| ((0x80 ||| b1) &&& 0x7f)) :: b2 :: b3 :: b4 :: b5 :: b6 :: b7 :: r = _
    rw [h1, show (0x80 ||| ((0 : UInt8) &&& 0x3f)) &&& 0x3f = 0 by decide]

/-- **C43, the parity packets**: whatever media packets a parity packet combines, if one of them is lost, a receiver
that has the others, in any order, gets it back completely: header and payload. -/
theorem C43_recover (ssrc L : Nat) (hL : L < 65536) (l : List Bytes) (hl : ∀ x ∈ l, IsMedia ssrc L x)
    (row : Bool) (sn ts base offset number : Nat) (lost : Bytes) (others : List Bytes) (h : (lost :: others).Perm l) :
    recover (parityPacket row sn ts base offset number (xorAll (l.map mediaBits))) others (seqOf lost) ssrc = lost := by
  have hlost : IsMedia ssrc L lost := hl lost (h.mem_iff.mp (List.mem_cons_self ..))
  have hne : l.map mediaBits ≠ [] := by
    intro e
    rw [List.map_eq_nil_iff] at e
    subst e
    exact absurd h.length_eq (by simp)
  obtain ⟨t, ht⟩ := xorAll_zero_head (l.map mediaBits) hne (by
    intro x hx
    obtain ⟨y, hy, rfl⟩ := List.mem_map.mp hx
    obtain ⟨m, pt, seq, ts, pl, -, -, -, rfl⟩ := hl y hy
    rw [encode_hdr, mediaBits_hdr]
    exact ⟨_, rfl⟩)
  have hmem : ∀ x ∈ l.map mediaBits, x.length = L + 8 := by
    intro x hx
    obtain ⟨y, hy, rfl⟩ := List.mem_map.mp hx
    exact mediaBits_length (hl y hy)
  have hx : (xorAll (l.map mediaBits)).length = L + 8 := by
    cases hm : l.map mediaBits with
    | nil => exact absurd hm hne
    | cons a r =>
      rw [hm] at hmem
      exact foldl_xorB_length (L + 8) r (fun x hx => hmem x (List.mem_cons_of_mem _ hx)) a (hmem a (List.mem_cons_self ..))
  have hb : others.foldl (fun acc m => xorB acc (mediaBits m)) (parityBits (parityPacket row sn ts base offset number
      (xorAll (l.map mediaBits)))) = mediaBits lost := by
    rw [ht, parityBits_packet _ _ _ _ _ _ _ (by rw [ht, List.length_cons] at hx; omega), ← ht, ← List.foldl_map]
    exact xorAll_recover (L + 8) _ _ _ (h.map mediaBits) hmem
  unfold recover
  rw [hb]
  obtain ⟨m, pt, seq, ts, pl, hpt, hseq, hpl, rfl⟩ := hlost
  rw [encode_hdr, mediaBits_hdr, seqOf]
  have hs : beVal (((hdr m pt seq ts ssrc ++ pl).drop 2).take 2) = seq := by
    have : ((hdr m pt seq ts ssrc ++ pl).drop 2).take 2 = beEnc 2 seq := by rw [hdr_eq, beEnc2 seq]; rfl
    rw [this, beVal_beEnc]
    exact Nat.mod_eq_of_lt hseq
  rw [hs]
  have hn : beVal ((((0 : UInt8) :: UInt8.ofNat ((if m then 128 else 0) + pt) :: (beEnc 4 ts ++ (beEnc 2 pl.length ++ pl))).drop 6).take 2) =
      pl.length := by
    have : (((0 : UInt8) :: UInt8.ofNat ((if m then 128 else 0) + pt) :: (beEnc 4 ts ++ (beEnc 2 pl.length ++ pl))).drop 6).take 2 =
        beEnc 2 pl.length := by rw [beEnc4, beEnc2]; rfl
    rw [this, beVal_beEnc]
    exact Nat.mod_eq_of_lt (by rw [hpl]; exact hL)
  simp only
  rw [hn]
  have hd : ((0 : UInt8) :: UInt8.ofNat ((if m then 128 else 0) + pt) :: (beEnc 4 ts ++ (beEnc 2 pl.length ++ pl))).drop 8 = pl := by
    rw [beEnc4, beEnc2]; rfl
  rw [hd, List.take_of_length_le (l := pl) (Nat.le_refl _), hdr_eq, beEnc4 ts]
  simp

/-- Non-vacuity: four packets of three bytes with different timestamps; the third one is lost. -/
example : ∃ l : List Bytes, l.length = 4 ∧ (∀ x ∈ l, IsMedia 7 3 x) ∧
    ∃ lost others, (lost :: others).Perm l ∧ lost ∈ l ∧ others.length = 3 := by
  let mk (i : Nat) : Bytes := Pkt.encode { marker := false, payloadType := 33, sequence := i, timestamp := 100 * i, ssrc := 7,
                                           payload := [UInt8.ofNat i, 2, 3] }
  refine ⟨[mk 65534, mk 65535, mk 0, mk 1], rfl, ?_, mk 0, [mk 1, mk 65535, mk 65534], by decide, by simp, rfl⟩
  intro x hx
  simp only [List.mem_cons, List.not_mem_nil, or_false] at hx
  rcases hx with rfl | rfl | rfl | rfl <;> exact ⟨_, _, _, _, _, by decide, by decide, rfl, rfl⟩

/-! ## What the sender does -/

/-- A session: what is sent (payload and time of the `i`th packet), the matrix and the packet header. -/
structure FecSess where
  pk : Nat → Bytes × Nat
  R : Nat
  C : Nat
  L : Nat
  marker : Bool
  pt : Nat
  seq0 : Nat
  ssrc : Nat

namespace FecSess

/-- The sequence number of the `i`th media packet. -/
def seq (s : FecSess) (i : Nat) : Nat := (s.seq0 + i) % 65536

/-- Its timestamp. -/
def ts (s : FecSess) (i : Nat) : Nat := (s.pk i).2 % 2 ^ 32

/-- The `i`th media packet. -/
def media (s : FecSess) (i : Nat) : Bytes :=
  Pkt.encode { marker := s.marker, payloadType := s.pt, sequence := s.seq i, timestamp := s.ts i, ssrc := s.ssrc,
               payload := (s.pk i).1 }

/-- `number` packets from the `start`th on, `step` apart. -/
def group (s : FecSess) (start step number : Nat) : List Bytes :=
  (List.range number).map fun i => s.media (start + i * step)

/-- How many rows were completed by the packets before the `n`th. -/
def rowCount (s : FecSess) (n : Nat) : Nat := ((List.range n).filter fun m => m % s.C = 0 ∧ 0 < m).length

/-- How many columns were completed by the packets before the `n`th. -/
def colCount (s : FecSess) (n : Nat) : Nat := ((List.range n).filter fun m => (m / s.C) % s.R = s.R - 1).length

/-- Parity for a group of packets: sequence number `sn`, time and base sequence number of the first packet. -/
def parity (s : FecSess) (row : Bool) (sn start step number : Nat) : Bytes :=
  parityPacket row sn (s.ts start) (s.seq start) step number (xorAll ((s.group start step number).map mediaBits))

/-- With the first packet of a row, the parity of the row before. -/
def rowParity (s : FecSess) (n : Nat) : List Out :=
  if n % s.C = 0 ∧ 0 < n then [.row (s.parity true ((s.rowCount n + 1) % 65536) (n - s.C) 1 s.C)] else []

/-- With a packet in the last row of the matrix, the parity of its column. -/
def colParity (s : FecSess) (n : Nat) : List Out :=
  if (n / s.C) % s.R = s.R - 1 then
    [.col (s.parity false ((s.colCount n + 1) % 65536) (n - (s.R - 1) * s.C) s.C s.R)] else []

/-- The row buffer after packet `n`. -/
def rowData (s : FecSess) (n : Nat) : FecData :=
  { sequence := s.seq (n - n % s.C), timestamp := s.ts (n - n % s.C),
    bits := xorAll ((s.group (n - n % s.C) 1 (n % s.C + 1)).map mediaBits) }

/-- The buffer of its column after packet `n`. -/
def colData (s : FecSess) (n : Nat) : FecData :=
  { sequence := s.seq (n - n / s.C % s.R * s.C), timestamp := s.ts (n - n / s.C % s.R * s.C),
    bits := xorAll ((s.group (n - n / s.C % s.R * s.C) s.C (n / s.C % s.R + 1)).map mediaBits) }

/-- Parameters the sender accepts, and packets of constant size. -/
structure Ok (s : FecSess) : Prop where
  r : 4 ≤ s.R ∧ s.R ≤ 20
  c : 1 ≤ s.C ∧ s.C ≤ 20
  l : s.L < 65536
  pt : s.pt < 128
  len : ∀ i, (s.pk i).1.length = s.L

theorem media_isMedia {s : FecSess} (h : s.Ok) (i : Nat) : IsMedia s.ssrc s.L (s.media i) :=
  ⟨_, _, _, _, _, h.pt, Nat.mod_lt _ (by decide), h.len i, rfl⟩

theorem group_succ (s : FecSess) (a d k : Nat) : s.group a d (k + 1) = s.group a d k ++ [s.media (a + k * d)] := by
  simp [group, List.range_succ]

theorem group_one (s : FecSess) (a d : Nat) : s.group a d 1 = [s.media a] := by
  simp [group]

theorem group_bits_length {s : FecSess} (h : s.Ok) (a d k : Nat) :
    (xorAll ((s.group a d (k + 1)).map mediaBits)).length = s.L + 8 := by
  induction k with
  | zero => rw [group_one]; exact mediaBits_length (media_isMedia h a)
  | succ k ih =>
    rw [group_succ, List.map_append, List.map_cons, List.map_nil, xorAll_snoc _ _ (by simp [group]), xorB_length, ih]
    rw [ih, mediaBits_length (media_isMedia h _)]

end FecSess

theorem shr8 (n : Nat) : n >>> 8 = n / 256 := Nat.shiftRight_eq_div_pow n 8
theorem shr16 (n : Nat) : n >>> 16 = n / 65536 := Nat.shiftRight_eq_div_pow n 16
theorem shr24 (n : Nat) : n >>> 24 = n / 16777216 := Nat.shiftRight_eq_div_pow n 24

theorem fecBytes_eq (f : Fec) (d : FecData) (isColumn : Bool) (sn : Nat) (hd : d.bits.length = f.lengthRecovery + 8) :
    fecBytes f d isColumn sn = parityPacket (!isColumn) sn d.timestamp d.sequence (if isColumn then f.columns else 1)
      (if isColumn then f.rows else f.columns) d.bits := by
  obtain ⟨sq, t, bits⟩ := d
  match bits, hd with
  | b0 :: b1 :: b2 :: b3 :: b4 :: b5 :: b6 :: b7 :: r, hd =>
    simp only [List.length_cons] at hd
    unfold fecBytes parityPacket
    rw [shr8, shr8, shr8, shr16, shr24, beEnc2, beEnc2, beEnc4, beEnc4 0]
    have hr : r.take f.lengthRecovery = r := List.take_of_length_le (by omega)
    cases isColumn
    · show _ :: _ :: _ :: _ :: _ :: _ :: _ :: _ :: _ :: _ :: _ :: _ :: _ :: _ :: _ :: _ :: _ :: _ :: _ :: _ :: _ :: _ :: _ :: _ :: _ :: _ :: _ :: _ :: r.take f.lengthRecovery = _
      rw [hr]; rfl
    · show _ :: _ :: _ :: _ :: _ :: _ :: _ :: _ :: _ :: _ :: _ :: _ :: _ :: _ :: _ :: _ :: _ :: _ :: _ :: _ :: _ :: _ :: _ :: _ :: _ :: _ :: _ :: _ :: r.take f.lengthRecovery = _
      rw [hr]; rfl

theorem setTimestamp_hdr32 (m : Bool) (pt seq t ssrc now : Nat) :
    setTimestamp (hdr m pt seq t ssrc) now = hdr m pt seq (now % 2 ^ 32) ssrc := by
  rw [setTimestamp, Ebml.htob_be .l rfl, show Bit.Codec.l.width = 4 from rfl, hdr_eq, hdr_eq,
    show now % 2 ^ 32 = now % 256 ^ 4 from rfl, beEnc_mod, beEnc2, beEnc4 t]
  rfl

theorem sendTS_eq (m : Bool) (pt seq t ssrc now : Nat) (pl : Bytes) : sendTS (hdr m pt seq t ssrc) pl now =
    (hdr m pt seq (now % 2 ^ 32) ssrc ++ pl, hdr m pt ((seq % 65536 + 1) % 65536) (now % 2 ^ 32) ssrc) := by
  rw [sendTS, setTimestamp_hdr32, increaseSequence_hdr]

theorem generateBitstring_eq (m : Bool) (pt seq seq' ts ssrc : Nat) (pl : Bytes) :
    generateBitstring (hdr m pt seq' ts ssrc) pl pl.length = mediaBits (hdr m pt seq ts ssrc ++ pl) := by
  rw [mediaBits_hdr, generateBitstring, List.take_of_length_le (l := pl) (Nat.le_refl _), hdr_eq, shr8, beEnc2, beEnc2, beEnc4, beEnc4,
    ← show (0x80 : UInt8) &&& 0x3f = 0 by decide]
  rfl

/-- The state of the sender before packet `n`. -/
structure FInv (s : FecSess) (n : Nat) (f : Fec) : Prop where
  ready : f.needsInit = false
  rows : f.rows = s.R
  columns : f.columns = s.C
  maxIndex : f.maxIndex = s.R * s.C
  len : f.lengthRecovery = s.L
  index : f.index = n % (s.R * s.C)
  first : f.isFirst = decide (n < s.R * s.C)
  rowSN : f.rowSN = s.rowCount n % 65536
  colSN : f.columnSN = s.colCount n % 65536
  row : 0 < n → f.row = s.rowData (n - 1)
  cols : ∀ m < n, n ≤ m + s.C → f.cols (m % s.C) = s.colData m

theorem index_mod {s : FecSess} (n : Nat) : n % (s.R * s.C) % s.C = n % s.C :=
  Nat.mod_mod_of_dvd _ (Nat.dvd_mul_left ..)

theorem index_div {s : FecSess} (n : Nat) : n % (s.R * s.C) / s.C % s.R = n / s.C % s.R := by
  rw [Nat.mul_comm s.R, Nat.mod_mul_right_div_self, Nat.mod_mod]

theorem rowCount_succ (s : FecSess) (n : Nat) : s.rowCount (n + 1) = s.rowCount n + if n % s.C = 0 ∧ 0 < n then 1 else 0 := by
  unfold FecSess.rowCount
  rw [List.range_succ, List.filter_append, List.length_append]
  by_cases h : n % s.C = 0 ∧ 0 < n <;> simp [List.filter, h]

theorem colCount_succ (s : FecSess) (n : Nat) : s.colCount (n + 1) = s.colCount n + if (n / s.C) % s.R = s.R - 1 then 1 else 0 := by
  unfold FecSess.colCount
  rw [List.range_succ, List.filter_append, List.length_append]
  by_cases h : (n / s.C) % s.R = s.R - 1 <;> simp [List.filter, h]

theorem fecRow_spec {s : FecSess} (hs : s.Ok) {n : Nat} {f : Fec} (hf : FInv s n f) :
    fecRow f (mediaBits (s.media n)) (s.seq n) (s.ts n) =
      ({ f with row := s.rowData n, rowSN := s.rowCount (n + 1) % 65536 }, s.rowParity n) := by
  have hc : 0 < s.C := hs.c.1
  have hN : 0 < s.R * s.C := Nat.mul_pos (by have := hs.r.1; omega) hc
  unfold fecRow
  rw [hf.index, hf.columns, index_mod, hf.first, rowCount_succ]
  by_cases h0 : n % s.C = 0
  · rw [if_pos h0]
    have hdata : s.rowData n = { sequence := s.seq n, timestamp := s.ts n, bits := mediaBits (s.media n) } := by
      simp only [FecSess.rowData, h0, Nat.sub_zero, Nat.zero_add, FecSess.group_one]
      rfl
    simp only
    by_cases hn : 0 < n
    · rw [if_pos (by
        by_cases hlt : n < s.R * s.C
        · right; rw [Nat.mod_eq_of_lt hlt]; exact hn
        · left; simpa using hlt), hdata, if_pos ⟨h0, hn⟩, FecSess.rowParity, if_pos ⟨h0, hn⟩, hf.rowSN, hf.row hn]
      obtain ⟨q, hq⟩ := Nat.dvd_of_mod_eq_zero h0
      have hq1 : 1 ≤ q := by
        cases q with
        | zero => rw [hq] at hn; simp at hn
        | succ q => omega
      obtain ⟨q, rfl⟩ : ∃ p, q = p + 1 := ⟨q - 1, by omega⟩
      have e1 : n - 1 = s.C * q + (s.C - 1) := by rw [hq, Nat.mul_succ]; omega
      have e2 : (n - 1) % s.C = s.C - 1 := by rw [e1, Nat.mul_add_mod, Nat.mod_eq_of_lt (by omega)]
      have e3 : n - 1 - (s.C - 1) = n - s.C := by omega
      have e4 : s.C - 1 + 1 = s.C := by omega
      have hl := FecSess.group_bits_length hs (n - s.C) 1 (s.C - 1)
      rw [e4] at hl
      rw [fecBytes_eq _ _ _ _ (by simp only [FecSess.rowData, e2, e3, e4]; rw [hl, hf.len])]
      simp only [FecSess.rowData, e2, e3, e4, hf.columns, FecSess.parity, Nat.mod_add_mod]
      rfl
    · have hn0 : n = 0 := by omega
      subst hn0
      rw [if_neg (by simp; omega), hdata, if_neg (by simp), FecSess.rowParity, if_neg (by simp), Nat.add_zero, ← hf.rowSN]
  · have hn : 0 < n := Nat.pos_of_ne_zero fun h => h0 (by rw [h]; exact Nat.zero_mod _)
    rw [if_neg h0, if_neg (fun h => h0 h.1), FecSess.rowParity, if_neg (fun h => h0 h.1), Nat.add_zero, ← hf.rowSN, hf.row hn]
    have e0 : s.C * (n / s.C) + n % s.C = n := Nat.div_add_mod n s.C
    have hlt : n % s.C < s.C := Nat.mod_lt _ hc
    have e1 : n - 1 = s.C * (n / s.C) + (n % s.C - 1) := by omega
    have e2 : (n - 1) % s.C = n % s.C - 1 := by rw [e1, Nat.mul_add_mod, Nat.mod_eq_of_lt (by omega)]
    have e3 : n - 1 - (n % s.C - 1) = n - n % s.C := by omega
    have e4 : n % s.C - 1 + 1 = n % s.C := by omega
    have e5 : n - n % s.C + n % s.C * 1 = n := by omega
    have hd : s.rowData n = { s.rowData (n - 1) with bits := applyXOR (s.rowData (n - 1)).bits (mediaBits (s.media n)) } := by
      simp only [FecSess.rowData, e2, e3, e4]
      rw [FecSess.group_succ, List.map_append, List.map_cons, List.map_nil, xorAll_snoc _ _ (by simp [FecSess.group]; omega), e5]
      rfl
    rw [hd]

theorem fecCol_spec {s : FecSess} (hs : s.Ok) {n : Nat} {f : Fec} (hi : f.index = n % (s.R * s.C)) (hc' : f.columns = s.C) (hr' : f.rows = s.R)
    (hcols : ∀ m < n, n ≤ m + s.C → f.cols (m % s.C) = s.colData m) :
    fecCol f (mediaBits (s.media n)) (s.seq n) (s.ts n) =
      { f with cols := fun k => if k = n % s.C then s.colData n else f.cols k } := by
  have hc : 0 < s.C := hs.c.1
  have hr : 0 < s.R := by have := hs.r.1; omega
  unfold fecCol
  rw [hi, hc', hr', index_mod, index_div]
  simp only
  have hd : (if n / s.C % s.R = 0 then ({ sequence := s.seq n, timestamp := s.ts n, bits := mediaBits (s.media n) } : FecData)
      else { f.cols (n % s.C) with bits := applyXOR (f.cols (n % s.C)).bits (mediaBits (s.media n)) }) = s.colData n := by
    by_cases h0 : n / s.C % s.R = 0
    · rw [if_pos h0]
      simp only [FecSess.colData, h0, Nat.zero_mul, Nat.sub_zero, Nat.zero_add, FecSess.group_one]
      rfl
    · rw [if_neg h0]
      have hq : 1 ≤ n / s.C := Nat.pos_of_ne_zero fun h => h0 (by rw [h]; exact Nat.zero_mod _)
      have hnC : s.C ≤ n := by
        have := (Nat.le_div_iff_mul_le hc).mp hq
        omega
      have e1 : (n - s.C) % s.C = n % s.C := by rw [← Nat.mod_eq_sub_mod hnC]
      have e2 : (n - s.C) / s.C = n / s.C - 1 := by
        have := Nat.div_eq_sub_div hc hnC
        omega
      have e3 : (n / s.C - 1) % s.R = n / s.C % s.R - 1 := by
        have e0 : s.R * (n / s.C / s.R) + n / s.C % s.R = n / s.C := Nat.div_add_mod _ _
        have hlt : n / s.C % s.R < s.R := Nat.mod_lt _ hr
        have e1 : n / s.C - 1 = s.R * (n / s.C / s.R) + (n / s.C % s.R - 1) := by omega
        rw [e1, Nat.mul_add_mod, Nat.mod_eq_of_lt (by omega)]
      have h := hcols (n - s.C) (by omega) (by omega)
      rw [e1] at h
      rw [h]
      have hle : n / s.C % s.R * s.C ≤ n :=
        Nat.le_trans (Nat.mul_le_mul_right _ (Nat.mod_le _ _)) (Nat.div_mul_le_self n s.C)
      obtain ⟨r, hr1⟩ : ∃ r, n / s.C % s.R = r + 1 := ⟨n / s.C % s.R - 1, by omega⟩
      rw [hr1] at hle e3
      have e4 : n - s.C - r * s.C = n - (r + 1) * s.C := by rw [Nat.succ_mul]; omega
      simp only [FecSess.colData, e2, e3, hr1, Nat.add_sub_cancel, e4]
      rw [FecSess.group_succ (k := r + 1), List.map_append, List.map_cons, List.map_nil, xorAll_snoc _ _ (by simp [FecSess.group]),
        Nat.sub_add_cancel hle]
      rfl
  rw [hd]

theorem fecColSend_spec {s : FecSess} (hs : s.Ok) {n : Nat} {f : Fec} (hi : f.index = n % (s.R * s.C)) (hc' : f.columns = s.C) (hr' : f.rows = s.R)
    (hl : f.lengthRecovery = s.L) (hsn : f.columnSN = s.colCount n % 65536) (hd : f.cols (n % s.C) = s.colData n) :
    fecColSend f = ({ f with columnSN := s.colCount (n + 1) % 65536 }, s.colParity n) := by
  unfold fecColSend
  rw [hi, hc', hr', index_mod, index_div, colCount_succ]
  by_cases h : n / s.C % s.R = s.R - 1
  · have e : s.R - 1 + 1 = s.R := by have := hs.r.1; omega
    have hb := FecSess.group_bits_length hs (n - (s.R - 1) * s.C) s.C (s.R - 1)
    rw [e] at hb
    rw [if_pos h, if_pos h, FecSess.colParity, if_pos h, hd,
      fecBytes_eq _ _ _ _ (by simp only [FecSess.colData, h, e]; rw [hb, hl]), hsn]
    simp only [FecSess.colData, h, e, hc', hr', FecSess.parity, Nat.mod_add_mod]
    rfl
  · rw [if_neg h, if_neg h, FecSess.colParity, if_neg h, Nat.add_zero, ← hsn, ← hi, ← hc', ← hr']

theorem fecNext_spec {s : FecSess} (hs : s.Ok) {n : Nat} {f : Fec} (hi : f.index = n % (s.R * s.C)) (hm : f.maxIndex = s.R * s.C)
    (hf : f.isFirst = decide (n < s.R * s.C)) :
    fecNext f = { f with isFirst := decide (n + 1 < s.R * s.C), index := (n + 1) % (s.R * s.C) } := by
  have hN : 0 < s.R * s.C := Nat.mul_pos (by have := hs.r.1; omega) hs.c.1
  unfold fecNext
  rw [hi, hm]
  generalize s.R * s.C = N at *
  have hlt := Nat.mod_lt n hN
  by_cases h : n % N + 1 ≥ N
  · have e : (n + 1) % N = 0 := by
      rw [Nat.add_mod_eq_ite]
      by_cases h1 : N = 1
      · subst h1; simp [Nat.mod_one]
      · rw [Nat.mod_eq_of_lt (show 1 < N by omega), if_pos h]; omega
    have e2 : ¬ n + 1 < N := by
      intro h'
      rw [Nat.mod_eq_of_lt (by omega)] at h
      omega
    rw [if_pos h, e, decide_eq_false e2]
  · have e : (n + 1) % N = n % N + 1 := by
      rw [Nat.add_mod_eq_ite, Nat.mod_eq_of_lt (show 1 < N by omega), if_neg h]
    have e2 : decide (n + 1 < N) = f.isFirst := by
      rw [hf]
      apply decide_eq_decide.mpr
      constructor
      · intro h; omega
      · intro h'
        rw [Nat.mod_eq_of_lt h'] at h
        omega
    rw [if_neg h, e, e2]

theorem parseFEC_spec {s : FecSess} (hs : s.Ok) {n : Nat} {f : Fec}
    (hf : FInv s n (if f.needsInit then f.init s.L else f)) :
    FInv s (n + 1) (parseFEC f (hdr s.marker s.pt (s.seq (n + 1)) (s.ts n) s.ssrc) (s.pk n).1).1 ∧
    (parseFEC f (hdr s.marker s.pt (s.seq (n + 1)) (s.ts n) s.ssrc) (s.pk n).1).2 = s.rowParity n ++ s.colParity n := by
  have hc : 0 < s.C := hs.c.1
  generalize hg : (if f.needsInit then f.init s.L else f) = g at hf
  have hbits : generateBitstring (hdr s.marker s.pt (s.seq (n + 1)) (s.ts n) s.ssrc) (s.pk n).1 s.L = mediaBits (s.media n) := by
    rw [FecSess.media, encode_hdr, ← hs.len n]
    exact generateBitstring_eq ..
  have hseq : (((getSequence (hdr s.marker s.pt (s.seq (n + 1)) (s.ts n) s.ssrc)).getD 0) + 65535) % 65536 = s.seq n := by
    have hd : (hdr s.marker s.pt (s.seq (n + 1)) (s.ts n) s.ssrc).drop 2 = beEnc 2 (s.seq (n + 1)) ++ (beEnc 4 (s.ts n) ++ beEnc 4 s.ssrc) := by
      rw [hdr_eq]; rfl
    have : getSequence (hdr s.marker s.pt (s.seq (n + 1)) (s.ts n) s.ssrc) = some (s.seq (n + 1) % 65536) := by
      rw [getSequence, hd]
      exact Ebml.btoh_be .s rfl _ _
    rw [this, Option.getD_some]
    unfold FecSess.seq
    omega
  have hts : (getTimeStamp (hdr s.marker s.pt (s.seq (n + 1)) (s.ts n) s.ssrc)).getD 0 = s.ts n := by
    have hd : (hdr s.marker s.pt (s.seq (n + 1)) (s.ts n) s.ssrc).drop 4 = beEnc 4 (s.ts n) ++ beEnc 4 s.ssrc := by
      rw [hdr_eq, beEnc2]; rfl
    have : getTimeStamp (hdr s.marker s.pt (s.seq (n + 1)) (s.ts n) s.ssrc) = some (s.ts n % 2 ^ 32) := by
      rw [getTimeStamp, hd]
      exact Ebml.btoh_be .l rfl _ _
    rw [this, Option.getD_some]
    exact Nat.mod_eq_of_lt (Nat.mod_lt _ (by decide))
  have he : parseFEC f (hdr s.marker s.pt (s.seq (n + 1)) (s.ts n) s.ssrc) (s.pk n).1 =
      ({ g with row := s.rowData n, rowSN := s.rowCount (n + 1) % 65536, columnSN := s.colCount (n + 1) % 65536
                cols := fun k => if k = n % s.C then s.colData n else g.cols k
                isFirst := decide (n + 1 < s.R * s.C), index := (n + 1) % (s.R * s.C) }, s.rowParity n ++ s.colParity n) := by
    unfold parseFEC
    rw [hs.len n, hg]
    simp only
    rw [← hf.len] at hbits
    rw [if_neg (by rw [hf.len]; simp), hbits, hseq, hts, fecRow_spec hs hf]
    simp only
    rw [fecCol_spec (f := { g with row := s.rowData n, rowSN := s.rowCount (n + 1) % 65536 }) hs hf.index hf.columns hf.rows hf.cols]
    simp only
    rw [fecColSend_spec (f := { g with row := s.rowData n, rowSN := s.rowCount (n + 1) % 65536
                                       cols := fun k => if k = n % s.C then s.colData n else g.cols k })
      hs hf.index hf.columns hf.rows hf.len hf.colSN (if_pos rfl)]
    simp only
    rw [fecNext_spec (f := { g with row := s.rowData n, rowSN := s.rowCount (n + 1) % 65536, columnSN := s.colCount (n + 1) % 65536
                                    cols := fun k => if k = n % s.C then s.colData n else g.cols k })
      hs hf.index hf.maxIndex hf.first]
  rw [he]
  refine ⟨⟨hf.ready, hf.rows, hf.columns, hf.maxIndex, hf.len, rfl, rfl, rfl, rfl, fun _ => rfl, ?_⟩, rfl⟩
  intro m hm hmC
  by_cases h : m = n
  · subst h; exact if_pos rfl
  · have hne : m % s.C ≠ n % s.C := by
      intro e
      have h1 : (n - m) % s.C = 0 := Nat.sub_mod_eq_zero_of_mod_eq e.symm
      rw [Nat.mod_eq_of_lt (by omega)] at h1
      omega
    show (if m % s.C = n % s.C then s.colData n else g.cols (m % s.C)) = _
    rw [if_neg hne]
    exact hf.cols m (by omega) (by omega)

/-- **C43, the sender**: for every session of packets of one size, of any length, with any matrix the sender
accepts, the packets sent are exactly: each media packet; with the first packet of every row, the
parity of the row just completed; with every packet of the last row of the matrix, the parity of its
column. -/
theorem C43_stream (s : FecSess) (hs : s.Ok) (rows columns : UInt8) (f : Fec) (hf : configureFEC rows columns = some f)
    (hR : s.R = rows.toNat) (hC : s.C = columns.toNat) (t n : Nat) :
    (fecRun (hdr s.marker s.pt (s.seq 0) t s.ssrc, f) ((List.range n).map s.pk)).2 =
      (List.range n).flatMap fun i => .media (s.media i) :: (s.rowParity i ++ s.colParity i) := by
  have hf' : f = { maxIndex := rows.toNat * columns.toNat, rows := rows.toNat, columns := columns.toNat } := by
    unfold configureFEC at hf
    split at hf
    · cases hf
    · split at hf
      · cases hf
      · split at hf
        · cases hf
        · exact (Option.some.inj hf).symm
  have key : ∀ n, (∃ t', (fecRun (hdr s.marker s.pt (s.seq 0) t s.ssrc, f) ((List.range n).map s.pk)).1.1 =
        hdr s.marker s.pt (s.seq n) t' s.ssrc) ∧
      FInv s n (let g := (fecRun (hdr s.marker s.pt (s.seq 0) t s.ssrc, f) ((List.range n).map s.pk)).1.2
        if g.needsInit then g.init s.L else g) ∧
      (fecRun (hdr s.marker s.pt (s.seq 0) t s.ssrc, f) ((List.range n).map s.pk)).2 =
        (List.range n).flatMap fun i => .media (s.media i) :: (s.rowParity i ++ s.colParity i) := by
    intro n
    induction n with
    | zero =>
      refine ⟨⟨t, rfl⟩, ?_, rfl⟩
      show FInv s 0 (if f.needsInit then f.init s.L else f)
      have hN : 0 < s.R * s.C := Nat.mul_pos (by have := hs.r.1; omega) hs.c.1
      rw [hf']
      simp only [if_true, Fec.init]
      refine ⟨rfl, hR.symm, hC.symm, by rw [hR, hC], Nat.mod_eq_of_lt hs.l, by simp, ?_, rfl, rfl, fun h => absurd h (by omega), fun m h => absurd h (by omega)⟩
      rw [decide_eq_true hN]
    | succ n ih =>
      obtain ⟨⟨t', h1⟩, h2, h3⟩ := ih
      rw [List.range_succ, List.map_append, List.map_cons, List.map_nil]
      unfold fecRun at *
      rw [List.foldl_append, List.foldl_cons, List.foldl_nil]
      generalize (List.map s.pk (List.range n)).foldl (fun acc p => ((fecStep acc.1 p).1, acc.2 ++ (fecStep acc.1 p).2))
        ((hdr s.marker s.pt (s.seq 0) t s.ssrc, f), []) = st at *
      obtain ⟨⟨h, g⟩, outs⟩ := st
      simp only at h1 h2 h3 ⊢
      subst h1
      have hseq : (s.seq n % 65536 + 1) % 65536 = s.seq (n + 1) := by unfold FecSess.seq; omega
      have hstep : fecStep (hdr s.marker s.pt (s.seq n) t' s.ssrc, g) (s.pk n) =
          ((hdr s.marker s.pt (s.seq (n + 1)) (s.ts n) s.ssrc,
            (parseFEC g (hdr s.marker s.pt (s.seq (n + 1)) (s.ts n) s.ssrc) (s.pk n).1).1),
            .media (s.media n) :: (s.rowParity n ++ s.colParity n)) := by
        unfold fecStep
        simp only
        rw [sendTS_eq, hseq]
        simp only
        rw [show (s.pk n).2 % 2 ^ 32 = s.ts n from rfl, (parseFEC_spec hs h2).2, FecSess.media, encode_hdr]
      rw [hstep]
      have hnext := (parseFEC_spec hs h2).1
      refine ⟨⟨s.ts n, rfl⟩, ?_, ?_⟩
      · simp only
        rw [hnext.ready]
        exact hnext
      · simp only
        rw [List.flatMap_append, h3]
        simp
  exact (key n).2.2

theorem seqOf_media (s : FecSess) (i : Nat) : seqOf (s.media i) = s.seq i := by
  rw [seqOf, FecSess.media, encode_hdr]
  have : ((hdr s.marker s.pt (s.seq i) (s.ts i) s.ssrc ++ (s.pk i).1).drop 2).take 2 = beEnc 2 (s.seq i) := by
    rw [hdr_eq, beEnc2 (s.seq i)]; rfl
  rw [this, beVal_beEnc]
  exact Nat.mod_eq_of_lt (Nat.mod_lt _ (by decide))

theorem protectedSeqs_parity {s : FecSess} (hs : s.Ok) (row : Bool) (sn start step k : Nat) (hstep : step < 256) (hk : 0 < k ∧ k < 256) :
    protectedSeqs (s.parity row sn start step k) = (s.group start step k).map seqOf := by
  unfold FecSess.parity
  obtain ⟨j, rfl⟩ : ∃ j, k = j + 1 := ⟨k - 1, by omega⟩
  have hl := FecSess.group_bits_length hs start step j
  match h : xorAll ((s.group start step (j + 1)).map mediaBits), hl with
  | b0 :: b1 :: b2 :: b3 :: b4 :: b5 :: b6 :: b7 :: r, _ =>
    have e1 : (parityPacket row sn (s.ts start) (s.seq start) step (j + 1) (b0 :: b1 :: b2 :: b3 :: b4 :: b5 :: b6 :: b7 :: r)).getD 26 0 =
        UInt8.ofNat (j + 1) := by
      unfold parityPacket; rw [beEnc2, beEnc2, beEnc4, beEnc4]; rfl
    have e2 : (parityPacket row sn (s.ts start) (s.seq start) step (j + 1) (b0 :: b1 :: b2 :: b3 :: b4 :: b5 :: b6 :: b7 :: r)).getD 25 0 =
        UInt8.ofNat step := by
      unfold parityPacket; rw [beEnc2, beEnc2, beEnc4, beEnc4]; rfl
    have e3 : ((parityPacket row sn (s.ts start) (s.seq start) step (j + 1) (b0 :: b1 :: b2 :: b3 :: b4 :: b5 :: b6 :: b7 :: r)).drop 12).take 2 =
        beEnc 2 (s.seq start) := by
      unfold parityPacket; rw [beEnc2, beEnc2, beEnc4, beEnc4]; rfl
    rw [protectedSeqs, e1, e2, e3, u8n, u8n, beVal_beEnc, Nat.mod_eq_of_lt hk.2, Nat.mod_eq_of_lt hstep,
      Nat.mod_eq_of_lt (show s.seq start < 256 ^ 2 from Nat.mod_lt _ (by decide)), FecSess.group, List.map_map]
    refine List.map_congr_left fun i _ => ?_
    simp only [Function.comp, seqOf_media]
    unfold FecSess.seq
    rw [Nat.mod_add_mod, Nat.add_assoc]

/-- A parity packet that does what it should: it names, by sequence number, some of the media packets sent so
far, and from it and all but any one of these, the missing one can be rebuilt. -/
def Protects (s : FecSess) (n : Nat) (f : Bytes) (idx : List Nat) : Prop :=
  (∀ i ∈ idx, i < n) ∧ protectedSeqs f = idx.map (fun i => seqOf (s.media i)) ∧
  ∀ lost others, (lost :: others).Perm (idx.map s.media) → recover f others (seqOf lost) s.ssrc = lost

theorem parity_protects {s : FecSess} (hs : s.Ok) (row : Bool) (sn start step k n : Nat) (hstep : step < 256) (hk : 0 < k ∧ k < 256)
    (hn : start + (k - 1) * step < n) :
    Protects s n (s.parity row sn start step k) ((List.range k).map fun i => start + i * step) := by
  refine ⟨?_, ?_, ?_⟩
  · intro i hi
    obtain ⟨j, hj, rfl⟩ := List.mem_map.mp hi
    have : j * step ≤ (k - 1) * step := Nat.mul_le_mul_right _ (by have := List.mem_range.mp hj; omega)
    omega
  · rw [protectedSeqs_parity hs row sn start step k hstep hk, FecSess.group, List.map_map, List.map_map]; rfl
  · intro lost others h
    have hg : ((List.range k).map fun i => start + i * step).map s.media = s.group start step k := by
      rw [FecSess.group, List.map_map]; rfl
    rw [hg] at h
    refine C43_recover s.ssrc s.L hs.l _ ?_ row sn _ _ step k lost others h
    intro x hx
    obtain ⟨i, -, rfl⟩ := List.mem_map.mp hx
    exact FecSess.media_isMedia hs _

/-- **C43**: every packet of a completed row is protected by a row parity packet that was sent, and every packet of a
completed matrix by a column parity packet, along with exactly the other packets of its row or column. -/
theorem C43_protected (s : FecSess) (hs : s.Ok) (rows columns : UInt8) (f : Fec) (hf : configureFEC rows columns = some f)
    (hR : s.R = rows.toNat) (hC : s.C = columns.toNat) (t n i : Nat) :
    let outs := (fecRun (hdr s.marker s.pt (s.seq 0) t s.ssrc, f) ((List.range n).map s.pk)).2
    (i / s.C * s.C + s.C < n → ∃ p, .row p ∈ outs ∧ Protects s n p ((List.range s.C).map fun j => i / s.C * s.C + j)) ∧
    (i / (s.R * s.C) * (s.R * s.C) + s.R * s.C ≤ n → ∃ p, .col p ∈ outs ∧
      Protects s n p ((List.range s.R).map fun j => i / (s.R * s.C) * (s.R * s.C) + j * s.C + i % s.C)) := by
  intro outs
  have ho : outs = _ := C43_stream s hs rows columns f hf hR hC t n
  have hc := hs.c
  have hr := hs.r
  constructor
  · intro hn
    have hpos : (i / s.C * s.C + s.C) % s.C = 0 ∧ 0 < i / s.C * s.C + s.C := ⟨by simp, by omega⟩
    have hp : s.rowParity (i / s.C * s.C + s.C) = [.row (s.parity true ((s.rowCount (i / s.C * s.C + s.C) + 1) % 65536) (i / s.C * s.C) 1 s.C)] := by
      rw [FecSess.rowParity, if_pos hpos, Nat.add_sub_cancel]
    refine ⟨s.parity true ((s.rowCount (i / s.C * s.C + s.C) + 1) % 65536) (i / s.C * s.C) 1 s.C, ?_, ?_⟩
    · rw [ho]
      refine List.mem_flatMap.mpr ⟨i / s.C * s.C + s.C, List.mem_range.mpr hn, ?_⟩
      rw [hp]
      exact List.mem_cons_of_mem _ (List.mem_append_left _ (List.mem_cons_self ..))
    · have := parity_protects hs true ((s.rowCount (i / s.C * s.C + s.C) + 1) % 65536) (i / s.C * s.C) 1 s.C n (by decide)
        (by omega) (by omega)
      simpa using this
  · intro hn
    have hN : 0 < s.R * s.C := Nat.mul_pos (by omega) hc.1
    generalize hb : i / (s.R * s.C) = b at hn ⊢
    have hm : i % s.C < s.C := Nat.mod_lt _ hc.1
    generalize i % s.C = c at hm ⊢
    have e0 : s.R * s.C = (s.R - 1) * s.C + s.C := by
      have : s.R = (s.R - 1) + 1 := by omega
      rw [this, Nat.succ_mul]; rfl
    generalize hq : (s.R - 1) * s.C = q at *
    have hx : b * (s.R * s.C) + q + c = s.C * (s.R * b + (s.R - 1)) + c := by
      rw [Nat.mul_add, ← hq, Nat.mul_comm s.C (s.R - 1), ← Nat.mul_assoc, Nat.mul_comm b, Nat.mul_comm s.C (s.R * b)]
    have hcond : (b * (s.R * s.C) + q + c) / s.C % s.R = s.R - 1 := by
      rw [hx, Nat.mul_add_div hc.1, Nat.div_eq_of_lt hm, Nat.add_zero, Nat.mul_add_mod, Nat.mod_eq_of_lt (by omega)]
    have hp : s.colParity (b * (s.R * s.C) + q + c) =
        [.col (s.parity false ((s.colCount (b * (s.R * s.C) + q + c) + 1) % 65536) (b * (s.R * s.C) + c) s.C s.R)] := by
      rw [FecSess.colParity, if_pos hcond, hq, show b * (s.R * s.C) + q + c - q = b * (s.R * s.C) + c by omega]
    refine ⟨s.parity false ((s.colCount (b * (s.R * s.C) + q + c) + 1) % 65536) (b * (s.R * s.C) + c) s.C s.R, ?_, ?_⟩
    · rw [ho]
      refine List.mem_flatMap.mpr ⟨b * (s.R * s.C) + q + c, List.mem_range.mpr (by omega), ?_⟩
      rw [hp]
      exact List.mem_cons_of_mem _ (List.mem_append_right _ (List.mem_cons_self ..))
    · have := parity_protects hs false ((s.colCount (b * (s.R * s.C) + q + c) + 1) % 65536) (b * (s.R * s.C) + c) s.C s.R n (by omega)
        (by omega) (by rw [hq]; omega)
      have e : ((List.range s.R).map fun j => b * (s.R * s.C) + j * s.C + c) = ((List.range s.R).map fun j => b * (s.R * s.C) + c + j * s.C) :=
        List.map_congr_left fun j _ => by omega
      rw [e]
      exact this

/-- The settings accepted are those of the standard: 4 to 20 rows, 1 to 20 columns, at most 100 packets. -/
theorem C43_settings (rows columns : UInt8) : (configureFEC rows columns).isSome ↔
    (4 ≤ rows.toNat ∧ rows.toNat ≤ 20) ∧ (1 ≤ columns.toNat ∧ columns.toNat ≤ 20) ∧ rows.toNat * columns.toNat ≤ 100 := by
  unfold configureFEC
  have h1 : (rows < 4 ∨ rows > 20) ↔ ¬ (4 ≤ rows.toNat ∧ rows.toNat ≤ 20) := by
    have : ∀ r : UInt8, (r < 4 ∨ r > 20) ↔ ¬ (4 ≤ r.toNat ∧ r.toNat ≤ 20) := by decide +kernel
    exact this rows
  have h2 : (columns < 1 ∨ columns > 20) ↔ ¬ (1 ≤ columns.toNat ∧ columns.toNat ≤ 20) := by
    have : ∀ r : UInt8, (r < 1 ∨ r > 20) ↔ ¬ (1 ≤ r.toNat ∧ r.toNat ≤ 20) := by decide +kernel
    exact this columns
  by_cases a : 4 ≤ rows.toNat ∧ rows.toNat ≤ 20
  · rw [if_neg (by rw [h1]; exact not_not_intro a)]
    by_cases b : 1 ≤ columns.toNat ∧ columns.toNat ≤ 20
    · rw [if_neg (by rw [h2]; exact not_not_intro b)]
      by_cases c : rows.toNat * columns.toNat ≤ 100
      · rw [if_neg (by omega)]; simp [a, b, c]
      · rw [if_pos (by omega)]; simp [c]
    · rw [if_pos (h2.mpr b)]; simp [b]
  · rw [if_pos (h1.mpr a)]; simp [a]

/-- Non-vacuity: the default matrix of 8 rows and 4 columns over seven transport packets at a time, with sequence numbers
about to wrap. -/
example : ∃ (s : FecSess) (f : Fec), s.Ok ∧ configureFEC 8 4 = some f ∧ s.R = (8 : UInt8).toNat ∧ s.C = (4 : UInt8).toNat ∧ s.L = 1316 :=
  ⟨{ pk := fun i => (List.replicate 1316 (UInt8.ofNat i), 3600 * i), R := 8, C := 4, L := 1316, marker := false, pt := 33, seq0 := 65530, ssrc := 5 },
    _, ⟨by decide, by decide, by decide, by decide, fun i => List.length_replicate⟩, rfl, rfl, rfl, rfl⟩

/-- **C43 needs packets of one size.** A packet of another size takes a sequence number but is left out of the parity
(rtp.cpp 194-197), so that the parity packet of its row names a packet it does not contain and omits one
it does. Here the second of four packets is longer. -/
theorem C43_size_fails : ∃ f, configureFEC 4 2 = some f ∧
    ∃ p, .row p ∈ (fecRun (hdr false 33 0 0 9, f) [([1], 0), ([2, 2], 0), ([3], 0), ([4], 0)]).2 ∧
      protectedSeqs p = [0, 1] ∧
      parityBits p = xorAll [mediaBits (hdr false 33 0 0 9 ++ [1]), mediaBits (hdr false 33 2 0 9 ++ [3])] := by
  refine ⟨_, rfl, ([128, 96, 0, 1, 0, 0, 0, 0, 0, 0, 0, 0, 0, 0, 0, 0, 128, 0, 0, 0, 0, 0, 0, 0, 64, 1, 2, 0, 2] : Bytes), ?_, ?_, ?_⟩
  · decide +kernel
  · decide +kernel
  · decide +kernel

end Verif.Rtp
