import Verif.Rtmp.Spec

/-!
# C18: RTMP chunking
-/
namespace Verif.Rtmp
open Verif.Bit Verif.Ebml

/-! ## Headers -/

theorem get24_htob (v : Nat) (y : Bytes) (h : v < 2 ^ 24) : get24 (htob .b24 v ++ y) = v := by
  unfold get24
  rw [htob_be .b24 rfl, btoh_be .b24 rfl, Option.getD_some]
  exact Nat.mod_eq_of_lt (by simpa [Codec.width] using h)

theorem htob_b24_length (v : Nat) : (htob .b24 v).length = 3 := by rw [htob_be .b24 rfl]; simp [Codec.width]

theorem btoh_l_le (v : Nat) (h : v < 2 ^ 32) (y : Bytes) : btoh .l_le (leEnc 4 v ++ y) = some v := by
  rw [btoh_eq .l_le (leEnc 4 v) y (by simp [Codec.width])]
  simp only [Codec.big, Bool.false_eq_true, if_false]
  exact congrArg some (by rw [leVal_leEnc]; exact Nat.mod_eq_of_lt (by simpa using h))

def cap (t : Nat) : Nat := if t ≥ 0xffffff then 0xffffff else t

theorem cap_lt (t : Nat) : cap t < 2 ^ 24 := by unfold cap; split <;> omega

theorem extOf_cap (t : Nat) : extOf (cap t) t = if t ≥ 0xffffff then htob .l t else [] := by
  unfold extOf cap
  by_cases h : t ≥ 0xffffff
  · rw [if_pos h, if_pos rfl, if_pos h]
  · rw [if_neg h, if_neg (by omega), if_neg h]

/-- The full header. -/
def head0 (m : Msg) : Bytes :=
  htob .b24 (cap m.timestamp) ++ (htob .b24 m.data.length ++ ([UInt8.ofNat m.mtype] ++ leEnc 4 m.mstream))

def head40 (d : Nat) (m : Msg) : Bytes := htob .b24 d ++ (htob .b24 m.data.length ++ [UInt8.ofNat m.mtype])

theorem head0_length (m : Msg) : (head0 m).length = 11 := by simp [head0, htob_b24_length]

theorem drop_left' (a b : Bytes) (n : Nat) (h : a.length = n) : (a ++ b).drop n = b := by
  rw [← h, List.drop_left]

theorem read0 (m : Msg) (hm : m.plain) (prev : Prev) (y : Bytes) :
    readHdr 0x00 prev (head0 m ++ y) = some ⟨cap m.timestamp, cap m.timestamp, cap m.timestamp, m.data.length, 0, m.mtype, m.mstream, 11⟩ := by
  obtain ⟨-, -, h3, h4, h5, h6⟩ := hm
  unfold readHdr
  rw [if_pos rfl, if_neg (by simp [head0_length])]
  have e : head0 m ++ y = htob .b24 (cap m.timestamp) ++ (htob .b24 m.data.length ++ ([UInt8.ofNat m.mtype] ++ (leEnc 4 m.mstream ++ y))) := by
    simp [head0]
  have e3 : (head0 m ++ y).drop 3 = htob .b24 m.data.length ++ ([UInt8.ofNat m.mtype] ++ (leEnc 4 m.mstream ++ y)) := by
    rw [e, drop_left' _ _ 3 (htob_b24_length _)]
  have e6 : (head0 m ++ y).drop 6 = [UInt8.ofNat m.mtype] ++ (leEnc 4 m.mstream ++ y) := by
    rw [show 6 = 3 + 3 from rfl, ← List.drop_drop, e3, drop_left' _ _ 3 (htob_b24_length _)]
  have e7 : (head0 m ++ y).drop 7 = leEnc 4 m.mstream ++ y := by
    rw [show 7 = 6 + 1 from rfl, ← List.drop_drop, e6]; rfl
  have eg : (head0 m ++ y).getD 6 0 = UInt8.ofNat m.mtype := by
    have := List.getElem?_drop (xs := head0 m ++ y) (i := 6) (j := 0)
    rw [e6] at this
    simp only [Nat.add_zero] at this
    rw [List.getD_eq_getElem?_getD, ← this]; rfl
  rw [e3, e7, eg, get24_htob _ _ h4, e, get24_htob _ _ (cap_lt _), btoh_l_le _ h6, u8n, Nat.mod_eq_of_lt h5]
  rfl

theorem read40 (d : Nat) (m : Msg) (hm : m.plain) (hd : d < 0xffffff) (prev : Prev) (y : Bytes) (ht : prev.timestamp + d < 2 ^ 31) :
    readHdr 0x40 prev (head40 d m ++ y) = some ⟨prev.timestamp + d, d, d, m.data.length, 0, m.mtype, prev.mstream, 7⟩ := by
  obtain ⟨-, -, h3, h4, h5, h6⟩ := hm
  unfold readHdr
  rw [if_neg (by decide), if_pos rfl, if_neg (by simp [head40, htob_b24_length]; omega)]
  have e : head40 d m ++ y = htob .b24 d ++ (htob .b24 m.data.length ++ ([UInt8.ofNat m.mtype] ++ y)) := by simp [head40]
  have e3 : (head40 d m ++ y).drop 3 = htob .b24 m.data.length ++ ([UInt8.ofNat m.mtype] ++ y) := by
    rw [e, drop_left' _ _ 3 (htob_b24_length _)]
  have e6 : (head40 d m ++ y).drop 6 = [UInt8.ofNat m.mtype] ++ y := by
    rw [show 6 = 3 + 3 from rfl, ← List.drop_drop, e3, drop_left' _ _ 3 (htob_b24_length _)]
  have eg : (head40 d m ++ y).getD 6 0 = UInt8.ofNat m.mtype := by
    have := List.getElem?_drop (xs := head40 d m ++ y) (i := 6) (j := 0)
    rw [e6] at this
    simp only [Nat.add_zero] at this
    rw [List.getD_eq_getElem?_getD, ← this]; rfl
  rw [e3, eg, get24_htob _ _ h4, e, get24_htob _ _ (by omega), u8n, Nat.mod_eq_of_lt h5, Nat.mod_eq_of_lt (by omega)]

theorem read80 (d : Nat) (hd : d < 0xffffff) (prev : Prev) (y : Bytes) (ht : prev.timestamp + d < 2 ^ 31) :
    readHdr 0x80 prev (htob .b24 d ++ y) = some ⟨prev.timestamp + d, d, d, prev.len, prev.lenLeft, prev.mtype, prev.mstream, 3⟩ := by
  unfold readHdr
  rw [if_neg (by decide), if_neg (by decide), if_pos rfl, if_neg (by simp [htob_b24_length])]
  rw [get24_htob _ _ (by omega), Nat.mod_eq_of_lt (by omega)]

/-! ## One message -/

/-- The reader's memory agrees with the message just read. -/
def After (r : Prev) (m : Msg) : Prop :=
  r.timestamp = m.timestamp ∧ r.len = m.data.length ∧ r.mtype = m.mtype ∧ r.mstream = m.mstream ∧ r.lenLeft = 0

variable {onMsg : Nat → Msg → Nat} {last : Nat → Prev}

/-- What it means that bytes carry message `m` on top of memory `last`. -/
def Carries (onMsg : Nat → Msg → Nat) (c : Nat) (last : Nat → Prev) (bs : Bytes) (m : Msg) (p' : Prev) (rest : Bytes) : Prop :=
  drain onMsg c last (bs ++ rest) =
    (m :: (drain onMsg (onMsg c m) (update last m.cs p') rest).1, (drain onMsg (onMsg c m) (update last m.cs p') rest).2)

theorem carry0 {c : Nat} {m : Msg} (hc : 1 ≤ c) (hm : m.plain) (hidle : (last m.cs).lenLeft = 0) {rest : Bytes} (hr : 2 ≤ rest.length) :
    ∃ p', After p' m ∧ p'.tsHeader = cap m.timestamp ∧ (p'.tsHeader ≠ 0xffffff → p'.tsDelta = m.timestamp) ∧
      Carries onMsg c last (basicOut 0x00 m.cs ++ (head0 m ++ extOf (cap m.timestamp) m.timestamp) ++
        body c (basicOut 0xC0 m.cs ++ extOf (cap m.timestamp) m.timestamp) m.data) m p' rest := by
  have hm' := hm
  obtain ⟨h1, h2, h3, h4, h5, h6⟩ := hm'
  by_cases hx : cap m.timestamp = 0xffffff
  · have hext : extOf (cap m.timestamp) m.timestamp = htob .l m.timestamp := by unfold extOf; rw [if_pos hx]
    obtain ⟨p', a1, a2, a3, a4, a5, a6, -, a8⟩ := drain_message (onMsg := onMsg) (last := last) (c := c) (ct := 0x00) (cs := m.cs)
      (M := head0 m ++ htob .l m.timestamp) (data := m.data) (rest := rest)
      (h := ⟨cap m.timestamp, cap m.timestamp, cap m.timestamp, m.data.length, 0, m.mtype, m.mstream, 11⟩)
      (h' := ⟨m.timestamp, m.timestamp, cap m.timestamp, m.data.length, 0, m.mtype, m.mstream, 15⟩)
      hc (by simp [chunkType]) h1 h2 (by simp [head0_length, htob_l_length])
      (fun y => by rw [List.append_assoc]; exact read0 m hm _ _)
      (fun y => by
        have := readExt_some (prev := last m.cs) (h := ⟨cap m.timestamp, cap m.timestamp, cap m.timestamp, m.data.length, 0, m.mtype, m.mstream, 11⟩)
          (M := head0 m) (y := y) hx (by simp [head0_length]) h3
        exact this)
      (by simp [head0_length, htob_l_length]) h3 rfl rfl hidle hr
    refine ⟨p', ⟨a1, a3, a5, a6, a4⟩, a2, fun h => absurd (a2.trans hx) h, ?_⟩
    unfold Carries
    simp only [hext] at a8 ⊢
    exact a8
  · have hext : extOf (cap m.timestamp) m.timestamp = [] := by unfold extOf; rw [if_neg hx]
    have hcap : cap m.timestamp = m.timestamp := by unfold cap at hx ⊢; split at hx <;> (first | (exact absurd rfl hx) | (rw [if_neg (by assumption)]))
    obtain ⟨p', a1, a2, a3, a4, a5, a6, a7, a8⟩ := drain_message (onMsg := onMsg) (last := last) (c := c) (ct := 0x00) (cs := m.cs)
      (M := head0 m) (data := m.data) (rest := rest)
      (h := ⟨cap m.timestamp, cap m.timestamp, cap m.timestamp, m.data.length, 0, m.mtype, m.mstream, 11⟩)
      (h' := ⟨cap m.timestamp, cap m.timestamp, cap m.timestamp, m.data.length, 0, m.mtype, m.mstream, 11⟩)
      hc (by simp [chunkType]) h1 h2 (by simp [head0_length]) (fun y => read0 m hm _ _) (fun y => readExt_none hx _)
      (by simp [head0_length]) (by simp only; omega) rfl rfl hidle hr
    simp only at a1 a2 a3 a4 a5 a6 a7 a8
    refine ⟨p', ⟨a1.trans hcap, a3, a5, a6, a4⟩, a2, fun _ => (a7 hx).trans hcap, ?_⟩
    unfold Carries
    rw [hext, List.append_nil, List.append_nil]
    rw [hcap] at a8
    have hext' : extOf m.timestamp m.timestamp = [] := by rw [← hext, hcap]
    rw [hext', List.append_nil] at a8
    exact a8

/-- A header with a short time difference. -/
theorem carryDiff {c : Nat} {m : Msg} {ct : Nat} {M : Bytes} (hc : 1 ≤ c) (hm : m.plain) (hidle : (last m.cs).lenLeft = 0)
    (hord : (last m.cs).timestamp ≤ m.timestamp) (hgap : m.timestamp < (last m.cs).timestamp + 0xffffff) (hstream : (last m.cs).mstream = m.mstream)
    (hform : (ct = 0x40 ∧ M = head40 (m.timestamp - (last m.cs).timestamp) m) ∨
      (ct = 0x80 ∧ M = htob .b24 (m.timestamp - (last m.cs).timestamp) ∧ (last m.cs).len = m.data.length ∧ (last m.cs).mtype = m.mtype))
    {rest : Bytes} (hr : 2 ≤ rest.length) :
    ∃ p', After p' m ∧ p'.tsHeader = m.timestamp - (last m.cs).timestamp ∧ p'.tsDelta = m.timestamp - (last m.cs).timestamp ∧
      Carries onMsg c last (basicOut ct m.cs ++ M ++ body c (basicOut 0xC0 m.cs) m.data) m p' rest := by
  have hm' := hm
  obtain ⟨h1, h2, h3, h4, h5, h6⟩ := hm'
  have hsum : (last m.cs).timestamp + (m.timestamp - (last m.cs).timestamp) = m.timestamp := by omega
  have hne : m.timestamp - (last m.cs).timestamp ≠ 0xffffff := by omega
  have hread : ∀ y, readHdr ct (last m.cs) (M ++ y) = some ⟨m.timestamp, m.timestamp - (last m.cs).timestamp, m.timestamp - (last m.cs).timestamp,
      m.data.length, 0, m.mtype, m.mstream, M.length⟩ := by
    intro y
    rcases hform with ⟨rfl, rfl⟩ | ⟨rfl, rfl, e1, e2⟩
    · rw [read40 _ m hm (by omega) _ _ (by omega), hsum, hstream]
      simp [head40, htob_b24_length]
    · rw [read80 _ (by omega) _ _ (by omega), hsum, hstream, e1, e2, hidle, htob_b24_length]
  have hlenM : M.length ≤ 15 := by
    rcases hform with ⟨rfl, rfl⟩ | ⟨rfl, rfl, e1, e2⟩ <;> simp [head40, htob_b24_length]
  obtain ⟨p', a1, a2, a3, a4, a5, a6, a7, a8⟩ := drain_message (onMsg := onMsg) (last := last) (c := c) (ct := ct) (cs := m.cs)
    (M := M) (data := m.data) (rest := rest) hc (by rcases hform with ⟨rfl, _⟩ | ⟨rfl, _⟩ <;> simp [chunkType]) h1 h2 hlenM hread (fun y => readExt_none hne _)
    rfl h3 rfl rfl hidle hr
  simp only at a1 a2 a3 a4 a5 a6 a7 a8
  refine ⟨p', ⟨a1, a3, a5, a6, a4⟩, a2, a7 hne, ?_⟩
  unfold Carries
  have hext : extOf (m.timestamp - (last m.cs).timestamp) m.timestamp = [] := by unfold extOf; rw [if_neg hne]
  rw [hext, List.append_nil] at a8
  exact a8

/-- No header at all. -/
theorem carryC0 {c : Nat} {m : Msg} (hc : 1 ≤ c) (hm : m.plain) (hidle : (last m.cs).lenLeft = 0)
    (hstream : (last m.cs).mstream = m.mstream) (hlen : (last m.cs).len = m.data.length) (htype : (last m.cs).mtype = m.mtype)
    (htime : (last m.cs).tsHeader ≠ 0xffffff → m.timestamp = (last m.cs).timestamp + (last m.cs).tsDelta)
    {rest : Bytes} (hr : 2 ≤ rest.length) :
    ∃ p', After p' m ∧ p'.tsHeader = (last m.cs).tsHeader ∧ (p'.tsHeader ≠ 0xffffff → p'.tsDelta = (last m.cs).tsDelta) ∧
      Carries onMsg c last (basicOut 0xC0 m.cs ++ extOf (last m.cs).tsHeader m.timestamp ++
        body c (basicOut 0xC0 m.cs ++ extOf (last m.cs).tsHeader m.timestamp) m.data) m p' rest := by
  have hm' := hm
  obtain ⟨h1, h2, h3, h4, h5, h6⟩ := hm'
  by_cases hx : (last m.cs).tsHeader = 0xffffff
  · have hext : extOf (last m.cs).tsHeader m.timestamp = htob .l m.timestamp := by unfold extOf; rw [if_pos hx]
    obtain ⟨p', a1, a2, a3, a4, a5, a6, -, a8⟩ := drain_message (onMsg := onMsg) (last := last) (c := c) (ct := 0xC0) (cs := m.cs)
      (M := htob .l m.timestamp) (data := m.data) (rest := rest)
      (h' := ⟨m.timestamp, m.timestamp, (last m.cs).tsHeader, m.data.length, 0, m.mtype, m.mstream, 4⟩)
      hc (by simp [chunkType]) h1 h2 (by simp [htob_l_length])
      (fun y => rfl)
      (fun y => by
        have := readExt_some (prev := last m.cs) (h := ⟨if (last m.cs).lenLeft > 0 then (last m.cs).timestamp else ((last m.cs).timestamp + (last m.cs).tsDelta) % 2 ^ 64, (last m.cs).tsDelta, (last m.cs).tsHeader,
            (last m.cs).len, (last m.cs).lenLeft, (last m.cs).mtype, (last m.cs).mstream, 0⟩)
          (M := []) (y := y) hx rfl h3
        rw [List.nil_append] at this
        rw [this, hlen, hidle, htype, hstream])
      (by simp [htob_l_length]) h3 rfl rfl hidle hr
    simp only at a1 a2 a3 a4 a5 a6 a8
    refine ⟨p', ⟨a1, a3, a5, a6, a4⟩, a2, fun h => absurd (a2.trans hx) h, ?_⟩
    unfold Carries
    rw [hext] at a8 ⊢
    exact a8
  · have hext : extOf (last m.cs).tsHeader m.timestamp = [] := by unfold extOf; rw [if_neg hx]
    obtain ⟨p', a1, a2, a3, a4, a5, a6, a7, a8⟩ := drain_message (onMsg := onMsg) (last := last) (c := c) (ct := 0xC0) (cs := m.cs)
      (M := []) (data := m.data) (rest := rest)
      (h' := ⟨m.timestamp, (last m.cs).tsDelta, (last m.cs).tsHeader, m.data.length, 0, m.mtype, m.mstream, 0⟩)
      hc (by simp [chunkType]) h1 h2 (by simp)
      (fun y => rfl)
      (fun y => by
        rw [readExt_none hx, ← htime hx, hidle, if_neg (by omega), hlen, htype, hstream, Nat.mod_eq_of_lt (by omega)])
      rfl h3 rfl rfl hidle hr
    simp only at a1 a2 a3 a4 a5 a6 a7 a8
    refine ⟨p', ⟨a1, a3, a5, a6, a4⟩, a2, fun h => a7 (by rwa [a2] at h), ?_⟩
    unfold Carries
    rw [hext, List.append_nil] at a8 ⊢
    exact a8

/-! ## `Chunk::Pack` -/

theorem chooseType_cases (prev : Option Prev) (m : Msg) :
    chooseType prev m = 0x00 ∨ ∃ p, prev = some p ∧ p.timestamp ≤ m.timestamp ∧ m.mstream = p.mstream ∧
      (chooseType prev m = 0x40 ∨ (m.data.length = p.len ∧ m.mtype = p.mtype ∧
        (chooseType prev m = 0x80 ∨ (chooseType prev m = 0xC0 ∧ m.timestamp - p.timestamp = p.tsDelta)))) := by
  cases prev with
  | none => exact Or.inl rfl
  | some p =>
    simp only [chooseType]
    by_cases h1 : m.timestamp < p.timestamp
    · left; rw [if_pos h1]
    · by_cases h2 : m.mstream = p.mstream
      · right
        refine ⟨p, rfl, by omega, h2, ?_⟩
        rw [if_neg h1, if_pos h2]
        by_cases h3 : m.data.length = p.len
        · by_cases h4 : m.mtype = p.mtype
          · right
            refine ⟨h3, h4, ?_⟩
            rw [if_pos h3, if_pos h4]
            by_cases h5 : m.timestamp - p.timestamp = p.tsDelta
            · right; exact ⟨by rw [if_pos h5], h5⟩
            · left; rw [if_neg h5]
          · left; rw [if_pos h3, if_neg h4]
        · left; rw [if_neg h3]
      · left; rw [if_neg h1, if_neg h2]

/-- Entry `p` of the sender matches entry `r` of the receiver. -/
def Match (p r : Prev) : Prop :=
  p.timestamp = r.timestamp ∧ p.len = r.len ∧ p.mtype = r.mtype ∧ p.mstream = r.mstream

/-- … including what is needed to leave out the time. -/
def Timed (p r : Prev) : Prop :=
  p.tsHeader = r.tsHeader ∧ (p.tsHeader ≠ 0xffffff → p.tsDelta = r.tsDelta) ∧ (p.tsHeader = 0xffffff → 0 < p.timestamp)

theorem ext32_zero : ext32 0 = [] := rfl
theorem ext32_pos {n : Nat} (h : 0 < n) : ext32 n = htob .l n := by unfold ext32; rw [if_pos (by omega)]

theorem pack_carries {c stale : Nat} {prev : Option Prev} {m : Msg} (hc : 1 ≤ c) (hm : m.plain) (hidle : (last m.cs).lenLeft = 0)
    (hl : ∀ p, prev = some p → Match p (last m.cs) ∧ Timed p (last m.cs) ∧ stale = p.tsDelta ∧ m.timestamp < p.timestamp + 0xffffff)
    {rest : Bytes} (hr : 2 ≤ rest.length) :
    ∃ p', After p' m ∧ Match (pack c prev stale m).2 p' ∧ Timed (pack c prev stale m).2 p' ∧
      Carries onMsg c last (pack c prev stale m).1 m p' rest := by
  have hm' := hm
  obtain ⟨h1, h2, h3, h4, h5, h6⟩ := hm'
  rcases chooseType_cases prev m with h0 | ⟨p, hp, hord, hst, hcase⟩
  · obtain ⟨p', a, a1, a2, a3⟩ := carry0 (onMsg := onMsg) (last := last) hc hm hidle hr
    have e : (pack c prev stale m) = (basicOut 0x00 m.cs ++ (head0 m ++ extOf (cap m.timestamp) m.timestamp) ++
        body c (basicOut 0xC0 m.cs ++ extOf (cap m.timestamp) m.timestamp) m.data,
        ⟨m.timestamp, m.timestamp % 2 ^ 32, cap m.timestamp, m.data.length, m.data.length, m.mtype, m.mstream, m.data⟩) := by
      unfold pack
      rw [h0, extOf_cap]
      simp only [if_true, show (0 : Nat) ≠ 0xC0 by decide, show (0 : Nat) ≠ 0x80 by decide, show (0 : Nat) ≠ 0x40 by decide, ne_eq, not_false_eq_true, if_false]
      by_cases hx : m.timestamp ≥ 0xffffff
      · simp only [if_pos hx, ext32_pos (show 0 < m.timestamp by omega), head0, cap, List.append_assoc]
      · simp only [if_neg hx, ext32_zero, head0, cap, List.append_assoc]
    rw [e]
    refine ⟨p', a, ⟨a.1.symm, a.2.1.symm, a.2.2.1.symm, a.2.2.2.1.symm⟩, ⟨a1.symm, ?_, ?_⟩, a3⟩
    · intro hx
      rw [a2 (by rw [a1]; exact hx)]
      exact Nat.mod_eq_of_lt (by omega)
    · simp only
      intro hx
      unfold cap at hx
      split at hx <;> omega
  · obtain ⟨⟨b1, b2, b3, b4⟩, ⟨b5, b6, b7⟩, b8, b9⟩ := hl p hp
    subst hp
    by_cases hC0 : chooseType (some p) m = 0xC0
    · have hcase' : m.data.length = p.len ∧ m.mtype = p.mtype ∧ m.timestamp - p.timestamp = p.tsDelta := by
        rcases hcase with h | ⟨hb, hc', h | ⟨-, h⟩⟩
        · rw [hC0] at h; cases h
        · rw [hC0] at h; cases h
        · exact ⟨hb, hc', h⟩
      obtain ⟨d1, d2, d3⟩ := hcase'
      obtain ⟨p', a, a1, a2, a3⟩ := carryC0 (onMsg := onMsg) (last := last) hc hm hidle (by rw [← b4, hst]) (by rw [← b2, d1]) (by rw [← b3, d2])
        (fun hx => by rw [← b1, ← b6 (by rw [b5]; exact hx)]; omega) hr
      have e : (pack c (some p) stale m) = (basicOut 0xC0 m.cs ++ extOf (last m.cs).tsHeader m.timestamp ++
          body c (basicOut 0xC0 m.cs ++ extOf (last m.cs).tsHeader m.timestamp) m.data,
          ⟨m.timestamp, stale, p.tsHeader, m.data.length, m.data.length, m.mtype, m.mstream, m.data⟩) := by
        have hx : ext32 (if p.tsHeader = 0xffffff then m.timestamp else 0) = extOf (last m.cs).tsHeader m.timestamp := by
          rw [← b5]; unfold extOf
          by_cases hx : p.tsHeader = 0xffffff
          · rw [if_pos hx, if_pos hx, ext32_pos (by have := b7 hx; omega)]
          · rw [if_neg hx, if_neg hx, ext32_zero]
        unfold pack
        rw [hC0]
        simp only [Option.getD_some, if_true, show (0xC0 : Nat) ≠ 0 by decide, ne_eq, not_true_eq_false, if_false, List.nil_append, hx]
      rw [e]
      refine ⟨p', a, ⟨a.1.symm, a.2.1.symm, a.2.2.1.symm, a.2.2.2.1.symm⟩, ⟨by rw [a1, ← b5], ?_, ?_⟩, a3⟩
      · intro hx
        simp only at hx ⊢
        rw [a2 (by rw [a1, ← b5]; exact hx), ← b6 hx, b8]
      · intro hx
        simp only at hx ⊢
        have := b7 hx
        omega
    · have hform : ∃ M, ((chooseType (some p) m = 0x40 ∧ M = head40 (m.timestamp - (last m.cs).timestamp) m) ∨
          (chooseType (some p) m = 0x80 ∧ M = htob .b24 (m.timestamp - (last m.cs).timestamp) ∧ (last m.cs).len = m.data.length ∧ (last m.cs).mtype = m.mtype)) ∧
          (pack c (some p) stale m) = (basicOut (chooseType (some p) m) m.cs ++ M ++ body c (basicOut 0xC0 m.cs) m.data,
            ⟨m.timestamp, m.timestamp - p.timestamp, m.timestamp - p.timestamp, m.data.length, m.data.length, m.mtype, m.mstream, m.data⟩) := by
        have hlt : ¬ (m.timestamp - p.timestamp ≥ 0xffffff) := by omega
        have hmod : (m.timestamp - p.timestamp) % 2 ^ 32 = m.timestamp - p.timestamp := Nat.mod_eq_of_lt (by omega)
        rw [← b1]
        rcases hcase with h | ⟨hb, hc', h | ⟨h, -⟩⟩
        · refine ⟨_, Or.inl ⟨h, rfl⟩, ?_⟩
          unfold pack
          rw [h]
          simp only [Option.getD_some, show (0x40 : Nat) ≠ 0 by decide, show (0x40 : Nat) ≠ 0xC0 by decide, show (0x40 : Nat) ≠ 0x80 by decide, ne_eq, not_true_eq_false, not_false_eq_true, if_true, if_false,
            if_neg hlt, ext32_zero, List.append_nil, hmod, head40]
        · refine ⟨_, Or.inr ⟨h, rfl, by rw [← b2, hb], by rw [← b3, hc']⟩, ?_⟩
          unfold pack
          rw [h]
          simp only [Option.getD_some, show (0x80 : Nat) ≠ 0 by decide, show (0x80 : Nat) ≠ 0xC0 by decide, ne_eq, not_true_eq_false, not_false_eq_true, if_true, if_false,
            if_neg hlt, ext32_zero, List.append_nil, hmod]
        · exact absurd h hC0
      obtain ⟨M, hform, e⟩ := hform
      obtain ⟨p', a, a1, a2, a3⟩ := carryDiff (onMsg := onMsg) (last := last) hc hm hidle (by omega) (by omega) (by rw [← b4, hst]) hform hr
      rw [e]
      refine ⟨p', a, ⟨a.1.symm, a.2.1.symm, a.2.2.1.symm, a.2.2.2.1.symm⟩, ⟨by rw [a1, ← b1], fun _ => by rw [a2, ← b1], ?_⟩, a3⟩
      intro hx
      simp only at hx ⊢
      omega

/-! ## The media output -/

theorem sendNext_carries {c : Nat} {prev : Option Prev} {m : Msg} (hc : 1 ≤ c) (hm : m.plain) (hcs : m.cs = 4) (hms : m.mstream = 1) (hidle : (last 4).lenLeft = 0)
    (hl : ∀ p, prev = some p → Match p (last 4) ∧ m.timestamp < p.timestamp + 0xffffff ∧
      ¬(p.timestamp = m.timestamp ∧ p.mtype = m.mtype ∧ p.len = m.data.length)) {rest : Bytes} (hr : 2 ≤ rest.length) :
    ∃ p', After p' m ∧ Match (sendNext c prev m).2 p' ∧ Carries onMsg c last (sendNext c prev m).1 m p' rest := by
  have hm' := hm
  obtain ⟨h1, h2, h3, h4, h5, h6⟩ := hm'
  rw [← hcs] at hidle hl
  have hmatch : ∀ p', After p' m → Match (sendNext c prev m).2 p' := by
    intro p' a
    exact ⟨a.1.symm, a.2.1.symm, a.2.2.1.symm, by rw [a.2.2.2.1, hms]; rfl⟩
  by_cases h0 : mediaType prev m = 0x00
  · obtain ⟨p', a, -, -, a3⟩ := carry0 (onMsg := onMsg) (last := last) hc hm hidle hr
    refine ⟨p', a, hmatch p' a, ?_⟩
    have e : (sendNext c prev m).1 = basicOut 0x00 m.cs ++ (head0 m ++ extOf (cap m.timestamp) m.timestamp) ++
        body c (basicOut 0xC0 m.cs ++ extOf (cap m.timestamp) m.timestamp) m.data := by
      unfold sendNext
      rw [h0, extOf_cap, hcs]
      simp only [if_true, show (0 : Nat) ≠ 0xC0 by decide, show (0 : Nat) ≠ 0x80 by decide, show (0 : Nat) ≠ 0x40 by decide, ne_eq, not_false_eq_true]
      simp only [head0, cap, List.append_assoc, hms]
    rw [e]; exact a3
  · cases prev with
    | none => exact absurd rfl h0
    | some p =>
      obtain ⟨⟨b1, b2, b3, b4⟩, b9, b10⟩ := hl p rfl
      have hms' : p.mstream = 1 := by
        refine Decidable.byContradiction fun hh => h0 ?_
        simp only [mediaType]; rw [if_neg hh]
      have hord : p.timestamp ≤ m.timestamp := by
        refine Nat.le_of_not_lt fun hh => h0 ?_
        simp only [mediaType]; rw [if_pos hms', if_pos hh]
      have hlt : ¬ (m.timestamp - p.timestamp ≥ 0xffffff) := by omega
      have hform : ∃ M, ((mediaType (some p) m = 0x40 ∧ M = head40 (m.timestamp - (last m.cs).timestamp) m) ∨
          (mediaType (some p) m = 0x80 ∧ M = htob .b24 (m.timestamp - (last m.cs).timestamp) ∧ (last m.cs).len = m.data.length ∧ (last m.cs).mtype = m.mtype)) ∧
          (sendNext c (some p) m).1 = basicOut (mediaType (some p) m) m.cs ++ M ++ body c (basicOut 0xC0 m.cs) m.data := by
        rw [← b1]
        by_cases hsame : m.data.length = p.len ∧ m.mtype = p.mtype
        · have ht : m.timestamp ≠ p.timestamp := fun hh => b10 ⟨hh.symm, hsame.2.symm, hsame.1.symm⟩
          have h : mediaType (some p) m = 0x80 := by
            simp only [mediaType]; rw [if_pos hms', if_neg (by omega), if_pos hsame, if_neg ht]
          refine ⟨_, Or.inr ⟨h, rfl, by rw [← b2, hsame.1], by rw [← b3, hsame.2]⟩, ?_⟩
          unfold sendNext
          rw [h, hcs]
          simp only [Option.getD_some, show (0x80 : Nat) ≠ 0 by decide, show (0x80 : Nat) ≠ 0xC0 by decide, ne_eq, not_true_eq_false, not_false_eq_true, if_true, if_false,
            if_neg hlt, List.append_nil]
        · have h : mediaType (some p) m = 0x40 := by
            simp only [mediaType]; rw [if_pos hms', if_neg (by omega), if_neg hsame]
          refine ⟨_, Or.inl ⟨h, rfl⟩, ?_⟩
          unfold sendNext
          rw [h, hcs]
          simp only [Option.getD_some, show (0x40 : Nat) ≠ 0 by decide, show (0x40 : Nat) ≠ 0xC0 by decide, show (0x40 : Nat) ≠ 0x80 by decide, ne_eq, not_true_eq_false, not_false_eq_true, if_true, if_false,
            if_neg hlt, List.append_nil, head40]
      obtain ⟨M, hform, e⟩ := hform
      obtain ⟨p', a, a1, a2, a3⟩ := carryDiff (onMsg := onMsg) (last := last) hc hm hidle (by omega) (by omega) (by rw [← b4, hms', hms]) hform hr
      refine ⟨p', a, hmatch p' a, ?_⟩
      rw [e]; exact a3

/-! ## Sessions -/

/-- Sender, receiver and history agree. -/
def Linked (seen : Nat → Option Msg) (started : Bool) (w : Sender) (last : Nat → Prev) : Prop :=
  ∀ cs, (last cs).lenLeft = 0 ∧ ∀ p, w.snd cs = some p → Match p (last cs) ∧ (∃ m, seen cs = some m ∧ After (last cs) m) ∧
    (¬(started = true ∧ cs = 4) → Timed p (last cs) ∧ w.obj cs = p.tsDelta)

theorem session_drains {items : List Item} {c : Nat} {seen : Nat → Option Msg} {started : Bool} {w : Sender} (hon : ∀ c m, 1 ≤ c → 1 ≤ onMsg c m)
    (hc : 1 ≤ c) (hlink : Linked seen started w last) (hs : session seen started items) {rest : Bytes} (hr : 2 ≤ rest.length) :
    ∃ c' last', (drain onMsg c last (sendAll onMsg c w items ++ rest)) =
      (items.map Item.msg ++ (drain onMsg c' last' rest).1, (drain onMsg c' last' rest).2) := by
  induction items generalizing c seen started w last with
  | nil => exact ⟨c, last, rfl⟩
  | cons it l ih =>
    have hr' : ∀ (c : Nat) (w : Sender), 2 ≤ (sendAll onMsg c w l ++ rest).length := fun c w => by simp; omega
    cases it with
    | command erase m =>
      obtain ⟨hm, hgap, h4, hs⟩ := hs
      obtain ⟨hidle, hsnd⟩ := hlink m.cs
      have hnt : ¬(started = true ∧ m.cs = 4) := fun h => h4 h.1 h.2
      obtain ⟨p', a, b1, b2, b3⟩ := pack_carries (onMsg := onMsg) (last := last) (stale := w.obj m.cs) (prev := if erase then none else w.snd m.cs) hc hm hidle
        (by
          intro p hp
          cases erase with
          | true => cases hp
          | false =>
            obtain ⟨e1, ⟨m0, e2, e3⟩, e4⟩ := hsnd p hp
            refine ⟨e1, (e4 hnt).1, (e4 hnt).2, ?_⟩
            rw [e1.1, e3.1]
            exact hgap rfl m0 e2)
        (hr' (onMsg c m) (sendItem c w (.command erase m)).2)
      have hlink' : Linked (see seen m) started (sendItem c w (.command erase m)).2 (update last m.cs p') := by
        intro cs
        by_cases hcs : cs = m.cs
        · subst hcs
          rw [update_self]
          refine ⟨a.2.2.2.2, fun p hp => ?_⟩
          have hp' : p = (pack c (if erase then none else w.snd m.cs) (w.obj m.cs) m).2 := by
            simp only [sendItem, setSnd, if_true, Option.some.injEq] at hp
            exact hp.symm
          subst hp'
          exact ⟨b1, ⟨m, by simp [see], a⟩, fun _ => ⟨b2, by simp [sendItem]⟩⟩
        · have hu : update last m.cs p' cs = last cs := by unfold update; rw [if_neg hcs]
          rw [hu]
          obtain ⟨e1, e2⟩ := hlink cs
          refine ⟨e1, fun p hp => ?_⟩
          simp only [sendItem, setSnd, if_neg hcs] at hp
          obtain ⟨f1, f2, f3⟩ := e2 p hp
          refine ⟨f1, by simpa only [see, if_neg hcs] using f2, fun hh => ⟨(f3 hh).1, ?_⟩⟩
          simp only [sendItem, if_neg hcs]
          exact (f3 hh).2
      obtain ⟨c', last', hd⟩ := ih (hon c m hc) hlink' hs
      refine ⟨c', last', ?_⟩
      unfold Carries at b3
      have e : sendAll onMsg c w (.command erase m :: l) ++ rest =
        (pack c (if erase then none else w.snd m.cs) (w.obj m.cs) m).1 ++ (sendAll onMsg (onMsg c m) (sendItem c w (.command erase m)).2 l ++ rest) := by
        simp only [sendAll, List.append_assoc, Item.msg]; rfl
      rw [e, b3, hd]
      rfl
    | media m =>
      obtain ⟨hm, hcs4, hms, hgap, hdup, hs⟩ := hs
      obtain ⟨hidle, hsnd⟩ := hlink 4
      obtain ⟨p', a, b1, b3⟩ := sendNext_carries (onMsg := onMsg) (last := last) (prev := w.snd 4) hc hm hcs4 hms hidle
        (by
          intro p hp
          obtain ⟨e1, ⟨m0, e2, e3⟩, e4⟩ := hsnd p hp
          refine ⟨e1, ?_, fun hh => hdup m0 e2 ?_⟩
          · rw [e1.1, e3.1]
            exact hgap m0 (by rw [hcs4]; exact e2)
          · rw [← e3.1, ← e3.2.1, ← e3.2.2.1, ← e1.1, ← e1.2.1, ← e1.2.2.1]; exact hh)
        (hr' (onMsg c m) (sendItem c w (.media m)).2)
      have hlink' : Linked (see seen m) true (sendItem c w (.media m)).2 (update last m.cs p') := by
        intro cs
        by_cases hcs : cs = m.cs
        · subst hcs
          rw [update_self]
          refine ⟨a.2.2.2.2, fun p hp => ?_⟩
          have hp' : p = (sendNext c (w.snd 4) m).2 := by
            rw [hcs4] at hp
            simp only [sendItem, setSnd, if_true, Option.some.injEq] at hp
            exact hp.symm
          subst hp'
          exact ⟨b1, ⟨m, by simp [see], a⟩, fun hh => absurd ⟨rfl, hcs4⟩ hh⟩
        · have hu : update last m.cs p' cs = last cs := by unfold update; rw [if_neg hcs]
          rw [hu]
          have hcs' : cs ≠ 4 := by omega
          obtain ⟨e1, e2⟩ := hlink cs
          refine ⟨e1, fun p hp => ?_⟩
          simp only [sendItem, setSnd, if_neg hcs'] at hp
          obtain ⟨f1, f2, f3⟩ := e2 p hp
          refine ⟨f1, by simpa only [see, if_neg hcs] using f2, fun hh => ?_⟩
          exact f3 (fun h => hcs' h.2)
      obtain ⟨c', last', hd⟩ := ih (hon c m hc) hlink' hs
      refine ⟨c', last', ?_⟩
      unfold Carries at b3
      have e : sendAll onMsg c w (.media m :: l) ++ rest =
        (sendNext c (w.snd 4) m).1 ++ (sendAll onMsg (onMsg c m) (sendItem c w (.media m)).2 l ++ rest) := by
        simp only [sendAll, List.append_assoc, Item.msg]; rfl
      rw [e, b3, hd]
      rfl

/-! ## The properties -/

/-- C18. However the bytes of a connection are cut into arrivals, whatever bytes they are: reading after
every arrival gives the messages (and leaves the state) that reading everything at once gives. -/
theorem C18_packetisation (onMsg : Nat → Msg → Nat) (recMax : Nat) (last : Nat → Prev) (pieces : List Bytes) :
    feed onMsg recMax last [] pieces = drain onMsg recMax last pieces.flatten := by
  suffices h : ∀ (recMax : Nat) (last : Nat → Prev) (buf : Bytes), drain onMsg recMax last buf = ([], recMax, last, buf) →
      feed onMsg recMax last buf pieces = drain onMsg recMax last (buf ++ pieces.flatten) by
    have := h recMax last [] (drain_wait (by simp [parseChunk]))
    simpa using this
  have stable : ∀ (q : Bytes) (recMax : Nat) (last : Nat → Prev),
      drain onMsg (drain onMsg recMax last q).2.1 (drain onMsg recMax last q).2.2.1 (drain onMsg recMax last q).2.2.2 =
        ([], (drain onMsg recMax last q).2.1, (drain onMsg recMax last q).2.2.1, (drain onMsg recMax last q).2.2.2) := by
    intro q
    induction hn : q.length using Nat.strongRecOn generalizing q with
    | ind n ih =>
      intro recMax last
      cases h : parseChunk recMax last q with
      | wait => rw [drain_wait h]; exact drain_wait h
      | got cs p m rest =>
        have hs := parseChunk_shrinks h
        cases m with
        | none => rw [drain_part h]; exact ih _ (by omega) _ rfl _ _
        | some m => rw [drain_msg h]; exact ih _ (by omega) _ rfl _ _
  induction pieces with
  | nil => intro recMax last buf hb; simp [feed, hb]
  | cons piece ps ih =>
    intro recMax last buf hb
    rw [List.flatten_cons, ← List.append_assoc, drain_append onMsg recMax last (buf ++ piece) ps.flatten]
    simp only [feed]
    rw [ih _ _ _ (stable (buf ++ piece) recMax last)]

/-- C18. Everything sent in a session, with media frames and commands interleaved on any chunk streams,
any payload sizes, and changes of the chunk size, is delivered complete, in order and unaltered
(chunk stream, time, type, message stream and payload), in whatever pieces the bytes arrive, as soon
as two more bytes have arrived. (Partial: the full claim has no restriction on times, no `session`
condition and no need for the two bytes; see the `_fails` theorems.) -/
theorem C18_session_partial (onMsg : Nat → Msg → Nat) (hon : ∀ c m, 1 ≤ c → 1 ≤ onMsg c m) (c : Nat) (hc : 1 ≤ c) (items : List Item)
    (hs : session (fun _ => none) false items) (later : Bytes) (hl : 2 ≤ later.length) (pieces : List Bytes)
    (hp : pieces.flatten = sendAll onMsg c {} items ++ later) :
    ∃ msgs', (feed onMsg c (fun _ => {}) [] pieces).1 = items.map Item.msg ++ msgs' := by
  rw [C18_packetisation, hp]
  obtain ⟨c', last', h⟩ := session_drains (onMsg := onMsg) (w := {}) (last := fun _ => {}) hon hc (fun cs => ⟨rfl, fun p hp => by cases hp⟩) hs hl
  exact ⟨_, by rw [h]⟩

/-- C18. Nothing is delivered twice or ahead of time either: the messages after those of the session
come from the later bytes alone. -/
theorem C18_session_exact_partial (onMsg : Nat → Msg → Nat) (hon : ∀ c m, 1 ≤ c → 1 ≤ onMsg c m) (c : Nat) (hc : 1 ≤ c) (items : List Item)
    (hs : session (fun _ => none) false items) (pieces : List Bytes) (b1 b2 : UInt8)
    (hp : pieces.flatten = sendAll onMsg c {} items ++ [b1, b2]) :
    (feed onMsg c (fun _ => {}) [] pieces).1 = items.map Item.msg ∧ (feed onMsg c (fun _ => {}) [] pieces).2.2.2 = [b1, b2] := by
  rw [C18_packetisation, hp]
  obtain ⟨c', last', h⟩ := session_drains (onMsg := onMsg) (w := {}) (last := fun _ => {}) hon hc (fun cs => ⟨rfl, fun p hp => by cases hp⟩) hs (rest := [b1, b2]) (by simp)
  have hw : drain onMsg c' last' [b1, b2] = ([], c', last', [b1, b2]) := drain_wait (by simp [parseChunk])
  rw [h, hw]
  simp

/-- A session with a control message (entry erased, chunk size changed), two commands, sequence headers
and frames with equal and with different lengths meets the condition. -/
def sampleSession : List Item :=
  [.command true ⟨2, 0, 1, 0, [0, 0, 16, 0]⟩, .command false ⟨3, 0, 20, 0, List.replicate 300 7⟩, .command false ⟨3, 0, 20, 0, List.replicate 300 8⟩,
    .command false ⟨4, 0, 9, 1, [1, 2, 3]⟩, .command true ⟨2, 0, 4, 0, [0, 0, 0, 0, 0, 1]⟩,
    .media ⟨4, 40, 9, 1, List.replicate 5000 1⟩, .media ⟨4, 40, 8, 1, [0xAF, 1, 5]⟩, .media ⟨4, 80, 8, 1, [0xAF, 1, 6]⟩]

example : session (fun _ => none) false sampleSession := by
  simp [sampleSession, session, Msg.plain, gapOk, see, -List.reduceReplicate]

example : sampleSession.map Item.msg ≠ [] := by simp [sampleSession, -List.reduceReplicate]

/-! ## What goes wrong -/

instance : DecidablePred Msg.plain := fun m => by unfold Msg.plain; infer_instance

/-- `drain` by recursion on a number, for evaluation. -/
def drainF (onMsg : Nat → Msg → Nat) : Nat → Nat → (Nat → Prev) → Bytes → List Msg
  | 0, _, _, _ => []
  | n + 1, recMax, last, q =>
    match parseChunk recMax last q with
    | .wait => []
    | .got cs p none rest => drainF onMsg n recMax (update last cs p) rest
    | .got cs p (some m) rest => m :: drainF onMsg n (onMsg recMax m) (update last cs p) rest

theorem drainF_eq (n : Nat) (recMax : Nat) (last : Nat → Prev) (q : Bytes) (h : q.length < n) :
    (drain onMsg recMax last q).1 = drainF onMsg n recMax last q := by
  induction n generalizing recMax last q with
  | zero => omega
  | succ n ih =>
    unfold drainF
    split
    next hh => rw [drain_wait hh]
    next hh => rw [drain_part hh]; exact ih _ _ _ (by have := parseChunk_shrinks hh; omega)
    next hh => rw [drain_msg hh, ih _ _ _ (by have := parseChunk_shrinks hh; omega)]

/-- C18 fails at the end of what was sent: a message whose last piece has one byte stays in the buffer
until more bytes arrive, although it has arrived completely. -/
theorem C18_last_byte_fails : ∃ items : List Item, session (fun _ => none) false items ∧
    (feed (fun c _ => c) 128 (fun _ => {}) [] [sendAll (fun c _ => c) 128 {} items]).1 ≠ items.map Item.msg := by
  refine ⟨[.command false ⟨3, 0, 20, 0, List.replicate 129 7⟩], by simp [session, Msg.plain, gapOk], ?_⟩
  rw [C18_packetisation]
  have e : [sendAll (fun c _ => c) 128 {} [.command false ⟨3, 0, 20, 0, List.replicate 129 7⟩]].flatten =
      [3, 0, 0, 0, 0, 0, 129, 20, 0, 0, 0, 0] ++ List.replicate 128 7 ++ [0xC3, 7] := by
    simp only [sendAll, sendItem, pack, List.flatten_cons, List.flatten_nil, List.append_nil]
    rw [body_big (by decide) (by rw [List.length_replicate]; decide), body_small (by simp)]
    decide +kernel
  rw [e, drainF_eq 200 _ _ _ (by decide +kernel)]
  decide +kernel

/-- C18 fails for two media frames with the same time, type and length: the second one arrives with the
time difference of the first added again, and so does everything that follows. -/
theorem C18_repeat_fails : ∃ ms : List Msg, (∀ m ∈ ms, m.plain ∧ m.timestamp ≤ 80) ∧
    (drain (fun c _ => c) 128 (fun _ => {}) (sendAll (fun c _ => c) 128 {} (ms.map .media) ++ [0, 0])).1 ≠ ms ∧
    ((drain (fun c _ => c) 128 (fun _ => {}) (sendAll (fun c _ => c) 128 {} (ms.map .media) ++ [0, 0])).1.map Msg.timestamp) = [0, 40, 80, 120] ∧
    ms.map Msg.timestamp = [0, 40, 40, 80] := by
  refine ⟨[⟨4, 0, 8, 1, [1]⟩, ⟨4, 40, 8, 1, [2, 3]⟩, ⟨4, 40, 8, 1, [4, 5]⟩, ⟨4, 80, 8, 1, [6]⟩], by decide, ?_⟩
  have e : sendAll (fun c _ => c) 128 {} (List.map .media [⟨4, 0, 8, 1, [1]⟩, ⟨4, 40, 8, 1, [2, 3]⟩, ⟨4, 40, 8, 1, [4, 5]⟩, ⟨4, 80, 8, 1, [6]⟩]) ++ [0, 0] =
      [4, 0, 0, 0, 0, 0, 1, 8, 1, 0, 0, 0, 1, 0x44, 0, 0, 40, 0, 0, 2, 8, 2, 3, 0xC4, 4, 5, 0x44, 0, 0, 40, 0, 0, 1, 8, 6, 0, 0] := by
    simp only [List.map, sendAll, sendItem, sendNext]
    rw [body_small (by decide), body_small (by decide), body_small (by decide), body_small (by decide)]
    decide +kernel
  rw [e, drainF_eq 200 _ _ _ (by decide +kernel)]
  decide +kernel

/-- C18 fails for a gap of 0xffffff ms or more: the receiver takes the difference for the time itself. -/
theorem C18_gap_fails : ∃ ms : List Msg, (∀ m ∈ ms, m.plain) ∧
    ((drain (fun c _ => c) 128 (fun _ => {}) (sendAll (fun c _ => c) 128 {} (ms.map (.command false)) ++ [0, 0])).1.map Msg.timestamp) = [1000, 0x1000000] ∧
    ms.map Msg.timestamp = [1000, 0x1000000 + 1000] := by
  refine ⟨[⟨5, 1000, 8, 1, [1]⟩, ⟨5, 0x1000000 + 1000, 8, 1, [2, 3]⟩], by decide, ?_⟩
  have e : sendAll (fun c _ => c) 128 {} (List.map (.command false) [⟨5, 1000, 8, 1, [1]⟩, ⟨5, 0x1000000 + 1000, 8, 1, [2, 3]⟩]) ++ [0, 0] =
      [5, 0, 3, 232, 0, 0, 1, 8, 1, 0, 0, 0, 1, 0x45, 255, 255, 255, 0, 0, 2, 8, 1, 0, 0, 0, 2, 3, 0, 0] := by
    simp only [List.map, sendAll, sendItem, pack]
    rw [body_small (by decide), body_small (by decide)]
    decide +kernel
  rw [e, drainF_eq 200 _ _ _ (by decide +kernel)]
  decide +kernel

/-- C18 fails from 2^31 ms (24.8 days) on: the time arrives sign-extended to 64 bits. -/
theorem C18_month_fails : ∃ m : Msg, m.timestamp = 2 ^ 31 ∧
    ((drain (fun c _ => c) 128 (fun _ => {}) (sendAll (fun c _ => c) 128 {} [.command false m] ++ [0, 0])).1.map Msg.timestamp) = [2 ^ 64 - 2 ^ 31] := by
  refine ⟨⟨5, 2 ^ 31, 8, 1, [1]⟩, rfl, ?_⟩
  have e : sendAll (fun c _ => c) 128 {} [.command false ⟨5, 2 ^ 31, 8, 1, [1]⟩] ++ [0, 0] =
      [5, 255, 255, 255, 0, 0, 1, 8, 1, 0, 0, 0, 128, 0, 0, 0, 1, 0, 0] := by
    simp only [sendAll, sendItem, pack]
    rw [body_small (by decide)]
    decide +kernel
  rw [e, drainF_eq 200 _ _ _ (by decide +kernel)]
  decide +kernel

/-- C18 fails when one chunk object serves two chunk streams (`SendMedia(type, …)` does): after a message
without header the sender remembers the time difference of the other stream and leaves out a
time the receiver computes differently. The messages: stream 50 at 0, 40, 80 (difference 40 twice),
stream 51 at 0 and 7 in between, then stream 50 at 87. -/
theorem C18_shared_object_fails : ∃ (a b d : Msg), a.plain ∧ b.plain ∧ d.plain ∧
    -- `stale` is 7 when `b` is packed, because the object was last used for the other stream
    let s0 := pack 128 none 0 ⟨50, 0, 8, 1, [1]⟩
    let s1 := pack 128 (some s0.2) s0.2.tsDelta a
    let s2 := pack 128 (some s1.2) 7 b
    let s3 := pack 128 (some s2.2) s2.2.tsDelta d
    [a.timestamp, b.timestamp, d.timestamp] = [40, 80, 87] ∧
    ((drain (fun c _ => c) 128 (fun _ => {}) (s0.1 ++ s1.1 ++ s2.1 ++ s3.1 ++ [0, 0])).1.map Msg.timestamp) = [0, 40, 80, 120] := by
  refine ⟨⟨50, 40, 8, 1, [2]⟩, ⟨50, 80, 8, 1, [3]⟩, ⟨50, 87, 8, 1, [4]⟩, by decide, by decide, by decide, ?_⟩
  have e0 : pack 128 none 0 ⟨50, 0, 8, 1, [1]⟩ = ([50, 0, 0, 0, 0, 0, 1, 8, 1, 0, 0, 0, 1], ⟨0, 0, 0, 1, 1, 8, 1, [1]⟩) := by
    simp only [pack]; rw [body_small (by decide)]; decide +kernel
  have e1 : pack 128 (some ⟨0, 0, 0, 1, 1, 8, 1, [1]⟩) 0 ⟨50, 40, 8, 1, [2]⟩ = ([0xB2, 0, 0, 40, 2], ⟨40, 40, 40, 1, 1, 8, 1, [2]⟩) := by
    simp only [pack]; rw [body_small (by decide)]; decide +kernel
  have e2 : pack 128 (some ⟨40, 40, 40, 1, 1, 8, 1, [2]⟩) 7 ⟨50, 80, 8, 1, [3]⟩ = ([0xF2, 3], ⟨80, 7, 40, 1, 1, 8, 1, [3]⟩) := by
    simp only [pack]; rw [body_small (by decide)]; decide +kernel
  have e3 : pack 128 (some ⟨80, 7, 40, 1, 1, 8, 1, [3]⟩) 7 ⟨50, 87, 8, 1, [4]⟩ = ([0xF2, 4], ⟨87, 7, 40, 1, 1, 8, 1, [4]⟩) := by
    simp only [pack]; rw [body_small (by decide)]; decide +kernel
  simp only [e0, e1, e2, e3, true_and]
  rw [drainF_eq 200 _ _ _ (by decide +kernel)]
  decide +kernel

end Verif.Rtmp
