import Verif.Psi.Make

namespace Verif.Psi
open Verif

theorem be2_len (n : Nat) (h : n < 4096) : be2 (UInt8.ofNat (n / 256 % 16 + 0xf0)) (UInt8.ofNat n) % 4096 = n := by
  unfold be2; rw [u8n, u8n]; omega

theorem be2_pid (n : Nat) (h : n < 8192) : be2 (UInt8.ofNat (n / 256 % 32 + 0xe0)) (UInt8.ofNat n) % 8192 = n := by
  unfold be2; rw [u8n, u8n]; omega

/-- The entry of a track, as it is read. -/
def esOf (t : Track) : Es := ⟨(typeOf t).getD 0, pidOf t, esInfo t⟩

theorem streams_eq (ts : List Track) (hg : ∀ t ∈ ts, Good t) (hp : ∀ t ∈ ts, t.idx + 255 < 8191) (n : Nat) (hn : ts.length ≤ n) : streams n (ts.flatMap bytesOf) = some (ts.map esOf) := by
  induction ts generalizing n with
  | nil => cases n <;> rfl
  | cons t ts ih =>
    obtain ⟨n, rfl⟩ : ∃ m, n = m + 1 := ⟨n - 1, by simp at hn; omega⟩
    obtain ⟨⟨y, hy⟩, _, hl⟩ := hg t (by simp)
    have e : (t :: ts).flatMap bytesOf = (typeOf t).getD 0 :: UInt8.ofNat (pidOf t / 256 % 32 + 0xe0) :: UInt8.ofNat (pidOf t) ::
        UInt8.ofNat ((esInfo t).length / 256 % 16 + 0xf0) :: UInt8.ofNat (esInfo t).length :: (esInfo t ++ ts.flatMap bytesOf) := by
      simp [bytesOf, entryBytes, twoE, twoF]
    have hpt := hp t (by simp)
    rw [e, streams, be2_len _ hl, be2_pid (pidOf t) (by unfold pidOf; omega), if_neg (by rw [List.length_append]; omega), List.drop_left, List.take_left,
      ih (fun u hu => hg u (by simp [hu])) (fun u hu => hp u (by simp [hu])) n (by simp at hn; omega)]
    rfl

theorem known_cases {t : Track} (h : t.codec ∈ types.map (·.1)) : t.codec = "H264" ∨ t.codec = "HEVC" ∨ t.codec = "MPEG2" ∨ t.codec = "AAC" ∨ t.codec = "MP3" ∨ t.codec = "MP2" ∨
    t.codec = "opus" ∨ t.codec = "JSON" ∨ t.codec = "AV1" ∨ t.codec = "SCTE35" ∨ t.codec = "AC3" := by
  simpa [types] using h

theorem hasLang_iff (t : Track) : (hasLang t = true) ↔ told t := by
  unfold hasLang told und; simp

theorem four_length (b : Bytes) : (four b).length = 4 := by unfold four; simp

theorem lang_len (t : Track) : (if hasLang t then [0x0a, 4] ++ t.lang ++ [0] else [] : Bytes).length = if hasLang t then 6 else 0 := by
  split
  · rename_i h
    have := ((hasLang_iff t).1 h).1
    simp [this]
  · rfl

theorem info_len (t : Track) : (esInfo t).length = (codecInfo t).length + if hasLang t then 6 else 0 := by
  rw [esInfo, List.length_append, lang_len]

theorem known_len {t : Track} (h : t.codec ∈ types.map (·.1)) : addedLen t = (bytesOf t).length + if t.codec = "SCTE35" then 6 else 0 := by
  rw [bytesOf_length, info_len]
  unfold addedLen codecInfo
  generalize (if hasLang t then 6 else 0 : Nat) = l
  have f := four_length t.init
  rcases known_cases h with e | e | e | e | e | e | e | e | e | e | e <;> rw [e] <;> simp [f] <;> omega

theorem known_good {t : Track} (h : t.codec ∈ types.map (·.1)) : Good t := by
  have hl : (esInfo t).length ≤ 21 := by
    rw [info_len]
    have : (if hasLang t then 6 else 0 : Nat) ≤ 6 := by split <;> omega
    have f := four_length t.init
    have : (codecInfo t).length ≤ 12 := by
      unfold codecInfo
      rcases known_cases h with e | e | e | e | e | e | e | e | e | e | e <;> rw [e] <;> simp [f]
    omega
  refine ⟨?_, ?_, by omega⟩
  · unfold typeOf
    rcases known_cases h with e | e | e | e | e | e | e | e | e | e | e <;> rw [e] <;> simp
  · rcases known_cases h with e | e | e | e | e | e | e | e | e | e | e <;> rw [e] <;> simp

theorem known_type {t : Track} (h : t.codec ∈ types.map (·.1)) : (t.codec, (typeOf t).getD 0) ∈ types := by
  unfold typeOf types
  rcases known_cases h with e | e | e | e | e | e | e | e | e | e | e <;> rw [e] <;> simp

/-- The bytes of a descriptor. -/
def descBytes (d : UInt8 × Bytes) : Bytes := d.1 :: UInt8.ofNat d.2.length :: d.2

theorem descriptors_eq (l : List (UInt8 × Bytes)) (h : ∀ d ∈ l, d.2.length < 256) (n : Nat) (hn : l.length ≤ n) : descriptors n (l.flatMap descBytes) = some l := by
  induction l generalizing n with
  | nil => cases n <;> rfl
  | cons d l ih =>
    obtain ⟨n, rfl⟩ : ∃ m, n = m + 1 := ⟨n - 1, by simp at hn; omega⟩
    have hd := h d (by simp)
    have e : (d :: l).flatMap descBytes = d.1 :: UInt8.ofNat d.2.length :: (d.2 ++ l.flatMap descBytes) := by simp [descBytes]
    have e2 : (UInt8.ofNat d.2.length).toNat = d.2.length := by rw [u8n]; omega
    rw [e, descriptors, e2, if_neg (by rw [List.length_append]; omega), List.drop_left, List.take_left, ih (fun u hu => h u (by simp [hu])) n (by simp at hn; omega)]
    rfl

theorem ascii_all : ascii "Opus" = [0x4f, 0x70, 0x75, 0x73] ∧ ascii "JSON" = [0x4a, 0x53, 0x4f, 0x4e] ∧ ascii "AV01" = [0x41, 0x56, 0x30, 0x31] ∧ ascii "CUEI" = [0x43, 0x55, 0x45, 0x49] := by
  decide +kernel

theorem wanted_bytes (t : Track) : (wanted t).flatMap descBytes = esInfo t := by
  obtain ⟨a1, a2, a3, a4⟩ := ascii_all
  unfold wanted esInfo special codecInfo
  rw [a1, a2, a3, a4, List.flatMap_append]
  congr 1
  · have f : UInt8.ofNat ((t.init ++ [0, 0, 0, 0]).take 4).length = 4 := by
      have : ((t.init ++ [0, 0, 0, 0]).take 4).length = 4 := four_length t.init
      rw [this]; rfl
    split
    · rfl
    split
    · rfl
    split
    · rfl
    split
    · simp only [List.flatMap_cons, List.flatMap_nil, descBytes, f, four, List.append_nil]; rfl
    split
    · rfl
    · rfl
  · by_cases hl : told t
    · rw [if_pos hl, if_pos ((hasLang_iff t).2 hl)]
      have : UInt8.ofNat (t.lang ++ [0]).length = 4 := by rw [List.length_append, hl.1]; rfl
      simp only [List.flatMap_cons, List.flatMap_nil, descBytes, this]
      simp
    · rw [if_neg hl, if_neg (fun h => hl ((hasLang_iff t).1 h))]
      rfl

theorem wanted_small (t : Track) : ∀ d ∈ wanted t, d.2.length < 256 := by
  obtain ⟨a1, a2, a3, a4⟩ := ascii_all
  have f : ((t.init ++ [0, 0, 0, 0]).take 4).length = 4 := four_length t.init
  unfold wanted special
  rw [a1, a2, a3, a4]
  intro d hd
  rcases List.mem_append.1 hd with hd | hd
  · revert hd
    repeat' split
    all_goals intro hd
    all_goals simp at hd
    all_goals first | (subst hd; simp) | (rcases hd with rfl | rfl <;> simp)
  · split at hd
    · rename_i hl
      simp at hd
      subst hd
      simp [hl.1]
    · cases hd

theorem wanted_count (t : Track) : (wanted t).length ≤ 3 := by
  unfold wanted special
  rw [List.length_append]
  have h1 : (if told t then [(0x0a, t.lang ++ [0])] else [] : List (UInt8 × Bytes)).length ≤ 1 := by split <;> simp
  have : ∀ l : List (UInt8 × Bytes), l.length ≤ 2 → l.length + (if told t then [(0x0a, t.lang ++ [0])] else [] : List (UInt8 × Bytes)).length ≤ 3 := by intros; omega
  apply this
  repeat' split
  all_goals simp

theorem wanted_parse (t : Track) : descriptors 188 (esInfo t) = some (wanted t) := by
  rw [← wanted_bytes]
  exact descriptors_eq _ (wanted_small t) _ (by have := wanted_count t; omega)

theorem room_eq (t : Track) : room t = (bytesOf t).length := by
  rw [bytesOf_length, room, ← wanted_bytes]
  congr 1
  generalize wanted t = l
  induction l with
  | nil => rfl
  | cons d l ih => simp only [List.map_cons, List.sum_cons, List.flatMap_cons, List.length_append, ih, descBytes, List.length_cons]

theorem sums (ts : List Track) (h : ∀ t ∈ ts, t.codec ∈ types.map (·.1)) : (ts.map room).sum = (ts.flatMap bytesOf).length ∧
    (ts.map addedLen).sum = (ts.flatMap bytesOf).length + 6 * (ts.filter fun t => t.codec = "SCTE35").length := by
  induction ts with
  | nil => exact ⟨rfl, rfl⟩
  | cons t ts ih =>
    obtain ⟨i1, i2⟩ := ih (fun u hu => h u (by simp [hu]))
    have k := known_len (h t (by simp))
    simp only [List.map_cons, List.sum_cons, List.flatMap_cons, List.length_append, room_eq, i1, i2, k, List.filter_cons]
    refine ⟨trivial, ?_⟩
    by_cases hc : t.codec = "SCTE35"
    · simp [hc]; omega
    · simp [hc]; omega

theorem prog_sum (ts : List Track) (h : (ts.filter fun t => t.codec = "SCTE35").length ≤ 1) : (progInfo ts).length = 6 * (ts.filter fun t => t.codec = "SCTE35").length := by
  unfold progInfo
  split
  · rename_i ha
    have : (ts.filter fun t => t.codec = "SCTE35").length ≠ 0 := by
      intro h0
      rw [List.length_eq_zero_iff, List.filter_eq_nil_iff] at h0
      obtain ⟨x, hx, hc⟩ := List.any_eq_true.1 ha
      exact h0 x hx hc
    simp; omega
  · rename_i ha
    have : ts.filter (fun t => t.codec = "SCTE35") = [] := by
      rw [List.filter_eq_nil_iff]
      intro x hx hc
      exact ha (List.any_eq_true.2 ⟨x, hx, hc⟩)
    rw [this]; rfl

theorem crc_ok (b : Bytes) : IsCrcOf b (crcOf b) := by
  have h := Crc.C25_crc32 (-1) b
  have e : bytesBits (leEnc 4 (-1 : BitVec 32).toNat) = List.replicate 32 true := by decide +kernel
  rw [e] at h
  exact h

theorem flat_len (ts : List Track) : 5 * ts.length ≤ (ts.flatMap bytesOf).length := by
  induction ts with
  | nil => simp
  | cons t ts ih => simp only [List.flatMap_cons, List.length_append, bytesOf_length, List.length_cons]; omega

theorem clock_eq {ts : List Track} (h : ts ≠ []) : ∃ t, clockTrack ts = some t ∧ t ∈ ts ∧ clock ts = pidOf t := by
  unfold clockTrack clock
  cases hf : ts.find? (·.video) with
  | some t => exact ⟨t, rfl, List.mem_of_find?_eq_some hf, rfl⟩
  | none =>
    cases ts with
    | nil => exact absurd rfl h
    | cons t l => exact ⟨t, rfl, by simp, rfl⟩

/-- What a fitting selection gives. -/
theorem pmt_all (b : Bytes) (hb : Buf b) (ts : List Track) (cc : Nat) (hf : Fits ts) :
    ∃ p s m body crc rest c, createPMT b ts cc = some p ∧ section? p = some (4096, cc % 16, s) ∧ pmt? s = some (m, body, crc, rest) ∧ IsCrcOf body crc ∧ (∀ x ∈ rest, x = 0xff) ∧
      clockTrack ts = some c ∧ m = ⟨1, true, c.idx + 255, progInfo ts, ts.map esOf⟩ := by
  have hs := sums ts hf.known
  have hp := prog_sum ts hf.cues
  have hr := hf.room
  obtain ⟨c, hc1, hcm, hc2⟩ := clock_eq hf.some
  have hci := hf.pids c hcm
  obtain ⟨v, hv1, hv2, he⟩ := create_eq b hb ts cc (fun t ht => known_good (hf.known t ht)) (by omega) (by omega)
  have hn := flat_len ts
  have hbl : (body ts cc v).length = 12 + (ts.map addedLen).sum := by
    simp only [body, List.length_append, List.length_drop, front_length]; omega
  have hcl : (crcOf (body ts cc v)).length = 4 := leEnc_length _ _
  refine ⟨_, body ts cc v ++ (crcOf (body ts cc v) ++ List.replicate (167 - (ts.map addedLen).sum) 0xff), ⟨1, true, c.idx + 255, progInfo ts, ts.map esOf⟩, body ts cc v, crcOf (body ts cc v),
    List.replicate (167 - (ts.map addedLen).sum) 0xff, c, he, ?_, ?_, crc_ok _, fun x hx => List.eq_of_mem_replicate hx, hc1, rfl⟩
  · show (if _ then _ else _) = _
    rw [if_pos]
    · have e1 : be2 0x50 0 % 8192 = 4096 := by decide
      have e2 : (UInt8.ofNat (16 + cc % 16)).toNat % 16 = cc % 16 := by rw [u8n]; omega
      rw [e1, e2]; rfl
    · refine ⟨?_, rfl, by decide, by rw [u8n]; omega, by simp⟩
      simp only [List.length_append, hbl, hcl, List.length_replicate, List.length_cons, List.length_nil]; omega
  · have hlen : be2 (UInt8.ofNat ((0xb00d + (ts.map addedLen).sum) / 256)) (UInt8.ofNat (0xb00d + (ts.map addedLen).sum)) % 4096 = 13 + (ts.map addedLen).sum := by
      unfold be2; rw [u8n, u8n]; omega
    have hl0 : (UInt8.ofNat ((0xb00d + (ts.map addedLen).sum) / 256)).toNat / 64 = 2 := by rw [u8n]; omega
    have hpl : be2 (UInt8.ofNat ((progInfo ts).length / 256 % 16 + 0xf0)) (UInt8.ofNat (progInfo ts).length) % 4096 = (progInfo ts).length := be2_len _ (by omega)
    have hsl : (body ts cc v ++ (crcOf (body ts cc v) ++ List.replicate (167 - (ts.map addedLen).sum) 0xff)).length = 183 := by
      simp only [List.length_append, hbl, hcl, List.length_replicate]; omega
    have hb0 : ∀ q, body ts cc v ++ q = 2 :: UInt8.ofNat ((0xb00d + (ts.map addedLen).sum) / 256) :: UInt8.ofNat (0xb00d + (ts.map addedLen).sum) :: 0 :: 1 :: v :: 0 :: 0 ::
        UInt8.ofNat (clock ts / 256 % 32 + 0xe0) :: UInt8.ofNat (clock ts) :: UInt8.ofNat ((progInfo ts).length / 256 % 16 + 0xf0) :: UInt8.ofNat (progInfo ts).length ::
        (progInfo ts ++ (ts.flatMap bytesOf ++ q)) := by
      intro q; simp [body, front, two, twoE, twoF]
    have t1 : (body ts cc v ++ (crcOf (body ts cc v) ++ List.replicate (167 - (ts.map addedLen).sum) 0xff)).take (13 + (ts.map addedLen).sum - 1) = body ts cc v :=
      List.take_left' (by rw [hbl]; omega)
    have t2 : (body ts cc v ++ (crcOf (body ts cc v) ++ List.replicate (167 - (ts.map addedLen).sum) 0xff)).drop (13 + (ts.map addedLen).sum - 1) =
        crcOf (body ts cc v) ++ List.replicate (167 - (ts.map addedLen).sum) 0xff := List.drop_left' (by rw [hbl]; omega)
    have t3 : (body ts cc v ++ (crcOf (body ts cc v) ++ List.replicate (167 - (ts.map addedLen).sum) 0xff)).drop (3 + (13 + (ts.map addedLen).sum)) =
        List.replicate (167 - (ts.map addedLen).sum) 0xff := by
      rw [← List.append_assoc]
      exact List.drop_left' (by rw [List.length_append, hbl, hcl]; omega)
    have t4 : ∀ l : Bytes, (crcOf (body ts cc v) ++ l).take 4 = crcOf (body ts cc v) := fun l => List.take_left' hcl
    have t5 : ∀ q : Bytes, ((progInfo ts ++ (ts.flatMap bytesOf ++ q)).take (13 + (ts.map addedLen).sum - 13)).drop (progInfo ts).length = ts.flatMap bytesOf := by
      intro q
      rw [← List.append_assoc, List.take_left' (by rw [List.length_append]; omega), List.drop_left]
    have t6 : ∀ q : Bytes, (progInfo ts ++ q).take (progInfo ts).length = progInfo ts := fun q => List.take_left' rfl
    revert t1 t2 t3 hsl
    rw [hb0]
    generalize hq : crcOf (body ts cc v) ++ List.replicate (167 - (ts.map addedLen).sum) 0xff = q
    intro hsl t1 t2 t3
    unfold pmt?
    simp only
    rw [hlen, hpl, if_pos ⟨hl0, hv1, by omega, by omega, by rw [hsl]; omega, by omega⟩, t5, t6, t1, t2, t3, ← hq, t4,
      streams_eq ts (fun t ht => known_good (hf.known t ht)) hf.pids 1024 (by omega), hc2, be2_pid (pidOf c) (by unfold pidOf; omega)]
    have e1 : be2 0 1 = 1 := by decide
    simp only [Option.map_some, hv2, e1, decide_true]
    rfl

end Verif.Psi
