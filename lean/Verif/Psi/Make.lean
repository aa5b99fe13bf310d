import Verif.Psi.Lemmas
import Verif.Crc.Props

namespace Verif.Psi
open Verif

theorem sec_len (ts : List Track) (cc : Nat) (v : UInt8) (q : Bytes) (h : (ts.map addedLen).sum < 4083) :
    base (front ts cc v ++ q) = 4 ∧ secLen (front ts cc v ++ q) = 13 + (ts.map addedLen).sum := by
  refine ⟨rfl, ?_⟩
  have e1 : at' (front ts cc v ++ q) 6 = UInt8.ofNat ((0xb00d + (ts.map addedLen).sum) / 256) := rfl
  have e2 : at' (front ts cc v ++ q) 7 = UInt8.ofNat (0xb00d + (ts.map addedLen).sum) := rfl
  show (at' (front ts cc v ++ q) 6).toNat % 16 * 256 + (at' (front ts cc v ++ q) 7).toNat = _
  rw [e1, e2, u8n, u8n]
  omega

theorem prog_len (ts : List Track) (cc : Nat) (v : UInt8) (q : Bytes) : progLen (front ts cc v ++ q) = (progInfo ts).length := by
  have e1 : at' (front ts cc v ++ q) 15 = UInt8.ofNat ((progInfo ts).length / 256 % 16 + 0xf0) := rfl
  have e2 : at' (front ts cc v ++ q) 16 = UInt8.ofNat (progInfo ts).length := rfl
  show (at' (front ts cc v ++ q) 15).toNat % 16 * 256 + (at' (front ts cc v ++ q) 16).toNat = _
  rw [e1, e2, u8n, u8n]
  have : (progInfo ts).length ≤ 6 := by unfold progInfo; split <;> simp
  omega

/-- The bytes of the section before the check value. -/
def body (ts : List Track) (cc : Nat) (v : UInt8) : Bytes := (front ts cc v).drop 5 ++ (progInfo ts ++ ts.flatMap bytesOf)

/-- The check value of bytes. -/
def crcOf (b : Bytes) : Bytes := leEnc 4 (Crc.crc32 (-1) b).toNat

theorem create_eq (b : Bytes) (hb : Buf b) (ts : List Track) (cc : Nat) (hg : ∀ t ∈ ts, Good t) (hs : (ts.map addedLen).sum = (progInfo ts).length + (ts.flatMap bytesOf).length)
    (hl : (ts.map addedLen).sum ≤ 167) :
    ∃ v, v.toNat / 2 % 32 = 0 ∧ v.toNat % 2 = 1 ∧
      createPMT b ts cc = some ([0x47, 0x50, 0, UInt8.ofNat (16 + cc % 16), 0] ++ (body ts cc v ++ (crcOf (body ts cc v) ++ List.replicate (167 - (ts.map addedLen).sum) 0xff))) := by
  obtain ⟨v, r, he, h1, h2, hr⟩ := header_eq b hb ts cc
  refine ⟨v, h1, h2, ?_⟩
  unfold createPMT
  rw [he]
  simp only
  rw [prog_len, (sec_len ts cc v _ (by omega)).1, (sec_len ts cc v _ (by omega)).2]
  have e1 : front ts cc v ++ (progInfo ts ++ r) = (front ts cc v ++ progInfo ts) ++ r := by simp
  rw [e1, entries_eq ts (front ts cc v ++ progInfo ts) r hg (by omega) _ _ (by rw [List.length_append, front_length]) (by omega)]
  simp only
  obtain ⟨x, r', rfl, hx⟩ := cut (r := r) (n := (ts.flatMap bytesOf).length) (by omega)
  have e2 : (x ++ r').drop (ts.flatMap bytesOf).length = r' := by rw [← hx]; simp
  rw [e2]
  have hr' : r'.length = 171 - (ts.map addedLen).sum := by rw [List.length_append] at hr; omega
  obtain ⟨y, z, rfl, hy⟩ := cut (r := r') (n := 4) (by omega)
  have hz : z.length = 167 - (ts.map addedLen).sum := by rw [List.length_append] at hr'; omega
  have e3 : front ts cc v ++ progInfo ts ++ (ts.flatMap bytesOf ++ (y ++ z)) = front ts cc v ++ (progInfo ts ++ (ts.flatMap bytesOf ++ (y ++ z))) := by simp
  have e4 : front ts cc v ++ (progInfo ts ++ (ts.flatMap bytesOf ++ (y ++ z))) = ([0x47, 0x50, 0, UInt8.ofNat (16 + cc % 16), 0] ++ body ts cc v) ++ (y ++ z) := by
    simp [front, body]
  have hbl : (body ts cc v).length = 12 + (ts.map addedLen).sum := by
    simp only [body, List.length_append, List.length_drop, front_length]; omega
  have hw : ([0x47, 0x50, 0, UInt8.ofNat (16 + cc % 16), 0] ++ body ts cc v).length = 17 + (ts.map addedLen).sum := by
    rw [List.length_append, hbl]; simp; omega
  unfold calcCrc
  rw [e3, (sec_len ts cc v _ (by omega)).1, (sec_len ts cc v _ (by omega)).2, if_neg (by omega), e4]
  have e5 : ((([0x47, 0x50, 0, UInt8.ofNat (16 + cc % 16), 0] ++ body ts cc v) ++ (y ++ z)).take (4 + (13 + (ts.map addedLen).sum))).drop (4 + 1) = body ts cc v := by
    rw [List.take_left' (by rw [hw]; omega)]; rfl
  rw [e5]
  have e6 : put (([0x47, 0x50, 0, UInt8.ofNat (16 + cc % 16), 0] ++ body ts cc v) ++ (y ++ z)) (4 + (13 + (ts.map addedLen).sum)) (leEnc 4 (Crc.crc32 (-1) (body ts cc v)).toNat) =
      some (([0x47, 0x50, 0, UInt8.ofNat (16 + cc % 16), 0] ++ body ts cc v) ++ (crcOf (body ts cc v) ++ z)) :=
    put_mid _ _ _ _ (by rw [hy]; simp) _ (by rw [hw]; omega)
  rw [e6, Option.bind_some]
  have e7 : (([0x47, 0x50, 0, UInt8.ofNat (16 + cc % 16), 0] ++ body ts cc v) ++ (crcOf (body ts cc v) ++ z)) = front ts cc v ++ (progInfo ts ++ (ts.flatMap bytesOf ++ (crcOf (body ts cc v) ++ z))) := by
    generalize crcOf (body ts cc v) = c
    simp [front, body]
  have e8 : base (([0x47, 0x50, 0, UInt8.ofNat (16 + cc % 16), 0] ++ body ts cc v) ++ (crcOf (body ts cc v) ++ z)) = 4 := by rw [e7]; rfl
  have e9 : secLen (([0x47, 0x50, 0, UInt8.ofNat (16 + cc % 16), 0] ++ body ts cc v) ++ (crcOf (body ts cc v) ++ z)) = 13 + (ts.map addedLen).sum := by
    rw [e7]; exact (sec_len ts cc v _ (by omega)).2
  rw [e8, e9]
  have ea : 184 - (4 + (13 + (ts.map addedLen).sum)) = 167 - (ts.map addedLen).sum := by omega
  rw [ea]
  have eb : ([0x47, 0x50, 0, UInt8.ofNat (16 + cc % 16), 0] ++ body ts cc v) ++ (crcOf (body ts cc v) ++ z) =
      (([0x47, 0x50, 0, UInt8.ofNat (16 + cc % 16), 0] ++ body ts cc v) ++ crcOf (body ts cc v)) ++ (z ++ []) := by simp
  rw [eb, put_mid _ z [] (List.replicate (167 - (ts.map addedLen).sum) 0xff) (by rw [hz]; simp) _ (by
    rw [List.length_append, hw, crcOf, leEnc_length]; omega)]
  simp

/-! ## The packet between calls -/

/-- The first 17 bytes stay. -/
def Keep (b b' : Bytes) : Prop := b'.length = b.length ∧ b'.take 17 = b.take 17

theorem Keep.refl (b : Bytes) : Keep b b := ⟨rfl, rfl⟩

theorem Keep.trans {a b c : Bytes} (h : Keep a b) (k : Keep b c) : Keep a c := ⟨k.1.trans h.1, k.2.trans h.2⟩

theorem put_keep {b b' l : Bytes} {i : Nat} (hi : 17 ≤ i) (h : put b i l = some b') : Keep b b' := by
  unfold put at h
  split at h
  · rename_i hl
    cases h
    constructor
    · simp only [List.length_append, List.length_take, List.length_drop]; omega
    · rw [List.append_assoc, List.take_append_of_le_length (by rw [List.length_take]; omega), List.take_take, Nat.min_eq_left hi]
  · cases h

theorem setInfo_keep {b b' info : Bytes} {i : Nat} (hi : 17 ≤ i) (h : setInfo b i info = some b') : Keep b b' := by
  unfold setInfo at h
  obtain ⟨c, h1, h2⟩ := Option.bind_eq_some_iff.1 h
  exact (put_keep (by omega) h1).trans (put_keep (by omega) h2)

theorem entry_keep {b b' : Bytes} {t : Track} {i : Nat} (hi : 17 ≤ i) (h : entry b i t = some b') : Keep b b' := by
  unfold entry at h
  obtain ⟨c, h1, h2⟩ := Option.bind_eq_some_iff.1 h
  obtain ⟨d, h3, h4⟩ := Option.bind_eq_some_iff.1 h1
  obtain ⟨e, h5, h6⟩ := Option.bind_eq_some_iff.1 h3
  refine (put_keep (by omega) h5).trans ((?_ : Keep e d).trans ((?_ : Keep d c).trans (setInfo_keep hi h2)))
  · unfold setType at h6
    split at h6
    · exact put_keep hi h6
    · cases h6; exact Keep.refl _
  · unfold setInit at h4
    split at h4
    · exact setInfo_keep hi h4
    · cases h4; exact Keep.refl _

theorem entries_keep {ts : List Track} {b b' : Bytes} {i stop : Nat} (hi : 17 ≤ i) (h : entries b i stop ts = some b') : Keep b b' := by
  induction ts generalizing b i with
  | nil => cases h; exact Keep.refl _
  | cons t ts ih =>
    rw [entries] at h
    split at h
    · cases h
    · rename_i c hc
      refine (entry_keep hi hc).trans (ih ?_ h)
      unfold advance
      split <;> omega

theorem keep_front {ts : List Track} {cc : Nat} {v : UInt8} {q b' : Bytes} (h : Keep (front ts cc v ++ q) b') : ∃ q', b' = front ts cc v ++ q' := by
  refine ⟨b'.drop 17, ?_⟩
  have h2 : (front ts cc v ++ q).take 17 = front ts cc v := List.take_left' rfl
  rw [← h2, ← h.2, List.take_append_drop]

theorem calc_keep {b b' : Bytes} (hs : 17 ≤ base b + secLen b) (h : calcCrc b = some b') (hk : ∀ c, Keep b c → base c + secLen c = base b + secLen b) : Keep b b' := by
  unfold calcCrc at h
  split at h
  · cases h
  · obtain ⟨c, h1, h2⟩ := Option.bind_eq_some_iff.1 h
    have k := put_keep hs h1
    refine k.trans (put_keep ?_ h2)
    have := hk c k
    omega

theorem front_buf {ts : List Track} {cc : Nat} {v : UInt8} {q : Bytes} (h : (front ts cc v ++ q).length = 188) : Buf (front ts cc v ++ q) := by
  refine ⟨h, rfl, rfl, ?_, rfl⟩
  have : at' (front ts cc v ++ q) 3 = UInt8.ofNat (16 + cc % 16) := rfl
  rw [this, u8n]; omega

theorem create_buf {b b' : Bytes} (hb : Buf b) (ts : List Track) (cc : Nat) (hl : (ts.map addedLen).sum < 4083) (h : createPMT b ts cc = some b') : Buf b' := by
  obtain ⟨v, r, he, _, _, hr⟩ := header_eq b hb ts cc
  unfold createPMT at h
  rw [he] at h
  simp only at h
  split at h
  · cases h
  · rename_i c hc
    have k1 := entries_keep (by rw [(sec_len ts cc v _ hl).1]; omega) hc
    obtain ⟨q, rfl⟩ := keep_front k1
    have k2 := calc_keep (by rw [(sec_len ts cc v _ hl).1, (sec_len ts cc v _ hl).2]; omega) h (by
      intro d kd
      obtain ⟨q', rfl⟩ := keep_front kd
      rw [(sec_len ts cc v _ hl).1, (sec_len ts cc v _ hl).2, (sec_len ts cc v _ hl).1, (sec_len ts cc v _ hl).2])
    obtain ⟨q', rfl⟩ := keep_front k2
    refine front_buf ?_
    rw [k2.1, k1.1]
    simp only [List.length_append, front_length]; omega

theorem fresh_buf : Buf fresh := ⟨rfl, rfl, rfl, rfl, rfl⟩

theorem addedLen_le (t : Track) (h : t.codec ≠ "ID3" ∧ t.codec ≠ "RAW") : addedLen t ≤ 26 := by
  unfold addedLen
  rw [if_neg (by rintro (h' | h'); exact h.1 h'; exact h.2 h')]
  have hl : (if hasLang t then 6 else 0 : Nat) ≤ 6 := by split <;> omega
  revert hl
  generalize (if hasLang t then 6 else 0 : Nat) = l
  intro hl
  by_cases h1 : t.codec = "AAC"
  · rw [h1]; simp; omega
  · rw [if_neg h1]
    by_cases h2 : t.codec = "opus"
    · rw [h2]; simp; omega
    · rw [if_neg h2]
      by_cases h3 : t.codec = "JSON"
      · rw [h3]; simp; omega
      · rw [if_neg h3]
        by_cases h4 : t.codec = "AV1"
        · rw [h4]; simp; omega
        · rw [if_neg h4]
          split <;> omega

theorem before_sum {ts : List Track} (h : Before ts) : (ts.map addedLen).sum < 4083 := by
  have key : ∀ l : List Track, (∀ t ∈ l, t.codec ≠ "ID3" ∧ t.codec ≠ "RAW") → (l.map addedLen).sum ≤ 26 * l.length := by
    intro l
    induction l with
    | nil => intro _; simp
    | cons t l ih =>
      intro hl
      have a1 := addedLen_le t (hl t (by simp))
      have a2 := ih (fun u hu => hl u (by simp [hu]))
      simp only [List.map_cons, List.sum_cons, List.length_cons]
      omega
  have a := key ts h.2
  have b := h.1
  omega

theorem calls_buf {l : List (List Track × Nat)} {b b' : Bytes} (hb : Buf b) (hl : ∀ c ∈ l, Before c.1) (h : calls l b = some b') : Buf b' := by
  induction l generalizing b with
  | nil => cases h; exact hb
  | cons c l ih =>
    rw [calls] at h
    obtain ⟨d, h1, h2⟩ := Option.bind_eq_some_iff.1 h
    exact ih (create_buf hb c.1 c.2 (before_sum (hl c (by simp))) h1) (fun x hx => hl x (by simp [hx])) h2

end Verif.Psi
