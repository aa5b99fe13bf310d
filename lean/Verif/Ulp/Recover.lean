import Verif.Ulp.Lemmas

namespace Verif.Ulp
open Verif

/-- A group of 8 or 16 packets in a row, protected by one correction. -/
structure Group (base n : Nat) (p : Nat → Bytes) : Prop where
  count : n = 8 ∨ n = 16
  low : base < 65536
  media : ∀ i < n, Media ((base + i) % 65536) (p i)

theorem and_ff (x : UInt8) : x &&& 255 = x := by
  have key : ∀ m < 256, UInt8.ofNat m &&& 255 = UInt8.ofNat m := by decide +kernel
  have := key x.toNat (UInt8.toNat_lt _)
  rwa [UInt8.ofNat_toNat] at this

section
variable {base n : Nat} {p : Nat → Bytes} (hG : Group base n p)
include hG

theorem first_zero : xorAll ((List.range n).map fun i => byte (p i) 0) = 0 := by
  have : (List.range n).map (fun i => byte (p i) 0) = List.replicate n 0x80 := by
    refine List.eq_replicate_iff.2 ⟨by simp, ?_⟩
    intro b hb
    obtain ⟨i, hi, rfl⟩ := List.mem_map.1 hb
    unfold byte
    rw [(hG.media i (List.mem_range.1 hi)).first]; rfl
  rw [this, xor80, if_pos (by rcases hG.count with h | h <;> rw [h])]

theorem maskLen_two : maskLen (protect base (List.range n) p) = 2 := by
  unfold maskLen
  have : at' (protect base (List.range n) p) 0 = xorAll ((List.range n).map fun i => byte (p i) 0) &&& 0x3f := rfl
  rw [this, first_zero hG]; rfl

theorem snBase_eq : snBase (protect base (List.range n) p) = base := by
  have e1 : at' (protect base (List.range n) p) 2 = UInt8.ofNat (base / 256) := rfl
  have e2 : at' (protect base (List.range n) p) 3 = UInt8.ofNat base := rfl
  unfold snBase
  rw [e1, e2, u8n, u8n]
  have := hG.low
  omega

theorem covered_eq : covered (protect base (List.range n) p) = (List.range n).map fun i => (base + i) % 65536 := by
  unfold covered
  rw [maskLen_two hG, snBase_eq hG]
  congr 1
  have e : ∀ i ∈ List.range (8 * 2), maskBit (at' (protect base (List.range n) p) (12 + i / 8)) (i % 8) = maskBit (if i / 8 = 0 then 0xff else if n = 16 then 0xff else 0) (i % 8) := by
    intro i hi
    have hi' := List.mem_range.1 hi
    congr 1
    have e1 : at' (protect base (List.range n) p) 12 = UInt8.ofNat (maskOf (List.range n) / 256) := rfl
    have e2 : at' (protect base (List.range n) p) 13 = UInt8.ofNat (maskOf (List.range n)) := rfl
    by_cases h0 : i / 8 = 0
    · rw [h0, if_pos rfl, Nat.add_zero, e1]
      rcases hG.count with h | h <;> rw [h] <;> decide
    · have : i / 8 = 1 := by omega
      rw [this, if_neg (by decide), e2]
      rcases hG.count with h | h <;> rw [h] <;> decide
  rw [List.filter_congr e]
  rcases hG.count with h | h
  · rw [h]; exact bits_full.2
  · rw [h]; exact bits_full.1

theorem protLen_eq : protLen (protect base (List.range n) p) = most (List.range n) p := by
  have e1 : at' (protect base (List.range n) p) 10 = UInt8.ofNat (most (List.range n) p / 256) := rfl
  have e2 : at' (protect base (List.range n) p) 11 = UInt8.ofNat (most (List.range n) p) := rfl
  have := most_lt (List.range n) p fun i hi => (hG.media i (List.mem_range.1 hi)).short
  unfold protLen
  rw [e1, e2, u8n, u8n]
  omega

theorem size_eq {k : Nat} (hk : k < n) : size (protect base (List.range n) p) (((List.range n).filter (· ≠ k)).map p) = (p k).length - 12 := by
  unfold size
  rw [foldl_xor]
  have hm : (((List.range n).filter (· ≠ k)).map p).map (fun o => (Rtp.getPayloadSize o).getD 0 % 65536) = ((List.range n).filter (· ≠ k)).map fun i => (p i).length - 12 := by
    rw [List.map_map]
    refine List.map_congr_left ?_
    intro i hi
    have hm := hG.media i (List.mem_range.1 (List.mem_filter.1 hi).1)
    show (Rtp.getPayloadSize (p i)).getD 0 % 65536 = _
    rw [(media_hsize hm).2]
    have := hm.short
    show ((p i).length - 12) % 65536 = _
    omega
  have hl := xorNat_lt ((List.range n).map fun i => (p i).length - 12) (by
    intro x hx
    obtain ⟨i, hi, rfl⟩ := List.mem_map.1 hx
    have := (hG.media i (List.mem_range.1 hi)).short
    omega)
  have e1 : at' (protect base (List.range n) p) 8 = UInt8.ofNat (xorNat ((List.range n).map fun i => (p i).length - 12) / 256) := rfl
  have e2 : at' (protect base (List.range n) p) 9 = UInt8.ofNat (xorNat ((List.range n).map fun i => (p i).length - 12)) := rfl
  have e3 : (at' (protect base (List.range n) p) 8).toNat * 256 + (at' (protect base (List.range n) p) 9).toNat = xorNat ((List.range n).map fun i => (p i).length - 12) := by
    rw [e1, e2, u8n, u8n]; omega
  rw [hm, e3, xorNat_split _ _ _ (List.mem_range.2 hk) List.nodup_range]

theorem head_byte {k j : Nat} (hk : k < n) (hj : at' (protect base (List.range n) p) j = xorAll ((List.range n).map fun i => byte (p i) j)) :
    xorB (at' (protect base (List.range n) p) j) ((((List.range n).filter (· ≠ k)).map p).map (at' · j)) = byte (p k) j := by
  rw [xorB_eq, hj, List.map_map]
  have : ((at' · j) ∘ p) = fun i => byte (p i) j := by funext i; exact at_byte _ _
  rw [this, xorAll_split _ _ _ (List.mem_range.2 hk) List.nodup_range]

theorem first_byte {k : Nat} (hk : k < n) : xorB (at' (protect base (List.range n) p) 0) ((((List.range n).filter (· ≠ k)).map p).map (at' · 0)) = byte (p k) 0 := by
  refine head_byte hG hk ?_
  have : at' (protect base (List.range n) p) 0 = xorAll ((List.range n).map fun i => byte (p i) 0) &&& 0x3f := rfl
  rw [this, first_zero hG]; rfl

theorem pay_byte {k j : Nat} (hk : k < n) (hj : j < most (List.range n) p) :
    xorB (at' (protect base (List.range n) p) (14 + j)) ((((List.range n).filter (· ≠ k)).map p).map fun o => at' o ((Rtp.getHsize o).getD 0 + j)) = byte (p k) (12 + j) := by
  rw [xorB_eq, protect_byte _ _ _ hj, List.map_map]
  have : ((List.range n).filter (· ≠ k)).map ((fun o => at' o ((Rtp.getHsize o).getD 0 + j)) ∘ p) = ((List.range n).filter (· ≠ k)).map fun i => byte (p i) (12 + j) := by
    refine List.map_congr_left ?_
    intro i hi
    have hm := hG.media i (List.mem_range.1 (List.mem_filter.1 hi).1)
    show at' (p i) ((Rtp.getHsize (p i)).getD 0 + j) = _
    rw [(media_hsize hm).1]
    exact at_byte _ _
  rw [this, xorAll_split _ _ _ (List.mem_range.2 hk) List.nodup_range]

/-- What is recovered. -/
theorem recover_eq {h : Hist} {k : Nat} (hk : k < n) (hg : Got h base n k p) (hl : ∀ i < n, (p k).length ≤ (p i).length) (h4 : 16 ≤ (p k).length) :
    ∃ r, recover h (protect base (List.range n) p) = .recovered r ∧ r.length = (p k).length - 12 ∧ ∀ j < (p k).length - 12, j < 8 ∨ 12 ≤ j → r[j]? = (p k)[j]? := by
  have hmk := hG.media k hk
  have hlong := hmk.long
  have hmost := most_ge (List.range n) p (List.mem_range.2 hk)
  obtain ⟨g1, g2⟩ := got_missing hg hk
  unfold recover
  rw [maskLen_two hG, protect_length, if_neg (by omega), covered_eq hG, g1]
  simp only
  rw [protLen_eq hG, if_neg (by omega), if_neg (by omega), g2, size_eq hG hk, if_neg (by
    rw [List.any_eq_true]
    rintro ⟨o, ho, hc⟩
    obtain ⟨i, hi, rfl⟩ := List.mem_map.1 ho
    have hin := List.mem_range.1 (List.mem_filter.1 hi).1
    rw [(media_hsize (hG.media i hin)).1] at hc
    have := hl i hin
    simp at hc
    omega), if_neg (by omega)]
  refine ⟨_, rfl, ?_, ?_⟩
  · unfold buffer Rtp.setSequence
    simp only [List.length_take, List.length_append, List.length_drop, List.length_cons, List.length_nil, List.length_map, List.length_range, protLen_eq hG]
    have : (Bit.htob .s ((base + k) % 65536)).length = 2 := by simp [Bit.htob]
    rw [this]
    omega
  · intro j hj hc
    rw [List.getElem?_take_of_lt hj]
    have hb : ∀ i < (p k).length, (p k)[i]? = some (byte (p k) i) := by
      intro i hi
      unfold byte
      rw [List.getElem?_eq_getElem hi]; rfl
    have hseq : Bit.htob .s ((base + k) % 65536) = [byte (p k) 2, byte (p k) 3] := by
      have hnum := hmk.num
      unfold byte
      rw [(Prod.mk.inj hnum).1, (Prod.mk.inj hnum).2]
      show [Bit.byteAt _ 8, Bit.byteAt _ 0] = _
      simp [Bit.byteAt, Nat.shiftRight_eq_div_pow, and_ff]
    have hshape : Rtp.setSequence (buffer (protect base (List.range n) p) (((List.range n).filter (· ≠ k)).map p) ((p k).length - 12)) ((base + k) % 65536) =
        [byte (p k) 0, byte (p k) 1, byte (p k) 2, byte (p k) 3, byte (p k) 4, byte (p k) 5, byte (p k) 6, byte (p k) 7, at' (protect base (List.range n) p) 8,
          at' (protect base (List.range n) p) 9, at' (protect base (List.range n) p) 10, at' (protect base (List.range n) p) 11] ++
          (List.range (most (List.range n) p)).map fun i => if i < (p k).length - 12 then byte (p k) (12 + i) else at' (protect base (List.range n) p) (12 + 2 + i) := by
      unfold buffer Rtp.setSequence
      rw [hseq]
      simp only [protLen_eq hG, maskLen_two hG, first_byte hG hk, head_byte hG hk (j := 1) rfl, head_byte hG hk (j := 4) rfl, head_byte hG hk (j := 5) rfl, head_byte hG hk (j := 6) rfl,
        head_byte hG hk (j := 7) rfl]
      have hm : (List.range (most (List.range n) p)).map (fun i => if i < (p k).length - 12 then
          xorB (at' (protect base (List.range n) p) (12 + 2 + i)) ((((List.range n).filter (· ≠ k)).map p).map fun o => at' o ((Rtp.getHsize o).getD 0 + i))
          else at' (protect base (List.range n) p) (12 + 2 + i)) = (List.range (most (List.range n) p)).map fun i => if i < (p k).length - 12 then byte (p k) (12 + i) else at' (protect base (List.range n) p) (12 + 2 + i) := by
        refine List.map_congr_left ?_
        intro i hi
        have := pay_byte hG hk (List.mem_range.1 hi)
        rw [show 12 + 2 + i = 14 + i from rfl, this]
      rw [hm]
      rfl
    rw [hshape]
    rcases hc with hc | hc
    · rw [List.getElem?_append_left (by simp; omega), hb j (by omega)]
      match j, hc with
      | 0, _ => rfl
      | 1, _ => rfl
      | 2, _ => rfl
      | 3, _ => rfl
      | 4, _ => rfl
      | 5, _ => rfl
      | 6, _ => rfl
      | 7, _ => rfl
    · obtain ⟨i, rfl⟩ : ∃ i, j = 12 + i := ⟨j - 12, by omega⟩
      rw [List.getElem?_append_right (by simp), hb _ (by omega)]
      have hi : i < most (List.range n) p := by omega
      have hi2 : i < (p k).length - 12 := by omega
      simp [hi, hi2]
end

end Verif.Ulp
