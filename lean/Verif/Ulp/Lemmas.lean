import Verif.Ulp.Spec

namespace Verif.Ulp
open Verif

theorem xorB_eq (s : UInt8) (l : List UInt8) : xorB s l = s ^^^ xorAll l := by
  induction l generalizing s with
  | nil => simp [xorB, xorAll]
  | cons a l ih =>
    have : xorB s (a :: l) = xorB (s ^^^ a) l := rfl
    rw [this, ih]
    show _ = s ^^^ (a ^^^ xorAll l)
    rw [UInt8.xor_assoc]

theorem foldl_xor (g : Bytes → Nat) (s : Nat) (l : List Bytes) : l.foldl (fun a o => a ^^^ g o) s = s ^^^ xorNat (l.map g) := by
  induction l generalizing s with
  | nil => simp [xorNat]
  | cons a l ih =>
    rw [List.foldl_cons, ih]
    show _ = s ^^^ (g a ^^^ xorNat (l.map g))
    rw [Nat.xor_assoc]

theorem xorAll_split (g : Nat → UInt8) (l : List Nat) (k : Nat) (hk : k ∈ l) (hn : l.Nodup) : xorAll (l.map g) ^^^ xorAll ((l.filter (· ≠ k)).map g) = g k := by
  have key : xorAll (l.map g) = g k ^^^ xorAll ((l.filter (· ≠ k)).map g) := by
    induction l with
    | nil => cases hk
    | cons a l ih =>
      rw [List.nodup_cons] at hn
      by_cases ha : a = k
      · subst ha
        have : l.filter (· ≠ a) = l := by
          rw [List.filter_eq_self]
          intro x hx
          have : x ≠ a := fun h => hn.1 (h ▸ hx)
          simp [this]
        rw [List.filter_cons, if_neg (by simp), this]
        rfl
      · have hm : k ∈ l := by
          rcases List.mem_cons.1 hk with h | h
          · exact absurd h.symm ha
          · exact h
        rw [List.filter_cons, if_pos (by simp [ha])]
        show g a ^^^ xorAll (l.map g) = g k ^^^ (g a ^^^ xorAll ((l.filter (· ≠ k)).map g))
        rw [ih hm hn.2, ← UInt8.xor_assoc, ← UInt8.xor_assoc, UInt8.xor_comm (g a)]
  rw [key, UInt8.xor_assoc, UInt8.xor_self, UInt8.xor_zero]

theorem xorNat_split (g : Nat → Nat) (l : List Nat) (k : Nat) (hk : k ∈ l) (hn : l.Nodup) : xorNat (l.map g) ^^^ xorNat ((l.filter (· ≠ k)).map g) = g k := by
  have key : xorNat (l.map g) = g k ^^^ xorNat ((l.filter (· ≠ k)).map g) := by
    induction l with
    | nil => cases hk
    | cons a l ih =>
      rw [List.nodup_cons] at hn
      by_cases ha : a = k
      · subst ha
        have : l.filter (· ≠ a) = l := by
          rw [List.filter_eq_self]
          intro x hx
          have : x ≠ a := fun h => hn.1 (h ▸ hx)
          simp [this]
        rw [List.filter_cons, if_neg (by simp), this]
        rfl
      · have hm : k ∈ l := by
          rcases List.mem_cons.1 hk with h | h
          · exact absurd h.symm ha
          · exact h
        rw [List.filter_cons, if_pos (by simp [ha])]
        show g a ^^^ xorNat (l.map g) = g k ^^^ (g a ^^^ xorNat ((l.filter (· ≠ k)).map g))
        rw [ih hm hn.2, ← Nat.xor_assoc, ← Nat.xor_assoc, Nat.xor_comm (g a)]
  rw [key, Nat.xor_assoc, Nat.xor_self, Nat.xor_zero]

theorem xorNat_lt (l : List Nat) (h : ∀ x ∈ l, x < 65536) : xorNat l < 65536 := by
  induction l with
  | nil => decide
  | cons a l ih => exact Nat.xor_lt_two_pow (n := 16) (h a (by simp)) (ih fun x hx => h x (by simp [hx]))

theorem media_hsize {seq : Nat} {p : Bytes} (h : Media seq p) : Rtp.getHsize p = some 12 ∧ Rtp.getPayloadSize p = some (p.length - 12) := by
  have h1 : Rtp.getHsize p = some 12 := by
    unfold Rtp.getHsize
    rw [h.first]; rfl
  have h2 : Rtp.paddingLen p = some 0 := by
    unfold Rtp.paddingLen
    rw [h.first]; rfl
  refine ⟨h1, ?_⟩
  unfold Rtp.getPayloadSize
  rw [h1, h2]
  have := h.long
  show (if _ then _ else _) = _
  rw [if_neg (by omega)]
  congr 1

theorem at_byte (p : Bytes) (i : Nat) : at' p i = byte p i := by simp [at', byte, List.getD_eq_getElem?_getD]

/-! ## The bytes of a correction -/

section
variable (base : Nat) (offs : List Nat) (p : Nat → Bytes)

/-- The protected length. -/
def most : Nat := (offs.map fun i => (p i).length - 12).foldr max 0

theorem most_ge {k : Nat} (h : k ∈ offs) : (p k).length - 12 ≤ most offs p := by
  unfold most
  induction offs with
  | nil => cases h
  | cons a l ih =>
    rw [List.map_cons, List.foldr_cons]
    rcases List.mem_cons.1 h with rfl | h
    · exact Nat.le_max_left _ _
    · exact Nat.le_trans (ih h) (Nat.le_max_right _ _)

theorem most_lt (h : ∀ i ∈ offs, (p i).length < 65536) : most offs p < 65536 := by
  unfold most
  induction offs with
  | nil => simp
  | cons a l ih =>
    rw [List.map_cons, List.foldr_cons]
    have h1 := h a (by simp)
    have h2 := ih fun i hi => h i (by simp [hi])
    omega

theorem protect_length : (protect base offs p).length = 14 + most offs p := by
  unfold protect most
  simp only [List.length_append, List.length_map, List.length_range, List.length_cons, List.length_nil]

theorem protect_byte {j : Nat} (hj : j < most offs p) : at' (protect base offs p) (14 + j) = xorAll (offs.map fun i => byte (p i) (12 + j)) := by
  unfold at' protect
  have hj' : j < (offs.map fun i => (p i).length - 12).foldr max 0 := hj
  simp only
  rw [List.getD_eq_getElem?_getD, List.getElem?_append_right (by simp)]
  simp [hj']
end

theorem xor80 (m : Nat) : xorAll (List.replicate m 0x80) = if m % 2 = 0 then 0 else 0x80 := by
  induction m with
  | zero => rfl
  | succ m ih =>
    show 0x80 ^^^ xorAll (List.replicate m 0x80) = _
    rw [ih]
    by_cases h : m % 2 = 0
    · rw [if_pos h, if_neg (by omega)]; decide
    · rw [if_neg h, if_pos (by omega)]; decide

/-! ## Which packet is missing -/

theorem bits_full : ((List.range 16).filter fun i => maskBit (if i / 8 = 0 then 0xff else 0xff) (i % 8)) = List.range 16 ∧
    ((List.range 16).filter fun i => maskBit (if i / 8 = 0 then 0xff else 0) (i % 8)) = List.range 8 := by decide

theorem filter_one (n k : Nat) (hk : k < n) : (List.range n).filter (fun i => decide (i = k)) = [k] := by
  induction n with
  | zero => omega
  | succ n ih =>
    rw [List.range_succ, List.filter_append]
    by_cases h : k = n
    · subst h
      have : (List.range k).filter (fun i => decide (i = k)) = [] := by
        rw [List.filter_eq_nil_iff]
        intro x hx
        have := List.mem_range.1 hx
        simp; omega
      rw [this]; simp
    · rw [ih (by omega)]
      have : n ≠ k := fun h' => h h'.symm
      simp [this]

/-- All but one were received. -/
structure Got (h : Hist) (base n k : Nat) (p : Nat → Bytes) : Prop where
  lost : find h ((base + k) % 65536) = none
  others : ∀ i < n, i ≠ k → find h ((base + i) % 65536) = some (p i)

theorem got_missing {h : Hist} {base n k : Nat} {p : Nat → Bytes} (hg : Got h base n k p) (hk : k < n) :
    (((List.range n).map fun i => (base + i) % 65536).filter fun s => (find h s).isNone) = [(base + k) % 65536] ∧
    ((List.range n).map fun i => (base + i) % 65536).filterMap (find h) = ((List.range n).filter (· ≠ k)).map p := by
  constructor
  · rw [List.filter_map]
    have : (List.range n).filter ((fun s => (find h s).isNone) ∘ fun i => (base + i) % 65536) = (List.range n).filter (fun i => decide (i = k)) := by
      refine List.filter_congr ?_
      intro i hi
      have hin := List.mem_range.1 hi
      show (find h ((base + i) % 65536)).isNone = _
      by_cases hik : i = k
      · subst hik; rw [hg.lost]; simp
      · rw [hg.others i hin hik]; simp [hik]
    rw [this, filter_one n k hk]; rfl
  · rw [List.filterMap_map]
    have key : ∀ l : List Nat, (∀ i ∈ l, i < n) → l.filterMap (find h ∘ fun i => (base + i) % 65536) = (l.filter (· ≠ k)).map p := by
      intro l
      induction l with
      | nil => intro _; rfl
      | cons a l ih =>
        intro hl
        have ha := hl a (by simp)
        have e : (find h ∘ fun i => (base + i) % 65536) a = find h ((base + a) % 65536) := rfl
        by_cases hak : a = k
        · subst hak
          rw [List.filterMap_cons, e, hg.lost, List.filter_cons, if_neg (by simp)]
          exact ih fun i hi => hl i (by simp [hi])
        · rw [List.filterMap_cons, e, hg.others a ha hak, List.filter_cons, if_pos (by simp [hak]), List.map_cons]
          simp only
          rw [ih fun i hi => hl i (by simp [hi])]
    exact key _ fun i hi => List.mem_range.1 hi

end Verif.Ulp
