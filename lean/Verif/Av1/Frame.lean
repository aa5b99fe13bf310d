import Verif.Av1.Props

/-!
# C119: whole frames
-/

namespace Verif.Av1
open Verif

/-- An open bitstream unit with a size field: type, extension byte and payload. -/
structure Spec.Obu where
  /-- type, 0 to 15 -/
  kind : Nat
  /-- extension -/
  ext : Option UInt8
  /-- payload -/
  pay : Bytes

/-- Its bytes. -/
def Spec.Obu.bytes (o : Spec.Obu) : Bytes :=
  [UInt8.ofNat (o.kind * 8 + (if o.ext.isSome then 4 else 0) + 2)] ++ o.ext.toList ++ leb128 o.pay.length ++ o.pay

/-- Valid: temporal delimiters (type 2) are empty. -/
def Spec.Obu.Ok (o : Spec.Obu) : Prop := o.kind < 16 ∧ (o.kind = 2 → o.pay = []) ∧ o.pay.length < 2 ^ 28

theorem size_leb : ∀ (f n : Nat) (pre r : Bytes) (F pl i : Nat), n < 128 ^ (f + 1) → (lebLoop (f + 1) n).length ≤ F →
    sizeField (pre ++ (lebLoop (f + 1) n ++ r)) F pre.length pl i = some (pl + n * 2 ^ (i * 7), pre.length + (lebLoop (f + 1) n).length) := by
  have last : ∀ (n : Nat) (pre r : Bytes) (F pl i : Nat), n < 128 → 1 ≤ F →
      sizeField (pre ++ ([UInt8.ofNat n] ++ r)) F pre.length pl i = some (pl + n * 2 ^ (i * 7), pre.length + 1) := by
    intro n pre r F pl i hn hF
    cases F with
    | zero => omega
    | succ F =>
      have hg : (pre ++ ([UInt8.ofNat n] ++ r)).getD pre.length 0 = UInt8.ofNat n := by
        rw [List.getD_eq_getElem?_getD, List.getElem?_append_right (Nat.le_refl _), Nat.sub_self]; rfl
      unfold sizeField
      rw [hg, UInt8.toNat_ofNat', Nat.mod_eq_of_lt (a := n) (b := 2 ^ 8) (by omega), if_neg (by simp), if_neg (by omega), Nat.mod_eq_of_lt hn]
  intro f
  induction f with
  | zero =>
    intro n pre r F pl i hn hF
    have hn : n < 128 := by simpa using hn
    have hl : lebLoop (0 + 1) n = [UInt8.ofNat n] := by unfold lebLoop; rw [if_neg (by omega)]
    rw [hl] at hF ⊢
    exact last n pre r F pl i hn hF
  | succ f ih =>
    intro n pre r F pl i hn hF
    by_cases c : 0x80 ≤ n
    · have hl : lebLoop (f + 1 + 1) n = UInt8.ofNat (n % 128 + 128) :: lebLoop (f + 1) (n / 128) := by
        conv => lhs; unfold lebLoop
        rw [if_pos c]
      rw [hl] at hF ⊢
      cases F with
      | zero => simp at hF
      | succ F =>
        have hg : (pre ++ (UInt8.ofNat (n % 128 + 128) :: lebLoop (f + 1) (n / 128) ++ r)).getD pre.length 0 = UInt8.ofNat (n % 128 + 128) := by
          rw [List.getD_eq_getElem?_getD, List.getElem?_append_right (Nat.le_refl _), Nat.sub_self]; rfl
        unfold sizeField
        rw [hg, UInt8.toNat_ofNat', Nat.mod_eq_of_lt (a := n % 128 + 128) (b := 2 ^ 8) (by omega), if_neg (by simp), if_pos (by omega)]
        have e : pre ++ (UInt8.ofNat (n % 128 + 128) :: lebLoop (f + 1) (n / 128) ++ r) = (pre ++ [UInt8.ofNat (n % 128 + 128)]) ++ (lebLoop (f + 1) (n / 128) ++ r) := by simp
        have e1 : pre.length + 1 = (pre ++ [UInt8.ofNat (n % 128 + 128)]).length := by simp
        rw [e, e1, ih (n / 128) _ r F _ (i + 1) (by rw [Nat.pow_succ] at hn; omega) (by simpa using hF)]
        have hp : 2 ^ ((i + 1) * 7) = 128 * 2 ^ (i * 7) := by rw [Nat.add_mul, Nat.pow_add]; omega
        rw [hp]
        generalize 2 ^ (i * 7) = q
        have hq : pl + (n % 128 + 128) % 128 * q + n / 128 * (128 * q) = pl + n * q := by
          rw [show (n % 128 + 128) % 128 = n % 128 by omega, ← Nat.mul_assoc, Nat.add_assoc, ← Nat.add_mul]
          congr 2
          omega
        rw [hq]
        simp
        omega
    · have hl : lebLoop (f + 1 + 1) n = [UInt8.ofNat n] := by
        unfold lebLoop
        rw [if_neg c]
      rw [hl] at hF ⊢
      exact last n pre r F pl i (by omega) hF

theorem obu_size (o : Spec.Obu) (h : o.Ok) (r : Bytes) : obuSize (o.bytes ++ r) = o.bytes.length := by
  obtain ⟨k, e, p⟩ := o
  obtain ⟨h1, h2, h3⟩ := h
  simp only at h1 h2 h3
  have hn : p.length < 128 ^ (9 + 1) := Nat.lt_of_lt_of_le h3 (by decide)
  generalize hb : UInt8.ofNat (k * 8 + (if e.isSome then 4 else 0) + 2) = b
  have hbn : b.toNat = k * 8 + (if e.isSome then 4 else 0) + 2 := by
    rw [← hb, UInt8.toNat_ofNat', Nat.mod_eq_of_lt]
    split <;> omega
  have hby : Spec.Obu.bytes ⟨k, e, p⟩ = ([b] ++ e.toList) ++ (lebLoop (9 + 1) p.length ++ p) := by
    simp only [Spec.Obu.bytes, hb, leb128, List.append_assoc]
  have hd : Spec.Obu.bytes ⟨k, e, p⟩ ++ r = ([b] ++ e.toList) ++ (lebLoop (9 + 1) p.length ++ (p ++ r)) := by
    rw [hby]; simp only [List.append_assoc]
  have hlen : (Spec.Obu.bytes ⟨k, e, p⟩).length = ([b] ++ e.toList).length + (lebLoop (9 + 1) p.length).length + p.length := by
    rw [hby]; simp only [List.length_append]; omega
  have hs := fun F hF => size_leb 9 p.length ([b] ++ e.toList) (p ++ r) F 0 0 hn hF
  rw [← hd] at hs
  have hne : Spec.Obu.bytes ⟨k, e, p⟩ ++ r ≠ [] := by rw [hd]; simp
  have h0 : (Spec.Obu.bytes ⟨k, e, p⟩ ++ r).getD 0 0 = b := by rw [hd]; rfl
  have hhdr : (if b.toNat / 4 % 2 = 1 then 2 else 1) = ([b] ++ e.toList).length := by
    rw [hbn]
    cases e with
    | none => rw [if_neg (by simp; omega)]; rfl
    | some x => rw [if_pos (by simp; omega)]; rfl
  have hl2 : (Spec.Obu.bytes ⟨k, e, p⟩ ++ r).length = (Spec.Obu.bytes ⟨k, e, p⟩).length + r.length := List.length_append
  unfold obuSize
  rw [if_neg hne]
  simp only
  rw [h0, hhdr, if_pos (by rw [hbn]; split <;> omega), hs _ (by omega)]
  simp only [Nat.zero_mul, Nat.pow_zero, Nat.mul_one, Nat.zero_add]
  rw [if_neg (by omega)]
  by_cases hk : b.toNat / 8 % 16 = 2
  · have : k = 2 := by rw [hbn] at hk; split at hk <;> omega
    rw [if_pos hk, hlen, h2 this]
    rfl
  · rw [if_neg hk, hlen]
    omega

theorem split_obus : ∀ (os : List Spec.Obu), (∀ o ∈ os, o.Ok) → ∀ f, os.length < f → split f (os.flatMap (·.bytes)) = some (os.map (·.bytes)) := by
  intro os
  induction os with
  | nil =>
    intro _ f hf
    cases f with
    | zero => simp at hf
    | succ f => rfl
  | cons o t ih =>
    intro h f hf
    cases f with
    | zero => simp at hf
    | succ f =>
      have ho := obu_size o (h o (by simp)) (t.flatMap (·.bytes))
      unfold split
      rw [List.flatMap_cons, if_neg (by simp [Spec.Obu.bytes]), ho, List.drop_left, List.take_left, ih (fun x hx => h x (by simp [hx])) f (by simpa using hf)]
      rfl

theorem obu_ne (o : Spec.Obu) : o.bytes ≠ [] := by simp [Spec.Obu.bytes]

/-- C119, whole frames of valid units with size fields of which only the first is shorter than four bytes: packets are made, none is larger than allowed, and a receiver gets the
units of the frame. -/
theorem C119_frame_partial (max h : Nat) (hm : h + 5 < max) (h12 : 12 ≤ max) (hx : max < 2 ^ 21) (os : List Spec.Obu) (hok : ∀ o ∈ os, o.Ok)
    (h4 : ∀ o ∈ os.tail, 4 ≤ o.bytes.length) :
    ∃ pkts, sendAV1 max h (os.flatMap (·.bytes)) = some pkts ∧ (∀ p ∈ pkts, p.size h ≤ max) ∧ Spec.recv [] pkts = os.map (·.bytes) := by
  have hc : ∀ l : List Spec.Obu, l.length ≤ (l.flatMap (·.bytes)).length := by
    intro l
    induction l with
    | nil => exact Nat.le_refl 0
    | cons o t ih =>
      have := List.length_pos_iff.2 (obu_ne o)
      rw [List.flatMap_cons, List.length_append, List.length_cons]
      omega
  unfold sendAV1
  rw [split_obus os hok _ (Nat.lt_succ_of_le (hc os)), Option.bind_some]
  refine C119_rtp_partial max h hm h12 hx (os.map (·.bytes)) ?_ ?_
  · intro o ho
    obtain ⟨x, _, rfl⟩ := List.mem_map.1 ho
    exact obu_ne x
  · intro o ho
    rw [← List.map_tail] at ho
    obtain ⟨x, hxt, rfl⟩ := List.mem_map.1 ho
    exact h4 x hxt

/-- A case: temporal delimiter, sequence header with extension, frame of 200 bytes. -/
example : (∀ o ∈ ([⟨2, none, []⟩, ⟨1, some 8, [1, 2, 3]⟩, ⟨6, none, List.replicate 200 5⟩] : List Spec.Obu), o.kind < 16 ∧ (o.kind = 2 → o.pay = []) ∧ o.pay.length < 2 ^ 28)
    ∧ ∀ o ∈ ([⟨2, none, []⟩, ⟨1, some 8, [1, 2, 3]⟩, ⟨6, none, List.replicate 200 5⟩] : List Spec.Obu).tail, 4 ≤ o.bytes.length := by
  decide +kernel

/-- The bytes of a unit before its payload. -/
def Spec.Obu.head (o : Spec.Obu) : Bytes :=
  [UInt8.ofNat (o.kind * 8 + (if o.ext.isSome then 4 else 0) + 2)] ++ o.ext.toList ++ leb128 o.pay.length

theorem obu_cut (o : Spec.Obu) (h : o.Ok) (x : Bytes) (hx : x.length < o.pay.length) : obuSize (o.head ++ x) = 0 := by
  obtain ⟨k, e, p⟩ := o
  obtain ⟨h1, h2, h3⟩ := h
  simp only at h1 h2 h3 hx
  have hn : p.length < 128 ^ (9 + 1) := Nat.lt_of_lt_of_le h3 (by decide)
  generalize hb : UInt8.ofNat (k * 8 + (if e.isSome then 4 else 0) + 2) = b
  have hbn : b.toNat = k * 8 + (if e.isSome then 4 else 0) + 2 := by
    rw [← hb, UInt8.toNat_ofNat', Nat.mod_eq_of_lt]
    split <;> omega
  have hd : Spec.Obu.head ⟨k, e, p⟩ ++ x = ([b] ++ e.toList) ++ (lebLoop (9 + 1) p.length ++ x) := by
    simp only [Spec.Obu.head, hb, leb128, List.append_assoc]
  have hlen : (Spec.Obu.head ⟨k, e, p⟩ ++ x).length = ([b] ++ e.toList).length + (lebLoop (9 + 1) p.length).length + x.length := by
    rw [hd]; simp only [List.length_append]; omega
  have hs := fun F hF => size_leb 9 p.length ([b] ++ e.toList) x F 0 0 hn hF
  rw [← hd] at hs
  have hne : Spec.Obu.head ⟨k, e, p⟩ ++ x ≠ [] := by rw [hd]; simp
  have h0 : (Spec.Obu.head ⟨k, e, p⟩ ++ x).getD 0 0 = b := by rw [hd]; rfl
  have hhdr : (if b.toNat / 4 % 2 = 1 then 2 else 1) = ([b] ++ e.toList).length := by
    rw [hbn]
    cases e with
    | none => rw [if_neg (by simp; omega)]; rfl
    | some x => rw [if_pos (by simp; omega)]; rfl
  unfold obuSize
  rw [if_neg hne]
  simp only
  rw [h0, hhdr, if_pos (by rw [hbn]; split <;> omega), hs _ (by omega)]
  simp only [Nat.zero_mul, Nat.pow_zero, Nat.mul_one, Nat.zero_add]
  rw [if_pos (by omega)]

theorem split_cut (d : Bytes) (hd : d ≠ []) (h0 : obuSize d = 0) : ∀ f, split f d = none
  | 0 => rfl
  | f + 1 => by
    unfold split
    rw [if_neg hd, h0, List.drop_zero, split_cut d hd h0 f]
    rfl

theorem split_units_cut (d : Bytes) (hd : d ≠ []) (h0 : obuSize d = 0) :
    ∀ (os : List Spec.Obu), (∀ o ∈ os, o.Ok) → ∀ f, split f (os.flatMap (·.bytes) ++ d) = none := by
  intro os
  induction os with
  | nil =>
    intro _ f
    exact split_cut d hd h0 f
  | cons o t ih =>
    intro h f
    cases f with
    | zero => rfl
    | succ f =>
      unfold split
      rw [List.flatMap_cons, List.append_assoc, if_neg (by simp [Spec.Obu.bytes]), obu_size o (h o (by simp)), List.drop_left, ih (fun x hx => h x (by simp [hx])) f]
      rfl

/-- The code breaks C119 for every frame whose last unit lacks bytes of its payload: the loop over the units does not end. -/
theorem C119_truncated_fails (max h : Nat) (os : List Spec.Obu) (hok : ∀ o ∈ os, o.Ok) (l : Spec.Obu) (hl : l.Ok) (k : Nat) (hk : k < l.pay.length) :
    (∀ f, split f (os.flatMap (·.bytes) ++ (l.head ++ l.pay.take k)) = none) ∧ sendAV1 max h (os.flatMap (·.bytes) ++ (l.head ++ l.pay.take k)) = none := by
  have hs := split_units_cut (l.head ++ l.pay.take k) (by simp [Spec.Obu.head]) (obu_cut l hl _ (by rw [List.length_take]; omega)) os hok
  refine ⟨hs, ?_⟩
  unfold sendAV1
  rw [hs]
  rfl

/-- A case: one byte of the last unit is missing. -/
example : (⟨6, none, [1, 2, 3]⟩ : Spec.Obu).head ++ [1, 2] = [0x32, 3, 1, 2] := by decide +kernel

end Verif.Av1
