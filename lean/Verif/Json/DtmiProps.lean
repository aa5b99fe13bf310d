import Verif.Json.DtmiLemmas

/-!
# The binary form of JSON values: properties C21, C54 and C55
-/
namespace Verif.Json
open Spec Verif.Bit

variable (bits : Dbl → Nat) (ofBits : Nat → Dbl)

/-! ## C21: packing -/

/-- C21: the predicted size is the size of what is written. Missing: doubles, for which it is false (`C21_double_fails`). -/
theorem C21_size_partial (v : JVal) (h : NoDbl v) : (pack bits v).length = packedSize v := pack_size bits v h

/-- C21: values of any depth come back equal, and exactly the bytes written for them are consumed, whatever stands before
and after them. Missing: doubles, booleans, unset values, empty objects and arrays, empty keys, keys above 65535 bytes and
strings of 4 GiB (`C21_double_fails`, `C21_fails`). -/
theorem C21_partial (v : JVal) (hf : Fits v) (he : Exact v) (pre rest : Bytes)
    (hlen : (pre ++ pack bits v ++ rest).length + 8 < 2 ^ 32) (n : Nat) (hn : (pack bits v).length < n) :
    decode ofBits n (pre ++ pack bits v ++ rest) (pre ++ pack bits v ++ rest).length pre.length =
      .ok (v, pre.length + (pack bits v).length) := by
  have h := dupto (bits := bits) (ofBits := ofBits) (n + 1) n (by omega) v (pre ++ pack bits v ++ rest)
    (pre ++ pack bits v ++ rest).length pre.length rest hf (by rw [List.append_assoc, List.drop_left])
    (by simp only [List.length_append]; omega) (Nat.le_refl _) hlen hn
  rw [h, norm_exact v he]

/-- C21: what happens to the other values without doubles: they are decoded without losing the place in the data, and come
back with the changes listed at `norm`. -/
theorem C21_changed (v : JVal) (hf : Fits v) (pre rest : Bytes) (hlen : (pre ++ pack bits v ++ rest).length + 8 < 2 ^ 32) (n : Nat)
    (hn : (pack bits v).length < n) :
    decode ofBits n (pre ++ pack bits v ++ rest) (pre ++ pack bits v ++ rest).length pre.length =
      .ok (norm v, pre.length + (pack bits v).length) :=
  dupto (bits := bits) (ofBits := ofBits) (n + 1) n (by omega) v (pre ++ pack bits v ++ rest)
    (pre ++ pack bits v ++ rest).length pre.length rest hf (by rw [List.append_assoc, List.drop_left])
    (by simp only [List.length_append]; omega) (Nat.le_refl _) hlen hn

/-- C21: the same for a whole string. -/
theorem C21_string_partial (v : JVal) (hf : Fits v) (he : Exact v) (hlen : (pack bits v).length + 9 < 2 ^ 32) (n : Nat)
    (hn : (pack bits v).length < n) : fromDTMI ofBits n (pack bits v) = .ok (v, (pack bits v).length) := by
  have h := dupto (bits := bits) (ofBits := ofBits) (n + 1) n (by omega) v (pack bits v ++ [0]) (pack bits v).length 0 [0] hf
    (by rw [List.drop_zero]) (by omega) (by simp) (by omega) hn
  rw [fromDTMI, h, norm_exact v he, Nat.zero_add]

/-- C21 does not hold for doubles: ten bytes are written where nine are predicted, the value that is read depends on the low
half of the pattern only, and a list of one double comes back as a list of two. -/
theorem C21_double_fails (d : Dbl) : (pack bits (.dbl d)).length = packedSize (.dbl d) + 1 ∧
    fromDTMI ofBits 20 (pack bits (.dbl d)) = .ok (.dbl (ofBits (bits d % 2 ^ 32)), 9) ∧
    fromDTMI ofBits 20 (pack bits (.arr [.dbl d])) = .ok (.arr [.dbl (ofBits (bits d % 2 ^ 32)), .unset], 14) := by
  have e : ∀ (b : UInt8) (r : Bytes), load .ll (b :: (htob .ll (bits d % 2 ^ 32) ++ r)) 1 = some (bits d % 2 ^ 32) := by
    intro b r
    rw [load_be .ll rfl (bits d % 2 ^ 32) (r := r) rfl]
    exact congrArg some (Nat.mod_eq_of_lt (by
      have : (256 : Nat) ^ Codec.ll.width = 2 ^ 64 := by decide
      omega))
  have e2 : ∀ (a b : UInt8) (r : Bytes), load .ll (a :: b :: (htob .ll (bits d % 2 ^ 32) ++ r)) 2 = some (bits d % 2 ^ 32) := by
    intro a b r
    rw [load_be .ll rfl (bits d % 2 ^ 32) (r := r) rfl]
    exact congrArg some (Nat.mod_eq_of_lt (by
      have : (256 : Nat) ^ Codec.ll.width = 2 ^ 64 := by decide
      omega))
  have hl : (htob .ll (bits d % 2 ^ 32)).length = 8 := rfl
  refine ⟨by rw [pack, packedSize]; rfl, ?_, ?_⟩
  · have := e 4 ([56] ++ [0])
    rw [fromDTMI, pack]
    simp only [List.cons_append, List.append_assoc, List.length_cons, List.length_append, hl, List.nil_append, List.length_nil] at this ⊢
    rw [decode]
    simp [R.of, R.bind, this, w32]
  · have := e2 10 4 ([56] ++ [0, 0, 0xEE] ++ [0])
    rw [fromDTMI, pack]
    simp only [packElems, pack, List.cons_append, List.append_assoc, List.length_cons, List.length_append, hl, List.nil_append,
      List.length_nil, List.append_nil] at this ⊢
    rw [decode]
    simp only [htob, List.cons_append, List.nil_append] at this ⊢
    simp [R.of, R.bind, w32, decodeElems, decode, this]

/-- C21 does not hold for booleans, empty lists and empty keys either. -/
theorem C21_fails :
    fromDTMI ofBits 20 (pack bits (.bool true)) = .ok (.int 1, 9) ∧
    fromDTMI ofBits 20 (pack bits (.arr [])) = .ok (.unset, 4) ∧
    fromDTMI ofBits 20 (pack bits (.obj [])) = .ok (.unset, 4) ∧
    fromDTMI ofBits 20 (pack bits (.obj [([], .int 7)])) = .ok (.unset, 4) := by
  have h : ∀ v, Fits v → (pack bits v).length + 9 < 2 ^ 32 → (pack bits v).length < 20 →
      fromDTMI ofBits 20 (pack bits v) = .ok (norm v, (pack bits v).length) := by
    intro v hf hl hn
    have h := dupto (bits := bits) (ofBits := ofBits) 21 20 (by omega) v (pack bits v ++ [0]) (pack bits v).length 0 [0] hf
      (by rw [List.drop_zero]) (by omega) (by simp) (by omega) hn
    rw [fromDTMI, h, Nat.zero_add]
  have l1 : (pack bits (.bool true)).length = 9 := by rw [pack]; rfl
  have l2 : (pack bits (.arr [])).length = 4 := by rw [pack, packElems]; rfl
  have l3 : (pack bits (.obj [])).length = 4 := by rw [pack, packMembers]; rfl
  have l4 : (pack bits (.obj [([], .int 7)])).length = 4 := by rw [pack, packMembers, packMembers]; rfl
  refine ⟨?_, ?_, ?_, ?_⟩
  · rw [h _ (by simp [Fits]) (by omega) (by omega), l1]; rfl
  · rw [h _ (by simp [Fits, FitsElems]) (by omega) (by omega), l2]; rfl
  · rw [h _ (by simp [Fits, FitsMembers]) (by omega) (by omega), l3]; rfl
  · rw [h _ (by simp [Fits, FitsMembers]) (by omega) (by omega), l4]; rfl

/-- An object with an integer, a list and a string in it. -/
example : Fits (.obj [([97], .arr [.int (-2), .null]), ([98, 99], .str [1, 2, 3])]) ∧
    Exact (.obj [([97], .arr [.int (-2), .null]), ([98, 99], .str [1, 2, 3])]) := by
  constructor
  · simp only [Fits, FitsMembers, FitsElems]
    refine ⟨by decide, ?_⟩
    simp
  · simp [Exact, ExactMembers, ExactElems]

example : pack (fun _ => 0) (.obj [([97], .arr [.int (-2), .null]), ([98, 99], .str [1, 2, 3])]) =
    [0xE0, 0, 1, 97, 0x0A, 1, 255, 255, 255, 255, 255, 255, 255, 254, 3, 0, 0, 0xEE, 0, 2, 98, 99, 2, 0, 0, 0, 3, 1, 2, 3, 0, 0, 0xEE] := by
  decide +kernel

/-! ## C54: decoding stays inside the data -/

/-- C54 does not hold: one byte that announces an object makes the decoder read behind the terminating zero, and so does a
string whose length is larger than the data. -/
theorem C54_fails : (∃ n, fromDTMI ofBits n [0xE0] = .oob) ∧ (∃ n, fromDTMI ofBits n [2, 0, 1, 0, 0] = .oob) := by
  refine ⟨⟨2, ?_⟩, ⟨1, ?_⟩⟩
  · simp [fromDTMI, decode, decodeMembers, R.of, R.bind, w32]
  · have : load .l ([2, 0, 1, 0, 0] ++ [0]) 1 = some 65536 := by decide +kernel
    simp only [List.cons_append, List.nil_append] at this
    simp [fromDTMI, decode, R.of, R.bind, w32, this, sub]

/-- C54: data that begins with an integer, a null, a double or an unknown type is decoded without reading outside it, for
any content. Missing: strings, objects and arrays, for which the claim is false unless the server wrote them (then
`C21_string_partial` says that decoding ends well). -/
theorem C54_partial (s : Bytes) (h : s.length + 8 < 2 ^ 32) (hs : ∀ b ∈ s.head?, b ≠ 2 ∧ b ≠ 0xE0 ∧ b ≠ 0xFF ∧ b ≠ 0x0A) (n : Nat) :
    ∃ r, fromDTMI ofBits (n + 1) s = .ok r := by
  have ld : 9 ≤ s.length → ∃ v, load .ll (s ++ [0]) 1 = some v := by
    intro hl
    match s, hl with
    | a :: b :: c :: d :: e :: f :: g :: i :: j :: r, _ => exact ⟨_, rfl⟩
  rw [fromDTMI, decode]
  cases s with
  | nil => simp
  | cons b r =>
    obtain ⟨h2, h3, h4, h5⟩ := hs b (by simp)
    rw [if_neg (by simp)]
    simp only [List.cons_append, List.getElem?_cons_zero, R.of, R.bind, Nat.zero_add, if_neg h2, if_neg (show ¬ (b = 0xFF ∨ b = 0xE0) by grind),
      if_neg h5]
    split
    · split
      · exact ⟨_, rfl⟩
      · rename_i hl
        obtain ⟨v, hv⟩ := ld (by rw [w32_of (by decide)] at hl; omega)
        simp only [List.cons_append] at hv
        rw [hv]
        exact ⟨_, rfl⟩
    · split
      · exact ⟨_, rfl⟩
      · split
        · split
          · exact ⟨_, rfl⟩
          · rename_i hl
            obtain ⟨v, hv⟩ := ld (by rw [w32_of (by decide)] at hl; omega)
            simp only [List.cons_append] at hv
            rw [hv]
            exact ⟨_, rfl⟩
        · exact ⟨_, rfl⟩

example : fromDTMI (fun _ => ⟨false, 0, []⟩) 1 [1, 0, 0, 0, 0, 0, 0, 1, 2] = .ok (.int 258, 9) := by
  have e : load .ll ([1, 0, 0, 0, 0, 0, 0, 1, 2] ++ [0]) 1 = some 258 := by decide +kernel
  simp only [List.cons_append, List.nil_append] at e
  simp [fromDTMI, decode, R.of, R.bind, w32, e, toI64]

/-! ## C55: decoding ends -/

theorem stuck (n : Nat) (acc : List JVal) : decodeElems ofBits n [0x0A, 1, 0, 1, 0] 4 1 acc = .more := by
  induction n generalizing acc with
  | zero => rw [decodeElems]
  | succ n ih =>
    rw [decodeElems]
    simp only [List.getElem?_cons_succ, List.getElem?_cons_zero, R.of, R.bind]
    rw [if_pos (by decide)]
    cases n with
    | zero => rw [decode]
    | succ n =>
      have : decode ofBits (n + 1) [0x0A, 1, 0, 1, 0] 4 1 = .ok (.unset, 1) := by
        rw [decode, if_neg (by decide)]
        simp [R.of, R.bind, w32]
      rw [this]
      exact ih _

/-- C55 does not hold: the four bytes `0A 01 00 01`, a list with an integer that is cut short, are decoded for ever, and the
list grows with every round. -/
theorem C55_fails (n : Nat) : fromDTMI ofBits n [0x0A, 1, 0, 1] = .more := by
  cases n with
  | zero => rw [fromDTMI, decode]
  | succ n =>
    rw [fromDTMI, decode]
    simp only [List.cons_append, List.nil_append, List.length_cons, List.length_nil, List.getElem?_cons_zero, R.of, R.bind]
    rw [if_neg (by decide)]
    simp only [show (10 : UInt8) ≠ 1 by decide, show (10 : UInt8) ≠ 2 by decide, show (10 : UInt8) ≠ 3 by decide,
      show (10 : UInt8) ≠ 4 by decide, show ¬((10 : UInt8) = 0xFF ∨ (10 : UInt8) = 0xE0) by decide, if_false, if_true]
    have := stuck ofBits n []
    have e : w32 (0 + 1) = 1 := by decide
    rw [e, show (0 + 1 + 1 + 1 + 1) = 4 from rfl, this]

/-- Decoding without lists: it ends and never goes back. -/
theorem ends_nolist (buf : Bytes) (len : Nat) (hl : len ≤ buf.length) (h32 : buf.length + 8 < 2 ^ 32) (hno : (0x0A : UInt8) ∉ buf) (n : Nat) :
    (∀ i, 2 * (len - i) + 1 ≤ n → decode ofBits n buf len i ≠ .more ∧ ∀ v j, decode ofBits n buf len i = .ok (v, j) → i ≤ j) ∧
    (∀ i acc, 2 * (len - i) + 2 ≤ n → decodeMembers ofBits n buf len i acc ≠ .more ∧
      ∀ l j, decodeMembers ofBits n buf len i acc = .ok (l, j) → i ≤ j) := by
  induction n with
  | zero => exact ⟨fun i h => by omega, fun i acc h => by omega⟩
  | succ n ih =>
    constructor
    · intro i hn
      rw [decode]
      by_cases hi : i ≥ len
      · rw [if_pos hi]
        exact ⟨by simp, by rintro v j e; cases e; exact Nat.le_refl _⟩
      · rw [if_neg hi]
        have hlt : i < buf.length := by omega
        rw [List.getElem?_eq_getElem hlt]
        have hne : buf[i] ≠ 0x0A := fun e => hno (e ▸ List.getElem_mem hlt)
        simp only [R.of, R.bind, if_neg hne]
        split
        · split
          · exact ⟨by simp, by rintro v j e; cases e; exact Nat.le_refl _⟩
          · cases load .ll buf (i + 1) with
            | none => exact ⟨by simp, by rintro v j e; cases e⟩
            | some v =>
              refine ⟨by simp, ?_⟩
              rintro v j e
              cases e
              rw [w32_of (by omega)]
              omega
        · split
          · split
            · exact ⟨by simp, by rintro v j e; cases e; exact Nat.le_refl _⟩
            · cases load .l buf (i + 1) with
              | none => exact ⟨by simp, by rintro v j e; cases e⟩
              | some k =>
                dsimp only
                rw [sub]
                by_cases hk : i + 5 + k ≤ buf.length
                · rw [if_pos hk]
                  dsimp only
                  split
                  · exact ⟨by simp, by rintro v j e; cases e; exact Nat.le_refl _⟩
                  · refine ⟨by simp, ?_⟩
                    rintro v j e
                    cases e
                    rw [w32_of (by omega)]
                    omega
                · rw [if_neg hk]
                  exact ⟨by simp, by rintro v j e; cases e⟩
          · split
            · refine ⟨by simp, ?_⟩
              rintro v j e
              cases e
              rw [w32_of (by omega)]
              omega
            · split
              · split
                · exact ⟨by simp, by rintro v j e; cases e; exact Nat.le_refl _⟩
                · cases load .ll buf (i + 1) with
                  | none => exact ⟨by simp, by rintro v j e; cases e⟩
                  | some v =>
                    refine ⟨by simp, ?_⟩
                    rintro v j e
                    cases e
                    rw [w32_of (by omega)]
                    omega
              · split
                · have h := ih.2 (w32 (i + 1)) [] (by rw [w32_of (by omega)]; omega)
                  rw [w32_of (show i + 1 < 2 ^ 32 by omega)] at h ⊢
                  cases hd : decodeMembers ofBits n buf len (i + 1) [] with
                  | oob => exact ⟨by simp, by rintro v j e; cases e⟩
                  | more => exact absurd hd h.1
                  | ok r =>
                    refine ⟨by simp, ?_⟩
                    rintro v j e
                    have := h.2 r.1 r.2 hd
                    cases e
                    omega
                · refine ⟨by simp, ?_⟩
                  rintro v j e
                  cases e
                  rw [w32_of (by omega)]
                  omega
    · intro i acc hn
      rw [decodeMembers]
      cases h0 : buf[i]? with
      | none => exact ⟨by simp [R.of, R.bind], by rintro v j e; cases e⟩
      | some a =>
        cases h1 : buf[i + 1]? with
        | none => exact ⟨by simp [R.of, R.bind], by rintro v j e; cases e⟩
        | some b =>
          have hib : i + 1 < buf.length := (List.getElem?_eq_some_iff.mp h1).1
          simp only [R.of, R.bind]
          split
          · rename_i hc
            split
            · exact ⟨by simp, by rintro v j e; cases e; exact Nat.le_refl _⟩
            · cases load .s buf i with
              | none => exact ⟨by simp, by rintro v j e; cases e⟩
              | some k =>
                dsimp only
                rw [sub]
                by_cases hk : i + 2 + k ≤ buf.length
                · rw [if_pos hk]
                  dsimp only
                  rw [w32_of (show i + (k + 2) < 2 ^ 32 by omega)]
                  have hd := ih.1 (i + (k + 2)) (by omega)
                  cases hr : decode ofBits n buf len (i + (k + 2)) with
                  | oob => exact ⟨by simp, by rintro v j e; cases e⟩
                  | more => exact absurd hr hd.1
                  | ok r =>
                    dsimp only
                    have hj := hd.2 r.1 r.2 hr
                    have hm := ih.2 r.2 (mapSet acc (List.take k (List.drop (i + 2) buf)) r.1) (by omega)
                    exact ⟨hm.1, fun l j e => by have := hm.2 l j e; omega⟩
                · rw [if_neg hk]
                  exact ⟨by simp, by rintro v j e; cases e⟩
          · refine ⟨by simp, ?_⟩
            rintro v j e
            cases e
            rw [w32_of (by omega)]
            omega

/-- C55: decoding ends for all data in which no byte announces a list. Missing: lists, for which the claim is false, unless
the server wrote them (`C21_string_partial`). -/
theorem C55_partial (s : Bytes) (h : s.length + 9 < 2 ^ 32) (hno : (0x0A : UInt8) ∉ s) : ∃ n, fromDTMI ofBits n s ≠ .more := by
  refine ⟨2 * s.length + 1, ?_⟩
  rw [fromDTMI]
  exact ((ends_nolist ofBits (s ++ [0]) s.length (by simp) (by simp only [List.length_append, List.length_cons, List.length_nil]; omega)
    (by simp only [List.mem_append, List.mem_cons, List.not_mem_nil, or_false]; rintro (h | h); exact hno h; cases h) _).1 0 (by omega)).1

/-- A cut-short object is such data. -/
example : (0x0A : UInt8) ∉ [0xE0, 0, 1, 97, 0xE0, 0, 1, 98, 1, 0, 0] := by decide

end Verif.Json
