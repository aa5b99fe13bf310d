import Verif.Http.Cut
import Verif.Http.Spec
import Verif.Enc.Props
import Verif.Query.Props
import Verif.Json.ParseLemmas

/-! # Lemmas: well-formed messages on the complete stream -/
namespace Verif.Http

theorem takeWhile_all {f : UInt8 → Bool} {l : Bytes} (h : ∀ c ∈ l, f c = true) : l.takeWhile f = l := by
  induction l with
  | nil => rfl
  | cons c r ih => rw [List.takeWhile_cons_of_pos (h c (by simp)), ih (fun c hc => h c (by simp [hc]))]

theorem cutCR_append (l : Bytes) (h : 13 ∉ l) : cutCR (l ++ [13]) = l := by
  unfold cutCR
  rw [List.takeWhile_append_of_pos (by
    intro a ha; simp only [bne_iff_ne, ne_eq]; rintro rfl; exact h ha)]
  simp

theorem cutCR_none (l : Bytes) (h : 13 ∉ l) : cutCR l = l := by
  unfold cutCR
  apply takeWhile_all
  intro a ha; simp only [bne_iff_ne, ne_eq]; rintro rfl; exact h ha

theorem whole_line (p : Parser) (l s : Bytes) (hs : p.seenHeaders = false) (hl : OneLineText l) :
    whole p (l ++ crlf ++ s) = whole (headerLine p l) s := by
  have h10 : 10 ∉ l ++ [13] := by simp [hl.2]
  have e : l ++ crlf ++ s = (l ++ [13]) ++ 10 :: s := by simp [crlf]
  rw [e, whole.eq_def, if_neg (by simp [hs]), dif_neg (by simp), findChar_append h10]
  simp only [List.take_left]
  rw [List.drop_append, List.drop_of_length_le (by simp)]
  have : headerLine p (l ++ [13]) = headerLine p l := by
    unfold headerLine; rw [cutCR_append l hl.1, cutCR_none l hl.1]
  rw [this]; simp

/-! ## Header fields -/

theorem fieldLine_text (p : Parser) (e : Bytes × Bytes) (hc : 58 ∉ e.1) (h1 : trim e.1 = e.1) (h2 : trim e.2 = e.2) :
    fieldLine p (e.1 ++ [58, 32] ++ e.2) = { p with headers := hset p.headers e.1 e.2 } := by
  unfold fieldLine
  have : e.1 ++ [58, 32] ++ e.2 = e.1 ++ 58 :: (32 :: e.2) := by simp
  rw [this, findChar_append hc]
  simp only [List.take_left]
  rw [List.drop_append, List.drop_of_length_le (by omega)]
  have ht : trim (32 :: e.2) = e.2 := by
    conv => rhs; rw [← h2]
    unfold trim; rw [List.dropWhile_cons_of_pos (by decide)]
  simp [h1, ht]

theorem whole_fields (h : List (Bytes × Bytes)) (keep : Bytes × Bytes → Bool) (hk : ∀ e ∈ h, keep e = true → e.1 ≠ [])
    (hh : HeadersOk h) (p : Parser) (s : Bytes) (hs : p.seenHeaders = false) (hr : p.seenReq = true) :
    whole p (h.flatMap (fun e => if keep e then e.1 ++ [58, 32] ++ e.2 ++ crlf else []) ++ s) =
      whole { p with headers := (h.filter keep).foldl (fun m e => hset m e.1 e.2) p.headers } s := by
  induction h generalizing p with
  | nil => rfl
  | cons e h ih =>
    rw [List.flatMap_cons]
    have he := hh e (by simp)
    have ih := fun p a b => ih (fun e he => hk e (by simp [he])) (fun e he => hh e (by simp [he])) p a b
    by_cases hkeep : keep e = true
    · rw [if_pos hkeep, List.filter_cons_of_pos hkeep, List.foldl_cons, List.append_assoc,
        whole_line p _ _ hs ⟨by simp [he.1.1, he.2.2.2.1.1], by simp [he.1.2, he.2.2.2.1.2]⟩]
      have hne := hk e (by simp) hkeep
      have hcut : cutCR (e.1 ++ [58, 32] ++ e.2) = e.1 ++ [58, 32] ++ e.2 :=
        cutCR_none _ (by simp [he.1.1, he.2.2.2.1.1])
      have hl : headerLine p (e.1 ++ [58, 32] ++ e.2) = { p with headers := hset p.headers e.1 e.2 } := by
        unfold headerLine
        rw [hcut, if_neg (by simp [hr]), if_neg (by simp), fieldLine_text p e he.2.1 he.2.2.1 he.2.2.2.2]
      rw [hl, ih _ (by exact hs) (by exact hr)]
    · rw [if_neg hkeep, List.filter_cons_of_neg hkeep, List.nil_append]
      exact ih p hs hr

theorem whole_end (p : Parser) (s : Bytes) (hs : p.seenHeaders = false) (hr : p.seenReq = true) :
    whole p (crlf ++ s) = wholeBody (endHeaders p) s := by
  have := whole_line p [] s hs ⟨by simp, by simp⟩
  rw [List.nil_append] at this
  rw [this]
  have : headerLine p [] = endHeaders p := by unfold headerLine; simp [hr, cutCR]
  rw [this, whole_seen _ _ rfl]

theorem hset_last (l : List (Bytes × Bytes)) (k v : Bytes) (h : ∀ a ∈ l.map (·.1), Json.keyLt a k = true) :
    hset l k v = l ++ [(k, v)] := by
  induction l with
  | nil => rfl
  | cons m r ih =>
    rw [hset, if_pos (h m.1 (by simp)), ih (fun a ha => h a (by simp at ha ⊢; right; exact ha))]; rfl

theorem foldl_hset (l acc : List (Bytes × Bytes)) (h : SortedHeaders (acc ++ l)) :
    l.foldl (fun m e => hset m e.1 e.2) acc = acc ++ l := by
  induction l generalizing acc with
  | nil => simp
  | cons e l ih =>
    rw [List.foldl_cons, hset_last]
    · rw [ih _ (by simpa [SortedHeaders] using h)]; simp
    · intro a ha
      unfold SortedHeaders at h
      rw [List.map_append, List.pairwise_append] at h
      exact h.2.2 a ha e.1 (by simp)

theorem sorted_filter {h : List (Bytes × Bytes)} (f : Bytes × Bytes → Bool) (hs : SortedHeaders h) :
    SortedHeaders (h.filter f) := by
  unfold SortedHeaders at *
  exact hs.sublist (List.filter_sublist.map _)

theorem keyLt_trans : ∀ {a b c : Bytes}, Json.keyLt a b = true → Json.keyLt b c = true → Json.keyLt a c = true
  | [], [], _, h, _ => by simp [Json.keyLt] at h
  | _ :: _, [], _, h, _ => by simp [Json.keyLt] at h
  | _, _ :: _, [], _, h => by simp [Json.keyLt] at h
  | [], _ :: _, _ :: _, _, _ => by simp [Json.keyLt]
  | x :: a, y :: b, z :: c, h1, h2 => by
    rw [Json.keyLt] at h1 h2 ⊢
    by_cases hxy : x.toNat < y.toNat
    · by_cases hyz : y.toNat < z.toNat
      · rw [if_pos (by omega)]
      · rw [if_neg hyz] at h2
        split at h2
        · cases h2
        · rw [if_pos (by omega)]
    · rw [if_neg hxy] at h1
      split at h1
      · cases h1
      · by_cases hyz : y.toNat < z.toNat
        · rw [if_pos (by omega)]
        · rw [if_neg hyz] at h2
          split at h2
          · cases h2
          · rw [if_neg (by omega), if_neg (by omega)]; exact keyLt_trans h1 h2

theorem keyLt_total : ∀ (a b : Bytes), Json.keyLt a b = true ∨ a = b ∨ Json.keyLt b a = true
  | [], [] => by simp
  | [], _ :: _ => by simp [Json.keyLt]
  | _ :: _, [] => by simp [Json.keyLt]
  | x :: a, y :: b => by
    rw [Json.keyLt, Json.keyLt]
    by_cases h : x.toNat < y.toNat
    · simp [h]
    · by_cases h' : y.toNat < x.toNat
      · simp [h, h']
      · have : x = y := Byte.ext_nat (by omega)
        subst this
        simp only [h, if_false]
        rcases keyLt_total a b with h | h | h
        · simp [h]
        · simp [h]
        · simp [h]

theorem hset_keys (l : List (Bytes × Bytes)) (k v a : Bytes) (h : a ∈ (hset l k v).map (·.1)) : a = k ∨ a ∈ l.map (·.1) := by
  induction l with
  | nil => simp [hset] at h; exact .inl h
  | cons m r ih =>
    rw [hset] at h
    split at h
    · simp only [List.map_cons, List.mem_cons] at h ⊢
      rcases h with h | h
      · exact .inr (.inl h)
      · rcases ih h with h | h
        · exact .inl h
        · exact .inr (.inr h)
    · split at h
      · simp only [List.map_cons, List.mem_cons] at h ⊢
        rcases h with h | h
        · exact .inl h
        · exact .inr (.inr h)
      · simpa only [List.map_cons, List.mem_cons] using h

theorem hset_sorted (l : List (Bytes × Bytes)) (k v : Bytes) (h : SortedHeaders l) : SortedHeaders (hset l k v) := by
  induction l with
  | nil => simp [hset, SortedHeaders]
  | cons m r ih =>
    unfold SortedHeaders at h
    rw [List.map_cons, List.pairwise_cons] at h
    rw [hset]
    split
    next hlt =>
      unfold SortedHeaders
      rw [List.map_cons, List.pairwise_cons]
      refine ⟨fun a ha => ?_, ih h.2⟩
      rcases hset_keys r k v a ha with rfl | ha
      · exact hlt
      · exact h.1 a ha
    next hlt =>
      split
      next he =>
        unfold SortedHeaders
        rw [List.map_cons, List.pairwise_cons]
        exact ⟨fun a ha => by simpa only [he] using h.1 a ha, h.2⟩
      next he =>
        have hk : Json.keyLt k m.1 = true := by
          rcases keyLt_total k m.1 with h | h | h
          · exact h
          · exact absurd h.symm he
          · exact absurd h hlt
        unfold SortedHeaders
        rw [List.map_cons, List.pairwise_cons, List.map_cons, List.pairwise_cons]
        refine ⟨fun a ha => ?_, h⟩
        rcases List.mem_cons.mp ha with rfl | ha
        · exact hk
        · exact keyLt_trans hk (h.1 a ha)

theorem hset_mem {l : List (Bytes × Bytes)} {k v : Bytes} {e : Bytes × Bytes} (h : e ∈ hset l k v) : e = (k, v) ∨ e ∈ l := by
  induction l with
  | nil => simp [hset] at h; exact .inl h
  | cons m r ih =>
    rw [hset] at h
    split at h
    · rcases List.mem_cons.mp h with h | h
      · exact .inr (by simp [h])
      · rcases ih h with h | h
        · exact .inl h
        · exact .inr (by simp [h])
    · split at h
      · rcases List.mem_cons.mp h with h | h
        · exact .inl h
        · exact .inr (by simp [h])
      · rcases List.mem_cons.mp h with h | h
        · exact .inl h
        · exact .inr h

theorem hset_has (l : List (Bytes × Bytes)) (k v : Bytes) : (k, v) ∈ hset l k v := by
  induction l with
  | nil => simp [hset]
  | cons m r ih => rw [hset]; split <;> (try split) <;> simp [ih]

theorem lookup_sorted {l : List (Bytes × Bytes)} (h : SortedHeaders l) {k v : Bytes} (hm : (k, v) ∈ l) : l.lookup k = some v := by
  induction l with
  | nil => simp at hm
  | cons m r ih =>
    unfold SortedHeaders at h
    rw [List.map_cons, List.pairwise_cons] at h
    rcases List.mem_cons.mp hm with rfl | hm
    · simp [List.lookup]
    · have hm' := hm
      have hne : k ≠ m.1 := by
        rintro rfl
        have := h.1 m.1 (List.mem_map.mpr ⟨(m.1, v), hm, rfl⟩)
        rw [Json.keyLt_irrefl] at this; cases this
      obtain ⟨a, b⟩ := m
      rw [List.lookup, beq_false_of_ne hne]
      exact ih h.2 hm'

theorem getHeader_mem {l : List (Bytes × Bytes)} (h : SortedHeaders l) {k v : Bytes} (hm : (k, v) ∈ l) : getHeader l k = v := by
  unfold getHeader; rw [lookup_sorted h hm]

/-! ## Numbers -/

theorem decimal_digits (n : Nat) : ∀ c ∈ decimal n, 48 ≤ c.toNat ∧ c.toNat ≤ 57 := by
  induction n using Nat.strongRecOn with
  | ind n ih =>
    intro c hc
    rw [decimal] at hc
    split at hc
    next h =>
      simp only [List.mem_singleton] at hc; subst hc
      rw [toNat_ofNat_byte (by omega)]; omega
    next h =>
      rw [List.mem_append] at hc
      rcases hc with hc | hc
      · exact ih (n / 10) (by omega) c hc
      · simp only [List.mem_singleton] at hc; subst hc
        rw [toNat_ofNat_byte (by omega)]; omega

theorem decimal_ne (n : Nat) : decimal n ≠ [] := by rw [decimal]; split <;> simp

theorem decimal_value (n : Nat) : (decimal n).foldl (fun v c => v * 10 + (c.toNat - 48)) 0 = n := by
  induction n using Nat.strongRecOn with
  | ind n ih =>
    rw [decimal]
    split
    next h => simp only [List.foldl_cons, List.foldl_nil]; rw [toNat_ofNat_byte (by omega)]; omega
    next h =>
      rw [List.foldl_append, ih (n / 10) (by omega)]
      simp only [List.foldl_cons, List.foldl_nil]; rw [toNat_ofNat_byte (by omega)]; omega

theorem digits_decimal (n : Nat) : digits (decimal n) = n := by
  unfold digits
  rw [takeWhile_all (fun c hc => by
    have := decimal_digits n c hc
    simp only [Bool.and_eq_true, decide_eq_true_eq, UInt8.le_iff_toNat_le]
    exact this), decimal_value]

theorem atoll_decimal (n : Nat) (h : n < 2 ^ 63) : atoll (decimal n) = n := by
  unfold atoll
  have hd := digits_decimal n
  have hdg := decimal_digits n
  cases hdec : decimal n with
  | nil => exact absurd hdec (decimal_ne n)
  | cons c r =>
    have hc := hdg c (by simp [hdec])
    have hfin : ∀ b : UInt8, 48 ≤ b.toNat ∧ b.toNat ≤ 57 → space b = false ∧ b ≠ 45 ∧ b ≠ 43 := by decide +kernel
    obtain ⟨h1, h2, h3⟩ := hfin c hc
    rw [List.dropWhile_cons_of_neg (by simp [h1])]
    rw [hdec] at hd
    split
    next heq => exact absurd (List.cons.inj heq).1 h2
    next heq => exact absurd (List.cons.inj heq).1 h3
    next => rw [hd, if_neg (by omega)]

theorem atoiSize_decimal (n : Nat) (h : n < 2 ^ 31) : atoiSize (decimal n) = n := by
  unfold atoiSize
  rw [atoll_decimal n (by omega)]
  have : ((n : Int) % 2 ^ 32).toNat = n := by omega
  simp only [this]
  rw [if_pos h]

theorem atoiU32_decimal (n : Nat) (h : n < 2 ^ 31) : atoiU32 (decimal n) = n := by
  unfold atoiU32
  rw [atoll_decimal n (by omega)]; omega

theorem noBody_decimal (n : Nat) (h : n < 2 ^ 31) : noBody (decimal n) = true ↔ (100 ≤ n ∧ n < 200) ∨ n = 204 ∨ n = 304 := by
  have hv := atoiU32_decimal n h
  cases hd : decimal n with
  | nil => exact absurd hd (decimal_ne n)
  | cons c r =>
    have hc := decimal_digits n c (by simp [hd])
    have hc' : (decide (48 ≤ c) && decide (c ≤ 57)) = true := by
      simp only [Bool.and_eq_true, decide_eq_true_eq, UInt8.le_iff_toNat_le]; exact hc
    rw [hd] at hv
    simp only [noBody, hc', hv, Bool.true_and]
    simp [or_assoc]

theorem decimal_trim (n : Nat) : trim (decimal n) = decimal n := by
  have hdg := decimal_digits n
  have hb : ∀ c : UInt8, 48 ≤ c.toNat ∧ c.toNat ≤ 57 → blank c = false := by decide +kernel
  unfold trim
  have h1 : ∀ l : Bytes, (∀ c ∈ l, blank c = false) → l.dropWhile blank = l := by
    intro l hl
    cases l with
    | nil => rfl
    | cons c r => rw [List.dropWhile_cons_of_neg (by simp [hl c])]
  rw [h1 _ (fun c hc => hb c (hdg c hc)), h1 _ (fun c hc => hb c (hdg c (by simpa using hc))), List.reverse_reverse]

theorem urlDecode_plain (s : Bytes) (h : 37 ∉ s) : Enc.urlDecode false s = s := by
  induction s with
  | nil => rfl
  | cons c r ih =>
    simp only [List.mem_cons, not_or] at h
    rw [Enc.urlDecode.eq_def]
    simp only [if_neg (Ne.symm h.1)]
    simp [ih h.2]

/-! ## Chunks -/

theorem hexOrd_digit : ∀ c : UInt8, ∀ d, hexDigit c = some d → (Enc.hexOrd c).toNat = d ∧ d < 16 ∧ c ≠ 13 ∧ c ≠ 10 := by
  have : ∀ c : UInt8, (match hexDigit c with
      | some d => decide ((Enc.hexOrd c).toNat = d ∧ d < 16 ∧ c ≠ 13 ∧ c ≠ 10) | none => true) = true := by decide +kernel
  intro c d h
  have := this c
  rw [h] at this; simpa using this

theorem chunkLen_hex (t : Bytes) (v n : Nat) (h : hexNumber v t = some n) (hn : n < 2 ^ 32) :
    v ≤ n ∧ t.foldl (fun v c => ((v * 16) % 2 ^ 32) ||| (Enc.hexOrd c).toNat) v = n ∧ 13 ∉ t ∧ 10 ∉ t := by
  induction t generalizing v with
  | nil => simp only [hexNumber, Option.some.injEq] at h; subst h; simp
  | cons c r ih =>
    rw [hexNumber] at h
    cases hd : hexDigit c with
    | none => simp [hd] at h
    | some d =>
      obtain ⟨h1, h2, h3, h4⟩ := hexOrd_digit c d hd
      simp only [hd] at h
      obtain ⟨i1, i2, i3, i4⟩ := ih _ h
      refine ⟨by omega, ?_, by simp [Ne.symm h3, i3], by simp [Ne.symm h4, i4]⟩
      rw [List.foldl_cons, h1, Nat.mod_eq_of_lt (by omega)]
      have : v * 16 ||| d = v * 16 + d := by
        rw [Nat.mul_comm, show (16 : Nat) = 2 ^ 4 by rfl]
        exact (Nat.two_pow_add_eq_or_of_lt (by omega) v).symm
      rw [this]; exact i2

theorem chunks_line (p : Parser) (l s : Bytes) (hd : p.doing = 0) (h : OneLineText l) :
    wholeChunks p (l ++ crlf ++ s) =
      if l = [] then wholeChunks p s
      else if chunkLen l = 0 then some ({ p with getChunks := false }, l ++ crlf ++ s)
      else wholeChunks { p with doing := chunkLen l } s := by
  have h10 : 10 ∉ l ++ [13] := by simp [h.2]
  have e : l ++ crlf ++ s = (l ++ [13]) ++ 10 :: s := by simp [crlf]
  rw [e, wholeChunks, dif_neg (by simp), dif_neg (by simp [hd]), findChar_append h10]
  simp only [List.take_left, cutCR_append l h.1]
  rw [List.drop_append, List.drop_of_length_le (by simp)]
  simp

theorem wholeChunks_text (cs : List (Bytes × Bytes)) (last s : Bytes) (p : Parser) (hd : p.doing = 0)
    (hc : ∀ c ∈ cs, ChunkOk c) (hl : last ≠ []) (hl0 : hexNumber 0 last = some 0) :
    wholeChunks p (cs.flatMap chunkText ++ (last ++ crlf ++ s)) =
      some ({ p with body := p.body ++ (cs.map (·.2)).flatten, getChunks := false }, last ++ crlf ++ s) := by
  induction cs generalizing p with
  | nil =>
    obtain ⟨-, h1, h2, h3⟩ := chunkLen_hex last 0 0 hl0 (by omega)
    simp only [List.flatMap_nil, List.nil_append, List.map_nil, List.flatten_nil, List.append_nil]
    rw [chunks_line p last s hd ⟨h2, h3⟩, if_neg hl, if_pos (by exact h1)]
  | cons c cs ih =>
    obtain ⟨c1, c2, c3, c4⟩ := hc c (by simp)
    obtain ⟨-, h1, h2, h3⟩ := chunkLen_hex c.1 0 _ c4 c3
    have hpos := List.length_pos_iff.mpr c2
    have h1' : chunkLen c.1 = c.2.length := h1
    rw [List.flatMap_cons, chunkText]
    have e : c.1 ++ crlf ++ c.2 ++ crlf ++ cs.flatMap chunkText ++ (last ++ crlf ++ s) =
        c.1 ++ crlf ++ (c.2 ++ ([] ++ crlf ++ (cs.flatMap chunkText ++ (last ++ crlf ++ s)))) := by
      simp only [List.append_assoc, List.nil_append]
    rw [e, chunks_line p _ _ hd ⟨h2, h3⟩, if_neg c1, if_neg (by omega)]
    rw [wholeChunks_take _ _ _ (by simp only [h1']; omega)]
    simp only [h1', Nat.min_self, List.take_length, List.drop_length, List.nil_append, Nat.sub_self]
    have e2 := chunks_line { p with body := p.body ++ c.2, doing := 0 } []
      (cs.flatMap chunkText ++ (last ++ crlf ++ s)) rfl ⟨by simp, by simp⟩
    rw [if_pos rfl, List.nil_append] at e2
    have ep : ({ p with doing := 0 } : Parser) = p := by rw [← hd]
    rw [e2, ih _ rfl (fun c hc' => hc c (by simp [hc']))]
    simp [List.append_assoc, hd]

theorem hexNumber_append (a b : Bytes) (v w : Nat) (h : hexNumber v a = some w) : hexNumber v (a ++ b) = hexNumber w b := by
  induction a generalizing v with
  | nil => simp only [hexNumber, Option.some.injEq] at h; subst h; rfl
  | cons c r ih =>
    rw [List.cons_append, hexNumber]
    rw [hexNumber] at h
    cases hd : hexDigit c with
    | none => simp [hd] at h
    | some d => simp only [hd] at h ⊢; exact ih _ h

theorem hexLen_digit : ∀ d : Fin 16,
    hexDigit (if d.val < 10 then UInt8.ofNat (48 + d.val) else UInt8.ofNat (87 + d.val)) = some d.val := by decide +kernel

theorem hexLen_ok (k n : Nat) (h : n < 16 ^ k) :
    ∃ t, hexLen k n = some t ∧ hexNumber 0 t = some n ∧ (n ≠ 0 → t ≠ []) := by
  induction k generalizing n with
  | zero =>
    have : n = 0 := by simpa using h
    subst this; exact ⟨[], rfl, rfl, by simp⟩
  | succ k ih =>
    cases n with
    | zero => exact ⟨[], by rw [hexLen], rfl, by simp⟩
    | succ n =>
      obtain ⟨t, h1, h2, -⟩ := ih ((n + 1) / 16) (by rw [Nat.pow_succ] at h; omega)
      refine ⟨_, by rw [hexLen, h1]; rfl, ?_, by simp⟩
      rw [hexNumber_append _ _ _ _ h2, hexNumber]
      have := hexLen_digit ⟨(n + 1) % 16, by omega⟩
      simp only at this
      rw [this]
      simp only [hexNumber]
      exact congrArg some (by omega)

theorem sendChunk_ok (d : Bytes) (hd : d ≠ []) (hl : d.length < 2 ^ 32) :
    ∃ t, sendChunk d = some (chunkText (t, d)) ∧ ChunkOk (t, d) := by
  obtain ⟨t, h1, h2, h3⟩ := hexLen_ok 8 d.length (by simpa using hl)
  have hpos := List.length_pos_iff.mpr hd
  refine ⟨t, by rw [sendChunk, if_neg hd, h1]; rfl, h3 (by omega), hd, hl, h2⟩

end Verif.Http
