import Verif.Amf.Spec

/-!
# C12: AMF0 round trip; C13: reading outside the input
-/
namespace Verif.Amf

/-! ## Lemmas -/

theorem be16_len2 (n : Nat) (h : n < 65536) (r : Bytes) : be16 (len2 n ++ r) = some n := by
  simp only [len2, List.cons_append, List.nil_append, be16, u8n]
  exact congrArg some (by omega)

theorem be32_len4 (n : Nat) (h : n < 2 ^ 32) (r : Bytes) : be32 (len4 n ++ r) = some n := by
  simp only [len4, List.cons_append, List.nil_append, be32, u8n]
  exact congrArg some (by omega)

@[simp] theorem len2_length (n : Nat) : (len2 n).length = 2 := rfl
@[simp] theorem len4_length (n : Nat) : (len4 n).length = 4 := rfl

theorem clamp_fit {n x len : Nat} (h : n + x ≤ len) (hl : len < 2 ^ 32) : clamp n x len = n := by
  unfold clamp subU
  split <;> omega

theorem readStr_fit (len x : Nat) (str r : Bytes) (h : len = x + (str ++ r).length) (hl : len < 2 ^ 32) :
    readStr len x str.length (str ++ r) = some str := by
  simp only [List.length_append] at h
  rw [readStr, clamp_fit (by omega) hl, takeN, if_pos (by simp)]; simp

theorem readDouble_pack (p : Nat) (h : p < 2 ^ 64) (r : Bytes) : readDouble (packDouble p ++ r) = p := by
  unfold readDouble packDouble
  rw [if_pos (by simp), List.take_append_of_le_length (by simp), List.take_of_length_le (by simp), beVal_beEnc]
  exact Nat.mod_eq_of_lt (by simpa using h)

theorem drop2 (n : Nat) (r : Bytes) : (len2 n ++ r).drop 2 = r := rfl
theorem drop4 (n : Nat) (r : Bytes) : (len4 n ++ r).drop 4 = r := rfl

theorem denoteMembers_length {l : List Obj} {ms} (h : denoteMembers l = some ms) : ms.length = l.length := by
  induction l generalizing ms with
  | nil => simp [denoteMembers] at h; simp [← h]
  | cons o l ih =>
    simp only [denoteMembers] at h
    split at h
    next h1 h2 => simp at h; rw [← h]; simp [ih h2]
    next => cases h

theorem denoteElems_length {l : List Obj} {ms} (h : denoteElems l = some ms) : ms.length = l.length := by
  induction l generalizing ms with
  | nil => simp [denoteElems] at h; simp [← h]
  | cons o l ih =>
    simp only [denoteElems] at h
    split at h
    next h1 h2 => simp at h; rw [← h]; simp [ih h2]
    next => cases h

theorem pack_pos {o : Obj} {v : Val} (h : denote o = some v) : 0 < (pack o).length := by
  obtain ⟨name, t, str, num, c⟩ := o
  have ht : t ≠ 0xFF := by
    rintro rfl
    simp [denote] at h
  simp only [pack]
  have : (if t = 2 ∧ str.length > 0xFFFF then 0x0C else t) ≠ 0xFF := by
    split
    · decide
    · exact ht
  generalize (if t = 2 ∧ str.length > 0xFFFF then 0x0C else t) = t' at this
  simp only [ne_eq, this, not_false_eq_true, if_true, if_false]
  split
  · simp
  · repeat (split; · simp)
    simp

theorem packElems_len {l : List Obj} {vs} (h : denoteElems l = some vs) : l.length ≤ (packElems l).length := by
  induction l generalizing vs with
  | nil => simp
  | cons o l ih =>
    simp only [denoteElems] at h
    split at h
    next h1 h2 =>
      simp only [packElems, List.length_cons, List.length_append]
      have := ih h2; have := pack_pos h1; omega
    next => cases h

theorem packMembers_len {l : List Obj} {vs} (h : denoteMembers l = some vs) : l.length ≤ (packMembers l).length := by
  induction l generalizing vs with
  | nil => simp
  | cons o l ih =>
    simp only [denoteMembers] at h
    split at h
    next h1 h2 =>
      simp only [packMembers, List.length_cons, List.length_append]
      have := ih h2; have := pack_pos h1; omega
    next => cases h

mutual
theorem rt (o : Obj) (v : Val) (hd : denote o = some v) (hv : v.ok) (len i : Nat) (name rest : Bytes)
    (hlen : len = i + (pack o ++ rest).length) (hl : len < 2 ^ 32 - 16) :
    ∃ o', parseOne len i (pack o ++ rest) name = some (o', (pack o).length) ∧ denote o' = some v ∧ o'.name = name := by
  obtain ⟨nm, t, str, num, c⟩ := o
  unfold denote at hd
  by_cases h0 : t = 0x00
  · subst h0; simp at hd; subst hd
    refine ⟨.mk name 0 [] num [], ?_, by simp [denote], rfl⟩
    have e : pack (.mk nm 0 str num c) = 0 :: packDouble num := by simp [pack]
    rw [e, List.cons_append, parseOne.eq_def]; simp +decide only [↓reduceIte]
    rw [readDouble_pack num hv]
    simp [packDouble]
  rw [if_neg h0] at hd
  by_cases hB : t = 0x0B
  · subst hB; simp at hd; subst hd
    refine ⟨.mk name 0x0B [] num [], ?_, by simp [denote], rfl⟩
    have e : pack (.mk nm 0x0B str num c) = 0x0B :: (packDouble num ++ [0, 0]) := by simp [pack]
    rw [e, List.cons_append, parseOne.eq_def]; simp +decide only [↓reduceIte]
    rw [List.append_assoc, readDouble_pack num hv]
    simp [packDouble]
  rw [if_neg hB] at hd
  by_cases h1 : t = 0x01
  · subst h1; simp at hd
    by_cases hn : num = 0
    · subst hn; simp at hd; subst hd
      exact ⟨.mk name 1 [] 0 [], by rw [parseOne.eq_def]; simp [pack, readBool], by simp [denote], rfl⟩
    · rw [if_neg hn] at hd
      by_cases hn1 : num = 1
      · subst hn1; simp at hd; subst hd
        exact ⟨.mk name 1 [] 1 [], by rw [parseOne.eq_def]; simp [pack, readBool], by simp [denote], rfl⟩
      · rw [if_neg hn1] at hd; cases hd
  rw [if_neg h1] at hd
  by_cases h2 : t = 0x02 ∨ t = 0x0C
  · rw [if_pos h2] at hd; simp at hd; subst hd
    by_cases hlong : t = 0x02 ∧ str.length ≤ 0xFFFF
    · obtain ⟨rfl, hs⟩ := hlong
      have e : pack (.mk nm 2 str num c) = 2 :: (len2 str.length ++ str) := by
        have : ¬ str.length > 65535 := by omega
        simp [pack, this]
      rw [e] at hlen ⊢
      refine ⟨.mk name 2 str 0 [], ?_, by simp [denote], rfl⟩
      simp only [List.length_cons, List.length_append, len2_length] at hlen
      simp only [List.cons_append]
      rw [parseOne.eq_def]; simp +decide only [↓reduceIte]
      simp only [List.append_assoc, be16_len2 _ (show str.length < 65536 by omega), drop2]
      rw [readStr_fit _ _ _ _ (by simp; omega) (by omega)]
      simp; omega
    · have e : pack (.mk nm t str num c) = 0x0C :: (len4 str.length ++ str) := by
        rcases h2 with rfl | rfl
        · have : str.length > 65535 := Nat.lt_of_not_le fun h => hlong ⟨rfl, h⟩
          simp [pack, this]
        · simp [pack]
      rw [e] at hlen ⊢
      refine ⟨.mk name 0x0C str 0 [], ?_, by simp [denote], rfl⟩
      simp only [List.length_cons, List.length_append, len4_length] at hlen
      simp only [List.cons_append]
      rw [parseOne.eq_def]; simp +decide only [↓reduceIte]
      simp only [List.append_assoc, be32_len4 _ (show str.length < 2 ^ 32 by omega), drop4]
      rw [readStr_fit _ _ _ _ (by simp; omega) (by omega)]
      simp; omega
  rw [if_neg h2] at hd
  have h2' : ¬ (t = 0x02 ∧ str.length > 0xFFFF) := fun h => h2 (.inl h.1)
  by_cases hF : t = 0x0F
  · subst hF; simp at hd; subst hd
    have e : pack (.mk nm 0x0F str num c) = 0x0F :: (len4 str.length ++ str) := by simp [pack]
    rw [e] at hlen ⊢
    refine ⟨.mk name 0x0F str 0 [], ?_, by simp [denote], rfl⟩
    simp only [List.length_cons, List.length_append, len4_length] at hlen
    simp only [List.cons_append]
    rw [parseOne.eq_def]; simp +decide only [↓reduceIte]
    simp only [List.append_assoc, be32_len4 _ (show str.length < 2 ^ 32 by omega), drop4]
    rw [readStr_fit _ _ _ _ (by simp; omega) (by omega)]
    simp; omega
  rw [if_neg hF] at hd
  by_cases h5 : t = 0x05
  · subst h5; simp at hd; subst hd
    exact ⟨.mk name 5 [] 0 [], by rw [parseOne.eq_def]; simp [pack, readBool], by simp [denote], rfl⟩
  rw [if_neg h5] at hd
  by_cases h6 : t = 0x06
  · subst h6; simp at hd; subst hd
    exact ⟨.mk name 6 [] 0 [], by rw [parseOne.eq_def]; simp [pack, readBool], by simp [denote], rfl⟩
  rw [if_neg h6] at hd
  by_cases hD : t = 0x0D
  · subst hD; simp at hd; subst hd
    exact ⟨.mk name 0x0D [] 0 [], by rw [parseOne.eq_def]; simp [pack, readBool], by simp [denote], rfl⟩
  rw [if_neg hD] at hd
  by_cases h7 : t = 0x07
  · subst h7; simp at hd; subst hd
    refine ⟨.mk name 7 [] num [], ?_, by simp [denote], rfl⟩
    have e : pack (.mk nm 7 str num c) = 7 :: len2 num := by simp [pack]
    rw [e]
    simp only [List.cons_append]
    rw [parseOne.eq_def]; simp +decide only [↓reduceIte]
    simp [be16_len2 _ hv]
  rw [if_neg h7] at hd
  by_cases h3 : t = 0x03
  · subst h3; simp only [if_true, Option.map_eq_some_iff] at hd
    obtain ⟨ms, hms, rfl⟩ := hd
    have e : pack (.mk nm 3 str num c) = 3 :: (packMembers c ++ [0, 0, 9]) := by simp [pack]
    rw [e] at hlen ⊢
    simp only [List.length_cons, List.length_append, List.cons_append, List.length_nil, List.append_assoc] at hlen
    obtain ⟨c', hc1, hc2⟩ := rtMembers c ms hms hv len (i + 1) (9 :: rest) (by simp; omega) hl
    refine ⟨.mk name 3 [] 0 c', ?_, by simp [denote, hc2], rfl⟩
    simp only [List.cons_append]
    rw [parseOne.eq_def]; simp +decide only [↓reduceIte]
    simp only [List.append_assoc, List.cons_append, List.nil_append, hc1]
    simp; omega
  rw [if_neg h3] at hd
  by_cases h8 : t = 0x08
  · subst h8; simp only [if_true, Option.map_eq_some_iff] at hd
    obtain ⟨ms, hms, rfl⟩ := hd
    have e : pack (.mk nm 8 str num c) = 8 :: (len4 c.length ++ (packMembers c ++ [0, 0, 9])) := by simp [pack]
    rw [e] at hlen ⊢
    simp only [List.length_cons, List.length_append, List.cons_append, List.length_nil, List.append_assoc, len4_length] at hlen
    obtain ⟨c', hc1, hc2⟩ := rtMembers c ms hms hv len (i + 5) (9 :: rest) (by simp; omega) hl
    refine ⟨.mk name 8 [] 0 c', ?_, by simp [denote, hc2], rfl⟩
    simp only [List.cons_append]
    rw [parseOne.eq_def]; simp +decide only [↓reduceIte]
    simp only [List.append_assoc, drop4, List.cons_append, List.nil_append, hc1]
    simp; omega
  rw [if_neg h8] at hd
  by_cases hA : t = 0x0A
  · subst hA; simp only [if_true, Option.map_eq_some_iff] at hd
    obtain ⟨ms, hms, rfl⟩ := hd
    have e : pack (.mk nm 0x0A str num c) = 0x0A :: (len4 c.length ++ packElems c) := by simp [pack]
    rw [e] at hlen ⊢
    simp only [List.length_cons, List.length_append, List.cons_append, List.length_nil, List.append_assoc, len4_length] at hlen
    have hcl := packElems_len hms
    obtain ⟨c', hc1, hc2⟩ := rtElems c ms hms hv len (i + 5) rest (by simp; omega) hl
    refine ⟨.mk name 0x0A [] 0 c', ?_, by simp [denote, hc2], rfl⟩
    simp only [List.cons_append]
    rw [parseOne.eq_def]; simp +decide only [↓reduceIte]
    simp only [List.append_assoc, be32_len4 _ (show c.length < 2 ^ 32 by omega), drop4, hc1]
    simp; omega
  rw [if_neg hA] at hd
  cases hd

theorem rtMembers (l : List Obj) (ms : List (Bytes × Val)) (hd : denoteMembers l = some ms) (hv : okMembers ms)
    (len i : Nat) (rest : Bytes) (hlen : len = i + (packMembers l ++ (0 :: 0 :: rest)).length) (hl : len < 2 ^ 32 - 16) :
    ∃ l', parseMembers len i true (packMembers l ++ (0 :: 0 :: rest)) = some (l', (packMembers l).length) ∧
      denoteMembers l' = some ms := by
  match l with
  | [] =>
    refine ⟨[], ?_, hd⟩
    simp only [packMembers, List.nil_append]
    rw [parseMembers]; simp [be16]
  | o :: l =>
    simp only [denoteMembers] at hd
    cases h1 : denote o with
    | none => simp [h1] at hd
    | some v =>
      cases h2 : denoteMembers l with
      | none => simp [h1, h2] at hd
      | some ms' =>
        simp [h1, h2] at hd; subst hd
        obtain ⟨hk0, hk1, hvo, hvl⟩ := hv
        have e : packMembers (o :: l) ++ (0 :: 0 :: rest) =
            len2 o.name.length ++ (o.name ++ (pack o ++ (packMembers l ++ (0 :: 0 :: rest)))) := by
          simp [packMembers]
        have elen : (packMembers (o :: l)).length = 2 + o.name.length + (pack o).length + (packMembers l).length := by
          simp [packMembers]; omega
        rw [e] at hlen ⊢
        simp only [List.length_append, len2_length] at hlen
        obtain ⟨o', ho1, ho2, ho3⟩ := rt o v h1 hvo len (i + o.name.length + 2) o.name (packMembers l ++ (0 :: 0 :: rest))
          (by simp only [List.length_append]; omega) hl
        obtain ⟨l', hl1, hl2⟩ := rtMembers l ms' h2 hvl len (i + o.name.length + 2 + (pack o).length) rest
          (by simp only [List.length_append]; omega) hl
        refine ⟨o' :: l', ?_, by simp [denoteMembers, ho2, hl2, ho3]⟩
        rw [parseMembers, be16_len2 _ hk1]
        simp only [drop2, if_true]
        rw [dif_neg (by omega), readStr_fit _ _ _ _ (by simp only [List.length_append]; omega) (by omega)]
        simp only
        rw [dif_neg (by simp [len2])]
        have d1 : (len2 o.name.length ++ (o.name ++ (pack o ++ (packMembers l ++ (0 :: 0 :: rest))))).drop (o.name.length + 2) =
            pack o ++ (packMembers l ++ (0 :: 0 :: rest)) := by
          rw [show o.name.length + 2 = (len2 o.name.length).length + o.name.length by simp; omega, List.drop_length_add_append]
          simp
        rw [d1, ho1]
        simp only
        rw [show o.name.length + 2 + (pack o).length = (o.name.length + 2) + (pack o).length from rfl, ← List.drop_drop, d1]
        rw [List.drop_append_of_le_length (Nat.le_refl _), List.drop_eq_nil_of_le (Nat.le_refl _), List.nil_append, hl1]
        simp only [Option.map_some, elen]
        refine congrArg some (Prod.ext rfl ?_)
        simp only; omega

theorem rtElems (l : List Obj) (ms : List Val) (hd : denoteElems l = some ms) (hv : okElems ms)
    (len i : Nat) (rest : Bytes) (hlen : len = i + (packElems l ++ rest).length) (hl : len < 2 ^ 32 - 16) :
    ∃ l', parseElems len i l.length (packElems l ++ rest) = some (l', (packElems l).length) ∧
      denoteElems l' = some ms := by
  match l with
  | [] =>
    refine ⟨[], ?_, hd⟩
    simp only [List.length_nil]
    rw [parseElems]; simp [packElems]
  | o :: l =>
    simp only [denoteElems] at hd
    cases h1 : denote o with
    | none => simp [h1] at hd
    | some v =>
      cases h2 : denoteElems l with
      | none => simp [h1, h2] at hd
      | some ms' =>
        simp [h1, h2] at hd; subst hd
        obtain ⟨hvo, hvl⟩ := hv
        have e : packElems (o :: l) ++ rest = pack o ++ (packElems l ++ rest) := by
          simp [packElems]
        rw [e] at hlen ⊢
        simp only [List.length_append] at hlen
        obtain ⟨o', ho1, ho2, ho3⟩ := rt o v h1 hvo len i arrVal (packElems l ++ rest)
          (by simp only [List.length_append]; omega) hl
        obtain ⟨l', hl1, hl2⟩ := rtElems l ms' h2 hvl len (i + (pack o).length) rest
          (by simp only [List.length_append]; omega) hl
        refine ⟨o' :: l', ?_, by simp [denoteElems, ho2, hl2]⟩
        rw [List.length_cons, parseElems, ho1]
        simp only
        rw [List.drop_append_of_le_length (Nat.le_refl _), List.drop_eq_nil_of_le (Nat.le_refl _), List.nil_append, hl1]
        simp [packElems]
end

/-! ## C12 -/

/-- C12. Packing any value the library can hold and parsing the bytes gives back the same value,
consuming exactly the packed bytes, whatever the position in the data and whatever follows. -/
theorem C12_roundtrip (o : Obj) (v : Val) (hd : denote o = some v) (hv : v.ok) (before rest name : Bytes)
    (hl : (before ++ pack o ++ rest).length < 2 ^ 32 - 16) :
    ∃ o', parseOne (before ++ pack o ++ rest).length before.length (pack o ++ rest) name =
        some (o', (pack o).length) ∧ denote o' = some v ∧ o'.name = name :=
  rt o v hd hv _ _ name rest (by simp) hl

theorem parseLoop_elems (l : List Obj) (vs : List Val) (hd : denoteElems l = some vs) (hv : okElems vs) (len i : Nat)
    (hlen : len = i + (packElems l).length) (hl : len < 2 ^ 32 - 16) :
    ∃ l', parseLoop len i (packElems l) = some l' ∧ denoteElems l' = some vs := by
  induction l generalizing i vs with
  | nil => exact ⟨[], by rw [parseLoop]; simp [packElems], hd⟩
  | cons o l ih =>
    simp only [denoteElems] at hd
    cases h1 : denote o with
    | none => simp [h1] at hd
    | some v =>
      cases h2 : denoteElems l with
      | none => simp [h1, h2] at hd
      | some ms' =>
        simp [h1, h2] at hd; subst hd
        obtain ⟨hvo, hvl⟩ := hv
        have hpos := pack_pos h1
        simp only [packElems, List.length_append] at hlen ⊢
        obtain ⟨o', ho1, ho2, _⟩ := rt o v h1 hvo len i [] (packElems l) (by simp; omega) hl
        obtain ⟨l', hl1, hl2⟩ := ih ms' h2 hvl (i + (pack o).length) (by omega)
        refine ⟨o' :: l', ?_, by simp [denoteElems, ho2, hl2]⟩
        rw [parseLoop, dif_neg (by intro h; simp at h; simp [h.1] at hpos), ho1]
        simp only
        rw [dif_neg (by omega), List.drop_append_of_le_length (Nat.le_refl _),
          List.drop_eq_nil_of_le (Nat.le_refl _), List.nil_append, hl1]
        rfl

/-- C12. A message (a container of values, as RTMP commands are built) parses to exactly its values. -/
theorem C12_message (nm : Bytes) (l : List Obj) (vs : List Val) (hd : denoteElems l = some vs) (hv : okElems vs)
    (hl : (packElems l).length < 2 ^ 32 - 16) :
    ∃ o, parse (pack (.mk nm 0xFF [] 0 l)) = some o ∧ denoteElems o.contents = some vs := by
  have e : pack (.mk nm 0xFF [] 0 l) = packElems l := by simp [pack]
  obtain ⟨l', h1, h2⟩ := parseLoop_elems l vs hd hv (packElems l).length 0 (by omega) hl
  refine ⟨_, by rw [parse, e, h1]; rfl, by simpa [Obj.contents] using h2⟩

/-- The limit on member names is needed: an empty name ends the object early. -/
theorem C12_empty_name_fails :
    parse (pack (.mk [] 0x03 [] 0 [.mk [] 0x05 [] 0 [], .mk [0x61] 0x05 [] 0 []])) ≠ none ∧
    (parse (pack (.mk [] 0x03 [] 0 [.mk [] 0x05 [] 0 [], .mk [0x61] 0x05 [] 0 []]))).map
      (fun o => o.contents.map (fun x => x.contents.length)) ≠ some [2] := by
  have e : pack (.mk [] 0x03 [] 0 [.mk [] 0x05 [] 0 [], .mk [0x61] 0x05 [] 0 []]) = [3, 0, 0, 5, 0, 1, 0x61, 5, 0, 0, 9] := by
    simp [pack, packMembers, len2, Obj.name]
  rw [e, parse]
  simp [parseLoop, parseOne, parseMembers, be16, Obj.contents, Obj.error, subU]

/-- Typed objects do not survive: the class name is read again as the first member's name. -/
theorem C12_typed_object_fails :
    (parse (pack (.mk [0x43] 0x10 [] 0 [.mk [0x61] 0x05 [] 0 []]))).map
      (fun o => o.contents.map (fun x => (x.type, x.contents.map Obj.type))) = some [(0x10, [0x00])] := by
  have e : pack (.mk [0x43] 0x10 [] 0 [.mk [0x61] 0x05 [] 0 []]) = [0x10, 0, 1, 0x43, 0, 1, 0x61, 5, 0, 0, 9] := by
    simp [pack, packMembers, len2, Obj.name]
  rw [e, parse]
  simp [parseLoop, parseOne, parseMembers, be16, Obj.contents, Obj.type, subU, readStr, takeN, clamp]

example : ∃ o, parse (pack (.mk [] 0xFF [] 0
    [.mk [] 0x02 [0x63] 0 [], .mk [] 0x00 [] 0x3FF0000000000000 [],
     .mk [] 0x03 [] 0 [.mk [0x61] 0x0A [] 0 [.mk [] 0x01 [] 1 [], .mk [] 0x08 [] 0 []]]])) = some o ∧
    denoteElems o.contents = some [.str [0x63], .number 0x3FF0000000000000, .object [([0x61], .array [.bool true, .ecma []])]] :=
  C12_message [] _ _ (by simp [denoteElems, denote, denoteMembers, Obj.name]) (by simp [okElems, Val.ok, okMembers]) (by
    simp [packElems, pack, packMembers, len2, len4, packDouble, Obj.name])

/-! ## C13 -/

/-- C13 is false: a boolean marker at the end of the data makes the parser read behind it. -/
theorem C13_fails_truncated_bool : parse [0x01] = none := by
  simp [parse, parseLoop, parseOne, readBool]

/-- C13 is false: a truncated string header. -/
theorem C13_fails_truncated_string : parse [0x02, 0x00] = none := by
  simp [parse, parseLoop, parseOne, be16]

/-- C13 is false even with complete headers: the bounds check of long strings overflows, so a
9 byte input makes the parser copy almost 4 GiB. -/
theorem C13_fails_long_string_overflow : parse [0x0C, 0xFF, 0xFF, 0xFF, 0xFB, 1, 2, 3, 4] = none := by
  simp [parse, parseLoop, parseOne, be32, readStr, takeN, clamp]

theorem parseElems_end (len i n : Nat) : ∃ l, parseElems len i n [] = some (l, 0) ∧ l.length = n := by
  induction n with
  | zero => exact ⟨[], by rw [parseElems], rfl⟩
  | succ n ih =>
    obtain ⟨l, h1, h2⟩ := ih
    refine ⟨Obj.default :: l, ?_, by simp [h2]⟩
    rw [parseElems]
    simp [parseOne, h1]

/-- A five byte message makes the parser create as many objects as the 32-bit count says. -/
theorem C13_strict_array_amplification (n : Nat) (h : n < 2 ^ 32) :
    ∃ o a, parse (0x0A :: len4 n) = some o ∧ o.contents = [a] ∧ a.contents.length = n := by
  obtain ⟨l, h1, h2⟩ := parseElems_end 5 5 n
  refine ⟨.mk [0x72, 0x65, 0x74, 0x75, 0x72, 0x6E, 0x65, 0x64] 0xFF [] 0 [.mk [] 0x0A [] 0 l], .mk [] 0x0A [] 0 l, ?_, rfl, h2⟩
  have hb := be32_len4 n h []
  rw [List.append_nil] at hb
  rw [parse, parseLoop, dif_neg (by simp)]
  have hp : parseOne (0x0A :: len4 n).length 0 (0x0A :: len4 n) [] = some (.mk [] 0x0A [] 0 l, 5) := by
    rw [parseOne.eq_def]
    simp [hb, h1, show (len4 n).drop 4 = [] from rfl]
  rw [hp]
  simp only
  rw [dif_neg (by decide), parseLoop, dif_pos (by simp)]
  rfl

/-- The places in `data` where the parser's missing checks matter: a marker whose fixed-size header
does not fit in the remaining data, a long string whose length overflows the check, a typed object. -/
def hazardAt (pos : Nat) (s : Bytes) : Prop :=
  match s with
  | [] => False
  | t :: r =>
    (t = 0x01 ∧ r.length < 1) ∨ ((t = 0x02 ∨ t = 0x07) ∧ r.length < 2) ∨
    ((t = 0x0A ∨ t = 0x0C ∨ t = 0x0F) ∧ r.length < 4) ∨
    ((t = 0x0C ∨ t = 0x0F) ∧ ∃ n, be32 r = some n ∧ n + pos + 5 ≥ 2 ^ 32) ∨ t = 0x10

theorem readStr_safe (len x n : Nat) (body : Bytes) (h : len = x + body.length) (hn : n + x < 2 ^ 32) (hl : len < 2 ^ 32) :
    ∃ t, readStr len x n body = some t := by
  unfold readStr takeN clamp subU
  split
  · rw [if_pos (by omega)]; exact ⟨_, rfl⟩
  · rw [if_pos (by omega)]; exact ⟨_, rfl⟩

theorem be16_some {s : Bytes} (h : 2 ≤ s.length) : ∃ n, be16 s = some n ∧ n < 65536 := by
  match s, h with
  | a :: b :: r, _ =>
    have := a.toNat_lt; have := b.toNat_lt
    exact ⟨_, rfl, by omega⟩

theorem be16_lt {s : Bytes} {n : Nat} (h : be16 s = some n) : 2 ≤ s.length ∧ n < 65536 := by
  match s, h with
  | a :: b :: r, h =>
    simp [be16] at h
    have := a.toNat_lt; have := b.toNat_lt
    exact ⟨by simp, by omega⟩

theorem be32_some {s : Bytes} (h : 4 ≤ s.length) : ∃ n, be32 s = some n := by
  match s, h with
  | a :: b :: c :: d :: r, _ => exact ⟨_, rfl⟩


theorem safety (data : Bytes) (hl : data.length < 2 ^ 32 - 2 ^ 17)
    (hz : ∀ j < data.length, ¬ hazardAt j (data.drop j)) (m : Nat) :
    (∀ i s name, s = data.drop i → s.length ≤ m → parseOne data.length i s name ≠ none) ∧
    (∀ i s, s = data.drop i → s.length ≤ m → parseMembers data.length i true s ≠ none) ∧
    (∀ n i s, s = data.drop i → s.length ≤ m → parseElems data.length i n s ≠ none) := by
  induction m using Nat.strongRecOn with
  | _ m ih =>
    have members : ∀ i s, s = data.drop i → s.length ≤ m → parseMembers data.length i true s ≠ none := by
      intro i s hs hm
      rw [parseMembers]
      cases hb : be16 s with
      | none => simp
      | some n =>
        obtain ⟨hlen, hn⟩ := be16_lt hb
        simp only [if_true]
        split
        · simp
        · have hlen2 : s.length = data.length - i := by rw [hs]; simp
          obtain ⟨key, hk⟩ := readStr_safe data.length (i + 2) n (s.drop 2) (by simp; omega) (by omega) (by omega)
          rw [hk]
          simp only
          split
          next h0 => simp [h0] at hlen
          next h0 =>
            have d1 : s.drop (key.length + 2) = data.drop (i + key.length + 2) := by
              rw [hs, List.drop_drop]; congr 1
            obtain ⟨p1, _, _⟩ := ih (m - 2) (by omega)
            have hp := p1 (i + key.length + 2) _ key d1 (by simp; omega)
            cases ho : parseOne data.length (i + key.length + 2) (s.drop (key.length + 2)) key with
            | none => exact absurd ho hp
            | some od =>
              obtain ⟨o, d⟩ := od
              simp only
              have d2 : s.drop (key.length + 2 + d) = data.drop (i + key.length + 2 + d) := by
                rw [hs, List.drop_drop]; congr 1; omega
              obtain ⟨_, p2, _⟩ := ih (m - 2) (by omega)
              have := p2 _ _ d2 (by simp; omega)
              simpa using this
    have one : ∀ i s name, s = data.drop i → s.length ≤ m → parseOne data.length i s name ≠ none := by
      intro i s name hs hm
      cases s with
      | nil => simp [parseOne]
      | cons t r =>
        have hi : i < data.length := by
          have := congrArg List.length hs; simp at this; omega
        have hr : r.length + 1 = data.length - i := by
          have := congrArg List.length hs; simpa using this
        have hd1 : ∀ k, r.drop k = data.drop (i + 1 + k) := by
          intro k
          have : r = data.drop (i + 1) := by rw [← List.drop_drop, ← hs]; rfl
          rw [this, List.drop_drop]
        have hz' := hz i hi
        rw [← hs] at hz'
        simp only [hazardAt, not_or, not_and] at hz'
        obtain ⟨z1, z2, z4, zo, zt⟩ := hz'
        rw [parseOne.eq_def]
        dsimp only
        by_cases h : t = 0x00
        · rw [if_pos h]; exact Option.some_ne_none _
        rw [if_neg h]; clear h
        by_cases h : t = 0x0B
        · rw [if_pos h]; exact Option.some_ne_none _
        rw [if_neg h]; clear h
        by_cases h : t = 0x01
        · rw [if_pos h]
          cases r with
          | nil => simp [h] at z1
          | cons => simp [readBool]
        rw [if_neg h]; clear h
        by_cases h : t = 0x07
        · rw [if_pos h]
          obtain ⟨n, hn, _⟩ := be16_some (by have := z2 (.inr h); omega : 2 ≤ r.length)
          simp [hn]
        rw [if_neg h]; clear h
        by_cases h : t = 0x0F ∨ t = 0x0C
        · rw [if_pos h]
          have h4 : 4 ≤ r.length := by
            have := z4 (by rcases h with h | h <;> simp [h]); omega
          obtain ⟨n, hn⟩ := be32_some h4
          have hov : n + i + 5 < 2 ^ 32 := by
            have := zo (by rcases h with h | h <;> simp [h])
            apply Nat.lt_of_not_le
            intro hge
            exact this ⟨n, hn, hge⟩
          rw [hn]
          obtain ⟨str, hstr⟩ := readStr_safe data.length (i + 5) n (r.drop 4) (by simp; omega) (by omega) (by omega)
          simp [hstr]
        rw [if_neg h]; clear h
        by_cases h : t = 0x02
        · rw [if_pos h]
          have h2 := z2 (.inl h)
          obtain ⟨n, hn, hlt⟩ := be16_some (by omega : 2 ≤ r.length)
          rw [hn]
          obtain ⟨str, hstr⟩ := readStr_safe data.length (i + 3) n (r.drop 2) (by simp; omega) (by omega) (by omega)
          simp [hstr]
        rw [if_neg h]; clear h
        by_cases h : t = 0x05 ∨ t = 0x06 ∨ t = 0x0D
        · rw [if_pos h]; exact Option.some_ne_none _
        rw [if_neg h]; clear h
        obtain ⟨_, p2, p3⟩ := ih (m - 1) (by simp at hm; omega)
        by_cases h : t = 0x03
        · rw [if_pos h]
          have := p2 (i + 1) r (by simpa using hd1 0) (by simp at hm; omega)
          simpa using this
        rw [if_neg h, if_neg zt]; clear h
        by_cases h : t = 0x08
        · rw [if_pos h]
          have := p2 (i + 5) (r.drop 4) (hd1 4) (by simp at hm ⊢; omega)
          simpa using this
        rw [if_neg h]; clear h
        by_cases h : t = 0x0A
        · rw [if_pos h]
          have h4 : 4 ≤ r.length := by have := z4 (.inl h); omega
          obtain ⟨n, hn⟩ := be32_some h4
          rw [hn]
          have := p3 n (i + 5) (r.drop 4) (hd1 4) (by simp at hm ⊢; omega)
          simpa using this
        rw [if_neg h]; exact Option.some_ne_none _
    refine ⟨one, members, ?_⟩
    intro n
    induction n with
    | zero => intro i s _ _; rw [parseElems]; simp
    | succ n ihn =>
      intro i s hs hm
      rw [parseElems]
      have h1 := one i s arrVal hs hm
      cases ho : parseOne data.length i s arrVal with
      | none => exact absurd ho h1
      | some od =>
        obtain ⟨o, d⟩ := od
        simp only
        have := ihn (i + d) (s.drop d) (by rw [hs, List.drop_drop]) (by simp; omega)
        simpa using this

theorem parseLoop_safe (data : Bytes) (hl : data.length < 2 ^ 32 - 2 ^ 17)
    (hz : ∀ j < data.length, ¬ hazardAt j (data.drop j)) (i : Nat) :
    parseLoop data.length i (data.drop i) ≠ none := by
  induction hn : (data.drop i).length using Nat.strongRecOn generalizing i with
  | _ n ih =>
    rw [parseLoop]
    split
    · simp
    next hne =>
      have hpos : (data.drop i).length ≠ 0 := fun h => hne (List.eq_nil_of_length_eq_zero h)
      have h1 := (safety data hl hz (data.drop i).length).1 i (data.drop i) [] rfl (Nat.le_refl _)
      cases ho : parseOne data.length i (data.drop i) [] with
      | none => exact absurd ho h1
      | some od =>
        obtain ⟨o, d⟩ := od
        simp only
        split
        · simp
        next hd =>
          have := ih (data.drop (i + d)).length (by simp at hpos hn ⊢; omega) (i + d) rfl
          rw [List.drop_drop]
          simpa using this

/-- C13 (partial). The parser terminates on every input (the model is a total function), and it
stays inside the input unless the input contains one of the listed hazards; missing: inputs with a
hazard, where the code does read outside. -/
theorem C13_partial (data : Bytes) (hl : data.length < 2 ^ 32 - 2 ^ 17)
    (hz : ∀ j < data.length, ¬ hazardAt j (data.drop j)) : parse data ≠ none := by
  have := parseLoop_safe data hl hz 0
  simp only [List.drop_zero] at this
  simpa [parse] using this

example : ∀ j < ([0x03, 0, 1, 0x61, 0x02, 0, 200, 0x62, 0x63] : Bytes).length,
    ¬ hazardAt j (([0x03, 0, 1, 0x61, 0x02, 0, 200, 0x62, 0x63] : Bytes).drop j) := by
  intro j hj
  simp at hj
  have : j = 0 ∨ j = 1 ∨ j = 2 ∨ j = 3 ∨ j = 4 ∨ j = 5 ∨ j = 6 ∨ j = 7 ∨ j = 8 := by omega
  rcases this with h | h | h | h | h | h | h | h | h <;> subst h <;> simp [hazardAt]

end Verif.Amf
