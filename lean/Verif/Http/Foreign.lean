import Verif.Http.Props

/-!
# Messages written by others (C59)

Clients spell header names in their own way, put blanks around values, and may end lines with a line feed alone.
-/
namespace Verif.Http
open Verif.SockBuf (Buf)

/-! ## Specification -/

/-- The same letter in either case, or the same character. -/
def SameLetter (a b : UInt8) : Prop :=
  a = b ∨ (65 ≤ a.toNat ∧ a.toNat ≤ 90 ∧ b.toNat = a.toNat + 32) ∨ (65 ≤ b.toNat ∧ b.toNat ≤ 90 ∧ a.toNat = b.toNat + 32)

/-- The same name, whatever the case of its letters. -/
def SameName : Bytes → Bytes → Prop
  | [], [] => True
  | a :: r, b :: s => SameLetter a b ∧ SameName r s
  | _, _ => False

/-- Blanks and tabs only. -/
def Blanks (s : Bytes) : Prop := ∀ c ∈ s, c = 32 ∨ c = 9

/-- A header line: blanks may stand around the name and around the value. -/
structure Field where
  b0 : Bytes
  name : Bytes
  b1 : Bytes
  b2 : Bytes
  value : Bytes
  b3 : Bytes
  cr : Bool

/-- The end of a line. -/
def eol (cr : Bool) : Bytes := if cr then [13, 10] else [10]

/-- The line as it is sent. -/
def Field.text (f : Field) : Bytes := f.b0 ++ f.name ++ f.b1 ++ [58] ++ f.b2 ++ f.value ++ f.b3 ++ eol f.cr

/-- Text that does not begin or end with a blank. -/
def Bare (s : Bytes) : Prop := (∀ c ∈ s.head?, ¬ (c = 32 ∨ c = 9)) ∧ (∀ c ∈ s.getLast?, ¬ (c = 32 ∨ c = 9))

/-- A header line that can be read. -/
def Field.Ok (f : Field) : Prop :=
  Blanks f.b0 ∧ Blanks f.b1 ∧ Blanks f.b2 ∧ Blanks f.b3 ∧ Bare f.name ∧ Bare f.value ∧ OneLineText f.name ∧ OneLineText f.value ∧ 58 ∉ f.name

/-! ## Lemmas -/

theorem lower_same : ∀ a b : UInt8, lower a = lower b ↔ SameLetter a b := by
  unfold lower SameLetter
  have h1 : ∀ a : UInt8, (65 ≤ a && a ≤ 90) = true ↔ (65 ≤ a.toNat ∧ a.toNat ≤ 90) := by decide +kernel
  have h2 : ∀ a : UInt8, (65 ≤ a && a ≤ 90) = true → (a + 32).toNat = a.toNat + 32 := by decide +kernel
  intro a b
  by_cases ha : (65 ≤ a && a ≤ 90) = true <;> by_cases hb : (65 ≤ b && b ≤ 90) = true
  · rw [if_pos ha, if_pos hb]
    have := h2 a ha; have := h2 b hb; have := (h1 a).mp ha; have := (h1 b).mp hb
    constructor
    · intro h; left; apply UInt8.toNat_inj.mp; have := congrArg UInt8.toNat h; omega
    · rintro (h | h | h)
      · rw [h]
      · omega
      · omega
  · rw [if_pos ha, if_neg hb]
    have := h2 a ha; have := (h1 a).mp ha; have hb' := mt (h1 b).mpr hb
    constructor
    · intro h; right; left; have := congrArg UInt8.toNat h; omega
    · rintro (h | h | h)
      · subst h; exact absurd ha hb
      · apply UInt8.toNat_inj.mp; omega
      · omega
  · rw [if_neg ha, if_pos hb]
    have := h2 b hb; have := (h1 b).mp hb; have ha' := mt (h1 a).mpr ha
    constructor
    · intro h; right; right; have := congrArg UInt8.toNat h; omega
    · rintro (h | h | h)
      · subst h; exact absurd hb ha
      · omega
      · apply UInt8.toNat_inj.mp; omega
  · rw [if_neg ha, if_neg hb]
    have ha' := mt (h1 a).mpr ha; have hb' := mt (h1 b).mpr hb
    constructor
    · intro h; exact Or.inl h
    · rintro (h | h | h)
      · exact h
      · omega
      · omega

theorem map_lower : ∀ a b : Bytes, (a.length == b.length && a.map lower == b.map lower) = true ↔ SameName a b
  | [], [] => by simp [SameName]
  | [], b :: s => by simp [SameName]
  | a :: r, [] => by simp [SameName]
  | a :: r, b :: s => by
    have ih := map_lower r s
    rw [SameName, ← lower_same, ← ih]
    simp
    constructor
    · rintro ⟨h1, h2, h3⟩; exact ⟨h2, h1, h3⟩
    · rintro ⟨h1, h2, h3⟩; exact ⟨h2, h1, h3⟩

theorem same_refl : ∀ a : Bytes, SameName a a
  | [] => trivial
  | _ :: r => ⟨Or.inl rfl, same_refl r⟩

theorem same_symm : ∀ {a b : Bytes}, SameName a b → SameName b a
  | [], [], _ => trivial
  | [], _ :: _, h => h.elim
  | _ :: _, [], h => h.elim
  | _ :: _, _ :: _, ⟨h1, h2⟩ => ⟨by unfold SameLetter at h1 ⊢; rcases h1 with h | h | h; exact Or.inl h.symm; exact Or.inr (Or.inr h); exact Or.inr (Or.inl h), same_symm h2⟩

theorem same_trans {a b c : Bytes} (h1 : SameName a b) (h2 : SameName b c) : SameName a c := by
  have g1 := (map_lower a b).mpr h1
  have g2 := (map_lower b c).mpr h2
  apply (map_lower a c).mp
  simp only [Bool.and_eq_true, beq_iff_eq] at g1 g2 ⊢
  exact ⟨g1.1.trans g2.1, g1.2.trans g2.2⟩

/-- Different names, whatever the case. -/
def Apart (h : List (Bytes × Bytes)) : Prop := ∀ e ∈ h, ∀ e' ∈ h, SameName e.1 e'.1 → e = e'

theorem lookup_mem : ∀ {h : List (Bytes × Bytes)} {k v : Bytes}, h.lookup k = some v → (k, v) ∈ h
  | [], _, _, e => by cases e
  | m :: r, k, v, e => by
    rw [List.lookup_cons] at e
    by_cases hk : k = m.1
    · simp only [hk, beq_self_eq_true, Option.some.injEq] at e
      rw [hk, ← e]; exact List.mem_cons_self
    · rw [show (k == m.1) = false by simpa using hk] at e
      exact List.mem_cons_of_mem _ (lookup_mem e)

theorem getHeader_same {h : List (Bytes × Bytes)} (ha : Apart h) {e : Bytes × Bytes} (he : e ∈ h) {i : Bytes} (hi : SameName e.1 i) :
    getHeader h i = e.2 := by
  unfold getHeader
  match hl : h.lookup i with
  | some v =>
    have := ha e he (i, v) (lookup_mem hl) hi
    rw [this]
  | none =>
    match hf : h.find? (fun e => e.1.length == i.length && e.1.map lower == i.map lower) with
    | some e' =>
      have h1 := List.find?_some hf
      have h2 := List.mem_of_find?_eq_some hf
      have := ha e he e' h2 (same_trans hi (same_symm ((map_lower _ _).mp h1)))
      rw [this]
      simp only [hf]
    | none =>
      have := List.find?_eq_none.mp hf e he
      exact absurd ((map_lower _ _).mpr hi) this

theorem getHeader_absent {h : List (Bytes × Bytes)} {i : Bytes} (hi : ∀ e ∈ h, ¬ SameName e.1 i) : getHeader h i = [] := by
  unfold getHeader
  match hl : h.lookup i with
  | some v => exact absurd (same_refl i) (hi _ (lookup_mem hl))
  | none =>
    match hf : h.find? (fun e => e.1.length == i.length && e.1.map lower == i.map lower) with
    | some e' => 
      have h1 := List.find?_some hf
      exact absurd ((map_lower _ _).mp h1) (hi _ (List.mem_of_find?_eq_some hf))
    | none => simp only [hf]

theorem hset_keeps : ∀ {l : List (Bytes × Bytes)} {k v : Bytes} {e : Bytes × Bytes}, e ∈ l → e.1 ≠ k → e ∈ hset l k v
  | m :: r, k, v, e, h, hk => by
    rw [hset]
    rcases List.mem_cons.mp h with rfl | h
    · split
      · simp
      · simp
    · split
      · exact List.mem_cons_of_mem _ (hset_keeps h hk)
      · split
        · exact List.mem_cons_of_mem _ h
        · simp [h]

theorem fold_mem (l : List (Bytes × Bytes)) : ∀ acc : List (Bytes × Bytes),
    (l.Pairwise fun a b => ¬ SameName a.1 b.1) → (∀ a ∈ acc, ∀ b ∈ l, ¬ SameName a.1 b.1) →
    ∀ e, e ∈ l.foldl (fun m e => hset m e.1 e.2) acc ↔ e ∈ acc ∨ e ∈ l := by
  induction l with
  | nil => intro acc _ _ e; simp
  | cons f l ih =>
    intro acc hp ha e
    rw [List.pairwise_cons] at hp
    rw [List.foldl_cons, ih _ hp.2]
    · constructor
      · rintro (h | h)
        · rcases hset_mem h with rfl | h
          · right; simp
          · exact Or.inl h
        · right; simp [h]
      · rintro (h | h)
        · left
          apply hset_keeps h
          intro hk
          exact ha e h f (by simp) (hk ▸ same_refl _)
        · rcases List.mem_cons.mp h with rfl | h
          · left; exact hset_has _ _ _
          · exact Or.inr h
    · intro a h b hb
      rcases hset_mem h with rfl | h
      · exact hp.1 b hb
      · exact ha a h b (by simp [hb])

theorem blank_iff (c : UInt8) : blank c = true ↔ c = 32 ∨ c = 9 := by simp [blank]

theorem dropWhile_blanks {a : Bytes} (ha : Blanks a) (s : Bytes) : (a ++ s).dropWhile blank = s.dropWhile blank := by
  induction a with
  | nil => rfl
  | cons c r ih =>
    rw [List.cons_append, List.dropWhile_cons_of_pos ((blank_iff c).mpr (ha c (by simp))), ih fun c hc => ha c (by simp [hc])]

theorem dropWhile_head (s : Bytes) (h : ∀ c ∈ s.head?, ¬ (c = 32 ∨ c = 9)) : s.dropWhile blank = s := by
  cases s with
  | nil => rfl
  | cons c r => rw [List.dropWhile_cons_of_neg (by rw [blank_iff]; exact h c rfl)]

theorem blanks_reverse {a : Bytes} (ha : Blanks a) : Blanks a.reverse := fun c hc => ha c (List.mem_reverse.mp hc)

theorem trim_around {a s b : Bytes} (ha : Blanks a) (hb : Blanks b) (hs : Bare s) : trim (a ++ s ++ b) = s := by
  have hrev : (b.reverse ++ s.reverse).dropWhile blank = s.reverse := by
    rw [dropWhile_blanks (blanks_reverse hb), dropWhile_head _ (by rw [List.head?_reverse]; exact hs.2)]
  unfold trim
  rw [List.append_assoc, dropWhile_blanks ha]
  cases hsn : s with
  | nil =>
    have := dropWhile_blanks hb []
    rw [List.append_nil] at this
    rw [List.nil_append, this]
    rfl
  | cons c r =>
    rw [← hsn, dropWhile_head (s ++ b) (by
      have := hs.1; rw [hsn] at this ⊢; exact this), List.reverse_append, hrev, List.reverse_reverse]

theorem whole_eol (p : Parser) (l s : Bytes) (cr : Bool) (hs : p.seenHeaders = false) (hl : OneLineText l) :
    whole p (l ++ eol cr ++ s) = whole (headerLine p l) s := by
  cases cr with
  | true => exact whole_line p l s hs hl
  | false =>
    have e : l ++ eol false ++ s = l ++ 10 :: s := by simp [eol]
    rw [e, whole.eq_def, if_neg (by simp [hs]), dif_neg (by simp), findChar_append hl.2]
    simp only [List.take_left]
    rw [List.drop_append, List.drop_of_length_le (by simp)]
    simp

theorem blanks_text {b : Bytes} (h : Blanks b) : OneLineText b ∧ 58 ∉ b := by
  refine ⟨⟨fun hm => ?_, fun hm => ?_⟩, fun hm => ?_⟩ <;> (have := h _ hm; revert this; decide)

theorem whole_field (p : Parser) (f : Field) (hf : f.Ok) (s : Bytes) (hs : p.seenHeaders = false) (hr : p.seenReq = true) :
    whole p (f.text ++ s) = whole { p with headers := hset p.headers f.name f.value } s := by
  obtain ⟨h0, h1, h2, h3, hn, hv, hnt, hvt, hc⟩ := hf
  have t0 := blanks_text h0; have t1 := blanks_text h1; have t2 := blanks_text h2; have t3 := blanks_text h3
  have hline : OneLineText (f.b0 ++ f.name ++ f.b1 ++ [58] ++ f.b2 ++ f.value ++ f.b3) := by
    refine ⟨?_, ?_⟩
    · simp [t0.1.1, t1.1.1, t2.1.1, t3.1.1, hnt.1, hvt.1]
    · simp [t0.1.2, t1.1.2, t2.1.2, t3.1.2, hnt.2, hvt.2]
  rw [Field.text, whole_eol p _ s f.cr hs hline]
  have e : f.b0 ++ f.name ++ f.b1 ++ [58] ++ f.b2 ++ f.value ++ f.b3 = (f.b0 ++ f.name ++ f.b1) ++ 58 :: (f.b2 ++ f.value ++ f.b3) := by simp
  have hcut := cutCR_none _ hline.1
  have hl : headerLine p (f.b0 ++ f.name ++ f.b1 ++ [58] ++ f.b2 ++ f.value ++ f.b3) = { p with headers := hset p.headers f.name f.value } := by
    unfold headerLine
    rw [hcut, if_neg (by simp [hr]), if_neg (by simp), fieldLine, e, findChar_append (by simp [t0.2, t1.2, hc])]
    simp only [List.take_left]
    rw [List.drop_append, List.drop_of_length_le (by omega)]
    simp only [List.nil_append, Nat.add_sub_cancel_left, List.drop_succ_cons, List.drop_zero]
    rw [trim_around h0 h1 hn, trim_around h2 h3 hv]
  rw [hl]

theorem whole_foreign (fs : List Field) (hf : ∀ f ∈ fs, f.Ok) (p : Parser) (s : Bytes) (hs : p.seenHeaders = false) (hr : p.seenReq = true) :
    whole p (fs.flatMap Field.text ++ s) =
      whole { p with headers := (fs.map fun f => (f.name, f.value)).foldl (fun m e => hset m e.1 e.2) p.headers } s := by
  induction fs generalizing p with
  | nil => rfl
  | cons f fs ih =>
    rw [List.flatMap_cons, List.append_assoc, whole_field p f (hf f (by simp)) _ hs hr,
      ih (fun f h => hf f (by simp [h])) _ (by exact hs) (by exact hr)]
    rfl

/-- **C59.** A request as any client may write it: header names in any case, blanks and tabs around names and values, lines
ended by a line feed with or without a carriage return, and the stream cut into any pieces. The method, the address, the
protocol and the body are read, nothing behind the body is used, every header is found under its name in any case, and
no others are found. -/
theorem C59_foreign (method path proto : Bytes) (cr0 cr1 : Bool) (fs : List Field) (body rest : Bytes) (pieces : List Bytes)
    (hm : 32 ∉ method ∧ OneLineText method ∧ method.take 4 ≠ sHTTP)
    (hp : ∃ u, path = 47 :: u) (hp2 : 32 ∉ path ∧ 63 ∉ path ∧ 37 ∉ path ∧ OneLineText path)
    (hpr : OneLineText proto)
    (hf : ∀ f ∈ fs, f.Ok) (hd : fs.Pairwise fun a b => ¬ SameName a.name b.name)
    (hlen : ∃ f ∈ fs, SameName f.name sContentLength ∧ f.value = decimal body.length)
    (hte : ∀ f ∈ fs, ¬ SameName f.name sTransferEncoding)
    (hform : method ≠ sPOST ∨ ∀ f ∈ fs, SameName f.name sContentType → f.value ≠ sForm)
    (hw : pieces.flatten = method ++ [32] ++ path ++ [32] ++ proto ++ eol cr0 ++ fs.flatMap Field.text ++ eol cr1 ++ body ++ rest)
    (hn : pieces.flatten.length < 2 ^ 31) :
    ∃ p, receive {} Buf.init pieces = some (p, rest) ∧ p.message.method = method ∧ p.message.url = path ∧
      p.message.protocol = proto ∧ p.message.body = body ∧
      (∀ f ∈ fs, ∀ i, SameName f.name i → getHeader p.message.headers i = f.value) ∧
      ∀ i, (∀ f ∈ fs, ¬ SameName f.name i) → getHeader p.message.headers i = [] := by
  obtain ⟨u, rfl⟩ := hp
  obtain ⟨hp32, hp63, hp37, hpt⟩ := hp2
  have hline : OneLineText (method ++ [32] ++ (47 :: u) ++ [32] ++ proto) := by
    have a := hpt.1; have b := hpt.2
    refine ⟨?_, ?_⟩
    · simp only [List.mem_append, List.mem_cons, List.not_mem_nil, or_false, not_or] at a ⊢
      exact ⟨⟨⟨⟨hm.2.1.1, by decide⟩, a⟩, by decide⟩, hpr.1⟩
    · simp only [List.mem_append, List.mem_cons, List.not_mem_nil, or_false, not_or] at b ⊢
      exact ⟨⟨⟨⟨hm.2.1.2, by decide⟩, b⟩, by decide⟩, hpr.2⟩
  have hcut : cutCR (method ++ [32] ++ (47 :: u) ++ [32] ++ proto) = method ++ 32 :: ((47 :: u) ++ 32 :: proto) := by
    rw [cutCR_none _ hline.1]; simp
  have hnot : (method ++ 32 :: ((47 :: u) ++ 32 :: proto)).take 4 ≠ sHTTP := by
    intro h
    by_cases hl : 4 ≤ method.length
    · rw [List.take_append_of_le_length hl] at h; exact hm.2.2 h
    · have : 32 ∈ (method ++ 32 :: ((47 :: u) ++ 32 :: proto)).take 4 := by
        rw [List.take_append, List.mem_append]
        right
        rw [show 4 - method.length = (3 - method.length) + 1 by omega, List.take_succ_cons]
        simp
      rw [h] at this; revert this; decide
  have hhl : headerLine ({} : Parser) (method ++ [32] ++ (47 :: u) ++ [32] ++ proto) =
      { ({} : Parser) with method := method, url := 47 :: u, protocol := proto, seenReq := true } := by
    unfold headerLine
    rw [if_pos (by rfl), hcut]
    unfold requestLine
    rw [findChar_append hm.1]
    simp only [if_neg hnot, List.take_left]
    rw [List.drop_append, List.drop_of_length_le (by omega)]
    simp only [List.nil_append, Nat.add_sub_cancel_left, List.drop_succ_cons, List.drop_zero]
    rw [findChar_append hp32]
    simp only [List.take_left]
    rw [List.drop_append, List.drop_of_length_le (by omega)]
    simp only [List.nil_append, Nat.add_sub_cancel_left, List.drop_succ_cons, List.drop_zero]
    rw [setUrl, findChar_none.2 hp63]
    simp only [urlDecode_plain _ hp37]
  let H : List (Bytes × Bytes) := (fs.map fun f => (f.name, f.value)).foldl (fun m e => hset m e.1 e.2) []
  have hmem : ∀ e, e ∈ H ↔ e ∈ fs.map fun f => (f.name, f.value) := by
    intro e
    have := fold_mem (fs.map fun f => (f.name, f.value)) [] (by rw [List.pairwise_map]; exact hd) (by intro a ha; cases ha) e
    simpa using this
  have hap : Apart H := by
    intro e he e' he' hs
    rw [hmem, List.mem_map] at he he'
    obtain ⟨f, hf1, rfl⟩ := he
    obtain ⟨g, hg1, rfl⟩ := he'
    have key : ∀ l : List Field, (l.Pairwise fun a b => ¬ SameName a.name b.name) → ∀ f ∈ l, ∀ g ∈ l, SameName f.name g.name → f = g := by
      intro l
      induction l with
      | nil => intro _ f hf; cases hf
      | cons a l ih =>
        intro hpw f hf g hg hs
        rw [List.pairwise_cons] at hpw
        rcases List.mem_cons.mp hf with h1 | h1 <;> rcases List.mem_cons.mp hg with h2 | h2
        · rw [h1, h2]
        · subst h1; exact absurd hs (hpw.1 g h2)
        · subst h2; exact absurd (same_symm hs) (hpw.1 f h1)
        · exact ih hpw.2 f h1 g h2 hs
    rw [key fs hd f hf1 g hg1 hs]
  have hfound : ∀ f ∈ fs, ∀ i, SameName f.name i → getHeader H i = f.value := by
    intro f hf1 i hi
    exact getHeader_same hap (e := (f.name, f.value)) ((hmem _).mpr (List.mem_map.mpr ⟨f, hf1, rfl⟩)) hi
  have habsent : ∀ i, (∀ f ∈ fs, ¬ SameName f.name i) → getHeader H i = [] := by
    intro i hi
    apply getHeader_absent
    intro e he
    rw [hmem, List.mem_map] at he
    obtain ⟨f, hf1, rfl⟩ := he
    exact hi f hf1
  have hbl : body.length < 2 ^ 31 := by
    rw [hw] at hn; simp only [List.length_append] at hn; omega
  have hend : ∀ (q : Parser), q.seenHeaders = false → q.seenReq = true → ∀ s, whole q (eol cr1 ++ s) = wholeBody (endHeaders q) s := by
    intro q h1 h2 s
    have := whole_eol q [] s cr1 h1 ⟨by simp, by simp⟩
    rw [List.nil_append] at this
    rw [this]
    have : headerLine q [] = endHeaders q := by unfold headerLine; simp [h2, cutCR]
    rw [this, whole_seen _ _ rfl]
  have hwhole : whole {} pieces.flatten = wholeBody (endHeaders { ({} : Parser) with method := method, url := 47 :: u, protocol := proto, headers := H, seenReq := true }) (body ++ rest) := by
    rw [hw]
    have e : method ++ [32] ++ (47 :: u) ++ [32] ++ proto ++ eol cr0 ++ fs.flatMap Field.text ++ eol cr1 ++ body ++ rest =
        (method ++ [32] ++ (47 :: u) ++ [32] ++ proto) ++ eol cr0 ++ (fs.flatMap Field.text ++ (eol cr1 ++ (body ++ rest))) := by simp
    rw [e, whole_eol _ _ _ _ rfl hline, hhl, whole_foreign fs hf _ _ rfl rfl, hend _ rfl rfl]
  obtain ⟨fl, hfl, hfln, hflv⟩ := hlen
  have hcl : getHeader H sContentLength = decimal body.length := by rw [hfound fl hfl _ hfln, hflv]
  have hnte : getHeader H sTransferEncoding ≠ sChunked := by rw [habsent _ hte]; decide
  have hb := wholeBody_length { ({} : Parser) with method := method, url := 47 :: u, protocol := proto, headers := H, seenReq := true } body.length rest rfl (by simp [noBody]) rfl _ (decimal_ne _)
    (atoiSize_decimal _ hbl) hcl hnte body rfl
  have hfv : formVars { endHeaders { ({} : Parser) with method := method, url := 47 :: u, protocol := proto, headers := H, seenReq := true } with body := body } =
      { endHeaders { ({} : Parser) with method := method, url := 47 :: u, protocol := proto, headers := H, seenReq := true } with body := body } := by
    unfold formVars
    rw [if_neg]
    rintro ⟨h1, h2⟩
    have h1' : method = sPOST := h1
    have h2' : getHeader H sContentType = sForm := h2
    rcases hform with h | h
    · exact h h1'
    · by_cases hx : ∃ f ∈ fs, SameName f.name sContentType
      · obtain ⟨f, hf1, hf2⟩ := hx
        rw [hfound f hf1 _ hf2] at h2'
        exact h f hf1 hf2 h2'
      · rw [habsent _ (fun f h1 h2 => hx ⟨f, h1, h2⟩)] at h2'
        revert h2'; decide
  obtain ⟨q, hq1, hq2⟩ := receive_of_whole pieces hn _ rest (hwhole.trans hb)
  refine ⟨q, hq1, ?_⟩
  rw [hq2, hfv]
  exact ⟨rfl, rfl, rfl, rfl, hfound, habsent⟩

/-- A request with "content-LENGTH" and a tab: the hypotheses can be met. -/
example : ∃ fs : List Field, (∀ f ∈ fs, f.Ok) ∧ (fs.Pairwise fun a b => ¬ SameName a.name b.name) ∧
    (∃ f ∈ fs, SameName f.name sContentLength ∧ f.value = decimal ([7, 8] : Bytes).length) ∧
    (∀ f ∈ fs, ¬ SameName f.name sTransferEncoding) := by
  refine ⟨[⟨[], [99, 111, 110, 116, 101, 110, 116, 45, 76, 69, 78, 71, 84, 72], [], [9], [50], [32], false⟩,
    ⟨[], [120], [], [], [121, 32, 121], [], true⟩], ?_, ?_, ?_, ?_⟩
  · intro f hf
    rcases List.mem_cons.mp hf with rfl | hf
    · simp [Field.Ok, Blanks, Bare, OneLineText]
    · rcases List.mem_cons.mp hf with rfl | hf
      · simp [Field.Ok, Blanks, Bare, OneLineText]
      · cases hf
  · simp [SameName]
  · refine ⟨_, List.mem_cons_self, ?_, ?_⟩
    · simp [SameName, sContentLength, SameLetter]
    · rw [decimal]; rfl
  · intro f hf
    rcases List.mem_cons.mp hf with rfl | hf
    · simp [SameName, sTransferEncoding, SameLetter]
    · rcases List.mem_cons.mp hf with rfl | hf
      · simp [SameName, sTransferEncoding]
      · cases hf

end Verif.Http
