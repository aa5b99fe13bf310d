import Verif.Text.Model

/-!
# C37, C39, C44, C47: names, splitting, trimming, substitution, command lines
-/
namespace Verif.Text

theorem takeWhile_self {p : UInt8 → Bool} {s : Bytes} (h : ∀ c ∈ s, p c = true) : s.takeWhile p = s := by
  induction s with
  | nil => rfl
  | cons c r ih => simp only [List.takeWhile_cons, h c (by simp), if_true, ih (fun c hc => h c (by simp [hc]))]

theorem mem_takeWhile {p : UInt8 → Bool} {s : Bytes} {c : UInt8} (h : c ∈ s.takeWhile p) : p c = true := by
  induction s with
  | nil => simp at h
  | cons d r ih =>
    simp only [List.takeWhile_cons] at h
    split at h
    next hd =>
      rcases List.mem_cons.mp h with rfl | h
      · exact hd
      · exact ih h
    next => simp at h

/-! ## C37 -/

/-- The characters a stream name may contain (specification): a-z, 0-9, '_', '.', '-'. -/
def okChar (c : UInt8) : Prop :=
  (97 ≤ c.toNat ∧ c.toNat ≤ 122) ∨ (48 ≤ c.toNat ∧ c.toNat ≤ 57) ∨ c.toNat = 95 ∨ c.toNat = 46 ∨ c.toNat = 45

instance : DecidablePred okChar := fun c => by unfold okChar; infer_instance

/-- … or an upper-case letter. -/
def upChar (c : UInt8) : Prop := 65 ≤ c.toNat ∧ c.toNat ≤ 90

instance : DecidablePred upChar := fun c => by unfold upChar; infer_instance

theorem nameChar_eq : ∀ c, nameChar c = decide (okChar c ∨ upChar c) := by decide +kernel
theorem lower_ok : ∀ c, nameChar c = true → okChar (lower c) := by decide +kernel
theorem lower_id : ∀ c, okChar c → nameChar c = true ∧ lower c = c ∧ c ≠ 0x3F ∧ c ≠ 0x2B ∧ c ≠ 0x20 := by decide +kernel

theorem sanitizeLoop_clean (rev acc : Bytes) (h : 0x3F ∉ rev) :
    sanitizeLoop rev acc = ((rev.reverse.filter nameChar).map lower) ++ acc := by
  induction rev generalizing acc with
  | nil => simp [sanitizeLoop]
  | cons c r ih =>
    simp only [List.mem_cons, not_or] at h
    simp only [sanitizeLoop, if_neg (Ne.symm h.1)]
    by_cases hc : nameChar c = true
    · rw [if_pos hc, ih _ h.2]; simp [hc]
    · rw [if_neg hc, ih _ h.2]; simp [hc]

/-- What a name becomes: the allowed characters of it, in lower case. -/
def cleaned (pre : Bytes) : Bytes := (pre.filter (fun c => okChar c ∨ upChar c)).map (fun c => if upChar c then UInt8.ofNat (c.toNat + 32) else c)

theorem lower_eq : ∀ c, lower c = if upChar c then UInt8.ofNat (c.toNat + 32) else c := by decide +kernel

theorem cleaned_eq (pre : Bytes) : cleaned pre = (pre.filter nameChar).map lower := by
  unfold cleaned
  have h1 : nameChar = fun c => decide (okChar c ∨ upChar c) := funext nameChar_eq
  have h2 : lower = fun c => if upChar c then UInt8.ofNat (c.toNat + 32) else c := funext lower_eq
  rw [h1, h2]

/-- C37. A name without '+', space and '?' becomes its allowed characters in lower case. (Partial: the
full claim also covers names with a '?' in this part.) -/
theorem C37_plain_partial (s : Bytes) (h : ∀ c ∈ s, c ≠ 0x2B ∧ c ≠ 0x20 ∧ c ≠ 0x3F) : sanitizeName s = cleaned s := by
  have hq : (0x3F : UInt8) ∉ s := fun hh => (h _ hh).2.2 rfl
  have hf : s.findIdx? (fun c => c == 0x2B || c == 0x20) = none := by
    rw [List.findIdx?_eq_none_iff]
    intro c hc
    have := h c hc
    simp [this.1, this.2.1]
  unfold sanitizeName
  rw [hf]
  simp only
  rw [sanitizeLoop_clean _ _ (by simpa using hq), cleaned_eq]
  simp

theorem cutQuery_eq (s : Bytes) : cutQuery s = s.takeWhile (· ≠ 0x3F) := by
  unfold cutQuery
  cases h : findChar 0x3F s with
  | none =>
    simp only
    rw [findChar_none] at h
    rw [takeWhile_self]
    intro c hc
    simp only [ne_eq, decide_eq_true_eq]
    rintro rfl
    exact h hc
  | some n =>
    obtain ⟨a, r, rfl, ha, rfl⟩ := findChar_some.mp h
    simp only [List.take_left]
    rw [List.takeWhile_append_of_pos]
    · simp
    · intro c hc
      simp only [ne_eq, decide_eq_true_eq]
      rintro rfl
      exact ha hc

theorem findIdx_pre (pre post : Bytes) (sep : UInt8) (hsep : sep = 0x2B ∨ sep = 0x20) (h : ∀ c ∈ pre, c ≠ 0x2B ∧ c ≠ 0x20) :
    (pre ++ sep :: post).findIdx? (fun c => c == 0x2B || c == 0x20) = some pre.length := by
  rw [List.findIdx?_append]
  have : pre.findIdx? (fun c => c == 0x2B || c == 0x20) = none := by
    rw [List.findIdx?_eq_none_iff]
    intro c hc
    have := h c hc
    simp [this.1, this.2]
  rw [this]
  rcases hsep with rfl | rfl <;> simp [List.findIdx?_cons]

/-- C37. With a '+' or space, the part before the first one is cleaned, the separator becomes '+', and
the rest is cut at its first '?' and otherwise left alone. -/
theorem C37_wildcard_partial (pre post : Bytes) (sep : UInt8) (hsep : sep = 0x2B ∨ sep = 0x20)
    (h : ∀ c ∈ pre, c ≠ 0x2B ∧ c ≠ 0x20 ∧ c ≠ 0x3F) :
    sanitizeName (pre ++ sep :: post) = cleaned pre ++ 0x2B :: post.takeWhile (· ≠ 0x3F) := by
  have hq : (0x3F : UInt8) ∉ pre := fun hh => (h _ hh).2.2 rfl
  unfold sanitizeName
  rw [findIdx_pre pre post sep hsep (fun c hc => ⟨(h c hc).1, (h c hc).2.1⟩)]
  simp only
  rw [List.take_left, sanitizeLoop_clean _ _ (by simpa using hq), cleaned_eq, cutQuery_eq]
  have : (pre ++ sep :: post).drop (pre.length + 1) = post := by
    rw [show pre ++ sep :: post = (pre ++ [sep]) ++ post by simp, show pre.length + 1 = (pre ++ [sep]).length by simp, List.drop_left]
  rw [this]
  simp

theorem cleaned_ok (s : Bytes) : ∀ c ∈ cleaned s, okChar c := by
  intro c hc
  rw [cleaned_eq] at hc
  simp only [List.mem_map, List.mem_filter] at hc
  obtain ⟨d, ⟨-, hd⟩, rfl⟩ := hc
  exact lower_ok d hd

theorem cleaned_id (s : Bytes) (h : ∀ c ∈ s, okChar c) : cleaned s = s := by
  rw [cleaned_eq]
  induction s with
  | nil => rfl
  | cons c r ih =>
    obtain ⟨h1, h2, -⟩ := lower_id c (h c (by simp))
    simp only [List.filter_cons, h1, if_true, List.map_cons, h2]
    rw [ih (fun c hc => h c (by simp [hc]))]

/-- Either no separator, or the parts around the first one. -/
theorem split_first (s : Bytes) : (∀ c ∈ s, c ≠ 0x2B ∧ c ≠ 0x20) ∨
    ∃ pre sep post, s = pre ++ sep :: post ∧ (sep = 0x2B ∨ sep = 0x20) ∧ ∀ c ∈ pre, c ≠ 0x2B ∧ c ≠ 0x20 := by
  induction s with
  | nil => left; simp
  | cons c r ih =>
    by_cases hc : c = 0x2B ∨ c = 0x20
    · right; exact ⟨[], c, r, rfl, hc, by simp⟩
    · simp only [not_or] at hc
      rcases ih with h | ⟨pre, sep, post, rfl, h1, h2⟩
      · left; intro d hd; rcases List.mem_cons.mp hd with rfl | hd; exact hc; exact h d hd
      · right
        refine ⟨c :: pre, sep, post, rfl, h1, ?_⟩
        intro d hd; rcases List.mem_cons.mp hd with rfl | hd; exact hc; exact h2 d hd

/-- The part before the first '+' or space (specification). -/
def before (s : Bytes) : Bytes := s.takeWhile (fun c => c ≠ 0x2B ∧ c ≠ 0x20)

theorem before_append (pre post : Bytes) (sep : UInt8) (hsep : sep = 0x2B ∨ sep = 0x20) (h : ∀ c ∈ pre, c ≠ 0x2B ∧ c ≠ 0x20) :
    before (pre ++ sep :: post) = pre := by
  unfold before
  rw [List.takeWhile_append_of_pos (by intro c hc; simpa using h c hc)]
  rcases hsep with rfl | rfl <;> simp

theorem before_all (s : Bytes) (h : ∀ c ∈ s, c ≠ 0x2B ∧ c ≠ 0x20) : before s = s := by
  unfold before
  rw [takeWhile_self]
  intro c hc; simpa using h c hc

/-- C37. After sanitizing, the part before the first '+' has only allowed characters, no '?' is left
anywhere, and sanitizing again changes nothing — provided the part before the first '+' or space
has no '?' (see `C37_query_fails`). -/
theorem C37_sanitized_partial (s : Bytes) (h : 0x3F ∉ before s) :
    (∀ c ∈ before (sanitizeName s), okChar c) ∧ 0x3F ∉ sanitizeName s ∧ sanitizeName (sanitizeName s) = sanitizeName s := by
  have hok : ∀ s : Bytes, ∀ c ∈ cleaned s, c ≠ 0x2B ∧ c ≠ 0x20 ∧ c ≠ 0x3F := by
    intro s c hc
    obtain ⟨-, -, h1, h2, h3⟩ := lower_id c (cleaned_ok s c hc)
    exact ⟨h2, h3, h1⟩
  rcases split_first s with hs | ⟨pre, sep, post, rfl, hsep, hpre⟩
  · rw [before_all s hs] at h
    have e := C37_plain_partial s (fun c hc => ⟨(hs c hc).1, (hs c hc).2, fun hh => h (hh ▸ hc)⟩)
    rw [e]
    refine ⟨?_, fun hh => (hok s _ hh).2.2 rfl, ?_⟩
    · rw [before_all _ (fun c hc => ⟨(hok s c hc).1, (hok s c hc).2.1⟩)]
      exact cleaned_ok s
    · rw [C37_plain_partial _ (hok s), cleaned_id _ (cleaned_ok s)]
  · rw [before_append pre post sep hsep hpre] at h
    have e := C37_wildcard_partial pre post sep hsep (fun c hc => ⟨(hpre c hc).1, (hpre c hc).2, fun hh => h (hh ▸ hc)⟩)
    rw [e]
    have hq : ∀ c ∈ post.takeWhile (· ≠ 0x3F), c ≠ 0x3F := by
      intro c hc
      have := mem_takeWhile hc
      simpa using this
    refine ⟨?_, ?_, ?_⟩
    · rw [before_append _ _ _ (Or.inl rfl) (fun c hc => ⟨(hok pre c hc).1, (hok pre c hc).2.1⟩)]
      exact cleaned_ok pre
    · intro hh
      rcases List.mem_append.mp hh with hh | hh
      · exact (hok pre _ hh).2.2 rfl
      · rcases List.mem_cons.mp hh with hh | hh
        · cases hh
        · exact hq _ hh rfl
    · rw [C37_wildcard_partial _ _ _ (Or.inl rfl) (hok pre), cleaned_id _ (cleaned_ok pre)]
      rw [takeWhile_self]
      intro c hc; simpa using hq c hc

/-- "Live/ÅStream 1+Cam?x=1" meets the hypothesis. -/
example : 0x3F ∉ before [0x4C, 0x69, 0x2F, 0xC3, 0x53, 0x20, 0x31, 0x2B, 0x43, 0x3F, 0x78] ∧
    sanitizeName [0x4C, 0x69, 0x2F, 0xC3, 0x53, 0x20, 0x31, 0x2B, 0x43, 0x3F, 0x78] = [0x6C, 0x69, 0x73, 0x2B, 0x31, 0x2B, 0x43] := by decide +kernel

/-- C37 fails for a name with a '?': "../A?x" stays "../A", so slashes and capitals get through. -/
theorem C37_query_fails : ∃ s, ∃ c ∈ before (sanitizeName s), ¬ okChar c :=
  ⟨[0x2E, 0x2E, 0x2F, 0x41, 0x3F, 0x78], 0x2F, by decide +kernel, by decide⟩

/-- C37 fails for a '?' before a '+': "a?b+c" becomes "a+c" although the '+' belongs to what should be
dropped; and sanitizing "A?b?c" twice gives something else than once. -/
theorem C37_again_fails : ∃ s, sanitizeName (sanitizeName s) ≠ sanitizeName s :=
  ⟨[0x41, 0x3F, 0x62, 0x3F, 0x63], by decide +kernel⟩

theorem C37_plus_after_query_fails : ∃ a b c : Bytes, sanitizeName (a ++ 0x3F :: b ++ 0x2B :: c) = a ++ 0x2B :: c ∧ c ≠ [] :=
  ⟨[0x61], [0x62], [0x63], by decide +kernel, by decide⟩

/-! ## C39 -/

/-- Splitting at every delimiter, one character at a time. -/
def splitSpec (d : UInt8) : Bytes → Bytes × List Bytes
  | [] => ([], [])
  | x :: r => if x = d then ([], (splitSpec d r).1 :: (splitSpec d r).2) else (x :: (splitSpec d r).1, (splitSpec d r).2)

theorem positions_shift (d : UInt8) (i : Nat) (r : Bytes) (h : d ∉ r) : positions d i r = [] := by
  induction r generalizing i with
  | nil => rfl
  | cons x r ih =>
    simp only [List.mem_cons, not_or] at h
    simp only [positions, if_neg (Ne.symm h.1)]
    exact ih _ h.2

theorem pieces_spec (d : UInt8) (r : Bytes) : ∀ (pre cur : Bytes), pre ≠ [] ∨ d ∉ r →
    pieces (pre ++ d :: (cur ++ r)) pre.length (positions d (pre.length + 1 + cur.length) r) =
      (cur ++ (splitSpec d r).1) :: (splitSpec d r).2 := by
  induction r with
  | nil =>
    intro pre cur _
    simp only [positions, pieces, List.append_nil, splitSpec]
    rw [if_pos (by simp), show pre ++ d :: cur = (pre ++ [d]) ++ cur by simp, show pre.length + 1 = (pre ++ [d]).length by simp, List.drop_left]
  | cons x r ih =>
    intro pre cur h
    by_cases hx : x = d
    · subst hx
      have hpre : pre ≠ [] := by
        rcases h with h | h
        · exact h
        · exact absurd List.mem_cons_self h
      have hp0 : pre.length ≠ 0 := fun hh => hpre (List.length_eq_zero_iff.mp hh)
      simp only [positions, if_true, pieces, splitSpec]
      rw [if_neg hp0]
      have e1 : ((pre ++ x :: (cur ++ x :: r)).drop (pre.length + 1)).take (pre.length + 1 + cur.length - pre.length - 1) = cur := by
        rw [show pre ++ x :: (cur ++ x :: r) = (pre ++ [x]) ++ (cur ++ x :: r) by simp, show pre.length + 1 = (pre ++ [x]).length by simp, List.drop_left,
          show (pre ++ [x]).length + cur.length - pre.length - 1 = cur.length by simp; omega, List.take_left]
      have e2 := ih (pre ++ x :: cur) [] (Or.inl (by simp))
      rw [show (pre ++ x :: cur).length = pre.length + 1 + cur.length by simp; omega] at e2
      simp only [List.nil_append, List.length_nil, Nat.add_zero, List.append_assoc, List.cons_append] at e2
      rw [e1, e2]
      simp
    · simp only [positions, if_neg hx, splitSpec]
      have e := ih pre (cur ++ [x]) (by
        rcases h with h | h
        · exact Or.inl h
        · exact Or.inr (fun hh => h (List.mem_cons_of_mem _ hh)))
      simp only [List.append_assoc, List.cons_append, List.nil_append, List.length_append, List.length_cons, List.length_nil] at e
      rw [show pre.length + 1 + (cur.length + (0 + 1)) = pre.length + 1 + cur.length + 1 by omega] at e
      rw [e]

theorem positions_none (d : UInt8) (i : Nat) (r : Bytes) : positions d i r = [] ↔ d ∉ r := by
  constructor
  · intro h
    induction r generalizing i with
    | nil => simp
    | cons x r ih =>
      by_cases hx : x = d
      · simp [positions, hx] at h
      · simp only [positions, if_neg hx] at h
        simp only [List.mem_cons, not_or]
        exact ⟨Ne.symm hx, ih _ h⟩
  · exact positions_shift d i r

theorem splitSpec_none (d : UInt8) (r : Bytes) (h : d ∉ r) : splitSpec d r = (r, []) := by
  induction r with
  | nil => rfl
  | cons x r ih =>
    simp only [List.mem_cons, not_or] at h
    simp [splitSpec, Ne.symm h.1, ih h.2]

theorem splitSpec_append (d : UInt8) (a r : Bytes) (h : d ∉ a) : splitSpec d (a ++ d :: r) = (a, (splitSpec d r).1 :: (splitSpec d r).2) := by
  induction a with
  | nil => simp [splitSpec]
  | cons x a ih =>
    simp only [List.mem_cons, not_or] at h
    simp [splitSpec, Ne.symm h.1, ih h.2]

theorem positions_append (d : UInt8) (i : Nat) (a r : Bytes) (h : d ∉ a) : positions d i (a ++ d :: r) = (i + a.length) :: positions d (i + a.length + 1) r := by
  induction a generalizing i with
  | nil => simp [positions]
  | cons x a ih =>
    simp only [List.mem_cons, not_or] at h
    simp only [List.cons_append, positions, if_neg (Ne.symm h.1), ih _ h.2, List.length_cons]
    rw [show i + 1 + a.length = i + (a.length + 1) by omega]

theorem splitString_spec (src : Bytes) (d : UInt8) (h : src.head? ≠ some d ∨ d ∉ src.tail) :
    splitString src d = (splitSpec d src).1 :: (splitSpec d src).2 := by
  unfold splitString
  by_cases hd : d ∈ src
  · rw [if_neg (by rw [positions_none]; simpa using hd)]
    obtain ⟨n, hn⟩ : ∃ n, findChar d src = some n := by
      cases hh : findChar d src with
      | none => exact absurd hd (findChar_none.mp hh)
      | some n => exact ⟨n, rfl⟩
    obtain ⟨a, r, rfl, ha, -⟩ := findChar_some.mp hn
    rw [positions_append d 0 a r ha, splitSpec_append d a r ha]
    simp only [pieces, if_true, Nat.zero_add, List.take_left]
    have := pieces_spec d r a [] (by
      rcases h with h | h
      · left; rintro rfl; simp at h
      · cases a with
        | nil => right; simpa using h
        | cons => left; simp)
    simp only [List.nil_append, List.length_nil, Nat.add_zero] at this
    rw [this]
  · rw [if_pos ((positions_none _ _ _).mpr hd), splitSpec_none d src hd]

theorem splitSpec_join (d : UInt8) (s : Bytes) : [d].intercalate ((splitSpec d s).1 :: (splitSpec d s).2) = s := by
  induction s with
  | nil => simp [splitSpec]
  | cons x r ih =>
    by_cases hx : x = d
    · subst hx
      simp only [splitSpec, if_true]
      rw [List.intercalate_cons_cons, ih]; simp
    · simp only [splitSpec, if_neg hx]
      cases hr : (splitSpec d r).2 with
      | nil => rw [hr] at ih; simp at ih ⊢; exact ih
      | cons y l =>
        rw [hr, List.intercalate_cons_cons] at ih
        rw [List.intercalate_cons_cons]
        simp only [List.cons_append, List.append_assoc] at ih ⊢
        rw [ih]

theorem splitSpec_clean (d : UInt8) (s : Bytes) : ∀ p ∈ (splitSpec d s).1 :: (splitSpec d s).2, d ∉ p := by
  induction s with
  | nil => simp [splitSpec]
  | cons x r ih =>
    by_cases hx : x = d
    · subst hx
      simp only [splitSpec, if_true]
      intro p hp
      rcases List.mem_cons.mp hp with rfl | hp
      · simp
      · exact ih p hp
    · simp only [splitSpec, if_neg hx]
      intro p hp
      rcases List.mem_cons.mp hp with rfl | hp
      · simp only [List.mem_cons, not_or]
        exact ⟨Ne.symm hx, ih _ (by simp)⟩
      · exact ih p (by simp [hp])

/-- C39. Splitting gives pieces without the delimiter that join back to the string — unless the string
begins with the delimiter and contains another one (see `C39_split_fails`). -/
theorem C39_split_partial (src : Bytes) (d : UInt8) (h : src.head? ≠ some d ∨ d ∉ src.tail) :
    [d].intercalate (splitString src d) = src ∧ (∀ p ∈ splitString src d, d ∉ p) ∧ splitString src d ≠ [] := by
  rw [splitString_spec src d h]
  exact ⟨splitSpec_join d src, splitSpec_clean d src, by simp⟩

/-- "ab,,c," -/
example : splitString [0x61, 0x62, 0x2C, 0x2C, 0x63, 0x2C] 0x2C = [[0x61, 0x62], [], [0x63], []] := by decide +kernel

/-- C39 fails for ",a,b": the pieces are "", ",a" and "b". -/
theorem C39_split_fails : ∃ (src : Bytes) (d : UInt8), [d].intercalate (splitString src d) ≠ src ∧ ∃ p ∈ splitString src d, d ∈ p :=
  ⟨[0x2C, 0x61, 0x2C, 0x62], 0x2C, by decide +kernel, [0x2C, 0x61], by decide +kernel, by decide⟩

/-- White space (specification): tab, newline, vertical tab, form feed, return, space. -/
def white (c : UInt8) : Prop := c.toNat = 32 ∨ (9 ≤ c.toNat ∧ c.toNat ≤ 13)

instance : DecidablePred white := fun c => by unfold white; infer_instance

theorem isSpace_eq : ∀ c, isSpace c = decide (white c) := by decide +kernel

theorem endScan_spec (s : Bytes) (st : Nat) : ∀ i, i < s.length →
    ((∀ j, 1 ≤ j → j ≤ i → white (s.getD j 0)) ∧ endScan s st i = 0) ∨
    (∃ j, 1 ≤ j ∧ j ≤ i ∧ ¬ white (s.getD j 0) ∧ (∀ k, j < k → k ≤ i → white (s.getD k 0)) ∧ endScan s st i = j + 1 - st) := by
  intro i
  induction i with
  | zero => intro _; left; exact ⟨by omega, rfl⟩
  | succ i ih =>
    intro hi
    simp only [endScan]
    by_cases hc : white (s.getD (i + 1) 0)
    · rw [isSpace_eq, if_pos (by simpa using hc)]
      rcases ih (by omega) with ⟨h1, h2⟩ | ⟨j, h1, h2, h3, h4, h5⟩
      · left
        refine ⟨fun j h1' h2' => ?_, h2⟩
        by_cases hj : j = i + 1
        · rw [hj]; exact hc
        · exact h1 j h1' (by omega)
      · right
        refine ⟨j, h1, by omega, h3, fun k hk hk' => ?_, h5⟩
        by_cases hj : k = i + 1
        · rw [hj]; exact hc
        · exact h4 k hk (by omega)
    · rw [isSpace_eq, if_neg (by simpa using hc)]
      right
      exact ⟨i + 1, by omega, by omega, hc, fun k hk hk' => absurd hk (by omega), rfl⟩

theorem mem_getD (s : Bytes) (c : UInt8) (i : Nat) (hi : i < s.length) (h : s[i] = c) : s.getD i 0 = c := by
  rw [List.getD_eq_getElem?_getD, List.getElem?_eq_getElem hi, h]; rfl

/-- C39. Trimming removes exactly the white space at both ends — unless the only other character is
the very first one (see `C39_trim_fails`). -/
theorem C39_trim_partial (s : Bytes) (h : (∀ c ∈ s, white c) ∨ ∃ c ∈ s.tail, ¬ white c) :
    ∃ pre post, s = pre ++ stringTrim s ++ post ∧ (∀ c ∈ pre, white c) ∧ (∀ c ∈ post, white c) ∧
      (∀ c, (stringTrim s).head? = some c → ¬ white c) ∧ (∀ c, (stringTrim s).getLast? = some c → ¬ white c) := by
  by_cases hall : ∀ c ∈ s, white c
  · have : stringTrim s = [] := by
      unfold stringTrim
      by_cases hl : s.length = 0
      · rw [if_pos hl]; exact List.length_eq_zero_iff.mp hl
      · rw [if_neg hl]
        have h0 : startPos s = 0 := by
          unfold startPos
          rw [List.findIdx?_eq_none_iff.mpr]
          · rfl
          · intro c hc; rw [isSpace_eq]; simp [hall c hc]
        rcases endScan_spec s (startPos s) (s.length - 1) (by omega) with ⟨-, h2⟩ | ⟨j, h1, h2, h3, -⟩
        · rw [h2]; simp
        · exfalso
          apply h3
          rw [mem_getD s _ j (by omega) rfl]
          exact hall _ (List.getElem_mem _)
    rw [this]
    exact ⟨s, [], by simp, hall, by simp, by simp, by simp⟩
  · obtain ⟨c, hc, hw⟩ : ∃ c ∈ s.tail, ¬ white c := by
      rcases h with h | h
      · exact absurd h hall
      · exact h
    obtain ⟨t, ht, htc⟩ := List.getElem_of_mem hc
    have ht' : t + 1 < s.length := by simp at ht; omega
    have hst : s[t + 1] = c := by rw [← htc]; simp
    have hl : s.length ≠ 0 := by omega
    obtain ⟨k, hk⟩ : ∃ k, s.findIdx? (fun c => !isSpace c) = some k := by
      cases hh : s.findIdx? (fun c => !isSpace c) with
      | some k => exact ⟨k, rfl⟩
      | none =>
        rw [List.findIdx?_eq_none_iff] at hh
        have := hh c (List.mem_of_mem_tail hc)
        rw [isSpace_eq] at this
        simp [hw] at this
    rw [List.findIdx?_eq_some_iff_getElem] at hk
    obtain ⟨hkl, hk1, hk2⟩ := hk
    have hsp : startPos s = k := by
      unfold startPos
      rw [List.findIdx?_eq_some_iff_getElem.mpr ⟨hkl, hk1, hk2⟩]; rfl
    rw [isSpace_eq] at hk1
    have hk1' : ¬ white s[k] := by simpa using hk1
    have hk2' : ∀ j (hj : j < k), white (s[j]'(by omega)) := by
      intro j hj
      have := hk2 j hj
      rw [isSpace_eq] at this
      simpa using this
    rcases endScan_spec s (startPos s) (s.length - 1) (by omega) with ⟨h1, h2⟩ | ⟨j, h1, h2, h3, h4, h5⟩
    · exfalso
      apply hw
      have := h1 (t + 1) (by omega) (by omega)
      rwa [mem_getD s _ (t + 1) ht' hst] at this
    · have hkj : k ≤ j := by
        refine Nat.le_of_not_lt fun hlt => h3 ?_
        rw [mem_getD s _ j (by omega) rfl]
        exact hk2' j hlt
      have e : stringTrim s = (s.drop k).take (j + 1 - k) := by
        unfold stringTrim
        rw [if_neg hl, hsp]
        rw [hsp] at h5
        rw [h5]
      rw [mem_getD s _ j (by omega) rfl] at h3
      refine ⟨s.take k, s.drop (j + 1), ?_, ?_, ?_, ?_, ?_⟩
      · rw [e]
        have : s.drop (j + 1) = (s.drop k).drop (j + 1 - k) := by rw [List.drop_drop]; congr 1; omega
        rw [this, List.append_assoc, List.take_append_drop, List.take_append_drop]
      · intro c hc
        obtain ⟨i, hi, rfl⟩ := List.getElem_of_mem hc
        rw [List.getElem_take]
        exact hk2' i (by simp at hi; omega)
      · intro c hc
        obtain ⟨i, hi, rfl⟩ := List.getElem_of_mem hc
        rw [List.getElem_drop]
        simp at hi
        have := h4 (j + 1 + i) (by omega) (by omega)
        rwa [mem_getD s _ (j + 1 + i) (by omega) rfl] at this
      · intro c hc
        rw [e, List.head?_take, if_neg (by omega), List.head?_drop, List.getElem?_eq_getElem hkl] at hc
        cases hc
        exact hk1'
      · intro c hc
        rw [e, List.getLast?_take, if_neg (by omega), List.getElem?_drop, show k + (j + 1 - k - 1) = j by omega, List.getElem?_eq_getElem (by omega)] at hc
        simp at hc
        subst hc
        exact h3

/-- " a b\n" -/
example : (∃ c ∈ [0x20, 0x61, 0x20, 0x62, 0x0A].tail, ¬ white c) ∧ stringTrim [0x20, 0x61, 0x20, 0x62, 0x0A] = [0x61, 0x20, 0x62] := by decide +kernel

/-- C39 fails for "a" (and for "a  "): trimming leaves nothing. -/
theorem C39_trim_fails : ∃ s : Bytes, (∀ c ∈ s, ¬ white c) ∧ s ≠ [] ∧ stringTrim s = [] :=
  ⟨[0x61], by decide +kernel, by decide, by decide +kernel⟩

/-! ## C44 -/

/-- `out` is `s` with its `k` leftmost-first, non-overlapping occurrences of `pat` replaced by `to`, and
there are no more: `s` is cut at the occurrences into pieces in which none begins. -/
def Replaced (pat to s out : Bytes) (k : Nat) : Prop :=
  ∃ ps : List Bytes, ps.length = k + 1 ∧ s = pat.intercalate ps ∧ out = to.intercalate ps ∧
    (∀ p ∈ ps, ¬ pat <:+: p) ∧ ∀ p ∈ ps.dropLast, ∀ m < p.length, ¬ pat <+: (p ++ pat).drop m

theorem infix_drop {pat s : Bytes} (h : pat <:+: s) : ∃ m, m ≤ s.length ∧ pat <+: s.drop m := by
  obtain ⟨a, b, rfl⟩ := h
  refine ⟨a.length, by simp, b, ?_⟩
  rw [List.append_assoc, List.drop_left]

theorem replaceFrom_none {pat to s : Bytes} (h : findSub pat s = none) : replaceFrom pat to s = (s, 0) := by
  rw [replaceFrom.eq_def]
  split
  · rfl
  next h' => rw [h] at h'; cases h'

theorem replaceFrom_some {pat to s : Bytes} {n : Nat} (hp : pat ≠ []) (h : findSub pat s = some n) :
    replaceFrom pat to s = (s.take n ++ to ++ (replaceFrom pat to (s.drop (n + pat.length))).1, (replaceFrom pat to (s.drop (n + pat.length))).2 + 1) := by
  rw [replaceFrom.eq_def]
  split
  next h' => rw [h] at h'; cases h'
  next m h' =>
    rw [h] at h'
    cases h'
    rw [dif_neg hp]

/-- C44. `replace` replaces the occurrences of the text to be found from left to right, without
looking at what it has inserted, and returns how many there were. -/
theorem C44_replace (pat to s : Bytes) (hp : pat ≠ []) : Replaced pat to s (replace pat to s).1 (replace pat to s).2 := by
  unfold replace
  rw [if_neg hp]
  have hpl : 0 < pat.length := List.length_pos_iff.mpr hp
  induction hn : s.length using Nat.strongRecOn generalizing s with
  | ind n ih =>
    cases h : findSub pat s with
    | none =>
      rw [replaceFrom_none h]
      refine ⟨[s], rfl, by simp, by simp, ?_, by simp⟩
      intro p hm hin
      simp only [List.mem_singleton] at hm
      subst hm
      obtain ⟨m, hm, hpre⟩ := infix_drop hin
      exact findSub_none h m hm hpre
    | some i =>
      obtain ⟨h1, ⟨r, hr⟩, h3⟩ := findSub_some h
      rw [replaceFrom_some hp h]
      obtain ⟨ps, e1, e2, e3, e4, e5⟩ := ih (s.drop (i + pat.length)).length (by simp; omega) (s.drop (i + pat.length)) rfl
      have hs : s = s.take i ++ (pat ++ s.drop (i + pat.length)) := by
        have hd : s.drop (i + pat.length) = r := by
          rw [← List.drop_drop, ← hr, List.drop_left]
        rw [hd, hr, List.take_append_drop]
      have hlen : (s.take i).length = i := by simp; omega
      cases ps with
      | nil => simp at e1
      | cons q qs =>
        refine ⟨s.take i :: q :: qs, by simp at e1 ⊢; omega, ?_, ?_, ?_, ?_⟩
        · rw [List.intercalate_cons_cons, ← e2, List.append_assoc]; exact hs
        · rw [List.intercalate_cons_cons, ← e3]
        · intro p hm hin
          rcases List.mem_cons.mp hm with rfl | hm
          · obtain ⟨m, hm, hpre⟩ := infix_drop hin
            have hl := hpre.length_le
            simp only [List.length_drop, hlen] at hl
            apply h3 m (by omega)
            obtain ⟨t, ht⟩ := hpre
            refine ⟨t ++ (pat ++ s.drop (i + pat.length)), ?_⟩
            conv => rhs; rw [hs]
            rw [List.drop_append_of_le_length (by omega), ← ht, List.append_assoc]
          · exact e4 p hm hin
        · intro p hm m hml hpre
          rw [List.dropLast_cons_of_ne_nil (by simp)] at hm
          rcases List.mem_cons.mp hm with rfl | hm
          · rw [hlen] at hml
            apply h3 m hml
            obtain ⟨t, ht⟩ := hpre
            refine ⟨t ++ s.drop (i + pat.length), ?_⟩
            have hs' : s.drop m = ((s.take i ++ pat) ++ s.drop (i + pat.length)).drop m := by
              rw [List.append_assoc, ← hs]
            rw [hs', List.drop_append_of_le_length (by simp; omega), ← ht, List.append_assoc]
          · exact e5 p hm m hml hpre

/-- An empty text to be found is never found. -/
theorem C44_replace_empty (to s : Bytes) : replace [] to s = (s, 0) := rfl

/-- "aaa" with "aa" replaced by "aab": once, "aaba". -/
example : replaceFrom [1, 1] [1, 1, 2] [1, 1, 1] = ([1, 1, 2, 1], 1) := by
  rw [replaceFrom_some (n := 0) (by simp) (by decide), replaceFrom_none (by decide)]; decide

/-- Repeated passes, the first with one table of variables and the others with another. -/
def passes (vars vars' : List (Bytes × Bytes)) : Nat → Bytes → Bytes
  | 0, s => s
  | k + 1, s => passes vars' vars' k (pass vars s).1

/-- C44. Variable substitution always ends, whatever the values (a variable may contain itself): the
result is that of at most ten passes over the table, and if fewer were made, either no '$' is left
or the last pass found nothing to replace. -/
theorem C44_substitution (vars vars' : List (Bytes × Bytes)) (s : Bytes) :
    ∃ k ≤ 10, (streamVariables 10 vars vars' s).1 = passes vars vars' k s ∧
      (k = 10 ∨ 0x24 ∉ (streamVariables 10 vars vars' s).1 ∨ ∃ j, k = j + 1 ∧
        (pass (if j = 0 then vars else vars') (passes vars vars' j s)).2 = 0) := by
  suffices h : ∀ n vars s, ∃ k ≤ n, (streamVariables n vars vars' s).1 = passes vars vars' k s ∧
      (k = n ∨ 0x24 ∉ (streamVariables n vars vars' s).1 ∨ ∃ j, k = j + 1 ∧
        (pass (if j = 0 then vars else vars') (passes vars vars' j s)).2 = 0) from h 10 vars s
  intro n
  induction n with
  | zero => intro vars s; exact ⟨0, by omega, rfl, Or.inl rfl⟩
  | succ n ih =>
    intro vars s
    simp only [streamVariables]
    by_cases h0 : (0x24 : UInt8) ∉ s
    · rw [if_pos h0]
      exact ⟨0, by omega, rfl, Or.inr (Or.inl h0)⟩
    · rw [if_neg h0]
      by_cases h1 : (pass vars s).2 ≠ 0 ∧ (0x24 : UInt8) ∈ (pass vars s).1
      · rw [if_pos h1]
        obtain ⟨k, hk, e, hcase⟩ := ih vars' (pass vars s).1
        refine ⟨k + 1, by omega, e, ?_⟩
        rcases hcase with h | h | ⟨j, rfl, hj⟩
        · left; omega
        · right; left; exact h
        · right; right
          refine ⟨j + 1, rfl, ?_⟩
          rw [if_neg (by omega)]
          simp only [passes]
          split at hj <;> exact hj
      · rw [if_neg h1]
        refine ⟨1, by omega, rfl, ?_⟩
        right
        by_cases h2 : (pass vars s).2 = 0
        · right; exact ⟨0, rfl, by rw [if_pos rfl]; exact h2⟩
        · left; exact fun hm => h1 ⟨h2, hm⟩

/-! ## C47 -/

/-- Characters that mean something on a command line: space, quotes, backslash. -/
def special (c : UInt8) : Prop := c = 0x20 ∨ c = 0x27 ∨ c = 0x22 ∨ c = 0x5C

/-- Writing an argument in quotes of kind `q`: a backslash before quotes of that kind and backslashes. -/
def quoted (q : UInt8) (a : Bytes) : Bytes := [q] ++ a.flatMap (fun c => if c = q ∨ c = 0x5C then [0x5C, c] else [c]) ++ [q]

/-- The ways of writing an argument: in either kind of quotes, or bare when it is not empty and has no
special characters. -/
def Written (a w : Bytes) : Prop :=
  w = quoted 0x27 a ∨ w = quoted 0x22 a ∨ (w = a ∧ a ≠ [] ∧ ∀ c ∈ a, ¬ special c)

theorem shellLoop_plain (s : Shell) (c : UInt8) (r : Bytes) (h : ¬ special c) : shellLoop s (c :: r) = shellLoop { s with arg := s.arg ++ [c] } r := by
  unfold special at h
  simp only [not_or] at h
  rw [shellLoop.eq_def]
  split
  next h' => cases h'
  next h' => cases h'; exact absurd rfl h.1
  next h' => cases h'; exact absurd rfl h.2.2.2
  next h' => cases h'; exact absurd rfl h.2.2.2
  next h' => cases h'; rw [if_neg (by simp [h.2.1, h.2.2.1])]

theorem shellLoop_bare (a : Bytes) (h : ∀ c ∈ a, ¬ special c) : ∀ (s : Shell) (r : Bytes), shellLoop s (a ++ r) = shellLoop { s with arg := s.arg ++ a } r := by
  induction a with
  | nil => intro s r; simp
  | cons c a ih =>
    intro s r
    rw [List.cons_append, shellLoop_plain s c _ (h c (by simp)), ih (fun c hc => h c (by simp [hc]))]
    simp

theorem shellLoop_esc (s : Shell) (c : UInt8) (r : Bytes) : shellLoop s (0x5C :: c :: r) = shellLoop { s with arg := s.arg ++ [unescape c] } r := by
  simp [shellLoop]

theorem shellLoop_quote (s : Shell) (c : UInt8) (r : Bytes) (hc : c = 0x27 ∨ c = 0x22) : shellLoop s (c :: r) =
    if s.quoting = 0 then shellLoop { s with quoting := c, argFull := true } r
      else if s.quoting ≠ c then shellLoop { s with arg := s.arg ++ [c] } r
      else shellLoop { s with quoting := 0 } r := by
  rcases hc with rfl | rfl <;> simp [shellLoop]

theorem shellLoop_inner (q : UInt8) (hq : q = 0x27 ∨ q = 0x22) (a : Bytes) : ∀ (s : Shell) (r : Bytes), s.quoting = q →
    shellLoop s (a.flatMap (fun c => if c = q ∨ c = 0x5C then [0x5C, c] else [c]) ++ r) = shellLoop { s with arg := s.arg ++ a } r := by
  have hq0 : q ≠ 0 := by rcases hq with rfl | rfl <;> decide
  induction a with
  | nil => intro s r _; simp
  | cons c a ih =>
    intro s r hs
    rw [List.flatMap_cons, List.append_assoc]
    have hgoal : shellLoop s ((if c = q ∨ c = 0x5C then [0x5C, c] else [c]) ++ (a.flatMap (fun c => if c = q ∨ c = 0x5C then [0x5C, c] else [c]) ++ r)) =
        shellLoop { s with arg := s.arg ++ [c] } (a.flatMap (fun c => if c = q ∨ c = 0x5C then [0x5C, c] else [c]) ++ r) := by
      by_cases h1 : c = q ∨ c = 0x5C
      · rw [if_pos h1]
        simp only [List.cons_append, List.nil_append]
        rw [shellLoop_esc]
        have : unescape c = c := by
          rcases h1 with rfl | rfl
          · rcases hq with rfl | rfl <;> decide
          · decide
        rw [this]
      · rw [if_neg h1]
        simp only [not_or] at h1
        simp only [List.cons_append, List.nil_append]
        by_cases h2 : special c
        · rcases h2 with rfl | h2
          · simp only [shellLoop, hs]
            rw [if_neg hq0]
          · have hc : c = 0x27 ∨ c = 0x22 := by
              rcases h2 with h | h | h
              · exact Or.inl h
              · exact Or.inr h
              · exact absurd h h1.2
            rw [shellLoop_quote s c _ hc, hs, if_neg hq0, if_pos (Ne.symm h1.1)]
        · exact shellLoop_plain s c _ h2
    rw [hgoal, ih { s with arg := s.arg ++ [c] } r hs]
    simp

theorem shellLoop_quoted (q : UInt8) (hq : q = 0x27 ∨ q = 0x22) (a : Bytes) (s : Shell) (r : Bytes) (hs : s.quoting = 0) :
    shellLoop s (quoted q a ++ r) = shellLoop { s with arg := s.arg ++ a, argFull := true } r := by
  have hq0 : q ≠ 0 := by rcases hq with rfl | rfl <;> decide
  unfold quoted
  simp only [List.append_assoc, List.cons_append, List.nil_append]
  rw [shellLoop_quote s q _ hq, if_pos hs, shellLoop_inner q hq a { s with quoting := q, argFull := true } (q :: r) rfl]
  rw [shellLoop_quote _ q _ hq]
  simp only
  rw [if_neg hq0, if_neg (by simp)]
  simp only [hs]

theorem shellLoop_written {a w : Bytes} (h : Written a w) (s : Shell) (r : Bytes) (hs : s.quoting = 0) (ha : s.arg = []) :
    ∃ full, (full = true ∨ a ≠ []) ∧ shellLoop s (w ++ r) = shellLoop { s with arg := a, argFull := full } r := by
  rcases h with rfl | rfl | ⟨rfl, hne, hsp⟩
  · exact ⟨true, Or.inl rfl, by rw [shellLoop_quoted _ (Or.inl rfl) a s r hs, ha]; rfl⟩
  · exact ⟨true, Or.inl rfl, by rw [shellLoop_quoted _ (Or.inr rfl) a s r hs, ha]; rfl⟩
  · exact ⟨s.argFull, Or.inr hne, by rw [shellLoop_bare w hsp s r, ha]; rfl⟩

/-- C47. A command line made of arguments, each written bare or in quotes, with at least one space between
two and any number of spaces at the ends, is split into exactly those arguments. -/
theorem C47_shell_split (args : List (Bytes × Bytes)) (h : ∀ p ∈ args, Written p.1 p.2) (gap : Nat → Nat) (lead : Nat) :
    shellSplit (List.replicate lead 0x20 ++ (args.zipIdx.flatMap fun p => p.1.2 ++ List.replicate (gap p.2 + 1) 0x20)) = args.map Prod.fst := by
  have spaces : ∀ (n : Nat) (s : Shell) (r : Bytes), s.quoting = 0 → s.arg = [] → s.argFull = false →
      shellLoop s (List.replicate n 0x20 ++ r) = shellLoop s r := by
    intro n
    induction n with
    | zero => intro s r _ _ _; simp
    | succ n ih =>
      intro s r h1 h2 h3
      rw [List.replicate_succ, List.cons_append]
      simp only [shellLoop]
      rw [if_pos h1]
      have hp : s.push = s.out := by unfold Shell.push; rw [if_neg (by simp [h2, h3])]
      rw [hp]
      rw [ih { s with arg := [], argFull := false, out := s.out } r h1 rfl rfl]
      obtain ⟨a, b, c, d⟩ := s
      simp only at h1 h2 h3
      subst h1 h2 h3
      rfl
  suffices hmain : ∀ (k : Nat) (out : List Bytes), shellLoop { out := out } ((args.zipIdx k).flatMap fun p => p.1.2 ++ List.replicate (gap p.2 + 1) 0x20) =
      out ++ args.map Prod.fst by
    unfold shellSplit
    rw [spaces lead {} _ rfl rfl rfl]
    have := hmain 0 []
    simpa using this
  induction args with
  | nil => intro k out; simp [shellLoop, Shell.push]
  | cons p ps ih =>
    intro k out
    rw [List.zipIdx_cons, List.flatMap_cons, List.append_assoc]
    obtain ⟨full, hf, e⟩ := shellLoop_written (h p (by simp)) { out := out } (List.replicate (gap k + 1) 0x20 ++
      ((ps.zipIdx (k + 1)).flatMap fun p => p.1.2 ++ List.replicate (gap p.2 + 1) 0x20)) rfl rfl
    rw [e, List.replicate_succ, List.cons_append]
    rw [show ∀ (s : Shell) (r : Bytes), shellLoop s (0x20 :: r) = if s.quoting = 0 then shellLoop { s with arg := [], argFull := false, out := s.push } r
      else shellLoop { s with arg := s.arg ++ [0x20] } r from fun s r => by simp [shellLoop]]
    rw [if_pos rfl]
    have hp : Shell.push { arg := p.1, argFull := full, out := out } = out ++ [p.1] := by
      unfold Shell.push
      rw [if_pos (by rcases hf with h | h; right; exact h; left; exact h)]
    rw [hp, spaces _ _ _ rfl rfl rfl, ih (fun q hq => h q (by simp [hq]))]
    simp

/-- `say "it's" ''` -/
example : Written [0x73, 0x61, 0x79] [0x73, 0x61, 0x79] ∧ Written [0x69, 0x27] (quoted 0x22 [0x69, 0x27]) ∧ Written [] [0x27, 0x27] ∧
    shellSplit ([0x73, 0x61, 0x79, 0x20] ++ quoted 0x22 [0x69, 0x27] ++ [0x20, 0x27, 0x27]) = [[0x73, 0x61, 0x79], [0x69, 0x27], []] := by
  refine ⟨Or.inr (Or.inr ⟨rfl, by simp, by simp [special]⟩), Or.inr (Or.inl rfl), Or.inl rfl, ?_⟩
  simp [quoted, shellSplit, shellLoop, Shell.push]

/-- C47. Escaped line ends, tabs and bells: how an argument is written without quotes when everything special
is escaped. -/
def escaped (a : Bytes) : Bytes := a.flatMap fun c =>
  if c = 10 then [0x5C, 0x6E] else if c = 13 then [0x5C, 0x72] else if c = 9 then [0x5C, 0x74] else if c = 7 then [0x5C, 0x61]
  else if c = 0x20 ∨ c = 0x27 ∨ c = 0x22 ∨ c = 0x5C then [0x5C, c] else [c]

/-- C47. Any argument written with backslashes only is read back exactly. -/
theorem C47_escaped (a : Bytes) (ha : a ≠ []) : shellSplit (escaped a) = [a] := by
  have h : ∀ (a : Bytes) (s : Shell), s.quoting = 0 → shellLoop s (escaped a) = shellLoop { s with arg := s.arg ++ a } [] := by
    intro a
    induction a with
    | nil => intro s _; simp [escaped]
    | cons c a ih =>
      intro s hs
      have hstep : shellLoop s (escaped (c :: a)) = shellLoop { s with arg := s.arg ++ [c] } (escaped a) := by
        simp only [escaped, List.flatMap_cons]
        by_cases h1 : c = 10
        · subst h1; rw [if_pos rfl]; simp only [List.cons_append, List.nil_append]; rw [shellLoop_esc]; rfl
        rw [if_neg h1]
        by_cases h2 : c = 13
        · subst h2; rw [if_pos rfl]; simp only [List.cons_append, List.nil_append]; rw [shellLoop_esc]; rfl
        rw [if_neg h2]
        by_cases h3 : c = 9
        · subst h3; rw [if_pos rfl]; simp only [List.cons_append, List.nil_append]; rw [shellLoop_esc]; rfl
        rw [if_neg h3]
        by_cases h4 : c = 7
        · subst h4; rw [if_pos rfl]; simp only [List.cons_append, List.nil_append]; rw [shellLoop_esc]; rfl
        rw [if_neg h4]
        by_cases h5 : c = 0x20 ∨ c = 0x27 ∨ c = 0x22 ∨ c = 0x5C
        · rw [if_pos h5]; simp only [List.cons_append, List.nil_append]; rw [shellLoop_esc]
          have : unescape c = c := by rcases h5 with rfl | rfl | rfl | rfl <;> decide
          rw [this]
        · rw [if_neg h5]; simp only [List.cons_append, List.nil_append]; rw [shellLoop_plain _ _ _ h5]
      rw [hstep, ih _ (by exact hs)]
      simp
  unfold shellSplit
  rw [h a {} rfl]
  simp [shellLoop, Shell.push, ha]

/-- `a\nb\ c` is one argument with a line end and a space. -/
example : shellSplit [0x61, 0x5C, 0x6E, 0x62, 0x5C, 0x20, 0x63] = [[0x61, 10, 0x62, 0x20, 0x63]] :=
  C47_escaped [0x61, 10, 0x62, 0x20, 0x63] (by simp)

/-- C44. One variable: all its `${name}` occurrences are replaced first, then all `$name` occurrences in the
result, and the count is that of all replacements. -/
theorem C44_variable (var rep s : Bytes) : ∃ mid n1 n2,
    Replaced ([0x24, 0x7B] ++ var ++ [0x7D]) rep s mid n1 ∧
    Replaced ([0x24] ++ var) rep mid (replaceVar var rep s).1 n2 ∧ (replaceVar var rep s).2 = n1 + n2 :=
  ⟨_, _, _, C44_replace _ rep s (by simp), C44_replace _ rep _ (by simp), rfl⟩

/-- C44. The variables of a table are substituted one after the other, and the counts add up. -/
theorem C44_pass (v : Bytes × Bytes) (vars : List (Bytes × Bytes)) (s : Bytes) :
    (pass (v :: vars) s).1 = (pass vars (replaceVar v.1 v.2 s).1).1 ∧
    (pass (v :: vars) s).2 = (replaceVar v.1 v.2 s).2 + (pass vars (replaceVar v.1 v.2 s).1).2 := by
  have h : ∀ (vars : List (Bytes × Bytes)) (s : Bytes) (n : Nat),
      vars.foldl (fun acc v => let r := replaceVar v.1 v.2 acc.1; (r.1, acc.2 + r.2)) (s, n) =
        ((pass vars s).1, n + (pass vars s).2) := by
    intro vars
    induction vars with
    | nil => intro s n; simp [pass]
    | cons v vars ih =>
      intro s n
      simp only [List.foldl_cons]
      rw [ih]
      have e : pass (v :: vars) s = vars.foldl (fun acc v => let r := replaceVar v.1 v.2 acc.1; (r.1, acc.2 + r.2))
        ((replaceVar v.1 v.2 s).1, 0 + (replaceVar v.1 v.2 s).2) := rfl
      rw [e, ih]
      simp only [Nat.zero_add, Nat.add_assoc]
  have e : pass (v :: vars) s = vars.foldl (fun acc v => let r := replaceVar v.1 v.2 acc.1; (r.1, acc.2 + r.2))
    ((replaceVar v.1 v.2 s).1, 0 + (replaceVar v.1 v.2 s).2) := rfl
  rw [e, h]
  simp

end Verif.Text
