import Verif.Json.TextLemmas
import Verif.Json.ValSpec

/-!
# Parsing what `toText` writes
-/
namespace Verif.Json
open Spec

/-- What can come after a value. -/
def Ends (r : Bytes) : Prop := r = [] ∨ ∃ c t, r = c :: t ∧ (c = 44 ∨ c = 93 ∨ c = 125)

theorem parse_end (n : Nat) (p : PV) (h1 : p.rObj = false) (h2 : p.rArr = false) (r : Bytes) (hr : Ends r) :
    parseVal (n + 1) p r = some (p.fin, r) := by
  rcases hr with h | ⟨c, t, rfl, h | h | h⟩
  · subst h; rfl
  all_goals (subst h; rw [parseVal]; simp [h1, h2])

theorem skip_end (r : Bytes) (hr : Ends r) : skipToEnd r = r := by
  rcases hr with h | ⟨c, t, rfl, h⟩
  · subst h; rfl
  · rw [skipToEnd, if_pos h]

theorem digit_byte (c : Char) (h : c.isDigit = true) : 48 ≤ (UInt8.ofNat c.toNat).toNat ∧ (UInt8.ofNat c.toNat).toNat ≤ 57 ∧
    (UInt8.ofNat c.toNat).toNat - 48 = c.toNat - '0'.toNat := by
  have hc : 48 ≤ c.toNat ∧ c.toNat ≤ 57 := by
    simp only [Char.isDigit, Bool.and_eq_true, decide_eq_true_eq, ge_iff_le] at h
    obtain ⟨a, b⟩ := h
    exact ⟨UInt32.le_iff_toNat_le.mp a, UInt32.le_iff_toNat_le.mp b⟩
  rw [toNat_ofNat_byte (by omega)]
  exact ⟨hc.1, hc.2, rfl⟩

theorem ofDigitChars_ge (cs : List Char) (i : Nat) : i ≤ Nat.ofDigitChars 10 cs i := by
  rw [Nat.ofDigitChars_eq_ofDigitChars_zero]
  have : 1 * i ≤ 10 ^ cs.length * i := Nat.mul_le_mul_right _ (Nat.one_le_pow _ _ (by decide))
  omega

theorem parse_digit (n : Nat) (p : PV) (b : UInt8) (hb : 48 ≤ b.toNat ∧ b.toNat ≤ 57) (r : Bytes) :
    parseVal (n + 1) p (b :: r) = (p.digit (b.toNat - 48)).bind fun p => parseVal n p r := by
  have hne : ∀ c : UInt8, c.toNat < 48 ∨ 57 < c.toNat → b ≠ c := by
    intro c hc e
    subst e
    omega
  rw [parseVal, if_neg (hne 123 (by decide)), if_neg (hne 91 (by decide)),
    if_neg (by rintro (h | h); exact hne 39 (by decide) h; exact hne 34 (by decide) h), if_neg (hne 45 (by decide)), if_pos hb]

theorem digit_int (p : PV) (hp : p.ty = .int) (d : Nat) (h : p.int * 10 + d < 2 ^ 63) :
    p.digit d = some { p with int := p.int * 10 + d } := by
  cases p
  subst hp
  simp only [PV.digit, ne_eq, not_true_eq_false, false_and, if_false, if_true]
  exact if_pos h

/-- The digits of an integer, one by one. -/
theorem parse_digits (cs : List Char) (hd : ∀ c ∈ cs, c.isDigit = true) (p : PV) (hp : p.ty = .int) (i : Nat) (hi : p.int = i)
    (hb : Nat.ofDigitChars 10 cs i < 2 ^ 63) (n : Nat) (r : Bytes) :
    parseVal (n + cs.length) p (cs.map (fun c => UInt8.ofNat c.toNat) ++ r) =
      parseVal n { p with int := (Nat.ofDigitChars 10 cs i : Nat) } r := by
  induction cs generalizing p i with
  | nil =>
    rw [Nat.ofDigitChars_nil, ← hi]
    rfl
  | cons c cs ih =>
    obtain ⟨h1, h2, h3⟩ := digit_byte c (hd c (by simp))
    rw [Nat.ofDigitChars_cons] at hb
    have hge := ofDigitChars_ge cs (10 * i + (c.toNat - '0'.toNat))
    rw [List.length_cons, ← Nat.add_assoc, List.map_cons, List.cons_append, parse_digit _ _ _ ⟨h1, h2⟩, h3,
      digit_int p hp _ (by rw [hi]; omega), Option.bind_some, hi,
      ih (fun d hdd => hd d (by simp [hdd])) { p with int := (i : Int) * 10 + ((c.toNat - '0'.toNat : Nat) : Int) } hp (10 * i + (c.toNat - '0'.toNat)) (by
        dsimp only; push_cast; omega) hb, Nat.ofDigitChars_cons]

theorem parse_nat (v : Nat) (h : v < 2 ^ 63) (p : PV) (hp : p.ty = .unset) (hi : p.int = 0) (n : Nat) (r : Bytes) :
    parseVal (n + (Nat.toDigits 10 v).length) p ((Nat.toDigits 10 v).map (fun c => UInt8.ofNat c.toNat) ++ r) =
      parseVal n { p with ty := .int, int := (v : Nat) } r := by
  have hd : ∀ c ∈ Nat.toDigits 10 v, c.isDigit = true := fun c hc =>
    Nat.isDigit_of_mem_toDigits (by decide) (Nat.le_refl _) hc
  have hv : Nat.ofDigitChars 10 (Nat.toDigits 10 v) 0 = v := Nat.ofDigitChars_toDigits (by decide) (Nat.le_refl _)
  cases hcs : Nat.toDigits 10 v with
  | nil => exact absurd hcs Nat.toDigits_ne_nil
  | cons c cs =>
    rw [hcs] at hd hv
    obtain ⟨h1, h2, h3⟩ := digit_byte c (hd c (by simp))
    rw [Nat.ofDigitChars_cons] at hv
    have hge := ofDigitChars_ge cs (10 * 0 + (c.toNat - '0'.toNat))
    rw [List.length_cons, ← Nat.add_assoc, List.map_cons, List.cons_append, parse_digit _ _ _ ⟨h1, h2⟩, h3, PV.digit]
    simp only [hp, hi, ne_eq, reduceCtorEq, not_false_eq_true, and_self, if_true]
    rw [if_pos (by omega), Option.bind_some,
      parse_digits cs (fun d hdd => hd d (by simp [hdd])) _ rfl (10 * 0 + (c.toNat - '0'.toNat)) (by
        dsimp only; push_cast; omega) (by rw [hv]; exact h), hv]

theorem parse_int (i : Int) (h1 : -(2 ^ 63) < i) (h2 : i < 2 ^ 63) (n : Nat) (r : Bytes) (hr : Ends r)
    (hn : (intText i ++ r).length < n) : parseVal n {} (intText i ++ r) = some (.int i, r) := by
  rw [intText] at *
  by_cases hi : i < 0
  · rw [if_pos hi] at *
    simp only [List.cons_append, List.nil_append, List.length_cons, List.length_append, List.length_map] at hn ⊢
    obtain ⟨m, rfl⟩ : ∃ m, n = m + 1 + (Nat.toDigits 10 i.natAbs).length + 1 := ⟨n - (Nat.toDigits 10 i.natAbs).length - 2, by omega⟩
    rw [parseVal]
    simp only [show (45 : UInt8) ≠ 123 by decide, show (45 : UInt8) ≠ 91 by decide, show ¬((45 : UInt8) = 39 ∨ (45 : UInt8) = 34) by decide,
      if_false, if_true]
    rw [parse_nat i.natAbs (by omega) _ rfl rfl, parse_end _ _ rfl rfl _ hr]
    simp only [PV.fin, if_true]
    rw [show -(i.natAbs : Int) = i by omega]
  · rw [if_neg hi] at *
    simp only [List.nil_append, List.length_append, List.length_map] at hn ⊢
    obtain ⟨m, rfl⟩ : ∃ m, n = m + 1 + (Nat.toDigits 10 i.natAbs).length := ⟨n - (Nat.toDigits 10 i.natAbs).length - 1, by omega⟩
    rw [parse_nat i.natAbs (by omega) _ rfl rfl, parse_end _ _ rfl rfl _ hr]
    simp only [PV.fin, Bool.false_eq_true, if_false]
    rw [show (i.natAbs : Int) = i by omega]

theorem keyLt_irrefl (a : Bytes) : keyLt a a = false := by
  induction a with
  | nil => rfl
  | cons x a ih => simp [keyLt, ih]

theorem mapSet_last (l : List (Bytes × JVal)) (k : Bytes) (v : JVal) (h : ∀ a ∈ l.map (·.1), keyLt a k = true) :
    mapSet l k v = l ++ [(k, v)] := by
  induction l with
  | nil => rfl
  | cons m l ih =>
    rw [mapSet, if_pos (h m.1 (by simp)), ih (fun a ha => h a (by simp only [List.map_cons, List.mem_cons]; exact Or.inr ha))]
    rfl

variable {f : Dbl → Bytes} {K S : Bytes → Prop} {g : Bytes → Bytes}

theorem escape_eq (s r : Bytes) : escape s ++ r = 34 :: (esc s ++ 34 :: r) := by
  simp [escape, esc]

theorem toText_ne_nil (v : JVal) (h : Good K S v) : toText f v ≠ [] := by
  cases v with
  | unset => rw [Good] at h; exact h.elim
  | dbl d => rw [Good] at h; exact h.elim
  | null => rw [toText]; simp
  | bool b => rw [toText]; cases b <;> simp
  | int i =>
    rw [toText, intText]
    have := @Nat.toDigits_ne_nil i.natAbs 10
    simp [this]
  | str s => rw [toText, escape]; simp
  | arr l => rw [toText]; simp
  | obj l => rw [toText]; simp

/-- Parsing values of the right size with less than `N` rounds. -/
def Upto (f : Dbl → Bytes) (K S : Bytes → Prop) (g : Bytes → Bytes) (N : Nat) : Prop :=
  ∀ m < N, ∀ v r, Good K S v → Ends r → (toText f v ++ r).length < m → parseVal m {} (toText f v ++ r) = some (mapStr g v, r)

theorem mapStr_ne_unset (v : JVal) (h : Good K S v) : mapStr g v ≠ .unset := by
  cases v <;> simp only [mapStr] <;> (try (intro h; cases h))
  rw [Good] at h
  exact h

theorem ends_sep (r : List JVal) (t : Bytes) : Ends ((if r.isEmpty then [] else [44]) ++ elemsText f r ++ 93 :: t) := by
  cases r with
  | nil => exact Or.inr ⟨93, t, by simp [elemsText], by decide⟩
  | cons v r => exact Or.inr ⟨44, _, by simp; rfl, by decide⟩

theorem ends_sepM (r : List (Bytes × JVal)) (t : Bytes) :
    Ends ((if r.isEmpty then [] else [44]) ++ membersText f r ++ 125 :: t) := by
  cases r with
  | nil => exact Or.inr ⟨125, t, by simp [membersText], by decide⟩
  | cons v r => exact Or.inr ⟨44, _, by simp; rfl, by decide⟩

theorem elems_loop {N : Nat} (IH : Upto f K S g N) (r : List JVal) (hg : GoodElems K S r) (p : PV) (hty : p.ty = .arr)
    (ho : p.rObj = false) (ha : p.rArr = true) (n : Nat) (hN : n ≤ N) (t : Bytes)
    (hn : ((if r.isEmpty then [] else [44]) ++ elemsText f r ++ 93 :: t).length < n) :
    parseVal n p ((if r.isEmpty then [] else [44]) ++ elemsText f r ++ 93 :: t) = some (.arr (p.arr ++ mapElems g r), t) := by
  induction r generalizing p n with
  | nil =>
    simp only [List.isEmpty_nil, if_true, elemsText, List.nil_append] at *
    obtain ⟨m, rfl⟩ : ∃ m, n = m + 1 := ⟨n - 1, by simp only [List.length_cons] at hn; omega⟩
    rw [parseVal]
    simp [PV.fin, hty, ha, mapElems]
  | cons v r ih =>
    obtain ⟨hv, hr⟩ := hg
    have hnn : orNull (toText f v) = toText f v := by rw [orNull, if_neg (toText_ne_nil v hv)]
    simp only [List.isEmpty_cons, Bool.false_eq_true, if_false, elemsText, hnn, List.cons_append, List.nil_append,
      List.append_assoc, List.length_cons] at *
    obtain ⟨m, rfl⟩ : ∃ m, n = m + 1 := ⟨n - 1, by omega⟩
    have e := ends_sep (f := f) r t
    simp only [List.append_assoc] at e
    rw [parseVal]
    simp only [show (44 : UInt8) ≠ 123 by decide, show (44 : UInt8) ≠ 91 by decide, show ¬((44 : UInt8) = 39 ∨ (44 : UInt8) = 34) by decide,
      show (44 : UInt8) ≠ 45 by decide, show ¬(48 ≤ (44 : UInt8).toNat ∧ (44 : UInt8).toNat ≤ 57) by decide,
      show (44 : UInt8) ≠ 46 by decide, if_false, if_true, ho, ha, Bool.not_false, Bool.not_true, Bool.and_false, Bool.false_eq_true]
    rw [IH m (by omega) v _ hv e (by omega), Option.bind_some]
    dsimp only
    rw [ih hr (p.append (mapStr g v)) (by simp [PV.append, hty]) (by simp [PV.append, hty, ho]) (by simp [PV.append, hty, ha]) m
      (by omega) (by simp only [List.length_append] at hn ⊢; omega)]
    simp [PV.append, hty, mapElems]

theorem members_loop {N : Nat} (IH : Upto f K S g N) (hK : ∀ k, K k → g k = k)
    (hread : ∀ s r, readString 34 false 0 [] (esc s ++ 34 :: r) = some (g s, r))
    (l : List (Bytes × JVal)) (hg : GoodMembers K S l) (p : PV) (hty : p.ty = .obj)
    (ho : p.rObj = true) (ha : p.rArr = false)
    (hs : (p.obj.map (·.1) ++ l.map (·.1)).Pairwise (fun a b => keyLt a b = true)) (n : Nat) (hN : n ≤ N) (t : Bytes)
    (hn : (membersText f l ++ 125 :: t).length < n) :
    parseVal n p (membersText f l ++ 125 :: t) = some (.obj (p.obj ++ mapMembers g l), t) := by
  induction l generalizing p n with
  | nil =>
    simp only [membersText, List.nil_append] at *
    obtain ⟨m, rfl⟩ : ∃ m, n = m + 1 := ⟨n - 1, by simp only [List.length_cons] at hn; omega⟩
    rw [parseVal]
    simp [PV.fin, hty, ho, mapMembers]
  | cons mem l ih =>
    obtain ⟨hk, hv, hr⟩ := hg
    have hnn : orNull (toText f mem.2) = toText f mem.2 := by rw [orNull, if_neg (toText_ne_nil mem.2 hv)]
    rw [membersText, hnn] at hn ⊢
    simp only [List.append_assoc] at hn ⊢
    rw [escape_eq] at hn ⊢
    simp only [List.length_cons, List.length_append] at hn
    obtain ⟨m, rfl⟩ : ∃ m, n = m + 1 := ⟨n - 1, by omega⟩
    rw [parseVal]
    simp only [show (34 : UInt8) ≠ 123 by decide, show (34 : UInt8) ≠ 91 by decide, if_false, or_true, if_true]
    rw [hread, Option.bind_some]
    simp only [ho, if_true, List.cons_append, List.nil_append]
    obtain ⟨m', rfl⟩ : ∃ m', m = m' + 1 := ⟨m - 1, by omega⟩
    have e := ends_sepM (f := f) l t
    simp only [List.append_assoc] at e
    have hcol : ∀ x, parseVal (m' + 1) {} (58 :: x) = parseVal m' {} x := by
      intro x
      rw [parseVal]
      simp
    rw [hcol, IH m' (by omega) mem.2 _ hv e (by simp only [List.length_append, List.length_cons, List.length_nil] at hn ⊢; omega), Option.bind_some]
    dsimp only
    have hset : p.set (g mem.1) (mapStr g mem.2) = { p with obj := p.obj ++ [(mem.1, mapStr g mem.2)] } := by
      rw [PV.set, if_pos hty, hK _ hk, mapSet_last]
      intro a hmem
      exact List.pairwise_append.mp hs |>.2.2 a hmem mem.1 (by simp)
    rw [hset]
    have hs' : (({ p with obj := p.obj ++ [(mem.1, mapStr g mem.2)] } : PV).obj.map (·.1) ++ l.map (·.1)).Pairwise
        (fun a b => keyLt a b = true) := by
      simpa using hs
    cases l with
    | nil =>
      have := ih hr { p with obj := p.obj ++ [(mem.1, mapStr g mem.2)] } hty ho ha hs' (m' + 1) (by omega) (by
        simp only [membersText, List.length_append, List.length_cons, List.length_nil, List.isEmpty_nil] at hn ⊢
        omega)
      simp only [List.isEmpty_nil, if_true, List.nil_append] at this ⊢
      rw [this]
      simp [mapMembers]
    | cons m2 l =>
      simp only [List.isEmpty_cons, Bool.false_eq_true, if_false, List.cons_append, List.nil_append] at hn ⊢
      have hcom : ∀ (p : PV) x, p.rObj = true → p.rArr = false → parseVal (m' + 1) p (44 :: x) = parseVal m' p x := by
        intro p x h1 h2
        rw [parseVal]
        simp [h1, h2]
      rw [hcom { p with obj := p.obj ++ [(mem.1, mapStr g mem.2)] } _ ho ha, ih hr { p with obj := p.obj ++ [(mem.1, mapStr g mem.2)] } hty ho ha hs' m' (by omega) (by
        simp only [List.length_append, List.length_cons] at hn ⊢
        omega)]
      simp [mapMembers]

theorem upto (f : Dbl → Bytes) (hK : ∀ k, K k → g k = k)
    (hread : ∀ s r, readString 34 false 0 [] (esc s ++ 34 :: r) = some (g s, r)) (N : Nat) : Upto f K S g N := by
  induction N with
  | zero => intro m hm; omega
  | succ N IH =>
    intro m hm v r hv hr hn
    by_cases hlt : m < N
    · exact IH m hlt v r hv hr hn
    · obtain ⟨k, rfl⟩ : ∃ k, m = k + 1 := ⟨m - 1, by omega⟩
      cases v with
      | unset => rw [Good] at hv; exact hv.elim
      | dbl d => rw [Good] at hv; exact hv.elim
      | null =>
        rw [toText] at hn ⊢
        simp only [List.cons_append, List.nil_append]
        rw [parseVal]
        simp only [skipToEnd, mapStr]
        simp [PV.fin, skip_end r hr]
      | bool b =>
        rw [toText] at hn ⊢
        cases b
        · simp only [Bool.false_eq_true, if_false, List.cons_append, List.nil_append]
          rw [parseVal]
          simp only [skipToEnd, mapStr]
          simp [PV.fin, skip_end r hr]
        · simp only [if_true, List.cons_append, List.nil_append]
          rw [parseVal]
          simp only [skipToEnd, mapStr]
          simp [PV.fin, skip_end r hr]
      | int i =>
        rw [toText, mapStr] at *
        exact parse_int i hv.1 hv.2 _ r hr hn
      | str s =>
        rw [toText, mapStr, escape_eq, parseVal]
        simp only [show (34 : UInt8) ≠ 123 by decide, show (34 : UInt8) ≠ 91 by decide, if_false, or_true, if_true]
        rw [hread, Option.bind_some]
        simp
      | arr l =>
        rw [Good] at hv
        rw [toText, mapStr]
        rw [toText] at hn
        simp only [List.cons_append, List.append_assoc, List.nil_append, List.length_cons] at hn ⊢
        rw [parseVal]
        simp only [show (91 : UInt8) ≠ 123 by decide, if_false, if_true]
        cases l with
        | nil =>
          simp only [elemsText, List.nil_append] at hn ⊢
          obtain ⟨k', rfl⟩ : ∃ k', k = k' + 1 := ⟨k - 1, by simp only [List.length_cons] at hn; omega⟩
          rw [parse_end k' {} rfl rfl (93 :: r) (Or.inr ⟨93, r, rfl, by decide⟩), Option.bind_some, parseVal]
          simp [PV.fin, PV.first, mapElems]
        | cons v l =>
          obtain ⟨hv, hl⟩ := hv
          have hnn : orNull (toText f v) = toText f v := by rw [orNull, if_neg (toText_ne_nil v hv)]
          rw [elemsText, hnn] at hn ⊢
          simp only [List.append_assoc] at hn ⊢
          have e := ends_sep (f := f) l r
          simp only [List.append_assoc] at e
          rw [IH k (by omega) v _ hv e (by omega), Option.bind_some]
          have hun := mapStr_ne_unset (g := g) v hv
          have hm : ({ ({} : PV) with rArr := true, ty := .arr } : PV).first (mapStr g v) =
              { ({} : PV) with rArr := true, ty := .arr, arr := [mapStr g v] } := by
            cases hq : mapStr g v with
            | unset => exact absurd hq hun
            | _ => rfl
          dsimp only at hm ⊢
          rw [hm]
          have := elems_loop IH l hl { ({} : PV) with rArr := true, ty := .arr, arr := [mapStr g v] } rfl rfl rfl k (by omega) r (by
            simp only [List.length_append, List.append_assoc] at hn ⊢; omega)
          simp only [List.append_assoc] at this
          rw [this]
          rfl
      | obj l =>
        rw [Good] at hv
        rw [toText, mapStr]
        rw [toText] at hn
        simp only [List.cons_append, List.append_assoc, List.nil_append, List.length_cons] at hn ⊢
        rw [parseVal, if_pos rfl]
        rw [members_loop IH hK hread l hv.2 { ({} : PV) with rObj := true, ty := .obj } rfl rfl rfl (by simpa using hv.1) k
          (by omega) r (by omega)]
        rfl

theorem parse_toText (f : Dbl → Bytes) (hK : ∀ k, K k → g k = k)
    (hread : ∀ s r, readString 34 false 0 [] (esc s ++ 34 :: r) = some (g s, r)) (v : JVal) (hv : Good K S v) :
    parseText (toText f v) = some (mapStr g v) := by
  have h := upto (S := S) f hK hread ((toText f v).length + 2) ((toText f v).length + 1) (by omega) v [] hv (Or.inl rfl) (by simp)
  rw [List.append_nil] at h
  rw [parseText, h]
  rfl

end Verif.Json
