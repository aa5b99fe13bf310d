import Verif.Json.ForeignSpec
import Verif.Json.ParseLemmas

/-!
# JSON text written by others is read (C60)
-/
namespace Verif.Json
open Spec

theorem hex_digit : ∀ (d : UInt8) (a : Nat), hexDigit d = some a → c2hex d = a ∧ d ≠ 34 ∧ d ≠ 39 := by
  have h : ∀ d : UInt8, (hexDigit d).all (fun a => decide (c2hex d = a ∧ d ≠ 34 ∧ d ≠ 39)) = true := by decide +kernel
  intro d a ha
  have := h d
  rw [ha] at this
  simpa using this

theorem hexDigit_lt : ∀ (d : UInt8) (a : Nat), hexDigit d = some a → a < 16 := by
  intro d a ha
  have h : ∀ d : UInt8, (hexDigit d).all (fun a => decide (a < 16)) = true := by decide +kernel
  have := h d
  rw [ha] at this
  simpa using this

theorem read_hex {q : UInt8} (hq : q = 34 ∨ q = 39) {d : Bytes} {v : Nat} (hd : Hex4 d v) (full : Nat) (out r : Bytes) :
    v < 65536 ∧ readString q false full out (92 :: 117 :: (d ++ r)) =
      (let flush := full ≠ 0 ∧ (v < 0xDC00 ∨ v > 0xDFFF)
       let out := if flush then out ++ utf8 (full >>> 16) else out
       let full := (if flush then 0 else full) ||| v
       if 0xD800 ≤ full ∧ full ≤ 0xDBFF then readString q false (full <<< 16) out r
       else readString q false 0 (out ++ utf8 full) r) := by
  obtain ⟨d1, d2, d3, d4, a, b, c, e, rfl, h1, h2, h3, h4, hv⟩ := hd
  have l1 := hexDigit_lt _ _ h1; have l2 := hexDigit_lt _ _ h2; have l3 := hexDigit_lt _ _ h3; have l4 := hexDigit_lt _ _ h4
  obtain ⟨c1, n1, m1⟩ := hex_digit _ _ h1
  obtain ⟨c2, n2, m2⟩ := hex_digit _ _ h2
  obtain ⟨c3, n3, m3⟩ := hex_digit _ _ h3
  obtain ⟨c4, n4, m4⟩ := hex_digit _ _ h4
  refine ⟨by omega, ?_⟩
  have hval : e + (c <<< 4) + (b <<< 8) + (a <<< 12) = v := by
    simp only [Nat.shiftLeft_eq, Nat.reducePow]; omega
  have hq1 : d1 ≠ q ∧ d2 ≠ q ∧ d3 ≠ q ∧ d4 ≠ q := by
    rcases hq with rfl | rfl
    · exact ⟨n1, n2, n3, n4⟩
    · exact ⟨m1, m2, m3, m4⟩
  simp only [List.cons_append, List.nil_append]
  rw [readString, if_pos rfl, readString]
  simp only [hq1.1, hq1.2.1, hq1.2.2.1, hq1.2.2.2, c1, c2, c3, c4, hval, if_false]
  simp

theorem utf8_small (v : Nat) (h : v < 0x800) (c : Char) (hc : c.toNat = v) : utf8 v = String.utf8EncodeChar c := by
  unfold String.utf8EncodeChar
  have hv : c.val.toNat = v := hc
  simp only [hv]
  by_cases h1 : v ≤ 0x7F
  · rw [utf8, if_pos h1, if_pos h1]
  · rw [utf8, if_neg h1, if_pos (by omega), if_neg h1, if_pos (by omega), shr, show v &&& 0x3F = v % 2 ^ 6 from and_mask 6 v,
      or_eq_add 6 (by decide) (by omega), or_eq_add 6 (by decide) (by omega),
      show 0xC0 + v / 2 ^ 6 = v / 64 % 0x20 + 0xc0 by omega, show 0x80 + v % 2 ^ 6 = v % 0x40 + 0x80 by omega]

theorem read_raw {q : UInt8} (c : UInt8) (h1 : c ≠ 92) (h2 : c ≠ q) (out r : Bytes) :
    readString q false 0 out (c :: r) = readString q false 0 (out ++ [c]) r := by
  rw [readString]
  simp [h1, h2]

theorem read_raws {q : UInt8} : ∀ (s : Bytes), (∀ c ∈ s, c ≠ 92 ∧ c ≠ q) → ∀ out r, readString q false 0 out (s ++ r) = readString q false 0 (out ++ s) r
  | [], _, out, r => by simp
  | c :: s, h, out, r => by
    rw [List.cons_append, read_raw c (h c (by simp)).1 (h c (by simp)).2, read_raws s (fun c hc => h c (by simp [hc]))]
    simp

theorem utf8_bytes (c : Char) (x : UInt8) (hx : x ∈ String.utf8EncodeChar c) : x.toNat = c.toNat ∨ 128 ≤ x.toNat := by
  unfold String.utf8EncodeChar at hx
  have hv : c.val.toNat = c.toNat := rfl
  simp only [hv] at hx
  have hi : ∀ k n, 128 ≤ n → n < 256 → k = UInt8.ofNat n → 128 ≤ k.toNat := by
    intro k n h1 h2 h
    rw [h, toNat_ofNat_byte h2]; exact h1
  split at hx
  · left
    simp only [List.mem_cons, List.not_mem_nil, or_false] at hx
    rw [hx, toNat_ofNat_byte (by omega)]
  · right
    split at hx
    · simp only [List.mem_cons, List.not_mem_nil, or_false] at hx
      rcases hx with h | h
      · exact hi _ _ (by omega) (by omega) h
      · exact hi _ _ (by omega) (by omega) h
    · split at hx
      · simp only [List.mem_cons, List.not_mem_nil, or_false] at hx
        rcases hx with h | h | h
        · exact hi _ _ (by omega) (by omega) h
        · exact hi _ _ (by omega) (by omega) h
        · exact hi _ _ (by omega) (by omega) h
      · simp only [List.mem_cons, List.not_mem_nil, or_false] at hx
        rcases hx with h | h | h | h
        · exact hi _ _ (by omega) (by omega) h
        · exact hi _ _ (by omega) (by omega) h
        · exact hi _ _ (by omega) (by omega) h
        · exact hi _ _ (by omega) (by omega) h

theorem simple_read {q : UInt8} {e : UInt8} {c : Char} (h : simple e = some c.toNat) (out r : Bytes) :
    readString q false 0 out (92 :: e :: r) = readString q false 0 (out ++ String.utf8EncodeChar c) r := by
  have key : ∀ v, simple e = some v → v < 128 ∧ readString q false 0 out (92 :: e :: r) = readString q false 0 (out ++ [UInt8.ofNat v]) r := by
    intro v hv
    unfold simple at hv
    repeat' split at hv
    all_goals cases hv
    all_goals (subst_vars; refine ⟨by decide, ?_⟩; rw [readString, if_pos rfl, readString.eq_def]; simp)
  obtain ⟨h1, h2⟩ := key _ h
  rw [h2]
  have : String.utf8EncodeChar c = [UInt8.ofNat c.toNat] := by
    unfold String.utf8EncodeChar
    have hv : c.val.toNat = c.toNat := rfl
    simp only [hv]
    rw [if_pos (by omega)]
  rw [this]

theorem pair_read {q : UInt8} (hq : q = 34 ∨ q = 39) {d e : Bytes} {c : Char} {x y : Nat} (hu : Spec.utf16 c = [x, y]) (hd : Hex4 d x) (he : Hex4 e y) (out r : Bytes) :
    readString q false 0 out (92 :: 117 :: (d ++ 92 :: 117 :: (e ++ r))) = readString q false 0 (out ++ String.utf8EncodeChar c) r := by
  have hv : c.val.toNat = c.toNat := rfl
  have hmax : c.toNat < 0x110000 := by
    have := c.valid
    rcases this with h | h
    · have : c.toNat < 0xd800 := h
      omega
    · exact h.2
  rw [Spec.utf16] at hu
  split at hu
  · cases hu
  · next hge =>
    generalize hcv : c.toNat = v at *
    simp only [List.cons.injEq, and_true] at hu
    obtain ⟨rfl, rfl⟩ := hu
    obtain ⟨-, hr1⟩ := read_hex hq hd 0 out (92 :: 117 :: (e ++ r))
    rw [hr1]
    simp only [ne_eq, not_true_eq_false, false_and, if_false, Nat.zero_or]
    obtain ⟨-, hr2⟩ := read_hex hq he ((0xD800 + (v - 0x10000) / 1024) <<< 16) out r
    rw [if_pos (by omega), hr2]
    have e1 : (v - 0x10000) % 1024 = v % 1024 := by omega
    rw [e1]
    have hfl : ¬ ((0xD800 + (v - 0x10000) / 1024) <<< 16 ≠ 0 ∧ (0xDC00 + v % 1024 < 0xDC00 ∨ 0xDC00 + v % 1024 > 0xDFFF)) := by
      omega
    have hor : (0xD800 + (v - 0x10000) / 1024) <<< 16 ||| (0xDC00 + v % 1024) =
        (0xD800 + (v - 0x10000) / 1024) * 65536 + (0xDC00 + v % 1024) := by
      rw [shl, or_eq_add 16 (by omega) (by omega)]
    dsimp only
    simp only [if_neg hfl]
    rw [hor, if_neg (by omega)]
    refine congrArg (fun z => readString q false 0 (out ++ z) r) ?_
    have e3 : ∀ x : Nat, x &&& 0x3ff = x % 1024 := fun x => and_mask 10 x
    have e6 : ∀ x : Nat, x &&& 0x3F = x % 64 := fun x => and_mask 6 x
    have e7 : ∀ x : Nat, x &&& 0x07 = x % 8 := fun x => and_mask 3 x
    have ef : ∀ x : Nat, x &&& 0xFFFF = x % 65536 := fun x => and_mask 16 x
    have hc : ((((0xD800 + (v - 0x10000) / 1024) * 65536 + (0xDC00 + v % 1024)) >>> 16 &&& 0x3ff) <<< 10) +
        ((((0xD800 + (v - 0x10000) / 1024) * 65536 + (0xDC00 + v % 1024)) &&& 0xFFFF) &&& 0x3ff) + 0x10000 = v := by
      rw [e3, e3, ef, shr, shl]
      omega
    rw [utf8, if_neg (by omega), if_neg (by omega), if_neg (by omega)]
    simp only [hc]
    rw [e6, e6, e6, e7, shr, shr, shr, or_eq_add 4 (x := 0xF0) (by decide) (by omega),
      or_eq_add 6 (y := v / 2 ^ 12 % 64) (by decide) (by omega), or_eq_add 6 (y := v / 2 ^ 6 % 64) (by decide) (by omega),
      or_eq_add 6 (y := v % 64) (by decide) (by omega)]
    rw [show 0xF0 + v / 2 ^ 18 % 8 = v / 262144 % 8 + 0xf0 by omega, show 0x80 + v / 2 ^ 12 % 64 = v / 4096 % 0x40 + 0x80 by omega,
      show 0x80 + v / 2 ^ 6 % 64 = v / 64 % 0x40 + 0x80 by omega, show 0x80 + v % 64 = v % 0x40 + 0x80 by omega]
    unfold String.utf8EncodeChar
    simp only [hv, hcv]
    rw [if_neg (by omega), if_neg (by omega), if_neg (by omega)]

theorem spells_read {q : UInt8} (hq : q = 34 ∨ q = 39) {b : Bytes} {cs : List Char} (h : Spells q b cs) (out r : Bytes) :
    readString q false 0 out (b ++ q :: r) = some (out ++ text cs, r) := by
  have hq92 : q ≠ 92 := by rcases hq with rfl | rfl <;> decide
  induction h generalizing out with
  | nil => rw [List.nil_append, readString, if_neg hq92]; simp [text]
  | raw c b cs h1 h2 _ ih =>
    rw [List.append_assoc, read_raws, ih]
    · simp [text]
    · intro x hx
      have := utf8_bytes c x hx
      constructor
      · rintro rfl
        rcases this with h | h
        · exact h2 h.symm
        · revert h; decide
      · rintro rfl
        rcases this with h | h
        · exact h1 h.symm
        · rcases hq with rfl | rfl <;> revert h <;> decide
  | esc e c b cs h1 _ ih =>
    rw [List.cons_append, List.cons_append, simple_read h1, ih]
    simp [text]
  | unit d c b cs hd hl _ ih =>
    obtain ⟨-, hr⟩ := read_hex hq hd 0 out (b ++ q :: r)
    rw [List.cons_append, List.cons_append, List.append_assoc, hr]
    simp only [ne_eq, not_true_eq_false, false_and, if_false, Nat.zero_or]
    rw [if_neg (by omega), ih, utf8_small _ hl c rfl]
    simp [text]
  | pair d e c b cs x y hu hd he _ ih =>
    simp only [List.cons_append, List.append_assoc]
    rw [pair_read hq hu hd he, ih]
    simp [text]

/-! ## Values -/

theorem skip_ws (w : Bytes) (hw : Ws w) (n : Nat) (p : PV) (r : Bytes) : parseVal (n + w.length) p (w ++ r) = parseVal n p r := by
  induction w with
  | nil => rfl
  | cons c w ih =>
    rw [List.length_cons, ← Nat.add_assoc, List.cons_append, parseVal]
    have := hw c (by simp)
    have ih := ih fun c hc => hw c (by simp [hc])
    rcases this with rfl | rfl | rfl | rfl <;> simpa using ih

theorem parse_more {w : Bytes} (hw : Ws w) {n : Nat} {p : PV} {r : Bytes} (hn : (w ++ r).length < n) :
    ∃ m, r.length < m ∧ m ≤ n ∧ parseVal n p (w ++ r) = parseVal m p r := by
  rw [List.length_append] at hn
  refine ⟨n - w.length, by omega, by omega, ?_⟩
  have := skip_ws w hw (n - w.length) p r
  rwa [show n - w.length + w.length = n by omega] at this

/-- What is left after a value: white space may be left or not. -/
def After (e r : Bytes) : Prop := ∃ w, Ws w ∧ r = w ++ e

theorem number_snoc (ds : Bytes) (v : Nat) : ∃ k, ds.foldl (fun v d => v * 10 + (d.toNat - 48)) v = v * 10 ^ ds.length + k ∧ v ≤ ds.foldl (fun v d => v * 10 + (d.toNat - 48)) v := by
  induction ds generalizing v with
  | nil => exact ⟨0, by simp, Nat.le_refl _⟩
  | cons d ds ih =>
    obtain ⟨k, h1, h2⟩ := ih (v * 10 + (d.toNat - 48))
    refine ⟨_, (Nat.add_sub_of_le (a := v * 10 ^ (d :: ds).length) ?_).symm, ?_⟩
    · rw [List.foldl_cons, h1, List.length_cons, Nat.pow_succ]
      calc v * (10 ^ ds.length * 10) = v * 10 * 10 ^ ds.length := by rw [Nat.mul_assoc, Nat.mul_comm 10]
        _ ≤ (v * 10 + (d.toNat - 48)) * 10 ^ ds.length := Nat.mul_le_mul_right _ (Nat.le_add_right _ _)
        _ ≤ _ := Nat.le_add_right _ _
    · rw [List.foldl_cons]; omega

theorem read_digits (ds : Bytes) (hd : Digits ds) (p : PV) (hp : p.ty = .int) (i : Nat) (hi : p.int = i)
    (hb : ds.foldl (fun v d => v * 10 + (d.toNat - 48)) i < 2 ^ 63) (n : Nat) (r : Bytes) :
    parseVal (n + ds.length) p (ds ++ r) = parseVal n { p with int := (ds.foldl (fun v d => v * 10 + (d.toNat - 48)) i : Nat) } r := by
  induction ds generalizing p i with
  | nil =>
    simp only [List.foldl_nil, ← hi]
    rfl
  | cons d ds ih =>
    rw [List.foldl_cons] at hb
    obtain ⟨_, -, hge⟩ := number_snoc ds (i * 10 + (d.toNat - 48))
    rw [List.length_cons, ← Nat.add_assoc, List.cons_append, parse_digit _ _ _ (hd d (by simp)),
      digit_int p hp _ (by rw [hi]; omega), Option.bind_some, hi,
      ih (fun d hdd => hd d (by simp [hdd])) { p with int := (i : Int) * 10 + ((d.toNat - 48 : Nat) : Int) } hp (i * 10 + (d.toNat - 48)) (by
        dsimp only; push_cast; omega) hb, List.foldl_cons]

theorem read_number (ds : Bytes) (hne : ds ≠ []) (hd : Digits ds) (hb : number ds < 2 ^ 63) (p : PV) (hp : p.ty = .unset) (hi : p.int = 0) (n : Nat) (r : Bytes) :
    parseVal (n + ds.length) p (ds ++ r) = parseVal n { p with ty := .int, int := (number ds : Nat) } r := by
  cases ds with
  | nil => exact absurd rfl hne
  | cons d ds =>
    rw [number, List.foldl_cons] at hb
    obtain ⟨_, -, hge⟩ := number_snoc ds (0 * 10 + (d.toNat - 48))
    rw [List.length_cons, ← Nat.add_assoc, List.cons_append, parse_digit _ _ _ (hd d (by simp)), PV.digit]
    simp only [hp, hi, ne_eq, reduceCtorEq, not_false_eq_true, and_self, if_true]
    rw [if_pos (by omega), Option.bind_some,
      read_digits ds (fun d hdd => hd d (by simp [hdd])) _ rfl (0 * 10 + (d.toNat - 48)) (by dsimp only; push_cast; omega) hb]
    rfl

theorem read_frac (fs : Bytes) (hd : Digits fs) (p : PV) (hp : p.ty = .dbl) (n : Nat) (r : Bytes) :
    parseVal (n + fs.length) p (fs ++ r) = parseVal n { p with dbl := { p.dbl with frac := p.dbl.frac ++ fs.map fun d => d.toNat - 48 } } r := by
  induction fs generalizing p with
  | nil => simp
  | cons d fs ih =>
    rw [List.length_cons, ← Nat.add_assoc, List.cons_append, parse_digit _ _ _ (hd d (by simp)), PV.digit]
    simp only [hp, ne_eq, reduceCtorEq, not_true_eq_false, not_false_eq_true, and_false, if_false]
    rw [Option.bind_some, ih (fun d hdd => hd d (by simp [hdd])) _ (by rfl)]
    simp

theorem parse_minus (n : Nat) (p : PV) (r : Bytes) : parseVal (n + 1) p (45 :: r) = parseVal n { p with neg := true } r := by
  rw [parseVal]; simp

theorem parse_point (n : Nat) (p : PV) (r : Bytes) : parseVal (n + 1) p (46 :: r) =
    parseVal n { p with ty := .dbl, dbl := ⟨p.neg, if p.neg then -p.int else p.int, []⟩ } r := by
  rw [parseVal]; simp

theorem parse_sign (neg : Bool) (n : Nat) (r : Bytes) : parseVal (n + (sign neg).length) {} (sign neg ++ r) = parseVal n { neg := neg } r := by
  cases neg
  · rfl
  · exact parse_minus n {} r

theorem parse_quote (q : UInt8) (hq : q = 34 ∨ q = 39) {b : Bytes} {cs : List Char} (h : Spells q b cs) (n : Nat) (p : PV) (r : Bytes) :
    parseVal (n + 1) p (q :: (b ++ q :: r)) =
      if p.rObj then (parseVal n {} r).bind fun t => parseVal n (p.set (text cs) t.1) t.2 else some (.str (text cs), r) := by
  rw [parseVal]
  have h1 : q ≠ 123 := by rcases hq with rfl | rfl <;> decide
  have h2 : q ≠ 91 := by rcases hq with rfl | rfl <;> decide
  rw [if_neg h1, if_neg h2, if_pos (by rcases hq with rfl | rfl <;> simp), spells_read hq h, Option.bind_some]
  simp

/-- Elements with a comma before each. -/
def following (l : List Bytes) : Bytes := l.flatMap fun t => 44 :: t

theorem commas_cons (t : Bytes) (l : List Bytes) : commas (t :: l) = t ++ following l := by
  induction l generalizing t with
  | nil => simp [commas, following]
  | cons u l ih => rw [commas, ih]; simp [following]

/-- Reading the text as a value, wherever a value may stand. -/
def Reads (t : Bytes) (v : JVal) : Prop :=
  ∀ n w e, Ws w → Ends e → (t ++ (w ++ e)).length < n → ∃ r, After e r ∧ r.length ≤ (w ++ e).length ∧ parseVal n {} (t ++ (w ++ e)) = some (v, r)

theorem ends_following (l : List Bytes) (c : UInt8) (hc : c = 93 ∨ c = 125) (t : Bytes) : Ends (following l ++ c :: t) := by
  cases l with
  | nil => exact Or.inr ⟨c, t, rfl, by rcases hc with h | h <;> simp [h]⟩
  | cons u l => exact Or.inr ⟨44, _, rfl, by simp⟩

/-- A value with white space before it. -/
theorem reads_item {x : Item} (h1 : Ws x.w1) (h2 : Ws x.w2) (hx : Reads x.body x.val) (n : Nat) (e : Bytes) (he : Ends e)
    (hn : (x.text ++ e).length < n) : ∃ r, After e r ∧ r.length ≤ (x.text ++ e).length ∧ parseVal n {} (x.text ++ e) = some (x.val, r) := by
  have e1 : x.text ++ e = x.w1 ++ (x.body ++ (x.w2 ++ e)) := by simp [Item.text]
  rw [e1] at hn ⊢
  obtain ⟨m, hm, -, hmn⟩ := parse_more (p := {}) h1 hn
  rw [hmn]
  obtain ⟨r, h1, h2, h3⟩ := hx m x.w2 e h2 he hm
  exact ⟨r, h1, by simp only [List.length_append] at h2 ⊢; omega, h3⟩

theorem parse_comma_arr (n : Nat) (p : PV) (ho : p.rObj = false) (ha : p.rArr = true) (r : Bytes) :
    parseVal (n + 1) p (44 :: r) = (parseVal n {} r).bind fun t => parseVal n (p.append t.1) t.2 := by
  rw [parseVal]; simp [ho, ha]

theorem arr_loop (l : List Item) (hw : ∀ x ∈ l, Ws x.w1 ∧ Ws x.w2) (hx : ∀ x ∈ l, Reads x.body x.val) (p : PV) (hty : p.ty = .arr)
    (ho : p.rObj = false) (ha : p.rArr = true) (n : Nat) (t r : Bytes) (hr : After (following (l.map Item.text) ++ 93 :: t) r) (hn : r.length < n) :
    parseVal n p r = some (.arr (p.arr ++ l.map Item.val), t) := by
  induction l generalizing p n r with
  | nil =>
    obtain ⟨w, hw, rfl⟩ := hr
    obtain ⟨m, hm, -, hmn⟩ := parse_more (p := p) hw hn
    rw [hmn]
    simp only [List.map_nil, following, List.flatMap_nil, List.nil_append, List.length_cons] at hm ⊢
    obtain ⟨k, rfl⟩ : ∃ k, m = k + 1 := ⟨m - 1, by omega⟩
    rw [parseVal]
    simp [PV.fin, hty, ha]
  | cons x l ih =>
    obtain ⟨w, hw', rfl⟩ := hr
    obtain ⟨m, hm, -, hmn⟩ := parse_more (p := p) hw' hn
    rw [hmn]
    have e1 : following ((x :: l).map Item.text) ++ 93 :: t = 44 :: (x.text ++ (following (l.map Item.text) ++ 93 :: t)) := by simp [following]
    rw [e1] at hm ⊢
    rw [List.length_cons] at hm
    obtain ⟨k, rfl⟩ : ∃ k, m = k + 1 := ⟨m - 1, by omega⟩
    rw [parse_comma_arr _ _ ho ha]
    obtain ⟨r', hr', hl', hp'⟩ := reads_item (hw x (by simp)).1 (hw x (by simp)).2 (hx x (by simp)) k _ (ends_following (l.map Item.text) 93 (Or.inl rfl) t) (by omega)
    rw [hp', Option.bind_some]
    dsimp only
    have hlen : r'.length < k := by omega
    rw [ih (fun x h => hw x (by simp [h])) (fun x h => hx x (by simp [h])) (p.append x.val) (by simp [PV.append, hty]) (by simp [PV.append, hty, ho])
      (by simp [PV.append, hty, ha]) k r' hr' hlen]
    simp [PV.append, hty]

theorem parse_colon (n : Nat) (p : PV) (r : Bytes) : parseVal (n + 1) p (58 :: r) = parseVal n p r := by
  rw [parseVal]; simp

theorem parse_comma_obj (n : Nat) (p : PV) (ho : p.rObj = true) (ha : p.rArr = false) (r : Bytes) :
    parseVal (n + 1) p (44 :: r) = parseVal n p r := by
  rw [parseVal]; simp [ho, ha]

/-- What must hold of a member. -/
def MemOk (x : Mem) : Prop := Ws x.w1 ∧ Ws x.w2 ∧ Ws x.item.w1 ∧ Ws x.item.w2 ∧ (x.q = 34 ∨ x.q = 39) ∧ Spells x.q x.key x.name

theorem read_member {x : Mem} (hx : MemOk x) (hr : Reads x.item.body x.item.val) (p : PV) (ho : p.rObj = true) (n : Nat) (e : Bytes)
    (he : Ends e) (hn : (x.text ++ e).length < n) :
    ∃ m r, After e r ∧ r.length < m ∧ parseVal n p (x.text ++ e) = parseVal m (p.set (text x.name) x.item.val) r := by
  obtain ⟨h1, h2, h3, h4, hq, hs⟩ := hx
  have e1 : x.text ++ e = x.w1 ++ (x.q :: (x.key ++ x.q :: (x.w2 ++ 58 :: (x.item.text ++ e)))) := by simp [Mem.text]
  rw [e1] at hn ⊢
  obtain ⟨m, hm, -, hmn⟩ := parse_more (p := p) h1 hn
  rw [hmn]
  rw [List.length_cons, List.length_append, List.length_cons] at hm
  obtain ⟨k, rfl⟩ : ∃ k, m = k + 1 := ⟨m - 1, by omega⟩
  rw [parse_quote x.q hq hs, if_pos ho]
  obtain ⟨j, hj, hjk, hjm⟩ := parse_more (p := {}) (r := 58 :: (x.item.text ++ e)) h2 (n := k) (by omega)
  rw [hjm]
  rw [List.length_cons] at hj
  obtain ⟨i, rfl⟩ : ∃ i, j = i + 1 := ⟨j - 1, by omega⟩
  rw [parse_colon]
  obtain ⟨r, hr1, hr2, hr3⟩ := reads_item h3 h4 hr i e he (by omega)
  rw [hr3, Option.bind_some]
  exact ⟨k, r, hr1, by omega, rfl⟩

theorem obj_loop (l : List Mem) (hw : ∀ x ∈ l, MemOk x) (hx : ∀ x ∈ l, Reads x.item.body x.item.val) (p : PV) (hty : p.ty = .obj)
    (ho : p.rObj = true) (ha : p.rArr = false) (n : Nat) (t r : Bytes) (hr : After (following (l.map Mem.text) ++ 125 :: t) r) (hn : r.length < n) :
    parseVal n p r = some (.obj (l.foldl (fun m x => mapSet m (text x.name) x.item.val) p.obj), t) := by
  induction l generalizing p n r with
  | nil =>
    obtain ⟨w, hw, rfl⟩ := hr
    obtain ⟨m, hm, -, hmn⟩ := parse_more (p := p) hw hn
    rw [hmn]
    simp only [List.map_nil, following, List.flatMap_nil, List.nil_append, List.length_cons] at hm ⊢
    obtain ⟨k, rfl⟩ : ∃ k, m = k + 1 := ⟨m - 1, by omega⟩
    rw [parseVal]
    simp [PV.fin, hty, ho]
  | cons x l ih =>
    obtain ⟨w, hw', rfl⟩ := hr
    obtain ⟨m, hm, -, hmn⟩ := parse_more (p := p) hw' hn
    rw [hmn]
    have e1 : following ((x :: l).map Mem.text) ++ 125 :: t = 44 :: (x.text ++ (following (l.map Mem.text) ++ 125 :: t)) := by simp [following]
    rw [e1] at hm ⊢
    rw [List.length_cons] at hm
    obtain ⟨k, rfl⟩ : ∃ k, m = k + 1 := ⟨m - 1, by omega⟩
    rw [parse_comma_obj _ _ ho ha]
    obtain ⟨j, r', hr', hl', hp'⟩ := read_member (hw x (by simp)) (hx x (by simp)) p ho k _ (ends_following (l.map Mem.text) 125 (Or.inr rfl) t) (by omega)
    rw [hp', ih (fun x h => hw x (by simp [h])) (fun x h => hx x (by simp [h])) (p.set (text x.name) x.item.val) (by simp [PV.set, hty]) (by simp [PV.set, hty, ho])
      (by simp [PV.set, hty, ha]) j r' hr' hl']
    simp [PV.set, hty]

theorem skip_after {w e : Bytes} (hw : Ws w) (he : Ends e) : skipToEnd (w ++ e) = e := by
  induction w with
  | nil => exact skip_end e he
  | cons c w ih =>
    rw [List.cons_append, skipToEnd, if_neg, ih fun c hc => hw c (by simp [hc])]
    have := hw c (by simp)
    rcases this with rfl | rfl | rfl | rfl <;> decide

theorem ws_nil : Ws [] := fun c hc => by cases hc

theorem finish {p : PV} (h1 : p.rObj = false) (h2 : p.rArr = false) {w e : Bytes} (hw : Ws w) (he : Ends e) {n : Nat} (hn : (w ++ e).length < n) :
    parseVal n p (w ++ e) = some (p.fin, e) := by
  obtain ⟨m, hm, -, hmn⟩ := parse_more (p := p) hw hn
  obtain ⟨k, rfl⟩ : ∃ k, m = k + 1 := ⟨m - 1, by omega⟩
  rw [hmn, parse_end k p h1 h2 e he]

theorem arr_first (p : PV) (v : JVal) (h : v ≠ .unset) : p.first v = p.append v := by
  cases v <;> first | rfl | exact absurd rfl h

theorem denotes_set {t : Bytes} {v : JVal} (h : Denotes t v) : v ≠ .unset := by
  cases h <;> (intro h; cases h)

theorem denotes_reads {t : Bytes} {v : JVal} (h : Denotes t v) : Reads t v := by
  induction h with
  | null =>
    intro n w e hw he hn
    obtain ⟨k, rfl⟩ : ∃ k, n = k + 1 := ⟨n - 1, by omega⟩
    refine ⟨e, ⟨[], ws_nil, rfl⟩, by simp, ?_⟩
    simp only [List.cons_append, List.nil_append]
    rw [parseVal]
    simp [skipToEnd, PV.fin, skip_after hw he]
  | yes =>
    intro n w e hw he hn
    obtain ⟨k, rfl⟩ : ∃ k, n = k + 1 := ⟨n - 1, by omega⟩
    refine ⟨e, ⟨[], ws_nil, rfl⟩, by simp, ?_⟩
    simp only [List.cons_append, List.nil_append]
    rw [parseVal]
    simp [skipToEnd, PV.fin, skip_after hw he]
  | no =>
    intro n w e hw he hn
    obtain ⟨k, rfl⟩ : ∃ k, n = k + 1 := ⟨n - 1, by omega⟩
    refine ⟨e, ⟨[], ws_nil, rfl⟩, by simp, ?_⟩
    simp only [List.cons_append, List.nil_append]
    rw [parseVal]
    simp [skipToEnd, PV.fin, skip_after hw he]
  | int neg ds hne hd hb =>
    intro n w e hw he hn
    refine ⟨e, ⟨[], ws_nil, rfl⟩, by simp, ?_⟩
    simp only [List.append_assoc, List.length_append] at hn ⊢
    obtain ⟨k, rfl⟩ : ∃ k, n = k + ds.length + (sign neg).length := ⟨n - ds.length - (sign neg).length, by omega⟩
    rw [parse_sign, read_number ds hne hd hb _ rfl rfl, finish rfl rfl hw he (by rw [List.length_append]; omega)]
    rfl
  | frac neg ds fs hne hd hf hb =>
    intro n w e hw he hn
    refine ⟨e, ⟨[], ws_nil, rfl⟩, by simp, ?_⟩
    simp only [List.append_assoc, List.length_append, List.cons_append, List.length_cons] at hn ⊢
    obtain ⟨k, rfl⟩ : ∃ k, n = k + fs.length + 1 + ds.length + (sign neg).length := ⟨n - fs.length - 1 - ds.length - (sign neg).length, by omega⟩
    rw [parse_sign, read_number ds hne hd hb _ rfl rfl, parse_point, read_frac fs hf _ rfl, finish rfl rfl hw he (by rw [List.length_append]; omega)]
    simp [PV.fin, signed]
  | str q b cs hq hs =>
    intro n w e hw he hn
    refine ⟨w ++ e, ⟨w, hw, rfl⟩, Nat.le_refl _, ?_⟩
    simp only [List.cons_append, List.append_assoc, List.nil_append, List.length_cons] at hn ⊢
    obtain ⟨k, rfl⟩ : ∃ k, n = k + 1 := ⟨n - 1, by omega⟩
    rw [parse_quote q hq hs]
    rfl
  | empty w0 hw0 =>
    intro n w e hw he hn
    refine ⟨w ++ e, ⟨w, hw, rfl⟩, Nat.le_refl _, ?_⟩
    simp only [List.cons_append, List.append_assoc, List.nil_append, List.length_cons] at hn ⊢
    obtain ⟨k, rfl⟩ : ∃ k, n = k + 1 := ⟨n - 1, by omega⟩
    rw [parseVal, if_neg (by decide), if_pos rfl, finish (p := {}) rfl rfl hw0 (Or.inr ⟨93, _, rfl, by simp⟩) (by omega), Option.bind_some]
    rw [List.length_append, List.length_cons] at hn
    obtain ⟨j, rfl⟩ : ∃ j, k = j + 1 := ⟨k - 1, by omega⟩
    rw [parseVal]
    simp [PV.fin, PV.first]
  | arr l hne hw hx ih =>
    intro n w e hw' he hn
    refine ⟨w ++ e, ⟨w, hw', rfl⟩, Nat.le_refl _, ?_⟩
    simp only [List.cons_append, List.append_assoc, List.nil_append, List.length_cons] at hn ⊢
    obtain ⟨k, rfl⟩ : ∃ k, n = k + 1 := ⟨n - 1, by omega⟩
    cases l with
    | nil => exact absurd rfl hne
    | cons x l =>
      rw [List.map_cons, commas_cons, List.append_assoc] at hn ⊢
      rw [parseVal, if_neg (by decide), if_pos rfl]
      obtain ⟨r, hr1, hr2, hr3⟩ := reads_item (hw x (by simp)).1 (hw x (by simp)).2 (ih x (by simp)) k _ (ends_following (l.map Item.text) 93 (Or.inl rfl) (w ++ e)) (by omega)
      rw [hr3, Option.bind_some]
      dsimp only
      rw [arr_first _ _ (denotes_set (hx x (by simp)))]
      rw [arr_loop l (fun x h => hw x (by simp [h])) (fun x h => ih x (by simp [h])) _ (by rfl) (by rfl) (by rfl) k (w ++ e) r hr1 (by omega)]
      simp [PV.append]
  | none w0 hw0 =>
    intro n w e hw he hn
    refine ⟨w ++ e, ⟨w, hw, rfl⟩, Nat.le_refl _, ?_⟩
    simp only [List.cons_append, List.append_assoc, List.nil_append, List.length_cons] at hn ⊢
    obtain ⟨k, rfl⟩ : ∃ k, n = k + 1 := ⟨n - 1, by omega⟩
    rw [parseVal, if_pos rfl]
    exact obj_loop [] (fun x h => by cases h) (fun x h => by cases h) { ({} : PV) with rObj := true, ty := .obj } rfl rfl rfl k (w ++ e) _ ⟨w0, hw0, rfl⟩ (by omega)
  | obj l hne hw hx ih =>
    intro n w e hw' he hn
    refine ⟨w ++ e, ⟨w, hw', rfl⟩, Nat.le_refl _, ?_⟩
    simp only [List.cons_append, List.append_assoc, List.nil_append, List.length_cons] at hn ⊢
    obtain ⟨k, rfl⟩ : ∃ k, n = k + 1 := ⟨n - 1, by omega⟩
    cases l with
    | nil => exact absurd rfl hne
    | cons x l =>
      rw [List.map_cons, commas_cons, List.append_assoc] at hn ⊢
      rw [parseVal, if_pos rfl]
      obtain ⟨m, r, hr1, hr2, hr3⟩ := read_member (hw x (by simp)) (ih x (by simp)) { ({} : PV) with rObj := true, ty := .obj } rfl k _
        (ends_following (l.map Mem.text) 125 (Or.inr rfl) (w ++ e)) (by omega)
      rw [hr3, obj_loop l (fun x h => hw x (by simp [h])) (fun x h => ih x (by simp [h])) _ (by rfl) (by rfl) (by rfl) m (w ++ e) r hr1 hr2]
      rfl

/-- **C60.** A JSON text written by anyone, with white space anywhere it is allowed, either kind of quotes, characters as they are
or escaped with digits of either case, nested in any way, is read as the value it denotes. Missing: numbers with an
exponent and escapes for the characters U+0800 to U+FFFF, which are read as something else (`C60_exponent_fails`,
`C19_fails`). -/
theorem C60_read_partial (t : Bytes) (v : JVal) (h : Denotes t v) (w1 w2 : Bytes) (h1 : Ws w1) (h2 : Ws w2) : parseText (w1 ++ t ++ w2) = some v := by
  rw [parseText, List.append_assoc]
  obtain ⟨m, hm, -, hmn⟩ := parse_more (p := {}) h1 (n := (w1 ++ (t ++ w2)).length + 1) (Nat.lt_succ_self _)
  rw [hmn]
  obtain ⟨r, -, -, hr⟩ := denotes_reads h m w2 [] h2 (Or.inl rfl) (by simpa using hm)
  rw [List.append_nil] at hr
  rw [hr]
  rfl

theorem keyLt_ne {a b : Bytes} (h : keyLt a b = true) : a ≠ b := by
  rintro rfl
  rw [keyLt_irrefl] at h
  cases h

theorem lookup_mapSet (l : List (Bytes × JVal)) (k : Bytes) (v : JVal) (i : Bytes) : (mapSet l k v).lookup i = if i = k then some v else l.lookup i := by
  induction l with
  | nil =>
    rw [mapSet, List.lookup_cons]
    by_cases h : i = k
    · simp [h]
    · simp [beq_eq_false_iff_ne.mpr h, h]
  | cons m l ih =>
    rw [mapSet]
    split
    · next hlt =>
      rw [List.lookup_cons, List.lookup_cons, ih]
      by_cases h : i = m.1
      · have := keyLt_ne hlt
        rw [← h] at this
        simp [h]
        intro hk
        exact absurd (h.trans hk) this
      · rw [show (i == m.1) = false by simpa using h]
    · split
      · next hk =>
        rw [List.lookup_cons, List.lookup_cons, hk]
        by_cases h : i = k
        · simp [h]
        · simp [beq_eq_false_iff_ne.mpr h, h]
      · rw [List.lookup_cons]
        by_cases h : i = k
        · simp [h]
        · simp [beq_eq_false_iff_ne.mpr h, h]

/-- **C60.** The members of an object are found by their names, and of several members with one name the last one is found. -/
theorem C60_members (l : List Mem) (name : Bytes) :
    (collect l).lookup name = (l.reverse.find? fun x => text x.name == name).map fun x => x.item.val := by
  have key : ∀ (l : List Mem) (m : List (Bytes × JVal)), (l.foldl (fun m x => mapSet m (text x.name) x.item.val) m).lookup name =
      ((l.reverse.find? fun x => text x.name == name).map fun x => x.item.val).or (m.lookup name) := by
    intro l
    induction l with
    | nil => intro m; simp
    | cons x l ih =>
      intro m
      rw [List.foldl_cons, ih, lookup_mapSet, List.reverse_cons, List.find?_append]
      by_cases h : name = text x.name
      · cases List.find? (fun x => text x.name == name) l.reverse <;> simp [h]
      · cases List.find? (fun x => text x.name == name) l.reverse <;> simp [h, Ne.symm h]
  have := key l []
  simpa [collect] using this

/-- **C60 fails** for numbers with an exponent: `1e3` is read as 13, and `1.5e3` as 1.53. -/
theorem C60_exponent_fails : parseText [49, 101, 51] = some (.int 13) ∧ parseText [49, 46, 53, 101, 51] = some (.dbl ⟨false, 1, [5, 3]⟩) := by
  constructor <;> rfl

/-- `{'a': [1, -2.5 ], "\u0041\n": true}` denotes a value. -/
example : ∃ v, Denotes ([123, 39, 97, 39, 58, 32, 91, 49, 44, 32, 45, 50, 46, 53, 32, 93, 44, 32, 34, 92, 117, 48, 48, 52, 49, 92, 110, 34, 58, 32, 116, 114, 117, 101, 125] : Bytes) v := by
  refine ⟨_, Denotes.obj [⟨[], 39, [97], ['a'], [], ⟨[32], [91, 49, 44, 32, 45, 50, 46, 53, 32, 93], [], .arr [.int 1, .dbl ⟨true, -2, [5]⟩]⟩⟩,
    ⟨[32], 34, [92, 117, 48, 48, 52, 49, 92, 110], ['A', Char.ofNat 10], [], ⟨[32], [116, 114, 117, 101], [], .bool true⟩⟩] (by simp) ?_ ?_⟩
  · intro x hx
    simp only [List.mem_cons, List.not_mem_nil, or_false] at hx
    rcases hx with rfl | rfl
    · refine ⟨by simp [Ws], by simp [Ws], by simp [Ws], by simp [Ws], Or.inr rfl, ?_⟩
      exact Spells.raw 'a' [] [] (by decide) (by decide) .nil
    · refine ⟨by simp [Ws], by simp [Ws], by simp [Ws], by simp [Ws], Or.inl rfl, ?_⟩
      refine Spells.unit [48, 48, 52, 49] 'A' [92, 110] [Char.ofNat 10] ⟨48, 48, 52, 49, 0, 0, 4, 1, rfl, by decide, by decide, by decide, by decide, by decide⟩ (by decide) ?_
      exact Spells.esc 110 (Char.ofNat 10) [] [] (by decide) .nil
  · intro x hx
    simp only [List.mem_cons, List.not_mem_nil, or_false] at hx
    rcases hx with rfl | rfl
    · refine Denotes.arr [⟨[], [49], [], .int 1⟩, ⟨[32], [45, 50, 46, 53], [32], .dbl ⟨true, -2, [5]⟩⟩] (by simp) ?_ ?_
      · intro x hx
        simp only [List.mem_cons, List.not_mem_nil, or_false] at hx
        rcases hx with rfl | rfl <;> simp [Ws]
      · intro x hx
        simp only [List.mem_cons, List.not_mem_nil, or_false] at hx
        rcases hx with rfl | rfl
        · exact Denotes.int false [49] (by simp) (by simp [Digits]) (by decide)
        · exact Denotes.frac true [50] [53] (by simp) (by simp [Digits]) (by simp [Digits]) (by decide)
    · exact .yes

end Verif.Json
