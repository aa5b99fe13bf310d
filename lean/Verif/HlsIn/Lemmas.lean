import Verif.HlsIn.Model
import Verif.HlsIn.Spec
import Verif.Subs.Lemmas
import Verif.Enc.Lemmas

/-!
# Lemmas about playlists
-/

namespace Verif.HlsIn
open Verif Spec

theorem cleanLine_cr {x : Bytes} (h : x.getLast? ≠ some 0x0D) (cr : Bool) : cleanLine (x ++ if cr then [0x0D] else []) = x := by
  cases cr with
  | false => simp [cleanLine, h]
  | true => simp [cleanLine]

theorem u64_nat (n : Nat) (h : n < 2 ^ 64) : u64 (n : Int) = n := by
  unfold u64
  omega

theorem atoll_number {n : Nat} {r : Bytes} (h : n < 2 ^ 64) (hr : Subs.Stops r) : atoll (number n ++ r) = n := by
  unfold atoll Subs.atoi number
  rw [Subs.scanD_decimal (Subs.dec_decimal n) hr]
  exact u64_nat n h

theorem atoll_number' {n : Nat} (h : n < 2 ^ 64) : atoll (number n) = n := by
  have := atoll_number (r := []) h (Or.inl rfl)
  simpa using this

theorem number_digits {n : Nat} {c : UInt8} (h : c ∈ number n) : 0x30 ≤ c.toNat ∧ c.toNat ≤ 0x39 := Subs.dec_digits n c h

theorem number_not {n : Nat} {c : UInt8} (h : c.toNat < 0x30 ∨ 0x39 < c.toNat) : c ∉ number n := by
  intro hm
  have := number_digits hm
  omega

theorem number_last {n : Nat} : (number n).getLast? ≠ some 0x0D := by
  intro h
  have := number_digits (List.mem_of_getLast? h)
  simp at this

theorem nib_val {c : UInt8} {v : Nat} (h : Enc.Spec.hexVal c = some v) : nib c = v ∧ v < 16 := by
  have : ∀ c : UInt8, ∀ v ∈ Enc.Spec.hexVal c, nib c = v ∧ v < 16 := by decide +kernel
  exact this c v h

theorem hex_char {c : UInt8} {v : Nat} (h : Enc.Spec.hexVal c = some v) : c ≠ 0x55 ∧ c ≠ 0x0A ∧ c ≠ 0x0D := by
  have : ∀ c : UInt8, ∀ v ∈ Enc.Spec.hexVal c, c ≠ 0x55 ∧ c ≠ 0x0A ∧ c ≠ 0x0D := by decide +kernel
  exact this c v h

theorem digits_parse : ∀ (iv t : Bytes), Digits iv t → parseKey iv.length t = iv ∧ t.length = 2 * iv.length
    ∧ (0x55 : UInt8) ∉ t ∧ (0x0A : UInt8) ∉ t := by
  intro iv
  induction iv with
  | nil => intro t h; simp only [Digits] at h; subst h; simp [parseKey]
  | cons b r ih =>
    intro t h
    obtain ⟨x, y, u, rfl, hx, hy, hr⟩ := h
    obtain ⟨h1, h2, h3, h4⟩ := ih u hr
    obtain ⟨nx, lx⟩ := nib_val hx
    obtain ⟨ny, ly⟩ := nib_val hy
    refine ⟨?_, ?_, ?_, ?_⟩
    · simp only [List.length_cons, parseKey, h1, nx, ny]
      congr 1
      have e : b.toNat / 16 * 16 ||| b.toNat % 16 = b.toNat := by
        have := Nat.two_pow_add_eq_or_of_lt (b := b.toNat % 16) (i := 4) (by omega) (b.toNat / 16)
        rw [Nat.mul_comm, ← this]
        omega
      rw [e]
      simp
    · simp only [List.length_cons, h2]; omega
    · simp only [List.mem_cons, not_or]
      exact ⟨fun e => (hex_char hx).1 e.symm, fun e => (hex_char hy).1 e.symm, h3⟩
    · simp only [List.mem_cons, not_or]
      exact ⟨fun e => (hex_char hx).2.1 e.symm, fun e => (hex_char hy).2.1 e.symm, h4⟩

theorem findSub_skip {c : UInt8} {p : Bytes} : ∀ {a b : Bytes}, c ∉ a →
    findSub (c :: p) (a ++ b) = (findSub (c :: p) b).map (· + a.length) := by
  intro a
  induction a with
  | nil => intro b _; simp
  | cons x t ih =>
    intro b h
    simp only [List.mem_cons, not_or] at h
    simp only [List.cons_append, findSub]
    rw [if_neg (by simp [List.isPrefixOf, h.1]), ih h.2]
    cases findSub (c :: p) b <;> simp
    omega

theorem findSub_here {p r : Bytes} : findSub p (p ++ r) = some 0 := by
  have h : p.isPrefixOf (p ++ r) = true := by simp
  cases hp : p ++ r with
  | nil =>
    rw [hp] at h
    simp only [findSub]
    rw [if_pos h]
  | cons x t =>
    rw [hp] at h
    simp only [findSub]
    rw [if_pos h]

theorem takeWhile_until {c : UInt8} {a r : Bytes} (h : c ∉ a) : (a ++ c :: r).takeWhile (· != c) = a := by
  induction a with
  | nil => simp
  | cons x t ih =>
    simp only [List.mem_cons, not_or] at h
    simp only [List.cons_append, List.takeWhile_cons]
    rw [if_pos (by simp; exact fun e => h.1 e.symm), ih h.2]

theorem dropWhile_until {c : UInt8} {a r : Bytes} (h : c ∉ a) : (a ++ c :: r).dropWhile (· != c) = c :: r := by
  induction a with
  | nil => simp
  | cons x t ih =>
    simp only [List.mem_cons, not_or] at h
    simp only [List.cons_append, List.dropWhile_cons]
    rw [if_pos (by simp; exact fun e => h.1 e.symm), ih h.2]

/-- The tail of a key line after the digits. -/
def keyTail (uri : Bytes) : Bytes := [0x2C, 0x55, 0x52, 0x49, 0x3D, 0x22] ++ uri ++ [0x22]

/-- The value of a key line. -/
def keyVal (hex uri : Bytes) : Bytes :=
  [0x4D, 0x45, 0x54, 0x48, 0x4F, 0x44, 0x3D, 0x41, 0x45, 0x53, 0x2D, 0x31, 0x32, 0x38, 0x2C, 0x49, 0x56, 0x3D, 0x30, 0x78] ++ hex
    ++ keyTail uri

theorem keyVal_method (hex uri : Bytes) : findSub tMethod (keyVal hex uri) = some 0 := by
  have : keyVal hex uri = tMethod ++ ([0x41, 0x45, 0x53, 0x2D, 0x31, 0x32, 0x38, 0x2C, 0x49, 0x56, 0x3D, 0x30, 0x78] ++ hex
    ++ keyTail uri) := by simp [keyVal, tMethod]
  rw [this, findSub_here]

theorem keyVal_iv (hex uri old : Bytes) (h : hex.length = 32) : keyIv (keyVal hex uri) old = some hex := by
  have e : keyVal hex uri = [0x4D, 0x45, 0x54, 0x48, 0x4F, 0x44, 0x3D, 0x41, 0x45, 0x53, 0x2D, 0x31, 0x32, 0x38, 0x2C]
    ++ (tIv ++ ([0x30, 0x78] ++ hex ++ keyTail uri)) := by simp [keyVal, tIv]
  have f : findSub tIv (keyVal hex uri) = some 15 := by
    rw [e]
    have := findSub_skip (c := 0x49) (p := [0x56, 0x3D])
      (a := [0x4D, 0x45, 0x54, 0x48, 0x4F, 0x44, 0x3D, 0x41, 0x45, 0x53, 0x2D, 0x31, 0x32, 0x38, 0x2C])
      (b := tIv ++ ([0x30, 0x78] ++ hex ++ keyTail uri)) (by decide)
    have h2 := findSub_here (p := tIv) (r := [0x30, 0x78] ++ hex ++ keyTail uri)
    rw [show findSub tIv = findSub (0x49 :: [0x56, 0x3D]) from rfl, this, ← show tIv = 0x49 :: [0x56, 0x3D] from rfl, h2]
    rfl
  unfold keyIv
  rw [f]
  simp only
  rw [if_neg (by simp [keyVal])]
  congr 1
  have : (keyVal hex uri).drop (15 + 5) = hex ++ keyTail uri := by
    unfold keyVal
    simp
  rw [this, List.take_append_of_le_length (by omega), List.take_of_length_le (by omega)]

theorem keyVal_uri (hex uri : Bytes) (h : (0x55 : UInt8) ∉ hex) (hu : (0x22 : UInt8) ∉ uri) : keyUri (keyVal hex uri) = uri := by
  have e : keyVal hex uri = ([0x4D, 0x45, 0x54, 0x48, 0x4F, 0x44, 0x3D, 0x41, 0x45, 0x53, 0x2D, 0x31, 0x32, 0x38, 0x2C, 0x49,
    0x56, 0x3D, 0x30, 0x78] ++ hex ++ [0x2C]) ++ (tUri ++ (uri ++ 0x22 :: [])) := by simp [keyVal, keyTail, tUri]
  unfold keyUri
  have f : findSub tUri (keyVal hex uri) = some (([0x4D, 0x45, 0x54, 0x48, 0x4F, 0x44, 0x3D, 0x41, 0x45, 0x53, 0x2D, 0x31, 0x32,
      0x38, 0x2C, 0x49, 0x56, 0x3D, 0x30, 0x78] ++ hex ++ [0x2C] : Bytes).length) := by
    rw [e]
    have h1 := findSub_skip (c := 0x55) (p := [0x52, 0x49, 0x3D, 0x22])
      (a := [0x4D, 0x45, 0x54, 0x48, 0x4F, 0x44, 0x3D, 0x41, 0x45, 0x53, 0x2D, 0x31, 0x32, 0x38, 0x2C, 0x49,
        0x56, 0x3D, 0x30, 0x78] ++ hex ++ [0x2C])
      (b := tUri ++ (uri ++ 0x22 :: [])) (by simp [h])
    have h2 := findSub_here (p := tUri) (r := uri ++ 0x22 :: [])
    rw [show findSub tUri = findSub (0x55 :: [0x52, 0x49, 0x3D, 0x22]) from rfl, h1,
      ← show tUri = 0x55 :: [0x52, 0x49, 0x3D, 0x22] from rfl, h2]
    simp
  rw [f]
  simp only [Option.elim_some]
  rw [e, show ∀ n : Nat, n + 5 = n + tUri.length from fun _ => rfl, ← List.drop_drop, List.drop_left, List.drop_left,
    takeWhile_until hu]

/-- What an item does. -/
def apply (e : Env) (p : Pls) (l : Loc) : Item → Pls × Loc
  | .inf t => (p, { l with dur := t })
  | .range len off => (p, { l with start := some off, len := len })
  | .key _ hex uri => ({ p with keys := addKey e p.keys uri }, { l with uri := uri, iv := hex })
  | .seg uri => segLine e p l uri
  | .note _ => (p, l)

theorem item_last {i : Item} (h : i.Ok) : i.line.getLast? ≠ some 0x0D := by
  cases i with
  | inf t =>
    simp only [Item.line, List.getLast?_append]
    cases ht : t.getLast? with
    | none => decide
    | some x => simpa [ht] using h.2
  | range len off =>
    simp only [Item.line, List.getLast?_append]
    cases ht : (number off).getLast? with
    | none => simp
    | some x => simpa [ht] using number_last (n := off)
  | key iv hex uri => simp only [Item.line, List.getLast?_append]; simp
  | seg uri => exact h.2.1
  | note t =>
    rcases h with rfl | h
    · simp [Item.line]
    · exact h.2.1

theorem item_lf {i : Item} (h : i.Ok) : (0x0A : UInt8) ∉ i.line := by
  cases i with
  | inf t => simpa [Item.line] using h.1
  | range len off =>
    have a := number_not (n := len) (c := 0x0A) (by decide)
    have b := number_not (n := off) (c := 0x0A) (by decide)
    simp [Item.line, a, b]
  | key iv hex uri =>
    have := (digits_parse iv hex h.2.1).2.2.2
    simp [Item.line, this, h.2.2.1]
  | seg uri => exact h.1
  | note t =>
    rcases h with rfl | h
    · simp [Item.line]
    · exact h.1

theorem known_eq : known = [nKey, nRange, nSeq] := by decide

theorem line_item (e : Env) (p : Pls) (l : Loc) {i : Item} (h : i.Ok) (cr : Bool) :
    line e p l (i.line ++ if cr then [0x0D] else []) = some (apply e p l i) := by
  unfold line
  rw [cleanLine_cr (item_last h)]
  cases i with
  | inf t =>
    have h1 : (Item.inf t).line ≠ [] := by simp [Item.line]
    have h2 : (Item.inf t).line.take 7 = tInf := rfl
    rw [if_neg h1, if_pos h2]
    rfl
  | range len off =>
    have h1 : (Item.range len off).line ≠ [] := by simp [Item.line]
    have h2 : (Item.range len off).line.take 7 = tExt := rfl
    have h3 : tagName (Item.range len off).line = nRange := by
      have : (Item.range len off).line.drop 7 = nRange ++ 0x3A :: (number len ++ [0x40] ++ number off) := by
        simp [Item.line, nRange]
      unfold tagName
      rw [this, takeWhile_until (by decide)]
    have h4 : tagVal (Item.range len off).line = number len ++ 0x40 :: number off := by
      have : (Item.range len off).line = (tExt ++ nRange) ++ 0x3A :: (number len ++ 0x40 :: number off) := by
        simp [Item.line, nRange, tExt]
      unfold tagVal
      rw [this, if_pos (by simp), dropWhile_until (by decide)]
      rfl
    rw [if_neg h1, if_neg (by rw [h2]; decide), if_pos h2]
    unfold tagLine
    rw [h3, if_neg (by decide), if_pos rfl, h4]
    unfold rangeLine
    rw [if_pos (by simp), takeWhile_until (number_not (by decide)), dropWhile_until (number_not (by decide))]
    simp only [List.drop_succ_cons, List.drop_zero]
    rw [atoll_number' h.2.1, atoll_number' h.2.2]
    rfl
  | key iv hex uri =>
    obtain ⟨hl, hd, hu1, hu2⟩ := h
    obtain ⟨-, hlen, hU, -⟩ := digits_parse iv hex hd
    have h1 : (Item.key iv hex uri).line ≠ [] := by simp [Item.line]
    have h2 : (Item.key iv hex uri).line.take 7 = tExt := rfl
    have hform : (Item.key iv hex uri).line = (tExt ++ nKey) ++ 0x3A :: keyVal hex uri := by
      simp [Item.line, keyVal, keyTail, tExt, nKey]
    have h3 : tagName (Item.key iv hex uri).line = nKey := by
      have : (Item.key iv hex uri).line.drop 7 = nKey ++ 0x3A :: keyVal hex uri := by
        rw [hform]; simp [tExt, nKey]
      unfold tagName
      rw [this, takeWhile_until (by decide)]
    have h4 : tagVal (Item.key iv hex uri).line = keyVal hex uri := by
      unfold tagVal
      rw [hform, if_pos (by simp), dropWhile_until (by decide)]
      rfl
    rw [if_neg h1, if_neg (by rw [h2]; decide), if_pos h2]
    unfold tagLine
    rw [h3, if_pos rfl, h4]
    unfold keyLine
    rw [keyVal_method, keyVal_iv _ _ _ (by omega), keyVal_uri _ _ hU hu2]
    rfl
  | seg uri =>
    obtain ⟨-, -, hne, hh⟩ := h
    have hx : ∀ t : Bytes, t.head? = some 0x23 → uri.take 7 ≠ t := by
      intro t ht he
      apply hh
      rw [← he] at ht
      cases uri with
      | nil => exact absurd rfl hne
      | cons c r => simpa using ht
    show (if uri = [] then _ else _) = _
    rw [if_neg hne]
    show (if uri.take 7 = tInf then _ else _) = _
    rw [if_neg (hx _ rfl)]
    show (if uri.take 7 = tExt then _ else _) = _
    rw [if_neg (hx _ rfl)]
    show (if uri.head? = some 0x23 then _ else _) = _
    rw [if_neg hh]
    rfl
  | note t =>
    show (if t = [] then _ else _) = _
    rcases h with rfl | ⟨-, -, hh, hi, hk⟩
    · rfl
    · by_cases hn : t = []
      · rw [if_pos hn]; rfl
      · rw [if_neg hn]
        show (if t.take 7 = tInf then _ else _) = _
        rw [if_neg (fun he => hi (by rw [he]; decide))]
        show (if t.take 7 = tExt then _ else _) = _
        by_cases hx : t.take 7 = tExt
        · rw [if_pos hx]
          have := hk (by rw [hx]; decide)
          rw [known_eq] at this
          simp only [List.mem_cons, List.not_mem_nil, or_false, not_or] at this
          show tagLine e p l t = _
          unfold tagLine tagName
          rw [if_neg this.1, if_neg this.2.1, if_neg this.2.2]
          rfl
        · rw [if_neg hx]
          show (if t.head? = some 0x23 then _ else _) = _
          rw [if_pos hh]
          rfl

/-- What items do. -/
def applyAll (e : Env) : Pls × Loc → List Item → Pls × Loc
  | s, [] => s
  | s, i :: t => applyAll e (apply e s.1 s.2 i) t

/-- The rows of a text. -/
def rows : List (Item × Bool) → List Bytes
  | [] => []
  | (i, cr) :: t => (i.line ++ if cr then [0x0D] else []) :: rows t

theorem lines_rows (e : Env) : ∀ (l : List (Item × Bool)) (s : Pls × Loc), (∀ x ∈ l, x.1.Ok) →
    lines e s (rows l) = some (applyAll e s (l.map (·.1))) := by
  intro l
  induction l with
  | nil => intro s _; rfl
  | cons x t ih =>
    intro s h
    obtain ⟨i, cr⟩ := x
    simp only [rows, lines]
    rw [line_item e s.1 s.2 (h (i, cr) (by simp)) cr]
    simp only [Option.bind_some]
    rw [ih _ (fun y hy => h y (by simp [hy]))]
    rfl

theorem lines_ended : ∀ (l : List (Item × Bool)), Spec.lines l = Subs.Spec.ended (rows l) := by
  intro l
  induction l with
  | nil => rfl
  | cons x t ih =>
    obtain ⟨i, cr⟩ := x
    simp only [Spec.lines, rows, Subs.Spec.ended, ih]
    cases cr <;> simp

theorem rows_lf : ∀ (l : List (Item × Bool)), (∀ x ∈ l, x.1.Ok) → ∀ r ∈ rows l, (0x0A : UInt8) ∉ r := by
  intro l
  induction l with
  | nil => intro _ r hr; simp [rows] at hr
  | cons x t ih =>
    intro h r hr
    obtain ⟨i, cr⟩ := x
    simp only [rows, List.mem_cons] at hr
    rcases hr with rfl | hr
    · have := item_lf (h (i, cr) (by simp))
      cases cr <;> simp [this]
    · exact ih (fun y hy => h y (by simp [hy])) r hr

/-- The row with the first number. -/
def seqRow (n : Nat) : Bytes :=
  [0x23, 0x45, 0x58, 0x54, 0x2D, 0x58, 0x2D, 0x4D, 0x45, 0x44, 0x49, 0x41, 0x2D, 0x53, 0x45, 0x51,
    0x55, 0x45, 0x4E, 0x43, 0x45, 0x3A] ++ number n

theorem seqRow_line (e : Env) (p : Pls) (l : Loc) {n : Nat} (h : n < 2 ^ 64) :
    line e p l (seqRow n) = some ({ p with first := n }, { l with ctr := n + 1 }) := by
  have hlast : (seqRow n).getLast? ≠ some 0x0D := by
    simp only [seqRow, List.getLast?_append]
    cases ht : (number n).getLast? with
    | none => decide
    | some x => simpa [ht] using number_last (n := n)
  have hc : cleanLine (seqRow n) = seqRow n := by
    have := cleanLine_cr hlast false
    simpa using this
  have hform : seqRow n = (tExt ++ nSeq) ++ 0x3A :: number n := by simp [seqRow, tExt, nSeq]
  have h3 : tagName (seqRow n) = nSeq := by
    have : (seqRow n).drop 7 = nSeq ++ 0x3A :: number n := by
      rw [hform]; simp [tExt, nSeq]
    unfold tagName
    rw [this, takeWhile_until (by decide)]
  have h4 : tagVal (seqRow n) = number n := by
    unfold tagVal
    rw [hform, if_pos (by simp), dropWhile_until (by decide)]
    rfl
  have h2 : (seqRow n).take 7 = tExt := rfl
  unfold line
  rw [hc, if_neg (by simp [seqRow]), if_neg (by rw [h2]; decide), if_pos h2]
  unfold tagLine
  rw [h3, if_neg (by decide), if_neg (by decide), if_pos rfl, h4, atoll_number' h]

/-- Loading a playlist is applying its items. -/
theorem reload_text (e : Env) (p : Pls) {seq : Nat} (hs : seq < 2 ^ 64) (l : List (Item × Bool)) (h : ∀ x ∈ l, x.1.Ok) :
    reload e p (Spec.text seq l)
      = some (applyAll e ({ p with first := seq }, { Loc.fresh with ctr := seq + 1 }) (l.map (·.1))).1 := by
  have ht : Spec.text seq l = Subs.Spec.ended (ascii "#EXTM3U" :: seqRow seq :: rows l) := by
    simp only [Spec.text, Subs.Spec.ended, lines_ended, seqRow]
    simp
  have hl : Subs.linesOf (Spec.text seq l) = ascii "#EXTM3U" :: seqRow seq :: rows l := by
    have := Subs.linesFrom_ended (ascii "#EXTM3U" :: seqRow seq :: rows l) [] (by
      intro r hr
      simp only [List.mem_cons] at hr
      rcases hr with rfl | rfl | hr
      · decide
      · have := number_not (n := seq) (c := 0x0A) (by decide)
        simp [seqRow, this]
      · exact rows_lf l h r hr)
    unfold Subs.linesOf
    rw [ht]
    simpa [Subs.linesFrom] using this
  unfold reload
  rw [if_neg (by
    rw [ht]
    simp [Subs.Spec.ended])]
  rw [hl]
  simp only [List.drop_succ_cons, List.drop_zero, lines]
  rw [seqRow_line e p .fresh hs]
  simp only [Option.bind_some]
  rw [lines_rows e l _ h]
  rfl

end Verif.HlsIn
