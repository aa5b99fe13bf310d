import Verif.Range.Spec

/-!
# C93: range requests
-/
namespace Verif.Range
open Verif.Range.Spec

theorem fold_mod (l : Bytes) (v : Nat) : (l.foldl (fun v c => v * 10 + (c.toNat - 48)) (v % 2 ^ 64)) % 2 ^ 64 =
    (l.foldl (fun v (c : UInt8) => v * 10 + (c.toNat - 48)) v) % 2 ^ 64 := by
  induction l generalizing v with
  | nil => simp
  | cons c l ih =>
    rw [List.foldl_cons, List.foldl_cons, ← ih, ← ih (v * 10 + _)]
    congr 2
    omega

theorem digits_spec (l r : Bytes) (v : Nat) (hl : ∀ c ∈ l, 48 ≤ c ∧ c ≤ 57) (hr : ∀ c, r.head? = some c → ¬ (48 ≤ c ∧ c ≤ 57)) (hv : v < 2 ^ 64) :
    digits (l ++ r) v = ((l.foldl (fun v c => v * 10 + (c.toNat - 48)) v) % 2 ^ 64, r) := by
  induction l generalizing v with
  | nil =>
    rw [List.nil_append, List.foldl_nil, Nat.mod_eq_of_lt hv]
    cases r with
    | nil => rfl
    | cons c r => rw [digits, if_neg (hr c rfl)]
  | cons c l ih =>
    rw [List.cons_append, digits, if_pos (hl c List.mem_cons_self), ih _ (fun x hx => hl x (List.mem_cons_of_mem _ hx)) (Nat.mod_lt _ (by decide)),
      fold_mod, List.foldl_cons]

theorem bytes_text : "bytes=".toUTF8.toList = sBytes := by decide +kernel

theorem parse_from {a r : Bytes} (ha : Digits a) (s e : Nat) : parseRange (sBytes ++ a ++ [45] ++ r) s e =
    if r ≠ [] then (true, value a % 2 ^ 64, if (digits r 0).1 > e then e else (digits r 0).1) else (true, value a % 2 ^ 64, e) := by
  unfold parseRange
  have h6 : sBytes.length = 6 := rfl
  rw [if_neg (by
    intro hc
    rcases hc with hc | hc
    · simp only [List.length_append, h6] at hc; omega
    · apply hc
      rw [List.append_assoc, List.append_assoc]
      exact List.take_left' h6)]
  simp only
  rw [show List.drop 6 (sBytes ++ a ++ [45] ++ r) = a ++ ([45] ++ r) by rw [List.append_assoc, List.append_assoc]; exact List.drop_left' h6]
  have hh : (a ++ ([45] ++ r)).head? ≠ some 45 := by
    cases a with
    | nil => exact absurd rfl ha.1
    | cons c a =>
      intro hc
      have := ha.2 c List.mem_cons_self
      rw [List.cons_append, List.head?_cons] at hc
      rw [Option.some.inj hc] at this
      exact absurd this (by decide)
  rw [if_neg hh, digits_spec a ([45] ++ r) 0 ha.2 (by
    intro c hc
    rw [List.singleton_append, List.head?_cons] at hc
    rw [← Option.some.inj hc]; decide) (by decide)]
  simp only [List.singleton_append, List.head?_cons, ne_eq, not_true_eq_false, if_false, List.tail_cons]
  rfl

theorem parse_last {n : Bytes} (hn : Digits n) (s e : Nat) : parseRange (sBytes ++ [45] ++ n) s e =
    (true, if value n % 2 ^ 64 > e then 0 else e - value n % 2 ^ 64, e) := by
  unfold parseRange
  have h6 : sBytes.length = 6 := rfl
  rw [if_neg (by
    intro hc
    rcases hc with hc | hc
    · simp only [List.length_append, h6] at hc; omega
    · apply hc
      rw [List.append_assoc]
      exact List.take_left' h6)]
  simp only
  rw [show List.drop 6 (sBytes ++ [45] ++ n) = [45] ++ n by rw [List.append_assoc]; exact List.drop_left' h6]
  have := digits_spec n [] 0 hn.2 (fun c hc => by cases hc) (by decide)
  rw [List.append_nil] at this
  have ht : List.tail (([45] : Bytes) ++ n) = n := rfl
  rw [if_pos (by rfl), ht, this]
  rfl

theorem digits_all {b : Bytes} (hb : Digits b) : (digits b 0).1 = value b % 2 ^ 64 := by
  have := digits_spec b [] 0 hb.2 (fun c hc => by cases hc) (by decide)
  rw [List.append_nil] at this
  rw [this]
  rfl

theorem answer_parse {h : Bytes} {size : Nat} (hn : h ≠ []) (hs : 0 < size) (hs2 : size < 2 ^ 64) {b : Bool} {a e : Nat}
    (hp : parseRange h 0 (size - 1) = (b, a, e)) (hae : e = 0 ∨ a ≤ e) (he : e < 2 ^ 63) :
    answer h size = if e = 0 then .refused else .part a e (e + 1 - a) := by
  unfold answer
  rw [if_neg hn]
  simp only
  rw [show (size + 2 ^ 64 - 1) % 2 ^ 64 = size - 1 by omega, hp]
  simp only
  by_cases h0 : e = 0
  · rw [if_pos h0, if_pos h0]
  · rw [if_neg h0, if_neg h0]
    congr 1
    omega

/-- **C93** (partly). A request for a range from one byte to another, or from a byte on, is answered with just this range, cut at the
end of the file; a request for the last bytes is answered with all of the file if these are as many as the file has, or more.
Missing: ranges that end at byte zero (`C93_first_fails`), ranges that start after the end of the file (`C93_beyond_fails`), fewer
last bytes than there are (`C93_last_fails`), numbers from 2^64 on (`C93_wrap_fails`). -/
theorem C93_range_partial (q : Ask) (size : Nat) (hv : q.Valid) (hs : 1 < size) (hs2 : size < 2 ^ 63)
    (hq : match q with
      | .fromTo a b => value a < size ∧ 0 < value b ∧ value b < 2 ^ 64
      | .from a => value a < size
      | .last n => size ≤ value n ∧ value n < 2 ^ 64) :
    answer q.text size = q.due size := by
  cases q with
  | fromTo a b =>
    obtain ⟨ha, hb, hab⟩ := hv
    obtain ⟨h1, h2, h3⟩ := hq
    have hp := parse_from ha (r := b) 0 (size - 1)
    rw [if_pos hb.1, digits_all hb, Nat.mod_eq_of_lt (by omega : value a < 2 ^ 64), Nat.mod_eq_of_lt h3] at hp
    simp only [Ask.text, Ask.due, Ask.wanted]
    rw [bytes_text, if_pos h1]
    simp only
    have he : (if value b > size - 1 then size - 1 else value b) = min (value b) (size - 1) := by
      split <;> omega
    rw [he] at hp
    rw [answer_parse (by simp [sBytes]) (by omega) (by omega) hp (by omega) (by omega), if_neg (by omega)]
  | «from» a =>
    have hp := parse_from hv (r := []) 0 (size - 1)
    have hq' : value a < size := hq
    rw [if_neg (by simp), Nat.mod_eq_of_lt (by omega : value a < 2 ^ 64), List.append_nil] at hp
    simp only [Ask.text, Ask.due, Ask.wanted]
    rw [bytes_text, if_pos hq']
    simp only
    rw [answer_parse (by simp [sBytes]) (by omega) (by omega) hp (by omega) (by omega), if_neg (by omega)]
  | last n =>
    obtain ⟨h1, h2⟩ := hq
    have hp := parse_last hv 0 (size - 1)
    rw [Nat.mod_eq_of_lt h2, if_pos (by omega)] at hp
    simp only [Ask.text, Ask.due, Ask.wanted]
    rw [bytes_text, if_pos (by omega)]
    simp only
    rw [answer_parse (by simp [sBytes]) (by omega) (by omega) hp (by omega) (by omega), if_neg (by omega),
      show size - value n = 0 by omega]

/-- **C93** fails for requests of the last bytes: one byte more is sent than was asked for. -/
theorem C93_last_fails (n : Bytes) (size : Nat) (hn : Digits n) (hs : 1 < size) (hs2 : size < 2 ^ 63) (h1 : 0 < value n) (h2 : value n < size) :
    Ask.due size (.last n) = .part (size - value n) (size - 1) (value n) ∧
    answer (Ask.text (.last n)) size = .part (size - 1 - value n) (size - 1) (value n + 1) := by
  constructor
  · simp only [Ask.due, Ask.wanted]
    rw [if_pos (by omega)]
    simp only
    congr 1
    omega
  · have hp := parse_last hn 0 (size - 1)
    rw [Nat.mod_eq_of_lt (by omega), if_neg (by omega)] at hp
    unfold Ask.text
    rw [bytes_text, answer_parse (by simp [sBytes]) (by omega) (by omega) hp (by omega) (by omega), if_neg (by omega)]
    congr 1
    omega

/-- **C93** fails for the first byte alone: the request is refused. -/
theorem C93_first_fails (a b : Bytes) (size : Nat) (ha : Digits a) (hb : Digits b) (ha0 : value a = 0) (hb0 : value b = 0) (hs : 1 < size)
    (hs2 : size < 2 ^ 63) : Ask.due size (.fromTo a b) = .part 0 0 1 ∧ answer (Ask.text (.fromTo a b)) size = .refused := by
  constructor
  · simp only [Ask.due, Ask.wanted]
    rw [if_pos (by omega), ha0, hb0]
    simp
  · have hp := parse_from ha (r := b) 0 (size - 1)
    rw [if_pos hb.1, digits_all hb, ha0, hb0, if_neg (by omega)] at hp
    unfold Ask.text
    rw [bytes_text, answer_parse (by simp [sBytes]) (by omega) (by omega) hp (Or.inl rfl) (by decide)]
    rfl

/-- **C93** fails for ranges that start after the end: they are not refused, and the announced length is not less than 2^63. -/
theorem C93_beyond_fails (a : Bytes) (size : Nat) (ha : Digits a) (hs : 1 < size) (h1 : size < value a) (h2 : value a < 2 ^ 63) :
    Ask.due size (.from a) = .refused ∧ ∃ n, 2 ^ 63 ≤ n ∧ answer (Ask.text (.from a)) size = .part (value a) (size - 1) n := by
  constructor
  · simp only [Ask.due, Ask.wanted]
    rw [if_neg (by omega)]
  · have hp := parse_from ha (r := []) 0 (size - 1)
    rw [if_neg (by simp), Nat.mod_eq_of_lt (by omega : value a < 2 ^ 64), List.append_nil] at hp
    unfold Ask.text answer
    rw [bytes_text, if_neg (by simp [sBytes])]
    simp only
    rw [show (size + 2 ^ 64 - 1) % 2 ^ 64 = size - 1 by omega, hp]
    simp only
    rw [if_neg (by omega)]
    exact ⟨(size - 1 + 2 ^ 64 - value a + 1) % 2 ^ 64, by omega, rfl⟩

/-- **C93** fails for large numbers: they are taken modulo 2^64. Here 2^64 + 1, as the first byte that is wanted. -/
theorem C93_wrap_fails : ∃ a : Bytes, Digits a ∧ ∀ size, 2 < size → size < 2 ^ 63 →
    Ask.due size (.from a) = .refused ∧ answer (Ask.text (.from a)) size = .part 1 (size - 1) (size - 1) := by
  have hd : Digits "18446744073709551617".toUTF8.toList := by unfold Digits; decide +kernel
  have hv : value "18446744073709551617".toUTF8.toList = 2 ^ 64 + 1 := by decide +kernel
  refine ⟨_, hd, fun size h1 h2 => ⟨?_, ?_⟩⟩
  · simp only [Ask.due, Ask.wanted]
    rw [hv, if_neg (by omega)]
  · have hp := parse_from hd (r := []) 0 (size - 1)
    rw [if_neg (by simp), hv, List.append_nil] at hp
    unfold Ask.text
    rw [bytes_text, answer_parse (by simp [sBytes]) (by omega) (by omega) hp (by omega) (by omega), if_neg (by omega)]
    rfl

/-- **C93** fails for other units, which should be ignored: the request is refused. -/
theorem C93_unit_fails (h : Bytes) (size : Nat) (hn : h ≠ []) (hb : h.take 6 ≠ "bytes=".toUTF8.toList) : answer h size = .refused := by
  rw [bytes_text] at hb
  unfold answer
  rw [if_neg hn]
  simp only
  unfold parseRange
  rw [if_pos (Or.inr hb)]
  rfl

/-- **C93** fails for the length of long files in responses in chunks: it is announced modulo 2^32. Here for 5 GiB. -/
theorem C93_length_fails : chunkedRange (5 * 2 ^ 30) = some (2 ^ 30 - 1, 2 ^ 30) := by decide

/-- A case of each: files of 1000 bytes. -/
example : answer "bytes=10-20".toUTF8.toList 1000 = .part 10 20 11 ∧ answer "bytes=10-2000".toUTF8.toList 1000 = .part 10 999 990 ∧
    answer "bytes=500-".toUTF8.toList 1000 = .part 500 999 500 ∧ answer "bytes=-5000".toUTF8.toList 1000 = .part 0 999 1000 ∧
    answer "bytes=-5".toUTF8.toList 1000 = .part 994 999 6 ∧ answer "bytes=0-0".toUTF8.toList 1000 = .refused ∧
    answer "bytes=2000-".toUTF8.toList 1000 = .part 2000 999 (2 ^ 64 - 1000) ∧ answer "items=0-5".toUTF8.toList 1000 = .refused ∧
    answer [] 1000 = .all := by decide +kernel

/-- A case of `C93_range_partial`. -/
example : Ask.Valid (.fromTo "10".toUTF8.toList "20".toUTF8.toList) ∧ value "10".toUTF8.toList = 10 ∧ value "20".toUTF8.toList = 20 := by
  unfold Ask.Valid Digits
  decide +kernel

end Verif.Range
