import Verif.Addr.Model
import Verif.Addr.Spec

/-! # Lemmas on the text of addresses -/
namespace Verif.Addr
open Spec

theorem digit_value {b n : Nat} (hn : n < b) (hb : b ≤ 16) : digitValue b (digit n) = some n := by
  have h : ∀ n < 16, (∀ b ≤ 16, n < b → digitValue b (digit n) = some n) := by decide +kernel
  exact h n (by omega) b hb hn

theorem digit_range {n : Nat} (hn : n < 16) : (48 ≤ (digit n).toNat ∧ (digit n).toNat ≤ 57) ∨ (97 ≤ (digit n).toNat ∧ (digit n).toNat ≤ 102) := by
  have h : ∀ n < 16, (48 ≤ (digit n).toNat ∧ (digit n).toNat ≤ 57) ∨ (97 ≤ (digit n).toNat ∧ (digit n).toNat ≤ 102) := by decide +kernel
  exact h n hn

theorem digits_append (b acc : Nat) (s r : Bytes) : digits b acc (s ++ r) = (digits b acc s).bind fun v => digits b v r := by
  induction s generalizing acc with
  | nil => rfl
  | cons c s ih =>
    rw [List.cons_append, digits, digits]
    cases digitValue b c with
    | none => rfl
    | some v => exact ih _

theorem numberLoop_value {b : Nat} (h2 : 2 ≤ b) (hb : b ≤ 16) (k n : Nat) (hk : n < k) : digits b 0 (numberLoop b k n) = some n := by
  induction k generalizing n with
  | zero => omega
  | succ k ih =>
    unfold numberLoop
    split
    · rename_i h
      rw [digits, digit_value h hb]
      simp [digits]
    · rename_i h
      have hlt : n / b < n := Nat.div_lt_self (by omega) (by omega)
      rw [digits_append, ih (n / b) (by omega)]
      simp only [Option.bind_some]
      rw [digits, digit_value (Nat.mod_lt _ (by omega)) hb]
      simp only [Option.bind_some, digits]
      rw [Nat.mul_comm, Nat.div_add_mod]

theorem numberLoop_range {b : Nat} (h2 : 2 ≤ b) (hb : b ≤ 16) (k n : Nat) :
    ∀ c ∈ numberLoop b k n, (48 ≤ c.toNat ∧ c.toNat ≤ 57) ∨ (97 ≤ c.toNat ∧ c.toNat ≤ 102) := by
  induction k generalizing n with
  | zero => intro c hc; cases hc
  | succ k ih =>
    unfold numberLoop
    split
    · rename_i h
      intro c hc
      rw [List.mem_singleton.mp hc]
      exact digit_range (by omega)
    · intro c hc
      rcases List.mem_append.mp hc with hc | hc
      · exact ih _ c hc
      · rw [List.mem_singleton.mp hc]
        have := Nat.mod_lt n (show 0 < b by omega)
        exact digit_range (by omega)

theorem numberLoop_length {b : Nat} (h2 : 2 ≤ b) (k n d : Nat) (hd : 0 < d) (hn : n < b ^ d) : (numberLoop b k n).length ≤ d := by
  induction k generalizing n d with
  | zero => simp [numberLoop]
  | succ k ih =>
    unfold numberLoop
    split
    · rw [List.length_singleton]; exact hd
    · rename_i h
      cases d with
      | zero => omega
      | succ d =>
        cases d with
        | zero => simp at hn; omega
        | succ d =>
          rw [List.length_append, List.length_singleton]
          have := ih (n / b) (d + 1) (by omega) (Nat.div_lt_of_lt_mul (by rw [Nat.mul_comm, ← Nat.pow_succ]; exact hn))
          omega

theorem number_ne (b n : Nat) : number b n ≠ [] := by
  unfold number numberLoop
  split <;> simp

theorem number_value {b n d : Nat} (h2 : 2 ≤ b) (hb : b ≤ 16) (hd : 0 < d) (hn : n < b ^ d) : value b d (number b n) = some n := by
  unfold value
  have := numberLoop_length h2 (n + 1) n d hd hn
  rw [if_neg]
  · exact numberLoop_value h2 hb _ _ (by omega)
  · rintro (h | h)
    · exact number_ne _ _ h
    · unfold number at h; omega

theorem number_clear {b n : Nat} (h2 : 2 ≤ b) (hb : b ≤ 16) (c : UInt8) (hc : c.toNat < 48 ∨ c.toNat = 58) : c ∉ number b n := by
  intro h
  have := numberLoop_range h2 hb _ _ c h
  omega

theorem byte_number (x : UInt8) : byte (number 10 x.toNat) = some x := by
  unfold byte
  rw [number_value (by decide) (by decide) (by decide) (show x.toNat < 10 ^ 3 by have := x.toNat_lt; omega)]
  simp only [Option.bind_some]
  rw [if_pos (by have := x.toNat_lt; omega)]
  simp

/-! ## Splitting -/

theorem split_nil (c : UInt8) {f : Bytes} (hf : c ∉ f) : split c f = [f] := by
  induction f with
  | nil => rfl
  | cons x f ih =>
    simp only [List.mem_cons, not_or] at hf
    rw [split, if_neg (Ne.symm hf.1), ih hf.2]

theorem split_cons (c : UInt8) {f : Bytes} (hf : c ∉ f) (r : Bytes) : split c (f ++ c :: r) = f :: split c r := by
  induction f with
  | nil => rw [List.nil_append, split, if_pos rfl]
  | cons x f ih =>
    simp only [List.mem_cons, not_or] at hf
    rw [List.cons_append, split, if_neg (Ne.symm hf.1), ih hf.2]

theorem parse4_host4 (ip : Bytes) (h : ip.length = 4) : parse4 (host4 ip) = some ip := by
  match ip, h with
  | [a, b, c, d], _ =>
    unfold parse4 host4
    simp only [List.getD_cons_zero, List.getD_cons_succ, List.append_assoc, List.cons_append, List.nil_append]
    rw [split_cons 46 (number_clear (by decide) (by decide) 46 (by decide)), split_cons 46 (number_clear (by decide) (by decide) 46 (by decide)),
      split_cons 46 (number_clear (by decide) (by decide) 46 (by decide)), split_nil 46 (number_clear (by decide) (by decide) 46 (by decide))]
    simp only [byte_number, Option.bind_some, Option.map_some]

theorem host4_clear (ip : Bytes) (c : UInt8) (hc : c.toNat < 46 ∨ c.toNat = 47 ∨ c.toNat = 58) : c ∉ host4 ip := by
  unfold host4
  have h1 := fun n => @number_clear 10 n (by decide) (by decide) c (by omega)
  simp only [List.mem_append, List.mem_singleton, h1, or_false, false_or]
  rintro ((h | h) | h) <;> · subst h; simp at hc

/-! ## Groups -/

/-- Groups with colons between them. -/
def inter : List Nat → List Token
  | [] => []
  | [i] => [.group i]
  | i :: r => .group i :: .colon :: inter r

/-- The bytes of some groups. -/
def bytesAt (ip : Bytes) (l : List Nat) : Bytes := l.flatMap fun i => [ip.getD (2 * i) 0, ip.getD (2 * i + 1) 0]

/-- What is to be shown of what is written, for one pattern of zero groups. -/
def shape (z : List Bool) (r : Run) : Bool :=
  if r.len ≤ 1 then decide (write r 9 0 = inter (List.range 8))
  else decide (r.start + r.len ≤ 8) && (List.range' r.start r.len).all (fun i => z[i]? == some true) &&
    (if r.start + r.len < 8 ∨ r.len = 8 then
      decide (write r 9 0 = inter (List.range r.start) ++ .colon :: .colon :: inter (List.range' (r.start + r.len) (8 - (r.start + r.len))))
    else decide (write r 9 0 = inter (List.range r.start) ++ [.colon]))

/-- What is written, for every pattern of zero groups: if the first longest run of two or more zero groups has `len` groups and starts with
group `start`. -/
theorem write_shape (z : List Bool) (hz : z.length = 8) : shape z (Run.loop {} 0 z) = true := by
  have key : ∀ a b c d e f g h : Bool, shape [a, b, c, d, e, f, g, h] (Run.loop {} 0 [a, b, c, d, e, f, g, h]) = true := by decide +kernel
  match z, hz with
  | [a, b, c, d, e, f, g, h], _ => exact key a b c d e f g h

/-- The text of groups. -/
def textAt (ip : Bytes) (l : List Nat) : Bytes := (inter l).flatMap (Token.text ip)

theorem textAt_cons (ip : Bytes) (i j : Nat) (r : List Nat) : textAt ip (i :: j :: r) = number 16 (group ip i) ++ 58 :: textAt ip (j :: r) := by
  unfold textAt
  rw [inter]
  · simp [Token.text]
  · simp

theorem textAt_one (ip : Bytes) (i : Nat) : textAt ip [i] = number 16 (group ip i) := by simp [textAt, inter, Token.text]

theorem textAt_ne (ip : Bytes) (i : Nat) (r : List Nat) : ∃ x s, textAt ip (i :: r) = x :: s ∧ x ≠ 58 := by
  have h : ∃ x s, number 16 (group ip i) = x :: s ∧ x ≠ 58 := by
    cases h : number 16 (group ip i) with
    | nil => exact absurd h (number_ne _ _)
    | cons x s =>
      refine ⟨x, s, rfl, fun hx => ?_⟩
      exact number_clear (b := 16) (n := group ip i) (by decide) (by decide) 58 (by decide) (by rw [h, hx]; simp)
  obtain ⟨x, s, h1, h2⟩ := h
  cases r with
  | nil => exact ⟨x, s, by rw [textAt_one, h1], h2⟩
  | cons j r => exact ⟨x, s ++ 58 :: textAt ip (j :: r), by rw [textAt_cons, h1]; rfl, h2⟩

theorem group_lt (ip : Bytes) (i : Nat) : group ip i < 16 ^ 4 := by
  unfold group
  have h1 := (ip.getD (2 * i) 0).toNat_lt
  have h2 := (ip.getD (2 * i + 1) 0).toNat_lt
  omega

theorem pair_group (ip : Bytes) (i : Nat) : pair (number 16 (group ip i)) = some [ip.getD (2 * i) 0, ip.getD (2 * i + 1) 0] := by
  unfold pair
  rw [number_value (by decide) (by decide) (by decide) (group_lt ip i)]
  unfold group
  have h2 := (ip.getD (2 * i + 1) 0).toNat_lt
  rw [Option.map_some, show ((ip.getD (2 * i) 0).toNat * 256 + (ip.getD (2 * i + 1) 0).toNat) / 256 = (ip.getD (2 * i) 0).toNat by omega,
    show ((ip.getD (2 * i) 0).toNat * 256 + (ip.getD (2 * i + 1) 0).toNat) % 256 = (ip.getD (2 * i + 1) 0).toNat by omega]
  simp

theorem num16_clear (ip : Bytes) (i : Nat) (c : UInt8) (hc : c.toNat < 48 ∨ c.toNat = 58) : c ∉ number 16 (group ip i) :=
  number_clear (by decide) (by decide) c hc

theorem side_textAt (ip : Bytes) (l : List Nat) : side (textAt ip l) = some (bytesAt ip l) := by
  have key : ∀ i r, groups (split 58 (textAt ip (i :: r))) = some (bytesAt ip (i :: r)) := by
    intro i r
    induction r generalizing i with
    | nil =>
      rw [textAt_one, split_nil 58 (num16_clear _ _ _ (by decide)), groups, if_neg (num16_clear _ _ _ (by decide)), pair_group]
      simp [bytesAt]
    | cons j r ih =>
      rw [textAt_cons, split_cons 58 (num16_clear _ _ _ (by decide))]
      have ih := ih j
      cases hs : split 58 (textAt ip (j :: r)) with
      | nil => rw [hs] at ih; simp [groups, bytesAt] at ih
      | cons f l =>
        rw [hs] at ih
        rw [groups, pair_group, ih]
        · simp [bytesAt]
        · simp
  cases l with
  | nil => rfl
  | cons i r =>
    obtain ⟨x, s, h1, _⟩ := textAt_ne ip i r
    unfold side
    rw [if_neg (by rw [h1]; simp)]
    exact key i r

theorem gap_clear {f : Bytes} (hf : 58 ∉ f) (s : Bytes) : gap (f ++ s) = (gap s).map fun p => (f ++ p.1, p.2) := by
  induction f with
  | nil => simp
  | cons x f ih =>
    simp only [List.mem_cons, not_or] at hf
    rw [List.cons_append, gap, ih hf.2, Option.map_map]
    · rfl
    · intro r h _; exact hf.1 h.symm

theorem gap_one {x : UInt8} (hx : x ≠ 58) (s : Bytes) : gap (58 :: x :: s) = (gap (x :: s)).map fun p => (58 :: p.1, p.2) := by
  rw [gap]
  intro r _ h; exact hx (by cases h; rfl)

theorem gap_textAt (ip : Bytes) (l : List Nat) (r : Bytes) : gap (textAt ip l ++ 58 :: 58 :: r) = some (textAt ip l, r) := by
  cases l with
  | nil => rfl
  | cons i l =>
    induction l generalizing i with
    | nil => rw [textAt_one, gap_clear (num16_clear _ _ _ (by decide))]; simp [gap]
    | cons j l ih =>
      rw [textAt_cons, List.append_assoc, gap_clear (num16_clear _ _ _ (by decide)), List.cons_append]
      obtain ⟨x, s, h1, h2⟩ := textAt_ne ip j l
      have ih := ih j
      rw [h1] at ih ⊢
      rw [List.cons_append] at ih ⊢
      rw [gap_one h2, ih]; rfl

theorem gap_none (ip : Bytes) (l : List Nat) : gap (textAt ip l) = none := by
  cases l with
  | nil => rfl
  | cons i l =>
    induction l generalizing i with
    | nil =>
      have := gap_clear (num16_clear ip i 58 (by decide)) []
      rw [List.append_nil] at this
      rw [textAt_one, this]; rfl
    | cons j l ih =>
      rw [textAt_cons, gap_clear (num16_clear _ _ _ (by decide))]
      obtain ⟨x, s, h1, h2⟩ := textAt_ne ip j l
      have ih := ih j
      rw [h1] at ih ⊢
      rw [gap_one h2, ih]; rfl

theorem bytesAt_length (ip : Bytes) (l : List Nat) : (bytesAt ip l).length = 2 * l.length := by
  induction l with
  | nil => rfl
  | cons i l ih => simp only [bytesAt, List.flatMap_cons, List.length_append, List.length_cons, List.length_nil] at ih ⊢; omega

theorem bytesAt_all (ip : Bytes) (h : ip.length = 16) : bytesAt ip (List.range 8) = ip := by
  match ip, h with
  | [a, b, c, d, e, f, g, h, i, j, k, l, m, n, o, p], _ => rfl

theorem bytesAt_zero (ip : Bytes) (l : List Nat) (h : ∀ i ∈ l, group ip i = 0) : bytesAt ip l = List.replicate (2 * l.length) 0 := by
  induction l with
  | nil => rfl
  | cons i l ih =>
    have h0 := h i (by simp)
    unfold group at h0
    have e1 : ip.getD (2 * i) 0 = 0 := UInt8.toNat_inj.mp (by show _ = 0; omega)
    have e2 : ip.getD (2 * i + 1) 0 = 0 := UInt8.toNat_inj.mp (by show _ = 0; omega)
    have ih := ih fun j hj => h j (by simp [hj])
    rw [show bytesAt ip (i :: l) = [ip.getD (2 * i) 0, ip.getD (2 * i + 1) 0] ++ bytesAt ip l from rfl, ih, e1, e2, List.length_cons,
      show 2 * (l.length + 1) = 2 * l.length + 1 + 1 by omega, List.replicate_succ, List.replicate_succ]
    rfl

end Verif.Addr
