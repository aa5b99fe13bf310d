import Verif.Addr.Lemmas

/-!
# C72, C73: comparing addresses, and their text
-/
namespace Verif.Addr
open Spec

/-! ## C72: comparing -/

theorem memLess_irrefl (a : Bytes) : memLess a a = false := by
  induction a with
  | nil => rfl
  | cons x a ih => rw [memLess, if_pos rfl, ih]

theorem memLess_trans : ∀ {a b c : Bytes}, a.length = b.length → b.length = c.length → memLess a b = true → memLess b c = true → memLess a c = true
  | [], [], _, _, _, h, _ => by cases h
  | x :: a, y :: b, z :: c, h1, h2, h3, h4 => by
    have k1 : a.length = b.length := by simpa using h1
    have k2 : b.length = c.length := by simpa using h2
    clear h1 h2
    rw [memLess] at h3 h4 ⊢
    by_cases e1 : x = y
    · subst e1
      by_cases e2 : x = z
      · rw [if_pos rfl] at h3
        rw [if_pos e2] at h4 ⊢
        exact memLess_trans k1 k2 h3 h4
      · rw [if_neg e2] at h4 ⊢; exact h4
    · rw [if_neg e1] at h3
      by_cases e2 : y = z
      · subst e2; rw [if_neg e1]; exact h3
      · rw [if_neg e2] at h4
        have h3 := of_decide_eq_true h3
        have h4 := of_decide_eq_true h4
        have h5 : x < z := UInt8.lt_trans h3 h4
        rw [if_neg (fun e => by subst e; exact absurd h5 (UInt8.lt_irrefl x))]
        exact decide_eq_true h5

theorem memLess_total : ∀ {a b : Bytes}, a.length = b.length → a ≠ b → memLess a b = true ∨ memLess b a = true
  | [], [], _, h => absurd rfl h
  | x :: a, y :: b, h1, h => by
    have k1 : a.length = b.length := by simpa using h1
    clear h1
    rw [memLess, memLess]
    by_cases e : x = y
    · subst e
      rw [if_pos rfl, if_pos rfl]
      exact memLess_total k1 (fun e => h (by rw [e]))
    · rw [if_neg e, if_neg (Ne.symm e)]
      rcases UInt8.lt_or_lt_of_ne e with h | h
      · exact .inl (decide_eq_true h)
      · exact .inr (decide_eq_true h)

/-- **C72**. The order of addresses is one in which they can be sorted and looked up: no address is before itself, what is before another is
before what comes after that, and of two different addresses one is before the other. -/
theorem C72_order : (∀ a, addrLess a a = false) ∧ (∀ a b c, addrLess a b = true → addrLess b c = true → addrLess a c = true) ∧
    (∀ a b, a ≠ b → addrLess a b = true ∨ addrLess b a = true) := by
  refine ⟨?_, ?_, ?_⟩
  · intro a
    unfold addrLess ptrLess
    rw [if_neg (fun h => h rfl)]
    split
    · rfl
    · exact memLess_irrefl a
  · intro a b c h1 h2
    unfold addrLess ptrLess at h1 h2 ⊢
    by_cases e1 : a.length = b.length
    · rw [if_neg (fun h => h e1)] at h1
      by_cases e2 : b.length = c.length
      · rw [if_neg (fun h => h e2)] at h2
        rw [if_neg (fun h => h (e1.trans e2))]
        split at h1
        · cases h1
        · rename_i h0
          rw [if_neg (by omega)] at h2
          rw [if_neg h0]
          exact memLess_trans e1 e2 h1 h2
      · rw [if_pos e2] at h2
        rw [if_pos (by omega)]
        have := of_decide_eq_true h2
        exact decide_eq_true (by omega)
    · rw [if_pos e1] at h1
      have h1 := of_decide_eq_true h1
      by_cases e2 : b.length = c.length
      · rw [if_pos (by omega)]; exact decide_eq_true (by omega)
      · rw [if_pos e2] at h2
        have h2 := of_decide_eq_true h2
        rw [if_pos (by omega)]; exact decide_eq_true (by omega)
  · intro a b h
    unfold addrLess ptrLess
    by_cases e1 : a.length = b.length
    · by_cases h0 : a.length = 0
      · have e2 : b = [] := List.length_eq_zero_iff.mp (by omega)
        exact absurd (by rw [List.length_eq_zero_iff.mp h0, e2]) h
      · rw [if_neg (by omega : ¬ a.length ≠ b.length), if_neg (by omega : ¬ b.length ≠ a.length), if_neg h0, if_neg (by omega)]
        exact memLess_total e1 h
    · rw [if_pos e1, if_pos (Ne.symm e1)]
      by_cases h2 : a.length < b.length
      · exact .inl (decide_eq_true h2)
      · exact .inr (decide_eq_true (by omega))

example : addrLess [2, 0, 0x1F, 0x90, 10, 0, 0, 1] [2, 0, 0x1F, 0x90, 10, 0, 0, 2] = true ∧
    addrLess [2, 0, 0x1F, 0x90, 10, 0, 0, 2] [2, 0, 0x1F, 0x90, 10, 0, 0, 1] = false := by decide

/-- **C72**. Two socket addresses are the same place exactly if they have the same port and the same sixteen bytes, an IPv4 address being
`::ffff:` and its four bytes. -/
theorem C72_place (a b : Sock) (ha : a.ip.length = if a.six then 16 else 4) (hb : b.ip.length = if b.six then 16 else 4) :
    compareAddress a b = true ↔ a.port = b.port ∧ binForm a = binForm b := by
  have cmp : ∀ a : Sock, a.ip.length = (if a.six then 16 else 4) →
      ((compared a).2 = false ∧ (compared a).1.length = 4 ∧ binForm a = mapped ++ (compared a).1) ∨
      ((compared a).2 = true ∧ (compared a).1.length = 16 ∧ binForm a = (compared a).1 ∧ (binForm a).take 12 ≠ mapped) := by
    intro a ha
    unfold compared binForm
    by_cases h6 : a.six = true
    · rw [if_pos h6] at ha
      simp only [h6, if_true]
      by_cases hm : a.ip.take 12 = mapped
      · left
        rw [if_pos hm]
        refine ⟨rfl, by simp [ha], ?_⟩
        rw [← hm]; exact (List.take_append_drop 12 a.ip).symm
      · right
        rw [if_neg hm]
        exact ⟨rfl, ha, rfl, hm⟩
    · rw [if_neg h6] at ha
      simp only [h6]
      exact .inl ⟨rfl, ha, rfl⟩
  unfold compareAddress
  by_cases hp : a.port = b.port
  · rw [if_neg (fun h => h hp)]
    simp only [hp, true_and]
    rcases cmp a ha with ⟨a1, a2, a3⟩ | ⟨a1, a2, a3, a4⟩ <;> rcases cmp b hb with ⟨b1, b2, b3⟩ | ⟨b1, b2, b3, b4⟩
    · rw [if_neg (by rw [a1, b1]; simp), a1, a3, b3]
      simp [List.take_of_length_le, a2, b2]
    · rw [if_pos (by rw [a1, b1]; simp)]
      simp only [Bool.false_eq_true, false_iff]
      intro h
      rw [← h, a3] at b4
      exact b4 (by simp [mapped])
    · rw [if_pos (by rw [a1, b1]; simp)]
      simp only [Bool.false_eq_true, false_iff]
      intro h
      rw [h, b3] at a4
      exact a4 (by simp [mapped])
    · rw [if_neg (by rw [a1, b1]; simp), a1, a3, b3]
      simp [List.take_of_length_le, a2, b2]
  · rw [if_pos hp]
    simp [hp]

example : compareAddress ⟨false, 8080, [10, 0, 0, 1]⟩ ⟨true, 8080, mapped ++ [10, 0, 0, 1]⟩ = true ∧
    compareAddress ⟨true, 8080, mapped ++ [10, 0, 0, 2]⟩ ⟨true, 8080, mapped ++ [10, 0, 0, 1]⟩ = false := by decide

/-- **C72** fails for `==`: of two addresses of the same size exactly the different ones are equal. -/
theorem C72_equal_fails (a b : Bytes) (ha : a ≠ []) (hl : a.length = b.length) : addrEq a b = decide (a ≠ b) := by
  have h0 : a.length ≠ 0 := by simpa using ha
  unfold addrEq ptrEq
  rw [if_neg (fun h => h hl), if_neg h0, decide_eq_true h0, decide_eq_true (by omega : b.length ≠ 0)]
  rfl

/-- **C72** fails for sockets: one that is connected to the asked address from the asked address is not found, and a socket between two other
addresses is taken for it. -/
theorem C72_socket_fails (recv dest remote loc : Bytes) (h1 : recv ≠ []) (h2 : dest ≠ []) (h3 : recv.length = loc.length)
    (h4 : dest.length = remote.length) : sockEquals recv dest remote loc = true ↔ recv ≠ loc ∧ dest ≠ remote := by
  unfold sockEquals
  rw [C72_equal_fails _ _ h1 h3, C72_equal_fails _ _ h2 h4]
  simp

/-! ## C73: the text of an address -/

/-- An IPv6 address in the text of which the zeros at the end are lost: the first longest run of zero groups (two or more, but not all) is at
the end. -/
def EndsInRun (ip : Bytes) : Prop :=
  ∃ n, 2 ≤ n ∧ n < 8 ∧ (∀ i, 8 - n ≤ i → i < 8 → group ip i = 0) ∧
    ∀ j, (∀ i, j ≤ i → i < j + n → i < 8 ∧ group ip i = 0) → j = 8 - n

/-- The run that the loop finds is the first longest one. -/
def firstLongest (z : List Bool) (r : Run) : Bool :=
  (List.range 9).all fun j => !((List.range' j r.len).all fun i => z[i]? == some true) || decide (r.start ≤ j)

theorem run_first (z : List Bool) (hz : z.length = 8) : firstLongest z (Run.loop {} 0 z) = true := by
  have key : ∀ a b c d e f g h : Bool, firstLongest [a, b, c, d, e, f, g, h] (Run.loop {} 0 [a, b, c, d, e, f, g, h]) = true := by decide +kernel
  match z, hz with
  | [a, b, c, d, e, f, g, h], _ => exact key a b c d e f g h

theorem zero_of (ip : Bytes) (i : Nat) (h : ((List.range 8).map fun i => group ip i == 0)[i]? = some true) : i < 8 ∧ group ip i = 0 := by
  rw [List.getElem?_map, Option.map_eq_some_iff] at h
  obtain ⟨j, h1, h2⟩ := h
  have h3 := List.getElem?_eq_some_iff.mp h1
  obtain ⟨h4, h5⟩ := h3
  rw [List.length_range] at h4
  rw [List.getElem_range] at h5
  subst h5
  exact ⟨h4, by simpa using h2⟩

theorem of_zero (ip : Bytes) (i : Nat) (hi : i < 8) (h : group ip i = 0) : ((List.range 8).map fun i => group ip i == 0)[i]? = some true := by
  rw [List.getElem?_map, List.getElem?_range hi, Option.map_some, h]; rfl

theorem parse6_full (ip : Bytes) (h : ip.length = 16) (s : Bytes) (hs : s = textAt ip (List.range 8)) : parse6 s = some ip := by
  unfold parse6
  rw [hs, gap_none, side_textAt, bytesAt_all ip h]
  simp [h]

theorem parse6_gap (ip : Bytes) (h : ip.length = 16) (a n : Nat) (hn : 0 < n) (han : a + n ≤ 8) (hz : ∀ i, a ≤ i → i < a + n → group ip i = 0) :
    parse6 (textAt ip (List.range a) ++ 58 :: 58 :: textAt ip (List.range' (a + n) (8 - (a + n)))) = some ip := by
  unfold parse6
  rw [gap_textAt]
  simp only [side_textAt, Option.bind_some, bytesAt_length, List.length_range, List.length_range']
  rw [if_pos (by omega)]
  have hzero := bytesAt_zero ip (List.range' a n) fun i hi => by
    have := List.mem_range'_1.mp hi
    exact hz i this.1 this.2
  rw [List.length_range'] at hzero
  rw [show 16 - 2 * a - 2 * (8 - (a + n)) = 2 * n by omega, ← hzero]
  have hall := bytesAt_all ip h
  have hr : List.range 8 = List.range a ++ List.range' a n ++ List.range' (a + n) (8 - (a + n)) := by
    rw [List.range_eq_range', List.range_eq_range', List.append_assoc,
      show List.range' a n ++ List.range' (a + n) (8 - (a + n)) = List.range' a (8 - a) by
        rw [List.range'_append_1]; congr 1; omega,
      show List.range' 0 a ++ List.range' a (8 - a) = List.range' 0 8 by
        have := @List.range'_append_1 0 a (8 - a)
        rw [Nat.zero_add] at this
        rw [this, show a + (8 - a) = 8 by omega]]
  rw [hr] at hall
  unfold bytesAt at hall ⊢
  rw [List.flatMap_append, List.flatMap_append] at hall
  exact congrArg some hall

theorem take12 (ip : Bytes) (h : ip.length = 16) : ip.take 12 = bytesAt ip (List.range 5) ++ [ip.getD 10 0, ip.getD 11 0] := by
  match ip, h with
  | [a, b, c, d, e, f, g, h, i, j, k, l, m, n, o, p], _ => rfl

theorem parse6_mapped (ip : Bytes) (h : ip.length = 16) (h1 : ∀ i < 5, group ip i = 0) (h2 : group ip 5 = 65535) :
    parse6 ([58, 58, 102, 102, 102, 102, 58] ++ host4 (ip.drop 12)) = some ip := by
  have z0 := bytesAt_zero ip (List.range 5) fun i hi => h1 i (List.mem_range.mp hi)
  have t := take12 ip h
  unfold group at h2
  have hk := (ip.getD 10 0).toNat_lt
  have hl := (ip.getD 11 0).toNat_lt
  have ek : ip.getD 10 0 = 255 := UInt8.toNat_inj.mp (by show _ = 255; simp only [Nat.reduceMul, Nat.reduceAdd] at h2; omega)
  have el : ip.getD 11 0 = 255 := UInt8.toNat_inj.mp (by show _ = 255; simp only [Nat.reduceMul, Nat.reduceAdd] at h2; omega)
  rw [z0, ek, el] at t
  have hd : (ip.drop 12).length = 4 := by simp [h]
  have hp := parse4_host4 (ip.drop 12) hd
  have hdot : 46 ∈ host4 (ip.drop 12) := by unfold host4; simp
  have hc := host4_clear (ip.drop 12) 58 (by decide)
  have hall := List.take_append_drop 12 ip
  generalize host4 (ip.drop 12) = s at *
  have e1 : gap ([58, 58, 102, 102, 102, 102, 58] ++ s) = some ([], [102, 102, 102, 102, 58] ++ s) := rfl
  have e2 : split 58 ([102, 102, 102, 102, 58] ++ s) = [[102, 102, 102, 102], s] := by
    have := split_cons 58 (f := [102, 102, 102, 102]) (by decide) s
    rw [split_nil 58 hc] at this
    exact this
  have e3 : pair [102, 102, 102, 102] = some [255, 255] := by decide +kernel
  have e4 : side ([102, 102, 102, 102, 58] ++ s) = some ([255, 255] ++ ip.drop 12) := by
    unfold side
    rw [if_neg (by simp), e2, groups, e3, groups, if_pos hdot, hp]
    · rfl
    · simp
  unfold parse6
  rw [e1]
  simp only [e4, Option.bind_some]
  rw [show side [] = some [] from rfl, Option.bind_some, if_pos (by simp only [List.length_nil, List.length_append, hd]; decide)]
  rw [← hall, t]
  simp only [List.length_nil, List.length_append, hd]
  congr 1
  simp [h]

/-- **C73** (for all addresses but those that end with a run of zeros, see `C73_trailing_fails`). The text of an address means this address. -/
theorem C73_host_partial (a : Sock) (ha : a.ip.length = if a.six then 16 else 4) (hz : a.six = true → ¬ EndsInRun a.ip) :
    parse (host a) = some (binForm a) := by
  unfold host binForm parse
  by_cases h6 : a.six = true
  · rw [if_pos h6] at ha ⊢
    rw [if_pos h6]
    have hz := hz h6
    generalize a.ip = ip at *
    have hcolon : ∀ l r : Bytes, 58 ∈ l ++ 58 :: r := by simp
    unfold host6
    by_cases hm : (((List.range 5).all fun i => group ip i == 0) && group ip 5 == 0xffff) = true
    · rw [if_pos hm, if_pos (by simp)]
      rw [Bool.and_eq_true, List.all_eq_true] at hm
      obtain ⟨h1, h2⟩ := hm
      have h1 : ∀ i < 5, group ip i = 0 := fun i hi => by simpa using h1 i (List.mem_range.mpr hi)
      have h2 : group ip 5 = 65535 := by simpa using h2
      exact parse6_mapped ip ha h1 h2
    · rw [if_neg hm]
      generalize hzs : ((List.range 8).map fun i => group ip i == 0) = z
      have hlen : z.length = 8 := by rw [← hzs]; simp
      have hsh := write_shape z hlen
      have hfl := run_first z hlen
      generalize Run.loop {} 0 z = r at *
      unfold shape at hsh
      split at hsh
      · rw [of_decide_eq_true hsh]
        have e : (inter (List.range 8)).flatMap (Token.text ip) = textAt ip (List.range 8) := rfl
        rw [e, if_pos (by rw [show List.range 8 = 0 :: 1 :: List.range' 2 6 from rfl, textAt_cons]; simp)]
        exact parse6_full ip ha _ rfl
      · rename_i hlen1
        simp only [Bool.and_eq_true] at hsh
        obtain ⟨⟨g1, g2⟩, g3⟩ := hsh
        have g1 := of_decide_eq_true g1
        have hzero : ∀ i, r.start ≤ i → i < r.start + r.len → group ip i = 0 := by
          intro i h1 h2
          have := List.all_eq_true.mp g2 i (List.mem_range'_1.mpr ⟨h1, h2⟩)
          exact (zero_of ip i (by rw [hzs]; simpa using this)).2
        split at g3
        · rw [of_decide_eq_true g3, List.flatMap_append]
          show (if 58 ∈ textAt ip (List.range r.start) ++ 58 :: 58 :: textAt ip (List.range' (r.start + r.len) (8 - (r.start + r.len))) then _ else _) = _
          rw [if_pos (hcolon _ _)]
          exact parse6_gap ip ha r.start r.len (by omega) g1 hzero
        · rename_i hc
          refine absurd ⟨r.len, by omega, by omega, fun i h1 h2 => hzero i (by omega) (by omega), ?_⟩ hz
          intro j hj
          have h8 : j + r.len ≤ 8 := by
            have := (hj (j + r.len - 1) (by omega) (by omega)).1
            omega
          have := List.all_eq_true.mp hfl j (List.mem_range.mpr (by omega))
          rw [Bool.or_eq_true] at this
          rcases this with h | h
          · exfalso
            have : ((List.range' j r.len).all fun i => z[i]? == some true) = true := by
              rw [List.all_eq_true]
              intro i hi
              have hi := List.mem_range'_1.mp hi
              have := hj i hi.1 hi.2
              rw [← hzs, of_zero ip i this.1 this.2]; rfl
            rw [this] at h; cases h
          · have := of_decide_eq_true h
            omega
  · rw [if_neg h6] at ha
    rw [if_neg h6, if_neg h6, if_neg (host4_clear a.ip 58 (by decide)), parse4_host4 _ ha]
    rfl

/-! ### Texts of bytes -/

/-- Parts with colons between them. -/
def join : List Bytes → Bytes
  | [] => []
  | [f] => f
  | f :: r => f ++ 58 :: join r

theorem join_cons (f g : Bytes) (r : List Bytes) : join (f :: g :: r) = f ++ 58 :: join (g :: r) := by rw [join]; simp

theorem split_join (f : Bytes) (r : List Bytes) (h : ∀ x ∈ f :: r, 58 ∉ x) : split 58 (join (f :: r)) = f :: r := by
  induction r generalizing f with
  | nil => rw [join, split_nil 58 (h f (by simp))]
  | cons g r ih => rw [join_cons, split_cons 58 (h f (by simp)), ih g fun x hx => h x (by simp only [List.mem_cons] at hx ⊢; exact .inr hx)]

theorem join_head (f : Bytes) (r : List Bytes) (h : ∀ x ∈ f :: r, x ≠ [] ∧ 58 ∉ x) : ∃ x s, join (f :: r) = x :: s ∧ x ≠ 58 := by
  have hf := h f (by simp)
  cases hfe : f with
  | nil => exact absurd hfe hf.1
  | cons x s =>
    have hx : x ≠ 58 := fun e => hf.2 (by rw [hfe, e]; simp)
    cases r with
    | nil => exact ⟨x, s, by rw [join], hx⟩
    | cons g r => exact ⟨x, _, by rw [join_cons, List.cons_append], hx⟩

theorem gap_join (f : Bytes) (r : List Bytes) (h : ∀ x ∈ f :: r, x ≠ [] ∧ 58 ∉ x) : gap (join (f :: r)) = none := by
  induction r generalizing f with
  | nil =>
    have := gap_clear (h f (by simp)).2 []
    rw [List.append_nil] at this
    rw [join, this]; rfl
  | cons g r ih =>
    have h' : ∀ x ∈ g :: r, x ≠ [] ∧ 58 ∉ x := fun x hx => h x (by simp only [List.mem_cons] at hx ⊢; exact .inr hx)
    obtain ⟨x, s, h1, h2⟩ := join_head g r h'
    have ih := ih g h'
    rw [h1] at ih
    rw [join_cons, gap_clear (h f (by simp)).2, h1, gap_one h2, ih]; rfl

/-- One group in four digits. -/
def hex4 (ip : Bytes) (i : Nat) : Bytes := hex2 (ip.getD (2 * i) 0) ++ hex2 (ip.getD (2 * i + 1) 0)

theorem full_join (ip : Bytes) : full ip 8 0 = join ((List.range 8).map (hex4 ip)) := by
  simp only [full, List.range, List.range.loop, List.map_cons, List.map_nil, join, hex4, List.append_assoc, List.append_nil, if_true]
  simp

theorem hex2_digits (b : UInt8) : ∀ c ∈ hex2 b, (48 ≤ c.toNat ∧ c.toNat ≤ 57) ∨ (97 ≤ c.toNat ∧ c.toNat ≤ 102) := by
  have hb := b.toNat_lt
  intro c hc
  simp only [hex2, List.mem_cons, List.not_mem_nil, or_false] at hc
  rcases hc with rfl | rfl <;> exact digit_range (by omega)

theorem hex4_clear (ip : Bytes) (i : Nat) (c : UInt8) (hc : c.toNat < 48 ∨ c.toNat = 58) : c ∉ hex4 ip i := by
  intro h
  rcases List.mem_append.mp h with h | h
  · have := hex2_digits _ c h; omega
  · have := hex2_digits _ c h; omega

theorem hex4_ne (ip : Bytes) (i : Nat) : hex4 ip i ≠ [] := by simp [hex4, hex2]

theorem pair_hex4 (ip : Bytes) (i : Nat) : pair (hex4 ip i) = some [ip.getD (2 * i) 0, ip.getD (2 * i + 1) 0] := by
  unfold pair value hex4
  generalize ip.getD (2 * i) 0 = x
  generalize ip.getD (2 * i + 1) 0 = y
  have hx := x.toNat_lt
  have hy := y.toNat_lt
  rw [if_neg (by simp [hex2])]
  simp only [hex2, List.cons_append, List.nil_append, digits]
  rw [digit_value (by omega) (by decide), Option.bind_some, digit_value (by omega) (by decide), Option.bind_some, digit_value (by omega) (by decide), Option.bind_some,
    digit_value (by omega) (by decide), Option.bind_some, Option.map_some]
  rw [show ((((0 * 16 + x.toNat / 16) * 16 + x.toNat % 16) * 16 + y.toNat / 16) * 16 + y.toNat % 16) = x.toNat * 256 + y.toNat by omega,
    show (x.toNat * 256 + y.toNat) / 256 = x.toNat by omega, show (x.toNat * 256 + y.toNat) % 256 = y.toNat by omega]
  simp

theorem groups_hex4 (ip : Bytes) (i : Nat) (l : List Nat) : groups ((i :: l).map (hex4 ip)) = some (bytesAt ip (i :: l)) := by
  induction l generalizing i with
  | nil =>
    rw [List.map_cons, List.map_nil, groups, if_neg (hex4_clear _ _ _ (by decide)), pair_hex4]
    simp [bytesAt]
  | cons j l ih =>
    have ih := ih j
    rw [List.map_cons] at ih
    rw [List.map_cons, List.map_cons, groups, pair_hex4, ih]
    · simp [bytesAt]
    · simp

theorem parse6_fullText (ip : Bytes) (h : ip.length = 16) : parse6 (full ip 8 0) = some ip ∧ ∃ x s, full ip 8 0 = x :: s ∧ x ≠ 58 ∧ 58 ∈ s := by
  have hg : ∀ x ∈ (List.range 8).map (hex4 ip), x ≠ [] ∧ 58 ∉ x := by
    intro x hx
    obtain ⟨i, _, rfl⟩ := List.mem_map.mp hx
    exact ⟨hex4_ne ip i, hex4_clear ip i 58 (by decide)⟩
  have hr : (List.range 8).map (hex4 ip) = hex4 ip 0 :: (List.range' 1 7).map (hex4 ip) := rfl
  rw [full_join]
  have h1 := gap_join _ _ (hr ▸ hg)
  have h2 := split_join _ _ (fun x hx => ((hr ▸ hg) x hx).2)
  obtain ⟨x, s, h3, h4⟩ := join_head _ _ (hr ▸ hg)
  rw [← hr] at h1 h2 h3
  constructor
  · unfold parse6 side
    rw [h1]
    simp only
    rw [if_neg (by rw [h3]; simp), h2, show (List.range 8).map (hex4 ip) = (0 :: List.range' 1 7).map (hex4 ip) from rfl, groups_hex4,
      show bytesAt ip (0 :: List.range' 1 7) = ip from bytesAt_all ip h, Option.bind_some, if_pos h]
  · refine ⟨x, s, h3, h4, ?_⟩
    have : 58 ∈ join ((List.range 8).map (hex4 ip)) := by
      rw [show (List.range 8).map (hex4 ip) = hex4 ip 0 :: hex4 ip 1 :: (List.range' 2 6).map (hex4 ip) from rfl, join_cons]
      simp
    rw [h3] at this
    rcases List.mem_cons.mp this with h | h
    · exact absurd h.symm h4
    · exact h

theorem loopback_eq (b : Bytes) (h : b.length = 16) (hz : b.take 15 = List.replicate 15 0) : b = List.replicate 15 0 ++ [b.getD 15 0] := by
  have := List.take_append_drop 15 b
  rw [← hz, ← this]
  match b, h with
  | [a, b, c, d, e, f, g, h, i, j, k, l, m, n, o, p], _ => rfl

/-- **C73** (for all addresses but `::a` to `::ff`, see `C73_low_fails`). The text by which the clients of a stream are shown, logged and
compared to the claims of their tokens means the address. -/
theorem C73_bytes_partial (b : Bytes) (h : b.length = 16) (hlow : b.take 15 = List.replicate 15 0 → (b.getD 15 0).toNat < 10) :
    parse (hostBytesToStr b) = some b := by
  unfold hostBytesToStr
  rw [if_neg (by omega), if_pos h]
  by_cases hz : b.take 15 = List.replicate 15 0
  · rw [if_pos hz]
    have hb := loopback_eq b h hz
    have hl := hlow hz
    have key : ∀ x : UInt8, x.toNat < 10 → parse (if x = 0 then [58, 58] else [58, 58] ++ number 10 x.toNat) = some (List.replicate 15 0 ++ [x]) := by
      have k : ∀ n < 10, parse (if UInt8.ofNat n = 0 then [58, 58] else [58, 58] ++ number 10 n) = some (List.replicate 15 0 ++ [UInt8.ofNat n]) := by
        decide +kernel
      intro x hx
      have := k x.toNat hx
      rwa [show UInt8.ofNat x.toNat = x by simp] at this
    rw [key _ hl, ← hb]
  · rw [if_neg hz]
    by_cases hm : b.take 12 = mapped
    · rw [if_pos hm]
      unfold parse
      rw [if_neg (host4_clear _ 58 (by decide)), parse4_host4 _ (by simp [h])]
      rw [Option.map_some, ← show mapped = [0, 0, 0, 0, 0, 0, 0, 0, 0, 0, 255, 255] from rfl, ← hm, List.take_append_drop]
    · rw [if_neg hm]
      obtain ⟨h1, x, s, h2, _, h4⟩ := parse6_fullText b h
      unfold parse
      rw [if_pos (by rw [h2]; exact List.mem_cons_of_mem _ h4), h1]

/-- **C73**. Four bytes are an IPv4 address. -/
theorem C73_four (b : Bytes) (h : b.length = 4) : parse (hostBytesToStr b) = some (mapped ++ b) := by
  unfold hostBytesToStr parse
  rw [if_pos h, if_neg (host4_clear _ 58 (by decide)), parse4_host4 _ h]
  rfl

/-- **C73**. Different addresses have different texts. -/
theorem C73_distinct (b c : Bytes) (hb : b.length = 16) (hc : c.length = 16) (h : hostBytesToStr b = hostBytesToStr c) : b = c := by
  by_cases zb : b.take 15 = List.replicate 15 0
  · have shown : ∀ b : Bytes, b.length = 16 → b.take 15 = List.replicate 15 0 →
        hostBytesToStr b = (if b.getD 15 0 = 0 then [58, 58] else [58, 58] ++ number 10 (b.getD 15 0).toNat) := by
      intro b hb zb
      unfold hostBytesToStr
      rw [if_neg (by omega), if_pos hb, if_pos zb]
    by_cases zc : c.take 15 = List.replicate 15 0
    · rw [shown b hb zb, shown c hc zc] at h
      have val : ∀ x : UInt8, value 10 3 (number 10 x.toNat) = some x.toNat :=
        fun x => number_value (by decide) (by decide) (by decide) (show x.toNat < 10 ^ 3 by have := x.toNat_lt; omega)
      have e : b.getD 15 0 = c.getD 15 0 := by
        generalize b.getD 15 0 = x at *
        generalize c.getD 15 0 = y at *
        by_cases hx : x = 0 <;> by_cases hy : y = 0
        · rw [hx, hy]
        · rw [if_pos hx, if_neg hy] at h
          exact absurd (List.append_cancel_left (as := [58, 58]) (bs := []) (by simpa using h)) (Ne.symm (number_ne _ _))
        · rw [if_neg hx, if_pos hy] at h
          exact absurd (List.append_cancel_left (as := [58, 58]) (cs := []) (by simpa using h)) (number_ne _ _)
        · rw [if_neg hx, if_neg hy] at h
          have h := List.append_cancel_left h
          have h1 := val x
          rw [h, val y] at h1
          exact UInt8.toNat_inj.mp (Option.some.inj h1).symm
      rw [loopback_eq b hb zb, loopback_eq c hc zc, e]
    · exfalso
      rw [shown b hb zb] at h
      have h58 : ∃ s, hostBytesToStr c = 58 :: s := by
        rw [← h]
        split
        · exact ⟨_, rfl⟩
        · exact ⟨_, rfl⟩
      obtain ⟨s, hs⟩ := h58
      unfold hostBytesToStr at hs
      rw [if_neg (by omega), if_pos hc, if_neg zc] at hs
      split at hs
      · exact host4_clear (c.drop 12) 58 (by decide) (by rw [hs]; simp)
      · obtain ⟨_, x, t, h2, h3, _⟩ := parse6_fullText c hc
        rw [h2] at hs
        exact h3 (by cases hs; rfl)
  · have h1 := C73_bytes_partial b hb (fun h => absurd h zb)
    by_cases zc : c.take 15 = List.replicate 15 0
    · exfalso
      have h58 : ∃ s, hostBytesToStr b = 58 :: s := by
        rw [h]
        unfold hostBytesToStr
        rw [if_neg (by omega), if_pos hc, if_pos zc]
        split
        · exact ⟨_, rfl⟩
        · exact ⟨_, rfl⟩
      obtain ⟨s, hs⟩ := h58
      unfold hostBytesToStr at hs
      rw [if_neg (by omega), if_pos hb, if_neg zb] at hs
      split at hs
      · exact host4_clear (b.drop 12) 58 (by decide) (by rw [hs]; simp)
      · obtain ⟨_, x, t, h2, h3, _⟩ := parse6_fullText b hb
        rw [h2] at hs
        exact h3 (by cases hs; rfl)
    · have h2 := C73_bytes_partial c hc (fun h => absurd h zc)
      rw [h, h2] at h1
      exact (Option.some.inj h1).symm

/-! ### The hypotheses can be met -/

/-- `2001:db8::1`, which does not end in a run of zeros. -/
def doc1 : Bytes := [0x20, 0x01, 0x0d, 0xb8, 0, 0, 0, 0, 0, 0, 0, 0, 0, 0, 0, 1]

example : host ⟨true, 80, doc1⟩ = "2001:db8::1".toUTF8.toList ∧ parse "2001:db8::1".toUTF8.toList = some doc1 := by decide +kernel

example : ¬ EndsInRun doc1 := by
  rintro ⟨n, h2, h8, hz, _⟩
  exact absurd (hz 7 (by omega) (by omega)) (by decide)

example : hostBytesToStr doc1 = "2001:0db8:0000:0000:0000:0000:0000:0001".toUTF8.toList ∧
    hostBytesToStr (mapped ++ [192, 168, 0, 17]) = "192.168.0.17".toUTF8.toList := by decide +kernel

example : parse "::ffff:10.0.0.1".toUTF8.toList = some (mapped ++ [10, 0, 0, 1]) ∧ parse "::".toUTF8.toList = some (List.replicate 16 0) ∧
    parse "1:2:3:4:5:6:7".toUTF8.toList = none ∧ parse "1::2::3".toUTF8.toList = none ∧ parse "fe80:".toUTF8.toList = none := by decide +kernel

/-! ### Where the code differs -/

/-- **C73** fails for addresses that end with a run of zeros: `fe80::` is written as `fe80:`, which means no address. -/
theorem C73_trailing_fails : host ⟨true, 80, [0xfe, 0x80, 0, 0, 0, 0, 0, 0, 0, 0, 0, 0, 0, 0, 0, 0]⟩ = "fe80:".toUTF8.toList ∧
    parse "fe80:".toUTF8.toList = none := by decide +kernel

/-- **C73** fails for small addresses: the last byte is written in decimal digits, so that the text of `::10` is `::16`. -/
theorem C73_low_fails : hostBytesToStr (List.replicate 15 0 ++ [0x10]) = "::16".toUTF8.toList ∧
    parse "::16".toUTF8.toList = some (List.replicate 15 0 ++ [0x16]) := by decide +kernel

end Verif.Addr
