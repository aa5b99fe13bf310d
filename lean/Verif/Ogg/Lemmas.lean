import Verif.Ogg.Spec

namespace Verif.Ogg
open Verif

/-! ## Tables -/

/-- The lacing values of a packet. -/
def laceOf (s : Bytes) : Bytes := List.replicate (s.length / 255) 255 ++ [UInt8.ofNat (s.length % 255)]

/-- How many lacing values packets need. -/
def cnt (l : List Bytes) : Nat := (l.map fun s => s.length / 255 + 1).sum

theorem cnt_cons (s : Bytes) (l : List Bytes) : cnt (s :: l) = s.length / 255 + 1 + cnt l := by simp [cnt]

theorem cnt_append (a b : List Bytes) : cnt (a ++ b) = cnt a + cnt b := by simp [cnt]

theorem laces_eq (q : List Seg) : laces q = cnt (q.map (·.data)) := by simp [laces, cnt, Function.comp_def]

theorem lace_fit (idx : Nat) (l : List Bytes) (h : idx + cnt l ≤ 255) : lace idx l = (l.flatMap laceOf, 0) := by
  induction l generalizing idx with
  | nil => rfl
  | cons s l ih =>
    rw [cnt_cons] at h
    rw [lace, if_pos (by omega), ih _ (by omega)]
    simp [laceOf]

theorem lace_over (idx : Nat) (l : List Bytes) (s : Bytes) (h : idx + cnt l ≤ 254) (hs : 255 < idx + cnt l + s.length / 255 + 1) (ho : Odd s) :
    lace idx (l ++ [s]) = (l.flatMap laceOf ++ List.replicate (255 - (idx + cnt l)) 255, (255 - (idx + cnt l)) * 255) := by
  induction l generalizing idx with
  | nil =>
    simp only [cnt, List.map_nil, List.sum_nil, Nat.add_zero, List.nil_append, List.flatMap_nil] at *
    rw [lace, if_neg (by omega), if_neg]
    intro e
    rcases ho with ho | ho
    · rw [e] at ho; omega
    · omega
  | cons x l ih =>
    rw [cnt_cons] at h hs
    rw [List.cons_append, lace, if_pos (by omega), ih _ (by omega) (by omega), cnt_cons]
    have e : idx + x.length / 255 + 1 + cnt l = idx + (x.length / 255 + 1 + cnt l) := by omega
    rw [e]
    simp [laceOf]

theorem laceOf_length (s : Bytes) : (laceOf s).length = s.length / 255 + 1 := by simp [laceOf]

theorem flat_length (l : List Bytes) : (l.flatMap laceOf).length = cnt l := by
  induction l with
  | nil => rfl
  | cons s l ih => rw [List.flatMap_cons, List.length_append, laceOf_length, ih, cnt_cons]

theorem size_append (a b : Bytes) : size (a ++ b) = size a + size b := by simp [size]

theorem size_rep (k : Nat) : size (List.replicate k 255) = k * 255 := by
  induction k with
  | zero => rfl
  | succ k ih =>
    rw [List.replicate_succ]
    have : size (255 :: List.replicate k 255) = 255 + size (List.replicate k 255) := by simp [size]
    rw [this, ih]; omega

theorem size_laceOf (s : Bytes) : size (laceOf s) = s.length := by
  rw [laceOf, size_append, size_rep]
  have : size [UInt8.ofNat (s.length % 255)] = s.length % 255 := by
    simp only [size, List.map_cons, List.map_nil, List.sum_cons, List.sum_nil, u8n]; omega
  rw [this]; omega

theorem size_flat (l : List Bytes) : size (l.flatMap laceOf) = l.flatten.length := by
  induction l with
  | nil => rfl
  | cons s l ih => rw [List.flatMap_cons, size_append, size_laceOf, ih, List.flatten_cons, List.length_append]

theorem payload_all (l : List Bytes) : payload 0 l = l.flatten := by
  induction l with
  | nil => rfl
  | cons s l ih => rw [payload, if_neg (by simp), ih, List.flatten_cons]

theorem payload_part (left : Nat) (h : left ≠ 0) (l : List Bytes) (s : Bytes) : payload left (l ++ [s]) = l.flatten ++ s.take left := by
  induction l with
  | nil => simp [payload, h]
  | cons x l ih => rw [List.cons_append, payload, if_neg (by simp), ih, List.flatten_cons, List.append_assoc]

theorem remains_all (l : List Seg) : remains 0 l = [] := by
  induction l with
  | nil => rfl
  | cons s l ih => rw [remains, if_neg (by simp), ih]

theorem remains_part (left : Nat) (h : left ≠ 0) (l : List Seg) (s : Seg) : remains left (l ++ [s]) = [{ s with data := s.data.drop left }] := by
  induction l with
  | nil => simp [remains, h]
  | cons x l ih => rw [List.cons_append, remains, if_neg (by simp), ih]

/-! ## Packets of a page -/

theorem split_lace (n : Nat) (cur s : Bytes) (h : s.length ≤ n) (L B : Bytes) :
    split cur (laceOf s ++ L) (s ++ B) = ((cur ++ s) :: (split [] L B).1, (split [] L B).2) := by
  induction n generalizing cur s with
  | zero =>
    have : s = [] := List.eq_nil_of_length_eq_zero (by omega)
    subst this
    simp [laceOf, split]
  | succ n ih =>
    by_cases hs : s.length < 255
    · have h0 : s.length / 255 = 0 := by omega
      have h1 : s.length % 255 = s.length := by omega
      rw [laceOf, h0, h1]
      simp only [List.replicate_zero, List.nil_append, List.cons_append, split]
      have h2 : (UInt8.ofNat s.length).toNat = s.length := by rw [u8n]; omega
      have h3 : UInt8.ofNat s.length ≠ 255 := by
        intro c
        have := congrArg UInt8.toNat c
        rw [h2] at this
        have e : (255 : UInt8).toNat = 255 := rfl
        omega
      rw [if_neg h3, h2, List.take_left' rfl, List.drop_left' rfl]
    · have hk : s.length / 255 = (s.drop 255).length / 255 + 1 := by rw [List.length_drop]; omega
      have hm : s.length % 255 = (s.drop 255).length % 255 := by rw [List.length_drop]; omega
      have e : laceOf s = 255 :: laceOf (s.drop 255) := by
        rw [laceOf, hk, hm, List.replicate_succ, laceOf]; rfl
      rw [e, List.cons_append, split, if_pos rfl]
      have h1 : (s ++ B).take 255 = s.take 255 := List.take_append_of_le_length (by omega)
      have h2 : (s ++ B).drop 255 = s.drop 255 ++ B := List.drop_append_of_le_length (by omega)
      rw [h1, h2, ih _ _ (by rw [List.length_drop]; omega), List.append_assoc, List.take_append_drop]

theorem split_full (k : Nat) (cur B : Bytes) (h : B.length = k * 255) : split cur (List.replicate k 255) B = ([], cur ++ B) := by
  induction k generalizing cur B with
  | zero =>
    have : B = [] := List.eq_nil_of_length_eq_zero (by omega)
    subst this
    simp [split]
  | succ k ih =>
    rw [List.replicate_succ, split, if_pos rfl, ih _ _ (by rw [List.length_drop]; omega), List.append_assoc, List.take_append_drop]

/-- The beginning of the first packet is put in front of the rest of it. -/
def attach (c : Bytes) : List Bytes → List Bytes
  | [] => []
  | s :: l => (c ++ s) :: l

theorem attach_nil (l : List Bytes) : attach [] l = l := by cases l <;> rfl

theorem attach_append (c : Bytes) (a b : List Bytes) (h : a ≠ []) : attach c (a ++ b) = attach c a ++ b := by
  cases a with
  | nil => exact absurd rfl h
  | cons x a => rfl

theorem attach_length (c : Bytes) (l : List Bytes) : (attach c l).length = l.length := by cases l <;> rfl

theorem split_flat (cur : Bytes) (l : List Bytes) (L B : Bytes) :
    split cur (l.flatMap laceOf ++ L) (l.flatten ++ B) =
      (attach cur l ++ (split (if l = [] then cur else []) L B).1, (split (if l = [] then cur else []) L B).2) := by
  induction l generalizing cur with
  | nil => simp [attach]
  | cons s l ih =>
    rw [List.flatMap_cons, List.flatten_cons, List.append_assoc, List.append_assoc, split_lace s.length cur s (Nat.le_refl _), ih]
    have h1 : (if (s :: l) = [] then cur else []) = ([] : Bytes) := if_neg (by simp)
    have h2 : (if l = [] then ([] : Bytes) else []) = [] := by split <;> rfl
    rw [h1, h2, attach_nil]
    rfl

theorem assemble_append (cur : Bytes) (a b : List Page) :
    assemble cur (a ++ b) = ((assemble cur a).1 ++ (assemble (assemble cur a).2 b).1, (assemble (assemble cur a).2 b).2) := by
  induction a generalizing cur with
  | nil => simp [assemble]
  | cons p a ih =>
    rw [List.cons_append, assemble, ih, assemble]
    simp [List.append_assoc]

theorem assemble_one (cur : Bytes) (a : List Page) (p : Page) :
    assemble cur (a ++ [p]) = ((assemble cur a).1 ++ (split (if p.continued then (assemble cur a).2 else []) p.lacing p.body).1,
      (split (if p.continued then (assemble cur a).2 else []) p.lacing p.body).2) := by
  rw [assemble_append]
  simp [assemble]

/-! ## Bytes of pages -/

/-- The bytes of a page. -/
def enc (p : Page) : Bytes := pageBytes (head p.typ p.granule p.serial p.seq) p.lacing p.body

/-- A page that can be written. -/
structure Ok (p : Page) : Prop where
  gran : p.granule < 256 ^ 8
  serial : p.serial < 256 ^ 4
  seq : p.seq < 256 ^ 4
  crc : p.crc = checksum (head p.typ p.granule p.serial p.seq) p.lacing p.body
  lacing : p.lacing.length ≤ 255
  body : p.body.length = size p.lacing

theorem parse_enc (p : Page) (h : Ok p) (rest : Bytes) : parsePage (enc p ++ rest) = some (p, rest) := by
  have hc : leVal (leEnc 4 p.crc) = p.crc := by
    rw [leVal_leEnc, Nat.mod_eq_of_lt]
    rw [h.crc]
    exact (Crc.crc32c _ _).isLt
  have hg : leVal (leEnc 8 p.granule) = p.granule := by rw [leVal_leEnc, Nat.mod_eq_of_lt h.gran]
  have hs : leVal (leEnc 4 p.serial) = p.serial := by rw [leVal_leEnc, Nat.mod_eq_of_lt h.serial]
  have hq : leVal (leEnc 4 p.seq) = p.seq := by rw [leVal_leEnc, Nat.mod_eq_of_lt h.seq]
  have hn : (UInt8.ofNat p.lacing.length).toNat = p.lacing.length := by
    have := h.lacing
    rw [u8n]; omega
  have hb : enc p ++ rest = [0x4f, 0x67, 0x67, 0x53, 0, p.typ] ++ (leEnc 8 p.granule ++ (leEnc 4 p.serial ++ (leEnc 4 p.seq ++ (leEnc 4 p.crc ++
      (UInt8.ofNat p.lacing.length :: (p.lacing ++ (p.body ++ rest))))))) := by
    rw [h.crc]
    simp [enc, pageBytes, head]
  have lg : (leEnc 8 p.granule).length = 8 := leEnc_length _ _
  have ls : (leEnc 4 p.serial).length = 4 := leEnc_length _ _
  have lq : (leEnc 4 p.seq).length = 4 := leEnc_length _ _
  have lc : (leEnc 4 p.crc).length = 4 := leEnc_length _ _
  have hbody := h.body
  have hl := h.lacing
  generalize leEnc 8 p.granule = G at *
  generalize leEnc 4 p.serial = S at *
  generalize leEnc 4 p.seq = Q at *
  generalize leEnc 4 p.crc = C at *
  generalize UInt8.ofNat p.lacing.length = N at *
  have d6 : (enc p ++ rest).drop 6 = G ++ (S ++ (Q ++ (C ++ (N :: (p.lacing ++ (p.body ++ rest)))))) := by rw [hb]; rfl
  have d14 : (enc p ++ rest).drop 14 = S ++ (Q ++ (C ++ (N :: (p.lacing ++ (p.body ++ rest))))) := by
    rw [show 14 = 6 + 8 from rfl, ← List.drop_drop, d6, List.drop_left' lg]
  have d18 : (enc p ++ rest).drop 18 = Q ++ (C ++ (N :: (p.lacing ++ (p.body ++ rest)))) := by
    rw [show 18 = 14 + 4 from rfl, ← List.drop_drop, d14, List.drop_left' ls]
  have d22 : (enc p ++ rest).drop 22 = C ++ (N :: (p.lacing ++ (p.body ++ rest))) := by
    rw [show 22 = 18 + 4 from rfl, ← List.drop_drop, d18, List.drop_left' lq]
  have d26 : (enc p ++ rest).drop 26 = N :: (p.lacing ++ (p.body ++ rest)) := by
    rw [show 26 = 22 + 4 from rfl, ← List.drop_drop, d22, List.drop_left' lc]
  have d27 : (enc p ++ rest).drop 27 = p.lacing ++ (p.body ++ rest) := by
    rw [show 27 = 26 + 1 from rfl, ← List.drop_drop, d26]; rfl
  have d28 : (enc p ++ rest).drop (27 + p.lacing.length) = p.body ++ rest := by
    rw [← List.drop_drop, d27, List.drop_left' rfl]
  have d29 : (enc p ++ rest).drop (27 + p.lacing.length + size p.lacing) = rest := by
    rw [← List.drop_drop, d28, List.drop_left' hbody]
  have hlen : (enc p ++ rest).length = 27 + p.lacing.length + size p.lacing + rest.length := by
    rw [hb]
    simp only [List.length_append, List.length_cons, List.length_nil, lg, ls, lq, lc, hbody]
    omega
  have h5 : (enc p ++ rest).take 5 = [0x4f, 0x67, 0x67, 0x53, 0] := by rw [hb]; rfl
  have h5' : ((enc p ++ rest).drop 5).headD 0 = p.typ := by rw [hb]; rfl
  have e26 : (((enc p ++ rest).drop 26).headD 0).toNat = p.lacing.length := by rw [d26]; exact hn
  have e27 : ((enc p ++ rest).drop 27).take p.lacing.length = p.lacing := by rw [d27, List.take_left' rfl]
  unfold parsePage
  rw [e26, e27, if_neg (by rw [h5]; simp), if_neg (by omega), if_neg (by omega), if_neg (by omega), h5', d6, d14, d18, d22, d28, d29, List.take_left' lg, List.take_left' ls,
    List.take_left' lq, List.take_left' lc, List.take_left' hbody, hg, hs, hq, hc]

theorem enc_length (p : Page) : 27 ≤ (enc p).length := by
  simp only [enc, pageBytes, head, List.length_append, List.length_cons, leEnc_length, List.length_nil]
  omega

theorem parsePages_enc (pages : List Page) (h : ∀ p ∈ pages, Ok p) (n : Nat) (hn : pages.length ≤ n) : parsePages n (pages.map enc).flatten = some pages := by
  induction pages generalizing n with
  | nil => cases n <;> simp [parsePages]
  | cons p pages ih =>
    cases n with
    | zero => simp at hn
    | succ n =>
      simp only [List.length_cons] at hn
      rw [parsePages, if_neg, List.map_cons, List.flatten_cons, parse_enc p (h p (by simp))]
      · simp only []
        rw [ih (fun x hx => h x (by simp [hx])) n (by omega)]
        rfl
      · intro c
        have := congrArg List.length c
        have := enc_length p
        simp only [List.map_cons, List.flatten_cons, List.length_append, List.length_nil] at *
        omega

theorem flatten_long (pages : List Page) : pages.length ≤ (pages.map enc).flatten.length := by
  induction pages with
  | nil => simp
  | cons p pages ih =>
    have := enc_length p
    simp only [List.map_cons, List.flatten_cons, List.length_append, List.length_cons]
    omega

theorem pagesOf_enc (pages : List Page) (h : ∀ p ∈ pages, Ok p) : pagesOf (pages.map enc).flatten = some pages :=
  parsePages_enc pages h _ (flatten_long pages)

end Verif.Ogg
