import Verif.Psi.Spec

namespace Verif.Psi
open Verif

theorem put_mid (P x r l : Bytes) (h : x.length = l.length) (i : Nat) (hi : i = P.length) : put (P ++ (x ++ r)) i l = some (P ++ (l ++ r)) := by
  subst hi
  unfold put
  rw [if_pos (by simp only [List.length_append]; omega)]
  have h1 : (P ++ (x ++ r)).take P.length = P := by simp
  have h2 : (P ++ (x ++ r)).drop (P.length + l.length) = r := by
    rw [← h, ← List.drop_drop]; simp
  rw [h1, h2]; simp

theorem cut {r : Bytes} {n : Nat} (h : n ≤ r.length) : ∃ x y, r = x ++ y ∧ x.length = n := ⟨r.take n, r.drop n, (List.take_append_drop n r).symm, by rw [List.length_take]; omega⟩

/-- The bytes of an entry. -/
def entryBytes (y : UInt8) (t : Track) : Bytes := y :: (twoE (pidOf t) ++ (twoF (esInfo t).length ++ esInfo t))

theorem entryBytes_length (y : UInt8) (t : Track) : (entryBytes y t).length = 5 + (esInfo t).length := by simp [entryBytes, twoE, twoF]; omega

theorem setInfo_eq (P x r : Bytes) (a b c : UInt8) (info : Bytes) (hx : x.length = 2 + info.length) (i : Nat) (hi : i = P.length) :
    setInfo (P ++ (a :: b :: c :: (x ++ r))) i info = some (P ++ (a :: b :: c :: (twoF info.length ++ (info ++ r)))) := by
  subst hi
  obtain ⟨x1, x2, rfl, h1⟩ := cut (r := x) (n := 2) (by omega)
  have h2 : x2.length = info.length := by rw [List.length_append] at hx; omega
  unfold setInfo
  have e1 : P ++ (a :: b :: c :: (x1 ++ x2 ++ r)) = (P ++ [a, b, c]) ++ (x1 ++ (x2 ++ r)) := by simp
  rw [e1, put_mid _ _ _ _ (by rw [h1]; rfl) _ (by simp)]
  show put _ _ _ = _
  have e2 : P ++ [a, b, c] ++ (twoF info.length ++ (x2 ++ r)) = (P ++ ([a, b, c] ++ twoF info.length)) ++ (x2 ++ r) := by simp
  rw [e2, put_mid _ _ _ _ h2 _ (by simp [twoF])]
  simp

theorem entry_eq (P x r : Bytes) (t : Track) (y : UInt8) (hy : typeOf t = some y) (hn : ¬(t.codec = "ID3" ∨ t.codec = "RAW")) (hx : x.length = 5 + (esInfo t).length) (i : Nat) (hi : i = P.length) :
    entry (P ++ (x ++ r)) i t = some (P ++ (entryBytes y t ++ r)) := by
  subst hi
  obtain ⟨a, b, c, x', rfl⟩ : ∃ a b c x', x = a :: b :: c :: x' := by
    match x, hx with
    | a :: b :: c :: x', _ => exact ⟨a, b, c, x', rfl⟩
    | [], h => simp at h; omega
    | [_], h => simp at h; omega
    | [_, _], h => simp at h; omega
  unfold entry
  have e1 : P ++ (a :: b :: c :: x' ++ r) = (P ++ [a]) ++ ([b, c] ++ (x' ++ r)) := by simp
  rw [e1, put_mid _ _ _ _ (by rfl) _ (by simp)]
  have e2 : P ++ [a] ++ (twoE (pidOf t) ++ (x' ++ r)) = P ++ ([a] ++ (twoE (pidOf t) ++ (x' ++ r))) := by simp
  have e3 : setType (P ++ ([a] ++ (twoE (pidOf t) ++ (x' ++ r)))) P.length t = some (P ++ ([y] ++ (twoE (pidOf t) ++ (x' ++ r)))) := by
    unfold setType
    rw [hy]
    exact put_mid P [a] _ [y] rfl _ rfl
  have e4 : setInit (P ++ ([y] ++ (twoE (pidOf t) ++ (x' ++ r)))) P.length t = some (P ++ ([y] ++ (twoE (pidOf t) ++ (x' ++ r)))) := if_neg hn
  rw [Option.bind_some, e2, e3, Option.bind_some, e4, Option.bind_some]
  show setInfo (P ++ (y :: (UInt8.ofNat (pidOf t / 256 % 32 + 0xe0) :: (UInt8.ofNat (pidOf t) :: (x' ++ r))))) P.length (esInfo t) = _
  rw [setInfo_eq P x' r _ _ _ _ (by simp at hx; omega) _ rfl]
  simp [entryBytes, twoE, twoF]

theorem at_append (P r : Bytes) (k i : Nat) (h : i = P.length + k) : at' (P ++ r) i = at' r k := by
  subst h
  unfold at'
  rw [List.getD_eq_getElem?_getD, List.getD_eq_getElem?_getD, List.getElem?_append_right (by omega), Nat.add_sub_cancel_left]

/-- The length of the information of an entry, as it is read again. -/
theorem entry_len (P r : Bytes) (t : Track) (y : UInt8) (h : (esInfo t).length < 4096) (i : Nat) (hi : i = P.length) :
    (at' (P ++ (entryBytes y t ++ r)) (i + 3)).toNat % 16 * 256 + (at' (P ++ (entryBytes y t ++ r)) (i + 4)).toNat = (esInfo t).length := by
  rw [at_append P _ 3 _ (by omega), at_append P _ 4 _ (by omega)]
  have e1 : at' (entryBytes y t ++ r) 3 = UInt8.ofNat ((esInfo t).length / 256 % 16 + 0xf0) := rfl
  have e2 : at' (entryBytes y t ++ r) 4 = UInt8.ofNat (esInfo t).length := rfl
  rw [e1, e2, u8n, u8n]
  omega

/-- A track whose codec has a type. -/
def Good (t : Track) : Prop := (∃ y, typeOf t = some y) ∧ ¬(t.codec = "ID3" ∨ t.codec = "RAW") ∧ (esInfo t).length < 4096

/-- The entry of a track. -/
def bytesOf (t : Track) : Bytes := entryBytes ((typeOf t).getD 0) t

theorem bytesOf_length (t : Track) : (bytesOf t).length = 5 + (esInfo t).length := entryBytes_length _ _

theorem entries_eq (ts : List Track) (P r : Bytes) (hg : ∀ t ∈ ts, Good t) (hr : (ts.flatMap bytesOf).length ≤ r.length) (i stop : Nat) (hi : i = P.length) (hs : stop = i + (ts.flatMap bytesOf).length) :
    entries (P ++ r) i stop ts = some (P ++ (ts.flatMap bytesOf ++ r.drop (ts.flatMap bytesOf).length)) := by
  induction ts generalizing P r i with
  | nil => simp [entries]
  | cons t ts ih =>
    obtain ⟨⟨y, hy⟩, hn, hl⟩ := hg t (by simp)
    have hb : bytesOf t = entryBytes y t := by simp [bytesOf, hy]
    rw [List.flatMap_cons, List.length_append, bytesOf_length] at hr
    obtain ⟨x, r', rfl, hx⟩ := cut (r := r) (n := 5 + (esInfo t).length) (by omega)
    rw [entries, entry_eq P x r' t y hy hn hx i hi]
    have ha : advance (P ++ (entryBytes y t ++ r')) i stop = i + (bytesOf t).length := by
      unfold advance
      rw [if_pos (by rw [hs, List.flatMap_cons, List.length_append, bytesOf_length]; omega)]
      have := entry_len P r' t y hl i hi
      rw [this, bytesOf_length, Nat.add_assoc]
    simp only [ha]
    have e : P ++ (entryBytes y t ++ r') = (P ++ bytesOf t) ++ r' := by rw [hb]; simp
    rw [e, ih (P ++ bytesOf t) r' (fun u hu => hg u (by simp [hu])) (by rw [List.length_append] at hr; omega) _ (by rw [List.length_append, hi]) (by
      rw [hs, List.flatMap_cons, List.length_append]; omega)]
    have e2 : (x ++ r').drop (bytesOf t ++ ts.flatMap bytesOf).length = r'.drop (ts.flatMap bytesOf).length := by
      rw [List.length_append, bytesOf_length, ← hx, ← List.drop_drop]; simp
    rw [List.flatMap_cons, e2]; simp

/-! ## The header -/

/-- The packet of the table, whatever was in it. -/
def Buf (b : Bytes) : Prop := b.length = 188 ∧ at' b 0 = 0x47 ∧ at' b 1 = 0x50 ∧ (at' b 3).toNat / 16 = 1 ∧ at' b 4 = 0

/-- Information about the program. -/
def progInfo (ts : List Track) : Bytes := if ts.any (·.codec = "SCTE35") then [5, 4, 0x43, 0x55, 0x45, 0x49] else []

/-- The first 17 bytes. -/
def front (ts : List Track) (cc : Nat) (v : UInt8) : Bytes :=
  [0x47, 0x50, 0, UInt8.ofNat (16 + cc % 16), 0, 2] ++ two (0xb00d + (ts.map addedLen).sum) ++ [0, 1, v, 0, 0] ++ twoE (clock ts) ++ twoF (progInfo ts).length

theorem front_length (ts : List Track) (cc : Nat) (v : UInt8) : (front ts cc v).length = 17 := rfl

theorem ver_ok : ∀ n < 256, (1 ||| ((UInt8.ofNat (0 % 32 * 2) ||| (UInt8.ofNat n &&& 0xc1)) &&& 0xfe)).toNat / 2 % 32 = 0 ∧
    (1 ||| ((UInt8.ofNat (0 % 32 * 2) ||| (UInt8.ofNat n &&& 0xc1)) &&& 0xfe)).toNat % 2 = 1 := by decide +kernel

theorem setPid_eq {b2 b3 b4 b5 b6 b7 b8 b9 b10 b11 b12 b13 b14 b15 b16 : UInt8} (q : Bytes) : setPid ([0x47, 0x50, b2, b3, b4, b5, b6, b7, b8, b9, b10, b11, b12, b13, b14, b15, b16] ++ q) 4096 =
    some ([0x47, 0x50, 0, b3, b4, b5, b6, b7, b8, b9, b10, b11, b12, b13, b14, b15, b16] ++ q) := by
  have h : at' (([0x47, 0x50, b2, b3, b4, b5, b6, b7, b8, b9, b10, b11, b12, b13, b14, b15, b16] : Bytes) ++ q) 1 = 0x50 := rfl
  have h2 : [UInt8.ofNat ((0x50 : UInt8).toNat / 32 * 32 + 4096 % 8192 / 256), UInt8.ofNat 4096] = ([0x50, 0] : Bytes) := by decide
  unfold setPid
  rw [h, h2]
  exact put_mid [0x47] [0x50, b2] ([b3, b4, b5, b6, b7, b8, b9, b10, b11, b12, b13, b14, b15, b16] ++ q) [0x50, 0] rfl 1 rfl

theorem setTable_eq {b0 b1 b2 b3 b5 b6 b7 b8 b9 b10 b11 b12 b13 b14 b15 b16 : UInt8} (q : Bytes) (y : UInt8) : setTable ([b0, b1, b2, b3, 0, b5, b6, b7, b8, b9, b10, b11, b12, b13, b14, b15, b16] ++ q) y = some ([b0, b1, b2, b3, 0, y, b6, b7, b8, b9, b10, b11, b12, b13, b14, b15, b16] ++ q) :=
  put_mid [b0, b1, b2, b3, 0] [b5] ([b6, b7, b8, b9, b10, b11, b12, b13, b14, b15, b16] ++ q) [y] rfl 5 rfl

theorem setLen_eq {b0 b1 b2 b3 b5 b6 b7 b8 b9 b10 b11 b12 b13 b14 b15 b16 : UInt8} (q : Bytes) (n : Nat) : setLen ([b0, b1, b2, b3, 0, b5, b6, b7, b8, b9, b10, b11, b12, b13, b14, b15, b16] ++ q) n = some ([b0, b1, b2, b3, 0, b5, UInt8.ofNat (n / 256), UInt8.ofNat n, b8, b9, b10, b11, b12, b13, b14, b15, b16] ++ q) :=
  put_mid [b0, b1, b2, b3, 0, b5] [b6, b7] ([b8, b9, b10, b11, b12, b13, b14, b15, b16] ++ q) [UInt8.ofNat (n / 256), UInt8.ofNat n] rfl 6 rfl

theorem setProgram_eq {b0 b1 b2 b3 b5 b6 b7 b8 b9 b10 b11 b12 b13 b14 b15 b16 : UInt8} (q : Bytes) (n : Nat) : setProgram ([b0, b1, b2, b3, 0, b5, b6, b7, b8, b9, b10, b11, b12, b13, b14, b15, b16] ++ q) n = some ([b0, b1, b2, b3, 0, b5, b6, b7, UInt8.ofNat (n / 256), UInt8.ofNat n, b10, b11, b12, b13, b14, b15, b16] ++ q) :=
  put_mid [b0, b1, b2, b3, 0, b5, b6, b7] [b8, b9] ([b10, b11, b12, b13, b14, b15, b16] ++ q) [UInt8.ofNat (n / 256), UInt8.ofNat n] rfl 8 rfl

theorem setVersion_eq {b0 b1 b2 b3 b5 b6 b7 b8 b9 b10 b11 b12 b13 b14 b15 b16 : UInt8} (q : Bytes) (n : Nat) : setVersion ([b0, b1, b2, b3, 0, b5, b6, b7, b8, b9, b10, b11, b12, b13, b14, b15, b16] ++ q) n = some ([b0, b1, b2, b3, 0, b5, b6, b7, b8, b9, UInt8.ofNat (n % 32 * 2) ||| (b10 &&& 0xc1), b11, b12, b13, b14, b15, b16] ++ q) :=
  put_mid [b0, b1, b2, b3, 0, b5, b6, b7, b8, b9] [b10] ([b11, b12, b13, b14, b15, b16] ++ q) [UInt8.ofNat (n % 32 * 2) ||| (b10 &&& 0xc1)] rfl 10 rfl

theorem setCurrent_eq {b0 b1 b2 b3 b5 b6 b7 b8 b9 b10 b11 b12 b13 b14 b15 b16 : UInt8} (q : Bytes) : setCurrent ([b0, b1, b2, b3, 0, b5, b6, b7, b8, b9, b10, b11, b12, b13, b14, b15, b16] ++ q) = some ([b0, b1, b2, b3, 0, b5, b6, b7, b8, b9, 1 ||| (b10 &&& 0xfe), b11, b12, b13, b14, b15, b16] ++ q) :=
  put_mid [b0, b1, b2, b3, 0, b5, b6, b7, b8, b9] [b10] ([b11, b12, b13, b14, b15, b16] ++ q) [1 ||| (b10 &&& 0xfe)] rfl 10 rfl

theorem setSec1 {b0 b1 b2 b3 b5 b6 b7 b8 b9 b10 b11 b12 b13 b14 b15 b16 : UInt8} (q : Bytes) : put ([b0, b1, b2, b3, 0, b5, b6, b7, b8, b9, b10, b11, b12, b13, b14, b15, b16] ++ q) (base ([b0, b1, b2, b3, 0, b5, b6, b7, b8, b9, b10, b11, b12, b13, b14, b15, b16] ++ q) + 7) [0] = some ([b0, b1, b2, b3, 0, b5, b6, b7, b8, b9, b10, 0, b12, b13, b14, b15, b16] ++ q) :=
  put_mid [b0, b1, b2, b3, 0, b5, b6, b7, b8, b9, b10] [b11] ([b12, b13, b14, b15, b16] ++ q) [0] rfl 11 rfl

theorem setSec2 {b0 b1 b2 b3 b5 b6 b7 b8 b9 b10 b11 b12 b13 b14 b15 b16 : UInt8} (q : Bytes) : put ([b0, b1, b2, b3, 0, b5, b6, b7, b8, b9, b10, b11, b12, b13, b14, b15, b16] ++ q) (base ([b0, b1, b2, b3, 0, b5, b6, b7, b8, b9, b10, b11, b12, b13, b14, b15, b16] ++ q) + 8) [0] = some ([b0, b1, b2, b3, 0, b5, b6, b7, b8, b9, b10, b11, 0, b13, b14, b15, b16] ++ q) :=
  put_mid [b0, b1, b2, b3, 0, b5, b6, b7, b8, b9, b10, b11] [b12] ([b13, b14, b15, b16] ++ q) [0] rfl 12 rfl

theorem setCc_eq {b0 b1 b2 b3 b5 b6 b7 b8 b9 b10 b11 b12 b13 b14 b15 b16 : UInt8} (q : Bytes) (cc : Nat) : setCc ([b0, b1, b2, b3, 0, b5, b6, b7, b8, b9, b10, b11, b12, b13, b14, b15, b16] ++ q) cc = some ([b0, b1, b2, UInt8.ofNat (b3.toNat / 16 * 16 + cc % 16), 0, b5, b6, b7, b8, b9, b10, b11, b12, b13, b14, b15, b16] ++ q) :=
  put_mid [b0, b1, b2] [b3] ([0, b5, b6, b7, b8, b9, b10, b11, b12, b13, b14, b15, b16] ++ q) [UInt8.ofNat (b3.toNat / 16 * 16 + cc % 16)] rfl 3 rfl

theorem setPcr_eq {b0 b1 b2 b3 b5 b6 b7 b8 b9 b10 b11 b12 b13 b14 b15 b16 : UInt8} (q : Bytes) (n : Nat) : setPcr ([b0, b1, b2, b3, 0, b5, b6, b7, b8, b9, b10, b11, b12, b13, b14, b15, b16] ++ q) n = some ([b0, b1, b2, b3, 0, b5, b6, b7, b8, b9, b10, b11, b12, UInt8.ofNat (n / 256 % 32 + 0xe0), UInt8.ofNat n, b15, b16] ++ q) :=
  put_mid [b0, b1, b2, b3, 0, b5, b6, b7, b8, b9, b10, b11, b12] [b13, b14] ([b15, b16] ++ q) [UInt8.ofNat (n / 256 % 32 + 0xe0), UInt8.ofNat n] rfl 13 rfl

theorem setProg1 {b0 b1 b2 b3 b5 b6 b7 b8 b9 b10 b11 b12 b13 b14 b15 b16 : UInt8} (q : Bytes) (n : Nat) : put ([b0, b1, b2, b3, 0, b5, b6, b7, b8, b9, b10, b11, b12, b13, b14, b15, b16] ++ q) (base ([b0, b1, b2, b3, 0, b5, b6, b7, b8, b9, b10, b11, b12, b13, b14, b15, b16] ++ q) + 11) (twoF n) = some ([b0, b1, b2, b3, 0, b5, b6, b7, b8, b9, b10, b11, b12, b13, b14, UInt8.ofNat (n / 256 % 16 + 0xf0), UInt8.ofNat n] ++ q) :=
  put_mid [b0, b1, b2, b3, 0, b5, b6, b7, b8, b9, b10, b11, b12, b13, b14] [b15, b16] ([] ++ q) [UInt8.ofNat (n / 256 % 16 + 0xf0), UInt8.ofNat n] rfl 15 rfl

theorem setSections_eq {b0 b1 b2 b3 b5 b6 b7 b8 b9 b10 b11 b12 b13 b14 b15 b16 : UInt8} (q : Bytes) : setSections ([b0, b1, b2, b3, 0, b5, b6, b7, b8, b9, b10, b11, b12, b13, b14, b15, b16] ++ q) = some ([b0, b1, b2, b3, 0, b5, b6, b7, b8, b9, b10, 0, 0, b13, b14, b15, b16] ++ q) := by
  unfold setSections
  rw [setSec1, Option.bind_some, setSec2]

theorem setProg_eq {b0 b1 b2 b3 b5 b6 b7 b8 b9 b10 b11 b12 b13 b14 b15 b16 : UInt8} (x r info : Bytes) (h : x.length = info.length) : setProg ([b0, b1, b2, b3, 0, b5, b6, b7, b8, b9, b10, b11, b12, b13, b14, b15, b16] ++ (x ++ r)) info =
    some ([b0, b1, b2, b3, 0, b5, b6, b7, b8, b9, b10, b11, b12, b13, b14, UInt8.ofNat (info.length / 256 % 16 + 0xf0), UInt8.ofNat info.length] ++ (info ++ r)) := by
  unfold setProg
  rw [setProg1, Option.bind_some]
  exact put_mid _ _ _ _ h _ rfl

theorem header_eq (b : Bytes) (hb : Buf b) (ts : List Track) (cc : Nat) :
    ∃ v r, header b ts cc = some (front ts cc v ++ (progInfo ts ++ r)) ∧ v.toNat / 2 % 32 = 0 ∧ v.toNat % 2 = 1 ∧ (progInfo ts).length + r.length = 171 := by
  obtain ⟨hl, h0, h1, h3, h4⟩ := hb
  obtain ⟨x, r, rfl, hx⟩ := cut (r := b) (n := 17) (by omega)
  match x, hx with
  | [b0, b1, b2, b3, b4, b5, b6, b7, b8, b9, b10, b11, b12, b13, b14, b15, b16], _ =>
    have e0 : b0 = 0x47 := h0
    have e1 : b1 = 0x50 := h1
    have e4 : b4 = 0 := h4
    have e3 : b3.toNat / 16 = 1 := h3
    subst e0 e1 e4
    have hr : r.length = 171 := by simp at hl; omega
    have hp : (progInfo ts).length ≤ 171 := by unfold progInfo; split <;> simp
    obtain ⟨z, r', rfl, hz⟩ := cut (r := r) (n := (progInfo ts).length) (by omega)
    refine ⟨1 ||| ((UInt8.ofNat (0 % 32 * 2) ||| (b10 &&& 0xc1)) &&& 0xfe), r', ?_, ?_, ?_, by rw [List.length_append] at hr; omega⟩
    · unfold header
      have e3' : b3.toNat / 16 * 16 + cc % 16 = 16 + cc % 16 := by rw [e3]
      rw [setPid_eq, Option.bind_some, setTable_eq, Option.bind_some, setLen_eq, Option.bind_some, setProgram_eq, Option.bind_some, setVersion_eq, Option.bind_some, setCurrent_eq,
        Option.bind_some, setSections_eq, Option.bind_some, setCc_eq, Option.bind_some, setPcr_eq, Option.bind_some, e3']
      exact setProg_eq z r' (progInfo ts) hz
    · have := ver_ok b10.toNat (UInt8.toNat_lt _)
      rw [UInt8.ofNat_toNat] at this
      exact this.1
    · have := ver_ok b10.toNat (UInt8.toNat_lt _)
      rw [UInt8.ofNat_toNat] at this
      exact this.2

end Verif.Psi
