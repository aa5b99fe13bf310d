import Verif.Dtsc.Packet
import Verif.Dtsc.ScanSpec
import Verif.Json.DtmiLemmas

/-!
# Reading what `pack` writes
-/
namespace Verif.Dtsc
open Spec Verif.Bit Verif.Json

variable {bits : Dbl → Nat}

theorem keyLen_htob (k : Bytes) (_h : k.length < 65536) : keyLen k = htob .s k.length := by
  rw [Ebml.htob_be .s rfl]
  simp only [keyLen, Codec.width, beEnc, Nat.pow_one, Nat.pow_zero, Nat.div_one, List.cons.injEq, and_true, true_and]
  apply UInt8.toNat_inj.mp
  rw [u8n, u8n]
  omega

/-- What a nonempty list of members begins with. -/
structure Head (buf : Bytes) (i : Nat) (k : Bytes) (r : Bytes) : Prop where
  a : buf[i]? = some (UInt8.ofNat (k.length / 256))
  b : buf[i + 1]? = some (UInt8.ofNat (k.length % 256))
  ne : (UInt8.ofNat (k.length / 256)).toNat + (UInt8.ofNat (k.length % 256)).toNat ≠ 0
  len : load .s buf i = some k.length
  name : buf.drop (i + 2) = k ++ r
  rest : buf.drop (i + 2 + k.length) = r

theorem head_of {buf : Bytes} {i : Nat} {k r : Bytes} (h0 : 0 < k.length) (h1 : k.length < 65536)
    (h : buf.drop i = keyLen k ++ (k ++ r)) : Head buf i k r := by
  have d2 := drop_add h
  rw [show (keyLen k).length = 2 from rfl] at d2
  refine ⟨get_drop (by rw [h, keyLen]; rfl), get_drop (drop_one' (b := UInt8.ofNat (k.length / 256)) (by rw [h, keyLen]; rfl)), ?_, ?_, d2, drop_add d2⟩
  · rw [u8n, u8n, Nat.mod_mod, Nat.mod_eq_of_lt (show k.length / 256 < 256 by omega)]
    omega
  · rw [keyLen_htob k h1] at h
    rw [load_be .s rfl k.length h]
    exact congrArg some (Nat.mod_eq_of_lt h1)

theorem pack_members_cons (m : Bytes × JVal) (l : List (Bytes × JVal)) (h : 0 < m.1.length) :
    packMembers bits (m :: l) = keyLen m.1 ++ (m.1 ++ (pack bits m.2 ++ packMembers bits l)) := by
  rw [packMembers, if_pos h]; simp

theorem pack_pos (v : JVal) : 1 ≤ (pack bits v).length := by
  obtain ⟨b, t, hp, _⟩ := pack_head (bits := bits) v
  rw [hp]; simp

/-- `skip` with less than `N` rounds. -/
def SUpto (bits : Dbl → Nat) (N : Nat) : Prop :=
  ∀ n < N, ∀ v buf p max rest, Room v → buf.drop p = pack bits v ++ rest → p + (pack bits v).length < max →
    (pack bits v).length < n → skip n buf p max = .ok (some (p + (pack bits v).length))

theorem elems_skip {N : Nat} (IH : SUpto bits N) (l : List JVal) (hl : RoomElems l) (n : Nat) (hN : n ≤ N) (buf : Bytes)
    (p max : Nat) (rest : Bytes) (h : buf.drop p = packElems bits l ++ 0 :: 0 :: 0xEE :: rest)
    (hi : p + (packElems bits l).length < max) (hn : (packElems bits l).length + 1 < n) :
    skipElems n buf p max = .ok (some (p + (packElems bits l).length + 3)) := by
  induction l generalizing p n with
  | nil =>
    rw [packElems] at *
    simp only [List.nil_append, List.length_nil] at *
    obtain ⟨m, rfl⟩ : ∃ m, n = m + 1 := ⟨n - 1, by omega⟩
    rw [skipElems, get_drop h, get_drop (drop_one' h), if_pos (by omega)]
    simp [R.of, R.bind]
  | cons v l ih =>
    rw [RoomElems] at hl
    rw [packElems] at *
    obtain ⟨b, t, hp, hb0⟩ := pack_head (bits := bits) v
    rw [List.append_assoc] at h
    rw [List.length_append] at *
    have hlen := pack_pos (bits := bits) v
    obtain ⟨m, rfl⟩ : ∃ m, n = m + 1 := ⟨n - 1, by omega⟩
    have h0 : buf[p]? = some b := get_drop (t := t ++ (packElems bits l ++ 0 :: 0 :: 0xEE :: rest)) (by rw [h, hp]; rfl)
    have h1 : ∃ c, buf[p + 1]? = some c := by
      have hl2 := congrArg List.length h
      simp only [List.length_drop, List.length_append, List.length_cons] at hl2
      exact ⟨_, List.getElem?_eq_getElem (by omega)⟩
    obtain ⟨c, h1⟩ := h1
    have hne : b.toNat ≠ 0 := fun e => hb0 (UInt8.toNat_inj.mp e)
    rw [skipElems, h0, h1, if_pos (by omega)]
    simp only [R.of, R.bind]
    rw [if_pos (by omega), IH m (by omega) v buf p max _ hl.1 h (by omega) (by omega)]
    dsimp only
    rw [ih hl.2 m (by omega) (p + (pack bits v).length) (drop_add h) (by omega) (by omega)]
    rw [show p + (pack bits v).length + (packElems bits l).length + 3 = p + ((pack bits v).length + (packElems bits l).length) + 3 by omega]

theorem members_skip {N : Nat} (IH : SUpto bits N) (l : List (Bytes × JVal)) (hl : RoomMembers l) (n : Nat) (hN : n ≤ N)
    (buf : Bytes) (p max : Nat) (rest : Bytes) (h : buf.drop p = packMembers bits l ++ 0 :: 0 :: 0xEE :: rest)
    (hi : p + (packMembers bits l).length < max) (hn : (packMembers bits l).length + 1 < n) :
    skipMembers n buf p max = .ok (some (p + (packMembers bits l).length + 3)) := by
  induction l generalizing p n with
  | nil =>
    rw [packMembers] at *
    simp only [List.nil_append, List.length_nil] at *
    obtain ⟨m, rfl⟩ : ∃ m, n = m + 1 := ⟨n - 1, by omega⟩
    rw [skipMembers, get_drop h, get_drop (drop_one' h), if_pos (by omega)]
    simp [R.of, R.bind]
  | cons m l ih =>
    rw [RoomMembers] at hl
    obtain ⟨hk, hv, hl⟩ := hl
    rw [pack_members_cons m l hk.1] at h hi hn ⊢
    simp only [List.append_assoc] at h
    simp only [List.length_append, show (keyLen m.1).length = 2 from rfl] at hi hn ⊢
    have hlen := pack_pos (bits := bits) m.2
    have hd := head_of hk.1 hk.2 h
    obtain ⟨f, rfl⟩ : ∃ f, n = f + 1 := ⟨n - 1, by omega⟩
    rw [skipMembers, hd.a, hd.b, hd.len, if_pos (by omega)]
    simp only [R.of, R.bind]
    have hrest := hd.rest
    rw [if_pos hd.ne, if_neg (by omega), show p + (2 + m.1.length) = p + 2 + m.1.length by omega,
      IH f (by omega) m.2 buf _ max _ hv hrest (by omega) (by omega)]
    dsimp only
    rw [ih hl f (by omega) _ (drop_add hrest) (by omega) (by omega)]
    rw [show p + 2 + m.1.length + (pack bits m.2).length + (packMembers bits l).length + 3 =
        p + (2 + (m.1.length + ((pack bits m.2).length + (packMembers bits l).length))) + 3 by omega]

theorem supto (N : Nat) : SUpto bits N := by
  have hw : ∀ (c : Codec) x, (htob c x).length = c.width := htob_length
  induction N with
  | zero => intro n hn; omega
  | succ N IH =>
    intro n hn v buf p max rest hv h hi hfuel
    by_cases hlt : n < N
    · exact IH n hlt v buf p max rest hv h hi hfuel
    · obtain ⟨m, rfl⟩ : ∃ m, n = m + 1 := ⟨n - 1, by omega⟩
      have hpos := pack_pos (bits := bits) v
      cases v with
      | dbl d => rw [Room] at hv; exact hv.elim
      | unset =>
        rw [pack] at *
        simp only [List.length_cons, List.length_nil] at *
        rw [skip, if_neg (by omega), get_drop h]
        simp [R.of, R.bind]
      | null =>
        rw [pack] at *
        simp only [List.length_cons, List.length_nil] at *
        rw [skip, if_neg (by omega), get_drop h]
        simp [R.of, R.bind]
      | int k =>
        rw [pack] at *
        simp only [List.length_cons, hw, Codec.width] at h hi ⊢
        rw [skip, if_neg (by omega), get_drop h]
        simp [R.of, R.bind]
      | bool b =>
        rw [pack] at *
        simp only [List.length_cons, hw, Codec.width] at h hi ⊢
        rw [skip, if_neg (by omega), get_drop h]
        simp [R.of, R.bind]
      | str s =>
        rw [pack] at *
        rw [Room] at hv
        simp only [List.length_cons, List.length_append, hw, Codec.width, List.cons_append, List.append_assoc] at h hi ⊢
        rw [skip, if_neg (by omega), get_drop h]
        simp only [R.of, R.bind, show (2 : UInt8) ≠ 0 by decide, show ¬((2 : UInt8) = 1 ∨ (2 : UInt8) = 4) by decide,
          show (2 : UInt8) ≠ 3 by decide, if_false, if_true]
        rw [if_neg (by omega), load_be .l rfl s.length (drop_one' h), show s.length % 256 ^ Codec.l.width = s.length from Nat.mod_eq_of_lt hv]
        dsimp only
        rw [show p + 5 + s.length = p + (4 + s.length + 1) by omega]
      | arr l =>
        rw [Room] at hv
        rw [pack] at *
        simp only [List.length_cons, List.length_append, List.length_nil, List.cons_append, List.append_assoc, List.nil_append] at *
        rw [skip, if_neg (by omega), get_drop h]
        simp only [R.of, R.bind, show (10 : UInt8) ≠ 0 by decide, show ¬((10 : UInt8) = 1 ∨ (10 : UInt8) = 4) by decide,
          show (10 : UInt8) ≠ 3 by decide, show (10 : UInt8) ≠ 2 by decide, show ¬((10 : UInt8) = 0xE0 ∨ (10 : UInt8) = 0xFF) by decide,
          if_false, if_true]
        rw [elems_skip IH l hv m (by omega) buf (p + 1) max rest (drop_one' h) (by omega) (by omega)]
        rw [show p + 1 + (packElems bits l).length + 3 = p + ((packElems bits l).length + (0 + 1 + 1 + 1) + 1) by omega]
      | obj l =>
        rw [Room] at hv
        rw [pack] at *
        simp only [List.length_cons, List.length_append, List.length_nil, List.cons_append, List.append_assoc, List.nil_append] at *
        rw [skip, if_neg (by omega), get_drop h]
        simp only [R.of, R.bind, show (0xE0 : UInt8) ≠ 0 by decide, show ¬((0xE0 : UInt8) = 1 ∨ (0xE0 : UInt8) = 4) by decide,
          show (0xE0 : UInt8) ≠ 3 by decide, show (0xE0 : UInt8) ≠ 2 by decide, true_or, if_false, if_true]
        rw [members_skip IH l hv m (by omega) buf (p + 1) max rest (drop_one' h) (by omega) (by omega)]
        rw [show p + 1 + (packMembers bits l).length + 3 = p + ((packMembers bits l).length + (0 + 1 + 1 + 1) + 1) by omega]

/-- A view of a packed value: the value starts where the view points to, and the view is long enough for it. -/
def Views (bits : Dbl → Nat) (buf : Bytes) (s : Scan) (v : JVal) : Prop :=
  ∃ p len rest, s = some (p, len) ∧ buf.drop p = pack bits v ++ rest ∧ (pack bits v).length ≤ len

/-- A view of a value that may be missing. -/
def ViewsOpt (bits : Dbl → Nat) (buf : Bytes) (s : Scan) : Option JVal → Prop
  | none => s = none
  | some v => Views bits buf s v

theorem same_name (buf name k r : Bytes) (i : Nat) (h : buf.drop i = k ++ r) (hl : name.length = k.length) (h0 : (0 : UInt8) ∉ name) :
    sameName buf name i = .ok (decide (k = name)) := by
  induction name generalizing k i with
  | nil =>
    have : k = [] := List.length_eq_zero_iff.mp hl.symm
    rw [this]; rfl
  | cons c t ih =>
    match k, hl with
    | b :: k, hl =>
      rw [sameName, get_drop h]
      simp only [R.of, R.bind]
      have hc : c ≠ 0 := fun e => h0 (by rw [e]; simp)
      by_cases hb : b = c
      · rw [if_pos hb, if_neg hc, ih k (i + 1) (drop_one' h) (by simpa using hl) (fun hm => h0 (by simp [hm]))]
        simp [hb]
      · rw [if_neg hb]
        simp [hb]

theorem member_loop (l : List (Bytes × JVal)) (hl : RoomMembers l) (buf name : Bytes) (h0 : (0 : UInt8) ∉ name) (p len n i : Nat) (rest : Bytes)
    (h : buf.drop i = packMembers bits l ++ 0 :: 0 :: 0xEE :: rest) (hp : p ≤ i) (hi : i + (packMembers bits l).length + 3 ≤ p + len)
    (hn : (packMembers bits l).length + 1 < n) :
    ∃ s, memberLoop buf name p len n i = .ok s ∧ ViewsOpt bits buf s (l.lookup name) := by
  induction l generalizing i n with
  | nil =>
    rw [packMembers] at *
    simp only [List.nil_append] at *
    obtain ⟨m, rfl⟩ : ∃ m, n = m + 1 := ⟨n - 1, by omega⟩
    refine ⟨none, ?_, rfl⟩
    rw [memberLoop, get_drop h, get_drop (drop_one' h)]
    simp [R.of, R.bind]
  | cons m l ih =>
    rw [RoomMembers] at hl
    obtain ⟨hk, hv, hl⟩ := hl
    rw [pack_members_cons m l hk.1] at h hi hn
    simp only [List.append_assoc] at h
    simp only [List.length_append, show (keyLen m.1).length = 2 from rfl] at hi hn
    have hlen := pack_pos (bits := bits) m.2
    have hd := head_of hk.1 hk.2 h
    obtain ⟨f, rfl⟩ : ∃ f, n = f + 1 := ⟨n - 1, by omega⟩
    rw [memberLoop, hd.a, hd.b, hd.len]
    simp only [R.of, R.bind]
    rw [if_pos ⟨hd.ne, by omega⟩, if_neg (by omega)]
    have hs : (if name.length = m.1.length then sameName buf name (i + 2) else R.ok false) = .ok (decide (m.1 = name)) := by
      by_cases e : name.length = m.1.length
      · rw [if_pos e, same_name buf name m.1 _ (i + 2) hd.name e h0]
      · rw [if_neg e, decide_eq_false (fun x => e (by rw [x]))]
    rw [hs]
    dsimp only
    by_cases e : m.1 = name
    · rw [if_pos (by simpa using e)]
      refine ⟨_, rfl, ?_⟩
      rw [List.lookup_cons, show (name == m.1) = true by simp [e]]
      exact ⟨_, _, _, rfl, hd.rest, by omega⟩
    · rw [if_neg (by simpa using e), supto (f + 1) f (by omega) m.2 buf _ _ _ hv hd.rest (by omega) (by omega)]
      dsimp only
      rw [List.lookup_cons, show (name == m.1) = false by simpa using fun x => e x.symm]
      exact ih hl f _ (drop_add hd.rest) (by omega) (by omega) (by omega)

theorem size_members (l : List (Bytes × JVal)) (hl : RoomMembers l) (buf : Bytes) (p len n i c : Nat) (rest : Bytes)
    (h : buf.drop i = packMembers bits l ++ 0 :: 0 :: 0xEE :: rest) (hi : i + (packMembers bits l).length + 3 ≤ p + len)
    (hn : (packMembers bits l).length + 1 < n) : sizeLoop buf true p len n i c = .ok (c + l.length) := by
  induction l generalizing i n c with
  | nil =>
    rw [packMembers] at *
    simp only [List.nil_append] at *
    obtain ⟨m, rfl⟩ : ∃ m, n = m + 1 := ⟨n - 1, by omega⟩
    rw [sizeLoop, get_drop h, get_drop (drop_one' h)]
    simp [R.of, R.bind]
  | cons m l ih =>
    rw [RoomMembers] at hl
    obtain ⟨hk, hv, hl⟩ := hl
    rw [pack_members_cons m l hk.1] at h hi hn
    simp only [List.append_assoc] at h
    simp only [List.length_append, show (keyLen m.1).length = 2 from rfl] at hi hn
    have hlen := pack_pos (bits := bits) m.2
    have hd := head_of hk.1 hk.2 h
    obtain ⟨f, rfl⟩ : ∃ f, n = f + 1 := ⟨n - 1, by omega⟩
    rw [sizeLoop, hd.a, hd.b, hd.len]
    simp only [R.of, R.bind]
    rw [if_pos ⟨hd.ne, by omega⟩, if_neg (by omega)]
    simp only [if_true]
    rw [supto (f + 1) f (by omega) m.2 buf _ _ _ hv hd.rest (by omega) (by omega)]
    dsimp only
    rw [ih hl f _ _ (drop_add hd.rest) (by omega) (by omega), List.length_cons]
    exact congrArg R.ok (by omega)

theorem size_elems (l : List JVal) (hl : RoomElems l) (buf : Bytes) (p len n i c : Nat) (rest : Bytes)
    (h : buf.drop i = packElems bits l ++ 0 :: 0 :: 0xEE :: rest) (hi : i + (packElems bits l).length + 3 ≤ p + len)
    (hn : (packElems bits l).length + 1 < n) : sizeLoop buf false p len n i c = .ok (c + l.length) := by
  induction l generalizing i n c with
  | nil =>
    rw [packElems] at *
    simp only [List.nil_append] at *
    obtain ⟨m, rfl⟩ : ∃ m, n = m + 1 := ⟨n - 1, by omega⟩
    rw [sizeLoop, get_drop h, get_drop (drop_one' h)]
    simp [R.of, R.bind]
  | cons v l ih =>
    rw [RoomElems] at hl
    rw [packElems] at *
    obtain ⟨b, t, hp, hb0⟩ := pack_head (bits := bits) v
    rw [List.append_assoc] at h
    rw [List.length_append] at *
    have hlen := pack_pos (bits := bits) v
    obtain ⟨m, rfl⟩ : ∃ m, n = m + 1 := ⟨n - 1, by omega⟩
    have h0 : buf[i]? = some b := get_drop (t := t ++ (packElems bits l ++ 0 :: 0 :: 0xEE :: rest)) (by rw [h, hp]; rfl)
    have h1 : ∃ c, buf[i + 1]? = some c := by
      have hl2 := congrArg List.length h
      simp only [List.length_drop, List.length_append, List.length_cons] at hl2
      exact ⟨_, List.getElem?_eq_getElem (by omega)⟩
    obtain ⟨x, h1⟩ := h1
    have hne : b.toNat ≠ 0 := fun e => hb0 (UInt8.toNat_inj.mp e)
    rw [sizeLoop, h0, h1]
    simp only [R.of, R.bind]
    rw [if_pos ⟨by omega, by omega⟩, if_neg (by simp)]
    simp only [Bool.false_eq_true, if_false]
    rw [supto (m + 1) m (by omega) v buf _ _ _ hl.1 h (by omega) (by omega)]
    dsimp only
    rw [ih hl.2 m _ _ (drop_add h) (by omega) (by omega), List.length_cons]
    exact congrArg R.ok (by omega)

/-- The view and the name that `getIndice` gives. -/
def ViewsAt (bits : Dbl → Nat) (buf : Bytes) (s : Option (Bytes × Nat × Nat)) : Option (Bytes × JVal) → Prop
  | none => s = none
  | some m => ∃ q, s = some (m.1, q) ∧ Views bits buf (some q) m.2

theorem index_members (l : List (Bytes × JVal)) (hl : RoomMembers l) (buf : Bytes) (p len n i num : Nat) (rest : Bytes)
    (h : buf.drop i = packMembers bits l ++ 0 :: 0 :: 0xEE :: rest) (hp : p ≤ i) (hi : i + (packMembers bits l).length + 3 ≤ p + len)
    (hn : (packMembers bits l).length + 1 < n) :
    ∃ s, indexLoop buf true p len n i num = .ok s ∧ ViewsAt bits buf s l[num]? := by
  induction l generalizing i n num with
  | nil =>
    rw [packMembers] at *
    simp only [List.nil_append] at *
    obtain ⟨m, rfl⟩ : ∃ m, n = m + 1 := ⟨n - 1, by omega⟩
    refine ⟨none, ?_, rfl⟩
    rw [indexLoop, get_drop h, get_drop (drop_one' h)]
    simp [R.of, R.bind]
  | cons m l ih =>
    rw [RoomMembers] at hl
    obtain ⟨hk, hv, hl⟩ := hl
    rw [pack_members_cons m l hk.1] at h hi hn
    simp only [List.append_assoc] at h
    simp only [List.length_append, show (keyLen m.1).length = 2 from rfl] at hi hn
    have hlen := pack_pos (bits := bits) m.2
    have hd := head_of hk.1 hk.2 h
    obtain ⟨f, rfl⟩ : ∃ f, n = f + 1 := ⟨n - 1, by omega⟩
    rw [indexLoop, hd.a, hd.b, hd.len]
    simp only [R.of, R.bind]
    rw [if_pos ⟨hd.ne, by omega⟩, if_neg (by omega)]
    simp only [if_true]
    cases num with
    | zero =>
      have hl2 := congrArg List.length h
      simp only [List.length_drop, List.length_append, List.length_cons, show (keyLen m.1).length = 2 from rfl] at hl2
      rw [if_pos rfl, sub_eq hd.name (by omega)]
      dsimp only
      exact ⟨_, rfl, _, rfl, _, _, _, rfl, hd.rest, by omega⟩
    | succ k =>
      rw [if_neg (by omega), supto (f + 1) f (by omega) m.2 buf _ _ _ hv hd.rest (by omega) (by omega)]
      dsimp only
      rw [List.getElem?_cons_succ]
      exact ih hl f _ k (drop_add hd.rest) (by omega) (by omega) (by omega)

theorem index_elems (l : List JVal) (hl : RoomElems l) (buf : Bytes) (p len n i num : Nat) (rest : Bytes)
    (h : buf.drop i = packElems bits l ++ 0 :: 0 :: 0xEE :: rest) (hp : p ≤ i) (hi : i + (packElems bits l).length + 3 ≤ p + len)
    (hn : (packElems bits l).length + 1 < n) :
    ∃ s, indexLoop buf false p len n i num = .ok s ∧ ViewsAt bits buf s (l[num]?.map fun x => ([], x)) := by
  induction l generalizing i n num with
  | nil =>
    rw [packElems] at *
    simp only [List.nil_append] at *
    obtain ⟨m, rfl⟩ : ∃ m, n = m + 1 := ⟨n - 1, by omega⟩
    refine ⟨none, ?_, rfl⟩
    rw [indexLoop, get_drop h, get_drop (drop_one' h)]
    simp [R.of, R.bind]
  | cons v l ih =>
    rw [RoomElems] at hl
    rw [packElems] at *
    obtain ⟨b, t, hpk, hb0⟩ := pack_head (bits := bits) v
    rw [List.append_assoc] at h
    rw [List.length_append] at *
    have hlen := pack_pos (bits := bits) v
    obtain ⟨m, rfl⟩ : ∃ m, n = m + 1 := ⟨n - 1, by omega⟩
    have h0 : buf[i]? = some b := get_drop (t := t ++ (packElems bits l ++ 0 :: 0 :: 0xEE :: rest)) (by rw [h, hpk]; rfl)
    have hl2 := congrArg List.length h
    simp only [List.length_drop, List.length_append, List.length_cons] at hl2
    have h1 : ∃ c, buf[i + 1]? = some c := ⟨_, List.getElem?_eq_getElem (by omega)⟩
    obtain ⟨x, h1⟩ := h1
    have hne : b.toNat ≠ 0 := fun e => hb0 (UInt8.toNat_inj.mp e)
    rw [indexLoop, h0, h1]
    simp only [R.of, R.bind]
    rw [if_pos ⟨by omega, by omega⟩, if_neg (by simp)]
    simp only [Bool.false_eq_true, if_false]
    cases num with
    | zero =>
      rw [if_pos rfl, sub, if_pos (by omega)]
      simp only [List.take_zero]
      exact ⟨_, rfl, _, rfl, _, _, _, rfl, h, by show (pack bits v).length ≤ _; omega⟩
    | succ k =>
      rw [if_neg (by omega), Nat.add_zero, supto (m + 1) m (by omega) v buf _ _ _ hl.1 h (by omega) (by omega)]
      dsimp only
      rw [List.getElem?_cons_succ]
      exact ih hl.2 m _ k (drop_add h) (by omega) (by omega) (by omega)

theorem type_view {buf : Bytes} {p len : Nat} {v : JVal} {rest : Bytes} (h : buf.drop p = pack bits v ++ rest) :
    ∃ b t, pack bits v = b :: t ∧ getType buf (some (p, len)) = .ok b := by
  obtain ⟨b, t, hp, _⟩ := pack_head (bits := bits) v
  refine ⟨b, t, hp, ?_⟩
  rw [hp] at h
  rw [getType, get_drop h]
  rfl

end Verif.Dtsc
