import Verif.Json.Dtmi
import Verif.Json.DtmiSpec
import Verif.Json.ParseLemmas
import Verif.Ebml.Lemmas

/-!
# Decoding what `pack` writes
-/
namespace Verif.Json
open Spec Verif.Bit

variable {bits : Dbl → Nat} {ofBits : Nat → Dbl}

theorem get_drop {buf : Bytes} {i : Nat} {b : UInt8} {t : Bytes} (h : buf.drop i = b :: t) : buf[i]? = some b := by
  have := congrArg (fun l => l[0]?) h
  simpa using this

theorem drop_add {buf : Bytes} {i : Nat} {x y : Bytes} (h : buf.drop i = x ++ y) : buf.drop (i + x.length) = y := by
  rw [← List.drop_drop, h, List.drop_left]

theorem drop_one' {buf : Bytes} {i : Nat} {b : UInt8} {t : Bytes} (h : buf.drop i = b :: t) : buf.drop (i + 1) = t := by
  have := drop_add (x := [b]) (y := t) h
  simpa using this

theorem drop_len {buf : Bytes} {i : Nat} {x : Bytes} (h : buf.drop i = x) (hx : x ≠ []) : buf.length = i + x.length := by
  have hl := congrArg List.length h
  rw [List.length_drop] at hl
  have : 0 < x.length := List.length_pos_iff.mpr hx
  omega

theorem load_be (c : Codec) (hc : c.big = true) (v : Nat) {buf : Bytes} {i : Nat} {r : Bytes} (h : buf.drop i = htob c v ++ r) :
    load c buf i = some (v % 256 ^ c.width) := by
  rw [load, h, Ebml.htob_be c hc, Ebml.btoh_be c hc]

theorem w32_of {n : Nat} (h : n < 2 ^ 32) : w32 n = n := Nat.mod_eq_of_lt h

theorem toI64_toU64 (i : Int) (h1 : -(2 ^ 63) ≤ i) (h2 : i < 2 ^ 63) : toI64 (toU64 i % 2 ^ 64) = i := by
  have hp : (2 : Nat) ^ 64 = 18446744073709551616 := by decide
  rw [toI64, toU64, hp]
  by_cases hi : 0 ≤ i
  · have e : i % 2 ^ 64 = i := Int.emod_eq_of_lt hi (by omega)
    rw [e]
    have e2 : i.toNat % 18446744073709551616 = i.toNat := Nat.mod_eq_of_lt (by omega)
    rw [e2, if_pos (by omega)]
    omega
  · have e : i % 2 ^ 64 = i + 2 ^ 64 := by
      rw [← Int.add_emod_right]
      exact Int.emod_eq_of_lt (by omega) (by omega)
    rw [e]
    have e2 : (i + 2 ^ 64).toNat % 18446744073709551616 = (i + 2 ^ 64).toNat := Nat.mod_eq_of_lt (by omega)
    rw [e2, if_neg (by omega)]
    omega

theorem pack_head (v : JVal) : ∃ b t, pack bits v = b :: t ∧ b ≠ 0 := by
  cases v <;> exact ⟨_, _, by rw [pack] <;> rfl, by decide⟩

/-- Decoding with less than `N` rounds. -/
def DUpto (bits : Dbl → Nat) (ofBits : Nat → Dbl) (N : Nat) : Prop :=
  ∀ n < N, ∀ v buf len i rest, Fits v → buf.drop i = pack bits v ++ rest → i + (pack bits v).length ≤ len → len ≤ buf.length →
    len + 8 < 2 ^ 32 → (pack bits v).length < n → decode ofBits n buf len i = .ok (norm v, i + (pack bits v).length)

theorem elems_dec {N : Nat} (IH : DUpto bits ofBits N) (l : List JVal) (hl : FitsElems l) (n : Nat) (hN : n ≤ N) (buf : Bytes)
    (len i : Nat) (rest : Bytes) (acc : List JVal) (h : buf.drop i = packElems bits l ++ 0 :: 0 :: 0xEE :: rest)
    (hi : i + (packElems bits l).length + 3 ≤ len) (hb : len ≤ buf.length) (h32 : len + 8 < 2 ^ 32)
    (hn : (packElems bits l).length + 1 < n) :
    decodeElems ofBits n buf len i acc = .ok (acc ++ normElems l, i + (packElems bits l).length + 3) := by
  induction l generalizing i acc n with
  | nil =>
    rw [packElems] at *
    simp only [List.nil_append, List.length_nil] at *
    obtain ⟨m, rfl⟩ : ∃ m, n = m + 1 := ⟨n - 1, by omega⟩
    rw [decodeElems, get_drop h, get_drop (drop_one' h)]
    simp [R.of, R.bind, normElems, w32_of (show i + 3 < 2 ^ 32 by omega)]
  | cons v l ih =>
    rw [FitsElems] at hl
    rw [packElems] at *
    obtain ⟨b, t, hp, hb0⟩ := pack_head (bits := bits) v
    rw [List.append_assoc] at h
    rw [List.length_append] at *
    have hlen : 1 ≤ (pack bits v).length := by rw [hp]; simp
    obtain ⟨m, rfl⟩ : ∃ m, n = m + 1 := ⟨n - 1, by omega⟩
    have h0 : buf[i]? = some b := get_drop (t := t ++ (packElems bits l ++ 0 :: 0 :: 0xEE :: rest)) (by rw [h, hp]; rfl)
    have h1 : ∃ c, buf[i + 1]? = some c := by
      have : i + 1 < buf.length := by omega
      exact ⟨_, List.getElem?_eq_getElem this⟩
    obtain ⟨c, h1⟩ := h1
    have hne : b.toNat ≠ 0 := fun e => hb0 (by
      have := UInt8.toNat_inj (a := b) (b := 0)
      exact this.mp e)
    rw [decodeElems, h0, h1]
    simp only [R.of, R.bind]
    rw [if_pos ⟨by omega, by omega⟩, IH m (by omega) v buf len i _ hl.1 h (by omega) hb h32 (by omega)]
    dsimp only
    rw [ih hl.2 m (by omega) (i + (pack bits v).length) (acc ++ [norm v]) (drop_add h) (by omega) (by omega), normElems]
    simp [Nat.add_assoc]

theorem sub_eq {buf : Bytes} {i : Nat} {k r : Bytes} (h : buf.drop i = k ++ r) (hi : i ≤ buf.length) : sub buf i k.length = .ok k := by
  have hl := congrArg List.length h
  rw [List.length_drop, List.length_append] at hl
  rw [sub, if_pos (by omega), h, List.take_left]

theorem members_dec {N : Nat} (IH : DUpto bits ofBits N) (l : List (Bytes × JVal)) (hl : FitsMembers l) (n : Nat) (hN : n ≤ N)
    (buf : Bytes) (len i : Nat) (rest : Bytes) (acc : List (Bytes × JVal))
    (hs : (acc.map (·.1) ++ l.map (·.1)).Pairwise (fun a b => keyLt a b = true))
    (h : buf.drop i = packMembers bits l ++ 0 :: 0 :: 0xEE :: rest)
    (hi : i + (packMembers bits l).length + 3 ≤ len) (hb : len ≤ buf.length) (h32 : len + 8 < 2 ^ 32)
    (hn : (packMembers bits l).length + 1 < n) :
    decodeMembers ofBits n buf len i acc = .ok (acc ++ normMembers l, i + (packMembers bits l).length + 3) := by
  induction l generalizing i acc n with
  | nil =>
    rw [packMembers] at *
    simp only [List.nil_append, List.length_nil] at *
    obtain ⟨m, rfl⟩ : ∃ m, n = m + 1 := ⟨n - 1, by omega⟩
    rw [decodeMembers, get_drop h, get_drop (drop_one' h)]
    simp [R.of, R.bind, normMembers, w32_of (show i + 3 < 2 ^ 32 by omega)]
  | cons m l ih =>
    rw [FitsMembers] at hl
    obtain ⟨hk, hv, hl⟩ := hl
    by_cases hk0 : m.1 = []
    · have e : packMembers bits (m :: l) = packMembers bits l := by
        rw [packMembers, if_neg (by simp [hk0])]; rfl
      have e2 : normMembers (m :: l) = normMembers l := by rw [normMembers, if_pos (by simp [hk0])]
      rw [e] at h hi hn ⊢
      rw [e2]
      refine ih hl n hN i acc ?_ h hi hn
      exact hs.sublist (List.Sublist.append (List.Sublist.refl _) (by simp))
    · have hkl : 0 < m.1.length := List.length_pos_iff.mpr hk0
      have e : packMembers bits (m :: l) = keyLen m.1 ++ (m.1 ++ (pack bits m.2 ++ packMembers bits l)) := by
        rw [packMembers, if_pos hkl]; simp
      have e2 : normMembers (m :: l) = (m.1, norm m.2) :: normMembers l := by
        rw [normMembers, if_neg (by simpa using hk0)]
      rw [e] at h hi hn ⊢
      rw [e2]
      have hke : keyLen m.1 = htob .s m.1.length := by
        rw [Ebml.htob_be .s rfl]
        simp only [keyLen, Codec.width, beEnc, Nat.pow_one, Nat.pow_zero, Nat.div_one, List.cons.injEq, and_true, true_and]
        apply UInt8.toNat_inj.mp
        rw [u8n, u8n]
        omega
      have hkl2 : (keyLen m.1).length = 2 := rfl
      simp only [List.length_append, hkl2, List.append_assoc] at h hi hn ⊢
      obtain ⟨f, rfl⟩ : ∃ f, n = f + 1 := ⟨n - 1, by omega⟩
      have h0 : buf[i]? = some (UInt8.ofNat (m.1.length / 256)) := get_drop (by rw [h, keyLen]; rfl)
      have h1 : buf[i + 1]? = some (UInt8.ofNat (m.1.length % 256)) :=
        get_drop (drop_one' (b := UInt8.ofNat (m.1.length / 256)) (by rw [h, keyLen]; rfl))
      have d2 := drop_add h
      rw [hkl2] at d2
      have d3 := drop_add d2
      have hmod : m.1.length % 256 ^ Codec.s.width = m.1.length := Nat.mod_eq_of_lt hk
      rw [decodeMembers, h0, h1]
      simp only [R.of, R.bind]
      rw [if_pos (by
        rw [u8n, u8n, Nat.mod_mod, Nat.mod_eq_of_lt (show m.1.length / 256 < 256 by omega)]
        exact ⟨by omega, by omega⟩), w32_of (by omega), if_neg (by omega), load_be .s rfl m.1.length (by rw [← hke]; exact h), hmod]
      dsimp only
      rw [sub_eq d2 (by omega)]
      dsimp only
      have hpv : 1 ≤ (pack bits m.2).length := by
        obtain ⟨b, t, hp, _⟩ := pack_head (bits := bits) m.2
        rw [hp]; simp
      rw [w32_of (by omega), show i + (m.1.length + 2) = i + 2 + m.1.length by omega,
        IH f (by omega) m.2 buf len _ _ hv d3 (by omega) hb h32 (by omega)]
      dsimp only
      have hset : mapSet acc m.1 (norm m.2) = acc ++ [(m.1, norm m.2)] := by
        apply mapSet_last
        intro a ha
        exact List.pairwise_append.mp hs |>.2.2 a ha m.1 (by simp)
      rw [hset, ih hl f (by omega) _ _ (by simpa using hs) (drop_add d3) (by omega) (by omega)]
      simp only [List.append_assoc, List.cons_append, List.nil_append]
      rw [show i + 2 + m.1.length + (pack bits m.2).length + (packMembers bits l).length + 3 =
        i + (2 + (m.1.length + ((pack bits m.2).length + (packMembers bits l).length))) + 3 by omega]

theorem dec_scalar (n : Nat) (v : JVal) (hc : ∀ l, v ≠ .arr l) (ho : ∀ l, v ≠ .obj l) (buf : Bytes) (len i : Nat) (rest : Bytes)
    (hv : Fits v) (h : buf.drop i = pack bits v ++ rest) (hi : i + (pack bits v).length ≤ len) (hb : len ≤ buf.length)
    (h32 : len + 8 < 2 ^ 32) : decode ofBits (n + 1) buf len i = .ok (norm v, i + (pack bits v).length) := by
  have hw : ∀ (c : Codec) x, (htob c x).length = c.width := htob_length
  cases v with
  | arr l => exact absurd rfl (hc l)
  | obj l => exact absurd rfl (ho l)
  | dbl d => rw [Fits] at hv; exact hv.elim
  | unset =>
    rw [pack] at *
    simp only [List.length_cons, List.length_nil] at *
    rw [decode, if_neg (by omega), get_drop h]
    simp [R.of, R.bind, norm, w32_of (show i + 1 < 2 ^ 32 by omega)]
  | null =>
    rw [pack] at *
    simp only [List.length_cons, List.length_nil] at *
    rw [decode, if_neg (by omega), get_drop h]
    simp [R.of, R.bind, norm, w32_of (show i + 1 < 2 ^ 32 by omega)]
  | int k =>
    rw [pack] at *
    rw [Fits] at hv
    simp only [List.length_cons, hw, Codec.width] at h hi ⊢
    rw [decode, if_neg (by omega), get_drop h]
    simp only [R.of, R.bind, if_true]
    rw [w32_of (by omega), if_neg (by omega), load_be .ll rfl (toU64 k) (drop_one' h)]
    dsimp only
    rw [w32_of (by omega), show (256 : Nat) ^ Codec.ll.width = 2 ^ 64 by decide, toI64_toU64 k hv.1 hv.2, norm]
  | bool b =>
    rw [pack] at *
    simp only [List.length_cons, hw, Codec.width] at h hi ⊢
    rw [decode, if_neg (by omega), get_drop h]
    simp only [R.of, R.bind, if_true]
    rw [w32_of (by omega), if_neg (by omega), load_be .ll rfl _ (drop_one' h)]
    dsimp only
    rw [w32_of (by omega), norm]
    cases b <;> rfl
  | str s =>
    rw [pack] at *
    rw [Fits] at hv
    simp only [List.length_cons, List.length_append, hw, Codec.width, List.cons_append, List.append_assoc] at h hi ⊢
    have d1 := drop_one' h
    have d2 := drop_add d1
    rw [hw] at d2
    simp only [Codec.width] at d2
    rw [decode, if_neg (by omega), get_drop h]
    simp only [R.of, R.bind, show (2 : UInt8) ≠ 1 by decide, if_false, if_true]
    rw [w32_of (by omega), if_neg (by omega), load_be .l rfl s.length d1, show s.length % 256 ^ Codec.l.width = s.length from Nat.mod_eq_of_lt hv]
    dsimp only
    rw [show i + 5 = i + 1 + 4 by omega, sub_eq d2 (by omega)]
    dsimp only
    rw [w32_of (by omega), if_neg (by omega), w32_of (by omega), norm, show i + (s.length + 5) = i + (4 + s.length + 1) by omega]

theorem dupto (N : Nat) : DUpto bits ofBits N := by
  induction N with
  | zero => intro n hn; omega
  | succ N IH =>
    intro n hn v buf len i rest hv h hi hb h32 hfuel
    by_cases hlt : n < N
    · exact IH n hlt v buf len i rest hv h hi hb h32 hfuel
    · obtain ⟨m, rfl⟩ : ∃ m, n = m + 1 := ⟨n - 1, by omega⟩
      cases v with
      | arr l =>
        rw [Fits] at hv
        rw [pack] at *
        simp only [List.length_cons, List.length_append, List.length_nil, List.cons_append, List.append_assoc, List.nil_append] at *
        rw [decode, if_neg (by omega), get_drop h]
        simp only [R.of, R.bind, show (10 : UInt8) ≠ 1 by decide, show (10 : UInt8) ≠ 2 by decide, show (10 : UInt8) ≠ 3 by decide,
          show (10 : UInt8) ≠ 4 by decide, show ¬((10 : UInt8) = 0xFF ∨ (10 : UInt8) = 0xE0) by decide, if_false, if_true]
        rw [w32_of (by omega), elems_dec IH l hv m (by omega) buf len (i + 1) rest [] (drop_one' h) (by omega) hb h32 (by omega)]
        simp only [List.nil_append, norm]
        rw [show i + 1 + (packElems bits l).length + 3 = i + ((packElems bits l).length + (0 + 1 + 1 + 1) + 1) by omega]
      | obj l =>
        rw [Fits] at hv
        rw [pack] at *
        simp only [List.length_cons, List.length_append, List.length_nil, List.cons_append, List.append_assoc, List.nil_append] at *
        rw [decode, if_neg (by omega), get_drop h]
        simp only [R.of, R.bind, show (0xE0 : UInt8) ≠ 1 by decide, show (0xE0 : UInt8) ≠ 2 by decide, show (0xE0 : UInt8) ≠ 3 by decide,
          show (0xE0 : UInt8) ≠ 4 by decide, or_true, if_false, if_true]
        rw [w32_of (by omega), members_dec IH l hv.2 m (by omega) buf len (i + 1) rest [] (by simpa using hv.1) (drop_one' h)
          (by omega) hb h32 (by omega)]
        simp only [List.nil_append, norm]
        rw [show i + 1 + (packMembers bits l).length + 3 = i + ((packMembers bits l).length + (0 + 1 + 1 + 1) + 1) by omega]
      | _ => exact dec_scalar m _ (by intro l e; cases e) (by intro l e; cases e) buf len i rest hv h hi hb h32

theorem pack_size (bits : Dbl → Nat) (v : JVal) : NoDbl v → (pack bits v).length = packedSize v := by
  apply JVal.rec (motive_1 := fun v => NoDbl v → (pack bits v).length = packedSize v)
    (motive_2 := fun l => NoDblElems l → (packElems bits l).length = sizeElems l)
    (motive_3 := fun l => NoDblMembers l → (packMembers bits l).length = sizeMembers l)
    (motive_4 := fun m => NoDbl m.2 → (pack bits m.2).length = packedSize m.2)
  · intro _; rfl
  · intro _; rfl
  · intro b _; rfl
  · intro i _; rfl
  · intro d h; rw [NoDbl] at h; exact h.elim
  · intro s _; rw [pack, packedSize, List.cons_append, List.length_cons, List.length_append, htob_length]; simp only [Codec.width]; omega
  · intro l ih h
    rw [NoDbl] at h
    rw [pack, packedSize]
    simp only [List.length_cons, List.length_append, List.length_nil, ih h]
    omega
  · intro l ih h
    rw [NoDbl] at h
    rw [pack, packedSize]
    simp only [List.length_cons, List.length_append, List.length_nil, ih h]
    omega
  · intro _; rfl
  · intro v l ihv ihl h
    rw [NoDblElems] at h
    rw [packElems, sizeElems, List.length_append, ihv h.1, ihl h.2]
  · intro _; rfl
  · intro m l ihm ihl h
    rw [NoDblMembers] at h
    rw [packMembers, sizeMembers, List.length_append, ihl h.2]
    by_cases hk : m.1.length > 0
    · rw [if_pos hk, if_pos hk]
      simp only [List.length_append, ihm h.1, keyLen, List.length_cons, List.length_nil]
    · rw [if_neg hk, if_neg hk]; rfl
  · intro k v ih h; exact ih h

theorem norm_exact (v : JVal) : Exact v → norm v = v := by
  apply JVal.rec (motive_1 := fun v => Exact v → norm v = v)
    (motive_2 := fun l => ExactElems l → normElems l = l)
    (motive_3 := fun l => ExactMembers l → normMembers l = l)
    (motive_4 := fun m => Exact m.2 → norm m.2 = m.2)
  · intro h; rw [Exact] at h; exact h.elim
  · intro _; rfl
  · intro b h; rw [Exact] at h; exact h.elim
  · intro i _; rfl
  · intro d h; rfl
  · intro s _; rfl
  · intro l ih h
    rw [Exact] at h
    rw [norm, ih h.2, if_neg (by simpa using h.1)]
  · intro l ih h
    rw [Exact] at h
    rw [norm, ih h.2, if_neg (by simpa using h.1)]
  · intro _; rfl
  · intro v l ihv ihl h
    rw [ExactElems] at h
    rw [normElems, ihv h.1, ihl h.2]
  · intro _; rfl
  · intro m l ihm ihl h
    rw [ExactMembers] at h
    rw [normMembers, if_neg (by simpa using h.1), ihm h.2.1, ihl h.2.2]
  · intro k v ih h; exact ih h

end Verif.Json
