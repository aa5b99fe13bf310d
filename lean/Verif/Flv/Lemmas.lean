import Verif.Flv.Model
import Verif.Flv.Spec

namespace Verif.Flv
open Spec

theorem toNat_ofNat (n : Nat) : (UInt8.ofNat n).toNat = n % 256 := by simp [UInt8.toNat_ofNat']

theorem skipModEx_eq (d : Bytes) (o : Nat) : skipModEx d o =
    match d[o]? with
    | none => none
    | some b =>
      if b.toNat % 16 = 7 then
        match d[o + 1]? with
        | none => none
        | some s =>
          if s.toNat + 1 = 256 then
            match d[o + 2]?, d[o + 3]? with
            | some hi, some lo => skipModEx d (o + 3 + (hi.toNat * 256 + (lo.toNat + 1)) + 1)
            | _, _ => none
          else skipModEx d (o + 1 + (s.toNat + 1) + 1)
      else some o := by
  rw [skipModEx]
  split <;> rename_i h <;> simp only [h] <;> rfl

theorem skip_plain {d : Bytes} {o : Nat} {b : UInt8} (h : d[o]? = some b) (hb : b.toNat % 16 ≠ 7) : skipModEx d o = some o := by
  rw [skipModEx_eq, h]; simp only [if_neg hb]

theorem get_app (P : Bytes) (b : UInt8) (X : Bytes) : (P ++ b :: X)[P.length]? = some b := by simp
theorem get_app' (P : Bytes) (b : UInt8) (X : Bytes) (k : Nat) : (P ++ b :: X)[P.length + (k + 1)]? = X[k]? := by
  rw [List.getElem?_append_right (by omega)]; simp

/-- One ModEx part is skipped. -/
theorem skip_one (P : Bytes) (b : UInt8) (hb : b.toNat % 16 = 7) (m : Bytes) (h1 : 1 ≤ m.length) (h2 : m.length ≤ 65536) (Y : Bytes) :
    skipModEx (P ++ b :: (modSize m.length ++ m ++ Y)) P.length =
      skipModEx (P ++ b :: (modSize m.length ++ m ++ Y)) (P ++ b :: (modSize m.length ++ m)).length := by
  conv => lhs; rw [skipModEx_eq]
  rw [get_app]
  simp only [if_pos hb]
  rw [get_app' P b _ 0]
  unfold modSize
  by_cases h : m.length ≤ 255
  · simp only [if_pos h, List.cons_append, List.nil_append, List.getElem?_cons_zero]
    rw [if_neg (by rw [toNat_ofNat]; omega)]
    congr 1
    rw [toNat_ofNat]
    simp only [List.length_append, List.length_cons]
    omega
  · simp only [if_neg h, List.cons_append, List.nil_append, List.getElem?_cons_zero]
    rw [if_pos (by decide), get_app' P b _ 1, get_app' P b _ 2]
    simp only [List.getElem?_cons_zero, List.getElem?_cons_succ, toNat_ofNat]
    congr 1
    simp only [List.length_append, List.length_cons]
    omega

/-- All ModEx parts are skipped. -/
theorem skip_all (top : Nat) (ht : top < 16) (ht7 : top ≠ 7) : ∀ (mods : List (Nat × Bytes)) (hi : Nat), GoodMods mods →
    ∀ (P X : Bytes), ∃ (Q : Bytes) (b : UInt8), P ++ enhanced hi top mods ++ X = Q ++ b :: X ∧ b.toNat % 16 = top ∧
      skipModEx (P ++ enhanced hi top mods ++ X) P.length = some Q.length
  | [], hi, _, P, X => by
    refine ⟨P, UInt8.ofNat (hi * 16 + top), ?_, ?_, ?_⟩
    · simp [enhanced, modTail, next]
    · rw [toNat_ofNat]; omega
    · apply skip_plain (b := UInt8.ofNat (hi * 16 + top))
      · simp [enhanced, modTail, next]
      · rw [toNat_ofNat]; omega
  | (ty, m) :: l, hi, hg, P, X => by
    have hm := hg (ty, m) List.mem_cons_self
    have hl : GoodMods l := fun x hx => hg x (List.mem_cons_of_mem _ hx)
    obtain ⟨Q, b, e1, e2, e3⟩ := skip_all top ht ht7 l ty hl (P ++ UInt8.ofNat (hi * 16 + 7) :: (modSize m.length ++ m)) X
    have e : P ++ enhanced hi top ((ty, m) :: l) ++ X =
        P ++ UInt8.ofNat (hi * 16 + 7) :: (modSize m.length ++ m) ++ enhanced ty top l ++ X := by
      simp [enhanced, modTail, next]
    have e' : P ++ enhanced hi top ((ty, m) :: l) ++ X =
        P ++ UInt8.ofNat (hi * 16 + 7) :: (modSize m.length ++ m ++ (enhanced ty top l ++ X)) := by
      rw [e]; simp
    refine ⟨Q, b, by rw [e, e1], e2, ?_⟩
    rw [e', skip_one P _ (by rw [toNat_ofNat]; omega) m hm.2.1 hm.2.2, ← e', e]
    exact e3

/-! ### Offsets -/

theorem off24_si24 (o : Int) : off24 o = si24 o := by
  have h1 : ∀ n m : Nat, n % 256 = m % 256 → UInt8.ofNat n = UInt8.ofNat m := fun n m h => by
    apply Byte.ext_nat; rw [toNat_ofNat, toNat_ofNat, h]
  unfold off24 si24
  simp only [List.cons.injEq, and_true]
  refine ⟨h1 _ _ ?_, h1 _ _ ?_, h1 _ _ ?_⟩ <;> omega

theorem si24_length (o : Int) : (si24 o).length = 3 := rfl

theorem signed24_si24 (o : Int) (h : Fits24 o) (P X : Bytes) : signed24 (P ++ (si24 o ++ X)) P.length = some o := by
  obtain ⟨h1, h2⟩ := h
  unfold signed24 si24
  simp only [List.cons_append, List.nil_append]
  rw [get_app, get_app' P _ _ 0, get_app' P _ _ 1]
  simp only [List.getElem?_cons_zero, List.getElem?_cons_succ, Option.bind_eq_bind, Option.bind_some, toNat_ofNat, Option.pure_def]
  congr 1
  generalize hn : (o % 2 ^ 24).toNat = n
  have hn' : (n : Int) = o % 2 ^ 24 := by omega
  split <;> omega

/-! ### Parts of tags -/

theorem four_app (P cc X : Bytes) (h : cc.length = 4) : four (P ++ (cc ++ X)) P.length = some cc := by
  unfold four
  rw [if_pos (by simp; omega)]
  simp [← h]

/-- The first eleven bytes of a tag. -/
def head (ty time : Nat) (sid : Bytes) (n : Nat) : Bytes := UInt8.ofNat ty :: (be24 n ++ timeBytes time ++ sid)

theorem tagOf_eq (ty time : Nat) (sid body : Bytes) :
    tagOf ty time sid body = head ty time sid body.length ++ (body ++ be32 (body.length + 11)) := by
  simp [tagOf, head]

theorem head_length {sid : Bytes} (h : sid.length = 3) (ty time n : Nat) : (head ty time sid n).length = 11 := by
  simp [head, be24, timeBytes, h]

theorem tag_zero (ty time : Nat) (sid body : Bytes) : (tagOf ty time sid body)[0]? = some (UInt8.ofNat ty) := rfl

theorem tag_get {sid : Bytes} (h : sid.length = 3) (ty time : Nat) (body : Bytes) (k : Nat) :
    (tagOf ty time sid body)[11 + k]? = (body ++ be32 (body.length + 11))[k]? := by
  rw [tagOf_eq, List.getElem?_append_right (by rw [head_length h]; omega), head_length h]
  congr 1; omega

theorem tag_length {sid : Bytes} (h : sid.length = 3) (ty time : Nat) (body : Bytes) : (tagOf ty time sid body).length = body.length + 15 := by
  rw [tagOf_eq]; simp [head_length h, be32]; omega

theorem tag_time (ty time : Nat) (sid body : Bytes) (ht : time < 2 ^ 32) : tagTime (tagOf ty time sid body) = some time := by
  simp only [tagTime, tagOf, be24, timeBytes, List.cons_append, List.nil_append, List.getElem?_cons_zero, List.getElem?_cons_succ,
    Option.bind_eq_bind, Option.bind_some, toNat_ofNat, Option.pure_def]
  congr 1
  omega

/-- A tag with its content in two parts. -/
theorem tag_split (ty time : Nat) (sid A B : Bytes) (P : Bytes) (h : P = head ty time sid (A ++ B).length ++ A) :
    tagOf ty time sid (A ++ B) = P ++ (B ++ be32 ((A ++ B).length + 11)) := by
  rw [tagOf_eq, h]; simp

/-- The data at the end of a tag. -/
theorem data_at (d Q D T : Bytes) (hd : d = Q ++ (D ++ T)) (hT : T.length = 4) (ho : dataOffset d = some Q.length) :
    mediaData d = some D := by
  unfold mediaData
  rw [ho]
  have hl : d.length = Q.length + D.length + 4 := by rw [hd]; simp [hT]; omega
  simp only [Option.bind_eq_bind, Option.bind_some, Option.pure_def]
  rw [if_neg (by omega), hd]
  simp only [List.drop_left]
  congr 1
  rw [show (Q ++ (D ++ T)).length - 4 - Q.length = D.length by rw [← hd, hl]; omega]
  simp

end Verif.Flv
