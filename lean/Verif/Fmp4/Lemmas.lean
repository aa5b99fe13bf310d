import Verif.Fmp4.Spec
import Verif.Mp4.Lemmas
import Verif.Stbl.Clock

/-! # Reading boxes -/
namespace Verif.Fmp4
open Verif.Mp4 Verif.Stbl

/-- Bytes after a box do not matter. -/
theorem getInt_rest (ty p r : Bytes) (hty : ty.length = 4) (hp : 8 + p.length < 2 ^ 32) (w i : Nat) (hw : 0 < w) :
    getInt (box ty p ++ r) w i = getInt (box ty p) w i := by
  unfold getInt
  dsimp only
  rw [boxSize_box _ _ _ hp, boxSize_box' _ _ hp]
  by_cases h : i + 8 + (w - 1) ≥ 8 + p.length
  · rw [if_pos h, if_pos h]
  · rw [if_neg h, if_neg h]
    have hl : (box ty p).length = 8 + p.length := by rw [box_length]; omega
    rw [List.drop_append_of_le_length (by omega), List.take_append_of_le_length (by simp; omega)]

/-- Reading a number, at a place. -/
theorem get_at (ty a b r : Bytes) (hty : ty.length = 4) (w v i : Nat) (hi : i = a.length) (hw : 0 < w) (hv : v < 256 ^ w)
    (hs : 8 + (a ++ beEnc w v ++ b).length < 2 ^ 32) : getInt (box ty (a ++ beEnc w v ++ b) ++ r) w i = v := by
  subst hi
  rw [getInt_rest ty _ r hty hs w _ hw, get_in ty a b hty w v hw hs, Nat.mod_eq_of_lt hv]

/-- These boxes, with anything after each. -/
def Points (ty : Bytes) : List Bytes → List Bytes → Prop
  | [], [] => True
  | b :: l, p :: q => (∃ r, b = box ty p ++ r) ∧ Points ty l q
  | _, _ => False

theorem isType_box (ty p r : Bytes) (hty : ty.length = 4) (n : Bytes) : isType (box ty p ++ r) n = (ty == n) := by
  unfold isType box
  have e : (beEnc 4 (8 + p.length) ++ ty ++ p ++ r).drop 4 = ty ++ (p ++ r) := by
    rw [List.append_assoc, List.append_assoc, List.drop_append_of_le_length (by simp), List.drop_of_length_le (by simp)]; rfl
  rw [e, List.take_append_of_le_length (by omega), List.take_of_length_le (by omega)]

theorem calc_box (ty p r : Bytes) (hp : 0 < p.length) (hs : 8 + p.length < 2 ^ 32) : calcBoxSize (box ty p ++ r) = 8 + p.length := by
  have h := boxSize_box ty p r hs
  unfold boxSize at h
  unfold calcBoxSize
  dsimp only
  rw [h, if_neg (by omega)]

theorem pack_append (a b : List (Bytes × Bytes)) : pack (a ++ b) = pack a ++ pack b := by unfold pack; rw [List.flatMap_append]
theorem pack_cons (k : Bytes × Bytes) (b : List (Bytes × Bytes)) : pack (k :: b) = box k.1 k.2 ++ pack b := by unfold pack; rw [List.flatMap_cons]

theorem child_loop (ty rest name : Bytes) (hty : ty.length = 4) (pre l : List (Bytes × Bytes)) (h : Kids (pre ++ l)) (fuel : Nat) (hf : l.length < fuel) :
    Points name (childLoop (box ty (pack (pre ++ l)) ++ rest) name fuel (8 + (pack pre).length)) (kidsOf l name) := by
  induction l generalizing pre fuel with
  | nil =>
    cases fuel with
    | zero => trivial
    | succ fuel =>
      unfold childLoop
      rw [boxSize_box _ _ _ (by have := h.2; omega), if_neg (by simp)]
      trivial
  | cons k l ih =>
    cases fuel with
    | zero => simp at hf
    | succ fuel =>
      obtain ⟨k1, k2⟩ := h.1 k (by simp)
      have hs := h.2
      have hlen : (pack (pre ++ k :: l)).length = (pack pre).length + ((8 + k.2.length) + (pack l).length) := by
        rw [pack_append, pack_cons, List.length_append, List.length_append, box_length, k1]
      unfold childLoop
      rw [boxSize_box _ _ _ (by omega), if_pos (by omega)]
      have hd : (box ty (pack (pre ++ k :: l)) ++ rest).drop (8 + (pack pre).length) = box k.1 k.2 ++ (pack l ++ rest) := by
        obtain ⟨hh, h1, h2, _⟩ := box_split ty (pack (pre ++ k :: l)) hty
        rw [h2, pack_append, pack_cons, ← List.append_assoc hh, show 8 + (pack pre).length = (hh ++ pack pre).length by rw [List.length_append, h1],
          List.append_assoc, List.drop_left, List.append_assoc]
      rw [hd, isType_box _ _ _ k1, calc_box _ _ _ k2 (by omega)]
      have := ih (pre ++ [k]) (by rwa [List.append_assoc, List.singleton_append]) fuel (by simpa using hf)
      have hpk : (pack (pre ++ [k])).length = (pack pre).length + (8 + k.2.length) := by
        rw [pack_append, List.length_append, pack_cons, List.length_append, box_length, k1]; rfl
      rw [List.append_assoc, List.singleton_append, hpk, ← Nat.add_assoc] at this
      unfold kidsOf
      rw [List.filter_cons]
      by_cases hk : (k.1 == name) = true
      · rw [if_pos hk, if_pos hk]
        refine ⟨⟨pack l ++ rest, ?_⟩, this⟩
        rw [eq_of_beq hk]
      · rw [if_neg hk, if_neg hk]
        exact this

theorem kids_few (l : List (Bytes × Bytes)) : l.length ≤ (pack l).length := by
  induction l with
  | nil => exact Nat.le_refl _
  | cons k l ih => rw [pack_cons, List.length_append, box_length, List.length_cons]; omega

/-- The boxes of a type are found. -/
theorem get_children (ty rest name : Bytes) (hty : ty.length = 4) (l : List (Bytes × Bytes)) (h : Kids l) :
    Points name (getChildren (box ty (pack l) ++ rest) name) (kidsOf l name) := by
  have := child_loop ty rest name hty [] l h (boxSize (box ty (pack l) ++ rest)) (by
    rw [boxSize_box _ _ _ (by have := h.2; omega)]
    have := kids_few l
    omega)
  exact this

theorem get_child (ty rest name p : Bytes) (hty : ty.length = 4) (l : List (Bytes × Bytes)) (h : Kids l) (hp : kidsOf l name = [p]) :
    ∃ r, getChild (box ty (pack l) ++ rest) name = box name p ++ r := by
  have := get_children ty rest name hty l h
  rw [hp] at this
  unfold getChild
  cases hg : getChildren (box ty (pack l) ++ rest) name with
  | nil => rw [hg] at this; exact absurd this id
  | cons b q => rw [hg] at this; exact this.1

/-! ## Track fragment header -/

theorem opt_length (w : Nat) (o : Option Nat) : (opt w o).length = if o.isSome then w else 0 := by cases o <;> simp [opt]

theorem kid_length (l : List (Bytes × Bytes)) (name p : Bytes) (h : Kids l) (hp : p ∈ kidsOf l name) : 8 + p.length < 2 ^ 30 + 8 := by
  unfold kidsOf at hp
  obtain ⟨k, hk, rfl⟩ := List.mem_map.mp hp
  have hm := (List.mem_filter.mp hk).1
  have hl := h.2
  have : ∀ l : List (Bytes × Bytes), k ∈ l → k.2.length ≤ (pack l).length := by
    intro l
    induction l with
    | nil => intro hx; cases hx
    | cons x l ih =>
      intro hx
      rw [pack_cons, List.length_append, box_length]
      rcases List.mem_cons.mp hx with rfl | hx
      · omega
      · have := ih hx; omega
  have := this l hm
  omega

theorem tfhd_bits (a b c d e f : Bool) :
    let w := bit a 1 + bit b 2 + bit c 8 + bit d 0x10 + bit e 0x20 + bit f 0x20000
    has w 1 = a ∧ has w 2 = b ∧ has w 8 = c ∧ has w 0x10 = d ∧ has w 0x20 = e ∧ has w 0x20000 = f ∧ w < 2 ^ 24 := by
  revert a b c d e f
  decide

theorem run_bits (a b c d e f : Bool) :
    let w := bit a 1 + bit b 4 + bit c 0x100 + bit d 0x200 + bit e 0x400 + bit f 0x800
    has w 1 = a ∧ has w 4 = b ∧ has w 0x100 = c ∧ has w 0x200 = d ∧ has w 0x400 = e ∧ has w 0x800 = f ∧ w < 2 ^ 24 := by
  revert a b c d e f
  decide

theorem flags_at (ty q r : Bytes) (hty : ty.length = 4) (v f : Nat) (hf : f < 2 ^ 24) (hq : 8 + q.length < 2 ^ 31) :
    getFlags (box ty (beEnc 1 v ++ beEnc 3 f ++ q) ++ r) = f := by
  unfold getFlags
  exact get_at ty (beEnc 1 v) q r hty 3 f 1 rfl (by decide) hf (by simp; omega)

/-- The reader of the track fragment header. -/
theorem tfhd_reads (h : Tfhd) (hf : h.Fits) (r : Bytes) (hl : h.bytes.length < 2 ^ 30) :
    let b := box tyTfhd h.bytes ++ r
    tfhdTrack b = h.track ∧ has (getFlags b) 8 = h.dur.isSome ∧ has (getFlags b) 0x10 = h.size.isSome ∧ has (getFlags b) 0x20 = h.flags.isSome ∧
      tfhdBaseIsMoof b = h.moof ∧ (∀ x, h.dur = some x → tfhdDuration b = x) ∧ (∀ x, h.size = some x → tfhdSize b = x) ∧
      (∀ x, h.flags = some x → tfhdFlags b = x) := by
  intro b
  obtain ⟨b1, b2, b3, b4, b5, b6, b7⟩ := tfhd_bits h.base.isSome h.desc.isSome h.dur.isSome h.size.isSome h.flags.isSome h.moof
  have hlen := hl
  unfold Tfhd.bytes at hlen
  simp only [List.length_append, beEnc_length, opt_length] at hlen
  have hw : getFlags b = h.word := by
    have := flags_at tyTfhd (beEnc 4 h.track ++ opt 8 h.base ++ opt 4 h.desc ++ opt 4 h.dur ++ opt 4 h.size ++ opt 4 h.flags) r rfl 0 h.word b7 (by
      simp only [List.length_append, beEnc_length, opt_length]; omega)
    simp only [List.append_assoc] at this
    show getFlags (box tyTfhd h.bytes ++ r) = h.word
    unfold Tfhd.bytes
    simp only [List.append_assoc]
    exact this
  have hword : h.word = bit h.base.isSome 1 + bit h.desc.isSome 2 + bit h.dur.isSome 8 + bit h.size.isSome 0x10 + bit h.flags.isSome 0x20 + bit h.moof 0x20000 := rfl
  have p1 : has h.word 1 = h.base.isSome := b1
  have p2 : has h.word 2 = h.desc.isSome := b2
  have p3 : has h.word 8 = h.dur.isSome := b3
  have p4 : has h.word 0x10 = h.size.isSome := b4
  have p5 : has h.word 0x20 = h.flags.isSome := b5
  refine ⟨?_, by rw [hw, p3], by rw [hw, p4], by rw [hw, p5], ?_, fun x hx => ?_, fun x hx => ?_, fun x hx => ?_⟩
  · have := get_at tyTfhd (beEnc 1 0 ++ beEnc 3 h.word) (opt 8 h.base ++ opt 4 h.desc ++ opt 4 h.dur ++ opt 4 h.size ++ opt 4 h.flags) r rfl 4 h.track 4 (by simp)
      (by decide) hf.1 (by simp only [List.length_append, beEnc_length, opt_length]; omega)
    simp only [List.append_assoc] at this
    show tfhdTrack (box tyTfhd h.bytes ++ r) = h.track
    unfold tfhdTrack Tfhd.bytes
    simp only [List.append_assoc]
    exact this
  · unfold tfhdBaseIsMoof; rw [hw]; exact b6
  · unfold tfhdDuration
    rw [hw, p3, hx, if_pos (by rfl)]
    have := get_at tyTfhd (beEnc 1 0 ++ beEnc 3 h.word ++ beEnc 4 h.track ++ opt 8 h.base ++ opt 4 h.desc) (opt 4 h.size ++ opt 4 h.flags) r rfl 4 x
      (tfhdPlace h.word [2]) (by
        unfold tfhdPlace
        simp only [List.length_append, beEnc_length, opt_length, p1, p2, List.map_cons, List.map_nil, List.sum_cons, List.sum_nil]
        omega) (by decide) (hf.2.1 x hx) (by simp only [List.length_append, beEnc_length, opt_length]; omega)
    show getInt (box tyTfhd h.bytes ++ r) 4 _ = x
    unfold Tfhd.bytes
    rw [hx]
    simp only [List.append_assoc] at this ⊢
    exact this
  · unfold tfhdSize
    rw [hw, p4, hx, if_pos (by rfl)]
    have := get_at tyTfhd (beEnc 1 0 ++ beEnc 3 h.word ++ beEnc 4 h.track ++ opt 8 h.base ++ opt 4 h.desc ++ opt 4 h.dur) (opt 4 h.flags) r rfl 4 x
      (tfhdPlace h.word [2, 8]) (by
        unfold tfhdPlace
        simp only [List.length_append, beEnc_length, opt_length, p1, p2, p3, List.map_cons, List.map_nil, List.sum_cons, List.sum_nil]
        omega) (by decide) (hf.2.2.1 x hx) (by simp only [List.length_append, beEnc_length, opt_length]; omega)
    show getInt (box tyTfhd h.bytes ++ r) 4 _ = x
    unfold Tfhd.bytes
    rw [hx]
    simp only [List.append_assoc] at this ⊢
    exact this
  · unfold tfhdFlags
    rw [hw, p5, hx, if_pos (by rfl)]
    have := get_at tyTfhd (beEnc 1 0 ++ beEnc 3 h.word ++ beEnc 4 h.track ++ opt 8 h.base ++ opt 4 h.desc ++ opt 4 h.dur ++ opt 4 h.size) [] r rfl 4 x
      (tfhdPlace h.word [2, 8, 0x10]) (by
        unfold tfhdPlace
        simp only [List.length_append, beEnc_length, opt_length, p1, p2, p3, p4, List.map_cons, List.map_nil, List.sum_cons, List.sum_nil]
        omega) (by decide) (hf.2.2.2 x hx) (by simp only [List.length_append, beEnc_length, opt_length, List.length_nil]; omega)
    show getInt (box tyTfhd h.bytes ++ r) 4 _ = x
    unfold Tfhd.bytes
    rw [hx]
    simp only [List.append_assoc, List.append_nil] at this ⊢
    exact this

/-- The reader of the base decode time. -/
theorem tfdt_reads (wide : Bool) (base : Nat) (hb : base < 2 ^ (if wide then 64 else 32)) (r : Bytes) : tfdtBase (box tyTfdt (tfdtBytes wide base) ++ r) = base := by
  unfold tfdtBase tfdtBytes
  cases wide with
  | true =>
    have h1 := get_at tyTfdt [] (beEnc 3 0 ++ beEnc 8 base) r rfl 1 1 0 rfl (by decide) (by decide) (by simp)
    have h2 := get_at tyTfdt (beEnc 4 0x01000000) [] r rfl 8 base 4 (by simp) (by decide) hb (by simp)
    rw [List.append_nil] at h2
    rw [if_pos rfl, show beEnc 4 0x01000000 = beEnc 1 1 ++ beEnc 3 0 by decide +kernel]
    rw [show beEnc 4 0x01000000 = beEnc 1 1 ++ beEnc 3 0 by decide +kernel] at h2
    simp only [List.nil_append, List.append_assoc] at h1 h2 ⊢
    rw [h1, if_pos rfl, h2]
  | false =>
    have h1 := get_at tyTfdt [] (beEnc 3 0 ++ beEnc 4 base) r rfl 1 0 0 rfl (by decide) (by decide) (by simp)
    have h2 := get_at tyTfdt (beEnc 4 0) [] r rfl 4 base 4 (by simp) (by decide) hb (by simp)
    rw [List.append_nil] at h2
    rw [if_neg (show ¬ (false = true) by decide), show beEnc 4 0 = beEnc 1 0 ++ beEnc 3 0 by decide +kernel]
    rw [show beEnc 4 0 = beEnc 1 0 ++ beEnc 3 0 by decide +kernel] at h2
    simp only [List.nil_append, List.append_assoc] at h1 h2 ⊢
    rw [h1, if_neg (by decide), h2]

end Verif.Fmp4
