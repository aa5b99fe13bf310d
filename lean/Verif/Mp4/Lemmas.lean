import Verif.Mp4.Spec
import Verif.Bit.Props

/-! # Lemmas on boxes -/
namespace Verif.Mp4
open Verif.Bit Verif.Index

theorem l_eq (v : Nat) : htob .l v = beEnc 4 v := htob_eq .l v
theorem b24_eq (v : Nat) : htob .b24 v = beEnc 3 v := htob_eq .b24 v
theorem ll_eq (v : Nat) : htob .ll v = beEnc 8 v := htob_eq .ll v
theorem b8_eq (v : Nat) : [byteAt v 0] = beEnc 1 v := by simp [byteAt_eq, beEnc]

theorem box_length (ty p : Bytes) : (box ty p).length = 4 + ty.length + p.length := by simp [box]; omega

theorem box_split (ty p : Bytes) (hty : ty.length = 4) : ∃ h, h.length = 8 ∧ box ty p = h ++ p ∧ h = beEnc 4 (8 + p.length) ++ ty :=
  ⟨_, by simp [hty], rfl, rfl⟩

theorem take_beEnc (v : Nat) (r : Bytes) : (beEnc 4 v ++ r).take 4 = beEnc 4 v := by
  rw [List.take_append_of_le_length (by simp), List.take_of_length_le (by simp)]

theorem boxSize_box (ty p r : Bytes) (hp : 8 + p.length < 2 ^ 32) : boxSize (box ty p ++ r) = 8 + p.length := by
  unfold boxSize box
  rw [List.append_assoc, List.append_assoc, take_beEnc, beVal_beEnc]
  exact Nat.mod_eq_of_lt (by omega)

theorem boxSize_box' (ty p : Bytes) (hp : 8 + p.length < 2 ^ 32) : boxSize (box ty p) = 8 + p.length := by
  simpa using boxSize_box ty p [] hp

theorem newBox_eq (ty : Bytes) : newBox ty = box ty [] := by simp [newBox, box, l_eq]

theorem poke_at (a x b bs : Bytes) (h : x.length = bs.length) : poke (a ++ x ++ b) a.length bs = a ++ bs ++ b := by
  unfold poke
  rw [← h, show a.length + x.length = (a ++ x).length by simp, List.drop_left, List.append_assoc a x b, List.take_left]

theorem poke_at' (a x b bs : Bytes) (i : Nat) (hi : i = a.length) (h : x.length = bs.length) : poke (a ++ x ++ b) i bs = a ++ bs ++ b := by
  subst hi; exact poke_at a x b bs h

/-- The size is written over the old one. -/
theorem poke_size (ty p q : Bytes) (v : Nat) (hq : v = 8 + (p ++ q).length) : poke (box ty p ++ q) 0 (beEnc 4 v) = box ty (p ++ q) := by
  subst hq
  unfold box
  have := poke_at [] (beEnc 4 (8 + p.length)) (ty ++ p ++ q) (beEnc 4 (8 + (p ++ q).length)) (by simp)
  simp only [List.nil_append, List.length_nil] at this
  simpa [List.append_assoc] using this

/-- Making room at the end of a box. -/
theorem reserve_end (ty p : Bytes) (hty : ty.length = 4) (i w : Nat) (hw : 0 < w) (hi : 8 + p.length ≤ i) (hs : i + w < 2 ^ 32) :
    reserve (box ty p) i 0 w = box ty (p ++ List.replicate (i - (8 + p.length) + w) 0) := by
  unfold reserve
  rw [if_neg (by omega), boxSize_box' ty p (by omega)]
  dsimp only
  have hl := box_length ty p
  rw [show (if i > 8 + p.length then w + (i - (8 + p.length)) else w) = i - (8 + p.length) + w by split <;> omega]
  rw [if_neg (by omega : ¬ (8 + p.length > i + 0)), List.take_of_length_le (by omega), l_eq, Nat.sub_zero, Nat.sub_zero, if_pos ⟨by omega, by omega⟩]
  exact poke_size _ _ _ _ (by simp; omega)

/-- Setting a number after the end of a box. -/
theorem set_end (ty p v : Bytes) (hty : ty.length = 4) (i : Nat) (hv : 0 < v.length) (hi : p.length ≤ i) (hs : i + 8 + v.length < 2 ^ 32) :
    setBytes (box ty p) v i = box ty (p ++ List.replicate (i - p.length) 0 ++ v) := by
  unfold setBytes
  dsimp only
  rw [if_pos (by rw [boxSize_box' ty p (by omega)]; omega), reserve_end ty p hty (i + 8) _ hv (by omega) hs]
  obtain ⟨h, hh, he, heq⟩ := box_split ty (p ++ List.replicate (i + 8 - (8 + p.length) + v.length) 0) hty
  rw [he, show i + 8 - (8 + p.length) + v.length = (i - p.length) + v.length by omega, ← List.replicate_append_replicate, ← List.append_assoc,
    ← List.append_assoc]
  have := poke_at' (h ++ p ++ List.replicate (i - p.length) 0) (List.replicate v.length 0) [] v (i + 8) (by simp; omega) (by simp)
  rw [List.append_nil, List.append_nil] at this
  rw [this, heq]
  unfold box
  simp [List.append_assoc]
  congr 1
  omega

theorem set_next (ty p v : Bytes) (hty : ty.length = 4) (hv : 0 < v.length) (hs : p.length + 8 + v.length < 2 ^ 32) :
    setBytes (box ty p) v p.length = box ty (p ++ v) := by
  rw [set_end ty p v hty p.length hv (by omega) hs]; simp

/-- Setting a number inside a box. -/
theorem set_in (ty a x b v : Bytes) (hty : ty.length = 4) (hv : x.length = v.length) (hp : 0 < v.length) (hs : 8 + (a ++ x ++ b).length < 2 ^ 32) :
    setBytes (box ty (a ++ x ++ b)) v a.length = box ty (a ++ v ++ b) := by
  unfold setBytes
  dsimp only
  rw [if_neg (by rw [boxSize_box' _ _ hs]; simp; omega)]
  obtain ⟨h, hh, he, heq⟩ := box_split ty (a ++ x ++ b) hty
  rw [he, ← List.append_assoc, ← List.append_assoc, poke_at' (h ++ a) x b v _ (by simp; omega) hv, heq]
  unfold box
  simp [hv]

/-- Reading a number inside a box. -/
theorem get_in (ty a b : Bytes) (hty : ty.length = 4) (w v : Nat) (hw : 0 < w) (hs : 8 + (a ++ beEnc w v ++ b).length < 2 ^ 32) :
    getInt (box ty (a ++ beEnc w v ++ b)) w a.length = v % 256 ^ w := by
  unfold getInt
  dsimp only
  rw [if_neg (by rw [boxSize_box' _ _ hs]; simp; omega)]
  obtain ⟨h, hh, he, _⟩ := box_split ty (a ++ beEnc w v ++ b) hty
  rw [he, ← List.append_assoc, ← List.append_assoc, List.append_assoc, show a.length + 8 = (h ++ a).length by simp; omega, List.drop_left,
    List.take_append_of_le_length (by simp), List.take_of_length_le (by simp), beVal_beEnc]

/-! ## Containers -/

/-- Boxes one after the other. -/
def Boxes (l : List Bytes) : Prop := ∀ c ∈ l, ∃ ty p, c = box ty p ∧ ty.length = 4 ∧ 0 < p.length ∧ 8 + p.length < 2 ^ 32

theorem box_pos {l : List Bytes} (h : Boxes l) : ∀ c ∈ l, 8 < c.length ∧ ∀ r, boxSize (c ++ r) = c.length := by
  intro c hc
  obtain ⟨ty, p, rfl, h1, h2, h3⟩ := h c hc
  rw [box_length]
  exact ⟨by omega, fun r => by rw [boxSize_box ty p r h3]; omega⟩

theorem count_loop (ty : Bytes) (hty : ty.length = 4) (pre l : List Bytes) (h : Boxes l) (hs : 8 + (pre ++ l).flatten.length < 2 ^ 32) (fuel : Nat)
    (hf : l.length < fuel) : countLoop (box ty (pre ++ l).flatten) fuel pre.flatten.length = l.length := by
  induction l generalizing pre fuel with
  | nil =>
    cases fuel with
    | zero => rfl
    | succ fuel =>
      unfold countLoop
      rw [boxSize_box' _ _ hs, if_neg (by simp)]; rfl
  | cons c l ih =>
    cases fuel with
    | zero => simp at hf
    | succ fuel =>
      obtain ⟨c1, c2⟩ := box_pos h c (by simp)
      unfold countLoop
      rw [boxSize_box' _ _ hs, if_pos (by simp; omega)]
      have hd : (box ty (pre ++ c :: l).flatten).drop (pre.flatten.length + 8) = c ++ l.flatten := by
        obtain ⟨hh, h1, h2, _⟩ := box_split ty (pre ++ c :: l).flatten hty
        rw [h2, List.flatten_append, ← List.append_assoc, show pre.flatten.length + 8 = (hh ++ pre.flatten).length by simp; omega, List.drop_left]
        simp
      rw [hd, c2]
      have := ih (pre ++ [c]) (fun x hx => h x (by simp [hx])) (by simpa using hs) fuel (by simpa using hf)
      rw [List.append_assoc] at this
      simp only [List.flatten_append, List.length_append, List.flatten_cons, List.flatten_nil, List.append_nil, List.singleton_append] at this ⊢
      rw [this]; rfl

theorem count_le (l : List Bytes) (h : Boxes l) : l.length ≤ l.flatten.length := by
  induction l with
  | nil => simp
  | cons c l ih =>
    have := (box_pos h c (by simp)).1
    have := ih fun x hx => h x (by simp [hx])
    rw [List.length_cons, List.flatten_cons, List.length_append]; omega

theorem contentCount_eq (ty : Bytes) (hty : ty.length = 4) (l : List Bytes) (h : Boxes l) (hs : 8 + l.flatten.length < 2 ^ 32) :
    contentCount (box ty l.flatten) = l.length := by
  unfold contentCount
  have := count_le l h
  exact count_loop ty hty [] l h hs _ (by rw [boxSize_box' _ _ hs]; omega)

theorem loc_loop (ty : Bytes) (hty : ty.length = 4) (pre l : List Bytes) (h : Boxes l) (hs : 8 + (pre ++ l).flatten.length < 2 ^ 32) :
    contentLoc (box ty (pre ++ l).flatten) l.length pre.flatten.length = (pre ++ l).flatten.length := by
  induction l generalizing pre with
  | nil => simp [contentLoc]
  | cons c l ih =>
    obtain ⟨c1, c2⟩ := box_pos h c (by simp)
    rw [List.length_cons]
    unfold contentLoc
    have hd : (box ty (pre ++ c :: l).flatten).drop (pre.flatten.length + 8) = c ++ l.flatten := by
      obtain ⟨hh, h1, h2, _⟩ := box_split ty (pre ++ c :: l).flatten hty
      rw [h2, List.flatten_append, ← List.append_assoc, show pre.flatten.length + 8 = (hh ++ pre.flatten).length by simp; omega, List.drop_left]
      simp
    have hl : getBoxLen (box ty (pre ++ c :: l).flatten) pre.flatten.length = c.length := by
      unfold getBoxLen
      rw [boxSize_box' _ _ hs, if_neg (by simp; omega), hd]
      unfold calcBoxSize
      have := c2 l.flatten
      unfold boxSize at this
      dsimp only
      rw [this, if_neg (by omega)]
    rw [hl]
    have := ih (pre ++ [c]) (fun x hx => h x (by simp [hx])) (by simpa using hs)
    rw [List.append_assoc] at this
    simp only [List.flatten_append, List.length_append, List.flatten_cons, List.flatten_nil, List.append_nil, List.singleton_append] at this ⊢
    rw [this]

/-- Adding a box after those that are there. -/
theorem setContent_eq (ty : Bytes) (hty : ty.length = 4) (l : List Bytes) (new : Bytes) (h : Boxes (l ++ [new]))
    (hs : 8 + l.flatten.length + new.length < 2 ^ 32) : setContent (box ty l.flatten) new l.length = box ty (l ++ [new]).flatten := by
  have h' : Boxes l := fun c hc => h c (by simp [hc])
  unfold setContent
  rw [if_pos (by rw [contentCount_eq ty hty l h' (by omega)]; exact Nat.le_refl _)]
  have hloc := loc_loop ty hty [] l h' (by simpa using (by omega : 8 + l.flatten.length < 2 ^ 32))
  simp only [List.nil_append, List.flatten_nil, List.length_nil] at hloc
  rw [hloc]
  obtain ⟨n1, n2⟩ := box_pos h new (by simp)
  have n2 := n2 []
  rw [List.append_nil] at n2
  unfold setBox
  dsimp only
  have hl : getBoxLen (box ty l.flatten) l.flatten.length = 0 := by
    unfold getBoxLen
    rw [boxSize_box' _ _ (by omega), if_pos (by omega)]
  rw [hl, n2, if_neg (by omega), if_pos (by omega), reserve_end ty l.flatten hty _ _ (by omega) (by omega) (by omega), List.take_of_length_le (by omega)]
  rw [show l.flatten.length + 8 - (8 + l.flatten.length) + new.length = new.length by omega]
  obtain ⟨hh, h1, h2, h3⟩ := box_split ty (l.flatten ++ List.replicate new.length 0) hty
  rw [h2, ← List.append_assoc]
  have := poke_at' (hh ++ l.flatten) (List.replicate new.length 0) [] new (l.flatten.length + 8) (by simp; omega) (by simp)
  rw [List.append_nil, List.append_nil] at this
  rw [this, h3]
  unfold box
  simp

end Verif.Mp4
