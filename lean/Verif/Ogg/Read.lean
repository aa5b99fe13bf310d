import Verif.Ogg.Lemmas

namespace Verif.Ogg
open Verif

theorem xiph_done (done : List Nat) (c : Nat) (l : Bytes) : xiphLoop done c l = (done ++ (xiphLoop [] c l).1, (xiphLoop [] c l).2) := by
  induction l generalizing done c with
  | nil => simp [xiphLoop]
  | cons b l ih =>
    rw [xiphLoop, xiphLoop]
    split
    · rw [ih, ih ([] ++ [c + b.toNat])]; simp
    · exact ih done _

/-- The pieces of a page: the packets that end, and the rest if there is one. -/
def pieces (r : List Bytes × Bytes) : List Bytes := r.1 ++ (if r.2 = [] then [] else [r.2])

/-- The numbers of a table. -/
def numbers (r : List Nat × Nat) : List Nat := r.1 ++ (if r.2 = 0 then [] else [r.2])

theorem decode_numbers (l : Bytes) : decodeXiphSize l = numbers (xiphLoop [] 0 l) := by
  unfold decodeXiphSize numbers
  split <;> simp_all

theorem read_split (l : Bytes) (C body rest : Bytes) (h : body.length = size l) :
    readSegments (numbers (xiphLoop [] C.length l)) (C ++ body ++ rest) = some (pieces (split C l body), rest) := by
  induction l generalizing C body with
  | nil =>
    have hb : body = [] := List.eq_nil_of_length_eq_zero (by simpa [size] using h)
    subst hb
    simp only [xiphLoop, numbers, split, pieces, List.nil_append, List.append_nil]
    by_cases hc : C = []
    · subst hc
      simp [readSegments]
    · have : C.length ≠ 0 := by simpa using hc
      simp [readSegments, hc]
  | cons b l ih =>
    have hsz : size (b :: l) = b.toNat + size l := by simp [size]
    rw [hsz] at h
    by_cases hb : b = 255
    · subst hb
      have h255 : (255 : UInt8).toNat = 255 := rfl
      rw [xiphLoop, if_neg (by simp), split, if_pos rfl]
      have := ih (C ++ body.take 255) (body.drop 255) (by rw [List.length_drop]; omega)
      rw [List.length_append, List.length_take, Nat.min_eq_left (by omega)] at this
      rw [h255, ← this]
      congr 1
      simp
    · rw [xiphLoop, if_pos hb, split, if_neg hb, xiph_done]
      have hlt := ih [] (body.drop b.toNat) (by rw [List.length_drop]; omega)
      simp only [List.length_nil, List.nil_append] at hlt
      have e : numbers ([] ++ [C.length + b.toNat] ++ (xiphLoop [] 0 l).1, (xiphLoop [] 0 l).2) = (C.length + b.toNat) :: numbers (xiphLoop [] 0 l) := by simp [numbers]
      rw [e, readSegments, if_neg (by simp only [List.length_append]; omega)]
      have hd : List.drop (C.length + b.toNat) (C ++ body ++ rest) = body.drop b.toNat ++ rest := by
        rw [← List.drop_drop, List.append_assoc, List.drop_left, List.drop_append_of_le_length (by omega)]
      have htk : List.take (C.length + b.toNat) (C ++ body ++ rest) = C ++ body.take b.toNat := by
        rw [List.append_assoc, List.take_append, List.take_of_length_le (by omega), Nat.add_sub_cancel_left, List.take_append_of_le_length (by omega)]
      rw [hd, hlt, htk]
      simp [pieces]

theorem take_le {l : Bytes} {a b : Nat} (h : a ≤ b) {v : Bytes} (hv : l.take b = v) : l.take a = v.take a := by
  rw [← hv, List.take_take, Nat.min_eq_left h]

theorem read_page (file : Bytes) (p : Page) (rest : Bytes) (h : parsePage file = some (p, rest)) (hl : p.lacing ≠ []) :
    readPage file = some (file.take 27, pieces (split [] p.lacing p.body), rest) := by
  unfold parsePage at h
  split at h
  · cases h
  next h5 =>
  split at h
  · cases h
  next h27 =>
  split at h
  · cases h
  next hn =>
  split at h
  · cases h
  next hs =>
  generalize hN : ((file.drop 26).headD 0).toNat = N at *
  generalize hT : (file.drop 27).take N = T at *
  have hpair := Option.some.inj h
  have hp : p.lacing = T ∧ p.body = (file.drop (27 + N)).take (size T) ∧ rest = file.drop (27 + N + size T) := by
    have e1 := congrArg Prod.fst hpair
    have e2 := congrArg Prod.snd hpair
    simp only at e1 e2
    rw [← e1, ← e2]
    exact ⟨rfl, rfl, rfl⟩
  obtain ⟨hp1, hp2, hp3⟩ := hp
  have hTl : T.length = N := by rw [← hT, List.length_take, List.length_drop]; omega
  have hN0 : N ≠ 0 := by
    rintro rfl
    exact hl (by rw [hp1]; exact List.eq_nil_of_length_eq_zero hTl)
  unfold readPage
  rw [hN, hT, if_neg h27, if_neg (by
    have := take_le (by decide : 4 ≤ 5) (Classical.byContradiction fun c => h5 c)
    rw [this]; simp), if_neg (by rw [hTl]; omega), decode_numbers]
  have hb : (p.body).length = size p.lacing := by
    rw [hp2, hp1, List.length_take, List.length_drop]; omega
  have := read_split p.lacing [] p.body rest hb
  have hfile : [] ++ p.body ++ rest = file.drop (27 + N) := by
    rw [hp2, hp3, List.nil_append, ← List.drop_drop (i := size T), List.take_append_drop]
  rw [hfile, hp1] at this
  simp only [List.length_nil] at this
  rw [this, hp1]

end Verif.Ogg
