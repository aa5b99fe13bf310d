import Verif.H264Out.Spec

/-!
# The parameter sets at the start of raw H.264 output

`AVCC::asAnnexB` and what it needs, `lib/mp4_generic.cpp`, called by `OutH264::sendHeader` (output_h264.cpp 489-493).
The payload of the box is the list `d`; `getInt8` and `getInt16` give zero past the end (mp4.cpp).
-/

namespace Verif.H264Out.Conf
open Verif

/-- `getInt16` (mp4.cpp 376-392). The code's value is a `short`: from 32768 on it is negative there, which is not modelled. -/
def int16 (d : Bytes) (o : Nat) : Nat := (d.getD o 0).toNat * 256 + (d.getD (o + 1) 0).toNat

/-- `getSPSCount` (mp4_generic.cpp 398). -/
def spsCount (d : Bytes) : Nat := (d.getD 5 0).toNat % 32

/-- The loop over entries of `getSPSLen` and `getSPS` (mp4_generic.cpp 420, 431): past `n` of them while `offset + 1 < plSize`. -/
def seekS (d : Bytes) : Nat → Nat → Nat
  | 0, o => o
  | n + 1, o => if o + 1 < d.length then seekS d n (o + (int16 d o + 2)) else o

/-- The loop of `PPSCountOffset`, `getPPSLen` and `getPPS` (mp4_generic.cpp 440, 475, 486): with `offset + 1 <= plSize`. -/
def seekP (d : Bytes) : Nat → Nat → Nat
  | 0, o => o
  | n + 1, o => if o + 1 ≤ d.length then seekP d n (o + (int16 d o + 2)) else o

/-- `getSPSLen` (mp4_generic.cpp 416-425). -/
def spsLen (d : Bytes) (i : Nat) : Nat :=
  if spsCount d ≤ i then 0
  else if d.length ≤ seekS d i 6 + 1 then 0
  else if d.length < int16 d (seekS d i 6) + seekS d i 6 + 2 then 0
  else int16 d (seekS d i 6)

/-- `getSPS` (mp4_generic.cpp 427-434), from the start of the payload. A null pointer is only returned where the length is zero. -/
def sps (d : Bytes) (i : Nat) : Nat := seekS d i 6 + 2

/-- `PPSCountOffset` (mp4_generic.cpp 436-443). -/
def ppsAt (d : Bytes) : Nat := if d.length < seekP d (spsCount d) 6 then 0 else seekP d (spsCount d) 6

/-- `getPPSCount` (mp4_generic.cpp 447-451). -/
def ppsCount (d : Bytes) : Nat := if ppsAt d = 0 then 0 else (d.getD (ppsAt d) 0).toNat

/-- `getPPSLen` (mp4_generic.cpp 468-480). -/
def ppsLen (d : Bytes) (i : Nat) : Nat :=
  if ppsCount d ≤ i then 0
  else if d.length ≤ seekP d i (ppsAt d + 1) + 1 then 0
  else if d.length < seekP d i (ppsAt d + 1) + 2 + int16 d (seekP d i (ppsAt d + 1)) then 0
  else int16 d (seekP d i (ppsAt d + 1))

/-- `getPPS` (mp4_generic.cpp 482-489). -/
def pps (d : Bytes) (i : Nat) : Nat := seekP d i (ppsAt d + 1) + 2

/-- `asAnnexB` (mp4_generic.cpp 537-550). -/
def annexB (d : Bytes) : Bytes :=
  ((List.range (spsCount d)).flatMap fun i => [0, 0, 0, 1] ++ (d.drop (sps d i)).take (spsLen d i))
    ++ (List.range (ppsCount d)).flatMap fun i => [0, 0, 0, 1] ++ (d.drop (pps d i)).take (ppsLen d i)

/-- Parameter sets with their lengths. -/
abbrev sets (us : List Bytes) : Bytes := Spec.packed 2 us

theorem int16_at (pre r : Bytes) (n : Nat) (h : n < 32768) : int16 (pre ++ (beEnc 2 n ++ r)) pre.length = n := by
  unfold int16
  have h0 : (pre ++ (beEnc 2 n ++ r)).getD pre.length 0 = UInt8.ofNat (n / 256) := by
    rw [List.getD_eq_getElem?_getD, List.getElem?_append_right (Nat.le_refl _), Nat.sub_self]
    simp [beEnc]
  have h1 : (pre ++ (beEnc 2 n ++ r)).getD (pre.length + 1) 0 = UInt8.ofNat n := by
    rw [List.getD_eq_getElem?_getD, List.getElem?_append_right (Nat.le_add_right _ _), Nat.add_sub_cancel_left]
    simp [beEnc]
  rw [h0, h1, UInt8.toNat_ofNat', UInt8.toNat_ofNat']
  omega

theorem sets_cons (u : Bytes) (t : List Bytes) : sets (u :: t) = beEnc 2 u.length ++ u ++ sets t := rfl

theorem seek_sets (post : Bytes) : ∀ (us : List Bytes) (pre : Bytes) (n : Nat), n ≤ us.length → (∀ u ∈ us, u.length < 32768) →
    seekS (pre ++ (sets us ++ post)) n pre.length = pre.length + (sets (us.take n)).length
    ∧ seekP (pre ++ (sets us ++ post)) n pre.length = pre.length + (sets (us.take n)).length := by
  intro us
  induction us with
  | nil =>
    intro pre n hn _
    have : n = 0 := by simpa using hn
    subst this
    exact ⟨rfl, rfl⟩
  | cons u t ih =>
    intro pre n hn hu
    cases n with
    | zero => exact ⟨rfl, rfl⟩
    | succ n =>
      have hd : pre ++ (sets (u :: t) ++ post) = pre ++ (beEnc 2 u.length ++ (u ++ (sets t ++ post))) := by
        rw [sets_cons]; simp only [List.append_assoc]
      have hi : int16 (pre ++ (sets (u :: t) ++ post)) pre.length = u.length := by rw [hd, int16_at _ _ _ (hu u (by simp))]
      have hlen : pre.length + 2 ≤ (pre ++ (sets (u :: t) ++ post)).length := by
        rw [hd]; simp only [List.length_append, beEnc_length]; omega
      have e1 : pre.length + (u.length + 2) = (pre ++ beEnc 2 u.length ++ u).length := by
        simp only [List.length_append, beEnc_length]; omega
      have e2 : pre ++ (sets (u :: t) ++ post) = (pre ++ beEnc 2 u.length ++ u) ++ (sets t ++ post) := by
        rw [hd]; simp only [List.append_assoc]
      have e3 : pre.length + (sets ((u :: t).take (n + 1))).length = (pre ++ beEnc 2 u.length ++ u).length + (sets (t.take n)).length := by
        rw [List.take_succ_cons, sets_cons]; simp only [List.length_append, beEnc_length]; omega
      obtain ⟨i1, i2⟩ := ih (pre ++ beEnc 2 u.length ++ u) n (by simpa using hn) (fun x hx => hu x (by simp [hx]))
      constructor
      · unfold seekS
        rw [if_pos (by omega), hi, e1, e3, e2]
        exact i1
      · unfold seekP
        rw [if_pos (by omega), hi, e1, e3, e2]
        exact i2

/-- An entry, at the place where the loops end. -/
theorem entry (post : Bytes) (us : List Bytes) (pre : Bytes) (n : Nat) (hn : n < us.length) (hu : ∀ u ∈ us, u.length < 32768) :
    int16 (pre ++ (sets us ++ post)) (pre.length + (sets (us.take n)).length) = us[n].length
    ∧ ((pre ++ (sets us ++ post)).drop (pre.length + (sets (us.take n)).length + 2)).take us[n].length = us[n]
    ∧ pre.length + (sets (us.take n)).length + 2 + us[n].length ≤ (pre ++ (sets us ++ post)).length := by
  have hs : sets us = sets (us.take n) ++ (beEnc 2 us[n].length ++ (us[n] ++ sets (us.drop (n + 1)))) := by
    have h1 : us = us.take n ++ us[n] :: us.drop (n + 1) := by
      rw [← List.drop_eq_getElem_cons hn, List.take_append_drop]
    have h2 := congrArg sets h1
    rw [h2]
    simp only [sets, Spec.packed, List.flatMap_append, List.flatMap_cons, List.append_assoc]
  have hl : us[n].length < 32768 := hu _ (List.getElem_mem hn)
  generalize us[n] = u at hs hl
  have hd : pre ++ (sets us ++ post) = (pre ++ sets (us.take n)) ++ (beEnc 2 u.length ++ (u ++ (sets (us.drop (n + 1)) ++ post))) := by
    rw [hs]; simp only [List.append_assoc]
  rw [hd, ← List.length_append]
  refine ⟨int16_at _ _ _ hl, ?_, ?_⟩
  · rw [← List.drop_drop, List.drop_left, List.drop_left' (beEnc_length 2 u.length), List.take_left]
  · simp only [List.length_append, beEnc_length]; omega

theorem range_stream (us : List Bytes) (g : Nat → Bytes) (h : ∀ i (hi : i < us.length), g i = us[i]) :
    ((List.range us.length).flatMap fun i => [0, 0, 0, 1] ++ g i) = Spec.stream us := by
  have : us = (List.range us.length).map g := by
    apply List.ext_getElem
    · simp
    · intro i h1 h2
      simp [h i h1]
  conv => rhs; rw [this]
  simp only [Spec.stream, List.flatMap_map]

/-- C117, start: for every configuration record a player first gets all its sequence parameter sets and then all its picture parameter sets, each behind a start code.
Missing: parameter sets of 32768 bytes and more. -/
theorem C117_header_partial (a b c e : UInt8) (ss ps : List Bytes) (ext : Bytes) (hs : ss.length < 32) (hp : ps.length < 256)
    (hu : ∀ u ∈ ss ++ ps, u.length < 32768) : annexB (Spec.record a b c e ss ps ext) = Spec.stream (ss ++ ps) := by
  have hus : ∀ u ∈ ss, u.length < 32768 := fun u h => hu u (List.mem_append_left _ h)
  have hup : ∀ u ∈ ps, u.length < 32768 := fun u h => hu u (List.mem_append_right _ h)
  generalize hd : Spec.record a b c e ss ps ext = d
  -- seen from the sequence sets and from the picture sets
  have d1 : d = [1, a, b, c, e, UInt8.ofNat (0xE0 + ss.length)] ++ (sets ss ++ ([UInt8.ofNat ps.length] ++ (sets ps ++ ext))) := by
    rw [← hd]; simp only [Spec.record, List.append_assoc]
  have d2 : d = ([1, a, b, c, e, UInt8.ofNat (0xE0 + ss.length)] ++ sets ss ++ [UInt8.ofNat ps.length]) ++ (sets ps ++ ext) := by
    rw [← hd]; simp only [Spec.record, List.append_assoc]
  have hcs : spsCount d = ss.length := by
    rw [d1]
    simp [spsCount]
    omega
  have seek1 := fun n hn => seek_sets ([UInt8.ofNat ps.length] ++ (sets ps ++ ext)) ss [1, a, b, c, e, UInt8.ofNat (0xE0 + ss.length)] n hn hus
  have entry1 := fun n hn => entry ([UInt8.ofNat ps.length] ++ (sets ps ++ ext)) ss [1, a, b, c, e, UInt8.ofNat (0xE0 + ss.length)] n hn hus
  rw [← d1] at seek1 entry1
  simp only [List.length_cons, List.length_nil, Nat.zero_add, Nat.reduceAdd] at seek1 entry1
  have hat : ppsAt d = 6 + (sets ss).length := by
    unfold ppsAt
    have h := (seek1 ss.length (Nat.le_refl _)).2
    rw [List.take_length] at h
    rw [hcs, h, if_neg]
    rw [d1]
    simp only [List.length_append, List.length_cons, List.length_nil]
    omega
  have hcp : ppsCount d = ps.length := by
    unfold ppsCount
    rw [if_neg (by omega), hat, List.getD_eq_getElem?_getD, d1, List.getElem?_append_right (by simp), List.getElem?_append_right (by simp)]
    simp
    omega
  have seek2 := fun n hn => (seek_sets ext ps ([1, a, b, c, e, UInt8.ofNat (0xE0 + ss.length)] ++ sets ss ++ [UInt8.ofNat ps.length]) n hn hup).2
  have entry2 := fun n hn => entry ext ps ([1, a, b, c, e, UInt8.ofNat (0xE0 + ss.length)] ++ sets ss ++ [UInt8.ofNat ps.length]) n hn hup
  rw [← d2] at seek2 entry2
  have hpl : ([1, a, b, c, e, UInt8.ofNat (0xE0 + ss.length)] ++ sets ss ++ [UInt8.ofNat ps.length]).length = ppsAt d + 1 := by
    rw [hat]; simp only [List.length_append, List.length_cons, List.length_nil]
  rw [hpl] at seek2 entry2
  unfold annexB
  rw [hcs, hcp, range_stream ss, range_stream ps]
  · simp only [Spec.stream, List.flatMap_append]
  · intro i hi
    obtain ⟨h1, h2, h3⟩ := entry2 i hi
    have hk := seek2 i (Nat.le_of_lt hi)
    have hl : ppsLen d i = ps[i].length := by
      unfold ppsLen
      rw [hcp, if_neg (by omega), hk, if_neg (by omega), h1, if_neg (by omega)]
    rw [hl, pps, hk]
    exact h2
  · intro i hi
    obtain ⟨h1, h2, h3⟩ := entry1 i hi
    have hk := (seek1 i (Nat.le_of_lt hi)).1
    have hl : spsLen d i = ss[i].length := by
      unfold spsLen
      rw [hcs, if_neg (by omega), hk, if_neg (by omega), h1, if_neg (by omega)]
    rw [hl, sps, hk]
    exact h2

/-- A case with two picture parameter sets and an extension. -/
example : annexB (Spec.record 100 0 31 0xFF [[0x67, 1, 2]] [[0x68, 3], [0x68, 4]] [0xFD, 0xF8, 0xF8, 0]) = [0, 0, 0, 1, 0x67, 1, 2, 0, 0, 0, 1, 0x68, 3, 0, 0, 0, 1, 0x68, 4] := by
  decide +kernel

end Verif.H264Out.Conf
