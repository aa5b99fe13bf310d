import Verif.H264Out.Model
import Verif.H264Out.Spec

/-!
# C117: raw H.264 and H.265 output
-/

namespace Verif.H264Out
open Verif

theorem unitLen_packed {l : Nat} (hl : l = 1 ∨ l = 2 ∨ l = 4) {n : Nat} (hn : n < 256 ^ l) (r : Bytes) : unitLen l (beEnc l n ++ r) = n := by
  have ht : (beEnc l n ++ r).take l = beEnc l n := List.take_left' (beEnc_length l n)
  rcases hl with rfl | rfl | rfl
  · unfold unitLen
    rw [if_neg (by decide), if_neg (by decide)]
    have := beVal_beEnc 1 n
    rw [Nat.mod_eq_of_lt hn] at this
    simpa [beEnc, beVal] using this
  · unfold unitLen
    rw [if_neg (by decide), if_pos rfl, ht, beVal_beEnc, Nat.mod_eq_of_lt hn]
  · unfold unitLen
    rw [if_pos rfl, ht, beVal_beEnc, Nat.mod_eq_of_lt hn]

/-- Data that does not end with a very short unit is longer than four bytes. -/
theorem packed_long {l : Nat} : ∀ {us : List Bytes}, us ≠ [] → (∀ u, us.getLast? = some u → 4 < l + u.length) → 4 < (Spec.packed l us).length
  | [], h, _ => absurd rfl h
  | [u], _, h => by
    have := h u rfl
    simpa [Spec.packed] using this
  | u :: v :: t, _, h => by
    have := packed_long (l := l) (us := v :: t) (by simp) (fun x hx => h x (by rw [List.getLast?_cons_cons]; exact hx))
    simp only [Spec.packed, List.flatMap_cons, List.length_append] at this ⊢
    omega

theorem walk_packed {l : Nat} (hl : l = 1 ∨ l = 2 ∨ l = 4) (behind : Bytes) : ∀ (us : List Bytes) (pre : Bytes) (f : Nat), us.length ≤ f →
    (∀ u ∈ us, u.length < 256 ^ l) → (∀ u, us.getLast? = some u → 4 < l + u.length) → pre.length + (Spec.packed l us).length + 4 < 2 ^ 32 →
    walk l (pre.length + (Spec.packed l us).length) (pre ++ (Spec.packed l us ++ behind)) f pre.length = Spec.stream us := by
  intro us
  induction us with
  | nil =>
    intro pre f _ _ _ h
    cases f with
    | zero => rfl
    | succ f =>
      simp only [Spec.packed, List.flatMap_nil, List.length_nil, Nat.add_zero] at h ⊢
      unfold walk
      rw [if_neg (by rw [Nat.mod_eq_of_lt h]; omega)]
      rfl
  | cons u t ih =>
    intro pre f hf hu hlast h
    cases f with
    | zero => simp at hf
    | succ f =>
      have hlong := packed_long (l := l) (us := u :: t) (by simp) hlast
      have hp : Spec.packed l (u :: t) = beEnc l u.length ++ u ++ Spec.packed l t := rfl
      have hpl : (Spec.packed l (u :: t)).length = l + u.length + (Spec.packed l t).length := by
        rw [hp]; simp only [List.length_append, beEnc_length]
      unfold walk
      rw [Nat.mod_eq_of_lt (by omega), if_pos (by omega)]
      have hd : (pre ++ (Spec.packed l (u :: t) ++ behind)).drop pre.length = beEnc l u.length ++ (u ++ (Spec.packed l t ++ behind)) := by
        rw [List.drop_left, hp]; simp only [List.append_assoc]
      have hd2 : (pre ++ (Spec.packed l (u :: t) ++ behind)).drop (pre.length + l) = u ++ (Spec.packed l t ++ behind) := by
        rw [← List.drop_drop, hd, List.drop_left' (beEnc_length l u.length)]
      rw [hd, hd2, unitLen_packed hl (hu u (by simp)), List.take_left, Nat.mod_eq_of_lt (by omega)]
      have e1 : pre.length + (u.length + l) = (pre ++ beEnc l u.length ++ u).length := by
        simp only [List.length_append, beEnc_length]; omega
      have e2 : pre.length + (Spec.packed l (u :: t)).length = (pre ++ beEnc l u.length ++ u).length + (Spec.packed l t).length := by omega
      have e3 : pre ++ (Spec.packed l (u :: t) ++ behind) = (pre ++ beEnc l u.length ++ u) ++ (Spec.packed l t ++ behind) := by
        rw [hp]; simp only [List.append_assoc]
      rw [e1, e2, e3]
      rw [ih (pre ++ beEnc l u.length ++ u) f (by simpa using hf) (fun x hx => hu x (by simp [hx])) (by
        intro x hx
        apply hlast
        cases t with
        | nil => simp at hx
        | cons v t => rw [List.getLast?_cons_cons]; exact hx) (by omega)]
      rfl

theorem packed_count {l : Nat} (hl : 0 < l) : ∀ us : List Bytes, us.length ≤ (Spec.packed l us).length
  | [] => Nat.le_refl 0
  | u :: t => by
    have := packed_count hl t
    simp only [Spec.packed, List.flatMap_cons, List.length_append, List.length_cons, beEnc_length] at this ⊢
    omega

theorem walk_all {l : Nat} (hl : l = 1 ∨ l = 2 ∨ l = 4) (us : List Bytes) (behind : Bytes) (hu : ∀ u ∈ us, u.length < 256 ^ l)
    (hlast : ∀ u, us.getLast? = some u → 4 < l + u.length) (h : (Spec.packed l us).length + 4 < 2 ^ 32) :
    walk l (Spec.packed l us).length (Spec.packed l us ++ behind) (Spec.packed l us).length 0 = Spec.stream us := by
  have := walk_packed hl behind us [] (Spec.packed l us).length (packed_count (by omega) us) hu hlast (by simpa using h)
  simpa using this

theorem size_eq {h264 : Bool} {init : Bytes} (h : h264 = false → Spec.fieldSize h264 init = 4) : lenSize h264 init = Spec.fieldSize h264 init := by
  cases h264 with
  | false => exact (h rfl).symm
  | true =>
    simp only [lenSize, Spec.fieldSize, if_true]
    generalize init.getD 4 0 = c
    rw [UInt8.toNat_and, show (3 : UInt8).toNat = 2 ^ 2 - 1 from rfl, Nat.and_two_pow_sub_one_eq_mod]
    omega

/-- C117, over HTTP, for any units in length fields of the size the track tells, of which the last is not very short (`C117_short_fails`), and H.265 with fields of four
bytes (`C117_hevc_fails`): each unit of the packet is sent behind a start code, complete and in order, and nothing that is not in the packet. With key frames only, nothing
else is sent. -/
theorem C117_http_partial (h264 : Bool) (init : Bytes) (keysOnly : Bool) (us : List Bytes) (p : Pkt) (behind : Bytes)
    (h4 : h264 = false → Spec.fieldSize h264 init = 4)
    (hl : Spec.fieldSize h264 init = 1 ∨ Spec.fieldSize h264 init = 2 ∨ Spec.fieldSize h264 init = 4) (hm : p.mem = Spec.packed (Spec.fieldSize h264 init) us ++ behind)
    (hlen : p.len = (Spec.packed (Spec.fieldSize h264 init) us).length) (hu : ∀ u ∈ us, u.length < 256 ^ Spec.fieldSize h264 init)
    (hlast : ∀ u, us.getLast? = some u → 4 < Spec.fieldSize h264 init + u.length) (h : p.len + 4 < 2 ^ 32) :
    send h264 init keysOnly p = if keysOnly = true ∧ p.key = false then [] else Spec.stream us := by
  rw [hlen] at h
  unfold send
  rw [size_eq h4, hlen, hm, walk_all hl us behind hu hlast h]
  cases keysOnly <;> cases p.key <;> rfl

/-- C117, over websockets, as before: a player gets track, key flag, time and the units of the packet, and the offset if it is below 2^16 (`C117_offset_fails`). -/
theorem C117_frame_partial (h264 : Bool) (init : Bytes) (keysOnly : Bool) (us : List Bytes) (p : Pkt) (behind : Bytes)
    (h4 : h264 = false → Spec.fieldSize h264 init = 4)
    (hl : Spec.fieldSize h264 init = 1 ∨ Spec.fieldSize h264 init = 2 ∨ Spec.fieldSize h264 init = 4) (hm : p.mem = Spec.packed (Spec.fieldSize h264 init) us ++ behind)
    (hlen : p.len = (Spec.packed (Spec.fieldSize h264 init) us).length) (hu : ∀ u ∈ us, u.length < 256 ^ Spec.fieldSize h264 init)
    (hlast : ∀ u, us.getLast? = some u → 4 < Spec.fieldSize h264 init + u.length) (h : p.len + 4 < 2 ^ 32)
    (hidx : p.idx < 256) (htime : p.time < 2 ^ 64) (hoff : p.offset.getD 0 < 2 ^ 16) :
    (frame h264 init keysOnly p).map Spec.parse = if keysOnly = true ∧ p.key = false then none else some (p.idx, p.key, p.time, p.offset.getD 0, Spec.stream us) := by
  rw [hlen] at h
  unfold frame
  rw [size_eq h4, hlen, hm, walk_all hl us behind hu hlast h]
  by_cases hk : keysOnly = true ∧ p.key = false
  · rw [if_pos hk, hk.1, hk.2]; rfl
  rw [if_neg hk, if_neg (by
    intro c
    rw [Bool.and_eq_true, Bool.not_eq_true'] at c
    exact hk c)]
  simp only [Option.map_some, Spec.parse]
  have h8 := beVal_beEnc 8 p.time
  have h2 := beVal_beEnc 2 (p.offset.getD 0)
  rw [Nat.mod_eq_of_lt (by omega)] at h8 h2
  have l8 := beEnc_length 8 p.time
  have l2 := beEnc_length 2 (p.offset.getD 0)
  generalize beEnc 8 p.time = t at h8 l8
  generalize beEnc 2 (p.offset.getD 0) = o at h2 l2
  have a : ∀ (x y : UInt8) (r : Bytes), ([x, y] ++ t ++ o ++ r).drop 2 = t ++ (o ++ r) := by intro x y r; simp
  have b : ∀ (x y : UInt8) (r : Bytes), ([x, y] ++ t ++ o ++ r).drop 10 = o ++ r := by
    intro x y r
    rw [show (10 : Nat) = 2 + 8 from rfl, ← List.drop_drop, a, List.drop_left' l8]
  have c : ∀ (x y : UInt8) (r : Bytes), ([x, y] ++ t ++ o ++ r).drop 12 = r := by
    intro x y r
    rw [show (12 : Nat) = 10 + 2 from rfl, ← List.drop_drop, b, List.drop_left' l2]
  rw [a, b, c, List.take_left' l8, List.take_left' l2, h8, h2]
  congr 1
  refine Prod.ext ?_ (Prod.ext ?_ rfl)
  · simp [Nat.mod_eq_of_lt hidx]
  · cases p.key <;> rfl

/-! ## Cases -/

/-- Two units in fields of four bytes. -/
def units : List Bytes := [[0x06, 5], [0x65, 1, 2, 3]]

/-- A packet with them, and other bytes behind it. -/
def pkt : Pkt := { idx := 3, time := 70000, key := true, offset := some 40, len := 14, mem := [0, 0, 0, 2, 0x06, 5, 0, 0, 0, 4, 0x65, 1, 2, 3, 9, 9, 9, 9, 9] }

/-- The hypotheses are met, and what is sent. -/
example : Spec.fieldSize true [1, 100, 0, 31, 0xFF] = 4 ∧ pkt.mem = Spec.packed 4 units ++ [9, 9, 9, 9, 9] ∧ pkt.len = (Spec.packed 4 units).length
    ∧ (∀ u ∈ units, u.length < 256 ^ 4) ∧ (∀ u, units.getLast? = some u → 4 < 4 + u.length)
    ∧ send true [1, 100, 0, 31, 0xFF] true pkt = [0, 0, 0, 1, 0x06, 5, 0, 0, 0, 1, 0x65, 1, 2, 3] := by
  refine ⟨by decide, by decide +kernel, by decide +kernel, by decide +kernel, ?_, by decide +kernel⟩
  intro u hu
  cases hu
  decide

/-! ## What the code does not do -/

/-- With length fields of one byte a last unit of up to three bytes is not sent (with two bytes: up to two, with four: an empty one). -/
theorem C117_short_fails : send true [1, 100, 0, 31, 0xFC] false { pkt with len := 6, mem := Spec.packed 1 [[0x06, 5], [0x0A, 1]] } = [0, 0, 0, 1, 0x06, 5]
    ∧ send true [1, 100, 0, 31, 0xFD] false { pkt with len := 7, mem := Spec.packed 2 [[0x06, 5], [0x0B]] } = [0, 0, 0, 1, 0x06, 5]
    ∧ send true [1, 100, 0, 31, 0xFF] false { pkt with len := 10, mem := Spec.packed 4 [[0x06, 5], []] } = [0, 0, 0, 1, 0x06, 5] := by decide +kernel

/-- A length that reaches past the packet is not checked: bytes behind the packet are sent. -/
theorem C117_past_fails : send true [1, 100, 0, 31, 0xFF] false { pkt with len := 6, mem := [0, 0, 0, 5, 0x65, 1] ++ [0x53, 0x45, 0x43] }
    = [0, 0, 0, 1, 0x65, 1, 0x53, 0x45, 0x43] := by decide +kernel

/-- For H.265 the size of the length fields is not looked at: with fields of two bytes (byte 21 of the configuration is 0xFD) a packet of one unit of 4 bytes is sent as a
start code and whatever 262721 bytes lie behind it in memory. -/
theorem C117_hevc_fails (behind : Bytes) : Spec.fieldSize false (List.replicate 21 1 ++ [0xFD]) = 2 ∧ send false (List.replicate 21 1 ++ [0xFD]) false { pkt with len := 6, mem := Spec.packed 2 [[0x02, 0x41, 1, 2]] ++ behind }
    = [0, 0, 0, 1] ++ ([1, 2] ++ behind).take 262721 := by
  refine ⟨by decide +kernel, ?_⟩
  have h : Spec.packed 2 [[0x02, 0x41, 1, 2]] = [0, 4, 2, 0x41, 1, 2] := by decide +kernel
  rw [h]
  have hl : lenSize false (List.replicate 21 1 ++ [0xFD]) = 4 := rfl
  have hu : unitLen 4 ([0, 4, 2, 0x41, 1, 2] ++ behind) = 262721 := by
    unfold unitLen
    rw [if_pos rfl, show (([0, 4, 2, 0x41, 1, 2] : Bytes) ++ behind).take 4 = [0, 4, 2, 0x41] from rfl]
    decide +kernel
  simp only [send, hl, Bool.false_and, Bool.false_eq_true, if_false]
  unfold walk
  rw [if_pos (by decide), List.drop_zero, hu]
  unfold walk
  rw [if_neg (by decide)]
  simp [mark]

/-- Offsets of 65536 and more lose their upper bits. -/
theorem C117_offset_fails : (frame true [1, 100, 0, 31, 0xFF] false { pkt with offset := some 65576 }).map (fun b => (Spec.parse b).2.2.2.1) = some 40 := by decide +kernel

end Verif.H264Out
