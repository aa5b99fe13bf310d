import Verif.Flac.Model
import Verif.Flac.Spec

/-!
# Lemmas about FLAC files
-/

namespace Verif.Flac
open Verif

theorem look_shift : ∀ c : UInt8, Crc.look Crc.table8 (Crc.wide c) = Crc.wide (Spec.shift c 8) := by decide +kernel

theorem wide_mask : ∀ c : UInt8, Crc.wide c &&& 0xff = Crc.wide c := by decide +kernel

theorem wide_gone : ∀ c : UInt8, (Crc.wide c <<< 8) &&& 0xff = 0 := by decide +kernel

theorem wide_xor (a b : UInt8) : Crc.wide a ^^^ Crc.wide b = Crc.wide (b ^^^ a) := by
  apply BitVec.eq_of_toNat_eq
  simp [Crc.wide, UInt8.toNat_xor, Nat.xor_comm]

theorem step8_eq (r b : UInt8) : Crc.step8 (Crc.wide r) b = Crc.wide (Spec.shift (r ^^^ b) 8) := by
  unfold Crc.step8
  rw [wide_mask, wide_gone, wide_xor, look_shift]
  exact BitVec.xor_zero

theorem crc8_eq (h : Bytes) : (Crc.crc8 0 h).toNat = (Spec.crc8 h).toNat := by
  have key : ∀ (h : Bytes) (r : UInt8), h.foldl Crc.step8 (Crc.wide r) = Crc.wide (h.foldl (fun r b => Spec.shift (r ^^^ b) 8) r) := by
    intro h
    induction h with
    | nil => intro r; rfl
    | cons b t ih =>
      intro r
      simp only [List.foldl_cons]
      rw [step8_eq, ih]
  have h0 : (0 : BitVec 32) = Crc.wide 0 := rfl
  have hw : ∀ c : UInt8, (Crc.wide c).toNat = c.toNat := by decide +kernel
  unfold Crc.crc8 Spec.crc8
  rw [h0, key, hw]

theorem u_left {a b : Bytes} {i : Nat} (h : i < a.length) : u (a ++ b) i = u a i := by
  unfold u
  rw [List.getD_eq_getElem?_getD, List.getD_eq_getElem?_getD, List.getElem?_append_left h]

theorem u_right {a b : Bytes} {i : Nat} : u (a ++ b) (a.length + i) = u b i := by
  unfold u
  rw [List.getD_eq_getElem?_getD, List.getD_eq_getElem?_getD, List.getElem?_append_right (by omega)]
  simp

theorem u_end {a b : Bytes} : u (a ++ b) a.length = u b 0 := u_right (i := 0)

theorem u_zero (x : UInt8) (t : Bytes) : u (x :: t) 0 = x.toNat := rfl

theorem u_drop {b : Bytes} {p i : Nat} : u (b.drop p) i = u b (p + i) := by
  unfold u
  rw [List.getD_eq_getElem?_getD, List.getD_eq_getElem?_getD, List.getElem?_drop]

theorem ofNat_toNat {n : Nat} (h : n < 256) : (UInt8.ofNat n).toNat = n := by
  simp [UInt8.toNat_ofNat']
  omega

theorem coded_bytes {n : Nat} (h : n < 65536) (r : Bytes) :
    utfBytes (u (Spec.coded n ++ r) 0) = (Spec.coded n).length ∧ utfVal (Spec.coded n ++ r) 0 = n := by
  unfold Spec.coded
  by_cases h1 : n < 128
  · rw [if_pos h1]
    have e : u ([UInt8.ofNat n] ++ r) 0 = n := ofNat_toNat (by omega)
    have eb : utfBytes n = 1 := by unfold utfBytes; rw [if_pos h1]
    unfold utfVal
    rw [e, eb]
    exact ⟨rfl, rfl⟩
  · rw [if_neg h1]
    by_cases h2 : n < 2048
    · rw [if_pos h2]
      have e0 : u ([UInt8.ofNat (0xC0 + n / 64), UInt8.ofNat (0x80 + n % 64)] ++ r) 0 = 0xC0 + n / 64 := ofNat_toNat (by omega)
      have e1 : u ([UInt8.ofNat (0xC0 + n / 64), UInt8.ofNat (0x80 + n % 64)] ++ r) 1 = 0x80 + n % 64 := ofNat_toNat (by omega)
      have eb : utfBytes (0xC0 + n / 64) = 2 := by unfold utfBytes; rw [if_neg (by omega), if_pos (by omega)]
      unfold utfVal
      rw [e0, eb, e1]
      refine ⟨rfl, ?_⟩
      rw [if_neg (by decide), if_pos rfl]
      omega
    · rw [if_neg h2, if_pos h]
      have e0 : u ([UInt8.ofNat (0xE0 + n / 4096), UInt8.ofNat (0x80 + n / 64 % 64), UInt8.ofNat (0x80 + n % 64)] ++ r) 0
        = 0xE0 + n / 4096 := ofNat_toNat (by omega)
      have e1 : u ([UInt8.ofNat (0xE0 + n / 4096), UInt8.ofNat (0x80 + n / 64 % 64), UInt8.ofNat (0x80 + n % 64)] ++ r) 1
        = 0x80 + n / 64 % 64 := ofNat_toNat (by omega)
      have e2 : u ([UInt8.ofNat (0xE0 + n / 4096), UInt8.ofNat (0x80 + n / 64 % 64), UInt8.ofNat (0x80 + n % 64)] ++ r) 2
        = 0x80 + n % 64 := ofNat_toNat (by omega)
      have eb : utfBytes (0xE0 + n / 4096) = 3 := by
        unfold utfBytes
        rw [if_neg (by omega), if_neg (by omega), if_pos (by omega)]
      unfold utfVal
      rw [e0, eb, e1, e2]
      refine ⟨rfl, ?_⟩
      rw [if_neg (by decide), if_neg (by decide), if_pos rfl]
      omega

theorem utfVal_drop {b : Bytes} {p i : Nat} : utfVal (b.drop p) i = utfVal b (p + i) := by
  unfold utfVal
  simp only [u_drop, Nat.add_assoc]

theorem utfBytes_range (p : Nat) : 1 ≤ utfBytes p ∧ utfBytes p ≤ 9 := by
  unfold utfBytes
  repeat' split
  all_goals omega

/-- The parts of a frame. -/
theorem frame_form (f : Spec.Frame) (n : Nat) (h : f.extra = []) (r : Bytes) :
    f.bytes n ++ r = 0xFF :: 0xF8 :: f.b2 :: f.b3 :: (Spec.coded n ++ (Spec.crc8 (f.head n) :: (f.body ++ r))) := by
  simp [Spec.Frame.bytes, Spec.Frame.head, h]

theorem coded_length (n : Nat) : 1 ≤ (Spec.coded n).length ∧ (Spec.coded n).length ≤ 4 := by
  unfold Spec.coded
  repeat' split
  all_goals simp

theorem frame_length (f : Spec.Frame) (n : Nat) (h : f.extra = []) : 5 + (Spec.coded n).length ≤ (f.bytes n).length := by
  simp [Spec.Frame.bytes, Spec.Frame.head, h]
  omega

/-- The next frame is found where it starts. -/
theorem accept_next {a : Bytes} (f : Spec.Frame) {n : Nat} (h : f.extra = []) (hn : n + 1 < 65536) (r : Bytes) (hl : utfVal (a ++ (f.bytes (n + 1) ++ r)) 4 = n) : accept (a ++ (f.bytes (n + 1) ++ r)) a.length = some true := by
  have hd : (a ++ (f.bytes (n + 1) ++ r)).drop a.length = f.bytes (n + 1) ++ r := List.drop_left
  obtain ⟨c1, c2⟩ := coded_bytes (n := n + 1) hn (Spec.crc8 (f.head (n + 1)) :: (f.body ++ r))
  have g0 : u (a ++ (f.bytes (n + 1) ++ r)) a.length = 255 := by
    have : u (a ++ (f.bytes (n + 1) ++ r)) a.length = u (f.bytes (n + 1) ++ r) 0 := u_right (i := 0)
    rw [this, frame_form f _ h]
    rfl
  have g1 : u (a ++ (f.bytes (n + 1) ++ r)) (a.length + 1) = 248 := by rw [u_right, frame_form f _ h]; rfl
  have g4 : ∀ i, u (a ++ (f.bytes (n + 1) ++ r)) (a.length + (4 + i)) = u (Spec.coded (n + 1) ++ (Spec.crc8 (f.head (n + 1)) :: (f.body ++ r))) i := by
    intro i
    rw [u_right, frame_form f _ h, ← u_drop]
    rfl
  have g4' : utfBytes (u (a ++ (f.bytes (n + 1) ++ r)) (a.length + 4)) = (Spec.coded (n + 1)).length := by
    have : u (a ++ (f.bytes (n + 1) ++ r)) (a.length + 4) = _ := g4 0
    rw [this, c1]
  have gv : utfVal (a ++ (f.bytes (n + 1) ++ r)) (a.length + 4) = n + 1 := by
    rw [← utfVal_drop, hd, frame_form f _ h]
    have := utfVal_drop (b := 0xFF :: 0xF8 :: f.b2 :: f.b3 :: (Spec.coded (n + 1) ++ (Spec.crc8 (f.head (n + 1)) :: (f.body ++ r)))) (p := 4) (i := 0)
    rw [Nat.add_zero] at this
    rw [← this]
    exact c2
  have hflen := frame_length f (n + 1) h
  unfold accept
  rw [if_pos ⟨g0, g1⟩, g4', if_neg (by simp only [List.length_append]; omega), hd, gv, hl]
  have ht : (f.bytes (n + 1) ++ r).take ((Spec.coded (n + 1)).length + 4) = f.head (n + 1) := by
    rw [Spec.Frame.bytes, List.append_assoc, List.append_assoc, List.take_append_of_le_length (by simp [Spec.Frame.head, h]),
      List.take_of_length_le (by simp [Spec.Frame.head, h])]
  have hc : u (a ++ (f.bytes (n + 1) ++ r)) (a.length + ((Spec.coded (n + 1)).length + 4)) = (Spec.crc8 (f.head (n + 1))).toNat := by
    rw [Nat.add_comm _ 4, g4]
    rw [u_end, u_zero]
  rw [ht, hc, crc8_eq]
  simp

theorem take2 {b : Bytes} (h0 : u b 0 = 255) (h1 : u b 1 = 248) : b.take 2 = [0xFF, 0xF8] := by
  match b with
  | [] => simp [u] at h0
  | [x] => simp [u] at h1
  | x :: y :: t =>
    have e0 : x = 0xFF := UInt8.toNat_inj.1 h0
    have e1 : y = 0xF8 := UInt8.toNat_inj.1 h1
    simp [e0, e1]

/-- What the program accepts looks like a header. -/
theorem accept_looks {b : Bytes} {p n : Nat} (hn : utfVal b 4 = n) (hlt : n < 65536) (h : accept b p = some true) : Spec.Looks n (b.drop p) := by
  unfold accept at h
  by_cases hs : u b p = 255 ∧ u b (p + 1) = 248
  · rw [if_pos hs] at h
    by_cases hl : b.length ≤ p + (utfBytes (u b (p + 4)) + 4)
    · rw [if_pos hl] at h; cases h
    · rw [if_neg hl] at h
      have h := Option.some.inj h
      simp only [Bool.and_eq_true, decide_eq_true_eq, Bool.not_eq_true', Bool.and_eq_false_iff, decide_eq_false_iff_not] at h
      obtain ⟨hc, hv⟩ := h
      obtain ⟨r1, r2⟩ := utfBytes_range (u b (p + 4))
      refine ⟨take2 (by rw [u_drop]; exact hs.1) (by rw [u_drop]; exact hs.2), utfBytes (u b (p + 4)) + 4, by omega, by omega, ?_, ?_⟩
      · rw [crc8_eq] at hc
        have hlt' : p + (utfBytes (u b (p + 4)) + 4) < b.length := by omega
        rw [List.getElem?_drop, List.getElem?_eq_getElem hlt']
        congr 1
        apply UInt8.toNat_inj.1
        rw [hc]
        generalize utfBytes (u b (p + 4)) + 4 = k at hlt' ⊢
        unfold u
        rw [List.getD_eq_getElem?_getD, List.getElem?_eq_getElem hlt']
        rfl
      · rw [hn] at hv
        by_cases hz : n = 0
        · exact Or.inl hz
        · right
          have hv' : n + 1 = utfVal b (p + 4) := by
            rcases hv with hv | hv
            · exact Decidable.not_not.1 hv
            · exact absurd hz hv
          have hu : ∀ i, u b (p + (4 + i)) = u (b.drop (p + 4)) i := fun i => by rw [u_drop, Nat.add_assoc]
          have ed : ((b.drop p).take (utfBytes (u b (p + 4)) + 4)).drop 4 = (b.drop (p + 4)).take (utfBytes (u b (p + 4))) := by
            rw [List.drop_take, List.drop_drop, Nat.add_sub_cancel]
          have hlen : utfBytes (u b (p + 4)) < (b.drop (p + 4)).length := by rw [List.length_drop]; omega
          have e0 : u b (p + 4) = u (b.drop (p + 4)) 0 := by rw [u_drop]
          have ev : utfVal b (p + 4) = utfVal (b.drop (p + 4)) 0 := by rw [utfVal_drop]
          rw [ed]
          rw [ev] at hv'
          rw [e0] at hlen ⊢
          generalize b.drop (p + 4) = c at *
          unfold utfVal at hv'
          by_cases k1 : utfBytes (u c 0) = 1
          · rw [if_pos k1] at hv'
            rw [k1] at hlen ⊢
            match c, hlen with
            | x :: t, _ => exact hv'
          · rw [if_neg k1] at hv'
            by_cases k2 : utfBytes (u c 0) = 2
            · rw [if_pos k2] at hv'
              rw [k2] at hlen ⊢
              match c, hlen with
              | x :: y :: t, _ => exact hv'
            · rw [if_neg k2] at hv'
              by_cases k3 : utfBytes (u c 0) = 3
              · rw [if_pos k3] at hv'
                rw [k3] at hlen ⊢
                match c, hlen with
                | x :: y :: z :: t, _ =>
                  have : n + 1 = (x.toNat % 32 * 64 + y.toNat % 64) * 64 + z.toNat % 64 := hv'
                  show n + 1 = x.toNat % 32 * 4096 + y.toNat % 64 * 64 + z.toNat % 64
                  omega
              · rw [if_neg k3] at hv'
                exfalso
                by_cases k4 : utfBytes (u c 0) = 4
                · rw [if_pos k4] at hv'
                  have : u c 0 / 8 = 30 := by
                    unfold utfBytes at k4
                    repeat' split at k4
                    all_goals omega
                  omega
                · rw [if_neg k4] at hv'
                  omega
  · rw [if_neg hs] at h
    cases h

/-- Inside a clear frame nothing is accepted. -/
theorem accept_clear {b : Bytes} {n len p : Nat} (hn : utfVal b 4 = n) (hlt : n < 65536) (hc : Spec.Clear n len b) (h2 : 2 ≤ p) (hp : p < len) :
    accept b p = some false := by
  cases ha : accept b p with
  | none =>
    exfalso
    unfold accept at ha
    by_cases hs : u b p = 255 ∧ u b (p + 1) = 248
    · rw [if_pos hs] at ha
      have := (hc p h2 hp (take2 (by rw [u_drop]; exact hs.1) (by rw [u_drop]; exact hs.2))).1
      rw [List.length_drop] at this
      obtain ⟨r1, r2⟩ := utfBytes_range (u b (p + 4))
      rw [if_neg (by omega)] at ha
      cases ha
    · rw [if_neg hs] at ha; cases ha
  | some v =>
    cases v with
    | false => rfl
    | true =>
      exfalso
      have hl := accept_looks hn hlt ha
      exact (hc p h2 hp hl.1).2 hl

theorem search_to {b : Bytes} {len : Nat} (hb : len ≤ b.length) : ∀ (k n p : Nat), len = p + k → k < n → (∀ q, p ≤ q → q < len → accept b q = some false) →
    search b n p = if b.length = len then some none else (accept b len).bind fun a => if a then some (some len) else search b (n - k - 1) (len + 1) := by
  intro k
  induction k with
  | zero =>
    intro n p hk hn _
    obtain ⟨m, rfl⟩ : ∃ m, n = m + 1 := ⟨n - 1, by omega⟩
    rw [Nat.add_zero] at hk
    subst hk
    simp only [search]
    by_cases h : b.length = len
    · rw [if_pos (by omega), if_pos h]
    · rw [if_neg (by omega), if_neg h]
      rfl
  | succ k ih =>
    intro n p hk hn hq
    obtain ⟨m, rfl⟩ : ∃ m, n = m + 1 := ⟨n - 1, by omega⟩
    simp only [search]
    rw [if_neg (by omega), hq p (Nat.le_refl _) (by omega)]
    simp only [Option.bind_some, Bool.false_eq_true, if_false]
    rw [ih m (p + 1) (by omega) (by omega) (fun q h1 h2 => hq q (by omega) h2)]
    rw [show m + 1 - (k + 1) - 1 = m - k - 1 from by omega]

theorem frame_rate (f : Spec.Frame) (n rate : Nat) (h : f.Common rate) (r : Bytes) : frameRate (f.bytes n ++ r) = rate := by
  rw [frame_form f n h.1]
  have key : ∀ c < 16, ∀ x, Spec.rates.lookup c = some x →
      [0, 88200, 176400, 192000, 8000, 16000, 22050, 24000, 32000, 44100, 48000, 96000, 1, 2, 3, 0].getD c 0 = x := by
    intro c hc x hx
    match c, hc with
    | 0, _ | 1, _ | 2, _ | 3, _ | 4, _ | 5, _ | 6, _ | 7, _ | 8, _ | 9, _ | 10, _ | 11, _ | 12, _ | 13, _ | 14, _ | 15, _ =>
      simp [Spec.rates, List.lookup] at hx
      try exact hx
  unfold frameRate
  have e0 : ∀ t : Bytes, u (0xFF :: t) 0 = 255 := fun _ => rfl
  have e1 : ∀ (x : UInt8) (t : Bytes), u (x :: 0xF8 :: t) 1 = 248 := fun _ _ => rfl
  have e2 : ∀ (x y z : UInt8) (t : Bytes), u (x :: y :: z :: t) 2 = z.toNat := fun _ _ _ _ => rfl
  rw [e0, e1, e2, if_neg (by decide)]
  exact key _ (by omega) _ h.2

theorem frame_number (f : Spec.Frame) {n : Nat} (hn : n < 65536) (h : f.extra = []) (r : Bytes) : utfVal (f.bytes n ++ r) 4 = n := by
  rw [frame_form f n h]
  have := utfVal_drop (b := 0xFF :: 0xF8 :: f.b2 :: f.b3 :: (Spec.coded n ++ (Spec.crc8 (f.head n) :: (f.body ++ r)))) (p := 4) (i := 0)
  rw [Nat.add_zero] at this
  rw [← this]
  exact (coded_bytes hn _).2

theorem cut_frames {rate block : Nat} (hb : 2 < block) : ∀ (fs : List Spec.Frame) (n pos fuel : Nat), fs ≠ [] → fs.length ≤ fuel → n + fs.length ≤ 65536 →
    (∀ f ∈ fs, f.Common rate) → Spec.AllClear n fs →
    cut rate block fuel (n * block) pos (Spec.frames n fs) = some ((Spec.packets rate block n pos fs).map fun x => { time := x.1, pos := x.2.1, data := x.2.2 }) := by
  intro fs
  induction fs with
  | nil => intro n pos fuel h; exact absurd rfl h
  | cons f t ih =>
    intro n pos fuel _ hf hn hcom hcl
    obtain ⟨m, rfl⟩ : ∃ m, fuel = m + 1 := ⟨fuel - 1, by simp only [List.length_cons] at hf; omega⟩
    simp only [List.length_cons] at hf hn
    have hc := hcom f (by simp)
    have hlen := frame_length f n hc.1
    have hnum := frame_number f (n := n) (by omega) hc.1 (Spec.frames (n + 1) t)
    have hle : (f.bytes n).length ≤ (Spec.frames n (f :: t)).length := by simp only [Spec.frames, List.length_append]; omega
    have hsearch := search_to hle ((f.bytes n).length - 2) (Spec.frames n (f :: t)).length 2 (by omega) (by omega)
      (fun q h1 h2 => accept_clear hnum (by omega) hcl.1 h1 h2)
    simp only [cut]
    rw [if_neg (by intro h0; rw [h0] at hle; simp at hle; simp [hle] at hlen), if_neg (by omega), hsearch]
    cases t with
    | nil =>
      have e : Spec.frames n [f] = f.bytes n := by simp [Spec.frames]
      rw [if_pos (by rw [e])]
      simp only [Option.bind_some, e, Spec.packets, List.map_cons, List.map_nil]
    | cons g t =>
      have hcg := hcom g (by simp)
      have hlg := frame_length g (n + 1) hcg.1
      simp only [List.length_cons] at hn hf
      rw [if_neg (by simp only [Spec.frames, List.length_append]; omega)]
      have ha : accept (Spec.frames n (f :: g :: t)) (f.bytes n).length = some true := by
        exact accept_next g hcg.1 (by omega) (Spec.frames (n + 1 + 1) t) hnum
      rw [ha]
      simp only [Option.bind_some, if_true]
      have hr : frameRate (Spec.frames n (f :: g :: t)) = rate := frame_rate f n rate hc _
      rw [hr]
      simp only [ne_eq, not_true_eq_false, if_false]
      have ed : (Spec.frames n (f :: g :: t)).drop (f.bytes n).length = Spec.frames (n + 1) (g :: t) := List.drop_left
      have et : (Spec.frames n (f :: g :: t)).take (f.bytes n).length = f.bytes n := List.take_left
      have hi := ih (n + 1) (pos + (f.bytes n).length) m (by simp) (by simp only [List.length_cons]; omega)
        (by simp only [List.length_cons]; omega) (fun x hx => hcom x (by simp [hx])) hcl.2
      rw [ed, et, show n * block + block = (n + 1) * block from by rw [Nat.add_mul, Nat.one_mul], hi]
      rfl

end Verif.Flac
