import Verif.Mp3.Model
import Verif.Mp3.Spec

/-!
# C112: MP3 files
-/

namespace Verif.Mp3
open Verif

/-- The frames of which the reader knows the size: all but layer 1 at 44.1 and 22.05 kHz and layer 3 of MPEG-2. -/
def Known (i : Spec.Info) : Prop :=
  ¬(i.layer = 1 ∧ (i.rate = 44100 ∨ i.rate = 22050)) ∧ ¬(i.layer = 3 ∧ i.mpeg1 = false)

instance (i : Spec.Info) : Decidable (Known i) := by unfold Known; infer_instance

theorem headOf_known : ∀ (ver lay : Fin 4) (br : Fin 16) (sr : Fin 4) (pad : Fin 2),
    ((Spec.infoOf ver lay br sr pad).all fun i => !decide (Known i) ||
      (decide (i.bytes ≤ 3000 ∧ 4 ≤ i.bytes) && (headOf (ver.val % 2) lay br sr pad).any fun h =>
        h.size == i.bytes && h.rate == i.rate && (i.mpeg1 && i.layer == 1 || h.count == i.samples))) = true := by
  decide +kernel

theorem head_known {b f : Bytes} {i : Spec.Info} (h1 : u b 1 = Spec.at_ f 1) (h2 : u b 2 = Spec.at_ f 2)
    (hi : Spec.info f = some i) (hk : Known i) :
    i.bytes ≤ 3000 ∧ 4 ≤ i.bytes ∧ ∃ h, head b = some h ∧ h.size = i.bytes ∧ h.rate = i.rate
      ∧ (i.mpeg1 = false ∨ i.layer ≠ 1 → h.count = i.samples) := by
  have hd := headOf_known ⟨Spec.at_ f 1 / 8 % 4, by omega⟩ ⟨Spec.at_ f 1 / 2 % 4, by omega⟩
    ⟨Spec.at_ f 2 / 16 % 16, by omega⟩ ⟨Spec.at_ f 2 / 4 % 4, by omega⟩ ⟨Spec.at_ f 2 / 2 % 2, by omega⟩
  have hi' : Spec.infoOf (Spec.at_ f 1 / 8 % 4) (Spec.at_ f 1 / 2 % 4) (Spec.at_ f 2 / 16 % 16)
    (Spec.at_ f 2 / 4 % 4) (Spec.at_ f 2 / 2 % 2) = some i := hi
  have e : Spec.at_ f 1 / 8 % 4 % 2 = Spec.at_ f 1 / 8 % 2 := by omega
  simp only [hi', Option.all_some, hk, decide_true, Bool.not_true, Bool.false_or, Bool.and_eq_true,
    decide_eq_true_eq, e] at hd
  obtain ⟨⟨hb, hb'⟩, hd⟩ := hd
  have hh : head b = headOf (Spec.at_ f 1 / 8 % 2) (Spec.at_ f 1 / 2 % 4) (Spec.at_ f 2 / 16 % 16)
    (Spec.at_ f 2 / 4 % 4) (Spec.at_ f 2 / 2 % 2) := by unfold head; rw [h1, h2]
  refine ⟨hb, hb', ?_⟩
  rw [hh]
  revert hd
  cases headOf (Spec.at_ f 1 / 8 % 2) (Spec.at_ f 1 / 2 % 4) (Spec.at_ f 2 / 16 % 16)
    (Spec.at_ f 2 / 4 % 4) (Spec.at_ f 2 / 2 % 2) with
  | none => intro hd; simp at hd
  | some h =>
    intro hd
    simp only [Option.any_some, Bool.and_eq_true, Bool.or_eq_true, beq_iff_eq] at hd
    refine ⟨h, rfl, hd.1.1, hd.1.2, ?_⟩
    intro hc
    rcases hd.2 with h' | h'
    · rcases hc with hc | hc
      · simp [hc] at h'
      · exact absurd h'.2 hc
    · exact h'

theorem memFF_none {b : Bytes} (h : (0xFF : UInt8) ∉ b) : memFF b = none := by
  induction b with
  | nil => rfl
  | cons x t ih =>
    simp only [List.mem_cons, not_or] at h
    unfold memFF
    rw [if_neg (by simpa using fun e => h.1 e.symm), ih h.2]
    rfl

theorem memFF_first {b r : Bytes} (h : (0xFF : UInt8) ∉ b) : memFF (b ++ 0xFF :: r) = some b.length := by
  induction b with
  | nil => simp [memFF]
  | cons x t ih =>
    simp only [List.mem_cons, not_or] at h
    simp only [List.cons_append]
    unfold memFF
    rw [if_neg (by simpa using fun e => h.1 e.symm), ih h.2]
    simp

theorem u_append {a b : Bytes} {i : Nat} (h : i < a.length) : u (a ++ b) i = u a i := by
  simp [u, List.getElem?_append_left h]

theorem u_append_right {a b : Bytes} (i : Nat) : u (a ++ b) (a.length + i) = u b i := by
  simp [u, List.getElem?_append_right]

theorem frame_cons {i : Spec.Info} {f : Bytes} (hf : Spec.Frame i f) (h4 : 4 ≤ i.bytes) : ∃ t, f = 0xFF :: t := by
  obtain ⟨h0, -, -, hl⟩ := hf
  cases f with
  | nil => simp at hl; omega
  | cons x t =>
    refine ⟨t, ?_⟩
    have : x.toNat = 255 := by simpa [Spec.at_] using h0
    have : x = 0xFF := by
      apply UInt8.toNat_inj.mp
      simpa using this
    rw [this]

theorem emit_frame {i : Spec.Info} {f r : Bytes} (pos : Nat) (t : Rat) (hf : Spec.Frame i f) (hk : Known i) :
    ∃ h : Head, emit (f ++ r) pos t = some (⟨t.floor.toNat, pos, f⟩, ⟨f ++ r, pos + f.length, after t h⟩)
      ∧ h.rate = i.rate ∧ (i.mpeg1 = false ∨ i.layer ≠ 1 → h.count = i.samples) := by
  obtain ⟨-, -, hi, hl⟩ := hf
  have h4 := (head_known (b := f) rfl rfl hi hk).2.1
  obtain ⟨-, -, h, hh, hs, hr, hc⟩ := head_known (b := f ++ r) (f := f) (i := i)
    (u_append (by omega)) (u_append (by omega)) hi hk
  refine ⟨h, ?_, hr, hc⟩
  unfold emit
  simp only [hh, Option.bind_some]
  have hsz : h.size = f.length := by omega
  rw [if_neg (by omega), hsz]
  simp

theorem drop_here {pre x post : Bytes} {pos : Nat} (h : pre.length = pos) : (pre ++ x ++ post).drop pos = x ++ post := by
  subst h; simp

theorem fread_frame {file f rest : Bytes} {pos : Nat} (buf : Bytes) (h : file.drop pos = f ++ rest) (hl : f.length ≤ 3000) :
    ∃ r, fread file pos buf = f ++ r := by
  unfold fread
  rw [h, List.take_append, List.take_of_length_le hl, List.append_assoc]
  exact ⟨_, rfl⟩

theorem getNext_frame {file junk f rest : Bytes} {i : Spec.Info} {s : St} (h : file.drop s.pos = junk ++ f ++ rest)
    (hj : (0xFF : UInt8) ∉ junk) (hjl : junk.length < 2999) (hf : Spec.Frame i f) (hk : Known i) :
    ∃ (hd : Head) (buf : Bytes), getNext file s
        = some (⟨s.time.floor.toNat, s.pos + junk.length, f⟩, ⟨buf, s.pos + junk.length + f.length, after s.time hd⟩)
      ∧ hd.rate = i.rate ∧ (i.mpeg1 = false ∨ i.layer ≠ 1 → hd.count = i.samples) := by
  have hb := head_known (b := f) rfl rfl hf.2.2.1 hk
  have hl : f.length = i.bytes := hf.2.2.2
  obtain ⟨ft, hft⟩ := frame_cons hf hb.2.1
  have hne : ¬(file.drop s.pos).length = 0 := by
    rw [h]; simp only [List.length_append]; omega
  have hsync : u f 0 = 0xFF ∧ u f 1 / 32 = 7 := ⟨hf.1, hf.2.1⟩
  by_cases hjn : junk = []
  · subst hjn
    simp only [List.nil_append] at h
    obtain ⟨r, hr⟩ := fread_frame s.buf h (by omega)
    obtain ⟨hd, he, h1, h2⟩ := emit_frame (r := r) s.pos s.time hf hk
    refine ⟨hd, f ++ r, ?_, h1, h2⟩
    unfold getNext
    rw [if_neg hne, hr]
    have : synced (f ++ r) = true := by
      unfold synced
      rw [u_append (by omega), u_append (by omega), hsync.1, hsync.2]
      rfl
    rw [if_pos this, he]
    simp
  · have hjp : 0 < junk.length := List.length_pos_iff.mpr hjn
    have hdrop : file.drop (s.pos + junk.length) = f ++ rest := by
      rw [← List.drop_drop, h, List.append_assoc, List.drop_left]
    obtain ⟨r, hr⟩ := fread_frame (fread file s.pos s.buf) hdrop (by omega)
    obtain ⟨hd, he, h1, h2⟩ := emit_frame (r := r) (s.pos + junk.length) s.time hf hk
    refine ⟨hd, f ++ r, ?_, h1, h2⟩
    have htake : ∃ g, (file.drop s.pos).take 3000 = junk ++ f.take 2 ++ g := by
      rw [h]
      obtain ⟨m, hm⟩ : ∃ m, 3000 - junk.length = 2 + m := ⟨3000 - junk.length - 2, by omega⟩
      refine ⟨((f ++ rest).drop 2).take m, ?_⟩
      rw [List.append_assoc, List.take_append, List.take_of_length_le (by omega), List.append_assoc]
      congr 1
      have : f.take 2 = (f ++ rest).take 2 := by
        rw [List.take_append_of_le_length (by omega)]
      rw [this, hm, List.take_add]
    obtain ⟨g, hg⟩ := htake
    have hbuf : fread file s.pos s.buf = junk ++ f.take 2 ++ (g ++ s.buf.drop (junk ++ f.take 2 ++ g).length) := by
      unfold fread
      rw [hg]
      simp
    have hjx : ∀ j : Nat, j < junk.length → u junk j ≠ 0xFF := by
      intro j hj' hu
      apply hj
      have hgd : u junk j = (junk[j]).toNat := by simp [u, List.getElem?_eq_getElem hj']
      rw [hgd] at hu
      have : junk[j] = 0xFF := by
        apply UInt8.toNat_inj.mp
        simpa using hu
      rw [← this]
      exact List.getElem_mem _
    have hns : synced (fread file s.pos s.buf) = false := by
      unfold synced
      rw [hbuf, List.append_assoc, u_append hjp]
      simp [hjx 0 hjp]
    have h2l : (f.take 2).length = 2 := by simp; omega
    have hoff : offset (fread file s.pos s.buf) ((file.drop s.pos).take 3000).length = some junk.length := by
      unfold offset
      have hm : memFF ((fread file s.pos s.buf).take ((file.drop s.pos).take 3000).length) = some junk.length := by
        have : (fread file s.pos s.buf).take ((file.drop s.pos).take 3000).length = (file.drop s.pos).take 3000 := by
          unfold fread
          rw [List.take_left]
        rw [this, hg, hft]
        simp only [List.take_succ_cons, List.append_assoc, List.cons_append]
        exact memFF_first hj
      rw [hm]
      obtain ⟨k, hk'⟩ : ∃ k, junk.length = k + 1 := ⟨junk.length - 1, by omega⟩
      rw [hk']
      simp only
      have hch : ∀ n, chase (fread file s.pos s.buf) n (fread file s.pos s.buf).length (k + 1) = true := by
        intro n
        have hlen : (fread file s.pos s.buf).length ≠ 0 := by
          rw [hbuf]; simp only [List.length_append]; omega
        obtain ⟨m, hm'⟩ : ∃ m, (fread file s.pos s.buf).length = m + 1 := ⟨_, (Nat.succ_pred hlen).symm⟩
        rw [hm']
        unfold chase
        have : u (fread file s.pos s.buf) (k + 1 + 1) / 32 = 7 := by
          rw [hbuf, List.append_assoc, ← hk', u_append_right, u_append (by omega)]
          have : u (f.take 2) 1 = u f 1 := by
            unfold u
            simp
          rw [this]
          exact hsync.2
        simp [this]
      rw [if_pos (hch _)]
    unfold getNext
    rw [if_neg hne, if_neg (by rw [hns]; simp), hoff]
    simp only [Option.bind_some]
    rw [hr, he]

theorem getNext_end {file junk : Bytes} {s : St} (h : file.drop s.pos = junk) (hj : (0xFF : UInt8) ∉ junk) :
    getNext file s = none := by
  unfold getNext
  by_cases hn : junk = []
  · rw [if_pos (by rw [h, hn]; rfl)]
  · have hjp : 0 < junk.length := List.length_pos_iff.mpr hn
    rw [if_neg (by rw [h]; omega)]
    have hjt : (0xFF : UInt8) ∉ junk.take 3000 := fun hm => hj (List.mem_of_mem_take hm)
    have hns : synced (fread file s.pos s.buf) = false := by
      unfold synced fread
      rw [h, u_append (by simp; omega)]
      have : u (junk.take 3000) 0 ≠ 0xFF := by
        intro hu
        apply hj
        cases junk with
        | nil => simp at hjp
        | cons x t =>
          have : x.toNat = 255 := by simpa [u] using hu
          have : x = 0xFF := by
            apply UInt8.toNat_inj.mp
            simpa using this
          rw [this]
          simp
      simp [this]
    rw [if_neg (by rw [hns]; simp)]
    have : offset (fread file s.pos s.buf) ((file.drop s.pos).take 3000).length = none := by
      unfold offset fread
      rw [List.take_left, h, memFF_none hjt]
    rw [this]
    rfl

/-- Frames, each after bytes without 0xFF, read one by one. -/
theorem loop_join {file tail : Bytes} (ht : (0xFF : UInt8) ∉ tail) :
    ∀ (segs : List (Bytes × Bytes)) (s : St) (fuel : Nat), segs.length < fuel →
      file.drop s.pos = Spec.join segs ++ tail →
      (∀ p ∈ segs, (0xFF : UInt8) ∉ p.1 ∧ p.1.length < 2999 ∧ ∃ i, Spec.Frame i p.2 ∧ Known i) →
      (loop file fuel s).map (fun p => (p.pos, p.data)) = Spec.places s.pos segs := by
  intro segs
  induction segs with
  | nil =>
    intro s fuel hfu h _
    obtain ⟨n, rfl⟩ : ∃ n, fuel = n + 1 := ⟨fuel - 1, by simp at hfu; omega⟩
    unfold loop
    rw [getNext_end (by simpa [Spec.join] using h) ht]
    rfl
  | cons p t ih =>
    intro s fuel hfu h hall
    obtain ⟨n, rfl⟩ : ∃ n, fuel = n + 1 := ⟨fuel - 1, by simp at hfu; omega⟩
    obtain ⟨hj, hjl, i, hf, hk⟩ := hall p (by simp)
    have h' : file.drop s.pos = p.1 ++ p.2 ++ (Spec.join t ++ tail) := by
      rw [h]; simp [Spec.join]
    obtain ⟨hd, buf, hg, -, -⟩ := getNext_frame h' hj hjl hf hk
    unfold loop
    rw [hg]
    simp only [List.map_cons, Spec.places]
    rw [ih _ n (by simp at hfu; omega) _ (fun q hq => hall q (by simp [hq]))]
    show file.drop (s.pos + p.1.length + p.2.length) = _
    rw [← List.drop_drop, ← List.drop_drop, h']
    simp

/-- Their times. -/
theorem loop_times {file tail : Bytes} (ht : (0xFF : UInt8) ∉ tail) :
    ∀ (segs : List (Bytes × Bytes)) (is : List Spec.Info) (s : St) (fuel : Nat), segs.length < fuel →
      file.drop s.pos = Spec.join segs ++ tail →
      (∀ p ∈ segs, (0xFF : UInt8) ∉ p.1 ∧ p.1.length < 2999
        ∧ ∃ i, Spec.Frame i p.2 ∧ Known i ∧ (i.mpeg1 = false ∨ i.layer ≠ 1)) →
      segs.map (fun p => Spec.info p.2) = is.map some →
      (loop file fuel s).map (fun p => p.time) = Spec.times s.time is := by
  intro segs
  induction segs with
  | nil =>
    intro is s fuel hfu h _ hall
    have : is = [] := by cases is with
      | nil => rfl
      | cons _ _ => simp at hall
    subst this
    obtain ⟨n, rfl⟩ : ∃ n, fuel = n + 1 := ⟨fuel - 1, by simp at hfu; omega⟩
    unfold loop
    rw [getNext_end (by simpa [Spec.join] using h) ht]
    rfl
  | cons p t ih =>
    intro is s fuel hfu h hjs hall
    obtain ⟨n, rfl⟩ : ∃ n, fuel = n + 1 := ⟨fuel - 1, by simp at hfu; omega⟩
    obtain ⟨hj, hjl, i, hf, hk, hc⟩ := hjs p (by simp)
    obtain ⟨is', rfl, hall'⟩ : ∃ is', is = i :: is' ∧ t.map (fun p => Spec.info p.2) = is'.map some := by
      cases is with
      | nil => simp at hall
      | cons i' is' =>
        simp only [List.map_cons, List.cons.injEq] at hall
        have he := hall.1
        rw [hf.2.2.1] at he
        exact ⟨is', by rw [Option.some.inj he], hall.2⟩
    have h' : file.drop s.pos = p.1 ++ p.2 ++ (Spec.join t ++ tail) := by
      rw [h]; simp [Spec.join]
    obtain ⟨hd, buf, hg, hrate, hcount⟩ := getNext_frame h' hj hjl hf hk
    unfold loop
    rw [hg]
    simp only [List.map_cons, Spec.times]
    rw [ih is' _ n (by simp at hfu; omega) _ (fun q hq => hjs q (by simp [hq])) hall']
    · simp only [after, Spec.Info.ms, hrate, hcount hc]
    · show file.drop (s.pos + p.1.length + p.2.length) = _
      rw [← List.drop_drop, ← List.drop_drop, h']
      simp

theorem join_length : ∀ (segs : List (Bytes × Bytes)), (∀ p ∈ segs, 0 < p.2.length) → segs.length ≤ (Spec.join segs).length := by
  intro segs
  induction segs with
  | nil => intro _; simp [Spec.join]
  | cons p t ih =>
    intro h
    have h1 := h p (by simp)
    have h2 := ih (fun q hq => h q (by simp [hq]))
    simp only [Spec.join, List.length_cons, List.length_append]
    omega

/-- The file begins with a tag whose size the reader computes, or has no tag and nothing taken for one. -/
def Begins (tag file : Bytes) : Prop :=
  (tag = [] ∧ Spec.at_ file 0 ≠ 0x49 ∧ Spec.at_ file 1 ≠ 0x44 ∧ Spec.at_ file 2 ≠ 0x33)
    ∨ ∃ n footer, Spec.Tag n footer tag ∧ n % 128 + 10 + (if footer then 10 else 0) < 128

theorem or_sum {a b c d : Nat} (hb : b < 128) (hc : c < 128) (hd : d < 128) :
    a * 2 ^ 21 ||| b * 2 ^ 14 ||| c * 2 ^ 7 ||| d = ((a * 128 + b) * 128 + c) * 128 + d := by
  have e1 : a * 2 ^ 21 ||| b * 2 ^ 14 = 2 ^ 14 * (a * 128 + b) := by
    have h := Nat.two_pow_add_eq_or_of_lt (b := b * 2 ^ 14) (i := 21) (by omega) a
    rw [Nat.mul_comm a, ← h]
    omega
  have e2 : 2 ^ 14 * (a * 128 + b) ||| c * 2 ^ 7 = 2 ^ 7 * ((a * 128 + b) * 128 + c) := by
    have h := Nat.two_pow_add_eq_or_of_lt (b := c * 2 ^ 7) (i := 14) (by omega) (a * 128 + b)
    rw [← h]
    omega
  have e3 : 2 ^ 7 * ((a * 128 + b) * 128 + c) ||| d = 2 ^ 7 * ((a * 128 + b) * 128 + c) + d :=
    (Nat.two_pow_add_eq_or_of_lt (b := d) (i := 7) (by omega) _).symm
  rw [e1, e2, e3]
  omega

theorem start_begins {tag file : Bytes} (h : Begins tag file) (hp : ∃ r, file = tag ++ r) : start file = tag.length := by
  rcases h with ⟨rfl, h0, h1, h2⟩ | ⟨n, footer, ⟨v0, v1, fl, s0, s1, s2, s3, body, foot, ht, a0, a1, a2, a3, hn, hb, hfo, hfl⟩, hs⟩
  · unfold start
    have : (u file 0 == 0x49 || u file 1 == 0x44 || u file 2 == 0x33) = false := by
      simp only [Bool.or_eq_false_iff, beq_eq_false_iff_ne]
      exact ⟨⟨h0, h1⟩, h2⟩
    rw [this]
    rfl
  · obtain ⟨r, hr⟩ := hp
    have hf : file = [0x49, 0x44, 0x33, v0, v1, fl, s0, s1, s2, s3] ++ (body ++ foot ++ r) := by
      rw [hr, ht]; simp
    have g0 : u file 0 = 0x49 := by rw [hf]; rfl
    have g5 : u file 5 = fl.toNat := by rw [hf]; rfl
    have g6 : u file 6 = s0.toNat := by rw [hf]; rfl
    have g7 : u file 7 = s1.toNat := by rw [hf]; rfl
    have g8 : u file 8 = s2.toNat := by rw [hf]; rfl
    have g9 : u file 9 = s3.toNat := by rw [hf]; rfl
    have hx : (if fl.toNat / 16 % 2 = 1 then 10 else 0) = (if footer then 10 else 0) := by
      rw [hfo]; by_cases hq : fl.toNat / 16 % 2 = 1 <;> simp [hq]
    unfold start
    rw [g0, g5, g6, g7, g8, g9, hx]
    simp only [beq_self_eq_true, Bool.true_or, if_true]
    rw [or_sum (by omega) (by omega) (by omega), ht]
    simp only [List.length_append, List.length_cons, List.length_nil, hb, hfl]
    omega

theorem start_drop {tag file rest : Bytes} (h : Begins tag file) (hf : file = tag ++ rest) :
    file.drop (start file) = rest := by
  rw [start_begins h ⟨rest, hf⟩, hf, List.drop_left]

/-- **C112** (part: not layer 1 at 44.1 and 22.05 kHz, not layer 3 of MPEG-2; tags whose size does not carry; bytes
between frames without 0xFF).  The packets of a file are its frames: each once, in order, whole, with its place in the
file, whatever tag precedes them and whatever bytes stand between and after them. -/
theorem C112_frames_partial (tag tail : Bytes) (segs : List (Bytes × Bytes)) (file : Bytes)
    (hf : file = tag ++ Spec.join segs ++ tail) (hb : Begins tag file)
    (hs : ∀ p ∈ segs, (0xFF : UInt8) ∉ p.1 ∧ p.1.length < 2999 ∧ ∃ i, Spec.Frame i p.2 ∧ Known i)
    (ht : (0xFF : UInt8) ∉ tail) :
    (packets file).map (fun p => (p.pos, p.data)) = Spec.places tag.length segs := by
  have hlen : segs.length ≤ (Spec.join segs).length := by
    apply join_length
    intro p hp
    obtain ⟨-, -, i, hfr, hk⟩ := hs p hp
    have := (head_known (b := p.2) rfl rfl hfr.2.2.1 hk).2.1
    have := hfr.2.2.2
    omega
  have hl : file.length = tag.length + (Spec.join segs).length + tail.length := by rw [hf]; simp; omega
  have h := loop_join (file := file) ht segs { buf := List.replicate 3000 0, pos := start file, time := 0 }
    (file.length + 1) (by omega) (start_drop hb (by rw [hf, List.append_assoc])) hs
  unfold packets
  rw [h, start_begins hb ⟨_, by rw [hf, List.append_assoc]⟩]

/-- **C112** (part: neither layer 1 of MPEG-1; times added up exactly).  The packets have the times of their frames: the
whole milliseconds of all the samples before. -/
theorem C112_times_partial (tag tail : Bytes) (segs : List (Bytes × Bytes)) (is : List Spec.Info) (file : Bytes)
    (hf : file = tag ++ Spec.join segs ++ tail) (hb : Begins tag file)
    (hs : ∀ p ∈ segs, (0xFF : UInt8) ∉ p.1 ∧ p.1.length < 2999
      ∧ ∃ i, Spec.Frame i p.2 ∧ Known i ∧ (i.mpeg1 = false ∨ i.layer ≠ 1))
    (hi : segs.map (fun p => Spec.info p.2) = is.map some) (ht : (0xFF : UInt8) ∉ tail) :
    (packets file).map (fun p => p.time) = Spec.times 0 is := by
  have hlen : segs.length ≤ (Spec.join segs).length := by
    apply join_length
    intro p hp
    obtain ⟨-, -, i, hfr, hk, -⟩ := hs p hp
    have := (head_known (b := p.2) rfl rfl hfr.2.2.1 hk).2.1
    have := hfr.2.2.2
    omega
  have hl : file.length = tag.length + (Spec.join segs).length + tail.length := by rw [hf]; simp; omega
  exact loop_times (file := file) ht segs is { buf := List.replicate 3000 0, pos := start file, time := 0 }
    (file.length + 1) (by omega) (start_drop hb (by rw [hf, List.append_assoc])) hs hi

theorem rate_info : ∀ (ver lay : Fin 4) (br : Fin 16) (sr : Fin 4) (pad : Fin 2),
    ((Spec.infoOf ver lay br sr pad).all fun i => sampleRate (1 - ver.val % 2) sr == some i.rate) = true := by
  decide +kernel

/-- **C112** (part: not two separate channels).  The track has the sample rate and the channels of the first frame. -/
theorem C112_format_partial (tag f rest file : Bytes) (i : Spec.Info) (hf : file = tag ++ (f ++ rest)) (hb : Begins tag file)
    (hfr : Spec.Frame i f) (hl : 4 ≤ f.length) (hm : Spec.at_ f 3 / 64 ≠ 2) :
    format file = some (i.rate, Spec.channels f) := by
  have hi : Spec.infoOf (Spec.at_ f 1 / 8 % 4) (Spec.at_ f 1 / 2 % 4) (Spec.at_ f 2 / 16 % 16)
    (Spec.at_ f 2 / 4 % 4) (Spec.at_ f 2 / 2 % 2) = some i := hfr.2.2.1
  have hd := rate_info ⟨Spec.at_ f 1 / 8 % 4, by omega⟩ ⟨Spec.at_ f 1 / 2 % 4, by omega⟩
    ⟨Spec.at_ f 2 / 16 % 16, by omega⟩ ⟨Spec.at_ f 2 / 4 % 4, by omega⟩ ⟨Spec.at_ f 2 / 2 % 2, by omega⟩
  have e : Spec.at_ f 1 / 8 % 4 % 2 = Spec.at_ f 1 / 8 % 2 := by omega
  simp only [hi, Option.all_some, e, beq_iff_eq] at hd
  unfold format
  rw [start_drop hb hf, u_append (by omega), u_append (by omega), u_append (by omega)]
  have hu : ∀ k, u f k = Spec.at_ f k := fun _ => rfl
  rw [hu, hu, hu, hd]
  have hx : Spec.at_ f 3 < 256 := UInt8.toNat_lt _
  simp only [Option.map_some, Spec.channels]
  congr 2
  split <;> omega

theorem emit_pos {buf : Bytes} {pos : Nat} {t : Rat} {p : Pkt} {s : St} (h : emit buf pos t = some (p, s)) :
    p.pos = pos ∧ p.pos + p.data.length ≤ s.pos := by
  unfold emit at h
  cases hh : head buf with
  | none => rw [hh] at h; simp at h
  | some x =>
    rw [hh] at h
    simp only [Option.bind_some] at h
    split at h
    · simp at h
    · simp only [Option.some.injEq, Prod.mk.injEq] at h
      obtain ⟨rfl, rfl⟩ := h
      simp
      omega

theorem getNext_pos {file : Bytes} {s s' : St} {p : Pkt} (h : getNext file s = some (p, s')) :
    s.pos ≤ p.pos ∧ p.pos + p.data.length ≤ s'.pos := by
  unfold getNext at h
  split at h
  · simp at h
  split at h
  · have := emit_pos h
    omega
  · cases ho : offset (fread file s.pos s.buf) ((file.drop s.pos).take 3000).length with
    | none => rw [ho] at h; simp at h
    | some off =>
      rw [ho] at h
      simp only [Option.bind_some] at h
      have := emit_pos h
      omega

theorem loop_order {file : Bytes} : ∀ (fuel : Nat) (s : St),
    (∀ p ∈ loop file fuel s, s.pos ≤ p.pos)
      ∧ (loop file fuel s).Pairwise (fun p q => p.pos + p.data.length ≤ q.pos) := by
  intro fuel
  induction fuel with
  | zero => intro s; simp [loop]
  | succ n ih =>
    intro s
    unfold loop
    cases hg : getNext file s with
    | none => simp
    | some x =>
      obtain ⟨p, s'⟩ := x
      have hp := getNext_pos hg
      obtain ⟨h1, h2⟩ := ih s'
      refine ⟨?_, ?_⟩
      · intro q hq
        simp only [List.mem_cons] at hq
        rcases hq with rfl | hq
        · exact hp.1
        · have := h1 q hq
          omega
      · refine List.Pairwise.cons ?_ h2
        intro q hq
        have := h1 q hq
        omega

/-- **C112**.  Of any file whatever, no two packets share bytes, and they come in the order of the file. -/
theorem C112_order (file : Bytes) : (packets file).Pairwise (fun p q => p.pos + p.data.length ≤ q.pos) :=
  (loop_order _ _).2

/-! ### Cases -/

instance (i : Spec.Info) (f : Bytes) : Decidable (Spec.Frame i f) := by unfold Spec.Frame; infer_instance

/-- A layer 3 frame of MPEG-1, 32 kbit/s at 48 kHz: 96 bytes. -/
def frame3 (x : UInt8) : Bytes := [0xFF, 0xFB, 0x14, 0xC0] ++ List.replicate 92 x

/-- Its header. -/
def info3 : Spec.Info := { mpeg1 := true, layer := 3, bitrate := 32000, rate := 48000, padding := 0 }

theorem frame3_frame (x : UInt8) : Spec.Frame info3 (frame3 x) :=
  ⟨rfl, by
    have h1 : Spec.at_ (frame3 x) 1 = 0xFB := rfl
    rw [h1], by
    have h1 : Spec.at_ (frame3 x) 1 = 0xFB := rfl
    have h2 : Spec.at_ (frame3 x) 2 = 0x14 := rfl
    unfold Spec.info
    rw [h1, h2]
    rfl, by simp [frame3, info3, Spec.Info.bytes, Spec.Info.samples]⟩

/-- A tag of three bytes. -/
def tag3 : Bytes := [0x49, 0x44, 0x33, 4, 0, 0, 0, 0, 0, 3, 1, 2, 3]

example : Begins tag3 (tag3 ++ (frame3 1 ++ [])) :=
  Or.inr ⟨3, false, ⟨4, 0, 0, 0, 0, 0, 3, [1, 2, 3], [], rfl, by decide, by decide, by decide, by decide, rfl, rfl, rfl, rfl⟩, by decide⟩

example : Begins [] (frame3 1 ++ frame3 2) := Or.inl ⟨rfl, by decide, by decide, by decide⟩

example : Known info3 := by decide

example : (packets (tag3 ++ frame3 1 ++ [7, 8] ++ frame3 2 ++ [9])).map (fun p => (p.time, p.pos, p.data))
    = [(0, 13, frame3 1), (24, 111, frame3 2)] := by decide +kernel

example : Spec.times 0 [info3, info3, info3] = [0, 24, 48] := by decide +kernel

example : format (tag3 ++ (frame3 1 ++ [])) = some (48000, 1) := by decide +kernel

/-! ### Where the property fails -/

/-- A layer 3 frame of MPEG-2, 8 kbit/s at 24 kHz: 24 bytes. -/
def frameLsf (x : UInt8) : Bytes := [0xFF, 0xF3, 0x14, 0xC0] ++ List.replicate 20 x

/-- Layer 3 frames of MPEG-2 are taken to be twice as long as they are: two come out as one packet. -/
theorem C112_lsf_fails : ∃ (i : Spec.Info) (f g : Bytes), Spec.Frame i f ∧ Spec.Frame i g
    ∧ (packets (f ++ g)).map (fun p => p.data) = [f ++ g] :=
  ⟨⟨false, 3, 8000, 24000, 0⟩, frameLsf 1, frameLsf 2, by decide +kernel, by decide +kernel, by decide +kernel⟩

/-- A layer 1 frame of MPEG-1, 32 kbit/s at 44.1 kHz: 32 bytes. -/
def frame1 (x : UInt8) : Bytes := [0xFF, 0xFF, 0x10, 0xC0] ++ List.replicate 28 x

/-- Of layer 1 frames at 44.1 kHz the size is rounded too late: the packet takes two bytes of the next frame, which is
then lost. -/
theorem C112_layer1_fails : ∃ (i : Spec.Info) (f g : Bytes), Spec.Frame i f ∧ Spec.Frame i g
    ∧ (packets (f ++ g)).map (fun p => p.data) = [f ++ g.take 2] :=
  ⟨⟨true, 1, 32000, 44100, 0⟩, frame1 1, frame1 2, by decide +kernel, by decide +kernel, by decide +kernel⟩

/-- A layer 1 frame of MPEG-1, 32 kbit/s at 48 kHz: 32 bytes. -/
def frame1b (x : UInt8) : Bytes := [0xFF, 0xFF, 0x14, 0xC0] ++ List.replicate 28 x

/-- Layer 1 frames of MPEG-1 are counted as 374 samples instead of 384: the second frame, 8 milliseconds after the first,
is said to come after 7. -/
theorem C112_count_fails : ∃ (i : Spec.Info) (f g : Bytes), Spec.Frame i f ∧ Spec.Frame i g
    ∧ Spec.times 0 [i, i] = [0, 8] ∧ (packets (f ++ g)).map (fun p => p.time) = [0, 7] :=
  ⟨⟨true, 1, 32000, 48000, 0⟩, frame1b 1, frame1b 2, by decide +kernel, by decide +kernel, by decide +kernel,
    by decide +kernel⟩

/-- A layer 3 frame of MPEG-1, 48 kbit/s at 44.1 kHz, padded, with the private bit: 157 bytes. -/
def frame33 : Bytes := [0xFF, 0xFB, 0x33, 0xC0] ++ List.replicate 153 0

/-- A file without a tag whose first frame has 0x33 as its third byte is taken for one with a tag: the first frame is
lost. -/
theorem C112_first_fails : ∃ (i j : Spec.Info) (f g : Bytes), Spec.Frame i f ∧ Spec.Frame j g ∧ Known i
    ∧ (packets (f ++ g)).map (fun p => p.data) = [g] :=
  ⟨⟨true, 3, 48000, 44100, 1⟩, info3, frame33, frame3 1, by decide +kernel, by decide +kernel, by decide,
    by decide +kernel⟩

/-- The content of a tag of 255 bytes with something like a frame in it. -/
def body255 : Bytes := List.replicate 127 0 ++ frame3 5 ++ List.replicate 32 0

/-- A tag of 255 bytes: 1 and 127 as size. -/
def tag255 : Bytes := [0x49, 0x44, 0x33, 4, 0, 0, 0, 0, 1, 127] ++ body255

/-- The size of a tag is put together without carries: after a tag of 255 bytes the reader starts 128 bytes early, in the
tag, and takes what it finds there for a frame. -/
theorem C112_tag_fails : ∃ (t f : Bytes) (i : Spec.Info), Spec.Tag 255 false t ∧ Spec.Frame i f ∧ Known i ∧ t.length = 265
    ∧ ((packets (t ++ f)).map (fun p => p.pos)).head? = some 137 :=
  ⟨tag255, frame3 1, info3, ⟨4, 0, 0, 0, 0, 1, 127, body255, [], by simp only [tag255, List.append_nil], by decide, by decide, by decide, by decide,
    by decide, by decide +kernel, rfl, rfl⟩, frame3_frame 1, by decide, by decide +kernel, by decide +kernel⟩

/-- When bytes before a frame have a 0xFF that is no sync word, the reader goes on there and finds no header: nothing of
the file is played. -/
theorem C112_sync_fails : ∃ (f : Bytes) (i : Spec.Info), Spec.Frame i f ∧ Known i ∧ packets ([0, 0xFF, 0] ++ f) = [] :=
  ⟨frame3 1, info3, frame3_frame 1, by decide, by decide +kernel⟩

/-- When the last frame is cut off, its packet is filled up with bytes of the frame before. -/
theorem C112_cut_fails : ∃ (f g : Bytes) (i : Spec.Info), Spec.Frame i f ∧ Spec.Frame i g ∧ Known i
    ∧ (packets (f ++ g.take 10)).map (fun p => p.data) = [f, g.take 10 ++ f.drop 10] :=
  ⟨frame3 1, frame3 2, info3, frame3_frame 1, frame3_frame 2, by decide, by decide +kernel⟩

/-- A frame of two separate channels. -/
def frameDual : Bytes := [0xFF, 0xFB, 0x14, 0x80] ++ List.replicate 92 0

/-- Two separate channels are told as one. -/
theorem C112_dual_fails : ∃ (f : Bytes) (i : Spec.Info), Spec.Frame i f ∧ Known i ∧ Spec.channels f = 2
    ∧ format f = some (i.rate, 1) :=
  ⟨frameDual, info3, by decide +kernel, by decide, rfl, by decide +kernel⟩

end Verif.Mp3
