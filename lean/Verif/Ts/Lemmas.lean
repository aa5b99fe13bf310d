import Verif.Ts.Model
import Verif.Ts.Spec
import Verif.Base.Arith

namespace Verif.Ts

/-- The shape of a packet under construction: header, adaptation field `af`, payload so far `d`. -/
structure Form (p : Packet) (h1 h2 h3 : Byte) (af d : Bytes) : Prop where
  buf : ∃ z, p.buf = 0x47 :: h1 :: h2 :: h3 :: (af ++ d ++ z)
  len : p.buf.length = 188
  pos : p.pos = 4 + af.length + d.length
  ctl : h3.toNat / 16 = if af = [] then 1 else 3
  fld : af = [] ∨ ∃ l a, af = l :: a ∧ l.toNat = a.length

theorem Form.le {p : Packet} {h1 h2 h3 : Byte} {af d : Bytes} (f : Form p h1 h2 h3 af d) : p.pos ≤ 188 := by
  obtain ⟨z, hz⟩ := f.buf
  have := f.len
  rw [hz] at this
  simp at this
  have := f.pos
  omega

theorem and30 : ∀ b : UInt8, (b.toNat &&& 0x30) >>> 4 = b.toNat / 16 % 4 := by decide +kernel
theorem and0f : ∀ b : UInt8, b.toNat &&& 0x0F = b.toNat % 16 := by decide +kernel
theorem and1f : ∀ b : UInt8, b.toNat &&& 0x1F = b.toNat % 32 := by decide +kernel
theorem and40 : ∀ b : UInt8, (b.toNat &&& 0x40 ≠ 0) ↔ b.toNat / 64 % 2 = 1 := by decide +kernel

theorem Form.getAF {p : Packet} {h1 h2 h3 : Byte} {af d : Bytes} (f : Form p h1 h2 h3 af d) :
    p.getAF = if af = [] then 1 else 3 := by
  obtain ⟨z, hz⟩ := f.buf
  have := f.ctl
  simp only [Packet.getAF, Packet.at, hz, List.getD_cons_succ, List.getD_cons_zero, and30]
  split <;> simp_all

theorem blit_length {b : Bytes} {i : Nat} {d : Bytes} (h : i + d.length ≤ b.length) :
    (blit b i d).length = b.length := by
  simp [blit]; omega

/-- Overwriting in the middle of a known layout. -/
theorem blit_mid (a x d z : Bytes) (h : x.length = d.length) :
    blit (a ++ x ++ z) a.length d = a ++ d ++ z := by
  have e1 : (a ++ x ++ z).take a.length = a := by
    rw [List.append_assoc, List.take_left]
  have e2 : (a ++ x ++ z).drop (a.length + d.length) = z := by
    rw [← h, ← List.length_append, List.drop_left]
  rw [blit, e1, e2]

theorem fillFree_form {p : Packet} {h1 h2 h3 : Byte} {af d : Bytes} (f : Form p h1 h2 h3 af d) (x : Bytes) :
    (p.fillFree x).2 = min p.bytesFree x.length ∧
    Form (p.fillFree x).1 h1 h2 h3 af (d ++ x.take (p.fillFree x).2) := by
  refine ⟨rfl, ?_⟩
  obtain ⟨z, hz⟩ := f.buf
  have hl := f.len
  have hp := f.pos
  have hle := f.le
  simp only [Packet.fillFree]
  generalize hn : min p.bytesFree x.length = n
  have hnz : n ≤ z.length := by
    rw [hz] at hl; simp at hl
    simp only [Packet.bytesFree] at hn
    omega
  have hnx : (x.take n).length = n := by simp; omega
  have key : blit p.buf p.pos (x.take n) = 0x47 :: h1 :: h2 :: h3 :: (af ++ (d ++ x.take n) ++ z.drop n) := by
    have h := blit_mid (0x47 :: h1 :: h2 :: h3 :: (af ++ d)) (z.take n) (x.take n) (z.drop n)
      (by simp; omega)
    have e : (0x47 :: h1 :: h2 :: h3 :: (af ++ d)).length = p.pos := by
      simp; omega
    rw [e] at h
    have e2 : (0x47 :: h1 :: h2 :: h3 :: (af ++ d)) ++ z.take n ++ z.drop n = p.buf := by
      rw [hz]; simp
    rw [e2] at h
    rw [h]
    simp
  refine ⟨⟨z.drop n, key⟩, ?_, ?_, f.ctl, f.fld⟩
  · show (blit p.buf p.pos (x.take n)).length = 188
    rw [key, List.length_cons, List.length_cons, List.length_cons, List.length_cons]
    rw [hz] at hl
    simp at hl
    simp
    omega
  · simp [hnx]; omega

theorem h3cf : ∀ b : UInt8, b.toNat / 16 = 1 →
    (UInt8.ofNat ((b.toNat &&& 0xCF) + ((3 &&& 3) <<< 4))).toNat / 16 = 3 ∧
    (UInt8.ofNat ((b.toNat &&& 0xCF) + ((3 &&& 3) <<< 4))).toNat % 16 = b.toNat % 16 := by decide +kernel

/-- Opening the adaptation field of a packet that has room. -/
theorem openAF_form {p : Packet} {h1 h2 h3 : Byte} {af d : Bytes} (f : Form p h1 h2 h3 af d)
    (hroom : p.bytesFree ≠ 0) :
    ∃ h3' af', Form p.openAF h1 h2 h3' af' d ∧ af' ≠ [] ∧ h3'.toNat % 16 = h3.toNat % 16 ∧
      (af ≠ [] → af' = af) ∧ (af = [] → af' = [0]) := by
  by_cases haf : af = []
  · subst haf
    obtain ⟨z, hz⟩ := f.buf
    have hl := f.len
    have hp := f.pos
    have hc := f.ctl
    simp only [if_true] at hc
    simp only [List.nil_append, List.length_nil] at hz hp
    have hlz : d.length + z.length = 184 := by rw [hz] at hl; simp at hl; omega
    have hd : d.length < 184 := by simp only [Packet.bytesFree] at hroom; omega
    obtain ⟨k1, k2⟩ := h3cf h3 hc
    refine ⟨UInt8.ofNat ((h3.toNat &&& 0xCF) + ((3 &&& 3) <<< 4)), [0], ?_, by simp, k2, by simp, by simp⟩
    have hg : p.getAF = 1 := by rw [f.getAF]; rfl
    -- both branches leave the same layout before the field is set
    have step : ∀ (b : Bytes) (c : Byte) (w : Bytes), b = 0x47 :: h1 :: h2 :: h3 :: c :: (d ++ w) →
        d.length + w.length = 183 →
        Form ((⟨b, p.pos + 1⟩ : Packet).setAF 3) h1 h2 (UInt8.ofNat ((h3.toNat &&& 0xCF) + ((3 &&& 3) <<< 4))) [0] d := by
      intro b c w hb hw
      refine ⟨⟨w, ?_⟩, ?_, ?_, ?_, Or.inr ⟨0, [], rfl, rfl⟩⟩
      · simp [Packet.setAF, Packet.put, Packet.at, hb]
      · simp [Packet.setAF, Packet.put, Packet.at, hb]; omega
      · simp [Packet.setAF, Packet.put]; omega
      · simpa using k1
    unfold Packet.openAF
    rw [if_pos hg]
    split
    · -- empty payload
      rename_i h184
      have hd0 : d = [] := by
        have : d.length = 0 := by simp only [Packet.bytesFree] at h184; omega
        exact List.length_eq_zero_iff.mp this
      subst hd0
      cases z with
      | nil => simp at hlz
      | cons c w =>
        have : p.pos = 4 := by simpa using hp
        have e : (p.put p.pos 0).buf = 0x47 :: h1 :: h2 :: h3 :: 0 :: ([] ++ w) := by
          simp [Packet.put, this, hz]
        have := step _ 0 w e (by simp only [List.length_nil, List.length_cons] at hlz ⊢; omega)
        exact this
    · -- shift by one
      have hcons : ∃ c y, d ++ z = c :: y := by
        cases hdz : d ++ z with
        | nil => have := congrArg List.length hdz; rw [List.length_append, List.length_nil] at this; omega
        | cons c y => exact ⟨c, y, rfl⟩
      obtain ⟨c, y, hcy⟩ := hcons
      have hzl : z.take (183 - d.length) = (z.take (183 - d.length)) := rfl
      have e : blit p.buf 5 ((p.buf.drop 4).take 183)
          = 0x47 :: h1 :: h2 :: h3 :: c :: (d ++ z.take (183 - d.length)) := by
        have e4 : p.buf.drop 4 = d ++ z := by rw [hz]; rfl
        have e5 : (d ++ z).take 183 = d ++ z.take (183 - d.length) := by
          rw [List.take_append, List.take_of_length_le (by omega)]
        have e6 : ((d ++ z).take 183).length = 183 := by simp; omega
        have e7 : p.buf.drop (5 + ((d ++ z).take 183).length) = [] := by
          rw [e6]; exact List.drop_of_length_le (by rw [hl]; omega)
        have e8 : p.buf.take 5 = 0x47 :: h1 :: h2 :: h3 :: [c] := by rw [hz, hcy]; rfl
        rw [blit, e4, e7, e5, e8]; simp
      have := step _ c (z.take (183 - d.length)) e (by simp; omega)
      exact this
  · refine ⟨h3, af, ?_, haf, rfl, fun _ => rfl, fun h => absurd h haf⟩
    have hg : p.getAF ≠ 1 := by rw [f.getAF, if_neg haf]; omega
    unfold Packet.openAF
    rw [if_neg hg]
    exact f

theorem filler_length (n : Nat) : (filler n).length = n := by simp [filler]

/-- Moving the payload to the end of the packet and filling the gap. -/
theorem stuff_form {p : Packet} {h1 h2 h3 l : Byte} {a d : Bytes} (f : Form p h1 h2 h3 (l :: a) d) :
    ∃ q l' e, (p.shiftPayload p.bytesFree).map (fun r => r.prettify p.bytesFree) = some q ∧
      Form q h1 h2 h3 (l' :: e) d ∧ q.pos = 188 ∧ (a ≠ [] → ∃ w, e = a ++ w) ∧ (a = [] → e.head?.getD 0 = 0) := by
  obtain ⟨z, hz⟩ := f.buf
  have hl := f.len
  have hp := f.pos
  have hc := f.ctl
  have hle := f.le
  have hla : l.toNat = a.length := by
    rcases f.fld with h | ⟨l2, a2, h, h2⟩
    · simp at h
    · cases h; exact h2
  have hlen : 5 + a.length + d.length + z.length = 188 := by
    rw [hz] at hl; simp at hl; omega
  simp only [List.length_cons] at hp
  have hbf : p.bytesFree = z.length := by simp only [Packet.bytesFree]; omega
  have hg : p.getAF = 3 := by rw [f.getAF]; rfl
  by_cases hn : z.length = 0
  · refine ⟨p, l, a, ?_, f, by omega, fun _ => ⟨[], by simp⟩, ?_⟩
    · rw [hbf, hn]
      simp [Packet.shiftPayload, Packet.prettify]
    · intro h; subst h; rfl
  · have hat4 : p.at 4 = a.length := by simp [Packet.at, hz, hla]
    have ho : (5 + (if p.at 4 = 0 then 0 else p.at 4)) = 5 + a.length := by
      rw [hat4]; split <;> omega
    -- the shifted buffer
    have hbuf : p.buf = (0x47 :: h1 :: h2 :: h3 :: l :: a) ++ (d ++ z) := by rw [hz]; simp
    have hdrop : p.buf.drop (5 + a.length) = d ++ z := by
      rw [hbuf]
      have : (0x47 :: h1 :: h2 :: h3 :: l :: a).length = 5 + a.length := by simp; omega
      rw [← this, List.drop_left]
    have e1 : blit p.buf (5 + a.length + z.length) ((p.buf.drop (5 + a.length)).take (188 - (5 + a.length) - z.length))
        = (0x47 :: h1 :: h2 :: h3 :: l :: a) ++ (d ++ z).take z.length ++ d := by
      have t : (d ++ z).take (188 - (5 + a.length) - z.length) = d := by
        rw [show 188 - (5 + a.length) - z.length = d.length by omega, List.take_left]
      rw [hdrop, t]
      have hx : p.buf = ((0x47 :: h1 :: h2 :: h3 :: l :: a) ++ (d ++ z).take z.length) ++ (d ++ z).drop z.length ++ [] := by
        rw [hbuf]; simp
      have hlen2 : ((0x47 :: h1 :: h2 :: h3 :: l :: a) ++ (d ++ z).take z.length).length = 5 + a.length + z.length := by
        simp; omega
      have hb := blit_mid ((0x47 :: h1 :: h2 :: h3 :: l :: a) ++ (d ++ z).take z.length) ((d ++ z).drop z.length) d []
        (by simp)
      rw [← hx, hlen2] at hb
      rw [hb]; simp
    have e2 : blit ((0x47 :: h1 :: h2 :: h3 :: l :: a) ++ (d ++ z).take z.length ++ d) (5 + a.length)
        (List.replicate z.length 0x24) = 0x47 :: h1 :: h2 :: h3 :: l :: (a ++ List.replicate z.length 0x24 ++ d) := by
      have hlen2 : (0x47 :: h1 :: h2 :: h3 :: l :: a).length = 5 + a.length := by simp; omega
      have hb := blit_mid (0x47 :: h1 :: h2 :: h3 :: l :: a) ((d ++ z).take z.length) (List.replicate z.length 0x24) d
        (by simp)
      rw [hlen2] at hb
      rw [hb]; simp
    have hl' : (UInt8.ofNat (a.length + z.length)).toNat = a.length + z.length := by
      rw [u8n]; omega
    have hs : p.shiftPayload p.bytesFree = some ⟨0x47 :: h1 :: h2 :: h3 :: UInt8.ofNat (a.length + z.length) ::
        (a ++ List.replicate z.length 0x24 ++ d), 188⟩ := by
      unfold Packet.shiftPayload
      rw [hbf, if_pos ⟨hg, hn⟩]
      simp only [ho]
      rw [if_neg (by omega), e1, e2, hat4]
      simp [Packet.put]
      omega
    rw [hs]
    simp only [Option.map_some]
    rw [hbf]
    unfold Packet.prettify
    rw [if_neg hn]
    have hat : (⟨0x47 :: h1 :: h2 :: h3 :: UInt8.ofNat (a.length + z.length) ::
        (a ++ List.replicate z.length 0x24 ++ d), 188⟩ : Packet).at 4 = a.length + z.length := by
      simp only [Packet.at, List.getD_cons_succ, List.getD_cons_zero, hl']
    rw [hat]
    by_cases ha : a = []
    · subst ha
      rw [if_pos (by simp)]
      obtain ⟨k, hk⟩ : ∃ k, z.length = k + 1 := ⟨z.length - 1, by omega⟩
      have hkk : (UInt8.ofNat (k + 1)).toNat = k + 1 := by simpa [hk] using hl'
      refine ⟨_, UInt8.ofNat (z.length), 0 :: filler (z.length - 1), rfl, ?_, rfl, by simp, by simp⟩
      have ebuf : blit (0x47 :: h1 :: h2 :: h3 :: UInt8.ofNat (k + 1) :: 0 :: (List.replicate k 0x24 ++ d)) 6 (filler k)
          = 0x47 :: h1 :: h2 :: h3 :: UInt8.ofNat (k + 1) :: 0 :: (filler k ++ d) := by
        have hb := blit_mid [0x47, h1, h2, h3, UInt8.ofNat (k + 1), 0] (List.replicate k 0x24) (filler k) d
          (by simp [filler_length])
        simpa using hb
      have hq : ∀ q : Packet, q = ⟨0x47 :: h1 :: h2 :: h3 :: UInt8.ofNat (k + 1) :: 0 :: (filler k ++ d), 188⟩ →
          Form q h1 h2 h3 (UInt8.ofNat z.length :: 0 :: filler (z.length - 1)) d := by
        intro q hq
        subst hq
        refine ⟨⟨[], by simp [hk]⟩, ?_, ?_, hc, Or.inr ⟨_, _, rfl, ?_⟩⟩
        · simp [filler_length]; simp [hk] at hlen; omega
        · simp [filler_length]; simp [hk] at hlen; omega
        · rw [hk, hkk]; simp [filler_length]
      apply hq
      have hk1 : k + 1 < 256 := by rw [hk] at hlen; omega
      have e6 : 5 + ((k + 1) % 256 - k) = 6 := by rw [Nat.mod_eq_of_lt hk1]; omega
      have e7 : UInt8.ofNat (k + 1) = UInt8.ofNat k + 1 := by simp
      rw [e7] at ebuf
      simp [Packet.put, Packet.at, hk, List.replicate_succ]
      rw [e6]
      exact ebuf
    · have hal : a.length ≠ 0 := by simpa using ha
      rw [if_neg (by omega)]
      refine ⟨_, UInt8.ofNat (a.length + z.length), a ++ filler z.length, rfl, ?_, rfl, fun _ => ⟨_, rfl⟩,
        fun h => absurd h ha⟩
      have ebuf : blit (0x47 :: h1 :: h2 :: h3 :: UInt8.ofNat (a.length + z.length) :: (a ++ List.replicate z.length 0x24 ++ d))
          (5 + (a.length + z.length - z.length)) (filler z.length)
          = 0x47 :: h1 :: h2 :: h3 :: UInt8.ofNat (a.length + z.length) :: (a ++ filler z.length ++ d) := by
        have hb := blit_mid (0x47 :: h1 :: h2 :: h3 :: UInt8.ofNat (a.length + z.length) :: a)
          (List.replicate z.length 0x24) (filler z.length) d (by simp [filler_length])
        have hlen2 : (0x47 :: h1 :: h2 :: h3 :: UInt8.ofNat (a.length + z.length) :: a).length
            = 5 + (a.length + z.length - z.length) := by simp; omega
        rw [hlen2] at hb
        simpa using hb
      refine ⟨⟨[], ?_⟩, ?_, ?_, ?_, Or.inr ⟨_, _, rfl, ?_⟩⟩
      · show blit _ _ _ = _
        rw [ebuf]; simp
      · show (blit _ _ _).length = 188
        rw [ebuf]; simp [filler_length]; omega
      · simp [filler_length]; omega
      · simpa using hc
      · rw [hl']; simp [filler_length]

/-- `addStuffing` on any packet under construction: exactly full, same header, same payload; an
adaptation field that was there keeps its contents in front. -/
theorem addStuffing_form {p : Packet} {h1 h2 h3 : Byte} {af d : Bytes} (f : Form p h1 h2 h3 af d) :
    ∃ q h3' af', p.addStuffing = some q ∧ Form q h1 h2 h3' af' d ∧ q.pos = 188 ∧
      h3'.toNat % 16 = h3.toNat % 16 ∧ (1 < af.length → ∃ w, af'.tail = af.tail ++ w) ∧
      (af.length ≤ 1 → af'.tail.head?.getD 0 = 0) := by
  unfold Packet.addStuffing
  by_cases h0 : p.bytesFree = 0
  · rw [if_pos h0]
    refine ⟨p, h3, af, rfl, f, ?_, rfl, fun _ => ⟨[], by simp⟩, ?_⟩
    · have := f.le; simp only [Packet.bytesFree] at h0; omega
    · intro h
      match af, h with
      | [], _ => rfl
      | [x], _ => rfl
  · rw [if_neg h0]
    have h2 : p.getAF ≠ 2 := by rw [f.getAF]; split <;> omega
    rw [if_neg h2]
    obtain ⟨h3', af', f', hne, hcc, hsame, hnew⟩ := openAF_form f h0
    obtain ⟨l, a, rfl⟩ : ∃ l a, af' = l :: a := by
      cases af' with
      | nil => exact absurd rfl hne
      | cons l a => exact ⟨l, a, rfl⟩
    obtain ⟨q, l', e, hq, fq, hpos, ha, he⟩ := stuff_form f'
    refine ⟨q, h3', l' :: e, hq, fq, hpos, hcc, ?_, ?_⟩
    · intro hlen
      have haf : af ≠ [] := by intro h; simp [h] at hlen
      have := hsame haf
      rw [← this] at hlen ⊢
      have hane : a ≠ [] := by intro h; simp [h] at hlen
      exact ha hane
    · intro hlen
      by_cases haf : af = []
      · have := hnew haf
        cases this
        exact he rfl
      · have := hsame haf
        rw [← this] at hlen
        have : a = [] := by
          cases a with
          | nil => rfl
          | cons x y => simp at hlen
        exact he this

/-- A finished packet reads back as the standard says. -/
theorem view_form {p : Packet} {h1 h2 h3 : Byte} {af d : Bytes} (f : Form p h1 h2 h3 af d) (hp : p.pos = 188)
    (h1s : h1.toNat < 128) :
    Spec.view p.buf = some ⟨h1.toNat % 32 * 256 + h2.toNat, h1.toNat / 64 % 2 = 1, h3.toNat % 16, af.tail, d⟩ := by
  obtain ⟨z, hz⟩ := f.buf
  have hl := f.len
  have hpos := f.pos
  have hc := f.ctl
  have hz0 : z = [] := by
    rw [hz] at hl; simp at hl
    exact List.length_eq_zero_iff.mp (by omega)
  subst hz0
  rw [List.append_nil] at hz
  rw [hz] at hl ⊢
  have h364 : h3.toNat < 64 := by split at hc <;> omega
  unfold Spec.view
  simp only [hl, h1s, h364, and_self, if_true]
  by_cases haf : af = []
  · subst haf
    simp only [if_true] at hc
    rw [if_pos hc]; simp
  · rw [if_neg haf] at hc
    rw [if_neg (by omega), if_pos hc]
    rcases f.fld with h | ⟨l, a, rfl, hla⟩
    · exact absurd h haf
    · simp only [List.cons_append, List.tail_cons]
      rw [if_pos (by simp at hl; omega), hla]
      simp

theorem and1f00 (x : Nat) : (x &&& 0x1F00) >>> 8 = x / 256 % 32 := by
  rw [Nat.shiftRight_and_distrib, show 0x1F00 >>> 8 = 2 ^ 5 - 1 by decide, and_mask, shr]

theorem clear_eq : clear = ⟨0x47 :: 0 :: 0 :: 0x10 :: 0 :: 0 :: 0 :: 0 :: 0 :: 0 :: 0 :: 0 :: List.replicate 176 0, 4⟩ := by
  decide +kernel

theorem h1us : ∀ b : UInt8, b.toNat < 32 → (UInt8.ofNat (b.toNat ||| 0x40)).toNat = b.toNat + 64 := by decide +kernel

theorem h3cc : ∀ c : UInt8, (UInt8.ofNat ((0x10 &&& 0xF0) ||| (c.toNat &&& 0x0F))).toNat = 16 + c.toNat % 16 := by
  decide +kernel

theorem h3cc' (c : Nat) : (UInt8.ofNat ((0x10 &&& 0xF0) ||| (c &&& 0x0F))).toNat = 16 + c % 16 := by
  have h := h3cc (UInt8.ofNat c)
  rw [u8n c] at h
  have e : c % 256 &&& 0x0F = c &&& 0x0F := by
    rw [show 0x0F = 2 ^ 4 - 1 by decide, and_mask, and_mask]; omega
  rw [e] at h
  rw [h]; omega

theorem h3af : ∀ b : UInt8, b.toNat / 16 = 1 →
    (UInt8.ofNat ((b.toNat &&& 0xCF) + ((3 &&& 3) <<< 4))).toNat = b.toNat + 32 := by decide +kernel

theorem h3af3 : ∀ b : UInt8, b.toNat / 16 = 3 →
    (UInt8.ofNat ((b.toNat &&& 0xCF) + ((3 &&& 3) <<< 4))) = b := by decide +kernel

/-- The six bytes of a program clock reference. -/
def pcrBytes (v : Nat) : Bytes :=
  [UInt8.ofNat (((v / 300) >>> 1 >>> 24) &&& 0xFF), UInt8.ofNat (((v / 300) >>> 1 >>> 16) &&& 0xFF),
   UInt8.ofNat (((v / 300) >>> 1 >>> 8) &&& 0xFF), UInt8.ofNat (((v / 300) >>> 1) &&& 0xFF),
   UInt8.ofNat (0x7E + ((v / 300 &&& 1) <<< 7) + ((v % 300 &&& 0x100) >>> 8)), UInt8.ofNat (v % 300 &&& 0xFF)]

/-- The header of a packet that does not start a frame, or starts a non-video frame. -/
theorem start_base (pid cc : Nat) (us : Bool) :
    ∃ h1 h2 h3 : Byte,
      (let p := (clear.setPID pid).setCC cc
       if us then p.setUnitStart true else p) =
      ⟨0x47 :: h1 :: h2 :: h3 :: 0 :: 0 :: 0 :: 0 :: 0 :: 0 :: 0 :: 0 :: List.replicate 176 0, 4⟩ ∧
      h1.toNat = (if us then 64 else 0) + pid / 256 % 32 ∧ h2.toNat = pid % 256 ∧ h3.toNat = 16 + cc % 16 := by
  have hb : (UInt8.ofNat (pid / 256 % 32)).toNat = pid / 256 % 32 := by rw [u8n]; omega
  rw [clear_eq]
  generalize List.replicate 176 (0 : UInt8) = Z
  cases us with
  | false =>
    refine ⟨UInt8.ofNat ((0 &&& 0xE0) + ((pid &&& 0x1F00) >>> 8)), UInt8.ofNat (pid &&& 0xFF),
      UInt8.ofNat ((0x10 &&& 0xF0) ||| (cc &&& 0x0F)), ?_, ?_, ?_, h3cc' cc⟩
    · rfl
    · rw [and1f00]; simpa using hb
    · rw [and_ff, u8n]; omega
  | true =>
    refine ⟨UInt8.ofNat ((UInt8.ofNat ((0 &&& 0xE0) + ((pid &&& 0x1F00) >>> 8))).toNat ||| 0x40), UInt8.ofNat (pid &&& 0xFF),
      UInt8.ofNat ((0x10 &&& 0xF0) ||| (cc &&& 0x0F)), ?_, ?_, ?_, h3cc' cc⟩
    · rfl
    · rw [and1f00, Nat.zero_and, Nat.zero_add, h1us _ (by rw [hb]; omega), hb]
      simp [Nat.add_comm]
    · rw [and_ff, u8n]; omega

/-- Adding the video fields. -/
theorem start_video (h1 h2 h3 : Byte) (h3v : h3.toNat / 16 = 1) (key : Bool) (v : Nat) :
    ∃ (h3' fl : Byte),
      (let p : Packet := ⟨0x47 :: h1 :: h2 :: h3 :: 0 :: 0 :: 0 :: 0 :: 0 :: 0 :: 0 :: 0 :: List.replicate 176 0, 4⟩
       (if key then (p.setRandomAccess true).setESPriority true else p).setPCR v) =
      ⟨0x47 :: h1 :: h2 :: h3' :: 7 :: fl :: (pcrBytes v ++ List.replicate 176 0), 12⟩ ∧
      h3'.toNat = h3.toNat + 32 ∧ fl = (if key then 0x70 else 0x10) := by
  generalize List.replicate 176 (0 : UInt8) = Z
  have g1 : (h3.toNat &&& 0x30) >>> 4 = 1 := by rw [and30, h3v]
  have e3 : (UInt8.ofNat ((h3.toNat &&& 0xCF) + ((3 &&& 3) <<< 4))).toNat / 16 = 3 := (h3cf h3 h3v).1
  have g3 : ((UInt8.ofNat ((h3.toNat &&& 0xCF) + ((3 &&& 3) <<< 4))).toNat &&& 0x30) >>> 4 = 3 := by rw [and30, e3]
  have r3 := h3af3 _ e3
  have hY := h3af h3 h3v
  generalize hX : UInt8.ofNat ((h3.toNat &&& 0xCF) + ((3 &&& 3) <<< 4)) = X at *
  cases key with
  | false =>
    refine ⟨X, UInt8.ofNat ((0 : UInt8).toNat ||| 0x10), ?_, hY, by decide⟩
    rw [← hX]
    rfl
  | true =>
    have s1 : (⟨0x47 :: h1 :: h2 :: h3 :: 0 :: 0 :: 0 :: 0 :: 0 :: 0 :: 0 :: 0 :: Z, 4⟩ : Packet).setRandomAccess true
        = ⟨0x47 :: h1 :: h2 :: X :: 1 :: UInt8.ofNat 0x40 :: 0 :: 0 :: 0 :: 0 :: 0 :: 0 :: Z, 6⟩ := by
      rw [← hX]
      unfold Packet.setRandomAccess Packet.setFlag
      exact if_neg (show ¬ (h3.toNat &&& 0x30) >>> 4 = 3 by omega)
    have s2 : (⟨0x47 :: h1 :: h2 :: X :: 1 :: UInt8.ofNat 0x40 :: 0 :: 0 :: 0 :: 0 :: 0 :: 0 :: Z, 6⟩ : Packet).setESPriority true
        = ⟨0x47 :: h1 :: h2 :: X :: 1 :: UInt8.ofNat ((UInt8.ofNat 0x40).toNat ||| 0x20) :: 0 :: 0 :: 0 :: 0 :: 0 :: 0 :: Z, 6⟩ := by
      unfold Packet.setESPriority Packet.setFlag
      exact if_pos (show (X.toNat &&& 0x30) >>> 4 = 3 by omega)
    refine ⟨X, UInt8.ofNat ((UInt8.ofNat ((UInt8.ofNat 0x40).toNat ||| 0x20)).toNat ||| 0x10), ?_, hY, by decide⟩
    show ((Packet.setRandomAccess _ true).setESPriority true).setPCR v = _
    rw [s1, s2]
    generalize UInt8.ofNat ((UInt8.ofNat 0x40).toNat ||| 0x20) = Y
    have s3 : (⟨0x47 :: h1 :: h2 :: X :: 1 :: Y :: 0 :: 0 :: 0 :: 0 :: 0 :: 0 :: Z, 6⟩ : Packet).setPCR v
        = ⟨0x47 :: h1 :: h2 :: (UInt8.ofNat ((X.toNat &&& 0xCF) + ((3 &&& 3) <<< 4))) :: 7 ::
          UInt8.ofNat (Y.toNat ||| 0x10) :: (pcrBytes v ++ Z), 12⟩ := rfl
    rw [s3, r3]

end Verif.Ts
