import Verif.Flac.Lemmas

/-!
# C114: reading of FLAC files
-/

namespace Verif.Flac
open Verif

theorem cons_u1 (x y : UInt8) (t : Bytes) : u (x :: y :: t) 1 = y.toNat := rfl
theorem cons_u2 (x y z : UInt8) (t : Bytes) : u (x :: y :: z :: t) 2 = z.toNat := rfl
theorem cons_u3 (x y z w : UInt8) (t : Bytes) : u (x :: y :: z :: w :: t) 3 = w.toNat := rfl

theorem be3 (n : Nat) : beEnc 3 n = [UInt8.ofNat (n / 65536), UInt8.ofNat (n / 256), UInt8.ofNat n] := by
  simp [beEnc]

theorem block_form (k : Nat) (last : Bool) (c r : Bytes) : Spec.block k last c ++ r
    = UInt8.ofNat (k + if last then 128 else 0) :: UInt8.ofNat (c.length / 65536) :: UInt8.ofNat (c.length / 256) :: UInt8.ofNat c.length :: (c ++ r) := by
  unfold Spec.block
  rw [be3]
  simp

theorem toNat_ofNat (n : Nat) : (UInt8.ofNat n).toNat = n % 256 := by simp [UInt8.toNat_ofNat']

/-- One block in front. -/
theorem meta_step (fuel : Nat) (i : Info) (len k : Nat) (last : Bool) (c r : Bytes) (hk : k < 128) (hc : c.length < 16777216) :
    metaBlocks (fuel + 1) i len (Spec.block k last c ++ r)
      = (if k = 0 then (if c.length < 13 then none else streamInfo i ((Spec.block k last c).take 4) c) else some i).bind fun i' =>
          if last then some (i', len + (Spec.block k last c).length, r) else metaBlocks fuel i' (len + (Spec.block k last c).length) r := by
  have hlen : (Spec.block k last c).length = 4 + c.length := by
    have := congrArg List.length (block_form k last c [])
    simp only [List.length_append, List.length_nil, List.length_cons] at this
    omega
  have ht : (Spec.block k last c ++ r).take 4 = (Spec.block k last c).take 4 := List.take_append_of_le_length (by omega)
  have hd : (Spec.block k last c ++ r).drop 4 = c ++ r := by rw [block_form]; rfl
  have hh : (Spec.block k last c).take 4 = [UInt8.ofNat (k + if last then 128 else 0), UInt8.ofNat (c.length / 65536), UInt8.ofNat (c.length / 256),
      UInt8.ofNat c.length] := by
    have := block_form k last c []
    rw [List.append_nil] at this
    rw [this]
    rfl
  have hbl : blockLen ((Spec.block k last c).take 4) = c.length := by
    unfold blockLen
    rw [hh, cons_u1, cons_u2, cons_u3, toNat_ofNat, toNat_ofNat, toNat_ofNat]
    omega
  have h0 : u (Spec.block k last c ++ r) 0 = k + if last then 128 else 0 := by
    rw [block_form, u_zero, toNat_ofNat]
    cases last <;> simp <;> omega
  have h0' : u ((Spec.block k last c).take 4) 0 = k + if last then 128 else 0 := by
    rw [hh, u_zero, toNat_ofNat]
    cases last <;> simp <;> omega
  simp only [metaBlocks]
  rw [if_neg (by simp only [List.length_append]; omega), ht, hd, hbl, h0, List.drop_left, hlen]
  have hm : metaBlock i ((Spec.block k last c).take 4) (c ++ r)
      = if k = 0 then (if c.length < 13 then none else streamInfo i ((Spec.block k last c).take 4) c) else some i := by
    unfold metaBlock
    rw [h0', hbl, List.take_left]
    by_cases hz : k = 0
    · subst hz
      rw [if_pos (by cases last <;> rfl), if_pos rfl]
      by_cases h13 : c.length < 13
      · rw [if_pos (Or.inr h13), if_pos h13]
      · rw [if_neg (by simp only [List.length_append]; omega), if_neg h13]
    · rw [if_neg (by cases last <;> simp <;> omega), if_neg hz]
  rw [hm]
  congr 1
  funext i'
  cases last with
  | true => rw [if_pos (by simp), if_pos rfl, Nat.add_assoc]
  | false => rw [if_neg (by simp; omega), if_neg (by decide), Nat.add_assoc]

theorem meta_rest (i : Info) (r : Bytes) : ∀ (l : List (Nat × Bytes)) (fuel len : Nat), l ≠ [] → l.length ≤ fuel →
    (∀ x ∈ l, 0 < x.1 ∧ x.1 < 128 ∧ x.2.length < 16777216) →
    metaBlocks fuel i len (Spec.blocks l ++ r) = some (i, len + (Spec.blocks l).length, r) := by
  intro l
  induction l with
  | nil => intro fuel len h; exact absurd rfl h
  | cons x t ih =>
    intro fuel len _ hf hx
    obtain ⟨k, c⟩ := x
    obtain ⟨m, rfl⟩ : ∃ m, fuel = m + 1 := ⟨fuel - 1, by simp only [List.length_cons] at hf; omega⟩
    simp only [List.length_cons] at hf
    obtain ⟨h1, h2, h3⟩ := hx (k, c) (by simp)
    simp only at h1 h2 h3
    simp only [Spec.blocks, List.append_assoc]
    rw [meta_step m i len k _ c _ h2 h3, if_neg (by omega)]
    simp only [Option.bind_some]
    cases t with
    | nil => simp [Spec.blocks]
    | cons y t =>
      rw [if_neg (by simp), ih m _ (by simp) (by omega) (fun z hz => hx z (by simp [hz]))]
      simp only [List.length_append, Nat.add_assoc]

/-- What the program takes from the block of stream information. -/
theorem info_eq (i : Info) (head : Bytes) {block fmin fmax rate channels bits samples : Nat} {md5 : Bytes} (hb : block < 65536) (hr : rate < 1048576)
    (hc : 1 ≤ channels ∧ channels ≤ 8) (hbits : 1 ≤ bits ∧ bits ≤ 32) (hs : samples < 68719476736) :
    streamInfo i head (Spec.streamInfo block fmin fmax rate channels bits samples md5)
      = some { block := block, rate := rate, channels := channels,
               init := i.init ++ ([(head.getD 0 0) ||| 0x80] ++ head.drop 1) ++ Spec.streamInfo block fmin fmax rate channels bits samples md5 } := by
  have form : ∃ t3 : Bytes, t3.length = 6 ∧ Spec.streamInfo block fmin fmax rate channels bits samples md5
      = UInt8.ofNat (block / 256) :: UInt8.ofNat block :: UInt8.ofNat (block / 256) :: UInt8.ofNat block :: (t3 ++
        (beEnc 8 (((rate * 8 + (channels - 1)) * 32 + (bits - 1)) * 68719476736 + samples) ++ md5)) := by
    refine ⟨beEnc 3 fmin ++ beEnc 3 fmax, by simp [be3], ?_⟩
    have h2 : beEnc 2 block = [UInt8.ofNat (block / 256), UInt8.ofNat block] := by simp [beEnc]
    simp [Spec.streamInfo, h2]
  obtain ⟨t3, ht3, hform⟩ := form
  have e0 : u (Spec.streamInfo block fmin fmax rate channels bits samples md5) 0 = block / 256 := by
    rw [hform, u_zero, toNat_ofNat]; omega
  have e1 : u (Spec.streamInfo block fmin fmax rate channels bits samples md5) 1 = block % 256 := by
    rw [hform, cons_u1, toNat_ofNat]
  have e2 : u (Spec.streamInfo block fmin fmax rate channels bits samples md5) 2 = block / 256 := by
    rw [hform, cons_u2, toNat_ofNat]; omega
  have e3 : u (Spec.streamInfo block fmin fmax rate channels bits samples md5) 3 = block % 256 := by
    rw [hform, cons_u3, toNat_ofNat]
  have hi : ∀ j, u (Spec.streamInfo block fmin fmax rate channels bits samples md5) (10 + j)
      = u (beEnc 8 (((rate * 8 + (channels - 1)) * 32 + (bits - 1)) * 68719476736 + samples) ++ md5) j := by
    intro j
    rw [hform, show 10 + j = 4 + (t3.length + j) from by omega, ← u_drop]
    show u (t3 ++ _) (t3.length + j) = _
    rw [u_right]
  have h8 : ∀ v : Nat, beEnc 8 v ++ md5 = UInt8.ofNat (v / 256 ^ 7) :: UInt8.ofNat (v / 256 ^ 6) :: UInt8.ofNat (v / 256 ^ 5) :: (beEnc 5 v ++ md5) := by
    intro v
    simp [beEnc]
  have f0 : u (Spec.streamInfo block fmin fmax rate channels bits samples md5) 10 = rate / 4096 := by
    have := hi 0
    rw [Nat.add_zero] at this
    rw [this, h8, u_zero, toNat_ofNat]; omega
  have f1 : u (Spec.streamInfo block fmin fmax rate channels bits samples md5) 11 = rate / 16 % 256 := by
    rw [hi 1, h8, cons_u1, toNat_ofNat]; omega
  have f2 : u (Spec.streamInfo block fmin fmax rate channels bits samples md5) 12 = rate % 16 * 16 + (channels - 1) * 2 + (bits - 1) / 16 := by
    rw [hi 2, h8, cons_u2, toNat_ofNat]; omega
  unfold streamInfo
  rw [e0, e1, e2, e3, f0, f1, f2, if_neg (by omega)]
  congr 2
  · omega
  · omega
  · omega

theorem or_sum (a b i p : Nat) (hp : p = 2 ^ i) (h : b < p) : a * p ||| b = a * p + b := by
  subst hp
  rw [Nat.mul_comm, Nat.two_pow_add_eq_or_of_lt h]

theorem file_eq (pre : Bytes) (block fmin fmax rate channels bits samples : Nat) (md5 : Bytes) (l : List (Nat × Bytes)) (fs : List Spec.Frame)
    (hb : 2 < block ∧ block < 65536) (hr : 0 < rate ∧ rate < 1048576) (hc : 1 ≤ channels ∧ channels ≤ 8) (hbits : 1 ≤ bits ∧ bits ≤ 32)
    (hs : samples < 68719476736) (hm : md5.length = 16) (hl : ∀ x ∈ l, 0 < x.1 ∧ x.1 < 128 ∧ x.2.length < 16777216)
    (hf : fs ≠ [] ∧ fs.length ≤ 65536) (hcom : ∀ f ∈ fs, f.Common rate) (hcl : Spec.AllClear 0 fs)
    (htag : ∀ r, tagSize (pre ++ ([0x66, 0x4C, 0x61, 0x43] ++ r)) = pre.length) :
    readFile (pre ++ ([0x66, 0x4C, 0x61, 0x43] ++ (Spec.blocks ((0, Spec.streamInfo block fmin fmax rate channels bits samples md5) :: l) ++ Spec.frames 0 fs)))
      = some ({ block := block, rate := rate, channels := channels,
                init := [0x66, 0x4C, 0x61, 0x43] ++ Spec.block 0 true (Spec.streamInfo block fmin fmax rate channels bits samples md5) },
              (Spec.packets rate block 0
                (pre.length + 4 + (Spec.blocks ((0, Spec.streamInfo block fmin fmax rate channels bits samples md5) :: l)).length) fs).map
                fun x => { time := x.1, pos := x.2.1, data := x.2.2 }) := by
  generalize hsi : Spec.streamInfo block fmin fmax rate channels bits samples md5 = si
  have hlen : si.length = 34 := by rw [← hsi]; simp [Spec.streamInfo, be3, beEnc, hm]
  generalize hB : Spec.blocks ((0, si) :: l) = B
  have hcnt : l.length + 1 ≤ B.length := by
    rw [← hB]
    have : ∀ l : List (Nat × Bytes), l.length ≤ (Spec.blocks l).length := by
      intro l
      induction l with
      | nil => simp
      | cons x t ih =>
        obtain ⟨k, c⟩ := x
        simp only [Spec.blocks, Spec.block, List.length_cons, List.length_append, List.length_nil]
        omega
    exact this ((0, si) :: l)
  obtain ⟨m, hfile⟩ : ∃ m, (pre ++ ([0x66, 0x4C, 0x61, 0x43] ++ (B ++ Spec.frames 0 fs))).length = m + 1 ∧ l.length ≤ m := by
    refine ⟨(pre ++ ([0x66, 0x4C, 0x61, 0x43] ++ (B ++ Spec.frames 0 fs))).length - 1, ?_, ?_⟩ <;>
      simp only [List.length_append, List.length_cons, List.length_nil] <;> omega
  have hcut : fs.length ≤ (pre ++ ([0x66, 0x4C, 0x61, 0x43] ++ (B ++ Spec.frames 0 fs))).length := by
    have : ∀ (fs : List Spec.Frame) (n : Nat), fs.length ≤ (Spec.frames n fs).length := by
      intro fs
      induction fs with
      | nil => intro n; simp
      | cons f t ih =>
        intro n
        have := ih (n + 1)
        simp only [Spec.frames, Spec.Frame.bytes, Spec.Frame.head, List.length_append, List.length_cons]
        omega
    have := this fs 0
    simp only [List.length_append]
    omega
  have hblocks : metaBlocks (pre ++ ([0x66, 0x4C, 0x61, 0x43] ++ (B ++ Spec.frames 0 fs))).length { block := 0, rate := 0, channels := 0, init := magic } (pre.length + 4) (B ++ Spec.frames 0 fs)
      = some ({ block := block, rate := rate, channels := channels, init := magic ++ Spec.block 0 true si }, pre.length + 4 + B.length, Spec.frames 0 fs) := by
    rw [hfile.1, ← hB]
    simp only [Spec.blocks, List.append_assoc]
    rw [meta_step m _ (pre.length + 4) 0 _ si _ (by decide) (by omega), if_pos rfl, if_neg (by omega), ← hsi,
      info_eq _ _ hb.2 hr.2 hc hbits hs, hsi]
    have hinit : magic ++ ([(((Spec.block 0 (decide (l = [])) si).take 4).getD 0 0) ||| 0x80] ++ ((Spec.block 0 (decide (l = [])) si).take 4).drop 1) ++ si
        = magic ++ Spec.block 0 true si := by
      have f1 := block_form 0 (decide (l = [])) si []
      have f2 := block_form 0 true si []
      simp only [List.append_nil] at f1 f2
      rw [f1, f2]
      have z1 : (UInt8.ofNat 0 ||| 0x80 : UInt8) = UInt8.ofNat 128 := by decide
      have z2 : (UInt8.ofNat 128 ||| 0x80 : UInt8) = UInt8.ofNat 128 := by decide
      cases decide (l = []) <;>
        simp only [List.take_succ_cons, List.take_zero, List.getD_cons_zero, List.drop_succ_cons, List.drop_zero, Nat.zero_add, Bool.false_eq_true, if_true,
          if_false, z1, z2, List.cons_append, List.nil_append, List.append_assoc]
    simp only [Option.bind_some]
    rw [hinit]
    cases l with
    | nil => simp [Spec.blocks]
    | cons y t =>
      rw [if_neg (by simp), meta_rest _ _ (y :: t) m _ (by simp) (by have := hfile.2; simp only [List.length_cons] at this ⊢; omega) hl]
      simp only [List.length_append, Nat.add_assoc]
  unfold readFile readHeader
  rw [htag]
  have hd : (pre ++ ([0x66, 0x4C, 0x61, 0x43] ++ (B ++ Spec.frames 0 fs))).drop (pre.length + 4) = B ++ Spec.frames 0 fs := by
    rw [← List.drop_drop, List.drop_left]
    rfl
  rw [hd, List.drop_left, if_pos (by rfl), hblocks]
  simp only [Option.bind_some]
  rw [if_neg (by omega)]
  simp only [Option.bind_some]
  have := cut_frames (rate := rate) (block := block) hb.1 fs 0 (pre.length + 4 + B.length) _ hf.1 hcut (by omega) hcom hcl
  rw [Nat.zero_mul] at this
  rw [this]
  rfl

/-- C114, for files without a tag in front (for those see `C114_tagged_partial`), up to 65536 frames of a common block size with the rate in their headers, inside of which nothing looks
like the next header: every such file is read as what it is. Block size, rate and channels are those of the stream information, which is kept, marked as the
last block; there is one packet for each frame, with its bytes, its place in the file and the time of its first sample.
What is missing for the full claim: more frames (`C114_long_fails`), a shorter last frame (`C114_last_fails`), the rate only in the stream information
(`C114_rate_fails`), bytes that look like a header (`C114_first_fails`) or like a sync code at the end (`C114_end_fails`), and some tags (`C114_tag_fails`). -/
theorem C114_file_partial (block fmin fmax rate channels bits samples : Nat) (md5 : Bytes) (l : List (Nat × Bytes)) (fs : List Spec.Frame)
    (hb : 2 < block ∧ block < 65536) (hr : 0 < rate ∧ rate < 1048576) (hc : 1 ≤ channels ∧ channels ≤ 8) (hbits : 1 ≤ bits ∧ bits ≤ 32)
    (hs : samples < 68719476736) (hm : md5.length = 16) (hl : ∀ x ∈ l, 0 < x.1 ∧ x.1 < 128 ∧ x.2.length < 16777216)
    (hf : fs ≠ [] ∧ fs.length ≤ 65536) (hcom : ∀ f ∈ fs, f.Common rate) (hcl : Spec.AllClear 0 fs) :
    readFile ([0x66, 0x4C, 0x61, 0x43] ++ Spec.blocks ((0, Spec.streamInfo block fmin fmax rate channels bits samples md5) :: l) ++ Spec.frames 0 fs)
      = some ({ block := block, rate := rate, channels := channels,
                init := [0x66, 0x4C, 0x61, 0x43] ++ Spec.block 0 true (Spec.streamInfo block fmin fmax rate channels bits samples md5) },
              (Spec.packets rate block 0
                (4 + (Spec.blocks ((0, Spec.streamInfo block fmin fmax rate channels bits samples md5) :: l)).length) fs).map
                fun x => { time := x.1, pos := x.2.1, data := x.2.2 }) := by
  have h := file_eq [] block fmin fmax rate channels bits samples md5 l fs hb hr hc hbits hs hm hl hf hcom hcl (fun r => by
    unfold tagSize
    have a0 : u ([] ++ ([0x66, 0x4C, 0x61, 0x43] ++ r)) 0 = 0x66 := rfl
    have a1 : u ([] ++ ([0x66, 0x4C, 0x61, 0x43] ++ r)) 1 = 0x4C := rfl
    have a2 : u ([] ++ ([0x66, 0x4C, 0x61, 0x43] ++ r)) 2 = 0x61 := rfl
    rw [a0, a1, a2, if_neg (by decide)]
    rfl)
  rw [List.nil_append, List.length_nil, Nat.zero_add] at h
  rw [List.append_assoc]
  exact h

/-- C114 with an ID3 tag in front, of any size whose lowest seven bits are less than 118, without footer: the file is read in the same way, with the places
behind the tag. For sizes whose lowest bits carry see `C114_tag_fails`. -/
theorem C114_tagged_partial (version revision flags s0 s1 s2 s3 : UInt8) (content : Bytes) (block fmin fmax rate channels bits samples : Nat) (md5 : Bytes) (l : List (Nat × Bytes)) (fs : List Spec.Frame)
    (hb : 2 < block ∧ block < 65536) (hr : 0 < rate ∧ rate < 1048576) (hc : 1 ≤ channels ∧ channels ≤ 8) (hbits : 1 ≤ bits ∧ bits ≤ 32)
    (hs : samples < 68719476736) (hm : md5.length = 16) (hl : ∀ x ∈ l, 0 < x.1 ∧ x.1 < 128 ∧ x.2.length < 16777216)
    (hf : fs ≠ [] ∧ fs.length ≤ 65536) (hcom : ∀ f ∈ fs, f.Common rate) (hcl : Spec.AllClear 0 fs)
    (hflags : flags.toNat / 16 % 2 = 0) (h0 : s0.toNat < 128) (h1 : s1.toNat < 128) (h2 : s2.toNat < 128) (h3 : s3.toNat < 118)
    (hcontent : content.length = s0.toNat * 128 ^ 3 + s1.toNat * 128 ^ 2 + s2.toNat * 128 + s3.toNat) :
    readFile (([0x49, 0x44, 0x33, version, revision, flags, s0, s1, s2, s3] ++ content) ++ [0x66, 0x4C, 0x61, 0x43] ++ Spec.blocks ((0, Spec.streamInfo block fmin fmax rate channels bits samples md5) :: l) ++ Spec.frames 0 fs)
      = some ({ block := block, rate := rate, channels := channels,
                init := [0x66, 0x4C, 0x61, 0x43] ++ Spec.block 0 true (Spec.streamInfo block fmin fmax rate channels bits samples md5) },
              (Spec.packets rate block 0
                (10 + content.length + 4 + (Spec.blocks ((0, Spec.streamInfo block fmin fmax rate channels bits samples md5) :: l)).length) fs).map
                fun x => { time := x.1, pos := x.2.1, data := x.2.2 }) := by
  have h := file_eq ([0x49, 0x44, 0x33, version, revision, flags, s0, s1, s2, s3] ++ content) block fmin fmax rate channels bits samples md5 l fs hb hr hc hbits hs hm hl hf hcom hcl (fun r => by
    unfold tagSize
    generalize hF : ([0x49, 0x44, 0x33, version, revision, flags, s0, s1, s2, s3] ++ content) ++ ([0x66, 0x4C, 0x61, 0x43] ++ r) = F
    have a0 : u F 0 = 0x49 := by rw [← hF]; rfl
    have a5 : u F 5 = flags.toNat := by rw [← hF]; rfl
    have a6 : u F 6 = s0.toNat := by rw [← hF]; rfl
    have a7 : u F 7 = s1.toNat := by rw [← hF]; rfl
    have a8 : u F 8 = s2.toNat := by rw [← hF]; rfl
    have a9 : u F 9 = s3.toNat := by rw [← hF]; rfl
    rw [a0, a5, a6, a7, a8, a9, if_pos (Or.inl rfl), if_neg (by omega), Nat.mod_eq_of_lt h0, Nat.mod_eq_of_lt h1, Nat.mod_eq_of_lt h2,
      Nat.mod_eq_of_lt (Nat.lt_of_lt_of_le h3 (by decide))]
    rw [or_sum s0.toNat (s1.toNat * 16384) 21 2097152 (by decide) (by omega),
      show s0.toNat * 2097152 + s1.toNat * 16384 = (s0.toNat * 128 + s1.toNat) * 16384 from by omega,
      or_sum _ (s2.toNat * 128) 14 16384 (by decide) (by omega),
      show (s0.toNat * 128 + s1.toNat) * 16384 + s2.toNat * 128 = ((s0.toNat * 128 + s1.toNat) * 128 + s2.toNat) * 128 from by omega,
      or_sum _ (s3.toNat + 10 + 0) 7 128 (by decide) (by omega)]
    simp only [List.length_append, List.length_cons, List.length_nil, hcontent]
    omega)
  have hlen : ([0x49, 0x44, 0x33, version, revision, flags, s0, s1, s2, s3] ++ content).length = 10 + content.length := by
    simp only [List.length_append, List.length_cons, List.length_nil]
  rw [hlen] at h
  rw [List.append_assoc, List.append_assoc]
  exact h

/-- Two frames of 4096 samples at 44100 Hz. -/
def two : List Spec.Frame := [{ b2 := 0xC9, b3 := 0x18, extra := [], body := List.replicate 20 5 }, { b2 := 0xC9, b3 := 0x18, extra := [], body := List.replicate 21 6 }]

theorem clear_of (n len : Nat) (b : Bytes) (h : ∀ p < len, 2 ≤ p → (b.drop p).take 2 ≠ [0xFF, 0xF8]) : Spec.Clear n len b := by
  intro p h2 hp he
  exact absurd he (h p hp h2)

/-- Two frames and a comment meet the hypotheses, and are read so. -/
example : (∀ f ∈ two, f.Common 44100) ∧ Spec.AllClear 0 two
    ∧ (readFile ([0x66, 0x4C, 0x61, 0x43] ++ Spec.blocks [(0, Spec.streamInfo 4096 0 0 44100 2 16 8192 (List.replicate 16 0)), (4, [1, 2, 3])]
        ++ Spec.frames 0 two)).map (fun r => [r.1.block, r.1.rate, r.1.channels] :: r.2.map fun p => [p.time, p.pos, p.data.length])
      = some [[4096, 44100, 2], [0, 49, 26], [92, 75, 27]] := by
  refine ⟨?_, ⟨clear_of _ _ _ (by decide +kernel), clear_of _ _ _ (by decide +kernel), trivial⟩, by decide +kernel⟩
  intro f hf
  simp only [two, List.mem_cons, List.not_mem_nil, or_false] at hf
  rcases hf with rfl | rfl <;> exact ⟨rfl, by decide +kernel⟩

/-- A tag of 1290 bytes in front. -/
example : (readFile (([0x49, 0x44, 0x33, 4, 0, 0, 0, 0, 10, 0] ++ List.replicate 1280 7) ++ [0x66, 0x4C, 0x61, 0x43]
        ++ Spec.blocks [(0, Spec.streamInfo 4096 0 0 44100 2 16 8192 (List.replicate 16 0))]
        ++ Spec.frames 0 two)).map (fun r => [r.1.block, r.1.rate, r.1.channels] :: r.2.map fun p => [p.time, p.pos, p.data.length])
      = some [[4096, 44100, 2], [0, 1332, 26], [92, 1358, 27]] := by decide +kernel

/-! ## What the code does not do -/

/-- After frame 65535 no frame is found: a bit of the first byte of a coded number of four bytes is taken into the number. The frame and all that
follows become one packet. -/
theorem C114_long_fails : (cut 44100 4096 99 (65535 * 4096) 0 (Spec.frames 65535 two)).map (·.map (·.data.length)) = some [58]
    ∧ utfVal (Spec.coded 65536) 0 = 65536 + 4194304 := by decide +kernel

/-- A last frame with fewer samples, whose number is in further bytes of its header, is not found and becomes part of the packet before. -/
theorem C114_last_fails : (cut 44100 4096 99 0 0 (Spec.frames 0 [{ b2 := 0xC9, b3 := 0x18, extra := [], body := List.replicate 20 5 },
    { b2 := 0x69, b3 := 0x18, extra := [99], body := List.replicate 20 5 }])).map (·.map (·.data.length)) = some [53] := by decide +kernel

/-- Frames that refer to the stream information for the rate are not read at all. -/
theorem C114_rate_fails : cut 44100 4096 99 0 0 (Spec.frames 0 [{ b2 := 0xC0, b3 := 0x18, extra := [], body := List.replicate 20 5 },
    { b2 := 0xC0, b3 := 0x18, extra := [], body := List.replicate 20 5 }]) = some [] := by decide +kernel

/-- In the first frame, bytes that look like a header with any number are taken for the next frame. -/
theorem C114_first_fails : (cut 44100 4096 99 0 0 (Spec.frames 0 [{ b2 := 0xC9, b3 := 0x18, extra := [], body := List.replicate 20 5
    ++ ({ b2 := 0xC9, b3 := 0x18, extra := [], body := List.replicate 20 5 } : Spec.Frame).bytes 77 }])).map (·.map (·.data.length))
    = some [26, 26] := by decide +kernel

/-- A sync code in the last bytes of the file leads to a read behind the data. -/
theorem C114_end_fails : cut 44100 4096 99 0 0 (Spec.frames 0 [{ b2 := 0xC9, b3 := 0x18, extra := [], body := List.replicate 20 5 ++ [0xFF, 0xF8] }])
    = none := by decide +kernel

/-- A tag of 265 bytes is taken to have 137, and the file is refused. -/
theorem C114_tag_fails : tagSize ([0x49, 0x44, 0x33, 4, 0, 0, 0, 0, 1, 0x7F] ++ List.replicate 255 0 ++ magic) = 137
    ∧ readHeader ([0x49, 0x44, 0x33, 4, 0, 0, 0, 0, 1, 0x7F] ++ List.replicate 255 0 ++ magic
      ++ Spec.blocks [(0, Spec.streamInfo 4096 0 0 44100 2 16 8192 (List.replicate 16 0))] ++ Spec.frames 0 two) = none := by decide +kernel

end Verif.Flac
