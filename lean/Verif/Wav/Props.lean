import Verif.Wav.Spec

/-!
# C111: WAV responses and recordings are proper WAVE files with the samples of the track
-/

namespace Verif.Wav
open Verif Verif.Wav.Spec

theorem chunk_le (type content : Bytes) (n : Nat) (ht : type.length = 4) (hn : n = content.length) (hlt : n < 4294967296)
    (he : content.length % 2 = 0) : Chunk type content (type ++ leEnc 4 n ++ content) := by
  refine ⟨leEnc 4 n, [], ht, leEnc_length 4 n, ?_, by simp [he], by simp⟩
  rw [leVal_leEnc, ← hn]
  exact Nat.mod_eq_of_lt hlt

/-- The content of the format chunk. -/
def fmtContent (t : Track) : Bytes :=
  leEnc 2 (format t.codec) ++ leEnc 2 t.channels ++ leEnc 4 t.rate ++ leEnc 4 t.bps ++ leEnc 2 (t.channels * (t.size * 8))
    ++ leEnc 2 t.size ++ leEnc 2 0

theorem fmt_chunk (t : Track) :
    Chunk [0x66, 0x6D, 0x74, 0x20] (fmtContent t) (fmtChunk (format t.codec) t.channels t.rate t.bps (t.channels * (t.size * 8)) t.size) := by
  refine ⟨[18, 0, 0, 0], [], rfl, rfl, ?_, ?_, ?_⟩
  · simp [fmtContent, leEnc_length]; rfl
  · simp [fmtContent, leEnc_length]
  · simp only [fmtChunk, fmtContent, List.append_assoc, List.cons_append, List.nil_append, List.append_nil]

theorem fact_chunk (n : Nat) : Chunk [0x66, 0x61, 0x63, 0x74] (leEnc 4 n) (factChunk n) := by
  refine ⟨[4, 0, 0, 0], [], rfl, rfl, ?_, ?_, ?_⟩
  · simp [leEnc_length]; rfl
  · simp [leEnc_length]
  · simp only [factChunk, List.append_assoc, List.cons_append, List.nil_append, List.append_nil]

theorem list_chunk : Chunk [0x4C, 0x49, 0x53, 0x54] (listChunk.drop 8) listChunk :=
  ⟨[22, 0, 0, 0], [], rfl, rfl, by decide, by decide, by decide⟩

/-- **C111 (file), partial.** For a stream that is not live and not PCM, whose keys add up to the data sent, an even number
of bytes that fits in the header, the whole file is a WAVE file: its sizes are right, and it has a format, a number of
samples, an identifier, and the data. Missing: PCM (`C111_pcm_fails`) and an odd number of bytes (`C111_odd_fails`). -/
theorem C111_file_partial (t : Track) (d : Bytes) (hl : t.live = false) (hc : t.codec ≠ .pcm) (hd : t.keys.sum = d.length)
    (he : d.length % 2 = 0) (hs : 80 + d.length < 4294967296) :
    WaveFile [([0x66, 0x6D, 0x74, 0x20], fmtContent t), ([0x66, 0x61, 0x63, 0x74], leEnc 4 ((t.lastms - t.firstms) * t.rate / 1000)),
      ([0x4C, 0x49, 0x53, 0x54], listChunk.drop 8), ([0x64, 0x61, 0x74, 0x61], d)] (header t ++ d) := by
  have htot : totalData t = d.length := by
    unfold totalData
    rw [hl, hd]
    simp only [Bool.false_eq_true, if_false]
    exact Nat.mod_eq_of_lt (by omega)
  have hf : format t.codec ≠ 1 := by
    cases h : t.codec with
    | pcm => exact absurd h hc
    | _ => simp [format]
  have hsm : samples t = (t.lastms - t.firstms) * t.rate / 1000 := by
    unfold samples; rw [hl]; simp
  have hll : listChunk.length = 30 := rfl
  refine ⟨fmtChunk (format t.codec) t.channels t.rate t.bps (t.channels * (t.size * 8)) t.size ++ (factChunk (samples t) ++ (listChunk
    ++ ([0x64, 0x61, 0x74, 0x61] ++ leEnc 4 d.length ++ d))), ?_, ?_⟩
  · have hlen : ([0x57, 0x41, 0x56, 0x45] ++ (fmtChunk (format t.codec) t.channels t.rate t.bps (t.channels * (t.size * 8)) t.size ++ (factChunk (samples t) ++ (listChunk
        ++ ([0x64, 0x61, 0x74, 0x61] ++ leEnc 4 d.length ++ d))))).length = 80 + d.length := by
      simp only [fmtChunk, factChunk, List.length_append, leEnc_length, List.length_cons, List.length_nil, hll]
      omega
    have := chunk_le [0x52, 0x49, 0x46, 0x46] _ (80 + d.length) rfl hlen.symm hs (by rw [hlen]; omega)
    unfold header
    rw [htot]
    simp only [ne_eq, hf, not_false_eq_true, if_true]
    simp only [List.append_assoc, List.cons_append, List.nil_append] at this ⊢
    exact this
  · refine ⟨_, _, fmt_chunk t, ⟨_, _, ?_, ⟨_, _, list_chunk, ⟨_, [], chunk_le _ d d.length rfl rfl (by omega) he, rfl, by simp⟩, rfl⟩, rfl⟩, rfl⟩
    rw [← hsm]
    exact fact_chunk _

/-- **C111 (format), partial.** The format chunk says the format number of the codec, the channels, the rate, the bytes
per second and the bits per sample, when they fit. Missing: the size of a block (`C111_block_fails`). -/
theorem C111_format_partial (t : Track) (h1 : t.channels < 65536) (h2 : t.rate < 4294967296) (h3 : t.bps < 4294967296) (h4 : t.size < 65536) :
    ∃ block, readFormat (fmtContent t)
      = { tag := formatTag t.codec, channels := t.channels, rate := t.rate, bps := t.bps, block := block, bits := t.size } := by
  refine ⟨t.channels * (t.size * 8) % 65536, ?_⟩
  have e2 : ∀ (n : Nat) (r : Bytes), (leEnc 2 n ++ r).take 2 = leEnc 2 n := fun n r => by rw [List.take_append_of_le_length (by simp)]; rw [List.take_of_length_le (by simp)]
  have e4 : ∀ (n : Nat) (r : Bytes), (leEnc 4 n ++ r).take 4 = leEnc 4 n := fun n r => by rw [List.take_append_of_le_length (by simp)]; rw [List.take_of_length_le (by simp)]
  have d0 : ∀ (w n k : Nat) (r : Bytes), (leEnc w n ++ r).drop (w + k) = r.drop k := fun w n k r => by
    rw [List.drop_append, List.drop_of_length_le (by simp)]
    simp
  have v2 : ∀ n, leVal (leEnc 2 n) = n % 65536 := fun n => by rw [leVal_leEnc]
  have v4 : ∀ n, leVal (leEnc 4 n) = n % 4294967296 := fun n => by rw [leVal_leEnc]
  unfold readFormat fmtContent
  simp only [List.append_assoc]
  rw [e2, d0 2 _ 0, List.drop_zero, e2, d0 2 _ 2, d0 2 _ 0, List.drop_zero, e4, d0 2 _ 6, d0 2 _ 4, d0 4 _ 0, List.drop_zero, e4,
    d0 2 _ 10, d0 2 _ 8, d0 4 _ 4, d0 4 _ 0, List.drop_zero, e2, d0 2 _ 12, d0 2 _ 10, d0 4 _ 6, d0 4 _ 2, d0 2 _ 0, List.drop_zero, e2]
  simp only [v2, v4, Nat.mod_eq_of_lt h1, Nat.mod_eq_of_lt h2, Nat.mod_eq_of_lt h3, Nat.mod_eq_of_lt h4]
  congr 1
  cases t.codec <;> rfl

theorem swap2_groups (gs : List Bytes) (d : Bytes) (h : Groups 2 gs d) : ∃ o, swap2 d = some o ∧ Groups 2 (gs.map List.reverse) o := by
  induction gs generalizing d with
  | nil => rw [show d = [] from h]; exact ⟨[], rfl, rfl⟩
  | cons g t ih =>
    obtain ⟨r, hg, hr, rfl⟩ := h
    obtain ⟨o, h1, h2⟩ := ih r hr
    match g, hg with
    | [a, b], _ =>
      refine ⟨b :: a :: o, by simp [swap2, h1], ⟨o, rfl, h2, rfl⟩⟩

theorem swap3_groups (gs : List Bytes) (d : Bytes) (h : Groups 3 gs d) : ∃ o, swap3 d = some o ∧ Groups 3 (gs.map List.reverse) o := by
  induction gs generalizing d with
  | nil => rw [show d = [] from h]; exact ⟨[], rfl, rfl⟩
  | cons g t ih =>
    obtain ⟨r, hg, hr, rfl⟩ := h
    obtain ⟨o, h1, h2⟩ := ih r hr
    match g, hg with
    | [a, b, c], _ =>
      refine ⟨c :: b :: a :: o, by simp [swap3, h1], ⟨o, rfl, h2, rfl⟩⟩

theorem leVal_append (a b : Bytes) : leVal (a ++ b) = leVal a + 256 ^ a.length * leVal b := by
  induction a with
  | nil => simp [leVal]
  | cons x t ih =>
    simp only [List.cons_append, leVal, ih, List.length_cons, Nat.pow_succ, Nat.mul_add]
    rw [Nat.mul_comm (256 ^ t.length) 256, Nat.mul_assoc]
    omega

theorem leVal_reverse (g : Bytes) : leVal g.reverse = beVal g := by
  induction g with
  | nil => rfl
  | cons x t ih =>
    simp only [List.reverse_cons, leVal_append, beVal, ih, List.length_reverse, leVal]
    rw [Nat.mul_zero, Nat.add_zero, Nat.mul_comm]
    omega

/-- **C111 (samples), partial.** PCM data of whole samples of 16 or 24 bits, big-endian in the stream, is sent with the
same samples in the same order, little-endian. Missing: samples of other sizes above 8 bits (`C111_wide_fails`). -/
theorem C111_samples_partial (t : Track) (hc : t.codec = .pcm) (hs : t.size = 16 ∨ t.size = 24) (stale d : Bytes) (gs : List Bytes)
    (hg : Groups (t.size / 8) gs d) :
    ∃ o gs', sendNext t stale d = some o ∧ Groups (t.size / 8) gs' o ∧ gs'.map leVal = gs.map beVal := by
  have hm : (gs.map List.reverse).map leVal = gs.map beVal := by
    rw [List.map_map]
    exact List.map_congr_left (fun g _ => leVal_reverse g)
  rcases hs with hs | hs
  · rw [hs] at hg ⊢
    obtain ⟨o, h1, h2⟩ := swap2_groups gs d hg
    exact ⟨o, _, by simp [sendNext, hc, hs, h1], h2, hm⟩
  · rw [hs] at hg ⊢
    obtain ⟨o, h1, h2⟩ := swap3_groups gs d hg
    exact ⟨o, _, by simp [sendNext, hc, hs, h1], h2, hm⟩

/-- **C111 (data).** Data of other codecs, and of samples of 8 bits, is sent as it is. -/
theorem C111_data (t : Track) (h : t.codec ≠ .pcm ∨ t.size ≤ 8) (stale d : Bytes) : sendNext t stale d = some d := by
  have : ¬ (t.codec = .pcm ∧ 8 < t.size) := by
    rintro ⟨h1, h2⟩
    rcases h with h | h
    · exact h h1
    · omega
  simp [sendNext, this]

/-! ## Concrete cases and disagreements -/

/-- A track of 16 bits in two channels at 48 kHz. -/
def exTrack (c : Codec) (n : Nat) : Track :=
  { codec := c, channels := 2, rate := 48000, bps := 192000, size := 16, live := false, keys := [n], firstms := 0, lastms := 1000 }

example : WaveFile [([0x66, 0x6D, 0x74, 0x20], fmtContent (exTrack .ulaw 4)), ([0x66, 0x61, 0x63, 0x74], leEnc 4 48000),
      ([0x4C, 0x49, 0x53, 0x54], listChunk.drop 8), ([0x64, 0x61, 0x74, 0x61], [1, 2, 3, 4])] (header (exTrack .ulaw 4) ++ [1, 2, 3, 4]) :=
  C111_file_partial (exTrack .ulaw 4) [1, 2, 3, 4] rfl (by simp [exTrack]) rfl (by decide) (by decide)

example : sendNext (exTrack .pcm 4) [] [1, 2, 3, 4] = some [2, 1, 4, 3] ∧ Groups 2 [[1, 2], [3, 4]] [1, 2, 3, 4] :=
  ⟨by decide, [3, 4], rfl, ⟨[], rfl, rfl, rfl⟩, rfl⟩

/-- A WAVE file is as long as its header says, and 8 bytes more. -/
theorem waveFile_size {cs : List (Bytes × Bytes)} {b : Bytes} (h : WaveFile cs b) :
    leVal ((b.drop 4).take 4) + leVal ((b.drop 4).take 4) % 2 + 8 = b.length := by
  obtain ⟨body, ⟨sz, pad, h1, h2, h3, h4, rfl⟩, _⟩ := h
  have : ((([0x52, 0x49, 0x46, 0x46] : Bytes) ++ sz ++ ([0x57, 0x41, 0x56, 0x45] ++ body) ++ pad).drop 4).take 4 = sz := by
    simp [h2]
  rw [this, h3]
  simp only [List.length_append, h2, h4, List.length_cons, List.length_nil]
  omega

/-- **C111, disagreement.** A recording of PCM is not a WAVE file: its header says 12 bytes more than there are, those of
a chunk that is left out. -/
theorem C111_pcm_fails :
    (exTrack .pcm 4).keys.sum = ([1, 2, 3, 4] : Bytes).length
    ∧ (header (exTrack .pcm 4) ++ [1, 2, 3, 4]).length = 80 + 8 + 4 - 12
    ∧ ∀ cs, ¬ WaveFile cs (header (exTrack .pcm 4) ++ [1, 2, 3, 4]) := by
  refine ⟨rfl, by decide +kernel, ?_⟩
  intro cs h
  have := waveFile_size h
  revert this
  decide +kernel

/-- **C111, disagreement.** An odd number of data bytes is not filled up. -/
theorem C111_odd_fails :
    (exTrack .ulaw 3).keys.sum = ([1, 2, 3] : Bytes).length ∧ ∀ cs, ¬ WaveFile cs (header (exTrack .ulaw 3) ++ [1, 2, 3]) := by
  refine ⟨rfl, ?_⟩
  intro cs h
  have := waveFile_size h
  revert this
  decide +kernel

/-- **C111, disagreement.** For 16 bits in two channels the format says blocks of 256 bytes, where it is 4. -/
theorem C111_block_fails : (readFormat (fmtContent (exTrack .pcm 4))).block = 256 := by
  decide +kernel

/-- **C111, disagreement.** Samples of 32 bits are not sent at all: what is sent is what the buffer held before. -/
theorem C111_wide_fails (stale d d' : Bytes) (h : d.length = d'.length) :
    sendNext { exTrack .pcm 4 with size := 32 } stale d = sendNext { exTrack .pcm 4 with size := 32 } stale d' := by
  simp [sendNext, exTrack, h]

/-- **C111, disagreement.** A packet that ends within a sample of 16 bits is read past its end. -/
theorem C111_part_fails : sendNext (exTrack .pcm 4) [] [1, 2, 3] = none ∧ sendNext { exTrack .pcm 4 with size := 24 } [] [1, 2] = none := by
  decide +kernel

/-- C111: the header of a live recording, of a codec other than PCM, has the largest size there is, and its data reach as
far: the data size and the bytes before the data make the file size, which does not count its first eight bytes. -/
theorem C111_live (t : Track) (hl : t.live = true) (hc : t.codec ≠ .pcm) :
    leVal (((header t).drop 4).take 4) = 0xFFFFFFFF
      ∧ leVal ((header t).drop ((header t).length - 4)) + (header t).length = 0xFFFFFFFF + 8 := by
  have ht : totalData t = 4294967215 := by unfold totalData; rw [hl]; rfl
  have hf : format t.codec ≠ 1 := by
    cases h : t.codec with
    | pcm => exact absurd h hc
    | _ => decide
  have h4 : (leEnc 4 (80 + totalData t)).length = 4 := leEnc_length _ _
  obtain ⟨pre, hpre, hlen⟩ : ∃ pre : Bytes, header t = pre ++ leEnc 4 (totalData t) ∧ pre.length = 84 := by
    unfold header
    rw [if_pos hf]
    refine ⟨_, rfl, ?_⟩
    simp only [List.length_append, fmtChunk, factChunk, listChunk, leEnc_length, List.length_cons, List.length_nil]
  constructor
  · have : ((header t).drop 4).take 4 = leEnc 4 (80 + totalData t) := by
      unfold header
      simp only [List.append_assoc]
      show List.take 4 (leEnc 4 (80 + totalData t) ++ _) = _
      rw [List.take_left' h4]
    rw [this, ht]
    decide +kernel
  · rw [hpre]
    simp only [List.length_append, hlen, leEnc_length]
    rw [List.drop_left' (by omega), ht]
    decide +kernel

/-- A track of that kind. -/
example : ({ exTrack .alaw 4 with live := true } : Track).live = true ∧ ({ exTrack .alaw 4 with live := true } : Track).codec ≠ .pcm := by
  decide

end Verif.Wav
