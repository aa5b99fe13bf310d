import Verif.Aac.Pes

/-! # C108: AAC in files and transport streams -/
namespace Verif.Aac
open Verif

/-! ## Files -/

/-- C108: from a file of frames exactly their payloads are read, in order, and reading ends at the end of the file. -/
theorem C108_packets (junk : Nat → UInt8) (l : List Frame) (hl : ∀ f ∈ l, f.Ok) (t pos : Nat) :
    (read junk ⟨encode l, t, pos⟩).1.map Pkt.data = l.map Frame.payload ∧ (read junk ⟨encode l, t, pos⟩).2 = some .eof := by
  rw [read_all junk l hl]
  refine ⟨?_, rfl⟩
  show (pks t pos l).map Pkt.data = _
  induction l generalizing t pos with
  | nil => rfl
  | cons f l ih => rw [pks, List.map_cons, ih fun g hg => hl g (by simp [hg])]; rfl

/-- C108, partial (whole milliseconds per frame; see `C108_drift_fails`): the time of a packet is the sum of the times of the frames before it. -/
theorem C108_times_partial (junk : Nat → UInt8) (l : List Frame) (hl : ∀ f ∈ l, f.Ok) (i : Nat) (p : Pkt) (h : (read junk ⟨encode l, 0, 1⟩).1[i]? = some p) :
    p.time = ((l.take i).map Frame.ms).sum ∧ p.bpos = (encode (l.take i)).length + 1 := by
  rw [read_all junk l hl] at h
  obtain ⟨h1, h2, _⟩ := pks_get l 0 1 i p h
  exact ⟨by omega, by omega⟩

/-- C108: the track has the initialisation data, the rate and the channels of the first frame. -/
theorem C108_track (junk : Nat → UInt8) (f : Frame) (l : List Frame) (hl : ∀ g ∈ f :: l, g.Ok) :
    readHeader junk (encode (f :: l)) = some ([UInt8.ofNat (f.config / 256), UInt8.ofNat f.config], f.hz, if f.chans = 7 then 8 else f.chans, (read junk ⟨encode (f :: l), 0, 1⟩).1) := by
  have hf := hl f (by simp)
  have hp : Pre f (encode (f :: l)) := pre_of (t := []) (u := encode l) (by rw [encode_cons, List.append_nil]) (by
    rw [encode_cons, List.length_append, bytes_length]
    have := size_pos hf
    rcases hsize_cases f with h | h <;> omega)
  unfold readHeader
  have hn : next junk ⟨encode (f :: l), 0, 1⟩ = _ := next_whole junk hf (encode l) 0 1
  rw [hn]
  simp only
  rw [init_eq hf hp, (freq_eq hf hp).1, chanCount_eq hf hp]

/-- C108: after seeking to any packet that was found when the file was read first, the packets from there on are read, with the same times. -/
theorem C108_seek (junk : Nat → UInt8) (l : List Frame) (hl : ∀ f ∈ l, f.Ok) (i : Nat) (p : Pkt) (h : (read junk ⟨encode l, 0, 1⟩).1[i]? = some p) (s : St) :
    (read junk (seek (encode l) p.bpos p.time s)).1.map (fun q => (q.time, q.data)) = ((read junk ⟨encode l, 0, 1⟩).1.drop i).map (fun q => (q.time, q.data)) := by
  rw [read_all junk l hl] at h ⊢
  obtain ⟨_, h2, h3⟩ := pks_get l 0 1 i p h
  simp only
  rw [h3, pks_pair]
  have e : (encode l).drop (p.bpos - 1) = encode (l.drop i) := by
    rw [h2, show 1 + (encode (l.take i)).length - 1 = (encode (l.take i)).length by omega]
    conv => lhs; arg 2; rw [← List.take_append_drop i l, encode_append]
    simp
  unfold seek
  rw [e, read_all junk _ fun f hf => hl f (List.mem_of_mem_drop hf)]
  exact pks_pair _ _ _

/-- C108: a tag behind the frames is left out. -/
theorem C108_tag (junk : Nat → UInt8) (l : List Frame) (hl : ∀ f ∈ l, f.Ok) (rest : Bytes) (t pos : Nat) :
    read junk ⟨encode l ++ ([0x41, 0x50, 0x45, 0x54, 0x41, 0x47] ++ rest), t, pos⟩ = read junk ⟨encode l, t, pos⟩ := by
  rw [read_all junk l hl, read_stop junk l hl _ .eof]
  intro t pos
  unfold next
  rw [if_neg (by simp), if_neg (by simp), if_pos (by left; show (0x41 : UInt8).toNat ≠ 0xFF; decide)]
  exact if_pos rfl

/-- C108: of a frame cut short behind its header the part that is there is read, whatever was in memory. -/
theorem C108_cut (junk : Nat → UInt8) (l : List Frame) (hl : ∀ f ∈ l, f.Ok) (f : Frame) (hf : f.Ok) (k : Nat) (h1 : f.hsize < k) (h2 : k < f.size) (t pos : Nat) :
    (read junk ⟨encode l ++ f.bytes.take k, t, pos⟩).1.map Pkt.data = l.map Frame.payload ++ [f.payload.take (k - f.hsize)] ∧ (read junk ⟨encode l ++ f.bytes.take k, t, pos⟩).2 = some .eof := by
  have hk : (f.bytes.take k).length = k := by rw [List.length_take, bytes_length]; omega
  unfold read
  have hc := count_le l hl
  obtain ⟨n, hn⟩ : ∃ n, (encode l ++ f.bytes.take k).length + 1 = l.length + (n + 1 + 1) := ⟨(encode l).length + k - l.length - 1, by rw [List.length_append, hk]; omega⟩
  simp only
  rw [hn, readN_frames junk l hl, readN_ok junk (next_cut junk hf h1 h2 _ _)]
  have e : ∀ s : St, s.rest = [] → readN junk (n + 1) s = ([], some .eof) := by
    intro s hs
    rw [readN]
    unfold next
    rw [if_pos hs]
  rw [e _ rfl]
  refine ⟨?_, rfl⟩
  rw [List.map_append]
  congr 1
  have := (C108_packets junk l hl t pos).1
  rwa [read_all junk l hl] at this

/-! ## Transport streams -/

/-- C108, partial (no cut within a header; see `C108_header_fails`): however frames are cut into PES packets, exactly their payloads are found, in order. -/
theorem C108_stream_partial (l : List Frame) (hl : ∀ f ∈ l, f.Ok) (ps : List (Nat × Bytes)) (hp : (ps.map (·.2)).flatten = encode l)
    (hg : ∀ i, Good l ((ps.take i).map (·.2)).flatten.length) :
    ∃ outs, stream none ps = some (outs, none) ∧ outs.map Out.data = l.map fun f => some f.payload :=
  stream_frames ps none l hl hp fun i => by rw [show kept none = 0 from rfl, Nat.zero_add]; exact hg i

/-- C108: frames of one PES packet follow each other in time, from the time of the packet on. -/
theorem C108_whole (l : List Frame) (hl : ∀ f ∈ l, f.Ok) (ts : Nat) : pes none (encode l) ts = some ((packets ts l).map fun x => .pkt x.1 x.2, none) := by
  have hg : Good l (encode l).length := by
    intro f c h
    have := into_append l [] 0
    rw [List.append_nil, Nat.add_zero] at this
    rw [this] at h
    cases h
  obtain ⟨done, left, rem, h1, h2, h3⟩ := scan_frames l hl (encode l) [] (by simp) hg ts 0
  have hk := fits_length h3
  have ho : ∀ (l : List Frame) ms, outsOf ts ms l = (packets (ts + ms) l).map fun x => .pkt x.1 x.2 := by
    intro l
    induction l with
    | nil => intro _; rfl
    | cons f l ih => intro ms; rw [outsOf, ih, packets, List.map_cons, Nat.add_assoc]
  have hleft : left = [] ∧ rem = none := by
    match rem, h3 with
    | none, h3 =>
      have h4 : encode left = [] := h3.symm
      have h5 := count_le left fun f hf => hl f (by rw [h1]; simp [hf])
      rw [h4] at h5
      exact ⟨List.length_eq_zero_iff.1 (by simpa using h5), rfl⟩
    | some (got, len), h3 =>
      obtain ⟨f, l', rfl, k2, k3, k4, _⟩ := h3
      have := congrArg List.length k2
      rw [encode_cons, List.length_append, List.length_append, bytes_length] at this
      simp at this
      omega
  obtain ⟨rfl, rfl⟩ := hleft
  rw [List.append_nil] at h1
  subst h1
  unfold pes
  rw [h2, ho]; rfl

/-- C108: a frame that goes on into the next PES packet has its time before that of the next packet, and the frames that start there follow from that time on. -/
theorem C108_split (f : Frame) (hf : f.Ok) (l : List Frame) (hl : ∀ g ∈ l, g.Ok) (c : Nat) (h1 : f.hsize ≤ c) (h2 : c < f.size) (ts ts' : Nat) :
    stream none [(ts, f.bytes.take c), (ts', f.bytes.drop c ++ encode l)] = some (.pkt (ts' - f.ms) f.payload :: (packets ts' l).map (fun x => .pkt x.1 x.2), none) := by
  have hk : (f.bytes.take c).length = c := by rw [List.length_take, bytes_length]; omega
  have hd : (f.bytes.drop c).length = f.size - c := by rw [List.length_drop, bytes_length]
  have h9 := hsize_cases f
  have hp : Pre f (f.bytes.take c) := pre_of (t := f.bytes.drop c) (u := []) (by simp) (by omega)
  have e1 : pes none (f.bytes.take c) ts = some ([], some (f.bytes.take c, f.size)) := by
    unfold pes
    simp only
    rw [scan.eq_def, if_neg (by intro h; rw [h] at hk; simp at hk; omega), valid_eq hf hp (by omega)]
    simp only
    rw [completeSize_eq hf hp, if_neg (by omega)]
  have e2 : pes (some (f.bytes.take c, f.size)) (f.bytes.drop c ++ encode l) ts' = some (.pkt (ts' - f.ms) f.payload :: (packets ts' l).map (fun x => .pkt x.1 x.2), none) := by
    unfold pes
    simp only
    rw [hk, List.length_append, hd, if_neg (by omega), List.take_append_of_le_length (Nat.le_of_eq hd.symm), List.take_of_length_le (l := f.bytes.drop c) (Nat.le_of_eq hd), List.take_append_drop, whole_frame hf, Option.bind_some]
    have e3 : (f.bytes.drop c ++ encode l).drop (f.size - c) = encode l := by rw [← hd]; simp
    have e4 : scan (encode l) ts' 0 = some ((packets ts' l).map (fun x => .pkt x.1 x.2), none) := C108_whole l hl ts'
    rw [e3, e4]; rfl
  rw [stream, e1, Option.bind_some, stream, e2, Option.bind_some, stream]
  simp

/-! ## Concrete cases -/

/-- A frame of 44100 Hz, stereo. -/
def plain : Frame := ⟨false, 2, 4, false, 2, 0, 0x7FF, 1, none, [1, 2, 3]⟩

/-- One with a check value and two blocks. -/
def checked : Frame := ⟨true, 1, 3, true, 7, 5, 100, 2, some (7, 8), [4, 5, 6, 7]⟩

theorem plain_ok : plain.Ok := ⟨by decide, by decide, by decide, by decide, by decide, by decide, by decide, by decide⟩

theorem checked_ok : checked.Ok := ⟨by decide, by decide, by decide, by decide, by decide, by decide, by decide, by decide⟩

example : (∀ f ∈ [plain, checked, plain], f.Ok) ∧ (read (fun _ => 0) ⟨encode [plain, checked, plain], 0, 1⟩).1 = [⟨0, [1, 2, 3], 1⟩, ⟨23, [4, 5, 6, 7], 11⟩, ⟨65, [1, 2, 3], 24⟩] := by
  refine ⟨?_, by decide +kernel⟩
  intro f hf
  simp at hf
  rcases hf with rfl | rfl | rfl
  · exact plain_ok
  · exact checked_ok
  · exact plain_ok

example : plain.config = 0x1210 ∧ plain.hsize < 9 ∧ 9 < plain.size := by decide

/-- Two frames cut within the payload of the first. -/
example : (∀ i, Good [plain, checked] (([(0, plain.bytes.take 8), (40, plain.bytes.drop 8 ++ checked.bytes)].take i).map (·.2)).flatten.length) := by
  intro i f c h
  match i with
  | 0 => exact .inl (by cases h; rfl)
  | 1 => cases h; exact .inr (by decide)
  | i + 2 => simp [into, Frame.size, Frame.hsize, plain, checked, Frame.bytes] at h

/-! ## What the code does not do -/

theorem last_time (n t pos : Nat) (f : Frame) : ∃ p, (pks t pos (List.replicate (n + 1) f)).getLast? = some p ∧ p.time = t + n * f.ms := by
  induction n generalizing t pos with
  | zero => exact ⟨⟨t, f.payload, pos⟩, rfl, by simp⟩
  | succ n ih =>
    obtain ⟨p, h1, h2⟩ := ih (t + f.ms) (pos + f.size)
    refine ⟨p, ?_, by rw [h2, Nat.succ_mul]; omega⟩
    rw [List.replicate_succ, pks, List.getLast?_cons, h1]; rfl

/-- The times of packets fall behind those of their samples, by any amount: fractions of milliseconds are lost with every frame. -/
theorem C108_drift_fails (junk : Nat → UInt8) (d : Nat) : ∃ (l : List Frame) (p : Pkt), (∀ f ∈ l, f.Ok ∧ f.hz = 44100 ∧ f.blocks = 1) ∧
    (read junk ⟨encode l, 0, 1⟩).1.getLast? = some p ∧ p.time + d < (l.length - 1) * 1024 * 1000 / 44100 := by
  have hl : ∀ f ∈ List.replicate (10 * d + 10 + 1) plain, f.Ok := by
    intro f hf; rw [List.eq_of_mem_replicate hf]; exact plain_ok
  obtain ⟨p, h1, h2⟩ := last_time (10 * d + 10) 0 1 plain
  refine ⟨_, p, fun f hf => ⟨hl f hf, ?_⟩, by rw [read_all junk _ hl]; exact h1, ?_⟩
  · rw [List.eq_of_mem_replicate hf]; exact ⟨rfl, rfl⟩
  · rw [h2, List.length_replicate, show plain.ms = 23 from by decide]
    omega

/-- A frame that claims less than six bytes makes six be written into its buffer. -/
theorem C108_small_fails (junk : Nat → UInt8) (b : Bytes) (hb : b.length = 6) (h0 : at' b 0 = 0xFF) (h1 : at' b 1 / 16 = 15) (hs : completeSize b < 6) (u : Bytes) (t pos : Nat) :
    next junk ⟨b ++ u, t, pos⟩ = .error .fault := by
  have e : ∀ i < 6, at' (b ++ u) i = at' b i := by
    intro i hi
    unfold at'
    rw [List.getD_eq_getElem?_getD, List.getElem?_append_left (by omega), List.getD_eq_getElem?_getD]
  have e2 : completeSize (b ++ u) = completeSize b := by unfold completeSize; rw [e 3 (by omega), e 4 (by omega), e 5 (by omega)]
  unfold next
  simp only
  rw [if_neg (by intro h; have := congrArg List.length h; simp [hb] at this), if_neg (by rw [List.length_append]; omega), e 0 (by omega), e 1 (by omega), if_neg (by rw [h0, h1]; simp), e2, if_pos hs]

example : at' [0xFF, 0xF1, 0x50, 0x80, 0, 0xBF] 0 = 0xFF ∧ at' [0xFF, 0xF1, 0x50, 0x80, 0, 0xBF] 1 / 16 = 15 ∧ completeSize [0xFF, 0xF1, 0x50, 0x80, 0, 0xBF] = 5 := by decide

/-- A file cut within the header of its last frame makes data of a negative size be copied. -/
theorem C108_cut_fails : (read (fun _ => 0) ⟨encode [plain] ++ plain.bytes.take 6, 0, 1⟩).2 = some .fault := by decide +kernel

/-- A frame without payload ends the track: the frames behind it are not read. -/
theorem C108_empty_fails : (read (fun _ => 0) ⟨encode [plain, { plain with payload := [] }, plain], 0, 1⟩).1 = [⟨0, [1, 2, 3], 1⟩] := by decide +kernel

theorem scan_short (n : Nat) : ∀ b : Bytes, b.length = n + 1 → n < 6 → ∀ ts ms, scan b ts ms = none := by
  induction n with
  | zero =>
    intro b hb _ ts ms
    rw [scan.eq_def, if_neg (by intro h; rw [h] at hb; simp at hb)]
    unfold valid
    rw [if_neg (by omega), if_pos (by omega)]
  | succ n ih =>
    intro b hb hn ts ms
    have hv : valid b = some false := by
      unfold valid
      have : ¬ headerSize b ≤ b.length := by unfold headerSize; split <;> omega
      rw [if_neg (by omega), if_neg (by omega)]
      simp [this]
    rw [scan.eq_def, if_neg (by intro h; rw [h] at hb; simp at hb), hv]
    exact ih _ (by rw [List.length_tail]; omega) (by omega) ts ms

/-- If a frame is cut within its header by the end of a PES packet, a byte behind the PES packet is read. -/
theorem C108_header_fails (f : Frame) (c : Nat) (h0 : 0 < c) (h1 : c < f.hsize) (ts : Nat) : pes none (f.bytes.take c) ts = none := by
  have hl := bytes_length f
  have hs : f.size = f.hsize + f.payload.length := rfl
  have hk : (f.bytes.take c).length = c := by rw [List.length_take]; omega
  have h9 := hsize_cases f
  have hne : ∀ b : Bytes, 0 < b.length → b ≠ [] := fun b h => List.length_pos_iff.1 h
  unfold pes
  simp only
  by_cases h6 : c ≤ 6
  · exact scan_short (c - 1) _ (by omega) (by omega) ts 0
  · have hp : Pre f (f.bytes.take c) := pre_of (t := f.bytes.drop c) (u := []) (by simp) (by omega)
    have hv : valid (f.bytes.take c) = some false := by
      unfold valid
      rw [if_neg (by omega), if_neg (by omega), headerSize_eq hp, hk]
      have : ¬ f.hsize ≤ c := by omega
      simp [this]
    rw [scan.eq_def, if_neg (hne _ (by omega)), hv]
    simp only
    by_cases h7 : c = 7
    · exact scan_short 5 _ (by rw [List.length_tail]; omega) (by omega) ts 0
    · have hl2 : (f.bytes.take c).tail.length = 7 := by rw [List.length_tail]; omega
      have hv2 : valid (f.bytes.take c).tail = some false := by
        have hsy : hasSync (f.bytes.take c).tail = false := by
          have e : at' (f.bytes.take c).tail 0 = at' (f.bytes.take c) 1 := by
            unfold at'
            rw [List.getD_eq_getElem?_getD, List.getD_eq_getElem?_getD, List.getElem?_tail]
          unfold hasSync
          rw [e, at1 hp]
          have : ¬ (240 + (if f.mpeg2 then 8 else 0) + (if f.check.isSome then 0 else 1)) * 16 + at' (f.bytes.take c).tail 1 / 16 % 16 = 0xfff := by
            cases f.mpeg2 <;> cases f.check <;> simp <;> omega
          exact decide_eq_false this
        unfold valid
        rw [if_neg (by omega), if_neg (by omega), hsy]; rfl
      rw [scan.eq_def, if_neg (hne _ (by omega)), hv2]
      exact scan_short 5 _ (by rw [List.length_tail]; omega) (by omega) ts 0

example : (0 : Nat) < 6 ∧ 6 < plain.hsize := by decide

end Verif.Aac
