import Verif.Aac.Lemmas

namespace Verif.Aac
open Verif

theorem append_eq {a b c d : Bytes} (h : a ++ b = c ++ d) (hl : c.length ≤ a.length) : ∃ e, a = c ++ e ∧ e ++ b = d := by
  refine ⟨a.drop c.length, ?_, ?_⟩
  · have h1 : (a ++ b).take c.length = c := by rw [h]; simp
    rw [List.take_append_of_le_length hl] at h1
    conv => lhs; rw [← List.take_append_drop c.length a, h1]
  · have h1 : (a ++ b).drop c.length = d := by rw [h]; simp
    rwa [List.drop_append_of_le_length hl] at h1

theorem encode_cons (f : Frame) (l : List Frame) : encode (f :: l) = f.bytes ++ encode l := rfl

theorem encode_append (l m : List Frame) : encode (l ++ m) = encode l ++ encode m := by
  unfold encode; rw [List.map_append, List.flatten_append]

/-- The packets of frames with their positions. -/
def pks (t pos : Nat) : List Frame → List Pkt
  | [] => []
  | f :: l => ⟨t, f.payload, pos⟩ :: pks (t + f.ms) (pos + f.size) l

theorem start_ok {f : Frame} {b : Bytes} (hp : Pre f b) (hl : 7 ≤ b.length) : b ≠ [] ∧ ¬ b.length < 6 ∧ ¬ (at' b 0 ≠ 0xFF ∨ at' b 1 / 16 ≠ 15) := by
  refine ⟨by intro h; rw [h] at hl; simp at hl, by omega, ?_⟩
  rw [at0 hp, at1 hp]
  cases f.mpeg2 <;> cases f.check <;> simp

theorem next_whole (junk : Nat → UInt8) {f : Frame} (hf : f.Ok) (u : Bytes) (t pos : Nat) :
    next junk ⟨f.bytes ++ u, t, pos⟩ = .ok (⟨t, f.payload, pos⟩, ⟨u, t + f.ms, pos + f.size⟩) := by
  have hs := size_pos hf
  have h9 := hsize_cases f
  have hl := bytes_length f
  have hp : Pre f (f.bytes ++ u) := pre_of (t := []) (u := u) (by simp) (by rw [List.length_append]; omega)
  have hp2 : Pre f f.bytes := fun _ _ => rfl
  obtain ⟨s1, s2, s3⟩ := start_ok hp (by rw [List.length_append]; omega)
  unfold next
  simp only
  rw [if_neg s1, if_neg s2, if_neg s3, completeSize_eq hf hp, if_neg (by omega)]
  have e1 : (f.bytes ++ u).take f.size = f.bytes := by rw [← hl]; simp
  have e2 : (f.bytes ++ u).drop f.size = u := by rw [← hl]; simp
  have e3 : f.size - (f.bytes ++ u).length = 0 := by rw [List.length_append]; omega
  rw [e1, e2, e3]
  unfold frame
  rw [show (List.range 0).map junk = [] from rfl, List.append_nil, valid_eq hf hp2 (by omega)]
  simp only
  have hpl : 0 < f.payload.length := List.length_pos_iff.2 hf.some
  rw [payloadSize_eq hf hp2, headerSize_eq hp2, completeSize_eq hf hp2, duration_eq hf hp2, if_neg (by omega), if_neg (by omega)]
  have := payload_eq f [] f.payload.length (Nat.le_refl _)
  rw [List.append_nil, List.take_length] at this
  rw [Nat.sub_zero, this]

theorem readN_ok (junk : Nat → UInt8) {n : Nat} {s q : St} {p : Pkt} (h : next junk s = .ok (p, q)) : readN junk (n + 1) s = (p :: (readN junk n q).1, (readN junk n q).2) := by
  rw [readN, h]

theorem readN_frames (junk : Nat → UInt8) (l : List Frame) (hl : ∀ f ∈ l, f.Ok) (u : Bytes) (n t pos : Nat) :
    readN junk (l.length + n) ⟨encode l ++ u, t, pos⟩ =
      (pks t pos l ++ (readN junk n ⟨u, t + (l.map Frame.ms).sum, pos + (l.map Frame.size).sum⟩).1, (readN junk n ⟨u, t + (l.map Frame.ms).sum, pos + (l.map Frame.size).sum⟩).2) := by
  induction l generalizing t pos with
  | nil => simp [encode, pks]
  | cons f l ih =>
    rw [encode_cons, List.append_assoc, show (f :: l).length + n = (l.length + n) + 1 by simp; omega]
    rw [readN_ok junk (next_whole junk (hl f (by simp)) _ _ _), ih fun g hg => hl g (by simp [hg])]
    simp only [List.map_cons, List.sum_cons, pks, List.cons_append, Nat.add_assoc]

theorem encode_length (l : List Frame) : (encode l).length = (l.map Frame.size).sum := by
  induction l with
  | nil => rfl
  | cons f l ih => rw [encode_cons, List.length_append, ih, bytes_length]; rfl

theorem count_le (l : List Frame) (hl : ∀ f ∈ l, f.Ok) : l.length ≤ (encode l).length := by
  induction l with
  | nil => simp
  | cons f l ih =>
    have := size_pos (hl f (by simp))
    have := ih fun g hg => hl g (by simp [hg])
    rw [encode_cons, List.length_append, bytes_length, List.length_cons]
    omega

/-- Reading frames with something behind them at which reading ends. -/
theorem read_stop (junk : Nat → UInt8) (l : List Frame) (hl : ∀ f ∈ l, f.Ok) (u : Bytes) (e : End) (he : ∀ t pos, next junk ⟨u, t, pos⟩ = .error e) (t pos : Nat) :
    read junk ⟨encode l ++ u, t, pos⟩ = (pks t pos l, some e) := by
  unfold read
  have := count_le l hl
  obtain ⟨n, hn⟩ : ∃ n, (encode l ++ u).length + 1 = l.length + (n + 1) := ⟨(encode l ++ u).length - l.length, by rw [List.length_append]; omega⟩
  simp only
  rw [hn, readN_frames junk l hl]
  unfold readN
  rw [he]
  simp

theorem read_all (junk : Nat → UInt8) (l : List Frame) (hl : ∀ f ∈ l, f.Ok) (t pos : Nat) : read junk ⟨encode l, t, pos⟩ = (pks t pos l, some .eof) := by
  have := read_stop junk l hl [] .eof (fun t pos => by unfold next; rw [if_pos rfl]) t pos
  rwa [List.append_nil] at this

theorem pks_pair (l : List Frame) (t pos : Nat) : (pks t pos l).map (fun p => (p.time, p.data)) = packets t l := by
  induction l generalizing t pos with
  | nil => rfl
  | cons f l ih => rw [pks, List.map_cons, ih]; rfl

theorem pks_get (l : List Frame) (t pos i : Nat) (p : Pkt) (h : (pks t pos l)[i]? = some p) :
    p.time = t + ((l.take i).map Frame.ms).sum ∧ p.bpos = pos + (encode (l.take i)).length ∧ (pks t pos l).drop i = pks p.time p.bpos (l.drop i) := by
  induction l generalizing t pos i with
  | nil => rw [pks] at h; simp at h
  | cons f l ih =>
    cases i with
    | zero =>
      rw [pks, List.getElem?_cons_zero] at h
      cases h
      exact ⟨by simp, by simp [encode], rfl⟩
    | succ i =>
      rw [pks, List.getElem?_cons_succ] at h
      obtain ⟨h1, h2, h3⟩ := ih _ _ _ h
      refine ⟨?_, ?_, ?_⟩
      · rw [h1, List.take_succ_cons, List.map_cons, List.sum_cons]; omega
      · rw [h2, List.take_succ_cons, encode_cons, List.length_append, bytes_length]; omega
      · rw [pks, List.drop_succ_cons, h3, List.drop_succ_cons]

/-- A frame that is cut short behind its header. -/
theorem next_cut (junk : Nat → UInt8) {f : Frame} (hf : f.Ok) {k : Nat} (h1 : f.hsize < k) (h2 : k < f.size) (t pos : Nat) :
    next junk ⟨f.bytes.take k, t, pos⟩ = .ok (⟨t, f.payload.take (k - f.hsize), pos⟩, ⟨[], t + f.ms, pos + f.size⟩) := by
  have h9 := hsize_cases f
  have hl := bytes_length f
  have hk : (f.bytes.take k).length = k := by rw [List.length_take]; omega
  have hp : Pre f (f.bytes.take k) := pre_of (t := f.bytes.drop k) (u := []) (by simp) (by omega)
  obtain ⟨s1, s2, s3⟩ := start_ok hp (by omega)
  unfold next
  simp only
  rw [if_neg s1, if_neg s2, if_neg s3, completeSize_eq hf hp, if_neg (by omega), hk]
  have e1 : (f.bytes.take k).take f.size = f.bytes.take k := List.take_of_length_le (by omega)
  have e2 : (f.bytes.take k).drop f.size = [] := List.drop_of_length_le (by omega)
  rw [e1, e2]
  generalize (List.range (f.size - k)).map junk = j
  have hp2 : Pre f (f.bytes.take k ++ j) := by
    intro i hi
    rw [List.getElem?_append_left (by omega)]
    exact hp i hi
  unfold frame
  rw [valid_eq hf hp2 (by rw [List.length_append]; omega)]
  simp only
  have hs : f.size = f.hsize + f.payload.length := rfl
  rw [payloadSize_eq hf hp2, headerSize_eq hp2, completeSize_eq hf hp2, duration_eq hf hp2, if_neg (by omega), if_neg (by omega)]
  have e3 : ((f.bytes.take k ++ j).drop f.hsize).take (f.payload.length - (f.size - k)) = f.payload.take (k - f.hsize) := by
    rw [List.drop_append_of_le_length (by omega), List.take_append_of_le_length (by rw [List.length_drop]; omega), List.drop_take]
    have := payload_eq f [] (k - f.hsize) (by omega)
    rw [List.append_nil] at this
    rw [this, List.take_of_length_le (by rw [List.length_take]; omega)]
  rw [e3]

end Verif.Aac
