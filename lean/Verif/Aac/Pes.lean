import Verif.Aac.File

namespace Verif.Aac
open Verif

/-- What is put out for whole frames of one PES packet. -/
def outsOf (ts ms : Nat) : List Frame → List Out
  | [] => []
  | f :: l => .pkt (ts + ms) f.payload :: outsOf ts (ms + f.ms) l

/-- What is kept fits to the frames that are left and the bytes to come. -/
def Fits : Rem → List Frame → Bytes → Prop
  | none, left, t => t = encode left
  | some (got, len), left, t => ∃ f l, left = f :: l ∧ got ++ t = encode left ∧ f.hsize ≤ got.length ∧ got.length < f.size ∧ len = f.size

theorem scan_frames (l : List Frame) (hl : ∀ f ∈ l, f.Ok) (b t : Bytes) (hb : b ++ t = encode l) (hg : Good l b.length) (ts ms : Nat) :
    ∃ done left rem, l = done ++ left ∧ scan b ts ms = some (outsOf ts ms done, rem) ∧ Fits rem left t := by
  induction l generalizing b ms with
  | nil =>
    have hb0 : b = [] ∧ t = [] := by
      have : b ++ t = [] := hb
      simpa using this
    refine ⟨[], [], none, rfl, ?_, hb0.2⟩
    rw [scan.eq_def, if_pos hb0.1]; rfl
  | cons f l ih =>
    by_cases h0 : b = []
    · refine ⟨[], f :: l, none, rfl, ?_, ?_⟩
      · rw [scan.eq_def, if_pos h0]; rfl
      · rw [h0] at hb; exact hb
    · have hf := hl f (by simp)
      have h9 := hsize_cases f
      have hpos : 0 < b.length := List.length_pos_iff.2 h0
      have hsz := size_pos hf
      rw [encode_cons] at hb
      by_cases hlt : b.length < f.size
      · have hc : f.hsize ≤ b.length := by
          rcases hg f b.length (by rw [into, if_pos hlt]) with h | h
          · omega
          · exact h
        have hp : Pre f b := pre_of hb (by omega)
        refine ⟨[], f :: l, some (b, f.size), rfl, ?_, f, l, rfl, by rw [encode_cons]; exact hb, hc, hlt, rfl⟩
        rw [scan.eq_def, if_neg h0, valid_eq hf hp hc]
        simp only
        rw [completeSize_eq hf hp, if_neg (by omega)]; rfl
      · obtain ⟨b', e1, e2⟩ := append_eq hb (by rw [bytes_length]; omega)
        have hg' : Good l b'.length := by
          intro g c hi
          refine hg g c ?_
          rw [into, if_neg hlt, e1, List.length_append, bytes_length, Nat.add_sub_cancel_left]
          exact hi
        obtain ⟨done, left, rem, i1, i2, i3⟩ := ih (fun g hg => hl g (by simp [hg])) b' e2 hg' (ms + f.ms)
        have hp : Pre f b := pre_of hb (by omega)
        refine ⟨f :: done, left, rem, by rw [i1]; rfl, ?_, i3⟩
        have hpl : 0 < f.payload.length := List.length_pos_iff.2 hf.some
        rw [scan.eq_def, if_neg h0, valid_eq hf hp (by omega)]
        simp only
        rw [completeSize_eq hf hp, if_pos (by omega), payloadSize_eq hf hp, if_neg (by omega), headerSize_eq hp, duration_eq hf hp]
        have e3 : b.drop f.size = b' := by rw [e1, ← bytes_length]; simp
        have e4 : (b.drop f.hsize).take f.payload.length = f.payload := by
          rw [e1, payload_eq f b' _ (Nat.le_refl _), List.take_length]
        rw [e3, e4, i2]; rfl

/-- The length of what is kept. -/
def kept : Rem → Nat
  | none => 0
  | some (got, _) => got.length

theorem whole_frame {f : Frame} (hf : f.Ok) (ts : Nat) : whole f.bytes ts = some [.pkt (ts - f.ms) f.payload] := by
  have hp : Pre f f.bytes := fun _ _ => rfl
  unfold whole
  rw [valid_eq hf hp (by rw [bytes_length]; have := size_pos hf; omega)]
  simp only
  rw [headerSize_eq hp, payloadSize_eq hf hp, duration_eq hf hp]
  have := payload_eq f [] f.payload.length (Nat.le_refl _)
  rw [List.append_nil, List.take_length] at this
  rw [this]

theorem pes_frames (rem : Rem) (l : List Frame) (hl : ∀ f ∈ l, f.Ok) (p t : Bytes) (hF : Fits rem l (p ++ t)) (hg : Good l (kept rem + p.length)) (ts : Nat) :
    ∃ outs done left rem', l = done ++ left ∧ pes rem p ts = some (outs, rem') ∧ outs.map Out.data = done.map (fun f => some f.payload) ∧ Fits rem' left t := by
  have hd : ∀ (l : List Frame) ms, (outsOf ts ms l).map Out.data = l.map fun f => some f.payload := by
    intro l
    induction l with
    | nil => intro _; rfl
    | cons f l ih => intro ms; rw [outsOf, List.map_cons, ih]; rfl
  match rem with
  | none =>
    obtain ⟨done, left, rem', h1, h2, h3⟩ := scan_frames l hl p t hF (by rw [show kept none = 0 from rfl, Nat.zero_add] at hg; exact hg) ts 0
    exact ⟨_, done, left, rem', h1, h2, hd _ _, h3⟩
  | some (got, len) =>
    obtain ⟨f, l', rfl, h2, h3, h4, rfl⟩ := hF
    have hf := hl f (by simp)
    rw [show kept (some (got, f.size)) = got.length from rfl] at hg
    unfold pes
    simp only
    by_cases hlt : p.length < f.size - got.length
    · rw [if_pos hlt]
      refine ⟨[], [], f :: l', some (got ++ p, f.size), rfl, rfl, rfl, f, l', rfl, ?_, ?_, ?_, rfl⟩
      · rw [List.append_assoc]; exact h2
      · rw [List.length_append]; omega
      · rw [List.length_append]; omega
    · rw [if_neg hlt]
      rw [encode_cons, ← List.append_assoc] at h2
      obtain ⟨e, e1, e2⟩ := append_eq h2 (by rw [bytes_length, List.length_append]; omega)
      have hx : got ++ p.take (f.size - got.length) = f.bytes := by
        have : (got ++ p).take f.size = f.bytes := by rw [e1, ← bytes_length]; simp
        rw [List.take_append, List.take_of_length_le (by omega)] at this
        exact this
      have hy : p.drop (f.size - got.length) = e := by
        have : (got ++ p).drop f.size = e := by rw [e1, ← bytes_length]; simp
        rw [List.drop_append, List.drop_of_length_le (by omega), List.nil_append] at this
        exact this
      have hel : e.length = got.length + p.length - f.size := by
        have := congrArg List.length e1
        rw [List.length_append, List.length_append, bytes_length] at this
        omega
      have hg' : Good l' e.length := by
        intro g c hi
        refine hg g c ?_
        rw [into, if_neg (by omega), ← hel]
        exact hi
      obtain ⟨done, left, rem', i1, i2, i3⟩ := scan_frames l' (fun g hg => hl g (by simp [hg])) e t e2 hg' ts 0
      have hw := whole_frame hf ts
      refine ⟨[.pkt (ts - f.ms) f.payload] ++ outsOf ts 0 done, f :: done, left, rem', by rw [i1]; rfl, ?_, ?_, i3⟩
      · rw [hx, hy, hw, i2]; rfl
      · rw [List.map_append, hd]; rfl

theorem into_append (done left : List Frame) (k : Nat) : into (done ++ left) ((encode done).length + k) = into left k := by
  induction done with
  | nil => simp [encode]
  | cons f l ih =>
    rw [encode_cons, List.length_append, bytes_length, List.cons_append, into, if_neg (by omega)]
    rw [show f.size + (encode l).length + k - f.size = (encode l).length + k by omega, ih]

theorem fits_length {rem : Rem} {l : List Frame} {t : Bytes} (h : Fits rem l t) : kept rem + t.length = (encode l).length := by
  match rem with
  | none => rw [← (show t = encode l from h)]; simp [kept]
  | some (got, len) =>
    obtain ⟨f, l', h1, h2, _⟩ := h
    rw [← h2, List.length_append]; rfl

theorem stream_frames (ps : List (Nat × Bytes)) (rem : Rem) (l : List Frame) (hl : ∀ f ∈ l, f.Ok) (hF : Fits rem l (ps.map (·.2)).flatten)
    (hg : ∀ i, Good l (kept rem + ((ps.take i).map (·.2)).flatten.length)) :
    ∃ outs, stream rem ps = some (outs, none) ∧ outs.map Out.data = l.map fun f => some f.payload := by
  induction ps generalizing rem l with
  | nil =>
    have hlen := fits_length hF
    match rem with
    | none =>
      have : l = [] := by
        have h1 := count_le l hl
        have h2 : (encode l).length = 0 := by simpa [kept] using hlen.symm
        exact List.length_eq_zero_iff.1 (by omega)
      subst this
      exact ⟨[], rfl, rfl⟩
    | some (got, len) =>
      exfalso
      obtain ⟨f, l', rfl, h2, h3, h4, _⟩ := hF
      rw [encode_cons, List.length_append, bytes_length] at hlen
      simp [kept] at hlen
      omega
  | cons q ps ih =>
    obtain ⟨ts, p⟩ := q
    have hF' : Fits rem l (p ++ (ps.map (·.2)).flatten) := hF
    have hg1 := hg 1
    have hg1 : Good l (kept rem + p.length) := by simpa using hg1
    obtain ⟨outs, done, left, rem', h1, h2, h3, h4⟩ := pes_frames rem l hl p _ hF' hg1 ts
    have k1 := fits_length hF'
    have k2 := fits_length h4
    rw [List.length_append] at k1
    subst h1
    rw [encode_append, List.length_append] at k1
    obtain ⟨outs2, j1, j2⟩ := ih rem' left (fun f hf => hl f (by simp [hf])) h4 (by
      intro i g c hi
      refine hg (i + 1) g c ?_
      rw [List.take_succ_cons, List.map_cons, List.flatten_cons, List.length_append]
      rw [show kept rem + (p.length + ((ps.take i).map (·.2)).flatten.length) = (encode done).length + (kept rem' + ((ps.take i).map (·.2)).flatten.length) by omega, into_append]
      exact hi)
    refine ⟨outs ++ outs2, ?_, ?_⟩
    · rw [stream, h2, Option.bind_some, j1]; rfl
    · rw [List.map_append, List.map_append, h3, j2]

end Verif.Aac
