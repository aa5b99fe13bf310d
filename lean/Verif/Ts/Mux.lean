import Verif.Ts.Lemmas

/-!
# Filling packets with a frame
-/
namespace Verif.Ts
open Spec

theorem pcrBytes_eq (v : Nat) :
    pcrBytes v = beEnc 6 ((v / 300 % 2 ^ 33) * 2 ^ 15 + 63 * 2 ^ 9 + v % 300) := by
  have h : v % 300 < 300 := Nat.mod_lt _ (by omega)
  have e100 : (v % 300 &&& 0x100) >>> 8 = v % 300 / 256 := by
    rw [Nat.shiftRight_and_distrib, show 0x100 >>> 8 = 2 ^ 1 - 1 by decide, and_mask, shr]
    omega
  have e1 : v / 300 &&& 1 = v / 300 % 2 := by rw [show 1 = 2 ^ 1 - 1 by decide, and_mask]
  simp only [pcrBytes, beEnc, e100, e1, and_ff, shr, shl, List.cons.injEq, and_true]
  refine ⟨?_, ?_, ?_, ?_, ?_, ?_⟩ <;> apply Byte.ext_nat <;> rw [u8n, u8n] <;> omega

/-- The written clock reference reads back, modulo its 33-bit base. -/
theorem pcr_written (fl : Byte) (hf : fl.toNat / 16 % 2 = 1) (v : Nat) (w : Bytes) :
    Spec.pcr (fl :: (pcrBytes v ++ w)) = some (v % (2 ^ 33 * 300)) := by
  have hl : (pcrBytes v).length = 6 := rfl
  have ht : (pcrBytes v ++ w).take 6 = pcrBytes v := by
    rw [← hl, List.take_left]
  have hr : v % 300 < 300 := Nat.mod_lt _ (by omega)
  simp only [Spec.pcr, List.length_append, hl, ht]
  obtain ⟨N, hN, eN⟩ : ∃ N, N = (v / 300 % 2 ^ 33) * 2 ^ 15 + 63 * 2 ^ 9 + v % 300 ∧ pcrBytes v = beEnc 6 N :=
    ⟨_, rfl, pcrBytes_eq v⟩
  rw [if_pos ⟨hf, by omega⟩, eN, bytesBits_beEnc]
  have e1 : (toBits (8 * 6) N).take 33 = toBits 33 (N / 2 ^ 15) := by
    rw [show 8 * 6 = 33 + 15 by omega, toBits_add]
    rw [List.take_append_of_le_length (by simp), List.take_of_length_le (by simp)]
  have e2 : (toBits (8 * 6) N).drop 39 = toBits 9 N := by
    rw [show 8 * 6 = 39 + 9 by omega, toBits_add]
    rw [List.drop_append_of_le_length (by simp), List.drop_of_length_le (by simp)]; rfl
  rw [e1, e2, ofBits_toBits, ofBits_toBits]
  exact congrArg some (by omega)

/-- Header of the `k`-th packet of a frame. -/
structure Head (a : Par) (c0 k : Nat) (h1 h2 h3 : Byte) (af : Bytes) : Prop where
  h1 : h1.toNat = (if k = 0 then 64 else 0) + a.pid / 256 % 32
  h2 : h2.toNat = a.pid % 256
  h3 : h3.toNat % 16 = (c0 + 1 + k) % 16
  clock : k = 0 ∧ a.video = true → ∃ w, af.tail = (if a.keyframe then 0x70 else 0x10) :: (pcrBytes (a.time * 27000) ++ w)
  plain : ¬ (k = 0 ∧ a.video = true) → af.tail.head?.getD 0 = 0

theorem start_head (m : Mux) (a : Par) (k c0 : Nat) (hk : m.first = decide (k = 0))
    (hc : m.cont = (c0 + k) % 2 ^ 16) :
    ∃ h1 h2 h3 af, Form (startPacket m a) h1 h2 h3 af [] ∧ Head a c0 k h1 h2 h3 af ∧ af.length ≤ 8 ∧
      (k = 0 ∧ a.video = true → 1 < af.length) ∧ (¬ (k = 0 ∧ a.video = true) → af = []) := by
  obtain ⟨h1, h2, h3, he, e1, e2, e3⟩ := start_base a.pid ((m.cont + 1) % 2 ^ 16) m.first
  have h3v : h3.toNat / 16 = 1 := by omega
  have hcc : h3.toNat % 16 = (c0 + 1 + k) % 16 := by omega
  have e1' : h1.toNat = (if k = 0 then 64 else 0) + a.pid / 256 % 32 := by
    rw [e1, hk]; simp
  by_cases hv : m.first = true ∧ a.video = true
  · have hk0 : k = 0 := by have := hv.1; rw [hk] at this; simpa using this
    obtain ⟨h3', fl, hp, f3, ffl⟩ := start_video h1 h2 h3 h3v a.keyframe (a.time * 27000)
    have hpk : startPacket m a = ⟨0x47 :: h1 :: h2 :: h3' :: 7 :: fl ::
        (pcrBytes (a.time * 27000) ++ List.replicate 176 0), 12⟩ := by
      rw [← hp]
      simp only [startPacket, hv.1, hv.2, if_true] at he ⊢
      rw [he]
    refine ⟨h1, h2, h3', 7 :: fl :: pcrBytes (a.time * 27000), ?_, ?_, by simp [pcrBytes], by simp, ?_⟩
    · rw [hpk]
      refine ⟨⟨List.replicate 176 0, by simp [-List.reduceReplicate]⟩, by simp [pcrBytes, -List.reduceReplicate], by simp [pcrBytes], ?_, Or.inr ⟨7, fl :: pcrBytes (a.time * 27000), rfl, ?_⟩⟩
      · simp; omega
      · simp [pcrBytes]
    · refine ⟨e1', e2, by omega, fun _ => ⟨[], ?_⟩, fun h => absurd ⟨hk0, hv.2⟩ h⟩
      simp [ffl]
    · intro h; exact absurd ⟨hk0, hv.2⟩ h
  · have hnv : ¬ (k = 0 ∧ a.video = true) := by
      intro h; apply hv; rw [hk]; simpa using h
    have hpk : startPacket m a = ⟨0x47 :: h1 :: h2 :: h3 :: 0 :: 0 :: 0 :: 0 :: 0 :: 0 :: 0 :: 0 :: List.replicate 176 0, 4⟩ := by
      rw [← he]
      simp only [startPacket]
      cases hf : m.first with
      | false => simp
      | true =>
        have : a.video = false := by
          cases h : a.video with
          | false => rfl
          | true => exact absurd ⟨hf, h⟩ hv
        simp [this]
    refine ⟨h1, h2, h3, [], ?_, ?_, by simp, fun h => absurd h hnv, fun _ => rfl⟩
    · rw [hpk]
      refine ⟨⟨0 :: 0 :: 0 :: 0 :: 0 :: 0 :: 0 :: 0 :: List.replicate 176 0, rfl⟩, by simp [-List.reduceReplicate], rfl, ?_, Or.inl rfl⟩
      simpa using h3v
    · exact ⟨e1', e2, hcc, fun h => absurd h hnv, fun _ => rfl⟩

/-- A finished packet with a proper header says what it should. -/
theorem view_head {a : Par} {c0 k : Nat} {h1 h2 h3 : Byte} {af d : Bytes} {p : Packet}
    (hf : Form p h1 h2 h3 af d) (hh : Head a c0 k h1 h2 h3 af) (hp : p.pos = 188) (hd : d ≠ []) :
    ∃ v, Spec.view p.buf = some v ∧ PacketOf a.pid c0 a.video a.keyframe a.time k d v := by
  have h1s : h1.toNat < 128 := by rw [hh.h1]; split <;> omega
  refine ⟨_, view_form hf hp h1s, ?_, ?_, hh.h3, rfl, hd, ?_, ?_⟩
  · show h1.toNat % 32 * 256 + h2.toNat = a.pid % 8192
    rw [hh.h1, hh.h2]; split <;> omega
  · show decide (h1.toNat / 64 % 2 = 1) = decide (k = 0)
    rw [hh.h1]
    by_cases hk : k = 0
    · simp only [hk, if_true, decide_true, decide_eq_true_eq]; omega
    · simp only [hk, if_false, decide_false, decide_eq_false_iff_not]; omega
  · intro h
    obtain ⟨w, hw⟩ := hh.clock h
    show Spec.pcr af.tail = _ ∧ Spec.randomAccess af.tail = _
    rw [hw]
    refine ⟨pcr_written _ (by split <;> decide) _ _, ?_⟩
    cases a.keyframe <;> simp [Spec.randomAccess]
  · intro h
    have := hh.plain h
    show Spec.pcr af.tail = none ∧ Spec.randomAccess af.tail = false
    cases ht : af.tail with
    | nil => exact ⟨rfl, rfl⟩
    | cons x y =>
      rw [ht] at this
      simp at this
      subst this
      simp [Spec.pcr, Spec.randomAccess]

theorem carries_snoc {pid c0 : Nat} {v key : Bool} {t : Nat} {k : Nat} {bs ps : List Bytes} {b p : Bytes}
    (h : Carries pid c0 v key t k bs ps)
    (h' : ∃ w, Spec.view b = some w ∧ PacketOf pid c0 v key t (k + ps.length) p w) :
    Carries pid c0 v key t k (bs ++ [b]) (ps ++ [p]) := by
  induction bs generalizing k ps with
  | nil =>
    cases ps with
    | nil => exact ⟨h', trivial⟩
    | cons _ _ => exact h.elim
  | cons x xs ih =>
    cases ps with
    | nil => exact h.elim
    | cons y ys =>
      refine ⟨h.1, ih h.2 ?_⟩
      simp only [List.length_cons] at h'
      rw [show k + 1 + ys.length = k + (ys.length + 1) by omega]
      exact h'

theorem carries_length {pid c0 : Nat} {v key : Bool} {t : Nat} {k : Nat} {bs ps : List Bytes}
    (h : Carries pid c0 v key t k bs ps) : bs.length = ps.length := by
  induction bs generalizing k ps with
  | nil =>
    cases ps with
    | nil => rfl
    | cons _ _ => exact h.elim
  | cons x xs ih =>
    cases ps with
    | nil => exact h.elim
    | cons y ys => simp [ih h.2]

/-- The media packets among everything sent. -/
def mediaOf (l : List Sent) : List Bytes :=
  l.filterMap fun s => match s with
    | .tables => none
    | .media b => some b

theorem mediaOf_append (a b : List Sent) : mediaOf (a ++ b) = mediaOf a ++ mediaOf b := by
  simp [mediaOf, List.filterMap_append]

/-- State of the multiplexer within a frame: `old` media packets before the frame, `ps` the
payloads of the frame's finished packets, `cur` the payload of the packet being filled. -/
structure Frames (a : Par) (c0 : Nat) (old : List Bytes) (m : Mux) (ps : List Bytes) : Prop where
  sent : ∃ new, mediaOf m.sent = old ++ new ∧ Carries a.pid c0 a.video a.keyframe a.time 0 new ps

/-- No packet is being filled. -/
structure Idle (a : Par) (c0 : Nat) (old : List Bytes) (m : Mux) (ps : List Bytes) : Prop extends
    Frames a c0 old m ps where
  pack : m.pack = clear
  cont : m.cont = (c0 + ps.length) % 2 ^ 16
  first : m.first = decide (ps.length = 0)

/-- A packet is being filled and holds `cur`. -/
structure Busy (a : Par) (c0 : Nat) (old : List Bytes) (m : Mux) (ps : List Bytes) (cur : Bytes) : Prop extends
    Frames a c0 old m ps where
  form : ∃ h1 h2 h3 af, Form m.pack h1 h2 h3 af cur ∧ Head a c0 ps.length h1 h2 h3 af ∧ af.length ≤ 8 ∧
      (ps.length = 0 ∧ a.video = true → 1 < af.length) ∧ (¬ (ps.length = 0 ∧ a.video = true) → af = [])
  cont : m.cont = (c0 + ps.length + 1) % 2 ^ 16
  first : m.first = false

/-- Either. `done` is everything put in so far. -/
def Within (a : Par) (c0 : Nat) (old : List Bytes) (m : Mux) (done : Bytes) : Prop :=
  (∃ ps, Idle a c0 old m ps ∧ ps.flatten = done) ∨
  (∃ ps cur, Busy a c0 old m ps cur ∧ cur ≠ [] ∧ ps.flatten ++ cur = done)

theorem busy_free {a : Par} {c0 : Nat} {old : List Bytes} {m : Mux} {ps : List Bytes} {cur : Bytes}
    (h : Busy a c0 old m ps cur) (hc : cur ≠ []) : m.pack.bytesFree < 184 := by
  obtain ⟨h1, h2, h3, af, f, -⟩ := h.form
  have := f.pos
  have : cur.length ≠ 0 := by simpa using hc
  simp only [Packet.bytesFree]
  omega

/-- Sending a full packet. -/
theorem flush_full {a : Par} {c0 : Nat} {old : List Bytes} {m : Mux} {ps : List Bytes} {cur : Bytes}
    {h1 h2 h3 : Byte} {af : Bytes}
    (hs : Frames a c0 old m ps) (f : Form m.pack h1 h2 h3 af cur) (hh : Head a c0 ps.length h1 h2 h3 af)
    (hcont : m.cont = (c0 + ps.length + 1) % 2 ^ 16) (hfirst : m.first = false)
    (hc : cur ≠ []) (h0 : m.pack.bytesFree = 0) : Idle a c0 old m.flush (ps ++ [cur]) := by
  have hp : m.pack.pos = 188 := by have := f.le; simp only [Packet.bytesFree] at h0; omega
  obtain ⟨new, hn, hcar⟩ := hs.sent
  have hv := view_head f hh hp hc
  refine ⟨⟨new ++ [m.pack.buf], ?_, carries_snoc hcar (by simpa using hv)⟩, ?_, ?_, ?_⟩
  · simp only [Mux.flush, h0, if_true, mediaOf_append, hn]
    split <;> simp [mediaOf]
  · simp [Mux.flush, h0]
  · simp only [Mux.flush, h0, if_true, hcont, List.length_append, List.length_singleton]
    rw [Nat.add_assoc]
  · simp [Mux.flush, h0, hfirst]

theorem flush_within {a : Par} {c0 : Nat} {old : List Bytes} {m : Mux} {done : Bytes}
    (h : Within a c0 old m done) : Within a c0 old m.flush done ∧ m.flush.pack.bytesFree ≠ 0 := by
  by_cases h0 : m.pack.bytesFree = 0
  · rcases h with ⟨ps, hi, -⟩ | ⟨ps, cur, hb, hc, hd⟩
    · rw [hi.pack] at h0
      exact absurd h0 (by decide)
    · obtain ⟨h1, h2, h3, af, f, hh, -⟩ := hb.form
      have hi := flush_full hb.toFrames f hh hb.cont hb.first hc h0
      refine ⟨Or.inl ⟨_, hi, by simp [← hd]⟩, ?_⟩
      rw [hi.pack]; decide
  · have : m.flush = m := by simp [Mux.flush, h0]
    rw [this]
    exact ⟨h, h0⟩

/-- One pass of the filling loop. -/
theorem fill_within {a : Par} {c0 : Nat} {old : List Bytes} {m : Mux} {done d : Bytes}
    (h : Within a c0 old m done) (h0 : m.pack.bytesFree ≠ 0) (hd : d ≠ []) :
    let r := (m.start a).pack.fillFree d
    0 < r.2 ∧ Within a c0 old { m.start a with pack := r.1 } (done ++ d.take r.2) := by
  have hdl : 0 < d.length := by
    have : d.length ≠ 0 := by simpa using hd
    omega
  have main : ∀ ps cur, Busy a c0 old (m.start a) ps cur → ps.flatten ++ cur = done →
      (m.start a).pack.bytesFree ≠ 0 →
      0 < ((m.start a).pack.fillFree d).2 ∧
      Within a c0 old { m.start a with pack := ((m.start a).pack.fillFree d).1 }
        (done ++ d.take ((m.start a).pack.fillFree d).2) := by
    intro ps cur hb hdone hfree
    obtain ⟨h1, h2, h3, af, f, hh, h8, hv, hnv⟩ := hb.form
    obtain ⟨hn, f'⟩ := fillFree_form f d
    have hpos : 0 < ((m.start a).pack.fillFree d).2 := by rw [hn]; omega
    refine ⟨hpos, Or.inr ⟨ps, cur ++ d.take ((m.start a).pack.fillFree d).2, ⟨⟨hb.sent⟩, ⟨h1, h2, h3, af, f', hh, h8, hv, hnv⟩,
      hb.cont, hb.first⟩, ?_, ?_⟩⟩
    · intro hnil
      have := congrArg List.length hnil
      rw [List.length_append, List.length_take, List.length_nil] at this
      omega
    · rw [← hdone]; simp
  rcases h with ⟨ps, hi, hflat⟩ | ⟨ps, cur, hb, hc, hflat⟩
  · -- a fresh packet is started
    have h184 : m.pack.bytesFree = 184 := by rw [hi.pack]; decide
    have hst : m.start a = { m with pack := startPacket m a, cont := (m.cont + 1) % 2 ^ 16, first := false } := by
      simp [Mux.start, h184]
    obtain ⟨h1, h2, h3, af, f, hh, h8, hv, hnv⟩ := start_head m a ps.length c0 hi.first hi.cont
    refine main ps [] ⟨⟨?_⟩, ⟨h1, h2, h3, af, ?_, hh, h8, hv, hnv⟩, ?_, ?_⟩ (by simpa using hflat) ?_
    · rw [hst]; exact hi.sent
    · rw [hst]; exact f
    · rw [hst]; show (m.cont + 1) % 2 ^ 16 = _; rw [hi.cont]; omega
    · rw [hst]
    · rw [hst]
      have := f.pos
      simp only [Packet.bytesFree]
      simp at this
      omega
  · have hne : m.pack.bytesFree ≠ 184 := by have := busy_free hb hc; omega
    have hst : m.start a = m := by simp [Mux.start, hne]
    exact main ps cur (by rw [hst]; exact hb) hflat (by rw [hst]; exact h0)

theorem fillLoop_within {a : Par} {c0 : Nat} {old : List Bytes} (fuel : Nat) {m : Mux} {done d : Bytes}
    (h : Within a c0 old m done) (hf : d.length < fuel) :
    Within a c0 old (fillLoop a fuel m d) (done ++ d) := by
  induction fuel generalizing m done d with
  | zero => omega
  | succ fuel ih =>
    obtain ⟨h1, h0⟩ := flush_within h
    unfold fillLoop
    simp only
    split
    · rename_i hd; subst hd; simpa using h1
    · rename_i hd
      obtain ⟨hpos, h2⟩ := fill_within (d := d) h1 h0 hd
      split
      · rename_i hdrop
        have hlen : d.length ≤ ((m.flush.start a).pack.fillFree d).2 := by
          have := congrArg List.length hdrop
          simp only [List.length_drop, List.length_nil] at this
          omega
        rw [List.take_of_length_le hlen] at h2
        exact h2
      · have := ih (d := d.drop ((m.flush.start a).pack.fillFree d).2) h2 (by
          have : d.length ≠ 0 := by simpa using hd
          simp only [List.length_drop]; omega)
        rw [List.append_assoc, List.take_append_drop] at this
        exact this

theorem fillPacket_within {a : Par} {c0 : Nat} {old : List Bytes} {m : Mux} {done : Bytes} (d : Bytes)
    (h : Within a c0 old m done) : Within a c0 old (fillPacket a m d) (done ++ d) :=
  fillLoop_within _ h (by omega)

theorem fold_within {a : Par} {c0 : Nat} {old : List Bytes} (ds : List Bytes) {m : Mux} {done : Bytes}
    (h : Within a c0 old m done) : Within a c0 old (ds.foldl (fillPacket a) m) (done ++ ds.flatten) := by
  induction ds generalizing m done with
  | nil => simpa using h
  | cons d r ih =>
    have := ih (fillPacket_within d h)
    simpa using this

/-- Stuffing and sending the last packet of a frame. -/
theorem finish_within {a : Par} {c0 : Nat} {old : List Bytes} {m : Mux} {done : Bytes}
    (h : Within a c0 old m done) : ∃ m' ps, finishFrame a m = some m' ∧ Idle a c0 old m' ps ∧ ps.flatten = done := by
  rcases h with ⟨ps, hi, hflat⟩ | ⟨ps, cur, hb, hc, hflat⟩
  · refine ⟨m, ps, ?_, hi, hflat⟩
    have h184 : m.pack.bytesFree = 184 := by rw [hi.pack]; decide
    simp [finishFrame, h184]
  · obtain ⟨h1, h2, h3, af, f, hh, h8, hv, hnv⟩ := hb.form
    obtain ⟨q, h3', af', hq, fq, hpos, hcc, hkeep, hzero⟩ := addStuffing_form f
    have hfull : q.bytesFree = 0 := by simp [Packet.bytesFree, hpos]
    have hh' : Head a c0 ps.length h1 h2 h3' af' := by
      refine ⟨hh.h1, hh.h2, by rw [hcc, hh.h3], ?_, ?_⟩
      · intro hkv
        obtain ⟨w, hw⟩ := hh.clock hkv
        obtain ⟨w', hw'⟩ := hkeep (hv hkv)
        exact ⟨w ++ w', by rw [hw', hw]; simp⟩
      · intro hkv
        have := hnv hkv
        subst this
        exact hzero (by simp)
    have hidle : Idle a c0 old ({ m with pack := q } : Mux).flush (ps ++ [cur]) :=
      flush_full (m := { m with pack := q }) ⟨hb.sent⟩ fq hh' hb.cont hb.first hc hfull
    refine ⟨_, ps ++ [cur], ?_, hidle, by simp [← hflat]⟩
    have hlt := busy_free hb hc
    simp only [finishFrame, hlt, if_true, hq, Option.map_some]
    rfl

/-- The whole of a frame, whatever the pieces. -/
theorem sendPieces_idle (a : Par) (m : Mux) (ds : List Bytes) (hp : m.pack = clear) (hc : m.cont < 2 ^ 16) :
    ∃ m' new ps, sendPieces a m ds = some m' ∧ m'.pack = clear ∧ m'.cont < 2 ^ 16 ∧
      mediaOf m'.sent = mediaOf m.sent ++ new ∧
      Carries a.pid m.cont a.video a.keyframe a.time 0 new ps ∧ ps.flatten = ds.flatten ∧
      m'.cont = (m.cont + new.length) % 2 ^ 16 := by
  have h0 : Within a m.cont (mediaOf m.sent) { m with first := true } [] :=
    Or.inl ⟨[], ⟨⟨[], by simp, trivial⟩, hp, by simp; omega, rfl⟩, rfl⟩
  obtain ⟨m', ps, e, hi, hflat⟩ := finish_within (fold_within ds h0)
  obtain ⟨new, hn, hcar⟩ := hi.sent
  refine ⟨m', new, ps, e, hi.pack, ?_, hn, hcar, by simpa using hflat, ?_⟩
  · rw [hi.cont]; exact Nat.mod_lt _ (by omega)
  · rw [hi.cont, carries_length hcar]

end Verif.Ts
