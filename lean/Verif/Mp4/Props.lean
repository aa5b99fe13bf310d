import Verif.Mp4.Order

/-!
# Properties of CMAF segments (C89)
-/
namespace Verif.Mp4
open Verif.Bit Verif.Index Verif.Hls

/-! ## Specification -/

/-- The time of a packet as a segment should say it: since the start of a recording; as it is, or as the time of day, for a live stream. -/
def mediaTime (t : Track) (c : Setting) (time : Nat) : Nat := if c.vod then time - t.firstms else time + c.shift

/-- A time whose packet the index finds: one before the last packet, or the time of a key in the index. -/
def Indexed (t : Track) (ts : Nat) : Prop := ts < t.lastms ∨ ∃ k, t.keys.del ≤ k ∧ k < t.keys.fin ∧ (t.keys.get k).time = ts

/-- The fragment describes the packets `ps`, which last up to the time `f`, with decode times that are earlier by `early`. -/
structure Describes (fr : Frag) (t : Track) (c : Setting) (ps : List Packet) (f early : Nat) : Prop where
  seq : fr.seq = c.seq
  track : fr.track = c.track + 1
  /-- one sample for each packet -/
  count : fr.rows.length = ps.length
  /-- what is written is not cut off -/
  fits : fr.base < 2 ^ 64 ∧ fr.data < 2 ^ 32 ∧ ∀ r ∈ fr.rows, r.Fits
  size : ∀ (i : Nat) (p : Packet), ps[i]? = some p → (fr.rows[i]?.map Row.size) = some p.size
  off : ∀ (i : Nat) (p : Packet), ps[i]? = some p → 0 ≤ p.off → (fr.rows[i]?.map fun r : Row => (r.off : Int)) = some p.off
  time : ∀ (i : Nat) (p : Packet), ps[i]? = some p → fr.time i + early = mediaTime t c p.time
  /-- of video, decoding can start at the first sample only; of other tracks, anywhere -/
  sync : ∀ i, fr.sync i = true ↔ i = 0 ∨ t.video = false
  /-- and the last sample ends where the next segment starts -/
  fin : fr.time ps.length = mediaTime t c f

/-! ## Proofs -/

theorem sum_take_succ {α : Type} (g : α → Nat) (l : List α) (i : Nat) (x : α) (hx : l[i]? = some x) :
    ((l.take (i + 1)).map g).sum = ((l.take i).map g).sum + g x := by
  obtain ⟨h1, rfl⟩ := List.getElem?_eq_some_iff.mp hx
  rw [List.take_succ_eq_append_getElem h1, List.map_append, List.sum_append]
  simp only [List.map_cons, List.map_nil, List.sum_cons, List.sum_nil, Nat.add_zero]

theorem cut_at (content : Packet → Bytes) (ps : List Packet) (hl : ∀ p ∈ ps, (content p).length = p.size) (i : Nat) (p : Packet) (hp : ps[i]? = some p) :
    (((ps.map content).flatten.drop (bytes (ps.take i))).take p.size) = content p := by
  induction ps generalizing i with
  | nil => simp at hp
  | cons q r ih =>
    cases i with
    | zero =>
      simp at hp; subst hp
      have := hl q (by simp)
      rw [List.take_zero, show bytes [] = 0 from rfl, List.drop_zero, List.map_cons, List.flatten_cons, ← this, List.take_left']
      rfl
    | succ i =>
      have hq := hl q (by simp)
      rw [List.take_succ_cons, show bytes (q :: r.take i) = q.size + bytes (r.take i) from rfl, List.map_cons, List.flatten_cons, ← hq,
        ← List.drop_drop, List.drop_left']
      · exact ih (fun p hp => hl p (by simp [hp])) i (by simpa using hp)
      · rfl

variable {video : Bool} {minFrag : Nat} {t : Track} {fs : List (List Group)} {d e : Nat}

theorem content_length (content : Packet → Bytes) (ps : List Packet) (hl : ∀ p ∈ ps, (content p).length = p.size) :
    (ps.map content).flatten.length = bytes ps := by
  induction ps with
  | nil => rfl
  | cons q r ih =>
    rw [List.map_cons, List.flatten_cons, List.length_append, ih fun p hp => hl p (by simp [hp]), hl q (by simp)]
    rfl

theorem word_lt (x : Int) : word x < 2 ^ 32 := by
  unfold word
  have h1 := Int.emod_nonneg x (show (2 ^ 32 : Int) ≠ 0 by decide)
  have h2 := Int.emod_lt_of_pos x (show (0 : Int) < 2 ^ 32 by decide)
  omega

/-- What `keyHeader` writes for a part of a consistent index. -/
theorem header_says (h : Consistent video minFrag t fs d e) (c : Setting) {s f : Nat} (hs : Known t fs d s) (hf : Known t fs d f) (hsf : s < f)
    (h64 : f < 2 ^ 64) (hspan : f - s < 2 ^ 32) (hfirst : t.firstms ≤ s) (hshift : f + c.shift < 2 ^ 64)
    (ps : List Packet) (hps : between s f (fs.flatten.flatten.drop (gone fs d)) = ps) (p0 : Packet) (hp0 : ps.head? = some p0)
    (hcount : ps.length < 2 ^ 27) (hsize : bytes ps < 2 ^ 31) (hoff : ∀ p ∈ ps, p.off < 2 ^ 31) :
    keyHeader t c s f = (written t c s f).bytes ∧ Describes (written t c s f) t c ps f (p0.time - s) ∧ s ≤ p0.time ∧
      (written t c s f).data = (written t c s f).bytes.length + 8 ∧ payloadSize t s f = bytes ps := by
  have ha := known_part h hs
  have hb := known_part h hf
  obtain ⟨hab, hbt⟩ := between_parts h ha hb (Nat.le_of_lt hsf)
  rw [hps] at hbt
  generalize hA : partIndex t s = a at *
  generalize hB : partIndex t f = b at *
  obtain ⟨ha1, ⟨pa, hpa, ha2⟩, ha3⟩ := ha
  obtain ⟨hb1, ⟨pb, hpb, hb2⟩, hb3⟩ := hb
  have hbl := (List.getElem?_eq_some_iff.mp hpb).1
  have hc := h.count
  have hplen : ps.length = b - a := by rw [hbt, List.length_take, List.length_drop]; omega
  have hpos : 0 < ps.length := by cases ps with
    | nil => simp at hp0
    | cons => simp
  have hget : ∀ i, i < b - a → ps[i]? = fs.flatten.flatten[a + i]? := by
    intro i hi
    rw [hbt, List.getElem?_take, if_pos hi, List.getElem?_drop]
  have hp0' : fs.flatten.flatten[a]? = some p0 := by
    rw [← Nat.add_zero a, ← hget 0 (by omega), ← hp0, List.head?_eq_getElem?]
  rw [hpa] at hp0'
  injection hp0' with hp0'
  subst hp0'
  -- the time up to the packet after the last one
  have hsm : pb.time < 2 ^ 64 := h.small pb (List.mem_of_getElem? hpb)
  have hle : pa.time < pb.time := times_lt h.strict hpa hpb (by omega)
  have hhead : keyHeaderSize t s f = 100 + 12 * (b - a) := by
    unfold keyHeaderSize
    rw [hA, hB, sub64_eq hab (by omega)]
    omega
  have hord : order t s f = trail t.parts (b - a) ⟨s, a, keyHeaderSize t s f + 8⟩ := by
    unfold order
    rw [hA, hB, order_loop h (b - a) ⟨s, a, _⟩ [] ha1 hpa (by show fs.flatten.flatten[a + (b - a)]? = _; rw [← hpb]; congr 1; omega) (by show s + _ < _; omega) (by simp)]
    rfl
  have hat : ∀ (i : Nat) (p : Packet), ps[i]? = some p → (order t s f)[i]? = some ⟨s + (p.time - pa.time), a + i, keyHeaderSize t s f + 8 + bytes (ps.take i)⟩ := by
    intro i p hp
    have hi := (List.getElem?_eq_some_iff.mp hp).1
    rw [hget i (by omega)] at hp
    rw [hord, trail_at h (b - a) ⟨s, a, _⟩ ha1 hpa (by show fs.flatten.flatten[a + (b - a)]? = _; rw [← hpb]; congr 1; omega) (by show s + _ < _; omega)
      i (by omega) p hp, hbt, List.take_take, Nat.min_eq_left (by omega)]
  have holen : (order t s f).length = b - a := by rw [hord, trail_length]
  have hslen : (samplesOf t f (order t s f)).length = b - a := by rw [samples_length, holen]
  -- times of packets
  have htime : ∀ (i : Nat) (p : Packet), ps[i]? = some p → pa.time ≤ p.time ∧ p.time < f := by
    intro i p hp
    have hi := (List.getElem?_eq_some_iff.mp hp).1
    rw [hget i (by omega)] at hp
    refine ⟨?_, hb3 (a + i) p (by omega) (by omega) hp⟩
    by_cases hz : i = 0
    · subst hz; rw [Nat.add_zero, hpa] at hp; injection hp with hp; rw [hp]; exact Nat.le_refl _
    · exact Nat.le_of_lt (times_lt h.strict hpa hp (by omega))
  -- the rows
  have hrow : ∀ (i : Nat) (p : Packet), ps[i]? = some p → (written t c s f).rows[i]? =
      some ⟨(match ps[i + 1]? with | some q => q.time - p.time | none => f - (s + (p.time - pa.time))), p.size, word p.off⟩ := by
    intro i p hp
    have hi := (List.getElem?_eq_some_iff.mp hp).1
    have hx := hat i p hp
    have hx2 := samples_at t f _ i _ hx
    unfold written
    dsimp only
    rw [List.getElem?_map, hx2, Option.map_some, holen]
    congr 1
    obtain ⟨t1, t2⟩ := htime i p hp
    have hp' := hp
    rw [hget i (by omega)] at hp'
    have hn : fs.flatten.flatten[a + i + 1]? = some fs.flatten.flatten[a + i + 1] := List.getElem?_eq_getElem (by omega)
    obtain ⟨n1, n2, n3, n4⟩ := part_next h (by omega) hp' hn
    unfold sampleOf Sample.row
    dsimp only
    rw [n1, n2]
    congr 1
    by_cases hz : i + 1 = b - a
    · rw [show ps[i + 1]? = none from List.getElem?_eq_none (by omega)]
      simp only [hz, decide_true, if_true]
      exact sub64_eq (by omega) h64
    · rw [hget (i + 1) (by omega), ← Nat.add_assoc, hn]
      simp only [hz, decide_false, Bool.false_eq_true, if_false]
      exact n3
  have hbase : (written t c s f).base = mediaTime t c s := by
    unfold written mediaTime
    dsimp only
    cases c.vod with
    | true => rw [if_pos rfl, if_pos rfl, sub64_eq hfirst (by omega)]
    | false => rw [if_neg (by simp), if_neg (by simp), Nat.mod_eq_of_lt (by omega)]
  have hrl : (written t c s f).rows.length = ps.length := by
    unfold written; dsimp only; rw [List.length_map, hslen, hplen]
  have hdata : (written t c s f).data = 108 + 12 * ps.length := by
    have h0 := hat 0 pa (by rw [hget 0 (by omega), Nat.add_zero, hpa])
    unfold written
    dsimp only
    rw [List.head?_eq_getElem?, h0, hhead]
    simp only [Option.map_some, Option.getD_some, List.take_zero, show bytes [] = 0 from rfl]
    omega
  -- the durations add up
  have hsum : ∀ (i : Nat) (p : Packet), ps[i]? = some p → (((written t c s f).rows.take i).map Row.dur).sum = p.time - pa.time := by
    intro i
    induction i with
    | zero =>
      intro p hp
      rw [hget 0 (by omega), Nat.add_zero, hpa] at hp; injection hp with hp; subst hp
      simp
    | succ i ih =>
      intro p hp
      have hi := (List.getElem?_eq_some_iff.mp hp).1
      have hq : ps[i]? = some ps[i] := List.getElem?_eq_getElem (by omega)
      rw [sum_take_succ _ _ i _ (hrow i _ hq), ih _ hq, hp]
      dsimp only
      have h1 := htime i _ hq
      have h2 : ps[i].time < p.time := by
        rw [hget i (by omega)] at hq
        rw [hget (i + 1) (by omega)] at hp
        exact times_lt h.strict hq hp (by omega)
      omega
  have hfin : (((written t c s f).rows.take ps.length).map Row.dur).sum = f - s := by
    have hq : ps[ps.length - 1]? = some ps[ps.length - 1] := List.getElem?_eq_getElem (by omega)
    have := sum_take_succ Row.dur _ _ _ (hrow _ _ hq)
    rw [show ps.length - 1 + 1 = ps.length by omega] at this
    rw [this, hsum _ _ hq, List.getElem?_eq_none (Nat.le_refl _)]
    dsimp only
    have h1 := htime _ _ hq
    omega
  refine ⟨keyHeader_eq t c s f (by omega), ⟨rfl, rfl, hrl, ⟨?_, ?_, ?_⟩, ?_, ?_, ?_, ?_, ?_⟩, ha2, ?_, ?_⟩
  · rw [hbase]; unfold mediaTime; split <;> omega
  · omega
  · intro r hr
    obtain ⟨i, hi, rfl⟩ := List.mem_iff_getElem.mp hr
    rw [hrl] at hi
    have hq : ps[i]? = some ps[i] := List.getElem?_eq_getElem hi
    have h1 := hrow i _ hq
    rw [List.getElem?_eq_getElem (by omega)] at h1
    injection h1 with h1
    rw [h1]
    have h2 := htime i _ hq
    refine ⟨?_, ?_, word_lt _⟩
    · dsimp only
      split
      · rename_i q hq'
        have := htime _ _ hq'
        omega
      · omega
    · dsimp only
      have : ps[i].size ≤ bytes ps := by
        have e1 : bytes ps = ((ps.take (i + 1)).map Packet.size).sum + ((ps.drop (i + 1)).map Packet.size).sum := by
          unfold bytes
          rw [← List.sum_append, ← List.map_append, List.take_append_drop]
        rw [e1, sum_take_succ _ _ _ _ hq]
        omega
      omega
  · intro i p hp
    rw [hrow i p hp]; rfl
  · intro i p hp h0
    rw [hrow i p hp]
    have := hoff p (List.mem_of_getElem? hp)
    simp only [Option.map_some, word]
    rw [Int.emod_eq_of_lt h0 (by omega), Int.toNat_of_nonneg h0]
  · intro i p hp
    have h1 := htime i p hp
    unfold Frag.time
    rw [hsum i p hp, hbase]
    unfold mediaTime
    split <;> omega
  · intro i
    unfold Frag.sync written
    dsimp only
    by_cases hz : i = 0
    · simp [hz]
    · rw [if_neg hz]
      cases t.video <;> simp [hz]
  · unfold Frag.time
    rw [hfin, hbase]
    unfold mediaTime
    split <;> omega
  · rw [bytes_length, hrl, hdata]; omega
  · unfold payloadSize
    rw [hA, hB, size_loop h _ _ ha1 (by omega), ← hbt]

/-- The segment's boxes and data. -/
theorem segment_says (fr : Frag) (content : Packet → Bytes) (ps : List Packet) (hl : ∀ p ∈ ps, (content p).length = p.size)
    (hd : fr.data = fr.bytes.length + 8) (hrow : ∀ (i : Nat) (p : Packet), ps[i]? = some p → (fr.rows[i]?.map Row.size) = some p.size) (i : Nat) (p : Packet)
    (hp : ps[i]? = some p) : fr.sample (fr.bytes ++ box tyMdat (ps.map content).flatten) i = content p := by
  have hsz : ∀ i, i < ps.length → ((fr.rows.take i).map Row.size).sum = bytes (ps.take i) := by
    intro i
    induction i with
    | zero => intro _; rfl
    | succ i ih =>
      intro hi
      have hq : ps[i]? = some ps[i] := List.getElem?_eq_getElem (by omega)
      have h1 := hrow i _ hq
      cases hr : fr.rows[i]? with
      | none => rw [hr] at h1; cases h1
      | some r =>
        rw [hr] at h1
        injection h1 with h1
        rw [sum_take_succ _ _ _ _ hr, ih (by omega)]
        unfold bytes
        rw [sum_take_succ _ _ _ _ hq, h1]
  have hi := (List.getElem?_eq_some_iff.mp hp).1
  unfold Frag.sample Frag.place
  rw [hrow i p hp, hsz i hi, hd, Option.getD_some, Nat.add_assoc, ← List.drop_drop, List.drop_left' rfl, ← List.drop_drop]
  have : (box tyMdat (ps.map content).flatten).drop 8 = (ps.map content).flatten := by
    unfold box
    rw [List.drop_left']
    simp [tyMdat]
  rw [this]
  exact cut_at content ps hl i p hp

/-! ## C89 -/

/-- **C89** (for packets of different times and offsets that are not negative). After any history of packets and removals, the
segment from `s` up to `f` is a fragment and a box with the data, and the fragment describes exactly the packets from `s` on and before
`f`, in their order: their number, sizes, composition offsets, the time from one to the next; the last one ends at `f`. Every
sample, found by the places that the fragment says, is the data of its packet. If a packet has the time `s`, the decode times are those
of the packets. Missing: packets of equal times (`C89_same_time_fails`), decode times if no packet has the time `s`
(`C89_unaligned_fails`), negative offsets (`C89_negative_offset_fails`) and segments of 2^31 bytes or more. -/
theorem C89_segment_partial (video : Bool) (setting : Nat) {np nk nf : Nat} (hnp : 0 < np) (hnk : 0 < nk) (hnf : 0 < nf)
    (ops : List Op) (h : Moderate (packets ops)) (hshort : Short (accepted 0 (packets ops)))
    (hstrict : ((accepted 0 (packets ops)).map Packet.time).Pairwise (· < ·)) (t : Track) (ht : run (newTrack video setting np nk nf) ops = some t)
    (c : Setting) {s f : Nat} (hs : Indexed t s) (hf : Indexed t f) (hsf : s < f) (hspan : f - s < 2 ^ 32) (hfirst : t.firstms ≤ s)
    (hshift : f + c.shift < 2 ^ 64) (content : Packet → Bytes) (hcontent : ∀ p, (content p).length = p.size)
    (ps : List Packet) (hps : ps = between s f (accepted 0 (packets ops))) (p0 : Packet) (hp0 : ps.head? = some p0)
    (hcount : ps.length < 2 ^ 27) (hsize : (ps.map Packet.size).sum < 2 ^ 31) :
    ∃ fr : Frag, keyHeader t c s f = fr.bytes ∧
      segment t c ((fetch ((accepted 0 (packets ops)).filter fun p => decide (t.firstms ≤ p.time)) ⟨s, f - s⟩).map content) s f =
        fr.bytes ++ box tyMdat (ps.map content).flatten ∧
      Describes fr t c ps f (p0.time - s) ∧
      (∀ (i : Nat) (p : Packet), ps[i]? = some p → fr.sample (fr.bytes ++ box tyMdat (ps.map content).flatten) i = content p) ∧
      ((∃ p ∈ accepted 0 (packets ops), p.time = s) → p0.time = s) := by
  have hne : packets ops ≠ [] := by
    intro hh
    rw [hh] at hps
    subst hps; simp [accepted, between] at hp0
  obtain ⟨_, fs, d, e, hfl, hcon⟩ := C34_histories_consistent video setting hnp hnk hnf ops h hne hshort hstrict t ht
  have known : ∀ ts, Indexed t ts → Known t fs d ts := by
    rintro ts (hts | ⟨k, h1, h2, h3⟩)
    · exact .inl hts
    · rw [hcon.shows.offKeys.del] at h1
      rw [hcon.shows.offKeys.fin] at h2
      have hg : fs.flatten[k]? = some fs.flatten[k] := List.getElem?_eq_getElem h2
      exact .inr ⟨k, _, h1, hg, by rw [← (hcon.key h1 hg).1, h3]⟩
  -- the packets that are left
  have hleft : (accepted 0 (packets ops)).filter (fun p => decide (t.firstms ≤ p.time)) = fs.flatten.flatten.drop (gone fs d) := by
    have hdl := hcon.dlt
    have hg : fs.flatten[d]? = some fs.flatten[d] := List.getElem?_eq_getElem hdl
    have hfm := hcon.shows.firstms _ hg
    obtain ⟨p, hp, e1⟩ := hcon.firstPacket hg
    have hpl := (List.getElem?_eq_some_iff.mp hp).1
    rw [← hfl, ← List.take_append_drop (gone fs d) fs.flatten.flatten, List.filter_append]
    have f1 : (fs.flatten.flatten.take (gone fs d)).filter (fun p => decide (t.firstms ≤ p.time)) = [] := by
      rw [List.filter_eq_nil_iff]
      intro x hx
      obtain ⟨i, hi, rfl⟩ := List.mem_iff_getElem.mp hx
      rw [List.length_take] at hi
      rw [List.getElem_take]
      have := times_lt hcon.strict (List.getElem?_eq_getElem (show i < _ by omega)) hp (show i < gone fs d by omega)
      simp; omega
    have f2 : (fs.flatten.flatten.drop (gone fs d)).filter (fun p => decide (t.firstms ≤ p.time)) = fs.flatten.flatten.drop (gone fs d) := by
      rw [List.filter_eq_self]
      intro x hx
      obtain ⟨i, hi, rfl⟩ := List.mem_iff_getElem.mp hx
      rw [List.length_drop] at hi
      rw [List.getElem_drop]
      by_cases hz : i = 0
      · subst hz
        have h2 := List.getElem?_eq_getElem (l := fs.flatten.flatten) (i := gone fs d + 0) (by omega)
        rw [show fs.flatten.flatten[gone fs d + 0]? = some p from hp] at h2
        injection h2 with h2
        rw [← h2, decide_eq_true_eq]; omega
      · have := times_lt hcon.strict hp (List.getElem?_eq_getElem (show gone fs d + i < _ by omega)) (show gone fs d < gone fs d + i by omega)
        simp; omega
    rw [f1, f2, List.nil_append, List.take_append_drop]
  have hbt : between s f (fs.flatten.flatten.drop (gone fs d)) = ps := by
    rw [← hleft, hps]
    unfold between
    rw [List.filter_filter]
    refine List.filter_congr fun p _ => ?_
    rw [← Bool.decide_and]
    exact decide_eq_decide.mpr ⟨fun h => h.1, fun h => ⟨h, by omega⟩⟩
  have hfit : ∀ p ∈ ps, Fits p := by
    intro p hp
    rw [hps] at hp
    exact h.fits p (accepted_sub _ _ p (List.mem_filter.mp hp).1)
  have hoff : ∀ p ∈ ps, p.off < 2 ^ 31 := fun p hp => by have := (hfit p hp).2.2.2; omega
  obtain ⟨k1, k2, k3, k4, k5⟩ := header_says hcon c (known s hs) (known f hf) hsf (by omega) hspan hfirst hshift ps hbt p0 hp0 hcount hsize hoff
  refine ⟨written t c s f, k1, ?_, k2, fun i p hp => segment_says _ content ps (fun p _ => hcontent p) k4 k2.size i p hp, ?_⟩
  · unfold segment box
    have hsort : ((fs.flatten.flatten.drop (gone fs d)).map Packet.time).Pairwise (· ≤ ·) := by
      rw [List.map_drop]
      exact (hcon.grouped.times).sublist (List.drop_sublist _ _)
    rw [hleft, fetch_between hsort, k1, k5, l_eq]
    dsimp only
    rw [show s + (f - s) = f by omega, hbt, content_length content ps fun p _ => hcontent p]
    simp only [List.append_assoc]
  · rintro ⟨p, hp, rfl⟩
    have hmem : p ∈ ps := by rw [hps]; exact List.mem_filter.mpr ⟨hp, by simp; omega⟩
    cases ps with
    | nil => cases hmem
    | cons q r =>
      rw [List.head?_cons] at hp0
      have hp0 := Option.some.inj hp0
      rw [← hp0] at k3 ⊢
      have hsort : ((q :: r).map Packet.time).Pairwise (· ≤ ·) := by
        rw [hps]
        refine List.Pairwise.sublist ?_ (hstrict.imp fun h => Nat.le_of_lt h)
        exact List.filter_sublist.map _
      rw [List.map_cons, List.pairwise_cons] at hsort
      rcases List.mem_cons.mp hmem with rfl | hm
      · rfl
      · have := hsort.1 _ (List.mem_map_of_mem hm)
        omega

/-! ## Examples -/

/-- A packet. -/
def mk (time : Nat) (key : Bool) (size : Nat) (off : Int := 0) : Packet := ⟨time, off, size, 0, key, size⟩

/-- Two keys, the first with three packets. -/
def two : List Op := [.packet (mk 1000 true 3 80), .packet (mk 1040 false 2 0), .packet (mk 1080 false 0 40), .packet (mk 3000 true 1)]

/-- The hypotheses of `C89_segment_partial` can be met. -/
example : ∃ (t : Track) (fr : Frag), run (newTrack true 0 4 4 4) two = some t ∧ keyHeader t ⟨0, 7, false, 0⟩ 1000 3000 = fr.bytes ∧
    Describes fr t ⟨0, 7, false, 0⟩ [mk 1000 true 3 80, mk 1040 false 2 0, mk 1080 false 0 40] 3000 0 := by
  have hm : Moderate (packets two) := ⟨by simp [two, packets, mk, Fits], by simp [two, packets, accepted, mk, Close], by decide⟩
  obtain ⟨fr, h1, _, h3, _⟩ := C89_segment_partial true 0 (np := 4) (nk := 4) (nf := 4) (by decide) (by decide) (by decide) two hm
    (by simp [Short, two, packets, accepted, mk]) (by decide) _ rfl ⟨0, 7, false, 0⟩ (s := 1000) (f := 3000) (.inl (by decide +kernel))
    (.inr ⟨1, by decide +kernel⟩) (by decide) (by decide) (by decide +kernel) (by decide) (fun p => List.replicate p.size 0) (by simp) _ rfl (mk 1000 true 3 80) rfl
    (by decide) (by decide)
  exact ⟨_, fr, rfl, h1, h3⟩

/-- The bytes of that segment's header. -/
example : ∃ t, run (newTrack true 0 4 4 4) two = some t ∧ keyHeader t ⟨0, 7, false, 0⟩ 1000 3000 =
    [0, 0, 0, 136] ++ tyMoof ++ [0, 0, 0, 16] ++ tyMfhd ++ [0, 0, 0, 0, 0, 0, 0, 7] ++
    [0, 0, 0, 112] ++ tyTraf ++ [0, 0, 0, 24] ++ tyTfhd ++ [0, 2, 0, 0x22, 0, 0, 0, 1, 0, 0, 0, 1, 1, 1, 0, 0] ++
    [0, 0, 0, 20] ++ tyTfdt ++ [1, 0, 0, 0, 0, 0, 0, 0, 0, 0, 3, 232] ++
    [0, 0, 0, 60] ++ tyTrun ++ [0, 0, 0xB, 5, 0, 0, 0, 3, 0, 0, 0, 144, 2, 0, 0, 0] ++
    [0, 0, 0, 40, 0, 0, 0, 3, 0, 0, 0, 80] ++ [0, 0, 0, 40, 0, 0, 0, 2, 0, 0, 0, 0] ++ [0, 0, 7, 128, 0, 0, 0, 0, 0, 0, 0, 40] :=
  ⟨_, rfl, by decide +kernel⟩

/-! ## Where the code differs -/

/-- **C89** fails for packets of the same time: of three packets, two of which have the same time, only two are described; and the data is
said to start at byte 144 of the segment, but it starts at byte 132. -/
theorem C89_same_time_fails : ∃ (t : Track) (fr : Frag), run (newTrack true 0 4 4 4) [.packet (mk 1000 true 3), .packet (mk 1000 false 2), .packet (mk 1040 false 1), .packet (mk 3000 true 1)] = some t ∧
    keyHeader t ⟨0, 0, false, 0⟩ 1000 3000 = fr.bytes ∧ fr.rows = [⟨0, 3, 0⟩, ⟨1960, 1, 0⟩] ∧ fr.data = 144 ∧ fr.bytes.length + 8 = 132 :=
  ⟨_, ⟨0, 1, 0x01010000, 1000, 144, 0x02000000, [⟨0, 3, 0⟩, ⟨1960, 1, 0⟩]⟩, rfl, by decide +kernel, by decide +kernel, by decide +kernel, by decide +kernel⟩

/-- **C89** fails for segments that do not start with the time of a packet, as those of an audio track, cut where the video track is cut:
of packets at 990, 1010 and 1030 milliseconds, the one at 1010 is the first of the segment from 1000 on, and is said to be at 1000. -/
theorem C89_unaligned_fails : ∃ (t : Track) (fr : Frag), run (newTrack false 0 4 4 4) [.packet (mk 990 true 3), .packet (mk 1010 false 2), .packet (mk 1030 false 1), .packet (mk 1050 false 1)] = some t ∧
    keyHeader t ⟨1, 0, false, 0⟩ 1000 1040 = fr.bytes ∧ fr.rows = [⟨20, 2, 0⟩, ⟨20, 1, 0⟩] ∧ fr.time 0 = 1000 ∧ fr.time 1 = 1020 :=
  ⟨_, ⟨0, 2, 0x02000000, 1000, 132, 0x02000000, [⟨20, 2, 0⟩, ⟨20, 1, 0⟩]⟩, rfl, by decide +kernel, by decide +kernel, by decide +kernel, by decide +kernel⟩

/-- **C89** fails for negative composition offsets: -40 is written as 4294967256, in a version of the box in which offsets have no sign. -/
theorem C89_negative_offset_fails : ∃ (t : Track) (fr : Frag), run (newTrack true 0 4 4 4) [.packet (mk 1000 true 3 (-40)), .packet (mk 1040 false 2), .packet (mk 3000 true 1)] = some t ∧
    keyHeader t ⟨0, 0, false, 0⟩ 1000 3000 = fr.bytes ∧ fr.rows = [⟨40, 3, 4294967256⟩, ⟨1960, 2, 0⟩] :=
  ⟨_, ⟨0, 1, 0x01010000, 1000, 132, 0x02000000, [⟨40, 3, 4294967256⟩, ⟨1960, 2, 0⟩]⟩, rfl, by decide +kernel, by decide +kernel⟩

/-- **C89** fails for segments with several keys: the second key, at 1500 milliseconds, is said to be a frame at which decoding cannot start. -/
theorem C89_second_key_fails : ∃ (t : Track) (fr : Frag), run (newTrack true 0 4 4 4) [.packet (mk 1000 true 3), .packet (mk 1500 true 2), .packet (mk 3000 true 1)] = some t ∧
    (∃ k, (t.keys.get k).time = 1500) ∧ t.frags.fin = 2 ∧ keyHeader t ⟨0, 0, false, 0⟩ 1000 3000 = fr.bytes ∧ fr.time 1 = 1500 ∧ fr.sync 1 = false :=
  ⟨_, ⟨0, 1, 0x01010000, 1000, 132, 0x02000000, [⟨500, 3, 0⟩, ⟨1500, 2, 0⟩]⟩, rfl, ⟨1, by decide +kernel⟩, by decide +kernel, by decide +kernel, by decide +kernel, by decide +kernel⟩

/-- **C89** fails for segments without packets: an empty set of packets has no first one. (The model writes zero for the place of the data, which is
read past the end of the set.) -/
theorem C89_empty_fails : ∃ t, run (newTrack false 0 4 4 4) [.packet (mk 1000 true 3), .packet (mk 3000 false 2), .packet (mk 5000 false 1)] = some t ∧
    order t 1500 2500 = [] :=
  ⟨_, rfl, by decide +kernel⟩

end Verif.Mp4
