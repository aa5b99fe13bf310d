import Verif.Stbl.Clock

/-! # C90: samples of MP4 files by their tables -/
namespace Verif.Stbl

variable {t : Tables}

/-- Where lookups may start. -/
structure Ok (t : Tables) (c : Cursor) : Prop where
  time : TimeOk t c
  off : ∀ l, t.ctts = some l → OffOk l c
  key : ∀ l, t.stss = some l → KeyOk l c
  pos : PosOk t c

theorem ok_start (h : Sound t) : Ok t {} := by
  refine ⟨time_start _ rfl rfl rfl rfl rfl, fun l _ => ⟨Nat.zero_le _, rfl⟩, fun l hl => ?_, pos_start h _ rfl rfl⟩
  obtain ⟨⟨r, hr⟩, _⟩ := h.keys l hl
  subst hr
  refine ⟨by simp, fun x hx => ?_⟩
  simp at hx
  subst hx; rfl

/-- Every sample is in a chunk. -/
theorem in_chunk (t : Tables) (m n : Nat) (h : n < before t m) : ∃ k, k < m ∧ before t k ≤ n ∧ n < before t (k + 1) := by
  induction m with
  | zero => simp [before] at h
  | succ m ih =>
    rcases Nat.lt_or_ge n (before t m) with hl | hl
    · obtain ⟨k, h1, h2⟩ := ih hl
      exact ⟨k, by omega, h2⟩
    · exact ⟨m, by omega, hl, h⟩

theorem off_ok (scale : Nat) (x : Nat) (hx : x * 1000 < 2 ^ 31) : offMillis scale (x : Int) = ((x * 1000 / scale : Nat) : Int) := by
  unfold offMillis int32
  have e1 : ((x : Int) * 1000 + 2 ^ 31) % 2 ^ 32 - 2 ^ 31 = ((x * 1000 : Nat) : Int) := by
    rw [Int.emod_eq_of_lt (by omega) (by omega)]; omega
  have e2 : (((x * 1000 : Nat) : Int) % 2 ^ 64).toNat = x * 1000 := by
    rw [Int.emod_eq_of_lt (by omega) (by omega)]; rfl
  rw [e1, e2]
  have := Nat.div_le_self (x * 1000) scale
  generalize x * 1000 / scale = q at *
  rw [Int.emod_eq_of_lt (by omega) (by omega)]; omega

theorem get_part (h : Sound t) (c : Cursor) (hc : Ok t c) (n : Nat) (hn : n < t.count) :
    Ok t (getPart t c n).1 ∧
    (∃ k p, t.chunks[k]? = some p ∧ before t k ≤ n ∧ n < before t (k + 1) ∧
      (getPart t c n).2.pos = p + sizes t (before t k) n + (if t.text = true ∧ 2 ≤ size t n then 2 else 0)) ∧
    (getPart t c n).2.size = size t n - (if t.text = true ∧ 2 ≤ size t n then 2 else 0) ∧
    ((getPart t c n).2.key = true ↔ t.video = true ∧ isSync t n) ∧
    (∃ x, (offsets t)[n]? = some x ∧ (getPart t c n).2.off = (if t.ctts = none then 0 else offMillis t.scale x) ∧ (t.ctts = none → x = 0)) ∧
    (getPart t c n).2.time = millis t.scale (clock t.scale ((durations t).take n)).1 := by
  obtain ⟨k, k1, k2, k3⟩ := in_chunk t t.chunks.length n (by rw [h.filled]; exact hn)
  have hp : t.chunks[k]? = some t.chunks[k] := List.getElem?_eq_getElem k1
  have a := get_time c hc.time n (by rw [h.times]; exact hn)
  generalize hga : getTime t c n = ga at a
  obtain ⟨a1, a2, a3⟩ := a
  obtain ⟨x, b1, b2, b3, b4, b5⟩ := get_offset ga.1 (fun l hl => by rw [a3]; exact ⟨(hc.off l hl).1, (hc.off l hl).2⟩) n h.offs hn
  generalize hgb : getOffset t ga.1 n = gb at b2 b4 b5
  have d := get_key h gb.1 (fun l hl => by rw [b5, a3]; exact ⟨(hc.key l hl).1, (hc.key l hl).2⟩) n hn
  generalize hgd : getKey t gb.1 n = gd at d
  obtain ⟨d1, d2, d3⟩ := d
  have e := get_pos h gd.1 (by rw [d3, b5, a3]; exact ⟨hc.pos.1, hc.pos.2⟩) n hn k _ hp k2 k3
  generalize hge : getPos t gd.1 n = ge at e
  obtain ⟨e1, e2, e3⟩ := e
  have hsz := entry_size h hn
  have hf : (getPart t c n).1 = ge.1 := by unfold getPart; simp only [hga, hgb, hgd, hge]
  have hs : (getPart t c n).2 = if t.text = true ∧ entrySize t n ≥ 2 then ⟨ga.2, gb.2, gd.2, ge.2 + 2, entrySize t n - 2⟩ else ⟨ga.2, gb.2, gd.2, ge.2, entrySize t n⟩ := by
    unfold getPart; simp only [hga, hgb, hgd, hge]
  rw [hf, hs, hsz]
  refine ⟨⟨?_, fun l hl => ?_, fun l hl => ?_, e2⟩, ⟨k, _, hp, k2, k3, ?_⟩, ?_, ?_, ⟨x, b1, ?_, b3⟩, ?_⟩
  · rw [e3, d3, b5]; exact ⟨a2.1, a2.2, a2.3, a2.4⟩
  · rw [e3, d3]; exact ⟨(b4 l hl).1, (b4 l hl).2⟩
  · rw [e3]; exact ⟨(d2 l hl).1, (d2 l hl).2⟩
  · by_cases hx : t.text = true ∧ size t n ≥ 2
    · simp only [if_pos hx, e1]
    · simp only [if_neg hx, e1, Nat.add_zero]
  all_goals
    by_cases hx : t.text = true ∧ size t n ≥ 2
    · simp only [if_pos hx] <;> first | exact d1 | exact b2 | exact a1
    · simp only [if_neg hx] <;> first | exact d1 | exact b2 | exact a1 | rfl

theorem ok_lookups (h : Sound t) (c : Cursor) (hc : Ok t c) (qs : List Nat) (hq : ∀ q ∈ qs, q < t.count) : Ok t (lookups t c qs) := by
  induction qs generalizing c with
  | nil => exact hc
  | cons q r ih => exact ih _ (get_part h c hc q (hq q (by simp))).1 fun x hx => hq x (by simp [hx])

/-- C90: after any lookups, the answer for a sample is what the tables say: the sample is at the place of its chunk
and after the samples before it in that chunk; it has its size; it is a key frame if it is a sample of a video track that is listed, or if there is no list.
Its offset in milliseconds is that of the table, if that is not negative and small enough.
Of a text sample, the two bytes of its header are left out.

Missing: negative and large offsets, tables whose first sample is not a key frame: see `C90_negative_offset_fails`, `C90_large_offset_fails` and
`C90_first_key_fails`. -/
theorem C90_lookup_partial (h : Sound t) (qs : List Nat) (hq : ∀ q ∈ qs, q < t.count) (n : Nat) (hn : n < t.count) :
    let r := (getPart t (lookups t {} qs) n).2
    let header := if t.text = true ∧ 2 ≤ size t n then 2 else 0
    (∃ k p, t.chunks[k]? = some p ∧ before t k ≤ n ∧ n < before t (k + 1) ∧ r.pos = p + sizes t (before t k) n + header) ∧
    r.size = size t n - header ∧
    (r.key = true ↔ t.video = true ∧ isSync t n) ∧
    (∀ x : Nat, (offsets t)[n]? = some (x : Int) → x * 1000 < 2 ^ 31 → r.off = ((x * 1000 / t.scale : Nat) : Int)) := by
  obtain ⟨-, h1, h2, h3, ⟨x, h4, h5, h6⟩, -⟩ := get_part h _ (ok_lookups h _ (ok_start h) qs hq) n hn
  refine ⟨h1, h2, h3, fun y hy hx => ?_⟩
  rw [h4] at hy
  have hy := Option.some.inj hy
  rw [h5]
  by_cases hc : t.ctts = none
  · rw [if_pos hc]
    have := h6 hc
    have hz : y = 0 := by omega
    rw [hz, Nat.zero_mul, Nat.zero_div]; rfl
  · rw [if_neg hc, hy, off_ok _ _ hx]

/-- C90: if all samples last a millisecond or longer, the time of each, after any lookups, is the sum of the durations before it, in milliseconds. -/
theorem C90_time (h : Sound t) (hd : ∀ x ∈ durations t, t.scale ≤ x * 1000) (qs : List Nat) (hq : ∀ q ∈ qs, q < t.count) (n : Nat) (hn : n < t.count) :
    (getPart t (lookups t {} qs) n).2.time = decodeTime t n * 1000 / t.scale := by
  obtain ⟨-, -, -, -, -, h6⟩ := get_part h _ (ok_lookups h _ (ok_start h) qs hq) n hn
  have hsum : ((durations t).take n).sum ≤ (durations t).sum := by
    conv => rhs; rw [← List.take_append_drop n (durations t), List.sum_append]
    omega
  have hl := h.long
  have hlt := Nat.lt_of_le_of_lt hsum hl
  rw [h6, clock_exact _ h.scale _ (fun x hx => hd x (List.mem_of_mem_take hx)) hlt]
  exact millis_eq _ _ hlt

/-- The time of every sample, whatever was looked up before. -/
theorem time_any (h : Sound t) (qs : List Nat) (hq : ∀ q ∈ qs, q < t.count) (n : Nat) (hn : n < t.count) :
    (getPart t (lookups t {} qs) n).2.time = millis t.scale (clock t.scale ((durations t).take n)).1 :=
  (get_part h _ (ok_lookups h _ (ok_start h) qs hq) n hn).2.2.2.2.2

/-- C90: with samples of any durations, in tracks up to 2^32 units long: times are not before those of the table and do not run back.
If there are whole units in a millisecond, each time is that of the table or a millisecond after the one before, whichever is later.

Missing: times that increase with other time scales, and longer tracks: see `C90_increase_fails` and `C90_long_fails`. -/
theorem C90_order_partial (h : Sound t) (hs : t.scale < 2 ^ 32) (hl : (durations t).sum + t.count * (t.scale / 1000) < 2 ^ 32) (qs qs' : List Nat)
    (hq : ∀ q ∈ qs, q < t.count) (hq' : ∀ q ∈ qs', q < t.count) :
    (∀ n, n < t.count → decodeTime t n * 1000 / t.scale ≤ (getPart t (lookups t {} qs) n).2.time) ∧
    (∀ n m, n ≤ m → m < t.count → (getPart t (lookups t {} qs) n).2.time ≤ (getPart t (lookups t {} qs') m).2.time) ∧
    (t.scale % 1000 = 0 → ∀ n, n + 1 < t.count → (getPart t (lookups t {} qs) (n + 1)).2.time =
      max (decodeTime t (n + 1) * 1000 / t.scale) ((getPart t (lookups t {} qs') n).2.time + 1)) := by
  have hlen := h.times
  refine ⟨fun n hn => ?_, fun n m hnm hm => ?_, fun hz n hn => ?_⟩
  · rw [time_any h qs hq n hn]
    exact clock_late _ h.scale hs _ (by rw [hlen]; exact hl) n (by omega)
  · rw [time_any h qs hq n (by omega), time_any h qs' hq' m hm]
    induction m with
    | zero => rw [show n = 0 by omega]; exact Nat.le_refl _
    | succ m ih =>
      rcases Nat.lt_or_ge n (m + 1) with hl' | hl'
      · exact Nat.le_trans (ih (by omega) (by omega)) (clock_next _ h.scale hs _ (by rw [hlen]; exact hl) m (by omega)).1
      · rw [show n = m + 1 by omega]; exact Nat.le_refl _
  · rw [time_any h qs hq (n + 1) hn, time_any h qs' hq' n (by omega)]
    exact (clock_next _ h.scale hs _ (by rw [hlen]; exact hl) n (by omega)).2 hz

/-! ## A concrete file -/

/-- Six video samples in three chunks, of two, two and one, and one, samples, at 90 kHz. -/
def sample : Tables :=
  { scale := 90000, video := true, count := 6, sizes := [100, 20, 30, 110, 25, 35], stts := [(4, 3000), (2, 3600)], ctts := some [(1, 0), (3, 6000), (2, 3000)], stss := some [1, 4],
    stsc := [(1, 2), (3, 1)], chunks := [48, 1000, 2000, 3000] }

theorem sample_sound : Sound sample where
  scale := by decide
  few := by decide
  times := by decide
  long := by decide
  offs := by decide
  keys := by intro l hl; cases hl; exact ⟨⟨[4], rfl⟩, by decide, by decide⟩
  first := ⟨2, [(3, 1)], rfl⟩
  order := by decide
  inside := by decide
  filled := by decide
  sized := Or.inl rfl
  file := by
    intro c p hp
    have : p ∈ sample.chunks := List.mem_of_getElem? hp
    revert p
    intro p _ hm
    simp [sample] at hm
    omega
  total := by decide

example : Sound sample ∧ (∀ x ∈ durations sample, sample.scale ≤ x * 1000) ∧ (durations sample).sum + sample.count * (sample.scale / 1000) < 2 ^ 32 :=
  ⟨sample_sound, by decide, by decide⟩

example : (getPart sample (lookups sample {} [5, 2]) 3).2 = ⟨100, 66, true, 1030, 110⟩ := by decide +kernel

/-! ## Where the answers are wrong -/

/-- Everything right but the first sample, which is no key frame. -/
def late : Tables :=
  { scale := 1000, video := true, count := 4, sizes := [10, 10, 10, 10], stts := [(4, 40)], ctts := none, stss := some [3], stsc := [(1, 4)], chunks := [48] }

/-- C90 fails: if the first sample is not a key frame, it is taken for one, and the first real key frame is not found. -/
theorem C90_first_key_fails :
    ∃ t : Tables, 0 < t.scale ∧ t.video = true ∧ t.stss = some [3] ∧ (durations t).length = t.count ∧ t.count = 4 ∧
      ¬ isSync t 0 ∧ (getPart t {} 0).2.key = true ∧ isSync t 2 ∧ (getPart t {} 2).2.key = false :=
  ⟨late, by decide, rfl, rfl, by decide, rfl, by unfold isSync late; decide, by decide +kernel, by unfold isSync late; decide, by decide +kernel⟩

/-- C90 fails: an offset of minus 40 milliseconds (version 1 of the table) is not one of minus 40 milliseconds. -/
theorem C90_negative_offset_fails :
    ∃ t : Tables, Sound t ∧ t.scale = 1000 ∧ (offsets t)[1]? = some (-40) ∧ (getPart t {} 1).2.off = 1271310279 := by
  refine ⟨{ late with stss := none, ctts := some [(1, 0), (3, -40)] }, ⟨by decide, by decide, by decide, by decide, by decide, (by intro l hl; cases hl), ⟨4, [], rfl⟩, by decide, by decide, by decide,
    Or.inl rfl, ?_, by decide⟩, rfl, by decide, by decide +kernel⟩
  intro c p hp
  have : p ∈ [48] := List.mem_of_getElem? hp
  simp at this; omega

/-- C90 fails: with ten million units per second, as in files of Smooth Streaming, an offset of 400 milliseconds is not one of 400 milliseconds. -/
theorem C90_large_offset_fails :
    ∃ t : Tables, Sound t ∧ t.scale = 10000000 ∧ (offsets t)[1]? = some 4000000 ∧ (getPart t {} 1).2.off ≠ 400 := by
  refine ⟨{ late with scale := 10000000, stts := [(4, 400000)], stss := none, ctts := some [(1, 0), (3, 4000000)] }, ⟨by decide, by decide, by decide, by decide, by decide, (by intro l hl; cases hl),
    ⟨4, [], rfl⟩, by decide, by decide, by decide, Or.inl rfl, ?_, by decide⟩, rfl, by decide, by decide +kernel⟩
  intro c p hp
  have : p ∈ [48] := List.mem_of_getElem? hp
  simp at this; omega

/-- C90 fails: with 44100 units per second, samples of the same time are not a millisecond apart. -/
theorem C90_increase_fails :
    ∃ t : Tables, Sound t ∧ t.scale = 44100 ∧ (durations t).sum = 0 ∧ (getPart t {} 0).2.time = 0 ∧ (getPart t {} 1).2.time = 0 ∧ (getPart t {} 3).2.time = 0 := by
  refine ⟨{ late with scale := 44100, stts := [(4, 0)], stss := none }, ⟨by decide, by decide, by decide, by decide, by decide, (by intro l hl; cases hl),
    ⟨4, [], rfl⟩, by decide, by decide, by decide, Or.inl rfl, ?_, by decide⟩, rfl, by decide, by decide +kernel, by decide +kernel, by decide +kernel⟩
  intro c p hp
  have : p ∈ [48] := List.mem_of_getElem? hp
  simp at this; omega

/-- C90 fails: in a track of 90000 units per second, after 2^32 units (13 hours), a sample that lasts less than a millisecond sends the time back to the start. -/
theorem C90_long_fails :
    ∃ t : Tables, Sound t ∧ t.scale = 90000 ∧ durations t = [2 ^ 31, 2 ^ 31, 10, 10] ∧ decodeTime t 3 * 1000 / t.scale = 47721858 ∧
      (getPart t {} 2).2.time = 47721858 ∧ (getPart t {} 3).2.time = 0 := by
  refine ⟨{ late with scale := 90000, stts := [(2, 2 ^ 31), (2, 10)], stss := none }, ⟨by decide, by decide, by decide, by decide, by decide, (by intro l hl; cases hl),
    ⟨4, [], rfl⟩, by decide, by decide, by decide, Or.inl rfl, ?_, by decide⟩, rfl, by decide, by decide, by decide +kernel, by decide +kernel⟩
  intro c p hp
  have : p ∈ [48] := List.mem_of_getElem? hp
  simp at this; omega

end Verif.Stbl
