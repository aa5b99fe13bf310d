import Verif.H264In.Lemmas

/-!
# C116: raw H.264 from a program
-/

namespace Verif.H264In
open Verif SockBuf

theorem unit_eq (e : Env) (now : Nat) (s : St) (x : Bytes) : nalUnit e now s (x ++ code) =
    if Spec.trim x = [] then (s, none)
    else if kind (Spec.trim x) = 7 ∨ kind (Spec.trim x) = 8 then (paramSet e s (Spec.trim x), none)
    else match s.init with
      | none => (s, none)
      | some i => ({ s with count := s.count + 1 }, some { time := if i.2.2 = 0 then now else s.count * (1000000 / i.2.2), key := e.key (Spec.trim x), nal := Spec.trim x }) := by
  unfold nalUnit
  have : (x ++ code).take ((x ++ code).length - 3) = x := by
    rw [List.length_append, show x.length + code.length - 3 = x.length from rfl, List.take_left]
  simp only
  rw [this, strip_trim]
  cases s.init <;> rfl

theorem kind_eq {n : Bytes} (h : n ≠ []) : kind n = Spec.kind n := by
  cases n with
  | nil => exact absurd rfl h
  | cons a t => rfl

/-- Both sets are known exactly if the track is set up. -/
def Sound (s : St) : Prop := s.init = none ↔ ¬ (s.sps ≠ [] ∧ s.pps ≠ [])

theorem sound_param {e : Env} {s : St} {n : Bytes} (h : Sound s) (hk : kind n = 7 ∨ kind n = 8) (hn : n ≠ []) : Sound (paramSet e s n)
    ∧ (paramSet e s n).sps = (if kind n = 7 then n else s.sps) ∧ (paramSet e s n).pps = (if kind n = 8 then n else s.pps) := by
  refine ⟨?_, rfl, rfl⟩
  unfold Sound at h ⊢
  unfold paramSet
  simp only
  generalize hs : (if kind n = 7 then n else s.sps) = sps
  generalize hp : (if kind n = 8 then n else s.pps) = pps
  by_cases hi : s.init = none
  · by_cases hb : sps ≠ [] ∧ pps ≠ []
    · rw [if_pos ⟨hi, hb⟩]
      simp [hb]
    · rw [if_neg (fun c => hb c.2)]
      exact ⟨fun _ => hb, fun _ => hi⟩
  · have hb : s.sps ≠ [] ∧ s.pps ≠ [] := Classical.byContradiction fun c => hi (h.2 c)
    rw [if_neg (fun c => hi c.1)]
    have : sps ≠ [] ∧ pps ≠ [] := by
      rw [← hs, ← hp]
      constructor
      · split
        · exact hn
        · exact hb.1
      · split
        · exact hn
        · exact hb.2
    exact ⟨fun c => absurd c hi, fun c => absurd this c⟩

theorem feed_media (e : Env) : ∀ (l : List (Bytes × Nat)) (s : St), Sound s →
    (feed e s l).map (·.nal) = Spec.media (decide (s.sps ≠ [])) (decide (s.pps ≠ [])) (l.map fun x => Spec.trim x.1)
    ∧ ∀ p ∈ feed e s l, p.key = e.key p.nal := by
  intro l
  induction l with
  | nil => intro s _; exact ⟨rfl, by intro p hp; cases hp⟩
  | cons x t ih =>
    intro s hs
    obtain ⟨x, now⟩ := x
    simp only [feed, List.map_cons, Spec.media]
    rw [unit_eq]
    generalize Spec.trim x = n
    by_cases hn : n = []
    · rw [if_pos hn, if_pos hn]
      exact ih s hs
    · rw [if_neg hn, if_neg hn, kind_eq hn]
      by_cases h7 : Spec.kind n = 7
      · have hk : kind n = 7 := by rw [kind_eq hn, h7]
        obtain ⟨a, b, c⟩ := sound_param (e := e) hs (Or.inl hk) hn
        rw [if_pos (Or.inl h7), if_pos h7]
        have := ih (paramSet e s n) a
        rw [b, c, if_pos hk, if_neg (by omega), decide_eq_true hn] at this
        exact this
      · by_cases h8 : Spec.kind n = 8
        · have hk : kind n = 8 := by rw [kind_eq hn, h8]
          obtain ⟨a, b, c⟩ := sound_param (e := e) hs (Or.inr hk) hn
          rw [if_pos (Or.inr h8), if_neg h7, if_pos h8]
          have := ih (paramSet e s n) a
          rw [b, c, if_neg (by omega), if_pos hk, decide_eq_true hn] at this
          exact this
        · rw [if_neg (by omega), if_neg h7, if_neg h8]
          cases hi : s.init with
          | none =>
            have hb := hs.1 hi
            rw [if_neg (by
              intro c
              rw [Bool.and_eq_true, decide_eq_true_eq, decide_eq_true_eq] at c
              exact hb c)]
            exact ih s hs
          | some i =>
            have hb : s.sps ≠ [] ∧ s.pps ≠ [] := Classical.byContradiction fun c => by rw [hs.2 c] at hi; cases hi
            rw [if_pos (by rw [decide_eq_true hb.1, decide_eq_true hb.2]; rfl)]
            have := ih { s with count := s.count + 1 } hs
            rw [hi] at this
            simp only [Option.toList_some, List.singleton_append, List.map_cons, List.mem_cons]
            refine ⟨by rw [this.1], ?_⟩
            rintro p (rfl | hp)
            · rfl
            · exact this.2 p hp

theorem served_prefix : ∀ (evs : List (Spec.Read × Nat)) (q : List Bytes) (p : Bytes),
    ((served q p evs).map (·.1)) <+: q ++ Spec.units p (evs.map (·.1)) := by
  intro evs
  induction evs with
  | nil => intro q p; exact List.nil_prefix
  | cons ev t ih =>
    intro q p
    obtain ⟨r, now⟩ := ev
    have hu : q ++ Spec.units p (r :: t.map (·.1)) = (q ++ added p r.ends) ++ Spec.units (left p r) (t.map (·.1)) := by
      simp only [Spec.units, left]
      cases h : r.ends with
      | nil => simp [added]
      | cons a as => simp [added]
    simp only [List.map_cons, served]
    rw [hu]
    cases hq : q ++ added p r.ends with
    | nil => exact ih [] (left p r)
    | cons x q' =>
      simp only [List.map_cons, List.cons_append]
      exact List.cons_prefix_cons.2 ⟨rfl, ih q' (left p r)⟩

theorem served_all : ∀ (evs : List (Spec.Read × Nat)) (p : Bytes), (∀ ev ∈ evs, ev.1.ends.length ≤ 1) →
    (served [] p evs).map (·.1) = Spec.units p (evs.map (·.1)) := by
  intro evs
  induction evs with
  | nil => intro p _; rfl
  | cons ev t ih =>
    intro p h
    obtain ⟨r, now⟩ := ev
    have h1 := h (r, now) (by simp)
    have ht : ∀ ev ∈ t, ev.1.ends.length ≤ 1 := fun ev hv => h ev (by simp [hv])
    simp only at h1
    simp only [List.map_cons, served, Spec.units, left, List.nil_append]
    cases he : r.ends with
    | nil => simpa [added] using ih (p ++ r.rest) ht
    | cons a as =>
      rw [he] at h1
      cases as with
      | nil => simpa [added] using ih r.rest ht
      | cons b bs => simp only [List.length_cons] at h1; omega

theorem served_length : ∀ (evs : List (Spec.Read × Nat)) (q : List Bytes) (p : Bytes), (served q p evs).length = Spec.taken q.length (evs.map (·.1)) := by
  intro evs
  induction evs with
  | nil => intro q p; rfl
  | cons ev t ih =>
    intro q p
    obtain ⟨r, now⟩ := ev
    have ha : (added p r.ends).length = r.ends.length := by cases r.ends <;> rfl
    have hl : (q ++ added p r.ends).length = q.length + r.ends.length := by rw [List.length_append, ha]
    simp only [List.map_cons, served, Spec.taken]
    cases hq : q ++ added p r.ends with
    | nil =>
      rw [hq] at hl
      rw [if_pos (by simpa using hl.symm)]
      exact ih [] (left p r)
    | cons x q' =>
      rw [hq, List.length_cons] at hl
      rw [if_neg (by omega)]
      simp only [List.length_cons]
      rw [ih q' (left p r), ← hl, Nat.add_sub_cancel, Nat.add_comm]

theorem boot_sound : Sound boot := ⟨fun _ c => c.1 rfl, fun _ => rfl⟩

/-- C116, for streams whose start codes are not cut apart between reads: whatever the reads, the packets are the media units among the first units of the stream,
in order and unchanged, each with the key flag of its own data. How many of the units: each read takes one if there is one, see `C116_lost_fails`. -/
theorem C116_prefix_partial (e : Env) (evs : List (Spec.Read × Nat)) (hok : ∀ ev ∈ evs, ev.1.Ok) (hlen : (evs.map fun ev => ev.1.bytes.length).sum < 2 ^ 32) :
    (run e boot (evs.map fun ev => (ev.1.bytes, ev.2))).map (·.nal)
      = Spec.media false false (((Spec.units [] (evs.map (·.1))).take (Spec.taken 0 (evs.map (·.1)))).map Spec.trim)
    ∧ ∀ p ∈ run e boot (evs.map fun ev => (ev.1.bytes, ev.2)), p.key = e.key p.nal := by
  have h := run_served e evs boot [] [] hok rfl rfl (by simpa [boot, Buf.contents] using hlen)
  rw [h]
  have hm := feed_media e (served [] [] evs) boot boot_sound
  refine ⟨?_, hm.2⟩
  have hp := served_prefix evs [] []
  rw [List.nil_append, List.prefix_iff_eq_take] at hp
  rw [List.length_map, served_length] at hp
  refine hm.1.trans ?_
  refine congrArg (Spec.media false false) ?_
  refine Eq.trans ?_ (congrArg (List.map Spec.trim) hp)
  rw [List.map_map]
  rfl

/-- C116, for streams whose start codes are not cut apart between reads and of which no read completes more than one unit: every complete unit that carries media
becomes one packet, in order and unchanged. -/
theorem C116_all_partial (e : Env) (evs : List (Spec.Read × Nat)) (hok : ∀ ev ∈ evs, ev.1.Ok) (hlen : (evs.map fun ev => ev.1.bytes.length).sum < 2 ^ 32)
    (hone : ∀ ev ∈ evs, ev.1.ends.length ≤ 1) :
    (run e boot (evs.map fun ev => (ev.1.bytes, ev.2))).map (·.nal) = Spec.media false false ((Spec.units [] (evs.map (·.1))).map Spec.trim) := by
  have h := run_served e evs boot [] [] hok rfl rfl (by simpa [boot, Buf.contents] using hlen)
  rw [h]
  have hm := (feed_media e (served [] [] evs) boot boot_sound).1
  rw [hm, ← served_all evs [] hone, List.map_map]
  rfl

/-- The rate of the track is `f`, and the stored sequence parameter set is one. -/
def Rated (f : Nat) (s : St) : Prop := (∀ i, s.init = some i → i.2.2 = f) ∧ (s.sps ≠ [] → Spec.kind s.sps = 7)

theorem unit_count (e : Env) (f : Nat) (hf : ∀ x, Spec.kind x = 7 → e.fpks x = f) (h0 : f ≠ 0) (s : St) (x : Bytes) (now : Nat) (hi : Rated f s) :
    Rated f (nalUnit e now s x).1 ∧
    (((nalUnit e now s x).2 = none ∧ (nalUnit e now s x).1.count = s.count)
      ∨ ∃ p, (nalUnit e now s x).2 = some p ∧ p.time = s.count * (1000000 / f) ∧ (nalUnit e now s x).1.count = s.count + 1) := by
  unfold nalUnit
  simp only
  generalize strip (x.take (x.length - 3)) = n
  by_cases h : n = []
  · rw [if_pos h]; exact ⟨hi, Or.inl ⟨rfl, rfl⟩⟩
  · rw [if_neg h]
    by_cases h7 : kind n = 7 ∨ kind n = 8
    · rw [if_pos h7]
      refine ⟨?_, Or.inl ⟨rfl, rfl⟩⟩
      have hk : (if kind n = 7 then n else s.sps) ≠ [] → Spec.kind (if kind n = 7 then n else s.sps) = 7 := by
        by_cases c : kind n = 7
        · rw [if_pos c]
          intro _
          rw [← kind_eq h, c]
        · rw [if_neg c]
          exact hi.2
      refine ⟨?_, hk⟩
      intro i hh
      unfold paramSet at hh
      simp only at hh
      generalize (if kind n = 7 then n else s.sps) = a at hh hk
      generalize (if kind n = 8 then n else s.pps) = b at hh
      by_cases c : s.init = none ∧ a ≠ [] ∧ b ≠ []
      · rw [if_pos c] at hh
        rw [← Option.some.inj hh]
        exact hf _ (hk c.2.1)
      · rw [if_neg c] at hh
        exact hi.1 i hh
    · rw [if_neg h7]
      cases hs : s.init with
      | none => exact ⟨hi, Or.inl ⟨rfl, rfl⟩⟩
      | some i =>
        have := hi.1 i hs
        refine ⟨⟨?_, hi.2⟩, Or.inr ⟨_, rfl, ?_, rfl⟩⟩
        · intro j hj
          exact hi.1 j (hs.trans hj)
        · simp only
          rw [this, if_neg h0]

theorem step_count (e : Env) (s : St) (ev : Bytes × Nat) (f : Nat) (hf : ∀ x, Spec.kind x = 7 → e.fpks x = f) (h0 : f ≠ 0) (hi : Rated f s) :
    Rated f (step e s ev).1 ∧
    (((step e s ev).2 = none ∧ (step e s ev).1.count = s.count) ∨ ∃ p, (step e s ev).2 = some p ∧ p.time = s.count * (1000000 / f) ∧ (step e s ev).1.count = s.count + 1) := by
  unfold step
  by_cases c : ev.1 = []
  · rw [if_pos c]; exact ⟨hi, Or.inl ⟨rfl, rfl⟩⟩
  · rw [if_neg c]
    simp only
    by_cases d : (s.buf.append ev.1).bytesToSplit = 0
    · rw [if_pos d]; exact ⟨hi, Or.inl ⟨rfl, rfl⟩⟩
    · rw [if_neg d]
      exact unit_count e f hf h0 { s with buf := _ } _ _ hi

theorem run_times (e : Env) (f : Nat) (hf : ∀ x, Spec.kind x = 7 → e.fpks x = f) (h0 : f ≠ 0) : ∀ (evs : List (Bytes × Nat)) (s : St), Rated f s →
    (run e s evs).map (·.time) = (List.range' s.count (run e s evs).length).map (· * (1000000 / f)) := by
  intro evs
  induction evs with
  | nil => intro s _; rfl
  | cons ev t ih =>
    intro s hi
    obtain ⟨h1, h2⟩ := step_count e s ev f hf h0 hi
    simp only [run]
    rcases h2 with ⟨a, b⟩ | ⟨p, a, b, c⟩
    · rw [a]
      simp only [Option.toList_none, List.nil_append]
      rw [ih _ h1, b]
    · rw [a]
      simp only [Option.toList_some, List.singleton_append, List.map_cons, List.length_cons, List.range'_succ]
      rw [ih _ h1, b, c]

/-- C116, times, for any data in any reads: when the sequence parameter sets tell a rate, packet `k` has the time of `k` times the (whole) milliseconds of a frame.
That packets are units and not frames see `C116_slices_fails`. -/
theorem C116_times (e : Env) (f : Nat) (hf : ∀ x, Spec.kind x = 7 → e.fpks x = f) (h0 : f ≠ 0) (evs : List (Bytes × Nat)) :
    (run e boot evs).map (·.time) = (List.range (run e boot evs).length).map (· * (1000000 / f)) := by
  rw [List.range_eq_range']
  exact run_times e f hf h0 evs boot ⟨(by intro i h; cases h), fun c => absurd rfl c⟩

/-! ## Cases -/

/-- 25 frames per second; type 5 is a key frame. -/
def env : Env := { fpks := fun _ => 25000, key := fun n => kind n == 5 }

/-- Start code, both parameter sets, a key frame in two reads, another frame, the start of a third one. -/
def stream : List (Spec.Read × Nat) :=
  [({ ends := [[0]], rest := [0x67, 1, 2, 0] }, 1), ({ ends := [[]], rest := [0x68, 3] }, 2), ({ ends := [[4]], rest := [0x65, 9] }, 3),
   ({ ends := [], rest := [8, 7] }, 4), ({ ends := [[6, 0]], rest := [0x41, 5] }, 5), ({ ends := [[5, 0]], rest := [0x41] }, 6)]

theorem rest_ok (x : Bytes) (h : ∀ k < x.length, (x.drop k).take 3 ≠ Spec.code) (k : Nat) : (x.drop k).take 3 ≠ Spec.code := by
  rcases Nat.lt_or_ge k x.length with c | c
  · exact h k c
  · rw [List.drop_eq_nil_of_le c]; decide

/-- The hypotheses are met, and two packets come out. -/
example : (∀ ev ∈ stream, ev.1.Ok) ∧ (∀ ev ∈ stream, ev.1.ends.length ≤ 1)
    ∧ Spec.media false false ((Spec.units [] (stream.map (·.1))).map Spec.trim) = [[0x65, 9, 8, 7, 6], [0x41, 5, 5]] := by
  refine ⟨?_, by decide, by decide +kernel⟩
  intro ev hev
  simp only [stream, List.mem_cons, List.not_mem_nil, or_false] at hev
  rcases hev with rfl | rfl | rfl | rfl | rfl | rfl <;>
    exact ⟨by decide +kernel, fun k => rest_ok _ (by decide +kernel) k, by decide +kernel, by decide +kernel⟩

/-- Both parameter sets, as read one by one before the cases below. -/
def sets : List (Bytes × Nat) := [([0, 0, 1], 1), ([0x67, 1, 0, 0, 1], 2), ([0x68, 3, 0, 0, 1], 3)]

/-- The same. -/
def setReads : List (Spec.Read × Nat) := [({ ends := [[]], rest := [] }, 1), ({ ends := [[0x67, 1]], rest := [] }, 2), ({ ends := [[0x68, 3]], rest := [] }, 3)]

/-- `Read.Ok`, to be evaluated. -/
def okB (r : Spec.Read) : Bool :=
  r.ends.all (fun x => (List.range x.length).all fun k => ((x ++ Spec.code).drop k).take 3 != Spec.code)
    && (List.range r.rest.length).all (fun k => (r.rest.drop k).take 3 != Spec.code) && r.bytes != [] && decide (r.bytes.length ≤ 4096)

theorem okB_ok {r : Spec.Read} (h : okB r = true) : r.Ok := by
  simp only [okB, Bool.and_eq_true, List.all_eq_true, List.mem_range, bne_iff_ne, decide_eq_true_eq] at h
  exact ⟨h.1.1.1, fun k => rest_ok _ h.1.1.2 k, h.1.2, h.2⟩

theorem run_case (evs : List (Spec.Read × Nat)) (h : evs.all (fun ev => okB ev.1) = true) (hl : (evs.map fun ev => ev.1.bytes.length).sum < 2 ^ 32) :
    run env boot (evs.map fun ev => (ev.1.bytes, ev.2)) = feed env boot (served [] [] evs) :=
  run_served env evs boot [] [] (fun ev hv => okB_ok (List.all_eq_true.1 h ev hv)) rfl rfl (by simpa [boot, Buf.contents] using hl)

/-- Units that come at once are taken one by one when later reads come: three at once, two short reads, and all of them were taken. -/
example : (run env boot (sets ++ [([0x65, 9, 0, 0, 1, 0x41, 5, 0, 0, 1, 0x41, 6, 0, 0, 1], 5), ([0x41], 6), ([7], 7)])).map (·.nal) = [[0x65, 9], [0x41, 5], [0x41, 6]]
    ∧ Spec.taken 0 [{ ends := [[0x65, 9], [0x41, 5], [0x41, 6]], rest := [] }, { ends := [], rest := [0x41] }, { ends := [], rest := [7] }] = 3 := by
  refine ⟨?_, by decide +kernel⟩
  have h := run_case (setReads ++ [({ ends := [[0x65, 9], [0x41, 5], [0x41, 6]], rest := [] }, 5), ({ ends := [], rest := [0x41] }, 6), ({ ends := [], rest := [7] }, 7)])
    (by decide +kernel) (by decide +kernel)
  refine (congrArg (List.map (·.nal)) h).trans ?_
  decide +kernel



/-! ## What the code does not do -/

/-- A start code that two reads cut apart is not found: two units become one packet, with the start code inside. -/
theorem C116_split_fails : (run env boot (sets ++ [([0x65, 9, 0], 5), ([0, 1, 0x41, 5, 0, 0, 1], 6), ([0x41, 0, 0, 1], 7)])).map (·.nal)
    = [[0x65, 9, 0, 0, 1, 0x41, 5], [0x41]] := by
  have h := run_case (setReads ++ [({ ends := [], rest := [0x65, 9, 0] }, 5), ({ ends := [[0, 1, 0x41, 5]], rest := [] }, 6), ({ ends := [[0x41]], rest := [] }, 7)])
    (by decide +kernel) (by decide +kernel)
  refine (congrArg (List.map (·.nal)) h).trans ?_
  decide +kernel

/-- One unit is taken per read: the units that are left in the buffer when the data ends are lost, complete as they are. -/
theorem C116_lost_fails : (run env boot (sets ++ [([0x65, 9, 0, 0, 1, 0x41, 5, 0, 0, 1, 0x41, 6, 0, 0, 1], 5)])).map (·.nal) = [[0x65, 9]] := by
  have h := run_case (setReads ++ [({ ends := [[0x65, 9], [0x41, 5], [0x41, 6]], rest := [] }, 5)]) (by decide +kernel) (by decide +kernel)
  refine (congrArg (List.map (·.nal)) h).trans ?_
  decide +kernel

/-- The last unit, with no start code behind it, never becomes a packet. -/
theorem C116_last_fails : (run env boot (sets ++ [([0x65, 9, 0, 0, 1, 0x41, 5], 5), ([6], 6)])).map (·.nal) = [[0x65, 9]] := by
  have h := run_case (setReads ++ [({ ends := [[0x65, 9]], rest := [0x41, 5] }, 5), ({ ends := [], rest := [6] }, 6)]) (by decide +kernel) (by decide +kernel)
  refine (congrArg (List.map (·.nal)) h).trans ?_
  decide +kernel

/-- Two slices of one frame (first macroblock 0, and another one: the first bit of the slice header tells) get different times: units are counted, not frames. -/
theorem C116_slices_fails : (run env boot (sets ++ [([0x65, 0x88, 0, 0, 1], 5), ([0x65, 0x48, 0, 0, 1], 6)])).map (fun p => (p.nal, p.time))
    = [([0x65, 0x88], 0), ([0x65, 0x48], 40)] := by
  have h := run_case (setReads ++ [({ ends := [[0x65, 0x88]], rest := [] }, 5), ({ ends := [[0x65, 0x48]], rest := [] }, 6)]) (by decide +kernel) (by decide +kernel)
  refine (congrArg (List.map fun p : Pkt => (p.nal, p.time)) h).trans ?_
  decide +kernel

end Verif.H264In
