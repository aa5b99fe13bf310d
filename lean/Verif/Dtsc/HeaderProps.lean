import Verif.Dtsc.HeaderTrack

/-!
# Headers: the length announced (C33), and loading what was sent (C61)
-/
namespace Verif.Dtsc
open Spec Verif.Bit Verif.Json
open Verif.Index (Tab Part Key Frag)

variable {bits : Dbl → Nat}

/-- C33 for selections with at least one track, where every selected track has a packet, and headers below 4 GiB: what goes
to the connection starts with "DTSC" and the number of the bytes that follow these eight, whatever the stream, its tracks
and the selection are, and whether the tables are sent or left out.
Missing: empty selections, tracks without packets, and headers of 4 GiB or more, for which the number is wrong (below). -/
theorem C33_header_length_partial (name : Nat → Info → Bytes) (m : Stream) (skip reID : Bool) (sel : List Nat) (h0 : sel ≠ [])
    (hs : sel.Nodup) (hn : (m.tracks.map (·.1)).Nodup) (hp : ∀ i ∈ sel, ∃ t, m.tracks.lookup i = some t ∧ t.parts.pres ≠ 0) :
    ∃ out, send name m skip sel reID = some out ∧ out.take 4 = [68, 84, 83, 67] ∧ load .l out 4 = some ((out.length - 8) % 2 ^ 32) := by
  obtain ⟨x, hx, hl⟩ := tracks_length name m skip reID hn sel hs fun i hi => (hp i hi).elim fun t ht => ⟨t, ht.1⟩
  have hq : ∀ y ∈ m.tracks, y.1 ∈ sel → y.2.parts.pres ≠ 0 := by
    intro y hy hm
    obtain ⟨t, ht, hz⟩ := hp y.1 hm
    have : m.tracks.lookup y.1 = some y.2 := by
      clear hx hl hp ht hz
      revert hn hy
      generalize m.tracks = l
      intro hn hy
      induction l with
      | nil => cases hy
      | cons a r ih =>
        rw [List.map_cons, List.nodup_cons] at hn
        rw [List.lookup_cons]
        rcases List.mem_cons.mp hy with rfl | hy
        · simp
        · have : (y.1 == a.1) = false := by
            simp only [beq_eq_false_iff_ne, ne_eq]
            intro e
            exact hn.1 (List.mem_map.mpr ⟨y, hy, e⟩)
          rw [this]
          exact ih hn.2 hy
    rw [this] at ht
    rw [Option.some.inj ht]
    exact hz
  have ht := tracksLen_sel name skip sel h0 m.tracks hq
  have hh := head_length m
  rw [send, hx, Option.map_some]
  refine ⟨_, rfl, rfl, ?_⟩
  have hlen : sendLen name m skip sel = 34 + (if m.vod then 14 else 0) + (if m.live then 15 else 0) + (if m.live ∨ m.utc ≠ 0 then 19 else 0) + x.length + 8 := by
    rw [sendLen, ht, hl]
  have hd : (magicHead ++ htob .l (varsLen m + sendLen name m skip sel - 8) ++ [0xE0] ++ sendHead m ++ Lit.tracks ++ x ++ [0, 0, 0xEE] ++ [0, 0, 0xEE]).drop 4 =
      htob .l (varsLen m + sendLen name m skip sel - 8) ++ ([0xE0] ++ sendHead m ++ Lit.tracks ++ x ++ [0, 0, 0xEE] ++ [0, 0, 0xEE]) := by
    simp only [List.append_assoc]
    exact List.drop_left (l₁ := magicHead)
  rw [load_be .l rfl _ hd, show (256 : Nat) ^ Codec.l.width = 2 ^ 32 by decide]
  congr 2
  simp only [List.length_append, htob_length, len_tracks, List.length_cons, List.length_nil, hh, show magicHead.length = 4 from rfl,
    show Codec.l.width = 4 from rfl]
  generalize (if m.vod then 14 else 0) = a1 at *
  generalize (if m.live then 15 else 0) = a2 at *
  generalize (if m.live ∨ m.utc ≠ 0 then 19 else 0) = a3 at *
  omega

/-- A text for a track, for the examples. -/
def sampleName (i : Nat) (_ : Info) : Bytes := [116, UInt8.ofNat (48 + i)]

/-- A sound track with two packets in one key and one fragment. -/
def sampleTrack : Trk where
  info := { type := Names.audio, codec := [65, 65, 67], init := [18, 16], lang := [101, 110, 103], id := 257, firstms := 10, lastms := 30, bps := 5,
            maxbps := 6, rate := 44100, size := 16, channels := 2, width := 0, height := 0, fpks := 0, efpks := 0, missed := 0 }
  frags := filled Frag.zero [⟨40, 1, 0, 300⟩]
  keys := filled Key.zero [⟨0, 7, 40, 0, 2, 10, 300⟩]
  parts := filled Part.zero [⟨100, 20, 0⟩, ⟨200, 20, -5⟩]

/-- A stream with that track and one without packets. -/
def sampleStream : Stream where
  vod := true
  live := false
  utc := 5
  boot := 0
  vars := some [123, 125]
  tracks := [(1, { sampleTrack with frags := fresh Frag.zero 2, keys := fresh Key.zero 2, parts := fresh Part.zero 2 }), (4, sampleTrack)]

example : ∃ out, send sampleName sampleStream false [4] true = some out ∧ out.take 4 = [68, 84, 83, 67] ∧
    load .l out 4 = some ((out.length - 8) % 2 ^ 32) :=
  C33_header_length_partial sampleName sampleStream false true [4] (by decide) (by decide) (by decide)
    (by intro i hi; rw [List.mem_singleton] at hi; subst hi; exact ⟨sampleTrack, rfl, by decide⟩)

/-- C33, disagreement: with an empty selection the number counts the tracks of the stream, none of which is sent. -/
theorem C33_empty_selection_fails : ∃ out n, send sampleName sampleStream false [] false = some out ∧ load .l out 4 = some n ∧
    n > out.length - 8 := by
  refine ⟨_, _, rfl, rfl, ?_⟩
  decide +kernel

/-- C33, disagreement: a selected track without packets is sent but not counted. -/
theorem C33_no_packets_fails : ∃ out n, send sampleName sampleStream false [1] false = some out ∧ load .l out 4 = some n ∧
    n < out.length - 8 := by
  refine ⟨_, _, rfl, rfl, ?_⟩
  decide +kernel

/-! ## Loading -/

section
variable (name : Nat → Info → Bytes) (m : Stream) (skip reID : Bool) (l : List (Nat × Trk))

theorem hd_tracks : member (headerVal name m skip reID l) Names.tracks = some (.obj (tracksVal name skip reID l)) := by
  show List.lookup _ (headVal m ++ _) = _
  unfold headVal
  repeat' split
  all_goals rfl

theorem hd_vod : member (headerVal name m skip reID l) Names.vod = if m.vod then some (num 1) else none := by
  show List.lookup _ (headVal m ++ _) = _
  unfold headVal
  repeat' split
  all_goals first | rfl | contradiction

theorem hd_live : member (headerVal name m skip reID l) Names.live = if m.live then some (num 1) else none := by
  show List.lookup _ (headVal m ++ _) = _
  unfold headVal
  repeat' split
  all_goals first | rfl | contradiction

theorem hd_version : member (headerVal name m skip reID l) Names.version = some (num 4) := by
  show List.lookup _ (headVal m ++ _) = _
  unfold headVal
  repeat' split
  all_goals rfl

theorem hd_zero : member (headerVal name m skip reID l) Names.unixzero =
    if m.live ∨ m.utc ≠ 0 then some (num (if m.live then m.boot else m.utc)) else none := by
  show List.lookup _ (headVal m ++ _) = _
  unfold headVal
  repeat' split
  all_goals first | rfl | contradiction

theorem hd_vars : member (headerVal name m skip reID l) Names.inputLocalVars = m.vars.map .str := by
  show List.lookup _ (headVal m ++ _) = _
  unfold headVal
  cases m.vars <;> dsimp only <;> repeat' split
  all_goals rfl

end

theorem room_header (name : Nat → Info → Bytes) (m : Stream) (skip reID : Bool) (l : List (Nat × Trk)) (hs : Sendable name m l) :
    Room (headerVal name m skip reID l) := by
  have ht : RoomMembers (tracksVal name skip reID l) := by
    have h1 := hs.track
    have h2 := hs.tables
    clear hs
    induction l with
    | nil => exact room_nil
    | cons t r ih =>
      rw [tracksVal, List.map_cons, RoomMembers]
      obtain ⟨hi, _, h0, hn⟩ := h1 t List.mem_cons_self
      exact ⟨⟨h0, hn⟩, by rw [Room]; exact room_track skip reID t.1 t.2 hi (h2 t List.mem_cons_self),
        ih (fun x hx => h1 x (List.mem_cons_of_mem _ hx)) fun x hx => h2 x (List.mem_cons_of_mem _ hx)⟩
  rw [headerVal, Room]
  refine room_append _ _ ?_ (by rw [RoomMembers]; exact ⟨by dsimp only; decide, by rw [Room]; exact ht, room_nil⟩)
  unfold headVal
  refine room_append _ _ (room_append _ _ (room_append _ _ (room_append _ _ ?_ ?_) ?_) ?_) ?_
  · split
    · exact room_num _ (by decide) room_nil
    · exact room_nil
  · split
    · exact room_num _ (by decide) room_nil
    · exact room_nil
  · exact room_num _ (by decide) room_nil
  · split
    · exact room_num _ (by decide) room_nil
    · exact room_nil
  · split
    · exact room_nil
    · rename_i v hv
      exact room_str (hs.vars v hv) (by decide) room_nil

theorem pack_member_le (l : List (Bytes × JVal)) (x : Bytes × JVal) (h : x ∈ l) (h0 : 0 < x.1.length) :
    (pack bits x.2).length < (pack bits (.obj l)).length := by
  have : (pack bits x.2).length ≤ (packMembers bits l).length := by
    induction l with
    | nil => cases h
    | cons y r ih =>
      rw [packMembers, List.length_append]
      rcases List.mem_cons.mp h with rfl | h
      · rw [if_pos h0]; simp only [List.length_append]; omega
      · have := ih h; omega
  rw [pack]
  simp only [List.length_cons, List.length_append]
  omega

/-- The stream's settings and the tracks with numbers from `sel` are what loading gives. -/
structure SameStream (m : Stream) (skip reID : Bool) (l : List (Nat × Trk)) (h : Loaded) : Prop where
  vod : h.vod = m.vod
  live : h.live = m.live
  version : h.version = 4
  zero : h.zero = if m.live then some m.boot else if m.utc ≠ 0 then some m.utc else none
  vars : h.vars = m.vars
  count : h.tracks.length = l.length
  track : ∀ (i : Nat) (t : Nat × Trk), l[i]? = some t → ∃ u, h.tracks[i]? = some u ∧
    SameInfo t.2.info u.info (if reID then t.1 + 1 else t.2.info.id) ∧ (skip = false → SameTables t.2 u)

theorem load_scan (name : Nat → Info → Bytes) (m : Stream) (skip reID : Bool) (l : List (Nat × Trk)) (hs : Sendable name m l)
    (hf : ∀ t ∈ l, TableFits t.2 ∧ t.1 + 1 < 2 ^ 32) (buf : Bytes) (s : Scan) (hv : Views bits buf s (headerVal name m skip reID l)) (n : Nat)
    (hn : (pack bits (headerVal name m skip reID l)).length < n) : ∃ h, loadScan n buf s = .ok h ∧ SameStream m skip reID l h := by
  have hr := room_header name m skip reID l hs
  obtain ⟨tr, htr, hw⟩ := C58_member _ hr buf s hv Names.tracks (by decide) n hn
  rw [hd_tracks] at hw
  have hrt : Room (.obj (tracksVal name skip reID l)) := room_step (bits := bits) _ _ hr (.name Names.tracks) (hd_tracks name m skip reID l) |>.1
  have hnt : (pack bits (.obj (tracksVal name skip reID l))).length < n := by
    have h := pack_member_le (bits := bits) (headVal m ++ [(Names.tracks, .obj (tracksVal name skip reID l))])
      (Names.tracks, .obj (tracksVal name skip reID l)) (by simp) (by dsimp only; decide)
    rw [headerVal] at hn
    exact Nat.lt_trans h hn
  have hsz : getSize n buf tr = .ok l.length := by
    rw [C58_size _ hrt buf tr hw n hnt, size, tracksVal, List.length_map]
  have hvod : intOf n buf s Names.vod = .ok (if m.vod then 1 else 0) := by
    have h := hd_vod name m skip reID l
    cases hb : m.vod
    · rw [hb, if_neg (by decide)] at h; exact intOf_none hr hv hn (by decide) h
    · rw [hb, if_pos rfl] at h; exact intOf_some hr hv hn (by decide) h (by decide)
  have hlive : intOf n buf s Names.live = .ok (if m.live then 1 else 0) := by
    have h := hd_live name m skip reID l
    cases hb : m.live
    · rw [hb, if_neg (by decide)] at h; exact intOf_none hr hv hn (by decide) h
    · rw [hb, if_pos rfl] at h; exact intOf_some hr hv hn (by decide) h (by decide)
  have hver := intOf_some hr hv hn (by decide) (hd_version name m skip reID l) (by decide)
  have hvar : strOf n buf s Names.inputLocalVars = .ok (m.vars.getD []) := by
    have h := hd_vars name m skip reID l
    cases hb : m.vars with
    | none => rw [hb] at h; exact strOf_none hr hv hn (by decide) h
    | some v => rw [hb] at h; exact strOf_some hr hv hn (by decide) h (hs.vars v hb)
  have hzero : intOf n buf s Names.unixzero = .ok (if m.live ∨ m.utc ≠ 0 then (if m.live then m.boot else m.utc) else 0) := by
    have h := hd_zero name m skip reID l
    by_cases hb : m.live ∨ m.utc ≠ 0
    · rw [if_pos hb] at h ⊢; exact intOf_some hr hv hn (by decide) h (by split; exact hs.boot; exact hs.utc)
    · rw [if_neg hb] at h ⊢; exact intOf_none hr hv hn (by decide) h
  -- the tracks, one by one
  have one : ∀ (i : Nat) (t : Nat × Trk), l[i]? = some t → ∃ u, ((getIndice n buf tr i).bind fun t => loadTrack n buf (t.map (·.2))) = .ok u ∧
      SameInfo t.2.info u.info (if reID then t.1 + 1 else t.2.info.id) ∧ (skip = false → SameTables t.2 u) := by
    intro i t hi
    have hmem : t ∈ l := List.mem_of_getElem? hi
    have hnth : nth (.obj (tracksVal name skip reID l)) i = some (name t.1 t.2.info, .obj (trackMembers skip reID t.1 t.2)) := by
      rw [nth, tracksVal, List.getElem?_map, hi, Option.map_some]
    obtain ⟨q, hq, hat⟩ := C58_place _ hrt buf tr hw i n hnt
    rw [hnth] at hat
    obtain ⟨q', rfl, hview⟩ := hat
    have hn' : (pack bits (.obj (trackMembers skip reID t.1 t.2))).length < n := Nat.lt_trans
      (pack_member_le (tracksVal name skip reID l) (name t.1 t.2.info, .obj (trackMembers skip reID t.1 t.2))
        (List.mem_map.mpr ⟨t, hmem, rfl⟩) (hs.track t hmem).2.2.1) hnt
    rw [hq, R.bind]
    exact load_track skip reID t.1 (hf t hmem).2 t.2 (hs.track t hmem).1 (hf t hmem).1 buf (some q') hview n hn'
  have hex : ∃ g : Nat → Trk, ∀ i, i < l.length → ((getIndice n buf tr i).bind fun t => loadTrack n buf (t.map (·.2))) = .ok (g i) := by
    refine ⟨fun i => match (getIndice n buf tr i).bind fun t => loadTrack n buf (t.map (·.2)) with
      | .ok u => u
      | _ => sampleTrack, fun i hi => ?_⟩
    obtain ⟨u, hu, _⟩ := one i _ (List.getElem?_eq_getElem hi)
    dsimp only
    rw [hu]
  obtain ⟨g, hg⟩ := hex
  have hall := readAll_ok _ g l.length hg
  unfold loadScan
  rw [htr, R.bind, hsz, R.bind, hvod, R.bind, hlive, R.bind, hver, R.bind, has_eq hr hv hn (by decide), R.bind, hvar, R.bind, hall, R.bind,
    has_eq hr hv hn (by decide), R.bind, hzero, R.bind, hd_vars, hd_zero]
  refine ⟨_, rfl, ?_, ?_, rfl, ?_, ?_, ?_, ?_⟩
  · cases m.vod <;> rfl
  · cases m.live <;> rfl
  · by_cases hb : m.live = true
    · simp [hb]
    · by_cases hu : m.utc = 0
      · simp [hb, hu]
      · simp [hb, hu]
  · cases m.vars <;> rfl
  · show ((List.range l.length).map g).length = _
    rw [List.length_map, List.length_range]
  · intro i t hi
    have hlt : i < l.length := by
      rcases Nat.lt_or_ge i l.length with h | h
      · exact h
      · rw [List.getElem?_eq_none h] at hi; cases hi
    refine ⟨g i, by show ((List.range l.length).map g)[i]? = _; rw [List.getElem?_map, List.getElem?_range hlt]; rfl, ?_⟩
    obtain ⟨u, hu, hsame⟩ := one i t hi
    rw [hg i hlt] at hu
    rw [R.ok.inj hu]
    exact hsame

/-- C61 for streams whose numbers fit the format and from which nothing was removed: the file that
`toFile` writes for the selected tracks is loaded again as the same stream. The settings and all tracks come back in
order, each with its fields, and (if they are not left out) with the same fragments, keys and packets, for every number of
them. `l` are the selected tracks with their numbers.
Missing: tracks from which keys were removed, since the positions of their keys are wrong and their fragments refer to
other keys then (below); durations of keys from 2^24 ms on, keys with 2^16 packets, fragments with 256 keys and packets of 16 MiB, which the format
cuts off; and the number of fragments dropped so far, which is sent but not loaded. -/
theorem C61_header_round_trip_partial (name : Nat → Info → Bytes) (m : Stream) (skip reID : Bool) (sel : List Nat) (l : List (Nat × Trk))
    (hc : chosen m sel l) (h0 : sel ≠ []) (hd : sel.Nodup) (hm : (m.tracks.map (·.1)).Nodup) (hs : Sendable name m l)
    (hf : ∀ t ∈ l, TableFits t.2 ∧ t.1 + 1 < 2 ^ 32) (h4 : ∀ out, send name m skip sel reID = some out → out.length < 2 ^ 32) :
    ∃ out h, send name m skip sel reID = some out ∧ loadFile (out.length + 1) out = .ok h ∧ SameStream m skip reID l h := by
  have hp : ∀ i ∈ sel, ∃ t, m.tracks.lookup i = some t ∧ t.parts.pres ≠ 0 := by
    intro i hi
    have h1 : (m.tracks.lookup i).map (fun t => (i, t)) ∈ l.map some := by
      rw [← hc]; exact List.mem_map.mpr ⟨i, hi, rfl⟩
    obtain ⟨t, ht, he⟩ := List.mem_map.mp h1
    cases hk : m.tracks.lookup i with
    | none => rw [hk] at he; cases he
    | some u =>
      rw [hk] at he
      have : t = (i, u) := Option.some.inj he
      exact ⟨u, rfl, by have := (hf t ht).1.some.2.2; subst t; exact this⟩
  obtain ⟨out, hout, htake, hload⟩ := C33_header_length_partial name m skip reID sel h0 hd hm hp
  have hlt := h4 out hout
  have hpk := send_pack (bits := fun _ => 0) name m skip reID sel l hc hs
  rw [hout] at hpk
  have hpk := Option.some.inj hpk
  generalize hN : varsLen m + sendLen name m skip sel - 8 = N at hpk
  have hlen := congrArg List.length hpk
  simp only [List.length_append, htob_length, show magicHead.length = 4 from rfl, show Codec.l.width = 4 from rfl] at hlen
  have hpos := pack_pos (bits := fun _ => 0) (headerVal name m skip reID l)
  have hdrop : out.drop 8 = pack (fun _ => 0) (headerVal name m skip reID l) ++ [] := by
    rw [List.append_nil, hpk]
    exact List.drop_left (l₁ := magicHead ++ htob .l N)
  have hre : reInit {} out out.length = .ok { data := some out, kind := .head } := by
    have e0 : out = magicHead ++ (htob .l N ++ pack (fun _ => 0) (headerVal name m skip reID l)) := by rw [hpk, List.append_assoc]
    have g0 : out[0]? = some 68 := by rw [e0]; rfl
    have g1 : out[1]? = some 84 := by rw [e0]; rfl
    have g2 : out[2]? = some 83 := by rw [e0]; rfl
    have g3 : out[3]? = some 67 := by rw [e0]; rfl
    rw [reInit, g0, R.of, R.bind, if_neg (by decide), g1, R.of, R.bind, if_neg (by decide), g2, R.of, R.bind, if_neg (by decide), g3, R.of, R.bind,
      if_neg (by decide), if_neg (by decide), if_neg (by omega), R.bind, sub, if_pos (by omega), R.bind, List.drop_zero, List.take_length,
      if_neg (by omega), htake]
    rfl
  have hscan : getScan { data := some out, kind := .head } = some (8, out.length - 8) := by
    have hval : valid { data := some out, kind := .head } = true := by
      simp only [valid, hload]
      have : (out.length - 8) % 2 ^ 32 = out.length - 8 := Nat.mod_eq_of_lt (by omega)
      rw [this]
      have : (out.length - 8 + 8) % 2 ^ 32 = out.length := by rw [Nat.sub_add_cancel (by omega)]; exact Nat.mod_eq_of_lt hlt
      rw [this]
      simp only [Nat.le_refl, decide_true, Bool.and_true, Bool.and_eq_true, decide_eq_true_eq]
      exact ⟨by omega, by decide⟩
    rw [getScan]
    simp only [hval, headLen, show ¬(Kind.head = Kind.v2) by decide, if_false, Bool.true_and, decide_eq_true_eq]
    rw [if_pos (by omega)]
  have hviews : Views (fun _ => 0) out (some (8, out.length - 8)) (headerVal name m skip reID l) := ⟨8, out.length - 8, [], rfl, hdrop, by omega⟩
  obtain ⟨h, hh, hsame⟩ := load_scan name m skip reID l hs hf out (some (8, out.length - 8)) hviews (out.length + 1) (by omega)
  refine ⟨out, h, hout, ?_, hsame⟩
  rw [loadFile, hre, R.bind, hscan]
  exact hh

instance (f : Frag) : Decidable (FragFits f) := by unfold FragFits; infer_instance
instance (k : Key) : Decidable (KeyFits k) := by unfold KeyFits; infer_instance
instance (p : Part) : Decidable (PartFits p) := by unfold PartFits; infer_instance

example : ∃ out h, send sampleName sampleStream false [4] false = some out ∧ loadFile (out.length + 1) out = .ok h ∧
    SameStream sampleStream false false [(4, sampleTrack)] h :=
  C61_header_round_trip_partial sampleName sampleStream false false [4] [(4, sampleTrack)] rfl (by decide) (by decide) (by decide)
    ⟨by decide, by decide, fun v hv => by cases hv; decide,
      fun t ht => by
        rw [List.mem_singleton] at ht
        subst ht
        exact ⟨⟨by decide, by decide, by decide, by decide, by decide, by decide, by decide, by decide, by decide, by decide, by decide, by decide,
          by decide, by decide, by decide, by decide, by decide⟩, by decide, by decide, by decide⟩,
      fun t ht => by rw [List.mem_singleton] at ht; subst ht; decide⟩
    (fun t ht => by
      rw [List.mem_singleton] at ht
      subst ht
      refine ⟨⟨by decide +kernel, by decide +kernel, by decide +kernel, by decide, by decide, by decide, by decide⟩, by decide⟩)
    (fun out h => by rw [← Option.some.inj h]; decide +kernel)

/-- A track with one fragment of two keys at the positions 7 and 9; the first key has been removed, as by `removeFirstKey`. -/
def cutTrack : Trk :=
  { sampleTrack with
    keys := { filled Key.zero [⟨0, 7, 20, 0, 1, 10, 100⟩, ⟨1, 9, 20, 1, 1, 30, 200⟩] with del := 1, start := 1, pres := 1 }
    parts := { filled Part.zero [⟨100, 20, 0⟩, ⟨200, 20, -5⟩] with del := 1, start := 1, pres := 1 } }

/-- What is loaded for the tracks of a header, as `f` sees it. -/
def loadedAs {α : Type} (f : Trk → α) (out : Bytes) : List α :=
  match loadFile (out.length + 1) out with
  | .ok h => h.tracks.map f
  | _ => []

/-- C61, disagreement: once a key has been removed inside a fragment, the header has the positions of other keys: the key at
position 9 is loaded with the position 7 of the key that is gone. -/
theorem C61_position_fails : (rows cutTrack.keys).map (·.bpos) = [9] ∧
    (send sampleName { sampleStream with tracks := [(4, cutTrack)] } false [4] false).map (loadedAs fun u => (rows u.keys).map (·.bpos)) = some [[7]] := by
  decide +kernel

/-- C61, disagreement: when the fragment of a removed key is gone as well, the fragment that is left starts, when loaded, with
the key number 1, but the only key loaded has the number 0. -/
theorem C61_first_key_fails :
    (send sampleName { sampleStream with tracks := [(4, { cutTrack with frags := { filled Frag.zero [⟨20, 1, 0, 100⟩, ⟨20, 1, 1, 200⟩] with del := 1, start := 1, pres := 1 } })] }
      false [4] false).map (loadedAs fun u => ((rows u.frags).map (·.firstKey), u.keys.del, u.keys.fin)) = some [([1], 0, 1)] := by
  decide +kernel

end Verif.Dtsc
