import Verif.Dtsc.HeaderLen
import Verif.Dtsc.ScanProps

/-!
# A header is the binary form of an object
-/
namespace Verif.Dtsc
open Spec Verif.Bit Verif.Json
open Verif.Index (Tab Part Key Frag)

variable {bits : Dbl → Nat}

/-- A number of 64 bits as a value. -/
def num (n : Nat) : JVal := .int (toI64 n)

/-- The members with the tables. -/
def tablesVal (t : Trk) : List (Bytes × JVal) :=
  [(Names.fragments, .str (records (fun i => fragOut (t.frags.get (i + t.frags.start))) t.frags.pres)),
   (Names.keys, .str (records (fun i => keyOut (t.keys.get (i + t.frags.start)).bpos (t.keys.get (i + t.keys.start))) t.keys.pres)),
   (Names.keysizes, .str (records (fun i => htob .l (t.keys.get (i + t.keys.start)).size) t.keys.pres)),
   (Names.parts, .str (records (fun i => partOut (t.parts.get (i + t.parts.start))) t.parts.pres))]

/-- The members that depend on the kind of track. -/
def kindVal (i : Info) : List (Bytes × JVal) :=
  if i.type = Names.audio then [(Names.rate, num i.rate), (Names.size, num i.size), (Names.channels, num i.channels)]
  else if i.type = Names.video then
    [(Names.width, num i.width), (Names.height, num i.height), (Names.fpks, num i.fpks), (Names.efpks, num i.efpks)]
  else []

/-- The members of a track. -/
def trackMembers (skip reID : Bool) (idx : Nat) (t : Trk) : List (Bytes × JVal) :=
  (if skip then [] else tablesVal t) ++ [(Names.trackid, num (if reID then idx + 1 else t.info.id))] ++
  (if skip = false ∧ t.info.missed ≠ 0 then [(Names.missed_frags, num t.info.missed)] else []) ++
  [(Names.firstms, num t.info.firstms), (Names.lastms, num t.info.lastms), (Names.bps, num t.info.bps),
   (Names.maxbps, num t.info.maxbps), (Names.init_, .str t.info.init), (Names.codec, .str t.info.codec)] ++
  (if sendsLang t.info then [(Names.lang, .str t.info.lang)] else []) ++
  [(Names.type_, .str t.info.type)] ++ kindVal t.info

/-- The tracks. -/
def tracksVal (name : Nat → Info → Bytes) (skip reID : Bool) (l : List (Nat × Trk)) : List (Bytes × JVal) :=
  l.map fun t => (name t.1 t.2.info, .obj (trackMembers skip reID t.1 t.2))

/-- The settings. -/
def headVal (m : Stream) : List (Bytes × JVal) :=
  (if m.vod then [(Names.vod, num 1)] else []) ++ (if m.live then [(Names.live, num 1)] else []) ++ [(Names.version, num 4)] ++
  (if m.live ∨ m.utc ≠ 0 then [(Names.unixzero, num (if m.live then m.boot else m.utc))] else []) ++
  (match m.vars with
   | none => []
   | some v => [(Names.inputLocalVars, .str v)])

/-- The header of a stream with the tracks `l`. -/
def headerVal (name : Nat → Info → Bytes) (m : Stream) (skip reID : Bool) (l : List (Nat × Trk)) : JVal :=
  .obj (headVal m ++ [(Names.tracks, .obj (tracksVal name skip reID l))])

/-- The fields hold what they have room for (dtsc.cpp 2110-2131, 1297-1309). -/
structure Info.Fits (i : Info) : Prop where
  type : i.type.length < 32 ∧ (0 : UInt8) ∉ i.type
  codec : i.codec.length < 32 ∧ (0 : UInt8) ∉ i.codec
  lang : i.lang.length < 4 ∧ (0 : UInt8) ∉ i.lang
  init : i.init.length < 2 ^ 16
  id : i.id < 2 ^ 32
  firstms : i.firstms < 2 ^ 64
  lastms : i.lastms < 2 ^ 64
  bps : i.bps < 2 ^ 32
  maxbps : i.maxbps < 2 ^ 32
  rate : i.rate < 2 ^ 16
  size : i.size < 2 ^ 16
  channels : i.channels < 2 ^ 16
  width : i.width < 2 ^ 32
  height : i.height < 2 ^ 32
  fpks : i.fpks < 2 ^ 16
  efpks : i.efpks < 2 ^ 16
  missed : i.missed < 2 ^ 32

theorem toU64_toI64 (n : Nat) (h : n < 2 ^ 64) : toU64 (toI64 n) = n := by
  have hp : (2 : Nat) ^ 64 = 18446744073709551616 := by decide
  rw [toU64, toI64]
  split <;> omega

theorem pack_num (n : Nat) (h : n < 2 ^ 64) : pack bits (num n) = 1 :: htob .ll n := by
  rw [num, pack, toU64_toI64 n h]

theorem packMembers_append (a b : List (Bytes × JVal)) : packMembers bits (a ++ b) = packMembers bits a ++ packMembers bits b := by
  induction a with
  | nil => rw [packMembers]; rfl
  | cons x r ih => rw [List.cons_append, packMembers, packMembers, ih]; simp only [List.append_assoc]

theorem pm_nil : packMembers bits [] = [] := by rw [packMembers]

theorem pm_num {k : Bytes} {lit : Bytes} (n : Nat) (hn : n < 2 ^ 64) (h0 : 0 < k.length) (hl : lit = keyLen k ++ k ++ [1])
    (r : List (Bytes × JVal)) : packMembers bits ((k, num n) :: r) = lit ++ htob .ll n ++ packMembers bits r := by
  rw [packMembers, if_pos h0, pack_num n hn, hl]
  simp only [List.append_assoc, List.cons_append, List.nil_append]

theorem pm_str {k : Bytes} {lit : Bytes} (x : Bytes) (h0 : 0 < k.length) (hl : lit = keyLen k ++ k ++ [2])
    (r : List (Bytes × JVal)) : packMembers bits ((k, .str x) :: r) = lit ++ htob .l x.length ++ x ++ packMembers bits r := by
  rw [packMembers, if_pos h0, pack, hl]
  simp only [List.append_assoc, List.cons_append, List.nil_append]

theorem pack_tables (t : Trk) : packMembers bits (tablesVal t) = sendTables t := by
  have h1 := records_length (fun i => fragOut (t.frags.get (i + t.frags.start))) 13 (fun i => fragOut_length _) t.frags.pres
  have h2 := records_length (fun i => keyOut (t.keys.get (i + t.frags.start)).bpos (t.keys.get (i + t.keys.start))) 25
    (fun i => keyOut_length _ _) t.keys.pres
  have h3 := records_length (fun i => htob .l (t.keys.get (i + t.keys.start)).size) 4 (fun i => htob_length .l _) t.keys.pres
  have h4 := records_length (fun i => partOut (t.parts.get (i + t.parts.start))) 9 (fun i => partOut_length _) t.parts.pres
  unfold tablesVal sendTables
  rw [pm_str (lit := Lit.fragments) _ (by decide) rfl, pm_str (lit := Lit.keys) _ (by decide) rfl,
    pm_str (lit := Lit.keysizes) _ (by decide) rfl, pm_str (lit := Lit.parts) _ (by decide) rfl, pm_nil, h1, h2, h3, h4]
  simp only [List.append_assoc, List.append_nil]

theorem pack_kind (i : Info) (hi : i.Fits) : packMembers bits (kindVal i) = sendKind i := by
  have := hi.rate; have := hi.size; have := hi.channels; have := hi.width; have := hi.height; have := hi.fpks; have := hi.efpks
  unfold kindVal sendKind
  split
  · rw [pm_num (lit := Lit.rate) _ (by omega) (by decide) rfl, pm_num (lit := Lit.size) _ (by omega) (by decide) rfl,
      pm_num (lit := Lit.channels) _ (by omega) (by decide) rfl, pm_nil]
    simp only [List.append_assoc, List.append_nil]
  · split
    · rw [pm_num (lit := Lit.width) _ (by omega) (by decide) rfl, pm_num (lit := Lit.height) _ (by omega) (by decide) rfl,
        pm_num (lit := Lit.fpks) _ (by omega) (by decide) rfl, pm_num (lit := Lit.efpks) _ (by omega) (by decide) rfl, pm_nil]
      simp only [List.append_assoc, List.append_nil]
    · exact pm_nil

theorem pack_track (name : Bytes) (hn : name.length < 65536) (skip reID : Bool) (idx : Nat) (hx : idx + 1 < 2 ^ 64) (t : Trk) (hi : t.info.Fits) :
    sendTrack name skip reID idx t = keyLen name ++ name ++ pack bits (.obj (trackMembers skip reID idx t)) := by
  have := hi.id; have h1 := hi.firstms; have h2 := hi.lastms; have h3 := hi.bps; have h4 := hi.maxbps; have := hi.missed
  have hid : (if reID then idx + 1 else t.info.id) < 2 ^ 64 := by split <;> omega
  have hm : packMembers bits (if skip = false ∧ t.info.missed ≠ 0 then [(Names.missed_frags, num t.info.missed)] else []) =
      sendMissed skip t.info := by
    unfold sendMissed
    split
    · rw [pm_num (lit := Lit.missed_frags) _ (by omega) (by decide) rfl, pm_nil, List.append_nil]
    · exact pm_nil
  have hl : packMembers bits (if sendsLang t.info then [(Names.lang, .str t.info.lang)] else []) = sendLang t.info := by
    unfold sendLang
    split
    · rw [pm_str (lit := Lit.lang) _ (by decide) rfl, pm_nil, List.append_nil]
    · exact pm_nil
  have ht : packMembers bits (if skip then [] else tablesVal t) = if skip then [] else sendTables t := by
    split
    · exact pm_nil
    · exact pack_tables t
  unfold sendTrack trackMembers
  rw [pack, packMembers_append, packMembers_append, packMembers_append, packMembers_append, packMembers_append, packMembers_append, ht, hm, hl,
    pack_kind t.info hi, pm_num (lit := Lit.trackid) _ hid (by decide) rfl, pm_num (lit := Lit.firstms) _ h1 (by decide) rfl,
    pm_num (lit := Lit.lastms) _ h2 (by decide) rfl, pm_num (lit := Lit.bps) _ (by omega) (by decide) rfl,
    pm_num (lit := Lit.maxbps) _ (by omega) (by decide) rfl, pm_str (lit := Lit.init_) _ (by decide) rfl,
    pm_str (lit := Lit.codec) _ (by decide) rfl, pm_str (lit := Lit.type_) _ (by decide) rfl, pm_nil, keyLen_htob name hn]
  simp only [List.append_assoc, List.append_nil, List.cons_append, List.nil_append]

/-- What is sent of a stream: its settings and tracks hold what they have room for, and the names of tracks are not empty
and below 64 KiB. -/
structure Sendable (name : Nat → Info → Bytes) (m : Stream) (l : List (Nat × Trk)) : Prop where
  utc : m.utc < 2 ^ 64
  boot : m.boot < 2 ^ 64
  vars : ∀ v, m.vars = some v → v.length < 2 ^ 32
  track : ∀ t ∈ l, t.2.info.Fits ∧ t.1 + 1 < 2 ^ 64 ∧ 0 < (name t.1 t.2.info).length ∧ (name t.1 t.2.info).length < 65536
  tables : ∀ t ∈ l, t.2.frags.pres * 13 < 2 ^ 32 ∧ t.2.keys.pres * 25 < 2 ^ 32 ∧ t.2.parts.pres * 9 < 2 ^ 32

/-- The tracks of the stream that are selected. -/
def chosen (m : Stream) (sel : List Nat) (l : List (Nat × Trk)) : Prop := sel.map (fun i => (m.tracks.lookup i).map fun t => (i, t)) = l.map some

theorem pack_tracks (name : Nat → Info → Bytes) (m : Stream) (skip reID : Bool) (sel : List Nat) (l : List (Nat × Trk)) (hc : chosen m sel l)
    (hs : ∀ t ∈ l, t.2.info.Fits ∧ t.1 + 1 < 2 ^ 64 ∧ 0 < (name t.1 t.2.info).length ∧ (name t.1 t.2.info).length < 65536) :
    sendTracks name m skip reID sel = some (packMembers bits (tracksVal name skip reID l)) := by
  induction sel generalizing l with
  | nil =>
    cases l with
    | nil => rw [sendTracks, tracksVal, List.map_nil, pm_nil]
    | cons => simp [chosen] at hc
  | cons i r ih =>
    cases l with
    | nil => simp [chosen] at hc
    | cons t l =>
      simp only [chosen, List.map_cons, List.cons.injEq] at hc
      cases hk : m.tracks.lookup i with
      | none => rw [hk] at hc; simp at hc
      | some u =>
        rw [hk] at hc
        simp only [Option.map_some, Option.some.injEq] at hc
        obtain ⟨rfl, hr⟩ := hc
        obtain ⟨hi, hx, h0, hn⟩ := hs _ List.mem_cons_self
        rw [sendTracks, hk, Option.bind_some, ih l hr fun t ht => hs t (List.mem_cons_of_mem _ ht), Option.map_some]
        have e : tracksVal name skip reID ((i, u) :: l) = (name i u.info, .obj (trackMembers skip reID i u)) :: tracksVal name skip reID l := rfl
        rw [e, packMembers, if_pos h0, pack_track (bits := bits) _ hn skip reID i hx u hi]

theorem pack_head' (m : Stream) (h1 : m.utc < 2 ^ 64) (h2 : m.boot < 2 ^ 64) : packMembers bits (headVal m) = sendHead m := by
  have hv : packMembers bits (if m.vod then [(Names.vod, num 1)] else []) = if m.vod then Lit.vod ++ [0, 0, 0, 0, 0, 0, 0, 1] else [] := by
    split
    · rw [pm_num (lit := Lit.vod) _ (by decide) (by decide) rfl, pm_nil, List.append_nil]; rfl
    · exact pm_nil
  have hl : packMembers bits (if m.live then [(Names.live, num 1)] else []) = if m.live then Lit.live ++ [0, 0, 0, 0, 0, 0, 0, 1] else [] := by
    split
    · rw [pm_num (lit := Lit.live) _ (by decide) (by decide) rfl, pm_nil, List.append_nil]; rfl
    · exact pm_nil
  have hu : packMembers bits (if m.live ∨ m.utc ≠ 0 then [(Names.unixzero, num (if m.live then m.boot else m.utc))] else []) =
      if m.live ∨ m.utc ≠ 0 then Lit.unixzero ++ htob .ll (if m.live then m.boot else m.utc) else [] := by
    split
    · rw [pm_num (lit := Lit.unixzero) _ (by split <;> assumption) (by decide) rfl, pm_nil, List.append_nil]
    · exact pm_nil
  unfold headVal sendHead
  rw [packMembers_append, packMembers_append, packMembers_append, packMembers_append, hv, hl, hu,
    pm_num (lit := Lit.version) _ (by decide) (by decide) rfl, pm_nil, List.append_nil]
  cases m.vars with
  | none => simp only [pm_nil, List.append_assoc]
  | some v =>
    simp only
    rw [pm_str (lit := Lit.inputLocalVars) _ (by decide) rfl, pm_nil, List.append_nil]
    simp only [List.append_assoc]

/-- What is sent is the magic bytes, a length, and the binary form of an object. -/
theorem send_pack (name : Nat → Info → Bytes) (m : Stream) (skip reID : Bool) (sel : List Nat) (l : List (Nat × Trk)) (hc : chosen m sel l)
    (hs : Sendable name m l) : send name m skip sel reID =
      some (magicHead ++ htob .l (varsLen m + sendLen name m skip sel - 8) ++ pack bits (headerVal name m skip reID l)) := by
  unfold send headerVal
  rw [pack_tracks (bits := bits) name m skip reID sel l hc hs.track, Option.map_some, pack, packMembers_append, pack_head' m hs.utc hs.boot,
    packMembers, if_pos (show 0 < Names.tracks.length by decide), pack, pm_nil]
  simp only [List.append_assoc, List.append_nil, List.cons_append, List.nil_append, Lit.tracks, Names.tracks, keyLen, Option.some.injEq]
  rfl

end Verif.Dtsc
