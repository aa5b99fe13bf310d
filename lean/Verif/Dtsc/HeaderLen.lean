import Verif.Dtsc.Header
import Verif.Dtsc.ScanLemmas

/-!
# The length announced for a header is the length sent (C33)
-/
namespace Verif.Dtsc
open Verif.Bit
open Verif.Index (Tab Part Key Frag)

theorem len_vod : Lit.vod.length = 6 := rfl
theorem len_live : Lit.live.length = 7 := rfl
theorem len_version : Lit.version.length = 10 := rfl
theorem len_unixzero : Lit.unixzero.length = 11 := rfl
theorem len_inputLocalVars : Lit.inputLocalVars.length = 17 := rfl
theorem len_tracks : Lit.tracks.length = 9 := rfl
theorem len_fragments : Lit.fragments.length = 12 := rfl
theorem len_keys : Lit.keys.length = 7 := rfl
theorem len_keysizes : Lit.keysizes.length = 11 := rfl
theorem len_parts : Lit.parts.length = 8 := rfl
theorem len_trackid : Lit.trackid.length = 10 := rfl
theorem len_missed_frags : Lit.missed_frags.length = 15 := rfl
theorem len_firstms : Lit.firstms.length = 10 := rfl
theorem len_lastms : Lit.lastms.length = 9 := rfl
theorem len_bps : Lit.bps.length = 6 := rfl
theorem len_maxbps : Lit.maxbps.length = 9 := rfl
theorem len_init : Lit.init_.length = 7 := rfl
theorem len_codec : Lit.codec.length = 8 := rfl
theorem len_lang : Lit.lang.length = 7 := rfl
theorem len_type : Lit.type_.length = 7 := rfl
theorem len_rate : Lit.rate.length = 7 := rfl
theorem len_size : Lit.size.length = 7 := rfl
theorem len_channels : Lit.channels.length = 11 := rfl
theorem len_width : Lit.width.length = 8 := rfl
theorem len_height : Lit.height.length = 9 := rfl
theorem len_fpks : Lit.fpks.length = 7 := rfl
theorem len_efpks : Lit.efpks.length = 8 := rfl

theorem records_length (f : Nat → Bytes) (w : Nat) (hf : ∀ i, (f i).length = w) (k : Nat) : (records f k).length = k * w := by
  induction k with
  | zero => rw [Nat.zero_mul]; rfl
  | succ k ih =>
    rw [records] at *
    rw [List.range_succ, List.map_append, List.flatten_append, List.length_append, ih, List.map_singleton, List.flatten_singleton, hf,
      Nat.succ_mul]

theorem fragOut_length (f : Frag) : (fragOut f).length = 13 := rfl
theorem keyOut_length (b : Nat) (k : Key) : (keyOut b k).length = 25 := rfl
theorem partOut_length (p : Part) : (partOut p).length = 9 := rfl

theorem tables_length (t : Trk) :
    (sendTables t).length = (t.frags.pres * 13 + 16) + (t.keys.pres * 25 + 11) + (t.keys.pres * 4 + 15) + (t.parts.pres * 9 + 12) := by
  have h1 := records_length (fun i => fragOut (t.frags.get (i + t.frags.start))) 13 (fun i => fragOut_length _) t.frags.pres
  have h2 := records_length (fun i => keyOut (t.keys.get (i + t.frags.start)).bpos (t.keys.get (i + t.keys.start))) 25
    (fun i => keyOut_length _ _) t.keys.pres
  have h3 := records_length (fun i => htob .l (t.keys.get (i + t.keys.start)).size) 4 (fun i => htob_length .l _) t.keys.pres
  have h4 := records_length (fun i => partOut (t.parts.get (i + t.parts.start))) 9 (fun i => partOut_length _) t.parts.pres
  have w : Codec.l.width = 4 := rfl
  rw [sendTables]
  simp only [List.length_append, h1, h2, h3, h4, htob_length, w]
  rw [len_fragments, len_keys, len_keysizes, len_parts]
  omega

theorem track_length (name : Bytes) (skip reID : Bool) (idx : Nat) (t : Trk) :
    (sendTrack name skip reID idx t).length = trackLen skip name t := by
  have h1 : (sendMissed skip t.info).length = if skip = true then 0 else if t.info.missed ≠ 0 then 23 else 0 := by
    rw [sendMissed]
    cases skip
    · by_cases h : t.info.missed = 0
      · rw [if_neg (by simp [h])]; simp [h]
      · rw [if_pos (by simp [h])]; simp [h, htob_length, Codec.width, len_missed_frags]
    · rw [if_neg (by simp)]; rfl
  have h2 : (sendLang t.info).length = if sendsLang t.info then 11 + t.info.lang.length else 0 := by
    rw [sendLang]
    split
    · simp only [List.length_append, htob_length, Codec.width, len_lang]
    · rfl
  have h3 : (sendKind t.info).length = if t.info.type = Names.audio then 49 else if t.info.type = Names.video then 64 else 0 := by
    rw [sendKind]
    split
    · rfl
    split
    · rfl
    · rfl
  have w : Codec.l.width = 4 := rfl
  have w8 : Codec.ll.width = 8 := rfl
  have w2 : Codec.s.width = 2 := rfl
  unfold sendTrack trackLen
  generalize e2 : (if sendsLang t.info then 11 + t.info.lang.length else 0) = n2 at h2 ⊢
  generalize e3 : (if t.info.type = Names.audio then 49 else if t.info.type = Names.video then 64 else 0) = n3 at h3 ⊢
  cases skip
  · simp only [Bool.false_eq_true, if_false] at h1 ⊢
    generalize e1 : (if t.info.missed ≠ 0 then 23 else 0) = n1 at h1 ⊢
    simp only [List.length_append, htob_length, w, w2, w8, h1, h2, h3, tables_length, List.length_cons, List.length_nil,
      len_trackid, len_firstms, len_lastms, len_bps, len_maxbps, len_init, len_codec, len_type]
    omega
  · simp only [if_true] at h1 ⊢
    simp only [List.length_append, htob_length, w, w2, w8, h1, h2, h3, tables_length, List.length_cons, List.length_nil,
      len_trackid, len_firstms, len_lastms, len_bps, len_maxbps, len_init, len_codec, len_type]
    omega

/-- What the selected tracks add. -/
def selLen (name : Nat → Info → Bytes) (skip : Bool) (sel : List Nat) : List (Nat × Trk) → Nat
  | [] => 0
  | t :: r => (if t.1 ∈ sel then trackLen skip (name t.1 t.2.info) t.2 else 0) + selLen name skip sel r

theorem tracksLen_sel (name : Nat → Info → Bytes) (skip : Bool) (sel : List Nat) (h0 : sel ≠ []) (l : List (Nat × Trk))
    (h : ∀ x ∈ l, x.1 ∈ sel → x.2.parts.pres ≠ 0) : tracksLen name skip sel l = selLen name skip sel l := by
  induction l with
  | nil => rfl
  | cons t r ih =>
    rw [tracksLen, selLen, ih fun x hx => h x (List.mem_cons_of_mem _ hx)]
    have hl : sel.length ≠ 0 := fun e => h0 (List.length_eq_zero_iff.mp e)
    by_cases hm : t.1 ∈ sel
    · rw [if_neg (h t List.mem_cons_self hm), if_pos (Or.inr hm), if_pos hm]
    · rw [if_neg (c := sel.length = 0 ∨ _) (by simp [hl, hm]), if_neg hm, ite_self]

theorem selLen_nil (name : Nat → Info → Bytes) (skip : Bool) (l : List (Nat × Trk)) : selLen name skip [] l = 0 := by
  induction l with
  | nil => rfl
  | cons t r ih => rw [selLen, ih]; simp

theorem selLen_fresh (name : Nat → Info → Bytes) (skip : Bool) (i : Nat) (sel : List Nat) (l : List (Nat × Trk)) (h : i ∉ l.map (·.1)) :
    selLen name skip (i :: sel) l = selLen name skip sel l := by
  induction l with
  | nil => rfl
  | cons t r ih =>
    rw [List.map_cons, List.mem_cons, not_or] at h
    rw [selLen, selLen, ih h.2]
    have : t.1 ∈ i :: sel ↔ t.1 ∈ sel := by rw [List.mem_cons]; exact ⟨fun q => q.resolve_left (Ne.symm h.1), Or.inr⟩
    simp only [this]

theorem selLen_cons (name : Nat → Info → Bytes) (skip : Bool) (i : Nat) (sel : List Nat) (hi : i ∉ sel) (l : List (Nat × Trk))
    (hn : (l.map (·.1)).Nodup) (t : Trk) (ht : l.lookup i = some t) :
    selLen name skip (i :: sel) l = trackLen skip (name i t.info) t + selLen name skip sel l := by
  induction l with
  | nil => simp at ht
  | cons x r ih =>
    rw [List.map_cons, List.nodup_cons] at hn
    rw [List.lookup_cons] at ht
    by_cases he : i = x.1
    · subst he
      simp only [beq_self_eq_true, Option.some.injEq] at ht
      subst ht
      rw [selLen, selLen, selLen_fresh name skip _ _ _ hn.1, if_pos List.mem_cons_self, if_neg hi, Nat.zero_add]
    · have hb : (i == x.1) = false := by simpa using he
      rw [hb] at ht
      rw [selLen, selLen, ih hn.2 ht]
      have : x.1 ∈ i :: sel ↔ x.1 ∈ sel := by rw [List.mem_cons]; exact ⟨fun q => q.resolve_left (Ne.symm he), Or.inr⟩
      simp only [this]
      omega

theorem tracks_length (name : Nat → Info → Bytes) (m : Stream) (skip reID : Bool) (hn : (m.tracks.map (·.1)).Nodup) (sel : List Nat)
    (hs : sel.Nodup) (h : ∀ i ∈ sel, ∃ t, m.tracks.lookup i = some t) :
    ∃ x, sendTracks name m skip reID sel = some x ∧ x.length = selLen name skip sel m.tracks := by
  induction sel with
  | nil => exact ⟨[], rfl, (selLen_nil _ _ _).symm⟩
  | cons i r ih =>
    rw [List.nodup_cons] at hs
    obtain ⟨x, hx, hl⟩ := ih hs.2 fun j hj => h j (List.mem_cons_of_mem _ hj)
    obtain ⟨t, ht⟩ := h i List.mem_cons_self
    refine ⟨sendTrack (name i t.info) skip reID i t ++ x, by rw [sendTracks, ht, Option.bind_some, hx, Option.map_some], ?_⟩
    rw [List.length_append, track_length, hl, selLen_cons name skip i r hs.1 _ hn t ht]

theorem head_length (m : Stream) : (sendHead m).length =
    18 + (if m.vod then 14 else 0) + (if m.live then 15 else 0) + (if m.live ∨ m.utc ≠ 0 then 19 else 0) + varsLen m := by
  have h1 : (if m.vod then Lit.vod ++ [0, 0, 0, 0, 0, 0, 0, 1] else ([] : Bytes)).length = if m.vod then 14 else 0 := by
    cases m.vod <;> rfl
  have h2 : (if m.live then Lit.live ++ [0, 0, 0, 0, 0, 0, 0, 1] else ([] : Bytes)).length = if m.live then 15 else 0 := by
    cases m.live <;> rfl
  have h3 : (if m.live ∨ m.utc ≠ 0 then Lit.unixzero ++ htob .ll (if m.live then m.boot else m.utc)
      else ([] : Bytes)).length = if m.live ∨ m.utc ≠ 0 then 19 else 0 := by
    split
    · rw [List.length_append, htob_length]; rfl
    · rfl
  rw [sendHead, List.length_append, List.length_append, List.length_append, List.length_append, List.length_append, h1, h2, h3, varsLen, htob_length]
  cases m.vars with
  | none => simp only [List.length_nil, List.length_cons, Codec.width, len_version, len_inputLocalVars]; omega
  | some v => simp only [List.length_append, htob_length, List.length_nil, List.length_cons, Codec.width, len_version, len_inputLocalVars]; omega

end Verif.Dtsc
