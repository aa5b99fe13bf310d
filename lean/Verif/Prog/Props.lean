import Verif.Prog.Serve
import Verif.Prog.Tab
import Mathlib.Algebra.BigOperators.Group.List.Basic

/-!
# C92: MP4 files of recordings

The header of the MP4 file of a recording describes the samples as they are, the samples are where the header says, and a range of
the file has the bytes of that range.
-/
namespace Verif.Prog
open Verif.Prog.Spec
open Verif.Index (Part Part.zero cut16)

/-! ## Helpers -/

theorem dur_sum {t : Trk} {l : List Sample} (hl : t.samples = l) (ht : l.Pairwise (fun a b => a.time < b.time))
    (hg : ∀ (i : Nat) (a b : Sample), l[i]? = some a → l[i + 1]? = some b → b.time - a.time < 2 ^ 16) (i : Nat) {s : Sample} (hs : l[i]? = some s) :
    (((partsOf l).map Part.dur).take i).sum + firstms t = s.time := by
  induction i generalizing s with
  | zero =>
    unfold firstms
    rw [hl, List.head?_eq_getElem?, hs]
    simp
  | succ i ih =>
    have hi : i < l.length := by have := (List.getElem?_eq_some_iff.mp hs).1; omega
    have ha := List.getElem?_eq_getElem hi
    have hd := part_dur (t := t) (by rw [hl]; exact ha) (by rw [hl]; exact hs) (hg i _ _ ha hs)
    have hlt := time_lt ht (Nat.lt_succ_self i) ha hs
    have hi2 : i < ((partsOf l).map Part.dur).length := by rw [List.length_map, partsOf_length]; exact hi
    rw [List.take_add_one, List.getElem?_eq_getElem hi2, Option.toList_some, List.sum_append, List.sum_singleton]
    have : ((partsOf l).map Part.dur)[i] = (part t i).dur := by
      unfold part
      rw [hl, List.getElem_map, List.getD_eq_getElem?_getD, List.getElem?_eq_getElem (by rw [partsOf_length]; exact hi)]
      rfl
    rw [this, hd]
    have := ih ha
    omega

theorem off_of {t : Trk} {s : Sample} (h : 0 ≤ s.off ∧ s.off < 2 ^ 15) : cut16 s.off = s.off := by
  unfold cut16
  omega

theorem bits_of {x : Int} (h : 0 ≤ x ∧ x < 2 ^ 15) : ((bits32 x : Nat) : Int) = x := by
  unfold bits32
  omega

theorem flat_map {l : List (Nat × Int)} : ((l.map fun r => (r.1, bits32 r.2)).map fun e : Nat × Nat => (e.1, (e.2 : Int))).flatMap (fun e => List.replicate e.1 e.2) =
    (l.flatMap fun r => List.replicate r.1 r.2).map fun x => ((bits32 x : Nat) : Int) := by
  induction l with
  | nil => rfl
  | cons a l ih =>
    rw [List.map_cons, List.map_cons, List.flatMap_cons, ih, List.flatMap_cons, List.map_append, List.map_replicate]

theorem mem_all {R : List Trk} (h : Fine R) {t : Trk} (ht : t ∈ R) {i : Nat} {s : Sample} (hs : t.samples[i]? = some s) (hi : i + 1 < t.samples.length) :
    ⟨s.time, t.id, i⟩ ∈ all R := by
  have : (⟨s.time, t.id, i⟩ : KeyPart) ∈ seq t 0 := by
    have h1 := seq_cons hs hi
    have h2 : seq t i = (seq t 0).drop i := by unfold seq; rw [List.drop_drop, Nat.zero_add]
    exact List.mem_of_mem_drop (i := i) (by rw [← h2, h1]; exact List.mem_cons_self)
  rw [← all_track h ht] at this
  exact (List.mem_filter.mp this).1

/-- The place of a sample in the table, and in the file. -/
theorem chunk_place {R : List Trk} (h : Fine R) (header : Bytes) {large : Bool} {fuel : Nat} (hfuel : total R ≤ fuel)
    (hlarge : (file header ((all R).map (pk R))).length < 2 ^ (if large then 64 else 32)) {t : Trk} (ht : t ∈ R) {i : Nat} {s : Sample}
    (hs : t.samples[i]? = some s) (hi : i + 1 < t.samples.length) :
    ∃ p, (chunksOf t large (layout R fuel header.length))[i]? = some p ∧
      ((file header ((all R).map (pk R))).drop p).take s.data.length = s.data := by
  have hfirst := first_set h
  have hall : visit R fuel (firstSet R) = all R := visit_fuel h hfirst.1 (by omega) hfirst.2.2.1
  rw [hfirst.2.2.2, hall]
  have hm := mem_all h ht hs hi
  obtain ⟨p, hp⟩ := mem_places (R := R) (pos := header.length) hm
  obtain ⟨pre, suf, e1, e2⟩ := places_mem hp
  have hon := all_on h
  have hdata : dataOf R ⟨s.time, t.id, i⟩ = s.data := by
    unfold dataOf
    rw [trkOf_eq h.ids ht, hs]
    rfl
  have hpre : (pre.map fun k => (part (trkOf R k.track) k.index).size).sum = ((pre.map (dataOf R)).flatten).length :=
    sizes_length h fun k hk => hon k (by rw [e1]; exact List.mem_append_left _ hk)
  simp only at e1 e2
  have hfile : file header ((all R).map (pk R)) = (header ++ (pre.map (dataOf R)).flatten) ++ (s.data ++ (suf.map (dataOf R)).flatten) := by
    rw [file_eq, e1, List.map_append, List.flatten_append, List.map_cons, List.flatten_cons, hdata, List.append_assoc]
  rw [hfile] at hlarge ⊢
  simp only [List.length_append] at hlarge
  refine ⟨p, ?_, ?_⟩
  · unfold chunksOf
    apply chunks_fold
    · intro c hc h1 h2
      obtain ⟨pre', suf', e1', e2'⟩ := places_mem hc
      have hck : c.1 = ⟨s.time, t.id, i⟩ := by
        obtain ⟨u, hu, hcu, ⟨r, hr, hrt⟩, _⟩ := hon c.1 (by rw [e1']; exact List.mem_append_right _ List.mem_cons_self)
        have hut : u = t := by rw [← trkOf_eq h.ids hu, ← hcu, h1, trkOf_eq h.ids ht]
        subst hut
        rw [h2, hs] at hr
        cases hc1 : c.1 with
        | mk time track index =>
          rw [hc1] at h1 h2 hrt
          simp only at h1 h2 hrt
          rw [h1, h2, ← hrt, ← Option.some.inj hr]
      have hnd : (all R).Nodup := (all_sorted h).imp fun {a b} hab hE => by
        subst hE
        rcases hab with h1 | ⟨_, h2 | ⟨_, h3⟩⟩ <;> omega
      have hpp : pre' = pre := by
        rw [e1'] at e1
        rw [hck] at e1
        rw [e1', hck] at hnd
        have hnd2 := hnd
        rw [e1] at hnd2
        have n1 := List.nodup_append.mp hnd
        have n2 := List.nodup_append.mp hnd2
        have q1 : (⟨s.time, t.id, i⟩ : KeyPart) ∉ pre' := fun hx => n1.2.2 _ hx _ List.mem_cons_self rfl
        have q2 : (⟨s.time, t.id, i⟩ : KeyPart) ∉ pre := fun hx => n2.2.2 _ hx _ List.mem_cons_self rfl
        clear hnd hnd2 n1 n2 e2' hpre e2 hlarge hfile e1'
        generalize (⟨s.time, t.id, i⟩ : KeyPart) = x at *
        induction pre' generalizing pre with
        | nil =>
          cases pre with
          | nil => rfl
          | cons y pre =>
            rw [List.nil_append, List.cons_append] at e1
            exact absurd ((List.cons.inj e1).1 ▸ List.mem_cons_self) q2
        | cons y pre' ih =>
          cases pre with
          | nil =>
            rw [List.nil_append, List.cons_append] at e1
            exact absurd ((List.cons.inj e1).1 ▸ List.mem_cons_self) q1
          | cons z pre =>
            rw [List.cons_append, List.cons_append] at e1
            obtain ⟨a1, a2⟩ := List.cons.inj e1
            rw [a1]
            congr 1
            exact ih pre a2 (fun hx => q1 (List.mem_cons_of_mem _ hx)) (fun hx => q2 (List.mem_cons_of_mem _ hx))
      rw [e2', hpp, hpre, e2, hpre]
      exact Nat.mod_eq_of_lt (by omega)
    · rw [List.length_replicate, partsOf_length]; omega
    · exact Or.inr ⟨(⟨s.time, t.id, i⟩, p), hp, rfl, rfl⟩
  · have : p = (header ++ (pre.map (dataOf R)).flatten).length := by rw [e2, hpre, List.length_append]
    rw [this, List.drop_left, List.take_left]

/-! ## The theorems -/

/-- **C92** (partly: the tables). The tables of the header give every sample of a recording its decode time (since the first sample
of its track), its offset, its size and whether it is a key frame (the first sample of a track always is). The sample is where the
table of places says, in the file that is sent, in which there is one sample per chunk. The number of entries of the table of
durations is right, unless all durations are the same as the size of the first sample. Missing: the last sample of every track,
which is not sent (`C92_last_fails`); packets of the same track with the same time, gaps of more than 65.535 seconds, negative
offsets and offsets of more than 32.767 seconds. -/
theorem C92_tables_partial {R : List Trk} (h : Fine R) {T : Nat → Play.Spec.Track} (hT : Holds R T) (flag : Nat → Bool) (header : Bytes)
    (large : Bool) (fuel : Nat) (hfuel : total R ≤ fuel) (t : Trk) (ht : t ∈ R) :
    (tables t large (layout R fuel header.length)).count = t.samples.length ∧
    (∀ (i : Nat) (s : Sample), t.samples[i]? = some s →
      firstms t + Stbl.decodeTime (tables t large (layout R fuel header.length)) i = s.time ∧
      (Stbl.offsets (tables t large (layout R fuel header.length)))[i]? = some s.off ∧
      Stbl.size (tables t large (layout R fuel header.length)) i = s.data.length ∧
      (t.video = true → (Stbl.isSync (tables t large (layout R fuel header.length)) i ↔ (i = 0 ∨ s.key = true))) ∧
      Stbl.before (tables t large (layout R fuel header.length)) i = i) ∧
    (∃ k, ∀ j, (file header (got R T flag 0 (k + j))).length < 2 ^ (if large then 64 else 32) →
      ∀ (i : Nat) (s : Sample), t.samples[i]? = some s → i + 1 < t.samples.length →
        ∃ p, (tables t large (layout R fuel header.length)).chunks[i]? = some p ∧
          ((file header (got R T flag 0 (k + j))).drop p).take s.data.length = s.data) ∧
    ((∃ (i : Nat) (a b f : Sample), t.samples[i]? = some a ∧ t.samples[i + 1]? = some b ∧ t.samples[0]? = some f ∧ b.time - a.time ≠ f.data.length) →
      (sttsOf t).count = (sttsOf t).rows.length) ∧
    (∀ b, cttsOf t = some b → b.count = b.rows.length) := by
  obtain ⟨h2, h29⟩ := h.two t ht
  obtain ⟨s1, s2, _⟩ := stts_rows h2 h29
  refine ⟨?_, fun i s hs => ⟨?_, ?_, ?_, fun hv => ?_, ?_⟩, ?_, ?_, fun b hb => ?_⟩
  · show (stszOf t).length = _
    rw [stszOf_eq, List.length_map, partsOf_length]
  · unfold Stbl.decodeTime Stbl.durations
    show firstms t + (((sttsOf t).rows.flatMap fun e => List.replicate e.1 e.2).take i).sum = s.time
    rw [s1, runs_flat, List.replicate_zero, List.nil_append, Nat.add_comm]
    exact dur_sum rfl (h.time t ht) (h.gap t ht) i hs
  · have hoff := h.off t ht s (List.mem_of_getElem? hs)
    obtain ⟨d, _, hp⟩ := partsOf_get hs
    have hi := (List.getElem?_eq_some_iff.mp hs).1
    rcases ctts_rows h2 h29 with ⟨c1, c2⟩ | ⟨b, c1, c2, _⟩
    · unfold Stbl.offsets tables
      simp only [c1, Option.map_none]
      rw [List.getElem?_replicate, if_pos (by rw [stszOf_eq, List.length_map, partsOf_length]; exact hi)]
      have := c2 _ (List.mem_of_getElem? hp)
      simp only at this
      rw [off_of (t := t) hoff] at this
      rw [this]
    · unfold Stbl.offsets tables
      simp only [c1, Option.map_some]
      rw [c2, flat_map, runs_flat, List.replicate_zero, List.nil_append, List.getElem?_map, List.getElem?_map, hp]
      simp only [Option.map_some]
      rw [off_of (t := t) hoff, bits_of hoff]
  · have hsz := h.size t ht s (List.mem_of_getElem? hs)
    obtain ⟨d, _, hp⟩ := partsOf_get hs
    unfold Stbl.size
    rw [if_pos (show (tables t large (layout R fuel header.length)).allSize = 0 from rfl)]
    show (stszOf t).getD i 0 = _
    rw [stszOf_eq, List.getD_eq_getElem?_getD, List.getElem?_map, hp]
    exact Nat.mod_eq_of_lt (by omega)
  · unfold Stbl.isSync tables stssOf
    rw [if_pos hv]
    simp only
    have := stss_mem t.samples 0 i
    rw [Nat.zero_add] at this
    rw [this]
    constructor
    · rintro ⟨r, hr, hr2⟩
      rw [hs] at hr
      rw [Option.some.inj hr]; exact hr2
    · intro hr
      exact ⟨s, hs, hr⟩
  · unfold Stbl.before
    show ((List.range i).map fun c => Stbl.perChunk stsc (c + 1)).sum = i
    have : (List.range i).map (fun c => Stbl.perChunk stsc (c + 1)) = List.replicate i 1 := by
      apply List.ext_getElem?
      intro n
      rw [List.getElem?_map, List.getElem?_replicate]
      by_cases hn : n < i
      · rw [if_pos hn, List.getElem?_range hn]; rfl
      · rw [if_neg hn, List.getElem?_eq_none (by rw [List.length_range]; omega)]; rfl
    rw [this, List.sum_replicate_nat, Nat.mul_one]
  · obtain ⟨k, hk⟩ := got_eq h hT flag 0
    refine ⟨k, fun j => ?_⟩
    have : (all R).filter (fun x => decide (0 ≤ x.time)) = all R := by
      rw [List.filter_eq_self]
      intro x _
      simp
    rw [hk j, this]
    intro hlen i s hs hi
    exact chunk_place h header hfuel hlen ht hs hi
  · rintro ⟨i, a, b, f, ha, hb, hf, hne⟩
    apply s2
    have hd := part_dur ha hb (h.gap t ht i a b ha hb)
    have hf' := part_get hf (by have := h.size t ht f (List.mem_of_getElem? hf); omega)
    refine ⟨part t i, ?_, by rw [hd, hf']; exact hne⟩
    unfold part
    have hi := (List.getElem?_eq_some_iff.mp ha).1
    rw [List.getD_eq_getElem?_getD, List.getElem?_eq_getElem (by rw [partsOf_length]; exact hi)]
    exact List.getElem_mem _
  · rcases ctts_rows h2 h29 with ⟨c1, _⟩ | ⟨b', c1, _, c3⟩
    · rw [c1] at hb; cases hb
    · rw [c1] at hb
      rw [← Option.some.inj hb]; exact c3

/-- **C92** (partly: ranges of bytes). A range of bytes of the file of a recording is answered with just these bytes, whether it starts in the
header or in a packet. The hypotheses name what is wrong otherwise: packets of different tracks at the same time
(`C92_same_time_fails`), empty packets (`C92_empty_fails`), and ranges that stop before the end of a packet that is not the last
one, after which further bytes follow that are not of the file (`C92_overrun_fails`; they are not counted here). -/
theorem C92_range_partial {R : List Trk} (h : Fine R) {T : Nat → Play.Spec.Track} (hT : Holds R T) (flag : Nat → Bool) (header : Bytes)
    (hheader : header.length < 2 ^ 32) (fuel : Nat) (hfuel : total R ≤ fuel) (hne : ∀ t ∈ R, ∀ s ∈ t.samples, s.data ≠ [])
    (start stop : Nat) (hd : start ≤ header.length ∨ Distinct R) (hss : start ≤ stop) (hlong : stop < 2 ^ 62) :
    ∃ k, ∀ j, stop < (file header (got R T flag 0 (k + j))).length →
      delivered ((respond R fuel header header.length start stop).1 ++
        sendAll R start (respond R fuel header header.length start stop).2.2
          ((got R T flag (respond R fuel header header.length start stop).2.1 (k + j)).map fun x => x.2.data)) =
      ((file header (got R T flag 0 (k + j))).drop start).take (stop + 1 - start) := by
  obtain ⟨k1, hk1⟩ := got_eq h hT flag 0
  obtain ⟨k2, hk2⟩ := got_eq h hT flag (respond R fuel header header.length start stop).2.1
  refine ⟨k1 + k2, fun j => ?_⟩
  have hz : (all R).filter (fun x => decide (0 ≤ x.time)) = all R := by
    rw [List.filter_eq_self]
    intro x _
    simp
  have e1 := hk1 (k2 + j)
  rw [hz, ← Nat.add_assoc] at e1
  have e2 := hk2 (k1 + j)
  rw [show k2 + (k1 + j) = k1 + k2 + j by omega] at e2
  rw [e1, e2]
  intro hstop
  obtain ⟨pre, suf, ha, hb, hp, hn, hdel⟩ := respond_range h header hfuel hss hstop hlong hne
  have hsuf : (all R).filter (fun x => decide ((respond R fuel header header.length start stop).2.1 ≤ x.time)) = suf := by
    by_cases hpre : pre = []
    · rw [hpre, List.nil_append] at ha
      rcases hn hpre with h0 | ⟨k, r, hs, h0⟩
      · rw [h0, all_late h, ha]
      · rw [h0, hs]
        exact filter_suffix h (pre := []) (by rw [ha, hs]; rfl) (fun x hx => by cases hx)
    · obtain ⟨k, r, hs, h0⟩ := hp hpre
      rw [h0, hs]
      rw [hs] at ha
      apply filter_suffix h ha
      rcases hd with hd | hd
      · exact absurd (hb hd) hpre
      · intro x hx
        have hso := all_sorted h
        rw [ha] at hso
        have := (List.pairwise_append.mp hso).2.2 x hx k List.mem_cons_self
        exact distinct_parts h hd (all_on h x (by rw [ha]; exact List.mem_append_left _ hx))
          (all_on h k (by rw [ha]; exact List.mem_append_right _ List.mem_cons_self)) this
  rw [hsuf, pk_data]
  exact hdel hheader

/-! ## What is wrong -/

theorem sum_tracks (f : KeyPart → Nat) (R : List Trk) (hn : (R.map Trk.id).Nodup) (l : List KeyPart) (hl : ∀ k ∈ l, k.track ∈ R.map Trk.id) :
    (l.map f).sum = (R.map fun t => ((l.filter fun k => k.track == t.id).map f).sum).sum := by
  induction l with
  | nil => simp
  | cons k l ih =>
    rw [List.map_cons, List.sum_cons, ih fun x hx => hl x (List.mem_cons_of_mem _ hx)]
    have hk := hl k List.mem_cons_self
    clear ih hl
    have hzero : ∀ Q : List Trk, k.track ∉ Q.map Trk.id → (Q.map fun t => (((k :: l).filter fun k => k.track == t.id).map f).sum) =
        (Q.map fun t => ((l.filter fun k => k.track == t.id).map f).sum) := by
      intro Q hQ
      apply List.map_congr_left
      intro t ht
      have : k.track ≠ t.id := fun h => hQ (h ▸ List.mem_map_of_mem ht)
      rw [List.filter_cons_of_neg (by simpa using this)]
    induction R with
    | nil => cases hk
    | cons t R ih =>
      rw [List.map_cons, List.nodup_cons] at hn
      rw [List.map_cons, List.map_cons, List.sum_cons, List.sum_cons]
      by_cases h : k.track = t.id
      · rw [hzero R (by rw [h]; exact hn.1), List.filter_cons_of_pos (p := fun k : KeyPart => k.track == t.id) (a := k) (by simpa using h), List.map_cons, List.sum_cons]
        omega
      · rw [List.filter_cons_of_neg (by simpa using h)]
        rw [List.map_cons, List.mem_cons] at hk
        have := ih hn.2 (hk.resolve_left h)
        omega

/-- **C92** fails for the last sample of every track: it is in the tables, but its place is zero, which is in the header; it is not
sent, and the length that is announced is larger than the file by these samples. -/
theorem C92_last_fails {R : List Trk} (h : Fine R) {T : Nat → Play.Spec.Track} (hT : Holds R T) (flag : Nat → Bool) (header : Bytes)
    (large : Bool) (fuel : Nat) (hfuel : total R ≤ fuel) :
    (∀ t ∈ R, (tables t large (layout R fuel header.length)).count = t.samples.length ∧
      (tables t large (layout R fuel header.length)).chunks[t.samples.length - 1]? = some 0) ∧
    ∃ k, ∀ j, fileSize R header.length = (file header (got R T flag 0 (k + j))).length + (R.map fun t => ((t.samples.getLast?.map fun s => s.data.length).getD 0)).sum := by
  have hfirst := first_set h
  have hall : visit R fuel (firstSet R) = all R := visit_fuel h hfirst.1 (by omega) hfirst.2.2.1
  refine ⟨fun t ht => ⟨?_, ?_⟩, ?_⟩
  · show (stszOf t).length = _
    rw [stszOf_eq, List.length_map, partsOf_length]
  · show (chunksOf t large (layout R fuel header.length))[t.samples.length - 1]? = some 0
    rw [hfirst.2.2.2, hall]
    unfold chunksOf
    rw [chunks_none]
    · rw [List.getElem?_replicate, if_pos (by rw [partsOf_length]; have := (h.two t ht).1; omega)]
    · intro c hc hct
      obtain ⟨pre, suf, e1, _⟩ := places_mem hc
      obtain ⟨u, hu, hcu, _, hl⟩ := all_on h c.1 (by rw [e1]; exact List.mem_append_right _ List.mem_cons_self)
      have hut : u = t := by rw [← trkOf_eq h.ids hu, ← hcu, hct, trkOf_eq h.ids ht]
      subst hut
      omega
  · obtain ⟨k, hk⟩ := got_eq h hT flag 0
    refine ⟨k, fun j => ?_⟩
    have hz : (all R).filter (fun x => decide (0 ≤ x.time)) = all R := by
      rw [List.filter_eq_self]
      intro x _
      simp
    rw [hk j, hz, file_eq, List.length_append, ← sizes_length h (all_on h)]
    unfold fileSize sizes
    rw [Nat.add_assoc]
    congr 1
    rw [sum_tracks _ R h.ids (all R) (fun x hx => by
      obtain ⟨t, ht, hkt, _⟩ := all_on h x hx
      rw [hkt]; exact List.mem_map_of_mem ht)]
    rw [← List.sum_map_add]
    congr 1
    apply List.map_congr_left
    intro t ht
    rw [all_track h ht]
    have hl2 := (h.two t ht).1
    have hseq : (seq t 0).map (fun x => (part (trkOf R x.track) x.index).size) = ((partsOf t.samples).map Part.size).dropLast := by
      unfold seq
      rw [List.drop_zero, List.map_dropLast, List.map_map]
      congr 1
      apply List.ext_getElem?
      intro i
      rw [List.getElem?_map, List.getElem?_map, List.getElem?_zipIdx]
      by_cases hi : i < t.samples.length
      · rw [List.getElem?_eq_getElem hi, List.getElem?_eq_getElem (by rw [partsOf_length]; exact hi)]
        simp only [Option.map_some, Function.comp]
        rw [trkOf_eq h.ids ht, Nat.zero_add]
        unfold part
        rw [List.getD_eq_getElem?_getD, List.getElem?_eq_getElem (by rw [partsOf_length]; exact hi)]
        rfl
      · rw [List.getElem?_eq_none (by omega), List.getElem?_eq_none (by rw [partsOf_length]; omega)]
        rfl
    rw [hseq]
    have hne : (partsOf t.samples).map Part.size ≠ [] := by
      intro hc
      have := congrArg List.length hc
      rw [List.length_map, partsOf_length, List.length_nil] at this
      omega
    have hlast : ((t.samples.getLast?.map fun s => s.data.length).getD 0) = ((partsOf t.samples).map Part.size).getLast hne := by
      have hs := List.getElem?_eq_getElem (l := t.samples) (i := t.samples.length - 1) (by omega)
      rw [List.getLast?_eq_getElem?, hs]
      have hp := part_get hs (by have := h.size t ht _ (List.mem_of_getElem? hs); omega)
      rw [List.getLast_eq_getElem, List.getElem_map]
      show _ = _
      simp only [Option.map_some, Option.getD_some]
      rw [← hp]
      unfold part
      rw [List.getD_eq_getElem?_getD, List.getElem?_eq_getElem (by rw [partsOf_length]; omega)]
      simp only [Option.getD_some, List.length_map, partsOf_length]
    rw [hlast]
    conv => lhs; rw [← List.dropLast_append_getLast hne]
    rw [List.sum_append, List.sum_singleton]

/-! ## Recordings for examples -/

theorem gap_of {l : List Sample} (h : ∀ x ∈ l.zip l.tail, x.2.time - x.1.time < 2 ^ 16) (i : Nat) (a b : Sample) (ha : l[i]? = some a)
    (hb : l[i + 1]? = some b) : b.time - a.time < 2 ^ 16 := by
  refine h (a, b) (List.mem_of_getElem? (i := i) ?_)
  rw [List.getElem?_zip_eq_some (z := (a, b))]
  exact ⟨ha, by rw [List.getElem?_tail]; exact hb⟩

/-- The pages of a recording: a page per packet. -/
def pagesOf (R : List Trk) (id : Nat) : Play.Spec.Track :=
  ⟨1, (trkOf R id).samples.map fun s => [[⟨s.time, s.data⟩]], lastms (trkOf R id)⟩

theorem served {R : List Trk} (h : Fine R) {T : Nat → Play.Spec.Track} (hT : Holds R T) (flag : Nat → Bool) (pos : Nat) :
    ∃ k, ∀ j, got R T flag 0 (k + j) = (all R).map (pk R) ∧ got R T flag pos (k + j) = ((all R).filter fun x => decide (pos ≤ x.time)).map (pk R) := by
  obtain ⟨k1, hk1⟩ := got_eq h hT flag 0
  obtain ⟨k2, hk2⟩ := got_eq h hT flag pos
  refine ⟨k1 + k2, fun j => ⟨?_, ?_⟩⟩
  · rw [show k1 + k2 + j = k1 + (k2 + j) by omega, hk1]
    congr 1
    rw [List.filter_eq_self]
    intro x _
    simp
  · rw [show k1 + k2 + j = k2 + (k1 + j) by omega, hk2]

/-- A recording with two tracks. -/
def movie : List Trk := [
  ⟨1, true, [⟨0, 40, true, [1, 2]⟩, ⟨40, 80, false, [3, 4, 5]⟩, ⟨80, 0, true, [6]⟩, ⟨130, 0, false, [7, 8]⟩]⟩,
  ⟨2, false, [⟨10, 0, true, [20, 21]⟩, ⟨50, 0, true, [22]⟩, ⟨90, 0, true, [23]⟩]⟩]

theorem movie_fine : Fine movie where
  ids := by decide
  some := by decide
  two := by decide
  time := by decide
  gap := fun t ht => gap_of (by revert t; decide)
  early := by decide
  size := by decide
  off := by decide

theorem movie_holds : Holds movie (pagesOf movie) where
  good := fun t ht => by
    revert t
    show ∀ t ∈ movie, _
    intro t ht
    have h1 : ∀ t ∈ movie, (pagesOf movie t.id).pages ≠ [] ∧ (∀ p ∈ (pagesOf movie t.id).pages, p ≠ []) ∧
        (∀ g ∈ (pagesOf movie t.id).pages.flatten, g ≠ []) ∧
        (Play.Spec.packets (pagesOf movie t.id).pages).Pairwise (fun a b => a.time < b.time) ∧
        Play.Spec.lastTime (Play.Spec.packets (pagesOf movie t.id).pages) ≤ (pagesOf movie t.id).now := by decide +kernel
    obtain ⟨a, b, c, d, e⟩ := h1 t ht
    exact ⟨a, b, c, d, e⟩
  now := by decide +kernel
  packets := by decide +kernel

/-- The order of the samples. -/
example : (all movie).map (pk movie) =
    [(1, ⟨0, [1, 2]⟩), (2, ⟨10, [20, 21]⟩), (1, ⟨40, [3, 4, 5]⟩), (2, ⟨50, [22]⟩), (1, ⟨80, [6]⟩)] := by decide +kernel

/-- A case of `C92_tables_partial`: the tables of the two tracks, for a header of 100 bytes. -/
example : Fine movie ∧ Holds movie (pagesOf movie) ∧ total movie ≤ 7 ∧
    (movie.map fun t => (sttsOf t).rows) = [[(2, 40), (2, 50)], [(3, 40)]] ∧
    (movie.map fun t => (sttsOf t).count) = [2, 1] ∧
    (movie.map fun t => (cttsOf t).map Rows.rows) = [some [(1, 40), (1, 80), (2, 0)], none] ∧
    (movie.map stszOf) = [[2, 3, 1, 2], [2, 1, 1]] ∧
    (movie.map stssOf) = [some [1, 3], none] ∧
    (movie.map fun t => chunksOf t false (layout movie 7 100)) = [[100, 104, 108, 0], [102, 107, 0]] := by
  refine ⟨movie_fine, movie_holds, ?_⟩
  decide +kernel

/-- A case of `C92_range_partial`: a range from the header into a packet, and one from a packet into another. -/
example : (∀ t ∈ movie, ∀ s ∈ t.samples, s.data ≠ []) ∧ Distinct movie ∧
    (∀ k, got movie (pagesOf movie) (fun _ => false) 0 k = (all movie).map (pk movie) →
      file [91, 92, 93] (got movie (pagesOf movie) (fun _ => false) 0 k) = [91, 92, 93, 1, 2, 20, 21, 3, 4, 5, 22, 6]) ∧
    (respond movie 7 [91, 92, 93] 3 8 9).2.1 = 40 ∧
    delivered ((respond movie 7 [91, 92, 93] 3 8 9).1 ++ sendAll movie 8 (respond movie 7 [91, 92, 93] 3 8 9).2.2 [[3, 4, 5], [22], [6]]) = [4, 5] ∧
    delivered ((respond movie 7 [91, 92, 93] 3 1 5).1 ++ sendAll movie 1 (respond movie 7 [91, 92, 93] 3 1 5).2.2 [[1, 2], [20, 21], [3, 4, 5], [22], [6]]) = [92, 93, 1, 2, 20] := by
  refine ⟨by decide, by unfold Distinct; decide, fun k hk => ?_, by decide +kernel⟩
  rw [hk]
  decide +kernel

/-- **C92** fails for ranges that stop before the end of a packet that is not the last one: after the bytes of the range, the
response goes on with as many bytes of memory as a number of 32 bits can tell, nearly 2^32 here. The range is the header and the first
byte after it. -/
theorem C92_overrun_fails : ∃ (R : List Trk) (T : Nat → Play.Spec.Track) (header : Bytes), Fine R ∧ Holds R T ∧ Distinct R ∧
    (∀ t ∈ R, ∀ s ∈ t.samples, s.data ≠ []) ∧ ∃ k, ∀ j,
      (respond R (total R) header header.length 0 header.length).1 ++
        sendAll R 0 (respond R (total R) header header.length 0 header.length).2.2
          ((got R T (fun _ => false) (respond R (total R) header header.length 0 header.length).2.1 (k + j)).map fun x => x.2.data) =
      [.bytes header, .bytes [1], .beyond (2 ^ 32 - 1), .beyond (2 ^ 32 - 3), .beyond (2 ^ 32 - 6), .beyond (2 ^ 32 - 7)] := by
  refine ⟨movie, pagesOf movie, [91, 92, 93], movie_fine, movie_holds, by unfold Distinct; decide, by decide, ?_⟩
  obtain ⟨k, hk⟩ := served movie_fine movie_holds (fun _ => false) (respond movie (total movie) [91, 92, 93] 3 0 3).2.1
  refine ⟨k, fun j => ?_⟩
  rw [show ([91, 92, 93] : Bytes).length = 3 from rfl, (hk j).2]
  decide +kernel

/-- A recording whose tracks have packets at the same time. -/
def together : List Trk := [⟨1, true, [⟨0, 0, true, [1, 2]⟩, ⟨40, 0, false, [3, 4]⟩]⟩, ⟨2, false, [⟨0, 0, true, [5, 6]⟩, ⟨40, 0, true, [7]⟩]⟩]

theorem together_fine : Fine together where
  ids := by decide
  some := by decide
  two := by decide
  time := by decide
  gap := fun t ht => gap_of (by revert t; decide)
  early := by decide
  size := by decide
  off := by decide

theorem holds_of {R : List Trk} (h : ∀ t ∈ R, ((pagesOf R t.id).pages ≠ [] ∧ (∀ p ∈ (pagesOf R t.id).pages, p ≠ []) ∧
        (∀ g ∈ (pagesOf R t.id).pages.flatten, g ≠ []) ∧
        (Play.Spec.packets (pagesOf R t.id).pages).Pairwise (fun a b => a.time < b.time) ∧
        Play.Spec.lastTime (Play.Spec.packets (pagesOf R t.id).pages) ≤ (pagesOf R t.id).now) ∧
        (pagesOf R t.id).now = Play.Spec.lastTime (Play.Spec.packets (pagesOf R t.id).pages) ∧
        Play.Spec.packets (pagesOf R t.id).pages = t.samples.map fun s => ⟨s.time, s.data⟩) : Holds R (pagesOf R) where
  good := fun t ht => ⟨(h t ht).1.1, (h t ht).1.2.1, (h t ht).1.2.2.1, (h t ht).1.2.2.2.1, (h t ht).1.2.2.2.2⟩
  now := fun t ht => (h t ht).2.1
  packets := fun t ht => (h t ht).2.2

/-- **C92** fails for ranges that start in the second one of two packets at the same time: the answer are bytes of the first one. -/
theorem C92_same_time_fails : ∃ (R : List Trk) (T : Nat → Play.Spec.Track) (header : Bytes) (start stop : Nat), Fine R ∧ Holds R T ∧ start ≤ stop ∧
    (∀ t ∈ R, ∀ s ∈ t.samples, s.data ≠ []) ∧ ∃ k, ∀ j,
      ((file header (got R T (fun _ => false) 0 (k + j))).drop start).take (stop + 1 - start) = [5, 6] ∧
      delivered ((respond R (total R) header header.length start stop).1 ++
        sendAll R start (respond R (total R) header header.length start stop).2.2
          ((got R T (fun _ => false) (respond R (total R) header header.length start stop).2.1 (k + j)).map fun x => x.2.data)) = [1, 2] := by
  refine ⟨together, pagesOf together, [91, 92, 93], 5, 6, together_fine, holds_of (by decide +kernel), by decide, by decide, ?_⟩
  obtain ⟨k, hk⟩ := served together_fine (holds_of (by decide +kernel)) (fun _ => false) (respond together (total together) [91, 92, 93] 3 5 6).2.1
  refine ⟨k, fun j => ?_⟩
  rw [show ([91, 92, 93] : Bytes).length = 3 from rfl, (hk j).1, (hk j).2]
  decide +kernel

/-- A recording with an empty packet. -/
def hollow : List Trk := [⟨1, true, [⟨0, 0, true, [1, 2]⟩, ⟨40, 0, false, []⟩, ⟨80, 0, false, [3]⟩, ⟨120, 0, false, [4]⟩]⟩]

theorem hollow_fine : Fine hollow where
  ids := by decide
  some := by decide
  two := by decide
  time := by decide
  gap := fun t ht => gap_of (by revert t; decide)
  early := by decide
  size := by decide
  off := by decide

/-- **C92** fails after an empty packet, which ends the response. -/
theorem C92_empty_fails : ∃ (R : List Trk) (T : Nat → Play.Spec.Track) (header : Bytes) (stop : Nat), Fine R ∧ Holds R T ∧ Distinct R ∧ ∃ k, ∀ j,
      (file header (got R T (fun _ => false) 0 (k + j))).take (stop + 1) = header ++ [1, 2, 3] ∧
      delivered ((respond R (total R) header header.length 0 stop).1 ++
        sendAll R 0 (respond R (total R) header header.length 0 stop).2.2
          ((got R T (fun _ => false) (respond R (total R) header header.length 0 stop).2.1 (k + j)).map fun x => x.2.data)) = header ++ [1, 2] := by
  refine ⟨hollow, pagesOf hollow, [91, 92, 93], 5, hollow_fine, holds_of (by decide +kernel), by unfold Distinct; decide, ?_⟩
  obtain ⟨k, hk⟩ := served hollow_fine (holds_of (by decide +kernel)) (fun _ => false) (respond hollow (total hollow) [91, 92, 93] 3 0 5).2.1
  refine ⟨k, fun j => ?_⟩
  rw [show ([91, 92, 93] : Bytes).length = 3 from rfl, (hk j).1, (hk j).2]
  decide +kernel

/-- **C92** fails for the table of durations if all durations are the size of the first sample: one entry is written, but its
number of entries is this size. -/
theorem C92_entries_fails {R : List Trk} (h : Fine R) {t : Trk} (ht : t ∈ R) {f : Sample} (hf : t.samples[0]? = some f)
    (hsame : ∀ (i : Nat) (a b : Sample), t.samples[i]? = some a → t.samples[i + 1]? = some b → b.time - a.time = f.data.length) :
    (sttsOf t).rows.length = 1 ∧ (sttsOf t).count = f.data.length := by
  obtain ⟨h2, h29⟩ := h.two t ht
  obtain ⟨_, _, s3⟩ := stts_rows h2 h29
  have hsz := h.size t ht f (List.mem_of_getElem? hf)
  have hp := part_get hf (by omega)
  rw [hp] at s3
  have hpos : 0 < f.data.length := by
    have h1 := List.getElem?_eq_getElem (l := t.samples) (i := 1) (by omega)
    have := time_lt (h.time t ht) Nat.zero_lt_one hf h1
    have := hsame 0 f _ hf h1
    omega
  have hd : ∀ i, i < t.samples.length → (partsOf t.samples)[i]?.map Part.dur = some f.data.length := by
    have hstep : ∀ i, i + 1 < t.samples.length → (partsOf t.samples)[i]?.map Part.dur = some f.data.length := by
      intro i hi
      have ha := List.getElem?_eq_getElem (l := t.samples) (i := i) (by omega)
      have hb := List.getElem?_eq_getElem (l := t.samples) (i := i + 1) (by omega)
      have := part_dur ha hb (h.gap t ht i _ _ ha hb)
      rw [hsame i _ _ ha hb] at this
      unfold part at this
      rw [List.getD_eq_getElem?_getD, List.getElem?_eq_getElem (by rw [partsOf_length]; omega)] at this
      rw [List.getElem?_eq_getElem (by rw [partsOf_length]; omega), ← this]
      rfl
    intro i hi
    by_cases hc : i + 1 < t.samples.length
    · exact hstep i hc
    · have hlast : ∀ (l : List Nat) (d : Nat), 2 ≤ l.length → (durations d l)[l.length - 1]? = (durations d l)[l.length - 2]? := by
        intro l
        induction l with
        | nil => intro d h; simp at h
        | cons a l ih =>
          intro d hl
          cases l with
          | nil => simp at hl
          | cons b r =>
            cases r with
            | nil => rfl
            | cons c r =>
              rw [durations]
              have := ih ((b - a) % 2 ^ 16) (by simp)
              simp only [List.length_cons] at this ⊢
              rw [show r.length + 1 + 1 + 1 - 1 = (r.length + 1 + 1 - 1) + 1 by omega, show r.length + 1 + 1 + 1 - 2 = (r.length + 1 + 1 - 2) + 1 by omega,
                List.getElem?_cons_succ, List.getElem?_cons_succ]
              exact this
      have hi' : i = t.samples.length - 1 := by omega
      have ha := List.getElem?_eq_getElem (l := t.samples) (i := t.samples.length - 2) (by omega)
      obtain ⟨d, hd, hp⟩ := partsOf_get ha
      have hb := List.getElem?_eq_getElem (l := t.samples) (i := t.samples.length - 1) (by omega)
      obtain ⟨e, he, hq⟩ := partsOf_get hb
      have := hlast (t.samples.map Sample.time) 0 (by rw [List.length_map]; exact h2)
      rw [List.length_map, hd, he] at this
      have hst := hstep (t.samples.length - 2) (by omega)
      rw [hp] at hst
      rw [hi', hq]
      rw [Option.some.inj this]
      exact hst
  obtain ⟨q1, q2⟩ := s3 fun p hp => by
    obtain ⟨i, hi, he⟩ := List.mem_iff_getElem.mp hp
    have := hd i (by rw [partsOf_length] at hi; exact hi)
    rw [List.getElem?_eq_getElem hi, he] at this
    exact Option.some.inj this
  exact ⟨q1, by rw [q2]; omega⟩

/-- A track with packets of 20 bytes, one each 20 milliseconds. -/
def regular : List Trk := [⟨1, false, (List.range 5).map fun i => ⟨20 * i, 0, true, List.replicate 20 0⟩⟩]

/-- A case of `C92_entries_fails`: the table has one entry, and claims 20. -/
example : (regular.map fun t => (sttsOf t).rows) = [[(5, 20)]] ∧ (regular.map fun t => (sttsOf t).count) = [20] := by decide +kernel

/-- **C92** fails for gaps of 65.536 seconds and more: what follows is in the tables before the gap ends. -/
theorem C92_gap_fails : ∃ t : Trk, t.samples.Pairwise (fun a b => a.time < b.time) ∧ (∀ s ∈ t.samples, s.time < 2 ^ 20 ∧ s.data.length = 1 ∧ s.off = 0) ∧
    t.samples[1]?.map Sample.time = some 70000 ∧ ∀ calls, firstms t + Stbl.decodeTime (tables t false calls) 1 = 4464 := by
  refine ⟨⟨1, true, [⟨0, 0, true, [1]⟩, ⟨70000, 0, false, [2]⟩, ⟨70040, 0, false, [3]⟩]⟩, by decide, by decide, rfl, fun calls => ?_⟩
  show 0 + (((sttsOf _).rows.flatMap fun e => List.replicate e.1 e.2).take 1).sum = 4464
  decide +kernel

/-- **C92** fails for negative offsets: the table is of a version without negative numbers. -/
theorem C92_negative_fails : ∃ t : Trk, t.samples.Pairwise (fun a b => a.time < b.time) ∧ t.samples[1]?.map Sample.off = some (-10) ∧
    ∀ calls, (Stbl.offsets (tables t false calls))[1]? = some (2 ^ 32 - 10) := by
  refine ⟨⟨1, true, [⟨0, 0, true, [1]⟩, ⟨40, -10, false, [2]⟩, ⟨80, 0, false, [3]⟩]⟩, by decide, rfl, fun calls => ?_⟩
  have : ∀ calls, Stbl.offsets (tables ⟨1, true, [⟨0, 0, true, [1]⟩, ⟨40, -10, false, [2]⟩, ⟨80, 0, false, [3]⟩]⟩ false calls) =
      Stbl.offsets (tables ⟨1, true, [⟨0, 0, true, [1]⟩, ⟨40, -10, false, [2]⟩, ⟨80, 0, false, [3]⟩]⟩ false []) := fun _ => rfl
  rw [this]
  decide +kernel

end Verif.Prog
