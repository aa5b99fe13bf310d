import Verif.Vod.Props

/-!
# C103: what is read from loaded pages, and files that are not the recording
-/
namespace Verif.Vod
open Verif Verif.Page Verif.Page.Spec Verif.Dtsc Verif.Dtsc.Spec Spec

theorem accepted_all (size : Nat) (ps : List Pack) : ∀ used, used + (ps.map packLen).sum ≤ size →
    accepted size used (ps.map fun p => ⟨true, 0, p⟩) = ps.map content := by
  induction ps with
  | nil => intro u _; rfl
  | cons p ps ih =>
    intro u h
    rw [List.map_cons, List.sum_cons, pack_len] at h
    rw [List.map_cons, List.map_cons]
    unfold accepted
    rw [if_pos ⟨.inl rfl, by show u + packetSize (content p) ≤ size; omega⟩]
    rw [ih _ (by show u + packetSize (content p) + _ ≤ size; omega)]

theorem total_sum (ps : List Pack) : total (ps.map content) = (ps.map packLen).sum := by
  induction ps with
  | nil => rfl
  | cons p ps ih =>
    rw [List.map_cons, List.map_cons, List.sum_cons, total, ih, pack_len]

/-- **C103.** A process that goes through a loaded page finds exactly the packets of its keys, and every accessor gives what is in the file. Missing: a
page that is filled to the last byte, see `C62_full_page_fails`. -/
theorem C103_read_partial (t : Track) (gs : List (List Pack)) (hd : Describes t gs) (timeout : Nat) (ops : List Op) (hf : AllFaithful gs ops) (sl : Slot)
    (hsl : sl ∈ (run t timeout ops).slots) (hav : sl.avail ≠ 0) (hroom : sl.avail < sl.info.size)
    (hfit : ∀ p ∈ gs.flatten, FitsPacket (content p) ∧ packetSize (content p) < 2 ^ 32)
    (ws : List (Nat × UInt8)) (hw : Sched sl.mem ws) (written n : Nat) (hwr : sl.avail ≤ written) (hn : sl.info.parts ≤ n) :
    walk sl.info.size (watch ws fun _ => written) n 0 0 = .ok (places 0 ((packets gs sl.info.firstKey sl.info.keyCount).map content)) ∧
    ∀ a c b, (packets gs sl.info.firstKey sl.info.keyCount).map content = a ++ c :: b → Reads (cut (memAt ws written) (total a) (packetSize c)) c := by
  have hinv := inv_run hd timeout hf
  generalize run t timeout ops = s at *
  obtain ⟨i, hi⟩ := List.mem_iff_getElem?.mp hsl
  have hfa := facts hd hinv.infos hi
  have hfull : Full gs sl := by
    rcases hinv.ok sl hsl with h | h
    · rw [h] at hav
      exact absurd rfl hav
    · exact h
  obtain ⟨h1, h2⟩ := hfull
  have hsize := hfa.size
  have hsmall := hfa.small
  have hparts := hfa.parts
  generalize hps : packets gs sl.info.firstKey sl.info.keyCount = ps at *
  have hacc := accepted_all sl.info.size ps 0 (by omega)
  have htot := total_sum ps
  have hmem : ∀ p ∈ ps, p ∈ gs.flatten := by
    intro p hp
    rw [← hps] at hp
    unfold packets at hp
    obtain ⟨g, hg, hpg⟩ := List.mem_flatten.mp hp
    exact List.mem_flatten.mpr ⟨g, List.mem_of_mem_drop (List.mem_of_mem_take hg), hpg⟩
  rw [h2] at hw
  have hs64 : sl.info.size < 2 ^ 64 := by
    have : (4294967296 : Nat) < 2 ^ 64 := by decide
    exact Nat.lt_trans hsmall this
  have hc := C62_whole_packets_partial sl.info.size hs64 (ps.map fun p => ⟨true, 0, p⟩)
    (by
      intro c hc
      obtain ⟨p, hp, rfl⟩ := List.mem_map.mp hc
      exact hfit p (hmem p hp))
    (by rw [hacc, htot]; omega) ws hw (fun _ => written) (fun _ _ _ => Nat.le_refl _) n
  rw [hacc] at hc
  obtain ⟨m, m1, m2, m3, m4, m5⟩ := hc
  have hlen : (ps.map content).length = sl.info.parts := by rw [List.length_map, hparts]
  have hm : (ps.map content).length ≤ m := m4 _ (Nat.le_refl _) (by omega) (by rw [List.take_length, htot]; omega)
  rw [List.take_of_length_le hm] at m3 m5
  exact ⟨m3, fun a c b e => m5 a c b e written (Nat.le_refl _)⟩

/-- The packets of the sample have the form that is needed, and its pages have room. -/
example : (∀ p ∈ sample.flatten, FitsPacket (content p) ∧ packetSize (content p) < 2 ^ 32) ∧
    ∃ sl ∈ (run (indexOf sample) 15 (sampleOps.take 2)).slots, sl.avail ≠ 0 ∧ sl.avail < sl.info.size := by
  constructor
  · intro p hp
    obtain ⟨g, hg, hpg⟩ := List.mem_flatten.mp hp
    unfold sample at hg
    obtain ⟨t, ht, rfl⟩ := List.mem_map.mp hg
    simp only [List.mem_cons, List.not_mem_nil, or_false] at ht hpg
    rw [FitsPacket]
    rcases ht with rfl | rfl | rfl | rfl <;> rcases hpg with rfl | rfl <;> decide
  · have : ((run (indexOf sample) 15 (sampleOps.take 2)).slots.any fun sl => decide (sl.avail ≠ 0 ∧ sl.avail < sl.info.size)) = true := by decide +kernel
    obtain ⟨sl, h1, h2⟩ := List.any_eq_true.mp this
    exact ⟨sl, h1, of_decide_eq_true h2⟩

/-! ## Other files -/

theorem load_info (sizes : List Nat) (stop : Nat) : ∀ (xs : List Pack) (partNo last n : Nat) (s : Slot), (load sizes stop partNo last n s xs).1.info = s.info
  | [], _, _, _, _ => rfl
  | x :: xs, partNo, last, n, s => by
    unfold load
    split
    · rfl
    · split
      · exact load_info sizes stop xs partNo last n s
      · split
        · rfl
        · rw [load_info sizes stop xs, (buffer_parts s x).1]

theorem infos_want (t : Track) (s : State) (key now : Nat) (src : Nat → List Pack) : (bufferFrame t s key now src).1.slots.map (·.info) = s.slots.map (·.info) := by
  unfold bufferFrame
  split
  · rfl
  · cases hs : s.slots[pageIdx key s.slots 0 0]? with
    | none => rfl
    | some sl =>
      dsimp only
      split
      · rfl
      · split
        · exact infos_set hs rfl
        · refine infos_set hs ?_
          unfold loaded
          rw [load_info]
          rfl

theorem infos_ops (t : Track) (timeout : Nat) : ∀ (ops : List Op) (s : State), (ops.foldl (step t timeout) s).slots.map (·.info) = s.slots.map (·.info)
  | [], _ => rfl
  | o :: ops, s => by
    rw [List.foldl_cons, infos_ops t timeout ops]
    cases o with
    | want key now src => exact infos_want t s key now src
    | clean now =>
      show (s.slots.map _).map _ = _
      rw [List.map_map]
      apply List.map_congr_left
      intro y _
      show (if _ then y.empty else y).info = y.info
      split <;> rfl

theorem On_unique {t : Track} (hm : ∀ g ∈ pagesOf [] t.keys, Small g) {s : State} (hi : s.slots.map (·.info) = split 0 none t.keys) {i j : Nat} {a b : Slot} {key : Nat}
    (ha : s.slots[i]? = some a) (hb : s.slots[j]? = some b) (h1 : On a key) (h2 : On b key) : i = j := by
  obtain ⟨c, hc, hr⟩ := slot_rec hm hi ha
  obtain ⟨d, hd, hq⟩ := slot_rec hm hi hb
  have s1 := firstOf_succ hc
  have s2 := firstOf_succ hd
  unfold On at h1 h2
  rw [hr] at h1
  rw [hq] at h2
  simp only [recOf] at h1 h2
  rcases Nat.lt_trichotomy i j with hlt | heq | hgt
  · have := firstOf_mono (pagesOf [] t.keys) (show i + 1 ≤ j from hlt)
    omega
  · exact heq
  · have := firstOf_mono (pagesOf [] t.keys) (show j + 1 ≤ i from hgt)
    omega

/-- **C103.** A page is never offered with packets missing: when the file gives fewer packets than the page should have, the request fails, and the page
is empty. This holds whatever the file gave before. -/
theorem C103_short (t : Track) (hm : ∀ g ∈ pagesOf [] t.keys, Small g) (timeout : Nat) (ops : List Op) (key now : Nat) (hk : key < t.keys.length) (src : Nat → List Pack)
    (hs : ∀ sl ∈ (run t timeout ops).slots, On sl key → sl.avail = 0 ∧ (src (t.key sl.info.firstKey).time).length < sl.info.parts) :
    (bufferFrame t (run t timeout ops) key now src).2 = false ∧
    ∀ sl ∈ (bufferFrame t (run t timeout ops) key now src).1.slots, On sl key → sl.avail = 0 ∧ sl.mem = [] := by
  have hinf : (run t timeout ops).slots.map (·.info) = split 0 none t.keys := (infos_ops t timeout ops _).trans (inv_start t []).infos
  generalize run t timeout ops = s at *
  obtain ⟨sl, hsl, hon⟩ := found_page hm hinf hk
  obtain ⟨ha, hlen⟩ := hs sl (List.mem_of_getElem? hsl) hon
  have hb := buffered_iff hm hinf hsl
  have hcnt : (loaded t s (pageIdx key s.slots 0 0) sl (src (t.key sl.info.firstKey).time)).2 < sl.info.parts := by
    unfold loaded
    have h1 := load_count t.sizes (stopOf t s (pageIdx key s.slots 0 0) sl.info)
      ((src (t.key sl.info.firstKey).time).dropWhile fun p => decide (p.time < (t.key sl.info.firstKey).time)) (t.key sl.info.firstKey).firstPart 0 0 sl.empty
    have h2 : ((src (t.key sl.info.firstKey).time).dropWhile fun p => decide (p.time < (t.key sl.info.firstKey).time)).length ≤ (src (t.key sl.info.firstKey).time).length :=
      (List.dropWhile_sublist _).length_le
    omega
  have hres : bufferFrame t s key now src =
      ({ slots := s.slots.set (pageIdx key s.slots 0 0) sl.empty, counter := s.counter.filter (·.1 ≠ sl.info.firstKey) }, false) := by
    unfold bufferFrame
    rw [if_neg (by omega), hsl]
    dsimp only
    rw [hb, if_neg (by simpa using ha), if_pos hcnt]
  rw [hres]
  refine ⟨rfl, ?_⟩
  intro x hx hox
  rcases mem_set' hx with rfl | ⟨j, hj, hxj⟩
  · exact ⟨rfl, rfl⟩
  · exact absurd (On_unique hm hinf hxj hsl hox hon) hj

/-- A file that ends too early. -/
example : ∀ sl ∈ (run (indexOf sample) 15 []).slots, On sl 3 → sl.avail = 0 ∧ ((fun _ => sample.flatten.take 1) (((indexOf sample).key sl.info.firstKey).time)).length < sl.info.parts := by
  have : ∀ sl ∈ (run (indexOf sample) 15 []).slots, sl.avail = 0 ∧ (sample.flatten.take 1).length < sl.info.parts := by decide +kernel
  exact fun sl h _ => this sl h

/-- Two pages; the last packet of the first page has the time of the key of the second. -/
def sampleEqual : List (List Pack) :=
  [[⟨0, 0, 1, [1], 0, true⟩], [⟨61000, 0, 1, [1], 0, true⟩, ⟨62000, 0, 1, [2], 0, false⟩], [⟨62000, 0, 1, [1], 0, true⟩]]

/-- **C103** fails when the last packet of a page has the same time as the key after it: the file gives every packet, as often as it is asked, and the
page is never loaded. -/
theorem C103_equal_fails : ∃ (gs : List (List Pack)) (src : Nat → List Pack), Faithful gs src ∧ gs.flatten.Pairwise (fun a b => a.time ≤ b.time) ∧
    (∀ g ∈ gs, g ≠ []) ∧ ∀ now, bufferFrame (indexOf gs) (parseHeader (indexOf gs)) 0 now src = (parseHeader (indexOf gs), false) := by
  refine ⟨sampleEqual, fun time => sampleEqual.flatten.dropWhile fun p => decide (p.time < time), ?_, ?_, ?_, ?_⟩
  · intro time
    refine ⟨sampleEqual.flatten.takeWhile fun p => decide (p.time < time), List.takeWhile_append_dropWhile.symm, ?_⟩
    intro p hp
    have := List.all_eq_true.mp (List.all_takeWhile (p := fun p : Pack => decide (p.time < time)) (l := sampleEqual.flatten)) p hp
    exact of_decide_eq_true this
  · have : (sampleEqual.flatten.map (·.time)).Pairwise (· ≤ ·) := by decide +kernel
    rw [List.pairwise_map] at this
    exact this
  · intro g hg
    unfold sampleEqual at hg
    simp only [List.mem_cons, List.not_mem_nil, or_false] at hg
    rcases hg with rfl | rfl | rfl <;> simp
  · intro now
    obtain ⟨sl, hsl⟩ : ∃ sl, sl = (parseHeader (indexOf sampleEqual)).slots.headD ⟨⟨0, 0, 0, 0, 0, 0⟩, 0, []⟩ := ⟨_, rfl⟩
    have h1 : (parseHeader (indexOf sampleEqual)).slots[pageIdx 0 (parseHeader (indexOf sampleEqual)).slots 0 0]? = some sl := by rw [hsl]; decide +kernel
    unfold bufferFrame
    rw [if_neg (by decide +kernel), h1]
    dsimp only
    rw [if_neg (by rw [hsl]; decide +kernel), if_pos (by rw [hsl]; decide +kernel)]
    rw [hsl]
    congr 1

end Verif.Vod
