import Verif.Ogg.Hist
import Verif.Ogg.Read
import Verif.Crc.Props

/-!
# C105: what is sent as OGG is a stream of pages (RFC 3533) from which the same packets come out

`sent c serial h0 hs ps` is a track with headers `h0` (on a page of its own) and `hs`, and packets `ps`; `pagesOf` and `packets` are a reader of pages that follows the RFC.
-/
namespace Verif.Ogg
open Verif

/-- A reader of what is sent at any time gets the first packets that were given, in order and unchanged: all headers, and all packets but the last few, less than 255. Missing:
packets whose length is a multiple of 255 (see `C105_exact_fails`). -/
theorem C105_prefix_partial (c : Codec) (serial : Nat) (h0 : Bytes) (hs : List Bytes) (ps : List Packet) (hh : Headers h0 hs) (ho : ∀ x ∈ h0 :: hs ++ ps.map (·.data), Odd x) :
    ∃ pages waiting, pagesOf (sent c serial h0 hs ps).out = some pages ∧ packets pages ++ waiting = h0 :: hs ++ ps.map (·.data) ∧ waiting.length ≤ 254 ∧ h0 :: hs <+: packets pages := by
  obtain ⟨pre, more, gs, k, hR, hpk, _⟩ := sent_inv False c serial h0 hs ps hh (fun x hx => ho x (List.mem_append.2 (Or.inl hx)))
    (fun p hp => ho p.data (List.mem_append.2 (Or.inr (List.mem_map.2 ⟨p, hp, rfl⟩)))) (fun c => c.elim)
  refine ⟨pre ++ more, _, by rw [hR.inv.out]; exact pagesOf_enc _ hR.inv.ok, hR.inv.queue, ?_, ?_⟩
  · rw [attach_length]
    have h1 := hR.room
    have h2 : ∀ l : List Bytes, l.length ≤ cnt l := by
      intro l
      induction l with
      | nil => exact Nat.zero_le _
      | cons x l ih => rw [cnt_cons, List.length_cons]; omega
    have := h2 ((sent c serial h0 hs ps).queue.map (·.data))
    omega
  · rw [packets, assemble_append]
    exact ⟨_, by rw [← hpk]; rfl⟩

/-- After the end, a reader gets exactly the headers and packets, if no packet was split when the end came (see `C105_finish_fails`). Missing also: packets whose length is a
multiple of 255. -/
theorem C105_finish_partial (c : Codec) (serial : Nat) (h0 : Bytes) (hs : List Bytes) (ps : List Packet) (hh : Headers h0 hs) (ho : ∀ x ∈ h0 :: hs ++ ps.map (·.data), Odd x)
    (hcut : ∀ pages, pagesOf (sent c serial h0 hs ps).out = some pages → (assemble [] pages).2 = []) :
    ∃ pages, pagesOf (finish (sent c serial h0 hs ps)).out = some pages ∧ packets pages = h0 :: hs ++ ps.map (·.data) := by
  obtain ⟨pre, more, gs, k, hR, hpk, _⟩ := sent_inv False c serial h0 hs ps hh (fun x hx => ho x (List.mem_append.2 (Or.inl hx)))
    (fun p hp => ho p.data (List.mem_append.2 (Or.inr (List.mem_map.2 ⟨p, hp, rfl⟩)))) (fun c => c.elim)
  have hc := hcut (pre ++ more) (by rw [hR.inv.out]; exact pagesOf_enc _ hR.inv.ok)
  have ht : (sent c serial h0 hs ps).typ.toNat % 2 = 0 := by
    have := hR.inv.flag
    rw [hc] at this
    simp at this
    exact this
  obtain ⟨last, a, b, d, _⟩ := finish_all hR ht
  exact ⟨pre ++ more ++ last, by rw [a]; exact pagesOf_enc _ b, d⟩

/-- Pages are numbered from zero without gaps, they all carry the serial number of the track, and the first one alone is marked as the first. A page is marked as the
continuation of a packet exactly if the pages before end within one. No page is without lacing values, and none has more than 255. -/
theorem C105_numbers (c : Codec) (serial : Nat) (h0 : Bytes) (hs : List Bytes) (ps : List Packet) (hh : Headers h0 hs) (ho : ∀ x ∈ h0 :: hs ++ ps.map (·.data), Odd x) :
    ∃ pages, pagesOf (sent c serial h0 hs ps).out = some pages ∧ ∀ (i : Nat) (p : Page), pages[i]? = some p →
      p.seq = i % 2 ^ 32 ∧ p.serial = serial % 2 ^ 32 ∧ (p.typ / 2 % 2 = 1 ↔ i = 0) ∧ p.typ / 4 = 0 ∧ (p.continued ↔ (assemble [] (pages.take i)).2 ≠ []) ∧ 1 ≤ p.lacing.length ∧ p.lacing.length ≤ 255 := by
  obtain ⟨pre, more, gs, k, hR, hpk, hz, ht, _⟩ := sent_inv False c serial h0 hs ps hh (fun x hx => ho x (List.mem_append.2 (Or.inl hx)))
    (fun p hp => ho p.data (List.mem_append.2 (Or.inr (List.mem_map.2 ⟨p, hp, rfl⟩)))) (fun c => c.elim)
  refine ⟨pre ++ more, by rw [hR.inv.out]; exact pagesOf_enc _ hR.inv.ok, fun i p hi => ?_⟩
  obtain ⟨h1, h2⟩ := hR.inv.seqs i p hi
  rw [sent_serial] at h2
  obtain ⟨hlt, hget⟩ := List.getElem?_eq_some_iff.1 hi
  have hmem : p ∈ pre ++ more := by rw [← hget]; exact List.getElem_mem hlt
  have hcut : pre ++ more = (pre ++ more).take i ++ p :: (pre ++ more).drop (i + 1) := by
    rw [← hget, List.getElem_cons_drop, List.take_append_drop]
  have htyp : (p.typ / 2 % 2 = 1 ↔ i = 0) ∧ p.typ / 4 = 0 := by
    by_cases hi0 : i = 0
    · subst hi0
      have hp2 : p.typ = 2 := by
        cases pre with
        | nil => simp at ht
        | cons x pre =>
          simp at ht hi
          rw [← hi, ht]
      rw [hp2]
      exact ⟨⟨fun _ => rfl, fun _ => by decide⟩, by decide⟩
    · rcases hR.inv.types i p hi (by omega) with h | h <;>
      · rw [h]
        exact ⟨⟨fun c => absurd c (by decide), fun c => absurd c hi0⟩, by decide⟩
  refine ⟨h1, h2, htyp.1, htyp.2, ?_, List.length_pos_iff.2 (hR.inv.laced p hmem), (hR.inv.ok p hmem).lacing⟩
  have := hR.inv.flags _ p _ hcut
  unfold Page.continued
  simpa using this

/-- The pages with the headers come first, with granule position 0. Each page after them has the granule position of the last packet that ends on it, or that which says that
none does. Missing: positions from 2^31 (see `C105_granule_fails`) and packets whose length is a multiple of 255. -/
theorem C105_granule_partial (c : Codec) (serial : Nat) (h0 : Bytes) (hs : List Bytes) (ps : List Packet) (hh : Headers h0 hs) (ho : ∀ x ∈ h0 :: hs ++ ps.map (·.data), Odd x)
    (hS : Steady c 0 ps) :
    ∃ pre more, pagesOf (sent c serial h0 hs ps).out = some (pre ++ more) ∧ packets pre = h0 :: hs ∧ (∀ p ∈ pre, p.granule = 0) ∧
      ∀ a p b, more = a ++ p :: b → Marked (List.replicate (hs.length + 1) 0 ++ granules c 0 ps) (pre ++ a) p := by
  obtain ⟨pre, more, gs, k, hR, hpk, hz, ht, hg⟩ := sent_inv True c serial h0 hs ps hh (fun x hx => ho x (List.mem_append.2 (Or.inl hx)))
    (fun p hp => ho p.data (List.mem_append.2 (Or.inr (List.mem_map.2 ⟨p, hp, rfl⟩)))) (fun _ => hS)
  refine ⟨pre, more, by rw [hR.inv.out]; exact pagesOf_enc _ hR.inv.ok, hpk, hz, fun a p b hab => ?_⟩
  have := hR.inv.marks trivial (pre ++ a) p b (by rw [hab, List.append_assoc]) (by simp)
  rw [hg trivial] at this
  exact this

/-- When a key frame of a Theora track was given, all packets up to it are complete on pages that were sent; and those before it were complete on earlier pages, so that the key
frame starts on a page of its own. -/
theorem C105_key (s serial : Nat) (h0 : Bytes) (hs : List Bytes) (ps : List Packet) (p : Packet) (hk : p.key = true) (hh : Headers h0 hs)
    (ho : ∀ x ∈ h0 :: hs ++ (ps ++ [p]).map (·.data), Odd x) :
    ∃ a b, pagesOf (sent (.theora s) serial h0 hs (ps ++ [p])).out = some (a ++ b) ∧ packets a = h0 :: hs ++ ps.map (·.data) ∧ packets (a ++ b) = h0 :: hs ++ ps.map (·.data) ++ [p.data] := by
  have hmap : (ps ++ [p]).map (·.data) = ps.map (·.data) ++ [p.data] := by simp
  rw [hmap] at ho
  obtain ⟨pre, more, gs, k, hR, hpk, _⟩ := sent_inv False (.theora s) serial h0 hs ps hh (fun x hx => ho x (List.mem_append.2 (Or.inl hx)))
    (fun p hp => ho p.data (List.mem_append.2 (Or.inr (List.mem_append.2 (Or.inl (List.mem_map.2 ⟨p, hp, rfl⟩)))))) (fun c => c.elim)
  obtain ⟨m1, m2, gs', hI, e1, e2⟩ := key_step hR p hk (ho p.data (by simp))
  have hs' : sent (.theora s) serial h0 hs (ps ++ [p]) = sendNext (sent (.theora s) serial h0 hs ps) p := by
    unfold sent; rw [List.foldl_append]; rfl
  exact ⟨pre ++ more ++ m1, m2, by rw [hs', hI.out]; exact pagesOf_enc _ hI.ok, e1, e2⟩

/-- The checksum of each page is the CRC of its bytes without those of the checksum. Missing: RFC 3533 has four zero bytes in their place (see `C105_crc_fails`). -/
theorem C105_crc_partial (c : Codec) (serial : Nat) (h0 : Bytes) (hs : List Bytes) (ps : List Packet) (hh : Headers h0 hs) (ho : ∀ x ∈ h0 :: hs ++ ps.map (·.data), Odd x) :
    ∃ pages, pagesOf (sent c serial h0 hs ps).out = some pages ∧ ∀ p ∈ pages, IsSum (p.bytes []) p.crc := by
  obtain ⟨pre, more, gs, k, hR, hpk, _⟩ := sent_inv False c serial h0 hs ps hh (fun x hx => ho x (List.mem_append.2 (Or.inl hx)))
    (fun p hp => ho p.data (List.mem_append.2 (Or.inr (List.mem_map.2 ⟨p, hp, rfl⟩)))) (fun c => c.elim)
  refine ⟨pre ++ more, by rw [hR.inv.out]; exact pagesOf_enc _ hR.inv.ok, fun p hp => ?_⟩
  have := Crc.C25_crc32c 0 (p.bytes [])
  unfold IsSum
  rw [(hR.inv.ok p hp).crc]
  have e : checksum (head p.typ p.granule p.serial p.seq) p.lacing p.body = (Crc.crc32c 0 (p.bytes [])).toNat := by
    unfold checksum Page.bytes head
    rw [← (Crc.C25_incremental _ _ _).1, ← (Crc.C25_incremental _ _ _).1, ← (Crc.C25_incremental _ _ _).1]
    simp
  rw [e]
  exact this

/-- Any page that has a lacing value is read from a file in its parts, up to its end. -/
theorem C105_read (file : Bytes) (p : Page) (rest : Bytes) (h : parsePage file = some (p, rest)) (hl : p.lacing ≠ []) : readPage file = some (file.take 27, parts p, rest) :=
  read_page file p rest h hl

/-! ## Where the program does not do that -/

/-- A packet of `n` bytes. -/
def filled (n : Nat) : Packet := { data := List.replicate n 7, time := 1 }

/-- A packet that fills a page to the end is not ended: what a reader gets ends without it. -/
theorem C105_exact_fails :
    ∃ (c : Codec) (serial : Nat) (h0 : Bytes) (hs : List Bytes) (ps : List Packet), Headers h0 hs ∧
      (pagesOf (finish (sent c serial h0 hs ps)).out).map (fun pages => (packets pages).length) = some (hs.length + ps.length) := by
  refine ⟨.opus, 1, [1, 2, 3], [[4, 5]], List.replicate 254 (filled 1) ++ [filled 255], ⟨by decide, by decide⟩, ?_⟩
  decide +kernel

/-- If a packet was split when the end comes, it is lost: the last page is not marked as its continuation. -/
theorem C105_finish_fails :
    ∃ (c : Codec) (serial : Nat) (h0 : Bytes) (hs : List Bytes) (ps : List Packet), Headers h0 hs ∧ (∀ x ∈ h0 :: hs ++ ps.map (·.data), Odd x) ∧
      (pagesOf (finish (sent c serial h0 hs ps)).out).map packets ≠ some (h0 :: hs ++ ps.map (·.data)) := by
  refine ⟨.opus, 1, [1, 2, 3], [[4, 5]], List.replicate 254 (filled 1) ++ [filled 300], ⟨by decide, by decide⟩, ?_, ?_⟩
  · have : ∀ x ∈ ([1, 2, 3] : Bytes) :: [[4, 5]] ++ (List.replicate 254 (filled 1) ++ [filled 300]).map (·.data), (x.length % 255 ≠ 0 ∨ x.length = 0) := by decide +kernel
    exact this
  · decide +kernel

/-- When all was sent before the end, no page is marked as the last one. -/
theorem C105_end_fails :
    ∃ (c : Codec) (serial : Nat) (h0 : Bytes) (hs : List Bytes) (ps : List Packet), Headers h0 hs ∧
      (pagesOf (finish (sent c serial h0 hs ps)).out).map (fun pages => pages.any fun p => decide (p.typ.toNat / 4 % 2 = 1)) = some false := by
  refine ⟨.theora 6, 1, [1, 2, 3], [[4, 5]], [{ data := [7], key := true }], ⟨by decide, by decide⟩, ?_⟩
  decide +kernel

/-- After 12 hours and 26 minutes, the granule position of an Opus track is wrong. -/
theorem C105_granule_fails :
    ∃ (serial : Nat) (h0 : Bytes) (hs : List Bytes) (p : Packet), Headers h0 hs ∧ p.time = 44739243 ∧
      (pagesOf (finish (sent .opus serial h0 hs [p])).out).map (fun pages => (pages.map (·.granule)).getLast?) ≠ some (some (p.time * 48)) := by
  refine ⟨1, [1, 2, 3], [[4, 5]], { data := [7], time := 44739243 }, ⟨by decide, by decide⟩, rfl, ?_⟩
  decide +kernel

/-- The checksum is not that of RFC 3533, which is over the page with zero bytes in its place. -/
theorem C105_crc_fails :
    ∃ (c : Codec) (serial : Nat) (h0 : Bytes) (p : Page), pagesOf (start c serial h0 []).out = some [p] ∧ ¬IsSum (p.bytes [0, 0, 0, 0]) p.crc := by
  refine ⟨.opus, 1, [1, 2, 3], ⟨2, 0, 1, 0, (Crc.crc32c 0 [0x4f, 0x67, 0x67, 0x53, 0, 2, 0, 0, 0, 0, 0, 0, 0, 0, 1, 0, 0, 0, 0, 0, 0, 0, 1, 3, 1, 2, 3]).toNat, [3], [1, 2, 3]⟩, by decide +kernel, ?_⟩
  intro h
  have h2 := Crc.C25_crc32c 0 (Page.bytes ⟨2, 0, 1, 0, (Crc.crc32c 0 [0x4f, 0x67, 0x67, 0x53, 0, 2, 0, 0, 0, 0, 0, 0, 0, 0, 1, 0, 0, 0, 0, 0, 0, 0, 1, 3, 1, 2, 3]).toNat, [3], [1, 2, 3]⟩ [0, 0, 0, 0])
  have h3 := Crc.C25_unique h h2
  revert h3
  decide +kernel

/-- A page without lacing values is one of RFC 3533, but is not read. -/
theorem C105_empty_fails : ∃ (file : Bytes) (p : Page), parsePage file = some (p, []) ∧ p.lacing = [] ∧ readPage file = none := by
  refine ⟨[0x4f, 0x67, 0x67, 0x53, 0, 4, 1, 0, 0, 0, 0, 0, 0, 0, 1, 0, 0, 0, 9, 0, 0, 0, 0, 0, 0, 0, 0], ⟨4, 1, 1, 9, 0, [], []⟩, by decide +kernel, rfl, by decide +kernel⟩

/-! ## The theorems apply -/

example : Headers [1, 2, 3] [[4, 5], List.replicate 3000 1] := ⟨by decide, by decide⟩

example : Steady (.theora 6) 0 [{ data := [1], key := true, frame := 5 }, { data := [1, 2], frame := 6 }] := by simp [Steady]

example : Steady (.vorbis 48000) 0 [{ data := [1], samples := 1024 }, { data := [1, 2], samples := 512 }] := by simp [Steady]

/-- Two audio packets: headers on two pages, and the packets on a third one at the end. -/
example : (pagesOf (finish (sent .opus 1 [1, 2, 3] [[4, 5]] [{ data := [7, 8], time := 20 }, { data := [9], time := 40 }])).out).map (fun pages => (packets pages, pages.map (·.granule), pages.map (·.typ), pages.map (·.seq))) =
    some ([[1, 2, 3], [4, 5], [7, 8], [9]], [0, 0, 1920], [2, 0, 4], [0, 1, 2]) := by decide +kernel

/-- A packet over two pages: the first one ends within it. -/
example : (pagesOf (sent .opus 1 [1, 2, 3] [[4, 5]] (List.replicate 254 (filled 1) ++ [filled 300])).out).map (fun pages => (pages.map (·.lacing.length), (packets pages).length, (assemble [] pages).2.length)) =
    some ([1, 1, 255], 256, 255) := by decide +kernel

/-- The reader of pages. -/
example : readPage ([0x4f, 0x67, 0x67, 0x53, 0, 4, 1, 0, 0, 0, 0, 0, 0, 0, 1, 0, 0, 0, 9, 0, 0, 0, 0, 0, 0, 0, 3, 1, 0, 2] ++ [5, 6, 7, 8]) =
    some ([0x4f, 0x67, 0x67, 0x53, 0, 4, 1, 0, 0, 0, 0, 0, 0, 0, 1, 0, 0, 0, 9, 0, 0, 0, 0, 0, 0, 0, 3], [[5], [], [6, 7]], [8]) := by decide +kernel

end Verif.Ogg
