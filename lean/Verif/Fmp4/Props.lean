import Verif.Fmp4.Part

/-! # C91: samples of fragmented MP4 files -/
namespace Verif.Fmp4
open Verif.Mp4 Verif.Stbl

/-- A fragment read: one `traf` box of the track. -/
theorem one_read {l : List (Bytes × Bytes)} {ts : List (Traf × List (Bytes × Bytes))} (hm : Moof l ts) (rest : Bytes) (track : Nat) (h : Header)
    {t : Traf} {k : List (Bytes × Bytes)} (hone : (ts.filter fun t => t.1.head.track == track) = [(t, k)]) :
    One t k h.trex h.scale (readMoof h (box tyMoof (pack l) ++ rest) track) := by
  have hin : (t, k) ∈ ts := (List.mem_filter.mp (by rw [hone]; simp : (t, k) ∈ ts.filter fun t => t.1.head.track == track)).1
  rw [read_moof l ts hm rest track h, hone]
  exact ⟨hm.meaning _ hin, rfl, rfl, rfl⟩

theorem all_parts {t : Traf} {l : List (Bytes × Bytes)} {trex : Option Trex} {scale : Nat} (hs : 0 < scale) (hpl : t.Plain trex scale) (at0 : Nat) (k i : Nat)
    (h : Header) (ho : One t l trex scale h) (hc : i = 0 ∨ ClockAt (t.durs trex) t.base h) (hk : i + k = cnt t.runs) :
    (allParts h at0 k i).length = k ∧ ∀ (n : Nat) (p : Part), (allParts h at0 k i)[n]? = some p → t.IsSample trex scale at0 (i + n) p := by
  induction k generalizing h i with
  | zero => exact ⟨rfl, fun n p hp => by unfold allParts at hp; simp at hp⟩
  | succ k ih =>
    obtain ⟨g, p, e1, e2, e3, -, e5⟩ := one_part ho hs hpl i at0 (by omega) hc
    unfold allParts
    rw [e1]
    obtain ⟨j1, j2⟩ := ih (i + 1) g e2 (.inr e3) (by omega)
    refine ⟨?_, fun n q hq => ?_⟩
    · show (p :: allParts g at0 k (i + 1)).length = k + 1
      rw [List.length_cons, j1]
    · have hq : (p :: allParts g at0 k (i + 1))[n]? = some q := hq
      cases n with
      | zero =>
        rw [List.getElem?_cons_zero] at hq
        rw [← Option.some.inj hq]
        exact e5
      | succ n =>
        rw [List.getElem?_cons_succ] at hq
        have := j2 n q hq
        rwa [show i + 1 + n = i + (n + 1) by omega] at this

/-- **C91**, all samples of a fragment in order, as the input reads them. A fragment of any boxes (the ones of type `traf` are those in `ts`, and in each any other boxes
may stand between) is at byte `at0` of the file; anything may follow. If one `traf` box is of the track, and its runs have data offsets from the start of the fragment,
then whatever has been read before, as many samples are read as the fragment has of the track, and of each the time, offset, place, size and key flag are right.
Missing for the full claim: several `traf` boxes of a track, explicit or implicit base offsets, samples of less than a millisecond, negative offsets; see below. -/
theorem C91_fragment_partial {l : List (Bytes × Bytes)} {ts : List (Traf × List (Bytes × Bytes))} (hm : Moof l ts) (rest : Bytes) (track at0 : Nat) (h : Header)
    (hs : 0 < h.scale) {t : Traf} {k : List (Bytes × Bytes)} (hone : (ts.filter fun t => t.1.head.track == track) = [(t, k)]) (hpl : t.Plain h.trex h.scale) :
    let g := readMoof h (box tyMoof (pack l) ++ rest) track
    headerSize g = t.count ∧ (allParts g at0 (headerSize g) 0).length = t.count ∧
      ∀ (n : Nat) (p : Part), (allParts g at0 (headerSize g) 0)[n]? = some p → t.IsSample h.trex h.scale at0 n p := by
  intro g
  have ho := one_read hm rest track h hone
  have hsz : headerSize g = cnt t.runs := one_size ho
  rw [hsz]
  obtain ⟨a1, a2⟩ := all_parts hs hpl at0 (cnt t.runs) 0 g ho (.inl rfl) (by omega)
  exact ⟨rfl, a1, fun n p hp => by have := a2 n p hp; rwa [Nat.zero_add] at this⟩

/-- **C91**, samples in any order: after a lookup of the first sample and any others, a lookup of any sample gives what is right. -/
theorem C91_any_order_partial {l : List (Bytes × Bytes)} {ts : List (Traf × List (Bytes × Bytes))} (hm : Moof l ts) (rest : Bytes) (track at0 : Nat) (h : Header)
    (hs : 0 < h.scale) {t : Traf} {k : List (Bytes × Bytes)} (hone : (ts.filter fun t => t.1.head.track == track) = [(t, k)]) (hpl : t.Plain h.trex h.scale)
    (before : List Nat) (hb : ∀ i ∈ before, i < t.count) (n : Nat) (hn : n < t.count) :
    ∃ p, (getPart (lookups (readMoof h (box tyMoof (pack l) ++ rest) track) at0 (0 :: before)) n at0).2 = some p ∧ t.IsSample h.trex h.scale at0 n p := by
  have ho := one_read hm rest track h hone
  have go : ∀ (bs : List Nat) (g : Header), (∀ i ∈ bs, i < t.count) → One t k h.trex h.scale g → (bs.head? = some 0 ∨ ClockAt (t.durs h.trex) t.base g) →
      One t k h.trex h.scale (lookups g at0 bs) ∧ (bs ≠ [] → ClockAt (t.durs h.trex) t.base (lookups g at0 bs)) ∧
        (ClockAt (t.durs h.trex) t.base g → ClockAt (t.durs h.trex) t.base (lookups g at0 bs)) := by
    intro bs
    induction bs with
    | nil => exact fun g _ h1 _ => ⟨h1, fun hx => absurd rfl hx, id⟩
    | cons i bs ih =>
      intro g hb h1 h2
      obtain ⟨g', p, e1, e2, e3, -⟩ := one_part h1 hs hpl i at0 (hb i (by simp)) (h2.imp (fun hx => by simpa using hx) id)
      have e : lookups g at0 (i :: bs) = lookups g' at0 bs := by
        show lookups (getPart g i at0).1 at0 bs = _
        rw [e1]
      obtain ⟨j1, -, j3⟩ := ih g' (fun x hx => hb x (by simp [hx])) e2 (.inr e3)
      rw [e]
      exact ⟨j1, fun _ => j3 e3, fun _ => j3 e3⟩
  obtain ⟨a1, a2, -⟩ := go (0 :: before) _ (fun i hi => by
    rcases List.mem_cons.mp hi with rfl | hi
    · omega
    · exact hb i hi) ho (.inl rfl)
  obtain ⟨g, p, e1, -, -, -, e5⟩ := one_part a1 hs hpl n at0 hn (.inr (a2 (by simp)))
  exact ⟨p, by rw [e1], e5⟩

/-! ## Fragments as MistServer writes them -/

/-- A sample of a fragment of C89. -/
def ofRow (r : Mp4.Row) : Row := ⟨r.dur, r.size, 0, r.off⟩

/-- The one `traf` box of a fragment of C89. -/
def ofFrag (f : Frag) : Traf :=
  ⟨⟨f.track, true, none, some 1, none, none, some f.flags⟩, true, f.base, [(0, ⟨some f.data, some f.first, true, true, false, true, f.rows.map ofRow⟩)]⟩

/-- Its boxes. -/
def trafKids (f : Frag) : List (Bytes × Bytes) :=
  [(tyTfhd, (ofFrag f).head.bytes), (tyTfdt, tfdtBytes true f.base),
    (tyTrun, (⟨some f.data, some f.first, true, true, false, true, f.rows.map ofRow⟩ : Run).bytes 0)]

/-- The boxes of the fragment. -/
def moofKids (f : Frag) : List (Bytes × Bytes) := [(tyMfhd, beEnc 4 0 ++ beEnc 4 f.seq), (tyTraf, pack (trafKids f))]

theorem rows_flat (f : Frag) (rows : List Mp4.Row) :
    (rows.map ofRow).flatMap (⟨some f.data, some f.first, true, true, false, true, f.rows.map ofRow⟩ : Run).row = rows.flatMap Mp4.Row.bytes := by
  induction rows with
  | nil => rfl
  | cons r rows ih =>
    rw [List.map_cons, List.flatMap_cons, List.flatMap_cons, ih]
    congr 1

theorem frag_run (f : Frag) : (⟨some f.data, some f.first, true, true, false, true, f.rows.map ofRow⟩ : Run).bytes 0 =
    beEnc 4 0xB05 ++ beEnc 4 f.rows.length ++ beEnc 4 f.data ++ beEnc 4 f.first ++ f.rows.flatMap Mp4.Row.bytes := by
  have e2 : beEnc 4 0xB05 = beEnc 1 0 ++ beEnc 3 0xB05 := by decide +kernel
  have hw : (⟨some f.data, some f.first, true, true, false, true, f.rows.map ofRow⟩ : Run).word = 0xB05 := rfl
  unfold Run.bytes
  rw [hw, rows_flat f f.rows, e2, List.length_map]
  simp only [opt]

theorem frag_head (f : Frag) : (ofFrag f).head.bytes = beEnc 4 0x020022 ++ beEnc 4 f.track ++ beEnc 4 1 ++ beEnc 4 f.flags := by
  have e1 : beEnc 4 0x020022 = beEnc 1 0 ++ beEnc 3 0x20022 := by decide +kernel
  have hw : (ofFrag f).head.word = 0x20022 := by
    have : bit false 1 + bit true 2 + bit false 8 + bit false 0x10 + bit true 0x20 + bit true 0x20000 = 0x20022 := by decide +kernel
    exact this
  unfold Tfhd.bytes
  rw [e1, hw]
  unfold ofFrag
  simp only [opt, List.append_nil]

theorem frag_traf (f : Frag) : pack (trafKids f) = box tyTfhd (beEnc 4 0x020022 ++ beEnc 4 f.track ++ beEnc 4 1 ++ beEnc 4 f.flags) ++
    box tyTfdt (beEnc 4 0x01000000 ++ beEnc 8 f.base) ++
    box tyTrun (beEnc 4 0xB05 ++ beEnc 4 f.rows.length ++ beEnc 4 f.data ++ beEnc 4 f.first ++ f.rows.flatMap Mp4.Row.bytes) := by
  have h : ∀ a b c d e g : Bytes, pack [(a, b), (c, d), (e, g)] = box a b ++ box c d ++ box e g := by
    intro a b c d e g; unfold pack; simp only [List.flatMap_cons, List.flatMap_nil, List.append_nil, List.append_assoc]
  have ht : tfdtBytes true f.base = beEnc 4 0x01000000 ++ beEnc 8 f.base := by unfold tfdtBytes; rw [if_pos rfl]
  unfold trafKids
  rw [h, frag_run, frag_head, ht]

theorem frag_bytes (f : Frag) : f.bytes = box tyMoof (pack (moofKids f)) := by
  have h : ∀ a b c d : Bytes, pack [(a, b), (c, d)] = box a b ++ box c d := by
    intro a b c d; unfold pack; simp only [List.flatMap_cons, List.flatMap_nil, List.append_nil]
  unfold Frag.bytes moofKids
  rw [h, frag_traf]

/-- What fits into the fields of a fragment, and is not extreme: every sample takes a millisecond or more, no offset is more than half an hour. -/
structure Moderate (f : Frag) : Prop where
  track : f.track < 2 ^ 32
  flags : f.flags < 2 ^ 32
  data : f.data < 2 ^ 32
  first : f.first < 2 ^ 32
  few : f.rows.length < 2 ^ 26
  rows : ∀ r ∈ f.rows, r.Fits ∧ 1 ≤ r.dur ∧ r.off * 1000 < 2 ^ 31
  time : f.base + (f.rows.map Mp4.Row.dur).sum < 2 ^ 54

theorem frag_moof (f : Frag) (h : Moderate f) : Moof (moofKids f) [(ofFrag f, trafKids f)] := by
  have hrl : ∀ rows : List Mp4.Row, (rows.flatMap Mp4.Row.bytes).length = 12 * rows.length := by
    intro rows
    induction rows with
    | nil => rfl
    | cons r rows ih =>
      rw [List.flatMap_cons, List.length_append, ih, List.length_cons]
      unfold Mp4.Row.bytes
      simp only [List.length_append, beEnc_length]
      omega
  have hb := congrArg List.length (frag_bytes f)
  have hfew := h.few
  unfold Frag.bytes at hb
  have hty : tyMoof.length = 4 ∧ tyMfhd.length = 4 ∧ tyTraf.length = 4 ∧ tyTfhd.length = 4 ∧ tyTfdt.length = 4 ∧ tyTrun.length = 4 := by decide
  simp only [box_length, List.length_append, beEnc_length, hty, hrl] at hb
  have hin : (pack (moofKids f)).length = (8 + (beEnc 4 0 ++ beEnc 4 f.seq).length) + (8 + (pack (trafKids f)).length) := by
    unfold moofKids
    rw [pack_cons, pack_cons, List.length_append, List.length_append, box_length, box_length, hty.2.1, hty.2.2.1]
    rfl
  simp only [List.length_append, beEnc_length] at hin
  have hk : Kids (trafKids f) := by
    refine ⟨fun k hk => ?_, by omega⟩
    unfold trafKids at hk
    simp only [List.mem_cons, List.not_mem_nil, or_false] at hk
    rcases hk with rfl | rfl | rfl
    · exact ⟨rfl, by unfold Tfhd.bytes; simp only [List.length_append, beEnc_length]; omega⟩
    · exact ⟨rfl, by unfold tfdtBytes; simp⟩
    · exact ⟨rfl, by unfold Run.bytes; simp only [List.length_append, beEnc_length]; omega⟩
  refine ⟨⟨fun k hk => ?_, by omega⟩, rfl, fun t ht => ?_⟩
  · unfold moofKids at hk
    simp only [List.mem_cons, List.not_mem_nil, or_false] at hk
    rcases hk with rfl | rfl
    · exact ⟨rfl, by simp⟩
    · exact ⟨rfl, by
        show 0 < (pack (trafKids f)).length
        have := kids_few (trafKids f)
        have h3 : (trafKids f).length = 3 := rfl
        omega⟩
  · rw [List.mem_singleton] at ht
    subst ht
    refine ⟨hk, rfl, rfl, rfl, ⟨⟨h.track, (fun x hx => by cases hx), (fun x hx => by cases hx), fun x hx => ?_⟩, ?_, fun r hr => ?_⟩⟩
    · rw [← Option.some.inj hx]; exact h.flags
    · have := h.time
      show f.base < 2 ^ 64
      omega
    · have hr := List.mem_singleton.mp hr
      subst hr
      refine ⟨fun x hx => ?_, fun x hx => ?_, fun x hx => ?_, ?_⟩
      · rw [← Option.some.inj hx]; exact h.data
      · rw [← Option.some.inj hx]; exact h.first
      · obtain ⟨r, hr, rfl⟩ := List.mem_map.mp hx
        obtain ⟨h1, h2, h3⟩ := (h.rows r hr).1
        exact ⟨h1, h2, (by decide : (0 : Nat) < 2 ^ 32), h3⟩
      · show (f.rows.map ofRow).length < 2 ^ 31
        rw [List.length_map]; omega

theorem frag_durs (f : Frag) (trex : Option Trex) : (ofFrag f).durs trex = f.rows.map Mp4.Row.dur := by
  show List.flatMap _ [_] = _
  rw [List.flatMap_cons, List.flatMap_nil, List.append_nil]
  show (f.rows.map ofRow).map _ = _
  rw [List.map_map]
  rfl

theorem frag_plain (f : Frag) (h : Moderate f) (trex : Option Trex) : (ofFrag f).Plain trex 1000 := by
  refine ⟨rfl, rfl, fun r hr => ?_, ?_, ?_, ?_, fun r hr x hx => ?_⟩
  · have hr := List.mem_singleton.mp hr
    subst hr; rfl
  · have := h.few
    show List.sum [(f.rows.map ofRow).length] < 2 ^ 32
    rw [List.length_map, List.sum_cons, List.sum_nil]
    omega
  · rw [frag_durs]
    intro d hd
    obtain ⟨r, hr, rfl⟩ := List.mem_map.mp hd
    have := (h.rows r hr).2.1
    omega
  · rw [frag_durs]; exact h.time
  · have hr := List.mem_singleton.mp hr
    subst hr
    obtain ⟨r, hr, rfl⟩ := List.mem_map.mp hx
    exact (h.rows r hr).2.2

/-- **C91**, of fragments that are written as in C89, with a thousand units in a second: reading gives back what was written. (By C89, every segment is of this form.) -/
theorem C91_own_fragments (f : Frag) (hf : Moderate f) (rest : Bytes) (at0 : Nat) (h : Header) (hs : h.scale = 1000) :
    let g := readMoof h (f.bytes ++ rest) f.track
    (allParts g at0 (headerSize g) 0).length = f.rows.length ∧
      ∀ (n : Nat) (r : Mp4.Row), f.rows[n]? = some r → (allParts g at0 (headerSize g) 0)[n]? = some ⟨f.time n, r.off, f.sync n, at0 + f.place n, r.size⟩ := by
  intro g
  have hm := frag_moof f hf
  have hone : ([(ofFrag f, trafKids f)].filter fun t => t.1.head.track == f.track) = [(ofFrag f, trafKids f)] := by
    have : ((ofFrag f).head.track == f.track) = true := beq_self_eq_true f.track
    rw [List.filter_cons, if_pos this, List.filter_nil]
  obtain ⟨a1, a2, a3⟩ := C91_fragment_partial hm rest f.track at0 h (by omega) hone (by rw [hs]; exact frag_plain f hf h.trex)
  rw [← frag_bytes] at a1 a2 a3
  have hcount : (ofFrag f).count = f.rows.length := by
    show List.sum [(f.rows.map ofRow).length] = _
    rw [List.length_map, List.sum_cons, List.sum_nil, Nat.add_zero]
  refine ⟨a2.trans hcount, fun n r hr => ?_⟩
  have hn := (List.getElem?_eq_some_iff.mp hr).1
  obtain ⟨p, hp⟩ : ∃ p, (allParts g at0 (headerSize g) 0)[n]? = some p := ⟨_, List.getElem?_eq_getElem (by rw [a2, hcount]; exact hn)⟩
  obtain ⟨pre, post, v, q, i, x, data, b1, b2, b3, b4, b5, b6, b7, b8, b9⟩ := a3 n p hp
  have hpre : pre = [] := by
    cases pre with
    | nil => rfl
    | cons y pre =>
      have := congrArg List.length b1
      rw [List.length_append, List.length_cons, List.length_cons] at this
      have h1 : (ofFrag f).runs.length = 1 := rfl
      omega
  subst hpre
  have hq : (v, q) = ((0, ⟨some f.data, some f.first, true, true, false, true, f.rows.map ofRow⟩) : Nat × Run) := ((List.cons.inj b1).1).symm
  obtain ⟨hv, hq'⟩ := Prod.mk.inj hq
  clear hq
  subst hv hq'
  have hi : i = n := by rw [b2]; exact (Nat.zero_add i).symm
  subst hi
  have hx : x = ofRow r := by
    have hb : (f.rows.map ofRow)[i]? = some x := b3
    rw [List.getElem?_map, hr] at hb
    exact (Option.some.inj hb).symm
  subst hx
  have hdata : data = f.data := (Option.some.inj b4).symm
  subst hdata
  rw [hp]
  congr 1
  obtain ⟨p1, p2, p3, p4, p5⟩ := p
  dsimp only at b5 b6 b7 b8 b9
  rw [Part.mk.injEq]
  refine ⟨?_, ?_, ?_, ?_, b9⟩
  · rw [b5, hs, frag_durs, Nat.mul_div_cancel _ (by decide)]
    unfold Frag.time
    rw [List.map_take]; rfl
  · rw [b6, hs]
    show ((r.off * 1000 / 1000 : Nat) : Int) = _
    rw [Nat.mul_div_cancel _ (by decide)]
  · rw [b7]
    have e : flagsOf (ofFrag f) h.trex ⟨some f.data, some f.first, true, true, false, true, f.rows.map ofRow⟩ i (ofRow r) = if i = 0 then f.first else f.flags := by
      cases i <;> rfl
    rw [e]
    unfold Frag.sync
    generalize (if i = 0 then f.first else f.flags) = w
    rw [Nat.testBit_eq_decide_div_mod_eq]
    rcases Nat.mod_two_eq_zero_or_one (w / 2 ^ 16) with hw | hw
    · rw [hw]; rfl
    · rw [hw]; rfl
  · rw [b8]
    unfold Frag.place
    show at0 + f.data + (((f.rows.map ofRow).take i).map fun x => x.size).sum = at0 + (f.data + _)
    rw [← List.map_take, List.map_map, Nat.add_assoc]
    rfl

/-! ## Examples and what fails -/

/-- The boxes of a track in a fragment, in the usual order. -/
def boxes (t : Traf) : List (Bytes × Bytes) := (tyTfhd, t.head.bytes) :: (tyTfdt, tfdtBytes t.wide t.base) :: t.runs.map fun r => (tyTrun, r.2.bytes r.1)

/-- A fragment of these. -/
def moofOf (ts : List Traf) : List (Bytes × Bytes) := (tyMfhd, beEnc 4 0 ++ beEnc 4 1) :: ts.map fun t => (tyTraf, pack (boxes t))

theorem kidsOf_map {α : Type} (l : List α) (ty : Bytes) (f : α → Bytes) : kidsOf (l.map fun x => (ty, f x)) ty = l.map f := by
  unfold kidsOf
  induction l with
  | nil => rfl
  | cons x l ih => rw [List.map_cons, List.filter_cons, if_pos (by simp), List.map_cons, ih, List.map_cons]

theorem kidsOf_none {α : Type} (l : List α) (ty name : Bytes) (f : α → Bytes) (h : (ty == name) = false) : kidsOf (l.map fun x => (ty, f x)) name = [] := by
  unfold kidsOf
  induction l with
  | nil => rfl
  | cons x l ih => rw [List.map_cons, List.filter_cons, if_neg (by simp [h]), ih]

theorem kidsOf_cons (k : Bytes × Bytes) (l : List (Bytes × Bytes)) (name : Bytes) : kidsOf (k :: l) name = (if k.1 == name then [k.2] else []) ++ kidsOf l name := by
  unfold kidsOf
  rw [List.filter_cons]
  split <;> rfl

theorem kids_all (l : List (Bytes × Bytes)) (h : l.all (fun k => k.1.length == 4 && 0 < k.2.length) = true) (h2 : (pack l).length < 2 ^ 30) : Kids l :=
  ⟨fun k hk => by have := List.all_eq_true.mp h k hk; simpa using this, h2⟩

theorem says_boxes (t : Traf) (h : (boxes t).all (fun k => k.1.length == 4 && 0 < k.2.length) = true) (h2 : (pack (boxes t)).length < 2 ^ 30)
    (hf : t.head.Fits ∧ t.base < 2 ^ (if t.wide then 64 else 32) ∧ ∀ r ∈ t.runs, r.2.Fits) : t.Says (boxes t) := by
  refine ⟨kids_all _ h h2, ?_, ?_, ?_, hf⟩
  all_goals
    unfold boxes
    rw [kidsOf_cons, kidsOf_cons]
    dsimp only
  · rw [kidsOf_none _ _ _ _ (by decide), if_pos (by decide), if_neg (by decide)]; rfl
  · rw [kidsOf_none _ _ _ _ (by decide), if_neg (by decide), if_pos (by decide)]; rfl
  · rw [if_neg (by decide), if_neg (by decide), kidsOf_map]; rfl

theorem moof_boxes (ts : List Traf) (h : ts.all (fun t => (boxes t).all (fun k => k.1.length == 4 && 0 < k.2.length)) = true) (h2 : (pack (moofOf ts)).length < 2 ^ 30)
    (h3 : (moofOf ts).all (fun k => k.1.length == 4 && 0 < k.2.length) = true) (h4 : ts.all (fun t => (pack (boxes t)).length < 2 ^ 30) = true)
    (hf : ∀ t ∈ ts, t.head.Fits ∧ t.base < 2 ^ (if t.wide then 64 else 32) ∧ ∀ r ∈ t.runs, r.2.Fits) : Moof (moofOf ts) (ts.map fun t => (t, boxes t)) := by
  refine ⟨kids_all _ h3 h2, ?_, fun t ht => ?_⟩
  · unfold moofOf
    rw [kidsOf_cons, if_neg (by decide), kidsOf_map, List.map_map]; rfl
  · obtain ⟨x, hx, rfl⟩ := List.mem_map.mp ht
    exact says_boxes x (List.all_eq_true.mp h x hx) (of_decide_eq_true (List.all_eq_true.mp h4 x hx)) (hf x hx)

/-- A fragment of two tracks; of the first, runs of two and of one sample, with sizes and offsets of their own, and a common duration of 40 units. -/
def demo : List Traf :=
  [⟨⟨1, true, none, none, some 40, none, some 0x01010000⟩, false, 1000,
      [(0, ⟨some 300, some 0x02000000, false, true, false, true, [⟨0, 7, 0, 80⟩, ⟨0, 5, 0, 0⟩]⟩), (0, ⟨some 500, none, false, true, false, false, [⟨0, 6, 0, 0⟩]⟩)]⟩,
    ⟨⟨2, true, none, none, some 20, some 9, none⟩, true, 1010, [(0, ⟨some 312, none, false, false, false, false, [⟨0, 0, 0, 0⟩]⟩)]⟩]

theorem demo_moof : Moof (moofOf demo) (demo.map fun t => (t, boxes t)) := by
  refine moof_boxes demo (by decide +kernel) (by decide +kernel) (by decide +kernel) (by decide +kernel) (fun t ht => ?_)
  simp only [demo, List.mem_cons, List.not_mem_nil, or_false] at ht
  rcases ht with rfl | rfl <;> simp [Tfhd.Fits, Run.Fits]

example : ∃ t, (((demo.map fun t => (t, boxes t)).filter fun t => t.1.head.track == 1) = [(t, boxes t)]) ∧ t.Plain none 1000 ∧ t.count = 3 :=
  ⟨_, by rfl, ⟨rfl, rfl, by decide +kernel, by decide +kernel, by decide +kernel, by decide +kernel, by decide +kernel⟩, by decide +kernel⟩

example : allParts (readMoof ⟨1000, none, [], 0, 0, 0⟩ (box tyMoof (pack (moofOf demo))) 1) 2000 3 0 =
    [⟨1000, 80, true, 2300, 7⟩, ⟨1040, 0, false, 2307, 5⟩, ⟨1080, 0, false, 2500, 6⟩] := by decide +kernel

/-- A fragment of C89 that meets the conditions of `C91_own_fragments`. -/
example : Moderate ⟨0, 1, 0x01010000, 1000, 132, 0x02000000, [⟨40, 3, 80⟩, ⟨1960, 2, 0⟩]⟩ :=
  ⟨by decide, by decide, by decide, by decide, by decide, by unfold Mp4.Row.Fits; decide, by decide⟩

/-- A track of one run, with durations and sizes. -/
def plainTraf (track base data : Nat) (rows : List Row) : Traf := ⟨⟨track, true, none, none, none, none, none⟩, true, base, [(0, ⟨some data, none, true, true, false, false, rows⟩)]⟩

/-- **C91** fails for two `traf` boxes of a track: the second one says that its sample is decoded at 40, after the one of the first, which takes 40 units. It is said to be
at 1: what is added for the sample of the first box is read from before the samples of the run of the second, where their number is, and its base time is not looked at. -/
theorem C91_two_trafs_fails : ∃ a b : Traf, Moof (moofOf [a, b]) ([a, b].map fun t => (t, boxes t)) ∧ a.head.track = 1 ∧ b.head.track = 1 ∧
    a.base = 0 ∧ a.durs none = [40] ∧ b.base = 40 ∧
    (allParts (readMoof ⟨1000, none, [], 0, 0, 0⟩ (box tyMoof (pack (moofOf [a, b]))) 1) 0 2 0).map Part.time = [0, 1] :=
  ⟨plainTraf 1 0 200 [⟨40, 5, 0, 0⟩], plainTraf 1 40 205 [⟨40, 6, 0, 0⟩],
    moof_boxes _ (by decide +kernel) (by decide +kernel) (by decide +kernel) (by decide +kernel) (fun t ht => by
      simp only [List.mem_cons, List.not_mem_nil, or_false] at ht
      rcases ht with rfl | rfl <;> simp [Tfhd.Fits, Run.Fits, plainTraf]),
    rfl, rfl, rfl, by decide +kernel, rfl, by decide +kernel⟩

/-- **C91** fails for fragments with a base offset of their own: the sample is at 5000 + 200, and is said to be at 200. -/
theorem C91_base_offset_fails : ∃ a : Traf, Moof (moofOf [a]) ([a].map fun t => (t, boxes t)) ∧ a.head.track = 1 ∧ a.head.base = some 5000 ∧
    a.runs.map (fun r => r.2.data) = [some 200] ∧ (allParts (readMoof ⟨1000, none, [], 0, 0, 0⟩ (box tyMoof (pack (moofOf [a]))) 1) 4000 1 0).map Part.pos = [200] :=
  ⟨⟨⟨1, false, some 5000, none, none, none, none⟩, true, 0, [(0, ⟨some 200, none, true, true, false, false, [⟨40, 5, 0, 0⟩]⟩)]⟩,
    moof_boxes _ (by decide +kernel) (by decide +kernel) (by decide +kernel) (by decide +kernel) (fun t ht => by
      simp only [List.mem_cons, List.not_mem_nil, or_false] at ht
      rcases ht with rfl; simp [Tfhd.Fits, Run.Fits]),
    rfl, rfl, rfl, by decide +kernel⟩

/-- **C91** fails for fragments without any base: of the first track, places count from the start of the fragment, at 4000. They are taken from the start of the file. -/
theorem C91_no_base_fails : ∃ a : Traf, Moof (moofOf [a]) ([a].map fun t => (t, boxes t)) ∧ a.head.track = 1 ∧ a.head.base = none ∧ a.head.moof = false ∧
    a.runs.map (fun r => r.2.data) = [some 200] ∧ (allParts (readMoof ⟨1000, none, [], 0, 0, 0⟩ (box tyMoof (pack (moofOf [a]))) 1) 4000 1 0).map Part.pos = [200] :=
  ⟨⟨⟨1, false, none, none, none, none, none⟩, true, 0, [(0, ⟨some 200, none, true, true, false, false, [⟨40, 5, 0, 0⟩]⟩)]⟩,
    moof_boxes _ (by decide +kernel) (by decide +kernel) (by decide +kernel) (by decide +kernel) (fun t ht => by
      simp only [List.mem_cons, List.not_mem_nil, or_false] at ht
      rcases ht with rfl; simp [Tfhd.Fits, Run.Fits]),
    rfl, rfl, rfl, rfl, by decide +kernel⟩

/-- **C91** fails for runs without a data offset, whose samples follow those of the run before: the second sample is at 4000 + 200 + 5, and is said to be at 4000. -/
theorem C91_no_data_offset_fails : ∃ a : Traf, Moof (moofOf [a]) ([a].map fun t => (t, boxes t)) ∧ a.head.track = 1 ∧ a.head.moof = true ∧
    a.runs.map (fun r => (r.2.data, r.2.rows.map Row.size)) = [(some 200, [5]), (none, [6])] ∧
    (allParts (readMoof ⟨1000, none, [], 0, 0, 0⟩ (box tyMoof (pack (moofOf [a]))) 1) 4000 2 0).map Part.pos = [4200, 4000] :=
  ⟨⟨⟨1, true, none, none, none, none, none⟩, true, 0, [(0, ⟨some 200, none, true, true, false, false, [⟨40, 5, 0, 0⟩]⟩), (0, ⟨none, none, true, true, false, false, [⟨40, 6, 0, 0⟩]⟩)]⟩,
    moof_boxes _ (by decide +kernel) (by decide +kernel) (by decide +kernel) (by decide +kernel) (fun t ht => by
      simp only [List.mem_cons, List.not_mem_nil, or_false] at ht
      rcases ht with rfl; simp [Tfhd.Fits, Run.Fits]),
    rfl, rfl, rfl, by decide +kernel⟩

/-- **C91** fails for negative offsets, of runs of version 1: -40 milliseconds are read as 4294927. -/
theorem C91_negative_offset_fails : ∃ a : Traf, Moof (moofOf [a]) ([a].map fun t => (t, boxes t)) ∧ a.head.track = 1 ∧
    a.runs.map (fun r => (r.1, r.2.rows.map Row.off)) = [(1, [2 ^ 32 - 40])] ∧
    (allParts (readMoof ⟨1000, none, [], 0, 0, 0⟩ (box tyMoof (pack (moofOf [a]))) 1) 4000 1 0).map Part.off = [4294927] :=
  ⟨⟨⟨1, true, none, none, none, none, none⟩, true, 0, [(1, ⟨some 200, none, true, true, false, true, [⟨40, 5, 0, 4294967256⟩]⟩)]⟩,
    moof_boxes _ (by decide +kernel) (by decide +kernel) (by decide +kernel) (by decide +kernel) (fun t ht => by
      simp only [List.mem_cons, List.not_mem_nil, or_false] at ht
      rcases ht with rfl; simp [Tfhd.Fits, Run.Fits]),
    rfl, rfl, by decide +kernel⟩

/-- **C91** fails for offsets that are large in units of the track: a second, with ten million units in one, is read as 141 milliseconds. -/
theorem C91_large_offset_fails : ∃ a : Traf, Moof (moofOf [a]) ([a].map fun t => (t, boxes t)) ∧ a.head.track = 1 ∧
    a.runs.map (fun r => (r.1, r.2.rows.map Row.off)) = [(0, [10000000])] ∧
    (allParts (readMoof ⟨10000000, none, [], 0, 0, 0⟩ (box tyMoof (pack (moofOf [a]))) 1) 4000 1 0).map Part.off = [141] :=
  ⟨⟨⟨1, true, none, none, none, none, none⟩, true, 0, [(0, ⟨some 200, none, true, true, false, true, [⟨400000, 5, 0, 10000000⟩]⟩)]⟩,
    moof_boxes _ (by decide +kernel) (by decide +kernel) (by decide +kernel) (by decide +kernel) (fun t ht => by
      simp only [List.mem_cons, List.not_mem_nil, or_false] at ht
      rcases ht with rfl; simp [Tfhd.Fits, Run.Fits]),
    rfl, rfl, by decide +kernel⟩

/-- **C91** fails for samples of less than a millisecond, more than thirteen hours into a track with 90000 units in a second: the second sample, half a millisecond after the
first, is said to be thirteen hours earlier. -/
theorem C91_short_fails : ∃ a : Traf, Moof (moofOf [a]) ([a].map fun t => (t, boxes t)) ∧ a.head.track = 1 ∧ a.base = 4294967310 ∧ a.durs none = [45, 45] ∧
    (allParts (readMoof ⟨90000, none, [], 0, 0, 0⟩ (box tyMoof (pack (moofOf [a]))) 1) 4000 2 0).map Part.time = [47721859, 1] :=
  ⟨plainTraf 1 4294967310 200 [⟨45, 5, 0, 0⟩, ⟨45, 5, 0, 0⟩],
    moof_boxes _ (by decide +kernel) (by decide +kernel) (by decide +kernel) (by decide +kernel) (fun t ht => by
      simp only [List.mem_cons, List.not_mem_nil, or_false] at ht
      rcases ht with rfl; simp [Tfhd.Fits, Run.Fits, plainTraf]),
    rfl, rfl, by decide +kernel, by decide +kernel⟩

/-- **C91** fails for fragments without a base time, which follow the one before: the sample of the second fragment is said to be at the time of that of the first. -/
theorem C91_no_base_time_fails : ∃ (m : Bytes),
    m = box tyMoof (box tyTraf (pack [(tyTfhd, (plainTraf 1 0 200 []).head.bytes), (tyTrun, (⟨some 200, none, true, true, false, false, [⟨40, 5, 0, 0⟩]⟩ : Run).bytes 0)])) ∧
    (let g := readMoof ⟨1000, none, [], 0, 0, 0⟩ m 1
     (allParts g 0 1 0).map Part.time = [0] ∧ (allParts (readMoof (lookups g 0 [0]) m 1) 300 1 0).map Part.time = [0]) :=
  ⟨_, rfl, by decide +kernel⟩

end Verif.Fmp4
