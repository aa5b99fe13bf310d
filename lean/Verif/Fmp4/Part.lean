import Verif.Fmp4.Locate
import Mathlib.Data.Nat.Bitwise

/-!
# Reading one fragment of a track
-/
namespace Verif.Fmp4
open Verif.Mp4 Verif.Stbl

theorem says_good {t : Traf} {l : List (Bytes × Bytes)} (h : t.Says l) : Good t.runs := by
  intro r hr
  refine ⟨h.fits.2.2 r hr, ?_⟩
  have := kid_length l tyTrun (r.2.bytes r.1) h.kids (by rw [h.runs]; exact List.mem_map.mpr ⟨r, hr, rfl⟩)
  omega

theorem says_head {t : Traf} {l : List (Bytes × Bytes)} (h : t.Says l) : t.head.bytes.length < 2 ^ 30 := by
  have := kid_length l tyTfhd t.head.bytes h.kids (by rw [h.head]; simp)
  omega

theorem not_erro : (tyTfhd == [0x65, 0x72, 0x72, 0x6F]) = false := by decide

/-- One step of `readMoof`. -/
def readStep (track : Nat) (h : Header) (b : Bytes) : Header :=
  if isType (getChild b tyTfhd) [0x65, 0x72, 0x72, 0x6F] then h else if tfhdTrack (getChild b tyTfhd) = track then readTraf h b else h

theorem read_step (track : Nat) (t : Traf) (l : List (Bytes × Bytes)) (ht : t.Says l) (rest : Bytes) (h : Header) :
    readStep track h (box tyTraf (pack l) ++ rest) = if t.head.track = track then { h with trafs := h.trafs ++ [box tyTraf (pack l)] } else h := by
  obtain ⟨rh, e⟩ := get_child tyTraf rest tyTfhd t.head.bytes rfl l ht.kids ht.head
  have htr := (tfhd_reads t.head ht.fits.1 rh (says_head ht)).1
  have hbl : (box tyTraf (pack l)).length = 8 + (pack l).length := by
    rw [box_length]
    have : tyTraf.length = 4 := by decide
    omega
  have hbox : (box tyTraf (pack l) ++ rest).take (boxSize (box tyTraf (pack l) ++ rest)) = box tyTraf (pack l) := by
    rw [boxSize_box _ _ _ (by have := ht.kids.2; omega), ← hbl, List.take_left]
  have hty : isType (box tyTfhd t.head.bytes ++ rh) [0x65, 0x72, 0x72, 0x6F] = false :=
    (isType_box tyTfhd t.head.bytes rh rfl [0x65, 0x72, 0x72, 0x6F]).trans not_erro
  unfold readStep readTraf
  rw [e, hty, if_neg Bool.false_ne_true, htr, hbox]

/-- The `traf` boxes of the track are kept. -/
theorem read_fold (track : Nat) (ts : List (Traf × List (Bytes × Bytes))) (hs : ∀ t ∈ ts, t.1.Says t.2) (bs : List Bytes)
    (hp : Points tyTraf bs (ts.map fun t => pack t.2)) (h : Header) :
    bs.foldl (readStep track) h = { h with trafs := h.trafs ++ (ts.filter fun t => t.1.head.track == track).map fun t => box tyTraf (pack t.2) } := by
  induction ts generalizing bs h with
  | nil =>
    cases bs with
    | nil => simp
    | cons b bs => exact absurd hp id
  | cons t ts ih =>
    cases bs with
    | nil => exact absurd hp id
    | cons b bs =>
      obtain ⟨⟨rest, rfl⟩, hp⟩ := hp
      rw [List.foldl_cons, read_step track t.1 t.2 (hs t (by simp)), ih (fun t ht => hs t (by simp [ht])) bs hp, List.filter_cons]
      by_cases hc : t.1.head.track = track
      · rw [if_pos hc, if_pos (by simpa using hc)]
        simp only [List.map_cons, List.append_assoc, List.singleton_append]
      · rw [if_neg hc, if_neg (by simpa using hc)]

theorem read_moof (l : List (Bytes × Bytes)) (ts : List (Traf × List (Bytes × Bytes))) (hm : Moof l ts) (rest : Bytes) (track : Nat) (h : Header) :
    readMoof h (box tyMoof (pack l) ++ rest) track =
      { nextMoof h with trafs := (ts.filter fun t => t.1.head.track == track).map fun t => box tyTraf (pack t.2) } := by
  have hp := get_children tyMoof rest tyTraf rfl l hm.kids
  rw [hm.trafs] at hp
  exact read_fold track ts hm.meaning _ hp (nextMoof h)

theorem has_bit (f : Nat) : has f 0x10000 = f.testBit 16 := by
  have h : f &&& 0x10000 = (f.testBit 16).toNat * 0x10000 := Nat.and_two_pow f 16
  unfold has
  rw [h]
  cases f.testBit 16 with
  | false => rfl
  | true => rfl

theorem off_eq (scale x : Nat) (hx : x * 1000 < 2 ^ 31) : int32 ((x * 1000 % 2 ^ 32 / scale : Nat) : Int) = ((x * 1000 / scale : Nat) : Int) := by
  unfold int32
  rw [Nat.mod_eq_of_lt (by omega)]
  have := Nat.div_le_self (x * 1000) scale
  generalize x * 1000 / scale = q at *
  rw [Int.emod_eq_of_lt (by omega) (by omega)]; omega

theorem size_sum (t : Traf) (hh : t.head.Fits) (rh : Bytes) (hhl : t.head.bytes.length < 2 ^ 30) (trex : Option Trex) (r : Run) (hf : r.Fits) (v : Nat) (rest : Bytes)
    (hl : (r.bytes v).length < 2 ^ 30) (i : Nat) (hi : i ≤ r.rows.length) :
    ((List.range i).map fun j => (trunInfo (box tyTrun (r.bytes v) ++ rest) j (box tyTfhd t.head.bytes ++ rh) trex).size).sum = ((r.rows.take i).map (sizeOf t trex r)).sum := by
  induction i with
  | zero => rw [List.range_zero, List.take_zero, List.map_nil, List.map_nil]
  | succ i ih =>
    rw [List.range_succ, List.map_append, List.sum_append, ih (by omega), List.take_succ_eq_append_getElem (by omega), List.map_append, List.sum_append]
    rw [List.map_cons, List.map_nil, List.map_cons, List.map_nil, List.sum_cons, List.sum_cons, run_info t hh rh hhl trex r hf v rest hl i r.rows[i] (List.getElem?_eq_getElem (by omega))]

/-- A header with one `traf` box. -/
structure One (t : Traf) (l : List (Bytes × Bytes)) (trex : Option Trex) (scale : Nat) (h : Header) : Prop where
  meaning : t.Says l
  trafs : h.trafs = [box tyTraf (pack l)]
  trex : h.trex = trex
  scale : h.scale = scale

theorem one_size {t : Traf} {l : List (Bytes × Bytes)} {trex : Option Trex} {scale : Nat} {h : Header} (ho : One t l trex scale h) : headerSize h = cnt t.runs := by
  have hp := get_children tyTraf [] tyTrun rfl l ho.meaning.kids
  rw [List.append_nil, ho.meaning.runs] at hp
  unfold headerSize
  rw [ho.trafs, List.flatMap_cons, List.flatMap_nil, List.append_nil, run_counts t.runs (says_good ho.meaning) _ hp]

theorem in_run (h : Header) (traf : Bytes) (first : Nat) (r : Bytes) (skipped index at0 : Nat) (tfhd : Bytes) (si : Sample) (g : Header) (T P : Nat)
    (h1 : getChild traf tyTfhd = tfhd) (h2 : trunInfo r (index - skipped) tfhd h.trex = si) (h3 : getTime h traf first r skipped tfhd index = (g, T))
    (h4 : getPos h r (index - skipped) tfhd at0 = P) :
    inRun h traf first r skipped index at0 = (g, ⟨T, int32 ((si.off * 1000 % 2 ^ 32 / h.scale : Nat) : Int), !has si.flags 0x10000, P, si.size⟩) := by
  unfold inRun
  simp only [h1, h2, h3, h4]

theorem get_part_one (h : Header) (b r : Bytes) (s n at0 : Nat) (hb : h.trafs = [b]) (hr : runLoop n (getChildren b tyTrun) 0 = .inl (r, s)) (x : Header × Part)
    (hx : inRun h b 0 r s n at0 = x) : getPart h n at0 = (x.1, some x.2) := by
  unfold getPart
  rw [hb]
  unfold trafLoop
  rw [hr, ← hx]

/-- The lookup of a sample. -/
theorem one_part {t : Traf} {l : List (Bytes × Bytes)} {trex : Option Trex} {scale : Nat} {h : Header} (ho : One t l trex scale h) (hs : 0 < scale)
    (hpl : t.Plain trex scale) (n at0 : Nat) (hn : n < cnt t.runs) (hc : n = 0 ∨ ClockAt (t.durs trex) t.base h) :
    ∃ g p, getPart h n at0 = (g, some p) ∧ One t l trex scale g ∧ ClockAt (t.durs trex) t.base g ∧ g.timeSample = n ∧ t.IsSample trex scale at0 n p := by
  have hg := says_good ho.meaning
  have hhl := says_head ho.meaning
  have hp := get_children tyTraf [] tyTrun rfl l ho.meaning.kids
  obtain ⟨rh, eh⟩ := get_child tyTraf [] tyTfhd t.head.bytes rfl l ho.meaning.kids ho.meaning.head
  obtain ⟨rd, ed⟩ := get_child tyTraf [] tyTfdt _ rfl l ho.meaning.kids ho.meaning.base
  rw [List.append_nil] at hp eh ed
  rw [ho.meaning.runs] at hp
  have hfew : cnt t.runs < 2 ^ 32 := hpl.few
  obtain ⟨pre, v, r, post, rest, e1, e2, e3, e4, -⟩ := run_loop t.runs hg _ hp 0 n (by omega) (by omega)
  rw [Nat.zero_add] at e2 e3 e4
  have hm : (v, r) ∈ t.runs := by rw [e1]; simp
  have hgr := hg (v, r) hm
  have hi : n - cnt pre < r.rows.length := by omega
  have hrow : r.rows[n - cnt pre]? = some r.rows[n - cnt pre] := List.getElem?_eq_getElem hi
  obtain ⟨data, hd⟩ := Option.isSome_iff_exists.mp (hpl.data (v, r) hm)
  have hd : r.data = some data := hd
  obtain ⟨g1, -, g3, -⟩ := run_reads r hgr.1 v rest hgr.2
  obtain ⟨-, -, -, -, h5, -⟩ := tfhd_reads t.head ho.meaning.fits.1 rh hhl
  -- the time
  have hstart : ∀ g : Header, g.scale = scale → g.timeSample = 0 → g.timeTotal = t.base → g.timeExtra = 0 → ClockAt (t.durs trex) t.base g := by
    intro g k1 k2 k3 k4
    constructor
    · rw [k2]; exact Nat.zero_le _
    · rw [k2, k3, k4, List.take_zero, clockFrom_nil]
  have hlen := durs_length t trex
  generalize hh0 : (if n = 0 ∨ n < h.timeSample then
    { h with timeSample := 0, timeExtra := 0, timeTotal := tfdtBase (getChild (box tyTraf (pack l)) tyTfdt) } else h) = h0
  have hok : ClockAt (t.durs trex) t.base h0 ∧ h0.timeSample ≤ n ∧ Same h h0 := by
    rw [← hh0]
    by_cases hr : n = 0 ∨ n < h.timeSample
    · rw [if_pos hr, ed, tfdt_reads _ _ ho.meaning.fits.2.1]
      exact ⟨hstart _ ho.scale rfl rfl rfl, Nat.zero_le _, rfl, rfl, rfl⟩
    · rw [if_neg hr]
      exact ⟨hc.resolve_left (by omega), by omega, rfl, rfl, rfl⟩
  obtain ⟨o1, o2, o3, o4, o5⟩ := hok
  obtain ⟨t1, t2, t3, t4, t5⟩ := time_loop t hg ho.meaning.fits.1 hhl rh _ hp trex (by omega) n pre post v r rest e1 hn (n - h0.timeSample) h0 (by rw [o4, ho.trex])
    (Nat.le_refl _) o2 t.base o1
  generalize hgg : timeLoop (getChildren (box tyTraf (pack l)) tyTrun) 0 (box tyTrun (r.bytes v) ++ rest) (cnt pre) (box tyTfhd t.head.bytes ++ rh) n (n - h0.timeSample) h0 = g at *
  have ht : getTime h (box tyTraf (pack l)) 0 (box tyTrun (r.bytes v) ++ rest) (cnt pre) (box tyTfhd t.head.bytes ++ rh) n = (g, millis g.scale g.timeTotal) := by
    unfold getTime
    rw [hh0]
    show (timeLoop (getChildren (box tyTraf (pack l)) tyTrun) 0 (box tyTrun (r.bytes v) ++ rest) (cnt pre) (box tyTfhd t.head.bytes ++ rh) n (n - h0.timeSample) h0,
      millis (timeLoop (getChildren (box tyTraf (pack l)) tyTrun) 0 (box tyTrun (r.bytes v) ++ rest) (cnt pre) (box tyTfhd t.head.bytes ++ rh) n (n - h0.timeSample) h0).scale
        (timeLoop (getChildren (box tyTraf (pack l)) tyTrun) 0 (box tyTrun (r.bytes v) ++ rest) (cnt pre) (box tyTfhd t.head.bytes ++ rh) n (n - h0.timeSample) h0).timeTotal) = _
    rw [hgg]
  have hsum : ((t.durs trex).take n).sum ≤ (t.durs trex).sum := by
    conv => rhs; rw [← List.take_append_drop n (t.durs trex), List.sum_append]
    omega
  have htime := hpl.time
  have hmil : millis g.scale g.timeTotal = (t.base + ((t.durs trex).take n).sum) * 1000 / scale := by
    have := t1.time
    rw [t2, t3, o3, ho.scale, clock_from scale t.base hs _ hpl.slow hpl.time n (by omega)] at this
    have hT : g.timeTotal = t.base + ((t.durs trex).take n).sum := (Prod.mk.inj this).1
    rw [hT, t3, o3, ho.scale, millis_eq _ _ (by omega)]
  have hone : One t l trex scale g := ⟨ho.meaning, by rw [t5, o5, ho.trafs], by rw [t4, o4, ho.trex], by rw [t3, o3, ho.scale]⟩
  have hpart : getPart h n at0 = (g, some ⟨millis g.scale g.timeTotal, int32 ((offOf r r.rows[n - cnt pre] * 1000 % 2 ^ 32 / scale : Nat) : Int),
      !has (flagsOf t trex r (n - cnt pre) r.rows[n - cnt pre]) 0x10000, at0 + (data + ((r.rows.take (n - cnt pre)).map (sizeOf t trex r)).sum),
      sizeOf t trex r r.rows[n - cnt pre]⟩) := by
    have hw : has r.word 1 = true := by
      have := (run_bits r.data.isSome r.first.isSome r.hasDur r.hasSize r.hasFlags r.hasOff).1
      have hw : has r.word 1 = r.data.isSome := this
      rw [hw, hd]; rfl
    have hpos : getPos h (box tyTrun (r.bytes v) ++ rest) (n - cnt pre) (box tyTfhd t.head.bytes ++ rh) at0 =
        at0 + (data + ((r.rows.take (n - cnt pre)).map (sizeOf t trex r)).sum) := by
      unfold getPos
      rw [h5, hpl.moof, if_pos rfl, g1, g3 data hd, ho.trex, size_sum t ho.meaning.fits.1 rh hhl trex r hgr.1 v rest hgr.2 _ (by omega), hw, if_pos rfl]
    have hsi : trunInfo (box tyTrun (r.bytes v) ++ rest) (n - cnt pre) (box tyTfhd t.head.bytes ++ rh) h.trex = ⟨durOf t trex r r.rows[n - cnt pre],
        sizeOf t trex r r.rows[n - cnt pre], flagsOf t trex r (n - cnt pre) r.rows[n - cnt pre], offOf r r.rows[n - cnt pre]⟩ := by
      have := run_info t ho.meaning.fits.1 rh hhl trex r hgr.1 v rest hgr.2 _ _ hrow
      rw [ho.trex]
      exact this
    have := get_part_one h _ _ _ n at0 ho.trafs e4 _ (in_run h _ 0 _ _ n at0 _ _ g _ _ eh hsi ht hpos)
    rw [this, ho.scale]
  refine ⟨g, _, hpart, hone, t1, t2, pre, post, v, r, n - cnt pre, _, data, e1, ?_, hrow, hd, hmil, ?_, ?_, ?_, rfl⟩
  · show n = cnt pre + (n - cnt pre); omega
  · exact off_eq _ _ (hpl.offs (v, r) hm _ (List.getElem_mem _))
  · rw [← has_bit]
  · rw [Nat.add_assoc]

end Verif.Fmp4
