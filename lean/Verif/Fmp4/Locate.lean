import Verif.Fmp4.Runs

/-!
# Finding samples in the runs of a fragment
-/
namespace Verif.Fmp4
open Verif.Mp4 Verif.Stbl

/-- The samples of runs. -/
def cnt (l : List (Nat × Run)) : Nat := (l.map fun r => r.2.rows.length).sum

theorem cnt_append (a b : List (Nat × Run)) : cnt (a ++ b) = cnt a + cnt b := by unfold cnt; rw [List.map_append, List.sum_append]
theorem cnt_cons (a : Nat × Run) (b : List (Nat × Run)) : cnt (a :: b) = a.2.rows.length + cnt b := by unfold cnt; rw [List.map_cons, List.sum_cons]

/-- Runs that can be read. -/
def Good (runs : List (Nat × Run)) : Prop := ∀ r ∈ runs, r.2.Fits ∧ (r.2.bytes r.1).length < 2 ^ 30

/-- Both loops find the run. -/
theorem run_loop (runs : List (Nat × Run)) (hg : Good runs) (bs : List Bytes) (hp : Points tyTrun bs (runs.map fun r => r.2.bytes r.1)) (s n : Nat)
    (h1 : s ≤ n) (h2 : n < s + cnt runs) :
    ∃ pre v r post rest, runs = pre ++ (v, r) :: post ∧ s + cnt pre ≤ n ∧ n < s + cnt pre + r.rows.length ∧
      runLoop n bs s = .inl (box tyTrun (r.bytes v) ++ rest, s + cnt pre) ∧ findRun n bs s = some (box tyTrun (r.bytes v) ++ rest, s + cnt pre) := by
  induction runs generalizing bs s with
  | nil => unfold cnt at h2; simp at h2; omega
  | cons q runs ih =>
    cases bs with
    | nil => exact absurd hp id
    | cons b bs =>
      obtain ⟨⟨rest, rfl⟩, hp⟩ := hp
      have hq := hg q (by simp)
      have hc := (run_reads q.2 hq.1 q.1 rest hq.2).2.1
      rw [cnt_cons] at h2
      unfold runLoop findRun
      rw [hc]
      by_cases hn : n ≥ s + q.2.rows.length
      · rw [if_pos hn, if_pos hn]
        obtain ⟨pre, v, r, post, rest', rfl, e2, e3, e4, e5⟩ := ih (fun r hr => hg r (by simp [hr])) bs hp (s + q.2.rows.length) hn (by omega)
        refine ⟨q :: pre, v, r, post, rest', rfl, ?_, ?_, ?_, ?_⟩
        · rw [cnt_cons]; omega
        · rw [cnt_cons]; omega
        · rw [cnt_cons, ← Nat.add_assoc]; exact e4
        · rw [cnt_cons, ← Nat.add_assoc]; exact e5
      · rw [if_neg hn, if_neg hn]
        exact ⟨[], q.1, q.2, runs, rest, rfl, h1, by unfold cnt; simp only [List.map_nil, List.sum_nil]; omega, rfl, rfl⟩

/-- The samples of a list of runs, counted. -/
theorem run_counts (runs : List (Nat × Run)) (hg : Good runs) (bs : List Bytes) (hp : Points tyTrun bs (runs.map fun r => r.2.bytes r.1)) :
    (bs.map trunCount).sum = cnt runs := by
  induction runs generalizing bs with
  | nil =>
    cases bs with
    | nil => rfl
    | cons b bs => exact absurd hp id
  | cons q runs ih =>
    cases bs with
    | nil => exact absurd hp id
    | cons b bs =>
      obtain ⟨⟨rest, rfl⟩, hp⟩ := hp
      have hq := hg q (by simp)
      rw [List.map_cons, List.sum_cons, ih (fun r hr => hg r (by simp [hr])) bs hp, cnt_cons, (run_reads q.2 hq.1 q.1 rest hq.2).2.1]

theorem durs_length (t : Traf) (trex : Option Trex) : (t.durs trex).length = cnt t.runs := by
  unfold Traf.durs cnt
  rw [List.length_flatMap]
  congr 1
  apply List.map_congr_left
  intro r _
  rw [List.length_map]

/-- The duration of a sample of a run. -/
theorem durs_at (t : Traf) (trex : Option Trex) (pre post : List (Nat × Run)) (v : Nat) (r : Run) (h : t.runs = pre ++ (v, r) :: post) (i : Nat) (x : Row)
    (hx : r.rows[i]? = some x) : (t.durs trex)[cnt pre + i]? = some (durOf t trex r x) := by
  have hl : (pre.flatMap fun r => r.2.rows.map (durOf t trex r.2)).length = cnt pre := by
    unfold cnt
    rw [List.length_flatMap]
    congr 1
    apply List.map_congr_left
    intro r _
    rw [List.length_map]
  have hi := (List.getElem?_eq_some_iff.mp hx).1
  unfold Traf.durs
  rw [h, List.flatMap_append, List.flatMap_cons, List.getElem?_append_right (by omega), hl, Nat.add_sub_cancel_left,
    List.getElem?_append_left (by rw [List.length_map]; exact hi), List.getElem?_map, hx, Option.map_some]

/-! ## Times -/

/-- The clock after some samples. -/
def clockFrom (scale base : Nat) (ds : List Nat) : Nat × Nat := ds.foldl (increase scale) (base, 0)

theorem clockFrom_nil (scale base : Nat) : clockFrom scale base [] = (base, 0) := by unfold clockFrom; rw [List.foldl_nil]
theorem clockFrom_snoc (scale base : Nat) (ds : List Nat) (x : Nat) : clockFrom scale base (ds ++ [x]) = increase scale (clockFrom scale base ds) x := by
  unfold clockFrom; rw [List.foldl_append, List.foldl_cons, List.foldl_nil]

/-- Where a lookup of a time may start, other than for the first sample. -/
structure ClockAt (ds : List Nat) (base : Nat) (h : Header) : Prop where
  inside : h.timeSample ≤ ds.length
  time : (h.timeTotal, h.timeExtra) = clockFrom h.scale base (ds.take h.timeSample)

/-- `increaseTime`, with the new numbers. -/
def incOf (s : Nat × Nat) (h : Header) : Header := { h with timeTotal := s.1, timeExtra := s.2, timeSample := h.timeSample + 1 }

theorem inc_of (h : Header) (x : Nat) : increaseTime h x = incOf (increase h.scale (h.timeTotal, h.timeExtra) x) h := by
  delta increaseTime incOf; exact rfl
theorem incOf_time (s : Nat × Nat) (h : Header) : ((incOf s h).timeTotal, (incOf s h).timeExtra) = s := by cases s; exact rfl
theorem incOf_rest (s : Nat × Nat) (h : Header) :
    (incOf s h).timeSample = h.timeSample + 1 ∧ (incOf s h).scale = h.scale ∧ (incOf s h).trex = h.trex ∧ (incOf s h).trafs = h.trafs := ⟨rfl, rfl, rfl, rfl⟩

theorem inc_sample (h : Header) (x : Nat) : (increaseTime h x).timeSample = h.timeSample + 1 := by rw [inc_of, (incOf_rest _ h).1]
theorem inc_scale (h : Header) (x : Nat) : (increaseTime h x).scale = h.scale := by rw [inc_of, (incOf_rest _ h).2.1]
theorem inc_trex (h : Header) (x : Nat) : (increaseTime h x).trex = h.trex := by rw [inc_of, (incOf_rest _ h).2.2.1]
theorem inc_trafs (h : Header) (x : Nat) : (increaseTime h x).trafs = h.trafs := by rw [inc_of, (incOf_rest _ h).2.2.2]
theorem inc_time (h : Header) (x : Nat) : ((increaseTime h x).timeTotal, (increaseTime h x).timeExtra) = increase h.scale (h.timeTotal, h.timeExtra) x := by
  rw [inc_of, incOf_time]

/-- One step of the clock. -/
theorem clock_inc (ds : List Nat) (base : Nat) (h : Header) (hc : ClockAt ds base h) (x : Nat) (hx : ds[h.timeSample]? = some x) :
    ClockAt ds base (increaseTime h x) := by
  obtain ⟨hi, hv⟩ := List.getElem?_eq_some_iff.mp hx
  constructor
  · rw [inc_sample]; exact hi
  · have e : ds.take (h.timeSample + 1) = ds.take h.timeSample ++ [x] := by rw [List.take_succ_eq_append_getElem hi, hv]
    rw [inc_time, inc_scale, inc_sample, e, clockFrom_snoc, ← hc.time]

/-- The rest of the header. -/
def Same (h g : Header) : Prop := g.scale = h.scale ∧ g.trex = h.trex ∧ g.trafs = h.trafs

theorem time_loop (t : Traf) (hg : Good t.runs) (hh : t.head.Fits) (hhl : t.head.bytes.length < 2 ^ 30) (rh : Bytes) (bs : List Bytes)
    (hp : Points tyTrun bs (t.runs.map fun r => r.2.bytes r.1)) (trex : Option Trex) (hc64 : cnt t.runs < 2 ^ 63)
    (n : Nat) (pre post : List (Nat × Run)) (v : Nat) (r : Run) (rest : Bytes) (hr : t.runs = pre ++ (v, r) :: post) (hn : n < cnt t.runs)
    (fuel : Nat) (h : Header) (hx : h.trex = trex) (hf : n - h.timeSample ≤ fuel) (hle : h.timeSample ≤ n) (base : Nat) (hc : ClockAt (t.durs trex) base h) :
    let g := timeLoop bs 0 (box tyTrun (r.bytes v) ++ rest) (cnt pre) (box tyTfhd t.head.bytes ++ rh) n fuel h
    ClockAt (t.durs trex) base g ∧ g.timeSample = n ∧ Same h g := by
  induction fuel generalizing h with
  | zero => exact ⟨hc, by show h.timeSample = n; omega, rfl, rfl, rfl⟩
  | succ fuel ih =>
    intro g
    have hgr := hg (v, r) (by rw [hr]; simp)
    have hcount := (run_reads r hgr.1 v rest hgr.2).2.1
    show ClockAt (t.durs trex) base (timeLoop _ _ _ _ _ _ _ _) ∧ (timeLoop _ _ _ _ _ _ _ _).timeSample = n ∧ Same h (timeLoop _ _ _ _ _ _ _ _)
    unfold timeLoop
    by_cases hlt : h.timeSample < n
    · rw [if_pos hlt, hcount, hx]
      have step : ∀ y, (t.durs trex)[h.timeSample]? = some y →
          let g := timeLoop bs 0 (box tyTrun (r.bytes v) ++ rest) (cnt pre) (box tyTfhd t.head.bytes ++ rh) n fuel (increaseTime h y)
          ClockAt (t.durs trex) base g ∧ g.timeSample = n ∧ Same h g := by
        intro y hy
        obtain ⟨i1, i2, i3⟩ := ih (increaseTime h y) (by rw [inc_trex, hx]) (by rw [inc_sample]; omega) (by rw [inc_sample]; omega) (clock_inc _ _ h hc y hy)
        unfold Same at i3 ⊢
        rw [inc_scale, inc_trex, inc_trafs] at i3
        exact ⟨i1, i2, i3⟩
      by_cases hin : h.timeSample ≥ cnt pre ∧ h.timeSample < cnt pre + r.rows.length
      · rw [if_pos hin]
        have hrow : r.rows[h.timeSample - cnt pre]? = some r.rows[h.timeSample - cnt pre] := List.getElem?_eq_getElem (by omega)
        rw [run_info t hh rh hhl trex r hgr.1 v rest hgr.2 _ _ hrow]
        refine step _ ?_
        have := durs_at t trex pre post v r hr _ _ hrow
        rwa [show cnt pre + (h.timeSample - cnt pre) = h.timeSample by omega] at this
      · rw [if_neg hin]
        obtain ⟨pre', v', r', post', rest', e1, e2, e3, -, e5⟩ := run_loop t.runs hg bs hp 0 h.timeSample (by omega) (by omega)
        rw [Nat.zero_add] at e2 e3 e5
        have hgr' := hg (v', r') (by rw [e1]; simp)
        have hrow : r'.rows[h.timeSample - cnt pre']? = some r'.rows[h.timeSample - cnt pre'] := List.getElem?_eq_getElem (by omega)
        rw [e5]
        dsimp only
        rw [show (h.timeSample + 2 ^ 64 - cnt pre') % 2 ^ 64 = h.timeSample - cnt pre' by omega, run_info t hh rh hhl trex r' hgr'.1 v' rest' hgr'.2 _ _ hrow]
        refine step _ ?_
        have := durs_at t trex pre' post' v' r' e1 _ _ hrow
        rwa [show cnt pre' + (h.timeSample - cnt pre') = h.timeSample by omega] at this
    · rw [if_neg hlt]
      exact ⟨hc, by omega, rfl, rfl, rfl⟩

/-- Samples of at least a millisecond are not moved. -/
theorem clock_from (scale base : Nat) (hs : 0 < scale) (ds : List Nat) (h1 : ∀ x ∈ ds, scale ≤ x * 1000) (h2 : base + ds.sum < 2 ^ 54) (n : Nat) (hn : n ≤ ds.length) :
    clockFrom scale base (ds.take n) = (base + (ds.take n).sum, 0) := by
  induction n with
  | zero => rw [List.take_zero, clockFrom_nil]; rfl
  | succ n ih =>
    have hsum : (ds.take (n + 1)).sum ≤ ds.sum := by
      conv => rhs; rw [← List.take_append_drop (n + 1) ds, List.sum_append]
      omega
    rw [List.take_succ_eq_append_getElem (by omega)] at hsum ⊢
    rw [clockFrom_snoc, ih (by omega)]
    rw [List.sum_append] at hsum ⊢
    simp only [List.sum_cons, List.sum_nil, Nat.add_zero] at hsum ⊢
    have hx := h1 ds[n] (List.getElem_mem _)
    generalize ds[n] = x at *
    rw [← Nat.add_assoc]
    have h3 : base + (ds.take n).sum + x < 2 ^ 54 := by omega
    generalize base + (ds.take n).sum = d at *
    have := increase_eq scale d 0 x (by omega)
    simp only [Nat.add_zero] at this
    rw [this]
    have hlt : d * 1000 / scale < (d + x) * 1000 / scale := by
      have := Nat.div_le_div_right (c := scale) (show d * 1000 + scale ≤ (d + x) * 1000 by omega)
      rw [Nat.add_div_right _ hs] at this
      omega
    rw [if_neg (by omega)]

end Verif.Fmp4
