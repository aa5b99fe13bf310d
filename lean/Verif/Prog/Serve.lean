import Verif.Prog.Got

/-!
# Ranges of the file
-/
namespace Verif.Prog
open Verif.Prog.Spec
open Verif.Play (Pkt)

/-! ## What is sent of packets -/

/-- The set moves along the parts that are visited. -/
def Tracks (R : List Trk) (s : Place) (ks : List KeyPart) : Prop := ∃ fuel, ks = visit R fuel s.set

theorem Tracks.step {R : List Trk} {s : Place} {k : KeyPart} {ks : List KeyPart} (h : Tracks R s (k :: ks)) (left : Int) :
    Tracks R (advance R { s with left := left }) ks ∧ (advance R { s with left := left }).pos = s.pos + (part (trkOf R k.track) k.index).size ∧
    (advance R { s with left := left }).left = left := by
  obtain ⟨fuel, hf⟩ := h
  unfold advance
  simp only
  cases hs : s.set with
  | nil => rw [hs] at hf; cases fuel <;> cases hf
  | cons q l =>
    cases fuel with
    | zero => cases hf
    | succ fuel =>
      rw [hs, visit] at hf
      obtain ⟨rfl, rfl⟩ := List.cons.inj hf
      exact ⟨⟨fuel, rfl⟩, rfl, rfl⟩

theorem chunkify_small {b : Bytes} {n : Nat} (h : n ≤ b.length) (hn : n < 2 ^ 32) : chunkify b (n : Int) = .bytes (b.take n) := by
  unfold chunkify
  have : ((n : Int) % 2 ^ 32).toNat = n := by omega
  rw [this, if_pos h]

theorem chunkify_negative {b : Bytes} {n : Int} (h : n < 0) (h2 : -(2 ^ 31) < n) (hb : b.length < 2 ^ 31) : chunkify b n = .beyond (n % 2 ^ 32).toNat := by
  unfold chunkify
  rw [if_neg]
  omega

theorem sendAll_over {R : List Trk} {start : Nat} {s : Place} {ds : List Bytes} (hp : start ≤ s.pos) (hl : s.left < 0) (h2 : -(2 ^ 31) < s.left)
    (hd : ∀ d ∈ ds, d.length < 2 ^ 31) : delivered (sendAll R start s ds) = [] := by
  cases ds with
  | nil => rfl
  | cons d ds =>
    rw [sendAll]
    unfold sendPart
    rw [if_pos hp]
    have : min s.left (d.length : Int) = s.left := by omega
    rw [this, chunkify_negative hl h2 (hd d List.mem_cons_self)]
    rfl

theorem sendAll_after {R : List Trk} {start : Nat} {s : Place} {ks : List KeyPart} {f : KeyPart → Bytes} (ht : Tracks R s ks) (hp : start ≤ s.pos)
    {n : Nat} (hl : s.left = n) (hd : ∀ k ∈ ks, (f k).length < 2 ^ 31 ∧ f k ≠ []) :
    delivered (sendAll R start s (ks.map f)) = (ks.map f).flatten.take n := by
  induction ks generalizing s n with
  | nil => simp [sendAll, delivered]
  | cons k ks ih =>
    obtain ⟨hk1, hk2⟩ := hd k List.mem_cons_self
    have hlen : 0 < (f k).length := List.length_pos_iff.mpr hk2
    rw [List.map_cons, sendAll]
    unfold sendPart
    rw [if_pos hp]
    simp only
    obtain ⟨st, sp, sl⟩ := ht.step (s.left - (f k).length)
    generalize advance R { s with left := s.left - (f k).length } = s' at st sp sl
    have hm : min s.left ((f k).length : Int) = (min n (f k).length : Nat) := by omega
    rw [hm, chunkify_small (by omega) (by omega), List.singleton_append, delivered, List.flatten_cons, List.take_append]
    by_cases h0 : n = 0
    · subst h0
      simp
    · rw [if_neg (by
        intro hc
        have := congrArg List.length hc
        rw [List.length_take, List.length_nil] at this
        omega)]
      have ht : (f k).take (min n (f k).length) = (f k).take n := by
        rw [← List.take_take, List.take_length]
      rw [ht]
      congr 1
      by_cases hc : (f k).length ≤ n
      · exact ih st (by omega) (n := n - (f k).length) (by omega) fun x hx => hd x (List.mem_cons_of_mem _ hx)
      · rw [show n - (f k).length = 0 by omega, List.take_zero]
        refine sendAll_over (by omega) (by omega) (by omega) fun d hd' => ?_
        obtain ⟨x, hx, rfl⟩ := List.mem_map.mp hd'
        exact (hd x (List.mem_cons_of_mem _ hx)).1

theorem sendAll_range {R : List Trk} {start : Nat} {s : Place} {ks : List KeyPart} {f : KeyPart → Bytes} (ht : Tracks R s ks)
    {n : Nat} (hl : s.left = n) (hn : start ≤ s.pos ∨ (0 < n ∧ n < 2 ^ 63)) (hd : ∀ k ∈ ks, (f k).length < 2 ^ 31 ∧ f k ≠ [])
    (hsz : ∀ k ∈ ks, (part (trkOf R k.track) k.index).size = (f k).length) :
    delivered (sendAll R start s (ks.map f)) = ((ks.map f).flatten.drop (start - s.pos)).take n := by
  induction ks generalizing s n with
  | nil => simp [sendAll, delivered]
  | cons k ks ih =>
    by_cases hp : start ≤ s.pos
    · rw [show start - s.pos = 0 by omega, List.drop_zero]
      exact sendAll_after ht hp hl hd
    · obtain ⟨hk1, hk2⟩ := hd k List.mem_cons_self
      have hn' : 0 < n ∧ n < 2 ^ 63 := hn.resolve_left hp
      rw [List.map_cons, sendAll, List.flatten_cons, List.drop_append]
      unfold sendPart
      rw [if_neg (show ¬ s.pos ≥ start from hp)]
      by_cases hc : s.pos + (f k).length > start
      · rw [if_pos hc]
        simp only
        obtain ⟨st, sp, sl⟩ := ht.step (s.left - ((f k).length - (start - s.pos) : Nat))
        rw [hsz k List.mem_cons_self] at sp
        generalize advance R { s with left := s.left - ((f k).length - (start - s.pos) : Nat) } = s' at st sp sl
        have hm : min (s.left % 2 ^ 64) (((f k).length - (start - s.pos) : Nat) : Int) = (min n ((f k).length - (start - s.pos)) : Nat) := by omega
        have hdl : ((f k).drop (start - s.pos)).length = (f k).length - (start - s.pos) := List.length_drop
        rw [hm, chunkify_small (by rw [hdl]; omega) (by omega), List.singleton_append, delivered, List.take_append, hdl]
        rw [if_neg (by
          intro hc
          have := congrArg List.length hc
          rw [List.length_take, List.length_nil, hdl] at this
          omega)]
        rw [show start - s.pos - (f k).length = 0 by omega, List.drop_zero]
        have ht : ((f k).drop (start - s.pos)).take (min n ((f k).length - (start - s.pos))) = ((f k).drop (start - s.pos)).take n := by
          rw [← hdl, ← List.take_take, List.take_length]
        rw [ht]
        congr 1
        by_cases hc2 : (f k).length - (start - s.pos) ≤ n
        · exact sendAll_after st (by omega) (by omega) fun x hx => hd x (List.mem_cons_of_mem _ hx)
        · rw [show n - ((f k).length - (start - s.pos)) = 0 by omega, List.take_zero]
          refine sendAll_over (by omega) (by omega) (by omega) fun d hd' => ?_
          obtain ⟨x, hx, rfl⟩ := List.mem_map.mp hd'
          exact (hd x (List.mem_cons_of_mem _ hx)).1
      · rw [if_neg hc]
        simp only [List.nil_append]
        obtain ⟨st, sp, sl⟩ := ht.step s.left
        rw [hsz k List.mem_cons_self] at sp
        generalize advance R { s with left := s.left } = s' at st sp sl
        rw [List.drop_of_length_le (by omega), List.nil_append]
        rw [ih st (by omega) (Or.inr hn') (fun x hx => hd x (List.mem_cons_of_mem _ hx)) fun x hx => hsz x (List.mem_cons_of_mem _ hx)]
        rw [sp, show start - (s.pos + (f k).length) = start - s.pos - (f k).length by omega]

/-! ## Finding the start -/

/-- The sizes of parts. -/
def sizes (R : List Trk) (l : List KeyPart) : Nat := (l.map fun k => (part (trkOf R k.track) k.index).size).sum

theorem seekLoop_spec {R : List Trk} (h : Fine R) (fuel start : Nat) (time pos : Nat) {l : List KeyPart} (hl : Set' R l)
    (hf : (l.map (weight R)).sum ≤ fuel) (hs : start < sizes R (visit R fuel l)) :
    ∃ pre k suf f, visit R fuel l = pre ++ k :: suf ∧ (seekLoop R fuel start (time, pos, l)).1 = k.time ∧
      (seekLoop R fuel start (time, pos, l)).2.1 = pos + sizes R pre ∧ visit R f (seekLoop R fuel start (time, pos, l)).2.2 = k :: suf ∧
      sizes R pre ≤ start := by
  induction fuel generalizing start time pos l with
  | zero => simp [visit, sizes] at hs
  | succ fuel ih =>
    cases l with
    | nil => simp [visit, sizes] at hs
    | cons k l =>
      obtain ⟨h1, h2, h3, _⟩ := hl.step h
      rw [seekLoop, visit]
      simp only
      by_cases hc : (part (trkOf R k.track) k.index).size > start
      · rw [if_pos hc]
        exact ⟨[], k, _, fuel + 1, rfl, rfl, by simp [sizes], by rw [visit], by simp [sizes]⟩
      · rw [if_neg hc]
        have htail : (addNext R k (k :: l)).tail = addNext R k l := by
          unfold addNext at h3 ⊢
          cases hn : nextPart R k with
          | none => rfl
          | some n =>
            rw [hn] at h3
            have hlt := h3 n (mem_setInsert.mpr (Or.inl rfl))
            simp only
            rw [setInsert, if_neg (by
              intro hc
              exact lt_irrefl (lt_trans hlt (less_iff.mp hc))), if_pos (less_iff.mpr hlt)]
            rfl
        rw [htail]
        rw [visit] at hs
        have hs' : start - (part (trkOf R k.track) k.index).size < sizes R (visit R fuel (addNext R k l)) := by
          unfold sizes at hs ⊢
          rw [List.map_cons, List.sum_cons] at hs
          omega
        obtain ⟨pre, q, suf, f, e1, e2, e3, e4, e5⟩ := ih _ k.time (pos + (part (trkOf R k.track) k.index).size) h1 (by omega) hs'
        refine ⟨k :: pre, q, suf, f, by rw [e1]; rfl, e2, ?_, e4, ?_⟩
        · rw [e3]
          unfold sizes
          rw [List.map_cons, List.sum_cons]
          omega
        · unfold sizes at e5 ⊢
          rw [List.map_cons, List.sum_cons]
          omega

theorem On.sample {R : List Trk} {k : KeyPart} (h : On R k) : ∃ t ∈ R, k.track = t.id ∧ ∃ s ∈ t.samples, s.time = k.time ∧ t.samples[k.index]? = some s := by
  obtain ⟨t, ht, hk, ⟨s, hs, hst⟩, _⟩ := h
  exact ⟨t, ht, hk, s, List.mem_of_getElem? hs, hst, hs⟩

theorem distinct_parts {R : List Trk} (h : Fine R) (hd : Distinct R) {a b : KeyPart} (ha : On R a) (hb : On R b) (hl : lt a b) : a.time < b.time := by
  by_cases ht : a.track = b.track
  · exact track_eq h ha hb ht hl
  · obtain ⟨t, htR, hat, s, hs, hst, _⟩ := ha.sample
    obtain ⟨u, huR, hbu, r, hr, hrt, _⟩ := hb.sample
    have := hd t htR u huR (by rw [← hat, ← hbu]; exact ht) s hs r hr
    rcases hl with hl | ⟨he, _⟩
    · exact hl
    · omega

theorem filter_suffix {R : List Trk} (h : Fine R) {pre suf : List KeyPart} {k : KeyPart} (he : all R = pre ++ k :: suf)
    (hd : ∀ x ∈ pre, x.time < k.time) : (all R).filter (fun x => decide (k.time ≤ x.time)) = k :: suf := by
  have hs := all_sorted h
  rw [he] at hs ⊢
  rw [List.filter_append]
  have h1 : pre.filter (fun x => decide (k.time ≤ x.time)) = [] := by
    rw [List.filter_eq_nil_iff]
    intro x hx
    have := hd x hx
    simp; omega
  have h2 : (k :: suf).filter (fun x => decide (k.time ≤ x.time)) = k :: suf := by
    rw [List.filter_eq_self]
    intro x hx
    rcases List.mem_cons.mp hx with rfl | hx
    · simp
    · have := (List.pairwise_cons.mp (List.pairwise_append.mp hs).2.1).1 x hx
      simp only [decide_eq_true_eq]
      rcases this with h | ⟨h, _⟩ <;> omega
  rw [h1, h2]
  rfl

theorem data_len {R : List Trk} (h : Fine R) {k : KeyPart} (hk : On R k) : (part (trkOf R k.track) k.index).size = (dataOf R k).length ∧
    (dataOf R k).length < 2 ^ 31 ∧ ∃ t ∈ R, ∃ s ∈ t.samples, dataOf R k = s.data := by
  obtain ⟨t, ht, hkt, s, hs, hst, hget⟩ := hk.sample
  have hsz := h.size t ht s hs
  unfold dataOf
  rw [hkt, trkOf_eq h.ids ht, hget]
  exact ⟨part_get hget (by omega), hsz, t, ht, s, hs, rfl⟩

theorem foldl_min_le (l : List Nat) (m : Nat) : l.foldl min m ≤ m ∧ ∀ x ∈ l, l.foldl min m ≤ x := by
  induction l generalizing m with
  | nil => exact ⟨Nat.le_refl _, (fun x hx => by cases hx)⟩
  | cons y l ih =>
    rw [List.foldl_cons]
    obtain ⟨h1, h2⟩ := ih (min m y)
    refine ⟨by omega, fun x hx => ?_⟩
    rcases List.mem_cons.mp hx with rfl | hx
    · omega
    · exact h2 x hx

theorem all_late {R : List Trk} (h : Fine R) : (all R).filter (fun x => decide (startTime R ≤ x.time)) = all R := by
  rw [List.filter_eq_self]
  intro x hx
  obtain ⟨t, ht, hkt, s, hs, hst, hget⟩ := (all_on h x hx).sample
  have hm := (foldl_min_le (R.map firstms) (2 ^ 64 - 1)).2 (firstms t) (List.mem_map_of_mem ht)
  have h2 := (h.two t ht).1
  have h0 := List.getElem?_eq_getElem (l := t.samples) (i := 0) (by omega)
  have hf : firstms t = t.samples[0].time := by
    unfold firstms
    rw [List.head?_eq_getElem?, h0]
    rfl
  simp only [decide_eq_true_eq]
  unfold startTime
  by_cases hi : x.index = 0
  · rw [hi, h0] at hget
    rw [← hst, ← Option.some.inj hget]
    omega
  · have := time_lt (h.time t ht) (Nat.pos_of_ne_zero hi) h0 hget
    omega

theorem sizes_length {R : List Trk} (h : Fine R) {l : List KeyPart} (hl : ∀ k ∈ l, On R k) : sizes R l = ((l.map (dataOf R)).flatten).length := by
  induction l with
  | nil => rfl
  | cons k l ih =>
    have := ih fun x hx => hl x (List.mem_cons_of_mem _ hx)
    unfold sizes at this ⊢
    rw [List.map_cons, List.sum_cons, this, (data_len h (hl k List.mem_cons_self)).1, List.map_cons, List.flatten_cons, List.length_append]

theorem file_eq (R : List Trk) (header : Bytes) (l : List KeyPart) : file header (l.map (pk R)) = header ++ (l.map (dataOf R)).flatten := by
  unfold file
  rw [List.map_map]
  rfl

theorem pk_data (R : List Trk) (l : List KeyPart) : (l.map (pk R)).map (fun x => x.2.data) = l.map (dataOf R) := by
  rw [List.map_map]
  rfl

/-- The place that the output seeks to is that of the byte. -/
theorem respond_range {R : List Trk} (h : Fine R) (header : Bytes) {start stop fuel : Nat} (hfuel : total R ≤ fuel) (hss : start ≤ stop)
    (hstop : stop < (file header ((all R).map (pk R))).length) (hlong : stop < 2 ^ 62)
    (hne : ∀ t ∈ R, ∀ s ∈ t.samples, s.data ≠ []) :
    ∃ pre suf, all R = pre ++ suf ∧ (start ≤ header.length → pre = []) ∧ (pre ≠ [] → ∃ k r, suf = k :: r ∧ (respond R fuel header header.length start stop).2.1 = k.time) ∧
      (pre = [] → ((respond R fuel header header.length start stop).2.1 = startTime R ∨ ∃ k r, suf = k :: r ∧ (respond R fuel header header.length start stop).2.1 = k.time)) ∧
      (header.length < 2 ^ 32 → delivered ((respond R fuel header header.length start stop).1 ++
        sendAll R start (respond R fuel header header.length start stop).2.2 (suf.map (dataOf R))) =
      ((file header ((all R).map (pk R))).drop start).take (stop + 1 - start)) := by
  rw [file_eq] at hstop ⊢
  have hon := all_on h
  have hfirst := first_set h
  have hall : visit R fuel (firstSet R) = all R := visit_fuel h hfirst.1 (by omega) hfirst.2.2.1
  have hprop : ∀ l : List KeyPart, (∀ k ∈ l, On R k) → ∀ k ∈ l, (dataOf R k).length < 2 ^ 31 ∧ dataOf R k ≠ [] := by
    intro l hl k hk
    obtain ⟨_, h2, t, ht, s, hs, he⟩ := data_len h (hl k hk)
    exact ⟨h2, by rw [he]; exact hne t ht s hs⟩
  unfold respond
  by_cases hc : start ≤ header.length
  · have hfs : findSeekPoint R fuel start (startTime R) header.length = (startTime R, 0, firstSet R) := by
      unfold findSeekPoint
      rw [if_pos hc]
    rw [hfs]
    simp only
    refine ⟨[], all R, rfl, fun _ => rfl, fun h => absurd rfl h, fun _ => Or.inl ?_, fun hhl => ?_⟩
    · split <;> rfl
    · by_cases hc2 : start < header.length
      · rw [if_pos hc2]
        simp only
        have hdl : (header.drop start).length = header.length - start := List.length_drop
        rw [chunkify_small (by rw [hdl]; omega) (by omega), List.singleton_append, delivered, if_neg (by
          intro hc
          have := congrArg List.length hc
          rw [List.length_take, List.length_nil, hdl] at this
          omega)]
        rw [sendAll_range (n := stop + 1 - start - (min header.length (stop + 1) - start)) ⟨fuel, hall.symm⟩ (by simp only; omega) (Or.inl (by simp only; omega))
          (hprop _ hon) (fun k hk => (data_len h (hon k hk)).1)]
        simp only
        rw [List.drop_append_of_le_length (by omega), List.take_append, hdl, show start - (0 + header.length) = 0 by omega, List.drop_zero]
        congr 1
        · by_cases hm : header.length ≤ stop + 1
          · rw [List.take_of_length_le (by rw [hdl]; omega), List.take_of_length_le (by rw [hdl]; omega)]
          · congr 1; omega
        · congr 1; omega
      · rw [if_neg hc2]
        simp only [List.nil_append]
        rw [sendAll_range (n := stop + 1 - start) ⟨fuel, hall.symm⟩ (by simp only; omega) (Or.inl (by simp only; omega))
          (hprop _ hon) (fun k hk => (data_len h (hon k hk)).1)]
        simp only
        have : start = header.length := by omega
        subst this
        rw [List.drop_left, show header.length - (0 + header.length) = 0 by omega, List.drop_zero]
  · have hlt : start - header.length < sizes R (visit R fuel (firstSet R)) := by
      rw [hall, sizes_length h hon]
      rw [List.length_append] at hstop
      omega
    obtain ⟨pre, k, suf, f, e1, e2, e3, e4, e5⟩ := seekLoop_spec h fuel (start - header.length) (startTime R) 0 hfirst.1 (by omega) hlt
    have hfs : findSeekPoint R fuel start (startTime R) header.length = seekLoop R fuel (start - header.length) (startTime R, 0, firstSet R) := by
      unfold findSeekPoint
      rw [if_neg hc]
    rw [hfs]
    generalize seekLoop R fuel (start - header.length) (startTime R, 0, firstSet R) = r at e2 e3 e4
    rw [hall] at e1
    rw [if_neg (by omega)]
    simp only [List.nil_append]
    refine ⟨pre, k :: suf, e1, fun hx => absurd hx hc, fun _ => ⟨k, suf, rfl, e2⟩, fun _ => Or.inr ⟨k, suf, rfl, e2⟩, fun _ => ?_⟩
    have hpre : ∀ x ∈ pre, On R x := fun x hx => hon x (by rw [e1]; exact List.mem_append_left _ hx)
    have hsuf : ∀ x ∈ k :: suf, On R x := fun x hx => hon x (by rw [e1]; exact List.mem_append_right _ hx)
    rw [sendAll_range (n := stop + 1 - start) (s := ⟨(stop : Int) - start + 1, r.2.1 + header.length, r.2.2⟩) ⟨f, e4.symm⟩ (by simp only; omega)
      (Or.inr (by omega)) (hprop _ hsuf) (fun x hx => (data_len h (hsuf x hx)).1)]
    simp only
    rw [e1, List.map_append, List.flatten_append, e3]
    have hsl := sizes_length h hpre
    rw [List.drop_append (l₁ := header), List.drop_of_length_le (l := header) (by omega), List.nil_append,
      List.drop_append (l₁ := (pre.map (dataOf R)).flatten), List.drop_of_length_le (l := (pre.map (dataOf R)).flatten) (by omega), List.nil_append]
    congr 2
    omega

end Verif.Prog
