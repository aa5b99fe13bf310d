import Verif.Index.Props

/-!
# Old data leaves a live stream's buffer (C32; `/repo/src/input/input_buffer.cpp` 277-311 and 430-456)

One track; the removal of whole tracks, data pages and tracks with embedded frames are left out.
-/
namespace Verif.Index

/-- dtsc.cpp 3623-3638: `biggestFragment`, over `k` fragments from the `i`-th on. -/
def biggest (f : Tab Frag) : Nat → Nat → Nat → Nat
  | 0, _, r => r
  | k + 1, i, r => biggest f k (i + 1) (if (f.get i).dur > r then (f.get i).dur else r)

/-- input_buffer.cpp 299-308: at least eight times the length of the biggest fragment, rounded up to seconds, is there. -/
def longEnough (t : Track) : Bool :=
  let target := (biggest t.frags (t.frags.fin - t.frags.del) t.frags.del 0 / 1000 + 1) * 1000
  let a := (t.keys.get (t.frags.get t.frags.del).firstKey).time
  let b := (t.keys.get (t.frags.get (t.frags.fin - 1)).firstKey).time
  !decide (sub64 b a < target * 8)

/-- input_buffer.cpp 291-309: what is asked before a key is removed from an active stream. -/
def mayRemove (bufferTime : Nat) (t : Track) : Bool :=
  !decide (sub64 t.frags.fin t.frags.del < 5) && !decide (sub64 t.lastms t.firstms < bufferTime) &&
    (!decide (t.frags.fin - t.frags.del > 2) || longEnough t)

/-- input_buffer.cpp 285-311: `removeKey`; whether a key was removed. `none`: the process exits. -/
def removeKey (active : Bool) (bufferTime : Nat) (t : Track) : Option (Bool × Track) :=
  if sub64 t.keys.fin t.keys.del = 0 then some (false, t)
  else if active && !mayRemove bufferTime t then some (false, t)
  else (removeFirstKey t).map fun t => (true, t)

/-- input_buffer.cpp 445-447: the loop that cuts the buffer at `cut`. Every round removes a key, so as many rounds as there are
keys are enough. -/
def cutLoop (active : Bool) (bufferTime cut : Nat) : Nat → Track → Option Track
  | 0, t => some t
  | n + 1, t =>
    if sub64 t.keys.fin t.keys.del > 1 ∧ (t.keys.get t.keys.del).time < cut then
      (removeKey active bufferTime t).bind fun r => if r.1 then cutLoop active bufferTime cut n r.2 else some r.2
    else some t

/-- input_buffer.cpp 450-452: the loop that keeps the buffer at its size. -/
def sizeLoop (active : Bool) (bufferTime : Nat) : Nat → Track → Option Track
  | 0, t => some t
  | n + 1, t =>
    if sub64 t.keys.fin t.keys.del > 1 ∧ sub64 t.lastms (t.keys.get (t.keys.del + 1)).time > bufferTime then
      (removeKey active bufferTime t).bind fun r => if r.1 then sizeLoop active bufferTime n r.2 else some r.2
    else some t

/-- input_buffer.cpp 433-452: one track. `videoFirst` is the earliest time of the video tracks, if there are any. -/
def evict (active : Bool) (bufferTime cut : Nat) (videoFirst : Option Nat) (t : Track) : Option Track :=
  let wait : Bool := match videoFirst with
    | none => false
    | some v => !t.video && (decide (t.keys.fin - t.keys.del < 2) || decide ((t.keys.get (t.keys.del + 1)).time > v))
  if wait then some t
  else
    (cutLoop active bufferTime cut (t.keys.fin - t.keys.del) t).bind fun t =>
      sizeLoop active bufferTime (t.keys.fin - t.keys.del) t

/-! ## Proofs -/

theorem biggest_ge (f : Tab Frag) (k i r : Nat) : r ≤ biggest f k i r ∧ ∀ j, i ≤ j → j < i + k → (f.get j).dur ≤ biggest f k i r := by
  induction k generalizing i r with
  | zero => exact ⟨Nat.le_refl _, fun j h1 h2 => by omega⟩
  | succ k ih =>
    unfold biggest
    obtain ⟨h1, h2⟩ := ih (i + 1) (if (f.get i).dur > r then (f.get i).dur else r)
    have h3 : r ≤ (if (f.get i).dur > r then (f.get i).dur else r) := by split <;> omega
    have h4 : (f.get i).dur ≤ (if (f.get i).dur > r then (f.get i).dur else r) := by split <;> omega
    refine ⟨Nat.le_trans h3 h1, ?_⟩
    · intro j hj hk
      by_cases he : j = i
      · subst he
        exact Nat.le_trans h4 h1
      · exact h2 j (by omega) (by omega)

/-- Fragments that last less than 2^32 milliseconds each, and the time they take together. -/
theorem frags_span {t : Tab Frag} {fs : List (List Group)} {e : Nat} (h : FragsShow t fs e) (hshort : ∀ i f, fs[i]? = some f → fragDur fs i f < 2 ^ 32)
    (B : Nat) (hB : ∀ j, e ≤ j → j < fs.length → (t.get j).dur ≤ B) (k : Nat) (a b : List Group) (ha : fs[e]? = some a) (hb : fs[e + k]? = some b) :
    fragFirst b ≤ fragFirst a + k * B := by
  induction k generalizing b with
  | zero =>
    rw [Nat.add_zero, ha] at hb; cases hb; omega
  | succ k ih =>
    have hlt : e + k + 1 < fs.length := by
      have := List.getElem?_eq_some_iff.mp hb; exact this.1
    have hc : fs[e + k]? = some fs[e + k] := List.getElem?_eq_getElem (by omega)
    have h1 := ih _ hc
    have h2 := (h.get (e + k) _ (by omega) hc).dur
    have h3 := hB (e + k) (by omega) (by omega)
    have hd : fragDur fs (e + k) fs[e + k] = fragFirst b - fragFirst fs[e + k] := by
      unfold fragDur
      rw [show e + k + 1 = e + (k + 1) from rfl, hb]
    have h4 := hshort _ _ hc
    rw [Nat.mod_eq_of_lt h4, hd] at h2
    have : (k + 1) * B = k * B + B := by rw [Nat.add_mul]; omega
    omega

theorem inv_frag_time {t : Track} {fs : List (List Group)} {d e : Nat} (h : Inv t fs d e) (hs : fs.flatten.flatten.length + 2 < 2 ^ 32)
    {i : Nat} {f : List Group} (hi : e ≤ i) (hf : fs[i]? = some f) : (t.keys.get (t.frags.get i).firstKey).time = fragFirst f := by
  have hlen := sum_pos_len h.grouped.frags
  have hlen2 := flatten_le h.grouped.keys
  have hil : i < fs.length := (List.getElem?_eq_some_iff.mp hf).1
  have hl := flat_len h.grouped.frags hil
  rw [(h.frags.get i f hi hf).firstKey, Nat.mod_eq_of_lt (by omega)]
  have hfne : f ≠ [] := h.grouped.frags f (List.mem_of_getElem? hf)
  obtain ⟨g, r, rfl⟩ : ∃ g r, f = g :: r := ⟨_, _, (List.cons_head_tail hfne).symm⟩
  have hle : d ≤ (fs.take i).flatten.length := by
    have hc := h.cover
    have : (fs.take i).flatten.length = ((fs.take i).take e).flatten.length + ((fs.take i).drop e).flatten.length := by
      rw [← List.length_append, ← List.flatten_append, List.take_append_drop]
    rw [List.take_take, Nat.min_eq_left hi] at this
    omega
  have hg : fs.flatten[(fs.take i).flatten.length]? = some g := by
    have hsp : fs = fs.take i ++ (g :: r) :: fs.drop (i + 1) := by
      have := List.getElem?_eq_some_iff.mp hf
      obtain ⟨h1, h2⟩ := this
      rw [← h2, List.getElem_cons_drop, List.take_append_drop]
    conv => lhs; arg 1; rw [hsp]
    rw [List.flatten_append, List.getElem?_append_right (Nat.le_refl _)]
    simp
  exact (h.keys.get _ _ hle hg).time

/-- If a removal is allowed, there are at least ten fragments. -/
theorem may_remove {t : Track} {fs : List (List Group)} {d e : Nat} (h : Inv t fs d e) (hs : fs.flatten.flatten.length + 2 < 2 ^ 32)
    (ht : ∀ p ∈ fs.flatten.flatten, p.time < 2 ^ 64)
    (hshort : ∀ i f, fs[i]? = some f → fragDur fs i f < 2 ^ 32) {b : Nat} (hm : mayRemove b t = true) : e + 10 ≤ fs.length := by
  have hlen := sum_pos_len h.grouped.frags
  have hlen2 := flatten_le h.grouped.keys
  unfold mayRemove at hm
  simp only [Bool.and_eq_true, Bool.or_eq_true, Bool.not_eq_true', decide_eq_false_iff_not] at hm
  obtain ⟨⟨h5, _⟩, h3⟩ := hm
  have hle : t.frags.del ≤ t.frags.fin := h.frags.ok.le
  rw [sub64_eq hle (by rw [h.frags.fin]; omega)] at h5
  rw [h.frags.fin, h.frags.del] at h5 h3
  rcases h3 with h3 | h3
  · omega
  unfold longEnough at h3
  simp only [Bool.not_eq_true', decide_eq_false_iff_not, Nat.not_lt] at h3
  rw [h.frags.fin, h.frags.del] at h3
  have hfa : fs[e]? = some fs[e] := List.getElem?_eq_getElem (by omega)
  have hfb : fs[fs.length - 1]? = some fs[fs.length - 1] := List.getElem?_eq_getElem (by omega)
  rw [inv_frag_time h hs (Nat.le_refl _) hfa, inv_frag_time h hs (by omega) hfb] at h3
  generalize hB : biggest t.frags (fs.length - e) e 0 = B at h3
  have hspan := frags_span h.frags hshort B (fun j h1 h2 => by rw [← hB]; exact (biggest_ge _ _ _ _).2 j h1 (by omega)) (fs.length - 1 - e) _ _ hfa
    (by rw [show e + (fs.length - 1 - e) = fs.length - 1 by omega]; exact hfb)
  have hmem : ∀ (i : Nat) (f : List Group), fs[i]? = some f → fragFirst f < 2 ^ 64 := by
    intro i f hf
    have hfm : f ∈ fs := List.mem_of_getElem? hf
    obtain ⟨g, gs, rfl⟩ : ∃ g r, f = g :: r := ⟨_, _, (List.cons_head_tail (h.grouped.frags f hfm)).symm⟩
    have hgm : g ∈ fs.flatten := List.mem_flatten.mpr ⟨_, hfm, by simp⟩
    obtain ⟨q, qs, rfl⟩ : ∃ p r, g = p :: r := ⟨_, _, (List.cons_head_tail (h.grouped.keys g hgm)).symm⟩
    exact ht q (List.mem_flatten.mpr ⟨_, hgm, by simp⟩)
  have hmono : fragFirst fs[e] ≤ fragFirst fs[fs.length - 1] := by
    have : ∀ k (hk : e + k < fs.length), fragFirst fs[e] ≤ fragFirst fs[e + k] := by
      intro k
      induction k with
      | zero => intro _; exact Nat.le_refl _
      | succ k ih =>
        intro hk
        have := h.grouped.fragStarts (e + k) _ _ (List.getElem?_eq_getElem (by omega)) (List.getElem?_eq_getElem hk)
        have := ih (by omega)
        omega
    have := this (fs.length - 1 - e) (by omega)
    simpa only [show e + (fs.length - 1 - e) = fs.length - 1 by omega] using this
  rw [sub64_eq hmono (hmem _ _ hfb)] at h3
  by_cases hc : e + 10 ≤ fs.length
  · exact hc
  · exfalso
    have h8 : (fs.length - 1 - e) * B ≤ 8 * B := Nat.mul_le_mul_right _ (by omega)
    omega


theorem key_le_last {t : Track} {fs : List (List Group)} {d e : Nat} (h : Inv t fs d e) {k : Nat} {g : Group} (hg : fs.flatten[k]? = some g) :
    first g ≤ t.lastms := by
  rw [h.lastms]
  exact first_le_last h (List.mem_of_getElem? hg)

/-- A call of `removeKey` for an active stream. -/
theorem remove_key {t : Track} {fs : List (List Group)} {d e : Nat} (h : Inv t fs d e) (hs : fs.flatten.flatten.length + 2 < 2 ^ 32)
    (ht : ∀ p ∈ fs.flatten.flatten, p.time < 2 ^ 64) (hshort : ∀ i f, fs[i]? = some f → fragDur fs i f < 2 ^ 32) (b : Nat) :
    removeKey true b t = some (false, t) ∨
    ∃ t' e', removeKey true b t = some (true, t') ∧ step t .remove = some t' ∧ Inv t' fs (d + 1) e' ∧ e' + 9 ≤ fs.length ∧ t'.video = t.video ∧ t'.minFrag = t.minFrag := by
  unfold removeKey
  split
  · exact .inl rfl
  · by_cases hm : mayRemove b t = true
    · have h10 := may_remove h hs ht hshort hm
      rw [hm]
      obtain ⟨t', e', er, hi, hee, hv, hmn⟩ := step_remove h (by omega) hs
      refine .inr ⟨t', e', by rw [er]; rfl, ?_, hi, by omega, hv, hmn⟩
      simp only [step]
      rw [if_pos (by rw [h.frags.fin, h.frags.del]; omega), er]
    · simp only [Bool.not_eq_true] at hm
      rw [hm]; exact .inl rfl

theorem run_append (t : Track) (a b : List Op) : run t (a ++ b) = (run t a).bind fun t => run t b := by
  induction a generalizing t with
  | nil => rfl
  | cons o r ih =>
    simp only [List.cons_append, run]
    cases step t o with
    | none => rfl
    | some u => exact ih u

/-- What a run of evictions leaves. -/
def Left (t t' : Track) (fs : List (List Group)) (d : Nat) (ok : Track → Prop) : Prop :=
  (∃ k, run t (List.replicate k .remove) = some t') ∧ ∃ d' e', d ≤ d' ∧ Inv t' fs d' e' ∧ t'.video = t.video ∧ t'.minFrag = t.minFrag ∧ (t' = t ∨ (d < d' ∧ e' + 9 ≤ fs.length ∧ ok t'))

theorem size_loop {fs : List (List Group)} (hs : fs.flatten.flatten.length + 2 < 2 ^ 32) (ht : ∀ p ∈ fs.flatten.flatten, p.time < 2 ^ 64)
    (hshort : ∀ i f, fs[i]? = some f → fragDur fs i f < 2 ^ 32) (b n : Nat) {t : Track} {d e : Nat} (h : Inv t fs d e) :
    ∃ t', sizeLoop true b n t = some t' ∧ Left t t' fs d fun t' => b < t'.lastms - t'.firstms := by
  induction n generalizing t d e with
  | zero => exact ⟨t, rfl, ⟨0, rfl⟩, d, e, Nat.le_refl _, h, rfl, rfl, .inl rfl⟩
  | succ n ih =>
    unfold sizeLoop
    split
    · rename_i hc
      rcases remove_key h hs ht hshort b with hr | ⟨t1, e1, hr, hst, hi, he, hv, hm⟩
      · rw [hr]; exact ⟨t, rfl, ⟨0, rfl⟩, d, e, Nat.le_refl _, h, rfl, rfl, .inl rfl⟩
      · rw [hr]
        simp only [Option.bind_some, if_true]
        obtain ⟨t2, hr2, ⟨k2, hk2⟩, d2, e2, hd2, hi2, hv2, hm2, hor⟩ := ih hi
        refine ⟨t2, hr2, ⟨k2 + 1, by simp only [List.replicate_succ, run]; rw [hst]; exact hk2⟩, d2, e2, by omega, hi2, by rw [hv2, hv], by rw [hm2, hm], .inr ⟨by omega, ?_⟩⟩
        rcases hor with rfl | ⟨_, h9, hb⟩
        · have hne : fs ≠ [] := by intro hh; rw [hh] at he; simp at he
          have hdl := hi.dlt hne
          have hgd : fs.flatten[d + 1]? = some fs.flatten[d + 1] := List.getElem?_eq_getElem hdl
          have hle := key_le_last h hgd
          have hlt : t.lastms < 2 ^ 64 := by
            rw [h.lastms]
            have hpl := flat_len_keys h.grouped.keys (h.dlt hne)
            have hpne : fs.flatten.flatten ≠ [] := List.length_pos_iff.mp (by omega)
            unfold last
            rw [List.getLast?_eq_some_getLast hpne]
            exact ht _ (List.getLast_mem hpne)
          have h2 := hc.2
          rw [h.keys.del, (h.keys.get (d + 1) _ (by omega) hgd).time, sub64_eq hle hlt] at h2
          have hee : e2 = t2.frags.del := hi2.frags.del.symm
          have hee1 : e1 = t2.frags.del := hi.frags.del.symm
          refine ⟨by omega, ?_⟩
          show b < t2.lastms - t2.firstms
          rw [hi.firstms _ hgd, hi.lastms, ← h.lastms]
          exact h2
        · exact ⟨h9, hb⟩
    · exact ⟨t, rfl, ⟨0, rfl⟩, d, e, Nat.le_refl _, h, rfl, rfl, .inl rfl⟩

theorem cut_loop {fs : List (List Group)} (hs : fs.flatten.flatten.length + 2 < 2 ^ 32) (ht : ∀ p ∈ fs.flatten.flatten, p.time < 2 ^ 64)
    (hshort : ∀ i f, fs[i]? = some f → fragDur fs i f < 2 ^ 32) (b c n : Nat) {t : Track} {d e : Nat} (h : Inv t fs d e) :
    ∃ t', cutLoop true b c n t = some t' ∧ Left t t' fs d fun _ => 0 < c := by
  induction n generalizing t d e with
  | zero => exact ⟨t, rfl, ⟨0, rfl⟩, d, e, Nat.le_refl _, h, rfl, rfl, .inl rfl⟩
  | succ n ih =>
    unfold cutLoop
    split
    · rename_i hc
      rcases remove_key h hs ht hshort b with hr | ⟨t1, e1, hr, hst, hi, he, hv, hm⟩
      · rw [hr]; exact ⟨t, rfl, ⟨0, rfl⟩, d, e, Nat.le_refl _, h, rfl, rfl, .inl rfl⟩
      · rw [hr]
        simp only [Option.bind_some, if_true]
        obtain ⟨t2, hr2, ⟨k2, hk2⟩, d2, e2, hd2, hi2, hv2, hm2, hor⟩ := ih hi
        refine ⟨t2, hr2, ⟨k2 + 1, by simp only [List.replicate_succ, run]; rw [hst]; exact hk2⟩, d2, e2, by omega, hi2, by rw [hv2, hv], by rw [hm2, hm], .inr ⟨by omega, ?_⟩⟩
        rcases hor with rfl | ⟨_, h9, hb⟩
        · have hee : e2 = t2.frags.del := hi2.frags.del.symm
          have hee1 : e1 = t2.frags.del := hi.frags.del.symm
          exact ⟨by omega, by omega⟩
        · exact ⟨h9, hb⟩
    · exact ⟨t, rfl, ⟨0, rfl⟩, d, e, Nat.le_refl _, h, rfl, rfl, .inl rfl⟩

theorem evict_inv {fs : List (List Group)} (hs : fs.flatten.flatten.length + 2 < 2 ^ 32) (ht : ∀ p ∈ fs.flatten.flatten, p.time < 2 ^ 64)
    (hshort : ∀ i f, fs[i]? = some f → fragDur fs i f < 2 ^ 32) (b c : Nat) (v : Option Nat) {t : Track} {d e : Nat} (h : Inv t fs d e) :
    ∃ t', evict true b c v t = some t' ∧ Left t t' fs d fun t' => 0 < c ∨ b < t'.lastms - t'.firstms := by
  unfold evict
  dsimp only
  generalize (match v with
    | none => false
    | some v => !t.video && (decide (t.keys.fin - t.keys.del < 2) || decide ((t.keys.get (t.keys.del + 1)).time > v))) = w
  cases w with
  | true => exact ⟨t, rfl, ⟨0, rfl⟩, d, e, Nat.le_refl _, h, rfl, rfl, .inl rfl⟩
  | false =>
    obtain ⟨t1, h1, ⟨k1, hk1⟩, d1, e1, hd1, hi1, hv1, hm1, hor1⟩ := cut_loop hs ht hshort b c (t.keys.fin - t.keys.del) h
    obtain ⟨t2, h2, ⟨k2, hk2⟩, d2, e2, hd2, hi2, hv2, hm2, hor2⟩ := size_loop hs ht hshort b (t1.keys.fin - t1.keys.del) hi1
    simp only [Bool.false_eq_true, if_false]
    rw [h1]
    refine ⟨t2, h2, ⟨k1 + k2, by rw [← List.replicate_append_replicate, run_append, hk1]; exact hk2⟩, d2, e2, by omega, hi2, by rw [hv2, hv1], by rw [hm2, hm1], ?_⟩
    rcases hor2 with rfl | ⟨h3, h4, h5⟩
    · rcases hor1 with rfl | ⟨h6, h7, h8⟩
      · exact .inl rfl
      · have hee : e2 = t2.frags.del := hi2.frags.del.symm
        have hee1 : e1 = t2.frags.del := hi1.frags.del.symm
        exact .inr ⟨by omega, by omega, .inl h8⟩
    · exact .inr ⟨by omega, h4, .inr h5⟩

/-! ## C32 -/

/-- Two kept packets are always less than 2^32 milliseconds (49 days and 17 hours) apart. -/
def Short (ps : List Packet) : Prop := ∀ p ∈ ps, ∀ q ∈ ps, p.time - q.time < 2 ^ 32

theorem Short.frag {video : Bool} {m : Nat} {fs : List (List Group)} (hg : Grouped video m fs) (h : Short fs.flatten.flatten) (i : Nat) (f : List Group)
    (hf : fs[i]? = some f) : fragDur fs i f < 2 ^ 32 := by
  unfold fragDur
  split
  · rename_i u hu
    have key : ∀ (j : Nat) (f : List Group), fs[j]? = some f → ∃ q ∈ fs.flatten.flatten, fragFirst f = q.time := by
      intro j f hf
      have hfm : f ∈ fs := List.mem_of_getElem? hf
      obtain ⟨g, gs, rfl⟩ : ∃ g r, f = g :: r := ⟨_, _, (List.cons_head_tail (hg.frags f hfm)).symm⟩
      have hgm : g ∈ fs.flatten := List.mem_flatten.mpr ⟨_, hfm, by simp⟩
      obtain ⟨q, qs, rfl⟩ : ∃ p r, g = p :: r := ⟨_, _, (List.cons_head_tail (hg.keys g hgm)).symm⟩
      exact ⟨q, List.mem_flatten.mpr ⟨_, hgm, by simp⟩, rfl⟩
    obtain ⟨p, hp, e1⟩ := key _ _ hu
    obtain ⟨q, hq, e2⟩ := key _ _ hf
    rw [e1, e2]; exact h p hp q hq
  · omega

theorem accepted_sub (l : Nat) (ps : List Packet) : ∀ p ∈ accepted l ps, p ∈ ps := by
  induction ps generalizing l with
  | nil => simp [accepted]
  | cons q r ih =>
    unfold accepted
    split
    · exact fun p hp => List.mem_cons_of_mem _ (ih l p hp)
    · intro p hp
      rcases List.mem_cons.mp hp with rfl | hp
      · simp
      · exact List.mem_cons_of_mem _ (ih _ p hp)

/-- **C32** (for streams of less than 49 days, within the limits of C30). In any state that a history leads to, one run over a track of an active stream does not
crash and leaves an index of the same stream. If it removed anything, then the track still has a key, more than the configured
buffer time (unless the run also was to cut the buffer at a given time `cut`), and at least nine fragments that have all their keys:
eight whole ones and the one that is being received. The run is a number of removals, so that the new state is one that a longer
history leads to, and the theorem applies again after it. Missing: longer streams, for which `C32_long_fragment_fails`. -/
theorem C32_eviction_keeps_enough_partial (video : Bool) (setting : Nat) {np nk nf : Nat} (hp : 0 < np) (hk : 0 < nk) (hf : 0 < nf)
    (ops : List Op) (h : Moderate (packets ops)) (hshort : Short (accepted 0 (packets ops))) (t : Track)
    (hr : run (newTrack video setting np nk nf) ops = some t) (bufferTime cut : Nat) (videoFirst : Option Nat) :
    ∃ t' fs d e k, evict true bufferTime cut videoFirst t = some t' ∧
      run (newTrack video setting np nk nf) (ops ++ List.replicate k .remove) = some t' ∧ fs.flatten.flatten = accepted 0 (packets ops) ∧
      Grouped video (minFragOf setting) fs ∧ Shows t' fs d e ∧ Whole fs d e ∧
      (t' = t ∨ (d < fs.flatten.length ∧ e + 9 ≤ fs.length ∧ (0 < cut ∨ bufferTime < t'.lastms - t'.firstms))) := by
  rcases run_new video setting hp hk hf ops h with ⟨u, fs, d, e, er, hi, hfl, hd, hv, hm⟩ | ⟨er, _⟩
  · rw [er] at hr; cases hr
    have hcount := h.count
    have := accepted_length 0 (packets ops)
    obtain ⟨t', h1, ⟨k, hk⟩, d', e', _, hi', hv', hm', hor⟩ := evict_inv (fs := fs) (by rw [hfl]; omega)
      (by rw [hfl]; exact fun p hp => (h.fits p (accepted_sub _ _ p hp)).1) (Short.frag hi.grouped (by rw [hfl]; exact hshort))
      bufferTime cut videoFirst hi
    refine ⟨t', fs, d', e', k, h1, by rw [run_append, er]; exact hk, hfl, by rw [← hv, ← hm, ← hv', ← hm']; exact hi'.grouped, hi'.shows, ⟨hi'.cover, hi'.tight⟩, ?_⟩
    rcases hor with hor | ⟨_, h9, h10⟩
    · exact .inl hor
    · exact .inr ⟨hi'.dlt (by intro hh; rw [hh] at h9; simp at h9), h9, h10⟩
  · rw [er] at hr; cases hr

/-- A key every two seconds: thirteen fragments. -/
def steady : List Op := (List.range 13).map fun i => .packet (pk (2000 * i) true)

/-- The hypotheses hold of a stream with thirteen fragments, and one of two seconds' keys is removed from it. -/
example : Moderate (packets steady) ∧ Short (accepted 0 (packets steady)) ∧ ((run (newTrack true 0 4 4 4) steady).bind fun t =>
    (evict true 5000 0 none t).map fun t => (t.keys.del, t.keys.fin, t.frags.del, t.frags.fin, t.firstms)) = some (1, 13, 1, 13, 2000) := by
  refine ⟨⟨by decide, ?_, by decide⟩, ?_, by decide +kernel⟩
  · simp [steady, List.range, List.range.loop, packets, accepted, pk, Close]
  · simp [Short, steady, List.range, List.range.loop, packets, accepted, pk]

/-- **C32** fails if a fragment lasts 49 days: four fragments are left, of which three are whole. -/
theorem C32_long_fragment_fails : ((run (newTrack true 0 8 8 8) [.packet (pk 0 true), .packet (pk (2 ^ 32 + 1) true), .packet (pk (2 ^ 32 + 2001) true),
      .packet (pk (2 ^ 32 + 4001) true), .packet (pk (2 ^ 32 + 6001) true)]).bind fun t =>
    (evict true 5000 0 none t).map fun t => (t.frags.del, t.frags.fin)) = some (1, 5) := by
  decide +kernel

end Verif.Index
