import Verif.Ingest.Model
import Verif.Ingest.Spec

/-!
# The times of media that is received over RTMP (C88)
-/
namespace Verif.Ingest
open Spec

theorem last_snoc (k j t : Nat) (h : List (Nat × Nat)) : last k (h ++ [(j, t)]) = if j = k then some t else last k h := by
  unfold last
  by_cases e : j = k <;> simp [List.filter_append, e]

theorem last_mem {k u : Nat} {h : List (Nat × Nat)} (e : last k h = some u) : (k, u) ∈ h := by
  unfold last at e
  simp only [Option.map_eq_some_iff] at e
  obtain ⟨p, hp, rfl⟩ := e
  have := List.mem_of_getLast? hp
  simp only [List.mem_filter, decide_eq_true_eq] at this
  obtain ⟨h1, h2⟩ := this
  rw [← h2]; exact h1

theorem roll_none {d : Nat} (h : ¬ Near d) : roll d = none := by
  unfold Near at h
  unfold roll
  rw [if_neg (by omega), if_neg (by omega)]

theorem roll_some {d e : Nat} (h : roll d = some e) : e ≤ d + 4095 ∧ d ≤ e + 4095 ∧ e ≤ 2 ^ 32 ∧ 2 ^ 24 ≤ e := by
  unfold roll at h
  split at h
  · cases h; omega
  · split at h
    · cases h; omega
    · cases h

/-- What the compensation does: never further back than four seconds, never further on than ten minutes. -/
theorem adjust_bounds {off l x : Nat} (hl : l < 2 ^ 63) (hx : x < W) (h0 : 4095 ≤ l) :
    l ≤ (adjust off l x).2 + 4095 ∧ (adjust off l x).2 ≤ l + 600000 := by
  unfold adjust
  have hW : W = 2 ^ 64 := rfl
  by_cases h1 : x < l
  · rw [if_pos h1]
    cases hr : roll (l - x) with
    | none =>
      simp only [Option.getD_none]
      rw [Nat.mod_eq_of_lt (by omega)]; omega
    | some e =>
      have := roll_some hr
      simp only [Option.getD_some]
      rw [Nat.mod_eq_of_lt (by omega)]; omega
  · rw [if_neg h1]
    by_cases h2 : x > (l + 600000) % W
    · rw [if_pos h2]
      rw [Nat.mod_eq_of_lt (by omega)] at h2
      cases hr : roll (x - l) with
      | none =>
        simp only [Option.getD_none]
        rw [if_pos (by omega)]
        simp only
        rw [show x + W - (x - l - 1) = l + 1 + W by omega, Nat.add_mod_right, Nat.mod_eq_of_lt (by omega)]; omega
      | some e =>
        have := roll_some hr
        simp only [Option.getD_some]
        rw [if_pos (by omega)]
        simp only
        rw [show x + W - e = (x - e) + W by omega, Nat.add_mod_right, Nat.mod_eq_of_lt (by omega)]; omega
    · rw [if_neg h2]
      rw [Nat.mod_eq_of_lt (by omega)] at h2
      simp only; omega

theorem adjust_up {off l x : Nat} (hl : l < 2 ^ 63) (hx : x < W) (n1 : l ≤ x → ¬ Near (x - l)) (n2 : x < l → ¬ Near (l - x)) :
    l ≤ (adjust off l x).2 := by
  unfold adjust
  have hW : W = 2 ^ 64 := rfl
  by_cases h1 : x < l
  · rw [if_pos h1, roll_none (n2 h1)]
    simp only [Option.getD_none]
    rw [Nat.mod_eq_of_lt (by omega)]; omega
  · rw [if_neg h1]
    by_cases h2 : x > (l + 600000) % W
    · rw [if_pos h2]
      rw [Nat.mod_eq_of_lt (by omega)] at h2
      rw [roll_none (n1 (by omega))]
      simp only [Option.getD_none]
      by_cases h3 : l ≠ 0
      · rw [if_pos h3]
        simp only
        rw [show x + W - (x - l - 1) = l + 1 + W by omega, Nat.add_mod_right, Nat.mod_eq_of_lt (by omega)]; omega
      · rw [if_neg h3]; simp only; omega
    · rw [if_neg h2]; simp only; omega

theorem run_snoc (h : List (Nat × Nat)) : ∀ (s : St) (k t : Nat), run s (h ++ [(k, t)]) =
    ((step (run s h).1 k t).1, (run s h).2 ++ [(k, (step (run s h).1 k t).2)]) := by
  induction h with
  | nil => intro s k t; rfl
  | cons p l ih => intro s k t; obtain ⟨j, u⟩ := p; simp only [List.cons_append, run, ih]

theorem snoc_ind {α : Type} {P : List α → Prop} (h0 : P []) (h1 : ∀ l a, P l → P (l ++ [a])) (l : List α) : P l := by
  have : ∀ r : List α, P r.reverse := by
    intro r
    induction r with
    | nil => exact h0
    | cons a r ih => rw [List.reverse_cons]; exact h1 _ _ ih
  rw [← List.reverse_reverse l]; exact this _

/-- The last times of the state: at least those that went into the buffer, and none that did not. -/
theorem run_ltt {base : Nat} (h : List (Nat × Nat)) : ∀ k, (last k (run (start base) h).2 = none → (run (start base) h).1.ltt k = none) ∧
    ∀ u, last k (run (start base) h).2 = some u → (∀ p ∈ (run (start base) h).2, p.2 < 2 ^ 63) → ∃ l, (run (start base) h).1.ltt k = some l ∧ u ≤ l ∧
      ∃ p ∈ (run (start base) h).2, l ≤ p.2 := by
  induction h using snoc_ind with
  | h0 => intro k; exact ⟨fun _ => rfl, fun u hu => by cases hu⟩
  | h1 h p ih =>
    obtain ⟨j, t⟩ := p
    intro k
    rw [run_snoc]
    simp only [last_snoc]
    by_cases e : j = k
    · subst e
      simp only [if_true]
      refine ⟨(fun h => by cases h), ?_⟩
      intro u hu hlt
      cases hu
      exact ⟨(step (run (start base) h).1 j t).2, by simp [step], Nat.le_refl _, _, List.mem_append_right _ List.mem_cons_self, Nat.le_refl _⟩
    · rw [if_neg e]
      obtain ⟨ih1, ih2⟩ := ih k
      constructor
      · intro hn
        simp only [step]
        rw [if_neg (fun h => e h.symm), ih1 hn]; rfl
      · intro u hu hlt
        obtain ⟨l, hl, hul, p, hp, hlp⟩ := ih2 u hu (fun p hp => hlt p (List.mem_append_left _ hp))
        have hp63 := hlt p (List.mem_append_left _ hp)
        simp only [step]
        rw [if_neg (fun h => e h.symm), hl]
        simp only [Option.map_some]
        generalize hr : (adjust ((run (start base) h).1.off j) ((((run (start base) h).1.ltt j)).getD 0)
          ((t + (run (start base) h).1.base + (run (start base) h).1.off j) % W)).2 = r
        have hW : W = 2 ^ 64 := rfl
        split
        · rename_i hc
          rw [Nat.mod_eq_of_lt (by omega)] at hc
          refine ⟨_, rfl, by omega, (j, r), ?_, by show r - 100 ≤ r; omega⟩
          exact List.mem_append_right _ List.mem_cons_self
        · exact ⟨_, rfl, hul, p, List.mem_append_left _ hp, hlp⟩

/-- C88 (any times): a frame never goes into the buffer more than four seconds before the one before it on its track, nor more than ten minutes after all that
went there before. The full property, that it does not go back at all, fails: `C88_fails`. -/
theorem C88_partial {base : Nat} {h outs : List (Nat × Nat)} {k t u v : Nat} (hr : (run (start base) (h ++ [(k, t)])).2 = outs ++ [(k, v)])
    (h63 : ∀ p ∈ outs, p.2 < 2 ^ 63) (hu : last k outs = some u) (h0 : 4095 ≤ u) : u ≤ v + 4095 ∧ ∃ p ∈ outs, v ≤ p.2 + 600000 := by
  rw [run_snoc] at hr
  simp only at hr
  obtain ⟨h1, h2⟩ := List.append_inj' hr rfl
  subst h1
  obtain ⟨l, hl, hul, p, hp, hlp⟩ := (run_ltt h k).2 u hu h63
  have hv : (step (run (start base) h).1 k t).2 = v := by simpa using h2
  simp only [step, hl, Option.getD_some] at hv
  have := h63 p hp
  have hb := adjust_bounds (off := (run (start base) h).1.off k) (x := (t + (run (start base) h).1.base + (run (start base) h).1.off k) % W)
    (by omega : l < 2 ^ 63) (Nat.mod_lt _ (by decide)) (by omega)
  rw [hv] at hb
  exact ⟨by omega, p, hp, by omega⟩

/-- C88 fails: after a clock that went back by a little more than 2^24 ms the time goes back. -/
theorem C88_fails : (run (start 0) [(1, 16800000), (1, 20000)]).2 = [(1, 16800000), (1, 16797216)] := by decide +kernel

/-- C88 fails: a clock that goes on by 16773120 ms near the start ends in the year 584 million: the rollover is taken off a time that is smaller. -/
theorem C88_wrap_fails : (run (start 0) [(1, 5), (1, 16773130)]).2 = [(1, 5), (1, 2 ^ 64 - 4086)] := by decide +kernel

/-- C88 fails: a publisher of a stream that has a time already (half a second), the first message of which has the time 1000, and the second, of
another track, the time 0. -/
theorem C88_first_fails : (run (start (firstBase 0 10500 1000 10000)) [(1, 1000), (2, 0)]).2 = [(1, 500), (2, 2 ^ 64 - 500)] := by decide +kernel

/-- C88 fails: a track 200 ms behind another in the order of messages is moved by 78 ms, and stays there: picture and sound are not together any more. -/
theorem C88_sync_fails : (run (start 0) [(1, 1000), (2, 1000), (1, 1200), (2, 1023), (2, 1046)]).2 =
    [(1, 1000), (2, 1000), (1, 1200), (2, 1101), (2, 1124)] := by decide +kernel

theorem steady_ind {M base : Nat} (hM : M = 2 ^ 24 ∨ M = 2 ^ 32) (b : List (Nat × Nat)) : ∀ (a : List (Nat × Nat)) (s : St), Steady M (a ++ b) →
    (∀ p ∈ a ++ b, p.2 + base < 2 ^ 63) → s.base = base →
    (∀ k, (last k a = none → s.off k = 0 ∧ s.ltt k = none) ∧ ∀ u, last k a = some u → s.off k = M * (u / M) ∧ ∃ l, s.ltt k = some l ∧ u + base ≤ l ∧
      (l = u + base ∨ ∃ p ∈ a, l + 100 ≤ p.2 + base)) →
    (run s (b.map fun p => (p.1, p.2 % M))).2 = b.map fun p => (p.1, p.2 + base) := by
  induction b with
  | nil => intros; rfl
  | cons q b ih =>
    obtain ⟨k, t⟩ := q
    intro a s hst hlt hb hinv
    obtain ⟨c1, c2, c3⟩ := hst a k t b rfl
    have htb : t + base < 2 ^ 63 := hlt (k, t) (List.mem_append_right _ List.mem_cons_self)
    have hW : W = 2 ^ 64 := rfl
    have hMp : 0 < M := by omega
    have key : adjust (s.off k) ((s.ltt k).getD 0) ((t % M + s.base + s.off k) % W) = (M * (t / M), t + base) := by
      have hd := Nat.div_add_mod t M
      cases hl : last k a with
      | none =>
        obtain ⟨e1, e2⟩ := (hinv k).1 hl
        have htM := c2 hl
        rw [e1, e2, hb, Nat.mod_eq_of_lt htM, Nat.add_zero, Nat.mod_eq_of_lt (by omega), Nat.div_eq_of_lt htM]
        simp only [Option.getD_none, adjust, Nat.not_lt_zero, if_false]
        split <;> simp
      | some u =>
        obtain ⟨e1, l, e2, e3, e4⟩ := (hinv k).2 u hl
        obtain ⟨d1, d2, d3⟩ := c3 u hl
        have hlu : l ≤ t + base := by
          rcases e4 with h | ⟨p, hp, h⟩
          · omega
          · have := c1 p hp; omega
        have hdu := Nat.div_add_mod u M
        have hmt := Nat.mod_lt t hMp
        have hmu := Nat.mod_lt u hMp
        rw [e1, e2, hb]
        simp only [Option.getD_some]
        by_cases he : t / M = u / M
        · rw [← he, show t % M + base + M * (t / M) = t + base by omega, Nat.mod_eq_of_lt (by omega)]
          unfold adjust
          rw [if_neg (by omega), if_neg (by rw [Nat.mod_eq_of_lt (by omega)]; omega)]
        · have d3 := d3 he
          have hle : u / M ≤ t / M := Nat.div_le_div_right d1
          have hlt2 : t / M < u / M + 2 := by
            apply Nat.div_lt_of_lt_mul
            rw [Nat.mul_add]; omega
          have heq : t / M = u / M + 1 := by omega
          have hmul : M * (t / M) = M * (u / M) + M := by rw [heq, Nat.mul_add, Nat.mul_one]
          rw [show t % M + base + M * (u / M) = t + base - M by omega, Nat.mod_eq_of_lt (by omega)]
          unfold adjust
          rw [if_pos (by omega)]
          have hroll : roll (l - (t + base - M)) = some M := by
            unfold roll
            rcases hM with h | h
            · rw [if_pos (by omega), h]
            · rw [if_neg (by omega), if_pos (by omega), h]
          simp only [hroll, Option.getD_some]
          have : M * (u / M) ≤ u := by omega
          rw [Nat.mod_eq_of_lt (by omega), Nat.mod_eq_of_lt (by omega), hmul, show t + base - M + M = t + base by omega]
    simp only [List.map_cons, run]
    have hstep : step s k (t % M) = (⟨s.base, fun j => if j = k then M * (t / M) else s.off j, fun j => if j = k then some (t + base)
        else (s.ltt j).map fun m => if t + base ≠ 0 ∧ (m + 100) % W < t + base then t + base - 100 else m⟩, t + base) := by
      simp only [step, key]
    rw [hstep]
    simp only
    congr 1
    refine ih (a ++ [(k, t)]) _ (by simpa using hst) (by simpa using hlt) hb ?_
    intro j
    rw [last_snoc]
    by_cases e : k = j
    · subst e
      simp only [if_true]
      refine ⟨(fun h => by cases h), ?_⟩
      intro u hu; cases hu
      exact ⟨rfl, _, rfl, Nat.le_refl _, Or.inl rfl⟩
    · rw [if_neg e]
      simp only [if_neg (fun h => e h.symm : ¬ j = k)]
      constructor
      · intro hn
        obtain ⟨e1, e2⟩ := (hinv j).1 hn
        exact ⟨e1, by rw [e2]; rfl⟩
      · intro u hu
        obtain ⟨e1, l, e2, e3, e4⟩ := (hinv j).2 u hu
        have hub := hlt (j, u) (List.mem_append_left _ (last_mem hu))
        have hl63 : l < 2 ^ 63 := by
          rcases e4 with h | ⟨p, hp, h⟩
          · simp only at hub; omega
          · have := hlt p (List.mem_append_left _ hp); omega
        refine ⟨e1, ?_⟩
        rw [e2]
        simp only [Option.map_some]
        split
        · rename_i hc
          rw [Nat.mod_eq_of_lt (by omega)] at hc
          exact ⟨_, rfl, by omega, Or.inr ⟨(k, t), by simp, by show t + base - 100 + 100 ≤ t + base; omega⟩⟩
        · refine ⟨_, rfl, e3, ?_⟩
          rcases e4 with h | ⟨p, hp, h⟩
          · exact Or.inl h
          · exact Or.inr ⟨p, List.mem_append_left _ hp, h⟩

/-- C88 (steady publishers): over all rollovers of a clock of 24 or 32 bits, every frame goes into the buffer with its true time, moved by the same amount
for all tracks. -/
theorem C88_steady {M base : Nat} (hM : M = 2 ^ 24 ∨ M = 2 ^ 32) {h : List (Nat × Nat)} (hs : Steady M h) (hlt : ∀ p ∈ h, p.2 + base < 2 ^ 63) :
    (run (start base) (h.map fun p => (p.1, p.2 % M))).2 = h.map fun p => (p.1, p.2 + base) := by
  by_cases hh : h = []
  · subst hh; rfl
  have hb : base % W = base := by
    obtain ⟨p, l, rfl⟩ := List.exists_cons_of_ne_nil hh
    have := hlt p List.mem_cons_self
    exact Nat.mod_eq_of_lt (by unfold W; omega)
  exact steady_ind hM h [] (start base) (by simpa using hs) (by simpa using hlt) hb
    (fun k => ⟨fun _ => ⟨rfl, rfl⟩, fun u hu => by cases hu⟩)

theorem single_inv {base k : Nat} (h : List (Nat × Nat)) (hk : ∀ p ∈ h, p.1 = k) {tp u : Nat} (htp : last k h = some tp)
    (hu : last k (run (start base) h).2 = some u) :
    (run (start base) h).1.ltt k = some u ∧ u % W = (tp + (run (start base) h).1.base + (run (start base) h).1.off k) % W := by
  rcases List.eq_nil_or_concat h with rfl | ⟨h', p, rfl⟩
  · cases htp
  obtain ⟨j, t⟩ := p
  rw [List.concat_eq_append] at *
  have hj : j = k := hk (j, t) (by simp)
  subst hj
  rw [last_snoc, if_pos rfl] at htp
  cases htp
  rw [run_snoc, last_snoc, if_pos rfl] at hu
  rw [run_snoc]
  simp only [Option.some.injEq] at hu
  refine ⟨by rw [← hu]; simp [step], ?_⟩
  rw [← hu]
  simp only [step, if_true]
  generalize (run (start base) h').1 = s
  generalize (s.ltt j).getD 0 = l
  generalize hx : (tp + s.base + s.off j) % W = x
  have hW : W = 2 ^ 64 := rfl
  unfold adjust
  split
  · generalize (roll (l - x)).getD (l - x + 1) = d
    simp only
    rw [Nat.mod_mod, ← hx, Nat.mod_add_mod, Nat.add_mod_mod]
    congr 1; omega
  · split
    · generalize hd : (roll (x - l)).getD (x - l - 1) = d
      have hxW : x < W := hx ▸ Nat.mod_lt _ (by decide)
      have hdW : d ≤ W := by
        rw [← hd]
        cases hr : roll (x - l) with
        | none => simp only [Option.getD_none]; omega
        | some e => have := roll_some hr; simp only [Option.getD_some]; omega
      split
      · simp only
        rw [Nat.mod_mod, ← hx, Nat.add_mod_mod, Nat.add_sub_assoc hdW, Nat.add_sub_assoc hdW, Nat.mod_add_mod]
        congr 1; omega
      · simp only; rw [← hx, Nat.mod_mod]
    · simp only; rw [← hx, Nat.mod_mod]

/-- C88 (one track): unless the clock seems to have rolled over, the time does not go back. -/
theorem C88_single_partial {base k : Nat} {h outs : List (Nat × Nat)} {t tp u v : Nat} (hk : ∀ p ∈ h, p.1 = k)
    (hr : (run (start base) (h ++ [(k, t)])).2 = outs ++ [(k, v)]) (htp : last k h = some tp) (hu : last k outs = some u)
    (ht : t < 2 ^ 32) (htp32 : tp < 2 ^ 32) (h63 : u < 2 ^ 63) (n1 : ¬ Near (t - tp)) (n2 : ¬ Near (tp - t)) : u ≤ v := by
  rw [run_snoc] at hr
  simp only at hr
  obtain ⟨h1, h2⟩ := List.append_inj' hr rfl
  subst h1
  obtain ⟨i1, i2⟩ := single_inv h hk htp hu
  have hv : (step (run (start base) h).1 k t).2 = v := by simpa using h2
  simp only [step, i1, Option.getD_some] at hv
  have hW : W = 2 ^ 64 := rfl
  have hx : (t + (run (start base) h).1.base + (run (start base) h).1.off k) % W = (u + W + t - tp) % W := by
    generalize (run (start base) h).1.base = B at *
    generalize (run (start base) h).1.off k = O at *
    clear hv hr h2 i1
    simp only [hW] at i2 ⊢
    omega
  rw [hx] at hv
  rw [← hv]
  have hxW : (u + W + t - tp) % W < W := Nat.mod_lt _ (by decide)
  by_cases hn : tp ≤ u + t
  · have e : (u + W + t - tp) % W = u + t - tp := by
      rw [show u + W + t - tp = (u + t - tp) + W by omega, Nat.add_mod_right, Nat.mod_eq_of_lt (by omega)]
    rw [e] at hxW ⊢
    refine adjust_up h63 hxW ?_ ?_
    · intro h; rw [show u + t - tp - u = t - tp by omega]; exact n1
    · intro h; rw [show u - (u + t - tp) = tp - t by omega]; exact n2
  · have e : (u + W + t - tp) % W = u + W + t - tp := Nat.mod_eq_of_lt (by omega)
    rw [e] at hxW ⊢
    refine adjust_up h63 hxW ?_ ?_
    · intro h; unfold Near; omega
    · intro h; omega

/-- C88: messages are of one track exactly if they have the same chunk stream and track number. -/
theorem C88_tracks {c c' i i' : Nat} (h : i < 1000) (h' : i' < 1000) : reTrack c i = reTrack c' i' ↔ c = c' ∧ i = i' := by
  unfold reTrack; omega

/-! ## Not empty -/

example : (run (start 7) [(1, 16777200), (2, 16777190), (1, 24), (2, 20)]).2 = [(1, 16777207), (2, 16777197), (1, 16777247), (2, 16777243)] := by
  have := C88_steady (M := 2 ^ 24) (base := 7) (h := [(1, 16777200), (2, 16777190), (1, 16777240), (2, 16777236)]) (Or.inl rfl) ?_ (by simp)
  · simpa using this
  · intro a k t b h
    match a, h with
    | [], h => simp at h; obtain ⟨⟨rfl, rfl⟩, rfl⟩ := h; simp [last]
    | [_], h => simp at h; obtain ⟨rfl, ⟨rfl, rfl⟩, rfl⟩ := h; simp [last]
    | [_, _], h => simp at h; obtain ⟨rfl, rfl, ⟨rfl, rfl⟩, rfl⟩ := h; simp [last]
    | [_, _, _], h => simp at h; obtain ⟨rfl, rfl, rfl, ⟨rfl, rfl⟩, rfl⟩ := h; simp [last]
    | _ :: _ :: _ :: _ :: a, h => simp at h

example : (run (start 0) ([(1, 5000)] ++ [(1, 10)])).2 = [(1, 5000)] ++ [(1, 5001)] := by decide +kernel

end Verif.Ingest
