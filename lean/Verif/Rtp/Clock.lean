import Verif.Rtp.Model

/-!
# C50: 32-bit RTP timestamps become a running clock
-/
namespace Verif.Rtp

/-- The clock outputs for a sequence of timestamps. -/
def clockRun (c : Clock) : List Nat → List Nat
  | [] => []
  | ts :: r => (c.add ts).2 :: clockRun (c.add ts).1 r

/-- The true (unbounded) times `ts`, of which a stream carries the low 32 bits, move in steps the
receiver can follow: each is less than 2^30 away from the highest one so far (`top`), in either
direction. At 90 kHz that is more than three hours. -/
def Follows (top : Nat) : List Nat → Prop
  | [] => True
  | t :: r => t < top + 2 ^ 30 ∧ top < t + 2 ^ 30 ∧ Follows (max top t) r

/-- What holds between packets: `t` is the true time of the last packet, `top` the highest. -/
structure ClockInv (t0 : Nat) (c : Clock) (t top : Nat) : Prop where
  first : c.firstTime = t0 + 1
  prev : c.prevTime = t % 2 ^ 32
  le : t ≤ top
  near : top < t + 2 ^ 30
  state : (c.recentWrap = false ∧ c.wrapArounds * 2 ^ 32 ≤ t ∧ top < (c.wrapArounds + 1) * 2 ^ 32 ∧
      (0 < c.wrapArounds → c.wrapArounds * 2 ^ 32 + 2 ^ 30 < top)) ∨
    (c.recentWrap = true ∧ 0 < c.wrapArounds ∧ c.wrapArounds * 2 ^ 32 ≤ top ∧
      top ≤ c.wrapArounds * 2 ^ 32 + 2 ^ 30)

theorem max_cases (a b : Nat) : (max a b = a ∧ b ≤ a) ∨ (max a b = b ∧ a ≤ b) := by omega

theorem out_eq (x : Int) (n : Nat) (h : x = n) (hn : n < 4611686018427387904) :
    (x % 18446744073709551616).toNat = n := by
  subst h
  rw [Int.emod_eq_of_lt (by omega) (by omega)]
  rfl

theorem ts_mod (ts : Nat) (h : ts < 4294967296) : ((ts : Int) + 1) % 18446744073709551616 = ts + 1 :=
  Int.emod_eq_of_lt (by omega) (by omega)

theorem clock_step (t0 : Nat) (c : Clock) (t top t' : Nat) (h : ClockInv t0 c t top)
    (hlo : t' < top + 2 ^ 30) (hhi : top < t' + 2 ^ 30) (hge : t0 ≤ t') (hbig : t' < 2 ^ 62) :
    ClockInv t0 (c.add (t' % 2 ^ 32)).1 t' (max top t') ∧ (c.add (t' % 2 ^ 32)).2 = t' - t0 := by
  obtain ⟨hf, hp, hle, hn, hs⟩ := h
  obtain ⟨first, wraps, recent, prev⟩ := c
  simp only at hf hp hs
  subst hf
  have hd := Nat.div_add_mod t' (2 ^ 32)
  have hlt := Nat.mod_lt t' (show 0 < 2 ^ 32 by decide)
  generalize hts : t' % 2 ^ 32 = ts at hd hlt
  generalize hw : t' / 2 ^ 32 = w' at hd
  have hd2 := Nat.div_add_mod t (2 ^ 32)
  rw [← hp] at hd2
  have hplt : prev < 2 ^ 32 := by rw [hp]; exact Nat.mod_lt _ (by decide)
  generalize hw2 : t / 2 ^ 32 = w at hd2
  simp only [Nat.reducePow] at *
  have hfr : ¬ (t0 + 1 = 0) := by omega
  unfold Clock.add
  simp only [Int.reducePow, hfr, decide_false, if_false, Bool.not_false, Bool.true_and]
  rcases hs with ⟨hr, h1, h2, h3⟩ | ⟨hr, h1, h2, h3⟩
  · subst hr
    have hww : w = wraps := by omega
    subst hww
    by_cases hwr : t' < (w + 1) * 4294967296
    · have hw' : w' = w := by omega
      subst hw'
      have hnot : ¬ (prev > ts ∧ ts < 0x40000000 ∧ prev > 0x80000000) := by omega
      simp only [hnot, decide_false, Bool.not_false, Bool.and_false, Bool.false_and, Bool.false_eq_true, if_false]
      have hfirst : ¬ (w' = 0 ∧ ((t0 + 1 : Nat) : Int) > ((ts : Int) + 1) % 18446744073709551616) := by
        rw [ts_mod ts hlt]; omega
      simp only [hfirst, if_false]
      refine ⟨⟨rfl, hts.symm, by omega, by omega, Or.inl ⟨rfl, ?_, ?_, ?_⟩⟩, out_eq _ _ (by omega) (by omega)⟩ <;>
        simp only <;> omega
    · have hw' : w' = w + 1 := by omega
      subst hw'
      have hyes : (prev > ts ∧ ts < 0x40000000 ∧ prev > 0x80000000) := by omega
      simp only [hyes, and_self, decide_true, Bool.not_false, Bool.false_and, Bool.true_and, Bool.false_eq_true, if_false, if_true,
        Nat.add_one_ne_zero, false_and]
      have g1 : (w + 1) * 4294967296 ≤ max top t' := Nat.le_trans (Nat.le_of_not_lt hwr) (Nat.le_max_right ..)
      have g2 : max top t' ≤ (w + 1) * 4294967296 + 1073741824 := by
        refine Nat.max_le.mpr ⟨?_, ?_⟩ <;> omega
      exact ⟨⟨rfl, hts.symm, by omega, by omega, Or.inr ⟨rfl, Nat.succ_pos _, g1, g2⟩⟩, out_eq _ _ (by omega) (by omega)⟩
  · subst hr
    simp only [Bool.not_true, Bool.false_and, Bool.false_eq_true, if_false, if_true, Bool.true_and]
    have hw0 : ¬ wraps = 0 := by omega
    simp only [hw0, false_and, if_false]
    by_cases hb : t' < wraps * 4294967296
    · have hw' : w' + 1 = wraps := by omega
      have hm : ts > 0x80000000 := by omega
      have hc : ¬ (ts < 0x80000000 ∧ ts > 0x40000000) := by omega
      simp only [hm, hc, decide_true, decide_false, if_true, Bool.not_false]
      refine ⟨⟨rfl, hts.symm, by omega, by omega, Or.inr ⟨rfl, ?_, ?_, ?_⟩⟩, out_eq _ _ (by omega) (by omega)⟩ <;>
        simp only <;> omega
    · have hw' : w' = wraps := by omega
      subst hw'
      have hm : ¬ ts > 0x80000000 := by omega
      simp only [hm, decide_false, Bool.false_eq_true, if_false]
      by_cases hc : ts < 0x80000000 ∧ ts > 0x40000000
      · simp only [hc, and_self, decide_true, Bool.not_true]
        refine ⟨⟨rfl, hts.symm, by omega, by omega, Or.inl ⟨rfl, ?_, ?_, ?_⟩⟩, out_eq _ _ (by omega) (by omega)⟩ <;>
          simp only <;> omega
      · simp only [hc, decide_false, Bool.not_false]
        refine ⟨⟨rfl, hts.symm, by omega, by omega, Or.inr ⟨rfl, ?_, ?_, ?_⟩⟩, out_eq _ _ (by omega) (by omega)⟩ <;>
          simp only <;> omega

theorem clock_run (t0 : Nat) (r : List Nat) : ∀ (c : Clock) (t top : Nat), ClockInv t0 c t top → Follows top r →
    (∀ t ∈ r, t0 ≤ t ∧ t < 2 ^ 62) → clockRun c (r.map (· % 2 ^ 32)) = r.map (· - t0) := by
  induction r with
  | nil => intro c t top _ _ _; rfl
  | cons t' r ih =>
    intro c t top hinv hf hr
    obtain ⟨f1, f2, f3⟩ := hf
    obtain ⟨hg, hb⟩ := hr t' (List.mem_cons_self ..)
    obtain ⟨hi, ho⟩ := clock_step t0 c t top t' hinv f1 f2 hg hb
    simp only [List.map_cons, clockRun]
    rw [ho, ih _ _ _ hi f3 fun t ht => hr t (List.mem_cons_of_mem _ ht)]

theorem clock_first (t0 : Nat) (h : t0 < 2 ^ 32) :
    ClockInv t0 (Clock.init.add t0).1 t0 t0 ∧ (Clock.init.add t0).2 = 0 := by
  simp only [Nat.reducePow] at h
  have h1 : ¬ (((t0 + 1 : Nat) : Int) > ((t0 : Int) + 1) % 18446744073709551616) := by
    rw [ts_mod t0 h]; omega
  unfold Clock.add Clock.init
  simp only [decide_true, if_true, Bool.not_true, Bool.false_and, Bool.false_eq_true, if_false, Int.reducePow, h1, and_false]
  refine ⟨⟨rfl, ?_, Nat.le_refl _, ?_, Or.inl ⟨rfl, ?_, ?_, ?_⟩⟩, out_eq _ _ (by omega) (by omega)⟩
  · simp only [Nat.reducePow]; omega
  · exact Nat.lt_add_of_pos_right (by decide)
  · simp only [Nat.zero_mul]; exact Nat.zero_le _
  · simp only [Nat.zero_add, Nat.one_mul, Nat.reducePow]; exact h
  · intro h; exact absurd h (Nat.lt_irrefl _)

/-- **C50 (partial).** For every stream whose timestamps count up from `t0` in steps the receiver can
follow, however many times the 32-bit counter wraps around and however packets are reordered within
that distance, the running clock gives exactly the time since the first packet, provided no packet is
older than the first. Missing: streams with packets older than the first one after a wrap around
(`C50_fails`). -/
theorem C50_clock_partial (t0 : Nat) (h0 : t0 < 2 ^ 32) (r : List Nat) (hf : Follows t0 r)
    (hr : ∀ t ∈ r, t0 ≤ t ∧ t < 2 ^ 62) :
    clockRun Clock.init ((t0 :: r).map (· % 2 ^ 32)) = (t0 :: r).map (· - t0) := by
  obtain ⟨hi, ho⟩ := clock_first t0 h0
  simp only [List.map_cons, clockRun, Nat.mod_eq_of_lt h0, Nat.sub_self]
  rw [ho, clock_run t0 r _ _ _ hi hf hr]

/-- Non-vacuity: around a wrap, with a packet out of order. -/
example : Follows (2 ^ 32 - 10) [2 ^ 32 - 5, 2 ^ 32 + 5, 2 ^ 32 - 1, 2 ^ 32 + 7] ∧
    clockRun Clock.init [4294967286, 4294967291, 5, 4294967295, 7] = [0, 5, 15, 9, 17] := by
  refine ⟨by simp only [Follows]; decide, ?_⟩
  have := C50_clock_partial (2 ^ 32 - 10) (by decide) [2 ^ 32 - 5, 2 ^ 32 + 5, 2 ^ 32 - 1, 2 ^ 32 + 7]
    (by simp only [Follows]; decide) (by decide)
  exact this

/-- **C50 fails** when, after the first wrap around, a packet arrives that is older than the first
one: its time comes out as almost 2^64. (The readjustment of rtp.cpp 1035-1038 is made only while
there has been no wrap around.) -/
theorem C50_fails : Follows (2 ^ 32 - 10) [2 ^ 32 + 5, 2 ^ 32 - 100] ∧
    clockRun Clock.init [4294967286, 5, 4294967196] = [0, 15, 2 ^ 64 - 90] := by
  refine ⟨by simp only [Follows]; decide, by decide +kernel⟩

/-- The lowest time so far. -/
def runMin (m : Nat) : List Nat → List (Nat × Nat)
  | [] => []
  | t :: r => (t, min m t) :: runMin (min m t) r

/-- Before any wrap around, times are counted from the oldest packet seen so far. -/
theorem C50_start (t0 : Nat) (r : List Nat) (hr : ∀ t ∈ t0 :: r, t < 2 ^ 31) :
    clockRun Clock.init (t0 :: r) = (runMin t0 (t0 :: r)).map fun x => x.1 - x.2 := by
  have gen : ∀ (r : List Nat) (m prev : Nat), (∀ t ∈ r, t < 2 ^ 31) → m < 2 ^ 31 → prev < 2 ^ 31 →
      clockRun ⟨m + 1, 0, false, prev⟩ r = (runMin m r).map fun x => x.1 - x.2 := by
    intro r
    induction r with
    | nil => intros; rfl
    | cons t r ih =>
      intro m prev hr hm hp
      have ht := hr t (List.mem_cons_self ..)
      have hstep : Clock.add ⟨m + 1, 0, false, prev⟩ t = (⟨min m t + 1, 0, false, t⟩, t - min m t) := by
        simp only [Nat.reducePow] at ht hm hp
        have hnot : ¬ (prev > t ∧ t < 0x40000000 ∧ prev > 0x80000000) := by omega
        unfold Clock.add
        simp only [hnot, decide_false, Nat.add_one_ne_zero, if_false, Bool.and_false, Bool.false_and, Bool.false_eq_true,
          true_and, Int.reducePow]
        rw [ts_mod t (by omega)]
        by_cases hc : ((m + 1 : Nat) : Int) > (t : Int) + 1
        · simp only [hc, if_true]
          rw [show min m t = t by omega]
          simp only [Prod.mk.injEq, Clock.mk.injEq, and_true]
          refine ⟨by omega, ?_⟩
          rw [Nat.sub_self]
          exact out_eq _ _ (by omega) (by omega)
        · simp only [hc, if_false]
          rw [show min m t = m by omega]
          simp only [Prod.mk.injEq, true_and]
          exact out_eq _ _ (by omega) (by omega)
      simp only [clockRun, runMin, List.map_cons, hstep]
      rw [ih _ _ (fun t ht => hr t (List.mem_cons_of_mem _ ht)) (by omega) ht]
  have ht0 := hr t0 (List.mem_cons_self ..)
  have h1 : Clock.init.add t0 = (⟨t0 + 1, 0, false, t0⟩, 0) := by
    simp only [Nat.reducePow] at ht0
    have hc : ¬ (((t0 + 1 : Nat) : Int) > ((t0 : Int) + 1) % 18446744073709551616) := by
      rw [ts_mod t0 (by omega)]; omega
    unfold Clock.add Clock.init
    simp only [decide_true, if_true, Bool.not_true, Bool.false_and, Bool.false_eq_true, if_false, Int.reducePow, hc, and_false,
      Prod.mk.injEq, true_and]
    exact out_eq _ _ (by omega) (by omega)
  simp only [clockRun, runMin, List.map_cons, h1, Nat.min_self, Nat.sub_self]
  rw [gen _ _ _ (fun t ht => hr t (List.mem_cons_of_mem _ ht)) ht0 ht0]

end Verif.Rtp
