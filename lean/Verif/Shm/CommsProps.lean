import Verif.Shm.CommsInv

/-!
# C35 and C53: client slots
-/
namespace Verif.Shm
namespace Proof

/-- What a pass of the master makes of a status. -/
def passed (t : Table) (i : Nat) : UInt8 :=
  if t.status i = 0 then 0
  else if t.status i &&& 0x20 = 0 then
    (if t.pid i ≠ 0 ∧ t.alive (t.pid i) = false then 0x20 ||| t.status i else t.status i)
  else 0

theorem pass_one (k : Cfg) (t : Table) (id rc mx : Nat) (hm : t.m = .pass id rc mx) (hi : id < rc) :
    ∃ xs mx', run k t xs = some { t with status := upd t.status id (passed t id), m := .pass (id + 1) rc mx' } := by
  by_cases h0 : t.status id = 0
  · refine ⟨[.master .go], mx, ?_⟩
    have : upd t.status id 0 = t.status := by funext j; simp only [upd]; split <;> simp_all
    simp [run, step, masterStep, hm, hi, h0, passed, this]
  · by_cases h1 : t.status id &&& 0x20 = 0
    · by_cases h2 : t.pid id ≠ 0 ∧ t.alive (t.pid id) = false
      · refine ⟨[.master .go, .master .go, .master .go], id, ?_⟩
        simp [run, step, masterStep, hm, hi, h0, h1, h2, passed]
      · refine ⟨[.master .go, .master .go], id, ?_⟩
        have : upd t.status id (t.status id) = t.status := by funext j; simp only [upd]; split <;> simp_all
        simp only [run, step, masterStep, hm, hi, if_true, h0, if_false, h1, h2, passed, this, Option.bind_some]
    · refine ⟨[.master .go, .master .go], id, ?_⟩
      simp [run, step, masterStep, hm, hi, h0, h1, passed]

theorem pass_all (k : Cfg) (rc : Nat) : ∀ n t id mx, n = rc - id → t.m = .pass id rc mx → ∃ xs mx' u,
    run k t xs = some u ∧ u.m = .cut rc mx' ∧ u.sem = t.sem ∧ u.pc = t.pc ∧ u.alive = t.alive ∧ u.pid = t.pid ∧
      ∀ i, u.status i = if id ≤ i ∧ i < rc then passed t i else t.status i := by
  intro n
  induction n with
  | zero =>
    intro t id mx hn hm
    have hi : ¬ id < rc := by omega
    refine ⟨[.master .go], mx, { t with m := .cut rc mx }, by simp [run, step, masterStep, hm, hi], rfl, rfl, rfl, rfl,
      rfl, ?_⟩
    intro i
    rw [if_neg (by omega)]
  | succ n ih =>
    intro t id mx hn hm
    obtain ⟨xs, mx', hx⟩ := pass_one k t id rc mx hm (by omega)
    obtain ⟨ys, mx'', u, hy, g1, g2, g3, g4, g5, g6⟩ :=
      ih { t with status := upd t.status id (passed t id), m := .pass (id + 1) rc mx' } (id + 1) mx' (by omega) rfl
    refine ⟨xs ++ ys, mx'', u, by rw [run_append k xs ys _ _ hx, hy], g1, g2, g3, g4, g5, ?_⟩
    intro i
    rw [g6 i]
    by_cases e : i = id
    · subst e
      rw [if_neg (by omega), if_pos (by omega)]
      simp [upd]
    · have : passed { t with status := upd t.status id (passed t id), m := .pass (id + 1) rc mx' } i = passed t i := by
        simp only [passed, upd, if_neg e]
      rw [this]
      by_cases h : id + 1 ≤ i ∧ i < rc
      · rw [if_pos h, if_pos (by omega)]
      · rw [if_neg h, if_neg (by omega)]
        simp [upd, e]

/-- A whole pass of the master, undisturbed. -/
theorem pass_whole (k : Cfg) (t : Table) (hm : t.m = .idle) (hs : t.sem = 1) : ∃ xs u,
    run k t xs = some u ∧ u.m = .idle ∧ u.sem = 1 ∧ u.pc = t.pc ∧ u.alive = t.alive ∧
      ∀ i, u.status i = if i < t.endPos then passed t i else t.status i := by
  obtain ⟨xs, mx, u, h1, h2, h3, h4, h5, h6, h7⟩ :=
    pass_all k t.endPos _ { t with m := .pass 0 t.endPos 0 } 0 0 rfl rfl
  have hstart : run k t (.master .pass :: xs) = some u := by
    simp only [run, step, masterStep, hm, Option.bind_some]
    exact h1
  have hp : ∀ i, passed { t with m := .pass 0 t.endPos 0 } i = passed t i := fun i => rfl
  have hst : ∀ i, u.status i = if i < t.endPos then passed t i else t.status i := by
    intro i
    rw [h7 i]
    by_cases h : i < t.endPos
    · rw [if_pos ⟨Nat.zero_le _, h⟩, if_pos h, hp]
    · rw [if_neg (fun q => h q.2), if_neg h]
  have hs' : u.sem = 1 := by rw [h3]; exact hs
  by_cases hc : mx + 1 < t.endPos
  · refine ⟨(.master .pass :: xs) ++ [.master .go, .master .go, .master .go],
      { u with endPos := if u.endPos ≤ t.endPos then mx + 1 else u.endPos, m := .idle, sem := 0 + 1 }, ?_, rfl, rfl, h4,
        h5, hst⟩
    rw [run_append k _ _ _ _ hstart]
    simp [run, step, masterStep, h2, hc, hs']
  · refine ⟨(.master .pass :: xs) ++ [.master .go], { u with m := .idle }, ?_, rfl, hs', h4, h5, hst⟩
    rw [run_append k _ _ _ _ hstart]
    simp [run, step, masterStep, h2, hc]

theorem claim_scan (k : Cfg) (c i : Nat) (hi : i < k.count) : ∀ n t j, n = i - j → j ≤ i → t.pc c = .scan j →
    t.sem = 1 → t.alive (k.pidOf c) = true → t.status i = 0 → ∃ xs u l, run k t xs = some u ∧ u.pc c = .own l ∧ l ≤ i ∧
      u.status l = 1 ||| k.flags ∧ t.status l = 0 := by
  intro n
  have hc : ∀ (f : Nat → CPc) v, upd f c v c = v := fun f v => by simp [upd]
  have hcc : ∀ (f : Nat → CPc) v w, upd (upd f c v) c w = upd f c w := fun f v w => by
    funext x; simp only [upd]; split <;> rfl
  have take : ∀ t j, j < k.count → t.pc c = .scan j → t.sem = 1 → t.alive (k.pidOf c) = true → t.status j = 0 →
      ∃ xs u, run k t xs = some u ∧ u.pc c = .own j ∧ u.status j = 1 ||| k.flags := by
    intro t j hj hp hs ha h0
    by_cases he : t.endPos ≤ j
    · refine ⟨List.replicate 8 (.client c .go), ⟨upd t.status j (1 ||| k.flags), upd t.pid j (k.pidOf c), j + 1, 0 + 1,
        upd t.pc c (.own j), t.m, t.alive⟩, ?_, hc _ _, by simp [upd]⟩
      simp [List.replicate, run, step, clientStep, hp, hs, ha, h0, hj, hc, hcc, he]
    · refine ⟨List.replicate 7 (.client c .go), ⟨upd t.status j (1 ||| k.flags), upd t.pid j (k.pidOf c), t.endPos, 0 + 1,
        upd t.pc c (.own j), t.m, t.alive⟩, ?_, hc _ _, by simp [upd]⟩
      simp [List.replicate, run, step, clientStep, hp, hs, ha, h0, hj, hc, hcc, he]
  induction n with
  | zero =>
    intro t j hn hj hp hs ha h0
    have : j = i := by omega
    subst this
    obtain ⟨xs, u, h1, h2, h3⟩ := take t j hi hp hs ha h0
    exact ⟨xs, u, j, h1, h2, Nat.le_refl _, h3, h0⟩
  | succ n ih =>
    intro t j hn hj hp hs ha h0
    by_cases hz : t.status j = 0
    · obtain ⟨xs, u, h1, h2, h3⟩ := take t j (by omega) hp hs ha hz
      exact ⟨xs, u, j, h1, h2, by omega, h3, hz⟩
    · obtain ⟨xs, u, l, h1, h2, h3, h4, h5⟩ := ih { t with pc := upd t.pc c (.scan (j + 1)) } (j + 1) (by omega) (by omega)
        (hc _ _) hs ha h0
      refine ⟨.client c .go :: xs, u, l, ?_, h2, h3, h4, h5⟩
      simp only [run, step, ha, if_true, clientStep, hp, if_pos (show j < k.count by omega), hz, if_false, Option.bind_some]
      exact h1

end Proof
open Proof

/-- **C35.** However the steps of any number of clients, of the master and of dying processes are interleaved, no record
ever belongs to two living clients; and the record of a living client says that it is in use, is not marked as
disconnected and names the process of that client. (`Cfg.twice` is false: no client releases its record twice.) -/
theorem C35_exclusive (k : Cfg) (hf : k.flags &&& 0x20 = 0) (hd : k.twice = false) (acts : List Act) (t : Table)
    (h : run k Table.init acts = some t) :
    (∀ c d i, Owns k t c i → Owns k t d i → c = d) ∧
    (∀ c i, Owns k t c i → t.status i ≠ 0 ∧ t.status i &&& 0x20 = 0 ∧ t.pid i = k.pidOf c) :=
  have hi := run_inv k hf hd acts _ t (init_inv k) h
  ⟨hi.one, hi.own⟩

/-- A schedule reaches a state with a (decidable) property. -/
theorem reach (k : Cfg) (acts : List Act) (p : Table → Bool) (h : (run k Table.init acts).any p = true) :
    ∃ t, run k Table.init acts = some t ∧ p t = true := by
  cases e : run k Table.init acts with
  | none => rw [e] at h; cases h
  | some t => rw [e] at h; exact ⟨t, rfl, h⟩

/-- Four records, client `c` in process `c + 10`. -/
def four (twice : Bool) : Cfg := ⟨4, fun c => c + 10, 8, twice⟩

/-- Steps of client `c`. -/
def go (c n : Nat) : List Act := List.replicate n (.client c .go)

/-- Two clients racing for record 0: the second one finds it taken once it has the semaphore and ends up with record 1. -/
example : (run (four false) Table.init (go 0 2 ++ go 1 2 ++ go 0 6 ++ go 1 11)).map
    (fun t => (t.pc 0, t.pc 1, t.status 0, t.status 1, t.endPos)) = some (.own 0, .own 1, 9, 9, 2) := by decide +kernel

/-- **C35**, second half. Whatever the state, a record that its client has released and that lies below the table's end
can be had again: the master's next pass frees it, and a client that then looks for a record gets it, or a free one before
it. If all records before it are in use, the client gets that very record. -/
theorem C35_reuse (k : Cfg) (t : Table) (i c : Nat) (hm : t.m = .idle) (hs : t.sem = 1) (hc : t.pc c = .idle)
    (ha : t.alive (k.pidOf c) = true) (hi : i < k.count) (he : i < t.endPos) (hr : t.status i &&& 0x20 ≠ 0) :
    ∃ acts u j, run k t acts = some u ∧ u.pc c = .own j ∧ u.status j = 1 ||| k.flags ∧ j ≤ i ∧
      ((∀ l < i, t.status l ≠ 0 ∧ t.status l &&& 0x20 = 0) → j = i) := by
  obtain ⟨xs, v, h1, h2, h3, h4, h5, h6⟩ := pass_whole k t hm hs
  have hv : v.status i = 0 := by
    rw [h6 i, if_pos he, passed]
    rw [if_neg hr]
    split <;> rfl
  obtain ⟨ys, u, l, g1, g2, g3, g4, g5⟩ := claim_scan k c i hi _ { v with pc := upd v.pc c (.scan 0) } 0 rfl
    (Nat.zero_le _) (by simp [upd]) h3 (by rw [← h5] at ha; exact ha) hv
  refine ⟨xs ++ .client c .go :: ys, u, l, ?_, g2, g4, g3, ?_⟩
  · rw [run_append k _ _ _ _ h1]
    have : v.pc c = .idle := by rw [h4]; exact hc
    have ha' : v.alive (k.pidOf c) = true := by rw [h5]; exact ha
    simp only [run, step, ha', if_true, clientStep, this, Option.bind_some]
    exact g1
  · intro hl
    refine Decidable.byContradiction fun hne => ?_
    have hlt : l < i := by omega
    obtain ⟨q1, q2⟩ := hl l hlt
    have g5' : v.status l = 0 := g5
    rw [h6 l, if_pos (by omega), passed, if_neg q1, if_pos q2] at g5'
    split at g5'
    · exact or20 _ g5'
    · exact q1 g5'

/-- A reachable state that meets the hypotheses: client 0 registered and left. -/
example : ∃ t, run (four false) Table.init (go 0 8 ++ [.client 0 .release, .client 0 .go]) = some t ∧ t.m = .idle ∧
    t.sem = 1 ∧ t.pc 1 = .idle ∧ t.alive ((four false).pidOf 1) = true ∧ 0 < (four false).count ∧ 0 < t.endPos ∧
    t.status 0 &&& 0x20 ≠ 0 := by
  obtain ⟨t, h, g⟩ := reach (four false) (go 0 8 ++ [.client 0 .release, .client 0 .go]) (fun t => decide (t.m = .idle ∧
    t.sem = 1 ∧ t.pc 1 = .idle ∧ t.alive ((four false).pidOf 1) = true ∧ 0 < (four false).count ∧ 0 < t.endPos ∧
    t.status 0 &&& 0x20 ≠ 0)) (by decide +kernel)
  exact ⟨t, h, of_decide_eq_true g⟩

/-- A pass of the master over two records that are in use. -/
def masterGo (n : Nat) : List Act := List.replicate n (.master .go)

/-- **C35** fails when a client marks its record as disconnected and is destroyed afterwards (input_ts.cpp 162-163: the
status is set by hand, then the destructor of the same object sets it again): in between, the master may have freed the
record and another client may have taken it. That client's record is then freed under it and given to a third one. -/
theorem C35_double_release_fails : ∃ acts t, run (four true) Table.init acts = some t ∧
    Owns (four true) t 1 0 ∧ Owns (four true) t 2 0 := by
  obtain ⟨t, h, g⟩ := reach (four true) (go 0 8 ++ [.client 0 .release, .client 0 .go] ++ (.master .pass :: masterGo 4) ++
    go 1 8 ++ [.client 0 .release, .client 0 .go] ++ (.master .pass :: masterGo 4) ++ go 2 8)
    (fun t => decide (((t.pc 1).slot = some 0 ∧ t.alive ((four true).pidOf 1) = true) ∧
      (t.pc 2).slot = some 0 ∧ t.alive ((four true).pidOf 2) = true)) (by decide +kernel)
  have g := of_decide_eq_true g
  exact ⟨_, t, h, g.1, g.2⟩

/-- The release of a record can be lost: `finishAll` reads the status, the client marks the record as disconnected, and
`finishAll` writes back what it read. The client is gone, but its record stays in use after every further pass of the
master, as long as the process lives. -/
theorem C35_release_lost_fails : ∃ acts t, run (four false) Table.init acts = some t ∧ t.pc 0 = .done 0 ∧ t.m = .idle ∧
    t.sem = 1 ∧ t.alive (t.pid 0) = true ∧ t.status 0 ≠ 0 ∧ t.status 0 &&& 0x20 = 0 ∧
    ∀ n, ∃ u, run (four false) t ((List.replicate n (.master .pass :: masterGo 4)).flatten) = some u ∧
      u.status 0 = t.status 0 := by
  obtain ⟨t, h, g⟩ := reach (four false) (go 0 8 ++ [.master .finish, .master .go, .master .go, .client 0 .release,
    .client 0 .go, .master .go, .master .go]) (fun t => decide ((t.pc 0 = .done 0 ∧ t.m = .idle ∧
    t.sem = 1 ∧ t.alive (t.pid 0) = true ∧ t.status 0 ≠ 0 ∧ t.status 0 &&& 0x20 = 0) ∧ t.endPos = 1)) (by decide +kernel)
  obtain ⟨⟨g1, g2, g3, g4, g5, g6⟩, g7⟩ := of_decide_eq_true g
  refine ⟨_, t, h, g1, g2, g3, g4, g5, g6, ?_⟩
  have hp : run (four false) t (.master .pass :: masterGo 4) = some t := by
    cases t
    simp_all [run, step, masterStep, masterGo, List.replicate]
  intro n
  refine ⟨t, ?_, rfl⟩
  induction n with
  | zero => rfl
  | succ n ih =>
    rw [List.replicate_succ, List.flatten_cons, run_append _ _ _ _ _ hp]
    exact ih

/-! ## C53 -/

/-- The master is looking at the records. -/
def passing : MPc → Bool
  | .pass _ _ _ | .pid _ _ _ _ | .kill _ _ _ _ | .clear _ _ _ | .cut _ _ | .cutl _ _ => true
  | _ => false

/-- A schedule in which no client takes a record while the master is looking at the records. -/
def Quiet (k : Cfg) (t : Table) : List Act → Prop
  | [] => True
  | a :: r => (∀ c i, a = .client c .go → t.pc c = .mark i → passing t.m = false) ∧
      ∀ t', step k t a = some t' → Quiet k t' r

/-- **C53** fails: the master reads that record 1 is free; a client takes it; the master then moves the end of the table
before it. The client is registered, but the master looks at the records below the end only. -/
theorem C53_fails : ∃ acts t, run (four false) Table.init acts = some t ∧ t.pc 2 = .own 1 ∧
    t.alive ((four false).pidOf 2) = true ∧ t.m = .idle ∧ ¬ 1 < t.endPos := by
  obtain ⟨t, h, g⟩ := reach (four false) (go 0 8 ++ go 1 10 ++ [.client 1 .release, .client 1 .go] ++
    (.master .pass :: masterGo 6) ++ (.master .pass :: masterGo 4) ++ go 2 9 ++ masterGo 3)
    (fun t => decide (t.pc 2 = .own 1 ∧ t.alive ((four false).pidOf 2) = true ∧ t.m = .idle ∧ ¬ 1 < t.endPos))
    (by decide +kernel)
  exact ⟨_, t, h, of_decide_eq_true g⟩

namespace Proof

/-- How far the master has looked. -/
def seen : MPc → Option (Nat × Nat × Nat)
  | .pass id rc mx => some (id, rc, mx)
  | .pid id rc mx _ => some (id, rc, mx)
  | .kill id rc mx _ => some (id, rc, mx)
  | .clear id rc mx => some (id, rc, mx)
  | .cut rc mx => some (rc, rc, mx)
  | .cutl rc mx => some (rc, rc, mx)
  | _ => none

structure Vis (k : Cfg) (t : Table) : Prop where
  vis : ∀ c i, Owns k t c i → (t.pc c = .endp i ∨ t.pc c = .endw i) ∨ i < t.endPos
  sn : ∀ id rc mx, seen t.m = some (id, rc, mx) → ∀ c i, Owns k t c i → i < id → i < rc → i ≤ mx
  cw : ∀ c i, t.pc c = .endw i → t.endPos ≤ i

theorem init_vis (k : Cfg) : Vis k Table.init := by
  constructor <;> simp [Table.init, Owns, CPc.slot, seen]

theorem crash_vis (k : Cfg) (t : Table) (p : Nat) (h : Vis k t) : Vis k { t with alive := upd t.alive p false } := by
  have ho : ∀ c i, Owns k { t with alive := upd t.alive p false } c i → Owns k t c i := by
    intro c i ⟨h1, h2⟩
    refine ⟨h1, ?_⟩
    simp only [upd] at h2
    grind
  exact ⟨fun c i q => h.vis c i (ho c i q), fun id rc mx e c i q => h.sn id rc mx e c i (ho c i q), h.cw⟩

set_option maxHeartbeats 4000000 in
theorem master_vis (k : Cfg) (t t' : Table) (a : MAct) (hi : Inv k t) (h : Vis k t) (e : masterStep t a = some t') :
    Vis k t' := by
  obtain ⟨-, h2, h3, h4, h5, -, -, h8, -, -, -, -, -, -, -⟩ := hi
  obtain ⟨g1, g2, g4⟩ := h
  have g3 : ∀ rc mx, t.m = .cutl rc mx → ∀ c i, Owns k t c i → i < rc → i ≤ mx :=
    fun rc mx em c i q hl => g2 rc rc mx (by rw [em]; rfl) c i q hl hl
  unfold masterStep at e
  split at e <;> (repeat' split at e) <;> (try cases e)
  all_goals simp only [Owns] at *
  all_goals constructor
  all_goals try simp only [Owns]
  all_goals grind [upd, CPc.slot, holds, mholds, seen]

set_option maxHeartbeats 4000000 in
theorem client_vis (k : Cfg) (hd : k.twice = false) (t t' : Table) (c : Nat) (a : CAct)
    (ha : t.alive (k.pidOf c) = true) (hq : ∀ i, a = .go → t.pc c = .mark i → passing t.m = false)
    (hi : Inv k t) (h : Vis k t) (e : clientStep k t c a = some t') : Vis k t' := by
  obtain ⟨-, h2, h3, h4, h5, -, -, h8, h9, -, -, -, -, -, h15⟩ := hi
  obtain ⟨g1, g2, g4⟩ := h
  have g3 : passing t.m = false → seen t.m = none := by cases t.m <;> simp [passing, seen]
  unfold clientStep at e
  split at e <;> (repeat' split at e) <;> (try cases e)
  all_goals simp only [Owns] at *
  all_goals constructor
  all_goals try simp only [Owns]
  all_goals grind [upd, CPc.slot, holds, mholds, seen, passing]

theorem run_vis (k : Cfg) (hf : k.flags &&& 0x20 = 0) (hd : k.twice = false) (acts : List Act) :
    ∀ t t', Inv k t → Vis k t → Quiet k t acts → run k t acts = some t' → Vis k t' := by
  induction acts with
  | nil => intro t t' _ h _ e; cases e; exact h
  | cons a r ih =>
    intro t t' hi h hq e
    simp only [run, Option.bind_eq_some_iff] at e
    obtain ⟨u, hu, e⟩ := e
    refine ih u t' (step_inv k hf hd t u a hi hu) ?_ (hq.2 u hu) e
    cases a with
    | client c a =>
      simp only [step] at hu
      split at hu
      · exact client_vis k hd t u c a ‹_› (fun i ea => hq.1 c i (by rw [ea])) hi h hu
      · cases hu
    | master a => exact master_vis k t u a hi h hu
    | crash p => cases hu; exact crash_vis k t p h

end Proof

/-- **C53**, what holds: in every schedule in which no client takes a record while the master is in the middle of a pass,
every registered client of a living process is below the end of the table, so the master's next pass looks at it.
Missing: schedules in which a client registers during a pass (`C53_fails`). -/
theorem C53_partial (k : Cfg) (hf : k.flags &&& 0x20 = 0) (hd : k.twice = false) (acts : List Act) (t : Table)
    (hq : Quiet k Table.init acts) (h : run k Table.init acts = some t) (c i : Nat) (hc : t.pc c = .own i)
    (ha : t.alive (k.pidOf c) = true) : i < t.endPos ∧ t.status i ≠ 0 := by
  have ho : Owns k t c i := ⟨by rw [hc]; rfl, ha⟩
  refine ⟨?_, ((run_inv k hf hd acts _ t (init_inv k) h).own c i ho).1⟩
  have := (run_vis k hf hd acts _ t (init_inv k) (init_vis k) hq h).vis c i ho
  rw [hc] at this
  simpa using this

/-- `Quiet`, computed. -/
def quietB (k : Cfg) (t : Table) : List Act → Bool
  | [] => true
  | a :: r => (match a with
      | .client c _ => (match t.pc c with
        | .mark _ => !passing t.m
        | _ => true)
      | _ => true) &&
    (match step k t a with
      | some t' => quietB k t' r
      | none => true)

theorem quiet_of (k : Cfg) (acts : List Act) : ∀ t, quietB k t acts = true → Quiet k t acts := by
  induction acts with
  | nil => intro t _; trivial
  | cons a r ih =>
    intro t h
    simp only [quietB, Bool.and_eq_true] at h
    obtain ⟨h1, h2⟩ := h
    refine ⟨?_, ?_⟩
    · intro c i e em
      subst e
      simp only [em] at h1
      simpa using h1
    · intro t' e
      rw [e] at h2
      exact ih t' h2

/-- A schedule that meets the hypotheses: two clients register, the first one leaves, the master makes a pass while a third
client looks for a record, and the third one registers after the pass. -/
example : Quiet (four false) Table.init (go 0 8 ++ go 1 10 ++ [.client 0 .release, .client 0 .go] ++
    (.master .pass :: masterGo 3) ++ go 2 4 ++ masterGo 3 ++ go 2 4) :=
  quiet_of _ _ _ (by decide +kernel)

example : (run (four false) Table.init (go 0 8 ++ go 1 10 ++ [.client 0 .release, .client 0 .go] ++
    (.master .pass :: masterGo 3) ++ go 2 4 ++ masterGo 3 ++ go 2 4)).map (fun t => (t.pc 1, t.pc 2, t.endPos)) =
      some (.own 1, .own 0, 2) := by decide +kernel

end Verif.Shm
