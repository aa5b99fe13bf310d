import Verif.Shm.Claim

/-!
# C36: producers of tracks
-/
namespace Verif.Shm
namespace Proof

/-- Producers that hold the semaphore. -/
def pholds : PPc → Bool
  | .lk _ | .chk _ | .set _ | .yes _ | .no _ | .alk | .ano | .anum | .aset _ | .ainc _ | .ayes _ => true
  | _ => false

/-- The existing track a producer is working on. -/
def onTrack : PPc → Option Nat
  | .want k | .lk k | .chk k | .set k | .yes k | .no k | .ayes k | .drop k | .clr k => some k
  | _ => none

/-- The track that is marked as the producer's although it does not write yet, or not any more. -/
def mine : PPc → Option Nat
  | .yes k | .clr k | .ainc k | .ayes k => some k
  | _ => none

structure PInv (g : PCfg) (t : Tracks) : Prop where
  sem1 : t.sem ≤ 1
  sem0 : ∀ p, pholds (t.pc p) = true → t.sem = 0
  ex : ∀ p q, pholds (t.pc p) = true → pholds (t.pc q) = true → p = q
  on : ∀ p k, onTrack (t.pc p) = some k → k < t.present
  hasP : ∀ p k, t.has p k = true → k < t.present
  hasO : ∀ p k, t.has p k = true → t.owner k = g.pidOf p
  mineO : ∀ p k, mine (t.pc p) = some k → t.owner k = g.pidOf p
  clrH : ∀ p k, t.pc p = .clr k → t.has p k = false
  set0 : ∀ p k, t.pc p = .set k → t.owner k = 0
  ast : ∀ p k, t.pc p = .aset k → k = t.present
  ain : ∀ p k, t.pc p = .ainc k → k = t.present
  drp : ∀ p k, t.pc p = .drop k → t.has p k = false

theorem init_pinv (g : PCfg) : PInv g Tracks.init := by
  constructor <;> simp [Tracks.init, pholds, onTrack, mine]

theorem upd2_eq (f : Nat → Nat → Bool) (p k : Nat) (v : Bool) (q j : Nat) :
    upd2 f p k v q j = if q = p ∧ j = k then v else f q j := by
  simp only [upd2, upd]
  by_cases h : q = p <;> by_cases h' : j = k <;> simp [h, h', upd]

set_option maxHeartbeats 4000000 in
theorem prod_inv (g : PCfg) (hinj : ∀ p q, g.pidOf p = g.pidOf q → p = q) (hpos : ∀ p, g.pidOf p ≠ 0)
    (hign : ∀ p, g.ignores p = false) (t t' : Tracks) (p : Nat) (a : PAct) (h : PInv g t)
    (e : prodStep g t p a = some t') : PInv g t' := by
  obtain ⟨h1, h2, h3, h4, h5, h6, h7, h8, h9, h10, h11, h12⟩ := h
  have hm : ∀ q k, mine (t.pc q) = some k → onTrack (t.pc q) = some k ∨ t.pc q = .ainc k := by
    intro q k; cases t.pc q <;> simp [mine, onTrack]
  obtain ⟨o, ho⟩ : ∃ o, onTrack (t.pc p) = o := ⟨_, rfl⟩
  obtain ⟨o', ho'⟩ : ∃ o, mine (t.pc p) = o := ⟨_, rfl⟩
  unfold prodStep at e
  split at e <;> (repeat' split at e) <;> (try cases e)
  all_goals constructor
  all_goals try simp only [upd2_eq]
  all_goals grind [upd, pholds, onTrack, mine]

theorem trun_inv (g : PCfg) (hinj : ∀ p q, g.pidOf p = g.pidOf q → p = q) (hpos : ∀ p, g.pidOf p ≠ 0)
    (hign : ∀ p, g.ignores p = false) (acts : List TAct) : ∀ t t', PInv g t → trun g t acts = some t' → PInv g t' := by
  induction acts with
  | nil => intro t t' h e; cases e; exact h
  | cons a r ih =>
    intro t t' h e
    simp only [trun, Option.bind_eq_some_iff] at e
    obtain ⟨u, hu, e⟩ := e
    refine ih u t' ?_ e
    cases a with
    | prod p a => exact prod_inv g hinj hpos hign t u p a h hu
    | exit =>
      cases hu
      exact ⟨h.sem1, h.sem0, h.ex, h.on, h.hasP, h.hasO, h.mineO, h.clrH, h.set0, h.ast, h.ain, h.drp⟩

theorem trun_append (g : PCfg) (xs ys : List TAct) : ∀ t u, trun g t xs = some u → trun g t (xs ++ ys) = trun g u ys := by
  induction xs with
  | nil => intro t u h; cases h; rfl
  | cons a r ih =>
    intro t u h
    simp only [trun, Option.bind_eq_some_iff] at h
    obtain ⟨v, hv, h⟩ := h
    simp only [List.cons_append, trun, hv, Option.bind_some]
    exact ih v u h

theorem treach (g : PCfg) (acts : List TAct) (p : Tracks → Bool) (h : (trun g Tracks.init acts).any p = true) :
    ∃ t, trun g Tracks.init acts = some t ∧ p t = true := by
  cases e : trun g Tracks.init acts with
  | none => rw [e] at h; cases h
  | some t => rw [e] at h; exact ⟨t, rfl, h⟩

end Proof
open Proof

/-- **C36.** However the steps of any number of producers, each in its own process and each heeding what `claimTrack`
returns, are interleaved: no track ever has two producers, and the list names the process of the one it has. -/
theorem C36_exclusive (g : PCfg) (hinj : ∀ p q, g.pidOf p = g.pidOf q → p = q) (hpos : ∀ p, g.pidOf p ≠ 0)
    (hign : ∀ p, g.ignores p = false) (acts : List TAct) (t : Tracks) (h : trun g Tracks.init acts = some t) :
    (∀ p q k, t.has p k = true → t.has q k = true → p = q) ∧
    (∀ p k, t.has p k = true → k < t.present ∧ t.owner k = g.pidOf p) := by
  have hi := trun_inv g hinj hpos hign acts _ t (init_pinv g) h
  exact ⟨fun p q k hp hq => hinj p q (by rw [← hi.hasO p k hp, hi.hasO q k hq]),
    fun p k hp => ⟨hi.hasP p k hp, hi.hasO p k hp⟩⟩

/-- **C36**, only the owner: whatever step is taken in whatever reachable state, a track that is claimed stays claimed by
the same process, unless the step is one of that very process, in a call of `abandonTrack` for that track; then nobody
has it. -/
theorem C36_owner_only (g : PCfg) (hinj : ∀ p q, g.pidOf p = g.pidOf q → p = q) (hpos : ∀ p, g.pidOf p ≠ 0)
    (hign : ∀ p, g.ignores p = false) (acts : List TAct) (t t' : Tracks) (h : trun g Tracks.init acts = some t)
    (a : TAct) (e : tstep g t a = some t') (k : Nat) (hk : k < t.present) (ho : t.owner k ≠ 0) :
    t'.owner k = t.owner k ∨
      (t'.owner k = 0 ∧ ∃ p, a = .prod p .go ∧ t.pc p = .clr k ∧ g.pidOf p = t.owner k ∧ t.has p k = false) := by
  have hi := trun_inv g hinj hpos hign acts _ t (init_pinv g) h
  cases a with
  | exit => cases e; exact Or.inl rfl
  | prod p a =>
    simp only [tstep] at e
    have h7 := hi.mineO p
    have h8 := hi.clrH p
    have h9 := hi.set0 p
    have h10 := hi.ast p
    clear hi
    unfold prodStep at e
    split at e <;> (repeat' split at e) <;> (try cases e)
    all_goals try exact Or.inl rfl
    all_goals grind [upd, mine]

/-- **C36**, until it is abandoned: a track nobody has can be claimed, by any producer. -/
theorem C36_claim (g : PCfg) (t : Tracks) (p k : Nat) (hp : t.pc p = .idle) (hs : t.sem = 1) (he : t.exit = false)
    (hk : k < t.present) (ho : t.owner k = 0) : ∃ acts t', trun g t acts = some t' ∧ t'.has p k = true ∧
      t'.owner k = g.pidOf p ∧ t'.sem = 1 := by
  have hc : ∀ (f : Nat → PPc) v, upd f p v p = v := fun f v => by simp [upd]
  have hcc : ∀ (f : Nat → PPc) v w, upd (upd f p v) p w = upd f p w := fun f v w => by
    funext x; simp only [upd]; split <;> rfl
  refine ⟨.prod p (.claim k) :: List.replicate 5 (.prod p .go), ⟨upd t.owner k (g.pidOf p), t.present, false, 0 + 1,
    upd t.pc p .idle, upd2 t.has p k true⟩, ?_, by simp [upd2, upd], by simp [upd], rfl⟩
  simp [List.replicate, trun, tstep, prodStep, hp, hs, he, hk, ho, hc, hcc]

/-- Producer `p` in process `p + 10`; producer 2 ignores the result of claims if `b`. -/
def prods (b : Bool) : PCfg := ⟨fun p => p + 10, fun p => b && p == 2⟩

def pgo (p n : Nat) : List TAct := List.replicate n (.prod p .go)

/-- Producer 0 adds a track and abandons it; producers 1 and 2 both try to claim it, and producer 1 gets it. -/
example : (trun (prods false) Tracks.init ([.prod 0 .add] ++ pgo 0 6 ++ [.prod 0 (.abandon 0)] ++ pgo 0 2 ++
    [.prod 1 (.claim 0), .prod 2 (.claim 0)] ++ pgo 1 5 ++ pgo 2 4)).map
    (fun t => (t.has 0 0, t.has 1 0, t.has 2 0, t.owner 0)) = some (false, true, false, 11) := by decide +kernel

example : (∀ p q, (prods false).pidOf p = (prods false).pidOf q → p = q) ∧ (∀ p, (prods false).pidOf p ≠ 0) ∧
    (∀ p, (prods false).ignores p = false) :=
  ⟨fun p q h => by simp only [prods] at h; omega, fun p => by simp only [prods]; omega, fun p => rfl⟩

/-- **C36** fails for `Input::stream` in real-time mode (input.cpp 1214-1220): it looks whether the track is claimed, then
claims it and ignores the answer. When another producer claims the track in between, both write to it. -/
theorem C36_ignored_fails : ∃ acts t, trun (prods true) Tracks.init acts = some t ∧ t.has 1 0 = true ∧ t.has 2 0 = true := by
  obtain ⟨t, h, e⟩ := treach (prods true) ([.prod 0 .add] ++ pgo 0 6 ++ [.prod 0 (.abandon 0)] ++ pgo 0 2 ++
    [.prod 1 (.claim 0), .prod 2 (.claim 0)] ++ pgo 1 5 ++ pgo 2 4) (fun t => t.has 1 0 && t.has 2 0) (by decide +kernel)
  simp only [Bool.and_eq_true] at e
  exact ⟨_, t, h, e⟩

end Verif.Shm
