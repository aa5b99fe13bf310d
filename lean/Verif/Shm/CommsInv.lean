import Verif.Shm.Comms
import Verif.Base.Bytes

/-!
# Client slots: the invariant
-/
namespace Verif.Shm

/-- The record a client considers its own: from the moment it has written its status until it has written that it
is gone. -/
def CPc.slot : CPc → Option Nat
  | .endp i | .endw i | .post i | .own i | .rel i _ => some i
  | _ => none

/-- A living client owns record `i`. -/
def Owns (k : Cfg) (t : Table) (c i : Nat) : Prop := (t.pc c).slot = some i ∧ t.alive (k.pidOf c) = true

namespace Proof

/-- Clients that hold the semaphore. -/
def holds : CPc → Bool
  | .chk _ | .skip _ | .null _ | .mark _ | .endp _ | .endw _ | .post _ => true
  | _ => false

def mholds : MPc → Bool
  | .cutl _ _ | .cutu => true
  | _ => false

/-- The record a client is about to take. -/
def taking : CPc → Option Nat
  | .null i | .mark i => some i
  | _ => none

/-- The record whose status the master has looked at. -/
def looking : MPc → Option Nat
  | .pid id _ _ _ | .kill id _ _ _ | .clear id _ _ | .finr id | .finw id _ => some id
  | _ => none

structure Inv (k : Cfg) (t : Table) : Prop where
  sem1 : t.sem ≤ 1
  semC : ∀ c, holds (t.pc c) = true → t.sem = 0
  semM : mholds t.m = true → t.sem = 0
  exC : ∀ c d, holds (t.pc c) = true → holds (t.pc d) = true → c = d
  exM : ∀ c, holds (t.pc c) = true → mholds t.m = false
  tak : ∀ c i, taking (t.pc c) = some i → t.status i = 0
  mrk : ∀ c i, t.pc c = .mark i → t.pid i = k.pidOf c
  own : ∀ c i, Owns k t c i → t.status i ≠ 0 ∧ t.status i &&& 0x20 = 0 ∧ t.pid i = k.pidOf c
  one : ∀ c d i, Owns k t c i → Owns k t d i → c = d
  look : ∀ i, looking t.m = some i → t.status i ≠ 0
  mpid : ∀ i rc mx s, t.m = .pid i rc mx s → s ≠ 0
  mkill : ∀ i rc mx s, t.m = .kill i rc mx s → ∀ c, ¬ Owns k t c i
  mclear : ∀ i rc mx, t.m = .clear i rc mx → ∀ c, ¬ Owns k t c i
  mfin : ∀ i s, t.m = .finw i s → s ≠ 0 ∧ ∀ c, Owns k t c i → s &&& 0x20 = 0
  single : k.twice = false → ∀ c i s, t.pc c ≠ .drel i s

theorem init_inv (k : Cfg) : Inv k Table.init := by
  constructor <;> simp [Table.init, holds, mholds, taking, looking, Owns, CPc.slot]

theorem or20 : ∀ s : UInt8, 0x20 ||| s ≠ 0 := by decide +kernel
theorem or10 : ∀ s : UInt8, 0x10 ||| s ≠ 0 := by decide +kernel
theorem or10' : ∀ s : UInt8, s &&& 0x20 = 0 → (0x10 ||| s) &&& 0x20 = 0 := by decide +kernel
theorem or1 : ∀ s : UInt8, 1 ||| s ≠ 0 := by decide +kernel
theorem or1' : ∀ s : UInt8, s &&& 0x20 = 0 → (1 ||| s) &&& 0x20 = 0 := by decide +kernel

theorem taking_holds (p : CPc) (i : Nat) (h : taking p = some i) : holds p = true := by
  cases p <;> simp_all [taking, holds]

theorem crash_inv (k : Cfg) (t : Table) (p : Nat) (h : Inv k t) : Inv k { t with alive := upd t.alive p false } := by
  have ho : ∀ c i, Owns k { t with alive := upd t.alive p false } c i → Owns k t c i := by
    intro c i ⟨h1, h2⟩
    refine ⟨h1, ?_⟩
    simp only [upd] at h2
    grind
  exact ⟨h.sem1, h.semC, h.semM, h.exC, h.exM, h.tak, h.mrk, fun c i q => h.own c i (ho c i q),
    fun c d i q r => h.one c d i (ho c i q) (ho d i r), h.look, h.mpid, fun i rc mx s q c r => h.mkill i rc mx s q c (ho c i r),
    fun i rc mx q c r => h.mclear i rc mx q c (ho c i r),
    fun i s q => ⟨(h.mfin i s q).1, fun c r => (h.mfin i s q).2 c (ho c i r)⟩, h.single⟩

set_option maxHeartbeats 4000000 in
theorem master_inv (k : Cfg) (t t' : Table) (a : MAct) (h : Inv k t) (e : masterStep t a = some t') :
    Inv k t' := by
  obtain ⟨h1, h2, h3, h4, h5, h6, h7, h8, h9, h10, h11, h12, h13, h14, h15⟩ := h
  have := or20
  have := or10
  have := or10'
  unfold masterStep at e
  split at e <;> (repeat' split at e) <;> (try cases e)
  all_goals simp only [Owns] at *
  all_goals constructor
  all_goals try simp only [Owns]
  all_goals grind [upd, Owns, CPc.slot, holds, mholds, taking, looking]

set_option maxHeartbeats 4000000 in
theorem client_inv (k : Cfg) (hf : k.flags &&& 0x20 = 0) (hd : k.twice = false) (t t' : Table) (c : Nat) (a : CAct)
    (ha : t.alive (k.pidOf c) = true)
    (h : Inv k t) (e : clientStep k t c a = some t') : Inv k t' := by
  obtain ⟨h1, h2, h3, h4, h5, h6, h7, h8, h9, h10, h11, h12, h13, h14, h15⟩ := h
  have hth : ∀ d i, taking (t.pc d) = some i → holds (t.pc d) = true := fun d i => taking_holds _ i
  have := or20
  have := or1
  have := or1'
  unfold clientStep at e
  split at e <;> (repeat' split at e) <;> (try cases e)
  all_goals simp only [Owns] at *
  all_goals constructor
  all_goals try simp only [Owns]
  all_goals grind [upd, Owns, CPc.slot, holds, mholds, taking, looking]

theorem step_inv (k : Cfg) (hf : k.flags &&& 0x20 = 0) (hd : k.twice = false) (t t' : Table) (a : Act)
    (h : Inv k t) (e : step k t a = some t') : Inv k t' := by
  cases a with
  | client c a =>
    simp only [step] at e
    split at e
    · exact client_inv k hf hd t t' c a ‹_› h e
    · cases e
  | master a => exact master_inv k t t' a h e
  | crash p => cases e; exact crash_inv k t p h

theorem run_inv (k : Cfg) (hf : k.flags &&& 0x20 = 0) (hd : k.twice = false) (acts : List Act) :
    ∀ t t', Inv k t → run k t acts = some t' → Inv k t' := by
  induction acts with
  | nil => intro t t' h e; cases e; exact h
  | cons a r ih =>
    intro t t' h e
    simp only [run, Option.bind_eq_some_iff] at e
    obtain ⟨u, hu, e⟩ := e
    exact ih u t' (step_inv k hf hd t u a h hu) e

theorem run_append (k : Cfg) (xs ys : List Act) : ∀ t u, run k t xs = some u → run k t (xs ++ ys) = run k u ys := by
  induction xs with
  | nil => intro t u h; cases h; rfl
  | cons a r ih =>
    intro t u h
    simp only [run, Option.bind_eq_some_iff] at h
    obtain ⟨v, hv, h⟩ := h
    simp only [List.cons_append, run, hv, Option.bind_some]
    exact ih v u h

end Proof
end Verif.Shm
