import Verif.Servers.Spec

/-!
# C96: the list of servers of the load balancer
-/
namespace Verif.Servers
open Verif.Servers.Spec

/-! ## The invariant -/

/-- A slot that is not in use. -/
def Free (x : Slot) : Prop := x.state = .off ∧ x.name = [] ∧ x.phase = .gone ∧ x.alive = false
/-- A slot in use. -/
def Used (x : Slot) : Prop := (x.state = .boot ∨ x.state = .error ∨ x.state = .online) ∧ x.name ≠ [] ∧
  (x.phase = .start ∨ x.phase = .poll ∨ x.phase = .wait) ∧ x.alive = true
/-- A slot of which the thread is asked to stop, or was. -/
def Leaving (x : Slot) (n : Bytes) : Prop := x.state ≠ .off ∧ x.name = n ∧ n ≠ [] ∧ x.phase ≠ .gone ∧ x.alive = true
/-- A slot without a thread and details that still has a name. -/
def Left (x : Slot) (n : Bytes) : Prop := x.state ≠ .off ∧ x.name = n ∧ n ≠ [] ∧ x.phase = .gone ∧ x.alive = false

/-- What holds for the slot with number `j`. -/
def OkSlot (lock : Option (Bytes × Nat × Stage)) (j : Nat) (x : Slot) : Prop :=
  match lock with
  | none => Free x ∨ Used x
  | some (n, i, .join) => if j = i then Leaving x n else Free x ∨ Used x
  | some (n, i, .clear) => if j = i then Left x n else Free x ∨ Used x

structure Inv (S : Sys) : Prop where
  slots : ∀ (j : Nat) x, S.slots[j]? = some x → OkSlot S.lock j x
  names : ∀ (j k : Nat) x y, S.slots[j]? = some x → S.slots[k]? = some y → x.state ≠ .off → y.state ≠ .off → x.name = y.name → j = k
  lock : ∀ n i g, S.lock = some (n, i, g) → i < S.slots.length

theorem used_off {x : Slot} (h : Used x) : x.state ≠ .off := by
  rcases h.1 with h | h | h <;> rw [h] <;> decide

theorem turn_name (x : Slot) (ok : Bool) : (turn x ok).name = x.name ∧ (turn x ok).alive = x.alive := by
  unfold turn
  cases x.phase with
  | gone => exact ⟨rfl, rfl⟩
  | done => exact ⟨rfl, rfl⟩
  | start => exact ⟨rfl, rfl⟩
  | poll =>
    simp only
    cases ok
    · exact ⟨rfl, rfl⟩
    · cases x.down <;> exact ⟨rfl, rfl⟩
  | wait =>
    simp only
    split <;> exact ⟨rfl, rfl⟩

theorem turn_gone {x : Slot} {ok : Bool} (h : x.phase = .gone) : turn x ok = x := by
  unfold turn
  rw [h]

theorem turn_phase {x : Slot} {ok : Bool} : ((turn x ok).phase = .gone ↔ x.phase = .gone) ∧ ((turn x ok).state = .off ↔ x.state = .off ∧ (x.phase = .gone ∨ x.phase = .done ∨
    (x.phase = .poll ∧ ok = true ∧ x.down = false) ∨ x.phase = .wait)) := by
  obtain ⟨state, name, phase, down, alive⟩ := x
  cases phase <;> cases state <;> cases ok <;> cases down <;> simp [turn]

theorem turn_used {x : Slot} {ok : Bool} (h : Used x) : Used (turn x ok) := by
  obtain ⟨state, name, phase, down, alive⟩ := x
  obtain ⟨h1, h2, h3, h4⟩ := h
  simp only at h1 h2 h3 h4
  rcases h1 with rfl | rfl | rfl <;> rcases h3 with rfl | rfl | rfl <;> cases ok <;> cases down <;> simp [turn, Used, h2, h4]

theorem turn_leaving {x : Slot} {ok : Bool} {n : Bytes} (h : Leaving x n) : Leaving (turn x ok) n := by
  obtain ⟨h1, h2, h3, h4, h5⟩ := h
  refine ⟨fun hc => h1 (turn_phase.2.mp hc).1, (turn_name x ok).1.trans h2, h3, fun hc => h4 (turn_phase.1.mp hc), (turn_name x ok).2.trans h5⟩

theorem modify_get {E : List Slot} {i : Nat} {f : Slot → Slot} (j : Nat) : (E.modify i f)[j]? = if i = j then E[j]?.map f else E[j]? := by
  rw [List.getElem?_modify]
  by_cases h : i = j
  · simp only [if_pos h]; rfl
  · simp only [if_neg h]; cases E[j]? <;> rfl

theorem mem_listed {S : Sys} {m : Bytes} : m ∈ listed S ↔ ∃ (j : Nat) (x : Slot), S.slots[j]? = some x ∧ x.state ≠ .off ∧ x.name = m := by
  unfold listed
  rw [List.mem_map]
  constructor
  · rintro ⟨x, hx, rfl⟩
    rw [List.mem_filter] at hx
    obtain ⟨j, hj, rfl⟩ := List.mem_iff_getElem.mp hx.1
    exact ⟨j, _, List.getElem?_eq_getElem hj, by simpa using hx.2, rfl⟩
  · rintro ⟨j, x, h1, h2, rfl⟩
    exact ⟨x, List.mem_filter.mpr ⟨List.mem_of_getElem? h1, by simpa using h2⟩, rfl⟩

theorem kept_proper {n : Bytes} (h : 0 ∉ n) : kept n = n := by
  unfold kept
  induction n with
  | nil => rfl
  | cons c n ih =>
    rw [List.mem_cons, not_or] at h
    rw [List.takeWhile_cons, if_pos (by rw [decide_eq_true_iff]; exact fun hc => h.1 hc.symm), ih h.2]

/-! ### The turn of a thread -/

theorem turn_off {x : Slot} {ok : Bool} {lock : Option (Bytes × Nat × Stage)} {j : Nat} (h : OkSlot lock j x) : (turn x ok).state = .off ↔ x.state = .off := by
  have hfree : Free x ∨ Used x → ((turn x ok).state = .off ↔ x.state = .off) := by
    rintro (h | h)
    · rw [turn_gone h.2.2.1]
    · exact ⟨fun hc => absurd hc (used_off (turn_used h)), fun hc => absurd hc (used_off h)⟩
  unfold OkSlot at h
  match lock, h with
  | none, h => exact hfree h
  | some (n, i, .join), h =>
    simp only at h
    split at h
    · exact ⟨fun hc => absurd hc (turn_leaving h).1, fun hc => absurd hc h.1⟩
    · exact hfree h
  | some (n, i, .clear), h =>
    simp only at h
    split at h
    · rw [turn_gone h.2.2.2.1]
    · exact hfree h

theorem turn_ok {x : Slot} {ok : Bool} {lock : Option (Bytes × Nat × Stage)} {j : Nat} (h : OkSlot lock j x) : OkSlot lock j (turn x ok) := by
  have hfree : Free x ∨ Used x → Free (turn x ok) ∨ Used (turn x ok) := by
    rintro (h | h)
    · left; rw [turn_gone h.2.2.1]; exact h
    · exact Or.inr (turn_used h)
  unfold OkSlot at h ⊢
  match lock, h with
  | none, h => exact hfree h
  | some (n, i, .join), h =>
    simp only at h ⊢
    split at h
    · next hi => rw [if_pos hi]; exact turn_leaving h
    · next hi => rw [if_neg hi]; exact hfree h
  | some (n, i, .clear), h =>
    simp only at h ⊢
    split at h
    · next hi => rw [if_pos hi, turn_gone h.2.2.2.1]; exact h
    · next hi => rw [if_neg hi]; exact hfree h

theorem turn_get {S : Sys} {i j : Nat} {ok : Bool} {x : Slot} (h : (step S (.turn i ok)).slots[j]? = some x) (hI : Inv S) :
    ∃ y, S.slots[j]? = some y ∧ (x = y ∨ x = turn y ok) ∧ x.name = y.name ∧ (x.state = .off ↔ y.state = .off) := by
  have h' : (S.slots.modify i fun x => turn x ok)[j]? = some x := h
  rw [modify_get] at h'
  by_cases hi : i = j
  · rw [if_pos hi] at h'
    cases hy : S.slots[j]? with
    | none => rw [hy] at h'; cases h'
    | some y =>
      rw [hy, Option.map_some] at h'
      have := Option.some.inj h'
      subst this
      exact ⟨y, rfl, Or.inr rfl, (turn_name y ok).1, turn_off (hI.slots j y hy)⟩
  · rw [if_neg hi] at h'
    exact ⟨x, h', Or.inl rfl, rfl, Iff.rfl⟩

theorem inv_turn {S : Sys} (hI : Inv S) (i : Nat) (ok : Bool) : Inv (step S (.turn i ok)) := by
  refine ⟨fun j x hx => ?_, fun j k x y hx hy h1 h2 h3 => ?_, fun n k g hl => ?_⟩
  · obtain ⟨y, hy, h, _⟩ := turn_get hx hI
    rcases h with rfl | rfl
    · exact hI.slots j _ hy
    · exact turn_ok (hI.slots j y hy)
  · obtain ⟨x', hx', _, n1, s1⟩ := turn_get hx hI
    obtain ⟨y', hy', _, n2, s2⟩ := turn_get hy hI
    exact hI.names j k x' y' hx' hy' (fun h => h1 (s1.mpr h)) (fun h => h2 (s2.mpr h)) (by rw [← n1, ← n2]; exact h3)
  · have : (S.slots.modify i fun x => turn x ok).length = S.slots.length := List.length_modify ..
    change k < (S.slots.modify i fun x => turn x ok).length
    rw [this]
    exact hI.lock n k g hl

/-! ### Additions -/

theorem add_cases {S : Sys} (hI : Inv S) (hl : S.lock = none) {n : Bytes} (hn : Proper n) : (add S n = S ∧ n ∈ listed S) ∨
    (n ∉ listed S ∧ ∃ i, (add S n).lock = none ∧ (i = S.slots.length ∨ ∃ x, S.slots[i]? = some x ∧ x.state = .off) ∧
      ∀ j, (add S n).slots[j]? = if j = i then some (fresh n) else S.slots[j]?) := by
  unfold add
  rw [if_neg (by have := hn.2.2; omega)]
  by_cases ha : (S.slots.any fun x => decide (x.state ≠ .off ∧ x.name = n)) = true
  · rw [if_pos ha]
    left
    refine ⟨rfl, ?_⟩
    rw [List.any_eq_true] at ha
    obtain ⟨x, hx, h⟩ := ha
    rw [decide_eq_true_iff] at h
    obtain ⟨j, hj, rfl⟩ := List.mem_iff_getElem.mp hx
    exact mem_listed.mpr ⟨j, _, List.getElem?_eq_getElem hj, h.1, h.2⟩
  · rw [if_neg ha]
    right
    refine ⟨fun hm => ha ?_, ?_⟩
    · obtain ⟨j, x, h1, h2, h3⟩ := mem_listed.mp hm
      rw [List.any_eq_true]
      exact ⟨x, List.mem_of_getElem? h1, by rw [decide_eq_true_iff]; exact ⟨h2, h3⟩⟩
    · cases hf : S.slots.findIdx? fun x => decide (x.state = .off) with
      | some i =>
        simp only
        obtain ⟨hi, hp, _⟩ := List.findIdx?_eq_some_iff_getElem.mp hf
        refine ⟨i, hl, Or.inr ⟨_, List.getElem?_eq_getElem hi, by simpa using hp⟩, fun j => ?_⟩
        rw [List.getElem?_set]
        by_cases hj : j = i
        · subst hj; rw [if_pos rfl, if_pos rfl, if_pos hi]
        · rw [if_neg (fun h => hj h.symm), if_neg hj]
      | none =>
        simp only
        refine ⟨S.slots.length, hl, Or.inl rfl, fun j => ?_⟩
        by_cases hj : j = S.slots.length
        · subst hj; rw [if_pos rfl, List.getElem?_append_right (Nat.le_refl _), Nat.sub_self]; rfl
        · rw [if_neg hj]
          by_cases hlt : j < S.slots.length
          · rw [List.getElem?_append_left hlt]
          · rw [List.getElem?_eq_none (by rw [List.length_append, List.length_singleton]; omega), List.getElem?_eq_none (by omega)]

theorem inv_add {S : Sys} (hI : Inv S) (hl : S.lock = none) {n : Bytes} (hn : Proper n) : Inv (add S n) := by
  rcases add_cases hI hl hn with ⟨h, _⟩ | ⟨hm, i, h1, h2, h3⟩
  · rw [h]; exact hI
  · have hk := kept_proper hn.2.1
    have hold : ∀ j x, j ≠ i → (add S n).slots[j]? = some x → S.slots[j]? = some x := by
      intro j x hj hx
      rw [h3, if_neg hj] at hx
      exact hx
    have hnew : ∀ x, (add S n).slots[i]? = some x → x = fresh n := by
      intro x hx
      rw [h3, if_pos rfl] at hx
      exact (Option.some.inj hx).symm
    refine ⟨fun j x hx => ?_, fun j k x y hx hy s1 s2 he => ?_, fun m k g h => by rw [h1] at h; cases h⟩
    · rw [h1]
      by_cases hj : j = i
      · subst hj
        rw [hnew x hx]
        right
        refine ⟨Or.inl rfl, ?_, Or.inl rfl, rfl⟩
        change kept n ≠ []
        rw [hk]
        exact hn.1
      · have := hI.slots j x (hold j x hj hx)
        rw [hl] at this
        exact this
    · by_cases hj : j = i <;> by_cases hk' : k = i
      · rw [hj, hk']
      · exfalso
        subst hj
        rw [hnew x hx] at he
        exact hm (mem_listed.mpr ⟨k, y, hold k y hk' hy, s2, by rw [← he]; exact hk⟩)
      · exfalso
        subst hk'
        rw [hnew y hy] at he
        exact hm (mem_listed.mpr ⟨j, x, hold j x hj hx, s1, by rw [he]; exact hk⟩)
      · exact hI.names j k x y (hold j x hj hx) (hold k y hk' hy) s1 s2 he

/-! ### Removals -/

/-- The invariant but for the lock: all slots are free or used. -/
structure Quiet (S : Sys) : Prop where
  slots : ∀ (j : Nat) x, S.slots[j]? = some x → Free x ∨ Used x
  names : ∀ (j k : Nat) x y, S.slots[j]? = some x → S.slots[k]? = some y → x.state ≠ .off → y.state ≠ .off → x.name = y.name → j = k

theorem seek_cases {S : Sys} (n : Bytes) (i : Nat) : (∃ k x, i ≤ k ∧ S.slots[k]? = some x ∧ x.state ≠ .off ∧ x.name = n ∧ n ≠ [] ∧
      seek S n i = { slots := S.slots.modify k fun x => { x with state := .godown }, lock := some (n, k, .join) }) ∨
    ((∀ (k : Nat) x, i ≤ k → S.slots[k]? = some x → x.state ≠ .off → x.name = n → n = []) ∧ seek S n i = { S with lock := none }) := by
  unfold seek
  cases hf : (S.slots.drop i).findIdx? fun x => decide (x.state ≠ .off ∧ x.name = n ∧ x.name ≠ []) with
  | some k =>
    left
    obtain ⟨hk, hp, _⟩ := List.findIdx?_eq_some_iff_getElem.mp hf
    rw [decide_eq_true_iff, List.getElem_drop] at hp
    rw [List.length_drop] at hk
    exact ⟨i + k, S.slots[i + k], by omega, List.getElem?_eq_getElem (by omega), hp.1, hp.2.1, by rw [← hp.2.1]; exact hp.2.2, rfl⟩
  | none =>
    right
    rw [List.findIdx?_eq_none_iff] at hf
    refine ⟨fun k x hk hx h1 h2 => ?_, rfl⟩
    have hm : x ∈ S.slots.drop i := by
      apply List.mem_of_getElem? (i := k - i)
      rw [List.getElem?_drop, show i + (k - i) = k by omega]
      exact hx
    have := hf x hm
    rw [decide_eq_false_iff_not] at this
    by_cases hn : n = []
    · exact hn
    · exact absurd ⟨h1, h2, by rw [h2]; exact hn⟩ this

theorem inv_seek {S : Sys} (hQ : Quiet S) (n : Bytes) (i : Nat) : Inv (seek S n i) := by
  rcases seek_cases (S := S) n i with ⟨k, x, hk, hx, h1, h2, h3, he⟩ | ⟨_, he⟩
  · rw [he]
    have hget : ∀ j y, (S.slots.modify k fun x => { x with state := .godown })[j]? = some y →
        ∃ z, S.slots[j]? = some z ∧ y.name = z.name ∧ (y.state ≠ .off → z.state ≠ .off) ∧ (j ≠ k → y = z) ∧ (j = k → y = { z with state := .godown }) := by
      intro j y hy
      rw [modify_get] at hy
      by_cases hj : k = j
      · subst hj
        rw [if_pos rfl, hx, Option.map_some] at hy
        have := (Option.some.inj hy).symm
        exact ⟨x, hx, by rw [this], fun _ => h1, fun h => absurd rfl h, fun _ => this⟩
      · rw [if_neg hj] at hy
        exact ⟨y, hy, rfl, id, fun _ => rfl, fun h => absurd h.symm hj⟩
    refine ⟨fun j y hy => ?_, fun j k' y y' hy hy' s1 s2 hn => ?_, fun m k' g hl => ?_⟩
    · obtain ⟨z, hz, g1, g2, g3, g4⟩ := hget j y hy
      change if j = k then Leaving y n else Free y ∨ Used y
      by_cases hj : j = k
      · rw [if_pos hj, g4 hj]
        subst hj
        rw [hx] at hz
        obtain rfl := Option.some.inj hz
        refine ⟨by simp, h2, h3, ?_, ?_⟩
        · rcases hQ.slots j x hx with hf | hu
          · exact absurd hf.1 h1
          · rcases hu.2.2.1 with h | h | h <;> (simp only; rw [h]; decide)
        · rcases hQ.slots j x hx with hf | hu
          · exact absurd hf.1 h1
          · exact hu.2.2.2
      · rw [if_neg hj, g3 hj]
        exact hQ.slots j z hz
    · obtain ⟨z, hz, g1, g2, _⟩ := hget j y hy
      obtain ⟨z', hz', g1', g2', _⟩ := hget k' y' hy'
      exact hQ.names j k' z z' hz hz' (g2 s1) (g2' s2) (by rw [← g1, ← g1']; exact hn)
    · have := Option.some.inj hl
      have hk' : k = k' := by
        have h := congrArg (fun p : Bytes × Nat × Stage => p.2.1) this
        exact h
      subst hk'
      change k < (S.slots.modify k _).length
      rw [List.length_modify]
      exact (List.getElem?_eq_some_iff.mp hx).1
  · rw [he]
    exact ⟨hQ.slots, hQ.names, fun m k g h => by cases h⟩

theorem quiet_of_inv {S : Sys} (hI : Inv S) (hl : S.lock = none) : Quiet S := by
  refine ⟨fun j x hx => ?_, hI.names⟩
  have := hI.slots j x hx
  rw [hl] at this
  exact this

/-- The state after the slot is cleared. -/
def cleared (S : Sys) (i : Nat) : Sys := { S with slots := S.slots.modify i fun x => { x with name := [], state := .off } }

theorem cleared_get {S : Sys} {i j : Nat} {y : Slot} (h : (cleared S i).slots[j]? = some y) :
    ∃ z, S.slots[j]? = some z ∧ (j ≠ i → y = z) ∧ (j = i → y = { z with name := [], state := .off }) := by
  have h' : (S.slots.modify i fun x => { x with name := [], state := .off })[j]? = some y := h
  rw [modify_get] at h'
  by_cases hj : i = j
  · rw [if_pos hj] at h'
    cases hz : S.slots[j]? with
    | none => rw [hz] at h'; cases h'
    | some z =>
      rw [hz, Option.map_some] at h'
      exact ⟨z, rfl, fun h => absurd hj.symm h, fun _ => (Option.some.inj h').symm⟩
  · rw [if_neg hj] at h'
    exact ⟨y, h', fun _ => rfl, fun h => absurd h.symm hj⟩

theorem quiet_cleared {S : Sys} (hI : Inv S) {n : Bytes} {i : Nat} (hl : S.lock = some (n, i, .clear)) : Quiet (cleared S i) := by
  refine ⟨fun j y hy => ?_, fun j k x y hx hy s1 s2 hn => ?_⟩
  · obtain ⟨z, hz, h1, h2⟩ := cleared_get hy
    have hs := hI.slots j z hz
    rw [hl] at hs
    change if j = i then Left z n else Free z ∨ Used z at hs
    by_cases hj : j = i
    · rw [if_pos hj] at hs
      rw [h2 hj]
      exact Or.inl ⟨rfl, rfl, hs.2.2.2.1, hs.2.2.2.2⟩
    · rw [if_neg hj] at hs
      rw [h1 hj]
      exact hs
  · obtain ⟨x', hx', h1, h2⟩ := cleared_get hx
    obtain ⟨y', hy', g1, g2⟩ := cleared_get hy
    have hj : j ≠ i := fun h => s1 (by rw [h2 h])
    have hk : k ≠ i := fun h => s2 (by rw [g2 h])
    rw [h1 hj] at s1 hn
    rw [g1 hk] at s2 hn
    exact hI.names j k x' y' hx' hy' s1 s2 hn

theorem inv_step {S : Sys} (hI : Inv S) (a : Act) (ha : match a with | .add n => Proper n | .del n => Proper n | _ => True) : Inv (step S a) := by
  cases a with
  | turn i ok => exact inv_turn hI i ok
  | add n =>
    simp only [step]
    cases hl : S.lock with
    | some l => exact hI
    | none => exact inv_add hI hl ha
  | del n =>
    simp only [step]
    cases hl : S.lock with
    | some l => exact hI
    | none => exact inv_seek (quiet_of_inv hI hl) n 0
  | remover =>
    simp only [step]
    cases hl : S.lock with
    | none => exact hI
    | some l =>
      obtain ⟨n, i, g⟩ := l
      cases g with
      | clear => exact inv_seek (S := cleared S i) (quiet_cleared hI hl) n (i + 1)
      | join =>
        simp only
        cases hx : S.slots[i]? with
        | none => exact hI
        | some x =>
          simp only
          by_cases hd : x.phase = .done
          · rw [if_pos hd]
            have hi : i < S.slots.length := (List.getElem?_eq_some_iff.mp hx).1
            have hlx := hI.slots i x hx
            rw [hl] at hlx
            change if i = i then Leaving x n else _ at hlx
            rw [if_pos rfl] at hlx
            have hget : ∀ j y, (S.slots.set i { x with phase := .gone, alive := false })[j]? = some y →
                ∃ z, S.slots[j]? = some z ∧ y.name = z.name ∧ y.state = z.state ∧ (j ≠ i → y = z) ∧ (j = i → y = { x with phase := .gone, alive := false }) := by
              intro j y hy
              rw [List.getElem?_set] at hy
              by_cases hj : i = j
              · subst hj
                rw [if_pos rfl, if_pos hi] at hy
                have := (Option.some.inj hy).symm
                exact ⟨x, hx, by rw [this], by rw [this], fun h => absurd rfl h, fun _ => this⟩
              · rw [if_neg hj] at hy
                exact ⟨y, hy, rfl, rfl, fun _ => rfl, fun h => absurd h.symm hj⟩
            refine ⟨fun j y hy => ?_, fun j k y y' hy hy' s1 s2 hn => ?_, fun m k g h => ?_⟩
            · obtain ⟨z, hz, _, _, g3, g4⟩ := hget j y hy
              change if j = i then Left y n else Free y ∨ Used y
              by_cases hj : j = i
              · rw [if_pos hj, g4 hj]
                exact ⟨hlx.1, hlx.2.1, hlx.2.2.1, rfl, rfl⟩
              · rw [if_neg hj, g3 hj]
                have := hI.slots j z hz
                rw [hl] at this
                change if j = i then Leaving z n else Free z ∨ Used z at this
                rw [if_neg hj] at this
                exact this
            · obtain ⟨z, hz, g1, g2, _⟩ := hget j y hy
              obtain ⟨z', hz', g1', g2', _⟩ := hget k y' hy'
              exact hI.names j k z z' hz hz' (by rw [← g2]; exact s1) (by rw [← g2']; exact s2) (by rw [← g1, ← g1']; exact hn)
            · have h' := congrArg (fun p : Bytes × Nat × Stage => p.2.1) (Option.some.inj h)
              have h'' : i = k := h'
              subst h''
              change i < (S.slots.set i _).length
              rw [List.length_set]
              exact hi
          · rw [if_neg hd]; exact hI

theorem inv_run {S : Sys} (hI : Inv S) (l : List Act) (hl : Good l) : Inv (run S l) := by
  induction l generalizing S with
  | nil => exact hI
  | cons a l ih => exact ih (inv_step hI a (hl a List.mem_cons_self)) fun b hb => hl b (List.mem_cons_of_mem _ hb)

theorem inv_reach {S : Sys} (h : Reach S) : Inv S := by
  obtain ⟨l, hl, rfl⟩ := h
  exact inv_run ⟨(fun j x hx => by simp at hx), (fun j k x y hx => by simp at hx), (fun n i g h => by cases h)⟩ l hl

/-! ## C96 -/

/-- **C96** (every server once). However requests and polls are interleaved, no server is in the list twice. -/
theorem C96_once (S : Sys) (h : Reach S) : (listed S).Nodup := by
  have hI := inv_reach h
  unfold listed List.Nodup
  rw [List.pairwise_map, List.pairwise_filter, List.pairwise_iff_getElem]
  intro i j hi hj hij h1 h2 hn
  have := hI.names i j _ _ (List.getElem?_eq_getElem hi) (List.getElem?_eq_getElem hj) (by simpa using h1) (by simpa using h2) hn
  omega

/-- **C96** (additions). If no removal is under way, an added server is in the list at once; nothing else changes in the list. -/
theorem C96_add (S : Sys) (h : Reach S) (n : Bytes) (hn : Proper n) (hl : S.lock = none) (m : Bytes) :
    m ∈ listed (step S (.add n)) ↔ m = n ∨ m ∈ listed S := by
  have hI := inv_reach h
  have hs : step S (.add n) = add S n := by simp only [step, hl]
  rw [hs]
  rcases add_cases hI hl hn with ⟨he, hm⟩ | ⟨hm, i, h1, h2, h3⟩
  · rw [he]
    exact ⟨Or.inr, fun hx => hx.elim (fun e => by rw [e]; exact hm) id⟩
  · have hk := kept_proper hn.2.1
    rw [mem_listed, mem_listed]
    constructor
    · rintro ⟨j, x, hx, g1, g2⟩
      rw [h3] at hx
      by_cases hj : j = i
      · rw [if_pos hj] at hx
        rw [← Option.some.inj hx] at g2
        exact Or.inl (by rw [← g2]; exact hk)
      · rw [if_neg hj] at hx
        exact Or.inr ⟨j, x, hx, g1, g2⟩
    · rintro (rfl | ⟨j, x, hx, g1, g2⟩)
      · exact ⟨i, fresh m, by rw [h3, if_pos rfl], (by decide : State.boot ≠ .off), hk⟩
      · refine ⟨j, x, ?_, g1, g2⟩
        rw [h3]
        by_cases hj : j = i
        · exfalso
          subst hj
          rcases h2 with h2 | ⟨y, hy, hyo⟩
          · rw [h2, List.getElem?_eq_none (Nat.le_refl _)] at hx; cases hx
          · rw [hx] at hy
            exact g1 (by rw [Option.some.inj hy]; exact hyo)
        · rw [if_neg hj]; exact hx

/-- **C96** (the list changes only by requests). Turns of the threads that poll, and the start of a removal, do not change the list. A removal changes it only in
that the server is not in it any more. -/
theorem C96_list (S : Sys) (h : Reach S) (m : Bytes) :
    (∀ i ok, m ∈ listed (step S (.turn i ok)) ↔ m ∈ listed S) ∧ (∀ n, m ∈ listed (step S (.del n)) ↔ m ∈ listed S) ∧
    ((m ∈ listed (step S .remover) ↔ m ∈ listed S) ∨ ∃ n i, S.lock = some (n, i, .clear) ∧ (m ∈ listed (step S .remover) ↔ m ≠ n ∧ m ∈ listed S)) := by
  have hI := inv_reach h
  have hseek : ∀ (T : Sys) n i, m ∈ listed (seek T n i) ↔ m ∈ listed T := by
    intro T n i
    rcases seek_cases (S := T) n i with ⟨k, x, hk, hx, h1, h2, h3, he⟩ | ⟨_, he⟩
    · rw [he, mem_listed, mem_listed]
      constructor
      · rintro ⟨j, y, hy, g1, g2⟩
        simp only at hy
        rw [modify_get] at hy
        by_cases hj : k = j
        · subst hj
          rw [if_pos rfl, hx, Option.map_some] at hy
          rw [← Option.some.inj hy] at g2
          exact ⟨k, x, hx, h1, g2⟩
        · rw [if_neg hj] at hy; exact ⟨j, y, hy, g1, g2⟩
      · rintro ⟨j, y, hy, g1, g2⟩
        simp only
        by_cases hj : k = j
        · subst hj
          refine ⟨k, { y with state := .godown }, ?_, (fun hc => by cases hc), g2⟩
          rw [modify_get, if_pos rfl, hy, Option.map_some]
        · exact ⟨j, y, by rw [modify_get, if_neg hj]; exact hy, g1, g2⟩
    · rw [he]
      exact Iff.rfl
  refine ⟨fun i ok => ?_, fun n => ?_, ?_⟩
  · rw [mem_listed, mem_listed]
    constructor
    · rintro ⟨j, x, hx, g1, g2⟩
      obtain ⟨y, hy, _, n1, s1⟩ := turn_get hx hI
      exact ⟨j, y, hy, fun hc => g1 (s1.mpr hc), by rw [← n1]; exact g2⟩
    · rintro ⟨j, y, hy, g1, g2⟩
      by_cases hj : i = j
      · refine ⟨j, turn y ok, ?_, fun hc => g1 ((turn_off (hI.slots j y hy)).mp hc), by rw [(turn_name y ok).1]; exact g2⟩
        change (S.slots.modify i fun x => turn x ok)[j]? = _
        rw [modify_get, if_pos hj, hy, Option.map_some]
      · refine ⟨j, y, ?_, g1, g2⟩
        change (S.slots.modify i fun x => turn x ok)[j]? = _
        rw [modify_get, if_neg hj, hy]
  · simp only [step]
    cases hl : S.lock with
    | some l => exact Iff.rfl
    | none => exact hseek S n 0
  · simp only [step]
    cases hl : S.lock with
    | none => exact Or.inl Iff.rfl
    | some l =>
      obtain ⟨n, i, g⟩ := l
      cases g with
      | join =>
        left
        simp only
        cases hx : S.slots[i]? with
        | none => exact Iff.rfl
        | some x =>
          simp only
          by_cases hd : x.phase = .done
          · rw [if_pos hd, mem_listed, mem_listed]
            have hi : i < S.slots.length := (List.getElem?_eq_some_iff.mp hx).1
            constructor
            · rintro ⟨j, y, hy, g1, g2⟩
              simp only at hy
              rw [List.getElem?_set] at hy
              by_cases hj : i = j
              · subst hj
                rw [if_pos rfl, if_pos hi] at hy
                rw [← Option.some.inj hy] at g1 g2
                exact ⟨i, x, hx, g1, g2⟩
              · rw [if_neg hj] at hy; exact ⟨j, y, hy, g1, g2⟩
            · rintro ⟨j, y, hy, g1, g2⟩
              simp only
              by_cases hj : i = j
              · subst hj
                rw [hx] at hy
                obtain rfl := Option.some.inj hy
                exact ⟨i, { x with phase := .gone, alive := false }, by rw [List.getElem?_set, if_pos rfl, if_pos hi], g1, g2⟩
              · exact ⟨j, y, by rw [List.getElem?_set, if_neg hj]; exact hy, g1, g2⟩
          · rw [if_neg hd]
      | clear =>
        right
        refine ⟨n, i, rfl, ?_⟩
        simp only
        rw [show ({ slots := S.slots.modify i fun x => { x with name := [], state := .off }, lock := some (n, i, .clear) } : Sys) = cleared S i by unfold cleared; rw [hl]]
        rw [hseek, mem_listed, mem_listed]
        have hin := hI.lock n i .clear hl
        have hix := hI.slots i _ (List.getElem?_eq_getElem hin)
        rw [hl] at hix
        change if i = i then Left _ n else _ at hix
        rw [if_pos rfl] at hix
        constructor
        · rintro ⟨j, y, hy, g1, g2⟩
          obtain ⟨z, hz, q1, q2⟩ := cleared_get hy
          have hj : j ≠ i := fun hc => g1 (by rw [q2 hc])
          rw [q1 hj] at g1 g2
          refine ⟨fun hmn => hj ?_, j, z, hz, g1, g2⟩
          exact hI.names j i z _ hz (List.getElem?_eq_getElem hin) g1 hix.1 (by rw [g2, hmn, hix.2.1])
        · rintro ⟨hmn, j, y, hy, g1, g2⟩
          have hj : i ≠ j := by
            rintro rfl
            rw [List.getElem?_eq_getElem hin] at hy
            rw [← Option.some.inj hy, hix.2.1] at g2
            exact hmn g2.symm
          refine ⟨j, y, ?_, g1, g2⟩
          change (S.slots.modify i _)[j]? = _
          rw [modify_get, if_neg hj]
          exact hy

/-- **C96** (servers in the list are polled). The thread of every server in the list, but for one that is being removed, goes on to poll it. -/
theorem C96_polled (S : Sys) (h : Reach S) (m : Bytes) (hm : m ∈ listed S) :
    (∃ (j : Nat) (x : Slot), S.slots[j]? = some x ∧ x.name = m ∧ Polled x) ∨ ∃ i g, S.lock = some (m, i, g) := by
  have hI := inv_reach h
  obtain ⟨j, x, hx, h1, h2⟩ := mem_listed.mp hm
  have hs := hI.slots j x hx
  have hused : Free x ∨ Used x → Polled x := by
    rintro (hf | hu)
    · exact absurd hf.1 h1
    · refine ⟨hu.2.2.1, ?_, ?_⟩ <;> (rcases hu.1 with h | h | h <;> rw [h] <;> decide)
  unfold OkSlot at hs
  match hl : S.lock, hs with
  | none, hs => exact Or.inl ⟨j, x, hx, h2, hused hs⟩
  | some (n, i, .join), hs =>
    simp only at hs
    split at hs
    · exact Or.inr ⟨i, .join, by rw [← h2, hs.2.1]⟩
    · exact Or.inl ⟨j, x, hx, h2, hused hs⟩
  | some (n, i, .clear), hs =>
    simp only at hs
    split at hs
    · exact Or.inr ⟨i, .clear, by rw [← h2, hs.2.1]⟩
    · exact Or.inl ⟨j, x, hx, h2, hused hs⟩

/-- **C96** (partly: requests use details that exist). Requests that go over the list while no removal clears a slot use only details that exist. Missing: requests
between the deletion of the details and the clearing of the slot (`C96_deleted_fails`). -/
theorem C96_details_partial (S : Sys) (h : Reach S) (hl : ∀ n i, S.lock ≠ some (n, i, .clear)) : readable S = true := by
  have hI := inv_reach h
  unfold readable
  rw [List.all_eq_true]
  intro x hx
  obtain ⟨j, hj, rfl⟩ := List.mem_iff_getElem.mp hx
  have hs := hI.slots j _ (List.getElem?_eq_getElem hj)
  have hok : Free S.slots[j] ∨ Used S.slots[j] → (decide (S.slots[j].state = .off) || S.slots[j].alive) = true := by
    rintro (hf | hu)
    · rw [decide_eq_true hf.1]; rfl
    · rw [hu.2.2.2, Bool.or_true]
  unfold OkSlot at hs
  match hl' : S.lock, hs with
  | none, hs => exact hok hs
  | some (n, i, .join), hs =>
    simp only at hs
    split at hs
    · rw [hs.2.2.2.2, Bool.or_true]
    · exact hok hs
  | some (n, i, .clear), hs => exact absurd hl' (hl n i)

/-! ### Removals end -/

/-- How far the removal of `n` in slot `i` is. -/
def Far (S : Sys) (n : Bytes) (i : Nat) : Nat → Prop
  | 3 => S.lock = some (n, i, .join) ∧ ∃ x, S.slots[i]? = some x ∧ x.state = .godown ∧ x.phase = .poll ∧ x.down = false
  | 2 => S.lock = some (n, i, .join) ∧ ∃ x, S.slots[i]? = some x ∧ x.state = .godown ∧ x.phase = .wait
  | 1 => S.lock = some (n, i, .join) ∧ ∃ x, S.slots[i]? = some x ∧ x.phase = .done
  | 0 => S.lock = some (n, i, .clear)
  | _ => False

/-- What it still needs. -/
def need (i : Nat) : Nat → List Act
  | 3 => [.turn i true, .turn i true, .remover, .remover]
  | 2 => [.turn i true, .remover, .remover]
  | 1 => [.remover, .remover]
  | _ => [.remover]

theorem sub_tail {a b : Act} {l m : List Act} (h : (a :: l).Sublist (b :: m)) : l.Sublist m := by
  cases h with
  | cons _ h => exact (List.sublist_cons_self a l).trans h
  | cons_cons _ h => exact h

theorem sub_ne {a b : Act} {l m : List Act} (h : (a :: l).Sublist (b :: m)) (hne : a ≠ b) : (a :: l).Sublist m := by
  cases h with
  | cons _ h => exact h
  | cons_cons _ h => exact absurd rfl hne

theorem turn_at {S : Sys} {i j : Nat} {ok : Bool} : (step S (.turn i ok)).slots[j]? = if i = j then S.slots[j]?.map (fun x => turn x ok) else S.slots[j]? := modify_get j

theorem far_wait {S : Sys} {n : Bytes} {i k : Nat} (h : Far S n i k) (a : Act) (ha : ∀ ok, a ≠ .turn i ok) (hr : a = .remover → k ≠ 1 ∧ k ≠ 0) :
    Far (step S a) n i k := by
  have hlock : ∃ g, S.lock = some (n, i, g) := by
    match k, h with
    | 3, h => exact ⟨_, h.1⟩
    | 2, h => exact ⟨_, h.1⟩
    | 1, h => exact ⟨_, h.1⟩
    | 0, h => exact ⟨_, h⟩
  obtain ⟨g, hg⟩ := hlock
  cases a with
  | add m => simp only [step, hg]; exact h
  | del m => simp only [step, hg]; exact h
  | turn j ok =>
    have hj : j ≠ i := fun hc => ha ok (by rw [hc])
    have hsl : (step S (.turn j ok)).slots[i]? = S.slots[i]? := by rw [turn_at, if_neg hj]
    match k, h with
    | 3, h => exact ⟨h.1, by rw [hsl]; exact h.2⟩
    | 2, h => exact ⟨h.1, by rw [hsl]; exact h.2⟩
    | 1, h => exact ⟨h.1, by rw [hsl]; exact h.2⟩
    | 0, h => exact h
  | remover =>
    obtain ⟨r1, r2⟩ := hr rfl
    match k, h with
    | 3, h =>
      obtain ⟨h1, x, h2, h3, h4, h5⟩ := h
      simp only [step, h1, h2]
      rw [if_neg (by rw [h4]; decide)]
      exact ⟨h1, x, h2, h3, h4, h5⟩
    | 2, h =>
      obtain ⟨h1, x, h2, h3, h4⟩ := h
      simp only [step, h1, h2]
      rw [if_neg (by rw [h4]; decide)]
      exact ⟨h1, x, h2, h3, h4⟩
    | 1, h => exact absurd rfl r1
    | 0, h => exact absurd rfl r2

theorem far_over {S : Sys} {n : Bytes} {i : Nat} (hI : Inv S) (h : Far S n i 0) : (step S .remover).lock = none ∧ n ∉ listed (step S .remover) := by
  have hl : S.lock = some (n, i, .clear) := h
  have hs : step S .remover = seek (cleared S i) n (i + 1) := by simp only [step, hl, cleared]
  have hin := hI.lock n i .clear hl
  have hix := hI.slots i _ (List.getElem?_eq_getElem hin)
  rw [hl] at hix
  change if i = i then Left _ n else _ at hix
  rw [if_pos rfl] at hix
  have hno : ∀ (k : Nat) x, (cleared S i).slots[k]? = some x → x.state ≠ .off → x.name ≠ n := by
    intro k x hx h1 h2
    obtain ⟨z, hz, q1, q2⟩ := cleared_get hx
    have hk : k ≠ i := fun hc => h1 (by rw [q2 hc])
    rw [q1 hk] at h1 h2
    exact hk (hI.names k i z _ hz (List.getElem?_eq_getElem hin) h1 hix.1 (by rw [h2, hix.2.1]))
  rw [hs]
  rcases seek_cases (S := cleared S i) n (i + 1) with ⟨k, x, _, hx, h1, h2, _⟩ | ⟨_, he⟩
  · exact absurd h2 (hno k x hx h1)
  · rw [he]
    refine ⟨rfl, fun hm => ?_⟩
    obtain ⟨j, x, hx, h1, h2⟩ := mem_listed.mp hm
    exact hno j x hx h1 h2

theorem far_runs {n : Bytes} {i : Nat} (l : List Act) (hgood : Good l) (hok : ∀ ok, .turn i ok ∈ l → ok = true) (S : Sys) (hI : Inv S) (k : Nat) (h : Far S n i k)
    (hneed : (need i k).Sublist l) : ∃ p, p <+: l ∧ (run S p).lock = none ∧ n ∉ listed (run S p) := by
  induction l generalizing S k with
  | nil =>
    exfalso
    match k, h with
    | 3, _ => cases hneed
    | 2, _ => cases hneed
    | 1, _ => cases hneed
    | 0, _ => cases hneed
  | cons a l ih =>
    have hgood' : Good l := fun b hb => hgood b (List.mem_cons_of_mem _ hb)
    have hok' : ∀ ok, .turn i ok ∈ l → ok = true := fun ok ho => hok ok (List.mem_cons_of_mem _ ho)
    have hI' := inv_step hI a (hgood a List.mem_cons_self)
    have next : ∀ k', Far (step S a) n i k' → (need i k').Sublist l → ∃ p, p <+: a :: l ∧ (run S p).lock = none ∧ n ∉ listed (run S p) := by
      intro k' h1 h2
      obtain ⟨p, hp, hr⟩ := ih hgood' hok' (step S a) hI' k' h1 h2
      exact ⟨a :: p, by rw [List.cons_prefix_cons]; exact ⟨rfl, hp⟩, hr⟩
    by_cases hturn : a = .turn i true
    · subst hturn
      match k, h with
      | 3, h =>
        obtain ⟨h1, x, h2, h3, h4, h5⟩ := h
        refine next 2 ⟨h1, turn x true, by rw [turn_at, if_pos rfl, h2, Option.map_some], ?_, ?_⟩ (sub_tail hneed) <;> (unfold turn; rw [h4]; simp [h5, h3])
      | 2, h =>
        obtain ⟨h1, x, h2, h3, h4⟩ := h
        refine next 1 ⟨h1, turn x true, by rw [turn_at, if_pos rfl, h2, Option.map_some], ?_⟩ (sub_tail hneed)
        unfold turn; rw [h4]; simp [h3]
      | 1, h =>
        obtain ⟨h1, x, h2, h3⟩ := h
        refine next 1 ⟨h1, turn x true, by rw [turn_at, if_pos rfl, h2, Option.map_some], ?_⟩ (sub_ne hneed (by simp))
        unfold turn; rw [h3]; exact h3
      | 0, h => exact next 0 h (sub_ne hneed (by simp))
    · have hany : ∀ ok, a ≠ .turn i ok := by
        intro ok hc
        have := hok ok (by rw [← hc]; exact List.mem_cons_self)
        exact hturn (by rw [hc, this])
      by_cases hrem : a = .remover
      · subst hrem
        match k, h with
        | 3, h => exact next 3 (far_wait h _ hany fun _ => ⟨by decide, by decide⟩) (sub_ne hneed (by simp))
        | 2, h => exact next 2 (far_wait h _ hany fun _ => ⟨by decide, by decide⟩) (sub_ne hneed (by simp))
        | 1, h =>
          obtain ⟨h1, x, h2, h3⟩ := h
          refine next 0 ?_ (sub_tail hneed)
          change (step S .remover).lock = some (n, i, .clear)
          simp only [step, h1, h2]
          rw [if_pos h3]
        | 0, h => exact ⟨[.remover], by rw [List.cons_prefix_cons]; exact ⟨rfl, List.nil_prefix⟩, far_over hI h⟩
      · have hst := far_wait h a hany (fun hc => absurd hc hrem)
        have hn : (need i k).Sublist l := by
          match k, h with
          | 3, _ => exact sub_ne hneed (fun hc => hturn hc.symm)
          | 2, _ => exact sub_ne hneed (fun hc => hturn hc.symm)
          | 1, _ => exact sub_ne hneed (fun hc => hrem hc.symm)
          | 0, _ => exact sub_ne hneed (fun hc => hrem hc.symm)
        exact next k hst hn

/-- **C96** (partly: removals end). If the thread of a server is not in a poll when its removal begins, or in one that succeeds (as the one before it), then the server is removed and
the lock given back, however the threads are scheduled, as soon as the thread of the server and the one that removes it have had their turns. Missing: servers that are in their first
poll or whose poll fails (`C96_removal_fails`), and servers whose thread has not begun (`C96_early_fails`). -/
theorem C96_removal_partial (S : Sys) (h : Reach S) (n : Bytes) (hn : Proper n) (hl : S.lock = none) (i : Nat) (x : Slot) (hx : S.slots[i]? = some x) (hname : x.name = n)
    (hphase : x.phase = .wait ∨ x.phase = .poll ∧ x.down = false) (l : List Act) (hgood : Good l) (hok : ∀ ok, .turn i ok ∈ l → ok = true)
    (hsched : [.turn i true, .turn i true, .remover, .remover].Sublist l) :
    ∃ p, p <+: l ∧ (run (step S (.del n)) p).lock = none ∧ n ∉ listed (run (step S (.del n)) p) := by
  have hI := inv_reach h
  have hI' : Inv (step S (.del n)) := inv_step hI (.del n) hn
  have hs : step S (.del n) = seek S n 0 := by simp only [step, hl]
  have hxs := hI.slots i x hx
  rw [hl] at hxs
  have hu : Used x := by
    rcases hxs with hf | hu
    · exact absurd (by rw [← hname]; exact hf.2.1) hn.1
    · exact hu
  have hseek : step S (.del n) = { slots := S.slots.modify i fun x => { x with state := .godown }, lock := some (n, i, .join) } := by
    rw [hs]
    rcases seek_cases (S := S) n 0 with ⟨k, y, _, hy, h1, h2, _, he⟩ | ⟨hno, _⟩
    · have := hI.names k i y x hy hx h1 (used_off hu) (by rw [h2, hname])
      rw [← this, he]
    · exact absurd (hno i x (Nat.zero_le _) hx (used_off hu) hname) hn.1
  have hslot : (step S (.del n)).slots[i]? = some { x with state := .godown } := by
    rw [hseek]
    simp only
    rw [modify_get, if_pos rfl, hx, Option.map_some]
  have hlock : (step S (.del n)).lock = some (n, i, .join) := by rw [hseek]
  rcases hphase with hp | ⟨hp, hd⟩
  · exact far_runs l hgood hok _ hI' 2 ⟨hlock, _, hslot, rfl, hp⟩ ((List.sublist_cons_self _ _).trans hsched)
  · exact far_runs l hgood hok _ hI' 3 ⟨hlock, _, hslot, rfl, hp, hd⟩ hsched

/-! ### Cases and failures -/

private theorem proper_a : Proper [97] := ⟨by decide, by decide, by decide⟩

/-- A server is added, polled and removed. -/
example : listed (run {} [.add [97], .add [98], .turn 0 true, .turn 0 true, .turn 0 true, .del [97], .turn 0 true, .remover, .remover]) = [[98]] := by decide
example : Reach (run {} [.add [97], .add [98], .turn 0 true, .turn 0 true, .turn 0 true]) :=
  ⟨_, fun a ha => by
    simp only [List.mem_cons, List.not_mem_nil, or_false] at ha
    rcases ha with rfl | rfl | rfl | rfl | rfl
    · exact proper_a
    · exact ⟨by decide, by decide, by decide⟩
    all_goals trivial, rfl⟩

theorem stuck_run (S : Sys) (x : Slot) (hl : S.lock = some ([97], 0, .join)) (hx : S.slots = [x]) (hn : x.name = [97])
    (hs : x.state = .boot ∨ x.state = .error ∨ x.state = .online) (hp : x.phase = .poll ∨ x.phase = .wait) (l : List Act) :
    (run S l).lock = some ([97], 0, .join) ∧ listed (run S l) = [[97]] := by
  induction l generalizing S x with
  | nil =>
    refine ⟨hl, ?_⟩
    change listed S = _
    unfold listed
    rw [hx]
    rcases hs with h | h | h <;> simp [h, hn]
  | cons a l ih =>
    change (run (step S a) l).lock = _ ∧ _
    cases a with
    | add m =>
      have : step S (.add m) = S := by simp only [step, hl]
      rw [show run S (.add m :: l) = run (step S (.add m)) l from rfl, this]; exact ih S x hl hx hn hs hp
    | del m =>
      have : step S (.del m) = S := by simp only [step, hl]
      rw [show run S (.del m :: l) = run (step S (.del m)) l from rfl, this]; exact ih S x hl hx hn hs hp
    | remover =>
      have : step S .remover = S := by
        simp only [step, hl, hx]
        have : x.phase ≠ .done := by rcases hp with h | h <;> rw [h] <;> decide
        simp only [List.getElem?_cons_zero]
        rw [if_neg this]
      rw [show run S (.remover :: l) = run (step S .remover) l from rfl, this]; exact ih S x hl hx hn hs hp
    | turn i ok =>
      cases i with
      | succ i =>
        have : step S (.turn (i + 1) ok) = S := by
          simp only [step, hx]
          rw [show [x].modify (i + 1) (fun x => turn x ok) = [x] by
            rw [List.modify_succ_cons]; simp, ← hx]
        rw [show run S (.turn (i + 1) ok :: l) = run (step S (.turn (i + 1) ok)) l from rfl, this]; exact ih S x hl hx hn hs hp
      | zero =>
        refine ih (step S (.turn 0 ok)) (turn x ok) hl ?_ ?_ ?_ ?_
        · simp only [step, hx]
          rfl
        · rw [(turn_name x ok).1, hn]
        · obtain ⟨state, name, phase, down, alive⟩ := x
          simp only at hs hp
          rcases hs with rfl | rfl | rfl <;> rcases hp with rfl | rfl <;> cases ok <;> cases down <;> simp [turn]
        · obtain ⟨state, name, phase, down, alive⟩ := x
          simp only at hs hp
          rcases hs with rfl | rfl | rfl <;> rcases hp with rfl | rfl <;> cases ok <;> cases down <;> simp [turn]

/-- **C96** (fails: removal while a poll fails). If a server is removed while it is polled and the poll fails, the request to stop is lost: whatever happens then, the server stays in
the list, the request for the removal is never answered, and the lock is held, so that no server can be added or removed any more. -/
theorem C96_removal_fails : ∃ (S : Sys) (n : Bytes) (i : Nat), Reach S ∧ S.lock = none ∧ n ∈ listed S ∧
    ∀ l, (run (step (step S (.del n)) (.turn i false)) l).lock ≠ none ∧ listed (run (step (step S (.del n)) (.turn i false)) l) = listed S := by
  refine ⟨run {} [.add [97], .turn 0 true, .turn 0 true], [97], 0, ⟨_, fun a ha => ?_, rfl⟩, rfl, by decide, fun l => ?_⟩
  · simp only [List.mem_cons, List.not_mem_nil, or_false] at ha
    rcases ha with rfl | rfl | rfl
    · exact proper_a
    all_goals trivial
  · obtain ⟨h1, h2⟩ := stuck_run (step (step (run {} [.add [97], .turn 0 true, .turn 0 true]) (.del [97])) (.turn 0 false)) ⟨.error, [97], .wait, true, true⟩ (by decide) (by decide) rfl
      (Or.inr (Or.inl rfl)) (Or.inr rfl) l
    rw [h1, h2]
    exact ⟨(fun h => by cases h), by decide⟩

/-- **C96** (fails: removal right after addition). The same if a server is removed before its thread has begun. -/
theorem C96_early_fails : ∃ (n : Bytes), Proper n ∧
    ∀ l, (run (run {} [.add n, .del n, .turn 0 true]) l).lock ≠ none ∧ n ∈ listed (run (run {} [.add n, .del n, .turn 0 true]) l) := by
  refine ⟨[97], proper_a, fun l => ?_⟩
  obtain ⟨h1, h2⟩ := stuck_run (run {} [.add [97], .del [97], .turn 0 true]) ⟨.boot, [97], .wait, true, true⟩ (by decide) (by decide) rfl (Or.inl rfl) (Or.inr rfl) l
  rw [h1, h2]
  exact ⟨(fun h => by cases h), by decide⟩

/-- **C96** (fails: details that are deleted). A request for the number of viewers can use the details of a server after they are deleted. -/
theorem C96_deleted_fails : ∃ S, Reach S ∧ readable S = false := by
  refine ⟨run {} [.add [97], .turn 0 true, .del [97], .turn 0 true, .remover], ⟨_, fun a ha => ?_, rfl⟩, by decide⟩
  simp only [List.mem_cons, List.not_mem_nil, or_false] at ha
  rcases ha with rfl | rfl | rfl | rfl | rfl
  · exact proper_a
  · trivial
  · exact proper_a
  all_goals trivial

/-- Names of growing length. -/
private def name (k : Nat) : Bytes := List.replicate (k % 1000 + 1) (97 + UInt8.ofNat (k / 1000))

theorem adds_length (k : Nat) (hk : k ≤ 1001) : (run {} ((List.range k).map fun i => .add (name i))).slots.length = k ∧
    (run {} ((List.range k).map fun i => .add (name i))).lock = none ∧
    ∀ x ∈ (run {} ((List.range k).map fun i => .add (name i))).slots, x.state = .boot ∧ ∃ i, i < k ∧ x.name = name i := by
  induction k with
  | zero => exact ⟨rfl, rfl, fun x hx => by cases hx⟩
  | succ k ih =>
    obtain ⟨h1, h2, h3⟩ := ih (by omega)
    rw [List.range_succ, List.map_append]
    unfold run at *
    rw [List.foldl_append]
    generalize hS : List.foldl step {} ((List.range k).map fun i => Act.add (name i)) = S at *
    have hcount : ∀ i, name i = name k → i ≤ k → i = k := by
      intro i he hik
      have hlen := congrArg List.length he
      unfold name at hlen he
      rw [List.length_replicate, List.length_replicate] at hlen
      by_cases h0 : k < 1000
      · omega
      · have hk1 : k = 1000 := by omega
        subst hk1
        by_cases hi : i = 1000
        · exact hi
        · have hi0 : i = 0 := by omega
          subst hi0
          exact absurd he (by decide)
    have hkept : kept (name k) = name k := by
      apply kept_proper
      unfold name
      intro hm
      have := List.eq_of_mem_replicate hm
      by_cases h0 : k < 1000
      · rw [Nat.div_eq_of_lt h0] at this
        exact absurd this (by decide)
      · rw [show k = 1000 by omega] at this
        exact absurd this (by decide)
    have hstep : step S (.add (name k)) = { S with slots := S.slots ++ [fresh (name k)] } := by
      simp only [step, h2]
      unfold add
      rw [if_neg (by unfold name; rw [List.length_replicate]; omega), if_neg, show S.slots.findIdx? (fun x => decide (x.state = .off)) = none by
        rw [List.findIdx?_eq_none_iff]
        intro x hx
        rw [(h3 x hx).1]
        rfl]
      · rw [h2]
      intro hc
      rw [List.any_eq_true] at hc
      obtain ⟨x, hx, hp⟩ := hc
      rw [decide_eq_true_iff] at hp
      obtain ⟨_, i, hi, hxi⟩ := h3 x hx
      have := hcount i (by rw [← hxi]; exact hp.2) (by omega)
      omega
    change (step S (.add (name k))).slots.length = k + 1 ∧ (step S (.add (name k))).lock = none ∧ ∀ x ∈ (step S (.add (name k))).slots, _
    rw [hstep]
    refine ⟨by rw [List.length_append, List.length_singleton, h1], h2, fun x hx => ?_⟩
    rw [List.mem_append, List.mem_singleton] at hx
    rcases hx with hx | rfl
    · obtain ⟨g1, i, hi, g2⟩ := h3 x hx
      exact ⟨g1, i, by omega, g2⟩
    · exact ⟨rfl, k, by omega, hkept⟩

/-- **C96** (fails: more than a thousand servers). One can be added beyond the end of the array. -/
theorem C96_full_fails : ∃ S, Reach S ∧ maxHosts < S.slots.length := by
  refine ⟨_, ⟨(List.range 1001).map fun i => .add (name i), fun a ha => ?_, rfl⟩, by rw [(adds_length 1001 (Nat.le_refl _)).1]; decide⟩
  rw [List.mem_map] at ha
  obtain ⟨k, hk, rfl⟩ := ha
  rw [List.mem_range] at hk
  refine ⟨by unfold name; simp, ?_, by unfold name; rw [List.length_replicate]; omega⟩
  unfold name
  intro hm
  have := List.eq_of_mem_replicate hm
  by_cases h0 : k < 1000
  · rw [Nat.div_eq_of_lt h0] at this
    exact absurd this (by decide)
  · rw [show k = 1000 by omega] at this
    exact absurd this (by decide)

/-- **C96** (fails: names with a zero byte). A name that begins with a zero byte can be added twice, and is not removed by its removal. -/
theorem C96_zero_fails : ∃ n, n ≠ [] ∧ (listed (run {} [.add n, .add n])).length = 2 ∧ run {} [.add n, .del n] = run {} [.add n] := ⟨[0, 97], by decide, by decide, rfl⟩

end Verif.Servers
