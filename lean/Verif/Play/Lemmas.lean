import Verif.Play.Spec

/-!
# Looking up keys and pages in the tables of a track
-/
namespace Verif.Play
open Spec

/-! ## Lists of packets -/

theorem packets_append (A B : Pages) : packets (A ++ B) = packets A ++ packets B := by simp [packets]
theorem packets_cons (p : List (List Pkt)) (B : Pages) : packets (p :: B) = p.flatten ++ packets B := by simp [packets]
theorem packets_split (A : Pages) (p : List (List Pkt)) (B : Pages) : packets (A ++ p :: B) = packets A ++ (p.flatten ++ packets B) := by
  simp [packets]

theorem firstTime_cons (x : Pkt) (l : List Pkt) : firstTime (x :: l) = x.time := rfl
theorem lastTime_append_single (l : List Pkt) (x : Pkt) : lastTime (l ++ [x]) = x.time := by simp [lastTime]

theorem lastTime_append (l m : List Pkt) (h : m ≠ []) : lastTime (l ++ m) = lastTime m := by
  unfold lastTime
  rw [List.getLast?_append, List.getLast?_eq_some_getLast h]
  rfl

theorem firstTime_append (l m : List Pkt) (h : l ≠ []) : firstTime (l ++ m) = firstTime l := by
  cases l with
  | nil => exact absurd rfl h
  | cons x l => rfl

theorem firstTime_mem {l : List Pkt} (h : l ≠ []) : ∃ x ∈ l, x.time = firstTime l := by
  cases l with
  | nil => exact absurd rfl h
  | cons x l => exact ⟨x, List.mem_cons_self, rfl⟩

theorem lastTime_mem {l : List Pkt} (h : l ≠ []) : ∃ x ∈ l, x.time = lastTime l := by
  refine ⟨l.getLast h, List.getLast_mem h, ?_⟩
  simp [lastTime, List.getLast?_eq_some_getLast h]

/-- Times go forward. -/
abbrev Up (l : List Pkt) : Prop := l.Pairwise (fun a b => a.time < b.time)

theorem le_lastTime {l : List Pkt} (h : Up l) : ∀ x ∈ l, x.time ≤ lastTime l := by
  intro x hx
  rcases List.eq_nil_or_concat l with rfl | ⟨m, y, rfl⟩
  · cases hx
  · rw [List.concat_eq_append] at *
    rw [lastTime_append_single]
    rcases List.mem_append.1 hx with hx | hx
    · exact Nat.le_of_lt ((List.pairwise_append.1 h).2.2 x hx y (by simp))
    · rw [List.mem_singleton.1 hx]; exact Nat.le_refl _

theorem firstTime_le {l : List Pkt} (h : Up l) : ∀ x ∈ l, firstTime l ≤ x.time := by
  intro x hx
  cases l with
  | nil => cases hx
  | cons y l =>
    rw [firstTime_cons]
    rcases List.mem_cons.1 hx with rfl | hx
    · exact Nat.le_refl _
    · exact Nat.le_of_lt ((List.pairwise_cons.1 h).1 x hx)

theorem flatten_ne {p : List (List Pkt)} (hp : p ≠ []) (h : ∀ g ∈ p, g ≠ []) : p.flatten ≠ [] := by
  cases p with
  | nil => exact absurd rfl hp
  | cons g p =>
    have := h g (by simp)
    cases g with
    | nil => exact absurd rfl this
    | cons x g => simp

/-! ## The table of pages -/

theorem pageTable_append (n : Nat) (A B : Pages) : pageTable n (A ++ B) = pageTable n A ++ pageTable (n + A.flatten.length) B := by
  induction A generalizing n with
  | nil => simp [pageTable]
  | cons p A ih => simp only [List.cons_append, pageTable, ih, List.flatten_cons, List.length_append, Nat.add_assoc]

theorem pageTable_num (n : Nat) (A : Pages) (h : ∀ p ∈ A, p ≠ []) :
    ∀ r ∈ pageTable n A, n ≤ r.num ∧ 0 < r.count ∧ r.num + r.count ≤ n + A.flatten.length ∧ r.avail = true := by
  induction A generalizing n with
  | nil => intro r hr; cases hr
  | cons p A ih =>
    intro r hr
    have hp : 0 < p.length := List.length_pos_iff.2 (h p (by simp))
    simp only [pageTable, List.mem_cons] at hr
    rw [List.flatten_cons, List.length_append]
    rcases hr with rfl | hr
    · exact ⟨Nat.le_refl _, hp, by simp, rfl⟩
    · have := ih (n + p.length) (fun q hq => h q (by simp [hq])) r hr
      refine ⟨?_, this.2.1, ?_, this.2.2.2⟩ <;> omega

theorem pageTable_time (n : Nat) (A : Pages) (h : ∀ p ∈ A, p ≠ []) (hk : ∀ g ∈ A.flatten, g ≠ []) :
    ∀ r ∈ pageTable n A, ∃ x ∈ packets A, r.firstTime = x.time := by
  induction A generalizing n with
  | nil => intro r hr; cases hr
  | cons p A ih =>
    intro r hr
    simp only [pageTable, List.mem_cons] at hr
    rw [packets_cons]
    rcases hr with rfl | hr
    · obtain ⟨x, hx, hx2⟩ := firstTime_mem (flatten_ne (h p (by simp)) (fun g hg => hk g (by simp [hg])))
      exact ⟨x, List.mem_append_left _ hx, hx2.symm⟩
    · obtain ⟨x, hx, hx2⟩ := ih (n + p.length) (fun q hq => h q (by simp [hq])) (fun g hg => hk g (by rw [List.flatten_cons]; exact List.mem_append_right _ hg)) r hr
      exact ⟨x, List.mem_append_right _ hx, hx2⟩

/-- The record of page `p` after pages `A`. -/
def recd (n : Nat) (A : Pages) (p : List (List Pkt)) : Page := ⟨n + A.flatten.length, p.length, firstTime p.flatten, true, p.flatten⟩

theorem pageTable_split (n : Nat) (A : Pages) (p : List (List Pkt)) (B : Pages) :
    pageTable n (A ++ p :: B) = pageTable n A ++ recd n A p :: pageTable (n + (A ++ [p]).flatten.length) B := by
  rw [pageTable_append]
  simp only [pageTable, recd, List.flatten_append, List.flatten_cons, List.flatten_nil, List.append_nil, List.length_append, Nat.add_assoc]

theorem timeLoop_skip (T : Nat) (X Y : List Page) (res : Nat) (h : ∀ r ∈ X, r.avail = true ∧ r.firstTime ≤ T) (r : Page) (ha : r.avail = true) (ht : r.firstTime ≤ T) :
    timeLoop T (X ++ r :: Y) res = timeLoop T Y r.num := by
  induction X generalizing res with
  | nil =>
    simp only [List.nil_append, timeLoop, ha]
    rw [if_neg (by simp), if_neg (by omega)]
  | cons x X ih =>
    have hx := h x (by simp)
    simp only [List.cons_append, timeLoop, hx.1]
    rw [if_neg (by simp), if_neg (by omega)]
    exact ih _ (fun r hr => h r (by simp [hr]))

theorem keyLoop_skip (k : Nat) (X Y : List Page) (res : Nat) (h : ∀ r ∈ X, r.avail = true ∧ r.num ≤ k) (r : Page) (ha : r.avail = true) (ht : r.num ≤ k)
    (hY : ∀ y ∈ Y, y.avail = true ∧ k < y.num) :
    keyLoop k (X ++ r :: Y) res = r.num := by
  induction X generalizing res with
  | nil =>
    simp only [List.nil_append, keyLoop, ha]
    rw [if_neg (by simp), if_neg (by omega)]
    cases Y with
    | nil => rfl
    | cons y Y =>
      have := hY y (by simp)
      simp only [keyLoop, this.1]
      rw [if_neg (by simp), if_pos this.2]
  | cons x X ih =>
    have hx := h x (by simp)
    simp only [List.cons_append, keyLoop, hx.1]
    rw [if_neg (by simp), if_neg (by omega)]
    exact ih _ (fun r hr => h r (by simp [hr]))

theorem numLoop_skip (k : Nat) (X Y : List Page) (h : ∀ r ∈ X, r.num + r.count ≤ k ∧ 0 < r.count) (r : Page) (ha : r.avail = true) (h1 : r.num ≤ k) (h2 : k < r.num + r.count) :
    pageNumForKey (X ++ r :: Y) k = some r.num := by
  induction X with
  | nil =>
    simp only [List.nil_append, pageNumForKey]
    rw [if_neg (by omega), if_neg (by omega), if_pos ha]
  | cons x X ih =>
    have hx := h x (by simp)
    simp only [List.cons_append, pageNumForKey]
    rw [if_neg (by omega), if_pos (by omega)]
    exact ih (fun r hr => h r (by simp [hr]))

/-! ## The table of keys -/

/-- The packet before the keys after `K`. -/
def prevOf (prev : Option Nat) (K : List (List Pkt)) : Option Nat :=
  match K.getLast? with
  | none => prev
  | some g => some (lastTime g)

theorem keyTable_append (prev : Option Nat) (K L : List (List Pkt)) : keyTable prev (K ++ L) = keyTable prev K ++ keyTable (prevOf prev K) L := by
  induction K generalizing prev with
  | nil => rfl
  | cons g K ih =>
    simp only [List.cons_append, keyTable, ih]
    congr 2
    cases K with
    | nil => rfl
    | cons h K =>
      unfold prevOf
      rw [List.getLast?_cons_cons]
      cases hh : (h :: K).getLast? with
      | none => simp at hh
      | some x => rfl

theorem keyTable_length (prev : Option Nat) (K : List (List Pkt)) : (keyTable prev K).length = K.length := by
  induction K generalizing prev with
  | nil => rfl
  | cons g K ih => simp [keyTable, ih]

/-- The keys after a packet at time `t`: they start later, and no packet between is before `t`. -/
theorem keyTable_after (t : Nat) (K : List (List Pkt)) (h : ∀ g ∈ K, g ≠ []) (hu : Up K.flatten) (ht : ∀ x ∈ K.flatten, t < x.time) :
    ∀ k ∈ keyTable (some t) K, t < k.time ∧ ∃ d, k.before = some d ∧ t ≤ k.time - d := by
  induction K generalizing t with
  | nil => intro k hk; cases hk
  | cons g K ih =>
    intro k hk
    have hg : g ≠ [] := h g (by simp)
    rw [List.flatten_cons] at hu ht
    obtain ⟨x, hx, hx2⟩ := firstTime_mem hg
    obtain ⟨y, hy, hy2⟩ := lastTime_mem hg
    have h1 := ht x (List.mem_append_left _ hx)
    have h2 := ht y (List.mem_append_left _ hy)
    simp only [keyTable, List.mem_cons] at hk
    rcases hk with rfl | hk
    · exact ⟨by simp only; omega, _, rfl, by simp only; omega⟩
    · obtain ⟨h3, d, h4, h5⟩ := ih (lastTime g) (fun q hq => h q (by simp [hq])) (List.pairwise_append.1 hu).2.1
        (fun z hz => by rw [← hy2]; exact (List.pairwise_append.1 hu).2.2 y hy z hz) k hk
      exact ⟨by omega, d, h4, by omega⟩

theorem keyTable_le (prev : Option Nat) (K : List (List Pkt)) (h : ∀ g ∈ K, g ≠ []) (T : Nat) (ht : ∀ x ∈ K.flatten, x.time ≤ T) :
    ∀ k ∈ keyTable prev K, k.time ≤ T := by
  induction K generalizing prev with
  | nil => intro k hk; cases hk
  | cons g K ih =>
    intro k hk
    rw [List.flatten_cons] at ht
    simp only [keyTable, List.mem_cons] at hk
    rcases hk with rfl | hk
    · obtain ⟨x, hx, hx2⟩ := firstTime_mem (h g (by simp))
      have := ht x (List.mem_append_left _ hx)
      simp only; omega
    · exact ih _ (fun q hq => h q (by simp [hq])) (fun z hz => ht z (List.mem_append_right _ hz)) k hk

/-- Keys that start in time are passed. -/
theorem keyNumLoop_le (T : Nat) (X Y : List Key) (i res : Nat) (h : ∀ k ∈ X, k.time ≤ T) :
    keyNumLoop T (X ++ Y) i res = keyNumLoop T Y (i + X.length) (if X = [] then res else i + X.length - 1) := by
  induction X generalizing i res with
  | nil => simp
  | cons x X ih =>
    have := h x (by simp)
    simp only [List.cons_append, keyNumLoop]
    rw [if_neg (by omega), ih (i + 1) i (fun k hk => h k (by simp [hk]))]
    simp only [List.length_cons, reduceCtorEq, if_false]
    rw [show i + 1 + X.length = i + (X.length + 1) by omega]
    cases X with
    | nil => simp
    | cons y X => simp

/-- Keys that start later, after packets that are not earlier, change nothing. -/
theorem keyNumLoop_gt (T : Nat) (Y : List Key) (i res : Nat) (h : ∀ k ∈ Y, T < k.time ∧ ∃ d, k.before = some d ∧ T ≤ k.time - d) :
    keyNumLoop T Y i res = res := by
  induction Y generalizing i res with
  | nil => rfl
  | cons y Y ih =>
    obtain ⟨h1, d, h2, h3⟩ := h y (by simp)
    simp only [keyNumLoop, h2]
    rw [if_pos h1, if_neg (by omega)]
    exact ih _ _ (fun k hk => h k (by simp [hk]))

end Verif.Play
