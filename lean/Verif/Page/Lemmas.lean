import Verif.Page.Spec

/-!
# Lemmas on writing a page
-/
namespace Verif.Page
open Verif.Bit
open Verif.Json (R)
open Verif.Dtsc Verif.Dtsc.Spec Verif.Page.Spec

theorem spread_append (pos : Nat) (a b : Bytes) : spread pos (a ++ b) = spread pos a ++ spread (pos + a.length) b := by
  induction a generalizing pos with
  | nil => simp [spread]
  | cons x r ih => simp only [List.cons_append, spread, ih, List.length_cons]; rw [Nat.add_assoc, Nat.add_comm 1]

theorem spread_length (pos : Nat) (a : Bytes) : (spread pos a).length = a.length := by
  induction a generalizing pos with
  | nil => rfl
  | cons x r ih => simp [spread, ih]

theorem mem_spread (pos : Nat) (bs : Bytes) (w : Nat × UInt8) :
    w ∈ spread pos bs ↔ pos ≤ w.1 ∧ bs[w.1 - pos]? = some w.2 := by
  induction bs generalizing pos with
  | nil => simp [spread]
  | cons x r ih =>
    rw [spread, List.mem_cons, ih]
    obtain ⟨a, v⟩ := w
    simp only [Prod.mk.injEq]
    constructor
    · rintro (⟨rfl, rfl⟩ | ⟨h1, h2⟩)
      · simp
      · refine ⟨by omega, ?_⟩
        rw [show a - pos = (a - (pos + 1)) + 1 by omega, List.getElem?_cons_succ]; exact h2
    · rintro ⟨h1, h2⟩
      by_cases h : a = pos
      · subst h; simp at h2; exact .inl ⟨rfl, h2.symm⟩
      · right
        refine ⟨by omega, ?_⟩
        rw [show a - pos = (a - (pos + 1)) + 1 by omega, List.getElem?_cons_succ] at h2; exact h2

/-- The bytes of stores, in order. -/
def flat (l : List (Nat × Bytes)) : List (Nat × UInt8) := l.flatMap fun s => spread s.1 s.2

theorem flat_append (a b : List (Nat × Bytes)) : flat (a ++ b) = flat a ++ flat b := by simp [flat]

theorem sched_perm {l : List (Nat × Bytes)} {ws : List (Nat × UInt8)} (h : Sched l ws) : ws.Perm (flat l) := by
  induction h with
  | nil => exact List.Perm.refl _
  | cons hp _ ih => rw [flat, List.flatMap_cons]; exact hp.append ih

theorem sched_append {a b : List (Nat × Bytes)} {ws : List (Nat × UInt8)} (h : Sched (a ++ b) ws) :
    ∃ u v, ws = u ++ v ∧ Sched a u ∧ Sched b v := by
  induction a generalizing ws with
  | nil => exact ⟨[], ws, rfl, .nil, h⟩
  | cons s r ih =>
    rw [List.cons_append] at h
    cases h with
    | cons hp hr =>
      obtain ⟨u, v, rfl, h1, h2⟩ := ih hr
      exact ⟨_ ++ u, v, by rw [List.append_assoc], .cons hp h1, h2⟩

theorem fold_put (f : Nat → UInt8) (l : List (Nat × UInt8)) (h : ∀ w ∈ l, f w.1 = w.2) (m : Nat → UInt8) (i : Nat) :
    l.foldl put m i = if i ∈ l.map (·.1) then f i else m i := by
  induction l generalizing m with
  | nil => simp
  | cons w r ih =>
    rw [List.foldl_cons, ih fun x hx => h x (List.mem_cons_of_mem _ hx)]
    have hw := h w (List.mem_cons_self ..)
    simp only [List.map_cons, List.mem_cons]
    by_cases h1 : i ∈ r.map (·.1)
    · rw [if_pos h1, if_pos (.inr h1)]
    · rw [if_neg h1]
      by_cases h2 : i = w.1
      · rw [if_pos (.inl h2), put, if_pos h2, h2, hw]
      · rw [if_neg (by simp [h1, h2]), put, if_neg h2]

theorem mem_at (f : Nat → UInt8) (ws : List (Nat × UInt8)) (h : ∀ w ∈ ws, f w.1 = w.2) (t i : Nat) :
    memAt ws t i = if i ∈ (ws.take t).map (·.1) then f i else 0 := by
  rw [memAt, fold_put f _ fun w hw => h w (List.mem_of_mem_take hw)]

/-- A packet without its first four bytes. -/
def restOf (c : Content) : Bytes := (bytesOf c).drop 4

theorem bytes_rest (c : Content) : bytesOf c = magic2 ++ restOf c := by
  rw [restOf, bytesOf, raw]
  simp only [List.append_assoc]
  rw [show 4 = magic2.length from rfl, List.drop_left]

theorem rest_length (c : Content) : (restOf c).length = packetSize c - 4 := by
  rw [restOf, List.length_drop, bytesOf_length]

theorem pack_len (p : Pack) : packLen p = packetSize (content p) := by
  rw [size_send, packLen, content]
  cases p.key <;> rfl

theorem body_flat (base : Nat) (p : Pack) :
    flat (bodyStores base p) =
      spread (base + 20) ([0xE0] ++ optBytes p.off p.bpos (if p.key then some true else none) ++ fData ++ htob .l p.data.length ++ p.data ++ fEnd) := by
  have l1 : fOffset.length = 9 := rfl
  have l2 : fBpos.length = 7 := rfl
  have l3 : fKey.length = 19 := rfl
  have l4 : fData.length = 7 := rfl
  have l5 : ∀ n, (htob .ll n).length = 8 := fun n => htob_length _ _
  have l6 : ∀ n, (htob .l n).length = 4 := fun n => htob_length _ _
  rw [bodyStores]
  simp only [flat_append, optBytes.eq_def, spread_append, offStores, bposStores, keyStores, dataStores]
  by_cases h1 : p.off = 0 <;> by_cases h2 : p.bpos = 0 <;> cases h3 : p.key <;>
    simp [h1, h2, flat, spread_append, spread, l1, l2, l3, l4, l5, l6, Nat.add_assoc] <;> exact congrArg (spread · fEnd) (by omega)

theorem head_flat (base : Nat) (p : Pack) :
    (flat (headStores base p)).Perm
      (spread (base + 4) (htob .l (packLen p - 8) ++ htob .l p.track ++ htob .ll p.time)) := by
  have l6 : ∀ n, (htob .l n).length = 4 := fun n => htob_length _ _
  rw [headStores]
  simp only [flat, List.flatMap_cons, List.flatMap_nil, List.append_nil, spread_append, List.length_append, l6, Nat.add_assoc]
  generalize spread (base + 12) _ = x
  generalize spread (base + 8) _ = y
  generalize spread (base + 4) _ = z
  rw [← List.append_assoc]
  refine (List.perm_append_comm (l₁ := x ++ y)).trans ?_
  rw [List.append_assoc]
  exact (List.perm_append_comm (l₁ := x)).append_left z

/-- All stores of a packet but the last write the packet but for its first four bytes. -/
theorem early_flat (base : Nat) (p : Pack) :
    (flat (bodyStores base p ++ headStores base p)).Perm (spread (base + 4) (restOf (content p))) := by
  have e : restOf (content p) = (htob .l (packLen p - 8) ++ htob .l p.track ++ htob .ll p.time) ++
      ([0xE0] ++ optBytes p.off p.bpos (if p.key then some true else none) ++ fData ++ htob .l p.data.length ++ p.data ++ fEnd) := by
    have := bytes_rest (content p)
    rw [bytesOf, raw, ← pack_len] at this
    simp only [List.append_assoc] at this ⊢
    exact (List.append_cancel_left this).symm
  rw [flat_append, e, spread_append, body_flat]
  refine List.perm_append_comm.trans ?_
  refine ((head_flat base p).append_right _).trans ?_
  simp [htob_length, Codec.width, Nat.add_assoc]

/-- Packets one after the other. -/
def placed (base : Nat) : List Pack → List (Nat × Bytes)
  | [] => []
  | p :: r => stores base p ++ placed (base + packLen p) r

/-- The bytes of packets. -/
def big (l : List Content) : Bytes := (l.map bytesOf).flatten

theorem big_length (l : List Content) : (big l).length = total l := by
  induction l with
  | nil => rfl
  | cons c r ih => rw [big, List.map_cons, List.flatten_cons, List.length_append, bytesOf_length, total, ← ih, big]

theorem packet_flat (base : Nat) (p : Pack) : (flat (stores base p)).Perm (spread base (bytesOf (content p))) := by
  rw [stores, flat_append, bytes_rest, spread_append]
  refine ((early_flat base p).append_right _).trans ?_
  refine List.perm_append_comm.trans ?_
  simp [flat, magic2]

theorem placed_flat (base : Nat) (l : List Pack) : (flat (placed base l)).Perm (spread base (big (l.map content))) := by
  induction l generalizing base with
  | nil => exact List.Perm.refl _
  | cons p r ih =>
    rw [placed, flat_append, List.map_cons, big, List.map_cons, List.flatten_cons, spread_append, bytesOf_length, ← pack_len]
    exact (packet_flat base p).append (ih _)

theorem placed_append (base : Nat) (a b : List Pack) :
    placed base (a ++ b) = placed base a ++ placed (base + total (a.map content)) b := by
  induction a generalizing base with
  | nil => rfl
  | cons p r ih =>
    rw [List.cons_append, placed, ih, placed, List.append_assoc, List.map_cons, total, ← pack_len, Nat.add_assoc]

/-- What the calls write is the packets that are accepted, one after the other. -/
theorem buffer_all (size : Nat) (hs : size < 2 ^ 64) (calls : List Call) : ∀ avail, avail ≤ size →
    ∃ ps : List Pack, accepted size avail calls = ps.map content ∧
      bufferAll size avail calls = (placed avail ps, avail + total (ps.map content)) ∧ avail + total (ps.map content) ≤ size := by
  induction calls with
  | nil => intro avail h; exact ⟨[], rfl, rfl, h⟩
  | cons c r ih =>
    intro avail h
    rw [accepted, bufferAll, bufferNext]
    have hm : (size + 2 ^ 64 - avail) % 2 ^ 64 = size - avail := by omega
    rw [hm, pack_len]
    by_cases h1 : c.vod = false ∧ c.pack.time < c.lastms
    · rw [if_pos h1, if_neg (by rintro ⟨h2, -⟩; rcases h2 with h2 | h2; · simp [h2] at h1
                                · omega)]
      exact ih avail h
    · rw [if_neg h1]
      have h1' : c.vod = true ∨ c.lastms ≤ c.pack.time := by
        cases hv : c.vod
        · right; have : ¬ c.pack.time < c.lastms := fun h => h1 ⟨hv, h⟩
          omega
        · exact .inl rfl
      by_cases h2 : size - avail < packetSize (content c.pack)
      · rw [if_pos h2, if_neg (by rintro ⟨-, h3⟩; omega)]
        exact ih avail h
      · rw [if_neg h2, if_pos ⟨h1', by omega⟩]
        obtain ⟨ps, e1, e2, e3⟩ := ih (avail + packetSize (content c.pack)) (by omega)
        refine ⟨c.pack :: ps, by rw [e1]; rfl, ?_, ?_⟩
        · dsimp only
          rw [e2, List.map_cons, total, placed, pack_len, Nat.add_assoc]
        · rw [List.map_cons, total]; omega

/-- What is true of the place of a packet in the memory at every instant. -/
structure Spot (ws : List (Nat × UInt8)) (o : Nat) (c : Content) : Prop where
  seen : ∀ t i, i < 4 → memAt ws t (o + i) ≠ 0 → ∀ t', t ≤ t' → memAt ws t' (o + i) = (bytesOf c).getD i 0
  rest : ∀ t i, i < 4 → memAt ws t (o + i) ≠ 0 → ∀ t', t ≤ t' → ∀ k, 4 ≤ k → k < packetSize c →
    memAt ws t' (o + k) = (bytesOf c).getD k 0
  done : ∀ t, o + packetSize c ≤ t → ∀ k, k < packetSize c → memAt ws t (o + k) = (bytesOf c).getD k 0

theorem size_ge (c : Content) : 35 ≤ packetSize c := by rw [packetSize]; omega

/-- The memory in the end. -/
def endMem (l : List Content) (i : Nat) : UInt8 := (big l).getD i 0

theorem end_consistent {l : List Pack} {ws : List (Nat × UInt8)} (h : ws.Perm (spread 0 (big (l.map content)))) :
    ∀ w ∈ ws, endMem (l.map content) w.1 = w.2 := by
  intro w hw
  have := (mem_spread 0 _ w).mp (h.mem_iff.mp hw)
  rw [endMem, List.getD_eq_getElem?_getD, show w.1 = w.1 - 0 from rfl, this.2]; rfl

theorem end_spot (a b : List Pack) (p : Pack) (k : Nat) (hk : k < packetSize (content p)) :
    endMem ((a ++ p :: b).map content) (total (a.map content) + k) = (bytesOf (content p)).getD k 0 := by
  rw [endMem, List.getD_eq_getElem?_getD, List.getD_eq_getElem?_getD, List.map_append, List.map_cons, big, List.map_append,
    List.flatten_append, List.map_cons, List.flatten_cons]
  have e : (List.map bytesOf (a.map content)).flatten.length = total (a.map content) := big_length _
  rw [List.getElem?_append_right (by omega), e, Nat.add_sub_cancel_left, List.getElem?_append_left (by rw [bytesOf_length]; exact hk)]

theorem take_split {A B : List (Nat × UInt8)} {t : Nat} (h : A.length ≤ t) {w : Nat × UInt8} (hw : w ∈ A) : w ∈ (A ++ B).take t := by
  rw [List.take_append]
  exact List.mem_append_left _ (by rw [List.take_of_length_le h]; exact hw)

theorem spot (l : List Pack) (ws : List (Nat × UInt8)) (h : Sched (placed 0 l) ws) (a b : List Pack) (p : Pack) (e : l = a ++ p :: b) :
    Spot ws (total (a.map content)) (content p) := by
  have hp := (sched_perm h).trans (placed_flat 0 l)
  have hm := mem_at _ _ (end_consistent hp)
  have hge := size_ge (content p)
  rw [e, placed_append, placed, stores, Nat.zero_add] at h
  obtain ⟨A1, v1, rfl, s1, h1⟩ := sched_append h
  obtain ⟨v2, C, rfl, h2, -⟩ := sched_append h1
  obtain ⟨A2, M, rfl, s2, s3⟩ := sched_append h2
  have p1 := (sched_perm s1).trans (placed_flat 0 a)
  have p2 := (sched_perm s2).trans (early_flat (total (a.map content)) p)
  have p3 := sched_perm s3
  have n1 : A1.length = total (a.map content) := by rw [p1.length_eq, spread_length, big_length]
  have n2 : A2.length = packetSize (content p) - 4 := by rw [p2.length_eq, spread_length, rest_length]
  have n3 : M.length = 4 := by rw [p3.length_eq]; rfl
  have hend := fun k hk => end_spot a b p k hk
  rw [← e] at hend
  generalize total (a.map content) = o at *
  generalize hL : packetSize (content p) = L at *
  have ew : A1 ++ (A2 ++ M ++ C) = (A1 ++ A2) ++ (M ++ C) := by simp
  have ew2 : A1 ++ (A2 ++ M ++ C) = (A1 ++ A2 ++ M) ++ C := by simp
  -- bytes seen early
  have early : ∀ t i, i < 4 → memAt (A1 ++ (A2 ++ M ++ C)) t (o + i) ≠ 0 → (A1 ++ A2).length ≤ t := by
    intro t i hi hne
    rw [hm] at hne
    by_cases hlt : (A1 ++ A2).length ≤ t
    · exact hlt
    · exfalso
      apply hne
      rw [if_neg]
      intro hin
      rw [ew, List.take_append_of_le_length (by omega)] at hin
      obtain ⟨w, hw, hw1⟩ := List.mem_map.mp hin
      rcases List.mem_append.mp (List.mem_of_mem_take hw) with hw | hw
      · have := (mem_spread 0 _ w).mp (p1.mem_iff.mp hw)
        have h5 := (List.getElem?_eq_some_iff.mp this.2).1
        rw [big_length] at h5
        have : A1.length = total (a.map content) := by rw [p1.length_eq, spread_length, big_length]
        omega
      · have := (mem_spread _ _ w).mp (p2.mem_iff.mp hw)
        omega
  have there : ∀ t, (A1 ++ A2).length ≤ t → ∀ k, 4 ≤ k → k < L → memAt (A1 ++ (A2 ++ M ++ C)) t (o + k) = (bytesOf (content p)).getD k 0 := by
    intro t ht k h4 hk
    rw [hm, if_pos, hend k hk]
    rw [ew]
    have hk' : k - 4 < (restOf (content p)).length := by rw [rest_length, hL]; omega
    refine List.mem_map.mpr ⟨(o + k, (restOf (content p))[k - 4]), ?_, rfl⟩
    refine take_split ht (List.mem_append_right _ (p2.mem_iff.mpr ((mem_spread _ _ _).mpr ⟨by dsimp only; omega, ?_⟩)))
    dsimp only
    rw [show o + k - (o + 4) = k - 4 by omega, List.getElem?_eq_getElem hk']
  refine ⟨?_, ?_, ?_⟩
  · intro t i hi hne t' ht
    have hne' := hne
    rw [hm] at hne ⊢
    have hin : o + i ∈ ((A1 ++ (A2 ++ M ++ C)).take t).map (·.1) := by
      by_cases hh : o + i ∈ ((A1 ++ (A2 ++ M ++ C)).take t).map (·.1)
      · exact hh
      · rw [if_neg hh] at hne; exact absurd rfl hne
    rw [if_pos, hend i (by omega)]
    obtain ⟨w, hw, hw1⟩ := List.mem_map.mp hin
    exact List.mem_map.mpr ⟨w, (List.take_subset_take_left _ ht) hw, hw1⟩
  · intro t i hi hne t' ht k h4 hk
    rw [hL] at hk
    exact there t' (Nat.le_trans (early t i hi hne) ht) k h4 hk
  · intro t ht k hk
    rw [hL] at ht hk
    by_cases h4 : 4 ≤ k
    · refine there t (by rw [List.length_append]; omega) k h4 hk
    · rw [hm, if_pos, hend k hk]
      rw [ew2]
      have hk' : k < magic2.length := by simp [magic2]; omega
      refine List.mem_map.mpr ⟨(o + k, magic2[k]), ?_, rfl⟩
      refine take_split (by simp only [List.length_append]; omega) (List.mem_append_right _ (p3.mem_iff.mpr ?_))
      rw [flat, List.flatMap_cons, List.flatMap_nil, List.append_nil, mem_spread]
      refine ⟨by dsimp only; omega, ?_⟩
      dsimp only
      rw [Nat.add_sub_cancel_left, List.getElem?_eq_getElem hk']

theorem end_zero (l : List Pack) (ws : List (Nat × UInt8)) (h : Sched (placed 0 l) ws) (t i : Nat) (hi : total (l.map content) ≤ i) :
    memAt ws t i = 0 := by
  have hp := (sched_perm h).trans (placed_flat 0 l)
  rw [mem_at _ _ (end_consistent hp)]
  split
  · rw [endMem, List.getD_eq_getElem?_getD, List.getElem?_eq_none (by rw [big_length]; exact hi)]; rfl
  · rfl

/-- No store goes outside of the page. -/
theorem stores_inside (l : List Pack) (ws : List (Nat × UInt8)) (h : Sched (placed 0 l) ws) (w : Nat × UInt8) (hw : w ∈ ws) :
    w.1 < total (l.map content) := by
  have hp := (sched_perm h).trans (placed_flat 0 l)
  have := ((mem_spread 0 _ w).mp (hp.mem_iff.mp hw)).2
  have h5 := (List.getElem?_eq_some_iff.mp this).1
  rw [big_length] at h5
  exact h5

end Verif.Page
