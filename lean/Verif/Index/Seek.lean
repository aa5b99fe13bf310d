import Verif.Index.Evict

/-!
# Looking up times in the index (C34; `/repo/lib/dtsc.cpp` 3679-3766, 3819-3854, 4175-4184)
-/
namespace Verif.Index

/-- dtsc.cpp 3706-3709: the loop over `k` keys from the `i`-th on. -/
def keyLoop (keys : Tab Key) (ts : Nat) : Nat → Nat → Option Nat
  | 0, _ => none
  | k + 1, i =>
    let r := keys.get i
    if r.time = ts ∨ (r.time + r.dur) % 2 ^ 64 > ts then some i else keyLoop keys ts k (i + 1)

/-- dtsc.cpp 3701-3711: `getKeyIndexForTime`. -/
def keyIndexForTime (t : Track) (ts : Nat) : Nat := (keyLoop t.keys ts (t.keys.fin - t.keys.del) t.keys.del).getD t.keys.fin

/-- dtsc.cpp 3734-3739: the loop over `k` packets from the `i`-th on. -/
def partLoop (parts : Tab Part) (ts : Nat) : Nat → Nat → Nat → Nat
  | 0, i, _ => i
  | k + 1, i, cur => if cur ≥ ts then i else partLoop parts ts k (i + 1) ((cur + (parts.get i).dur) % 2 ^ 64)

/-- dtsc.cpp 3724-3740: `getPartIndex`. -/
def partIndex (t : Track) (ts : Nat) : Nat :=
  let r := t.keys.get (keyIndexForTime t ts)
  let i := r.firstPart % 2 ^ 32
  partLoop t.parts ts (t.parts.fin - i) i r.time

/-- dtsc.cpp 3757-3760: adding up the durations of `k` packets from the `i`-th on. -/
def durLoop (parts : Tab Part) : Nat → Nat → Nat → Nat
  | 0, _, r => r
  | k + 1, i, r => durLoop parts k (i + 1) ((r + (parts.get i).dur) % 2 ^ 64)

/-- dtsc.cpp 3752-3764: the loop over `n` keys from the `k`-th on. -/
def partTimeLoop (t : Track) (i : Nat) : Nat → Nat → Nat
  | 0, _ => 0
  | n + 1, k =>
    let r := t.keys.get k
    if (r.firstPart + r.parts) % 2 ^ 64 > i then durLoop t.parts (i - r.firstPart) r.firstPart r.time else partTimeLoop t i n (k + 1)

/-- dtsc.cpp 3747-3766: `getPartTime`. It starts at key 0, whether that still exists or not. -/
def partTime (t : Track) (i : Nat) : Nat := partTimeLoop t i t.keys.fin 0

/-- dtsc.cpp 3684-3688: the loop over `k` fragments from the `i`-th on. -/
def fragLoop (t : Track) (ts : Nat) : Nat → Nat → Option Nat
  | 0, _ => none
  | k + 1, i =>
    let f := t.frags.get i
    if ts < ((t.keys.get f.firstKey).time + f.dur) % 2 ^ 64 then some i else fragLoop t ts k (i + 1)

/-- dtsc.cpp 3679-3693: `getFragmentIndexForTime`. -/
def fragIndexForTime (t : Track) (ts : Nat) : Nat :=
  match fragLoop t ts (t.frags.fin - t.frags.del) t.frags.del with
  | some i => i
  | none => if t.frags.fin > t.frags.del ∧ ts < t.lastms then t.frags.fin - 1 else t.frags.fin

/-- dtsc.cpp 3839-3852: the loop of `getKeyNumForTime` over `k` keys from the `i`-th on. -/
def keyNumLoop (t : Track) (ts : Nat) : Nat → Nat → Nat → Nat
  | 0, _, res => res
  | k + 1, i, res =>
    let r := t.keys.get i
    let res :=
      if r.time > ts then
        if r.firstPart > t.parts.start ∧ sub64 r.time (t.parts.get (r.firstPart - 1)).dur < ts then i else res
      else i
    keyNumLoop t ts k (i + 1) res

/-- dtsc.cpp 3819-3854: `getKeyNumForTime`, without embedded frames; `none` is `INVALID_KEY_NUM`. -/
def keyNumForTime (t : Track) (ts : Nat) : Option Nat :=
  if t.keys.fin = 0 then none else some (keyNumLoop t ts (t.keys.fin - t.keys.del) t.keys.del t.keys.del)

/-- dtsc.cpp 4175-4184: the loop over `k` keys from the `i`-th on. -/
def indexLoop (keys : Tab Key) (ts : Nat) : Nat → Nat → Option Nat
  | 0, _ => none
  | k + 1, i =>
    let r := keys.get i
    if r.time ≥ ts ∨ (r.time + r.dur) % 2 ^ 64 > ts then some i else indexLoop keys ts k (i + 1)

/-- dtsc.cpp 4175-4184: `Keys::getIndexForTime`. -/
def indexForTime (t : Track) (ts : Nat) : Nat :=
  (indexLoop t.keys ts (t.keys.fin - t.keys.del) t.keys.del).getD (if t.keys.fin ≠ 0 then t.keys.fin - 1 else 0)

/-! ## Specification -/

/-- A consistent index: it describes the stream `fs` without its first `d` keys and `e` fragments, as C30 shows of every index that a
history leads to. The stream is not empty, lasts less than 2^32 milliseconds and no two packets have the same time. -/
structure Consistent (video : Bool) (minFrag : Nat) (t : Track) (fs : List (List Group)) (d e : Nat) : Prop where
  grouped : Grouped video minFrag fs
  shows : Shows t fs d e
  whole : Whole fs d e
  nonempty : fs ≠ []
  left : e < fs.length
  short : Short fs.flatten.flatten
  strict : (fs.flatten.flatten.map Packet.time).Pairwise (· < ·)
  small : ∀ p ∈ fs.flatten.flatten, p.time < 2 ^ 64
  count : fs.flatten.flatten.length + 2 < 2 ^ 32

/-- The packets that are not there any more. -/
def gone (fs : List (List Group)) (d : Nat) : Nat := (fs.flatten.take d).flatten.length

/-- The `m`-th packet is the first one, of those that are there, at or after the time `ts`. -/
def FirstAt (fs : List (List Group)) (d m ts : Nat) : Prop :=
  gone fs d ≤ m ∧ (∃ p, fs.flatten.flatten[m]? = some p ∧ ts ≤ p.time) ∧
    ∀ j q, gone fs d ≤ j → j < m → fs.flatten.flatten[j]? = some q → q.time < ts

/-! ## Lists -/

theorem take_flat {α : Type} (ks : List (List α)) (k : Nat) (g : List α) (hg : ks[k]? = some g) :
    ks.flatten = (ks.take k).flatten ++ (g ++ (ks.drop (k + 1)).flatten) := by
  obtain ⟨h1, h2⟩ := List.getElem?_eq_some_iff.mp hg
  have : ks = ks.take k ++ g :: ks.drop (k + 1) := by rw [← h2, List.getElem_cons_drop, List.take_append_drop]
  conv => lhs; rw [this]
  rw [List.flatten_append, List.flatten_cons]

theorem take_flat_succ {α : Type} (ks : List (List α)) (k : Nat) (g : List α) (hg : ks[k]? = some g) :
    (ks.take (k + 1)).flatten = (ks.take k).flatten ++ g := by
  obtain ⟨h1, h2⟩ := List.getElem?_eq_some_iff.mp hg
  rw [List.take_succ_eq_append_getElem h1, h2, List.flatten_append, List.flatten_singleton]

theorem take_flat_mono {α : Type} (ks : List (List α)) {i j : Nat} (h : i ≤ j) : (ks.take i).flatten.length ≤ (ks.take j).flatten.length := by
  have : (ks.take j).flatten.length = ((ks.take j).take i).flatten.length + ((ks.take j).drop i).flatten.length := by
    rw [← List.length_append, ← List.flatten_append, List.take_append_drop]
  rw [List.take_take, Nat.min_eq_left h] at this
  omega

theorem part_at {α : Type} (ks : List (List α)) (k : Nat) (g : List α) (hg : ks[k]? = some g) (j : Nat) (hj : j < g.length) :
    ks.flatten[(ks.take k).flatten.length + j]? = g[j]? := by
  rw [take_flat ks k g hg, List.getElem?_append_right (by omega), Nat.add_sub_cancel_left, List.getElem?_append_left hj]

theorem times_lt {ps : List Packet} (h : (ps.map Packet.time).Pairwise (· < ·)) {i j : Nat} {p q : Packet} (hi : ps[i]? = some p) (hj : ps[j]? = some q)
    (hij : i < j) : p.time < q.time := by
  obtain ⟨h1, rfl⟩ := List.getElem?_eq_some_iff.mp hi
  obtain ⟨h2, rfl⟩ := List.getElem?_eq_some_iff.mp hj
  have := List.pairwise_iff_getElem.mp h i j (by simpa using h1) (by simpa using h2) hij
  simpa using this

variable {video : Bool} {minFrag : Nat} {t : Track} {fs : List (List Group)} {d e : Nat}

namespace Consistent

theorem len (h : Consistent video minFrag t fs d e) : fs.flatten.length ≤ fs.flatten.flatten.length := flatten_le h.grouped.keys

theorem dlt (h : Consistent video minFrag t fs d e) : d < fs.flatten.length :=
  Nat.lt_of_le_of_lt h.whole.1 (flat_len h.grouped.frags h.left)

/-- The first packet of a key. -/
theorem firstPacket (h : Consistent video minFrag t fs d e) {k : Nat} {g : Group} (hg : fs.flatten[k]? = some g) :
    ∃ p, fs.flatten.flatten[(fs.flatten.take k).flatten.length]? = some p ∧ p.time = first g := by
  have hne := h.grouped.keys g (List.mem_of_getElem? hg)
  obtain ⟨p, r, rfl⟩ : ∃ p r, g = p :: r := ⟨_, _, (List.cons_head_tail hne).symm⟩
  exact ⟨p, by simpa using part_at _ k _ hg 0 (by simp), rfl⟩

/-- The last packet of a key. -/
theorem lastPacket (h : Consistent video minFrag t fs d e) {k : Nat} {g : Group} (hg : fs.flatten[k]? = some g) :
    ∃ p, fs.flatten.flatten[(fs.flatten.take (k + 1)).flatten.length - 1]? = some p ∧ p.time = last g ∧
      (fs.flatten.take k).flatten.length < (fs.flatten.take (k + 1)).flatten.length := by
  have hne := h.grouped.keys g (List.mem_of_getElem? hg)
  have hpos := List.length_pos_iff.mpr hne
  have hs := take_flat_succ _ k g hg
  have hl : (fs.flatten.take (k + 1)).flatten.length = (fs.flatten.take k).flatten.length + g.length := by rw [hs, List.length_append]
  refine ⟨g.getLast hne, ?_, ?_, by omega⟩
  · rw [show (fs.flatten.take (k + 1)).flatten.length - 1 = (fs.flatten.take k).flatten.length + (g.length - 1) by omega,
      part_at _ k g hg _ (by omega), ← List.getLast?_eq_getElem?, List.getLast?_eq_some_getLast hne]
  · unfold last; rw [List.getLast?_eq_some_getLast hne]; rfl

theorem last_lt_first (h : Consistent video minFrag t fs d e) {k : Nat} {g g' : Group} (hg : fs.flatten[k]? = some g)
    (hg' : fs.flatten[k + 1]? = some g') : last g < first g' := by
  obtain ⟨p, hp, e1, hlt⟩ := h.lastPacket hg
  obtain ⟨q, hq, e2⟩ := h.firstPacket hg'
  rw [← e1, ← e2]
  exact times_lt h.strict hp hq (by omega)

theorem first_le_lastKey (h : Consistent video minFrag t fs d e) {k : Nat} {g : Group} (hg : fs.flatten[k]? = some g) : first g ≤ last g := by
  obtain ⟨p, hp, e1, hlt⟩ := h.lastPacket hg
  obtain ⟨q, hq, e2⟩ := h.firstPacket hg
  rw [← e1, ← e2]
  by_cases hc : (fs.flatten.take k).flatten.length = (fs.flatten.take (k + 1)).flatten.length - 1
  · rw [hc] at hq; rw [hp] at hq; cases hq; exact Nat.le_refl _
  · exact Nat.le_of_lt (times_lt h.strict hq hp (by omega))

theorem firsts_lt (h : Consistent video minFrag t fs d e) {i j : Nat} {g g' : Group} (hg : fs.flatten[i]? = some g) (hg' : fs.flatten[j]? = some g')
    (hij : i < j) : first g < first g' := by
  obtain ⟨_, _, _, h1⟩ := h.lastPacket hg
  obtain ⟨p, hp, e1⟩ := h.firstPacket hg
  obtain ⟨q, hq, e2⟩ := h.firstPacket hg'
  have := take_flat_mono fs.flatten (show i + 1 ≤ j by omega)
  rw [← e1, ← e2]
  exact times_lt h.strict hp hq (by omega)

theorem keyEnd_bounds (h : Consistent video minFrag t fs d e) {k : Nat} {g : Group} (hg : fs.flatten[k]? = some g) :
    first g ≤ keyEnd fs.flatten k g ∧ keyEnd fs.flatten k g - first g < 2 ^ 32 ∧ keyEnd fs.flatten k g < 2 ^ 64 := by
  obtain ⟨p, hp, e1⟩ := h.firstPacket hg
  have hpm := List.mem_of_getElem? hp
  unfold keyEnd
  split
  · rename_i g' hg'
    obtain ⟨q, hq, e2⟩ := h.firstPacket hg'
    have hqm := List.mem_of_getElem? hq
    refine ⟨Nat.le_of_lt (h.firsts_lt hg hg' (by omega)), ?_, ?_⟩
    · rw [← e1, ← e2]; exact h.short q hqm p hpm
    · rw [← e2]; exact h.small q hqm
  · obtain ⟨q, hq, e2, _⟩ := h.lastPacket hg
    have hqm := List.mem_of_getElem? hq
    refine ⟨h.first_le_lastKey hg, ?_, ?_⟩
    · rw [← e1, ← e2]; exact h.short q hqm p hpm
    · rw [← e2]; exact h.small q hqm

theorem keyEnd_le_first (h : Consistent video minFrag t fs d e) {i j : Nat} {g g' : Group} (hg' : fs.flatten[j]? = some g') (hij : i < j) :
    keyEnd fs.flatten i g ≤ first g' := by
  have hj := (List.getElem?_eq_some_iff.mp hg').1
  unfold keyEnd
  rw [List.getElem?_eq_getElem (show i + 1 < fs.flatten.length by omega)]
  dsimp only
  by_cases he : i + 1 = j
  · subst he
    rw [List.getElem?_eq_getElem (by omega)] at hg'; cases hg'; exact Nat.le_refl _
  · exact Nat.le_of_lt (h.firsts_lt (List.getElem?_eq_getElem (by omega)) hg' (by omega))

theorem keyEnd_le_last (h : Consistent video minFrag t fs d e) {k : Nat} {g : Group} (hg : fs.flatten[k]? = some g) :
    keyEnd fs.flatten k g ≤ t.lastms := by
  rw [h.shows.lastms]
  have key : ∀ (i : Nat) (q : Packet), fs.flatten.flatten[i]? = some q → q.time ≤ last fs.flatten.flatten :=
    fun i q hq => times_le_last h.grouped.times (List.mem_of_getElem? hq)
  unfold keyEnd
  split
  · rename_i g' hg'
    obtain ⟨q, hq, e2⟩ := h.firstPacket hg'
    rw [← e2]; exact key _ _ hq
  · obtain ⟨q, hq, e2, _⟩ := h.lastPacket hg
    rw [← e2]; exact key _ _ hq

theorem keyEnd_last (h : Consistent video minFrag t fs d e) {g : Group} (hg : fs.flatten[fs.flatten.length - 1]? = some g) :
    keyEnd fs.flatten (fs.flatten.length - 1) g = t.lastms := by
  have hd := h.dlt
  unfold keyEnd
  rw [show fs.flatten.length - 1 + 1 = fs.flatten.length by omega, List.getElem?_eq_none (Nat.le_refl _)]
  dsimp only
  obtain ⟨p, hp, e1, hlt⟩ := h.lastPacket hg
  rw [show fs.flatten.length - 1 + 1 = fs.flatten.length by omega, List.take_length] at hp
  rw [h.shows.lastms, ← e1]
  conv => rhs; unfold last
  rw [List.getLast?_eq_getElem?, hp]; rfl

/-- What the entry of a key says. -/
theorem key (h : Consistent video minFrag t fs d e) {k : Nat} (hd : d ≤ k) {g : Group} (hg : fs.flatten[k]? = some g) :
    (t.keys.get k).time = first g ∧ ((t.keys.get k).time + (t.keys.get k).dur) % 2 ^ 64 = keyEnd fs.flatten k g ∧
      (t.keys.get k).firstPart = (fs.flatten.take k).flatten.length ∧ (t.keys.get k).parts = g.length := by
  have hk := h.shows.keys k g hd hg
  obtain ⟨h1, h2, h3⟩ := h.keyEnd_bounds hg
  have hlen : g.length ≤ fs.flatten.flatten.length := by
    rw [take_flat _ k g hg]; simp only [List.length_append]; omega
  have hc := h.count
  refine ⟨hk.time, ?_, hk.firstPart, ?_⟩
  · rw [hk.time, hk.dur, Nat.mod_eq_of_lt h2, show first g + (keyEnd fs.flatten k g - first g) = keyEnd fs.flatten k g by omega, Nat.mod_eq_of_lt h3]
  · rw [hk.parts]; exact Nat.mod_eq_of_lt (by omega)

end Consistent

theorem key_loop (keys : Tab Key) (ts n i : Nat) :
    (∃ r, keyLoop keys ts n i = some r ∧ i ≤ r ∧ r < i + n ∧
      ((keys.get r).time = ts ∨ ((keys.get r).time + (keys.get r).dur) % 2 ^ 64 > ts) ∧
      ∀ j, i ≤ j → j < r → (keys.get j).time ≠ ts ∧ ((keys.get j).time + (keys.get j).dur) % 2 ^ 64 ≤ ts) ∨
    (keyLoop keys ts n i = none ∧ ∀ j, i ≤ j → j < i + n → (keys.get j).time ≠ ts ∧ ((keys.get j).time + (keys.get j).dur) % 2 ^ 64 ≤ ts) := by
  induction n generalizing i with
  | zero => exact .inr ⟨rfl, fun j h1 h2 => by omega⟩
  | succ n ih =>
    unfold keyLoop
    dsimp only
    split
    · rename_i hc
      exact .inl ⟨i, rfl, Nat.le_refl _, by omega, hc, fun j h1 h2 => by omega⟩
    · rename_i hc
      have hn : (keys.get i).time ≠ ts ∧ ((keys.get i).time + (keys.get i).dur) % 2 ^ 64 ≤ ts :=
        ⟨fun h => hc (.inl h), Nat.le_of_not_lt fun h => hc (.inr h)⟩
      rcases ih (i + 1) with ⟨r, h1, h2, h3, h4, h5⟩ | ⟨h1, h2⟩
      · refine .inl ⟨r, h1, by omega, by omega, h4, fun j hj hr => ?_⟩
        by_cases he : j = i
        · subst he; exact hn
        · exact h5 j (by omega) hr
      · refine .inr ⟨h1, fun j hj hr => ?_⟩
        by_cases he : j = i
        · subst he; exact hn
        · exact h2 j (by omega) (by omega)

/-- Unless the time is that of the stream's last packet or later, the lookup finds a key, and the packets before that key are earlier. -/
theorem key_index (h : Consistent video minFrag t fs d e) {ts : Nat} (hl : ts < t.lastms) :
    ∃ k g, keyIndexForTime t ts = k ∧ d ≤ k ∧ fs.flatten[k]? = some g ∧ (k = d ∨ first g ≤ ts) ∧ (first g = ts ∨ ts < keyEnd fs.flatten k g) := by
  have hd := h.dlt
  have hdel := h.shows.offKeys.del
  have hfin := h.shows.offKeys.fin
  unfold keyIndexForTime
  rw [hdel, hfin]
  rcases key_loop t.keys ts (fs.flatten.length - d) d with ⟨r, h1, h2, h3, h4, h5⟩ | ⟨h1, h2⟩
  · have hg : fs.flatten[r]? = some fs.flatten[r] := List.getElem?_eq_getElem (by omega)
    obtain ⟨k1, k2, _⟩ := h.key h2 hg
    rw [k2, k1] at h4
    refine ⟨r, _, by rw [h1]; rfl, h2, hg, ?_, h4⟩
    by_cases he : r = d
    · exact .inl he
    · right
      have hg' : fs.flatten[r - 1]? = some fs.flatten[r - 1] := List.getElem?_eq_getElem (by omega)
      obtain ⟨m1, m2, _⟩ := h.key (by omega) hg'
      have := (h5 (r - 1) (by omega) (by omega)).2
      rw [m2] at this
      unfold keyEnd at this
      rw [show r - 1 + 1 = r by omega, hg] at this
      exact this
  · exfalso
    have hg : fs.flatten[fs.flatten.length - 1]? = some fs.flatten[fs.flatten.length - 1] := List.getElem?_eq_getElem (by omega)
    obtain ⟨k1, k2, _⟩ := h.key (by omega) hg
    have := (h2 (fs.flatten.length - 1) (by omega) (by omega)).2
    rw [k2, h.keyEnd_last hg] at this
    omega

/-- Walking through the packets. -/
theorem part_loop (h : Consistent video minFrag t fs d e) {ts m : Nat} {q : Packet} (hm : fs.flatten.flatten[m]? = some q) (hq : ts ≤ q.time)
    (k : Nat) {i : Nat} (hi : i + k = m) (hgone : gone fs d ≤ i) {p : Packet} (hp : fs.flatten.flatten[i]? = some p)
    (hlt : ∀ j r, i ≤ j → j < m → fs.flatten.flatten[j]? = some r → r.time < ts) (n : Nat) (hn : i + n = fs.flatten.flatten.length) :
    partLoop t.parts ts n i p.time = m := by
  induction k generalizing i p n with
  | zero =>
    have : i = m := by omega
    subst this
    rw [hm] at hp; cases hp
    cases n with
    | zero => rfl
    | succ n => unfold partLoop; rw [if_pos hq]
  | succ k ih =>
    have hml : m < fs.flatten.flatten.length := (List.getElem?_eq_some_iff.mp hm).1
    obtain ⟨n, rfl⟩ : ∃ n', n = n' + 1 := ⟨n - 1, by omega⟩
    have hp' : fs.flatten.flatten[i + 1]? = some fs.flatten.flatten[i + 1] := List.getElem?_eq_getElem (by omega)
    unfold partLoop
    rw [if_neg (by have := hlt i p (Nat.le_refl _) (by omega) hp; omega)]
    have hdur := (h.shows.parts i p hgone hp).dur
    unfold partDur at hdur
    rw [hp', hp] at hdur
    have hle := times_lt h.strict hp hp' (by omega)
    have hsm := h.small _ (List.mem_of_getElem? hp')
    rw [hdur]
    simp only [Option.map_some, Option.getD_some]
    rw [show p.time + (fs.flatten.flatten[i + 1].time - p.time) = fs.flatten.flatten[i + 1].time by omega, Nat.mod_eq_of_lt hsm]
    exact ih (by omega) (by omega) hp' (fun j r h1 h2 h3 => hlt j r (by omega) h2 h3) n (by omega)

/-! ## C34 -/

/-- **C34** (before the last packet). Looking up a time that lies in a key's interval finds that key. -/
theorem C34_key_for_time_partial (h : Consistent video minFrag t fs d e) {ts k : Nat} {g : Group} (hd : d ≤ k) (hg : fs.flatten[k]? = some g)
    (h1 : first g ≤ ts) (h2 : ts < keyEnd fs.flatten k g) : keyIndexForTime t ts = k := by
  have hl : ts < t.lastms := Nat.lt_of_lt_of_le h2 (h.keyEnd_le_last hg)
  obtain ⟨r, g', hr, hdr, hg', ha, hb⟩ := key_index h hl
  rw [hr]
  rcases Nat.lt_trichotomy r k with hlt | heq | hgt
  · exfalso
    have hf := h.firsts_lt hg' hg hlt
    have := h.keyEnd_le_first (g := g') hg hlt
    omega
  · exact heq
  · exfalso
    have := h.keyEnd_le_first (g := g) hg' hgt
    omega

/-- **C34** (before the last packet). Looking up the packet for a time finds the first packet at or after it. -/
theorem C34_packet_for_time_partial (h : Consistent video minFrag t fs d e) {ts m : Nat} (hl : ts < t.lastms) (hm : FirstAt fs d m ts) :
    partIndex t ts = m := by
  obtain ⟨hgone, ⟨q, hq, hts⟩, hlt⟩ := hm
  obtain ⟨k, g, hk, hdk, hg, ha, _⟩ := key_index h hl
  obtain ⟨k1, k2, k3, k4⟩ := h.key hdk hg
  obtain ⟨p, hp, e1⟩ := h.firstPacket hg
  have hc := h.count
  have hpl := (List.getElem?_eq_some_iff.mp hp).1
  have hmono := take_flat_mono fs.flatten hdk
  have hle : (fs.flatten.take k).flatten.length ≤ m := by
    rcases ha with ha | ha
    · subst ha; exact hgone
    · apply Nat.le_of_not_lt
      intro hc
      have := times_lt h.strict hq hp hc
      omega
  unfold partIndex
  dsimp only
  rw [hk, k3, Nat.mod_eq_of_lt (by omega), k1, ← e1, h.shows.offParts.fin]
  exact part_loop h hq hts (m - (fs.flatten.take k).flatten.length) (by omega) hmono hp (fun j r h1 h2 h3 => hlt j r (by unfold gone; omega) h2 h3) _ (by omega)

/-! ### Fragments -/

theorem Consistent.fragTime (h : Consistent video minFrag t fs d e) {i : Nat} {f : List Group} (hi : e ≤ i) (hf : fs[i]? = some f) :
    (t.keys.get (t.frags.get i).firstKey).time = fragFirst f := by
  have hlen := h.len
  have hc := h.count
  have hil : i < fs.length := (List.getElem?_eq_some_iff.mp hf).1
  have hl := flat_len h.grouped.frags hil
  rw [(h.shows.frags i f hi hf).firstKey, Nat.mod_eq_of_lt (by omega)]
  have hfne : f ≠ [] := h.grouped.frags f (List.mem_of_getElem? hf)
  obtain ⟨g, r, rfl⟩ : ∃ g r, f = g :: r := ⟨_, _, (List.cons_head_tail hfne).symm⟩
  have hle : d ≤ (fs.take i).flatten.length := Nat.le_trans h.whole.1 (take_flat_mono fs hi)
  have hg : fs.flatten[(fs.take i).flatten.length]? = some g := by simpa using part_at fs i _ hf 0 (by simp)
  exact (h.key hle hg).1

theorem Consistent.frags_mono (h : Consistent video minFrag t fs d e) {i j : Nat} {f f' : List Group} (hf : fs[i]? = some f) (hf' : fs[j]? = some f')
    (hij : i ≤ j) : fragFirst f ≤ fragFirst f' := by
  obtain ⟨k, rfl⟩ : ∃ k, j = i + k := ⟨j - i, by omega⟩
  clear hij
  induction k generalizing f' with
  | zero => rw [Nat.add_zero, hf] at hf'; cases hf'; exact Nat.le_refl _
  | succ k ih =>
    have hk := (List.getElem?_eq_some_iff.mp hf').1
    have h1 : fs[i + k]? = some fs[i + k] := List.getElem?_eq_getElem (by omega)
    have := h.grouped.fragStarts (i + k) _ _ h1 hf'
    have := ih h1
    omega

theorem Consistent.fragPacket (h : Consistent video minFrag t fs d e) {i : Nat} {f : List Group} (hf : fs[i]? = some f) :
    ∃ q ∈ fs.flatten.flatten, q.time = fragFirst f := by
  have hfm : f ∈ fs := List.mem_of_getElem? hf
  obtain ⟨g, gs, rfl⟩ : ∃ g r, f = g :: r := ⟨_, _, (List.cons_head_tail (h.grouped.frags f hfm)).symm⟩
  have hgm : g ∈ fs.flatten := List.mem_flatten.mpr ⟨_, hfm, by simp⟩
  obtain ⟨q, qs, rfl⟩ : ∃ p r, g = p :: r := ⟨_, _, (List.cons_head_tail (h.grouped.keys g hgm)).symm⟩
  exact ⟨q, List.mem_flatten.mpr ⟨_, hgm, by simp⟩, rfl⟩

/-- The end of a fragment: the start of the next one or the last time of the track. -/
def fragEnd (t : Track) (fs : List (List Group)) (i : Nat) : Nat :=
  match fs[i + 1]? with
  | some e => fragFirst e
  | none => t.lastms

/-- What the loop compares with. -/
theorem Consistent.fragEntry (h : Consistent video minFrag t fs d e) {i : Nat} {f : List Group} (hi : e ≤ i) (hf : fs[i]? = some f) :
    ((t.keys.get (t.frags.get i).firstKey).time + (t.frags.get i).dur) % 2 ^ 64 = if i + 1 < fs.length then fragEnd t fs i else fragFirst f := by
  rw [h.fragTime hi hf, (h.shows.frags i f hi hf).dur]
  have hs := Short.frag h.grouped h.short i f hf
  rw [Nat.mod_eq_of_lt hs]
  obtain ⟨q, hq, e1⟩ := h.fragPacket hf
  have hqs := h.small q hq
  unfold fragDur fragEnd
  split
  · rename_i f' hf'
    have hlt := (List.getElem?_eq_some_iff.mp hf').1
    rw [if_pos hlt, hf']
    dsimp only
    have hm := h.frags_mono hf hf' (by omega)
    obtain ⟨q', hq', e2⟩ := h.fragPacket hf'
    have := h.small q' hq'
    rw [show fragFirst f + (fragFirst f' - fragFirst f) = fragFirst f' by omega, ← e2]
    exact Nat.mod_eq_of_lt this
  · rename_i hn
    have : ¬ i + 1 < fs.length := fun hlt => by rw [List.getElem?_eq_getElem hlt] at hn; cases hn
    rw [if_neg this, Nat.add_zero, ← e1]
    exact Nat.mod_eq_of_lt hqs

theorem frag_loop (t : Track) (ts : Nat) (n i k : Nat) (hik : i ≤ k) (hk : k < i + n)
    (hbefore : ∀ j, i ≤ j → j < k → ((t.keys.get (t.frags.get j).firstKey).time + (t.frags.get j).dur) % 2 ^ 64 ≤ ts)
    (hat : ts < ((t.keys.get (t.frags.get k).firstKey).time + (t.frags.get k).dur) % 2 ^ 64) : fragLoop t ts n i = some k := by
  induction n generalizing i with
  | zero => omega
  | succ n ih =>
    unfold fragLoop
    dsimp only
    by_cases he : i = k
    · subst he; rw [if_pos hat]
    · rw [if_neg (Nat.not_lt.mpr (hbefore i (Nat.le_refl _) (by omega)))]
      exact ih (i + 1) (by omega) (by omega) fun j h1 h2 => hbefore j (by omega) h2

theorem frag_loop_none (t : Track) (ts : Nat) (n i : Nat)
    (hall : ∀ j, i ≤ j → j < i + n → ((t.keys.get (t.frags.get j).firstKey).time + (t.frags.get j).dur) % 2 ^ 64 ≤ ts) : fragLoop t ts n i = none := by
  induction n generalizing i with
  | zero => rfl
  | succ n ih =>
    unfold fragLoop
    dsimp only
    rw [if_neg (Nat.not_lt.mpr (hall i (Nat.le_refl _) (by omega)))]
    exact ih (i + 1) fun j h1 h2 => hall j (by omega) (by omega)

/-- **C34** for fragments: looking up a time finds the fragment whose interval contains it. -/
theorem C34_fragment_for_time (h : Consistent video minFrag t fs d e) {ts i : Nat} {f : List Group} (hi : e ≤ i) (hf : fs[i]? = some f)
    (h1 : fragFirst f ≤ ts) (h2 : ts < fragEnd t fs i) : fragIndexForTime t ts = i := by
  have hil : i < fs.length := (List.getElem?_eq_some_iff.mp hf).1
  have before : ∀ j, e ≤ j → j < i → ((t.keys.get (t.frags.get j).firstKey).time + (t.frags.get j).dur) % 2 ^ 64 ≤ ts := by
    intro j hj hji
    rw [h.fragEntry hj (List.getElem?_eq_getElem (show j < fs.length by omega)), if_pos (by omega)]
    unfold fragEnd
    rw [List.getElem?_eq_getElem (show j + 1 < fs.length by omega)]
    dsimp only
    have := h.frags_mono (List.getElem?_eq_getElem (show j + 1 < fs.length by omega)) hf (by omega)
    omega
  unfold fragIndexForTime
  rw [h.shows.offFrags.fin, h.shows.offFrags.del]
  by_cases hl : i + 1 < fs.length
  · rw [frag_loop t ts (fs.length - e) e i hi (by omega) before (by rw [h.fragEntry hi hf, if_pos hl]; exact h2)]
  · rw [frag_loop_none t ts (fs.length - e) e fun j h3 h4 => ?_]
    · unfold fragEnd at h2
      rw [List.getElem?_eq_none (by omega)] at h2
      dsimp only
      rw [if_pos ⟨by omega, h2⟩]; omega
    · by_cases he : j = i
      · subst he; rw [h.fragEntry hi hf, if_neg hl]; exact h1
      · exact before j h3 (by omega)

/-! ### Key numbers -/

/-- Before a key, the packets are earlier than its first one. -/
theorem Consistent.before_key (h : Consistent video minFrag t fs d e) {k : Nat} (hk : d < k) {g g' : Group} (hg : fs.flatten[k]? = some g)
    (hg' : fs.flatten[k - 1]? = some g') :
    t.parts.start ≤ t.parts.del → (t.keys.get k).firstPart > t.parts.start ∧
      sub64 (t.keys.get k).time (t.parts.get ((t.keys.get k).firstPart - 1)).dur = last g' := by
  intro hstart
  obtain ⟨k1, _, k3, _⟩ := h.key (by omega) hg
  obtain ⟨p, hp, e1, hlt⟩ := h.lastPacket hg'
  obtain ⟨q, hq, e2⟩ := h.firstPacket hg
  rw [show k - 1 + 1 = k by omega] at hp hlt
  have hmono := take_flat_mono fs.flatten (show d ≤ k - 1 by omega)
  rw [h.shows.offParts.del] at hstart
  rw [k1, k3]
  refine ⟨by omega, ?_⟩
  have hdur := (h.shows.parts _ p (by omega) hp).dur
  unfold partDur at hdur
  rw [show (fs.flatten.take k).flatten.length - 1 + 1 = (fs.flatten.take k).flatten.length by omega, hq, hp] at hdur
  simp only [Option.map_some, Option.getD_some] at hdur
  have hpq := times_lt h.strict hp hq (by omega)
  have := h.small q (List.mem_of_getElem? hq)
  rw [hdur, ← e2, ← e1, sub64_eq (by omega) this]
  omega

/-- The loop goes on to the last key that is a better answer. -/
theorem key_num_loop (t : Track) (ts n i res k : Nat) (hik : i ≤ k) (hk : k < i + n)
    (hat : (t.keys.get k).time ≤ ts ∨ ((t.keys.get k).firstPart > t.parts.start ∧
      sub64 (t.keys.get k).time (t.parts.get ((t.keys.get k).firstPart - 1)).dur < ts))
    (hafter : ∀ j, k < j → j < i + n → (t.keys.get j).time > ts ∧
      ¬ ((t.keys.get j).firstPart > t.parts.start ∧ sub64 (t.keys.get j).time (t.parts.get ((t.keys.get j).firstPart - 1)).dur < ts)) :
    keyNumLoop t ts n i res = k := by
  induction n generalizing i res with
  | zero => omega
  | succ n ih =>
    have stay : ∀ n i, k < i → (∀ j, i ≤ j → j < i + n → (t.keys.get j).time > ts ∧
        ¬ ((t.keys.get j).firstPart > t.parts.start ∧ sub64 (t.keys.get j).time (t.parts.get ((t.keys.get j).firstPart - 1)).dur < ts)) →
        keyNumLoop t ts n i k = k := by
      intro n
      induction n with
      | zero => intro i _ _; rfl
      | succ n ih2 =>
        intro i h1 h2
        unfold keyNumLoop
        dsimp only
        obtain ⟨h3, h4⟩ := h2 i (Nat.le_refl _) (by omega)
        rw [if_pos h3, if_neg h4]
        exact ih2 (i + 1) (by omega) fun j h5 h6 => h2 j (by omega) (by omega)
    unfold keyNumLoop
    dsimp only
    by_cases he : i = k
    · subst he
      have : (if (t.keys.get i).time > ts then
          if (t.keys.get i).firstPart > t.parts.start ∧ sub64 (t.keys.get i).time (t.parts.get ((t.keys.get i).firstPart - 1)).dur < ts then i else res
          else i) = i := by
        split
        · rename_i h1
          rcases hat with hat | hat
          · omega
          · rw [if_pos hat]
        · rfl
      rw [this]
      exact stay n (i + 1) (by omega) fun j h1 h2 => hafter j (by omega) (by omega)
    · exact ih (i + 1) _ (by omega) (by omega) fun j h1 h2 => hafter j h1 (by omega)

/-- All keys are too late and do not follow on a packet before the time. -/
theorem key_num_loop_none (t : Track) (ts n i res : Nat)
    (hall : ∀ j, i ≤ j → j < i + n → (t.keys.get j).time > ts ∧ (j = res ∨
      ¬ ((t.keys.get j).firstPart > t.parts.start ∧ sub64 (t.keys.get j).time (t.parts.get ((t.keys.get j).firstPart - 1)).dur < ts))) :
    keyNumLoop t ts n i res = res := by
  induction n generalizing i with
  | zero => rfl
  | succ n ih =>
    unfold keyNumLoop
    dsimp only
    obtain ⟨h3, h4⟩ := hall i (Nat.le_refl _) (by omega)
    rw [if_pos h3]
    have : (if (t.keys.get i).firstPart > t.parts.start ∧ sub64 (t.keys.get i).time (t.parts.get ((t.keys.get i).firstPart - 1)).dur < ts then i else res) = res := by
      split
      · rcases h4 with h4 | h4
        · exact h4
        · rename_i hh; exact absurd hh h4
      · rfl
    rw [this]
    exact ih (i + 1) fun j h1 h2 => hall j (by omega) (by omega)

/-- **C34** for key numbers: the key that is found has the first packet at or after the time. `start ≤ del` holds of the table of
packets in every state that a history leads to (`Tab.Ok`). -/
theorem C34_key_number_for_time (h : Consistent video minFrag t fs d e) (hstart : t.parts.start ≤ t.parts.del) {ts k m : Nat} {g : Group}
    (hk : d ≤ k) (hg : fs.flatten[k]? = some g) (hm : FirstAt fs d m ts) (h1 : (fs.flatten.take k).flatten.length ≤ m)
    (h2 : m < (fs.flatten.take (k + 1)).flatten.length) : keyNumForTime t ts = some k := by
  obtain ⟨hgone, ⟨q, hq, hts⟩, hlt⟩ := hm
  have hkl := (List.getElem?_eq_some_iff.mp hg).1
  unfold keyNumForTime
  rw [h.shows.offKeys.fin, h.shows.offKeys.del, if_neg (by omega)]
  -- the keys after it
  have after : ∀ j, k < j → j < fs.flatten.length → (t.keys.get j).time > ts ∧
      ¬ ((t.keys.get j).firstPart > t.parts.start ∧ sub64 (t.keys.get j).time (t.parts.get ((t.keys.get j).firstPart - 1)).dur < ts) := by
    intro j hkj hj
    have hgj : fs.flatten[j]? = some fs.flatten[j] := List.getElem?_eq_getElem hj
    have hgj' : fs.flatten[j - 1]? = some fs.flatten[j - 1] := List.getElem?_eq_getElem (by omega)
    obtain ⟨_, hb⟩ := h.before_key (by omega) hgj hgj' hstart
    obtain ⟨k1, _, _, _⟩ := h.key (by omega) hgj
    obtain ⟨p, hp, e1, hl⟩ := h.lastPacket hgj'
    obtain ⟨u, hu, e2⟩ := h.firstPacket hgj
    have hmono := take_flat_mono fs.flatten (show k + 1 ≤ j by omega)
    rw [show j - 1 + 1 = j by omega] at hp hl
    have hqp : q.time ≤ p.time := by
      by_cases he : m = (fs.flatten.take j).flatten.length - 1
      · rw [he, hp] at hq; cases hq; exact Nat.le_refl _
      · exact Nat.le_of_lt (times_lt h.strict hq hp (by omega))
    have hqu := times_lt h.strict hq hu (by omega)
    refine ⟨by rw [k1, ← e2]; omega, ?_⟩
    rw [hb, ← e1]
    omega
  congr 1
  by_cases hc : first g ≤ ts
  · exact key_num_loop t ts _ _ _ k hk (by omega) (.inl (by rw [(h.key hk hg).1]; exact hc)) fun j h3 h4 => after j h3 (by omega)
  · obtain ⟨p, hp, e1⟩ := h.firstPacket hg
    by_cases hkd : k = d
    · subst hkd
      refine key_num_loop_none t ts _ _ _ fun j h3 h4 => ?_
      by_cases hj : j = k
      · subst hj; exact ⟨by rw [(h.key hk hg).1]; omega, .inl rfl⟩
      · have := after j (by omega) (by omega)
        exact ⟨this.1, .inr this.2⟩
    · have hg' : fs.flatten[k - 1]? = some fs.flatten[k - 1] := List.getElem?_eq_getElem (by omega)
      obtain ⟨hb1, hb2⟩ := h.before_key (by omega) hg hg' hstart
      obtain ⟨u, hu, e2, hl⟩ := h.lastPacket hg'
      rw [show k - 1 + 1 = k by omega] at hu hl
      have hmono := take_flat_mono fs.flatten (show d ≤ k - 1 by omega)
      have := hlt _ u (by unfold gone; omega) (by omega) hu
      exact key_num_loop t ts _ _ _ k hk (by omega) (.inr ⟨hb1, by rw [hb2, ← e2]; exact this⟩) fun j h3 h4 => after j h3 (by omega)

/-- **C34** for key numbers, after the last packet: the last key. -/
theorem C34_key_number_after_end (h : Consistent video minFrag t fs d e) {ts : Nat} (hl : t.lastms < ts) :
    keyNumForTime t ts = some (fs.flatten.length - 1) := by
  have hd := h.dlt
  unfold keyNumForTime
  rw [h.shows.offKeys.fin, h.shows.offKeys.del, if_neg (by omega)]
  congr 1
  have hg : fs.flatten[fs.flatten.length - 1]? = some fs.flatten[fs.flatten.length - 1] := List.getElem?_eq_getElem (by omega)
  refine key_num_loop t ts _ _ _ _ (by omega) (by omega) (.inl ?_) fun j h3 h4 => by omega
  rw [(h.key (by omega) hg).1]
  have := h.keyEnd_le_last hg
  have := (h.keyEnd_bounds hg).1
  omega

/-! ### Limited views -/

theorem index_loop (keys : Tab Key) (ts n i k : Nat) (hik : i ≤ k) (hk : k < i + n)
    (hat : (keys.get k).time ≥ ts ∨ ((keys.get k).time + (keys.get k).dur) % 2 ^ 64 > ts)
    (hbefore : ∀ j, i ≤ j → j < k → ¬ ((keys.get j).time ≥ ts ∨ ((keys.get j).time + (keys.get j).dur) % 2 ^ 64 > ts)) :
    indexLoop keys ts n i = some k := by
  induction n generalizing i with
  | zero => omega
  | succ n ih =>
    unfold indexLoop
    dsimp only
    by_cases he : i = k
    · subst he; rw [if_pos hat]
    · rw [if_neg (hbefore i (Nat.le_refl _) (by omega))]
      exact ih (i + 1) (by omega) (by omega) fun j h1 h2 => hbefore j (by omega) h2

/-- **C34** for `Keys::getIndexForTime`: looking up a time finds the key whose interval contains it, and the last key for the last packet's time. -/
theorem C34_index_for_time (h : Consistent video minFrag t fs d e) {ts k : Nat} {g : Group} (hk : d ≤ k) (hg : fs.flatten[k]? = some g)
    (h1 : first g ≤ ts) (h2 : ts < keyEnd fs.flatten k g ∨ (k + 1 = fs.flatten.length ∧ ts = t.lastms)) : indexForTime t ts = k := by
  have hkl := (List.getElem?_eq_some_iff.mp hg).1
  have before : ∀ j, d ≤ j → j < k → ¬ ((t.keys.get j).time ≥ ts ∨ ((t.keys.get j).time + (t.keys.get j).dur) % 2 ^ 64 > ts) := by
    intro j hj hjk
    have hgj : fs.flatten[j]? = some fs.flatten[j] := List.getElem?_eq_getElem (by omega)
    obtain ⟨k1, k2, _⟩ := h.key hj hgj
    have := h.firsts_lt hgj hg hjk
    have := h.keyEnd_le_first (g := fs.flatten[j]) hg hjk
    rw [k2, k1]; omega
  obtain ⟨k1, k2, _⟩ := h.key hk hg
  unfold indexForTime
  rw [h.shows.offKeys.fin, h.shows.offKeys.del]
  by_cases hc : (t.keys.get k).time ≥ ts ∨ ((t.keys.get k).time + (t.keys.get k).dur) % 2 ^ 64 > ts
  · rw [index_loop t.keys ts _ _ k hk (by omega) hc before]; rfl
  · rcases h2 with h2 | ⟨h2, h3⟩
    · exact absurd (.inr (by rw [k2]; exact h2)) hc
    · have : indexLoop t.keys ts (fs.flatten.length - d) d = none := by
        have : ∀ n i, d ≤ i → i + n = fs.flatten.length → indexLoop t.keys ts n i = none := by
          intro n
          induction n with
          | zero => intro i _ _; rfl
          | succ n ih =>
            intro i h4 h5
            unfold indexLoop
            dsimp only
            rw [if_neg, ih (i + 1) (by omega) (by omega)]
            by_cases he : i = k
            · subst he; exact hc
            · exact before i h4 (by omega)
        exact this _ _ (Nat.le_refl _) (by omega)
      rw [this, Option.getD_none, if_pos (by omega)]; omega

/-! ### Times of packets -/

theorem dur_loop (h : Consistent video minFrag t fs d e) (k : Nat) {i : Nat} (hgone : gone fs d ≤ i) {p q : Packet}
    (hp : fs.flatten.flatten[i]? = some p) (hq : fs.flatten.flatten[i + k]? = some q) : durLoop t.parts k i p.time = q.time := by
  induction k generalizing i p with
  | zero => rw [Nat.add_zero, hp] at hq; cases hq; rfl
  | succ k ih =>
    have hml := (List.getElem?_eq_some_iff.mp hq).1
    have hp' : fs.flatten.flatten[i + 1]? = some fs.flatten.flatten[i + 1] := List.getElem?_eq_getElem (by omega)
    unfold durLoop
    have hdur := (h.shows.parts i p hgone hp).dur
    unfold partDur at hdur
    rw [hp', hp] at hdur
    have hle := times_lt h.strict hp hp' (by omega)
    have hsm := h.small _ (List.mem_of_getElem? hp')
    rw [hdur]
    simp only [Option.map_some, Option.getD_some]
    rw [show p.time + (fs.flatten.flatten[i + 1].time - p.time) = fs.flatten.flatten[i + 1].time by omega, Nat.mod_eq_of_lt hsm]
    exact ih (by omega) hp' (by rw [show i + 1 + k = i + (k + 1) by omega]; exact hq)

/-- **C34** (before anything is removed). The time found for a packet's number is that packet's. -/
theorem C34_time_of_packet_partial (h : Consistent video minFrag t fs 0 e) {i : Nat} {q : Packet} (hq : fs.flatten.flatten[i]? = some q) :
    partTime t i = q.time := by
  have hil := (List.getElem?_eq_some_iff.mp hq).1
  have hc := h.count
  unfold partTime
  rw [h.shows.offKeys.fin]
  have : ∀ n k, k + n = fs.flatten.length → (fs.flatten.take k).flatten.length ≤ i → partTimeLoop t i n k = q.time := by
    intro n
    induction n with
    | zero =>
      intro k hk hle
      rw [show k = fs.flatten.length by omega, List.take_length] at hle
      omega
    | succ n ih =>
      intro k hk hle
      have hg : fs.flatten[k]? = some fs.flatten[k] := List.getElem?_eq_getElem (by omega)
      obtain ⟨k1, _, k3, k4⟩ := h.key (Nat.zero_le _) hg
      obtain ⟨p, hp, e1⟩ := h.firstPacket hg
      have hs : (fs.flatten.take (k + 1)).flatten.length = (fs.flatten.take k).flatten.length + fs.flatten[k].length := by
        rw [take_flat_succ _ k _ hg, List.length_append]
      have hbound : (fs.flatten.take k).flatten.length + fs.flatten[k].length ≤ fs.flatten.flatten.length := by
        rw [take_flat _ k _ hg]; simp only [List.length_append]; omega
      unfold partTimeLoop
      dsimp only
      rw [k3, k4, Nat.mod_eq_of_lt (by omega)]
      by_cases hgt : (fs.flatten.take k).flatten.length + fs.flatten[k].length > i
      · rw [if_pos hgt, k1, ← e1]
        exact dur_loop h _ (by simp [gone]) hp (by rw [show (fs.flatten.take k).flatten.length + (i - (fs.flatten.take k).flatten.length) = i by omega]; exact hq)
      · rw [if_neg hgt]
        exact ih (k + 1) (by omega) (by omega)
  exact this _ 0 (by omega) (by simp)

/-! ### Consistent indexes -/

/-- Every history leads to a consistent index, if the packets that were accepted have different times and are less than 2^32
milliseconds apart. -/
theorem C34_histories_consistent (video : Bool) (setting : Nat) {np nk nf : Nat} (hp : 0 < np) (hk : 0 < nk) (hf : 0 < nf)
    (ops : List Op) (h : Moderate (packets ops)) (hne : packets ops ≠ []) (hshort : Short (accepted 0 (packets ops)))
    (hstrict : ((accepted 0 (packets ops)).map Packet.time).Pairwise (· < ·)) (t : Track) (ht : run (newTrack video setting np nk nf) ops = some t) :
    t.parts.start ≤ t.parts.del ∧ ∃ fs d e, fs.flatten.flatten = accepted 0 (packets ops) ∧ Consistent video (minFragOf setting) t fs d e := by
  rcases run_new video setting hp hk hf ops h with ⟨u, fs, d, e, er, hi, hfl, hd, hv, hm⟩ | ⟨er, _⟩
  · rw [er] at ht; cases ht
    have hfs : fs ≠ [] := by
      intro hh
      rw [hh] at hfl
      cases hq : packets ops with
      | nil => exact hne hq
      | cons p r => rw [hq] at hfl; simp [accepted] at hfl
    have := accepted_length 0 (packets ops)
    have := h.count
    exact ⟨hi.parts.ok.start, fs, d, e, hfl, by rw [← hv, ← hm]; exact hi.grouped, hi.shows, ⟨hi.cover, hi.tight⟩, hfs, hi.left hfs, by rw [hfl]; exact hshort,
      by rw [hfl]; exact hstrict, by rw [hfl]; exact fun p hp => (h.fits p (accepted_sub _ _ p hp)).1, by rw [hfl]; omega⟩
  · rw [er] at ht; cases ht

/-- The sample history leads to a consistent index. -/
example : ∃ t fs d e, run (newTrack true 0 1 1 1) sample = some t ∧ Consistent true 1900 t fs d e ∧ fs.flatten.flatten.length = 8 := by
  obtain ⟨_, fs, d, e, h1, h2⟩ := C34_histories_consistent true 0 (np := 1) (nk := 1) (nf := 1) (by decide) (by decide) (by decide) sample sample_moderate (by decide)
    (by simp [Short, sample, packets, accepted, pk]) (by decide) _ rfl
  exact ⟨_, fs, d, e, rfl, h2, by rw [h1]; decide⟩

/-! ### Where the code differs -/

/-- **C34** fails for the last packet: of the packets at 1000 and 1040 milliseconds, a lookup of 1040 finds key 1 and packet 2, which
do not exist. -/
theorem C34_last_packet_fails : ∃ t, run (newTrack true 0 8 8 8) [.packet (pk 1000 true), .packet (pk 1040)] = some t ∧ t.keys.fin = 1 ∧
    t.parts.fin = 2 ∧ keyIndexForTime t 1040 = 1 ∧ partIndex t 1040 = 2 :=
  ⟨_, rfl, by decide +kernel, by decide +kernel, by decide +kernel, by decide +kernel⟩

/-- **C34** fails for times of packets after removals: with room for four keys, after two of the first four keys have been removed
and two more have come, packet 2 (at 4000 milliseconds) is said to be at 8000. -/
theorem C34_time_of_packet_fails : ∃ t, run (newTrack true 0 8 4 8) ((List.range 4).map (fun i => .packet (pk (2000 * i) true)) ++ [.remove, .remove,
      .packet (pk 8000 true), .packet (pk 8040), .packet (pk 8080), .packet (pk 10000 true)]) = some t ∧
    (partTime t 2, t.parts.del) = (8000, 2) :=
  ⟨_, rfl, by decide +kernel⟩

end Verif.Index
