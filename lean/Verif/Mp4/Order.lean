import Verif.Hls.Fetch
import Verif.Mp4.Write

/-! # The packets of a segment, as the index has them -/
namespace Verif.Mp4
open Verif.Bit Verif.Index Verif.Hls

/-- A time whose packet the index finds: one before the last packet, or the time of a key that is still there. -/
def Known (t : Track) (fs : List (List Group)) (d ts : Nat) : Prop :=
  ts < t.lastms ∨ ∃ k g, d ≤ k ∧ fs.flatten[k]? = some g ∧ first g = ts

variable {video : Bool} {minFrag : Nat} {t : Track} {fs : List (List Group)} {d e : Nat}

/-- The packet of a key's time is its first one. -/
theorem part_of_key (h : Consistent video minFrag t fs d e) {k : Nat} {g : Group} (hd : d ≤ k) (hg : fs.flatten[k]? = some g) :
    partIndex t (first g) = (fs.flatten.take k).flatten.length := by
  obtain ⟨k1, k2, k3, k4⟩ := h.key hd hg
  obtain ⟨p, hp, _⟩ := h.firstPacket hg
  have hpl := (List.getElem?_eq_some_iff.mp hp).1
  have hkl := (List.getElem?_eq_some_iff.mp hg).1
  have hc := h.count
  have hk : keyIndexForTime t (first g) = k := by
    unfold keyIndexForTime
    rw [h.shows.offKeys.del, h.shows.offKeys.fin]
    rcases key_loop t.keys (first g) (fs.flatten.length - d) d with ⟨r, h1, h2, h3, h4, h5⟩ | ⟨h1, h2⟩
    · rw [h1, Option.getD_some]
      rcases Nat.lt_trichotomy r k with hlt | heq | hgt
      · exfalso
        have hr : fs.flatten[r]? = some fs.flatten[r] := List.getElem?_eq_getElem (by omega)
        obtain ⟨r1, r2, _⟩ := h.key h2 hr
        rw [r2, r1] at h4
        have := h.firsts_lt hr hg hlt
        have := h.keyEnd_le_first (g := fs.flatten[r]) hg hlt
        omega
      · exact heq
      · exact absurd k1 (h5 k hd hgt).1
    · exact absurd k1 (h2 k hd (by omega)).1
  unfold partIndex
  dsimp only
  rw [hk, k3, Nat.mod_eq_of_lt (by omega), k1, h.shows.offParts.fin]
  obtain ⟨n, hn⟩ : ∃ n, fs.flatten.flatten.length - (fs.flatten.take k).flatten.length = n + 1 :=
    ⟨fs.flatten.flatten.length - (fs.flatten.take k).flatten.length - 1, by omega⟩
  rw [hn]
  unfold partLoop
  rw [if_pos (Nat.le_refl _)]

/-- The packet found for a known time is the first one, of those that are there, at or after it. -/
theorem known_part (h : Consistent video minFrag t fs d e) {ts : Nat} (hk : Known t fs d ts) : FirstAt fs d (partIndex t ts) ts := by
  rcases hk with hk | ⟨k, g, hd, hg, rfl⟩
  · obtain ⟨m, hm⟩ : ∃ m, FirstAt fs d m ts := by
      have hn : ∃ n, gone fs d ≤ n ∧ ∃ p, fs.flatten.flatten[n]? = some p ∧ ts ≤ p.time := by
        have hd := h.dlt
        have hg : fs.flatten[fs.flatten.length - 1]? = some fs.flatten[fs.flatten.length - 1] := List.getElem?_eq_getElem (by omega)
        obtain ⟨p, hp, e1, hlt⟩ := h.lastPacket hg
        refine ⟨_, ?_, p, hp, ?_⟩
        · have := take_flat_mono fs.flatten (show d ≤ fs.flatten.length - 1 by omega)
          unfold gone; omega
        · have h1 := h.keyEnd_last hg
          unfold keyEnd at h1
          rw [show fs.flatten.length - 1 + 1 = fs.flatten.length by omega, List.getElem?_eq_none (Nat.le_refl _)] at h1
          dsimp only at h1
          omega
      obtain ⟨n, hn⟩ := hn
      induction n using Nat.strongRecOn with
      | ind n ih =>
        by_cases hex : ∃ j q, gone fs d ≤ j ∧ j < n ∧ fs.flatten.flatten[j]? = some q ∧ ts ≤ q.time
        · obtain ⟨j, q, h1, h2, h3, h4⟩ := hex
          exact ih j h2 ⟨h1, q, h3, h4⟩
        · refine ⟨n, hn.1, hn.2, fun j q h1 h2 h3 => ?_⟩
          apply Nat.lt_of_not_le
          intro h4
          exact hex ⟨j, q, h1, h2, h3, h4⟩
    rw [C34_packet_for_time_partial h hk hm]; exact hm
  · rw [part_of_key h hd hg]
    obtain ⟨p, hp, e1⟩ := h.firstPacket hg
    refine ⟨take_flat_mono _ hd, ⟨p, hp, by omega⟩, fun j q h1 h2 h3 => ?_⟩
    rw [← e1]; exact times_lt h.strict h3 hp h2

/-- The packets that are there from one time up to another are those from one index up to another. -/
theorem between_parts (h : Consistent video minFrag t fs d e) {s f a b : Nat} (ha : FirstAt fs d a s) (hb : FirstAt fs d b f) (hsf : s ≤ f) :
    a ≤ b ∧ between s f (fs.flatten.flatten.drop (gone fs d)) = (fs.flatten.flatten.drop a).take (b - a) := by
  obtain ⟨a1, ⟨p, hp, a2⟩, a3⟩ := ha
  obtain ⟨b1, ⟨q, hq, b2⟩, b3⟩ := hb
  have hab : a ≤ b := by
    apply Nat.le_of_not_lt
    intro hc
    have := a3 b q b1 hc hq
    omega
  refine ⟨hab, ?_⟩
  have hpl := (List.getElem?_eq_some_iff.mp hp).1
  have hql := (List.getElem?_eq_some_iff.mp hq).1
  have split : fs.flatten.flatten.drop (gone fs d) = (fs.flatten.flatten.drop (gone fs d)).take (a - gone fs d) ++
      ((fs.flatten.flatten.drop a).take (b - a) ++ fs.flatten.flatten.drop b) := by
    rw [show fs.flatten.flatten.drop b = (fs.flatten.flatten.drop a).drop (b - a) by rw [List.drop_drop]; congr 1; omega, List.take_append_drop,
      show fs.flatten.flatten.drop a = (fs.flatten.flatten.drop (gone fs d)).drop (a - gone fs d) by rw [List.drop_drop]; congr 1; omega, List.take_append_drop]
  rw [split]
  unfold between
  rw [List.filter_append, List.filter_append]
  have e1 : ((fs.flatten.flatten.drop (gone fs d)).take (a - gone fs d)).filter (fun p => decide (s ≤ p.time ∧ p.time < f)) = [] := by
    rw [List.filter_eq_nil_iff]
    intro x hx
    obtain ⟨i, hi, rfl⟩ := List.mem_iff_getElem.mp hx
    rw [List.length_take, List.length_drop] at hi
    rw [List.getElem_take, List.getElem_drop]
    have := a3 (gone fs d + i) _ (by omega) (by omega) (List.getElem?_eq_getElem (by omega))
    simp; omega
  have e2 : ((fs.flatten.flatten.drop a).take (b - a)).filter (fun p => decide (s ≤ p.time ∧ p.time < f)) = (fs.flatten.flatten.drop a).take (b - a) := by
    rw [List.filter_eq_self]
    intro x hx
    obtain ⟨i, hi, rfl⟩ := List.mem_iff_getElem.mp hx
    rw [List.length_take, List.length_drop] at hi
    rw [List.getElem_take, List.getElem_drop]
    have h1 := b3 (a + i) _ (by omega) (by omega) (List.getElem?_eq_getElem (by omega))
    have h2 : s ≤ fs.flatten.flatten[a + i].time := by
      by_cases hi0 : i = 0
      · subst hi0
        have := List.getElem?_eq_getElem hpl
        rw [hp] at this; injection this with this; subst this; exact a2
      · have := times_lt h.strict hp (List.getElem?_eq_getElem (show a + i < _ by omega)) (by omega)
        omega
    simp; omega
  have e3 : (fs.flatten.flatten.drop b).filter (fun p => decide (s ≤ p.time ∧ p.time < f)) = [] := by
    rw [List.filter_eq_nil_iff]
    intro x hx
    obtain ⟨i, hi, rfl⟩ := List.mem_iff_getElem.mp hx
    rw [List.length_drop] at hi
    rw [List.getElem_drop]
    by_cases hi0 : i = 0
    · subst hi0
      have := List.getElem?_eq_getElem hql
      rw [hq] at this; cases this; simp; omega
    · have := times_lt h.strict hq (List.getElem?_eq_getElem (show b + i < _ by omega)) (by omega)
      simp; omega
  rw [e1, e2, e3, List.nil_append, List.append_nil]

/-- One packet after the other. -/
def trail (parts : Tab Part) : Nat → SortPart → List SortPart
  | 0, _ => []
  | k + 1, x => x :: trail parts k ⟨(x.time + (parts.get x.part).dur) % 2 ^ 64, x.part + 1, x.pos + (parts.get x.part).size⟩

theorem trail_length (parts : Tab Part) (k : Nat) (x : SortPart) : (trail parts k x).length = k := by
  induction k generalizing x with
  | zero => rfl
  | succ k ih => unfold trail; rw [List.length_cons, ih]

theorem insert_last (x : SortPart) (S : List SortPart) (h : ∀ y ∈ S, y.time < x.time) : setInsert x S = S ++ [x] := by
  induction S with
  | nil => rfl
  | cons y r ih =>
    have := h y (by simp)
    unfold setInsert
    rw [if_neg (by omega), if_pos this, ih fun z hz => h z (by simp [hz])]; rfl

/-- What the next packet's entry holds. -/
theorem part_next (h : Consistent video minFrag t fs d e) {i : Nat} (hi : gone fs d ≤ i) {p q : Packet} (hp : fs.flatten.flatten[i]? = some p)
    (hq : fs.flatten.flatten[i + 1]? = some q) :
    (t.parts.get i).size = p.size ∧ (t.parts.get i).off = p.off ∧ (t.parts.get i).dur = q.time - p.time ∧ p.time < q.time := by
  have hs := h.shows.parts i p hi hp
  have hd := hs.dur
  unfold partDur at hd
  rw [hq, hp] at hd
  exact ⟨hs.size, hs.off, hd, times_lt h.strict hp hq (by omega)⟩

theorem order_loop (h : Consistent video minFrag t fs d e) (k : Nat) (x : SortPart) (S : List SortPart) (hg : gone fs d ≤ x.part)
    {p q : Packet} (hp : fs.flatten.flatten[x.part]? = some p) (hq : fs.flatten.flatten[x.part + k]? = some q)
    (hbig : x.time + (q.time - p.time) < 2 ^ 64) (hS : ∀ y ∈ S, y.time < x.time) :
    orderLoop t.parts k x S = S ++ trail t.parts k x := by
  induction k generalizing x S p with
  | zero => simp [orderLoop, trail]
  | succ k ih =>
    have hql := (List.getElem?_eq_some_iff.mp hq).1
    have hn : fs.flatten.flatten[x.part + 1]? = some fs.flatten.flatten[x.part + 1] := List.getElem?_eq_getElem (by omega)
    obtain ⟨n1, n2, n3, n4⟩ := part_next h hg hp hn
    have hle : fs.flatten.flatten[x.part + 1].time ≤ q.time := by
      by_cases hk : k = 0
      · subst hk; rw [Nat.zero_add, hn] at hq; injection hq with hq; rw [hq]; exact Nat.le_refl _
      · exact Nat.le_of_lt (times_lt h.strict hn hq (by omega))
    unfold orderLoop trail
    rw [insert_last x S hS, n3, Nat.mod_eq_of_lt (by omega), List.append_cons S x (trail _ _ _)]
    refine ih ⟨_, _, _⟩ _ (by show _ ≤ x.part + 1; omega) hn (by show fs.flatten.flatten[x.part + 1 + k]? = _; rw [← hq]; congr 1; omega) (by show x.time + (fs.flatten.flatten[x.part + 1].time - p.time) + _ < _; omega) fun y hy => ?_
    show _ < x.time + (fs.flatten.flatten[x.part + 1].time - p.time)
    rcases List.mem_append.mp hy with hy | hy
    · have := hS y hy; omega
    · rw [List.mem_singleton] at hy; subst hy; omega

/-- The bytes of packets. -/
def bytes (ps : List Packet) : Nat := (ps.map Packet.size).sum

theorem trail_at (h : Consistent video minFrag t fs d e) (k : Nat) (x : SortPart) (hg : gone fs d ≤ x.part)
    {p q : Packet} (hp : fs.flatten.flatten[x.part]? = some p) (hq : fs.flatten.flatten[x.part + k]? = some q)
    (hbig : x.time + (q.time - p.time) < 2 ^ 64) (i : Nat) (hi : i < k) (r : Packet) (hr : fs.flatten.flatten[x.part + i]? = some r) :
    (trail t.parts k x)[i]? = some ⟨x.time + (r.time - p.time), x.part + i, x.pos + bytes ((fs.flatten.flatten.drop x.part).take i)⟩ := by
  induction k generalizing x p i with
  | zero => omega
  | succ k ih =>
    have hql := (List.getElem?_eq_some_iff.mp hq).1
    have hn : fs.flatten.flatten[x.part + 1]? = some fs.flatten.flatten[x.part + 1] := List.getElem?_eq_getElem (by omega)
    obtain ⟨n1, n2, n3, n4⟩ := part_next h hg hp hn
    have hle : fs.flatten.flatten[x.part + 1].time ≤ q.time := by
      by_cases hk : k = 0
      · subst hk; rw [Nat.zero_add, hn] at hq; injection hq with hq; rw [hq]; exact Nat.le_refl _
      · exact Nat.le_of_lt (times_lt h.strict hn hq (by omega))
    unfold trail
    cases i with
    | zero =>
      rw [Nat.add_zero, hp] at hr; cases hr
      simp [bytes]
    | succ i =>
      rw [List.getElem?_cons_succ, n3, n1, Nat.mod_eq_of_lt (by omega)]
      have hle2 : fs.flatten.flatten[x.part + 1].time ≤ r.time := by
        by_cases hk : i = 0
        · subst hk; rw [Nat.zero_add, hn] at hr; injection hr with hr; rw [hr]; exact Nat.le_refl _
        · exact Nat.le_of_lt (times_lt h.strict hn hr (by omega))
      rw [ih _ (by dsimp only; omega) hn (by dsimp only; rw [← hq]; congr 1; omega) (by dsimp only; omega) i (by omega)
        (by dsimp only; rw [← hr]; congr 1; omega)]
      dsimp only
      have hd : fs.flatten.flatten.drop x.part = p :: fs.flatten.flatten.drop (x.part + 1) := by
        obtain ⟨h1, rfl⟩ := List.getElem?_eq_some_iff.mp hp
        exact List.drop_eq_getElem_cons h1
      rw [hd, List.take_succ_cons, show bytes (p :: List.take i (fs.flatten.flatten.drop (x.part + 1))) = p.size + bytes (List.take i (fs.flatten.flatten.drop (x.part + 1))) from rfl]
      congr 1
      have : x.part + 1 + i = x.part + (i + 1) := by omega
      have h3 : x.time + (fs.flatten.flatten[x.part + 1].time - p.time) + (r.time - fs.flatten.flatten[x.part + 1].time) = x.time + (r.time - p.time) := by omega
      rw [h3, this]
      congr 1
      omega

theorem size_loop (h : Consistent video minFrag t fs d e) (k i : Nat) (hg : gone fs d ≤ i) (hk : i + k ≤ fs.flatten.flatten.length) :
    sizeLoop t.parts k i = bytes ((fs.flatten.flatten.drop i).take k) := by
  induction k generalizing i with
  | zero => rfl
  | succ k ih =>
    have hp : fs.flatten.flatten[i]? = some fs.flatten.flatten[i] := List.getElem?_eq_getElem (by omega)
    unfold sizeLoop
    rw [ih (i + 1) (by omega) (by omega), (h.shows.parts i _ hg hp).size, List.drop_eq_getElem_cons (show i < _ by omega), List.take_succ_cons]
    rfl

theorem samples_length (t : Track) (f : Nat) (l : List SortPart) : (samplesOf t f l).length = l.length := by
  induction l with
  | nil => rfl
  | cons x r ih =>
    cases r with
    | nil => rfl
    | cons y r => unfold samplesOf; rw [List.length_cons, ih]; rfl

theorem samples_at (t : Track) (f : Nat) (l : List SortPart) (i : Nat) (x : SortPart) (hx : l[i]? = some x) :
    (samplesOf t f l)[i]? = some (sampleOf t f (decide (i + 1 = l.length)) x) := by
  induction l generalizing i with
  | nil => simp at hx
  | cons y r ih =>
    cases r with
    | nil =>
      cases i with
      | zero => simp at hx; subst hx; rfl
      | succ i => simp at hx
    | cons z r =>
      unfold samplesOf
      cases i with
      | zero => simp at hx; subst hx; simp
      | succ i =>
        rw [List.getElem?_cons_succ] at hx ⊢
        rw [ih i hx]
        simp

end Verif.Mp4
