import Verif.Ogg.Send

namespace Verif.Ogg
open Verif

/-- How long the last packet of a queue is, and one. -/
def weight (q : List Seg) : Nat := match q.getLast? with | none => 0 | some s => s.data.length + 1

theorem weight_append (l : List Seg) (s : Seg) : weight (l ++ [s]) = s.data.length + 1 := by simp [weight]

theorem weight_sends {force : Option Nat} {t t' : Track} {p : Page} (h : Sends force t t' p) (hq : t.queue ≠ []) : weight t'.queue < weight t.queue ∧ (t'.queue.length ≤ 1) ∧ (cnt (t.queue.map (·.data)) ≤ 255 → t'.queue = []) := by
  rcases h.cases with ⟨h1, _⟩ | ⟨l, s, left, h0, hl0, hl1, _, hn, h1, _⟩
  · obtain ⟨l, s, hl⟩ := queue_split hq
    rw [h1, hl, weight_append]
    exact ⟨by show 0 < _; omega, by simp, fun _ => rfl⟩
  · rw [h1, h0, weight_append]
    refine ⟨?_, by simp, fun c => ?_⟩
    · show (s.data.drop left).length + 1 < _
      rw [List.length_drop]; omega
    · rw [h0] at hn; omega

theorem fit_single {q : List Seg} (h : q.length ≤ 1) (ho : ∀ s ∈ q, Odd s.data) : Fit q where
  room := by
    have : q.dropLast = [] := List.eq_nil_of_length_eq_zero (by simp; omega)
    rw [this]; exact Nat.zero_le _
  odd := ho

theorem shouldSend_laces {t : Track} (h : shouldSend t = false) : cnt (t.queue.map (·.data)) ≤ 254 := by
  by_cases hq : t.queue = []
  · rw [hq]; exact Nat.zero_le _
  · obtain ⟨l, s, hl⟩ := queue_split hq
    unfold shouldSend at h
    have : t.queue.getLast? = some s := by rw [hl]; simp
    rw [this] at h
    simp only [Bool.or_eq_false_iff, decide_eq_false_iff_not, laces_eq] at h
    omega

/-- A number below 2^31 passes. -/
theorem through_small {g : Nat} (h : g < 2 ^ 31) : throughInt g = g ∧ g < 256 ^ 8 := by
  unfold throughInt
  rw [Nat.mod_eq_of_lt (by omega), if_pos h]
  exact ⟨rfl, by omega⟩

/-- The granule positions of a queue are below 2^31. -/
def Small (t : Track) : Prop := ∀ s ∈ t.queue, granuleOf t.codec s < 2 ^ 31

theorem small_sends {force : Option Nat} {t t' : Track} {p : Page} (h : Sends force t t' p) (hs : Small t) : Small t' := by
  intro s hm
  rw [h.codec]
  rcases h.cases with ⟨h1, _⟩ | ⟨l, x, left, h0, _, _, _, _, h1, _⟩
  · rw [h1] at hm; cases hm
  · rw [h1] at hm
    rcases List.mem_singleton.1 hm with rfl
    have := hs x (by rw [h0]; simp)
    generalize t.codec = c at this ⊢
    cases c <;> exact this

/-- What `sendTo` without a given position keeps. -/
theorem step_none {G : Prop} {t : Track} {all : List Bytes} {gs : List Nat} {h : Nat} {pages : List Page} (hI : Inv G t all gs h pages) (hq : t.queue ≠ []) (hf : Fit t.queue) (hs : G → Small t) :
    ∃ p, Inv G (sendTo none t) all gs h (pages ++ [p]) ∧ Sends none t (sendTo none t) p :=
  hI.send none hq hf (Or.inl rfl) fun hG _ s hm => through_small (hs hG s hm)

theorem sendLoop_inv {G : Prop} (n : Nat) (t : Track) {all : List Bytes} {gs : List Nat} {h : Nat} {pages : List Page} (hI : Inv G t all gs h pages) (hf : Fit t.queue) (hs : G → Small t)
    (hn : weight t.queue ≤ n) :
    ∃ more, Inv G (sendLoop n t) all gs h (pages ++ more) ∧ shouldSend (sendLoop n t) = false ∧ (G → Small (sendLoop n t)) ∧
      (sendLoop n t).codec = t.codec ∧ (sendLoop n t).lastKey = t.lastKey := by
  induction n generalizing t pages with
  | zero =>
    have hq : t.queue = [] := by
      apply Classical.byContradiction
      intro c
      obtain ⟨l, s, hl⟩ := queue_split c
      rw [hl, weight_append] at hn
      omega
    refine ⟨[], by rw [List.append_nil]; exact hI, ?_, hs, rfl, rfl⟩
    show shouldSend t = false
    unfold shouldSend; rw [hq]; rfl
  | succ n ih =>
    by_cases hq : t.queue = []
    · have hno : shouldSend t = false := by unfold shouldSend; rw [hq]; rfl
      rw [sendLoop, if_neg (by rw [hno]; simp)]
      exact ⟨[], by rw [List.append_nil]; exact hI, hno, hs, rfl, rfl⟩
    · cases hsh : shouldSend t with
      | false =>
        rw [sendLoop, if_neg (by rw [hsh]; simp)]
        exact ⟨[], by rw [List.append_nil]; exact hI, hsh, hs, rfl, rfl⟩
      | true =>
        rw [sendLoop, if_pos hsh]
        obtain ⟨p, hI', hp⟩ := step_none hI hq hf hs
        obtain ⟨w1, w2, _⟩ := weight_sends hp hq
        obtain ⟨more, a, b, c, d, e⟩ := ih (sendTo none t) hI' (fit_single w2 hI'.odd) (fun hG => small_sends hp (hs hG)) (by omega)
        exact ⟨p :: more, by rw [show pages ++ p :: more = pages ++ [p] ++ more by simp]; exact a, b, c, by rw [d, hp.codec], by rw [e, hp.lastKey]⟩

/-- The queue grows by a packet. -/
def grown (t : Track) (s : Seg) (k : Nat) : Track := { t with queue := t.queue ++ [s], lastKey := k }

theorem Inv.push {G : Prop} {t : Track} {all : List Bytes} {gs : List Nat} {h : Nat} {pages : List Page} (hI : Inv G t all gs h pages) (s : Seg) (k : Nat) (ho : Odd s.data) :
    Inv G (grown t s k) (all ++ [s.data]) (gs ++ [granuleOf t.codec s]) h pages where
  out := hI.out
  ok := hI.ok
  queue := by
    show packets pages ++ attach (carry t.typ (assemble [] pages).2) ((t.queue ++ [s]).map (·.data)) = _
    rw [← hI.queue]
    by_cases hq : t.queue = []
    · rw [hq, carry_even _ (hI.empty hq), attach_nil, attach_nil]; simp
    · rw [List.map_append, attach_append _ _ _ (by simpa using hq), List.append_assoc]; rfl
  empty := by intro c; simp [grown] at c
  odd := by
    intro x hx
    rcases List.mem_append.1 hx with hx | hx
    · exact hI.odd x hx
    · rcases List.mem_singleton.1 hx with rfl; exact ho
  seqs := hI.seqs
  seq := hI.seq
  types := hI.types
  typ := hI.typ
  laced := hI.laced
  flags := hI.flags
  flag := hI.flag
  grans := by
    intro hG
    obtain ⟨h1, h2⟩ := hI.grans hG
    refine ⟨by simp [h1], ?_⟩
    show _ = (t.queue ++ [s]).map (granuleOf t.codec)
    have hle : (packets pages).length ≤ gs.length := by rw [h1, ← hI.queue]; simp
    rw [List.drop_append_of_le_length hle, h2]; simp
  marks := by
    intro hG a p b hab hh
    obtain ⟨m1, m2⟩ := hI.marks hG a p b hab hh
    refine ⟨m1, fun c => ?_⟩
    have := m2 c
    rw [List.getElem?_append_left (List.getElem?_eq_some_iff.1 this).1]
    exact this

/-- Between packets. -/
structure Rest (G : Prop) (c : Codec) (k : Nat) (t : Track) (all : List Bytes) (gs : List Nat) (h : Nat) (pages : List Page) : Prop where
  inv : Inv G t all gs h pages
  room : cnt (t.queue.map (·.data)) ≤ 254
  small : G → Small t
  codec : t.codec = c
  key : G → t.lastKey = k

theorem fit_push {q : List Seg} (h : cnt (q.map (·.data)) ≤ 254) (ho : ∀ s ∈ q, Odd s.data) (s : Seg) (hs : Odd s.data) : Fit (q ++ [s]) where
  room := by rw [List.dropLast_concat]; exact h
  odd := by
    intro x hx
    rcases List.mem_append.1 hx with hx | hx
    · exact ho x hx
    · rcases List.mem_singleton.1 hx with rfl; exact hs

/-- One packet that is just added. -/
theorem add_step {G : Prop} {c : Codec} {k : Nat} {t : Track} {all : List Bytes} {gs : List Nat} {h : Nat} {pages : List Page} (hR : Rest G c k t all gs h pages) (s : Seg) (k' k'' : Nat) (ho : Odd s.data)
    (g : Nat) (hg : G → granuleOf c s = g ∧ g < 2 ^ 31 ∧ k' = k'') (n : Nat) (hn : s.data.length + 1 ≤ n) :
    ∃ more, Rest G c k'' (sendLoop n (grown t s k')) (all ++ [s.data]) (gs ++ [g]) h (pages ++ more) := by
  have hI := hR.inv.push s k' ho
  have hI' : Inv G (grown t s k') (all ++ [s.data]) (gs ++ [g]) h pages := by
    refine ⟨hI.out, hI.ok, hI.queue, hI.empty, hI.odd, hI.seqs, hI.seq, hI.types, hI.typ, hI.laced, hI.flags, hI.flag, fun hG => ?_, fun hG => ?_⟩
    · have := hI.grans hG
      rw [hR.codec, (hg hG).1] at this
      exact this
    · have := hI.marks hG
      rw [hR.codec, (hg hG).1] at this
      exact this
  have hs : G → Small (grown t s k') := by
    intro hG x hx
    show granuleOf t.codec x < _
    rcases List.mem_append.1 hx with hx | hx
    · exact hR.small hG x hx
    · rcases List.mem_singleton.1 hx with rfl
      rw [hR.codec, (hg hG).1]
      exact (hg hG).2.1
  obtain ⟨more, a, b, c', d, e⟩ := sendLoop_inv n (grown t s k') hI' (fit_push hR.room hR.inv.odd s ho) hs (by show weight (t.queue ++ [s]) ≤ n; rw [weight_append]; exact hn)
  exact ⟨more, a, shouldSend_laces b, c', by rw [d]; exact hR.codec, fun hG => by rw [e]; exact (hg hG).2.2⟩

theorem flush_step {G : Prop} {c : Codec} {k : Nat} {t : Track} {all : List Bytes} {gs : List Nat} {h : Nat} {pages : List Page} (hR : Rest G c k t all gs h pages) :
    ∃ more, Rest G c k (sendTo none t) all gs h (pages ++ more) ∧ (sendTo none t).queue = [] := by
  by_cases hq : t.queue = []
  · have : sendTo none t = t := by unfold sendTo; rw [if_pos hq]
    rw [this]
    exact ⟨[], by rw [List.append_nil]; exact hR, hq⟩
  · have hf : Fit t.queue := by
      refine ⟨?_, hR.inv.odd⟩
      obtain ⟨l, s, hl⟩ := queue_split hq
      have := hR.room
      rw [hl] at this ⊢
      rw [List.dropLast_concat]
      rw [List.map_append, cnt_append] at this
      omega
    obtain ⟨p, hI, hp⟩ := step_none hR.inv hq hf hR.small
    have he : (sendTo none t).queue = [] := (weight_sends hp hq).2.2 (by have := hR.room; omega)
    exact ⟨[p], ⟨hI, by rw [he]; exact Nat.zero_le _, fun hG => small_sends hp (hR.small hG), by rw [hp.codec]; exact hR.codec, fun hG => by rw [hp.lastKey]; exact hR.key hG⟩, he⟩

/-- Shifting and joining is a sum when there is room. -/
theorem shift_or (k s r : Nat) (h : r < 2 ^ s) : (k <<< s) ||| r = k * 2 ^ s + r := by
  rw [Nat.shiftLeft_eq, Nat.mul_comm, ← Nat.two_pow_add_eq_or_of_lt h]

theorem le_shift (k s : Nat) : k ≤ k * 2 ^ s := Nat.le_mul_of_pos_right _ (Nat.two_pow_pos s)

theorem theora_key {s f : Nat} (h : f * 2 ^ s < 2 ^ 31) (d : Bytes) (tm : Nat) : granuleOf (.theora s) ⟨d, true, f % 2 ^ 32, (f + 2 ^ 64 - f % 2 ^ 32) % 2 ^ 64, tm⟩ = f * 2 ^ s := by
  have h1 := le_shift f s
  have h2 : f % 2 ^ 32 = f := Nat.mod_eq_of_lt (by omega)
  have h3 : (f + 2 ^ 64 - f) % 2 ^ 64 = 0 := by rw [Nat.add_sub_cancel_left, Nat.mod_self]
  simp only [granuleOf, h2, h3, Nat.or_zero, Nat.shiftLeft_eq]
  exact Nat.mod_eq_of_lt (by omega)

theorem theora_other {s f k : Nat} (h1 : k ≤ f) (h2 : f - k < 2 ^ s) (h3 : k * 2 ^ s + (f - k) < 2 ^ 31) (d : Bytes) (tm : Nat) :
    granuleOf (.theora s) ⟨d, false, k, (f + 2 ^ 64 - k) % 2 ^ 64, tm⟩ = k * 2 ^ s + (f - k) := by
  have h4 : (f + 2 ^ 64 - k) % 2 ^ 64 = f - k := by
    rw [show f + 2 ^ 64 - k = (f - k) + 2 ^ 64 by omega, Nat.add_mod_right]
    exact Nat.mod_eq_of_lt (by omega)
  simp only [granuleOf, h4]
  rw [shift_or _ _ _ h2]
  exact Nat.mod_eq_of_lt (by omega)

theorem push_opus {t : Track} (h : t.codec = .opus) (p : Packet) : push t p = grown t ⟨p.data, false, 0, 0, p.time⟩ t.lastKey := by
  cases t; cases h; rfl

theorem push_vorbis {t : Track} {r : Nat} (h : t.codec = .vorbis r) (p : Packet) :
    push t p = grown t ⟨p.data, false, (t.lastKey + p.samples) % 2 ^ 32, 0, p.time⟩ ((t.lastKey + p.samples) % 2 ^ 32) := by
  cases t; cases h; rfl

theorem push_key {t : Track} {s : Nat} (h : t.codec = .theora s) (p : Packet) (hk : p.key = true) :
    push t p = grown (sendTo none t) ⟨p.data, true, p.frame % 2 ^ 32, (p.frame + 2 ^ 64 - p.frame % 2 ^ 32) % 2 ^ 64, p.time⟩ (p.frame % 2 ^ 32) := by
  unfold push
  split
  · rw [if_pos hk]; rfl
  · next h2 => rw [h] at h2; cases h2
  · next h2 => rw [h] at h2; cases h2

theorem push_other {t : Track} {s : Nat} (h : t.codec = .theora s) (p : Packet) (hk : ¬p.key = true) :
    push t p = grown t ⟨p.data, false, t.lastKey, (p.frame + 2 ^ 64 - t.lastKey) % 2 ^ 64, p.time⟩ t.lastKey := by
  unfold push
  split
  · rw [if_neg hk]; rfl
  · next h2 => rw [h] at h2; cases h2
  · next h2 => rw [h] at h2; cases h2

theorem next_step {G : Prop} {c : Codec} {k : Nat} {t : Track} {all : List Bytes} {gs : List Nat} {h : Nat} {pages : List Page} (hR : Rest G c k t all gs h pages) (p : Packet) (ps : List Packet) (ho : Odd p.data)
    (hS : G → Steady c k (p :: ps)) :
    ∃ (more : List Page) (g k' : Nat), Rest G c k' (sendNext t p) (all ++ [p.data]) (gs ++ [g]) h (pages ++ more) ∧ (G → granules c k (p :: ps) = g :: granules c k' ps ∧ Steady c k' ps) := by
  unfold sendNext
  cases c with
  | opus =>
    rw [push_opus hR.codec]
    obtain ⟨more, hm⟩ := add_step hR ⟨p.data, false, 0, 0, p.time⟩ t.lastKey k ho (p.time * 48) (fun hG => by
      have := (hS hG).1
      exact ⟨Nat.mod_eq_of_lt (by show p.time * 48 < _; omega), this, hR.key hG⟩) (p.data.length + 1) (Nat.le_refl _)
    exact ⟨more, p.time * 48, k, hm, fun hG => ⟨rfl, (hS hG).2⟩⟩
  | vorbis r =>
    rw [push_vorbis hR.codec]
    obtain ⟨more, hm⟩ := add_step hR ⟨p.data, false, (t.lastKey + p.samples) % 2 ^ 32, 0, p.time⟩ ((t.lastKey + p.samples) % 2 ^ 32) (k + p.samples) ho (k + p.samples) (fun hG => by
      have h1 := (hS hG).1
      have h2 := hR.key hG
      have h3 : (t.lastKey + p.samples) % 2 ^ 32 = k + p.samples := by rw [h2]; exact Nat.mod_eq_of_lt (by omega)
      exact ⟨h3, h1, h3⟩) (p.data.length + 1) (Nat.le_refl _)
    exact ⟨more, k + p.samples, k + p.samples, hm, fun hG => ⟨rfl, (hS hG).2⟩⟩
  | theora s =>
    by_cases hk : p.key = true
    · rw [push_key hR.codec p hk]
      obtain ⟨m1, hF, hE⟩ := flush_step hR
      have hst : G → p.frame * 2 ^ s < 2 ^ 31 ∧ Steady (.theora s) p.frame ps := by
        intro hG
        have := hS hG
        rw [Steady, if_pos hk] at this
        exact this
      obtain ⟨more, hm⟩ := add_step hF ⟨p.data, true, p.frame % 2 ^ 32, (p.frame + 2 ^ 64 - p.frame % 2 ^ 32) % 2 ^ 64, p.time⟩ (p.frame % 2 ^ 32) p.frame ho (p.frame * 2 ^ s) (fun hG => by
        have h1 := (hst hG).1
        have h2 := le_shift p.frame s
        exact ⟨theora_key h1 _ _, h1, Nat.mod_eq_of_lt (by omega)⟩) (p.data.length + 1) (Nat.le_refl _)
      refine ⟨m1 ++ more, p.frame * 2 ^ s, p.frame, by rw [← List.append_assoc]; exact hm, fun hG => ⟨?_, (hst hG).2⟩⟩
      rw [granules, if_pos hk]
    · rw [push_other hR.codec p hk]
      have hst : G → k ≤ p.frame ∧ p.frame - k < 2 ^ s ∧ k * 2 ^ s + (p.frame - k) < 2 ^ 31 ∧ Steady (.theora s) k ps := by
        intro hG
        have := hS hG
        rw [Steady, if_neg hk] at this
        exact this
      obtain ⟨more, hm⟩ := add_step hR ⟨p.data, false, t.lastKey, (p.frame + 2 ^ 64 - t.lastKey) % 2 ^ 64, p.time⟩ t.lastKey k ho (k * 2 ^ s + (p.frame - k)) (fun hG => by
        obtain ⟨h1, h2, h3, _⟩ := hst hG
        have h4 := hR.key hG
        rw [h4]
        exact ⟨theora_other h1 h2 h3 _ _, h3, rfl⟩) (p.data.length + 1) (Nat.le_refl _)
      refine ⟨more, k * 2 ^ s + (p.frame - k), k, hm, fun hG => ⟨?_, (hst hG).2.2.2⟩⟩
      rw [granules, if_neg hk]

/-- All packets. -/
theorem all_steps {G : Prop} {c : Codec} (ps : List Packet) {k : Nat} {t : Track} {all : List Bytes} {gs : List Nat} {h : Nat} {pages : List Page} (hR : Rest G c k t all gs h pages)
    (ho : ∀ p ∈ ps, Odd p.data) (hS : G → Steady c k ps) :
    ∃ (more : List Page) (k' : Nat) (gs' : List Nat), Rest G c k' (ps.foldl sendNext t) (all ++ ps.map (·.data)) gs' h (pages ++ more) ∧ (G → gs' = gs ++ granules c k ps) := by
  induction ps generalizing k t all gs pages with
  | nil => exact ⟨[], k, gs, by simpa using hR, fun _ => by cases c <;> simp [granules]⟩
  | cons p ps ih =>
    obtain ⟨m1, g, k1, hR1, hg1⟩ := next_step hR p ps (ho p (by simp)) hS
    obtain ⟨m2, k2, gs2, hR2, hg2⟩ := ih hR1 (fun x hx => ho x (by simp [hx])) (fun hG => (hg1 hG).2)
    refine ⟨m1 ++ m2, k2, gs2, ?_, fun hG => ?_⟩
    · rw [← List.append_assoc]
      simpa using hR2
    · rw [hg2 hG, (hg1 hG).1]; simp

/-! ## The headers -/

theorem drain_inv (n : Nat) (t : Track) {all : List Bytes} {gs : List Nat} {h : Nat} {pages : List Page} (hI : Inv False t all gs h pages) (hf : Fit t.queue) (hn : weight t.queue ≤ n)
    (hh : ∀ p ∈ pages, p.granule = 0) :
    ∃ more, Inv False (drain n t) all gs h (pages ++ more) ∧ (drain n t).queue = [] ∧ (drain n t).codec = t.codec ∧ (drain n t).lastKey = t.lastKey ∧ (drain n t).serial = t.serial ∧ (∀ p ∈ pages ++ more, p.granule = 0) := by
  induction n generalizing t pages h with
  | zero =>
    have hq : t.queue = [] := by
      apply Classical.byContradiction
      intro c
      obtain ⟨l, s, hl⟩ := queue_split c
      rw [hl, weight_append] at hn
      omega
    exact ⟨[], by rw [List.append_nil]; exact hI, hq, rfl, rfl, rfl, by rw [List.append_nil]; exact hh⟩
  | succ n ih =>
    by_cases hq : t.queue = []
    · rw [drain, if_pos hq]
      exact ⟨[], by rw [List.append_nil]; exact hI, hq, rfl, rfl, rfl, by rw [List.append_nil]; exact hh⟩
    · rw [drain, if_neg hq]
      have hI2 : Inv False t all gs (pages.length + 1) pages := ⟨hI.out, hI.ok, hI.queue, hI.empty, hI.odd, hI.seqs, hI.seq, hI.types, hI.typ, hI.laced, hI.flags, hI.flag, hI.grans, fun c => c.elim⟩
      obtain ⟨p, hI', hp⟩ := hI2.send (some 0) hq hf (Or.inr (by omega)) (fun c => c.elim)
      have hI3 : Inv False (sendTo (some 0) t) all gs h (pages ++ [p]) := ⟨hI'.out, hI'.ok, hI'.queue, hI'.empty, hI'.odd, hI'.seqs, hI'.seq, hI'.types, hI'.typ, hI'.laced, hI'.flags, hI'.flag, hI'.grans, fun c => c.elim⟩
      obtain ⟨w1, w2, _⟩ := weight_sends hp hq
      have hz : p.granule = 0 := by
        rcases hp.cases with ⟨_, _, _, _, e⟩ | ⟨_, _, _, _, _, _, _, _, _, _, _, e⟩ <;> (rw [e]; rfl)
      obtain ⟨more, a, b, c, d, e, f⟩ := ih (sendTo (some 0) t) hI3 (fit_single w2 hI3.odd) (by omega) (by
        intro x hx
        rcases List.mem_append.1 hx with hx | hx
        · exact hh x hx
        · rcases List.mem_singleton.1 hx with rfl; exact hz)
      have ea : pages ++ p :: more = pages ++ [p] ++ more := by simp
      exact ⟨p :: more, by rw [ea]; exact a, b, by rw [c, hp.codec], by rw [d, hp.lastKey], by rw [e, hp.serial'], by rw [ea]; exact f⟩

/-- Many packets are added, before any is sent. -/
theorem Inv.many (hs : List Bytes) {t : Track} {all : List Bytes} {h : Nat} {pages : List Page} (hI : Inv False t all [] h pages) (ho : ∀ x ∈ hs, Odd x) :
    Inv False { t with queue := t.queue ++ hs.map fun x => (⟨x, false, 0, 0, 0⟩ : Seg) } (all ++ hs) [] h pages := by
  induction hs generalizing t all with
  | nil => simpa using hI
  | cons x hs ih =>
    have h1 := hI.push ⟨x, false, 0, 0, 0⟩ t.lastKey (ho x (by simp))
    have h2 : Inv False (grown t ⟨x, false, 0, 0, 0⟩ t.lastKey) (all ++ [x]) [] h pages :=
      ⟨h1.out, h1.ok, h1.queue, h1.empty, h1.odd, h1.seqs, h1.seq, h1.types, h1.typ, h1.laced, h1.flags, h1.flag, fun c => c.elim, fun c => c.elim⟩
    have h3 := ih h2 (fun y hy => ho y (by simp [hy]))
    have e : (grown t ⟨x, false, 0, 0, 0⟩ t.lastKey).queue ++ (hs.map fun y => (⟨y, false, 0, 0, 0⟩ : Seg)) = t.queue ++ (x :: hs).map fun y => (⟨y, false, 0, 0, 0⟩ : Seg) := by
      simp [grown]
    rw [e] at h3
    have e2 : all ++ [x] ++ hs = all ++ x :: hs := by simp
    rw [e2] at h3
    exact h3

/-- A track before its first page. -/
def fresh (c : Codec) (serial : Nat) (h0 : Bytes) : Track := { codec := c, typ := 2, serial := serial, queue := [⟨h0, false, 0, 0, 0⟩] }

theorem fresh_inv (c : Codec) (serial : Nat) (h0 : Bytes) (ho : Odd h0) : Inv False (fresh c serial h0) [h0] [] 1 [] where
  out := rfl
  ok := by intro p hp; cases hp
  queue := by simp [packets, assemble, fresh, carry, attach]
  empty := by intro h; cases h
  odd := by
    intro s hs
    rcases List.mem_singleton.1 hs with rfl; exact ho
  seqs := by intro i p h; simp at h
  seq := rfl
  types := by intro i p h; simp at h
  typ := by intro h; exact absurd rfl h
  laced := by intro p hp; cases hp
  flags := by intro a p b h; simp at h
  flag := by simp [fresh, assemble]
  grans := fun c => c.elim
  marks := fun c => c.elim

theorem weight_le (l : List Bytes) : weight (l.map fun x => (⟨x, false, 0, 0, 0⟩ : Seg)) ≤ (l.map List.length).sum + l.length + 1 := by
  by_cases hl : l = []
  · subst hl; exact Nat.zero_le _
  · obtain ⟨a, x, rfl⟩ : ∃ a x, l = a ++ [x] := ⟨l.dropLast, l.getLast hl, (List.dropLast_concat_getLast hl).symm⟩
    rw [List.map_append, List.map_cons, List.map_nil, weight_append]
    simp
    omega

/-- After the headers. -/
theorem start_inv (c : Codec) (serial : Nat) (h0 : Bytes) (hs : List Bytes) (hh : Headers h0 hs) (ho : ∀ x ∈ h0 :: hs, Odd x) :
    ∃ pages, Inv False (start c serial h0 hs) (h0 :: hs) [] 1 pages ∧ (start c serial h0 hs).queue = [] ∧ (start c serial h0 hs).codec = c ∧ (start c serial h0 hs).lastKey = 0 ∧
      (start c serial h0 hs).serial = serial ∧ (∀ p ∈ pages, p.granule = 0) ∧ (pages.head?.map (·.typ) = some 2) := by
  have hF := fresh_inv c serial h0 (ho h0 (by simp))
  have hq0 : (fresh c serial h0).queue ≠ [] := by simp [fresh]
  obtain ⟨p, hI, hp⟩ := hF.send (some 0) hq0 (fit_single (by simp [fresh]) hF.odd) (Or.inr (by simp)) (fun c => c.elim)
  have he : (sendTo (some 0) (fresh c serial h0)).queue = [] := (weight_sends hp hq0).2.2 (by
    simp only [fresh, List.map_cons, List.map_nil, cnt, List.sum_cons, List.sum_nil]
    have := hh.1
    omega)
  have hz : p.granule = 0 := by
    rcases hp.cases with ⟨_, _, _, _, e⟩ | ⟨_, _, _, _, _, _, _, _, _, _, _, e⟩ <;> (rw [e]; rfl)
  have hM := Inv.many hs hI (fun x hx => ho x (by simp [hx]))
  unfold start
  change ∃ pages, Inv False (drain ((hs.map List.length).sum + hs.length + 1) { sendTo (some 0) (fresh c serial h0) with queue := (sendTo (some 0) (fresh c serial h0)).queue ++ hs.map fun h => ⟨h, false, 0, 0, 0⟩ }) _ _ _ _ ∧ _
  obtain ⟨more, a, b, c', d, e, f⟩ := drain_inv ((hs.map List.length).sum + hs.length + 1) _ hM (by
      refine ⟨?_, hM.odd⟩
      show cnt (((sendTo (some 0) (fresh c serial h0)).queue ++ hs.map fun h => (⟨h, false, 0, 0, 0⟩ : Seg)).dropLast.map (·.data)) ≤ 254
      rw [he, List.nil_append, ← List.map_dropLast, List.map_map]
      show cnt (hs.dropLast.map id) ≤ 254
      rw [List.map_id]
      exact hh.2) (by
      show weight ((sendTo (some 0) (fresh c serial h0)).queue ++ hs.map fun h => (⟨h, false, 0, 0, 0⟩ : Seg)) ≤ _
      rw [he, List.nil_append]
      exact weight_le hs) (by
      intro x hx
      rcases List.mem_singleton.1 hx with rfl
      exact hz)
  exact ⟨[p] ++ more, a, b, c'.trans hp.codec, d.trans hp.lastKey, e.trans hp.serial', f, by show some p.typ = _; rw [hp.typ]; rfl⟩

/-- The whole history: `h` pages of headers. -/
theorem sent_inv (G : Prop) (c : Codec) (serial : Nat) (h0 : Bytes) (hs : List Bytes) (ps : List Packet) (hh : Headers h0 hs) (ho : ∀ x ∈ h0 :: hs, Odd x) (hp : ∀ p ∈ ps, Odd p.data)
    (hS : G → Steady c 0 ps) :
    ∃ (pre more : List Page) (gs : List Nat) (k : Nat), Rest G c k (sent c serial h0 hs ps) (h0 :: hs ++ ps.map (·.data)) gs pre.length (pre ++ more) ∧ packets pre = h0 :: hs ∧ (∀ p ∈ pre, p.granule = 0) ∧
      pre.head?.map (·.typ) = some 2 ∧ (G → gs = List.replicate (hs.length + 1) 0 ++ granules c 0 ps) := by
  obtain ⟨pre, hI, hq, hc, hk, _, hz, ht⟩ := start_inv c serial h0 hs hh ho
  have hpk : packets pre = h0 :: hs := by
    have := hI.queue
    rw [hq] at this
    simpa [attach] using this
  have hR : Rest G c 0 (start c serial h0 hs) (h0 :: hs) (List.replicate (hs.length + 1) 0) pre.length pre := by
    refine ⟨⟨hI.out, hI.ok, hI.queue, hI.empty, hI.odd, hI.seqs, hI.seq, hI.types, hI.typ, hI.laced, hI.flags, hI.flag, fun _ => ?_, fun _ a p b hab hl => ?_⟩, by rw [hq]; exact Nat.zero_le _, fun _ s hs => ?_, hc, fun _ => hk⟩
    · rw [hq, hpk]; simp
    · have := congrArg List.length hab
      simp at this
      omega
    · rw [hq] at hs; cases hs
  obtain ⟨more, k, gs, h1, h2⟩ := all_steps ps hR hp hS
  exact ⟨pre, more, gs, k, h1, hpk, hz, ht, h2⟩

/-! ## What never changes -/

theorem sendTo_serial (force : Option Nat) (t : Track) : (sendTo force t).serial = t.serial := by
  unfold sendTo; split <;> rfl

theorem sendLoop_serial (n : Nat) (t : Track) : (sendLoop n t).serial = t.serial := by
  induction n generalizing t with
  | zero => rfl
  | succ n ih =>
    rw [sendLoop]
    split
    · rw [ih, sendTo_serial]
    · rfl

theorem push_serial (t : Track) (p : Packet) : (push t p).serial = t.serial := by
  unfold push
  split
  · split
    · exact sendTo_serial none t
    · rfl
  · rfl
  · rfl

theorem drain_serial (n : Nat) (t : Track) : (drain n t).serial = t.serial := by
  induction n generalizing t with
  | zero => rfl
  | succ n ih =>
    rw [drain]
    split
    · rfl
    · rw [ih, sendTo_serial]

theorem sent_serial (c : Codec) (serial : Nat) (h0 : Bytes) (hs : List Bytes) (ps : List Packet) : (sent c serial h0 hs ps).serial = serial := by
  have : ∀ t : Track, (ps.foldl sendNext t).serial = t.serial := by
    induction ps with
    | nil => intro t; rfl
    | cons p ps ih => intro t; rw [List.foldl_cons, ih, sendNext, sendLoop_serial, push_serial]
  rw [sent, this, start, drain_serial]
  exact sendTo_serial _ _

/-! ## Key frames of Theora -/

theorem keys_sendLoop (n : Nat) (t : Track) (h : ∀ s ∈ t.queue, s.key = true) : ∀ s ∈ (sendLoop n t).queue, s.key = true := by
  induction n generalizing t with
  | zero => exact h
  | succ n ih =>
    rw [sendLoop]
    split
    · apply ih
      have hr : ∀ (left : Nat) (q : List Seg), (∀ s ∈ q, s.key = true) → ∀ s ∈ remains left q, s.key = true := by
        intro left q
        induction q with
        | nil => intro _ s hs; cases hs
        | cons x q ihq =>
          intro hq s hs
          rw [remains] at hs
          split at hs
          · rcases List.mem_singleton.1 hs with rfl
            exact hq x (by simp)
          · exact ihq (fun y hy => hq y (by simp [hy])) s hs
      unfold sendTo
      split
      · exact h
      · exact hr _ _ h
    · exact h

/-- After a key frame, all is sent; and all before it was sent before. -/
theorem key_step {s k : Nat} {t : Track} {all : List Bytes} {h : Nat} {pages : List Page} {gs : List Nat} (hR : Rest False (.theora s) k t all gs h pages) (p : Packet) (hk : p.key = true) (ho : Odd p.data) :
    ∃ (m1 m2 : List Page) (gs' : List Nat), Inv False (sendNext t p) (all ++ [p.data]) gs' h (pages ++ m1 ++ m2) ∧ packets (pages ++ m1) = all ∧ packets (pages ++ m1 ++ m2) = all ++ [p.data] := by
  obtain ⟨m1, hF, hE⟩ := flush_step hR
  obtain ⟨m2, hm⟩ := add_step hF ⟨p.data, true, p.frame % 2 ^ 32, (p.frame + 2 ^ 64 - p.frame % 2 ^ 32) % 2 ^ 64, p.time⟩ (p.frame % 2 ^ 32) p.frame ho 0 (fun c => c.elim) (p.data.length + 1) (Nat.le_refl _)
  have hsl := sendLoop_inv (p.data.length + 1) (grown (sendTo none t) ⟨p.data, true, p.frame % 2 ^ 32, (p.frame + 2 ^ 64 - p.frame % 2 ^ 32) % 2 ^ 64, p.time⟩ (p.frame % 2 ^ 32))
    (hF.inv.push ⟨p.data, true, p.frame % 2 ^ 32, (p.frame + 2 ^ 64 - p.frame % 2 ^ 32) % 2 ^ 64, p.time⟩ (p.frame % 2 ^ 32) ho) (fit_push hF.room hF.inv.odd _ ho) (fun c => c.elim)
    (by show weight ((sendTo none t).queue ++ [_]) ≤ _; rw [weight_append])
  obtain ⟨_, _, hns, _⟩ := hsl
  have hkeys := keys_sendLoop (p.data.length + 1) (grown (sendTo none t) ⟨p.data, true, p.frame % 2 ^ 32, (p.frame + 2 ^ 64 - p.frame % 2 ^ 32) % 2 ^ 64, p.time⟩ (p.frame % 2 ^ 32)) (by
    intro x hx
    have hx2 : x ∈ (sendTo none t).queue ++ [⟨p.data, true, p.frame % 2 ^ 32, (p.frame + 2 ^ 64 - p.frame % 2 ^ 32) % 2 ^ 64, p.time⟩] := hx
    rw [hE] at hx2
    rcases List.mem_singleton.1 hx2 with rfl; rfl)
  have he : sendNext t p = sendLoop (p.data.length + 1) (grown (sendTo none t) ⟨p.data, true, p.frame % 2 ^ 32, (p.frame + 2 ^ 64 - p.frame % 2 ^ 32) % 2 ^ 64, p.time⟩ (p.frame % 2 ^ 32)) := by
    rw [sendNext, push_key hR.codec p hk]
  rw [← he] at hm hns hkeys
  have hq : (sendNext t p).queue = [] := by
    apply Classical.byContradiction
    intro c
    obtain ⟨l, x, hl⟩ := queue_split c
    have hx := hkeys x (by rw [hl]; simp)
    unfold shouldSend at hns
    have : (sendNext t p).queue.getLast? = some x := by rw [hl]; simp
    rw [this] at hns
    simp [hx] at hns
  refine ⟨m1, m2, _, hm.inv, ?_, ?_⟩
  · have := hF.inv.queue
    rw [hE] at this
    simpa [attach] using this
  · have := hm.inv.queue
    rw [hq] at this
    simpa [attach] using this

/-! ## The end -/

/-- The last page. -/
theorem finish_all {c : Codec} {k : Nat} {t : Track} {all : List Bytes} {gs : List Nat} {h : Nat} {pages : List Page} (hR : Rest False c k t all gs h pages) (ht : t.typ.toNat % 2 = 0) :
    ∃ last, (finish t).out = ((pages ++ last).map enc).flatten ∧ (∀ p ∈ pages ++ last, Ok p) ∧ packets (pages ++ last) = all ∧ last.length ≤ 1 ∧ (t.queue ≠ [] → last.map (·.typ) = [4]) := by
  unfold finish
  by_cases hq : t.queue = []
  · have : sendTo none { t with typ := 4 } = { t with typ := 4 } := by unfold sendTo; rw [if_pos hq]
    rw [this]
    refine ⟨[], by rw [List.append_nil]; exact hR.inv.out, by rw [List.append_nil]; exact hR.inv.ok, ?_, by simp, fun c => absurd hq c⟩
    have := hR.inv.queue
    rw [hq] at this
    simpa [attach] using this
  · have hf : Fit t.queue := by
      refine ⟨?_, hR.inv.odd⟩
      obtain ⟨l, s, hl⟩ := queue_split hq
      have := hR.room
      rw [hl] at this ⊢
      rw [List.dropLast_concat]
      rw [List.map_append, cnt_append] at this
      omega
    obtain ⟨p, hp⟩ := sendTo_sends none { t with typ := 4 } hq hf
    refine ⟨[p], ?_, ?_, ?_, by simp, fun _ => ?_⟩
    · rw [hp.out]
      show t.out ++ enc p = _
      rw [hR.inv.out]; simp
    · intro x hx
      rcases List.mem_append.1 hx with hx | hx
      · exact hR.inv.ok x hx
      · rcases List.mem_singleton.1 hx with rfl; exact hp.ok
    · rw [(packets_append pages p).1, hp.typ]
      have hodd : carry (4 : UInt8) (assemble [] pages).2 = [] := carry_even _ (by rfl) _
      show packets pages ++ (split (carry 4 (assemble [] pages).2) p.lacing p.body).1 = all
      rw [hodd]
      have hall := hR.inv.queue
      rw [carry_even _ ht] at hall
      rcases hp.cases with ⟨_, _, _, h4, _⟩ | ⟨l, s, left, _, _, _, _, h3, _⟩
      · rw [h4]
        exact hall
      · have hc : 255 < cnt (t.queue.map (·.data)) := h3
        have := hR.room
        omega
    · show [p.typ] = _
      rw [hp.typ]

end Verif.Ogg
