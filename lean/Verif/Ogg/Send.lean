import Verif.Ogg.Lemmas

namespace Verif.Ogg
open Verif

/-- A queue that a page can take: all but the last packet fit, and no packet has the length of a multiple of 255. -/
structure Fit (q : List Seg) : Prop where
  room : cnt (q.dropLast.map (·.data)) ≤ 254
  odd : ∀ s ∈ q, Odd s.data

/-- What `sendTo` does to the queue: `p` is the page. -/
structure Sends (force : Option Nat) (t t' : Track) (p : Page) : Prop where
  out : t'.out = t.out ++ enc p
  ok : Ok p
  typ : p.typ = t.typ
  serial : p.serial = t.serial % 256 ^ 4
  seq : p.seq = t.seq % 256 ^ 4
  next : t'.seq = (t.seq + 1) % 256 ^ 4
  codec : t'.codec = t.codec
  serial' : t'.serial = t.serial
  lastKey : t'.lastKey = t.lastKey
  laced : p.lacing ≠ []
  first : (match t.codec with | .vorbis _ => t'.first = t.lastKey | _ => t'.first = t.first)
  cases :
    (t'.queue = [] ∧ t'.typ = 0 ∧ cnt (t.queue.map (·.data)) ≤ 255 ∧ (∀ c, split c p.lacing p.body = (attach c (t.queue.map (·.data)), [])) ∧
      p.granule = pageGranule force t.codec t.queue 0 % 256 ^ 8) ∨
    (∃ (l : List Seg) (s : Seg) (left : Nat), t.queue = l ++ [s] ∧ 0 < left ∧ left < s.data.length ∧ left % 255 = 0 ∧ 255 < cnt (t.queue.map (·.data)) ∧
      t'.queue = [{ s with data := s.data.drop left }] ∧ t'.typ = 1 ∧
      (∀ c, split c p.lacing p.body = (attach c (l.map (·.data)), (if l = [] then c else []) ++ s.data.take left)) ∧
      p.granule = pageGranule force t.codec t.queue left % 256 ^ 8)

theorem queue_split {q : List Seg} (h : q ≠ []) : ∃ l s, q = l ++ [s] := ⟨q.dropLast, q.getLast h, (List.dropLast_concat_getLast h).symm⟩

/-- The page that `sendTo` makes. -/
def made (force : Option Nat) (t : Track) (left : Nat) (table body : Bytes) : Page :=
  ⟨t.typ, pageGranule force t.codec t.queue left % 256 ^ 8, t.serial % 256 ^ 4, t.seq % 256 ^ 4,
    checksum (head t.typ (pageGranule force t.codec t.queue left % 256 ^ 8) (t.serial % 256 ^ 4) (t.seq % 256 ^ 4)) table body, table, body⟩

theorem leEnc_mod (n v : Nat) : leEnc n (v % 256 ^ n) = leEnc n v := by
  induction n generalizing v with
  | zero => rfl
  | succ n ih =>
    rw [leEnc, leEnc]
    have h1 : v % 256 ^ (n + 1) % 256 = v % 256 := Nat.mod_mod_of_dvd _ ⟨256 ^ n, by rw [Nat.pow_succ, Nat.mul_comm]⟩
    have h2 : v % 256 ^ (n + 1) / 256 = v / 256 % 256 ^ n := by
      rw [Nat.pow_succ, Nat.mul_comm, Nat.mod_mul_right_div_self]
    have h3 : UInt8.ofNat (v % 256 ^ (n + 1)) = UInt8.ofNat v := by
      apply UInt8.toNat_inj.1
      rw [u8n, u8n, h1]
    rw [h2, ih, h3]

theorem head_mod (typ : UInt8) (g s q : Nat) : head typ (g % 256 ^ 8) (s % 256 ^ 4) (q % 256 ^ 4) = head typ g s q := by
  simp only [head, leEnc_mod]

theorem made_enc (force : Option Nat) (t : Track) (left : Nat) (table body : Bytes) :
    enc (made force t left table body) = pageBytes (head t.typ (pageGranule force t.codec t.queue left) t.serial t.seq) table body := by
  simp only [enc, made, head_mod]

theorem made_ok (force : Option Nat) (t : Track) (left : Nat) (table body : Bytes) (h1 : table.length ≤ 255) (h2 : body.length = size table) : Ok (made force t left table body) where
  gran := Nat.mod_lt _ (by decide)
  serial := Nat.mod_lt _ (by decide)
  seq := Nat.mod_lt _ (by decide)
  crc := rfl
  lacing := h1
  body := h2

/-- The parts of `sendTo`. -/
theorem sendTo_parts (force : Option Nat) (t : Track) (h : t.queue ≠ []) (table : Bytes) (left : Nat) (hl : lace 0 (t.queue.map (·.data)) = (table, left)) :
    (sendTo force t).out = t.out ++ pageBytes (head t.typ (pageGranule force t.codec t.queue left) t.serial t.seq) table (payload left (t.queue.map (·.data))) ∧
    (sendTo force t).queue = remains left t.queue ∧ (sendTo force t).typ = (if left ≠ 0 then 1 else 0) ∧ (sendTo force t).seq = (t.seq + 1) % 2 ^ 32 ∧
    (sendTo force t).codec = t.codec ∧ (sendTo force t).serial = t.serial ∧ (sendTo force t).lastKey = t.lastKey ∧
    (match t.codec with | .vorbis _ => (sendTo force t).first = t.lastKey | _ => (sendTo force t).first = t.first) := by
  unfold sendTo
  rw [if_neg h, hl]
  refine ⟨rfl, rfl, rfl, rfl, rfl, rfl, rfl, ?_⟩
  cases t.codec <;> rfl

theorem flat_ne_nil (l : List Bytes) (h : l ≠ []) : l.flatMap laceOf ≠ [] := by
  intro c
  have := congrArg List.length c
  rw [flat_length] at this
  cases l with
  | nil => exact h rfl
  | cons s l => rw [cnt_cons] at this; simp at this

theorem sendTo_sends (force : Option Nat) (t : Track) (h : t.queue ≠ []) (hf : Fit t.queue) : ∃ p, Sends force t (sendTo force t) p := by
  obtain ⟨l, s, hq⟩ := queue_split h
  have hroom : cnt (l.map (·.data)) ≤ 254 := by
    have := hf.room
    rw [hq, List.dropLast_concat] at this
    exact this
  have hm : t.queue.map (·.data) = l.map (·.data) ++ [s.data] := by rw [hq]; simp
  have hodd : Odd s.data := hf.odd s (by rw [hq]; simp)
  have hcnt : cnt (t.queue.map (·.data)) = cnt (l.map (·.data)) + (s.data.length / 255 + 1) := by rw [hm, cnt_append]; simp [cnt]
  have hne : t.queue.map (·.data) ≠ [] := by rw [hm]; simp
  by_cases hc : cnt (t.queue.map (·.data)) ≤ 255
  · have hl := lace_fit 0 (t.queue.map (·.data)) (by omega)
    obtain ⟨p1, p2, p3, p4, p5, p6, p7, p8⟩ := sendTo_parts force t h _ _ hl
    rw [payload_all] at p1
    refine ⟨made force t 0 ((t.queue.map (·.data)).flatMap laceOf) (t.queue.map (·.data)).flatten, ⟨by rw [made_enc]; exact p1, ?_, rfl, rfl, rfl, p4, p5, p6, p7, flat_ne_nil _ hne, p8, Or.inl ⟨?_, ?_, hc, ?_, rfl⟩⟩⟩
    · exact made_ok _ _ _ _ _ (by rw [flat_length]; exact hc) (by rw [size_flat])
    · rw [p2, remains_all]
    · rw [p3]; rfl
    · intro c
      have := split_flat c (t.queue.map (·.data)) [] []
      simp only [List.append_nil] at this
      show split c ((t.queue.map (·.data)).flatMap laceOf) (t.queue.map (·.data)).flatten = _
      rw [this, if_neg hne]
      simp [split]
  · have ho := lace_over 0 (l.map (·.data)) s.data (by omega) (by omega) hodd
    rw [← hm] at ho
    simp only [Nat.zero_add] at ho
    generalize hk : 255 - cnt (l.map (·.data)) = k at ho
    obtain ⟨p1, p2, p3, p4, p5, p6, p7, p8⟩ := sendTo_parts force t h _ _ ho
    have hk0 : 0 < k := by omega
    have hlt : k * 255 < s.data.length := by
      rcases hodd with hodd | hodd
      · have : k ≤ s.data.length / 255 := by omega
        have h1 : s.data.length = 255 * (s.data.length / 255) + s.data.length % 255 := (Nat.div_add_mod _ _).symm
        have h2 : k * 255 ≤ s.data.length / 255 * 255 := Nat.mul_le_mul_right _ this
        omega
      · omega
    have htake : (s.data.take (k * 255)).length = k * 255 := by rw [List.length_take]; omega
    rw [hm, payload_part _ (by omega)] at p1
    refine ⟨made force t (k * 255) ((l.map (·.data)).flatMap laceOf ++ List.replicate k 255) ((l.map (·.data)).flatten ++ s.data.take (k * 255)),
      ⟨by rw [made_enc]; exact p1, ?_, rfl, rfl, rfl, p4, p5, p6, p7, ?_, p8, Or.inr ⟨l, s, k * 255, hq, by omega, hlt, by omega, by omega, ?_, ?_, ?_, rfl⟩⟩⟩
    · refine made_ok _ _ _ _ _ ?_ ?_
      · rw [List.length_append, flat_length, List.length_replicate]; omega
      · rw [List.length_append, htake, size_append, size_flat, size_rep]
    · show (l.map (·.data)).flatMap laceOf ++ List.replicate k 255 ≠ []
      intro c
      have := congrArg List.length c
      simp only [List.length_append, List.length_replicate, List.length_nil] at this
      omega
    · rw [p2, hq, remains_part _ (by omega)]
    · rw [p3, if_pos (by omega)]
    · intro c
      show split c ((l.map (·.data)).flatMap laceOf ++ List.replicate k 255) ((l.map (·.data)).flatten ++ s.data.take (k * 255)) = _
      rw [split_flat, split_full k _ _ htake]
      simp only [List.append_nil, List.map_eq_nil_iff]

/-! ## The invariant -/

/-- The beginning of the packet that goes on. -/
def carry (typ : UInt8) (cur : Bytes) : Bytes := if typ.toNat % 2 = 1 then cur else []

/-- What holds after headers and packets `all`, whose granule positions are `gs`; `h` pages are headers. -/
structure Inv (G : Prop) (t : Track) (all : List Bytes) (gs : List Nat) (h : Nat) (pages : List Page) : Prop where
  out : t.out = (pages.map enc).flatten
  ok : ∀ p ∈ pages, Ok p
  queue : (packets pages) ++ attach (carry t.typ (assemble [] pages).2) (t.queue.map (·.data)) = all
  empty : t.queue = [] → t.typ.toNat % 2 = 0
  odd : ∀ s ∈ t.queue, Odd s.data
  seqs : ∀ (i : Nat) (p : Page), pages[i]? = some p → p.seq = i % 256 ^ 4 ∧ p.serial = t.serial % 256 ^ 4
  seq : t.seq = pages.length % 256 ^ 4
  types : ∀ (i : Nat) (p : Page), pages[i]? = some p → 0 < i → p.typ = 0 ∨ p.typ = 1
  typ : pages ≠ [] → t.typ = 0 ∨ t.typ = 1
  laced : ∀ p ∈ pages, p.lacing ≠ []
  flags : ∀ a p b, pages = a ++ p :: b → (p.typ.toNat % 2 = 1 ↔ (assemble [] a).2 ≠ [])
  flag : t.typ.toNat % 2 = 1 ↔ (assemble [] pages).2 ≠ []
  grans : G → gs.length = all.length ∧ gs.drop (packets pages).length = t.queue.map (granuleOf t.codec)
  marks : G → ∀ a p b, pages = a ++ p :: b → h ≤ a.length → Marked gs a p

theorem packets_append (a : List Page) (p : Page) :
    packets (a ++ [p]) = packets a ++ (split (carry p.typ (assemble [] a).2) p.lacing p.body).1 ∧
    (assemble [] (a ++ [p])).2 = (split (carry p.typ (assemble [] a).2) p.lacing p.body).2 := by
  have h : (if p.continued then (assemble [] a).2 else []) = carry p.typ (assemble [] a).2 := by
    unfold Page.continued carry
    by_cases hc : p.typ.toNat % 2 = 1 <;> simp [hc]
  rw [packets, packets, assemble_one, h]
  exact ⟨rfl, rfl⟩

theorem carry_even (typ : UInt8) (h : typ.toNat % 2 = 0) (c : Bytes) : carry typ c = [] := by
  unfold carry; rw [if_neg (by omega)]

theorem getElem_append_one {pages : List Page} {p x : Page} {i : Nat} (h : (pages ++ [p])[i]? = some x) : pages[i]? = some x ∨ (i = pages.length ∧ x = p) := by
  rw [List.getElem?_append] at h
  split at h
  · exact Or.inl h
  · next hi =>
    right
    cases hk : i - pages.length with
    | zero => rw [hk] at h; simp at h; exact ⟨by omega, h.symm⟩
    | succ k => rw [hk] at h; simp at h

/-- A page is added. -/
theorem Inv.send {G : Prop} {t : Track} {all : List Bytes} {gs : List Nat} {h : Nat} {pages : List Page} (hI : Inv G t all gs h pages) (force : Option Nat) (hq : t.queue ≠ [])
    (hf : Fit t.queue) (hforce : force = none ∨ pages.length < h)
    (hg : G → force = none → ∀ s ∈ t.queue, throughInt (granuleOf t.codec s) = granuleOf t.codec s ∧ granuleOf t.codec s < 256 ^ 8) :
    ∃ p, Inv G (sendTo force t) all gs h (pages ++ [p]) ∧ Sends force t (sendTo force t) p := by
  obtain ⟨p, hp⟩ := sendTo_sends force t hq hf
  refine ⟨p, ?_, hp⟩
  generalize sendTo force t = t' at hp ⊢
  have hpk := packets_append pages p
  rw [hp.typ] at hpk
  have hqlen : 0 < t.queue.length := List.length_pos_iff.2 hq
  -- what the page completes
  have hmain : packets (pages ++ [p]) ++ attach (carry t'.typ (assemble [] (pages ++ [p])).2) (t'.queue.map (·.data)) = all ∧
      (G → gs.drop (packets (pages ++ [p])).length = t'.queue.map (granuleOf t'.codec)) ∧ (G → h ≤ pages.length → Marked gs pages p) := by
    have hgr := fun hG => (hI.grans hG).2
    have hall := hI.queue
    rw [hpk.1, hpk.2, hp.codec]
    rcases hp.cases with ⟨h1, h2, h3, h4, h5⟩ | ⟨l, s, left, h0, hl0, hl1, hl2, h3, h1, h2, h4, h5⟩
    · rw [h4, h1]
      refine ⟨by simpa [attach] using hall, ?_, ?_⟩
      · intro hG
        rw [List.length_append, attach_length, List.length_map, ← List.drop_drop, hgr hG]
        simp
      · intro hG hh
        have hnone : force = none := by rcases hforce with c | c; exact c; omega
        refine ⟨?_, fun _ => ?_⟩
        · rw [hpk.1, h4]
          intro c
          rw [List.length_append, attach_length, List.length_map] at c
          omega
        · rw [hpk.1, h4, List.length_append, attach_length, List.length_map, h5, hnone]
          have hlast : t.queue[t.queue.length - 1]? = some (t.queue.getLast hq) := by rw [← List.getLast?_eq_getElem?, List.getLast?_eq_some_getLast hq]
          have hx := hg hG hnone (t.queue.getLast hq) (List.getLast_mem hq)
          have e : pageGranule none t.codec t.queue 0 = granuleOf t.codec (t.queue.getLast hq) := by
            unfold pageGranule
            simp only [ne_eq, not_true_eq_false, and_false, if_false, hlast, hx.1]
          rw [e, Nat.mod_eq_of_lt hx.2]
          have hd : (gs.drop (packets pages).length)[t.queue.length - 1]? = some (granuleOf t.codec (t.queue.getLast hq)) := by
            rw [hgr hG, List.getElem?_map, hlast]; rfl
          rw [List.getElem?_drop] at hd
          rw [show (packets pages).length + t.queue.length - 1 = (packets pages).length + (t.queue.length - 1) by omega]
          exact hd
    · rw [h4, h1, h2]
      have hc1 : carry 1 ((if l = [] then carry t.typ (assemble [] pages).2 else []) ++ s.data.take left) = (if l = [] then carry t.typ (assemble [] pages).2 else []) ++ s.data.take left := by
        unfold carry; rw [if_pos (by rfl)]
      refine ⟨?_, ?_, ?_⟩
      · simp only [hc1, List.map_cons, List.map_nil, attach]
        rw [h0] at hall
        rw [← hall, List.append_assoc, List.append_assoc, List.take_append_drop]
        congr 1
        simp only [List.map_append, List.map_cons, List.map_nil]
        cases l with
        | nil => simp [attach]
        | cons x l => simp [attach]
      · intro hG
        rw [List.length_append, attach_length, List.length_map, ← List.drop_drop, hgr hG, h0]
        simp only [List.map_append, List.map_cons, List.map_nil]
        rw [List.drop_left' (by simp)]
        unfold granuleOf
        cases t.codec <;> rfl
      · intro hG hh
        have hnone : force = none := by rcases hforce with c | c; exact c; omega
        refine ⟨fun c => ?_, fun c => ?_⟩
        · rw [hpk.1, h4, List.length_append, attach_length, List.length_map] at c
          have hl : l = [] := List.eq_nil_of_length_eq_zero (by omega)
          subst hl
          rw [h5, hnone]
          unfold pageGranule
          simp only []
          rw [if_pos ⟨by rw [h0]; rfl, by omega⟩]
          decide
        · rw [hpk.1, h4, List.length_append, attach_length, List.length_map] at c
          rw [hpk.1, h4, List.length_append, attach_length, List.length_map, h5, hnone]
          have hl : l ≠ [] := by rintro rfl; simp at c
          have hll : 0 < l.length := List.length_pos_iff.2 hl
          have hqe : t.queue[t.queue.length - 2]? = some (l.getLast hl) := by
            have e1 : t.queue.length = l.length + 1 := by rw [h0]; simp
            rw [e1, show l.length + 1 - 2 = l.length - 1 by omega, h0, List.getElem?_append_left (by omega), ← List.getLast?_eq_getElem?, List.getLast?_eq_some_getLast hl]
          have hx := hg hG hnone (l.getLast hl) (by rw [h0]; exact List.mem_append.2 (Or.inl (List.getLast_mem hl)))
          have e : pageGranule none t.codec t.queue left = granuleOf t.codec (l.getLast hl) := by
            unfold pageGranule
            simp only []
            rw [if_neg (by rintro ⟨c1, _⟩; rw [h0] at c1; simp at c1; exact hl c1), if_pos (by omega), hqe]
            exact hx.1
          rw [e, Nat.mod_eq_of_lt hx.2]
          have hd : (gs.drop (packets pages).length)[l.length - 1]? = some (granuleOf t.codec (l.getLast hl)) := by
            have e1 : t.queue.length = l.length + 1 := by rw [h0]; simp
            rw [hgr hG, List.getElem?_map]
            rw [e1, show l.length + 1 - 2 = l.length - 1 by omega] at hqe
            rw [hqe]; rfl
          rw [List.getElem?_drop] at hd
          rw [show (packets pages).length + l.length - 1 = (packets pages).length + (l.length - 1) by omega]
          exact hd
  refine ⟨?_, ?_, hmain.1, ?_, ?_, ?_, ?_, ?_, ?_, ?_, ?_, ?_, fun hG => ⟨(hI.grans hG).1, hmain.2.1 hG⟩, ?_⟩
  · rw [hp.out, hI.out]; simp
  · intro x hx
    rcases List.mem_append.1 hx with hx | hx
    · exact hI.ok x hx
    · rcases List.mem_singleton.1 hx with rfl; exact hp.ok
  · intro hn
    rcases hp.cases with ⟨_, h2, _⟩ | ⟨l, s, left, _, _, _, _, _, h1, _⟩
    · rw [h2]; rfl
    · rw [h1] at hn; cases hn
  · intro x hx
    rcases hp.cases with ⟨h1, _⟩ | ⟨l, s, left, h0, hl0, hl1, hl2, _, h1, _⟩
    · rw [h1] at hx; cases hx
    · rw [h1] at hx
      rcases List.mem_singleton.1 hx with rfl
      have hs := hI.odd s (by rw [h0]; simp)
      left
      show (s.data.drop left).length % 255 ≠ 0
      rw [List.length_drop]
      rcases hs with hs | hs
      · omega
      · omega
  · intro i x hx
    rw [hp.serial']
    rcases getElem_append_one hx with hx | ⟨rfl, rfl⟩
    · exact hI.seqs i x hx
    · refine ⟨?_, hp.serial⟩
      rw [hp.seq, hI.seq, Nat.mod_mod]
  · rw [hp.next, hI.seq, List.length_append, List.length_singleton, Nat.mod_add_mod]
  · intro i x hx hi
    rcases getElem_append_one hx with hx | ⟨rfl, rfl⟩
    · exact hI.types i x hx hi
    · rw [hp.typ]; exact hI.typ (List.length_pos_iff.1 hi)
  · intro _
    rcases hp.cases with ⟨_, h2, _⟩ | ⟨l, s, left, _, _, _, _, _, _, h2, _⟩
    · exact Or.inl h2
    · exact Or.inr h2
  · intro x hx
    rcases List.mem_append.1 hx with hx | hx
    · exact hI.laced x hx
    · rcases List.mem_singleton.1 hx with rfl; exact hp.laced
  · intro a x b hab
    by_cases hb : b = []
    · subst hb
      obtain ⟨e1, e2⟩ := List.append_inj' hab rfl
      subst e1
      cases e2
      rw [hp.typ]
      exact hI.flag
    · obtain ⟨b', y, rfl⟩ : ∃ b' y, b = b' ++ [y] := ⟨b.dropLast, b.getLast hb, (List.dropLast_concat_getLast hb).symm⟩
      have e : a ++ x :: (b' ++ [y]) = (a ++ x :: b') ++ [y] := by simp
      rw [e] at hab
      exact hI.flags a x b' (List.append_inj' hab rfl).1
  · rw [hpk.2]
    rcases hp.cases with ⟨_, h2, _, h4, _⟩ | ⟨l, s, left, _, hl0, hl1, _, _, _, h2, h4, _⟩
    · rw [h2, h4]; simp
    · rw [h2, h4]
      have : s.data.take left ≠ [] := by
        intro c
        have := congrArg List.length c
        rw [List.length_take] at this
        simp at this
        rcases this with c | c
        · omega
        · rw [c] at hl1; simp at hl1
      simp [this]
  · intro hG a x b hab hh
    by_cases hb : b = []
    · subst hb
      have := List.append_inj' hab rfl
      obtain ⟨e1, e2⟩ := this
      subst e1
      cases e2
      exact hmain.2.2 hG hh
    · obtain ⟨b', y, rfl⟩ : ∃ b' y, b = b' ++ [y] := ⟨b.dropLast, b.getLast hb, (List.dropLast_concat_getLast hb).symm⟩
      have e : a ++ x :: (b' ++ [y]) = (a ++ x :: b') ++ [y] := by simp
      rw [e] at hab
      exact hI.marks hG a x b' (List.append_inj' hab rfl).1 hh

end Verif.Ogg
