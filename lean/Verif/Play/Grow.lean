import Verif.Play.Seek

/-!
# Tracks that grow while they are watched
-/
namespace Verif.Play
open Spec

theorem addPacket_append (A B : Pages) (x : Pkt) (h : B ≠ []) : addPacket (A ++ B) x = A ++ addPacket B x := by
  unfold addPacket
  rw [List.getLast?_append, List.dropLast_append_of_ne_nil h, List.getLast?_eq_some_getLast h]
  simp only [Option.or_some, Option.getD_some, List.append_assoc]
  rfl

theorem addKey_append (A B : Pages) (x : Pkt) (h : B ≠ []) : addKey (A ++ B) x = A ++ addKey B x := by
  unfold addKey
  rw [List.getLast?_append, List.dropLast_append_of_ne_nil h, List.getLast?_eq_some_getLast h]
  simp only [Option.or_some, Option.getD_some, List.append_assoc]
  rfl

theorem addPacket_one (p : List (List Pkt)) (g : List Pkt) (x : Pkt) : addPacket [p ++ [g]] x = [p ++ [g ++ [x]]] := by
  simp [addPacket]

theorem addKey_one (p : List (List Pkt)) (x : Pkt) : addKey [p] x = [p ++ [[x]]] := by
  simp [addKey]

/-- How the pages of a track may grow by packet `x`. -/
structure Grows (G G' : Pages) (x : Pkt) : Prop where
  page : ∀ p ∈ G', p ≠ []
  key : ∀ g ∈ G'.flatten, g ≠ []
  all : packets G' = packets G ++ [x]
  split : ∀ A p B, G = A ++ p :: B → ∃ p' B', G' = A ++ p' :: B' ∧ ((p' = p ∧ packets B' = packets B ++ [x]) ∨ (B = [] ∧ B' = [] ∧ p'.flatten = p.flatten ++ [x]))

theorem last_split {α : Type} (l : List α) (h : l ≠ []) : ∃ a b, l = a ++ [b] := ⟨l.dropLast, l.getLast h, (List.dropLast_concat_getLast h).symm⟩

theorem grows_more {G : Pages} (x : Pkt) (hn : G ≠ []) (hp : ∀ p ∈ G, p ≠ []) (hk : ∀ g ∈ G.flatten, g ≠ []) : Grows G (addPacket G x) x := by
  obtain ⟨A0, q, rfl⟩ := last_split G hn
  obtain ⟨q0, g, rfl⟩ := last_split q (hp q (by simp))
  have heq : addPacket (A0 ++ [q0 ++ [g]]) x = A0 ++ [q0 ++ [g ++ [x]]] := by rw [addPacket_append _ _ _ (by simp), addPacket_one]
  rw [heq]
  refine ⟨?_, ?_, ?_, ?_⟩
  · intro p h
    rcases List.mem_append.1 h with h | h
    · exact hp p (by simp [h])
    · rw [List.mem_singleton.1 h]; simp
  · intro y h
    rw [List.flatten_append] at h
    rcases List.mem_append.1 h with h | h
    · exact hk y (by rw [List.flatten_append]; exact List.mem_append_left _ h)
    · simp only [List.flatten_cons, List.flatten_nil, List.append_nil, List.mem_append, List.mem_singleton] at h
      rcases h with h | h
      · exact hk y (by simp [h])
      · rw [h]; simp
  · simp [packets]
  · intro A p B h
    by_cases hB : B = []
    · subst hB
      obtain ⟨h1, h2⟩ := List.append_inj' h rfl
      refine ⟨q0 ++ [g ++ [x]], [], by rw [h1], Or.inr ⟨rfl, rfl, ?_⟩⟩
      rw [← (List.cons.inj h2).1]
      simp
    · obtain ⟨B0, q', rfl⟩ := last_split B hB
      rw [show A ++ p :: (B0 ++ [q']) = (A ++ p :: B0) ++ [q'] by simp] at h
      obtain ⟨h1, h2⟩ := List.append_inj' h rfl
      refine ⟨p, B0 ++ [q0 ++ [g ++ [x]]], by rw [h1]; simp, Or.inl ⟨rfl, ?_⟩⟩
      rw [← (List.cons.inj h2).1]
      simp [packets]

theorem grows_key {G : Pages} (x : Pkt) (hn : G ≠ []) (hp : ∀ p ∈ G, p ≠ []) (hk : ∀ g ∈ G.flatten, g ≠ []) : Grows G (addKey G x) x := by
  obtain ⟨A0, q, rfl⟩ := last_split G hn
  have heq : addKey (A0 ++ [q]) x = A0 ++ [q ++ [[x]]] := by rw [addKey_append _ _ _ (by simp), addKey_one]
  rw [heq]
  refine ⟨?_, ?_, ?_, ?_⟩
  · intro p h
    rcases List.mem_append.1 h with h | h
    · exact hp p (by simp [h])
    · rw [List.mem_singleton.1 h]; simp
  · intro y h
    rw [List.flatten_append] at h
    rcases List.mem_append.1 h with h | h
    · exact hk y (by rw [List.flatten_append]; exact List.mem_append_left _ h)
    · simp only [List.flatten_cons, List.flatten_nil, List.append_nil, List.mem_append, List.mem_singleton] at h
      rcases h with h | h
      · exact hk y (by simp [h])
      · rw [h]; simp
  · simp [packets]
  · intro A p B h
    by_cases hB : B = []
    · subst hB
      obtain ⟨h1, h2⟩ := List.append_inj' h rfl
      refine ⟨q ++ [[x]], [], by rw [h1], Or.inr ⟨rfl, rfl, ?_⟩⟩
      rw [← (List.cons.inj h2).1]
      simp
    · obtain ⟨B0, q', rfl⟩ := last_split B hB
      rw [show A ++ p :: (B0 ++ [q']) = (A ++ p :: B0) ++ [q'] by simp] at h
      obtain ⟨h1, h2⟩ := List.append_inj' h rfl
      refine ⟨p, B0 ++ [q ++ [[x]]], by rw [h1]; simp, Or.inl ⟨rfl, ?_⟩⟩
      rw [← (List.cons.inj h2).1]
      simp [packets]

theorem grows_page {G : Pages} (x : Pkt) (hp : ∀ p ∈ G, p ≠ []) (hk : ∀ g ∈ G.flatten, g ≠ []) : Grows G (G ++ [[[x]]]) x := by
  refine ⟨?_, ?_, ?_, ?_⟩
  · intro p h
    rcases List.mem_append.1 h with h | h
    · exact hp p h
    · rw [List.mem_singleton.1 h]; simp
  · intro y h
    rw [List.flatten_append] at h
    rcases List.mem_append.1 h with h | h
    · exact hk y h
    · simp at h; rw [h]; simp
  · simp [packets]
  · intro A p B h
    exact ⟨p, B ++ [[[x]]], by rw [h]; simp, Or.inl ⟨rfl, by simp [packets]⟩⟩

/-- A track that grew by a packet. -/
theorem good_grow {T : Track} (hT : Good T) {G' : Pages} {x : Pkt} (hg : Grows T.pages G' x) (ht : lastTime (packets T.pages) < x.time) :
    Good { T with pages := G', now := x.time } := by
  refine { pages := ?_, page := hg.page, key := hg.key, time := ?_, now := ?_ }
  · intro h0
    have := hg.all
    rw [show G' = [] from h0] at this
    simp [packets] at this
  · show Up (packets G')
    rw [hg.all]
    refine List.pairwise_append.2 ⟨hT.time, by simp, fun a ha b hb => ?_⟩
    rw [List.mem_singleton.1 hb]
    have := le_lastTime hT.time a ha
    omega
  · show lastTime (packets G') ≤ x.time
    rw [hg.all, lastTime_append_single]
    exact Nat.le_refl _

theorem place_grow {T : Track} {live : Bool} {e : Entry} {cur : Option Nat} {A p B done rest} (h : Place T live e cur A p B done rest) {G' : Pages} {x : Pkt}
    (hg : Grows T.pages G' x) (ht : lastTime (packets T.pages) < x.time) (hn : T.now ≤ x.time) :
    ∃ p' B', Place { T with pages := G', now := x.time } live e cur A p' B' done (rest ++ [x]) ∧ p.flatten.length ≤ p'.flatten.length := by
  have hgood := good_grow h.good hg ht
  obtain ⟨p', B', hG, hcase⟩ := hg.split A p B h.eq
  have hnum : numAt { T with pages := G', now := x.time } A = numAt T A := rfl
  have hfut : ∀ y ∈ rest ++ [x], e.time ≤ y.time := by
    intro y hy
    rcases List.mem_append.1 hy with hy | hy
    · exact h.future y hy
    · rw [List.mem_singleton.1 hy]
      cases hgh : e.ghost with
      | true => have := (h.ghost hgh).2; omega
      | false =>
        obtain ⟨z, hz, _⟩ := firstTime_mem (h.more hgh)
        have h1 := h.future z hz
        have h2 := le_lastTime h.good.time z (by rw [h.all]; exact List.mem_append_right _ hz)
        omega
  refine ⟨p', B', ?_⟩
  rcases hcase with ⟨rfl, hB⟩ | ⟨hB0, hB, hp⟩
  · refine ⟨?_, Nat.le_refl _⟩
    exact { good := hgood, eq := hG, isCur := h.isCur, off := h.off, isDone := h.isDone
            isRest := by rw [hB, ← List.append_assoc, h.isRest]
            past := h.past, future := hfut, ghost := fun h0 => ⟨(h.ghost h0).1, by have := (h.ghost h0).2; show e.time ≤ x.time; omega⟩
            more := fun _ => by simp
            exact := fun h0 h1 => by rw [h.exact h0 h1, firstTime_append _ _ (h.more h0)] }
  · have hoff := h.off
    have hrest := h.isRest
    rw [hB0] at hrest
    refine ⟨?_, by rw [hp, List.length_append]; omega⟩
    refine { good := hgood, eq := hG, isCur := h.isCur, off := by rw [hp, List.length_append]; omega
             isDone := by rw [hp, List.take_append_of_le_length hoff]; exact h.isDone
             isRest := ?_
             past := h.past, future := hfut, ghost := fun h0 => ⟨(h.ghost h0).1, by have := (h.ghost h0).2; show e.time ≤ x.time; omega⟩
             more := fun _ => by simp
             exact := ?_ }
    · rw [hp, hB, List.drop_append_of_le_length hoff, ← hrest]
      simp [packets]
    · intro h0 _
      have hm := h.more h0
      rw [firstTime_append _ _ hm]
      refine h.exact h0 ?_
      rcases Nat.lt_or_ge e.off p.flatten.length with h2 | h2
      · exact h2
      · exfalso
        apply hm
        rw [← hrest, List.drop_of_length_le h2]
        rfl

theorem good_clock {T : Track} (hT : Good T) {t : Nat} (h : T.now ≤ t) : Good { T with now := t } :=
  { pages := hT.pages, page := hT.page, key := hT.key, time := hT.time, now := by have := hT.now; show lastTime (packets T.pages) ≤ t; omega }

theorem place_clock {T : Track} {live : Bool} {e : Entry} {cur : Option Nat} {A p B done rest} (h : Place T live e cur A p B done rest) {t : Nat} (hn : T.now ≤ t) :
    Place { T with now := t } live e cur A p B done rest :=
  { good := good_clock h.good hn, eq := h.eq, isCur := h.isCur, off := h.off, isDone := h.isDone, isRest := h.isRest, past := h.past, future := h.future
    ghost := fun h0 => ⟨(h.ghost h0).1, by have := (h.ghost h0).2; show e.time ≤ t; omega⟩, more := h.more, exact := h.exact }

/-- What an event does to a track: nothing, or a packet more, or a later "now". -/
theorem grow_cases (T : Nat → Track) (ev : Event) (hl : ev.Legal T) (t : Nat) (hT : Good (T t)) :
    ev.grow t (T t) = T t ∨ (∃ G x, Grows (T t).pages G x ∧ lastTime (packets (T t).pages) < x.time ∧ (T t).now ≤ x.time ∧ ev.grow t (T t) = { T t with pages := G, now := x.time }) ∨
    (∃ n, (T t).now ≤ n ∧ ev.grow t (T t) = { T t with now := n }) := by
  cases ev with
  | more tid x =>
    by_cases h : t = tid
    · subst h
      exact Or.inr (Or.inl ⟨_, x, grows_more x hT.pages hT.page hT.key, hl.1, hl.2, by simp [Event.grow]⟩)
    · exact Or.inl (by simp [Event.grow, h])
  | key tid x =>
    by_cases h : t = tid
    · subst h
      exact Or.inr (Or.inl ⟨_, x, grows_key x hT.pages hT.page hT.key, hl.1, hl.2, by simp [Event.grow]⟩)
    · exact Or.inl (by simp [Event.grow, h])
  | page tid x =>
    by_cases h : t = tid
    · subst h
      exact Or.inr (Or.inl ⟨_, x, grows_page x hT.page hT.key, hl.1, hl.2, by simp [Event.grow]⟩)
    · exact Or.inl (by simp [Event.grow, h])
  | clock tid n =>
    by_cases h : t = tid
    · subst h
      exact Or.inr (Or.inr ⟨n, hl, by simp [Event.grow]⟩)
    · exact Or.inl (by simp [Event.grow, h])
  | play => exact Or.inl rfl

/-- A live viewer while its tracks grow. `s t` is where it started on track `t`. -/
structure LiveInv (T : Nat → Track) (st : State) (tids : List Nat) (s : Nat → Nat) (skip : Nat → List Pkt) : Prop extends Inv T st tids skip where
  live : st.live = true
  started : ∀ t ∈ tids, s t ≤ (T t).now ∧ upTo (s t) (packets (T t).pages) = skip t

theorem LiveInv.grow {T st tids s skip} (h : LiveInv T st tids s skip) (ev : Event) (hl : ev.Legal T) :
    LiveInv (fun t => ev.grow t (T t)) (look (fun t => ev.grow t (T t)) st) tids s skip := by
  refine { src := fun _ => rfl, good := ?_, nodup := h.nodup, sub := h.sub, place := ?_, gone := ?_, outs := h.outs, live := h.live, started := ?_ }
  · intro t ht
    have hT := h.good t ht
    rcases grow_cases T ev hl t hT with h1 | ⟨G, x, hg, h2, h3, h1⟩ | ⟨n, hn, h1⟩
    · rw [h1]; exact hT
    · rw [h1]; exact good_grow hT hg h2
    · rw [h1]; exact good_clock hT hn
  · intro e he
    obtain ⟨A, p, B, rest, hp⟩ := h.place e he
    rcases grow_cases T ev hl e.tid hp.good with h1 | ⟨G, x, hg, h2, h3, h1⟩ | ⟨n, hn, h1⟩
    · exact ⟨A, p, B, rest, by simp only [h1]; exact hp⟩
    · obtain ⟨p', B', hp', _⟩ := place_grow hp hg h2 h3
      exact ⟨A, p', B', rest ++ [x], by simp only [h1]; exact hp'⟩
    · exact ⟨A, p, B, rest, by simp only [h1]; exact place_clock hp hn⟩
  · intro t ht hn
    have := (h.gone t ht hn).1
    rw [h.live] at this
    cases this
  · intro t ht
    obtain ⟨h4, h5⟩ := h.started t ht
    rcases grow_cases T ev hl t (h.good t ht) with h1 | ⟨G, x, hg, h2, h3, h1⟩ | ⟨n, hn, h1⟩
    · simp only [h1]; exact ⟨h4, h5⟩
    · simp only [h1]
      refine ⟨by omega, ?_⟩
      rw [hg.all]
      unfold upTo at h5 ⊢
      rw [List.filter_append, h5]
      simp
      omega
    · simp only [h1]; exact ⟨by omega, h5⟩

theorem LiveInv.step {w : World} {tids s skip} (h : LiveInv w.tracks w.viewer tids s skip) (ev : Event) (hl : ev.Legal w.tracks) :
    LiveInv (w.step ev).tracks (w.step ev).viewer tids s skip ∧ (w.step ev).tracks = fun t => ev.grow t (w.tracks t) := by
  cases ev with
  | play =>
    have := h.toInv.prepare
    exact ⟨{ toInv := this.1, live := this.2.1.trans h.live, started := h.started }, rfl⟩
  | more tid p => exact ⟨h.grow _ hl, rfl⟩
  | key tid p => exact ⟨h.grow _ hl, rfl⟩
  | page tid p => exact ⟨h.grow _ hl, rfl⟩
  | clock tid p => exact ⟨h.grow _ hl, rfl⟩

theorem LiveInv.run {w : World} {tids s skip} (h : LiveInv w.tracks w.viewer tids s skip) (evs : List Event) (hl : LegalRun w.tracks evs) :
    LiveInv (w.run evs).tracks (w.run evs).viewer tids s skip := by
  induction evs generalizing w with
  | nil => exact h
  | cons ev evs ih =>
    have := h.step ev hl.1
    refine ih this.1 ?_
    rw [this.2]
    exact hl.2

/-! ## The start -/

/-- Every entry stands for a packet, and the entries are in order. -/
def Real (st : State) : Prop := Sorted st.buf ∧ ∀ e ∈ st.buf, e.ghost = false

theorem seek_inv {T : Nat → Track} {st : State} {ts : List Nat} {skip : Nat → List Pkt} (h : Inv T st ts skip) (hout : st.out = [])
    (hsrc : ∀ t, st.src t = source (T t)) (t : Nat) (junk : Bool) (pos : Nat) (hT : Good (T t)) (hn : t ∉ ts)
    (hmode : st.sync = true ∨ st.live = false ∨ 0 < min pos (T t).now) (hlive : st.live = false → (T t).now = lastTime (packets (T t).pages))
    (hskip : skip t = upTo (min pos (T t).now) (packets (T t).pages)) (hall : ∀ u ∈ ts, u ∈ st.buf.map Entry.tid) :
    Inv T (seek st t junk pos).1 (ts ++ [t]) skip ∧ (seek st t junk pos).1.out = [] ∧ (seek st t junk pos).1.live = st.live ∧ (seek st t junk pos).1.sync = st.sync ∧
      (∀ u ∈ ts ++ [t], u ∈ (seek st t junk pos).1.buf.map Entry.tid) ∧
      (st.sync = true → (st.live = false ∨ pos ≤ lastTime (packets (T t).pages)) → Real st → Real (seek st t junk pos).1) := by
  obtain ⟨e, c, A, p, B, rest, he, hs, hp, hgh⟩ := seek_place (T t) hT t junk st (hsrc t) pos hmode hlive
  rw [hs]
  have hne : ∀ x ∈ st.buf, x.tid ≠ e.tid := by
    intro x hx h0
    apply hn
    rw [← he, ← h0]
    exact h.sub x hx
  have hperm := put_perm st.sync e st.buf hne
  have hmap : ((put st.sync e st.buf).map Entry.tid).Perm (t :: st.buf.map Entry.tid) := by
    rw [← he, ← List.map_cons]
    exact hperm.map _
  have hall' : ∀ u ∈ ts ++ [t], u ∈ (put st.sync e st.buf).map Entry.tid := by
    intro u hu
    apply hmap.mem_iff.2
    rcases List.mem_append.1 hu with hu | hu
    · exact List.mem_cons_of_mem _ (hall u hu)
    · rw [List.mem_singleton.1 hu]; simp
  refine ⟨{ src := h.src, good := ?_, nodup := ?_, sub := ?_, place := ?_, gone := ?_, outs := ?_ }, hout, rfl, rfl, hall', ?_⟩
  · intro u hu
    rcases List.mem_append.1 hu with hu | hu
    · exact h.good u hu
    · rw [List.mem_singleton.1 hu]; exact hT
  · refine hmap.nodup_iff.2 (List.nodup_cons.2 ⟨?_, h.nodup⟩)
    intro h0
    obtain ⟨x, hx, hx2⟩ := List.mem_map.1 h0
    exact hne x hx (hx2.trans he.symm)
  · intro x hx
    rcases List.mem_cons.1 (hperm.mem_iff.1 hx) with rfl | hx
    · rw [he]; simp
    · exact List.mem_append_left _ (h.sub x hx)
  · intro x hx
    rcases List.mem_cons.1 (hperm.mem_iff.1 hx) with rfl | hx
    · refine ⟨A, p, B, rest, ?_⟩
      show Place (T x.tid) st.live x (if x.tid = t then c else st.cur x.tid) A p B (skip x.tid ++ sent x.tid st.out) rest
      rw [he, if_pos rfl, hout, hskip]
      simp only [sent, List.filter_nil, List.map_nil, List.append_nil]
      exact hp
    · obtain ⟨A', p', B', rest', hp'⟩ := h.place x hx
      refine ⟨A', p', B', rest', ?_⟩
      show Place (T x.tid) st.live x (if x.tid = t then c else st.cur x.tid) A' p' B' (skip x.tid ++ sent x.tid st.out) rest'
      rw [if_neg (by rw [← he]; exact hne x hx)]
      exact hp'
  · intro u hu hnot
    exact absurd (hall' u hu) hnot
  · intro x hx
    simp only [hout] at hx
    cases hx
  · intro hsy hc hr
    show Sorted (put st.sync e st.buf) ∧ ∀ x ∈ put st.sync e st.buf, x.ghost = false
    refine ⟨?_, ?_⟩
    · rw [hsy]
      exact insert_sorted e st.buf hr.1 hne
    · intro x hx
      rcases List.mem_cons.1 (hperm.mem_iff.1 hx) with rfl | hx
      · rcases hc with hc | hc
        · cases hg : x.ghost with
          | false => rfl
          | true => have := (hp.ghost hg).1; rw [hc] at this; cases this
        · exact hgh hc
      · exact hr.2 x hx

theorem seekAll_inv {T : Nat → Track} (tids : List (Nat × Bool)) (pos : Nat) (skip : Nat → List Pkt) (live sync : Bool)
    (hT : ∀ t ∈ tids.map Prod.fst, Good (T t) ∧ (sync = true ∨ live = false ∨ 0 < min pos (T t).now) ∧ (live = false → (T t).now = lastTime (packets (T t).pages)) ∧
      skip t = upTo (min pos (T t).now) (packets (T t).pages))
    {st : State} {ts : List Nat} (h : Inv T st ts skip) (hout : st.out = []) (hl : st.live = live) (hsy : st.sync = sync) (hn : (ts ++ tids.map Prod.fst).Nodup)
    (hall : ∀ u ∈ ts, u ∈ st.buf.map Entry.tid) :
    let st' := tids.foldl (fun st t => (seek st t.1 t.2 pos).1) st
    Inv T st' (ts ++ tids.map Prod.fst) skip ∧ st'.out = [] ∧ st'.live = live ∧ st'.sync = sync ∧ (∀ u ∈ ts ++ tids.map Prod.fst, u ∈ st'.buf.map Entry.tid) ∧
      (sync = true → (live = false ∨ ∀ t ∈ tids.map Prod.fst, pos ≤ lastTime (packets (T t).pages)) → Real st → Real st') := by
  induction tids generalizing st ts with
  | nil =>
    simp only [List.map_nil, List.append_nil, List.foldl_nil]
    exact ⟨h, hout, hl, hsy, hall, fun _ _ hr => hr⟩
  | cons t tids ih =>
    obtain ⟨h1, h2, h3, h4⟩ := hT t.1 (by simp)
    have hnt : t.1 ∉ ts := by
      intro h0
      have := (List.nodup_append.1 hn).2.2 _ h0 t.1 (by simp)
      exact this rfl
    obtain ⟨g1, g2, g3, g4, g5, g6⟩ := seek_inv h hout h.src t.1 t.2 pos h1 hnt (by rw [hsy, hl]; exact h2) (by rw [hl]; exact h3) h4 hall
    obtain ⟨k1, k2, k3, k4, k5, k6⟩ := ih (fun u hu => hT u (by simp at hu ⊢; exact Or.inr hu)) g1 g2 (g3.trans hl) (g4.trans hsy) (by simpa using hn) g5
    rw [List.append_assoc] at k1 k5
    refine ⟨k1, k2, k3, k4, k5, fun h7 h8 h9 => k6 h7 ?_ (g6 (hsy.trans h7) ?_ h9)⟩
    · rcases h8 with h8 | h8
      · exact Or.inl h8
      · exact Or.inr (fun u hu => h8 u (by simp at hu ⊢; exact Or.inr hu))
    · rcases h8 with h8 | h8
      · exact Or.inl (hl.trans h8)
      · exact Or.inr (h8 t.1 (by simp))

end Verif.Play
