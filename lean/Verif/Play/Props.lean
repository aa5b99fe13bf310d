import Verif.Play.Fair

/-!
# C77: a viewer gets the packets of the tracks it selected
-/
namespace Verif.Play
open Spec

/-! ## The start -/

theorem upTo_from (s : Nat) (l : List Pkt) (h : l.Pairwise (fun a b => a.time < b.time)) : l = upTo s l ++ from_ s l := by
  induction l with
  | nil => rfl
  | cons x l ih =>
    have hc := List.pairwise_cons.1 h
    by_cases hx : x.time < s
    · have : ¬ s ≤ x.time := by omega
      have h1 : upTo s (x :: l) = x :: upTo s l := by simp [upTo, hx]
      have h2 : from_ s (x :: l) = from_ s l := by simp [from_, this]
      rw [h1, h2, List.cons_append, ← ih hc.2]
    · have h0 : s ≤ x.time := by omega
      have h1 : upTo s (x :: l) = [] := by
        unfold upTo
        refine List.filter_eq_nil_iff.2 (fun y hy => ?_)
        rcases List.mem_cons.1 hy with rfl | hy
        · simpa using h0
        · have := hc.1 y hy
          simp
          omega
      have h2 : from_ s (x :: l) = x :: l := by
        unfold from_
        refine List.filter_eq_self.2 (fun y hy => ?_)
        rcases List.mem_cons.1 hy with rfl | hy
        · simpa using h0
        · have := hc.1 y hy
          simp
          omega
      rw [h1, h2, List.nil_append]

theorem start_inv (sync live : Bool) (T : Nat → Track) (tids : List (Nat × Bool)) (pos : Nat) (hn : (tids.map Prod.fst).Nodup)
    (hT : ∀ t ∈ tids.map Prod.fst, Good (T t) ∧ (sync = true ∨ live = false ∨ 0 < min pos (T t).now) ∧ (live = false → (T t).now = lastTime (packets (T t).pages))) :
    Inv T (start sync live T tids pos).viewer (tids.map Prod.fst) (fun t => upTo (min pos (T t).now) (packets (T t).pages)) ∧
      (start sync live T tids pos).viewer.out = [] ∧ (start sync live T tids pos).viewer.live = live ∧ (start sync live T tids pos).viewer.sync = sync ∧
      (∀ u ∈ tids.map Prod.fst, u ∈ (start sync live T tids pos).viewer.buf.map Entry.tid) ∧
      (sync = true → (live = false ∨ ∀ t ∈ tids.map Prod.fst, pos ≤ lastTime (packets (T t).pages)) → Real (start sync live T tids pos).viewer) := by
  have h0 : Inv T ⟨sync, live, fun t => source (T t), fun _ => none, [], []⟩ [] (fun t => upTo (min pos (T t).now) (packets (T t).pages)) :=
    { src := fun _ => rfl, good := (fun t ht => by cases ht), nodup := (by simp), sub := (fun e he => by cases he), place := (fun e he => by cases he),
      gone := (fun t ht => by cases ht), outs := (fun x hx => by cases hx) }
  have := seekAll_inv tids pos (fun t => upTo (min pos (T t).now) (packets (T t).pages)) live sync
    (fun t ht => ⟨(hT t ht).1, (hT t ht).2.1, (hT t ht).2.2, rfl⟩) h0 rfl rfl rfl (by simpa using hn) (fun u hu => by cases hu)
  simp only [List.nil_append] at this
  obtain ⟨h1, h2, h3, h4, h5, h6⟩ := this
  exact ⟨h1, h2, h3, h4, h5, fun a b => h6 a b ⟨by simp [Sorted], fun e he => by cases he⟩⟩

theorem start_live {sync : Bool} {T : Nat → Track} {tids : List (Nat × Bool)} {pos : Nat} (hn : (tids.map Prod.fst).Nodup)
    (hT : ∀ t ∈ tids.map Prod.fst, Good (T t) ∧ (sync = true ∨ 0 < min pos (T t).now)) :
    LiveInv T (start sync true T tids pos).viewer (tids.map Prod.fst) (fun t => min pos (T t).now) (fun t => upTo (min pos (T t).now) (packets (T t).pages)) := by
  obtain ⟨h1, h2, h3, h4, h5, h6⟩ := start_inv sync true T tids pos hn (fun t ht => ⟨(hT t ht).1, by
    rcases (hT t ht).2 with h | h
    · exact Or.inl h
    · exact Or.inr (Or.inr h), fun h => by cases h⟩)
  exact { toInv := h1, live := h3, started := fun t _ => ⟨Nat.min_le_right _ _, rfl⟩ }

theorem LiveInv.entry {T st tids s skip} (h : LiveInv T st tids s skip) {t : Nat} (ht : t ∈ tids) : ∃ e ∈ st.buf, e.tid = t := by
  have : t ∈ st.buf.map Entry.tid := by
    by_cases h0 : t ∈ st.buf.map Entry.tid
    · exact h0
    · have := (h.gone t ht h0).1
      rw [h.live] at this
      cases this
  exact List.mem_map.1 this

theorem LiveInv.rest {T st tids s skip} (h : LiveInv T st tids s skip) {t : Nat} (ht : t ∈ tids) :
    sent t st.out <+: from_ (s t) (packets (T t).pages) ∧ (packets (T t).pages).length = (skip t).length + (from_ (s t) (packets (T t).pages)).length := by
  obtain ⟨e, he, rfl⟩ := h.entry ht
  obtain ⟨A, p, B, rest, hp⟩ := h.place e he
  have hall := hp.all
  have hsp := upTo_from (s e.tid) _ hp.good.time
  rw [(h.started e.tid ht).2] at hsp
  have heq := hall.symm.trans hsp
  rw [List.append_assoc] at heq
  have := List.append_cancel_left heq
  refine ⟨⟨rest, this⟩, ?_⟩
  conv => lhs; rw [hsp]
  rw [List.length_append]

/-! ## Live streams -/

/-- C77, what a viewer of a live stream gets (partial: time strictly increases within a track, and all its pages can be loaded;
in async mode, not from the very start, where the program chooses a position itself). Whatever the schedule of packets, keys and
pages that are added to the tracks and of requests for a packet: what was sent of every selected track is a beginning of the
packets from the start position on; nothing of other tracks is sent; and every selected track is still played. -/
theorem C77_live_partial (sync : Bool) (T : Nat → Track) (tids : List (Nat × Bool)) (pos : Nat) (hn : (tids.map Prod.fst).Nodup)
    (hT : ∀ t ∈ tids.map Prod.fst, Good (T t) ∧ (sync = true ∨ 0 < min pos (T t).now)) (evs : List Event) (hl : LegalRun T evs) :
    let w := (start sync true T tids pos).run evs
    (∀ t ∈ tids.map Prod.fst, sent t w.viewer.out <+: from_ (min pos (T t).now) (packets (w.tracks t).pages)) ∧
    (∀ x ∈ w.viewer.out, x.1 ∈ tids.map Prod.fst) ∧ (∀ t ∈ tids.map Prod.fst, t ∈ w.viewer.buf.map Entry.tid) := by
  have h := (start_live hn hT).run (w := start sync true T tids pos) evs hl
  refine ⟨fun t ht => (h.rest ht).1, h.outs, fun t ht => ?_⟩
  obtain ⟨e, he, rfl⟩ := h.entry ht
  exact List.mem_map_of_mem he

theorem LegalRun.split {T : Nat → Track} {a b : List Event} {w : World} (hw : w.tracks = T) (h : LegalRun T (a ++ b)) : LegalRun T a ∧ LegalRun (w.run a).tracks b := by
  induction a generalizing T w with
  | nil => exact ⟨trivial, by rw [show (w.run []).tracks = w.tracks from rfl, hw]; exact h⟩
  | cons ev a ih =>
    have hs : (w.step ev).tracks = fun t => ev.grow t (T t) := by
      rw [← hw]
      cases ev <;> rfl
    have := ih hs h.2
    exact ⟨⟨h.1, this.1⟩, this.2⟩

theorem run_append (w : World) (a b : List Event) : w.run (a ++ b) = (w.run a).run b := by simp [World.run, List.foldl_append]

/-- C77, no track starves: in async mode, when a selected track has two packets that were not sent, then the next one is sent
before the viewer has asked twice as often as it has tracks, whatever happens to this and other tracks meanwhile. -/
theorem C77_fair_partial (T : Nat → Track) (tids : List (Nat × Bool)) (pos : Nat) (hn : (tids.map Prod.fst).Nodup)
    (hT : ∀ t ∈ tids.map Prod.fst, Good (T t) ∧ 0 < min pos (T t).now) (evs more : List Event) (hl : LegalRun T (evs ++ more))
    (t : Nat) (ht : t ∈ tids.map Prod.fst)
    (h2 : (sent t ((start false true T tids pos).run evs).viewer.out).length + 2 ≤
      (from_ (min pos (T t).now) (packets (((start false true T tids pos).run evs).tracks t).pages)).length)
    (hm : 2 * tids.length ≤ asks more) :
    (sent t ((start false true T tids pos).run evs).viewer.out).length < (sent t ((start false true T tids pos).run (evs ++ more)).viewer.out).length := by
  have hsp := LegalRun.split (w := start false true T tids pos) rfl hl
  have hT' : ∀ t ∈ tids.map Prod.fst, Good (T t) ∧ (false = true ∨ 0 < min pos (T t).now) := fun t ht => ⟨(hT t ht).1, Or.inr (hT t ht).2⟩
  have h := (start_live hn hT').run (w := start false true T tids pos) evs hsp.1
  have hsync : ((start false true T tids pos).run evs).viewer.sync = false := by
    rw [(start_live hn hT').runSync (w := start false true T tids pos) evs hsp.1]
    exact (start_inv false true T tids pos hn (fun t ht => ⟨(hT t ht).1, Or.inr (Or.inr (hT t ht).2), fun h => by cases h⟩)).2.2.2.1
  obtain ⟨e, he, rfl⟩ := h.entry ht
  obtain ⟨l1, l2, hb⟩ := List.append_of_mem he
  rw [run_append]
  refine fair h hsync hb ?_ more hsp.2 ?_
  · have := (h.rest ht).2
    omega
  · have h3 := h.toInv.len
    rw [hb] at h3
    have h4 := notReady_le ((start false true T tids pos).run evs).tracks ((start false true T tids pos).run evs).viewer e
    have h5 := Nat.mul_le_mul_left (tids.map Prod.fst).length h4
    simp only [List.length_append, List.length_cons, List.length_map] at h3 h5 ⊢
    omega

/-- C77, no standstill: in sync mode, when every selected track has two packets that were not sent, then some packet is sent
before the viewer has asked once more than it has tracks, whatever is added to the tracks meanwhile. -/
theorem C77_progress_partial (T : Nat → Track) (tids : List (Nat × Bool)) (pos : Nat) (hn : (tids.map Prod.fst).Nodup) (hne : tids ≠ [])
    (hT : ∀ t ∈ tids.map Prod.fst, Good (T t)) (evs more : List Event) (hl : LegalRun T (evs ++ more))
    (h2 : ∀ t ∈ tids.map Prod.fst, (sent t ((start true true T tids pos).run evs).viewer.out).length + 2 ≤
      (from_ (min pos (T t).now) (packets (((start true true T tids pos).run evs).tracks t).pages)).length)
    (hm : tids.length + 1 ≤ asks more) :
    ((start true true T tids pos).run evs).viewer.out.length < ((start true true T tids pos).run (evs ++ more)).viewer.out.length := by
  have hsp := LegalRun.split (w := start true true T tids pos) rfl hl
  have hT' : ∀ t ∈ tids.map Prod.fst, Good (T t) ∧ (true = true ∨ 0 < min pos (T t).now) := fun t ht => ⟨hT t ht, Or.inl rfl⟩
  have h := (start_live hn hT').run (w := start true true T tids pos) evs hsp.1
  have hsync : ((start true true T tids pos).run evs).viewer.sync = true := by
    rw [(start_live hn hT').runSync (w := start true true T tids pos) evs hsp.1]
    exact (start_inv true true T tids pos hn (fun t ht => ⟨hT t ht, Or.inl rfl, fun h => by cases h⟩)).2.2.2.1
  have hb : ∃ e b, ((start true true T tids pos).run evs).viewer.buf = e :: b := by
    cases htd : tids with
    | nil => exact absurd htd hne
    | cons a l =>
      rw [← htd]
      obtain ⟨e, he, _⟩ := h.entry (t := a.1) (by rw [htd]; simp)
      cases hq : ((start true true T tids pos).run evs).viewer.buf with
      | nil => rw [hq] at he; cases he
      | cons x b => exact ⟨x, b, rfl⟩
  obtain ⟨e, b, hb⟩ := hb
  rw [run_append]
  refine progress h hsync hb ?_ more hsp.2 ?_
  · intro t ht
    have := (h.rest ht).2
    have := h2 t ht
    omega
  · have h3 := h.toInv.len
    have h4 := sum_le _ (fun _ => 1) ((start true true T tids pos).run evs).viewer.buf
      (fun x _ => notReady_le ((start true true T tids pos).run evs).tracks ((start true true T tids pos).run evs).viewer x)
    have h5 : (((start true true T tids pos).run evs).viewer.buf.map (fun _ => 1)).sum = ((start true true T tids pos).run evs).viewer.buf.length := by
      generalize ((start true true T tids pos).run evs).viewer.buf = l
      induction l with
      | nil => rfl
      | cons a l ih => simp only [List.map_cons, List.sum_cons, ih, List.length_cons]; omega
    simp only [List.length_map] at h3
    omega

/-- C77, order (partial: only while the viewer is behind): in sync mode, when the viewer starts before the end of every selected
track, and every selected track has two packets that were not sent whenever the viewer asks, then the packets of all tracks
together come in order of time. -/
theorem C77_order_partial (T : Nat → Track) (tids : List (Nat × Bool)) (pos : Nat) (hn : (tids.map Prod.fst).Nodup)
    (hT : ∀ t ∈ tids.map Prod.fst, Good (T t) ∧ pos ≤ lastTime (packets (T t).pages)) (evs : List Event) (hl : LegalRun T evs)
    (hb : ∀ a b, evs = a ++ .play :: b → ∀ t ∈ tids.map Prod.fst, (sent t ((start true true T tids pos).run a).viewer.out).length + 2 ≤
      (from_ (min pos (T t).now) (packets (((start true true T tids pos).run a).tracks t).pages)).length) :
    InOrder ((start true true T tids pos).run evs).viewer.out := by
  have hT' : ∀ t ∈ tids.map Prod.fst, Good (T t) ∧ (true = true ∨ 0 < min pos (T t).now) := fun t ht => ⟨(hT t ht).1, Or.inl rfl⟩
  have h0 := start_live hn hT'
  obtain ⟨_, h2, h3, h4, _, h6⟩ := start_inv true true T tids pos hn (fun t ht => ⟨(hT t ht).1, Or.inl rfl, fun h => by cases h⟩)
  have hr := h6 rfl (Or.inr (fun t ht => (hT t ht).2))
  have hord : Ordered (start true true T tids pos).viewer :=
    { sync := h4, sorted := hr.1, real := hr.2, inOrder := by rw [h2]; simp [InOrder], next := fun x hx => by rw [h2] at hx; cases hx }
  have key : ∀ (n : Nat) (evs : List Event), evs.length = n → LegalRun T evs → (∀ a b, evs = a ++ .play :: b → ∀ t ∈ tids.map Prod.fst,
      (sent t ((start true true T tids pos).run a).viewer.out).length + 2 ≤
      (from_ (min pos (T t).now) (packets (((start true true T tids pos).run a).tracks t).pages)).length) → Ordered ((start true true T tids pos).run evs).viewer := by
    intro n
    induction n with
    | zero =>
      intro evs hlen _ _
      rw [List.length_eq_zero_iff.1 hlen]
      exact hord
    | succ n ih =>
      intro evs hlen
      obtain ⟨evs, ev, rfl⟩ := last_split evs (by intro h; rw [h] at hlen; cases hlen)
      intro hl hb
      have hsp := LegalRun.split (w := start true true T tids pos) rfl hl
      have hi := h0.run (w := start true true T tids pos) evs hsp.1
      have ho := ih evs (by simpa using hlen) hsp.1 (fun a b hab => hb a (b ++ [ev]) (by rw [hab]; simp))
      rw [run_append]
      cases ev with
      | play =>
        refine Ordered.prepare hi.toInv ho (Or.inr (fun t ht => ?_))
        have := hb evs [] rfl t ht
        have := (hi.rest ht).2
        omega
      | _ => exact { sync := ho.sync, sorted := ho.sorted, real := ho.real, inOrder := ho.inOrder, next := ho.next }
  exact (key _ evs rfl hl hb).inOrder

/-! ## Streams that are not live -/

theorem start_vod {sync : Bool} {T : Nat → Track} {tids : List (Nat × Bool)} {pos : Nat} (hn : (tids.map Prod.fst).Nodup)
    (hT : ∀ t ∈ tids.map Prod.fst, Good (T t) ∧ (T t).now = lastTime (packets (T t).pages)) :
    Inv T (start sync false T tids pos).viewer (tids.map Prod.fst) (fun t => upTo (min pos (T t).now) (packets (T t).pages)) ∧
      (start sync false T tids pos).viewer.live = false ∧ (sync = true → Ordered (start sync false T tids pos).viewer) := by
  obtain ⟨h1, h2, h3, h4, h5, h6⟩ := start_inv sync false T tids pos hn (fun t ht => ⟨(hT t ht).1, Or.inr (Or.inl rfl), fun _ => (hT t ht).2⟩)
  refine ⟨h1, h3, fun hs => ?_⟩
  have hr := h6 hs (Or.inl rfl)
  exact { sync := h4.trans hs, sorted := hr.1, real := hr.2, inOrder := by rw [h2]; simp [InOrder], next := fun x hx => by rw [h2] at hx; cases hx }

/-- What is left of a track when the stream is not live: at least one packet. -/
theorem Inv.left {T st tids skip} (h : Inv T st tids skip) (hl : st.live = false) {t : Nat} (ht : t ∈ tids) :
    ∃ rest, rest ≠ [] ∧ packets (T t).pages = skip t ++ sent t st.out ++ rest := by
  by_cases hm : t ∈ st.buf.map Entry.tid
  · obtain ⟨e, he, rfl⟩ := List.mem_map.1 hm
    obtain ⟨A, p, B, rest, hp⟩ := h.place e he
    refine ⟨rest, hp.more ?_, hp.all⟩
    cases hg : e.ghost with
    | false => rfl
    | true => have := (hp.ghost hg).1; rw [hl] at this; cases this
  · obtain ⟨_, l, hl2⟩ := h.gone t ht hm
    exact ⟨[l], by simp, hl2⟩

/-- C77, what a viewer of a recording gets (partial: the last packet of every track is missing; time strictly increases within a
track, and all its pages can be loaded). After some number of requests the viewer is at the end and stays there; then it has got
all packets of every selected track from the start position on, except the last one, and nothing else; in sync mode, in order. -/
theorem C77_vod_partial (sync : Bool) (T : Nat → Track) (tids : List (Nat × Bool)) (pos : Nat) (hn : (tids.map Prod.fst).Nodup)
    (hT : ∀ t ∈ tids.map Prod.fst, Good (T t) ∧ (T t).now = lastTime (packets (T t).pages)) :
    ∃ k, ∀ j, let st := plays (k + j) (start sync false T tids pos).viewer
      (prepareNext st).2 = .finished ∧
      (∀ t ∈ tids.map Prod.fst, sent t st.out = (from_ (min pos (T t).now) (packets (T t).pages)).dropLast) ∧
      (∀ x ∈ st.out, x.1 ∈ tids.map Prod.fst) ∧ (sync = true → InOrder st.out) := by
  obtain ⟨h, hl, ho⟩ := start_vod (sync := sync) (pos := pos) hn hT
  refine ⟨((start sync false T tids pos).viewer.buf.map (weight T (start sync false T tids pos).viewer)).sum, fun j => ?_⟩
  have he := vod_end _ h hl (Nat.le_refl _)
  rw [plays_add, plays_nil j he]
  have hk := h.plays ((start sync false T tids pos).viewer.buf.map (weight T (start sync false T tids pos).viewer)).sum
  refine ⟨by rw [prepare_nil he], fun t ht => ?_, hk.1.outs, fun hs => ((ho hs).plays _ h hl).inOrder⟩
  obtain ⟨_, l, hl2⟩ := hk.1.gone t ht (by rw [he]; simp)
  have hsp := upTo_from (min pos (T t).now) _ (hT t ht).1.time
  have heq := hl2.symm.trans hsp
  rw [List.append_assoc] at heq
  have := List.append_cancel_left heq
  rw [← this]
  simp

/-- C77, the end of a recording: however often the viewer asks, it never gets the last packet of a track, for no track of no
recording. -/
theorem C77_last_fails (sync : Bool) (T : Nat → Track) (tids : List (Nat × Bool)) (pos : Nat) (hn : (tids.map Prod.fst).Nodup)
    (hT : ∀ t ∈ tids.map Prod.fst, Good (T t) ∧ (T t).now = lastTime (packets (T t).pages)) (k t : Nat) (ht : t ∈ tids.map Prod.fst) (p : Pkt)
    (hp : p.time = lastTime (packets (T t).pages)) : p ∉ sent t (plays k (start sync false T tids pos).viewer).out := by
  obtain ⟨h, hl, _⟩ := start_vod (sync := sync) (pos := pos) hn hT
  obtain ⟨h1, h2, _⟩ := h.plays k
  obtain ⟨rest, hr, hall⟩ := h1.left (h2.trans hl) ht
  intro hm
  cases hrr : rest with
  | nil => exact hr hrr
  | cons q r =>
    have hup := (hT t ht).1.time
    have hq := le_lastTime hup q (by rw [hall, hrr]; simp)
    rw [hall, hrr] at hup
    have := (List.pairwise_append.1 hup).2.2 p (List.mem_append_right _ hm) q (by simp)
    omega

/-! ## Where the program goes wrong -/

/-- A packet without bytes. -/
def pk (t : Nat) : Pkt := ⟨t, []⟩

/-- Two live tracks: the first one has packets at 50 and 100, the second one at 60, 110 and 200. -/
def twoTracks : Nat → Track := fun t => if t = 1 then ⟨0, [[[pk 50, pk 100]]], 100⟩ else ⟨0, [[[pk 60, pk 110, pk 200]]], 200⟩

/-- The first track has sent everything, and then gets packets at 300 and 400. -/
def lateEvents : List Event := [.play, .play, .play, .clock 1 105, .play, .more 1 (pk 300), .more 1 (pk 400), .play, .play]

def InOrderBool : List (Nat × Pkt) → Bool
  | [] => true
  | x :: l => l.all (fun y => decide (x.2.time < y.2.time) || (x.2.time == y.2.time && decide (x.1 < y.1))) && InOrderBool l

theorem inOrderBool_iff (l : List (Nat × Pkt)) : InOrderBool l = true ↔ InOrder l := by
  induction l with
  | nil => simp [InOrderBool, InOrder]
  | cons x l ih =>
    unfold InOrder at *
    rw [List.pairwise_cons, ← ih]
    simp [InOrderBool]

theorem good_of_check (T : Track) (h : (!T.pages.isEmpty && T.pages.all (fun p => !p.isEmpty) && T.pages.flatten.all (fun g => !g.isEmpty) &&
    decide ((packets T.pages).Pairwise (fun a b => a.time < b.time)) && decide (lastTime (packets T.pages) ≤ T.now)) = true) : Good T := by
  simp only [Bool.and_eq_true, decide_eq_true_eq, List.all_eq_true, Bool.not_eq_true', List.isEmpty_eq_false_iff] at h
  exact ⟨h.1.1.1.1, h.1.1.1.2, h.1.1.2, h.1.2, h.2⟩

theorem twoTracks_good (t : Nat) : Good (twoTracks t) := by
  unfold twoTracks
  split
  · exact good_of_check _ (by decide)
  · exact good_of_check _ (by decide)

instance (T : Nat → Track) (ev : Event) : Decidable (ev.Legal T) :=
  match ev with
  | .more _ _ => inferInstanceAs (Decidable (_ ∧ _))
  | .key _ _ => inferInstanceAs (Decidable (_ ∧ _))
  | .page _ _ => inferInstanceAs (Decidable (_ ∧ _))
  | .clock tid time => inferInstanceAs (Decidable ((T tid).now ≤ time))
  | .play => inferInstanceAs (Decidable True)

instance decLegalRun : (T : Nat → Track) → (evs : List Event) → Decidable (LegalRun T evs)
  | _, [] => inferInstanceAs (Decidable True)
  | T, ev :: evs => @instDecidableAnd _ _ _ (decLegalRun (fun t => ev.grow t (T t)) evs)

theorem lateEvents_legal : LegalRun twoTracks lateEvents := by
  decide +kernel

/-- C77, order at the live point: when a track of a live stream was played to its end and then gets a late packet on the same
page, then this is sent before earlier packets of other tracks. -/
theorem C77_order_fails : ∃ (T : Nat → Track) (evs : List Event), (∀ t, Good (T t)) ∧ LegalRun T evs ∧
    ¬ InOrder ((start true true T [(1, false), (2, false)] 0).run evs).viewer.out := by
  refine ⟨twoTracks, lateEvents, twoTracks_good, lateEvents_legal, ?_⟩
  rw [← inOrderBool_iff]
  decide +kernel

/-- A track that has two packets at the same time, on both sides of the end of a page. -/
def equalTimes : Track := ⟨1, [[[pk 10, pk 20]], [[pk 20, pk 30], [pk 40, pk 50]]], 50⟩

/-- C77, packets at the same time: when the last packet of a page and the first one of the next have the same time, then the first
key of the next page is passed over, also the packets in it that are later. -/
theorem C77_equal_fails : ((packets equalTimes.pages).Pairwise (fun a b => a.time ≤ b.time)) ∧
    sent 1 (plays 20 (start true false (fun _ => equalTimes) [(1, false)] 0).viewer).out = [pk 10, pk 20, pk 40] := by
  decide +kernel

/-- A page was not loaded yet. -/
def unload (n : Nat) (s : Src) : Src := { s with pages := s.pages.map (fun p => if p.num = n then { p with avail := false } else p) }

/-- A recording with two pages. -/
def twoPages : Track := ⟨1, [[[pk 10, pk 20]], [[pk 25, pk 30], [pk 40, pk 50]]], 50⟩

/-- A recording with four pages. -/
def fourPages : Track := ⟨1, [[[pk 10, pk 20]], [[pk 25, pk 30], [pk 40, pk 50]], [[pk 60]], [[pk 70]]], 70⟩

/-- The viewer at the start of a recording whose second page was not loaded yet. -/
def lacking (T : Track) : State :=
  { (start true false (fun _ => T) [(1, false)] 0).viewer with src := fun _ => unload 2 (source T) }

/-- C77, pages of a recording that are loaded late: the last packet of a page is sent again and again while the next page is not
there; and when a page after that one is there, then the one in between is passed over. -/
theorem C77_unloaded_fails : Good twoPages ∧ Good fourPages ∧ sent 1 (plays 7 (lacking twoPages)).out = [pk 10, pk 20, pk 20, pk 20] ∧
    sent 1 (plays 20 (lacking fourPages)).out = [pk 10, pk 20, pk 60] := by
  refine ⟨good_of_check _ (by decide), good_of_check _ (by decide), ?_, ?_⟩ <;> decide +kernel

/-! ## Cases -/

/-- The schedule above is one that `C77_live_partial` is about, and packets are sent in it. -/
example : (∀ t ∈ ([(1, false), (2, false)] : List (Nat × Bool)).map Prod.fst, Good (twoTracks t) ∧ (true = true ∨ 0 < min 0 (twoTracks t).now)) ∧
    LegalRun twoTracks lateEvents ∧
    sent 1 ((start true true twoTracks [(1, false), (2, false)] 0).run lateEvents).viewer.out = [pk 50, pk 100, pk 300] ∧
    sent 2 ((start true true twoTracks [(1, false), (2, false)] 0).run lateEvents).viewer.out = [pk 60, pk 110] :=
  ⟨fun t _ => ⟨twoTracks_good t, Or.inl rfl⟩, lateEvents_legal, by decide +kernel, by decide +kernel⟩

/-- Growth over pages and keys in async mode, with a viewer that starts in the middle. -/
def growth : List Event := [.play, .key 1 (pk 120), .page 1 (pk 140), .page 2 (pk 210), .more 2 (pk 220), .play, .play, .play, .play, .play, .play]

example : LegalRun twoTracks growth ∧ sent 1 ((start false true twoTracks [(2, false), (1, true)] 70).run growth).viewer.out = [pk 100, pk 120] ∧
    sent 2 ((start false true twoTracks [(2, false), (1, true)] 70).run growth).viewer.out = [pk 110, pk 200, pk 210] := by
  decide +kernel

/-- A case of `C77_fair_partial` and of `C77_progress_partial`: there are two unsent packets, after some events. -/
example : (sent 2 ((start false true twoTracks [(2, false), (1, true)] 70).run (growth.take 5)).viewer.out).length + 2 ≤
      (from_ (min 70 (twoTracks 2).now) (packets (((start false true twoTracks [(2, false), (1, true)] 70).run (growth.take 5)).tracks 2).pages)).length ∧
    2 * 2 ≤ asks (growth.drop 5) := by
  decide +kernel

example : ∀ t ∈ ([(2, false), (1, true)] : List (Nat × Bool)).map Prod.fst, (sent t ((start true true twoTracks [(2, false), (1, true)] 70).run (growth.take 5)).viewer.out).length + 2 ≤
      (from_ (min 70 (twoTracks t).now) (packets (((start true true twoTracks [(2, false), (1, true)] 70).run (growth.take 5)).tracks t).pages)).length := by
  decide +kernel

/-- A case of `C77_order_partial`: whenever the viewer asks, both tracks have two packets left. -/
def behind : List Event := [.key 1 (pk 120), .play, .more 1 (pk 130), .play, .page 2 (pk 205), .play]

example : (∀ t ∈ ([(2, false), (1, true)] : List (Nat × Bool)).map Prod.fst, (0 : Nat) ≤ lastTime (packets (twoTracks t).pages)) ∧ LegalRun twoTracks behind ∧
    (∀ n ∈ [1, 3, 5], ∀ t ∈ ([(2, false), (1, true)] : List (Nat × Bool)).map Prod.fst,
      (sent t ((start true true twoTracks [(2, false), (1, true)] 0).run (behind.take n)).viewer.out).length + 2 ≤
      (from_ (min 0 (twoTracks t).now) (packets (((start true true twoTracks [(2, false), (1, true)] 0).run (behind.take n)).tracks t).pages)).length) ∧
    ((start true true twoTracks [(2, false), (1, true)] 0).run behind).viewer.out = [(1, pk 50), (2, pk 60), (1, pk 100)] := by
  decide +kernel

/-- A recording of two tracks, from the middle: all but the last packets, in order. -/
example : (plays 20 (start true false (fun t => if t = 1 then fourPages else twoPages) [(1, false), (2, true)] 25).viewer).out =
    [(1, pk 25), (2, pk 25), (1, pk 30), (2, pk 30), (1, pk 40), (2, pk 40), (1, pk 50), (1, pk 60)] := by
  decide +kernel

end Verif.Play
