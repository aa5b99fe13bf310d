import Verif.Play.Lookup

/-!
# One try of `prepareNext`
-/
namespace Verif.Play
open Spec

/-- An entry stands where a viewer has received (or passed) the packets `done` of a track, and none after. -/
structure Place (T : Track) (live : Bool) (e : Entry) (cur : Option Nat) (A : Pages) (p : List (List Pkt)) (B : Pages) (done rest : List Pkt) : Prop
    extends At T A p B where
  isCur : cur = some (numAt T A)
  off : e.off ≤ p.flatten.length
  isDone : packets A ++ p.flatten.take e.off = done
  isRest : p.flatten.drop e.off ++ packets B = rest
  past : ∀ x ∈ done, x.time < e.time
  future : ∀ x ∈ rest, e.time ≤ x.time
  ghost : e.ghost = true → live = true ∧ e.time ≤ T.now
  more : e.ghost = false → rest ≠ []
  exact : e.ghost = false → e.off < p.flatten.length → e.time = firstTime rest

theorem Place.all {T live e cur A p B done rest} (h : Place T live e cur A p B done rest) : packets T.pages = done ++ rest := by
  rw [h.eq, packets_split, ← h.isDone, ← h.isRest]
  simp only [List.append_assoc]
  rw [← List.append_assoc (p.flatten.take e.off), List.take_append_drop]

theorem Place.up {T live e cur A p B done rest} (h : Place T live e cur A p B done rest) : Up (done ++ rest) := by
  rw [← h.all]; exact h.good.time

theorem Place.mapped {T live e cur A p B done rest} (h : Place T live e cur A p B done rest) : mapped (source T) cur = Option.some p.flatten := by
  rw [h.isCur]; exact h.toAt.mapped

/-- The viewer after the first entry was replaced. -/
def after (st : State) (b : List Entry) (e : Entry) (cur : Option Nat) (outs : List (Nat × Pkt)) : State :=
  { st with cur := fun t => if t = e.tid then cur else st.cur t, buf := put st.sync e b, out := st.out ++ outs }

/-- What a try does with the first entry `e`. -/
inductive Does (T : Track) (st : State) (e : Entry) (b : List Entry) (done rest : List Pkt) : Try → Prop
  /-- Another page is opened. -/
  | load (e' : Entry) (c : Option Nat) (A : Pages) (p : List (List Pkt)) (B : Pages) (htid : e'.tid = e.tid)
      (hp : Place T st.live e' c A p B done rest) (hle : e.time ≤ e'.time) (hr : rest ≠ []) (hoff : e'.off < p.flatten.length)
      (hold : (Play.mapped (source T) (st.cur e.tid)).map (fun l => l[e.off]?) = Option.some none) (hg : e'.ghost = false) :
      Does T st e b done rest (.stop (after st b e' c []) (.wait 1))
  /-- There is nothing to do but to wait. -/
  | idle (e' : Entry) (A : Pages) (p : List (List Pkt)) (B : Pages) (htid : e'.tid = e.tid)
      (hp : Place T st.live e' (st.cur e.tid) A p B done rest) (hle : e.time ≤ e'.time) (hr : rest.length ≤ 1) (hl : st.live = true) (hs : st.sync = true) :
      Does T st e b done rest (.stop (after st b e' (st.cur e.tid) []) (.wait 2000))
  /-- The same, and nothing changes. -/
  | same (hr : rest.length ≤ 1) (hl : st.live = true) (hs : st.sync = true) : Does T st e b done rest (.stop st (.wait 2000))
  /-- The same, and the next track is tried. -/
  | other (e' : Entry) (A : Pages) (p : List (List Pkt)) (B : Pages) (htid : e'.tid = e.tid)
      (hp : Place T st.live e' (st.cur e.tid) A p B done rest) (hr : rest.length ≤ 1) (hl : st.live = true) (hs : st.sync = false) (hoff : e'.off = e.off) :
      Does T st e b done rest (.again (after st b e' (st.cur e.tid) []))
  /-- The next packet is handed out. -/
  | packet (e' : Entry) (q : Pkt) (rest' : List Pkt) (A : Pages) (p : List (List Pkt)) (B : Pages) (htid : e'.tid = e.tid) (hq : rest = q :: rest')
      (hp : Place T st.live e' (st.cur e.tid) A p B (done ++ [q]) rest') (hle : e.time ≤ q.time) (hlt : q.time < e'.time)
      (hex : e.ghost = false → e.time = q.time) (hgh : rest' ≠ [] → e'.ghost = false) :
      Does T st e b done rest (.stop (after st b e' (st.cur e.tid) [(e.tid, q)]) .packet)
  /-- The end of a track that is not live: its last packet is lost. -/
  | fin (hl : st.live = false) (hr : rest.length = 1) : Does T st e b done rest (.stop { st with buf := b } (.wait 1))

theorem after_same (st : State) (b : List Entry) (e : Entry) (outs : List (Nat × Pkt)) {t : Nat} (h : e.tid = t) :
    after st b e (st.cur t) outs = { st with buf := put st.sync e b, out := st.out ++ outs } := by
  unfold after
  congr 1
  funext x
  by_cases hx : x = e.tid
  · rw [if_pos hx, hx, h]
  · rw [if_neg hx]

theorem drop_first (st : State) (e : Entry) (b : List Entry) (hb : st.buf = e :: b) : drop st e.tid = .stop { st with buf := b } (.wait 1) := by
  unfold drop
  rw [hb]
  simp [dropTrack]

/-- The next packet on the place is the one at the offset. -/
theorem Place.here {T live e cur A p B done rest} (h : Place T live e cur A p B done rest) (ho : e.off < p.flatten.length) :
    ∃ q r, p.flatten.drop e.off = q :: r ∧ rest = q :: (r ++ packets B) ∧ p.flatten[e.off]? = Option.some q ∧ p.flatten[e.off + 1]? = r.head? := by
  refine ⟨p.flatten[e.off], p.flatten.drop (e.off + 1), List.drop_eq_getElem_cons ho, ?_, List.getElem?_eq_getElem ho, ?_⟩
  · rw [← h.isRest, List.drop_eq_getElem_cons ho]; rfl
  · rw [List.head?_drop]

/-- A packet further on the same page. -/
theorem Place.step {T live e cur A p B done rest} (h : Place T live e cur A p B done rest) (ho : e.off < p.flatten.length) {q : Pkt} {r : List Pkt}
    (hr : rest = q :: r) (e' : Entry) (ho' : e'.off = e.off + 1) (h1 : q.time < e'.time) (h2 : ∀ x ∈ r, e'.time ≤ x.time)
    (h3 : e'.ghost = true → live = true ∧ e'.time ≤ T.now) (h4 : e'.ghost = false → r ≠ []) (h5 : e'.ghost = false → e'.off < p.flatten.length → e'.time = firstTime r) :
    Place T live e' cur A p B (done ++ [q]) r := by
  obtain ⟨q', r', hd, hr', hg, _⟩ := h.here ho
  rw [hr] at hr'
  obtain ⟨rfl, rfl⟩ := List.cons.inj hr'
  have hup := h.up
  rw [hr] at hup
  refine { toAt := h.toAt, isCur := h.isCur, off := by omega, isDone := ?_, isRest := ?_, past := ?_, future := h2, ghost := h3, more := h4, exact := h5 }
  · rw [← h.isDone, ho', List.append_assoc, List.take_add_one, hg]
    rfl
  · rw [ho']
    congr 1
    have := congrArg List.tail hd
    rw [List.tail_drop] at this
    simpa using this
  · intro x hx
    rcases List.mem_append.1 hx with hx | hx
    · have := (List.pairwise_append.1 hup).2.2 x hx q (by simp)
      omega
    · rw [List.mem_singleton.1 hx]; exact h1

theorem tail_gt {q : Pkt} {r : List Pkt} (h : Up (q :: r)) : ∀ x ∈ r, q.time < x.time := fun x hx => (List.pairwise_cons.1 h).1 x hx

theorem scan_first (x : Pkt) (l : List Pkt) (t : Nat) (h : t ≤ x.time) : scan t (x :: l) = (0, x.time) := by
  unfold scan
  rw [if_pos h]

theorem opened_start (e : Entry) (y : Pkt) (l : List Pkt) (c : Bool) (h : e.time ≤ y.time) :
    opened e (Option.some (y :: l)) c = { e with off := 0, time := y.time, ghost := false, unavail := false } := by
  cases c with
  | true => rfl
  | false =>
    show ({ e with off := (scan e.time (y :: l)).1, time := (scan e.time (y :: l)).2, ghost := false, unavail := false } : Entry) = _
    rw [scan_first y l e.time h]

/-- The place at the start of the next page. -/
theorem Place.turn {T live e cur A p q B done rest} (h : Place T live e cur A p (q :: B) done rest) (ho : e.off = p.flatten.length) (u : Bool) :
    Place T live { e with off := 0, time := firstTime q.flatten, ghost := false, unavail := u } (Option.some (numAt T (A ++ [p]))) (A ++ [p]) q B done rest := by
  have hn := h.toAt.next
  have hf : firstTime rest = firstTime q.flatten := by
    rw [← h.isRest, ho, List.drop_length, List.nil_append, packets_cons, firstTime_append _ _ hn.flatNe]
  have hrest : rest = q.flatten ++ packets B := by
    rw [← h.isRest, ho, List.drop_length, List.nil_append, packets_cons]
  have hup := h.up
  obtain ⟨x, hx, hx2⟩ := firstTime_mem hn.flatNe
  refine { toAt := hn, isCur := rfl, off := Nat.zero_le _, isDone := ?_, isRest := ?_, past := ?_, future := ?_, ghost := ?_, more := ?_, exact := ?_ }
  · rw [← h.isDone, ho, List.take_length, packets_append]
    simp [packets]
  · rw [hrest]; rfl
  · intro y hy
    show y.time < firstTime q.flatten
    rw [← hx2]
    exact (List.pairwise_append.1 hup).2.2 y hy x (by rw [hrest]; exact List.mem_append_left _ hx)
  · intro y hy
    show firstTime q.flatten ≤ y.time
    rw [← hf]
    exact firstTime_le (List.pairwise_append.1 hup).2.1 y hy
  · intro h0; cases h0
  · intro _
    rw [hrest]
    simp [hn.flatNe]
  · intro _ _
    exact hf.symm

/-- The entry is at the end of its page. -/
theorem does_end (T : Track) (st : State) (e : Entry) (b : List Entry) {A p B done rest} (hb : st.buf = e :: b) (hs : st.src e.tid = source T)
    (h : Place T st.live e (st.cur e.tid) A p B done rest) (ho : e.off = p.flatten.length) : Does T st e b done rest (atEnd st e false) := by
  have hmap := h.mapped
  have hold : (Play.mapped (source T) (st.cur e.tid)).map (fun l => l[e.off]?) = Option.some none := by
    rw [hmap]; simp [ho]
  have hrest : rest = packets B := by rw [← h.isRest, ho, List.drop_length, List.nil_append]
  have hdone : done = packets A ++ p.flatten := by rw [← h.isDone, ho, List.take_length]
  have hlast : lastTime p.flatten < e.time := by
    obtain ⟨x, hx, hx2⟩ := lastTime_mem h.toAt.flatNe
    rw [← hx2]
    exact h.past x (by rw [hdone]; exact List.mem_append_right _ hx)
  have hfirst : firstTime p.flatten ≤ e.time := by
    obtain ⟨x, hx, hx2⟩ := lastTime_mem h.toAt.flatNe
    have := firstTime_le h.toAt.upPage x hx
    omega
  have hall := h.all
  have hup := h.up
  unfold atEnd
  rw [hs]
  simp only
  cases B with
  | nil =>
    have hr0 : rest = [] := by rw [hrest]; rfl
    have hg : e.ghost = true := by
      cases hg : e.ghost with
      | true => rfl
      | false => exact absurd hr0 (h.more hg)
    have hgl := h.ghost hg
    have hlm : (source T).lastms = lastTime p.flatten := h.toAt.lastms
    have hpg := h.toAt.pages hfirst (fun q B' h0 => by cases h0)
    rw [hgl.1, hpg, hlm]
    rw [if_neg (by simp)]
    rw [if_neg (by rw [h.isCur]; simp; omega)]
    rw [if_pos hg]
    unfold waitGhost
    rw [hs]
    simp only
    rw [hlm, show (if lastTime p.flatten ≤ e.time then { e with time := (source T).nowms } else e) = { e with time := (source T).nowms } from if_pos (by omega)]
    have hpl : Place T st.live { e with time := (source T).nowms } (st.cur e.tid) A p [] done rest :=
      { toAt := h.toAt, isCur := h.isCur, off := h.off, isDone := h.isDone, isRest := h.isRest,
        past := fun x hx => by have := h.past x hx; have := hgl.2; show x.time < T.now; omega
        future := by rw [hr0]; intro x hx; cases hx
        ghost := fun _ => ⟨hgl.1, Nat.le_refl _⟩
        more := fun h0 => by exact absurd hg (by rw [show e.ghost = false from h0]; simp)
        exact := fun h0 => by exact absurd hg (by rw [show e.ghost = false from h0]; simp) }
    cases hsy : st.sync with
    | true =>
      rw [if_pos rfl]
      have := Does.idle (e := e) (b := b) { e with time := (source T).nowms } A p [] rfl hpl hgl.2 (by rw [hr0]; simp) hgl.1 hsy
      rw [after_same st b _ [] rfl] at this
      rw [replaceFirst, hb, List.tail_cons]
      rw [List.append_nil] at this
      rw [← hsy]
      exact this
    | false =>
      rw [if_neg (by simp)]
      have := Does.other (e := e) (b := b) { e with time := (source T).nowms } A p [] rfl hpl (by rw [hr0]; simp) hgl.1 hsy rfl
      rw [after_same st b _ [] rfl] at this
      rw [replaceFirst, hb, List.tail_cons]
      rw [List.append_nil] at this
      rw [← hsy]
      exact this
  | cons q B =>
    have hn := h.toAt.next
    obtain ⟨x, hx, hx2⟩ := firstTime_mem hn.flatNe
    have hrest' : rest = q.flatten ++ packets B := by rw [hrest, packets_cons]
    have hxr : x ∈ rest := by rw [hrest']; exact List.mem_append_left _ hx
    have hle : e.time ≤ firstTime q.flatten := by rw [← hx2]; exact h.future x hxr
    have hlm : (source T).lastms = lastTime rest := by
      show lastTime (packets T.pages) = _
      rw [hall, lastTime_append _ _ (by intro h0; rw [h0] at hxr; cases hxr)]
    have hxl : x.time ≤ lastTime rest := le_lastTime (List.pairwise_append.1 hup).2.1 x hxr
    have hturn := h.turn ho false
    have hmapn := hturn.mapped
    have hcons : ∃ y l, q.flatten = y :: l := by
      cases hq : q.flatten with
      | nil => exact absurd hq hn.flatNe
      | cons y l => exact ⟨y, l, rfl⟩
    obtain ⟨y, l, hyl⟩ := hcons
    have hfy : firstTime q.flatten = y.time := by rw [hyl]; rfl
    -- the end of a track that is not live
    by_cases hfin : st.live = false ∧ e.time ≥ (source T).lastms
    · rw [if_pos (by simp [hfin.1, hfin.2]), drop_first st e b hb]
      refine Does.fin hfin.1 ?_
      have hge := hfin.2
      rw [hlm] at hge
      -- the rest has one packet
      cases hr : rest with
      | nil => rw [hr] at hxr; cases hxr
      | cons z zs =>
        cases zs with
        | nil => rfl
        | cons z2 zs =>
          exfalso
          rw [hr] at hge hup hxl hxr
          have hz := h.future z (by rw [hr]; simp)
          have h2 := le_lastTime (List.pairwise_append.1 hup).2.1
          have h3 := (List.pairwise_cons.1 (List.pairwise_append.1 hup).2.1).1 z2 (by simp)
          have h4 := h2 z2 (by simp)
          have h5 := firstTime_le (List.pairwise_append.1 hup).2.1 x hxr
          rw [firstTime_cons] at h5
          have : e.time ≤ z.time := hz
          omega
    · rw [if_neg (by
        intro h0
        apply hfin
        simpa using h0)]
      have hload : ∀ c, openPage st e (numAt T (A ++ [p])) c = .stop (after st b { e with off := 0, time := firstTime q.flatten, ghost := false, unavail := false } (Option.some (numAt T (A ++ [p]))) []) (.wait 1) := by
        intro c
        unfold openPage after
        rw [hs, hn.loadSelf]
        simp only
        rw [hmapn, hyl, opened_start e y l c (by omega), firstTime_cons]
        simp only [replaceFirst, hb, List.tail_cons, List.append_nil]
        rfl
      have hdoes : Does T st e b done rest (.stop (after st b { e with off := 0, time := firstTime q.flatten, ghost := false, unavail := false } (Option.some (numAt T (A ++ [p]))) []) (.wait 1)) :=
        Does.load _ _ (A ++ [p]) q B rfl hturn hle (by intro h0; rw [h0] at hxr; cases hxr) (by show 0 < q.flatten.length; rw [hyl]; simp) hold rfl
      rw [if_pos (by rw [hlm]; simp; left; omega)]
      by_cases heq : firstTime q.flatten ≤ e.time
      · -- the time is that of the next page
        have hpg := hn.pages heq (fun q' B' h0 => by
          subst h0
          have hn2 := hn.next
          obtain ⟨z, hz, hz2⟩ := firstTime_mem hn2.flatNe
          rw [← hz2]
          have h1 : e.time ≤ x.time := h.future x hxr
          have h2 := hn.afterLt x hx z (by rw [packets_cons]; exact List.mem_append_left _ hz)
          omega)
        rw [hpg]
        simp only
        rw [if_neg (by rw [h.isCur]; have := h.toAt.numLt; simp; intro _; omega)]
        rw [hload]
        exact hdoes
      · have hpg := h.toAt.pages hfirst (fun q' B' h0 => by
          obtain ⟨rfl, rfl⟩ := List.cons.inj h0
          omega)
        rw [hpg]
        simp only [reduceCtorEq, if_false]
        rw [if_pos (by rw [h.isCur]; have := h.toAt.numLt; simp; omega)]
        rw [hload]
        exact hdoes

theorem Place.lastms_le {T live e cur A p B done rest} (h : Place T live e cur A p B done rest) : ∀ x ∈ rest, x.time ≤ (source T).lastms := by
  intro x hx
  refine le_lastTime h.good.time x ?_
  rw [h.all]
  exact List.mem_append_right _ hx

/-- Handing out a packet. -/
theorem does_packet (T : Track) (st : State) (e : Entry) (b : List Entry) {A p B done rest} (hb : st.buf = e :: b) (hs : st.src e.tid = source T)
    (h : Place T st.live e (st.cur e.tid) A p B done rest) (ho : e.off < p.flatten.length) {q : Pkt} {r : List Pkt} (hr : rest = q :: r) (n : Nat)
    (hn : (n = 0 ∧ r = [] ∧ q.time < T.now ∧ st.live = true) ∨ (0 < n ∧ r ≠ [] ∧ n = firstTime r)) : Does T st e b done rest (deliver st e q n) := by
  have hup := h.up
  rw [hr] at hup
  have hupr := (List.pairwise_append.1 hup).2.1
  have hle : e.time ≤ q.time := h.future q (by rw [hr]; simp)
  have hex : e.ghost = false → e.time = q.time := fun h0 => by rw [h.exact h0 ho, hr, firstTime_cons]
  unfold deliver
  rw [hs]
  simp only
  rcases hn with ⟨rfl, hr0, hnow, hlive⟩ | ⟨hn, hrne, hnf⟩
  · have hlm : q.time = (source T).lastms := by
      show q.time = lastTime (packets T.pages)
      rw [h.all, hr, hr0, lastTime_append_single]
    rw [if_pos rfl, if_pos hlm]
    have hp := h.step ho hr { e with off := e.off + 1, time := (source T).nowms, ghost := true, unavail := true } rfl hnow
      (by rw [hr0]; intro x hx; cases hx) (fun _ => ⟨hlive, Nat.le_refl _⟩) (fun h0 => by cases h0) (fun h0 => by cases h0)
    have := Does.packet (e := e) (b := b) (st := st) { e with off := e.off + 1, time := (source T).nowms, ghost := true, unavail := true } q r A p B rfl hr hp hle hnow hex (fun h0 => absurd hr0 h0)
    rw [after_same st b _ _ rfl] at this
    simp only [replaceFirst, hb, List.tail_cons]
    exact this
  · rw [if_neg (by omega)]
    obtain ⟨x, hx, hx2⟩ := firstTime_mem hrne
    have hlt : q.time < n := by rw [hnf, ← hx2]; exact tail_gt hupr x hx
    have hp := h.step ho hr { e with off := e.off + 1, time := n, ghost := false, unavail := false } rfl hlt
      (fun y hy => by show n ≤ y.time; rw [hnf]; exact firstTime_le (List.pairwise_cons.1 hupr).2 y hy)
      (fun h0 => by cases h0) (fun _ => hrne) (fun _ _ => hnf)
    have := Does.packet (e := e) (b := b) (st := st) { e with off := e.off + 1, time := n, ghost := false, unavail := false } q r A p B rfl hr hp hle hlt hex (fun _ => rfl)
    rw [after_same st b _ _ rfl] at this
    simp only [replaceFirst, hb, List.tail_cons]
    exact this

/-- The packet is the last one on its page. -/
theorem does_last (T : Track) (st : State) (e : Entry) (b : List Entry) {A p B done rest} (hb : st.buf = e :: b) (hs : st.src e.tid = source T)
    (h : Place T st.live e (st.cur e.tid) A p B done rest) (ho : e.off < p.flatten.length) {q : Pkt} (hd : p.flatten.drop e.off = [q]) :
    Does T st e b done rest (lastOnPage st e q) := by
  have hr : rest = q :: packets B := by rw [← h.isRest, hd]; rfl
  have hql : q.time = lastTime p.flatten := by
    conv => rhs; rw [← List.take_append_drop e.off p.flatten, hd]
    rw [lastTime_append_single]
  have hup := h.up
  rw [hr] at hup
  unfold lastOnPage
  rw [hs]
  simp only
  cases B with
  | nil =>
    have hr1 : rest = [q] := by rw [hr]; rfl
    have hlm : (source T).lastms = q.time := by
      show lastTime (packets T.pages) = _
      rw [h.all, hr1, lastTime_append_single]
    cases hlive : st.live with
    | false =>
      rw [if_pos (by simp [hlm]), drop_first st e b hb]
      exact Does.fin hlive (by rw [hr1]; rfl)
    | true =>
      rw [if_neg (by simp), hql, h.toAt.noNextKey]
      simp only
      unfold noNext
      rw [hs]
      simp only
      by_cases hnow : (source T).nowms > q.time
      · rw [if_pos hnow]
        exact does_packet T st e b hb hs h ho hr1 0 (Or.inl ⟨rfl, rfl, hnow, hlive⟩)
      · rw [if_neg hnow]
        have hle : e.time ≤ q.time := h.future q (by rw [hr]; simp)
        have hqn : q.time ≤ T.now := by
          have := h.good.now
          have h2 : lastTime (packets T.pages) = q.time := hlm
          omega
        cases hsy : st.sync with
        | false =>
          rw [if_pos (by rfl)]
          have hpl : Place T st.live { e with unavail := true } (st.cur e.tid) A p [] done rest :=
            { toAt := h.toAt, isCur := h.isCur, off := h.off, isDone := h.isDone, isRest := h.isRest, past := h.past, future := h.future, ghost := h.ghost,
              more := h.more, exact := h.exact }
          have := Does.other (e := e) (b := b) { e with unavail := true } A p [] rfl hpl (by rw [hr1]; simp) hlive hsy rfl
          rw [after_same st b _ [] rfl] at this
          rw [hb]
          rw [hsy, List.append_nil] at this
          rw [← hsy] at this ⊢
          simpa [moveFirstToEnd, put, hsy] using this
        | true =>
          rw [if_neg (by simp)]
          cases hu : e.unavail with
          | true => exact Does.same (by rw [hr1]; simp) hlive hsy
          | false =>
            have hpl : Place T st.live { e with time := q.time, unavail := true } (st.cur e.tid) A p [] done rest :=
              { toAt := h.toAt, isCur := h.isCur, off := h.off, isDone := h.isDone, isRest := h.isRest
                past := fun x hx => by have := h.past x hx; show x.time < q.time; omega
                future := by rw [hr1]; intro x hx; rw [List.mem_singleton.1 hx]; exact Nat.le_refl _
                ghost := fun _ => ⟨hlive, hqn⟩, more := h.more
                exact := fun _ _ => by rw [hr1]; rfl }
            have := Does.idle (e := e) (b := b) { e with time := q.time, unavail := true } A p [] rfl hpl hle (by rw [hr1]; simp) hlive hsy
            rw [after_same st b _ [] rfl] at this
            simp only [replaceFirst, hb, List.tail_cons]
            rw [List.append_nil] at this
            rw [if_neg (by simp)]
            rw [hsy] at this
            exact this
  | cons q2 B =>
    have hn := h.toAt.next
    obtain ⟨x, hx, hx2⟩ := firstTime_mem hn.flatNe
    have hxr : x ∈ packets (q2 :: B) := by rw [packets_cons]; exact List.mem_append_left _ hx
    have hlt : q.time < x.time := tail_gt (List.pairwise_append.1 hup).2.1 x hxr
    have hxl := h.lastms_le x (by rw [hr]; simp [hxr])
    rw [if_neg (by simp; intro _; omega), hql, h.toAt.nextKey]
    simp only
    rw [if_neg (by rw [h.isCur]; have := h.toAt.numLt; simp; omega), hn.keyTime, if_neg (by omega)]
    refine does_packet T st e b hb hs h ho hr _ (Or.inr ⟨by omega, ?_, ?_⟩)
    · intro h0; rw [h0] at hxr; cases hxr
    · rw [packets_cons, firstTime_append _ _ hn.flatNe]

/-- One try with a good entry. -/
theorem does (T : Track) (st : State) (e : Entry) (b : List Entry) {A p B done rest} (hb : st.buf = e :: b) (hs : st.src e.tid = source T)
    (h : Place T st.live e (st.cur e.tid) A p B done rest) : Does T st e b done rest (attempt st) := by
  unfold attempt
  rw [hb]
  simp only
  rw [hs, h.mapped]
  simp only
  by_cases ho : e.off < p.flatten.length
  · obtain ⟨q, r, hd, hr, hq, hq2⟩ := h.here ho
    rw [hq, hq2]
    simp only
    unfold onPage
    cases r with
    | nil => exact does_last T st e b hb hs h ho hd
    | cons q2 r =>
      have hup := h.up
      rw [hr] at hup
      have hlt := tail_gt (List.pairwise_append.1 hup).2.1 q2 (by simp)
      simp only [List.head?_cons]
      rw [if_neg (by omega), if_neg (by omega)]
      exact does_packet T st e b hb hs h ho hr _ (Or.inr ⟨by omega, by simp, rfl⟩)
  · have ho' : e.off = p.flatten.length := by have := h.off; omega
    have : p.flatten[e.off]? = none := by rw [ho']; simp
    rw [this]
    exact does_end T st e b hb hs h ho'

end Verif.Play
