import Verif.Play.Grow

/-!
# Order, progress and the end
-/
namespace Verif.Play
open Spec

/-! ## Order -/

/-- Packets were handed out in order, and what the entries stand for comes later. -/
structure Ordered (st : State) : Prop where
  sync : st.sync = true
  sorted : Sorted st.buf
  real : ∀ e ∈ st.buf, e.ghost = false
  inOrder : InOrder st.out
  next : ∀ x ∈ st.out, ∀ e ∈ st.buf, x.2.time < e.time ∨ (x.2.time = e.time ∧ x.1 < e.tid)

theorem Ordered.after {T st tids skip} (h : Inv T st tids skip) (ho : Ordered st) {e : Entry} {b : List Entry} (hb : st.buf = e :: b) (e' : Entry) (c : Option Nat)
    (he : e'.tid = e.tid) (hle : e.time ≤ e'.time) (hg : e'.ghost = false) : Ordered (Play.after st b e' c []) := by
  have hne' : ∀ x ∈ b, x.tid ≠ e'.tid := by rw [he]; exact h.head hb
  have hs := ho.sync
  have hbuf : (Play.after st b e' c []).buf = insert e' b := by simp [Play.after, put, hs]
  have hout : (Play.after st b e' c []).out = st.out := by simp [Play.after]
  have hsort := ho.sorted
  rw [hb] at hsort
  refine { sync := hs, sorted := ?_, real := ?_, inOrder := ?_, next := ?_ }
  · rw [hbuf]; exact insert_sorted e' b (List.pairwise_cons.1 hsort).2 hne'
  · rw [hbuf]
    intro x hx
    rcases List.mem_cons.1 ((insert_perm e' b hne').mem_iff.1 hx) with rfl | hx
    · exact hg
    · exact ho.real x (by rw [hb]; simp [hx])
  · rw [hout]; exact ho.inOrder
  · rw [hbuf, hout]
    intro x hx y hy
    rcases List.mem_cons.1 ((insert_perm e' b hne').mem_iff.1 hy) with rfl | hy
    · have := ho.next x hx e (by rw [hb]; simp)
      rw [he]
      omega
    · exact ho.next x hx y (by rw [hb]; simp [hy])

theorem Ordered.does {T st tids skip} (h : Inv T st tids skip) (ho : Ordered st) {e : Entry} {b : List Entry} (hb : st.buf = e :: b) {rest : List Pkt} {r : Try}
    (hd : Does (T e.tid) st e b (skip e.tid ++ sent e.tid st.out) rest r) (hc : st.live = false ∨ 2 ≤ rest.length) : Ordered r.state := by
  have hs := ho.sync
  cases hd with
  | load e' c A p B htid hp hle hr hoff hold hg => exact ho.after h hb e' c htid hle hg
  | idle e' A p B htid hp hle hr hl =>
    rw [hl] at hc
    simp at hc
    omega
  | same hr hl =>
    rw [hl] at hc
    simp at hc
    omega
  | other e' A p B htid hp hr hl hs' => rw [hs] at hs'; cases hs'
  | packet e' q rest' A p B htid hq hp hle hlt hex hgh =>
    have hne' : ∀ x ∈ b, x.tid ≠ e'.tid := by rw [htid]; exact h.head hb
    have hg : e'.ghost = false := by
      rcases hc with hc | hc
      · cases hgg : e'.ghost with
        | false => rfl
        | true => have := (hp.ghost hgg).1; rw [hc] at this; cases this
      · refine hgh ?_
        intro h0
        rw [hq, h0] at hc
        simp at hc
    have hx := hex (ho.real e (by rw [hb]; simp))
    have hbuf : (Play.after st b e' (st.cur e.tid) [(e.tid, q)]).buf = insert e' b := by simp [Play.after, put, hs]
    have hout : (Play.after st b e' (st.cur e.tid) [(e.tid, q)]).out = st.out ++ [(e.tid, q)] := rfl
    have hsort := ho.sorted
    rw [hb] at hsort
    have hsc := List.pairwise_cons.1 hsort
    refine { sync := hs, sorted := ?_, real := ?_, inOrder := ?_, next := ?_ }
    · show Sorted (Play.after _ _ _ _ _).buf
      rw [hbuf]; exact insert_sorted e' b hsc.2 hne'
    · show ∀ x ∈ (Play.after _ _ _ _ _).buf, _
      rw [hbuf]
      intro x hx
      rcases List.mem_cons.1 ((insert_perm e' b hne').mem_iff.1 hx) with rfl | hx
      · exact hg
      · exact ho.real x (by rw [hb]; simp [hx])
    · show InOrder (Play.after _ _ _ _ _).out
      rw [hout]
      refine List.pairwise_append.2 ⟨ho.inOrder, by simp, fun x hx' y hy => ?_⟩
      rw [List.mem_singleton.1 hy]
      have := ho.next x hx' e (by rw [hb]; simp)
      show x.2.time < q.time ∨ (x.2.time = q.time ∧ x.1 < e.tid)
      omega
    · show ∀ x ∈ (Play.after _ _ _ _ _).out, ∀ y ∈ (Play.after _ _ _ _ _).buf, _
      rw [hbuf, hout]
      intro x hx' y hy
      rcases List.mem_append.1 hx' with hx' | hx'
      · have h1 := ho.next x hx' e (by rw [hb]; simp)
        rcases List.mem_cons.1 ((insert_perm e' b hne').mem_iff.1 hy) with rfl | hy
        · omega
        · exact ho.next x hx' y (by rw [hb]; simp [hy])
      · rw [List.mem_singleton.1 hx']
        rcases List.mem_cons.1 ((insert_perm e' b hne').mem_iff.1 hy) with rfl | hy
        · exact Or.inl hlt
        · have := hsc.1 y hy
          simp only [before, Bool.or_eq_true, decide_eq_true_eq, Bool.and_eq_true, beq_iff_eq] at this
          show q.time < y.time ∨ (q.time = y.time ∧ e.tid < y.tid)
          omega
  | fin hl hr =>
    have hsort := ho.sorted
    rw [hb] at hsort
    exact { sync := hs, sorted := (List.pairwise_cons.1 hsort).2, real := fun x hx => ho.real x (by rw [hb]; simp [show x ∈ b from hx]), inOrder := ho.inOrder,
            next := fun x hx y hy => ho.next x hx y (by rw [hb]; simp [show y ∈ b from hy]) }

/-- In sync mode, and when the stream is not live, there is only one try. -/
theorem Inv.once {T st tids skip} (h : Inv T st tids skip) {e : Entry} {b : List Entry} (hb : st.buf = e :: b) (hm : st.sync = true ∨ st.live = false) :
    (prepareNext st).1 = (Play.attempt st).state := by
  unfold prepareNext
  rw [hb]
  simp only [List.isEmpty_cons, Bool.false_eq_true, if_false, List.length_cons]
  unfold Play.tries
  obtain ⟨rest, hd, _⟩ := h.attempt hb
  cases ha : Play.attempt st with
  | stop st' r => rfl
  | again st' =>
    exfalso
    rw [ha] at hd
    cases hd with
    | other e' A p B htid hp hr hl hs =>
      rw [hs, hl] at hm
      simp at hm

theorem prepare_nil {st : State} (h : st.buf = []) : prepareNext st = (st, .finished) := by simp [prepareNext, h]

theorem Ordered.prepare {T st tids skip} (h : Inv T st tids skip) (ho : Ordered st)
    (hc : st.live = false ∨ ∀ t ∈ tids, (skip t).length + (sent t st.out).length + 2 ≤ (packets (T t).pages).length) : Ordered (prepareNext st).1 := by
  cases hb : st.buf with
  | nil => rw [prepare_nil hb]; exact ho
  | cons e b =>
    rw [h.once hb (Or.inl ho.sync)]
    obtain ⟨rest, hd, hall⟩ := h.attempt hb
    refine ho.does h hb hd ?_
    rcases hc with hc | hc
    · exact Or.inl hc
    · right
      have := hc e.tid (h.sub e (by rw [hb]; simp))
      rw [hall] at this
      simp only [List.length_append] at this
      omega

/-! ## Progress -/

/-- 1 if the entry is at the end of its page. -/
def notReady (T : Nat → Track) (st : State) (e : Entry) : Nat :=
  if (Play.mapped (source (T e.tid)) (st.cur e.tid)).map (fun l => l[e.off]?) = some none then 1 else 0

theorem notReady_le (T : Nat → Track) (st : State) (e : Entry) : notReady T st e ≤ 1 := by
  unfold notReady; split <;> omega

theorem notReady_place {T : Nat → Track} {st : State} {e : Entry} {A p B done rest} (h : Place (T e.tid) st.live e (st.cur e.tid) A p B done rest) :
    notReady T st e = if e.off < p.flatten.length then 0 else 1 := by
  unfold notReady
  rw [h.mapped]
  by_cases ho : e.off < p.flatten.length
  · rw [if_pos ho, if_neg (by simp [-List.length_flatten]; omega)]
  · rw [if_neg ho, if_pos (by simp [-List.length_flatten]; omega)]

theorem notReady_other (T : Nat → Track) (st : State) (b : List Entry) (e' x : Entry) (c : Option Nat) (outs : List (Nat × Pkt)) (h : x.tid ≠ e'.tid) :
    notReady T (after st b e' c outs) x = notReady T st x := by
  have : (after st b e' c outs).cur x.tid = st.cur x.tid := by unfold after; simp only; rw [if_neg h]
  unfold notReady
  simp only [this]

theorem notReady_self (T : Nat → Track) (st : State) (b : List Entry) (e' : Entry) (c : Option Nat) (outs : List (Nat × Pkt)) {live A p B done rest}
    (h : Place (T e'.tid) live e' c A p B done rest) (ho : e'.off < p.flatten.length) : notReady T (after st b e' c outs) e' = 0 := by
  have : (after st b e' c outs).cur e'.tid = c := by unfold after; simp
  unfold notReady
  simp only [this]
  rw [h.mapped, if_neg (by simp [-List.length_flatten]; omega)]

/-! ## The end of streams that are not live -/

/-- What is still to be done for an entry. -/
def weight (T : Nat → Track) (st : State) (e : Entry) : Nat :=
  2 * ((packets (T e.tid).pages).length - (sent e.tid st.out).length) + notReady T st e + 1

theorem weight_other (T : Nat → Track) (st : State) (b : List Entry) (e' x : Entry) (c : Option Nat) (qs : List Pkt) (h : x.tid ≠ e'.tid) :
    weight T (after st b e' c (qs.map (fun q => (e'.tid, q)))) x = weight T st x := by
  unfold weight
  rw [notReady_other _ _ _ _ _ _ _ h]
  have : sent x.tid (after st b e' c (qs.map (fun q => (e'.tid, q)))).out = sent x.tid st.out := by
    show sent x.tid (st.out ++ _) = _
    rw [sent_append]
    have hf : (qs.map (fun q => (e'.tid, q))).filter (fun y => y.1 == x.tid) = [] :=
      List.filter_eq_nil_iff.2 (fun a ha => by
        obtain ⟨q, _, rfl⟩ := List.mem_map.1 ha
        simpa using Ne.symm h)
    unfold sent
    rw [hf]
    simp
  rw [this]

theorem sum_perm {l1 l2 : List Nat} (h : l1.Perm l2) : l1.sum = l2.sum := by
  induction h with
  | nil => rfl
  | cons x _ ih => simp [ih]
  | swap x y l => simp; omega
  | trans _ _ ih1 ih2 => exact ih1.trans ih2

theorem sum_after (T : Nat → Track) (st : State) (b : List Entry) (e' : Entry) (c : Option Nat) (qs : List Pkt) (hne : ∀ x ∈ b, x.tid ≠ e'.tid) :
    ((after st b e' c (qs.map (fun q => (e'.tid, q)))).buf.map (weight T (after st b e' c (qs.map (fun q => (e'.tid, q)))))).sum =
      weight T (after st b e' c (qs.map (fun q => (e'.tid, q)))) e' + (b.map (weight T st)).sum := by
  show ((put st.sync e' b).map _).sum = _
  rw [sum_perm (((put_perm st.sync e' b hne)).map _), List.map_cons, List.sum_cons]
  congr 2
  exact List.map_congr_left (fun x hx => weight_other T st b e' x c qs (hne x hx))

theorem vod_less {T st tids skip} (h : Inv T st tids skip) (hl : st.live = false) {e : Entry} {b : List Entry} (hb : st.buf = e :: b) :
    ((prepareNext st).1.buf.map (weight T (prepareNext st).1)).sum < (st.buf.map (weight T st)).sum := by
  rw [h.once hb (Or.inr hl)]
  obtain ⟨rest, hd, hall⟩ := h.attempt hb
  have hne := h.head hb
  generalize Play.attempt st = r at hd
  rw [hb, List.map_cons, List.sum_cons]
  cases hd with
  | load e' c A p B htid hp hle hr hoff hold hg =>
    have := sum_after T st b e' c [] (by rw [htid]; exact hne)
    simp only [List.map_nil] at this
    show ((after st b e' c []).buf.map (weight T (after st b e' c []))).sum < _
    rw [this]
    unfold weight
    rw [notReady_self T st b e' c [] (by rw [htid]; exact hp) hoff]
    have h1 : notReady T st e = 1 := by unfold notReady; rw [if_pos hold]
    rw [h1, htid]
    show 2 * (_ - (sent e.tid (st.out ++ [])).length) + _ + _ + _ < _
    rw [List.append_nil]
    omega
  | idle e' A p B htid hp hle hr hl' => rw [hl] at hl'; cases hl'
  | same hr hl' => rw [hl] at hl'; cases hl'
  | other e' A p B htid hp hr hl' => rw [hl] at hl'; cases hl'
  | packet e' q rest' A p B htid hq hp hle hlt hex hgh =>
    have := sum_after T st b e' (st.cur e.tid) [q] (by rw [htid]; exact hne)
    simp only [List.map_cons, List.map_nil] at this
    rw [htid] at this
    show ((after st b e' (st.cur e.tid) [(e.tid, q)]).buf.map (weight T (after st b e' (st.cur e.tid) [(e.tid, q)]))).sum < _
    rw [this]
    unfold weight
    rw [htid]
    show 2 * (_ - (sent e.tid (st.out ++ [(e.tid, q)])).length) + _ + _ + _ < _
    rw [sent_append, sent_self, hall, hq]
    have := notReady_le T (after st b e' (st.cur e.tid) [(e.tid, q)]) e'
    simp only [List.length_append, List.length_cons, List.length_nil]
    omega
  | fin _ hr =>
    show (b.map (weight T st)).sum < _
    unfold weight
    omega

theorem Inv.plays {T tids skip} (k : Nat) {st : State} (h : Inv T st tids skip) :
    Inv T (plays k st) tids skip ∧ (plays k st).live = st.live ∧ (plays k st).sync = st.sync := by
  induction k generalizing st with
  | zero => exact ⟨h, rfl, rfl⟩
  | succ k ih =>
    have hp := h.prepare
    have := ih hp.1
    exact ⟨this.1, this.2.1.trans hp.2.1, this.2.2.trans hp.2.2⟩

theorem Ordered.plays {T tids skip} (k : Nat) {st : State} (h : Inv T st tids skip) (ho : Ordered st) (hl : st.live = false) : Ordered (plays k st) := by
  induction k generalizing st with
  | zero => exact ho
  | succ k ih =>
    have hp := h.prepare
    exact ih hp.1 (ho.prepare h (Or.inl hl)) (hp.2.1.trans hl)

theorem plays_nil (k : Nat) {st : State} (h : st.buf = []) : plays k st = st := by
  induction k with
  | zero => rfl
  | succ k ih =>
    unfold plays
    rw [prepare_nil h]
    exact ih

theorem plays_add (j k : Nat) (st : State) : plays (j + k) st = plays k (plays j st) := by
  induction j generalizing st with
  | zero => simp [plays]
  | succ j ih =>
    rw [show j + 1 + k = (j + k) + 1 by omega]
    exact ih _

theorem vod_end {T tids skip} (n : Nat) {st : State} (h : Inv T st tids skip) (hl : st.live = false) (hn : (st.buf.map (weight T st)).sum ≤ n) : (plays n st).buf = [] := by
  induction n generalizing st with
  | zero =>
    cases hb : st.buf with
    | nil => exact hb
    | cons e b =>
      rw [hb, List.map_cons, List.sum_cons] at hn
      unfold weight at hn
      omega
  | succ n ih =>
    cases hb : st.buf with
    | nil => rw [plays_nil _ hb]; exact hb
    | cons e b =>
      have := vod_less h hl hb
      have hp := h.prepare
      exact ih hp.1 (hp.2.1.trans hl) (by omega)

end Verif.Play
