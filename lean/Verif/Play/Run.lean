import Verif.Play.Step

/-!
# Runs of a viewer
-/
namespace Verif.Play
open Spec

/-! ## The sorter -/

theorem insert_perm (e : Entry) (b : List Entry) (h : ∀ x ∈ b, x.tid ≠ e.tid) : (insert e b).Perm (e :: b) := by
  induction b with
  | nil => exact List.Perm.refl _
  | cons x b ih =>
    unfold insert
    by_cases h1 : before e x = true
    · rw [if_pos h1]
    · rw [if_neg h1]
      by_cases h2 : before x e = true
      · rw [if_pos h2]
        exact (List.Perm.cons x (ih (fun y hy => h y (by simp [hy])))).trans (List.Perm.swap e x b)
      · exfalso
        have := h x (by simp)
        simp only [before, Bool.or_eq_true, decide_eq_true_eq, Bool.and_eq_true, beq_iff_eq] at h1 h2
        omega

theorem put_perm (sync : Bool) (e : Entry) (b : List Entry) (h : ∀ x ∈ b, x.tid ≠ e.tid) : (put sync e b).Perm (e :: b) := by
  cases sync with
  | true => exact insert_perm e b h
  | false =>
    show (b ++ [e]).Perm (e :: b)
    exact List.perm_append_singleton e b

/-- Entries in order. -/
def Sorted (b : List Entry) : Prop := b.Pairwise (fun x y => before x y = true)

theorem before_trans {a b c : Entry} (h1 : before a b = true) (h2 : before b c = true) : before a c = true := by
  simp only [before, Bool.or_eq_true, decide_eq_true_eq, Bool.and_eq_true, beq_iff_eq] at *
  omega

theorem before_total {a b : Entry} (h : a.tid ≠ b.tid) (h1 : before a b ≠ true) : before b a = true := by
  simp only [before, Bool.or_eq_true, decide_eq_true_eq, Bool.and_eq_true, beq_iff_eq, ne_eq] at *
  omega

theorem insert_sorted (e : Entry) (b : List Entry) (h : Sorted b) (hn : ∀ x ∈ b, x.tid ≠ e.tid) : Sorted (insert e b) := by
  induction b with
  | nil => simp [insert, Sorted]
  | cons x b ih =>
    unfold insert
    have hx := hn x (by simp)
    have hc := List.pairwise_cons.1 h
    by_cases h1 : before e x = true
    · rw [if_pos h1]
      refine List.pairwise_cons.2 ⟨fun y hy => ?_, h⟩
      rcases List.mem_cons.1 hy with rfl | hy
      · exact h1
      · exact before_trans h1 (hc.1 y hy)
    · rw [if_neg h1, if_pos (before_total (Ne.symm hx) h1)]
      refine List.pairwise_cons.2 ⟨fun y hy => ?_, ih hc.2 (fun y hy => hn y (by simp [hy]))⟩
      rcases List.mem_cons.1 ((insert_perm e b (fun y hy => hn y (by simp [hy]))).mem_iff.1 hy) with rfl | hy
      · exact before_total (Ne.symm hx) h1
      · exact hc.1 y hy

/-! ## The invariant -/

theorem sent_append (t : Nat) (a b : List (Nat × Pkt)) : sent t (a ++ b) = sent t a ++ sent t b := by simp [sent]
theorem sent_self (t : Nat) (q : Pkt) : sent t [(t, q)] = [q] := by simp [sent]
theorem sent_other {t u : Nat} (h : u ≠ t) (q : Pkt) : sent t [(u, q)] = [] := by simp [sent, h]

/-- A viewer of tracks `tids` that passed the packets `skip` when it started. -/
structure Inv (T : Nat → Track) (st : State) (tids : List Nat) (skip : Nat → List Pkt) : Prop where
  src : ∀ t, st.src t = source (T t)
  good : ∀ t ∈ tids, Good (T t)
  nodup : (st.buf.map Entry.tid).Nodup
  sub : ∀ e ∈ st.buf, e.tid ∈ tids
  place : ∀ e ∈ st.buf, ∃ A p B rest, Place (T e.tid) st.live e (st.cur e.tid) A p B (skip e.tid ++ sent e.tid st.out) rest
  gone : ∀ t ∈ tids, t ∉ st.buf.map Entry.tid → st.live = false ∧ ∃ l, packets (T t).pages = skip t ++ sent t st.out ++ [l]
  outs : ∀ x ∈ st.out, x.1 ∈ tids

theorem Inv.head {T st tids skip} (h : Inv T st tids skip) {e : Entry} {b : List Entry} (hb : st.buf = e :: b) : ∀ x ∈ b, x.tid ≠ e.tid := by
  have := h.nodup
  rw [hb, List.map_cons, List.nodup_cons] at this
  intro x hx h0
  exact this.1 (h0 ▸ List.mem_map_of_mem hx)

/-- The first entry is replaced by one that stands as well. -/
theorem Inv.after {T st tids skip} (h : Inv T st tids skip) {e : Entry} {b : List Entry} (hb : st.buf = e :: b) (e' : Entry) (he : e'.tid = e.tid)
    (c : Option Nat) (qs : List Pkt) {A p B rest}
    (hp : Place (T e.tid) st.live e' c A p B (skip e.tid ++ sent e.tid st.out ++ qs) rest) :
    Inv T (after st b e' c (qs.map (fun q => (e.tid, q)))) tids skip := by
  have hne := h.head hb
  have hne' : ∀ x ∈ b, x.tid ≠ e'.tid := by rw [he]; exact hne
  have hperm := put_perm st.sync e' b hne'
  have hsent : sent e.tid (qs.map (fun q => (e.tid, q))) = qs := by
    have hf : (qs.map (fun q => (e.tid, q))).filter (fun x => x.1 == e.tid) = qs.map (fun q => (e.tid, q)) :=
      List.filter_eq_self.2 (fun a ha => by
        obtain ⟨q, _, rfl⟩ := List.mem_map.1 ha
        simp)
    unfold sent
    rw [hf, List.map_map]
    exact List.map_id' qs
  have hsento : ∀ t, t ≠ e.tid → sent t (qs.map (fun q => (e.tid, q))) = [] := by
    intro t ht
    have hf : (qs.map (fun q => (e.tid, q))).filter (fun x => x.1 == t) = [] :=
      List.filter_eq_nil_iff.2 (fun a ha => by
        obtain ⟨q, _, rfl⟩ := List.mem_map.1 ha
        simpa using Ne.symm ht)
    unfold sent
    rw [hf]
    rfl
  have hmap : (put st.sync e' b).map Entry.tid |>.Perm (st.buf.map Entry.tid) := by
    rw [hb, List.map_cons, ← he, ← List.map_cons]
    exact hperm.map _
  refine { src := h.src, good := h.good, nodup := ?_, sub := ?_, place := ?_, gone := ?_, outs := ?_ }
  · exact hmap.nodup_iff.2 h.nodup
  · intro x hx
    rcases List.mem_cons.1 (hperm.mem_iff.1 hx) with rfl | hx
    · rw [he]; exact h.sub e (by rw [hb]; simp)
    · exact h.sub x (by rw [hb]; simp [hx])
  · intro x hx
    rcases List.mem_cons.1 (hperm.mem_iff.1 hx) with rfl | hx
    · refine ⟨A, p, B, rest, ?_⟩
      show Place (T x.tid) st.live x (if x.tid = x.tid then c else st.cur x.tid) A p B (skip x.tid ++ sent x.tid (st.out ++ _)) rest
      rw [if_pos rfl, he, sent_append, hsent, ← List.append_assoc]
      exact hp
    · obtain ⟨A', p', B', rest', hp'⟩ := h.place x (by rw [hb]; simp [hx])
      refine ⟨A', p', B', rest', ?_⟩
      show Place (T x.tid) st.live x (if x.tid = e'.tid then c else st.cur x.tid) A' p' B' (skip x.tid ++ sent x.tid (st.out ++ _)) rest'
      rw [if_neg (hne' x hx), sent_append, hsento _ (hne x hx), List.append_nil]
      exact hp'
  · intro t ht hn
    have hn' : t ∉ st.buf.map Entry.tid := fun h0 => hn (hmap.mem_iff.2 h0)
    obtain ⟨hl, l, hl2⟩ := h.gone t ht hn'
    refine ⟨hl, l, ?_⟩
    show _ = skip t ++ sent t (st.out ++ _) ++ [l]
    rw [sent_append, hsento t (by
      intro h0
      apply hn'
      rw [hb, h0]
      simp), List.append_nil]
    exact hl2
  · intro x hx
    rcases List.mem_append.1 (show x ∈ st.out ++ _ from hx) with hx | hx
    · exact h.outs x hx
    · obtain ⟨q, _, rfl⟩ := List.mem_map.1 hx
      exact h.sub e (by rw [hb]; simp)

/-- What `prepareNext` does to a viewer with an entry: a chain of tries. -/
theorem Inv.attempt {T st tids skip} (h : Inv T st tids skip) {e : Entry} {b : List Entry} (hb : st.buf = e :: b) :
    ∃ rest, Does (T e.tid) st e b (skip e.tid ++ sent e.tid st.out) rest (attempt st) ∧ packets (T e.tid).pages = skip e.tid ++ sent e.tid st.out ++ rest := by
  obtain ⟨A, p, B, rest, hp⟩ := h.place e (by rw [hb]; simp)
  exact ⟨rest, does _ st e b hb (h.src _) hp, hp.all⟩

/-- The state after a try. -/
def Try.state : Try → State
  | .stop st _ => st
  | .again st => st

theorem Inv.does {T st tids skip} (h : Inv T st tids skip) {e : Entry} {b : List Entry} (hb : st.buf = e :: b) {rest : List Pkt} {r : Try}
    (hd : Does (T e.tid) st e b (skip e.tid ++ sent e.tid st.out) rest r) (hall : packets (T e.tid).pages = skip e.tid ++ sent e.tid st.out ++ rest) :
    Inv T r.state tids skip := by
  cases hd with
  | load e' c A p B htid hp =>
    have := h.after hb e' htid c [] (by rw [List.append_nil]; exact hp)
    exact this
  | idle e' A p B htid hp =>
    have := h.after hb e' htid (st.cur e.tid) [] (by rw [List.append_nil]; exact hp)
    exact this
  | same => exact h
  | other e' A p B htid hp =>
    have := h.after hb e' htid (st.cur e.tid) [] (by rw [List.append_nil]; exact hp)
    exact this
  | packet e' q rest' A p B htid hq hp =>
    have := h.after hb e' htid (st.cur e.tid) [q] hp
    exact this
  | fin hl hr =>
    have hnd := h.nodup
    rw [hb, List.map_cons, List.nodup_cons] at hnd
    refine { src := h.src, good := h.good, nodup := hnd.2, sub := fun x hx => h.sub x (by rw [hb]; simp [show x ∈ b from hx]),
             place := fun x hx => h.place x (by rw [hb]; simp [show x ∈ b from hx]), gone := ?_, outs := h.outs }
    intro t ht hn
    by_cases hte : t = e.tid
    · subst hte
      refine ⟨hl, ?_⟩
      cases rest with
      | nil => simp at hr
      | cons l rest =>
        cases rest with
        | nil => exact ⟨l, hall⟩
        | cons => simp at hr
    · exact h.gone t ht (fun h0 => by
        rw [hb, List.map_cons] at h0
        rcases List.mem_cons.1 h0 with h0 | h0
        · exact hte h0
        · exact hn h0)

theorem Does.keeps {T st e b done rest r} (h : Does T st e b done rest r) : r.state.live = st.live ∧ r.state.sync = st.sync := by
  cases h <;> exact ⟨rfl, rfl⟩

theorem Inv.tries {T tids skip} (k : Nat) {st : State} (h : Inv T st tids skip) : Inv T (tries k st).1 tids skip ∧ (tries k st).1.live = st.live ∧ (tries k st).1.sync = st.sync := by
  induction k generalizing st with
  | zero => exact ⟨h, rfl, rfl⟩
  | succ k ih =>
    unfold Play.tries
    cases hb : st.buf with
    | nil =>
      have : Play.attempt st = .stop st .finished := by unfold Play.attempt; rw [hb]
      rw [this]
      exact ⟨h, rfl, rfl⟩
    | cons e b =>
      obtain ⟨rest, hd, hall⟩ := h.attempt hb
      have h' := h.does hb hd hall
      have hk := hd.keeps
      cases ha : Play.attempt st with
      | stop st' r =>
        rw [ha] at h' hk
        exact ⟨h', hk⟩
      | again st' =>
        rw [ha] at h' hk
        have := ih h'
        exact ⟨this.1, this.2.1.trans hk.1, this.2.2.trans hk.2⟩

theorem Inv.prepare {T st tids skip} (h : Inv T st tids skip) :
    Inv T (prepareNext st).1 tids skip ∧ (prepareNext st).1.live = st.live ∧ (prepareNext st).1.sync = st.sync := by
  unfold prepareNext
  split
  · exact ⟨h, rfl, rfl⟩
  · exact h.tries _

end Verif.Play
