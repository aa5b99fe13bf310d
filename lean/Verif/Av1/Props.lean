import Verif.Av1.Spec

/-!
# C119: AV1 over RTP
-/

namespace Verif.Av1
open Verif

theorem leb_back : ∀ (f i : Nat) (r : Bytes), i < 128 ^ (f + 1) → Spec.lebVal (lebLoop (f + 1) i ++ r) = (i, r) := by
  intro f
  induction f with
  | zero =>
    intro i r h
    have h : i < 128 := by simpa using h
    unfold lebLoop
    rw [if_neg (by omega)]
    simp only [List.singleton_append, Spec.lebVal]
    rw [UInt8.toNat_ofNat', Nat.mod_eq_of_lt (by omega), if_neg (by omega)]
  | succ f ih =>
    intro i r h
    unfold lebLoop
    by_cases c : 0x80 ≤ i
    · rw [if_pos c]
      simp only [List.cons_append, Spec.lebVal]
      rw [ih (i / 128) r (by rw [Nat.pow_succ] at h; omega), UInt8.toNat_ofNat', Nat.mod_eq_of_lt (by omega), if_pos (by omega)]
      simp only
      congr 1
      omega
    · rw [if_neg c]
      simp only [List.singleton_append, Spec.lebVal]
      rw [UInt8.toNat_ofNat', Nat.mod_eq_of_lt (by omega), if_neg (by omega)]

theorem leb_ne (i : Nat) : leb128 i ≠ [] := by
  unfold leb128 lebLoop
  split <;> simp

theorem leb_short {i : Nat} (h : i < 2 ^ 21) : (leb128 i).length ≤ 3 := by
  unfold leb128 lebLoop
  split
  · unfold lebLoop
    split
    · unfold lebLoop
      rw [if_neg (by omega)]
      simp
    · simp
  · simp

/-- C119, elements: what is written to a packet is read as its elements. -/
theorem C119_elements (els : List Bytes) (h : ∀ e ∈ els, e.length < 2 ^ 64) (f : Nat) (hf : els.length < f) : Spec.elements f (body els) = els := by
  induction els generalizing f with
  | nil =>
    cases f with
    | zero => simp at hf
    | succ f => rfl
  | cons e t ih =>
    cases f with
    | zero => simp at hf
    | succ f =>
      have hb : body (e :: t) = leb128 e.length ++ (e ++ body t) := by simp [body]
      have hl : Spec.lebVal (body (e :: t)) = (e.length, e ++ body t) := by
        rw [hb]
        exact leb_back 9 e.length _ (Nat.lt_of_lt_of_le (h e (by simp)) (by decide))
      unfold Spec.elements
      rw [if_neg (by rw [hb]; intro c; exact leb_ne _ (List.append_eq_nil_iff.1 c).1), hl]
      simp only [List.take_left, List.drop_left]
      rw [ih (fun x hx => h x (by simp [hx])) f (by simpa using hf)]

/-- What is left open after packets. -/
def after : Bytes → List Pkt → Bytes
  | pend, [] => pend
  | pend, p :: t => after (if p.y then (Spec.merge p.z pend p.els).getLastD [] else []) t

theorem recv_append : ∀ (a b : List Pkt) (pend : Bytes), Spec.recv pend (a ++ b) = Spec.recv pend a ++ Spec.recv (after pend a) b := by
  intro a
  induction a with
  | nil => intro b pend; rfl
  | cons p t ih =>
    intro b pend
    simp only [List.cons_append, Spec.recv, after]
    by_cases c : p.y
    · rw [if_pos c, if_pos c, if_pos c, ih, List.append_assoc]
    · rw [if_neg c, if_neg c, if_neg c, ih, List.append_assoc]

theorem merge_append {z : Bool} {pend : Bytes} {els : List Bytes} (h : z = true → els ≠ []) (x : Bytes) :
    Spec.merge z pend (els ++ [x]) = Spec.merge z pend els ++ [x] := by
  cases z with
  | false => rfl
  | true =>
    cases els with
    | nil => exact absurd rfl (h rfl)
    | cons e t => simp [Spec.merge]

theorem write_cont (max h : Nat) : ∀ (f : Nat) (o : Bytes) (pkts : List Pkt) (c' : Cur), o ≠ [] → write max h f { z := true, els := [] } o = some (pkts, c') →
    ∀ pend, Spec.recv pend pkts = [] ∧ Spec.merge c'.z (after pend pkts) c'.els = [pend ++ o] ∧ c'.els ≠ [] := by
  intro f
  induction f with
  | zero => intro o pkts c' _ hw; cases hw
  | succ f ih =>
    intro o pkts c' ho hw pend
    unfold write at hw
    rw [if_neg ho] at hw
    generalize hs : Cur.size h { z := true, els := [] } = s at hw
    by_cases c : max < s + o.length + 4
    · rw [if_pos c] at hw
      by_cases d : max < s + 4
      · rw [if_pos d] at hw; cases hw
      · rw [if_neg d] at hw
        obtain ⟨r, hr, e⟩ := Option.map_eq_some_iff.1 hw
        obtain ⟨rp, rc⟩ := r
        simp only [Prod.mk.injEq] at e
        obtain ⟨rfl, rfl⟩ := e
        have hd : o.drop (max - s - 4) ≠ [] := by
          intro hn
          have := congrArg List.length hn
          rw [List.length_drop, List.length_nil] at this
          omega
        obtain ⟨i1, i2, i3⟩ := ih _ rp rc hd hr (pend ++ o.take (max - s - 4))
        refine ⟨?_, ?_, i3⟩
        · simp only [Spec.recv, if_true, Spec.merge, List.nil_append, List.headD_cons, List.tail_cons, List.dropLast_singleton, List.getLastD_cons, List.getLastD_nil]
          exact i1
        · simp only [after, if_true, Spec.merge, List.nil_append, List.headD_cons, List.tail_cons, List.getLastD_cons, List.getLastD_nil] at i2 ⊢
          rw [i2, List.append_assoc, List.take_append_drop]
    · rw [if_neg c] at hw
      obtain ⟨rfl, rfl⟩ := Prod.mk.inj (Option.some.inj hw)
      exact ⟨rfl, by simp [Spec.merge, after], by simp⟩

theorem write_recv (max h f : Nat) (c : Cur) (o : Bytes) (pkts : List Pkt) (c' : Cur) (ho : o ≠ []) (hc : c.z = true → c.els ≠ [])
    (hw : write max h f c o = some (pkts, c')) (pend : Bytes) :
    Spec.recv pend pkts ++ Spec.merge c'.z (after pend pkts) c'.els = Spec.merge c.z pend c.els ++ [o] ∧ c'.els ≠ [] := by
  cases f with
  | zero => cases hw
  | succ f =>
    unfold write at hw
    rw [if_neg ho] at hw
    generalize c.size h = s at hw
    by_cases d0 : max < s + o.length + 4
    · rw [if_pos d0] at hw
      by_cases d : max < s + 4
      · rw [if_pos d] at hw; cases hw
      · rw [if_neg d] at hw
        obtain ⟨r, hr, e⟩ := Option.map_eq_some_iff.1 hw
        obtain ⟨rp, rc⟩ := r
        simp only [Prod.mk.injEq] at e
        obtain ⟨rfl, rfl⟩ := e
        have hd : o.drop (max - s - 4) ≠ [] := by
          intro hn
          have := congrArg List.length hn
          rw [List.length_drop, List.length_nil] at this
          omega
        obtain ⟨i1, i2, i3⟩ := write_cont max h f _ rp rc hd hr (o.take (max - s - 4))
        refine ⟨?_, i3⟩
        simp only [Spec.recv, after, if_true]
        rw [merge_append hc]
        simp only [List.dropLast_concat, List.getLastD_concat]
        rw [i1, List.append_nil, i2, List.take_append_drop]
    · rw [if_neg d0] at hw
      obtain ⟨rfl, rfl⟩ := Prod.mk.inj (Option.some.inj hw)
      refine ⟨?_, by simp⟩
      simp only [Spec.recv, after, List.nil_append]
      exact merge_append hc o

theorem send_recv (max h : Nat) : ∀ (os : List Bytes) (c : Cur) (pkts : List Pkt) (pend : Bytes), (∀ o ∈ os, o ≠ []) → (c.z = true → c.els ≠ []) →
    send max h c os = some pkts → Spec.recv pend pkts = Spec.merge c.z pend c.els ++ os := by
  intro os
  induction os with
  | nil =>
    intro c pkts pend _ _ hs
    unfold send at hs
    rw [← Option.some.inj hs]
    simp [Spec.recv]
  | cons o t ih =>
    intro c pkts pend ho hc hs
    have ho0 := ho o (by simp)
    have ht : ∀ x ∈ t, x ≠ [] := fun x hx => ho x (by simp [hx])
    unfold send at hs
    by_cases d : full max h c o = true
    · rw [if_pos d] at hs
      obtain ⟨r, hr, hs⟩ := Option.bind_eq_some_iff.1 hs
      obtain ⟨p, hp, rfl⟩ := Option.map_eq_some_iff.1 hs
      obtain ⟨w1, w2⟩ := write_recv max h _ _ o r.1 r.2 ho0 (by intro x; cases x) hr []
      have := ih r.2 p (after [] r.1) ht (fun _ => w2) hp
      simp only [Spec.recv, Bool.false_eq_true, if_false]
      rw [recv_append, this, ← List.append_assoc (Spec.recv [] r.1), w1]
      simp [Spec.merge]
    · rw [if_neg d] at hs
      obtain ⟨r, hr, hs⟩ := Option.bind_eq_some_iff.1 hs
      obtain ⟨p, hp, rfl⟩ := Option.map_eq_some_iff.1 hs
      obtain ⟨w1, w2⟩ := write_recv max h _ _ o r.1 r.2 ho0 hc hr pend
      have := ih r.2 p (after pend r.1) ht (fun _ => w2) hp
      rw [recv_append, this, ← List.append_assoc, w1]
      simp

/-! ## No overflow, and sizes -/

theorem body_append (els : List Bytes) (x : Bytes) : (body (els ++ [x])).length = (body els).length + (leb128 x.length).length + x.length := by
  simp [body]
  omega

/-- The size of a packet. -/
def Pkt.size (h : Nat) (p : Pkt) : Nat := h + 1 + (body p.els).length

theorem cont_some (max h : Nat) (hm : h + 5 < max) (hx : max < 2 ^ 21) : ∀ (f : Nat) (o : Bytes), o ≠ [] → o.length ≤ f →
    ∃ r, write max h f { z := true, els := [] } o = some r ∧ (∀ p ∈ r.1, p.size h ≤ max) ∧ r.2.size h ≤ max := by
  intro f
  induction f with
  | zero => intro o ho hf; exact absurd (List.eq_nil_of_length_eq_zero (by omega)) ho
  | succ f ih =>
    intro o ho hf
    unfold write
    have hs : Cur.size h { z := true, els := [] } = h + 1 := rfl
    rw [if_neg ho, hs]
    by_cases c : max < h + 1 + o.length + 4
    · rw [if_pos c, if_neg (by omega)]
      have hd : o.drop (max - (h + 1) - 4) ≠ [] := by
        intro hn
        have := congrArg List.length hn
        rw [List.length_drop, List.length_nil] at this
        omega
      obtain ⟨r, h1, h2, h3⟩ := ih (o.drop (max - (h + 1) - 4)) hd (by rw [List.length_drop]; omega)
      rw [h1]
      refine ⟨_, rfl, ?_, h3⟩
      intro p hp
      rcases List.mem_cons.1 hp with rfl | hp
      · have hl : (o.take (max - (h + 1) - 4)).length = max - (h + 1) - 4 := by rw [List.length_take]; omega
        have := leb_short (i := max - (h + 1) - 4) (by omega)
        simp only [Pkt.size]
        rw [body_append, hl]
        simp only [body, List.flatMap_nil, List.length_nil]
        omega
      · exact h2 p hp
    · rw [if_neg c]
      refine ⟨_, rfl, (by intro p hp; cases hp), ?_⟩
      have := leb_short (i := o.length) (by omega)
      simp only [Cur.size]
      rw [body_append]
      simp only [body, List.flatMap_nil, List.length_nil]
      omega

theorem write_some (max h : Nat) (hm : h + 5 < max) (hx : max < 2 ^ 21) (c : Cur) (o : Bytes) (ho : o ≠ []) (hc : c.size h + 4 ≤ max) :
    ∃ r, write max h (o.length + 1) c o = some r ∧ (∀ p ∈ r.1, p.size h ≤ max) ∧ r.2.size h ≤ max := by
  unfold write
  rw [if_neg ho]
  by_cases d : max < c.size h + o.length + 4
  · rw [if_pos d, if_neg (by omega)]
    have hd : o.drop (max - c.size h - 4) ≠ [] := by
      intro hn
      have := congrArg List.length hn
      rw [List.length_drop, List.length_nil] at this
      omega
    obtain ⟨r, h1, h2, h3⟩ := cont_some max h hm hx o.length (o.drop (max - c.size h - 4)) hd (by rw [List.length_drop]; omega)
    rw [h1]
    refine ⟨_, rfl, ?_, h3⟩
    intro p hp
    rcases List.mem_cons.1 hp with rfl | hp
    · have hl : (o.take (max - c.size h - 4)).length = max - c.size h - 4 := by rw [List.length_take]; omega
      have := leb_short (i := max - c.size h - 4) (by omega)
      simp only [Pkt.size]
      rw [body_append, hl]
      simp only [Cur.size] at hc this ⊢
      omega
    · exact h2 p hp
  · rw [if_neg d]
    refine ⟨_, rfl, (by intro p hp; cases hp), ?_⟩
    have := leb_short (i := o.length) (by omega)
    simp only [Cur.size] at d ⊢
    rw [body_append]
    omega

theorem send_some (max h : Nat) (hm : h + 5 < max) (h12 : 12 ≤ max) (hx : max < 2 ^ 21) : ∀ (os : List Bytes) (c : Cur), (∀ o ∈ os, o ≠ []) → c.size h ≤ max →
    (c.size h + 4 ≤ max ∨ ∀ o ∈ os.head?, 4 ≤ o.length) → (∀ o ∈ os.tail, 4 ≤ o.length) → ∃ pkts, send max h c os = some pkts ∧ ∀ p ∈ pkts, p.size h ≤ max := by
  intro os
  induction os with
  | nil =>
    intro c _ hc _ _
    refine ⟨_, rfl, ?_⟩
    intro p hp
    rw [List.mem_singleton.1 hp]
    exact hc
  | cons o t ih =>
    intro c ho hc h1 h4
    have ho0 := ho o (by simp)
    have ht : ∀ x ∈ t, x ≠ [] := fun x hx => ho x (by simp [hx])
    have h4' : ∀ x ∈ t, 4 ≤ x.length := h4
    have hhead : ∀ x ∈ t.head?, 4 ≤ x.length := fun x hx => h4' x (List.mem_of_mem_head? hx)
    have htail : ∀ x ∈ t.tail, 4 ≤ x.length := fun x hx => h4' x (List.mem_of_mem_tail hx)
    unfold send
    by_cases d : full max h c o = true
    · rw [if_pos d]
      obtain ⟨r, w1, w2, w3⟩ := write_some max h hm hx { z := false, els := [] } o ho0 (by simp only [Cur.size, body, List.flatMap_nil, List.length_nil]; omega)
      obtain ⟨p, p1, p2⟩ := ih r.2 ht w3 (Or.inr hhead) htail
      refine ⟨_, by rw [w1, Option.bind_some, p1]; rfl, ?_⟩
      intro q hq
      rcases List.mem_cons.1 hq with rfl | hq
      · exact hc
      · rcases List.mem_append.1 hq with hq | hq
        · exact w2 q hq
        · exact p2 q hq
    · rw [if_neg d]
      have hs : c.size h + 4 ≤ max := by
        rcases h1 with h1 | h1
        · exact h1
        · have h1 := h1 o (by simp)
          simp only [full, Bool.and_eq_true, decide_eq_true_eq] at d
          omega
      obtain ⟨r, w1, w2, w3⟩ := write_some max h hm hx c o ho0 hs
      obtain ⟨p, p1, p2⟩ := ih r.2 ht w3 (Or.inr hhead) htail
      refine ⟨_, by rw [w1, Option.bind_some, p1]; rfl, ?_⟩
      intro q hq
      rcases List.mem_append.1 hq with hq | hq
      · exact w2 q hq
      · exact p2 q hq

/-- C119, for frames in which only the first OBU has less than four bytes: packets are made, none is larger than allowed, and a receiver gets the OBUs of the frame. -/
theorem C119_rtp_partial (max h : Nat) (hm : h + 5 < max) (h12 : 12 ≤ max) (hx : max < 2 ^ 21) (os : List Bytes) (ho : ∀ o ∈ os, o ≠ [])
    (h4 : ∀ o ∈ os.tail, 4 ≤ o.length) :
    ∃ pkts, send max h { z := false, els := [] } os = some pkts ∧ (∀ p ∈ pkts, p.size h ≤ max) ∧ Spec.recv [] pkts = os := by
  have hs : Cur.size h { z := false, els := [] } = h + 1 := rfl
  obtain ⟨pkts, h1, h2⟩ := send_some max h hm h12 hx os { z := false, els := [] } ho (by omega) (Or.inl (by omega)) h4
  exact ⟨pkts, h1, h2, by simpa [Spec.merge] using send_recv max h os { z := false, els := [] } pkts [] ho (by intro c; cases c) h1⟩

/-- C119, for any OBUs: if packets are made, a receiver gets the OBUs of the frame. -/
theorem C119_received_partial (max h : Nat) (os : List Bytes) (ho : ∀ o ∈ os, o ≠ []) (pkts : List Pkt) (hs : send max h { z := false, els := [] } os = some pkts) :
    Spec.recv [] pkts = os := by
  simpa [Spec.merge] using send_recv max h os { z := false, els := [] } pkts [] ho (by intro c; cases c) hs

/-- A case: a temporal delimiter and a frame that takes three packets. -/
example : (send 30 12 { z := false, els := [] } [[0x12, 0], 0x32 :: 24 :: List.replicate 24 7]).map (fun p => p.map fun q => [q.els.length, q.size 12]) = some [[2, 27], [1, 27], [1, 17]]
    ∧ ∀ o ∈ ([[0x12, 0], 0x32 :: 24 :: List.replicate 24 7] : List Bytes).tail, 4 ≤ o.length := by decide +kernel

/-! ## What the code does not do -/

/-- Three OBUs with size fields that are right: one of 1084 bytes, one of 97 and one of two. -/
def tight : List Bytes := [0x0A :: 0xB9 :: 0x08 :: List.replicate 1081 1, 0x32 :: 95 :: List.replicate 95 2, [0x7A, 0]]

/-- An OBU that ends three bytes before the end of the packet, and one of two bytes behind it: the length for `memcpy` goes below zero. -/
theorem C119_overflow_fails : split 4 tight.flatten = some tight ∧ send 1200 12 { z := false, els := [] } tight = none := by
  constructor <;> decide +kernel

/-- An OBU whose size field goes past the frame is invalid, has size zero, and the loops never end. -/
theorem C119_hang_fails : ∀ f, split f [0x32, 5, 1, 2] = none := by
  have h : obuSize [0x32, 5, 1, 2] = 0 := by decide +kernel
  intro f
  induction f with
  | zero => rfl
  | succ f ih =>
    unfold split
    rw [if_neg (by simp), h, List.drop_zero, ih]
    rfl

end Verif.Av1
