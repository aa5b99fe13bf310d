import Verif.Index.Lemmas

/-! # What the single tables show when a packet arrives -/
namespace Verif.Index
open Tab (Ok Same)

/-! ## Packets -/

structure PartsShow (t : Tab Part) (ps : List Packet) (d : Nat) : Prop where
  ok : t.Ok
  del : t.del = d
  fin : t.fin = ps.length
  get : ∀ i p, d ≤ i → ps[i]? = some p → PartIs (t.get i) ps i p

theorem PartsShow.same {a b : Tab Part} {ps d} (h : PartsShow a ps d) (s : Same a b) : PartsShow b ps d := by
  refine ⟨s.ok h.ok, by rw [s.del, h.del], by rw [s.fin, h.fin], ?_⟩
  intro i p hi hp
  have : i < ps.length := by
    rw [List.getElem?_eq_some_iff] at hp; exact hp.1
  rw [s.get i (by rw [h.del]; exact hi) (by rw [h.fin]; exact this)]
  exact h.get i p hi hp

theorem partDur_before {ps : List Packet} {i : Nat} (h : i + 1 < ps.length) (x : List Packet) : partDur (ps ++ x) i = partDur ps i := by
  unfold partDur
  rw [List.getElem?_append_left h, List.getElem?_append_left (by omega)]
  have : ps[i + 1]? = some (ps[i + 1]) := List.getElem?_eq_getElem h
  rw [this]

theorem partDur_prev (qs : List Packet) (q p : Packet) : partDur (qs ++ [q] ++ [p]) qs.length = p.time - q.time := by
  unfold partDur
  rw [List.getElem?_append_right (by simp), List.getElem?_append_left (by simp), List.getElem?_append_right (by simp)]
  simp

theorem partDur_new (qs : List Packet) (q p : Packet) : partDur (qs ++ [q] ++ [p]) (qs.length + 1) = p.time - q.time := by
  unfold partDur
  have h1 : (qs ++ [q] ++ [p])[qs.length + 1 + 1]? = none := by simp
  have h2 : (qs ++ [q] ++ [p])[qs.length + 1]? = some p := by
    rw [List.getElem?_append_right (by simp)]; simp
  have h3 : (qs ++ [q] ++ [p])[qs.length + 1 - 1]? = some q := by
    rw [List.getElem?_append_left (by simp)]; simp
  rw [h1, h2, h3]; simp

theorem cut16_eq {x : Int} (h1 : -2 ^ 15 ≤ x) (h2 : x < 2 ^ 15) : cut16 x = x := by
  unfold cut16
  rw [Int.emod_eq_of_lt (by omega) (by omega)]; omega

theorem parts_add {t : Track} {p : Packet} {ps : List Packet} {d : Nat} (h : PartsShow t.parts ps d)
    (hroom : t.parts.fin - t.parts.del < t.parts.n) (hne : ps ≠ [] → d < ps.length) (hlast : t.lastms = last ps)
    (hle : last ps ≤ p.time) (hgap : ps ≠ [] → p.time - last ps < 2 ^ 16) (hfit : Fits p) (hs : ps.length + 1 < 2 ^ 32) :
    PartsShow (addPart t p).parts (ps ++ [p]) d := by
  obtain ⟨hf1, hf2, hf3, hf4⟩ := hfit
  have hfin := h.fin; have hdel := h.del
  by_cases hps : ps = []
  · subst hps
    simp only [List.length_nil] at hfin hs
    have e : (addPart t p).parts = ((t.parts.set 0 fun r => { r with size := p.size % 2 ^ 32, off := cut16 p.off }).set 0
        fun r => { r with dur := 0 }).add := by
      unfold addPart; rw [hfin]; rfl
    have hok := ((h.ok.set 0 fun r => { r with size := p.size % 2 ^ 32, off := cut16 p.off }).set 0 fun r => { r with dur := 0 })
    rw [e]
    refine ⟨hok.add hroom (by simp only [Tab.set_fin, hfin]; omega), ?_, ?_, ?_⟩
    · rw [Tab.add_eq hok hroom (by simp only [Tab.set_fin, hfin]; omega)]; exact hdel
    · rw [Tab.add_eq hok hroom (by simp only [Tab.set_fin, hfin]; omega)]
      simp [hfin]
    · intro i q hi hq
      have hi0 : i = 0 := by
        have := (List.getElem?_eq_some_iff.mp hq).1; simp at this; exact this
      subst hi0
      simp at hq; subst hq
      rw [Tab.get_add, Tab.get_set, Tab.get_set]
      refine ⟨?_, cut16_eq hf3 hf4, ?_⟩
      · show p.size % 2 ^ 32 = p.size; exact Nat.mod_eq_of_lt hf2
      · simp [partDur]
  · obtain ⟨qs, q, rfl⟩ : ∃ qs q, ps = qs ++ [q] := ⟨_, _, (List.dropLast_concat_getLast hps).symm⟩
    have hne := hne hps; have hgap := hgap hps
    rw [last_snoc] at hlast hle hgap
    simp only [List.length_append, List.length_cons, List.length_nil, Nat.zero_add] at hfin hne hs
    have hd : sub64 p.time t.lastms % 2 ^ 16 = p.time - q.time := by
      rw [hlast, sub64_eq hle hf1]; exact Nat.mod_eq_of_lt hgap
    have e : (addPart t p).parts = ((((t.parts.set (qs.length + 1) fun r => { r with size := p.size % 2 ^ 32, off := cut16 p.off }).set
        qs.length fun r => { r with dur := p.time - q.time }).set (qs.length + 1) fun r => { r with dur := p.time - q.time })).add := by
      unfold addPart; rw [hfin, hd]; rfl
    have hok := (((h.ok.set (qs.length + 1) fun r => { r with size := p.size % 2 ^ 32, off := cut16 p.off }).set
        qs.length fun r => { r with dur := p.time - q.time }).set (qs.length + 1) fun r => { r with dur := p.time - q.time })
    have hpos := h.ok.pos
    rw [e]
    refine ⟨hok.add hroom (by simp only [Tab.set_fin, hfin]; omega), ?_, ?_, ?_⟩
    · rw [Tab.add_eq hok hroom (by simp only [Tab.set_fin, hfin]; omega)]; exact hdel
    · rw [Tab.add_eq hok hroom (by simp only [Tab.set_fin, hfin]; omega)]
      simp [hfin]
    · intro i x hi hx
      have hil : i < qs.length + 1 + 1 := by
        have := (List.getElem?_eq_some_iff.mp hx).1; simpa using this
      rw [Tab.get_add]
      rcases Nat.lt_trichotomy i qs.length with hi1 | hi1 | hi1
      · rw [Tab.get_set_ne (by exact hpos) _ (by omega) (by (try simp only [Tab.set_n]); omega) (by omega),
          Tab.get_set_ne (by exact hpos) _ (by omega) (by (try simp only [Tab.set_n]); omega) (by (try simp only [Tab.set_n]); omega),
          Tab.get_set_ne hpos _ (by omega) (by omega) (by omega)]
        have hx' : (qs ++ [q])[i]? = some x := by
          rw [List.getElem?_append_left (by simp; omega)] at hx; exact hx
        have := h.get i x hi hx'
        exact ⟨this.size, this.off, by rw [this.dur, partDur_before (ps := qs ++ [q]) (by simp; omega)]⟩
      · subst hi1
        have hx' : (qs ++ [q])[qs.length]? = some x := by
          rw [List.getElem?_append_left (by simp)] at hx; exact hx
        have := h.get _ x hi hx'
        rw [Tab.get_set_ne (by exact hpos) _ (by omega) (by (try simp only [Tab.set_n]); omega) (by omega), Tab.get_set,
          Tab.get_set_ne hpos _ (by omega) (by omega) (by omega)]
        exact ⟨this.size, this.off, (partDur_prev qs q p).symm⟩
      · have : i = qs.length + 1 := by omega
        subst this
        have hx' : x = p := by
          rw [List.getElem?_append_right (by simp)] at hx; simp at hx; exact hx.symm
        subst hx'
        rw [Tab.get_set, Tab.get_set_ne (by exact hpos) _ (by omega) (by (try simp only [Tab.set_n]); omega) (by (try simp only [Tab.set_n]); omega), Tab.get_set]
        exact ⟨Nat.mod_eq_of_lt hf2, cut16_eq hf3 hf4, (partDur_new qs q x).symm⟩

/-! ## Keys -/

structure KeysShow (t : Tab Key) (ks : List Group) (d : Nat) : Prop where
  ok : t.Ok
  del : t.del = d
  fin : t.fin = ks.length
  get : ∀ k g, d ≤ k → ks[k]? = some g → KeyIs (t.get k) ks k g

theorem KeysShow.same {a b : Tab Key} {ks d} (h : KeysShow a ks d) (s : Same a b) : KeysShow b ks d := by
  refine ⟨s.ok h.ok, by rw [s.del, h.del], by rw [s.fin, h.fin], ?_⟩
  intro i p hi hp
  have : i < ks.length := by
    rw [List.getElem?_eq_some_iff] at hp; exact hp.1
  rw [s.get i (by rw [h.del]; exact hi) (by rw [h.fin]; exact this)]
  exact h.get i p hi hp

theorem keyEnd_before {ks : List Group} {k : Nat} (h : k + 1 < ks.length) (x : List Group) (g : Group) :
    keyEnd (ks ++ x) k g = keyEnd ks k g := by
  unfold keyEnd; rw [List.getElem?_append_left h]

theorem keyEnd_last (ks : List Group) (g x : Group) : keyEnd (ks ++ [g]) ks.length x = last x := by
  unfold keyEnd; simp

theorem keyEnd_prev (ks : List Group) (h x : Group) (k : Nat) (hk : k + 1 = ks.length) : keyEnd (ks ++ [h]) k x = first h := by
  unfold keyEnd; rw [hk, List.getElem?_append_right (Nat.le_refl _)]; simp

/-- Another packet for the last key. -/
theorem keys_extend {t : Tab Key} {K : List Group} {g : Group} {p : Packet} {d : Nat} {f : Key → Key}
    (h : KeysShow t (K ++ [g]) d) (hg : g ≠ []) (hd : d ≤ K.length) (hle : last g ≤ p.time) (hfl : first g ≤ last g)
    (hf : ∀ r, f r = { r with dur := (r.dur + (p.time - last g)) % 2 ^ 32, parts := (r.parts + 1) % 2 ^ 32,
                              size := (r.size + p.sent) % 2 ^ 32 }) :
    KeysShow (t.set K.length f) (K ++ [g ++ [p]]) d := by
  have hfin := h.fin; have hdel := h.del; have hpos := h.ok.pos; have hroom := h.ok.room
  simp only [List.length_append, List.length_cons, List.length_nil, Nat.zero_add] at hfin
  refine ⟨h.ok.set _ _, hdel, by simp [hfin], ?_⟩
  intro k x hk hx
  have hkl : k < K.length + 1 := by
    have := (List.getElem?_eq_some_iff.mp hx).1; simpa using this
  by_cases e : k = K.length
  · subst e
    have hx' : x = g ++ [p] := by simpa using hx.symm
    subst hx'
    have := h.get K.length g hk (by simp)
    rw [Tab.get_set, hf]
    refine ⟨by simp [this.firstPart], ?_, this.num, ?_, ?_, ?_, ?_⟩
    · show (_ + 1) % 2 ^ 32 = _
      rw [this.parts]; simp only [List.length_append, List.length_cons, List.length_nil]; omega
    · rw [first_append hg]; exact this.time
    · rw [bpos_append hg]; exact this.bpos
    · show (_ + _) % 2 ^ 32 = _
      rw [this.dur, keyEnd_last, keyEnd_last, last_snoc, first_append hg]; omega
    · show (_ + p.sent) % 2 ^ 32 = _
      rw [this.size, total_append]; simp [total]
  · rw [Tab.get_set_ne hpos _ e (by omega) (by omega)]
    have hx' : (K ++ [g])[k]? = some x := by
      rw [List.getElem?_append_left (by omega)] at hx ⊢; exact hx
    have := h.get k x hk hx'
    refine ⟨?_, this.parts, this.num, this.time, this.bpos, ?_, this.size⟩
    · rw [this.firstPart, List.take_append_of_le_length (by omega), List.take_append_of_le_length (by omega)]
    · rw [this.dur]
      by_cases e' : k + 1 = K.length
      · rw [keyEnd_prev K g x k e', keyEnd_prev K (g ++ [p]) x k e', first_append hg]
      · rw [keyEnd_before (by omega), keyEnd_before (by omega)]

/-- The keys when a new one is there, but nothing of its packet has been counted. -/
structure KeysMid (t : Tab Key) (ks : List Group) (p : Packet) (d : Nat) : Prop where
  ok : t.Ok
  del : t.del = d
  fin : t.fin = ks.length + 1
  get : ∀ k g, d ≤ k → ks[k]? = some g → KeyIs (t.get k) (ks ++ [[p]]) k g
  new : t.get ks.length = ⟨ks.flatten.length, p.bpos, 0, ks.length % 2 ^ 32, 0, p.time, 0⟩

theorem KeysMid.same {a b : Tab Key} {ks p d} (h : KeysMid a ks p d) (s : Same a b) (hd : d ≤ ks.length) : KeysMid b ks p d := by
  refine ⟨s.ok h.ok, by rw [s.del, h.del], by rw [s.fin, h.fin], ?_, ?_⟩
  · intro i q hi hp
    have : i < ks.length := by
      rw [List.getElem?_eq_some_iff] at hp; exact hp.1
    rw [s.get i (by rw [h.del]; exact hi) (by rw [h.fin]; omega)]
    exact h.get i q hi hp
  · rw [s.get _ (by rw [h.del]; exact hd) (by rw [h.fin]; omega)]
    exact h.new

/-- The time of any key, while the new one is being entered. -/
theorem KeysMid.time {t : Tab Key} {ks p d} (h : KeysMid t ks p d) {k : Nat} {g : Group} (hk : d ≤ k)
    (hg : (ks ++ [[p]])[k]? = some g) : (t.get k).time = first g := by
  by_cases e : k < ks.length
  · rw [List.getElem?_append_left e] at hg
    exact (h.get k g hk hg).time
  · have : k = ks.length := by
      have := (List.getElem?_eq_some_iff.mp hg).1
      simp at this; omega
    subst this
    rw [h.new]
    simp at hg; subst hg; rfl

theorem flatten_le {ks : List Group} (h : ∀ g ∈ ks, g ≠ []) : ks.length ≤ ks.flatten.length := by
  induction ks with
  | nil => simp
  | cons g r ih =>
    have := ih fun x hx => h x (List.mem_cons_of_mem _ hx)
    have : 0 < g.length := List.length_pos_iff.mpr (h g (by simp))
    simp only [List.length_cons, List.flatten_cons, List.length_append]; omega

/-- A new key. -/
theorem keys_new {t : Track} {ks : List Group} {p : Packet} {d : Nat} (h : KeysShow t.keys ks d) (hks : ∀ g ∈ ks, g ≠ [])
    (hd : ks ≠ [] → d < ks.length) (hroom : t.keys.fin - t.keys.del < t.keys.n)
    (hle : ∀ g ∈ ks, first g ≤ p.time) (hpt : p.time < 2 ^ 64) (hs : ks.flatten.length + 1 < 2 ^ 32) :
    KeysMid (addKey t p).keys ks p d := by
  have hfin := h.fin; have hdel := h.del; have hpos := h.ok.pos
  have hlen := flatten_le hks
  by_cases hk : ks = []
  · subst hk
    simp only [List.length_nil] at hfin
    have e : (addKey t p).keys = ((t.keys.set 0 fun r => { r with bpos := p.bpos, time := p.time, parts := 0, dur := 0, size := 0, num := 0 % 2 ^ 32 }).set 0
        fun r => { r with firstPart := 0 }).add := by
      unfold addKey; rw [hfin]; rfl
    have hok := ((h.ok.set 0 fun r => { r with bpos := p.bpos, time := p.time, parts := 0, dur := 0, size := 0, num := 0 % 2 ^ 32 }).set 0
        fun r => { r with firstPart := 0 })
    rw [e]
    refine ⟨hok.add hroom (by simp only [Tab.set_fin, hfin]; omega), ?_, ?_, ?_, ?_⟩
    · rw [Tab.add_eq hok hroom (by simp only [Tab.set_fin, hfin]; omega)]; exact hdel
    · rw [Tab.add_eq hok hroom (by simp only [Tab.set_fin, hfin]; omega)]
      simp [hfin]
    · intro k g _ hg; simp at hg
    · rw [Tab.get_add, List.length_nil, Tab.get_set, Tab.get_set]; rfl
  · obtain ⟨K, g, rfl⟩ : ∃ K g, ks = K ++ [g] := ⟨_, _, (List.dropLast_concat_getLast hk).symm⟩
    have hd := hd hk
    simp only [List.length_append, List.length_cons, List.length_nil, Nat.zero_add] at hfin hd hlen
    have hg := h.get K.length g (by omega) (by simp)
    have hfg := hle g (by simp)
    -- the last key, as it is read when the new one is already being written
    have hold : ∀ f, (t.keys.set (K.length + 1) f).get K.length = t.keys.get K.length := fun f =>
      Tab.get_set_ne hpos _ (by omega) (by omega) (by omega)
    have hold2 : ∀ f f', ((t.keys.set (K.length + 1) f).set (K.length + 1) f').get K.length = t.keys.get K.length := fun f f' => by
      rw [Tab.get_set_ne (by exact hpos) _ (by omega) (by simp only [Tab.set_n]; omega) (by omega), hold]
    have e : (addKey t p).keys = (((t.keys.set (K.length + 1) fun r => { r with bpos := p.bpos, time := p.time, parts := 0, dur := 0, size := 0, num := (K.length + 1) % 2 ^ 32 }).set (K.length + 1)
        fun r => { r with firstPart := (K ++ [g]).flatten.length }).set K.length fun r => { r with dur := (p.time - first g) % 2 ^ 32 }).add := by
      have e1 : ((t.keys.get K.length).firstPart + (t.keys.get K.length).parts) % 2 ^ 64 = (K ++ [g]).flatten.length := by
        rw [hg.firstPart, hg.parts]
        simp only [List.flatten_append, List.flatten_cons, List.flatten_nil, List.append_nil, List.length_append] at hs ⊢
        rw [List.take_append_of_le_length (Nat.le_refl _), List.take_length, Nat.mod_eq_of_lt (a := g.length) (by omega)]
        exact Nat.mod_eq_of_lt (by omega)
      have e2 : sub64 p.time (t.keys.get K.length).time % 2 ^ 32 = (p.time - first g) % 2 ^ 32 := by
        rw [hg.time, sub64_eq hfg hpt]
      unfold addKey
      rw [hfin]
      simp only [ne_eq, Nat.add_eq_zero_iff, Nat.succ_ne_self, and_false, not_false_eq_true, if_true, Nat.add_sub_cancel, hold, hold2, e1, e2]
    have hok := (((h.ok.set (K.length + 1) fun r => { r with bpos := p.bpos, time := p.time, parts := 0, dur := 0, size := 0, num := (K.length + 1) % 2 ^ 32 }).set (K.length + 1)
        fun r => { r with firstPart := (K ++ [g]).flatten.length }).set K.length fun r => { r with dur := (p.time - first g) % 2 ^ 32 })
    rw [e]
    refine ⟨hok.add hroom (by simp only [Tab.set_fin, hfin]; omega), ?_, ?_, ?_, ?_⟩
    · rw [Tab.add_eq hok hroom (by simp only [Tab.set_fin, hfin]; omega)]; exact hdel
    · rw [Tab.add_eq hok hroom (by simp only [Tab.set_fin, hfin]; omega)]
      simp [hfin]
    · intro k x hk hx
      have hkl : k < K.length + 1 := by
        have := (List.getElem?_eq_some_iff.mp hx).1; simpa using this
      have := h.get k x hk hx
      rw [Tab.get_add]
      by_cases ek : k = K.length
      · subst ek
        have hxg : x = g := by simpa using hx.symm
        subst hxg
        rw [Tab.get_set, Tab.get_set_ne (by exact hpos) _ (by omega) (by (try simp only [Tab.set_n]); omega) (by (try simp only [Tab.set_n]); omega),
          Tab.get_set_ne (by exact hpos) _ (by omega) (by (try simp only [Tab.set_n]); omega) (by (try simp only [Tab.set_n]); omega)]
        refine ⟨?_, this.parts, this.num, this.time, this.bpos, ?_, this.size⟩
        · rw [this.firstPart, List.take_append_of_le_length (l₁ := K ++ [x]) (by simp)]
        · show (p.time - first x) % 2 ^ 32 = _
          rw [keyEnd_prev (K ++ [x]) [p] x K.length (by simp), first_cons]
      · rw [Tab.get_set_ne (by exact hpos) _ (by omega) (by (try simp only [Tab.set_n]); omega) (by (try simp only [Tab.set_n]); omega),
          Tab.get_set_ne (by exact hpos) _ (by omega) (by (try simp only [Tab.set_n]); omega) (by (try simp only [Tab.set_n]); omega),
          Tab.get_set_ne (by exact hpos) _ (by omega) (by (try simp only [Tab.set_n]); omega) (by (try simp only [Tab.set_n]); omega)]
        refine ⟨?_, this.parts, this.num, this.time, this.bpos, ?_, this.size⟩
        · rw [this.firstPart, List.take_append_of_le_length (l₁ := K ++ [g]) (by simp; omega)]
        · rw [this.dur, keyEnd_before (ks := K ++ [g]) (by simp; omega)]
    · rw [Tab.get_add, show (K ++ [g]).length = K.length + 1 by simp,
        Tab.get_set_ne (by exact hpos) _ (by omega) (by (try simp only [Tab.set_n]); omega) (by (try simp only [Tab.set_n]); omega),
        Tab.get_set, Tab.get_set]

/-- The new key's packet is counted. -/
theorem keys_count {t : Tab Key} {ks : List Group} {p : Packet} {d : Nat} (h : KeysMid t ks p d) (hd : d ≤ ks.length) :
    KeysShow (t.set ks.length fun r => { r with parts := (r.parts + 1) % 2 ^ 32, size := (r.size + p.sent) % 2 ^ 32 })
      (ks ++ [[p]]) d := by
  have hfin := h.fin; have hdel := h.del; have hpos := h.ok.pos; have hroom := h.ok.room
  refine ⟨h.ok.set _ _, hdel, by simp [hfin], ?_⟩
  intro k x hk hx
  have hkl : k < ks.length + 1 := by
    have := (List.getElem?_eq_some_iff.mp hx).1; simpa using this
  by_cases ek : k = ks.length
  · subst ek
    have hxg : x = [p] := by simpa using hx.symm
    subst hxg
    rw [Tab.get_set, h.new]
    refine ⟨by simp, by simp, rfl, rfl, by simp, ?_, by simp [total]⟩
    rw [keyEnd_last]; simp [last, first]
  · rw [Tab.get_set_ne hpos _ ek (by omega) (by omega)]
    rw [List.getElem?_append_left (by omega)] at hx
    exact h.get k x hk hx

/-! ## Fragments -/

structure FragsShow (t : Tab Frag) (fs : List (List Group)) (e : Nat) : Prop where
  ok : t.Ok
  del : t.del = e
  fin : t.fin = fs.length
  get : ∀ i f, e ≤ i → fs[i]? = some f → FragIs (t.get i) fs i f

theorem FragsShow.same {a b : Tab Frag} {fs e} (h : FragsShow a fs e) (s : Same a b) : FragsShow b fs e := by
  refine ⟨s.ok h.ok, by rw [s.del, h.del], by rw [s.fin, h.fin], ?_⟩
  intro i p hi hp
  have : i < fs.length := by
    rw [List.getElem?_eq_some_iff] at hp; exact hp.1
  rw [s.get i (by rw [h.del]; exact hi) (by rw [h.fin]; exact this)]
  exact h.get i p hi hp

theorem fragDur_before {fs : List (List Group)} {i : Nat} (h : i + 1 < fs.length) (x : List (List Group)) (f : List Group) :
    fragDur (fs ++ x) i f = fragDur fs i f := by
  unfold fragDur; rw [List.getElem?_append_left h]

theorem fragDur_last (fs : List (List Group)) (g x : List Group) : fragDur (fs ++ [g]) fs.length x = 0 := by
  unfold fragDur; simp

theorem fragDur_prev (fs : List (List Group)) (h x : List Group) (k : Nat) (hk : k + 1 = fs.length) :
    fragDur (fs ++ [h]) k x = fragFirst h - fragFirst x := by
  unfold fragDur; rw [hk, List.getElem?_append_right (Nat.le_refl _)]; simp

/-- The last fragment grows, by a packet for its last key or by a new key. -/
theorem frags_grow {t : Tab Frag} {F : List (List Group)} {f f' : List Group} {p : Packet} {e : Nat} {m : Frag → Frag}
    (h : FragsShow t (F ++ [f]) e) (he : e ≤ F.length) (hfirst : fragFirst f' = fragFirst f)
    (hsize : total Packet.size f'.flatten = total Packet.size f.flatten + p.size)
    (hm : ∀ r, (m r).firstKey = r.firstKey ∧ (m r).dur = r.dur ∧ (m r).size = (r.size + p.size) % 2 ^ 32)
    (hk : ∀ r, r.keys = f.length % 2 ^ 16 → (m r).keys = f'.length % 2 ^ 16) :
    FragsShow (t.set F.length m) (F ++ [f']) e := by
  have hfin := h.fin; have hdel := h.del; have hpos := h.ok.pos; have hroom := h.ok.room
  simp only [List.length_append, List.length_cons, List.length_nil, Nat.zero_add] at hfin
  refine ⟨h.ok.set _ _, hdel, by simp [hfin], ?_⟩
  intro i x hi hx
  have hil : i < F.length + 1 := by
    have := (List.getElem?_eq_some_iff.mp hx).1; simpa using this
  by_cases ei : i = F.length
  · subst ei
    have hx' : x = f' := by simpa using hx.symm
    subst hx'
    have := h.get F.length f hi (by simp)
    rw [Tab.get_set]
    obtain ⟨m1, m2, m3⟩ := hm (t.get F.length)
    refine ⟨by rw [m1, this.firstKey]; simp, hk _ this.keys, ?_, ?_⟩
    · rw [m2, this.dur, fragDur_last, fragDur_last]
    · rw [m3, this.size, hsize]; omega
  · rw [Tab.get_set_ne hpos _ ei (by omega) (by omega)]
    have hx' : (F ++ [f])[i]? = some x := by
      rw [List.getElem?_append_left (by omega)] at hx ⊢; exact hx
    have := h.get i x hi hx'
    refine ⟨?_, this.keys, ?_, this.size⟩
    · rw [this.firstKey, List.take_append_of_le_length (by omega), List.take_append_of_le_length (by omega)]
    · rw [this.dur]
      by_cases e' : i + 1 = F.length
      · rw [fragDur_prev F f x i e', fragDur_prev F f' x i e', hfirst]
      · rw [fragDur_before (by omega), fragDur_before (by omega)]

/-- A new fragment: the one before is closed, the new one is entered, and its packet is counted. -/
theorem frags_new {t : Tab Frag} {fs : List (List Group)} {p : Packet} {e : Nat} (h : FragsShow t fs e)
    (he : fs ≠ [] → e < fs.length) (hroom : t.fin - t.del < t.n) (hs : fs.length + 1 < 2 ^ 32) :
    FragsShow ((((if fs.length ≠ 0 then t.set (fs.length - 1) fun r => { r with dur := (p.time - fragFirst (fs.getLast?.getD [])) % 2 ^ 32 } else t).set
        fs.length fun _ => ⟨0, 1, fs.flatten.length % 2 ^ 32, 0⟩).add).set fs.length fun r => { r with size := (r.size + p.size) % 2 ^ 32 })
      (fs ++ [[[p]]]) e := by
  have hfin := h.fin; have hdel := h.del; have hpos := h.ok.pos
  by_cases hf : fs = []
  · subst hf
    simp only [List.length_nil] at hfin
    have hok := h.ok.set 0 fun _ => (⟨0, 1, ([] : List (List Group)).flatten.length % 2 ^ 32, 0⟩ : Frag)
    simp only [List.length_nil, ne_eq, not_true, if_false]
    refine ⟨(hok.add hroom (by simp only [Tab.set_fin, hfin]; omega)).set _ _, ?_, ?_, ?_⟩
    · rw [Tab.add_eq hok hroom (by simp only [Tab.set_fin, hfin]; omega)]; exact hdel
    · rw [Tab.add_eq hok hroom (by simp only [Tab.set_fin, hfin]; omega)]
      simp [hfin]
    · intro i x _ hx
      have hi0 : i = 0 := by
        have := (List.getElem?_eq_some_iff.mp hx).1; simp at this; exact this
      subst hi0
      simp at hx; subst hx
      rw [Tab.get_set, Tab.get_add, Tab.get_set]
      exact ⟨by simp, by simp, by simp [fragDur], by simp [total]⟩
  · obtain ⟨F, f, rfl⟩ : ∃ F f, fs = F ++ [f] := ⟨_, _, (List.dropLast_concat_getLast hf).symm⟩
    have he := he hf
    simp only [List.length_append, List.length_cons, List.length_nil, Nat.zero_add] at hfin he hs
    have hl : (F ++ [f]).getLast?.getD [] = f := by simp
    rw [hl, if_pos (by simp), show (F ++ [f]).length = F.length + 1 by simp, Nat.add_sub_cancel]
    have hok := (h.ok.set F.length fun r => { r with dur := (p.time - fragFirst f) % 2 ^ 32 }).set (F.length + 1)
      fun _ => (⟨0, 1, (F ++ [f]).flatten.length % 2 ^ 32, 0⟩ : Frag)
    refine ⟨(hok.add hroom (by simp only [Tab.set_fin, hfin]; omega)).set _ _, ?_, ?_, ?_⟩
    · rw [Tab.add_eq hok hroom (by simp only [Tab.set_fin, hfin]; omega)]; exact hdel
    · rw [Tab.add_eq hok hroom (by simp only [Tab.set_fin, hfin]; omega)]
      simp [hfin]
    · intro i x hi hx
      have hil : i < F.length + 1 + 1 := by
        have := (List.getElem?_eq_some_iff.mp hx).1; simpa using this
      by_cases en : i = F.length + 1
      · subst en
        have hx' : x = [[p]] := by
          rw [List.getElem?_append_right (by simp)] at hx; simp at hx; exact hx.symm
        subst hx'
        rw [Tab.get_set, Tab.get_add, Tab.get_set]
        refine ⟨?_, by simp, ?_, by simp [total]⟩
        · show _ = (List.take (F.length + 1) (F ++ [f] ++ [[[p]]])).flatten.length % 2 ^ 32
          rw [List.take_left' (by simp)]
        have := fragDur_last (F ++ [f]) [[p]] [[p]]
        rw [show (F ++ [f]).length = F.length + 1 by simp] at this
        rw [this]
      · rw [List.getElem?_append_left (by simp; omega)] at hx
        have := h.get i x hi hx
        have hset : ∀ (u : Tab Frag) m, u.n = t.n → (u.set (F.length + 1) m).get i = u.get i := fun u m hn =>
          Tab.get_set_ne (by omega) _ (by omega) (by omega) (by omega)
        rw [hset _ _ (by rfl), Tab.get_add, hset _ _ (by rfl)]
        by_cases el : i = F.length
        · subst el
          have hx' : x = f := by simpa using hx.symm
          subst hx'
          rw [Tab.get_set]
          refine ⟨?_, this.keys, ?_, this.size⟩
          · rw [List.take_append_of_le_length (l₁ := F ++ [x]) (by simp)]; exact this.firstKey
          · show (p.time - fragFirst x) % 2 ^ 32 = _
            rw [fragDur_prev (F ++ [x]) [[p]] x F.length (by simp)]; rfl
        · rw [Tab.get_set_ne hpos _ el (by omega) (by omega)]
          refine ⟨?_, this.keys, ?_, this.size⟩
          · rw [List.take_append_of_le_length (l₁ := F ++ [f]) (by simp; omega)]; exact this.firstKey
          · rw [this.dur, fragDur_before (fs := F ++ [f]) (by simp; omega)]

end Verif.Index
