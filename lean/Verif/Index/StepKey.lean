import Verif.Index.Step

/-! # A packet that starts a key, and the removal of the first key -/
namespace Verif.Index
open Tab (Ok Same)

/-- The packet has been entered, but no key knows it yet. -/
structure Pre (t : Track) (fs : List (List Group)) (d e : Nat) (p : Packet) : Prop where
  parts : PartsShow t.parts (fs.flatten.flatten ++ [p]) (fs.flatten.take d).flatten.length
  keys : KeysShow t.keys fs.flatten d
  frags : FragsShow t.frags fs e
  grouped : Grouped t.video t.minFrag fs
  min : 0 < t.minFrag
  left : fs ≠ [] → e < fs.length
  none : fs = [] → d = 0 ∧ e = 0
  cover : d ≤ (fs.take e).flatten.length
  tight : e = 0 ∨ (fs.take (e - 1)).flatten.length < d
  late : last fs.flatten.flatten ≤ p.time

theorem Pre.same {a b : Track} {fs d e p} (h : Pre a fs d e p) (s : SameTrack a b) : Pre b fs d e p :=
  ⟨h.parts.same s.parts, h.keys.same s.keys, h.frags.same s.frags, by rw [s.video, s.min]; exact h.grouped, by rw [s.min]; exact h.min,
    h.left, h.none, h.cover, h.tight, h.late⟩

theorem pre_of_inv {t : Track} {fs : List (List Group)} {d e : Nat} {p : Packet} (h : Inv t fs d e)
    (hroom : t.parts.fin - t.parts.del < t.parts.n) (hle : t.lastms ≤ p.time) (hfit : Fits p)
    (hgap : fs ≠ [] → p.time - t.lastms < 2 ^ 16) (hs : fs.flatten.flatten.length + 2 < 2 ^ 32) :
    Pre (addPart t p) fs d e p ∧ (addPart t p).video = t.video ∧ (addPart t p).minFrag = t.minFrag := by
  have hkeysEq : (addPart t p).keys = t.keys := by unfold addPart; dsimp only; split <;> rfl
  have hfragsEq : (addPart t p).frags = t.frags := by unfold addPart; dsimp only; split <;> rfl
  have hvid : (addPart t p).video = t.video := by unfold addPart; dsimp only; split <;> rfl
  have hmin : (addPart t p).minFrag = t.minFrag := by unfold addPart; dsimp only; split <;> rfl
  have hnil : fs = [] → fs.flatten.flatten = [] := fun h => by subst h; rfl
  refine ⟨⟨?_, by rw [hkeysEq]; exact h.keys, by rw [hfragsEq]; exact h.frags, by rw [hvid, hmin]; exact h.grouped, by rw [hmin]; exact h.min,
    h.left, h.none, h.cover, h.tight, by rw [← h.lastms]; exact hle⟩, hvid, hmin⟩
  refine parts_add h.parts hroom (fun hp => flat_len_keys h.grouped.keys (h.dlt fun hf => hp (hnil hf))) h.lastms
    (by rw [← h.lastms]; exact hle) (fun hp => by rw [← h.lastms]; exact hgap fun hf => hp (hnil hf)) hfit (by omega)

theorem Pre.dlt {t fs d e p} (h : Pre t fs d e p) (hf : fs ≠ []) : d < fs.flatten.length :=
  Nat.lt_of_le_of_lt h.cover (flat_len h.grouped.frags (h.left hf))

theorem Pre.first_le {t fs d e p} (h : Pre t fs d e p) {g : Group} (hg : g ∈ fs.flatten) : first g ≤ p.time := by
  have hne := h.grouped.keys g hg
  obtain ⟨q, r, rfl⟩ : ∃ p r, g = p :: r := ⟨_, _, (List.cons_head_tail hne).symm⟩
  exact Nat.le_trans (times_le_last h.grouped.times (List.mem_flatten.mpr ⟨_, hg, by simp⟩)) h.late

/-- After the new key has been entered. -/
structure Mid (t : Track) (fs : List (List Group)) (d e : Nat) (p : Packet) : Prop where
  parts : PartsShow t.parts (fs.flatten.flatten ++ [p]) (fs.flatten.take d).flatten.length
  keys : KeysMid t.keys fs.flatten p d
  frags : FragsShow t.frags fs e
  firstms : ∀ g, (fs.flatten ++ [[p]])[d]? = some g → t.firstms = first g

theorem Mid.same {a b : Track} {fs d e p} (h : Mid a fs d e p) (s : SameTrack a b) (hd : d ≤ fs.flatten.length) : Mid b fs d e p :=
  ⟨h.parts.same s.parts, h.keys.same s.keys hd, h.frags.same s.frags, by rw [s.firstms]; exact h.firstms⟩

theorem Pre.dle {t fs d e p} (h : Pre t fs d e p) : d ≤ fs.flatten.length := by
  by_cases hf : fs = []
  · rw [(h.none hf).1]; omega
  · exact Nat.le_of_lt (h.dlt hf)

theorem mid_of_pre {t : Track} {fs : List (List Group)} {d e : Nat} {p : Packet} (h : Pre t fs d e p)
    (hroom : t.keys.fin - t.keys.del < t.keys.n) (hpt : p.time < 2 ^ 64) (hs : fs.flatten.flatten.length + 2 < 2 ^ 32) :
    Mid (addKey t p) fs d e p := by
  have hk : KeysMid (addKey t p).keys fs.flatten p d :=
    keys_new h.keys h.grouped.keys (fun hk => h.dlt fun hf => hk (by subst hf; rfl)) hroom (fun g hg => h.first_le hg) hpt (by omega)
  refine ⟨h.parts, hk, h.frags, ?_⟩
  intro g hg
  show ((addKey t p).keys.get (addKey t p).keys.del).time = _
  rw [hk.del]; exact hk.time (Nat.le_refl _) hg

theorem sum_pos_len {fs : List (List Group)} (h : ∀ f ∈ fs, f ≠ []) : fs.length ≤ fs.flatten.length := by
  induction fs with
  | nil => simp
  | cons g r ih =>
    have := ih fun x hx => h x (List.mem_cons_of_mem _ hx)
    have : 0 < g.length := List.length_pos_iff.mpr (h g (by simp))
    simp only [List.length_cons, List.flatten_cons, List.length_append]; omega

/-- The time of the last fragment's first key, as the code finds it. -/
theorem frag_time {t : Track} {F : List (List Group)} {f : List Group} {d e : Nat} {p : Packet} (h : Mid t (F ++ [f]) d e p) (hf : f ≠ [])
    (he : e ≤ F.length) (hd : d ≤ F.flatten.length) (hs : (F ++ [f]).flatten.length < 2 ^ 32) :
    (t.keys.get (t.frags.get (t.frags.fin - 1)).firstKey).time = fragFirst f := by
  have hfin : t.frags.fin - 1 = F.length := by rw [h.frags.fin]; simp
  have hfk := (h.frags.get F.length f he (by simp)).firstKey
  rw [List.take_append_of_le_length (Nat.le_refl _), List.take_length,
    Nat.mod_eq_of_lt (by simp only [List.flatten_append, List.length_append] at hs; omega)] at hfk
  rw [hfin, hfk]
  obtain ⟨g, r, rfl⟩ : ∃ g r, f = g :: r := ⟨_, _, (List.cons_head_tail hf).symm⟩
  exact h.keys.time hd (by
    simp only [List.flatten_append, List.flatten_cons, List.flatten_nil, List.append_nil, List.append_assoc]
    rw [List.getElem?_append_right (Nat.le_refl _)]; simp)

theorem cover_last {F : List (List Group)} {f : List Group} {d e : Nat} (hc : d ≤ ((F ++ [f]).take e).flatten.length) (he : e ≤ F.length) :
    d ≤ F.flatten.length := by
  rw [List.take_append_of_le_length he] at hc
  have : F.flatten.length = (F.take e).flatten.length + (F.drop e).flatten.length := by
    rw [← List.length_append, ← List.flatten_append, List.take_append_drop]
  omega

/-- A new key in the last fragment. -/
theorem finish_key {t : Track} {F : List (List Group)} {ks : List Group} {g : Group} {d e : Nat} {p : Packet}
    (h0 : Pre t (F ++ [ks ++ [g]]) d e p) {u : Track} (h : Mid u (F ++ [ks ++ [g]]) d e p) (hv : u.video = t.video) (hm : u.minFrag = t.minFrag)
    (hst : Starts t.video (first g) p) (hlt : p.time < fragFirst (ks ++ [g]) + t.minFrag) :
    Inv (count (extendFrag u) p) (F ++ [ks ++ [g] ++ [[p]]]) d e := by
  have hne : F ++ [ks ++ [g]] ≠ [] := by simp
  have hel := h0.left hne
  simp only [List.length_append, List.length_cons, List.length_nil, Nat.zero_add] at hel
  have hg : g ≠ [] := h0.grouped.keys g (by simp)
  have hfl : (F ++ [ks ++ [g] ++ [[p]]]).flatten = (F ++ [ks ++ [g]]).flatten ++ [[p]] := by simp
  have hdl := h0.dlt hne
  have hlg : last (F ++ [ks ++ [g]]).flatten.flatten = last g := by
    rw [flat_last, List.flatten_append]; simp only [List.flatten_cons, List.flatten_nil, List.append_nil]; exact last_append hg _
  have hkf : u.keys.fin - 1 = (F ++ [ks ++ [g]]).flatten.length := by rw [h.keys.fin]; omega
  have hff : u.frags.fin - 1 = F.length := by rw [h.frags.fin]; simp
  refine ⟨?_, ?_, ?_, ?_, ?_, ?_, ?_, ?_, ?_, ?_, ?_⟩
  · show PartsShow u.parts _ _
    rw [hfl, List.flatten_append, List.take_append_of_le_length (by omega)]
    exact h.parts
  · simp only [count, extendFrag]
    rw [hkf, hfl]
    exact keys_count h.keys (by omega)
  · simp only [count, extendFrag, Tab.set_fin]
    rw [hff, set_set]
    refine frags_grow (p := p) h.frags (by omega) (fragFirst_append (by simp) _) ?_ (fun r => ⟨rfl, rfl, rfl⟩) ?_
    · simp only [List.flatten_append, List.flatten_cons, List.flatten_nil, List.append_nil, total_append]
      simp [total]
    · intro r hr; show (r.keys + 1) % 2 ^ 16 = _
      rw [hr]; simp only [List.length_append, List.length_cons, List.length_nil]; omega
  · show Grouped u.video u.minFrag _
    rw [hv, hm]
    exact grouped_key h0.grouped hst (by rw [← hlg]; exact h0.late) hlt
  · show 0 < u.minFrag; rw [hm]; exact h0.min
  · intro _; simp; omega
  · simp
  · rw [take_len rfl (by omega)]; exact h0.cover
  · rcases h0.tight with ht | ht
    · exact .inl ht
    · rw [take_len rfl (by omega)]; exact .inr ht
  · intro x hx
    rw [hfl] at hx
    exact h.firstms x hx
  · show p.time = _
    rw [hfl, List.flatten_append]; simp only [List.flatten_cons, List.flatten_nil, List.append_nil]; rw [last_snoc]

/-- A new fragment. -/
theorem finish_frag {t : Track} {fs : List (List Group)} {d e : Nat} {p : Packet}
    (h0 : Pre t fs d e p) {u w : Track} (h : Mid u fs d e p) (hv : u.video = t.video) (hm : u.minFrag = t.minFrag)
    (hroom : u.frags.fin - u.frags.del < u.frags.n) (hpt : p.time < 2 ^ 64) (hs : fs.flatten.flatten.length + 2 < 2 ^ 32)
    (hgr : Grouped t.video t.minFrag (fs ++ [[[p]]])) (hw : closeFrag u p = some w) :
    Inv (count (addFrag w) p) (fs ++ [[[p]]]) d e ∧ w.video = u.video ∧ w.minFrag = u.minFrag := by
  have hfl : (fs ++ [[[p]]]).flatten = fs.flatten ++ [[p]] := by simp
  have hlen := sum_pos_len h0.grouped.frags
  have hlen2 := flatten_le h0.grouped.keys
  -- what closing the last fragment gives
  have hw' : w.frags = (if fs.length ≠ 0 then u.frags.set (fs.length - 1) fun r => { r with dur := (p.time - fragFirst (fs.getLast?.getD [])) % 2 ^ 32 }
      else u.frags) ∧ w.keys = u.keys ∧ w.parts = u.parts ∧ w.video = u.video ∧ w.minFrag = u.minFrag ∧ w.firstms = u.firstms := by
    unfold closeFrag at hw
    dsimp only at hw
    rw [h.frags.fin] at hw
    by_cases hf : fs.length ≠ 0
    · rw [if_pos hf] at hw ⊢
      split at hw
      · exact absurd hw (by simp)
      · cases hw
        refine ⟨?_, rfl, rfl, rfl, rfl, rfl⟩
        obtain ⟨F, f, rfl⟩ : ∃ F f, fs = F ++ [f] :=
          ⟨_, _, (List.dropLast_concat_getLast (fun hh => hf (by rw [hh]; rfl))).symm⟩
        have hfne : f ≠ [] := h0.grouped.frags f (by simp)
        have hel := h0.left (by simp)
        simp only [List.length_append, List.length_cons, List.length_nil, Nat.zero_add] at hel
        have ht := frag_time h hfne (by omega) (cover_last h0.cover (by omega)) (by omega)
        rw [h.frags.fin] at ht
        have hle : fragFirst f ≤ p.time := by
          obtain ⟨g, r, rfl⟩ : ∃ g r, f = g :: r := ⟨_, _, (List.cons_head_tail hfne).symm⟩
          exact h0.first_le (g := g) (by simp)
        rw [ht, sub64_eq hle hpt]
        simp
    · rw [if_neg hf] at hw ⊢
      cases hw; exact ⟨rfl, rfl, rfl, rfl, rfl, rfl⟩
  obtain ⟨w1, w2, w3, w4, w5, w6⟩ := hw'
  have hdle := h0.dle
  have hkf : w.keys.fin - 1 = fs.flatten.length := by rw [w2, h.keys.fin]; omega
  have hwf : w.frags.fin = fs.length := by
    rw [w1]; split
    · rw [Tab.set_fin]; exact h.frags.fin
    · exact h.frags.fin
  have hok : w.frags.Ok := by
    rw [w1]; split
    · exact h.frags.ok.set _ _
    · exact h.frags.ok
  have hwr : w.frags.fin - w.frags.del < w.frags.n := by
    rw [w1]; split
    · exact hroom
    · exact hroom
  have hnum : (w.keys.get (w.keys.fin - 1)).num = fs.flatten.length % 2 ^ 32 := by
    rw [hkf, w2, h.keys.new]
  have hadd : (addFrag w).frags.fin - 1 = fs.length := by
    unfold addFrag; dsimp only
    rw [Tab.add_eq (hok.set _ _) hwr (by simp only [Tab.set_fin]; omega)]
    simp [hwf]
  refine ⟨⟨?_, ?_, ?_, ?_, ?_, ?_, ?_, ?_, ?_, ?_, ?_⟩, w4, w5⟩
  · show PartsShow w.parts _ _
    rw [w3, hfl, List.flatten_append, List.take_append_of_le_length hdle]
    exact h.parts
  · simp only [count, addFrag]
    rw [hkf, hfl, w2]
    exact keys_count h.keys hdle
  · simp only [count]
    rw [hadd]
    simp only [addFrag]
    rw [hnum, hwf, w1, Nat.mod_mod]
    exact frags_new (p := p) h.frags h0.left hroom (by omega)
  · show Grouped w.video w.minFrag _
    rw [w4, w5, hv, hm]; exact hgr
  · show 0 < w.minFrag; rw [w5, hm]; exact h0.min
  · intro _
    by_cases hf : fs = []
    · rw [(h0.none hf).2, hf]; simp
    · have := h0.left hf; simp; omega
  · simp
  · by_cases hf : fs = []
    · rw [(h0.none hf).1]; omega
    · have := h0.left hf
      rw [List.take_append_of_le_length (by omega)]; exact h0.cover
  · by_cases hf : fs = []
    · exact .inl (h0.none hf).2
    · have := h0.left hf
      rcases h0.tight with ht | ht
      · exact .inl ht
      · rw [List.take_append_of_le_length (by omega)]; exact .inr ht
  · intro x hx
    show w.firstms = _
    rw [hfl] at hx
    rw [w6]; exact h.firstms x hx
  · show p.time = _
    rw [hfl, List.flatten_append]; simp only [List.flatten_cons, List.flatten_nil, List.append_nil]; rw [last_snoc]

theorem starts_frag {t : Track} {F : List (List Group)} {f : List Group} {d e : Nat} {p : Packet} (h : Mid t (F ++ [f]) d e p) (hf : f ≠ [])
    (he : e ≤ F.length) (hd : d ≤ F.flatten.length) (hs : (F ++ [f]).flatten.length < 2 ^ 32) (hpt : p.time < 2 ^ 64) :
    startsFrag t p = true ↔ fragFirst f + t.minFrag ≤ p.time := by
  have ht := frag_time h hf he hd hs
  have hz : (t.frags.fin == 0) = false := by rw [h.frags.fin]; simp
  unfold startsFrag
  rw [hz, ht]
  simp only [Bool.false_or, Bool.and_eq_true, decide_eq_true_eq]
  constructor
  · rintro ⟨h1, h2⟩
    rw [sub64_eq h1 hpt] at h2; omega
  · intro h1
    refine ⟨by omega, ?_⟩
    rw [sub64_eq (by omega) hpt]; omega

theorem close_none {t : Track} {p : Packet} (h : closeFrag t p = none) :
    t.frags.fin ≠ 0 ∧ sub64 p.time (t.keys.get (t.frags.get (t.frags.fin - 1)).firstKey).time % 2 ^ 32 = 0 := by
  unfold closeFrag at h
  dsimp only at h
  split at h
  · rename_i hf
    refine ⟨hf, ?_⟩
    split at h
    · rename_i h2
      have : ∀ (tb : Tab Frag) (i : Nat) (fn : Frag → Frag), (tb.set i fn).get i = fn (tb.get i) := by
        intro tb i fn; simp [Tab.set, Tab.get, Tab.idx]
      rw [this] at h2; exact h2
    · exact absurd h (by simp)
  · exact absurd h (by simp)

/-- A packet that starts a key. -/
theorem add_key_frag {t : Track} {fs : List (List Group)} {d e : Nat} {p : Packet} (h : Pre t fs d e p)
    (hst : fs = [] ∨ ∃ F ks g, fs = F ++ [ks ++ [g]] ∧ Starts t.video (first g) p) (hpt : p.time < 2 ^ 64)
    (hs : fs.flatten.flatten.length + 2 < 2 ^ 32) :
    Steps t fs d e p ((addKeyFrag t p).map fun t => count t p) := by
  obtain ⟨sk, rk⟩ := room_keys h.parts.ok h.keys.ok h.frags.ok
  have h1 := h.same sk
  have hm := mid_of_pre h1 rk hpt hs
  have hlen := sum_pos_len h.grouped.frags
  have hlen2 := flatten_le h.grouped.keys
  have hv : (addKey (roomKeys t) p).video = t.video := sk.video
  have hmn : (addKey (roomKeys t) p).minFrag = t.minFrag := sk.min
  unfold addKeyFrag
  dsimp only
  have hflat : ∀ fs : List (List Group), (fs ++ [[[p]]]).flatten.flatten = fs.flatten.flatten ++ [p] := by intro fs; simp
  -- a new fragment
  have new (hgr : Grouped t.video t.minFrag (fs ++ [[[p]]])) (hcond : ∀ f, fs.getLast? = some f → fragFirst f + t.minFrag ≤ p.time) :
      Steps t fs d e p (((closeFrag (roomFrags (addKey (roomKeys t) p)) p).map addFrag).map fun t => count t p) := by
    obtain ⟨sf, rf⟩ := room_frags (t := addKey (roomKeys t) p) hm.parts.ok hm.keys.ok hm.frags.ok
    have hm2 := hm.same sf h.dle
    cases hc : closeFrag (roomFrags (addKey (roomKeys t) p)) p with
    | some w =>
      obtain ⟨hi, wv, wm⟩ := finish_frag h hm2 (by rw [sf.video, hv]) (by rw [sf.min, hmn]) rf hpt hs hgr hc
      refine .inl ⟨_, _, rfl, hi, hflat fs, ?_, ?_⟩
      · show w.video = _; rw [wv, sf.video, hv]
      · show w.minFrag = _; rw [wm, sf.min, hmn]
    | none =>
      obtain ⟨c1, c2⟩ := close_none hc
      rw [hm2.frags.fin] at c1
      obtain ⟨F, f, rfl⟩ : ∃ F f, fs = F ++ [f] := ⟨_, _, (List.dropLast_concat_getLast (fun hh => c1 (by rw [hh]; rfl))).symm⟩
      have hfne : f ≠ [] := h.grouped.frags f (by simp)
      have hel := h.left (by simp)
      simp only [List.length_append, List.length_cons, List.length_nil, Nat.zero_add] at hel
      have ht := frag_time hm2 hfne (by omega) (cover_last h.cover (by omega)) (by omega)
      have hc1 := hcond f (by simp)
      rw [ht, sub64_eq (by omega) hpt] at c2
      exact .inr ⟨rfl, f, by simp, hc1, c2⟩
  rcases hst with rfl | ⟨F, ks, g, rfl, hst⟩
  · have hz : startsFrag (addKey (roomKeys t) p) p = true := by
      unfold startsFrag; rw [hm.frags.fin]; rfl
    rw [if_pos hz]
    exact new (grouped_one _ _ _) (by simp)
  · have hel := h.left (by simp)
    simp only [List.length_append, List.length_cons, List.length_nil, Nat.zero_add] at hel
    have hg : g ≠ [] := h.grouped.keys g (by simp)
    have hlg : last (F ++ [ks ++ [g]]).flatten.flatten = last g := by
      rw [flat_last, List.flatten_append]; simp only [List.flatten_cons, List.flatten_nil, List.append_nil]; exact last_append hg _
    have hsf := starts_frag hm (f := ks ++ [g]) (by simp) (by omega) (cover_last h.cover (by omega)) (by omega) hpt
    rw [hmn] at hsf
    by_cases hc : startsFrag (addKey (roomKeys t) p) p = true
    · rw [if_pos hc]
      refine new (grouped_frag h.grouped hst (by rw [← hlg]; exact h.late) (hsf.mp hc)) ?_
      intro f hf; simp at hf; rw [← hf]; exact hsf.mp hc
    · rw [if_neg hc]
      have hlt : p.time < fragFirst (ks ++ [g]) + t.minFrag := by
        exact Nat.lt_of_not_le fun h => hc (hsf.mpr h)
      exact .inl ⟨_, _, rfl, finish_key h hm hv hmn hst hlt, by simp, hv, hmn⟩

/-- One packet. -/
theorem step_packet {t : Track} {fs : List (List Group)} {d e : Nat} {p : Packet} (h : Inv t fs d e) (hle : t.lastms ≤ p.time)
    (hfit : Fits p) (hgap : fs ≠ [] → p.time - t.lastms < 2 ^ 16) (hs : fs.flatten.flatten.length + 2 < 2 ^ 32) :
    Steps t fs d e p (update t p) := by
  obtain ⟨sp, rp⟩ := room_parts h.parts.ok h.keys.ok h.frags.ok
  have h1 := h.same sp
  obtain ⟨hp, hv, hm⟩ := pre_of_inv (p := p) h1 rp (by rw [sp.lastms]; exact hle) hfit (by rw [sp.lastms]; exact hgap) hs
  have key (hst : fs = [] ∨ ∃ F ks g, fs = F ++ [ks ++ [g]] ∧ Starts (addPart (roomParts t) p).video (first g) p) :
      Steps t fs d e p ((addKeyFrag (addPart (roomParts t) p) p).map fun t => count t p) := by
    have := add_key_frag hp hst hfit.1 hs
    unfold Steps at this ⊢
    rw [hv, hm, sp.video, sp.min] at this
    exact this
  unfold update
  rw [if_neg (by omega)]
  dsimp only
  by_cases hf : fs = []
  · have hz : startsKey (addPart (roomParts t) p) p = true := by
      unfold startsKey; rw [hp.keys.fin, hf]; simp
    rw [if_pos hz]
    exact key (.inl hf)
  · obtain ⟨F, ks, g, rfl⟩ := last_parts h.grouped hf
    have hsk := starts_key (p := p) hp.keys (hp.dlt hf) (hp.first_le (by simp)) hfit.1
    by_cases hc : startsKey (addPart (roomParts t) p) p = true
    · rw [if_pos hc]
      exact key (.inr ⟨F, ks, g, rfl, hsk.mp hc⟩)
    · rw [if_neg hc]
      have hns : ¬ Starts (roomParts t).video (first g) p := by
        rw [← hv]; exact fun h => hc (hsk.mpr h)
      obtain ⟨hi, iv, im⟩ := step_extend h1 rp (by rw [sp.lastms]; exact hle) hfit (by rw [sp.lastms]; exact hgap hf) hs hns
      exact .inl ⟨_, _, rfl, hi, by simp, by rw [iv, sp.video], by rw [im, sp.min]⟩

/-- The first key is removed. -/
theorem step_remove {t : Track} {fs : List (List Group)} {d e : Nat} (h : Inv t fs d e) (h2 : e + 2 ≤ fs.length)
    (hs : fs.flatten.flatten.length + 2 < 2 ^ 32) :
    ∃ t' e', removeFirstKey t = some t' ∧ Inv t' fs (d + 1) e' ∧ e' ≤ e + 1 ∧ t'.video = t.video ∧ t'.minFrag = t.minFrag := by
  have hlen := sum_pos_len h.grouped.frags
  have hlen2 := flatten_le h.grouped.keys
  have hne : fs ≠ [] := by intro hh; rw [hh] at h2; simp at h2
  have hdl := h.dlt hne
  -- the fragments before, the first one and the rest
  have hsplit : fs.take (e + 1) = fs.take e ++ [fs[e]] := by rw [List.take_succ_eq_append_getElem (by omega)]
  have hfe : fs[e]? = some fs[e] := List.getElem?_eq_getElem (by omega)
  have hfe0 : 0 < fs[e].length := List.length_pos_iff.mpr (h.grouped.frags _ (List.getElem_mem _))
  have hl1 : (fs.take (e + 1)).flatten.length = (fs.take e).flatten.length + fs[e].length := by
    rw [hsplit, List.flatten_append, List.length_append, List.flatten_singleton]
  have hl2 : (fs.take (e + 1)).flatten.length < fs.flatten.length := flat_len h.grouped.frags (by omega)
  have hd1 : d + 1 < fs.flatten.length := by have := h.cover; omega
  -- the key that goes
  have hgd : fs.flatten[d]? = some fs.flatten[d] := List.getElem?_eq_getElem hdl
  have hk := h.keys.get d _ (Nat.le_refl _) hgd
  have htk : (fs.flatten.take (d + 1)).flatten.length = (fs.flatten.take d).flatten.length + fs.flatten[d].length := by
    rw [List.take_succ_eq_append_getElem hdl, List.flatten_append, List.length_append, List.flatten_singleton]
  have hpl : (fs.flatten.take (d + 1)).flatten.length < fs.flatten.flatten.length := flat_len_keys h.grouped.keys hd1
  have hcnt : (t.keys.get t.keys.del).parts = fs.flatten[d].length := by
    rw [h.keys.del, hk.parts]; exact Nat.mod_eq_of_lt (by omega)
  have hpk : fs.flatten[d].length ≤ t.parts.fin - t.parts.del := by rw [h.parts.fin, h.parts.del]; omega
  have hkk : 1 ≤ t.keys.fin - t.keys.del := by rw [h.keys.fin, h.keys.del]; omega
  have hfk : 1 ≤ t.frags.fin - t.frags.del := by rw [h.frags.fin, h.frags.del]; omega
  obtain ⟨P, eP⟩ : ∃ P, t.parts.drop fs.flatten[d].length = some P := ⟨_, Tab.drop_eq h.parts.ok hpk⟩
  obtain ⟨K, eK⟩ : ∃ K, t.keys.drop 1 = some K := ⟨_, Tab.drop_eq h.keys.ok hkk⟩
  obtain ⟨F, eF⟩ : ∃ F, t.frags.drop 1 = some F := ⟨_, Tab.drop_eq h.frags.ok hfk⟩
  obtain ⟨p1, p2, p3, p4⟩ := h.parts.ok.drop hpk eP
  obtain ⟨k1, k2, k3, k4⟩ := h.keys.ok.drop hkk eK
  obtain ⟨f1, f2, f3, f4⟩ := h.frags.ok.drop hfk eF
  have hP : PartsShow P fs.flatten.flatten (fs.flatten.take (d + 1)).flatten.length :=
    ⟨p1, by rw [p2, h.parts.del, htk], by rw [p3, h.parts.fin], fun i p hi hp => by rw [p4]; exact h.parts.get i p (by omega) hp⟩
  have hK : KeysShow K fs.flatten (d + 1) :=
    ⟨k1, by rw [k2, h.keys.del], by rw [k3, h.keys.fin], fun i p hi hp => by rw [k4]; exact h.keys.get i p (by omega) hp⟩
  have hF : FragsShow F fs (e + 1) :=
    ⟨f1, by rw [f2, h.frags.del], by rw [f3, h.frags.fin], fun i p hi hp => by rw [f4]; exact h.frags.get i p (by omega) hp⟩
  have hms : ∀ g, fs.flatten[d + 1]? = some g → (K.get K.del).time = first g := by
    intro g hg; rw [hK.del]; exact (hK.get _ _ (Nat.le_refl _) hg).time
  have hfk : (t.frags.get t.frags.del).firstKey = (fs.take e).flatten.length := by
    rw [h.frags.del, (h.frags.get e _ (Nat.le_refl _) hfe).firstKey]; exact Nat.mod_eq_of_lt (by omega)
  unfold removeFirstKey
  dsimp only
  rw [hcnt, eP, eK]
  simp only [Option.bind_some]
  unfold dropFrag
  dsimp only
  rw [hfk, hK.del, eF]
  by_cases hc : (fs.take e).flatten.length < d + 1
  · rw [if_pos hc]
    refine ⟨_, e + 1, rfl, ⟨hP, hK, hF, h.grouped, h.min, fun _ => by omega, fun hh => absurd hh hne,
      by have := h.cover; omega, .inr (by rw [Nat.add_sub_cancel]; exact hc), hms, h.lastms⟩, by omega, rfl, rfl⟩
  · rw [if_neg hc]
    refine ⟨_, e, rfl, ⟨hP, hK, h.frags, h.grouped, h.min, fun _ => by omega, fun hh => absurd hh hne, by omega,
      ?_, hms, h.lastms⟩, by omega, rfl, rfl⟩
    rcases h.tight with ht | ht
    · exact .inl ht
    · exact .inr (by omega)

end Verif.Index
