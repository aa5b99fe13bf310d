import Verif.Index.Groups

/-! # The invariant of a track's index -/
namespace Verif.Index
open Tab (Ok Same)

/-- The index describes the stream `fs` without its first `d` keys and `e` fragments. -/
structure Inv (t : Track) (fs : List (List Group)) (d e : Nat) : Prop where
  parts : PartsShow t.parts fs.flatten.flatten (fs.flatten.take d).flatten.length
  keys : KeysShow t.keys fs.flatten d
  frags : FragsShow t.frags fs e
  grouped : Grouped t.video t.minFrag fs
  min : 0 < t.minFrag
  left : fs ≠ [] → e < fs.length
  none : fs = [] → d = 0 ∧ e = 0
  cover : d ≤ (fs.take e).flatten.length
  tight : e = 0 ∨ (fs.take (e - 1)).flatten.length < d
  firstms : ∀ g, fs.flatten[d]? = some g → t.firstms = first g
  lastms : t.lastms = last fs.flatten.flatten

/-- The same track in (perhaps) more memory. -/
structure SameTrack (a b : Track) : Prop where
  parts : Same a.parts b.parts
  keys : Same a.keys b.keys
  frags : Same a.frags b.frags
  video : b.video = a.video
  min : b.minFrag = a.minFrag
  firstms : b.firstms = a.firstms
  lastms : b.lastms = a.lastms

theorem SameTrack.rfl (t : Track) : SameTrack t t := ⟨.rfl _, .rfl _, .rfl _, by rfl, by rfl, by rfl, by rfl⟩

theorem resize_track {t : Track} (hp : t.parts.Ok) (hk : t.keys.Ok) (hf : t.frags.Ok) {f k p : Nat} (h1 : t.frags.n ≤ f)
    (h2 : t.keys.n ≤ k) (h3 : t.parts.n ≤ p) : SameTrack t (resizeTrack t f k p) :=
  ⟨(Tab.resize_same hp h3).1, (Tab.resize_same hk h2).1, (Tab.resize_same hf h1).1, by rfl, by rfl, by rfl, by rfl⟩

theorem room_parts {t : Track} (hp : t.parts.Ok) (hk : t.keys.Ok) (hf : t.frags.Ok) :
    SameTrack t (roomParts t) ∧ (roomParts t).parts.fin - (roomParts t).parts.del < (roomParts t).parts.n := by
  have h1 := hp.pos; have h2 := hp.le; have h3 := hp.room; have h4 := hp.small
  unfold roomParts
  rw [sub64_eq h2 (by omega)]
  split
  · refine ⟨resize_track hp hk hf (by omega) (by omega) (by omega), ?_⟩
    obtain ⟨s, n⟩ := Tab.resize_same (z := Part.zero) hp (m := t.parts.n * 2) (by omega)
    show (Tab.resize Part.zero t.parts (t.parts.n * 2)).fin - (Tab.resize Part.zero t.parts (t.parts.n * 2)).del <
      (Tab.resize Part.zero t.parts (t.parts.n * 2)).n
    rw [s.fin, s.del, n]; omega
  · exact ⟨.rfl t, by omega⟩

theorem room_keys {t : Track} (hp : t.parts.Ok) (hk : t.keys.Ok) (hf : t.frags.Ok) :
    SameTrack t (roomKeys t) ∧ (roomKeys t).keys.fin - (roomKeys t).keys.del < (roomKeys t).keys.n := by
  have h1 := hk.pos; have h2 := hk.le; have h3 := hk.room; have h4 := hk.small
  unfold roomKeys
  rw [sub64_eq h2 (by omega)]
  split
  · refine ⟨resize_track hp hk hf (by omega) (by omega) (by omega), ?_⟩
    obtain ⟨s, n⟩ := Tab.resize_same (z := Key.zero) hk (m := t.keys.n * 2) (by omega)
    show (Tab.resize Key.zero t.keys (t.keys.n * 2)).fin - (Tab.resize Key.zero t.keys (t.keys.n * 2)).del <
      (Tab.resize Key.zero t.keys (t.keys.n * 2)).n
    rw [s.fin, s.del, n]; omega
  · exact ⟨.rfl t, by omega⟩

theorem room_frags {t : Track} (hp : t.parts.Ok) (hk : t.keys.Ok) (hf : t.frags.Ok) :
    SameTrack t (roomFrags t) ∧ (roomFrags t).frags.fin - (roomFrags t).frags.del < (roomFrags t).frags.n := by
  have h1 := hf.pos; have h2 := hf.le; have h3 := hf.room; have h4 := hf.small
  unfold roomFrags
  rw [sub64_eq h2 (by omega)]
  split
  · refine ⟨resize_track hp hk hf (by omega) (by omega) (by omega), ?_⟩
    obtain ⟨s, n⟩ := Tab.resize_same (z := Frag.zero) hf (m := t.frags.n * 2) (by omega)
    show (Tab.resize Frag.zero t.frags (t.frags.n * 2)).fin - (Tab.resize Frag.zero t.frags (t.frags.n * 2)).del <
      (Tab.resize Frag.zero t.frags (t.frags.n * 2)).n
    rw [s.fin, s.del, n]; omega
  · exact ⟨.rfl t, by omega⟩

theorem Inv.same {a b : Track} {fs d e} (h : Inv a fs d e) (s : SameTrack a b) : Inv b fs d e :=
  ⟨h.parts.same s.parts, h.keys.same s.keys, h.frags.same s.frags, by rw [s.video, s.min]; exact h.grouped, by rw [s.min]; exact h.min,
    h.left, h.none, h.cover, h.tight, by rw [s.firstms]; exact h.firstms, by rw [s.lastms]; exact h.lastms⟩

theorem set_set {α : Type} (t : Tab α) (i : Nat) (f g : α → α) : (t.set i f).set i g = t.set i fun r => g (f r) := by
  unfold Tab.set
  have : ∀ s s' : Nat → α, s = s' → ({ t with slot := s } : Tab α) = { t with slot := s' } := fun s s' h => by rw [h]
  refine this _ _ (funext fun x => ?_)
  show (if x = t.idx i then g (if x = t.idx i then f (t.slot x) else t.slot x) else
    (if x = t.idx i then f (t.slot x) else t.slot x)) = _
  by_cases h : x = t.idx i
  · rw [if_pos h, if_pos h, if_pos h]
  · rw [if_neg h, if_neg h, if_neg h]

theorem flat_len {fs : List (List Group)} (h : ∀ f ∈ fs, f ≠ []) {e : Nat} (he : e < fs.length) :
    (fs.take e).flatten.length < fs.flatten.length := by
  have hx : fs.flatten.length = (fs.take e).flatten.length + (fs.drop e).flatten.length := by
    rw [← List.length_append, ← List.flatten_append, List.take_append_drop]
  have hd : fs.drop e = fs[e] :: fs.drop (e + 1) := List.drop_eq_getElem_cons he
  have : 0 < fs[e].length := List.length_pos_iff.mpr (h _ (List.getElem_mem he))
  rw [hd] at hx
  simp only [List.flatten_cons, List.length_append] at hx
  omega

theorem Inv.dlt {t fs d e} (h : Inv t fs d e) (hf : fs ≠ []) : d < fs.flatten.length :=
  Nat.lt_of_le_of_lt h.cover (flat_len h.grouped.frags (h.left hf))

theorem flat_len_keys {ks : List Group} (h : ∀ g ∈ ks, g ≠ []) {d : Nat} (hd : d < ks.length) :
    (ks.take d).flatten.length < ks.flatten.length := by
  have hx : ks.flatten.length = (ks.take d).flatten.length + (ks.drop d).flatten.length := by
    rw [← List.length_append, ← List.flatten_append, List.take_append_drop]
  have hd' : ks.drop d = ks[d] :: ks.drop (d + 1) := List.drop_eq_getElem_cons hd
  have : 0 < ks[d].length := List.length_pos_iff.mpr (h _ (List.getElem_mem hd))
  rw [hd'] at hx
  simp only [List.flatten_cons, List.length_append] at hx
  omega

theorem first_le_last {t fs d e} (h : Inv t fs d e) {g : Group} (hg : g ∈ fs.flatten) : first g ≤ last fs.flatten.flatten := by
  have hne := h.grouped.keys g hg
  obtain ⟨p, r, rfl⟩ : ∃ p r, g = p :: r := ⟨_, _, (List.cons_head_tail hne).symm⟩
  exact times_le_last h.grouped.times (List.mem_flatten.mpr ⟨_, hg, by simp⟩)

/-- A stream that has begun has a last fragment with a last key. -/
theorem last_parts {v m} {fs : List (List Group)} (h : Grouped v m fs) (hf : fs ≠ []) :
    ∃ F ks g, fs = F ++ [ks ++ [g]] := by
  obtain ⟨F, f, rfl⟩ : ∃ F f, fs = F ++ [f] := ⟨_, _, (List.dropLast_concat_getLast hf).symm⟩
  have : f ≠ [] := h.frags f (by simp)
  exact ⟨F, f.dropLast, f.getLast this, by rw [List.dropLast_concat_getLast]⟩

/-- What the step has to show. -/
def Steps (t : Track) (fs : List (List Group)) (d e : Nat) (p : Packet) (r : Option Track) : Prop :=
  (∃ t' fs', r = some t' ∧ Inv t' fs' d e ∧ fs'.flatten.flatten = fs.flatten.flatten ++ [p] ∧ t'.video = t.video ∧ t'.minFrag = t.minFrag) ∨
  (r = none ∧ ∃ f, fs.getLast? = some f ∧ fragFirst f + t.minFrag ≤ p.time ∧ (p.time - fragFirst f) % 2 ^ 32 = 0)

theorem starts_key {t : Track} {F : List (List Group)} {ks : List Group} {g : Group} {p : Packet} {d : Nat}
    (h : KeysShow t.keys (F ++ [ks ++ [g]]).flatten d) (hd : d < (F ++ [ks ++ [g]]).flatten.length) (hle : first g ≤ p.time)
    (hpt : p.time < 2 ^ 64) : startsKey t p = true ↔ Starts t.video (first g) p := by
  have hl : (F ++ [ks ++ [g]]).flatten.length = (F.flatten ++ ks).length + 1 := by rw [flat_last]; simp; omega
  have hg := h.get (F.flatten ++ ks).length g (by omega) (by rw [flat_last]; simp)
  have hz : (t.keys.fin == 0) = false := by rw [h.fin, hl]; simp
  have hfin : t.keys.fin - 1 = (F.flatten ++ ks).length := by rw [h.fin, hl]; omega
  unfold startsKey Starts
  rw [hz, hfin, hg.time, sub64_eq hle hpt]
  simp only [Bool.or_false, Bool.or_eq_true, Bool.and_eq_true, Bool.not_eq_true', decide_eq_true_eq]
  constructor
  · rintro (h | ⟨⟨h1, h2⟩, h3⟩)
    · exact .inl h
    · exact .inr ⟨h1, by omega⟩
  · rintro (h | ⟨h1, h2⟩)
    · exact .inl h
    · exact .inr ⟨⟨h1, by omega⟩, by omega⟩

theorem take_len {fs : List (List Group)} {F : List (List Group)} {f : List Group} {e : Nat} (h : fs = F ++ [f]) (he : e ≤ F.length)
    (f' : List Group) : ((F ++ [f']).take e) = fs.take e := by
  subst h; rw [List.take_append_of_le_length he, List.take_append_of_le_length he]

/-- A packet for the last key. -/
theorem step_extend {t : Track} {F : List (List Group)} {ks : List Group} {g : Group} {d e : Nat} {p : Packet}
    (h : Inv t (F ++ [ks ++ [g]]) d e) (hroom : t.parts.fin - t.parts.del < t.parts.n) (hle : t.lastms ≤ p.time) (hfit : Fits p)
    (hgap : p.time - t.lastms < 2 ^ 16) (hs : (F ++ [ks ++ [g]]).flatten.flatten.length + 2 < 2 ^ 32)
    (hst : ¬ Starts t.video (first g) p) :
    Inv (count (extendKey (addPart t p)) p) (F ++ [ks ++ [g ++ [p]]]) d e ∧
      (count (extendKey (addPart t p)) p).video = t.video ∧ (count (extendKey (addPart t p)) p).minFrag = t.minFrag := by
  have hg : g ≠ [] := h.grouped.keys g (by simp)
  have hne : F ++ [ks ++ [g]] ≠ [] := by simp
  have hdl := h.dlt hne
  have hel := h.left hne
  simp only [List.length_append, List.length_cons, List.length_nil, Nat.zero_add] at hel
  have hll := h.lastms
  have hlg : last (F ++ [ks ++ [g]]).flatten.flatten = last g := by
    rw [flat_last, List.flatten_append]; simp only [List.flatten_cons, List.flatten_nil, List.append_nil]; exact last_append hg _
  have hfl : first g ≤ last g := by rw [← hlg]; exact first_le_last h (by simp)
  have hdl' : d ≤ (F.flatten ++ ks).length := by
    rw [flat_last] at hdl; simp at hdl ⊢; omega
  have hpne : (F ++ [ks ++ [g]]).flatten.flatten ≠ [] := by
    rw [flat_last, List.flatten_append]
    intro e; exact hg (by simpa using (List.append_eq_nil_iff.mp e).2)
  have hparts := parts_add h.parts hroom (fun _ => flat_len_keys h.grouped.keys hdl) hll (by rw [← hll]; exact hle)
    (fun _ => by rw [← hll]; exact hgap) hfit (by omega)
  have hflat : (F ++ [ks ++ [g ++ [p]]]).flatten.flatten = (F ++ [ks ++ [g]]).flatten.flatten ++ [p] := by simp
  -- the duration of the packet before
  have hdur : ((addPart t p).parts.get ((addPart t p).parts.fin - 2)).dur = p.time - last g := by
    obtain ⟨qs, q, hq⟩ : ∃ qs q, (F ++ [ks ++ [g]]).flatten.flatten = qs ++ [q] := ⟨_, _, (List.dropLast_concat_getLast hpne).symm⟩
    have hfin := hparts.fin
    rw [hq] at hparts hfin hlg
    rw [last_snoc] at hlg
    simp only [List.length_append, List.length_cons, List.length_nil, Nat.zero_add] at hfin
    have hdle : ((F ++ [ks ++ [g]]).flatten.take d).flatten.length ≤ qs.length := by
      have := flat_len_keys h.grouped.keys hdl
      rw [hq] at this; simp at this ⊢; omega
    have := (hparts.get qs.length q hdle (by rw [List.getElem?_append_left (by simp)]; simp)).dur
    rw [partDur_prev, hlg] at this
    rw [hfin]; exact this
  have hkeysEq : (addPart t p).keys = t.keys := by unfold addPart; dsimp only; split <;> rfl
  have hfragsEq : (addPart t p).frags = t.frags := by unfold addPart; dsimp only; split <;> rfl
  have hvid : (addPart t p).video = t.video := by unfold addPart; dsimp only; split <;> rfl
  have hmin : (addPart t p).minFrag = t.minFrag := by unfold addPart; dsimp only; split <;> rfl
  have hfirst : (addPart t p).firstms = t.firstms := by
    unfold addPart; dsimp only; rw [if_pos]
    rw [h.parts.fin]; intro e; exact hpne (List.length_eq_zero_iff.mp e)
  have hkfin : t.keys.fin - 1 = (F.flatten ++ ks).length := by
    rw [h.keys.fin, flat_last]; simp
  have hffin : t.frags.fin - 1 = F.length := by
    rw [h.frags.fin]; simp
  have hkeys : KeysShow (count (extendKey (addPart t p)) p).keys (F ++ [ks ++ [g ++ [p]]]).flatten d := by
    simp only [count, extendKey, Tab.set_fin]
    rw [hkeysEq, set_set, hkfin, flat_last]
    have hk := h.keys
    rw [flat_last] at hk
    refine keys_extend hk hg hdl' (by rw [← hlg, ← hll]; exact hle) hfl ?_
    intro r
    rw [hdur]
  have hfrags : FragsShow (count (extendKey (addPart t p)) p).frags (F ++ [ks ++ [g ++ [p]]]) e := by
    simp only [count, extendKey, Tab.set_fin]
    rw [hfragsEq, hffin]
    refine frags_grow (p := p) h.frags (by omega) (fragFirst_last ks hg p) ?_ (fun r => ⟨rfl, rfl, rfl⟩) ?_
    · simp only [List.flatten_append, List.flatten_cons, List.flatten_nil, List.append_nil, total_append]
      simp [total]; omega
    · intro r hr; rw [hr]; simp
  refine ⟨⟨?_, hkeys, hfrags, ?_, ?_, ?_, ?_, ?_, ?_, ?_, ?_⟩, hvid, hmin⟩
  · show PartsShow (addPart t p).parts _ _
    rw [hflat]
    have : ((F ++ [ks ++ [g ++ [p]]]).flatten.take d) = ((F ++ [ks ++ [g]]).flatten.take d) := by
      rw [flat_last, flat_last, List.take_append_of_le_length hdl', List.take_append_of_le_length hdl']
    rw [this]; exact hparts
  · show Grouped (addPart t p).video (addPart t p).minFrag _
    rw [hvid, hmin]
    exact grouped_extend h.grouped hst (by rw [← hlg, ← hll]; exact hle)
  · show 0 < (addPart t p).minFrag; rw [hmin]; exact h.min
  · intro _; simp; omega
  · simp
  · rw [take_len rfl (by omega)]; exact h.cover
  · rcases h.tight with ht | ht
    · exact .inl ht
    · rw [take_len rfl (by omega)]; exact .inr ht
  · intro x hx
    show (addPart t p).firstms = _
    rw [hfirst]
    have hf := h.firstms
    rw [flat_last] at hx hf
    rcases snoc_get hx with ⟨h1, h2⟩ | ⟨h1, h2⟩
    · exact hf x (by rw [List.getElem?_append_left h1]; exact h2)
    · subst h2; rw [first_append hg]
      exact hf g (by rw [h1]; simp)
  · show p.time = _
    rw [hflat, last_snoc]

end Verif.Index
