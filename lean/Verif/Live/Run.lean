import Verif.Live.Step

/-! # Histories of a live track -/
namespace Verif.Live
open Verif.Index (Tab sub64 sub64_eq Track SameTrack Fits)
open Verif.Page (Pack packLen)
open Spec (keyTime bytes lastTime starts add)

/-- The index and the pages of a track with the keys `ks`. -/
structure LInv (l : Live) (ks : List (List Pack)) (G : List (List (List Pack))) (fs : List (List Index.Group)) (d e m : Nat) : Prop where
  track : Index.Inv l.track fs d e
  keys : fs.flatten = ks.map (·.map entry)
  flat : G.flatten = ks
  pages : PInv l.pages l.cur l.data G m
  lo : startOf G m ≤ d
  hi : G ≠ [] → d < startOf G (m + 1)

/-- Two packets whose distance is a positive multiple of 2^32 milliseconds. -/
def Turns (ps : List Pack) : Prop := ∃ q ∈ ps, ∃ p ∈ ps, q.time < p.time ∧ (p.time - q.time) % 2 ^ 32 = 0

theorem entries_flat {fs : List (List Index.Group)} {ks : List (List Pack)} (h : fs.flatten = ks.map (·.map entry)) :
    fs.flatten.flatten = ks.flatten.map entry := by
  rw [h, List.map_flatten]

theorem last_entries (ps : List Pack) : Index.last (ps.map entry) = (ps.getLast?.map Pack.time).getD 0 := by
  unfold Index.last
  rw [List.getLast?_map]
  cases ps.getLast? <;> rfl

theorem first_entries (g : List Pack) : Index.first (g.map entry) = keyTime g := by
  cases g <;> rfl

theorem inv_last {t fs d e} (h : Index.Inv t fs d e) {ks : List (List Pack)} (hk : fs.flatten = ks.map (·.map entry)) : t.lastms = lastTime ks := by
  rw [h.lastms, entries_flat hk, last_entries]; rfl

theorem track_step {t : Track} {fs : List (List Index.Group)} {d e : Nat} (h : Index.Inv t fs d e) {ks ks' : List (List Pack)}
    (hk : fs.flatten = ks.map (·.map entry)) {q : Pack} (hle : lastTime ks ≤ q.time) (hfit : Fits (entry q))
    (hgap : ks ≠ [] → q.time - lastTime ks < 2 ^ 16) (hs : ks.flatten.length + 2 < 2 ^ 32)
    (hc : (ks = [] ∧ ks' = [[q]]) ∨ ∃ K g, ks = K ++ [g] ∧ ((q.key = true ∧ ks' = ks ++ [[q]]) ∨
      (q.key = false ∧ (t.video = false → q.time < keyTime g + 2047) ∧ ks' = K ++ [g ++ [q]]))) :
    (∃ t' fs', Index.update t (entry q) = some t' ∧ Index.Inv t' fs' d e ∧ fs'.flatten = ks'.map (·.map entry) ∧ t'.video = t.video ∧ t'.minFrag = t.minFrag) ∨
    (Index.update t (entry q) = none ∧ Turns ks'.flatten) := by
  have hl := inv_last h hk
  have hfl : ks'.flatten = ks.flatten ++ [q] := by
    rcases hc with ⟨rfl, rfl⟩ | ⟨K, g, rfl, ⟨_, rfl⟩ | ⟨_, _, rfl⟩⟩ <;> simp
  have hne : fs ≠ [] → ks ≠ [] := by
    intro hf hz
    rw [hz] at hk
    have := Index.sum_pos_len h.grouped.frags
    rw [hk] at this
    simp at this
    exact hf this
  rcases Index.step_packet (p := entry q) h (by rw [hl]; exact hle) hfit (fun hf => by rw [hl]; exact hgap (hne hf))
    (by rw [entries_flat hk, List.length_map]; exact hs) with ⟨t', fs', er, hi, hfs, hv, hm⟩ | ⟨er, f, hf, h1, h2⟩
  · refine .inl ⟨t', fs', er, hi, ?_, hv, hm⟩
    obtain ⟨s1, s2⟩ := keys_step h hi hv hfs
    rcases hc with ⟨rfl, rfl⟩ | ⟨K, g, rfl, ⟨hkey, rfl⟩ | ⟨hkey, hnv, rfl⟩⟩
    · rw [s1 (by rw [hk]; rfl)]; rfl
    · rw [(s2 (K.map (·.map entry)) (g.map entry) (by rw [hk]; simp)).1 (.inl hkey)]; simp
    · rw [(s2 (K.map (·.map entry)) (g.map entry) (by rw [hk]; simp)).2 ?_]; · simp
      rintro (hx | ⟨hx, hy⟩)
      · exact absurd (hkey.symm.trans hx) (by decide)
      · rw [first_entries] at hy
        have := hnv hx
        have : (entry q).time = q.time := rfl
        omega
  · refine .inr ⟨er, ?_⟩
    have hfm : f ∈ fs := List.mem_of_getLast? hf
    have hfne := h.grouped.frags f hfm
    obtain ⟨g, gs, rfl⟩ : ∃ g r, f = g :: r := ⟨_, _, (List.cons_head_tail hfne).symm⟩
    have hgm : g ∈ fs.flatten := List.mem_flatten.mpr ⟨_, hfm, by simp⟩
    rw [hk] at hgm
    obtain ⟨g0, hg0, rfl⟩ := List.mem_map.mp hgm
    have hgne := h.grouped.keys (g0.map entry) (by rw [hk]; exact hgm)
    obtain ⟨x, xs, rfl⟩ : ∃ p r, g0 = p :: r := ⟨_, _, (List.cons_head_tail (by intro hz; rw [hz] at hgne; exact hgne rfl)).symm⟩
    have hx : Index.fragFirst ((x :: xs).map entry :: gs) = x.time := rfl
    rw [hx] at h1 h2
    have := h.min
    refine ⟨x, ?_, q, ?_, ?_, h2⟩
    · rw [hfl]; exact List.mem_append_left _ (List.mem_flatten.mpr ⟨_, hg0, by simp⟩)
    · rw [hfl]; simp
    · have : (entry q).time = q.time := rfl
      omega

theorem key_le_last {t fs d e} (h : Index.Inv t fs d e) {ks : List (List Pack)} (hk : fs.flatten = ks.map (·.map entry)) {g : List Pack} (hg : g ∈ ks) :
    keyTime g ≤ lastTime ks := by
  rw [← inv_last h hk, h.lastms, ← first_entries]
  exact Index.first_le_last h (by rw [hk]; exact List.mem_map.mpr ⟨g, hg, rfl⟩)

theorem lo_append {G x : List (List (List Pack))} {m d : Nat} (hm : m ≤ G.length) (h : startOf G m ≤ d) : startOf (G ++ x) m ≤ d := by
  rw [startOf_append hm]; exact h

theorem hi_last {F : List (List (List Pack))} {b b' : List (List Pack)} {m d : Nat} (hm : m ≤ F.length) (hb : b.length ≤ b'.length)
    (h : d < startOf (F ++ [b]) (m + 1)) : d < startOf (F ++ [b']) (m + 1) := by
  by_cases e : m = F.length
  · subst e
    rw [startOf_succ (b := b') (by simp), startOf_len]
    rw [startOf_succ (b := b) (by simp), startOf_len] at h
    omega
  · rw [startOf_append (by omega)] at h ⊢; exact h

/-- A packet arrives. -/
theorem buffer_step {l : Live} {ks : List (List Pack)} {G : List (List (List Pack))} {fs : List (List Index.Group)} {d e m : Nat} (h : LInv l ks G fs d e m)
    {p : Pack} (hfit : Fits (entry p)) (hgap : ks ≠ [] → p.time - lastTime ks < 2 ^ 16) (hs : ks.flatten.length + 2 < 2 ^ 32)
    (hbig : ∀ g ∈ add l.track.video ks p, bytes g ≤ pageSize - flipSize) :
    (∃ l' G' fs', buffer l p = some l' ∧ LInv l' (add l.track.video ks p) G' fs' d e m ∧ l'.track.video = l.track.video ∧ l'.track.minFrag = l.track.minFrag) ∨
    (buffer l p = none ∧ Turns (add l.track.video ks p).flatten) := by
  have hl := inv_last h.track h.keys
  have hfit' : ∀ k, Fits (entry { p with key := k }) := fun k => hfit
  have hkl : ks.length ≤ ks.flatten.length := by
    have := Index.flatten_le h.track.grouped.keys
    rwa [h.keys, ← List.map_flatten, List.length_map, List.length_map] at this
  have hflat := h.flat
  unfold buffer
  dsimp only
  by_cases hlt : p.time < l.track.lastms
  · rw [if_pos hlt]
    refine .inl ⟨l, G, fs, rfl, ?_, rfl, rfl⟩
    have : add l.track.video ks p = ks := by unfold add; rw [if_pos (by rw [← hl]; exact hlt)]
    rw [this]; exact h
  · rw [if_neg hlt]
    have hle : lastTime ks ≤ p.time := by rw [← hl]; omega
    by_cases hG : G = []
    · -- nothing yet
      have hks : ks = [] := by rw [← hflat, hG]; rfl
      subst hks
      have hcur := h.pages.none hG
      have hadd : add l.track.video [] p = if l.track.video && !p.key then [] else [[{ p with key := true }]] := by
        unfold add; rw [if_neg (by omega)]; rfl
      have hik : isKey l p = !(l.track.video && !p.key) := by
        unfold isKey; rw [hcur]
        cases l.track.video <;> cases p.key <;> rfl
      rw [hik]
      cases hv : (l.track.video && !p.key) with
      | true =>
        rw [hv, if_pos rfl] at hadd
        rw [hadd]
        simp only [Bool.not_true, Bool.false_eq_true, if_false]
        refine .inl ⟨l, G, fs, ?_, h, rfl, rfl⟩
        unfold putPacket; rw [hcur]
      | false =>
        rw [hv] at hadd
        simp only [Bool.false_eq_true, if_false] at hadd
        rw [hadd] at hbig ⊢
        simp only [Bool.not_false, if_true]
        obtain ⟨hd0, he0⟩ := h.track.none (by
          have := Index.sum_pos_len h.track.grouped.frags
          rw [h.keys] at this
          simpa using this)
        have hm0 := h.pages.zero hG
        have hnum : firstNumber l p.time = 0 := by
          unfold firstNumber Index.keyNumForTime
          rw [h.track.keys.fin, h.keys]; rfl
        obtain ⟨u, hu, hut, pages, data, hput, hpi⟩ := page_new (p := { p with key := true }) h.pages h.track.parts.ok h.track.keys.ok h.track.frags.ok
          (hbig _ (by simp)) (by rw [hflat]; simp) (.inl ⟨hG, hnum⟩)
        rw [hu]
        simp only [if_true]
        obtain ⟨-, -, st, -⟩ := room_pages h.pages.ok h.track.parts.ok h.track.keys.ok h.track.frags.ok
        rw [hput]
        rcases track_step (q := { p with key := true }) (ks' := [[{ p with key := true }]]) (h.track.same st) h.keys hle (hfit' true) hgap hs (.inl ⟨rfl, rfl⟩) with
          ⟨t', fs', er, hi, hfs, hv', hm'⟩ | ⟨er, ht⟩
        · rw [er]
          refine .inl ⟨_, _, fs', rfl, ⟨hi, hfs, ?_, hpi, ?_, ?_⟩, by rw [← st.video]; exact hv', by rw [← st.min]; exact hm'⟩
          · rw [hG]; rfl
          · rw [hG, hm0]; simp [startOf]
          · intro _; rw [hG, hm0, hd0]; simp [startOf]
        · rw [er]; exact .inr ⟨rfl, ht⟩
    · -- there are pages
      obtain ⟨F, b, rfl⟩ : ∃ F b, G = F ++ [b] := ⟨_, _, (List.dropLast_concat_getLast hG).symm⟩
      have hb := h.pages.ne b (by simp)
      obtain ⟨c, g, rfl⟩ : ∃ c g, b = c ++ [g] := ⟨_, _, (List.dropLast_concat_getLast hb).symm⟩
      have hks : ks = (F.flatten ++ c) ++ [g] := by rw [← hflat]; simp
      have hkne : ks ≠ [] := by rw [hks]; simp
      have hm : m ≤ F.length := by have := h.pages.left (by simp); simp at this; omega
      have hcur := h.pages.cur F _ rfl
      have hr := h.pages.recs F.length (c ++ [g]) hm (by simp)
      have hfin : l.pages.fin = F.length + 1 := by rw [h.pages.fin]; simp
      have hgt : keyTime g ≤ p.time := Nat.le_trans (key_le_last h.track h.keys (g := g) (by rw [hks]; simp)) hle
      have hp64 : p.time < 2 ^ 64 := hfit.1
      have hik : isKey l p = starts l.track.video g p := by
        unfold isKey starts
        rw [hcur]
        dsimp only
        rw [hfin, Nat.add_sub_cancel, hr.lastKeyTime]
        simp only [List.getLast?_append, List.getLast?_singleton, Option.some_or, Option.getD_some]
        rw [sub64_eq hgt hp64]
        cases l.track.video with
        | true => rfl
        | false =>
          simp only [Bool.false_eq_true, if_false]
          rw [show (F.length + 1 == 0) = false from rfl, Bool.false_or]
          unfold audioKey
          exact decide_eq_decide.mpr (by omega)
      have hadd : add l.track.video ks p = if starts l.track.video g p then ks ++ [[{ p with key := true }]] else (F.flatten ++ c) ++ [g ++ [{ p with key := false }]] := by
        unfold add
        rw [if_neg (by omega), hks]
        simp
      rw [hik]
      cases hv : starts l.track.video g p with
      | false =>
        rw [hv] at hadd
        simp only [Bool.false_eq_true, if_false] at hadd
        rw [hadd] at hbig ⊢
        simp only [Bool.false_eq_true, if_false]
        obtain ⟨pages, data, hput, hpi⟩ := page_extend (p := { p with key := false }) h.pages (hbig _ (by simp))
        rw [hput]
        have hnv : l.track.video = false → p.time < keyTime g + 2047 := by
          intro hvd
          unfold starts at hv
          rw [hvd] at hv
          simp at hv
          exact hv
        rcases track_step (q := { p with key := false }) (ks' := (F.flatten ++ c) ++ [g ++ [{ p with key := false }]]) h.track h.keys hle (hfit' false) hgap hs
          (.inr ⟨_, g, hks, .inr ⟨rfl, hnv, rfl⟩⟩) with ⟨t', fs', er, hi, hfs, hv', hm'⟩ | ⟨er, ht⟩
        · rw [er]
          refine .inl ⟨_, _, fs', rfl, ⟨hi, hfs, by simp, hpi, ?_, ?_⟩, hv', hm'⟩
          · have := h.lo
            rw [startOf_append hm] at this ⊢; exact this
          · intro _
            exact hi_last hm (by simp) (h.hi (by simp))
        · rw [er]; exact .inr ⟨rfl, ht⟩
      | true =>
        rw [hv, if_pos rfl] at hadd
        rw [hadd] at hbig ⊢
        simp only [if_true]
        have hcase : (ks = [] ∧ ks ++ [[{ p with key := true }]] = [[{ p with key := true }]]) ∨ ∃ K g', ks = K ++ [g'] ∧ ((({ p with key := true } : Pack).key = true ∧ ks ++ [[{ p with key := true }]] = ks ++ [[{ p with key := true }]]) ∨
            (({ p with key := true } : Pack).key = false ∧ (l.track.video = false → ({ p with key := true } : Pack).time < keyTime g' + 2047) ∧ ks ++ [[{ p with key := true }]] = K ++ [g' ++ [{ p with key := true }]])) :=
          .inr ⟨_, g, hks, .inl ⟨rfl, rfl⟩⟩
        have hsz : (F ++ [c ++ [g]]).flatten.length + 2 < 2 ^ 32 := by rw [hflat]; omega
        cases hfl : flips l F.length p.time with
        | false =>
          obtain ⟨hst, pages, data, hput, hpi⟩ := page_key (p := { p with key := true }) h.pages (hbig _ (by simp)) hsz hfl
          rw [hst]
          simp only [if_true]
          rw [hput]
          rcases track_step (q := { p with key := true }) h.track h.keys hle (hfit' true) hgap hs hcase with ⟨t', fs', er, hi, hfs, hv', hm'⟩ | ⟨er, ht⟩
          · rw [er]
            refine .inl ⟨_, _, fs', rfl, ⟨hi, hfs, by rw [hks]; simp, hpi, ?_, ?_⟩, hv', hm'⟩
            · have := h.lo
              rw [startOf_append hm] at this ⊢; exact this
            · intro _
              exact hi_last hm (by simp) (h.hi (by simp))
          · rw [er]; exact .inr ⟨rfl, ht⟩
        | true =>
          obtain ⟨u, hu, hut, pages, data, hput, hpi⟩ := page_new (p := { p with key := true }) h.pages h.track.parts.ok h.track.keys.ok h.track.frags.ok
            (hbig _ (by simp)) hsz (.inr ⟨F, _, rfl, hfl⟩)
          rw [hu]
          simp only [if_true]
          obtain ⟨-, -, st, -⟩ := room_pages h.pages.ok h.track.parts.ok h.track.keys.ok h.track.frags.ok
          rw [hput]
          have hcase' := hcase
          rw [← st.video] at hcase'
          rcases track_step (q := { p with key := true }) (h.track.same st) h.keys hle (hfit' true) hgap hs hcase' with
            ⟨t', fs', er, hi, hfs, hv', hm'⟩ | ⟨er, ht⟩
          · rw [er]
            refine .inl ⟨_, _, fs', rfl, ⟨hi, hfs, by rw [hks]; simp, hpi, ?_, ?_⟩, by rw [← st.video]; exact hv', by rw [← st.min]; exact hm'⟩
            · rw [startOf_append (by simp; omega)]; exact h.lo
            · intro _
              rw [startOf_append (by simp; omega)]; exact h.hi (by simp)
          · rw [er]; exact .inr ⟨rfl, ht⟩

/-- The first key is removed. -/
theorem remove_step {l : Live} {ks : List (List Pack)} {G : List (List (List Pack))} {fs : List (List Index.Group)} {d e m : Nat} (h : LInv l ks G fs d e m)
    (h2 : e + 2 ≤ fs.length) (hs : ks.flatten.length + 2 < 2 ^ 32) :
    ∃ l' e' m', removeFirstKey l = some l' ∧ LInv l' ks G fs (d + 1) e' m' ∧ l'.track.video = l.track.video ∧ l'.track.minFrag = l.track.minFrag := by
  obtain ⟨t', e', er, hi, -, hv, hmf⟩ := Index.step_remove h.track h2 (by rw [entries_flat h.keys, List.length_map]; exact hs)
  have hfsne : fs ≠ [] := by intro hz; rw [hz] at h2; simp at h2
  have hdl := hi.dlt hfsne
  have hkl : ks.length ≤ ks.flatten.length := by
    have := Index.flatten_le h.track.grouped.keys
    rwa [h.keys, ← List.map_flatten, List.length_map, List.length_map] at this
  rw [h.keys] at hdl
  simp only [List.length_map] at hdl
  have hG : G ≠ [] := by
    intro hz
    have := h.flat
    rw [hz] at this
    rw [← this] at hdl
    simp at hdl
  have hml := h.pages.left hG
  have hb : G[m]? = some G[m] := List.getElem?_eq_getElem hml
  have hr := h.pages.recs m _ (Nat.le_refl _) hb
  have hE : (l.pages.get m).firstKey + (l.pages.get m).keyCount = startOf G (m + 1) := by
    rw [hr.firstKey, hr.keyCount, startOf_succ hb]
  have hEle : startOf G (m + 1) ≤ ks.length := by rw [← h.flat]; exact startOf_le G _
  have hav : (l.pages.get m).avail ≠ 0 := by
    rw [hr.avail]
    have := bytes_pos (h.pages.ne _ (List.getElem_mem hml)) (h.pages.nek _ (List.getElem_mem hml))
    omega
  have hkd : l.track.keys.del = d := h.track.keys.del
  have hhi := h.hi hG
  unfold removeFirstKey
  rw [er]
  dsimp only [Option.bind_some]
  unfold removePage
  dsimp only
  rw [h.pages.del, hE, Nat.mod_eq_of_lt (by omega), hkd]
  by_cases hc : startOf G (m + 1) ≤ d + 1
  · rw [if_pos hc]
    have hm1 : m + 1 < G.length := by
      refine Nat.lt_of_not_le fun hcon => ?_
      have hx : startOf G (m + 1) = ks.length := by
        rw [← h.flat]; unfold startOf; rw [List.take_of_length_le (by omega)]
      omega
    have hk1 : 1 ≤ l.pages.fin - l.pages.del := by rw [h.pages.fin, h.pages.del]; omega
    have hdrop := Tab.drop_eq h.pages.ok hk1
    obtain ⟨ok', hdel', hfin', hget'⟩ := h.pages.ok.drop hk1 hdrop
    rw [hdrop]
    refine ⟨_, e', m + 1, rfl, ⟨hi, h.keys, h.flat, ⟨ok', ?_, ?_, ?_, fun _ => hm1, fun hz => absurd hz hG, h.pages.ne, h.pages.nek, ?_, ?_, fun hz => absurd hz hG,
      h.pages.cur, h.pages.fill⟩, hc, ?_⟩, hv, hmf⟩
    · rw [hdel', h.pages.del]
    · show l.pages.start + 1 = m + 1
      rw [h.pages.start]
    · rw [hfin', h.pages.fin]
    · intro i b hmi hgi
      rw [hget']; exact h.pages.recs i b (by omega) hgi
    · intro i b hmi hgi
      rw [if_pos hav]
      show (if _ = _ then none else _) = _
      rw [if_neg]
      · exact h.pages.data i b (by omega) hgi
      · rw [hr.firstKey]
        have := startOf_lt h.pages.ne (show m < i by omega) hml
        omega
    · intro _
      have := startOf_lt h.pages.ne (show m + 1 < m + 1 + 1 by omega) hm1
      omega
  · rw [if_neg hc, if_neg hav]
    exact ⟨_, e', m, rfl, ⟨hi, h.keys, h.flat, h.pages, Nat.le_succ_of_le h.lo, fun _ => by omega⟩, hv, hmf⟩

end Verif.Live
