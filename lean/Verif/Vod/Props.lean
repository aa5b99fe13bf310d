import Verif.Vod.Hist

/-!
# C103: recordings are loaded into memory page by page
-/
namespace Verif.Vod
open Verif Verif.Page Verif.Page.Spec Spec

/-! ## A recording -/

/-- The index of a recording. -/
def indexOf (gs : List (List Pack)) : Track :=
  { keys := (List.range gs.length).map fun i =>
      ⟨(gs.take i).flatten.length, 0, ((gs.getD (i + 1) []).headD ⟨0, 0, 0, [], 0, false⟩).time - ((gs.getD i []).headD ⟨0, 0, 0, [], 0, false⟩).time, i, (gs.getD i []).length,
        ((gs.getD i []).headD ⟨0, 0, 0, [], 0, false⟩).time, ((gs.getD i []).map packLen).sum + 5⟩,
    sizes := gs.flatten.map (·.data.length), lastms := (gs.flatten.getLastD ⟨0, 0, 0, [], 0, false⟩).time }

/-- Four keys, of two packets each. -/
def sample : List (List Pack) :=
  [0, 30000, 70000, 80000].map fun t => [⟨t, 0, 1, [1, 2, 3], 0, true⟩, ⟨t + 40, 80, 1, [4, 5], 7, false⟩]

theorem sample_describes : Describes (indexOf sample) sample where
  keys := by decide +kernel
  key := by
    intro i g h
    have hi : i < 4 := (List.getElem?_eq_some_iff.mp h).1
    have : g = sample.getD i [] := by rw [List.getD_eq_getElem?_getD, h]; rfl
    subst this
    have hall : ∀ j < 4, (sample.getD j []).head? = some ((sample.getD j []).headD ⟨0, 0, 0, [], 0, false⟩) ∧
        ((indexOf sample).key j).time = ((sample.getD j []).headD ⟨0, 0, 0, [], 0, false⟩).time ∧
        ((indexOf sample).key j).parts = (sample.getD j []).length ∧ ((sample.getD j []).map packLen).sum ≤ ((indexOf sample).key j).size ∧
        ((indexOf sample).key j).firstPart = (sample.take j).flatten.length := by
      intro j hj
      rcases j with _ | _ | _ | _ | j
      · exact ⟨rfl, by decide +kernel⟩
      · exact ⟨rfl, by decide +kernel⟩
      · exact ⟨rfl, by decide +kernel⟩
      · exact ⟨rfl, by decide +kernel⟩
      · omega
    exact ⟨_, hall i hi⟩
  sizes := rfl
  last := by
    intro p h
    have : sample.flatten.getLast? = some ⟨80040, 80, 1, [4, 5], 7, false⟩ := rfl
    rw [this] at h
    cases h
    decide +kernel
  order := by
    have : (sample.flatten.map (·.time)).Pairwise (· ≤ ·) := by decide +kernel
    rw [List.pairwise_map] at this
    exact this
  later := by
    intro i g p h hp
    have hi : i < 4 := (List.getElem?_eq_some_iff.mp h).1
    have : g = sample.getD i [] := by rw [List.getD_eq_getElem?_getD, h]; rfl
    subst this
    have hall : ∀ j < 4, ∀ x ∈ ((sample.take j).flatten.map (·.time)), ∀ y ∈ ((sample.getD j []).head?.map (·.time)).toList, x < y := by decide +kernel
    intro q hq
    exact hall i hi q.time (List.mem_map_of_mem hq) p.time (by rw [hp]; exact List.mem_cons_self)
  small := by
    have : ∀ g ∈ pagesOf [] (indexOf sample).keys, g.length < 4294967296 ∧ (g.map (·.parts)).sum < 4294967296 ∧ (g.map (·.size)).sum < 4294967296 := by decide +kernel
    exact this

/-- Two pages. -/
example : (pagesOf [] (indexOf sample).keys).map List.length = [3, 1] := by decide +kernel

/-- Reading from the time on. -/
theorem sample_faithful : Faithful sample (fun time => sample.flatten.dropWhile fun p => decide (p.time < time)) := by
  intro time
  refine ⟨sample.flatten.takeWhile fun p => decide (p.time < time), List.takeWhile_append_dropWhile.symm, ?_⟩
  intro p hp
  have := List.all_eq_true.mp (List.all_takeWhile (p := fun p : Pack => decide (p.time < time)) (l := sample.flatten)) p hp
  exact of_decide_eq_true this


/-! ## Pages -/

theorem flat_ranges : ∀ (cs : List (List Index.Key)) (j : Nat), (recs j cs).flatMap (fun r => List.range' r.firstKey r.keyCount) = List.range' j cs.flatten.length
  | [], _ => rfl
  | c :: cs, j => by
    unfold recs
    rw [List.flatMap_cons, flat_ranges cs (j + c.length), List.flatten_cons, List.length_append]
    show List.range' j c.length ++ _ = _
    rw [List.range'_append_1]

/-- **C103.** Every key of a recording is on exactly one page; the pages follow each other, start at the time of their first key, and have room and a
number of packets as their keys need. -/
theorem C103_pages (t : Track) (hm : ∀ g ∈ pagesOf [] t.keys, Small g) :
    ((parseHeader t).slots.flatMap fun sl => List.range' sl.info.firstKey sl.info.keyCount) = List.range t.keys.length ∧
    ((parseHeader t).slots.map fun sl => (t.keys.drop sl.info.firstKey).take sl.info.keyCount) = pagesOf [] t.keys ∧
    (∀ c ∈ pagesOf [] t.keys, c ≠ []) ∧
    ∀ sl ∈ (parseHeader t).slots, sl.avail = 0 ∧ sl.mem = [] ∧ sl.info.firstTime = (t.key sl.info.firstKey).time ∧
      sl.info.parts = (((t.keys.drop sl.info.firstKey).take sl.info.keyCount).map (·.parts)).sum ∧
      sl.info.size = (((t.keys.drop sl.info.firstKey).take sl.info.keyCount).map (·.size)).sum := by
  have hfl : (pagesOf [] t.keys).flatten = t.keys := by rw [pages_flatten]; rfl
  have hinf : (parseHeader t).slots.map (·.info) = split 0 none t.keys := (inv_start t []).infos
  have hpage : ∀ (i : Nat) sl, (parseHeader t).slots[i]? = some sl → ∃ c, (pagesOf [] t.keys)[i]? = some c ∧
      sl.info = recOf (firstOf (pagesOf [] t.keys) i) c ∧ (t.keys.drop sl.info.firstKey).take sl.info.keyCount = c := by
    intro i sl h
    obtain ⟨c, hc, hr⟩ := slot_rec hm hinf h
    refine ⟨c, hc, hr, ?_⟩
    have := chunk_eq hc
    rw [hfl] at this
    rw [hr]
    exact this.symm
  refine ⟨?_, ?_, pages_ne _ _, ?_⟩
  · have h1 : ((parseHeader t).slots.flatMap fun sl => List.range' sl.info.firstKey sl.info.keyCount) =
        ((parseHeader t).slots.map (·.info)).flatMap fun r => List.range' r.firstKey r.keyCount := by rw [List.flatMap_map]
    rw [h1, hinf, split_pages hm, flat_ranges, hfl, List.range_eq_range']
  · apply List.ext_getElem?
    intro i
    rw [List.getElem?_map]
    cases hs : (parseHeader t).slots[i]? with
    | none =>
      have h1 := congrArg List.length hinf
      rw [split_pages hm, recs_length, List.length_map] at h1
      rw [List.getElem?_eq_none_iff, h1] at hs
      rw [List.getElem?_eq_none_iff.mpr hs]
      rfl
    | some sl =>
      obtain ⟨c, hc, _, he⟩ := hpage i sl hs
      rw [hc]
      simp [he]
  · intro sl hsl
    obtain ⟨i, hi⟩ := List.mem_iff_getElem?.mp hsl
    obtain ⟨c, hc, hr, he⟩ := hpage i sl hi
    have h0 : sl = sl.empty := by
      unfold parseHeader at hsl
      obtain ⟨r, _, rfl⟩ := List.mem_map.mp hsl
      rfl
    refine ⟨by rw [h0]; rfl, by rw [h0]; rfl, ?_, ?_, ?_⟩
    · have hne := pages_ne _ _ c (List.mem_of_getElem? hc)
      cases c with
      | nil => exact absurd rfl hne
      | cons k c =>
        have h1 : t.keys[sl.info.firstKey]? = some k := by
          have := congrArg (·[0]?) he
          rw [List.getElem?_cons_zero, List.getElem?_take] at this
          split at this
          · rw [List.getElem?_drop] at this
            exact this
          · cases this
        rw [key_get h1, hr]
        rfl
    · rw [he, hr]
      rfl
    · rw [he, hr]
      rfl

/-- Two pages, of three keys and one. -/
example : ((parseHeader (indexOf sample)).slots.map fun sl => (sl.info.firstTime, sl.info.firstKey, sl.info.keyCount, sl.info.parts)) = [(0, 0, 3, 6), (80000, 3, 1, 2)] := by
  decide +kernel

/-! ## Histories -/

/-- **C103.** After any history of requests and removals, each page is empty or has exactly the packets of its keys, in their order; the pages are those
of the start. -/
theorem C103_always (t : Track) (gs : List (List Pack)) (hd : Describes t gs) (timeout : Nat) (ops : List Op) (hf : AllFaithful gs ops) :
    (run t timeout ops).slots.map (·.info) = (parseHeader t).slots.map (·.info) ∧
    ∀ sl ∈ (run t timeout ops).slots, (sl.avail = 0 ∧ sl.mem = []) ∨ Full gs sl := by
  have h := inv_run hd timeout hf
  refine ⟨by rw [h.infos, (inv_start t gs).infos], fun sl hsl => ?_⟩
  rcases h.ok sl hsl with h | h
  · left
    rw [h]
    exact ⟨rfl, rfl⟩
  · exact .inr h

/-- **C103.** Whatever was before, a page that is asked for is loaded: the request succeeds, and the page of the key has exactly the packets of its keys.
Where reading starts after seeking makes no difference. Missing: recordings with a key that is not later than all packets before it, see
`C103_equal_fails`. -/
theorem C103_load_partial (t : Track) (gs : List (List Pack)) (hd : Describes t gs) (timeout : Nat) (ops : List Op) (hf : AllFaithful gs ops) (key now : Nat)
    (hk : key < t.keys.length) (src : Nat → List Pack) (hsrc : Faithful gs src) :
    (bufferFrame t (run t timeout ops) key now src).2 = true ∧
    ∃ sl ∈ (bufferFrame t (run t timeout ops) key now src).1.slots, On sl key ∧ Full gs sl ∧ 0 < sl.avail := by
  have h := inv_run hd timeout hf
  generalize run t timeout ops = s at *
  rcases want_cases hd h.infos key now hsrc with ⟨_, e⟩ | ⟨i, sl, hs, ho, _, ht, h2⟩
  · omega
  · refine ⟨ht, ?_⟩
    have hfa := facts hd h.infos hs
    rcases h2 with ⟨ha, e⟩ | ⟨ha, x, x1, x2, e⟩
    · rw [e]
      refine ⟨sl, List.mem_of_getElem? hs, ho hk, ?_, Nat.pos_of_ne_zero ha⟩
      rcases h.ok sl (List.mem_of_getElem? hs) with h | h
      · rw [h] at ha
        exact absurd rfl ha
      · exact h
    · rw [e]
      refine ⟨x, ?_, ?_, x2, Nat.pos_of_ne_zero (full_pos hd hfa x1 x2)⟩
      · exact List.mem_iff_getElem?.mpr ⟨i, by rw [List.getElem?_set_self (List.getElem?_eq_some_iff.mp hs).1]⟩
      · have := ho hk
        unfold On at this ⊢
        rw [x1]
        exact this

/-- A request in the middle of the recording. -/
example : 2 < (indexOf sample).keys.length ∧ Describes (indexOf sample) sample ∧ AllFaithful sample [] := ⟨by decide +kernel, sample_describes, by intro _ _ _ h; cases h⟩

/-- The event leaves a page that was asked for at second `now`: no page is asked for before, unused pages are removed not later than `timeout` seconds after. -/
def Leaves (now timeout : Nat) : Op → Prop
  | .want _ n _ => now ≤ n
  | .clean n => n ≤ now + timeout

theorem stays {t : Track} {gs : List (List Pack)} (hd : Describes t gs) (timeout now key : Nat) : ∀ (ops : List Op) (s : State), Inv t gs s → AllFaithful gs ops →
    (∀ o ∈ ops, Leaves now timeout o) →
    (∃ (i : Nat) (sl : Slot), s.slots[i]? = some sl ∧ On sl key ∧ Full gs sl ∧ ∀ e ∈ s.counter, e.1 = sl.info.firstKey → now ≤ e.2) →
    ∃ (i : Nat) (sl : Slot), (ops.foldl (step t timeout) s).slots[i]? = some sl ∧ On sl key ∧ Full gs sl
  | [], _, _, _, _, ⟨i, sl, h1, h2, h3, _⟩ => ⟨i, sl, h1, h2, h3⟩
  | o :: ops, s, hinv, hf, hl, ⟨i, sl, h1, h2, h3, h4⟩ => by
    rw [List.foldl_cons]
    have hl0 := hl o List.mem_cons_self
    cases o with
    | want k n src =>
      have hsrc := hf k n src List.mem_cons_self
      apply stays hd timeout now key ops _ (inv_want hd hinv k n hsrc) (fun a b c hm => hf a b c (List.mem_cons_of_mem _ hm)) (fun o ho => hl o (List.mem_cons_of_mem _ ho))
      show ∃ (i : Nat) (sl : Slot), (bufferFrame t s k n src).1.slots[i]? = some sl ∧ _ ∧ _ ∧ ∀ e ∈ (bufferFrame t s k n src).1.counter, _
      have hmark : ∀ f, ∀ e ∈ mark f n s.counter, e.1 = sl.info.firstKey → now ≤ e.2 := by
        intro f e he hef
        rcases mark_mem he with rfl | ⟨he, _⟩
        · exact hl0
        · exact h4 e he hef
      rcases want_cases hd hinv.infos k n hsrc with ⟨e, _⟩ | ⟨j, sj, hs, _, _, _, ho⟩
      · rw [e]
        exact ⟨i, sl, h1, h2, h3, h4⟩
      · rcases ho with ⟨_, e⟩ | ⟨ha, x, _, _, e⟩
        · rw [e]
          exact ⟨i, sl, h1, h2, h3, hmark _⟩
        · rw [e]
          refine ⟨i, sl, ?_, h2, h3, hmark _⟩
          have hne : j ≠ i := by
            intro hji
            subst hji
            rw [hs] at h1
            cases h1
            exact full_pos hd (facts hd hinv.infos hs) rfl h3 ha
          rw [List.getElem?_set_ne hne]
          exact h1
    | clean n =>
      apply stays hd timeout now key ops _ (inv_clean hinv timeout n) (fun a b c hm => hf a b c (List.mem_cons_of_mem _ hm)) (fun o ho => hl o (List.mem_cons_of_mem _ ho))
      refine ⟨i, sl, ?_, h2, h3, ?_⟩
      · show ((s.slots.map _))[i]? = some sl
        rw [List.getElem?_map, h1]
        show some (if _ then sl.empty else sl) = some sl
        rw [if_neg]
        intro hany
        obtain ⟨e, he, hd2⟩ := List.any_eq_true.mp hany
        obtain ⟨e1, e2⟩ := of_decide_eq_true hd2
        have := h4 e he e1
        have hl1 : n ≤ now + timeout := hl0
        omega
      · intro e he hef
        exact h4 e (List.mem_filter.mp he).1 hef

/-- **C103.** A page that was asked for stays in memory, with all its packets, for as long as `timeout` says: whatever is asked for and removed in the
meantime. -/
theorem C103_stays (t : Track) (gs : List (List Pack)) (hd : Describes t gs) (timeout : Nat) (before later : List Op) (key now : Nat)
    (src : Nat → List Pack) (hk : key < t.keys.length) (hf : AllFaithful gs (before ++ .want key now src :: later)) (hl : ∀ o ∈ later, Leaves now timeout o) :
    ∃ sl ∈ (run t timeout (before ++ .want key now src :: later)).slots, On sl key ∧ Full gs sl := by
  have hf1 : AllFaithful gs before := fun a b c hm => hf a b c (List.mem_append_left _ hm)
  have hsrc := hf key now src (List.mem_append_right _ List.mem_cons_self)
  have h := inv_run hd timeout hf1
  unfold run
  rw [List.foldl_append, List.foldl_cons]
  have h0 : before.foldl (step t timeout) (parseHeader t) = run t timeout before := rfl
  rw [h0]
  obtain ⟨i, sl, a, b, c⟩ := stays hd timeout now key later (bufferFrame t (run t timeout before) key now src).1 (inv_want hd h key now hsrc)
    (fun a b c hm => hf a b c (List.mem_append_right _ (List.mem_cons_of_mem _ hm))) hl (by
      generalize run t timeout before = s at *
      have hmark : ∀ f, ∀ e ∈ mark f now s.counter, e.1 = f → now ≤ e.2 := by
        intro f e he hef
        rcases mark_mem he with rfl | ⟨_, hne⟩
        · exact Nat.le_refl _
        · exact absurd hef hne
      rcases want_cases hd h.infos key now hsrc with ⟨_, e⟩ | ⟨i, sl, hs, ho, _, _, h2⟩
      · omega
      · rcases h2 with ⟨ha, e⟩ | ⟨ha, x, x1, x2, e⟩
        · rw [e]
          refine ⟨i, sl, hs, ho hk, ?_, hmark _⟩
          rcases h.ok sl (List.mem_of_getElem? hs) with h | h
          · rw [h] at ha
            exact absurd rfl ha
          · exact h
        · rw [e]
          refine ⟨i, x, List.getElem?_set_self (List.getElem?_eq_some_iff.mp hs).1, ?_, x2, by rw [x1]; exact hmark _⟩
          have := ho hk
          unfold On at this ⊢
          rw [x1]
          exact this)
  exact ⟨sl, List.mem_of_getElem? a, b, c⟩

/-- The page of a key is asked for by a request. -/
def Asks (t : Track) (sl : Slot) (k : Nat) : Prop := On sl k ∨ (k = t.keys.length ∧ sl.info.firstKey + sl.info.keyCount = t.keys.length)

theorem first_inj {t : Track} (hm : ∀ g ∈ pagesOf [] t.keys, Small g) {s : State} (hi : s.slots.map (·.info) = split 0 none t.keys) {i j : Nat} {a b : Slot}
    (ha : s.slots[i]? = some a) (hb : s.slots[j]? = some b) (h : a.info.firstKey = b.info.firstKey) : a.info = b.info := by
  obtain ⟨c, hc, hr⟩ := slot_rec hm hi ha
  obtain ⟨d, hd, hq⟩ := slot_rec hm hi hb
  have hcp : 0 < c.length := List.length_pos_iff.mpr (pages_ne _ _ c (List.mem_of_getElem? hc))
  have hdp : 0 < d.length := List.length_pos_iff.mpr (pages_ne _ _ d (List.mem_of_getElem? hd))
  have e : firstOf (pagesOf [] t.keys) i = firstOf (pagesOf [] t.keys) j := by
    rw [hr, hq] at h
    exact h
  have s1 := firstOf_succ hc
  have s2 := firstOf_succ hd
  have hij : i = j := by
    rcases Nat.lt_trichotomy i j with hlt | heq | hgt
    · have := firstOf_mono (pagesOf [] t.keys) (show i + 1 ≤ j from hlt)
      omega
    · exact heq
    · have := firstOf_mono (pagesOf [] t.keys) (show j + 1 ≤ i from hgt)
      omega
  subst hij
  rw [ha] at hb
  cases hb
  rfl

theorem counted {t : Track} {gs : List (List Pack)} (hd : Describes t gs) (timeout : Nat) : ∀ (ops : List Op) (s : State) (old : List Op), Inv t gs s → AllFaithful gs ops →
    (∀ e ∈ s.counter, ∀ sl ∈ s.slots, e.1 = sl.info.firstKey → ∃ k src, .want k e.2 src ∈ old ∧ Asks t sl k) →
    ∀ e ∈ (ops.foldl (step t timeout) s).counter, ∀ sl ∈ (ops.foldl (step t timeout) s).slots, e.1 = sl.info.firstKey →
      ∃ k src, .want k e.2 src ∈ old ++ ops ∧ Asks t sl k
  | [], _, old, _, _, h => by rw [List.append_nil]; exact h
  | o :: ops, s, old, hinv, hf, h => by
    rw [List.foldl_cons]
    have hold : old ++ o :: ops = (old ++ [o]) ++ ops := by simp
    rw [hold]
    cases o with
    | want k n src =>
      have hsrc := hf k n src List.mem_cons_self
      apply counted hd timeout ops _ _ (inv_want hd hinv k n hsrc) (fun a b c hm => hf a b c (List.mem_cons_of_mem _ hm))
      show ∀ e ∈ (bufferFrame t s k n src).1.counter, ∀ sl ∈ (bufferFrame t s k n src).1.slots, _
      have key : ∀ (i : Nat) (sp : Slot), s.slots[i]? = some sp → (k < t.keys.length → On sp k) → (t.keys.length ≤ k → i = s.slots.length - 1) →
          (k ≤ t.keys.length) → ∀ e ∈ mark sp.info.firstKey n s.counter, ∀ (j : Nat) (sl : Slot), s.slots[j]? = some sl → e.1 = sl.info.firstKey →
          ∃ k' src', .want k' e.2 src' ∈ old ++ [.want k n src] ∧ Asks t sl k' := by
        intro i sp hs h1 h2 h3 e he j sl hsl hef
        rcases mark_mem he with rfl | ⟨he, _⟩
        · refine ⟨k, src, List.mem_append_right _ List.mem_cons_self, ?_⟩
          have hinfo := first_inj hd.small hinv.infos hs hsl hef
          unfold Asks On
          rw [← hinfo]
          by_cases hk : k < t.keys.length
          · exact .inl (h1 hk)
          · exact .inr ⟨by omega, (facts hd hinv.infos hs).last (h2 (by omega))⟩
        · obtain ⟨k', src', hm, ha⟩ := h e he sl (List.mem_of_getElem? hsl) hef
          exact ⟨k', src', List.mem_append_left _ hm, ha⟩
      have hkeep : ∀ e ∈ s.counter, ∀ sl ∈ s.slots, e.1 = sl.info.firstKey → ∃ k' src', .want k' e.2 src' ∈ old ++ [.want k n src] ∧ Asks t sl k' := by
        intro e he sl hsl hef
        obtain ⟨k', src', hm, ha⟩ := h e he sl hsl hef
        exact ⟨k', src', List.mem_append_left _ hm, ha⟩
      by_cases hk : k > t.keys.length
      · have : bufferFrame t s k n src = (s, true) := by unfold bufferFrame; rw [if_pos hk]
        rw [this]
        exact hkeep
      · rcases want_cases hd hinv.infos k n hsrc with ⟨e, _⟩ | ⟨i, sp, hs, h1, h2, _, ho⟩
        · rw [e]
          exact hkeep
        · have hkey := key i sp hs h1 h2 (by omega)
          rcases ho with ⟨_, e⟩ | ⟨_, x, x1, _, e⟩
          · rw [e]
            intro e he sl hsl hef
            obtain ⟨j, hj⟩ := List.mem_iff_getElem?.mp hsl
            exact hkey e he j sl hj hef
          · rw [e]
            clear e
            intro e he sl hsl hef
            rcases mem_set' hsl with rfl | ⟨j, _, hj⟩
            · obtain ⟨k', src', hm, ha⟩ := hkey e he i sp hs (by rw [← x1]; exact hef)
              refine ⟨k', src', hm, ?_⟩
              unfold Asks On at ha ⊢
              rw [x1]
              exact ha
            · exact hkey e he j sl hj hef
    | clean n =>
      apply counted hd timeout ops _ _ (inv_clean hinv timeout n) (fun a b c hm => hf a b c (List.mem_cons_of_mem _ hm))
      intro e he sl hsl hef
      obtain ⟨z, hz, rfl⟩ := List.mem_map.mp hsl
      have hinfo : (if s.counter.any (fun e => decide (e.1 = z.info.firstKey ∧ n > e.2 + timeout)) then z.empty else z).info = z.info := by split <;> rfl
      rw [hinfo] at hef
      obtain ⟨k', src', hm, ha⟩ := h e (List.mem_filter.mp he).1 z hz hef
      refine ⟨k', src', List.mem_append_left _ hm, ?_⟩
      unfold Asks On at ha ⊢
      rw [hinfo]
      exact ha

/-- **C103.** Memory is freed: when unused pages are removed, a page that was not asked for in the last `timeout` seconds is empty after that. -/
theorem C103_freed (t : Track) (gs : List (List Pack)) (hd : Describes t gs) (timeout : Nat) (ops : List Op) (hf : AllFaithful gs ops) (now : Nat) (sl : Slot)
    (hsl : sl ∈ (run t timeout (ops ++ [.clean now])).slots) (hold : ∀ k n src, .want k n src ∈ ops → Asks t sl k → n + timeout < now) :
    sl.avail = 0 ∧ sl.mem = [] := by
  have hinv := inv_run hd timeout hf
  have hc := counted hd timeout ops (parseHeader t) [] (inv_start t gs) hf (fun e he => by cases he)
  rw [List.nil_append] at hc
  unfold run at hsl
  rw [List.foldl_append] at hsl
  have h0 : ops.foldl (step t timeout) (parseHeader t) = run t timeout ops := rfl
  rw [h0] at hc hsl
  generalize run t timeout ops = s at *
  obtain ⟨z, hz, he⟩ := List.mem_map.mp (show sl ∈ s.slots.map _ from hsl)
  split at he
  · rw [← he]
    exact ⟨rfl, rfl⟩
  · rename_i hany
    subst he
    rcases hinv.ok z hz with h | h
    · rw [h]
      exact ⟨rfl, rfl⟩
    · obtain ⟨i, hi⟩ := List.mem_iff_getElem?.mp hz
      have hpos := full_pos hd (facts hd hinv.infos hi) rfl h
      obtain ⟨e, he, hef⟩ := hinv.cnt z hz hpos
      obtain ⟨k, src, hm, ha⟩ := hc e he z hz hef
      have := hold k e.2 src hm ha
      exact absurd (List.any_eq_true.mpr ⟨e, he, decide_eq_true ⟨hef, by omega⟩⟩) hany

/-- A history: a page is asked for, stays, is removed. -/
def sampleOps : List Op := [.want 1 100 fun time => sample.flatten.dropWhile fun p => decide (p.time < time), .clean 115, .clean 116]

example : ((run (indexOf sample) 15 (sampleOps.take 2)).slots.map (·.avail ≠ 0)) = [True, False] ∧
    (run (indexOf sample) 15 sampleOps).slots.map (·.avail) = [0, 0] := by
  have : ((run (indexOf sample) 15 (sampleOps.take 2)).slots.map fun s => decide (s.avail ≠ 0)) = [true, false] := by decide +kernel
  refine ⟨?_, by decide +kernel⟩
  cases h : (run (indexOf sample) 15 (sampleOps.take 2)).slots with
  | nil => rw [h] at this; cases this
  | cons a l =>
    rw [h] at this
    cases l with
    | nil => simp at this
    | cons b l =>
      cases l with
      | nil => simp at this; simp [this]
      | cons c l => simp at this

example : (∀ o ∈ [Op.clean 115], Leaves 100 15 o) ∧ AllFaithful sample sampleOps :=
  ⟨by intro o ho; rw [List.mem_singleton.mp ho]; show 115 ≤ 100 + 15; omega, by
    intro k n src h
    simp only [sampleOps, List.mem_cons, List.not_mem_nil, or_false, reduceCtorEq, Op.want.injEq] at h
    rw [h.2.2]
    exact sample_faithful⟩

end Verif.Vod
