import Verif.Streams.Lemmas

/-!
# What holds of the streams after every event
-/

namespace Verif.Streams
open Verif Verif.Streams.Spec

theorem lookup_removeNull (c : Conf) (k : Bytes) :
    (removeNull c).lookup k = if k = [] then c.lookup k else nonNull (c.lookup k) := by
  unfold removeNull
  rw [lookup_filter (fun k => k == [] || c.lookup k != some .null)]
  by_cases hk : k = []
  · simp [hk]
  · have hb : (k == []) = false := by simpa using hk
    cases hc : c.lookup k with
    | none => simp [hk, nonNull]
    | some v => cases v <;> simp [hk, nonNull]

/-- The copy is the page, and a stream that is not configured has none. -/
def Tidy (s : St) : Prop :=
  ∀ n, ¬ Lost n → s.written.lookup n = s.pages.lookup n ∧ (s.streams.lookup n = none → s.pages.lookup n = none)

theorem setStream_tidy (s : St) (n : Bytes) (c : Conf) (h : Tidy s) : Tidy (setStream s n c) := by
  intro m hm
  unfold setStream
  rw [writeStream_streams]
  by_cases hmn : m = n
  · subst hmn
    refine ⟨writeStream_copy _ m c (Or.inl (h m hm).1), ?_⟩
    intro hl
    simp [lookup_put] at hl
  · have h2 := writeStream_other { s with streams := put s.streams n c } n m c hmn
    rw [h2.1, h2.2]
    refine ⟨(h m hm).1, fun hl => (h m hm).2 ?_⟩
    simpa [lookup_put, hmn] using hl

theorem addOne_tidy (e : Env) (s : St) (n : Bytes) (c : Conf) (h : Tidy s) : Tidy (addOne e s n c) := by
  unfold addOne
  split
  · split
    · exact setStream_tidy _ _ _ h
    · split
      · intro m hm
        refine ⟨(h m hm).1, fun hl => (h m hm).2 ?_⟩
        by_cases hmn : m = n
        · simp [lookup_put, hmn] at hl
        · simpa [lookup_put, hmn] using hl
      · exact setStream_tidy _ _ _ h
  · split
    · exact h
    · split
      · exact h
      · exact setStream_tidy _ _ _ h

theorem addStreams_tidy (e : Env) (l : List (Bytes × Conf)) (s : St) (h : Tidy s) : Tidy (addStreams e l s) := by
  induction l generalizing s with
  | nil => exact h
  | cons nc t ih => exact ih _ (addOne_tidy e s nc.1 nc.2 h)

theorem deleteStream_tidy (e : Env) (s : St) (n : Bytes) (h : Tidy s) : Tidy (deleteStream e s n) := by
  unfold deleteStream
  split
  · exact h
  · split
    · exact h
    · intro m hm
      simp only [dropPage, lookup_del]
      by_cases hmn : m = n
      · simp [hmn]
      · simp only [hmn, if_false]
        exact h m hm

theorem deleteAll_tidy (e : Env) (l : List Bytes) (s : St) (h : Tidy s) : Tidy (deleteAll e l s) := by
  induction l generalizing s with
  | nil => exact h
  | cons n t ih => exact ih _ (deleteStream_tidy e s n h)

theorem cmds_tidy (e : Env) (l : List Cmd) (s : St) (hl : ∀ c ∈ l, ∀ disk, c ≠ .reload disk) (h : Tidy s) :
    Tidy (cmds e l s) := by
  induction l generalizing s with
  | nil => exact h
  | cons c t ih =>
    refine ih _ (fun c hc => hl c (List.mem_cons_of_mem _ hc)) ?_
    cases c with
    | streams req => exact deleteAll_tidy _ _ _ (addStreams_tidy _ _ _ h)
    | add req => exact addStreams_tidy _ _ _ h
    | delete names => exact deleteAll_tidy _ _ _ h
    | reload disk => exact absurd rfl (hl _ (List.mem_cons_self ..) disk)

/-- A configured stream has a page that agrees, for the members in `P`, and has no null members. -/
def UpToDate (P : Bytes → Prop) (s : St) : Prop :=
  ∀ n c, ¬ Lost n → s.streams.lookup n = some c →
    ∃ p, s.pages.lookup n = some p ∧ (∀ k, Told k → P k → AgreesNearly (p.lookup k) (c.lookup k))
      ∧ ∀ k, Told k → k ≠ [] → c.lookup k ≠ some .null

theorem writeConfig_good (s : St)
    (h : ∀ n, ¬ Lost n → (s.written.lookup n = s.pages.lookup n ∨ s.written.lookup n = none)
      ∧ (s.streams.lookup n = none → s.written.lookup n = none ∧ s.pages.lookup n = none)) :
    Tidy (writeConfig s) ∧ UpToDate (fun _ => True) (writeConfig s) := by
  constructor
  · intro n hn
    cases hc : s.streams.lookup n with
    | none =>
      have h1 := writeConfig_none s n hc
      have h2 := (h n hn).2 hc
      rw [h1.1, h1.2, h2.1, h2.2]
      exact ⟨rfl, fun _ => rfl⟩
    | some c =>
      obtain ⟨p, h1, h2, _⟩ := writeConfig_page s n c hc (h n hn).1
      refine ⟨by rw [h1, h2], ?_⟩
      intro h3
      rw [writeConfig_streams, hc] at h3
      cases h3
  · intro n c hn hc
    rw [writeConfig_streams] at hc
    cases hs : s.streams.lookup n with
    | none => rw [hs] at hc; cases hc
    | some c0 =>
      rw [hs] at hc
      simp only [Option.map_some, Option.some.injEq] at hc
      subst hc
      obtain ⟨p, _, h2, h3⟩ := writeConfig_page s n c0 hs (h n hn).1
      refine ⟨p, h2, fun k hk _ => h3 k hk, ?_⟩
      intro k _ hk
      rw [lookup_removeNull]
      simp only [hk, if_false]
      cases c0.lookup k with
      | none => simp [nonNull]
      | some v => cases v <;> simp [nonNull]

theorem request_good (e : Env) (l : List Cmd) (s : St) (hl : ∀ c ∈ l, ∀ disk, c ≠ .reload disk) (h : Tidy s) :
    Tidy (request e l s) ∧ UpToDate (fun _ => True) (request e l s) := by
  have ht := cmds_tidy e l s hl h
  exact writeConfig_good _ (fun n hn => ⟨Or.inl (ht n hn).1, fun hs => by
    have h1 := (ht n hn).2 hs
    exact ⟨(ht n hn).1.trans h1, h1⟩⟩)

theorem start_good (disk : List (Bytes × Conf)) : Tidy (start disk) ∧ UpToDate (fun _ => True) (start disk) :=
  writeConfig_good _ (fun _ _ => ⟨Or.inl rfl, fun _ => ⟨rfl, rfl⟩⟩)

theorem lookup_saved (l : List (Bytes × Conf)) (n : Bytes) :
    (savedStreams l).lookup n = if unsaved n then none else (l.lookup n).map saved := by
  unfold savedStreams
  rw [lookup_mapv (fun _ c => saved c), lookup_filter (fun k => !unsaved k)]
  cases unsaved n <;> simp

theorem restart_good (s : St) (h : Tidy s) : Tidy (restart s) ∧ UpToDate (fun _ => True) (restart s) := by
  refine writeConfig_good _ (fun n hn => ⟨Or.inr rfl, fun hs => ⟨rfl, (h n hn).2 ?_⟩⟩)
  have hu : unsaved n = false := by
    cases hu : unsaved n with
    | false => rfl
    | true => exact absurd ((lost_iff n).2 hu) hn
  have hs' : (savedStreams s.streams).lookup n = none := hs
  rw [lookup_saved, hu] at hs'
  cases hl : s.streams.lookup n with
  | none => rfl
  | some c => rw [hl] at hs'; simp at hs'

theorem told_online {k : Bytes} (h : Told k) : k ≠ kOnline := h.1
theorem told_error {k : Bytes} (h : Told k) : k ≠ kError := h.2.1

/-- The status check changes nothing that is told, but may add a name. -/
theorem lookup_checkOne (n : Bytes) (f : Val × Option Val) (c : Conf) (k : Bytes) (hk : Told k)
    (hnull : k ≠ [] → c.lookup k ≠ some .null) (hn : k = kName → has c kName = true) :
    (checkOne n f c).lookup k = c.lookup k := by
  have h1 := told_online hk
  have h2 := told_error hk
  have h3 : (if has c kName then c else put c kName (.str n)).lookup k = c.lookup k := by
    split
    · rfl
    · rename_i h
      rw [lookup_put]
      by_cases hkn : k = kName
      · exact absurd (hn hkn) h
      · simp [hkn]
  have h4 : (removeNull (del (put (if has c kName then c else put c kName (.str n)) kOnline (.str [])) kError)).lookup k = c.lookup k := by
    rw [lookup_removeNull, lookup_del, lookup_put]
    simp only [h1, h2, if_false, h3]
    by_cases hke : k = []
    · simp [hke]
    · simp only [hke, if_false]
      have := hnull hke
      cases hc : c.lookup k with
      | none => rfl
      | some v =>
        cases v with
        | null => exact absurd hc this
        | _ => rfl
  unfold checkOne
  simp only
  split
  · rw [lookup_put]; simp only [h1, if_false]; exact h4
  · rw [lookup_put, lookup_put]; simp only [h1, h2, if_false]; exact h4

theorem lookup_checkName (n : Bytes) (f : Val × Option Val) (c : Conf) (h : has c kName = false) :
    (checkOne n f c).lookup kName = some (.str n) := by
  have h1 : kName ≠ kOnline := by decide
  have h2 : kName ≠ kError := by decide
  have h3 : kName ≠ [] := by decide
  have h4 : (removeNull (del (put (if has c kName then c else put c kName (.str n)) kOnline (.str [])) kError)).lookup kName = some (.str n) := by
    rw [lookup_removeNull, lookup_del, lookup_put]
    simp only [h1, h2, h3, if_false, h, Bool.false_eq_true, lookup_put, if_true]
    rfl
  unfold checkOne
  simp only
  split
  · rw [lookup_put]; simp only [h1, if_false]; exact h4
  · rw [lookup_put, lookup_put]; simp only [h1, h2, if_false]; exact h4

theorem check_good (f : Bytes → Val × Option Val) (s : St) (h : Tidy s) (hu : UpToDate (fun k => k ≠ nameKey) s) :
    Tidy (statusCheck f s) ∧ UpToDate (fun k => k ≠ nameKey) (statusCheck f s) := by
  have hl : ∀ n, (statusCheck f s).streams.lookup n = (s.streams.lookup n).map (checkOne n (f n)) := fun n =>
    lookup_mapv (fun n c => checkOne n (f n) c) s.streams n
  constructor
  · intro n hn
    refine ⟨(h n hn).1, fun hs => (h n hn).2 ?_⟩
    rw [hl] at hs
    simpa using hs
  · intro n c hn hc
    rw [hl] at hc
    cases hs : s.streams.lookup n with
    | none => rw [hs] at hc; cases hc
    | some c0 =>
      rw [hs] at hc
      simp only [Option.map_some, Option.some.injEq] at hc
      subst hc
      obtain ⟨p, h1, h2, h3⟩ := hu n c0 hn hs
      refine ⟨p, h1, ?_, ?_⟩
      · intro k hk hkn
        rw [lookup_checkOne n (f n) c0 k hk (h3 k hk) (fun he => absurd he hkn)]
        exact h2 k hk hkn
      · intro k hk hke
        by_cases hkn : k = kName
        · subst hkn
          cases hh : has c0 kName with
          | true => rw [lookup_checkOne n (f n) c0 kName hk (h3 kName hk) (fun _ => hh)]; exact h3 _ hk hke
          | false => rw [lookup_checkName n (f n) c0 hh]; simp
        · rw [lookup_checkOne n (f n) c0 k hk (h3 k hk) (fun he => absurd he hkn)]
          exact h3 k hk hke

theorem upToDate_weaken {s : St} (h : UpToDate (fun _ => True) s) : UpToDate (fun k => k ≠ nameKey) s := by
  intro n c hn hc
  obtain ⟨p, h1, h2, h3⟩ := h n c hn hc
  exact ⟨p, h1, fun k hk _ => h2 k hk trivial, h3⟩

theorem event_good (s : St) (ev : Event) (ho : Orderly ev) (h : Tidy s ∧ UpToDate (fun k => k ≠ nameKey) s) :
    Tidy (event s ev) ∧ UpToDate (fun k => k ≠ nameKey) (event s ev) := by
  cases ev with
  | request e l => exact ⟨(request_good e l s ho h.1).1, upToDate_weaken (request_good e l s ho h.1).2⟩
  | check f => exact check_good f s h.1 h.2
  | restart => exact ⟨(restart_good s h.1).1, upToDate_weaken (restart_good s h.1).2⟩
  | reload disk => exact absurd ho (by simp [Orderly])
  | uplink names => exact absurd ho (by simp [Orderly])

theorem events_good (evs : List Event) (s : St) (ho : ∀ ev ∈ evs, Orderly ev)
    (h : Tidy s ∧ UpToDate (fun k => k ≠ nameKey) s) :
    Tidy (events evs s) ∧ UpToDate (fun k => k ≠ nameKey) (events evs s) := by
  induction evs generalizing s with
  | nil => exact h
  | cons ev t ih =>
    exact ih _ (fun ev' h' => ho ev' (List.mem_cons_of_mem _ h')) (event_good s ev (ho ev (List.mem_cons_self ..)) h)

theorem base_names (n : Bytes) : Names n (base n) := by
  refine ⟨n.dropWhile (fun c => !(c == 0x2B || c == 0x20)), (List.takeWhile_append_dropWhile ..).symm, ?_, ?_⟩
  · intro c hc
    have : (!(c == 0x2B || c == 0x20)) = true := by
      have := List.all_takeWhile (p := fun c : UInt8 => !(c == 0x2B || c == 0x20)) (l := n)
      rw [List.all_eq_true] at this
      exact this c hc
    simpa using this
  · cases hd : n.dropWhile (fun c => !(c == 0x2B || c == 0x20)) with
    | nil => exact Or.inl rfl
    | cons c t =>
      right
      have := List.head?_dropWhile_not (p := fun c : UInt8 => !(c == 0x2B || c == 0x20)) (l := n)
      rw [hd] at this
      simp at this
      refine ⟨t, ?_⟩
      by_cases h1 : c = 0x2B
      · left; rw [h1]
      · right; rw [this h1]

theorem names_unique (n b b' : Bytes) (h : Names n b) (h' : Names n b') : b = b' := by
  obtain ⟨r, hn, hb, hr⟩ := h
  obtain ⟨r', hn', hb', hr'⟩ := h'
  subst hn
  induction b generalizing b' with
  | nil =>
    cases b' with
    | nil => rfl
    | cons c t =>
      have := hb' c (List.mem_cons_self ..)
      rcases hr with hr | ⟨u, hr | hr⟩
      · simp [hr] at hn'
      · rw [hr] at hn'; simp at hn'; exact absurd hn'.1.symm this.1
      · rw [hr] at hn'; simp at hn'; exact absurd hn'.1.symm this.2
  | cons c t ih =>
    cases b' with
    | nil =>
      have := hb c (List.mem_cons_self ..)
      rcases hr' with hr | ⟨u, hr | hr⟩
      · simp [hr] at hn'
      · rw [hr] at hn'; simp at hn'; exact absurd hn'.1 this.1
      · rw [hr] at hn'; simp at hn'; exact absurd hn'.1 this.2
    | cons c' t' =>
      simp only [List.cons_append, List.cons.injEq] at hn'
      have ht : t = t' := by
        apply ih
        · exact fun c hc => hb c (List.mem_cons_of_mem _ hc)
        · exact fun c hc => hb' c (List.mem_cons_of_mem _ hc)
        · exact hn'.2
      rw [hn'.1, ht]

end Verif.Streams
