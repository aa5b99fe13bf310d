import Verif.Streams.Inv

/-!
# What requests do to the configured streams
-/

namespace Verif.Streams
open Verif Verif.Streams.Spec

theorem lookup_touch (c : Conf) (k : Bytes) :
    (touch c).lookup k = if k = kSource ∧ has c kSource = false then some .null else c.lookup k := by
  unfold touch
  by_cases h : has c kSource = true
  · simp [h]
  · have h' : has c kSource = false := by simpa using h
    simp only [h', Bool.false_eq_true, if_false, lookup_put, and_true]

theorem nonNull_touch (c : Conf) (k : Bytes) : nonNull ((touch c).lookup k) = nonNull (c.lookup k) := by
  rw [lookup_touch]
  split
  · rename_i h
    have : c.lookup kSource = none := by
      have := h.2
      unfold has at this
      simpa using this
    rw [h.1, this]
    rfl
  · rfl

theorem nonNull_touchIf (c o : Conf) (k : Bytes) : nonNull ((touchIf c o).lookup k) = nonNull (c.lookup k) := by
  unfold touchIf
  split
  · exact nonNull_touch c k
  · rfl

theorem lookup_putAll (l c : Conf) (k : Bytes) :
    (putAll l c).lookup k = (l.reverse.lookup k).or (c.lookup k) := by
  induction l generalizing c with
  | nil => rfl
  | cons kv t ih =>
    obtain ⟨a, b⟩ := kv
    unfold putAll
    rw [ih, lookup_put]
    simp only [List.reverse_cons, List.lookup_append]
    by_cases hk : k = a
    · subst hk
      cases t.reverse.lookup k <;> simp [List.lookup_cons]
    · have hb : (k == a) = false := by simpa using hk
      cases t.reverse.lookup k <;> simp [List.lookup_cons, hb, hk]

theorem name_source : kName ≠ kSource := by decide

theorem sourceOf_stored (n : Bytes) (c : Conf) :
    (touch (put (removeNull c) kName (.str n))).lookup kSource = sourceOf c := by
  have hs : kSource ≠ ([] : Bytes) := by decide
  have h1 : (put (removeNull c) kName (.str n)).lookup kSource = nonNull (c.lookup kSource) := by
    rw [lookup_put, lookup_removeNull]
    simp [Ne.symm name_source, hs]
  rw [lookup_touch, h1]
  unfold sourceOf
  have hk : sourceKey = kSource := rfl
  rw [hk]
  have hh : has (put (removeNull c) kName (.str n)) kSource = (nonNull (c.lookup kSource)).isSome := by
    unfold has; rw [h1]
  rw [hh]
  cases c.lookup kSource with
  | none => simp [nonNull]
  | some v => cases v <;> simp [nonNull]

/-- What is stored on a request, after null members are removed. -/
theorem stored_taken (e : Env) (n : Bytes) (c c' : Conf) (hc : ∀ k, nonNull (c'.lookup k) = nonNull (c.lookup k)) :
    Taken e.hard n c (some (removeNull (stored e n c'))) := by
  have hs : sourceOf c' = sourceOf c := by
    have := hc kSource
    unfold sourceOf
    have hk : sourceKey = kSource := rfl
    rw [hk]
    cases h1 : c'.lookup kSource with
    | none =>
      rw [h1] at this
      cases h2 : c.lookup kSource with
      | none => rfl
      | some w => rw [h2] at this; cases w <;> simp_all [nonNull]
    | some v =>
      rw [h1] at this
      cases h2 : c.lookup kSource with
      | none => rw [h2] at this; cases v <;> simp_all [nonNull]
      | some w => rw [h2] at this; cases v <;> cases w <;> simp_all [nonNull]
  refine ⟨_, rfl, ?_⟩
  intro k hk v
  have hl : (removeNull (stored e n c')).lookup k
      = nonNull ((((e.hard (sourceOf c)).reverse).lookup k).or (if k = nameKey then some (.str n) else nonNull (c.lookup k))) := by
    rw [lookup_removeNull]
    simp only [hk, if_false]
    unfold stored checkParameters
    rw [lookup_putAll, sourceOf_stored, hs]
    cases ((e.hard (sourceOf c)).reverse).lookup k with
    | some h => rfl
    | none =>
      simp only [Option.none_or]
      rw [nonNull_touch, lookup_put, lookup_removeNull]
      simp only [hk, if_false]
      have hkn : nameKey = kName := rfl
      rw [hkn, hc k]
  rw [hl]
  cases ((e.hard (sourceOf c)).reverse).lookup k with
  | some h =>
    simp only [Option.some_or]
    cases h <;> simp [nonNull] <;> grind
  | none =>
    simp only [Option.none_or]
    by_cases hkn : k = nameKey
    · simp only [hkn, if_true, nonNull]
      grind
    · simp only [hkn, if_false]
      cases c.lookup k with
      | none => simp [nonNull]
      | some w => cases w <;> simp [nonNull] <;> grind

theorem sameOpt_refl (v : Option Val) : SameOpt (fun _ => True) v v := by
  cases v with
  | none => trivial
  | some v => cases v <;> simp [SameOpt, SameOn]

theorem sameOpt_has {v w : Option Val} {P} (h : SameOpt P v w) : v.isSome = w.isSome := by
  cases v <;> cases w <;> simp_all [SameOpt]

theorem streamsEqual_iff (a b : Conf) : streamsEqual a b = true ↔ SameConf a b := by
  unfold streamsEqual
  by_cases hh : has a kSource = has b kSource
  · have hb : (has a kSource != has b kSource) = false := by simp [hh]
    simp only [hb, Bool.false_eq_true, if_false]
    have key : SameConf (touchIf a b) (touchIf b a) ↔ SameConf a b := by
      unfold SameConf touchIf
      by_cases h0 : has a kSource = false
      · have h1 : has b kSource = false := by rw [← hh]; exact h0
        simp only [h0, h1, and_self, if_true, lookup_touch, and_true]
        have ha : a.lookup kSource = none := by unfold has at h0; simpa using h0
        have hb' : b.lookup kSource = none := by unfold has at h1; simpa using h1
        constructor
        · intro h k
          by_cases hk : k = kSource
          · rw [hk, ha, hb']; trivial
          · simpa [hk] using h k
        · intro h k
          by_cases hk : k = kSource
          · simp [hk, SameOpt, SameOn]
          · simpa [hk] using h k
      · have h1 : ¬ has b kSource = false := by rw [← hh]; exact h0
        have h2 : has a kSource = true := by simpa using h0
        simp only [h2, Bool.true_eq_false, false_and, and_false, if_false]
    constructor
    · intro h
      split at h
      · cases h
      · exact key.1 ((confEq_iff _ _).1 h)
    · intro h
      have h' := key.2 h
      have hs := (optEq_iff _ _).2 (h' kSource)
      simp only [hs, Bool.not_true, Bool.false_eq_true, if_false]
      exact (confEq_iff _ _).2 h'
  · have hb : (has a kSource != has b kSource) = true := by simpa using hh
    simp only [hb, if_true, Bool.false_eq_true, false_iff]
    intro h
    exact hh (sameOpt_has (h kSource))

theorem setStream_streams (s : St) (n m : Bytes) (c : Conf) :
    (setStream s n c).streams.lookup m = if m = n then some c else s.streams.lookup m := by
  unfold setStream
  rw [writeStream_streams]
  simp [lookup_put]

theorem addOne_other (e : Env) (s : St) (n m : Bytes) (c : Conf) (h : m ≠ n) :
    (addOne e s n c).streams.lookup m = s.streams.lookup m := by
  unfold addOne
  split
  · split
    · rw [setStream_streams]; simp [h]
    · split
      · simp [lookup_put, h]
      · rw [setStream_streams]; simp [h]
  · split
    · rfl
    · split
      · rfl
      · rw [setStream_streams]; simp [h]

theorem kept_touch (o c : Conf) : Kept (some o) (some (removeNull (touchIf o c))) := by
  intro k hk
  rw [lookup_removeNull]
  simp only [hk, if_false]
  exact nonNull_touchIf o c k

theorem kept_removeNull (o : Option Conf) : Kept o (o.map removeNull) := by
  cases o with
  | none => trivial
  | some o =>
    intro k hk
    rw [lookup_removeNull]
    simp [hk]

/-- One stream of the request. -/
theorem addOne_added (e : Env) (s : St) (n : Bytes) (c : Conf) :
    Added e n c (s.streams.lookup n) (((addOne e s n c).streams.lookup n).map removeNull) := by
  unfold addOne
  cases ho : s.streams.lookup n with
  | some o =>
    simp only [Added]
    by_cases he : streamsEqual c o = true
    · simp only [he, if_true, setStream_streams, Option.map_some]
      have hk := kept_touch o c
      split
      · exact hk
      · exact Or.inl ⟨(streamsEqual_iff c o).1 he, hk⟩
    · simp only [he]
      by_cases hr : e.refuse n c = true
      · simp only [hr, if_true, if_false, Bool.false_eq_true, lookup_put, Option.map_some]
        exact kept_touch o c
      · simp only [hr, if_false, Bool.false_eq_true, setStream_streams, if_true, Option.map_some]
        exact Or.inr ⟨fun h => he ((streamsEqual_iff c o).2 h), stored_taken e n c _ (nonNull_touchIf c o)⟩
  | none =>
    simp only [Added]
    by_cases hv : (Text.sanitizeName n != n || n.isEmpty) = true
    · simp only [hv, if_true, ho, Option.map_none]
      split
      · trivial
      · right
        refine ⟨?_, trivial⟩
        simp only [Bool.or_eq_true, bne_iff_ne, List.isEmpty_iff] at hv
        rcases hv with hv | hv
        · exact Or.inr hv
        · exact Or.inl hv
    · simp only [hv]
      by_cases hr : e.refuse n c = true
      · simp only [hr, if_true, if_false, Bool.false_eq_true, ho, Option.map_none]
      · simp only [hr, if_false, Bool.false_eq_true, setStream_streams, if_true, Option.map_some]
        simp only [Bool.or_eq_true, bne_iff_ne, List.isEmpty_iff, not_or, ne_eq, Decidable.not_not] at hv
        exact Or.inl ⟨hv.2, hv.1, stored_taken e n c c (fun _ => rfl)⟩

theorem addStreams_none (e : Env) (l : List (Bytes × Conf)) (s : St) (n : Bytes) (h : l.lookup n = none) :
    (addStreams e l s).streams.lookup n = s.streams.lookup n := by
  induction l generalizing s with
  | nil => rfl
  | cons nc t ih =>
    obtain ⟨a, c⟩ := nc
    have hne : n ≠ a := by intro he; simp [he] at h
    have hb : (n == a) = false := by simpa using hne
    simp only [List.lookup_cons, hb] at h
    unfold addStreams
    rw [ih _ h, addOne_other e s a n c hne]

theorem addStreams_some (e : Env) (l : List (Bytes × Conf)) (s : St) (n : Bytes) (c : Conf)
    (hd : (l.map (·.1)).Nodup) (h : l.lookup n = some c) :
    Added e n c (s.streams.lookup n) (((addStreams e l s).streams.lookup n).map removeNull) := by
  induction l generalizing s with
  | nil => simp at h
  | cons nc t ih =>
    obtain ⟨a, c0⟩ := nc
    simp only [List.map_cons, List.nodup_cons] at hd
    unfold addStreams
    by_cases hne : n = a
    · subst hne
      simp at h
      subst h
      have ht : t.lookup n = none := by
        cases ht : t.lookup n with
        | none => rfl
        | some v => exact absurd ((lookup_keys t n).2 ⟨v, ht⟩) hd.1
      rw [addStreams_none e t _ n ht]
      exact addOne_added e s n c0
    · have hb : (n == a) = false := by simpa using hne
      simp only [List.lookup_cons, hb] at h
      have := ih (addOne e s a c0) hd.2 h
      rw [addOne_other e s a n c0 hne] at this
      exact this

theorem deleteStream_streams (e : Env) (s : St) (n m : Bytes) :
    (deleteStream e s n).streams.lookup m = if m = n ∧ e.keep n = false then none else s.streams.lookup m := by
  unfold deleteStream
  by_cases hh : has s.streams n = true
  · simp only [hh, Bool.not_true, Bool.false_eq_true, if_false]
    cases hk : e.keep n with
    | true => simp
    | false => simp [dropPage, lookup_del]
  · have hh' : has s.streams n = false := by simpa using hh
    simp only [hh', Bool.not_false, if_true]
    have : s.streams.lookup n = none := by unfold has at hh'; simpa using hh'
    split
    · rename_i h; rw [h.1, this]
    · rfl

theorem deleteAll_streams (e : Env) (l : List Bytes) (s : St) (m : Bytes) :
    (deleteAll e l s).streams.lookup m = if m ∈ l ∧ e.keep m = false then none else s.streams.lookup m := by
  induction l generalizing s with
  | nil => simp [deleteAll]
  | cons n t ih =>
    unfold deleteAll
    rw [ih, deleteStream_streams]
    by_cases hm : m = n
    · subst hm
      cases e.keep m <;> simp
    · simp [hm]

theorem checkStreams_streams (e : Env) (req : List (Bytes × Conf)) (s : St) (m : Bytes) :
    (checkStreams e req s).streams.lookup m
      = if req.lookup m = none ∧ e.keep m = false then none else (addStreams e req s).streams.lookup m := by
  unfold checkStreams
  rw [deleteAll_streams]
  cases hr : req.lookup m with
  | some c =>
    have : m ∉ ((addStreams e req s).streams.map (·.1)).filter (fun n => !has req n) := by
      simp [has, hr]
    simp [this]
  | none =>
    cases hs : (addStreams e req s).streams.lookup m with
    | none => simp
    | some c =>
      have : m ∈ ((addStreams e req s).streams.map (·.1)).filter (fun n => !has req n) := by
        rw [List.mem_filter]
        exact ⟨(lookup_keys _ _).2 ⟨c, hs⟩, by simp [has, hr]⟩
      simp [this]

end Verif.Streams
