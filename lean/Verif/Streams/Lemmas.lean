import Verif.Streams.Spec

/-!
# Lemmas about maps and the writing of pages
-/

namespace Verif.Streams
open Verif Verif.Streams.Spec

theorem lookup_filter (p : Bytes → Bool) (m : List (Bytes × α)) (k : Bytes) :
    (m.filter (fun kv => p kv.1)).lookup k = if p k then m.lookup k else none := by
  induction m with
  | nil => simp
  | cons kv t ih =>
    obtain ⟨a, b⟩ := kv
    by_cases hk : k = a
    · subst hk
      by_cases hp : p k = true
      · simp [List.filter_cons, hp, List.lookup_cons]
      · simp [List.filter_cons, hp, List.lookup_cons, ih]
    · have hb : (k == a) = false := by simpa using hk
      by_cases hp : p a = true
      · simp [List.filter_cons, hp, List.lookup_cons, hb, ih]
      · simp [List.filter_cons, hp, List.lookup_cons, hb, ih]

theorem lookup_del (m : List (Bytes × α)) (a k : Bytes) : (del m a).lookup k = if k = a then none else m.lookup k := by
  unfold del
  rw [lookup_filter (fun x => x != a)]
  by_cases h : k = a <;> simp [h]

theorem lookup_put (m : List (Bytes × α)) (a k : Bytes) (v : α) :
    (put m a v).lookup k = if k = a then some v else m.lookup k := by
  unfold put
  rw [List.lookup_cons]
  by_cases h : k = a
  · simp [h]
  · have hb : (k == a) = false := by simpa using h
    simp [hb, lookup_del, h]

theorem lookup_mapv (f : Bytes → α → β) (m : List (Bytes × α)) (k : Bytes) :
    (m.map (fun e => (e.1, f e.1 e.2))).lookup k = (m.lookup k).map (f k) := by
  induction m with
  | nil => simp
  | cons kv t ih =>
    obtain ⟨a, b⟩ := kv
    by_cases hk : k = a
    · subst hk; simp [List.lookup_cons]
    · have hb : (k == a) = false := by simpa using hk
      simp [List.lookup_cons, hb, ih]

theorem lookup_keys (m : List (Bytes × α)) (k : Bytes) : k ∈ m.map (·.1) ↔ ∃ v, m.lookup k = some v := by
  induction m with
  | nil => simp
  | cons kv t ih =>
    obtain ⟨a, b⟩ := kv
    by_cases hk : k = a
    · subst hk; simp [List.lookup_cons]
    · have hb : (k == a) = false := by simpa using hk
      simp only [List.map_cons, List.mem_cons, List.lookup_cons, hb, hk, false_or, ih]

theorem lookup_mem {m : List (Bytes × α)} {k : Bytes} {v : α} (h : m.lookup k = some v) : (k, v) ∈ m := by
  induction m with
  | nil => simp at h
  | cons kv t ih =>
    obtain ⟨a, b⟩ := kv
    by_cases hk : k = a
    · subst hk
      simp [List.lookup_cons] at h
      simp [h]
    · have hb : (k == a) = false := by simpa using hk
      simp only [List.lookup_cons, hb] at h
      exact List.mem_cons_of_mem _ (ih h)

theorem has_iff (m : List (Bytes × α)) (k : Bytes) : has m k = true ↔ ∃ v, m.lookup k = some v := by
  unfold has
  exact Option.isSome_iff_exists

theorem told_iff (k : Bytes) : Told k ↔ skip k = false := by
  unfold Told skip kOnline kError kLsp
  simp only [Bool.or_eq_false_iff, beq_eq_false_iff_ne, and_assoc, ne_eq]

theorem lost_iff (k : Bytes) : Lost k ↔ unsaved k = true := by
  unfold Lost unsaved kOnline kError kLog
  simp only [Bool.or_eq_true, beq_iff_eq, or_assoc]

/-- A check over the keys of both maps is a check over all keys, when it holds of absent ones. -/
theorem all_keys {α β : Type} (a : List (Bytes × α)) (b : List (Bytes × α)) (f : Bytes → Option α → Option α → Bool)
    (hn : ∀ k, f k none none = true) :
    (a ++ b).all (fun kv => f kv.1 (a.lookup kv.1) (b.lookup kv.1)) = true ↔ ∀ k, f k (a.lookup k) (b.lookup k) = true := by
  rw [List.all_eq_true]
  constructor
  · intro h k
    cases ha : a.lookup k with
    | some v =>
      have := h _ (List.mem_append.2 (Or.inl (lookup_mem ha)))
      simp only [ha] at this
      exact this
    | none =>
      cases hb : b.lookup k with
      | none => exact hn k
      | some v =>
        have := h _ (List.mem_append.2 (Or.inr (lookup_mem hb)))
        simp only [ha, hb] at this
        exact this
  · intro h kv _
    exact h kv.1

theorem objEq_iff (m m' : List (Bytes × Bytes)) : objEq m m' = true ↔ ∀ k, m.lookup k = m'.lookup k := by
  unfold objEq
  rw [all_keys (β := Bytes) m m' (fun _ x y => x == y) (by simp)]
  simp

theorem valEq_iff (v w : Val) : valEq v w = true ↔ SameOn (fun _ => True) v w := by
  cases v <;> cases w <;> simp [valEq, SameOn, objEq_iff]

theorem optEq_iff (v w : Option Val) : optEq v w = true ↔ SameOpt (fun _ => True) v w := by
  cases v <;> cases w <;> simp [optEq, SameOpt, valEq_iff]

theorem confEq_iff (a b : Conf) : confEq a b = true ↔ SameConf a b := by
  unfold confEq SameConf
  rw [all_keys (β := Bytes) a b (fun _ x y => optEq x y) (by simp [optEq])]
  simp only [optEq_iff]

theorem cmpConf_iff (a b : Conf) : cmpConf a b = true ↔ ∀ k, Told k → cmpOpt (a.lookup k) (b.lookup k) = true := by
  unfold cmpConf
  rw [all_keys (β := Bytes) a b (fun k x y => skip k || cmpOpt x y) (by simp [cmpOpt])]
  constructor
  · intro h k hk
    have := h k
    rw [(told_iff k).1 hk] at this
    simpa using this
  · intro h k
    cases hs : skip k with
    | true => rfl
    | false => simpa using h k ((told_iff k).2 hs)

theorem cmpObj_iff (m m' : List (Bytes × Bytes)) :
    (m ++ m').all (fun kv => skip kv.1 || m.lookup kv.1 == m'.lookup kv.1) = true ↔ ∀ k, Told k → m.lookup k = m'.lookup k := by
  rw [all_keys (β := Bytes) m m' (fun k x y => skip k || x == y) (by simp)]
  constructor
  · intro h k hk
    have := h k
    rw [(told_iff k).1 hk] at this
    simpa using this
  · intro h k
    cases hs : skip k with
    | true => rfl
    | false => simpa using h k ((told_iff k).2 hs)

theorem allSkip_iff (m : List (Bytes × Bytes)) : m.all (fun kv => skip kv.1) = true ↔ ∀ k, Told k → m.lookup k = none := by
  have h := cmpObj_iff m []
  simp only [List.append_nil, List.lookup_nil] at h
  rw [← h, List.all_eq_true, List.all_eq_true]
  constructor
  · intro h' kv hkv
    simp [h' kv hkv]
  · intro h' kv hkv
    have := h' kv hkv
    simp only [Bool.or_eq_true] at this
    rcases this with h1 | h1
    · exact h1
    · have hm : kv.1 ∈ m.map (·.1) := List.mem_map_of_mem hkv
      obtain ⟨v, hv⟩ := (lookup_keys m kv.1).1 hm
      rw [hv] at h1
      simp at h1

/-- What `compareExcept` takes as equal agrees, but for hollow values. -/
theorem cmp_agrees {v w : Option Val} (h : cmpOpt v w = true) : AgreesNearly v w := by
  cases v with
  | none => cases w with
    | none => exact Or.inl trivial
    | some w => simp [cmpOpt] at h
  | some v => cases w with
    | none => simp [cmpOpt] at h
    | some w =>
      unfold cmpOpt at h
      cases v with
      | null => left; cases w <;> simp_all [cmpVal, valEq, Agrees, SameOpt, SameOn]
      | str t => left; cases w <;> simp_all [cmpVal, valEq, Agrees, SameOpt, SameOn]
      | num t => left; cases w <;> simp_all [cmpVal, valEq, Agrees, SameOpt, SameOn]
      | arr l =>
        cases w with
        | arr l' => left; simp_all [cmpVal, Agrees, SameOpt, SameOn]
        | obj m =>
          right
          simp only [cmpVal, Bool.and_eq_true, List.isEmpty_iff] at h
          exact ⟨_, _, rfl, rfl, h.1, by rw [h.2]; intro k _; rfl⟩
        | null => right; simp only [cmpVal, List.isEmpty_iff] at h; exact ⟨_, _, rfl, rfl, h, trivial⟩
        | str t => right; simp only [cmpVal, List.isEmpty_iff] at h; exact ⟨_, _, rfl, rfl, h, trivial⟩
        | num t => right; simp only [cmpVal, List.isEmpty_iff] at h; exact ⟨_, _, rfl, rfl, h, trivial⟩
      | obj m =>
        cases w with
        | obj m' => left; exact (cmpObj_iff m m').1 h
        | arr l =>
          right
          simp only [cmpVal, Bool.and_eq_true, List.isEmpty_iff] at h
          exact ⟨_, _, rfl, rfl, (allSkip_iff m).1 h.1, h.2⟩
        | null => right; exact ⟨_, _, rfl, rfl, (allSkip_iff m).1 h, trivial⟩
        | str t => right; exact ⟨_, _, rfl, rfl, (allSkip_iff m).1 h, trivial⟩
        | num t => right; exact ⟨_, _, rfl, rfl, (allSkip_iff m).1 h, trivial⟩

theorem lookup_strip (c : Conf) (k : Bytes) : (strip c).lookup k = if skip k then none else (c.lookup k).map stripVal := by
  unfold strip
  rw [lookup_mapv (fun _ v => stripVal v), lookup_filter (fun k => !skip k)]
  cases skip k <;> simp

theorem strip_agrees (c : Conf) (k : Bytes) (hk : Told k) : Agrees ((strip c).lookup k) (c.lookup k) := by
  rw [lookup_strip, (told_iff k).1 hk]
  simp only [Bool.false_eq_true, if_false]
  cases c.lookup k with
  | none => trivial
  | some v =>
    cases v with
    | obj m =>
      simp only [Option.map_some, stripVal, Agrees, SameOpt, SameOn]
      intro k' hk'
      rw [lookup_filter (fun k => !skip k), (told_iff k').1 hk']
      rfl
    | _ => simp [stripVal, Agrees, SameOpt, SameOn]

/-- All that others are told of a stream agrees. -/
def AllAgree (p c : Conf) : Prop := ∀ k, Told k → AgreesNearly (p.lookup k) (c.lookup k)

theorem writeStream_streams (s : St) (n : Bytes) (c : Conf) : (writeStream s n c).streams = s.streams := by
  unfold writeStream writePage
  split
  · rfl
  · split <;> rfl

/-- After writing a stream the copy agrees. -/
theorem writeStream_agree (s : St) (n : Bytes) (c : Conf) :
    ∃ p, (writeStream s n c).written.lookup n = some p ∧ AllAgree p c := by
  have hp : ∃ p, (writePage s n c).written.lookup n = some p ∧ AllAgree p c :=
    ⟨strip c, by simp [writePage, lookup_put], fun k hk => Or.inl (strip_agrees c k hk)⟩
  unfold writeStream
  split
  · exact hp
  · rename_i w hw
    split
    · rename_i hc
      exact ⟨w, hw, fun k hk => cmp_agrees ((cmpConf_iff w c).1 hc k hk)⟩
    · exact hp

theorem writeStream_other (s : St) (n m : Bytes) (c : Conf) (h : m ≠ n) :
    (writeStream s n c).written.lookup m = s.written.lookup m ∧ (writeStream s n c).pages.lookup m = s.pages.lookup m := by
  have hp : (writePage s n c).written.lookup m = s.written.lookup m ∧ (writePage s n c).pages.lookup m = s.pages.lookup m := by
    simp [writePage, lookup_put, h]
  unfold writeStream
  split
  · exact hp
  · split
    · exact ⟨rfl, rfl⟩
    · exact hp

/-- If the copy and the page are the same, they are so after writing; and if there was no copy. -/
theorem writeStream_copy (s : St) (n : Bytes) (c : Conf)
    (h : s.written.lookup n = s.pages.lookup n ∨ s.written.lookup n = none) :
    (writeStream s n c).written.lookup n = (writeStream s n c).pages.lookup n := by
  have hp : (writePage s n c).written.lookup n = (writePage s n c).pages.lookup n := by simp [writePage, lookup_put]
  unfold writeStream
  split
  · exact hp
  · rename_i w hw
    split
    · rcases h with h | h
      · exact h
      · rw [h] at hw; cases hw
    · exact hp

theorem writeAll_streams (l : List Bytes) (s : St) : (writeAll l s).streams = s.streams := by
  induction l generalizing s with
  | nil => rfl
  | cons n t ih =>
    unfold writeAll
    split
    · exact ih s
    · rw [ih, writeStream_streams]

theorem writeAll_other (l : List Bytes) (s : St) (m : Bytes) (h : s.streams.lookup m = none) :
    (writeAll l s).written.lookup m = s.written.lookup m ∧ (writeAll l s).pages.lookup m = s.pages.lookup m := by
  induction l generalizing s with
  | nil => exact ⟨rfl, rfl⟩
  | cons n t ih =>
    unfold writeAll
    split
    · exact ih s h
    · rename_i c hc
      have hne : m ≠ n := by intro he; rw [he, hc] at h; cases h
      have h1 := ih (writeStream s n c) (by rw [writeStream_streams]; exact h)
      have h2 := writeStream_other s n m c hne
      exact ⟨h1.1.trans h2.1, h1.2.trans h2.2⟩

theorem writeAll_copy (l : List Bytes) (s : St) (m : Bytes) (c : Conf) (h : s.streams.lookup m = some c)
    (hw : s.written.lookup m = s.pages.lookup m ∨ (s.written.lookup m = none ∧ m ∈ l)) :
    (writeAll l s).written.lookup m = (writeAll l s).pages.lookup m := by
  induction l generalizing s with
  | nil =>
    rcases hw with hw | hw
    · exact hw
    · exact absurd hw.2 (by simp)
  | cons n t ih =>
    unfold writeAll
    by_cases hn : m = n
    · subst hn
      rw [h]
      refine ih _ (by rw [writeStream_streams]; exact h) (Or.inl (writeStream_copy s m c ?_))
      rcases hw with hw | hw
      · exact Or.inl hw
      · exact Or.inr hw.1
    · have hw' : s.written.lookup m = s.pages.lookup m ∨ (s.written.lookup m = none ∧ m ∈ t) := by
        rcases hw with hw | hw
        · exact Or.inl hw
        · exact Or.inr ⟨hw.1, by simpa [hn] using hw.2⟩
      split
      · exact ih s h hw'
      · rename_i c' hc'
        have h2 := writeStream_other s n m c' hn
        exact ih _ (by rw [writeStream_streams]; exact h) (by rw [h2.1, h2.2]; exact hw')

theorem writeAll_agree (l : List Bytes) (s : St) (m : Bytes) (c : Conf) (h : s.streams.lookup m = some c)
    (hw : (∃ p, s.written.lookup m = some p ∧ AllAgree p c) ∨ m ∈ l) :
    ∃ p, (writeAll l s).written.lookup m = some p ∧ AllAgree p c := by
  induction l generalizing s with
  | nil =>
    rcases hw with hw | hw
    · exact hw
    · exact absurd hw (by simp)
  | cons n t ih =>
    unfold writeAll
    by_cases hn : m = n
    · subst hn
      rw [h]
      exact ih _ (by rw [writeStream_streams]; exact h) (Or.inl (writeStream_agree s m c))
    · have hw' : (∃ p, s.written.lookup m = some p ∧ AllAgree p c) ∨ m ∈ t := by
        rcases hw with hw | hw
        · exact Or.inl hw
        · exact Or.inr (by simpa [hn] using hw)
      split
      · exact ih s h hw'
      · rename_i c' hc'
        have h2 := writeStream_other s n m c' hn
        exact ih _ (by rw [writeStream_streams]; exact h) (by rw [h2.1]; exact hw')

theorem writeConfig_streams (s : St) (n : Bytes) : (writeConfig s).streams.lookup n = (s.streams.lookup n).map removeNull := by
  unfold writeConfig
  rw [writeAll_streams]
  exact lookup_mapv (fun _ c => removeNull c) s.streams n

/-- `writeConfig` brings the page of a configured stream up to date. -/
theorem writeConfig_page (s : St) (n : Bytes) (c : Conf) (h : s.streams.lookup n = some c)
    (hw : s.written.lookup n = s.pages.lookup n ∨ s.written.lookup n = none) :
    ∃ p, (writeConfig s).written.lookup n = some p ∧ (writeConfig s).pages.lookup n = some p ∧ AllAgree p (removeNull c) := by
  have hl : (s.streams.map (fun e => (e.1, removeNull e.2))).lookup n = some (removeNull c) := by
    rw [lookup_mapv (fun _ c => removeNull c) s.streams n, h]; rfl
  have hm : n ∈ s.streams.map (·.1) := (lookup_keys _ _).2 ⟨c, h⟩
  obtain ⟨p, hp, ha⟩ := writeAll_agree (s.streams.map (·.1)) { s with streams := s.streams.map (fun e => (e.1, removeNull e.2)) } n _ hl (Or.inr hm)
  have hc := writeAll_copy (s.streams.map (·.1)) { s with streams := s.streams.map (fun e => (e.1, removeNull e.2)) } n _ hl
    (by rcases hw with hw | hw
        · exact Or.inl hw
        · exact Or.inr ⟨hw, hm⟩)
  exact ⟨p, hp, by unfold writeConfig; rw [← hc]; exact hp, ha⟩

theorem writeConfig_none (s : St) (n : Bytes) (h : s.streams.lookup n = none) :
    (writeConfig s).written.lookup n = s.written.lookup n ∧ (writeConfig s).pages.lookup n = s.pages.lookup n := by
  unfold writeConfig
  exact writeAll_other _ _ n (by rw [lookup_mapv (fun _ c => removeNull c) s.streams n, h]; rfl)

end Verif.Streams
