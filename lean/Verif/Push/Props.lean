import Verif.Push.Spec

/-!
# C79 and C80: who may push to a stream, and what stream keys mean
-/
namespace Verif.Push
open Spec Verif.Text

/-! ## Sources -/

theorem notPushable_iff (src : Bytes) : notPushable src = true ↔ (7 ≤ src.length ∧ src.take 7 ≠ pushPrefix) ∨ Reserved src := by
  unfold notPushable
  simp only [Bool.or_eq_true, Bool.and_eq_true, decide_eq_true_eq, ge_iff_le]
  refine or_congr Iff.rfl ?_
  constructor
  · intro h
    obtain ⟨n, hn⟩ := Option.isSome_iff_exists.1 h
    obtain ⟨_, ⟨t, ht⟩, _⟩ := findSub_some hn
    exact ⟨src.take n, t, by rw [List.append_assoc, ht, List.take_append_drop]⟩
  · rintro ⟨a, b, rfl⟩
    cases h : findSub internal (a ++ internal ++ b) with
    | some n => rfl
    | none =>
      exfalso
      refine findSub_none h a.length (by simp [internal]) ?_
      rw [List.append_assoc, List.drop_left]
      exact List.prefix_append _ _

theorem source_take {src host password : Bytes} (h : Source src host password) : src.take 7 = pushPrefix ∧ 7 ≤ src.length := by
  obtain ⟨_, ⟨h, _⟩ | h⟩ := h <;> subst h
  · exact ⟨by simp [pushPrefix], by simp [pushPrefix]⟩
  · exact ⟨by simp [pushPrefix], by simp [pushPrefix]⟩

/-- Everything that starts with `push://` is a source for pushes, of one host and password. -/
theorem source_exists {src : Bytes} (h : src.take 7 = pushPrefix) : ∃ host password, Source src host password := by
  have hs : src = pushPrefix ++ src.drop 7 := by rw [← h, List.take_append_drop]
  cases hf : findChar 64 (src.drop 7) with
  | none => exact ⟨src.drop 7, [], findChar_none.1 hf, Or.inl ⟨hs, rfl⟩⟩
  | some n =>
    obtain ⟨a, r, he, hn, _⟩ := findChar_some.1 hf
    refine ⟨a, r, hn, Or.inr ?_⟩
    rw [he] at hs
    rw [hs, List.append_assoc]

theorem hostOf_source {src host password : Bytes} (h : Source src host password) (given : Bytes) :
    hostOf (src.drop 7) given = if password ≠ [] ∧ given = password then [] else if password ≠ [] ∧ host = [] then denyAll else host := by
  obtain ⟨h1, ⟨h, hp⟩ | h⟩ := h
  · have hd : src.drop 7 = host := by rw [h]; simp [pushPrefix]
    unfold hostOf
    rw [hd, findChar_none.2 h1]
    simp [hp]
  · have hd : src.drop 7 = host ++ 64 :: password := by rw [h]; simp [pushPrefix]
    unfold hostOf
    rw [hd, findChar_append h1]
    have h2 : (host ++ 64 :: password).drop (host.length + 1) = password := by
      rw [show host ++ 64 :: password = (host ++ [64]) ++ password by simp]
      exact List.drop_left' (by simp)
    have h3 : (host ++ 64 :: password).take host.length = host := List.take_left' rfl
    simp only [h2, h3]
    by_cases hp : password = []
    · simp [hp]
    · by_cases hg : password = given
      · subst hg
        simp [hp]
      · have hg' : ¬ given = password := fun h => hg h.symm
        by_cases hh : host = []
        · simp [hp, hh, hg, hg']
        · simp [hp, hh, hg, hg']

/-! ## C79 -/

/-- A push by a name that is neither a key nor a token. -/
def ByName (w : World) (name : Bytes) : Prop := streamOf w.table name = none ∧ w.token name = none

/-- The name is a key or a token, for this stream. -/
def ByKey (w : World) (name stream : Bytes) : Prop :=
  streamOf w.table name = some stream ∨ (streamOf w.table name = none ∧ w.token name = some stream)

theorem push_name (w : World) (name given : Bytes) (h : ByName w name) : push w name given = allowPush w name given := by
  have hk : keyStream w name = none := by
    unfold keyStream
    rw [h.1]
    exact h.2
  unfold push checkStreamKey
  rw [hk]

theorem push_key (w : World) (name stream given : Bytes) (h : ByKey w name stream) :
    push w name given = if w.source (sanitizeName stream) = [] ∨ notPushable (w.source (sanitizeName stream)) = true ∨ sanitizeName stream = [] then .refused
      else .accepted (sanitizeName stream) := by
  have hk : keyStream w name = some stream := by
    unfold keyStream
    rcases h with h | ⟨h1, h2⟩
    · rw [h]
    · rw [h1]
      exact h2
  unfold push checkStreamKey
  rw [hk]
  simp only
  by_cases h1 : w.source (sanitizeName stream) = []
  · simp [h1]
  · by_cases h2 : notPushable (w.source (sanitizeName stream)) = true
    · simp [h1, h2]
    · by_cases h3 : sanitizeName stream = []
      · simp [h3]
      · simp [h1, h2, h3]

/-- C79, by name: a push to a stream for pushes is accepted exactly for those who may push there and if the trigger does not veto;
else it is refused. -/
theorem C79_name_partial (w : World) (name given host password : Bytes) (hn : ByName w name) (hsrc : Source (w.source (sanitizeName name)) host password)
    (hr : ¬ Reserved (w.source (sanitizeName name))) (hd : w.here denyAll = false) :
    (push w name given = .accepted (sanitizeName name) ↔ w.veto (sanitizeName name) = false ∧ May host password given w.here) ∧
    (push w name given = .accepted (sanitizeName name) ∨ push w name given = .refused) := by
  have hnp : notPushable (w.source (sanitizeName name)) = false := by
    cases h : notPushable (w.source (sanitizeName name)) with
    | false => rfl
    | true =>
      rcases (notPushable_iff _).1 h with h | h
      · exact absurd (source_take hsrc).1 h.2
      · exact absurd h hr
  have hne : w.source (sanitizeName name) ≠ [] := by
    intro h
    have := (source_take hsrc).2
    rw [h] at this
    simp at this
  have hlen : ¬ (w.source (sanitizeName name)).length < 7 := by
    have := (source_take hsrc).2
    omega
  have hall : push w name given = if w.veto (sanitizeName name) = true then .refused else
      if hostOf ((w.source (sanitizeName name)).drop 7) given ≠ [] ∧ w.here (hostOf ((w.source (sanitizeName name)).drop 7) given) = false then .refused else .accepted (sanitizeName name) := by
    rw [push_name w name given hn]
    unfold allowPush
    simp only [hne, if_false, hnp, Bool.false_eq_true, hlen]
  have hdn : denyAll ≠ [] := by decide
  rw [hall, hostOf_source hsrc]
  unfold May
  cases w.veto (sanitizeName name) with
  | true => simp
  | false =>
    by_cases h1 : password ≠ [] ∧ given = password
    · simp [h1]
    · by_cases h2 : password ≠ [] ∧ host = []
      · have : ¬ (given = password) := fun h => h1 ⟨h2.1, h⟩
        simp [h2, hd, hdn, this]
      · simp only [h1, h2, if_false, Bool.false_eq_true, false_or]
        by_cases h3 : host = []
        · have : password = [] := Classical.byContradiction fun h => h2 ⟨h, h3⟩
          simp [h3, this]
        · cases h4 : w.here host <;> simp [h3]

/-- C79, streams that are not for pushes: they are refused, by name and with any password. -/
theorem C79_other_partial (w : World) (name given : Bytes) (hn : ByName w name)
    (hsrc : w.source (sanitizeName name) = [] ∨ Reserved (w.source (sanitizeName name)) ∨
      (7 ≤ (w.source (sanitizeName name)).length ∧ ∀ host password, ¬ Source (w.source (sanitizeName name)) host password)) :
    push w name given = .refused := by
  rw [push_name w name given hn]
  unfold allowPush
  simp only
  by_cases h0 : w.source (sanitizeName name) = []
  · rw [if_pos h0]
  · rw [if_neg h0]
    have : notPushable (w.source (sanitizeName name)) = true := by
      rw [notPushable_iff]
      rcases hsrc with h | h | h
      · exact absurd h h0
      · exact Or.inr h
      · refine Or.inl ⟨h.1, fun ht => ?_⟩
        obtain ⟨host, password, hs⟩ := source_exists ht
        exact h.2 host password hs
    rw [if_pos this]

/-- C79, by key: a key or token opens the stream it is for, and no other, if it is for pushes; no password or host is asked for. -/
theorem C79_key_partial (w : World) (name given stream : Bytes) (hk : ByKey w name stream) (hne : sanitizeName stream ≠ [])
    (hlen : w.source (sanitizeName stream) = [] ∨ 7 ≤ (w.source (sanitizeName stream)).length) (st : Bytes) :
    push w name given = .accepted st ↔ st = sanitizeName stream ∧ (∃ host password, Source (w.source (sanitizeName stream)) host password) ∧
      ¬ Reserved (w.source (sanitizeName stream)) := by
  rw [push_key w name stream given hk]
  by_cases h0 : w.source (sanitizeName stream) = []
  · simp only [h0, true_or, if_true]
    constructor
    · intro h
      cases h
    · rintro ⟨_, ⟨host, password, hs⟩, _⟩
      have := (source_take hs).2
      simp at this
  · have hl : 7 ≤ (w.source (sanitizeName stream)).length := by
      rcases hlen with h | h
      · exact absurd h h0
      · exact h
    have hc : (w.source (sanitizeName stream) = [] ∨ notPushable (w.source (sanitizeName stream)) = true ∨ sanitizeName stream = []) ↔
        ((7 ≤ (w.source (sanitizeName stream)).length ∧ (w.source (sanitizeName stream)).take 7 ≠ pushPrefix) ∨ Reserved (w.source (sanitizeName stream))) := by
      rw [notPushable_iff]
      simp only [h0, hne, false_or, or_false]
    constructor
    · intro h
      split at h
      · cases h
      · rename_i hnp
        rw [hc, not_or, not_and] at hnp
        injection h with h
        exact ⟨h.symm, source_exists (Classical.byContradiction fun h => hnp.1 hl h), hnp.2⟩
    · rintro ⟨rfl, ⟨host, password, hs⟩, hr⟩
      rw [if_neg]
      rw [hc]
      rintro (h | h)
      · exact h.2 (source_take hs).1
      · exact hr h

/-- C79, nobody else: whatever is accepted was accepted by key or token for that stream, or under the name of that stream from one who
may push to it (with a stream whose source has at least seven bytes). -/
theorem C79_safe_partial (w : World) (name given st : Bytes) (hd : w.here denyAll = false) (hlen : 7 ≤ (w.source st).length)
    (h : push w name given = .accepted st) :
    (∃ host password, Source (w.source st) host password ∧ ((∃ s, ByKey w name s ∧ st = sanitizeName s) ∨
      (st = sanitizeName name ∧ w.veto st = false ∧ May host password given w.here))) ∧ ¬ Reserved (w.source st) := by
  by_cases hk : ∃ s, ByKey w name s
  · obtain ⟨s, hk⟩ := hk
    have h' := h
    rw [push_key w name s given hk] at h'
    split at h'
    · cases h'
    · rename_i hc
      injection h' with hst
      subst hst
      rw [not_or, not_or] at hc
      have := (C79_key_partial w name given s hk hc.2.2 (Or.inr hlen) _).1 h
      obtain ⟨_, ⟨host, password, hs⟩, hr⟩ := this
      exact ⟨⟨host, password, hs, Or.inl ⟨s, hk, rfl⟩⟩, hr⟩
  · have hn : ByName w name := by
      refine ⟨?_, ?_⟩
      · cases h1 : streamOf w.table name with
        | none => rfl
        | some s => exact absurd ⟨s, Or.inl h1⟩ hk
      · cases h1 : streamOf w.table name with
        | some s => exact absurd ⟨s, Or.inl h1⟩ hk
        | none =>
          cases h2 : w.token name with
          | none => rfl
          | some s => exact absurd ⟨s, Or.inr ⟨h1, h2⟩⟩ hk
    have hst : st = sanitizeName name := by
      have h' := h
      rw [push_name w name given hn] at h'
      unfold allowPush at h'
      simp only at h'
      split at h'
      · cases h'
      · split at h'
        · cases h'
        · split at h'
          · cases h'
          · split at h'
            · cases h'
            · split at h'
              · cases h'
              · injection h' with h'
                exact h'.symm
    subst hst
    by_cases hr : Reserved (w.source (sanitizeName name))
    · rw [C79_other_partial w name given hn (Or.inr (Or.inl hr))] at h
      cases h
    · by_cases ht : (w.source (sanitizeName name)).take 7 = pushPrefix
      · obtain ⟨host, password, hs⟩ := source_exists ht
        have := (C79_name_partial w name given host password hn hs hr hd).1.1 h
        exact ⟨⟨host, password, hs, Or.inr ⟨rfl, this⟩⟩, hr⟩
      · rw [C79_other_partial w name given hn (Or.inr (Or.inr ⟨hlen, fun host password hs => ht (source_take hs).1⟩))] at h
        cases h

/-- C79 fails for streams with a source of one to six bytes (a file `a.ts`): a push by name ends the process; a push by key is
accepted. -/
theorem C79_short_fails (w : World) (name given : Bytes) (hn : ByName w name) (h1 : w.source (sanitizeName name) ≠ []) (h2 : (w.source (sanitizeName name)).length < 7) :
    push w name given = .died := by
  rw [push_name w name given hn]
  have hnp : notPushable (w.source (sanitizeName name)) = false := by
    cases h : notPushable (w.source (sanitizeName name)) with
    | false => rfl
    | true =>
      rcases (notPushable_iff _).1 h with h | ⟨a, b, h⟩
      · omega
      · rw [h] at h2
        simp [internal] at h2
        omega
  unfold allowPush
  simp [h1, h2, hnp]

theorem C79_short_key_fails (w : World) (name given stream : Bytes) (hk : ByKey w name stream) (hne : sanitizeName stream ≠ [])
    (h1 : w.source (sanitizeName stream) ≠ []) (h2 : (w.source (sanitizeName stream)).length < 7) :
    push w name given = .accepted (sanitizeName stream) ∧ ∀ host password, ¬ Source (w.source (sanitizeName stream)) host password := by
  refine ⟨?_, fun host password hs => ?_⟩
  · rw [push_key w name stream given hk, if_neg]
    rw [not_or, not_or]
    refine ⟨h1, fun h => ?_, hne⟩
    rcases (notPushable_iff _).1 h with h | ⟨a, b, h⟩
    · omega
    · rw [h] at h2
      simp [internal] at h2
      omega
  · have := (source_take hs).2
    omega

/-! ## C80 -/

theorem lookup_put (k v x : Bytes) (ks : Keys) : (put k v ks).lookup x = if x = k then some v else ks.lookup x := by
  induction ks with
  | nil =>
    simp only [put, List.lookup]
    by_cases h : x = k
    · simp [h]
    · have : (x == k) = false := by simp [h]
      simp [h, this]
  | cons p ks ih =>
    obtain ⟨a, b⟩ := p
    simp only [put]
    by_cases h1 : a = k
    · rw [if_pos h1]
      simp only [List.lookup]
      by_cases h : x = k
      · simp [h]
      · have : (x == k) = false := by simp [h]
        simp [h, h1, this]
    · rw [if_neg h1]
      by_cases h2 : less k a = true
      · rw [if_pos h2]
        by_cases h : x = k
        · subst h
          simp
        · rw [if_neg h]
          have : (x == k) = false := by simp [h]
          rw [List.lookup_cons, this]
      · rw [if_neg h2, List.lookup_cons, List.lookup_cons, ih]
        by_cases h : x = a
        · subst h
          simp [h1]
        · have : (x == a) = false := by simp [h]
          simp [this]

theorem lookup_drop (k x : Bytes) (ks : Keys) : (drop k ks).lookup x = if x = k then none else ks.lookup x := by
  induction ks with
  | nil => simp [drop]
  | cons p ks ih =>
    obtain ⟨a, b⟩ := p
    have hd : drop k ((a, b) :: ks) = if a = k then drop k ks else (a, b) :: drop k ks := by
      unfold drop
      by_cases h : a = k
      · simp [h]
      · simp [h]
    rw [hd]
    by_cases h1 : a = k
    · rw [if_pos h1, ih]
      by_cases h : x = k
      · simp [h]
      · have : (x == a) = false := by simp [h1, h]
        simp [h, List.lookup_cons, this]
    · rw [if_neg h1, List.lookup_cons, List.lookup_cons, ih]
      by_cases h : x = k
      · have : (x == a) = false := by simp [h, Ne.symm h1]
        simp only [this, if_pos h]
      · simp [h]

/-- The keys in the storage mean what they should. -/
def Right (ks : Keys) (m : Meaning) : Prop := ∀ x, ks.lookup x = m x

theorem Right.put {ks : Keys} {m : Meaning} (h : Right ks m) (k v : Bytes) : Right (put k v ks) (m.set k (some v)) := by
  intro x
  rw [lookup_put]
  unfold Meaning.set
  split
  · rfl
  · exact h x

theorem Right.drop {ks : Keys} {m : Meaning} (h : Right ks m) (k : Bytes) : Right (drop k ks) (m.set k none) := by
  intro x
  rw [lookup_drop]
  unfold Meaning.set
  split
  · rfl
  · exact h x

theorem Right.fold {α : Type} {ks : Keys} {m : Meaning} (h : Right ks m) (f : Keys → α → Keys) (g : Meaning → α → Meaning)
    (hfg : ∀ ks m a, Right ks m → Right (f ks a) (g m a)) (l : List α) : Right (l.foldl f ks) (l.foldl g m) := by
  induction l generalizing ks m with
  | nil => exact h
  | cons a l ih => exact ih (hfg ks m a h)

theorem Right.setAll {ks : Keys} {m : Meaning} (h : Right ks m) (r : Option (List Item)) : Right (setAll ks r) (m.replaced r) := by
  cases r with
  | none => exact h
  | some l =>
    refine Right.fold (fun x => rfl) _ _ ?_ l
    intro ks m a h
    split
    · exact h.put _ _
    · exact h

theorem Right.delete {ks : Keys} {m : Meaning} (h : Right ks m) (r : Option Del) : Right (delete ks r) (m.deleted r) := by
  cases r with
  | none => exact h
  | some d =>
    cases d with
    | object l =>
      refine Right.fold h _ _ ?_ l
      intro ks m a h
      have ha := h a.name
      by_cases hc : m a.name = some a.text
      · rw [if_pos hc, if_pos (ha.trans hc)]
        exact h.drop _
      · rw [if_neg hc, if_neg (fun e => hc (ha.symm.trans e))]
        exact h
    | array l =>
      refine Right.fold h _ _ ?_ l
      intro ks m a h
      split
      · exact h.drop _
      · exact h
    | string s => exact h.drop s

theorem Right.addAll {ks : Keys} {m : Meaning} (h : Right ks m) (r : Option (List Item)) : Right (addAll ks r) (m.added r) := by
  cases r with
  | none => exact h
  | some l =>
    refine Right.fold h _ _ ?_ l
    intro ks m a h
    by_cases hs : a.isString = true
    · by_cases hl : ks.lookup a.name = some a.text
      · simp only [hs, hl, ne_eq, not_true_eq_false, decide_false, Bool.and_false, Bool.false_eq_true, if_false, if_true]
        intro x
        show _ = if x = a.name then some a.text else m x
        split
        · rename_i hx
          rw [hx, hl]
        · exact h x
      · simp only [hs, hl, ne_eq, not_false_eq_true, decide_true, Bool.and_true, if_true]
        exact h.put _ _
    · simp only [hs, Bool.false_and, Bool.false_eq_true, if_false]
      exact h

theorem Right.edit {ks : Keys} {m : Meaning} (h : Right ks m) (r : Request) : Right (edit ks r) (after m r) := ((h.setAll r.all).delete r.del).addAll r.add

theorem right_run (history : List Request) : Right (history.foldl edit []) (meaning history) :=
  Right.fold (fun _ => rfl) _ _ (fun _ _ r h => h.edit r) history

/-! The order of the keys -/

theorem less_irrefl (a : Bytes) : less a a = false := by
  induction a with
  | nil => rfl
  | cons x a ih => simp [less, ih]

theorem less_trans {a b c : Bytes} (h1 : less a b = true) (h2 : less b c = true) : less a c = true := by
  induction a generalizing b c with
  | nil =>
    cases c with
    | nil => cases b <;> simp [less] at h2
    | cons => rfl
  | cons x a ih =>
    cases b with
    | nil => simp [less] at h1
    | cons y b =>
      cases c with
      | nil => simp [less] at h2
      | cons z c =>
        simp only [less] at h1 h2 ⊢
        by_cases hxy : x < y
        · by_cases hyz : y < z
          · rw [if_pos (UInt8.lt_trans hxy hyz)]
          · rw [if_neg hyz] at h2
            by_cases hzy : z < y
            · rw [if_pos hzy] at h2; cases h2
            · have : y = z := by
                have h1 := UInt8.not_lt.1 hyz
                have h2 := UInt8.not_lt.1 hzy
                exact UInt8.le_antisymm h2 h1
              subst this
              rw [if_pos hxy]
        · rw [if_neg hxy] at h1
          by_cases hyx : y < x
          · rw [if_pos hyx] at h1; cases h1
          · rw [if_neg hyx] at h1
            have : x = y := UInt8.le_antisymm (UInt8.not_lt.1 hyx) (UInt8.not_lt.1 hxy)
            subst this
            by_cases hxz : x < z
            · rw [if_pos hxz]
            · rw [if_neg hxz] at h2 ⊢
              by_cases hzx : z < x
              · rw [if_pos hzx] at h2; cases h2
              · rw [if_neg hzx] at h2 ⊢
                exact ih h1 h2

theorem less_total {a b : Bytes} (h1 : less a b = false) (h2 : a ≠ b) : less b a = true := by
  induction a generalizing b with
  | nil =>
    cases b with
    | nil => exact absurd rfl h2
    | cons => simp [less] at h1
  | cons x a ih =>
    cases b with
    | nil => rfl
    | cons y b =>
      simp only [less] at h1 ⊢
      by_cases hxy : x < y
      · rw [if_pos hxy] at h1; cases h1
      · rw [if_neg hxy] at h1
        by_cases hyx : y < x
        · rw [if_pos hyx]
        · rw [if_neg hyx] at h1 ⊢
          rw [if_neg hxy]
          have : x = y := UInt8.le_antisymm (UInt8.not_lt.1 hyx) (UInt8.not_lt.1 hxy)
          subst this
          exact ih h1 (fun h => h2 (by rw [h]))

/-- The keys are in order. -/
def Sorted (ks : Keys) : Prop := List.Pairwise (fun x y => less x.1 y.1 = true) ks

theorem put_mem {k v : Bytes} {ks : Keys} {x : Bytes × Bytes} (h : x ∈ put k v ks) : x = (k, v) ∨ x ∈ ks := by
  induction ks with
  | nil => simp [put] at h; exact Or.inl h
  | cons p ks ih =>
    obtain ⟨a, b⟩ := p
    simp only [put] at h
    split at h
    · rcases List.mem_cons.1 h with h | h
      · exact Or.inl h
      · exact Or.inr (List.mem_cons_of_mem _ h)
    · split at h
      · rcases List.mem_cons.1 h with h | h
        · exact Or.inl h
        · exact Or.inr h
      · rcases List.mem_cons.1 h with h | h
        · exact Or.inr (by rw [h]; exact List.mem_cons_self)
        · rcases ih h with h | h
          · exact Or.inl h
          · exact Or.inr (List.mem_cons_of_mem _ h)

theorem Sorted.put {ks : Keys} (h : Sorted ks) (k v : Bytes) : Sorted (put k v ks) := by
  induction ks with
  | nil => exact List.pairwise_singleton _ _
  | cons p ks ih =>
    obtain ⟨a, b⟩ := p
    unfold Sorted at h
    rw [List.pairwise_cons] at h
    simp only [Verif.Push.put]
    by_cases h1 : a = k
    · rw [if_pos h1]
      subst h1
      exact List.pairwise_cons.2 h
    · rw [if_neg h1]
      by_cases h2 : less k a = true
      · rw [if_pos h2]
        refine List.pairwise_cons.2 ⟨?_, List.pairwise_cons.2 h⟩
        intro x hx
        rcases List.mem_cons.1 hx with hx | hx
        · rw [hx]; exact h2
        · exact less_trans h2 (h.1 x hx)
      · rw [if_neg h2]
        refine List.pairwise_cons.2 ⟨?_, ih h.2⟩
        intro x hx
        rcases put_mem hx with hx | hx
        · rw [hx]
          exact less_total (by simpa using h2) (Ne.symm h1)
        · exact h.1 x hx

theorem Sorted.drop {ks : Keys} (h : Sorted ks) (k : Bytes) : Sorted (drop k ks) := List.Pairwise.filter _ h

theorem Sorted.fold {α : Type} {ks : Keys} (h : Sorted ks) (f : Keys → α → Keys) (hf : ∀ ks a, Sorted ks → Sorted (f ks a)) (l : List α) : Sorted (l.foldl f ks) := by
  induction l generalizing ks with
  | nil => exact h
  | cons a l ih => exact ih (hf ks a h)

theorem Sorted.edit {ks : Keys} (h : Sorted ks) (r : Request) : Sorted (edit ks r) := by
  unfold Verif.Push.edit
  have h1 : Sorted (setAll ks r.all) := by
    cases r.all with
    | none => exact h
    | some l =>
      refine Sorted.fold List.Pairwise.nil _ (fun ks a h => ?_) l
      split
      · exact h.put _ _
      · exact h
  have h2 : Sorted (delete (setAll ks r.all) r.del) := by
    cases r.del with
    | none => exact h1
    | some d =>
      cases d with
      | object l =>
        refine Sorted.fold h1 _ (fun ks a h => ?_) l
        split
        · exact h.drop _
        · exact h
      | array l =>
        refine Sorted.fold h1 _ (fun ks a h => ?_) l
        split
        · exact h.drop _
        · exact h
      | string s => exact h1.drop s
  cases r.add with
  | none => exact h2
  | some l =>
    refine Sorted.fold h2 _ (fun ks a h => ?_) l
    split
    · exact h.put _ _
    · exact h

theorem sorted_run (history : List Request) : Sorted (history.foldl edit []) := Sorted.fold List.Pairwise.nil _ (fun _ r h => h.edit r) history

theorem Sorted.nodup {ks : Keys} (h : Sorted ks) : (ks.map (·.1)).Nodup := by
  rw [List.nodup_iff_pairwise_ne, List.pairwise_map]
  refine List.Pairwise.imp (fun {x y} hxy he => ?_) h
  rw [he, less_irrefl] at hxy
  cases hxy

theorem lookup_mem {ks : Keys} (h : Sorted ks) {k v : Bytes} : (k, v) ∈ ks ↔ ks.lookup k = some v := by
  induction ks with
  | nil => simp
  | cons p ks ih =>
    obtain ⟨a, b⟩ := p
    unfold Sorted at h
    rw [List.pairwise_cons] at h
    rw [List.lookup_cons]
    by_cases hk : k = a
    · subst hk
      simp only [beq_self_eq_true, List.mem_cons, Prod.mk.injEq, true_and, Option.some.injEq]
      constructor
      · rintro (h1 | h1)
        · exact h1.symm
        · have := h.1 _ h1
          rw [less_irrefl] at this
          cases this
      · intro h1
        exact Or.inl h1.symm
    · have : (k == a) = false := by simp [hk]
      rw [this]
      simp only [List.mem_cons, Prod.mk.injEq, hk, false_and, false_or]
      exact ih h.2

theorem subset_length {α : Type} [DecidableEq α] {l m : List α} (h : l.Nodup) (hs : ∀ x ∈ l, x ∈ m) : l.length ≤ m.length := by
  induction l generalizing m with
  | nil => exact Nat.zero_le _
  | cons a l ih =>
    rw [List.nodup_cons] at h
    have ha := hs a List.mem_cons_self
    have := ih (m := m.erase a) h.2 (fun x hx => by
      have hne : x ≠ a := fun e => h.1 (e ▸ hx)
      exact (List.mem_erase_of_ne hne).2 (hs x (List.mem_cons_of_mem _ hx)))
    rw [List.length_erase_of_mem ha] at this
    have hp : 0 < m.length := List.length_pos_of_mem ha
    simp only [List.length_cons]
    omega

theorem takeWhile_all {p : UInt8 → Bool} {s : Bytes} (h : ∀ x ∈ s, p x = true) : s.takeWhile p = s := by
  induction s with
  | nil => rfl
  | cons a s ih => rw [List.takeWhile_cons, h a List.mem_cons_self, if_pos rfl, ih (fun x hx => h x (List.mem_cons_of_mem _ hx))]

theorem field_fits {n : Nat} {s : Bytes} (h : Fits n s) : field n s = s := by
  unfold field
  rw [List.take_of_length_le (by have := h.1; omega)]
  apply takeWhile_all
  intro x hx
  have : x ≠ 0 := fun e => h.2 (e ▸ hx)
  simpa using this

/-- Reading the table, when all keys fit. -/
theorem streamOf_fits (ks : Keys) (hf : ∀ x ∈ ks, Fits 256 x.1 ∧ Fits 128 x.2) (name : Bytes) :
    streamOf (ks.map fun x => (field 256 x.1, field 128 x.2)) name = ks.lookup name := by
  induction ks with
  | nil => rfl
  | cons p ks ih =>
    have hp := hf p List.mem_cons_self
    have := ih (fun x hx => hf x (List.mem_cons_of_mem _ hx))
    obtain ⟨a, b⟩ := p
    unfold streamOf at this ⊢
    rw [List.map_cons, List.find?_cons, field_fits hp.1, field_fits hp.2, List.lookup_cons]
    by_cases h : name = a
    · simp [h]
    · have h2 : (name == a) = false := by simp [h]
      simp only [h, decide_false, h2]
      exact this

theorem capacity_eq : capacity = 2730 := by decide

/-- C80: a key opens the stream it was last set to, until it is deleted or replaced, and nothing else is a key; as long as there
are at most 2730 keys of at most 255 bytes for streams with names of at most 127 bytes, all without zeroes. -/
theorem C80_partial (history : List Request) (l : List Bytes) (hlen : l.length ≤ 2730) (hl : ∀ k, meaning history k ≠ none → k ∈ l)
    (hf : ∀ k v, meaning history k = some v → Fits 256 k ∧ Fits 128 v) (name : Bytes) :
    streamOf (page (history.foldl edit [])) name = meaning history name := by
  have hr := right_run history
  have hs := sorted_run history
  generalize history.foldl edit [] = ks at hr hs
  have hmem : ∀ x ∈ ks, meaning history x.1 = some x.2 := by
    intro x hx
    rw [← hr x.1]
    exact (lookup_mem hs).1 hx
  have hcap : ks.length ≤ capacity := by
    rw [capacity_eq]
    have := subset_length (m := l) hs.nodup (fun k hk => by
      obtain ⟨x, hx, rfl⟩ := List.mem_map.1 hk
      exact hl _ (by rw [hmem x hx]; simp))
    rw [List.length_map] at this
    omega
  unfold page
  rw [List.take_of_length_le hcap, streamOf_fits ks (fun x hx => hf x.1 x.2 (hmem x hx)), hr]

/-- C80 fails for more than 2730 keys: some of them open nothing. -/
theorem C80_many_fails (history : List Request) (l : List Bytes) (hnd : l.Nodup) (hlen : 2730 < l.length) (hl : ∀ k ∈ l, meaning history k ≠ none)
    (hf : ∀ k v, meaning history k = some v → Fits 256 k ∧ Fits 128 v) :
    ∃ k ∈ l, meaning history k ≠ none ∧ streamOf (page (history.foldl edit [])) k = none := by
  have hr := right_run history
  have hs := sorted_run history
  generalize history.foldl edit [] = ks at hr hs
  have hmem : ∀ x ∈ ks, meaning history x.1 = some x.2 := by
    intro x hx
    rw [← hr x.1]
    exact (lookup_mem hs).1 hx
  apply Classical.byContradiction
  intro hno
  have hall : ∀ k ∈ l, k ∈ (ks.take capacity).map (·.1) := by
    intro k hk
    have hne := hl k hk
    have h1 : streamOf (page ks) k ≠ none := fun h => hno ⟨k, hk, hne, h⟩
    unfold page at h1
    rw [streamOf_fits (ks.take capacity) (fun x hx => hf x.1 x.2 (hmem x (List.mem_of_mem_take hx)))] at h1
    cases h2 : (ks.take capacity).lookup k with
    | none => exact absurd h2 h1
    | some v =>
      have hs' : Sorted (ks.take capacity) := List.Pairwise.sublist (List.take_sublist _ _) hs
      exact List.mem_map.2 ⟨(k, v), (lookup_mem hs').2 h2, rfl⟩
  have := subset_length hnd hall
  rw [List.length_map, List.length_take, capacity_eq] at this
  omega

/-- C80 fails for long keys: a key of 256 bytes or more does not open its stream, and everybody who knows its first 255 bytes can
open it. -/
theorem C80_long_fails (k v : Bytes) (hk : 255 < k.length) (h0 : 0 ∉ k) (hv : Fits 128 v) :
    let table := page ([⟨none, none, some [⟨k, v, true⟩]⟩].foldl edit [])
    meaning [⟨none, none, some [⟨k, v, true⟩]⟩] k = some v ∧ streamOf table k = none ∧
    meaning [⟨none, none, some [⟨k, v, true⟩]⟩] (k.take 255) = none ∧ streamOf table (k.take 255) = some v := by
  intro table
  have hkf : field 256 k = k.take 255 := by
    unfold field
    apply takeWhile_all
    intro x hx
    have : x ≠ 0 := fun e => h0 (e ▸ List.mem_of_mem_take hx)
    simpa using this
  have ht : table = [(k.take 255, v)] := by
    show page [(k, v)] = _
    unfold page
    rw [List.take_of_length_le (by rw [capacity_eq]; simp)]
    simp [hkf, field_fits hv]
  have hne : k ≠ k.take 255 := by
    intro h
    have := congrArg List.length h
    rw [List.length_take] at this
    omega
  refine ⟨by simp [meaning, after, Meaning.set, Meaning.replaced, Meaning.deleted, Meaning.added], ?_, by simp [meaning, after, Meaning.set, Meaning.replaced, Meaning.deleted, Meaning.added, Ne.symm hne], ?_⟩
  · rw [ht]
    simp [streamOf, hne]
  · rw [ht]
    simp [streamOf]

/-- C80 fails for long names of streams: the key opens another stream, the one with the first 127 bytes of the name. -/
theorem C80_stream_fails (k v : Bytes) (hk : Fits 256 k) (hv : 127 < v.length) (h0 : 0 ∉ v) :
    streamOf (page ([⟨none, none, some [⟨k, v, true⟩]⟩].foldl edit [])) k = some (v.take 127) ∧ v.take 127 ≠ v := by
  have hvf : field 128 v = v.take 127 := by
    unfold field
    apply takeWhile_all
    intro x hx
    have : x ≠ 0 := fun e => h0 (e ▸ List.mem_of_mem_take hx)
    simpa using this
  refine ⟨?_, ?_⟩
  · show streamOf (page [(k, v)]) k = _
    unfold page
    rw [List.take_of_length_le (by rw [capacity_eq]; simp)]
    simp [hvf, field_fits hk, streamOf]
  · intro h
    have := congrArg List.length h
    rw [List.length_take] at this
    omega

/-! ## Not empty -/

/-- "a": a stream for everyone; "b": for the host "h" or the password "p"; "c": a file. -/
private def world : World where
  table := page (edit [] ⟨some [⟨[107], [98], true⟩, ⟨[108], [99], true⟩, ⟨[109], [97], false⟩], none, none⟩)
  token := fun _ => none
  source := fun s => if s = [97] then pushPrefix else if s = [98] then pushPrefix ++ [104, 64, 112] else if s = [99] then [47, 97, 46, 109, 112, 52, 47, 120] else
    if s = [100] then [97, 46, 116, 115] else []
  veto := fun _ => false
  here := fun _ => false

example : push world [65] [] = .accepted [97] ∧ push world [98] [] = .refused ∧ push world [98] [112] = .accepted [98] ∧ push world [99] [] = .refused ∧
    push { world with here := fun h => h == [104] } [98] [] = .accepted [98] ∧ push { world with veto := fun _ => true } [97] [] = .refused ∧
    push world [107] [] = .accepted [98] ∧ push world [108] [] = .refused ∧ push world [109] [] = .refused ∧ push world [100] [] = .died := by decide +kernel

example : Source (world.source [98]) [104] [112] ∧ ¬ Reserved (world.source [98]) ∧ ByName world [98] ∧ ByKey world [107] [98] := by
  refine ⟨⟨by decide, Or.inr rfl⟩, ?_, ⟨by decide +kernel, rfl⟩, Or.inl (by decide +kernel)⟩
  intro h
  have := (notPushable_iff _).2 (Or.inr h)
  revert this
  decide +kernel

/-- Keys come and go. -/
example : let h : List Request := [⟨none, none, some [⟨[1], [2], true⟩, ⟨[3], [4], true⟩, ⟨[5], [6], false⟩]⟩, ⟨none, some (.object [⟨[1], [9], true⟩, ⟨[3], [4], true⟩]), some [⟨[7], [8], true⟩]⟩,
      ⟨none, some (.array [([7], false)]), none⟩]
    [[1], [3], [5], [7]].map (meaning h) = [some [2], none, none, some [8]] ∧ [[1], [3], [5], [7]].map (streamOf (page (h.foldl edit []))) = [some [2], none, none, some [8]] := by decide +kernel

example : meaning [⟨none, none, some [⟨List.replicate 300 65, [97], true⟩]⟩] (List.replicate 300 65) = some [97] :=
  (C80_long_fails (List.replicate 300 65) [97] (by rw [List.length_replicate]; decide) (fun h => absurd (List.eq_of_mem_replicate h) (by decide)) ⟨by decide, by decide⟩).1

end Verif.Push
