import Verif.Conn.Spec

namespace Verif.Conn
open Verif Verif.Json

/-! ## The map -/

theorem insertConn_mem (t : Bytes) (p : Nat) (l : List (Bytes × Nat)) (e : Bytes × Nat) : e ∈ insertConn t p l ↔ e = (t, p) ∨ e ∈ l := by
  induction l with
  | nil => simp [insertConn]
  | cons x l ih =>
    simp only [insertConn]
    split
    · simp
    · simp only [List.mem_cons, ih]; grind

theorem insertConn_filter (t : Bytes) (p : Nat) (keep : Bytes → Bool) (ht : keep t = true) (l : List (Bytes × Nat)) :
    (insertConn t p l).filter (fun e => !keep e.1) = l.filter (fun e => !keep e.1) := by
  induction l with
  | nil => simp [insertConn, ht]
  | cons x l ih =>
    simp only [insertConn]
    split
    · simp [List.filter_cons, ht]
    · simp only [List.filter_cons, ih]

theorem putConn_mem (t : Bytes) (p : Nat) (cur : List (Bytes × Nat)) (t' : Bytes) (p' : Nat) :
    (t', p') ∈ putConn t p cur ↔ (t' = t ∧ p' = p) ∨ (t' ≠ t ∧ (t', p') ∈ cur) := by
  unfold putConn
  split
  · next h =>
    simp only [List.any_eq_true, decide_eq_true_eq] at h
    obtain ⟨x, hx, hxt⟩ := h
    simp only [List.mem_map]
    constructor
    · rintro ⟨y, hy, he⟩
      split at he
      · left; cases he; exact ⟨rfl, rfl⟩
      · right; subst he; exact ⟨by assumption, hy⟩
    · rintro (⟨rfl, rfl⟩ | ⟨h1, h2⟩)
      · exact ⟨x, hx, by rw [if_pos hxt]⟩
      · exact ⟨_, h2, by rw [if_neg h1]⟩
  · next h =>
    simp only [List.any_eq_true, decide_eq_true_eq, not_exists, not_and] at h
    rw [insertConn_mem]
    constructor
    · rintro (he | he)
      · left; cases he; exact ⟨rfl, rfl⟩
      · exact Or.inr ⟨fun c => h _ he c, he⟩
    · rintro (⟨rfl, rfl⟩ | ⟨_, h2⟩)
      · exact Or.inl rfl
      · exact Or.inr h2

theorem map_filter (t : Bytes) (p : Nat) (keep : Bytes → Bool) (ht : keep t = true) (l : List (Bytes × Nat)) :
    (l.map fun e => if e.1 = t then (t, p) else e).filter (fun e => !keep e.1) = l.filter (fun e => !keep e.1) := by
  induction l with
  | nil => rfl
  | cons x l ih =>
    simp only [List.map_cons, List.filter_cons, ih]
    by_cases h : x.1 = t
    · simp [h, ht]
    · simp [h]

theorem putConn_filter (t : Bytes) (p : Nat) (keep : Bytes → Bool) (ht : keep t = true) (l : List (Bytes × Nat)) :
    (putConn t p l).filter (fun e => !keep e.1) = l.filter (fun e => !keep e.1) := by
  unfold putConn
  split
  · exact map_filter t p keep ht l
  · exact insertConn_filter t p keep ht l

theorem pidOf_some {cur : List (Bytes × Nat)} {t : Bytes} {p : Nat} (h : pidOf cur t = some p) : (t, p) ∈ cur := by
  unfold pidOf at h
  cases hf : cur.find? (·.1 = t) with
  | none => rw [hf] at h; cases h
  | some e =>
    rw [hf] at h
    have h1 := List.mem_of_find?_eq_some hf
    have h2 := List.find?_some hf
    simp only [decide_eq_true_eq] at h2
    have h3 : e.2 = p := Option.some.inj h
    rw [← h2, ← h3]; exact h1

theorem pidOf_mem {cur : List (Bytes × Nat)} {t : Bytes} {p : Nat} (h : (t, p) ∈ cur) : ∃ p', pidOf cur t = some p' := by
  unfold pidOf
  cases hf : cur.find? (·.1 = t) with
  | none => rw [List.find?_eq_none] at hf; have := hf _ h; simp at this
  | some e => exact ⟨e.2, rfl⟩

/-! ## Whether a map is one -/

/-- Each text and each number is there once. -/
structure Map (cur : List (Bytes × Nat)) : Prop where
  fn : ∀ t p p', (t, p) ∈ cur → (t, p') ∈ cur → p = p'
  inj : ∀ t t' p, (t, p) ∈ cur → (t', p) ∈ cur → t = t'
  short : ∀ e ∈ cur, e.1 ≠ [] ∧ e.1.length ≤ 511

theorem Map.put {cur : List (Bytes × Nat)} (h : Map cur) (t : Bytes) (p : Nat) (ht : t ≠ [] ∧ t.length ≤ 511) (hp : ∀ t', (t', p) ∈ cur → t' = t) : Map (putConn t p cur) where
  fn := by
    intro a x y hx hy
    rw [putConn_mem] at hx hy
    have := h.fn a x y
    grind
  inj := by
    intro a b x hx hy
    rw [putConn_mem] at hx hy
    have := h.inj a b x
    grind
  short := by
    rintro ⟨a, x⟩ hx
    rw [putConn_mem] at hx
    rcases hx with ⟨rfl, rfl⟩ | ⟨_, hx⟩
    · exact ht
    · exact h.short _ hx

theorem Map.sub {cur cur' : List (Bytes × Nat)} (h : Map cur) (hs : ∀ e ∈ cur', e ∈ cur) : Map cur' where
  fn := fun t p p' h1 h2 => h.fn t p p' (hs _ h1) (hs _ h2)
  inj := fun t t' p h1 h2 => h.inj t t' p (hs _ h1) (hs _ h2)
  short := fun e he => h.short e (hs e he)

theorem saved_eq {cur : List (Bytes × Nat)} (h : Map cur) : saved cur = cur := by
  unfold saved
  have : ∀ e ∈ cur, (e.1.take 511, e.2) = e := by
    intro e he
    rw [List.take_of_length_le (h.short e he).2]
  rw [List.map_congr_left this, List.map_id']

theorem load_go (page : List (Bytes × Nat)) (cur : List (Bytes × Nat)) (h : Map (cur ++ page)) (e : Bytes × Nat) :
    e ∈ page.foldl (fun cur e => if e.1 = [] then cur else putConn e.1 e.2 cur) cur ↔ e ∈ cur ∨ e ∈ page := by
  induction page generalizing cur with
  | nil => simp
  | cons x l ih =>
    have hx := (h.short x (by simp)).1
    have hm : ∀ y : Bytes × Nat, y ∈ putConn x.1 x.2 cur ↔ y = x ∨ y ∈ cur := by
      rintro ⟨a, n⟩
      rw [putConn_mem]
      constructor
      · rintro (⟨rfl, rfl⟩ | ⟨_, h2⟩)
        · exact Or.inl rfl
        · exact Or.inr h2
      · rintro (h1 | h1)
        · left; subst h1; exact ⟨rfl, rfl⟩
        · by_cases ha : a = x.1
          · left; subst ha; exact ⟨rfl, h.fn x.1 _ _ (by simp [h1]) (by simp)⟩
          · exact Or.inr ⟨ha, h1⟩
    rw [List.foldl_cons, if_neg hx, ih]
    · rw [hm, List.mem_cons]; grind
    · apply h.sub
      intro y hy
      rw [List.mem_append, hm] at hy
      simp only [List.mem_append, List.mem_cons]; grind

theorem load_mem {page : List (Bytes × Nat)} (h : Map page) (e : Bytes × Nat) : e ∈ load page ↔ e ∈ page := by
  unfold load
  rw [load_go page [] (by simpa using h)]
  simp

/-! ## The set of texts -/

theorem insertText_mem (t : Bytes) (l : List Bytes) (x : Bytes) : x ∈ insertText t l ↔ x = t ∨ x ∈ l := by
  induction l with
  | nil => simp [insertText]
  | cons y l ih =>
    simp only [insertText]
    split
    · next h => subst h; simp
    · split
      · simp
      · simp only [List.mem_cons, ih]; grind

theorem keyLt_irrefl (a : Bytes) : keyLt a a = false := by
  induction a with
  | nil => rfl
  | cons x l ih => simp [keyLt, ih]

theorem keyLt_trans (a b c : Bytes) (h1 : keyLt a b = true) (h2 : keyLt b c = true) : keyLt a c = true := by
  induction a generalizing b c with
  | nil =>
    cases b with
    | nil => simp [keyLt] at h1
    | cons y b =>
      cases c with
      | nil => simp [keyLt] at h2
      | cons z c => rfl
  | cons x a ih =>
    cases b with
    | nil => simp [keyLt] at h1
    | cons y b =>
      cases c with
      | nil => simp [keyLt] at h2
      | cons z c =>
        simp only [keyLt] at h1 h2 ⊢
        split at h1 <;> split at h2 <;> (try split at h1) <;> (try split at h2) <;> split <;> (try split) <;> (first | rfl | (exfalso; omega) | skip)
        all_goals first | (simp at h1; done) | (simp at h2; done) | skip
        all_goals exact ih b c h1 h2

theorem keyLt_total (a b : Bytes) (h : a ≠ b) : keyLt a b = true ∨ keyLt b a = true := by
  induction a generalizing b with
  | nil =>
    cases b with
    | nil => exact absurd rfl h
    | cons y b => exact Or.inl rfl
  | cons x a ih =>
    cases b with
    | nil => exact Or.inr rfl
    | cons y b =>
      simp only [keyLt]
      by_cases h1 : x.toNat < y.toNat
      · simp [h1]
      · by_cases h2 : y.toNat < x.toNat
        · simp [h2]
        · have hxy : x = y := UInt8.toNat_inj.1 (by omega)
          subst hxy
          simp only [h1, if_false]
          exact ih b (fun c => h (by rw [c]))

theorem insertText_sorted (t : Bytes) (l : List Bytes) (h : l.Pairwise (fun a b => keyLt a b = true)) : (insertText t l).Pairwise (fun a b => keyLt a b = true) := by
  induction l with
  | nil => simp [insertText]
  | cons x l ih =>
    rw [List.pairwise_cons] at h
    simp only [insertText]
    split
    · exact List.pairwise_cons.2 h
    · next hne =>
      split
      · next hlt =>
        refine List.pairwise_cons.2 ⟨?_, List.pairwise_cons.2 h⟩
        intro y hy
        rcases List.mem_cons.1 hy with rfl | hy
        · exact hlt
        · exact keyLt_trans _ _ _ hlt (h.1 y hy)
      · next hlt =>
        refine List.pairwise_cons.2 ⟨?_, ih h.2⟩
        intro y hy
        rcases (insertText_mem t l y).1 hy with rfl | hy
        · rcases keyLt_total _ _ hne with h1 | h1
          · exact absurd h1 hlt
          · exact h1
        · exact h.1 y hy

theorem wanted_sorted (caps : List Cap) (entries : List Entry) (acc : List Bytes) (h : acc.Pairwise (fun a b => keyLt a b = true)) :
    (wanted caps entries acc).Pairwise (fun a b => keyLt a b = true) := by
  induction entries generalizing acc with
  | nil => exact h
  | cons e l ih =>
    simp only [wanted]
    split
    · exact ih _ (insertText_sorted _ _ h)
    · exact ih _ h

theorem wanted_nodup (caps : List Cap) (entries : List Entry) : (wanted caps entries []).Nodup := by
  refine (wanted_sorted caps entries [] List.Pairwise.nil).imp ?_
  intro a b h c
  subst c
  rw [keyLt_irrefl] at h; cases h

theorem wanted_mem (caps : List Cap) (entries : List Entry) (acc : List Bytes) (t : Bytes) :
    t ∈ wanted caps entries acc ↔ t ∈ acc ∨ ∃ e ∈ entries, e.text = t ∧ refusal caps e = none := by
  induction entries generalizing acc with
  | nil => simp [wanted]
  | cons e l ih =>
    simp only [wanted]
    split
    · next h => rw [ih, insertText_mem]; simp only [List.mem_cons, exists_eq_or_imp]; grind
    · next h => rw [ih]; simp only [List.mem_cons, exists_eq_or_imp]; grind

/-! ## Decisions -/

theorem find_key {α β : Type} [DecidableEq α] {l : List (α × β)} (h : (l.map (·.1)).Nodup) {k : α} {v : β} (hm : (k, v) ∈ l) :
    l.find? (fun x => decide (x.1 = k)) = some (k, v) := by
  induction l with
  | nil => cases hm
  | cons x l ih =>
    simp only [List.map_cons, List.nodup_cons] at h
    rw [List.find?_cons]
    rcases List.mem_cons.1 hm with h1 | h1
    · subst h1; simp
    · have : x.1 ≠ k := fun c => h.1 (List.mem_map.2 ⟨_, h1, c.symm⟩)
      simp [this, ih h.2 h1]

theorem find_cap {l : List Cap} (h : (l.map (·.name)).Nodup) {c : Cap} (hm : c ∈ l) : l.find? (·.name = c.name) = some c := by
  induction l with
  | nil => cases hm
  | cons x l ih =>
    simp only [List.map_cons, List.nodup_cons] at h
    rw [List.find?_cons]
    rcases List.mem_cons.1 hm with h1 | h1
    · subst h1; simp
    · have : x.name ≠ c.name := fun d => h.1 (List.mem_map.2 ⟨_, h1, d.symm⟩)
      simp [this, ih h.2 h1]

theorem lacks_iff {e : Entry} (h : (e.params.map (·.1)).Nodup) (r : Bytes) : lacks e r = false ↔ Gives e r := by
  unfold lacks Gives
  constructor
  · intro hl
    cases hf : e.params.find? (fun x => decide (x.1 = r)) with
    | none => simp [hf] at hl
    | some x =>
      have h1 := List.mem_of_find?_eq_some hf
      have h2 := List.find?_some hf
      simp only [decide_eq_true_eq] at h2
      obtain ⟨k, v⟩ := x
      simp only at h2
      subst h2
      cases v with
      | null => simp [hf] at hl
      | other => simp [hf] at hl
      | str s => simp [hf] at hl; exact Or.inl ⟨s, hl, h1⟩
      | arr l =>
        simp [hf] at hl
        cases l with
        | nil => simp at hl
        | cons b l => simp at hl; subst hl; exact Or.inr ⟨l, h1⟩
  · rintro (⟨s, hs, hm⟩ | ⟨l, hm⟩)
    · rw [find_key h hm]; simpa using hs
    · rw [find_key h hm]; simp

theorem refusal_iff {caps : List Cap} {e : Entry} (hc : (caps.map (·.name)).Nodup) (he : (e.params.map (·.1)).Nodup) : refusal caps e = none ↔ Listener caps e := by
  unfold refusal Listener
  cases hn : e.connector with
  | none => simp
  | some n =>
    simp only []
    by_cases h0 : n = []
    · subst h0
      simp only [if_true]
      constructor
      · intro h; cases h
      · rintro ⟨c, _, h1, h2, _⟩; exact absurd (Option.some.inj h1).symm h2
    · rw [if_neg h0]
      cases hf : caps.find? (·.name = n) with
      | none =>
        simp only []
        constructor
        · intro h; cases h
        · rintro ⟨c, hm, h1, _⟩
          have h1 : n = c.name := Option.some.inj h1
          rw [h1, find_cap hc hm] at hf; cases hf
      | some c =>
        have h1 := List.mem_of_find?_eq_some hf
        have h2 := List.find?_some hf
        simp only [decide_eq_true_eq] at h2
        have key : (∃ c' ∈ caps, some n = some c'.name ∧ c'.name ≠ [] ∧ Listens c' ∧ ∀ r ∈ c'.required, Gives e r) ↔ (Listens c ∧ ∀ r ∈ c.required, Gives e r) := by
          constructor
          · rintro ⟨d, hd, h3, _, h4⟩
            have h3 : n = d.name := Option.some.inj h3
            have := find_cap hc hd
            rw [← h3, hf] at this
            have h5 : c = d := Option.some.inj this
            subst h5; exact h4
          · intro h; exact ⟨c, h1, by rw [h2], by rw [h2]; exact h0, h⟩
        rw [key]
        simp only []
        have hl : c.required.any (lacks e) = false ↔ ∀ r ∈ c.required, Gives e r := by
          rw [List.any_eq_false]
          constructor
          · intro h r hr; have := h r hr; simp only [Bool.not_eq_true] at this; exact (lacks_iff he r).1 this
          · intro h r hr; simp only [Bool.not_eq_true]; exact (lacks_iff he r).2 (h r hr)
        rw [← hl]
        unfold Listens
        cases c.pushOnly <;> cases c.socket <;> cases c.provides <;> cases c.required.any (lacks e) <;> by_cases hd : c.deps = some sHttp <;> simp [hd]

theorem wanted_iff {caps : List Cap} {entries : List Entry} (hN : Named caps entries) (t : Bytes) : t ∈ wanted caps entries [] ↔ Wanted caps entries t := by
  rw [wanted_mem]
  unfold Wanted
  constructor
  · rintro (h | ⟨e, he, h1, h2⟩)
    · cases h
    · exact ⟨e, he, h1, (refusal_iff hN.1 (hN.2 e he)).1 h2⟩
  · rintro ⟨e, he, h1, h2⟩
    exact Or.inr ⟨e, he, h1, (refusal_iff hN.1 (hN.2 e he)).2 h2⟩

end Verif.Conn
