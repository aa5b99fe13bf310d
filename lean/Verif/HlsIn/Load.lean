import Verif.HlsIn.Lemmas

/-!
# Lemmas about loading playlists
-/

namespace Verif.HlsIn
open Verif Spec

/-- Keys that are stored are those that were downloaded. -/
def KeysOk (e : Env) (keys : List (Bytes × Bytes)) : Prop :=
  ∀ u k, keys.lookup u = some k → if u = [] then k = [] else k = e.fetch u

/-- The entry of a segment. -/
def toEntry (e : Env) (g : Seg) : Entry :=
  { num := g.num + 1, url := e.link g.uri, rel := g.uri, dur := g.dur, start := (g.range.getD (0, 0)).1,
    stop := (g.range.getD (0, 0)).2, key := g.key.map (fun k => (e.fetch k.2, k.1)) }

/-- The range of bytes noted so far. -/
def RangeIs (l : Loc) : Option (Nat × Nat) → Prop
  | none => l.start = none ∧ l.len = 0
  | some (a, b) => l.start = some a ∧ 0 < l.len ∧ b = a + l.len

/-- The key noted so far. -/
def KeyIs (e : Env) (p : Pls) (l : Loc) : Option (Bytes × Bytes) → Prop
  | none => l.uri = [] ∧ l.iv = []
  | some (iv, u) => l.uri = u ∧ u ≠ [] ∧ l.iv ≠ [] ∧ parseKey 16 l.iv = iv ∧ iv ≠ [] ∧ p.keys.lookup u = some (e.fetch u)
      ∧ (e.fetch u).length = 16

theorem lookup_cons_self (k : Bytes) (v : Bytes) (t : List (Bytes × Bytes)) : List.lookup k ((k, v) :: t) = some v := by
  simp [List.lookup]

theorem lookup_cons_ne {a k : Bytes} (v : Bytes) (t : List (Bytes × Bytes)) (h : a ≠ k) :
    List.lookup a ((k, v) :: t) = List.lookup a t := by
  have : (a == k) = false := by simpa using h
  simp [List.lookup, this]

theorem addKey_ok (e : Env) {keys : List (Bytes × Bytes)} (h : KeysOk e keys) {uri : Bytes} (hu : uri ≠ [])
    (hf : (e.fetch uri).length = 16) : KeysOk e (addKey e keys uri) ∧ (addKey e keys uri).lookup uri = some (e.fetch uri) := by
  unfold addKey
  cases hl : keys.lookup uri with
  | some k =>
    simp only [Option.isSome_some, if_true]
    refine ⟨h, ?_⟩
    have := h uri k hl
    rw [if_neg hu] at this
    rw [hl, this]
  | none =>
    have hne : e.fetch uri ≠ [] := by intro h0; rw [h0] at hf; simp at hf
    simp only [Option.isSome_none, Bool.false_eq_true, if_false]
    rw [if_neg hne]
    refine ⟨?_, lookup_cons_self _ _ _⟩
    intro u k hk
    by_cases he : u = uri
    · subst he
      rw [lookup_cons_self] at hk
      rw [if_neg hu]
      exact (Option.some.inj hk).symm
    · rw [lookup_cons_ne _ _ he] at hk
      exact h u k hk

theorem touchKey_ok (e : Env) {p : Pls} {l : Loc} {key : Option (Bytes × Bytes)} (h : KeysOk e p.keys) (hk : KeyIs e p l key) :
    KeysOk e (touchKey p.keys l.uri) ∧ ∀ (q : Pls) (m : Loc), q.keys = touchKey p.keys l.uri → m.uri = l.uri → m.iv = l.iv →
      KeyIs e q m key := by
  cases key with
  | none =>
    obtain ⟨h1, h2⟩ := hk
    refine ⟨?_, fun q m hq hm hi => ⟨hm.trans h1, hi.trans h2⟩⟩
    unfold touchKey
    rw [h1]
    cases hl : p.keys.lookup [] with
    | some k => simpa using h
    | none =>
      simp only [Option.isSome_none, Bool.false_eq_true, if_false]
      intro u k hk
      by_cases he : u = []
      · subst he
        rw [lookup_cons_self] at hk
        rw [if_pos rfl]
        exact (Option.some.inj hk).symm
      · rw [lookup_cons_ne _ _ he] at hk
        exact h u k hk
  | some x =>
    obtain ⟨iv, u⟩ := x
    obtain ⟨h1, h2, h3, h4, h5, h6, h7⟩ := hk
    have : touchKey p.keys l.uri = p.keys := by
      unfold touchKey
      rw [h1, h6]
      rfl
    rw [this]
    refine ⟨h, fun q m hq hm hi => ⟨hm.trans h1, h2, by rw [hi]; exact h3, by rw [hi]; exact h4, h5, by rw [hq]; exact h6, h7⟩⟩

theorem entryOf_eq (e : Env) {p : Pls} {l : Loc} {key : Option (Bytes × Bytes)} {rng : Option (Nat × Nat)} {num : Nat} (uri : Bytes)
    (h : KeysOk e p.keys) (hk : KeyIs e p l key) (hr : RangeIs l rng) (hc : l.ctr = num + 1) :
    entryOf e p l uri = toEntry e { num := num, uri := uri, dur := l.dur, range := rng, key := key } := by
  have k1 : keyOf ((p.keys.lookup l.uri).getD []) (segIv l) = key.map (fun k => (e.fetch k.2, k.1)) := by
    cases key with
    | none =>
      obtain ⟨h1, h2⟩ := hk
      have : (p.keys.lookup l.uri).getD [] = [] := by
        cases hl : p.keys.lookup l.uri with
        | none => rfl
        | some k =>
          have := h l.uri k hl
          rw [if_pos h1] at this
          simpa using this
      rw [this]
      simp [keyOf]
    | some x =>
      obtain ⟨iv, u⟩ := x
      obtain ⟨h1, h2, h3, h4, h5, h6, h7⟩ := hk
      have hne : e.fetch u ≠ [] := by intro h0; rw [h0] at h7; simp at h7
      unfold segIv
      rw [if_pos h3, h4, h1, h6]
      simp only [Option.getD_some, keyOf, Option.map_some]
      rw [if_neg (by simp [hne, h5]), List.take_of_length_le (by omega)]
  have k2 : range (rangeStart p.entries uri l.start l.len) l.len = rng.getD (0, 0) := by
    cases rng with
    | none =>
      obtain ⟨h1, h2⟩ := hr
      rw [h1, h2]
      unfold rangeStart
      cases p.entries.getLast? <;> simp [range]
    | some x =>
      obtain ⟨a, b⟩ := x
      obtain ⟨h1, h2, h3⟩ := hr
      rw [h1, h3]
      unfold rangeStart range
      simp
      omega
  unfold entryOf toEntry
  simp only [k1, k2, hc]

theorem segs_ge : ∀ (l : List Item) (num : Nat) dur rng key, ∀ g ∈ segs num dur rng key l, num ≤ g.num := by
  intro l
  induction l with
  | nil => intro num dur rng key g hg; simp [segs] at hg
  | cons i t ih =>
    intro num dur rng key g hg
    cases i with
    | seg uri =>
      simp only [segs, List.mem_cons] at hg
      rcases hg with rfl | hg
      · exact Nat.le_refl _
      · have := ih _ _ _ _ g hg; omega
    | inf t => exact ih _ _ _ _ g hg
    | range a b => exact ih _ _ _ _ g hg
    | key a b c => exact ih _ _ _ _ g hg
    | note t => exact ih _ _ _ _ g hg

theorem segs_nums : ∀ (l : List Item) (num : Nat) dur rng key,
    (segs num dur rng key l).map (·.num) = List.range' num (segs num dur rng key l).length := by
  intro l
  induction l with
  | nil => intro num dur rng key; rfl
  | cons i t ih =>
    intro num dur rng key
    cases i with
    | seg uri =>
      simp only [segs, List.map_cons, List.length_cons, List.range'_succ]
      rw [ih]
    | inf t => exact ih _ _ _ _
    | range a b => exact ih _ _ _ _
    | key a b c => exact ih _ _ _ _
    | note t => exact ih _ _ _ _

/-- The outcome of applying items. -/
def Out (e : Env) (p p' : Pls) (gs : List Seg) (num : Nat) : Prop :=
  p'.first = p.first ∧ KeysOk e p'.keys
    ∧ p'.entries = p.entries ++ (gs.filter (fun g => decide (p.last < g.num + 1))).map (toEntry e)
    ∧ p'.last = if gs = [] then p.last else max p.last (num + gs.length)

theorem applyAll_out (e : Env) : ∀ (l : List Item) (p : Pls) (c : Loc) (num : Nat) (rng : Option (Nat × Nat))
    (key : Option (Bytes × Bytes)), (∀ i ∈ l, i.Ok ∧ Works e.fetch i) → KeysOk e p.keys → KeyIs e p c key → RangeIs c rng →
    c.ctr = num + 1 → Out e p (applyAll e (p, c) l).1 (segs num c.dur rng key l) num := by
  intro l
  induction l with
  | nil =>
    intro p c num rng key _ hk _ _ _
    exact ⟨rfl, hk, by simp [applyAll, segs], by simp [applyAll, segs]⟩
  | cons i t ih =>
    intro p c num rng key hok hk hkey hr hc
    have hok' : ∀ i ∈ t, i.Ok ∧ Works e.fetch i := fun x hx => hok x (by simp [hx])
    have hi := hok i (by simp)
    cases i with
    | inf d =>
      have := ih p { c with dur := d } num rng key hok' hk (by cases key <;> exact hkey) (by cases rng <;> exact hr) hc
      exact this
    | range len off =>
      have := ih p { c with start := some off, len := len } num (some (off, off + len)) key hok' hk (by cases key <;> exact hkey)
        ⟨rfl, hi.1.1, rfl⟩ hc
      exact this
    | key iv hex uri =>
      obtain ⟨⟨h1, h2, -, -⟩, h3, h4⟩ := hi
      obtain ⟨a, b⟩ := addKey_ok e hk h3 h4
      obtain ⟨d1, d2, -, -⟩ := digits_parse iv hex h2
      have := ih { p with keys := addKey e p.keys uri } { c with uri := uri, iv := hex } num rng (some (iv, uri)) hok' a
        ⟨rfl, h3, by intro (h0 : hex = []); rw [h0, h1] at d2; simp at d2, by rw [← h1]; exact d1,
          by intro h0; rw [h0] at h1; simp at h1, b, h4⟩ (by cases rng <;> exact hr) hc
      exact this
    | note t => exact ih p c num rng key hok' hk hkey hr hc
    | seg uri =>
      have he := entryOf_eq e uri hk hkey hr hc
      obtain ⟨t1, t2⟩ := touchKey_ok e hk hkey
      simp only [applyAll, apply, segLine, segs]
      by_cases hn : c.ctr > p.last
      · rw [if_pos hn]
        have := ih (addEntry { p with keys := touchKey p.keys c.uri } (entryOf e p c uri))
          { c with ctr := c.ctr + 1, dur := [], start := none, len := 0 } (num + 1) none key hok' t1
          (t2 _ _ rfl rfl rfl) ⟨rfl, rfl⟩ (by simp only [hc])
        obtain ⟨o1, o2, o3, o4⟩ := this
        refine ⟨o1, o2, ?_, ?_⟩
        · rw [o3]
          simp only [addEntry]
          rw [List.filter_cons, if_pos (by simp; omega)]
          simp only [List.map_cons, List.append_assoc, List.cons_append, List.nil_append]
          rw [he]
          congr 3
          apply List.filter_congr
          intro g hg
          have := segs_ge _ _ _ _ _ g hg
          refine (decide_eq_true ?_).trans (decide_eq_true ?_).symm
          · show num + 1 < g.num + 1
            omega
          · show p.last < g.num + 1
            omega
        · rw [o4]
          simp only [addEntry, entryOf, hc]
          rw [if_neg (List.cons_ne_nil _ _)]
          simp only [List.length_cons]
          split
          · rename_i h0
            rw [h0]; simp only [List.length_nil]; omega
          · omega
      · rw [if_neg hn]
        have := ih p { c with ctr := c.ctr + 1, dur := [], start := none, len := 0 } (num + 1) none key hok' hk
          (by cases key <;> exact hkey) ⟨rfl, rfl⟩ (by simp only [hc])
        obtain ⟨o1, o2, o3, o4⟩ := this
        refine ⟨o1, o2, ?_, ?_⟩
        · rw [o3, List.filter_cons, if_neg (by simp; omega)]
        · rw [o4, if_neg (List.cons_ne_nil _ _)]
          simp only [List.length_cons]
          split
          · rename_i h0
            rw [h0]; simp only [List.length_nil]; omega
          · omega

/-- Loading a playlist. -/
theorem reload_out (e : Env) (p : Pls) {seq : Nat} (hs : seq < 2 ^ 64) (l : List (Item × Bool))
    (h : ∀ x ∈ l, x.1.Ok ∧ Works e.fetch x.1) (hk : KeysOk e p.keys) :
    ∃ p', reload e p (Spec.text seq l) = some p'
      ∧ Out e { p with first := seq } p' (segments seq (l.map (·.1))) seq := by
  refine ⟨_, reload_text e p hs l (fun x hx => (h x hx).1), ?_⟩
  exact applyAll_out e (l.map (·.1)) { p with first := seq } { Loc.fresh with ctr := seq + 1 } seq none none
    (by
      intro i hi
      obtain ⟨x, hx, rfl⟩ := List.mem_map.1 hi
      exact h x hx) hk ⟨rfl, rfl⟩ ⟨rfl, rfl⟩ rfl

end Verif.HlsIn
