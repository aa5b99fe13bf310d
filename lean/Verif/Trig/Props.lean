import Verif.Trig.Spec
import Verif.Push.Props

/-!
# C81: triggers
-/
namespace Verif.Trig
open Spec
open Verif.Push (field)

/-! ## Lists of streams -/

theorem rd32_le32 (n : Nat) (h : n < 4294967296) (rest : Bytes) : rd32 (le32 n ++ rest) = n := by
  have h1 : (UInt8.ofNat n).toNat = n % 256 := by simp
  have h2 : (UInt8.ofNat (n / 256)).toNat = n / 256 % 256 := by simp
  have h3 : (UInt8.ofNat (n / 65536)).toNat = n / 65536 % 256 := by simp
  have h4 : (UInt8.ofNat (n / 16777216)).toNat = n / 16777216 % 256 := by simp
  simp only [rd32, le32, List.cons_append, List.nil_append, List.getD_cons_zero, List.getD_cons_succ, h1, h2, h3, h4]
  omega

theorem le32_length (n : Nat) : (le32 n).length = 4 := rfl

theorem sameN_iff {e name : Bytes} (h0 : 0 ∉ e) : sameN e.length e name = true ↔ e <+: name := by
  induction e generalizing name with
  | nil => simp [sameN]
  | cons x e ih =>
    simp only [List.mem_cons, not_or] at h0
    have hstep : sameN (x :: e).length (x :: e) name = if x ≠ name.headD 0 then false else if x = 0 then true else sameN e.length e name.tail := rfl
    rw [hstep]
    cases name with
    | nil =>
      rw [if_pos (show x ≠ ([] : Bytes).headD 0 from Ne.symm h0.1)]
      simp
    | cons y name =>
      by_cases hxy : x = y
      · subst hxy
        rw [if_neg (show ¬ x ≠ (x :: name).headD 0 from fun h => h rfl), if_neg (Ne.symm h0.1), ih h0.2, List.cons_prefix_cons]
        simp
      · rw [if_pos (show x ≠ (y :: name).headD 0 from hxy), List.cons_prefix_cons]
        simp [hxy]

theorem base_splitter (name : Bytes) : (splitter name = none ∧ base name = name) ∨ ∃ i, splitter name = some i ∧ base name = name.take i ∧ i < name.length := by
  induction name with
  | nil => exact Or.inl ⟨rfl, rfl⟩
  | cons c name ih =>
    by_cases hc : c = 43 ∨ c = 32
    · right
      refine ⟨0, ?_, ?_, by simp⟩
      · rcases hc with h | h <;> subst h <;> rfl
      · rcases hc with h | h <;> subst h <;> rfl
    · rw [not_or] at hc
      have hb : base (c :: name) = c :: base name := by
        unfold base
        rw [List.takeWhile_cons, if_pos]
        simp [hc.1, hc.2]
      have hs : splitter (c :: name) = (splitter name).map (· + 1) := by
        unfold splitter
        rw [List.findIdx?_cons]
        have : (c == 43 || c == 32) = false := by simp [hc.1, hc.2]
        rw [this]
        rfl
      rcases ih with ⟨h1, h2⟩ | ⟨i, h1, h2, h3⟩
      · left
        rw [hs, h1, hb, h2]
        exact ⟨rfl, rfl⟩
      · right
        refine ⟨i + 1, by rw [hs, h1]; rfl, by rw [hb, h2]; rfl, by simp; omega⟩

theorem named_iff {e name : Bytes} (h0 : 0 ∉ e) :
    ((decide (name.length = e.length) || decide (splitter name = some e.length)) && sameN e.length e name) = true ↔ e = name ∨ e = base name := by
  rw [Bool.and_eq_true, Bool.or_eq_true, decide_eq_true_eq, decide_eq_true_eq, sameN_iff h0]
  constructor
  · rintro ⟨h1 | h1, h2⟩
    · exact Or.inl (h2.eq_of_length h1.symm)
    · right
      rcases base_splitter name with ⟨h, _⟩ | ⟨i, h3, h4, h5⟩
      · rw [h] at h1
        cases h1
      · rw [h3] at h1
        injection h1 with h1
        rw [h4, h1]
        exact List.prefix_iff_eq_take.1 h2
  · rintro (h | h)
    · subst h
      exact ⟨Or.inl rfl, List.prefix_refl _⟩
    · rcases base_splitter name with ⟨_, h1⟩ | ⟨i, h3, h4, h5⟩
      · rw [h1] at h
        subst h
        exact ⟨Or.inl rfl, List.prefix_refl _⟩
      · rw [h4] at h
        subst h
        refine ⟨Or.inr ?_, List.take_prefix _ _⟩
        rw [h3, List.length_take]
        congr 1
        omega

theorem entry_iff {e name : Bytes} (tags : List Bytes) (h0 : 0 ∉ e) (negated : Bool) (st : Bool × Bool) :
    entry name tags e negated st = if Names e name tags then (!negated, false) else (st.1, st.2 && negated) := by
  unfold entry
  have hn := named_iff (name := name) h0
  have ht : (e.head? = some 35 ∧ e.tail ∈ tags) ↔ ∃ t ∈ tags, e = 35 :: t := by
    cases e with
    | nil => simp
    | cons c e =>
      simp only [List.head?_cons, Option.some.injEq, List.tail_cons, List.cons.injEq]
      constructor
      · rintro ⟨h1, h2⟩
        exact ⟨e, h2, h1, rfl⟩
      · rintro ⟨t, h1, h2, h3⟩
        subst h3
        exact ⟨h2, h1⟩
  by_cases h1 : e = name ∨ e = base name
  · have : Names e name tags := by rcases h1 with h | h; exact Or.inl h; exact Or.inr (Or.inl h)
    rw [if_pos (hn.2 h1), if_pos this]
  · rw [if_neg (fun h => h1 (hn.1 h))]
    rw [not_or] at h1
    by_cases h2 : e.head? = some 35 ∧ e.tail ∈ tags
    · have : Names e name tags := Or.inr (Or.inr (ht.1 h2))
      rw [if_pos h2, if_pos this]
    · have : ¬ Names e name tags := by
        rintro (h | h | h)
        · exact h1.1 h
        · exact h1.2 h
        · exact h2 (ht.2 h)
      rw [if_neg h2, if_neg this]

/-- Entries that can be written. -/
def Good (e : Entry) : Prop := e.text ≠ [] ∧ 0 ∉ e.text ∧ (e.negative = false → e.text.head? ≠ some 33)

theorem names_length (l : List Entry) : (names (l.map Entry.written)).length = (l.map fun e => e.written.length + 4).sum := by
  induction l with
  | nil => rfl
  | cons e l ih =>
    simp only [List.map_cons, names, List.length_append, le32_length, List.sum_cons, ih]
    omega

theorem scan_entries (name : Bytes) (tags : List Bytes) (p pre : Bytes) (l : List Entry) (k fuel : Nat) (st : Bool × Bool)
    (hg : ∀ e ∈ l, Good e) (hp : p = pre ++ (names (l.map Entry.written) ++ List.replicate k 0)) (hlen : p.length = 256) (hf : l.length < fuel) :
    scan name tags p fuel pre.length st = l.foldl (fun st e => entry name tags e.text e.negative st) st := by
  induction l generalizing pre fuel st with
  | nil =>
    cases fuel with
    | zero => omega
    | succ fuel =>
      simp only [scan, List.foldl_nil]
      split
      · have hd : p.drop pre.length = List.replicate k 0 := by
          rw [hp]
          simp [names]
        have : rd32 (p.drop pre.length) = 0 := by
          rw [hd]
          have h0 : ∀ i, (List.replicate k (0 : UInt8)).getD i 0 = 0 := by
            intro i
            rw [List.getD_eq_getElem?_getD, List.getElem?_replicate]
            split <;> rfl
          unfold rd32
          rw [h0, h0, h0, h0]
          rfl
        rw [if_pos (Or.inr this)]
      · rfl
  | cons e l ih =>
    cases fuel with
    | zero => simp at hf
    | succ fuel =>
      have hge := hg e List.mem_cons_self
      have hw : e.written.length ≠ 0 := by
        unfold Entry.written
        split
        · simp
        · intro h
          exact hge.1 (List.length_eq_zero_iff.1 h)
      have hp' : p = pre ++ (le32 e.written.length ++ (e.written ++ (names (l.map Entry.written) ++ List.replicate k 0))) := by
        rw [hp, List.map_cons, names]
        simp only [List.append_assoc]
      have hl : p.length = pre.length + (4 + (e.written.length + ((names (l.map Entry.written)).length + k))) := by
        rw [hp']
        simp only [List.length_append, le32_length, List.length_replicate]
      have hd : rd32 (p.drop pre.length) = e.written.length := by
        rw [hp', List.drop_left]
        exact rd32_le32 _ (by omega) _
      have ht : (p.drop (pre.length + 4)).take e.written.length = e.written := by
        rw [hp', ← List.append_assoc, List.drop_left' (by simp [le32_length])]
        exact List.take_left' rfl
      have hrec : ∀ st, scan name tags p fuel (pre.length + e.written.length + 4) st = l.foldl (fun st e => entry name tags e.text e.negative st) st := by
        intro st
        have := ih (pre ++ (le32 e.written.length ++ e.written)) fuel st (fun x hx => hg x (List.mem_cons_of_mem _ hx))
          (by rw [hp']; simp only [List.append_assoc]) (by simp at hf; omega)
        rw [← this]
        congr 1
        simp only [List.length_append, le32_length]
        omega
      simp only [scan, List.foldl_cons]
      rw [if_pos (by omega), hd, if_neg (by omega), ht]
      cases hn : e.negative with
      | true =>
        have he : e.written = 33 :: e.text := by unfold Entry.written; rw [hn]; rfl
        rw [hrec, hrec]
        rw [he, if_pos (show (33 :: e.text).head? = some 33 from rfl), if_neg (show ¬ (33 :: e.text).tail = [] from hge.1)]
        rfl
      | false =>
        have he : e.written = e.text := by unfold Entry.written; rw [hn]; rfl
        rw [hrec, hrec]
        rw [he, if_neg (hge.2.2 hn)]

theorem fold_says (name : Bytes) (tags : List Bytes) (l : List Entry) (hg : ∀ e ∈ l, Good e) (st : Bool × Bool) :
    l.foldl (fun st e => entry name tags e.text e.negative st) st =
      match lastSays name tags l with
      | some b => (b, false)
      | none => (st.1, st.2 && l.all fun e => e.negative) := by
  induction l generalizing st with
  | nil => simp [lastSays]
  | cons e l ih =>
    rw [List.foldl_cons, ih (fun x hx => hg x (List.mem_cons_of_mem _ hx)), entry_iff tags (hg e List.mem_cons_self).2.1]
    simp only [lastSays]
    cases lastSays name tags l with
    | some b => rfl
    | none =>
      by_cases hn : Names e.text name tags
      · simp [hn]
      · simp [hn, Bool.and_assoc]

/-- A record is for the streams its list selects. -/
theorem handled_iff (name : Bytes) (tags : List Bytes) (t : Trigger) (hf : t.Fits) : handled name tags (record t.config) = true ↔ Selects name tags t.streams := by
  have hlen := names_length t.streams
  have hsz := hf.size
  have hstr : (record t.config).streams = names (t.streams.map Entry.written) ++ List.replicate (256 - (names (t.streams.map Entry.written)).length) 0 := by
    show (names (t.streams.map Entry.written) ++ List.replicate 256 0).take 256 = _
    rw [List.take_append, List.take_of_length_le (by omega), List.take_replicate]
    congr 2
    omega
  have hcount : t.streams.length < 256 := by
    have h5 : ∀ l : List Entry, (∀ e ∈ l, Good e) → 5 * l.length ≤ (l.map fun e => e.written.length + 4).sum := by
      intro l
      induction l with
      | nil => intro _; simp
      | cons e l ih =>
        intro hg
        have := ih (fun x hx => hg x (List.mem_cons_of_mem _ hx))
        have hge := hg e List.mem_cons_self
        have hw : e.written.length ≠ 0 := by
          unfold Entry.written
          split
          · simp
          · intro h
            exact hge.1 (List.length_eq_zero_iff.1 h)
        simp only [List.map_cons, List.sum_cons, List.length_cons]
        omega
    have := h5 t.streams hf.entries
    omega
  have hscan := scan_entries name tags (record t.config).streams [] t.streams (256 - (names (t.streams.map Entry.written)).length) 256 (name.isEmpty, true)
    hf.entries (by rw [hstr]; rfl) (by rw [hstr, List.length_append, List.length_replicate]; omega) hcount
  unfold handled Selects
  simp only
  rw [show scan name tags (record t.config).streams 256 0 (name.isEmpty, true) = _ from hscan, fold_says name tags t.streams hf.entries]
  cases lastSays name tags t.streams with
  | some b => simp
  | none =>
    simp only [Bool.true_and]
    by_cases h : (t.streams.all fun e => e.negative) = true
    · rw [if_pos h]
      simp only [true_iff]
      exact Or.inr (by simpa using h)
    · rw [if_neg h]
      constructor
      · intro h'
        exact Or.inl (by simpa using h')
      · rintro (h' | h')
        · simp [h']
        · exact absurd (by simpa using h') h

/-! ## Answers -/

theorem white_iff (c : UInt8) : (c == 32 || (decide (9 ≤ c) && decide (c ≤ 13))) = true ↔ White c := by
  have : ∀ n : Fin 256, ((UInt8.ofNat n.val == 32 || (decide (9 ≤ UInt8.ofNat n.val) && decide (UInt8.ofNat n.val ≤ 13))) = true ↔ White (UInt8.ofNat n.val)) := by
    decide +kernel
  have h := this ⟨c.toNat, c.toNat_lt⟩
  simpa using h

theorem take_prefix_iff (t u : Bytes) (n m : Nat) (hu : u.length = n) (hnm : n ≤ m) : ((t.take m).take n == u) = true ↔ u <+: t := by
  rw [List.take_take, Nat.min_eq_left hnm, beq_iff_eq]
  constructor
  · intro h
    rw [← h]
    exact List.take_prefix _ _
  · intro h
    rw [← hu]
    exact (List.prefix_iff_eq_take.1 h).symm

/-- What counts as yes. -/
theorem stringToBool_iff (s : Bytes) : stringToBool s = true ↔ Yes s := by
  have hfil : (s.filter fun c => !(c == 32 || (decide (9 ≤ c) && decide (c ≤ 13)))) = s.filter fun c => ¬ White c := by
    apply List.filter_congr
    intro c _
    have := white_iff c
    by_cases h : White c
    · rw [this.2 h]
      simp [h]
    · have h2 : (c == 32 || (decide (9 ≤ c) && decide (c ≤ 13))) = false := by
        cases h3 : (c == 32 || (decide (9 ≤ c) && decide (c ≤ 13))) with
        | false => rfl
        | true => exact absurd (this.1 h3) h
      rw [h2]
      simp [h]
  unfold stringToBool Yes
  simp only [hfil]
  rw [List.map_take]
  rw [show ((s.filter fun c => ¬ White c).map fun c => if 65 ≤ c ∧ c ≤ 90 then c + 32 else c) = letters s from rfl]
  simp only [Bool.or_eq_true]
  rw [take_prefix_iff (letters s) [49] 1 4 rfl (by omega), take_prefix_iff (letters s) [121, 101, 115] 3 4 rfl (by omega),
    take_prefix_iff (letters s) [116, 114, 117, 101] 4 4 rfl (by omega), take_prefix_iff (letters s) [99, 111, 110, 116] 4 4 rfl (by omega)]
  simp only [or_assoc]
  rfl

theorem handleTrigger_answer (ask : Bytes → Option Bytes) (t : Trigger) (hf : t.Fits) : handleTrigger ask (record t.config) = t.answer ask := by
  have hu : (record t.config).url = t.handler := Push.field_fits hf.handler
  have hd : (record t.config).default = t.default := Push.field_fits hf.default
  have hs : (record t.config).sync = t.sync := rfl
  unfold handleTrigger defaultOf Trigger.answer
  rw [hu, hd, hs]
  by_cases h1 : t.handler = []
  · simp [h1]
  · cases h2 : t.sync with
    | false => simp [h1]
    | true =>
      cases h3 : ask t.handler with
      | none => simp [h1]
      | some a => simp [h1]

/-! ## Events -/

/-- The triggers an event is for. -/
def selected (name : Bytes) (tags : List Bytes) (l : List Trigger) : List Trigger := l.filter fun t => Selects name tags t.streams

theorem fire_selected (name : Bytes) (tags : List Bytes) (ask : Bytes → Option Bytes) (l : List Trigger) (hf : ∀ t ∈ l, t.Fits) (st : Bool × Bytes) :
    fire name tags (fun _ => true) ask (l.map fun t => record t.config) st =
      (st.1 && (selected name tags l).all fun t => stringToBool (t.answer ask),
       ((((selected name tags l).filter fun t => t.sync).map fun t => t.answer ask).getLast?).getD st.2) := by
  induction l generalizing st with
  | nil => simp [fire, selected]
  | cons t l ih =>
    have ih' := ih (fun x hx => hf x (List.mem_cons_of_mem _ hx))
    have hft := hf t List.mem_cons_self
    have hh := handled_iff name tags t hft
    have ha := handleTrigger_answer ask t hft
    have hs : (record t.config).sync = t.sync := rfl
    simp only [List.map_cons, fire, Bool.and_true]
    by_cases h : Selects name tags t.streams
    · have hsel : selected name tags (t :: l) = t :: selected name tags l := by
        unfold selected
        rw [List.filter_cons, if_pos (by simpa using h)]
      rw [if_pos (hh.2 h), ih', hsel, ha, hs]
      simp only [List.all_cons, Bool.and_assoc, List.filter_cons]
      cases hsync : t.sync with
      | false => simp
      | true =>
        simp only [if_true, List.map_cons]
        rw [List.getLast?_cons]
        rfl
    · have hsel : selected name tags (t :: l) = selected name tags l := by
        unfold selected
        rw [List.filter_cons, if_neg (by simpa using h)]
      rw [if_neg (fun h' => h (hh.1 h')), ih', hsel]

theorem capacity_eq : capacity = 51 := by decide

/-- C81: for up to 51 triggers of a type that fit into the table, an event goes on exactly if every trigger that selects the stream
answers yes (or there is none), and the value that is rewritten is the answer of the last one that is waited for. -/
theorem C81_partial (l : List Trigger) (hf : ∀ t ∈ l, t.Fits) (hlen : l.length ≤ 51) (name : Bytes) (tags : List Bytes) (ask : Bytes → Option Bytes) (value : Bytes) :
    let r := event (some (true, table (l.map Trigger.config))) name tags (fun _ => true) ask value
    (r.1 = true ↔ ∀ t ∈ l, Selects name tags t.streams → Yes (t.answer ask)) ∧
    r.2 = ((((selected name tags l).filter fun t => t.sync).map fun t => t.answer ask).getLast?).getD value := by
  intro r
  have htab : table (l.map Trigger.config) = l.map fun t => record t.config := by
    unfold table
    rw [List.take_of_length_le (by rw [capacity_eq, List.length_map]; exact hlen), List.map_map]
    rfl
  have hmem : ∀ t, t ∈ selected name tags l ↔ t ∈ l ∧ Selects name tags t.streams := by
    intro t
    unfold selected
    simp
  by_cases hs : shouldTrigger (some (true, table (l.map Trigger.config))) name tags (fun _ => true) = true
  · have hr : r = fire name tags (fun _ => true) ask (l.map fun t => record t.config) (true, value) := by
      show event _ name tags (fun _ => true) ask value = _
      unfold event
      rw [if_pos hs]
      unfold doTrigger
      simp only [if_true, htab]
    rw [hr, fire_selected name tags ask l hf]
    refine ⟨?_, rfl⟩
    simp only [Bool.true_and, List.all_eq_true]
    constructor
    · intro h t ht hsel
      exact (stringToBool_iff _).1 (h t ((hmem t).2 ⟨ht, hsel⟩))
    · intro h t ht
      obtain ⟨h1, h2⟩ := (hmem t).1 ht
      exact (stringToBool_iff _).2 (h t h1 h2)
  · have hr : r = (true, value) := by
      show event _ name tags (fun _ => true) ask value = _
      unfold event
      rw [if_neg hs]
    have hnone : ∀ t ∈ l, ¬ Selects name tags t.streams := by
      intro t ht hsel
      apply hs
      unfold shouldTrigger
      rw [htab]
      simp only [Bool.true_and, Bool.and_true, List.any_map, List.any_eq_true]
      exact ⟨t, ht, (handled_iff name tags t (hf t ht)).2 hsel⟩
    have hnil : selected name tags l = [] := by
      unfold selected
      rw [List.filter_eq_nil_iff]
      intro t ht
      simpa using hnone t ht
    rw [hr, hnil]
    refine ⟨?_, rfl⟩
    simp only [true_iff]
    intro t ht hsel
    exact absurd hsel (hnone t ht)

/-- C81, in time: a payload is only made if a trigger is for the stream. -/
theorem C81_should_partial (l : List Trigger) (hf : ∀ t ∈ l, t.Fits) (hlen : l.length ≤ 51) (name : Bytes) (tags : List Bytes) :
    shouldTrigger (some (true, table (l.map Trigger.config))) name tags (fun _ => true) = true ↔ ∃ t ∈ l, Selects name tags t.streams := by
  have htab : table (l.map Trigger.config) = l.map fun t => record t.config := by
    unfold table
    rw [List.take_of_length_le (by rw [capacity_eq, List.length_map]; exact hlen), List.map_map]
    rfl
  unfold shouldTrigger
  rw [htab]
  simp only [Bool.true_and, Bool.and_true, List.any_map, List.any_eq_true]
  constructor
  · rintro ⟨t, ht, h⟩
    exact ⟨t, ht, (handled_iff name tags t (hf t ht)).1 h⟩
  · rintro ⟨t, ht, h⟩
    exact ⟨t, ht, (handled_iff name tags t (hf t ht)).2 h⟩

/-! ## Where it fails -/

/-- C81 fails while the configuration is written: at some moment no trigger is run, although the old and the new configuration both
have one that says no. -/
theorem C81_reload_fails (old new : List Config) (name : Bytes) (tags : List Bytes) (ask : Bytes → Option Bytes) (value : Bytes) :
    ∃ pg ∈ rewrite (some (true, table old)) new, event pg name tags (fun _ => true) ask value = (true, value) :=
  ⟨none, by simp [rewrite], rfl⟩

/-- C81 fails for parameters: once one trigger is due by its parameter, all are run and can stop the stream, also those that are not
due. -/
theorem C81_params_fails : ∃ (l : List Trigger) (param : Bytes → Bool) (ask : Bytes → Option Bytes), (∀ t ∈ l, t.Fits) ∧
    (∀ t ∈ l, param t.params = true → Yes (t.answer ask)) ∧ (event (some (true, table (l.map Trigger.config))) [] [] param ask []).1 = false := by
  refine ⟨[⟨[97], true, [], [49], []⟩, ⟨[98], true, [], [50], []⟩], fun p => p == [49], fun h => if h = [97] then some yes else some [48], ?_, ?_, by decide +kernel⟩
  · intro t ht
    simp only [List.mem_cons, List.not_mem_nil, or_false] at ht
    rcases ht with rfl | rfl <;> exact ⟨by decide, by decide, by decide, by simp, by simp⟩
  · intro t ht hp
    simp only [List.mem_cons, List.not_mem_nil, or_false] at ht
    rcases ht with rfl | rfl
    · rw [← stringToBool_iff]
      decide +kernel
    · exact absurd hp (by decide)

/-- C81 fails for long lists of streams: what is behind 256 bytes is lost. A trigger that says no is not run for the last stream of its
list. -/
theorem C81_list_fails : ∃ (t : Trigger) (name : Bytes) (ask : Bytes → Option Bytes), Selects name [] t.streams ∧ ¬ Yes (t.answer ask) ∧
    (event (some (true, table [t.config])) name [] (fun _ => true) ask []).1 = true := by
  refine ⟨⟨[97], true, [⟨false, List.replicate 100 97⟩, ⟨false, List.replicate 100 98⟩, ⟨false, List.replicate 100 99⟩], [], []⟩, List.replicate 100 99,
    fun _ => some [48], by decide +kernel, ?_, by decide +kernel⟩
  rw [← stringToBool_iff]
  decide +kernel

/-- And a list whose first entry is too long selects every stream. -/
theorem C81_first_fails (n : Nat) (hn : 252 < n) (hn' : n < 4294967296) (name : Bytes) (tags : List Bytes) (c : Config)
    (e : Bytes) (l : List Bytes) (he : e.length = n) (hc : c.streams = e :: l) : handled name tags (record c) = true := by
  have hs : (record c).streams = (le32 n ++ (e ++ (names l ++ List.replicate 256 0))).take 256 := by
    show (names c.streams ++ List.replicate 256 0).take 256 = _
    rw [hc, names, he]
    simp only [List.append_assoc]
  have hl : (record c).streams.length = 256 := by
    rw [hs, List.length_take]
    simp only [List.length_append, le32_length, List.length_replicate]
    omega
  have hr : rd32 ((record c).streams.drop 0) = n := by
    have : (record c).streams = le32 n ++ (e ++ (names l ++ List.replicate 256 0)).take 252 := by
      rw [hs, List.take_append, List.take_of_length_le (by rw [le32_length]; omega)]
      rfl
    rw [List.drop_zero, this]
    exact rd32_le32 n hn' _
  have : scan name tags (record c).streams 256 0 (name.isEmpty, true) = (name.isEmpty, true) := by
    rw [show (256 : Nat) = 255 + 1 from rfl, scan]
    rw [if_pos (by rw [hl]; omega)]
    simp only [hr]
    rw [if_pos (Or.inl (by rw [hl]; omega))]
  unfold handled
  rw [this]
  rfl

/-- C81 fails for empty entries: what comes after one is not looked at, so that a list that starts with one selects every stream. -/
theorem C81_empty_fails (name : Bytes) (tags : List Bytes) (c : Config) (l : List Bytes) (hc : c.streams = [] :: l) : handled name tags (record c) = true := by
  have hs : (record c).streams = ([0, 0, 0, 0] ++ (names l ++ List.replicate 256 0)).take 256 := by
    show (names c.streams ++ List.replicate 256 0).take 256 = _
    rw [hc, names]
    rfl
  have hr : rd32 ((record c).streams.drop 0) = 0 := by
    rw [hs]
    rfl
  have : scan name tags (record c).streams 256 0 (name.isEmpty, true) = (name.isEmpty, true) := by
    rw [show (256 : Nat) = 255 + 1 from rfl, scan]
    split
    · rw [hr, if_pos (Or.inr rfl)]
    · rfl
  unfold handled
  rw [this]
  rfl

/-- C81 fails for long addresses: another address is asked. -/
theorem C81_handler_fails (c : Config) (h : 127 < c.handler.length) (h0 : 0 ∉ c.handler) (hs : c.sync = true) (ask : Bytes → Option Bytes) :
    handleTrigger ask (record c) = (ask (c.handler.take 127)).getD (defaultOf (record c)) ∧ c.handler.take 127 ≠ c.handler := by
  have hu : (record c).url = c.handler.take 127 := by
    show field 128 c.handler = _
    unfold field
    apply Push.takeWhile_all
    intro x hx
    have : x ≠ 0 := fun e => h0 (e ▸ List.mem_of_mem_take hx)
    simpa using this
  have hne : c.handler.take 127 ≠ [] := by
    intro he
    have := congrArg List.length he
    rw [List.length_take] at this
    simp at this
    rw [this] at h
    simp at h
  refine ⟨?_, ?_⟩
  · unfold handleTrigger
    rw [hu, if_neg hne, if_pos (show (record c).sync = true from hs)]
  · intro he
    have := congrArg List.length he
    rw [List.length_take] at this
    omega

/-- C81 fails for more than 51 triggers of a type: the others are never run. -/
theorem C81_many_fails (l more : List Config) (hl : l.length = 51) : table (l ++ more) = table l := by
  unfold table
  rw [capacity_eq, List.take_append, hl, ← hl, List.take_of_length_le (Nat.le_refl _)]
  simp

/-! ## Not empty -/

/-- Streams "a" and those with the tag "t", but not "b". -/
private def sample : Trigger := ⟨[104], true, [⟨false, [97]⟩, ⟨false, [35, 116]⟩, ⟨true, [98]⟩], [], []⟩

example : sample.Fits := ⟨by decide, by decide, by decide, by
  intro e he
  simp only [sample, List.mem_cons, List.not_mem_nil, or_false] at he
  rcases he with rfl | rfl | rfl <;> exact ⟨by decide, by decide, by decide⟩, by decide⟩

example : Selects [97] [] sample.streams ∧ Selects [97, 43, 120] [] sample.streams ∧ Selects [99] [[116]] sample.streams ∧ ¬ Selects [98] [[116]] sample.streams ∧
    ¬ Selects [99] [] sample.streams := by decide +kernel

/-- The trigger says no for "a" and for a wildcard of it, and is not asked for "c". -/
example : [[97], [97, 43, 120], [99]].map (fun n => (event (some (true, table [sample.config])) n [] (fun _ => true) (fun _ => some [48]) []).1) = [false, false, true] := by decide +kernel

example : stringToBool [32, 84, 114, 10, 117, 69, 33] = true ∧ stringToBool [110, 111] = false ∧ stringToBool [] = false := by decide +kernel

end Verif.Trig
