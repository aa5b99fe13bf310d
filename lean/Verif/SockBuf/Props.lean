import Verif.SockBuf.Model
import Verif.Base.Strings

/-!
# C16: the socket buffer is a byte queue
-/
namespace Verif.SockBuf

/-! ## Specification: a plain queue of bytes -/

inductive Op where
  | append (s : Bytes)
  | prepend (s : Bytes)
  | skip (n : Nat)
  | remove (n : Nat)
  | copy (n : Nat)
  | copyShort (n : Nat)
  | available (n : Nat)
  | bytes (max : Nat)
  | clear
  | compact
  | setSplitter (s : Bytes)

/-- What a caller sees. -/
inductive Out where
  | unit
  | data (s : Bytes)
  | num (n : Nat)
  | flag (b : Bool)
  deriving DecidableEq

/-- The queue after an operation. -/
def Op.after (q : Bytes) : Op → Bytes
  | .append s => q ++ s
  | .prepend s => s ++ q
  | .skip n => q.drop n
  | .remove n => if n ≤ q.length then q.drop n else q
  | .clear => []
  | _ => q

/-- The answer of an operation on a queue. -/
def Op.answer (q : Bytes) : Op → Out
  | .remove n => .data (if n ≤ q.length then q.take n else [])
  | .copy n => .data (if n ≤ q.length then q.take n else [])
  | .copyShort n => .data (q.take n)
  | .available n => .flag (n ≤ q.length && !q.isEmpty)
  | .bytes max => .num (min q.length max)
  | _ => .unit

/-- All answers of a history. -/
def answers : Bytes → List Op → List Out
  | _, [] => []
  | q, o :: l => o.answer q :: answers (o.after q) l

/-- Byte counts asked for are 32-bit. -/
def Op.fits : Op → Prop
  | .remove n => n < 2 ^ 32
  | .copy n => n < 2 ^ 32
  | .available n => n < 2 ^ 32
  | .bytes n => n < 2 ^ 32
  | _ => True

/-- Sizes stay within the 32 bits the interface offers. -/
def fits : Bytes → List Op → Prop
  | _, [] => True
  | q, o :: l =>
    o.fits ∧ (o.after q).length < 2 ^ 32 ∧ fits (o.after q) l

/-! ## Driving the code -/

def Buf.exec (b : Buf) : Op → Out × Buf
  | .append s => (.unit, b.append s)
  | .prepend s => (.unit, b.prepend s)
  | .skip n => (.unit, b.skip n)
  | .remove n => (.data (b.remove n).1, (b.remove n).2)
  | .copy n => (.data (b.copy n).1, (b.copy n).2)
  | .copyShort n => (.data (b.copyShort n), b)
  | .available n => (.flag (b.available n).1, (b.available n).2)
  | .bytes n => (.num (b.bytes n), b)
  | .clear => (.unit, b.clear)
  | .compact => (.unit, b.compact.2)
  | .setSplitter s => (.unit, { b with splitter := s })

def Buf.run : Buf → List Op → List Out
  | _, [] => []
  | b, o :: l => (b.exec o).1 :: (b.exec o).2.run l

/-- The bytes held, oldest first. -/
def Buf.contents (b : Buf) : Bytes := b.blocks.flatten

/-! ## Lemmas -/

theorem popEmpty_contents (b : Buf) : b.popEmpty.contents = b.contents := by
  obtain ⟨l, s⟩ := b
  simp only [Buf.popEmpty, Buf.contents]
  induction l with
  | nil => rfl
  | cons x r ih =>
    simp only [List.dropWhile]
    split
    next h => simp at h; simp [h, ih]
    next => rfl

theorem cut_flatten (sp s : Bytes) : (cut sp s).flatten = s := by
  have hscan : ∀ (sp s : Bytes) (j : Nat), 0 < j ∨ s ≠ [] → 0 < scanBlock sp s j := by
    intro sp s j
    fun_induction scanBlock sp s j with
    | case1 => intro _; omega
    | case2 j h h2 ih => intro _; exact ih (.inl (by omega))
    | case3 j h =>
      intro hj
      rcases hj with hj | hj
      · exact hj
      · have : s.length ≠ 0 := by simpa using hj
        simp only [blockSize] at h
        omega
  have hnext : ∀ (sp s : Bytes), s ≠ [] → nextBlock sp s ≠ 0 := by
    intro sp s hs
    unfold nextBlock
    have : s.length ≠ 0 := by simpa using hs
    split
    · by_cases h4 : s.length > blockSize
      · rw [if_pos h4]; decide
      · rw [if_neg h4]; exact this
    · have := hscan sp s 0 (.inr hs); omega
  fun_induction cut sp s with
  | case1 s h =>
    rcases h with h | h
    · simp [h]
    · by_cases hs : s = []
      · simp [hs]
      · exact absurd h (hnext sp s hs)
  | case2 s h ih => simp [ih]

theorem sum_le (l : List Bytes) (b : Bytes) : b ∈ l → b.length ≤ l.flatten.length := by
  intro h
  exact (List.sublist_flatten_of_mem h).length_le

theorem bytesLoop_eq (max : Nat) (l : List Bytes) (i : Nat) (h : i + l.flatten.length < 2 ^ 32) (hi : i < max ∨ i = 0) :
    bytesLoop max l i = min (i + l.flatten.length) max := by
  induction l generalizing i with
  | nil => simp [bytesLoop]; omega
  | cons b r ih =>
    simp only [List.flatten_cons, List.length_append] at h ⊢
    simp only [bytesLoop]
    rw [Nat.mod_eq_of_lt (by omega)]
    split
    · omega
    · rw [ih _ (by omega) (by omega)]; omega

theorem flatten_reverse_length (l : List Bytes) : l.reverse.flatten.length = l.flatten.length := by
  simp [List.length_flatten]

theorem availLoop_eq (count : Nat) (l : List Bytes) (i : Nat) (h : i + l.flatten.length < 2 ^ 32) (hi : i < count ∨ i = 0) :
    availLoop count l i = (decide (count ≤ i + l.flatten.length) && !l.isEmpty) := by
  induction l generalizing i with
  | nil => simp [availLoop]
  | cons b r ih =>
    simp only [List.flatten_cons, List.length_append] at h ⊢
    simp only [availLoop]
    rw [Nat.mod_eq_of_lt (by omega)]
    split
    · simp; omega
    · rw [ih _ (by omega) (by omega)]
      cases r with
      | nil => simp; omega
      | cons c r => simp; omega

theorem dropWhile_ne {l : List Bytes} : (l.dropWhile (·.isEmpty)).isEmpty = l.flatten.isEmpty := by
  induction l with
  | nil => rfl
  | cons x r ih =>
    simp only [List.dropWhile]
    split
    next h => simp at h; simp [h, ih]
    next h => cases x <;> simp_all

theorem available_eq (b : Buf) (n : Nat) (hn : n < 2 ^ 32) (hc : b.contents.length < 2 ^ 32) :
    (b.available n).1 = (decide (n ≤ b.contents.length) && !b.contents.isEmpty) := by
  have hp := popEmpty_contents b
  have hc' := hc
  rw [← hp] at hc'
  unfold Buf.contents at hp hc'
  have : b.popEmpty.blocks.reverse.flatten.length = b.contents.length := by
    rw [flatten_reverse_length, hp]; rfl
  simp only [Buf.available]
  rw [Nat.mod_eq_of_lt hn, availLoop_eq _ _ _ (by omega) (.inr rfl), this]
  congr 2
  · rw [Nat.zero_add]
  · rw [List.isEmpty_reverse]; simp only [Buf.popEmpty, Buf.contents]; exact dropWhile_ne

theorem skipLoop_eq (count : Nat) (l : List Bytes) (i : Nat) (hi : i ≤ count) :
    (skipLoop count l i).flatten = l.flatten.drop (count - i) := by
  induction l generalizing i with
  | nil => simp [skipLoop]
  | cons b r ih =>
    simp only [skipLoop]
    split
    next h =>
      rw [ih _ h, List.flatten_cons, List.drop_append, List.drop_eq_nil_of_le (as := b) (by omega), List.nil_append,
        show count - (i + b.length) = count - i - b.length by omega]
    next h =>
      rw [List.flatten_cons, List.flatten_cons, List.drop_append_of_le_length (by omega)]

theorem removeLoop_eq (count : Nat) (l : List Bytes) (i : Nat) (hi : i ≤ count) :
    (removeLoop count l i).1 = l.flatten.take (count - i) ∧ (removeLoop count l i).2.flatten = l.flatten.drop (count - i) := by
  induction l generalizing i with
  | nil => simp [removeLoop]
  | cons b r ih =>
    simp only [removeLoop]
    split
    next h =>
      obtain ⟨h1, h2⟩ := ih (i + b.length) (by omega)
      simp only [h1, List.flatten_cons, List.nil_append, h2]
      rw [List.take_append, List.take_of_length_le (l := b) (by omega), List.drop_append, List.drop_eq_nil_of_le (as := b) (by omega),
        List.nil_append, show count - (i + b.length) = count - i - b.length by omega]
      exact ⟨rfl, rfl⟩
    next h =>
      simp only [List.flatten_cons]
      rw [List.take_append_of_le_length (by omega), List.drop_append_of_le_length (by omega)]
      exact ⟨rfl, rfl⟩

theorem copyLoop_eq (count : Nat) (l : List Bytes) (i : Nat) : copyLoop count l i = (removeLoop count l i).1 := by
  induction l generalizing i with
  | nil => rfl
  | cons b r ih =>
    simp only [copyLoop, removeLoop]
    split
    · rw [ih]
    · rfl

theorem copyShort_eq (count : Nat) (l : List Bytes) (i : Nat) (hi : i ≤ count) :
    copyShortLoop count l i = l.flatten.take (count - i) := by
  induction l generalizing i with
  | nil => simp [copyShortLoop]
  | cons b r ih =>
    simp only [copyShortLoop, List.flatten_cons]
    by_cases h : i + b.length > count
    · rw [if_pos h, if_pos (by omega), List.take_append_of_le_length (by omega)]
    · rw [if_neg h]
      split
      · rw [List.take_of_length_le (Nat.le_refl _), List.take_append, List.take_of_length_le (by omega),
          show count - i - b.length = 0 by omega]; simp
      · rw [ih _ (by omega), List.take_of_length_le (l := b) (Nat.le_refl _), List.take_append,
          List.take_of_length_le (l := b) (by omega), show count - (i + b.length) = count - i - b.length by omega]

theorem absorb_flatten (size : Nat) (cur : Bytes) (l : List Bytes) :
    (absorb size cur l).1 ++ (absorb size cur l).2.2.flatten = cur ++ l.flatten := by
  induction l generalizing cur with
  | nil => simp [absorb]
  | cons b r ih =>
    simp only [absorb]; split
    · simp
    · simp [ih (cur ++ b)]

theorem compactLoop_flatten (size : Nat) (l : List Bytes) : (compactLoop size l).1.flatten = l.flatten := by
  fun_induction compactLoop size l with
  | case1 => rfl
  | case2 b r h t u ih =>
    have e : (List.replicate t.2.1 ([] : Bytes)).flatten = [] := by simp
    simp only [List.flatten_cons, List.flatten_append, e, List.nil_append]
    rw [ih]
    exact absorb_flatten size b r
  | case3 b r h u ih => simp only [List.flatten_cons]; rw [ih]

theorem filter_flatten (l : List Bytes) : (l.filter (!·.isEmpty)).flatten = l.flatten := by
  induction l with
  | nil => rfl
  | cons b r ih =>
    simp only [List.filter]
    split
    next h => simp [ih]
    next h => simp at h; simp [h, ih]

theorem compact_contents (b : Buf) : b.compact.2.contents = b.contents := by
  unfold Buf.compact
  split
  · exact popEmpty_contents b
  next size hs =>
    have hp := popEmpty_contents b
    simp only [Buf.contents] at hp ⊢
    split
    · show (List.filter _ _).flatten = _
      rw [filter_flatten, compactLoop_flatten, hp]
    · show (compactLoop size b.popEmpty.blocks).1.flatten = _
      rw [compactLoop_flatten, hp]

theorem popEmpty_idem_contents (b : Buf) : b.popEmpty.popEmpty.contents = b.contents := by
  rw [popEmpty_contents, popEmpty_contents]

/-- One operation refines the queue. -/
theorem exec_refines (b : Buf) (o : Op) (hc : b.contents.length < 2 ^ 32)
    (hf : o.fits) :
    (b.exec o).1 = o.answer b.contents ∧ (b.exec o).2.contents = o.after b.contents := by
  have hp := popEmpty_contents b
  cases o with
  | append s => exact ⟨rfl, by simp [Buf.exec, Buf.append, Buf.contents, Op.after, cut_flatten]⟩
  | prepend s => exact ⟨rfl, by simp [Buf.exec, Buf.prepend, Buf.contents, Op.after]⟩
  | skip n => exact ⟨rfl, by
      simp only [Buf.exec, Buf.skip, Buf.contents, Op.after]
      rw [skipLoop_eq _ _ _ (Nat.zero_le _)]; simp⟩
  | remove n =>
    simp only [Op.fits] at hf
    have ha := available_eq b.popEmpty n hf (by rw [hp]; exact hc)
    rw [hp] at ha
    obtain ⟨h1, h2⟩ := removeLoop_eq n b.popEmpty.blocks 0 (Nat.zero_le _)
    have hpb : b.popEmpty.blocks.flatten = b.contents := hp
    rw [hpb, Nat.sub_zero] at h1 h2
    simp only [Buf.exec, Op.answer, Op.after, Buf.remove]
    by_cases hav : (b.popEmpty.available n).1 = true
    · rw [if_pos hav]
      rw [hav] at ha
      have hle : n ≤ b.contents.length := by
        have := ha.symm; simp at this; exact this.1
      rw [if_pos hle, if_pos hle]
      exact ⟨congrArg Out.data h1, h2⟩
    · rw [if_neg hav]
      have hav' : (b.popEmpty.available n).1 = false := by simpa using hav
      rw [hav'] at ha
      refine ⟨?_, ?_⟩
      · split
        next hle =>
          have he : b.contents = [] := by
            have := ha.symm; simp at this; exact this hle
          simp [he]
        next => rfl
      · show b.popEmpty.contents = _
        rw [hp]
        split
        next hle =>
          have he : b.contents = [] := by
            have := ha.symm; simp at this; exact this hle
          simp [he]
        next => rfl
  | copy n =>
    simp only [Op.fits] at hf
    have ha := available_eq b.popEmpty n hf (by rw [hp]; exact hc)
    rw [hp] at ha
    obtain ⟨h1, h2⟩ := removeLoop_eq n b.popEmpty.blocks 0 (Nat.zero_le _)
    have hpb : b.popEmpty.blocks.flatten = b.contents := hp
    rw [hpb, Nat.sub_zero] at h1
    simp only [Buf.exec, Op.answer, Op.after, Buf.copy]
    by_cases hav : (b.popEmpty.available n).1 = true
    · rw [if_pos hav]
      rw [hav] at ha
      have hle : n ≤ b.contents.length := by
        have := ha.symm; simp at this; exact this.1
      rw [if_pos hle]
      exact ⟨congrArg Out.data (by rw [copyLoop_eq, h1]), hp⟩
    · rw [if_neg hav]
      have hav' : (b.popEmpty.available n).1 = false := by simpa using hav
      rw [hav'] at ha
      refine ⟨?_, hp⟩
      split
      next hle =>
        have he : b.contents = [] := by
          have := ha.symm; simp at this; exact this hle
        simp [he]
      next => rfl
  | copyShort n => exact ⟨by
      simp only [Buf.exec, Buf.copyShort, Op.answer]
      rw [copyShort_eq _ _ _ (Nat.zero_le _)]; simp [Buf.contents], rfl⟩
  | available n =>
    simp only [Op.fits] at hf
    exact ⟨by simp only [Buf.exec, Op.answer]; rw [available_eq b n hf hc], hp⟩
  | bytes n =>
    refine ⟨?_, rfl⟩
    simp only [Buf.exec, Op.answer, Buf.bytes]
    have hl : b.blocks.reverse.flatten.length = b.contents.length := flatten_reverse_length _
    rw [bytesLoop_eq _ _ _ (by omega) (.inr rfl), hl, Nat.zero_add]
  | clear => exact ⟨rfl, rfl⟩
  | compact => exact ⟨rfl, compact_contents b⟩
  | setSplitter s => exact ⟨rfl, rfl⟩

theorem run_refines (b : Buf) (ops : List Op) (hc : b.contents.length < 2 ^ 32) (hf : fits b.contents ops) :
    b.run ops = answers b.contents ops := by
  induction ops generalizing b with
  | nil => rfl
  | cons o l ih =>
    obtain ⟨h1, h2, h3⟩ := hf
    obtain ⟨e1, e2⟩ := exec_refines b o hc h1
    simp only [Buf.run, answers, e1]
    rw [ih _ (by rw [e2]; exact h2) (by rw [e2]; exact h3), e2]

/-! ## Property theorems -/

/-- C16. Every finite history of operations on a fresh buffer, with any data, any splitter and any
compaction in between, gives exactly the answers of a plain byte queue. -/
theorem C16_queue (ops : List Op) (hf : fits [] ops) : Buf.init.run ops = answers [] ops :=
  run_refines Buf.init ops (by simp [Buf.init, Buf.contents]) hf

/-- C16. However a sequence of bytes is cut into appended pieces, and whatever the splitter, the
buffer holds the same bytes. -/
theorem C16_cut_independent (pieces : List Bytes) (sp : Bytes) :
    (pieces.foldl Buf.append ⟨[], sp⟩).contents = pieces.flatten := by
  have key : ∀ (pieces : List Bytes) (b : Buf), (pieces.foldl Buf.append b).contents = b.contents ++ pieces.flatten := by
    intro pieces
    induction pieces with
    | nil => intro b; simp
    | cons p l ih => intro b; simp only [List.foldl_cons, ih]; simp [Buf.append, Buf.contents, cut_flatten]
  rw [key]; simp [Buf.contents]

/-- C16. `get` returns a piece from the front of the queue, empty only if the queue is, and does not
change the queue. -/
theorem C16_get (b : Buf) : b.get.1 <+: b.contents ∧ (b.get.1 = [] ↔ b.contents = []) ∧ b.get.2.contents = b.contents := by
  have hp := popEmpty_contents b
  have hd := @dropWhile_ne b.blocks
  unfold Buf.get
  refine ⟨?_, ?_, hp⟩
  · rw [← hp]
    simp only [Buf.contents]
    cases b.popEmpty.blocks with
    | nil => simp
    | cons x r => exact ⟨r.flatten, by simp⟩
  · have hd' : b.popEmpty.blocks.isEmpty = b.contents.isEmpty := hd
    cases h : b.popEmpty.blocks with
    | nil => rw [h] at hd'; simp at hd' ⊢; exact hd'
    | cons x r =>
      rw [h] at hd'
      have hx : x ≠ [] := by
        intro hx
        simp only [Buf.popEmpty] at h
        have hnot : ∀ (l : List Bytes) (x : Bytes) (r : List Bytes), l.dropWhile (·.isEmpty) = x :: r → x ≠ [] := by
          intro l
          induction l with
          | nil => intro x r h; simp at h
          | cons y l ih =>
            intro x r h
            simp only [List.dropWhile] at h
            split at h
            · exact ih x r h
            next hy =>
              intro hx
              simp at h
              rw [h.1, hx] at hy
              simp at hy
        exact hnot _ _ _ h hx
      simp at hd'
      simp [hx]
      intro hc; rw [hc] at hd'; simp at hd'

theorem toSplit_spec (sp : Bytes) (l : List Bytes) (i : Nat) (h : i + l.flatten.length < 2 ^ 32) :
    toSplitLoop sp l i = 0 ∨
      ∃ k, toSplitLoop sp l i = i + k ∧ k ≤ l.flatten.length ∧ sp <:+ l.flatten.take k := by
  induction l generalizing i with
  | nil => left; rfl
  | cons b r ih =>
    simp only [List.flatten_cons, List.length_append] at h
    simp only [toSplitLoop]
    split
    next hs =>
      right
      refine ⟨b.length, Nat.mod_eq_of_lt (by omega), by simp, ?_⟩
      rw [List.flatten_cons, List.take_append_of_le_length (Nat.le_refl _), List.take_of_length_le (Nat.le_refl _)]
      exact ⟨b.take (b.length - sp.length), by conv => lhs; rw [← hs.2]; rw [List.length_drop]; rw [show b.length - (b.length - (b.length - sp.length)) = b.length - sp.length by omega, List.take_append_drop]⟩
    next hs =>
      rw [Nat.mod_eq_of_lt (by omega)]
      rcases ih (i + b.length) (by omega) with h0 | ⟨k, h1, h2, h3⟩
      · exact .inl h0
      · right
        refine ⟨b.length + k, by omega, by simp only [List.flatten_cons, List.length_append]; omega, ?_⟩
        rw [List.flatten_cons, List.take_append, List.take_of_length_le (l := b) (by omega)]
        rw [show b.length + k - b.length = k by omega]
        exact h3.trans (List.suffix_append _ _)

/-- C16. In line-splitting mode, a reported line length is the length of a prefix of the queue that
ends with the splitter. -/
theorem C16_bytesToSplit (b : Buf) (hc : b.contents.length < 2 ^ 32) (h : b.bytesToSplit ≠ 0) :
    b.bytesToSplit ≤ b.contents.length ∧ b.splitter <:+ b.contents.take b.bytesToSplit := by
  have := toSplit_spec b.splitter b.blocks 0 (by simpa [Buf.contents] using hc)
  rcases this with h0 | ⟨k, h1, h2, h3⟩
  · exact absurd h0 h
  · rw [Nat.zero_add] at h1
    unfold Buf.bytesToSplit
    rw [h1]
    exact ⟨h2, h3⟩

theorem scanBlock_first {sp s : Bytes} {k : Nat} (hk : findSub sp s = some k) (hsp : sp ≠ [])
    (hb : k + sp.length ≤ blockSize) (j : Nat) (hj : j < k + sp.length) : scanBlock sp s j = k + sp.length := by
  obtain ⟨h1, h2, h3⟩ := findSub_some hk
  have hl : 0 < sp.length := List.length_pos_iff.mpr hsp
  induction hn : k + sp.length - 1 - j generalizing j with
  | zero =>
    have e : j + 1 - sp.length = k := by omega
    rw [scanBlock, dif_pos ⟨by omega, by omega⟩, if_pos]
    · omega
    · refine ⟨by omega, ?_⟩
      rw [e]
      exact (List.prefix_iff_eq_take.mp h2).symm
  | succ n ih =>
    rw [scanBlock, dif_pos ⟨by omega, by omega⟩, if_neg]
    · exact ih (j + 1) (by omega) (by omega)
    · rintro ⟨ha, hb'⟩
      refine h3 (j + 1 - sp.length) (by omega) ?_
      exact List.prefix_iff_eq_take.mpr hb'.symm

/-- C16. Data that arrives in an empty buffer is offered up to and including the first splitter, when that
ends within the first 4096 bytes. -/
theorem C16_first_line (sp s : Bytes) (k : Nat) (hsp : sp ≠ []) (hk : findSub sp s = some k)
    (hb : k + sp.length ≤ 4096) : ((Buf.mk [] sp).append s).bytesToSplit = k + sp.length := by
  obtain ⟨h1, h2, _⟩ := findSub_some hk
  have hl : 0 < sp.length := List.length_pos_iff.mpr hsp
  have hn : nextBlock sp s = k + sp.length := by
    rw [nextBlock, if_neg hsp]; exact scanBlock_first hk hsp hb 0 (by omega)
  have hs : s ≠ [] := by intro h; subst h; simp at h1; exact hsp h1.2
  simp only [Buf.append, Buf.bytesToSplit, List.nil_append]
  rw [cut, dif_neg (by rw [hn]; rintro (h | h); exact hs h; omega), hn]
  have ht : (s.take (k + sp.length)).length = k + sp.length := by simp; omega
  rw [toSplitLoop, if_pos]
  · rw [ht, Nat.zero_add, Nat.mod_eq_of_lt (by omega)]
  · rw [ht]
    refine ⟨by omega, ?_⟩
    rw [show k + sp.length - sp.length = k by omega, List.drop_take, show k + sp.length - k = sp.length by omega]
    exact (List.prefix_iff_eq_take.mp h2).symm

example : findSub [10] [10, 65] = some 0 ∧ findSub [13, 10] [65, 13, 13, 10, 66] = some 2 := by decide +kernel

/-- The bound of C16 is real: a request for 2^32 bytes is taken for a request for none. -/
theorem C16_limit : ((Buf.init.append [1, 2, 3]).available (2 ^ 32)).1 = true := by
  simp [Buf.init, Buf.append, cut, nextBlock, scanBlock, Buf.available, Buf.popEmpty, availLoop, blockSize]

/-! ## Non-vacuity -/

example : fits [] [.append [1, 10, 2, 3], .prepend [7], .remove 3, .compact, .copy 2, .skip 9, .available 0] := by
  simp [fits, Op.fits, Op.after]
example : answers [] [.append [1, 10, 2, 3], .prepend [7], .remove 3, .compact, .copy 2, .skip 9, .available 0] =
    [.unit, .unit, .data [7, 1, 10], .unit, .data [2, 3], .unit, .flag false] := by decide +kernel

end Verif.SockBuf
