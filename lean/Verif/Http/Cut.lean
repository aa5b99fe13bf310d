import Verif.Http.Model
import Verif.SockBuf.Props

/-!
# Reading does not depend on how the stream is cut

`whole p s` reads the first message from the complete stream `s`. `receive` agrees with it
whatever the pieces are.
-/
namespace Verif.Http
open Verif.SockBuf (Buf)

/-- What a finished message consists of, without the progress counter. -/
def obs (p : Parser) : Parser := { p with currentLength := 0 }

/-- Body by length, on the complete stream. -/
def wholeLen (p : Parser) (s : Bytes) : Option (Parser × Bytes) :=
  if p.length ≤ p.body.length + s.length then
    some (formVars { p with body := p.body ++ s.take (p.length - p.body.length) }, s.drop (p.length - p.body.length))
  else none

/-- Chunked body, on the complete stream. -/
def wholeChunks (p : Parser) (s : Bytes) : Option (Parser × Bytes) :=
  if h0 : s = [] then none
  else if hd : p.doing ≠ 0 then
    if s.length < p.doing then none
    else wholeChunks { p with body := p.body ++ s.take p.doing, doing := 0 } (s.drop p.doing)
  else
    match findChar 10 s with
    | none => none
    | some f =>
      if cutCR (s.take f) = [] then wholeChunks p (s.drop (f + 1))
      else if chunkLen (cutCR (s.take f)) = 0 then some ({ p with getChunks := false }, s)
      else wholeChunks { p with doing := chunkLen (cutCR (s.take f)) } (s.drop (f + 1))
  termination_by s.length
  decreasing_by
    all_goals
      have : 0 < s.length := List.length_pos_iff.mpr h0
      simp only [List.length_drop]; omega

/-- Body of any kind, on the complete stream. -/
def wholeBody (p : Parser) (s : Bytes) : Option (Parser × Bytes) :=
  if p.headerOnly then some (p, s)
  else if noBody p.url then some (p, s)
  else if p.knownLength && !p.getChunks then wholeLen p s
  else if p.getChunks then wholeChunks p s
  else if p.protocol.take 4 = sRTSP ∨ p.method.take 4 = sRTSP then some (p, s)
  else if atoll p.url = 0 then some ({ p with possiblyComplete := true }, s) else none

/-- The first message of a complete stream. -/
def whole (p : Parser) (s : Bytes) : Option (Parser × Bytes) :=
  if p.seenHeaders then wholeBody p s
  else if h0 : s = [] then none
  else
    match findChar 10 s with
    | none => none
    | some f => whole (headerLine p (s.take f)) (s.drop (f + 1))
  termination_by s.length
  decreasing_by
    have : 0 < s.length := List.length_pos_iff.mpr h0
    simp only [List.length_drop]; omega

/-- Facts about a parser inside a body; `n` more bytes may come. -/
structure InBody (p : Parser) (n : Nat) : Prop where
  len : (p.knownLength && !p.getChunks) = true →
    p.currentLength = p.body.length ∧ p.body.length + n < 2 ^ 31 ∧
      (p.length < 2 ^ 31 ∨ 2 ^ 64 - 2 ^ 31 ≤ p.length) ∧ p.length < 2 ^ 64 ∧ p.body.length ≤ p.length
  pc : p.possiblyComplete = true → p.knownLength = false ∧ p.getChunks = false ∧ atoll p.url ≠ 0 ∧
    p.headerOnly = false ∧ noBody p.url = false ∧ ¬ (p.protocol.take 4 = sRTSP ∨ p.method.take 4 = sRTSP)

/-- States in which the receiver waits for more; `n` more bytes may come. -/
structure Waiting (p : Parser) (n : Nat) : Prop where
  tot : n < 2 ^ 31
  pc : p.seenHeaders = false → p.possiblyComplete = false
  inb : p.seenHeaders = true → InBody p n
  more : p.seenHeaders = true → wholeBody (obs p) [] = none

/-- At most one newline per block, at its end. -/
def OneLine (b : Bytes) : Prop := 10 ∉ b.dropLast

theorem atoiSize_range (s : Bytes) : (atoiSize s < 2 ^ 31 ∨ 2 ^ 64 - 2 ^ 31 ≤ atoiSize s) ∧ atoiSize s < 2 ^ 64 := by
  unfold atoiSize
  have h := Int.emod_lt_of_pos (atoll s) (show (0:Int) < 2 ^ 32 by decide)
  have h' : (atoll s % 2 ^ 32).toNat < 2 ^ 32 := by omega
  generalize (atoll s % 2 ^ 32).toNat = v at h'
  simp only
  split <;> omega

theorem headerLine_obs (p : Parser) (l : Bytes) : headerLine (obs p) l = obs (headerLine p l) := by
  unfold headerLine requestLine fieldLine endHeaders setUrl obs
  simp only
  repeat' split
  all_goals first | rfl | (rename_i h _; cases h) | skip

theorem headerLine_pc (p : Parser) (l : Bytes) : (headerLine p l).possiblyComplete = p.possiblyComplete := by
  unfold headerLine requestLine fieldLine endHeaders setUrl
  simp only
  repeat' split
  all_goals rfl

theorem headerLine_seen (p : Parser) (l : Bytes) (h : p.seenHeaders = false) (h' : (headerLine p l).seenHeaders = true) :
    headerLine p l = endHeaders p := by
  revert h'
  unfold headerLine requestLine fieldLine setUrl
  simp only
  repeat' split
  all_goals simp [h]

theorem endHeaders_inBody (p : Parser) (n : Nat) (hn : n < 2 ^ 31) (h : p.possiblyComplete = false) :
    InBody (endHeaders p) n := by
  constructor
  · intro hk
    have hk' : getHeader p.headers sContentLength ≠ [] := by
      intro h0; simp [endHeaders, h0] at hk
    have := atoiSize_range (getHeader p.headers sContentLength)
    refine ⟨rfl, by simpa [endHeaders] using hn, ?_, ?_, Nat.zero_le _⟩
    · simp only [endHeaders, if_pos hk']; exact this.1
    · simp only [endHeaders, if_pos hk']; exact this.2
  · intro hp; rw [show (endHeaders p).possiblyComplete = p.possiblyComplete from rfl, h] at hp; cases hp

theorem wholeChunks_take (p : Parser) (f t : Bytes) (hd : p.doing ≠ 0) :
    wholeChunks p (f ++ t) =
      wholeChunks { p with body := p.body ++ f.take (min f.length p.doing), doing := p.doing - min f.length p.doing }
        (f.drop (min f.length p.doing) ++ t) := by
  by_cases hf : f = []
  · subst hf; simp
  by_cases hl : p.doing ≤ f.length
  · rw [Nat.min_eq_right hl, wholeChunks, dif_neg (by simp [hf]), dif_pos hd,
      if_neg (by simp only [List.length_append]; omega)]
    rw [List.take_append_of_le_length hl, List.drop_append_of_le_length hl, Nat.sub_self]
  · have hl' : f.length < p.doing := by omega
    rw [Nat.min_eq_left (by omega), List.take_length, List.drop_length, List.nil_append]
    rw [wholeChunks, dif_neg (by simp [hf]), dif_pos hd]
    conv => rhs; rw [wholeChunks]
    by_cases ht : t = []
    · subst ht; simp only [List.append_nil, dif_pos, if_pos hl']
    · rw [dif_neg ht, dif_pos (show p.doing - f.length ≠ 0 by omega)]
      simp only [List.length_append]
      by_cases h2 : f.length + t.length < p.doing
      · rw [if_pos h2, if_pos (by omega)]
      · rw [if_neg h2, if_neg (by omega)]
        rw [List.take_append, List.drop_append, List.take_of_length_le (by omega), List.drop_of_length_le (by omega)]
        simp only [List.nil_append, List.append_assoc]

theorem findChar_append_some {c : UInt8} {s t : Bytes} {k : Nat} (h : findChar c s = some k) :
    findChar c (s ++ t) = some k ∧ k < s.length := by
  obtain ⟨a, r, rfl, ha, rfl⟩ := findChar_some.1 h
  refine ⟨?_, by simp⟩
  rw [List.append_assoc, List.cons_append]; exact findChar_append ha

/-- The claim about one body step, for a named outcome. -/
def StepOk (p : Parser) (f : Bytes) (n : Nat) (o : Bool × Parser × Bytes) : Prop :=
  o.2.2 <:+ f ∧ o.2.1.seenHeaders = true ∧
    (if o.1 && accept true o.2.1 then
      ∀ t, wholeBody (obs p) (f ++ t) = some (obs o.2.1, o.2.2 ++ t)
     else
      (∀ t, t.length ≤ n → wholeBody (obs p) (f ++ t) = wholeBody (obs o.2.1) (o.2.2 ++ t)) ∧
      Waiting o.2.1 (o.2.2.length + n) ∧ (f ≠ [] → o.2.2.length < f.length))

theorem stepLen (p : Parser) (f : Bytes) (n : Nat) (hi : InBody p (f.length + n)) (hs : p.seenHeaders = true)
    (hn : f.length + n < 2 ^ 31) (hf : f ≠ [] → wholeBody (obs p) [] = none)
    (h1 : p.headerOnly = false) (h2 : noBody p.url = false) (h3 : (p.knownLength && !p.getChunks) = true) :
    StepOk p f n (bodyStep p f) := by
  obtain ⟨hc, hb, hr, hr', hble⟩ := hi.len h3
  have hpc : p.possiblyComplete = false := by
    by_cases hp : p.possiblyComplete = true
    · have := hi.pc hp; simp [this.1] at h3
    · simpa using hp
  have hw : ∀ q : Parser, ∀ s, q.headerOnly = false → noBody q.url = false → (q.knownLength && !q.getChunks) = true →
      wholeBody q s = wholeLen q s := by
    intro q s a b c; simp [wholeBody, a, b, c]
  have hgap : min ((p.length + (2 ^ 64 - p.currentLength)) % 2 ^ 32) f.length = min (p.length - p.body.length) f.length := by
    rw [hc]
    rcases hr with hr | hr
    · have : (p.length + (2 ^ 64 - p.body.length)) % 2 ^ 32 = p.length - p.body.length := by omega
      rw [this]
    · have : f.length ≤ (p.length + (2 ^ 64 - p.body.length)) % 2 ^ 32 := by omega
      rw [Nat.min_eq_right this, Nat.min_eq_right (by omega)]
  have hstep : bodyStep p f =
      let m := min (p.length - p.body.length) f.length
      let q := { p with body := p.body ++ f.take m, currentLength := p.currentLength + m }
      if p.length = p.currentLength + m then (true, formVars q, f.drop m) else (false, q, f.drop m) := by
    unfold bodyStep
    simp only [h1, h2, h3, Bool.false_eq_true, if_false, if_true, hgap]
  rw [hstep]
  simp only
  by_cases hdone : p.length = p.currentLength + min (p.length - p.body.length) f.length
  · rw [if_pos hdone]
    have hlen : p.length - p.body.length ≤ f.length := by omega
    have hm : min (p.length - p.body.length) f.length = p.length - p.body.length := Nat.min_eq_left hlen
    rw [hm]
    have hacc : ∀ q : Parser, q.possiblyComplete = false → (true && accept true (formVars q)) = true := by
      intro q hq; unfold formVars accept; split <;> simp [hq]
    refine ⟨List.drop_suffix _ _, ?_, ?_⟩
    · simp only [formVars]; split <;> exact hs
    · rw [if_pos (by exact hacc _ hpc)]
      intro t
      rw [hw (obs p) _ h1 h2 h3, wholeLen, if_pos (by simp [obs]; omega)]
      simp only [obs]
      rw [List.take_append_of_le_length hlen, List.drop_append_of_le_length hlen]
      congr 2
      unfold formVars
      simp only
      split <;> rfl
  · rw [if_neg hdone]
    have hlen : f.length < p.length - p.body.length := by omega
    have hm : min (p.length - p.body.length) f.length = f.length := Nat.min_eq_right (by omega)
    rw [hm, List.drop_length, List.take_length]
    refine ⟨List.nil_suffix, hs, ?_⟩
    simp only [Bool.false_and, Bool.false_eq_true, if_false, List.nil_append]
    refine ⟨?_, ?_, ?_⟩
    · intro t _
      rw [hw (obs p) _ h1 h2 h3, hw _ _ (by exact h1) (by exact h2) (by exact h3), wholeLen, wholeLen]
      simp only [obs, List.length_append]
      by_cases hle : p.length ≤ p.body.length + (f.length + t.length)
      · rw [if_pos hle, if_pos (by omega), List.take_append, List.drop_append,
          List.take_of_length_le (by omega : f.length ≤ _), List.drop_of_length_le (by omega : f.length ≤ _), List.append_assoc, List.nil_append,
          show p.length - p.body.length - f.length = p.length - (p.body.length + f.length) by omega]
      · rw [if_neg hle, if_neg (by omega)]
    · refine ⟨by simp; omega, fun _ => hpc, fun _ => ⟨fun _ => ?_, fun hp => ?_⟩, fun _ => ?_⟩
      · simp only [List.length_append, List.length_nil]
        refine ⟨by omega, by omega, hr, hr', by omega⟩
      · simp only [hpc] at hp; cases hp
      · rw [hw _ _ (by exact h1) (by exact h2) (by exact h3), wholeLen, if_neg]
        simp [obs]; omega
    · intro hne; exact List.length_pos_iff.mpr hne

theorem stepChunks (p : Parser) (f : Bytes) (n : Nat) (hi : InBody p (f.length + n)) (hs : p.seenHeaders = true)
    (hn : f.length + n < 2 ^ 31) (hl : f ≠ [] → p.doing = 0 → 10 ∈ f)
    (h1 : p.headerOnly = false) (h2 : noBody p.url = false) (h4 : p.getChunks = true) :
    StepOk p f n (bodyStep p f) := by
  have h3 : (p.knownLength && !p.getChunks) = false := by simp [h4]
  have hpc : p.possiblyComplete = false := by
    by_cases hp : p.possiblyComplete = true
    · have := hi.pc hp; simp [this.2.1] at h4
    · simpa using hp
  have hw : ∀ q : Parser, ∀ s, q.headerOnly = false → noBody q.url = false → q.getChunks = true →
      wholeBody q s = wholeChunks q s := by
    intro q s a b c; simp [wholeBody, a, b, c]
  have hwait : ∀ (q : Parser) m, q.headerOnly = false → noBody q.url = false → q.getChunks = true →
      q.possiblyComplete = false → m < 2 ^ 31 → Waiting q m := by
    intro q m a b c d e
    refine ⟨e, fun _ => d, fun _ => ⟨fun hk => by simp [c] at hk, fun hp => by simp [d] at hp⟩, fun _ => ?_⟩
    rw [hw (obs q) _ a b c, wholeChunks, dif_pos rfl]
  unfold bodyStep
  rw [if_neg (by simp [h1]), if_neg (by simp [h2]), if_neg (by simp [h3]), if_pos h4]
  dsimp only
  by_cases hd : p.doing = 0
  · rw [if_neg (by simp [hd])]
    cases hfc : findChar 10 f with
    | none =>
      have hf : f = [] := by
        by_cases hf : f = []
        · exact hf
        · exact absurd (hl hf hd) (findChar_none.1 hfc)
      subst hf
      simp only
      refine ⟨List.suffix_refl _, hs, ?_⟩
      simp only [Bool.false_and, Bool.false_eq_true, if_false, List.nil_append]
      refine ⟨fun t _ => rfl, hwait _ _ (by exact h1) (by exact h2) (by exact h4) (by exact hpc) (by simpa using hn), ?_⟩
      intro h; cases h rfl
    | some k =>
      simp only
      have hk := fun t => findChar_append_some (t := t) hfc
      have hkl : k < f.length := (hk []).2
      have hne : ∀ t, f ++ t ≠ [] := by
        intro t h; have := congrArg List.length h; simp only [List.length_append, List.length_nil] at this; omega
      have htake : ∀ t, (f ++ t).take k = f.take k := fun t => List.take_append_of_le_length (by omega)
      have hdrop : ∀ t, (f ++ t).drop (k + 1) = f.drop (k + 1) ++ t := fun t => List.drop_append_of_le_length (by omega)
      by_cases he : cutCR (f.take k) = []
      · rw [if_pos he]
        refine ⟨List.drop_suffix _ _, hs, ?_⟩
        simp only [Bool.false_and, Bool.false_eq_true, if_false]
        refine ⟨?_, hwait _ _ (by exact h1) (by exact h2) (by exact h4) (by exact hpc) (by simp only [List.length_drop]; omega), ?_⟩
        · intro t _
          rw [hw _ _ (by exact h1) (by exact h2) (by exact h4), hw _ _ (by exact h1) (by exact h2) (by exact h4),
            wholeChunks, dif_neg (hne t), dif_neg (show ¬ (obs p).doing ≠ 0 by simp [obs, hd]), (hk t).1]
          simp only [htake, if_pos he, hdrop]
          rfl
        · intro _; simp only [List.length_drop]; omega
      · rw [if_neg he]
        by_cases hz : chunkLen (cutCR (f.take k)) = 0
        · rw [if_pos hz]
          refine ⟨List.suffix_refl _, hs, ?_⟩
          rw [if_pos (by simp [accept, hpc])]
          intro t
          rw [hw _ _ (by exact h1) (by exact h2) (by exact h4),
            wholeChunks, dif_neg (hne t), dif_neg (show ¬ (obs p).doing ≠ 0 by simp [obs, hd]), (hk t).1]
          simp only [htake, if_neg he, if_pos hz]
          rfl
        · rw [if_neg hz]
          refine ⟨List.drop_suffix _ _, hs, ?_⟩
          simp only [Bool.false_and, Bool.false_eq_true, if_false]
          refine ⟨?_, hwait _ _ (by exact h1) (by exact h2) (by exact h4) (by exact hpc) (by simp only [List.length_drop]; omega), ?_⟩
          · intro t _
            rw [hw _ _ (by exact h1) (by exact h2) (by exact h4), hw _ _ (by exact h1) (by exact h2) (by exact h4),
              wholeChunks, dif_neg (hne t), dif_neg (show ¬ (obs p).doing ≠ 0 by simp [obs, hd]), (hk t).1]
            simp only [htake, if_neg he, if_neg hz, hdrop]
            rfl
          · intro _; simp only [List.length_drop]; omega
  · rw [if_pos hd]
    refine ⟨List.drop_suffix _ _, hs, ?_⟩
    simp only [Bool.false_and, Bool.false_eq_true, if_false]
    refine ⟨?_, hwait _ _ (by exact h1) (by exact h2) (by exact h4) (by exact hpc) (by simp only [List.length_drop]; omega), ?_⟩
    · intro t _
      rw [hw _ _ (by exact h1) (by exact h2) (by exact h4), hw _ _ (by exact h1) (by exact h2) (by exact h4),
        wholeChunks_take (obs p) f t hd]
      rfl
    · intro hf
      have := List.length_pos_iff.mpr hf
      simp only [List.length_drop]; omega

theorem bodyStep_ok (p : Parser) (f : Bytes) (n : Nat) (hi : InBody p (f.length + n)) (hs : p.seenHeaders = true)
    (hn : f.length + n < 2 ^ 31)
    (hf : f ≠ [] → wholeBody (obs p) [] = none)
    (hl : f ≠ [] → p.getChunks = true → p.doing = 0 → 10 ∈ f) :
    StepOk p f n (bodyStep p f) := by
  by_cases h1 : p.headerOnly = true
  · have hf0 : f = [] := by
      by_cases h : f = []
      · exact h
      · have := hf h; simp [wholeBody, obs, h1] at this
    have hpc : p.possiblyComplete = false := by
      by_cases hp : p.possiblyComplete = true
      · have := hi.pc hp; simp [h1] at this
      · simpa using hp
    subst hf0
    simp only [bodyStep, h1, if_true]
    refine ⟨List.suffix_refl _, hs, ?_⟩
    rw [if_pos (by simp [accept, hpc])]
    intro t; simp [wholeBody, obs, h1]
  have h1 : p.headerOnly = false := by simpa using h1
  by_cases h2 : noBody p.url = true
  · have hf0 : f = [] := by
      by_cases h : f = []
      · exact h
      · have := hf h; simp [wholeBody, obs, h1, h2] at this
    have hpc : p.possiblyComplete = false := by
      by_cases hp : p.possiblyComplete = true
      · have := hi.pc hp; simp [h2] at this
      · simpa using hp
    subst hf0
    simp only [bodyStep, h1, h2, if_true, Bool.false_eq_true, if_false]
    refine ⟨List.suffix_refl _, hs, ?_⟩
    rw [if_pos (by simp [accept, hpc])]
    intro t; simp [wholeBody, obs, h1, h2]
  have h2 : noBody p.url = false := by simpa using h2
  by_cases h3 : (p.knownLength && !p.getChunks) = true
  · exact stepLen p f n hi hs hn hf h1 h2 h3
  by_cases h4 : p.getChunks = true
  · exact stepChunks p f n hi hs hn (fun a b => hl a h4 b) h1 h2 h4
  have h4 : p.getChunks = false := by simpa using h4
  have h3' : p.knownLength = false := by simpa [h4] using h3
  by_cases h5 : p.protocol.take 4 = sRTSP ∨ p.method.take 4 = sRTSP
  · have hf0 : f = [] := by
      by_cases h : f = []
      · exact h
      · have := hf h; simp [wholeBody, obs, h1, h2, h3', h4, h5] at this
    have hpc : p.possiblyComplete = false := by
      by_cases hp : p.possiblyComplete = true
      · have := hi.pc hp; exact absurd h5 this.2.2.2.2.2
      · simpa using hp
    subst hf0
    simp only [bodyStep, h1, h2, h3', h4, if_true, Bool.false_eq_true, if_false, Bool.false_and, if_pos h5]
    refine ⟨List.suffix_refl _, hs, ?_⟩
    rw [if_pos (by simp [accept, hpc])]
    intro t; simp [wholeBody, obs, h1, h2, h3', h4, h5]
  · have hw : ∀ s, wholeBody (obs p) s = if atoll p.url = 0 then some ({ obs p with possiblyComplete := true }, s) else none := by
      intro s; simp [wholeBody, obs, h1, h2, h3', h4, h5]
    by_cases h6 : atoll p.url = 0
    · have hf0 : f = [] := by
        by_cases h : f = []
        · exact h
        · have := hf h; simp [hw, h6] at this
      subst hf0
      simp only [bodyStep, h1, h2, h3', h4, Bool.false_eq_true, if_false, Bool.false_and, if_neg h5]
      refine ⟨List.suffix_refl _, hs, ?_⟩
      rw [if_pos (by simp [accept, h6])]
      intro t; rw [hw, if_pos h6]; simp [obs, h1, h3', h4]
    · unfold bodyStep
      rw [if_neg (by simp [h1]), if_neg (by simp [h2]), if_neg h3, if_neg (by simp [h4]), if_neg h5]
      refine ⟨List.nil_suffix, hs, ?_⟩
      rw [if_neg (by simp [accept, h6])]
      have hw2 : ∀ s, wholeBody (obs { p with body := p.body ++ f, possiblyComplete := true }) s = none := by
        intro s; simp [wholeBody, obs, h1, h2, h3', h4, h5, h6]
      refine ⟨?_, ?_, ?_⟩
      · intro t _; rw [hw, if_neg h6]; exact (hw2 _).symm
      · refine ⟨by simp; omega, fun h => ?_, fun _ => ⟨fun hk => ?_, fun _ => ⟨h3', h4, h6, h1, h2, h5⟩⟩, fun _ => hw2 _⟩
        · simp [hs] at h
        · simp [h3'] at hk
      · intro h; exact List.length_pos_iff.mpr h

theorem whole_seen (p : Parser) (s : Bytes) (h : p.seenHeaders = true) : whole p s = wholeBody p s := by
  rw [whole.eq_def, if_pos h]

/-- The claim about one call of `parse`. -/
def ParseOk (p : Parser) (f : Bytes) (n : Nat) (o : Bool × Parser × Bytes) : Prop :=
  o.2.2 <:+ f ∧
    (if o.1 && accept true o.2.1 then
      ∀ t, whole (obs p) (f ++ t) = some (obs o.2.1, o.2.2 ++ t)
     else
      (∀ t, t.length ≤ n → whole (obs p) (f ++ t) = whole (obs o.2.1) (o.2.2 ++ t)) ∧
      Waiting o.2.1 (o.2.2.length + n) ∧ o.2.2.length < f.length)

theorem split_line (f : Bytes) (ho : OneLine f) (hl : f.getLast? = some 10) : ∃ l, f = l ++ [10] ∧ 10 ∉ l := by
  rw [List.getLast?_eq_some_iff] at hl
  obtain ⟨l, rfl⟩ := hl
  refine ⟨l, rfl, ?_⟩
  unfold OneLine at ho; simpa using ho

theorem parse_ok (p : Parser) (f : Bytes) (n : Nat) (hw : Waiting p (f.length + n)) (hf : f ≠ []) (ho : OneLine f)
    (hl : needLine p = true → f.getLast? = some 10) : ParseOk p f n (parse f.length p f) := by
  have hpos := List.length_pos_iff.mpr hf
  obtain ⟨k, hk⟩ : ∃ k, f.length = k + 1 := ⟨f.length - 1, by omega⟩
  rw [hk, parse, if_neg hf]
  by_cases hs : p.seenHeaders = true
  · rw [if_pos hs]
    have := bodyStep_ok p f n (hw.inb hs) hs hw.tot (fun _ => hw.more hs) (by
      intro _ hg hd
      obtain ⟨l, rfl, -⟩ := split_line f ho (hl (by simp [needLine, hg, hd]))
      simp)
    obtain ⟨h1, h2, h3⟩ := this
    refine ⟨h1, ?_⟩
    split
    next hc =>
      rw [if_pos hc] at h3
      intro t; rw [whole_seen _ _ (by exact hs)]; exact h3 t
    next hc =>
      rw [if_neg hc] at h3
      refine ⟨fun t ht => ?_, h3.2.1, h3.2.2 hf⟩
      rw [whole_seen _ _ (by exact hs), whole_seen _ _ (by exact h2)]; exact h3.1 t ht
  · have hs' : p.seenHeaders = false := by simpa using hs
    rw [if_neg hs]
    obtain ⟨l, rfl, hnl⟩ := split_line f ho (hl (by simp [needLine, hs']))
    have hfc : findChar 10 (l ++ [10]) = some l.length := findChar_append hnl
    rw [hfc]
    have hwh : ∀ t, whole (obs p) ((l ++ [10]) ++ t) = whole (obs (headerLine p l)) t := by
      intro t
      rw [whole.eq_def, if_neg (by simp [obs, hs']), dif_neg (by simp), List.append_assoc, List.singleton_append, findChar_append hnl]
      simp only [List.take_left]
      rw [headerLine_obs, List.drop_append, List.drop_of_length_le (by omega)]
      simp
    simp only [List.take_left]
    rw [List.drop_of_length_le (by simp)]
    have hpc := headerLine_pc p l
    rw [hw.pc hs'] at hpc
    by_cases hs2 : (headerLine p l).seenHeaders = true
    · rw [if_pos hs2]
      have he := headerLine_seen p l hs' hs2
      have htot := hw.tot
      have := bodyStep_ok (headerLine p l) [] n (by
          rw [he]; exact endHeaders_inBody p _ (by simp only [List.length_nil]; omega) (hw.pc hs')) hs2
        (by simp only [List.length_nil]; omega) (fun h => absurd rfl h) (fun h => absurd rfl h)
      obtain ⟨h1, h2, h3⟩ := this
      have h1' : (bodyStep (headerLine p l) []).2.2 = [] := List.suffix_nil.mp h1
      refine ⟨by rw [h1']; exact List.nil_suffix, ?_⟩
      split
      next hc =>
        rw [if_pos hc] at h3
        intro t; rw [hwh, whole_seen _ _ (by exact hs2)]; exact h3 t
      next hc =>
        rw [if_neg hc] at h3
        refine ⟨fun t ht => ?_, h3.2.1, by rw [h1']; simp⟩
        rw [hwh, whole_seen _ _ (by exact hs2), whole_seen _ _ (by exact h2)]; exact h3.1 t ht
    · rw [if_neg hs2]
      have hp : parse k (headerLine p l) [] = (false, headerLine p l, []) := by
        cases k with
        | zero => rw [parse, hpc]
        | succ k => rw [parse, if_pos rfl, hpc]
      rw [hp]
      refine ⟨List.nil_suffix, ?_⟩
      simp only [Bool.false_and, Bool.false_eq_true, if_false]
      refine ⟨fun t _ => hwh t, ⟨by have := hw.tot; simp at this ⊢; omega, fun _ => hpc, fun h => absurd h hs2, fun h => absurd h hs2⟩, by simp⟩

/-- Blocks as the receive buffer has them. -/
def Blocks (l : List Bytes) : Prop := ∀ b ∈ l, OneLine b

theorem oneLine_append {b c : Bytes} (hb : OneLine b) (hl : b.getLast? ≠ some 10) (hc : OneLine c) : OneLine (b ++ c) := by
  have hb' : 10 ∉ b := by
    intro h
    by_cases hne : b = []
    · simp [hne] at h
    · have := List.dropLast_concat_getLast hne
      rw [← this, List.mem_append] at h
      rcases h with h | h
      · exact hb h
      · simp only [List.mem_singleton] at h
        exact hl (by rw [List.getLast?_eq_some_getLast hne, ← h])
  unfold OneLine at *
  by_cases hcn : c = []
  · subst hcn; rw [List.append_nil]; exact hb
  · rw [List.dropLast_append_of_ne_nil hcn, List.mem_append]
    exact fun h => h.elim hb' hc

theorem oneLine_no {b : Bytes} (hb : OneLine b) (hl : b.getLast? ≠ some 10) : 10 ∉ b := by
  have := oneLine_append hb hl (c := [0]) (by unfold OneLine; simp)
  unfold OneLine at this; simpa using this

theorem oneLine_suffix {a b : Bytes} (h : a <:+ b) (hb : OneLine b) : OneLine a := by
  obtain ⟨x, rfl⟩ := h
  unfold OneLine at *
  by_cases ha : a = []
  · subst ha; simp
  · rw [List.dropLast_append_of_ne_nil ha] at hb
    exact fun h => hb (List.mem_append_right _ h)

theorem merge_ok (l : List Bytes) (b : Bytes) (r : List Bytes) (hl : l = b :: r) (hb : b ≠ []) (hB : Blocks l) :
    (merge l).2.flatten = l.flatten ∧ Blocks (merge l).2 ∧
    (if (merge l).1 then ∃ f r', (merge l).2 = f :: r' ∧ f ≠ [] ∧ f.getLast? = some 10
     else 10 ∉ l.flatten) := by
  induction r generalizing l b with
  | nil =>
    subst hl
    rw [merge]
    refine ⟨rfl, hB, ?_⟩
    by_cases h : b.getLast? = some 10
    · simp only [h, beq_self_eq_true, if_true]
      exact ⟨b, [], rfl, hb, h⟩
    · simp only [beq_iff_eq, h, if_false, List.flatten_cons, List.flatten_nil, List.append_nil]
      exact oneLine_no (hB b (by simp)) h
  | cons c r ih =>
    subst hl
    rw [merge]
    by_cases h : b.getLast? = some 10
    · rw [if_pos h]
      exact ⟨rfl, hB, by rw [if_pos rfl]; exact ⟨b, c :: r, rfl, hb, h⟩⟩
    · rw [if_neg h]
      have := ih ((b ++ c) :: r) (b ++ c) rfl (by simp [hb]) (by
        intro x hx
        rcases List.mem_cons.mp hx with rfl | hx
        · exact oneLine_append (hB b (by simp)) h (hB c (by simp))
        · exact hB x (by simp [hx]))
      simpa [List.append_assoc] using this

theorem dropWhile_flatten (l : List Bytes) : (l.dropWhile (·.isEmpty)).flatten = l.flatten := by
  induction l with
  | nil => rfl
  | cons b l ih =>
    by_cases h : b = []
    · subst h; simp [ih]
    · simp [h]

theorem whole_wait_nil (p : Parser) (n : Nat) (h : Waiting p n) : whole (obs p) [] = none := by
  by_cases hs : p.seenHeaders = true
  · rw [whole_seen _ _ (by exact hs)]; exact h.more hs
  · rw [whole.eq_def, if_neg (by simpa [obs] using hs), dif_pos rfl]

theorem whole_wait_line (p : Parser) (n : Nat) (h : Waiting p n) (hn : needLine p = true) (s : Bytes) (hs : 10 ∉ s) :
    whole (obs p) s = none := by
  have hfc : findChar 10 s = none := findChar_none.2 hs
  by_cases hs : p.seenHeaders = true
  · have hg : p.getChunks = true ∧ p.doing = 0 := by simpa [needLine, hs] using hn
    have hm := h.more hs
    rw [whole_seen _ _ (by exact hs)]
    unfold wholeBody at hm ⊢
    have e1 : (obs p).getChunks = true := hg.1
    simp only [e1] at hm ⊢
    by_cases h1 : (obs p).headerOnly = true
    · simp [h1] at hm
    · by_cases h2 : noBody (obs p).url = true
      · simp [h1, h2] at hm
      · simp only [h1, h2, Bool.false_eq_true, if_false, Bool.not_true, Bool.and_false, if_true]
        rw [wholeChunks]
        split
        · rfl
        · rw [dif_neg (by simp [obs, hg.2]), hfc]
  · rw [whole.eq_def, if_neg (by simpa [obs] using hs)]
    split
    · rfl
    · rw [hfc]

theorem waiting_mono {p : Parser} {m n : Nat} (h : Waiting p n) (hm : m ≤ n) : Waiting p m := by
  refine ⟨by have := h.tot; omega, h.pc, fun hs => ⟨fun hk => ?_, (h.inb hs).pc⟩, h.more⟩
  have := (h.inb hs).len hk
  exact ⟨this.1, by omega, this.2.2⟩

/-- The claim about `Read` on blocks with the bytes `s`. -/
def LoopOk (p : Parser) (s : Bytes) (n : Nat) (o : Bool × Parser × List Bytes) : Prop :=
  o.2.2.flatten <:+ s ∧ Blocks o.2.2 ∧
    (if o.1 then
      ∀ t, t.length ≤ n → whole (obs p) (s ++ t) = some (obs o.2.1, o.2.2.flatten ++ t)
    else
      (∀ t, t.length ≤ n → whole (obs p) (s ++ t) = whole (obs o.2.1) (o.2.2.flatten ++ t)) ∧
      Waiting o.2.1 (o.2.2.flatten.length + n) ∧ whole (obs o.2.1) o.2.2.flatten = none)

theorem readLoop_ok (k : Nat) (p : Parser) (bl : List Bytes) (n : Nat) (hk : bl.flatten.length < k)
    (hw : Waiting p (bl.flatten.length + n)) (hB : Blocks bl) :
    LoopOk p bl.flatten n (readLoop true k p bl) := by
  induction k generalizing p bl with
  | zero => omega
  | succ k ih =>
    have hfl := dropWhile_flatten bl
    have hB' : Blocks (bl.dropWhile (·.isEmpty)) := fun b hb => hB b (List.dropWhile_sublist _ |>.mem hb)
    rw [readLoop]
    cases hd : bl.dropWhile (·.isEmpty) with
    | nil =>
      rw [hd] at hfl
      rw [← hfl] at hw ⊢
      refine ⟨List.suffix_refl _, by simp [Blocks], ?_⟩
      simp only [Bool.false_eq_true, if_false]
      exact ⟨fun t _ => by trivial, hw, whole_wait_nil p _ hw⟩
    | cons b r =>
      have hbne : b ≠ [] := by
        have := List.head?_dropWhile_not (·.isEmpty) bl
        rw [hd] at this; simpa using this
      rw [hd] at hfl hB'
      simp only
      have key : ∀ (f : Bytes) (r' : List Bytes), f ≠ [] → (needLine p = true → f.getLast? = some 10) →
          (f :: r').flatten = bl.flatten → Blocks (f :: r') →
          LoopOk p bl.flatten n (if (parse f.length p f).1 && accept true (parse f.length p f).2.1 then
                (true, (parse f.length p f).2.1, (parse f.length p f).2.2 :: r')
              else readLoop true k (parse f.length p f).2.1 ((parse f.length p f).2.2 :: r')) := by
        intro f r' hf hl hfe hBf
        have hlen : f.length + r'.flatten.length = bl.flatten.length := by
          rw [← hfe]; simp
        have hp := parse_ok p f (r'.flatten.length + n) (by rw [← Nat.add_assoc, hlen]; exact hw) hf (hBf f (by simp)) hl
        obtain ⟨h1, h2⟩ := hp
        generalize parse f.length p f = o at h1 h2 ⊢
        have hBo : Blocks (o.2.2 :: r') := by
          intro x hx
          rcases List.mem_cons.mp hx with rfl | hx
          · exact oneLine_suffix h1 (hBf f (by simp))
          · exact hBf x (by simp [hx])
        have hsuf : (o.2.2 :: r').flatten <:+ bl.flatten := by
          rw [← hfe, List.flatten_cons, List.flatten_cons]
          obtain ⟨x, hx⟩ := h1
          exact ⟨x, by rw [← hx, List.append_assoc]⟩
        by_cases hc : (o.1 && accept true o.2.1) = true
        · rw [if_pos hc] at h2 ⊢
          refine ⟨hsuf, hBo, ?_⟩
          simp only [if_true]
          intro t _
          rw [← hfe, List.flatten_cons, List.append_assoc, h2]
          simp
        · rw [if_neg hc] at h2 ⊢
          have hwh : ∀ t, t.length ≤ n → whole (obs p) (bl.flatten ++ t) = whole (obs o.2.1) ((o.2.2 :: r').flatten ++ t) := by
            intro t ht
            rw [← hfe, List.flatten_cons, List.append_assoc, h2.1 _ (by simp; omega), List.flatten_cons, List.append_assoc]
          obtain ⟨i1, i2, i3⟩ := ih o.2.1 (o.2.2 :: r') (by simp only [List.flatten_cons, List.length_append]; have := h2.2.2; omega)
            (by simp only [List.flatten_cons, List.length_append, Nat.add_assoc]; exact h2.2.1) hBo
          refine ⟨i1.trans hsuf, i2, ?_⟩
          split
          next hr =>
            rw [if_pos hr] at i3
            intro t ht; rw [hwh t ht]; exact i3 t ht
          next hr =>
            rw [if_neg hr] at i3
            exact ⟨fun t ht => by rw [hwh t ht]; exact i3.1 t ht, i3.2⟩
      by_cases hn : needLine p = true
      · rw [if_pos hn]
        have hm := merge_ok (b :: r) b r rfl hbne hB'
        cases hmv : merge (b :: r) with
        | mk ok l =>
          rw [hmv] at hm
          simp only at hm
          cases ok with
          | false =>
            simp only [Bool.false_eq_true, if_false] at hm ⊢
            refine ⟨by rw [hm.1, hfl]; exact List.suffix_refl _, hm.2.1, ?_⟩
            simp only [Bool.false_eq_true, if_false]
            rw [hm.1, hfl]
            refine ⟨fun t _ => rfl, hw, ?_⟩
            exact whole_wait_line p _ hw hn _ (by rw [← hfl]; exact hm.2.2)
          | true =>
            simp only [if_true] at hm
            obtain ⟨f, r', rfl, hf, hfl2⟩ := hm.2.2
            simp only
            exact key f r' hf (fun _ => hfl2) (by rw [hm.1, hfl]) hm.2.1
      · rw [if_neg hn]
        simp only
        exact key b r hbne (fun h => absurd h hn) hfl hB'

theorem scanBlock_oneLine (s : Bytes) (j : Nat) (hj : j ≤ s.length) (h : 10 ∉ s.take j) :
    OneLine (s.take (SockBuf.scanBlock [10] s j)) := by
  fun_induction SockBuf.scanBlock [10] s j with
  | case1 j h1 h2 =>
    unfold OneLine
    have h1' := h1.1
    rw [List.dropLast_eq_take, List.length_take, Nat.min_eq_left (by omega), List.take_take, Nat.min_eq_left (by omega)]
    simpa using h
  | case2 j h1 h2 ih =>
    refine ih (by omega) ?_
    rw [List.take_succ_eq_append_getElem (by omega), List.mem_append]
    rintro (h' | h')
    · exact h h'
    · simp only [List.mem_singleton] at h'
      apply h2
      refine ⟨by simp, ?_⟩
      simp only [List.length_singleton, Nat.add_sub_cancel]
      rw [List.drop_eq_getElem_cons h1.1, ← h']; rfl
  | case3 j h1 =>
    unfold OneLine
    exact fun h' => h (List.dropLast_subset _ h')

theorem cut_oneLine (s : Bytes) : Blocks (SockBuf.cut [10] s) := by
  fun_induction SockBuf.cut [10] s with
  | case1 s h => simp [Blocks]
  | case2 s h ih =>
    intro b hb
    rcases List.mem_cons.mp hb with rfl | hb
    · simp only [SockBuf.nextBlock, List.cons_ne_nil, if_false]
      exact scanBlock_oneLine s 0 (Nat.zero_le _) (by simp)
    · exact ih b hb

theorem read_ok (p : Parser) (b : Buf) (n : Nat) (hw : Waiting p (b.blocks.flatten.length + n)) (hB : Blocks b.blocks) :
    (read true p b).2.2.splitter = b.splitter ∧
    LoopOk p b.blocks.flatten n ((read true p b).1, (read true p b).2.1, (read true p b).2.2.blocks) := by
  unfold read
  by_cases he : b.popEmpty.blocks = []
  · have hfl : b.blocks.flatten = [] := by
      have := dropWhile_flatten b.blocks
      rw [show b.blocks.dropWhile (·.isEmpty) = [] from he] at this; exact this.symm
    rw [if_pos he]
    have hno : (p.possiblyComplete && accept true p) = false := by
      by_cases hp : p.possiblyComplete = true
      · have hs : p.seenHeaders = true := by
          by_cases hs : p.seenHeaders = true
          · exact hs
          · have := hw.pc (by simpa using hs); rw [hp] at this; cases this
        have := ((hw.inb hs).pc hp).2.2.1
        simp [accept, hp, this]
      · simp [hp]
    refine ⟨rfl, ?_⟩
    simp only [parse, hno, he]
    rw [hfl] at hw ⊢
    refine ⟨List.suffix_refl _, by simp [Blocks], ?_⟩
    simp only [Bool.false_eq_true, if_false]
    exact ⟨fun t _ => rfl, hw, whole_wait_nil p _ hw⟩
  · rw [if_neg he]
    exact ⟨rfl, readLoop_ok _ p b.blocks n (by omega) hw hB⟩

theorem append_blocks (b : Buf) (x : Bytes) (hb : b.splitter = [10]) (hB : Blocks b.blocks) : Blocks (b.append x).blocks := by
  intro y hy
  simp only [Buf.append, List.mem_append] at hy
  rcases hy with hy | hy
  · exact hB y hy
  · rw [hb] at hy; exact cut_oneLine x y hy

theorem append_flatten (b : Buf) (x : Bytes) : (b.append x).blocks.flatten = b.blocks.flatten ++ x := by
  simp [Buf.append, SockBuf.cut_flatten]

/-- Reading piece by piece agrees with reading the complete stream. -/
theorem receive_whole (p : Parser) (b : Buf) (pieces : List Bytes) (hb : b.splitter = [10])
    (hw : Waiting p (b.blocks.flatten.length + pieces.flatten.length)) (hB : Blocks b.blocks)
    (hnone : whole (obs p) b.blocks.flatten = none) :
    (receive p b pieces).map (fun r => (obs r.1, r.2)) = whole (obs p) (b.blocks.flatten ++ pieces.flatten) := by
  induction pieces generalizing p b with
  | nil => simp [receive, hnone]
  | cons x xs ih =>
    have hap := append_flatten b x
    have hr := read_ok p (b.append x) xs.flatten.length (by
      rw [hap]; simp only [List.flatten_cons, List.length_append] at hw ⊢; rw [Nat.add_assoc]; exact hw) (append_blocks b x hb hB)
    rw [receive]
    obtain ⟨hsp, -, hB2, hr⟩ := hr
    simp only at hB2 hr
    by_cases hok : (read true p (b.append x)).1 = true
    · rw [if_pos hok] at hr ⊢
      have := hr xs.flatten (Nat.le_refl _)
      rw [hap] at this
      rw [List.flatten_cons, ← List.append_assoc, this]; rfl
    · rw [if_neg hok] at hr ⊢
      have h1 := hr.1 xs.flatten (Nat.le_refl _)
      rw [hap] at h1
      rw [List.flatten_cons, ← List.append_assoc, h1]
      exact ih _ _ (hsp.trans hb) hr.2.1 hB2 hr.2.2

theorem receive_fresh (p : Parser) (pieces : List Bytes) (hs : p.seenHeaders = false) (hp : p.possiblyComplete = false)
    (hn : pieces.flatten.length < 2 ^ 31) :
    (receive p Buf.init pieces).map (fun r => (obs r.1, r.2)) = whole (obs p) pieces.flatten := by
  have := receive_whole p Buf.init pieces rfl
    ⟨by simpa [Buf.init] using hn, fun _ => hp, fun h => by simp [hs] at h, fun h => by simp [hs] at h⟩
    (by simp [Blocks, Buf.init]) (by
      rw [whole.eq_def, if_neg (by simp [obs, hs]), dif_pos (by simp [Buf.init])])
  simpa [Buf.init] using this

end Verif.Http
