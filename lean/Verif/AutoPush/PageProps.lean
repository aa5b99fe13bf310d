import Verif.AutoPush.Page
import Verif.AutoPush.Props

/-!
# C98: pushes survive a restart of the controller
-/
namespace Verif.AutoPush

/-! ## The order of the list -/

/-- The list is ordered by process. -/
def Ordered (l : List Push) : Prop := l.Pairwise fun p q => p.pid < q.pid

theorem ordered_put {l : List Push} (p : Push) (h : Ordered l) : Ordered (put p l) := by
  unfold put Ordered
  rw [List.pairwise_append]
  refine ⟨h.filter _, ?_, ?_⟩
  · rw [List.pairwise_cons]
    refine ⟨?_, h.filter _⟩
    intro q hq
    simpa using (List.mem_filter.mp hq).2
  · intro a ha b hb
    have h1 : a.pid < p.pid := by simpa using (List.mem_filter.mp ha).2
    rcases List.mem_cons.mp hb with rfl | hb
    · exact h1
    · have h2 : p.pid < b.pid := by simpa using (List.mem_filter.mp hb).2
      omega

theorem ordered_wipe {s : State} (h : Ordered s.pushes) : Ordered (wipe s).pushes := List.Pairwise.filter _ h

theorem ordered_start {env : Env} {s : State} (st tg : Bytes) (h : Ordered s.pushes) : Ordered (startPush env s st tg).pushes := by
  rcases startPush_cases env s st tg with ⟨h', _⟩ | ⟨_, ⟨h', _⟩ | ⟨pid, t, hf, h'⟩⟩
  · rw [h']; exact h
  · rw [h']; exact ordered_wipe h
  · rw [h']; exact ordered_put _ (ordered_wipe h)

theorem ordered_step {s : State} (op : Op) (h : Ordered s.pushes) : Ordered (step s op).pushes := by
  cases op with
  | check env =>
    obtain ⟨m, hm⟩ := check_moves env s
    refine hm.rel (fun a b => Ordered a.1.pushes → Ordered b.1.pushes) (fun _ h => h) (fun _ _ _ h1 h2 h => h2 (h1 h)) ?_ h
    intro a b hmv hu
    cases hmv with
    | wipe s' n => exact ordered_wipe hu
    | signal s' n pat tg => exact List.Pairwise.filter _ hu
    | wait s' n e name tg k he ht => exact hu
    | remove s' n e pat he hp hs hc => exact hu
    | drop s' n e he hel => exact hu
    | start s' n e pat tg name => exact ordered_start _ _ hu
  | became env name =>
    show Ordered (s.auto.foldl (autoEntry env name) s).pushes
    generalize s.auto = l
    induction l generalizing s with
    | nil => exact h
    | cons e l ih =>
      refine ih ?_
      unfold autoEntry
      split
      · split
        · exact h
        · split
          · exact h
          · split
            · exact h
            · split
              · exact h
              · exact ordered_start _ _ h
      · exact h
  | start env st tg => exact ordered_start st tg h
  | stop pid => simp only [step]; split <;> exact h
  | stopStream st => exact h
  | hang pid => simp only [step]; split <;> exact h
  | hangStream st => exact h
  | list => exact ordered_wipe h
  | add e => exact h
  | remove n => exact h
  | removeSpec e => exact h
  | settings w m => exact h
  | died pid => exact h
  | born pid => simp only [step]; split <;> exact h
  | status p =>
    simp only [step]
    split
    · exact h
    · exact ordered_put p h

theorem ordered_run (ops : List Op) : Ordered (run ops).pushes := by
  suffices hu : ∀ (ops : List Op) (s : State), Ordered s.pushes → Ordered (ops.foldl step s).pushes from hu ops {} List.Pairwise.nil
  intro ops
  induction ops with
  | nil => exact fun s h => h
  | cons o ops ih => exact fun s h => ih _ (ordered_step o h)

theorem filter_lt_append {l : List Push} {p : Push} (h : ∀ q ∈ l, q.pid < p.pid) : put p l = l ++ [p] := by
  unfold put
  rw [List.filter_eq_self.mpr (by intro q hq; simpa using h q hq), List.filter_eq_nil_iff.mpr]
  intro q hq
  have := h q hq
  simp only [decide_eq_true_eq]; omega

theorem foldl_put (l : List Push) : ∀ acc : List Push, Ordered (acc ++ l) → l.foldl (fun acc p => put p acc) acc = acc ++ l := by
  induction l with
  | nil => intro acc _; simp
  | cons p l ih =>
    intro acc h
    have hp : ∀ q ∈ acc, q.pid < p.pid := by
      intro q hq
      rw [Ordered, List.pairwise_append] at h
      exact h.2.2 q hq p (by simp)
    rw [List.foldl_cons, filter_lt_append hp, ih _ (by rw [List.append_assoc]; exact h), List.append_assoc]
    rfl

/-! ## Reading what was written -/

theorem overwrite_length {page : Bytes} {pos : Nat} {b : Bytes} (h : pos + b.length ≤ page.length) :
    (overwrite page pos b).length = page.length := by
  unfold overwrite
  simp only [List.length_append, List.length_take, List.length_drop]
  omega

theorem overwrite_take {page : Bytes} {pos : Nat} {b : Bytes} (h : pos ≤ page.length) :
    (overwrite page pos b).take (pos + b.length) = page.take pos ++ b := by
  have hl : (page.take pos ++ b).length = pos + b.length := by simp; omega
  unfold overwrite
  rw [← hl, List.take_left]

theorem putString_length (s : Bytes) : (putString s).length = 2 + s.length := by simp [putString]

theorem entryBytes_length (p : Push) : (entryBytes p).length = entryLen p := by
  simp [entryBytes, putString_length, entryLen]; omega

theorem getString_put {s r : Bytes} (h : s.length < 65536) : getString (putString s ++ r) = some (s, r) := by
  have h2 : (putString s ++ r).take 2 = beEnc 2 s.length := by
    unfold putString
    rw [List.append_assoc, List.take_append_of_le_length (by simp)]
    exact List.take_of_length_le (by simp)
  have hv : beVal (beEnc 2 s.length) = s.length := by
    rw [beVal_beEnc, Nat.mod_eq_of_lt (by omega)]
  have hd : (putString s ++ r).drop 2 = s ++ r := by
    unfold putString
    rw [List.append_assoc]
    exact List.drop_left' (by simp)
  have hd2 : (putString s ++ r).drop (2 + s.length) = r := List.drop_left' (putString_length s)
  unfold getString
  rw [h2, hv, hd, hd2, if_neg (by rw [List.length_append, putString_length]; omega), List.take_left]

theorem getPush_put {p : Push} {r : Bytes} (h1 : p.stream.length < 65536) (h2 : p.orig.length < 65536) (h3 : p.target.length < 65536) :
    getPush p.pid (putString p.stream ++ (putString p.orig ++ (putString p.target ++ r))) = some (p, r) := by
  unfold getPush
  simp only [getString_put h1, getString_put h2, getString_put h3]

theorem readFrom_nil (r : Bytes) : readFrom (beEnc 4 0 ++ r) = some [] := by
  have ht : (beEnc 4 0 ++ r).take 4 = beEnc 4 0 := List.take_left' (by simp)
  have h0 : beVal (beEnc 4 0) = 0 := by rw [beVal_beEnc]
  rw [readFrom, ht, h0]
  rw [dif_neg (by simp), if_neg (by omega)]

theorem readFrom_cons {p : Push} {r : Bytes} (hp : 1 < p.pid) (hp32 : p.pid < 2 ^ 32) (h1 : p.stream.length < 65536)
    (h2 : p.orig.length < 65536) (h3 : p.target.length < 65536) :
    readFrom (entryBytes p ++ r) = (readFrom r).map fun l => p :: l := by
  have hassoc : entryBytes p ++ r = beEnc 4 p.pid ++ (putString p.stream ++ (putString p.orig ++ (putString p.target ++ r))) := by
    unfold entryBytes; simp only [List.append_assoc]
  rw [hassoc]
  have ht : (beEnc 4 p.pid ++ (putString p.stream ++ (putString p.orig ++ (putString p.target ++ r)))).take 4 = beEnc 4 p.pid :=
    List.take_left' (by simp)
  have hd : (beEnc 4 p.pid ++ (putString p.stream ++ (putString p.orig ++ (putString p.target ++ r)))).drop 4 =
      putString p.stream ++ (putString p.orig ++ (putString p.target ++ r)) := List.drop_left' (by simp)
  have hv : beVal (beEnc 4 p.pid) = p.pid := by rw [beVal_beEnc, Nat.mod_eq_of_lt (by omega)]
  rw [readFrom, dif_neg (by simp), ht, hv, if_pos hp, hd]
  have hg := getPush_put (r := r) h1 h2 h3
  split
  next hn => rw [hg] at hn; cases hn
  next q r' hs =>
    rw [hg] at hs
    cases hs
    rfl

/-- What the page holds for a list that fits. -/
def image (l : List Push) : Bytes := l.flatMap entryBytes

theorem image_length (l : List Push) : (image l).length = (l.map entryLen).sum := by
  unfold image
  rw [List.length_flatMap]
  congr 1
  apply List.map_congr_left
  intro p _
  exact entryBytes_length p

theorem writeFrom_fits : ∀ (l : List Push) (pos : Nat) (page : Bytes), page.length = pageSize → pos ≤ limit →
    (l ≠ [] → pos + (l.map entryLen).sum < limit) →
    ∃ r, writeFrom pos page l = page.take pos ++ image l ++ beEnc 4 0 ++ r
  | [], pos, page, hl, hpos, _ => by
    rw [writeFrom, if_pos hpos]
    exact ⟨page.drop (pos + (beEnc 4 0).length), by simp [overwrite, image]⟩
  | p :: rest, pos, page, hl, hpos, hfit => by
    have hfit' := hfit (by simp)
    rw [List.map_cons, List.sum_cons] at hfit'
    have hlim : limit ≤ pageSize := by unfold limit; omega
    rw [writeFrom, if_neg (by omega)]
    have hlen := entryBytes_length p
    obtain ⟨r, hr⟩ := writeFrom_fits rest (pos + entryLen p) (overwrite page pos (entryBytes p))
      (by rw [overwrite_length (by omega)]; exact hl) (by omega) (fun _ => by omega)
    refine ⟨r, ?_⟩
    rw [hr, ← hlen, overwrite_take (by omega)]
    simp [image]

theorem readFrom_image (l : List Push) (r : Bytes) (h : ∀ p ∈ l, 1 < p.pid ∧ p.pid < 2 ^ 32 ∧ p.stream.length < 65536 ∧
    p.orig.length < 65536 ∧ p.target.length < 65536) : readFrom (image l ++ (beEnc 4 0 ++ r)) = some l := by
  induction l with
  | nil => exact readFrom_nil r
  | cons p l ih =>
    obtain ⟨h1, h2, h3, h4, h5⟩ := h p (by simp)
    have : image (p :: l) ++ (beEnc 4 0 ++ r) = entryBytes p ++ (image l ++ (beEnc 4 0 ++ r)) := by simp [image]
    rw [this, readFrom_cons h1 h2 h3 h4 h5, ih (fun q hq => h q (by simp [hq]))]
    rfl

/-- C98 (what is missing: texts of 65536 bytes and more, and lists that do not fit, see below): whatever was on the page before, when the
list that the controller had after any history was written to it, the next controller that reads the page has the same list of pushes. -/
theorem C98_restart_partial (ops : List Op) (page : Bytes) (hpage : page.length = 8388608)
    (hpid : ∀ p ∈ (run ops).pushes, 1 < p.pid ∧ p.pid < 2 ^ 32)
    (htext : ∀ p ∈ (run ops).pushes, p.stream.length < 65536 ∧ p.orig.length < 65536 ∧ p.target.length < 65536)
    (hfit : (((run ops).pushes).map fun p => 10 + p.stream.length + p.orig.length + p.target.length).sum < 8388604) :
    initPushCheck (writePushList page (run ops).pushes) = some (run ops).pushes := by
  have hord := ordered_run ops
  generalize (run ops).pushes = l at *
  have hlen : (l.map fun p => 10 + p.stream.length + p.orig.length + p.target.length) = l.map entryLen := by
    apply List.map_congr_left
    intro p _
    unfold entryLen; omega
  rw [hlen] at hfit
  have hlimit : limit = 8388604 := by decide
  obtain ⟨r, hr⟩ := writeFrom_fits l 0 page (by rw [hpage]; decide) (Nat.zero_le _) (fun _ => by rw [hlimit]; omega)
  unfold initPushCheck writePushList
  rw [hr, List.take_zero, List.nil_append, List.append_assoc, readFrom_image l r (fun p hp =>
    ⟨(hpid p hp).1, (hpid p hp).2, (htext p hp).1, (htext p hp).2.1, (htext p hp).2.2⟩)]
  rw [Option.map_some, foldl_put l [] (by simpa using hord), List.nil_append]

/-- The hypotheses of `C98_restart_partial` are met by a list of two pushes. -/
example (page : Bytes) (hp : page.length = 8388608) :
    initPushCheck (writePushList page [⟨2, [97], [98], [98]⟩, ⟨9, [97], [99], [100]⟩]) =
    some [⟨2, [97], [98], [98]⟩, ⟨9, [97], [99], [100]⟩] := by
  have hl : ∃ ops, (run ops).pushes = [⟨2, [97], [98], [98]⟩, ⟨9, [97], [99], [100]⟩] :=
    ⟨[.born 2, .born 9, .status ⟨2, [97], [98], [98]⟩, .status ⟨9, [97], [99], [100]⟩], by decide +kernel⟩
  obtain ⟨ops, ho⟩ := hl
  rw [← ho]
  refine C98_restart_partial ops page hp ?_ ?_ ?_ <;> rw [ho] <;> decide

theorem getString_short {m s r : Bytes} (h : getString m = some (s, r)) : s.length < 65536 := by
  unfold getString at h
  split at h
  · cases h
  · simp only [Option.some.injEq, Prod.mk.injEq] at h
    rw [← h.1, List.length_take]
    have h1 := beVal_lt (m.take 2)
    have h2 : (256 : Nat) ^ (m.take 2).length ≤ 256 ^ 2 := Nat.pow_le_pow_right (by omega) (by rw [List.length_take]; omega)
    omega

theorem getPush_short {pid : Nat} {m r : Bytes} {p : Push} (h : getPush pid m = some (p, r)) :
    p.stream.length < 65536 ∧ p.orig.length < 65536 ∧ p.target.length < 65536 := by
  unfold getPush at h
  split at h
  · cases h
  next s1 m1 h1 =>
    split at h
    · cases h
    next s2 m2 h2 =>
      split at h
      · cases h
      next s3 m3 h3 =>
        simp only [Option.some.injEq, Prod.mk.injEq] at h
        rw [← h.1]
        exact ⟨getString_short h1, getString_short h2, getString_short h3⟩

theorem readFrom_short (m : Bytes) : ∀ l, readFrom m = some l → ∀ p ∈ l,
    p.stream.length < 65536 ∧ p.orig.length < 65536 ∧ p.target.length < 65536 := by
  fun_induction readFrom m with
  | case1 m h => intro l hl; cases hl
  | case2 m h hv hp => intro l hl; cases hl
  | case3 m h hv p r hp ih =>
    intro l hl q hq
    obtain ⟨l', hl', rfl⟩ := Option.map_eq_some_iff.mp hl
    rcases List.mem_cons.mp hq with rfl | hq
    · exact getPush_short hp
    · exact ih l' hl' q hq
  | case4 m h hv => intro l hl; cases hl; intro p hp; cases hp

theorem foldl_put_mem (l : List Push) : ∀ (acc : List Push) (p : Push), p ∈ l.foldl (fun acc p => put p acc) acc → p ∈ acc ∨ p ∈ l := by
  induction l with
  | nil => intro acc p h; exact .inl h
  | cons a l ih =>
    intro acc p h
    rcases ih _ p h with h | h
    · rcases mem_put.mp h with rfl | ⟨h, _⟩
      · exact .inr (by simp)
      · exact .inl h
    · exact .inr (by simp [h])

/-- C98: a push with a stream name or a target of 65536 bytes or more is never recovered, whatever else is in the list. -/
theorem C98_long_fails (page : Bytes) (l : List Push) (p : Push)
    (h : p.stream.length ≥ 65536 ∨ p.orig.length ≥ 65536 ∨ p.target.length ≥ 65536) :
    ∀ r, initPushCheck (writePushList page l) = some r → p ∉ r := by
  intro r hr hp
  obtain ⟨l', hl', rfl⟩ := Option.map_eq_some_iff.mp hr
  rcases foldl_put_mem l' [] p hp with h' | h'
  · cases h'
  · have := readFrom_short _ l' hl' p h'
    omega

theorem recovered_old (page big : Bytes) (hp : page.length = 8388608) (hb : big.length = 8388608) :
    initPushCheck (writePushList (writePushList page [⟨2, [97], [98], [98]⟩]) [⟨3, big, [], []⟩]) = some [⟨2, [97], [98], [98]⟩] := by
  have hbig : ∀ page : Bytes, writePushList page [⟨3, big, [], []⟩] = page := by
    intro page
    have hlimit : limit = 8388604 := by decide
    have hle : 0 + entryLen ⟨3, big, [], []⟩ ≥ limit := by
      rw [hlimit]
      unfold entryLen
      rw [hb]
      omega
    unfold writePushList
    rw [writeFrom, if_pos hle]
  rw [hbig]
  have hl : ∃ ops, (run ops).pushes = [⟨2, [97], [98], [98]⟩] := ⟨[.born 2, .status ⟨2, [97], [98], [98]⟩], by decide +kernel⟩
  obtain ⟨ops, ho⟩ := hl
  rw [← ho]
  refine C98_restart_partial ops page hp ?_ ?_ ?_ <;> rw [ho] <;> decide

theorem some_page : ∃ z : Bytes, z.length = 8388608 := ⟨List.replicate 8388608 0, List.length_replicate⟩

/-- C98: when the list does not fit, no end is written: pushes of an older list are recovered in place of it. -/
theorem C98_overflow_fails : ∃ (page : Bytes) (old : Push) (l : List Push), page.length = 8388608 ∧ old ∉ l ∧
    initPushCheck (writePushList (writePushList page [old]) l) = some [old] := by
  obtain ⟨z, hz⟩ := some_page
  refine ⟨z, ⟨2, [97], [98], [98]⟩, [⟨3, z, [], []⟩], hz, ?_, recovered_old z z hz hz⟩
  intro h
  have := congrArg Push.pid (List.mem_singleton.mp h)
  cases this

end Verif.AutoPush
