import Verif.Page.Lemmas

/-!
# C62: readers of a page that is being written find whole packets only
-/
namespace Verif.Page
open Verif.Bit
open Verif.Json (R)
open Verif.Dtsc Verif.Dtsc.Spec Verif.Page.Spec

theorem peek_in {size i k : Nat} {see : Nat → Nat → UInt8} (h : i < size) : peek size see k i = .ok (see k i) := by
  rw [peek, if_pos h]

theorem getD_of {l : Bytes} {i : Nat} (h : i < l.length) : l.getD i 0 = l[i] := by
  rw [List.getD_eq_getElem?_getD, List.getElem?_eq_getElem h]; rfl

theorem magic_bytes (c : Content) : (bytesOf c).getD 0 0 = 68 ∧ (bytesOf c).getD 1 0 = 84 ∧ (bytesOf c).getD 2 0 = 80 ∧
    (bytesOf c).getD 3 0 = 50 := by
  rw [bytes_rest]
  exact ⟨rfl, rfl, rfl, rfl⟩

theorem len_bytes (c : Content) : [(bytesOf c).getD 4 0, (bytesOf c).getD 5 0, (bytesOf c).getD 6 0, (bytesOf c).getD 7 0] =
    htob .l (packetSize c - 8) := by
  rw [bytesOf, raw]
  simp only [List.append_assoc]
  rfl

theorem len_back (c : Content) (h : packetSize c < 2 ^ 32) : btoh .l (htob .l (packetSize c - 8)) = some (packetSize c - 8) := by
  have := Json.load_be .l rfl (packetSize c - 8) (buf := htob .l (packetSize c - 8)) (i := 0) (r := []) (by simp)
  rw [load, List.drop_zero] at this
  rw [this, Nat.mod_eq_of_lt]
  have : (256 : Nat) ^ Codec.l.width = 2 ^ 32 := rfl
  omega

theorem peek_len {size k o : Nat} {see : Nat → Nat → UInt8} (c : Content) (h : packetSize c < 2 ^ 32) (hs : o + packetSize c ≤ size)
    (hsee : ∀ j i, k ≤ j → 4 ≤ i → i < packetSize c → see j (o + i) = (bytesOf c).getD i 0) :
    peekLen size see k o = .ok (packetSize c) := by
  have hge := size_ge c
  rw [peekLen, peek_in (by omega), peek_in (by omega), peek_in (by omega), peek_in (by omega)]
  simp only [R.bind]
  rw [hsee k 4 (by omega) (by omega) (by omega), hsee (k + 1) 5 (by omega) (by omega) (by omega),
    hsee (k + 2) 6 (by omega) (by omega) (by omega), hsee (k + 3) 7 (by omega) (by omega) (by omega), len_bytes, len_back c h]
  simp only [R.of]
  rw [Nat.sub_add_cancel (by omega), Nat.mod_eq_of_lt h]

/-- What a read of the page sees when the `k`-th read happens at the instant `clock k`. -/
def watch (ws : List (Nat × UInt8)) (clock : Nat → Nat) : Nat → Nat → UInt8 := fun k i => memAt ws (clock k) i

theorem cut_spot {ws : List (Nat × UInt8)} {o : Nat} {c : Content} {t : Nat}
    (h : ∀ k, k < packetSize c → memAt ws t (o + k) = (bytesOf c).getD k 0) : cut (memAt ws t) o (packetSize c) = ⟨some (bytesOf c), .v2, 0⟩ := by
  rw [cut]
  congr 2
  apply List.ext_getElem
  · simp [bytesOf_length]
  · intro i h1 h2
    simp only [List.length_map, List.length_range] at h1
    simp only [List.getElem_map, List.getElem_range]
    rw [h i h1, getD_of h2]

theorem read_spot {ws : List (Nat × UInt8)} {clock : Nat → Nat} (hc : ∀ i j, i ≤ j → clock i ≤ clock j) {size o k : Nat} {c : Content}
    (hsp : Spot ws o c) (h : packetSize c < 2 ^ 32) (hs : o + packetSize c ≤ size) :
    (reInitLive size (watch ws clock) k o = .ok none ∧ clock k < o + packetSize c) ∨
    (reInitLive size (watch ws clock) k o = .ok (some (packetSize c, .v2)) ∧
      validLive size (watch ws clock) (k + 14) o (packetSize c) .v2 = .ok true ∧
      ∀ t, clock (k + 3) ≤ t → cut (memAt ws t) o (packetSize c) = ⟨some (bytesOf c), .v2, 0⟩) := by
  have hge := size_ge c
  obtain ⟨m0, m1, m2, m3⟩ := magic_bytes c
  have none_case : ∀ j i, i < 4 → k ≤ j → watch ws clock j (o + i) = 0 → clock k < o + packetSize c := by
    intro j i hi hj hz
    by_cases hlt : clock k < o + packetSize c
    · exact hlt
    · exfalso
      have h1 := hsp.done (clock j) (Nat.le_trans (by omega) (hc k j hj)) i (by omega)
      rw [watch] at hz
      rw [hz] at h1
      have : i = 0 ∨ i = 1 ∨ i = 2 ∨ i = 3 := by omega
      rcases this with rfl | rfl | rfl | rfl
      · rw [m0] at h1; exact absurd h1 (by decide)
      · rw [m1] at h1; exact absurd h1 (by decide)
      · rw [m2] at h1; exact absurd h1 (by decide)
      · rw [m3] at h1; exact absurd h1 (by decide)
  rw [reInitLive, peek_in (by omega), peek_in (by omega), peek_in (by omega), peek_in (by omega), peek_in (by omega), peek_in (by omega)]
  simp only [R.bind]
  by_cases z0 : watch ws clock k o = 0
  · rw [if_pos z0]; exact .inl ⟨rfl, none_case k 0 (by omega) (by omega) z0⟩
  rw [if_neg z0]
  by_cases z1 : watch ws clock (k + 1) (o + 1) = 0
  · rw [if_pos z1]; exact .inl ⟨rfl, none_case (k + 1) 1 (by omega) (by omega) z1⟩
  rw [if_neg z1]
  by_cases z2 : watch ws clock (k + 2) (o + 2) = 0
  · rw [if_pos z2]; exact .inl ⟨rfl, none_case (k + 2) 2 (by omega) (by omega) z2⟩
  rw [if_neg z2]
  by_cases z3 : watch ws clock (k + 3) (o + 3) = 0
  · rw [if_pos z3]; exact .inl ⟨rfl, none_case (k + 3) 3 (by omega) (by omega) z3⟩
  rw [if_neg z3]
  right
  have all : ∀ t, clock (k + 3) ≤ t → ∀ i, i < packetSize c → memAt ws t (o + i) = (bytesOf c).getD i 0 := by
    intro t ht i hi
    have c0 := hc k (k + 3) (by omega)
    have c1 := hc (k + 1) (k + 3) (by omega)
    have c2 := hc (k + 2) (k + 3) (by omega)
    by_cases h4 : 4 ≤ i
    · exact hsp.rest (clock k) 0 (by omega) z0 t (by omega) i h4 hi
    · have : i = 0 ∨ i = 1 ∨ i = 2 ∨ i = 3 := by omega
      rcases this with rfl | rfl | rfl | rfl
      · exact hsp.seen (clock k) 0 (by omega) z0 t (by omega)
      · exact hsp.seen (clock (k + 1)) 1 (by omega) z1 t (by omega)
      · exact hsp.seen (clock (k + 2)) 2 (by omega) z2 t (by omega)
      · exact hsp.seen (clock (k + 3)) 3 (by omega) z3 t (by omega)
  have later : ∀ j i, k + 3 ≤ j → i < packetSize c → watch ws clock j (o + i) = (bytesOf c).getD i 0 :=
    fun j i hj hi => all _ (hc (k + 3) j hj) i hi
  have e0 := later (k + 4) 0 (by omega) (by omega)
  have e1 := later (k + 5) 1 (by omega) (by omega)
  rw [m0] at e0
  change watch ws clock (k + 4) o = 68 at e0
  rw [m1] at e1
  rw [e0, e1, if_neg (by decide), peek_len c h hs fun j i hj _ hi => later j i (by omega) hi]
  dsimp only
  rw [if_neg (by omega), peekKind, peek_in (by omega), peek_in (by omega), peek_in (by omega), peek_in (by omega)]
  simp only [R.bind]
  have f0 := later (k + 10) 0 (by omega) (by omega)
  change watch ws clock (k + 10) o = _ at f0
  rw [f0, later (k + 10 + 1) 1 (by omega) (by omega), later (k + 10 + 2) 2 (by omega) (by omega),
    later (k + 10 + 3) 3 (by omega) (by omega), m0, m1, m2, m3]
  refine ⟨rfl, ?_, fun t ht => cut_spot (all t ht)⟩
  rw [validLive, if_neg (by simp; omega), peek_len c h hs fun j i hj _ hi => later j i (by omega) hi]
  simp only [R.bind, Nat.le_refl, decide_true]

theorem walk_spots {ws : List (Nat × UInt8)} {clock : Nat → Nat} (hc : ∀ i j, i ≤ j → clock i ≤ clock j) {size : Nat} (cs : List Content) (hfit : ∀ c ∈ cs, packetSize c < 2 ^ 32) :
    ∀ o, (∀ a c b, cs = a ++ c :: b → Spot ws (o + total a) c) → (∀ t, memAt ws t (o + total cs) = 0) → o + total cs < size →
    ∀ n k, ∃ m, m ≤ n ∧ m ≤ cs.length ∧ walk size (watch ws clock) n k o = .ok (places o (cs.take m)) ∧
      (∀ j, j ≤ cs.length → j ≤ n → o + total (cs.take j) ≤ clock k → j ≤ m) ∧
      (∀ a c b, cs.take m = a ++ c :: b → ∀ t, clock (k + 20 * (a.length + 1)) ≤ t →
        cut (memAt ws t) (o + total a) (packetSize c) = ⟨some (bytesOf c), .v2, 0⟩) := by
  induction cs with
  | nil =>
    intro o _ h0 hs n k
    refine ⟨0, by omega, by simp, ?_, ?_, ?_⟩
    · cases n with
      | zero => rfl
      | succ n =>
        rw [total, Nat.add_zero] at hs h0
        rw [walk, reInitLive, peek_in (by omega)]
        simp only [R.bind]
        rw [watch, h0]
        rfl
    · intro j hj _ _; simpa using hj
    · intro a c b e; simp at e
  | cons c r ih =>
    intro o hsp h0 hs n k
    cases n with
    | zero =>
      refine ⟨0, by omega, by simp, rfl, fun j _ h _ => h, ?_⟩
      intro a c b e; simp at e
    | succ n =>
      rw [total] at hs h0
      have h1 : Spot ws o c := hsp [] c r rfl
      have hL := hfit c (List.mem_cons_self ..)
      rcases read_spot hc (k := k) h1 hL (size := size) (by omega) with ⟨hr, hck⟩ | ⟨hr, hv, hcut⟩
      · refine ⟨0, by omega, by simp, ?_, ?_, ?_⟩
        · rw [walk, hr]; rfl
        · intro j hj _ ht
          cases j with
          | zero => exact Nat.le_refl _
          | succ j =>
            rw [List.take_succ_cons, total] at ht
            omega
        · intro a c b e; simp at e
      · obtain ⟨m, h2, h3, h4, h5, h6⟩ := ih (fun c hcr => hfit c (List.mem_cons_of_mem _ hcr)) (o + packetSize c)
          (by
            intro a c' b e
            have := hsp (c :: a) c' b (by rw [e]; rfl)
            rw [total, ← Nat.add_assoc] at this
            exact this)
          (by intro t; rw [Nat.add_assoc]; exact h0 t) (by omega) n (k + 20)
        refine ⟨m + 1, by omega, by simp; omega, ?_, ?_, ?_⟩
        · rw [walk, hr]
          simp only [R.bind]
          rw [hv]
          simp only [R.bind, if_true]
          rw [h4]
          rfl
        · intro j hj hjn ht
          cases j with
          | zero => omega
          | succ j =>
            rw [List.take_succ_cons, total] at ht
            have := h5 j (by simpa using hj) (by omega) (Nat.le_trans (by omega) (hc k (k + 20) (by omega)))
            omega
        · intro a c' b e t ht
          rw [List.take_succ_cons] at e
          cases a with
          | nil =>
            simp only [List.nil_append, List.cons.injEq] at e
            obtain ⟨rfl, -⟩ := e
            exact hcut t (Nat.le_trans (hc (k + 3) _ (by simp)) ht)
          | cons x a =>
            simp only [List.cons_append, List.cons.injEq] at e
            obtain ⟨rfl, e⟩ := e
            have := h6 a c' b e t (by
              rw [List.length_cons] at ht
              rw [show k + 20 + 20 * (a.length + 1) = k + 20 * (a.length + 1 + 1) by omega]; exact ht)
            rw [total, ← Nat.add_assoc]
            exact this

theorem accepted_fits (size : Nat) (calls : List Call)
    (hfit : ∀ c ∈ calls, FitsPacket (content c.pack) ∧ packetSize (content c.pack) < 2 ^ 32) :
    ∀ used, ∀ c ∈ accepted size used calls, FitsPacket c ∧ packetSize c < 2 ^ 32 := by
  induction calls with
  | nil => intro used c h; simp [accepted] at h
  | cons x r ih =>
    intro used c h
    have ih := ih fun c hc => hfit c (List.mem_cons_of_mem _ hc)
    rw [accepted] at h
    split at h
    · rcases List.mem_cons.mp h with rfl | h
      · exact hfit x (List.mem_cons_self ..)
      · exact ih _ c h
    · exact ih _ c h

theorem time_bytes (c : Content) : ((List.range 8).map fun i => (bytesOf c).getD (12 + i) 0) = htob .ll c.time := by
  rw [bytesOf, raw]
  simp only [List.append_assoc]
  rfl

/-- **C62.** Packets are buffered on a new page with any calls, and another process goes through the page at the same time:
its `k`-th read happens when `clock k` bytes have been written, in any order the stores allow. It finds whole packets only,
each in its place: the first `m` of those that were accepted. All that were complete when it started are among them (as many
as it asks for). From then on every accessor gives what was buffered. A writer that dies after any byte is the case of a
clock that stands still. Missing: a page that is filled to the last byte, see `C62_full_page_fails`. -/
theorem C62_whole_packets_partial (size : Nat) (hs : size < 2 ^ 64) (calls : List Call)
    (hfit : ∀ c ∈ calls, FitsPacket (content c.pack) ∧ packetSize (content c.pack) < 2 ^ 32)
    (hroom : total (accepted size 0 calls) < size)
    (ws : List (Nat × UInt8)) (hw : Sched (bufferAll size 0 calls).1 ws)
    (clock : Nat → Nat) (hc : ∀ i j, i ≤ j → clock i ≤ clock j) (n : Nat) :
    ∃ m, m ≤ n ∧ m ≤ (accepted size 0 calls).length ∧
      walk size (watch ws clock) n 0 0 = .ok (places 0 ((accepted size 0 calls).take m)) ∧
      (∀ j, j ≤ (accepted size 0 calls).length → j ≤ n → total ((accepted size 0 calls).take j) ≤ clock 0 → j ≤ m) ∧
      (∀ a c b, (accepted size 0 calls).take m = a ++ c :: b → ∀ t, clock (20 * (a.length + 1)) ≤ t →
        Reads (cut (memAt ws t) (total a) (packetSize c)) c) := by
  obtain ⟨ps, e1, e2, e3⟩ := buffer_all size hs calls 0 (by omega)
  have hacc := accepted_fits size calls hfit 0
  rw [e2] at hw
  rw [e1] at hroom hacc ⊢
  obtain ⟨m, h1, h2, h3, h4, h5⟩ := walk_spots hc (size := size) (ps.map content) (fun c h => (hacc c h).2) 0
    (by
      intro a c b e
      obtain ⟨x, y, rfl, rfl, e'⟩ := List.map_eq_append_iff.mp e
      obtain ⟨p, z, rfl, rfl, rfl⟩ := List.map_eq_cons_iff.mp e'
      rw [Nat.zero_add]
      exact spot _ ws hw x z p rfl)
    (fun t => end_zero ps ws hw t _ (Nat.le_of_eq (Nat.zero_add _).symm)) (by omega) n 0
  simp only [Nat.zero_add] at h4 h5
  refine ⟨m, h1, h2, h3, h4, ?_⟩
  intro a c b e t ht
  rw [h5 a c b e t ht]
  have hm : c ∈ ps.map content := List.mem_of_mem_take (i := m) (by rw [e]; simp)
  refine holds_reads _ c ⟨rfl, rfl, ?_⟩ (hacc c hm).1 (hacc c hm).2
  intro x hx
  obtain ⟨p, -, rfl⟩ := List.mem_map.mp hm
  simp [content] at hx

/-- **C62.** The reader looks for the time of the next packet before it goes there. When it finds one, it is the time of the
packet that is being written or has been. -/
theorem C62_next_time (size : Nat) (hs : size < 2 ^ 64) (calls : List Call)
    (hfit : ∀ c ∈ calls, FitsPacket (content c.pack) ∧ packetSize (content c.pack) < 2 ^ 32)
    (ws : List (Nat × UInt8)) (hw : Sched (bufferAll size 0 calls).1 ws)
    (clock : Nat → Nat) (hc : ∀ i j, i ≤ j → clock i ≤ clock j) (a b : List Content) (c : Content)
    (e : accepted size 0 calls = a ++ c :: b) (k : Nat) :
    nextTime size (watch ws clock) k (total a) = none ∨ nextTime size (watch ws clock) k (total a) = some (.ok c.time) := by
  obtain ⟨ps, e1, e2, e3⟩ := buffer_all size hs calls 0 (by omega)
  have hacc := accepted_fits size calls hfit 0 c (by rw [e]; simp)
  rw [e2] at hw
  rw [e1] at e
  obtain ⟨x, y, rfl, rfl, e'⟩ := List.map_eq_append_iff.mp e
  obtain ⟨p, z, rfl, rfl, rfl⟩ := List.map_eq_cons_iff.mp e'
  have hsp := spot _ ws hw x z p rfl
  have hge := size_ge (content p)
  rw [nextTime]
  split
  · split
    · rename_i hne
      right
      have all : ∀ i, i < 8 → watch ws clock (k + 4 + i) (total (x.map content) + 12 + i) = (bytesOf (content p)).getD (12 + i) 0 := by
        intro i hi
        rw [Nat.add_assoc _ 12]
        rcases hne with h | h | h | h
        · exact hsp.rest (clock k) 0 (by omega) h _ (hc _ _ (by omega)) _ (by omega) (by omega)
        · exact hsp.rest (clock (k + 1)) 1 (by omega) h _ (hc _ _ (by omega)) _ (by omega) (by omega)
        · exact hsp.rest (clock (k + 2)) 2 (by omega) h _ (hc _ _ (by omega)) _ (by omega) (by omega)
        · exact hsp.rest (clock (k + 3)) 3 (by omega) h _ (hc _ _ (by omega)) _ (by omega) (by omega)
      have el : ((List.range 8).map fun i => watch ws clock (k + 4 + i) (total (x.map content) + 12 + i)) =
          (List.range 8).map fun i => (bytesOf (content p)).getD (12 + i) 0 :=
        List.map_congr_left fun i hi => all i (List.mem_range.mp hi)
      rw [el, time_bytes]
      have := Json.load_be .ll rfl (content p).time (buf := htob .ll (content p).time) (i := 0) (r := []) (by simp)
      rw [load, List.drop_zero] at this
      have h64 : (256 : Nat) ^ Codec.ll.width = 2 ^ 64 := rfl
      rw [this, Nat.mod_eq_of_lt (by rw [h64]; exact hacc.1.1)]
      rfl
    · exact .inl rfl
  · exact .inl rfl

/-- **C62.** No byte is written outside of the page. -/
theorem C62_writes_inside (size : Nat) (hs : size < 2 ^ 64) (calls : List Call)
    (ws : List (Nat × UInt8)) (hw : Sched (bufferAll size 0 calls).1 ws) (w : Nat × UInt8) (h : w ∈ ws) : w.1 < size := by
  obtain ⟨ps, e1, e2, e3⟩ := buffer_all size hs calls 0 (by omega)
  rw [e2] at hw
  have := stores_inside ps ws hw w h
  omega

theorem sched_flat (l : List (Nat × Bytes)) : Sched l (flat l) := by
  induction l with
  | nil => exact .nil
  | cons s r ih => exact .cons (List.Perm.refl _) ih

/-- A key frame and a packet of another kind, and one that is too late. -/
def sampleCalls : List Call :=
  [⟨false, 0, ⟨40, 80, 1, [1, 2, 3], 0, true⟩⟩, ⟨false, 40, ⟨80, 0, 1, [0, 0], 7, false⟩⟩, ⟨false, 80, ⟨60, 0, 1, [9], 0, false⟩⟩]

example : accepted 1000 0 sampleCalls = [⟨40, 80, 1, 0, some true, [1, 2, 3], none⟩, ⟨80, 0, 1, 7, none, [0, 0], none⟩] := by
  rfl

/-- The hypotheses can be met, and a reader that comes when the second packet lacks its last byte gets the first one. -/
example : (∀ c ∈ sampleCalls, FitsPacket (content c.pack) ∧ packetSize (content c.pack) < 2 ^ 32) ∧
    total (accepted 1000 0 sampleCalls) < 1000 ∧
    walk 1000 (watch (flat (bufferAll 1000 0 sampleCalls).1) fun _ => 125) 9 0 0 = .ok [(0, 74)] ∧
    walk 1000 (watch (flat (bufferAll 1000 0 sampleCalls).1) fun _ => 126) 9 0 0 = .ok [(0, 74), (74, 52)] := by
  refine ⟨?_, by decide +kernel, by decide +kernel, by decide +kernel⟩
  intro c hc
  rw [FitsPacket]
  simp only [sampleCalls, List.mem_cons, List.not_mem_nil, or_false] at hc
  rcases hc with rfl | rfl | rfl <;> decide

/-- **C62** fails for a page that is filled to its last byte, which `bufferNext` allows: the reader looks for the next packet
behind the end of the page. -/
theorem C62_full_page_fails : ∃ calls : List Call, (∀ c ∈ calls, FitsPacket (content c.pack)) ∧
    Sched (bufferAll 36 0 calls).1 (flat (bufferAll 36 0 calls).1) ∧
    walk 36 (watch (flat (bufferAll 36 0 calls).1) fun _ => 36) 2 0 0 = .oob := by
  refine ⟨[⟨false, 0, ⟨40, 0, 1, [7], 0, false⟩⟩], ?_, sched_flat _, by decide +kernel⟩
  intro c hc
  rw [FitsPacket]
  simp only [List.mem_cons, List.not_mem_nil, or_false] at hc
  subst hc
  decide

end Verif.Page
