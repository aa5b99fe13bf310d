import Verif.Ts.Pes

/-!
# From packets back to frames
-/
namespace Verif.Ts
open Spec

/-- The model's accessors agree with the standard's reading of a packet. -/
theorem view_accessors {b : Bytes} {v : View} (h : Spec.view b = some v) :
    (fromPointer b).payload = v.payload ∧ (fromPointer b).getCC = v.cc ∧ (fromPointer b).getPID = v.pid ∧
      (fromPointer b).getUnitStart = v.unitStart := by
  unfold Spec.view at h
  match b, h with
  | s :: b1 :: b2 :: b3 :: r, h =>
    simp only at h
    split at h
    · rename_i hc
      obtain ⟨hlen, -, hb1, hb3⟩ := hc
      have hcc : (fromPointer (s :: b1 :: b2 :: b3 :: r)).getCC = b3.toNat % 16 := by
        simp only [Packet.getCC, fromPointer, Packet.at, List.getD_cons_succ, List.getD_cons_zero, and0f]
      have hpid : (fromPointer (s :: b1 :: b2 :: b3 :: r)).getPID = b1.toNat % 32 * 256 + b2.toNat := by
        simp only [Packet.getPID, fromPointer, Packet.at, List.getD_cons_succ, List.getD_cons_zero, and1f, shl]
      have hus : (fromPointer (s :: b1 :: b2 :: b3 :: r)).getUnitStart = decide (b1.toNat / 64 % 2 = 1) := by
        simp only [Packet.getUnitStart, fromPointer, Packet.at, List.getD_cons_succ, List.getD_cons_zero]
        exact decide_eq_decide.mpr (and40 b1)
      have haf : (fromPointer (s :: b1 :: b2 :: b3 :: r)).getAF = b3.toNat / 16 % 4 := by
        simp only [Packet.getAF, fromPointer, Packet.at, List.getD_cons_succ, List.getD_cons_zero, and30]
      have hr : r.length = 184 := by simp at hlen; omega
      split at h
      · rename_i h1
        cases h
        refine ⟨?_, hcc, hpid, hus⟩
        rw [Packet.payload, Packet.payloadLen, haf, h1]
        simp only [fromPointer]
        exact List.take_of_length_le (by simp [hr])
      · split at h
        · rename_i h1 h3
          match r, h with
          | l :: r', h =>
            simp only at h
            split at h
            · rename_i hl
              cases h
              refine ⟨?_, hcc, hpid, hus⟩
              rw [Packet.payload, Packet.payloadLen, haf, h3]
              simp only [fromPointer, Packet.at, List.getD_cons_succ, List.getD_cons_zero]
              rw [if_pos (by omega), show 4 + (l.toNat + 1) = l.toNat + 5 by omega]
              simp only [List.drop_succ_cons]
              refine List.take_of_length_le ?_
              simp at hr
              simp [hr]
            · cases h
        · cases h
    · cases h

/-- Packets of one frame put together again: nothing is skipped. -/
theorem gather_carries {pid c0 : Nat} {v key : Bool} {t : Nat} (bs : List Bytes) {k : Nat} {ps : List Bytes} {last : Int}
    (h : Carries pid c0 v key t k bs ps) (hl : last ≠ ((c0 + 1 + k) % 16 : Nat)) :
    gather last (bs.map fromPointer) = ps.flatten := by
  induction bs generalizing k ps last with
  | nil =>
    cases ps with
    | nil => rfl
    | cons _ _ => exact h.elim
  | cons b bs ih =>
    cases ps with
    | nil => exact h.elim
    | cons p ps =>
      obtain ⟨⟨w, hv, hp⟩, hr⟩ := h
      obtain ⟨h1, h2, -, -⟩ := view_accessors hv
      simp only [List.map_cons, gather]
      rw [h2, hp.cc, if_neg (fun h => hl h.symm), h1, hp.payload]
      rw [ih hr (by omega)]
      simp

theorem carries_tail_start {pid c0 : Nat} {v key : Bool} {t : Nat} (bs : List Bytes) {k : Nat} {ps : List Bytes}
    (h : Carries pid c0 v key t k bs ps) (hk : k ≠ 0) : ∀ b ∈ bs, (fromPointer b).getUnitStart = false := by
  induction bs generalizing k ps with
  | nil => simp
  | cons b bs ih =>
    cases ps with
    | nil => exact h.elim
    | cons p ps =>
      obtain ⟨⟨w, hv, hp⟩, hr⟩ := h
      intro x hx
      rcases List.mem_cons.mp hx with rfl | hx
      · rw [(view_accessors hv).2.2.2, hp.unitStart]; simp [hk]
      · exact ih hr (by omega) x hx

theorem carries_pid {pid c0 : Nat} {v key : Bool} {t : Nat} (bs : List Bytes) {k : Nat} {ps : List Bytes}
    (h : Carries pid c0 v key t k bs ps) : ∀ b ∈ bs, (fromPointer b).getPID = pid % 8192 := by
  induction bs generalizing k ps with
  | nil => simp
  | cons b bs ih =>
    cases ps with
    | nil => exact h.elim
    | cons p ps =>
      obtain ⟨⟨w, hv, hp⟩, hr⟩ := h
      intro x hx
      rcases List.mem_cons.mp hx with rfl | hx
      · rw [(view_accessors hv).2.2.1, hp.pid]
      · exact ih hr x hx

/-! ## Times across rollovers -/

/-- How often the 33-bit clock has wrapped at `t` milliseconds. -/
abbrev epoch (t : Nat) : Nat := Spec.wraps t

theorem ms33_epoch {t : Nat} (h : epoch t ≤ 3) : ms33 (t * 90) = t - epoch t * rollover ∧ epoch t * rollover ≤ t := by
  unfold epoch Spec.wraps ms33 rollover at *
  omega

/-- The receiver's clock: after a frame at `t`, its counters are those of `t`. -/
theorem accept_time {s : Demux} {t : Nat} (hroll : s.roll = epoch s.lastms) (h1 : s.lastms ≤ t)
    (h2 : t ≤ s.lastms + 9000000 ∨ epoch t = epoch s.lastms) (h3 : epoch t ≤ 3) (data : Bytes) (off : Int) (bpos : Nat) (al : Bool) :
    accept s data (ms33 (t * 90)) off bpos al =
      { s with roll := epoch t, lastms := t, found := s.found ++ [⟨data, t, off, bpos, al⟩] } := by
  obtain ⟨e1, e2⟩ := ms33_epoch h3
  unfold accept
  simp only [e1, hroll]
  have hle : epoch s.lastms ≤ epoch t ∧ epoch t ≤ epoch s.lastms + 1 := by unfold epoch Spec.wraps at h2 ⊢; omega
  by_cases he : epoch t = epoch s.lastms
  · have hadd : t - epoch t * rollover + epoch s.lastms * rollover = t := by rw [he] at e2 ⊢; omega
    rw [hadd]
    have : rolled t s.lastms = false := by simp [rolled]; omega
    rw [this, he]
    rfl
  · have he' : epoch t = epoch s.lastms + 1 := by omega
    have h2 : t ≤ s.lastms + 9000000 := h2.resolve_right he
    have hr1 : t - epoch t * rollover + epoch s.lastms * rollover = t - rollover ∧ rollover ≤ t := by
      rw [he'] at e2 ⊢
      unfold rollover at *
      omega
    rw [hr1.1]
    have : rolled (t - rollover) s.lastms = true := by
      have q1 : (t - rollover) % rollover = t - epoch t * rollover := by
        unfold epoch Spec.wraps rollover at *; omega
      have q2 : s.lastms % rollover = s.lastms - epoch s.lastms * rollover := by
        unfold epoch Spec.wraps rollover at *; omega
      simp only [rolled, q1, q2, Bool.and_eq_true, decide_eq_true_eq]
      unfold epoch Spec.wraps rollover at *
      omega
    rw [this]
    simp only [if_true]
    rw [Nat.sub_add_cancel hr1.2, he']

/-! ## Units -/

/-- A frame in flight: what its packets carry and what the receiver should make of them. -/
structure Flight where
  bytes : Bytes      -- lead-in and data
  frame : Spec.Frame
  aligned : Bool

/-- The lead-in is right for the frame: any receiver state with a settled clock accepts it. -/
def Flight.Ok (f : Flight) : Prop :=
  ∀ (s : Demux) (bpos : Nat), s.roll = epoch s.lastms → s.lastms ≤ f.frame.time → (f.frame.time ≤ s.lastms + 9000000 ∨ epoch f.frame.time = epoch s.lastms) →
    pesLoop f.bytes.length bpos f.bytes.length s f.bytes =
      { s with roll := epoch f.frame.time, lastms := f.frame.time,
               found := s.found ++ [⟨f.frame.data, f.frame.time, f.frame.offset, bpos, f.aligned⟩] }

/-- Two lists related element by element. -/
inductive All2 {α β : Type} (R : α → β → Prop) : List α → List β → Prop
  | nil : All2 R [] []
  | cons {a b l r} : R a b → All2 R l r → All2 R (a :: l) (b :: r)

/-- The packets `g` carry the flight. -/
def Group (pid : Nat) (g : List Bytes) (f : Flight) : Prop :=
  ∃ c v k t ps, Carries pid c v k t 0 g ps ∧ ps.flatten = f.bytes ∧ g ≠ []

theorem unitLen_group {g : List Packet} {p : Packet} {r : List Packet} (hg : ∀ x ∈ g, x.getUnitStart = false)
    (hr : r = [] ∨ ∃ q r', r = q :: r' ∧ q.getUnitStart = true) : unitLen (p :: g ++ r) = (p :: g).length := by
  have : ((g ++ r).takeWhile fun p => !p.getUnitStart) = g := by
    rw [List.takeWhile_append_of_pos (by intro a ha; simp [hg a ha])]
    rcases hr with rfl | ⟨q, r', rfl, hq⟩
    · simp
    · simp [hq]
  rw [List.cons_append]
  simp only [unitLen, this, List.length_cons]
  omega

/-- Parsing the unit at the head of the queue. -/
theorem parse_group {pid : Nat} {g : List Bytes} {f : Flight} (hg : Group pid g f) (hf : f.Ok) (s : Demux) (r : List Packet)
    (fin : Bool) (hq : s.queue = g.map fromPointer ++ r)
    (hr : (r = [] ∧ fin = true) ∨ ∃ q r', r = q :: r' ∧ q.getUnitStart = true)
    (h1 : s.roll = epoch s.lastms) (h2 : s.lastms ≤ f.frame.time) (h3 : f.frame.time ≤ s.lastms + 9000000 ∨ epoch f.frame.time = epoch s.lastms) :
    s.parsePES fin = { s with
      queue := r, bpos := s.bpos.tail, seen := s.seen - 1, roll := epoch f.frame.time, lastms := f.frame.time,
      found := s.found ++ [⟨f.frame.data, f.frame.time, f.frame.offset, s.bpos.headD 0, f.aligned⟩] } := by
  obtain ⟨c, v, k, t, ps, hc, hflat, hne⟩ := hg
  cases g with
  | nil => exact absurd rfl hne
  | cons b bs =>
    cases ps with
    | nil => exact hc.elim
    | cons p ps =>
      have htail := carries_tail_start bs hc.2 (by omega)
      have hlen : unitLen s.queue = (b :: bs).length := by
        rw [hq]
        have := unitLen_group (g := bs.map fromPointer) (p := fromPointer b) (r := r)
          (by intro x hx; obtain ⟨y, hy, rfl⟩ := List.mem_map.mp hx; exact htail y hy)
          (by rcases hr with h | h
              · exact Or.inl h.1
              · exact Or.inr h)
        simpa using this
      have htake : s.queue.take (b :: bs).length = (b :: bs).map fromPointer := by
        rw [hq, List.take_append_of_le_length (by simp), List.take_of_length_le (by simp)]
      have hdrop : s.queue.drop (b :: bs).length = r := by
        rw [hq, List.drop_append_of_le_length (by simp), List.drop_of_length_le (by simp)]; rfl
      have hcc : (fromPointer b).getCC = (c + 1 + 0) % 16 := by
        obtain ⟨⟨w, hv, hp⟩, -⟩ := hc
        rw [(view_accessors hv).2.1, hp.cc]
      have hgat : gather ((fromPointer b).getCC - 1 : Int) ((b :: bs).map fromPointer) = f.bytes := by
        rw [← hflat]
        refine gather_carries _ hc ?_
        rw [hcc]; omega
      unfold Demux.parsePES
      rw [if_neg (by
        rw [hq]
        rcases hr with ⟨-, h⟩ | ⟨q, r', h, -⟩
        · simp [h]
        · simp [h])]
      simp only [hlen]
      rw [if_neg (by
        rw [hq]
        rcases hr with ⟨-, h⟩ | ⟨q, r', h, -⟩
        · simp [h]
        · simp [h])]
      rw [htake, hdrop]
      simp only [List.map_cons, List.head?_cons, Option.map_some, Option.getD_some]
      simp only [List.map_cons] at hgat
      rw [hgat]
      rw [hf _ _ (by exact h1) (by exact h2) (by exact h3)]

/-- The receiver between units: packets of the last unit are waiting. -/
structure Waiting (s : Demux) (g : List Bytes) (t : Nat) (us : List Unit') : Prop where
  queue : s.queue = g.map fromPointer
  bpos : s.bpos = [0]
  seen : s.seen = 1
  last : s.lastms = t
  roll : s.roll = epoch t
  found : s.found = us

theorem push_more (bs : List Bytes) (hbs : ∀ b ∈ bs, (fromPointer b).getUnitStart = false) {s : Demux} {g : List Bytes} {last : Nat}
    {found : List Unit'} (hw : Waiting s g last found) (hg : g ≠ []) :
    Waiting (bs.foldl (fun (s : Demux) b => s.push b 0) s) (g ++ bs) last found := by
  induction bs generalizing s g with
  | nil => simpa using hw
  | cons b bs ih =>
    have hb := hbs b (by simp)
    have hqne : s.queue ≠ [] := by rw [hw.queue]; simpa using hg
    have step : Waiting (s.push b 0) (g ++ [b]) last found := by
      have e : s.push b 0 = { s with queue := s.queue ++ [fromPointer b] } := by
        have ea : s.add (fromPointer b) 0 = { s with queue := s.queue ++ [fromPointer b] } := by
          simp [Demux.add, hb, hqne]
        simp [Demux.push, ea, hw.seen]
      rw [e]
      exact ⟨by simp [hw.queue], hw.bpos, hw.seen, hw.last, hw.roll, hw.found⟩
    have := ih (fun x hx => hbs x (List.mem_cons_of_mem _ hx)) step (by simp)
    simpa using this

/-- Frames close enough for the receiver to follow the clock. -/
def Near : Nat → List Flight → Prop
  | _, [] => True
  | last, f :: r => last ≤ f.frame.time ∧ (f.frame.time ≤ last + 9000000 ∨ epoch f.frame.time = epoch last) ∧ Near f.frame.time r

def Flight.unit (f : Flight) : Unit' := ⟨f.frame.data, f.frame.time, f.frame.offset, 0, f.aligned⟩

/-- All frames of a track, once the first packet is in. -/
theorem groups_run {pid : Nat} (gs : List (List Bytes)) (fs : List Flight) (hgs : All2 (Group pid) gs fs)
    (hok : ∀ f ∈ fs, f.Ok) {s : Demux} {g : List Bytes} {f : Flight} {last : Nat} {found : List Unit'} (hw : Waiting s g last found)
    (hg : Group pid g f) (hf : f.Ok) (h2 : last ≤ f.frame.time) (h3 : (f.frame.time ≤ last + 9000000 ∨ epoch f.frame.time = epoch last))
    (hst : Near f.frame.time fs) :
    ((gs.flatten.foldl (fun (s : Demux) b => s.push b 0) s).parsePES true).found = found ++ (f :: fs).map Flight.unit := by
  induction hgs generalizing s g f last found with
  | nil =>
    simp only [List.flatten_nil, List.foldl_nil]
    rw [parse_group hg hf s [] true (by simp [hw.queue]) (Or.inl ⟨rfl, rfl⟩) (by rw [hw.roll, hw.last])
      (by rw [hw.last]; exact h2) (by rw [hw.last]; exact h3)]
    simp [hw.found, hw.bpos, Flight.unit]
  | cons hgf hrest ih =>
    rename_i g' f' gs fs
    obtain ⟨c, v, k, t, ps, hc, hflat, hne⟩ := hgf
    have hgf : Group pid g' f' := ⟨c, v, k, t, ps, hc, hflat, hne⟩
    cases g' with
    | nil => exact absurd rfl hne
    | cons b bs =>
      cases ps with
      | nil => exact hc.elim
      | cons p ps =>
        have hus : (fromPointer b).getUnitStart = true := by
          obtain ⟨⟨w, hv, hp⟩, -⟩ := hc
          rw [(view_accessors hv).2.2.2, hp.unitStart]; rfl
        have htail := carries_tail_start bs hc.2 (by omega)
        have hqne : s.queue ≠ [] := by
          rw [hw.queue]
          obtain ⟨_, _, _, _, _, _, _, hgne⟩ := hg
          simpa using hgne
        have step : Waiting (s.push b 0) [b] f.frame.time (found ++ [f.unit]) := by
          have e : s.push b 0 = ({ s with queue := s.queue ++ [fromPointer b], bpos := s.bpos ++ [0], seen := s.seen + 1 } : Demux).parsePES false := by
            simp only [Demux.push, Demux.add, hus]
            simp [hw.seen]
          rw [e, parse_group hg hf _ [fromPointer b] false (by simp [hw.queue]) (Or.inr ⟨_, _, rfl, hus⟩)
            (by simp [hw.roll, hw.last]) (by simp [hw.last]; exact h2) (by simp [hw.last]; exact h3)]
          exact ⟨rfl, by simp [hw.bpos], by simp [hw.seen], rfl, rfl, by simp [hw.found, hw.bpos, Flight.unit]⟩
        have hmore := push_more bs htail step (by simp)
        have := ih (fun x hx => hok x (List.mem_cons_of_mem _ hx)) hmore hgf (hok f' (by simp)) hst.1 hst.2.1 hst.2.2
        simp only [List.flatten_cons, List.cons_append, List.foldl_cons, List.foldl_append]
        rw [this]
        simp

/-- A whole track: the frames that went in come out. -/
theorem demux_groups {pid : Nat} (gs : List (List Bytes)) (fs : List Flight) (hgs : All2 (Group pid) gs fs)
    (hok : ∀ f ∈ fs, f.Ok)
    (hst : Near 0 fs) : demux gs.flatten = fs.map Flight.unit := by
  cases hgs with
  | nil => rfl
  | cons hgf hrest =>
    rename_i g f gs fs
    obtain ⟨c, v, k, t, ps, hc, hflat, hne⟩ := hgf
    have hgf : Group pid g f := ⟨c, v, k, t, ps, hc, hflat, hne⟩
    cases g with
    | nil => exact absurd rfl hne
    | cons b bs =>
      cases ps with
      | nil => exact hc.elim
      | cons p ps =>
        have hus : (fromPointer b).getUnitStart = true := by
          obtain ⟨⟨w, hv, hp⟩, -⟩ := hc
          rw [(view_accessors hv).2.2.2, hp.unitStart]; rfl
        have htail := carries_tail_start bs hc.2 (by omega)
        have step : Waiting (Demux.init.push b 0) [b] 0 [] := by
          have e : Demux.init.push b 0 = ⟨[fromPointer b], [0], 1, 0, 0, []⟩ := by
            simp [Demux.push, Demux.add, hus, Demux.init]
          rw [e]
          exact ⟨rfl, rfl, rfl, rfl, rfl, rfl⟩
        have hmore := push_more bs htail step (by simp)
        have := groups_run gs fs hrest (fun x hx => hok x (List.mem_cons_of_mem _ hx)) hmore hgf (hok f (by simp)) hst.1 hst.2.1 hst.2.2
        unfold demux
        simp only [List.flatten_cons, List.cons_append, List.foldl_cons, List.foldl_append]
        rw [this]
        rfl

end Verif.Ts
