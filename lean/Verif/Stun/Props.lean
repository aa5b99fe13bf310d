import Verif.Stun.Lemmas

/-!
# C74, C75, C76: STUN messages of WebRTC
-/
namespace Verif.Stun
open Verif.Bit Verif.Addr

/-! ## C74: building messages -/

/-- The CRC-32 by which fingerprints are made. -/
def crc (m : Bytes) : Nat := (Crc.crc32LE 0xFFFFFFFF m ^^^ 0xFFFFFFFF).toNat

/-- The address that others know a peer by: four bytes if it is an IPv4 address, also if it came by an IPv6 socket. -/
def known (a : Sock) : Bytes := if (binForm a).take 12 = mapped then (binForm a).drop 12 else binForm a

/-- What is asked for by a call. -/
def Op.item : Op → Spec.Item
  | .username u => .plain 0x0006 u
  | .useCandidate => .plain 0x0025 []
  | .xorMapped a => .mapped a.port (known a)
  | .integrity p => .integrity p
  | .fingerprint => .fingerprint

/-- Addresses are of four or sixteen bytes. -/
def Op.Valid : Op → Prop
  | .xorMapped a => a.ip.length = if a.six then 16 else 4
  | _ => True

theorem toBits_not (v : Nat) : ∀ w ≤ 32, (toBits w (v ^^^ (2 ^ 32 - 1))).map (!·) = toBits w v
  | 0, _ => rfl
  | w + 1, h => by
    rw [toBits, toBits, List.map_cons, toBits_not v w (by omega), ← Nat.testBit_eq_decide_div_mod_eq, ← Nat.testBit_eq_decide_div_mod_eq,
      Nat.testBit_xor, Nat.testBit_two_pow_sub_one, decide_eq_true (by omega : w < 32)]
    simp

/-- **C74**. The function used for fingerprints is the CRC-32 that the standard asks for. -/
theorem C74_crc : Spec.IsCrc32 crc := by
  intro m
  refine ⟨(Crc.crc32LE 0xFFFFFFFF m ^^^ 0xFFFFFFFF).isLt, ?_⟩
  have h := Crc.C25_crc32LE 0xFFFFFFFF m
  have e1 : (toBits 32 (0xFFFFFFFF : BitVec 32).toNat).reverse = List.replicate 32 true := by decide +kernel
  have e2 : (toBits 32 (crc m)).reverse.map (!·) = (toBits 32 (Crc.crc32LE 0xFFFFFFFF m).toNat).reverse := by
    unfold crc
    rw [BitVec.toNat_xor, List.map_reverse]
    exact congrArg _ (toBits_not _ 32 (by omega))
  rw [e1, ← e2] at h
  exact h

example : crc "123456789".toUTF8.toList = 0xCBF43926 := by decide +kernel

theorem beEnc_xor (n a b : Nat) : beEnc n (a ^^^ b) = Spec.xor (beEnc n a) (beEnc n b) := by
  induction n with
  | zero => rfl
  | succ n ih =>
    rw [beEnc, beEnc, beEnc, ih, show 256 ^ n = 2 ^ (8 * n) by rw [Nat.pow_mul], Nat.xor_div_two_pow, UInt8.ofNat_xor]
    rfl

theorem print_eq (m : Bytes) : beEnc 4 (print m).toNat = Spec.xor (beEnc 4 (crc m)) [0x53, 0x54, 0x55, 0x4E] := by
  have : (print m).toNat = crc m ^^^ 0x5354554e := by
    unfold print crc
    rw [BitVec.toNat_xor]; rfl
  rw [this, beEnc_xor]; rfl

theorem short_known (a : Sock) (ha : a.ip.length = if a.six then 16 else 4) :
    ipBytes a = known a ∧ (known a).length = if short a then 4 else 16 := by
  unfold ipBytes known short is4in6 binForm
  by_cases h6 : a.six = true
  · simp only [h6, if_true] at ha ⊢
    by_cases hm : a.ip.take 12 = mapped
    · simp [hm, ha]
    · simp [hm, ha]
  · simp only [h6] at ha ⊢
    simp [mapped, ha]

theorem run_made (mac : Bytes → Bytes → Bytes) (hmac : ∀ p m, (mac p m).length = 20) (junk : Nat → UInt8) (type : Nat) (tid : Bytes)
    (ht : tid.length = 12) (l : List Spec.Attr) (d : Bytes) (h : Made type tid (Spec.body l) d) (o : Op) (ho : o.Valid) :
    o.run mac junk d = some (Spec.header type (Spec.body (l ++ [Spec.next mac crc type tid l o.item])).length tid ++
      Spec.body (l ++ [Spec.next mac crc type tid l o.item])) := by
  have hd := h.length ht
  rw [body_snoc]
  generalize hb : Spec.body l = b at *
  have hdr : ∀ n, (Spec.header type n tid ++ b).length = d.length := fun n => by rw [List.length_append, header_length _ _ ht, hd]
  cases o with
  | username u =>
    simp only [Op.run, addUsername, Op.item, Spec.next]
    obtain ⟨g, hg, e⟩ := begin (n := 4 + u.length + (4 - u.length % 4) % 4) h ht junk
    rw [e, Option.bind_some, store_s, poke_next (by rw [hdr]) (by simp; omega), Option.bind_some, store_s, poke_next (by rw [List.length_append, hdr]; simp) (by simp; omega),
      Option.bind_some, poke_next (by simp only [List.length_append, hdr]; simp) (by simp; omega), Option.bind_some,
      poke_next (by simp only [List.length_append, hdr]; simp) (by simp; omega)]
    rw [attr_bytes, List.drop_of_length_le (by simp; omega)]
    have hlen : (b ++ (beEnc 2 6 ++ beEnc 2 u.length ++ u ++ List.replicate ((4 - u.length % 4) % 4) 0)).length = b.length + (4 + u.length + (4 - u.length % 4) % 4) := by
      simp only [List.length_append, beEnc_length, List.length_replicate]
    rw [hlen]
    simp
  | useCandidate =>
    simp only [Op.run, addUseCandidate, Op.item, Spec.next]
    obtain ⟨g, hg, e⟩ := begin (n := 4) h ht junk
    rw [e, Option.bind_some, store_s, poke_next (by rw [hdr]) (by simp; omega), Option.bind_some, store_s, poke_next (by rw [List.length_append, hdr]; simp) (by simp; omega)]
    rw [attr_bytes, List.drop_of_length_le (by simp; omega)]
    simp
  | integrity p =>
    simp only [Op.run, addIntegrity, Op.item, Spec.next]
    obtain ⟨g, hg, e⟩ := begin (n := 24) h ht junk
    rw [e, Option.bind_some, store_s, poke_next (by rw [hdr]) (by simp; omega), Option.bind_some, store_s, poke_next (by rw [List.length_append, hdr]; simp) (by simp; omega),
      Option.bind_some, poke_next (by simp only [List.length_append, hdr]; simp) (by simp [hmac]; omega)]
    have htake : ∀ x y z : Bytes, List.take d.length (Spec.header type (b.length + 24) tid ++ b ++ x ++ y ++ z) = Spec.header type (b.length + 24) tid ++ b := by
      intro x y z
      rw [List.append_assoc, List.append_assoc, List.take_left' (hdr _)]
    rw [htake, attr_bytes, List.drop_of_length_le (by simp [hmac]; omega), hb]
    simp [hmac]
  | fingerprint =>
    simp only [Op.run, addFingerprint, Op.item, Spec.next]
    obtain ⟨g, hg, e⟩ := begin (n := 8) h ht junk
    rw [e, Option.bind_some, store_s, poke_next (by rw [hdr]) (by simp; omega), Option.bind_some, store_s, poke_next (by rw [List.length_append, hdr]; simp) (by simp; omega),
      Option.bind_some, store_l, poke_next (by simp only [List.length_append, hdr]; simp) (by simp; omega)]
    have htake : ∀ x y z : Bytes, List.take d.length (Spec.header type (b.length + 8) tid ++ b ++ x ++ y ++ z) = Spec.header type (b.length + 8) tid ++ b := by
      intro x y z
      rw [List.append_assoc, List.append_assoc, List.take_left' (hdr _)]
    rw [htake, attr_bytes, List.drop_of_length_le (by simp; omega), hb, print_eq]
    have hx : ∀ m, (Spec.xor (beEnc 4 (crc m)) [0x53, 0x54, 0x55, 0x4E]).length = 4 := fun m => by simp [Spec.xor]
    simp [hx]
  | xorMapped a =>
    simp only [Op.run, addXorMappedAddress, Op.item, Spec.next]
    obtain ⟨hip, hk⟩ := short_known a ho
    rw [hip]
    generalize known a = ip at *
    obtain ⟨g, hg, e⟩ := begin (n := if short a then 12 else 24) h ht junk
    have hx : ∀ r : Bytes, (ip.zipWith (· ^^^ ·) ((Spec.header type (b.length + (if short a then 12 else 24)) tid ++ r).drop 4)) = Spec.xor ip (Spec.cookie ++ tid) := by
      intro r
      unfold Spec.xor Spec.header
      rw [List.append_assoc, List.append_assoc, List.append_assoc, ← List.append_assoc (beEnc 2 _), List.drop_left' (by simp), ← List.append_assoc]
      exact zipWith_take _ _ _ _ (by rw [hk]; simp [Spec.cookie, ht]; split <;> omega)
    have h4 : ∀ r : Bytes, (Spec.header type (b.length + (if short a then 12 else 24)) tid ++ r).getD 4 0 = 0x21 := fun r => by simp [Spec.header, Spec.cookie, beEnc]
    have h5 : ∀ r : Bytes, (Spec.header type (b.length + (if short a then 12 else 24)) tid ++ r).getD 5 0 = 0x12 := fun r => by simp [Spec.header, Spec.cookie, beEnc]
    have h4' : ∀ x1 x2 x3 x4 x5 : Bytes, (Spec.header type (b.length + (if short a then 12 else 24)) tid ++ b ++ x1 ++ x2 ++ x3 ++ x4 ++ x5).getD 4 0 = 0x21 := by
      intros; simp only [List.append_assoc]; exact h4 _
    have h5' : ∀ x1 x2 x3 x4 x5 x6 : Bytes, (Spec.header type (b.length + (if short a then 12 else 24)) tid ++ b ++ x1 ++ x2 ++ x3 ++ x4 ++ x5 ++ x6).getD 5 0 = 0x12 := by
      intros; simp only [List.append_assoc]; exact h5 _
    have hx' : ∀ x1 x2 x3 x4 x5 x6 x7 : Bytes, ip.zipWith (· ^^^ ·) ((Spec.header type (b.length + (if short a then 12 else 24)) tid ++ b ++ x1 ++ x2 ++ x3 ++ x4 ++ x5 ++ x6 ++ x7).drop 4) =
        Spec.xor ip (Spec.cookie ++ tid) := by
      intros; simp only [List.append_assoc]; exact hx _
    have hil : (Spec.xor ip (Spec.cookie ++ tid)).length = ip.length := by
      simp only [Spec.xor, List.length_zipWith, List.length_append, ht]
      rw [hk]; split <;> rfl
    have hv : (Spec.mappedValue tid a.port ip).length = 4 + ip.length := by
      simp only [Spec.mappedValue, List.length_append, hil]
      simp [Spec.xor, Spec.cookie]
    have hn : 8 + ip.length = (if short a then 12 else 24) := by rw [hk]; split <;> omega
    rw [e, Option.bind_some, store_s, poke_next (by rw [hdr]) (by simp; omega), Option.bind_some, store_s, poke_next (by rw [List.length_append, hdr]; simp) (by simp; omega),
      Option.bind_some, poke_next (by simp only [List.length_append, hdr]; simp) (by simp; omega), Option.bind_some,
      poke_next (by simp only [List.length_append, hdr]; simp) (by simp; omega), Option.bind_some,
      h4', poke_next (by simp only [List.length_append, hdr]; simp) (by simp; omega), Option.bind_some,
      h5', poke_next (by simp only [List.length_append, hdr]; simp) (by simp; omega), Option.bind_some,
      hx', poke_next (by simp only [List.length_append, hdr]; simp) (by simp; omega)]
    have hpad : (4 - (4 + ip.length) % 4) % 4 = 0 := by rw [hk]; split <;> rfl
    have hlen : (b ++ (Spec.attr 32 (Spec.mappedValue tid a.port ip)).bytes).length = b.length + (if short a then 12 else 24) := by
      simp only [List.length_append, attr_bytes, beEnc_length, List.length_replicate, hv, hpad]; omega
    rw [hlen, List.drop_of_length_le (by simp; omega), attr_bytes, hv]
    have hsz : 4 + ip.length = (if short a then 8 else 20) := by rw [hk]; split <;> rfl
    have hfam : (if ip.length = 4 then (1 : UInt8) else 2) = (if short a then 1 else 2) := by rw [hk]; split <;> rfl
    rw [hpad, hsz]
    unfold Spec.mappedValue
    rw [hfam]
    have hport : Spec.xor (beEnc 2 a.port) Spec.cookie = [UInt8.ofNat (a.port >>> 8) ^^^ 33, UInt8.ofNat (a.port &&& 255) ^^^ 18] := by
      have : UInt8.ofNat (a.port &&& 255) = UInt8.ofNat a.port := by
        apply UInt8.toNat_inj.mp
        rw [u8n, u8n, show (255 : Nat) = 2 ^ 8 - 1 from rfl, Nat.and_two_pow_sub_one_eq_mod]
        omega
      simp [Spec.xor, beEnc, Spec.cookie, Nat.shiftRight_eq_div_pow, this]
    rw [hport]
    simp

theorem create_eq (g : Bytes) (hg : g.length = 20) (tid : Bytes) (ht : tid.length = 12) (type : Nat) :
    ∃ d, (((store .l g 4 0x2112a442).bind fun d => if d.length < 2 then some d else store .s d 0 type).bind fun d => genTID d tid) = some d ∧
      Made type tid (Spec.body []) d := by
  refine ⟨beEnc 2 type ++ (g.drop 2).take 2 ++ (Spec.cookie ++ tid ++ []), ?_, (g.drop 2).take 2, by simp [hg], rfl⟩
  have e1 : g = g.take 4 ++ (g.drop 4).take 4 ++ g.drop 8 := by
    match g, hg with
    | [_, _, _, _, _, _, _, _, _, _, _, _, _, _, _, _, _, _, _, _], _ => rfl
  have e2 : store .l g 4 0x2112a442 = some (g.take 4 ++ Spec.cookie ++ g.drop 8) := by
    rw [store_l]
    conv => lhs; rw [e1]
    rw [poke_mid (by simp [hg]) (by simp [hg])]
    rfl
  rw [e2, Option.bind_some, if_neg (by simp [hg, Spec.cookie]), store_s]
  have e3 : poke (g.take 4 ++ Spec.cookie ++ g.drop 8) 0 (beEnc 2 type) = some (beEnc 2 type ++ (g.drop 2).take 2 ++ Spec.cookie ++ g.drop 8) := by
    have : g.take 4 ++ Spec.cookie ++ g.drop 8 = [] ++ g.take 2 ++ ((g.drop 2).take 2 ++ Spec.cookie ++ g.drop 8) := by
      match g, hg with
      | [_, _, _, _, _, _, _, _, _, _, _, _, _, _, _, _, _, _, _, _], _ => rfl
    rw [this, poke_mid (p := 0) (a := []) rfl (by simp [hg])]
    simp
  have hl : (beEnc 2 type ++ (g.drop 2).take 2 ++ Spec.cookie).length = 8 := by simp [hg, Spec.cookie]
  have hl' : (beEnc 2 type ++ (g.drop 2).take 2 ++ Spec.cookie ++ g.drop 8).length = 20 := by rw [List.length_append, hl]; simp [hg]
  rw [e3, Option.bind_some, genTID, if_neg (by omega), poke_next hl.symm (by simp [hg, ht])]
  have hz : (g.drop 8).drop tid.length = [] := by simp [hg, ht]
  rw [hz]
  simp

theorem runAll_made (mac : Bytes → Bytes → Bytes) (hmac : ∀ p m, (mac p m).length = 20) (junk : Nat → UInt8) (type : Nat) (tid : Bytes)
    (ht : tid.length = 12) (ops : List Op) : ∀ (l : List Spec.Attr) (d : Bytes) (_ : Made type tid (Spec.body l) d) (_ : ops ≠ []) (_ : ∀ o ∈ ops, o.Valid),
    runAll mac junk d ops = some (Spec.header type (Spec.body (Spec.attrs mac crc type tid l (ops.map Op.item))).length tid ++
      Spec.body (Spec.attrs mac crc type tid l (ops.map Op.item))) := by
  induction ops with
  | nil => intro _ _ _ h; exact absurd rfl h
  | cons o r ih =>
    intro l d h _ ho
    rw [runAll, run_made mac hmac junk type tid ht l d h o (ho o (by simp)), Option.bind_some, List.map_cons, Spec.attrs]
    by_cases hr : r = []
    · subst hr
      rw [runAll, List.map_nil, Spec.attrs]
    · exact ih _ _ (made_header _ _ _ _) hr fun o h => ho o (by simp [h])

/-- **C74**. A message built by any calls, in any memory, is the message that the standard describes. -/
theorem C74_message (mac : Bytes → Bytes → Bytes) (hmac : ∀ p m, (mac p m).length = 20) (junk : Nat → UInt8) (type : Nat) (tid : Bytes)
    (ht : tid.length = 12) (ops : List Op) (hne : ops ≠ []) (ho : ∀ o ∈ ops, o.Valid) :
    (((create junk type).bind fun d => genTID d tid).bind fun d => runAll mac junk d ops) = some (Spec.message mac crc type tid (ops.map Op.item)) := by
  obtain ⟨g, hg, hgl⟩ := grow_eq junk [] 20
  have hc : ∃ d, ((create junk type).bind fun d => genTID d tid) = some d ∧ Made type tid (Spec.body []) d := by
    unfold create
    rw [hg]
    exact create_eq g hgl tid ht type
  obtain ⟨d, hd, hm⟩ := hc
  rw [hd, Option.bind_some, runAll_made mac hmac junk type tid ht ops [] d hm hne ho]
  rfl

/-! ## C75: reading messages -/

theorem load_s (a b : Bytes) (p v : Nat) (hp : p = a.length) (hv : v < 65536) : load .s (a ++ (beEnc 2 v ++ b)) p = some v := by
  subst hp
  unfold load
  rw [List.drop_left, btoh_eq .s _ _ (by simp; rfl)]
  have := beVal_beEnc 2 v
  simp only [Codec.big, if_true]
  rw [this]
  congr 1
  omega

/-- An empty last attribute is not seen. -/
def seen : List Spec.Attr → List Spec.Attr
  | [] => []
  | [a] => if a.value = [] then [] else [a]
  | a :: r => a :: seen r

theorem seen_cons (a b : Spec.Attr) (r : List Spec.Attr) : seen (a :: b :: r) = a :: seen (b :: r) := by rw [seen]; simp

theorem attr_length (a : Spec.Attr) : a.bytes.length = 4 + a.value.length + a.padding.length := by
  simp only [Spec.Attr.bytes, List.length_append, beEnc_length]

theorem find_step (pre post : Bytes) (hp : pre.length % 4 = 0) (a : Spec.Attr) (ha : a.Valid) (h : a.value ≠ [] ∨ post ≠ []) (type k : Nat) :
    find (pre ++ (a.bytes ++ post)) type (k + 1) pre.length =
      if a.type = type then some (some a.value) else find ((pre ++ a.bytes) ++ post) type k (pre ++ a.bytes).length := by
  have hlen : (pre ++ (a.bytes ++ post)).length = pre.length + 4 + a.value.length + a.padding.length + post.length := by
    rw [List.length_append, List.length_append, attr_length]; omega
  have hgt : pre.length + 4 < (pre ++ (a.bytes ++ post)).length := by
    rcases h with h | h
    · have := List.length_pos_iff.mpr h; omega
    · have := List.length_pos_iff.mpr h; omega
  have e1 : load .s (pre ++ (a.bytes ++ post)) pre.length = some a.type := by
    rw [Spec.Attr.bytes, List.append_assoc, List.append_assoc, List.append_assoc]
    exact load_s _ _ _ _ rfl ha.1
  have e2 : load .s (pre ++ (a.bytes ++ post)) (pre.length + 2) = some a.value.length := by
    rw [Spec.Attr.bytes, List.append_assoc, List.append_assoc, List.append_assoc, ← List.append_assoc pre]
    exact load_s _ _ _ _ (by simp) ha.2.1
  rw [find, if_pos hgt, e1, Option.bind_some, e2, Option.bind_some, if_neg (by omega)]
  by_cases ht : a.type = type
  · rw [if_pos ht, if_pos ht]
    have : (pre ++ (a.bytes ++ post)).drop (pre.length + 4) = a.value ++ (a.padding ++ post) := by
      rw [show pre ++ (a.bytes ++ post) = (pre ++ (beEnc 2 a.type ++ beEnc 2 a.value.length)) ++ (a.value ++ (a.padding ++ post)) by
        simp [Spec.Attr.bytes], List.drop_left' (by simp)]
    rw [this, List.take_left]
  · rw [if_neg ht, if_neg ht, List.append_assoc]
    have : align (pre.length + 4 + a.value.length) = (pre ++ a.bytes).length := by
      rw [List.length_append, attr_length, ha.2.2, align]; omega
    rw [this]

theorem find_body (type : Nat) : ∀ (l : List Spec.Attr) (_ : ∀ a ∈ l, a.Valid) (pre : Bytes) (_ : pre.length % 4 = 0) (k : Nat) (_ : l.length ≤ k),
    find (pre ++ Spec.body l) type k pre.length = some (Spec.first type (seen l))
  | [], _, pre, _, k, _ => by
    cases k with
    | zero => rfl
    | succ k => rw [find, if_neg (by simp [Spec.body])]; rfl
  | [a], hl, pre, hp, k + 1, _ => by
    rw [body_cons]
    by_cases hv : a.value = []
    · rw [find, if_neg, seen, if_pos hv]
      · rfl
      · have := (hl a (by simp)).2.2
        rw [hv] at this
        simp [attr_length, hv, Spec.body, this]
    · rw [find_step pre (Spec.body []) hp a (hl a (by simp)) (.inl hv), seen, if_neg hv]
      by_cases ht : a.type = type
      · simp [ht, Spec.first]
      · rw [if_neg ht, find_body type [] (by simp) (pre ++ a.bytes) _ k (by simp)]
        · simp [ht, Spec.first, seen]
        · have := (hl a (by simp)).2.2
          rw [List.length_append, attr_length, this]; omega
  | a :: b :: r, hl, pre, hp, k + 1, hk => by
    rw [body_cons]
    have hb : Spec.body (b :: r) ≠ [] := by
      intro h
      have := congrArg List.length h
      rw [body_cons, List.length_append, attr_length] at this
      simp at this
    rw [find_step pre (Spec.body (b :: r)) hp a (hl a (by simp)) (.inr hb), seen_cons]
    by_cases ht : a.type = type
    · simp [ht, Spec.first]
    · rw [if_neg ht, find_body type (b :: r) (fun x hx => hl x (by simp only [List.mem_cons] at hx ⊢; exact .inr hx)) (pre ++ a.bytes) _ k (by simpa using hk)]
      · simp [ht, Spec.first]
      · have := (hl a (by simp)).2.2
        rw [List.length_append, attr_length, this]; omega

theorem body_length_ge (l : List Spec.Attr) : l.length ≤ (Spec.body l).length := by
  induction l with
  | nil => simp
  | cons a l ih => rw [body_cons, List.length_append, attr_length]; simp; omega

theorem find_message (type : Nat) (h : Bytes) (hh : h.length = 20) (l : List Spec.Attr) (hl : ∀ a ∈ l, a.Valid) :
    find (h ++ Spec.body l) type (h ++ Spec.body l).length 20 = some (Spec.first type (seen l)) := by
  have := find_body type l hl h (by omega) (h ++ Spec.body l).length (by have := body_length_ge l; rw [List.length_append]; omega)
  rwa [hh] at this

theorem seen_eq (l : List Spec.Attr) (h : ∀ a, l.getLast? = some a → a.value ≠ []) : seen l = l := by
  induction l with
  | nil => rfl
  | cons a r ih =>
    cases r with
    | nil => rw [seen, if_neg (h a rfl)]
    | cons b r => rw [seen_cons, ih fun x hx => h x (by rw [List.getLast?_cons_cons]; exact hx)]

/-- **C75** (for messages that do not end with an empty attribute, see `C75_last_fails`). An attribute is found with the value of the first of
its type, whatever the header, the other attributes and the padding are; what is not in the message is not found. -/
theorem C75_reads_partial (type : Nat) (h : Bytes) (hh : h.length = 20) (l : List Spec.Attr) (hl : ∀ a ∈ l, a.Valid)
    (hlast : ∀ a, l.getLast? = some a → a.value ≠ []) :
    getAttributeByType (h ++ Spec.body l) type = some ((Spec.first type l).getD []) ∧
    hasAttribute (h ++ Spec.body l) type = some (Spec.first type l).isSome := by
  unfold getAttributeByType hasAttribute
  rw [find_message type h hh l hl, seen_eq l hlast]
  exact ⟨rfl, rfl⟩

theorem seen_snoc (l : List Spec.Attr) (a : Spec.Attr) (h : a.value = []) : seen (l ++ [a]) = l := by
  induction l with
  | nil => simp [seen, h]
  | cons b r ih =>
    cases r with
    | nil => rw [List.cons_append, List.nil_append, seen_cons, seen, if_pos h]
    | cons c r => rw [List.cons_append, List.cons_append, seen_cons, ← List.cons_append, ih]

/-- **C75** fails for an empty attribute at the end of a message, such as USE-CANDIDATE: it is not found. -/
theorem C75_last_fails (type : Nat) (h : Bytes) (hh : h.length = 20) (l : List Spec.Attr) (hl : ∀ a ∈ l, a.Valid) (hf : Spec.first type l = none)
    (ht : type < 65536) :
    hasAttribute (h ++ Spec.body (l ++ [⟨type, [], []⟩])) type = some false ∧ Spec.first type (l ++ [⟨type, [], []⟩]) = some [] := by
  constructor
  · unfold hasAttribute
    rw [find_message type h hh]
    · rw [seen_snoc _ _ rfl, hf]; rfl
    · intro a ha
      rcases List.mem_append.mp ha with h | h
      · exact hl a h
      · rw [List.mem_singleton.mp h]; exact ⟨ht, by simp, by simp⟩
  · unfold Spec.first at hf ⊢
    rw [Option.map_eq_none_iff] at hf
    rw [List.find?_append, hf]
    simp

theorem load_some (d : Bytes) (p : Nat) (h : p + 2 ≤ d.length) : ∃ v, load .s d p = some v := by
  unfold load
  match hd : d.drop p with
  | [] => have := congrArg List.length hd; simp at this; omega
  | [x] => have := congrArg List.length hd; simp at this; omega
  | x :: y :: r => exact ⟨_, rfl⟩

theorem find_safe (d : Bytes) (type : Nat) : ∀ k offset, find d type k offset ≠ none := by
  intro k
  induction k with
  | zero => intro offset; simp [find]
  | succ k ih =>
    intro offset
    rw [find]
    by_cases h : offset + 4 < d.length
    · rw [if_pos h]
      obtain ⟨t, ht⟩ := load_some d offset (by omega)
      obtain ⟨l, hl⟩ := load_some d (offset + 2) (by omega)
      rw [ht, Option.bind_some, hl, Option.bind_some]
      split
      · simp
      · split
        · simp
        · exact ih _
    · rw [if_neg h]; simp

/-- **C75**. No bytes, whatever is received, make the search leave the packet. -/
theorem C75_safe (d : Bytes) (type : Nat) : getAttributeByType d type ≠ none ∧ hasAttribute d type ≠ none := by
  unfold getAttributeByType hasAttribute
  simp [find_safe]

/-- **C75**. The search ends by itself: as many steps as there are bytes are enough. -/
theorem C75_stops (d : Bytes) (type : Nat) (k : Nat) (hk : d.length ≤ k) : find d type k 20 = find d type d.length 20 := by
  have key : ∀ n k m offset, d.length ≤ offset + n → n ≤ k → n ≤ m → find d type k offset = find d type m offset := by
    intro n
    induction n with
    | zero =>
      intro k m offset h1 _ _
      cases k <;> cases m <;> simp [find, show ¬ offset + 4 < d.length by omega]
    | succ n ih =>
      intro k m offset h1 h2 h3
      obtain ⟨k, rfl⟩ : ∃ i, k = i + 1 := ⟨k - 1, by omega⟩
      obtain ⟨m, rfl⟩ : ∃ i, m = i + 1 := ⟨m - 1, by omega⟩
      rw [find, find]
      by_cases h : offset + 4 < d.length
      · rw [if_pos h, if_pos h]
        obtain ⟨t, ht⟩ := load_some d offset (by omega)
        obtain ⟨l, hl⟩ := load_some d (offset + 2) (by omega)
        rw [ht, Option.bind_some, Option.bind_some, hl, Option.bind_some, Option.bind_some, ih k m (align (offset + 4 + l)) (by unfold align; omega) (by omega) (by omega)]
      · rw [if_neg h, if_neg h]
  exact key d.length k d.length 20 (by omega) hk (Nat.le_refl _)

/-! ## C76: answering -/

/-- The message is a request for a track with the password `p`: the user name is the name of the track, a colon and the name of the peer. -/
def Asks (tracks : List Track) (type : Nat) (l : List Spec.Attr) (p : Bytes) : Prop :=
  type = 0x0001 ∧ ∃ u r, Spec.first 0x0006 l = some (u ++ 58 :: r) ∧ 58 ∉ u ∧ (tracks.find? fun t => t.ufrag = u).map (·.pwd) = some p ∧ p ≠ []

theorem password_eq (tracks : List Track) (u : Bytes) : password tracks u = ((tracks.find? fun t => t.ufrag = u).map (·.pwd)).getD [] := by
  induction tracks with
  | nil => rfl
  | cons t r ih =>
    rw [password]
    by_cases h : t.ufrag = u
    · simp [h]
    · simp [h, ih]

theorem valid_header (type n : Nat) (tid b : Bytes) (ht : tid.length = 12) : valid (Spec.header type n tid ++ b) = some true := by
  unfold valid
  rw [if_neg (by rw [List.length_append, header_length _ _ ht]; omega)]
  have : load .l (Spec.header type n tid ++ b) 4 = some 0x2112a442 := by
    unfold load Spec.header
    rw [List.append_assoc, List.append_assoc, List.drop_left' (by simp)]
    rfl
  rw [this]; rfl

theorem getType_header (type n : Nat) (tid b : Bytes) (ht : tid.length = 12) (hty : type < 65536) : getType (Spec.header type n tid ++ b) = some type := by
  unfold getType
  rw [if_neg (by rw [List.length_append, header_length _ _ ht]; omega)]
  have := load_s [] (beEnc 2 n ++ (Spec.cookie ++ (tid ++ b))) 0 type rfl hty
  rw [Spec.header, List.append_assoc, List.append_assoc, List.append_assoc]
  exact this

/-- The attributes of an answer. -/
def reply (remote : Sock) (candidate : Bool) (p : Bytes) : List Spec.Item :=
  [.mapped remote.port (known remote)] ++ (if candidate then [.plain 0x0025 []] else []) ++ [.integrity p, .fingerprint]

theorem answer_eq (mac : Bytes → Bytes → Bytes) (hmac : ∀ p m, (mac p m).length = 20) (junk : Nat → UInt8) (d : Bytes) (hd : 20 ≤ d.length) (remote : Sock)
    (hr : remote.ip.length = if remote.six then 16 else 4) (pwd : Bytes) (c : Bool) :
    answer mac junk d remote pwd c = some (Spec.message mac crc 0x0101 ((d.drop 8).take 12) (reply remote c pwd)) := by
  have h := C74_message mac hmac junk 0x0101 ((d.drop 8).take 12) (by simp; omega)
    ([.xorMapped remote] ++ (if c then [.useCandidate] else []) ++ [.integrity pwd, .fingerprint]) (by simp) (by
      intro o ho
      cases c
      · simp at ho
        rcases ho with rfl | rfl | rfl
        · exact hr
        · trivial
        · trivial
      · simp at ho
        rcases ho with rfl | rfl | rfl | rfl
        · exact hr
        · trivial
        · trivial
        · trivial)
  have hcopy : ∀ r, copyTID r d = genTID r ((d.drop 8).take 12) := by
    intro r
    unfold copyTID genTID
    rw [if_neg (by omega : ¬ d.length < 20)]
  unfold answer
  simp only [hcopy]
  rw [← Option.bind_assoc, h]
  cases c <;> rfl

theorem handle_name (mac : Bytes → Bytes → Bytes) (junk : Nat → UInt8) (tracks : List Track) (s : State) (sock : Nat) (remote : Sock) (n : Nat) (tid : Bytes)
    (ht : tid.length = 12) (type : Nat) (hty : type < 65536) (l : List Spec.Attr) (hl : ∀ a ∈ l, a.Valid) (hlast : ∀ a, l.getLast? = some a → a.value ≠ []) :
    ∀ d, d = Spec.header type n tid ++ Spec.body l →
    (∀ p, Asks tracks type l p → handle mac junk tracks s sock remote d = accept mac junk s sock remote d p) ∧
    ((∀ p, ¬ Asks tracks type l p) → handle mac junk tracks s sock remote d = some (s, none)) := by
  intro d hd
  have h1 : handle mac junk tracks s sock remote d = if type = 0x0101 then some (s, none) else if type ≠ 0x0001 then some (s, none) else
      if (Spec.first 0x0006 l).getD [] = [] then some (s, none) else match findChar 58 ((Spec.first 0x0006 l).getD []) with
      | none => some (s, none)
      | some colon => if password tracks (((Spec.first 0x0006 l).getD []).take colon) = [] then some (s, none)
          else accept mac junk s sock remote d (password tracks (((Spec.first 0x0006 l).getD []).take colon)) := by
    unfold handle
    rw [hd, valid_header _ _ _ _ ht, Option.bind_some, if_neg (by simp), getType_header _ _ _ _ ht hty, Option.bind_some,
      (C75_reads_partial 0x0006 _ (header_length type n ht) l hl hlast).1, Option.bind_some]
    rfl
  rw [h1]
  constructor
  · rintro p ⟨h, u, r, hf, hu, hp, hne⟩
    subst h
    have hpw : password tracks u = p := by rw [password_eq, hp]; rfl
    rw [if_neg (by decide), if_neg (by simp), hf, Option.getD_some, if_neg (by simp), findChar_append hu]
    simp only [List.take_left, hpw]
    rw [if_neg hne]
  · intro hno
    by_cases e1 : type = 0x0101
    · rw [if_pos e1]
    · rw [if_neg e1]
      by_cases e2 : type = 0x0001
      · rw [if_neg (fun h => h e2)]
        by_cases e3 : (Spec.first 0x0006 l).getD [] = []
        · rw [if_pos e3]
        · rw [if_neg e3]
          cases hf : Spec.first 0x0006 l with
          | none => rw [hf] at e3; exact absurd rfl e3
          | some name =>
            simp only [Option.getD_some]
            cases hc : findChar 58 name with
            | none => rfl
            | some colon =>
              simp only
              obtain ⟨u, r, rfl, hu, rfl⟩ := findChar_some.mp hc
              rw [List.take_left]
              by_cases e4 : password tracks u = []
              · rw [if_pos e4]
              · exfalso
                refine hno (password tracks u) ⟨e2, u, r, hf, hu, ?_, e4⟩
                rw [password_eq] at e4 ⊢
                cases hq : (tracks.find? fun t => t.ufrag = u).map (·.pwd) with
                | none => rw [hq] at e4; exact absurd rfl e4
                | some q => rfl
      · rw [if_pos e2]

/-- The socket in use after a request came on `sock`: the side in control takes the first one. -/
def chosen (s : State) (sock : Nat) : Option Nat := if s.controlling ∧ s.current = none then some sock else s.current

/-- **C76** (as far as it does not depend on the integrity of the request, see `C76_forged_fails`). A request for a track is answered with the
transaction of the request, the address of its sender and the integrity that the password of that track gives. The sender's wish to use this
pair of addresses is noted. -/
theorem C76_answer_partial (mac : Bytes → Bytes → Bytes) (hmac : ∀ p m, (mac p m).length = 20) (junk : Nat → UInt8) (tracks : List Track) (s : State)
    (sock : Nat) (remote : Sock) (hr : remote.ip.length = if remote.six then 16 else 4) (n : Nat) (tid : Bytes) (ht : tid.length = 12) (type : Nat)
    (hty : type < 65536) (l : List Spec.Attr) (hl : ∀ a ∈ l, a.Valid) (hlast : ∀ a, l.getLast? = some a → a.value ≠ []) (p : Bytes)
    (hp : Asks tracks type l p) :
    handle mac junk tracks s sock remote (Spec.header type n tid ++ Spec.body l) =
      some (⟨s.controlling, chosen s sock, if (Spec.first 0x0025 l).isSome then sock :: s.nominated else s.nominated⟩,
        some (Spec.message mac crc 0x0101 tid (reply remote (s.controlling && decide (chosen s sock = some sock)) p))) := by
  rw [(handle_name mac junk tracks s sock remote n tid ht type hty l hl hlast _ rfl).1 p hp]
  unfold accept
  rw [(C75_reads_partial 0x0025 _ (header_length type n ht) l hl hlast).2, Option.bind_some]
  simp only
  rw [answer_eq mac hmac junk _ (by rw [List.length_append, header_length _ _ ht]; omega) remote hr]
  have : ((Spec.header type n tid ++ Spec.body l).drop 8).take 12 = tid := by
    rw [Spec.header, List.append_assoc, List.drop_left' (by simp [Spec.cookie]), List.take_left' ht]
  rw [this]
  rfl

/-- **C76**. All other messages are not answered and change nothing. -/
theorem C76_silent (mac : Bytes → Bytes → Bytes) (junk : Nat → UInt8) (tracks : List Track) (s : State)
    (sock : Nat) (remote : Sock) (n : Nat) (tid : Bytes) (ht : tid.length = 12) (type : Nat)
    (hty : type < 65536) (l : List Spec.Attr) (hl : ∀ a ∈ l, a.Valid) (hlast : ∀ a, l.getLast? = some a → a.value ≠ [])
    (hp : ∀ p, ¬ Asks tracks type l p) :
    handle mac junk tracks s sock remote (Spec.header type n tid ++ Spec.body l) = some (s, none) :=
  (handle_name mac junk tracks s sock remote n tid ht type hty l hl hlast _ rfl).2 hp

/-- **C76**. No packet, whatever its bytes are, makes the answering leave its memory. -/
theorem C76_safe (mac : Bytes → Bytes → Bytes) (hmac : ∀ p m, (mac p m).length = 20) (junk : Nat → UInt8) (tracks : List Track) (s : State)
    (sock : Nat) (remote : Sock) (hr : remote.ip.length = if remote.six then 16 else 4) (d : Bytes) :
    handle mac junk tracks s sock remote d ≠ none := by
  unfold handle valid getType
  by_cases h20 : d.length < 20
  · rw [if_pos h20, Option.bind_some, if_pos rfl]; simp
  · rw [if_neg h20, if_neg (by omega : ¬ d.length < 2)]
    have hl : ∃ v, load .l d 4 = some v := by
      unfold load
      match hd : d.drop 4 with
      | [] | [_] | [_, _] | [_, _, _] => have := congrArg List.length hd; simp at this; omega
      | a :: b :: c :: e :: r => exact ⟨_, rfl⟩
    obtain ⟨v, hv⟩ := hl
    obtain ⟨t, ht⟩ := load_some d 0 (by omega)
    rw [hv, Option.map_some, Option.bind_some, ht, Option.bind_some]
    cases hg : getAttributeByType d 0x0006 with
    | none => exact absurd hg (C75_safe d _).1
    | some name =>
      rw [Option.bind_some]
      cases hu : hasAttribute d 0x0025 with
      | none => exact absurd hu (C75_safe d _).2
      | some use =>
        have hacc : ∀ p, accept mac junk s sock remote d p ≠ none := by
          intro p
          unfold accept
          rw [hu, Option.bind_some]
          simp only
          rw [answer_eq mac hmac junk d (by omega) remote hr]
          simp
        split
        · simp
        · split
          · simp
          · split
            · simp
            · split
              · simp
              · split
                · simp
                · simp only
                  split
                  · simp
                  · exact hacc _

/-- **C76** fails for forged requests: what is done does not depend on the value of MESSAGE-INTEGRITY. -/
theorem C76_forged_fails (mac : Bytes → Bytes → Bytes) (hmac : ∀ p m, (mac p m).length = 20) (junk : Nat → UInt8) (tracks : List Track) (s : State)
    (sock : Nat) (remote : Sock) (hr : remote.ip.length = if remote.six then 16 else 4) (n : Nat) (tid : Bytes) (ht : tid.length = 12) (type : Nat)
    (hty : type < 65536) (l r : List Spec.Attr) (hl : ∀ a ∈ l ++ r, a.Valid) (hlast : ∀ a, r.getLast? = some a → a.value ≠ [])
    (v v' : Bytes) (hv : v.length = 20) (hv' : v'.length = 20) :
    handle mac junk tracks s sock remote (Spec.header type n tid ++ Spec.body (l ++ Spec.attr 0x0008 v :: r)) =
    handle mac junk tracks s sock remote (Spec.header type n tid ++ Spec.body (l ++ Spec.attr 0x0008 v' :: r)) := by
  have hvalid : ∀ v : Bytes, v.length = 20 → ∀ a ∈ l ++ Spec.attr 0x0008 v :: r, a.Valid := by
    intro v hv a ha
    rcases List.mem_append.mp ha with h | h
    · exact hl a (List.mem_append_left _ h)
    · rcases List.mem_cons.mp h with h | h
      · rw [h]; exact ⟨by simp [Spec.attr], by simp [Spec.attr, hv], by simp [Spec.attr]⟩
      · exact hl a (List.mem_append_right _ h)
  have hend : ∀ v : Bytes, v.length = 20 → ∀ a, (l ++ Spec.attr 0x0008 v :: r).getLast? = some a → a.value ≠ [] := by
    intro v hv a ha
    rw [List.getLast?_append] at ha
    cases r with
    | nil =>
      simp at ha
      rw [← ha]
      intro e
      simp only [Spec.attr] at e
      rw [e] at hv; cases hv
    | cons b r =>
      rw [List.getLast?_cons_cons] at ha
      apply hlast
      cases hb : (b :: r).getLast? with
      | none => simp at hb
      | some x => rw [hb] at ha; exact ha
  have hfirst : ∀ t ≠ 8, Spec.first t (l ++ Spec.attr 0x0008 v :: r) = Spec.first t (l ++ Spec.attr 0x0008 v' :: r) := by
    intro t ht
    unfold Spec.first
    rw [List.find?_append, List.find?_append, List.find?_cons_of_neg (by simp [Spec.attr, Ne.symm ht]), List.find?_cons_of_neg (by simp [Spec.attr, Ne.symm ht])]
  have hasks : ∀ p, Asks tracks type (l ++ Spec.attr 0x0008 v :: r) p ↔ Asks tracks type (l ++ Spec.attr 0x0008 v' :: r) p := by
    intro p; unfold Asks; rw [hfirst 6 (by decide)]
  by_cases h : ∃ p, Asks tracks type (l ++ Spec.attr 0x0008 v :: r) p
  · obtain ⟨p, hp⟩ := h
    rw [C76_answer_partial mac hmac junk tracks s sock remote hr n tid ht type hty _ (hvalid v hv) (hend v hv) p hp,
      C76_answer_partial mac hmac junk tracks s sock remote hr n tid ht type hty _ (hvalid v' hv') (hend v' hv') p ((hasks p).mp hp), hfirst 0x25 (by decide)]
  · rw [C76_silent mac junk tracks s sock remote n tid ht type hty _ (hvalid v hv) (hend v hv) (fun p hp => h ⟨p, hp⟩),
      C76_silent mac junk tracks s sock remote n tid ht type hty _ (hvalid v' hv') (hend v' hv') (fun p hp => h ⟨p, (hasks p).mpr hp⟩)]

/-! ### A message of each kind -/

/-- A request with a user name, a wish to use the pair, and an integrity made without the password. -/
def forged : List Spec.Attr := [Spec.attr 0x0006 "abcd:efgh".toUTF8.toList, Spec.attr 0x0025 [], Spec.attr 0x0008 (List.replicate 20 0)]

example : (∀ a ∈ forged, a.Valid) ∧ (∀ a, forged.getLast? = some a → a.value ≠ []) ∧
    Asks [⟨"abcd".toUTF8.toList, "secret".toUTF8.toList⟩] 0x0001 forged "secret".toUTF8.toList := by
  refine ⟨?_, ?_, rfl, "abcd".toUTF8.toList, "efgh".toUTF8.toList, by decide +kernel, by decide +kernel, by decide +kernel, by decide +kernel⟩
  · intro a ha
    simp only [forged, List.mem_cons, List.not_mem_nil, or_false] at ha
    rcases ha with rfl | rfl | rfl <;> exact ⟨by decide +kernel, by decide +kernel, by decide +kernel⟩
  · intro a ha
    have : a = Spec.attr 0x0008 (List.replicate 20 0) := by simpa [forged] using ha.symm
    rw [this]; decide +kernel

/-- The forged request is answered, and nominates the socket it came by. -/
example : ((handle (fun _ _ => List.replicate 20 7) (fun _ => 0xAA) [⟨"abcd".toUTF8.toList, "secret".toUTF8.toList⟩] ⟨false, none, []⟩ 5
    ⟨false, 4660, [10, 0, 0, 1]⟩ (Spec.header 1 48 (List.replicate 12 9) ++ Spec.body forged)).map fun r => (r.1.nominated, r.2.map (·.take 24))) =
    some ([5], some [1, 1, 0, 44, 0x21, 0x12, 0xA4, 0x42, 9, 9, 9, 9, 9, 9, 9, 9, 9, 9, 9, 9, 0, 0x20, 0, 8]) := by decide +kernel

/-- The example of RFC 5769, 2.2: the address 192.0.2.1 with port 32853. -/
example : Spec.mappedValue [0xb7, 0xe7, 0xa7, 0x01, 0xbc, 0x34, 0xd6, 0x86, 0xfa, 0x87, 0xdf, 0xae] 32853 [192, 0, 2, 1] =
    [0x00, 0x01, 0xa1, 0x47, 0xe1, 0x12, 0xa6, 0x43] := by decide +kernel

/-- The same message: its fingerprint. -/
example : print [0x01, 0x01, 0x00, 0x3c, 0x21, 0x12, 0xa4, 0x42, 0xb7, 0xe7, 0xa7, 0x01, 0xbc, 0x34, 0xd6, 0x86, 0xfa, 0x87, 0xdf, 0xae,
    0x80, 0x22, 0x00, 0x0b, 0x74, 0x65, 0x73, 0x74, 0x20, 0x76, 0x65, 0x63, 0x74, 0x6f, 0x72, 0x20,
    0x00, 0x20, 0x00, 0x08, 0x00, 0x01, 0xa1, 0x47, 0xe1, 0x12, 0xa6, 0x43,
    0x00, 0x08, 0x00, 0x14, 0x2b, 0x91, 0xf5, 0x99, 0xfd, 0x9e, 0x90, 0xc3, 0x8c, 0x74, 0x89, 0xf9, 0x2a, 0xf9, 0xba, 0x53, 0xf0, 0x6b, 0xe7, 0xd7] =
    0xc07d4c96 := by decide +kernel

end Verif.Stun
