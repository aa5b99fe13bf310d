import Verif.Url.Props
import Verif.Enc.Props

/-!
# C48: URLs survive being written out and parsed again
-/
namespace Verif.Url

open Verif.Text (splitSpec)
open Verif.Enc (urlEncode urlDecode C03_url_roundtrip C03_url_safe)

/-! ## Specification -/

/-- A decimal digit. -/
def isDigit (c : UInt8) : Prop := 48 ≤ c.toNat ∧ c.toNat ≤ 57

instance : DecidablePred isDigit := fun c => by unfold isDigit; infer_instance

/-- A path made of names, not starting with a slash and without "." and ".." (it may end in a slash). -/
def PlainPath (p : Bytes) : Prop :=
  (∀ seg ∈ (segs p).dropLast, isName seg) ∧ ((segs p).getLast (segs_ne p) = [] ∨ isName ((segs p).getLast (segs_ne p)))

instance : DecidablePred PlainPath := fun c => by unfold PlainPath; infer_instance

/-- A network URL whose parts can be written: a protocol without colon (not "file" and not "rist", which have rules of
their own); any user name, password and fragment; a host that is not a number and has none of "/?#@[]", with a colon only if
it is an IPv6 address; a port number; a plain path; a query without '#' (for RTSP the path takes everything). -/
structure Writable (u : Url) : Prop where
  proto : u.protocol ≠ [] ∧ 58 ∉ u.protocol ∧ u.protocol ≠ [0x66, 0x69, 0x6C, 0x65] ∧ u.protocol ≠ [0x72, 0x69, 0x73, 0x74]
  rtsp : u.protocol = [0x72, 0x74, 0x73, 0x70] → u.args = [] ∧ u.frag = []
  host : ∀ c ∈ u.host, c ≠ 47 ∧ c ≠ 63 ∧ c ≠ 35 ∧ c ≠ 64 ∧ c ≠ 91 ∧ c ≠ 93 ∧ c ≠ 0
  colon : 58 ∈ u.host → u.ipv6 = true
  name : ∃ c ∈ u.host, ¬ isDigit c
  port : ∀ c ∈ u.port, isDigit c
  path : PlainPath u.path
  args : 35 ∉ u.args

/-! ## Lemmas -/

theorem splitSpec_prepend (a r : Bytes) (h : 47 ∉ a) : splitSpec 47 (a ++ r) = (a ++ (splitSpec 47 r).1, (splitSpec 47 r).2) := by
  induction a with
  | nil => rfl
  | cons x a ih =>
    simp only [List.mem_cons, not_or] at h
    simp only [List.cons_append, splitSpec, if_neg (Ne.symm h.1), ih h.2]

theorem hexChr_noslash : ∀ c : UInt8, 47 ∉ Enc.hexChr c := by decide +kernel

theorem segs_encode (ign : Bytes) (h : 47 ∈ ign) (s : Bytes) : segs (urlEncode ign false s) = (segs s).map (urlEncode ign false) := by
  have : splitSpec 47 (urlEncode ign false s) =
      (urlEncode ign false (splitSpec 47 s).1, (splitSpec 47 s).2.map (urlEncode ign false)) := by
    induction s with
    | nil => rfl
    | cons c r ih =>
      by_cases hc : c = 47
      · subst hc
        have : urlEncode ign false (47 :: r) = 47 :: urlEncode ign false r := by
          rw [urlEncode]
          rw [if_pos (by simp [h])]; rfl
        rw [this]
        simp only [splitSpec, if_true, ih, List.map_cons]
        rfl
      · rw [urlEncode]
        simp only [splitSpec, if_neg hc]
        rw [urlEncode]
        have hno : 47 ∉ (if (Enc.urlPlain c || ign.contains c) = true then [c] else if (c == 32 && false) = true then [43] else 37 :: Enc.hexChr c) := by
          split
          · simpa using Ne.symm hc
          · split
            · decide
            · simp only [List.mem_cons, not_or]; exact ⟨by decide, hexChr_noslash c⟩
        rw [splitSpec_prepend _ _ hno, ih]
  simp [segs, this]

theorem encode_plain (ign seg t : Bytes) (hi : 37 ∉ ign) (ht : 37 ∉ t) (h : urlEncode ign false seg = t) : seg = t := by
  have := C03_url_roundtrip ign seg false hi (by simp)
  rw [h, urlDecode_id t ht] at this
  exact this.symm

theorem encode_name (ign seg : Bytes) (hi : 37 ∉ ign) (h : isName seg) : isName (urlEncode ign false seg) :=
  ⟨fun e => h.1 (encode_plain ign seg _ hi (by decide) e), fun e => h.2.1 (encode_plain ign seg _ hi (by decide) e),
    fun e => h.2.2 (encode_plain ign seg _ hi (by decide) e)⟩

theorem plain_encode (ign p : Bytes) (hs : 47 ∈ ign) (hi : 37 ∉ ign) (h : PlainPath p) : PlainPath (urlEncode ign false p) := by
  obtain ⟨h1, h2⟩ := h
  have e := segs_encode ign hs p
  refine ⟨?_, ?_⟩
  · rw [e, ← List.map_dropLast]
    intro seg hseg
    obtain ⟨x, hx, rfl⟩ := List.mem_map.mp hseg
    exact encode_name ign x hi (h1 x hx)
  · have : (segs (urlEncode ign false p)).getLast (segs_ne _) = urlEncode ign false ((segs p).getLast (segs_ne p)) := by
      simp only [e, List.getLast_map]
    rw [this]
    rcases h2 with h2 | h2
    · left; rw [h2]; rfl
    · right; exact encode_name ign _ hi h2

theorem infix_seg {mid s : Bytes} (hm : 47 ∉ mid) (h : (47 :: (mid ++ [47])) <:+: 47 :: s) : mid ∈ (segs s).dropLast := by
  obtain ⟨x, y, e⟩ := h
  cases x with
  | nil =>
    simp only [List.nil_append, List.cons_append, List.cons.injEq, true_and] at e
    rw [← e, List.append_assoc, List.cons_append, List.nil_append, segs_cons_slash mid y hm, List.dropLast_cons_of_ne_nil (segs_ne y)]
    simp
  | cons z x =>
    simp only [List.cons_append, List.cons.injEq] at e
    rw [← e.2, show x ++ 47 :: (mid ++ [47]) ++ y = x ++ 47 :: (mid ++ 47 :: y) by simp, segs_append, segs_cons_slash mid y hm,
      List.dropLast_append_of_ne_nil (by simp), List.dropLast_cons_of_ne_nil (segs_ne y)]
    simp

theorem plain_clean {p : Bytes} (h : PlainPath p) : Clean (47 :: p) :=
  ⟨fun hi => (h.1 _ (infix_seg (mid := [46]) (by decide) hi)).2.1 rfl, fun hi => (h.1 _ (infix_seg (mid := []) (by decide) hi)).1 rfl,
    fun hi => (h.1 _ (infix_seg (mid := [46, 46]) (by decide) hi)).2.2 rfl⟩

theorem plain_last {p q t : Bytes} (h : PlainPath p) (ht : 47 ∉ t) (e : p = q ++ 47 :: t) : t = [] ∨ isName t := by
  subst e
  have := h.2
  have e : segs (q ++ 47 :: t) = segs q ++ [t] := by rw [segs_append, segs_single ht]
  simp only [e, List.getLast_append_of_ne_nil _ (show [t] ≠ [] by simp), List.getLast_singleton] at this
  exact this

theorem normPath_plain {p : Bytes} (h : PlainPath p) : normPath p = p := by
  have hc := plain_clean h
  have hc' : Clean p := hc.infix ⟨[47], [], by simp⟩
  have hd : dropSlash p = p := by
    unfold dropSlash
    rw [if_neg]
    intro hh
    cases p with
    | nil => simp at hh
    | cons c r => simp at hh; subst hh; exact hc.2.1 ⟨[], r, by simp⟩
  have hone : p ≠ [46] ∧ p ≠ [46, 46] := by
    constructor
    · rintro rfl; revert h; decide +kernel
    · rintro rfl; revert h; decide +kernel
  have h1 : dropHead p = p := by
    have a1 : p.take 2 ≠ [46, 47] := by
      intro hh
      have := List.take_append_drop 2 p
      rw [hh] at this
      exact hc.1 ⟨[], p.drop 2, by simpa using this⟩
    have a2 : p.take 3 ≠ [46, 46, 47] := by
      intro hh
      have := List.take_append_drop 3 p
      rw [hh] at this
      exact hc.2.2 ⟨[], p.drop 3, by simpa using this⟩
    unfold dropHead
    rw [if_neg a1, if_neg a2]
  have h2 : dropOnly p = p := by
    unfold dropOnly
    rw [if_neg hone.2, if_neg hone.1]
  have h3 : cutTailUp p = p := by
    unfold cutTailUp
    rw [if_neg]
    rintro ⟨hl, ht⟩
    obtain ⟨q, e, -⟩ := lastN_split (by rfl) ht (by omega)
    rcases plain_last h (t := [46, 46]) (by decide) e with h | h
    · simp at h
    · exact h.2.2 rfl
  have h4 : cutTailDot p = p := by
    unfold cutTailDot
    rw [if_neg]
    rintro ⟨hl, ht⟩
    obtain ⟨q, e, -⟩ := lastN_split (by rfl) ht (by omega)
    rcases plain_last h (t := [46]) (by decide) e with h | h
    · simp at h
    · exact h.2.1 rfl
  unfold normPath
  rw [hd, cutDot_done (infix_none hc'.1), cutSlash_done (infix_none hc'.2.1), hd, cutUp_done (infix_none hc'.2.2), h1, h2, h3, h4]

theorem findSub_proto (proto r : Bytes) (hp : 58 ∉ proto) : findSub [58, 47, 47] (proto ++ [58, 47, 47] ++ r) = some proto.length := by
  induction proto with
  | nil => simp [findSub, List.isPrefixOf]
  | cons c p ih =>
    simp only [List.mem_cons, not_or] at hp
    have := ih hp.2
    simp only [List.append_assoc, List.cons_append, List.nil_append] at this ⊢
    simp [findSub, this, hp.1]

theorem unreserved_not : ∀ c : UInt8, Enc.Spec.unreserved c → c ≠ 47 ∧ c ≠ 63 ∧ c ≠ 35 ∧ c ≠ 64 ∧ c ≠ 58 := by decide +kernel

theorem encode_chars (s : Bytes) : ∀ c ∈ urlEncode [] false s, c ≠ 47 ∧ c ≠ 63 ∧ c ≠ 35 ∧ c ≠ 64 ∧ c ≠ 58 := by
  intro c hc
  rcases C03_url_safe [] s false c hc with h | h | h | h
  · exact unreserved_not c h
  · simp at h
  · subst h; decide
  · simp at h

theorem encode_path_chars (s : Bytes) : ∀ c ∈ urlEncode ignPath false s, c ≠ 63 ∧ c ≠ 35 := by
  intro c hc
  rcases C03_url_safe ignPath s false c hc with h | h | h | h
  · exact ⟨(unreserved_not c h).2.1, (unreserved_not c h).2.2.1⟩
  · have : ∀ c ∈ ignPath, c ≠ 63 ∧ c ≠ 35 := by decide +kernel
    exact this c h
  · subst h; decide
  · simp at h

theorem decode_encode (s : Bytes) (ign : Bytes) (h : 37 ∉ ign) : urlDecode false (urlEncode ign false s) = s :=
  C03_url_roundtrip ign s false h (by simp)

/-- The query and fragment behind a path. -/
def tailString (u : Url) : Bytes :=
  (if u.args ≠ [] then 63 :: u.args else []) ++ (if u.frag ≠ [] then 35 :: urlEncode ignFrag false u.frag else [])

theorem cutQuery_tail (v u : Url) (hv : v.args = [] ∧ v.frag = []) (p : Bytes) (hp : ∀ c ∈ p, c ≠ 63 ∧ c ≠ 35) (ha : 35 ∉ u.args) :
    cutQuery v (p ++ tailString u) = {v with path := p, args := u.args, frag := u.frag} := by
  have p35 : 35 ∉ p := fun hh => (hp _ hh).2 rfl
  have p63 : 63 ∉ p := fun hh => (hp _ hh).1 rfl
  unfold tailString
  by_cases hf : u.frag = []
  · by_cases hg : u.args = []
    · simp only [hf, hg, ne_eq, not_true, if_false, List.append_nil]
      unfold cutQuery
      rw [findChar_none.mpr p35]
      simp only [findChar_none.mpr p63]
      obtain ⟨a, b⟩ := hv
      cases v; simp_all
    · simp only [hf, hg, ne_eq, not_true, not_false_iff, if_false, if_true, List.append_nil]
      unfold cutQuery
      have : 35 ∉ p ++ 63 :: u.args := by simp [p35, ha]
      rw [findChar_none.mpr this]
      simp only [findChar_append p63]
      rw [List.take_left, show p ++ 63 :: u.args = (p ++ [63]) ++ u.args by simp, show p.length + 1 = (p ++ [63]).length by simp, List.drop_left]
      obtain ⟨a, b⟩ := hv
      cases v; simp_all
  · have key : ∀ q : Bytes, 35 ∉ q → cutQuery v (q ++ 35 :: urlEncode ignFrag false u.frag) =
        (match findChar 63 q with
          | none => {v with frag := u.frag, path := q}
          | some k => {v with frag := u.frag, args := q.drop (k + 1), path := q.take k}) := by
      intro q hq
      unfold cutQuery
      rw [findChar_append hq]
      simp only
      rw [List.take_left, show q ++ 35 :: urlEncode ignFrag false u.frag = (q ++ [35]) ++ urlEncode ignFrag false u.frag by simp,
        show q.length + 1 = (q ++ [35]).length by simp, List.drop_left, decode_encode _ _ (by decide)]
      cases findChar 63 q <;> rfl
    by_cases hg : u.args = []
    · simp only [hf, hg, ne_eq, not_true, not_false_iff, if_false, if_true, List.nil_append]
      rw [key p p35, findChar_none.mpr p63]
      obtain ⟨a, b⟩ := hv
      cases v; simp_all
    · simp only [hf, hg, ne_eq, not_false_iff, if_true]
      rw [show p ++ (63 :: u.args ++ 35 :: urlEncode ignFrag false u.frag) = (p ++ 63 :: u.args) ++ 35 :: urlEncode ignFrag false u.frag by simp]
      rw [key _ (by simp [p35, ha]), findChar_append p63]
      simp only
      rw [List.take_left, show p ++ 63 :: u.args = (p ++ [63]) ++ u.args by simp, show p.length + 1 = (p ++ [63]).length by simp, List.drop_left]

theorem finishPath_plain (v : Url) (ign p : Bytes) (h47 : 47 ∈ ign) (h37 : 37 ∉ ign) (hl : ∀ x : Bytes, isLocalPath {v with path := x} = false)
    (hp : PlainPath p) : finishPath {v with path := urlEncode ign false p} = {v with path := p} := by
  unfold finishPath
  simp only
  by_cases he : p = []
  · subst he; rw [if_pos (show urlEncode ign false [] = [] from rfl)]; rfl
  · rw [if_neg (fun e => he (encode_plain ign _ _ h37 (by decide) e)), hl, if_neg (by decide),
      normPath_plain (plain_encode _ _ h47 h37 hp), decode_encode _ _ h37]

theorem parsePath_tail (u : Url) (h : Writable u) :
    parsePath {protocol := u.protocol} (47 :: encodedPath u ++ tailString u) =
      {protocol := u.protocol, path := u.path, args := u.args, frag := u.frag} := by
  obtain ⟨hp0, hp1, hp2, hp3⟩ := h.proto
  have hloc : ∀ v : Url, v.protocol = u.protocol → isLocalPath v = false := by
    intro v hv
    simp [isLocalPath, hv, hp0, hp2]
  unfold parsePath
  simp only [List.cons_append, if_true]
  by_cases hr : u.protocol = rtsp
  · obtain ⟨a1, a2⟩ := h.rtsp hr
    have et : tailString u = [] := by simp [tailString, a1, a2]
    have ee : encodedPath u = urlEncode ignFrag false u.path := by simp [encodedPath, hr]
    rw [if_neg (fun hh => hh hr), et, ee, List.append_nil]
    have := finishPath_plain {protocol := u.protocol} ignFrag u.path (by decide) (by decide) (fun x => hloc _ rfl) h.path
    rw [this, a1, a2]
  · have ee : encodedPath u = urlEncode ignPath false u.path := by simp [encodedPath, hr, hloc u rfl]
    rw [if_pos hr, ee, cutQuery_tail _ u ⟨rfl, rfl⟩ _ (encode_path_chars u.path) h.args]
    have := finishPath_plain {protocol := u.protocol, args := u.args, frag := u.frag} ignPath u.path (by decide) (by decide) (fun x => hloc _ rfl) h.path
    exact this

theorem parseCreds_spec (v u : Url) (hv : v.user = [] ∧ v.pass = []) (r : Bytes) (hr : 64 ∉ r) :
    parseCreds v (credString u ++ r) = ({v with user := u.user, pass := u.pass}, r) := by
  unfold credString
  by_cases h0 : u.user = [] ∧ u.pass = []
  · rw [if_neg (by simp [h0])]
    unfold parseCreds
    rw [List.nil_append, findChar_none.mpr hr]
    obtain ⟨a, b⟩ := hv
    obtain ⟨c, d⟩ := h0
    cases v; simp_all
  · rw [if_pos (by
      by_cases hu : u.user = []
      · right; intro hp; exact h0 ⟨hu, hp⟩
      · exact Or.inl hu)]
    have hu64 : 64 ∉ urlEncode [] false u.user := fun hh => (encode_chars _ _ hh).2.2.2.1 rfl
    have hu58 : 58 ∉ urlEncode [] false u.user := fun hh => (encode_chars _ _ hh).2.2.2.2 rfl
    have hp64 : 64 ∉ urlEncode [] false u.pass := fun hh => (encode_chars _ _ hh).2.2.2.1 rfl
    by_cases hp : u.pass = []
    · rw [if_pos hp]
      unfold parseCreds
      rw [show urlEncode [] false u.user ++ [64] ++ r = urlEncode [] false u.user ++ 64 :: r by simp, findChar_append hu64]
      simp only [List.take_left, findChar_none.mpr hu58]
      rw [show urlEncode [] false u.user ++ 64 :: r = (urlEncode [] false u.user ++ [64]) ++ r by simp,
        show (urlEncode [] false u.user).length + 1 = (urlEncode [] false u.user ++ [64]).length by simp, List.drop_left, decode_encode _ _ (by decide)]
      obtain ⟨a, b⟩ := hv
      cases v; simp_all
    · rw [if_neg hp]
      unfold parseCreds
      rw [show urlEncode [] false u.user ++ 58 :: urlEncode [] false u.pass ++ [64] ++ r = (urlEncode [] false u.user ++ 58 :: urlEncode [] false u.pass) ++ 64 :: r by simp,
        findChar_append (by simp only [List.mem_append, List.mem_cons, not_or]; exact ⟨hu64, by decide, hp64⟩)]
      simp only [List.take_left, findChar_append hu58]
      rw [show (urlEncode [] false u.user ++ 58 :: urlEncode [] false u.pass) ++ 64 :: r = ((urlEncode [] false u.user ++ 58 :: urlEncode [] false u.pass) ++ [64]) ++ r by simp,
        show (urlEncode [] false u.user ++ 58 :: urlEncode [] false u.pass).length + 1 = ((urlEncode [] false u.user ++ 58 :: urlEncode [] false u.pass) ++ [64]).length by simp only [List.length_append, List.length_cons, List.length_nil],
        List.drop_left]
      rw [show urlEncode [] false u.user ++ 58 :: urlEncode [] false u.pass = (urlEncode [] false u.user ++ [58]) ++ urlEncode [] false u.pass by simp,
        show (urlEncode [] false u.user).length + 1 = (urlEncode [] false u.user ++ [58]).length by simp, List.drop_left,
        decode_encode _ _ (by decide), decode_encode _ _ (by decide)]

theorem digit_bool : ∀ c : UInt8, (48 ≤ c && c ≤ 57) = decide (isDigit c) := by decide +kernel
theorem digit_nonzero : ∀ c : UInt8, isDigit c → c ≠ 0 ∧ c ≠ 58 ∧ c ≠ 64 ∧ c ≠ 47 ∧ c ≠ 63 ∧ c ≠ 35 := by decide +kernel

theorem isNumeric_digits (s : Bytes) (h : ∀ c ∈ s, isDigit c) : isNumeric s = true := by
  unfold isNumeric
  rw [List.all_eq_true]
  intro c hc
  have hm : c ∈ s := (List.takeWhile_prefix _).subset hc
  rw [digit_bool]; simpa using h c hm

theorem isNumeric_name (s : Bytes) (h0 : 0 ∉ s) (h : ∃ c ∈ s, ¬ isDigit c) : isNumeric s = false := by
  unfold isNumeric
  rw [Verif.Text.takeWhile_self (by intro c hc; simp only [ne_eq, decide_eq_true_eq]; rintro rfl; exact h0 hc)]
  obtain ⟨c, hc, hd⟩ := h
  rw [List.all_eq_false]
  exact ⟨c, hc, by rw [digit_bool]; simpa using hd⟩

theorem rfindChar_append {c : UInt8} {a r : Bytes} (h : c ∉ r) : rfindChar c (a ++ c :: r) = some a.length := by
  induction a with
  | nil => simp [rfindChar, rfindChar_none.mpr h]
  | cons x a ih => simp [rfindChar, ih]

/-- The port as it is written: left out when it is the protocol's default. -/
def writtenPort (u : Url) : Bytes := if getPort u = defaultPort u.protocol then [] else u.port

theorem port_cases (u : Url) : (if u.port ≠ [] ∧ getPort u ≠ defaultPort u.protocol then 58 :: u.port else []) =
    if writtenPort u = [] then [] else 58 :: writtenPort u := by
  unfold writtenPort
  by_cases h : getPort u = defaultPort u.protocol
  · simp [h]
  · simp only [h, ne_eq, not_false_iff, and_true, if_false]
    by_cases hp : u.port = [] <;> simp [hp]

theorem parseHost_spec (v u : Url) (h : Writable u) (hv : v.ipv6 = false ∧ v.port = [] ∧ v.host = []) :
    parseHost v (hostString u) = {v with host := u.host, port := writtenPort u, ipv6 := u.ipv6} := by
  obtain ⟨c0, hc0, hd0⟩ := h.name
  have hne : u.host ≠ [] := by intro e; rw [e] at hc0; simp at hc0
  have hnum : isNumeric u.host = false := isNumeric_name _ (fun hh => (h.host _ hh).2.2.2.2.2.2 rfl) h.name
  have hpd : ∀ c ∈ writtenPort u, isDigit c := by
    intro c hc; unfold writtenPort at hc; split at hc
    · simp at hc
    · exact h.port c hc
  have hpn := isNumeric_digits _ hpd
  have hp58 : 58 ∉ writtenPort u := fun hh => (digit_nonzero _ (hpd _ hh)).2.1 rfl
  unfold hostString
  rw [port_cases]
  unfold parseHost
  by_cases hi : u.ipv6 = true
  · rw [if_pos (Or.inl hi)]
    have h93 : 93 ∉ 91 :: u.host := by
      simp only [List.mem_cons, not_or]; exact ⟨by decide, fun hh => (h.host _ hh).2.2.2.2.2.1 rfl⟩
    have key : parseHost6 v (91 :: u.host ++ [93] ++ (if writtenPort u = [] then [] else 58 :: writtenPort u)) =
        {v with ipv6 := true, host := u.host, port := writtenPort u} := by
      unfold parseHost6
      rw [show 91 :: u.host ++ [93] ++ (if writtenPort u = [] then [] else 58 :: writtenPort u) =
        (91 :: u.host) ++ 93 :: (if writtenPort u = [] then [] else 58 :: writtenPort u) by simp, findChar_append h93]
      simp only [List.drop_left]
      have eh : (((91 :: u.host) ++ 93 :: (if writtenPort u = [] then [] else 58 :: writtenPort u)).drop 1).take ((91 :: u.host).length - 1) = u.host := by
        simp
      rw [eh]
      by_cases hw : writtenPort u = []
      · rw [if_pos hw, show findChar 58 [93] = none by decide, hw]
      · rw [if_neg hw, show findChar 58 (93 :: 58 :: writtenPort u) = some 1 by simp [findChar]]
        simp only
        have ed : ((91 :: u.host) ++ 93 :: 58 :: writtenPort u).drop ((91 :: u.host).length + 1 + 1) = writtenPort u := by
          rw [show (91 :: u.host) ++ 93 :: 58 :: writtenPort u = ((91 :: u.host) ++ [93, 58]) ++ writtenPort u by simp,
            show (91 :: u.host).length + 1 + 1 = ((91 :: u.host) ++ [93, 58]).length by simp, List.drop_left]
        rw [ed, if_pos hpn]
    rw [if_pos (show List.head? ((91 : UInt8) :: u.host ++ [93] ++ (if writtenPort u = [] then [] else 58 :: writtenPort u)) = some 91 from rfl), key]
    unfold hostAsPort
    simp only [hnum]
    simp [hi]
  · have h58 : 58 ∉ u.host := fun hh => hi (h.colon hh)
    have hi' : u.ipv6 = false := by simpa using hi
    rw [if_neg (show ¬ (u.ipv6 = true ∨ u.host.contains 58 = true) by simp [hi', h58])]
    have key : parseHost4 v (u.host ++ (if writtenPort u = [] then [] else 58 :: writtenPort u)) = {v with host := u.host, port := writtenPort u} := by
      unfold parseHost4
      by_cases hw : writtenPort u = []
      · rw [if_pos hw, List.append_nil, rfindChar_none.mpr h58]
        simp only
        rw [if_neg (by simpa using h58), hw]
      · rw [if_neg hw, rfindChar_append hp58]
        simp only [List.take_left]
        have ed : (u.host ++ 58 :: writtenPort u).drop (u.host.length + 1) = writtenPort u := by
          rw [show u.host ++ 58 :: writtenPort u = (u.host ++ [58]) ++ writtenPort u by simp, show u.host.length + 1 = (u.host ++ [58]).length by simp, List.drop_left]
        rw [ed, if_pos hpn]
        simp only
        rw [if_neg (by simpa using h58)]
    have hh : (u.host ++ (if writtenPort u = [] then [] else 58 :: writtenPort u)).head? ≠ some 91 := by
      cases hu : u.host with
      | nil => exact absurd hu hne
      | cons a b =>
        simp only [List.cons_append, List.head?_cons, ne_eq, Option.some.injEq]
        exact (h.host a (by rw [hu]; simp)).2.2.2.2.1
    rw [if_neg hh, key]
    unfold hostAsPort
    simp only [hnum]
    obtain ⟨a, b, c⟩ := hv
    simp [hi', a]

theorem auth_chars (u : Url) (h : Writable u) : (∀ c ∈ credString u ++ hostString u, (!pathStart c) = true) ∧ 64 ∉ hostString u := by
  have hh : ∀ c ∈ hostString u, c ≠ 47 ∧ c ≠ 63 ∧ c ≠ 35 ∧ c ≠ 64 := by
    intro c hc
    unfold hostString at hc
    rw [List.mem_append] at hc
    have hhost : ∀ c ∈ u.host, c ≠ 47 ∧ c ≠ 63 ∧ c ≠ 35 ∧ c ≠ 64 := fun c hc => ⟨(h.host c hc).1, (h.host c hc).2.1, (h.host c hc).2.2.1, (h.host c hc).2.2.2.1⟩
    rcases hc with hc | hc
    · split at hc
      · simp only [List.cons_append, List.mem_cons, List.mem_append, List.not_mem_nil, or_false] at hc
        rcases hc with rfl | hc | rfl
        · decide
        · exact hhost c hc
        · decide
      · exact hhost c hc
    · split at hc
      · rcases List.mem_cons.mp hc with rfl | hc
        · decide
        · have := digit_nonzero c (h.port c hc)
          exact ⟨this.2.2.2.1, this.2.2.2.2.1, this.2.2.2.2.2, this.2.2.1⟩
      · simp at hc
  refine ⟨?_, fun hc => (hh _ hc).2.2.2 rfl⟩
  have hps : ∀ c : UInt8, c ≠ 47 ∧ c ≠ 63 ∧ c ≠ 35 → (!pathStart c) = true := by
    intro c hc; simp [pathStart, hc.1, hc.2.1, hc.2.2]
  intro c hc
  apply hps
  rcases List.mem_append.mp hc with hc | hc
  · unfold credString at hc
    have e : ∀ s, ∀ c ∈ urlEncode [] false s, c ≠ 47 ∧ c ≠ 63 ∧ c ≠ 35 := fun s c hc => ⟨(encode_chars s c hc).1, (encode_chars s c hc).2.1, (encode_chars s c hc).2.2.1⟩
    split at hc
    · split at hc
      · simp only [List.mem_append, List.mem_cons, List.not_mem_nil, or_false] at hc
        rcases hc with hc | rfl
        · exact e _ _ hc
        · decide
      · simp only [List.mem_append, List.mem_cons, List.not_mem_nil, or_false] at hc
        rcases hc with (hc | rfl | hc) | rfl
        · exact e _ _ hc
        · decide
        · exact e _ _ hc
        · decide
    · simp at hc
  · exact ⟨(hh c hc).1, (hh c hc).2.1, (hh c hc).2.2.1⟩

/-! ## C48 -/

/-- C48. Writing a network URL and parsing the text gives back every part of it: protocol, user, password, host, path, query
and fragment, and the port unless it is the protocol's default, which is left out. -/
theorem C48_roundtrip_partial (u : Url) (h : Writable u) :
    parse (getUrl u) = {u with port := if getPort u = defaultPort u.protocol then [] else u.port} := by
  obtain ⟨hp0, hp1, hp2, hp3⟩ := h.proto
  have e0 : getUrl u = u.protocol ++ [58, 47, 47] ++ ((credString u ++ hostString u) ++ (47 :: encodedPath u ++ tailString u)) := by
    unfold getUrl tailString
    rw [if_pos hp0, if_pos (show u.protocol ≠ rist from hp3)]
    simp only [List.append_assoc, List.cons_append, List.nil_append]
  obtain ⟨a1, a2⟩ := auth_chars u h
  unfold parse
  rw [e0, findSub_proto _ _ hp1]
  simp only
  have et : (u.protocol ++ [58, 47, 47] ++ ((credString u ++ hostString u) ++ (47 :: encodedPath u ++ tailString u))).take u.protocol.length = u.protocol := by simp
  rw [et, show u.protocol.length + 3 = (u.protocol ++ [58, 47, 47]).length by simp, List.drop_left]
  unfold parseRest
  rw [List.dropWhile_append_of_pos a1, List.takeWhile_append_of_pos a1]
  rw [show (47 :: encodedPath u ++ tailString u).dropWhile (fun c => !pathStart c) = 47 :: encodedPath u ++ tailString u by
    simp [pathStart],
    show (47 :: encodedPath u ++ tailString u).takeWhile (fun c => !pathStart c) = [] by simp [pathStart],
    List.append_nil, parsePath_tail u h]
  simp only
  rw [parseCreds_spec _ u ⟨rfl, rfl⟩ _ a2]
  simp only
  rw [parseHost_spec _ u h ⟨rfl, rfl, rfl⟩]
  rfl

/-- … and the port number a connection would use is the same. -/
theorem C48_port_partial (u : Url) (h : Writable u) : getPort (parse (getUrl u)) = getPort u := by
  rw [C48_roundtrip_partial u h]
  by_cases hp : getPort u = defaultPort u.protocol
  · rw [if_pos hp, hp]; simp [getPort]
  · rw [if_neg hp]

/-- "http://a%40b:p%2f@[::1]:8080/x%20y/z?q=1#f%20" as parsed is such a URL. -/
example : Writable {protocol := [0x68, 0x74, 0x74, 0x70], user := [0x61, 0x40, 0x62], pass := [0x70, 0x2F], host := [58, 58, 0x31], ipv6 := true, port := [0x38, 0x30, 0x38, 0x30], path := [0x78, 0x20, 0x79, 0x2F, 0x7A], args := [0x71, 0x3D, 0x31], frag := [0x66, 0x20]} :=
  ⟨by decide, by decide, by decide +kernel, by decide, ⟨58, by decide, by decide⟩, by decide +kernel, by decide +kernel, by decide⟩

/-- C48 fails for local files: the file "/a%" is written as "file:///a%25", but the path of a "file" URL is not decoded when it
is parsed. -/
theorem C48_file_fails : ∃ p : Bytes, PlainPath p ∧ (parse (getUrl {protocol := [0x66, 0x69, 0x6C, 0x65], path := p})).path ≠ p := by
  refine ⟨[0x61, 37], by decide +kernel, ?_⟩
  have e : getUrl {protocol := [0x66, 0x69, 0x6C, 0x65], path := [0x61, 37]} =
      [0x66, 0x69, 0x6C, 0x65, 58, 47, 47, 47, 0x61, 37, 0x32, 0x35] := by decide +kernel
  rw [e]
  have e2 : (parse [0x66, 0x69, 0x6C, 0x65, 58, 47, 47, 47, 0x61, 37, 0x32, 0x35]).path = [0x61, 37, 0x32, 0x35] := by
    unfold parse
    rw [show findSub [58, 47, 47] [0x66, 0x69, 0x6C, 0x65, 58, 47, 47, 47, 0x61, 37, 0x32, 0x35] = some 4 by decide +kernel]
    simp only
    rw [parseRest_path]
    have : parsePath {protocol := List.take 4 [0x66, 0x69, 0x6C, 0x65, 58, 47, 47, 47, 0x61, 37, 0x32, 0x35]}
        ((List.drop (4 + 3) [0x66, 0x69, 0x6C, 0x65, 58, 47, 47, 47, 0x61, 37, 0x32, 0x35]).dropWhile (fun c => !pathStart c)) =
        finishPath {protocol := [0x66, 0x69, 0x6C, 0x65], path := [0x61, 37, 0x32, 0x35]} := by
      unfold parsePath
      rw [show (List.drop (4 + 3) [0x66, 0x69, 0x6C, 0x65, 58, 47, 47, 47, 0x61, 37, 0x32, 0x35]).dropWhile (fun c => !pathStart c) =
        [47, 0x61, 37, 0x32, 0x35] by decide +kernel]
      exact congrArg finishPath (by decide +kernel)
    rw [this]
    unfold finishPath
    simp only
    rw [if_neg (by decide), if_pos (by decide)]
    exact normPath_plain (by decide +kernel)
  rw [e2]
  decide

/-- The bytes of an ASCII text. -/
def ascii (s : String) : Bytes := s.toList.map fun c => UInt8.ofNat c.toNat

/-- C48. The port used when a URL names none. -/
theorem C48_default_ports : ∀ p ∈ [("http", 80), ("https", 443), ("ws", 80), ("wss", 443), ("rtmp", 1935), ("rtmps", 443),
    ("dtsc", 4200), ("rtsp", 554), ("srt", 8889)], ∀ u : Url, u.protocol = ascii p.1 → u.port = [] → getPort u = p.2 := by
  intro p hp u h1 h2
  simp only [getPort, h2, if_true, h1]
  clear h1 h2 u
  revert p
  decide +kernel

end Verif.Url
