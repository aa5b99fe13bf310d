import Verif.Http.Lemmas

/-!
# Property theorems: HTTP messages (C41, C56, C57)
-/
namespace Verif.Http
open Verif.SockBuf (Buf)

/-! ## Head of a response -/

theorem urlEncode_avoid (ign s : Bytes) (c : UInt8) (h1 : ¬ Enc.Spec.unreserved c) (h2 : c ∉ ign) (h3 : c ≠ 37) :
    c ∉ Enc.urlEncode ign false s := by
  intro h
  rcases Enc.C03_url_safe ign s false c h with h | h | h | h
  · exact h1 h
  · exact h2 h
  · exact h3 h
  · simp at h

theorem fieldsResp_eq (h : List (Bytes × Bytes)) :
    fieldsResp h = h.flatMap (fun e => if keepResp e then e.1 ++ [58, 32] ++ e.2 ++ crlf else []) := by
  unfold fieldsResp
  congr 1; funext e
  obtain ⟨a, b⟩ := e
  by_cases hk : (a ≠ [] ∧ b ≠ []) ∧ (a ≠ sContentLength ∨ b ≠ [48])
  · rw [if_pos (by exact hk), if_pos]
    simp only [keepResp, Bool.and_eq_true, bne_iff_ne, ne_eq, Prod.mk.injEq]
    exact ⟨hk.1, fun h => hk.2.elim (fun f => f h.1) (fun f => f h.2)⟩
  · rw [if_neg (by exact hk), if_neg]
    simp only [keepResp, Bool.and_eq_true, bne_iff_ne, ne_eq, Prod.mk.injEq]
    rintro ⟨h1, h2⟩
    refine hk ⟨h1, ?_⟩
    by_cases h : a = sContentLength
    · exact .inr (fun h' => h2 ⟨h, h'⟩)
    · exact .inl h

theorem fieldsReq_eq (h : List (Bytes × Bytes)) :
    fieldsReq h = h.flatMap (fun e => if keepReq e then e.1 ++ [58, 32] ++ e.2 ++ crlf else []) := by
  unfold fieldsReq
  congr 1; funext e
  by_cases hk : e.1 ≠ [] ∧ e.2 ≠ []
  · rw [if_pos hk, if_pos (by rw [keepReq]; simpa using hk)]
  · rw [if_neg hk, if_neg (by rw [keepReq]; simpa using hk)]

theorem respLine (proto code msg : Bytes) (hp : proto = sHttp10 ∨ proto = sHttp11) (hc : 32 ∉ code ∧ 63 ∉ code ∧ 37 ∉ code ∧ OneLineText code)
    (hm : OneLineText msg) :
    headerLine ({} : Parser) (proto ++ [32] ++ code ++ [32] ++ msg) =
      { ({} : Parser) with protocol := proto, url := code, method := msg, seenReq := true } := by
  have hp32 : 32 ∉ proto ∧ 13 ∉ proto ∧ proto.take 4 = sHTTP ∧ 4 ≤ proto.length := by rcases hp with rfl | rfl <;> decide
  have hcut : cutCR (proto ++ [32] ++ code ++ [32] ++ msg) = proto ++ 32 :: (code ++ 32 :: msg) := by
    rw [cutCR_none _ (by simp [hp32.2.1, hc.2.2.2.1, hm.1])]; simp
  unfold headerLine
  rw [if_pos (by rfl), hcut]
  unfold requestLine
  rw [findChar_append hp32.1]
  simp only
  rw [List.take_append_of_le_length hp32.2.2.2, if_pos hp32.2.2.1]
  simp only [List.take_left]
  rw [List.drop_append, List.drop_of_length_le (by omega)]
  simp only [List.nil_append, Nat.add_sub_cancel_left, List.drop_succ_cons, List.drop_zero]
  rw [findChar_append hc.1]
  simp only [List.take_left]
  rw [List.drop_append, List.drop_of_length_le (by omega)]
  simp only [List.nil_append, Nat.add_sub_cancel_left, List.drop_succ_cons, List.drop_zero]
  unfold setUrl
  rw [findChar_none.2 hc.2.1]
  simp only
  rw [urlDecode_plain _ hc.2.2.1]

theorem decimal_plain (n : Nat) : 32 ∉ decimal n ∧ 63 ∉ decimal n ∧ 37 ∉ decimal n ∧ OneLineText (decimal n) := by
  have h := decimal_digits n
  refine ⟨fun hc => ?_, fun hc => ?_, fun hc => ?_, fun hc => ?_, fun hc => ?_⟩ <;>
    (have := h _ hc; revert this; decide)

/-- Start line and headers of a response, read from the complete stream. -/
theorem whole_response (proto msg : Bytes) (code : Nat) (h : List (Bytes × Bytes)) (s : Bytes)
    (hp : proto = sHttp10 ∨ proto = sHttp11) (hm : OneLineText msg) (hh : HeadersOk h) (hs : SortedHeaders h) :
    whole {} (proto ++ [32] ++ decimal code ++ [32] ++ msg ++ crlf ++ fieldsResp h ++ crlf ++ s) =
      wholeBody (endHeaders { ({} : Parser) with
        protocol := proto, url := decimal code, method := msg, headers := sentInResponse h, seenReq := true }) s := by
  have hd := decimal_plain code
  have hp13 : 13 ∉ proto ∧ 10 ∉ proto := by rcases hp with rfl | rfl <;> decide
  have hline : OneLineText (proto ++ [32] ++ decimal code ++ [32] ++ msg) := by
    refine ⟨by simp [hp13.1, hd.2.2.2.1, hm.1], by simp [hp13.2, hd.2.2.2.2, hm.2]⟩
  have e : proto ++ [32] ++ decimal code ++ [32] ++ msg ++ crlf ++ fieldsResp h ++ crlf ++ s =
      (proto ++ [32] ++ decimal code ++ [32] ++ msg) ++ crlf ++ (fieldsResp h ++ (crlf ++ s)) := by
    simp only [List.append_assoc]
  rw [e, whole_line _ _ _ rfl hline, respLine proto _ msg hp hd hm, fieldsResp_eq,
    whole_fields h keepResp (by intro e _ hk; simp only [keepResp, Bool.and_eq_true, bne_iff_ne] at hk; exact hk.1.1) hh _ _ rfl rfl,
    whole_end _ _ rfl rfl]
  have := foldl_hset (sentInResponse h) [] (sorted_filter _ hs)
  rw [List.nil_append] at this
  simp only [sentInResponse] at this ⊢
  rw [this]

theorem sendProtocol_http (proto : Bytes) (hp : proto = sHttp10 ∨ proto = sHttp11) : sendProtocol proto = proto := by
  rcases hp with rfl | rfl <;> decide

/-! ## C41: cuts and chunks -/

theorem obs_message (p : Parser) : (obs p).message = p.message := rfl

/-- C41 (and every other kind of body). Whatever the bytes on the connection are, the message read
from them and the bytes left over do not depend on how the network cuts the stream into pieces. -/
theorem C41_cuts (a b : List Bytes) (h : a.flatten = b.flatten) (hn : a.flatten.length < 2 ^ 31) :
    (receive {} Buf.init a).map (fun r => (r.1.message, r.2)) = (receive {} Buf.init b).map (fun r => (r.1.message, r.2)) := by
  have ha := receive_fresh {} a rfl rfl hn
  have hb := receive_fresh {} b rfl rfl (by rw [← h]; exact hn)
  rw [h, ← hb] at ha
  have := congrArg (Option.map (fun r => (r.1.message, r.2))) ha
  simpa [Option.map_map, Function.comp_def, obs_message] using this

example : [[71, 69, 84], [32, 47, 97, 32, 72, 13, 10, 13, 10]].flatten = [[71], [69, 84, 32, 47, 97, 32, 72, 13], [10, 13, 10]].flatten :=
  by decide

theorem receive_of_whole (pieces : List Bytes) (hn : pieces.flatten.length < 2 ^ 31) (p : Parser) (rest : Bytes)
    (h : whole {} pieces.flatten = some (p, rest)) :
    ∃ q, receive {} Buf.init pieces = some (q, rest) ∧ q.message = p.message := by
  have hr := receive_fresh {} pieces rfl rfl hn
  rw [show obs {} = {} from rfl, h] at hr
  cases hc : receive {} Buf.init pieces with
  | none => simp [hc] at hr
  | some r =>
    obtain ⟨q, t⟩ := r
    simp only [hc, Option.map_some, Option.some.injEq, Prod.mk.injEq] at hr
    refine ⟨q, by rw [hr.2], ?_⟩
    rw [← obs_message q, hr.1]

theorem wholeBody_chunks (h : List (Bytes × Bytes)) (proto msg : Bytes) (code : Nat) (cs : List (Bytes × Bytes)) (last s : Bytes)
    (hcode : code < 2 ^ 31 ∧ ¬ ((100 ≤ code ∧ code < 200) ∨ code = 204 ∨ code = 304))
    (hte : getHeader h sTransferEncoding = sChunked)
    (hc : ∀ c ∈ cs, ChunkOk c) (hl : last ≠ []) (hl0 : hexNumber 0 last = some 0) :
    ∃ p, wholeBody (endHeaders { ({} : Parser) with
        protocol := proto, url := decimal code, method := msg, headers := h, seenReq := true })
        (cs.flatMap chunkText ++ (last ++ crlf ++ s)) = some (p, last ++ crlf ++ s) ∧
      p.message = ⟨msg, decimal code, proto, h, fun _ => none, (cs.map (·.2)).flatten⟩ := by
  have hnb : noBody (decimal code) = false := by
    by_cases hb : noBody (decimal code) = true
    · exact absurd ((noBody_decimal code hcode.1).1 hb) hcode.2
    · simpa using hb
  have := wholeChunks_text cs last s (endHeaders { ({} : Parser) with
        protocol := proto, url := decimal code, method := msg, headers := h, seenReq := true })
        (by simp [endHeaders, hte]) hc hl hl0
  have hwb : ∀ q t, q.headerOnly = false → noBody q.url = false → q.getChunks = true → wholeBody q t = wholeChunks q t := by
    intro q t a b c; simp [wholeBody, a, b, c]
  refine ⟨_, (hwb _ _ rfl hnb (by simp [endHeaders, hte])).trans this, ?_⟩
  simp [Parser.message, endHeaders]

/-- C41. A response with `Transfer-Encoding: chunked` whose body arrives in chunks of any sizes (written
in hexadecimal of either case, with or without leading zeros), cut into network pieces in any way, is
read with its status, headers and the concatenation of the chunks as body. What follows the body is
still there, behind the line that ended it. -/
theorem C41_chunked_any (proto msg : Bytes) (code : Nat) (h cs : List (Bytes × Bytes)) (last rest : Bytes) (pieces : List Bytes)
    (hp : proto = sHttp10 ∨ proto = sHttp11) (hm : OneLineText msg) (hh : HeadersOk h) (hs : SortedHeaders h)
    (hte : (sTransferEncoding, sChunked) ∈ h)
    (hcode : code < 2 ^ 31 ∧ ¬ ((100 ≤ code ∧ code < 200) ∨ code = 204 ∨ code = 304))
    (hc : ∀ c ∈ cs, ChunkOk c) (hl : last ≠ []) (hl0 : hexNumber 0 last = some 0)
    (hw : pieces.flatten = buildResponse { ({} : Parser) with protocol := proto, headers := h } (decimal code) msg ++
      cs.flatMap chunkText ++ last ++ crlf ++ rest)
    (hn : pieces.flatten.length < 2 ^ 31) :
    ∃ p, receive {} Buf.init pieces = some (p, last ++ crlf ++ rest) ∧
      p.message = ⟨msg, decimal code, proto, sentInResponse h, fun _ => none, (cs.map (·.2)).flatten⟩ := by
  have hte' : getHeader (sentInResponse h) sTransferEncoding = sChunked :=
    getHeader_mem (sorted_filter _ hs) (List.mem_filter.mpr ⟨hte, by decide +kernel⟩)
  obtain ⟨p, h1, h2⟩ := wholeBody_chunks (sentInResponse h) proto msg code cs last rest hcode hte' hc hl hl0
  obtain ⟨q, q1, q2⟩ := receive_of_whole pieces hn p (last ++ crlf ++ rest) (by
    rw [← h1, hw, ← whole_response proto msg code h _ hp hm hh hs]
    simp only [buildResponse, sendProtocol_http proto hp, List.append_assoc, List.nil_append, List.append_nil])
  exact ⟨q, q1, q2.trans h2⟩

theorem mapM_sendChunk (ds : List Bytes) (fs : List Bytes) (hd : ∀ d ∈ ds, d ≠ [] ∧ d.length < 2 ^ 32)
    (hf : ds.mapM sendChunk = some fs) :
    ∃ cs : List (Bytes × Bytes), cs.map (·.2) = ds ∧ cs.flatMap chunkText = fs.flatten ∧ ∀ c ∈ cs, ChunkOk c := by
  induction ds generalizing fs with
  | nil =>
    simp only [List.mapM_nil] at hf
    cases hf
    exact ⟨[], rfl, rfl, by simp⟩
  | cons d ds ih =>
    obtain ⟨t, h1, h2⟩ := sendChunk_ok d (hd d (by simp)).1 (hd d (by simp)).2
    rw [List.mapM_cons, h1] at hf
    cases hm : ds.mapM sendChunk with
    | none => simp [hm] at hf
    | some fs' =>
      simp only [hm] at hf
      cases hf
      obtain ⟨cs, c1, c2, c3⟩ := ih fs' (fun d hd' => hd d (by simp [hd'])) hm
      refine ⟨(t, d) :: cs, by simp [c1], by simp [c2], ?_⟩
      intro c hc
      rcases List.mem_cons.mp hc with rfl | hc
      · exact h2
      · exact c3 c hc

/-- C41, end to end. The server starts a chunked response with the headers `h`, sends the data in the
parts `ds` and ends it. However the network cuts the bytes, the receiver gets the status, the headers
sent, and the concatenation of the parts. -/
theorem C41_chunked (msg : Bytes) (code : Nat) (h : List (Bytes × Bytes)) (ds fs : List Bytes) (fin rest : Bytes) (pieces : List Bytes)
    (hm : OneLineText msg) (hh : HeadersOk h) (hs : SortedHeaders h)
    (hcode : code < 2 ^ 31 ∧ ¬ ((100 ≤ code ∧ code < 200) ∨ code = 204 ∨ code = 304))
    (hd : ∀ d ∈ ds, d ≠ [] ∧ d.length < 2 ^ 32)
    (hf : ds.mapM sendChunk = some fs) (hfin : sendChunk [] = some fin)
    (hw : pieces.flatten = buildResponse { ({} : Parser) with protocol := sHttp11, headers := startHeaders h true } (decimal code) msg ++
      fs.flatten ++ fin ++ rest)
    (hn : pieces.flatten.length < 2 ^ 31) :
    ∃ p, receive {} Buf.init pieces = some (p, fin ++ rest) ∧ p.method = msg ∧ p.url = decimal code ∧
      p.headers = sentInResponse (startHeaders h true) ∧ p.body = ds.flatten := by
  obtain ⟨cs, c1, c2, c3⟩ := mapM_sendChunk ds fs hd hf
  have hfin' : fin = [48] ++ crlf ++ crlf := by cases hfin; rfl
  have hset : startHeaders h true = hset h sTransferEncoding sChunked := by
    simp only [startHeaders, if_true, setHeader]
    rw [show trim sTransferEncoding = sTransferEncoding by decide +kernel, show trim sChunked = sChunked by decide +kernel]
  have hh' : HeadersOk (startHeaders h true) := by
    rw [hset]
    intro e he
    rcases hset_mem he with rfl | he
    · refine ⟨⟨by decide, by decide⟩, by decide, by decide +kernel, ⟨by decide, by decide⟩, by decide +kernel⟩
    · exact hh e he
  obtain ⟨p, p1, p2⟩ := C41_chunked_any sHttp11 msg code (startHeaders h true) cs [48] (crlf ++ rest) pieces (.inr rfl) hm hh'
    (by rw [hset]; exact hset_sorted _ _ _ hs) (by rw [hset]; exact hset_has _ _ _) hcode c3 (by simp) (by decide)
    (by rw [hw, c2, hfin']; simp only [List.append_assoc]) hn
  refine ⟨p, by rw [p1, hfin']; simp only [List.append_assoc], ?_⟩
  have e := p2
  rw [c1] at e
  exact ⟨congrArg Message.method e, congrArg Message.url e, congrArg Message.headers e, congrArg Message.body e⟩

example : ∃ fs, ([[97, 98, 99], List.replicate 26 7] : List Bytes).mapM sendChunk = some fs ∧
    fs.flatten = [51, 13, 10, 97, 98, 99, 13, 10, 49, 97, 13, 10] ++ List.replicate 26 7 ++ [13, 10] := by
  refine ⟨_, rfl, ?_⟩; decide +kernel

/-- C41. The line that ended the body (left in the buffer) does not disturb the next message: a cleaned
parser reads what comes after it. -/
theorem C41_next (rest : Bytes) (a b : List Bytes) (ha : a.flatten = [48, 13, 10, 13, 10] ++ rest) (hb : b.flatten = rest)
    (hn : a.flatten.length < 2 ^ 31) :
    (receive {} Buf.init a).map (fun r => (r.1.message, r.2)) = (receive {} Buf.init b).map (fun r => (r.1.message, r.2)) := by
  have h1 := receive_fresh {} a rfl rfl hn
  have h2 := receive_fresh {} b rfl rfl (by
    rw [hb]; rw [ha, List.length_append] at hn; omega)
  have e : whole {} ([48, 13, 10, 13, 10] ++ rest) = whole {} rest := by
    have e1 := whole_line {} [48] ([] ++ crlf ++ rest) rfl ⟨by decide, by decide⟩
    have e2 := whole_line {} [] rest rfl ⟨by decide, by decide⟩
    have f1 : headerLine {} [48] = {} := by decide +kernel
    have f2 : headerLine {} [] = {} := by decide +kernel
    rw [f1, e2, f2] at e1
    simpa [crlf] using e1
  rw [show obs {} = {} from rfl] at h1 h2
  rw [ha, e, ← hb, ← h2] at h1
  have := congrArg (Option.map (fun r => (r.1.message, r.2))) h1
  simpa [Option.map_map, Function.comp_def, obs_message] using this


/-- C41, limit. A size line may carry an extension after a semicolon (RFC 9112 section 7.1.1); this reader
takes its characters for digits. Three bytes announced as "3;x" are never recognised as complete. -/
theorem C41_extension_fails (pieces : List Bytes)
    (hw : pieces.flatten = buildResponse { ({} : Parser) with
      protocol := sHttp11, headers := [(sTransferEncoding, sChunked)] } (decimal 200) [79, 75] ++
        [51, 59, 120, 13, 10, 97, 98, 99, 13, 10, 48, 13, 10, 13, 10]) :
    receive {} Buf.init pieces = none := by
  have hn : pieces.flatten.length < 2 ^ 31 := by rw [hw]; decide +kernel
  have hr := receive_fresh {} pieces rfl rfl hn
  have hwr := whole_response sHttp11 [79, 75] 200 [(sTransferEncoding, sChunked)]
    [51, 59, 120, 13, 10, 97, 98, 99, 13, 10, 48, 13, 10, 13, 10] (.inr rfl) ⟨by decide, by decide⟩ (by
      intro e he
      simp only [List.mem_singleton] at he; subst he
      exact ⟨⟨by decide, by decide⟩, by decide, by decide +kernel, ⟨by decide, by decide⟩, by decide +kernel⟩)
    (by simp [SortedHeaders])
  have hnb : noBody (decimal 200) = false := by decide +kernel
  have hte : getHeader (sentInResponse [(sTransferEncoding, sChunked)]) sTransferEncoding = sChunked := by decide +kernel
  have hnone : whole {} pieces.flatten = none := by
    rw [hw]
    refine Eq.trans (congrArg (whole {}) ?_) (hwr.trans ?_)
    · simp only [buildResponse, sendProtocol_http sHttp11 (.inr rfl), List.append_nil, List.append_assoc]
    have hwb : ∀ q t, q.headerOnly = false → noBody q.url = false → q.getChunks = true → wholeBody q t = wholeChunks q t := by
      intro q t a b c; simp [wholeBody, a, b, c]
    rw [hwb _ _ rfl hnb (by simp [endHeaders, hte])]
    have := chunks_line (endHeaders { ({} : Parser) with
        protocol := sHttp11, url := decimal 200, method := [79, 75],
        headers := sentInResponse [(sTransferEncoding, sChunked)], seenReq := true }) [51, 59, 120]
      [97, 98, 99, 13, 10, 48, 13, 10, 13, 10] (by simp [endHeaders, hte]) ⟨by decide, by decide⟩
    rw [if_neg (by simp), if_neg (by decide +kernel)] at this
    refine Eq.trans ?_ (this.trans ?_)
    · rfl
    · rw [wholeChunks, dif_neg (by simp), dif_pos (by decide +kernel), if_pos (by decide +kernel)]
  rw [show obs {} = {} from rfl, hnone] at hr
  simpa using hr

/-! ## C56: bodies with a length, requests -/

theorem wholeBody_length (p : Parser) (n : Nat) (s : Bytes) (hs : p.headerOnly = false) (hnb : noBody p.url = false)
    (hg : p.getChunks = false) (t : Bytes) (ht : t ≠ []) (hn : atoiSize t = n) (hcl : getHeader p.headers sContentLength = t)
    (hte : getHeader p.headers sTransferEncoding ≠ sChunked) (b : Bytes) (hb : b.length = n) :
    wholeBody (endHeaders p) (b ++ s) = some (formVars { endHeaders p with body := b }, s) := by
  have hk : (endHeaders p).knownLength = true := by simp [endHeaders, hcl, ht]
  have hg' : (endHeaders p).getChunks = false := by simp [endHeaders, hg, hte]
  have hl : (endHeaders p).length = n := by
    simp only [endHeaders, hcl, ne_eq]
    rw [if_pos ht]; exact hn
  have hbody : (endHeaders p).body = [] := rfl
  unfold wholeBody
  rw [if_neg (by simp [endHeaders, hs]), if_neg (by simpa [endHeaders] using hnb), if_pos (by simp [hk, hg'])]
  unfold wholeLen
  rw [hl, hbody, if_pos (by simp [hb])]
  subst hb
  simp [hl]

theorem clText : OneLineText sContentLength ∧ 58 ∉ sContentLength := ⟨⟨by decide, by decide⟩, by decide⟩

/-- C56. A response with a non-empty body and the matching Content-Length, cut into network pieces in any
way, is received with the same status, headers and body, and nothing that follows it is used. -/
theorem C56_response_partial (proto msg : Bytes) (code : Nat) (h : List (Bytes × Bytes)) (body rest : Bytes) (pieces : List Bytes)
    (hp : proto = sHttp10 ∨ proto = sHttp11) (hm : OneLineText msg) (hh : HeadersOk h) (hs : SortedHeaders h)
    (hte : getHeader (sentInResponse (setBody { ({} : Parser) with headers := h } body).headers) sTransferEncoding ≠ sChunked)
    (hcode : code < 2 ^ 31 ∧ ¬ ((100 ≤ code ∧ code < 200) ∨ code = 204 ∨ code = 304))
    (hb : body ≠ [])
    (hw : pieces.flatten = buildResponse (setBody { ({} : Parser) with protocol := proto, headers := h } body) (decimal code) msg ++ rest)
    (hn : pieces.flatten.length < 2 ^ 31) :
    ∃ p, receive {} Buf.init pieces = some (p, rest) ∧ p.method = msg ∧ p.url = decimal code ∧ p.protocol = proto ∧
      p.headers = sentInResponse (setBody { ({} : Parser) with headers := h } body).headers ∧ p.body = body := by
  have hnb : noBody (decimal code) = false := by
    by_cases hb : noBody (decimal code) = true
    · exact absurd ((noBody_decimal code hcode.1).1 hb) hcode.2
    · simpa using hb
  have htr : trim sContentLength = sContentLength := by decide +kernel
  have hpos := List.length_pos_iff.mpr hb
  have hbl : body.length < 2 ^ 31 := by
    rw [hw] at hn; simp only [buildResponse, setBody, List.length_append] at hn; omega
  simp only [setBody, htr] at hte hw ⊢
  have hsort : SortedHeaders (hset h sContentLength (decimal body.length)) := hset_sorted _ _ _ hs
  have hd := decimal_plain body.length
  have hok : HeadersOk (hset h sContentLength (decimal body.length)) := by
    intro e he
    rcases hset_mem he with rfl | he
    · exact ⟨clText.1, clText.2, htr, hd.2.2.2, decimal_trim _⟩
    · exact hh e he
  have hcl : getHeader (sentInResponse (hset h sContentLength (decimal body.length))) sContentLength = decimal body.length := by
    apply getHeader_mem (sorted_filter _ hsort)
    refine List.mem_filter.mpr ⟨hset_has _ _ _, ?_⟩
    have hne := decimal_ne body.length
    have h0 : decimal body.length ≠ [48] := by
      intro h0
      have := digits_decimal body.length
      rw [h0, show digits [48] = 0 by decide +kernel] at this; omega
    simp [keepResp, hne, h0, sContentLength]
  have hmain := wholeBody_length { ({} : Parser) with
        protocol := proto, url := decimal code, method := msg,
        headers := sentInResponse (hset h sContentLength (decimal body.length)), seenReq := true }
      body.length rest rfl hnb rfl _ (decimal_ne _) (atoiSize_decimal _ hbl) hcl hte body rfl
  obtain ⟨q, q1, q2⟩ := receive_of_whole pieces hn _ rest (by
    rw [← hmain, hw, ← whole_response proto msg code _ _ hp hm hok hsort]
    simp only [buildResponse, sendProtocol_http proto hp, List.append_assoc])
  have hf : ∀ p : Parser, (formVars p).method = p.method ∧ (formVars p).url = p.url ∧ (formVars p).protocol = p.protocol ∧
      (formVars p).headers = p.headers ∧ (formVars p).body = p.body := by
    intro p; unfold formVars; split <;> exact ⟨rfl, rfl, rfl, rfl, rfl⟩
  obtain ⟨f1, f2, f3, f4, f5⟩ := hf { endHeaders { ({} : Parser) with
        protocol := proto, url := decimal code, method := msg,
        headers := sentInResponse (hset h sContentLength (decimal body.length)), seenReq := true } with body := body }
  exact ⟨q, q1, (congrArg Message.method q2).trans f1, (congrArg Message.url q2).trans f2,
    (congrArg Message.protocol q2).trans f3, (congrArg Message.headers q2).trans f4, (congrArg Message.body q2).trans f5⟩

/-- C56 does not hold for an empty body: the server leaves out `Content-Length: 0`, so a receiver on a
connection that stays open never sees the response as complete. -/
theorem C56_empty_fails (msg : Bytes) (code : Nat) (pieces : List Bytes) (hm : OneLineText msg)
    (hcode : 0 < code ∧ code < 2 ^ 31 ∧ ¬ ((100 ≤ code ∧ code < 200) ∨ code = 204 ∨ code = 304))
    (hmr : msg.take 4 ≠ sRTSP)
    (hw : pieces.flatten = buildResponse (setBody { ({} : Parser) with protocol := sHttp11 } []) (decimal code) msg)
    (hn : pieces.flatten.length < 2 ^ 31) :
    receive {} Buf.init pieces = none := by
  have hnb : noBody (decimal code) = false := by
    by_cases hb : noBody (decimal code) = true
    · exact absurd ((noBody_decimal code hcode.2.1).1 hb) hcode.2.2
    · simpa using hb
  have hset : (setBody { ({} : Parser) with protocol := sHttp11 } []).headers = [(sContentLength, [48])] := by
    have h1 : trim sContentLength = sContentLength := by decide +kernel
    have h2 : decimal 0 = [48] := by decide +kernel
    simp [setBody, h1, h2, hset]
  have hsent : sentInResponse [(sContentLength, [48])] = [] := by decide +kernel
  have hwr := whole_response sHttp11 msg code [(sContentLength, [48])] [] (.inr rfl) hm (by
      intro e he
      simp only [List.mem_singleton] at he; subst he
      exact ⟨⟨by decide, by decide⟩, by decide, by decide +kernel, ⟨by decide, by decide⟩, by decide +kernel⟩)
    (by simp [SortedHeaders])
  have hr := receive_fresh {} pieces rfl rfl hn
  have hnone : whole {} pieces.flatten = none := by
    rw [hw]
    have e : buildResponse (setBody { ({} : Parser) with protocol := sHttp11 } []) (decimal code) msg =
        sHttp11 ++ [32] ++ decimal code ++ [32] ++ msg ++ crlf ++ fieldsResp [(sContentLength, [48])] ++ crlf ++ [] := by
      unfold buildResponse
      rw [hset, show sendProtocol (setBody { ({} : Parser) with protocol := sHttp11 } []).protocol = sHttp11 by decide]
      rfl
    rw [e, hwr, hsent]
    have ha : atoll (decimal code) ≠ 0 := by rw [atoll_decimal code (by omega)]; omega
    have hpr : ¬ (sHttp11.take 4 = sRTSP ∨ msg.take 4 = sRTSP) := by
      rintro (h | h)
      · revert h; decide
      · exact hmr h
    unfold wholeBody
    simp only [endHeaders, hnb, getHeader, List.lookup, List.find?, Bool.false_eq_true, if_false, Bool.false_and, Bool.or_false]
    simp only [show (([] : Bytes) != []) = false by rfl, show (([] : Bytes) == sChunked) = false by decide, Bool.false_and, Bool.or_false, Bool.false_eq_true, if_false, if_neg hpr, if_neg ha]
  rw [show obs {} = {} from rfl, hnone] at hr
  simpa using hr

/-- C56 does not hold for long bodies: the length is cut to 32 bits. A response announcing 2^32 bytes is
complete with an empty body as soon as its headers are read. -/
theorem C56_long_fails (data : Bytes) (pieces : List Bytes)
    (hw : pieces.flatten = buildResponse { ({} : Parser) with
      protocol := sHttp11, headers := [(sContentLength, decimal (2 ^ 32))], body := data } (decimal 200) [79, 75])
    (hn : pieces.flatten.length < 2 ^ 31) :
    ∃ p, receive {} Buf.init pieces = some (p, data) ∧ p.body = [] := by
  have hnb : noBody (decimal 200) = false := by decide +kernel
  have hsent : sentInResponse [(sContentLength, decimal (2 ^ 32))] = [(sContentLength, decimal (2 ^ 32))] := by decide +kernel
  have hwr := whole_response sHttp11 [79, 75] 200 [(sContentLength, decimal (2 ^ 32))] data (.inr rfl) ⟨by decide, by decide⟩ (by
      intro e he
      simp only [List.mem_singleton] at he; subst he
      exact ⟨clText.1, clText.2, by decide +kernel, (decimal_plain _).2.2.2, decimal_trim _⟩)
    (by simp [SortedHeaders])
  have hmain := wholeBody_length { ({} : Parser) with
        protocol := sHttp11, url := decimal 200, method := [79, 75],
        headers := sentInResponse [(sContentLength, decimal (2 ^ 32))], seenReq := true }
      0 data rfl hnb rfl (decimal (2 ^ 32)) (decimal_ne _) (by decide +kernel) (by decide +kernel) (by decide +kernel) [] rfl
  obtain ⟨q, q1, q2⟩ := receive_of_whole pieces hn _ data (by
    rw [← hmain, hw, List.nil_append, ← hwr]
    rfl)
  refine ⟨q, q1, (congrArg Message.body q2).trans ?_⟩
  simp [Parser.message, formVars, endHeaders]
  split <;> rfl

/-! ## Requests -/

theorem joined_avoid (vars : List (Bytes × Bytes)) (c : UInt8) (h1 : ¬ Enc.Spec.unreserved c) (h3 : c ≠ 37) (h4 : c ≠ 61) (h5 : c ≠ 38) :
    c ∉ Query.joined vars := by
  have hu := fun s => urlEncode_avoid [] s c h1 (by simp) h3
  fun_induction Query.joined vars with
  | case1 => simp
  | case2 k v => simp [hu, h4]
  | case3 k v r _ ih => simp [hu, h4, h5, ih]

theorem space_free : ∀ c ∈ ([32, 13, 10, 63] : Bytes), ¬ Enc.Spec.unreserved c ∧ c ∉ urlIgnore ∧ c ≠ 37 ∧ c ≠ 61 ∧ c ≠ 38 := by
  intro c hc
  simp only [List.mem_cons, List.not_mem_nil, or_false] at hc
  rcases hc with rfl | rfl | rfl | rfl <;>
    (refine ⟨?_, by decide, by decide, by decide, by decide⟩; unfold Enc.Spec.unreserved; decide)

/-- The start line of a request. -/
def target (q : Parser) : Bytes :=
  Enc.urlEncode urlIgnore false q.url ++
  (if ¬ (q.method = sPOST ∧ getHeader q.headers sContentType = sForm) ∧ q.vars ≠ [] ∧ findChar 63 q.url = none then
    Query.argStr q.vars true else [])

theorem reqLine (q : Parser) (hq : GoodRequest q) :
    ∃ vs, (∀ k, vs.lookup k = q.vars.lookup k) ∧
    OneLineText (q.method ++ [32] ++ target q ++ [32] ++ sendProtocol q.protocol) ∧
    headerLine ({} : Parser) (q.method ++ [32] ++ target q ++ [32] ++ sendProtocol q.protocol) =
      { ({} : Parser) with method := q.method, url := q.url, protocol := sendProtocol q.protocol, vars := vs, seenReq := true } := by
  obtain ⟨hm32, hm1, hmh⟩ := hq.method
  obtain ⟨u, hu, hu63⟩ := hq.url
  have hurl63 : findChar 63 q.url = none := findChar_none.2 (by rw [hu]; simp [hu63])
  have hproto : OneLineText (sendProtocol q.protocol) := by
    unfold sendProtocol; split
    · exact hq.protocol
    · exact ⟨by decide, by decide⟩
  have hv := hq.vars
  have ht : target q = Enc.urlEncode urlIgnore false q.url ++ (if q.vars = [] then [] else 63 :: Query.joined q.vars) := by
    unfold target
    by_cases hve : q.vars = []
    · rw [if_neg (by simp [hve]), if_pos hve]
    · rw [if_pos ⟨hq.noForm.1, hve, hurl63⟩, if_neg hve, Query.argStr_joined _ hv.1]; simp [hve]
  have henc : ∀ c ∈ ([32, 13, 10, 63] : Bytes), c ∉ Enc.urlEncode urlIgnore false q.url := fun c hc =>
    urlEncode_avoid _ _ _ (space_free c hc).1 (space_free c hc).2.1 (space_free c hc).2.2.1
  have hjoin : ∀ c ∈ ([32, 13, 10, 63] : Bytes), c ∉ Query.joined q.vars := fun c hc =>
    joined_avoid _ _ (space_free c hc).1 (space_free c hc).2.2.1 (space_free c hc).2.2.2.1 (space_free c hc).2.2.2.2
  have htc : ∀ c ∈ ([32, 13, 10] : Bytes), c ∉ target q := by
    intro c hc h
    rw [ht, List.mem_append] at h
    have hc4 : c ∈ ([32, 13, 10, 63] : Bytes) := by simp only [List.mem_cons, List.not_mem_nil, or_false] at hc ⊢; rcases hc with h | h | h <;> simp [h]
    rcases h with h | h
    · exact henc c hc4 h
    · split at h
      · cases h
      · rcases List.mem_cons.mp h with h | h
        · subst h; revert hc; decide
        · exact hjoin c hc4 h
  have hline : OneLineText (q.method ++ [32] ++ target q ++ [32] ++ sendProtocol q.protocol) := by
    have h13 := htc 13 (by simp); have h10 := htc 10 (by simp)
    exact ⟨by simp [hm1.1, h13, hproto.1], by simp [hm1.2, h10, hproto.2]⟩
  have hdec : Enc.urlDecode false (Enc.urlEncode urlIgnore false q.url) = q.url :=
    Enc.C03_url_roundtrip _ _ _ (by decide) (by simp)
  have hset : ∃ vs, (∀ k, vs.lookup k = q.vars.lookup k) ∧ ∀ p : Parser, p.vars = [] →
      setUrl p (target q) = { p with url := q.url, vars := vs } := by
    by_cases hve : q.vars = []
    · refine ⟨[], by simp [hve], fun p hp => ?_⟩
      rw [ht, if_pos hve, List.append_nil, setUrl, findChar_none.2 (henc 63 (by simp))]
      simp only [hdec]; rw [← hp]
    · refine ⟨Query.parseVars [38] (by simp) true (Query.joined q.vars) [], fun k => ?_, fun p hp => ?_⟩
      · have h := Query.C04_query_roundtrip q.vars [] hv.1 hv.2 k
        rw [Query.argStr_joined _ hv.1] at h
        simpa using h
      · rw [ht, if_neg hve, setUrl, findChar_append (henc 63 (by simp))]
        simp only [List.take_left, hdec]
        rw [List.drop_append, List.drop_of_length_le (by omega)]
        simp only [List.nil_append, Nat.add_sub_cancel_left, List.drop_succ_cons, List.drop_zero, hp]
  obtain ⟨vs, hvs, hset⟩ := hset
  refine ⟨vs, hvs, hline, ?_⟩
  have hcut : cutCR (q.method ++ [32] ++ target q ++ [32] ++ sendProtocol q.protocol) =
      q.method ++ 32 :: (target q ++ 32 :: sendProtocol q.protocol) := by
    rw [cutCR_none _ hline.1]; simp
  have hnot : (q.method ++ 32 :: (target q ++ 32 :: sendProtocol q.protocol)).take 4 ≠ sHTTP := by
    intro h
    by_cases hl : 4 ≤ q.method.length
    · rw [List.take_append_of_le_length hl] at h; exact hmh h
    · have : 32 ∈ (q.method ++ 32 :: (target q ++ 32 :: sendProtocol q.protocol)).take 4 := by
        rw [List.take_append, List.mem_append]
        right
        rw [show 4 - q.method.length = (3 - q.method.length) + 1 by omega, List.take_succ_cons]
        simp
      rw [h] at this; revert this; decide
  unfold headerLine
  rw [if_pos (by rfl), hcut]
  unfold requestLine
  rw [findChar_append hm32]
  simp only [if_neg hnot, List.take_left]
  rw [List.drop_append, List.drop_of_length_le (by omega)]
  simp only [List.nil_append, Nat.add_sub_cancel_left, List.drop_succ_cons, List.drop_zero]
  rw [findChar_append (htc 32 (by simp))]
  simp only [List.take_left]
  rw [List.drop_append, List.drop_of_length_le (by omega)]
  simp only [List.nil_append, Nat.add_sub_cancel_left, List.drop_succ_cons, List.drop_zero]
  rw [hset _ rfl]

theorem whole_request (q : Parser) (hq : GoodRequest q) (s : Bytes) (hl : q.body.length < 2 ^ 31) :
    ∃ p, whole {} (buildRequest q ++ s) = some (p, s) ∧ p.message = requestMessage q := by
  obtain ⟨vs, hvs, hline, hhl⟩ := reqLine q hq
  obtain ⟨hh, hsorted⟩ := hq.headers
  have hfold := foldl_hset (sentInRequest q.headers) [] (sorted_filter _ hsorted)
  rw [List.nil_append] at hfold
  have e : buildRequest q ++ s =
      (q.method ++ [32] ++ target q ++ [32] ++ sendProtocol q.protocol) ++ crlf ++ (fieldsReq q.headers ++ (crlf ++ (q.body ++ s))) := by
    simp only [buildRequest, target, List.append_assoc]
  have hhead : whole {} (buildRequest q ++ s) = wholeBody (endHeaders { ({} : Parser) with
      method := q.method, url := q.url, protocol := sendProtocol q.protocol, vars := vs,
      headers := sentInRequest q.headers, seenReq := true }) (q.body ++ s) := by
    rw [e, whole_line _ _ _ rfl hline, hhl, fieldsReq_eq,
      whole_fields q.headers keepReq (by intro e _ hk; simp only [keepReq, Bool.and_eq_true, bne_iff_ne] at hk; exact hk.1) hh _ _ rfl rfl,
      whole_end _ _ rfl rfl]
    simp only [sentInRequest] at hfold ⊢
    rw [hfold]
  obtain ⟨u, hu, -⟩ := hq.url
  have hnb : noBody q.url = false := by
    rw [hu]; simp [noBody]
  have hfin : ∀ p : Parser, p.method = q.method → p.headers = sentInRequest q.headers → formVars p = p := by
    intro p h1 h2
    unfold formVars
    rw [if_neg (by rw [h1, h2]; exact hq.noForm.2)]
  have hmsg : ∀ p : Parser, p.method = q.method → p.url = q.url → p.protocol = sendProtocol q.protocol →
      p.headers = sentInRequest q.headers → p.vars = vs → p.body = q.body → p.message = requestMessage q := by
    intro p h1 h2 h3 h4 h5 h6
    unfold Parser.message requestMessage
    rw [h1, h2, h3, h4, h5, h6]
    congr 1
    funext k; exact hvs k
  rcases hq.length with hcl | ⟨hcl, hb⟩
  · have hcl' : getHeader (sentInRequest q.headers) sContentLength = decimal q.body.length := by
      apply getHeader_mem (sorted_filter _ hsorted)
      exact List.mem_filter.mpr ⟨hcl, by simp [keepReq, sContentLength, decimal_ne]⟩
    have := wholeBody_length { ({} : Parser) with
      method := q.method, url := q.url, protocol := sendProtocol q.protocol, vars := vs,
      headers := sentInRequest q.headers, seenReq := true } q.body.length s rfl hnb rfl _ (decimal_ne _) (atoiSize_decimal _ hl) hcl' hq.noChunks q.body rfl
    refine ⟨_, hhead.trans this, ?_⟩
    refine Eq.trans (congrArg Parser.message (hfin _ ?_ ?_)) (hmsg _ ?_ ?_ ?_ ?_ ?_ ?_) <;> rfl
  · rw [hhead, hb, List.nil_append]
    have hat : atoll q.url = 0 := by rw [hu]; simp [atoll, space, digits]
    have hte : (getHeader (sentInRequest q.headers) sTransferEncoding == sChunked) = false := by
      simpa using hq.noChunks
    unfold wholeBody
    simp only [endHeaders, hnb, hcl, hte, Bool.false_eq_true, if_false, Bool.false_and, Bool.or_false]
    simp only [show (([] : Bytes) != []) = false by rfl, Bool.false_and, Bool.false_eq_true, if_false]
    by_cases hrt : (sendProtocol q.protocol).take 4 = sRTSP ∨ q.method.take 4 = sRTSP
    · rw [if_pos hrt]
      refine ⟨_, rfl, ?_⟩
      exact hmsg _ rfl rfl rfl rfl rfl hb.symm
    · rw [if_neg hrt, if_pos hat]
      refine ⟨_, rfl, ?_⟩
      exact hmsg _ rfl rfl rfl rfl rfl hb.symm

/-- C56. A request, cut into network pieces in any way, is received with the same method, address,
protocol, headers, variables and body, and nothing that follows it is used. -/
theorem C56_request (q : Parser) (hq : GoodRequest q) (rest : Bytes) (pieces : List Bytes)
    (hw : pieces.flatten = buildRequest q ++ rest) (hn : pieces.flatten.length < 2 ^ 31) :
    ∃ p, receive {} Buf.init pieces = some (p, rest) ∧ p.message = requestMessage q := by
  obtain ⟨p, h1, h2⟩ := whole_request q hq rest (by
    rw [hw] at hn; simp only [buildRequest, List.length_append] at hn; omega)
  obtain ⟨r, r1, r2⟩ := receive_of_whole pieces hn p rest (by rw [hw]; exact h1)
  exact ⟨r, r1, r2.trans h2⟩

/-- The application sets the body with `SetBody`: the length condition of `GoodRequest` holds. -/
theorem setBody_length (q : Parser) (b : Bytes) : (sContentLength, decimal (setBody q b).body.length) ∈ (setBody q b).headers := by
  have htr : trim sContentLength = sContentLength := by decide +kernel
  simp only [setBody, htr]
  exact hset_has _ _ _

/-! ## C57: messages in a row -/

/-- What the messages on a stream are. -/
inductive Streams : Parser → Bytes → List Message → Prop
  | done {p s} : whole p s = none → Streams p s []
  | next {p s p' s' ms} : whole p s = some (p', s') → Streams {} s' ms → Streams p s (p'.message :: ms)

theorem serve_ok (n : Nat) (p : Parser) (b : Buf) (pieces : List Bytes) (ms : List Message)
    (hst : Streams (obs p) (b.blocks.flatten ++ pieces.flatten) ms)
    (hb : b.splitter = [10]) (hw : Waiting p (b.blocks.flatten.length + pieces.flatten.length)) (hB : Blocks b.blocks)
    (hn : pieces.length + ms.length < n) : serve n p b pieces = ms := by
  induction n generalizing p b pieces ms with
  | zero => omega
  | succ n ih =>
    obtain ⟨hsp, hsuf, hB2, hr⟩ := read_ok p b pieces.flatten.length hw hB
    simp only at hsuf hB2 hr
    rw [serve.eq_def]; dsimp only
    have hlen := hsuf.length_le
    by_cases hok : (read true p b).1 = true
    · rw [if_pos hok] at hr ⊢
      have h1 := hr pieces.flatten (Nat.le_refl _)
      cases hst with
      | done h => rw [h] at h1; cases h1
      | next h hrest =>
        rw [h1] at h
        cases h
        have := ih { ({} : Parser) with currentLength := (read true p b).2.1.currentLength } (read true p b).2.2 pieces _ hrest
          (hsp.trans hb) ⟨by have := hw.tot; omega, fun _ => rfl, fun h => (by cases h), fun h => (by cases h)⟩ hB2
          (by simp only [List.length_cons] at hn; omega)
        rw [this]; rfl
    · rw [if_neg hok] at hr ⊢
      cases pieces with
      | nil =>
        have h1 := hr.1 [] (Nat.le_refl _)
        simp only [List.append_nil] at h1
        rw [hr.2.2] at h1
        cases hst with
        | done _ => rfl
        | next h _ => simp only [List.flatten_nil, List.append_nil] at h; rw [h1] at h; cases h
      | cons x xs =>
        simp only
        have h1 := hr.1 (x :: xs).flatten (Nat.le_refl _)
        apply ih
        · rw [append_flatten, List.append_assoc, ← List.flatten_cons]
          cases hst with
          | done h => rw [h1] at h; exact .done h
          | next h hrest => rw [h1] at h; exact .next h hrest
        · exact (by simpa [Buf.append] using hsp.trans hb)
        · rw [append_flatten]
          have := hr.2.1
          simpa [Nat.add_assoc] using this
        · exact append_blocks _ _ (hsp.trans hb) hB2
        · simp only [List.length_cons] at hn; omega

/-- C57. Requests sent one after the other on one connection, cut into network pieces in any way, are
delivered by the server's read loop one by one, each as it was sent, in order. -/
theorem C57_pipelined (qs : List Parser) (hq : ∀ q ∈ qs, GoodRequest q) (pieces : List Bytes)
    (hw : pieces.flatten = qs.flatMap buildRequest) (hn : pieces.flatten.length < 2 ^ 31)
    (n : Nat) (hfuel : pieces.length + qs.length < n) :
    serve n {} Buf.init pieces = qs.map requestMessage := by
  apply serve_ok
  · simp only [Buf.init, List.flatten_nil, List.nil_append]
    rw [hw] at hn ⊢
    clear hw hfuel
    show Streams {} _ _
    induction qs with
    | nil => exact .done (by rw [whole.eq_def]; rfl)
    | cons q qs ih =>
      rw [List.flatMap_cons] at hn ⊢
      obtain ⟨p, h1, h2⟩ := whole_request q (hq q (by simp)) (qs.flatMap buildRequest) (by
        simp only [buildRequest, List.length_append] at hn; omega)
      rw [List.map_cons, ← h2]
      refine .next h1 (ih (fun q h => hq q (by simp [h])) ?_)
      simp only [List.length_append] at hn; omega
  · rfl
  · exact ⟨by simpa [Buf.init] using hn, fun _ => rfl, fun h => (by cases h), fun h => (by cases h)⟩
  · simp [Blocks, Buf.init]
  · simpa using hfuel

/-- A request with a variable and a body, and one without either. -/
def exampleRequests : List Parser :=
  [setBody { ({} : Parser) with method := sPOST, url := [47, 97, 32, 98], vars := [([107], [38])], headers := [([72], [118])] } [1, 2, 3],
   { ({} : Parser) with url := [47] }]

example : ∀ q ∈ exampleRequests, GoodRequest q := by
  intro q hq
  have hset : (setBody { ({} : Parser) with method := sPOST, url := [47, 97, 32, 98], vars := [([107], [38])], headers := [([72], [118])] } [1, 2, 3]).headers
      = [(sContentLength, [51]), ([72], [118])] := by decide +kernel
  simp only [exampleRequests, List.mem_cons, List.not_mem_nil, or_false] at hq
  rcases hq with rfl | rfl
  · refine ⟨⟨by decide, ⟨by decide, by decide⟩, by decide⟩, ⟨[97, 32, 98], rfl, by decide⟩, ⟨by decide, by decide⟩, ⟨?_, ?_⟩,
      ⟨by decide, by decide⟩, ⟨by decide +kernel, by decide +kernel⟩, by decide +kernel, .inl (setBody_length _ _)⟩
    · rw [hset]
      intro e he
      simp only [List.mem_cons, List.not_mem_nil, or_false] at he
      rcases he with rfl | rfl
      · exact ⟨⟨by decide, by decide⟩, by decide, by decide +kernel, ⟨by decide, by decide⟩, by decide +kernel⟩
      · exact ⟨⟨by decide, by decide⟩, by decide, by decide +kernel, ⟨by decide, by decide⟩, by decide +kernel⟩
    · rw [hset]; unfold SortedHeaders; decide +kernel
  · exact ⟨⟨by decide, ⟨by decide, by decide⟩, by decide⟩, ⟨[], rfl, by decide⟩, ⟨by decide, by decide⟩,
      ⟨by intro e he; simp at he, by simp [SortedHeaders]⟩,
      ⟨by decide, by decide⟩, ⟨by decide +kernel, by decide +kernel⟩, by decide +kernel, .inr ⟨by decide +kernel, rfl⟩⟩

end Verif.Http
