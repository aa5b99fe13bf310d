import Verif.Http.Model

/-!
# Specification vocabulary for HTTP messages
-/
namespace Verif.Http

/-- What an application sees of a message it received. -/
structure Message where
  method : Bytes
  url : Bytes
  protocol : Bytes
  headers : List (Bytes × Bytes)
  vars : Bytes → Option Bytes
  body : Bytes

/-- The message held by a parser; variables by name. -/
def Parser.message (p : Parser) : Message :=
  ⟨p.method, p.url, p.protocol, p.headers, fun k => p.vars.lookup k, p.body⟩

/-- A line of text: no carriage return, no line feed. -/
def OneLineText (s : Bytes) : Prop := 13 ∉ s ∧ 10 ∉ s

/-- Headers as an application sets them: names without ':' and line breaks, values without line
breaks, neither with blanks at its ends. -/
def HeadersOk (h : List (Bytes × Bytes)) : Prop :=
  ∀ e ∈ h, OneLineText e.1 ∧ 58 ∉ e.1 ∧ trim e.1 = e.1 ∧ OneLineText e.2 ∧ trim e.2 = e.2

/-- A map: every name once, in order. -/
def SortedHeaders (h : List (Bytes × Bytes)) : Prop := (h.map (·.1)).Pairwise (fun a b => Json.keyLt a b = true)

/-- Headers that have a name and a value. -/
def keepReq (e : Bytes × Bytes) : Bool := e.1 != [] && e.2 != []

/-- The headers that are sent with a request: all that have a name and a value. -/
def sentInRequest (h : List (Bytes × Bytes)) : List (Bytes × Bytes) := h.filter keepReq

/-- Headers that have a name and a value and are not "Content-Length: 0". -/
def keepResp (e : Bytes × Bytes) : Bool := e.1 != [] && e.2 != [] && e != (sContentLength, [48])

/-- The headers that are sent with a response. -/
def sentInResponse (h : List (Bytes × Bytes)) : List (Bytes × Bytes) := h.filter keepResp

/-- A request an application may send: one-word method (not beginning with "HTTP"), an address starting
with '/' and without '?', variables with different non-empty names, and a body with its length (or no
body and no length). A form in the body takes the place of variables and is treated separately. -/
structure GoodRequest (q : Parser) : Prop where
  method : 32 ∉ q.method ∧ OneLineText q.method ∧ q.method.take 4 ≠ sHTTP
  url : ∃ u, q.url = 47 :: u ∧ 63 ∉ u
  protocol : OneLineText q.protocol
  headers : HeadersOk q.headers ∧ SortedHeaders q.headers
  vars : (∀ e ∈ q.vars, e.1 ≠ []) ∧ (q.vars.map (·.1)).Nodup
  noForm : ¬ (q.method = sPOST ∧ getHeader q.headers sContentType = sForm) ∧
    ¬ (q.method = sPOST ∧ getHeader (sentInRequest q.headers) sContentType = sForm)
  noChunks : getHeader (sentInRequest q.headers) sTransferEncoding ≠ sChunked
  length : (sContentLength, decimal q.body.length) ∈ q.headers ∨
    (getHeader (sentInRequest q.headers) sContentLength = [] ∧ q.body = [])

/-- The message a request is. -/
def requestMessage (q : Parser) : Message :=
  ⟨q.method, q.url, sendProtocol q.protocol, sentInRequest q.headers, fun k => q.vars.lookup k, q.body⟩

/-- A hexadecimal digit of either case, and its value. -/
def hexDigit (c : UInt8) : Option Nat :=
  if 48 ≤ c ∧ c ≤ 57 then some (c.toNat - 48)
  else if 65 ≤ c ∧ c ≤ 70 then some (c.toNat - 55)
  else if 97 ≤ c ∧ c ≤ 102 then some (c.toNat - 87)
  else none

/-- A hexadecimal number: `none` if some character is not a digit. -/
def hexNumber : Nat → Bytes → Option Nat
  | v, [] => some v
  | v, c :: r => match hexDigit c with
    | some d => hexNumber (v * 16 + d) r
    | none => none

/-- A chunk of RFC 9112 section 7.1 without extensions: size, line end, data, line end. -/
def chunkText (c : Bytes × Bytes) : Bytes := c.1 ++ crlf ++ c.2 ++ crlf

/-- The size announces the (non-empty) data. -/
def ChunkOk (c : Bytes × Bytes) : Prop :=
  c.1 ≠ [] ∧ c.2 ≠ [] ∧ c.2.length < 2 ^ 32 ∧ hexNumber 0 c.1 = some c.2.length

/-- A server's loop on one connection: read; when a message is complete note it, clean the parser
and read on; otherwise wait for the next piece. `n` bounds the number of calls of `Read`. -/
def serve : Nat → Parser → SockBuf.Buf → List Bytes → List Message
  | 0, _, _, _ => []
  | n + 1, p, b, pieces =>
    let t := read true p b
    if t.1 then t.2.1.message :: serve n { ({} : Parser) with currentLength := t.2.1.currentLength } t.2.2 pieces
    else
      match pieces with
      | [] => []
      | x :: xs => serve n t.2.1 (t.2.2.append x) xs

end Verif.Http
