import Verif.Base.Strings
import Verif.Enc.Model
import Verif.Query.Model
import Verif.SockBuf.Model
import Verif.Json.Model

/-!
# Model of HTTP messages (`/repo/lib/http_parser.cpp`, `/repo/lib/socket.cpp` 1533-1556)

Writing (`BuildRequest`, `BuildResponse`, `SendResponse`, chunked `SendNow`) and reading (`parse`,
`Read`). Body callbacks are not modelled: they receive the same bytes that are otherwise appended
to the body. Authentication headers and proxying are not modelled. Logging is left out.
`std::map` with string keys is a list kept sorted by key.
-/
namespace Verif.Http
open Verif.SockBuf (Buf)

/-- Space or tab (http_parser.cpp 402-403). -/
def blank (c : UInt8) : Bool := c == 32 || c == 9

/-- `Trim` (http_parser.cpp 401-409). -/
def trim (s : Bytes) : Bytes := ((s.dropWhile blank).reverse.dropWhile blank).reverse

/-- `headers[i] = v` (http_parser.cpp 476), a sorted map. -/
def hset : List (Bytes × Bytes) → Bytes → Bytes → List (Bytes × Bytes)
  | [], k, v => [(k, v)]
  | m :: r, k, v =>
    if Json.keyLt m.1 k then m :: hset r k v else if m.1 = k then (k, v) :: r else (k, v) :: m :: r

/-- `tolower` in the C locale, as used by `strncasecmp`. -/
def lower (c : UInt8) : UInt8 := if 65 ≤ c && c ≤ 90 then c + 32 else c

/-- `GetHeader` (http_parser.cpp 437-446): the exact name first, then ignoring case. The names
asked for contain no zero byte, so `strncasecmp` compares all bytes. -/
def getHeader (h : List (Bytes × Bytes)) (i : Bytes) : Bytes :=
  match h.lookup i with
  | some v => v
  | none =>
    match h.find? (fun e => e.1.length == i.length && e.1.map lower == i.map lower) with
    | some e => e.2
    | none => []

/-- C library: white space skipped by `atoi` and `atoll`. -/
def space (c : UInt8) : Bool := c == 32 || (9 ≤ c && c ≤ 13)

/-- C library: value of the leading decimal digits. -/
def digits (s : Bytes) : Nat :=
  (s.takeWhile (fun c => 48 ≤ c && c ≤ 57)).foldl (fun v c => v * 10 + (c.toNat - 48)) 0

/-- C library `strtoll(s, 0, 10)`, which is also `atoll` in glibc: saturating. -/
def atoll (s : Bytes) : Int :=
  match s.dropWhile space with
  | 45 :: r => if digits r > 2 ^ 63 then - 2 ^ 63 else - (digits r : Int)
  | 43 :: r => if digits r ≥ 2 ^ 63 then 2 ^ 63 - 1 else digits r
  | r => if digits r ≥ 2 ^ 63 then 2 ^ 63 - 1 else digits r

/-- `size_t length = atoi(...)` (http_parser.cpp 618): glibc's `atoi` cuts `strtol` to 32 bits,
the sign is extended to 64 bits. -/
def atoiSize (s : Bytes) : Nat :=
  let v := (atoll s % 2 ^ 32).toNat
  if v < 2 ^ 31 then v else v + (2 ^ 64 - 2 ^ 32)

/-- `unsigned int code = atoi(url.data())` (http_parser.cpp 642). -/
def atoiU32 (s : Bytes) : Nat := (atoll s % 2 ^ 32).toNat

/-- "Content-Length" -/
def sContentLength : Bytes := [67, 111, 110, 116, 101, 110, 116, 45, 76, 101, 110, 103, 116, 104]
/-- "Transfer-Encoding" -/
def sTransferEncoding : Bytes :=
  [84, 114, 97, 110, 115, 102, 101, 114, 45, 69, 110, 99, 111, 100, 105, 110, 103]
/-- "chunked" -/
def sChunked : Bytes := [99, 104, 117, 110, 107, 101, 100]
/-- "Content-Type" -/
def sContentType : Bytes := [67, 111, 110, 116, 101, 110, 116, 45, 84, 121, 112, 101]
/-- "application/x-www-form-urlencoded" -/
def sForm : Bytes :=
  [97, 112, 112, 108, 105, 99, 97, 116, 105, 111, 110, 47, 120, 45, 119, 119, 119, 45, 102, 111, 114, 109,
   45, 117, 114, 108, 101, 110, 99, 111, 100, 101, 100]
/-- "HTTP" -/
def sHTTP : Bytes := [72, 84, 84, 80]
/-- "RTSP" -/
def sRTSP : Bytes := [82, 84, 83, 80]
/-- "POST" -/
def sPOST : Bytes := [80, 79, 83, 84]
/-- "HTTP/1.0" -/
def sHttp10 : Bytes := [72, 84, 84, 80, 47, 49, 46, 48]
/-- "HTTP/1.1" -/
def sHttp11 : Bytes := [72, 84, 84, 80, 47, 49, 46, 49]
/-- CR LF -/
def crlf : Bytes := [13, 10]

/-- The members of `HTTP::Parser` that reading uses (http_parser.h 58-83). -/
structure Parser where
  method : Bytes := [71, 69, 84]
  url : Bytes := [47]
  protocol : Bytes := sHttp11
  headers : List (Bytes × Bytes) := []
  vars : List (Bytes × Bytes) := []
  body : Bytes := []
  length : Nat := 0
  currentLength : Nat := 0
  doing : Nat := 0
  knownLength : Bool := false
  getChunks : Bool := false
  seenReq : Bool := false
  seenHeaders : Bool := false
  possiblyComplete : Bool := false
  headerOnly : Bool := false
  deriving DecidableEq

/-- Lines 577-581 and 594-598: the part of the address after '?' is read as variables and cut off,
the rest is URL-decoded. -/
def setUrl (p : Parser) (u : Bytes) : Parser :=
  match findChar 63 u with
  | some f => { p with
      url := Enc.urlDecode false (u.take f),
      vars := Query.parseVars [38] (by simp) true (u.drop (f + 1)) p.vars }
  | none => { p with url := Enc.urlDecode false u }

/-- The first line of a message (http_parser.cpp 563-606). -/
def requestLine (p : Parser) (t : Bytes) : Parser :=
  match findChar 32 t with
  | none => p
  | some f =>
    if t.take 4 = sHTTP then
      let p := { p with protocol := t.take f }
      let t := t.drop (f + 1)
      match findChar 32 t with
      | some g => { setUrl { p with method := t.drop (g + 1) } (t.take g) with seenReq := true }
      | none => p
    else
      let p := { p with method := t.take f }
      let t := t.drop (f + 1)
      match findChar 32 t with
      | some g => { setUrl { p with protocol := t.drop (g + 1) } (t.take g) with seenReq := true }
      | none => p

/-- The empty line after the headers (http_parser.cpp 608-622). -/
def endHeaders (p : Parser) : Parser :=
  { p with
    seenHeaders := true
    currentLength := 0
    body := []
    knownLength := getHeader p.headers sContentLength != []
    length := if getHeader p.headers sContentLength ≠ [] then atoiSize (getHeader p.headers sContentLength)
      else p.length
    getChunks := p.getChunks || getHeader p.headers sTransferEncoding == sChunked
    doing := if getHeader p.headers sTransferEncoding = sChunked then 0 else p.doing }

/-- A header line (http_parser.cpp 624-629) with the carriage return gone. -/
def fieldLine (p : Parser) (t : Bytes) : Parser :=
  match findChar 58 t with
  | none => p
  | some f => { p with headers := hset p.headers (trim (t.take f)) (trim (t.drop (f + 1))) }

/-- Line 562: everything from the first carriage return is cut off. -/
def cutCR (l : Bytes) : Bytes := l.takeWhile (· != 13)

/-- One line before the body (http_parser.cpp 562-631). -/
def headerLine (p : Parser) (l : Bytes) : Parser :=
  if !p.seenReq then requestLine p (cutCR l)
  else if cutCR l = [] then endHeaders p
  else fieldLine p (cutCR l)

/-- Response codes that have no body (http_parser.cpp 639-642). -/
def noBody (url : Bytes) : Bool :=
  match url with
  | [] => false
  | c :: _ => (48 ≤ c && c ≤ 57) &&
      ((100 ≤ atoiU32 url && atoiU32 url < 200) || atoiU32 url == 204 || atoiU32 url == 304)

/-- Lines 669-670: a form sent in the body is read as variables. -/
def formVars (p : Parser) : Parser :=
  if p.method = sPOST ∧ getHeader p.headers sContentType = sForm then
    { p with vars := Query.parseVars [38] (by simp) true p.body p.vars } else p

/-- A chunk size (http_parser.cpp 703-707); `unsigned int`. -/
def chunkLen (t : Bytes) : Nat :=
  t.foldl (fun v c => ((v * 16) % 2 ^ 32) ||| (Enc.hexOrd c).toNat) 0

/-- The part of the loop body that handles the message body (http_parser.cpp 633-745); it always
ends the call. Outcome: result, parser, buffer. -/
def bodyStep (p : Parser) (buf : Bytes) : Bool × Parser × Bytes :=
  if p.headerOnly then (true, p, buf)
  else if noBody p.url then (true, p, buf)
  else if p.knownLength && !p.getChunks then
    let n := min ((p.length + (2 ^ 64 - p.currentLength)) % 2 ^ 32) buf.length
    let p := { p with body := p.body ++ buf.take n, currentLength := p.currentLength + n }
    if p.length = p.currentLength then (true, formVars p, buf.drop n) else (false, p, buf.drop n)
  else if p.getChunks then
    let p := { p with currentLength := p.currentLength + buf.length }
    if p.doing ≠ 0 then
      let n := min buf.length p.doing
      (false, { p with body := p.body ++ buf.take n, doing := p.doing - n }, buf.drop n)
    else
      match findChar 10 buf with
      | none => (false, p, buf)
      | some f =>
        if cutCR (buf.take f) = [] then (false, p, buf.drop (f + 1))
        else if chunkLen (cutCR (buf.take f)) = 0 then (true, { p with getChunks := false }, buf)
        else (false, { p with doing := chunkLen (cutCR (buf.take f)) }, buf.drop (f + 1))
  else if p.protocol.take 4 = sRTSP ∨ p.method.take 4 = sRTSP then (true, p, buf)
  else (true, { p with body := p.body ++ buf, possiblyComplete := true }, [])

/-- `parse` (http_parser.cpp 553-747). The number bounds the lines taken; the length of the buffer
is always enough. -/
def parse : Nat → Parser → Bytes → Bool × Parser × Bytes
  | 0, p, buf => (p.possiblyComplete, p, buf)
  | n + 1, p, buf =>
    if buf = [] then (p.possiblyComplete, p, buf)
    else if p.seenHeaders then bodyStep p buf
    else
      match findChar 10 buf with
      | none => (false, p, buf)
      | some f =>
        let p' := headerLine p (buf.take f)
        if p'.seenHeaders then bodyStep p' (buf.drop (f + 1)) else parse n p' (buf.drop (f + 1))

/-- Lines 507 and 529: a complete message, unless it is a response without length on a connection
that is still open. -/
def accept (conn : Bool) (p : Parser) : Bool := !p.possiblyComplete || !conn || atoll p.url == 0

/-- Lines 512: a whole line is needed. -/
def needLine (p : Parser) : Bool := !p.seenHeaders || (p.getChunks && p.doing == 0)

/-- The inner loop of `Read` (http_parser.cpp 511-525): blocks are joined until the first one ends
in a newline; `false` if there are not enough. `append` adds no empty blocks, so the block after
the first is never empty. -/
def merge : List Bytes → Bool × List Bytes
  | [] => (true, [])
  | [b] => (b.getLast? == some 10, [b])
  | b :: c :: r => if b.getLast? = some 10 then (true, b :: c :: r) else merge ((b ++ c) :: r)
  termination_by l => l.length

/-- The outer loop of `Read` (http_parser.cpp 509-532). Each round takes at least one byte; the
number bounds the rounds. -/
def readLoop (conn : Bool) : Nat → Parser → List Bytes → Bool × Parser × List Bytes
  | 0, p, bl => (false, p, bl)
  | n + 1, p, bl =>
    match bl.dropWhile (·.isEmpty) with
    | [] => (false, p, [])
    | b :: r =>
      match (if needLine p then merge (b :: r) else (true, b :: r)) with
      | (false, bl) => (false, p, bl)
      | (true, []) => (false, p, [])
      | (true, f :: r) =>
        let t := parse f.length p f
        if t.1 && accept conn t.2.1 then (true, t.2.1, t.2.2 :: r)
        else readLoop conn n t.2.1 (t.2.2 :: r)

/-- `Read(conn)` (http_parser.cpp 503-534). -/
def read (conn : Bool) (p : Parser) (b : Buf) : Bool × Parser × Buf :=
  if b.popEmpty.blocks = [] then
    let t := parse 0 p []
    (t.1 && accept conn t.2.1, t.2.1, b.popEmpty)
  else
    let t := readLoop conn (b.blocks.flatten.length + 1) p b.blocks
    (t.1, t.2.1, { b with blocks := t.2.2 })

/-- A receiver: each network piece is appended to the receive buffer and `Read` is called, until
it says a message is complete. Outcome: the parser at that point and the bytes not used yet. -/
def receive (p : Parser) (b : Buf) : List Bytes → Option (Parser × Bytes)
  | [] => none
  | x :: xs =>
    let t := read true p (b.append x)
    if t.1 then some (t.2.1, t.2.2.blocks.flatten ++ xs.flatten) else receive t.2.1 t.2.2 xs

/-- The receiver's state after pieces none of which completed a message. -/
def feed (p : Parser) (b : Buf) : List Bytes → Parser × Buf
  | [] => (p, b)
  | x :: xs => let t := read true p (b.append x); feed t.2.1 t.2.2 xs

/-! ## Writing -/

/-- C library: an unsigned number in decimal (`%lld` for non-negative numbers). -/
def decimal (n : Nat) : Bytes :=
  if n < 10 then [UInt8.ofNat (48 + n)] else decimal (n / 10) ++ [UInt8.ofNat (48 + n % 10)]

/-- `SetHeader` with text (http_parser.cpp 473-477). -/
def setHeader (h : List (Bytes × Bytes)) (i v : Bytes) : List (Bytes × Bytes) := hset h (trim i) (trim v)

/-- `SetBody` (http_parser.cpp 413-416, with `SetHeader` 484-489). -/
def setBody (p : Parser) (s : Bytes) : Parser :=
  { p with body := s, headers := hset p.headers (trim sContentLength) (decimal s.length) }

/-- Header lines of a request (http_parser.cpp 157-161). -/
def fieldsReq (h : List (Bytes × Bytes)) : Bytes :=
  h.flatMap (fun e => if e.1 ≠ [] ∧ e.2 ≠ [] then e.1 ++ [58, 32] ++ e.2 ++ crlf else [])

/-- Header lines of a response (http_parser.cpp 226-232 and 260-267): "Content-Length: 0" is left
out. -/
def fieldsResp (h : List (Bytes × Bytes)) : Bytes :=
  h.flatMap (fun e => if (e.1 ≠ [] ∧ e.2 ≠ []) ∧ (e.1 ≠ sContentLength ∨ e.2 ≠ [48]) then
    e.1 ++ [58, 32] ++ e.2 ++ crlf else [])

/-- Lines 151, 224, 257: the protocol is replaced unless its fifth byte is '/'. -/
def sendProtocol (proto : Bytes) : Bytes := if proto[4]? = some 47 then proto else sHttp10

/-- "/:=@[]" (http_parser.cpp 153). -/
def urlIgnore : Bytes := [47, 58, 61, 64, 91, 93]

/-- `BuildRequest` (http_parser.cpp 148-164). -/
def buildRequest (p : Parser) : Bytes :=
  p.method ++ [32] ++ Enc.urlEncode urlIgnore false p.url ++
  (if ¬ (p.method = sPOST ∧ getHeader p.headers sContentType = sForm) ∧ p.vars ≠ [] ∧ findChar 63 p.url = none then
    Query.argStr p.vars true else []) ++
  [32] ++ sendProtocol p.protocol ++ crlf ++ fieldsReq p.headers ++ crlf ++ p.body

/-- `BuildResponse` and `SendResponse` (http_parser.cpp 221-237, 253-271). -/
def buildResponse (p : Parser) (code message : Bytes) : Bytes :=
  sendProtocol p.protocol ++ [32] ++ code ++ [32] ++ message ++ crlf ++ fieldsResp p.headers ++ crlf ++ p.body

/-- The hexadecimal length of a chunk (socket.cpp 1542-1548): up to eight digits; for a length of
2^32 or more the code would write before the buffer (outcome `none`). -/
def hexLen : Nat → Nat → Option Bytes
  | _, 0 => some []
  | 0, _ + 1 => none
  | k + 1, n + 1 => (hexLen k ((n + 1) / 16)).map
      (fun t => t ++ [if (n + 1) % 16 < 10 then UInt8.ofNat (48 + (n + 1) % 16) else UInt8.ofNat (87 + (n + 1) % 16)])

/-- `SendNow` in chunked mode (socket.cpp 1533-1555). -/
def sendChunk (d : Bytes) : Option Bytes :=
  if d = [] then some [48, 13, 10, 13, 10]
  else (hexLen 8 d.length).map (fun h => h ++ crlf ++ d ++ crlf)

/-- `StartResponse` without buffering to a request with protocol `reqProto` and header `Connection`
equal to `reqConn` (http_parser.cpp 279-308): whether chunks are sent, and the headers sent. The
Content-Range conversion (294-302) is modelled only for `headers` without "Content-Length". -/
def startHeaders (headers : List (Bytes × Bytes)) (chunks : Bool) : List (Bytes × Bytes) :=
  if chunks then setHeader headers sTransferEncoding sChunked
  else if (headers.lookup sContentLength).isSome then headers
  else setHeader headers [67, 111, 110, 110, 101, 99, 116, 105, 111, 110] [99, 108, 111, 115, 101]

end Verif.Http
