import Verif.Base.Bytes

/-!
# Model of network addresses (`/repo/lib/socket.cpp` 110-271, 383-421, 520-552, 2564-2566 and `/repo/lib/util.cpp` 604-614)

A `Socket::Address` keeps the bytes of a `sockaddr` in a `Util::ResizeablePointer`. Comparisons work on all of these bytes; the text only on the
family, the port and the bytes of the IP address.
-/
namespace Verif.Addr

/-- util.cpp 604-608: `ResizeablePointer::operator==`. The result of `memcmp` is used as a truth value. -/
def ptrEq (a b : Bytes) : Bool :=
  if a.length ≠ b.length then false
  else if a.length = 0 then true
  else decide (a ≠ b)

/-- `memcmp(a, b, n) < 0` for two regions of the same size. -/
def memLess : Bytes → Bytes → Bool
  | x :: a, y :: b => if x = y then memLess a b else decide (x < y)
  | _, _ => false

/-- util.cpp 610-614: `ResizeablePointer::operator<`. -/
def ptrLess (a b : Bytes) : Bool :=
  if a.length ≠ b.length then decide (a.length < b.length)
  else if a.length = 0 then false
  else memLess a b

/-- socket.cpp 231-233: `Address::operator<`. -/
def addrLess (a b : Bytes) : Bool := ptrLess a b

/-- socket.cpp 235-237: `Address::operator==`. -/
def addrEq (a b : Bytes) : Bool := decide (a.length ≠ 0) && decide (b.length ≠ 0) && ptrEq a b

/-- socket.cpp 2564-2566: `UDPConnection::equals`, for a socket with the local address `recv` and the remote address `dest`. -/
def sockEquals (recv dest remote loc : Bytes) : Bool := addrEq recv loc && addrEq dest remote

/-- The parts of a `sockaddr_in` or `sockaddr_in6` that are used. -/
structure Sock where
  six : Bool
  /-- as it is stored -/
  port : Nat
  /-- four or sixteen bytes -/
  ip : Bytes
deriving DecidableEq

/-- The start of an IPv4 address as IPv6 address. -/
def mapped : Bytes := [0, 0, 0, 0, 0, 0, 0, 0, 0, 0, 255, 255]

/-- socket.cpp 383-421: the pointer and the flag that `compareAddress` derives from one address. -/
def compared (a : Sock) : Bytes × Bool :=
  if a.six then (if a.ip.take 12 = mapped then (a.ip.drop 12, false) else (a.ip, true)) else (a.ip, false)

/-- socket.cpp 383-421: `compareAddress`, for two addresses of these families. -/
def compareAddress (a b : Sock) : Bool :=
  if a.port ≠ b.port then false
  else if (compared a).2 ≠ (compared b).2 then false
  else (compared a).1.take (if (compared a).2 then 16 else 4) == (compared b).1.take (if (compared a).2 then 16 else 4)

/-- socket.cpp 263-271: `binForm`. -/
def binForm (a : Sock) : Bytes := if a.six then a.ip else mapped ++ a.ip

/-- A digit. -/
def digit (n : Nat) : UInt8 := if n < 10 then UInt8.ofNat (48 + n) else UInt8.ofNat (87 + n)

/-- The digits of a number; the first argument bounds how many. -/
def numberLoop (b : Nat) : Nat → Nat → Bytes
  | 0, _ => []
  | k + 1, n => if n < b then [digit n] else numberLoop b k (n / b) ++ [digit (n % b)]

/-- A number as text, to the base `b`: `std::to_string`, `%hhu` or `std::hex`. -/
def number (b n : Nat) : Bytes := numberLoop b (n + 1) n

/-- socket.cpp 156-161, and `%hhu.%hhu.%hhu.%hhu`: four bytes as text. -/
def host4 (ip : Bytes) : Bytes :=
  number 10 (ip.getD 0 0).toNat ++ [46] ++ number 10 (ip.getD 1 0).toNat ++ [46] ++ number 10 (ip.getD 2 0).toNat ++ [46] ++ number 10 (ip.getD 3 0).toNat

/-- socket.cpp 178: `g[i]`. -/
def group (ip : Bytes) (i : Nat) : Nat := (ip.getD (2 * i) 0).toNat * 256 + (ip.getD (2 * i + 1) 0).toNat

/-- socket.cpp 171-190: the search for the first longest run of zeros. `zero i` says that `g[i]` is zero. -/
structure Run where
  len : Nat := 0
  start : Nat := 0
  cur : Nat := 0
  curStart : Nat := 0

/-- socket.cpp 181-189: one step of the loop. -/
def Run.step (r : Run) (i : Nat) (zero : Bool) : Run :=
  if zero then
    let curStart := if r.cur = 0 then i else r.curStart
    if r.cur + 1 > r.len then ⟨r.cur + 1, curStart, r.cur + 1, curStart⟩ else ⟨r.len, r.start, r.cur + 1, curStart⟩
  else { r with cur := 0 }

def Run.loop : Run → Nat → List Bool → Run
  | r, _, [] => r
  | r, i, z :: l => (r.step i z).loop (i + 1) l

/-- What is written: a colon or the text of `g[i]`. -/
inductive Token where
  | colon
  | group (i : Nat)
deriving DecidableEq

/-- socket.cpp 195-204: the loop that writes the groups; the first argument bounds the number of steps. -/
def write (r : Run) : Nat → Nat → List Token
  | 0, _ => []
  | k + 1, i =>
    if i < 8 then
      if r.len > 1 ∧ r.start = i then
        .colon :: ((if r.len > 7 then [.colon] else []) ++ write r k (i + (r.len - 1) + 1))
      else (if i = 0 then [] else [.colon]) ++ .group i :: write r k (i + 1)
    else []

/-- The text of a token. -/
def Token.text (ip : Bytes) : Token → Bytes
  | .colon => [58]
  | .group i => number 16 (Addr.group ip i)

/-- socket.cpp 162-207: `host` of an IPv6 address. -/
def host6 (ip : Bytes) : Bytes :=
  if ((List.range 5).all fun i => group ip i == 0) && group ip 5 == 0xffff then
    [58, 58, 102, 102, 102, 102, 58] ++ host4 (ip.drop 12)
  else (write (Run.loop {} 0 ((List.range 8).map fun i => group ip i == 0)) 9 0).flatMap (Token.text ip)

/-- socket.cpp 154-209: `Address::host`. -/
def host (a : Sock) : Bytes := if a.six then host6 a.ip else host4 a.ip

/-- `%.2x` of a byte. -/
def hex2 (b : UInt8) : Bytes := [digit (b.toNat / 16), digit (b.toNat % 16)]

/-- socket.cpp 542-546: eight groups of four digits. -/
def full (ip : Bytes) : Nat → Nat → Bytes
  | 0, _ => []
  | k + 1, i => (if i = 0 then [] else [58]) ++ hex2 (ip.getD (2 * i) 0) ++ hex2 (ip.getD (2 * i + 1) 0) ++ full ip k (i + 1)

/-- socket.cpp 520-552: `hostBytesToStr` for four or sixteen bytes. None of its texts is longer than the room for it. -/
def hostBytesToStr (b : Bytes) : Bytes :=
  if b.length = 4 then host4 b
  else if b.length = 16 then
    if b.take 15 = List.replicate 15 0 then
      if b.getD 15 0 = 0 then [58, 58] else [58, 58] ++ number 10 (b.getD 15 0).toNat
    else if b.take 12 = mapped then host4 (b.drop 12)
    else full b 8 0
  else [117, 110, 107, 110, 111, 119, 110]

end Verif.Addr
