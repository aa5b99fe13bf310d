import Verif.Base.Strings

/-!
# Model of access to the API of the controller (`/repo/src/controller/controller_api.cpp`)

Connections, their requests and websocket frames, and the accounts in the storage.

Simplifications: the fields of requests are what `asString` gives for them. The hash and what the commands do are parameters.
Connections are handled one event at a time (all of this runs in one thread). Builds with `NOAUTH` are left out, and so is the
shutdown of the controller. Data that subscribers get later is not modelled, only that they are registered.
-/
namespace Verif.Api

/-- A user name with the answer to the challenge: `username` and `password` of an `authorize` object. -/
structure Cred where
  user : Bytes
  pass : Bytes

/-- An `authorize` object, also with `new_username` and `new_password`. -/
structure Auth where
  cred : Cred
  newUser : Bytes
  newPass : Bytes

/-- The storage: accounts with stored passwords, and the rest. -/
structure Config (σ : Type) where
  accounts : List (Bytes × Bytes)
  rest : σ

/-- What is known about the other side: whether its address is local, its address, and the date here (124-128). -/
structure Env where
  isLocal : Bool
  host : Bytes
  date : Bytes

/-- A request object: its `authorize` member, the commands in it, and whether it has the member `logout`. -/
structure Body (κ : Type) where
  auth : Auth
  commands : κ
  logout : Bool

/-- An HTTP request: whether it has a header of a proxy (`X-Forwarded-For`, `X-Real-IP`), the `authorize` object in an
`Authorization: json ` header, its URL, the request object (none: what was sent is not an object), and whether it has
arguments of a subscription. -/
structure Request (κ : Type) where
  forwarded : Bool
  header : Option Auth
  url : Bytes
  body : Option (Body κ)
  wants : Bool

/-- What can happen on a connection: a request; or on a websocket a text frame with an `auth` command, or anything else (also
nothing); with the time passed since the connection was made a websocket. (A frame that is not text is ignored
without a look at the time, 357; that it comes with any time is left out.) -/
inductive Event (κ : Type) where
  | http (r : Request κ)
  | auth (a : Auth) (ms : Nat)
  | other (ms : Nat)

/-- 81-88: the state of a connection. `wants`: there are arguments of a subscription that were not handled yet. -/
structure Conn where
  authorized : Bool
  isLocal : Bool
  isWebSocket : Bool
  attempts : Nat
  wants : Bool
  closed : Bool

/-- 80-88: a new connection. -/
def Conn.new : Conn := ⟨false, false, false, 0, false, false⟩

/-- What was done: refused with a challenge, the web interface, statistics, answered with or without commands run, a websocket
opened or handled, with or without a subscription. -/
inductive Done where
  | refused
  | page
  | stats
  | answered (ran : Bool)
  | socket (subscribed : Bool)
  deriving DecidableEq

section
variable {σ κ : Type} (hash : Bytes → Bytes) (exec : κ → Config σ → Config σ)

/-- 122-129: `getChallenge`. -/
def challenge (env : Env) : Bytes := hash (env.date ++ env.host)

/-- 218-231: the credentials are checked. -/
def check (cfg : Config σ) (env : Env) (c : Cred) : Bool :=
  if c.user = [] then false
  else
    match cfg.accounts.lookup c.user with
    | none => false
    | some stored => hash (stored ++ challenge hash env) == c.pass

/-- 215-251: `authorize`: whether access is given, and the storage, in which the first account may have been made. -/
def authorize (cfg : Config σ) (env : Env) (a : Auth) : Bool × Config σ :=
  if check hash cfg env a.cred then (true, cfg)
  else if cfg.accounts = [] ∧ a.newUser ≠ [] ∧ a.newPass ≠ [] then (false, { cfg with accounts := [(a.newUser, hash a.newPass)] })
  else (false, cfg)

/-- 352-378: a websocket that is not authorized only takes `auth` commands, and for ten seconds. -/
def socketAuth (cfg : Config σ) (conn : Conn) (env : Env) (a : Option Auth) (ms : Nat) : Config σ × Conn :=
  if conn.authorized then (cfg, conn)
  else
    let r := match a with
      | none => (false, cfg)
      | some a => authorize hash cfg env a
    (r.2, { conn with authorized := r.1, closed := decide (ms > 10000) })

/-- 379-486: subscriptions are handled once the connection is authorized; other frames are ignored. -/
def subscribe (conn : Conn) : Conn × Done :=
  if conn.closed || !conn.authorized then (conn, .socket false)
  else ({ conn with wants := false }, .socket conn.wants)

/-- 317-486: `handleWebSocket`, for an open websocket. -/
def socket (cfg : Config σ) (conn : Conn) (env : Env) (a : Option Auth) (ms : Nat) : Config σ × Conn × Done :=
  let r := socketAuth hash cfg conn env a ms
  (r.1, subscribe r.2)

/-- 498-503: local connections are authorized, unless the request was forwarded. -/
def localAccess (conn : Conn) (env : Env) (r : Request κ) : Conn :=
  if !conn.authorized && !r.forwarded && env.isLocal then { conn with isLocal := true, authorized := true } else conn

/-- 508-530: credentials in a header; the second part tells that the request was refused. The first account is not made here,
because there is one (514). -/
def headerAccess (cfg : Config σ) (conn : Conn) (env : Env) (r : Request κ) : Conn × Bool :=
  match r.header with
  | none => (conn, false)
  | some a =>
    if conn.authorized || decide (cfg.accounts = []) then (conn, false)
    else ({ conn with authorized := (authorize hash cfg env a).1 }, !(authorize hash cfg env a).1)

/-- "/ws". -/
def wsUrl : Bytes := [47, 119, 115]

/-- "/api". -/
def apiUrl : Bytes := [47, 97, 112, 105]

/-- "/api2". -/
def api2Url : Bytes := [47, 97, 112, 105, 50]

/-- 537-548: requests for statistics; `prom` is the configured path. -/
def isStats (prom url : Bytes) : Bool :=
  !prom.isEmpty && (url == 47 :: prom || url.take (prom.length + 6) == 47 :: (prom ++ [46, 106, 115, 111, 110]))

/-- An `authorize` object without members. -/
def noAuth : Auth := ⟨⟨[], []⟩, [], []⟩

/-- 566-580: a request object. -/
def command (cfg : Config σ) (conn : Conn) (env : Env) (b : Body κ) : Config σ × Conn × Done :=
  let r := if conn.authorized && !decide (cfg.accounts = []) then (true, cfg)
    else (conn.authorized || (authorize hash cfg env b.auth).1, (authorize hash cfg env b.auth).2)
  if r.1 then (exec b.commands r.2, { conn with authorized := !b.logout, attempts := if b.logout then conn.attempts + 1 else conn.attempts }, .answered true)
  else (r.2, { conn with authorized := false, attempts := conn.attempts + 1 }, .answered false)

/-- 496-595: one request. What is not an object counts as an empty one under the URLs of the API; `none` for its commands. -/
def request (none_ : κ) (prom : Bytes) (cfg : Config σ) (conn0 : Conn) (env : Env) (r : Request κ) : Config σ × Conn × Done :=
  let h := headerAccess hash cfg (localAccess conn0 env r) env r
  if h.2 then (cfg, h.1, .refused)
  else if r.url = wsUrl then
    socket hash cfg { h.1 with isWebSocket := true, wants := r.wants } env none 0
  else if isStats prom r.url then (cfg, h.1, .stats)
  else
    match r.body with
    | some b => command hash exec cfg h.1 env b
    | none =>
      if r.url = apiUrl ∨ r.url = api2Url then command hash exec cfg h.1 env ⟨noAuth, none_, false⟩
      else (cfg, h.1, .page)

/-- 489-597: `handleAPIConnection`: an event on a connection. Requests cannot come over a websocket, nor frames otherwise;
nothing happens on closed connections. -/
def handle (none_ : κ) (prom : Bytes) (cfg : Config σ) (conn : Conn) (env : Env) (ev : Event κ) : Config σ × Conn × Done :=
  if conn.closed then (cfg, conn, .refused)
  else
    match ev with
    | .http r => if conn.isWebSocket then (cfg, conn, .refused) else request hash exec none_ prom cfg conn env r
    | .auth a ms => if conn.isWebSocket then socket hash cfg conn env (some a) ms else (cfg, conn, .refused)
    | .other ms => if conn.isWebSocket then socket hash cfg conn env none ms else (cfg, conn, .refused)

end

end Verif.Api
