import Verif.Api.Model

/-!
# Who may use the API
-/
namespace Verif.Api.Spec

variable {σ κ : Type}

/-- The server: its storage and its connections. -/
structure Server (σ : Type) where
  cfg : Config σ
  conns : Nat → Conn

/-- Something that happened: on which connection, with which accounts at the time, from where, what it was and what was done. -/
structure Seen (κ : Type) where
  id : Nat
  accounts : List (Bytes × Bytes)
  env : Env
  event : Event κ
  done : Done

/-- Credentials are valid: there is an account of this name, and the answer is the hash of its stored password and of the
challenge, which is the hash of the date and the address. -/
def Valid (hash : Bytes → Bytes) (accounts : List (Bytes × Bytes)) (env : Env) (c : Cred) : Prop :=
  c.user ≠ [] ∧ ∃ stored, accounts.lookup c.user = some stored ∧ c.pass = hash (stored ++ hash (env.date ++ env.host))

/-- An event shows that its sender may use the API: it is a request from this machine that was not forwarded, or there are valid
credentials in it. -/
def Shows (hash : Bytes → Bytes) (x : Seen κ) : Prop :=
  match x.event with
  | .http r => (x.env.isLocal = true ∧ r.forwarded = false) ∨ (∃ a, r.header = some a ∧ Valid hash x.accounts x.env a.cred) ∨
      (∃ b, r.body = some b ∧ Valid hash x.accounts x.env b.auth.cred)
  | .auth a _ => Valid hash x.accounts x.env a.cred
  | .other _ => False

/-- The sender logged out. -/
def LogsOut (x : Seen κ) : Prop := x.done = .answered true ∧ ∃ r b, x.event = .http r ∧ r.body = some b ∧ b.logout = true

/-- Something was done that only some may do: commands were run, or a subscription was made. -/
def Used (x : Seen κ) : Prop := x.done = .answered true ∨ x.done = .socket true

/-- The connection was opened by a valid login (or locally), and there was no logout since. -/
def LoggedIn (hash : Bytes → Bytes) (past : List (Seen κ)) (id : Nat) : Prop :=
  ∃ a s b, past = a ++ s :: b ∧ s.id = id ∧ Shows hash s ∧ ∀ y ∈ s :: b, y.id = id → ¬ LogsOut y

/-- A run of the server: events on connections. -/
def step (hash : Bytes → Bytes) (exec : κ → Config σ → Config σ) (none_ : κ) (prom : Bytes) (s : Server σ) (x : Nat × Env × Event κ) : Server σ × Seen κ :=
  let r := handle hash exec none_ prom s.cfg (s.conns x.1) x.2.1 x.2.2
  (⟨r.1, fun i => if i = x.1 then r.2.1 else s.conns i⟩, ⟨x.1, s.cfg.accounts, x.2.1, x.2.2, r.2.2⟩)

/-- All that was seen in a run, and the server after it. -/
def run (hash : Bytes → Bytes) (exec : κ → Config σ → Config σ) (none_ : κ) (prom : Bytes) : Server σ → List (Nat × Env × Event κ) → Server σ × List (Seen κ)
  | s, [] => (s, [])
  | s, x :: xs =>
    let r := run hash exec none_ prom (step hash exec none_ prom s x).1 xs
    (r.1, (step hash exec none_ prom s x).2 :: r.2)

/-- A server without connections so far. -/
def fresh (cfg : Config σ) : Server σ := ⟨cfg, fun _ => Conn.new⟩

end Verif.Api.Spec
