import Verif.Api.Spec

/-!
# C78: who may use the API of the controller
-/
namespace Verif.Api
open Spec

variable {σ κ : Type} (hash : Bytes → Bytes) (exec : κ → Config σ → Config σ) (none_ : κ) (prom : Bytes)

/-! ## Single events -/

theorem check_iff (cfg : Config σ) (env : Env) (c : Cred) : check hash cfg env c = true ↔ Valid hash cfg.accounts env c := by
  unfold check Valid challenge
  by_cases hu : c.user = []
  · simp [hu]
  · simp only [hu, if_false, ne_eq, not_false_eq_true, true_and]
    cases cfg.accounts.lookup c.user with
    | none => simp
    | some stored =>
      simp only [Option.some.injEq]
      exact ⟨fun h => ⟨_, rfl, (eq_of_beq h).symm⟩, fun ⟨_, h1, h2⟩ => by rw [h1, h2]; exact beq_self_eq_true _⟩

theorem authorize_iff (cfg : Config σ) (env : Env) (a : Auth) : (authorize hash cfg env a).1 = true ↔ Valid hash cfg.accounts env a.cred := by
  rw [← check_iff]
  unfold authorize
  split
  · simp_all
  · split <;> simp_all

theorem socket_auth (cfg : Config σ) (conn : Conn) (env : Env) (a : Option Auth) (ms : Nat) (h : (socket hash cfg conn env a ms).2.1.authorized = true) :
    conn.authorized = true ∨ ∃ b, a = some b ∧ Valid hash cfg.accounts env b.cred := by
  by_cases hc : conn.authorized = true
  · exact Or.inl hc
  · right
    have h1 : (socketAuth hash cfg conn env a ms).2.authorized = true := by
      unfold socket subscribe at h
      simp only at h
      split at h <;> exact h
    unfold socketAuth at h1
    simp only [hc, if_false, Bool.false_eq_true] at h1
    cases a with
    | none => simp at h1
    | some b => exact ⟨b, rfl, (authorize_iff hash cfg env b).1 h1⟩

theorem socket_used (cfg : Config σ) (conn : Conn) (env : Env) (a : Option Auth) (ms : Nat) (h : (socket hash cfg conn env a ms).2.2 = .socket true) :
    (socket hash cfg conn env a ms).2.1.authorized = true := by
  unfold socket at h ⊢
  simp only at h ⊢
  generalize (socketAuth hash cfg conn env a ms).2 = c at h ⊢
  unfold subscribe at h ⊢
  by_cases hc : (c.closed || !c.authorized) = true
  · rw [if_pos hc] at h
    simp at h
  · rw [if_neg hc]
    simp at hc
    exact hc.2

theorem socket_done (cfg : Config σ) (conn : Conn) (env : Env) (a : Option Auth) (ms : Nat) : (socket hash cfg conn env a ms).2.2 ≠ .answered true := by
  unfold socket subscribe
  simp only
  split <;> simp

theorem header_auth (cfg : Config σ) (conn : Conn) (env : Env) (r : Request κ) (h : (headerAccess hash cfg conn env r).1.authorized = true) :
    conn.authorized = true ∨ ∃ a, r.header = some a ∧ Valid hash cfg.accounts env a.cred := by
  unfold headerAccess at h
  cases hr : r.header with
  | none => rw [hr] at h; exact Or.inl h
  | some a =>
    rw [hr] at h
    simp only at h
    split at h
    · exact Or.inl h
    · exact Or.inr ⟨a, rfl, (authorize_iff hash cfg env a).1 h⟩

theorem local_auth (conn : Conn) (env : Env) (r : Request κ) (h : (localAccess conn env r).authorized = true) :
    conn.authorized = true ∨ (env.isLocal = true ∧ r.forwarded = false) := by
  unfold localAccess at h
  split at h
  · rename_i hc
    simp at hc
    exact Or.inr ⟨hc.2, hc.1.2⟩
  · exact Or.inl h

theorem command_ran (cfg : Config σ) (conn : Conn) (env : Env) (b : Body κ) :
    ((command hash exec cfg conn env b).2.2 = .answered true ↔ conn.authorized = true ∨ Valid hash cfg.accounts env b.auth.cred) ∧
    ((command hash exec cfg conn env b).2.2 = .answered true → (command hash exec cfg conn env b).2.1.authorized = !b.logout) ∧
    ((command hash exec cfg conn env b).2.2 ≠ .answered true → (command hash exec cfg conn env b).2.1.authorized = false) ∧
    (command hash exec cfg conn env b).2.2 ≠ .socket true := by
  have ha := authorize_iff hash cfg env b.auth
  unfold command
  cases hc : conn.authorized with
  | true =>
    by_cases h0 : cfg.accounts = []
    · simp [h0]
    · simp [h0]
  | false =>
    cases h1 : (authorize hash cfg env b.auth).1 with
    | true => simp [ha.1 h1]
    | false =>
      have : ¬ Valid hash cfg.accounts env b.auth.cred := fun h => by rw [ha.2 h] at h1; cases h1
      simp [this]

/-- What an event may do to a connection. -/
theorem handle_auth (cfg : Config σ) (conn : Conn) (id : Nat) (env : Env) (ev : Event κ) :
    let r := handle hash exec none_ prom cfg conn env ev
    let x : Seen κ := ⟨id, cfg.accounts, env, ev, r.2.2⟩
    (r.2.1.authorized = true → (conn.authorized = true ∨ Shows hash x) ∧ ¬ LogsOut x) ∧ (Used x → conn.authorized = true ∨ Shows hash x) := by
  intro r x
  have hx : x.done = r.2.2 := rfl
  have hr : r = handle hash exec none_ prom cfg conn env ev := rfl
  unfold handle at hr
  by_cases hcl : conn.closed = true
  · rw [if_pos hcl] at hr
    have hd : x.done = .refused := by rw [hx, hr]
    refine ⟨fun h => ⟨Or.inl (by rw [hr] at h; exact h), ?_⟩, ?_⟩
    · rintro ⟨h, _⟩; rw [hd] at h; cases h
    · rintro (h | h) <;> (rw [hd] at h; cases h)
  rw [if_neg hcl] at hr
  cases ev with
  | auth a ms =>
    simp only at hr
    by_cases hw : conn.isWebSocket = true
    · rw [if_pos hw] at hr
      have key : r.2.1.authorized = true → conn.authorized = true ∨ Shows hash x := by
        intro h
        rw [hr] at h
        rcases socket_auth hash cfg conn env (some a) ms h with h | ⟨b, hb, hv⟩
        · exact Or.inl h
        · right
          cases hb
          exact hv
      refine ⟨fun h => ⟨key h, ?_⟩, ?_⟩
      · rintro ⟨_, r', b, he, _⟩; cases he
      · rintro (h | h)
        · rw [hx, hr] at h
          exact absurd h (socket_done hash cfg conn env (some a) ms)
        · apply key
          rw [hx, hr] at h
          rw [hr]
          exact socket_used hash cfg conn env (some a) ms h
    · rw [if_neg hw] at hr
      have hd : x.done = .refused := by rw [hx, hr]
      refine ⟨fun h => ⟨Or.inl (by rw [hr] at h; exact h), ?_⟩, ?_⟩
      · rintro ⟨h, _⟩; rw [hd] at h; cases h
      · rintro (h | h) <;> (rw [hd] at h; cases h)
  | other ms =>
    simp only at hr
    by_cases hw : conn.isWebSocket = true
    · rw [if_pos hw] at hr
      have key : r.2.1.authorized = true → conn.authorized = true ∨ Shows hash x := by
        intro h
        rw [hr] at h
        rcases socket_auth hash cfg conn env none ms h with h | ⟨b, hb, hv⟩
        · exact Or.inl h
        · cases hb
      refine ⟨fun h => ⟨key h, ?_⟩, ?_⟩
      · rintro ⟨_, r', b, he, _⟩; cases he
      · rintro (h | h)
        · rw [hx, hr] at h
          exact absurd h (socket_done hash cfg conn env none ms)
        · apply key
          rw [hx, hr] at h
          rw [hr]
          exact socket_used hash cfg conn env none ms h
    · rw [if_neg hw] at hr
      have hd : x.done = .refused := by rw [hx, hr]
      refine ⟨fun h => ⟨Or.inl (by rw [hr] at h; exact h), ?_⟩, ?_⟩
      · rintro ⟨h, _⟩; rw [hd] at h; cases h
      · rintro (h | h) <;> (rw [hd] at h; cases h)
  | http q =>
    simp only at hr
    by_cases hw : conn.isWebSocket = true
    · rw [if_pos hw] at hr
      have hd : x.done = .refused := by rw [hx, hr]
      refine ⟨fun h => ⟨Or.inl (by rw [hr] at h; exact h), ?_⟩, ?_⟩
      · rintro ⟨h, _⟩; rw [hd] at h; cases h
      · rintro (h | h) <;> (rw [hd] at h; cases h)
    rw [if_neg hw] at hr
    unfold request at hr
    simp only at hr
    -- authorized by address or header
    have hh : ∀ (h : (headerAccess hash cfg (localAccess conn env q) env q).1.authorized = true), conn.authorized = true ∨ Shows hash x := by
      intro h
      rcases header_auth hash cfg _ env q h with h | h
      · rcases local_auth conn env q h with h | h
        · exact Or.inl h
        · exact Or.inr (Or.inl h)
      · exact Or.inr (Or.inr (Or.inl h))
    generalize headerAccess hash cfg (localAccess conn env q) env q = hd at hr hh
    by_cases h2 : hd.2 = true
    · rw [if_pos h2] at hr
      have hdone : x.done = .refused := by rw [hx, hr]
      refine ⟨fun h => ⟨hh (by rw [hr] at h; exact h), ?_⟩, ?_⟩
      · rintro ⟨h, _⟩; rw [hdone] at h; cases h
      · rintro (h | h) <;> (rw [hdone] at h; cases h)
    rw [if_neg h2] at hr
    by_cases h3 : q.url = wsUrl
    · rw [if_pos h3] at hr
      have key : r.2.1.authorized = true → conn.authorized = true ∨ Shows hash x := by
        intro h
        rw [hr] at h
        rcases socket_auth hash cfg _ env none 0 h with h | ⟨b, hb, hv⟩
        · exact hh h
        · cases hb
      refine ⟨fun h => ⟨key h, ?_⟩, ?_⟩
      · rintro ⟨h, _⟩
        rw [hx, hr] at h
        exact socket_done hash cfg _ env none 0 h
      · rintro (h | h)
        · rw [hx, hr] at h
          exact absurd h (socket_done hash cfg _ env none 0)
        · apply key
          rw [hx, hr] at h
          rw [hr]
          exact socket_used hash cfg _ env none 0 h
    rw [if_neg h3] at hr
    by_cases h4 : isStats prom q.url = true
    · rw [if_pos h4] at hr
      have hdone : x.done = .stats := by rw [hx, hr]
      refine ⟨fun h => ⟨hh (by rw [hr] at h; exact h), ?_⟩, ?_⟩
      · rintro ⟨h, _⟩; rw [hdone] at h; cases h
      · rintro (h | h) <;> (rw [hdone] at h; cases h)
    rw [if_neg h4] at hr
    cases hb : q.body with
    | some b =>
      rw [hb] at hr
      simp only at hr
      obtain ⟨c1, c2, c3, c4⟩ := command_ran hash exec cfg hd.1 env b
      rw [← hr] at c1 c2 c3 c4
      have used : r.2.2 = .answered true → conn.authorized = true ∨ Shows hash x := by
        intro h
        rcases c1.1 h with h | h
        · exact hh h
        · exact Or.inr (Or.inr (Or.inr ⟨b, hb, h⟩))
      refine ⟨fun h => ?_, ?_⟩
      · by_cases hran : r.2.2 = .answered true
        · refine ⟨used hran, ?_⟩
          rintro ⟨_, q', b', he, hb', hl⟩
          have he' : Event.http q = Event.http q' := he
          cases he'
          rw [hb] at hb'
          cases hb'
          rw [c2 hran, hl] at h
          cases h
        · rw [c3 hran] at h
          cases h
      · rintro (h | h)
        · exact used h
        · exact absurd h c4
    | none =>
      rw [hb] at hr
      simp only at hr
      by_cases h5 : q.url = apiUrl ∨ q.url = api2Url
      · rw [if_pos h5] at hr
        obtain ⟨c1, c2, c3, c4⟩ := command_ran hash exec cfg hd.1 env ⟨noAuth, none_, false⟩
        rw [← hr] at c1 c2 c3 c4
        have used : r.2.2 = .answered true → conn.authorized = true ∨ Shows hash x := by
          intro h
          rcases c1.1 h with h | h
          · exact hh h
          · exact absurd rfl h.1
        refine ⟨fun h => ?_, ?_⟩
        · by_cases hran : r.2.2 = .answered true
          · refine ⟨used hran, ?_⟩
            rintro ⟨_, q', b', he, hb', hl⟩
            have he' : Event.http q = Event.http q' := he
            cases he'
            rw [hb] at hb'
            cases hb'
          · rw [c3 hran] at h
            cases h
        · rintro (h | h)
          · exact used h
          · exact absurd h c4
      · rw [if_neg h5] at hr
        have hdone : x.done = .page := by rw [hx, hr]
        refine ⟨fun h => ⟨hh (by rw [hr] at h; exact h), ?_⟩, ?_⟩
        · rintro ⟨h, _⟩; rw [hdone] at h; cases h
        · rintro (h | h) <;> (rw [hdone] at h; cases h)

/-! ## Runs -/

theorem LoggedIn.add {past : List (Seen κ)} {id : Nat} (h : LoggedIn hash past id) (x : Seen κ) (hx : x.id = id → ¬ LogsOut x) : LoggedIn hash (past ++ [x]) id := by
  obtain ⟨a, s, b, he, h1, h2, h3⟩ := h
  refine ⟨a, s, b ++ [x], by rw [he]; simp, h1, h2, ?_⟩
  intro y hy hid
  rw [← List.cons_append] at hy
  rcases List.mem_append.1 hy with hy | hy
  · exact h3 y hy hid
  · rw [List.mem_singleton.1 hy] at hid ⊢
    exact hx hid

theorem run_safe (s : Server σ) (past : List (Seen κ)) (hs : ∀ id, (s.conns id).authorized = true → LoggedIn hash past id)
    (evs : List (Nat × Env × Event κ)) (a : List (Seen κ)) (x : Seen κ) (b : List (Seen κ)) (he : (run hash exec none_ prom s evs).2 = a ++ x :: b) (hu : Used x) :
    Shows hash x ∨ LoggedIn hash (past ++ a) x.id := by
  induction evs generalizing s past a with
  | nil => simp [run] at he
  | cons e evs ih =>
    have hst := handle_auth hash exec none_ prom s.cfg (s.conns e.1) e.1 e.2.1 e.2.2
    simp only at hst
    have hrun : (run hash exec none_ prom s (e :: evs)).2 = (step hash exec none_ prom s e).2 :: (run hash exec none_ prom (step hash exec none_ prom s e).1 evs).2 := rfl
    rw [hrun] at he
    cases a with
    | nil =>
      obtain ⟨h1, _⟩ := List.cons.inj he
      subst h1
      rcases hst.2 hu with h | h
      · right
        rw [List.append_nil]
        exact hs _ h
      · exact Or.inl h
    | cons y a =>
      obtain ⟨h1, h2⟩ := List.cons.inj he
      subst h1
      have := ih (step hash exec none_ prom s e).1 (past ++ [(step hash exec none_ prom s e).2]) ?_ a h2
      · rw [List.append_assoc] at this
        exact this
      · intro id hid
        by_cases h3 : id = e.1
        · have hid' : (handle hash exec none_ prom s.cfg (s.conns e.1) e.2.1 e.2.2).2.1.authorized = true := by
            have : ((step hash exec none_ prom s e).1.conns id) = (handle hash exec none_ prom s.cfg (s.conns e.1) e.2.1 e.2.2).2.1 := by
              simp [step, h3]
            rw [this] at hid
            exact hid
          obtain ⟨h4, h5⟩ := hst.1 hid'
          rcases h4 with h4 | h4
          · have := hs e.1 h4
            rw [h3]
            exact LoggedIn.add hash this _ (fun _ => h5)
          · refine ⟨past, _, [], rfl, h3.symm, h4, ?_⟩
            intro y hy _
            rw [List.mem_singleton.1 hy]
            exact h5
        · have : ((step hash exec none_ prom s e).1.conns id) = s.conns id := by simp [step, h3]
          rw [this] at hid
          exact LoggedIn.add hash (hs id hid) _ (fun h => absurd h.symm h3)

/-- C78, nobody else: whatever happens on any number of connections, commands are run and subscriptions are made only for an event
that shows that its sender may use the API, or on a connection on which such an event came before and no logout since. -/
theorem C78_safe (cfg : Config σ) (evs : List (Nat × Env × Event κ)) (a : List (Seen κ)) (x : Seen κ) (b : List (Seen κ))
    (he : (run hash exec none_ prom (fresh cfg) evs).2 = a ++ x :: b) (hu : Used x) : Shows hash x ∨ LoggedIn hash a x.id := by
  have := run_safe hash exec none_ prom (fresh cfg) [] (fun id h => by cases h) evs a x b he hu
  simpa using this

/-- C78, accounts: they only change by commands that are run, and when there is none: then anyone can make the first one. -/
theorem C78_accounts (s : Server σ) (e : Nat × Env × Event κ) :
    (step hash exec none_ prom s e).1.cfg.accounts = s.cfg.accounts ∨ (step hash exec none_ prom s e).2.done = .answered true ∨
    (s.cfg.accounts = [] ∧ ∃ user password, user ≠ [] ∧ password ≠ [] ∧ (step hash exec none_ prom s e).1.cfg.accounts = [(user, hash password)]) := by
  have auth : ∀ (env : Env) (a : Auth), (authorize hash s.cfg env a).2.accounts = s.cfg.accounts ∨
      (s.cfg.accounts = [] ∧ ∃ user password, user ≠ [] ∧ password ≠ [] ∧ (authorize hash s.cfg env a).2.accounts = [(user, hash password)]) := by
    intro env a
    unfold authorize
    split
    · exact Or.inl rfl
    · split
      · rename_i h
        exact Or.inr ⟨h.1, a.newUser, a.newPass, h.2.1, h.2.2, rfl⟩
      · exact Or.inl rfl
  have sock : ∀ (conn : Conn) (env : Env) (a : Option Auth) (ms : Nat), (socket hash s.cfg conn env a ms).1.accounts = s.cfg.accounts ∨
      (s.cfg.accounts = [] ∧ ∃ user password, user ≠ [] ∧ password ≠ [] ∧ (socket hash s.cfg conn env a ms).1.accounts = [(user, hash password)]) := by
    intro conn env a ms
    unfold socket socketAuth
    simp only
    split
    · exact Or.inl rfl
    · cases a with
      | none => exact Or.inl rfl
      | some a => exact auth env a
  have comm : ∀ (conn : Conn) (env : Env) (b : Body κ), (command hash exec s.cfg conn env b).1.accounts = s.cfg.accounts ∨
      (command hash exec s.cfg conn env b).2.2 = .answered true ∨
      (s.cfg.accounts = [] ∧ ∃ user password, user ≠ [] ∧ password ≠ [] ∧ (command hash exec s.cfg conn env b).1.accounts = [(user, hash password)]) := by
    intro conn env b
    unfold command
    by_cases h : (conn.authorized && !decide (s.cfg.accounts = [])) = true
    · rw [if_pos h]
      simp
    · rw [if_neg h]
      simp only
      split
      · exact Or.inr (Or.inl rfl)
      · rcases auth env b.auth with h | h
        · exact Or.inl h
        · exact Or.inr (Or.inr h)
  show (handle hash exec none_ prom s.cfg (s.conns e.1) e.2.1 e.2.2).1.accounts = _ ∨ (handle hash exec none_ prom s.cfg (s.conns e.1) e.2.1 e.2.2).2.2 = _ ∨ (_ ∧ ∃ user password, _ ∧ _ ∧ (handle hash exec none_ prom s.cfg (s.conns e.1) e.2.1 e.2.2).1.accounts = _)
  have skip : ∀ {p q : Prop}, p ∨ q → p ∨ False ∨ q := by
    intro p q h
    rcases h with h | h
    · exact Or.inl h
    · exact Or.inr (Or.inr h)
  unfold handle
  split
  · exact Or.inl rfl
  cases e.2.2 with
  | auth a ms =>
    simp only
    split
    · rcases sock (s.conns e.1) e.2.1 (some a) ms with h | h
      · exact Or.inl h
      · exact Or.inr (Or.inr h)
    · exact Or.inl rfl
  | other ms =>
    simp only
    split
    · rcases sock (s.conns e.1) e.2.1 none ms with h | h
      · exact Or.inl h
      · exact Or.inr (Or.inr h)
    · exact Or.inl rfl
  | http q =>
    simp only
    split
    · exact Or.inl rfl
    unfold request
    simp only
    split
    · exact Or.inl rfl
    split
    · rcases sock { (headerAccess hash s.cfg (localAccess (s.conns e.1) e.2.1 q) e.2.1 q).1 with isWebSocket := true, wants := q.wants } e.2.1 none 0 with h | h
      · exact Or.inl h
      · exact Or.inr (Or.inr h)
    split
    · exact Or.inl rfl
    cases q.body with
    | some b => exact comm _ _ b
    | none =>
      simp only
      split
      · exact comm _ _ _
      · exact Or.inl rfl

/-! ## Those who may -/

/-- The requests the API answers, apart from those with a header of credentials: not for a websocket and not for statistics. -/
def Plain (prom : Bytes) (r : Request κ) (b : Body κ) : Prop := r.header = none ∧ r.url ≠ wsUrl ∧ isStats prom r.url = false ∧ r.body = some b

theorem request_plain (cfg : Config σ) (conn : Conn) (env : Env) (r : Request κ) (b : Body κ) (hp : Plain prom r b) :
    request hash exec none_ prom cfg conn env r = command hash exec cfg (localAccess conn env r) env b := by
  obtain ⟨h1, h2, h3, h4⟩ := hp
  unfold request headerAccess
  simp [h1, h2, h3, h4]

theorem handle_plain (cfg : Config σ) (conn : Conn) (env : Env) (r : Request κ) (b : Body κ) (hp : Plain prom r b) (ho : conn.closed = false)
    (hw : conn.isWebSocket = false) : handle hash exec none_ prom cfg conn env (.http r) = command hash exec cfg (localAccess conn env r) env b := by
  unfold handle
  simp [ho, hw, request_plain hash exec none_ prom cfg conn env r b hp]

/-- What is left of a storage when the commands start: at most the first account was made. -/
theorem command_exec (cfg : Config σ) (conn : Conn) (env : Env) (b : Body κ) (h : (command hash exec cfg conn env b).2.2 = .answered true) (ha : cfg.accounts ≠ []) :
    (command hash exec cfg conn env b).1 = exec b.commands cfg := by
  have hau : (authorize hash cfg env b.auth).2 = cfg := by
    unfold authorize
    split
    · rfl
    · split
      · rename_i h; exact absurd h.1 ha
      · rfl
  unfold command at h ⊢
  by_cases h1 : (conn.authorized && !decide (cfg.accounts = [])) = true
  · simp [h1]
  · simp only [h1, Bool.false_eq_true, if_false, hau] at h ⊢
    by_cases h2 : (conn.authorized || (authorize hash cfg env b.auth).1) = true
    · simp [h2]
    · simp [h2] at h

theorem local_open (conn : Conn) (env : Env) (r : Request κ) : (localAccess conn env r).closed = conn.closed ∧ (localAccess conn env r).isWebSocket = conn.isWebSocket := by
  unfold localAccess
  split <;> exact ⟨rfl, rfl⟩

theorem command_open (cfg : Config σ) (conn : Conn) (env : Env) (b : Body κ) : (command hash exec cfg conn env b).2.1.closed = conn.closed ∧
    (command hash exec cfg conn env b).2.1.isWebSocket = conn.isWebSocket := by
  unfold command
  simp only
  split <;> split <;> exact ⟨rfl, rfl⟩

/-- C78, those who may: a request that is local or has valid credentials is run, on any connection that is not a websocket and
whatever came before; its commands act on the storage as it was. -/
theorem C78_complete (s : Server σ) (id : Nat) (env : Env) (r : Request κ) (b : Body κ) (hp : Plain prom r b) (ho : (s.conns id).closed = false)
    (hw : (s.conns id).isWebSocket = false)
    (hs : (env.isLocal = true ∧ r.forwarded = false) ∨ Valid hash s.cfg.accounts env b.auth.cred) :
    (step hash exec none_ prom s (id, env, .http r)).2.done = .answered true ∧
    (s.cfg.accounts ≠ [] → (step hash exec none_ prom s (id, env, .http r)).1.cfg = exec b.commands s.cfg) := by
  have h1 := handle_plain hash exec none_ prom s.cfg (s.conns id) env r b hp ho hw
  have h2 : (command hash exec s.cfg (localAccess (s.conns id) env r) env b).2.2 = .answered true := by
    rw [(command_ran hash exec s.cfg (localAccess (s.conns id) env r) env b).1]
    rcases hs with hs | hs
    · left
      unfold localAccess
      cases hc : (s.conns id).authorized <;> simp [hs.1, hs.2, hc]
    · exact Or.inr hs
  refine ⟨?_, fun ha => ?_⟩
  · show (handle hash exec none_ prom s.cfg (s.conns id) env (.http r)).2.2 = _
    rw [h1]
    exact h2
  · show (handle hash exec none_ prom s.cfg (s.conns id) env (.http r)).1 = _
    rw [h1]
    exact command_exec hash exec s.cfg _ env b h2 ha

/-- C78, credentials in a header: on a connection that is not authorized, valid ones are enough for the request, and with wrong ones it is
refused even if there are valid ones in its body. -/
theorem C78_header (s : Server σ) (id : Nat) (env : Env) (r : Request κ) (a : Auth) (b : Body κ) (hh : r.header = some a) (hp : Plain prom { r with header := none } b)
    (ho : (s.conns id).closed = false) (hw : (s.conns id).isWebSocket = false) (hau : (s.conns id).authorized = false) (hl : (env.isLocal && !r.forwarded) = false)
    (hne : s.cfg.accounts ≠ []) :
    (Valid hash s.cfg.accounts env a.cred → (step hash exec none_ prom s (id, env, .http r)).2.done = .answered true) ∧
    (¬ Valid hash s.cfg.accounts env a.cred → (step hash exec none_ prom s (id, env, .http r)).2.done = .refused) := by
  obtain ⟨_, h2, h3, h4⟩ := hp
  have hloc : localAccess (s.conns id) env r = s.conns id := by
    unfold localAccess
    rw [if_neg]
    intro h
    rw [Bool.and_assoc, Bool.and_comm (!r.forwarded), hl, Bool.and_false] at h
    cases h
  have hha : headerAccess hash s.cfg (s.conns id) env r = ({ s.conns id with authorized := (authorize hash s.cfg env a).1 }, !(authorize hash s.cfg env a).1) := by
    unfold headerAccess
    rw [hh]
    simp [hau, hne]
  have hst : (step hash exec none_ prom s (id, env, .http r)).2.done = (request hash exec none_ prom s.cfg (s.conns id) env r).2.2 := by
    show (handle hash exec none_ prom s.cfg (s.conns id) env (.http r)).2.2 = _
    unfold handle
    simp [ho, hw]
  rw [hst]
  unfold request
  simp only [hloc, hha]
  refine ⟨fun hv => ?_, fun hv => ?_⟩
  · rw [(authorize_iff hash s.cfg env a).2 hv]
    simp only [Bool.not_true, Bool.false_eq_true, if_false]
    rw [if_neg h2, h3, h4]
    simp only [Bool.false_eq_true, if_false]
    exact (command_ran hash exec s.cfg _ env b).1.2 (Or.inl rfl)
  · have : (authorize hash s.cfg env a).1 = false := by
      cases h : (authorize hash s.cfg env a).1 with
      | false => rfl
      | true => exact absurd ((authorize_iff hash s.cfg env a).1 h) hv
    rw [this]
    rfl

/-- C78, credentials in a header are not looked at while there is no account, and not on an authorized connection. -/
theorem C78_header_ignored (s : Server σ) (id : Nat) (env : Env) (r : Request κ) (h : s.cfg.accounts = [] ∨ (s.conns id).authorized = true) :
    (step hash exec none_ prom s (id, env, .http r)).2.done = (step hash exec none_ prom s (id, env, .http { r with header := none })).2.done := by
  have key : headerAccess hash s.cfg (localAccess (s.conns id) env r) env r = (localAccess (s.conns id) env r, false) := by
    unfold headerAccess
    cases r.header with
    | none => rfl
    | some a =>
      simp only
      rw [if_pos]
      rcases h with h | h
      · simp [h]
      · have : (localAccess (s.conns id) env r).authorized = true := by
          unfold localAccess
          split
          · rfl
          · exact h
        simp [this]
  show (handle hash exec none_ prom s.cfg (s.conns id) env (.http r)).2.2 = (handle hash exec none_ prom s.cfg (s.conns id) env (.http { r with header := none })).2.2
  unfold handle request
  simp only [key]
  rfl

theorem run_other (s : Server σ) (id : Nat) (evs : List (Nat × Env × Event κ)) (h : ∀ e ∈ evs, e.1 ≠ id) : (run hash exec none_ prom s evs).1.conns id = s.conns id := by
  induction evs generalizing s with
  | nil => rfl
  | cons e evs ih =>
    have := ih (step hash exec none_ prom s e).1 (fun x hx => h x (List.mem_cons_of_mem _ hx))
    show (run hash exec none_ prom (step hash exec none_ prom s e).1 evs).1.conns id = _
    rw [this]
    simp [step, (h e List.mem_cons_self).symm]

/-- C78, logged in: after a request that was run and that was no logout, the next request on the connection is run too, wherever
it comes from, whatever happened on other connections meanwhile. -/
theorem C78_stays (s : Server σ) (id : Nat) (env env' : Env) (r r' : Request κ) (b b' : Body κ) (hp : Plain prom r b) (hp' : Plain prom r' b')
    (ho : (s.conns id).closed = false) (hw : (s.conns id).isWebSocket = false) (hl : b.logout = false)
    (mid : List (Nat × Env × Event κ)) (hm : ∀ e ∈ mid, e.1 ≠ id)
    (hran : (step hash exec none_ prom s (id, env, .http r)).2.done = .answered true) :
    (step hash exec none_ prom (run hash exec none_ prom s ((id, env, .http r) :: mid)).1 (id, env', .http r')).2.done = .answered true := by
  have h1 := handle_plain hash exec none_ prom s.cfg (s.conns id) env r b hp ho hw
  have hran' : (handle hash exec none_ prom s.cfg (s.conns id) env (.http r)).2.2 = .answered true := hran
  rw [h1] at hran'
  have hc : ((step hash exec none_ prom s (id, env, .http r)).1.conns id) = (command hash exec s.cfg (localAccess (s.conns id) env r) env b).2.1 := by
    show (if id = id then (handle hash exec none_ prom s.cfg (s.conns id) env (.http r)).2.1 else s.conns id) = _
    rw [if_pos rfl, h1]
  have hconn : (run hash exec none_ prom s ((id, env, .http r) :: mid)).1.conns id = (command hash exec s.cfg (localAccess (s.conns id) env r) env b).2.1 := by
    rw [← hc]
    exact run_other hash exec none_ prom _ id mid hm
  have hauth : ((run hash exec none_ prom s ((id, env, .http r) :: mid)).1.conns id).authorized = true := by
    rw [hconn, (command_ran hash exec s.cfg _ env b).2.1 hran', hl]
    rfl
  have hop := command_open hash exec s.cfg (localAccess (s.conns id) env r) env b
  have hlo := local_open (s.conns id) env r
  generalize hs' : (run hash exec none_ prom s ((id, env, .http r) :: mid)).1 = s' at *
  have h2 := handle_plain hash exec none_ prom s'.cfg (s'.conns id) env' r' b' hp' (by rw [hconn, hop.1, hlo.1, ho]) (by rw [hconn, hop.2, hlo.2, hw])
  show (handle hash exec none_ prom s'.cfg (s'.conns id) env' (.http r')).2.2 = _
  rw [h2, (command_ran hash exec s'.cfg (localAccess (s'.conns id) env' r') env' b').1]
  left
  unfold localAccess
  simp [hauth]

/-- C78, logout: after it the next request on the connection is only run if it is local or has valid credentials itself. -/
theorem C78_logout (s : Server σ) (id : Nat) (env env' : Env) (r r' : Request κ) (b b' : Body κ) (hp : Plain prom r b) (hp' : Plain prom r' b')
    (ho : (s.conns id).closed = false) (hw : (s.conns id).isWebSocket = false) (hl : b.logout = true)
    (mid : List (Nat × Env × Event κ)) (hm : ∀ e ∈ mid, e.1 ≠ id) :
    let s' := (run hash exec none_ prom s ((id, env, .http r) :: mid)).1
    (step hash exec none_ prom s' (id, env', .http r')).2.done = .answered true ↔
      (env'.isLocal = true ∧ r'.forwarded = false) ∨ Valid hash s'.cfg.accounts env' b'.auth.cred := by
  have h1 := handle_plain hash exec none_ prom s.cfg (s.conns id) env r b hp ho hw
  have hc : ((step hash exec none_ prom s (id, env, .http r)).1.conns id) = (command hash exec s.cfg (localAccess (s.conns id) env r) env b).2.1 := by
    show (if id = id then (handle hash exec none_ prom s.cfg (s.conns id) env (.http r)).2.1 else s.conns id) = _
    rw [if_pos rfl, h1]
  have hconn : (run hash exec none_ prom s ((id, env, .http r) :: mid)).1.conns id = (command hash exec s.cfg (localAccess (s.conns id) env r) env b).2.1 := by
    rw [← hc]
    exact run_other hash exec none_ prom _ id mid hm
  have hauth : ((run hash exec none_ prom s ((id, env, .http r) :: mid)).1.conns id).authorized = false := by
    rw [hconn]
    by_cases hran : (command hash exec s.cfg (localAccess (s.conns id) env r) env b).2.2 = .answered true
    · rw [(command_ran hash exec s.cfg _ env b).2.1 hran, hl]
      rfl
    · exact (command_ran hash exec s.cfg _ env b).2.2.1 hran
  have hop := command_open hash exec s.cfg (localAccess (s.conns id) env r) env b
  have hlo := local_open (s.conns id) env r
  intro s'
  have hs' : (run hash exec none_ prom s ((id, env, .http r) :: mid)).1 = s' := rfl
  rw [hs'] at hconn hauth
  clear_value s'
  have h2 := handle_plain hash exec none_ prom s'.cfg (s'.conns id) env' r' b' hp' (by rw [hconn, hop.1, hlo.1, ho]) (by rw [hconn, hop.2, hlo.2, hw])
  show (handle hash exec none_ prom s'.cfg (s'.conns id) env' (.http r')).2.2 = _ ↔ _
  rw [h2, (command_ran hash exec s'.cfg (localAccess (s'.conns id) env' r') env' b').1]
  apply or_congr _ Iff.rfl
  unfold localAccess
  cases h3 : env'.isLocal <;> cases h4 : r'.forwarded <;> simp [hauth]

/-! ## Where more is let in -/

/-- C78 fails behind a proxy on this machine: it keeps one connection for several clients, and once a request without a header of
the proxy came over it, forwarded requests of others are run without any credentials, however strong the accounts are. -/
theorem C78_forwarded_fails (cfg : Config σ) (env : Env) (henv : env.isLocal = true) (c1 c2 : κ) :
    ∃ (evs : List (Nat × Env × Event κ)) (a : List (Seen κ)) (x : Seen κ) (r : Request κ) (b : Body κ),
      (run hash exec none_ prom (fresh cfg) evs).2 = a ++ [x] ∧ x.event = .http r ∧ r.forwarded = true ∧ r.header = none ∧ r.body = some b ∧
      b.auth.cred = ⟨[], []⟩ ∧ b.commands = c2 ∧ x.done = .answered true := by
  have hstats : ∀ p : Bytes, isStats p apiUrl = true → isStats p api2Url = false := by
    intro p h
    cases p with
    | nil => simp [isStats] at h
    | cons x p =>
      simp only [isStats, apiUrl, api2Url] at h ⊢
      simp at h ⊢
      rcases h with h | h
      · obtain ⟨h1, h2⟩ := h
        subst h1; subst h2
        decide
      · exfalso
        have := congrArg List.length h.2
        simp at this
  -- a URL under which the API answers
  obtain ⟨url, hu1, hu2⟩ : ∃ url : Bytes, url ≠ wsUrl ∧ isStats prom url = false := by
    by_cases h : isStats prom apiUrl = true
    · exact ⟨api2Url, by decide, hstats prom h⟩
    · exact ⟨apiUrl, by decide, by simpa using h⟩
  let b1 : Body κ := ⟨noAuth, c1, false⟩
  let b2 : Body κ := ⟨noAuth, c2, false⟩
  let r1 : Request κ := ⟨false, none, url, some b1, false⟩
  let r2 : Request κ := ⟨true, none, url, some b2, false⟩
  have hp1 : Plain prom r1 b1 := ⟨rfl, hu1, hu2, rfl⟩
  have hp2 : Plain prom r2 b2 := ⟨rfl, hu1, hu2, rfl⟩
  have h1 := (C78_complete hash exec none_ prom (fresh cfg) 0 env r1 b1 hp1 rfl rfl (Or.inl ⟨henv, rfl⟩)).1
  have h2 := C78_stays hash exec none_ prom (fresh cfg) 0 env env r1 r2 b1 b2 hp1 hp2 rfl rfl rfl [] (by simp) h1
  exact ⟨[(0, env, .http r1), (0, env, .http r2)], [_], _, r2, b2, rfl, rfl, rfl, rfl, rfl, rfl, rfl, h2⟩

/-- C78 fails for the one use of an answer: what was accepted once is accepted again, on other connections, from the same
address on the same day, as long as the account is there. -/
theorem C78_replay_fails (s : Server σ) (id id' : Nat) (env : Env) (r : Request κ) (b : Body κ) (hp : Plain prom r b)
    (ho : (s.conns id).closed = false ∧ (s.conns id).isWebSocket = false) (ho' : (s.conns id').closed = false ∧ (s.conns id').isWebSocket = false)
    (hid : id' ≠ id) (hv : Valid hash s.cfg.accounts env b.auth.cred) (hk : (exec b.commands s.cfg).accounts = s.cfg.accounts) :
    (step hash exec none_ prom s (id, env, .http r)).2.done = .answered true ∧
    (step hash exec none_ prom (step hash exec none_ prom s (id, env, .http r)).1 (id', env, .http r)).2.done = .answered true := by
  have hne : s.cfg.accounts ≠ [] := by
    obtain ⟨_, st, h, _⟩ := hv
    intro hn
    rw [hn] at h
    simp at h
  have h1 := C78_complete hash exec none_ prom s id env r b hp ho.1 ho.2 (Or.inr hv)
  have hc : ((step hash exec none_ prom s (id, env, .http r)).1.conns id') = s.conns id' := by simp [step, hid]
  refine ⟨h1.1, ?_⟩
  refine (C78_complete hash exec none_ prom _ id' env r b hp (by rw [hc]; exact ho'.1) (by rw [hc]; exact ho'.2) (Or.inr ?_)).1
  rw [h1.2 hne, hk]
  exact hv

/-- C78 fails for the number of attempts: there is no end to them. After any number of refused requests on one connection, valid
credentials are accepted on it. -/
theorem C78_attempts_fails (n : Nat) (cfg : Config σ) (env : Env) (r r' : Request κ) (b b' : Body κ) (hp : Plain prom r b) (hp' : Plain prom r' b')
    (hne : cfg.accounts ≠ []) (henv : env.isLocal = false) (hbad : ¬ Valid hash cfg.accounts env b.auth.cred) (hgood : Valid hash cfg.accounts env b'.auth.cred) :
    let evs : List (Nat × Env × Event κ) := List.replicate n (0, env, .http r)
    (∀ x ∈ (run hash exec none_ prom (fresh cfg) evs).2, x.done = .answered false) ∧
    ((run hash exec none_ prom (fresh cfg) evs).1.conns 0).attempts = n ∧
    (step hash exec none_ prom (run hash exec none_ prom (fresh cfg) evs).1 (0, env, .http r')).2.done = .answered true := by
  intro evs
  -- a refused request only counts
  have one : ∀ conn : Conn, conn.authorized = false → conn.closed = false → conn.isWebSocket = false →
      handle hash exec none_ prom cfg conn env (.http r) = (cfg, { conn with attempts := conn.attempts + 1 }, .answered false) := by
    intro conn h1 h2 h3
    rw [handle_plain hash exec none_ prom cfg conn env r b hp h2 h3]
    have hl : localAccess conn env r = conn := by unfold localAccess; simp [henv]
    have ha : (authorize hash cfg env b.auth).1 = false := by
      cases h : (authorize hash cfg env b.auth).1 with
      | false => rfl
      | true => exact absurd ((authorize_iff hash cfg env b.auth).1 h) hbad
    have ha2 : (authorize hash cfg env b.auth).2 = cfg := by
      unfold authorize
      split
      · rfl
      · split
        · rename_i h; exact absurd h.1 hne
        · rfl
    rw [hl]
    unfold command
    simp [h1, ha, ha2]
  have all : ∀ (m : Nat) (s : Server σ), s.cfg = cfg → (s.conns 0).authorized = false → (s.conns 0).closed = false → (s.conns 0).isWebSocket = false →
      (∀ x ∈ (run hash exec none_ prom s (List.replicate m (0, env, .http r))).2, x.done = .answered false) ∧
      (run hash exec none_ prom s (List.replicate m (0, env, .http r))).1.cfg = cfg ∧
      (run hash exec none_ prom s (List.replicate m (0, env, .http r))).1.conns 0 = { s.conns 0 with attempts := (s.conns 0).attempts + m } := by
    intro m
    induction m with
    | zero => intro s hs _ _ _; exact ⟨fun x hx => by simp [run] at hx, hs, rfl⟩
    | succ m ih =>
      intro s hs h1 h2 h3
      have ho := one (s.conns 0) h1 h2 h3
      rw [← hs] at ho
      have hst : step hash exec none_ prom s (0, env, .http r) = (⟨cfg, fun i => if i = 0 then { s.conns 0 with attempts := (s.conns 0).attempts + 1 } else s.conns i⟩,
          ⟨0, s.cfg.accounts, env, .http r, .answered false⟩) := by
        unfold step
        simp only [ho]
        rw [hs]
      obtain ⟨i1, i2, i3⟩ := ih (step hash exec none_ prom s (0, env, .http r)).1 (by rw [hst]) (by rw [hst]; exact h1) (by rw [hst]; exact h2) (by rw [hst]; exact h3)
      rw [List.replicate_succ]
      refine ⟨?_, i2, ?_⟩
      · intro x hx
        rcases List.mem_cons.1 hx with hx | hx
        · rw [hx, hst]
        · exact i1 x hx
      · show (run hash exec none_ prom (step hash exec none_ prom s (0, env, .http r)).1 (List.replicate m (0, env, .http r))).1.conns 0 = _
        rw [i3, hst]
        simp only [if_true]
        congr 1
        omega
  obtain ⟨a1, a2, a3⟩ := all n (fresh cfg) rfl rfl rfl rfl
  refine ⟨a1, by rw [a3]; simp [fresh, Conn.new], ?_⟩
  exact (C78_complete hash exec none_ prom _ 0 env r' b' hp' (by rw [a3]; rfl) (by rw [a3]; rfl) (Or.inr (by rw [a2]; exact hgood))).1

/-! ## Not empty -/

/-- A server with an account; the hash is taken as the reversal here. -/
private def cfg0 : Config Nat := ⟨[([97], [1, 2])], 0⟩
private def far : Env := ⟨false, [9], [8]⟩
private def good : Auth := ⟨⟨[97], ([1, 2] ++ ([8, 9] : Bytes).reverse).reverse⟩, [], []⟩
private def bad : Auth := ⟨⟨[97], [5]⟩, [98], [98]⟩
private def req (a : Auth) (out : Bool) : Request Nat := ⟨false, none, apiUrl, some ⟨a, 7, out⟩, false⟩
private def add : Nat → Config Nat → Config Nat := fun k c => ⟨c.accounts, c.rest + k⟩

/-- Wrong, then right, then none, then logout, then none: refused, run, run, run, refused; other connections stay out. -/
example : ((run List.reverse add 0 [] (fresh cfg0) [(0, far, .http (req bad false)), (0, far, .http (req good false)), (1, far, .http (req noAuth false)),
    (0, far, .http (req noAuth false)), (0, far, .http (req noAuth true)), (0, far, .http (req noAuth false))]).2.map Seen.done) =
    [.answered false, .answered true, .answered false, .answered true, .answered true, .answered false] := by decide +kernel

/-- A websocket: nothing before `auth`, the subscription after it. -/
example : ((run List.reverse add 0 [] (fresh cfg0) [(0, far, .http ⟨false, none, wsUrl, none, true⟩), (0, far, .other 5), (0, far, .auth bad 6), (0, far, .auth good 7)]).2.map Seen.done) =
    [.socket false, .socket false, .socket false, .socket true] := by decide +kernel

/-- Too late on a websocket. -/
example : ((run List.reverse add 0 [] (fresh cfg0) [(0, far, .http ⟨false, none, wsUrl, none, true⟩), (0, far, .other 10001), (0, far, .auth good 10002)]).2.map Seen.done) =
    [.socket false, .socket false, .refused] := by decide +kernel

example : Plain (κ := Nat) [] (req good false) ⟨good, 7, false⟩ ∧ Valid List.reverse cfg0.accounts far good.cred ∧ ¬ Valid List.reverse cfg0.accounts far bad.cred := by
  refine ⟨⟨rfl, by decide, rfl, rfl⟩, ⟨by decide, [1, 2], by decide, by decide⟩, ?_⟩
  rintro ⟨_, st, h1, h2⟩
  have : ([1, 2] : Bytes) = st := by
    have h3 : ([([97], [1, 2])] : List (Bytes × Bytes)).lookup [97] = some st := h1
    simpa using h3
  subst this
  exact absurd h2 (by decide)

end Verif.Api
