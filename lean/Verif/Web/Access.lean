import Verif.Common
set_option linter.unusedSimpArgs false
set_option linter.unusedVariables false
/-!
# C90, C91: who may use the web interface
(libcs/server/web/web.go:147-223 `setRoutes`, 305-332 `isFirstStart`, `getTempKey`; libcs/server/web/api/api.go;
libcs/web/server/middleware/jwt.go, libcs/web/server/util/jwt.go, libcs/web/server/tokenManager.go; libcs/client/web/* likewise)

Strings are numbers, 0 is the empty string. Time is in whole seconds, as in the claims of a token.

Signatures are ideal: a token is accepted only if some process of this history issued it, with the key the middleware uses
(`Tok` records the key; two tokens with the same claims and key are the same string, as JWTs are deterministic).
One configuration file: the one the process is started with (other paths: `Verif.Config.Merge`).
-/
namespace Verif.Web.Access

/-- A token: the key it is signed with, the user name and the expiry among its claims (libcs/web/server/util/jwt.go:30-46). -/
structure Tok where
  key : Nat
  user : Nat
  exp : Nat
deriving DecidableEq, Repr

/-- The web options `Admin`, `Password`, `SigningKey`, `EnablePprof` (libcs/client/config.go:90-93, libcs/server/config.go:98-101): none
of them is part of the JSON of a configuration. In a file 0 means that the option is absent. -/
structure Creds where
  admin : Nat
  password : Nat
  key : Nat
  pprof : Bool
deriving DecidableEq, Repr

/-- libcs/web/server/tokenManager.go:10-15 `TempKeyDetails`, with its key. -/
structure Temp where
  id : Nat
  until_ : Nat
  used : Nat
  tok : Tok
deriving DecidableEq, Repr

structure St where
  now : Nat
  /-- the running configuration -/
  run : Creds
  /-- what `setRoutes` captured: the key of the middleware, whether pprof is served -/
  mwKey : Nat
  mwPprof : Bool
  temp : Option Temp
  file : Option Creds
  /-- all tokens that were ever signed -/
  issued : List Tok
deriving DecidableEq, Repr

/-- The endpoints behind the middleware (libcs/server/web/web.go:160-194). -/
inductive Endpoint where
  | change (user password : Nat) (pprof : Bool)
  | info | running | fromFile
  | save (bindOk : Bool)
  | sysInfo | restart | stop | kill | list | menu
deriving DecidableEq, Repr

inductive Req where
  | login (user password : Nat)
  | health
  | verify (key : Nat)
  | static
  | pprof
  /-- a request to an endpoint under `/api` with the header `x-token` -/
  | api (e : Endpoint) (tok : Option Tok)
deriving DecidableEq, Repr

inductive Resp where
  | page | healthy | profile
  | token (t : Tok)
  | invalidKey | invalidToken | fail
  /-- the answer of a protected endpoint that hands out or does something -/
  | served (e : Endpoint)
  | userInfo (admin password : Nat)
deriving DecidableEq, Repr

/-- libcs/web/server/util/jwt.go:30-46, 62-70 `GenerateToken`; libcs/predef/const.go:41: 30 minutes. -/
def mkTok (s : St) (user : Nat) : Tok := { key := s.run.key, user := user, exp := s.now + 1800 }

/-- libcs/web/server/middleware/jwt.go:10-28 and `ParseToken` (libcs/web/server/util/jwt.go:48-60): the signature and the expiry, nothing else. -/
def accepts (s : St) (t : Tok) : Bool := decide (t ∈ s.issued ∧ t.key = s.mwKey ∧ s.now < t.exp)

/-- libcs/server/web/service/service.go:241-252 `InheritConfig`: the file, if it can be read, else the running configuration. -/
def inherit (s : St) : Creds := s.file.getD s.run

/-- The handlers behind the middleware. `ioOk`: writing the file, starting the `gt -s …` process or reading the system
information succeeds. libcs/server/web/api/api.go:55-77 `ChangeUserInfo` (both fields are required: request/user.go), 79-97 `GetUserInfo` (the
running configuration in all cases), 159-184 `SaveConfigToFile`, 186-211 `Restart`, `Stop`, `Kill` (`SendSignal` does not know
"kill": libcs/web/server/util/system.go:26-49). -/
def handle (s : St) (ioOk : Bool) : Endpoint → Resp × St
  | .change u p pp =>
    if u = 0 ∨ p = 0 ∨ ioOk = false then (.fail, s)
    else
      let t := mkTok s u
      (.token t, { s with file := some { (inherit s) with admin := u, password := p, pprof := pp }, issued := t :: s.issued })
  | .info => (.userInfo s.run.admin s.run.password, s)
  | .save b => if b = false ∨ ioOk = false then (.fail, s) else (.served (.save b), { s with file := some (inherit s) })
  | .kill => (.fail, s)
  | .restart => if ioOk then (.served .restart, s) else (.fail, s)
  | .stop => if ioOk then (.served .stop, s) else (.fail, s)
  | .sysInfo => if ioOk then (.served .sysInfo, s) else (.fail, s)
  | .list => if ioOk then (.served .list, s) else (.fail, s)
  | e => (.served e, s)

/-- libcs/web/server/tokenManager.go:60-81 `GetActualToken`, libcs/server/web/api/api.go:38-53 `VerifyTempKey`; 3 uses, 3 minutes (42-44). -/
def useTemp (s : St) (k : Nat) : Resp × St :=
  match s.temp with
  | none => (.invalidKey, s)
  | some d =>
    if k = 0 ∨ k ≠ d.id then (.invalidKey, s)
    else if d.until_ < s.now then (.invalidKey, { s with temp := none })
    else if 3 ≤ d.used then (.invalidKey, { s with temp := none })
    else (.token d.tok, { s with temp := some { d with used := d.used + 1 } })

/-- One request: the routes of libcs/server/web/web.go:147-223. libcs/server/web/api/api.go:18-36 `Login`; libcs/server/web/service/service.go:20-26 `VerifyUser` (running configuration). -/
def serve (s : St) (ioOk : Bool) : Req → Resp × St
  | .login u p =>
    if u = 0 ∨ p = 0 then (.fail, s)
    else if u = s.run.admin ∧ p = s.run.password then
      let t := mkTok s u
      (.token t, { s with issued := t :: s.issued })
    else (.fail, s)
  | .health => (.healthy, s)
  | .verify k => useTemp s k
  | .static => (.page, s)
  | .pprof => if s.mwPprof then (.profile, s) else (.page, s)
  | .api e none => (.invalidToken, s)
  | .api e (some t) => if accepts s t then handle s ioOk e else (.invalidToken, s)

/-- An option given on the command line (0: not given) wins over the file, which wins over `dflt`. -/
def pick (flag file dflt : Nat) : Nat := if flag ≠ 0 then flag else if file ≠ 0 then file else dflt

/-- What is drawn at random when a process starts. -/
structure Rand where
  admin : Nat
  password : Nat
  key : Nat
  temp : Nat
deriving DecidableEq, Repr

/-- A process starts with the options `flags` of its command line: libcs/server/web/web.go:40-83 `NewWebServer` with `checkConfig` (the key,
98-100), `setRoutes`, then `isFirstStart` and `getTempKey` before anything is served. A new token manager is empty. -/
def start (s : St) (flags : Creds) (r : Rand) : St :=
  let f := s.file.getD ⟨0, 0, 0, false⟩
  let key := pick flags.key f.key r.key
  let pp := flags.pprof || f.pprof
  let a := pick flags.admin f.admin 0
  let p := pick flags.password f.password 0
  let run : Creds := ⟨if a = 0 then r.admin else a, if p = 0 then r.password else p, key, pp⟩
  let s1 : St := { s with run := run, mwKey := key, mwPprof := pp, temp := none }
  if a = 0 ∨ p = 0 then
    let t := mkTok s1 run.admin
    { s1 with temp := some { id := r.temp, until_ := s.now + 180, used := 0, tok := t }, issued := t :: s.issued }
  else s1

/-- libcs/client/client.go:900-971 `ReloadServices` (clients only), when it gets as far as storing the new configuration: the web options
are copied from the running configuration, then the file and the flags are read over them; as they are not part of the JSON
that is compared, differences are not noticed. -/
def reload (s : St) (flags : Creds) : St :=
  let f := s.file.getD ⟨0, 0, 0, false⟩
  { s with run := ⟨pick flags.admin f.admin s.run.admin, pick flags.password f.password s.run.password,
      pick flags.key f.key s.run.key, flags.pprof || f.pprof || s.run.pprof⟩ }

inductive Ev where
  | request (r : Req) (ioOk : Bool)
  | start (flags : Creds) (r : Rand)
  | reload (flags : Creds)
  /-- the administrator edits the file -/
  | edit (f : Option Creds)
  | tick
deriving DecidableEq, Repr

def step (s : St) : Ev → Option Resp × St
  | .request r io => let x := serve s io r; (some x.1, x.2)
  | .start fl r => (none, start s fl r)
  | .reload fl => (none, reload s fl)
  | .edit f => (none, { s with file := f })
  | .tick => (none, { s with now := s.now + 1 })

/-- Before the first start nothing is issued and nothing is served (the key 0 is no one's). -/
def init (file : Option Creds) : St :=
  { now := 0, run := ⟨0, 0, 0, false⟩, mwKey := 0, mwPprof := false, temp := none, file := file, issued := [] }

/-- The state after a list of events, oldest first. -/
def after (s : St) : List Ev → St
  | [] => s
  | e :: es => after (step s e).2 es

/-! ## Specification

A history is the list of events of an execution. `Grant` says how a token comes into being, `Authorised` that it goes back to
someone who knew the credentials, or to the first start. -/

/-- The response to event `e` in the history `pre`, from the beginning. -/
def response (f : Option Creds) (pre : List Ev) (e : Ev) : Option Resp := (step (after (init f) pre) e).1

/-- `t` goes back, within this history, to
* a login with the user name and password in force at that time, or
* a start of a process without configured credentials (the link that is then printed to the log leads to it), or
* a change of the credentials asked for with a token that was valid and authorised itself. -/
inductive Authorised (f : Option Creds) : List Ev → Tok → Prop
  | login (pre post : List Ev) (u p : Nat) (io : Bool) (t : Tok)
      (hu : u = (after (init f) pre).run.admin ∧ u ≠ 0) (hp : p = (after (init f) pre).run.password ∧ p ≠ 0)
      (hr : response f pre (.request (.login u p) io) = some (.token t)) (hx : t.exp = (after (init f) pre).now + 1800) :
      Authorised f (pre ++ .request (.login u p) io :: post) t
  | first (pre post : List Ev) (fl : Creds) (r : Rand) (t : Tok)
      (hnone : (fl.admin = 0 ∧ ∀ c, (after (init f) pre).file = some c → c.admin = 0) ∨
        (fl.password = 0 ∧ ∀ c, (after (init f) pre).file = some c → c.password = 0))
      (hk : t.key = (after (init f) (pre ++ [.start fl r])).mwKey) (hx : t.exp = (after (init f) pre).now + 1800) :
      Authorised f (pre ++ .start fl r :: post) t
  | change (pre post : List Ev) (u p : Nat) (pp io : Bool) (t0 t : Tok) (h0 : Authorised f pre t0)
      (hv : (after (init f) pre).now < t0.exp ∧ t0.key = (after (init f) pre).mwKey)
      (hr : response f pre (.request (.api (.change u p pp) (some t0)) io) = some (.token t))
      (hx : t.exp = (after (init f) pre).now + 1800) :
      Authorised f (pre ++ .request (.api (.change u p pp) (some t0)) io :: post) t

/-! ## Proofs -/

theorem after_append (s : St) (a b : List Ev) : after s (a ++ b) = after (after s a) b := by
  induction a generalizing s with
  | nil => rfl
  | cons e es ih => exact ih _

theorem authorised_mono {f : Option Creds} {h : List Ev} {t : Tok} (a : Authorised f h t) (more : List Ev) :
    Authorised f (h ++ more) t := by
  cases a with
  | login pre post u p io t hu hp hr hx =>
    rw [List.append_assoc, List.cons_append]; exact .login pre (post ++ more) u p io t hu hp hr hx
  | first pre post fl r t hn hk hx =>
    rw [List.append_assoc, List.cons_append]; exact .first pre (post ++ more) fl r t hn hk hx
  | change pre post u p pp io t0 t h0 hv hr hx =>
    rw [List.append_assoc, List.cons_append]; exact .change pre (post ++ more) u p pp io t0 t h0 hv hr hx

/-- **C90**: a request to a protected endpoint that is answered by a failure has changed nothing; a `save` succeeds exactly if its body can
be read and the file be written. -/
theorem failure_changes_nothing (s : St) (io : Bool) (e : Endpoint) (t : Tok) (h : (serve s io (.api e (some t))).1 = .fail) :
    (serve s io (.api e (some t))).2 = s := by
  unfold serve at h ⊢
  dsimp only at h ⊢
  split
  · rename_i ha
    rw [if_pos ha] at h
    cases e <;> simp only [handle] at h ⊢ <;> (try split) <;> simp_all
  · rfl

theorem save_iff (s : St) (io b : Bool) (t : Tok) (ha : accepts s t = true) :
    (serve s io (.api (.save b) (some t))).1 = (if b = true ∧ io = true then .served (.save b) else .fail) := by
  unfold serve
  simp only [ha, if_true, handle]
  cases b <;> cases io <;> rfl

/-- A reload turns profiling on in the running configuration if the command line or the file asks for it, and never off. -/
theorem reload_pprof (s : St) (fl : Creds) :
    (reload s fl).run.pprof = true ↔ fl.pprof = true ∨ (∃ c, s.file = some c ∧ c.pprof = true) ∨ s.run.pprof = true := by
  unfold reload
  cases s.file <;> simp [or_assoc]

theorem pick_zero {a b : Nat} (h : pick a b 0 = 0) : a = 0 ∧ b = 0 := by
  unfold pick at h
  split at h
  · exact absurd h (by assumption)
  · split at h
    · exact absurd h (by assumption)
    · rename_i h1 h2; simp at h1 h2; exact ⟨h1, h2⟩

/-- What one event adds to the issued tokens. -/
theorem issued_step (s : St) (e : Ev) (t : Tok) (h : t ∈ (step s e).2.issued) :
    t ∈ s.issued ∨
    (∃ u p io, e = .request (.login u p) io ∧ u = s.run.admin ∧ u ≠ 0 ∧ p = s.run.password ∧ p ≠ 0 ∧
      (step s e).1 = some (.token t) ∧ t.exp = s.now + 1800) ∨
    (∃ fl r, e = .start fl r ∧ ((fl.admin = 0 ∧ ∀ c, s.file = some c → c.admin = 0) ∨
        (fl.password = 0 ∧ ∀ c, s.file = some c → c.password = 0)) ∧
      t = { key := (step s e).2.mwKey, user := (step s e).2.run.admin, exp := s.now + 1800 }) ∨
    (∃ u p pp io t0, e = .request (.api (.change u p pp) (some t0)) io ∧ accepts s t0 = true ∧
      (step s e).1 = some (.token t) ∧ t.exp = s.now + 1800) := by
  cases e with
  | edit f => exact .inl h
  | tick => exact .inl h
  | reload fl => exact .inl h
  | start fl r =>
    simp only [step, start] at h ⊢
    split at h
    · rename_i hn
      simp only [List.mem_cons] at h
      rcases h with rfl | h
      · right; right; left
        refine ⟨fl, r, rfl, ?_, ?_⟩
        · rcases hn with hn | hn
          · obtain ⟨h1, h2⟩ := pick_zero hn
            exact .inl ⟨h1, fun c hc => (by rw [hc] at h2; exact h2)⟩
          · obtain ⟨h1, h2⟩ := pick_zero hn
            exact .inr ⟨h1, fun c hc => (by rw [hc] at h2; exact h2)⟩
        · rw [if_pos hn]; rfl
      · exact .inl h
    · exact .inl h
  | request r io =>
    cases r with
    | health => exact .inl h
    | static => exact .inl h
    | pprof =>
      simp only [step, serve] at h
      split at h <;> exact .inl h
    | verify k =>
      simp only [step, serve, useTemp] at h
      split at h
      · exact .inl h
      · split at h
        · exact .inl h
        · split at h
          · exact .inl h
          · split at h <;> exact .inl h
    | login u p =>
      simp only [step, serve] at h ⊢
      split at h
      · exact .inl h
      · rename_i h0
        split at h
        · rename_i h1
          simp only [List.mem_cons] at h
          rcases h with rfl | h
          · right; left
            refine ⟨u, p, io, rfl, h1.1, (by simp at h0; exact h0.1), h1.2, (by simp at h0; exact h0.2), ?_, rfl⟩
            rw [if_neg h0, if_pos h1]
          · exact .inl h
        · exact .inl h
    | api e tok =>
      cases tok with
      | none => exact .inl h
      | some t0 =>
        simp only [step, serve] at h ⊢
        split at h
        · rename_i ha
          cases e with
          | change u p pp =>
            simp only [handle] at h ⊢
            split at h
            · exact .inl h
            · rename_i hc
              simp only [List.mem_cons] at h
              rcases h with rfl | h
              · right; right; right
                refine ⟨u, p, pp, io, t0, rfl, ha, ?_, rfl⟩
                rw [if_pos ha, if_neg hc]
              · exact .inl h
          | save b => simp only [handle] at h; split at h <;> exact .inl h
          | restart => simp only [handle] at h; split at h <;> exact .inl h
          | stop => simp only [handle] at h; split at h <;> exact .inl h
          | sysInfo => simp only [handle] at h; split at h <;> exact .inl h
          | list => simp only [handle] at h; split at h <;> exact .inl h
          | info => exact .inl h
          | running => exact .inl h
          | fromFile => exact .inl h
          | kill => exact .inl h
          | menu => exact .inl h
        · exact .inl h

theorem accepts_iff (s : St) (t : Tok) : accepts s t = true ↔ t ∈ s.issued ∧ t.key = s.mwKey ∧ s.now < t.exp := by
  simp [accepts]

/-- Every token ever issued is authorised. -/
theorem issued_authorised (f : Option Creds) : ∀ (n : Nat) (es : List Ev), es.length = n → ∀ t,
    t ∈ (after (init f) es).issued → Authorised f es t := by
  intro n
  induction n with
  | zero =>
    intro es hl t h
    have : es = [] := List.eq_nil_of_length_eq_zero hl
    subst this; cases h
  | succ n ih =>
    intro es hl t h
    obtain ⟨pre, e, rfl⟩ : ∃ pre e, es = pre ++ [e] := by
      rcases List.eq_nil_or_concat es with h0 | ⟨pre, e, h0⟩
      · subst h0; cases hl
      · exact ⟨pre, e, by simpa using h0⟩
    have hl' : pre.length = n := by simp at hl; exact hl
    rw [after_append] at h
    have h : t ∈ (step (after (init f) pre) e).2.issued := h
    rcases issued_step _ e t h with h | ⟨u, p, io, rfl, hu, hu0, hp, hp0, hr, hx⟩ | ⟨fl, r, rfl, hn, ht⟩ |
      ⟨u, p, pp, io, t0, rfl, ha, hr, hx⟩
    · exact authorised_mono (ih pre hl' t h) [e]
    · exact .login pre [] u p io t ⟨hu, hu0⟩ ⟨hp, hp0⟩ hr hx
    · refine .first pre [] fl r t hn ?_ ?_
      · rw [after_append, ht]; rfl
      · rw [ht]
    · have ha := (accepts_iff _ _).mp ha
      exact .change pre [] u p pp io t0 t (ih pre hl' t0 ha.1) ⟨ha.2.2, ha.2.1⟩ hr hx

/-- **C90, protected endpoints**: whatever the history of requests, starts, reloads and edits, an endpoint under `/api` other
than the three public ones answers with anything but a refusal only if the request carries a token that was issued less than
30 minutes ago with the key in use and that goes back to the credentials (or to a first start). -/
theorem protected_needs_authorised_token (f : Option Creds) (pre : List Ev) (e : Endpoint) (tok : Option Tok) (io : Bool)
    (r : Resp) (h : response f pre (.request (.api e tok) io) = some r) (hr : r ≠ .invalidToken) :
    ∃ t, tok = some t ∧ Authorised f pre t ∧ (after (init f) pre).now < t.exp ∧ t.key = (after (init f) pre).mwKey := by
  cases tok with
  | none => simp only [response, step, serve] at h; cases h; exact absurd rfl hr
  | some t =>
    simp only [response, step, serve] at h
    split at h
    · rename_i ha
      have ha := (accepts_iff _ _).mp ha
      exact ⟨t, rfl, issued_authorised f _ pre rfl t ha.1, ha.2.2, ha.2.1⟩
    · cases h; exact absurd rfl hr

/-- **C90, nothing changes without a token**: a request without a valid token changes neither the file nor the running
configuration, and issues a token only for the credentials in force. -/
theorem no_effect_without_token (s : St) (r : Req) (io : Bool)
    (hr : ∀ e t, r = .api e (some t) → accepts s t = false) :
    (serve s io r).2.file = s.file ∧ (serve s io r).2.run = s.run ∧
    ((serve s io r).2.issued = s.issued ∨ ∃ u p, r = .login u p ∧ u = s.run.admin ∧ p = s.run.password) := by
  cases r with
  | health => exact ⟨rfl, rfl, .inl rfl⟩
  | static => exact ⟨rfl, rfl, .inl rfl⟩
  | pprof => simp only [serve]; split <;> exact ⟨rfl, rfl, .inl rfl⟩
  | verify k =>
    simp only [serve, useTemp]
    split
    · exact ⟨rfl, rfl, .inl rfl⟩
    · split
      · exact ⟨rfl, rfl, .inl rfl⟩
      · split
        · exact ⟨rfl, rfl, .inl rfl⟩
        · split <;> exact ⟨rfl, rfl, .inl rfl⟩
  | login u p =>
    simp only [serve]
    split
    · exact ⟨rfl, rfl, .inl rfl⟩
    · split
      · rename_i h1; exact ⟨rfl, rfl, .inr ⟨u, p, rfl, h1.1, h1.2⟩⟩
      · exact ⟨rfl, rfl, .inl rfl⟩
  | api e tok =>
    cases tok with
    | none => exact ⟨rfl, rfl, .inl rfl⟩
    | some t =>
      have := hr e t rfl
      simp only [serve, this]
      exact ⟨rfl, rfl, .inl rfl⟩

/-- **C90, public endpoints**: tokens are handed out by the public endpoints only for the credentials in force, or for the
key of the link, at most three times and for three minutes. -/
theorem public_token (s : St) (r : Req) (io : Bool) (t : Tok) (hr : ∀ e k, r ≠ .api e k)
    (h : (serve s io r).1 = .token t) :
    (r = .login s.run.admin s.run.password ∧ s.run.admin ≠ 0 ∧ s.run.password ≠ 0 ∧ t.exp = s.now + 1800) ∨
    ∃ d, s.temp = some d ∧ r = .verify d.id ∧ s.now ≤ d.until_ ∧ d.used < 3 ∧ t = d.tok := by
  cases r with
  | health => cases h
  | static => cases h
  | pprof => simp only [serve] at h; split at h <;> cases h
  | api e k => exact absurd rfl (hr e k)
  | login u p =>
    simp only [serve] at h
    split at h
    · cases h
    · rename_i h0
      split at h
      · rename_i h1
        obtain ⟨rfl, rfl⟩ := h1
        cases h
        simp at h0
        exact .inl ⟨rfl, h0.1, h0.2, rfl⟩
      · cases h
  | verify k =>
    simp only [serve, useTemp] at h
    split at h
    · cases h
    · rename_i d hd
      split at h
      · cases h
      · rename_i hk
        split at h
        · cases h
        · split at h
          · cases h
          · cases h
            have hk' : k = d.id := by
              by_cases e : k = d.id
              · exact e
              · exact absurd (.inr e) hk
            refine .inr ⟨d, hd, by rw [hk'], by omega, by omega, rfl⟩

/-- No event other than a start changes what the middleware looks for, and no token is forgotten. -/
theorem step_keeps (s : St) (e : Ev) (he : ∀ fl r, e ≠ .start fl r) :
    (step s e).2.mwKey = s.mwKey ∧ ∀ t ∈ s.issued, t ∈ (step s e).2.issued := by
  cases e with
  | edit f => exact ⟨rfl, fun t h => h⟩
  | tick => exact ⟨rfl, fun t h => h⟩
  | reload fl => exact ⟨rfl, fun t h => h⟩
  | start fl r => exact absurd rfl (he fl r)
  | request r io =>
    cases r with
    | health => exact ⟨rfl, fun t h => h⟩
    | static => exact ⟨rfl, fun t h => h⟩
    | pprof => simp only [step, serve]; split <;> exact ⟨rfl, fun t h => h⟩
    | verify k =>
      simp only [step, serve, useTemp]
      split
      · exact ⟨rfl, fun t h => h⟩
      · split
        · exact ⟨rfl, fun t h => h⟩
        · split
          · exact ⟨rfl, fun t h => h⟩
          · split <;> exact ⟨rfl, fun t h => h⟩
    | login u p =>
      simp only [step, serve]
      split
      · exact ⟨rfl, fun t h => h⟩
      · split
        · exact ⟨rfl, fun t h => List.mem_cons_of_mem _ h⟩
        · exact ⟨rfl, fun t h => h⟩
    | api e tok =>
      cases tok with
      | none => exact ⟨rfl, fun t h => h⟩
      | some t0 =>
        simp only [step, serve]
        split
        · have hh : ∀ e, (handle s io e).2.mwKey = s.mwKey ∧ ∀ t ∈ s.issued, t ∈ (handle s io e).2.issued := by
            intro e
            cases e with
            | change u p pp =>
              simp only [handle]; split
              · exact ⟨rfl, fun t h => h⟩
              · exact ⟨rfl, fun t h => List.mem_cons_of_mem _ h⟩
            | save b => simp only [handle]; split <;> exact ⟨rfl, fun t h => h⟩
            | restart => simp only [handle]; split <;> exact ⟨rfl, fun t h => h⟩
            | stop => simp only [handle]; split <;> exact ⟨rfl, fun t h => h⟩
            | sysInfo => simp only [handle]; split <;> exact ⟨rfl, fun t h => h⟩
            | list => simp only [handle]; split <;> exact ⟨rfl, fun t h => h⟩
            | info => exact ⟨rfl, fun t h => h⟩
            | running => exact ⟨rfl, fun t h => h⟩
            | fromFile => exact ⟨rfl, fun t h => h⟩
            | kill => exact ⟨rfl, fun t h => h⟩
            | menu => exact ⟨rfl, fun t h => h⟩
          exact hh e
        · exact ⟨rfl, fun t h => h⟩

/-- **C91, a token lasts**: a token that is accepted is accepted until it expires, whatever requests, reloads and edits come
in between, as long as the process is not started anew. -/
theorem token_lasts (s : St) (t : Tok) (ha : accepts s t = true) (es : List Ev) (hes : ∀ e ∈ es, ∀ fl r, e ≠ .start fl r)
    (hexp : (after s es).now < t.exp) : accepts (after s es) t = true := by
  rw [accepts_iff] at ha ⊢
  refine ⟨?_, ?_, hexp⟩
  · have : ∀ es s, t ∈ s.issued → (∀ e ∈ es, ∀ fl r, e ≠ Ev.start fl r) → t ∈ (after s es).issued := by
      intro es
      induction es with
      | nil => intro s h _; exact h
      | cons e es ih =>
        intro s h he
        exact ih _ ((step_keeps s e (he e (by simp))).2 t h) (fun e' he' => he e' (List.mem_cons_of_mem _ he'))
    exact this es s ha.1 hes
  · have : ∀ es s, t.key = s.mwKey → (∀ e ∈ es, ∀ fl r, e ≠ Ev.start fl r) → t.key = (after s es).mwKey := by
      intro es
      induction es with
      | nil => intro s h _; exact h
      | cons e es ih =>
        intro s h he
        exact ih _ (by rw [(step_keeps s e (he e (by simp))).1]; exact h) (fun e' he' => he e' (List.mem_cons_of_mem _ he'))
    exact this es s ha.2.1 hes

/-- **C91, a login works at once**: as long as the running key is the one of the middleware (after every start, until a reload),
the token of a successful login is accepted for 30 minutes.
Missing from the claim: logins after a reload (`reload_breaks_logins`) and after a change of credentials (`change_has_no_effect_on_logins`), where it is false. -/
theorem login_accepted_partial (s : St) (hk : s.run.key = s.mwKey) (ha : s.run.admin ≠ 0) (hp : s.run.password ≠ 0) (io : Bool) :
    ∃ t, (serve s io (.login s.run.admin s.run.password)).1 = .token t ∧ t.exp = s.now + 1800 ∧
      accepts (serve s io (.login s.run.admin s.run.password)).2 t = true := by
  refine ⟨mkTok s s.run.admin, ?_, rfl, ?_⟩
  · simp [serve, ha, hp]
  · rw [accepts_iff]
    simp [serve, ha, hp, mkTok, hk]

/-- After a start the two keys are the same, and the credentials are not empty if what is drawn at random is not. -/
theorem start_ready (s : St) (fl : Creds) (r : Rand) (ha : r.admin ≠ 0) (hp : r.password ≠ 0) :
    (start s fl r).run.key = (start s fl r).mwKey ∧ (start s fl r).run.admin ≠ 0 ∧ (start s fl r).run.password ≠ 0 := by
  unfold start
  dsimp only
  split
  · refine ⟨rfl, ?_, ?_⟩
    · dsimp only; split
      · exact ha
      · assumption
    · dsimp only; split
      · exact hp
      · assumption
  · refine ⟨rfl, ?_, ?_⟩
    · dsimp only; split
      · exact ha
      · assumption
    · dsimp only; split
      · exact hp
      · assumption

theorem step_pprof (s : St) (e : Ev) (he : ∀ fl r, e ≠ .start fl r) : (step s e).2.mwPprof = s.mwPprof := by
  cases e with
  | edit f => rfl
  | tick => rfl
  | reload fl => rfl
  | start fl r => exact absurd rfl (he fl r)
  | request r io =>
    cases r with
    | health => rfl
    | static => rfl
    | pprof => simp only [step, serve]; split <;> rfl
    | verify k => simp only [step, serve, useTemp]; repeat' split
                  all_goals rfl
    | login u p => simp only [step, serve]; repeat' split
                   all_goals rfl
    | api e tok =>
      cases tok with
      | none => rfl
      | some t0 =>
        simp only [step, serve]
        split
        · cases e <;> simp only [handle] <;> (try split) <;> rfl
        · rfl

theorem pprof_history (f : Option Creds) (l : List Ev) (h : (after (init f) l).mwPprof = true) :
    ∃ p1 fl r p2, l = p1 ++ .start fl r :: p2 ∧ (∀ e ∈ p2, ∀ fl r, e ≠ .start fl r) ∧
      (fl.pprof = true ∨ ∃ c, (after (init f) p1).file = some c ∧ c.pprof = true) := by
  have key : ∀ (n : Nat) (l : List Ev), l.length = n → (after (init f) l).mwPprof = true →
      ∃ p1 fl r p2, l = p1 ++ .start fl r :: p2 ∧ (∀ e ∈ p2, ∀ fl r, e ≠ .start fl r) ∧
        (fl.pprof = true ∨ ∃ c, (after (init f) p1).file = some c ∧ c.pprof = true) := by
    intro n
    induction n with
    | zero =>
      intro l hl h
      have : l = [] := List.length_eq_zero_iff.mp hl
      subst this; cases h
    | succ n ih =>
      intro l hl h
      have hne : l ≠ [] := by rintro rfl; simp at hl
      obtain ⟨a, e, rfl⟩ : ∃ a e, l = a ++ [e] := ⟨l.dropLast, l.getLast hne, (List.dropLast_concat_getLast hne).symm⟩
      rw [after_append] at h
      simp only [after] at h
      by_cases he : ∃ fl r, e = .start fl r
      · obtain ⟨fl, r, rfl⟩ := he
        refine ⟨a, fl, r, [], rfl, by simp, ?_⟩
        simp only [step, start] at h
        have h' : (fl.pprof || ((after (init f) a).file.getD ⟨0, 0, 0, false⟩).pprof) = true := by
          split at h <;> exact h
        simp only [Bool.or_eq_true] at h'
        rcases h' with h' | h'
        · exact Or.inl h'
        · cases hf : (after (init f) a).file with
          | none => rw [hf] at h'; cases h'
          | some c => rw [hf] at h'; exact Or.inr ⟨c, rfl, h'⟩
      · have he' : ∀ fl r, e ≠ .start fl r := fun fl r h => he ⟨fl, r, h⟩
        rw [step_pprof _ _ he'] at h
        obtain ⟨p1, fl, r, p2, h1, h2, h3⟩ := ih a (by simpa using hl) h
        subst h1
        refine ⟨p1, fl, r, p2 ++ [e], by simp, ?_, h3⟩
        intro x hx
        simp only [List.mem_append, List.mem_singleton] at hx
        rcases hx with hx | rfl
        · exact h2 x hx
        · exact he'
  exact key _ l rfl h

/-- **C90, the profiling pages**: they are served only by a process that was started with `-pprof`, or whose file said so
at that time; no other request gets them. -/
theorem profile_only_if_enabled (f : Option Creds) (pre : List Ev) (e : Ev) (h : response f pre e = some .profile) :
    (∃ io, e = .request .pprof io) ∧
    ∃ p1 fl r p2, pre = p1 ++ .start fl r :: p2 ∧ (∀ x ∈ p2, ∀ fl r, x ≠ .start fl r) ∧
      (fl.pprof = true ∨ ∃ c, (after (init f) p1).file = some c ∧ c.pprof = true) := by
  unfold response at h
  cases e with
  | edit f => cases h
  | tick => cases h
  | reload fl => cases h
  | start fl r => cases h
  | request r io =>
    cases r with
    | health => cases h
    | static => cases h
    | pprof =>
      refine ⟨⟨io, rfl⟩, pprof_history f pre ?_⟩
      simp only [step, serve] at h
      split at h
      · assumption
      · cases h
    | verify k => simp only [step, serve, useTemp] at h; repeat' split at h
                  all_goals cases h
    | login u p => simp only [step, serve] at h; repeat' split at h
                   all_goals cases h
    | api e tok =>
      cases tok with
      | none => cases h
      | some t0 =>
        simp only [step, serve] at h
        split at h
        · cases e <;> simp only [handle] at h <;> (try split at h) <;> cases h
        · cases h

/-- A process started with the profiling pages, and one started without. -/
example : response none [.start ⟨1, 2, 3, true⟩ ⟨4, 5, 6, 7⟩, .tick] (.request .pprof true) = some .profile ∧
    response none [.start ⟨1, 2, 3, true⟩ ⟨4, 5, 6, 7⟩, .start ⟨1, 2, 3, false⟩ ⟨4, 5, 6, 7⟩] (.request .pprof true) = some .page := by
  decide

theorem step_no_temp (s : St) (e : Ev) (he : ∀ fl r, e ≠ .start fl r) (h : s.temp = none) : (step s e).2.temp = none := by
  cases e with
  | edit f => exact h
  | tick => exact h
  | reload fl => exact h
  | start fl r => exact absurd rfl (he fl r)
  | request r io =>
    cases r with
    | health => exact h
    | static => exact h
    | pprof => simp only [step, serve]; split <;> exact h
    | verify k => simp only [step, serve, useTemp, h]
    | login u p => simp only [step, serve]; repeat' split
                   all_goals exact h
    | api e tok =>
      cases tok with
      | none => exact h
      | some t0 =>
        simp only [step, serve]
        split
        · cases e <;> simp only [handle] <;> (try split) <;> exact h
        · exact h

/-- **C90, no link with configured credentials**: a process that finds a user name and a password on its command line or in its
file accepts no key of a link, whatever link an earlier process printed, until the next start. -/
theorem no_link_if_configured (s : St) (fl : Creds) (r : Rand) (es : List Ev) (hes : ∀ e ∈ es, ∀ fl r, e ≠ .start fl r)
    (ha : fl.admin ≠ 0 ∨ ∃ c, s.file = some c ∧ c.admin ≠ 0) (hp : fl.password ≠ 0 ∨ ∃ c, s.file = some c ∧ c.password ≠ 0)
    (k : Nat) (io : Bool) : (serve (after (step s (.start fl r)).2 es) io (.verify k)).1 = .invalidKey := by
  have h0 : (step s (.start fl r)).2.temp = none := by
    have h1 : pick fl.admin (s.file.getD ⟨0, 0, 0, false⟩).admin 0 ≠ 0 := by
      intro hz
      obtain ⟨x, y⟩ := pick_zero hz
      rcases ha with ha | ⟨c, hc, ha⟩
      · exact ha x
      · rw [hc] at y; exact ha y
    have h2 : pick fl.password (s.file.getD ⟨0, 0, 0, false⟩).password 0 ≠ 0 := by
      intro hz
      obtain ⟨x, y⟩ := pick_zero hz
      rcases hp with hp | ⟨c, hc, hp⟩
      · exact hp x
      · rw [hc] at y; exact hp y
    simp only [step, start]
    rw [if_neg (by rintro (h | h); exact h1 h; exact h2 h)]
  have : ∀ es s, s.temp = none → (∀ e ∈ es, ∀ fl r, e ≠ Ev.start fl r) → (after s es).temp = none := by
    intro es
    induction es with
    | nil => intro s h _; exact h
    | cons e es ih =>
      intro s h he
      exact ih _ (step_no_temp s e (he e (by simp)) h) (fun e' he' => he e' (List.mem_cons_of_mem _ he'))
  simp only [serve, useTemp, this es _ h0 hes]

/-- The link of a first start does not survive a restart with credentials. -/
example : response none [.start ⟨0, 0, 0, false⟩ ⟨4, 5, 6, 7⟩] (.request (.verify 7) true) = some (.token ⟨6, 4, 1800⟩) ∧
    response none [.start ⟨0, 0, 0, false⟩ ⟨4, 5, 6, 7⟩, .start ⟨1, 2, 3, false⟩ ⟨8, 9, 10, 11⟩] (.request (.verify 7) true) =
      some .invalidKey := by decide

/-- How often the key `k` is tried in a list of events. -/
def tries (k : Nat) (es : List Ev) : Nat := (es.filter fun e => e = .request (.verify k) true ∨ e = .request (.verify k) false).length

theorem step_temp (s : St) (e : Ev) (d : Temp) (he : ∀ fl r, e ≠ .start fl r) (h : s.temp = some d) (h0 : d.id ≠ 0)
    (hn : (step s e).2.now ≤ d.until_) (hu : d.used + tries d.id [e] ≤ 3) :
    (step s e).2.temp = some { d with used := d.used + tries d.id [e] } := by
  cases e with
  | edit f => exact h
  | tick => exact h
  | reload fl => exact h
  | start fl r => exact absurd rfl (he fl r)
  | request r io =>
    cases r with
    | health => simpa [step, serve, tries] using h
    | static => simpa [step, serve, tries] using h
    | pprof => simp only [step, serve]; split <;> simpa [tries] using h
    | login u p => simp only [step, serve]; repeat' split
                   all_goals simpa [tries] using h
    | verify k =>
      by_cases hk : k = d.id
      · subst hk
        have ht : tries d.id [.request (.verify d.id) io] = 1 := by cases io <;> simp [tries]
        rw [ht] at hu ⊢
        have hn' : s.now ≤ d.until_ := by
          have : (step s (.request (.verify d.id) io)).2.now = s.now := by
            simp only [step, serve, useTemp]; repeat' split
            all_goals rfl
          rw [this] at hn; exact hn
        simp only [step, serve, useTemp, h]
        rw [if_neg (by simp [h0]), if_neg (by omega), if_neg (by omega)]
      · have ht : tries d.id [.request (.verify k) io] = 0 := by cases io <;> simp [tries, hk]
        rw [ht]
        simp only [step, serve, useTemp, h]
        rw [if_pos (Or.inr hk)]
        exact h
    | api e tok =>
      cases tok with
      | none => simpa [step, serve, tries] using h
      | some t0 =>
        simp only [step, serve]
        split
        · cases e <;> simp only [handle] <;> (try split) <;> simpa [tries] using h
        · simpa [tries] using h

theorem step_now (s : St) (e : Ev) : s.now ≤ (step s e).2.now := by
  cases e with
  | edit f => exact Nat.le_refl _
  | tick => exact Nat.le_succ _
  | reload fl => exact Nat.le_refl _
  | start fl r => simp only [step, start]; split <;> exact Nat.le_refl _
  | request r io =>
    cases r with
    | health => exact Nat.le_refl _
    | static => exact Nat.le_refl _
    | pprof => simp only [step, serve]; split <;> exact Nat.le_refl _
    | login u p => simp only [step, serve]; repeat' split
                   all_goals exact Nat.le_refl _
    | verify k => simp only [step, serve, useTemp]; repeat' split
                  all_goals exact Nat.le_refl _
    | api e tok =>
      cases tok with
      | none => exact Nat.le_refl _
      | some t0 =>
        simp only [step, serve]
        split
        · cases e <;> simp only [handle] <;> (try split) <;> exact Nat.le_refl _
        · exact Nat.le_refl _

theorem after_now (es : List Ev) : ∀ s, s.now ≤ (after s es).now := by
  induction es with
  | nil => intro s; exact Nat.le_refl _
  | cons e es ih => intro s; exact Nat.le_trans (step_now s e) (ih _)

theorem after_temp (d : Temp) (h0 : d.id ≠ 0) (es : List Ev) : ∀ (s : St) (u : Nat), (∀ e ∈ es, ∀ fl r, e ≠ .start fl r) →
    s.temp = some { d with used := u } → (after s es).now ≤ d.until_ → u + tries d.id es ≤ 3 →
    (after s es).temp = some { d with used := u + tries d.id es } := by
  induction es with
  | nil => intro s u _ h _ _; exact h
  | cons e es ih =>
    intro s u he h hn hu
    have hc : tries d.id (e :: es) = tries d.id [e] + tries d.id es := by
      simp only [tries, List.filter_cons]; split <;> simp; omega
    rw [hc] at hu ⊢
    have h1 := step_temp s e { d with used := u } (he e (by simp)) h h0 (Nat.le_trans (after_now es _) hn)
      (by dsimp only; omega)
    have h2 := ih (step s e).2 (u + tries d.id [e]) (fun x hx => he x (List.mem_cons_of_mem _ hx)) h1 hn (by omega)
    rw [show u + (tries d.id [e] + tries d.id es) = u + tries d.id [e] + tries d.id es by omega]
    exact h2

theorem step_temp_or (s : St) (e : Ev) (d : Temp) (he : ∀ fl r, e ≠ .start fl r) (h : s.temp = some d) (h0 : d.id ≠ 0) :
    (step s e).2.temp = none ∨ (step s e).2.temp = some { d with used := d.used + tries d.id [e] } := by
  by_cases hv : ∃ io, e = .request (.verify d.id) io
  · obtain ⟨io, rfl⟩ := hv
    have ht : tries d.id [.request (.verify d.id) io] = 1 := by cases io <;> simp [tries]
    rw [ht]
    simp only [step, serve, useTemp, h]
    repeat' split
    all_goals simp_all
  · have ht : tries d.id [e] = 0 := by
      simp only [tries, List.filter_cons]
      rw [if_neg]
      · rfl
      · simp only [decide_eq_true_eq]
        rintro (h | h)
        · exact hv ⟨_, h⟩
        · exact hv ⟨_, h⟩
    rw [ht]
    right
    cases e with
    | edit f => exact h
    | tick => exact h
    | reload fl => exact h
    | start fl r => exact absurd rfl (he fl r)
    | request r io =>
      cases r with
      | health => exact h
      | static => exact h
      | pprof => simp only [step, serve]; split <;> exact h
      | login u p => simp only [step, serve]; repeat' split
                     all_goals exact h
      | verify k =>
        have hk : k ≠ d.id := fun hk => hv ⟨io, by rw [hk]⟩
        simp only [step, serve, useTemp, h]
        rw [if_pos (Or.inr hk)]
        exact h
      | api e tok =>
        cases tok with
        | none => exact h
        | some t0 =>
          simp only [step, serve]
          split
          · cases e <;> simp only [handle] <;> (try split) <;> exact h
          · exact h

theorem after_temp_or (d : Temp) (h0 : d.id ≠ 0) (es : List Ev) : ∀ (s : St) (u : Nat), (∀ e ∈ es, ∀ fl r, e ≠ .start fl r) →
    s.temp = some { d with used := u } →
    (after s es).temp = none ∨ (after s es).temp = some { d with used := u + tries d.id es } := by
  have hnone : ∀ es (s : St), (∀ e ∈ es, ∀ fl r, e ≠ Ev.start fl r) → s.temp = none → (after s es).temp = none := by
    intro es
    induction es with
    | nil => intro s _ h; exact h
    | cons e es ih =>
      intro s he h
      exact ih _ (fun e' he' => he e' (List.mem_cons_of_mem _ he')) (step_no_temp s e (he e (by simp)) h)
  induction es with
  | nil => intro s u _ h; exact .inr h
  | cons e es ih =>
    intro s u he h
    have hc : tries d.id (e :: es) = tries d.id [e] + tries d.id es := by
      simp only [tries, List.filter_cons]; split <;> simp; omega
    have he' : ∀ e ∈ es, ∀ fl r, e ≠ Ev.start fl r := fun x hx => he x (List.mem_cons_of_mem _ hx)
    rcases step_temp_or s e { d with used := u } (he e (by simp)) h h0 with h1 | h1
    · exact .inl (hnone es _ he' h1)
    · rw [hc, show u + (tries d.id [e] + tries d.id es) = u + tries d.id [e] + tries d.id es by omega]
      exact ih _ _ he' h1

/-- **C90, the link of a first start works**: a process that finds no user name, or no password, prints a link; for three minutes, and
up to three times, its key is answered with a token that the protected endpoints accept, whatever else is asked in between. The
fourth time it is refused, and so it is after three minutes. -/
theorem link_works (s : St) (fl : Creds) (r : Rand) (es : List Ev) (io : Bool) (hes : ∀ e ∈ es, ∀ fl r, e ≠ .start fl r)
    (hfirst : (fl.admin = 0 ∧ ∀ c, s.file = some c → c.admin = 0) ∨ (fl.password = 0 ∧ ∀ c, s.file = some c → c.password = 0))
    (hr : r.temp ≠ 0) :
    let s' := after (step s (.start fl r)).2 es
    (tries r.temp es < 3 → s'.now ≤ s.now + 180 →
      ∃ t, (serve s' io (.verify r.temp)).1 = .token t ∧ t.exp = s.now + 1800 ∧ accepts s' t = true) ∧
    (3 ≤ tries r.temp es ∨ s.now + 180 < s'.now → (serve s' io (.verify r.temp)).1 = .invalidKey) := by
  have hc : pick fl.admin (s.file.getD ⟨0, 0, 0, false⟩).admin 0 = 0 ∨ pick fl.password (s.file.getD ⟨0, 0, 0, false⟩).password 0 = 0 := by
    rcases hfirst with ⟨h1, h2⟩ | ⟨h1, h2⟩
    · left
      cases hf : s.file with
      | none => simp [pick, h1]
      | some c => simp [pick, h1, h2 c hf]
    · right
      cases hf : s.file with
      | none => simp [pick, h1]
      | some c => simp [pick, h1, h2 c hf]
  obtain ⟨d, hd, hid, hun, hus, hexp, hacc⟩ : ∃ d : Temp, (step s (.start fl r)).2.temp = some d ∧ d.id = r.temp ∧
      d.until_ = s.now + 180 ∧ d.used = 0 ∧ d.tok.exp = s.now + 1800 ∧
      (d.tok ∈ (step s (.start fl r)).2.issued ∧ d.tok.key = (step s (.start fl r)).2.mwKey) := by
    simp only [step, start]
    rw [if_pos hc]
    exact ⟨_, rfl, rfl, rfl, rfl, rfl, List.mem_cons_self, rfl⟩
  have hd0 : (step s (.start fl r)).2.temp = some { d with used := 0 } := by rw [hd]; congr 1; rw [← hus]
  have h0 : d.id ≠ 0 := by rw [hid]; exact hr
  dsimp only
  refine ⟨fun ht hn => ?_, fun hx => ?_⟩
  · have := after_temp d h0 es _ 0 hes hd0 (by rw [hun]; exact hn) (by rw [hid]; omega)
    refine ⟨d.tok, ?_, hexp, ?_⟩
    · simp only [serve, useTemp, this]
      rw [hid, if_neg (by simp [hr]), if_neg (by rw [hun]; omega), if_neg (by omega)]
    · rw [accepts_iff]
      refine ⟨?_, ?_, by rw [hexp]; omega⟩
      · have : ∀ es s, d.tok ∈ s.issued → (∀ e ∈ es, ∀ fl r, e ≠ Ev.start fl r) → d.tok ∈ (after s es).issued := by
          intro es
          induction es with
          | nil => intro s h _; exact h
          | cons e es ih =>
            intro s h he
            exact ih _ ((step_keeps s e (he e (by simp))).2 _ h) (fun e' he' => he e' (List.mem_cons_of_mem _ he'))
        exact this es _ hacc.1 hes
      · have : ∀ es s, d.tok.key = s.mwKey → (∀ e ∈ es, ∀ fl r, e ≠ Ev.start fl r) → d.tok.key = (after s es).mwKey := by
          intro es
          induction es with
          | nil => intro s h _; exact h
          | cons e es ih =>
            intro s h he
            exact ih _ (by rw [(step_keeps s e (he e (by simp))).1]; exact h) (fun e' he' => he e' (List.mem_cons_of_mem _ he'))
        exact this es _ hacc.2 hes
  · rcases after_temp_or d h0 es _ 0 hes hd0 with h | h
    · simp only [serve, useTemp, h]
    · simp only [serve, useTemp, h]
      rw [hid] at *
      rw [if_neg (by simp [hr])]
      split
      · rfl
      · rw [if_pos (by rw [hun] at *; omega)]

/-- The link is used three times, the fourth time it is refused; and it is refused after three minutes. -/
example : response none [.start ⟨0, 0, 0, false⟩ ⟨4, 5, 6, 7⟩, .request (.verify 7) true, .tick, .request (.verify 8) true,
      .request (.verify 7) false] (.request (.verify 7) true) = some (.token ⟨6, 4, 1800⟩) ∧
    response none [.start ⟨0, 0, 0, false⟩ ⟨4, 5, 6, 7⟩, .request (.verify 7) true, .request (.verify 7) true,
      .request (.verify 7) true] (.request (.verify 7) true) = some .invalidKey := by decide

/-- **C90, the profiling pages when asked for**: a process started with the option, or whose file has it, serves them until the next
start. -/
theorem profile_if_enabled (s : St) (fl : Creds) (r : Rand) (es : List Ev) (io : Bool) (hes : ∀ e ∈ es, ∀ fl r, e ≠ .start fl r)
    (h : fl.pprof = true ∨ ∃ c, s.file = some c ∧ c.pprof = true) :
    (serve (after (step s (.start fl r)).2 es) io .pprof).1 = .profile := by
  have h0 : (step s (.start fl r)).2.mwPprof = true := by
    simp only [step, start]
    have : (fl.pprof || (s.file.getD ⟨0, 0, 0, false⟩).pprof) = true := by
      rcases h with h | ⟨c, hc, h⟩
      · simp [h]
      · simp [hc, h]
    split <;> exact this
  have : ∀ es s, s.mwPprof = true → (∀ e ∈ es, ∀ fl r, e ≠ Ev.start fl r) → (after s es).mwPprof = true := by
    intro es
    induction es with
    | nil => intro s h _; exact h
    | cons e es ih =>
      intro s h he
      exact ih _ (by rw [step_pprof s e (he e (by simp))]; exact h) (fun e' he' => he e' (List.mem_cons_of_mem _ he'))
  simp only [serve, this es _ h0 hes]
  rfl

/-- **C91, saving keeps the credentials**: after a configuration was saved through the page by a process whose file says nothing of
its own (no file), the next process started without options uses the same user name, password and key: logins go on with
the same password, tokens stay valid until they expire, and no new link is printed. -/
theorem saved_credentials_survive (s : St) (t : Tok) (b io : Bool) (r : Rand) (e : Endpoint)
    (h : (serve s io (.api (.save b) (some t))).1 = .served e) (hf : s.file = none)
    (ha : s.run.admin ≠ 0) (hp : s.run.password ≠ 0) (hk : s.run.key ≠ 0) :
    let s' := start (serve s io (.api (.save b) (some t))).2 ⟨0, 0, 0, false⟩ r
    s'.run = s.run ∧ s'.mwKey = s.run.key ∧ s'.temp = none := by
  have hs : (serve s io (.api (.save b) (some t))).2 = { s with file := some s.run } := by
    simp only [serve] at h ⊢
    split at h
    · rename_i hacc
      rw [if_pos hacc]
      simp only [handle] at h ⊢
      split at h
      · cases h
      · rename_i hb
        rw [if_neg hb]
        simp [inherit, hf]
    · cases h
  dsimp only
  rw [hs]
  obtain ⟨now, run, mwKey, mwPprof, temp, file, issued⟩ := s
  obtain ⟨a, p, k, pp⟩ := run
  simp only at ha hp hk
  simp [start, pick, ha, hp, hk]

/-- **C91, saving keeps the file's credentials**: with a file, the saved one holds the credentials of the file, not those of the page's
request or of the running process. -/
theorem save_keeps_file_credentials (s : St) (t : Tok) (b io : Bool) (c : Creds) (hf : s.file = some c) :
    (serve s io (.api (.save b) (some t))).2.file = some c := by
  simp only [serve]
  split
  · simp only [handle]
    split
    · exact hf
    · simp [inherit, hf]
  · exact hf

example : (response none [.start ⟨0, 0, 0, false⟩ ⟨4, 5, 6, 7⟩] (.request (.login 4 5) true) = some (.token ⟨6, 4, 1800⟩)) ∧
    (response none [.start ⟨0, 0, 0, false⟩ ⟨4, 5, 6, 7⟩, .request (.login 4 5) true, .request (.api (.save true) (some ⟨6, 4, 1800⟩)) true,
      .start ⟨0, 0, 0, false⟩ ⟨8, 9, 10, 11⟩] (.request (.api .info (some ⟨6, 4, 1800⟩)) true) = some (.userInfo 4 5)) := by decide

/-! ### What the code does not guarantee -/

/-- The profiling pages are served to anyone once they are enabled (finding): no token is asked for. -/
theorem pprof_needs_no_token (s : St) (io : Bool) (h : s.mwPprof = true) : (serve s io .pprof).1 = .profile := by
  simp [serve, h]

/-- A token that is enough for any endpoint is told the password in plain text (finding). -/
theorem token_reveals_password (s : St) (t : Tok) (io : Bool) (h : accepts s t = true) :
    (serve s io (.api .info (some t))).1 = .userInfo s.run.admin s.run.password := by
  simp [serve, h, handle]

/-- `kill` never succeeds (finding). -/
theorem kill_always_fails (s : St) (t : Tok) (io : Bool) (h : accepts s t = true) :
    (serve s io (.api .kill (some t))).1 = .fail := by
  simp [serve, h, handle]

/-- **C91 is false of the code (1)**: changing the credentials has no effect on logins until the next start: the new ones are
refused, the old ones accepted. -/
theorem change_has_no_effect_on_logins (s : St) (t : Tok) (u p : Nat) (pp io io' : Bool) (ha : accepts s t = true)
    (ho : s.run.admin ≠ 0 ∧ s.run.password ≠ 0) (hne : p ≠ s.run.password) :
    let s' := (serve s io (.api (.change u p pp) (some t))).2
    (serve s' io' (.login u p)).1 = .fail ∧ ∃ t', (serve s' io' (.login s.run.admin s.run.password)).1 = .token t' := by
  have hrun : (serve s io (.api (.change u p pp) (some t))).2.run = s.run := by
    simp only [serve, ha, if_true, handle]; split <;> rfl
  dsimp only
  generalize (serve s io (.api (.change u p pp) (some t))).2 = s' at hrun ⊢
  constructor
  · simp only [serve]
    split
    · rfl
    · rw [if_neg (by rw [hrun]; exact fun h => hne h.2)]
  · exact ⟨mkTok s' s.run.admin, by simp [serve, ho.1, ho.2, hrun]⟩

def f0 : Option Creds := some ⟨10, 20, 30, false⟩
def r0 : Rand := ⟨1, 2, 3, 4⟩
def noFlags : Creds := ⟨0, 0, 0, false⟩

/-- **C91 is false of the code (2)**: a token issued before the password was changed is still accepted after the change, and
after the restart that puts the new password in force, if the file holds the signing key. -/
theorem old_token_survives_change :
    let t : Tok := ⟨30, 10, 1800⟩
    let es : List Ev := [.start noFlags r0, .request (.login 10 20) true, .tick,
      .request (.api (.change 10 99 false) (some t)) true, .start noFlags r0]
    (after (init f0) es).run.password = 99 ∧ response f0 es (.request (.api .running (some t)) true) = some (.served .running) := by
  decide +kernel

/-- **C91 is false of the code (3)**: if the file of a client gets another signing key, a reload makes all later logins
useless: the login succeeds and every protected endpoint refuses its token. -/
theorem reload_breaks_logins :
    let es : List Ev := [.start noFlags r0, .edit (some ⟨10, 20, 31, false⟩), .reload noFlags]
    let t : Tok := ⟨31, 10, 1800⟩
    response f0 es (.request (.login 10 20) true) = some (.token t) ∧
    ∀ e io, response f0 (es ++ [.request (.login 10 20) true]) (.request (.api e (some t)) io) = some .invalidToken := by
  refine ⟨by decide +kernel, fun e io => ?_⟩
  have : accepts (after (init f0) ([.start noFlags r0, .edit (some ⟨10, 20, 31, false⟩), .reload noFlags] ++
      [.request (.login 10 20) true])) ⟨31, 10, 1800⟩ = false := by decide +kernel
  simp only [response, step, serve, this]
  rfl

/-- A holder of one valid token stays in for ever without the password: each change issues a new token (finding). -/
theorem token_renews_itself (s : St) (t : Tok) (u p : Nat) (hu : u ≠ 0) (hp : p ≠ 0) (hk : s.run.key = s.mwKey)
    (ha : accepts s t = true) :
    ∃ t', (serve s true (.api (.change u p false) (some t))).1 = .token t' ∧ t'.exp = s.now + 1800 ∧
      accepts (serve s true (.api (.change u p false) (some t))).2 t' = true := by
  refine ⟨mkTok s u, ?_, rfl, ?_⟩
  · simp [serve, ha, handle, hu, hp]
  · rw [accepts_iff]; simp [serve, ha, handle, hu, hp, mkTok, hk]

/-- Non-vacuity: a first start without a file; the link leads to a token, which changes the credentials; the restarted process
accepts the new credentials and the token of the old ones (the running key was written to the file). -/
example :
    let t : Tok := ⟨3, 1, 1800⟩
    let es : List Ev := [.start noFlags r0, .request (.verify 4) true, .request (.api (.change 7 8 false) (some t)) true,
      .start noFlags ⟨5, 5, 5, 5⟩, .request (.login 7 8) true]
    response none [.start noFlags r0] (.request (.verify 4) true) = some (.token t) ∧
    response none es (.request (.api .running (some t)) true) = some (.served .running) ∧
    response none es (.request (.api .running (some ⟨3, 7, 1800⟩)) true) = some (.served .running) ∧
    response none es (.request (.api .running (some ⟨3, 9, 1800⟩)) true) = some .invalidToken ∧
    response none es (.request (.login 1 2) true) = some .fail := by decide +kernel

/-- … and it expires. -/
example : (response f0 ([.start noFlags r0, .request (.login 10 20) true] ++ List.replicate 1799 .tick)
      (.request (.api .menu (some ⟨30, 10, 1800⟩)) true)) = some (.served .menu) ∧
    (response f0 ([.start noFlags r0, .request (.login 10 20) true] ++ List.replicate 1800 .tick)
      (.request (.api .menu (some ⟨30, 10, 1800⟩)) true)) = some .invalidToken := by
  decide +kernel

/-- **C90, the owner gets what is asked for**: a request with an accepted token for one of the endpoints that act or report, is
carried out if the system lets it. -/
theorem authorised_is_served (s : St) (t : Tok) (e : Endpoint) (ha : accepts s t = true)
    (he : e ≠ .kill) (hc : ∀ u p pp, e ≠ .change u p pp) (hi : e ≠ .info) (hs : e ≠ .save false) :
    (serve s true (.api e (some t))).1 = .served e := by
  simp only [serve, ha, if_true]
  cases e <;> simp_all [handle]

end Verif.Web.Access
