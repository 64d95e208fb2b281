import Verif.Common
set_option linter.unusedSimpArgs false
set_option linter.unusedVariables false
/-!
# C107, C108: what a server opens when it starts, and what it closes
(libcs/server/server.go:217-288 the listeners, 341-471 `Start`, 473-522 `startSTUNServer`, 524-551
`newTLSConfig`, 553-588 `startAPIServer`, 645-673 `Close`, libcs/conn/quicConn.go:49-59 `QuicListen`,
libcs/lib/export/lib.go:63-133 `RunServer`)

Simplified: that users, ports and host settings are valid is one Boolean (they are modelled in
Config/Users, Ports/Range and Config/Merge); the log, and the listeners of forwarded TCP ports (Ports), are
left out; port 0 (any free port) is an address like others.
-/
namespace Verif.Server.Start

abbrev Text := List Char

/-- libcs/server/config.go:41-105 `Options`, the fields that matter here. -/
structure Cfg where
  /-- users, ports and host settings were accepted (libcs/server/server.go:343-363) -/
  usersValid : Bool := true
  muxHeader : Text := "Host".toList
  addr : Text := []
  tlsAddr : Text := []
  quicAddr : Text := []
  sniAddr : Text := []
  stunAddr : Text := []
  apiAddr : Text := []
  cert : Text := []
  key : Text := []
  tlsMin : Text := "tls1.2".toList
  apiCert : Text := []
  apiKey : Text := []
  apiTlsMin : Text := "tls1.2".toList
  bbr : Bool := false
  /-- `WebAddr` is set -/
  web : Bool := false
deriving DecidableEq, Repr

inductive Kind where
  | tls | quic | plain | sni | stun | api
deriving DecidableEq, Repr

inductive Sec where
  /-- no TLS of its own -/
  | clear
  /-- the files of certificate and key, and the lowest version accepted (12 is TLS 1.2) -/
  | tls (cert key : Text) (min : Nat)
  /-- a certificate generated at start -/
  | generated
deriving DecidableEq, Repr

/-- An open socket. -/
structure Ep where
  kind : Kind
  addr : Text
  sec : Sec
deriving DecidableEq, Repr

/-- What the operating system and the libraries do. -/
structure World where
  /-- `tls.LoadX509KeyPair` of these two files succeeds -/
  loads : Text → Text → Bool
  /-- a socket of this kind can be bound to this address -/
  binds : Kind → Text → Bool
  /-- the BBR library accepts certificate and key -/
  msquic : Text → Text → Bool
  /-- `turn.NewServer` succeeds -/
  turn : Bool

inductive Res where
  | run
  | err
  | panic
  | ok
deriving DecidableEq, Repr

structure St where
  res : Res := .run
  opened : List Ep := []
  /-- the local `listening` -/
  listening : Bool := false
deriving DecidableEq, Repr

/-- libcs/server/server.go:385-387 and its copies (399-401, 427-429, 437-439, 474-476): `if strings.IndexByte(a, ':') == -1 { a = ":" + a }` -/
def norm (a : Text) : Text := if ':' ∈ a then a else ':' :: a

/-- libcs/server/server.go:413-419 -/
def normQuic (a : Text) : Text :=
  if ¬ ':' ∈ a then "0.0.0.0:".toList ++ a
  else if a.head? = some ':' then "0.0.0.0".toList ++ a
  else a

/-- libcs/server/server.go:532-549: the switch on the lower-cased `tlsMinVersion`. -/
def minVersion (v : Text) : Nat :=
  if v.map Char.toLower = "tls1.1".toList then 11
  else if v.map Char.toLower = "tls1.3".toList then 13
  else 12

/-- `if err != nil { return }` after each part of `Start`, libcs/server/server.go:341-471: the next part runs
only if nothing has failed. -/
def stage (f : St → St) (s : St) : St :=
  match s.res with
  | .run => f s
  | _ => s

/-- libcs/server/server.go:223-226, 237-240, 278-281: opens a socket for the service `e`, or ends with an
error. -/
def openEp (w : World) (e : Ep) (s : St) : St :=
  if w.binds e.kind e.addr then { s with opened := s.opened ++ [e], listening := true }
  else { s with res := .err }

/-- libcs/server/server.go:343-368 -/
def checks (c : Cfg) (s : St) : St :=
  if c.usersValid && !c.muxHeader.isEmpty then s else { s with res := .err }

/-- libcs/server/server.go:398-407 and 217-234 `tlsListen` -/
def startTLS (c : Cfg) (w : World) (s : St) : St :=
  if !c.tlsAddr.isEmpty && !c.cert.isEmpty && !c.key.isEmpty then
    if w.loads c.cert c.key then
      openEp w ⟨.tls, norm c.tlsAddr, .tls c.cert c.key (minVersion c.tlsMin)⟩ s
    else { s with res := .err }
  else s

/-- libcs/server/server.go:408-425 and 249-275 `quicListen`; libcs/conn/quicConn.go:49-59 `QuicListen` panics if it cannot listen. -/
def startQuic (c : Cfg) (w : World) (s : St) : St :=
  if !c.quicAddr.isEmpty then
    if !c.cert.isEmpty && !c.key.isEmpty && !w.loads c.cert c.key then { s with res := .err }
    else
      if c.bbr then
        if w.msquic c.cert c.key then
          openEp w ⟨.quic, normQuic c.quicAddr, .tls c.cert c.key 13⟩ s
        else { s with res := .err }
      else
        if w.binds .quic (normQuic c.quicAddr) then
          openEp w ⟨.quic, normQuic c.quicAddr,
            if !c.cert.isEmpty && !c.key.isEmpty then .tls c.cert c.key 13 else .generated⟩ s
        else { s with res := .panic }
  else s

/-- libcs/server/server.go:426-435 and 236-247 `listen` -/
def startPlain (c : Cfg) (w : World) (s : St) : St :=
  if !c.addr.isEmpty then openEp w ⟨.plain, norm c.addr, .clear⟩ s else s

/-- libcs/server/server.go:436-445 and 277-288 `sniListen` -/
def startSNI (c : Cfg) (w : World) (s : St) : St :=
  if !c.sniAddr.isEmpty then openEp w ⟨.sni, norm c.sniAddr, .clear⟩ s else s

/-- libcs/server/server.go:446-449 -/
def needOne (s : St) : St := if s.listening then s else { s with res := .err }

/-- libcs/server/server.go:451-456 and 473-522 `startSTUNServer` -/
def startSTUN (c : Cfg) (w : World) (s : St) : St :=
  if !c.stunAddr.isEmpty then
    let s' := openEp w ⟨.stun, norm c.stunAddr, .clear⟩ s
    if w.turn then s' else { s' with res := .err }
  else s

/-- libcs/server/server.go:458-463 and 553-588 `startAPIServer`, and 384-387 -/
def startAPI (c : Cfg) (w : World) (s : St) : St :=
  if !c.apiAddr.isEmpty then
    if !c.apiCert.isEmpty && !c.apiKey.isEmpty then
      if w.loads c.apiCert c.apiKey then
        openEp w ⟨.api, norm c.apiAddr, .tls c.apiCert c.apiKey (minVersion c.apiTlsMin)⟩ s
      else { s with res := .err }
    else openEp w ⟨.api, norm c.apiAddr, .clear⟩ s
  else s

/-- libcs/server/server.go:341-471 `Start` -/
def start (c : Cfg) (w : World) : St :=
  let s : St := {}
  let s := stage (checks c) s
  let s := stage (startTLS c w) s
  let s := stage (startQuic c w) s
  let s := stage (startPlain c w) s
  let s := stage (startSNI c w) s
  let s := stage needOne s
  let s := stage (startSTUN c w) s
  let s := stage (startAPI c w) s
  stage (fun s => { s with res := .ok }) s

/-- libcs/server/server.go:645-673 `Close` (and 682-702 `Shutdown`): the API server, the STUN server if there is one, and
the three TCP listeners. The sockets that stay open. -/
def close (w : World) (s : St) : List Ep :=
  s.opened.filter fun e => e.kind = .quic || (e.kind = .stun && !w.turn)

inductive Proc where
  | running
  | exited
deriving DecidableEq, Repr

/-- libcs/lib/export/lib.go:82-98 `RunServer` (not modelled: a configuration file that is missing): after a failed start the
process goes on if it has a web server; a panic ends it. Its sockets are closed when it ends. -/
def process (c : Cfg) (w : World) : Proc × List Ep :=
  let s := start c w
  match s.res with
  | .ok => (.running, s.opened)
  | .err => if c.web then (.running, s.opened) else (.exited, [])
  | _ => (.exited, [])

/-- libcs/server/server.go:554-560: where the status check of the internal API connects to: scheme and address. -/
def statusTarget (s : St) : Option Ep :=
  match s.opened.find? (fun e => e.kind == .tls) with
  | some e => some e
  | none => s.opened.find? (fun e => e.kind == .plain)

/-! ## Specification -/

/-- The address the user gave, as host and port: `443`, `:443` and `0.0.0.0:443` are accepted; the port is
what follows the last colon; an absent host is empty. -/
def hostPort (a : Text) : Text × Text :=
  ((a.reverse.dropWhile (· ≠ ':')).tail.reverse, (a.reverse.takeWhile (· ≠ ':')).reverse)

/-- For each service: the address the user gave for it. -/
def given (c : Cfg) : Kind → Text
  | .tls => c.tlsAddr
  | .quic => c.quicAddr
  | .plain => c.addr
  | .sni => c.sniAddr
  | .stun => c.stunAddr
  | .api => c.apiAddr

/-- What the code opens: the services whose address is given, TLS only with both files. -/
def Served (c : Cfg) (k : Kind) : Prop :=
  given c k ≠ [] ∧ (k = .tls → c.cert ≠ [] ∧ c.key ≠ [])

/-- The full property C107 about a successful start: a service is open if and only if its address is
given. -/
def OpensAsGiven (c : Cfg) (w : World) : Prop :=
  (start c w).res = .ok → ∀ k, (∃ e ∈ (start c w).opened, e.kind = k) ↔ given c k ≠ []

/-- The full property C107 about a failed start: the server listens nowhere. -/
def FailsClean (c : Cfg) (w : World) : Prop :=
  (process c w).1 = .running → (start c w).res ≠ .ok → (process c w).2 = []

/-- The full property C107 about the end: after `Close` nothing is open. -/
def ClosesAll (c : Cfg) (w : World) : Prop := close w (start c w) = []

/-! ## Lemmas -/

theorem stage_run (f : St → St) {s : St} (h : s.res = .run) : stage f s = f s := by
  simp [stage, h]

theorem stage_stop (f : St → St) {s : St} (h : s.res ≠ .run) : stage f s = s := by
  unfold stage; cases hs : s.res <;> simp_all

/-- the services in the order in which they are opened, with what each is to open -/
def ep (c : Cfg) : Kind → Ep
  | .tls => ⟨.tls, norm c.tlsAddr, .tls c.cert c.key (minVersion c.tlsMin)⟩
  | .quic => ⟨.quic, normQuic c.quicAddr,
      if c.bbr || (!c.cert.isEmpty && !c.key.isEmpty) then .tls c.cert c.key 13 else .generated⟩
  | .plain => ⟨.plain, norm c.addr, .clear⟩
  | .sni => ⟨.sni, norm c.sniAddr, .clear⟩
  | .stun => ⟨.stun, norm c.stunAddr, .clear⟩
  | .api => ⟨.api, norm c.apiAddr,
      if !c.apiCert.isEmpty && !c.apiKey.isEmpty then .tls c.apiCert c.apiKey (minVersion c.apiTlsMin)
      else .clear⟩

def wants (c : Cfg) (k : Kind) : Bool :=
  !(given c k).isEmpty && (k != .tls || (!c.cert.isEmpty && !c.key.isEmpty))

/-- the certificate a service needs can be loaded -/
def certOk (c : Cfg) (w : World) : Kind → Bool
  | .tls => w.loads c.cert c.key
  | .quic => (c.cert.isEmpty || c.key.isEmpty || w.loads c.cert c.key) && (!c.bbr || w.msquic c.cert c.key)
  | .plain => true
  | .sni => true
  | .stun => w.turn
  | .api => c.apiCert.isEmpty || c.apiKey.isEmpty || w.loads c.apiCert c.apiKey

def good (c : Cfg) (w : World) (k : Kind) : Bool := certOk c w k && w.binds k (ep c k).addr

/-- one service, uniformly -/
def startK (c : Cfg) (w : World) : Kind → St → St
  | .tls => startTLS c w
  | .quic => startQuic c w
  | .plain => startPlain c w
  | .sni => startSNI c w
  | .stun => startSTUN c w
  | .api => startAPI c w

theorem startK_skip {c : Cfg} {w : World} {k : Kind} (h : wants c k = false) (s : St) :
    startK c w k s = s := by
  cases k <;>
    simp_all [wants, given, startK, startTLS, startQuic, startPlain, startSNI, startSTUN, startAPI]

theorem startK_good {c : Cfg} {w : World} {k : Kind} (h : wants c k = true) (hg : good c w k = true)
    (s : St) :
    startK c w k s = { s with opened := s.opened ++ [ep c k], listening := true } := by
  simp only [good, Bool.and_eq_true] at hg
  obtain ⟨hc, hb⟩ := hg
  cases k
  case tls =>
    simp only [wants, given, Bool.and_eq_true, Bool.not_eq_true', Bool.or_eq_true] at h
    obtain ⟨h1, h2⟩ := h
    have h2 : c.cert.isEmpty = false ∧ c.key.isEmpty = false := by simpa using h2
    simp only [ep] at hb
    simp only [certOk] at hc
    simp [startK, startTLS, ep, h1, h2.1, h2.2, hc, openEp, hb]
  case quic =>
    simp only [wants, given, Bool.and_eq_true, Bool.not_eq_true'] at h
    simp only [ep] at hb
    simp only [certOk, Bool.and_eq_true] at hc
    obtain ⟨hl, hm⟩ := hc
    cases h1 : c.cert.isEmpty <;> cases h2 : c.key.isEmpty <;> cases h3 : c.bbr <;>
      simp [h1, h2, h3] at hl hm <;>
      simp [startK, startQuic, ep, h.1, h1, h2, h3, hl, hm, openEp, hb]
  case plain =>
    simp only [wants, given, Bool.and_eq_true, Bool.not_eq_true'] at h
    simp only [ep] at hb
    simp [startK, startPlain, ep, h.1, openEp, hb]
  case sni =>
    simp only [wants, given, Bool.and_eq_true, Bool.not_eq_true'] at h
    simp only [ep] at hb
    simp [startK, startSNI, ep, h.1, openEp, hb]
  case stun =>
    simp only [wants, given, Bool.and_eq_true, Bool.not_eq_true'] at h
    simp only [ep] at hb
    simp only [certOk] at hc
    simp [startK, startSTUN, ep, h.1, openEp, hb, hc]
  case api =>
    simp only [wants, given, Bool.and_eq_true, Bool.not_eq_true'] at h
    simp only [ep] at hb
    simp only [certOk] at hc
    cases h1 : c.apiCert.isEmpty <;> cases h2 : c.apiKey.isEmpty <;> simp [h1, h2] at hc <;>
      simp [startK, startAPI, ep, h.1, h1, h2, hc, openEp, hb]

theorem startK_bad {c : Cfg} {w : World} {k : Kind} (h : wants c k = true) (hg : good c w k = false)
    (s : St) (hs : s.res = .run) :
    (startK c w k s).res ≠ .run ∧ (startK c w k s).res ≠ .ok := by
  have hg : certOk c w k = true → w.binds k (ep c k).addr = false := by
    intro hc; simpa [good, hc] using hg
  cases k
  case tls =>
    simp only [wants, given, Bool.and_eq_true, Bool.not_eq_true', Bool.or_eq_true] at h
    obtain ⟨h1, h2⟩ := h
    have h2 : c.cert.isEmpty = false ∧ c.key.isEmpty = false := by simpa using h2
    simp only [ep, certOk] at hg
    cases hl : w.loads c.cert c.key with
    | false => simp [startK, startTLS, h1, h2.1, h2.2, hl]
    | true => simp [startK, startTLS, h1, h2.1, h2.2, hl, openEp, hg hl]
  case quic =>
    simp only [wants, given, Bool.and_eq_true, Bool.not_eq_true'] at h
    simp only [ep, certOk] at hg
    cases h1 : c.cert.isEmpty <;> cases h2 : c.key.isEmpty <;> cases h3 : c.bbr <;>
      cases hl : w.loads c.cert c.key <;> cases hm : w.msquic c.cert c.key <;>
      simp [h1, h2, h3, hl, hm] at hg <;>
      simp [startK, startQuic, h.1, h1, h2, h3, hl, hm, openEp, hg]
  case plain =>
    simp only [wants, given, Bool.and_eq_true, Bool.not_eq_true'] at h
    have hb := hg rfl
    simp only [ep] at hb
    simp [startK, startPlain, h.1, openEp, hb]
  case sni =>
    simp only [wants, given, Bool.and_eq_true, Bool.not_eq_true'] at h
    have hb := hg rfl
    simp only [ep] at hb
    simp [startK, startSNI, h.1, openEp, hb]
  case stun =>
    simp only [wants, given, Bool.and_eq_true, Bool.not_eq_true'] at h
    simp only [ep, certOk] at hg
    cases hl : w.turn with
    | false => simp [startK, startSTUN, h.1, hl]
    | true => simp [startK, startSTUN, h.1, openEp, hl, hg hl]
  case api =>
    simp only [wants, given, Bool.and_eq_true, Bool.not_eq_true'] at h
    simp only [ep, certOk] at hg
    cases h1 : c.apiCert.isEmpty <;> cases h2 : c.apiKey.isEmpty <;>
      cases hl : w.loads c.apiCert c.apiKey <;> simp [h1, h2, hl] at hg <;>
      simp [startK, startAPI, h.1, h1, h2, hl, openEp, hg]

/-- a stage of a successful start: it ran, and either skipped or opened its service -/
theorem stageK {c : Cfg} {w : World} {k : Kind} {s : St} (hr : s.res = .run)
    (h : (stage (startK c w k) s).res = .run) :
    (wants c k = true → good c w k = true) ∧
    stage (startK c w k) s =
      { s with opened := s.opened ++ (if wants c k then [ep c k] else []),
               listening := s.listening || wants c k } := by
  rw [stage_run _ hr] at h ⊢
  cases hw : wants c k with
  | false => simp [startK_skip hw]
  | true =>
    cases hg : good c w k with
    | false => exact absurd h (startK_bad hw hg s hr).1
    | true => simp [startK_good hw hg]

theorem stage_res_ne {f : St → St} {s : St} (h : (stage f s).res = .run) : s.res = .run := by
  cases hs : s.res with
  | run => rfl
  | _ => rw [stage_stop f (by simp [hs])] at h; rw [hs] at h; exact h

def frontKinds : List Kind := [.tls, .quic, .plain, .sni]
def allKinds : List Kind := [.tls, .quic, .plain, .sni, .stun, .api]

theorem stageK_res {c : Cfg} {w : World} {k : Kind} {s : St} (h : s.res ≠ .ok) :
    (stage (startK c w k) s).res ≠ .ok := by
  cases hs : s.res with
  | run =>
    rw [stage_run _ hs]
    cases hw : wants c k with
    | false => rw [startK_skip hw]; exact h
    | true =>
      cases hg : good c w k with
      | false => exact (startK_bad hw hg s hs).2
      | true => rw [startK_good hw hg]; exact h
  | _ => rw [stage_stop _ (by simp [hs])]; exact h

theorem stageFinal {s : St} (h0 : s.res ≠ .ok) (h : (stage (fun s => { s with res := .ok }) s).res = .ok) :
    s.res = .run := by
  cases hs : s.res with
  | run => rfl
  | _ => rw [stage_stop _ (by simp [hs])] at h; exact absurd h h0

theorem order (f : Kind → Bool) (g : Kind → Ep) :
    [] ++ (if f .tls then [g .tls] else []) ++ (if f .quic then [g .quic] else []) ++
      (if f .plain then [g .plain] else []) ++ (if f .sni then [g .sni] else []) ++
      (if f .stun then [g .stun] else []) ++ (if f .api then [g .api] else []) =
    (allKinds.filter f).map g := by
  cases h1 : f .tls <;> cases h2 : f .quic <;> cases h3 : f .plain <;> cases h4 : f .sni <;>
    cases h5 : f .stun <;> cases h6 : f .api <;> simp [allKinds, List.filter, h1, h2, h3, h4, h5, h6]

/-- what a successful start has done -/
theorem start_ok {c : Cfg} {w : World} (h : (start c w).res = .ok) :
    (start c w).opened = (allKinds.filter (wants c)).map (ep c) ∧
    (∀ k, wants c k = true → good c w k = true) ∧
    frontKinds.any (wants c) = true ∧ c.usersValid = true ∧ c.muxHeader ≠ [] := by
  unfold start at h ⊢
  dsimp only at h ⊢
  have hc0 : (stage (checks c) {}).res ≠ .ok := by
    rw [stage_run _ rfl]; unfold checks; split <;> simp
  have hno : ∀ s : St, s.res ≠ .ok → (stage needOne s).res ≠ .ok := by
    intro s hs
    cases hr : s.res with
    | run => rw [stage_run _ hr]; unfold needOne; split <;> simp [hr]
    | _ => rw [stage_stop _ (by simp [hr])]; exact hs
  have e1 := stageK_res (c := c) (w := w) (k := .tls) hc0
  have e2 := stageK_res (c := c) (w := w) (k := .quic) e1
  have e3 := stageK_res (c := c) (w := w) (k := .plain) e2
  have e4 := stageK_res (c := c) (w := w) (k := .sni) e3
  have e5 := hno _ e4
  have e6 := stageK_res (c := c) (w := w) (k := .stun) e5
  have e7 := stageK_res (c := c) (w := w) (k := .api) e6
  have r8 := stageFinal e7 h
  have r7 := stage_res_ne r8
  have r6 := stage_res_ne r7
  have r5 := stage_res_ne r6
  have r4 := stage_res_ne r5
  have r3 := stage_res_ne r4
  have r2 := stage_res_ne r3
  have r1 := stage_res_ne r2
  have hchk : stage (checks c) {} = {} ∧ c.usersValid = true ∧ c.muxHeader ≠ [] := by
    rw [stage_run _ rfl] at r1 ⊢
    unfold checks at r1 ⊢
    split at r1
    · rename_i hc
      simp only [Bool.and_eq_true, Bool.not_eq_true'] at hc
      refine ⟨by simp [hc], hc.1, ?_⟩
      intro he
      simp [he] at hc
    · simp at r1
  obtain ⟨g1, q1⟩ := stageK (k := .tls) r1 r2
  obtain ⟨g2, q2⟩ := stageK (k := .quic) r2 r3
  obtain ⟨g3, q3⟩ := stageK (k := .plain) r3 r4
  obtain ⟨g4, q4⟩ := stageK (k := .sni) r4 r5
  obtain ⟨g6, q6⟩ := stageK (k := .stun) r6 r7
  obtain ⟨g7, q7⟩ := stageK (k := .api) r7 r8
  have hn : (stage (startK c w .sni) (stage (startK c w .plain) (stage (startK c w .quic)
      (stage (startK c w .tls) (stage (checks c) {}))))).listening = true ∧
      stage needOne (stage (startK c w .sni) (stage (startK c w .plain) (stage (startK c w .quic)
      (stage (startK c w .tls) (stage (checks c) {}))))) = (stage (startK c w .sni)
      (stage (startK c w .plain) (stage (startK c w .quic)
      (stage (startK c w .tls) (stage (checks c) {}))))) := by
    have r6' : (stage needOne (stage (startK c w .sni) (stage (startK c w .plain) (stage (startK c w .quic)
      (stage (startK c w .tls) (stage (checks c) {})))))).res = .run := r6
    have r5' : (stage (startK c w .sni) (stage (startK c w .plain) (stage (startK c w .quic)
      (stage (startK c w .tls) (stage (checks c) {}))))).res = .run := r5
    rw [stage_run _ r5'] at r6' ⊢
    unfold needOne at r6' ⊢
    split at r6'
    · rename_i hl
      simp [hl]
    · simp at r6'
  obtain ⟨hl, hn⟩ := hn
  rw [q4, q3, q2, q1, hchk.1] at hl
  have eqStart : stage (startAPI c w) (stage (startSTUN c w) (stage needOne (stage (startSNI c w)
      (stage (startPlain c w) (stage (startQuic c w) (stage (startTLS c w) (stage (checks c) {}))))))) =
      stage (startK c w .api) (stage (startK c w .stun) (stage needOne (stage (startK c w .sni)
      (stage (startK c w .plain) (stage (startK c w .quic) (stage (startK c w .tls)
        (stage (checks c) {}))))))) := rfl
  rw [eqStart, stage_run _ r8, q7, q6]
  refine ⟨?_, ?_, ?_, hchk.2.1, hchk.2.2⟩
  · rw [hn, q4, q3, q2, q1, hchk.1]
    exact order (wants c) (ep c)
  · intro k hk
    cases k
    · exact g1 hk
    · exact g2 hk
    · exact g3 hk
    · exact g4 hk
    · exact g6 hk
    · exact g7 hk
  · simpa [frontKinds, or_assoc] using hl

theorem wants_iff (c : Cfg) (k : Kind) : wants c k = true ↔ Served c k := by
  cases k <;> simp [wants, Served, given]

theorem ep_kind (c : Cfg) (k : Kind) : (ep c k).kind = k := by cases k <;> rfl

theorem mem_opened {c : Cfg} {w : World} (h : (start c w).res = .ok) (e : Ep) :
    e ∈ (start c w).opened ↔ ∃ k, Served c k ∧ e = ep c k := by
  rw [(start_ok h).1]
  constructor
  · intro hm
    obtain ⟨k, hk, he⟩ := List.mem_map.mp hm
    exact ⟨k, (wants_iff c k).mp (List.mem_filter.mp hk).2, he.symm⟩
  · rintro ⟨k, hk, rfl⟩
    refine List.mem_map.mpr ⟨k, List.mem_filter.mpr ⟨?_, (wants_iff c k).mpr hk⟩, rfl⟩
    cases k <;> simp [allKinds]

theorem split_last {a : Text} (h : ':' ∈ a) : ∃ x y, a = x ++ ':' :: y ∧ ':' ∉ y := by
  induction a with
  | nil => simp at h
  | cons b t ih =>
    by_cases ht : ':' ∈ t
    · obtain ⟨x, y, e, hy⟩ := ih ht
      exact ⟨b :: x, y, by simp [e], hy⟩
    · have : b = ':' := by
        rcases List.mem_cons.mp h with h | h
        · exact h.symm
        · exact absurd h ht
      exact ⟨[], t, by simp [this], ht⟩

theorem hostPort_colon {x y : Text} (hy : ':' ∉ y) : hostPort (x ++ ':' :: y) = (x, y) := by
  have e : (x ++ ':' :: y).reverse = y.reverse ++ ':' :: x.reverse := by simp
  have hall : ∀ a ∈ y.reverse, decide (a ≠ ':') = true := by
    intro a ha; simp; rintro rfl; exact hy (by simpa using ha)
  unfold hostPort
  rw [e, List.takeWhile_append_of_pos hall, List.dropWhile_append_of_pos hall]
  simp [List.takeWhile, List.dropWhile]

theorem hostPort_plain {a : Text} (h : ':' ∉ a) : hostPort a = ([], a) := by
  have hall : ∀ x ∈ a.reverse, decide (x ≠ ':') = true := by
    intro x hx; simp; rintro rfl; exact h (by simpa using hx)
  unfold hostPort
  have h1 : a.reverse.takeWhile (fun x => decide (x ≠ ':')) = a.reverse := by
    have := List.takeWhile_append_of_pos (l₂ := []) hall; simpa using this
  have h2 : a.reverse.dropWhile (fun x => decide (x ≠ ':')) = [] := by
    have := List.dropWhile_append_of_pos (l₂ := []) hall; simpa using this
  rw [h1, h2]
  simp

theorem hostPort_norm (a : Text) : hostPort (norm a) = hostPort a := by
  unfold norm
  split
  · rfl
  · rename_i h
    have := hostPort_colon (x := []) h
    rw [hostPort_plain h]
    simpa using this

theorem hostPort_normQuic (a : Text) (ha : a ≠ []) :
    hostPort (normQuic a) =
      ((if (hostPort a).1 = [] then "0.0.0.0".toList else (hostPort a).1), (hostPort a).2) ∨
    a.head? = some ':' ∧ (hostPort a).1 ≠ [] := by
  unfold normQuic
  by_cases h : ':' ∈ a
  · simp only [h, not_true, if_false]
    obtain ⟨x, y, e, hy⟩ := split_last h
    rw [e, hostPort_colon hy]
    cases x with
    | nil =>
      left
      have := hostPort_colon (x := "0.0.0.0".toList) hy
      simpa using this
    | cons b t =>
      simp only [List.cons_append, List.head?_cons]
      by_cases hb : b = ':'
      · subst hb; right; simp
      · left
        have := hostPort_colon (x := b :: t) hy
        simpa [hb] using this
  · simp only [h, not_false_eq_true, if_true]
    left
    rw [hostPort_plain h]
    have := hostPort_colon (x := "0.0.0.0".toList) h
    simpa using this

/-! ### The start succeeds if nothing stands against it -/

theorem stageK_good {c : Cfg} {w : World} {k : Kind} {s : St} (hr : s.res = .run)
    (h : wants c k = true → good c w k = true) :
    stage (startK c w k) s =
      { s with opened := s.opened ++ (if wants c k then [ep c k] else []),
               listening := s.listening || wants c k } := by
  rw [stage_run _ hr]
  cases hw : wants c k with
  | false => simp [startK_skip hw]
  | true => simp [startK_good hw (h hw)]

theorem start_good {c : Cfg} {w : World} (hu : c.usersValid = true) (hm : c.muxHeader ≠ [])
    (hf : frontKinds.any (wants c) = true) (hg : ∀ k, wants c k = true → good c w k = true) :
    (start c w).res = .ok := by
  have h0 : stage (checks c) {} = {} := by
    rw [stage_run _ rfl]; unfold checks
    rw [if_pos]
    simp [hu, hm]
  have e : start c w = stage (fun s => { s with res := .ok }) (stage (startK c w .api)
      (stage (startK c w .stun) (stage needOne (stage (startK c w .sni)
      (stage (startK c w .plain) (stage (startK c w .quic) (stage (startK c w .tls)
        (stage (checks c) {})))))))) := rfl
  rw [e, h0, stageK_good rfl (hg .tls), stageK_good rfl (hg .quic), stageK_good rfl (hg .plain),
    stageK_good rfl (hg .sni)]
  rw [stage_run needOne rfl]
  have hl : (false || wants c .tls || wants c .quic || wants c .plain || wants c .sni) = true := by
    have : (wants c .tls || (wants c .quic || (wants c .plain || (wants c .sni || false)))) = true := hf
    simpa [Bool.or_assoc] using this
  unfold needOne
  rw [if_pos (by exact hl), stageK_good rfl (hg .stun), stageK_good rfl (hg .api), stage_run _ rfl]

/-! ## C108: the parts that hold -/

/-- **C108** After a successful start a service is open exactly if its address was given (and, for TLS, a
certificate and a key). -/
theorem served_iff {c : Cfg} {w : World} (h : (start c w).res = .ok) (k : Kind) :
    (∃ e ∈ (start c w).opened, e.kind = k) ↔ Served c k := by
  constructor
  · rintro ⟨e, he, rfl⟩
    obtain ⟨k, hk, rfl⟩ := (mem_opened h e).mp he
    rwa [ep_kind]
  · intro hk
    exact ⟨ep c k, (mem_opened h _).mpr ⟨k, hk, rfl⟩, ep_kind c k⟩

/-- **C108** No service is opened twice. -/
theorem one_socket_each {c : Cfg} {w : World} (h : (start c w).res = .ok) :
    ((start c w).opened.map (·.kind)).Nodup := by
  rw [(start_ok h).1, List.map_map]
  have : ((fun x => x.kind) ∘ ep c) = id := by funext k; exact ep_kind c k
  rw [this, List.map_id]
  exact List.Pairwise.filter _ (by decide)

/-- **C108** At least one of the four services that clients and visitors use is open. -/
theorem something_served {c : Cfg} {w : World} (h : (start c w).res = .ok) :
    ∃ e ∈ (start c w).opened, e.kind = .tls ∨ e.kind = .quic ∨ e.kind = .plain ∨ e.kind = .sni := by
  have hf := (start_ok h).2.2.1
  obtain ⟨k, hk, hw⟩ := List.any_eq_true.mp hf
  refine ⟨ep c k, (mem_opened h _).mpr ⟨k, (wants_iff c k).mp hw, rfl⟩, ?_⟩
  rw [ep_kind]
  simpa [frontKinds] using hk

/-- **C108** Every socket is bound to the address the user gave, read as host and port, and written with a
colon, as `net.Listen` demands. For QUIC an absent
host means all IPv4 addresses (libcs/server/server.go:413-419). -/
theorem address_as_given {c : Cfg} {w : World} (h : (start c w).res = .ok) {e : Ep}
    (he : e ∈ (start c w).opened) (hq : e.kind ≠ .quic) :
    ':' ∈ e.addr ∧ hostPort e.addr = hostPort (given c e.kind) := by
  obtain ⟨k, hk, rfl⟩ := (mem_opened h e).mp he
  have hn : ∀ a, ':' ∈ norm a := by
    intro a; unfold norm; split
    · assumption
    · simp
  cases k <;> first | exact absurd rfl hq | exact ⟨hn _, hostPort_norm _⟩

theorem quic_address_as_given {c : Cfg} {w : World} (h : (start c w).res = .ok) {e : Ep}
    (he : e ∈ (start c w).opened) (hq : e.kind = .quic)
    (hv : c.quicAddr.head? = some ':' → (hostPort c.quicAddr).1 = []) :
    ':' ∈ e.addr ∧ hostPort e.addr = ((if (hostPort c.quicAddr).1 = [] then "0.0.0.0".toList
      else (hostPort c.quicAddr).1), (hostPort c.quicAddr).2) := by
  obtain ⟨k, hk, rfl⟩ := (mem_opened h e).mp he
  rw [ep_kind] at hq
  subst hq
  refine ⟨?_, ?_⟩
  · show ':' ∈ normQuic c.quicAddr
    unfold normQuic
    split
    · simp
    · rename_i hc
      split
      · exact List.mem_append_right _ (by simpa using hc)
      · simpa using hc
  rcases hostPort_normQuic c.quicAddr hk.1 with h1 | ⟨h1, h2⟩
  · exact h1
  · exact absurd (hv h1) h2

/-- **C108** The TLS service uses the certificate and the key given, which could be loaded. -/
theorem tls_certificate {c : Cfg} {w : World} (h : (start c w).res = .ok) {e : Ep}
    (he : e ∈ (start c w).opened) (hk : e.kind = .tls) :
    w.loads c.cert c.key = true ∧ ∃ v, e.sec = .tls c.cert c.key v ∧
      (c.tlsMin = "tls1.3".toList → v = 13) ∧ (c.tlsMin = "tls1.2".toList → v = 12) ∧
      (v < 12 → v = 11 ∧ c.tlsMin.map Char.toLower = "tls1.1".toList) := by
  obtain ⟨k, hk', rfl⟩ := (mem_opened h e).mp he
  rw [ep_kind] at hk
  subst hk
  have hg := (start_ok h).2.1 .tls ((wants_iff c _).mpr hk')
  refine ⟨by simp [good, certOk] at hg; exact hg.1, minVersion c.tlsMin, rfl, ?_, ?_, ?_⟩
  · intro e; rw [e]; decide
  · intro e; rw [e]; decide
  · unfold minVersion
    split
    · intro _; exact ⟨rfl, by assumption⟩
    · split <;> intro h <;> omega

/-- **C108** The QUIC service is always encrypted. -/
theorem quic_encrypted {c : Cfg} {w : World} (h : (start c w).res = .ok) {e : Ep}
    (he : e ∈ (start c w).opened) (hk : e.kind = .quic) :
    e.sec ≠ .clear ∧ (c.cert ≠ [] → c.key ≠ [] → w.loads c.cert c.key = true ∧
      ∃ v, e.sec = .tls c.cert c.key v) := by
  obtain ⟨k, hk', rfl⟩ := (mem_opened h e).mp he
  rw [ep_kind] at hk
  subst hk
  have hg := (start_ok h).2.1 .quic ((wants_iff c _).mpr hk')
  refine ⟨?_, ?_⟩
  · simp only [ep]; split <;> simp
  · intro h1 h2
    simp [good, certOk, h1, h2] at hg
    exact ⟨hg.1.1, 13, by simp [ep, h1, h2]⟩

/-- **C108** The internal API is encrypted if certificate and key are given for it. -/
theorem api_encrypted {c : Cfg} {w : World} (h : (start c w).res = .ok) {e : Ep}
    (he : e ∈ (start c w).opened) (hk : e.kind = .api) (h1 : c.apiCert ≠ []) (h2 : c.apiKey ≠ []) :
    w.loads c.apiCert c.apiKey = true ∧ ∃ v, e.sec = .tls c.apiCert c.apiKey v := by
  obtain ⟨k, hk', rfl⟩ := (mem_opened h e).mp he
  rw [ep_kind] at hk
  subst hk
  have hg := (start_ok h).2.1 .api ((wants_iff c _).mpr hk')
  simp [good, certOk, h1, h2] at hg
  exact ⟨hg.1, minVersion c.apiTlsMin, by simp [ep, h1, h2]⟩

/-- **C108** A service whose address cannot be bound, or whose certificate cannot be loaded, keeps the server
from starting. -/
theorem failing_service_fails_start {c : Cfg} {w : World} {k : Kind} (hk : Served c k)
    (hb : (∀ a, w.binds k a = false) ∨ (k = .tls ∧ w.loads c.cert c.key = false) ∨
      (k = .api ∧ c.apiCert ≠ [] ∧ c.apiKey ≠ [] ∧ w.loads c.apiCert c.apiKey = false) ∨
      (k = .quic ∧ c.cert ≠ [] ∧ c.key ≠ [] ∧ w.loads c.cert c.key = false)) :
    (start c w).res ≠ .ok := by
  intro h
  have hg := (start_ok h).2.1 k ((wants_iff c _).mpr hk)
  simp only [good, Bool.and_eq_true] at hg
  rcases hb with hb | ⟨rfl, hb⟩ | ⟨rfl, h1, h2, hb⟩ | ⟨rfl, h1, h2, hb⟩
  · rw [hb] at hg; exact Bool.noConfusion hg.2
  · simp [certOk, hb] at hg
  · simp [certOk, hb, h1, h2] at hg
  · simp [certOk, hb, h1, h2] at hg

/-- **C108** And if nothing stands against it, the server starts. -/
theorem starts_if_possible {c : Cfg} {w : World} (hu : c.usersValid = true) (hm : c.muxHeader ≠ [])
    (hk : ∃ k, Served c k ∧ k ≠ .stun ∧ k ≠ .api)
    (hb : ∀ k a, w.binds k a = true) (hl : ∀ a b, w.loads a b = true) (hq : ∀ a b, w.msquic a b = true)
    (ht : w.turn = true) : (start c w).res = .ok := by
  refine start_good hu hm ?_ ?_
  · obtain ⟨k, hk, h1, h2⟩ := hk
    refine List.any_eq_true.mpr ⟨k, ?_, (wants_iff c k).mpr hk⟩
    cases k <;> simp_all [frontKinds]
  · intro k _
    cases k <;> simp [good, certOk, hb, hl, hq, ht]

/-- **C108** After `Close` at most the QUIC socket of a started server is open. -/
theorem close_leaves_only_quic {c : Cfg} {w : World} (h : (start c w).res = .ok) {e : Ep}
    (he : e ∈ close w (start c w)) : e.kind = .quic := by
  obtain ⟨hm, hf⟩ := List.mem_filter.mp he
  obtain ⟨k, hk, rfl⟩ := (mem_opened h e).mp hm
  rw [ep_kind] at hf ⊢
  rcases (by simpa using hf : k = .quic ∨ k = .stun ∧ w.turn = false) with h1 | ⟨rfl, ht⟩
  · exact h1
  · have hg := (start_ok h).2.1 .stun ((wants_iff c _).mpr hk)
    simp [good, certOk, ht] at hg

/-- **C108** The status check of the internal API is directed at an open service of the server: TLS if there
is one, else the unencrypted one. -/
theorem status_target {c : Cfg} {w : World} (h : (start c w).res = .ok) :
    (Served c .tls → ∃ e, statusTarget (start c w) = some e ∧ e.kind = .tls ∧ e ∈ (start c w).opened) ∧
    (¬ Served c .tls → Served c .plain →
      ∃ e, statusTarget (start c w) = some e ∧ e.kind = .plain ∧ e ∈ (start c w).opened) ∧
    (¬ Served c .tls → ¬ Served c .plain → statusTarget (start c w) = none) := by
  have hnone : ∀ k, ¬ Served c k → (start c w).opened.find? (fun e => e.kind == k) = none := by
    intro k hk
    refine List.find?_eq_none.mpr ?_
    intro e he hek
    exact hk ((served_iff h k).mp ⟨e, he, by simpa using hek⟩)
  have hsome : ∀ k, Served c k → ∃ e, (start c w).opened.find? (fun e => e.kind == k) = some e ∧ e.kind = k ∧
      e ∈ (start c w).opened := by
    intro k hk
    obtain ⟨e, he, hek⟩ := (served_iff h k).mpr hk
    cases hf : (start c w).opened.find? (fun e => e.kind == k) with
    | none => exact absurd (by simpa using hek) (List.find?_eq_none.mp hf e he)
    | some e' =>
      exact ⟨e', rfl, by simpa using List.find?_some (p := fun e : Ep => e.kind == k) hf,
        List.mem_of_find?_eq_some hf⟩
  refine ⟨?_, ?_, ?_⟩
  · intro hk
    obtain ⟨e, h1, h2, h3⟩ := hsome .tls hk
    exact ⟨e, by simp [statusTarget, h1], h2, h3⟩
  · intro hn hk
    obtain ⟨e, h1, h2, h3⟩ := hsome .plain hk
    exact ⟨e, by simp [statusTarget, hnone _ hn, h1], h2, h3⟩
  · intro hn hk
    simp [statusTarget, hnone _ hn, hnone _ hk]

/-! ## C107: the full property, and where it fails -/

/-- **C107** (part) Where every address given is usable, that is, TLS comes with its files. -/
theorem opens_as_given_partial {c : Cfg} {w : World} (ht : c.tlsAddr ≠ [] → c.cert ≠ [] ∧ c.key ≠ []) :
    OpensAsGiven c w := by
  intro h k
  rw [served_iff h]
  constructor
  · exact fun hk => hk.1
  · intro hk
    exact ⟨hk, by rintro rfl; exact ht hk⟩

/-- **C107** (part) Without a web server a failed start ends the process. -/
theorem fails_clean_partial {c : Cfg} {w : World} (hw : c.web = false) : FailsClean c w := by
  intro h1 h2
  unfold process at h1
  dsimp only at h1
  cases hr : (start c w).res <;> simp_all

/-- **C107** (part) Without QUIC everything is closed. -/
theorem closes_all_partial {c : Cfg} {w : World} (h : (start c w).res = .ok) (hq : c.quicAddr = []) :
    ClosesAll c w := by
  unfold ClosesAll
  rw [List.eq_nil_iff_forall_not_mem]
  intro e he
  have hk := close_leaves_only_quic h he
  obtain ⟨hm, _⟩ := List.mem_filter.mp he
  exact ((served_iff h .quic).mp ⟨e, hm, hk⟩).1 hq

/-- **C107 fails**: a TLS address without certificate or key is ignored; the start succeeds if any other
address is given. -/
theorem tls_without_certificate_ignored {c : Cfg} {w : World} (ht : c.tlsAddr ≠ [])
    (hc : c.cert = [] ∨ c.key = []) (h : (start c w).res = .ok) :
    (¬ ∃ e ∈ (start c w).opened, e.kind = .tls) ∧ ¬ OpensAsGiven c w := by
  have hn : ¬ ∃ e ∈ (start c w).opened, e.kind = .tls := by
    rw [served_iff h]
    intro hs
    have := hs.2 rfl
    rcases hc with hc | hc
    · exact this.1 hc
    · exact this.2 hc
  exact ⟨hn, fun ho => hn ((ho h .tls).mpr ht)⟩

/-- **C107 fails**: an API certificate without its key (or the reverse) is ignored and the API, to which
secrets are sent, is served without encryption. -/
theorem api_half_certificate_in_clear {c : Cfg} {w : World} (ha : c.apiAddr ≠ [])
    (hc : c.apiCert = [] ∨ c.apiKey = []) (h : (start c w).res = .ok) :
    ∃ e ∈ (start c w).opened, e.kind = .api ∧ e.sec = .clear := by
  refine ⟨ep c .api, (mem_opened h _).mpr ⟨.api, ⟨ha, by simp⟩, rfl⟩, rfl, ?_⟩
  rcases hc with hc | hc <;> simp [ep, hc]

/-- **C107 fails**: QUIC stays open after `Close`. -/
theorem quic_survives_close {c : Cfg} {w : World} (h : (start c w).res = .ok) (hq : c.quicAddr ≠ []) :
    (∃ e ∈ close w (start c w), e.kind = .quic) ∧ ¬ ClosesAll c w := by
  obtain ⟨e, he, hk⟩ := (served_iff h .quic).mpr ⟨hq, by simp⟩
  have hm : e ∈ close w (start c w) := List.mem_filter.mpr ⟨he, by simp [hk]⟩
  refine ⟨⟨e, hm, hk⟩, ?_⟩
  intro hc
  rw [hc] at hm
  exact absurd hm (by simp)

/-- **C107 fails**: with a web server, a server whose start failed serves the addresses opened before the
failure: here the unencrypted one, because of the SNI address. -/
theorem failed_start_serves {c : Cfg} {w : World} (hu : c.usersValid = true) (hm : c.muxHeader ≠ [])
    (hweb : c.web = true) (ht : c.tlsAddr = []) (hq : c.quicAddr = []) (hp : c.addr ≠ [])
    (hpb : ∀ a, w.binds .plain a = true) (hs : c.sniAddr ≠ []) (hsb : ∀ a, w.binds .sni a = false) :
    (start c w).res = .err ∧
    process c w = (.running, [⟨.plain, norm c.addr, .clear⟩]) ∧ ¬ FailsClean c w := by
  have h0 : stage (checks c) {} = {} := by
    rw [stage_run _ rfl]; unfold checks
    rw [if_pos]
    simp [hu, hm]
  have hst : start c w = ⟨.err, [⟨.plain, norm c.addr, .clear⟩], true⟩ := by
    have w1 : wants c .tls = false := by simp [wants, given, ht]
    have w2 : wants c .quic = false := by simp [wants, given, hq]
    have w3 : wants c .plain = true := by simp [wants, given, hp]
    have e : start c w = stage (fun s => { s with res := .ok }) (stage (startK c w .api)
      (stage (startK c w .stun) (stage needOne (stage (startK c w .sni)
      (stage (startK c w .plain) (stage (startK c w .quic) (stage (startK c w .tls)
        (stage (checks c) {})))))))) := rfl
    rw [e, h0, stageK_good (k := .tls) rfl (fun h => by simp [w1] at h),
      stageK_good (k := .quic) rfl (fun h => by simp [w2] at h),
      stageK_good (k := .plain) rfl (fun _ => by simp [good, certOk, hpb])]
    rw [stage_run (startK c w .sni) rfl]
    have hi : ((([] ++ if wants c .tls = true then [ep c .tls] else []) ++
        if wants c .quic = true then [ep c .quic] else []) ++
        if wants c .plain = true then [ep c .plain] else []) = [ep c .plain] := by simp [w1, w2, w3]
    have hl : (false || wants c .tls || wants c .quic || wants c .plain) = true := by simp [w3]
    have hsni : ∀ s : St, startK c w .sni s = { s with res := .err } := by
      intro s
      simp [startK, startSNI, openEp, hsb, hs]
    rw [hsni]
    rw [stage_stop needOne (by simp), stage_stop (startK c w .stun) (by simp),
      stage_stop (startK c w .api) (by simp), stage_stop _ (by simp)]
    simp [hi, hl, w1, w2, w3, ep]
  refine ⟨by rw [hst], by simp [process, hst, hweb], ?_⟩
  intro hf
  have := hf (by simp [process, hst, hweb]) (by rw [hst]; simp)
  simp [process, hst, hweb] at this

/-- **C107 fails**: if the QUIC address cannot be bound, the start panics instead of reporting an error, and
the process ends, also with a web server. -/
theorem quic_address_in_use_panics {c : Cfg} {w : World} (hu : c.usersValid = true) (hm : c.muxHeader ≠ [])
    (ht : c.tlsAddr = []) (hq : c.quicAddr ≠ []) (hc : c.cert = []) (hbbr : c.bbr = false)
    (hb : ∀ a, w.binds .quic a = false) :
    (start c w).res = .panic ∧ process c w = (.exited, []) := by
  have h0 : stage (checks c) {} = {} := by
    rw [stage_run _ rfl]; unfold checks
    rw [if_pos]
    simp [hu, hm]
  have hst : (start c w).res = .panic := by
    have w1 : wants c .tls = false := by simp [wants, given, ht]
    have e : start c w = stage (fun s => { s with res := .ok }) (stage (startK c w .api)
      (stage (startK c w .stun) (stage needOne (stage (startK c w .sni)
      (stage (startK c w .plain) (stage (startK c w .quic) (stage (startK c w .tls)
        (stage (checks c) {})))))))) := rfl
    have hquic : ∀ s : St, startK c w .quic s = { s with res := .panic } := by
      intro s
      simp [startK, startQuic, hq, hc, hbbr, hb]
    rw [e, h0, stageK_good (k := .tls) rfl (fun h => by simp [w1] at h), stage_run (startK c w .quic) rfl, hquic]
    rw [stage_stop (startK c w .plain) (by simp), stage_stop (startK c w .sni) (by simp),
      stage_stop needOne (by simp), stage_stop (startK c w .stun) (by simp),
      stage_stop (startK c w .api) (by simp), stage_stop _ (by simp)]
  exact ⟨hst, by simp [process, hst]⟩

/-! ## Witnesses -/

def full : Cfg :=
  { addr := "80".toList, tlsAddr := "443".toList, quicAddr := ":443".toList, sniAddr := "0.0.0.0:8443".toList,
    stunAddr := "3478".toList, apiAddr := "8080".toList, cert := "c".toList, key := "k".toList, web := true }
def allGood : World := ⟨fun _ _ => true, fun _ _ => true, fun _ _ => true, true⟩

example : (start full allGood).res = .ok ∧
    (start full allGood).opened.map (fun e => (e.kind, String.ofList e.addr)) =
      [(.tls, ":443"), (.quic, "0.0.0.0:443"), (.plain, ":80"), (.sni, "0.0.0.0:8443"), (.stun, ":3478"),
        (.api, ":8080")] ∧
    (close allGood (start full allGood)).map (·.kind) = [.quic] := by decide +kernel

example : hostPort "443".toList = ([], "443".toList) ∧ hostPort "[::1]:443".toList = ("[::1]".toList, "443".toList) ∧
    hostPort (norm "443".toList) = ([], "443".toList) := by decide +kernel

/-- the certificate is forgotten -/
example : (start { full with cert := [] } allGood).res = .ok ∧
    (start { full with cert := [] } allGood).opened.map (·.kind) = [.quic, .plain, .sni, .stun, .api] := by
  decide +kernel

/-- the SNI address is in use -/
def sniBusy : World := ⟨fun _ _ => true, fun k _ => k != .sni, fun _ _ => true, true⟩
example : process { full with tlsAddr := [], quicAddr := [] } sniBusy =
    (.running, [⟨.plain, ":80".toList, .clear⟩]) :=
  (failed_start_serves (c := { full with tlsAddr := [], quicAddr := [] }) rfl (by decide) rfl rfl rfl (by decide)
    (fun _ => rfl) (by decide) (fun _ => rfl)).2.1

/-- only QUIC: the status check has no target -/
example : (start { quicAddr := "443".toList, apiAddr := "8080".toList } allGood).res = .ok ∧
    statusTarget (start { quicAddr := "443".toList, apiAddr := "8080".toList } allGood) = none := by
  decide +kernel

end Verif.Server.Start
